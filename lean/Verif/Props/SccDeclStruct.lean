import Verif.Props.SccDecl
/-!
# Declarations of types in `scc.c` (C40): structures

The tables which the compiler builds for a structure or union represent the declared type.
-/
namespace SccDecl
open Prog Text Scc SccCode SccGen SccHead SccSize Props.SccLex Props.SccIds

/-! ## Specification -/

/-- The tag of a structure or union. -/
def tag (u : Bool) (x : Nat) : Nat := (if u then 0x8000 else 0) ||| x

/-- What is known of the tags: nothing, that the type is not complete, or the type. -/
abbrev Env := Nat → Option (Option CT)

def Env.set (env : Env) (u : Bool) (x : Option Nat) (v : Option CT) : Env :=
  match x with
  | none => env
  | some y => fun g => if g = tag u y then some v else env g

def kw (t : Nat) : Tk := .id (t - tokKeyword)

def chars : List (List Nat) := [[tokChar], [tokSigned, tokChar], [tokUnsigned, tokChar]]
def ints : List (List Nat) :=
  [[tokInt], [tokShort], [tokSigned], [tokUnsigned], [tokShort, tokInt], [tokSigned, tokInt], [tokUnsigned, tokInt], [tokSigned, tokShort], [tokUnsigned, tokShort],
    [tokSigned, tokShort, tokInt], [tokUnsigned, tokShort, tokInt]]

def ofList : List (Nat × CT) → Mems
  | [] => .nil
  | m :: ms => .cons m.1 m.2 (ofList ms)

def agg (u : Bool) (ms : List (Nat × CT)) : CT := if u then .union (ofList ms) else .struct (ofList ms)

/-- Declarators with commas between them. -/
inductive Dcls (o : Option CT) : List Tk → List (Nat × CT) → Prop
  | one {d : List Tk} {x : Nat} {t : CT} (h : Dcl o d x t) : Dcls o d [(x, t)]
  | more {d ds : List Tk} {x : Nat} {t : CT} {ms : List (Nat × CT)} (h : Dcl o d x t) (hs : Dcls o ds ms) : Dcls o (d ++ .sym 0x2C precComma :: ds) ((x, t) :: ms)

mutual
/-- Specifiers and the type they give, if it is complete; the tags known before and after them.  A tag may be declared once. -/
inductive Spec : Env → List Tk → Option CT → Env → Prop
  | void (env : Env) : Spec env [kw tokVoid] none env
  | char (env : Env) {ws : List Nat} (h : ws ∈ chars) : Spec env (ws.map kw) (some .char) env
  | int (env : Env) {ws : List Nat} (h : ws ∈ ints) : Spec env (ws.map kw) (some .int) env
  | qual {env env' : Env} {ts : List Tk} {o : Option CT} (q : Nat) (hq : q = tokConst ∨ q = tokVolatile) (h : Spec env ts o env') : Spec env (kw q :: ts) o env'
  | ref (env : Env) (u : Bool) (x : Nat) (hx : 37 ≤ x ∧ x < idMax) : Spec env [kw (if u then tokUnion else tokStruct), .id x] (env (tag u x)).join env
  | agg {env env' : Env} {ls : List Tk} {ms : List (Nat × CT)} (u : Bool) (x : Option Nat) (hx : ∀ y, x = some y → (37 ≤ y ∧ y < idMax) ∧ env (tag u y) = none)
      (h : Lines (env.set u x none) ls ms env') :
      Spec env (kw (if u then tokUnion else tokStruct) :: (x.toList.map Tk.id ++ .sym 0x7B precStop :: (ls ++ [.sym 0x7D precStop]))) (some (agg u ms)) (env'.set u x (some (agg u ms)))
/-- The declarations in a structure, and its members. -/
inductive Lines : Env → List Tk → List (Nat × CT) → Env → Prop
  | nil (env : Env) : Lines env [] [] env
  | cons {env env1 env2 : Env} {sp ds ls : List Tk} {o : Option CT} {ms ms' : List (Nat × CT)} (hs : Spec env sp o env1) (hd : Dcls o ds ms) (hl : Lines env1 ls ms' env2) :
      Lines env (sp ++ (ds ++ .sym 0x3B precStop :: ls)) (ms ++ ms') env2
end

variable {N : List (List Byte)} {E : List Byte}

/-! ## Tags -/

theorem tag_ne : ∀ x < idMax, ∀ u v : Bool, tag u x ≠ tag v idMax := by decide +kernel
theorem tag_bit : ∀ x < idMax + 1, ∀ u : Bool, (tag u x &&& 0x8000 = 0 ↔ u = false) := by decide +kernel

theorem find_congr {s s' : S} (h : s'.structCount = s.structCount) (hi : ∀ k < s.structCount, (s'.structs.get k).id = (s.structs.get k).id) (g : Nat) :
    findStruct s' g = findStruct s g := by
  unfold findStruct
  rw [h]
  have : (List.range s.structCount).reverse.find? (fun i => (s'.structs.get i).id == g) = (List.range s.structCount).reverse.find? (fun i => (s.structs.get i).id == g) := by
    have hl : ∀ l : List Nat, (∀ k ∈ l, k < s.structCount) → l.find? (fun i => (s'.structs.get i).id == g) = l.find? (fun i => (s.structs.get i).id == g) := by
      intro l hl
      induction l with
      | nil => rfl
      | cons k l ih =>
        rw [List.find?_cons, List.find?_cons, hi k (hl k (by simp)), ih fun j hj => hl j (List.mem_cons_of_mem _ hj)]
    exact hl _ fun k hk => by simpa using hk
  rw [this]

theorem find_push {s s' : S} {i : Nat} (h : s'.structCount = s.structCount + 1) (hi : ∀ k < s.structCount, (s'.structs.get k).id = (s.structs.get k).id)
    (hn : (s'.structs.get s.structCount).id = i) (g : Nat) : findStruct s' g = if i = g then (s.structCount : Int) else findStruct s g := by
  have e := find_congr (s := s) (s' := { s' with structCount := s.structCount }) rfl hi g
  rw [← e]
  unfold findStruct
  rw [h, List.range_succ, List.reverse_append, List.reverse_singleton, List.singleton_append, List.find?_cons, hn]
  by_cases hg : i = g
  · simp [hg]
  · rw [show (i == g) = false from beq_eq_false_iff_ne.2 hg, if_neg hg]

/-! ## The state between declarations -/

/-- The tables are in order: `om` and `os` are the members and structures not yet complete, `ix` the structures found for the tags. -/
structure Ok (om os : List Nat) (env : Env) (ix : Nat → Int) (s : S) : Prop where
  ac : s.arrayCount ≤ 32
  mc : s.memCount ≤ 32
  sc : s.structCount ≤ 8
  oml : ∀ k ∈ om, k < s.memCount
  osl : ∀ k ∈ os, k < s.structCount
  find : ∀ u x, x < idMax → findStruct s (tag u x) = ix (tag u x)
  free : ∀ u x, x < idMax → env (tag u x) = none → ix (tag u x) = -1
  full : ∀ u x t, x < idMax → env (tag u x) = some (some t) → ∃ k : Nat, ix (tag u x) = k ∧ Rep om os s vtStruct k t
  td : NoTd s

theorem Ok.next {om os om' os' : List Nat} {env : Env} {ix : Nat → Int} {s s' : S} (h : Ok om os env ix s) (k : Keep om' os' s s') (hm : ∀ j < s.memCount, j ∈ om' → j ∈ om)
    (hs : ∀ j < s.structCount, j ∈ os' → j ∈ os) (h1 : s'.arrayCount ≤ 32) (h2 : s'.memCount ≤ 32) (h3 : s'.structCount = s.structCount)
    (hi : ∀ k < s.structCount, (s'.structs.get k).id = (s.structs.get k).id) (hom : ∀ k ∈ om', k < s'.memCount) (hos : ∀ k ∈ os', k < s'.structCount) (hz : fz s' = fz s) :
    Ok om' os' env ix s' := by
  refine ⟨h1, h2, by rw [h3]; exact h.sc, hom, hos, fun u x hx => ?_, h.free, fun u x t hx he => ?_, noTd_fz h.td hz⟩
  · rw [find_congr h3 hi]; exact h.find u x hx
  · obtain ⟨j, e, r⟩ := h.full u x t hx he
    exact ⟨j, e, (r.mono hm hs).keep k⟩

theorem Ok.upd {om os : List Nat} {env : Env} {ix : Nat → Int} {s s' : S} (h : Ok om os env ix s) (e : tb s' = tb s) (hz : fz s' = fz s) : Ok om os env ix s' := by
  obtain ⟨_, m2, m3, m4, _⟩ := mem_tb e
  obtain ⟨_, q2⟩ := arr_tb e
  exact h.next (.of_tb e) (fun _ _ h => h) (fun _ _ h => h) (by rw [q2]; exact h.ac) (by rw [m2]; exact h.mc) m4 (fun k _ => by rw [m3]) (by rw [m2]; exact h.oml)
    (by rw [m4]; exact h.osl) hz

/-! ## Lists of members -/

/-- The members `ks` are linked in this order, and are the members `ms`. -/
def Seg (P : Nat → Int → CT → Prop) (m : Tab StructMember 5) : List Nat → List (Nat × CT) → Prop
  | [], [] => True
  | k :: ks, x :: ms => (m.get k).id = x.1 ∧ P (m.get k).type (m.get k).extra x.2 ∧ (ks ≠ [] → (m.get k).next = ks.head?) ∧ Seg P m ks ms
  | _, _ => False

theorem Seg.keep {P P' : Nat → Int → CT → Prop} {m m' : Tab StructMember 5} (hP : ∀ ty ex t, P ty ex t → P' ty ex t) :
    ∀ {ks : List Nat} {ms : List (Nat × CT)}, Seg P m ks ms → (∀ k ∈ ks, m'.get k = m.get k) → Seg P' m' ks ms
  | [], [], _, _ => trivial
  | [], _ :: _, h, _ => h.elim
  | _ :: _, [], h, _ => h.elim
  | k :: ks, x :: ms, ⟨h1, h2, h3, h4⟩, hm => by
    have e := hm k (by simp)
    refine ⟨by rw [e]; exact h1, by rw [e]; exact hP _ _ _ h2, by rw [e]; exact h3, Seg.keep hP h4 fun j hj => hm j (List.mem_cons_of_mem _ hj)⟩

theorem Seg.snoc {P P' : Nat → Int → CT → Prop} {m m' : Tab StructMember 5} (hP : ∀ ty ex t, P ty ex t → P' ty ex t) {k : Nat} {x : Nat × CT} (h1 : (m'.get k).id = x.1)
    (h2 : P' (m'.get k).type (m'.get k).extra x.2) :
    ∀ {ks : List Nat} {ms : List (Nat × CT)}, Seg P m ks ms → ks.Nodup → (∀ j ∈ ks, ks.getLast? ≠ some j → m'.get j = m.get j) →
      (∀ l, ks.getLast? = some l → m'.get l = { m.get l with next := some k }) → Seg P' m' (ks ++ [k]) (ms ++ [x])
  | [], [], _, _, _, _ => ⟨h1, h2, fun h => absurd rfl h, trivial⟩
  | [], _ :: _, h, _, _, _ => h.elim
  | _ :: _, [], h, _, _, _ => h.elim
  | [j], [y], ⟨a1, a2, _, _⟩, _, _, hl => by
    have e := hl j rfl
    exact ⟨by rw [e]; exact a1, by rw [e]; exact hP _ _ _ a2, fun _ => by rw [e]; rfl, h1, h2, fun h => absurd rfl h, trivial⟩
  | [j], _ :: _ :: _, ⟨_, _, _, h⟩, _, _, _ => h.elim
  | j :: i :: ks, y :: ms, ⟨a1, a2, a3, a4⟩, hn, hm, hl => by
    have hlast : (j :: i :: ks).getLast? = (i :: ks).getLast? := by simp
    have hne : (j :: i :: ks).getLast? ≠ some j := by
      rw [hlast]
      intro e
      have : j ∈ i :: ks := List.mem_of_getLast? e
      exact (List.nodup_cons.1 hn).1 this
    have e := hm j (by simp) hne
    refine ⟨by rw [e]; exact a1, by rw [e]; exact hP _ _ _ a2, fun _ => by rw [e, a3 (by simp)]; rfl, ?_⟩
    exact Seg.snoc hP h1 h2 a4 (List.nodup_cons.1 hn).2 (fun i' hi hi' => hm i' (List.mem_cons_of_mem _ hi) (by rw [hlast]; exact hi')) fun l hl' => hl l (by rw [hlast]; exact hl')

/-- A complete list of members. -/
theorem Seg.close {P : Nat → Int → CT → Prop} {m : Tab StructMember 5} {s : S} (hP : ∀ ty ex t, P ty ex t → Repr s ty ex t) :
    ∀ {ks : List Nat} {ms : List (Nat × CT)}, Seg P m ks ms → ks.Nodup → (∀ j ∈ ks, ks.getLast? ≠ some j → s.members.get j = m.get j) →
      (∀ l, ks.getLast? = some l → s.members.get l = { m.get l with next := none }) → ReprMems s ks.head? (ofList ms)
  | [], [], _, _, _, _ => .nil
  | [], _ :: _, h, _, _, _ => h.elim
  | _ :: _, [], h, _, _, _ => h.elim
  | [j], [y], ⟨a1, a2, _, _⟩, _, _, hl => by
    have e := hl j rfl
    have r := ReprMems.cons (s := s) (k := j) (t := y.2) (ms := .nil) (by rw [e]; exact hP _ _ _ a2) (by rw [e]; exact .nil)
    rw [show (s.members.get j).id = y.1 by rw [e]; exact a1] at r
    exact r
  | [j], _ :: _ :: _, ⟨_, _, _, h⟩, _, _, _ => h.elim
  | j :: i :: ks, y :: ms, ⟨a1, a2, a3, a4⟩, hn, hm, hl => by
    have hlast : (j :: i :: ks).getLast? = (i :: ks).getLast? := by simp
    have hne : (j :: i :: ks).getLast? ≠ some j := by
      rw [hlast]
      intro e
      have : j ∈ i :: ks := List.mem_of_getLast? e
      exact (List.nodup_cons.1 hn).1 this
    have e := hm j (by simp) hne
    have ih := Seg.close hP a4 (List.nodup_cons.1 hn).2 (fun i' hi hi' => hm i' (List.mem_cons_of_mem _ hi) (by rw [hlast]; exact hi')) fun l hl' => hl l (by rw [hlast]; exact hl')
    have r := ReprMems.cons (s := s) (k := j) (t := y.2) (ms := ofList ms) (by rw [e]; exact hP _ _ _ a2) (by rw [e, a3 (by simp)]; exact ih)
    rw [show (s.members.get j).id = y.1 by rw [e]; exact a1] at r
    exact r

/-! ## A list of declarators of members -/

theorem dec_enc (o : Option Nat) : decLast (encLast o) = o := by
  cases o with
  | none => rfl
  | some k => exact (if_neg (show ¬((k : Int) < 0) by omega)).trans (by rfl)

/-- The members of the structure `si` up to here. -/
structure Body (om os : List Nat) (s : S) (si : Nat) (ks : List Nat) (ms : List (Nat × CT)) : Prop where
  seg : Seg (Rep (ks ++ om) (si :: os) s) s.members ks ms
  head : ks ≠ [] → (s.structs.get si).members = ks.head?
  nodup : ks.Nodup

theorem Body.keep {om os : List Nat} {s s' : S} {si : Nat} {ks : List Nat} {ms : List (Nat × CT)} (h : Body om os s si ks ms) (k : Keep [] [] s s') (hks : ∀ j ∈ ks, j < s.memCount)
    (hsi : si < s.structCount) : Body om os s' si ks ms :=
  ⟨h.seg.keep (fun _ _ _ r => r.keep (k.mono (by simp) (by simp))) fun j hj => k.mem j (hks j hj) (by simp), fun hn => by rw [k.str si hsi (by simp)]; exact h.head hn, h.nodup⟩

theorem dcl_first {o : Option CT} {d : List Tk} {x : Nat} {t : CT} (h : Dcl o d x t) : ∃ v vs, d = v :: vs ∧ (v.tok = 0x2A ∨ ∃ y, v = .id y ∧ 37 ≤ y ∧ y < idMax) := by
  cases h with
  | val x hx => exact ⟨_, _, rfl, .inr ⟨x, rfl, hx⟩⟩
  | ptr p x _ hx => exact ⟨_, _, rfl, .inl rfl⟩

/-- One member. -/
theorem member_ok {om os : List Nat} {env : Env} {ix : Nat → Int} {o : Option CT} {d : List Tk} {x : Nat} {t : CT} (h : Dcl o d x t) {u : Tk} (hu : u.tok ≠ 0x5B ∧ u.tok ≠ 0x28) {ts : List Tk}
    {s : S} {si : Nat} {ks : List Nat} {ms : List (Nat × CT)} (hat : At N E s (d ++ u :: ts)) (hok : Ok (ks ++ om) (si :: os) env ix s) (hbody : Body om os s si ks ms)
    (hb : Base (ks ++ om) (si :: os) s s.type s.extra o) (hc : s.arrayCount + cnt 0x5B d ≤ 32) (hm : s.memCount < 32) :
    ∃ s', At N E s' (u :: ts) ∧ Ok ((ks ++ [s.memCount]) ++ om) (si :: os) env ix s' ∧ Body om os s' si (ks ++ [s.memCount]) (ms ++ [(x, t)]) ∧ (s'.structs.get si).id = (s.structs.get si).id ∧
      Keep ks [si] s s' ∧ s'.arrayCount = s.arrayCount + cnt 0x5B d ∧ s'.memCount = s.memCount + 1 ∧ s'.structCount = s.structCount ∧ s'.baseType = s.baseType ∧ s'.baseExtra = s.baseExtra ∧
      fz s' = fz s ∧ ∀ v s'', (∃ M, ∀ n, M ≤ n → (if u.tok = 0x2C then getToken >>= fun _ => (modS fun s => { s with type := s.baseType, extra := s.baseExtra }) >>= fun _ => run n (.memberList si (some s.memCount))
        else pure (encLast (some s.memCount)) : A Int) s' = .ok v s'') → GoV (.memberList si ks.getLast?) v s s'' := by
  have hks : ∀ j ∈ ks, j < s.memCount := fun j hj => hok.oml j (List.mem_append_left _ hj)
  have hsi : si < s.structCount := hok.osl si (by simp)
  have hsc := hok.sc
  let k := s.memCount
  let om' := (ks ++ [k]) ++ om
  have hom : ∀ j < s.memCount, j ∈ om' → j ∈ ks ++ om := by
    intro j hj hj'
    simp only [om', List.mem_append, List.mem_singleton] at hj' ⊢
    rcases hj' with (h | h) | h
    · exact .inl h
    · exact absurd h (Nat.ne_of_lt hj)
    · exact .inr h
  let s1 : S := { s with memCount := k + 1 }
  have k1 : Keep om' (si :: os) s s1 := ⟨Nat.le_refl _, Nat.le_succ _, Nat.le_refl _, fun _ _ => rfl, fun _ _ _ => rfl, fun _ _ _ => rfl⟩
  have b1 : Base om' (si :: os) s1 s1.type s1.extra o := ⟨hb.lt, hb.ne, fun t ht => ((hb.rep t ht).mono hom fun _ _ h => h).keep k1⟩
  obtain ⟨s2, g2, a2, r2, m2, c2, st2, sc2, bt2, be2, ac2, kp2, z2, _⟩ := dcl_ok (om := om') (os := si :: os) (dest := .member k) (.inr ⟨k, rfl⟩)
    (fun j hj => by cases hj; exact ⟨by simp [om'], hm⟩) h hu (hat.congr (s' := s1) rfl) b1 hc (show k + 1 ≤ 32 from hm)
  obtain ⟨M2, g2⟩ := g2
  let s3 : S := { s2 with members := s2.members.set k { s2.members.get k with type := s2.type, extra := s2.extra } }
  have m3 : ∀ j < 32, j ≠ k → s3.members.get j = s.members.get j := by
    intro j hj hne
    show (s2.members.set _ _).get j = _
    rw [Tab.get_set_ne _ _ hm hj (Ne.symm hne), m2]
    exact Tab.get_set_ne _ _ hm hj (Ne.symm hne)
  have m3k : (s3.members.get k).id = x ∧ (s3.members.get k).type = s2.type ∧ (s3.members.get k).extra = s2.extra := by
    show ((s2.members.set _ _).get k).id = _ ∧ ((s2.members.set _ _).get k).type = _ ∧ ((s2.members.set _ _).get k).extra = _
    rw [Tab.get_set_self]
    refine ⟨?_, rfl, rfl⟩
    show (s2.members.get k).id = x
    rw [m2]
    show ((s1.members.set _ _).get _).id = _
    rw [Tab.get_set_self]
  -- the link
  obtain ⟨s4, e4, ms4, l4, st4, sid4, sh4, o4⟩ : ∃ s4, setLast si ks.getLast? (some k) s3 = .ok () s4 ∧ (∀ j < 32, ks.getLast? ≠ some j → s4.members.get j = s3.members.get j) ∧
      (∀ l, ks.getLast? = some l → s4.members.get l = { s3.members.get l with next := some k }) ∧ (∀ j < 8, j ≠ si → s4.structs.get j = s3.structs.get j) ∧
      (s4.structs.get si).id = (s3.structs.get si).id ∧ ((s4.structs.get si).members = if ks = [] then some k else (s3.structs.get si).members) ∧
      (∃ mm st, s4 = { s3 with members := mm, structs := st }) := by
    cases hl : ks.getLast? with
    | none =>
      obtain rfl : ks = [] := by simpa using hl
      refine ⟨_, rfl, fun _ _ _ => rfl, nofun, fun j hj hne => Tab.get_set_ne _ _ (by show si < 8; omega) hj (Ne.symm hne), ?_, ?_, _, _, rfl⟩
      · show ((s3.structs.set _ _).get _).id = _; rw [Tab.get_set_self]
      · show ((s3.structs.set _ _).get _).members = _; rw [Tab.get_set_self]; rfl
    | some l =>
      have hl32 : l < 32 := by have := hks l (List.mem_of_getLast? hl); omega
      refine ⟨_, rfl, fun j hj hne => Tab.get_set_ne _ _ hl32 hj (fun e => hne (by rw [e])), fun l' hl' => ?_, fun _ _ _ => rfl, rfl, ?_, _, _, rfl⟩
      · cases hl'
        exact Tab.get_set_self _ _ _
      · rw [if_neg]
        rintro rfl
        cases hl
  obtain ⟨mm, stt, o4⟩ := o4
  have hlk : ks.getLast? ≠ some k := fun e => Nat.lt_irrefl _ (hks k (List.mem_of_getLast? e))
  have ac4 : s4.arrayCount = s.arrayCount + cnt 0x5B d := by rw [o4]; exact ac2
  have mc4 : s4.memCount = k + 1 := by rw [o4]; exact c2
  have sc4 : s4.structCount = s.structCount := by rw [o4]; exact sc2
  have ar4 : s4.arrays = s2.arrays := by rw [o4]
  have st3 : s3.structs = s.structs := st2
  have k24 : Keep om' (si :: os) s2 s4 := by
    refine ⟨Nat.le_of_eq (ac2.trans ac4.symm), Nat.le_of_eq (c2.trans mc4.symm), Nat.le_of_eq (sc2.trans sc4.symm), fun j _ => by rw [ar4], fun j hj ho => ?_, fun j hj ho => ?_⟩
    · have hj32 : j < 32 := by rw [c2] at hj; exact Nat.lt_of_lt_of_le hj hm
      have hjk : j ≠ k := fun e => ho (by simp [om', e])
      rw [ms4 j hj32 fun e => ho (by simp [om', List.mem_of_getLast? e])]
      exact Tab.get_set_ne _ _ hm hj32 (Ne.symm hjk)
    · rw [st4 j (by rw [sc2] at hj; exact Nat.lt_of_lt_of_le hj hsc) (fun e => ho (by simp [e]))]
  have k4 : Keep om' (si :: os) s s4 := k1.trans (kp2.trans k24)
  have kk : Keep ks [si] s s4 := by
    refine ⟨k4.ac, k4.mc, k4.sc, k4.arr, fun j hj ho => ?_, fun j hj ho => ?_⟩
    · rw [ms4 j (by omega) fun e => ho (List.mem_of_getLast? e), m3 j (by omega) (Nat.ne_of_lt hj)]
    · rw [st4 j (by omega) (by simpa using ho), st3]
  have z4 : fz s4 = fz s := by rw [o4]; exact (show fz s3 = fz s2 from rfl).trans (z2.trans rfl)
  have sids : ∀ j < s.structCount, (s4.structs.get j).id = (s.structs.get j).id := by
    intro j hj
    by_cases he : j = si
    · rw [he, sid4, st3]
    · rw [st4 j (by omega) he, st3]
  refine ⟨s4, a2.congr (by rw [o4]; rfl), hok.next k4 hom (fun _ _ h => h) (by rw [ac4]; exact hc) (by rw [mc4]; exact hm) sc4 sids ?_ ?_ z4, ⟨?_, fun _ => ?_, ?_⟩, sids si hsi, kk, ac4, mc4, sc4,
    by rw [o4]; exact bt2, by rw [o4]; exact be2, z4, fun v s'' hv => ?_⟩
  · intro j hj
    rw [mc4]
    simp only [List.mem_append, List.mem_singleton] at hj
    rcases hj with (h | h) | h
    · exact Nat.lt_succ_of_lt (hks j h)
    · exact h ▸ Nat.lt_succ_self _
    · exact Nat.lt_succ_of_lt (hok.oml j (List.mem_append_right _ h))
  · intro j hj
    rw [sc4]
    exact hok.osl j hj
  · have hk4 : s4.members.get k = s3.members.get k := ms4 k hm hlk
    refine Seg.snoc (m := s.members) (P := Rep (ks ++ om) (si :: os) s) (fun ty ex t r => (r.mono hom fun _ _ h => h).keep k4) (by rw [hk4]; exact m3k.1) ?_ hbody.seg hbody.nodup ?_ ?_
    · rw [hk4, m3k.2.1, m3k.2.2]
      exact r2.keep k24
    · intro j hj hne
      have := hks j hj
      rw [ms4 j (by omega) hne, m3 j (by omega) (Nat.ne_of_lt this)]
    · intro l hl
      have := hks l (List.mem_of_getLast? hl)
      rw [l4 l hl, m3 l (by omega) (Nat.ne_of_lt this)]
  · rw [sh4]
    by_cases he : ks = []
    · rw [if_pos he, he]; rfl
    · rw [if_neg he, st3, hbody.head he]
      cases ks with
      | nil => exact absurd rfl he
      | cons a b => rfl
  · rw [List.nodup_append]
    refine ⟨hbody.nodup, by simp, fun a ha b hb => ?_⟩
    simp only [List.mem_singleton] at hb
    rw [hb]
    exact Nat.ne_of_lt (hks a ha)
  · obtain ⟨M, hv⟩ := hv
    obtain ⟨v0, vs0, hv0, hf⟩ := dcl_first h
    have t0 : s.tok = v0.tok := by rw [hv0] at hat; exact hat.1.tok
    have hne : s.tok ≠ 0x3B := by
      rw [t0]
      rcases hf with h | ⟨y, rfl, h⟩
      · rw [h]; decide
      · show y + 150 ≠ _; omega
    refine GoV.of (M + M2) fun n hn => run_getS (run_neg hne (run_failIf (beq_eq_false_iff_ne.2 (Nat.ne_of_lt hm)) (run_modS ?_)))
    refine run_bind (a := ()) (s1 := s2) (run_bind (g2 n (by omega)) rfl) (run_getS (run_failIf ?_ (run_modS (run_bind e4 ?_))))
    · refine decide_eq_false ?_
      rw [m2]
      show ¬ ((s1.members.set _ _).get k).id < 0
      rw [Tab.get_set_self]
      show ¬ (x : Int) < 0
      omega
    · have h := hv n (by omega)
      have t4 : s2.tok = u.tok := a2.1.tok
      by_cases hcc : u.tok = 0x2C
      · rw [if_pos hcc] at h
        exact run_pos (t4.trans hcc) h
      · rw [if_neg hcc] at h
        exact run_neg (fun e => hcc (t4.symm.trans e)) h

theorem Keep.comp {om om2 os os2 : List Nat} {s s1 s2 : S} (h1 : Keep om os s s1) (h2 : Keep om2 os2 s1 s2) (hm : ∀ j < s.memCount, j ∈ om2 → j ∈ om)
    (hs : ∀ j < s.structCount, j ∈ os2 → j ∈ os) : Keep om os s s2 :=
  ⟨Nat.le_trans h1.ac h2.ac, Nat.le_trans h1.mc h2.mc, Nat.le_trans h1.sc h2.sc, fun k hk => (h2.arr k (Nat.lt_of_lt_of_le hk h1.ac)).trans (h1.arr k hk),
    fun k hk ho => (h2.mem k (Nat.lt_of_lt_of_le hk h1.mc) fun hi => ho (hm k hk hi)).trans (h1.mem k hk ho),
    fun k hk ho => (h2.str k (Nat.lt_of_lt_of_le hk h1.sc) fun hi => ho (hs k hk hi)).trans (h1.str k hk ho)⟩

theorem last_snoc (ks : List Nat) (k : Nat) : (ks ++ [k]).getLast? = some k := by simp

/-- The declarators of a declaration of members. -/
theorem dcls_ok {om os : List Nat} {env : Env} {ix : Nat → Int} {o : Option CT} {ds : List Tk} {ms : List (Nat × CT)} (h : Dcls o ds ms) {ts : List Tk} {si : Nat} :
    ∀ {s : S} {ks : List Nat} {ms0 : List (Nat × CT)}, At N E s (ds ++ .sym 0x3B precStop :: ts) → Ok (ks ++ om) (si :: os) env ix s → Body om os s si ks ms0 →
    Base (ks ++ om) (si :: os) s s.type s.extra o → s.type = s.baseType → s.extra = s.baseExtra → s.arrayCount + cnt 0x5B ds ≤ 32 → s.memCount + ms.length ≤ 32 →
    ∃ s' ks', GoV (.memberList si ks.getLast?) (encLast ks'.getLast?) s s' ∧ At N E s' (.sym 0x3B precStop :: ts) ∧ Ok (ks' ++ om) (si :: os) env ix s' ∧ Body om os s' si ks' (ms0 ++ ms) ∧
      (s'.structs.get si).id = (s.structs.get si).id ∧ Keep ks [si] s s' ∧ s'.arrayCount = s.arrayCount + cnt 0x5B ds ∧ s'.memCount = s.memCount + ms.length ∧
      s'.structCount = s.structCount ∧ fz s' = fz s ∧ ∀ j ∈ ks', j ∈ ks ∨ s.memCount ≤ j := by
  induction h with
  | one h =>
    intro s ks ms0 hat hok hbody hb _ _ hc hm
    obtain ⟨s1, a1, o1, b1, i1, k1, ac1, mc1, sc1, _, _, z1, g1⟩ := member_ok h (by decide) hat hok hbody hb hc hm
    refine ⟨s1, _, g1 _ s1 ⟨0, fun n _ => ?_⟩, a1, o1, b1, i1, k1, ac1, mc1, sc1, z1, fun j hj => ?_⟩
    · rw [if_neg (by decide), last_snoc]; rfl
    · simp only [List.mem_append, List.mem_singleton] at hj
      exact hj.imp_right fun h => Nat.le_of_eq h.symm
  | @more d ds x t ms h hs ih =>
    intro s ks ms0 hat hok hbody hb hty hex hc hm
    rw [cnt_append, cnt_cons, if_neg (by decide)] at hc
    simp only [List.length_cons] at hm
    rw [List.append_assoc] at hat
    have hat : At N E s (d ++ .sym 0x2C precComma :: (ds ++ .sym 0x3B precStop :: ts)) := hat
    obtain ⟨s1, a1, o1, b1, i1, k1, ac1, mc1, sc1, bt1, be1, z1, g1⟩ := member_ok h (by decide) hat hok hbody hb (by omega) (by omega)
    obtain ⟨v, vs, hv⟩ : ∃ v vs, ds ++ .sym 0x3B precStop :: ts = v :: vs := by
      cases ds with
      | nil => exact ⟨_, _, rfl⟩
      | cons d ds => exact ⟨_, _, rfl⟩
    rw [hv] at a1
    obtain ⟨s2, e2, k2, a2⟩ := a1.next
    let s3 : S := { s2 with type := s2.baseType, extra := s2.baseExtra }
    obtain ⟨_, m2, m3, m4, m5, m6⟩ := mem_tb k2.tb
    obtain ⟨q1, q2⟩ := arr_tb k2.tb
    have e23 : tb s3 = tb s2 := rfl
    have t3 : tb s3 = tb s1 := e23.trans k2.tb
    have z3 : fz s3 = fz s1 := (show fz s3 = fz s2 from rfl).trans k2.fz
    have y3 : s3.type = s.type := by show s2.baseType = _; rw [m5, bt1, hty]
    have x3 : s3.extra = s.extra := by show s2.baseExtra = _; rw [m6, be1, hex]
    have hks : ∀ j ∈ ks, j < s.memCount := fun j hj => hok.oml j (List.mem_append_left _ hj)
    have hsi : si < s.structCount := hok.osl si (by simp)
    have hom : ∀ j < s.memCount, j ∈ (ks ++ [s.memCount]) ++ om → j ∈ ks ++ om := by
      intro j hj hj'
      simp only [List.mem_append, List.mem_singleton] at hj' ⊢
      rcases hj' with (h | h) | h
      · exact .inl h
      · exact absurd h (Nat.ne_of_lt hj)
      · exact .inr h
    have b3 : Base ((ks ++ [s.memCount]) ++ om) (si :: os) s3 s3.type s3.extra o := by
      rw [y3, x3]
      refine ⟨hb.lt, hb.ne, fun t ht => ((hb.rep t ht).mono hom fun _ _ h => h).keep ((k1.mono ?_ ?_).trans (.of_tb t3))⟩
      · intro j _ hj; simp [hj]
      · intro j _ hj; simp only [List.mem_singleton] at hj; simp [hj]
    have hmc3 : s3.memCount = s1.memCount := m2
    have hsc3 : s3.structCount = s1.structCount := m4
    have body3 : Body om os s3 si (ks ++ [s.memCount]) (ms0 ++ [(x, t)]) := b1.keep (.of_tb t3) (fun j hj => o1.oml j (List.mem_append_left _ hj)) (by rw [sc1]; exact hsi)
    obtain ⟨s4, ks', g4, a4, o4, b4, i4, k4, ac4, mc4, sc4, z4, n4⟩ := ih (s := s3) (ks := ks ++ [s.memCount]) (by rw [hv]; exact a2.congr rfl) (o1.upd t3 z3) body3 b3 rfl rfl
      (by show s2.arrayCount + _ ≤ _; rw [q2, ac1]; omega) (by rw [hmc3, mc1]; omega)
    obtain ⟨M, g4⟩ := g4
    refine ⟨s4, ks', g1 _ s4 ⟨M, fun n hn => ?_⟩, a4, o4, by rw [List.append_assoc] at b4; exact b4, ?_, ?_, ?_, ?_, ?_, ?_, ?_⟩
    · refine run_pos (show (Tk.sym 0x2C precComma).tok = 0x2C from rfl) (run_bind e2 (run_modS ?_))
      rw [← last_snoc ks s.memCount]
      exact g4 n hn
    · rw [i4]
      show (s2.structs.get si).id = _
      rw [m3, i1]
    · refine k1.comp (Keep.comp (.of_tb t3) k4 (fun _ _ h => h) fun _ _ h => h) ?_ fun _ _ h => h
      intro j hj hj'
      simp only [List.mem_append, List.mem_singleton] at hj'
      rcases hj' with h | h
      · exact h
      · exact absurd h (Nat.ne_of_lt hj)
    · rw [ac4, cnt_append, cnt_cons, if_neg (by decide)]
      show s2.arrayCount + _ = _
      rw [q2, ac1]; omega
    · rw [mc4, hmc3, mc1, List.length_cons]; omega
    · rw [sc4, hsc3, sc1]
    · exact z4.trans (z3.trans z1)
    · intro j hj
      rcases n4 j hj with h | h
      · simp only [List.mem_append, List.mem_singleton] at h
        exact h.imp_right fun h => Nat.le_of_eq h.symm
      · right; rw [hmc3, mc1] at h; omega

/-! ## Specifiers of one word each -/

/-- A token which ends specifiers. -/
def Ender (u : Tk) : Prop := (u.tok < 150 ∧ u.tok ≠ 0x7B) ∨ ∃ x, u = .id x ∧ 37 ≤ x ∧ x < idMax

theorem simple_no {t : Nat} (h : t < 150 ∨ tokId ≤ t) (ty fl : Nat) : simpleSpec t ty fl = none := by
  rcases h with h | h
  · have hne : ∀ k, 150 ≤ k → t ≠ k := fun k hk e => by omega
    unfold simpleSpec
    rw [if_neg (hne _ (by decide)), if_neg (hne _ (by decide)), if_neg (not_or.2 ⟨hne _ (by decide), hne _ (by decide)⟩), if_neg (hne _ (by decide)),
      if_neg (not_or.2 ⟨hne _ (by decide), not_or.2 ⟨hne _ (by decide), not_or.2 ⟨hne _ (by decide), not_or.2 ⟨hne _ (by decide), hne _ (by decide)⟩⟩⟩⟩), if_neg (hne _ (by decide)),
      if_neg (hne _ (by decide)), if_neg (hne _ (by decide)), if_neg (hne _ (by decide))]
  · exact simple_id h ty fl

theorem end_ok {s : S} {u : Tk} {ts : List Tk} (hat : At N E s (u :: ts)) (hu : Ender u) (htd : NoTd s) (fl : Nat) : Go (.specs fl) s { s with type := s.type ||| fl } := by
  have t0 : s.tok = u.tok := hat.1.tok
  have ht : s.tok < 150 ∨ tokId ≤ s.tok := by
    rw [t0]
    rcases hu with h | ⟨x, rfl, h, _⟩
    · exact .inl h.1
    · exact .inr (by show 187 ≤ x + 150; omega)
  have hl : lookupTypedef s = none := by
    rcases hu with h | ⟨x, rfl, h1, h2⟩
    · exact if_pos (by rw [t0]; exact Nat.lt_trans h.1 (by decide))
    · exact htd.none h2 t0
  refine Go.of 0 fun n _ => run_bind (a := ()) (s1 := { s with type := s.type ||| fl }) (run_getS ?_) rfl
  rw [simple_no ht]
  have hne : ∀ k, 150 ≤ k → k < 187 → s.tok ≠ k := fun k h1 h2 e => by
    rcases ht with h | h
    · omega
    · have h : 187 ≤ s.tok := h
      omega
  refine run_neg (hne _ (by decide) (by decide)) (run_neg (not_or.2 ⟨hne _ (by decide) (by decide), hne _ (by decide) (by decide)⟩) ?_)
  rw [hl]
  rfl

def specFold : List Nat → Nat → Nat → Option (Nat × Nat)
  | [], ty, fl => some (ty, fl)
  | w :: ws, ty, fl =>
    match simpleSpec w ty fl with
    | some (ty, fl) => specFold ws ty fl
    | none => none

theorem words_ok {u : Tk} {ts : List Tk} : ∀ (ws : List Nat) (s : S) (fl ty' fl' : Nat), (∀ w ∈ ws, 150 ≤ w) → At N E s (ws.map kw ++ u :: ts) → specFold ws s.type fl = some (ty', fl') →
    ∃ s', At N E s' (u :: ts) ∧ s'.type = ty' ∧ s'.extra = s.extra ∧ tb s' = tb s ∧ fz s' = fz s ∧ ∀ s'', Go (.specs fl') s' s'' → Go (.specs fl) s s'' := by
  intro ws
  induction ws with
  | nil =>
    intro s fl ty' fl' _ hat hf
    cases hf
    exact ⟨s, hat, rfl, rfl, rfl, rfl, fun _ h => h⟩
  | cons w ws ih =>
    intro s fl ty' fl' hw hat hf
    have hat : At N E s (kw w :: (ws.map kw ++ u :: ts)) := hat
    obtain ⟨v, vs, hv⟩ : ∃ v vs, ws.map kw ++ u :: ts = v :: vs := by
      cases ws with
      | nil => exact ⟨_, _, rfl⟩
      | cons d ds => exact ⟨_, _, rfl⟩
    have t0 : s.tok = w := by
      have : s.tok = (w - 150) + 150 := hat.1.tok
      have := hw w (by simp)
      omega
    rw [hv] at hat
    unfold specFold at hf
    split at hf
    case h_2 => cases hf
    case h_1 ty fl1 he =>
    let s1 : S := { s with type := ty }
    obtain ⟨s2, e2, k2, a2⟩ := (hat.congr (s' := s1) rfl).next
    rw [← hv] at a2
    obtain ⟨s3, a3, y3, x3, b3, z3, g3⟩ := ih s2 fl1 ty' fl' (fun w' h => hw w' (List.mem_cons_of_mem _ h)) a2 (by rw [k2.type]; exact hf)
    refine ⟨s3, a3, y3, x3.trans k2.extra, b3.trans k2.tb, z3.trans k2.fz, fun s'' h => ?_⟩
    obtain ⟨M, g⟩ := g3 s'' h
    refine Go.of M fun n hn => run_bind (a := ()) (s1 := s'') (run_getS ?_) rfl
    rw [t0, he]
    exact run_modS (run_bind e2 (g n hn))

/-- The words give the type `b`. -/
def gives (b : Nat) (ws : List Nat) : Bool :=
  ws.all (fun w => decide (150 ≤ w)) && match specFold ws vtInt 0 with
    | some (ty, fl) => decide ((ty ||| fl) < 16 ∧ (ty ||| fl) &&& vtBaseMask = b ∧ (ty ||| fl) &&& (vtPtrMask ||| vtFunPtr) = 0)
    | none => false

theorem chars_ok : ∀ ws ∈ chars, gives vtChar ws = true := by decide
theorem ints_ok : ∀ ws ∈ ints, gives vtInt ws = true := by decide

/-! ## Specifiers -/

/-- What holds after specifiers. -/
def SpecOk (env : Env) (ts : List Tk) (o : Option CT) (env' : Env) : Prop :=
  ∀ {N : List (List Byte)} {E : List Byte} {om os : List Nat} {ix : Nat → Int} {s : S} {u : Tk} {rest : List Tk}, At N E s (ts ++ u :: rest) → Ender u → Ok om os env ix s → s.type = vtInt →
    s.arrayCount + cnt 0x5B ts ≤ 32 → s.memCount + (cnt 0x2C ts + cnt 0x3B ts) ≤ 32 → s.structCount + cnt 0x7B ts ≤ 8 →
    ∃ s' ix', Go (.specs 0) s s' ∧ At N E s' (u :: rest) ∧ Ok om os env' ix' s' ∧ (∀ g, env g ≠ none → env' g = env g ∧ ix' g = ix g) ∧ Base om os s' s'.type s'.extra o ∧ Keep [] [] s s' ∧
      s'.arrayCount = s.arrayCount + cnt 0x5B ts ∧ s'.memCount = s.memCount + (cnt 0x2C ts + cnt 0x3B ts) ∧ s'.structCount = s.structCount + cnt 0x7B ts ∧ fz s' = fz s

/-- What holds after the declarations in a structure. -/
def LinesOk (env : Env) (ls : List Tk) (ms : List (Nat × CT)) (env' : Env) : Prop :=
  ∀ {N : List (List Byte)} {E : List Byte} {om os : List Nat} {ix : Nat → Int} {s : S} {si : Nat} {ks : List Nat} {ms0 : List (Nat × CT)} {rest : List Tk},
    At N E s (ls ++ .sym 0x7D precStop :: rest) → Ok (ks ++ om) (si :: os) env ix s → Body om os s si ks ms0 →
    s.arrayCount + cnt 0x5B ls ≤ 32 → s.memCount + (cnt 0x2C ls + cnt 0x3B ls) ≤ 32 → s.structCount + cnt 0x7B ls ≤ 8 →
    ∃ s' ix' ks', GoV (.members si ks.getLast?) (encLast ks'.getLast?) s s' ∧ At N E s' (.sym 0x7D precStop :: rest) ∧ Ok (ks' ++ om) (si :: os) env' ix' s' ∧
      (∀ g, env g ≠ none → env' g = env g ∧ ix' g = ix g) ∧ Body om os s' si ks' (ms0 ++ ms) ∧ (s'.structs.get si).id = (s.structs.get si).id ∧ Keep ks [si] s s' ∧
      s'.arrayCount = s.arrayCount + cnt 0x5B ls ∧ s'.memCount = s.memCount + (cnt 0x2C ls + cnt 0x3B ls) ∧ s'.structCount = s.structCount + cnt 0x7B ls ∧ fz s' = fz s ∧
      ∀ j ∈ ks', j ∈ ks ∨ s.memCount ≤ j

theorem cnt_kw (c : Nat) (hc : c < 150) : ∀ ws : List Nat, cnt c (ws.map kw) = 0
  | [] => rfl
  | w :: ws => by
    rw [List.map_cons, cnt_cons, cnt_kw c hc ws, if_neg]
    show w - 150 + 150 ≠ c
    omega

theorem words_spec {b : Nat} {ws : List Nat} (h : gives b ws = true) (hb : b ≠ vtArray) {o : Option CT}
    (hr : ∀ (s : S) (om os : List Nat) (ty : Nat) (ex : Int), ty &&& vtBaseMask = b → ty &&& (vtPtrMask ||| vtFunPtr) = 0 → ∀ t, o = some t → Rep om os s ty ex t) (env : Env) :
    SpecOk env (ws.map kw) o env := by
  intro N E om os ix s u rest hat hu hok hty _ _ _
  unfold gives at h
  rw [Bool.and_eq_true] at h
  obtain ⟨h1, h2⟩ := h
  split at h2
  case h_2 => cases h2
  case h_1 ty fl he =>
  obtain ⟨p1, p2, p3⟩ := of_decide_eq_true h2
  obtain ⟨s1, a1, y1, x1, b1, z1, g1⟩ := words_ok ws s 0 ty fl (by simpa using h1) hat (by rw [hty]; exact he)
  have hok1 := hok.upd b1 z1
  let s2 : S := { s1 with type := s1.type ||| fl }
  have b2 : tb s2 = tb s := (show tb s2 = tb s1 from rfl).trans b1
  obtain ⟨_, m2, _, m4, _⟩ := mem_tb b2
  obtain ⟨_, q2⟩ := arr_tb b2
  have y2 : s2.type = ty ||| fl := by show s1.type ||| fl = _; rw [y1]
  refine ⟨s2, ix, g1 _ (end_ok a1 hu hok1.td fl), a1.congr rfl, hok1.upd (s' := s2) rfl rfl, fun _ _ => ⟨rfl, rfl⟩, ⟨by rw [y2]; exact p1, by rw [y2, p2]; exact hb, fun t ht => ?_⟩, .of_tb b2,
    by rw [q2, cnt_kw _ (by decide)]; rfl, by rw [m2, cnt_kw _ (by decide), cnt_kw _ (by decide)]; rfl, by rw [m4, cnt_kw _ (by decide)]; rfl, (show fz s2 = fz s1 from rfl).trans z1⟩
  rw [y2]
  exact hr _ _ _ _ _ p2 p3 t ht

theorem kw_agg (u : Bool) : (kw (if u then tokUnion else tokStruct)).tok = if u then tokUnion else tokStruct := by cases u <;> rfl

/-- Up to `struct` with its tag. -/
theorem struct_spec {s s' : S} {u : Bool} {fl : Nat} (ht : s.tok = if u then tokUnion else tokStruct) (h : ∃ M, ∀ n, M ≤ n → (parseStruct (run n) >>= fun _ => go' (run n) (.specs fl)) s = .ok () s') :
    Go (.specs fl) s s' := by
  obtain ⟨M, h⟩ := h
  refine Go.of M fun n hn => run_bind (a := ()) (s1 := s') (run_getS ?_) rfl
  have e : simpleSpec s.tok s.type fl = none := by rw [ht]; cases u <;> rfl
  rw [e]
  refine run_neg (by rw [ht]; cases u <;> decide) (run_pos ?_ (h n hn))
  cases u
  · exact .inl ht
  · exact .inr ht

theorem flag_eq {s : S} {u : Bool} (ht : s.tok = if u then tokUnion else tokStruct) (y : Nat) : (if s.tok = tokUnion then 0x8000 else 0) ||| y = tag u y := by
  rw [ht]; cases u <;> rfl

/-- The name of a structure which is used. -/
theorem name_ok {s : S} {u : Bool} {y : Nat} (hy : 37 ≤ y ∧ y < idMax) {v : Tk} {rest : List Tk} (hat : At N E s (kw (if u then tokUnion else tokStruct) :: .id y :: v :: rest)) :
    ∃ s', structName s = .ok (tag u y) s' ∧ At N E s' (v :: rest) ∧ s'.extra = findStruct s (tag u y) ∧ tb s' = tb s ∧ fz s' = fz s := by
  have t0 := hat.1.tok
  rw [kw_agg] at t0
  obtain ⟨s1, e1, k1, a1⟩ := hat.next
  let s2 : S := { s1 with extra := -1 }
  have a2 : At N E s2 (.id y :: v :: rest) := a1.congr rfl
  have t2 : s2.tok = y + tokKeyword := a2.1.tok
  have hid : tokId ≤ s2.tok := by rw [t2]; show 187 ≤ y + 150; omega
  obtain ⟨s3, e3, k3, a3⟩ := a2.next
  let s4 : S := { s3 with extra := findStruct s3 (tag u y) }
  have b3 : tb s3 = tb s := k3.tb.trans ((show tb s2 = tb s1 from rfl).trans k1.tb)
  obtain ⟨_, _, m3, m4, _⟩ := mem_tb b3
  refine ⟨s4, ?_, a3.congr rfl, find_congr m4 (fun k _ => by rw [m3]) _, b3, k3.fz.trans k1.fz⟩
  refine run_getS (run_bind e1 (run_modS (run_getS (run_pos hid (run_bind (a := y) (s1 := s3) ?_ (run_modS ?_))))))
  · refine run_getS (run_pos hid (run_bind e3 ?_))
    show Res.ok (s2.tok - tokKeyword) s3 = _
    rw [t2, Nat.add_sub_cancel]
  · rw [flag_eq t0]; rfl

theorem anon_ok {s : S} {u : Bool} {v : Tk} {rest : List Tk} (hv : v.tok < 150) (hat : At N E s (kw (if u then tokUnion else tokStruct) :: v :: rest)) :
    ∃ s', structName s = .ok (tag u idMax) s' ∧ At N E s' (v :: rest) ∧ tb s' = tb s ∧ fz s' = fz s := by
  have t0 := hat.1.tok
  rw [kw_agg] at t0
  obtain ⟨s1, e1, k1, a1⟩ := hat.next
  let s2 : S := { s1 with extra := -1 }
  have a2 : At N E s2 (v :: rest) := a1.congr rfl
  have t2 : s2.tok = v.tok := a2.1.tok
  refine ⟨s2, ?_, a2, (show tb s2 = tb s1 from rfl).trans k1.tb, (show fz s2 = fz s1 from rfl).trans k1.fz⟩
  refine run_getS (run_bind e1 (run_modS (run_getS (run_neg (by rw [t2]; show ¬ 187 ≤ v.tok; omega) ?_))))
  rw [flag_eq t0]; rfl

theorem link_ok {s : S} {si : Nat} {ks : List Nat} {k : Option Nat} (hsi : si < 8) (hks : ∀ j ∈ ks, j < 32) :
    ∃ s4, setLast si ks.getLast? k s = .ok () s4 ∧ (∀ j < 32, ks.getLast? ≠ some j → s4.members.get j = s.members.get j) ∧
      (∀ l, ks.getLast? = some l → s4.members.get l = { s.members.get l with next := k }) ∧ (∀ j < 8, j ≠ si → s4.structs.get j = s.structs.get j) ∧
      (s4.structs.get si).id = (s.structs.get si).id ∧ ((s4.structs.get si).members = if ks = [] then k else (s.structs.get si).members) ∧
      ∃ mm st, s4 = { s with members := mm, structs := st } := by
  cases hl : ks.getLast? with
  | none =>
    obtain rfl : ks = [] := by simpa using hl
    refine ⟨_, rfl, fun _ _ _ => rfl, nofun, fun j hj hne => Tab.get_set_ne _ _ hsi hj (Ne.symm hne), ?_, ?_, _, _, rfl⟩
    · show ((s.structs.set _ _).get _).id = _; rw [Tab.get_set_self]
    · show ((s.structs.set _ _).get _).members = _; rw [Tab.get_set_self]; rfl
  | some l =>
    have hl32 : l < 32 := hks l (List.mem_of_getLast? hl)
    refine ⟨_, rfl, fun j hj hne => Tab.get_set_ne _ _ hl32 hj (fun e => hne (by rw [e])), fun l' hl' => ?_, fun _ _ _ => rfl, rfl, ?_, _, _, rfl⟩
    · cases hl'
      exact Tab.get_set_self _ _ _
    · rw [if_neg]
      rintro rfl
      cases hl

theorem Ok.weak {om os om' os' : List Nat} {env : Env} {ix : Nat → Int} {s : S} (h : Ok om os env ix s) (hm : ∀ j ∈ om', j ∈ om) (hs : ∀ j ∈ os', j ∈ os) : Ok om' os' env ix s :=
  ⟨h.ac, h.mc, h.sc, fun k hk => h.oml k (hm k hk), fun k hk => h.osl k (hs k hk), h.find, h.free, fun u x t hx he => by
    obtain ⟨j, e, r⟩ := h.full u x t hx he
    exact ⟨j, e, r.mono (fun k _ hk => hm k hk) fun k _ hk => hs k hk⟩, h.td⟩

/-- A structure from its `{` on: `u` and `x` say what is declared, `s` is the state at the brace, `s0` the one before. -/
theorem body_ok {env env' : Env} {ls : List Tk} {ms : List (Nat × CT)} {u : Bool} {x : Option Nat} (hx : ∀ y, x = some y → (37 ≤ y ∧ y < idMax) ∧ env (tag u y) = none)
    (ih : LinesOk (env.set u x none) ls ms env') {om os : List Nat} {ix : Nat → Int} {s : S} {v : Tk} {rest : List Tk}
    (hat : At N E s (.sym 0x7B precStop :: (ls ++ .sym 0x7D precStop :: v :: rest))) (hok : Ok om os env ix s) (hc : s.arrayCount + cnt 0x5B ls ≤ 32)
    (hm : s.memCount + (cnt 0x2C ls + cnt 0x3B ls) ≤ 32) (hsc : s.structCount + (cnt 0x7B ls + 1) ≤ 8) {id : Nat} (hid : id = tag u (x.getD idMax))
    {s0 : S} (hn : structName s0 = .ok id s) :
    ∃ s' ix', At N E s' (v :: rest) ∧ Ok om os (env'.set u x (some (agg u ms))) ix' s' ∧ (∀ g, env g ≠ none → (env'.set u x (some (agg u ms))) g = env g ∧ ix' g = ix g) ∧
      s'.type = vtStruct ∧ Rep om os s' vtStruct s'.extra (agg u ms) ∧ Keep [] [] s s' ∧ s'.arrayCount = s.arrayCount + cnt 0x5B ls ∧
      s'.memCount = s.memCount + (cnt 0x2C ls + cnt 0x3B ls) ∧ s'.structCount = s.structCount + (cnt 0x7B ls + 1) ∧ fz s' = fz s ∧
      ∃ M, ∀ n, M ≤ n → parseStruct (run n) s0 = .ok () s' := by
  have t0 : s.tok = 0x7B := hat.1.tok
  obtain ⟨w, ws, hw⟩ : ∃ w ws, ls ++ .sym 0x7D precStop :: v :: rest = w :: ws := by
    cases ls with
    | nil => exact ⟨_, _, rfl⟩
    | cons d ds => exact ⟨_, _, rfl⟩
  rw [hw] at hat
  obtain ⟨s2, e2, k2, a2⟩ := hat.next
  rw [← hw] at a2
  have hok2 := hok.upd k2.tb k2.fz
  obtain ⟨m1, m2, m3, m4, _⟩ := mem_tb k2.tb
  obtain ⟨q1, q2⟩ := arr_tb k2.tb
  let si := s.structCount
  have hsi : si < 8 := by omega
  let s3 : S := { s2 with structCount := si + 1, structs := s2.structs.set si { s2.structs.get si with id := id } }
  have st3 : ∀ j < 8, j ≠ si → s3.structs.get j = s2.structs.get j := fun j hj hne => Tab.get_set_ne _ _ hsi hj (Ne.symm hne)
  have id3 : (s3.structs.get si).id = id := by show ((s2.structs.set _ _).get _).id = _; rw [Tab.get_set_self]
  have k23 : Keep [] [] s2 s3 := by
    refine ⟨Nat.le_refl _, Nat.le_refl _, by show s2.structCount ≤ si + 1; rw [m4]; exact Nat.le_succ _, fun _ _ => rfl, fun _ _ _ => rfl, fun j hj _ => ?_⟩
    rw [m4] at hj
    exact st3 j (Nat.lt_trans hj hsi) (Nat.ne_of_lt hj)
  let ix1 : Nat → Int := match x with
    | none => ix
    | some y => fun g => if g = tag u y then si else ix g
  have hix : ∀ v z, z < idMax → ix1 (tag v z) = if id = tag v z then (si : Int) else ix (tag v z) := by
    intro v z hz
    cases x with
    | none =>
      rw [if_neg]
      · rw [hid]
        exact fun e => tag_ne z hz v u e.symm
    | some y =>
      show (if tag v z = tag u y then (si : Int) else ix (tag v z)) = _
      rw [hid]
      by_cases h : tag v z = tag u y
      · rw [if_pos h, if_pos]; exact h.symm
      · rw [if_neg h, if_neg]; exact fun e => h e.symm
  have ok3 : Ok ([] ++ om) (si :: os) (env.set u x none) ix1 s3 := by
    refine ⟨hok2.ac, hok2.mc, hsi, hok2.oml, fun k hk => ?_, fun v z hz => ?_, fun v z hz he => ?_, fun v z t hz he => ?_, noTd_fz hok2.td rfl⟩
    · rcases List.mem_cons.1 hk with h | h
      · exact h ▸ Nat.lt_succ_self _
      · exact Nat.lt_succ_of_lt (hok.osl k h)
    · rw [hix v z hz, find_push (s := s2) (i := id) (by show si + 1 = s2.structCount + 1; rw [m4]) (fun k hk => by rw [m4] at hk; rw [st3 k (Nat.lt_trans hk hsi) (Nat.ne_of_lt hk)])
        (by rw [m4]; exact id3), m4, hok2.find v z hz]
    · rw [hix v z hz]
      cases x with
      | none =>
        rw [if_neg (fun e => tag_ne z hz v u (by rw [← e, hid]; rfl))]
        exact hok.free v z hz he
      | some y =>
        unfold Env.set at he
        by_cases h : tag v z = tag u y
        · simp [h] at he
        · simp only [h, if_false] at he
          rw [if_neg (fun e => h (by rw [← e, hid]; rfl))]
          exact hok.free v z hz he
    · have hrep : ∀ k : Nat, Rep om os s2 vtStruct k t → Rep ([] ++ om) (si :: os) s3 vtStruct k t := fun k r =>
        (r.mono (om := [] ++ om) (os := si :: os) (fun _ _ h => h) (fun j hj hj' => by
          rw [m4] at hj
          rcases List.mem_cons.1 hj' with h | h
          · exact absurd h (Nat.ne_of_lt hj)
          · exact h)).keep (k23.mono (by simp) (by simp))
      cases x with
      | none =>
        obtain ⟨k, e, r⟩ := hok2.full v z t hz he
        refine ⟨k, ?_, hrep k r⟩
        rw [hix v z hz, if_neg (fun e => tag_ne z hz v u (by rw [← e, hid]; rfl)), e]
      | some y =>
        unfold Env.set at he
        by_cases h : tag v z = tag u y
        · simp [h] at he
        · simp only [h, if_false] at he
          obtain ⟨k, e, r⟩ := hok2.full v z t hz he
          refine ⟨k, ?_, hrep k r⟩
          rw [hix v z hz, if_neg (fun e => h (by rw [← e, hid]; rfl)), e]
  obtain ⟨s4, ix', ks, ⟨M, g4⟩, a4, o4, st4, b4, i4, k4, ac4, mc4, sc4, z4, n4⟩ := ih (ks := []) (ms0 := []) (si := si) (s := s3) (a2.congr rfl) ok3
    ⟨trivial, fun h => absurd rfl h, List.nodup_nil⟩ (by show s2.arrayCount + _ ≤ _; rw [q2]; exact hc) (by show s2.memCount + _ ≤ _; rw [m2]; exact hm)
    (by show si + 1 + _ ≤ 8; show s.structCount + 1 + _ ≤ 8; omega)
  rw [List.nil_append] at b4
  obtain ⟨s5, e5, k5, a5⟩ := a4.next
  have ok5 := o4.upd k5.tb k5.fz
  have hks5 : ∀ j ∈ ks, j < s5.memCount := fun j hj => ok5.oml j (List.mem_append_left _ hj)
  have hsi5 : si < s5.structCount := ok5.osl si (by simp)
  have body5 : Body om os s5 si ks ms := by
    obtain ⟨_, h2, _, h4, _⟩ := mem_tb k5.tb
    exact b4.keep (.of_tb k5.tb) (by rw [← h2]; exact hks5) (by rw [← h4]; exact hsi5)
  obtain ⟨s6, e6, p1, p2, p3, p4, p5, mm, stt, p6⟩ := link_ok (s := s5) (si := si) (ks := ks) (k := none) hsi fun j hj => Nat.lt_of_lt_of_le (hks5 j hj) ok5.mc
  let s7 : S := { s6 with extra := si, type := vtStruct }
  have c6 : s7.arrayCount = s5.arrayCount ∧ s7.memCount = s5.memCount ∧ s7.structCount = s5.structCount ∧ s7.arrays = s5.arrays := by
    show s6.arrayCount = _ ∧ s6.memCount = _ ∧ s6.structCount = _ ∧ s6.arrays = _
    rw [p6]; exact ⟨rfl, rfl, rfl, rfl⟩
  have k57 : Keep (ks ++ om) (si :: os) s5 s7 := by
    refine ⟨Nat.le_of_eq c6.1.symm, Nat.le_of_eq c6.2.1.symm, Nat.le_of_eq c6.2.2.1.symm, fun j _ => by rw [c6.2.2.2], fun j hj ho => ?_, fun j hj ho => ?_⟩
    · exact p1 j (Nat.lt_of_lt_of_le hj ok5.mc) fun e => ho (List.mem_append_left _ (List.mem_of_getLast? e))
    · exact p3 j (Nat.lt_of_lt_of_le hj ok5.sc) fun e => ho (by simp [e])
  have z7 : fz s7 = fz s5 := by show fz { s6 with extra := si, type := vtStruct } = _; rw [p6]; rfl
  have sid7 : ∀ j < s5.structCount, (s7.structs.get j).id = (s5.structs.get j).id := by
    intro j hj
    by_cases h : j = si
    · rw [h]; exact p4
    · exact congrArg _ (p3 j (Nat.lt_of_lt_of_le hj ok5.sc) h)
  have ok7 : Ok (ks ++ om) (si :: os) env' ix' s7 := ok5.next k57 (fun _ _ h => h) (fun _ _ h => h) (by rw [c6.1]; exact ok5.ac) (by rw [c6.2.1]; exact ok5.mc) c6.2.2.1 sid7
    (by rw [c6.2.1]; exact ok5.oml) (by rw [c6.2.2.1]; exact ok5.osl) z7
  obtain ⟨n1, n2, n3, n4', _⟩ := mem_tb k5.tb
  obtain ⟨r1, r2⟩ := arr_tb k5.tb
  have hid7 : (s7.structs.get si).id = id := by
    rw [sid7 si hsi5, n3, i4, id3]
  have rep7 : Rep om os s7 vtStruct si (agg u ms) := by
    intro s' k
    have hom : ∀ j ∈ ks, j ∉ om := by
      intro j hj ho
      have h1 := hok.oml j ho
      rcases n4 j hj with h | h
      · cases h
      · have h : s2.memCount ≤ j := h
        rw [m2] at h
        omega
    have hos : si ∉ os := fun h => Nat.lt_irrefl _ (hok.osl si h)
    have es : s'.structs.get si = s7.structs.get si := k.str si (by rw [c6.2.2.1]; exact hsi5) hos
    have em : ∀ j ∈ ks, s'.members.get j = s7.members.get j := fun j hj => k.mem j (by rw [c6.2.1]; exact hks5 j hj) (hom j hj)
    have hmem : (s'.structs.get si).members = ks.head? := by
      rw [es]
      show (s6.structs.get si).members = _
      rw [p5]
      by_cases h : ks = []
      · rw [if_pos h, h]; rfl
      · rw [if_neg h]; exact body5.head h
    have hrm : ReprMems s' ks.head? (ofList ms) := by
      refine Seg.close (m := s5.members) (P := Rep (ks ++ om) (si :: os) s5) (fun ty ex t r => ?_) body5.seg body5.nodup (fun j hj hne => ?_) fun l hl => ?_
      · exact ((r.keep k57).mono (fun j _ h => List.mem_append_right _ h) (fun j _ h => List.mem_cons_of_mem _ h)) s' k
      · rw [em j hj]; exact p1 j (Nat.lt_of_lt_of_le (hks5 j hj) ok5.mc) hne
      · rw [em l (List.mem_of_getLast? hl)]; exact p2 l hl
    have hbit : tag u (x.getD idMax) &&& 0x8000 = 0 ↔ u = false := by
      refine tag_bit _ ?_ u
      cases x with
      | none => exact Nat.lt_succ_self _
      | some y => exact Nat.lt_succ_of_lt (hx y rfl).1.2
    rw [← hid] at hbit
    unfold agg
    cases u with
    | false => exact .struct (k := si) (by decide) (by decide) hsi (by rw [es, hid7]; exact hbit.2 rfl) (by rw [hmem]; exact hrm)
    | true => exact .union (k := si) (by decide) (by decide) hsi (by rw [es, hid7]; exact fun e => absurd (hbit.1 e) (by decide)) (by rw [hmem]; exact hrm)
  have stab : ∀ g, env g ≠ none → env' g = env g ∧ ix' g = ix g ∧ ∀ y, x = some y → g ≠ tag u y := by
    intro g hg
    cases x with
    | none =>
      obtain ⟨h1, h2⟩ := st4 g hg
      exact ⟨h1, h2, nofun⟩
    | some y =>
      have hne : g ≠ tag u y := fun e => hg (by rw [e]; exact (hx y rfl).2)
      obtain ⟨h1, h2⟩ := st4 g (by unfold Env.set; simp only [hne, if_false]; exact hg)
      refine ⟨h1.trans (by unfold Env.set; simp only [hne, if_false]), h2.trans (by show (if g = tag u y then _ else _) = _; rw [if_neg hne]), fun y' hy' => by cases hy'; exact hne⟩
  have tag' : ∀ y, x = some y → ix' (tag u y) = si := by
    rintro y rfl
    obtain ⟨_, h2⟩ := st4 (tag u y) (by unfold Env.set; simp)
    rw [h2]
    show (if tag u y = tag u y then (si : Int) else _) = _
    rw [if_pos rfl]
  refine ⟨s7, ix', a5.congr (by show lx { s6 with extra := si, type := vtStruct } = _; rw [p6]; rfl), ?_, fun g hg => ?_, rfl, rep7, ?_, ?_, ?_, ?_, ?_, M, fun n hn' => ?_⟩
  · have ok8 := ok7.weak (om' := om) (os' := os) (fun j h => List.mem_append_right _ h) fun j h => List.mem_cons_of_mem _ h
    cases x with
    | none => exact ok8
    | some y =>
      refine ⟨ok8.ac, ok8.mc, ok8.sc, ok8.oml, ok8.osl, ok8.find, fun v z hz he => ?_, fun v z t hz he => ?_, ok8.td⟩
      · unfold Env.set at he
        by_cases h : tag v z = tag u y
        · simp [h] at he
        · simp only [h, if_false] at he
          exact ok8.free v z hz he
      · unfold Env.set at he
        by_cases h : tag v z = tag u y
        · simp only [h, if_true, Option.some.injEq] at he
          rw [h, ← he]
          exact ⟨si, tag' y rfl, rep7⟩
        · simp only [h, if_false] at he
          exact ok8.full v z t hz he
  · obtain ⟨h1, h2, h3⟩ := stab g hg
    refine ⟨?_, h2⟩
    cases x with
    | none => exact h1
    | some y => unfold Env.set; simp only [h3 y rfl, if_false]; exact h1
  · refine ⟨?_, ?_, ?_, fun j hj => ?_, fun j hj _ => ?_, fun j hj _ => ?_⟩
    · rw [c6.1, r2, ac4]; show _ ≤ s2.arrayCount + _; rw [q2]; omega
    · rw [c6.2.1, n2, mc4]; show _ ≤ s2.memCount + _; rw [m2]; omega
    · rw [c6.2.2.1, n4', sc4]; show _ ≤ si + 1 + _; show _ ≤ s.structCount + 1 + _; omega
    · rw [c6.2.2.2, r1, k4.arr j (by show j < s2.arrayCount; rw [q2]; exact hj)]
      show s2.arrays.get j = _
      rw [q1]
    · have hjn : j ∉ ks := by
        intro h
        rcases n4 j h with h | h
        · cases h
        · have h : s2.memCount ≤ j := h
          rw [m2] at h
          omega
      have h32 := hok.mc
      show s6.members.get j = _
      rw [p1 j (by omega) fun e => hjn (List.mem_of_getLast? e), n1, k4.mem j (by show j < s2.memCount; rw [m2]; exact hj) (by simp)]
      show s2.members.get j = _
      rw [m1]
    · show s6.structs.get j = _
      have h3 : s3.structs.get j = s.structs.get j := by rw [st3 j (by omega) (Nat.ne_of_lt hj), m3]
      rw [p3 j (by omega) (Nat.ne_of_lt hj), n3, k4.str j (show j < si + 1 from Nat.lt_succ_of_lt hj) (by simpa using Nat.ne_of_lt hj), h3]
  · rw [c6.1, r2, ac4]; show s2.arrayCount + _ = _; rw [q2]
  · rw [c6.2.1, n2, mc4]; show s2.memCount + _ = _; rw [m2]
  · rw [c6.2.2.1, n4', sc4]; show s.structCount + 1 + _ = _; omega
  · exact z7.trans (k5.fz.trans (z4.trans ((show fz s3 = fz s2 from rfl).trans k2.fz)))
  · refine run_bind hn (run_getS (run_pos t0 (run_bind e2 (run_failIf (beq_eq_false_iff_ne.2 (Nat.ne_of_lt hsi)) (run_modS (run_bind (g4 n hn') (run_bind e5 ?_)))))))
    rw [dec_enc]
    exact run_bind e6 rfl

theorem Ender.no {u : Tk} (h : Ender u) : u.tok ≠ 0x7B := by
  rcases h with h | ⟨x, rfl, _⟩
  · exact h.2
  · show x + 150 ≠ 0x7B; omega

theorem orzero (s : S) : ({ s with type := s.type ||| 0 } : S) = s := by rw [Nat.or_zero]

theorem agg_tok (u : Bool) (c : Nat) (hc : c < 150) : (kw (if u then tokUnion else tokStruct)).tok ≠ c := by
  rw [kw_agg]
  have h : 150 ≤ if u then tokUnion else tokStruct := by cases u <;> decide
  omega

theorem ref_spec (env : Env) (u : Bool) (x : Nat) (hx : 37 ≤ x ∧ x < idMax) : SpecOk env [kw (if u then tokUnion else tokStruct), .id x] (env (tag u x)).join env := by
  intro N E om os ix s v rest hat hv hok hty _ _ _
  have hat : At N E s (kw (if u then tokUnion else tokStruct) :: .id x :: v :: rest) := hat
  obtain ⟨s1, e1, a1, x1, b1, z1⟩ := name_ok hx hat
  let s2 : S := { s1 with type := vtStruct }
  have b2 : tb s2 = tb s := (show tb s2 = tb s1 from rfl).trans b1
  have z2 : fz s2 = fz s := (show fz s2 = fz s1 from rfl).trans z1
  have ok2 := hok.upd b2 z2
  have a2 : At N E s2 (v :: rest) := a1.congr rfl
  have t1 : s1.tok ≠ 0x7B := by rw [a1.1.tok]; exact hv.no
  have g2 := end_ok a2 hv ok2.td 0
  rw [orzero] at g2
  obtain ⟨M, g2⟩ := g2
  obtain ⟨_, m2, _, m4, _⟩ := mem_tb b2
  obtain ⟨_, q2⟩ := arr_tb b2
  have t0 := hat.1.tok
  rw [kw_agg] at t0
  have hc : ∀ c, c < 150 → cnt c [kw (if u then tokUnion else tokStruct), .id x] = 0 := fun c hc => by
    rw [cnt_cons, cnt_id c x hx.1 (by omega), cnt_nil, if_neg (agg_tok u c hc)]
  refine ⟨s2, ix, struct_spec t0 ⟨M, fun n hn => run_bind (a := ()) (s1 := s2) ?_ (g2 n hn)⟩, a2, ok2, fun _ _ => ⟨rfl, rfl⟩, ⟨show vtStruct < 16 by decide, show vtStruct &&& vtBaseMask ≠ vtArray by decide, fun t ht => ?_⟩, .of_tb b2,
    by rw [q2, hc _ (by decide)]; rfl, by rw [m2, hc _ (by decide), hc _ (by decide)]; rfl, by rw [m4, hc _ (by decide)]; rfl, z2⟩
  · exact run_bind e1 (run_getS (run_neg t1 rfl))
  · have he : env (tag u x) = some (some t) := by
      cases h : env (tag u x) with
      | none => rw [h] at ht; cases ht
      | some o => rw [h] at ht; exact congrArg some ht
    obtain ⟨k, e, r⟩ := ok2.full u x t hx.2 he
    have hex : s2.extra = k := by
      show s1.extra = _
      rw [x1, hok.find u x hx.2, e]
    rw [hex]
    exact r

theorem agg_spec {env env' : Env} {ls : List Tk} {ms : List (Nat × CT)} (u : Bool) (x : Option Nat) (hx : ∀ y, x = some y → (37 ≤ y ∧ y < idMax) ∧ env (tag u y) = none)
    (ih : LinesOk (env.set u x none) ls ms env') :
    SpecOk env (kw (if u then tokUnion else tokStruct) :: (x.toList.map Tk.id ++ .sym 0x7B precStop :: (ls ++ [.sym 0x7D precStop]))) (some (agg u ms)) (env'.set u x (some (agg u ms))) := by
  intro N E om os ix s v rest hat hv hok hty hc1 hc2 hc3
  have hxs : ∀ c < 150, cnt c (x.toList.map Tk.id) = 0 := by
    intro c hc
    cases x with
    | none => rfl
    | some y => exact cnt_id c y (hx y rfl).1.1 (by omega) []
  generalize hT : kw (if u then tokUnion else tokStruct) = T at hat hc1 hc2 hc3 ⊢
  have hcnt : ∀ c < 150, cnt c (T :: (x.toList.map Tk.id ++ .sym 0x7B precStop :: (ls ++ [.sym 0x7D precStop]))) =
      cnt c ls + (if 0x7D = c then 1 else 0) + if 0x7B = c then 1 else 0 := by
    intro c hc
    rw [cnt_cons, if_neg (hT ▸ agg_tok u c hc), cnt_append, hxs c hc, cnt_cons, cnt_append, cnt_cons, cnt_nil]
    show 0 + (cnt c ls + (0 + if 0x7D = c then 1 else 0) + if 0x7B = c then 1 else 0) + 0 = _
    omega
  have c1 := hcnt 0x5B (by decide)
  have c2 := hcnt 0x2C (by decide)
  have c3 := hcnt 0x3B (by decide)
  have c4 := hcnt 0x7B (by decide)
  rw [if_neg (by decide), if_neg (by decide)] at c1 c2 c3
  rw [if_neg (by decide), if_pos rfl] at c4
  rw [c1] at hc1 ⊢
  rw [c2, c3] at hc2 ⊢
  rw [c4] at hc3 ⊢
  subst hT
  have hat : At N E s (kw (if u then tokUnion else tokStruct) :: (x.toList.map Tk.id ++ .sym 0x7B precStop :: (ls ++ [.sym 0x7D precStop]) ++ v :: rest)) := hat
  rw [List.append_assoc] at hat
  have hat : At N E s (kw (if u then tokUnion else tokStruct) :: (x.toList.map Tk.id ++ .sym 0x7B precStop :: (ls ++ [.sym 0x7D precStop] ++ v :: rest))) := hat
  rw [List.append_assoc] at hat
  have hat : At N E s (kw (if u then tokUnion else tokStruct) :: (x.toList.map Tk.id ++ .sym 0x7B precStop :: (ls ++ .sym 0x7D precStop :: v :: rest))) := hat
  have t0 := hat.1.tok
  rw [kw_agg] at t0
  obtain ⟨s1, e1, a1, b1, z1⟩ : ∃ s1, structName s = .ok (tag u (x.getD idMax)) s1 ∧ At N E s1 (.sym 0x7B precStop :: (ls ++ .sym 0x7D precStop :: v :: rest)) ∧ tb s1 = tb s ∧ fz s1 = fz s := by
    cases x with
    | none => exact anon_ok (by decide) hat
    | some y =>
      obtain ⟨s1, e1, a1, _, b1, z1⟩ := name_ok (hx y rfl).1 hat
      exact ⟨s1, e1, a1, b1, z1⟩
  obtain ⟨_, m2, _, m4, _⟩ := mem_tb b1
  obtain ⟨_, q2⟩ := arr_tb b1
  obtain ⟨s2, ix', a2, o2, st2, y2, r2, k2, ac2, mc2, sc2, z2, M, g2⟩ := body_ok hx ih a1 (hok.upd b1 z1) (by rw [q2]; omega) (by rw [m2]; omega) (by rw [m4]; omega) rfl e1
  have g3 := end_ok a2 hv o2.td 0
  rw [orzero] at g3
  obtain ⟨M3, g3⟩ := g3
  refine ⟨s2, ix', struct_spec t0 ⟨max M M3, fun n hn => run_bind (g2 n (by omega)) (g3 n (by omega))⟩, a2, o2, st2, ⟨by rw [y2]; decide, by rw [y2]; decide, fun t ht => ?_⟩,
    Keep.trans (.of_tb b1) k2, by rw [ac2, q2]; rfl, by rw [mc2, m2]; rfl, by rw [sc2, m4], z2.trans z1⟩
  cases ht
  rw [y2]
  exact r2

theorem qual_spec {env env' : Env} {ts : List Tk} {o : Option CT} (q : Nat) (hq : q = tokConst ∨ q = tokVolatile) (ih : SpecOk env ts o env') : SpecOk env (kw q :: ts) o env' := by
  intro N E om os ix s v rest hat hv hok hty hc1 hc2 hc3
  have hq150 : (kw q).tok = q ∧ 150 ≤ q := by rcases hq with rfl | rfl <;> decide
  have hcnt : ∀ c < 150, cnt c (kw q :: ts) = cnt c ts := fun c hc => by rw [cnt_cons, hq150.1, if_neg (by omega)]; rfl
  rw [hcnt _ (by decide)] at hc1 hc3 ⊢
  rw [hcnt _ (by decide), hcnt _ (by decide)] at hc2 ⊢
  rw [hcnt 0x7B (by decide)]
  obtain ⟨w, ws, hw⟩ : ∃ w ws, ts ++ v :: rest = w :: ws := by
    cases ts with
    | nil => exact ⟨_, _, rfl⟩
    | cons d ds => exact ⟨_, _, rfl⟩
  have hat : At N E s (kw q :: (ts ++ v :: rest)) := hat
  have t0 : s.tok = q := hat.1.tok.trans hq150.1
  rw [hw] at hat
  obtain ⟨s1, e1, k1, a1⟩ := (hat.congr (s' := { s with type := s.type }) rfl).next
  rw [← hw] at a1
  obtain ⟨_, m2, _, m4, _⟩ := mem_tb k1.tb
  obtain ⟨_, q2⟩ := arr_tb k1.tb
  obtain ⟨s2, ix', ⟨M, g2⟩, a2, o2, st2, r2, k2, ac2, mc2, sc2, z2⟩ := ih a1 hv (hok.upd k1.tb k1.fz) (k1.type.trans hty) (by rw [q2]; exact hc1) (by rw [m2]; exact hc2) (by rw [m4]; exact hc3)
  refine ⟨s2, ix', Go.of M fun n hn => run_bind (a := ()) (s1 := s2) (run_getS ?_) rfl, a2, o2, st2, r2, Keep.trans (.of_tb k1.tb) k2, by rw [ac2, q2], by rw [mc2, m2], by rw [sc2, m4], z2.trans k1.fz⟩
  have e : simpleSpec s.tok s.type 0 = some (s.type, 0) := by rw [t0]; rcases hq with rfl | rfl <;> rfl
  rw [e]
  exact run_modS (run_bind e1 (g2 n hn))

theorem nil_lines (env : Env) : LinesOk env [] [] env := by
  intro N E om os ix s si ks ms0 rest hat hok hb _ _ _
  refine ⟨s, ix, ks, GoV.of 0 fun n _ => run_getS (run_pos hat.1.tok rfl), hat, hok, fun _ _ => ⟨rfl, rfl⟩, by rw [List.append_nil]; exact hb, rfl, .refl _ _ _, rfl, rfl, rfl, rfl, fun j hj => .inl hj⟩

theorem Dcls.count {o : Option CT} {ds : List Tk} {ms : List (Nat × CT)} (h : Dcls o ds ms) : cnt 0x2C ds + 1 = ms.length ∧ cnt 0x3B ds = 0 ∧ cnt 0x7B ds = 0 := by
  have one : ∀ {d : List Tk} {x : Nat} {t : CT}, Dcl o d x t → ∀ c < 150, c = 0x2C ∨ c = 0x3B ∨ c = 0x7B → cnt c d = 0 := by
    intro d x t h c hc hc'
    have hb : ∀ bs, cnt c (boundToks bs) = 0 := fun bs => by
      rw [cnt_bounds]; rcases hc' with rfl | rfl | rfl <;> exact Nat.mul_zero _
    cases h with
    | val _ hx bs _ _ => rw [cnt_id c x hx.1 (by omega), hb]
    | ptr p _ hp hx bs _ => rw [cnt_append, cnt_id c x hx.1 (by omega), hb, cnt_stars _ _ (by rcases hc' with rfl | rfl | rfl <;> decide)]
  induction h with
  | one h => exact ⟨by rw [one h _ (by decide) (by simp)]; rfl, one h _ (by decide) (by simp), one h _ (by decide) (by simp)⟩
  | more h _ ih =>
    obtain ⟨h1, h2, h3⟩ := ih
    refine ⟨?_, ?_, ?_⟩
    · rw [cnt_append, one h _ (by decide) (by simp), cnt_cons, if_pos (show (Tk.sym 0x2C precComma).tok = 0x2C from rfl), List.length_cons]; omega
    · rw [cnt_append, one h _ (by decide) (by simp), cnt_cons, if_neg (by decide), h2]
    · rw [cnt_append, one h _ (by decide) (by simp), cnt_cons, if_neg (by decide), h3]

theorem Dcls.ender {o : Option CT} {ds : List Tk} {ms : List (Nat × CT)} (h : Dcls o ds ms) : ∃ v vs, ds = v :: vs ∧ Ender v := by
  have one : ∀ {d : List Tk} {x : Nat} {t : CT}, Dcl o d x t → ∃ v vs, d = v :: vs ∧ Ender v := by
    intro d x t h
    cases h with
    | val _ hx bs _ _ => exact ⟨_, _, rfl, .inr ⟨x, rfl, hx⟩⟩
    | ptr p _ hp hx bs _ => exact ⟨.sym 0x2A 3, _, rfl, .inl (by decide)⟩
  cases h with
  | one h => exact one h
  | more h _ =>
    obtain ⟨v, vs, rfl, hv⟩ := one h
    exact ⟨v, _, rfl, hv⟩

theorem Spec.head {env : Env} {ts : List Tk} {o : Option CT} {env' : Env} (h : Spec env ts o env') : ∃ x ts', ts = Tk.id x :: ts' := by
  cases h with
  | void => exact ⟨_, _, rfl⟩
  | char _ h =>
    have : ∀ ws ∈ chars, ws ≠ [] := by decide
    rename_i ws
    cases ws with
    | nil => exact absurd rfl (this _ h)
    | cons w ws => exact ⟨_, _, rfl⟩
  | int _ h =>
    have : ∀ ws ∈ ints, ws ≠ [] := by decide
    rename_i ws
    cases ws with
    | nil => exact absurd rfl (this _ h)
    | cons w ws => exact ⟨_, _, rfl⟩
  | qual => exact ⟨_, _, rfl⟩
  | ref => exact ⟨_, _, rfl⟩
  | agg => exact ⟨_, _, rfl⟩

theorem ty_clr : ∀ ty < 16, clr ty vtPtrMask = ty := by decide

theorem cons_lines {env env1 env2 : Env} {sp ds ls : List Tk} {o : Option CT} {ms ms' : List (Nat × CT)} (hs : Spec env sp o env1) (ihs : SpecOk env sp o env1) (hd : Dcls o ds ms)
    (ihl : LinesOk env1 ls ms' env2) : LinesOk env (sp ++ (ds ++ .sym 0x3B precStop :: ls)) (ms ++ ms') env2 := by
  intro N E om os ix s si ks ms0 rest hat hok hb hc1 hc2 hc3
  obtain ⟨d1, d2, d3⟩ := hd.count
  have hcnt : ∀ c, cnt c (sp ++ (ds ++ .sym 0x3B precStop :: ls)) = cnt c sp + cnt c ds + cnt c ls + if 0x3B = c then 1 else 0 := fun c => by
    rw [cnt_append, cnt_append, cnt_cons]
    show _ + (_ + (_ + if 0x3B = c then 1 else 0)) = _
    omega
  have c1 := hcnt 0x5B
  have c2 := hcnt 0x2C
  have c3 := hcnt 0x3B
  have c4 := hcnt 0x7B
  rw [if_neg (by decide)] at c1 c2 c4
  rw [if_pos rfl, d2] at c3
  rw [d3] at c4
  rw [List.append_assoc, List.append_assoc] at hat
  have hat : At N E s (sp ++ (ds ++ .sym 0x3B precStop :: (ls ++ .sym 0x7D precStop :: rest))) := hat
  obtain ⟨v, vs, hv, hve⟩ := hd.ender
  let s1 : S := { s with type := vtInt }
  have ok1 : Ok (ks ++ om) (si :: os) env ix s1 := hok.upd rfl rfl
  have a1 : At N E s1 (sp ++ v :: (vs ++ .sym 0x3B precStop :: (ls ++ .sym 0x7D precStop :: rest))) := by
    rw [hv] at hat
    exact hat.congr rfl
  have m1 : s1.memCount = s.memCount := rfl
  have q1 : s1.arrayCount = s.arrayCount := rfl
  have p1 : s1.structCount = s.structCount := rfl
  obtain ⟨s2, ix2, ⟨M2, g2⟩, a2, o2, st2, b2, k2, ac2, mc2, sc2, z2⟩ := ihs a1 hve ok1 rfl (by omega) (by omega) (by omega)
  have body2 : Body om os s2 si ks ms0 :=
    hb.keep ((Keep.trans (Keep.of_tb (s := s) (s' := s1) rfl) k2).mono (by simp) (by simp)) (fun j hj => hok.oml j (List.mem_append_left _ hj)) (hok.osl si (by simp))
  let s3 : S := { s2 with baseType := clr s2.type vtPtrMask, baseExtra := s2.extra }
  have k3 : Keep [] [] s2 s3 := ⟨Nat.le_refl _, Nat.le_refl _, Nat.le_refl _, fun _ _ => rfl, fun _ _ _ => rfl, fun _ _ _ => rfl⟩
  have o3 : Ok (ks ++ om) (si :: os) env1 ix2 s3 := o2.next (k3.mono (by simp) (by simp)) (fun _ _ h => h) (fun _ _ h => h) o2.ac o2.mc rfl (fun _ _ => rfl) o2.oml o2.osl rfl
  have body3 : Body om os s3 si ks ms0 := body2.keep (k3.mono (by simp) (by simp)) (fun j hj => o2.oml j (List.mem_append_left _ hj)) (o2.osl si (by simp))
  have b3 : Base (ks ++ om) (si :: os) s3 s3.type s3.extra o := b2.keep (k3.mono (by simp) (by simp))
  have a3 : At N E s3 (ds ++ .sym 0x3B precStop :: (ls ++ .sym 0x7D precStop :: rest)) := by
    rw [hv]
    exact a2.congr rfl
  have m3 : s3.memCount = s2.memCount := rfl
  have q3 : s3.arrayCount = s2.arrayCount := rfl
  have p3 : s3.structCount = s2.structCount := rfl
  obtain ⟨s4, ks4, ⟨M4, g4⟩, a4, o4, b4, i4, k4, ac4, mc4, sc4, z4, n4⟩ := dcls_ok hd a3 o3 body3 b3 (ty_clr _ b2.lt).symm rfl (by omega) (by omega)
  obtain ⟨w, ws, hw⟩ : ∃ w ws, ls ++ .sym 0x7D precStop :: rest = w :: ws := by
    cases ls with
    | nil => exact ⟨_, _, rfl⟩
    | cons d ds => exact ⟨_, _, rfl⟩
  have t4 : s4.tok = 0x3B := a4.1.tok
  rw [hw] at a4
  obtain ⟨s5, e5, k5, a5⟩ := a4.next
  rw [← hw] at a5
  obtain ⟨_, m5, n5, p5, _⟩ := mem_tb k5.tb
  obtain ⟨_, q5⟩ := arr_tb k5.tb
  have o5 := o4.upd k5.tb k5.fz
  have body5 : Body om os s5 si ks4 (ms0 ++ ms) := b4.keep (.of_tb k5.tb) (fun j hj => o4.oml j (List.mem_append_left _ hj)) (o4.osl si (by simp))
  obtain ⟨s6, ix6, ks6, ⟨M6, g6⟩, a6, o6, st6, b6, i6, k6, ac6, mc6, sc6, z6, n6⟩ := ihl a5 o5 body5 (by omega) (by omega) (by omega)
  have hks4 : ∀ j < s.memCount, j ∈ ks4 → j ∈ ks := fun j hj h => (n4 j h).elim id fun h => by omega
  obtain ⟨Md, gd⟩ : Go .declSpecs s s2 := Go.of M2 fun n hn => run_bind (a := ()) (s1 := s2) (run_modS (g2 n hn)) rfl
  refine ⟨s6, ix6, ks6, GoV.of (max Md (max M4 M6)) fun n hn => ?_, a6, o6, fun g hg => ?_, by rw [List.append_assoc] at b6; exact b6, ?_, ?_, by omega, by omega, by omega,
    z6.trans (k5.fz.trans (z4.trans ((show fz s3 = fz s2 from rfl).trans (z2.trans rfl)))), fun j hj => ?_⟩
  · refine run_getS (run_neg ?_ (run_bind (a := ()) (s1 := s2) (gd n (by omega)) (run_bind (a := ()) (s1 := s3) (run_getS (run_neg b2.ne rfl))
      (run_bind (g4 n (by omega)) (run_bind (a := ()) (s1 := s5) (run_getS (run_pos t4 e5)) ?_)))))
    · obtain ⟨x, ts', rfl⟩ := hs.head
      have : s.tok = x + 150 := hat.1.tok
      rw [this]
      omega
    · rw [dec_enc]
      exact g6 n (by omega)
  · obtain ⟨h1, h2⟩ := st2 g hg
    obtain ⟨h3, h4⟩ := st6 g (by rw [h1]; exact hg)
    exact ⟨h3.trans h1, h4.trans h2⟩
  · have hsi := hok.osl si (by simp)
    rw [i6, n5, i4]
    show (s2.structs.get si).id = _
    rw [k2.str si hsi (by simp)]
  · have k13 : Keep ks [si] s s3 := ((Keep.trans (Keep.of_tb (s := s) (s' := s1) rfl) k2).trans k3).mono (by simp) (by simp)
    exact k13.comp (k4.comp (Keep.comp (.of_tb k5.tb) k6 (fun _ _ h => h) fun _ _ h => h) (fun j hj h => (n4 j h).elim id fun h => by omega) fun _ _ h => h) (fun _ _ h => h) fun _ _ h => h
  · rcases n6 j hj with h | h
    · rcases n4 j h with h | h
      · exact .inl h
      · exact .inr (by omega)
    · exact .inr (by omega)

theorem spec_ok {env : Env} {ts : List Tk} {o : Option CT} {env' : Env} (h : Spec env ts o env') : SpecOk env ts o env' :=
  Spec.rec (motive_1 := fun env ts o env' _ => SpecOk env ts o env') (motive_2 := fun env ls ms env' _ => LinesOk env ls ms env')
    (fun env => words_spec (b := vtVoid) (ws := [tokVoid]) (o := none) (by decide) (by decide) (fun _ _ _ _ _ _ _ _ h => nomatch h) env)
    (fun env _ h => words_spec (chars_ok _ h) (by decide) (fun _ _ _ _ _ hb hp _ ht => by cases ht; exact fun _ _ => .char hp hb) env)
    (fun env _ h => words_spec (ints_ok _ h) (by decide) (fun _ _ _ _ _ hb hp _ ht => by cases ht; exact fun _ _ => .int hp hb) env)
    (fun q hq _ ih => qual_spec q hq ih)
    (fun env u x hx => ref_spec env u x hx)
    (fun u x hx _ ih => agg_spec u x hx ih)
    nil_lines
    (fun hs hd _ ihs ihl => cons_lines hs ihs hd ihl) h

end SccDecl
