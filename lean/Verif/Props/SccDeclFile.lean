import Verif.Props.SccDeclStruct
/-!
# Declarations of types in `scc.c` (C40): the global variables of a file

The compiler reads declarations of structures and of global variables; the variables it adds have the declared types, and it counts their sizes.
-/
namespace SccDecl
open Prog Text Scc SccCode SccGen SccHead SccSize Props.SccLex Props.SccIds

/-! ## Specification -/

/-- The declarators of global variables.  The first of several must be simple: the code takes what it declares for the type of the others. -/
inductive Vars (o : Option CT) : List Tk → List (Nat × CT) → Prop
  | one {d : List Tk} {x : Nat} {t : CT} (h : Dcl o d x t) : Vars o d [(x, t)]
  | more {d ds : List Tk} {x : Nat} {t : CT} {ms : List (Nat × CT)} (h : Dcl o d x t) (hp : Simple d) (hs : Dcls o ds ms) : Vars o (d ++ .sym 0x2C precComma :: ds) ((x, t) :: ms)

/-- Declarations, the number of them, the number of members of structures in them, and the variables they declare. -/
inductive Decls : Env → List Tk → Nat → Nat → List (Nat × CT) → Env → Prop
  | nil (env : Env) : Decls env [] 0 0 [] env
  | type {env env1 env2 : Env} {sp ls : List Tk} {o : Option CT} {k m : Nat} {vs : List (Nat × CT)} (hs : Spec env sp o env1) (hl : Decls env1 ls k m vs env2) :
      Decls env (sp ++ .sym 0x3B precStop :: ls) (k + 1) (cnt 0x2C sp + cnt 0x3B sp + m) vs env2
  | vars {env env1 env2 : Env} {sp ds ls : List Tk} {o : Option CT} {k m : Nat} {ms vs : List (Nat × CT)} (hs : Spec env sp o env1) (hd : Vars o ds ms) (hl : Decls env1 ls k m vs env2) :
      Decls env (sp ++ (ds ++ .sym 0x3B precStop :: ls)) (k + 1) (cnt 0x2C sp + cnt 0x3B sp + m) (ms ++ vs) env2

variable {N : List (List Byte)} {E : List Byte}

/-! ## The depth of types -/

mutual
theorem small_mono : ∀ (t : CT) {n m : Nat}, t.small n → n ≤ m → t.small m
  | t, 0, _, h, _ => by cases t <;> exact h.elim
  | _, n + 1, 0, _, hm => absurd hm (Nat.not_succ_le_zero n)
  | .char, _ + 1, _ + 1, _, _ => trivial
  | .int, _ + 1, _ + 1, _, _ => trivial
  | .ptr, _ + 1, _ + 1, _, _ => trivial
  | .arr _ t, _ + 1, _ + 1, h, hm => ⟨small_mono t h.1 (Nat.le_of_succ_le_succ hm), trivial⟩
  | .struct ms, _ + 1, _ + 1, h, hm => ⟨h.1, smalls_mono ms h.2 (Nat.le_of_succ_le_succ hm)⟩
  | .union ms, _ + 1, _ + 1, h, hm => ⟨h.1, smalls_mono ms h.2 (Nat.le_of_succ_le_succ hm)⟩
theorem smalls_mono : ∀ (ms : Mems) {n m : Nat}, ms.small n → n ≤ m → ms.small m
  | .nil, _, _, _, _ => by simp [Mems.small]
  | .cons _ t ms, n, m, h, hm => by
    simp only [Mems.small] at h ⊢
    exact ⟨small_mono t h.1 hm, smalls_mono ms h.2 hm⟩
end

theorem small_base {t : CT} (h : t = .char ∨ t = .int ∨ t = .ptr) {n : Nat} (hn : 1 ≤ n) : t.small n := by
  obtain ⟨m, rfl⟩ : ∃ m, n = m + 1 := ⟨n - 1, by omega⟩
  rcases h with rfl | rfl | rfl <;> trivial

theorem small_arrs {t : CT} {n : Nat} (h : t.small n) : ∀ bs : List Nat, (arrs t bs).small (n + bs.length)
  | [] => h
  | b :: bs => ⟨small_arrs h bs, trivial⟩

theorem small_list {n : Nat} : ∀ {ms : List (Nat × CT)}, (∀ m ∈ ms, m.2.small n) → (ofList ms).small n
  | [], _ => by simp [ofList, Mems.small]
  | m :: ms, h => by
    simp only [ofList, Mems.small]
    exact ⟨h m (by simp), small_list fun k hk => h k (by simp [hk])⟩

theorem length_list : ∀ ms : List (Nat × CT), (ofList ms).toList.length = ms.length
  | [] => rfl
  | _ :: ms => congrArg (· + 1) (length_list ms)

theorem small_agg {n : Nat} {ms : List (Nat × CT)} (u : Bool) (h : ∀ m ∈ ms, m.2.small n) (hl : ms.length < 40) : (agg u ms).small (n + 1) := by
  unfold agg
  cases u
  · exact ⟨by rw [length_list]; exact hl, small_list h⟩
  · exact ⟨by rw [length_list]; exact hl, small_list h⟩

theorem small_dcl {o : Option CT} {d : List Tk} {x : Nat} {t : CT} (h : Dcl o d x t) {n : Nat} (hn : 1 ≤ n) (ho : ∀ t, o = some t → t.small n) : t.small (n + cnt 0x5B d) := by
  cases h with
  | val _ hx bs _ h =>
    have ec : cnt 0x5B (.id x :: boundToks bs) = bs.length := by rw [cnt_id _ _ hx.1 (by decide), cnt_bounds]; simp
    rw [ec]
    exact small_arrs (ho _ h) bs
  | ptr p _ hp hx bs _ =>
    have ec : cnt 0x5B (List.replicate (p + 1) (.sym 0x2A 3) ++ .id x :: boundToks bs) = bs.length := by
      rw [cnt_append, cnt_stars _ _ (by decide), cnt_id _ _ hx.1 (by decide), cnt_bounds]; simp
    rw [ec]
    exact small_arrs (small_base (.inr (.inr rfl)) hn) bs

theorem small_dcls {o : Option CT} {ds : List Tk} {ms : List (Nat × CT)} (h : Dcls o ds ms) {n : Nat} (hn : 1 ≤ n) (ho : ∀ t, o = some t → t.small n) : ∀ m ∈ ms, m.2.small (n + cnt 0x5B ds) := by
  induction h with
  | one h =>
    intro m hm
    simp only [List.mem_singleton] at hm
    rw [hm]
    exact small_dcl h hn ho
  | more h _ ih =>
    intro m hm
    rw [cnt_append, cnt_cons, if_neg (by decide)]
    rcases List.mem_cons.1 hm with rfl | hm
    · exact small_mono _ (small_dcl h hn ho) (by omega)
    · exact small_mono _ (ih m hm) (by omega)

def EnvSmall (n : Nat) (env : Env) : Prop := ∀ g t, env g = some (some t) → t.small n

theorem EnvSmall.mono {n m : Nat} {env : Env} (h : EnvSmall n env) (hm : n ≤ m) : EnvSmall m env := fun g t e => small_mono t (h g t e) hm

def SpecSmall (env : Env) (ts : List Tk) (o : Option CT) (env' : Env) : Prop :=
  ∀ n, 1 ≤ n → EnvSmall n env → cnt 0x2C ts + cnt 0x3B ts ≤ 32 → EnvSmall (n + (cnt 0x5B ts + cnt 0x7B ts)) env' ∧ ∀ t, o = some t → t.small (n + (cnt 0x5B ts + cnt 0x7B ts))

def LinesSmall (env : Env) (ls : List Tk) (ms : List (Nat × CT)) (env' : Env) : Prop :=
  ∀ n, 1 ≤ n → EnvSmall n env → cnt 0x2C ls + cnt 0x3B ls ≤ 32 → EnvSmall (n + (cnt 0x5B ls + cnt 0x7B ls)) env' ∧ (∀ m ∈ ms, m.2.small (n + (cnt 0x5B ls + cnt 0x7B ls))) ∧
    ms.length ≤ cnt 0x2C ls + cnt 0x3B ls

theorem cnt_agg {ls : List Tk} (u : Bool) (x : Option Nat) (hx : ∀ y, x = some y → 37 ≤ y) (c : Nat) (hc : c < 150) :
    cnt c (kw (if u then tokUnion else tokStruct) :: (x.toList.map Tk.id ++ .sym 0x7B precStop :: (ls ++ [.sym 0x7D precStop]))) = cnt c ls + (if 0x7D = c then 1 else 0) + if 0x7B = c then 1 else 0 := by
  have hxs : cnt c (x.toList.map Tk.id) = 0 := by
    cases x with
    | none => rfl
    | some y => exact cnt_id c y (hx y rfl) (by omega) []
  rw [cnt_cons, if_neg (agg_tok u c hc), cnt_append, hxs, cnt_cons, cnt_append, cnt_cons, cnt_nil]
  show 0 + (cnt c ls + (0 + if 0x7D = c then 1 else 0) + if 0x7B = c then 1 else 0) + 0 = _
  omega

theorem EnvSmall.set {n : Nat} {env : Env} (h : EnvSmall n env) (u : Bool) (x : Option Nat) {v : Option CT} (hv : ∀ t, v = some t → t.small n) : EnvSmall n (env.set u x v) := by
  intro g t e
  cases x with
  | none => exact h g t e
  | some y =>
    unfold Env.set at e
    by_cases hg : g = tag u y
    · simp only [hg, if_true, Option.some.injEq] at e
      exact hv t e
    · simp only [hg, if_false] at e
      exact h g t e

theorem spec_small {env : Env} {ts : List Tk} {o : Option CT} {env' : Env} (h : Spec env ts o env') : SpecSmall env ts o env' :=
  Spec.rec (motive_1 := fun env ts o env' _ => SpecSmall env ts o env') (motive_2 := fun env ls ms env' _ => LinesSmall env ls ms env')
    (fun env n _ he _ => ⟨he.mono (by omega), nofun⟩)
    (fun env _ _ n hn he _ => ⟨he.mono (by omega), fun t ht => by cases ht; exact small_base (.inl rfl) (by omega)⟩)
    (fun env _ _ n hn he _ => ⟨he.mono (by omega), fun t ht => by cases ht; exact small_base (.inr (.inl rfl)) (by omega)⟩)
    (fun {_ _ ts _} q hq _ ih n hn he hc => by
      have hq150 : (kw q).tok = q ∧ 150 ≤ q := by rcases hq with rfl | rfl <;> decide
      have hcnt : ∀ c < 150, cnt c (kw q :: ts) = cnt c ts := fun c hc => by rw [cnt_cons, hq150.1, if_neg (by omega)]; rfl
      rw [hcnt 0x5B (by decide), hcnt 0x7B (by decide)]
      rw [hcnt 0x2C (by decide), hcnt 0x3B (by decide)] at hc
      exact ih n hn he hc)
    (fun env u x hx n hn he _ => ⟨he.mono (by omega), fun t ht => small_mono t (he (tag u x) t (by
      cases h : env (tag u x) with
      | none => rw [h] at ht; cases ht
      | some o => rw [h] at ht; exact congrArg some ht)) (by omega)⟩)
    (fun {_ _ ls ms} u x hx _ ih n hn he hc => by
      have c1 := cnt_agg (ls := ls) u x (fun y h => (hx y h).1.1)
      rw [c1 0x5B (by decide), c1 0x7B (by decide), if_pos rfl]
      rw [c1 0x2C (by decide), c1 0x3B (by decide)] at hc
      obtain ⟨h1, h2, h3⟩ := ih n hn (he.set u x nofun) (by omega)
      have hs : (agg u ms).small (n + (cnt 0x5B ls + cnt 0x7B ls) + 1) := small_agg u h2 (by omega)
      have hs2 := small_mono _ hs (m := n + (cnt 0x5B ls + (if 0x7D = 0x5B then 1 else 0) + (if 0x7B = 0x5B then 1 else 0) + (cnt 0x7B ls + (if 0x7D = 0x7B then 1 else 0) + 1))) (by omega)
      exact ⟨(h1.mono (by omega)).set u x (fun t ht => by cases ht; exact hs2), fun t ht => by cases ht; exact hs2⟩)
    (fun env n _ he _ => ⟨he.mono (by omega), nofun, by simp⟩)
    (fun {_ _ _ sp ds ls o ms ms'} _ hd _ ihs ihl n hn he hc => by
      obtain ⟨d1, d2, d3⟩ := hd.count
      have hcnt : ∀ c, cnt c (sp ++ (ds ++ .sym 0x3B precStop :: ls)) = cnt c sp + cnt c ds + cnt c ls + if 0x3B = c then 1 else 0 := fun c => by
        rw [cnt_append, cnt_append, cnt_cons]
        show _ + (_ + (_ + if 0x3B = c then 1 else 0)) = _
        omega
      rw [hcnt 0x2C, hcnt 0x3B, if_neg (by decide), if_pos rfl] at hc ⊢
      rw [hcnt 0x5B, hcnt 0x7B, if_neg (by decide), if_neg (by decide)]
      obtain ⟨h1, h2⟩ := ihs n hn he (by omega)
      have h3 := small_dcls hd (by omega) h2
      obtain ⟨h4, h5, h6⟩ := ihl _ (by omega) h1 (by omega)
      refine ⟨h4.mono (by omega), fun m hm => ?_, by rw [List.length_append]; omega⟩
      rcases List.mem_append.1 hm with h | h
      · exact small_mono _ (h3 m h) (by omega)
      · exact small_mono _ (h5 m h) (by omega)) h

/-! ## The table of variables -/

/-- What declarations of global variables do not change. -/
def fy (s : S) : S := { fz s with vars := .const ⟨0, 0, 0, 0, 0, none⟩ 9, lookup := .const none 10, scopes := .const 0 4, log := [], bss := 0 }

/-- The variables `vs` are at `c` and behind it: global variables with these types and without initial value, not yet placed or used. -/
def VarsAt (s : S) : Nat → List (Nat × CT) → Prop
  | _, [] => True
  | c, (x, t) :: vs => ((s.vars.get c).id = x ∧ Rep [] [] s (s.vars.get c).type (s.vars.get c).extra t ∧ (s.vars.get c).type &&& vtLocMask = vtLocGlob ∧ (s.vars.get c).type &&& vtFun = 0 ∧
      (s.vars.get c).offset = 0 ∧ (s.vars.get c).ref = 0) ∧ VarsAt s (c + 1) vs

theorem VarsAt.keep {s s' : S} (k : Keep [] [] s s') : ∀ {vs : List (Nat × CT)} {c : Nat}, VarsAt s c vs → (∀ j, c ≤ j → j < c + vs.length → s'.vars.get j = s.vars.get j) → VarsAt s' c vs
  | [], _, _, _ => trivial
  | _ :: vs, c, h, e => by
    obtain ⟨⟨h1, h2, h3⟩, h⟩ := h
    have ec := e c (Nat.le_refl _) (by simp)
    refine ⟨by rw [ec]; exact ⟨h1, h2.keep k, h3⟩, h.keep k fun j h1 h2 => e j (by omega) (by simp only [List.length_cons]; omega)⟩

theorem VarsAt.append {s : S} : ∀ {vs ws : List (Nat × CT)} {c : Nat}, VarsAt s c vs → VarsAt s (c + vs.length) ws → VarsAt s c (vs ++ ws)
  | [], _, _, _, h => h
  | _ :: vs, ws, c, h1, h2 => ⟨h1.1, h1.2.append (by simp only [List.length_cons] at h2; rw [Nat.add_assoc, Nat.add_comm 1]; exact h2)⟩

/-- Identifiers stand for variables, not for types. -/
def Td (s : S) : Prop := ∀ x < 2 ^ 10, ∀ v, s.lookup.get x = some v → v < s.scopes.get 0 ∧ (s.vars.get v).type &&& vtTypedef = 0

theorem Td.noTd {s : S} (h : Td s) : NoTd s := fun x hx v hv => (h x hx v hv).2

/-- Between `s` and `s'` the variables `vs` are declared. -/
structure Adds (s s' : S) (vs : List (Nat × CT)) : Prop where
  vars : VarsAt s' (s.scopes.get 0) vs
  cnt : s'.scopes.get 0 = s.scopes.get 0 + vs.length
  old : ∀ j < s.scopes.get 0, s'.vars.get j = s.vars.get j
  bss : s'.bss = s.bss + (vs.map fun v => v.2.size).sum
  keep : Keep [] [] s s'
  look : ∀ y < 2 ^ 10, y ∉ vs.map Prod.fst → s'.lookup.get y = s.lookup.get y
  td : Td s → Td s'
  fy : fy s' = fy s

theorem Adds.trans {s s1 s2 : S} {vs ws : List (Nat × CT)} (h1 : Adds s s1 vs) (h2 : Adds s1 s2 ws) : Adds s s2 (vs ++ ws) := by
  refine ⟨?_, ?_, fun j hj => ?_, ?_, h1.keep.trans h2.keep, fun y hy hn => ?_, fun h => h2.td (h1.td h), h2.fy.trans h1.fy⟩
  · refine (h1.vars.keep h2.keep fun j _ hj => h2.old j (by rw [h1.cnt]; exact hj)).append ?_
    rw [← h1.cnt]
    exact h2.vars
  · rw [h2.cnt, h1.cnt, List.length_append]; omega
  · rw [h2.old j (by rw [h1.cnt]; omega), h1.old j hj]
  · rw [h2.bss, h1.bss, List.map_append, List.sum_append]; omega
  · rw [List.map_append, List.mem_append, not_or] at hn
    rw [h2.look y hy hn.2, h1.look y hy hn.1]

theorem fz_td {s s' : S} (h : fz s' = fz s) : (Td s → Td s') ∧ s'.vars = s.vars ∧ s'.lookup = s.lookup ∧ s'.scopes = s.scopes ∧ s'.bss = s.bss ∧ s'.scopeCount = s.scopeCount ∧
    s'.ignoreRedef = s.ignoreRedef ∧ fy s' = fy s := by
  have e : ∀ {β : Type} (f : S → β), (∀ s, f (fz s) = f s) → f s' = f s := fun f hf => by rw [← hf, h, hf]
  have e1 := e S.vars fun _ => rfl
  have e2 := e S.lookup fun _ => rfl
  have e3 := e S.scopes fun _ => rfl
  refine ⟨fun t x hx v hv => ?_, e1, e2, e3, e S.bss fun _ => rfl, e S.scopeCount fun _ => rfl, e S.ignoreRedef fun _ => rfl, e fy fun _ => rfl⟩
  rw [e2] at hv
  rw [e1, e3]
  exact t x hx v hv

theorem Adds.of_fz {s s' : S} (h : fz s' = fz s) (k : Keep [] [] s s') : Adds s s' [] := by
  obtain ⟨h1, h2, h3, h4, h5, _, _, h8⟩ := fz_td h
  exact ⟨trivial, by rw [h4]; rfl, fun j _ => by rw [h2], by rw [h5]; rfl, k, fun y _ _ => by rw [h3], h1, h8⟩

/-- After the declarator of `x`: the variable is in the table. -/
structure Entry (s s' : S) (x : Nat) (t : CT) : Prop where
  var : s'.vars.get (s.scopes.get 0) = ⟨x, s'.type, s'.extra, 0, 0, none⟩
  cnt : s'.scopes.get 0 = s.scopes.get 0 + 1
  old : ∀ j < s.scopes.get 0, s'.vars.get j = s.vars.get j
  bss : s'.bss = s.bss
  rep : Rep [] [] s' s'.type s'.extra t
  lo : s'.type < 512 ∧ s'.type &&& vtFunPtr = 0
  keep : Keep [] [] s s'
  look : ∀ y < 2 ^ 10, y ≠ x → s'.lookup.get y = s.lookup.get y
  td : Td s → Td s'
  fy : fy s' = fy s

/-- The fields of the tables which no variable changes. -/
structure Same (s s' : S) : Prop where
  mc : s'.memCount = s.memCount
  st : s'.structs = s.structs
  sc : s'.structCount = s.structCount

theorem lo_td : ∀ ty < 512, ty &&& 4096 = 0 := by decide +kernel

theorem Dcl.id {o : Option CT} {d : List Tk} {x : Nat} {t : CT} (h : Dcl o d x t) : 37 ≤ x ∧ x < idMax := by
  cases h with
  | val _ hx => exact hx
  | ptr _ _ _ hx => exact hx

theorem doDecl_ok {o : Option CT} {d : List Tk} {x : Nat} {t : CT} (h : Dcl o d x t) {u : Tk} (hu : u.tok ≠ 0x5B ∧ u.tok ≠ 0x28) {ts : List Tk} {s : S} (hat : At N E s (d ++ u :: ts))
    (hb : Base [] [] s s.type s.extra o) (hc : s.arrayCount + cnt 0x5B d ≤ 32) (hmc : s.memCount ≤ 32) (hsc : s.scopeCount = 1) (hr : s.ignoreRedef = 0) (hv : s.scopes.get 0 < varDeclMax)
    (hx : s.lookup.get x = none) :
    ∃ s', (∃ M, ∀ n, M ≤ n → doDecl (run n) s = .ok (s.scopes.get 0) s') ∧ At N E s' (u :: ts) ∧ Entry s s' x t ∧ Same s s' ∧ s'.arrayCount = s.arrayCount + cnt 0x5B d ∧ s'.baseType = s.baseType ∧
      s'.baseExtra = s.baseExtra ∧ ∃ bt be, SaveBase s' bt be ∧ (Simple d → bt = s.type ∧ be = s.extra) := by
  have hxi : x < idMax := h.id.2
  obtain ⟨s2, ⟨M, g2⟩, a2, r2, m2, c2, st2, sc2, bt2, be2, ac2, kp2, z2, lo2, bt, be, sb2, sp2⟩ := dcl_ok (om := []) (os := []) (dest := .ret) (.inl rfl) nofun h hu hat hb hc hmc
  obtain ⟨w1, w2, w3, w4, w5, w6, w7, w8⟩ := fz_td z2
  let c := s.scopes.get 0
  let s3 : S := { s2 with
    scopes := s2.scopes.set 0 (c + 1)
    vars := (s2.vars.set c ⟨x, s2.type, s2.extra, 0, 0, (s2.vars.get c).prev⟩).set c
      { (s2.vars.set c ⟨x, s2.type, s2.extra, 0, 0, (s2.vars.get c).prev⟩).get c with prev := none }
    lookup := s2.lookup.set x (some c), log := .decl x c :: s2.log }
  have v3 : s3.vars.get c = ⟨x, s2.type, s2.extra, 0, 0, none⟩ := by
    show ((s2.vars.set c _).set c _).get c = _
    rw [Tab.get_set_self, Tab.get_set_self]
  have hv' : c < 2 ^ 9 := Nat.lt_trans hv (by decide)
  have hx10 : x < 2 ^ 10 := Nat.lt_trans hxi (by decide)
  have old3 : ∀ j < 2 ^ 9, j ≠ c → s3.vars.get j = s.vars.get j := fun j hj hne => by
    show ((s2.vars.set c _).set c _).get j = _
    rw [Tab.get_set_ne _ _ hv' hj (Ne.symm hne), Tab.get_set_ne _ _ hv' hj (Ne.symm hne), w2]
  have cnt3 : s3.scopes.get 0 = c + 1 := Tab.get_set_self _ _ _
  have look3 : ∀ y < 2 ^ 10, y ≠ x → s3.lookup.get y = s.lookup.get y := fun y hy hne => by
    show (s2.lookup.set x _).get y = _
    rw [Tab.get_set_ne _ _ hx10 hy (Ne.symm hne), w3]
  have td3 : Td s → Td s3 := by
    intro td y hy v hv
    by_cases hyx : y = x
    · have : s3.lookup.get x = some c := Tab.get_set_self _ _ _
      rw [hyx, this] at hv
      cases hv
      rw [cnt3, v3]
      exact ⟨Nat.lt_succ_self _, by show s2.type &&& 4096 = 0; exact lo_td _ lo2.1⟩
    · rw [look3 y hy hyx] at hv
      obtain ⟨h1, h2⟩ := td y hy v hv
      rw [cnt3, old3 v (Nat.lt_trans h1 hv') (Nat.ne_of_lt h1)]
      exact ⟨Nat.lt_succ_of_lt h1, h2⟩
  refine ⟨s3, ⟨M, fun n hn => run_bind (g2 n hn) (run_failIf (decide_eq_false (by omega)) ?_)⟩, a2.congr rfl,
    ⟨v3, cnt3, fun j hj => old3 j (Nat.lt_trans hj hv') (Nat.ne_of_lt hj), w5, r2.keep (.of_tb rfl), lo2, kp2.trans (.of_tb rfl), look3, td3, (show fy s3 = fy s2 from rfl).trans w8⟩,
    ⟨c2, st2, sc2⟩, ac2, bt2, be2, bt, be, sb2, sp2⟩
  have hl : s2.lookup.get x = none := by rw [w3]; exact hx
  have hs0 : s2.scopes.get (s2.scopeCount - 1) = c := by rw [w6, hsc, w4]
  refine run_getS (run_failIf (decide_eq_false (by rw [hs0]; omega)) (run_ub (decide_eq_true ⟨by omega, by omega⟩) (run_neg ?_ ?_)))
  · rw [Int.toNat_natCast, hl]
    exact fun h => nomatch h.2
  · rw [Int.toNat_natCast, hl, w6, hsc]
    refine run_bind (a := c) (s1 := { s2 with scopes := s2.scopes.set 0 (c + 1), vars := s2.vars.set c ⟨x, s2.type, s2.extra, 0, 0, (s2.vars.get c).prev⟩ }) ?_ rfl
    refine run_getS ?_
    have : s2.scopes.get (1 - 1) = c := by rw [← hs0, w6, hsc]
    rw [this]
    exact run_ub (decide_eq_true hv) rfl

theorem repr_glob {s : S} {ty : Nat} {ex : Int} {t : CT} (h : Repr s ty ex t) : Repr s (ty ||| vtLocGlob) ex t := by
  have e1 : (ty ||| vtLocGlob) &&& (vtPtrMask ||| vtFunPtr) = ty &&& (vtPtrMask ||| vtFunPtr) := by rw [Nat.and_or_distrib_right]; exact Nat.or_zero _
  have e2 : (ty ||| vtLocGlob) &&& vtBaseMask = ty &&& vtBaseMask := by rw [Nat.and_or_distrib_right]; exact Nat.or_zero _
  cases h with
  | ptr h => exact .ptr (by rw [e1]; exact h)
  | int h hb => exact .int (by rw [e1]; exact h) (by rw [e2]; exact hb)
  | char h hb => exact .char (by rw [e1]; exact h) (by rw [e2]; exact hb)
  | arr h hb hk h0 ht => exact .arr (by rw [e1]; exact h) (by rw [e2]; exact hb) hk h0 ht
  | struct h hb hk hu hm => exact .struct (by rw [e1]; exact h) (by rw [e2]; exact hb) hk hu hm
  | union h hb hk hu hm => exact .union (by rw [e1]; exact h) (by rw [e2]; exact hb) hk hu hm

theorem lo_glob : ∀ ty < 512, (ty ||| vtLocGlob) &&& vtLocMask = vtLocGlob ∧ (ty ||| vtLocGlob) &&& vtTypedef = 0 ∧ (ty &&& vtFunPtr = 0 → (ty ||| vtLocGlob) &&& vtFun = 0 ∧ ty &&& vtFun = 0) ∧
    clr ty vtStatic = ty := by decide +kernel

/-- The first half of a round of the loop over global variables. -/
theorem put_ok {s0 s : S} {x : Nat} {t : CT} (h : Entry s0 s x t) (hv : s0.scopes.get 0 < varDeclMax) (hsm : t.small sizeFuel) (hsz : t.size < 2 ^ 30) {u : Tk} {ts : List Tk}
    (hat : At N E s (u :: ts)) (hu : u.tok ≠ 0x3D) :
    ∃ s', Adds s0 s' [(x, t)] ∧ At N E s' (u :: ts) ∧ tb s' = tb s ∧ fy s' = fy s ∧
      ∀ s'', (∃ M, ∀ n, M ≤ n → (nextDecl (run n) >>= fun w => match w with | some w => go' (run n) (.globals w) | none => pure ()) s' = .ok () s'') → Go (.globals (s0.scopes.get 0)) s s'' := by
  let c := s0.scopes.get 0
  let s1 : S := { s with vars := s.vars.set c { s.vars.get c with type := (s.vars.get c).type ||| vtLocGlob } }
  let s2 : S := { s1 with bss := s1.bss + t.size }
  have hv' : c < 2 ^ 9 := Nat.lt_trans hv (by decide)
  obtain ⟨l1, l2, l3, _⟩ := lo_glob _ h.lo.1
  have v2 : s2.vars.get c = ⟨x, s.type ||| vtLocGlob, s.extra, 0, 0, none⟩ := by
    show (s.vars.set c _).get c = _
    rw [Tab.get_set_self, h.var]
  have old2 : ∀ j < 2 ^ 9, j ≠ c → s2.vars.get j = s.vars.get j := fun j hj hne => Tab.get_set_ne _ _ hv' hj (Ne.symm hne)
  refine ⟨s2, ⟨⟨?_, trivial⟩, h.cnt, fun j hj => ?_, ?_, h.keep.trans (.of_tb rfl), fun y hy hn => h.look y hy (by simpa using hn), fun td => ?_, (show fy s2 = fy s from rfl).trans h.fy⟩, hat.congr rfl, rfl, rfl,
    fun s'' hs => ?_⟩
  · show (s2.vars.get c).id = _ ∧ Rep [] [] s2 (s2.vars.get c).type (s2.vars.get c).extra t ∧ (s2.vars.get c).type &&& _ = _ ∧ (s2.vars.get c).type &&& _ = _ ∧ (s2.vars.get c).offset = _ ∧ (s2.vars.get c).ref = _
    rw [v2]
    exact ⟨rfl, fun s' k => repr_glob ((h.rep.keep (.of_tb rfl : Keep [] [] s s2)) s' k), l1, (l3 h.lo.2).1, rfl, rfl⟩
  · rw [old2 j (Nat.lt_trans hj hv') (Nat.ne_of_lt hj)]; exact h.old j hj
  · show s.bss + _ = _; rw [h.bss]; simp
  · have td := h.td td
    intro y hy v hv
    obtain ⟨h1, h2⟩ := td y hy v hv
    refine ⟨h1, ?_⟩
    by_cases hvc : v = c
    · rw [hvc, v2]; exact l2
    · have h1 : v < c + 1 := by rw [h.cnt] at h1; exact h1
      rw [old2 v (by omega) hvc]; exact h2
  · obtain ⟨M, hs⟩ := hs
    have t1 : s1.tok ≠ 0x3D := by show s.tok ≠ _; rw [hat.1.tok]; exact hu
    refine Go.of M fun n hn => run_bind (a := ()) (s1 := s'') (run_modS (run_getS (run_neg t1 ?_))) rfl
    have e : sizeofCurrentType s1 = .ok t.size s1 := Props.C40_sizeof s1 t _ _ ((h.rep.keep (.of_tb rfl : Keep [] [] s s1)).repr) hsm hsz
    exact run_bind e (run_modS (hs n hn))

theorem globals_end {s0 s : S} {x : Nat} {t : CT} (h : Entry s0 s x t) (hv : s0.scopes.get 0 < varDeclMax) (hsm : t.small sizeFuel) (hsz : t.size < 2 ^ 30) {ts : List Tk}
    (hat : At N E s (.sym 0x3B precStop :: ts)) : ∃ s', Go (.globals (s0.scopes.get 0)) s s' ∧ Adds s0 s' [(x, t)] ∧ At N E s' (.sym 0x3B precStop :: ts) ∧ tb s' = tb s := by
  obtain ⟨s', h1, a1, h2, _, h4⟩ := put_ok h hv hsm hsz hat (by decide)
  refine ⟨s', h4 s' ⟨0, fun n _ => run_bind (a := none) (s1 := s') (run_getS (run_pos ?_ rfl)) rfl⟩, h1, a1, h2⟩
  rw [a1.1.tok]
  decide

/-- The declarators after a comma. -/
theorem globals_more {o : Option CT} {ds : List Tk} {ms : List (Nat × CT)} (h : Dcls o ds ms) {ts : List Tk} :
    ∀ {s0 s : S} {x : Nat} {t : CT}, Entry s0 s x t → s0.scopes.get 0 + ms.length < varDeclMax → t.small sizeFuel → t.size < 2 ^ 30 → (∀ m ∈ ms, m.2.small sizeFuel ∧ m.2.size < 2 ^ 30) →
    At N E s (.sym 0x2C precComma :: (ds ++ .sym 0x3B precStop :: ts)) → Base [] [] s s.baseType s.baseExtra o → s.arrayCount + cnt 0x5B ds ≤ 32 → s.memCount ≤ 32 → s.scopeCount = 1 → s.ignoreRedef = 0 →
    (∀ m ∈ ms, s0.lookup.get m.1 = none ∧ m.1 ≠ x) → (ms.map Prod.fst).Nodup →
    ∃ s', Go (.globals (s0.scopes.get 0)) s s' ∧ Adds s0 s' ((x, t) :: ms) ∧ At N E s' (.sym 0x3B precStop :: ts) ∧ Same s s' ∧ s'.arrayCount = s.arrayCount + cnt 0x5B ds := by
  have key : ∀ {d rs : List Tk} {y : Nat} {ty : CT} {v : Tk}, Dcl o d y ty → (v.tok ≠ 0x5B ∧ v.tok ≠ 0x28) → ∀ {s0 s : S} {x : Nat} {t : CT}, Entry s0 s x t → s0.scopes.get 0 + 1 < varDeclMax →
      t.small sizeFuel → t.size < 2 ^ 30 → At N E s (.sym 0x2C precComma :: (d ++ v :: rs)) → Base [] [] s s.baseType s.baseExtra o → s.arrayCount + cnt 0x5B d ≤ 32 → s.memCount ≤ 32 → s.scopeCount = 1 →
      s.ignoreRedef = 0 → s0.lookup.get y = none → y ≠ x →
      ∃ s1 s2, Adds s0 s1 [(x, t)] ∧ At N E s2 (v :: rs) ∧ Entry s1 s2 y ty ∧ Same s s2 ∧ s2.arrayCount = s.arrayCount + cnt 0x5B d ∧ s2.baseType = s.baseType ∧ s2.baseExtra = s.baseExtra ∧
        Base [] [] s2 s2.baseType s2.baseExtra o ∧ fy s2 = fy s ∧ ∀ s'', Go (.globals (s1.scopes.get 0)) s2 s'' → Go (.globals (s0.scopes.get 0)) s s'' := by
    intro d rs y ty v hd hv s0 s x t he hvd hsm hsz hat hb hc hmc hsc hr hl hne
    obtain ⟨s1, h1, a1, b1, f1, g1⟩ := put_ok he (by omega) hsm hsz hat (by decide)
    obtain ⟨w, ws, hw⟩ : ∃ w ws, d ++ v :: rs = w :: ws := by
      cases d with
      | nil => exact ⟨_, _, rfl⟩
      | cons d ds => exact ⟨_, _, rfl⟩
    have t1 : s1.tok = 0x2C := a1.1.tok
    rw [hw] at a1
    obtain ⟨s2, e2, k2, a2⟩ := a1.next
    rw [← hw] at a2
    let s3 : S := { s2 with type := s2.baseType, extra := s2.baseExtra }
    have b3 : tb s3 = tb s := ((show tb s3 = tb s2 from rfl).trans k2.tb).trans b1
    obtain ⟨m1, m2, m3, m4, m5, m6⟩ := mem_tb b3
    obtain ⟨q1, q2⟩ := arr_tb b3
    have z3 : fz s3 = fz s1 := (show fz s3 = fz s2 from rfl).trans k2.fz
    have ad3 : Adds s0 s3 [(x, t)] := h1.trans (ws := []) (.of_fz z3 (.of_tb ((show tb s3 = tb s2 from rfl).trans k2.tb)))
    have f3 : fy s3 = fy s := (fz_td z3).2.2.2.2.2.2.2.trans f1
    have p1 : s3.scopeCount = 1 := by have := congrArg S.scopeCount f3; exact Eq.trans this hsc
    have p2 : s3.ignoreRedef = 0 := by have := congrArg S.ignoreRedef f3; exact Eq.trans this hr
    have p3 : s3.scopes.get 0 = s0.scopes.get 0 + 1 := ad3.cnt
    have bb3 : Base [] [] s3 s3.type s3.extra o := by
      show Base [] [] s3 s3.baseType s3.baseExtra o
      rw [m5, m6]
      exact hb.keep (.of_tb b3)
    obtain ⟨s4, ⟨M4, g4⟩, a4, en4, sm4, ac4, bt4, be4, _⟩ := doDecl_ok hd hv (s := s3) (a2.congr rfl) bb3 (by rw [q2]; exact hc) (by rw [m2]; exact hmc) p1 p2 (by rw [p3]; exact hvd)
      (by rw [ad3.look y (Nat.lt_trans hd.id.2 (by decide)) (by simpa using hne)]; exact hl)
    refine ⟨s3, s4, ad3, a4, en4, ⟨sm4.mc.trans m2, sm4.st.trans m3, sm4.sc.trans m4⟩, by rw [ac4, q2], bt4.trans m5, be4.trans m6, ?_, en4.fy.trans f3, fun s'' hs => g1 s'' ?_⟩
    · rw [bt4, be4]
      exact bb3.keep en4.keep
    · obtain ⟨M, hs⟩ := hs
      refine ⟨max M M4, fun n hn => run_bind (a := some (s3.scopes.get 0)) (s1 := s4) ?_ (hs n (by omega))⟩
      refine run_getS (run_neg (fun h => h t1) (run_bind e2 (run_modS (run_bind (g4 n (by omega)) rfl))))
  induction h with
  | one h =>
    intro s0 s x t he hvd hsm hsz hall hat hb hc hmc hsc hr hl _
    have hm := hall _ (List.mem_singleton.2 rfl)
    have hl' := hl _ (List.mem_singleton.2 rfl)
    obtain ⟨s1, s2, ad, a2, en, sm, ac, _, _, _, _, g⟩ := key h (v := .sym 0x3B precStop) (by decide) he hvd hsm hsz hat hb hc hmc hsc hr hl'.1 hl'.2
    obtain ⟨s3, g3, ad3, a3, b3⟩ := globals_end en (by rw [ad.cnt]; exact hvd) hm.1 hm.2 a2
    obtain ⟨_, m2, m3, m4, _⟩ := mem_tb b3
    exact ⟨s3, g s3 g3, ad.trans ad3, a3, ⟨m2.trans sm.mc, m3.trans sm.st, m4.trans sm.sc⟩, by rw [(arr_tb b3).2, ac]⟩
  | @more d ds y ty ms h hs ih =>
    intro s0 s x t he hvd hsm hsz hall hat hb hc hmc hsc hr hl hnd
    simp only [List.length_cons] at hvd
    rw [cnt_append, cnt_cons, if_neg (by decide)] at hc ⊢
    rw [List.append_assoc] at hat
    have hat : At N E s (.sym 0x2C precComma :: (d ++ .sym 0x2C precComma :: (ds ++ .sym 0x3B precStop :: ts))) := hat
    have hm := hall _ (List.mem_cons_self ..)
    have hl' := hl _ (List.mem_cons_self ..)
    rw [List.map_cons, List.nodup_cons] at hnd
    obtain ⟨s1, s2, ad, a2, en, sm, ac, _, _, b2, f2, g⟩ := key h (v := .sym 0x2C precComma) (by decide) he (by omega) hsm hsz hat hb (by omega) hmc hsc hr hl'.1 hl'.2
    have p1 : s2.scopeCount = 1 := by have := congrArg S.scopeCount f2; exact Eq.trans this hsc
    have p2 : s2.ignoreRedef = 0 := by have := congrArg S.ignoreRedef f2; exact Eq.trans this hr
    have hfst : ∀ m ∈ ms, m.1 < 2 ^ 10 := fun m hm => by
      have : ∀ {ds : List Tk} {ms : List (Nat × CT)}, Dcls o ds ms → ∀ m ∈ ms, m.1 < 2 ^ 10 := by
        intro ds ms h
        induction h with
        | one h => intro m hm; rw [List.mem_singleton.1 hm]; exact Nat.lt_trans h.id.2 (by decide)
        | more h _ ih =>
          intro m hm
          rcases List.mem_cons.1 hm with rfl | hm
          · exact Nat.lt_trans h.id.2 (by decide)
          · exact ih m hm
      exact this hs m hm
    obtain ⟨s3, g3, ad3, a3, sm3, ac3⟩ := ih en (by rw [ad.cnt]; show _ + 1 + _ < _; omega) hm.1 hm.2 (fun m h => hall m (List.mem_cons_of_mem _ h)) a2 b2 (by omega) (by rw [sm.mc]; exact hmc) p1 p2
      (fun m hm => ⟨by
        have := hl m (List.mem_cons_of_mem _ hm)
        rw [ad.look _ (hfst m hm) (by simpa using this.2)]
        exact this.1, fun e => hnd.1 (List.mem_map.2 ⟨m, hm, e⟩)⟩) hnd.2
    exact ⟨s3, g s3 g3, ad.trans ad3, a3, ⟨sm3.mc.trans sm.mc, sm3.st.trans sm.st, sm3.sc.trans sm.sc⟩, by rw [ac3, ac]; omega⟩

/-! ## Declarations -/

theorem declSpecs_ok {env env' : Env} {ts : List Tk} {o : Option CT} (h : Spec env ts o env') {ix : Nat → Int} {s : S} {u : Tk} {rest : List Tk} (hat : At N E s (ts ++ u :: rest)) (hu : Ender u)
    (hok : Ok [] [] env ix s) (hc : s.arrayCount + cnt 0x5B ts ≤ 32) (hm : s.memCount + (cnt 0x2C ts + cnt 0x3B ts) ≤ 32) (hs : s.structCount + cnt 0x7B ts ≤ 8) :
    ∃ s' ix', Go .declSpecs s s' ∧ At N E s' (u :: rest) ∧ Ok [] [] env' ix' s' ∧ Base [] [] s' s'.type s'.extra o ∧ Adds s s' [] ∧
      s'.arrayCount = s.arrayCount + cnt 0x5B ts ∧ s'.memCount = s.memCount + (cnt 0x2C ts + cnt 0x3B ts) ∧ s'.structCount = s.structCount + cnt 0x7B ts ∧ fz s' = fz s := by
  let s1 : S := { s with type := vtInt }
  obtain ⟨s2, ix2, ⟨M, g2⟩, a2, o2, _, b2, k2, ac2, mc2, sc2, z2⟩ := spec_ok h (s := s1) (hat.congr rfl) hu (hok.upd rfl rfl) rfl hc hm hs
  exact ⟨s2, ix2, Go.of M fun n hn => run_bind (a := ()) (s1 := s2) (run_modS (g2 n hn)) rfl, a2, o2, b2, .of_fz z2 (Keep.trans (.of_tb (s := s) (s' := s1) rfl) k2), ac2, mc2, sc2, z2⟩

theorem type_ok {env env' : Env} {sp : List Tk} {o : Option CT} (h : Spec env sp o env') {ix : Nat → Int} {s : S} {u : Tk} {rest : List Tk} (hat : At N E s (sp ++ .sym 0x3B precStop :: u :: rest))
    (hok : Ok [] [] env ix s) (hc : s.arrayCount + cnt 0x5B sp ≤ 32) (hm : s.memCount + (cnt 0x2C sp + cnt 0x3B sp) ≤ 32) (hs : s.structCount + cnt 0x7B sp ≤ 8) :
    ∃ s' ix', (∃ M, ∀ n, M ≤ n → parseExternal (run n) s = .ok () s') ∧ At N E s' (u :: rest) ∧ Ok [] [] env' ix' s' ∧ Adds s s' [] ∧
      s'.arrayCount = s.arrayCount + cnt 0x5B sp ∧ s'.memCount = s.memCount + (cnt 0x2C sp + cnt 0x3B sp) ∧ s'.structCount = s.structCount + cnt 0x7B sp := by
  obtain ⟨s1, ix1, ⟨M, g1⟩, a1, o1, b1, ad1, ac1, mc1, sc1, z1⟩ := declSpecs_ok h hat (.inl (by decide)) hok hc hm hs
  have t1 : s1.tok = 0x3B := a1.1.tok
  obtain ⟨s2, e2, k2, a2⟩ := a1.next
  obtain ⟨_, m2, _, m4, _⟩ := mem_tb k2.tb
  refine ⟨s2, ix1, ⟨M, fun n hn => run_bind (a := none) (s1 := s1) (run_bind (g1 n hn) (run_getS (run_pos t1 rfl))) (run_getS (run_pos t1 e2))⟩, a2, o1.upd k2.tb k2.fz, ad1.trans (.of_fz k2.fz (.of_tb k2.tb)),
    by rw [(arr_tb k2.tb).2, ac1], by rw [m2, mc1], by rw [m4, sc1]⟩

theorem Dcl.first {o : Option CT} {d : List Tk} {x : Nat} {t : CT} (h : Dcl o d x t) : ∃ v vs, d = v :: vs ∧ Ender v ∧ v.tok ≠ 0x3B := by
  cases h with
  | val _ hx bs _ _ => exact ⟨_, _, rfl, .inr ⟨x, rfl, hx⟩, by show x + 150 ≠ _; omega⟩
  | ptr p _ hp hx bs _ => exact ⟨.sym 0x2A 3, _, rfl, .inl (by decide), by decide⟩

theorem Ok.glob {env : Env} {ix : Nat → Int} {s s' : S} (h : Ok [] [] env ix s) (k : Keep [] [] s s') (sm : Same s s') (hc : s'.arrayCount ≤ 32) (td : NoTd s') : Ok [] [] env ix s' := by
  refine ⟨hc, by rw [sm.mc]; exact h.mc, by rw [sm.sc]; exact h.sc, nofun, nofun, fun u x hx => ?_, h.free, fun u x t hx he => ?_, td⟩
  · rw [find_congr sm.sc (fun k _ => by rw [sm.st])]
    exact h.find u x hx
  · obtain ⟨j, e, r⟩ := h.full u x t hx he
    exact ⟨j, e, r.keep k⟩

theorem Entry.clear {s0 s : S} {x : Nat} {t : CT} (h : Entry s0 s x t) (hv : s0.scopes.get 0 < varDeclMax) (bt : Nat) (be : Int) :
    Entry s0 { s with baseType := bt, baseExtra := be, vars := s.vars.set (s0.scopes.get 0) { s.vars.get (s0.scopes.get 0) with type := clr (s.vars.get (s0.scopes.get 0)).type vtStatic } } x t := by
  let c := s0.scopes.get 0
  let s' : S := { s with baseType := bt, baseExtra := be, vars := s.vars.set c { s.vars.get c with type := clr (s.vars.get c).type vtStatic } }
  have hv' : c < 2 ^ 9 := Nat.lt_trans hv (by decide)
  have v2 : s'.vars.get c = ⟨x, s.type, s.extra, 0, 0, none⟩ := by
    show (s.vars.set c _).get c = _
    rw [Tab.get_set_self, h.var]
    show VarDecl.mk _ (clr s.type vtStatic) _ _ _ _ = _
    rw [(lo_glob _ h.lo.1).2.2.2]
  have old2 : ∀ j < 2 ^ 9, j ≠ c → s'.vars.get j = s.vars.get j := fun j hj hne => Tab.get_set_ne _ _ hv' hj (Ne.symm hne)
  have k : Keep [] [] s s' := ⟨Nat.le_refl _, Nat.le_refl _, Nat.le_refl _, fun _ _ => rfl, fun _ _ _ => rfl, fun _ _ _ => rfl⟩
  refine ⟨v2, h.cnt, fun j hj => (old2 j (Nat.lt_trans hj hv') (Nat.ne_of_lt hj)).trans (h.old j hj), h.bss, h.rep.keep k, h.lo, h.keep.trans k, h.look, fun td y hy v hv => ?_,
    (show SccDecl.fy s' = SccDecl.fy s from rfl).trans h.fy⟩
  obtain ⟨h1, h2⟩ := h.td td y hy v hv
  refine ⟨h1, ?_⟩
  by_cases hvc : v = c
  · show (s'.vars.get v).type &&& _ = _
    rw [hvc, v2]; exact lo_td _ h.lo.1
  · have h1 : v < c + 1 := by rw [h.cnt] at h1; exact h1
    show (s'.vars.get v).type &&& _ = _
    rw [old2 v (by omega) hvc]; exact h2

/-- The first declarator of a declaration. -/
theorem first_ok {o : Option CT} {d : List Tk} {x : Nat} {t : CT} (h : Dcl o d x t) {u : Tk} (hu : u.tok ≠ 0x5B ∧ u.tok ≠ 0x28) {ts : List Tk} {s s1 : S} (g1 : Go .declSpecs s s1)
    (hat : At N E s1 (d ++ u :: ts)) (hb : Base [] [] s1 s1.type s1.extra o) (hc : s1.arrayCount + cnt 0x5B d ≤ 32) (hmc : s1.memCount ≤ 32) (hsc : s1.scopeCount = 1) (hr : s1.ignoreRedef = 0)
    (hv : s1.scopes.get 0 < varDeclMax) (hx : s1.lookup.get x = none) :
    ∃ s', At N E s' (u :: ts) ∧ Entry s1 s' x t ∧ Same s1 s' ∧ s'.arrayCount = s1.arrayCount + cnt 0x5B d ∧ (Simple d → Base [] [] s' s'.baseType s'.baseExtra o) ∧
      ∀ s2 s3, Go (.globals (s1.scopes.get 0)) s' s2 → expect 0x3B s2 = .ok () s3 → ∃ M, ∀ n, M ≤ n → parseExternal (run n) s = .ok () s3 := by
  obtain ⟨s2, ⟨M2, g2⟩, a2, en2, sm2, ac2, bt2, be2, bt, be, sb, sp⟩ := doDecl_ok h hu hat hb hc hmc hsc hr hv hx
  let s3 : S := { s2 with
    baseType := bt, baseExtra := be, vars := s2.vars.set (s1.scopes.get 0) { s2.vars.get (s1.scopes.get 0) with type := clr (s2.vars.get (s1.scopes.get 0)).type vtStatic } }
  have en : Entry s1 s3 x t := en2.clear hv bt be
  refine ⟨s3, a2.congr rfl, en, ⟨sm2.mc, sm2.st, sm2.sc⟩, ac2, fun hs => ?_, fun s4 s5 g4 e5 => ?_⟩
  · obtain ⟨e1, e2⟩ := sp hs
    show Base [] [] s3 bt be o
    rw [e1, e2]
    exact hb.keep en.keep
  · obtain ⟨v, vs, hd, _, hv3⟩ := h.first
    obtain ⟨M1, g1⟩ := g1
    obtain ⟨M4, g4⟩ := g4
    refine ⟨max M1 (max M2 M4), fun n hn => ?_⟩
    refine run_bind (a := some (s1.scopes.get 0)) (s1 := { s2 with baseType := bt, baseExtra := be }) (run_bind (g1 n (by omega)) (run_getS (run_neg ?_ (run_bind (g2 n (by omega))
      (run_bind (sb s2 rfl rfl rfl) rfl))))) (run_modS (run_getS (run_neg ?_ (run_bind (g4 n (by omega)) e5))))
    · rw [hd] at hat
      rw [hat.1.tok]
      exact hv3
    · intro hn
      refine hn ?_
      have := en.var
      have ty : ((s2.vars.set (s1.scopes.get 0) { s2.vars.get (s1.scopes.get 0) with type := clr (s2.vars.get (s1.scopes.get 0)).type vtStatic }).get (s1.scopes.get 0)).type = s2.type := congrArg VarDecl.type this
      show ((s2.vars.set (s1.scopes.get 0) { s2.vars.get (s1.scopes.get 0) with type := clr (s2.vars.get (s1.scopes.get 0)).type vtStatic }).get (s1.scopes.get 0)).type &&& vtFun = 0
      rw [ty]
      exact ((lo_glob _ en2.lo.1).2.2.1 en2.lo.2).2

theorem Vars.first {o : Option CT} {ds : List Tk} {ms : List (Nat × CT)} (h : Vars o ds ms) : ∃ v vs, ds = v :: vs ∧ Ender v := by
  cases h with
  | one h =>
    obtain ⟨v, vs, e, hv, _⟩ := h.first
    exact ⟨v, vs, e, hv⟩
  | more h _ _ =>
    obtain ⟨v, vs, rfl, hv, _⟩ := h.first
    exact ⟨v, _, rfl, hv⟩

theorem Vars.dcls {o : Option CT} {ds : List Tk} {ms : List (Nat × CT)} (h : Vars o ds ms) : Dcls o ds ms := by
  cases h with
  | one h => exact .one h
  | more h _ hs => exact .more h hs

theorem vars_ok {env env' : Env} {sp ds : List Tk} {o : Option CT} {ms : List (Nat × CT)} (h : Spec env sp o env') (hd : Vars o ds ms) {ix : Nat → Int} {s : S} {u : Tk} {rest : List Tk}
    (hat : At N E s (sp ++ (ds ++ .sym 0x3B precStop :: u :: rest))) (hok : Ok [] [] env ix s) (htd : Td s) (hc : s.arrayCount + (cnt 0x5B sp + cnt 0x5B ds) ≤ 32)
    (hm : s.memCount + (cnt 0x2C sp + cnt 0x3B sp) ≤ 32) (hs : s.structCount + cnt 0x7B sp ≤ 8) (hsc : s.scopeCount = 1) (hr : s.ignoreRedef = 0) (hv : s.scopes.get 0 + ms.length ≤ varDeclMax)
    (hx : ∀ m ∈ ms, s.lookup.get m.1 = none) (hnd : (ms.map Prod.fst).Nodup) (hsm : ∀ m ∈ ms, m.2.small sizeFuel ∧ m.2.size < 2 ^ 30) :
    ∃ s' ix', (∃ M, ∀ n, M ≤ n → parseExternal (run n) s = .ok () s') ∧ At N E s' (u :: rest) ∧ Ok [] [] env' ix' s' ∧ Adds s s' ms ∧
      s'.arrayCount = s.arrayCount + (cnt 0x5B sp + cnt 0x5B ds) ∧ s'.memCount = s.memCount + (cnt 0x2C sp + cnt 0x3B sp) ∧ s'.structCount = s.structCount + cnt 0x7B sp := by
  obtain ⟨v, vs, hv', hve⟩ := hd.first
  have hat' : At N E s (sp ++ v :: (vs ++ .sym 0x3B precStop :: u :: rest)) := by rw [hv'] at hat; exact hat
  obtain ⟨s1, ix1, g1, a1, o1, b1, ad1, ac1, mc1, sc1, z1⟩ := declSpecs_ok h hat' hve hok (by omega) hm hs
  have a1 : At N E s1 (ds ++ .sym 0x3B precStop :: u :: rest) := by rw [hv']; exact a1
  obtain ⟨_, w2, w3, w4, w5, w6, w7, w8⟩ := fz_td z1
  have fin : ∀ {s2 : S}, At N E s2 (.sym 0x3B precStop :: u :: rest) → Adds s1 s2 ms → Same s1 s2 → s2.arrayCount = s1.arrayCount + cnt 0x5B ds →
      ∃ s', expect 0x3B s2 = .ok () s' ∧ At N E s' (u :: rest) ∧ Ok [] [] env' ix1 s' ∧ Adds s s' ms ∧ s'.arrayCount = s.arrayCount + (cnt 0x5B sp + cnt 0x5B ds) ∧
        s'.memCount = s.memCount + (cnt 0x2C sp + cnt 0x3B sp) ∧ s'.structCount = s.structCount + cnt 0x7B sp := by
    intro s2 a2 ad2 sm2 ac2
    have t2 : s2.tok = 0x3B := a2.1.tok
    obtain ⟨s3, e3, k3, a3⟩ := a2.next
    obtain ⟨_, m2, m3, m4, _⟩ := mem_tb k3.tb
    have q2 := (arr_tb k3.tb).2
    have ad3 : Adds s1 s3 ms := by simpa using ad2.trans (.of_fz k3.fz (.of_tb k3.tb))
    refine ⟨s3, run_getS (run_pos t2 e3), a3, o1.glob ad3.keep ⟨m2.trans sm2.mc, m3.trans sm2.st, m4.trans sm2.sc⟩ (by omega) (ad3.td (ad1.td htd)).noTd, ad1.trans ad3, by omega, by rw [m2, sm2.mc, mc1],
      by rw [m4, sm2.sc, sc1]⟩
  cases hd with
  | @one _ x t hd =>
    obtain ⟨s2, a2, en, sm, ac, _, k⟩ := first_ok hd (u := .sym 0x3B precStop) (by decide) g1 a1 b1 (by omega) (by omega) (by rw [w6]; exact hsc) (by rw [w7]; exact hr)
      (by rw [w4]; exact hv) (by rw [w3]; exact hx _ (List.mem_singleton.2 rfl))
    have hm := hsm _ (List.mem_singleton.2 rfl)
    obtain ⟨s3, g3, ad3, a3, b3⟩ := globals_end en (by rw [w4]; exact hv) hm.1 hm.2 a2
    obtain ⟨_, m2, m3, m4, _⟩ := mem_tb b3
    obtain ⟨s4, e4, rest⟩ := fin a3 ad3 ⟨m2.trans sm.mc, m3.trans sm.st, m4.trans sm.sc⟩ (by rw [(arr_tb b3).2, ac])
    exact ⟨s4, ix1, k s3 s4 g3 e4, rest⟩
  | @more d ds x t ms hd hp hs' =>
    simp only [List.length_cons] at hv
    rw [cnt_append, cnt_cons, if_neg (by decide)] at hc
    rw [List.append_assoc] at a1
    have a1 : At N E s1 (d ++ .sym 0x2C precComma :: (ds ++ .sym 0x3B precStop :: u :: rest)) := a1
    have hm' := hsm _ (List.mem_cons_self ..)
    rw [List.map_cons, List.nodup_cons] at hnd
    obtain ⟨s2, a2, en, sm, ac, hb, k⟩ := first_ok hd (u := .sym 0x2C precComma) (by decide) g1 a1 b1 (by omega) (by omega) (by rw [w6]; exact hsc) (by rw [w7]; exact hr)
      (by rw [w4]; omega) (by rw [w3]; exact hx _ (List.mem_cons_self ..))
    have f2 : fy s2 = fy s := en.fy.trans w8
    obtain ⟨s3, g3, ad3, a3, sm3, ac3⟩ := globals_more hs' en (by rw [w4]; omega) hm'.1 hm'.2 (fun m h => hsm m (List.mem_cons_of_mem _ h)) a2 (hb hp) (by omega) (by rw [sm.mc]; omega)
      (by have := congrArg S.scopeCount f2; exact Eq.trans this hsc) (by have := congrArg S.ignoreRedef f2; exact Eq.trans this hr)
      (fun m hm => ⟨by rw [w3]; exact hx m (List.mem_cons_of_mem _ hm), fun e => hnd.1 (List.mem_map.2 ⟨m, hm, e⟩)⟩) hnd.2
    obtain ⟨s4, e4, rest⟩ := fin a3 ad3 ⟨sm3.mc.trans sm.mc, sm3.st.trans sm.st, sm3.sc.trans sm.sc⟩ (by rw [cnt_append, cnt_cons, if_neg (by decide)]; omega)
    exact ⟨s4, ix1, k s3 s4 g3 e4, rest⟩

theorem Decls.names {env env' : Env} {ls : List Tk} {k m : Nat} {vs : List (Nat × CT)} (h : Decls env ls k m vs env') : ∀ m ∈ vs, m.1 < 2 ^ 10 := by
  have one : ∀ {o : Option CT} {ds : List Tk} {ms : List (Nat × CT)}, Dcls o ds ms → ∀ m ∈ ms, m.1 < 2 ^ 10 := by
    intro o ds ms h
    induction h with
    | one h => intro m hm; rw [List.mem_singleton.1 hm]; exact Nat.lt_trans h.id.2 (by decide)
    | more h _ ih =>
      intro m hm
      rcases List.mem_cons.1 hm with rfl | hm
      · exact Nat.lt_trans h.id.2 (by decide)
      · exact ih m hm
  induction h with
  | nil => exact nofun
  | type _ _ ih => exact ih
  | vars _ hd _ ih =>
    intro m hm
    rcases List.mem_append.1 hm with h | h
    · exact one hd.dcls m h
    · exact ih m h

/-- Declarations at the start of a file. -/
theorem decls_ok {env env' : Env} {ls : List Tk} {k m : Nat} {vs : List (Nat × CT)} (h : Decls env ls k m vs env') :
    ∀ {ix : Nat → Int} {s : S} {u : Tk} {rest : List Tk}, At N E s (ls ++ u :: rest) → Ok [] [] env ix s → Td s → EnvSmall (s.arrayCount + s.structCount + 1) env →
    s.arrayCount + cnt 0x5B ls ≤ 32 → s.memCount + m ≤ 32 → s.structCount + cnt 0x7B ls ≤ 8 → s.scopeCount = 1 → s.ignoreRedef = 0 →
    s.scopes.get 0 + vs.length ≤ varDeclMax → (∀ m ∈ vs, s.lookup.get m.1 = none) → (vs.map Prod.fst).Nodup → (∀ m ∈ vs, m.2.size < 2 ^ 30) →
    ∃ s' ix', (∃ M, ∀ n, M ≤ n → ∀ j, externals n (j + k) s = externals n j s') ∧ At N E s' (u :: rest) ∧ Ok [] [] env' ix' s' ∧ Adds s s' vs ∧ ∀ m ∈ vs, m.2.small sizeFuel := by
  have step : ∀ {s s1 s2 : S} {n k : Nat}, s.tok ≠ 0 → parseExternal (run n) s = .ok () s1 → (∀ j, externals n (j + k) s1 = externals n j s2) → ∀ j, externals n (j + (k + 1)) s = externals n j s2 := by
    intro s s1 s2 n k h0 h1 h2 j
    rw [← h2 j]
    show (getS >>= fun s => if s.tok = 0 then pure () else parseExternal (run n) >>= fun _ => externals n (j + k)) s = _
    rw [bind_run]
    show (if s.tok = 0 then _ else _ : A Unit) s = _
    rw [if_neg h0, bind_run, h1]
  have tok : ∀ {env env1 : Env} {sp ts : List Tk} {o : Option CT} {s : S}, Spec env sp o env1 → At N E s (sp ++ ts) → s.tok ≠ 0 := by
    intro env env1 sp ts o s hs hat
    obtain ⟨x, ts', rfl⟩ := hs.head
    have : s.tok = x + 150 := hat.1.tok
    omega
  have ne : ∀ (ls : List Tk) (u : Tk) (rest : List Tk), ∃ v vs, ls ++ u :: rest = v :: vs := fun ls u rest => by
    cases ls with
    | nil => exact ⟨_, _, rfl⟩
    | cons d ds => exact ⟨_, _, rfl⟩
  induction h with
  | nil =>
    intro ix s u rest hat hok _ _ _ _ _ _ _ _ _ _ _
    exact ⟨s, ix, ⟨0, fun _ _ _ => rfl⟩, hat, hok, .of_fz rfl (.refl _ _ _), nofun⟩
  | @type env env1 env2 sp ls o k m vs hs _ ih =>
    intro ix s u rest hat hok htd hsm hc hm hst hsc hr hv hx hnd hsz
    rw [cnt_append, cnt_cons, if_neg (by decide)] at hc hst
    rw [List.append_assoc] at hat
    have hat : At N E s (sp ++ .sym 0x3B precStop :: (ls ++ u :: rest)) := hat
    obtain ⟨v, ws, hw⟩ := ne ls u rest
    have h0 := tok hs hat
    rw [hw] at hat
    obtain ⟨s1, ix1, ⟨M1, g1⟩, a1, o1, ad1, ac1, mc1, sc1⟩ := type_ok hs hat hok (by omega) (by omega) (by omega)
    rw [← hw] at a1
    have f1 := ad1.fy
    have hsm1 := (spec_small hs _ (by omega) hsm (by omega)).1
    have c1 : s1.scopes.get 0 = s.scopes.get 0 := ad1.cnt
    obtain ⟨s2, ix2, ⟨M2, g2⟩, a2, o2, ad2, sm2⟩ := ih a1 o1 (ad1.td htd) (by rw [ac1, sc1]; exact hsm1.mono (by omega)) (by omega) (by omega) (by omega)
      (by have := congrArg S.scopeCount f1; exact Eq.trans this hsc) (by have := congrArg S.ignoreRedef f1; exact Eq.trans this hr) (by rw [c1]; exact hv)
      (fun m hm => by rw [ad1.look _ (Decls.names ‹_› m hm) nofun]; exact hx m hm) hnd hsz
    exact ⟨s2, ix2, ⟨max M1 M2, fun n hn => step h0 (g1 n (by omega)) (g2 n (by omega))⟩, a2, o2, ad1.trans ad2, sm2⟩
  | @vars env env1 env2 sp ds ls o k m ms vs hs hd hl ih =>
    intro ix s u rest hat hok htd hsm hc hm hst hsc hr hv hx hnd hsz
    obtain ⟨_, _, d3⟩ := hd.dcls.count
    rw [cnt_append, cnt_append, cnt_cons, if_neg (by decide)] at hc hst
    rw [List.length_append] at hv
    rw [List.map_append, List.nodup_append] at hnd
    rw [List.append_assoc, List.append_assoc] at hat
    have hat : At N E s (sp ++ (ds ++ .sym 0x3B precStop :: (ls ++ u :: rest))) := hat
    obtain ⟨v, ws, hw⟩ := ne ls u rest
    have h0 := tok hs hat
    rw [hw] at hat
    obtain ⟨hsm1, hsm2⟩ := spec_small hs _ (by omega) hsm (by omega)
    have hsm3 := small_dcls hd.dcls (by omega) hsm2
    have hsm4 : ∀ m ∈ ms, m.2.small sizeFuel := fun m h => small_mono _ (hsm3 m h) (by show _ ≤ 50; omega)
    obtain ⟨s1, ix1, ⟨M1, g1⟩, a1, o1, ad1, ac1, mc1, sc1⟩ := vars_ok hs hd hat hok htd (by omega) (by omega) (by omega) hsc hr (by omega) (fun m h => hx m (List.mem_append_left _ h)) hnd.1
      fun m h => ⟨hsm4 m h, hsz m (List.mem_append_left _ h)⟩
    rw [← hw] at a1
    have f1 := ad1.fy
    obtain ⟨s2, ix2, ⟨M2, g2⟩, a2, o2, ad2, sm2⟩ := ih a1 o1 (ad1.td htd) (by rw [ac1, sc1]; exact hsm1.mono (by omega)) (by omega) (by omega) (by omega)
      (by have := congrArg S.scopeCount f1; exact Eq.trans this hsc) (by have := congrArg S.ignoreRedef f1; exact Eq.trans this hr) (by rw [ad1.cnt]; omega)
      (fun m hm => by
        rw [ad1.look _ (Decls.names hl m hm) fun h => hnd.2.2 _ h _ (List.mem_map.2 ⟨m, hm, rfl⟩) rfl]
        exact hx m (List.mem_append_right _ hm)) hnd.2.1 fun m h => hsz m (List.mem_append_right _ h)
    refine ⟨s2, ix2, ⟨max M1 M2, fun n hn => step h0 (g1 n (by omega)) (g2 n (by omega))⟩, a2, o2, ad1.trans ad2, fun m hm => ?_⟩
    rcases List.mem_append.1 hm with h | h
    · exact hsm4 m h
    · exact sm2 m h

end SccDecl
