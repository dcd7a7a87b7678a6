import Verif.Props.SccStmHead
/-!
# Compiled functions (C51): local variables

The declarations `int x = e;` at the beginning of the body of a function.
-/
namespace SccLoc
open Prog Text Scc SccCode SccGen SccStm SccHead SccLayout Props.SccLex Props.SccIds

/-- The code for `int x = e;`. -/
def declB (off : Nat → Int) (e : E) : List Byte := valB off (gen off e false false) ++ [0x50]

/-! ## Names -/

/-- What is known before the local variables: the parameters `xs` and the functions, in records below `b`. -/
structure Scope (off : Nat → Int) (G : Fns) (xs : List Nat) (L : Tab (Option Nat) 10) (V : Tab VarDecl 9) (b : Nat) : Prop where
  locs : ∀ x ∈ xs, 37 ≤ x ∧ x < idMax ∧ ∃ v < b, L.get x = some v ∧ (V.get v).type = vtInt ||| vtLocOff ∧ (V.get v).offset = off x
  funs : ∀ f ∈ G.F, f ∉ xs → 37 ≤ f ∧ f < idMax ∧ ∃ v < b, L.get f = some v ∧ v < varDeclMax ∧ (V.get v).type = vtInt ||| vtFun ||| vtLocGlob ∧ (V.get v).offset = G.A f ∧ G.A f ≠ 0
  notd : ∀ y < 2 ^ 10, ∀ v, L.get y = some v → v < b ∧ (V.get v).type &&& vtTypedef = 0

/-- The variables `ys` can be declared in the records from `b` on. -/
structure Decls (off : Nat → Int) (xs ys : List Nat) (b : Nat) : Prop where
  room : b + ys.length ≤ varDeclMax
  nodup : ys.Nodup
  ids : ∀ y ∈ ys, 37 ≤ y ∧ y < idMax
  new : ∀ y ∈ ys, y ∉ xs
  off : ∀ i (h : i < ys.length), off ys[i] = -((2 * (i + 1) : Nat) : Int)

/-- `n` of the local variables `ys` have been declared, in the records from `b` on; `L` and `V` are the names and the records before. -/
structure Loc (r c : Nat) (L : Tab (Option Nat) 10) (V : Tab VarDecl 9) (ys : List Nat) (b n : Nat) (s : S) : Prop where
  sc : s.scopeCount = 3
  scs : s.scopes.get 0 = c ∧ s.scopes.get 1 = b
  top : s.scopes.get 2 = b + n
  redef : s.ignoreRedef = r + 2
  look : ∀ i (h : i < ys.length), i < n → s.lookup.get ys[i] = some (b + i)
  decl : ∀ i (_ : i < ys.length), i < n → (s.vars.get (b + i)).type = vtInt ||| vtLocOff ∧ (s.vars.get (b + i)).offset = -((2 * (i + 1) : Nat) : Int) ∧ (s.vars.get (b + i)).ref = 0
  prev : ∀ i (h : i < ys.length), i < n → (s.vars.get (b + i)).id = ys[i] ∧ (s.vars.get (b + i)).prev = L.get ys[i]
  keep : ∀ y < 2 ^ 10, y ∉ ys.take n → s.lookup.get y = L.get y
  old : ∀ j < b, s.vars.get j = V.get j
  lo : s.localOffset = -((2 * n : Nat) : Int)

variable {off : Nat → Int} {G : Fns} {xs ys : List Nat} {L : Tab (Option Nat) 10} {V : Tab VarDecl 9} {r c b n : Nat} {s : S}

theorem mem_take {y : Nat} (h : y ∈ ys.take n) : ∃ i, ∃ hi : i < ys.length, i < n ∧ ys[i] = y := by
  obtain ⟨j, hj, e⟩ := List.getElem_of_mem h
  rw [List.getElem_take] at e
  rw [List.length_take] at hj
  exact ⟨j, by omega, by omega, e⟩

theorem Loc.locals (h : Loc r c L V ys b n s) (D : Decls off xs ys b) (Sc : Scope off G xs L V b) :
    ∀ x ∈ xs ++ ys.take n, 37 ≤ x ∧ x < idMax ∧ ∃ v < b + n, s.lookup.get x = some v ∧ (s.vars.get v).type = vtInt ||| vtLocOff ∧ (s.vars.get v).offset = off x := by
  intro x hx
  by_cases hy : x ∈ ys.take n
  · obtain ⟨i, hi, hin, rfl⟩ := mem_take hy
    obtain ⟨h1, h2, _⟩ := h.decl i hi hin
    obtain ⟨h3, h4⟩ := D.ids _ (List.getElem_mem hi)
    exact ⟨h3, h4, b + i, by omega, h.look i hi hin, h1, h2.trans (D.off i hi).symm⟩
  · obtain ⟨h1, h2, v, h3, h4, h5, h6⟩ := Sc.locs x ((List.mem_append.1 hx).resolve_right hy)
    refine ⟨h1, h2, v, by omega, (h.keep x (Nat.lt_of_lt_of_le h2 (by decide)) hy).trans h4, ?_, ?_⟩
    · rw [h.old v h3]; exact h5
    · rw [h.old v h3]; exact h6

theorem Loc.funs (h : Loc r c L V ys b n s) (Sc : Scope off G xs L V b) : Funs G.A (G.F.filter (· ∉ xs ++ ys.take n)) s := by
  intro f hf
  obtain ⟨hf1, hf2⟩ := List.mem_filter.1 hf
  have hf2 : f ∉ xs ++ ys.take n := of_decide_eq_true hf2
  rw [List.mem_append, not_or] at hf2
  obtain ⟨h1, h2, v, h3, h4, h5, h6, h7, h8⟩ := Sc.funs f hf1 hf2.1
  refine ⟨h1, h2, v, (h.keep f (Nat.lt_of_lt_of_le h2 (by decide)) hf2.2).trans h4, h5, ?_, ?_, h8⟩
  · rw [h.old v h3]; exact h6
  · rw [h.old v h3]; exact h7

theorem Loc.noTd (h : Loc r c L V ys b n s) (Sc : Scope off G xs L V b) : NoTd s := by
  intro x hx v hv
  by_cases hy : x ∈ ys.take n
  · obtain ⟨i, hi, hin, rfl⟩ := mem_take hy
    rw [h.look i hi hin] at hv
    cases hv
    rw [(h.decl i hi hin).1]; decide
  · rw [h.keep x hx hy] at hv
    obtain ⟨h1, h2⟩ := Sc.notd x hx v hv
    rw [h.old v h1]; exact h2

/-- What a declaration of a local variable does not change. -/
def hl (s : S) : S := { hz (fz s) with vars := .const ⟨0, 0, 0, 0, 0, none⟩ 9, lookup := .const none 10, baseType := 0, baseExtra := 0 }

/-- The state between declarations. -/
structure Dcl (r c : Nat) (L : Tab (Option Nat) 10) (V : Tab VarDecl 9) (ys : List Nat) (b n : Nat) (its : List Item) (s : S) : Prop where
  loc : Loc r c L V ys b n s
  sp : s.spAdj = 0
  push : s.push = false
  reg : s.regUse = false
  sw : s.switchCase < 0
  hist : Hist codeStart its s
  dead : s.dead = false
  rl : s.returnLabel = -1
  lab : s.labelCount = 0

theorem Dcl.rdy {its : List Item} (h : Dcl r c L V ys b n its s) (D : Decls off xs ys b) (Sc : Scope off G xs L V b) {B : Base} {ts : List Tk} (hon : On B s ts) (hi : SccGen.ids s = SccGen.ids B.s) :
    Rdy off G (xs ++ ys.take n) B codeStart its ts s := by
  refine ⟨hon, hi, fun x hx => ?_, h.sp, h.push, h.reg, h.sw, by rw [h.loc.sc]; decide, by rw [h.rl, h.lab]; decide, h.hist, h.loc.funs Sc⟩
  obtain ⟨h1, h2, v, _, h4, h5, h6⟩ := h.loc.locals D Sc x hx
  exact ⟨h1, h2, v, h4, h5, h6⟩

/-! ## One declaration -/

/-- A declarator that is just a name. -/
theorem decl_ret {s : S} {names : List (List Byte)} {ws w r : List Byte} {t p x : Nat} (hl : Lex names (ws ++ w ++ r) s) (hs : Sym (.sym t p) w) (hws : Gap ws) (ha : Munch w r)
    (hrn : r ≠ []) (htok : s.tok = x + tokKeyword) (hx : 37 ≤ x) (ht : t ≠ 0x28 ∧ t ≠ 0x5B) :
    ∃ s', GoV (.declarator .ret) x s s' ∧ Lex names r s' ∧ s'.tok = t ∧ s'.prec = p ∧ hz s' = hz s ∧ s'.type = s.type ∧ s'.extra = s.extra := by
  have hid : tokId ≤ s.tok := by rw [htok]; show 187 ≤ _ + 150; omega
  have hne : ∀ k, k < 187 → s.tok ≠ k := fun k hk e => by have : 187 ≤ s.tok := hid; omega
  have hn28 := hne 0x28 (by decide)
  obtain ⟨s2, e2, k2, l2, t2, p2⟩ := read_sym hl hs hws ha hrn
  have hb : Go .bounds s2 s2 := Go.of 0 fun n _ => run_bind (a := ()) (s1 := s2) (run_getS (run_pos (t2 ▸ ht.2) rfl)) rfl
  obtain ⟨N, hb⟩ := hb
  have hxe : ((s.tok - tokKeyword : Nat) : Int) = x := by rw [htok, Nat.add_sub_cancel]
  refine ⟨s2, GoV.of N fun n hn => ?_, l2, t2, p2, k2.hz, k2.type, k2.extra⟩
  refine run_getS (run_neg (hne _ (by decide)) (run_neg (not_or.2 ⟨hne _ (by decide), hne _ (by decide)⟩) ?_))
  refine run_getS (run_neg hn28 ?_)
  refine run_bind (a := (x : Int)) (s1 := s2) (run_getS (run_pos hid ?_)) ?_
  · rw [hxe]
    exact run_bind (a := ()) (s1 := s) rfl (run_bind e2 rfl)
  refine run_neg hn28 (run_getS (run_neg (t2 ▸ ht.1) (run_bind (hb n hn) rfl)))

/-- `ParseExpr` with the precedence of assignments, `GetVal`. -/
theorem val_assign {xs : List Nat} {s0 : Base} {s : S} (h : Ex0 off xs s0 s) {e : E} {ts rest : List Tk} {t : Tk} (hsh : Shows 10 e ts) (hon : On s0 s (ts ++ t :: rest))
    (ht : precAssign < t.prec) (hn : NoPost t) (hs : Stat e) (hx : ∀ x ∈ Vars e, x ∈ xs) (hr : s.code + 64 * size e + 12 ≤ codeStart + outputMax) :
    ∃ s1 s', Go .assign s s1 ∧ getVal s1 = .ok () s' ∧ On s0 s' (t :: rest) ∧ Did s (valB off (gen off e false false)) s' := by
  have hlen := gen_len (off := off) e hs false false
  obtain ⟨s1, g, on, d⟩ := parse_expr s xs h.loc h.up h.zf .assign precAssign (.inr ⟨rfl, rfl⟩) hsh (On.rebase hon h.ids) ht hn hs hx
    (by rw [h.push, h.reg]; exact h.room (by omega))
  rw [h.push, h.reg] at d
  have on := On.rebase on h.ids.symm
  have hvl := val_len (off := off) e hs
  obtain ⟨s', e', got, hr', ht'⟩ := d.val h.up h.push (h.room (by omega))
  have hreg := hr'.trans (gen_r (off := off) e)
  exact ⟨s1, s', g, e', on.of_tks ht', got.em, got.push, hreg, lo_of_bal got.bal got.push hreg h.push h.reg, got.zf⟩

/-- The state at the initial value of the local variable `ys[n]`: it has been declared, but has no place. -/
structure Half (r c : Nat) (L : Tab (Option Nat) 10) (V : Tab VarDecl 9) (ys : List Nat) (b n : Nat) (s : S) : Prop where
  sc : s.scopeCount = 3
  scs : s.scopes.get 0 = c ∧ s.scopes.get 1 = b
  top : s.scopes.get 2 = b + (n + 1)
  redef : s.ignoreRedef = r + 2
  look : ∀ i (h : i < ys.length), i < n + 1 → s.lookup.get ys[i] = some (b + i)
  type : ∀ i (_ : i < ys.length), i < n + 1 → (s.vars.get (b + i)).type = vtInt ||| vtLocOff ∧ (s.vars.get (b + i)).ref = 0
  decl : ∀ i (_ : i < ys.length), i < n → (s.vars.get (b + i)).offset = -((2 * (i + 1) : Nat) : Int)
  prev : ∀ i (h : i < ys.length), i < n + 1 → (s.vars.get (b + i)).id = ys[i] ∧ (s.vars.get (b + i)).prev = L.get ys[i]
  keep : ∀ y < 2 ^ 10, y ∉ ys.take (n + 1) → s.lookup.get y = L.get y
  old : ∀ j < b, s.vars.get j = V.get j
  lo : s.localOffset = -((2 * n : Nat) : Int)

theorem Half.locals (h : Half r c L V ys b n s) (D : Decls off xs ys b) (Sc : Scope off G xs L V b) : Locals off (xs ++ ys.take n) s := by
  intro x hx
  by_cases hy : x ∈ ys.take (n + 1)
  · obtain ⟨i, hi, hin, rfl⟩ := mem_take hy
    have hi' : i < n := by
      have hx : ys[i] ∈ ys.take n := (List.mem_append.1 hx).resolve_left (D.new _ (List.getElem_mem hi))
      obtain ⟨j, hj, hjn, e⟩ := mem_take hx
      have := (List.Nodup.getElem_inj_iff D.nodup).1 e
      omega
    obtain ⟨h3, h4⟩ := D.ids _ (List.getElem_mem hi)
    exact ⟨h3, h4, b + i, h.look i hi hin, (h.type i hi hin).1, (h.decl i hi hi').trans (D.off i hi).symm⟩
  · have hy' : x ∉ ys.take n := fun hm => hy ((List.take_prefix_take_left (l := ys) (Nat.le_succ n)).subset hm)
    obtain ⟨h1, h2, v, h3, h4, h5, h6⟩ := Sc.locs x ((List.mem_append.1 hx).resolve_right hy')
    refine ⟨h1, h2, v, (h.keep x (Nat.lt_of_lt_of_le h2 (by decide)) hy).trans h4, ?_, ?_⟩
    · rw [h.old v h3]; exact h5
    · rw [h.old v h3]; exact h6

/-- `AddVarDecl` for a local variable, and its type. -/
theorem add_local (h : Loc r c L V ys b n s) (D : Decls off xs ys b) (hn : n < ys.length) {s2 : S} (hz2 : hz s2 = hz s) (hty : s2.type = vtInt) :
    ∃ s3, addVarDecl (ys[n] : Nat) s2 = .ok (b + n) s3 ∧ (∃ V' L' C' G', s3 = { s2 with vars := V', lookup := L', scopes := C', log := G' }) ∧
      Half r c L V ys b n { s3 with vars := s3.vars.set (b + n) { s3.vars.get (b + n) with type := (s3.vars.get (b + n)).type ||| vtLocOff } } := by
  have hp : ∀ {β : Type} (g : S → β), (∀ s, g (hz s) = g s) → g s2 = g s := fun g hg => by rw [← hg s2, hz2, hg]
  have hroom := D.room
  obtain ⟨hid1, hid2⟩ := D.ids _ (List.getElem_mem hn)
  have hx10 : ys[n] < 2 ^ 10 := Nat.lt_of_lt_of_le hid2 (by decide)
  have hb9 : ∀ i, i < ys.length → b + i < 2 ^ 9 := fun i hi => Nat.lt_of_lt_of_le (show b + i < varDeclMax by omega) (by decide)
  have hsc : s2.scopeCount = 3 := (hp S.scopeCount fun _ => rfl).trans h.sc
  have hlk : s2.lookup = s.lookup := hp S.lookup fun _ => rfl
  have hvr : s2.vars = s.vars := hp S.vars fun _ => rfl
  have hscs : s2.scopes = s.scopes := hp S.scopes fun _ => rfl
  have htop : s2.scopes.get 2 = b + n := by rw [hscs]; exact h.top
  have hredef : s2.ignoreRedef = r + 2 := (hp S.ignoreRedef fun _ => rfl).trans h.redef
  let V0 := s2.vars.set (b + n) ⟨(ys[n] : Nat), s2.type, s2.extra, 0, 0, (s2.vars.get (b + n)).prev⟩
  let s3 : S := { s2 with
    vars := V0.set (b + n) { V0.get (b + n) with prev := s2.lookup.get ys[n] }
    lookup := s2.lookup.set ys[n] (some (b + n)), scopes := s2.scopes.set 2 (b + n + 1), log := .decl (ys[n] : Nat) (b + n) :: s2.log }
  have hv3 : s3.vars.get (b + n) = ⟨(ys[n] : Nat), vtInt, s2.extra, 0, 0, s.lookup.get ys[n]⟩ := by
    show (V0.set _ _).get _ = _
    rw [Tab.get_set_self, Tab.get_set_self, hty, hlk]
  have hne3 : ∀ j, j < 2 ^ 9 → j ≠ b + n → s3.vars.get j = s.vars.get j := fun j hj hne => by
    show ((s2.vars.set _ _).set _ _).get j = _
    rw [Tab.get_set_ne _ _ (hb9 n hn) hj (Ne.symm hne), Tab.get_set_ne _ _ (hb9 n hn) hj (Ne.symm hne), hvr]
  have hnew : s.lookup.get ys[n] = L.get ys[n] := h.keep _ hx10 fun hm => by
    obtain ⟨j, hj, hjn, e⟩ := mem_take hm
    have := (List.Nodup.getElem_inj_iff D.nodup).1 e
    omega
  refine ⟨s3, run_getS (run_failIf ?_ (run_ub (decide_eq_true ⟨by omega, by omega⟩) ?_)), ⟨_, _, _, _, rfl⟩, ?_⟩
  · rw [hsc]
    show decide (varDeclMax ≤ s2.scopes.get 2) = false
    rw [htop]; exact decide_eq_false (by omega)
  · rw [Int.toNat_natCast, hsc]
    refine run_neg (fun hh => by rw [hredef] at hh; omega) (run_bind (a := b + n) (s1 := { s2 with vars := V0, scopes := s2.scopes.set 2 (b + n + 1) }) ?_ rfl)
    refine run_getS ?_
    show (ubUnless _ >>= _) s2 = _
    rw [show s2.scopes.get (3 - 1) = b + n from htop]
    exact run_ub (decide_eq_true (by omega)) rfl
  · generalize hs3 : s3 = s3' at hv3 hne3
    have hg : ∀ i, i < ys.length → i ≠ n → (s3'.vars.set (b + n) { s3'.vars.get (b + n) with type := (s3'.vars.get (b + n)).type ||| vtLocOff }).get (b + i) = s.vars.get (b + i) := fun i hi hin => by
      rw [Tab.get_set_ne _ _ (hb9 n hn) (hb9 i hi) (by omega), hne3 _ (hb9 i hi) (by omega)]
    have hl3 : ∀ y, y < 2 ^ 10 → s3'.lookup.get y = if ys[n] = y then some (b + n) else s.lookup.get y := fun y hy => by
      rw [← hs3]
      show (s2.lookup.set _ _).get y = _
      rw [Tab.get_set _ _ hx10 hy, hlk]
    have hc3 : s3'.scopes = s.scopes.set 2 (b + n + 1) := by rw [← hs3, ← hscs]
    refine ⟨by rw [← hs3]; exact hsc, ?_, ?_, by rw [← hs3]; exact hredef, fun i hi hin => ?_, fun i hi hin => ?_, fun i hi hin => ?_, fun i hi hin => ?_, fun y hy hny => ?_, fun j hj => ?_, ?_⟩
    · show s3'.scopes.get 0 = c ∧ s3'.scopes.get 1 = b
      rw [hc3, Tab.get_set_ne _ _ (by decide) (by decide) (by decide), Tab.get_set_ne _ _ (by decide) (by decide) (by decide)]
      exact h.scs
    · show s3'.scopes.get 2 = _
      rw [hc3, Tab.get_set_self]; rfl
    · show s3'.lookup.get _ = _
      rw [hl3 _ (Nat.lt_of_lt_of_le (D.ids _ (List.getElem_mem hi)).2 (by decide))]
      by_cases hin' : i = n
      · subst hin'; rw [if_pos rfl]
      · rw [if_neg fun e => hin' ((List.Nodup.getElem_inj_iff D.nodup).1 e).symm]
        exact h.look i hi (by omega)
    · show ((Tab.set s3'.vars _ _).get _).type = _ ∧ ((Tab.set s3'.vars _ _).get _).ref = _
      by_cases hin' : i = n
      · subst hin'; rw [Tab.get_set_self, hv3]; exact ⟨rfl, rfl⟩
      · rw [hg i hi hin']
        exact ⟨(h.decl i hi (by omega)).1, (h.decl i hi (by omega)).2.2⟩
    · show ((Tab.set s3'.vars _ _).get _).offset = _
      rw [hg i hi (by omega)]
      exact (h.decl i hi hin).2.1
    · show ((Tab.set s3'.vars _ _).get _).id = _ ∧ ((Tab.set s3'.vars _ _).get _).prev = _
      by_cases hin' : i = n
      · subst hin'; rw [Tab.get_set_self, hv3]; exact ⟨rfl, hnew⟩
      · rw [hg i hi hin']
        exact h.prev i hi (by omega)
    · rw [List.take_add_one, List.getElem?_eq_getElem hn] at hny
      simp only [Option.toList_some, List.mem_append, List.mem_singleton, not_or] at hny
      show s3'.lookup.get y = _
      rw [hl3 y hy, if_neg (Ne.symm hny.2)]
      exact h.keep y hy hny.1
    · show (Tab.set s3'.vars _ _).get j = _
      have hj9 : j < 2 ^ 9 := Nat.lt_of_lt_of_le (show j < varDeclMax by omega) (by decide)
      rw [Tab.get_set_ne _ _ (hb9 n hn) hj9 (by omega), hne3 j hj9 (by omega)]
      exact h.old j hj
    · show s3'.localOffset = _
      rw [← hs3]
      exact (hp S.localOffset fun _ => rfl).trans h.lo

/-- The variable gets its place. -/
theorem Half.done (h : Half r c L V ys b n s) (D : Decls off xs ys b) (hn : n < ys.length) :
    Loc r c L V ys b (n + 1) { s with localOffset := s.localOffset - (2 : Nat), vars := s.vars.set (b + n) { s.vars.get (b + n) with offset := s.localOffset - (2 : Nat) } } := by
  have hroom := D.room
  have hb9 : ∀ i, i < ys.length → b + i < 2 ^ 9 := fun i hi => Nat.lt_of_lt_of_le (show b + i < varDeclMax by omega) (by decide)
  have hlo := h.lo
  have hg : ∀ i, i < ys.length → i ≠ n → (s.vars.set (b + n) { s.vars.get (b + n) with offset := s.localOffset - (2 : Nat) }).get (b + i) = s.vars.get (b + i) := fun i hi hin =>
    Tab.get_set_ne _ _ (hb9 n hn) (hb9 i hi) (by omega)
  refine ⟨h.sc, h.scs, h.top, h.redef, h.look, fun i hi hin => ?_, fun i hi hin => ?_, h.keep, fun j hj => ?_, ?_⟩
  · show ((Tab.set s.vars _ _).get _).type = _ ∧ ((Tab.set s.vars _ _).get _).offset = _ ∧ ((Tab.set s.vars _ _).get _).ref = _
    obtain ⟨h1, h2⟩ := h.type i hi hin
    by_cases hin' : i = n
    · subst hin'
      rw [Tab.get_set_self]
      refine ⟨h1, ?_, h2⟩
      show s.localOffset - (2 : Nat) = _
      omega
    · rw [hg i hi hin']
      exact ⟨h1, h.decl i hi (by omega), h2⟩
  · show ((Tab.set s.vars _ _).get _).id = _ ∧ ((Tab.set s.vars _ _).get _).prev = _
    obtain ⟨h1, h2⟩ := h.prev i hi hin
    by_cases hin' : i = n
    · subst hin'
      rw [Tab.get_set_self]
      exact ⟨h1, h2⟩
    · rw [hg i hi hin']
      exact ⟨h1, h2⟩
  · show (Tab.set s.vars _ _).get j = _
    have hj9 : j < 2 ^ 9 := Nat.lt_of_lt_of_le (show j < varDeclMax by omega) (by decide)
    rw [Tab.get_set_ne _ _ (hb9 n hn) hj9 (by omega)]
    exact h.old j hj
  · show s.localOffset - (2 : Nat) = _
    omega

theorem Half.congr {s' : S} (h : Half r c L V ys b n s) (hc : core s' = core s) (hlo : s'.localOffset = s.localOffset) : Half r c L V ys b n s' := by
  have e1 : s'.scopeCount = s.scopeCount := by have := congrArg S.scopeCount hc; exact this
  have e2 : s'.scopes = s.scopes := by have := congrArg S.scopes hc; exact this
  have e3 : s'.ignoreRedef = s.ignoreRedef := by have := congrArg S.ignoreRedef hc; exact this
  have e4 : s'.lookup = s.lookup := by have := congrArg S.lookup hc; exact this
  have e5 : s'.vars = s.vars := by have := congrArg S.vars hc; exact this
  refine ⟨?_, ?_, ?_, ?_, ?_, ?_, ?_, ?_, ?_, ?_, ?_⟩
  · rw [e1]; exact h.sc
  · rw [e2]; exact h.scs
  · rw [e2]; exact h.top
  · rw [e3]; exact h.redef
  · rw [e4]; exact h.look
  · rw [e5]; exact h.type
  · rw [e5]; exact h.decl
  · rw [e5]; exact h.prev
  · rw [e4]; exact h.keep
  · rw [e5]; exact h.old
  · rw [hlo]; exact h.lo

theorem val_head (off : Nat → Int) {e : E} (hs : Stat e) : ∃ b t, valB off (gen off e false false) = b :: t ∧ b ≠ 0x5D := by
  cases hc : cst e with
  | none =>
    have hv := Ld.val off (gen_ld off hs hc false)
    have hk := (gen_kd off e false false hs).1 hc
    unfold valB
    split
    · rename_i v h
      exact absurd h (hk v)
    · obtain ⟨t, e⟩ := hv
      exact ⟨_, _, e, by decide⟩
  | some y =>
    obtain ⟨h, _⟩ := gen_cst off e false false y hs hc
    rw [h, valB]
    simp only [List.nil_append]
    split
    · exact ⟨_, _, rfl, by decide⟩
    · exact ⟨_, _, rfl, by decide⟩

theorem starts_app {as bs : List Byte} (h : SccLayout.Starts as) (hn : ∃ b t, as = b :: t ∧ b ≠ 0x5D) : SccLayout.Starts (as ++ bs) := by
  obtain ⟨b, t, e, hb⟩ := hn
  obtain ⟨b', t', e', h1, _⟩ := h
  rw [e] at e'
  cases e'
  exact ⟨b, t ++ bs, by rw [e]; rfl, h1, fun e => absurd e hb⟩

/-- What the declarator of a local variable does not change. -/
def hd (s : S) : S := { hz s with vars := .const ⟨0, 0, 0, 0, 0, none⟩ 9, lookup := .const none 10, scopes := .const 0 4, log := [], baseType := 0, baseExtra := 0 }

/-- `ParseFirstDecl` at a local variable with a value; `s'` is the state after it and `s''` has the type of the variable too. -/
theorem first_ok {names : List (List Byte)} {g2 g3 x t2 : List Byte} (D : Decls off xs ys b) (Sc : Scope off G xs L V b) (hn : n < ys.length)
    (h : Loc r c L V ys b n s) (htok : s.tok = tokInt) (hlx : Lex names (g2 ++ x ++ (g3 ++ asc "=" ++ t2)) s) (h2 : Gap g2) (h3 : Gap g3) (hw : Word x)
    (ha : After (g3 ++ asc "=" ++ t2)) (hm : Munch (asc "=") t2) (ht2 : t2 ≠ []) (hroom : RoomI (intern names x)) (hkw : Kw names) (hxk : ¬ IsKw x)
    (hnum : num (intern names x) x = ys[n]) :
    ∃ s' s'', (∃ N, ∀ k, N ≤ k → parseFirstDecl (run k) s = .ok (some (b + n)) s') ∧ s'.type = vtInt ∧ s'.tok = 0x3D ∧ s'.prec = precAssign ∧
      s'' = { s' with vars := s'.vars.set (b + n) { s'.vars.get (b + n) with type := (s'.vars.get (b + n)).type ||| vtLocOff } } ∧
      Half r c L V ys b n s'' ∧ Lex (intern names x) t2 s'' ∧ hd s'' = hd s := by
  have hu := (hkw.intern x).user hxk
  obtain ⟨s1, ⟨N1, g1⟩, l1, t1, y1, z1, _, _⟩ := specs_ok (.inl ⟨htok, rfl⟩) hlx h2 hw ha (by simp [ht2]) hroom hu (h.noTd Sc)
  obtain ⟨s2, ⟨N2, g2'⟩, l2, t2', p2, z2, y2, x2⟩ := decl_ret l1 .asgn h3 hm ht2 t1 hu (by decide)
  have z2 : hz s2 = hz s := z2.trans z1
  have y2 : s2.type = vtInt := y2.trans y1
  obtain ⟨s3, e3, ⟨V', L', C', G', hs3⟩, hf⟩ := add_local h D hn z2 y2
  have l3 : Lex (intern names x) t2 s3 := by rw [hs3]; exact ⟨l2.text, l2.ids, l2.pos, l2.ge⟩
  have k3 : hd s3 = hd s := by
    rw [hs3]
    exact (show hd (hz s2) = hd (hz s) by rw [z2])
  have y3 : s3.type = vtInt := by rw [hs3]; exact y2
  have t3 : s3.tok = 0x3D := by rw [hs3]; exact t2'
  have p3 : s3.prec = precAssign := by rw [hs3]; exact p2
  clear hs3
  refine ⟨{ s3 with baseType := clr s3.type vtPtrMask, baseExtra := s3.extra }, _, ⟨N1 + N2, fun k hk => ?_⟩, y3, t3, p3, rfl,
    ⟨hf.sc, hf.scs, hf.top, hf.redef, hf.look, hf.type, hf.decl, hf.prev, hf.keep, hf.old, hf.lo⟩, ⟨l3.text, l3.ids, l3.pos, l3.ge⟩, k3⟩
  refine run_bind (g1 k (by omega)) (run_getS (run_neg (by rw [t1]; intro e; have : num (intern names x) x + 150 = 59 := e; omega) ?_))
  refine run_bind (a := b + n) (s1 := s3) (run_bind (g2' k (by omega)) (run_failIf (decide_eq_false (by omega)) ?_)) ?_
  · rw [hnum]; exact e3
  · exact run_bind (a := ()) (run_getS (run_neg (by rw [y3]; decide) rfl)) rfl

theorem kw_simple (htok : s.tok = tokInt) (k : Nat) : parseKeyword (run k) s = parseSimple (run k) s := by
  generalize hr : parseSimple (run k) s = res
  refine run_getS (run_neg (by rw [htok]; decide) (run_neg (by rw [htok]; decide) (run_neg (by rw [htok]; decide)
      (run_neg (by rw [htok]; decide) (run_neg (by rw [htok]; decide)
      (run_neg (by rw [htok]; decide) (run_neg (by rw [htok]; decide)
      (run_neg (by rw [htok]; decide) (run_neg (by rw [htok]; decide) (run_neg (by rw [htok]; decide)
      (run_neg (by rw [htok]; decide) hr)))))))))))

/-- The declaration of a local variable, read up to the semicolon. -/
theorem decl_ok {names : List (List Byte)} {g2 g3 x t2 t3 : List Byte} {e : E} {ts : List Tk} {its : List Item} (D : Decls off xs ys b) (Sc : Scope off G xs L V b) (hn : n < ys.length)
    (h : Dcl r c L V ys b n its s) (htok : s.tok = tokInt) (hlx : Lex names (g2 ++ x ++ (g3 ++ asc "=" ++ t2)) s) (h2 : Gap g2) (h3 : Gap g3) (hw : Word x)
    (ha : After (g3 ++ asc "=" ++ t2)) (hm : Munch (asc "=") t2) (ht2 : t2 ≠ []) (ht3 : t3 ≠ []) (hroom : RoomI (intern names x)) (hkw : Kw names) (hxk : ¬ IsKw x)
    (hnum : num (intern names x) x = ys[n]) (hsh : Shows 10 e ts) (hsrc : SrcTo (intern names x) t3 t2 (ts ++ [semi])) (hst : Stat e) (hx : ∀ y ∈ Vars e, y ∈ xs ++ ys.take n)
    (hsz : s.code + 64 * size e + 13 ≤ codeStart + outputMax) :
    ∃ s', s'.prec = precStop ∧ Lex (intern names x) t3 s' ∧ Dcl r c L V ys b (n + 1) (.raw (declB off e) :: its) s' ∧ hl s' = hl s ∧ s'.code ≤ s.code + 64 * size e + 13 ∧
      ∀ s'', getToken s' = .ok () s'' → Go .stmt s s'' := by
  have hge := h.hist.ge
  obtain ⟨s4, s5, ⟨N1, g1⟩, y4, t4, p4, hs5, hf5, l5, k5⟩ := first_ok D Sc hn h.loc htok hlx h2 h3 hw ha hm ht2 hroom hkw hxk hnum
  have hp : ∀ {β : Type} (g : S → β), (∀ s, g (hd s) = g s) → g s5 = g s := fun g hg => by rw [← hg s5, k5, hg]
  let B : Base := ⟨s5, (· = t3.headD 0 :: t3.tail)⟩
  have on5 : On B s5 (.sym 0x3D precAssign :: (ts ++ semi :: [])) := by
    refine ⟨⟨by rw [hs5]; exact t4, by rw [hs5]; exact p4, nofun⟩, ?_⟩
    have := hsrc.scan B (.nil _ rfl) l5.ids fun w hw => by
      have h1 := hroom.2 w hw
      have h2 := l5.pos
      show s5.idPos + _ + 1 ≤ _
      omega
    rw [l5.text]
    simpa using this
  obtain ⟨t0, us, ets, _⟩ := hsh.start hx
  obtain ⟨s6, e6, on6, k6⟩ := On.next' (s0 := B) (u := t0) (ts := us ++ [semi]) (by rw [ets] at on5; exact on5) rfl
  have on6 : On B s6 (ts ++ semi :: []) := by rw [ets]; exact on6
  have c6 : core s6 = core s5 := k6.core
  have hq : ∀ {β : Type} (g : S → β), (∀ s, g (hd s) = g s) → (∀ (s : S) a b c d e, g { s with cur := a, inp := b, tok := c, num := d, prec := e } = g s) → g s6 = g s := fun g hg hg' => by
    rw [k6, hg', hp g hg]
  have hcode : s6.code = s.code := hq S.code (fun _ => rfl) fun _ _ _ _ _ _ => rfl
  have hlo6 : s6.localOffset = s5.localOffset := by have := congrArg S.localOffset k6; exact this
  have hf6 : Half r c L V ys b n s6 := hf5.congr c6 hlo6
  have hist6 : Hist codeStart its s6 := by
    refine h.hist.same ⟨hcode, hq S.out (fun _ => rfl) fun _ _ _ _ _ _ => rfl, hq S.labels (fun _ => rfl) fun _ _ _ _ _ _ => rfl, hq S.labelCount (fun _ => rfl) fun _ _ _ _ _ _ => rfl,
      hq S.lastFixup (fun _ => rfl) fun _ _ _ _ _ _ => rfl⟩ (hq S.lastZF (fun _ => rfl) fun _ _ _ _ _ _ => rfl) (hq S.dead (fun _ => rfl) fun _ _ _ _ _ _ => rfl)
  have hdead6 : s6.dead = false := (hq S.dead (fun _ => rfl) fun _ _ _ _ _ _ => rfl).trans h.dead
  have hsp6 : s6.spAdj = 0 := (hq S.spAdj (fun _ => rfl) fun _ _ _ _ _ _ => rfl).trans h.sp
  have ex : Ex0 off (xs ++ ys.take n) B s6 :=
    ⟨⟨hdead6, hsp6⟩, (hq S.push (fun _ => rfl) fun _ _ _ _ _ _ => rfl).trans h.push, (hq S.regUse (fun _ => rfl) fun _ _ _ _ _ _ => rfl).trans h.reg,
      hist6.zf, hist6.ge, ids_core c6, hf6.locals D Sc⟩
  obtain ⟨s7, s8, ⟨N2, g7⟩, e8, on8, d8⟩ := val_assign ex hsh on6 (by decide) (.inr (by decide)) hst hx (by omega)
  have hvl := val_len (off := off) e hst
  have c8 := d8.em.code
  have hdead8 : s8.dead = false := by have := congrArg S.dead d8.em.fr; exact this.trans hdead6
  have hsp8 : s8.spAdj = 0 := by have := congrArg S.spAdj d8.em.fr; exact this.trans hsp6
  have hr8 : Room s8 [(0x50 : Byte)].length := by
    unfold Room
    rw [List.length_singleton]
    generalize codeStart = y, outputMax = z at *
    omega
  have e9 := Live.out_put ⟨hdead8, hsp8, d8.push⟩ hr8
  have d9 := d8.wrote (put_wrote [0x50] s8 hr8)
  have on9 : On B (put s8 [0x50]) (semi :: []) := on8.of_tks (by rw [put_eq]; rfl)
  generalize put s8 [0x50] = s9 at e9 d9 on9
  have c9 := d9.em.code
  have hlen : (valB off (gen off e false false) ++ [(0x50 : Byte)]).length ≤ 64 * size e + 13 := by rw [List.length_append, List.length_singleton]; omega
  have hf9 : Half r c L V ys b n s9 := hf6.congr d9.em.fr d9.lo
  have hist9 : Hist codeStart (.raw (declB off e) :: its) s9 := hist6.em d9.em (starts_app (val_starts off hst) (val_head off hst)) d9.zf (by
    show s6.code + (valB off (gen off e false false) ++ [(0x50 : Byte)]).length ≤ _
    omega)
  generalize hs10 : ({ s9 with localOffset := s9.localOffset - (2 : Nat), vars := s9.vars.set (b + n) { s9.vars.get (b + n) with offset := s9.localOffset - (2 : Nat) } } : S) = s10
  have hloc : Loc r c L V ys b (n + 1) s10 := hs10 ▸ hf9.done D hn
  have k9 : hl s9 = hl s := by
    have e1 : hl s9 = hl s5 := show hl (core s9) = hl (core s5) by rw [d9.em.fr, c6]
    exact e1.trans (show hl (hd s5) = hl (hd s) by rw [k5])
  have i9 : SccGen.ids s9 = SccGen.ids s5 := ids_core (d9.em.fr.trans c6)
  have l9 : Lex (intern names x) t3 s9 := by
    simp only [SccGen.ids, Prod.mk.injEq] at i9
    obtain ⟨i1, i2, i3, i4⟩ := i9
    refine ⟨?_, ?_, i4.trans l5.pos, l5.ge⟩
    · cases on9.2 with
      | nil _ hfin =>
        have hfin : s9.cur :: s9.inp = t3.headD 0 :: t3.tail := hfin
        rw [hfin]
        cases t3 with
        | nil => exact absurd rfl ht3
        | cons => rfl
    · unfold Props.SccIds.Ids
      rw [i1, i2, i3]
      exact l5.ids
  have hr9 : ∀ {β : Type} (g : S → β), (∀ s, g (core s) = g s) → (∀ s, g (hd s) = g s) → g s9 = g s := fun g h1 h2 => by
    rw [← h1 s9, d9.em.fr, c6, h1, hp g h2]
  have l10 : Lex (intern names x) t3 s10 := by rw [← hs10]; exact ⟨l9.text, l9.ids, l9.pos, l9.ge⟩
  have k10 : hl s10 = hl s := by rw [← hs10]; exact k9
  have t10 : s10.tok = 0x3B := by rw [← hs10]; exact on9.1.tok
  have p10 : s10.prec = precStop := by rw [← hs10]; exact on9.1.prec
  have hd10 : Dcl r c L V ys b (n + 1) (.raw (declB off e) :: its) s10 := by
    refine ⟨hloc, ?_, ?_, ?_, ?_, ?_, ?_, ?_, ?_⟩ <;> rw [← hs10]
    · exact (hr9 S.spAdj (fun _ => rfl) fun _ => rfl).trans h.sp
    · exact d9.push
    · exact d9.reg
    · show s9.switchCase < 0
      rw [hr9 S.switchCase (fun _ => rfl) fun _ => rfl]; exact h.sw
    · exact hist9.same ⟨rfl, rfl, rfl, rfl, rfl⟩ rfl rfl
    · exact (hr9 S.dead (fun _ => rfl) fun _ => rfl).trans h.dead
    · exact (hr9 S.returnLabel (fun _ => rfl) fun _ => rfl).trans h.rl
    · exact (hr9 S.labelCount (fun _ => rfl) fun _ => rfl).trans h.lab
  have hc10 : s10.code ≤ s.code + 64 * size e + 13 := by
    rw [← hs10]
    show s9.code ≤ _
    omega
  have hlv : ∀ k, N2 ≤ k → localVar (run k) (b + n) s4 = .ok () s10 := fun k hk => by
    refine run_bind (a := 2) (s1 := s4) ?_ (run_getS (run_neg ?_ (run_bind (a := ()) (s1 := s5) ?_ (run_pos t4 (run_bind e6 (run_bind (g7 k hk) (run_bind e8 (run_bind e9 ?_))))))))
    · refine run_getS ?_
      rw [y4]; rfl
    · rw [y4]; decide
    · rw [hs5]; rfl
    · rw [← hs10]; rfl
  refine ⟨s10, p10, l10, hd10, k10, hc10, fun s'' hs'' => ?_⟩
  refine stmt_go h.sw (by rw [htok]; decide) ⟨N1 + N2 + 1, fun k hk => (kw_simple htok k).trans ?_⟩
  refine run_getS (run_pos ?_ (run_bind (g1 k (by omega)) ?_))
  · unfold isTypeStart; rw [htok]; rfl
  · obtain ⟨k, rfl⟩ : ∃ j, k = j + 1 := ⟨k - 1, by omega⟩
    refine run_bind (a := ()) (s1 := s10) (run_bind (a := (0 : Int)) (s1 := s10) (run_bind (a := ()) (s1 := s10) ?_ rfl) rfl) (run_getS (run_neg (fun e => e t10) hs''))
    exact run_bind (hlv k (by omega)) (run_bind (a := none) (s1 := s10) (run_getS (run_pos (by rw [t10]; decide) rfl)) rfl)

/-! ## All declarations -/

/-- The names after the declarations. -/
def addL (names : List (List Byte)) (ls : List (List Byte × E)) : List (List Byte) := ls.foldl (fun ns p => intern ns p.1) names

/-- The text of declarations `int x = e;`, in front of `rest`; `names` are the identifiers known before. -/
inductive LocText (rest : List Byte) : List (List Byte) → List (List Byte × E) → List Byte → Prop
  | nil {names : List (List Byte)} : LocText rest names [] rest
  | cons {names : List (List Byte)} {g g2 g3 x t2 t3 : List Byte} {e : E} {ts : List Tk} {ls : List (List Byte × E)} (h1 : Gap g) (h2 : Gap g2) (h3 : Gap g3) (hw : Word x)
      (hb : After (g2 ++ x ++ (g3 ++ asc "=" ++ t2))) (ha : After (g3 ++ asc "=" ++ t2)) (hm : Munch (asc "=") t2) (hsh : Shows 10 e ts) (hsrc : SrcTo (intern names x) t3 t2 (ts ++ [semi]))
      (h : LocText rest (intern names x) ls t3) : LocText rest names ((x, e) :: ls) (g ++ asc "int" ++ (g2 ++ x ++ (g3 ++ asc "=" ++ t2)))

/-- Declarations that are compiled: each variable is new, the values use the parameters and the variables before. -/
def OkL (m : Nat) : List Nat → List (Nat × E) → Prop
  | _, [] => True
  | xs, (x, e) :: ds => x ∉ xs ∧ OkE xs m e ∧ OkL m (xs ++ [x]) ds

/-- The size of the code for declarations. -/
def szL : List (List Byte × E) → Nat
  | [] => 0
  | (_, e) :: ls => 64 * size e + 13 + szL ls

def nums (names : List (List Byte)) (ls : List (List Byte × E)) : List (Nat × E) := ls.map fun p => (num names p.1, p.2)

theorem addL_pre : ∀ (ls : List (List Byte × E)) (names : List (List Byte)), names <+: addL names ls
  | [], names => List.prefix_refl names
  | p :: ls, names => (intern_pre names p.1).trans (addL_pre ls _)

theorem addL_mem {p : List Byte × E} : ∀ (ls : List (List Byte × E)) (names : List (List Byte)), p ∈ ls → p.1 ∈ addL names ls
  | q :: ls, names, h => by
    rcases List.mem_cons.1 h with rfl | h
    · exact (addL_pre ls _).subset (intern_mem names p.1)
    · exact addL_mem ls _ h

theorem src_ne {names : List (List Byte)} {e l : List Byte} {ts : List Tk} (h : SrcTo names e l ts) (ht : ts ≠ []) : l ≠ [] := by
  cases h with
  | nil => exact absurd rfl ht
  | num n _ _ _ _ =>
    intro hh
    have := List.append_eq_nil_iff.1 hh
    have := (List.append_eq_nil_iff.1 this.1).2
    exact absurd this (by unfold decimal; simp)
  | id _ _ hi _ _ _ _ => simp [Word.ne hi]
  | sym _ _ _ hr _ => simp [hr]

theorem LocText.ne {rest : List Byte} {names : List (List Byte)} {ls : List (List Byte × E)} {text : List Byte} (h : LocText rest names ls text) (hr : rest ≠ []) : text ≠ [] := by
  cases h with
  | nil => exact hr
  | cons => simp [asc]

theorem Dcl.tok {its : List Item} {s' : S} (h : Dcl r c L V ys b n its s) (k : TokI s s') : Dcl r c L V ys b n its s' := by
  have key : ∀ a1 a2 a3 a4 a5 a6 a7 a8 a9, Dcl r c L V ys b n its { s with cur := a1, inp := a2, tok := a3, num := a4, prec := a5, idHash := a6, idText := a7, idCount := a8, idPos := a9 } :=
    fun a1 a2 a3 a4 a5 a6 a7 a8 a9 => ⟨⟨h.loc.sc, h.loc.scs, h.loc.top, h.loc.redef, h.loc.look, h.loc.decl, h.loc.prev, h.loc.keep, h.loc.old, h.loc.lo⟩, h.sp, h.push, h.reg, h.sw,
      h.hist.same ⟨rfl, rfl, rfl, rfl, rfl⟩ rfl rfl, h.dead, h.rl, h.lab⟩
  rw [show s' = _ from k]
  exact key ..

/-- The declarations at the beginning of a block; the token in front of them has been read. -/
theorem locs_ok {rest : List Byte} (hrn : rest ≠ []) {m : Nat} : ∀ (ls : List (List Byte × E)) {names : List (List Byte)} {text : List Byte} {n : Nat} {its : List Item} {s : S}, LocText rest names ls text →
    Lex names text s → s.prec = precStop → Decls off xs ys b → Scope off G xs L V b → Dcl r c L V ys b n its s → ys.drop n = (nums (addL names ls) ls).map Prod.fst →
    OkL m (xs ++ ys.take n) (nums (addL names ls) ls) → RoomI (addL names ls) → Kw names → (∀ p ∈ ls, ¬ IsKw p.1) → s.code + szL ls ≤ codeStart + outputMax →
    ∃ s', s'.prec = precStop ∧ Lex (addL names ls) rest s' ∧ Dcl r c L V ys b (n + ls.length) ((ls.map fun p => Item.raw (declB off p.2)).reverse ++ its) s' ∧ hl s' = hl s ∧
      s'.code ≤ s.code + szL ls ∧ ∀ s2 s3, getToken s' = .ok () s2 → Go .stmts s2 s3 → ∃ s1, getToken s = .ok () s1 ∧ Go .stmts s1 s3 := by
  intro ls
  induction ls with
  | nil =>
    intro names text n its s ht hlx hp D Sc h hys hok hroom hkw hk hsz
    cases ht
    exact ⟨s, hp, hlx, h, rfl, Nat.le_refl _, fun s2 s3 e2 g3 => ⟨s2, e2, g3⟩⟩
  | cons p ls ih =>
    intro names text n its s ht hlx hp D Sc h hys hok hroom hkw hk hsz
    cases ht with
    | @cons _ g g2 g3 x t2 t3 e ts _ h1 h2 h3 hw hb ha hm hsh hsrc hr =>
      have hN : addL names ((x, e) :: ls) = addL (intern names x) ls := rfl
      rw [hN] at hys hok hroom
      rw [hN]
      have hn : n < ys.length := by
        have := congrArg List.length hys
        simp [nums] at this
        omega
      have hdr := List.drop_eq_getElem_cons hn
      rw [hdr] at hys
      have hys : ys[n] :: ys.drop (n + 1) = num (addL (intern names x) ls) x :: (nums (addL (intern names x) ls) ls).map Prod.fst := hys
      obtain ⟨hy1, hy2⟩ := List.cons.inj hys
      obtain ⟨ho1, ho2, ho3⟩ : num (addL (intern names x) ls) x ∉ _ ∧ OkE _ m e ∧ OkL m _ (nums (addL (intern names x) ls) ls) := hok
      have hpre := addL_pre ls (intern names x)
      have hx0 : num (intern names x) x = ys[n] := by rw [hy1, num_pre hpre (intern_mem names x)]
      have ht2 : t2 ≠ [] := src_ne hsrc (by simp)
      have hroom1 : RoomI (intern names x) := hroom.pre hpre
      obtain ⟨s1, e1, k1, l1, t1⟩ := read_int hlx h1 hb (by simp [Word.ne hw]) (hroom1.pre (intern_pre names x)) hkw
      have h' := h.tok k1
      have hc1 : s1.code = s.code := by have := congrArg S.code k1; exact this
      have hsz : s.code + (64 * size e + 13 + szL ls) ≤ codeStart + outputMax := hsz
      obtain ⟨s2, p2, l2, d2, k2, c2, g2'⟩ := decl_ok D Sc hn h' t1 l1 h2 h3 hw ha hm ht2 (hr.ne hrn) hroom1 hkw (hk (x, e) (by simp)) hx0 hsh hsrc ho2.1 ho2.2.1 (by omega)
      have htk : xs ++ ys.take n ++ [num (addL (intern names x) ls) x] = xs ++ ys.take (n + 1) := by
        rw [List.take_add_one, List.getElem?_eq_getElem hn, ← hy1, List.append_assoc]; rfl
      rw [htk] at ho3
      obtain ⟨s3, p3, l3, d3, k3, c3, g3'⟩ := ih hr l2 p2 D Sc d2 hy2 ho3 hroom (hkw.intern x) (fun p hp => hk p (by simp [hp])) (by omega)
      have hk1 : hl s1 = hl s := show hl (hz s1) = hl (hz s) by rw [k1.hz]
      refine ⟨s3, p3, l3, ?_, k3.trans (k2.trans hk1), ?_, fun s4 s5 e4 g5 => ?_⟩
      · have : n + ((x, e) :: ls).length = n + 1 + ls.length := by simp; omega
        rw [this]
        simpa using d3
      · show s3.code ≤ s.code + (64 * size e + 13 + szL ls)
        omega
      · obtain ⟨s6, e6, ⟨N6, g6⟩⟩ := g3' s4 s5 e4 g5
        obtain ⟨N7, g7⟩ := g2' s6 e6
        refine ⟨s1, e1, Go.of (N6 + N7) fun k hk => run_bind (a := ()) (s1 := s5) (run_getS (run_neg (by rw [t1]; decide) (run_bind (g7 k (by omega)) (g6 k (by omega))))) rfl⟩

end SccLoc
