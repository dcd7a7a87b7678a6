import Verif.Props.SccStmLocFun
/-!
# Compiled programs (C51): one function after the other
-/
namespace SccTop
open Prog Text Scc SccCode SccGen SccStm SccHead SccLayout SccLoc Props.SccLex Props.SccIds

/-! ## The program -/

/-- A function: its type is `void` or `int`, its parameters are of type `int`; the body begins with declarations `int x = e;`. -/
structure Fn where
  void : Bool
  name : List Byte
  pars : List (List Byte)
  locs : List (List Byte × E) := []
  body : St

/-- The identifiers known after the header of the function. -/
def Fn.hd (f : Fn) (names : List (List Byte)) : List (List Byte) := f.pars.foldl intern (intern names f.name)

/-- The identifiers known after the function. -/
def Fn.add (f : Fn) (names : List (List Byte)) : List (List Byte) := addL (f.hd names) f.locs

/-- The numbers of the parameters. -/
def Fn.xs (f : Fn) (names : List (List Byte)) : List Nat := f.pars.map (num names)

/-- The numbers of the local variables. -/
def Fn.ys (f : Fn) (names : List (List Byte)) : List Nat := f.locs.map fun p => num names p.1

/-- The word for the type. -/
def Fn.ty (f : Fn) : List Byte := if f.void then asc "void" else asc "int"

/-- The text of the functions `fs`; `names` are the identifiers known before it and `names'` those known after it. -/
inductive Defs : List (List Byte) → List Byte → List Fn → List (List Byte) → Prop
  | nil {names : List (List Byte)} {g : List Byte} (hg : Gap g) : Defs names g [] names
  | fn {names names' : List (List Byte)} {g head r rest : List Byte} {f : Fn} {fs : List Fn} {d : Nat} {cl : Bool} {ts : List Tk} {mid : List Byte} (hg : Gap g) (ha : After head) (hh : HeadText f.name r f.pars head)
      (hl : LocText mid (f.hd names) f.locs r) (hs : ShowsS true d false cl f.body ts) (hd : d + 3 ≤ scopeMax) (hr : SrcTo (f.add names) rest mid (ts ++ [rbr])) (h : Defs (f.add names) rest fs names') :
      Defs names (g ++ f.ty ++ head) (f :: fs) names'

/-- The word `_start`. -/
abbrev wStart : List Byte := asc "_start"

/-! ## The jump to `_start` -/

/-- The reference to `_start` at the beginning of the program. -/
structure Pending (s : S) : Prop where
  ref : (s.vars.get 0).ref = codeStart + 3
  ty : (s.vars.get 0).type = vtFun ||| vtVoid ||| vtLocGlob
  op : s.out.get 2 = 0xE9
  lo : s.out.get 3 = 0
  hi : s.out.get 4 = 0

theorem rd_at {s : S} {r : Nat} {k : Int} {i : Nat} (h : (r : Int) - codeStart + k = i) (hi : i < outputMax) : Scc.rd r k s = .ok (s.out.get i) s := by
  refine run_getS (run_ub ?_ ?_)
  · rw [h]; exact decide_eq_true ⟨by omega, by omega⟩
  · rw [h]; rfl

theorem wr_at {s : S} {r : Nat} {k : Int} {i : Nat} {b : Byte} (h : (r : Int) - codeStart + k = i) (hi : i < outputMax) : wr r k b s = .ok () { s with out := s.out.set i b } := by
  refine run_ub ?_ ?_
  · rw [h]; exact decide_eq_true ⟨by omega, by omega⟩
  · rw [h]; rfl

/-- If `_start` is the first function the jump is removed. -/
theorem fixes_first {s : S} (h : Pending s) (hc : s.code = codeStart + 5) (hf : s.lastFixup ≠ s.code) (hz : s.lastZF ≤ codeStart + 2) : Fixes 0 s (codeStart + 2) s.out := by
  refine ⟨fun t h1 h2 h3 => ?_, by omega, hz⟩
  rw [h.ref, h.ty, show ((vtFun ||| vtVoid ||| vtLocGlob) &&& vtFun != 0) = true from rfl]
  show doFixups true (65535 + 1) (codeStart + 3) t = _
  unfold doFixups
  refine run_neg (by decide) (run_bind (a := 0) (s1 := { t with code := codeStart + 2 }) ?_ ?_)
  · refine run_getS (run_bind (rd_at (i := 3) (by decide) (by decide)) (run_bind (rd_at (i := 4) (by decide) (by decide)) (run_bind (rd_at (i := 2) (by decide) (by decide)) ?_)))
    rw [show t.out.get 2 = 0xE9 by rw [h1]; exact h.op, show t.out.get 3 = 0 by rw [h1]; exact h.lo, show t.out.get 4 = 0 by rw [h1]; exact h.hi]
    refine run_neg (by decide) (run_pos ⟨rfl, by rw [h2, hc], by rw [h2, h3]; exact hf⟩ (run_modS ?_))
    rw [h2, hc, show codeStart + 5 - 3 = codeStart + 2 by decide]
    rfl
  · show doFixups true (65534 + 1) 0 _ = _
    unfold doFixups
    refine run_pos rfl ?_
    show Res.ok () _ = Res.ok () _
    rw [← h1]

/-- The displacement of the jump to `a`. -/
def jumpTo (m : Mem 15) (a : Nat) : Mem 15 :=
  if fits8 ((a : Int) - (codeStart + 5 : Nat) + 1) then ((m.set 2 0xEB).set 3 (byteOf ((a : Int) - (codeStart + 5 : Nat) + 1))).set 4 0x90
  else (m.set 3 (lo ((a : Int) - (codeStart + 5 : Nat)))).set 4 (hi ((a : Int) - (codeStart + 5 : Nat)))

/-- Otherwise the jump goes to `_start`. -/
theorem fixes_later {s : S} (h : Pending s) (hc : codeStart + 5 < s.code) (hz : s.lastZF ≤ s.code) : Fixes 0 s s.code (jumpTo s.out s.code) := by
  refine ⟨fun t h1 h2 h3 => ?_, by omega, hz⟩
  have b2 : t.out.get 2 = 0xE9 := by rw [h1]; exact h.op
  have b3 : t.out.get 3 = 0 := by rw [h1]; exact h.lo
  have b4 : t.out.get 4 = 0 := by rw [h1]; exact h.hi
  rw [h.ref, h.ty, show ((vtFun ||| vtVoid ||| vtLocGlob) &&& vtFun != 0) = true from rfl, ← h1, ← h2]
  rw [← h2] at hc
  show doFixups true (65535 + 1) (codeStart + 3) t = _
  unfold doFixups
  refine run_neg (by decide) (run_bind (a := 0) (s1 := { t with out := jumpTo t.out t.code }) ?_ ?_)
  · refine run_getS (run_bind (rd_at (i := 3) (by decide) (by decide)) (run_bind (rd_at (i := 4) (by decide) (by decide)) (run_bind (rd_at (i := 2) (by decide) (by decide)) ?_)))
    rw [b2, b3, b4]
    refine run_neg (by decide) (run_neg (fun hh => by have := hh.2.1; omega) (run_bind (a := ()) (s1 := { t with out := jumpTo t.out t.code }) ?_ rfl))
    refine run_bind (rd_at (i := 2) (by decide) (by decide)) ?_
    rw [if_pos rfl, b2]
    unfold jumpTo
    by_cases hf : fits8 ((t.code : Int) - (codeStart + 5 : Nat) + 1) = true
    · refine run_pos ⟨rfl, hf⟩ ?_
      rw [if_pos hf]
      refine run_bind (wr_at (i := 2) (by decide) (by decide)) (run_bind (wr_at (i := 3) (by decide) (by decide)) ?_)
      exact wr_at (i := 4) (by decide) (by decide)
    · refine run_neg (fun hh => hf hh.2) ?_
      rw [if_neg hf]
      refine run_bind (wr_at (i := 3) (by decide) (by decide)) ?_
      exact wr_at (i := 4) (by decide) (by decide)
  · show doFixups true (65534 + 1) 0 _ = _
    unfold doFixups
    exact run_pos rfl rfl

/-! ## The state between two definitions -/

/-- What a declaration does not change. -/
def ho (s : S) : S :=
  { hz s with vars := .const ⟨0, 0, 0, 0, 0, none⟩ 9, lookup := .const none 10, scopes := .const 0 4, baseType := 0, baseExtra := 0, log := [] }

/-- The compiler in front of a definition: the names `dec` have been declared, `st` tells whether `_start` has been defined. -/
structure Top (names dec : List (List Byte)) (st : Bool) (s : S) : Prop where
  ids : Ids s names
  pos : s.idPos = used names
  kw : Kw names
  sub : ∀ w ∈ dec, w ∈ names
  three : 3 ≤ dec.length
  sc : s.scopeCount = 1
  cnt : s.scopes.get 0 = dec.length
  redef : s.ignoreRedef = 0
  lab : s.labelCount = 0
  sp : s.spAdj = 0
  push : s.push = false
  reg : s.regUse = false
  sw : s.switchCase < 0
  bss : s.bss = 0
  ge : codeStart + 2 ≤ s.code
  bp : s.out.get 0 = 0x31 ∧ s.out.get 1 = 0xED
  zf : s.lastZF ≤ s.code
  look : ∀ x < 2 ^ 10, ∀ v, s.lookup.get x = some v → v < dec.length ∧ (s.vars.get v).type &&& vtTypedef = 0 ∧ ∃ w ∈ dec, num names w = x
  offs : ∀ j < dec.length, j ≠ 0 → j ≠ 1 → j ≠ 2 → (s.vars.get j).offset ≠ 0
  bssv : ∀ j, j = 1 ∨ j = 2 → (s.vars.get j).offset = 0 ∧ (s.vars.get j).ref = 0 ∧ (s.vars.get j).id = (37 + j : Nat)
  pend : st = false → s.lookup.get 37 = some 0 ∧ (s.vars.get 0).id = 37 ∧ (s.vars.get 0).offset = 0 ∧ Pending s ∧ codeStart + 5 ≤ s.code ∧
    (s.code = codeStart + 5 → s.lastFixup ≠ s.code ∧ s.lastZF ≤ codeStart + 2)
  did : st = true → (s.vars.get 0).offset ≠ 0

theorem Top.noTd {names dec : List (List Byte)} {st : Bool} {s : S} (h : Top names dec st s) : NoTd s := fun x hx v hv => (h.look x hx v hv).2.1

/-- A definition after its declaration. -/
theorem external_ok {s s1 s2 s3 : S} {x v : Nat} (g1 : Go .declSpecs s s1) (h1 : s1.tok ≠ 0x3B) (g2 : GoV (.declarator .ret) x s1 s2) (hv : addVarDecl x s2 = .ok v s3)
    (hty : s3.type &&& vtBaseMask ≠ vtArray) (hvt : clr (s3.vars.get v).type vtStatic &&& vtFun ≠ 0) (htok : s3.tok = 0x7B) :
    ∃ s5 : S, ho s5 = ho s3 ∧ s5.lookup = s3.lookup ∧ s5.scopes = s3.scopes ∧ tks s5 = tks s3 ∧ s5.argsCount = s3.argsCount ∧ s5.args = s3.args ∧ SccGen.ids s5 = SccGen.ids s3 ∧
      s5.vars.get v = { s3.vars.get v with type := clr (s3.vars.get v).type vtStatic ||| vtLocGlob } ∧ (v < 2 ^ 9 → ∀ j < 2 ^ 9, j ≠ v → s5.vars.get j = s3.vars.get j) ∧
      ∀ s', (∃ N, ∀ n, N ≤ n → parseFunction (run n) v s5 = .ok () s') → ∃ N, ∀ n, N ≤ n → parseExternal (run n) s = .ok () s' := by
  obtain ⟨N1, g1⟩ := g1
  obtain ⟨N2, g2⟩ := g2
  let s4 : S := { s3 with baseType := clr s3.type vtPtrMask, baseExtra := s3.extra }
  let s5a : S := { s4 with vars := s4.vars.set v { s4.vars.get v with type := clr (s4.vars.get v).type vtStatic } }
  let s5 : S := { s5a with vars := s5a.vars.set v { s5a.vars.get v with type := (s5a.vars.get v).type ||| vtLocGlob } }
  have hva : s5a.vars.get v = { s3.vars.get v with type := clr (s3.vars.get v).type vtStatic } := Tab.get_set_self _ _ _
  refine ⟨s5, rfl, rfl, rfl, rfl, rfl, rfl, rfl, ?_, fun hv9 j hj hne => ?_, fun s' hs' => ?_⟩
  · show (s5a.vars.set v _).get v = _
    rw [Tab.get_set_self, hva]
  · show ((s3.vars.set v _).set v _).get j = _
    rw [Tab.get_set_ne _ _ hv9 hj (Ne.symm hne), Tab.get_set_ne _ _ hv9 hj (Ne.symm hne)]
  · obtain ⟨N, hs'⟩ := hs'
    refine ⟨N + N1 + N2, fun n hn => ?_⟩
    refine run_bind (a := Option.some v) (s1 := s4) (run_bind (g1 n (by omega)) (run_getS (run_neg h1 (run_bind (a := v) (s1 := s3) ?_ (run_bind (a := ()) (s1 := s4) ?_ rfl))))) ?_
    · exact run_bind (g2 n (by omega)) (run_failIf (decide_eq_false (by omega)) hv)
    · exact run_getS (run_neg hty rfl)
    · refine run_modS (run_getS (run_pos ?_ (run_modS (run_neg ?_ (hs' n (by omega))))))
      · show (s5a.vars.get v).type &&& vtFun ≠ 0
        rw [hva]; exact hvt
      · exact fun h => h htok

/-- The names declared after the declaration of `f`. -/
def decl (dec : List (List Byte)) (f : List Byte) : List (List Byte) := if f = wStart then dec else f :: dec

/-- The function `f` has been declared. -/
structure Declared (names' dec : List (List Byte)) (f : List Byte) (v : Nat) (s s3 : S) : Prop where
  cnt : s3.scopes.get 0 = (decl dec f).length
  lt : v < (decl dec f).length
  look : ∀ x < 2 ^ 10, ∀ u, s3.lookup.get x = some u → u < (decl dec f).length ∧ (u ≠ v → (s.vars.get u).type &&& vtTypedef = 0) ∧ ∃ w ∈ decl dec f, num names' w = x
  old : ∀ j < (decl dec f).length, j ≠ v → j < dec.length ∧ s3.vars.get j = s.vars.get j
  id : (s3.vars.get v).id = (num names' f : Nat)
  off : (s3.vars.get v).offset = 0
  ref : (s3.vars.get v).ref = if f = wStart then codeStart + 3 else 0
  v0 : f = wStart → v = 0 ∧ s3.vars.get 0 = s.vars.get 0
  v3 : f ≠ wStart → v = dec.length ∧ 3 ≤ v ∧ (s3.vars.get v).type = s3.type
  self : s3.lookup.get (num names' f) = some v
  keep : ∀ x < 2 ^ 10, x ≠ num names' f → s3.lookup.get x = s.lookup.get x

theorem num_inj {names : List (List Byte)} {v w : List Byte} (hv : v ∈ names) (h : num names v = num names w) : v = w := by
  have h1 := List.idxOf_lt_length_of_mem hv
  have h2 : List.idxOf w names < names.length := by have : List.idxOf v names = List.idxOf w names := h; omega
  have e1 : names[num names v]'h1 = v := List.getElem_idxOf h1
  have e2 : names[num names w]'h2 = w := List.getElem_idxOf h2
  rw [← e1, ← e2]
  simp only [h]

theorem declare_ok {names names' dec : List (List Byte)} {st : Bool} {s s2 : S} {f : List Byte} (T : Top names dec st s) (hz2 : hz s2 = hz s) (hpre : names <+: names') (hfm : f ∈ names')
    (hlen : names'.length ≤ idMax) (hroom : dec.length < varDeclMax) (hnew : f ∉ dec ∨ f = wStart ∧ st = false) (hs : wStart ∈ dec) :
    ∃ v s3, addVarDecl (num names' f : Nat) s2 = .ok v s3 ∧ Declared names' dec f v s s3 ∧ ∃ V L C G, s3 = { s2 with vars := V, lookup := L, scopes := C, log := G } := by
  have hp : ∀ {β : Type} (g : S → β), (∀ s, g (hz s) = g s) → g s2 = g s := fun g hg => by rw [← hg s2, hz2, hg]
  have hx : num names' f < idMax := Nat.lt_of_lt_of_le (List.idxOf_lt_length_of_mem hfm) hlen
  have hx10 : num names' f < 2 ^ 10 := Nat.lt_of_lt_of_le hx (by decide)
  have hsc : s2.scopeCount = 1 := (hp S.scopeCount fun _ => rfl).trans T.sc
  have hlk : s2.lookup = s.lookup := hp S.lookup fun _ => rfl
  have hvr : s2.vars = s.vars := hp S.vars fun _ => rfl
  have hcnt : s2.scopes.get 0 = dec.length := by rw [hp S.scopes fun _ => rfl]; exact T.cnt
  have hredef : s2.ignoreRedef = 0 := (hp S.ignoreRedef fun _ => rfl).trans T.redef
  have hfail : decide (varDeclMax ≤ s2.scopes.get (s2.scopeCount - 1)) = false := by rw [hsc, hcnt]; exact decide_eq_false (by omega)
  have hub : decide ((0 : Int) ≤ (num names' f : Nat) ∧ ((num names' f : Nat) : Int) < idMax) = true := decide_eq_true ⟨by omega, by omega⟩
  have hsub : ∀ {w}, w ∈ dec → num names' w = num names w := fun hw => num_pre hpre (T.sub _ hw)
  have three := T.three
  by_cases hfs : f = wStart
  · have hst : st = false := by
      rcases hnew with h | ⟨_, h⟩
      · exact absurd (hfs ▸ hs) h
      · exact h
    obtain ⟨p1, p2, p3, p4, _⟩ := T.pend hst
    have hn37 : num names' f = 37 := by
      rw [hfs]
      have hk : Kw names' := T.kw.trans hpre
      exact (hk.num (by decide)).trans (by decide)
    have hdec : decl dec f = dec := if_pos hfs
    refine ⟨0, s2, run_getS (run_failIf hfail (run_ub hub ?_)), ⟨?_, ?_, ?_, ?_, ?_, ?_, ?_, ?_, ?_, ?_, ?_⟩, s2.vars, s2.lookup, s2.scopes, s2.log, rfl⟩
    · rw [Int.toNat_natCast, hn37, hlk, p1]
      exact run_pos ⟨hredef, rfl⟩ rfl
    · rw [hdec]; exact hcnt
    · rw [hdec]; omega
    · intro x hx u hu
      rw [hlk] at hu
      obtain ⟨a, b, w, hw, e⟩ := T.look x hx u hu
      rw [hdec]
      exact ⟨a, fun _ => b, w, hw, (hsub hw).trans e⟩
    · intro j hj _
      rw [hdec] at hj
      exact ⟨hj, by rw [hvr]⟩
    · rw [hvr, hn37]; exact p2
    · rw [hvr]; exact p3
    · rw [hvr, if_pos hfs]; exact p4.ref
    · exact fun _ => ⟨rfl, by rw [hvr]⟩
    · exact fun h => absurd hfs h
    · rw [hlk, hn37]; exact p1
    · intro x _ _; rw [hlk]
  · have hnd : f ∉ dec := hnew.resolve_right fun h => hfs h.1
    have hdec : decl dec f = f :: dec := if_neg hfs
    have hnone : s2.lookup.get (num names' f) = none := by
      rw [hlk]
      cases hl : s.lookup.get (num names' f) with
      | none => rfl
      | some u =>
        obtain ⟨_, _, w, hw, e⟩ := T.look _ hx10 u hl
        have : w = f := num_inj (hpre.subset (T.sub w hw)) ((hsub hw).trans e)
        exact absurd (this ▸ hw) hnd
    have hv9 : dec.length < 2 ^ 9 := Nat.lt_of_lt_of_le hroom (by decide)
    let V0 := s2.vars.set dec.length ⟨(num names' f : Nat), s2.type, s2.extra, 0, 0, (s2.vars.get dec.length).prev⟩
    let s3 : S := { s2 with
      vars := V0.set dec.length { V0.get dec.length with prev := none }
      lookup := s2.lookup.set (num names' f) (some dec.length), scopes := s2.scopes.set 0 (dec.length + 1), log := .decl (num names' f : Nat) dec.length :: s2.log }
    have hv : s3.vars.get dec.length = ⟨(num names' f : Nat), s2.type, s2.extra, 0, 0, none⟩ := by
      show (V0.set _ _).get _ = _
      rw [Tab.get_set_self, Tab.get_set_self]
    refine ⟨dec.length, s3, run_getS (run_failIf hfail (run_ub hub ?_)), ⟨?_, ?_, ?_, ?_, ?_, ?_, ?_, ?_, ?_, ?_, ?_⟩, _, _, _, _, rfl⟩
    · rw [Int.toNat_natCast, hnone, hsc]
      refine run_neg (fun h => by simp at h) (run_bind (a := dec.length) (s1 := { s2 with vars := V0, scopes := s2.scopes.set 0 (dec.length + 1) }) ?_ rfl)
      refine run_getS ?_
      show (ubUnless _ >>= _) s2 = _
      rw [show s2.scopes.get (1 - 1) = dec.length from hcnt]
      exact run_ub (decide_eq_true hroom) rfl
    · rw [hdec]; exact Tab.get_set_self _ _ _
    · rw [hdec]; simp
    · intro x hx u hu
      rw [hdec]
      have hu : (s2.lookup.set _ _).get x = _ := hu
      rw [Tab.get_set _ _ hx10 hx] at hu
      split at hu
      · rename_i e
        cases hu
        exact ⟨by simp, fun h => absurd rfl h, f, by simp, e⟩
      · rw [hlk] at hu
        obtain ⟨a, b, w, hw, e⟩ := T.look x hx u hu
        exact ⟨by simp; omega, fun _ => b, w, by simp [hw], (hsub hw).trans e⟩
    · intro j hj hne
      rw [hdec] at hj
      have hj : j < dec.length + 1 := hj
      refine ⟨by omega, ?_⟩
      show ((s2.vars.set _ _).set _ _).get j = _
      rw [Tab.get_set_ne _ _ hv9 (by omega) (Ne.symm hne), Tab.get_set_ne _ _ hv9 (by omega) (Ne.symm hne), hvr]
    · rw [hv]
    · rw [hv]
    · rw [hv, if_neg hfs]
    · exact fun h => absurd h hfs
    · exact fun _ => ⟨rfl, three, by rw [hv]⟩
    · exact Tab.get_set_self _ _ _
    · intro x hx hne
      show (s2.lookup.set _ _).get x = _
      rw [Tab.get_set_ne _ _ hx10 hx (Ne.symm hne), hlk]

/-! ## One definition -/

/-- The function can be called behind its header: `_start` and functions without a value cannot. -/
def Fn.vis (f : Fn) : List (List Byte) := if f.void ∨ f.name = wStart then [] else [f.name]

/-- What is required of a function; `vis` are the names of the functions that it may call. -/
structure Fine (names : List (List Byte)) (m : Nat) (vis : List (List Byte)) (f : Fn) : Prop where
  kw : ¬ IsKw f.name
  kps : ∀ p ∈ f.pars, ¬ IsKw p
  nodup : f.pars.Nodup
  len : f.pars.length ≤ argsMax
  kls : ∀ p ∈ f.locs, ¬ IsKw p.1
  fit : f.locs.length ≤ m
  okl : OkL (m - f.locs.length) (f.xs names) (nums names f.locs)
  ok : Ok (vis.map (num names)) (f.xs names ++ f.ys names) (m - f.locs.length) f.body
  nl : nl f.body ≤ labelMax

/-- What is required of functions, if those in `vis` have been defined before. -/
def Fines (names : List (List Byte)) (m : Nat) : List (List Byte) → List Fn → Prop
  | _, [] => True
  | vis, f :: fs => Fine names m (f.vis ++ vis) f ∧ Fines names m (f.vis ++ vis) fs

/-- The compiler knows the functions `vis` and their addresses. -/
def Vis (names dec vis : List (List Byte)) (A : Nat → Nat) (s : S) : Prop :=
  ∀ w ∈ vis, w ∈ dec ∧ ¬ IsKw w ∧ w ≠ wStart ∧ ∃ v, s.lookup.get (num names w) = some v ∧ 3 ≤ v ∧ v < dec.length ∧ (s.vars.get v).type = vtInt ||| vtFun ||| vtLocGlob ∧
    (s.vars.get v).offset = A (num names w) ∧ A (num names w) ≠ 0

/-- The addresses with that of `x` changed to `a`. -/
def addr (A : Nat → Nat) (x a : Nat) : Nat → Nat := fun y => if y = x then a else A y

/-- The code of the function is in the output from `a` to `e`. -/
def Placed (names : List (List Byte)) (A : Nat → Nat) (f : Fn) (out : Mem 15) (a e : Nat) : Prop :=
  ∃ s8 cs zs l' rl R, s8.code = e ∧ (∀ i, a ≤ codeStart + i → codeStart + i < e → out.get i = s8.out.get i) ∧ SccLayout.Inv a cs s8 ∧
    cs.map Chunk.item = (funItemsL (locOff (f.xs names) (f.ys names)) f.locs f.body zs rl).reverse ∧
    Code (locOff (f.xs names) (f.ys names)) A (-((2 * f.locs.length : Nat) : Int)) R (-1) (-1) 0 l' f.body zs ∧ (rl = -1 ∧ (f.locs ≠ [] → .jmp R ∉ zs) ∨ rl = R ∧ f.locs ≠ [])

/-- The code at the beginning goes to `a`. -/
def Jumps (m : Mem 15) (a : Nat) : Prop :=
  a = codeStart + 2 ∨ codeStart + 5 < a ∧
    (fits8 ((a : Int) - (codeStart + 5 : Nat) + 1) = true ∧ m.get 2 = 0xEB ∧ m.get 3 = byteOf ((a : Int) - (codeStart + 5 : Nat) + 1) ∨
      m.get 2 = 0xE9 ∧ m.get 3 = lo ((a : Int) - (codeStart + 5 : Nat)) ∧ m.get 4 = hi ((a : Int) - (codeStart + 5 : Nat)))

theorem jumpTo_ne (m : Mem 15) (a i : Nat) (hi15 : i < 2 ^ 15) (h : i < 2 ∨ 5 ≤ i) : (jumpTo m a).get i = m.get i := by
  unfold jumpTo
  split
  · rw [Mem.get_set_ne _ _ (by decide) hi15 (by omega), Mem.get_set_ne _ _ (by decide) hi15 (by omega), Mem.get_set_ne _ _ (by decide) hi15 (by omega)]
  · rw [Mem.get_set_ne _ _ (by decide) hi15 (by omega), Mem.get_set_ne _ _ (by decide) hi15 (by omega)]

theorem jumpTo_jumps {m : Mem 15} {a : Nat} (h : m.get 2 = 0xE9) (ha : codeStart + 5 < a) : Jumps (jumpTo m a) a := by
  refine .inr ⟨ha, ?_⟩
  unfold jumpTo
  by_cases hf : fits8 ((a : Int) - (codeStart + 5 : Nat) + 1) = true
  · refine .inl ⟨hf, ?_⟩
    rw [if_pos hf, Mem.get_set_ne _ _ (by decide) (by decide) (by decide), Mem.get_set_ne _ _ (by decide) (by decide) (by decide), Mem.get_set_self,
      Mem.get_set_ne _ _ (by decide) (by decide) (by decide), Mem.get_set_self]
    exact ⟨rfl, rfl⟩
  · refine .inr ?_
    rw [if_neg hf, Mem.get_set_ne _ _ (by decide) (by decide) (by decide), Mem.get_set_ne _ _ (by decide) (by decide) (by decide), h,
      Mem.get_set_ne _ _ (by decide) (by decide) (by decide), Mem.get_set_self, Mem.get_set_self]
    exact ⟨rfl, rfl, rfl⟩

theorem Jumps.congr {m m' : Mem 15} {a : Nat} (h : Jumps m a) (he : codeStart + 5 < a → ∀ i < 5, m'.get i = m.get i) : Jumps m' a := by
  rcases h with h | ⟨h1, h⟩
  · exact .inl h
  · refine .inr ⟨h1, ?_⟩
    rw [he h1 2 (by decide), he h1 3 (by decide), he h1 4 (by decide)]
    exact h

theorem CompiledL.gt {A : Nat → Nat} {xs ys : List Nat} {v a : Nat} {m : Mem 15} {ls : List (List Byte × E)} {t : St} {names : List (List Byte)} {s s' : S} (h : CompiledL A xs ys v a m ls t names s s') : a < s'.code := by
  obtain ⟨s8, cs, zs, l', rl, R, _, e, hi, hm, _⟩ := h.code
  have : Item.raw [0x55] ∈ cs.map Chunk.item := by rw [hm]; simp [funItemsL]
  obtain ⟨⟨it, p, n⟩, hc, rfl⟩ := List.mem_map.1 this
  have h1 := hi.tile.mem hc
  have h2 := (hi.plain _ hc).1
  rw [e]
  simp only [List.length_cons, List.length_nil] at h1 h2
  omega

theorem foldl_mem {p : List Byte} : ∀ (ps : List (List Byte)) (names : List (List Byte)), p ∈ ps → p ∈ ps.foldl intern names
  | q :: ps, names, h => by
    rcases List.mem_cons.1 h with rfl | h
    · exact (foldl_pre ps _).subset (intern_mem names p)
    · exact foldl_mem ps _ h

theorem hd_pre (f : Fn) (names : List (List Byte)) : f.hd names <+: f.add names := addL_pre f.locs _

theorem fn_pre (f : Fn) (names : List (List Byte)) : names <+: f.add names := ((intern_pre names f.name).trans (foldl_pre f.pars _)).trans (hd_pre f names)

theorem hd_mem (f : Fn) (names : List (List Byte)) : f.name ∈ f.hd names := (foldl_pre f.pars _).subset (intern_mem names f.name)

theorem fn_mem (f : Fn) (names : List (List Byte)) : f.name ∈ f.add names := (hd_pre f names).subset (hd_mem f names)

theorem par_mem (f : Fn) (names : List (List Byte)) : ∀ p ∈ f.pars, p ∈ f.add names := fun _ hp => (hd_pre f names).subset (foldl_mem f.pars _ hp)

theorem loc_mem (f : Fn) (names : List (List Byte)) : ∀ p ∈ f.locs, p.1 ∈ f.add names := fun _ hp => addL_mem f.locs _ hp

/-- One definition: the function `f`, and behind it the token `u`, and then the text `e`. -/
theorem def_ok {names dec : List (List Byte)} {st : Bool} {s : S} {f : Fn} {m d : Nat} {cl : Bool} {ts : List Tk} {u : Tk} {head r mid rest e : List Byte} {vis : List (List Byte)} {A : Nat → Nat} (T : Top names dec st s) (V : Vis names dec vis A s) (hs : wStart ∈ dec)
    (htok : s.tok = if f.void then tokVoid else tokInt) (htext : s.cur :: s.inp = head) (hh : HeadText f.name r f.pars head) (hrn : r ≠ [])
    (hlt : LocText mid (f.hd names) f.locs r) (hsh : ShowsS true d false cl f.body ts) (hd : d + 3 ≤ scopeMax) (hr : SrcTo (f.add names) rest mid (ts ++ [rbr])) (F : Fine (f.add names) m (f.vis ++ vis) f) (hnew : f.name ∉ dec ∨ f.name = wStart ∧ st = false)
    (hroom : RoomI (f.add names)) (hvars : dec.length + 1 + globalReserve + f.pars.length + f.locs.length ≤ varDeclMax) (hsz : s.code + szL f.locs + sz f.body + 11 ≤ codeStart + outputMax)
    (hnext : ∀ B : Base, Ids B.s (f.add names) → B.s.idPos = used (f.add names) → B.fin = (· = e.headD 0 :: e.tail) → Scan B rest [u]) :
    ∃ s' a, (∃ N, ∀ n, N ≤ n → parseExternal (run n) s = .ok () s') ∧ Top (f.add names) (decl dec f.name) (st || decide (f.name = wStart)) s' ∧ s'.tok = u.tok ∧
      s'.cur :: s'.inp = e.headD 0 :: e.tail ∧ Placed (f.add names) (addr A (num (f.add names) f.name) a) f s'.out a s'.code ∧ (st = true ∨ f.name = wStart ∨ codeStart + 5 ≤ a) ∧
      s'.code ≤ s.code + szL f.locs + sz f.body + 11 ∧ (∀ i, codeStart + i < s.code → st = true ∨ 5 ≤ i → codeStart + i < s'.code ∧ s'.out.get i = s.out.get i) ∧ (f.name = wStart → Jumps s'.out a) ∧
      s'.map = s.map ++ (cvtHex a ++ asc " " ++ f.name ++ [0x0D, 0x0A]).toArray ∧
      Vis (f.add names) (decl dec f.name) (f.vis ++ vis) (addr A (num (f.add names) f.name) a) s' := by
  have hpre := fn_pre f names
  have hfm := fn_mem f names
  have h40 : 40 ≤ names.length := Nat.le_trans (by decide) T.kw.length_le
  have hkw' : Kw (f.add names) := T.kw.trans hpre
  obtain ⟨ty, hty⟩ : ∃ ty, ty = if f.void then vtVoid else vtInt := ⟨_, rfl⟩
  have htokT : s.tok = tokInt ∧ ty = vtInt ∨ s.tok = tokVoid ∧ ty = vtVoid := by
    cases hv : f.void <;> rw [hv] at htok hty
    · exact .inl ⟨htok, hty⟩
    · exact .inr ⟨htok, hty⟩
  obtain ⟨s1, s2, g1, h1, g2, l2, t2, p2, z2, y2, c2, a2⟩ := head_ok htokT hh ⟨htext, T.ids, T.pos, h40⟩ hrn T.noTd (hroom.pre (hd_pre f names)) T.kw F.kw F.kps F.len
  have l2 : Lex (f.hd names) r s2 := l2
  have a2 : ∀ i (h : i < f.pars.length), (s2.args.get i).id = num (f.add names) f.pars[i] ∧ (s2.args.get i).type = vtInt := fun i h => by
    rw [num_pre (hd_pre f names) (foldl_mem f.pars _ (List.getElem_mem h))]
    exact a2 i h
  rw [← num_pre ((foldl_pre f.pars _).trans (hd_pre f names)) (intern_mem names f.name)] at g2
  have g2 : GoV (.declarator .ret) (num (f.add names) f.name) s1 s2 := g2
  obtain ⟨v, s3, e3, D, hs3⟩ := declare_ok (f := f.name) T z2 hpre hfm hroom.1 (by omega) hnew hs
  have hs3 : ho s3 = ho s2 ∧ tks s3 = tks s2 ∧ s3.argsCount = s2.argsCount ∧ s3.args = s2.args ∧ SccGen.ids s3 = SccGen.ids s2 ∧ s3.type = s2.type := by
    obtain ⟨V, L, C, G, rfl⟩ := hs3
    exact ⟨rfl, rfl, rfl, rfl, rfl, rfl⟩
  obtain ⟨o3, tk3, n3, ar3, id3, ty3⟩ := hs3
  have t3 : s3.tok = 0x7B := by have := congrArg (·.1) tk3; exact this.trans t2
  -- the type of the function
  have hvt : (s3.vars.get v).type = vtFun ||| vtVoid ||| vtLocGlob ∨ (s3.vars.get v).type = vtInt ||| vtFun ∨ (s3.vars.get v).type = vtVoid ||| vtFun := by
    by_cases hf : f.name = wStart
    · obtain ⟨rfl, hv0⟩ := D.v0 hf
      have hst : st = false := hnew.elim (fun h => absurd (hf ▸ hs) h) (·.2)
      rw [hv0]
      exact .inl (T.pend hst).2.2.2.1.ty
    · rw [(D.v3 hf).2.2, ty3, y2]
      rcases htokT with ⟨_, h⟩ | ⟨_, h⟩ <;> rw [h]
      · exact .inr (.inl rfl)
      · exact .inr (.inr rfl)
  have hbt : s3.type &&& vtBaseMask ≠ vtArray := by
    rw [ty3, y2]
    rcases htokT with ⟨_, h⟩ | ⟨_, h⟩ <;> rw [h] <;> decide
  have hfun : clr (s3.vars.get v).type vtStatic &&& vtFun ≠ 0 := by rcases hvt with h | h | h <;> rw [h] <;> decide
  have htd : (clr (s3.vars.get v).type vtStatic ||| vtLocGlob) &&& vtTypedef = 0 := by rcases hvt with h | h | h <;> rw [h] <;> decide
  obtain ⟨s5, o5, k5, q5, tk5, n5, ar5, id5, v5, w5, G5⟩ := external_ok g1 h1 g2 e3 hbt hfun t3
  have ho5 : ho s5 = ho s := o5.trans (o3.trans (by unfold ho; rw [z2]))
  have hp : ∀ {β : Type} (g : S → β), (∀ s, g (ho s) = g s) → g s5 = g s := fun g hg => by rw [← hg s5, ho5, hg]
  have hids5 : SccGen.ids s5 = SccGen.ids s2 := id5.trans id3
  have I5 : Ids s5 (f.hd names) := by
    have e1 : s5.idHash = s2.idHash := by have := congrArg (·.1) hids5; exact this
    have e2 : s5.idText = s2.idText := by have := congrArg (·.2.1) hids5; exact this
    have e3 : s5.idCount = s2.idCount := by have := congrArg (·.2.2.1) hids5; exact this
    show IdsOf _ _ _ _
    rw [e1, e2, e3]; exact l2.ids
  have P5 : s5.idPos = used (f.hd names) := by have := congrArg (·.2.2.2) hids5; exact this.trans l2.pos
  have hdl : (decl dec f.name).length ≤ dec.length + 1 := by unfold decl; split <;> simp
  have hv9 : v < 2 ^ 9 := Nat.lt_of_lt_of_le (show v < varDeclMax by have := D.lt; omega) (by decide)
  have hold : ∀ j < (decl dec f.name).length, j ≠ v → j < dec.length ∧ s5.vars.get j = s.vars.get j := fun j hj hne =>
    ⟨(D.old j hj hne).1, (w5 hv9 j (Nat.lt_of_lt_of_le (show j < varDeclMax by omega) (by decide)) hne).trans (D.old j hj hne).2⟩
  have hxlen : (f.xs (f.add names)).length = f.pars.length := List.length_map _
  have hnumlt : ∀ w ∈ f.add names, num (f.add names) w < idMax := fun w hw => Nat.lt_of_lt_of_le (List.idxOf_lt_length_of_mem hw) hroom.1
  have hpm := par_mem f names
  have par5 : Params (f.xs (f.add names)) s5 := by
    refine ⟨by rw [hxlen, n5, n3, c2], fun i hi => ?_, ?_, fun x hx => ?_⟩
    · rw [ar5, ar3]
      have := a2 i (by omega)
      simp only [Fn.xs, List.getElem_map]
      exact this
    · refine (List.nodup_map_iff_inj_on F.nodup).2 ?_
      exact fun p hp q hq e => num_inj (hpm p hp) e
    · obtain ⟨p, hp, rfl⟩ := List.mem_map.1 hx
      exact ⟨hkw'.user (F.kps p hp), hnumlt p (hpm p hp)⟩
  have hidt : s5.idText.get (num (f.add names) f.name) = f.name := I5.text _ _ (by
    rw [num_pre (hd_pre f names) (hd_mem f names), List.getElem?_eq_getElem (List.idxOf_lt_length_of_mem (hd_mem f names))]; exact congrArg some (List.getElem_idxOf _))
  have E5 : Entry0 (f.xs (f.add names)) v s5 := by
    refine ⟨par5, (hp S.scopeCount fun _ => rfl).trans T.sc, ?_, ?_, ?_, ?_, ?_, (hp S.labelCount fun _ => rfl).trans T.lab, (hp S.spAdj fun _ => rfl).trans T.sp,
      (hp S.push fun _ => rfl).trans T.push, (hp S.regUse fun _ => rfl).trans T.reg, by rw [hp S.switchCase fun _ => rfl]; exact T.sw⟩
    · rw [q5, D.cnt, hxlen]; omega
    · rw [q5, D.cnt]; exact D.lt
    · rw [v5]; exact D.off
    · rw [v5]
      have := hnumlt _ hfm
      show 0 ≤ (s3.vars.get v).id ∧ (s3.vars.get v).id < idMax
      rw [D.id]
      exact ⟨by omega, by omega⟩
    · rw [v5]
      show s5.idPos + (s5.idText.get (s3.vars.get v).id.toNat).length + 7 ≤ _
      rw [D.id, Int.toNat_natCast, hidt, P5]
      exact (hroom.pre (hd_pre f names)).2 _ (hd_mem f names)
  have hout5 : s5.out = s.out := hp S.out fun _ => rfl
  have hcode5 : s5.code = s.code := hp S.code fun _ => rfl
  have hzf5 : s5.lastZF = s.lastZF := hp S.lastZF fun _ => rfl
  have hfx5 : s5.lastFixup = s.lastFixup := hp S.lastFixup fun _ => rfl
  have hge := T.ge
  obtain ⟨a, om, FX, ha2, hale, H1, H2, H3, H4, H5⟩ : ∃ a om, Fixes v s5 a om ∧ codeStart + 2 ≤ a ∧ a ≤ s.code ∧
      (∀ i, codeStart + i < s.code → st = true ∨ 5 ≤ i → codeStart + i < a ∧ om.get i = s.out.get i) ∧ (om.get 0 = s.out.get 0 ∧ om.get 1 = s.out.get 1) ∧
      (f.name = wStart → Jumps om a) ∧ (st = true ∨ f.name = wStart ∨ codeStart + 5 ≤ a) ∧ (f.name ≠ wStart → a = s.code ∧ om = s.out) := by
    by_cases hf : f.name = wStart
    · obtain ⟨rfl, hv0⟩ := D.v0 hf
      have hst : st = false := hnew.elim (fun h => absurd (hf ▸ hs) h) (·.2)
      obtain ⟨_, _, _, P, q1, q2⟩ := T.pend hst
      have P5' : Pending s5 := by
        refine ⟨?_, ?_, by rw [hout5]; exact P.op, by rw [hout5]; exact P.lo, by rw [hout5]; exact P.hi⟩
        · rw [v5]; show (s3.vars.get 0).ref = _; rw [hv0]; exact P.ref
        · rw [v5]; show clr (s3.vars.get 0).type vtStatic ||| vtLocGlob = _; rw [hv0, P.ty]; rfl
      by_cases hc : s.code = codeStart + 5
      · refine ⟨codeStart + 2, s5.out, fixes_first P5' (hcode5.trans hc) (by rw [hfx5, hcode5]; exact (q2 hc).1) (by rw [hzf5]; exact (q2 hc).2), by omega, by omega, fun i h1 h2 => ?_,
          by rw [hout5]; exact ⟨rfl, rfl⟩, fun _ => .inl rfl, .inr (.inl hf), fun h => absurd hf h⟩
        rcases h2 with h2 | h2
        · rw [hst] at h2; cases h2
        · omega
      · have hc' : codeStart + 5 < s.code := by omega
        refine ⟨s5.code, _, fixes_later P5' (by rw [hcode5]; exact hc') (by rw [hzf5, hcode5]; exact T.zf), by omega, by omega, fun i h1 h2 => ?_, ?_, fun _ => ?_, .inr (.inl hf), fun h => absurd hf h⟩
        · rcases h2 with h2 | h2
          · rw [hst] at h2; cases h2
          · rw [hout5]
            refine ⟨by omega, jumpTo_ne _ _ _ ?_ (.inr h2)⟩
            have : i < outputMax := by omega
            exact Nat.lt_of_lt_of_le this (by decide)
        · rw [hout5]
          exact ⟨jumpTo_ne _ _ _ (by decide) (by decide), jumpTo_ne _ _ _ (by decide) (by decide)⟩
        · exact jumpTo_jumps P5'.op (by omega)
    · have hr0 : (s5.vars.get v).ref = 0 := by rw [v5]; show (s3.vars.get v).ref = 0; rw [D.ref, if_neg hf]
      refine ⟨s5.code, s5.out, (⟨E5, hr0, by rw [hzf5, hcode5]; exact T.zf, by omega⟩ : Entry _ v s5).fixes, by omega, by omega, fun i h1 h2 => ?_, by rw [hout5]; exact ⟨rfl, rfl⟩, fun h => absurd h hf, ?_,
        fun _ => ⟨hcode5, hout5⟩⟩
      · rw [hcode5, hout5]; exact ⟨h1, rfl⟩
      · cases st with
        | true => exact .inl rfl
        | false => have := (T.pend rfl).2.2.2.2.1; exact .inr (.inr (by omega))
  -- the functions that can be called
  have hA : ∀ w ∈ vis, addr A (num (f.add names) f.name) a (num (f.add names) w) = A (num names w) ∧ num (f.add names) w = num names w ∧ num (f.add names) w ≠ num (f.add names) f.name := by
    intro w hw
    obtain ⟨b1, _, b3, _⟩ := V w hw
    have e := num_pre hpre (T.sub w b1)
    have hne : num (f.add names) w ≠ num (f.add names) f.name := fun hh => by
      have : w = f.name := num_inj (hpre.subset (T.sub w b1)) hh
      rcases hnew with h | ⟨h, _⟩
      · exact h (this ▸ b1)
      · exact b3 (this.trans h)
    refine ⟨?_, e, hne⟩
    rw [addr, if_neg hne, e]
  have hvis : ∀ w ∈ f.vis ++ vis, w ∈ f.vis ∧ w = f.name ∧ f.void = false ∧ f.name ≠ wStart ∨ w ∈ vis := by
    intro w hw
    rcases List.mem_append.1 hw with h | h
    · left
      refine ⟨h, ?_⟩
      unfold Fn.vis at h
      split at h
      · cases h
      · rename_i hh
        refine ⟨by simpa using h, by simpa using fun e => hh (.inl e), fun e => hh (.inr e)⟩
    · exact .inr h
  have hself : f.void = false → f.name ≠ wStart → (s5.vars.get v).type = vtInt ||| vtFun ||| vtLocGlob := by
    intro h1 h2
    rw [v5]
    show clr (s3.vars.get v).type vtStatic ||| vtLocGlob = _
    rw [(D.v3 h2).2.2, ty3, y2, hty, h1]
    rfl
  have hvold : ∀ w ∈ vis, ∃ u, s5.lookup.get (num (f.add names) w) = some u ∧ 3 ≤ u ∧ u < dec.length ∧ u < (decl dec f.name).length ∧ u ≠ v ∧ (s5.vars.get u) = (s.vars.get u) ∧
      (s.vars.get u).type = vtInt ||| vtFun ||| vtLocGlob ∧ (s.vars.get u).offset = A (num names w) ∧ A (num names w) ≠ 0 := by
    intro w hw
    obtain ⟨b1, _, b3, u, c1, c2, c3, c4, c5, c6⟩ := V w hw
    obtain ⟨_, e, hne⟩ := hA w hw
    have hul : u < (decl dec f.name).length := by have : dec.length ≤ (decl dec f.name).length := by { unfold decl; split <;> simp }; omega
    have huv : u ≠ v := by
      by_cases hf : f.name = wStart
      · have := (D.v0 hf).1; omega
      · have := (D.v3 hf).1; omega
    refine ⟨u, ?_, c2, c3, hul, huv, (hold u hul huv).2, c4, c5, c6⟩
    rw [k5, D.keep _ ?_ hne, e]
    · exact c1
    · exact Nat.lt_of_lt_of_le (hnumlt w (hpre.subset (T.sub w b1))) (by decide)
  have hkn : Known ⟨addr A (num (f.add names) f.name) a, (f.vis ++ vis).map (num (f.add names))⟩ v s5 := by
    intro x hx
    obtain ⟨w, hw, rfl⟩ := List.mem_map.1 hx
    rcases hvis w hw with ⟨_, rfl, h2, h3⟩ | hw
    · have ha := (H5 h3).1
      refine ⟨hkw'.user F.kw, hnumlt _ hfm, v, by rw [k5]; exact D.self, by rw [q5, D.cnt]; exact D.lt, hself h2 h3, ?_, ?_⟩
      · rw [if_pos rfl, hcode5]
        show _ = ((addr _ _ _ _ : Nat) : Int)
        rw [addr, if_pos rfl, ha]
      · show addr _ _ _ _ ≠ 0
        rw [addr, if_pos rfl]; omega
    · obtain ⟨b1, b2, b3, _⟩ := V w hw
      obtain ⟨u, c1, c2, c3, c3', c4, c5, c6, c7, c8⟩ := hvold w hw
      obtain ⟨e1, _⟩ := hA w hw
      refine ⟨hkw'.user b2, hnumlt w (hpre.subset (T.sub w b1)), u, c1, by rw [q5, D.cnt]; exact c3', by rw [c5]; exact c6, ?_, ?_⟩
      · rw [if_neg c4, c5, c7]
        show _ = ((addr _ _ _ _ : Nat) : Int)
        rw [e1]
      · show addr _ _ _ _ ≠ 0
        rw [e1]; exact c8
  have htx5 : s5.cur :: s5.inp = r := by
    have e1 : s5.cur = s2.cur := by have := congrArg (·.2.2.2.1) (tk5.trans tk3); exact this
    have e2 : s5.inp = s2.inp := by have := congrArg (·.2.2.2.2) (tk5.trans tk3); exact this
    rw [e1, e2]; exact l2.text
  have ht5 : s5.tok = 0x7B := by have := congrArg (·.1) (tk5.trans tk3); exact this.trans t2
  have hp5 : s5.prec = precStop := by have := congrArg (·.2.1) (tk5.trans tk3); exact this.trans p2
  have hcnt5 : s5.scopes.get 0 = (decl dec f.name).length := by rw [q5]; exact D.cnt
  have hnt : ∀ y < 2 ^ 10, ∀ w, s5.lookup.get y = some w → w < s5.scopes.get 0 ∧ (s5.vars.get w).type &&& vtTypedef = 0 := by
    intro y hy w hw
    rw [k5] at hw
    obtain ⟨b1, b2, _⟩ := D.look y hy w hw
    refine ⟨by rw [hcnt5]; exact b1, ?_⟩
    by_cases hwv : w = v
    · rw [hwv, v5]; exact htd
    · rw [(hold w b1 hwv).2]; exact b2 hwv
  obtain ⟨s', hrun, Cm, htok', htext'⟩ := compiledL (ls := f.locs) (ys := f.ys (f.add names)) E5 hkn hnt FX ⟨htx5, I5, P5, l2.ge⟩ ht5 hp5 hlt hsh hr rfl F.okl F.ok hd hroom (T.kw.trans ((intern_pre names f.name).trans (foldl_pre f.pars _))) F.kls
    (by rw [hcnt5, hxlen]; omega) (by omega) F.nl hnext
  have hgt := CompiledL.gt Cm
  have I' : Ids s' (f.add names) := Cm.ids
  have P' : s'.idPos = used (f.add names) := Cm.pos
  have hvar : ∀ j < (decl dec f.name).length, s'.vars.get j = if j = v then { s5.vars.get v with offset := s5.code } else s5.vars.get j := fun j hj => Cm.vars j (by rw [hcnt5]; exact hj)
  have hvar' : ∀ j < (decl dec f.name).length, j ≠ v → s'.vars.get j = s.vars.get j := fun j hj hne => by rw [hvar j hj, if_neg hne]; exact (hold j hj hne).2
  have hoff : (s'.vars.get v).offset ≠ 0 := by
    rw [hvar v D.lt, if_pos rfl]
    show ((s5.code : Nat) : Int) ≠ 0
    omega
  have hd3 : 3 ≤ (decl dec f.name).length := by have := T.three; unfold decl; split <;> simp <;> omega
  have hlow : ∀ i, codeStart + i < a → s'.out.get i = om.get i := Cm.low
  have htop : Top (f.add names) (decl dec f.name) (st || decide (f.name = wStart)) s' := by
    refine ⟨I', P', hkw', fun w hw => ?_, hd3, Cm.sc, Cm.scs.trans hcnt5, ?_, Cm.lab, Cm.sp, Cm.push, Cm.reg, Cm.sw, ?_, by omega, ?_, Cm.zf, fun x hx u hu => ?_, fun j hj h0 h1 h2 => ?_, fun j hj => ?_, fun h => ?_, fun h => ?_⟩
    · unfold decl at hw
      split at hw
      · exact hpre.subset (T.sub w hw)
      · rcases List.mem_cons.1 hw with rfl | hw
        · exact hfm
        · exact hpre.subset (T.sub w hw)
    · exact Cm.redef.trans ((hp S.ignoreRedef fun _ => rfl).trans T.redef)
    · exact Cm.bss.trans ((hp S.bss fun _ => rfl).trans T.bss)
    · rw [hlow 0 (by omega), hlow 1 (by omega), H2.1, H2.2]
      exact T.bp
    · rw [Cm.look x hx, k5] at hu
      obtain ⟨b1, b2, b3⟩ := D.look x hx u hu
      refine ⟨b1, ?_, b3⟩
      by_cases huv : u = v
      · rw [huv, hvar v D.lt, if_pos rfl]
        show (s5.vars.get v).type &&& _ = 0
        rw [v5]; exact htd
      · rw [hvar' u b1 huv]; exact b2 huv
    · by_cases hjv : j = v
      · rw [hjv]; exact hoff
      · rw [hvar' j hj hjv]
        exact T.offs j (hold j hj hjv).1 h0 h1 h2
    · have hjv : j ≠ v := by
        intro hh
        by_cases hf : f.name = wStart
        · have := (D.v0 hf).1; omega
        · have := (D.v3 hf).2.1; omega
      rw [hvar' j (by omega) hjv]
      exact T.bssv j hj
    · obtain ⟨hst, hf⟩ : st = false ∧ f.name ≠ wStart := by
        have := Bool.or_eq_false_iff.1 h
        exact ⟨this.1, of_decide_eq_false this.2⟩
      obtain ⟨b1, b2, b3, P, b5, b6⟩ := T.pend hst
      have hv3 := (D.v3 hf).2.1
      obtain ⟨ea, eo⟩ := H5 hf
      have hv0 : s'.vars.get 0 = s.vars.get 0 := hvar' 0 (by omega) (by omega)
      have hn37 : num (f.add names) f.name ≠ 37 := by
        intro hh
        have h37 : num (f.add names) wStart = 37 := (hkw'.num (by decide)).trans (by decide)
        exact hf (num_inj hfm (hh.trans h37.symm))
      refine ⟨?_, by rw [hv0]; exact b2, by rw [hv0]; exact b3, ⟨by rw [hv0]; exact P.ref, by rw [hv0]; exact P.ty, ?_, ?_, ?_⟩, by omega, fun hh => by omega⟩
      · rw [Cm.look 37 (by decide), k5, D.keep 37 (by decide) (Ne.symm hn37)]; exact b1
      · rw [hlow 2 (by omega), eo]; exact P.op
      · rw [hlow 3 (by omega), eo]; exact P.lo
      · rw [hlow 4 (by omega), eo]; exact P.hi
    · by_cases hf : f.name = wStart
      · have := (D.v0 hf).1
        rw [← this]; exact hoff
      · have hst : st = true := by simpa [hf] using h
        have hv3 := (D.v3 hf).2.1
        rw [hvar' 0 (by omega) (by omega)]
        exact T.did hst
  refine ⟨s', a, G5 s' hrun, htop, htok', htext', ?_, H4, by have := Cm.len; omega, fun i h1 h2 => ?_, fun hf => ?_, ?_, ?_⟩
  · obtain ⟨s8, cs, zs, l', rl, R, e1, e2, b3, b4, b5, b6⟩ := Cm.code
    exact ⟨s8, cs, zs, l', rl, R, e2.symm, fun i _ _ => by rw [e1], b3, b4, b5, b6⟩
  · obtain ⟨b1, b2⟩ := H1 i h1 h2
    exact ⟨by omega, (hlow i b1).trans b2⟩
  · refine (H3 hf).congr fun h i hi => hlow i (by omega)
  · rw [Cm.map, hp S.map fun _ => rfl, v5]
    show _ ++ (_ ++ _ ++ s5.idText.get (s3.vars.get v).id.toNat ++ _).toArray = _
    rw [D.id, Int.toNat_natCast, hidt]
  · intro w hw
    rcases hvis w hw with ⟨_, rfl, h2, h3⟩ | hw
    · refine ⟨by unfold decl; rw [if_neg h3]; simp, F.kw, h3, v, ?_, (D.v3 h3).2.1, D.lt, ?_, ?_, ?_⟩
      · rw [Cm.look _ (Nat.lt_of_lt_of_le (hnumlt _ hfm) (by decide)), k5]; exact D.self
      · rw [hvar v D.lt, if_pos rfl]; exact hself h2 h3
      · rw [hvar v D.lt, if_pos rfl, addr, if_pos rfl, (H5 h3).1, ← hcode5]
      · rw [addr, if_pos rfl]; omega
    · obtain ⟨b1, b2, b3, _⟩ := V w hw
      obtain ⟨u, c1, c2, c3, c3', c4, c5, c6, c7, c8⟩ := hvold w hw
      obtain ⟨e1, _⟩ := hA w hw
      refine ⟨by unfold decl; split <;> simp [b1], b2, b3, u, ?_, c2, c3', by rw [hvar' u c3' c4]; exact c6, by rw [hvar' u c3' c4, c7, e1], by rw [e1]; exact c8⟩
      rw [Cm.look _ (Nat.lt_of_lt_of_le (hnumlt w (hpre.subset (T.sub w b1))) (by decide))]; exact c1

end SccTop
