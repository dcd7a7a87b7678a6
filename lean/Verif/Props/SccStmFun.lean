import Verif.Props.SccStmFor
/-!
# Compiled functions (C49): the beginning and the end of a function
-/
namespace SccStm
open Prog Text Scc SccCode SccGen SccLayout Props.SccLex

/-- The parts that do not change when a scope begins or ends. -/
def fo (s : S) : S := { s with vars := .const ⟨0, 0, 0, 0, 0, none⟩ 9, lookup := .const none 10, scopes := .const 0 4, scopeCount := 0, ignoreRedef := 0, type := 0, extra := 0, log := [] }

/-- `n` parameters have been declared, in the records from `b` on; `L` is the table of the names before. -/
structure Par (r : Nat) (L : Tab (Option Nat) 10) (xs : List Nat) (b n : Nat) (s : S) : Prop where
  sc : s.scopeCount = 2
  top : s.scopes.get 1 = b + n
  redef : s.ignoreRedef = r + 1
  look : ∀ i (h : i < xs.length), i < n → s.lookup.get xs[i] = some (b + i)
  decl : ∀ i (h : i < xs.length), i < n → (s.vars.get (b + i)).type = vtInt ||| vtLocOff ∧ (s.vars.get (b + i)).offset = (4 + i * 2 : Nat) ∧ (s.vars.get (b + i)).ref = 0
  prev : ∀ i (h : i < xs.length), i < n → (s.vars.get (b + i)).id = xs[i] ∧ (s.vars.get (b + i)).prev = L.get xs[i]
  keep : ∀ y < 2 ^ 10, y ∉ xs.take n → s.lookup.get y = L.get y

structure Params (xs : List Nat) (s : S) : Prop where
  n : s.argsCount = xs.length
  args : ∀ i (h : i < xs.length), (s.args.get i).id = xs[i] ∧ (s.args.get i).type = vtInt
  nodup : xs.Nodup
  ids : ∀ x ∈ xs, 37 ≤ x ∧ x < idMax

theorem addParams_ok {r : Nat} {L : Tab (Option Nat) 10} {xs : List Nat} {b : Nat} (hb : b + xs.length ≤ varDeclMax) : ∀ (n i : Nat) (s : S), n + i = xs.length → Params xs s → Par r L xs b i s →
    ∃ s', addParams n i s = .ok () s' ∧ Par r L xs b xs.length s' ∧ fo s' = fo s ∧ s'.scopes.get 0 = s.scopes.get 0 ∧ ∀ j < b, s'.vars.get j = s.vars.get j := by
  intro n
  induction n with
  | zero =>
    intro i s hi hp h
    obtain rfl : i = xs.length := by omega
    exact ⟨s, rfl, h, rfl, rfl, fun _ _ => rfl⟩
  | succ n ih =>
    intro i s hi hp h
    have hil : i < xs.length := by omega
    obtain ⟨ha, hty⟩ := hp.args i hil
    have hid := hp.ids _ (List.getElem_mem hil)
    have hx10 : xs[i] < 2 ^ 10 := Nat.lt_of_lt_of_le hid.2 (by decide)
    have hb9 : b + i < 2 ^ 9 := Nat.lt_of_lt_of_le (show b + i < varDeclMax by omega) (by decide)
    let s1 : S := { s with type := (s.args.get i).type ||| vtLocOff, extra := (s.args.get i).extra }
    let s2 : S := { s1 with scopes := s.scopes.set 1 (b + i + 1), vars := s.vars.set (b + i) ⟨xs[i], s1.type, s1.extra, 0, 0, (s.vars.get (b + i)).prev⟩ }
    let s3 : S := { s2 with vars := s2.vars.set (b + i) { s2.vars.get (b + i) with prev := s.lookup.get xs[i] }, lookup := s.lookup.set xs[i] (some (b + i)), log := .decl xs[i] (b + i) :: s.log }
    let s4 : S := { s3 with vars := s3.vars.set (b + i) { s3.vars.get (b + i) with offset := (4 + i * 2 : Nat) } }
    have e3 : addVarDecl (s.args.get i).id s1 = .ok (b + i) s3 := by
      rw [ha]
      refine run_getS (run_failIf ?_ (run_ub (by exact decide_eq_true ⟨by omega, by omega⟩) (run_neg ?_ ?_)))
      · show decide (varDeclMax ≤ s.scopes.get (s.scopeCount - 1)) = false
        rw [h.sc, show 2 - 1 = 1 from rfl, h.top]
        exact decide_eq_false (by omega)
      · exact fun hh => Nat.succ_ne_zero _ (h.redef.symm.trans hh.1)
      · have e2 : addVarDeclScope (s1.scopeCount - 1) (xs[i] : Nat) s1 = .ok (b + i) s2 := by
          have h1 : s1.scopeCount - 1 = 1 := by show s.scopeCount - 1 = 1; rw [h.sc]
          have h2 : s1.scopes.get 1 = b + i := h.top
          rw [h1]
          refine run_getS (run_ub (by show decide (s1.scopes.get 1 < varDeclMax) = true; rw [h2]; exact decide_eq_true (by omega)) (run_modS ?_))
          rw [h2]
          rfl
        refine run_bind e2 (run_modS ?_)
        rfl
    have g0 : s4.vars.get (b + i) = ⟨xs[i], vtInt ||| vtLocOff, (s.args.get i).extra, (4 + i * 2 : Nat), 0, s.lookup.get xs[i]⟩ := by
      show ((Tab.set (Tab.set (Tab.set s.vars _ _) _ _) _ _).get _ : VarDecl) = _
      simp only [s3, s2, s1, Tab.get_set_self, hty]
    have gne : ∀ j, j < 2 ^ 9 → b + i ≠ j → s4.vars.get j = s.vars.get j := fun j hj hne => by
      show (Tab.set (Tab.set (Tab.set s.vars _ _) _ _) _ _).get _ = _
      rw [Tab.get_set_ne _ _ hb9 hj hne, Tab.get_set_ne _ _ hb9 hj hne, Tab.get_set_ne _ _ hb9 hj hne]
    have hnew : s.lookup.get xs[i] = L.get xs[i] := h.keep _ hx10 fun hm => by
      obtain ⟨j, hj, e⟩ := List.getElem_of_mem hm
      rw [List.getElem_take] at e
      rw [List.length_take] at hj
      have := (List.Nodup.getElem_inj_iff hp.nodup).1 e
      omega
    have hpar : Par r L xs b (i + 1) s4 := by
      refine ⟨h.sc, Tab.get_set_self .., h.redef, fun j hj hji => ?_, fun j hj hji => ?_, fun j hj hji => ?_, fun y hy hny => ?_⟩
      · show (s.lookup.set xs[i] (some (b + i))).get xs[j] = _
        by_cases hji' : j = i
        · subst hji'; exact Tab.get_set_self ..
        · have hne : xs[j] ≠ xs[i] := fun e => hji' ((List.Nodup.getElem_inj_iff hp.nodup).1 e)
          have hx' : xs[j] < 2 ^ 10 := Nat.lt_of_lt_of_le (hp.ids _ (List.getElem_mem hj)).2 (by decide)
          rw [Tab.get_set_ne _ _ hx10 hx' (by omega)]
          exact h.look j hj (by omega)
      · by_cases hji' : j = i
        · subst hji'; rw [g0]; exact ⟨rfl, rfl, rfl⟩
        · rw [gne (b + j) (Nat.lt_of_lt_of_le (show b + j < varDeclMax by omega) (by decide)) (by omega)]
          exact h.decl j hj (by omega)
      · by_cases hji' : j = i
        · subst hji'; rw [g0]; exact ⟨rfl, hnew⟩
        · rw [gne (b + j) (Nat.lt_of_lt_of_le (show b + j < varDeclMax by omega) (by decide)) (by omega)]
          exact h.prev j hj (by omega)
      · rw [List.take_add_one, List.getElem?_eq_getElem hil] at hny
        simp only [Option.toList_some, List.mem_append, List.mem_singleton, not_or] at hny
        show (s.lookup.set xs[i] (some (b + i))).get y = _
        rw [Tab.get_set_ne _ _ hx10 hy (Ne.symm hny.2)]
        exact h.keep y hy hny.1
    obtain ⟨s', e', p', f', z', v'⟩ := ih (i + 1) s4 (by omega) ⟨hp.n, hp.args, hp.nodup, hp.ids⟩ hpar
    refine ⟨s', run_modS (run_getS (run_bind e3 (run_modS e'))), p', f', ?_, fun j hj => ?_⟩
    · rw [z']
      exact Tab.get_set_ne _ _ (by decide) (by decide) (by decide)
    · rw [v' j hj]
      exact gne j (by omega) (by omega)

theorem reserve_ok : ∀ (n v : Nat) (s : S), v + n ≤ varDeclMax → ∃ t : Tab VarDecl 9, reserve n v s = .ok () { s with vars := t } ∧ (∀ j < v, t.get j = s.vars.get j) ∧
    ∀ j, v ≤ j → j < v + n → (t.get j).id = -1 := by
  intro n
  induction n with
  | zero => exact fun v s _ => ⟨s.vars, rfl, fun _ _ => rfl, fun j h1 h2 => by omega⟩
  | succ n ih =>
    intro v s hv
    have hv9 : v < 2 ^ 9 := Nat.lt_of_lt_of_le (show v < varDeclMax by omega) (by decide)
    obtain ⟨t, e, h1, h2⟩ := ih (v + 1) { s with vars := s.vars.set v { s.vars.get v with id := -1 } } (by omega)
    refine ⟨t, run_ub (by exact decide_eq_true (by omega)) (run_modS e), fun j hj => ?_, fun j hj hj' => ?_⟩
    · rw [h1 j (by omega)]
      exact Tab.get_set_ne _ _ hv9 (by omega) (by omega)
    · by_cases hjv : j = v
      · subst hjv
        rw [h1 j (by omega)]
        show ((Tab.set s.vars j _).get j).id = -1
        rw [Tab.get_set_self]
      · exact h2 j (by omega) (by omega)

theorem open_ok {xs : List Nat} {s : S} (hp : Params xs s) (hc : s.scopeCount = 1) (hb : s.scopes.get 0 + globalReserve + xs.length ≤ varDeclMax) :
    ∃ s', openFunction s = .ok () s' ∧ Par s.ignoreRedef s.lookup xs (s.scopes.get 0 + globalReserve) xs.length s' ∧ fo s' = fo s ∧ s'.scopes.get 0 = s.scopes.get 0 ∧
      (∀ j < s.scopes.get 0, s'.vars.get j = s.vars.get j) ∧ ∀ j, s.scopes.get 0 ≤ j → j < s.scopes.get 0 + globalReserve → (s'.vars.get j).id = -1 := by
  obtain ⟨t, e1, h1, h2⟩ := reserve_ok globalReserve (s.scopes.get 0) s (by omega)
  let s2 : S := { s with vars := t, scopes := s.scopes.set 0 (s.scopes.get 0 + globalReserve), log := .reserve :: s.log }
  let s3 : S := { s2 with scopes := s2.scopes.set 1 (s2.scopes.get 0), scopeCount := 2, ignoreRedef := s.ignoreRedef + 1, log := .push :: s2.log }
  let s4 : S := { s3 with scopes := s3.scopes.set 0 (s3.scopes.get 0 - globalReserve) }
  have e3 : pushScope s2 = .ok () s3 := by
    refine run_getS (run_failIf ?_ ?_)
    · show (s.scopeCount == scopeMax) = false
      rw [hc]; rfl
    · show Prog.Res.ok () ({ s2 with scopes := s2.scopes.set s.scopeCount (s2.scopes.get (s.scopeCount - 1)), scopeCount := s.scopeCount + 1, ignoreRedef := s.ignoreRedef + 1, log := .push :: s2.log } : S) = _
      rw [hc]
  have g3 : s3.scopes.get 0 = s.scopes.get 0 + globalReserve := by
    show ((s2.scopes.set 1 _).get 0) = _
    rw [Tab.get_set_ne _ _ (by decide) (by decide) (by decide)]
    exact Tab.get_set_self ..
  have g4 : s4.scopes.get 0 = s.scopes.get 0 := by
    show ((s3.scopes.set 0 _).get 0) = _
    rw [Tab.get_set_self, g3]; rfl
  have g41 : s4.scopes.get 1 = s.scopes.get 0 + globalReserve := by
    show ((s3.scopes.set 0 _).get 1) = _
    rw [Tab.get_set_ne _ _ (by decide) (by decide) (by decide)]
    show ((s2.scopes.set 1 _).get 1) = _
    rw [Tab.get_set_self]
    exact Tab.get_set_self ..
  obtain ⟨s5, e5, p5, f5, z5, v5⟩ := addParams_ok hb xs.length 0 s4 (by omega) ⟨hp.n, hp.args, hp.nodup, hp.ids⟩
    (L := s.lookup) ⟨rfl, g41, rfl, fun _ _ h => absurd h (Nat.not_lt_zero _), fun _ _ h => absurd h (Nat.not_lt_zero _), fun _ _ h => absurd h (Nat.not_lt_zero _),
      fun _ _ _ => rfl⟩
  refine ⟨s5, run_getS (run_bind e1 (run_modS (run_bind e3 (run_modS (run_getS ?_))))), p5, f5.trans rfl, z5.trans g4, fun j hj => ?_, fun j hj hj' => ?_⟩
  · show addParams s.argsCount 0 s4 = _
    rw [hp.n]; exact e5
  · rw [v5 j (by omega)]; exact h1 j hj
  · rw [v5 j hj']; exact h2 j hj hj'

theorem popVars_skip : ∀ (n i k : Nat) (s : S), (∀ j, i ≤ j → j < i + n → (s.vars.get j).id < 0) → popVars (n + k) i s = popVars k (i + n) s := by
  intro n
  induction n with
  | zero => intro i k s _; rw [Nat.zero_add]; rfl
  | succ n ih =>
    intro i k s h
    have e := ih (i + 1) k s fun j h1 h2 => h j (by omega) (by omega)
    rw [show n + 1 + k = (n + k) + 1 by omega, show i + (n + 1) = i + 1 + n by omega, ← e]
    exact run_bind (a := ()) (s1 := s) (run_getS (run_pos (h i (Nat.le_refl _) (by omega)) rfl)) rfl

/-- The names are what they were before the parameters. -/
theorem popVars_ok {L : Tab (Option Nat) 10} {xs : List Nat} {b : Nat} (hxs : ∀ x ∈ xs, x < idMax) : ∀ (n i : Nat) (s : S), i + n = xs.length →
    (∀ j (h : j < xs.length), (s.vars.get (b + j)).id = xs[j] ∧ (s.vars.get (b + j)).prev = L.get xs[j] ∧ (s.vars.get (b + j)).ref = 0) →
    (∀ y < 2 ^ 10, y ∉ xs.drop i → s.lookup.get y = L.get y) →
    ∃ t, popVars n (b + i) s = .ok () { s with lookup := t } ∧ ∀ y < 2 ^ 10, t.get y = L.get y := by
  intro n
  induction n with
  | zero =>
    intro i s hi _ hk
    exact ⟨s.lookup, rfl, fun y hy => hk y hy (by rw [List.drop_eq_nil_of_le (by omega)]; simp)⟩
  | succ n ih =>
    intro i s hi hr hk
    have hil : i < xs.length := by omega
    obtain ⟨h1, h2, h3⟩ := hr i hil
    have hxm := hxs _ (List.getElem_mem hil)
    have hx10 : xs[i] < 2 ^ 10 := Nat.lt_of_lt_of_le hxm (by decide)
    let s1 : S := { s with lookup := s.lookup.set xs[i] (L.get xs[i]) }
    obtain ⟨t, e, ht⟩ := ih (i + 1) s1 (by omega) hr fun y hy hny => by
      by_cases hyi : y = xs[i]
      · subst hyi; exact Tab.get_set_self ..
      · show (s.lookup.set xs[i] (L.get xs[i])).get y = _
        rw [Tab.get_set_ne _ _ hx10 hy (Ne.symm hyi)]
        refine hk y hy fun hm => ?_
        rw [List.drop_eq_getElem_cons hil] at hm
        exact hny ((List.mem_cons.1 hm).resolve_left hyi)
    refine ⟨t, run_bind (a := ()) (s1 := s1) (run_getS (run_neg (by rw [h1]; omega) (run_neg (fun hh => hh h3) (run_getS (run_ub ?_ ?_))))) e, ht⟩
    · rw [h1]
      exact decide_eq_true (by omega)
    · show Prog.Res.ok () ({ s with lookup := s.lookup.set (s.vars.get (b + i)).id.toNat (s.vars.get (b + i)).prev } : S) = _
      rw [h1, h2]; rfl

theorem close_ok {L : Tab (Option Nat) 10} {xs : List Nat} {s : S} (hxs : ∀ x ∈ xs, x < idMax) (hc : s.scopeCount = 2) (h1 : s.scopes.get 1 = s.scopes.get 0 + globalReserve + xs.length)
    (hr : ∀ j, s.scopes.get 0 ≤ j → j < s.scopes.get 0 + globalReserve → (s.vars.get j).id < 0)
    (hp : ∀ j (h : j < xs.length), (s.vars.get (s.scopes.get 0 + globalReserve + j)).id = xs[j] ∧ (s.vars.get (s.scopes.get 0 + globalReserve + j)).prev = L.get xs[j] ∧
      (s.vars.get (s.scopes.get 0 + globalReserve + j)).ref = 0) (hk : ∀ y < 2 ^ 10, y ∉ xs → s.lookup.get y = L.get y) :
    ∃ t l, popScope s = .ok () { s with scopeCount := 1, ignoreRedef := s.ignoreRedef - 1, lookup := t, log := l } ∧ ∀ y < 2 ^ 10, t.get y = L.get y := by
  let s1 : S := { s with scopeCount := 1, ignoreRedef := s.ignoreRedef - 1 }
  obtain ⟨t, e, ht⟩ := popVars_ok (L := L) (b := s.scopes.get 0 + globalReserve) hxs xs.length 0 s1 (by omega) hp (by rw [List.drop_zero]; exact hk)
  refine ⟨t, .pop :: s.log, run_getS (run_failIf (by rw [hc]; rfl) (run_bind (a := ()) (s1 := s1) ?_ (run_getS (run_bind (a := ()) (s1 := { s1 with lookup := t }) ?_ rfl)))), ht⟩
  · show Prog.Res.ok () ({ s with scopeCount := s.scopeCount - 1, ignoreRedef := s.ignoreRedef - 1 } : S) = _
    rw [hc]
  · show popVars (s.scopes.get 1 - s.scopes.get 0) (s.scopes.get 0) s1 = _
    rw [h1, show s.scopes.get 0 + globalReserve + xs.length - s.scopes.get 0 = globalReserve + xs.length by omega]
    exact (popVars_skip globalReserve _ xs.length s1 hr).trans e

/-! ## The function -/

/-- The place of a parameter, relative to BP. -/
def parOff (xs : List Nat) (x : Nat) : Int := (4 + xs.idxOf x * 2 : Nat)

/-- The compiler at the beginning of the body of a function with the `int` parameters `xs`, which is the global `v`. -/
structure Entry0 (xs : List Nat) (v : Nat) (s : S) : Prop where
  par : Params xs s
  sc : s.scopeCount = 1
  room : s.scopes.get 0 + globalReserve + xs.length ≤ varDeclMax
  lt : v < s.scopes.get 0
  off : (s.vars.get v).offset = 0
  id : 0 ≤ (s.vars.get v).id ∧ (s.vars.get v).id < idMax
  buf : s.idPos + (s.idText.get (s.vars.get v).id.toNat).length + 7 ≤ idBufferMax
  lab : s.labelCount = 0
  sp : s.spAdj = 0
  push : s.push = false
  reg : s.regUse = false
  sw : s.switchCase < 0

/-- And it has not been referred to. -/
structure Entry (xs : List Nat) (v : Nat) (s : S) : Prop extends Entry0 xs v s where
  ref : (s.vars.get v).ref = 0
  zf : s.lastZF ≤ s.code
  ge : codeStart ≤ s.code

/-- The references to `v` can be resolved; then the output is `m` and the function begins at `a`. -/
structure Fixes (v : Nat) (s : S) (a : Nat) (m : Mem 15) : Prop where
  run : ∀ t : S, t.out = s.out → t.code = s.code → t.lastFixup = s.lastFixup →
    doFixups ((s.vars.get v).type &&& vtFun != 0) fixFuel (s.vars.get v).ref t = .ok () { t with out := m, code := a, lastFixup := a }
  ge : codeStart ≤ a
  zf : s.lastZF ≤ a

theorem Entry.fixes {xs : List Nat} {v : Nat} {s : S} (h : Entry xs v s) : Fixes v s s.code s.out := by
  refine ⟨fun t h1 h2 _ => ?_, h.ge, h.zf⟩
  rw [h.ref, ← h1, ← h2]; rfl

theorem Inv.empty {a : Nat} {s : S} (hc : s.code = a) (ha : codeStart ≤ a) (hle : a ≤ codeStart + outputMax) (hl : s.labelCount = 0) : SccLayout.Inv a [] s where
  tile := hc
  ge := ha
  le := hc ▸ hle
  plain := nofun
  labs := nofun
  site := nofun
  chain := fun l h => by omega
  fix := nofun
  starts := trivial
  jj := nofun
  nz := nofun
  count := by omega
  has := fun l h => by omega

/-! ## What was emitted before -/

theorem afterJcc_raw (bs : List Byte) : ∀ its : List Item, afterJcc (its ++ [.raw bs]) = afterJcc its
  | [] => rfl
  | .raw _ :: _ => rfl
  | .pos .. :: _ => rfl
  | .jcc .. :: _ => rfl
  | .jmp _ :: its => afterJcc_raw bs its
  | .lab _ :: its => afterJcc_raw bs its

theorem afterJmp_raw (bs : List Byte) : ∀ its : List Item, afterJmp (its ++ [.raw bs]) = afterJmp its
  | [] => rfl
  | .raw _ :: _ => rfl
  | .pos .. :: _ => rfl
  | .jcc .. :: _ => rfl
  | .jmp _ :: _ => rfl
  | .lab _ :: _ => rfl

theorem StartsOk.raw {bs : List Byte} : ∀ {its : List Item}, StartsOk (its ++ [.raw bs]) → StartsOk its
  | [], _ => trivial
  | .raw _ :: its, h => ⟨fun ha => h.1 ((afterJcc_raw bs its).trans ha), StartsOk.raw (its := its) h.2⟩
  | .pos .. :: its, h => StartsOk.raw (its := its) h
  | .jcc .. :: its, h => StartsOk.raw (its := its) h
  | .jmp _ :: its, h => StartsOk.raw (its := its) h
  | .lab _ :: its, h => StartsOk.raw (its := its) h

theorem lastLab_raw (bs : List Byte) (p n : Nat) : ∀ cs : List Chunk, lastLab (cs ++ [⟨.raw bs, p, n⟩]) = lastLab cs
  | [] => rfl
  | ⟨.raw _, _, _⟩ :: cs => lastLab_raw bs p n cs
  | ⟨.pos .., _, _⟩ :: cs => lastLab_raw bs p n cs
  | ⟨.jcc .., _, _⟩ :: cs => lastLab_raw bs p n cs
  | ⟨.jmp _, _, _⟩ :: cs => lastLab_raw bs p n cs
  | ⟨.lab _, _, _⟩ :: _ => rfl

theorem tile_raw {a n : Nat} {bs : List Byte} : ∀ {cs : List Chunk} {e : Nat}, Tile a (cs ++ [⟨.raw bs, a, n⟩]) e → Tile (a + n) cs e
  | [], _, h => h.1
  | _ :: cs, _, h => ⟨h.1, tile_raw (cs := cs) h.2⟩

/-- The first piece may be left out. -/
theorem Inv.drop {a n : Nat} {bs : List Byte} {cs : List Chunk} {s : S} (h : SccLayout.Inv a (cs ++ [⟨.raw bs, a, n⟩]) s) : SccLayout.Inv (a + n) cs s := by
  have hl : ∀ c, c ∈ cs → c ∈ cs ++ [⟨.raw bs, a, n⟩] := fun c hc => List.mem_append_left _ hc
  have ht := tile_raw h.tile
  have hmem : ∀ {c : Chunk}, a < c.pos → c ∈ cs ++ [⟨.raw bs, a, n⟩] → c ∈ cs := fun hp hm => by
    rcases List.mem_append.1 hm with hm | hm
    · exact hm
    · rw [List.mem_singleton.1 hm] at hp; exact absurd hp (Nat.lt_irrefl _)
  refine ⟨ht, Nat.le_trans h.ge (Nat.le_add_right ..), h.le, fun c hc => h.plain c (hl c hc), fun c hc => h.labs c (hl c hc), fun c hc l hto => ?_, fun l hll h0 => ?_,
    fun p hp => h.fix p (by rw [lastLab_raw]; exact hp), ?_, ?_, ?_, h.count, fun l hll h0 => ?_⟩
  · obtain ⟨h1, h2, h3⟩ := h.site c (hl c hc) l hto
    refine ⟨h1, h2, fun h0 => ?_⟩
    have h4 := h3 h0
    have hp := (ht.mem hc).1
    obtain ⟨it, p, k⟩ := c
    cases it with
    | raw _ => trivial
    | pos _ _ => trivial
    | lab _ => trivial
    | jmp _ => exact h4
    | jcc cc j =>
      obtain ⟨h5, h6⟩ := h4
      have hp : a + n ≤ p := hp
      refine ⟨h5, h6.imp_right fun h6 => ⟨h6.1, h6.2.imp_right fun h6 => ⟨h6.1, h6.2.1, ?_⟩⟩⟩
      rcases h6.2.2 with h7 | ⟨x, y, h7, h8⟩ | ⟨h7, h8, x, y, h9⟩
      · exact .inl h7
      · exact .inr (.inl ⟨x, y, hmem (by show a < p + 5; omega) h7, h8⟩)
      · exact .inr (.inr ⟨h7, h8, x, y, hmem (by show a < p + 5; omega) h9⟩)
  · have := h.chain l hll h0
    have e : refs l (cs ++ [⟨.raw bs, a, n⟩]) = refs l cs := by simp [refs, Item.to]
    rwa [e] at this
  · have := h.starts
    rw [List.map_append] at this
    exact StartsOk.raw this
  · intro hj
    have := h.jj (by rw [List.map_append]; exact (afterJmp_raw bs _).trans hj)
    rw [List.map_append] at this
    cases cs with
    | nil => cases hj
    | cons c cs => exact (afterJmp_raw bs (cs.map Chunk.item)).symm.trans this
  · rintro c pre l rfl hi
    exact h.nz c _ l rfl hi
  · rcases List.mem_append.1 (h.has l hll h0) with hm | hm
    · exact hm
    · cases List.mem_singleton.1 hm

/-- A history may begin with all that was emitted before. -/
theorem hist_start {s : S} {a : Nat} (hc : s.code = a) (ha : codeStart ≤ a) (hle : a ≤ codeStart + outputMax) (hl : s.labelCount = 0) (hz : s.lastZF ≤ a) :
    ∃ its0, Hist codeStart its0 s ∧ ∀ its s', Hist codeStart (its ++ its0) s' →
      ∃ cs, SccLayout.Inv a cs s' ∧ cs.map Chunk.item = its ∧ ∀ i, codeStart + i < a → s'.out.get i = s.out.get i := by
  by_cases h : a = codeStart
  · subst h
    refine ⟨[], ⟨[], ⟨Inv.empty hc ha hle hl, by rw [hc]; exact hz, nofun, fun _ => rfl⟩, rfl⟩, fun its s' ⟨cs, hcs, hi⟩ => ⟨cs, hcs.inv, ?_, fun i hi => by omega⟩⟩
    rw [hi, List.append_nil]
  · obtain ⟨n, rfl⟩ : ∃ n, a = codeStart + n := ⟨a - codeStart, by omega⟩
    let bs : List Byte := (List.range n).map s.out.get
    have hbl : bs.length = n := by simp [bs]
    have hbi : ∀ i (h : i < bs.length), bs[i] = s.out.get i := fun i h => by simp [bs]
    have hB : ∀ m : Mem 15, ∀ i, SccFix.B m (codeStart + i) = m.get i := fun m i => by unfold SccFix.B; rw [Nat.add_sub_cancel_left]
    refine ⟨[.raw bs], ⟨[⟨.raw bs, codeStart, n⟩], ⟨⟨⟨hc, rfl⟩, Nat.le_refl _, hc ▸ hle, ?_, ?_, ?_, fun l h => by omega, nofun, ⟨nofun, trivial⟩, nofun, ?_, by omega, fun l h => by omega⟩,
      by rw [hc]; exact hz, ?_, fun _ => rfl⟩, rfl⟩, fun its s' ⟨cs, hcs, hi⟩ => ?_⟩
    · intro c hm
      rw [List.mem_singleton.1 hm]
      exact ⟨hbl.symm, fun e => by rw [e] at hbl; exact h (by rw [← hbl]; rfl), fun i hi => by rw [hB, hbi]⟩
    · intro c hm l e
      rw [List.mem_singleton.1 hm] at e; cases e
    · intro c hm l e
      rw [List.mem_singleton.1 hm] at e; cases e
    · intro c pre l e hi
      rw [← (List.cons.inj e).1] at hi; cases hi
    · intro c pre l e hi
      rw [← (List.cons.inj e).1] at hi; cases hi
    · obtain ⟨cs1, cs0, rfl, h1, h0⟩ := List.map_eq_append_iff.1 hi
      obtain ⟨c0, rfl⟩ : ∃ c0, cs0 = [c0] := by
        have : cs0.length = 1 := by rw [← List.length_map (f := Chunk.item), h0]; rfl
        exact List.length_eq_one_iff.1 this
      have hit : c0.item = .raw bs := by simpa using h0
      have hpl := hcs.inv.plain c0 (by simp)
      obtain ⟨x, t1, t2⟩ := Tile.split hcs.inv.tile
      obtain ⟨it, p, k⟩ := c0
      have hit : it = .raw bs := hit
      subst hit
      obtain ⟨rfl, _, hb⟩ := hpl
      have hp : p = codeStart := t1.2
      subst hp
      have := Inv.drop hcs.inv
      rw [hbl] at this
      refine ⟨cs1, this, h1, fun i hi => ?_⟩
      have hlt : i < bs.length := by omega
      rw [← hbi i hlt, ← hb i hlt, hB]

variable {G : Fns}

theorem Rdy.out {off : Nat → Int} {xs : List Nat} {s0 : Base} {a : Nat} {its : List Item} {ts : List Tk} {s : S} (h : Rdy off G xs s0 a its ts s) (hd : s.dead = false) {bs : List Byte}
    (hs : Starts bs) (hle : s.code + bs.length ≤ codeStart + outputMax) (l0 : Nat) :
    ∃ s', output bs s = .ok () s' ∧ Rdy off G xs s0 a (.raw bs :: its) ts s' ∧ Mv l0 bs.length 0 s [.raw bs] s' ∧ s'.dead = false := by
  have hroom : Room s bs.length := h.hist.room hle
  have e1 := (h.live hd).out_put (bs := bs) hroom
  have w1 := put_wrote bs s hroom
  have d0 : Did s [] s := ⟨.refl rfl h.hist.ge rfl rfl, h.push, h.reg, rfl, h.hist.zf⟩
  have d1 := d0.wrote w1
  have ht : tks (put s bs) = tks s := by rw [put_eq]; rfl
  generalize put s bs = s1 at *
  obtain ⟨r1, m1, hd1⟩ := h.did d1 (h.on.of_tks ht) hs hle l0 bs.length (Nat.le_refl _)
  exact ⟨s1, e1, r1, m1, hd1.trans hd⟩

theorem output_dead {s : S} (hd : s.dead = true) (bs : List Byte) : output bs s = .ok () s :=
  run_getS (run_pos (.inl hd) (run_bind (a := true) (s1 := s) (run_getS (run_pos hd rfl)) rfl))

/-- The items for a function. -/
def funItems (t : St) (ys : List Item) : List Item := [.raw [0x55], .raw [0x89, 0xE5]] ++ ys ++ (if dies t then [] else [.raw [0x5D, 0xC3]])

/-- The function has been compiled: its code begins at `a`, below it the output is `m`; the compiler is ready for the next definition. -/
structure Compiled (A : Nat → Nat) (xs : List Nat) (v a : Nat) (m : Mem 15) (t : St) (s s' : S) : Prop where
  code : ∃ s8 cs ys l', s'.out = s8.out ∧ s'.code = s8.code ∧ SccLayout.Inv a cs s8 ∧ cs.map Chunk.item = (funItems t ys).reverse ∧ Code (parOff xs) A 0 0 (-1) (-1) 0 l' t ys
  low : ∀ i, codeStart + i < a → s'.out.get i = m.get i
  len : s'.code ≤ a + sz t + 5
  ge : a ≤ s'.code
  ids : ids s' = ids s
  sc : s'.scopeCount = 1
  scs : s'.scopes.get 0 = s.scopes.get 0
  redef : s'.ignoreRedef = s.ignoreRedef
  look : ∀ y < 2 ^ 10, s'.lookup.get y = s.lookup.get y
  vars : ∀ j < s.scopes.get 0, s'.vars.get j = if j = v then { s.vars.get v with offset := s.code } else s.vars.get j
  lab : s'.labelCount = 0
  sp : s'.spAdj = 0
  push : s'.push = false
  reg : s'.regUse = false
  sw : s'.switchCase < 0
  zf : s'.lastZF ≤ s'.code
  bss : s'.bss = s.bss
  map : s'.map = s.map ++ (cvtHex a ++ asc " " ++ s.idText.get (s.vars.get v).id.toNat ++ [0x0D, 0x0A]).toArray

/-- The functions that may be called in the body of `v`: those defined before and `v` itself. -/
def Known (G : Fns) (v : Nat) (s : S) : Prop :=
  ∀ f ∈ G.F, 37 ≤ f ∧ f < idMax ∧ ∃ w, s.lookup.get f = some w ∧ w < s.scopes.get 0 ∧ (s.vars.get w).type = vtInt ||| vtFun ||| vtLocGlob ∧
    (if w = v then (s.code : Int) else (s.vars.get w).offset) = G.A f ∧ G.A f ≠ 0

theorem compiled {xs : List Nat} {v a : Nat} {om : Mem 15} {s0 : Base} {s : S} (h : Entry0 xs v s) (hkn : Known G v s) (hfx : Fixes v s a om) {d : Nat} {cl : Bool} {t : St} {ts rest : List Tk} {u : Tk} {m : Nat}
    (hsh : ShowsS false d false cl t ts) (h0 : ids s = ids s0) (hon : On s0 s (ts ++ u :: rest)) (hu : u.tok ≠ tokElse) (hok : Ok G.F xs m t) (hd : d + 2 ≤ scopeMax)
    (hsz : a + sz t + 7 ≤ codeStart + outputMax) (hnl : nl t ≤ labelMax) :
    ∃ s', (∃ N, ∀ n, N ≤ n → parseFunction (run n) v s = .ok () s') ∧ Compiled G.A xs v a om t s s' ∧ On s0 s' (u :: rest) := by
  obtain ⟨s1, e1, p1, f1, z1, v1, w1⟩ := open_ok h.par h.sc h.room
  have hf : ∀ {β : Type} (g : S → β), (∀ s, g (fo s) = g s) → g s1 = g s := fun g hg => by rw [← hg s1, f1, hg]
  let s2 : S := { s1 with localOffset := 0, returnLabel := -1, breakLabel := -1, contLabel := -1 }
  have hv9 : v < 2 ^ 9 := by
    have := h.lt; have := h.room
    exact Nat.lt_of_lt_of_le (show v < varDeclMax by omega) (by decide)
  have hvv : s1.vars.get v = s.vars.get v := v1 v h.lt
  have hcode : s1.code = s.code := hf S.code fun _ => rfl
  obtain ⟨mp, e3, hmp⟩ : ∃ mp, emitGlobalLabel v s2 = .ok () { s2 with vars := s2.vars.set v { s2.vars.get v with offset := s2.code }, dead := false, out := om, code := a, lastFixup := a, map := mp } ∧
      mp = s.map ++ (cvtHex a ++ asc " " ++ s.idText.get (s.vars.get v).id.toNat ++ [0x0D, 0x0A]).toArray := by
    have hid : ((s1.vars.set v { s1.vars.get v with offset := s1.code }).get v).id = (s.vars.get v).id := by rw [Tab.get_set_self]; show (s1.vars.get v).id = _; rw [hvv]
    refine ⟨_, run_getS (run_failIf ?_ (run_modS (run_bind (a := ())
      (s1 := { s2 with vars := s2.vars.set v { s2.vars.get v with offset := s2.code }, dead := false, out := om, code := a, lastFixup := a }) ?_ (run_getS (run_ub ?_ (run_ub ?_ rfl)))))), ?_⟩
    · show decide ((s1.vars.get v).offset ≠ 0) = false
      rw [hvv]; exact decide_eq_false (fun hh => hh h.off)
    · show doFixups ((s1.vars.get v).type &&& vtFun != 0) fixFuel (s1.vars.get v).ref _ = _
      rw [hvv]
      exact hfx.run _ (hf S.out fun _ => rfl) (hf S.code fun _ => rfl) (hf S.lastFixup fun _ => rfl)
    · show decide (((s1.vars.set v _).get v).id = -2 ∨ 0 ≤ ((s1.vars.set v _).get v).id ∧ _) = true
      rw [Tab.get_set_self]
      show decide ((s1.vars.get v).id = -2 ∨ 0 ≤ (s1.vars.get v).id ∧ (s1.vars.get v).id < idMax) = true
      rw [hvv]
      exact decide_eq_true (.inr h.id)
    · show decide (s1.idPos + (if ((s1.vars.set v { s1.vars.get v with offset := s1.code }).get v).id = -2 then staticName
        else s1.idText.get ((s1.vars.set v { s1.vars.get v with offset := s1.code }).get v).id.toNat).length + 7 ≤ idBufferMax) = true
      have := h.id
      rw [hid, if_neg (by omega), show s1.idPos = s.idPos from hf S.idPos fun _ => rfl, show s1.idText = s.idText from hf S.idText fun _ => rfl]
      exact decide_eq_true h.buf
    · show s1.map ++ (cvtHex a ++ asc " " ++ (if ((s1.vars.set v { s1.vars.get v with offset := s1.code }).get v).id = -2 then staticName
        else s1.idText.get ((s1.vars.set v { s1.vars.get v with offset := s1.code }).get v).id.toNat) ++ [0x0D, 0x0A]).toArray = _
      have := h.id
      rw [hid, if_neg (by omega), show s1.map = s.map from hf S.map fun _ => rfl, show s1.idText = s.idText from hf S.idText fun _ => rfl]
  obtain ⟨s3, hs3⟩ : ∃ s3 : S, s3 = { s2 with vars := s2.vars.set v { s2.vars.get v with offset := s2.code }, dead := false, out := om, code := a, lastFixup := a, map := mp } := ⟨_, rfl⟩
  rw [← hs3] at e3
  have hvs : ∀ j, j < 2 ^ 9 → j ≠ v → s3.vars.get j = s1.vars.get j := fun j hj hne => by
    rw [hs3]; exact Tab.get_set_ne _ _ hv9 hj (Ne.symm hne)
  have hvv3 : s3.vars.get v = { s.vars.get v with offset := s.code } := by
    rw [hs3]
    show (s1.vars.set v { s1.vars.get v with offset := s1.code }).get v = _
    rw [Tab.get_set_self, hvv, hcode]
  have hcode3 : s3.code = a := by rw [hs3]
  have hb : ∀ i, i < xs.length → s.scopes.get 0 + globalReserve + i < 2 ^ 9 := fun i hi => by
    have := h.room
    exact Nat.lt_of_lt_of_le (show s.scopes.get 0 + globalReserve + i < varDeclMax by omega) (by decide)
  have hlt := h.lt
  have hloc : Locals (parOff xs) xs s3 := by
    intro x hx
    obtain ⟨i, hi, rfl⟩ := List.getElem_of_mem hx
    have hv : s3.vars.get (s.scopes.get 0 + globalReserve + i) = s1.vars.get (s.scopes.get 0 + globalReserve + i) := hvs _ (hb i hi) (by omega)
    obtain ⟨d1, d2, _⟩ := p1.decl i hi hi
    refine ⟨(h.par.ids _ hx).1, (h.par.ids _ hx).2, _, ?_, by rw [hv]; exact d1, by rw [hv, d2, parOff, h.par.nodup.idxOf_getElem i hi]⟩
    rw [hs3]; exact p1.look i hi hi
  have hfun : Funs G.A (G.F.filter (· ∉ xs)) s3 := by
    intro f hf
    obtain ⟨hf1, hf2⟩ := List.mem_filter.1 hf
    obtain ⟨k1, k2, w, k3, k4, k5, k6, k7⟩ := hkn f hf1
    have := h.room
    have hwm : w < varDeclMax := by omega
    refine ⟨k1, k2, w, ?_, hwm, ?_, ?_, k7⟩
    · rw [hs3]
      exact (p1.keep f (Nat.lt_of_lt_of_le k2 (by decide)) (by rw [List.take_length]; exact of_decide_eq_true hf2)).trans k3
    · by_cases hwv : w = v
      · subst hwv; rw [hvv3]; exact k5
      · rw [hvs w (Nat.lt_of_lt_of_le hwm (by decide)) hwv, v1 w k4]; exact k5
    · by_cases hwv : w = v
      · subst hwv; rw [if_pos rfl] at k6; rw [hvv3]; exact k6
      · rw [if_neg hwv] at k6
        rw [hvs w (Nat.lt_of_lt_of_le hwm (by decide)) hwv, v1 w k4]; exact k6
  have hge := hfx.ge
  have hzf3 : s3.lastZF ≤ a := by rw [hs3]; show s1.lastZF ≤ a; rw [hf S.lastZF fun _ => rfl]; exact hfx.zf
  have hlc3 : s3.labelCount = 0 := by rw [hs3]; exact (hf S.labelCount fun _ => rfl).trans h.lab
  obtain ⟨its0, hh3, hend⟩ := hist_start (s := s3) hcode3 hge (by omega) hlc3 hzf3
  have r3 : Rdy (parOff xs) G xs s0 codeStart its0 (ts ++ u :: rest) s3 := by
    refine ⟨?_, ?_, hloc, ?_, ?_, ?_, ?_, ?_, ?_, hh3, hfun⟩
    · exact hon.of_tks (by rw [hs3]; exact hf tks fun _ => rfl)
    · rw [← h0, hs3]; exact hf SccGen.ids fun _ => rfl
    · rw [hs3]; exact (hf S.spAdj fun _ => rfl).trans h.sp
    · rw [hs3]; exact (hf S.push fun _ => rfl).trans h.push
    · rw [hs3]; exact (hf S.regUse fun _ => rfl).trans h.reg
    · rw [hs3]; exact (hf S.switchCase fun _ => rfl).symm ▸ h.sw
    · rw [hs3]; show 1 ≤ s1.scopeCount; rw [p1.sc]; decide
    · rw [hs3]; show (-1 : Int) ≤ -1 ∧ (-1 : Int) < (s1.labelCount : Int); omega
  have hd3 : s3.dead = false := by rw [hs3]
  obtain ⟨s4, e4, r4, m4, d4⟩ := r3.out hd3 (bs := [0x55]) ⟨_, _, rfl, by decide, nofun⟩ (by show s3.code + 1 ≤ _; omega) 0
  have k4 : s4.code ≤ s3.code + 1 := m4.code
  obtain ⟨s5, e5, r5, m5, d5⟩ := r4.out d4 (bs := [0x89, 0xE5]) ⟨_, _, rfl, by decide, nofun⟩ (by show s4.code + 2 ≤ _; omega) 0
  have k5 : s5.code ≤ s4.code + 2 := m5.code
  have M5 := m4.t m5
  have l5 : s5.labelCount = 0 := M5.lc.trans hlc3
  have lo3 : s3.localOffset = 0 := by rw [hs3]
  have bl3 : s3.breakLabel = -1 := by rw [hs3]
  have cl3 : s3.contLabel = -1 := by rw [hs3]
  have rl3 : s3.returnLabel = -1 := by rw [hs3]
  have sc3 : s3.scopeCount = 2 := by rw [hs3]; exact p1.sc
  obtain ⟨s6, ys, ⟨N, g6⟩, r6⟩ := parsed hsh s5 u rest _ r5 hok nofun (fun _ => hu) (fun e => by rw [d5] at e; cases e) (by rw [M5.scc, sc3]; omega) nofun (by omega) (by omega)
  have M6 := M5.t (r6.mv.base (l1 := 0) (by omega))
  have k6 := r6.mv.code
  have rl6 : s6.returnLabel = -1 := (M6.fl lo3).trans rl3
  have dd6 : s6.dead = dies t := by rw [r6.dead, d5]; rfl
  have hc6 := r6.code 0 (.inl rl6)
  rw [M5.lo, lo3, M5.bl, bl3, M5.cl, cl3, l5] at hc6
  obtain ⟨s8, e8, r8, M8⟩ : ∃ s8, output [0x5D, 0xC3] s6 = .ok () s8 ∧ Rdy (parOff xs) G xs s0 codeStart ((funItems t ys).reverse ++ its0) (u :: rest) s8 ∧ Mv 0 (sz t + 5) (nl t) s3 (funItems t ys) s8 := by
    cases hdt : dies t with
    | true =>
      refine ⟨s6, output_dead (by rw [dd6, hdt]) _, ?_, ?_⟩
      · have := r6.rdy
        unfold funItems
        rw [hdt]
        simpa using this
      · unfold funItems
        rw [hdt]
        have := M6.le (n' := sz t + 5) (k' := nl t) (by show 1 + 2 + sz t ≤ _; omega) (by omega)
        simpa using this
    | false =>
      obtain ⟨s8, e8, r8, m8, d8⟩ := r6.rdy.out (by rw [dd6, hdt]) fin_starts (by show s6.code + 2 ≤ _; omega) 0
      refine ⟨s8, e8, ?_, ?_⟩
      · unfold funItems
        rw [hdt]
        simpa using r8
      · have := (M6.t m8).le (n' := sz t + 5) (k' := nl t) (by show 1 + 2 + sz t + 2 ≤ _; omega) (by omega)
        unfold funItems
        rw [hdt]
        simpa using this
  obtain ⟨cs, hcs, hits, hlow⟩ := hend _ _ r8.hist
  have hz : ∀ {β : Type} (g : S → β), (∀ s, g (fz s) = g s) → g s8 = g s3 := fun g hg => by rw [← hg s8, M8.fz, hg]
  have hv8 : s8.vars = s3.vars := hz S.vars fun _ => rfl
  have g0 : s8.scopes.get 0 = s.scopes.get 0 := by rw [M8.scs 0 (by rw [sc3]; decide), hs3]; exact z1
  have g1 : s8.scopes.get 1 = s.scopes.get 0 + globalReserve + xs.length := by rw [M8.scs 1 (by rw [sc3]; decide), hs3]; exact p1.top
  have hvr : ∀ j, s.scopes.get 0 ≤ j → j < s.scopes.get 0 + globalReserve + xs.length → s8.vars.get j = s1.vars.get j := fun j h1 h2 => by
    have := h.room
    rw [hv8, hvs j (Nat.lt_of_lt_of_le (show j < varDeclMax by omega) (by decide)) (by omega)]
  obtain ⟨lk, lg, e9, hlk⟩ := close_ok (L := s.lookup) (xs := xs) (s := { s8 with labelCount := 0, namedCount := 0 }) (fun x hx => (h.par.ids x hx).2) (M8.scc.trans sc3) (g1.trans (by rw [← g0]))
    (fun j h1 h2 => by
      have h1 : s8.scopes.get 0 ≤ j := h1
      have h2 : j < s8.scopes.get 0 + globalReserve := h2
      rw [g0] at h1 h2
      show (s8.vars.get j).id < 0
      rw [hvr j h1 (by omega), w1 j h1 h2]; decide)
    (fun j hj => by
      show (s8.vars.get (s8.scopes.get 0 + globalReserve + j)).id = _ ∧ (s8.vars.get (s8.scopes.get 0 + globalReserve + j)).prev = _ ∧ (s8.vars.get (s8.scopes.get 0 + globalReserve + j)).ref = _
      rw [g0, hvr _ (by omega) (by omega)]
      exact ⟨(p1.prev j hj hj).1, (p1.prev j hj hj).2, (p1.decl j hj hj).2.2⟩)
    (fun y hy hny => by
      show s8.lookup.get y = _
      rw [hz S.lookup fun _ => rfl, hs3]
      exact p1.keep y hy (by rw [List.take_length]; exact hny))
  refine ⟨_, ⟨N, fun n hn => run_bind e1 (run_getS (run_failIf ?_ (run_modS (run_bind e3 (run_bind e4 (run_bind e5 (run_bind (g6 n hn) (run_getS
    (run_neg ?_ (run_bind e8 (run_modS e9)))))))))))⟩, ⟨⟨s8, cs, ys, s6.labelCount, rfl, rfl, hcs, hits, hc6⟩, fun i hi => ?_, ?_, hcs.tile.le, ?_, rfl, g0, ?_, hlk, fun j hj => ?_, rfl, r8.sp, r8.push, r8.reg, r8.sw, r8.hist.zf, ?_, ?_⟩,
    r8.on.of_tks rfl⟩
  · rw [hf S.labelCount fun _ => rfl, h.lab]; rfl
  · rw [rl6]; decide
  · have := hlow i hi
    rw [hs3] at this
    exact this
  · have := M8.code
    show s8.code ≤ _
    omega
  · exact r8.ids.trans h0.symm
  · show s8.ignoreRedef - 1 = _
    rw [hz S.ignoreRedef fun _ => rfl, hs3]
    show s1.ignoreRedef - 1 = _
    rw [p1.redef, Nat.add_sub_cancel]
  · show s8.vars.get j = _
    have := h.room
    rw [hv8]
    by_cases hjv : j = v
    · subst hjv; rw [if_pos rfl, hvv3]
    · rw [if_neg hjv, hvs j (Nat.lt_of_lt_of_le (show j < varDeclMax by omega) (by decide)) hjv, v1 j hj]
  · show s8.bss = _
    rw [hz S.bss fun _ => rfl, hs3]
    exact hf S.bss fun _ => rfl
  · show s8.map = _
    rw [hz S.map fun _ => rfl, hs3]
    exact hmp

end SccStm
