import Verif.Props.SccGenEmit
import Verif.Props.SccIds
import Verif.Scc.Parse
/-!
# Compiled expressions (C43): the parser emits the code that `gen` describes
-/
namespace SccGen
open Prog Scc SccCode Props.SccLex

/-! ## Tokens -/

/-- The state at a token. -/
def showT (t : Tk) (s : S) : S :=
  match t with
  | .num v => { s with tok := tokNum, num := v, prec := precStop }
  | .id x => { s with tok := x + tokKeyword, prec := precStop }
  | .sym t p => { s with tok := t, prec := p }

/-- What the compiler knows about identifiers. -/
def ids (s : S) : Tab (Option Nat) 10 × Tab (List Byte) 10 × Nat × Nat := (s.idHash, s.idText, s.idCount, s.idPos)

theorem ids_core {s s0 : S} (h : core s = core s0) : ids s = ids s0 := show ids (core s) = ids (core s0) by rw [h]

/-- A state and what holds of the text which is left at the end. -/
structure Base where
  s : S
  fin : List Byte → Prop

instance : Coe Base S := ⟨Base.s⟩

/-- A state, with nothing said of the text left. -/
def bas (s : S) : Base := ⟨s, fun _ => True⟩

/-- `GetToken` reads the tokens from the text. -/
inductive Scan (s0 : Base) : List Byte → List Tk → Prop
  | nil (r : List Byte) (h : s0.fin (r.headD 0 :: r.tail)) : Scan s0 r []
  | cons {t : Tk} {ts : List Tk} (r r' : List Byte) (h : ∀ s, ids s = ids s0.s → getToken (at' s r) = .ok () (showT t (at' s r')))
      (hs : Scan s0 r' ts) : Scan s0 r (t :: ts)

structure Cur (s : S) (t : Tk) : Prop where
  tok : s.tok = t.tok
  prec : s.prec = t.prec
  num : ∀ v, t = .num v → s.num = v

/-- The current token and those which follow. -/
def On (s0 : Base) (s : S) : List Tk → Prop
  | [] => True
  | t :: ts => Cur s t ∧ Scan s0 (s.cur :: s.inp) ts

theorem On.of_tks {s0 : Base} {s s' : S} {ts : List Tk} (h : On s0 s ts) (ht : tks s' = tks s) : On s0 s' ts := by
  cases ts with
  | nil => trivial
  | cons t ts =>
    unfold tks at ht
    simp only [Prod.mk.injEq] at ht
    obtain ⟨h1, h2, h3, h4, h5⟩ := ht
    exact ⟨⟨h1.trans h.1.tok, h2.trans h.1.prec, fun v hv => h3.trans (h.1.num v hv)⟩, by rw [h4, h5]; exact h.2⟩

/-- Only the token has changed. -/
def Tok (s s' : S) : Prop := s' = { s with cur := s'.cur, inp := s'.inp, tok := s'.tok, num := s'.num, prec := s'.prec }

theorem Tok.core {s s' : S} (h : Tok s s') : core s' = core s := by rw [h]; rfl

theorem On.next' {s0 : Base} {s : S} {t u : Tk} {ts : List Tk} (h : On s0 s (t :: u :: ts)) (hc : ids s = ids s0.s) :
    ∃ s', getToken s = .ok () s' ∧ On s0 s' (u :: ts) ∧ Tok s s' := by
  obtain ⟨_, hs⟩ := h
  cases hs with
  | cons _ r' h hs =>
    have e := h s hc
    rw [show at' s (s.cur :: s.inp) = s from rfl] at e
    refine ⟨_, e, ?_⟩
    have hsc : ∀ z : List Byte, Scan s0 r' ts → Scan s0 (r'.headD 0 :: r'.tail) ts := by
      intro _ hs
      cases r' with
      | cons b r' => exact hs
      | nil =>
        cases hs with
        | nil _ h => exact .nil _ h
        | cons _ r2 h2 hs2 => exact .cons _ r2 h2 hs2
    cases u with
    | num v => exact ⟨⟨⟨rfl, rfl, fun w hw => by cases hw; rfl⟩, hsc [] hs⟩, rfl⟩
    | id x => exact ⟨⟨⟨rfl, rfl, nofun⟩, hsc [] hs⟩, rfl⟩
    | sym t p => exact ⟨⟨⟨rfl, rfl, nofun⟩, hsc [] hs⟩, rfl⟩

theorem On.next {s0 : Base} {s : S} {t u : Tk} {ts : List Tk} (h : On s0 s (t :: u :: ts)) (hc : core s = core s0) :
    ∃ s', getToken s = .ok () s' ∧ On s0 s' (u :: ts) ∧ Tok s s' := h.next' (ids_core hc)

variable {off : Nat → Int}

theorem KdOk.congr {p : Bool} {s s' : S} {k : Kd} (h : KdOk off p s k) (ht : Tok s s') : KdOk off p s' k := by
  rw [ht]
  cases k with
  | lit v => exact h
  | var x => exact h
  | reg sk => exact h
  | flag cc => exact h

theorem Em.tok_r {s s1 s2 : S} {bs : List Byte} (h : Em s bs s1) (ht : Tok s1 s2) : Em s bs s2 := by
  rw [ht]
  exact ⟨h.fr, h.ge, h.code, h.new, h.old⟩

theorem Done.tok_r {s s1 s2 : S} {g : G} (h : Done off s g s1) (ht : Tok s1 s2) : Done off s g s2 := by
  refine ⟨h.em.tok_r ht, ?_, ?_, ?_, h.kd.congr ht⟩
  · rw [ht]; exact h.reg
  · rw [ht]; exact h.bal
  · rw [ht]; exact h.zf

theorem Done.tok_l {s s1 s2 : S} {g : G} (h : Done off s1 g s2) (ht : Tok s s1) : Done off s g s2 := by
  have h1 : s1.code = s.code := by rw [ht]
  have h2 : s1.out = s.out := by rw [ht]
  have h3 : s1.push = s.push := by rw [ht]
  have h4 : SccGen.bal s1 = SccGen.bal s := by rw [ht]; rfl
  obtain ⟨⟨a, b, c, d, e⟩, f, g, i, k⟩ := h
  rw [h1] at b c d e
  rw [h2] at e
  rw [h3] at k
  exact ⟨⟨a.trans ht.core, b, c, d, e⟩, f, g.trans h4, i, k⟩

/-! ## Tasks -/

/-- A task ends in a state, given enough depth. -/
def Go (t : Task) (s s' : S) : Prop := ∃ N, ∀ n, N ≤ n → go' (run n) t s = .ok () s'

theorem Go.of {t : Task} {s s' : S} (N : Nat) (h : ∀ n, N ≤ n → step (run n) t s = .ok 0 s') : Go t s s' := by
  refine ⟨N + 1, fun n hn => ?_⟩
  obtain ⟨m, rfl⟩ : ∃ m, n = m + 1 := ⟨n - 1, by omega⟩
  exact run_bind (h m (by omega)) rfl

/-- An operator and its right operand. -/
def Round (s s' : S) : Prop := ∃ N, ∀ n, N ≤ n → (getToken >>= fun _ => parseBinary (run n) s.tok s.prec) s = .ok () s'

/-- Operators which bind at least as tight as the level `q`. -/
inductive Rounds (q : Nat) : Nat → S → S → Prop
  | refl (s : S) : Rounds q 0 s s
  | step {n : Nat} {s s1 s2 : S} (h : Round s s1) (h3 : 3 ≤ s.prec) (hq : s.prec ≤ q) (ht : s.tok ≠ 0x3F) (hr : Rounds q n s1 s2) : Rounds q (n + 1) s s2

theorem Rounds.snoc {q n : Nat} {s s1 s2 : S} (hr : Rounds q n s s1) (h : Round s1 s2) (h3 : 3 ≤ s1.prec) (hq : s1.prec ≤ q) (ht : s1.tok ≠ 0x3F) :
    Rounds q (n + 1) s s2 := by
  induction hr with
  | refl s => exact .step h h3 hq ht (.refl _)
  | step g3 gq gt gr _ ih => exact .step g3 gq gt gr (ih h h3 hq ht)

theorem Rounds.mono {q q' n : Nat} {s s1 : S} (hr : Rounds q n s s1) (hq : q ≤ q') : Rounds q' n s s1 := by
  induction hr with
  | refl s => exact .refl _
  | step h h3 hq' ht _ ih => exact .step h h3 (Nat.le_trans hq' hq) ht ih

theorem Rounds.zero {n : Nat} {s s1 : S} (hr : Rounds 0 n s s1) : s = s1 := by
  cases hr with
  | refl => rfl
  | step h h3 hq => omega

/-- `if (OperatorPrecedence <= q) ParseExpr1(q)`. -/
def Tail (q : Nat) (s s' : S) : Prop := ∃ N, ∀ n, N ≤ n → (if s.prec ≤ q then go' (run n) (.expr1 q) else pure ()) s = .ok () s'

theorem Rounds.tail {q q' n : Nat} {s s' : S} (hr : Rounds q n s s') (hq : q ≤ q') (he : q' < s'.prec) : Tail q' s s' := by
  induction hr with
  | refl s => exact ⟨0, fun n _ => run_neg (by omega) rfl⟩
  | @step n s s1 s2 h h3 hq' ht hr ih =>
    obtain ⟨N1, h1⟩ := h
    obtain ⟨N2, h2⟩ := ih he
    have hg : Go (.expr1 q') s s2 := by
      refine Go.of (N1 + N2) fun n hn => ?_
      refine run_bind (a := ()) (s1 := s2) ?_ rfl
      have e1 := h1 n (by omega)
      rw [bind_run] at e1
      refine run_getS ?_
      cases e : getToken s with
      | err x => rw [e] at e1; cases e1
      | ok a sa =>
        rw [e] at e1
        exact run_bind e (run_neg ht (run_bind e1 (run_getS (h2 n (by omega)))))
    obtain ⟨N, hg⟩ := hg
    exact ⟨N, fun n hn => run_pos (by omega) (hg n hn)⟩

theorem Rounds.split {q n : Nat} {s s' : S} (hr : Rounds q n s s') (k : Nat) (hk : k < s'.prec) :
    ∃ a b sm, a + b = n ∧ Rounds k a s sm ∧ k < sm.prec ∧ Rounds q b sm s' ∧ (s.prec ≤ k → 0 < n → 0 < a) := by
  induction hr with
  | refl s => exact ⟨0, 0, s, rfl, .refl _, hk, .refl _, fun _ h => h⟩
  | @step n s s1 s2 h h3 hq ht hr ih =>
    by_cases hle : s.prec ≤ k
    · obtain ⟨a, b, sm, e, r1, h1, r2, _⟩ := ih hk
      exact ⟨a + 1, b, sm, by omega, .step h h3 hle ht r1, h1, r2, fun _ _ => by omega⟩
    · exact ⟨0, n + 1, s, by omega, .refl _, by omega, .step h h3 hq ht hr, fun hh => absurd hh hle⟩

/-- The loop for the right operand. -/
theorem Rounds.rhs (p : Nat) (hp : p ≠ precAssign) (hp0 : 0 < p) : ∀ (n : Nat) {s s' : S}, Rounds (p - 1) n s s' → p ≤ s'.prec → Go (.rhs p) s s' := by
  intro n
  induction n using Nat.strongRecOn with
  | _ n ih =>
    intro s s' hr he
    cases hr with
    | refl =>
      refine Go.of 0 fun n _ => run_bind (a := ()) (s1 := s) (run_getS (run_pos ?_ rfl)) rfl
      by_cases h : p < s.prec
      · exact .inl h
      · exact .inr ⟨by omega, by omega⟩
    | @step m _ s1 _ h h3 hq ht hr =>
      have hr0 : Rounds (p - 1) (m + 1) s s' := .step h h3 hq ht hr
      obtain ⟨a, b, sm, e, r1, h1, r2, hpos⟩ := hr0.split s.prec (by omega)
      obtain ⟨N1, t1⟩ := r1.tail (Nat.le_refl _) h1
      obtain ⟨N2, t2⟩ := ih b (by have := hpos (Nat.le_refl _) (by omega); omega) r2 he
      refine Go.of (N1 + N2) fun n hn => run_bind (a := ()) (s1 := s') (run_getS (run_neg ?_ ?_)) rfl
      · omega
      · have e1 := t1 n (by omega)
        rw [if_pos (Nat.le_refl _)] at e1
        exact run_bind e1 (t2 n (by omega))

/-! ## Names and first tokens -/

/-- The identifiers are `int` local variables. -/
def Locals (off : Nat → Int) (xs : List Nat) (s : S) : Prop :=
  ∀ x ∈ xs, 37 ≤ x ∧ x < idMax ∧ ∃ v, s.lookup.get x = some v ∧ (s.vars.get v).type = vtInt ||| vtLocOff ∧ (s.vars.get v).offset = off x

theorem Locals.of_core {xs : List Nat} {s s' : S} (h : Locals off xs s) (hc : core s' = core s) : Locals off xs s' := by
  intro x hx
  obtain ⟨a, b, v, c, d, e⟩ := h x hx
  have h1 : s'.lookup = s.lookup := show (core s').lookup = (core s).lookup by rw [hc]
  have h2 : s'.vars = s.vars := show (core s').vars = (core s).vars by rw [hc]
  exact ⟨a, b, v, by rw [h1]; exact c, by rw [h2]; exact d, by rw [h2]; exact e⟩

/-- A token that may begin an expression. -/
def Start (xs : List Nat) (t : Tk) : Prop := (∃ v, t = .num v) ∨ (∃ x ∈ xs, t = .id x) ∨ t = .sym 0x28 precStop ∨ ∃ o : UOp, t = .sym o.tok o.prec

theorem Shows.start {q : Nat} {e : E} {ts : List Tk} (h : Shows q e ts) {xs : List Nat} (hx : ∀ x ∈ Vars e, x ∈ xs) :
    ∃ t us, ts = t :: us ∧ Start xs t := by
  induction h with
  | lit q v => exact ⟨_, _, rfl, .inl ⟨v, rfl⟩⟩
  | var q x => exact ⟨_, _, rfl, .inr (.inl ⟨x, hx x (by simp [Vars]), rfl⟩)⟩
  | par q h _ => exact ⟨_, _, rfl, .inr (.inr (.inl rfl))⟩
  | un q o h _ => exact ⟨_, _, rfl, .inr (.inr (.inr ⟨o, rfl⟩))⟩
  | bin q o hq ha hb iha _ =>
    obtain ⟨t, us, rfl, hs⟩ := iha fun x h => hx x (by simp [Vars, h])
    exact ⟨t, _, rfl, hs⟩

theorem no_type {xs : List Nat} {s : S} (h : Locals off xs s) {t : Tk} (hs : Start xs t) (hc : Cur s t) : isTypeStart s = false := by
  have ht := hc.tok
  have hn : ∀ k ∈ [tokAuto, tokConst, tokVoid, tokChar, tokInt, tokEnum, tokExtern, tokRegister, tokShort, tokSigned, tokStatic, tokStruct, tokTypedef,
      tokUnion, tokUnsigned, tokVolatile, tokVaList], tokKeyword ≤ k ∧ k < tokId := by decide
  have low : s.tok < tokKeyword → isTypeStart s = false := by
    intro hlt
    unfold isTypeStart lookupTypedef
    rw [if_pos (show s.tok < tokId from Nat.lt_trans hlt (by decide)), Bool.or_eq_false_iff]
    refine ⟨?_, rfl⟩
    rw [Bool.eq_false_iff]
    intro hcn
    have := hn _ (List.contains_iff_mem.1 hcn)
    omega
  obtain ⟨v, rfl⟩ | ⟨x, hx, rfl⟩ | rfl | ⟨o, rfl⟩ := hs
  · exact low (by rw [ht]; show tokNum < tokKeyword; decide)
  · obtain ⟨a, b, v, c, d, _⟩ := h x hx
    have hge : tokId ≤ s.tok := by rw [ht]; show 187 ≤ x + 150; omega
    have hsub : s.tok - tokKeyword = x := by rw [ht]; show x + 150 - 150 = x; omega
    unfold isTypeStart lookupTypedef
    rw [if_neg (Nat.not_lt.2 hge), hsub, c]
    simp only [d]
    rw [show ((vtInt ||| vtLocOff) &&& vtTypedef != 0) = false by decide]
    rw [Bool.or_eq_false_iff]
    refine ⟨?_, rfl⟩
    rw [Bool.eq_false_iff]
    intro hcn
    have := hn _ (List.contains_iff_mem.1 hcn)
    omega
  · exact low (by rw [ht]; decide)
  · exact low (by rw [ht]; cases o <;> decide)

/-- No operator that follows its operand. -/
def NoPost (t : Tk) : Prop :=
  t.prec ≠ precStop ∨ t.tok ≠ 0x28 ∧ t.tok ≠ 0x5B ∧ t.tok ≠ 0x2E ∧ t.tok ≠ tokArrow ∧ ¬(t.tok = tokPlusPlus ∨ t.tok = tokMinusMinus)

theorem postfix_nop {s : S} {t : Tk} (hc : Cur s t) (hn : NoPost t) : Go .postfix s s := by
  refine Go.of 0 fun n _ => run_bind (a := ()) (s1 := s) (run_getS ?_) rfl
  rw [NoPost, ← hc.tok, ← hc.prec] at hn
  by_cases hp : s.prec ≠ precStop
  · exact run_pos hp rfl
  · obtain h | ⟨h1, h2, h3, h4, h5⟩ := hn
    · exact absurd h hp
    · exact run_neg hp (run_neg h1 (run_neg h2 (run_neg h3 (run_neg h4 (run_neg h5 rfl)))))

theorem op_nopost (o : BOp) : NoPost (.sym o.tok o.prec) := .inl (by cases o <;> decide)

theorem close_nopost : NoPost (.sym 0x29 precStop) := .inr (by decide)

/-! ## Pieces of the parser -/

theorem cast_primary {s s2 : S} (ht : s.tok ≠ 0x28) (hu : ¬(s.tok = 0x2D ∨ s.tok = 0x21 ∨ s.tok = 0x2A ∨ s.tok = 0x26 ∨ s.tok = 0x7E ∨ s.tok = 0x2B))
    (hi : ¬(s.tok = tokPlusPlus ∨ s.tok = tokMinusMinus)) (hs : s.tok ≠ tokSizeof) (hp : Go .primary s s2) (hq : Go .postfix s2 s2) : Go .cast s s2 := by
  obtain ⟨N1, h1⟩ := hp
  obtain ⟨N2, h2⟩ := hq
  have hg : Go .unary s s2 := Go.of (N1 + N2) fun n hn =>
    run_bind (a := ()) (s1 := s2) (run_getS (run_neg hu (run_neg hi (run_neg hs (run_bind (h1 n (by omega)) (h2 n (by omega))))))) rfl
  obtain ⟨N, hg⟩ := hg
  exact Go.of N fun n hn => run_bind (a := ()) (s1 := s2) (run_getS (run_neg ht (hg n hn))) rfl

theorem round_mk {s2 s3 s4 s5 s6 s7 : S} {o : BOp} (ht : s2.tok = o.tok) (hp : s2.prec = o.prec) (e3 : getToken s2 = .ok () s3)
    (e4 : lhsStep o.tok o.prec s3 = .ok (o.tok, -1) s4) (h5 : Go .cast s4 s5) (h6 : Go (.rhs o.prec) s5 s6)
    (e7 : finishExpr1 o.tok o.prec (-1) s4.type s4.extra s4.val s6 = .ok () s7) : Round s2 s7 := by
  obtain ⟨N1, h1⟩ := h5
  obtain ⟨N2, h2⟩ := h6
  refine ⟨N1 + N2, fun n hn => ?_⟩
  rw [ht, hp]
  exact run_bind e3 (run_bind e4 (run_getS (run_bind (h1 n (by omega)) (run_bind (h2 n (by omega)) e7))))

theorem len_toReg (p : Bool) (g : G) : g.bs.length ≤ (toReg off p g).bs.length := by
  unfold toReg
  cases g.kd <;> simp only [List.length_append] <;> omega

theorem len_toVal (p : Bool) (g : G) : g.bs.length ≤ (toVal off p g).bs.length := by
  refine Nat.le_trans (len_toReg (off := off) p g) ?_
  unfold toVal
  split
  · simp
  · exact Nat.le_refl _

theorem len_un (o : UOp) (g : G) : g.bs.length ≤ (genUn o g).bs.length := by
  unfold genUn
  split <;> simp

theorem len_rhs (o : BOp) (as : List Byte) (r : Bool) (g : G) : as.length ≤ (genRhs off o as r g).bs.length := by
  unfold genRhs
  split <;> simp only [List.length_append] <;> omega

theorem binKd_var (o : BOp) (x : Nat) : binKd o ≠ .var x := by
  unfold binKd; split <;> simp

theorem gen_var {e : E} {p r : Bool} {x : Nat} (h : (gen off e p r).kd = .var x) : gen off e p r = ⟨[], .var x, r⟩ := by
  cases e with
  | lit v => cases h
  | var y => cases h; rfl
  | un o a =>
    exfalso
    cases hc : cst a with
    | some y => rw [gen, hc] at h; cases h
    | none =>
      rw [gen, hc] at h
      simp only at h
      have hn := toReg_notvar (off := off) p (gen off a p r)
      generalize toReg off p (gen off a p r) = g at *
      obtain ⟨bs, kd, gr⟩ := g
      cases o <;> cases kd <;> simp only [genUn] at h <;> first | exact hn _ h | cases h
  | bin o a b =>
    exfalso
    cases hc : cst a with
    | some y =>
      cases hd : cst b with
      | some z => rw [gen, hc, hd] at h; cases h
      | none =>
        rw [gen, hc, hd] at h
        simp only [genLitL] at h
        split at h <;> exact binKd_var _ _ h
    | none =>
      rw [gen, hc] at h
      simp only [genRhs] at h
      split at h <;> exact binKd_var _ _ h

theorem Tok.push {s s' : S} (h : Tok s s') : s'.push = s.push := by rw [h]
theorem Tok.regUse {s s' : S} (h : Tok s s') : s'.regUse = s.regUse := by rw [h]
theorem Tok.code {s s' : S} (h : Tok s s') : s'.code = s.code := by rw [h]
theorem Tok.lastZF {s s' : S} (h : Tok s s') : s'.lastZF = s.lastZF := by rw [h]
theorem Tok.room {s s' : S} (h : Tok s s') {n : Nat} (hr : Room s n) : Room s' n := by
  unfold Room at *; rw [h.code]; exact hr

theorem op_facts (o : BOp) : 3 ≤ o.prec ∧ o.tok ≠ 0x3F ∧ o.prec ≠ precAssign := by cases o <;> decide

/-- What the parser does with an expression. -/
def Parses (off : Nat → Int) (s0 : Base) (xs : List Nat) (q : Nat) (e : E) (ts : List Tk) : Prop :=
  ∀ (s : S) (t : Tk) (rest : List Tk), On s0 s (ts ++ t :: rest) → core s = core s0 → q ≤ t.prec → NoPost t → Stat e → (∀ x ∈ Vars e, x ∈ xs) →
    s.lastZF ≤ s.code → Room s (gen off e s.push s.regUse).bs.length →
    ∃ n s1 s', Go .cast s s1 ∧ Rounds q n s1 s' ∧ On s0 s' (t :: rest) ∧ Done off s (gen off e s.push s.regUse) s'

theorem parses_lit (s0 : Base) (xs : List Nat) (q : Nat) (v : Int) : Parses off s0 xs q (.lit v) [.num v] := by
  intro s t rest hon hc hq hnp hs hx hz hr
  have htok : s.tok = tokNum := hon.1.tok
  have hnum := hon.1.num v rfl
  have hon' : On s0 { s with type := vtLocLit ||| vtInt, val := s.num } (.num v :: t :: rest) := hon.of_tks rfl
  obtain ⟨s2, e2, on2, tk2⟩ := hon'.next hc
  have hd : Done off s ⟨[], .lit v, s.regUse⟩ { s with type := vtLocLit ||| vtInt, val := s.num } :=
    ⟨.refl rfl hr.1 rfl rfl, rfl, rfl, hz, rfl, hnum, rfl⟩
  refine ⟨0, s2, s2, cast_primary (by rw [htok]; decide) (by rw [htok]; decide) (by rw [htok]; decide) (by rw [htok]; decide) ?_ (postfix_nop on2.1 hnp),
    .refl _, on2, hd.tok_r tk2⟩
  exact Go.of 0 fun n _ => run_bind (a := ()) (s1 := s2) (run_getS (run_neg (by rw [htok]; decide) (run_pos htok (run_modS e2)))) rfl

theorem prim_var {s0 : Base} {xs : List Nat} (hl : Locals off xs s0) {x : Nat} {s : S} {t : Tk} {rest : List Tk} (hon : On s0 s (.id x :: t :: rest)) (hc : core s = core s0.s)
    (hx : x ∈ xs) (hz : s.lastZF ≤ s.code) (hge : codeStart ≤ s.code) : ∃ s3, Go .primary s s3 ∧ On s0 s3 (t :: rest) ∧ Done off s ⟨[], .var x, s.regUse⟩ s3 := by
  have htok : s.tok = x + tokKeyword := hon.1.tok
  obtain ⟨hx1, hx2, v, hlk, hty, hof⟩ := hl.of_core hc x hx
  obtain ⟨s2, e2, on2, tk2⟩ := hon.next hc
  have hne : ∀ k, k < tokId → s.tok ≠ k := by
    intro k hk he
    rw [htok] at he
    have hk' : k < 187 := hk
    have : x + 150 = k := he
    omega
  have hlk2 : s2.lookup.get x = some v := by rw [tk2]; exact hlk
  have hty2 : (s2.vars.get v).type = vtInt ||| vtLocOff := by rw [tk2]; exact hty
  have hof2 : (s2.vars.get v).offset = off x := by rw [tk2]; exact hof
  let s3 : S := { s2 with log := .use x (s2.lookup.get x) :: s2.log, val := (s2.vars.get v).offset, type := (s2.vars.get v).type ||| vtLval, extra := (s2.vars.get v).extra }
  have hid : handlePrimaryId { s2 with val := (x : Int) } = .ok () s3 := by
    refine run_getS (run_ub (decide_eq_true ⟨Int.natCast_nonneg _, Int.ofNat_lt.2 hx2⟩) (run_modS ?_))
    simp only [Int.toNat_natCast, hlk2]
    have hm : ((s2.vars.get v).type ||| vtLval) &&& vtLocMask = vtLocOff := by rw [hty2]; decide
    rw [if_neg (by rw [hm]; decide), if_neg (by rw [hm]; decide)]
    show Res.ok () _ = Res.ok () s3
    simp only [s3, hlk2]
  have hd : Done off s ⟨[], .var x, s.regUse⟩ s3 := by
    refine ⟨.refl ?_ hge tk2.code ?_, tk2.regUse, ?_, ?_, ?_, hof2, tk2.push⟩
    · exact tk2.core
    · show s2.out = s.out
      rw [tk2]
    · show SccGen.bal s2 = SccGen.bal s
      rw [tk2]; rfl
    · show s2.lastZF ≤ s2.code
      rw [tk2.lastZF, tk2.code]; exact hz
    · show (s2.vars.get v).type ||| vtLval = _
      rw [hty2]; decide
  have on3 : On s0 s3 (t :: rest) := on2.of_tks rfl
  refine ⟨s3, ?_, on3, hd⟩
  refine Go.of 0 fun n _ => run_bind (a := ()) (s1 := s3) (run_getS (run_neg (hne _ (by decide)) (run_neg (hne _ (by decide)) (run_neg (hne _ (by decide)) (run_neg ?_ ?_))))) rfl
  · rintro (h | h | h) <;> exact hne _ (by decide) h
  · refine run_bind (a := x) (s1 := s2) ?_ (run_modS hid)
    refine run_getS (run_pos ?_ (run_bind e2 ?_))
    · rw [htok]; show 187 ≤ x + 150; omega
    · rw [htok, Nat.add_sub_cancel]; rfl

theorem parses_var (s0 : Base) (xs : List Nat) (hl : Locals off xs s0) (q x : Nat) : Parses off s0 xs q (.var x) [.id x] := by
  intro s t rest hon hc hq hnp hs hx hz hr
  have htok : s.tok = x + tokKeyword := hon.1.tok
  have hx' := hx x (by simp [Vars])
  obtain ⟨hx1, _⟩ := hl x hx'
  have hne : ∀ k, k < tokId → s.tok ≠ k := by
    intro k hk he
    rw [htok] at he
    have hk' : k < 187 := hk
    have : x + 150 = k := he
    omega
  obtain ⟨s3, g3, on3, hd⟩ := prim_var hl hon hc hx' hz hr.1
  refine ⟨0, s3, s3, cast_primary (hne _ (by decide)) ?_ ?_ (hne _ (by decide)) g3 (postfix_nop on3.1 hnp), .refl _, on3, hd⟩
  · rintro (h | h | h | h | h | h) <;> exact hne _ (by decide) h
  · rintro (h | h) <;> exact hne _ (by decide) h

theorem parses_par (s0 : Base) (xs : List Nat) (hl : Locals off xs s0) (q : Nat) {e : E} {ts : List Tk} (h : Shows 10 e ts) (ih : Parses off s0 xs 10 e ts) :
    Parses off s0 xs q e (.sym 0x28 precStop :: ts ++ [.sym 0x29 precStop]) := by
  intro s t rest hon hc hq hnp hs hx hz hr
  have htok : s.tok = 0x28 := by
    exact (hon : On s0 s (.sym 0x28 precStop :: (ts ++ [.sym 0x29 precStop] ++ t :: rest))).1.tok
  obtain ⟨t0, us, rfl, hst⟩ := h.start hx
  obtain ⟨s2, e2, on2, tk2⟩ := On.next (s := s) (ts := us ++ [.sym 0x29 precStop] ++ t :: rest) hon hc
  have hc2 := tk2.core.trans hc
  have hon2 : On s0 s2 (t0 :: us ++ Tk.sym 0x29 precStop :: t :: rest) := by
    have : us ++ [Tk.sym 0x29 precStop] ++ t :: rest = us ++ Tk.sym 0x29 precStop :: t :: rest := by simp
    rw [this] at on2
    exact on2
  obtain ⟨n, s3, s4, h3, h4, on4, hd⟩ := ih s2 _ _ hon2 hc2 (by decide) close_nopost hs hx (by rw [tk2.lastZF, tk2.code]; exact hz)
    (by rw [tk2.push, tk2.regUse]; exact tk2.room hr)
  rw [tk2.push, tk2.regUse] at hd
  have hc4 := hd.em.fr.trans hc2
  obtain ⟨s5, e5, on5, tk5⟩ := on4.next hc4
  obtain ⟨N1, g3⟩ := h3
  obtain ⟨N2, g4⟩ := h4.tail (q' := precComma) (by decide) (by rw [on4.1.prec]; decide)
  have hexpr : Go .expr s2 s4 := Go.of (N1 + N2) fun n hn =>
    run_bind (a := ()) (s1 := s4) (run_bind (g3 n (by omega)) (run_getS (g4 n (by omega)))) rfl
  obtain ⟨N3, g5⟩ := hexpr
  obtain ⟨N4, g6⟩ := postfix_nop on5.1 hnp
  refine ⟨0, s5, s5, ?_, .refl _, on5, (hd.tok_l tk2).tok_r tk5⟩
  refine Go.of (N3 + N4) fun n hn => run_bind (a := ()) (s1 := s5) (run_getS (run_pos htok (run_bind e2 (run_getS (run_neg ?_
    (run_bind (g5 n (by omega)) (run_bind (a := ()) (s1 := s5) (run_getS (run_pos on4.1.tok e5)) (g6 n (by omega))))))))) rfl
  rw [no_type (hl.of_core hc2) hst on2.1]; decide

theorem parses_un (s0 : Base) (xs : List Nat) (hu0 : Up s0) (q : Nat) (o : UOp) {e : E} {ts : List Tk} (h : Shows 0 e ts) (ih : Parses off s0 xs 0 e ts) :
    Parses off s0 xs q (.un o e) (.sym o.tok o.prec :: ts) := by
  intro s t rest hon hc hq hnp hs hx hz hr
  have htok : s.tok = o.tok := by exact (hon : On s0 s (.sym o.tok o.prec :: (ts ++ t :: rest))).1.tok
  have hu : Up s := hu0.of hc
  obtain ⟨t0, us, rfl, hst⟩ := h.start hx
  obtain ⟨s2, e2, on2, tk2⟩ := On.next (s := s) (ts := us ++ t :: rest) hon hc
  have hc2 := tk2.core.trans hc
  have hs' := hs
  obtain ⟨hs1, hs2, hs3⟩ := hs'
  have hroom : (gen off e s.push s.regUse).bs.length ≤ (gen off (.un o e) s.push s.regUse).bs.length := by
    cases hce : cst e with
    | some x => rw [(gen_cst off e s.push s.regUse x hs1 hce).1]; exact Nat.zero_le _
    | none =>
      simp only [gen, hce]
      exact Nat.le_trans (len_toReg (off := off) _ _) (len_un _ _)
  obtain ⟨n, s3, s4, h3, h4, on4, hd⟩ := ih s2 t rest on2 hc2 (Nat.zero_le _) hnp hs1 hx (by rw [tk2.lastZF, tk2.code]; exact hz)
    (by rw [tk2.push, tk2.regUse]; exact tk2.room (room_le hr hroom))
  obtain rfl := h4.zero
  rw [tk2.push, tk2.regUse] at hd
  have hd := hd.tok_l tk2
  have hop : o.tok ≠ 0x28 ∧ (o.tok = 0x2D ∨ o.tok = 0x21 ∨ o.tok = 0x2A ∨ o.tok = 0x26 ∨ o.tok = 0x7E ∨ o.tok = 0x2B) ∧ o.tok ≠ 0x26 := by
    cases o <;> decide
  obtain ⟨N1, g3⟩ := h3
  have key : ∀ {s5 : S}, (getS >>= fun s => (if s.type &&& vtLocMask = vtLocLit then failIf (s.type != vtInt ||| vtLocLit) >>= fun _ => doUnary o.tok true
      else lvalToRval >>= fun _ => doUnary o.tok false : A Unit)) s3 = .ok () s5 → Go .cast s s5 := by
    intro s5 e5
    have hg : Go .unary s s5 := by
      refine Go.of N1 fun n hn => run_bind (a := ()) (s1 := s5) (run_getS (run_pos (by rw [htok]; exact hop.2.1) ?_)) rfl
      refine run_getS (run_bind e2 (run_bind (g3 n (by omega)) (run_neg (by rw [htok]; exact hop.2.2) ?_)))
      rw [htok]
      exact e5
    obtain ⟨N, hg⟩ := hg
    exact Go.of N fun n hn => run_bind (a := ()) (s1 := s5) (run_getS (run_neg (by rw [htok]; exact hop.1) (hg n hn))) rfl
  cases hce : cst e with
  | some x =>
    obtain ⟨hg, hx16⟩ := gen_cst off e s.push s.regUse x hs1 hce
    rw [hg] at hd
    obtain ⟨s5, e5, hd5, ht5⟩ := hd.unConst (by unfold In16 at hx16; omega) o
    have ht : s3.type = vtLocLit ||| vtInt := hd.kd.1
    refine ⟨0, s5, s5, key (run_getS (run_pos (by rw [ht]; decide) (run_failIf (by rw [ht]; decide) e5))), .refl _, on4.of_tks ht5, ?_⟩
    simp only [gen, hce]
    exact hd5
  | none =>
    have hkd := gen_kd off e s.push s.regUse hs1
    have hg : gen off (.un o e) s.push s.regUse = genUn o (toReg off s.push (gen off e s.push s.regUse)) := by simp only [gen, hce]
    rw [hg] at hr ⊢
    obtain ⟨s5, e5, hd5, ht5⟩ := hd.toReg hu (room_le hr (len_un _ _))
    have htk := toReg_kd off s.push (gen off e s.push s.regUse)
    have hk : (∃ sk, (toReg off s.push (gen off e s.push s.regUse)).kd = .reg sk) ∨
        (∃ cc, (toReg off s.push (gen off e s.push s.regUse)).kd = .flag cc) ∧ o ≠ .neg ∧ o ≠ .bnot := by
      cases hkk : (toReg off s.push (gen off e s.push s.regUse)).kd with
      | lit y => exact absurd (htk.2.1 y hkk) (hkd.1 hce y)
      | var y => exact absurd hkk (htk.1 y)
      | reg sk => exact .inl ⟨sk, rfl⟩
      | flag cc =>
        have htest := hkd.2 cc (htk.2.2 cc hkk)
        refine .inr ⟨⟨cc, rfl⟩, fun ho => ?_, fun ho => ?_⟩
        · rw [hs2 (.inl ho) hce] at htest; cases htest
        · rw [hs2 (.inr ho) hce] at htest; cases htest
    obtain ⟨s6, e6, hd6, ht6⟩ := hd5.un hu o hk hr
    refine ⟨0, s6, s6, key (run_getS (run_neg ?_ (run_bind e5 e6))), .refl _, on4.of_tks (ht6.trans (congrArg Prod.fst ht5)), hd6⟩
    have := hd.kd
    cases hkk : (gen off e s.push s.regUse).kd with
    | lit y => exact absurd hkk (hkd.1 hce y)
    | var y => rw [hkk] at this; rw [this.1]; decide
    | reg sk => rw [hkk] at this; rw [this.1]; decide
    | flag cc => rw [hkk] at this; rw [this.1]; decide

theorem parses_bin (s0 : Base) (xs : List Nat) (hu0 : Up s0) (q : Nat) (o : BOp) {a b : E} {ts us : List Tk} (hqo : o.prec ≤ q) (hb : Shows (o.prec - 1) b us)
    (iha : Parses off s0 xs o.prec a ts) (ihb : Parses off s0 xs (o.prec - 1) b us) :
    Parses off s0 xs q (.bin o a b) (ts ++ .sym o.tok o.prec :: us) := by
  intro s t rest hon hc hq hnp hs hx hz hr
  have hu : Up s := hu0.of hc
  obtain ⟨p3, pq, pa⟩ := op_facts o
  have hs' := hs
  obtain ⟨hs1, hs2, hs3⟩ := hs'
  have hxa : ∀ x ∈ Vars a, x ∈ xs := fun x h => hx x (by simp [Vars, h])
  have hxb : ∀ x ∈ Vars b, x ∈ xs := fun x h => hx x (by simp [Vars, h])
  rw [List.append_assoc, List.cons_append] at hon
  have hlena : (gen off a s.push s.regUse).bs.length ≤ (gen off (.bin o a b) s.push s.regUse).bs.length := by
    cases hca : cst a with
    | some x => rw [(gen_cst off a s.push s.regUse x hs1 hca).1]; exact Nat.zero_le _
    | none =>
      simp only [gen, hca]
      exact Nat.le_trans (len_toVal (off := off) _ _) (len_rhs _ _ _ _)
  obtain ⟨n1, s1, s2, h1, r1, on2, hd2⟩ := iha s _ _ hon hc (Nat.le_refl _) (op_nopost o) hs1 hxa hz (room_le hr hlena)
  obtain ⟨t0, vs, rfl, hst⟩ := hb.start hxb
  have hc2 := hd2.em.fr.trans hc
  obtain ⟨s3, e3, on3, tk3⟩ := On.next (s := s2) (ts := vs ++ t :: rest) on2 hc2
  have hd3 := hd2.tok_r tk3
  have hc3 := hd3.em.fr.trans hc
  have htok2 : s2.tok = o.tok := on2.1.tok
  have hprec2 : s2.prec = o.prec := on2.1.prec
  have fin : ∀ {g : G} {s7 : S}, Round s2 s7 → Done off s g s7 → On s0 s7 (t :: rest) → g = gen off (.bin o a b) s.push s.regUse →
      ∃ n s1 s', Go .cast s s1 ∧ Rounds q n s1 s' ∧ On s0 s' (t :: rest) ∧ Done off s (gen off (.bin o a b) s.push s.regUse) s' := by
    rintro g s7 hrd hd hon7 rfl
    exact ⟨_, s1, s7, h1, (r1.snoc hrd (by omega) (by omega) (by rw [htok2]; exact pq)).mono hqo, hon7, hd⟩
  cases hca : cst a with
  | some x =>
    obtain ⟨hga, hx16⟩ := gen_cst off a s.push s.regUse x hs1 hca
    rw [hga] at hd3
    have hp3 : s3.push = s.push := hd3.kd.2.2
    have hr3 : s3.regUse = s.regUse := hd3.reg
    have ht3 : s3.type = vtLocLit ||| vtInt := hd3.kd.1
    have hv3 : s3.val = x := hd3.kd.2.1
    have hlenb : (gen off b s.push s.regUse).bs.length ≤ (gen off (.bin o a b) s.push s.regUse).bs.length := by
      cases hcb : cst b with
      | some y => rw [(gen_cst off b s.push s.regUse y hs2 hcb).1]; exact Nat.zero_le _
      | none =>
        simp only [gen, hca, hcb]
        refine Nat.le_trans (len_toVal (off := off) s.push _) ?_
        unfold genLitL; split <;> simp
    have hroom3 : Room s3 (gen off b s.push s.regUse).bs.length := hd3.em.room (room_le hr (by simpa using hlenb))
    obtain ⟨n4, s4, s5, h4, r4, on5, hd5⟩ := ihb s3 t rest on3 hc3 (by omega) hnp hs2 hxb hd3.zf (by rw [hp3, hr3]; exact hroom3)
    rw [hp3, hr3] at hd5
    have hrhs := Rounds.rhs o.prec pa (by omega) n4 r4 (by rw [on5.1.prec]; omega)
    have hd5' := hd3.afterLit hd5
    have e4 := hd3.lhsLit o
    cases hcb : cst b with
    | some y =>
      obtain ⟨hgb, hy16⟩ := gen_cst off b s.push s.regUse y hs2 hcb
      rw [hgb] at hd5'
      obtain ⟨v, hv⟩ := Option.isSome_iff_exists.1 (hs3 x y hca hcb)
      obtain ⟨e7, hd7⟩ := finish_const hd5' o s3.extra x v hx16 hy16 hv
      refine fin (round_mk htok2 hprec2 e3 e4 h4 hrhs (by rw [ht3, hv3]; exact e7)) hd7 (on5.of_tks rfl) ?_
      simp only [gen, hca, hcb, hv]
      rfl
    | none =>
      have hg : gen off (.bin o a b) s.push s.regUse = genLitL o x (toVal off s.push (gen off b s.push s.regUse)) := by simp only [gen, hca, hcb]
      rw [hg] at hr
      have hl := (gen_kd off b s.push s.regUse hs2).1 hcb
      obtain ⟨s7, e7, hd7, ht7⟩ := bin_litL (hd5'.uns false) hu rfl hl o s3.extra x hx16 hr
      have hn : s5.type ≠ vtLocLit ||| vtInt := by
        have := hd5'.kd
        cases hkk : (gen off b s.push s.regUse).kd with
        | lit y => exact absurd hkk (hl y)
        | var y => rw [hkk] at this; rw [this.1]; decide
        | reg sk => rw [hkk] at this; rw [this.1]; decide
        | flag cc => rw [hkk] at this; rw [this.1]; decide
      refine fin (round_mk htok2 hprec2 e3 e4 h4 hrhs ?_) hd7 (on5.of_tks ht7) hg.symm
      rw [ht3, hv3, finish_bin o _ (.inr rfl) _ _ hd5'.types (fun h => hn h.2)]
      exact e7
  | none =>
    have hla := (gen_kd off a s.push s.regUse hs1).1 hca
    have hg : gen off (.bin o a b) s.push s.regUse = genRhs off o (toVal off s.push (gen off a s.push s.regUse)).bs
        (toVal off s.push (gen off a s.push s.regUse)).r (gen off b true (toVal off s.push (gen off a s.push s.regUse)).r) := by simp only [gen, hca]
    rw [hg] at hr
    obtain ⟨s4, e4, hd4, ht4⟩ := hd3.lhs hu o hla (room_le hr (len_rhs _ _ _ _))
    obtain ⟨sk, hsk⟩ := toVal_reg (off := off) s.push (gen off a s.push s.regUse) hla
    generalize toVal off s.push (gen off a s.push s.regUse) = ga at *
    have hkd4 := hd4.kd
    rw [hsk] at hkd4
    have hL := hd4.left hsk
    have hc4 : core { s4 with push := true } = core s0 := hd4.em.fr.trans hc
    have on4 : On s0 { s4 with push := true } (t0 :: vs ++ t :: rest) := on3.of_tks ht4
    have hty4 : ({ s4 with push := true } : S).type = vtInt := hkd4.1
    have hrg4 : ({ s4 with push := true } : S).regUse = ga.r := hd4.reg
    have hzf4 : ({ s4 with push := true } : S).lastZF ≤ ({ s4 with push := true } : S).code := hd4.zf
    have hpu4 : ({ s4 with push := true } : S).push = true := rfl
    generalize ({ s4 with push := true } : S) = s4' at *
    have hroomb : Room s4' (gen off b true ga.r).bs.length := by
      refine hL.em.room (room_le hr ?_)
      cases hkk : (gen off b true ga.r).kd with
      | lit y =>
        cases hcb : cst b with
        | none => exact absurd hkk ((gen_kd off b true ga.r hs2).1 hcb y)
        | some z =>
          rw [(gen_cst off b true ga.r z hs2 hcb).1]
          exact len_rhs _ _ _ _
      | var y => rw [gen_var hkk]; exact len_rhs _ _ _ _
      | reg sk =>
        have := len_toVal (off := off) false (gen off b true ga.r)
        simp only [genRhs, hkk, List.length_append]; omega
      | flag cc =>
        have := len_toVal (off := off) false (gen off b true ga.r)
        simp only [genRhs, hkk, List.length_append]; omega
    obtain ⟨n5, s5, s6, h5, r5, on6, hd6⟩ := ihb s4' t rest on4 hc4 (by omega) hnp hs2 hxb hzf4 (by rw [hpu4, hrg4]; exact hroomb)
    rw [hpu4, hrg4] at hd6
    have hrhs := Rounds.rhs o.prec pa (by omega) n5 r5 (by rw [on6.1.prec]; omega)
    have wrap : ∀ {g : G} {s7 : S}, finishBin o.tok vtInt 0 s4'.extra s4'.val { s6 with isUnsigned := false } = .ok () s7 → Done off s g s7 → tks s7 = tks s6 →
        g = genRhs off o ga.bs ga.r (gen off b true ga.r) →
        ∃ n s1 s', Go .cast s s1 ∧ Rounds q n s1 s' ∧ On s0 s' (t :: rest) ∧ Done off s (gen off (.bin o a b) s.push s.regUse) s' := by
      intro g s7 e7 hd7 ht7 hgg
      refine fin (round_mk htok2 hprec2 e3 e4 h5 hrhs ?_) hd7 (on6.of_tks ht7) (hgg.trans hg.symm)
      rw [hty4, finish_bin o _ (.inl rfl) _ _ hd6.types (fun h => absurd h.1 (by decide))]
      exact e7
    cases hkk : (gen off b true ga.r).kd with
    | lit y =>
      cases hcb : cst b with
      | none => exact absurd hkk ((gen_kd off b true ga.r hs2).1 hcb y)
      | some z =>
        obtain ⟨hgb, hz16⟩ := gen_cst off b true ga.r z hs2 hcb
        rw [hgb] at hd6 hr
        obtain ⟨s7, e7, hd7, ht7⟩ := bin_litR (s2 := { s6 with isUnsigned := false }) hL hu (hd6.uns false) rfl hz16 o s4'.extra s4'.val hr
        exact wrap e7 hd7 ht7 (by rw [hgb]; rfl)
    | var y =>
      have hgb := gen_var hkk
      rw [hgb] at hd6 hr
      obtain ⟨s7, e7, hd7, ht7⟩ := bin_varR (s2 := { s6 with isUnsigned := false }) hL hu (hd6.uns false) rfl o s4'.extra s4'.val hr
      exact wrap e7 hd7 ht7 (by rw [hgb]; rfl)
    | reg sk =>
      have hgr : genRhs off o ga.bs ga.r (gen off b true ga.r) = ⟨ga.bs ++ (toVal off false (gen off b true ga.r)).bs ++ rhsReg o (toVal off false (gen off b true ga.r)).r, binKd o, false⟩ := by
        simp only [genRhs, hkk]
      rw [hgr] at hr
      obtain ⟨s7, e7, hd7, ht7⟩ := bin_regR (s2 := { s6 with isUnsigned := false }) hL hu (hd6.uns false) (.inl ⟨sk, hkk⟩) rfl o s4'.extra s4'.val hr
      exact wrap e7 hd7 ht7 hgr.symm
    | flag cc =>
      have hgr : genRhs off o ga.bs ga.r (gen off b true ga.r) = ⟨ga.bs ++ (toVal off false (gen off b true ga.r)).bs ++ rhsReg o (toVal off false (gen off b true ga.r)).r, binKd o, false⟩ := by
        simp only [genRhs, hkk]
      rw [hgr] at hr
      obtain ⟨s7, e7, hd7, ht7⟩ := bin_regR (s2 := { s6 with isUnsigned := false }) hL hu (hd6.uns false) (.inr ⟨cc, hkk⟩) rfl o s4'.extra s4'.val hr
      exact wrap e7 hd7 ht7 hgr.symm

/-- The parser emits the code that `gen` describes. -/
theorem parses (s0 : Base) (xs : List Nat) (hl : Locals off xs s0) (hu : Up s0) {q : Nat} {e : E} {ts : List Tk} (h : Shows q e ts) : Parses off s0 xs q e ts := by
  induction h with
  | lit q v => exact parses_lit s0 xs q v
  | var q x => exact parses_var s0 xs hl q x
  | par q h ih => exact parses_par s0 xs hl q h ih
  | un q o h ih => exact parses_un s0 xs hu q o h ih
  | bin q o hq ha hb iha ihb => exact parses_bin s0 xs hu q o hq hb iha ihb

/-- `ParseExpr` and `ParseAssignmentExpression`. -/
theorem parse_expr (s : S) (xs : List Nat) (hl : Locals off xs s) (hu : Up s) (hz : s.lastZF ≤ s.code) (k : Task) (p : Nat)
    (hk : k = .expr ∧ p = precComma ∨ k = .assign ∧ p = precAssign) {e : E} {ts : List Tk} (h : Shows 10 e ts) {t : Tk} {rest : List Tk}
    {F : List Byte → Prop} (hon : On ⟨s, F⟩ s (ts ++ t :: rest)) (ht : p < t.prec) (hn : NoPost t) (hs : Stat e) (hx : ∀ x ∈ Vars e, x ∈ xs)
    (hr : Room s (gen off e s.push s.regUse).bs.length) :
    ∃ s', Go k s s' ∧ On ⟨s, F⟩ s' (t :: rest) ∧ Done off s (gen off e s.push s.regUse) s' := by
  have hp : 10 ≤ p := by obtain ⟨_, rfl⟩ | ⟨_, rfl⟩ := hk <;> decide
  obtain ⟨n, s1, s2, h1, r1, on2, hd⟩ := parses ⟨s, F⟩ xs hl hu h s t rest hon rfl (by omega) hn hs hx hz hr
  obtain ⟨N1, g1⟩ := h1
  obtain ⟨N2, g2⟩ := r1.tail hp (by rw [on2.1.prec]; exact ht)
  refine ⟨s2, ?_, on2, hd⟩
  obtain ⟨rfl, rfl⟩ | ⟨rfl, rfl⟩ := hk
  · exact Go.of (N1 + N2) fun n hn => run_bind (a := ()) (s1 := s2) (run_bind (g1 n (by omega)) (run_getS (g2 n (by omega)))) rfl
  · exact Go.of (N1 + N2) fun n hn => run_bind (a := ()) (s1 := s2) (run_bind (g1 n (by omega)) (run_getS (g2 n (by omega)))) rfl

end SccGen
