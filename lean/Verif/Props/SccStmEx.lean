import Verif.Props.SccStmCall
import Verif.Props.SccGenEx
import Mathlib.Tactic.Ring
/-!
# An example for the theorem about compiled functions (C49): `f(a,b){while(b){a+=b;b--;}return a;}` and `f(a,b){if(a<b&&b)return a;return b;}`
-/
namespace SccStm
open Prog Text Scc SccCode SccGen Props.SccLex Props.SccIds I86
open World (PE PC)
open I86.Cpu hiding lo hi rd

/-- The compiler in front of the body. -/
def exF : S :=
  { exS0 with
    vars := exS0.vars.set 0 ⟨0, vtInt ||| vtFun ||| vtLocGlob, 0, 0, 0, none⟩
    scopes := exS0.scopes.set 0 1
    args := (exS0.args.set 0 ⟨40, vtInt, 0⟩).set 1 ⟨41, vtInt, 0⟩
    argsCount := 2
    code := 0x200
    tok := 0x7B
    prec := precStop
    cur := 0x77
    inp := asc "hile(b){a+=b;b--;}return a;} int g;" }

def exXs : List Nat := [40, 41]

def exBody : St := .seq (.asgn (.op .add) 40 (.var 41)) (.seq (.asgn (.inc true true) 41 (.lit 1)) .nil)

def exT : St := .seq (.loop (some (.one (.var 41))) .nil exBody) (.seq (.ret (some (.var 40))) .nil)

def exBodyTs : List Tk := [.id 40, .sym tokPlusEq precAssign, .id 41, semi, .id 41, incT true, semi]

def exFTs : List Tk := kw tokWhile :: opn :: .id 41 :: cls :: lbr :: exBodyTs ++ [rbr, kw tokReturn, .id 40, semi, rbr]

theorem exEntry : Entry exXs 0 exF where
  par := ⟨by decide +kernel, by decide +kernel, by decide, by decide⟩
  sc := by decide +kernel
  room := by decide +kernel
  lt := by decide +kernel
  off := by decide +kernel
  ref := by decide +kernel
  id := by decide +kernel
  buf := by decide +kernel
  lab := by decide +kernel
  sp := by decide +kernel
  push := by decide +kernel
  reg := by decide +kernel
  sw := by decide +kernel
  zf := by decide +kernel
  ge := by decide +kernel

theorem exShowsL : ShowsS true 1 false false exT exFTs.dropLast := by
  have h3 : ShowsS false 1 true false exBody (lbr :: exBodyTs ++ [rbr]) := .block (d := 0) (cl' := false) (ts := exBodyTs) (.cons (cl' := false) (.asgn (.op (o := .add) rfl (by decide) (.var 10 41)))
    (.cons (cl' := false) (.asgn (.post (by decide))) .none))
  exact .cons (cl' := false) (.whl (ts := [.id 41]) (.one (by decide) (.var 10 41)) h3) (.cons (cl' := false) (.ret (ts := [.id 40]) (.var 10 40)) .none)

theorem exShowsS : ShowsS false 2 false false exT (lbr :: exFTs) := .block exShowsL

theorem exSrcS : Src exNames (exF.cur :: exF.inp) (exFTs ++ [.id 16]) := by
  have na : exNames[40]? = some (asc "a") := by decide +kernel
  have nb : exNames[41]? = some (asc "b") := by decide +kernel
  have nw : exNames[31]? = some (asc "while") := by decide +kernel
  have nr : exNames[19]? = some (asc "return") := by decide +kernel
  have ni : exNames[16]? = some (asc "int") := by decide +kernel
  have wa : Props.SccIds.Word (asc "a") := ⟨0x61, [], rfl, by decide, by simp⟩
  have wb : Props.SccIds.Word (asc "b") := ⟨0x62, [], rfl, by decide, by simp⟩
  have ww : Props.SccIds.Word (asc "while") := ⟨0x77, asc "hile", rfl, by decide, by decide⟩
  have wr : Props.SccIds.Word (asc "return") := ⟨0x72, asc "eturn", rfl, by decide, by decide⟩
  have wi : Props.SccIds.Word (asc "int") := ⟨0x69, asc "nt", rfl, by decide, by decide⟩
  have aft : ∀ (c : Byte) (r : List Byte), isIdChar c = false ∧ c ≠ 0x40 ∧ c ≠ 0x60 → After (c :: r) := by
    intro c r h d hd; cases hd; exact h
  have bl : Props.SccLex.Gap [0x20] := .blank _ _ (by decide) (by decide) .nil
  have h := Src.id (r := asc " g;") 16 ni wi bl (aft _ _ (by decide)) (by decide) (.nil _)
  have h := Src.sym (ws := []) .brace .nil (by unfold Munch; decide) (by decide) h
  have h := Src.sym (ws := []) .semi .nil (by unfold Munch; decide) (by decide) h
  have h := Src.id 40 na wa bl (aft _ _ (by decide)) (by decide) h
  have h := Src.id (ws := []) 19 nr wr .nil (aft _ _ (by decide)) (by decide) h
  have h := Src.sym (ws := []) .brace .nil (by unfold Munch; decide) (by decide) h
  have h := Src.sym (ws := []) .semi .nil (by unfold Munch; decide) (by decide) h
  have h := Src.sym (ws := []) .dec .nil (by unfold Munch; decide) (by decide) h
  have h := Src.id (ws := []) 41 nb wb .nil (aft _ _ (by decide)) (by decide) h
  have h := Src.sym (ws := []) .semi .nil (by unfold Munch; decide) (by decide) h
  have h := Src.id (ws := []) 41 nb wb .nil (aft _ _ (by decide)) (by decide) h
  have h := Src.sym (ws := []) (.as (o := .add) rfl) .nil (by unfold Munch; decide) (by decide) h
  have h := Src.id (ws := []) 40 na wa .nil (aft _ _ (by decide)) (by decide) h
  have h := Src.sym (ws := []) .lbrace .nil (by unfold Munch; decide) (by decide) h
  have h := Src.sym (ws := []) .cls .nil (by unfold Munch; decide) (by decide) h
  have h := Src.id (ws := []) 41 nb wb .nil (aft _ _ (by decide)) (by decide) h
  have h := Src.sym (ws := []) .opn .nil (by unfold Munch; decide) (by decide) h
  exact Src.id (ws := []) 31 nw ww .nil (aft _ _ (by decide)) (by decide) h

theorem exOk (F : List Nat) : Ok F exXs 1 exT := by
  simp [exT, exBody, Ok, As.Ok, OkC, cstC, OkE, Stat, Vars, nest, exXs, cst, In16, dies, void]
  decide

/-- `a*=b+1;`, `++a;`, `a<<=b;`, `a%=7;` and `a=b;` are statements that the theorems are about. -/
example (F : List Nat) :
    ShowsS false 1 false false (.asgn (.op .mul) 40 (.bin .add (.var 41) (.lit 1))) [.id 40, .sym tokStarEq precAssign, .id 41, .sym 0x2B 4, .num 1, semi] ∧
    ShowsS false 1 false false (.asgn (.inc false false) 40 (.lit 1)) [incT false, .id 40, semi] ∧
    ShowsS false 1 false false (.asgn (.op .shl) 40 (.var 41)) [.id 40, .sym tokLshEq precAssign, .id 41, semi] ∧
    ShowsS false 1 false false (.asgn (.op .mod) 40 (.lit 7)) [.id 40, .sym tokModEq precAssign, .num 7, semi] ∧
    ShowsS false 1 false false (.asgn .set 40 (.var 41)) [.id 40, asg, .id 41, semi] ∧
    Ok F exXs 1 (.asgn (.op .mul) 40 (.bin .add (.var 41) (.lit 1))) ∧ Ok F exXs 1 (.asgn (.inc false false) 40 (.lit 1)) ∧ Ok F exXs 1 (.asgn (.op .shl) 40 (.var 41)) ∧
    Ok F exXs 1 (.asgn (.op .mod) 40 (.lit 7)) ∧ Ok F exXs 1 (.asgn .set 40 (.var 41)) := by
  refine ⟨.asgn (.op (o := .mul) rfl (by decide) (.bin 10 .add (ts := [.id 41]) (us := [.num 1]) (by decide) (.var 4 41) (.lit 3 1))), .asgn (.pre (by decide)),
    .asgn (.op (o := .shl) rfl (by decide) (.var 10 41)), .asgn (.op (o := .mod) rfl (by decide) (.lit 10 7)), .asgn (.set (by decide) (.var 10 41)), ?_⟩
  simp [Ok, As.Ok, OkE, Stat, Vars, nest, exXs, cst, In16, isTest]
  decide

/-- The values of the parameters. -/
def exρ2 (a b : Word) (x : Nat) : Word := if x = 40 then a else if x = 41 then b else 0

theorem exρ2_upd (a b v : Word) : upd (exρ2 a b) 40 v = exρ2 v b ∧ upd (exρ2 a b) 41 v = exρ2 a v := by
  constructor <;> funext x <;> simp only [upd, exρ2] <;> split <;> simp_all

theorem exLoop (K : Contract) (Γ : Nat → Option (List Nat × St)) (d : Nat) : ∀ (n : Nat) (a : Word), n < 2 ^ 16 →
    Exec Γ (PE K) (PC K) d (.loop (some (.one (.var 41))) .nil exBody) (exρ2 a (BitVec.ofNat 16 n)) (.norm (exρ2 (a + BitVec.ofNat 16 (n * (n + 1) / 2)) 0)) := by
  intro n
  induction n with
  | zero =>
    intro a _
    have : Exec Γ (PE K) (PC K) d (.loop (some (.one (.var 41))) .nil exBody) (exρ2 a 0) (.norm (exρ2 a 0)) :=
      .done ⟨0, rfl, ⟨trivial, fun _ => trivial⟩, rfl⟩
    simpa using this
  | succ n ih =>
    intro a hn
    have hne : (BitVec.ofNat 16 (n + 1) : Word) ≠ 0 := by
      intro e
      have := congrArg BitVec.toNat e
      rw [BitVec.toNat_ofNat, Nat.mod_eq_of_lt hn] at this
      exact absurd this (by simp)
    have e1 : BitVec.ofNat 16 (n + 1) - 1 = BitVec.ofNat 16 n := by rw [BitVec.ofNat_add]; exact BitVec.add_sub_cancel _ 1#16
    refine .again (o := .norm _) (ρ1 := exρ2 (a + BitVec.ofNat 16 (n + 1)) (BitVec.ofNat 16 n)) ⟨_, rfl, ⟨trivial, fun _ => trivial⟩, ?_⟩ ?_ rfl (.nil _) ?_
    · exact (bne_iff_ne.2 hne).symm
    · refine .seq (.asgn (v := a + BitVec.ofNat 16 (n + 1)) rfl (by simp [As.rhs, PE, Dyn, cst])) (.seq (.asgn (v := BitVec.ofNat 16 n) ?_ (by simp [As.rhs, PE, Dyn, cst])) ?_)
      · rw [(exρ2_upd _ _ _).1, ← e1]; rfl
      · rw [(exρ2_upd _ _ _).1, (exρ2_upd _ _ _).2]; exact .nil _
    · have := ih (a + BitVec.ofNat 16 (n + 1)) (by omega)
      rwa [BitVec.add_assoc, ← BitVec.ofNat_add, show n + 1 + n * (n + 1) / 2 = (n + 1) * (n + 1 + 1) / 2 by
        rw [show (n + 1) * (n + 1 + 1) = n * (n + 1) + (n + 1) * 2 by ring, Nat.add_mul_div_right _ _ (by decide)]; omega] at this

theorem exExec (K : Contract) (Γ : Nat → Option (List Nat × St)) (d : Nat) (n : Nat) (a : Word) (hn : n < 2 ^ 16) :
    Exec Γ (PE K) (PC K) d exT (exρ2 a (BitVec.ofNat 16 n)) (.ret (some (a + BitVec.ofNat 16 (n * (n + 1) / 2))) (exρ2 (a + BitVec.ofNat 16 (n * (n + 1) / 2)) 0)) :=
  .seq (exLoop K Γ d n a hn) (.stop (.ret rfl trivial) rfl)

/-! ## `f(a,b){if(a<b&&b)return a;return b;}` -/

def exG : S := { exF with cur := 0x69, inp := asc "f(a<b&&b)return a;return b;} int g;" }

def exC : Cd := .con false (.one (.bin .lt (.var 40) (.var 41))) (.one (.var 41))

def exU : St := .seq (.ife exC (.ret (some (.var 40))) .nil) (.seq (.ret (some (.var 41))) .nil)

def exGTs : List Tk := kw tokIf :: opn :: [.id 40, .sym 0x3C 6, .id 41, .sym tokAndAnd 11, .id 41] ++ cls :: [kw tokReturn, .id 40, semi, kw tokReturn, .id 41, semi, rbr]

theorem exEntryG : Entry exXs 0 exG where
  par := ⟨by decide +kernel, by decide +kernel, by decide, by decide⟩
  sc := by decide +kernel
  room := by decide +kernel
  lt := by decide +kernel
  off := by decide +kernel
  ref := by decide +kernel
  id := by decide +kernel
  buf := by decide +kernel
  lab := by decide +kernel
  sp := by decide +kernel
  push := by decide +kernel
  reg := by decide +kernel
  sw := by decide +kernel
  zf := by decide +kernel
  ge := by decide +kernel

theorem exShowsC : ShowsCd 12 exC [.id 40, .sym 0x3C 6, .id 41, .sym tokAndAnd 11, .id 41] :=
  .con (ts := [.id 40, .sym 0x3C 6, .id 41]) (us := [.id 41]) false (by decide) (.one (by decide) (.bin 10 .lt (ts := [.id 40]) (us := [.id 41]) (by decide) (.var 6 40) (.var 5 41))) (.one (by decide) (.var 10 41))

theorem exShowsG : ShowsS false 2 false false exU (lbr :: exGTs) :=
  .block (cl' := false) (.cons (cl' := false) (.ifs (cl := false) exShowsC (.ret (ts := [.id 40]) (.var 10 40))) (.cons (cl' := false) (.ret (ts := [.id 41]) (.var 10 41)) .none))

theorem exSrcG : Src exNames (exG.cur :: exG.inp) (exGTs ++ [.id 16]) := by
  have na : exNames[40]? = some (asc "a") := by decide +kernel
  have nb : exNames[41]? = some (asc "b") := by decide +kernel
  have nf : exNames[15]? = some (asc "if") := by decide +kernel
  have nr : exNames[19]? = some (asc "return") := by decide +kernel
  have ni : exNames[16]? = some (asc "int") := by decide +kernel
  have wa : Props.SccIds.Word (asc "a") := ⟨0x61, [], rfl, by decide, by simp⟩
  have wb : Props.SccIds.Word (asc "b") := ⟨0x62, [], rfl, by decide, by simp⟩
  have wf : Props.SccIds.Word (asc "if") := ⟨0x69, asc "f", rfl, by decide, by decide⟩
  have wr : Props.SccIds.Word (asc "return") := ⟨0x72, asc "eturn", rfl, by decide, by decide⟩
  have wi : Props.SccIds.Word (asc "int") := ⟨0x69, asc "nt", rfl, by decide, by decide⟩
  have aft : ∀ (c : Byte) (r : List Byte), isIdChar c = false ∧ c ≠ 0x40 ∧ c ≠ 0x60 → After (c :: r) := by
    intro c r h d hd; cases hd; exact h
  have bl : Props.SccLex.Gap [0x20] := .blank _ _ (by decide) (by decide) .nil
  have h := Src.id (r := asc " g;") 16 ni wi bl (aft _ _ (by decide)) (by decide) (.nil _)
  have h := Src.sym (ws := []) .brace .nil (by unfold Munch; decide) (by decide) h
  have h := Src.sym (ws := []) .semi .nil (by unfold Munch; decide) (by decide) h
  have h := Src.id 41 nb wb bl (aft _ _ (by decide)) (by decide) h
  have h := Src.id (ws := []) 19 nr wr .nil (aft _ _ (by decide)) (by decide) h
  have h := Src.sym (ws := []) .semi .nil (by unfold Munch; decide) (by decide) h
  have h := Src.id 40 na wa bl (aft _ _ (by decide)) (by decide) h
  have h := Src.id (ws := []) 19 nr wr .nil (aft _ _ (by decide)) (by decide) h
  have h := Src.sym (ws := []) .cls .nil (by unfold Munch; decide) (by decide) h
  have h := Src.id (ws := []) 41 nb wb .nil (aft _ _ (by decide)) (by decide) h
  have h := Src.sym (ws := []) .land .nil (by unfold Munch; decide) (by decide) h
  have h := Src.id (ws := []) 41 nb wb .nil (aft _ _ (by decide)) (by decide) h
  have h := Src.sym (ws := []) (.bin .lt) .nil (by unfold Munch; decide) (by decide) h
  have h := Src.id (ws := []) 40 na wa .nil (aft _ _ (by decide)) (by decide) h
  have h := Src.sym (ws := []) .opn .nil (by unfold Munch; decide) (by decide) h
  exact Src.id (ws := []) 15 nf wf .nil (aft _ _ (by decide)) (by decide) h

theorem exOkG (F : List Nat) : Ok F exXs 1 exU := by
  simp [exU, exC, Ok, OkC, cstC, OkE, Stat, Vars, nest, exXs, cst, dies, void, hasCode]

/-- `a` if it is less than `b` and `b` is not zero, and else `b`. -/
def exMin (a b : Word) : Word := if a.toInt < b.toInt ∧ b ≠ 0 then a else b

theorem exExecG (K : Contract) (Γ : Nat → Option (List Nat × St)) (d : Nat) (a b : Word) :
    Exec Γ (PE K) (PC K) d exU (exρ2 a b) (.ret (some (exMin a b)) (exρ2 a b)) := by
  have h1 : ev (exρ2 a b) (.bin .lt (.var 40) (.var 41)) = some (b2w (decide (a.toInt < b.toInt))) := rfl
  have p1 : PC K (exρ2 a b) (.bin .lt (.var 40) (.var 41)) := by simp [PC, Dyn, ZfOk, cst]; decide
  have p2 : PC K (exρ2 a b) (.var 41) := ⟨trivial, fun _ => trivial⟩
  have e1 : ∀ x : Bool, (b2w x != 0) = x := by decide
  unfold exMin
  by_cases hab : a.toInt < b.toInt
  · by_cases hb : b = 0
    · rw [if_neg fun h => h.2 hb]
      exact .seq (.ifF (.inr ⟨⟨_, h1, p1, by rw [e1]; simp [hab]⟩, _, rfl, p2, by show _ = (b != 0); simp [hb]⟩) (.nil _)) (.stop (.ret rfl trivial) rfl)
    · rw [if_pos ⟨hab, hb⟩]
      exact .stop (.ifT (.inr ⟨⟨_, h1, p1, by rw [e1]; simp [hab]⟩, _, rfl, p2, (bne_iff_ne.2 hb).symm⟩) (.ret rfl trivial)) rfl
  · rw [if_neg fun h => hab h.1]
    exact .seq (.ifF (.inl ⟨⟨_, h1, p1, by rw [e1]; simp [hab]⟩, rfl⟩) (.nil _)) (.stop (.ret rfl trivial) rfl)

/-- `!a||b<2&&(a||b)` is a condition that the theorems are about. -/
example : ShowsCd 12 (.con true (.one (.un .not (.var 40))) (.con false (.one (.bin .lt (.var 41) (.lit 2))) (.con true (.one (.var 40)) (.one (.var 41)))))
      [.sym UOp.not.tok UOp.not.prec, .id 40, .sym tokOrOr 12, .id 41, .sym 0x3C 6, .num 2, .sym tokAndAnd 11, .sym 0x28 precStop, .id 40, .sym tokOrOr 12, .id 41, .sym 0x29 precStop] ∧
    OkC exXs 1 (.con true (.one (.un .not (.var 40))) (.con false (.one (.bin .lt (.var 41) (.lit 2))) (.con true (.one (.var 40)) (.one (.var 41))))) := by
  refine ⟨.con (ts := [.sym UOp.not.tok UOp.not.prec, .id 40]) (us := [.id 41, .sym 0x3C 6, .num 2, .sym tokAndAnd 11, .sym 0x28 precStop, .id 40, .sym tokOrOr 12, .id 41, .sym 0x29 precStop]) true (by decide)
    (.one (by decide) (.un 10 .not (ts := [.id 40]) (.var _ 40)))
    (.con (ts := [.id 41, .sym 0x3C 6, .num 2]) (us := [.sym 0x28 precStop, .id 40, .sym tokOrOr 12, .id 41, .sym 0x29 precStop]) false (by decide)
      (.one (by decide) (.bin 10 .lt (ts := [.id 41]) (us := [.num 2]) (by decide) (.var 6 41) (.lit 5 2)))
      (.par (ts := [.id 40, .sym tokOrOr 12, .id 41]) (.con (ts := [.id 40]) (us := [.id 41]) true (by decide) (.one (by decide) (.var 10 40)) (.one (by decide) (.var 10 41))))), ?_⟩
  simp [OkC, cstC, OkE, Stat, Vars, nest, exXs, cst, In16]

end SccStm

namespace Props
open Prog Text Scc SccCode SccGen SccStm I86
open I86.Cpu hiding lo hi rd

/-- `f(a,b){while(b){a+=b;b--;}return a;}` is compiled, and a call returns `a` plus the sum of the numbers up to `b`. -/
example : ∃ s', (∃ N, ∀ n, N ≤ n → parseFunction (run n) 0 exF = .ok () s') ∧ s'.tok = tokInt ∧
    ∀ (K : Contract) (c : Cpu) (L n : Nat) (a : Word), n < 2 ^ 16 → Called exXs 0x200 s'.code s'.out L (exρ2 a (BitVec.ofNat 16 n)) c → L + 4 ≤ c.sp.toNat →
      Reach K c (Returned 2 L (some (a + BitVec.ofNat 16 (n * (n + 1) / 2))) c) := by
  obtain ⟨s', h1, h2, h3⟩ := C49_function_partial exF exNames exXs 0 2 1 false exT exFTs (.id 16) _ exEntry exIds (by decide +kernel) rfl rfl rfl exShowsS exSrcS
    (by decide) (exOk _) (by decide) (by decide +kernel) (by decide)
  exact ⟨s', h1, h2, fun K c L n a hn hc hl => h3 K c _ _ L _ _ hc hl (exExec K _ _ n a hn) (.inr rfl)⟩

/-- `f(a,b){if(a<b&&b)return a;return b;}` is compiled, and a call returns what it says. -/
example : ∃ s', (∃ N, ∀ n, N ≤ n → parseFunction (run n) 0 exG = .ok () s') ∧ s'.tok = tokInt ∧
    ∀ (K : Contract) (c : Cpu) (L : Nat) (a b : Word), Called exXs 0x200 s'.code s'.out L (exρ2 a b) c → L + 4 ≤ c.sp.toNat → Reach K c (Returned 2 L (some (exMin a b)) c) := by
  obtain ⟨s', h1, h2, h3⟩ := C49_function_partial exG exNames exXs 0 2 1 false exU exGTs (.id 16) _ exEntryG exIds (by decide +kernel) rfl rfl rfl exShowsG exSrcG
    (by decide) (exOkG _) (by decide) (by decide +kernel) (by decide)
  exact ⟨s', h1, h2, fun K c L a b hc hl => h3 K c _ _ L _ _ hc hl (exExecG K _ _ a b) (.inr rfl)⟩

end Props
