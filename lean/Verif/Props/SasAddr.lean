import Verif.Props.SasData
/-!
# C24: addresses, for arbitrary statements
-/
namespace Props.SasAddr
open Sas I86 Text Prog Props.SasIds Props.SasTotal

/-- Bytes have been appended, within the buffer, and the address has advanced by their number. -/
def Ext (s s' : S) : Prop :=
  ∃ bs : Array Byte, s'.out = s.out ++ bs ∧ s'.va = s.va + bs.size ∧ s'.inBSS = s.inBSS ∧ (s.out.size ≤ 20000 → s'.out.size ≤ 20000) ∧
    (s.inBSS = true → bs = #[])

theorem ext_pre : Prog.Preorder Ext := by
  constructor
  · intro s; exact ⟨#[], by simp, by simp, rfl, id, fun _ => rfl⟩
  · rintro s1 s2 s3 ⟨b, h1, h2, h3, h4, h5⟩ ⟨c, g1, g2, g3, g4, g5⟩
    refine ⟨b ++ c, by rw [g1, h1, Array.append_assoc], by rw [g2, h2]; simp; omega, g3.trans h3, fun h => g4 (h4 h), fun h => ?_⟩
    rw [h5 h, g5 (h3.trans h)]; rfl

theorem ext_same {s s' : S} (h1 : s'.out = s.out) (h2 : s'.va = s.va) (h3 : s'.inBSS = s.inBSS) : Ext s s' :=
  ⟨#[], by simp [h1], by simp [h2], h3, fun h => by rw [h1]; exact h, fun _ => rfl⟩

theorem ext_mod {f : S → S} (h : ∀ s, (f s).out = s.out ∧ (f s).va = s.va ∧ (f s).inBSS = s.inBSS) : Pres Ext (modS f) :=
  Pres.modS fun s => ext_same (h s).1 (h s).2.1 (h s).2.2

theorem x_getToken : Pres Ext getToken := by
  intro s a s' h
  unfold getToken at h
  split at h
  · cases h; exact ext_same rfl rfl rfl
  · cases h

theorem x_ck {n : Int} : Pres Ext (ck n) := by
  unfold ck; exact Pres.ite (fun _ => Pres.pure ext_pre _) fun _ => Pres.fail _

theorem x_tokTy : Pres Ext tokTy := by intro s a s' h; cases h; exact ext_pre.refl _
theorem x_curTok : Pres Ext curTok := by intro s a s' h; cases h; exact ext_pre.refl _
theorem x_tokFuel : Pres Ext tokFuel := by intro s a s' h; cases h; exact ext_pre.refl _

theorem x_outputByte {b : Byte} : Pres Ext (outputByte b) := by
  intro s a s' h
  unfold outputByte at h
  obtain ⟨_, _, e1, h⟩ := bind_eq_ok.mp h
  cases e1
  obtain ⟨_, s1, e2, h⟩ := bind_eq_ok.mp h
  obtain ⟨_, s2, e3, h⟩ := bind_eq_ok.mp h
  obtain ⟨v, s3, e4, h⟩ := bind_eq_ok.mp h
  cases h
  unfold assertM at e2 e3
  split at e2
  · next hb =>
    cases e2
    split at e3
    · next hz =>
      cases e3
      unfold ck at e4
      split at e4
      · cases e4
        refine ⟨#[b], by simp, by simp, rfl, fun _ => ?_, fun hb' => ?_⟩
        · have : s.out.size < 20000 := by simpa [outputMax] using hz
          simp; omega
        · rw [hb'] at hb; cases hb
      · cases e4
    · cases e3
  · cases e2

macro "x_lemma" : tactic => `(tactic| fail)
macro_rules | `(tactic| x_lemma) => `(tactic| with_reducible exact x_getToken)
macro_rules | `(tactic| x_lemma) => `(tactic| with_reducible exact x_tokTy)
macro_rules | `(tactic| x_lemma) => `(tactic| with_reducible exact x_curTok)
macro_rules | `(tactic| x_lemma) => `(tactic| with_reducible exact x_tokFuel)
macro_rules | `(tactic| x_lemma) => `(tactic| with_reducible exact x_ck)
macro_rules | `(tactic| x_lemma) => `(tactic| with_reducible exact x_outputByte)

macro "x_go" : tactic => `(tactic| repeat' first
  | x_lemma
  | with_reducible exact Pres.fail _
  | with_reducible exact Pres.pure ext_pre _
  | with_reducible exact Pres.assertM ext_pre _
  | with_reducible exact Pres.getS ext_pre
  | with_reducible exact ext_mod fun _ => ⟨rfl, rfl, rfl⟩
  | with_reducible assumption
  | with_reducible refine Pres.ite (fun _ => ?_) (fun _ => ?_)
  | with_reducible refine Pres.bind ext_pre ?_ (fun _ => ?_)
  | split
  | dsimp only)

theorem x_outputWord {n : Int} : Pres Ext (outputWord n) := by unfold outputWord; x_go
macro_rules | `(tactic| x_lemma) => `(tactic| with_reducible exact x_outputWord)

theorem x_parsePrimary : Pres Ext parsePrimary := by unfold parsePrimary numFromString; x_go

theorem x_parseUnary : ∀ fuel, Pres Ext (parseUnary fuel)
  | 0 => Pres.fail _
  | fuel + 1 => by
    have := x_parseUnary fuel
    have h2 := x_parsePrimary
    unfold parseUnary unaryOp
    x_go

theorem x_binOp {op : Nat} {l r : Int} : Pres Ext (binOp op l r) := by unfold binOp; x_go

theorem x_parseExprs : ∀ fuel, (∀ l p, Pres Ext (parseExpr fuel l p)) ∧ (∀ l p, Pres Ext (parseInner fuel l p))
  | 0 => ⟨fun _ _ => by unfold parseExpr; exact Pres.fail _, fun _ _ => by unfold parseInner; exact Pres.fail _⟩
  | fuel + 1 => by
    obtain ⟨h1, h2⟩ := x_parseExprs fuel
    have h3 := x_parseUnary fuel
    constructor
    · intro l p
      unfold parseExpr
      refine Pres.bind ext_pre x_tokTy fun op => Pres.ite (fun _ => Pres.pure ext_pre _) fun _ => ?_
      exact Pres.bind ext_pre x_getToken fun _ => Pres.bind ext_pre h3 fun _ => Pres.bind ext_pre (h2 _ _) fun _ =>
        Pres.bind ext_pre x_binOp fun _ => h1 _ _
    · intro l p
      unfold parseInner
      refine Pres.bind ext_pre x_tokTy fun op => Pres.ite (fun _ => Pres.pure ext_pre _) fun _ => ?_
      exact Pres.bind ext_pre (h1 _ _) fun _ => h2 _ _

theorem x_parseNumber : Pres Ext parseNumber := by
  unfold parseNumber
  exact Pres.bind ext_pre x_tokFuel fun f => Pres.bind ext_pre (x_parseUnary f) fun n => (x_parseExprs f).1 n 15
macro_rules | `(tactic| x_lemma) => `(tactic| with_reducible exact x_parseNumber)

theorem x_expect {t : Nat} : Pres Ext (expect t) := by unfold expect; x_go
macro_rules | `(tactic| x_lemma) => `(tactic| with_reducible exact x_expect)
theorem x_accept {t : Nat} : Pres Ext (accept t) := by unfold accept; x_go
macro_rules | `(tactic| x_lemma) => `(tactic| with_reducible exact x_accept)
theorem x_setLabel {i : Nat} {l : Label} : Pres Ext (setLabel i l) := by unfold setLabel; x_go
macro_rules | `(tactic| x_lemma) => `(tactic| with_reducible exact x_setLabel)
theorem x_referenceLabel : Pres Ext referenceLabel := by unfold referenceLabel; x_go
macro_rules | `(tactic| x_lemma) => `(tactic| with_reducible exact x_referenceLabel)
theorem x_translateMemMod {t : Nat} {b : Byte} : Pres Ext (translateMemMod t b) := by unfold translateMemMod; x_go
macro_rules | `(tactic| x_lemma) => `(tactic| with_reducible exact x_translateMemMod)
theorem x_memItem {n : Bool} {o : Operand} : Pres Ext (memItem n o) := by unfold memItem; x_go
macro_rules | `(tactic| x_lemma) => `(tactic| with_reducible exact x_memItem)

theorem x_memItems : ∀ fuel (n : Bool) (o : Operand), Pres Ext (memItems fuel n o)
  | 0, _, _ => Pres.fail _
  | fuel + 1, n, o => by
    have ih := x_memItems fuel
    unfold memItems
    exact Pres.bind ext_pre x_tokTy fun ty => Pres.ite
      (fun _ => Pres.bind ext_pre x_outputByte fun _ => Pres.bind ext_pre x_getToken fun _ => Pres.bind ext_pre x_expect fun _ => ih _ _)
      (fun _ => Pres.bind ext_pre x_memItem fun _ => Pres.bind ext_pre x_accept fun _ => Pres.ite (fun _ => ih _ _) fun _ =>
        Pres.bind ext_pre x_accept fun _ => Pres.ite (fun _ => ih _ _) fun _ => Pres.pure ext_pre _)

macro_rules | `(tactic| x_lemma) => `(tactic| with_reducible exact x_memItems _ _ _)

theorem x_parseMem : Pres Ext parseMem := by unfold parseMem; x_go
macro_rules | `(tactic| x_lemma) => `(tactic| with_reducible exact x_parseMem)
theorem x_parseOperand : Pres Ext parseOperand := by unfold parseOperand; x_go
macro_rules | `(tactic| x_lemma) => `(tactic| with_reducible exact x_parseOperand)
theorem x_parse2Operands : Pres Ext parse2Operands := by unfold parse2Operands; x_go
macro_rules | `(tactic| x_lemma) => `(tactic| with_reducible exact x_parse2Operands)
theorem x_logRef {k : RefK} {o : Operand} : Pres Ext (logRef k o) := by unfold logRef; x_go
macro_rules | `(tactic| x_lemma) => `(tactic| with_reducible exact x_logRef)

theorem x_outputBytes : ∀ bs, Pres Ext (outputBytes bs)
  | [] => Pres.pure ext_pre _
  | b :: bs => Pres.bind ext_pre x_outputByte fun _ => x_outputBytes bs
macro_rules | `(tactic| x_lemma) => `(tactic| with_reducible exact x_outputBytes _)

theorem x_dxItem {n : Nat} : Pres Ext (dxItem n) := by unfold dxItem; x_go
macro_rules | `(tactic| x_lemma) => `(tactic| with_reducible exact x_dxItem)
theorem x_dxItems {size : Nat} : ∀ f n, Pres Ext (dxItems size f n)
  | 0, _ => Pres.fail _
  | f + 1, n => by
    have ih := x_dxItems (size := size) f
    unfold dxItems
    refine Pres.bind ext_pre x_dxItem fun k => Pres.bind ext_pre x_accept fun m => Pres.ite (fun _ => ih _) fun _ => Pres.pure ext_pre _
macro_rules | `(tactic| x_lemma) => `(tactic| with_reducible exact x_dxItems _ _)
theorem x_handleDx {n : Nat} : Pres Ext (handleDx n) := by unfold handleDx; x_go
macro_rules | `(tactic| x_lemma) => `(tactic| with_reducible exact x_handleDx)
theorem x_addFixupHere {i : Nat} {t : FixT} : Pres Ext (addFixupHere i t) := by unfold addFixupHere; x_go
macro_rules | `(tactic| x_lemma) => `(tactic| with_reducible exact x_addFixupHere)
theorem x_fixOp {o : Operand} {t : FixT} : Pres Ext (fixOp o t) := by unfold fixOp; x_go
macro_rules | `(tactic| x_lemma) => `(tactic| with_reducible exact x_fixOp)
theorem x_outputImm {o : Operand} {w : Bool} : Pres Ext (outputImm o w) := by unfold outputImm outputImm16 outputImm8; x_go
macro_rules | `(tactic| x_lemma) => `(tactic| with_reducible exact x_outputImm)
theorem x_outputModRM {o : Operand} {r : Byte} : Pres Ext (outputModRM o r) := by unfold outputModRM; x_go
macro_rules | `(tactic| x_lemma) => `(tactic| with_reducible exact x_outputModRM)
theorem x_outputMR {i : Byte} {o l : Operand} : Pres Ext (outputMR i o l) := by unfold outputMR; x_go
macro_rules | `(tactic| x_lemma) => `(tactic| with_reducible exact x_outputMR)
theorem x_outputMImm {i r : Byte} {o l : Operand} : Pres Ext (outputMImm i r o l) := by unfold outputMImm; x_go
macro_rules | `(tactic| x_lemma) => `(tactic| with_reducible exact x_outputMImm)
theorem x_outputImm8 {o : Operand} : Pres Ext (outputImm8 o) := by unfold outputImm8; x_go
macro_rules | `(tactic| x_lemma) => `(tactic| with_reducible exact x_outputImm8)
theorem x_outputImm16 {o : Operand} : Pres Ext (outputImm16 o) := by unfold outputImm16; x_go
macro_rules | `(tactic| x_lemma) => `(tactic| with_reducible exact x_outputImm16)
theorem x_handleMOV : Pres Ext handleMOV := by unfold handleMOV; x_go
theorem x_handleALU {b : Byte} : Pres Ext (handleALU b) := by unfold handleALU; x_go
theorem x_handleROT {b : Byte} : Pres Ext (handleROT b) := by unfold handleROT; x_go
theorem x_relDisp {o : Operand} {k : Int} : Pres Ext (relDisp o k) := by unfold relDisp; x_go
macro_rules | `(tactic| x_lemma) => `(tactic| with_reducible exact x_relDisp)
theorem x_handleRel8 {o : Operand} : Pres Ext (handleRel8 o) := by unfold handleRel8; x_go
macro_rules | `(tactic| x_lemma) => `(tactic| with_reducible exact x_handleRel8)
theorem x_handleRel16 {o : Operand} : Pres Ext (handleRel16 o) := by unfold handleRel16; x_go
macro_rules | `(tactic| x_lemma) => `(tactic| with_reducible exact x_handleRel16)
theorem x_handleCALL : Pres Ext handleCALL := by unfold handleCALL; x_go
theorem x_acceptShort : Pres Ext acceptShort := by unfold acceptShort; x_go
macro_rules | `(tactic| x_lemma) => `(tactic| with_reducible exact x_acceptShort)
theorem x_jmpShort {o : Operand} : Pres Ext (jmpShort o) := by unfold jmpShort; x_go
macro_rules | `(tactic| x_lemma) => `(tactic| with_reducible exact x_jmpShort)
theorem x_handleJMP : Pres Ext handleJMP := by unfold handleJMP; x_go
theorem x_handleJCC {b : Byte} : Pres Ext (handleJCC b) := by unfold handleJCC; x_go
theorem x_handleIncDec {b : Byte} : Pres Ext (handleIncDec b) := by unfold handleIncDec; x_go
theorem x_handlePUSH : Pres Ext handlePUSH := by unfold handlePUSH; x_go
theorem x_handlePOP : Pres Ext handlePOP := by unfold handlePOP; x_go
theorem x_handleINT : Pres Ext handleINT := by unfold handleINT; x_go
theorem x_handleTEST : Pres Ext handleTEST := by unfold handleTEST; x_go
theorem x_handleXCHG : Pres Ext handleXCHG := by unfold handleXCHG; x_go
theorem x_handleMulDiv {b : Byte} : Pres Ext (handleMulDiv b) := by unfold handleMulDiv; x_go
theorem x_handleLEA : Pres Ext handleLEA := by unfold handleLEA; x_go

theorem x_handleInstruction {t : Nat} : Pres Ext (handleInstruction t) := by
  unfold handleInstruction
  split
  all_goals first
    | exact x_handleALU | exact x_handleCALL | exact x_outputByte | exact x_handleIncDec | exact x_handleMulDiv | exact x_handleINT
    | exact x_handleJMP | exact x_handleLEA | exact x_handleMOV | exact x_handlePOP | exact x_handlePUSH | exact x_handleROT
    | exact x_handleTEST | exact x_handleXCHG
    | exact Pres.ite (fun _ => x_handleJCC) fun _ => Pres.fail _

/-- The size of the output, the address and the flag are as before. -/
def Still (s s' : S) : Prop := s'.out.size = s.out.size ∧ s'.va = s.va ∧ s'.inBSS = s.inBSS

theorem still_pre : Prog.Preorder Still :=
  ⟨fun _ => ⟨rfl, rfl, rfl⟩, fun _ _ _ h1 h2 => ⟨h2.1.trans h1.1, h2.2.1.trans h1.2.1, h2.2.2.trans h1.2.2⟩⟩

theorem applyFixup_size {va : Int} {f : Fixup} {out r : Array Byte} (h : applyFixup va f out = .ok r) : r.size = out.size := by
  unfold applyFixup at h
  split at h
  · split at h
    · split at h
      · cases h; simp
      · cases h
    · cases h
  · split at h
    · dsimp only at h
      split at h
      · cases h; simp
      · cases h
    · cases h

theorem applyFixups_size {va : Int} {fx : Nat → Fixup} : ∀ {n f : Nat} {out : Array Byte} {r : Array Byte × Nat},
    applyFixups va fx n f out = .ok r → r.1.size = out.size
  | 0, _, _, _, h => by cases h
  | n + 1, f, out, r, h => by
    unfold applyFixups at h
    split at h
    · cases h
    · next o e =>
      have h1 := applyFixup_size e
      split at h
      · cases h; exact h1
      · exact (applyFixups_size h).trans h1

theorem s_of_mod {f : S → S} (h : ∀ s, Still s (f s)) : Pres Still (modS f) := Pres.modS h

theorem s_resolve {i : Nat} : Pres Still (resolve i) := by
  intro s a s' h
  unfold resolve at h
  split at h
  · cases h
  · split at h
    · cases h; exact still_pre.refl _
    · split at h
      · cases h
      · next e => cases h; exact ⟨applyFixups_size e, rfl, rfl⟩

theorem s_defineLabel {i : Nat} {g : Bool} : Pres Still (defineLabel i g) := by
  unfold defineLabel setLabel
  refine Pres.bind still_pre (Pres.getS still_pre) fun s => ?_
  repeat' first
    | exact s_resolve
    | exact Pres.modS fun _ => ⟨rfl, rfl, rfl⟩
    | with_reducible exact Pres.pure still_pre _
    | with_reducible refine Pres.ite (fun _ => ?_) (fun _ => ?_)
    | with_reducible refine Pres.bind still_pre ?_ (fun _ => ?_)
    | dsimp only

def Keep (s s' : S) : Prop := s'.out = s.out ∧ s'.va = s.va ∧ s'.inBSS = s.inBSS

theorem keep_pre : Prog.Preorder Keep :=
  ⟨fun _ => ⟨rfl, rfl, rfl⟩, fun _ _ _ h1 h2 => ⟨h2.1.trans h1.1, h2.2.1.trans h1.2.1, h2.2.2.trans h1.2.2⟩⟩

theorem k_getToken : Pres Keep getToken := by
  intro s a s' h
  unfold getToken at h
  split at h
  · cases h; exact ⟨rfl, rfl, rfl⟩
  · cases h

theorem k_ck {n : Int} : Pres Keep (ck n) := by
  unfold ck; exact Pres.ite (fun _ => Pres.pure keep_pre _) fun _ => Pres.fail _
theorem k_tokTy : Pres Keep tokTy := by intro s a s' h; cases h; exact keep_pre.refl _
theorem k_curTok : Pres Keep curTok := by intro s a s' h; cases h; exact keep_pre.refl _
theorem k_tokFuel : Pres Keep tokFuel := by intro s a s' h; cases h; exact keep_pre.refl _

macro "k_go" : tactic => `(tactic| repeat' first
  | with_reducible exact k_getToken
  | with_reducible exact k_tokTy
  | with_reducible exact k_curTok
  | with_reducible exact k_tokFuel
  | with_reducible exact k_ck
  | with_reducible exact Pres.fail _
  | with_reducible exact Pres.pure keep_pre _
  | with_reducible exact Pres.assertM keep_pre _
  | with_reducible assumption
  | with_reducible refine Pres.ite (fun _ => ?_) (fun _ => ?_)
  | with_reducible refine Pres.bind keep_pre ?_ (fun _ => ?_))

theorem k_parsePrimary : Pres Keep parsePrimary := by unfold parsePrimary numFromString; k_go
theorem k_parseUnary : ∀ fuel, Pres Keep (parseUnary fuel)
  | 0 => Pres.fail _
  | fuel + 1 => by
    have := k_parseUnary fuel
    have h2 := k_parsePrimary
    unfold parseUnary unaryOp
    k_go
theorem k_binOp {op : Nat} {l r : Int} : Pres Keep (binOp op l r) := by unfold binOp; k_go
theorem k_parseExprs : ∀ fuel, (∀ l p, Pres Keep (parseExpr fuel l p)) ∧ (∀ l p, Pres Keep (parseInner fuel l p))
  | 0 => ⟨fun _ _ => by unfold parseExpr; exact Pres.fail _, fun _ _ => by unfold parseInner; exact Pres.fail _⟩
  | fuel + 1 => by
    obtain ⟨h1, h2⟩ := k_parseExprs fuel
    have h3 := k_parseUnary fuel
    constructor
    · intro l p
      unfold parseExpr
      refine Pres.bind keep_pre k_tokTy fun op => Pres.ite (fun _ => Pres.pure keep_pre _) fun _ => ?_
      exact Pres.bind keep_pre k_getToken fun _ => Pres.bind keep_pre h3 fun _ => Pres.bind keep_pre (h2 _ _) fun _ =>
        Pres.bind keep_pre k_binOp fun _ => h1 _ _
    · intro l p
      unfold parseInner
      refine Pres.bind keep_pre k_tokTy fun op => Pres.ite (fun _ => Pres.pure keep_pre _) fun _ => ?_
      exact Pres.bind keep_pre (h1 _ _) fun _ => h2 _ _
theorem s_out_parseNumber : Pres Keep parseNumber := by
  unfold parseNumber
  exact Pres.bind keep_pre k_tokFuel fun f => Pres.bind keep_pre (k_parseUnary f) fun n => (k_parseExprs f).1 n 15

theorem s_parseNumber : Pres Still parseNumber := fun s a s' h => by
  have := s_out_parseNumber s a s' h
  exact ⟨by rw [this.1], this.2.1, this.2.2⟩

theorem pre_res (k : Int) : Pres (fun s s' => s'.out = s.out ∧ s'.inBSS = s.inBSS) (do
    let n ← parseNumber
    let d ← ck (k * n)
    let s ← getS
    let va ← ck (s.va + d)
    modS fun s => { s with va } : A Unit) := by
  have hp : Prog.Preorder (fun s s' : S => s'.out = s.out ∧ s'.inBSS = s.inBSS) :=
    ⟨fun _ => ⟨rfl, rfl⟩, fun _ _ _ h1 h2 => ⟨h2.1.trans h1.1, h2.2.trans h1.2⟩⟩
  have ofk : ∀ {α} {m : A α}, Pres Keep m → Pres (fun s s' => s'.out = s.out ∧ s'.inBSS = s.inBSS) m :=
    fun h s a s' e => ⟨(h s a s' e).1, (h s a s' e).2.2⟩
  exact Pres.bind hp (ofk s_out_parseNumber) fun _ => Pres.bind hp (ofk k_ck) fun _ => Pres.bind hp (Pres.getS hp) fun _ =>
    Pres.bind hp (ofk k_ck) fun _ => Pres.modS fun _ => ⟨rfl, rfl⟩

/-- What one statement does to output and address. -/
theorem step_kinds {s s' : S} (h : step s = .ok () s') :
    (s.lex.tok.ty = tokOrg ∧ s'.out = s.out ∧ s'.inBSS = s.inBSS) ∨
    ((s.lex.tok.ty = tokResb ∨ s.lex.tok.ty = tokResw) ∧ s'.out = s.out ∧ s'.inBSS = true) ∨
    (s.lex.tok.ty ≥ tokUserId ∧ Still s s') ∨
    (s.lex.tok.ty ∉ [tokOrg, tokResb, tokResw] ∧ s.lex.tok.ty < tokUserId ∧ Ext s s') := by
  unfold step at h
  obtain ⟨ty, _, e1, h⟩ := bind_eq_ok.mp h
  cases e1
  split at h
  · next hu =>
    refine Or.inr (Or.inr (Or.inl ⟨hu, ?_⟩))
    have key : Pres Still (getToken >>= fun _ => accept tokColon >>= fun colon =>
        if colon = true then defineLabel (s.lex.tok.ty - tokUserId) (!isLocal s.lex.ids (s.lex.tok.ty - tokUserId))
        else accept tokEqu >>= fun equ => if equ = true then defineEqu (s.lex.tok.ty - tokUserId) else fail .fatal) := by
      have g : Pres Still getToken := by
        intro s a s' h
        unfold getToken at h
        split at h
        · cases h; exact ⟨rfl, rfl, rfl⟩
        · cases h
      have acc : ∀ t, Pres Still (accept t) := by
        intro t; unfold accept
        refine Pres.bind still_pre (fun s a s' h => by cases h; exact still_pre.refl _) fun _ => Pres.ite (fun _ => Pres.bind still_pre g fun _ => Pres.pure still_pre _)
          fun _ => Pres.pure still_pre _
      have num : Pres Still parseNumber := s_parseNumber
      have equ : ∀ i, Pres Still (defineEqu i) := by
        intro i; unfold defineEqu setLabel
        exact Pres.bind still_pre (Pres.getS still_pre) fun _ => Pres.bind still_pre (Pres.assertM still_pre _) fun _ =>
          Pres.bind still_pre (Pres.modS fun _ => ⟨rfl, rfl, rfl⟩) fun _ => Pres.bind still_pre num fun _ => Pres.modS fun _ => ⟨rfl, rfl, rfl⟩
      exact Pres.bind still_pre g fun _ => Pres.bind still_pre (acc _) fun _ => Pres.ite (fun _ => s_defineLabel) fun _ =>
        Pres.bind still_pre (acc _) fun _ => Pres.ite (fun _ => equ _) fun _ => Pres.fail _
    obtain ⟨_, _, e2, h⟩ := bind_eq_ok.mp h
    cases e2
    exact key _ _ _ h
  · next hu =>
    split at h
    · cases h
    · obtain ⟨_, s1, e2, h⟩ := bind_eq_ok.mp h
      have x1 := x_getToken _ _ _ e2
      have st1 : s1.out = s.out ∧ s1.va = s.va ∧ s1.inBSS = s.inBSS := by
        unfold getToken at e2
        split at e2
        · cases e2; exact ⟨rfl, rfl, rfl⟩
        · cases e2
      obtain ⟨_, s2, e3, h⟩ := bind_eq_ok.mp h
      cases e3
      split at h
      · unfold handleDirective at h
        split at h
        · next hd =>
          refine Or.inr (Or.inr (Or.inr ⟨by rw [hd]; decide, by omega, ext_pre.trans _ _ _ x1 ?_⟩))
          have : Pres Ext (parseNumber >>= fun n => if n ≠ 8086 then (fail .fatal : A Unit) else pure ()) := by x_go
          exact ext_pre.trans _ _ _ (ext_same (s' := { s1 with sizeOv := 0 }) rfl rfl rfl) (this _ _ _ h)
        · split at h
          · next hd =>
            refine Or.inr (Or.inr (Or.inr ⟨by rw [hd]; decide, by omega, ext_pre.trans _ _ _ x1 ?_⟩))
            exact ext_pre.trans _ _ _ (ext_same (s' := { s1 with sizeOv := 0 }) rfl rfl rfl) (x_handleDx _ _ _ h)
          · split at h
            · next hd =>
              refine Or.inr (Or.inr (Or.inr ⟨by rw [hd]; decide, by omega, ext_pre.trans _ _ _ x1 ?_⟩))
              exact ext_pre.trans _ _ _ (ext_same (s' := { s1 with sizeOv := 0 }) rfl rfl rfl) (x_handleDx _ _ _ h)
            · split at h
              · next hd =>
                refine Or.inl ⟨hd, ?_⟩
                obtain ⟨n, s3, e4, h⟩ := bind_eq_ok.mp h
                cases h
                have := s_out_parseNumber _ _ _ e4
                exact ⟨this.1.trans st1.1, this.2.2.trans st1.2.2⟩
              · have res : ∀ k, handleResx k { s1 with sizeOv := 0 } = .ok () s' → s'.out = s.out ∧ s'.inBSS = true := by
                  intro k h
                  unfold handleResx at h
                  obtain ⟨_, s3, e4, h⟩ := bind_eq_ok.mp h
                  cases e4
                  have := (pre_res k) _ _ _ h
                  exact ⟨this.1.trans st1.1, this.2⟩
                split at h
                · next hd => exact Or.inr (Or.inl ⟨Or.inl hd, res _ h⟩)
                · split at h
                  · next hd => exact Or.inr (Or.inl ⟨Or.inr hd, res _ h⟩)
                  · cases h
      · next hi =>
        refine Or.inr (Or.inr (Or.inr ⟨?_, by omega, ext_pre.trans _ _ _ x1 ?_⟩))
        · intro hm
          simp only [List.mem_cons, List.not_mem_nil, or_false] at hm
          unfold tokInst tokOrg tokResb tokResw at *
          omega
        · exact ext_pre.trans _ _ _ (ext_same (s' := { s1 with sizeOv := 0 }) rfl rfl rfl) (x_handleInstruction _ _ _ h)

end Props.SasAddr

namespace Props
open Sas I86 Text Prog Props.SasIds Props.SasTotal Props.SasAddr

/-- The statements between two states. -/
inductive Steps (P : S → Prop) : S → S → Prop
  | refl {s : S} : Steps P s s
  | tail {s t u : S} : Steps P s t → P t → step t = .ok () u → Steps P s u

/-- C24, addresses.  However many statements of whatever kind are processed, other than ORG, RESB and RESW, the address has advanced by
exactly the number of bytes added to the output. -/
theorem C24_address {s s' : S} (h : Steps (fun t => t.lex.tok.ty ∉ [tokOrg, tokResb, tokResw]) s s') :
    s'.va - s.va = (s'.out.size : Int) - s.out.size ∧ s'.inBSS = s.inBSS := by
  induction h with
  | refl => simp
  | tail _ hp hs ih =>
    simp only [List.mem_cons, List.not_mem_nil, or_false, not_or] at hp
    rcases step_kinds hs with h | h | h | h
    · exact absurd h.1 hp.1
    · exact absurd h.1 (by simp [hp.2.1, hp.2.2])
    · obtain ⟨_, h1, h2, h3⟩ := h
      exact ⟨by omega, h3.trans ih.2⟩
    · obtain ⟨_, _, bs, h1, h2, h3, _⟩ := h
      refine ⟨?_, h3.trans ih.2⟩
      rw [h1, h2]; simp; omega

/-- C24, the buffer.  In every state between two statements of every file there are at most 20000 bytes in the output; and once RESB or
RESW has been processed no statement adds a byte. -/
theorem C24_buffer {inp : List Byte} {s : S} (h : Between inp s) : s.out.size ≤ 20000 ∧
    (s.inBSS = true → ∀ s', step s = .ok () s' → s'.out.size = s.out.size ∧ s'.inBSS = true) := by
  constructor
  · induction h with
    | @start ids s hi hs =>
      have : s.out = (init ids inp).out := by
        unfold getToken at hs
        split at hs
        · cases hs; rfl
        · cases hs
      rw [this]; simp [init]
    | step _ hs ih =>
      rcases step_kinds hs with h | h | h | h
      · rw [h.2.1]; exact ih
      · rw [h.2.1]; exact ih
      · rw [h.2.1]; exact ih
      · obtain ⟨_, _, bs, _, _, _, h4, _⟩ := h; exact h4 ih
  · intro hb s' hs
    rcases step_kinds hs with h | h | h | h
    · exact ⟨by rw [h.2.1], h.2.2.trans hb⟩
    · exact ⟨by rw [h.2.1], h.2.2⟩
    · exact ⟨h.2.1, h.2.2.2.trans hb⟩
    · obtain ⟨_, _, bs, h1, _, h3, _, h5⟩ := h
      exact ⟨by rw [h1, h5 hb]; simp, h3.trans hb⟩

theorem SasAddr.label_fin {t t' : S} {i : Nat} {b : Bool} (h : (do
    modS fun s => { s with
      labels := upd s.labels i { s.labels i with val := s.va }
      gDefs := ((s.labels i).gInst, s.va) :: s.gDefs }
    if b then modS retire : A Unit) t = .ok () t') : (t'.labels i).val = t.va := by
  cases b with
  | true =>
    cases h
    simp only [retire, upd, if_true]
    split <;> rfl
  | false => cases h; simp [upd]

/-- C24, labels.  After a statement that begins with a name and makes it a label, the value of the label is the address the statement
was met at. -/
theorem C24_label {s s' : S} {i : Nat} (h : step s = .ok () s') (hi : s.lex.tok.ty = tokUserId + i) (hn : (s'.labels i).ty = .normal) :
    (s'.labels i).val = s.va := by
  unfold step at h
  obtain ⟨ty, _, e1, h⟩ := bind_eq_ok.mp h
  cases e1
  rw [if_pos (by omega)] at h
  obtain ⟨_, _, e2, h⟩ := bind_eq_ok.mp h
  cases e2
  rw [show s.lex.tok.ty - tokUserId = i by omega] at h
  obtain ⟨_, s1, e3, h⟩ := bind_eq_ok.mp h
  obtain ⟨c, s2, e4, h⟩ := bind_eq_ok.mp h
  have hv : s2.va = s.va := by
    have acc : Pres Keep (accept tokColon) := by unfold accept; k_go
    exact (acc _ _ _ e4).2.1.trans (k_getToken _ _ _ e3).2.1
  split at h
  · unfold defineLabel at h
    obtain ⟨_, _, e5, h⟩ := bind_eq_ok.mp h
    cases e5
    split at h
    · obtain ⟨_, s3, e6, h⟩ := bind_eq_ok.mp h
      obtain ⟨_, s4, e7, h⟩ := bind_eq_ok.mp h
      cases e6
      cases e7
      refine (label_fin h).trans hv
    · obtain ⟨_, s3, e6, h⟩ := bind_eq_ok.mp h
      exact (label_fin h).trans ((s_resolve _ _ _ e6).2.1.trans hv)
  · obtain ⟨q, s3, e5, h⟩ := bind_eq_ok.mp h
    split at h
    · exfalso
      unfold defineEqu at h
      obtain ⟨_, _, e6, h⟩ := bind_eq_ok.mp h
      cases e6
      obtain ⟨_, s4, e7, h⟩ := bind_eq_ok.mp h
      obtain ⟨_, s5, e8, h⟩ := bind_eq_ok.mp h
      cases e8
      obtain ⟨n, s6, e9, h⟩ := bind_eq_ok.mp h
      have := Props.SasFix.sl_parseNumber _ _ _ e9
      unfold Props.SasFix.SameLab at this
      cases h
      simp [upd, this] at hn
    · cases h

/-- A run with two labels: `org 256  dw 1,2  x: ret  resb 3  y:` places x at 260 and y at 264. -/
example : (match Sas.run (asc "org 256 dw 1,2 x: ret resb 3 y:") with
    | .ok _ s => (s.labels 0).val == 260 && (s.labels 1).val == 264 && s.out.size == 5
    | .err _ => false) = true := by decide +kernel

end Props
