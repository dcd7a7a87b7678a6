import Verif.Props.SccIds
import Verif.Util.KeepTac
/-!
# Identifiers of the compiler (C34): the tables during a compilation

Every function of the compiler only adds identifiers to the tables. One lemma for each function of the model, in the order of the model.
-/
namespace Props.SccKeep
open Prog Text Scc Props.SccLex Props.SccIds

/-- The identifiers keep their numbers. -/
def R (s s' : S) : Prop := ∀ names, Ids s names → ∃ more, Ids s' (names ++ more)

theorem pre : Preorder R :=
  ⟨fun _ names h => ⟨[], by simpa using h⟩, fun _ _ _ h1 h2 names h => by
    obtain ⟨m1, h⟩ := h1 names h
    obtain ⟨m2, h⟩ := h2 _ h
    exact ⟨m1 ++ m2, by simpa using h⟩⟩

abbrev Keep {α : Type} (x : A α) : Prop := Pres R x

/-- Changes of other parts of the state. -/
theorem same {s s' : S} (h1 : s'.idHash = s.idHash) (h2 : s'.idText = s.idText) (h3 : s'.idCount = s.idCount) : R s s' := by
  intro names h
  refine ⟨[], ?_⟩
  simpa [Ids, h1, h2, h3] using h

theorem ub_ok {b : Bool} {s s' : S} {a : Unit} (h : ubUnless b s = .ok a s') : s = s' := by
  unfold ubUnless at h
  split at h <;> cases h
  rfl

syntax "keep'" : tactic
macro_rules | `(tactic| keep') => `(tactic| keep Props.SccKeep (intro s; exact same rfl rfl rfl))

theorem k_failIf : ∀ (x0 : Bool), Keep (Scc.failIf x0) := by
  intros; unfold Scc.failIf; keep'
theorem k_setText : ∀ (x0 : List Byte), Keep (Scc.setText x0) := by
  intros; unfold Scc.setText; keep'
theorem k_nextChar : Keep (Scc.nextChar) := by
  intros; unfold Scc.nextChar; keep'
theorem k_getNum : ∀ (n init base : Nat), Keep (Scc.getNum init base n) := by
  intro n
  induction n with
  | zero => intros; unfold Scc.getNum; keep'
  | succ n ih => intros; unfold Scc.getNum; keep'
theorem k_unescape : Keep (Scc.unescape) := by
  intros; unfold Scc.unescape; keep'
theorem k_putStr : ∀ (x0 : Byte), Keep (Scc.putStr x0) := by
  intros; unfold Scc.putStr; keep'
theorem k_skipWhitespace : Keep (Scc.skipWhitespace) := by
  intros; unfold Scc.skipWhitespace; keep'
theorem k_strLoop : ∀ (n : Nat) , Keep (Scc.strLoop n) := by
  intro  n
  induction n with
  | zero => intros; unfold Scc.strLoop; keep'
  | succ n ih => intros; unfold Scc.strLoop; keep'
theorem k_getStringLiteral : Keep (Scc.getStringLiteral) := by
  intros; unfold Scc.getStringLiteral; keep'
theorem k_getIdent : ∀ (c : Byte), Keep (Scc.getIdent c) := by
  intro c s a s' h names hi
  unfold Scc.getIdent at h
  obtain ⟨t, s1, e1, h⟩ := bind_eq_ok.mp h
  cases e1
  obtain ⟨_, s2, e2, h⟩ := bind_eq_ok.mp h
  obtain ⟨_, s3, e3, h⟩ := bind_eq_ok.mp h
  cases e2
  obtain rfl := ub_ok e3
  rcases probe_spec hi (c :: (s.cur :: s.inp).takeWhile isIdChar) with ⟨i, p, h1, h2⟩ | ⟨j, hj, hm, hf, hb, h2⟩
  · rw [h2] at h
    cases h
    exact ⟨[], by simpa using hi⟩
  · rw [h2] at h
    obtain ⟨_, s4, e4, h⟩ := bind_eq_ok.mp h
    unfold failIf at e4
    split at e4
    · cases e4
    · next hne =>
      cases e4
      cases h
      have hlt : names.length < idMax := by
        have h1 := hi.cnt
        have h2 := hi.le
        have h3 : s.idCount ≠ idMax := by simpa using hne
        omega
      exact ⟨_, hi.add _ hm hlt hj hf hb⟩
theorem k_setTok : ∀ (x0 : Nat) (x1 : Nat), Keep (Scc.setTok x0 x1) := by
  intros; unfold Scc.setTok; keep'
theorem k_getOperator : ∀ (x0 : Nat), Keep (Scc.getOperator x0) := by
  intros; unfold Scc.getOperator; keep'
theorem k_getNumber : ∀ (x0 : Byte), Keep (Scc.getNumber x0) := by
  intros; unfold Scc.getNumber; keep'
theorem k_getCharLit : Keep (Scc.getCharLit) := by
  intros; unfold Scc.getCharLit; keep'
theorem k_getTokenAt : Keep (Scc.getTokenAt) := by
  intros; unfold Scc.getTokenAt; keep'
theorem k_getToken : Keep (Scc.getToken) := by
  intros; unfold Scc.getToken; keep'
theorem k_raw : ∀ (n : List Byte) , Keep (Scc.raw n) := by
  intro  n
  induction n with
  | nil => intros; unfold Scc.raw; keep'
  | cons b n ih => intros; unfold Scc.raw; keep'
theorem k_outA : ∀ (x0 : List Byte), Keep (Scc.outA x0) := by
  intros; unfold Scc.outA; keep'
theorem k_addRegConstWith : ∀ (out : List Byte → A Unit), (∀ l, Keep (out l)) → ∀ (r : Nat) (amm : Int), Keep (Scc.addRegConstWith out r amm) := by
  intros; unfold Scc.addRegConstWith; keep'
theorem k_flushSpAdj : Keep (Scc.flushSpAdj) := by
  intros; unfold Scc.flushSpAdj; keep'
theorem k_checkSize : Keep (Scc.checkSize) := by
  intros; unfold Scc.checkSize; keep'
theorem k_outB : ∀ (x0 : List Byte), Keep (Scc.outB x0) := by
  intros; unfold Scc.outB; keep'
theorem k_flushPushAx : Keep (Scc.flushPushAx) := by
  intros; unfold Scc.flushPushAx; keep'
theorem k_emitChecks : Keep (Scc.emitChecks) := by
  intros; unfold Scc.emitChecks; keep'
theorem k_output : ∀ (x0 : List Byte), Keep (Scc.output x0) := by
  intros; unfold Scc.output; keep'
theorem k_outputWord : ∀ (x0 : Int), Keep (Scc.outputWord x0) := by
  intros; unfold Scc.outputWord; keep'
theorem k_makeLabel : Keep (Scc.makeLabel) := by
  intros; unfold Scc.makeLabel; keep'
theorem k_getNamedLabel : ∀ (x0 : Int), Keep (Scc.getNamedLabel x0) := by
  intros; unfold Scc.getNamedLabel; keep'
theorem k_rd : ∀ (x0 : Nat) (x1 : Int), Keep (Scc.rd x0 x1) := by
  intros; unfold Scc.rd; keep'
theorem k_wr : ∀ (x0 : Nat) (x1 : Int) (x2 : Byte), Keep (Scc.wr x0 x1 x2) := by
  intros; unfold Scc.wr; keep'
theorem k_fixFused : ∀ (x0 : Nat) (x1 : Int), Keep (Scc.fixFused x0 x1) := by
  intros; unfold Scc.fixFused; keep'
theorem k_fixPlain : ∀ (x0 : Nat) (x1 : Int), Keep (Scc.fixPlain x0 x1) := by
  intros; unfold Scc.fixPlain; keep'
theorem k_fixOne : ∀ (x0 : Nat) (x1 : Bool), Keep (Scc.fixOne x0 x1) := by
  intros; unfold Scc.fixOne; keep'
theorem k_doFixups : ∀ (r : Bool), ∀ (n : Nat) (a : Nat), Keep (Scc.doFixups r n a) := by
  intro r n
  induction n with
  | zero => intros; unfold Scc.doFixups; keep'
  | succ n ih => intros; unfold Scc.doFixups; keep'
theorem k_addFixupLabel : ∀ (x0 : Nat), Keep (Scc.addFixupLabel x0) := by
  intros; unfold Scc.addFixupLabel; keep'
theorem k_addFixupVar : ∀ (x0 : Nat), Keep (Scc.addFixupVar x0) := by
  intros; unfold Scc.addFixupVar; keep'
theorem k_emitLocalLabel : ∀ (x0 : Int), Keep (Scc.emitLocalLabel x0) := by
  intros; unfold Scc.emitLocalLabel; keep'
theorem k_mapLine : ∀ (x0 : Nat), Keep (Scc.mapLine x0) := by
  intros; unfold Scc.mapLine; keep'
theorem k_emitGlobalLabel : ∀ (x0 : Nat), Keep (Scc.emitGlobalLabel x0) := by
  intros; unfold Scc.emitGlobalLabel; keep'
theorem k_emitGlobalRef : ∀ (x0 : Nat), Keep (Scc.emitGlobalRef x0) := by
  intros; unfold Scc.emitGlobalRef; keep'
theorem k_emitGlobalRefRel : ∀ (x0 : Nat), Keep (Scc.emitGlobalRefRel x0) := by
  intros; unfold Scc.emitGlobalRefRel; keep'
theorem k_varAt : ∀ (x0 : Int), Keep (Scc.varAt x0) := by
  intros; unfold Scc.varAt; keep'
theorem k_emitModrm : ∀ (x0 : Nat) (x1 : Nat) (x2 : Nat) (x3 : Int), Keep (Scc.emitModrm x0 x1 x2 x3) := by
  intros; unfold Scc.emitModrm; keep'
theorem k_emitLoadAx : ∀ (x0 : Nat) (x1 : Nat) (x2 : Int), Keep (Scc.emitLoadAx x0 x1 x2) := by
  intros; unfold Scc.emitLoadAx; keep'
theorem k_emitStoreAx : ∀ (x0 : Nat) (x1 : Nat) (x2 : Int), Keep (Scc.emitStoreAx x0 x1 x2) := by
  intros; unfold Scc.emitStoreAx; keep'
theorem k_emitStoreConst : ∀ (x0 : Nat) (x1 : Nat) (x2 : Int), Keep (Scc.emitStoreConst x0 x1 x2) := by
  intros; unfold Scc.emitStoreConst; keep'
theorem k_emitAddRegConst : ∀ (x0 : Nat) (x1 : Int), Keep (Scc.emitAddRegConst x0 x1) := by
  intros; unfold Scc.emitAddRegConst; keep'
theorem k_emitMovRR : ∀ (x0 : Nat) (x1 : Nat), Keep (Scc.emitMovRR x0 x1) := by
  intros; unfold Scc.emitMovRR; keep'
theorem k_emitMovRImm : ∀ (x0 : Nat) (x1 : Int), Keep (Scc.emitMovRImm x0 x1) := by
  intros; unfold Scc.emitMovRImm; keep'
theorem k_shiftLoop : ∀ (r : Byte), ∀ (n : Nat) (a : Nat), Keep (Scc.shiftLoop r n a) := by
  intro r n
  induction n with
  | zero => intros; unfold Scc.shiftLoop; keep'
  | succ n ih => intros; unfold Scc.shiftLoop; keep'
theorem k_emitScaleAx : ∀ (x0 : Int), Keep (Scc.emitScaleAx x0) := by
  intros; unfold Scc.emitScaleAx; keep'
theorem k_emitDivCX : Keep (Scc.emitDivCX) := by
  intros; unfold Scc.emitDivCX; keep'
theorem k_emitDivAxConst : ∀ (x0 : Int), Keep (Scc.emitDivAxConst x0) := by
  intros; unfold Scc.emitDivAxConst; keep'
theorem k_emitLocalJump : ∀ (x0 : Int), Keep (Scc.emitLocalJump x0) := by
  intros; unfold Scc.emitLocalJump; keep'
theorem k_emitJmp : ∀ (x0 : Int), Keep (Scc.emitJmp x0) := by
  intros; unfold Scc.emitJmp; keep'
theorem k_emitFarJcc : ∀ (x0 : Nat) (x1 : Int), Keep (Scc.emitFarJcc x0 x1) := by
  intros; unfold Scc.emitFarJcc; keep'
theorem k_emitJcc : ∀ (x0 : Nat) (x1 : Int), Keep (Scc.emitJcc x0 x1) := by
  intros; unfold Scc.emitJcc; keep'
theorem k_emitLoadAddr : ∀ (x0 : Nat) (x1 : Nat) (x2 : Int), Keep (Scc.emitLoadAddr x0 x1 x2) := by
  intros; unfold Scc.emitLoadAddr; keep'
theorem k_emitExtend : ∀ (x0 : Bool), Keep (Scc.emitExtend x0) := by
  intros; unfold Scc.emitExtend; keep'
theorem k_expect : ∀ (x0 : Nat), Keep (Scc.expect x0) := by
  intros; unfold Scc.expect; keep'
theorem k_expectId : Keep (Scc.expectId) := by
  intros; unfold Scc.expectId; keep'
theorem k_arrayAt : ∀ (x0 : Int), Keep (Scc.arrayAt x0) := by
  intros; unfold Scc.arrayAt; keep'
theorem k_sizeMembers : ∀ (f : Nat → Int → A Nat), (∀ t e, Keep (f t e)) → ∀ (u : Bool) (n : Nat) (k : Option Nat) (a : Nat), Keep (Scc.sizeMembers f u n k a) := by
  intro f _ u n
  induction n with
  | zero => intros; unfold Scc.sizeMembers; keep'
  | succ n ih => intro k a; cases k <;> (unfold Scc.sizeMembers; keep')
theorem k_sizeofType : ∀ (n : Nat) (t : Nat) (e : Int), Keep (Scc.sizeofType n t e) := by
  intro  n
  induction n with
  | zero => intros; unfold Scc.sizeofType; keep'
  | succ n ih => intros; unfold Scc.sizeofType; keep'
theorem k_sizeofCurrentType : Keep (Scc.sizeofCurrentType) := by
  intros; unfold Scc.sizeofCurrentType; keep'
theorem k_setType : ∀ (x0 : Nat), Keep (Scc.setType x0) := by
  intros; unfold Scc.setType; keep'
theorem k_setVal : ∀ (x0 : Int), Keep (Scc.setVal x0) := by
  intros; unfold Scc.setVal; keep'
theorem k_setExtra : ∀ (x0 : Int), Keep (Scc.setExtra x0) := by
  intros; unfold Scc.setExtra; keep'
theorem k_setPush : ∀ (x0 : Bool), Keep (Scc.setPush x0) := by
  intros; unfold Scc.setPush; keep'
theorem k_setDead : ∀ (x0 : Bool), Keep (Scc.setDead x0) := by
  intros; unfold Scc.setDead; keep'
theorem k_lvalToRval : Keep (Scc.lvalToRval) := by
  intros; unfold Scc.lvalToRval; keep'
theorem k_incDecInst : ∀ (x0 : Nat) (x1 : Bool) (x2 : Bool) (x3 : Nat), Keep (Scc.incDecInst x0 x1 x2 x3) := by
  intros; unfold Scc.incDecInst; keep'
theorem k_doIncDecOp : ∀ (x0 : Nat) (x1 : Bool), Keep (Scc.doIncDecOp x0 x1) := by
  intros; unfold Scc.doIncDecOp; keep'
theorem k_addVarDeclScope : ∀ (x0 : Nat) (x1 : Int), Keep (Scc.addVarDeclScope x0 x1) := by
  intros; unfold Scc.addVarDeclScope; keep'
theorem k_addVarDecl : ∀ (x0 : Int), Keep (Scc.addVarDecl x0) := by
  intros; unfold Scc.addVarDecl; keep'
theorem k_addLateGlobalVar : ∀ (x0 : Int), Keep (Scc.addLateGlobalVar x0) := by
  intros; unfold Scc.addLateGlobalVar; keep'
theorem k_pushScope : Keep (Scc.pushScope) := by
  intros; unfold Scc.pushScope; keep'
theorem k_popVar : ∀ (x0 : Nat), Keep (Scc.popVar x0) := by
  intros; unfold Scc.popVar; keep'
theorem k_popVars : ∀ (n : Nat) (t : Nat), Keep (Scc.popVars n t) := by
  intro  n
  induction n with
  | zero => intros; unfold Scc.popVars; keep'
  | succ n ih => intros; unfold Scc.popVars; keep'
theorem k_popScope : Keep (Scc.popScope) := by
  intros; unfold Scc.popScope; keep'
theorem k_handlePrimaryId : Keep (Scc.handlePrimaryId) := by
  intros; unfold Scc.handlePrimaryId; keep'
theorem k_go_ : ∀ (go : Task → A Int), (∀ t, Keep (go t)) → ∀ (x0 : Scc.Task), Keep (Scc.go' go x0) := by
  intros; unfold Scc.go'; keep'
theorem k_parseAbstractDecl : ∀ (go : Task → A Int), (∀ t, Keep (go t)) → Keep (Scc.parseAbstractDecl go) := by
  intros; unfold Scc.parseAbstractDecl; keep'
theorem k_varOf : ∀ (x0 : Nat), Keep (Scc.varOf x0) := by
  intros; unfold Scc.varOf; keep'
theorem k_handleVarArg : ∀ (go : Task → A Int), (∀ t, Keep (go t)) → Keep (Scc.handleVarArg go) := by
  intros; unfold Scc.handleVarArg; keep'
theorem k_strBytes : ∀ (n : Nat) , Keep (Scc.strBytes n) := by
  intro  n
  induction n with
  | zero => intros; unfold Scc.strBytes; keep'
  | succ n ih => intros; unfold Scc.strBytes; keep'
theorem k_strLocal : Keep (Scc.strLocal) := by
  intros; unfold Scc.strLocal; keep'
theorem k_parseStrLit : Keep (Scc.parseStrLit) := by
  intros; unfold Scc.parseStrLit; keep'
theorem k_parsePrimary : ∀ (go : Task → A Int), (∀ t, Keep (go t)) → Keep (Scc.parsePrimary go) := by
  intros; unfold Scc.parsePrimary; keep'
theorem k_getVal : Keep (Scc.getVal) := by
  intros; unfold Scc.getVal; keep'
theorem k_getStoredVal : ∀ (x0 : Option Nat), Keep (Scc.getStoredVal x0) := by
  intros; unfold Scc.getStoredVal; keep'
theorem k_pushReg : ∀ (x0 : Nat), Keep (Scc.pushReg x0) := by
  intros; unfold Scc.pushReg; keep'
theorem k_saveRegs : Keep (Scc.saveRegs) := by
  intros; unfold Scc.saveRegs; keep'
theorem k_argChunk : ∀ (x0 : Nat), Keep (Scc.argChunk x0) := by
  intros; unfold Scc.argChunk; keep'
theorem k_storeArg : ∀ (x0 : Nat), Keep (Scc.storeArg x0) := by
  intros; unfold Scc.storeArg; keep'
theorem k_parseArgs : ∀ (go : Task → A Int), (∀ t, Keep (go t)) → ∀ (x0 : Nat), Keep (Scc.parseArgs go x0) := by
  intros; unfold Scc.parseArgs; keep'
theorem k_callTarget : Keep (Scc.callTarget) := by
  intros; unfold Scc.callTarget; keep'
theorem k_emitCall : ∀ (x0 : Option Nat) (x1 : Nat), Keep (Scc.emitCall x0 x1) := by
  intros; unfold Scc.emitCall; keep'
theorem k_parseCall : ∀ (go : Task → A Int), (∀ t, Keep (go t)) → Keep (Scc.parseCall go) := by
  intros; unfold Scc.parseCall; keep'
theorem k_indexBase : Keep (Scc.indexBase) := by
  intros; unfold Scc.indexBase; keep'
theorem k_mulI : ∀ (x0 : Int) (x1 : Int), Keep (Scc.mulI x0 x1) := by
  intros; unfold Scc.mulI; keep'
theorem k_indexAddr : ∀ (x0 : Option Nat) (x1 : Nat), Keep (Scc.indexAddr x0 x1) := by
  intros; unfold Scc.indexAddr; keep'
theorem k_parseIndex : ∀ (go : Task → A Int), (∀ t, Keep (go t)) → Keep (Scc.parseIndex go) := by
  intros; unfold Scc.parseIndex; keep'
theorem k_findMember : ∀ (id n : Nat) (k : Option Nat) (a : Nat), Keep (Scc.findMember id n k a) := by
  intro id n
  induction n with
  | zero => intros; unfold Scc.findMember; keep'
  | succ n ih => intro k a; cases k <;> (unfold Scc.findMember; keep')
theorem k_memberAddr : ∀ (x0 : Nat) (x1 : Nat) (x2 : Bool), Keep (Scc.memberAddr x0 x1 x2) := by
  intros; unfold Scc.memberAddr; keep'
theorem k_parseMember : Keep (Scc.parseMember) := by
  intros; unfold Scc.parseMember; keep'
theorem k_parsePostfix : ∀ (go : Task → A Int), (∀ t, Keep (go t)) → Keep (Scc.parsePostfix go) := by
  intros; unfold Scc.parsePostfix; keep'
theorem k_toBool : Keep (Scc.toBool) := by
  intros; unfold Scc.toBool; keep'
theorem k_doAddrOf : Keep (Scc.doAddrOf) := by
  intros; unfold Scc.doAddrOf; keep'
theorem k_doUnary : ∀ (x0 : Nat) (x1 : Bool), Keep (Scc.doUnary x0 x1) := by
  intros; unfold Scc.doUnary; keep'
theorem k_parseUnaryOp : ∀ (go : Task → A Int), (∀ t, Keep (go t)) → Keep (Scc.parseUnaryOp go) := by
  intros; unfold Scc.parseUnaryOp; keep'
theorem k_parseSizeof : ∀ (go : Task → A Int), (∀ t, Keep (go t)) → Keep (Scc.parseSizeof go) := by
  intros; unfold Scc.parseSizeof; keep'
theorem k_parseUnary : ∀ (go : Task → A Int), (∀ t, Keep (go t)) → Keep (Scc.parseUnary go) := by
  intros; unfold Scc.parseUnary; keep'
theorem k_parseCast : ∀ (go : Task → A Int), (∀ t, Keep (go t)) → Keep (Scc.parseCast go) := by
  intros; unfold Scc.parseCast; keep'
theorem k_finishOp : ∀ (x0 : Nat), Keep (Scc.finishOp x0) := by
  intros; unfold Scc.finishOp; keep'
theorem k_doBinOp : ∀ (x0 : Nat) (x1 : Nat), Keep (Scc.doBinOp x0 x1) := by
  intros; unfold Scc.doBinOp; keep'
theorem k_doRhsLvalBinOp : ∀ (x0 : Nat), Keep (Scc.doRhsLvalBinOp x0) := by
  intros; unfold Scc.doRhsLvalBinOp; keep'
theorem k_doRhsConstBinOp : ∀ (x0 : Nat), Keep (Scc.doRhsConstBinOp x0) := by
  intros; unfold Scc.doRhsConstBinOp; keep'
theorem k_doConstBinOp : ∀ (x0 : Nat) (x1 : Int) (x2 : Int), Keep (Scc.doConstBinOp x0 x1 x2) := by
  intros; unfold Scc.doConstBinOp; keep'
theorem k_doCondHasExpr : ∀ (x0 : Int) (x1 : Bool), Keep (Scc.doCondHasExpr x0 x1) := by
  intros; unfold Scc.doCondHasExpr; keep'
theorem k_doCond : ∀ (go : Task → A Int), (∀ t, Keep (go t)) → ∀ (x0 : Int) (x1 : Bool), Keep (Scc.doCond go x0 x1) := by
  intros; unfold Scc.doCond; keep'
theorem k_forceToReg : Keep (Scc.forceToReg) := by
  intros; unfold Scc.forceToReg; keep'
theorem k_parseMaybeDead : ∀ (go : Task → A Int), (∀ t, Keep (go t)) → ∀ (x0 : Bool), Keep (Scc.parseMaybeDead go x0) := by
  intros; unfold Scc.parseMaybeDead; keep'
theorem k_handleCondOp : ∀ (go : Task → A Int), (∀ t, Keep (go t)) → Keep (Scc.handleCondOp go) := by
  intros; unfold Scc.handleCondOp; keep'
theorem k_handleLhsLvalLoc : ∀ (x0 : Nat), Keep (Scc.handleLhsLvalLoc x0) := by
  intros; unfold Scc.handleLhsLvalLoc; keep'
theorem k_lhsStep : ∀ (x0 : Nat) (x1 : Nat), Keep (Scc.lhsStep x0 x1) := by
  intros; unfold Scc.lhsStep; keep'
theorem k_finishLogic : ∀ (x0 : Nat) (x1 : Int) (x2 : Int), Keep (Scc.finishLogic x0 x1 x2) := by
  intros; unfold Scc.finishLogic; keep'
theorem k_assignStruct : ∀ (x0 : Nat) (x1 : Int) (x2 : Int), Keep (Scc.assignStruct x0 x1 x2) := by
  intros; unfold Scc.assignStruct; keep'
theorem k_assignALU : ∀ (x0 : Nat) (x1 : Bool) (x2 : Nat) (x3 : Nat) (x4 : Int), Keep (Scc.assignALU x0 x1 x2 x3 x4) := by
  intros; unfold Scc.assignALU; keep'
theorem k_assignOther : ∀ (x0 : Nat) (x1 : Nat) (x2 : Bool) (x3 : Nat) (x4 : Nat) (x5 : Int), Keep (Scc.assignOther x0 x1 x2 x3 x4 x5) := by
  intros; unfold Scc.assignOther; keep'
theorem k_assignOp : ∀ (x0 : Nat) (x1 : Nat) (x2 : Nat) (x3 : Nat) (x4 : Int), Keep (Scc.assignOp x0 x1 x2 x3 x4) := by
  intros; unfold Scc.assignOp; keep'
theorem k_finishAssign : ∀ (x0 : Nat) (x1 : Nat) (x2 : Nat) (x3 : Int) (x4 : Int), Keep (Scc.finishAssign x0 x1 x2 x3 x4) := by
  intros; unfold Scc.finishAssign; keep'
theorem k_finishVar : ∀ (x0 : Nat) (x1 : Nat) (x2 : Nat), Keep (Scc.finishVar x0 x1 x2) := by
  intros; unfold Scc.finishVar; keep'
theorem k_finishBin : ∀ (x0 : Nat) (x1 : Nat) (x2 : Nat) (x3 : Int) (x4 : Int), Keep (Scc.finishBin x0 x1 x2 x3 x4) := by
  intros; unfold Scc.finishBin; keep'
theorem k_finishExpr1 : ∀ (x0 : Nat) (x1 : Nat) (x2 : Int) (x3 : Nat) (x4 : Int) (x5 : Int), Keep (Scc.finishExpr1 x0 x1 x2 x3 x4 x5) := by
  intros; unfold Scc.finishExpr1; keep'
theorem k_parseBinary : ∀ (go : Task → A Int), (∀ t, Keep (go t)) → ∀ (x0 : Nat) (x1 : Nat), Keep (Scc.parseBinary go x0 x1) := by
  intros; unfold Scc.parseBinary; keep'
theorem k_parseExpr1 : ∀ (go : Task → A Int), (∀ t, Keep (go t)) → ∀ (x0 : Nat), Keep (Scc.parseExpr1 go x0) := by
  intros; unfold Scc.parseExpr1; keep'
theorem k_parseRhs : ∀ (go : Task → A Int), (∀ t, Keep (go t)) → ∀ (x0 : Nat), Keep (Scc.parseRhs go x0) := by
  intros; unfold Scc.parseRhs; keep'
theorem k_parseExpr : ∀ (go : Task → A Int), (∀ t, Keep (go t)) → ∀ (x0 : Nat), Keep (Scc.parseExpr go x0) := by
  intros; unfold Scc.parseExpr; keep'
theorem k_saveBaseType : Keep (Scc.saveBaseType) := by
  intros; unfold Scc.saveBaseType; keep'
theorem k_setLast : ∀ (x0 : Nat) (x1 : Option Nat) (x2 : Option Nat), Keep (Scc.setLast x0 x1 x2) := by
  intros; unfold Scc.setLast; keep'
theorem k_parseMemberList : ∀ (go : Task → A Int), (∀ t, Keep (go t)) → ∀ (x0 : Nat) (x1 : Option Nat), Keep (Scc.parseMemberList go x0 x1) := by
  intros; unfold Scc.parseMemberList; keep'
theorem k_parseMembers : ∀ (go : Task → A Int), (∀ t, Keep (go t)) → ∀ (x0 : Nat) (x1 : Option Nat), Keep (Scc.parseMembers go x0 x1) := by
  intros; unfold Scc.parseMembers; keep'
theorem k_structName : Keep (Scc.structName) := by
  intros; unfold Scc.structName; keep'
theorem k_parseStruct : ∀ (go : Task → A Int), (∀ t, Keep (go t)) → Keep (Scc.parseStruct go) := by
  intros; unfold Scc.parseStruct; keep'
theorem k_parseEnums : ∀ (go : Task → A Int), (∀ t, Keep (go t)) → ∀ (x0 : Int), Keep (Scc.parseEnums go x0) := by
  intros; unfold Scc.parseEnums; keep'
theorem k_parseEnum : ∀ (go : Task → A Int), (∀ t, Keep (go t)) → Keep (Scc.parseEnum go) := by
  intros; unfold Scc.parseEnum; keep'
theorem k_parseSpecs : ∀ (go : Task → A Int), (∀ t, Keep (go t)) → ∀ (x0 : Nat), Keep (Scc.parseSpecs go x0) := by
  intros; unfold Scc.parseSpecs; keep'
theorem k_parseDeclSpecs : ∀ (go : Task → A Int), (∀ t, Keep (go t)) → Keep (Scc.parseDeclSpecs go) := by
  intros; unfold Scc.parseDeclSpecs; keep'
theorem k_putId : ∀ (x0 : Scc.Dest) (x1 : Int), Keep (Scc.putId x0 x1) := by
  intros; unfold Scc.putId; keep'
theorem k_parseParams : ∀ (go : Task → A Int), (∀ t, Keep (go t)) → Keep (Scc.parseParams go) := by
  intros; unfold Scc.parseParams; keep'
theorem k_moveBounds : ∀ (n : Nat) (t : Nat), Keep (Scc.moveBounds n t) := by
  intro  n
  induction n with
  | zero => intros; unfold Scc.moveBounds; keep'
  | succ n ih => intros; unfold Scc.moveBounds; keep'
theorem k_parseBounds : ∀ (go : Task → A Int), (∀ t, Keep (go t)) → Keep (Scc.parseBounds go) := by
  intros; unfold Scc.parseBounds; keep'
theorem k_declId : ∀ (x0 : Scc.Dest), Keep (Scc.declId x0) := by
  intros; unfold Scc.declId; keep'
theorem k_declRest : ∀ (go : Task → A Int), (∀ t, Keep (go t)) → ∀ (x0 : Scc.Dest), Keep (Scc.declRest go x0) := by
  intros; unfold Scc.declRest; keep'
theorem k_parseDeclarator : ∀ (go : Task → A Int), (∀ t, Keep (go t)) → ∀ (x0 : Scc.Dest), Keep (Scc.parseDeclarator go x0) := by
  intros; unfold Scc.parseDeclarator; keep'
theorem k_doDecl : ∀ (go : Task → A Int), (∀ t, Keep (go t)) → Keep (Scc.doDecl go) := by
  intros; unfold Scc.doDecl; keep'
theorem k_parseFirstDecl : ∀ (go : Task → A Int), (∀ t, Keep (go t)) → Keep (Scc.parseFirstDecl go) := by
  intros; unfold Scc.parseFirstDecl; keep'
theorem k_nextDecl : ∀ (go : Task → A Int), (∀ t, Keep (go t)) → Keep (Scc.nextDecl go) := by
  intros; unfold Scc.nextDecl; keep'
theorem k_doLoopStatements : ∀ (go : Task → A Int), (∀ t, Keep (go t)) → ∀ (x0 : Int) (x1 : Int), Keep (Scc.doLoopStatements go x0 x1) := by
  intros; unfold Scc.doLoopStatements; keep'
theorem k_ensureSwitchStmt : Keep (Scc.ensureSwitchStmt) := by
  intros; unfold Scc.ensureSwitchStmt; keep'
theorem k_parseStmts : ∀ (go : Task → A Int), (∀ t, Keep (go t)) → Keep (Scc.parseStmts go) := by
  intros; unfold Scc.parseStmts; keep'
theorem k_parseBlock : ∀ (go : Task → A Int), (∀ t, Keep (go t)) → Keep (Scc.parseBlock go) := by
  intros; unfold Scc.parseBlock; keep'
theorem k_parseCases : ∀ (go : Task → A Int), (∀ t, Keep (go t)) → ∀ (n : Nat) , Keep (Scc.parseCases go n) := by
  intro go _ n
  induction n with
  | zero => intros; unfold Scc.parseCases; keep'
  | succ n ih => intros; unfold Scc.parseCases; keep'
theorem k_emitCases : ∀ (next : Int) (l : List Int), Keep (Scc.emitCases next l) := by
  intro next l
  induction l with
  | nil => unfold Scc.emitCases; keep'
  | cons c l ih => cases l <;> (unfold Scc.emitCases; keep')
theorem k_switchStmtLabel : ∀ (go : Task → A Int), (∀ t, Keep (go t)) → Keep (Scc.switchStmtLabel go) := by
  intros; unfold Scc.switchStmtLabel; keep'
theorem k_parseCase : ∀ (go : Task → A Int), (∀ t, Keep (go t)) → Keep (Scc.parseCase go) := by
  intros; unfold Scc.parseCase; keep'
theorem k_parseDefault : ∀ (go : Task → A Int), (∀ t, Keep (go t)) → Keep (Scc.parseDefault go) := by
  intros; unfold Scc.parseDefault; keep'
theorem k_getSemicolon : Keep (Scc.getSemicolon) := by
  intros; unfold Scc.getSemicolon; keep'
theorem k_parseReturn : ∀ (go : Task → A Int), (∀ t, Keep (go t)) → Keep (Scc.parseReturn go) := by
  intros; unfold Scc.parseReturn; keep'
theorem k_parseIf : ∀ (go : Task → A Int), (∀ t, Keep (go t)) → Keep (Scc.parseIf go) := by
  intros; unfold Scc.parseIf; keep'
theorem k_forIter : ∀ (go : Task → A Int), (∀ t, Keep (go t)) → ∀ (x0 : Nat) (x1 : Nat), Keep (Scc.forIter go x0 x1) := by
  intros; unfold Scc.forIter; keep'
theorem k_parseFor : ∀ (go : Task → A Int), (∀ t, Keep (go t)) → Keep (Scc.parseFor go) := by
  intros; unfold Scc.parseFor; keep'
theorem k_parseWhile : ∀ (go : Task → A Int), (∀ t, Keep (go t)) → Keep (Scc.parseWhile go) := by
  intros; unfold Scc.parseWhile; keep'
theorem k_parseDo : ∀ (go : Task → A Int), (∀ t, Keep (go t)) → Keep (Scc.parseDo go) := by
  intros; unfold Scc.parseDo; keep'
theorem k_finishSwitch : Keep (Scc.finishSwitch) := by
  intros; unfold Scc.finishSwitch; keep'
theorem k_parseSwitch : ∀ (go : Task → A Int), (∀ t, Keep (go t)) → Keep (Scc.parseSwitch go) := by
  intros; unfold Scc.parseSwitch; keep'
theorem k_localVar : ∀ (go : Task → A Int), (∀ t, Keep (go t)) → ∀ (x0 : Nat), Keep (Scc.localVar go x0) := by
  intros; unfold Scc.localVar; keep'
theorem k_parseLocals : ∀ (go : Task → A Int), (∀ t, Keep (go t)) → ∀ (x0 : Nat), Keep (Scc.parseLocals go x0) := by
  intros; unfold Scc.parseLocals; keep'
theorem k_parseIdStmt : ∀ (go : Task → A Int), (∀ t, Keep (go t)) → Keep (Scc.parseIdStmt go) := by
  intros; unfold Scc.parseIdStmt; keep'
theorem k_parseSimple : ∀ (go : Task → A Int), (∀ t, Keep (go t)) → Keep (Scc.parseSimple go) := by
  intros; unfold Scc.parseSimple; keep'
theorem k_parseKeyword : ∀ (go : Task → A Int), (∀ t, Keep (go t)) → Keep (Scc.parseKeyword go) := by
  intros; unfold Scc.parseKeyword; keep'
theorem k_parseStatement : ∀ (go : Task → A Int), (∀ t, Keep (go t)) → Keep (Scc.parseStatement go) := by
  intros; unfold Scc.parseStatement; keep'
theorem k_addParams : ∀ (n : Nat) (t : Nat), Keep (Scc.addParams n t) := by
  intro  n
  induction n with
  | zero => intros; unfold Scc.addParams; keep'
  | succ n ih => intros; unfold Scc.addParams; keep'
theorem k_reserve : ∀ (n : Nat) (t : Nat), Keep (Scc.reserve n t) := by
  intro  n
  induction n with
  | zero => intros; unfold Scc.reserve; keep'
  | succ n ih => intros; unfold Scc.reserve; keep'
theorem k_openFunction : Keep (Scc.openFunction) := by
  intros; unfold Scc.openFunction; keep'
theorem k_parseFunction : ∀ (go : Task → A Int), (∀ t, Keep (go t)) → ∀ (x0 : Nat), Keep (Scc.parseFunction go x0) := by
  intros; unfold Scc.parseFunction; keep'
theorem k_initString : ∀ (x0 : Nat), Keep (Scc.initString x0) := by
  intros; unfold Scc.initString; keep'
theorem k_parseGlobals : ∀ (go : Task → A Int), (∀ t, Keep (go t)) → ∀ (x0 : Nat), Keep (Scc.parseGlobals go x0) := by
  intros; unfold Scc.parseGlobals; keep'
theorem k_parseExternal : ∀ (go : Task → A Int), (∀ t, Keep (go t)) → Keep (Scc.parseExternal go) := by
  intros; unfold Scc.parseExternal; keep'
theorem k_unit0 : ∀ (x : A Unit), Keep x → Keep (Scc.unit0 x) := by
  intros; unfold Scc.unit0; keep'
theorem k_step : ∀ (go : Task → A Int), (∀ t, Keep (go t)) → ∀ t, Keep (Scc.step go t) := by
  intro go hgo t; cases t <;> (unfold Scc.step; keep')
theorem k_run : ∀ (n : Nat) (t : Task), Keep (Scc.run n t) := by
  intro  n
  induction n with
  | zero => intros; unfold Scc.run; keep'
  | succ n ih => intros; unfold Scc.run; keep'
theorem k_externals : ∀ (m : Nat), ∀ (n : Nat) , Keep (Scc.externals m n) := by
  intro m n
  induction n with
  | zero => intros; unfold Scc.externals; keep'
  | succ n ih => intros; unfold Scc.externals; keep'
theorem k_placeVars : ∀ (n : Nat) (t : Nat), Keep (Scc.placeVars n t) := by
  intro  n
  induction n with
  | zero => intros; unfold Scc.placeVars; keep'
  | succ n ih => intros; unfold Scc.placeVars; keep'
theorem k_finish : Keep (Scc.finish) := by
  intros; unfold Scc.finish; keep'

end Props.SccKeep
