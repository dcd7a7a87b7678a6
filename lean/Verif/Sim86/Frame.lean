import Verif.Sim86.Step
/-!
# Every instruction except INT leaves the operating system alone
-/
namespace Sim86
variable {σ α β : Type}

def Res.state : Res σ α → St σ
  | .ok _ s => s
  | .err _ s => s

/-- `x` does not touch the world. -/
def Frame (x : M σ α) : Prop := ∀ s, (x s).state.world = s.world

theorem Frame.bind {x : M σ α} {f : α → M σ β} (hx : Frame x) (hf : ∀ a, Frame (f a)) : Frame (x >>= f) := by
  intro s
  rw [bind_run]
  have h := hx s
  cases e : x s with
  | ok a s1 => rw [e] at h; exact (hf a s1).trans h
  | err e1 s1 => rw [e] at h; exact h

theorem Frame.pure (a : α) : Frame (pure a : M σ α) := fun _ => rfl
theorem Frame.fail (e : Err) : Frame (fail e : M σ α) := fun _ => rfl
theorem Frame.getS : Frame (getS : M σ _) := fun _ => rfl
theorem Frame.modS {f : St σ → St σ} (h : ∀ s, (f s).world = s.world) : Frame (modS f) := fun s => h s
theorem Frame.getReg (r) : Frame (getReg r : M σ _) := fun _ => rfl
theorem Frame.getSreg (r) : Frame (getSreg r : M σ _) := fun _ => rfl
theorem setReg_world (s : St σ) (r v) : (s.setReg r v).world = s.world := by
  match r with
  | 0 | 1 | 2 | 3 | 4 | 5 | 6 | 7 => rfl
theorem Frame.putReg (r v) : Frame (putReg r v : M σ _) := fun s => setReg_world s r v
theorem Frame.putSreg (r v) : Frame (putSreg r v : M σ _) := by
  intro s
  match r with
  | 0 | 1 | 2 | 3 => rfl
theorem Frame.addI (a b) : Frame (addI a b : M σ _) := by
  unfold Sim86.addI; split
  · exact Frame.fail _
  · exact Frame.pure _
theorem Frame.negI (a) : Frame (negI a : M σ _) := by
  unfold Sim86.negI; split
  · exact Frame.fail _
  · exact Frame.pure _
theorem Frame.assertM (b) : Frame (assertM b : M σ _) := by
  unfold Sim86.assertM; split
  · exact Frame.pure _
  · exact Frame.fail _
theorem Frame.ite {c : Prop} [Decidable c] {x y : M σ α} (hx : Frame x) (hy : Frame y) : Frame (if c then x else y) := by
  split
  · exact hx
  · exact hy
theorem Frame.dite {c : Prop} [Decidable c] {x : c → M σ α} {y : ¬ c → M σ α} (hx : ∀ h, Frame (x h)) (hy : ∀ h, Frame (y h)) :
    Frame (if h : c then x h else y h) := by
  split
  · exact hx _
  · exact hy _
theorem Frame.Read8 (r v) : Frame (Read8 r v : M σ _) := fun _ => rfl
theorem Frame.Write8 (r o v) : Frame (Write8 r o v : M σ _) := fun _ => rfl
theorem Frame.setDsize (b) : Frame (setDsize b : M σ _) := fun _ => rfl
theorem Frame.defaultSeg (b) : Frame (defaultSeg b : M σ _) := fun _ => rfl
theorem Frame.ReadReg (r) : Frame (ReadReg r : M σ _) := by
  intro s; unfold Sim86.ReadReg; split <;> rfl
theorem Frame.WriteReg (r v) : Frame (WriteReg r v : M σ _) := by
  intro s; unfold Sim86.WriteReg; split
  · exact setReg_world _ _ _
  · simp only; split <;> exact setReg_world _ _ _
theorem Frame.theModrm : Frame (theModrm : M σ _) := by
  refine Frame.bind Frame.getS fun s => ?_
  split
  · exact Frame.pure _
  · exact Frame.fail _
theorem Frame.theSeg : Frame (theSeg : M σ _) := by
  refine Frame.bind Frame.getS fun s => ?_
  split
  · exact Frame.pure _
  · exact Frame.fail _

theorem Frame.Read16 (r v) : Frame (Read16 r v : M σ _) :=
  .bind (.Read8 _ _) fun _ => .bind (.addI _ _) fun _ => .bind (.Read8 _ _) fun _ => .pure _
theorem Frame.Write16 (r o v) : Frame (Write16 r o v : M σ _) :=
  .bind (.Write8 _ _ _) fun _ => .bind (.addI _ _) fun _ => .Write8 _ _ _
theorem Frame.ReadIByte : Frame (ReadIByte : M σ _) :=
  .bind .getS fun _ => .bind (.Read8 _ _) fun _ => .bind (.addI _ _) fun _ => .bind (.modS fun _ => rfl) fun _ => .pure _
theorem Frame.Imm16 : Frame (Imm16 : M σ _) := .bind .ReadIByte fun _ => .bind .ReadIByte fun _ => .pure _
theorem Frame.addAddr (x) : Frame (addAddr x : M σ _) :=
  .bind .getS fun _ => .bind (.addI _ _) fun _ => .modS fun _ => rfl
theorem Frame.addIp (x) : Frame (addIp x : M σ _) :=
  .bind .getS fun _ => .bind (.addI _ _) fun _ => .modS fun _ => rfl
theorem Frame.baseIndex (r) : Frame (baseIndex r : M σ _) := by
  unfold Sim86.baseIndex
  refine Frame.bind Frame.getS fun s => ?_
  split
  · exact .bind (.addI _ _) fun _ => .bind (.addAddr _) fun _ => .defaultSeg _
  · exact .bind (.addI _ _) fun _ => .bind (.addAddr _) fun _ => .defaultSeg _
  · exact .bind (.addI _ _) fun _ => .bind (.addAddr _) fun _ => .defaultSeg _
  · exact .bind (.addI _ _) fun _ => .bind (.addAddr _) fun _ => .defaultSeg _
  · exact .bind (.addAddr _) fun _ => .defaultSeg _
  · exact .bind (.addAddr _) fun _ => .defaultSeg _
  · exact .bind (.addAddr _) fun _ => .defaultSeg _
  · exact .bind (.addAddr _) fun _ => .defaultSeg _
theorem Frame.ModRM : Frame (ModRM : M σ _) := by
  have h1 := @Frame.addAddr σ
  have h2 := @Frame.ReadIByte σ
  have h3 := @Frame.Imm16 σ
  have h4 := @Frame.baseIndex σ
  unfold Sim86.ModRM
  refine .bind .getS fun s => .bind (.assertM _) fun _ => .bind h2 fun _ => .bind (.modS fun s => rfl) fun _ => ?_
  split
  · split
    · exact .bind h3 fun _ => .bind (h1 _) fun _ => .defaultSeg _
    · exact h4 _
  · exact .bind h2 fun _ => .bind (h1 _) fun _ => h4 _
  · exact .bind h3 fun _ => .bind (h1 _) fun _ => h4 _
  · exact .pure _
theorem Frame.ReadRM : Frame (ReadRM : M σ _) :=
  .bind .theModrm fun _ => .ite (.ReadReg _) (.bind .theSeg fun _ => .bind .getS fun _ => .ite (.Read16 _ _) (.Read8 _ _))
theorem Frame.WriteRM (v) : Frame (WriteRM v : M σ _) :=
  .bind .theModrm fun _ => .ite (.WriteReg _ _) (.bind .theSeg fun _ => .bind .getS fun _ => .ite (.Write16 _ _ _) (.Write8 _ _ _))
theorem Frame.DoPush (v) : Frame (DoPush v : M σ _) :=
  .bind (.getReg _) fun _ => .bind (.addI _ _) fun _ => .bind (.putReg _ _) fun _ => .Write16 _ _ _
theorem Frame.DoPop : Frame (DoPop : M σ _) :=
  .bind (.getReg _) fun _ => .bind (.Read16 _ _) fun _ => .bind (.getReg _) fun _ => .bind (.addI _ _) fun _ =>
    .bind (.putReg _ _) fun _ => .pure _
theorem Frame.DoOp (op l r) : Frame (DoOp op l r : M σ _) :=
  .bind .getS fun _ => .bind (.modS fun _ => rfl) fun _ => .ite (.WriteRM _) (.pure _)
theorem Frame.ALUOp (op sw) : Frame (ALUOp op sw : M σ _) :=
  .bind .ModRM fun _ => .bind .theModrm fun _ => .bind .ReadRM fun _ => .bind (.ReadReg _) fun _ =>
    .ite (.bind (.modS fun _ => rfl) fun _ => .DoOp _ _ _) (.DoOp _ _ _)
theorem Frame.MOV (sw) : Frame (MOV sw : M σ _) :=
  .bind .ModRM fun _ => .bind .theModrm fun _ => .ite (.bind .ReadRM fun _ => .WriteReg _ _) (.bind (.ReadReg _) fun _ => .WriteRM _)
theorem Frame.JCC (cc) : Frame (JCC cc : M σ _) := by
  refine .bind .ReadIByte fun _ => .bind .getS fun _ => ?_
  split
  · exact .fail _
  · exact .ite (.addIp _) (.pure _)
theorem Frame.DoIncDec (v) : Frame (DoIncDec v : M σ _) :=
  .bind .ReadRM fun _ => .bind (.addI _ _) fun _ => .WriteRM _
theorem Frame.bump (r d) : Frame (bump r d : M σ _) :=
  .bind (.getReg _) fun _ => .bind (.addI _ _) fun _ => .putReg _ _
theorem Frame.repMovs (w n) : Frame (repMovs w n : M σ _) := by
  induction n with
  | zero => exact .fail _
  | succ n ih =>
    refine .bind (.getReg _) fun _ => .ite (.pure _) ?_
    have tail : ∀ x y, Frame (do
      Sim86.bump CX (-1)
      Sim86.bump DI x
      Sim86.bump SI y
      Sim86.repMovs w n : M σ Unit) := fun _ _ =>
      .bind (.bump _ _) fun _ => .bind (.bump _ _) fun _ => .bind (.bump _ _) fun _ => ih
    split
    · exact .bind (.getReg _) fun _ => .bind (.getReg _) fun _ => .bind (.Read16 _ _) fun _ => .bind (.Write16 _ _ _) fun _ => tail _ _
    · exact .bind (.getReg _) fun _ => .bind (.getReg _) fun _ => .bind (.Read8 _ _) fun _ => .bind (.Write8 _ _ _) fun _ => tail _ _
theorem Frame.repCmps (n) : Frame (repCmps n : M σ _) := by
  induction n with
  | zero => exact .fail _
  | succ n ih =>
    exact .bind .getS fun _ => .ite (.bind (.Read8 _ _) fun _ => .bind (.Read8 _ _) fun _ => .bind (.DoOp _ _ _) fun _ =>
      .bind (.bump _ _) fun _ => .bind (.bump _ _) fun _ => .bind (.bump _ _) fun _ => ih) (.pure _)
theorem Frame.repScas (n) : Frame (repScas n : M σ _) := by
  induction n with
  | zero => exact .fail _
  | succ n ih =>
    exact .bind .getS fun _ => .ite (.bind (.Read8 _ _) fun _ => .bind (.DoOp _ _ _) fun _ =>
      .bind (.bump _ _) fun _ => .bind (.bump _ _) fun _ => ih) (.pure _)
theorem Frame.stosLoop (w v n it) : Frame (stosLoop w v n it : M σ _) := by
  induction n generalizing it with
  | zero => exact .fail _
  | succ n ih =>
    refine .bind (.addI _ _) fun _ => .ite (.pure _) ?_
    split
    · exact .bind (.getReg _) fun _ => .bind (.Write16 _ _ _) fun _ => .bind (.bump _ _) fun _ => ih _
    · exact .bind (.getReg _) fun _ => .bind (.bump _ _) fun _ => .bind (.Write8 _ _ _) fun _ => ih _
theorem Frame.STOS (w r) : Frame (STOS w r : M σ _) := by
  refine .bind .getS fun s => ?_
  simp only
  split
  · exact .bind (.putReg _ _) fun _ => .stosLoop _ _ _ _
  · exact .stosLoop _ _ _ _
theorem Frame.shift1 : Frame (shift1 : M σ _) := by
  refine .bind .ModRM fun _ => .bind .ReadRM fun _ => .bind .theModrm fun _ => ?_
  simp only
  split
  · exact .bind (.WriteRM _) fun _ => .modS fun _ => rfl
  · exact .bind (.WriteRM _) fun _ => .modS fun _ => rfl
  · exact .bind (.WriteRM _) fun _ => .modS fun _ => rfl
  · exact .fail _
theorem Frame.shiftCl : Frame (shiftCl : M σ _) := by
  refine .bind .ModRM fun _ => .bind .ReadRM fun _ => .bind (.getReg _) fun _ => .bind .theModrm fun _ => ?_
  simp only
  split
  · exact .bind (.WriteRM _) fun _ => .modS fun _ => rfl
  · exact .bind (.WriteRM _) fun _ => .modS fun _ => rfl
  · exact .bind (.WriteRM _) fun _ => .modS fun _ => rfl
  · exact .fail _
theorem Frame.group3 : Frame (group3 : M σ _) := by
  refine .bind .ModRM fun _ => .bind .theModrm fun _ => ?_
  split
  · exact .bind .ReadRM fun _ => .WriteRM _
  · exact .bind .ReadRM fun _ => .bind (.negI _) fun _ => .WriteRM _
  · exact .bind .ReadRM fun _ => .modS fun _ => rfl
  · exact .bind .ReadRM fun _ => .modS fun _ => rfl
  · exact .bind .ReadRM fun _ => .bind (.getReg _) fun _ => .bind (.assertM _) fun _ => .ite (.fail _) (.modS fun _ => rfl)
  · exact .bind .ReadRM fun _ => .bind .getS fun _ => .bind (.assertM _) fun _ => .ite (.fail _) (.modS fun _ => rfl)
  · exact .fail _
theorem Frame.group45 : Frame (group45 : M σ _) := by
  refine .bind .ModRM fun _ => .bind .theModrm fun _ => ?_
  split
  · exact .DoIncDec _
  · exact .DoIncDec _
  · exact .bind .getS fun _ => .bind (.DoPush _) fun _ => .bind .ReadRM fun _ => .modS fun _ => rfl
  · exact .fail _
theorem Frame.movAcc (a b) : Frame (movAcc a b : M σ _) := by
  refine .bind .Imm16 fun _ => .bind .getS fun _ => ?_
  split
  · exact .Write16 _ _ _
  · exact .Write8 _ _ _
  · exact .bind (.Read16 _ _) fun _ => .putReg _ _
  · exact .bind (.Read8 _ _) fun _ => .putReg _ _
theorem Frame.immOperand (w) : Frame (immOperand w : M σ _) :=
  .ite .Imm16 (.bind .ReadIByte fun _ => .pure _)

theorem Frame.execHigh (H : Host σ) (rep n) (hn : n ≠ 0xcd) : Frame (execHigh H rep n) := by
  unfold Sim86.execHigh
  extract_lets w
  have alu : ∀ z : Bool, Frame (do
      Sim86.setDsize w
      Sim86.ModRM
      let imm ← Sim86.immOperand z
      Sim86.DoOp (field (← Sim86.theModrm) 3) (← Sim86.ReadRM) imm : M σ Unit) := fun z =>
    .bind (.setDsize _) fun _ => .bind .ModRM fun _ => .bind (.immOperand _) fun _ => .bind .theModrm fun _ => .bind .ReadRM fun _ => .DoOp _ _ _
  split
  · exact alu _
  · exact alu _
  · exact alu _
  · exact alu _
  · exact .bind (.setDsize _) fun _ => .MOV _
  · exact .bind (.setDsize _) fun _ => .MOV _
  · exact .bind (.setDsize _) fun _ => .MOV _
  · exact .bind (.setDsize _) fun _ => .MOV _
  · exact .bind .ModRM fun _ => .bind .theModrm fun _ => .dite (fun _ => .bind (.getSreg _) fun _ => .WriteRM _) (fun _ => .fail _)
  · exact .bind .ModRM fun _ => .bind .theModrm fun _ => .bind .getS fun _ => .putReg _ _
  · exact .bind .ModRM fun _ => .bind .theModrm fun _ => .dite (fun _ => .bind .ReadRM fun _ => .putSreg _ _) (fun _ => .fail _)
  · exact .bind (.getReg _) fun _ => .putReg _ _
  · exact .bind (.getReg _) fun _ => .putReg _ _
  · exact .movAcc _ _
  · exact .movAcc _ _
  · exact .movAcc _ _
  · exact .movAcc _ _
  · exact .bind (.assertM _) fun _ => .repMovs _ _
  · exact .bind (.assertM _) fun _ => .repMovs _ _
  · exact .bind (.assertM _) fun _ => .bind (.modS fun _ => rfl) fun _ => .repCmps _
  · exact .STOS _ _
  · exact .STOS _ _
  · exact .bind (.assertM _) fun _ => .bind (.setDsize _) fun _ => .bind (.getReg _) fun _ => .bind (.Read8 _ _) fun _ =>
      .bind (.WriteReg _ _) fun _ => .bump _ _
  · exact .bind (.assertM _) fun _ => .bind (.getReg _) fun _ => .bind (.Read16 _ _) fun _ =>
      .bind (.WriteReg _ _) fun _ => .bump _ _
  · exact .bind (.assertM _) fun _ => .bind (.modS fun _ => rfl) fun _ => .repScas _
  · exact .bind .DoPop fun _ => .modS fun _ => rfl
  · exact .bind (.setDsize _) fun _ => .bind .ModRM fun _ => .bind .ReadIByte fun _ => .WriteRM _
  · exact .bind .ModRM fun _ => .bind .Imm16 fun _ => .WriteRM _
  · exact absurd rfl hn
  · exact .shift1
  · exact .shiftCl
  · exact .bind .Imm16 fun _ => .bind .getS fun _ => .bind (.DoPush _) fun _ => .addIp _
  · exact .bind .Imm16 fun _ => .addIp _
  · exact .bind .ReadIByte fun _ => .addIp _
  · exact .group3
  · exact .bind (.setDsize _) fun _ => .group45
  · exact .group45
  · exact .fail _

theorem Frame.execInst (H : Host σ) (rep) (op : Byte) (hn : op ≠ 0xcd#8) : Frame (execInst H rep op) := by
  unfold Sim86.execInst
  extract_lets n w
  refine .ite (.bind (.setDsize _) fun _ => ?_) (.ite (.bind (.modS fun _ => rfl) fun _ => .DoIncDec _)
    (.ite (.bind (.modS fun _ => rfl) fun _ => .DoIncDec _) (.ite (.bind (.getReg _) fun _ => .DoPush _)
    (.ite (.bind .DoPop fun _ => .putReg _ _) (.ite (.JCC _) (.ite (.bind (.getReg _) fun _ => .bind (.getReg _) fun _ =>
      .bind (.putReg _ _) fun _ => .putReg _ _) (.ite (.bind (.setDsize _) fun _ => .bind .ReadIByte fun _ => .WriteReg _ _)
      (.ite (.bind .Imm16 fun _ => .putReg _ _) (.execHigh _ _ _ fun h => hn (BitVec.eq_of_toNat_eq h))))))))))
  split
  · exact .ALUOp _ _
  · exact .ALUOp _ _
  · exact .bind (.immOperand _) fun _ => .bind (.modS fun _ => rfl) fun _ => .bind (.getReg _) fun _ => .DoOp _ _ _
  · exact .ite (.ite (.bind .DoPop fun _ => .putSreg _ _) (.bind (.getSreg _) fun _ => .DoPush _)) (.fail _)

end Sim86
