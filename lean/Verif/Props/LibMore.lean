import Verif.Props.Lib
import Verif.Swar.Code
/-!
# C58: the remaining machine code of `lib.h` and the BIOS calls of `swar.c`
-/
namespace Props
open I86 I86.Cpu

/-- `GetBP()` returns the word at BP, where the frame of a function holds the BP of its caller; nothing changes. -/
theorem C58_getBP (K : Contract) (c : Cpu) (hc : c.codeAt c.ip Lib.getBP) :
    Reach K c fun c' => c'.ax = c.rd16 c.ss c.bp ∧ Kept c 3 c' := by
  sx hc 0 [0x8b, 0x46, 0x00] (.movRegRm true 0 (.mem none .bp 0))
  refine .done ⟨?_, rfl, rfl, rfl, rfl, rfl, rfl, rfl, rfl⟩
  show rdw c.mem c.ss (c.bp + 0) = rdw c.mem c.ss c.bp
  rw [show c.bp + 0 = c.bp from BitVec.add_zero _]

/-- `GetDS()` returns the data segment; nothing changes. -/
theorem C58_getDS (K : Contract) (c : Cpu) (hc : c.codeAt c.ip Lib.getDS) :
    Reach K c fun c' => c'.ax = c.ds ∧ Kept c 2 c' := by
  sx hc 0 [0x8c, 0xd8] (.movRmSeg (.reg 0) .ds)
  exact .done ⟨rfl, rfl, rfl, rfl, rfl, rfl, rfl, rfl, rfl⟩

/-- `clock()` returns the low word of the tick count of the BIOS at 0040:006C, changes only the two bytes below SP, and leaves the code segment in DS. -/
theorem C58_clock (K : Contract) (c : Cpu) (hc : c.codeAt c.ip Lib.clock)
    (hcode : ∀ i < 9, ¬ Below c (lin c.cs (c.ip + BitVec.ofNat 16 i))) :
    Reach K c fun c' => c'.ax = c.rd16 0x40 0x6c ∧
      (∀ a < 2 ^ 20, ¬ Below c a → c'.mem.get a = c.mem.get a) ∧ Kept { c with mem := c'.mem, ds := c.cs } 9 c' := by
  have hc1 := codeAt_wrw (v := c.cs) hc fun i hi => Below.apart (hcode i hi)
  sx hc 0 [0x31, 0xc0] (.aluRmReg .xor true (.reg 0) 0)
  sx hc 2 [0x8e, 0xd8] (.movSegRm .ds (.reg 0))
  sx hc 4 [0xa1, 0x6c, 0x04] (.movAccMem true none 0x46c)
  sx hc 7 [0x0e] (.pushSeg .cs)
  sx hc1 8 [0x1f] (.popSeg .ds)
  refine .done ⟨?_, fun a ha h => ?_, ?_⟩
  · simp only [BitVec.xor_self]
    simp only [rdw, rdb, lin]
    rfl
  · exact get_wr16_ne c _ ha (fun e => h (.inl e)) (fun e => h (.inr e))
  · refine ⟨rfl, ?_, rfl, rfl, ?_, rfl, rfl, rfl⟩
    · simp only; bv_omega
    · exact rdw_wrw_self _ _ _ _

/-- `Int10h(ax, bx)` calls the video BIOS with its arguments in AX and BX. -/
theorem C58_int10h (K : Contract) (c : Cpu) (hc : c.codeAt c.ip Swar.int10h) :
    Reach K c fun c' => c'.step K = .intr 0x10 { c with ax := arg c 0, bx := arg c 1, ip := c.ip + 8 } := by
  rw [arg0, arg1]
  sx hc 0 [0x8b, 0x46, 0x04] (.movRegRm true 0 (.mem none .bp 4))
  sx hc 3 [0x8b, 0x5e, 0x06] (.movRegRm true 3 (.mem none .bp 6))
  refine .done ?_
  refine Eq.trans (step_at (base := c.ip) (code := Swar.int10h) 6 [0xcd, 0x10] (.int 0x10) ?_ ?_ ⟨by decide, fun _ => rfl⟩ (by decide)) ?_
  · exact codeAt_of_eq hc rfl rfl
  · rfl
  simp only [i86x]
  rfl

/-- `ReadKey()` calls function 0 of the keyboard BIOS; its result is what the BIOS leaves in AX. -/
theorem C58_readKey (K : Contract) (c : Cpu) (hc : c.codeAt c.ip Swar.readKey) :
    Reach K c fun c' => ∃ c1, c'.step K = .intr 0x16 c1 ∧ hi c1.ax = 0 ∧ Kept c 4 c1 := by
  sx hc 0 [0xb4, 0x00] (.movImm false (.reg 4) 0)
  refine .done ⟨{ c with ax := (0 : Byte) ++ lo c.ax, ip := c.ip + 4 }, ?_, ?_⟩
  · refine Eq.trans (step_at (base := c.ip) (code := Swar.readKey) 2 [0xcd, 0x16] (.int 0x16) ?_ ?_ ⟨by decide, fun _ => rfl⟩ (by decide)) ?_
    · exact codeAt_of_eq hc rfl rfl
    · rfl
    simp only [i86x]
    rfl
  · refine ⟨?_, rfl, rfl, rfl, rfl, rfl, rfl, rfl, rfl⟩
    exact hi_append _ _

/-- `KeyPressed()` calls function 1 of the keyboard BIOS … -/
theorem C58_keyPressed_before (K : Contract) (c : Cpu) (hc : c.codeAt c.ip Swar.keyPressed) :
    Reach K c fun c' => ∃ c1, c'.step K = .intr 0x16 c1 ∧ hi c1.ax = 1 ∧ Kept c 4 c1 := by
  sx hc 0 [0xb4, 0x01] (.movImm false (.reg 4) 1)
  refine .done ⟨{ c with ax := (1 : Byte) ++ lo c.ax, ip := c.ip + 4 }, ?_, ?_⟩
  · refine Eq.trans (step_at (base := c.ip) (code := Swar.keyPressed) 2 [0xcd, 0x16] (.int 0x16) ?_ ?_ ⟨by decide, fun _ => rfl⟩ (by decide)) ?_
    · exact codeAt_of_eq hc rfl rfl
    · rfl
    simp only [i86x]
    rfl
  · refine ⟨?_, rfl, rfl, rfl, rfl, rfl, rfl, rfl, rfl⟩
    exact hi_append _ _

/-- … and, whatever state it returns to, answers 0 if the BIOS sets ZF (no key) and 1 otherwise. -/
theorem C58_keyPressed_after (K : Contract) (c : Cpu) (base : Word) (b : Bool) (hc : c.codeAt base Swar.keyPressed) (hip : c.ip = base + 4)
    (hz : c.zf = some b) : Reach K c fun c' => c'.ax = (if b then 0 else 1) ∧ Kept { c with ip := base } 10 c' := by
  refine Reach.exec 4 [0xb8, 0x00, 0x00] (.movImm true (.reg 0) 0) hc hip ⟨by decide, fun _ => rfl⟩ (by decide) ?_
  simp only [i86x, Nat.reduceAdd]
  refine Reach.exec 7 [0x74, 0x01] (.jcc 4 1) (codeAt_of_eq hc rfl rfl) rfl ⟨by decide, fun _ => rfl⟩ (by decide) ?_
  cases b
  · simp only [hz, i86x]
    sx hc 9 [0x40] (.incDec false true (.reg 0))
    exact .done ⟨rfl, rfl, rfl, rfl, rfl, rfl, rfl, rfl, rfl⟩
  · simp only [hz, i86x]
    refine .done ⟨rfl, rfl, rfl, rfl, rfl, rfl, rfl, rfl, ?_⟩
    simp only; bv_omega

/-! ## Examples: states meeting the hypotheses -/

example (K : Contract) : Reach K ((frame Lib.getBP [] []).store 0x2000 0xfff0 [0x34, 0x12]) fun c' => c'.ax = 0x1234 :=
  (C58_getBP K _ (by decide +kernel)).mono fun _ h => h.1.trans (by decide +kernel)

example (K : Contract) : Reach K (frame Lib.getDS [] []) fun c' => c'.ax = 0x2000 :=
  (C58_getDS K _ (by decide +kernel)).mono fun _ h => h.1

/-- With DS ≠ CS before the call, DS is lost. -/
example (K : Contract) : Reach K { (frame Lib.clock [] []).store 0 0x46c [0x34, 0x12] with ds := 0x3000 } fun c' =>
    c'.ax = 0x1234 ∧ c'.ds = 0x2000 :=
  (C58_clock K _ (by decide +kernel) (by decide +kernel)).mono fun _ h => ⟨h.1.trans (by decide +kernel), h.2.2.2.2.2.2.1⟩

example (K : Contract) : Reach K (frame Swar.int10h [] [0x0004, 0x0100]) fun c' =>
    ∃ c1, c'.step K = .intr 0x10 c1 ∧ c1.ax = 4 ∧ c1.bx = 0x100 :=
  (C58_int10h K _ (by decide +kernel)).mono fun _ h => ⟨_, h, by decide +kernel, by decide +kernel⟩

example (K : Contract) : Reach K (frame Swar.readKey [] []) fun c' => ∃ c1, c'.step K = .intr 0x16 c1 ∧ hi c1.ax = 0 :=
  (C58_readKey K _ (by decide +kernel)).mono fun _ ⟨c1, h⟩ => ⟨c1, h.1, h.2.1⟩

example (K : Contract) : Reach K (frame Swar.keyPressed [] []) fun c' => ∃ c1, c'.step K = .intr 0x16 c1 ∧ hi c1.ax = 1 :=
  (C58_keyPressed_before K _ (by decide +kernel)).mono fun _ ⟨c1, h⟩ => ⟨c1, h.1, h.2.1⟩

example (K : Contract) : Reach K { frame Swar.keyPressed [] [] with ip := 0x104, zf := some false, ax := 0x1c0d } fun c' => c'.ax = 1 :=
  (C58_keyPressed_after K _ 0x100 false (by decide +kernel) (by decide +kernel) rfl).mono fun _ h => h.1

end Props
