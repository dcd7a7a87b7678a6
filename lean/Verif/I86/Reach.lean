import Verif.I86.Code
import Verif.I86.Attr
/-!
# Terminating runs of the specified processor

`Reach K c P`: from `c` the processor gets, in finitely many defined steps without interrupt, to a state with `P`.
-/
namespace I86
namespace Cpu

/-- `n` steps without interrupt, divide error or undefined effect. -/
def runN (K : Contract) : Nat → Cpu → Option Cpu
  | 0, c => some c
  | n + 1, c =>
    match c.step K with
    | .next c => runN K n c
    | _ => none

/-- `P` is reached from `c`. -/
def Reach (K : Contract) (c : Cpu) (P : Cpu → Prop) : Prop := ∃ n c', runN K n c = some c' ∧ P c'

theorem Reach.done {K : Contract} {c : Cpu} {P : Cpu → Prop} (h : P c) : Reach K c P := ⟨0, c, rfl, h⟩

theorem Reach.step {K : Contract} {c c1 : Cpu} {P : Cpu → Prop} (h : c.step K = .next c1) (h1 : Reach K c1 P) : Reach K c P := by
  obtain ⟨n, c', e, hp⟩ := h1
  exact ⟨n + 1, c', by simp only [runN, h, e], hp⟩

theorem runN_add {K : Contract} (m n : Nat) (c : Cpu) : runN K (m + n) c = (runN K m c).bind (runN K n) := by
  induction m generalizing c with
  | zero => simp [runN]
  | succ m ih =>
    rw [Nat.succ_add]
    simp only [runN]
    cases c.step K <;> simp [ih]

theorem Reach.trans {K : Contract} {c : Cpu} {P Q : Cpu → Prop} (h : Reach K c P) (h1 : ∀ c', P c' → Reach K c' Q) :
    Reach K c Q := by
  obtain ⟨n, c', e, hp⟩ := h
  obtain ⟨m, c'', e', hq⟩ := h1 c' hp
  exact ⟨n + m, c'', by rw [runN_add, e]; exact e', hq⟩

theorem Reach.mono {K : Contract} {c : Cpu} {P Q : Cpu → Prop} (h : Reach K c P) (h1 : ∀ c', P c' → Q c') : Reach K c Q :=
  h.trans fun c' hp => .done (h1 c' hp)

theorem codeAt_of_eq {c c' : Cpu} {off : Word} {bytes : List Byte} (h : codeAt c off bytes) (hm : c'.mem = c.mem) (hcs : c'.cs = c.cs) :
    codeAt c' off bytes :=
  codeAt_congr hcs (fun _ _ => by simp only [rd8, hm]) h

theorem codeAt_drop {c : Cpu} {off : Word} {code : List Byte} (h : codeAt c off code) (i : Nat) :
    codeAt c (off + BitVec.ofNat 16 i) (code.drop i) := by
  by_cases hi : i ≤ code.length
  · have : code = code.take i ++ code.drop i := (List.take_append_drop i code).symm
    rw [this, codeAt_append] at h
    have hl : (code.take i).length = i := by simp [hi]
    rw [hl] at h
    exact h.2
  · rw [List.drop_of_length_le (by omega)]; trivial

/-- One step at offset `i` of a known piece of code. -/
theorem step_at {K : Contract} {c : Cpu} {base : Word} {code : List Byte} (i : Nat) (bytes : List Byte) (ins : Instr)
    (hc : codeAt c base code)
    (hip : c.ip = base + BitVec.ofNat 16 i) (he : Enc bytes ins) (hp : bytes <+: code.drop i) :
    c.step K = exec K ins { c with ip := base + BitVec.ofNat 16 (i + bytes.length) } := by
  have h1 := codeAt_drop hc i
  obtain ⟨t, ht⟩ := hp
  rw [← ht, codeAt_append] at h1
  rw [step_enc he (by rw [hip]; exact h1.1), hip]
  rw [BitVec.add_assoc, ← BitVec.ofNat_add]

theorem Reach.at {K : Contract} {c c1 : Cpu} {P : Cpu → Prop} {base : Word} {code : List Byte} (i : Nat) (bytes : List Byte) (ins : Instr)
    (hc : codeAt c base code) (hip : c.ip = base + BitVec.ofNat 16 i) (he : Enc bytes ins) (hp : bytes <+: code.drop i)
    (hx : exec K ins { c with ip := base + BitVec.ofNat 16 (i + bytes.length) } = .next c1)
    (h1 : Reach K c1 P) : Reach K c P :=
  .step ((step_at i bytes ins hc hip he hp).trans hx) h1

/-- What must hold after one instruction. -/
def After (K : Contract) (P : Cpu → Prop) : Out → Prop
  | .next c => Reach K c P
  | _ => False

theorem Reach.exec {K : Contract} {c : Cpu} {P : Cpu → Prop} {base : Word} {code : List Byte} (i : Nat) (bytes : List Byte) (ins : Instr)
    (hc : codeAt c base code) (hip : c.ip = base + BitVec.ofNat 16 i) (he : Enc bytes ins) (hp : bytes <+: code.drop i)
    (h1 : After K P (Cpu.exec K ins { c with ip := base + BitVec.ofNat 16 (i + bytes.length) })) : Reach K c P := by
  have := step_at (K := K) i bytes ins hc hip he hp
  match hx : Cpu.exec K ins { c with ip := base + BitVec.ofNat 16 (i + bytes.length) }, h1 with
  | .next c1, h1 => exact .step (this.trans hx) h1
  | .intr .., h1 | .divErr _, h1 | .undef, h1 => exact h1.elim

theorem After.next {K : Contract} {P : Cpu → Prop} {c : Cpu} : After K P (.next c) = Reach K c P := rfl

/-! ## Memory as seen by instructions -/

def rdb (m : Mem 20) (s o : Word) : Byte := m.get (lin s o)
def rdw (m : Mem 20) (s o : Word) : Word := rdb m s (o + 1) ++ rdb m s o
def wrb (m : Mem 20) (s o : Word) (v : Byte) : Mem 20 := m.set (lin s o) v
def wrw (m : Mem 20) (s o v : Word) : Mem 20 := wrb (wrb m s o (lo v)) s (o + 1) (hi v)

theorem rd8_eq (c : Cpu) (s o : Word) : c.rd8 s o = rdb c.mem s o := rfl
theorem rd16_eq (c : Cpu) (s o : Word) : c.rd16 s o = rdw c.mem s o := rfl
theorem wr8_eq (c : Cpu) (s o : Word) (v : Byte) : c.wr8 s o v = { c with mem := wrb c.mem s o v } := rfl
theorem wr16_eq (c : Cpu) (s o v : Word) : c.wr16 s o v = { c with mem := wrw c.mem s o v } := rfl

theorem rdb_wrb_self (m : Mem 20) (s o : Word) (v : Byte) : rdb (wrb m s o v) s o = v := Mem.get_set_self _ _ _

theorem rdb_wrb_ne (m : Mem 20) {s o s' o' : Word} (v : Byte) (h : lin s o ≠ lin s' o') :
    rdb (wrb m s o v) s' o' = rdb m s' o' := Mem.get_set_ne _ _ (lin_lt _ _) (lin_lt _ _) h

theorem rdw_wrw_self (m : Mem 20) (s o v : Word) : rdw (wrw m s o v) s o = v := by
  unfold rdw wrw
  rw [rdb_wrb_self, rdb_wrb_ne _ _ (fun h => add_one_ne o (lin_inj h).symm), rdb_wrb_self, hi_append_lo]

/-- `s':o'` is not a byte of the word at `s:o`. -/
def Apart (s o s' o' : Word) : Prop := lin s o ≠ lin s' o' ∧ lin s (o + 1) ≠ lin s' o'

theorem rdb_wrw_ne (m : Mem 20) {s o s' o' : Word} (v : Word) (h : Apart s o s' o') : rdb (wrw m s o v) s' o' = rdb m s' o' := by
  unfold wrw
  rw [rdb_wrb_ne _ _ h.2, rdb_wrb_ne _ _ h.1]

theorem lo_zext (b : Byte) : lo (b.setWidth 16) = b := by simp [lo]
theorem lo_sext (b : Byte) : lo (b.signExtend 16) = b := by
  apply BitVec.eq_of_getLsbD_eq
  intro i hi
  rw [lo, BitVec.getLsbD_setWidth, BitVec.getLsbD_signExtend]
  simp [hi]
  omega

theorem cond_2 (c : Cpu) : c.cond 2 = (c.cf) := by
  obtain ⟨_, _, _, _, _, _, _, _, _, _, _, _, _, cf, zf, sf, of, _⟩ := c
  cases cf <;> cases zf <;> cases sf <;> cases of <;> rfl
theorem cond_3 (c : Cpu) : c.cond 3 = (c.cf.map (!·)) := by
  obtain ⟨_, _, _, _, _, _, _, _, _, _, _, _, _, cf, zf, sf, of, _⟩ := c
  cases cf <;> cases zf <;> cases sf <;> cases of <;> rfl
theorem cond_4 (c : Cpu) : c.cond 4 = (c.zf) := by
  obtain ⟨_, _, _, _, _, _, _, _, _, _, _, _, _, cf, zf, sf, of, _⟩ := c
  cases cf <;> cases zf <;> cases sf <;> cases of <;> rfl
theorem cond_5 (c : Cpu) : c.cond 5 = (c.zf.map (!·)) := by
  obtain ⟨_, _, _, _, _, _, _, _, _, _, _, _, _, cf, zf, sf, of, _⟩ := c
  cases cf <;> cases zf <;> cases sf <;> cases of <;> rfl
theorem cond_6 (c : Cpu) : c.cond 6 = (c.cf.bind fun a => c.zf.map fun z => a || z) := by
  obtain ⟨_, _, _, _, _, _, _, _, _, _, _, _, _, cf, zf, sf, of, _⟩ := c
  cases cf <;> cases zf <;> cases sf <;> cases of <;> rfl
theorem cond_7 (c : Cpu) : c.cond 7 = (c.cf.bind fun a => c.zf.map fun z => !(a || z)) := by
  obtain ⟨_, _, _, _, _, _, _, _, _, _, _, _, _, cf, zf, sf, of, _⟩ := c
  cases cf <;> cases zf <;> cases sf <;> cases of <;> rfl
theorem cond_8 (c : Cpu) : c.cond 8 = (c.sf) := by
  obtain ⟨_, _, _, _, _, _, _, _, _, _, _, _, _, cf, zf, sf, of, _⟩ := c
  cases cf <;> cases zf <;> cases sf <;> cases of <;> rfl
theorem cond_9 (c : Cpu) : c.cond 9 = (c.sf.map (!·)) := by
  obtain ⟨_, _, _, _, _, _, _, _, _, _, _, _, _, cf, zf, sf, of, _⟩ := c
  cases cf <;> cases zf <;> cases sf <;> cases of <;> rfl
theorem cond_12 (c : Cpu) : c.cond 12 = (c.sf.bind fun a => c.of.map fun b => a != b) := by
  obtain ⟨_, _, _, _, _, _, _, _, _, _, _, _, _, cf, zf, sf, of, _⟩ := c
  cases cf <;> cases zf <;> cases sf <;> cases of <;> rfl
theorem cond_13 (c : Cpu) : c.cond 13 = (c.sf.bind fun a => c.of.map fun b => !(a != b)) := by
  obtain ⟨_, _, _, _, _, _, _, _, _, _, _, _, _, cf, zf, sf, of, _⟩ := c
  cases cf <;> cases zf <;> cases sf <;> cases of <;> rfl
theorem cond_14 (c : Cpu) : c.cond 14 = (c.zf.bind fun z => c.sf.bind fun a => c.of.map fun b => z || (a != b)) := by
  obtain ⟨_, _, _, _, _, _, _, _, _, _, _, _, _, cf, zf, sf, of, _⟩ := c
  cases cf <;> cases zf <;> cases sf <;> cases of <;> rfl
theorem cond_15 (c : Cpu) : c.cond 15 = (c.zf.bind fun z => c.sf.bind fun a => c.of.map fun b => !(z || (a != b))) := by
  obtain ⟨_, _, _, _, _, _, _, _, _, _, _, _, _, cf, zf, sf, of, _⟩ := c
  cases cf <;> cases zf <;> cases sf <;> cases of <;> rfl

/-- A conditional jump on a known condition. -/
def jumpIf (b : Option Bool) (rel : Word) (c : Cpu) : Out :=
  match b with
  | none => .undef
  | some b => .next { c with ip := if b then c.ip + rel else c.ip }

theorem exec_jcc (K : Contract) (cc : Fin 16) (rel : Word) (c : Cpu) : Cpu.exec K (.jcc cc rel) c = jumpIf (c.cond cc) rel c := by
  simp only [Cpu.exec]
  match c.cond cc with
  | none => rfl
  | some true => rfl
  | some false => rfl

theorem jumpIf_some (b : Bool) (rel : Word) (c : Cpu) : jumpIf (some b) rel c = .next { c with ip := if b then c.ip + rel else c.ip } := rfl

attribute [i86x] jumpIf_some cond_2 cond_3 cond_4 cond_5 cond_6 cond_7 cond_8 cond_9 cond_12 cond_13 cond_14 cond_15 Option.map_some Option.bind_some BitVec.and_self
  List.length_cons List.length_nil Nat.zero_add
attribute [i86x] After.next Cpu.exec alu aluFlags carryIn AluOp.usesCarry rd rm16 rm8 reg16 reg8 setRm16 setRm8 setReg16
  setReg8 segOf eff baseVal baseSeg sreg setSreg push pop rd8_eq rd16_eq wr8_eq wr16_eq lo_zext lo_sext hi_append_lo lo_append
  hi_append if_true if_false Bool.or_true Bool.true_or Option.getD_none Option.getD_some bne_self_eq_false Bool.false_or
  Bool.not_false Bool.not_true Bool.or_false aluRes Flag.of aluCF aluOF decide_false decide_true Bool.false_eq_true
  Option.some.injEq stosN

/-- Execute the instruction `ins`, encoded by the bytes `bs`, at offset `i` of the code known by `hc`. -/
macro "sx" hc:term:max i:term:max bs:term:max ins:term:max : tactic =>
  `(tactic| (refine Reach.exec $i $bs $ins (codeAt_of_eq $hc rfl rfl) (by first | rfl | simp) ⟨by decide, fun _ => rfl⟩ (by decide) ?_
             try simp only [exec_jcc]
             simp only [i86x, reduceCtorEq, Nat.reduceAdd]))

end Cpu
end I86
