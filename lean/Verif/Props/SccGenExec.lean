import Verif.Props.SccGen
/-!
# Compiled expressions (C43): what the code does
-/
namespace SccGen
open Scc SccCode I86
open I86.Cpu hiding lo hi rd

/-- The surroundings of an expression: the segment of code and stack, the frame pointer, the part `L..T` of the segment in which the stack
grows (the code is below it, the variables are above it), the places and the values of the variables. -/
structure Fr where
  K : Contract
  sg : Word
  bp : Word
  L : Nat
  T : Nat
  off : Nat → Int
  ρ : Nat → Word
  xs : List Nat
  lt : L ≤ T
  hT : T < 2 ^ 16
  above : ∀ x ∈ xs, T ≤ (bp + BitVec.ofInt 16 (off x)).toNat ∧ (bp + BitVec.ofInt 16 (off x)).toNat + 1 < 2 ^ 16

variable (F : Fr)

/-- Code and variables are as before. -/
def Keep (c c' : Cpu) : Prop := ∀ o : Word, o.toNat < F.L ∨ F.T ≤ o.toNat → rdb c'.mem F.sg o = rdb c.mem F.sg o

theorem Keep.refl (c : Cpu) : Keep F c c := fun _ _ => rfl
theorem Keep.trans {F : Fr} {a b c : Cpu} (h : Keep F a b) (h' : Keep F b c) : Keep F a c := fun o ho => (h' o ho).trans (h o ho)
theorem Keep.of_mem {F : Fr} {a b : Cpu} (h : b.mem = a.mem) : Keep F a b := fun o _ => by rw [h]

/-- The values on the stack, the last one pushed first. -/
structure Mst (m : List Word) (c : Cpu) : Prop where
  sp : c.sp.toNat + 2 * m.length = F.T
  get : ∀ i (h : i < m.length), rdw c.mem F.sg (c.sp + BitVec.ofNat 16 (2 * i)) = m[i]

/-- The processor keeps the values `stk` for later, the last one in BX if `r`. -/
structure Inv (r : Bool) (stk : List Word) (c : Cpu) : Prop where
  cs : c.cs = F.sg
  ss : c.ss = F.sg
  bp : c.bp = F.bp
  vars : ∀ x ∈ F.xs, rdw c.mem F.sg (F.bp + BitVec.ofInt 16 (F.off x)) = F.ρ x
  stk : ∃ m, stk = (if r then [c.bx] else []) ++ m ∧ Mst F m c

/-- The same, with the last value in AX if `p`. -/
def InvP (p r : Bool) (stk : List Word) (c : Cpu) : Prop := if p then ∃ st, stk = c.ax :: st ∧ Inv F r st c else Inv F r stk c

/-- The code `bs` in front of which `c` is gets it to a state with `P` behind `bs`. -/
def Ex (c : Cpu) (bs : List Byte) (P : Cpu → Prop) : Prop :=
  c.codeAt c.ip bs → c.ip.toNat + bs.length ≤ F.L → Reach F.K c fun c' => c'.ip = c.ip + BitVec.ofNat 16 bs.length ∧ Keep F c c' ∧ P c'

variable {F}

theorem Ex.nil {c : Cpu} {P : Cpu → Prop} (h : P c) : Ex F c [] P := fun _ _ => .done ⟨by simp, .refl F c, h⟩

theorem Ex.mono {c : Cpu} {bs : List Byte} {P Q : Cpu → Prop} (h : Ex F c bs P) (hq : ∀ c', P c' → Q c') : Ex F c bs Q :=
  fun hc hl => (h hc hl).mono fun _ ⟨hi, hk, hp⟩ => ⟨hi, hk, hq _ hp⟩

theorem Ex.of_at {c : Cpu} {bs : List Byte} {P : Cpu → Prop} (h : At F.K c bs P) (hm : ∀ c', P c' → c'.mem = c.mem) : Ex F c bs P :=
  fun hc _ => (h hc).mono fun _ ⟨hi, hp⟩ => ⟨hi, .of_mem (hm _ hp), hp⟩

theorem Ex.append {c : Cpu} {as bs : List Byte} {P Q : Cpu → Prop} (h0 : c.cs = F.sg) (ha : Ex F c as P)
    (hb : ∀ c', P c' → c'.cs = F.sg ∧ Ex F c' bs Q) : Ex F c (as ++ bs) Q := by
  intro hc hl
  obtain ⟨h1, h2⟩ := codeAt_append.mp hc
  rw [List.length_append] at hl
  have hlt := F.lt
  have hT := F.hT
  refine (ha h1 (by omega)).trans fun c1 ⟨hi, hk, hp⟩ => ?_
  obtain ⟨hs, hb⟩ := hb _ hp
  have hip : c1.ip.toNat = c.ip.toNat + as.length := by rw [hi, BitVec.toNat_add, BitVec.toNat_ofNat]; omega
  refine (hb ?_ (by omega)).mono fun c2 ⟨hi2, hk2, hq⟩ => ⟨?_, hk.trans hk2, hq⟩
  · rw [hi]
    refine codeAt_congr (hs.trans h0.symm) (fun i hib => ?_) h2
    rw [rd8_eq, rd8_eq, h0]
    refine hk _ (.inl ?_)
    simp only [BitVec.toNat_add, BitVec.toNat_ofNat]; omega
  · rw [hi2, hi, List.length_append, BitVec.ofNat_add, BitVec.add_assoc]

/-- One instruction. -/
theorem Ex.one {c : Cpu} {bs : List Byte} {ins : Instr} {P : Cpu → Prop} (he : Enc bs ins)
    (h : ∃ c', exec F.K ins { c with ip := c.ip + BitVec.ofNat 16 bs.length } = .next c' ∧ c'.ip = c.ip + BitVec.ofNat 16 bs.length ∧ Keep F c c' ∧ P c') :
    Ex F c bs P := by
  intro hc _
  obtain ⟨c', e, hi, hk, hp⟩ := h
  exact .step ((step_enc he hc).trans e) (.done ⟨hi, hk, hp⟩)

/-! ## The registers that matter -/

theorem Inv.congr {r : Bool} {stk : List Word} {c c' : Cpu} (h : Inv F r stk c) (hcs : c'.cs = c.cs) (hss : c'.ss = c.ss) (hbp : c'.bp = c.bp)
    (hsp : c'.sp = c.sp) (hbx : c'.bx = c.bx) (hm : c'.mem = c.mem) : Inv F r stk c' := by
  obtain ⟨h1, h2, h3, h4, m, h5, h6, h7⟩ := h
  refine ⟨hcs.trans h1, hss.trans h2, hbp.trans h3, by rw [hm]; exact h4, m, by rw [hbx]; exact h5, by rw [hsp]; exact h6, by rw [hsp, hm]; exact h7⟩

theorem Inv.upto {r : Bool} {stk : List Word} {c c' : Cpu} (h : Inv F r stk c) {a x d : Word} (hu : Upto { c with ax := a, cx := x, dx := d } c') :
    Inv F r stk c' := by
  refine h.congr ?_ ?_ ?_ ?_ ?_ ?_ <;> rw [hu]

theorem Keep.rdw {c c' : Cpu} (h : Keep F c c') {o : Word} (ho : F.T ≤ o.toNat) (h1 : o.toNat + 1 < 2 ^ 16) : rdw c'.mem F.sg o = rdw c.mem F.sg o := by
  have e : (o + 1).toNat = o.toNat + 1 := by rw [BitVec.toNat_add]; simp; omega
  unfold Cpu.rdw
  rw [h o (.inr ho), h (o + 1) (.inr (by omega))]

theorem Keep.vars {c c' : Cpu} (h : Keep F c c') (hv : ∀ x ∈ F.xs, Cpu.rdw c.mem F.sg (F.bp + BitVec.ofInt 16 (F.off x)) = F.ρ x) :
    ∀ x ∈ F.xs, Cpu.rdw c'.mem F.sg (F.bp + BitVec.ofInt 16 (F.off x)) = F.ρ x := fun x hx => by
  obtain ⟨h1, h2⟩ := F.above x hx
  rw [h.rdw h1 h2, hv x hx]

/-! ## Saving values -/

theorem Inv.push {b : Word} {m : List Word} {c : Cpu} (h : Inv F false m c) (hb : c.bx = b) (hl : F.L + 2 * (m.length + 1) ≤ F.T) :
    Ex F c [0x53] fun c' => Inv F false (b :: m) c' ∧ c'.ax = c.ax := by
  obtain ⟨h1, h2, h3, h4, m', h5, h6, h7⟩ := h
  obtain rfl : m = m' := h5
  have hT := F.hT
  have hspn : (c.sp - 2).toNat = c.sp.toNat - 2 := by rw [BitVec.toNat_sub]; simp; omega
  have hspn1 : (c.sp - 2 + 1).toNat = c.sp.toNat - 1 := by rw [BitVec.toNat_add, hspn]; simp; omega
  have hap : ∀ o : Word, o ≠ c.sp - 2 → o ≠ c.sp - 2 + 1 → rdb (wrw c.mem F.sg (c.sp - 2) b) F.sg o = rdb c.mem F.sg o := fun o ho ho1 =>
    rdb_wrw_ne _ _ ⟨fun e => ho (lin_inj e).symm, fun e => ho1 (lin_inj e).symm⟩
  have hk : Keep F c { c with ip := c.ip + BitVec.ofNat 16 1, sp := c.sp - 2, mem := wrw c.mem F.sg (c.sp - 2) b } := by
    intro o ho
    refine hap o (fun e => ?_) (fun e => ?_)
    · rw [e, hspn] at ho; omega
    · rw [e, hspn1] at ho; omega
  refine .one (ins := .push 3) ⟨by simp, fun _ => rfl⟩ ⟨{ c with ip := c.ip + BitVec.ofNat 16 1, sp := c.sp - 2, mem := wrw c.mem F.sg (c.sp - 2) b }, ?_, rfl, hk,
    ⟨h1, h2, h3, hk.vars h4, b :: m, rfl, ?_, ?_⟩, rfl⟩
  · simp only [Cpu.exec, Cpu.push, reg16, hb, wr16_eq, h2]; rfl
  · simp only [List.length_cons, hspn]; omega
  · intro i hi
    cases i with
    | zero =>
      simp only [Nat.mul_zero, List.getElem_cons_zero]
      rw [show BitVec.ofNat 16 0 = 0#16 from rfl, BitVec.add_zero]
      exact rdw_wrw_self ..
    | succ i =>
      simp only [List.length_cons] at hi
      have e : c.sp - 2 + BitVec.ofNat 16 (2 * (i + 1)) = c.sp + BitVec.ofNat 16 (2 * i) := by
        rw [Nat.mul_add, BitVec.ofNat_add, BitVec.add_comm (BitVec.ofNat 16 (2 * i)), ← BitVec.add_assoc]
        congr 1
        exact BitVec.sub_add_cancel c.sp 2#16
      have hn : (c.sp + BitVec.ofNat 16 (2 * i)).toNat = c.sp.toNat + 2 * i := by rw [BitVec.toNat_add, BitVec.toNat_ofNat]; omega
      have hn1 : (c.sp + BitVec.ofNat 16 (2 * i) + 1).toNat = c.sp.toNat + 2 * i + 1 := by
        rw [BitVec.toNat_add, hn]; simp; omega
      have hne : ∀ o : Word, c.sp.toNat ≤ o.toNat → rdb (wrw c.mem F.sg (c.sp - 2) b) F.sg o = rdb c.mem F.sg o := fun o ho =>
        hap o (fun e => by rw [e, hspn] at ho; omega) (fun e => by rw [e, hspn1] at ho; omega)
      simp only [List.getElem_cons_succ, e]
      rw [← h7 i (by omega)]
      unfold Cpu.rdw
      rw [hne _ (by omega), hne _ (by omega)]

theorem Inv.xchg {st : List Word} {c : Cpu} (h : Inv F false st c) :
    Ex F c [0x93] fun c' => Inv F true (c.ax :: st) c' := by
  obtain ⟨h1, h2, h3, h4, m, h5, h6, h7⟩ := h
  refine .one (ins := .xchgAx 3) ⟨by simp, fun _ => rfl⟩ ⟨{ c with ip := c.ip + BitVec.ofNat 16 1, ax := c.bx, bx := c.ax }, rfl, rfl, .of_mem rfl, ?_⟩
  exact ⟨h1, h2, h3, h4, m, by rw [h5]; rfl, h6, h7⟩

/-- `FlushPushAx`. -/
theorem InvP.flush {p r : Bool} {stk : List Word} {c : Cpu} (h : InvP F p r stk c) (hl : F.L + 2 * stk.length ≤ F.T) :
    Ex F c (flB p r) fun c' => Inv F (p || r) stk c' := by
  cases p with
  | false => exact .nil h
  | true =>
    obtain ⟨st, rfl, h⟩ := h
    cases r with
    | false => exact h.xchg
    | true =>
      obtain ⟨h1, h2, h3, h4, m, h5, h6⟩ := h
      obtain rfl : st = c.bx :: m := h5
      have h' : Inv F false m c := ⟨h1, h2, h3, h4, m, rfl, h6⟩
      refine (h'.push rfl (by simp only [List.length_cons] at hl; omega)).append h1 fun c1 ⟨hi, ha⟩ => ⟨hi.cs, ?_⟩
      rw [← ha]
      exact hi.xchg

theorem Inv.popped {a : Word} {st : List Word} {c : Cpu} (h : Inv F false (a :: st) c) : Cpu.rdw c.mem F.sg c.sp = a ∧
    ∀ c' : Cpu, c'.cs = c.cs → c'.ss = c.ss → c'.bp = c.bp → c'.sp = c.sp + 2 → c'.mem = c.mem → Inv F false st c' := by
  obtain ⟨h1, h2, h3, h4, m, h5, h6, h7⟩ := h
  obtain rfl : a :: st = m := h5
  refine ⟨?_, fun c' e1 e2 e3 e4 e5 => ⟨e1.trans h1, e2.trans h2, e3.trans h3, by rw [e5]; exact h4, st, rfl, ?_, fun i hi => ?_⟩⟩
  · have := h7 0 (by simp)
    simp only [Nat.mul_zero, List.getElem_cons_zero] at this
    rw [show BitVec.ofNat 16 0 = 0#16 from rfl, BitVec.add_zero] at this
    exact this
  · have hT := F.hT
    simp only [List.length_cons] at h6
    rw [e4, BitVec.toNat_add]; simp; omega
  · have := h7 (i + 1) (by simpa using hi)
    simp only [List.getElem_cons_succ] at this
    rw [e4, e5, ← this, Nat.mul_add, BitVec.ofNat_add, BitVec.add_comm (BitVec.ofNat 16 (2 * i)), ← BitVec.add_assoc]
    rfl

theorem Inv.popCx {a : Word} {st : List Word} {c : Cpu} (h : Inv F false (a :: st) c) :
    Ex F c [0x59] fun c' => Inv F false st c' ∧ c'.cx = a ∧ c'.ax = c.ax := by
  obtain ⟨hr, hi⟩ := h.popped
  refine .one (ins := .pop 1) ⟨by simp, fun _ => rfl⟩ ⟨{ c with ip := c.ip + BitVec.ofNat 16 1, sp := c.sp + 2, cx := a }, ?_, rfl, .of_mem rfl, hi _ rfl rfl rfl rfl rfl, rfl, rfl⟩
  simp only [Cpu.exec, Cpu.pop, rd16_eq, setReg16, h.ss, hr]; rfl

theorem Inv.popAx {a : Word} {st : List Word} {c : Cpu} (h : Inv F false (a :: st) c) :
    Ex F c [0x58] fun c' => Inv F false st c' ∧ c'.cx = c.cx ∧ c'.ax = a := by
  obtain ⟨hr, hi⟩ := h.popped
  refine .one (ins := .pop 0) ⟨by simp, fun _ => rfl⟩ ⟨{ c with ip := c.ip + BitVec.ofNat 16 1, sp := c.sp + 2, ax := a }, ?_, rfl, .of_mem rfl, hi _ rfl rfl rfl rfl rfl, rfl, rfl⟩
  simp only [Cpu.exec, Cpu.pop, rd16_eq, setReg16, h.ss, hr]; rfl

theorem Inv.unBx {a : Word} {st : List Word} {c : Cpu} (h : Inv F true (a :: st) c) : c.bx = a ∧
    ∀ c' : Cpu, c'.cs = c.cs → c'.ss = c.ss → c'.bp = c.bp → c'.sp = c.sp → c'.mem = c.mem → Inv F false st c' := by
  obtain ⟨h1, h2, h3, h4, m, h5, h6, h7⟩ := h
  cases h5
  exact ⟨rfl, fun c' e1 e2 e3 e4 e5 => ⟨e1.trans h1, e2.trans h2, e3.trans h3, by rw [e5]; exact h4, _, rfl, by rw [e4]; exact h6, by rw [e4, e5]; exact h7⟩⟩

theorem Inv.unXchg {a : Word} {st : List Word} {c : Cpu} (h : Inv F true (a :: st) c) :
    Ex F c [0x93] fun c' => Inv F false st c' ∧ c'.cx = c.cx ∧ c'.ax = a := by
  obtain ⟨hr, hi⟩ := h.unBx
  exact .one (ins := .xchgAx 3) ⟨by simp, fun _ => rfl⟩ ⟨{ c with ip := c.ip + BitVec.ofNat 16 1, ax := c.bx, bx := c.ax }, rfl, rfl, .of_mem rfl,
    hi _ rfl rfl rfl rfl rfl, rfl, hr⟩

end SccGen
