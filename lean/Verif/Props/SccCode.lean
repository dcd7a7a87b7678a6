import Verif.Scc.Emit
import Verif.Scc.Parse
import Verif.I86.Reach
import Verif.Util.Run
/-!
# The code `scc.c` emits for additions of constants and for scaling (C37, C38)

The theorems are about the bytes that the model of the compiler writes, run on the specified processor with any `Contract` (real
processor and simulator alike).
-/
namespace SccCode
open Prog Scc I86
open I86.Cpu hiding lo hi rd

theorem run_failIf {β : Type} {b : Bool} {g : Unit → A β} {s : S} {r : Res S β} (hb : b = false) (h2 : g () s = r) : (failIf b >>= g) s = r := by
  subst hb; exact h2

/-! ## What is written -/

/-- Code is being emitted and nothing is postponed. -/
structure Live (s : S) : Prop where
  dead : s.dead = false
  spAdj : s.spAdj = 0
  push : s.push = false

/-- Exactly the bytes `bs` were added at the end of the output; nothing else changed. -/
def Wrote (s : S) (bs : List Byte) (s' : S) : Prop :=
  ∃ out : Mem 15, s' = { s with out := out, code := s.code + bs.length } ∧
    (∀ i (h : i < bs.length), out.get (s.code - codeStart + i) = bs[i]) ∧
    ∀ j, j < s.code - codeStart ∨ s.code - codeStart + bs.length ≤ j ∧ j < outputMax → out.get j = s.out.get j

/-- There is room for `n` bytes. -/
def Room (s : S) (n : Nat) : Prop := codeStart ≤ s.code ∧ s.code - codeStart + n ≤ outputMax

theorem Wrote.nil (s : S) : Wrote s [] s := ⟨s.out, by cases s; rfl, fun i h => absurd h (by simp), fun _ _ => rfl⟩

theorem raw_spec (bs : List Byte) (s : S) (hr : Room s bs.length) : ∃ s', raw bs s = .ok () s' ∧ Wrote s bs s' := by
  induction bs generalizing s with
  | nil => exact ⟨s, rfl, .nil s⟩
  | cons b bs ih =>
    have hr' := hr
    obtain ⟨h1, h2⟩ := hr'
    simp only [List.length_cons] at h2
    obtain ⟨s', e, out, rfl, hb, hj⟩ := ih { s with out := s.out.set (s.code - codeStart) b, code := s.code + 1 } 
      ⟨Nat.le_succ_of_le h1, show s.code + 1 - codeStart + bs.length ≤ outputMax by generalize codeStart = a, outputMax = b at *; omega⟩
    have hlt : s.code - codeStart < outputMax := by generalize codeStart = a, outputMax = b at *; omega
    have hub : decide (codeStart ≤ s.code ∧ s.code - codeStart < outputMax) = true := decide_eq_true ⟨h1, hlt⟩
    refine ⟨_, run_getS (run_ub hub (run_modS e)), out, ?_, ?_, ?_⟩
    all_goals clear e hub; generalize codeStart = a at *
    · simp only [List.length_cons]; congr 1; omega
    · intro i hi
      simp only at hb hj
      cases i with
      | zero =>
        rw [Nat.add_zero, hj _ (.inl (by omega)), Mem.get_set_self]; rfl
      | succ i =>
        have := hb i (by simpa using hi)
        rw [show s.code + 1 - a + i = s.code - a + (i + 1) by omega] at this
        rw [this]; rfl
    · intro j hj'
      simp only [List.length_cons] at hj'
      simp only at hj
      have hm : outputMax ≤ 2 ^ 15 := by decide
      have hlt' : s.code - a < 2 ^ 15 := by generalize outputMax = m, 2 ^ 15 = b at *; omega
      have hjl : j < 2 ^ 15 := by generalize outputMax = m, 2 ^ 15 = b at *; omega
      rw [hj j (by omega), Mem.get_set_ne _ _ hlt' hjl (by omega)]

theorem raw_append (as bs : List Byte) (s : S) : raw (as ++ bs) s = (raw as >>= fun _ => raw bs) s := by
  induction as generalizing s with
  | nil => rfl
  | cons a as ih =>
    show (getS >>= _) s = ((getS >>= _) >>= _) s
    simp only [bind_run, getS_run]
    cases ubUnless (decide (codeStart ≤ s.code ∧ s.code - codeStart < outputMax)) s with
    | ok u s1 => exact ih _
    | err e => rfl

theorem Live.output {s : S} (h : Live s) (bs : List Byte) : output bs s = raw bs s := by
  show (getS >>= _) s = _
  simp [getS_run, bind_run, h.dead, h.spAdj, h.push]

theorem Live.of_raw {s s' : S} {bs : List Byte} (h : Live s) (e : raw bs s = .ok () s') : Live s' := by
  induction bs generalizing s with
  | nil => cases e; exact h
  | cons b bs ih =>
    obtain ⟨_, _, e1, e⟩ := bind_eq_ok.mp e
    cases e1
    obtain ⟨_, _, e1, e⟩ := bind_eq_ok.mp e
    rw [ubUnless_run] at e1
    split at e1 <;> cases e1
    obtain ⟨_, _, e1, e⟩ := bind_eq_ok.mp e
    cases e1
    exact ih (s := { s with out := s.out.set (s.code - codeStart) b, code := s.code + 1 }) ⟨h.dead, h.spAdj, h.push⟩ e

theorem Live.then {s : S} (h : Live s) (as bs : List Byte) {x : A Unit} (hx : ∀ s', Live s' → x s' = raw bs s') :
    (Scc.output as >>= fun _ => x) s = raw (as ++ bs) s := by
  rw [raw_append, bind_run, bind_run, h.output]
  cases e : raw as s with
  | ok a s' => exact hx s' (h.of_raw e)
  | err e => rfl

/-- `x` adds the bytes `bs` to the output, if there is room. -/
def Emits (x : A Unit) (s : S) (bs : List Byte) : Prop :=
  Room s bs.length → ∃ s', x s = .ok () s' ∧ Wrote s bs s'

theorem Emits.of_raw {x : A Unit} {s : S} {bs : List Byte} (h : x s = raw bs s) : Emits x s bs := fun hr => h ▸ raw_spec bs s hr

/-! ## What it does -/

/-- From any state in front of `bs`, the processor gets behind `bs` in a state related to the first one. -/
def Code (K : Contract) (bs : List Byte) (P : Cpu → Cpu → Prop) : Prop :=
  ∀ c : Cpu, c.codeAt c.ip bs → Reach K c fun c' => c'.ip = c.ip + BitVec.ofNat 16 bs.length ∧ P c c'

/-- `c'` is `d`, except for `ip` and the flags. -/
def Upto (d c' : Cpu) : Prop := c' = { d with ip := c'.ip, cf := c'.cf, zf := c'.zf, sf := c'.sf, of := c'.of }

theorem Upto.mem {d c' : Cpu} (h : Upto d c') : c'.mem = d.mem := by rw [h]
theorem Upto.cs {d c' : Cpu} (h : Upto d c') : c'.cs = d.cs := by rw [h]

theorem Upto.reg {d c' : Cpu} (h : Upto d c') (r : Fin 8) : c'.reg16 r = d.reg16 r := by
  rw [h]
  match r with
  | 0 | 1 | 2 | 3 | 4 | 5 | 6 | 7 => rfl

theorem setReg16_mem (c : Cpu) (r : Fin 8) (v : Word) : (c.setReg16 r v).mem = c.mem := by
  match r with
  | 0 | 1 | 2 | 3 | 4 | 5 | 6 | 7 => rfl

theorem setReg16_cs (c : Cpu) (r : Fin 8) (v : Word) : (c.setReg16 r v).cs = c.cs := by
  match r with
  | 0 | 1 | 2 | 3 | 4 | 5 | 6 | 7 => rfl

theorem reg16_setReg16 (c : Cpu) (r : Fin 8) (v : Word) : (c.setReg16 r v).reg16 r = v := by
  match r with
  | 0 | 1 | 2 | 3 | 4 | 5 | 6 | 7 => rfl

theorem Upto.refl (c : Cpu) : Upto c c := by cases c; rfl

theorem Upto.trans {a b c : Cpu} (h : Upto a b) (h' : Upto b c) : Upto a c := by
  unfold Upto at *
  rw [h'] at *
  rw [h]

theorem Upto.set {d c' : Cpu} (h : Upto d c') (r : Fin 8) (v : Word) : Upto (d.setReg16 r v) (c'.setReg16 r v) := by
  unfold Upto at *
  rw [h]
  match r with
  | 0 | 1 | 2 | 3 | 4 | 5 | 6 | 7 => rfl

theorem set_set (c : Cpu) (r : Fin 8) (v w : Word) : (c.setReg16 r v).setReg16 r w = c.setReg16 r w := by
  match r with
  | 0 | 1 | 2 | 3 | 4 | 5 | 6 | 7 => rfl

theorem set_self (c : Cpu) (r : Fin 8) : c.setReg16 r (c.reg16 r) = c := by
  match r with
  | 0 | 1 | 2 | 3 | 4 | 5 | 6 | 7 => rfl

theorem code_nil {K : Contract} {P : Cpu → Cpu → Prop} (h : ∀ c, P c c) : Code K [] P := fun c _ => .done ⟨by simp, h c⟩

theorem code_one {K : Contract} {bs : List Byte} {ins : Instr} {P : Cpu → Cpu → Prop} (he : Enc bs ins)
    (h : ∀ c n, ∃ c', exec K ins { c with ip := n } = .next c' ∧ c'.ip = n ∧ P c c') : Code K bs P := by
  intro c hc
  obtain ⟨c', e, hi, hp⟩ := h c (c.ip + BitVec.ofNat 16 bs.length)
  exact .step ((step_enc he hc).trans e) (.done ⟨hi, hp⟩)

/-- The code `bs` in front of which `c` is gets it to a state with `P` behind `bs`. -/
def At (K : Contract) (c : Cpu) (bs : List Byte) (P : Cpu → Prop) : Prop :=
  c.codeAt c.ip bs → Reach K c fun c' => c'.ip = c.ip + BitVec.ofNat 16 bs.length ∧ P c'

theorem At.nil {K : Contract} {c : Cpu} {P : Cpu → Prop} (h : P c) : At K c [] P := fun _ => .done ⟨by simp, h⟩

theorem At.one {K : Contract} {c : Cpu} {bs : List Byte} {ins : Instr} {P : Cpu → Prop} (he : Enc bs ins)
    (h : ∃ c', exec K ins { c with ip := c.ip + BitVec.ofNat 16 bs.length } = .next c' ∧ c'.ip = c.ip + BitVec.ofNat 16 bs.length ∧ P c') :
    At K c bs P := by
  intro hc
  obtain ⟨c', e, hi, hp⟩ := h
  exact .step ((step_enc he hc).trans e) (.done ⟨hi, hp⟩)

theorem At.append {K : Contract} {c : Cpu} {as bs : List Byte} {P Q : Cpu → Prop} (ha : At K c as P)
    (hb : ∀ c', P c' → (c'.mem = c.mem ∧ c'.cs = c.cs) ∧ At K c' bs Q) : At K c (as ++ bs) Q := by
  intro hc
  obtain ⟨h1, h2⟩ := codeAt_append.mp hc
  refine (ha h1).trans fun c1 ⟨hi, hp⟩ => ?_
  obtain ⟨⟨hm, hs⟩, hb⟩ := hb _ hp
  refine (hb (by rw [hi]; exact codeAt_of_eq h2 hm hs)).mono fun c2 ⟨hi2, hq⟩ => ⟨?_, hq⟩
  rw [hi2, hi, List.length_append, BitVec.ofNat_add, BitVec.add_assoc]

theorem At.mono {K : Contract} {c : Cpu} {bs : List Byte} {P Q : Cpu → Prop} (h : At K c bs P) (hq : ∀ b, P b → Q b) : At K c bs Q :=
  fun hc => (h hc).mono fun _ ⟨hi, hp⟩ => ⟨hi, hq _ hp⟩

theorem code_append {K : Contract} {as bs : List Byte} {P Q R : Cpu → Cpu → Prop} (ha : Code K as P) (hb : Code K bs Q)
    (hk : ∀ c c', P c c' → c'.mem = c.mem ∧ c'.cs = c.cs) (hr : ∀ a b c, P a b → Q b c → R a c) : Code K (as ++ bs) R := by
  intro c hc
  obtain ⟨h1, h2⟩ := codeAt_append.mp hc
  refine (ha c h1).trans fun c1 ⟨hi, hp⟩ => ?_
  obtain ⟨hm, hs⟩ := hk _ _ hp
  refine (hb c1 (by rw [hi]; exact codeAt_of_eq h2 hm hs)).mono fun c2 ⟨hi2, hq⟩ => ⟨?_, hr _ _ _ hp hq⟩
  rw [hi2, hi, List.length_append, BitVec.ofNat_add, BitVec.add_assoc]

theorem Code.mono {K : Contract} {bs : List Byte} {P Q : Cpu → Cpu → Prop} (h : Code K bs P) (hq : ∀ a b, P a b → Q a b) : Code K bs Q :=
  fun c hc => (h c hc).mono fun _ ⟨hi, hp⟩ => ⟨hi, hq _ _ hp⟩

/-- Register `r` gets the value of `f`, everything else but `ip` and the flags is kept. -/
def Sets (r : Fin 8) (f : Cpu → Word) (c c' : Cpu) : Prop := Upto (c.setReg16 r (f c)) c'

theorem Sets.keeps {r : Fin 8} {f : Cpu → Word} (c c' : Cpu) (h : Sets r f c c') : c'.mem = c.mem ∧ c'.cs = c.cs :=
  ⟨h.mem.trans (setReg16_mem ..), h.cs.trans (setReg16_cs ..)⟩

/-- The bytes of `EmitAddRegConst`. -/
def addBytes (r : Nat) (amm : Int) : List Byte :=
  let op := if amm < 0 then r + 0x28 else r
  let n := amm.natAbs
  if amm = 0 then []
  else if n ≤ 2 then List.replicate n (nb ((op &&& 15) ||| 0x40))
  else if n < 128 then [0x83, nb (0xC0 ||| op), nb n]
  else (if r = 0 then [nb (op ||| 5)] else [0x81, nb (0xC0 ||| op)]) ++ [Scc.lo n, Scc.hi n]

theorem addRegConst_raw (r : Nat) (amm : Int) (h : -(2 ^ 31) < amm) (s : S) (hs : Live s) :
    emitAddRegConst r amm s = raw (addBytes r amm) s := by
  unfold emitAddRegConst addRegConstWith addBytes
  by_cases h0 : amm = 0
  · simp only [h0, if_true]; rfl
  simp only [h0, if_false]
  refine run_ub (decide_eq_true h) ?_
  generalize (if amm < 0 then r + 0x28 else r) = op
  by_cases h2 : amm.natAbs ≤ 2
  · simp only [h2, if_true]
    by_cases h3 : amm.natAbs = 2
    · simp only [h3, if_true]
      exact hs.then _ _ (fun s' h' => h'.output _)
    · simp only [h3, if_false]
      have : amm.natAbs = 1 := by omega
      rw [this]
      exact run_unit (hs.output _)
  simp only [h2, if_false]
  by_cases h3 : amm.natAbs < 128
  · simp only [h3, if_true]
    exact hs.output _
  simp only [h3, if_false]
  by_cases h4 : r = 0
  · simp only [h4, if_true]
    exact hs.then _ _ (fun s' h' => h'.output _)
  · simp only [h4, if_false]
    exact hs.then _ _ (fun s' h' => h'.output _)

/-- A signed byte below 128 is the number. -/
theorem sext_nb {n : Nat} (h : n < 128) : (nb n).signExtend 16 = BitVec.ofNat 16 n := by
  have : ∀ n : Fin 128, (nb n.val).signExtend 16 = BitVec.ofNat 16 n.val := by decide +kernel
  exact this ⟨n, h⟩

theorem word_lo_hi (n : Int) : I86.word (Scc.lo n) (Scc.hi n) = BitVec.ofInt 16 n := by
  unfold I86.word Scc.lo Scc.hi Scc.byteOf
  apply BitVec.eq_of_toNat_eq
  rw [BitVec.toNat_append, BitVec.toNat_ofInt, BitVec.toNat_ofInt, BitVec.toNat_ofInt]
  rw [Nat.shiftLeft_eq, Nat.mul_comm, ← Nat.two_pow_add_eq_or_of_lt (by omega)]
  rw [Int.shiftRight_eq_div_pow]
  omega

theorem enc_incDec (r : Fin 8) (neg : Bool) :
    Enc [nb (((if neg then r.val + 0x28 else r.val) &&& 15) ||| 0x40)] (.incDec neg true (.reg r)) := by
  refine ⟨by simp, fun junk => ?_⟩
  match r, neg with
  | 0, true | 1, true | 2, true | 3, true | 4, true | 5, true | 6, true | 7, true => rfl
  | 0, false | 1, false | 2, false | 3, false | 4, false | 5, false | 6, false | 7, false => rfl

theorem enc_alu8 (r : Fin 8) (neg : Bool) (b : Byte) :
    Enc [0x83, nb (0xC0 ||| (if neg then r.val + 0x28 else r.val)), b]
      (.aluImm (if neg then .sub else .add) true (.reg r) (b.signExtend 16)) := by
  refine ⟨by simp, fun junk => ?_⟩
  match r, neg with
  | 0, true | 1, true | 2, true | 3, true | 4, true | 5, true | 6, true | 7, true => rfl
  | 0, false | 1, false | 2, false | 3, false | 4, false | 5, false | 6, false | 7, false => rfl

theorem enc_alu16 (r : Fin 8) (neg : Bool) (b d : Byte) :
    Enc [0x81, nb (0xC0 ||| (if neg then r.val + 0x28 else r.val)), b, d]
      (.aluImm (if neg then .sub else .add) true (.reg r) (I86.word b d)) := by
  refine ⟨by simp, fun junk => ?_⟩
  match r, neg with
  | 0, true | 1, true | 2, true | 3, true | 4, true | 5, true | 6, true | 7, true => rfl
  | 0, false | 1, false | 2, false | 3, false | 4, false | 5, false | 6, false | 7, false => rfl

theorem enc_aluAx (neg : Bool) (b d : Byte) :
    Enc [nb ((if neg then 0x28 else 0) ||| 5), b, d] (.aluImm (if neg then .sub else .add) true (.reg 0) (I86.word b d)) := by
  refine ⟨by simp, fun junk => ?_⟩
  match neg with
  | true => rfl
  | false => rfl

theorem set_ip (c : Cpu) (r : Fin 8) (v n : Word) : ({ c with ip := n }).setReg16 r v = { c.setReg16 r v with ip := n } := by
  match r with
  | 0 | 1 | 2 | 3 | 4 | 5 | 6 | 7 => rfl

theorem reg_ip (c : Cpu) (r : Fin 8) (n : Word) : ({ c with ip := n }).reg16 r = c.reg16 r := by
  match r with
  | 0 | 1 | 2 | 3 | 4 | 5 | 6 | 7 => rfl

theorem setReg16_ip (c : Cpu) (r : Fin 8) (v : Word) : (c.setReg16 r v).ip = c.ip := by
  match r with
  | 0 | 1 | 2 | 3 | 4 | 5 | 6 | 7 => rfl

/-- `w` or `-w`. -/
def signed (neg : Bool) (w : Word) : Word := if neg then -w else w

theorem code_incDec (K : Contract) (r : Fin 8) (neg : Bool) :
    Code K [nb (((if neg then r.val + 0x28 else r.val) &&& 15) ||| 0x40)] (Sets r fun c => c.reg16 r + signed neg 1) := by
  refine code_one (enc_incDec r neg) fun c n => ?_
  refine ⟨_, by simp only [exec, if_true]; rfl, ?_, ?_⟩
  · simp only [setRm16, set_ip]
  · unfold Sets Upto
    simp only [setRm16, rm16, set_ip, reg_ip]
    cases neg
    · rfl
    · simp only [signed, if_true, aluRes, ← BitVec.sub_eq_add_neg]

theorem code_aluImm (K : Contract) (r : Fin 8) (neg : Bool) (bs : List Byte) (w : Word)
    (he : Enc bs (.aluImm (if neg then .sub else .add) true (.reg r) w)) : Code K bs (Sets r fun c => c.reg16 r + signed neg w) := by
  refine code_one he fun c n => ?_
  have hr : Cpu.rd { c with ip := n } true (.reg r) = c.reg16 r := reg_ip c r n
  cases neg
  · refine ⟨(aluFlags K .add (c.reg16 r) w false { c with ip := n }).setReg16 r (c.reg16 r + w), ?_, setReg16_ip .., ?_⟩
    · simp only [exec, Bool.false_eq_true, if_false, hr]; rfl
    · exact Upto.set (d := c) (by rfl) r _
  · refine ⟨(aluFlags K .sub (c.reg16 r) w false { c with ip := n }).setReg16 r (c.reg16 r - w), ?_, setReg16_ip .., ?_⟩
    · simp only [exec, if_true, hr]; rfl
    · rw [BitVec.sub_eq_add_neg]; exact Upto.set (d := c) (by rfl) r _

theorem signed_abs (amm : Int) : signed (decide (amm < 0)) (BitVec.ofNat 16 amm.natAbs) = BitVec.ofInt 16 amm := by
  unfold signed
  by_cases h : amm < 0
  · simp only [h, decide_true, if_true]
    apply BitVec.eq_of_toNat_eq
    rw [BitVec.toNat_neg, BitVec.toNat_ofNat, BitVec.toNat_ofInt]
    omega
  · simp only [h, decide_false, Bool.false_eq_true, if_false]
    apply BitVec.eq_of_toNat_eq
    rw [BitVec.toNat_ofNat, BitVec.toNat_ofInt]
    omega

theorem ofInt_natCast (n : Nat) : BitVec.ofInt 16 (n : Int) = BitVec.ofNat 16 n := by
  apply BitVec.eq_of_toNat_eq
  rw [BitVec.toNat_ofNat, BitVec.toNat_ofInt]
  omega

theorem code_add (K : Contract) (r : Fin 8) (amm : Int) :
    Code K (addBytes r.val amm) (Sets r fun c => c.reg16 r + BitVec.ofInt 16 amm) := by
  unfold addBytes
  by_cases h0 : amm = 0
  · simp only [h0, if_true]
    refine code_nil fun c => ?_
    simp only [Sets]
    rw [show c.reg16 r + BitVec.ofInt 16 0 = c.reg16 r by simp, set_self]
    exact .refl c
  simp only [h0, if_false]
  rw [← signed_abs]
  have hneg : (if amm < 0 then r.val + 0x28 else r.val) = if decide (amm < 0) = true then r.val + 0x28 else r.val := by
    simp only [decide_eq_true_eq]
  have hneg0 : (if amm < 0 then 0 + 0x28 else 0) = if decide (amm < 0) = true then 0x28 else 0 := by
    simp only [decide_eq_true_eq, Nat.zero_add]
  rw [hneg]
  by_cases h2 : amm.natAbs ≤ 2
  · simp only [h2, if_true]
    have h1 := code_incDec K r (decide (amm < 0))
    obtain h3 | h3 : amm.natAbs = 1 ∨ amm.natAbs = 2 := by omega
    · rw [h3]; exact h1
    · rw [h3]
      refine code_append h1 h1 Sets.keeps fun a b c hp hq => ?_
      simp only [Sets] at *
      rw [hp.reg, reg16_setReg16] at hq
      refine Upto.trans ?_ hq
      have := hp.set r (a.reg16 r + signed (decide (amm < 0)) 1 + signed (decide (amm < 0)) 1)
      rw [set_set] at this
      rw [show a.reg16 r + signed (decide (amm < 0)) (BitVec.ofNat 16 2) = a.reg16 r + signed (decide (amm < 0)) 1 + signed (decide (amm < 0)) 1 by
        rw [BitVec.add_assoc]
        cases decide (amm < 0) <;> rfl]
      exact this
  simp only [h2, if_false]
  by_cases h3 : amm.natAbs < 128
  · simp only [h3, if_true]
    have := code_aluImm K r (decide (amm < 0)) _ _ (enc_alu8 r (decide (amm < 0)) (nb amm.natAbs))
    rw [sext_nb h3] at this
    exact this
  simp only [h3, if_false]
  by_cases h4 : r.val = 0
  · simp only [h4, if_true]
    have := code_aluImm K 0 (decide (amm < 0)) _ _ (enc_aluAx (decide (amm < 0)) (Scc.lo amm.natAbs) (Scc.hi amm.natAbs))
    rw [word_lo_hi, ofInt_natCast] at this
    rw [hneg0] at *
    have hr : r = 0 := Fin.ext h4
    rw [hr]
    exact this
  · simp only [h4, if_false]
    have := code_aluImm K r (decide (amm < 0)) _ _ (enc_alu16 r (decide (amm < 0)) (Scc.lo amm.natAbs) (Scc.hi amm.natAbs))
    rw [word_lo_hi, ofInt_natCast] at this
    exact this

/-! ## Shifts by a constant, multiplication, division -/

theorem live_bind {s : S} (hs : Live s) {as bs : List Byte} {x y : A Unit} (hx : x s = raw as s) (hy : ∀ s', Live s' → y s' = raw bs s') :
    (x >>= fun _ => y) s = raw (as ++ bs) s := by
  rw [raw_append, bind_run, bind_run, hx]
  cases e : raw as s with
  | ok a s' => exact hy s' (hs.of_raw e)
  | err e => rfl

/-- `k` shifts by one bit. -/
def shifts (rm : Byte) : Nat → List Byte
  | 0 => []
  | k + 1 => [0xD1, rm] ++ shifts rm k

theorem shiftLoop_raw (rm : Byte) (k n : Nat) (hn : n < 2 ^ k) (s : S) (hs : Live s) :
    shiftLoop rm k n s = raw (shifts rm n.log2) s := by
  induction k generalizing n s with
  | zero =>
    have : n = 0 := by omega
    subst this; rfl
  | succ k ih =>
    unfold shiftLoop
    by_cases h : n / 2 = 0
    · rw [if_pos h]
      have : n = 0 ∨ n = 1 := by omega
      rcases this with rfl | rfl <;> rfl
    · rw [if_neg h]
      have : n.log2 = (n / 2).log2 + 1 := by rw [Nat.log2_def, if_pos (by omega)]
      rw [this]
      exact hs.then _ _ fun s' hs' => ih (n / 2) (by rw [Nat.pow_succ] at hn; omega) s' hs'

theorem landI_nat (n : Nat) (h0 : n ≠ 0) (h : n < 2 ^ 31) : landI n ((n : Int) - 1) = ((n &&& (n - 1) : Nat) : Int) := by
  have e1 : BitVec.ofInt 32 (n : Int) = BitVec.ofNat 32 n := by
    apply BitVec.eq_of_toNat_eq; rw [BitVec.toNat_ofNat, BitVec.toNat_ofInt]; omega
  have e2 : BitVec.ofInt 32 ((n : Int) - 1) = BitVec.ofNat 32 (n - 1) := by
    apply BitVec.eq_of_toNat_eq; rw [BitVec.toNat_ofNat, BitVec.toNat_ofInt]; omega
  unfold landI
  rw [e1, e2, BitVec.toInt_eq_toNat_of_lt]
  · rw [BitVec.toNat_and, BitVec.toNat_ofNat, BitVec.toNat_ofNat, Nat.mod_eq_of_lt (by omega), Nat.mod_eq_of_lt (by omega)]
  · rw [BitVec.toNat_and, BitVec.toNat_ofNat, BitVec.toNat_ofNat, Nat.mod_eq_of_lt (by omega), Nat.mod_eq_of_lt (by omega)]
    have : n &&& (n - 1) ≤ n := Nat.and_le_left
    omega

theorem landI_pow (n : Nat) (h0 : n ≠ 0) (h : n < 2 ^ 31) : landI n ((n : Int) - 1) = 0 ↔ n = 2 ^ n.log2 := by
  rw [landI_nat n h0 h]
  constructor
  · intro e
    obtain ⟨k, hk⟩ := (Nat.and_sub_one_eq_zero_iff_isPowerOfTwo h0).mp (by exact_mod_cast e)
    rw [hk, Nat.log2_two_pow]
  · intro e
    exact_mod_cast (Nat.and_sub_one_eq_zero_iff_isPowerOfTwo h0).mpr ⟨n.log2, e⟩

theorem code_shift1 (K : Contract) (op : ShiftOp) (rm : Byte) (he : Enc [0xD1, rm] (.shift op .one (.reg 0))) :
    Code K [0xD1, rm] (Sets 0 fun c => (shiftRes op c.ax 1).1) := by
  refine code_one he fun c n => ⟨_, rfl, rfl, ?_⟩
  rfl

/-- `k` shifts by one bit. -/
def iter (op : ShiftOp) : Nat → Word → Word
  | 0, w => w
  | k + 1, w => iter op k (shiftRes op w 1).1

theorem code_shifts (K : Contract) (op : ShiftOp) (rm : Byte) (he : Enc [0xD1, rm] (.shift op .one (.reg 0))) (k : Nat) :
    Code K (shifts rm k) (Sets 0 fun c => iter op k c.ax) := by
  induction k with
  | zero => exact code_nil fun c => .refl c
  | succ k ih =>
    refine code_append (code_shift1 K op rm he) ih Sets.keeps fun a b c hp hq => ?_
    simp only [Sets] at *
    have hb : b.ax = (shiftRes op a.ax 1).1 := hp.reg 0
    rw [hb] at hq
    have := (hp.set 0 (iter op k (shiftRes op a.ax 1).1)).trans hq
    rw [set_set] at this
    exact this

theorem iter_shl (k : Nat) (w : Word) : iter .shl k w = w * BitVec.ofNat 16 (2 ^ k) := by
  induction k generalizing w with
  | zero => simp [iter]
  | succ k ih =>
    rw [iter, ih, shiftRes, BitVec.shiftLeft_eq_mul_twoPow, BitVec.mul_assoc]
    congr 1
    apply BitVec.eq_of_toNat_eq
    rw [BitVec.toNat_mul, BitVec.toNat_twoPow, BitVec.toNat_ofNat, BitVec.toNat_ofNat, ← Nat.mul_mod, ← Nat.pow_add, Nat.add_comm 1 k]

theorem iter_shr (k : Nat) (w : Word) : iter .shr k w = BitVec.ofNat 16 (w.toNat / 2 ^ k) := by
  induction k generalizing w with
  | zero => simp [iter]
  | succ k ih =>
    rw [iter, ih, shiftRes, BitVec.toNat_ushiftRight, Nat.shiftRight_eq_div_pow, Nat.div_div_eq_div_mul, ← Nat.pow_add, Nat.add_comm 1 k]

theorem iter_sar (k : Nat) (w : Word) : iter .sar k w = BitVec.ofInt 16 (w.toInt / 2 ^ k) := by
  induction k generalizing w with
  | zero => simp [iter]
  | succ k ih =>
    rw [iter, ih, shiftRes, BitVec.toInt_sshiftRight, Int.shiftRight_eq_div_pow, Int.ediv_ediv_of_nonneg (by decide), Int.pow_succ, Int.mul_comm]
    rfl

/-- `MOV CX, v`. -/
theorem code_movCx (K : Contract) (v : Int) : Code K [nb (0xB8 ||| rCX), Scc.lo v, Scc.hi v] (Sets 1 fun _ => BitVec.ofInt 16 v) := by
  refine code_one (ins := .movImm true (.reg 1) (BitVec.ofInt 16 v)) ⟨by simp, fun junk => ?_⟩ fun c n => ⟨_, rfl, rfl, rfl⟩
  rw [← word_lo_hi]; rfl

/-- The state after a multiplication of AX by `n`. -/
def Scaled (K : Contract) (n : Nat) (c c' : Cpu) : Prop :=
  Upto { c with ax := c.ax * BitVec.ofNat 16 n, cx := BitVec.ofNat 16 n, dx := K.mulHi c.ax (BitVec.ofNat 16 n) } c'

theorem code_mulCx (K : Contract) (n : Nat) : Code K ([nb (0xB8 ||| rCX), Scc.lo n, Scc.hi n] ++ [0xF7, 0xE1]) (Scaled K n) := by
  refine code_append (Q := fun c c' => Upto { c with ax := c.ax * c.cx, dx := K.mulHi c.ax c.cx } c') (code_movCx K n)
    (code_one (ins := .unary .mul (.reg 1)) ⟨by simp, fun junk => rfl⟩ fun c n => ⟨_, rfl, rfl, rfl⟩) Sets.keeps fun a b c hp hq => ?_
  simp only [Sets, ofInt_natCast] at hp
  refine Upto.trans ?_ hq
  rw [hp]
  rfl

/-- The code of `EmitScaleAx`. -/
def scaleBytes (n : Nat) : List Byte :=
  if n = 2 ^ n.log2 then shifts 0xE0 n.log2 else [nb (0xB8 ||| rCX), Scc.lo n, Scc.hi n] ++ [0xF7, 0xE1]

theorem scale_raw (n : Nat) (h0 : n ≠ 0) (h : n < 2 ^ 31) (s : S) (hs : Live s) : emitScaleAx n s = raw (scaleBytes n) s := by
  unfold emitScaleAx scaleBytes
  refine run_ub (decide_eq_true (by omega)) ?_
  by_cases hp : n = 2 ^ n.log2
  · rw [if_pos hp, if_neg (by rw [(landI_pow n h0 h).mpr hp]; decide)]
    exact shiftLoop_raw _ _ _ (by show (Int.toNat n) < _; omega) s hs
  · rw [if_neg hp, if_pos (fun e => hp ((landI_pow n h0 h).mp e))]
    exact live_bind hs (hs.output _) fun s' hs' => hs'.output _

theorem code_scale (K : Contract) (n : Nat) : Code K (scaleBytes n) fun c c' =>
    ∃ cx dx, Upto { c with ax := c.ax * BitVec.ofNat 16 n, cx := cx, dx := dx } c' := by
  unfold scaleBytes
  split
  · rename_i hp
    refine (code_shifts K .shl 0xE0 ⟨by simp, fun _ => rfl⟩ n.log2).mono fun a b h => ⟨a.cx, a.dx, ?_⟩
    simp only [Sets, iter_shl] at h
    rw [← hp] at h
    exact h
  · exact (code_mulCx K n).mono fun a b h => ⟨_, _, h⟩

/-! ## Division by a constant -/

/-- The code of `EmitDivCX`. -/
def divBytes (u : Bool) : List Byte := if u then [0x31, 0xD2] ++ [0xF7, 0xF1] else [0x99, 0xF7, 0xF9]

theorem div_raw (s : S) (hs : Live s) : emitDivCX s = raw (divBytes s.isUnsigned) s := by
  unfold emitDivCX divBytes
  refine run_getS ?_
  cases s.isUnsigned
  · exact hs.output _
  · exact live_bind hs (hs.output _) fun s' hs' => hs'.output _

/-- The code of `EmitDivAxConst`. -/
def divConstBytes (u : Bool) (n : Nat) : List Byte :=
  if n = 2 ^ n.log2 then shifts (if u then 0xE8 else 0xF8) n.log2 else [nb (0xB8 ||| rCX), Scc.lo n, Scc.hi n] ++ divBytes u

theorem of_raw_unsigned {s s' : S} {bs : List Byte} (e : raw bs s = .ok () s') : s'.isUnsigned = s.isUnsigned := by
  induction bs generalizing s with
  | nil => cases e; rfl
  | cons b bs ih =>
    obtain ⟨_, _, e1, e⟩ := bind_eq_ok.mp e
    cases e1
    obtain ⟨_, _, e1, e⟩ := bind_eq_ok.mp e
    rw [ubUnless_run] at e1
    split at e1 <;> cases e1
    obtain ⟨_, _, e1, e⟩ := bind_eq_ok.mp e
    cases e1
    exact ih (s := { s with out := s.out.set (s.code - codeStart) b, code := s.code + 1 }) e

theorem divConst_raw (n : Nat) (h0 : n ≠ 0) (h : n < 2 ^ 31) (s : S) (hs : Live s) :
    emitDivAxConst n s = raw (divConstBytes s.isUnsigned n) s := by
  unfold emitDivAxConst divConstBytes
  refine run_ub (decide_eq_true (by omega)) ?_
  by_cases hp : n = 2 ^ n.log2
  · rw [if_pos hp, if_neg (by rw [(landI_pow n h0 h).mpr hp]; decide)]
    exact shiftLoop_raw _ _ _ (by show (Int.toNat n) < _; omega) s hs
  · rw [if_neg hp, if_pos (fun e => hp ((landI_pow n h0 h).mp e))]
    rw [raw_append, bind_run, bind_run]
    rw [show emitMovRImm rCX n s = raw [nb (0xB8 ||| rCX), Scc.lo n, Scc.hi n] s from hs.output _]
    cases e : raw [nb (0xB8 ||| rCX), Scc.lo n, Scc.hi n] s with
    | ok a s' =>
      simp only
      rw [div_raw s' (hs.of_raw e), of_raw_unsigned e]
    | err e => rfl

theorem at_div_unsigned (K : Contract) (c : Cpu) (h : c.cx ≠ 0) : At K c (divBytes true) fun c' =>
    Upto { c with ax := BitVec.ofNat 16 (c.ax.toNat / c.cx.toNat), dx := BitVec.ofNat 16 (c.ax.toNat % c.cx.toNat) } c' := by
  refine At.append (P := Upto { c with dx := 0 })
    (.one (ins := .aluRmReg .xor true (.reg 2) 2) ⟨by simp, fun _ => rfl⟩ ⟨_, rfl, rfl, ?_⟩) ?_
  · simp only [Upto, i86x, BitVec.xor_self]
    rfl
  · intro c1 h1
    refine ⟨⟨h1.mem, h1.cs⟩, .one (ins := .unary .div (.reg 1)) ⟨by simp, fun _ => rfl⟩ ?_⟩
    have hcx : c1.cx = c.cx := h1.reg 1
    have hax : c1.ax = c.ax := h1.reg 0
    have hdx : c1.dx = 0 := h1.reg 2
    have h0 : c.cx.toNat ≠ 0 := fun e => h (BitVec.eq_of_toNat_eq e)
    have hlt : c.ax.toNat / c.cx.toNat < 2 ^ 16 := Nat.lt_of_le_of_lt (Nat.div_le_self ..) c.ax.isLt
    refine ⟨noFlags { c1 with
      ip := c1.ip + BitVec.ofNat 16 2, ax := BitVec.ofNat 16 (c.ax.toNat / c.cx.toNat)
      dx := BitVec.ofNat 16 (c.ax.toNat % c.cx.toNat) }, ?_, rfl, ?_⟩
    · simp only [exec, unary, rm16, reg16, hcx, hax, hdx, List.length_cons, List.length_nil]
      rw [show (0 : Word).toNat * 2 ^ 16 + c.ax.toNat = c.ax.toNat by simp, if_neg (by omega)]
    · rw [h1]; rfl

theorem at_divConst_unsigned (K : Contract) (c : Cpu) (n : Nat) (h0 : n ≠ 0) (h : n < 2 ^ 16) :
    At K c (divConstBytes true n) fun c' =>
      ∃ cx dx, Upto { c with ax := BitVec.ofNat 16 (c.ax.toNat / n), cx := cx, dx := dx } c' := by
  unfold divConstBytes
  split
  · rename_i hp
    intro hc
    refine (code_shifts K .shr 0xE8 ⟨by simp, fun _ => rfl⟩ n.log2 c hc).mono fun b ⟨hi, h⟩ => ⟨hi, c.cx, c.dx, ?_⟩
    simp only [Sets, iter_shr] at h
    rw [← hp] at h
    exact h
  · refine At.append (P := Upto { c with cx := BitVec.ofNat 16 n }) (fun hc => (code_movCx K n c hc).mono fun b ⟨hi, h⟩ => ⟨hi, ?_⟩) ?_
    · simp only [Sets, ofInt_natCast] at h; exact h
    · intro c1 h1
      refine ⟨⟨h1.mem, h1.cs⟩, ?_⟩
      have hcx : c1.cx = BitVec.ofNat 16 n := h1.reg 1
      have hax : c1.ax = c.ax := h1.reg 0
      have hn : (BitVec.ofNat 16 n).toNat = n := by rw [BitVec.toNat_ofNat]; omega
      refine (at_div_unsigned K c1 ?_).mono fun c2 h2 => ⟨c1.cx, BitVec.ofNat 16 (c1.ax.toNat % c1.cx.toNat), Upto.trans ?_ h2⟩
      · rw [hcx]; intro e; rw [e] at hn; exact h0 hn.symm
      · rw [hcx, hn, hax, h1]; rfl

end SccCode

namespace Props
open SccCode

/-- C37: `EmitAddRegConst` writes code that adds the constant to the register modulo 2^16 and changes no other register and no memory,
for every register, every constant whose negation is an `int`, and every state of the processor. -/
theorem C37_add_const (s : Scc.S) (hs : Live s) (r : Fin 8) (amm : Int) (ha : -(2 ^ 31) < amm) :
    ∃ bs, Emits (Scc.emitAddRegConst r.val amm) s bs ∧ ∀ K : I86.Contract,
      Code K bs fun c c' => Upto (c.setReg16 r (c.reg16 r + BitVec.ofInt 16 amm)) c' :=
  ⟨_, .of_raw (addRegConst_raw _ _ ha s hs), fun K => code_add K r amm⟩

/-- C38: `EmitScaleAx` writes code that multiplies AX by the size modulo 2^16; of the other registers only CX and DX may change, and
no memory does. -/
theorem C38_scale (s : Scc.S) (hs : Live s) (n : Nat) (h0 : 1 ≤ n) (hn : n ≤ 65535) :
    ∃ bs, Emits (Scc.emitScaleAx n) s bs ∧ ∀ K : I86.Contract,
      Code K bs fun c c' => ∃ cx dx, Upto { c with ax := c.ax * BitVec.ofNat 16 n, cx := cx, dx := dx } c' :=
  ⟨_, .of_raw (scale_raw n (by omega) (by omega) s hs), fun K => code_scale K n⟩

/-- C38, the way back: with an unsigned operation (as for the difference of pointers) `EmitDivAxConst` writes code that divides AX by the
size. -/
theorem C38_unscale (s : Scc.S) (hs : Live s) (hu : s.isUnsigned = true) (n : Nat) (h0 : 1 ≤ n) (hn : n ≤ 65535) :
    ∃ bs, Emits (Scc.emitDivAxConst n) s bs ∧ ∀ (K : I86.Contract) (c : I86.Cpu), At K c bs fun c' =>
      ∃ cx dx, Upto { c with ax := BitVec.ofNat 16 (c.ax.toNat / n), cx := cx, dx := dx } c' := by
  refine ⟨_, .of_raw (divConst_raw n (by omega) (by omega) s hs), fun K c => ?_⟩
  rw [hu]
  exact at_divConst_unsigned K c n (by omega) (by omega)

/-- A state for the theorems, and code for some constants. -/
example : ∃ s, Live s ∧ Room s 100 ∧ s.isUnsigned = true :=
  ⟨{ Scc.init [] with isUnsigned := true }, ⟨rfl, rfl, rfl⟩, ⟨by decide, by decide⟩, rfl⟩
example : addBytes 4 (-300) = [0x81, 0xEC, 0x2C, 1] ∧ addBytes 0 2 = [0x40, 0x40] ∧ addBytes 3 (-100) = [0x83, 0xEB, 100] ∧
    scaleBytes 8 = [0xD1, 0xE0, 0xD1, 0xE0, 0xD1, 0xE0] ∧ scaleBytes 6 = [0xB9, 6, 0, 0xF7, 0xE1] ∧ divConstBytes true 4 = [0xD1, 0xE8, 0xD1, 0xE8] := by
  decide +kernel

end Props
