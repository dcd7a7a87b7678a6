import Verif.Sim86.Run
import Verif.I86.Lemmas
/-!
# Properties of the simulator `sim86.c`: memory, ALU, jumps, registers (C01–C04, C08)
-/
namespace Props
open Sim86 I86
variable {σ : Type}

/-! ## C01: memory -/

/-- The 20-bit linear address of `seg:off`, from arbitrary host integers. -/
def linear (seg off : W) : Nat := (seg.toNat % 65536 * 16 + off.toNat % 65536) % 1048576

theorem linear_eq (seg off : W) : (MAKEADDR seg off).toNat = linear seg off := by
  rw [makeaddr_toNat]
  simp only [Cpu.lin, linear, t16, BitVec.toNat_setWidth]

/-- Byte accesses: `Write8` changes exactly the byte at the linear address and `Read8` returns it. -/
theorem C01_byte (s : St σ) (sr : Fin 4) (off v : W) :
    ∃ s', Write8 sr off v s = .ok () s' ∧
      Read8 sr off s' = .ok (BitVec.ofNat 32 (v.toNat % 256)) s' ∧
      (∀ a, a < 1048576 → a ≠ linear (s.sreg sr) off → s'.mem.get a = s.mem.get a) ∧
      s' = { s with mem := s'.mem } := by
  refine ⟨_, rfl, ?_, ?_, rfl⟩
  · simp only [Read8]
    have : St.sreg { s with mem := s.mem.set (MAKEADDR (s.sreg sr) off).toNat (v.setWidth 8) } sr = s.sreg sr := by
      match sr with
      | 0 | 1 | 2 | 3 => rfl
    rw [this, Mem.get_set_self]
    congr 1
    apply BitVec.eq_of_toNat_eq
    rw [BitVec.toNat_setWidth, BitVec.toNat_setWidth, BitVec.toNat_ofNat]
  · intro a ha hne
    simp only
    rw [linear_eq]
    exact Mem.get_set_ne _ _ (Nat.mod_lt _ (by decide)) ha (Ne.symm hne)

/-- Word accesses, whenever `off+1` does not overflow a host int. -/
theorem C01_word (s : St σ) (sr : SReg) (off v : W) (h : off ≠ BitVec.intMax 32) :
    ∃ s', Write16 (srIdx sr) off v s = .ok () s' ∧
      Read16 (srIdx sr) off s' = .ok (BitVec.ofNat 32 (v.toNat % 65536)) s' ∧
      (∀ a, a < 1048576 → a ≠ linear (s.sreg (srIdx sr)) off → a ≠ linear (s.sreg (srIdx sr)) (off + 1) →
        s'.mem.get a = s.mem.get a) ∧
      s' = { s with mem := s'.mem } := by
  have h2 : off.toInt < 2 ^ 31 - 1 := by
    have h3 := BitVec.toInt_lt (x := off)
    rcases Int.lt_or_eq_of_le (show off.toInt ≤ 2 ^ 31 - 1 by omega) with h4 | h4
    · exact h4
    · exact absurd (BitVec.eq_of_toInt_eq (by rw [h4]; rfl)) h
  have h1 : -2 ^ 31 ≤ off.toInt := BitVec.le_toInt (x := off)
  obtain ⟨⟨⟩, s', e, hf, ha⟩ := Write16_wp s sr off v h1 h2
  have hs : s'.sreg (srIdx sr) = s.sreg (srIdx sr) := by rw [hf]; cases sr <;> rfl
  have ha0 := ha F0
  refine ⟨s', e, ?_, ?_, hf⟩
  · have hr := (wp_Read16 (F := F0) s' sr off (fun x t => t = s' ∧ x = BitVec.ofNat 32 (v.toNat % 65536)) h1 h2).mpr
      (by
        refine ⟨rfl, ?_⟩
        rw [abs_sreg, hs, ← abs_sreg (F := F0), ha0, Cpu.rd16_wr16_self]
        apply BitVec.eq_of_toNat_eq
        simp only [t16, BitVec.toNat_setWidth, BitVec.toNat_ofNat]
        )
    obtain ⟨x, t, e2, rfl, rfl⟩ := hr
    exact e2
  · intro a hl h3 h4
    have : s'.mem = (abs s' F0).mem := rfl
    rw [this, ha0, Cpu.get_wr16_ne]
    · rfl
    · exact hl
    · rw [abs_sreg, ← makeaddr_toNat, linear_eq]; exact h3
    · rw [abs_sreg, ← t16_one, ← t16_add, ← makeaddr_toNat, linear_eq]; exact h4

/-- The exception to `C01_word` is real: at offset 2147483647 the host program overflows. -/
theorem C01_word_ub (s : St σ) (sr : SReg) (v : W) :
    ∃ s', Write16 (srIdx sr) (BitVec.intMax 32) v s = .err .ub s' := ⟨_, rfl⟩

/-- Neighbouring offsets of a segment wrap at 64 KB; the linear address wraps at 1 MB. -/
example : linear 0x1ffff 0x10010 = 0 := by decide
example (s : St σ) : ∃ s', Write8 DS 0x12345678 0xabc s = .ok () s' ∧ Read8 DS 0x12345678 s' = .ok 0xbc s' :=
  let ⟨s', h1, h2, _⟩ := C01_byte s DS 0x12345678 0xabc
  ⟨s', h1, h2⟩

/-! ## C02, C03: the ALU -/

/-- `CF`, `ZF`, `SF`, `OF` as read off the flags word by the conditional jumps. -/
structure FlagBits (f : W) (c z s o : Bool) : Prop where
  cf : (f &&& 0x001 ≠ 0) ↔ c = true
  zf : (f &&& 0x040 ≠ 0) ↔ z = true
  sf : (f &&& 0x080 ≠ 0) ↔ s = true
  of : (f &&& 0x800 ≠ 0) ↔ o = true

theorem flagBits_mk (c z s o : Bool) : FlagBits (mkFlags c z s o) c z s o := by
  cases c <;> cases z <;> cases s <;> cases o <;> constructor <;> decide

/-- 16-bit ALU operations on host integers with arbitrary upper bits. -/
theorem C02_alu16 (s : St σ) (op : Fin 8) (l r : W) (rm : RM) (h : RMOk s rm) (hd : s.dsize = true) :
    let L : Word := l.setWidth 16
    let R : Word := r.setWidth 16
    let ci : Bool := s.flags &&& 1 ≠ 0
    ∃ s', DoOp op l r s = .ok () s' ∧
      FlagBits s'.flags (aluCF (opOf op) L R ci) (aluRes (opOf op) L R ci == 0) (aluRes (opOf op) L R ci).msb
        (aluOF (opOf op) L R ci) ∧
      ∀ F, abs s' F = if opOf op = .cmp then abs s F else (abs s F).setRm16 rm (aluRes (opOf op) L R ci) := by
  intro L R ci
  have hci : ci = cfOf s.flags := rfl
  have hf : (opState s op l r).flags = mkFlags (aluCF (opOf op) L R ci) (aluRes (opOf op) L R ci == 0)
      (aluRes (opOf op) L R ci).msb (aluOF (opOf op) L R ci) := by
    simp only [opState, hd, opTrim, if_true]
    rw [opFlags_16, hci]
  have key : ∃ s', (if op ≠ 7 then WriteRM (opRes op s.flags (opTrim s.dsize l) (opTrim s.dsize r)).1 else pure ())
      (opState s op l r) = .ok () s' ∧ s'.flags = (opState s op l r).flags ∧
      ∀ F, abs s' F = if opOf op = .cmp then abs s F else (abs s F).setRm16 rm (aluRes (opOf op) L R ci) := by
    by_cases h7 : op = 7
    · subst h7
      exact ⟨_, rfl, rfl, fun F => rfl⟩
    · rw [if_pos h7]
      obtain ⟨s', e, hfl, h16, -⟩ := WriteRM_eq (opState s op l r) rm
        (opRes op s.flags (opTrim s.dsize l) (opTrim s.dsize r)).1 h
      refine ⟨s', e, hfl, fun F => ?_⟩
      rw [if_neg (fun e => h7 ((opOf_cmp op).mp e)), h16 hd F]
      simp only [hd, opTrim, if_true]
      rw [show t16 (opRes op s.flags l r).1 = (opRes op s.flags l r).1.setWidth 16 from rfl,
        opRes_fst 16 (by decide), hci]
      rfl
  obtain ⟨s', e, hfl, ha⟩ := key
  have hw := (wp_DoOp s op l r (fun _ t => t = s')).mpr ⟨(), s', e, rfl⟩
  obtain ⟨⟨⟩, t, e2, rfl⟩ := hw
  exact ⟨t, e2, by rw [hfl, hf]; exact flagBits_mk _ _ _ _, ha⟩

/-- 8-bit ALU operations: result, CF, SF, OF always; ZF except after ADD, ADC and SBB
(missing from the full claim: ZF after these, which the code gets wrong, see `C03_zf_wrong`). -/
theorem C03_alu8_partial (s : St σ) (op : Fin 8) (l r : W) (rm : RM) (h : RMOk s rm) (hd : s.dsize = false) :
    let L : Byte := l.setWidth 8
    let R : Byte := r.setWidth 8
    let ci : Bool := s.flags &&& 1 ≠ 0
    ∃ s' z, DoOp op l r s = .ok () s' ∧
      FlagBits s'.flags (aluCF (opOf op) L R ci) z (aluRes (opOf op) L R ci).msb (aluOF (opOf op) L R ci) ∧
      (opOf op ≠ .add → opOf op ≠ .adc → opOf op ≠ .sbb → z = (aluRes (opOf op) L R ci == 0)) ∧
      ∀ F, abs s' F = if opOf op = .cmp then abs s F else (abs s F).setRm8 rm (aluRes (opOf op) L R ci) := by
  intro L R ci
  have hci : ci = cfOf s.flags := rfl
  have hf : (opState s op l r).flags = mkFlags (aluCF (opOf op) L R ci)
      ((opRes op s.flags (l &&& 0xff) (r &&& 0xff)).1.setWidth 16 == 0)
      (aluRes (opOf op) L R ci).msb (aluOF (opOf op) L R ci) := by
    simp only [opState, hd, opTrim, Bool.false_eq_true, if_false]
    rw [opFlags_8, hci]
  have key : ∃ s', (if op ≠ 7 then WriteRM (opRes op s.flags (opTrim s.dsize l) (opTrim s.dsize r)).1 else pure ())
      (opState s op l r) = .ok () s' ∧ s'.flags = (opState s op l r).flags ∧
      ∀ F, abs s' F = if opOf op = .cmp then abs s F else (abs s F).setRm8 rm (aluRes (opOf op) L R ci) := by
    by_cases h7 : op = 7
    · subst h7
      exact ⟨_, rfl, rfl, fun F => rfl⟩
    · rw [if_pos h7]
      obtain ⟨s', e, hfl, -, h8⟩ := WriteRM_eq (opState s op l r) rm
        (opRes op s.flags (opTrim s.dsize l) (opTrim s.dsize r)).1 h
      refine ⟨s', e, hfl, fun F => ?_⟩
      rw [if_neg (fun e => h7 ((opOf_cmp op).mp e)), h8 hd F]
      simp only [hd, opTrim, Bool.false_eq_true, if_false]
      rw [show t8 (opRes op s.flags (l &&& 0xff) (r &&& 0xff)).1 =
        (opRes op s.flags (l &&& 0xff) (r &&& 0xff)).1.setWidth 8 from rfl,
        opRes_fst 8 (by decide), hci, setWidth_and_ff, setWidth_and_ff]
      rfl
  obtain ⟨s', e, hfl, ha⟩ := key
  have hw := (wp_DoOp s op l r (fun _ t => t = s')).mpr ⟨(), s', e, rfl⟩
  obtain ⟨⟨⟩, t, e2, rfl⟩ := hw
  refine ⟨t, _, e2, by rw [hfl, hf]; exact flagBits_mk _ _ _ _, ?_, ha⟩
  intro h1 h2 h3
  rw [byte_zf op s.flags l r (by rintro (h | h | h) <;> contradiction), hci]

/-- A host that provides nothing. -/
def nullHost : Host Unit where
  openFile _ _ _ := (-1, ())
  closeFile _ _ := ()
  readFile _ _ _ := (-1, [], ())
  writeFile _ _ _ := (-1, ())
  putChar _ _ := ()

/-- The initial state with `code` at CS:0000. -/
def codeState (code : List Byte) : St Unit :=
  { St.initial () with mem := storeBytes (Mem.const 0 20) (0x2000 * 16) code }

/-- The violation of C03: `ADD AL,BL` (00 D8) with AL = BL = 80h gives AL = 0 with ZF clear. -/
theorem C03_zf_wrong : ∃ s s' : St Unit, step nullHost s = .ok () s' ∧
    s.ax = 0x80 ∧ s.bx = 0x80 ∧ current s = some (.aluRmReg .add false (.reg 0) 3) ∧
    s'.ax = 0 ∧ s'.flags &&& 0x40 = 0 := by
  refine ⟨{ codeState [0x00, 0xd8] with ax := 0x80, bx := 0x80 }, _, rfl, rfl, rfl, ?_, ?_, ?_⟩ <;> decide +kernel

/-- `C02_alu16` applies to register and to memory operands: `SUB [addr],r` with a borrow. -/
example (s : St σ) : ∃ s', DoOp 5 0x70001 0xffff0002 { s with modrm := some 0xc3#8, dsize := true } = .ok () s' ∧
    t16 s'.bx = 0xffff := by
  obtain ⟨s', h1, -, h3⟩ := C02_alu16 { s with modrm := some 0xc3#8, dsize := true } 5 0x70001 0xffff0002 (.reg 3)
    ⟨_, rfl, by decide, by decide⟩ rfl
  exact ⟨s', h1, congrArg Cpu.bx (h3 F0)⟩

/-! ## C04: conditional jumps after CMP -/

/-- What the conditional jump `cc` means after `CMP a,b`. -/
def jumpMeans (cc : Fin 16) (a b : Word) : Prop :=
  match cc.val with
  | 0x0 => a.toInt - b.toInt < -32768 ∨ 32767 < a.toInt - b.toInt   -- JO
  | 0x1 => -32768 ≤ a.toInt - b.toInt ∧ a.toInt - b.toInt ≤ 32767   -- JNO
  | 0x2 => a.toNat < b.toNat        -- JC, JB
  | 0x3 => b.toNat ≤ a.toNat        -- JNC, JAE
  | 0x4 => a = b                    -- JZ
  | 0x5 => a ≠ b                    -- JNZ
  | 0x6 => a.toNat ≤ b.toNat        -- JNA
  | 0x7 => b.toNat < a.toNat        -- JA
  | 0x8 => (a - b).toInt < 0        -- JS
  | 0x9 => 0 ≤ (a - b).toInt        -- JNS
  | 0xc => a.toInt < b.toInt        -- JL
  | 0xd => b.toInt ≤ a.toInt        -- JGE
  | 0xe => a.toInt ≤ b.toInt        -- JNG
  | 0xf => b.toInt < a.toInt        -- JG
  | _ => False                      -- parity is not implemented

theorem sub_eq_zero_iff (a b : Word) : (a - b == 0) = true ↔ a = b := by
  rw [beq_iff_eq]
  constructor
  · intro h
    rw [← BitVec.sub_add_cancel a b, h]
    simp
  · rintro rfl; simp

theorem signed_lt (a b : Word) : ((a - b).msb != outOfRange 16 (a.toInt - b.toInt)) = true ↔ a.toInt < b.toInt := by
  rw [BitVec.msb_eq_toInt, BitVec.toInt_sub]
  have h1 := BitVec.toInt_lt (x := a)
  have h2 := BitVec.le_toInt (x := a)
  have h3 := BitVec.toInt_lt (x := b)
  have h4 := BitVec.le_toInt (x := b)
  simp only [outOfRange, Int.bmod]
  simp only [bne_iff_ne, ne_eq]
  rw [Bool.eq_iff_iff]
  simp only [decide_eq_true_eq, Bool.or_eq_true]
  split <;> omega

theorem jccCond_mk (cc : Fin 16) (c z s o : Bool) : jccCond cc (mkFlags c z s o) =
    match cc.val / 2 with
    | 0 => some o
    | 1 => some c
    | 2 => some z
    | 3 => some (z || c)
    | 4 => some s
    | 6 => some (!s != !o)
    | 7 => some (z || (!s != !o))
    | _ => none := by
  have h1 := cfOf_mk c z s o
  have h2 := zfOf_mk c z s o
  have h3 := sfOf_mk c z s o
  have h4 := ofOf_mk c z s o
  simp only [cfOf, zfOf, sfOf, ofOf] at h1 h2 h3 h4
  simp only [jccCond, h1, h2, h3, h4]
  rfl

theorem jcc_means (cc : Fin 16) (hcc : cc.val / 2 ≠ 5) (a b : Word) (ci : Bool) :
    ∃ j, jccCond cc (mkFlags (aluCF .cmp a b ci) (aluRes .cmp a b ci == 0) (aluRes .cmp a b ci).msb (aluOF .cmp a b ci))
      = some j ∧ ((j = (cc.val % 2 == 0)) ↔ jumpMeans cc a b) := by
  have hz := sub_eq_zero_iff a b
  have hsl := signed_lt a b
  have hms : (a - b).msb = true ↔ (a - b).toInt < 0 := by rw [BitVec.msb_eq_toInt, decide_eq_true_eq]
  have hnat : a = b ↔ a.toNat = b.toNat := ⟨fun h => by rw [h], BitVec.eq_of_toNat_eq⟩
  have hint : a = b ↔ a.toInt = b.toInt := ⟨fun h => by rw [h], BitVec.eq_of_toInt_eq⟩
  have hor : outOfRange 16 (a.toInt - b.toInt) = true ↔
      (a.toInt - b.toInt < -32768 ∨ 32767 < a.toInt - b.toInt) := by
    simp only [outOfRange, Bool.or_eq_true, decide_eq_true_eq]
    omega
  have hcf : decide (a.toNat < b.toNat) = true ↔ a.toNat < b.toNat := decide_eq_true_iff
  rw [jccCond_mk]
  simp only [aluRes, aluCF, aluOF]
  generalize (a - b == 0) = z at *
  generalize (a - b).msb = m at *
  generalize outOfRange 16 (a.toInt - b.toInt) = o at *
  generalize decide (a.toNat < b.toNat) = c at *
  have hneg : (!m != !o) = (m != o) := by cases m <;> cases o <;> rfl
  rw [hneg]
  generalize (m != o) = lt at *
  have hn : ∀ {x : Bool} {P Q : Prop}, (x = true ↔ P) → (Q ↔ ¬ P) → (x = false ↔ Q) := by
    intro x P Q h h'
    rw [h', ← h, Bool.not_eq_true]
  have ho : ∀ {x y : Bool} {P Q R : Prop}, (x = true ↔ P) → (y = true ↔ Q) → (R ↔ P ∨ Q) → ((x || y) = true ↔ R) := by
    intro x y P Q R h h' h''
    rw [h'', ← h, ← h', Bool.or_eq_true]
  match cc, hcc with
  | 0, _ => exact ⟨_, rfl, hor⟩
  | 1, _ => exact ⟨_, rfl, hn (Q := -32768 ≤ a.toInt - b.toInt ∧ a.toInt - b.toInt ≤ 32767) hor (by omega)⟩
  | 2, _ => exact ⟨_, rfl, hcf⟩
  | 3, _ => exact ⟨_, rfl, hn (Q := b.toNat ≤ a.toNat) hcf (by omega)⟩
  | 4, _ => exact ⟨_, rfl, hz⟩
  | 5, _ => exact ⟨_, rfl, hn (Q := a ≠ b) hz Iff.rfl⟩
  | 6, _ => exact ⟨_, rfl, ho (R := a.toNat ≤ b.toNat) hz hcf (by rw [hnat]; omega)⟩
  | 7, _ => exact ⟨_, rfl, hn (Q := b.toNat < a.toNat) (ho hz hcf Iff.rfl) (by rw [hnat]; omega)⟩
  | 8, _ => exact ⟨_, rfl, hms⟩
  | 9, _ => exact ⟨_, rfl, hn (Q := 0 ≤ (a - b).toInt) hms (by omega)⟩
  | 10, h => exact absurd rfl h
  | 11, h => exact absurd rfl h
  | 12, _ => exact ⟨_, rfl, hsl⟩
  | 13, _ => exact ⟨_, rfl, hn (Q := b.toInt ≤ a.toInt) hsl (by omega)⟩
  | 14, _ => exact ⟨_, rfl, ho (R := a.toInt ≤ b.toInt) hz hsl (by rw [hint]; omega)⟩
  | 15, _ => exact ⟨_, rfl, hn (Q := b.toInt < a.toInt) (ho hz hsl Iff.rfl) (by rw [hint]; omega)⟩
  | ⟨n + 16, h⟩, _ => omega

open Classical in
/-- `CMP l,r` followed by the conditional jump `cc` with displacement byte `d`. -/
theorem C04_jcc (s : St σ) (l r : W) (cc : Fin 16) (d : Byte) (hd : s.dsize = true)
    (hip : -2 ^ 30 ≤ s.ip.toInt ∧ s.ip.toInt < 2 ^ 30)
    (hcc : cc.val / 2 ≠ 5) (hmem : s.mem.get (linear s.cs s.ip) = d) :
    let a : Word := l.setWidth 16
    let b : Word := r.setWidth 16
    ∃ s', (do DoOp 7 l r; JCC cc) s = .ok () s' ∧
      s'.ip.toInt = s.ip.toInt + 1 + (if jumpMeans cc a b then d.toInt else 0) ∧
      ∀ F, { abs s' F with ip := 0 } = { abs s F with ip := 0 } := by
  intro a b
  have hfl : (opState s 7 l r).flags = mkFlags (aluCF .cmp a b (cfOf s.flags)) (aluRes .cmp a b (cfOf s.flags) == 0)
      (aluRes .cmp a b (cfOf s.flags)).msb (aluOF .cmp a b (cfOf s.flags)) := by
    simp only [opState, hd, opTrim, if_true]
    rw [opFlags_16]
    rfl
  obtain ⟨j, hj, hm⟩ := jcc_means cc hcc a b (cfOf s.flags)
  rw [← hfl] at hj
  have h1 : (1 : W).toInt = 1 := rfl
  have hip1 := toInt_add_eq (a := s.ip) (b := 1) (by omega) (by omega)
  have hsd : (schar (d.setWidth 32)).toInt = d.toInt := by
    rw [schar, setWidth8_32, BitVec.toInt_signExtend_of_le (by decide)]
  have hb := schar_toInt (d.setWidth 32)
  have hip2 := toInt_add_eq (a := s.ip + 1) (b := schar (d.setWidth 32)) (by omega) (by omega)
  suffices h : wp (do DoOp 7 l r; JCC cc) s fun _ s' =>
      s'.ip.toInt = s.ip.toInt + 1 + (if jumpMeans cc a b then d.toInt else 0) ∧
      ∀ F, { abs s' F with ip := 0 } = { abs s F with ip := 0 } by
    obtain ⟨⟨⟩, s', e, h⟩ := h
    exact ⟨s', e, h⟩
  rw [wp_bind, wp_DoOp, if_neg (by simp), wp_pure]
  have hrd : Read8 CS s.ip (opState s 7 l r) = .ok (d.setWidth 32) (opState s 7 l r) := by
    rw [← hmem, ← linear_eq]; rfl
  unfold JCC ReadIByte addIp
  simp only [wp_bind, wp_getS]
  change wp (Read8 CS s.ip) _ _
  rw [wp_of_eq hrd]
  change wp (addI s.ip 1) _ _
  rw [wp_addI _ _ (by omega) (by omega), wp_modS, wp_pure]
  change wp (match jccCond cc (opState s 7 l r).flags with
    | none => fail .fatal
    | some j => if j = (cc.val % 2 == 0) then (do
        let s ← getS
        let ip ← addI s.ip (schar (d.setWidth 32))
        modS fun s => { s with ip := ip }) else pure ()) _ _
  rw [hj]
  by_cases ht : j = (cc.val % 2 == 0)
  · simp only [ht, if_true]
    rw [if_pos (hm.mp ht), wp_bind, wp_getS, wp_bind, wp_addI _ _ (by simp only; omega) (by simp only; omega), wp_modS]
    refine ⟨?_, fun F => rfl⟩
    simp only
    rw [hip2, hip1, hsd, h1]
  · simp only [ht, if_false]
    rw [if_neg (fun h => ht (hm.mpr h)), wp_pure]
    refine ⟨?_, fun F => rfl⟩
    simp only
    rw [hip1]
    omega

/-- `CMP 8000h,1` then `JL` is taken backwards by 2. -/
example (s : St σ) (hd : s.dsize = true) (hip : s.ip = 0x100) (hmem : s.mem.get (linear s.cs s.ip) = 0xfe#8) :
    ∃ s', (do DoOp 7 0xffff8000 1; JCC 0xc) s = .ok () s' ∧ s'.ip.toInt = 0xff := by
  obtain ⟨s', e, h, -⟩ := C04_jcc s 0xffff8000 1 0xc 0xfe#8 hd (by rw [hip]; decide) (by decide) hmem
  refine ⟨s', e, ?_⟩
  have hj : jumpMeans 12 ((0xffff8000 : W).setWidth 16) ((1 : W).setWidth 16) := by
    change ((0xffff8000 : W).setWidth 16 : Word).toInt < ((1 : W).setWidth 16 : Word).toInt
    decide
  rw [h, hip, if_pos hj]
  rfl

/-! ## C08: byte registers -/

/-- The 8-bit register `r` (0..7 = AL CL DL BL AH CH DH BH) of a register file. -/
def byteReg (s : St σ) (r : Fin 8) : Nat :=
  match r with
  | 0 => s.ax.toNat % 256 | 1 => s.cx.toNat % 256 | 2 => s.dx.toNat % 256 | 3 => s.bx.toNat % 256
  | 4 => s.ax.toNat / 256 % 256 | 5 => s.cx.toNat / 256 % 256
  | 6 => s.dx.toNat / 256 % 256 | 7 => s.bx.toNat / 256 % 256

theorem byteReg_abs (s : St σ) (r : Fin 8) : byteReg s r = ((abs s F0).reg8 r).toNat := by
  have hl : ∀ x : W, x.toNat % 256 = (Cpu.lo (t16 x)).toNat := by
    intro x
    simp only [Cpu.lo, t16, BitVec.toNat_setWidth]
    omega
  have hh : ∀ x : W, x.toNat / 256 % 256 = (Cpu.hi (t16 x)).toNat := by
    intro x
    simp only [Cpu.hi, t16, BitVec.extractLsb'_toNat, BitVec.toNat_setWidth, Nat.shiftRight_eq_div_pow]
    omega
  match r with
  | 0 => exact hl _ | 1 => exact hl _ | 2 => exact hl _ | 3 => exact hl _
  | 4 => exact hh _ | 5 => exact hh _ | 6 => exact hh _ | 7 => exact hh _

/-- Reading and writing byte registers. -/
theorem C08_byteReg (s : St σ) (hd : s.dsize = false) (r : Fin 8) (v : W) :
    (∃ x, ReadReg r s = .ok x s ∧ x.toNat % 256 = byteReg s r) ∧
    ∃ s', WriteReg r v s = .ok () s' ∧ byteReg s' r = v.toNat % 256 ∧
      (∀ r', r' ≠ r → byteReg s' r' = byteReg s r') ∧
      s'.sp = s.sp ∧ s'.bp = s.bp ∧ s'.si = s.si ∧ s'.di = s.di ∧ s'.flags = s.flags ∧ s'.mem = s.mem := by
  constructor
  · obtain ⟨x, e, -, h⟩ := ReadReg_eq s F0 r
    refine ⟨x, e, ?_⟩
    rw [byteReg_abs, ← h hd, t8, BitVec.toNat_setWidth]
  · obtain ⟨s', e, hf, -, h8⟩ := WriteReg_eq s r v
    have h8 := h8 hd F0
    have hfr : s'.sp = s.sp ∧ s'.bp = s.bp ∧ s'.si = s.si ∧ s'.di = s.di ∧ s'.mem = s.mem := by
      simp only [WriteReg, hd, Bool.false_eq_true, if_false] at e
      match r with
      | 0 | 1 | 2 | 3 => cases e; exact ⟨rfl, rfl, rfl, rfl, rfl⟩
      | 4 | 5 | 6 | 7 => cases e; exact ⟨rfl, rfl, rfl, rfl, rfl⟩
    refine ⟨s', e, ?_, ?_, hfr.1, hfr.2.1, hfr.2.2.1, hfr.2.2.2.1, hf, hfr.2.2.2.2⟩
    · rw [byteReg_abs, h8]
      have : v.toNat % 256 = (t8 v).toNat := by rw [t8, BitVec.toNat_setWidth]
      rw [this]
      congr 1
      match r with
      | 0 | 1 | 2 | 3 => exact Cpu.lo_append _ _
      | 4 | 5 | 6 | 7 => exact Cpu.hi_append _ _
    · intro r' hr
      rw [byteReg_abs, byteReg_abs, h8]
      congr 1
      have hl : ∀ a b : Byte, Cpu.lo (a ++ b : Word) = b := Cpu.lo_append
      have hh : ∀ a b : Byte, Cpu.hi (a ++ b : Word) = a := Cpu.hi_append
      match r, r', hr with
      | 0, 1, _ | 0, 2, _ | 0, 3, _ | 0, 5, _ | 0, 6, _ | 0, 7, _ => rfl
      | 1, 0, _ | 1, 2, _ | 1, 3, _ | 1, 4, _ | 1, 6, _ | 1, 7, _ => rfl
      | 2, 0, _ | 2, 1, _ | 2, 3, _ | 2, 4, _ | 2, 5, _ | 2, 7, _ => rfl
      | 3, 0, _ | 3, 1, _ | 3, 2, _ | 3, 4, _ | 3, 5, _ | 3, 6, _ => rfl
      | 4, 1, _ | 4, 2, _ | 4, 3, _ | 4, 5, _ | 4, 6, _ | 4, 7, _ => rfl
      | 5, 0, _ | 5, 2, _ | 5, 3, _ | 5, 4, _ | 5, 6, _ | 5, 7, _ => rfl
      | 6, 0, _ | 6, 1, _ | 6, 3, _ | 6, 4, _ | 6, 5, _ | 6, 7, _ => rfl
      | 7, 0, _ | 7, 1, _ | 7, 2, _ | 7, 4, _ | 7, 5, _ | 7, 6, _ => rfl
      | 0, 4, _ | 1, 5, _ | 2, 6, _ | 3, 7, _ => exact hh _ _
      | 4, 0, _ | 5, 1, _ | 6, 2, _ | 7, 3, _ => exact hl _ _
      | 0, 0, h | 1, 1, h | 2, 2, h | 3, 3, h | 4, 4, h | 5, 5, h | 6, 6, h | 7, 7, h => exact absurd rfl h

/-- Writing AH leaves AL. -/
example (s : St σ) (hd : s.dsize = false) (h : s.ax = 0x1234) :
    ∃ s', WriteReg 4 0xabcd s = .ok () s' ∧ byteReg s' 4 = 0xcd ∧ byteReg s' 0 = 0x34 := by
  obtain ⟨-, s', e, h1, h2, -⟩ := C08_byteReg s hd 4 0xabcd
  refine ⟨s', e, h1, ?_⟩
  rw [h2 0 (by decide)]
  simp [byteReg, h]

end Props
