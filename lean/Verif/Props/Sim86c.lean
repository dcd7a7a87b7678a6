import Verif.Props.Sim86b
import Verif.I86.Code
/-!
# Properties of the simulator `sim86.c`: dirty registers, operands, strings, shifts (C06, C07, C09, C10)
-/
namespace Props
open Sim86 I86
variable {σ : Type}

/-! ## C06: the upper halves of the host integers -/

/-- The machine states agree on everything an 8086 program can see: low 16 bits of all registers, the four flags and
memory. -/
structure Agree (s t : St σ) : Prop where
  reg : ∀ r, t16 (s.reg r) = t16 (t.reg r)
  sreg : ∀ r, t16 (s.sreg r) = t16 (t.sreg r)
  ip : t16 s.ip = t16 t.ip
  flags : ∀ m ∈ [0x1#32, 0x40#32, 0x80#32, 0x800#32], (s.flags &&& m ≠ 0 ↔ t.flags &&& m ≠ 0)
  mem : s.mem = t.mem

/-- The flags of the state, all known. -/
def flagsOf (s : St σ) : Flags4 :=
  ⟨some (cfOf s.flags), some (zfOf s.flags), some (sfOf s.flags), some (ofOf s.flags)⟩

theorem flagsOf_ok (s : St σ) : FlagsOk (flagsOf s) s.flags := by
  constructor <;> intro v h <;> exact Option.some.inj h

theorem abs_congr {s t : St σ} (hr : ∀ r, t16 (s.reg r) = t16 (t.reg r)) (hsr : ∀ r, t16 (s.sreg r) = t16 (t.sreg r))
    (hip : t16 s.ip = t16 t.ip) (hm : s.mem = t.mem) (F : Flags4) : abs s F = abs t F := by
  have r0 := hr 0; have r1 := hr 1; have r2 := hr 2; have r3 := hr 3
  have r4 := hr 4; have r5 := hr 5; have r6 := hr 6; have r7 := hr 7
  have s0 := hsr 0; have s1 := hsr 1; have s2 := hsr 2; have s3 := hsr 3
  simp only [St.reg, St.sreg] at *
  simp only [abs, r0, r1, r2, r3, r4, r5, r6, r7, s0, s1, s2, s3, hip, hm]

theorem Agree.flagsOf {s t : St σ} (h : Agree s t) : flagsOf s = flagsOf t := by
  have h1 := h.flags 0x1#32 (by decide)
  have h2 := h.flags 0x40#32 (by decide)
  have h3 := h.flags 0x80#32 (by decide)
  have h4 := h.flags 0x800#32 (by decide)
  have e1 : cfOf s.flags = cfOf t.flags := decide_eq_decide.2 h1
  have e2 : zfOf s.flags = zfOf t.flags := decide_eq_decide.2 h2
  have e3 : sfOf s.flags = sfOf t.flags := decide_eq_decide.2 h3
  have e4 : ofOf s.flags = ofOf t.flags := decide_eq_decide.2 h4
  simp only [Props.flagsOf, e1, e2, e3, e4]

theorem abs_low {s t : St σ} {F G : Flags4} (h : abs s F = abs t G) :
    (∀ r, t16 (s.reg r) = t16 (t.reg r)) ∧ (∀ r, t16 (s.sreg r) = t16 (t.sreg r)) ∧ t16 s.ip = t16 t.ip ∧ s.mem = t.mem := by
  refine ⟨fun r => ?_, fun r => ?_, congrArg Cpu.ip h, congrArg Cpu.mem h⟩
  · have := congrArg (·.reg16 r) h
    simpa only [abs_reg] using this
  · match r with
    | 0 => exact congrArg Cpu.es h
    | 1 => exact congrArg Cpu.cs h
    | 2 => exact congrArg Cpu.ss h
    | 3 => exact congrArg Cpu.ds h

/-- C06 for the instructions of the specified subset, in the states where the host representation is one the
instruction handles (`Good`: that excludes SHR/SAR/DIV/IDIV/REP on the wrong representation and integers near overflow).
Missing from the full claim: flags which the specification leaves undefined may differ afterwards. -/
theorem C06_agree_partial (H : Host σ) {s t : St σ} (h : Agree s t) (hs : Good s) (ht : Good t) {c' : Cpu}
    (hx : Cpu.step .sim (abs s (flagsOf s)) = .next c') :
    ∃ s' t', step H s = .ok () s' ∧ step H t = .ok () t' ∧
      (∀ r, t16 (s'.reg r) = t16 (t'.reg r)) ∧ (∀ r, t16 (s'.sreg r) = t16 (t'.sreg r)) ∧
      t16 s'.ip = t16 t'.ip ∧ s'.mem = t'.mem ∧
      (c'.cf.isSome → (s'.flags &&& 0x1 ≠ 0 ↔ t'.flags &&& 0x1 ≠ 0)) ∧
      (c'.zf.isSome → (s'.flags &&& 0x40 ≠ 0 ↔ t'.flags &&& 0x40 ≠ 0)) ∧
      (c'.sf.isSome → (s'.flags &&& 0x80 ≠ 0 ↔ t'.flags &&& 0x80 ≠ 0)) ∧
      (c'.of.isSome → (s'.flags &&& 0x800 ≠ 0 ↔ t'.flags &&& 0x800 ≠ 0)) := by
  have e : abs s (flagsOf s) = abs t (flagsOf t) := by
    rw [h.flagsOf]; exact abs_congr h.reg h.sreg h.ip h.mem _
  obtain ⟨⟨⟩, s', e1, ⟨F1, a1, k1⟩, -⟩ := step_wp H hs.safe (flagsOf_ok s) (fun i rest h => hs.allowed i (decode_current h)) hx
  rw [e] at hx
  obtain ⟨⟨⟩, t', e2, ⟨F2, a2, k2⟩, -⟩ := step_wp H ht.safe (flagsOf_ok t) (fun i rest h => ht.allowed i (decode_current h)) hx
  obtain ⟨b1, b2, b3, b4⟩ := abs_low (a1.symm.trans a2)
  refine ⟨s', t', e1, e2, b1, b2, b3, b4, fun h => ?_, fun h => ?_, fun h => ?_, fun h => ?_⟩
  all_goals obtain ⟨v, hv⟩ := Option.isSome_iff_exists.1 h
  · exact decide_eq_decide.1 ((k1.cf v ((congrArg Cpu.cf a1).symm.trans hv)).trans (k2.cf v ((congrArg Cpu.cf a2).symm.trans hv)).symm)
  · exact decide_eq_decide.1 ((k1.zf v ((congrArg Cpu.zf a1).symm.trans hv)).trans (k2.zf v ((congrArg Cpu.zf a2).symm.trans hv)).symm)
  · exact decide_eq_decide.1 ((k1.sf v ((congrArg Cpu.sf a1).symm.trans hv)).trans (k2.sf v ((congrArg Cpu.sf a2).symm.trans hv)).symm)
  · exact decide_eq_decide.1 ((k1.of v ((congrArg Cpu.of a1).symm.trans hv)).trans (k2.of v ((congrArg Cpu.of a2).symm.trans hv)).symm)

/-- The violation of C06: `SAR AX,1` (D1 F8) from two states that only differ above bit 15 of AX. -/
theorem C06_sar_violated : ∃ s t s' t' : St Unit, Agree s t ∧ step nullHost s = .ok () s' ∧ step nullHost t = .ok () t' ∧
    t16 s'.ax ≠ t16 t'.ax := by
  refine ⟨{ codeState [0xd1, 0xf8] with ax := 0x8000 }, { codeState [0xd1, 0xf8] with ax := 0xffff8000 }, _, _, ?_, rfl, rfl, ?_⟩
  · exact ⟨by decide +kernel, by decide +kernel, rfl, fun _ _ => Iff.rfl, rfl⟩
  · decide +kernel

/-! ## C07: effective addresses -/

/-- ModRM memory operands: `sg` is the segment prefix, the ModRM byte and what follows it are at CS:IP+k.  The operand's
offset is base + displacement modulo 2^16 and its segment the prefix or the default of the base; exactly the bytes
of the encoding are consumed, and nothing else changes. -/
theorem C07_modrm {s : St σ} (hs : Safe s) {k : Nat} {b : Byte} {rest rest' : List Byte} {sg : Option SReg}
    {base : Base} {disp : Word} {dz : Bool} (hk : k + (b :: rest).length = 8)
    (ha : Ahead s (b :: rest) (s.ip + BitVec.ofNat 32 k))
    (hd : decodeRM sg b rest = some (.mem sg base disp, rest')) :
    ∃ s', ModRM { s with ip := s.ip + BitVec.ofNat 32 k, modrm := none, addr := 0, seg := sg.map srIdx, dsize := dz } =
        .ok () s' ∧
      (∀ F, t16 s'.addr = (abs s F).baseVal base + disp) ∧
      s'.seg = some (srIdx (sg.getD (Cpu.baseSeg base))) ∧
      s' = { s with ip := s.ip + BitVec.ofNat 32 (8 - rest'.length), modrm := some b, addr := s'.addr, seg := s'.seg, dsize := dz } := by
  obtain ⟨⟨⟩, s', e, k', a', sg', hs', hk', -, b', hb', -, hseg, haddr, -, -⟩ := ModRM_wp hs (dz := dz) hk ha hd
  refine ⟨s', e, fun F => ?_, hseg, ?_⟩
  · rw [haddr, hs', baseValS_dec]
    congr 1
    cases base <;> simp only [baseValS, Cpu.baseVal, abs, t16_add] <;> rfl
  · have : k' = 8 - rest'.length := by omega
    subst this
    rw [hs']
    rfl

instance : Inhabited Base := ⟨.none⟩

/-- The table of the manual, written out: which registers, how many displacement bytes, SS for BP. -/
def modrmTable (b : Byte) : Option (Base × Nat) :=
  let bases := [Base.bxsi, .bxdi, .bpsi, .bpdi, .si, .di, .bp, .bx]
  match b.toNat / 64 with
  | 0 => if b.toNat % 8 = 6 then some (.none, 2) else some (bases[b.toNat % 8]!, 0)
  | 1 => some (bases[b.toNat % 8]!, 1)
  | 2 => some (bases[b.toNat % 8]!, 2)
  | _ => none

/-- Every one of the 192 memory ModRM bytes is decoded with the base and displacement length of the table. -/
theorem C07_table (sg : Option SReg) (b : Byte) (d : List Byte) (base : Base) (n : Nat) (h : modrmTable b = some (base, n))
    (hn : d.length = n) (rest : List Byte) :
    decodeRM sg b (d ++ rest) = some (.mem sg base (match d with
      | [] => 0
      | [x] => x.signExtend 16
      | x :: y :: _ => word x y), rest) := by
  have hb := b.isLt
  have hbase : ∀ m : Fin 8, [Base.bxsi, .bxdi, .bpsi, .bpdi, .si, .di, .bp, .bx][m.val]! = Base.ofCode m.val := by decide
  have hbase := hbase ⟨b.toNat % 8, Nat.mod_lt _ (by omega)⟩
  simp only at hbase
  have hm : b.toNat / 64 = 0 ∨ b.toNat / 64 = 1 ∨ b.toNat / 64 = 2 ∨ b.toNat / 64 = 3 := by omega
  simp only [modrmTable, hbase] at h
  simp only [decodeRM]
  rcases hm with e | e | e | e <;> simp only [e] at h ⊢
  · by_cases h6 : b.toNat % 8 = 6
    · simp only [h6, if_true, Option.some.injEq, Prod.mk.injEq] at h ⊢
      obtain ⟨rfl, rfl⟩ := h
      match d, hn with
      | [x, y], _ => simp
    · simp only [h6, if_false, Option.some.injEq, Prod.mk.injEq] at h ⊢
      obtain ⟨rfl, rfl⟩ := h
      match d, hn with
      | [], _ => simp
  · simp only [Option.some.injEq, Prod.mk.injEq] at h
    obtain ⟨rfl, rfl⟩ := h
    match d, hn with
    | [x], _ => simp
  · simp only [Option.some.injEq, Prod.mk.injEq] at h
    obtain ⟨rfl, rfl⟩ := h
    match d, hn with
    | [x, y], _ => simp
  · cases h

/-- `[BP-2]` through DS: prefix honoured, disp8 sign-extended. -/
example : modrmTable 0x46 = some (.bp, 1) ∧
    decodeRM (some .ds) 0x46 [0xfe, 0x90] = some (.mem (some .ds) .bp 0xfffe, [0x90]) := by decide
example : Cpu.baseSeg .bp = .ss ∧ Cpu.baseSeg .bpdi = .ss ∧ Cpu.baseSeg .bx = .ds ∧ Cpu.baseSeg .none = .ds := by decide

/-! ## Executing known code on the simulator -/

/-- The machine code at CS:IP of a simulator state. -/
def codeHere (s : St σ) : List Byte → Nat → Prop
  | [], _ => True
  | b :: bs, i => s.mem.get (linear s.cs (s.ip + BitVec.ofNat 32 i)) = b ∧ codeHere s bs (i + 1)

theorem codeHere_codeAt {s : St σ} {bytes : List Byte} {i : Nat} (h : codeHere s bytes i) (F : Flags4) :
    (abs s F).codeAt (t16 s.ip + BitVec.ofNat 16 i) bytes := by
  induction bytes generalizing i with
  | nil => trivial
  | cons b bs ih =>
    refine ⟨?_, ?_⟩
    · have := h.1
      rw [← linear_eq, makeaddr_toNat, t16_add] at this
      rw [← this]
      have e : t16 (BitVec.ofNat 32 i) = BitVec.ofNat 16 i := by
        apply BitVec.eq_of_toNat_eq
        simp only [t16, BitVec.toNat_setWidth, BitVec.toNat_ofNat]
        omega
      rw [e]
      rfl
    · have := ih h.2
      rw [BitVec.add_assoc]
      have e : BitVec.ofNat 16 i + 1 = BitVec.ofNat 16 (i + 1) := by
        apply BitVec.eq_of_toNat_eq
        simp
      rw [e]
      exact this

theorem step_code (H : Host σ) {s : St σ} (hs : Safe s) {bytes : List Byte} {i : Instr} (he : Enc bytes i)
    (hc : codeHere s bytes 0) (hal : Allowed s i) {c' : Cpu}
    (hx : Cpu.exec .sim i { abs s (flagsOf s) with ip := t16 s.ip + BitVec.ofNat 16 bytes.length } = .next c') :
    ∃ s', step H s = .ok () s' ∧ Rel s' c' ∧ s'.world = s.world := by
  have h1 := codeHere_codeAt hc (flagsOf s)
  rw [Cpu.ofNat_zero_add] at h1
  have h2 : Cpu.step .sim (abs s (flagsOf s)) = .next c' := by rw [Cpu.step_enc he h1]; exact hx
  obtain ⟨⟨⟩, s', e, h⟩ := step_wp H hs (flagsOf_ok s) (fun j rest hj => by
    obtain ⟨junk, e⟩ := Cpu.decode_enc he h1
    rw [e] at hj; cases hj
    exact hal) h2
  exact ⟨s', e, h⟩

theorem Rel.absF {s : St σ} {c : Cpu} (h : Rel s c) (F : Flags4) : abs s F = setF c F := by
  obtain ⟨F', rfl, -⟩ := h
  rfl

/-! ## C09: string instructions -/

/-- The linear address of byte `i` of a block. -/
def blockAddr (seg off : W) (i : Nat) : Nat := linear seg (off + BitVec.ofNat 32 i)

theorem blockAddr_eq (seg off : W) (i : Nat) : blockAddr seg off i = Cpu.lin (t16 seg) (t16 off + BitVec.ofNat 16 i) := by
  rw [blockAddr, ← linear_eq, makeaddr_toNat, t16_add]
  congr 2
  apply BitVec.eq_of_toNat_eq
  simp only [t16, BitVec.toNat_setWidth, BitVec.toNat_ofNat]
  omega

theorem t16_ofNat (i : Nat) : t16 (BitVec.ofNat 32 i) = BitVec.ofNat 16 i := by
  apply BitVec.eq_of_toNat_eq
  simp only [t16, BitVec.toNat_setWidth, BitVec.toNat_ofNat]
  omega

theorem sub_self_count {x : W} (_ : x.toNat < 65536) : t16 x - BitVec.ofNat 16 x.toNat = 0 := by
  have : BitVec.ofNat 16 x.toNat = t16 x := by
    apply BitVec.eq_of_toNat_eq
    simp
  rw [this]
  exact BitVec.sub_self _

theorem t16_toNat {x : W} (h : x.toNat < 65536) : (t16 x).toNat = x.toNat := by
  rw [BitVec.toNat_setWidth]; omega

/-- REP MOVSB (F3 A4): in general the bytes are moved one by one, ascending. -/
theorem C09_movsb_order (H : Host σ) {s : St σ} (hs : Safe s) (hcx : s.cx.toNat < 65536) (hc : codeHere s [0xf3, 0xa4] 0) :
    ∃ s', step H s = .ok () s' ∧
      ∀ F, abs s' F = Cpu.movs false s.cx.toNat { abs s F with ip := t16 s.ip + 2 } := by
  have he : Enc [0xf3, 0xa4] (.repMovs false) := ⟨by decide, fun _ => rfl⟩
  obtain ⟨s', e, hr, -⟩ := step_code H hs he hc hcx rfl
  refine ⟨s', e, fun F => ?_⟩
  rw [Rel.absF hr]
  have h1 : ∀ n (c : Cpu) F, setF (Cpu.movs false n c) F = Cpu.movs false n (setF c F) := by
    intro n
    induction n with
    | zero => intros; rfl
    | succ n ih => intro c F; simp only [Cpu.movs, ih]; rfl
  rw [h1]
  change Cpu.movs false (t16 s.cx).toNat _ = _
  rw [t16_toNat hcx]
  rfl

/-- REP MOVSB on disjoint blocks copies the source. -/
theorem C09_movsb (H : Host σ) {s : St σ} (hs : Safe s) (hcx : s.cx.toNat < 65536) (hc : codeHere s [0xf3, 0xa4] 0)
    (hdis : ∀ i < s.cx.toNat, ∀ j < s.cx.toNat, blockAddr s.ds s.si i ≠ blockAddr s.es s.di j) :
    ∃ s', step H s = .ok () s' ∧
      (∀ i < s.cx.toNat, s'.mem.get (blockAddr s.es s.di i) = s.mem.get (blockAddr s.ds s.si i)) ∧
      (∀ a < 2 ^ 20, (∀ j < s.cx.toNat, a ≠ blockAddr s.es s.di j) → s'.mem.get a = s.mem.get a) ∧
      ∀ F, abs s' F = { abs s F with
        ip := t16 s.ip + 2, cx := 0, si := t16 s.si + BitVec.ofNat 16 s.cx.toNat,
        di := t16 s.di + BitVec.ofNat 16 s.cx.toNat, mem := s'.mem } := by
  obtain ⟨s', e, h⟩ := C09_movsb_order H hs hcx hc
  have hm : s'.mem = (Cpu.movs false s.cx.toNat { abs s F0 with ip := t16 s.ip + 2 }).mem := congrArg Cpu.mem (h F0)
  simp only [blockAddr_eq] at hdis ⊢
  refine ⟨s', e, fun i hi => ?_, fun a ha hj => ?_, fun F => ?_⟩
  · rw [hm]
    exact Cpu.movs_copy _ { abs s F0 with ip := t16 s.ip + 2 } (by omega) hdis hi
  · rw [hm]
    exact Cpu.movs_frame _ { abs s F0 with ip := t16 s.ip + 2 } ha hj
  · have := Cpu.movs_regs s.cx.toNat { abs s F with ip := t16 s.ip + 2 }
    rw [← h F] at this
    rw [this]
    change ({ abs s F with
        ip := t16 s.ip + 2, cx := t16 s.cx - BitVec.ofNat 16 s.cx.toNat, si := t16 s.si + BitVec.ofNat 16 s.cx.toNat,
        di := t16 s.di + BitVec.ofNat 16 s.cx.toNat, mem := s'.mem } : Cpu) = _
    rw [sub_self_count hcx]

theorem movs_word_regs (n : Nat) (c : Cpu)
    (hdis : ∀ i < 2 * n, ∀ j < 2 * n, Cpu.lin c.ds (c.si + BitVec.ofNat 16 i) ≠ Cpu.lin c.es (c.di + BitVec.ofNat 16 j))
    (hz : c.cx - BitVec.ofNat 16 n = 0) :
    c.movs true n = { c with
      cx := 0, si := c.si + BitVec.ofNat 16 (2 * n), di := c.di + BitVec.ofNat 16 (2 * n),
      mem := (c.movs false (2 * n)).mem } := by
  rw [Cpu.movs_word n c hdis, hz, Cpu.movs_regs]

/-- REP MOVSW (F3 A5) on disjoint blocks copies `2 CX` bytes. -/
theorem C09_movsw (H : Host σ) {s : St σ} (hs : Safe s) (hcx : s.cx.toNat < 65536) (hc : codeHere s [0xf3, 0xa5] 0)
    (hn : 2 * s.cx.toNat ≤ 65536)
    (hdis : ∀ i < 2 * s.cx.toNat, ∀ j < 2 * s.cx.toNat, blockAddr s.ds s.si i ≠ blockAddr s.es s.di j) :
    ∃ s', step H s = .ok () s' ∧
      (∀ i < 2 * s.cx.toNat, s'.mem.get (blockAddr s.es s.di i) = s.mem.get (blockAddr s.ds s.si i)) ∧
      (∀ a < 2 ^ 20, (∀ j < 2 * s.cx.toNat, a ≠ blockAddr s.es s.di j) → s'.mem.get a = s.mem.get a) ∧
      ∀ F, abs s' F = { abs s F with
        ip := t16 s.ip + 2, cx := 0, si := t16 s.si + BitVec.ofNat 16 (2 * s.cx.toNat),
        di := t16 s.di + BitVec.ofNat 16 (2 * s.cx.toNat), mem := s'.mem } := by
  have he : Enc [0xf3, 0xa5] (.repMovs true) := ⟨by decide, fun _ => rfl⟩
  obtain ⟨s', e, hr, -⟩ := step_code H hs he hc hcx rfl
  simp only [blockAddr_eq] at hdis ⊢
  have hw : Cpu.movs true (t16 s.cx).toNat { abs s (flagsOf s) with ip := t16 s.ip + 2 } =
      { abs s (flagsOf s) with
        ip := t16 s.ip + 2, cx := 0, si := t16 s.si + BitVec.ofNat 16 (2 * s.cx.toNat),
        di := t16 s.di + BitVec.ofNat 16 (2 * s.cx.toNat),
        mem := (Cpu.movs false (2 * s.cx.toNat) { abs s (flagsOf s) with ip := t16 s.ip + 2 }).mem } := by
    rw [t16_toNat hcx]
    exact movs_word_regs s.cx.toNat { abs s (flagsOf s) with ip := t16 s.ip + 2 } hdis (sub_self_count hcx)
  have hr' : Rel s' (Cpu.movs true (t16 s.cx).toNat { abs s (flagsOf s) with ip := t16 s.ip + 2 }) := hr
  rw [hw] at hr'
  have hm : s'.mem = (Cpu.movs false (2 * s.cx.toNat) { abs s (flagsOf s) with ip := t16 s.ip + 2 }).mem :=
    congrArg Cpu.mem (Rel.absF hr' F0)
  refine ⟨s', e, fun i hi => ?_, fun a ha hj => ?_, fun F => ?_⟩
  · rw [hm]
    exact Cpu.movs_copy _ { abs s (flagsOf s) with ip := t16 s.ip + 2 } (by omega) hdis hi
  · rw [hm]
    exact Cpu.movs_frame _ { abs s (flagsOf s) with ip := t16 s.ip + 2 } ha hj
  · rw [Rel.absF hr', hm]
    rfl

/-- REP STOSB (F3 AA) fills CX bytes with AL. -/
theorem C09_stosb (H : Host σ) {s : St σ} (hs : Safe s) (hcx : s.cx.toNat < 65536) (hc : codeHere s [0xf3, 0xaa] 0) :
    ∃ s', step H s = .ok () s' ∧
      (∀ i < s.cx.toNat, s'.mem.get (blockAddr s.es s.di i) = s.ax.setWidth 8) ∧
      (∀ a < 2 ^ 20, (∀ j < s.cx.toNat, a ≠ blockAddr s.es s.di j) → s'.mem.get a = s.mem.get a) ∧
      ∀ F, abs s' F = { abs s F with
        ip := t16 s.ip + 2, cx := 0, di := t16 s.di + BitVec.ofNat 16 s.cx.toNat, mem := s'.mem } := by
  have he : Enc [0xf3, 0xaa] (.repStos false) := ⟨by decide, fun _ => rfl⟩
  obtain ⟨s', e, hr, -⟩ := step_code H hs he hc hcx rfl
  have hr' : Rel s' { Cpu.stosN false (t16 s.cx).toNat { abs s (flagsOf s) with ip := t16 s.ip + 2 } with cx := 0 } := hr
  rw [t16_toNat hcx, Cpu.stosN_regs] at hr'
  simp only [blockAddr_eq]
  have hm : s'.mem = (Cpu.stosN false s.cx.toNat { abs s (flagsOf s) with ip := t16 s.ip + 2 }).mem :=
    congrArg Cpu.mem (Rel.absF hr' F0)
  refine ⟨s', e, fun i hi => ?_, fun a ha hj => ?_, fun F => ?_⟩
  · rw [hm]
    refine (Cpu.stosN_fill _ { abs s (flagsOf s) with ip := t16 s.ip + 2 } (by omega) hi).trans ?_
    exact BitVec.setWidth_setWidth_of_le _ (by decide)
  · rw [hm]
    exact Cpu.stosN_frame _ { abs s (flagsOf s) with ip := t16 s.ip + 2 } ha hj
  · rw [Rel.absF hr', hm]
    rfl

/-- REP STOSW (F3 AB) fills CX words with AX. -/
theorem C09_stosw (H : Host σ) {s : St σ} (hs : Safe s) (hcx : s.cx.toNat < 65536) (hc : codeHere s [0xf3, 0xab] 0)
    (hn : 2 * s.cx.toNat ≤ 65536) :
    ∃ s', step H s = .ok () s' ∧
      (∀ i < 2 * s.cx.toNat, s'.mem.get (blockAddr s.es s.di i) =
        if i % 2 = 0 then s.ax.setWidth 8 else (s.ax >>> 8).setWidth 8) ∧
      (∀ a < 2 ^ 20, (∀ j < 2 * s.cx.toNat, a ≠ blockAddr s.es s.di j) → s'.mem.get a = s.mem.get a) ∧
      ∀ F, abs s' F = { abs s F with
        ip := t16 s.ip + 2, cx := 0, di := t16 s.di + BitVec.ofNat 16 (2 * s.cx.toNat), mem := s'.mem } := by
  have he : Enc [0xf3, 0xab] (.repStos true) := ⟨by decide, fun _ => rfl⟩
  obtain ⟨s', e, hr, -⟩ := step_code H hs he hc hcx rfl
  have hr' : Rel s' { Cpu.stosN true (t16 s.cx).toNat { abs s (flagsOf s) with ip := t16 s.ip + 2 } with cx := 0 } := hr
  rw [t16_toNat hcx, Cpu.stosN_word_regs] at hr'
  simp only [blockAddr_eq]
  have hm : s'.mem = (Cpu.stosN true s.cx.toNat { abs s (flagsOf s) with ip := t16 s.ip + 2 }).mem :=
    congrArg Cpu.mem (Rel.absF hr' F0)
  refine ⟨s', e, fun i hi => ?_, fun a ha hj => ?_, fun F => ?_⟩
  · rw [hm]
    refine (Cpu.stosN_word_fill _ { abs s (flagsOf s) with ip := t16 s.ip + 2 } (by omega) hi).trans ?_
    by_cases h2 : i % 2 = 0
    · rw [if_pos h2, if_pos h2]
      exact BitVec.setWidth_setWidth_of_le _ (by decide)
    · rw [if_neg h2, if_neg h2]
      apply BitVec.eq_of_getLsbD_eq
      intro j hj
      simp only [Cpu.hi, abs, t16, BitVec.getLsbD_extractLsb', BitVec.getLsbD_setWidth, BitVec.getLsbD_ushiftRight]
      simp [hj]
      omega
  · rw [hm]
    exact Cpu.stosN_word_frame _ { abs s (flagsOf s) with ip := t16 s.ip + 2 } ha hj
  · rw [Rel.absF hr', hm]
    rfl

theorem firstDiff_eq {p : Nat → Bool} {n k : Nat} (hk : k ≤ n) (h1 : ∀ i < k, p i = true) (h2 : k < n → p k = false) :
    Cpu.firstDiff p n = k := by
  obtain ⟨g1, g2, g3⟩ := Cpu.firstDiff_spec p n
  rcases Nat.lt_trichotomy (Cpu.firstDiff p n) k with h | h | h
  · have := g3 (by omega)
    rw [h1 _ h] at this
    cases this
  · exact h
  · have := h2 (by omega)
    rw [g2 _ h] at this
    cases this

theorem byte_sub_eq_zero (a b : Byte) : a - b = 0 ↔ a = b := by
  constructor
  · intro h
    have := congrArg (· + b) h
    change a - b + b = 0#8 + b at this
    rwa [BitVec.sub_add_cancel, BitVec.zero_add] at this
  · rintro rfl
    exact BitVec.sub_self a

theorem zfOf_iff (f : W) : zfOf f = true ↔ f &&& 0x40 ≠ 0 := by
  simp only [zfOf, decide_eq_true_eq]; exact Iff.rfl

/-- REPE CMPSB (F3 A6), CX > 0: `k` is the number of equal leading bytes.  With a mismatch at `k`, `k+1` bytes are
consumed and ZF is clear; without, all CX bytes are consumed and ZF is set. -/
theorem C09_cmpsb (H : Host σ) {s : St σ} (hs : Safe s) (hcx : s.cx.toNat < 65536) (h0 : 0 < s.cx.toNat)
    (hc : codeHere s [0xf3, 0xa6] 0) (k : Nat) (hk : k ≤ s.cx.toNat)
    (heq : ∀ i < k, s.mem.get (blockAddr s.ds s.si i) = s.mem.get (blockAddr s.es s.di i))
    (hne : k < s.cx.toNat → s.mem.get (blockAddr s.ds s.si k) ≠ s.mem.get (blockAddr s.es s.di k)) :
    ∃ s', step H s = .ok () s' ∧ (s'.flags &&& 0x40 ≠ 0 ↔ k = s.cx.toNat) ∧
      ∀ F, abs s' F = { abs s F with
        ip := t16 s.ip + 2, cx := BitVec.ofNat 16 (s.cx.toNat - (k + 1)),
        si := t16 s.si + BitVec.ofNat 16 (min (k + 1) s.cx.toNat),
        di := t16 s.di + BitVec.ofNat 16 (min (k + 1) s.cx.toNat) } := by
  have he : Enc [0xf3, 0xa6] .repeCmpsb := ⟨by decide, fun _ => rfl⟩
  have hz : (t16 s.cx) ≠ 0 := by
    intro h; have := t16_toNat hcx; rw [h] at this; simp at this; omega
  obtain ⟨s', e, hr, -⟩ := step_code H hs he hc hcx (by
    exact if_neg hz)
  have hr' : Rel s' (Cpu.cmpsN .sim (t16 s.cx).toNat { abs s (flagsOf s) with ip := t16 s.ip + 2 }) := hr
  simp only [blockAddr_eq] at heq hne
  have hfd := firstDiff_eq (p := fun i => (abs s F0).rd8 (t16 s.ds) (t16 s.si + BitVec.ofNat 16 i) ==
    (abs s F0).rd8 (t16 s.es) (t16 s.di + BitVec.ofNat 16 i)) hk (fun i hi => beq_iff_eq.2 (heq i hi))
    (fun h => beq_eq_false_iff_ne.2 (hne h))
  have hsp := Cpu.cmpsN_spec .sim s.cx.toNat { abs s (flagsOf s) with ip := t16 s.ip + 2 } (by omega)
  rw [t16_toNat hcx, hsp] at hr'
  change Rel s' _ at hr'
  have hk' : Cpu.firstDiff (fun i => ({ abs s (flagsOf s) with ip := t16 s.ip + 2 } : Cpu).rd8 ({ abs s (flagsOf s) with ip := t16 s.ip + 2 } : Cpu).ds (({ abs s (flagsOf s) with ip := t16 s.ip + 2 } : Cpu).si + BitVec.ofNat 16 i) ==
    ({ abs s (flagsOf s) with ip := t16 s.ip + 2 } : Cpu).rd8 ({ abs s (flagsOf s) with ip := t16 s.ip + 2 } : Cpu).es (({ abs s (flagsOf s) with ip := t16 s.ip + 2 } : Cpu).di + BitVec.ofNat 16 i)) s.cx.toNat = k := hfd
  rw [hk'] at hr'
  have hu : (if k < s.cx.toNat then k + 1 else s.cx.toNat) = min (k + 1) s.cx.toNat := by
    split <;> omega
  rw [hu] at hr'
  refine ⟨s', e, ?_, fun F => ?_⟩
  · obtain ⟨F', ha, hF⟩ := hr'
    have hzf := hF.zf _ (congrArg Cpu.zf ha).symm
    rw [← zfOf_iff, hzf]
    simp only [aluRes]
    rw [beq_iff_eq, byte_sub_eq_zero]
    change (abs s F0).rd8 (t16 s.ds) (t16 s.si + BitVec.ofNat 16 _) = (abs s F0).rd8 (t16 s.es) (t16 s.di + BitVec.ofNat 16 _) ↔ _
    by_cases hkn : k < s.cx.toNat
    · rw [show min (k + 1) s.cx.toNat - 1 = k by omega]
      exact ⟨fun h => absurd h (hne hkn), fun h => absurd h (by omega)⟩
    · rw [show min (k + 1) s.cx.toNat - 1 = k - 1 by omega]
      exact ⟨fun _ => by omega, fun _ => heq (k - 1) (by omega)⟩
  · rw [Rel.absF hr']
    have : t16 s.cx - BitVec.ofNat 16 (min (k + 1) s.cx.toNat) = BitVec.ofNat 16 (s.cx.toNat - (k + 1)) := by
      apply BitVec.eq_of_toNat_eq
      rw [BitVec.toNat_sub, t16_toNat hcx, BitVec.toNat_ofNat, BitVec.toNat_ofNat]
      omega
    rw [← this]
    rfl

/-- REPNE SCASB (F2 AE), CX > 0: `k` leading bytes differ from AL. -/
theorem C09_scasb (H : Host σ) {s : St σ} (hs : Safe s) (hcx : s.cx.toNat < 65536) (h0 : 0 < s.cx.toNat)
    (hc : codeHere s [0xf2, 0xae] 0) (k : Nat) (hk : k ≤ s.cx.toNat)
    (hne : ∀ i < k, s.mem.get (blockAddr s.es s.di i) ≠ s.ax.setWidth 8)
    (heq : k < s.cx.toNat → s.mem.get (blockAddr s.es s.di k) = s.ax.setWidth 8) :
    ∃ s', step H s = .ok () s' ∧ (s'.flags &&& 0x40 ≠ 0 ↔ k < s.cx.toNat) ∧
      ∀ F, abs s' F = { abs s F with
        ip := t16 s.ip + 2, cx := BitVec.ofNat 16 (s.cx.toNat - (k + 1)),
        di := t16 s.di + BitVec.ofNat 16 (min (k + 1) s.cx.toNat) } := by
  have he : Enc [0xf2, 0xae] .repneScasb := ⟨by decide, fun _ => rfl⟩
  have hz : (t16 s.cx) ≠ 0 := by
    intro h; have := t16_toNat hcx; rw [h] at this; simp at this; omega
  obtain ⟨s', e, hr, -⟩ := step_code H hs he hc hcx (by
    exact if_neg hz)
  have hr' : Rel s' (Cpu.scasN .sim (t16 s.cx).toNat { abs s (flagsOf s) with ip := t16 s.ip + 2 }) := hr
  have hal : Cpu.lo (t16 s.ax) = s.ax.setWidth 8 := BitVec.setWidth_setWidth_of_le _ (by decide)
  simp only [blockAddr_eq, ← hal] at heq hne
  have hfd := firstDiff_eq (p := fun i => Cpu.lo (t16 s.ax) !=
    (abs s F0).rd8 (t16 s.es) (t16 s.di + BitVec.ofNat 16 i)) hk
    (fun i hi => bne_iff_ne.2 (hne i hi).symm)
    (fun h => by rw [bne_eq_false_iff_eq]; exact (heq h).symm)
  have hsp := Cpu.scasN_spec .sim s.cx.toNat { abs s (flagsOf s) with ip := t16 s.ip + 2 } (by omega)
  rw [t16_toNat hcx, hsp] at hr'
  have hk' : Cpu.firstDiff (fun i => Cpu.lo ({ abs s (flagsOf s) with ip := t16 s.ip + 2 } : Cpu).ax !=
    ({ abs s (flagsOf s) with ip := t16 s.ip + 2 } : Cpu).rd8 ({ abs s (flagsOf s) with ip := t16 s.ip + 2 } : Cpu).es (({ abs s (flagsOf s) with ip := t16 s.ip + 2 } : Cpu).di + BitVec.ofNat 16 i)) s.cx.toNat = k := hfd
  rw [hk'] at hr'
  have hu : (if k < s.cx.toNat then k + 1 else s.cx.toNat) = min (k + 1) s.cx.toNat := by
    split <;> omega
  rw [hu] at hr'
  refine ⟨s', e, ?_, fun F => ?_⟩
  · obtain ⟨F', ha, hF⟩ := hr'
    have hzf := hF.zf _ (congrArg Cpu.zf ha).symm
    rw [← zfOf_iff, hzf]
    simp only [aluRes]
    rw [beq_iff_eq, byte_sub_eq_zero]
    change Cpu.lo (t16 s.ax) = (abs s F0).rd8 (t16 s.es) (t16 s.di + BitVec.ofNat 16 _) ↔ _
    by_cases hkn : k < s.cx.toNat
    · rw [show min (k + 1) s.cx.toNat - 1 = k by omega]
      exact ⟨fun _ => hkn, fun _ => (heq hkn).symm⟩
    · rw [show min (k + 1) s.cx.toNat - 1 = k - 1 by omega]
      exact ⟨fun h => absurd h.symm (hne (k - 1) (by omega)), fun h => absurd h hkn⟩
  · rw [Rel.absF hr']
    have : t16 s.cx - BitVec.ofNat 16 (min (k + 1) s.cx.toNat) = BitVec.ofNat 16 (s.cx.toNat - (k + 1)) := by
      apply BitVec.eq_of_toNat_eq
      rw [BitVec.toNat_sub, t16_toNat hcx, BitVec.toNat_ofNat, BitVec.toNat_ofNat]
      omega
    rw [← this]
    rfl

/-- The hypotheses are met by `REP MOVSB` of 3 bytes from 10h to 20h. -/
example : ∃ s' : St Unit, step nullHost { codeState [0xf3, 0xa4] with cx := 3, si := 0x10, di := 0x20 } = .ok () s' ∧
    t16 s'.di = 0x23 := by
  obtain ⟨s', h1, -, -, h2⟩ := C09_movsb (s := { codeState [0xf3, 0xa4] with cx := 3, si := 0x10, di := 0x20 }) nullHost
    ⟨by decide +kernel, by decide +kernel⟩ (by decide +kernel) ⟨by decide +kernel, by decide +kernel, trivial⟩ (by decide +kernel)
  exact ⟨s', h1, congrArg Cpu.di (h2 F0)⟩

/-! ## C10: shifts, multiplication, division -/

/-- The value of a word operand, read off the simulator state. -/
def operand (s : St σ) : RM → Word
  | .reg r => t16 (s.reg r)
  | .mem seg b d => (abs s F0).rd16 ((abs s F0).segOf seg b) ((abs s F0).eff b d)

theorem rm16_operand (s : St σ) (F : Flags4) (rm : RM) (x : Word) :
    ({ abs s F with ip := x } : Cpu).rm16 rm = operand s rm := by
  cases rm with
  | reg r =>
    rw [rm16_ip]
    exact abs_reg s F r
  | mem seg b d =>
    rw [rm16_ip]
    change (abs s F).rd16 ((abs s F).segOf seg b) ((abs s F).eff b d) = _
    have h1 : (abs s F).segOf seg b = (abs s F0).segOf seg b := by
      cases seg with
      | none => cases b <;> rfl
      | some sr => cases sr <;> rfl
    have h2 : (abs s F).eff b d = (abs s F0).eff b d := by cases b <;> rfl
    rw [h1, h2]
    rfl

/-- The shift count: 1, or CL. -/
def countOf (s : St σ) : Count → Nat
  | .one => 1
  | .cl => s.cx.toNat % 256

/-- The result of a shift as arithmetic on the operand. -/
def shifted (op : ShiftOp) (v : Word) (n : Nat) : Word :=
  match op with
  | .shl => BitVec.ofNat 16 (v.toNat * 2 ^ n)
  | .shr => BitVec.ofNat 16 (v.toNat / 2 ^ n)
  | .sar => BitVec.ofInt 16 (v.toInt / 2 ^ n)

theorem shiftRes_eq (op : ShiftOp) (v : Word) (n : Nat) : (Cpu.shiftRes op v n).1 = shifted op v n := by
  cases op with
  | shl =>
    apply BitVec.eq_of_toNat_eq
    simp only [Cpu.shiftRes, shifted, BitVec.toNat_shiftLeft, BitVec.toNat_ofNat, Nat.shiftLeft_eq]
  | shr =>
    apply BitVec.eq_of_toNat_eq
    simp only [Cpu.shiftRes, shifted, BitVec.toNat_ushiftRight, BitVec.toNat_ofNat, Nat.shiftRight_eq_div_pow]
    exact (Nat.mod_eq_of_lt (Nat.lt_of_le_of_lt (Nat.div_le_self v.toNat (2 ^ n)) v.isLt)).symm
  | sar =>
    simp only [Cpu.shiftRes, shifted]
    rw [← BitVec.ofInt_toInt (x := v.sshiftRight n), BitVec.toInt_sshiftRight, Int.shiftRight_eq_div_pow]
    rfl

/-- The count register as the specification reads it. -/
def specCount (c : Cpu) : Count → Nat
  | .one => 1
  | .cl => (Cpu.lo c.cx).toNat

theorem exec_shift (K : Contract) (op : ShiftOp) (cnt : Count) (rm : RM) (c : Cpu) (h1 : 1 ≤ specCount c cnt)
    (h2 : specCount c cnt < 16) :
    Cpu.exec K (.shift op cnt rm) c = .next { c.setRm16 rm (Cpu.shiftRes op (c.rm16 rm) (specCount c cnt)).1 with
      cf := some (Cpu.shiftRes op (c.rm16 rm) (specCount c cnt)).2
      zf := Flag.of (K.shlZF || op != .shl) ((Cpu.shiftRes op (c.rm16 rm) (specCount c cnt)).1 == 0)
      sf := Flag.of K.shiftSF (Cpu.shiftRes op (c.rm16 rm) (specCount c cnt)).1.msb
      of := none } := by
  have : Cpu.exec K (.shift op cnt rm) c = Cpu.shift K op (specCount c cnt) rm c := by cases cnt <;> rfl
  rw [this, Cpu.shift, if_neg (by omega), if_neg (by omega)]

theorem specCount_eq (s : St σ) (F : Flags4) (x : Word) (cnt : Count) :
    specCount { abs s F with ip := x } cnt = countOf s cnt := by
  cases cnt with
  | one => rfl
  | cl =>
    simp only [specCount, abs, Cpu.lo, t16, countOf, BitVec.toNat_setWidth]
    omega

theorem setF_setRm16 (c : Cpu) (F : Flags4) (rm : RM) (v : Word) (a b d e : Flag) :
    setF { c.setRm16 rm v with cf := a, zf := b, sf := d, of := e } F = (setF c F).setRm16 rm v :=
  (setRm16_setF c F rm v).symm

/-- Shifts by 1..15 on the host representation each of them handles: SHL on any, SHR on zero-extended, SAR on
sign-extended operands.  The operand receives the result, CF the last bit shifted out, and nothing else changes but
ip and the other flags. -/
theorem C10_shift_partial (H : Host σ) {s : St σ} (hs : Safe s) {bytes : List Byte} {op : ShiftOp} {cnt : Count} {rm : RM}
    (he : Enc bytes (.shift op cnt rm)) (hc : codeHere s bytes 0) (hno : NoOvr rm)
    (hrep : match op with | .shl => True | .shr => ZExt (hostRM s rm) | .sar => SExt (hostRM s rm))
    (h1 : 1 ≤ countOf s cnt) (h2 : countOf s cnt < 16) :
    ∃ s', step H s = .ok () s' ∧
      (s'.flags &&& 1 ≠ 0 ↔ (shifted op (operand s rm) (countOf s cnt - 1)).getLsbD (if op = .shl then 15 else 0) = true) ∧
      ∀ F, abs s' F = ({ abs s F with ip := t16 s.ip + BitVec.ofNat 16 bytes.length } : Cpu).setRm16 rm
        (shifted op (operand s rm) (countOf s cnt)) := by
  have hal : Allowed s (.shift op cnt rm) := by
    cases op
    · exact hno
    · exact ⟨hno, hrep⟩
    · exact ⟨hno, hrep⟩
  have hx := exec_shift .sim op cnt rm { abs s (flagsOf s) with ip := t16 s.ip + BitVec.ofNat 16 bytes.length }
    (by rw [specCount_eq]; exact h1) (by rw [specCount_eq]; exact h2)
  rw [specCount_eq, rm16_operand] at hx
  obtain ⟨s', e, hr, -⟩ := step_code H hs he hc hal hx
  refine ⟨s', e, ?_, fun F => ?_⟩
  · obtain ⟨F', ha, hF⟩ := hr
    have := hF.cf _ (congrArg Cpu.cf ha).symm
    have hcf : cfOf s'.flags = true ↔ s'.flags &&& 1 ≠ 0 := by simp only [cfOf, decide_eq_true_eq]; exact Iff.rfl
    rw [← hcf, this]
    cases op with
    | shl => rw [if_pos rfl, ← shiftRes_eq]; simp only [Cpu.shiftRes]; rw [BitVec.msb_eq_getLsbD_last]
    | shr => rw [if_neg (by decide), ← shiftRes_eq]; rfl
    | sar => rw [if_neg (by decide), ← shiftRes_eq]; rfl
  · rw [Rel.absF hr, setF_setRm16, shiftRes_eq]
    rfl

/-- MUL and IMUL: the low word of the product is in AX.  (DX, the high word, is wrong: the simulator clears it.) -/
theorem C10_mul_partial (H : Host σ) {s : St σ} (hs : Safe s) {bytes : List Byte} {u : Un} (hu : u = .mul ∨ u = .imul) {rm : RM}
    (he : Enc bytes (.unary u rm)) (hc : codeHere s bytes 0) (hno : NoOvr rm) :
    ∃ s', step H s = .ok () s' ∧
      ∀ F, abs s' F = { abs s F with
        ip := t16 s.ip + BitVec.ofNat 16 bytes.length
        ax := BitVec.ofNat 16 ((t16 s.ax).toNat * (operand s rm).toNat)
        dx := 0 } := by
  have hx : Cpu.exec .sim (.unary u rm) { abs s (flagsOf s) with ip := t16 s.ip + BitVec.ofNat 16 bytes.length } =
      .next (Cpu.noFlags { abs s (flagsOf s) with
        ip := t16 s.ip + BitVec.ofNat 16 bytes.length, ax := t16 s.ax * operand s rm, dx := 0 }) := by
    rw [← rm16_operand s (flagsOf s) rm (t16 s.ip + BitVec.ofNat 16 bytes.length)]
    rcases hu with rfl | rfl <;> rfl
  obtain ⟨s', e, hr, -⟩ := step_code H hs he hc (by rcases hu with rfl | rfl <;> exact hno) hx
  refine ⟨s', e, fun F => ?_⟩
  have : BitVec.ofNat 16 ((t16 s.ax).toNat * (operand s rm).toNat) = t16 s.ax * operand s rm := by
    apply BitVec.eq_of_toNat_eq
    rw [BitVec.toNat_mul, BitVec.toNat_ofNat]
  rw [Rel.absF hr, this]
  rfl

/-- DIV with DX = 0, AX and the divisor zero-extended: quotient and remainder. -/
theorem C10_div_partial (H : Host σ) {s : St σ} (hs : Safe s) {bytes : List Byte} {rm : RM}
    (he : Enc bytes (.unary .div rm)) (hc : codeHere s bytes 0) (hno : NoOvr rm)
    (hdx : s.dx = 0) (hax : ZExt s.ax) (hv : ZExt (hostRM s rm)) (h0 : operand s rm ≠ 0) :
    ∃ s', step H s = .ok () s' ∧
      ∀ F, abs s' F = { abs s F with
        ip := t16 s.ip + BitVec.ofNat 16 bytes.length
        ax := BitVec.ofNat 16 ((t16 s.ax).toNat / (operand s rm).toNat)
        dx := BitVec.ofNat 16 ((t16 s.ax).toNat % (operand s rm).toNat) } := by
  have h0' : (operand s rm).toNat ≠ 0 := fun h => h0 (BitVec.eq_of_toNat_eq h)
  have hlt : (t16 s.ax).toNat / (operand s rm).toNat < 2 ^ 16 :=
    Nat.lt_of_le_of_lt (Nat.div_le_self _ _) (t16 s.ax).isLt
  have hx : Cpu.exec .sim (.unary .div rm) { abs s (flagsOf s) with ip := t16 s.ip + BitVec.ofNat 16 bytes.length } =
      .next (Cpu.noFlags { abs s (flagsOf s) with
        ip := t16 s.ip + BitVec.ofNat 16 bytes.length
        ax := BitVec.ofNat 16 ((t16 s.ax).toNat / (operand s rm).toNat)
        dx := BitVec.ofNat 16 ((t16 s.ax).toNat % (operand s rm).toNat) }) := by
    simp only [Cpu.exec, Cpu.unary, rm16_operand]
    have hn : (abs s (flagsOf s)).dx.toNat * 2 ^ 16 + (abs s (flagsOf s)).ax.toNat = (t16 s.ax).toNat := by
      simp only [abs, hdx, t16]
      simp
    rw [hn, if_neg (by omega)]
  obtain ⟨s', e, hr, -⟩ := step_code H hs he hc ⟨hno, hdx, hax, hv⟩ hx
  refine ⟨s', e, fun F => ?_⟩
  rw [Rel.absF hr]
  rfl

/-- IDIV after CWD with AX and the divisor sign-extended: quotient truncated towards zero, and its remainder. -/
theorem C10_idiv_partial (H : Host σ) {s : St σ} (hs : Safe s) {bytes : List Byte} {rm : RM}
    (he : Enc bytes (.unary .idiv rm)) (hc : codeHere s bytes 0) (hno : NoOvr rm)
    (hdx : s.dx = (if s.ax &&& 0x8000 ≠ 0 then -1 else 0)) (hax : SExt s.ax) (hv : SExt (hostRM s rm))
    (h0 : operand s rm ≠ 0) (hov : ¬ ((t16 s.ax).toInt = -32768 ∧ (operand s rm).toInt = -1)) :
    ∃ s', step H s = .ok () s' ∧
      ∀ F, abs s' F = { abs s F with
        ip := t16 s.ip + BitVec.ofNat 16 bytes.length
        ax := BitVec.ofInt 16 (Int.tdiv (t16 s.ax).toInt (operand s rm).toInt)
        dx := BitVec.ofInt 16 (Int.tmod (t16 s.ax).toInt (operand s rm).toInt) } := by
  have h0' : (operand s rm).toInt ≠ 0 := fun h => h0 (BitVec.eq_of_toInt_eq h)
  have hb := BitVec.toInt_lt (x := t16 s.ax)
  have hb' := BitVec.le_toInt (x := t16 s.ax)
  have hn : ((abs s (flagsOf s)).dx ++ (abs s (flagsOf s)).ax : BitVec 32).toInt = (t16 s.ax).toInt := by
    change (t16 s.dx ++ t16 s.ax : BitVec 32).toInt = (t16 s.ax).toInt
    have hm := and_8000_ne s.ax
    have key : ∀ x : Word, ((if x.msb then (-1 : Word) else 0) ++ x : BitVec 32).toInt = x.toInt := by
      intro x
      have : ((if x.msb then (-1 : Word) else 0) ++ x : BitVec 32) = x.signExtend 32 := by
        apply BitVec.eq_of_getLsbD_eq
        intro i hi
        rw [BitVec.getLsbD_append, BitVec.getLsbD_signExtend]
        by_cases h : i < 16
        · simp [h, hi]
        · have h2 : i - 16 < 16 := by omega
          cases hx : x.msb
          · simp [h]
          · rw [if_pos rfl, show (-1 : Word) = BitVec.allOnes 16 from rfl, BitVec.getLsbD_allOnes]; simp [h, hi, h2]
      rw [this, BitVec.toInt_signExtend_of_le (by omega)]
    rw [← key (t16 s.ax)]
    congr 2
    rw [hdx, ← hm]
    by_cases h8 : s.ax &&& 0x8000 ≠ 0
    · rw [if_pos h8, decide_eq_true h8]; rfl
    · rw [if_neg h8, decide_eq_false h8]; rfl
  have hr : outOfRange 16 (Int.tdiv (t16 s.ax).toInt (operand s rm).toInt) = false := by
    generalize (t16 s.ax).toInt = a at *
    generalize (operand s rm).toInt = b at *
    have hq := Int.natAbs_tdiv a b
    simp only [outOfRange, Bool.or_eq_false_iff, decide_eq_false_iff_not]
    by_cases hb1 : b = 1
    · subst hb1; rw [Int.tdiv_one]; omega
    · by_cases hb2 : b = -1
      · subst hb2; rw [show a.tdiv (-1) = -a by rw [Int.tdiv_neg, Int.tdiv_one]]; omega
      · have h2 : 2 ≤ b.natAbs := by omega
        have h3 : a.natAbs.div b.natAbs ≤ a.natAbs / 2 := Nat.div_le_div_left h2 (by omega)
        omega
  have hx : Cpu.exec .sim (.unary .idiv rm) { abs s (flagsOf s) with ip := t16 s.ip + BitVec.ofNat 16 bytes.length } =
      .next (Cpu.noFlags { abs s (flagsOf s) with
        ip := t16 s.ip + BitVec.ofNat 16 bytes.length
        ax := BitVec.ofInt 16 (Int.tdiv (t16 s.ax).toInt (operand s rm).toInt)
        dx := BitVec.ofInt 16 (Int.tmod (t16 s.ax).toInt (operand s rm).toInt) }) := by
    simp only [Cpu.exec, Cpu.unary, rm16_operand]
    rw [hn, hr, if_neg (by simp [h0'])]
  obtain ⟨s', e, hr, -⟩ := step_code H hs he hc ⟨hno, hdx, hax, hv⟩ hx
  refine ⟨s', e, fun F => ?_⟩
  rw [Rel.absF hr]
  rfl

/-- `SAR CX-shift`: the hypotheses are met, e.g., by `SAR AX,CL` with AX = -5 (sign-extended) and CL = 1. -/
example : ∃ s' : St Unit, step nullHost { codeState [0xd3, 0xf8] with ax := -5, cx := 1 } = .ok () s' ∧
    t16 s'.ax = -3 := by
  obtain ⟨s', h1, -, h3⟩ := C10_shift_partial (s := { codeState [0xd3, 0xf8] with ax := -5, cx := 1 })
    (bytes := [0xd3, 0xf8]) (op := .sar) (cnt := .cl) (rm := .reg 0) nullHost
    ⟨by decide +kernel, by decide +kernel⟩ ⟨by decide, fun _ => rfl⟩ ⟨by decide +kernel, by decide +kernel, trivial⟩
    trivial ⟨by decide +kernel, by decide +kernel⟩ (by decide +kernel) (by decide +kernel)
  exact ⟨s', h1, (congrArg Cpu.ax (h3 F0)).trans (by decide +kernel)⟩

/-- `IDIV CX`: -7 / 2 = -3 rest -1. -/
example : ∃ s' : St Unit, step nullHost { codeState [0xf7, 0xf9] with ax := -7, dx := -1, cx := 2 } = .ok () s' ∧
    t16 s'.ax = -3 ∧ t16 s'.dx = -1 := by
  obtain ⟨s', h1, h3⟩ := C10_idiv_partial (s := { codeState [0xf7, 0xf9] with ax := -7, dx := -1, cx := 2 })
    (bytes := [0xf7, 0xf9]) (rm := .reg 1) nullHost
    ⟨by decide +kernel, by decide +kernel⟩ ⟨by decide, fun _ => rfl⟩ ⟨by decide +kernel, by decide +kernel, trivial⟩
    trivial (by decide +kernel) ⟨by decide +kernel, by decide +kernel⟩ ⟨by decide +kernel, by decide +kernel⟩
    (by decide +kernel) (by decide +kernel)
  exact ⟨s', h1, (congrArg Cpu.ax (h3 F0)).trans (by decide +kernel), (congrArg Cpu.dx (h3 F0)).trans (by decide +kernel)⟩

/-- Evaluate a run and check its final state. -/
def check {σ : Type} (r : Res σ Unit) (p : St σ → Prop) [DecidablePred p] : Bool :=
  match r with
  | .ok () s => decide (p s)
  | .err _ _ => false

theorem ok_of_check {r : Res σ Unit} {p : St σ → Prop} [DecidablePred p] (h : check r p = true) :
    ∃ s', r = .ok () s' ∧ p s' := by
  match r, h with
  | .ok () s, h => exact ⟨s, rfl, of_decide_eq_true h⟩

/-- The violations of C10.  `MOV AX,8000h; SAR AX,1` gives 4000h instead of C000h. -/
theorem C10_sar_violated : ∃ s' : St Unit, run nullHost 2 (codeState [0xb8, 0x00, 0x80, 0xd1, 0xf8]) = .ok () s' ∧
    t16 s'.ax = 0x4000 := by
  exact ok_of_check (p := fun s' => t16 s'.ax = 0x4000) (by decide +kernel)

/-- `MOV CX,0FFFEh; MOV AX,6; CWD; IDIV CX` (6 / -2) gives 0 instead of -3. -/
theorem C10_idiv_violated : ∃ s' : St Unit,
    run nullHost 4 (codeState [0xb9, 0xfe, 0xff, 0xb8, 0x06, 0x00, 0x99, 0xf7, 0xf9]) = .ok () s' ∧ t16 s'.ax = 0 := by
  exact ok_of_check (p := fun s' => t16 s'.ax = 0) (by decide +kernel)

/-- `MOV AL,80h; CBW; SHR AX,1` (FF80h >> 1) gives FFC0h instead of 7FC0h. -/
theorem C10_shr_violated : ∃ s' : St Unit, run nullHost 3 (codeState [0xb0, 0x80, 0x98, 0xd1, 0xe8]) = .ok () s' ∧
    t16 s'.ax = 0xffc0 := by
  exact ok_of_check (p := fun s' => t16 s'.ax = 0xffc0) (by decide +kernel)

/-- `MOV AX,8000h; MOV CX,2; MUL CX` leaves DX = 0 instead of 1. -/
theorem C10_mul_violated : ∃ s' : St Unit,
    run nullHost 3 (codeState [0xb8, 0x00, 0x80, 0xb9, 0x02, 0x00, 0xf7, 0xe1]) = .ok () s' ∧ t16 s'.dx = 0 ∧
      I86.Contract.real.mulHi 0x8000 2 = 1 := by
  exact ok_of_check (p := fun s' => t16 s'.dx = 0 ∧ I86.Contract.real.mulHi 0x8000 2 = 1) (by decide +kernel)

/-- `SHL AX,1` of 8000h gives 0 but ZF clear. -/
theorem C10_shl_zf_violated : ∃ s' : St Unit, run nullHost 2 (codeState [0xb8, 0x00, 0x80, 0xd1, 0xe0]) = .ok () s' ∧
    t16 s'.ax = 0 ∧ s'.flags &&& 0x40 = 0 := by
  exact ok_of_check (p := fun s' => t16 s'.ax = 0 ∧ s'.flags &&& 0x40 = 0) (by decide +kernel)

end Props
