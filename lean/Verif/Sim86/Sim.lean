import Verif.Sim86.Frame
/-!
# The main loop of the simulator refines the 8086 specification
-/
namespace Sim86
open I86
variable {σ : Type}

/-! ## Software interrupts -/

theorem withRM_some {sg rest k} {x : Instr × List Byte} (h : withRM sg rest k = some x) : ∃ r rm rest2, k r rm rest2 = some x := by
  cases rest with
  | nil => cases h
  | cons b rest =>
    simp only [withRM] at h
    split at h
    · split at h
      · exact ⟨_, _, _, h⟩
      · cases h
    · cases h

theorem decodeImm_some {w rest k} {x : Instr × List Byte} (h : decodeImm w rest k = some x) : ∃ imm rest2, k imm rest2 = some x := by
  simp only [decodeImm] at h
  split at h
  · split at h
    · exact ⟨_, _, h⟩
    · cases h
  · split at h
    · exact ⟨_, _, h⟩
    · cases h

theorem decodeHigh_int {sg rep n rest} {b : Byte} {rest' : List Byte} (h : decodeHigh sg rep n rest = some (.int b, rest')) :
    n = 0xcd ∧ sg = none ∧ rep = none ∧ rest = b :: rest' := by
  unfold decodeHigh at h
  extract_lets w at h
  have keyRM : ∀ {kont}, withRM sg rest kont = some (.int b, rest') → (∀ r rm rest2, kont r rm rest2 ≠ some (.int b, rest')) → False := by
    intro kont h1 h2
    obtain ⟨r, rm, rest2, h⟩ := withRM_some h1
    exact h2 _ _ _ h
  split at h
  case h_29 =>
    obtain ⟨h1, h⟩ := repPlain_some h
    obtain ⟨h2, h⟩ := noSeg_some h
    split at h
    · cases h; exact ⟨rfl, h2, h1, rfl⟩
    · cases h
  all_goals exfalso
  all_goals try replace h := (repPlain_some h).2
  all_goals try replace h := (repIs_some h).2
  all_goals try replace h := (noSeg_some h).2
  all_goals try (refine keyRM h ?_; clear h)
  all_goals try (intro r rm rest2 h)
  all_goals try (replace h := decodeImm_some h; obtain ⟨_, _, h⟩ := h)
  all_goals first
    | (cases h; done)
    | (split at h <;> cases h; done)
    | (split at h <;> first | (cases h; done) | (split at h <;> cases h; done))

theorem decodeOp_int {sg rep op rest} {b : Byte} {rest' : List Byte} (h : decodeOp sg rep op rest = some (.int b, rest')) :
    op.toNat = 0xcd ∧ sg = none ∧ rep = none ∧ rest = b :: rest' := by
  unfold decodeOp at h
  extract_lets n w alu at h
  split at h
  · split at h
    · obtain ⟨_, _, _, h⟩ := withRM_some (repPlain_some h).2; cases h
    · obtain ⟨_, _, _, h⟩ := withRM_some (repPlain_some h).2; cases h
    · obtain ⟨_, _, h⟩ := decodeImm_some (noSeg_some (repPlain_some h).2).2; cases h
    · split at h
      · replace h := (noSeg_some (repPlain_some h).2).2
        split at h
        · split at h <;> cases h
        · cases h
      · cases h
  iterate 4
    split at h
    · cases (noSeg_some (repPlain_some h).2).2
  split at h
  · cases h
  split at h
  · replace h := (noSeg_some (repPlain_some h).2).2
    split at h <;> cases h
  split at h
  · cases (noSeg_some (repPlain_some h).2).2
  split at h
  · replace h := (noSeg_some (repPlain_some h).2).2
    split at h <;> cases h
  split at h
  · replace h := (noSeg_some (repPlain_some h).2).2
    split at h <;> cases h
  exact decodeHigh_int h

theorem decodeOp_cd {sg rep rest i} {rest' : List Byte} (h : decodeOp sg rep 0xcd#8 rest = some (i, rest')) : ∃ b, i = .int b := by
  cases rest with
  | nil => exact absurd (noSeg_some (repPlain_some h).2).2 (by simp)
  | cons b rest =>
    have := (noSeg_some (repPlain_some h).2).2
    cases this
    exact ⟨b, rfl⟩

theorem decode_int {bytes : List Byte} {b : Byte} {rest' : List Byte} (h : decode bytes = some (.int b, rest')) :
    bytes = 0xcd#8 :: b :: rest' := by
  cases bytes with
  | nil => cases h
  | cons op rest =>
    simp only [decode] at h
    have e1 : ∀ s, decode.afterSeg s rest ≠ some (.int b, rest') := by
      intro s h
      cases rest with
      | nil => cases h
      | cons op rest => exact absurd (decodeOp_int h).2.1 (by simp)
    have e2 : ∀ s, decode.afterRep s rest ≠ some (.int b, rest') := by
      intro s h
      cases rest with
      | nil => cases h
      | cons op rest => exact absurd (decodeOp_int h).2.2.1 (by simp)
    split at h
    · exact absurd h (e1 _)
    · exact absurd h (e1 _)
    · exact absurd h (e1 _)
    · exact absurd h (e1 _)
    · exact absurd h (e2 _)
    · exact absurd h (e2 _)
    · obtain ⟨h1, _, _, h2⟩ := decodeOp_int h
      rw [h2, show op = 0xcd#8 from BitVec.eq_of_toNat_eq h1]

theorem shift_intr {K : Contract} {op a rm} {c : Cpu} {n : Byte} {c' : Cpu} (h : Cpu.shift K op a rm c = .intr n c') : False := by
  unfold Cpu.shift at h
  split at h
  · cases h
  · split at h <;> cases h

theorem exec_intr {K : Contract} {i : Instr} {c : Cpu} {n : Byte} {c' : Cpu} (h : Cpu.exec K i c = .intr n c') :
    i = .int n ∧ c' = c := by
  have halu : ∀ op w dst l r, Cpu.alu K op w dst l r c ≠ .intr n c' := by
    intro op w dst l r h
    unfold Cpu.alu at h
    split at h
    · cases h
    · split at h <;> cases h
  cases i with
  | int m => cases h; exact ⟨rfl, rfl⟩
  | aluRmReg => exact absurd h (halu _ _ _ _ _)
  | aluRegRm => exact absurd h (halu _ _ _ _ _)
  | aluImm => exact absurd h (halu _ _ _ _ _)
  | shift op cnt rm =>
    exfalso
    exact shift_intr h
  | unary u rm =>
    exfalso
    simp only [Cpu.exec, Cpu.unary] at h
    split at h <;> first | (cases h; done) | (split at h <;> cases h; done)
  | jcc cc rel =>
    exfalso
    simp only [Cpu.exec] at h
    split at h <;> cases h
  | _ =>
    exfalso
    simp only [Cpu.exec] at h
    first | (cases h; done) | (split at h <;> cases h; done)

theorem dispatch_succ (H : Host σ) (n : Nat) (rep : Byte) : dispatch H (n + 1) rep = (do
    let inst := (← ReadIByte).setWidth 8
    match inst.toNat with
    | 0x26 => do modS fun s => { s with dsize := false, seg := some ES }; dispatch H n rep
    | 0x2e => do modS fun s => { s with dsize := false, seg := some CS }; dispatch H n rep
    | 0x36 => do modS fun s => { s with dsize := false, seg := some SS }; dispatch H n rep
    | 0x3e => do modS fun s => { s with dsize := false, seg := some DS }; dispatch H n rep
    | 0xf2 => dispatch H n 0xf2
    | 0xf3 => dispatch H n 0xf3
    | _ => execInst H rep inst) := rfl

/-- The bytes that are prefixes to the simulator. -/
def isPrefix (n : Nat) : Bool := n == 0x26 || n == 0x2e || n == 0x36 || n == 0x3e || n == 0xf2 || n == 0xf3

theorem decodeOp_prefix {sg rep} {op : Byte} {rest : List Byte} {x} (h : decodeOp sg rep op rest = some x) :
    isPrefix op.toNat = false := by
  by_cases h1 : isPrefix op.toNat = true
  · exfalso
    have hh : op.toNat = 0x26 ∨ op.toNat = 0x2e ∨ op.toNat = 0x36 ∨ op.toNat = 0x3e ∨ op.toNat = 0xf2 ∨ op.toNat = 0xf3 := by
      simpa [isPrefix, or_assoc] using h1
    unfold decodeOp at h
    rcases hh with e | e | e | e | e | e <;> simp [e, decodeHigh] at h
  · simpa using h1

section
variable {s : St σ} {F : Flags4} {sg : Option SReg} {rep : Option Rep} {op : Byte} {k : Nat} {rest rest' : List Byte} {i : Instr} {c' : Cpu}

/-- Fetch an opcode that is not a prefix. -/
theorem wp_dispatch_exec (H : Host σ) (hs : Safe s) (hk : k ≤ 8) (hp : isPrefix op.toNat = false)
    (ha : Ahead s (op :: rest) (s.ip + BitVec.ofNat 32 k)) {m a sg dz} (n : Nat) (r : Byte) (Q) :
    wp (dispatch H (n + 1) r) (dec s k m a sg dz) Q ↔ wp (execInst H r op) (dec s (k + 1) m a sg dz) Q := by
  rw [dispatch_succ, wp_bind, wp_ReadIByte hs (by omega) ha]
  simp only [setWidth8_32]
  simp only [isPrefix, Bool.or_eq_false_iff, beq_eq_false_iff_ne, ne_eq] at hp
  split <;> first | rfl | (exfalso; simp_all)

theorem dispatch_wp (H : Host σ) (hs : Safe s) (hF : FlagsOk F s.flags) (hk : k + (op :: rest).length = 8)
    (ha : Ahead s (op :: rest) (s.ip + BitVec.ofNat 32 k)) (n : Nat)
    (hd : decodeOp sg rep op rest = some (i, rest')) (hal : Allowed s i)
    (hx : Cpu.exec .sim i (cpuAt s F rest') = .next c') :
    wp (dispatch H (n + 1) (repByte rep)) (dec s k none 0 (sg.map srIdx) sg.isNone) fun _ s' => Rel s' c' ∧ s'.world = s.world := by
  simp only [List.length_cons] at hk
  rw [wp_dispatch_exec H hs (by omega) (decodeOp_prefix hd) ha]
  have hop : op ≠ 0xcd#8 := by
    rintro rfl
    obtain ⟨b, rfl⟩ := decodeOp_cd hd
    cases hx
  obtain ⟨a, s', e, h⟩ := execInst_wp H hs hF (by omega) (ahead_tail ha) hd hal hx
  have hf := Frame.execInst H (repByte rep) op hop (dec s (k + 1) none 0 (sg.map srIdx) sg.isNone)
  rw [e] at hf
  exact ⟨a, s', e, h, hf⟩

/-- What one iteration of the main loop does with the instruction bytes. -/
theorem step_wp (H : Host σ) (hs : Safe s) (hF : FlagsOk F s.flags)
    (hal : ∀ i rest, decode ((abs s F).fetch Cpu.window (abs s F).ip) = some (i, rest) → Allowed s i)
    (hx : Cpu.step .sim (abs s F) = .next c') :
    wp (step H) s fun _ s' => Rel s' c' ∧ s'.world = s.world := by
  unfold Cpu.step at hx
  split at hx
  · cases hx
  rename_i i rest' hd
  replace hal := hal i rest' hd
  have ha := ahead_fetch s F 8 s.ip
  have hlen : ∀ n x, ((abs s F).fetch n x).length = n := by
    intro n
    induction n with
    | zero => intro; rfl
    | succ n ih => intro x; simp only [Cpu.fetch, List.length_cons, ih]
  have hlen := hlen Cpu.window (abs s F).ip
  change Ahead s ((abs s F).fetch Cpu.window (abs s F).ip) s.ip at ha
  generalize (abs s F).fetch Cpu.window (abs s F).ip = bytes at *
  have ha : Ahead s bytes (s.ip + BitVec.ofNat 32 0) := by simpa using ha
  unfold step
  rw [wp_bind, wp_modS]
  have e0 : ({ s with modrm := none, addr := 0, dsize := true, seg := none } : St σ) = dec s 0 none 0 none true := by
    simp [dec]
  rw [e0]
  change Cpu.exec .sim i (cpuAt s F rest') = .next c' at hx
  cases bytes with
  | nil => cases hd
  | cons b0 bytes =>
    have hl1 : 0 + (b0 :: bytes).length = 8 := by rw [hlen]; rfl
    have hseg : ∀ sr, decode.afterSeg sr bytes = some (i, rest') → ∀ n,
        wp (dispatch H (n + 1) 0) (dec s 1 none 0 (some (srIdx sr)) false) fun _ s' => Rel s' c' ∧ s'.world = s.world := by
      intro sr hd n
      cases bytes with
      | nil => cases hd
      | cons b1 bytes =>
        exact dispatch_wp (sg := some sr) (rep := none) H hs hF (by simpa [Nat.add_comm] using hl1) (ahead_tail ha) n hd hal hx
    have hrep : ∀ r, decode.afterRep r bytes = some (i, rest') → ∀ n,
        wp (dispatch H (n + 1) (repByte (some r))) (dec s 1 none 0 none true) fun _ s' => Rel s' c' ∧ s'.world = s.world := by
      intro r hd n
      cases bytes with
      | nil => cases hd
      | cons b1 bytes =>
        exact dispatch_wp (sg := none) (rep := some r) H hs hF (by simpa [Nat.add_comm] using hl1) (ahead_tail ha) n hd hal hx
    obtain ⟨N, hN⟩ : ∃ N, loopFuel = N + 1 + 1 := ⟨2 ^ 32 - 2, rfl⟩
    rw [hN]
    by_cases hp : isPrefix b0.toNat = true
    · rw [dispatch_succ, wp_bind, wp_ReadIByte hs (by omega) ha]
      simp only [setWidth8_32]
      have hh : b0.toNat = 0x26 ∨ b0.toNat = 0x2e ∨ b0.toNat = 0x36 ∨ b0.toNat = 0x3e ∨ b0.toNat = 0xf2 ∨ b0.toNat = 0xf3 := by
        simpa [isPrefix, or_assoc] using hp
      rcases hh with e | e | e | e | e | e <;> simp only [decode, e] at hd <;> simp only [e]
      · rw [wp_bind, wp_modS]; exact hseg .es hd N
      · rw [wp_bind, wp_modS]; exact hseg .cs hd N
      · rw [wp_bind, wp_modS]; exact hseg .ss hd N
      · rw [wp_bind, wp_modS]; exact hseg .ds hd N
      · exact hrep .repne hd N
      · exact hrep .rep hd N
    · have e : decodeOp none none b0 bytes = some (i, rest') := by
        simp only [isPrefix, Bool.or_eq_true, beq_iff_eq, not_or] at hp
        simp only [decode] at hd
        split at hd <;> first | exact hd | (exfalso; simp_all)
      exact dispatch_wp (sg := none) (rep := none) H hs hF hl1 ha (N + 1) e hal hx

end

/-- An INT instruction of the specification reaches the body of `INT` in a related state. -/
theorem step_intr (H : Host σ) {s : St σ} {F : Flags4} (hs : Safe s) {n : Byte} {c' : Cpu}
    (hx : Cpu.step .sim (abs s F) = .intr n c') :
    c' = abs (dec s 2 none 0 none true) F ∧ step H s = intBody H (n.setWidth 32) (dec s 2 none 0 none true) := by
  unfold Cpu.step at hx
  split at hx
  · cases hx
  rename_i i rest' hd
  obtain ⟨rfl, rfl⟩ := exec_intr hx
  have hb := decode_int hd
  have ha := ahead_fetch s F 8 s.ip
  change Ahead s ((abs s F).fetch Cpu.window (abs s F).ip) s.ip at ha
  have hlen : ((abs s F).fetch Cpu.window (abs s F).ip).length = 8 := rfl
  rw [hb] at ha hlen
  have ha : Ahead s (0xcd#8 :: n :: rest') (s.ip + BitVec.ofNat 32 0) := by simpa using ha
  have hr : rest'.length = 6 := by simpa using hlen
  constructor
  · rw [abs_dec, hr]; rfl
  · have e0 : step H s = dispatch H loopFuel 0 (dec s 0 none 0 none true) := by
      unfold step; rw [bind_run]; simp [modS, dec]
    rw [e0, show loopFuel = (2 ^ 32 - 1) + 1 from rfl, dispatch_succ, bind_run, (ReadIByte_dec hs (by omega) ha).1]
    show execInst H 0 0xcd#8 _ = _
    show (do intBody H (← ReadIByte) : M σ Unit) (dec s 1 none 0 none true) = _
    rw [bind_run, (ReadIByte_dec hs (by omega) (ReadIByte_dec (m := none) (a := 0) (sg := none) (dz := true) hs (by omega) ha).2).1]


end Sim86
