import Verif.Props.Sim86c
/-!
# Properties of the simulator `sim86.c`: instruction pointer overflow, program loading (C12, C11)
-/
namespace Props
open Sim86 I86
variable {σ : Type}

/-! ## C12: the host never overflows -/

theorem ReadIByte_run (s : St σ) (h : s.ip.toInt + 1 < 2 ^ 31) :
    ReadIByte s = .ok ((s.mem.get (linear s.cs s.ip)).setWidth 32) { s with ip := s.ip + 1 } := by
  have h1 : -2 ^ 31 ≤ s.ip.toInt := BitVec.le_toInt (x := s.ip)
  have h2 : (1 : W).toInt = 1 := rfl
  unfold ReadIByte
  rw [bind_run]
  change (do let b ← Read8 CS s.ip; let ip ← addI s.ip 1; modS fun s => { s with ip := ip }; pure b : M σ W) s = _
  rw [bind_run]
  change (do let ip ← addI s.ip 1; modS fun s => { s with ip := ip };
             pure ((s.mem.get (MAKEADDR s.cs s.ip).toNat).setWidth 32) : M σ W) s = _
  rw [bind_run, addI_eq s (by omega) (by omega), linear_eq]
  rfl

theorem execInst_jmp (H : Host σ) : execInst H 0 0xe9#8 = (do JMP (← Imm16)) := rfl

theorem Imm16_run (s : St σ) (h : s.ip.toInt + 2 < 2 ^ 31) :
    Imm16 s = .ok ((word (s.mem.get (linear s.cs s.ip)) (s.mem.get (linear s.cs (s.ip + 1)))).setWidth 32)
      { s with ip := s.ip + 1 + 1 } := by
  have h1 : -2 ^ 31 ≤ s.ip.toInt := BitVec.le_toInt (x := s.ip)
  have h2 : (1 : W).toInt = 1 := rfl
  have h3 := toInt_add_eq (a := s.ip) (b := 1) (by omega) (by omega)
  unfold Imm16
  rw [bind_run, ReadIByte_run s (by omega)]
  simp only
  rw [bind_run, ReadIByte_run _ (by simp only; omega)]
  simp only [pure_run]
  rw [or_shift]
  rfl

/-- The bytes of `JMP $` (near form) at CS:IP. -/
structure JmpSelf (s : St σ) : Prop where
  b0 : s.mem.get (linear s.cs s.ip) = 0xe9
  b1 : s.mem.get (linear s.cs (s.ip + 1)) = 0xfd
  b2 : s.mem.get (linear s.cs (s.ip + 1 + 1)) = 0xff
  pos : 0 ≤ s.ip.toInt
  low : s.ip.toNat % 65536 < 65533

theorem linear_add (seg off : W) : linear seg (off + 65536) = linear seg off := by
  simp only [linear, BitVec.toNat_add]
  have : (65536 : W).toNat = 65536 := rfl
  rw [this]
  omega

theorem toNat_of_pos {x : W} (h : 0 ≤ x.toInt) : x.toInt = x.toNat := by
  rw [BitVec.toInt_eq_toNat_cond] at h ⊢
  split
  · rfl
  · rename_i h2
    rw [if_neg h2] at h
    have := x.isLt
    omega

theorem add_right_comm32 (a b c : W) : a + b + c = a + c + b := by
  rw [BitVec.add_assoc, BitVec.add_comm b, ← BitVec.add_assoc]

theorem step_jmpSelf (H : Host σ) {s : St σ} (h : JmpSelf s) :
    (∃ s', step H s = .err .ub s') ∨
    ∃ s', step H s = .ok () s' ∧ JmpSelf s' ∧ s'.ip.toInt = s.ip.toInt + 65536 := by
  have h1 := BitVec.toInt_lt (x := s.ip)
  have hn := toNat_of_pos h.pos
  have hlow := h.low
  have h2 : (1 : W).toInt = 1 := rfl
  have h3 : s.ip.toInt + 3 < 2 ^ 31 := by omega
  have i1 := toInt_add_eq (a := s.ip) (b := 1) (by omega) (by omega)
  have i2 := toInt_add_eq (a := s.ip + 1) (b := 1) (by omega) (by omega)
  have i3 := toInt_add_eq (a := s.ip + 1 + 1) (b := 1) (by omega) (by omega)
  have e : step H s = (JMP 0xfffd : M σ Unit) { s with modrm := none, addr := 0, dsize := true, seg := none, ip := s.ip + 1 + 1 + 1 } := by
    have e0 : step H s = dispatch H loopFuel 0 { s with modrm := none, addr := 0, dsize := true, seg := none } := by
      unfold step; rw [bind_run]; rfl
    rw [e0, show loopFuel = (2 ^ 32 - 1) + 1 from rfl, dispatch_succ, bind_run, ReadIByte_run _ (by simp only; omega)]
    simp only [setWidth8_32, h.b0]
    change execInst H 0 0xe9#8 _ = _
    rw [execInst_jmp, bind_run, Imm16_run _ (by simp only; omega)]
    simp only [h.b1, h.b2]
    rfl
  have hf : (0xfffd : W).toInt = 65533 := rfl
  have hadd : s.ip + 1 + 1 + 1 + 0xfffd = s.ip + 65536 := by
    rw [BitVec.add_assoc, BitVec.add_assoc, BitVec.add_assoc]; rfl
  by_cases hov : s.ip.toInt + 65536 < 2 ^ 31
  · refine Or.inr ⟨{ s with modrm := none, addr := 0, dsize := true, seg := none, ip := s.ip + 65536 }, ?_, ?_, ?_⟩
    · rw [e, JMP, addIp, bind_run]
      change (addI (s.ip + 1 + 1 + 1) 0xfffd >>= fun ip => modS fun s => { s with ip := ip }) _ = _
      rw [bind_run, addI_eq _ (by omega) (by omega), hadd]
      rfl
    · refine ⟨?_, ?_, ?_, ?_, ?_⟩
      · simp only [linear_add]; exact h.b0
      · have : s.ip + 65536 + 1 = s.ip + 1 + 65536 := add_right_comm32 _ _ _
        simp only [this, linear_add]; exact h.b1
      · have : s.ip + 65536 + 1 + 1 = s.ip + 1 + 1 + 65536 := by
          rw [add_right_comm32 s.ip, add_right_comm32 (s.ip + 1)]
        simp only [this, linear_add]; exact h.b2
      · simp only
        rw [toInt_add_eq (show -2 ^ 31 ≤ s.ip.toInt + (65536 : W).toInt by have : (65536 : W).toInt = 65536 := rfl; omega)
          (by have : (65536 : W).toInt = 65536 := rfl; omega)]
        have : (65536 : W).toInt = 65536 := rfl
        omega
      · simp only [BitVec.toNat_add]
        have : (65536 : W).toNat = 65536 := rfl
        rw [this]; omega
    · exact toInt_add_eq (show -2 ^ 31 ≤ s.ip.toInt + (65536 : W).toInt by have : (65536 : W).toInt = 65536 := rfl; omega)
          (by have : (65536 : W).toInt = 65536 := rfl; omega)
  · left
    refine ⟨{ s with modrm := none, addr := 0, dsize := true, seg := none, ip := s.ip + 1 + 1 + 1 }, ?_⟩
    rw [e, JMP, addIp, bind_run]
    change (addI (s.ip + 1 + 1 + 1) 0xfffd >>= fun ip => modS fun s => { s with ip := ip }) _ = _
    have hso : BitVec.saddOverflow (s.ip + 1 + 1 + 1) 0xfffd = true := by
      simp only [BitVec.saddOverflow, Bool.or_eq_true, decide_eq_true_eq]
      left
      omega
    rw [bind_run, addI, hso]
    rfl

/-- The violation of C12: from *every* state whose next instruction is the three-byte `JMP $`, an infinite loop on the
processor, the simulator ends up in undefined behaviour (signed overflow of `ip`). -/
theorem C12_jmp_self_violated (H : Host σ) {s : St σ} (h : JmpSelf s) : ∃ n s', run H n s = .err .ub s' := by
  have key : ∀ m : Nat, ∀ s : St σ, JmpSelf s → 2 ^ 31 ≤ s.ip.toInt + 65536 * m → ∃ n s', run H n s = .err .ub s' := by
    intro m
    induction m with
    | zero =>
      intro s _ h2
      have := BitVec.toInt_lt (x := s.ip)
      omega
    | succ m ih =>
      intro s h h2
      rcases step_jmpSelf H h with ⟨s', e⟩ | ⟨s', e, h', hip⟩
      · exact ⟨1, s', by change (step H >>= fun _ => run H 0) s = _; rw [bind_run, e]⟩
      · obtain ⟨n, s'', e'⟩ := ih s' h' (by omega)
        exact ⟨n + 1, s'', by change (step H >>= fun _ => run H n) s = _; rw [bind_run, e]; exact e'⟩
  exact key 32768 s h (by have := h.pos; omega)

/-- The processor loops at `JMP $` for ever, in an unchanged state, at any address. -/
theorem C12_spec_loops (K : Contract) (c : Cpu) (h : c.codeAt c.ip [0xe9, 0xfd, 0xff]) : c.step K = .next c := by
  rw [Cpu.step_enc (i := .jmp 0xfffd) ⟨by decide, fun _ => rfl⟩ h]
  simp only [Cpu.exec]
  have : c.ip + BitVec.ofNat 16 [(0xe9 : Byte), 0xfd, 0xff].length + 0xfffd = c.ip := by
    rw [BitVec.add_assoc]
    exact BitVec.add_zero _
  rw [this]

/-- A COM file with `JMP $` reaches undefined behaviour. -/
example : ∃ n s', run nullHost n (codeState [0xe9, 0xfd, 0xff]) = .err .ub s' :=
  C12_jmp_self_violated nullHost ⟨by decide +kernel, by decide +kernel, by decide +kernel, by decide +kernel, by decide +kernel⟩

/-- What holds: while the states of a run are `Good` and the specified machine's run is defined, there is no undefined
behaviour (nor failed assertion, nor abort) of the host.  Missing from C12: runs that leave `Good`. -/
theorem C12_no_ub_partial (H : Host σ) (hH : H.Ok) (n : Nat) {s : St σ} {c : Cpu} (hr : Rel s c)
    (hg : ∀ m < n, ∀ sm, run H m s = .ok () sm → Good sm) (hd : Cpu.sysRun .sim H.os n c s.world ≠ .undef) :
    (∃ s', run H n s = .ok () s') ∨ ∃ code s', run H n s = .err (.exit code) s' := by
  have := sysRun_refines H hH n hr hg
  cases hx : Cpu.sysRun .sim H.os n c s.world with
  | next c' w' => rw [hx] at this; obtain ⟨s', e, -⟩ := this; exact Or.inl ⟨s', e⟩
  | exit code w' => rw [hx] at this; obtain ⟨s', e, -⟩ := this; exact Or.inr ⟨_, s', e⟩
  | undef => exact absurd hx hd

/-! ## C11: loading a program -/

theorem sext_t8 (b : Byte) : (b.signExtend 32 : W).setWidth 8 = b := by
  apply BitVec.eq_of_getLsbD_eq
  intro i hi
  rw [BitVec.getLsbD_setWidth, BitVec.getLsbD_signExtend]
  simp [hi]
  omega

theorem getD_getElem {l : List Byte} {i : Nat} (d : Byte) (h : i < l.length) : l.getD i d = l[i] := by
  rw [List.getD_eq_getElem?_getD, List.getElem?_eq_getElem h]; rfl

theorem storeBytes_get (bs : List Byte) (m : Mem 20) (a x : Nat) (ha : a + bs.length ≤ 2 ^ 20) (hx : x < 2 ^ 20) :
    (storeBytes m a bs).get x = if a ≤ x ∧ x < a + bs.length then bs.getD (x - a) 0 else m.get x := by
  induction bs generalizing m a with
  | nil =>
    simp only [storeBytes]
    rw [if_neg (by simp)]
  | cons b bs ih =>
    simp only [List.length_cons] at ha
    simp only [storeBytes]
    rw [ih _ _ (by omega)]
    by_cases h1 : a + 1 ≤ x ∧ x < a + 1 + bs.length
    · rw [if_pos h1, if_pos (by simp only [List.length_cons]; omega)]
      have : x - a = (x - (a + 1)) + 1 := by omega
      simp only [this, List.getD_cons_succ]
    · rw [if_neg h1]
      by_cases h2 : x = a
      · subst h2
        rw [Mem.get_set_self, if_pos (by simp)]
        simp
      · rw [Mem.get_set_ne _ _ (by omega) hx (Ne.symm h2), if_neg (by simp only [List.length_cons]; omega)]

theorem storeBytes_append (as bs : List Byte) (m : Mem 20) (a : Nat) :
    storeBytes m a (as ++ bs) = storeBytes (storeBytes m a as) (a + as.length) bs := by
  induction as generalizing m a with
  | nil => rfl
  | cons b as ih =>
    simp only [List.cons_append, storeBytes, List.length_cons, ih]
    rw [Nat.add_right_comm]
    rfl

/-- Addresses in the program's segment. -/
theorem linear_seg (off : W) : linear 0x2000 off = 0x20000 + off.toNat % 65536 := by
  have : (0x2000 : W).toNat = 0x2000 := rfl
  simp only [linear, this]
  omega

theorem linear_seg_lt {off : W} (h : off.toNat < 65536) : linear 0x2000 off = 0x20000 + off.toNat := by
  rw [linear_seg]; omega

theorem Write8_ds {s : St σ} (hds : s.ds = 0x2000) {off v : W} (h : off.toNat < 65536) :
    Write8 DS off v s = .ok () { s with mem := s.mem.set (0x20000 + off.toNat) (v.setWidth 8) } := by
  have : (MAKEADDR (s.sreg DS) off).toNat = 0x20000 + off.toNat := by
    rw [linear_eq, ← linear_seg_lt h]
    change linear s.ds off = _
    rw [hds]
  unfold Write8
  rw [this]

theorem toInt_small {x : W} (h : x.toNat < 65536) : x.toInt = x.toNat := by
  rw [BitVec.toInt_eq_toNat_of_lt]; omega

theorem addI_small (s : St σ) {a b : W} (ha : a.toNat < 65536) (hb : b.toNat < 65536) : addI a b s = .ok (a + b) s := by
  have h1 := toInt_small ha
  have h2 := toInt_small hb
  exact addI_eq s (by omega) (by omega)

theorem toNat_add_small {a b : W} (ha : a.toNat < 65536) (hb : b.toNat < 65536) : (a + b).toNat = a.toNat + b.toNat := by
  rw [BitVec.toNat_add]; omega

theorem copyArg_run (bs : List Byte) (p : W) (s : St σ) (hds : s.ds = 0x2000) (h : p.toNat + bs.length < 60000) :
    copyArg bs p s = .ok (p + BitVec.ofNat 32 bs.length) { s with mem := storeBytes s.mem (0x20081 + p.toNat) bs } := by
  induction bs generalizing p s with
  | nil =>
    simp only [copyArg, List.length_nil, storeBytes, pure_run]
    rw [show p + BitVec.ofNat 32 0 = p from BitVec.add_zero p]
  | cons b bs ih =>
    simp only [List.length_cons] at h
    have h81 : (0x81 : W).toNat = 0x81 := rfl
    have h1 : (1 : W).toNat = 1 := rfl
    have e1 := toNat_add_small (a := 0x81) (b := p) (by omega) (by omega)
    have e2 := toNat_add_small (a := p) (b := 1) (by omega) (by omega)
    unfold copyArg
    rw [bind_run, addI_small _ (by omega) (by omega)]
    simp only
    rw [bind_run, Write8_ds hds (by omega)]
    simp only
    rw [bind_run, addI_small _ (by omega) (by omega)]
    simp only
    rw [ih _ _ (by simpa using hds) (by omega), sext_t8]
    simp only [storeBytes, List.length_cons]
    rw [e1, e2, h81, h1]
    congr 1
    · rw [BitVec.add_assoc]
      congr 1
      apply BitVec.eq_of_toNat_eq
      simp only [BitVec.toNat_add, BitVec.toNat_ofNat, h1]
      omega
    · rw [show 0x20000 + (0x81 + p.toNat) = 0x20081 + p.toNat by omega,
        show 0x20081 + (p.toNat + 1) = 0x20081 + p.toNat + 1 by omega]

/-- The tail `copyArgs` builds when the first argument has index `i`. -/
def tailFrom : List (List Byte) → Nat → List Byte
  | [], _ => []
  | a :: as, i => (if i ≠ 2 then [0x20] else []) ++ a ++ tailFrom as (i + 1)

theorem tailFrom_ge (args : List (List Byte)) (i : Nat) (h : 2 < i) :
    tailFrom args i = (args.map (fun a => 0x20#8 :: a)).flatten := by
  induction args generalizing i with
  | nil => rfl
  | cons a as ih =>
    simp only [tailFrom, List.map_cons, List.flatten_cons]
    rw [if_pos (by omega), ih (i + 1) (by omega)]
    rfl

/-- The arguments separated by one space. -/
def commandTail (args : List (List Byte)) : List Byte := [0x20#8].intercalate args

theorem tailFrom_two (args : List (List Byte)) : tailFrom args 2 = commandTail args := by
  cases args with
  | nil => rfl
  | cons a as =>
    simp only [tailFrom, commandTail]
    rw [if_neg (by omega), tailFrom_ge _ 3 (by omega)]
    induction as generalizing a with
    | nil => simp [List.intercalate]
    | cons b as ih =>
      have := ih b
      simp only [List.nil_append, List.intercalate, List.intersperse, List.flatten_cons, List.map_cons] at this ⊢
      simp only [List.cons_append, List.nil_append]
      rw [← this]

theorem copyArgs_run (args : List (List Byte)) (i : Nat) (p : W) (s : St σ) (hds : s.ds = 0x2000)
    (h : p.toNat + (tailFrom args i).length < 60000) :
    copyArgs args i p s = .ok (p + BitVec.ofNat 32 (tailFrom args i).length)
      { s with mem := storeBytes s.mem (0x20081 + p.toNat) (tailFrom args i) } := by
  induction args generalizing i p s with
  | nil =>
    simp only [copyArgs, tailFrom, List.length_nil, storeBytes, pure_run]
    rw [show p + BitVec.ofNat 32 0 = p from BitVec.add_zero p]
  | cons a as ih =>
    simp only [tailFrom, List.length_append] at h
    have h81 : (0x81 : W).toNat = 0x81 := rfl
    have h1 : (1 : W).toNat = 1 := rfl
    have fin : ∀ (q : W) (m : Mem 20), q.toNat + a.length + (tailFrom as (i + 1)).length < 60000 →
        (do copyArgs as (i + 1) (← copyArg a q) : M σ W) { s with mem := m } =
        .ok (q + BitVec.ofNat 32 (a ++ tailFrom as (i + 1)).length)
          { s with mem := storeBytes m (0x20081 + q.toNat) (a ++ tailFrom as (i + 1)) } := by
      intro q m hq
      rw [bind_run, copyArg_run a q _ (by simpa using hds) (by omega)]
      simp only
      have e3 : (q + BitVec.ofNat 32 a.length).toNat = q.toNat + a.length := by
        simp only [BitVec.toNat_add, BitVec.toNat_ofNat]; omega
      rw [ih _ _ _ (by simpa using hds) (by omega), e3, storeBytes_append, List.length_append, BitVec.add_assoc]
      congr 2
      · apply BitVec.eq_of_toNat_eq
        simp only [BitVec.toNat_add, BitVec.toNat_ofNat]
        omega
      · simp only [Nat.add_assoc]
    unfold copyArgs
    by_cases hi : i ≠ 2
    · rw [if_pos hi] at h
      simp only [if_pos hi, tailFrom]
      have e1 := toNat_add_small (a := 0x81) (b := p) (by omega) (by simp only [List.length_cons] at h; omega)
      have e2 := toNat_add_small (a := p) (b := 1) (by simp only [List.length_cons] at h; omega) (by omega)
      simp only [List.length_cons, List.length_nil] at h
      rw [bind_run, addI_small _ (by omega) (by omega)]
      simp only
      rw [bind_run, Write8_ds hds (by omega)]
      simp only
      rw [bind_run, addI_small _ (by omega) (by omega)]
      simp only
      rw [fin _ _ (by omega)]
      simp only [List.cons_append, List.nil_append, storeBytes, List.length_cons]
      rw [e1, e2, h81, h1]
      congr 1
      · rw [BitVec.add_assoc]
        congr 1
        apply BitVec.eq_of_toNat_eq
        simp only [BitVec.toNat_add, BitVec.toNat_ofNat, h1]
        omega
      · rw [show 0x20000 + (0x81 + p.toNat) = 0x20081 + p.toNat by omega,
          show 0x20081 + (p.toNat + 1) = 0x20081 + p.toNat + 1 by omega]
        rfl
    · rw [if_neg hi] at h
      simp only [if_neg hi, tailFrom]
      simp only [List.length_nil] at h
      rw [bind_run, pure_run]
      simp only [List.nil_append]
      exact fin p s.mem (by omega)

/-- Memory after start-up. -/
def startMem (image tail : List Byte) : Mem 20 :=
  let m := storeBytes (Mem.const 0 20) 0x20100 (image.take 65280)
  let m := (((m.set 0x20000 0xcd).set 0x20001 0x20).set 0x20002 0x00).set 0x20003 0x30
  let m := storeBytes m 0x20081 tail
  let m := (m.set (0x20082 + tail.length) 0x0d).set 0x20080 (BitVec.ofNat 8 tail.length)
  (m.set 0x2fffe 0).set 0x2ffff 0

theorem Write8_seg {s : St σ} {r : Fin 4} (hr : s.sreg r = 0x2000) (off v : W) :
    Write8 r off v s = .ok () { s with mem := s.mem.set (linear 0x2000 off) (v.setWidth 8) } := by
  unfold Write8
  rw [hr, linear_eq]

theorem Write16_seg {s : St σ} {r : Fin 4} (hr : s.sreg r = 0x2000) (hr' : ∀ m, ({ s with mem := m } : St σ).sreg r = 0x2000)
    (off v : W) (h : off.toInt < 2 ^ 31 - 1) :
    Write16 r off v s = .ok () { s with
      mem := (s.mem.set (linear 0x2000 off) (v.setWidth 8)).set (linear 0x2000 (off + 1)) ((v.sshiftRight 8).setWidth 8) } := by
  have h1 : (1 : W).toInt = 1 := rfl
  have := BitVec.le_toInt off
  unfold Write16
  rw [bind_run, Write8_seg hr]
  simp only
  rw [bind_run, addI_eq _ (by omega) (by omega)]
  simp only
  rw [Write8_seg (hr' _)]

theorem startup_run (w : σ) (image : List Byte) (args : List (List Byte)) (argi : Nat)
    (h : (tailFrom args (argi + 1)).length < 50000) :
    startup image argi args (St.initial w) =
      .ok () { St.initial w with mem := startMem image (tailFrom args (argi + 1)), sp := -2, ip := 0x100 } := by
  generalize hT : tailFrom args (argi + 1) = T at h
  have l1 : (MAKEADDR (St.initial w).ds LOAD_OFFSET).toNat = 0x20100 := by
    change (MAKEADDR DEFAULT_SEGMENT LOAD_OFFSET).toNat = 0x20100
    decide +kernel
  have l2 : linear 0x2000 0 = 0x20000 := rfl
  have l3 : linear 0x2000 (0 + 1) = 0x20001 := rfl
  have l4 : linear 0x2000 2 = 0x20002 := rfl
  have l5 : linear 0x2000 (2 + 1) = 0x20003 := rfl
  have l6 : linear 0x2000 (-2) = 0x2fffe := rfl
  have l7 : linear 0x2000 (-2 + 1) = 0x2ffff := rfl
  have l8 : linear 0x2000 0x80 = 0x20080 := rfl
  have v1 : (0x20cd : W).setWidth 8 = (0xcd : Byte) := rfl
  have v2 : ((0x20cd : W).sshiftRight 8).setWidth 8 = (0x20 : Byte) := rfl
  have v3 : (DEFAULT_SEGMENT + 0x1000 : W).setWidth 8 = (0 : Byte) := rfl
  have v4 : ((DEFAULT_SEGMENT + 0x1000 : W).sshiftRight 8).setWidth 8 = (0x30 : Byte) := rfl
  have v5 : (0x0d : W).setWidth 8 = (0xd : Byte) := rfl
  have v6 : (0 : W).setWidth 8 = (0 : Byte) := rfl
  have v7 : ((0 : W).sshiftRight 8).setWidth 8 = (0 : Byte) := rfl
  have z0 : (0 : W).toNat = 0 := rfl
  have z82 : (0x82 : W).toNat = 0x82 := rfl
  have eT : (0 + BitVec.ofNat 32 T.length : W).toNat = T.length := by
    rw [BitVec.toNat_add, BitVec.toNat_ofNat, z0]; omega
  have eT8 : (0 + BitVec.ofNat 32 T.length : W).setWidth 8 = BitVec.ofNat 8 T.length := by
    apply BitVec.eq_of_toNat_eq
    rw [BitVec.toNat_setWidth, eT, BitVec.toNat_ofNat]
  have e82 : linear 0x2000 (0x82 + (0 + BitVec.ofNat 32 T.length)) = 0x20082 + T.length := by
    have := toNat_add_small (a := 0x82) (b := 0 + BitVec.ofNat 32 T.length) (by omega) (by omega)
    rw [linear_seg_lt (by omega), this]; omega
  unfold startup startMem
  rw [bind_run]
  simp only [loadImage, l1]
  rw [bind_run, Write16_seg (r := CS) rfl (fun _ => rfl) _ _ (by decide)]
  simp only
  rw [bind_run, Write16_seg (r := CS) rfl (fun _ => rfl) _ _ (by decide)]
  simp only [l2, l3, l4, l5, v1, v2, v3, v4]
  rw [bind_run, show ∀ s : St σ, putReg SP 0 s = .ok () { s with sp := 0 } from fun _ => rfl]
  simp only
  rw [bind_run, copyArgs_run _ _ _ _ rfl (by rw [hT, z0]; omega), hT]
  simp only
  rw [bind_run, addI_small _ (by omega) (by omega)]
  simp only
  rw [bind_run, Write8_seg (r := DS) rfl]
  simp only
  rw [bind_run, Write8_seg (r := DS) rfl]
  simp only [e82, eT8, l8, v5]
  unfold DoPush
  rw [bind_run, bind_run, show ∀ s : St σ, getReg SP s = .ok s.sp s from fun _ => rfl]
  simp only
  rw [bind_run, addI_eq _ (by decide) (by decide)]
  simp only
  rw [bind_run, show ∀ s : St σ, ∀ v, putReg SP v s = .ok () { s with sp := v } from fun _ _ => rfl]
  simp only [show (0 + -2 : W) = -2 from rfl]
  rw [Write16_seg (r := SS) rfl (fun _ => rfl) _ _ (by decide)]
  simp only [l6, l7, v6, v7]
  rfl

theorem startMem_get (image tail : List Byte) (hn : tail.length < 50000) (x : Nat) (hx : x < 2 ^ 20) :
    (startMem image tail).get x =
      if x = 0x2ffff then 0 else if x = 0x2fffe then 0 else if x = 0x20080 then BitVec.ofNat 8 tail.length
      else if x = 0x20082 + tail.length then 0x0d
      else if 0x20081 ≤ x ∧ x < 0x20081 + tail.length then tail.getD (x - 0x20081) 0
      else if x = 0x20003 then 0x30 else if x = 0x20002 then 0 else if x = 0x20001 then 0x20 else if x = 0x20000 then 0xcd
      else if 0x20100 ≤ x ∧ x < 0x20100 + (image.take 65280).length then (image.take 65280).getD (x - 0x20100) 0 else 0 := by
  have hl : (image.take 65280).length ≤ 65280 := by simp only [List.length_take]; omega
  have key : ∀ (m : Mem 20) (a : Nat) (v : Byte), a < 2 ^ 20 → (m.set a v).get x = if x = a then v else m.get x := by
    intro m a v ha
    by_cases h : x = a
    · subst h; rw [if_pos rfl, Mem.get_set_self]
    · rw [if_neg h, Mem.get_set_ne _ _ ha hx (Ne.symm h)]
  unfold startMem
  simp only
  rw [key _ _ _ (by omega), key _ _ _ (by omega), key _ _ _ (by omega), key _ _ _ (by omega),
    storeBytes_get _ _ _ _ (by omega) hx,
    key _ _ _ (by omega), key _ _ _ (by omega), key _ _ _ (by omega), key _ _ _ (by omega),
    storeBytes_get _ _ _ _ (by omega) hx, Mem.get_const]

theorem linear_ofNat {n : Nat} (h : n < 65536) : linear 0x2000 (BitVec.ofNat 32 n) = 0x20000 + n := by
  rw [linear_seg, BitVec.toNat_ofNat]; omega

/-- `sim86 prog.com args…` starts the program with the image at CS:0100h, `INT 20h` at CS:0, the arguments joined by
single spaces at DS:81h, their length at DS:80h, and a zero word on the stack, all segments equal.  Exact within the
limits the code does not check: a tail of at most 125 bytes and an image of at most 65278.  The carriage return is one
byte too far (DS:82h+n rather than DS:81h+n, which holds 0). -/
theorem C11_load_partial (w : σ) (image : List Byte) (args : List (List Byte)) (hT : (commandTail args).length ≤ 125)
    (hI : image.length ≤ 65278) :
    ∃ s', startup image 1 args (St.initial w) = .ok () s' ∧
      (s'.cs = 0x2000 ∧ s'.ds = 0x2000 ∧ s'.es = 0x2000 ∧ s'.ss = 0x2000) ∧ s'.ip = 0x100 ∧
      (∀ i (h : i < image.length), s'.mem.get (linear s'.cs (BitVec.ofNat 32 (0x100 + i))) = image[i]) ∧
      s'.mem.get (linear s'.cs 0) = 0xcd ∧ s'.mem.get (linear s'.cs 1) = 0x20 ∧
      s'.mem.get (linear s'.ds 0x80) = BitVec.ofNat 8 (commandTail args).length ∧
      (∀ i (h : i < (commandTail args).length), s'.mem.get (linear s'.ds (BitVec.ofNat 32 (0x81 + i))) = (commandTail args)[i]) ∧
      s'.mem.get (linear s'.ds (BitVec.ofNat 32 (0x81 + (commandTail args).length))) = 0 ∧
      s'.mem.get (linear s'.ds (BitVec.ofNat 32 (0x82 + (commandTail args).length))) = 0x0d ∧
      t16 s'.sp = 0xfffe ∧ s'.mem.get (linear s'.ss s'.sp) = 0 ∧ s'.mem.get (linear s'.ss (s'.sp + 1)) = 0 ∧
      s'.world = w := by
  refine ⟨_, startup_run w image args 1 (by rw [tailFrom_two]; omega), ⟨rfl, rfl, rfl, rfl⟩, rfl, ?_⟩
  rw [tailFrom_two]
  have hseg : (St.initial w).cs = 0x2000 ∧ (St.initial w).ds = 0x2000 ∧ (St.initial w).ss = 0x2000 := ⟨rfl, rfl, rfl⟩
  simp only [hseg]
  generalize commandTail args = T at hT ⊢
  have htk : image.take 65280 = image := List.take_of_length_le (by omega)
  have hlen : (image.take 65280).length = image.length := by rw [htk]
  have G := startMem_get image T (by omega)
  refine ⟨?_, ?_, ?_, ?_, ?_, ?_, ?_, rfl, ?_, ?_, rfl⟩
  · intro i h
    rw [linear_ofNat (by omega), G _ (by omega)]
    iterate 9 rw [if_neg (by omega)]
    rw [if_pos (by omega), htk, show 0x20000 + (0x100 + i) - 0x20100 = i by omega, getD_getElem _ h]
  · rw [show linear 0x2000 0 = 0x20000 from rfl, G _ (by omega)]
    rw [if_neg (by omega), if_neg (by omega), if_neg (by omega), if_neg (by omega)]
    repeat rw [if_neg (by omega)]
    rw [if_pos rfl]
  · rw [show linear 0x2000 1 = 0x20001 from rfl, G _ (by omega)]
    rw [if_neg (by omega), if_neg (by omega), if_neg (by omega), if_neg (by omega)]
    repeat rw [if_neg (by omega)]
    rw [if_pos rfl]
  · rw [show linear 0x2000 0x80 = 0x20080 from rfl, G _ (by omega)]
    repeat rw [if_neg (by omega)]
    rw [if_pos rfl]
  · intro i h
    rw [linear_ofNat (by omega), G _ (by omega)]
    iterate 4 rw [if_neg (by omega)]
    rw [if_pos (by omega), show 0x20000 + (0x81 + i) - 0x20081 = i by omega, getD_getElem _ h]
  · rw [linear_ofNat (by omega), G _ (by omega)]
    iterate 10 rw [if_neg (by omega)]
  · rw [linear_ofNat (by omega), G _ (by omega)]
    repeat rw [if_neg (by omega)]
    rw [if_pos (by omega)]
  · rw [show linear 0x2000 (-2) = 0x2fffe from rfl, G _ (by omega)]
    rw [if_neg (by omega), if_pos rfl]
  · rw [show linear 0x2000 (-2 + 1) = 0x2ffff from rfl, G _ (by omega)]
    rw [if_pos rfl]

/-- The violations of C11.  A tail of 126 bytes has its carriage return in the first byte of the program … -/
theorem C11_tail_violated (w : σ) (image : List Byte) (args : List (List Byte)) (hT : (commandTail args).length = 126) :
    ∃ s', startup image 1 args (St.initial w) = .ok () s' ∧ s'.mem.get (linear s'.cs s'.ip) = 0x0d := by
  refine ⟨_, startup_run w image args 1 (by rw [tailFrom_two]; omega), ?_⟩
  rw [tailFrom_two]
  have hseg : (St.initial w).cs = 0x2000 := rfl
  simp only [hseg]
  rw [show linear 0x2000 0x100 = 0x20100 from rfl, startMem_get _ _ (by omega) _ (by omega)]
  repeat rw [if_neg (by omega)]
  rw [if_pos (by omega)]

/-- … a longer one overwrites the program with its own text … -/
theorem C11_long_tail_violated (w : σ) (image : List Byte) (args : List (List Byte)) (i : Nat)
    (h : 127 + i < (commandTail args).length) (h' : (commandTail args).length < 50000) :
    ∃ s', startup image 1 args (St.initial w) = .ok () s' ∧
      s'.mem.get (linear s'.cs (BitVec.ofNat 32 (0x100 + i))) = (commandTail args)[127 + i] := by
  refine ⟨_, startup_run w image args 1 (by rw [tailFrom_two]; omega), ?_⟩
  rw [tailFrom_two]
  have hseg : (St.initial w).cs = 0x2000 := rfl
  simp only [hseg]
  rw [linear_ofNat (by omega), startMem_get _ _ (by omega) _ (by omega)]
  iterate 4 rw [if_neg (by omega)]
  rw [if_pos (by omega), show 0x20000 + (0x100 + i) - 0x20081 = 127 + i by omega, getD_getElem _ h]

/-- … and the return address pushed overwrites bytes 65278 and 65279 of an image that long. -/
theorem C11_image_violated (w : σ) (image : List Byte) (args : List (List Byte)) (hT : (commandTail args).length ≤ 125) :
    ∃ s', startup image 1 args (St.initial w) = .ok () s' ∧
      s'.mem.get (linear s'.cs (BitVec.ofNat 32 (0x100 + 65278))) = 0 := by
  refine ⟨_, startup_run w image args 1 (by rw [tailFrom_two]; omega), ?_⟩
  rw [tailFrom_two]
  have hseg : (St.initial w).cs = 0x2000 := rfl
  simp only [hseg]
  rw [linear_ofNat (by omega), startMem_get _ _ (by omega) _ (by omega)]
  rw [if_neg (by omega), if_pos (by omega)]

theorem DoPop_run (s : St σ) (h : s.sp.toInt + 2 < 2 ^ 31) :
    DoPop s = .ok ((word (s.mem.get (linear s.ss s.sp)) (s.mem.get (linear s.ss (s.sp + 1)))).setWidth 32)
      { s with sp := s.sp + 2 } := by
  have h1 : -2 ^ 31 ≤ s.sp.toInt := BitVec.le_toInt (x := s.sp)
  have h2 : (1 : W).toInt = 1 := rfl
  have h3 : (2 : W).toInt = 2 := rfl
  have g : ∀ s : St σ, getReg SP s = .ok s.sp s := fun _ => rfl
  have r : ∀ (off : W) (s : St σ), Read8 SS off s = .ok ((s.mem.get (linear s.ss off)).setWidth 32) s := by
    intro off s; rw [← linear_eq]; rfl
  unfold DoPop Read16
  rw [bind_run, g]
  simp only
  rw [bind_run, bind_run, r]
  simp only
  rw [bind_run, addI_eq _ (by omega) (by omega)]
  simp only
  rw [bind_run, r]
  simp only [pure_run]
  rw [bind_run, g]
  simp only
  rw [bind_run, addI_eq _ (by omega) (by omega)]
  simp only
  rw [bind_run]
  simp only [pure_run]
  rw [or_shift]
  rfl

theorem execInst_int (H : Host σ) : execInst H 0 0xcd#8 = INT H := rfl

/-- A final RET with the zero word on the stack reaches the `INT 20h` at CS:0 and ends the simulation with status 0. -/
theorem C11_ret_exits (H : Host σ) (s : St σ) (hip : s.ip.toInt + 1 < 2 ^ 31) (hsp : s.sp.toInt + 2 < 2 ^ 31)
    (hc : s.mem.get (linear s.cs s.ip) = 0xc3)
    (h0 : s.mem.get (linear s.cs 0) = 0xcd) (h1 : s.mem.get (linear s.cs 1) = 0x20)
    (hs0 : s.mem.get (linear s.ss s.sp) = 0) (hs1 : s.mem.get (linear s.ss (s.sp + 1)) = 0) :
    ∃ s', run H 2 s = .err (.exit 0) s' ∧ s'.world = s.world := by
  have e1 : step H s = .ok () { s with modrm := none, addr := 0, dsize := true, seg := none, ip := 0, sp := s.sp + 2 } := by
    have e0 : step H s = dispatch H loopFuel 0 { s with modrm := none, addr := 0, dsize := true, seg := none } := by
      unfold step; rw [bind_run]; rfl
    rw [e0, show loopFuel = (2 ^ 32 - 1) + 1 from rfl, dispatch_succ, bind_run, ReadIByte_run _ (by simp only; omega)]
    simp only [setWidth8_32, hc]
    change execInst H 0 0xc3#8 _ = _
    rw [execInst_ret, bind_run, DoPop_run _ (by simp only; omega)]
    simp only [hs0, hs1]
    rfl
  generalize hs' : ({ s with modrm := none, addr := 0, dsize := true, seg := none, ip := 0, sp := s.sp + 2 } : St σ) = s2 at e1
  have f : s2.cs = s.cs ∧ s2.mem = s.mem ∧ s2.ip = 0 ∧ s2.world = s.world := by subst hs'; exact ⟨rfl, rfl, rfl, rfl⟩
  have z : (0 : W).toInt = 0 := rfl
  have z1 : (0 + 1 : W).toInt = 1 := rfl
  have e2 : step H s2 = .err (.exit 0) { s2 with modrm := none, addr := 0, dsize := true, seg := none, ip := 0 + 1 + 1 } := by
    have e0 : step H s2 = dispatch H loopFuel 0 { s2 with modrm := none, addr := 0, dsize := true, seg := none } := by
      unfold step; rw [bind_run]; rfl
    rw [e0, show loopFuel = (2 ^ 32 - 1) + 1 from rfl, dispatch_succ, bind_run,
      ReadIByte_run _ (by simp only [f.2.2.1, z]; omega)]
    simp only [setWidth8_32, f.1, f.2.1, f.2.2.1, h0]
    change execInst H 0 0xcd#8 _ = _
    rw [execInst_int, INT, bind_run, ReadIByte_run _ (by simp only [z1]; omega)]
    simp only [show (0 + 1 : W) = 1 from rfl, h1]
    rfl
  refine ⟨{ s2 with modrm := none, addr := 0, dsize := true, seg := none, ip := 0 + 1 + 1 }, ?_, f.2.2.2⟩
  change (step H >>= fun _ => step H >>= fun _ => run H 0) s = _
  rw [bind_run, e1]
  simp only
  rw [bind_run, e2]

/-- A program consisting of one RET, started with any arguments of at most 125 bytes: two steps and exit status 0. -/
example (H : Host σ) (w : σ) (args : List (List Byte)) (hT : (commandTail args).length ≤ 125) :
    ∃ s0 s' : St σ, startup [0xc3] 1 args (St.initial w) = .ok () s0 ∧ run H 2 s0 = .err (.exit 0) s' := by
  obtain ⟨s0, e, -, hip, hI, h0, h1, -, -, -, -, -, z0, z1, -⟩ := C11_load_partial w [0xc3] args hT (by decide)
  have e' := startup_run w [0xc3] args 1 (by rw [tailFrom_two]; omega)
  have hsp' : s0.sp = -2 := by
    rw [e] at e'; injection e' with _ e'; rw [e']
  obtain ⟨s', e2, -⟩ := C11_ret_exits H s0 (by rw [hip]; decide) (by rw [hsp']; decide)
    (by rw [hip]; exact hI 0 (by decide)) h0 h1 z0 z1
  exact ⟨s0, s', e, e2⟩

/-! ## Segment override prefix

`MOV WORD [SS:BX],1234h` (`36 C7 07 34 12`) stores a byte only: `sim86.c` clears the operand size when it handles the
prefix and `C7` does not set it again. -/

theorem seg_prefix_violated : ∃ s' : St Unit, run nullHost 1 (codeState [0x36, 0xc7, 0x07, 0x34, 0x12]) = .ok () s' ∧
    s'.mem.get (linear 0x2000 0) = 0x34 ∧ s'.mem.get (linear 0x2000 1) = 0xc7 ∧ s'.ip = 5 := by
  exact ok_of_check (p := fun s' => s'.mem.get (linear 0x2000 0) = 0x34 ∧ s'.mem.get (linear 0x2000 1) = 0xc7 ∧ s'.ip = 5)
    (by decide +kernel)

end Props
