import Verif.Sim86.Exec
/-!
# The host loops of the string instructions
-/
namespace Sim86
open I86
variable {σ : Type}

theorem setReg_sreg (s : St σ) (r : Fin 8) (v : W) (x : Fin 4) : (s.setReg r v).sreg x = s.sreg x := by
  match r with
  | 0 | 1 | 2 | 3 | 4 | 5 | 6 | 7 => rfl

theorem neg1_toInt : (-1 : W).toInt = -1 := rfl

theorem t16_neg1 (x : W) : t16 (x + -1) = t16 x - 1 := by
  rw [t16_add, BitVec.sub_eq_add_neg]; rfl

theorem clean_pred {x : W} {n : Nat} (h : x.toNat = n + 1) : (x + -1).toNat = n := by
  rw [BitVec.toNat_add]
  have : (-1 : W).toNat = 2 ^ 32 - 1 := rfl
  have := x.isLt
  omega

theorem clean_toInt {x : W} {n : Nat} (h : x.toNat = n) (hn : n < 2 ^ 16) : x.toInt = n := by
  rw [BitVec.toInt_eq_toNat_of_lt (by omega), h]

theorem toNat_zero_iff {x : W} : x = 0 ↔ x.toNat = 0 := by
  rw [← BitVec.toNat_inj]; rfl

/-- A pointer register far from overflow. -/
def Near (x : W) (b : Int) : Prop := -2 ^ 29 ≤ x.toInt ∧ x.toInt + b < 2 ^ 30

theorem Near.step {x : W} {b d : Int} (h : Near x b) {k : W} (hk : k.toInt = d) (hd : 0 ≤ d) (hb : d ≤ b) :
    Near (x + k) (b - d) := by
  obtain ⟨h1, h2⟩ := h
  have := toInt_add_eq (a := x) (b := k) (by omega) (by omega)
  constructor <;> omega

/-- One element of MOVS, at the level of the specification. -/
theorem movs_succ (w : Bool) (n : Nat) (c : Cpu) : c.movs w (n + 1) =
    Cpu.movs w n (let c := if w then c.wr16 c.es c.di (c.rd16 c.ds c.si) else c.wr8 c.es c.di (c.rd8 c.ds c.si)
      { c with si := c.si + (if w then 2 else 1), di := c.di + (if w then 2 else 1), cx := c.cx - 1 }) := rfl

theorem repMovs_wp (w : Bool) (n : Nat) : ∀ (fuel : Nat) (s : St σ), s.cx.toNat = n → n < 2 ^ 16 → n < fuel →
    Near s.si (2 * n) → Near s.di (2 * n) →
    wp (repMovs w fuel) s fun _ s' => s'.flags = s.flags ∧ ∀ F, abs s' F = (abs s F).movs w n := by
  induction n with
  | zero =>
    intro fuel s hc _ hf _ _
    obtain ⟨fuel, rfl⟩ : ∃ f, fuel = f + 1 := ⟨fuel - 1, by omega⟩
    simp only [repMovs, wp_bind, wp_getReg]
    rw [reg_CX, if_pos (toNat_zero_iff.2 hc), wp_pure]
    exact ⟨rfl, fun _ => rfl⟩
  | succ n ih =>
    intro fuel s hc hn hf hsi hdi
    obtain ⟨fuel, rfl⟩ : ∃ f, fuel = f + 1 := ⟨fuel - 1, by omega⟩
    simp only [repMovs, wp_bind, wp_getReg]
    have hne : s.reg CX ≠ 0 := by
      intro h; have := toNat_zero_iff.1 h; rw [reg_CX] at this; omega
    rw [if_neg hne]
    have hcI : s.cx.toInt = (n + 1 : Nat) := clean_toInt hc hn
    have hneg := neg1_toInt
    have h12 : (if w then (2 : W) else 1).toInt = if w then 2 else 1 := by cases w <;> rfl
    have hd0 : (0 : Int) ≤ if w then 2 else 1 := by cases w <;> decide
    have hd2 : (if w then 2 else 1) ≤ (2 : Int) := by cases w <;> decide
    -- the store
    have hstore : wp (if w then Write16 ES s.di ((Cpu.rd16 (abs s F0) (abs s F0).ds (t16 s.si)).setWidth 32)
          else Write8 ES s.di ((Cpu.rd8 (abs s F0) (abs s F0).ds (t16 s.si)).setWidth 32)) s fun _ s1 =>
        s1 = { s with mem := s1.mem } ∧ ∀ F, abs s1 F =
          let c := abs s F
          if w then c.wr16 c.es c.di (c.rd16 c.ds c.si) else c.wr8 c.es c.di (c.rd8 c.ds c.si) := by
      obtain ⟨hd1, hd2⟩ := hdi
      cases w with
      | true =>
        simp only [if_true]
        have hh := Write16_wp s .es s.di ((Cpu.rd16 (abs s F0) (abs s F0).ds (t16 s.si)).setWidth 32) (by omega) (by omega)
        refine wp_mono hh ?_
        rintro _ s1 ⟨e, ha⟩
        refine ⟨e, fun F => ?_⟩
        rw [ha, t16_zext]
        rfl
      | false =>
        simp only [Bool.false_eq_true, if_false]
        obtain ⟨s1, e, f1, ha⟩ := Write8_eq s .es s.di ((Cpu.rd8 (abs s F0) (abs s F0).ds (t16 s.si)).setWidth 32)
        have e' : Write8 ES s.di ((Cpu.rd8 (abs s F0) (abs s F0).ds (t16 s.si)).setWidth 32) s = .ok () s1 := e
        rw [wp_of_eq e']
        refine ⟨f1, fun F => ?_⟩
        rw [ha, t8, setWidth8_32]
        rfl
    have hload : ∀ Q : Unit → St σ → Prop,
        wp (if w then Write16 ES s.di ((Cpu.rd16 (abs s F0) (abs s F0).ds (t16 s.si)).setWidth 32)
          else Write8 ES s.di ((Cpu.rd8 (abs s F0) (abs s F0).ds (t16 s.si)).setWidth 32)) s Q →
        wp (if w then (do Write16 ES (← getReg DI) (← Read16 DS (← getReg SI)))
          else (do Write8 ES (← getReg DI) (← Read8 DS (← getReg SI)))) s Q := by
      intro Q h
      cases w with
      | true =>
        simp only [if_true, wp_bind, wp_getReg] at h ⊢
        rw [show DS = srIdx .ds from rfl, wp_Read16 s F0 .ds _ _ (by simp only [reg_SI]; have := hsi.1; omega)
          (by simp only [reg_SI]; have := hsi.2; omega)]
        exact h
      | false =>
        simp only [Bool.false_eq_true, if_false, wp_bind, wp_getReg] at h ⊢
        rw [show DS = srIdx .ds from rfl, wp_Read8 s F0]
        exact h
    have hrest : ∀ s1 : St σ, s1 = { s with mem := s1.mem } →
        (∀ F, abs s1 F = let c := abs s F
          if w then c.wr16 c.es c.di (c.rd16 c.ds c.si) else c.wr8 c.es c.di (c.rd8 c.ds c.si)) →
        wp (do
          bump CX (-1)
          bump DI (if w then 2 else 1)
          bump SI (if w then 2 else 1)
          repMovs w fuel) s1 fun _ s' => s'.flags = s.flags ∧ ∀ F, abs s' F = (abs s F).movs w (n + 1) := by
      intro s1 e1 a1
      have rcx : s1.cx = s.cx := by rw [e1]
      have rsi : s1.si = s.si := by rw [e1]
      have rdi : s1.di = s.di := by rw [e1]
      have rfl1 : s1.flags = s.flags := by rw [e1]
      have icx := congrArg BitVec.toInt rcx
      have isi := congrArg BitVec.toInt rsi
      have idi := congrArg BitVec.toInt rdi
      have b1 := hsi.1
      have b2 := hsi.2
      have b3 := hdi.1
      have b4 := hdi.2
      rw [wp_bump3 s1 _ _ _ _ _ (by omega) (by omega) (by omega) (by omega) (by omega) (by omega)]
      generalize e2 : ({ s1 with cx := s1.cx + -1, di := s1.di + (if w then 2 else 1), si := s1.si + (if w then 2 else 1) } : St σ) = s2
      have e2 := e2.symm
      refine wp_mono (ih fuel s2 ?_ (by omega) (by omega) ?_ ?_) ?_
      · rw [e2]; simp only [rcx]; exact clean_pred hc
      · rw [e2]; simp only [rsi]
        have := hsi.step h12 hd0 (by omega)
        constructor
        · exact this.1
        · have := this.2; omega
      · rw [e2]; simp only [rdi]
        have := hdi.step h12 hd0 (by omega)
        constructor
        · exact this.1
        · have := this.2; omega
      · rintro _ s' ⟨hfl, habs⟩
        refine ⟨by rw [hfl, e2]; exact rfl1, fun F => ?_⟩
        rw [habs, movs_succ]
        congr 1
        have : abs s2 F = { abs s1 F with
            si := (abs s1 F).si + (if w then 2 else 1)
            di := (abs s1 F).di + (if w then 2 else 1)
            cx := (abs s1 F).cx - 1 } := by
          have hw2 : t16 (if w then (2 : W) else 1) = if w then 2 else 1 := by cases w <;> rfl
          rw [e2]; simp only [abs, t16_neg1]; simp only [t16_add, hw2]
        rw [this, a1]
    have := hload _ (wp_mono hstore fun _ s1 h => hrest s1 h.1 h.2)
    cases w with
    | true => simpa only [if_true, wp_bind] using this
    | false => simpa only [Bool.false_eq_true, if_false, wp_bind] using this

/-! ## STOS -/

theorem stosN_succ (w : Bool) (n : Nat) (c : Cpu) : c.stosN w (n + 1) =
    Cpu.stosN w n (let c := if w then c.wr16 c.es c.di c.ax else c.wr8 c.es c.di (Cpu.lo c.ax)
      { c with di := c.di + (if w then 2 else 1) }) := rfl

theorem stosLoop_wp (w : Bool) (n : Nat) : ∀ (fuel : Nat) (s : St σ) (v it : W), it.toNat = n → n < 2 ^ 16 → n < fuel →
    v = s.ax → Near s.di (2 * n) →
    wp (stosLoop w v fuel it) s fun _ s' => s'.flags = s.flags ∧ ∀ F, abs s' F = (abs s F).stosN w n := by
  induction n with
  | zero =>
    intro fuel s v it hc _ hf _ _
    obtain ⟨fuel, rfl⟩ : ∃ f, fuel = f + 1 := ⟨fuel - 1, by omega⟩
    have h0 := toNat_zero_iff.2 hc
    subst h0
    have h0 : (0 : W).toInt = 0 := rfl
    have := neg1_toInt
    simp only [stosLoop, wp_bind]
    rw [wp_addI s _ (by omega) (by omega)]
    simp only [if_true, wp_pure]
    exact ⟨trivial, fun _ => rfl⟩
  | succ n ih =>
    intro fuel s v it hc hn hf hv hdi
    obtain ⟨fuel, rfl⟩ : ∃ f, fuel = f + 1 := ⟨fuel - 1, by omega⟩
    have hcI : it.toInt = (n + 1 : Nat) := clean_toInt hc hn
    have := neg1_toInt
    have hne : it ≠ 0 := by
      intro h; have := toNat_zero_iff.1 h; omega
    have b3 := hdi.1
    have b4 := hdi.2
    simp only [stosLoop, wp_bind]
    rw [wp_addI s _ (by omega) (by omega), if_neg hne]
    have hrest : ∀ s2 : St σ, s2.ax = s.ax → s2.di = s.di + (if w then 2 else 1) → s2.flags = s.flags →
        (∀ F, abs s2 F = let c := abs s F
          let c := if w then c.wr16 c.es c.di c.ax else c.wr8 c.es c.di (Cpu.lo c.ax)
          { c with di := c.di + (if w then 2 else 1) }) →
        wp (stosLoop w v fuel (it + -1)) s2 fun _ s' =>
          s'.flags = s.flags ∧ ∀ F, abs s' F = (abs s F).stosN w (n + 1) := by
      intro s2 hax hdi2 hfl ha
      refine wp_mono (ih fuel s2 v _ (clean_pred hc) (by omega) (by omega) (by rw [hv, hax]) ?_) ?_
      · rw [hdi2]
        have h12 : (if w then (2 : W) else 1).toInt = if w then 2 else 1 := by cases w <;> rfl
        have hd0 : (0 : Int) ≤ if w then 2 else 1 := by cases w <;> decide
        have hd2 : (if w then 2 else 1) ≤ (2 : Int) := by cases w <;> decide
        have := hdi.step h12 hd0 (by omega)
        constructor
        · exact this.1
        · have := this.2; omega
      · rintro _ s' ⟨h1, h2⟩
        refine ⟨by rw [h1, hfl], fun F => ?_⟩
        rw [h2, stosN_succ, ha]
    have h2i : (2 : W).toInt = 2 := rfl
    have h1i : (1 : W).toInt = 1 := rfl
    cases w with
    | true =>
      simp only [if_true, wp_bind, wp_getReg, reg_DI] at hrest ⊢
      have hh := Write16_wp s .es s.di v (by omega) (by omega)
      refine wp_mono hh ?_
      rintro _ s1 ⟨e1, a1⟩
      have rdi : s1.di = s.di := by rw [e1]
      have idi := congrArg BitVec.toInt rdi
      rw [wp_bump_DI s1 _ _ (by omega) (by omega)]
      refine hrest _ ?_ ?_ ?_ ?_
      · simp only; rw [e1]
      · simp only [rdi]
      · simp only; rw [e1]
      · intro F
        have : abs ({ s1 with di := s1.di + 2 } : St σ) F = { abs s1 F with di := (abs s1 F).di + 2 } := by
          simp only [abs, t16_add]; rfl
        rw [this, a1, hv]; rfl
    | false =>
      simp only [Bool.false_eq_true, if_false, wp_bind, wp_getReg, reg_DI] at hrest ⊢
      rw [wp_bump_DI s _ _ (by omega) (by omega)]
      obtain ⟨s1, e, e1, a1⟩ := Write8_eq ({ s with di := s.di + 1 } : St σ) .es s.di v
      have e' : Write8 ES s.di v { s with di := s.di + 1 } = .ok () s1 := e
      rw [wp_of_eq e']
      refine hrest _ ?_ ?_ ?_ ?_
      · rw [e1]
      · rw [e1]
      · rw [e1]
      · intro F
        have : abs ({ s with di := s.di + 1 } : St σ) F = { abs s F with di := (abs s F).di + 1 } := by
          simp only [abs, t16_add]; rfl
        rw [a1, this, hv, t8_eq_lo]; rfl

theorem stosN_cx (w : Bool) (n : Nat) (c : Cpu) (x : Word) :
    ({ c.stosN w n with cx := x } : Cpu) = Cpu.stosN w n { c with cx := x } := by
  induction n generalizing c with
  | zero => rfl
  | succ n ih =>
    rw [stosN_succ, ih, stosN_succ]
    cases w <;> rfl

theorem STOS_wp (w : Bool) (s : St σ) (rep : Byte) (hr : rep = 0xf3 → s.cx.toNat < 2 ^ 16)
    (hdi : -2 ^ 29 ≤ s.di.toInt ∧ s.di.toInt < 2 ^ 29) :
    wp (STOS w rep) s fun _ s' => s'.flags = s.flags ∧ ∀ F, abs s' F =
      if rep = 0xf3 then { (abs s F).stosN w (t16 s.cx).toNat with cx := 0 } else (abs s F).stosN w 1 := by
  simp only [STOS, wp_bind, wp_getS]
  have hnear : ∀ n : Nat, n < 2 ^ 16 → Near s.di (2 * n) := by
    intro n hn; constructor <;> omega
  by_cases h : rep = 0xf3
  · simp only [h, if_true]
    have hc := hr h
    have ht : (t16 s.cx).toNat = s.cx.toNat := by
      rw [BitVec.toNat_setWidth]; omega
    refine wp_mono (stosLoop_wp w s.cx.toNat loopFuel _ s.ax s.cx rfl hc (by rw [loopFuel]; omega) rfl (hnear _ hc)) ?_
    rintro _ s' ⟨h1, h2⟩
    refine ⟨h1, fun F => ?_⟩
    rw [h2, ht, stosN_cx]
    rfl
  · simp only [h, if_false]
    refine wp_mono (stosLoop_wp w 1 loopFuel s s.ax 1 rfl (by omega) (by rw [loopFuel]; omega) rfl (hnear 1 (by omega))) ?_
    rintro _ s' ⟨h1, h2⟩
    exact ⟨h1, h2⟩

/-! ## CMPS and SCAS -/

/-- A byte comparison done by the simulator with 16-bit flags. -/
theorem cmp_flags (f : W) (l r : Byte) :
    opFlags true (opRes 7 f (l.setWidth 32) (r.setWidth 32)).1 (opRes 7 f (l.setWidth 32) (r.setWidth 32)).2 =
      mkFlags (aluCF .cmp l r false) (aluRes .cmp l r false == 0)
        (aluRes .cmp (l.setWidth 16) (r.setWidth 16) (cfOf f)).msb
        (aluOF .cmp (l.setWidth 16) (r.setWidth 16) (cfOf f)) := by
  have hl := l.isLt
  have hr := r.isLt
  rw [opFlags_16]
  have e1 : ∀ x : Byte, (x.setWidth 32 : W).setWidth 16 = x.setWidth 16 := fun x =>
    BitVec.setWidth_setWidth_of_le x (by omega)
  rw [e1, e1, show opOf 7 = .cmp from rfl]
  have hA : aluCF .cmp (l.setWidth 16) (r.setWidth 16) (cfOf f) = aluCF .cmp l r false := by
    simp only [aluCF, BitVec.toNat_setWidth]
    rw [Nat.mod_eq_of_lt (by omega), Nat.mod_eq_of_lt (by omega)]
  have hB : (aluRes .cmp (l.setWidth 16) (r.setWidth 16) (cfOf f) == 0) = (aluRes .cmp l r false == 0) := by
    simp only [aluRes]
    rw [Bool.eq_iff_iff, beq_iff_eq, beq_iff_eq, ← BitVec.toNat_inj, ← BitVec.toNat_inj, BitVec.toNat_sub, BitVec.toNat_sub,
      BitVec.toNat_setWidth, BitVec.toNat_setWidth]
    show _ = 0 ↔ _ = 0
    omega
  rw [hA, hB]

theorem cmp_zf (l r : Byte) : (aluRes .cmp l r false == 0) = decide (l = r) := by
  have hl := l.isLt
  have hr := r.isLt
  rw [Bool.eq_iff_iff, beq_iff_eq, decide_eq_true_eq, ← BitVec.toNat_inj, ← BitVec.toNat_inj]
  show (l - r).toNat = 0 ↔ _
  rw [BitVec.toNat_sub]
  omega

/-- The flag knowledge after a string comparison. -/
def cmpF (l r : Byte) : Flags4 := ⟨some (aluCF .cmp l r false), some (aluRes .cmp l r false == 0), none, none⟩

theorem cmpsN_succ (n : Nat) (c : Cpu) : c.cmpsN .sim (n + 1) =
    (let c' : Cpu := { setF c (cmpF (c.rd8 c.ds c.si) (c.rd8 c.es c.di)) with
        si := c.si + 1
        di := c.di + 1
        cx := c.cx - 1 }
     if c.rd8 c.ds c.si = c.rd8 c.es c.di then c'.cmpsN .sim n else c') := rfl

theorem scasN_succ (n : Nat) (c : Cpu) : c.scasN .sim (n + 1) =
    (let c' : Cpu := { setF c (cmpF (Cpu.lo c.ax) (c.rd8 c.es c.di)) with
        di := c.di + 1
        cx := c.cx - 1 }
     if Cpu.lo c.ax = c.rd8 c.es c.di then c' else c'.scasN .sim n) := rfl

theorem zfOf_iff (f : W) : (f &&& FZ ≠ 0) ↔ zfOf f = true := by simp [zfOf]

theorem repCmps_wp (n : Nat) : ∀ (fuel : Nat) (s : St σ) (F : Flags4), s.cx.toNat = n → n < 2 ^ 16 → n < fuel →
    s.dsize = true → zfOf s.flags = true → FlagsOk F s.flags → Near s.si n → Near s.di n →
    wp (repCmps fuel) s fun _ s' => Rel s' ((abs s F).cmpsN .sim n) := by
  induction n with
  | zero =>
    intro fuel s F hc _ hf _ _ hF _ _
    obtain ⟨fuel, rfl⟩ : ∃ f, fuel = f + 1 := ⟨fuel - 1, by omega⟩
    simp only [repCmps, wp_bind, wp_getS]
    rw [if_neg (by intro h; exact h.2 (toNat_zero_iff.2 hc)), wp_pure]
    exact ⟨F, rfl, hF⟩
  | succ n ih =>
    intro fuel s F hc hn hf hdz hz hF hsi hdi
    obtain ⟨fuel, rfl⟩ : ∃ f, fuel = f + 1 := ⟨fuel - 1, by omega⟩
    have hne : s.cx ≠ 0 := by
      intro h; have := toNat_zero_iff.1 h; omega
    have hcI : s.cx.toInt = (n + 1 : Nat) := clean_toInt hc hn
    have hneg := neg1_toInt
    have h1i : (1 : W).toInt = 1 := rfl
    have b1 := hsi.1
    have b2 := hsi.2
    have b3 := hdi.1
    have b4 := hdi.2
    simp only [repCmps, wp_bind, wp_getS]
    rw [if_pos ⟨(zfOf_iff _).2 hz, hne⟩, wp_bind, show DS = srIdx .ds from rfl, wp_Read8 s F0, wp_bind,
      show ES = srIdx .es from rfl, wp_Read8 s F0, wp_bind, wp_DoOp]
    simp only [ne_eq, not_true, if_false, wp_pure]
    generalize hl : (abs s F0).rd8 ((abs s F0).sreg .ds) (t16 s.si) = l
    generalize hr : (abs s F0).rd8 ((abs s F0).sreg .es) (t16 s.di) = r
    have hl' : ∀ F, (abs s F).rd8 (abs s F).ds (abs s F).si = l := fun F => hl
    have hr' : ∀ F, (abs s F).rd8 (abs s F).es (abs s F).di = r := fun F => hr
    generalize hs1 : opState s 7 (l.setWidth 32) (r.setWidth 32) = s1
    have hfl : s1.flags = opFlags true (opRes 7 s.flags (l.setWidth 32) (r.setWidth 32)).1
        (opRes 7 s.flags (l.setWidth 32) (r.setWidth 32)).2 := by
      rw [← hs1]; simp only [opState, hdz, opTrim, if_true]
    have e1 : s1 = { s with flags := s1.flags } := by rw [← hs1]; rfl
    rw [cmp_flags] at hfl
    have hF1 : FlagsOk (cmpF l r) s1.flags := by
      rw [hfl]
      apply flagsOk_mk
      · intro v hv; cases hv; rfl
      · intro v hv; cases hv; rfl
      · intro v hv; cases hv
      · intro v hv; cases hv
    have rcx : s1.cx = s.cx := by rw [e1]
    have rsi : s1.si = s.si := by rw [e1]
    have rdi : s1.di = s.di := by rw [e1]
    have icx := congrArg BitVec.toInt rcx
    have isi := congrArg BitVec.toInt rsi
    have idi := congrArg BitVec.toInt rdi
    rw [wp_bump3 s1 _ _ _ _ _ (by omega) (by omega) (by omega) (by omega) (by omega) (by omega)]
    generalize e2 : ({ s1 with cx := s1.cx + -1, di := s1.di + 1, si := s1.si + 1 } : St σ) = s2
    have e2 := e2.symm
    have f2 : s2.flags = s1.flags := by rw [e2]
    have habs : abs s2 (cmpF l r) = { setF (abs s F) (cmpF l r) with
        si := (abs s F).si + 1
        di := (abs s F).di + 1
        cx := (abs s F).cx - 1 } := by
      rw [e2]
      simp only [abs, setF, t16_neg1]
      simp only [t16_add, t16_one]
      rw [e1]
    rw [cmpsN_succ]
    simp only [hl', hr', ← habs]
    by_cases hlr : l = r
    · rw [if_pos hlr]
      refine ih fuel s2 (cmpF l r) ?_ (by omega) (by omega) ?_ ?_ (by rw [f2]; exact hF1) ?_ ?_
      · rw [e2]; simp only [rcx]; exact clean_pred hc
      · rw [e2, e1]; exact hdz
      · rw [f2, hfl, zfOf_mk, cmp_zf, hlr]; simp
      · rw [e2]; simp only [rsi]
        have := hsi.step h1i (by omega) (by omega)
        constructor
        · exact this.1
        · have := this.2; omega
      · rw [e2]; simp only [rdi]
        have := hdi.step h1i (by omega) (by omega)
        constructor
        · exact this.1
        · have := this.2; omega
    · rw [if_neg hlr]
      obtain ⟨fuel, rfl⟩ : ∃ f, fuel = f + 1 := ⟨fuel - 1, by omega⟩
      simp only [repCmps, wp_bind, wp_getS]
      rw [if_neg, wp_pure]
      · exact ⟨_, rfl, by rw [f2]; exact hF1⟩
      · rw [zfOf_iff, f2, hfl, zfOf_mk, cmp_zf]; simp [hlr]

theorem repScas_wp (n : Nat) : ∀ (fuel : Nat) (s : St σ) (F : Flags4), s.cx.toNat = n → n < 2 ^ 16 → n < fuel →
    s.dsize = true → zfOf s.flags = false → FlagsOk F s.flags → Near s.di n →
    wp (repScas fuel) s fun _ s' => Rel s' ((abs s F).scasN .sim n) := by
  induction n with
  | zero =>
    intro fuel s F hc _ hf _ _ hF _
    obtain ⟨fuel, rfl⟩ : ∃ f, fuel = f + 1 := ⟨fuel - 1, by omega⟩
    simp only [repScas, wp_bind, wp_getS]
    rw [if_neg (by intro h; exact h.2 (toNat_zero_iff.2 hc)), wp_pure]
    exact ⟨F, rfl, hF⟩
  | succ n ih =>
    intro fuel s F hc hn hf hdz hz hF hdi
    obtain ⟨fuel, rfl⟩ : ∃ f, fuel = f + 1 := ⟨fuel - 1, by omega⟩
    have hne : s.cx ≠ 0 := by
      intro h; have := toNat_zero_iff.1 h; omega
    have hcI : s.cx.toInt = (n + 1 : Nat) := clean_toInt hc hn
    have hneg := neg1_toInt
    have h1i : (1 : W).toInt = 1 := rfl
    have b3 := hdi.1
    have b4 := hdi.2
    have hz' : s.flags &&& FZ = 0 := by
      have := mt (zfOf_iff s.flags).1 (by rw [hz]; simp)
      simpa using this
    simp only [repScas, wp_bind, wp_getS]
    rw [if_pos ⟨hz', hne⟩, wp_bind,
      show ES = srIdx .es from rfl, wp_Read8 s F0, wp_bind, wp_DoOp]
    simp only [ne_eq, not_true, if_false, wp_pure]
    have hal : s.ax &&& 0xff = (Cpu.lo (t16 s.ax)).setWidth 32 := by
      apply BitVec.eq_of_toNat_eq
      rw [toNat_and_ff, ← t8_eq_lo, BitVec.toNat_setWidth, BitVec.toNat_setWidth]
      omega
    rw [hal]
    generalize hl : Cpu.lo (t16 s.ax) = l
    generalize hr : (abs s F0).rd8 ((abs s F0).sreg .es) (t16 s.di) = r
    have hl' : ∀ F, Cpu.lo (abs s F).ax = l := fun F => hl
    have hr' : ∀ F, (abs s F).rd8 (abs s F).es (abs s F).di = r := fun F => hr
    generalize hs1 : opState s 7 (l.setWidth 32) (r.setWidth 32) = s1
    have hfl : s1.flags = opFlags true (opRes 7 s.flags (l.setWidth 32) (r.setWidth 32)).1
        (opRes 7 s.flags (l.setWidth 32) (r.setWidth 32)).2 := by
      rw [← hs1]; simp only [opState, hdz, opTrim, if_true]
    have e1 : s1 = { s with flags := s1.flags } := by rw [← hs1]; rfl
    rw [cmp_flags] at hfl
    have hF1 : FlagsOk (cmpF l r) s1.flags := by
      rw [hfl]
      apply flagsOk_mk
      · intro v hv; cases hv; rfl
      · intro v hv; cases hv; rfl
      · intro v hv; cases hv
      · intro v hv; cases hv
    have rcx : s1.cx = s.cx := by rw [e1]
    have rdi : s1.di = s.di := by rw [e1]
    have icx := congrArg BitVec.toInt rcx
    have idi := congrArg BitVec.toInt rdi
    rw [wp_bind, wp_bump_CX s1 _ _ (by omega) (by omega), wp_bind, wp_bump_DI _ _ _ (by simp only; omega) (by simp only; omega)]
    generalize e2 : ({ s1 with cx := s1.cx + -1, di := s1.di + 1 } : St σ) = s2
    have e2 := e2.symm
    have f2 : s2.flags = s1.flags := by rw [e2]
    have habs : abs s2 (cmpF l r) = { setF (abs s F) (cmpF l r) with
        di := (abs s F).di + 1
        cx := (abs s F).cx - 1 } := by
      rw [e2]
      simp only [abs, setF, t16_neg1]
      simp only [t16_add, t16_one]
      rw [e1]
    rw [scasN_succ]
    simp only [hl', hr', ← habs]
    by_cases hlr : l = r
    · rw [if_pos hlr]
      obtain ⟨fuel, rfl⟩ : ∃ f, fuel = f + 1 := ⟨fuel - 1, by omega⟩
      simp only [repScas, wp_bind, wp_getS]
      rw [if_neg, wp_pure]
      · exact ⟨_, rfl, by rw [f2]; exact hF1⟩
      · intro h
        have h1 : zfOf s2.flags = true := by rw [f2, hfl, zfOf_mk, cmp_zf, hlr]; simp
        exact (zfOf_iff _).2 h1 h.1
    · rw [if_neg hlr]
      refine ih fuel s2 (cmpF l r) ?_ (by omega) (by omega) ?_ ?_ (by rw [f2]; exact hF1) ?_
      · rw [e2]; simp only [rcx]; exact clean_pred hc
      · rw [e2, e1]; exact hdz
      · rw [f2, hfl, zfOf_mk, cmp_zf]; simp [hlr]
      · rw [e2]; simp only [rdi]
        have := hdi.step h1i (by omega) (by omega)
        constructor
        · exact this.1
        · have := this.2; omega

end Sim86
