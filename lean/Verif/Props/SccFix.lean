import Verif.Props.SccJump
/-!
# Fixups (C36): what `DoFixups` writes for one reference to a label
-/
namespace SccFix
open Prog Scc SccCode SccGen SccJump

/-- The byte at address `a` of the output. -/
def B (m : Mem 15) (a : Nat) : Byte := m.get (a - codeStart)

/-- The output with another byte at address `a`. -/
def st (m : Mem 15) (a : Nat) (b : Byte) : Mem 15 := m.set (a - codeStart) b

/-- `a` is an address of the output. -/
def In (a : Nat) : Prop := codeStart ≤ a ∧ a < codeStart + outputMax

theorem B_self (m : Mem 15) (a : Nat) (b : Byte) : B (st m a b) a = b := Mem.get_set_self ..

theorem B_ne (m : Mem 15) {a a' : Nat} (b : Byte) (ha : In a) (ha' : In a') (h : a ≠ a') : B (st m a b) a' = B m a' := by
  have hM := max_lt
  obtain ⟨h1, h2⟩ := ha
  obtain ⟨h3, h4⟩ := ha'
  unfold B st
  generalize codeStart = x, outputMax = y at *
  exact Mem.get_set_ne _ _ (by omega) (by omega) (by omega)

theorem In.of {a b c : Nat} (ha : In a) (hc : In c) (h1 : a ≤ b) (h2 : b ≤ c) : In b := by
  unfold In at *
  generalize codeStart = x, outputMax = y at *
  omega

theorem In.lt {a : Nat} (h : In a) : a < 2 ^ 15 := by
  have h2 := h.2
  have : codeStart + outputMax < 2 ^ 15 := by decide
  omega

theorem rd_at {s : S} {r : Nat} {k : Int} (a : Nat) (h : (r : Int) + k = a) (ha : In a) : rd r k s = .ok (B s.out a) s := by
  obtain ⟨h1, h2⟩ := ha
  refine run_getS (run_ub (decide_eq_true ?_) ?_)
  · generalize codeStart = x, outputMax = y at *; omega
  · have e : ((r : Int) - codeStart + k).toNat = a - codeStart := by generalize codeStart = x, outputMax = y at *; omega
    rw [e]; rfl

theorem wr_at {s : S} {r : Nat} {k : Int} (a : Nat) (b : Byte) (h : (r : Int) + k = a) (ha : In a) : wr r k b s = .ok () { s with out := st s.out a b } := by
  obtain ⟨h1, h2⟩ := ha
  refine run_ub (decide_eq_true ?_) ?_
  · generalize codeStart = x, outputMax = y at *; omega
  · have e : ((r : Int) - codeStart + k).toNat = a - codeStart := by generalize codeStart = x, outputMax = y at *; omega
    show Res.ok () _ = Res.ok () _
    rw [e]; rfl

/-- A short jump at `p` to `a`. -/
def Short (m : Mem 15) (p a : Nat) : Prop := B m p = 0xEB ∧ BitVec.ofNat 16 a = BitVec.ofNat 16 (p + 2) + (B m (p + 1)).signExtend 16

/-- A near jump at `p` to `a`. -/
def Long (m : Mem 15) (p a : Nat) : Prop := B m p = 0xE9 ∧ BitVec.ofNat 16 a = BitVec.ofNat 16 (p + 3) + I86.word (B m (p + 1)) (B m (p + 2))

/-- A conditional jump at `p` to `a`. -/
def CondAt (m : Mem 15) (cc p a : Nat) : Prop := B m p = nb (0x70 ||| cc) ∧ BitVec.ofNat 16 a = BitVec.ofNat 16 (p + 2) + (B m (p + 1)).signExtend 16

/-- Nothing but the addresses from `p` to `q` is changed. -/
def Keep (m m' : Mem 15) (p q : Nat) : Prop := ∀ a, In a → a < p ∨ q ≤ a → B m' a = B m a

theorem fits8_iff (v : Int) : fits8 v = true ↔ -128 ≤ v ∧ v < 128 := by
  unfold fits8 byteOf
  rw [beq_iff_eq, BitVec.toInt_ofInt, Int.bmod_def]
  omega

theorem sext_byteOf {v : Int} (h : -128 ≤ v ∧ v < 128) : (byteOf v).signExtend 16 = BitVec.ofInt 16 v := by
  unfold byteOf
  apply BitVec.eq_of_toInt_eq
  rw [BitVec.toInt_signExtend_of_le (by omega), BitVec.toInt_ofInt, BitVec.toInt_ofInt, Int.bmod_def, Int.bmod_def]
  omega

theorem to_word {a b : Nat} {v : Int} (h : (a : Int) = b + v) : BitVec.ofNat 16 a = BitVec.ofNat 16 b + BitVec.ofInt 16 v := by
  apply BitVec.eq_of_toNat_eq
  rw [BitVec.toNat_add, BitVec.toNat_ofNat, BitVec.toNat_ofNat, BitVec.toNat_ofInt]
  omega

/-- The next reference in the list: the word at `r`. -/
def nextRef (m : Mem 15) (r : Nat) : Nat := (B m r).toNat + 256 * (B m (r + 1)).toNat

/-- `fixPlain` at a near jump. -/
theorem fixPlain_spec {s : S} {p a : Nat} (h0 : In p) (h2 : In (p + 2)) (hp : B s.out p = 0xE9) (hle : p + 3 ≤ a) :
    ∃ out', fixPlain (p + 1) ((a : Int) - ((p + 1 : Nat) + 2)) s = .ok () { s with out := out' } ∧ (Short out' p a ∨ Long out' p a) ∧ Keep s.out out' p (p + 3) := by
  have h1 : In (p + 1) := h0.of h2 (by omega) (by omega)
  generalize hf : ((a : Int) - ((p + 1 : Nat) + 2)) = f
  by_cases hs : fits8 (f + 1) = true
  · refine ⟨_, run_bind (rd_at p (by omega) h0) (run_pos ⟨hp, hs⟩ (run_bind (wr_at p 0xEB (by omega) h0)
      (run_bind (wr_at (p + 1) (byteOf (f + 1)) (by omega) h1) (wr_at (p + 2) 0x90 (by omega) h2)))), .inl ⟨?_, ?_⟩, fun x hx hn => ?_⟩
    · simp only
      rw [B_ne _ _ h2 h0 (by omega), B_ne _ _ h1 h0 (by omega), B_self]
    · simp only
      rw [B_ne _ _ h2 h1 (by omega), B_self, sext_byteOf ((fits8_iff _).1 hs)]
      exact to_word (by omega)
    · simp only
      rw [B_ne _ _ h2 hx (by omega), B_ne _ _ h1 hx (by omega), B_ne _ _ h0 hx (by omega)]
  · refine ⟨_, run_bind (rd_at p (by omega) h0) (run_neg (fun h => hs h.2)
      (run_bind (wr_at (p + 1) (Scc.lo f) (by omega) h1) (wr_at (p + 2) (Scc.hi f) (by omega) h2))), .inr ⟨?_, ?_⟩, fun x hx hn => ?_⟩
    · simp only
      rw [B_ne _ _ h2 h0 (by omega), B_ne _ _ h1 h0 (by omega), hp]
    · simp only
      rw [B_ne _ _ h2 h1 (by omega), B_self, B_self, word_lo_hi]
      exact to_word (by omega)
    · simp only
      rw [B_ne _ _ h2 hx (by omega), B_ne _ _ h1 hx (by omega)]

/-- A fixup at a jump that is not removed. -/
theorem fix_jmp {s : S} {p : Nat} (h0 : In p) (h2 : In (p + 2)) (hp : B s.out p = 0xE9) (hle : p + 3 ≤ s.code) (hk : s.code = p + 3 → s.lastFixup = s.code) :
    ∃ out', fixOne (p + 1) true s = .ok (nextRef s.out (p + 1)) { s with out := out' } ∧ (Short out' p s.code ∨ Long out' p s.code) ∧ Keep s.out out' p (p + 3) := by
  have h1 : In (p + 1) := h0.of h2 (by omega) (by omega)
  obtain ⟨out', e, hj, hkeep⟩ := fixPlain_spec (a := s.code) h0 h2 hp hle
  refine ⟨out', run_getS (run_bind (rd_at (p + 1) (by omega) h1) (run_bind (rd_at (p + 2) (by omega) h2) (run_bind (rd_at p (by omega) h0)
    (run_neg (by rw [hp]; decide) (run_neg (fun h => h.2.2 (hk h.2.1)) (run_bind e rfl)))))), hj, hkeep⟩

/-- A fixup at a jump that is removed. -/
theorem fix_gone {s : S} {p : Nat} (h0 : In p) (h2 : In (p + 2)) (hp : B s.out p = 0xE9) (hc : s.code = p + 3) (hk : s.lastFixup ≠ s.code) :
    fixOne (p + 1) true s = .ok (nextRef s.out (p + 1)) { s with code := p } := by
  have h1 : In (p + 1) := h0.of h2 (by omega) (by omega)
  refine run_getS (run_bind (rd_at (p + 1) (by omega) h1) (run_bind (rd_at (p + 2) (by omega) h2) (run_bind (rd_at p (by omega) h0)
    (run_neg (by rw [hp]; decide) (run_pos ⟨rfl, hc, hk⟩ ?_)))))
  refine run_modS ?_
  show Res.ok _ _ = Res.ok _ _
  rw [hc, Nat.add_sub_cancel]
  rfl

theorem cc_bytes (cc : Nat) (h : cc < 16) :
    ((nb (0x70 ||| (cc ^^^ 1)) &&& 0xF0 != 0x70) = false) ∧ nb (0x70 ||| (cc ^^^ 1)) ^^^ 1 = nb (0x70 ||| cc) ∧
    nb (0x70 ||| cc) ≠ 0xEB ∧ nb (0x70 ||| cc) ≠ 0x5D ∧ nb (0x70 ||| (cc ^^^ 1)) ≠ 0xEB ∧ nb (0x70 ||| (cc ^^^ 1)) ≠ 0x5D := by
  have : ∀ cc : Fin 16, ((nb (0x70 ||| (cc.val ^^^ 1)) &&& 0xF0 != 0x70) = false) ∧ nb (0x70 ||| (cc.val ^^^ 1)) ^^^ 1 = nb (0x70 ||| cc.val) ∧
    nb (0x70 ||| cc.val) ≠ 0xEB ∧ nb (0x70 ||| cc.val) ≠ 0x5D ∧ nb (0x70 ||| (cc.val ^^^ 1)) ≠ 0xEB ∧ nb (0x70 ||| (cc.val ^^^ 1)) ≠ 0x5D := by decide +kernel
  exact this ⟨cc, h⟩

/-- What follows the conditional jump of a fused site at `p`: nothing (`MOV AL, AL; NOP`) or a copy of a short jump or `POP BP; RET` behind the site. -/
def Tail (m m' : Mem 15) (p : Nat) : Prop :=
  B m' (p + 4) = 0x90 ∧
  (B m' (p + 2) = 0x88 ∧ B m' (p + 3) = 0xC0 ∨
   B m (p + 5) = 0xEB ∧ B m' (p + 2) = 0xEB ∧ (B m' (p + 3)).signExtend 16 = (B m (p + 6)).signExtend 16 + 3 ∨
   B m (p + 5) = 0x5D ∧ B m' (p + 2) = 0x5D ∧ B m' (p + 3) = 0xC3)

/-- The forms of a conditional jump of five bytes. -/
def Five (m m' : Mem 15) (cc p a : Nat) : Prop :=
  B m' p = nb (0x70 ||| (cc ^^^ 1)) ∧ B m' (p + 1) = 3 ∧ (Short m' (p + 2) a ∨ Long m' (p + 2) a) ∨ CondAt m' cc p a ∧ Tail m m' p

theorem sext_add3 (d : Byte) (h : ¬ d.toInt > 0x7F - 3) : (d + 3).signExtend 16 = d.signExtend 16 + 3 := by
  have : ∀ d : BitVec 8, ¬ d.toInt > 0x7F - 3 → (d + 3).signExtend 16 = d.signExtend 16 + 3 := by decide +kernel
  exact this d h

/-- `fixFused`, with all addresses explicit. -/
theorem fused_spec {s : S} {p cc a : Nat} (h0 : In p) (h6 : In (p + 6)) (hcc : cc < 16) (hp : B s.out p = nb (0x70 ||| (cc ^^^ 1))) (hp1 : B s.out (p + 1) = 3)
    (hle : p + 5 ≤ a) (hn : (a : Int) - ((p + 3 : Nat) + 2) ≤ 0x7F - 3) :
    ∃ out', fixFused (p + 3) ((a : Int) - ((p + 3 : Nat) + 2)) s = .ok () { s with out := out' } ∧ (CondAt out' cc p a ∧ Tail s.out out' p) ∧
      Keep s.out out' p (p + 5) := by
  have hi : ∀ k, k ≤ 6 → In (p + k) := fun k hk => h0.of h6 (by omega) (by omega)
  obtain ⟨c1, c2, _⟩ := cc_bytes cc hcc
  generalize hf : ((a : Int) - ((p + 3 : Nat) + 2)) = f
  let m1 := st (st (st s.out p (nb (0x70 ||| cc))) (p + 1) (byteOf (f + 3))) (p + 4) 0x90
  have e5 : B m1 (p + 5) = B s.out (p + 5) := by
    rw [B_ne _ _ (hi 4 (by omega)) (hi 5 (by omega)) (by omega), B_ne _ _ (hi 1 (by omega)) (hi 5 (by omega)) (by omega), B_ne _ _ h0 (hi 5 (by omega)) (by omega)]
  have e6 : B m1 (p + 6) = B s.out (p + 6) := by
    rw [B_ne _ _ (hi 4 (by omega)) h6 (by omega), B_ne _ _ (hi 1 (by omega)) h6 (by omega), B_ne _ _ h0 h6 (by omega)]
  have key : ∀ x y : Byte, (x = 0x88 ∧ y = 0xC0 ∨ B s.out (p + 5) = 0xEB ∧ x = 0xEB ∧ y.signExtend 16 = (B s.out (p + 6)).signExtend 16 + 3 ∨
      B s.out (p + 5) = 0x5D ∧ x = 0x5D ∧ y = 0xC3) →
      (CondAt (st (st m1 (p + 2) x) (p + 3) y) cc p a ∧ Tail s.out (st (st m1 (p + 2) x) (p + 3) y) p) ∧ Keep s.out (st (st m1 (p + 2) x) (p + 3) y) p (p + 5) := by
    intro x y hxy
    refine ⟨⟨⟨?_, ?_⟩, ?_, ?_⟩, fun z hz hzn => ?_⟩
    · rw [B_ne _ _ (hi 3 (by omega)) h0 (by omega), B_ne _ _ (hi 2 (by omega)) h0 (by omega), B_ne _ _ (hi 4 (by omega)) h0 (by omega),
        B_ne _ _ (hi 1 (by omega)) h0 (by omega), B_self]
    · rw [B_ne _ _ (hi 3 (by omega)) (hi 1 (by omega)) (by omega), B_ne _ _ (hi 2 (by omega)) (hi 1 (by omega)) (by omega),
        B_ne _ _ (hi 4 (by omega)) (hi 1 (by omega)) (by omega), B_self, sext_byteOf (by omega)]
      exact to_word (by omega)
    · rw [B_ne _ _ (hi 3 (by omega)) (hi 4 (by omega)) (by omega), B_ne _ _ (hi 2 (by omega)) (hi 4 (by omega)) (by omega), B_self]
    · rw [B_ne _ _ (hi 3 (by omega)) (hi 2 (by omega)) (by omega), B_self, B_self]
      exact hxy
    · rw [B_ne _ _ (hi 3 (by omega)) hz (by omega), B_ne _ _ (hi 2 (by omega)) hz (by omega), B_ne _ _ (hi 4 (by omega)) hz (by omega),
        B_ne _ _ (hi 1 (by omega)) hz (by omega), B_ne _ _ h0 hz (by omega)]
  have hpre : ∀ r, (rd (p + 3) 2 >>= fun n =>
        if n = 0xEB then do
          let d ← rd (p + 3) 3
          if d.toInt > 0x7F - 3 then do
            wr (p + 3) (-1) 0x88
            wr (p + 3) 0 0xC0
          else do
            wr (p + 3) (-1) 0xEB
            wr (p + 3) 0 (d + 3)
        else if n = 0x5D then do
          wr (p + 3) (-1) 0x5D
          wr (p + 3) 0 0xC3
        else do
          wr (p + 3) (-1) 0x88
          wr (p + 3) 0 0xC0) { s with out := m1 } = r → fixFused (p + 3) f s = r := by
    intro r hr
    refine run_bind (rd_at p (by omega) h0) (run_bind (rd_at (p + 1) (by omega) (hi 1 (by omega))) (run_failIf (by rw [hp, hp1, c1]; decide) ?_))
    refine run_bind (wr_at p _ (by omega) h0) (run_bind (wr_at (p + 1) _ (by omega) (hi 1 (by omega))) (run_bind (wr_at (p + 4) _ (by omega) (hi 4 (by omega))) ?_))
    rw [hp, c2]
    exact hr
  have w2 : ∀ (m : Mem 15) (x y : Byte), (wr (p + 3) (-1) x >>= fun _ => wr (p + 3) 0 y) { s with out := m } = .ok () { s with out := st (st m (p + 2) x) (p + 3) y } := by
    intro m x y
    exact run_bind (wr_at (p + 2) x (by omega) (hi 2 (by omega))) (wr_at (p + 3) y (by omega) (hi 3 (by omega)))
  by_cases hb : B s.out (p + 5) = 0xEB
  · by_cases hd : (B s.out (p + 6)).toInt > 0x7F - 3
    · exact ⟨_, hpre _ (run_bind (rd_at (p + 5) (by omega) (hi 5 (by omega))) (run_pos (e5.trans hb) (run_bind (rd_at (p + 6) (by omega) h6)
        (run_pos (by simp only [e6]; exact hd) (w2 _ _ _))))), key _ _ (.inl ⟨rfl, rfl⟩)⟩
    · refine ⟨_, hpre _ (run_bind (rd_at (p + 5) (by omega) (hi 5 (by omega))) (run_pos (e5.trans hb) (run_bind (rd_at (p + 6) (by omega) h6)
        (run_neg (by simp only [e6]; exact hd) (w2 _ _ _))))), key _ _ (.inr (.inl ⟨hb, rfl, ?_⟩))⟩
      simp only [e6]
      exact sext_add3 _ hd
  · by_cases hb' : B s.out (p + 5) = 0x5D
    · exact ⟨_, hpre _ (run_bind (rd_at (p + 5) (by omega) (hi 5 (by omega))) (run_neg (by simp only [e5]; exact hb)
        (run_pos (e5.trans hb') (w2 _ _ _)))), key _ _ (.inr (.inr ⟨hb', rfl, rfl⟩))⟩
    · exact ⟨_, hpre _ (run_bind (rd_at (p + 5) (by omega) (hi 5 (by omega))) (run_neg (by simp only [e5]; exact hb)
        (run_neg (by simp only [e5]; exact hb') (w2 _ _ _)))), key _ _ (.inl ⟨rfl, rfl⟩)⟩

/-- A fixup at a conditional jump. -/
theorem fix_jcc {s : S} {p cc : Nat} (h0 : In p) (h6 : In (p + 6)) (hcc : cc < 16) (hp : B s.out p = nb (0x70 ||| (cc ^^^ 1))) (hp1 : B s.out (p + 1) = 3)
    (hp2 : B s.out (p + 2) = 0) (hle : p + 5 ≤ s.code) :
    ∃ out', fixOne (p + 3) true s = .ok (nextRef s.out (p + 3)) { s with out := out' } ∧ Five s.out out' cc p s.code ∧ Keep s.out out' p (p + 5) := by
  have hi : ∀ k, k ≤ 6 → In (p + k) := fun k hk => h0.of h6 (by omega) (by omega)
  by_cases hn : (s.code : Int) - ((p + 3 : Nat) + 2) ≤ 0x7F - 3
  · obtain ⟨out', e, hj, hk⟩ := fused_spec h0 h6 hcc hp hp1 hle hn
    exact ⟨out', run_getS (run_bind (rd_at (p + 3) (by omega) (hi 3 (by omega))) (run_bind (rd_at (p + 4) (by omega) (hi 4 (by omega)))
      (run_bind (rd_at (p + 2) (by omega) (hi 2 (by omega))) (run_pos hp2 (run_pos hn (run_bind e rfl)))))), .inr hj, hk⟩
  · obtain ⟨out', e, hj, hk⟩ := fixPlain_spec (s := { s with out := st s.out (p + 2) 0xE9 }) (a := s.code) (hi 2 (by omega)) (hi 4 (by omega)) (B_self ..) hle
    refine ⟨out', run_getS (run_bind (rd_at (p + 3) (by omega) (hi 3 (by omega))) (run_bind (rd_at (p + 4) (by omega) (hi 4 (by omega)))
      (run_bind (rd_at (p + 2) (by omega) (hi 2 (by omega))) (run_pos hp2 (run_neg hn (run_bind (wr_at (p + 2) _ (by omega) (hi 2 (by omega))) (run_bind e rfl))))))),
      .inl ⟨?_, ?_, hj⟩, fun a ha hna => ?_⟩
    · rw [hk p h0 (.inl (by omega)), B_ne _ _ (hi 2 (by omega)) h0 (by omega), hp]
    · rw [hk (p + 1) (hi 1 (by omega)) (.inl (by omega)), B_ne _ _ (hi 2 (by omega)) (hi 1 (by omega)) (by omega), hp1]
    · rw [hk a ha (by omega), B_ne _ _ (hi 2 (by omega)) ha (by omega)]

end SccFix
