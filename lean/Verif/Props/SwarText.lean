import Verif.Props.Swar
import Verif.Props.Printf
import Verif.Swar.Text
/-!
# C56: the text on the screen
-/
namespace Props
open I86 Swar Text

/-- The pixel is in the rectangle of a text of `n` characters with the upper left corner `x`, `y`. -/
def InText (x y n : Nat) (px py : Word) : Prop := x ≤ px.toNat ∧ px.toNat < x + 8 * n ∧ y ≤ py.toNat ∧ py.toNat < y + 8

/-- The colour of a pixel of a text: the font has eight bytes for each character, one for each row, the leftmost pixel in bit 7. -/
def textCol (font : Word → Byte) (x y : Nat) (fg bg : Word) (str : List Byte) (px py : Word) : Word :=
  let ch := str.getD ((px.toNat - x) / 8) 0
  if (font (BitVec.ofNat 16 (14 + 8 * ch.toNat + (py.toNat - y)))).getLsbD (7 - (px.toNat - x) % 8) then fg else bg

namespace SwarText

theorem cols_ok (g : Word → Word → Word) (m : Mem 16) (ps : List (Word × Word × Word))
    (h : ∀ p ∈ ps, OnScreen p.1 p.2.1 ∧ p.2.2 = g p.1 p.2.1 ∧ p.2.2.toNat < 4) :
    ∃ m', drawCols m ps = some m' ∧ (∀ x y, OnScreen x y → ((∃ c, (x, y, c) ∈ ps) → readPixel m' x y = some (g x y)) ∧
        ((¬ ∃ c, (x, y, c) ∈ ps) → readPixel m' x y = readPixel m x y)) ∧
      ∀ a, 0x4000 ≤ a → a < 0x10000 → m'.get a = m.get a := by
  induction ps generalizing m with
  | nil => exact ⟨m, rfl, fun x y _ => ⟨fun ⟨c, hc⟩ => (by cases hc), fun _ => rfl⟩, fun _ _ _ => rfl⟩
  | cons p ps ih =>
    obtain ⟨x, y, c⟩ := p
    obtain ⟨h1, h2, h3⟩ := h (x, y, c) (by simp)
    simp only at h1 h2 h3
    obtain ⟨m1, e1, r1, o1, f1⟩ := C45_pixel m x y c h1 h3
    obtain ⟨m2, e2, r2, f2⟩ := ih m1 (fun p hp => h p (by simp [hp]))
    refine ⟨m2, by rw [drawCols, e1]; exact e2, fun x' y' os => ?_, fun a a1 a2 => by rw [f2 a a1 a2, f1 a a1 a2]⟩
    obtain ⟨a, b⟩ := r2 x' y' os
    by_cases hm : ∃ c, (x', y', c) ∈ ps
    · exact ⟨fun _ => a hm, fun hn => absurd (hm.imp fun c hc => List.mem_cons_of_mem _ hc) hn⟩
    · rw [b hm]
      by_cases he : (x', y') = (x, y)
      · cases he
        exact ⟨fun _ => by rw [r1, h2], fun hn => absurd ⟨c, by simp⟩ hn⟩
      · refine ⟨fun ⟨c', hc⟩ => ?_, fun _ => o1 x' y' os he⟩
        rcases List.mem_cons.1 hc with e | hc
        · cases e; exact absurd rfl he
        · exact absurd ⟨c', hc⟩ hm

theorem bit_table : ∀ (i : Fin 8) (b : Byte), ((b.setWidth 16 : Word) <<< i.val &&& 0x80 ≠ 0) ↔ b.getLsbD (7 - i.val) = true := by
  decide +kernel

theorem sext_ascii {b : Byte} (h : b.toNat < 128) : b.signExtend 16 = BitVec.ofNat 16 b.toNat := by
  rw [BitVec.signExtend_eq_setWidth_of_msb_false (by rw [BitVec.msb_eq_false_iff_two_mul_lt]; omega)]
  apply BitVec.eq_of_toNat_eq
  simp

/-- `DrawChar`. -/
theorem char_ok (font : Word → Byte) (m : Mem 16) (x y fg bg : Word) (ch : Byte) (hx : x.toNat + 8 ≤ 320) (hy : y.toNat + 8 ≤ 200)
    (hch : ch.toNat < 128) (hf : fg.toNat < 4) (hb : bg.toNat < 4) :
    ∃ m', drawCols m (charPix font x y (ch.signExtend 16) fg bg) = some m' ∧
      (∀ px py, OnScreen px py → (InText x.toNat y.toNat 1 px py → readPixel m' px py = some (textCol font x.toNat y.toNat fg bg [ch] px py)) ∧
        (¬ InText x.toNat y.toNat 1 px py → readPixel m' px py = readPixel m px py)) ∧
      ∀ a, 0x4000 ≤ a → a < 0x10000 → m'.get a = m.get a := by
  have mem : ∀ px py c, (px, py, c) ∈ charPix font x y (ch.signExtend 16) fg bg →
      InText x.toNat y.toNat 1 px py ∧ c = textCol font x.toNat y.toNat fg bg [ch] px py := by
    intro px py c hm
    simp only [charPix, List.mem_flatMap, List.mem_map, List.mem_range, Prod.mk.injEq] at hm
    obtain ⟨j, hj, i, hi, rfl, rfl, rfl⟩ := hm
    have ex : (x + BitVec.ofNat 16 i).toNat = x.toNat + i := by rw [BitVec.toNat_add, BitVec.toNat_ofNat]; omega
    have ey : (y + BitVec.ofNat 16 j).toNat = y.toNat + j := by rw [BitVec.toNat_add, BitVec.toNat_ofNat]; omega
    refine ⟨⟨by omega, by omega, by omega, by omega⟩, ?_⟩
    rw [textCol, ex, ey]
    have ea : (0x000e + ch.signExtend 16 * 8 + BitVec.ofNat 16 j : Word) = BitVec.ofNat 16 (14 + 8 * ch.toNat + j) := by
      rw [sext_ascii hch]
      apply BitVec.eq_of_toNat_eq
      simp only [BitVec.toNat_add, BitVec.toNat_mul, BitVec.toNat_ofNat, show (14 : Word).toNat = 14 from rfl, show (8 : Word).toNat = 8 from rfl]
      omega
    rw [ea]
    have e0 : (x.toNat + i - x.toNat) / 8 = 0 := by omega
    have e1 : (x.toNat + i - x.toNat) % 8 = i := by omega
    have e2 : y.toNat + j - y.toNat = j := by omega
    simp only [e0, e1, e2, List.getD_cons_zero]
    have bt := bit_table ⟨i, hi⟩ (font (BitVec.ofNat 16 (14 + 8 * ch.toNat + j)))
    simp only at bt
    by_cases q : (font (BitVec.ofNat 16 (14 + 8 * ch.toNat + j))).getLsbD (7 - i) = true
    · rw [if_pos (bt.2 q), if_pos q]
    · rw [if_neg (fun h => q (bt.1 h)), if_neg q]
  have all : ∀ px py, InText x.toNat y.toNat 1 px py → ∃ c, (px, py, c) ∈ charPix font x y (ch.signExtend 16) fg bg := by
    rintro px py ⟨h1, h2, h3, h4⟩
    simp only [charPix, List.mem_flatMap, List.mem_map, List.mem_range, Prod.mk.injEq]
    refine ⟨_, py.toNat - y.toNat, by omega, px.toNat - x.toNat, by omega, ?_, ?_, rfl⟩
    · apply BitVec.eq_of_toNat_eq; rw [BitVec.toNat_add, BitVec.toNat_ofNat]; omega
    · apply BitVec.eq_of_toNat_eq; rw [BitVec.toNat_add, BitVec.toNat_ofNat]; omega
  obtain ⟨m', e, r, f⟩ := cols_ok (textCol font x.toNat y.toNat fg bg [ch]) m (charPix font x y (ch.signExtend 16) fg bg) (by
    rintro ⟨px, py, c⟩ hp
    obtain ⟨⟨h1, h2, h3, h4⟩, rfl⟩ := mem px py c hp
    refine ⟨⟨by simp only; omega, by simp only; omega⟩, rfl, ?_⟩
    simp only [textCol]
    split <;> assumption)
  refine ⟨m', e, fun px py os => ⟨fun h => (r px py os).1 (all px py h), fun h => (r px py os).2 fun ⟨c, hc⟩ => h (mem px py c hc).1⟩, f⟩

end SwarText

/-- C56: `DrawStr` draws every character of a text that fits the screen as the font shows it, in the two colours, and changes
nothing outside the rectangle of the text. -/
theorem C56_text (font : Word → Byte) (m : Mem 16) (x y fg bg : Word) (str : List Byte) (hx : x.toNat + 8 * str.length ≤ 320)
    (hy : y.toNat + 8 ≤ 200) (hs : ∀ b ∈ str, b.toNat < 128) (hf : fg.toNat < 4) (hb : bg.toNat < 4) :
    ∃ m', drawStr font m x y fg bg str = some m' ∧
      (∀ px py, OnScreen px py →
        (InText x.toNat y.toNat str.length px py → readPixel m' px py = some (textCol font x.toNat y.toNat fg bg str px py)) ∧
        (¬ InText x.toNat y.toNat str.length px py → readPixel m' px py = readPixel m px py)) ∧
      ∀ a, 0x4000 ≤ a → a < 0x10000 → m'.get a = m.get a := by
  induction str generalizing m x with
  | nil => exact ⟨m, rfl, fun px py _ => ⟨fun ⟨a, b, _⟩ => by simp only [List.length_nil] at b; omega, fun _ => rfl⟩, fun _ _ _ => rfl⟩
  | cons ch str ih =>
    simp only [List.length_cons] at hx
    obtain ⟨m1, e1, r1, f1⟩ := SwarText.char_ok font m x y fg bg ch (by omega) hy (hs ch (by simp)) hf hb
    have ex : (x + 8).toNat = x.toNat + 8 := by
      rw [BitVec.toNat_add, show (8 : Word).toNat = 8 from rfl]; omega
    obtain ⟨m2, e2, r2, f2⟩ := ih m1 (x + 8) (by omega) (fun b hb => hs b (by simp [hb]))
    refine ⟨m2, by rw [drawStr, e1]; exact e2, fun px py os => ?_, fun a a1 a2 => by rw [f2 a a1 a2, f1 a a1 a2]⟩
    obtain ⟨a, b⟩ := r2 px py os
    obtain ⟨c, d⟩ := r1 px py os
    rw [ex] at a b
    by_cases first : InText x.toNat y.toNat 1 px py
    · have no : ¬ InText (x.toNat + 8) y.toNat str.length px py := by
        rintro ⟨h1, _⟩; have := first.2.1; omega
      have i0 : (px.toNat - x.toNat) / 8 = 0 := by have := first.1; have := first.2.1; omega
      rw [b no, c first]
      refine ⟨fun _ => ?_, fun hn => absurd ⟨first.1, by have := first.2.1; simp only [List.length_cons]; omega, first.2.2⟩ hn⟩
      simp only [textCol, i0, List.getD_cons_zero]
    · by_cases rest : InText (x.toNat + 8) y.toNat str.length px py
      · obtain ⟨h1, h2, h3, h4⟩ := rest
        rw [a ⟨h1, h2, h3, h4⟩]
        refine ⟨fun _ => ?_, fun hn => absurd ⟨by omega, by simp only [List.length_cons]; omega, h3, h4⟩ hn⟩
        have i1 : (px.toNat - x.toNat) / 8 = (px.toNat - (x.toNat + 8)) / 8 + 1 := by omega
        have i2 : (px.toNat - x.toNat) % 8 = (px.toNat - (x.toNat + 8)) % 8 := by omega
        simp only [textCol, i1, i2, List.getD_cons_succ]
      · rw [b rest, d first]
        refine ⟨fun ⟨h1, h2, h3, h4⟩ => ?_, fun _ => rfl⟩
        simp only [List.length_cons] at h2
        by_cases q : px.toNat < x.toNat + 8
        · exact absurd ⟨h1, by omega, h3, h4⟩ first
        · exact absurd ⟨by omega, by omega, h3, h4⟩ rest

/-- The line with the angle in degrees and the power. -/
def infoLine (degrees pow : Nat) : List Byte :=
  asc "Ang " ++ padLeft (chr ' ') 3 (decimal degrees) ++ asc "  Pwr " ++ padLeft (chr ' ') 3 (decimal pow)

theorem SwarText.pad3 : ∀ n : Fin 181, (padLeft (chr ' ') 3 (decimal n.val)).length = 3 ∧ ∀ b ∈ padLeft (chr ' ') 3 (decimal n.val), b.toNat < 128 := by
  decide +kernel

theorem SwarText.lits (l : List Byte) (h : ∀ b ∈ l, b ≠ 0 ∧ b ≠ chr '%') :
    (∀ p ∈ l.map Piece.lit, p.Ok) ∧ (l.map Piece.lit).flatMap Piece.text = l ∧ (l.map Piece.lit).flatMap Piece.args = [] ∧
      ∀ strAt, (l.map Piece.lit).flatMap (Piece.out strAt) = l := by
  induction l with
  | nil => simp
  | cons b l ih =>
    obtain ⟨a, c, d, e⟩ := ih (fun b hb => h b (by simp [hb]))
    refine ⟨fun p hp => ?_, ?_, ?_, fun strAt => ?_⟩
    · rcases List.mem_cons.1 hp with rfl | hp
      · exact h b (by simp)
      · exact a p hp
    · rw [List.map_cons, List.flatMap_cons, c]; rfl
    · rw [List.map_cons, List.flatMap_cons, d]; rfl
    · rw [List.map_cons, List.flatMap_cons, e]; rfl

theorem SwarText.dec3 (v : Word) (h : 0 ≤ v.toInt) : (Piece.dec 0 3 false v).Ok ∧ (Piece.dec 0 3 false v).text = asc "%3d" ∧
    ∀ strAt, (Piece.dec 0 3 false v).out strAt = padLeft (chr ' ') 3 (decimal v.toInt.toNat) := by
  refine ⟨⟨by omega, by omega⟩, by simp only [Piece.text]; decide, fun strAt => ?_⟩
  simp only [Piece.out, if_true, signed]
  rw [if_neg (by omega), if_neg (by decide), show v.toInt.natAbs = v.toInt.toNat by omega, List.nil_append]

theorem SwarText.info_fmt (v w : Word) (hv : 0 ≤ v.toInt) (hw : 0 ≤ w.toInt) :
    Lib.vsprintf (fun _ => []) infoFmt [v, w] = some (infoLine v.toInt.toNat w.toInt.toNat) := by
  obtain ⟨a1, a2, a3, a4⟩ := SwarText.lits (asc "Ang ") (by decide)
  obtain ⟨b1, b2, b3, b4⟩ := SwarText.lits (asc "  Pwr ") (by decide)
  obtain ⟨c1, c2, c3⟩ := SwarText.dec3 v hv
  obtain ⟨d1, d2, d3⟩ := SwarText.dec3 w hw
  have := C17_vsprintf (fun _ => []) ((asc "Ang ").map Piece.lit ++ [Piece.dec 0 3 false v] ++ (asc "  Pwr ").map Piece.lit ++ [Piece.dec 0 3 false w]) (by
    intro p hp
    simp only [List.mem_append, List.mem_singleton] at hp
    rcases hp with ((hp | rfl) | hp) | rfl
    · exact a1 p hp
    · exact c1
    · exact b1 p hp
    · exact d1)
  simp only [List.flatMap_append, List.flatMap_cons, List.flatMap_nil, List.append_nil, a2, a3, a4, b2, b3, b4, c2, c3, d2, d3,
    List.nil_append, Piece.args, List.cons_append] at this
  rw [show infoFmt = asc "Ang " ++ asc "%3d" ++ asc "  Pwr " ++ asc "%3d" from by decide]
  exact this

/-- C56: `ShowTankInfo` shows the angle in degrees (128 is 180) and the power of every tank there can be (C46) in the upper left corner; its buffer is not
overrun, the text has 16 characters, and nothing else on the screen changes. -/
theorem C56_info (font : Word → Byte) (m : Mem 16) (ang pow c : Word) (ha : ang.toNat ≤ 128) (hp : pow.toNat ≤ 100) (hc : c.toNat < 4) :
    let line := infoLine (ang.toNat * 180 / 128) pow.toNat
    line.length = 16 ∧ ∃ m', showTankInfo font m ang pow c = some m' ∧
      (∀ px py, OnScreen px py →
        (InText 0 0 16 px py → readPixel m' px py = some (textCol font 0 0 c 0 line px py)) ∧
        (¬ InText 0 0 16 px py → readPixel m' px py = readPixel m px py)) ∧
      ∀ a, 0x4000 ≤ a → a < 0x10000 → m'.get a = m.get a := by
  have hl : ∃ line, line = infoLine (ang.toNat * 180 / 128) pow.toNat := ⟨_, rfl⟩
  obtain ⟨line, hl⟩ := hl
  simp only [← hl]
  obtain ⟨p1, q1⟩ := SwarText.pad3 ⟨ang.toNat * 180 / 128, by omega⟩
  obtain ⟨p2, q2⟩ := SwarText.pad3 ⟨pow.toNat, by omega⟩
  simp only at p1 q1 p2 q2
  have len : line.length = 16 := by
    have e1 : (asc "Ang ").length = 4 := by decide
    have e2 : (asc "  Pwr ").length = 6 := by decide
    simp only [hl, infoLine, List.length_append, p1, p2, e1, e2]
  have ascii : ∀ b ∈ line, b.toNat < 128 := by
    have e1 : ∀ b ∈ asc "Ang ", b.toNat < 128 := by decide
    have e2 : ∀ b ∈ asc "  Pwr ", b.toNat < 128 := by decide
    intro b hb
    simp only [hl, infoLine, List.mem_append] at hb
    rcases hb with ((hb | hb) | hb) | hb
    · exact e1 b hb
    · exact q1 b hb
    · exact e2 b hb
    · exact q2 b hb
  have ea : ((ang * 180).sshiftRight 7).toInt = (ang.toNat * 180 / 128 : Nat) := by
    have e : (ang * 180).toNat = ang.toNat * 180 := by
      rw [BitVec.toNat_mul, show (180 : Word).toNat = 180 from rfl]; omega
    rw [BitVec.toInt_sshiftRight, Int.shiftRight_eq_div_pow, word_toInt_small (by omega), e]
    omega
  have ep : pow.toInt = pow.toNat := word_toInt_small (by omega)
  have es : sprintf32 infoFmt [(ang * 180).sshiftRight 7, pow] = some line := by
    have := SwarText.info_fmt ((ang * 180).sshiftRight 7) pow (by omega) (by omega)
    rw [ea, ep, Int.toNat_natCast, Int.toNat_natCast, ← hl] at this
    rw [sprintf32, this, Option.bind_some, if_pos (by omega)]
  refine ⟨len, ?_⟩
  rw [showTankInfo, es, Option.bind_some]
  have := C56_text font m 0 0 c 0 line (by rw [len]; decide) (by decide) ascii hc (by decide)
  rw [len] at this
  exact this

example : (96 : Word).toNat ≤ 128 ∧ (100 : Word).toNat ≤ 100 ∧ infoLine (96 * 180 / 128) 100 = asc "Ang 135  Pwr 100" := by decide

/-- C56: when tank 1 (colour 2) is hit, `Player 2 wins!` appears in the middle of the screen in the colour of tank 2 (3), and the other way round;
nothing else changes. -/
theorem C56_winner (font : Word → Byte) (m : Mem 16) (hit : Word) (h : hit = 2 ∨ hit = 3) :
    let line := if hit = 2 then asc "Player 2 wins!" else asc "Player 1 wins!"
    let colour : Word := if hit = 2 then 3 else 2
    ∃ m', showWinner font m hit = some m' ∧
      (∀ px py, OnScreen px py →
        (InText 104 96 14 px py → readPixel m' px py = some (textCol font 104 96 colour 0 line px py)) ∧
        (¬ InText 104 96 14 px py → readPixel m' px py = readPixel m px py)) ∧
      ∀ a, 0x4000 ≤ a → a < 0x10000 → m'.get a = m.get a := by
  have key : ∀ (hit colour : Word) (line : List Byte), sprintf32 winFmt [4 - hit] = some line → line.length = 14 → (∀ b ∈ line, b.toNat < 128) →
      hit ^^^ 1 = colour → colour.toNat < 4 → ∃ m', showWinner font m hit = some m' ∧
      (∀ px py, OnScreen px py →
        (InText 104 96 14 px py → readPixel m' px py = some (textCol font 104 96 colour 0 line px py)) ∧
        (¬ InText 104 96 14 px py → readPixel m' px py = readPixel m px py)) ∧
      ∀ a, 0x4000 ≤ a → a < 0x10000 → m'.get a = m.get a := by
    intro hit colour line es len ascii ec hc
    have := C56_text font m 104 96 colour 0 line (by rw [len]; decide) (by decide) ascii hc (by decide)
    rw [len] at this
    rw [showWinner, es, Option.bind_some, len, ec, show (320 - 8 * BitVec.ofNat 16 14 : Word).sdiv 2 = 104 from by decide,
      show (200 : Word).sdiv 2 - 4 = 96 from by decide]
    exact this
  rcases h with rfl | rfl
  · exact key 2 3 _ (by decide +kernel) (by decide) (by decide) (by decide) (by decide)
  · exact key 3 2 _ (by decide +kernel) (by decide) (by decide) (by decide) (by decide)

example : (104 : Word).toNat + 8 * (asc "Player 2 wins!").length ≤ 320 := by decide

end Props
