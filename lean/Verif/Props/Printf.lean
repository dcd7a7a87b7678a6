import Verif.Lib.Printf
import Verif.Util.Text
/-!
# C17: `vsprintf`

The specification describes a format as a list of pieces, with the text each piece stands for in the format, the arguments it
takes and the text it has to produce; numerals are those of Lean's library (`Nat.toDigits`).
-/
namespace Props
open I86 Lib Text

/-- A piece of a format.  `zeros` is the number of `0`s that follow the `%`, `width` the field width (0: none given). -/
inductive Piece
  | lit (b : Byte)
  | other (zeros width : Nat) (b : Byte)
  | str (zeros width : Nat) (p : Word)
  | char (zeros width : Nat) (v : Word)
  | dec (zeros width : Nat) (plus : Bool) (v : Word)
  | hex (zeros width : Nat) (upper : Bool) (v : Word)

/-- The numbers between `%` and the directive. -/
def numbers (zeros width : Nat) : List Byte :=
  List.replicate zeros 0x30 ++ if width = 0 then [] else decimal width

/-- How a piece is written in the format. -/
def Piece.text : Piece → List Byte
  | .lit b => [b]
  | .other z w b => chr '%' :: numbers z w ++ [b]
  | .str z w _ => chr '%' :: numbers z w ++ [chr 's']
  | .char z w _ => chr '%' :: numbers z w ++ [chr 'c']
  | .dec z w plus _ => chr '%' :: numbers z w ++ (if plus then [chr '+', chr 'd'] else [chr 'd'])
  | .hex z w upper _ => chr '%' :: numbers z w ++ [if upper then chr 'X' else chr 'x']

/-- The argument a piece takes. -/
def Piece.args : Piece → List Word
  | .lit _ => []
  | .other _ _ _ => []
  | .str _ _ p => [p]
  | .char _ _ v => [v]
  | .dec _ _ _ v => [v]
  | .hex _ _ _ v => [v]

/-- `l` padded on the left to `width` with `fill`. -/
def padLeft (fill : Byte) (width : Nat) (l : List Byte) : List Byte := List.replicate (width - l.length) fill ++ l

/-- The numeral of a signed number; `plus` asks for a sign in any case. -/
def signed (plus : Bool) (v : Int) : List Byte :=
  (if v < 0 then [chr '-'] else if plus then [chr '+'] else []) ++ decimal v.natAbs

/-- The `k` low hexadecimal digits of `n`, upper case. -/
def hexDigits (n : Nat) : Nat → List Byte
  | 0 => []
  | k + 1 => hexDigits (n / 16) k ++ [chr (Nat.digitChar (n % 16)).toUpper]

/-- What a piece must produce. -/
def Piece.out (strAt : Word → List Byte) : Piece → List Byte
  | .lit b => [b]
  | .other _ _ b => [b]
  | .str _ _ p => strAt p
  | .char _ _ v => [v.setWidth 8]
  | .dec z w plus v => padLeft (if z = 0 then chr ' ' else chr '0') w (signed plus v.toInt)
  | .hex _ w _ v => hexDigits v.toNat (if w = 0 then 4 else w)

/-- What a format may contain: no NUL, widths that fit an `int`, at most four hexadecimal digits, and not −32768. -/
def Piece.Ok : Piece → Prop
  | .lit b => b ≠ 0 ∧ b ≠ chr '%'
  | .other _ w b => w < 32768 ∧ b ≠ 0 ∧ ¬ IsDigit b ∧ b ≠ chr '+' ∧ ∀ c ∈ "scdxX".toList, b ≠ chr c
  | .str _ w _ => w < 32768
  | .char _ w _ => w < 32768
  | .dec _ w _ v => w < 32768 ∧ v.toInt ≠ -32768
  | .hex _ w _ _ => w ≤ 4

/-! ## Lemmas -/

theorem digit_sext : ∀ k : Fin 10, (BitVec.ofNat 8 (0x30 + k.val)).signExtend 16 = BitVec.ofNat 16 (0x30 + k.val) ∧
    0x30 ≤ (BitVec.ofNat 8 (0x30 + k.val)).toInt ∧ (BitVec.ofNat 8 (0x30 + k.val)).toInt ≤ 0x39 := by decide

theorem fmtWidth_digit {n : Nat} (hn : 0 < n) (h : n < 65536) (g : List Byte) (fill : Byte) :
    fmtWidth (BitVec.ofNat 8 (0x30 + n % 10) :: g) (BitVec.ofNat 16 (n / 10)) fill =
      fmtWidth g (BitVec.ofNat 16 n) fill := by
  obtain ⟨e, h1, h2⟩ := digit_sext ⟨n % 10, Nat.mod_lt _ (by decide)⟩
  dsimp only at e h1 h2
  have hne : ¬ (BitVec.ofNat 16 (n / 10) = 0 ∧ BitVec.ofNat 8 (0x30 + n % 10) = 0x30) := by
    rintro ⟨a, b⟩
    have a := congrArg BitVec.toNat a
    have b := congrArg BitVec.toNat b
    rw [digit_toNat (Nat.mod_lt _ (by decide))] at b
    simp at a b
    omega
  have e2 : BitVec.ofNat 16 (n / 10) * 10 + BitVec.ofNat 16 (0x30 + n % 10) - 0x30 = BitVec.ofNat 16 n := by
    apply BitVec.eq_of_toNat_eq
    simp only [BitVec.toNat_sub, BitVec.toNat_add, BitVec.toNat_mul, BitVec.toNat_ofNat,
      show (10 : Word).toNat = 10 from rfl, show (0x30 : Word).toNat = 0x30 from rfl]
    omega
  rw [fmtWidth, if_neg hne, if_pos ⟨h1, h2⟩, e, e2]

theorem fmtWidth_decimal {n : Nat} (hn : 0 < n) (h : n < 65536) (g : List Byte) (fill : Byte) :
    fmtWidth (decimal n ++ g) 0 fill = fmtWidth g (BitVec.ofNat 16 n) fill := by
  induction n using Nat.strongRecOn generalizing g with
  | _ n ih =>
    by_cases h10 : n < 10
    · have := fmtWidth_digit hn h g fill
      rw [show n / 10 = 0 by omega, show n % 10 = n by omega] at this
      rw [decimal_lt h10]
      exact this
    · rw [decimal_ge (by omega), List.append_assoc, ih (n / 10) (by omega) (by omega) (by omega)]
      exact fmtWidth_digit hn h g fill

theorem fmtWidth_zeros (z : Nat) (g : List Byte) (fill : Byte) :
    fmtWidth (List.replicate z 0x30 ++ g) 0 fill = fmtWidth g 0 (if z = 0 then fill else 0x30) := by
  induction z generalizing fill with
  | zero => rfl
  | succ z ih =>
    rw [List.replicate_succ, List.cons_append, fmtWidth, if_pos ⟨rfl, rfl⟩, ih]
    simp

theorem not_digit_int {b : Byte} (h : ¬ IsDigit b) : ¬ (0x30 ≤ b.toInt ∧ b.toInt ≤ 0x39) := by
  unfold IsDigit at h
  intro hc
  have := b.isLt
  rw [BitVec.toInt_eq_toNat_cond] at hc
  split at hc <;> omega

theorem fmtWidth_numbers (z w : Nat) (hw : w < 65536) (ch : Byte) (hch : ¬ IsDigit ch) (g : List Byte) :
    fmtWidth (numbers z w ++ ch :: g) 0 0x20 =
      some (ch, g, BitVec.ofNat 16 w, if z = 0 then chr ' ' else chr '0') := by
  have last : ∀ (w : Word) (fill : Byte), fmtWidth (ch :: g) w fill = some (ch, g, w, fill) := by
    intro w fill
    rw [fmtWidth, if_neg, if_neg (not_digit_int hch)]
    rintro ⟨-, rfl⟩
    exact hch (by decide)
  unfold numbers
  rw [List.append_assoc, fmtWidth_zeros]
  by_cases h0 : w = 0
  · subst h0
    rw [if_pos rfl, List.nil_append, last]; rfl
  · rw [if_neg h0, fmtWidth_decimal (by omega) hw, last]; rfl

theorem sdiv_ten {n : Word} (h : n.toNat < 32768) :
    (n.sdiv 10).toNat = n.toNat / 10 ∧ (n.srem 10).toNat = n.toNat % 10 := by
  have hm : n.msb = false := by rw [BitVec.msb_eq_false_iff_two_mul_lt]; omega
  rw [BitVec.sdiv_eq, BitVec.srem_eq, hm, show (10 : Word).msb = false by decide]
  exact ⟨by simp [BitVec.udiv_eq, BitVec.toNat_udiv], by simp [BitVec.toNat_umod]⟩

theorem fmtDigits_decimal (k : Nat) (n : Word) (h : n.toNat < 32768) (room : Nat) (buf : List Byte) (w : Word)
    (hk : k = (decimal n.toNat).length) (hr : k ≤ room) :
    fmtDigits room n buf w = some (room - k, decimal n.toNat ++ buf, w - BitVec.ofNat 16 k) := by
  induction k generalizing n room buf w with
  | zero => exact absurd (List.length_eq_zero_iff.mp hk.symm) (decimal_ne_nil _)
  | succ k ih =>
    obtain ⟨room, rfl⟩ : ∃ r, room = r + 1 := ⟨room - 1, by omega⟩
    obtain ⟨ed, er⟩ := sdiv_ten h
    have e1 : (0x30 + n.srem 10).setWidth 8 = BitVec.ofNat 8 (0x30 + n.toNat % 10) := by
      apply BitVec.eq_of_toNat_eq
      simp only [BitVec.toNat_setWidth, BitVec.toNat_add, er, BitVec.toNat_ofNat, show (0x30 : Word).toNat = 0x30 from rfl]
      omega
    have ez : n.sdiv 10 = 0 ↔ n.toNat < 10 := by
      constructor
      · intro hz; rw [hz] at ed; simp at ed; omega
      · intro hz; apply BitVec.eq_of_toNat_eq; rw [ed]; simp; omega
    simp only [fmtDigits, e1]
    by_cases h10 : n.toNat < 10
    · rw [if_pos (ez.mpr h10)]
      rw [decimal_lt h10] at hk ⊢
      simp at hk
      subst hk
      rw [show n.toNat % 10 = n.toNat by omega]
      rfl
    · rw [if_neg (fun hz => h10 (ez.mp hz))]
      have hk' := hk
      rw [decimal_ge (by omega)] at hk' ⊢
      simp only [List.length_append, List.length_singleton] at hk'
      rw [ih (n.sdiv 10) (by omega) room _ _ (by rw [ed]; omega) (by omega), ed]
      simp only [List.append_assoc, List.cons_append, List.nil_append, Option.some.injEq, Prod.mk.injEq, true_and]
      refine ⟨by omega, ?_⟩
      apply BitVec.eq_of_toNat_eq
      simp only [BitVec.toNat_sub, BitVec.toNat_ofNat, show (1 : Word).toNat = 1 from rfl]
      omega

theorem neg_toNat {v : Word} (h : v.toInt < 0) (hv : v.toInt ≠ -32768) :
    (-v).toNat = v.toInt.natAbs ∧ v.toInt.natAbs < 32768 := by
  have := v.isLt
  rw [BitVec.toInt_eq_toNat_cond] at h hv ⊢
  rw [BitVec.toNat_neg]
  split at h <;> simp_all <;> omega

theorem pos_toNat {v : Word} (h : ¬ v.toInt < 0) : v.toNat = v.toInt.natAbs ∧ v.toInt.natAbs < 32768 := by
  have := v.isLt
  rw [BitVec.toInt_eq_toNat_cond] at h ⊢
  split at h <;> simp_all <;> omega

theorem pad_eq {w k : Nat} (hw : w < 32768) (hk : k ≤ 8) :
    (BitVec.ofNat 16 w - BitVec.ofNat 16 k).toInt.toNat = w - k := by
  rw [BitVec.toInt_eq_toNat_cond, BitVec.toNat_sub, BitVec.toNat_ofNat, BitVec.toNat_ofNat]
  split <;> omega

theorem fmtDec_ok (w : Nat) (hw : w < 32768) (plus : Bool) (v : Word) (hv : v.toInt ≠ -32768) (fill : Byte) :
    fmtDec v (BitVec.ofNat 16 w) fill plus = some (padLeft fill w (signed plus v.toInt)) := by
  have key : ∀ n : Word, n.toNat = v.toInt.natAbs → v.toInt.natAbs < 32768 →
      ∃ k, k = (decimal v.toInt.natAbs).length ∧ k ≤ 5 ∧
        fmtDigits 8 n [] (BitVec.ofNat 16 w) =
          some (8 - k, decimal v.toInt.natAbs, BitVec.ofNat 16 w - BitVec.ofNat 16 k) := by
    intro n hn hl
    have h5 : (decimal v.toInt.natAbs).length ≤ 5 := (decimal_length (by decide)).mpr (by omega)
    refine ⟨_, rfl, h5, ?_⟩
    rw [fmtDigits_decimal _ n (by omega) 8 [] _ rfl (by rw [hn]; omega), hn, List.append_nil]
  have e1 : ∀ k : Nat, BitVec.ofNat 16 w - BitVec.ofNat 16 k - 1 = BitVec.ofNat 16 w - BitVec.ofNat 16 (k + 1) := by
    intro k
    apply BitVec.eq_of_toNat_eq
    simp only [BitVec.toNat_sub, BitVec.toNat_ofNat, show (1 : Word).toNat = 1 from rfl]
    omega
  unfold fmtDec padLeft signed
  by_cases hs : v.toInt < 0
  · obtain ⟨hn, hl⟩ := neg_toNat hs hv
    obtain ⟨k, hk, h5, e⟩ := key (-v) hn hl
    simp only [hs, if_true, e]
    rw [if_neg (by omega), e1, pad_eq hw (by omega), hk]
    simp [chr]
  · obtain ⟨hn, hl⟩ := pos_toNat hs
    obtain ⟨k, hk, h5, e⟩ := key v hn hl
    simp only [hs, if_false, e]
    cases plus
    · simp only [Bool.false_eq_true, if_false, pad_eq hw (show k ≤ 8 by omega), List.nil_append]
      rw [hk]
    · simp only [if_true]
      rw [if_neg (by omega), e1, pad_eq hw (by omega), hk]
      simp [chr]

theorem hexD_upper : ∀ k : Fin 16, hexD k.val = chr (Nat.digitChar k.val).toUpper := by decide

theorem hexDigits_succ (n k : Nat) :
    hexDigits n (k + 1) = chr (Nat.digitChar (n / 16 ^ k % 16)).toUpper :: hexDigits n k := by
  induction k generalizing n with
  | zero => simp [hexDigits]
  | succ k ih =>
    rw [hexDigits, ih (n / 16), Nat.div_div_eq_div_mul, ← Nat.pow_succ']
    rfl

theorem sar_nibble (v : Word) (i : Nat) (hi : i < 4) :
    ((v.sshiftRight (i * 4)) &&& 0xf).toNat = v.toNat / 16 ^ i % 16 := by
  have e : (v.sshiftRight (i * 4)) &&& 0xf = (v >>> (i * 4)) &&& 0xf := by
    ext j hj
    have hm : ∀ j : Nat, (0xf : Word).getLsbD j = decide (j < 4) ∨ 16 ≤ j := by
      intro j
      by_cases h : j < 16
      · left
        have : ∀ j : Fin 16, (0xf : Word).getLsbD j = decide (j.val < 4) := by decide
        exact this ⟨j, h⟩
      · right; omega
    rw [← BitVec.getLsbD_eq_getElem, ← BitVec.getLsbD_eq_getElem]
    simp only [BitVec.getLsbD_and, BitVec.getLsbD_sshiftRight, BitVec.getLsbD_ushiftRight]
    rcases hm j with h | h
    · rw [h]
      by_cases hj4 : j < 4
      · have : i * 4 + j < 16 := by omega
        simp only [this, if_true]
        have h16 : ¬ 16 ≤ j := by omega
        simp [h16]
      · simp [hj4]
    · omega
  rw [e, BitVec.toNat_and, BitVec.toNat_ushiftRight, show (0xf : Word).toNat = 2 ^ 4 - 1 from rfl,
    Nat.and_two_pow_sub_one_eq_mod, Nat.shiftRight_eq_div_pow, show 16 ^ i = 2 ^ (i * 4) by
      rw [show (16 : Nat) = 2 ^ 4 from rfl, ← Nat.pow_mul, Nat.mul_comm]]

theorem fmtHexLoop_ok (v : Word) (k : Nat) (hk : k ≤ 4) : fmtHexLoop v k = some (hexDigits v.toNat k) := by
  induction k with
  | zero => rfl
  | succ k ih =>
    rw [fmtHexLoop, if_neg (by omega), ih (by omega), hexDigits_succ, sar_nibble v k (by omega)]
    have := hexD_upper ⟨v.toNat / 16 ^ k % 16, Nat.mod_lt _ (by decide)⟩
    simp only [Option.map_some, this]

theorem fmtHex_ok (w : Nat) (hw : w ≤ 4) (v : Word) :
    fmtHex v (BitVec.ofNat 16 w) = some (hexDigits v.toNat (if w = 0 then 4 else w)) := by
  unfold fmtHex
  have : w = 0 ∨ w = 1 ∨ w = 2 ∨ w = 3 ∨ w = 4 := by omega
  rcases this with rfl | rfl | rfl | rfl | rfl <;> exact fmtHexLoop_ok v _ (by decide)

theorem piece_step (strAt : Word → List Byte) (p : Piece) (hp : p.Ok) (fuel : Nat) (g : List Byte) (as : List Word) :
    vsprintfLoop strAt (fuel + 1) (p.text ++ g) (p.args ++ as) =
      (vsprintfLoop strAt fuel g as).map (p.out strAt ++ ·) := by
  have go : ∀ (f : List Byte) (args : List Word) (out : List Byte),
      directive strAt f args = some (out, g, as) →
      vsprintfLoop strAt (fuel + 1) (chr '%' :: f) args = (vsprintfLoop strAt fuel g as).map (out ++ ·) := by
    intro f args out h
    rw [vsprintfLoop, if_neg (by decide), h]
  cases p with
  | lit b =>
    have : b ≠ 0x25 := hp.2
    simp only [Piece.text, Piece.args, List.cons_append, List.nil_append, vsprintfLoop]
    rw [if_pos this]; rfl
  | other z w b =>
    obtain ⟨hw, -, hd, hplus, hb⟩ := hp
    simp only [Piece.text, Piece.args, List.cons_append, List.nil_append, List.append_assoc]
    refine go _ _ _ ?_
    rw [directive, fmtWidth_numbers z w (by omega) b hd]
    have h1 : b ≠ 0x73 := hb 's' (by decide)
    have h2 : b ≠ 0x63 := hb 'c' (by decide)
    have h3 : b ≠ 0x64 := hb 'd' (by decide)
    have h4 : b ≠ 0x78 := hb 'x' (by decide)
    have h5 : b ≠ 0x58 := hb 'X' (by decide)
    dsimp only
    rw [if_neg h1, if_neg h2, if_neg, if_neg]
    · rfl
    · rintro (h | h)
      · exact h4 h
      · exact h5 h
    · rintro (h | h)
      · exact hplus h.1
      · exact h3 h
  | str z w a =>
    simp only [Piece.Ok] at hp
    simp only [Piece.text, Piece.args, List.cons_append, List.nil_append, List.append_assoc]
    refine go _ _ _ ?_
    rw [directive, fmtWidth_numbers z w (by omega) (chr 's') (by decide)]
    rfl
  | char z w a =>
    simp only [Piece.Ok] at hp
    simp only [Piece.text, Piece.args, List.cons_append, List.nil_append, List.append_assoc]
    refine go _ _ _ ?_
    rw [directive, fmtWidth_numbers z w (by omega) (chr 'c') (by decide)]
    rfl
  | dec z w plus v =>
    obtain ⟨hw, hv⟩ := hp
    simp only [Piece.text, Piece.args, List.cons_append, List.nil_append, List.append_assoc]
    refine go _ _ _ ?_
    cases plus
    · simp only [Bool.false_eq_true, if_false, List.cons_append, List.nil_append]
      rw [directive, fmtWidth_numbers z w (by omega) (chr 'd') (by decide)]
      have := fmtDec_ok w hw false v hv (if z = 0 then chr ' ' else chr '0')
      dsimp only
      rw [if_neg (by decide), if_neg (by decide), if_pos (Or.inr (by decide)),
        show (decide (chr 'd' = (0x2b : Byte))) = false by decide, this]
      rfl
    · simp only [if_true, List.cons_append, List.nil_append]
      rw [directive, fmtWidth_numbers z w (by omega) (chr '+') (by decide)]
      have := fmtDec_ok w hw true v hv (if z = 0 then chr ' ' else chr '0')
      dsimp only
      rw [if_neg (by decide), if_neg (by decide), if_pos (Or.inl ⟨by decide, rfl⟩),
        show (decide (chr '+' = (0x2b : Byte))) = true by decide, this]
      rfl
  | hex z w upper v =>
    simp only [Piece.Ok] at hp
    simp only [Piece.text, Piece.args, List.cons_append, List.nil_append, List.append_assoc]
    refine go _ _ _ ?_
    have := fmtHex_ok w hp v
    cases upper
    · simp only [Bool.false_eq_true, if_false]
      rw [directive, fmtWidth_numbers z w (by omega) (chr 'x') (by decide)]
      dsimp only
      rw [if_neg (by decide), if_neg (by decide), if_neg (by simp [chr]), if_pos (by decide), this]
      rfl
    · simp only [if_true]
      rw [directive, fmtWidth_numbers z w (by omega) (chr 'X') (by decide)]
      dsimp only
      rw [if_neg (by decide), if_neg (by decide), if_neg (by simp [chr]), if_pos (by decide), this]
      rfl

/-! ## The property -/

/-- C17: for every format made of pieces and every argument list, `vsprintf` writes what the pieces ask for: the decimal
numeral of the argument padded to the width, the hexadecimal numeral, the string, the character, everything else verbatim. -/
theorem C17_vsprintf (strAt : Word → List Byte) (ps : List Piece) (h : ∀ p ∈ ps, p.Ok) :
    vsprintf strAt (ps.flatMap Piece.text) (ps.flatMap Piece.args) = some (ps.flatMap (Piece.out strAt)) := by
  have main : ∀ fuel, ps.length < fuel → vsprintfLoop strAt fuel (ps.flatMap Piece.text) (ps.flatMap Piece.args) =
      some (ps.flatMap (Piece.out strAt)) := by
    intro fuel hf
    induction ps generalizing fuel with
    | nil => obtain ⟨f, rfl⟩ : ∃ f, fuel = f + 1 := ⟨fuel - 1, by simp at hf; omega⟩; rfl
    | cons p ps ih =>
      obtain ⟨f, rfl⟩ : ∃ f, fuel = f + 1 := ⟨fuel - 1, by omega⟩
      simp only [List.flatMap_cons]
      rw [piece_step strAt p (h p (by simp)), ih (fun q hq => h q (by simp [hq])) f (by simp at hf; omega)]
      rfl
  refine main _ ?_
  have : ps.length ≤ (ps.flatMap Piece.text).length := by
    clear main h
    induction ps with
    | nil => simp
    | cons p ps ih =>
      simp only [List.flatMap_cons, List.length_append, List.length_cons]
      have : 1 ≤ p.text.length := by cases p <;> simp [Piece.text]
      omega
  omega

/-- Reading a decimal numeral with an optional sign and leading blanks, as `atoi` does. -/
def readInt (l : List Byte) : Int :=
  match l.dropWhile (· == chr ' ') with
  | [] => 0
  | b :: l => if b = chr '-' then -(decVal l : Int) else if b = chr '+' then decVal l else decVal (b :: l)

theorem dropWhile_pad (k : Nat) (l : List Byte) (h : l.head? ≠ some (chr ' ')) :
    (List.replicate k (chr ' ') ++ l).dropWhile (· == chr ' ') = l := by
  induction k with
  | zero =>
    cases l with
    | nil => rfl
    | cons b l =>
      have : b ≠ chr ' ' := fun e => h (by rw [e]; rfl)
      simp [this]
  | succ k ih => rw [List.replicate_succ, List.cons_append, List.dropWhile_cons_of_pos (by simp), ih]

/-- C17: what `%d` writes with blanks as padding reads back as the argument. -/
theorem C17_readback (strAt : Word → List Byte) (w : Nat) (plus : Bool) (v : Word) (h : (Piece.dec 0 w plus v).Ok) :
    ∃ out, vsprintf strAt (Piece.dec 0 w plus v).text [v] = some out ∧ readInt out = v.toInt ∧ w ≤ out.length := by
  have hv := C17_vsprintf strAt [.dec 0 w plus v] (by simpa using h)
  simp only [List.flatMap_cons, List.flatMap_nil, List.append_nil] at hv
  refine ⟨_, hv, ?_, ?_⟩
  · simp only [Piece.out, padLeft, if_true, readInt]
    have digit : ∀ b ∈ decimal v.toInt.natAbs, b ≠ chr ' ' ∧ b ≠ chr '-' ∧ b ≠ chr '+' := by
      intro b hb
      have := decimal_isDigit b hb
      refine ⟨?_, ?_, ?_⟩ <;> · rintro rfl; exact absurd this (by decide)
    rw [dropWhile_pad]
    · unfold signed
      by_cases hs : v.toInt < 0
      · simp only [hs, if_true, List.cons_append, List.nil_append, decVal_decimal]; omega
      · simp only [hs, if_false]
        cases plus
        · simp only [Bool.false_eq_true, if_false, List.nil_append]
          split
          · next e => exact absurd e (decimal_ne_nil _)
          · next b l e =>
            have := digit b (by rw [e]; simp)
            rw [if_neg this.2.1, if_neg this.2.2, ← e, decVal_decimal]; omega
        · simp only [if_true, List.cons_append, List.nil_append, decVal_decimal]
          rw [if_neg (by decide)]; omega
    · unfold signed
      by_cases hs : v.toInt < 0
      · simp only [hs, if_true, List.cons_append, List.nil_append, List.head?_cons]; decide
      · simp only [hs, if_false]
        cases plus
        · simp only [Bool.false_eq_true, if_false, List.nil_append]
          intro hc
          exact (digit (chr ' ') (List.mem_of_mem_head? hc)).1 rfl
        · simp only [if_true, List.cons_append, List.head?_cons]; decide
  · simp only [Piece.out, padLeft, List.length_append, List.length_replicate]; omega

/-- The value of a string of upper-case hexadecimal digits. -/
def hexVal (l : List Byte) : Nat :=
  l.foldl (fun a b => a * 16 + if b.toNat < 0x41 then b.toNat - 0x30 else b.toNat - 0x37) 0

theorem hexVal_hexDigits (n k : Nat) : hexVal (hexDigits n k) = n % 16 ^ k := by
  have dig : ∀ d : Fin 16, (if (chr (Nat.digitChar d.val).toUpper).toNat < 0x41
      then (chr (Nat.digitChar d.val).toUpper).toNat - 0x30
      else (chr (Nat.digitChar d.val).toUpper).toNat - 0x37) = d.val := by decide
  induction k generalizing n with
  | zero => simp [hexDigits, hexVal, Nat.mod_one]
  | succ k ih =>
    have := ih (n / 16)
    have hd := dig ⟨n % 16, Nat.mod_lt _ (by decide)⟩
    simp only [hexVal] at this
    simp only [hexDigits, hexVal, List.foldl_append, List.foldl_cons, List.foldl_nil, this, hd]
    rw [Nat.pow_succ', Nat.mod_mul]
    omega

/-- C17: what `%x` and `%X` write without a width has four digits and reads back as the argument. -/
theorem C17_hex_readback (strAt : Word → List Byte) (upper : Bool) (v : Word) :
    ∃ out, vsprintf strAt (Piece.hex 0 0 upper v).text [v] = some out ∧ hexVal out = v.toNat ∧ out.length = 4 := by
  have hv := C17_vsprintf strAt [.hex 0 0 upper v] (by simp [Piece.Ok])
  simp only [List.flatMap_cons, List.flatMap_nil, List.append_nil] at hv
  refine ⟨_, hv, ?_, ?_⟩
  · simp only [Piece.out, if_true, hexVal_hexDigits]
    exact Nat.mod_eq_of_lt v.isLt
  · simp [Piece.out, hexDigits]

/-- The code is wrong for −32768, which has no negation in 16 bits: what `%d` writes is not its numeral. -/
theorem C17_min_violated (strAt : Word → List Byte) :
    vsprintf strAt (asc "%d") [0x8000] = some (asc "--.)*(") ∧ asc "--.)*(" ≠ signed false (-32768) := by
  constructor
  · rfl
  · decide

/-- Unlike C's, this `vsprintf` puts the zeros in front of the sign. -/
theorem C17_zero_sign (strAt : Word → List Byte) : vsprintf strAt (asc "%05d") [-3] = some (asc "000-3") := by
  rfl

/-- A width above four makes `%x` shift by more than the word size. -/
theorem C17_hex_width_ub (strAt : Word → List Byte) : vsprintf strAt (asc "%5x") [1] = none := by
  rfl

/-- Pieces meeting the hypotheses of the theorems above, and what they stand for. -/
example : let ps : List Piece := [.lit (chr 'n'), .dec 1 12 false (-345), .other 0 0 (chr '%'), .str 0 0 7, .hex 0 2 true 0xabcd,
      .dec 0 0 true 32767, .char 0 0 65]
    (∀ p ∈ ps, p.Ok) ∧ ps.flatMap Piece.text = asc "n%012d%%%s%2X%+d%c" ∧
      ps.flatMap (Piece.out fun _ => asc "str") = asc "n00000000-345%strCD+32767A" := by
  refine ⟨?_, by decide +kernel, by decide +kernel⟩
  intro p hp
  simp only [List.mem_cons, List.not_mem_nil, or_false] at hp
  rcases hp with rfl | rfl | rfl | rfl | rfl | rfl | rfl <;> simp only [Piece.Ok] <;> decide

end Props
