import Verif.Lib.Console
import Verif.Props.Printf
/-!
# C59: console output

The specification: function 2 of DOS shows the byte in DL; the console gets the text with a CR before every LF.
-/
namespace Props
open I86 I86.Cpu Lib Text

/-- The bytes shown by a list of DOS calls. -/
def shown (cs : List Call) : List Byte :=
  (cs.filter fun c => decide (c.ax.toNat / 256 = 2)).map fun c => c.dx.setWidth 8

/-- A text as DOS wants it. -/
def crlf (t : List Byte) : List Byte := t.flatMap fun b => if b = chr '\n' then [chr '\r', chr '\n'] else [b]

/-- All calls are console output. -/
def OnlyOutput (cs : List Call) : Prop := ∀ c ∈ cs, c.ax.toNat / 256 = 2

namespace Console

theorem shown_append (a b : List Call) : shown (a ++ b) = shown a ++ shown b := by
  simp [shown]

theorem crlf_append (a b : List Byte) : crlf (a ++ b) = crlf a ++ crlf b := by
  simp [crlf]

theorem only_append {a b : List Call} (ha : OnlyOutput a) (hb : OnlyOutput b) : OnlyOutput (a ++ b) := by
  intro c hc
  rcases List.mem_append.mp hc with h | h
  · exact ha c h
  · exact hb c h

theorem putchar_ok : ∀ b : Byte, shown (putchar (b.signExtend 16)) = crlf [b] ∧ OnlyOutput (putchar (b.signExtend 16)) := by
  intro b
  have e : (b.signExtend 16 : Word) = 0x0a ↔ b = chr '\n' := by
    revert b; decide +kernel
  have s : (b.signExtend 16 : Word).setWidth 8 = b := by
    revert b; decide +kernel
  unfold putchar
  by_cases h : b = chr '\n'
  · rw [if_pos (e.mpr h)]
    subst h
    exact ⟨by decide +kernel, by unfold OnlyOutput; decide +kernel⟩
  · rw [if_neg (fun x => h (e.mp x))]
    refine ⟨?_, ?_⟩
    · simp [shown, rawPutchar, crlf, h, s]
    · intro c hc
      simp only [rawPutchar, List.nil_append, List.mem_singleton] at hc
      subst hc
      show (0x200 : Word).toNat / 256 = 2
      decide

end Console
open Console

/-- `PutStr` shows a string up to its NUL, with a CR before every LF, and makes no other call of DOS. -/
theorem C59_putStr (t rest : List Byte) (ht : ∀ b ∈ t, b ≠ 0) :
    ∃ cs, putStr (t ++ 0 :: rest) = some cs ∧ shown cs = crlf t ∧ OnlyOutput cs := by
  induction t with
  | nil => exact ⟨[], rfl, rfl, fun c hc => by cases hc⟩
  | cons b t ih =>
    obtain ⟨cs, h1, h2, h3⟩ := ih fun x hx => ht x (List.mem_cons_of_mem _ hx)
    refine ⟨putchar (b.signExtend 16) ++ cs, ?_, ?_, only_append (putchar_ok b).2 h3⟩
    · rw [List.cons_append, putStr, if_neg (ht b (List.mem_cons_self ..)), h1]
      rfl
    · rw [shown_append, (putchar_ok b).1, h2, ← crlf_append]
      rfl

/-- `puts` shows the string and a line end. -/
theorem C59_puts (t rest : List Byte) (ht : ∀ b ∈ t, b ≠ 0) :
    ∃ cs, puts (t ++ 0 :: rest) = some cs ∧ shown cs = crlf (t ++ [chr '\n']) ∧ OnlyOutput cs := by
  obtain ⟨cs, h1, h2, h3⟩ := C59_putStr t rest ht
  refine ⟨cs ++ putchar 0x0a, ?_, ?_, only_append h3 (putchar_ok 0x0a).2⟩
  · rw [puts, h1]; rfl
  · rw [shown_append, h2, crlf_append]
    exact congrArg _ (putchar_ok 0x0a).1

/-- `printf` shows what the format asks for (see C17), provided it has at most 255 bytes, none of them NUL. -/
theorem C59_printf (strAt : Word → List Byte) (ps : List Piece) (h : ∀ p ∈ ps, p.Ok)
    (hz : ∀ b ∈ ps.flatMap (Piece.out strAt), b ≠ 0) (hl : (ps.flatMap (Piece.out strAt)).length ≤ 255) :
    ∃ cs, printf strAt (ps.flatMap Piece.text) (ps.flatMap Piece.args) = some cs ∧
      shown cs = crlf (ps.flatMap (Piece.out strAt)) ∧ OnlyOutput cs := by
  obtain ⟨cs, h1, h2⟩ := C59_putStr _ [] hz
  refine ⟨cs, ?_, h2⟩
  rw [printf, C17_vsprintf strAt ps h]
  simp only
  rw [if_neg (by omega), h1]

/-- The bound is needed: every longer text overruns `msg`. -/
theorem C59_printf_overflow (strAt : Word → List Byte) (ps : List Piece) (h : ∀ p ∈ ps, p.Ok)
    (hl : 255 < (ps.flatMap (Piece.out strAt)).length) :
    printf strAt (ps.flatMap Piece.text) (ps.flatMap Piece.args) = none := by
  rw [printf, C17_vsprintf strAt ps h]
  simp only
  rw [if_pos (by omega)]

/-- `printf("%cA", 0)` should show two bytes and shows none. -/
theorem C59_printf_nul_violated (strAt : Word → List Byte) :
    (∀ p ∈ [Piece.char 0 0 0, Piece.lit (chr 'A')], p.Ok) ∧
    [Piece.char 0 0 0, Piece.lit (chr 'A')].flatMap (Piece.out strAt) = [0, chr 'A'] ∧
    printf strAt ([Piece.char 0 0 0, Piece.lit (chr 'A')].flatMap Piece.text) ([Piece.char 0 0 0, Piece.lit (chr 'A')].flatMap Piece.args) =
      some [] := by
  have h : ∀ p ∈ [Piece.char 0 0 0, Piece.lit (chr 'A')], p.Ok := by
    intro p hp
    simp only [List.mem_cons, List.not_mem_nil, or_false] at hp
    rcases hp with rfl | rfl
    · show (0 : Nat) < 32768; decide
    · show chr 'A' ≠ 0 ∧ chr 'A' ≠ chr '%'; decide
  refine ⟨h, rfl, ?_⟩
  rw [printf, C17_vsprintf strAt _ h]
  rfl

/-- `exit` calls function 4Ch with the low byte of its argument. -/
theorem C59_exit (r : Word) : (exit r).ax.toNat = 0x4c00 + r.toNat % 256 := by
  revert r
  intro r
  have : (exit r).ax = 0x4c00 + (r.setWidth 8).setWidth 16 := by
    show (r.setWidth 8).setWidth 16 ||| 0x4c00 = _
    generalize r.setWidth 8 = b
    revert b; decide +kernel
  rw [this, BitVec.toNat_add, BitVec.toNat_setWidth, BitVec.toNat_setWidth]
  show (0x4c00 + r.toNat % 256 % 65536) % 65536 = _
  omega

/-- The frames on the stack from `bp` on: each holds the BP of the next one and a return address; the last holds BP 0. -/
inductive Frames (rd : Word → Word) : Word → List (Word × Word) → Prop
  | last {bp : Word} : rd bp = 0 → Frames rd bp []
  | next {bp b r : Word} {fs : List (Word × Word)} : rd bp = b → b ≠ 0 → rd (bp + 2) = r → Frames rd b fs → Frames rd bp ((b, r) :: fs)

/-- The line for a frame. -/
def frameLine (f : Word × Word) : List Byte := hexDigits f.1.toNat 4 ++ [chr ' '] ++ hexDigits f.2.toNat 4 ++ [chr '\n']

namespace Console

theorem digit_ne (k : Nat) : chr (Nat.digitChar (k % 16)).toUpper ≠ 0 := by
  have : ∀ i : Fin 16, chr (Nat.digitChar i.val).toUpper ≠ 0 := by decide +kernel
  exact this ⟨k % 16, Nat.mod_lt _ (by decide)⟩

theorem hex_ne (n k : Nat) : ∀ b ∈ hexDigits n k, b ≠ 0 := by
  induction k generalizing n with
  | zero => intro b hb; cases hb
  | succ k ih =>
    intro b hb
    rw [hexDigits] at hb
    rcases List.mem_append.mp hb with h | h
    · exact ih _ b h
    · rw [List.mem_singleton.mp h]; exact digit_ne n

theorem hex_len (n k : Nat) : (hexDigits n k).length = k := by
  induction k generalizing n with
  | zero => rfl
  | succ k ih => rw [hexDigits, List.length_append, ih]; rfl

theorem frame_ok (strAt : Word → List Byte) (b r : Word) :
    ∃ cs, printf strAt fmtFrame [b, r] = some cs ∧ shown cs = crlf (frameLine (b, r)) ∧ OnlyOutput cs := by
  have e : [Piece.hex 0 0 true b, .lit (chr ' '), .hex 0 0 true r, .lit (chr '\n')].flatMap (Piece.out strAt) = frameLine (b, r) := by
    simp [Piece.out, frameLine]
  have := C59_printf strAt [.hex 0 0 true b, .lit (chr ' '), .hex 0 0 true r, .lit (chr '\n')] ?_ ?_ ?_
  · rw [e] at this
    exact this
  · intro p hp
    simp only [List.mem_cons, List.not_mem_nil, or_false] at hp
    rcases hp with rfl | rfl | rfl | rfl
    · show (0 : Nat) ≤ 4; decide
    · show chr ' ' ≠ 0 ∧ chr ' ' ≠ chr '%'; decide
    · show (0 : Nat) ≤ 4; decide
    · show chr '\n' ≠ 0 ∧ chr '\n' ≠ chr '%'; decide
  · rw [e]
    intro x hx
    simp only [frameLine, List.mem_append, List.mem_singleton] at hx
    rcases hx with ((h | h) | h) | h
    · exact hex_ne _ _ x h
    · rw [h]; decide
    · exact hex_ne _ _ x h
    · rw [h]; decide
  · rw [e]
    simp only [frameLine, List.length_append, hex_len]
    decide

theorem text_ok (strAt : Word → List Byte) (t : List Byte) (h : ∀ b ∈ t, b ≠ 0 ∧ b ≠ chr '%') (hl : t.length ≤ 255) :
    ∃ cs, printf strAt t [] = some cs ∧ shown cs = crlf t ∧ OnlyOutput cs := by
  have e1 : (t.map Piece.lit).flatMap (Piece.out strAt) = t := by
    induction t with
    | nil => rfl
    | cons b t ih => rw [List.map_cons, List.flatMap_cons, ih (fun x hx => h x (List.mem_cons_of_mem _ hx)) (by simp at hl; omega)]; rfl
  have e2 : (t.map Piece.lit).flatMap Piece.text = t := by
    clear e1 hl h
    induction t with
    | nil => rfl
    | cons b t ih => rw [List.map_cons, List.flatMap_cons, ih]; rfl
  have e3 : (t.map Piece.lit).flatMap Piece.args = [] := by
    clear e1 e2 hl h
    induction t with
    | nil => rfl
    | cons b t ih => rw [List.map_cons, List.flatMap_cons, ih]; rfl
  have := C59_printf strAt (t.map Piece.lit) ?_ ?_ ?_
  · rw [e1, e2, e3] at this; exact this
  · intro p hp
    obtain ⟨b, hb, rfl⟩ := List.mem_map.mp hp
    exact h b hb
  · rw [e1]; exact fun b hb => (h b hb).1
  · rw [e1]; exact hl

theorem backtrace_ok (strAt : Word → List Byte) (rd : Word → Word) {bp : Word} {fs : List (Word × Word)} (hf : Frames rd bp fs)
    (fuel : Nat) (h : fs.length < fuel) :
    ∃ cs, backtrace strAt rd fuel bp = some cs ∧ shown cs = crlf (fs.flatMap frameLine) ∧ OnlyOutput cs := by
  induction hf generalizing fuel with
  | last h0 =>
    obtain ⟨n, rfl⟩ : ∃ n, fuel = n + 1 := ⟨fuel - 1, by simp at h; omega⟩
    exact ⟨[], by rw [backtrace, if_pos h0], rfl, fun c hc => by cases hc⟩
  | @next bp b r fs hb hne hr _ ih =>
    obtain ⟨n, rfl⟩ : ∃ n, fuel = n + 1 := ⟨fuel - 1, by simp at h; omega⟩
    obtain ⟨cs, h1, h2, h3⟩ := ih n (by simp at h; omega)
    obtain ⟨c0, g1, g2, g3⟩ := frame_ok strAt b r
    refine ⟨c0 ++ cs, ?_, ?_, only_append g3 h3⟩
    · rw [backtrace, hb, if_neg hne, hr, g1]
      simp only
      rw [h1]
      rfl
    · rw [shown_append, g2, h2, ← crlf_append, List.flatMap_cons]

end Console

/-- A failed `assert` shows the message and one line for each frame on the stack, however many there are, and ends the program
with code 1. -/
theorem C59_assert (strAt : Word → List Byte) (rd : Word → Word) (bp : Word) (fs : List (Word × Word)) (hf : Frames rd bp fs)
    (fuel : Nat) (h : fs.length < fuel) :
    ∃ cs, Lib.assert strAt rd fuel 0 bp = some (cs ++ [exit 1]) ∧ OnlyOutput cs ∧
      shown cs = crlf ("Assertion failed\n\nBP   Return address\n".toList.map chr ++ fs.flatMap frameLine) := by
  obtain ⟨a, a1, a2, a3⟩ := text_ok strAt msgFailed (by decide) (by decide)
  obtain ⟨b, b1, b2, b3⟩ := text_ok strAt msgHead (by decide) (by decide)
  obtain ⟨c, c1, c2, c3⟩ := backtrace_ok strAt rd hf fuel h
  refine ⟨a ++ b ++ c, ?_, only_append (only_append a3 b3) c3, ?_⟩
  · rw [Lib.assert, if_neg (by decide), a1, b1, c1]
  · rw [shown_append, shown_append, a2, b2, c2, ← crlf_append, ← crlf_append]
    rfl

/-- If the chain of frames is a loop, the program does not end. -/
theorem C59_assert_loop (strAt : Word → List Byte) (rd : Word → Word) (bp : Word) (h0 : bp ≠ 0) (h : rd bp = bp) (fuel : Nat) :
    Lib.assert strAt rd fuel 0 bp = none := by
  have : backtrace strAt rd fuel bp = none := by
    induction fuel with
    | zero => rfl
    | succ n ih =>
      obtain ⟨c0, g1, _⟩ := frame_ok strAt bp (rd (bp + 2))
      rw [backtrace, h, if_neg h0, g1]
      simp only
      rw [ih]
      rfl
  rw [Lib.assert, if_neg (by decide), this]
  split
  · rename_i heq; cases heq
  · rfl

/-! ## Examples: cases meeting the hypotheses -/

example (strAt : Word → List Byte) : ∃ cs, printf strAt [chr '%', chr 'd', chr '\n'] [7] = some cs ∧
    shown cs = [chr '7', chr '\r', chr '\n'] := by
  obtain ⟨cs, h⟩ := C59_printf strAt [.dec 0 0 false 7, .lit (chr '\n')]
    (by intro p hp
        simp only [List.mem_cons, List.not_mem_nil, or_false] at hp
        rcases hp with rfl | rfl
        · show (0 : Nat) < 32768 ∧ (7 : Word).toInt ≠ -32768; decide
        · show chr '\n' ≠ 0 ∧ chr '\n' ≠ chr '%'; decide)
    (by show ∀ b ∈ [chr '7', chr '\n'], b ≠ 0; decide) (by show [chr '7', chr '\n'].length ≤ 255; decide)
  exact ⟨cs, h.1, h.2.1⟩

example : ∃ cs, puts [chr 'a', 0, chr 'b'] = some cs ∧ shown cs = [chr 'a', chr '\r', chr '\n'] := by
  obtain ⟨cs, h⟩ := C59_puts [chr 'a'] [chr 'b'] (by decide)
  exact ⟨cs, h.1, h.2.1⟩

example (strAt : Word → List Byte) : printf strAt ((List.replicate 256 (Piece.lit (chr 'a'))).flatMap Piece.text)
    ((List.replicate 256 (Piece.lit (chr 'a'))).flatMap Piece.args) = none :=
  C59_printf_overflow strAt _ (fun p hp => by
    rw [List.eq_of_mem_replicate hp]
    show chr 'a' ≠ 0 ∧ chr 'a' ≠ chr '%'
    decide) (by
    have : ∀ n, ((List.replicate n (Piece.lit (chr 'a'))).flatMap (Piece.out strAt)).length = n := by
      intro n
      induction n with
      | zero => rfl
      | succ n ih => rw [List.replicate_succ, List.flatMap_cons, List.length_append, ih]; exact Nat.add_comm 1 n
    rw [this]
    decide)

/-- Two frames: BP = 10h, called from a frame at 20h, which is the last. -/
example : Frames (fun a => if a = 0x10 then 0x20 else if a = 0x12 then 0x1234 else 0) 0x10 [(0x20, 0x1234)] :=
  .next (by decide) (by decide) (by decide) (.last (by decide))

end Props
