import Verif.Scpp.Model
import Verif.Util.Probe
import Verif.Util.Run
/-!
# The lexer of the preprocessor reads the tokens of its text

Lemmas for `C26`, `C27` and `C31`.  `PTok` and `Sep` describe texts as sequences of spelled tokens, independently of the lexer.
-/
namespace Props.ScppLex
open Scpp Prog Text

/-! ## Specification: spelled tokens -/

/-- A letter or `_`. -/
def IsAlpha (c : Byte) : Prop := (0x41 ≤ c.toNat ∧ c.toNat ≤ 0x5A) ∨ (0x61 ≤ c.toNat ∧ c.toNat ≤ 0x7A) ∨ c.toNat = 0x5F

/-- A decimal digit. -/
def IsDig (c : Byte) : Prop := 0x30 ≤ c.toNat ∧ c.toNat ≤ 0x39

/-- A character of an identifier. -/
def IsWord (c : Byte) : Prop := IsAlpha c ∨ IsDig c

/-- A blank (any control character but newline and NUL, and space). -/
def IsBlank (c : Byte) : Prop := c.toNat ≤ 0x20 ∧ c ≠ 0 ∧ c ≠ 0x0A

instance (c : Byte) : Decidable (IsAlpha c) := by unfold IsAlpha; infer_instance
instance (c : Byte) : Decidable (IsDig c) := by unfold IsDig; infer_instance
instance (c : Byte) : Decidable (IsWord c) := by unfold IsWord; infer_instance
instance (c : Byte) : Decidable (IsBlank c) := by unfold IsBlank; infer_instance

/-- A comment from `/*` to the first `*/`. -/
def Block (c : List Byte) : Prop := ∃ w, c = 0x2F :: 0x2A :: (w ++ [0x2A, 0x2F]) ∧ (∀ c ∈ w, c ≠ 0) ∧ ∀ a b, w ≠ a ++ 0x2A :: 0x2F :: b

/-- Preprocessing tokens and white space. -/
inductive PTok
  | ws (w : List Byte)
  | nl
  | id (w : List Byte)
  | num (w : List Byte)
  | op (w : List Byte)
  /-- a string or character literal: the quote and the text between the quotes -/
  | lit (q : Byte) (w : List Byte)
  deriving DecidableEq

/-- The spelling. -/
def PTok.text : PTok → List Byte
  | .ws w => w
  | .nl => [0x0A]
  | .id w => w
  | .num w => w
  | .op w => w
  | .lit q w => q :: (w ++ [q])

/-- The text kept for the token: for a literal, without its quotes. -/
def PTok.val : PTok → List Byte
  | .lit _ w => w
  | t => t.text

/-- The text between the quotes `q` of a literal: no end of line, no quote without a backslash before it, and no backslash at the end. -/
def LitBody (q : Byte) : List Byte → Prop
  | [] => True
  | [c] => c ≠ 0x5C ∧ c ≠ q ∧ c ≠ 0 ∧ c ≠ 0x0A
  | c :: d :: r => if c = 0x5C then d ≠ 0 ∧ d ≠ 0x0A ∧ LitBody q r else c ≠ q ∧ c ≠ 0 ∧ c ≠ 0x0A ∧ LitBody q (d :: r)

/-- The operators: spelling, token number, characters that would continue it. -/
def opTable : List (List Byte × Nat × List Byte) :=
  [(asc "#", 0x23, asc "#"), (asc "##", 129, []), (asc "=", 0x3D, asc "="), (asc "==", 132, []), (asc "!", 0x21, asc "="),
   (asc "!=", 133, []), (asc "<", 0x3C, asc "="), (asc "<=", 130, []), (asc ">", 0x3E, asc "="), (asc ">=", 131, []),
   (asc "&", 0x26, asc "&"), (asc "&&", 134, []), (asc "|", 0x7C, asc "|"), (asc "||", 135, []), (asc "/", 0x2F, asc "/*"),
   (asc "*", 0x2A, []), (asc "%", 0x25, []), (asc "+", 0x2B, []), (asc "-", 0x2D, []), (asc "^", 0x5E, []), (asc "(", 0x28, []),
   (asc ")", 0x29, []), (asc "?", 0x3F, []), (asc ":", 0x3A, []), (asc ",", 0x2C, []), (asc ";", 0x3B, []), (asc "{", 0x7B, []),
   (asc "}", 0x7D, []), (asc "[", 0x5B, []), (asc "]", 0x5D, []), (asc ".", 0x2E, []), (asc "~", 0x7E, [])]

/-- The token is well formed.  White space may begin with a comment: blanks, a comment and blanks are two tokens. -/
def PTok.Ok : PTok → Prop
  | .ws w => ∃ c b, w = c ++ b ∧ (c = [] ∨ Block c) ∧ b ≠ [] ∧ ∀ d ∈ b, IsBlank d
  | .nl => True
  | .id w => ∃ c r, w = c :: r ∧ IsAlpha c ∧ ∀ d ∈ r, IsWord d
  | .num w => ∃ c r, w = c :: r ∧ IsDig c ∧ ∀ d ∈ r, IsWord d
  | .op w => ∃ t x, (w, t, x) ∈ opTable
  | .lit q w => (q = 0x22 ∨ q = 0x27) ∧ LitBody q w

/-- The text after the token does not continue it. -/
def PTok.Sep : PTok → List Byte → Prop
  | .ws _, r => ∀ c, r.head? = some c → ¬ IsBlank c ∧ c.toNat < 0x80 ∧ c ≠ 0
  | .nl, _ => True
  | .id _, r => ∀ c, r.head? = some c → ¬ IsWord c
  | .num _, r => ∀ c, r.head? = some c → ¬ IsWord c
  | .op w, r => ∀ t x, (w, t, x) ∈ opTable → ∀ c, r.head? = some c → c ∉ x
  | .lit _ _, _ => True

/-- The number of the token. -/
def PTok.ty : PTok → Nat
  | .ws _ => tokWs
  | .nl => tokNl
  | .id _ => tokRawId
  | .num _ => tokNum
  | .op w => ((opTable.find? fun e => e.1 == w).map fun e => e.2.1).getD 0
  | .lit q _ => if q = 0x22 then tokStrlit else tokCharlit

/-- The bytes of `TokenData` the token takes. -/
def PTok.need : PTok → Nat
  | .ws _ => 0
  | .nl => 0
  | t => t.val.length + 1

/-- The text of a sequence of tokens. -/
def render (ts : List PTok) : List Byte := (ts.map PTok.text).flatten

/-- Every token is well formed and ends where its spelling ends, before the text `r`. -/
def Spelled : List PTok → List Byte → Prop
  | [], _ => True
  | t :: ts, r => t.Ok ∧ t.Sep (render ts ++ r) ∧ Spelled ts r

/-- The comment `c` before the text `r`: from `//` to the end of the line or file, or from `/*` to the first `*/`. -/
inductive Cmt : List Byte → List Byte → Prop
  | line {w r : List Byte} (hw : ∀ c ∈ w, c ≠ 0 ∧ c ≠ 0x0A) (hr : r = [] ∨ r.head? = some 0x0A) : Cmt (0x2F :: 0x2F :: w) r
  | block {c r : List Byte} (h : Block c) : Cmt c r

/-- The first text is the second with comments before it. -/
inductive Cmts : List Byte → List Byte → Prop
  | nil (r : List Byte) : Cmts r r
  | cons {c l r : List Byte} (hc : Cmt c l) (h : Cmts l r) : Cmts (c ++ l) r

/-- The first text is the second with comments between the tokens (up to some place). -/
inductive Commented : List Byte → List Byte → Prop
  | rest (r : List Byte) : Commented r r
  | nil {m : List Byte} (h : Cmts m []) : Commented m []
  | tok {t : PTok} {m l' l : List Byte} (ok : t.Ok) (sep' : t.Sep l') (sep : t.Sep l) (hc : Cmts m (t.text ++ l')) (h : Commented l' l) : Commented m (t.text ++ l)

/-! ## Memories -/

theorem get_writeMem_lt {n : Nat} (l : List Byte) : ∀ (m : Mem n) (off i : Nat), i < off → off + l.length ≤ 2 ^ n → (writeMem m off l).get i = m.get i := by
  induction l with
  | nil => intro m off i _ _; rfl
  | cons b l ih =>
    intro m off i hi hl
    simp only [List.length_cons] at hl
    rw [writeMem, ih _ _ _ (by omega) (by omega), Mem.get_set_ne _ _ (by omega) (by omega) (by omega)]

theorem get_writeMem {n : Nat} (l : List Byte) : ∀ (m : Mem n) (off k : Nat) (h : k < l.length), off + l.length ≤ 2 ^ n → (writeMem m off l).get (off + k) = l[k] := by
  induction l with
  | nil => intro m off k h; simp at h
  | cons b l ih =>
    intro m off k h hl
    simp only [List.length_cons] at hl
    cases k with
    | zero =>
      show (writeMem m off (b :: l)).get off = b
      rw [writeMem, get_writeMem_lt l _ _ _ (by omega) (by omega), Mem.get_set_self]
    | succ k =>
      rw [writeMem]
      have := ih (m.set off b) (off + 1) k (by simpa using h) (by omega)
      rw [show off + (k + 1) = off + 1 + k by omega, this]
      rfl

theorem writeMem_append {n : Nat} (a b : List Byte) : ∀ (m : Mem n) (off : Nat), writeMem m off (a ++ b) = writeMem (writeMem m off a) (off + a.length) b := by
  induction a with
  | nil => intro m off; rfl
  | cons c a ih => intro m off; simp only [List.cons_append, writeMem, ih, List.length_cons]; rw [show off + 1 + a.length = off + (a.length + 1) by omega]

theorem cstr_of_get {n : Nat} (m : Mem n) : ∀ (l : List Byte) (k off : Nat), l.length < k → (∀ c ∈ l, c ≠ 0) →
    (∀ i, (h : i < l.length) → m.get (off + i) = l[i]) → m.get (off + l.length) = 0 → cstr m k off = some l
  | _, 0, _, h, _, _, _ => absurd h (Nat.not_lt_zero _)
  | [], k + 1, off, _, _, _, hz => by rw [cstr, if_pos (by simpa using hz)]
  | c :: l, k + 1, off, h, hnz, hm, hz => by
    have h0 : m.get off = c := hm 0 (by simp)
    rw [cstr, h0, if_neg (hnz c (by simp)), cstr_of_get m l k (off + 1) (by simpa using h) (fun d hd => hnz d (by simp [hd]))]
    · rfl
    · intro i hi
      have := hm (i + 1) (by simpa using hi)
      rw [show off + 1 + i = off + (i + 1) by omega, this]; rfl
    · rw [Nat.add_assoc, Nat.add_comm 1]; exact hz

/-- A string just written is read back. -/
theorem cstr_writeMem {m : Mem 11} {off : Nat} {l : List Byte} (h : off + l.length + 1 ≤ 2048) (hnz : ∀ c ∈ l, c ≠ 0) :
    cstr (writeMem m off (l ++ [0])) (2048 - off) off = some l := by
  apply cstr_of_get _ l _ _ (by omega) hnz
  · intro i hi
    rw [get_writeMem (l ++ [0]) m off i (by simp; omega) (by simp; omega), List.getElem_append_left hi]
  · rw [get_writeMem (l ++ [0]) m off l.length (by simp) (by simp; omega)]
    simp

/-- The string at `off` lies below `lim`. -/
def StrBelow (m : Mem 11) (lim off : Nat) (l : List Byte) : Prop :=
  off + l.length + 1 ≤ lim ∧ (∀ c ∈ l, c ≠ 0) ∧ (∀ i, (h : i < l.length) → m.get (off + i) = l[i]) ∧ m.get (off + l.length) = 0

theorem StrBelow.cstr {m : Mem 11} {lim off : Nat} {l : List Byte} (h : StrBelow m lim off l) (hl : lim ≤ 2048) : Scpp.cstr m (2048 - off) off = some l :=
  cstr_of_get m l _ _ (by have := h.1; omega) h.2.1 h.2.2.1 h.2.2.2

theorem StrBelow.write {m : Mem 11} {lim off o : Nat} {l w : List Byte} (h : StrBelow m lim off l) (ho : lim ≤ o) (hw : o + w.length ≤ 2048) :
    StrBelow (writeMem m o w) lim off l := by
  refine ⟨h.1, h.2.1, ?_, ?_⟩
  · intro i hi
    rw [get_writeMem_lt _ _ _ _ (by have := h.1; omega) (by omega)]
    exact h.2.2.1 i hi
  · rw [get_writeMem_lt _ _ _ _ (by have := h.1; omega) (by omega)]
    exact h.2.2.2

theorem StrBelow.of_write {m : Mem 11} {off : Nat} {l : List Byte} (h : off + l.length + 1 ≤ 2048) (hnz : ∀ c ∈ l, c ≠ 0) :
    StrBelow (writeMem m off (l ++ [0])) (off + l.length + 1) off l := by
  refine ⟨Nat.le_refl _, hnz, ?_, ?_⟩
  · intro i hi
    rw [get_writeMem (l ++ [0]) m off i (by simp; omega) (by simp; omega), List.getElem_append_left hi]
  · rw [get_writeMem (l ++ [0]) m off l.length (by simp) (by simp; omega)]
    simp

theorem StrBelow.mono {m : Mem 11} {lim lim' off : Nat} {l : List Byte} (h : StrBelow m lim off l) (hl : lim ≤ lim') : StrBelow m lim' off l :=
  ⟨Nat.le_trans h.1 hl, h.2⟩

/-! ## States at a text -/

/-- The state `s` with the text `l` to read. -/
def inAt (l : List Byte) (s : S) : S := { s with cur := l.headD 0, inp := l.tail }

theorem fastChar_at (c : Byte) (r : List Byte) (s : S) : fastChar (inAt (c :: r) s) = .ok () (inAt r s) := by
  cases r <;> rfl

theorem readChar_at (c : Byte) (r : List Byte) (s : S) :
    readChar (inAt (c :: r) s) = .ok () (inAt r { s with line := if c = 0x0A then s.line + 1 else s.line }) := by
  cases r <;> rfl

theorem readToTokenData_at (c : Byte) (r : List Byte) (s : S) (h : s.tdPos < 2048) :
    readToTokenData (inAt (c :: r) s) = .ok () (inAt r { s with td := s.td.set s.tdPos c, tdPos := s.tdPos + 1 }) := by
  have h1 : assertM (decide ((inAt (c :: r) s).tdPos < tokenDataMax)) (inAt (c :: r) s) = .ok () (inAt (c :: r) s) := by
    rw [assertM_run, if_pos (by simpa [inAt] using h)]
  rw [readToTokenData, bind_ok (getS_run _), bind_ok h1, bind_ok (modS_run _ _)]
  exact fastChar_at c r { s with td := s.td.set s.tdPos c, tdPos := s.tdPos + 1 }

theorem tdStore_at (b : Byte) (l : List Byte) (s : S) (h : s.tdPos < 2048) :
    tdStore b (inAt l s) = .ok () (inAt l { s with td := s.td.set s.tdPos b, tdPos := s.tdPos + 1 }) := by
  have h1 : ubUnless (decide ((inAt l s).tdPos < tokenDataMax)) (inAt l s) = .ok () (inAt l s) := by
    rw [ubUnless_run, if_pos (by simpa [inAt] using h)]
  rw [tdStore, bind_ok (getS_run _), bind_ok h1, modS_run]
  rfl

theorem tokOut_at (r : List Byte) (s : S) (h : s.tdPos < 2048) :
    tokOut (inAt r s) = .ok () (inAt r { s with td := s.td.set s.tdPos 0, tdPos := s.tdPos + 1 }) := by
  have h1 : assertM (decide ((inAt r s).tdPos < tokenDataMax)) (inAt r s) = .ok () (inAt r s) := by
    rw [assertM_run, if_pos (by simpa [inAt] using h)]
  rw [tokOut, bind_ok (getS_run _), bind_ok h1, modS_run]
  rfl

theorem isIdChar_iff : ∀ c : Byte, isIdChar c = true ↔ IsWord c := by decide +kernel

theorem isIdChar_zero : isIdChar 0 = false := by decide

/-- The first character of a text (0 at the end) is not a character of identifiers. -/
theorem head_not_word {r : List Byte} (h : ∀ c, r.head? = some c → ¬ IsWord c) : isIdChar (r.headD 0) = false := by
  cases r with
  | nil => exact isIdChar_zero
  | cons c r =>
    have := h c rfl
    rw [← isIdChar_iff] at this
    simpa using this

theorem numLoop_at (w : List Byte) : ∀ (n : Nat) (r : List Byte) (s : S), w.length < n → (∀ d ∈ w, IsWord d) → (∀ c, r.head? = some c → ¬ IsWord c) →
    s.tdPos + w.length ≤ 2048 →
    numLoop n (inAt (w ++ r) s) = .ok () (inAt r { s with td := writeMem s.td s.tdPos w, tdPos := s.tdPos + w.length }) := by
  induction w with
  | nil =>
    intro n r s hn _ hr _
    obtain ⟨n, rfl⟩ := Nat.exists_eq_succ_of_ne_zero (by omega : n ≠ 0)
    rw [numLoop, bind_ok (getS_run _)]
    have : isIdChar (inAt ([] ++ r) s).cur = false := head_not_word hr
    rw [this]
    rfl
  | cons c w ih =>
    intro n r s hn hw hr ht
    obtain ⟨n, rfl⟩ := Nat.exists_eq_succ_of_ne_zero (by omega : n ≠ 0)
    simp only [List.length_cons] at hn ht
    rw [numLoop, bind_ok (getS_run _)]
    have : isIdChar (inAt (c :: w ++ r) s).cur = true := (isIdChar_iff c).mpr (hw c (by simp))
    rw [this, if_pos rfl, List.cons_append, bind_ok (tdStore_at _ _ _ (by omega)), bind_ok (fastChar_at _ _ _),
      ih n r _ (by omega) (fun d hd => hw d (by simp [hd])) hr (by simp only; omega)]
    simp only [writeMem, List.length_cons]
    rw [show s.tdPos + 1 + w.length = s.tdPos + (w.length + 1) by omega]
    rfl

theorem idLoop_at (w : List Byte) : ∀ (c : Byte) (n : Nat) (r : List Byte) (s : S), w.length < n → (∀ d ∈ w, IsWord d) → (∀ c, r.head? = some c → ¬ IsWord c) →
    s.tdPos + w.length + 1 ≤ 2048 →
    idLoop n (inAt (c :: w ++ r) s) = .ok () (inAt r { s with
      td := writeMem s.td s.tdPos (c :: w), tdPos := s.tdPos + (w.length + 1), hash := (c :: w).foldl hashStep s.hash }) := by
  induction w with
  | nil =>
    intro c n r s hn _ hr ht
    obtain ⟨n, rfl⟩ := Nat.exists_eq_succ_of_ne_zero (by omega : n ≠ 0)
    rw [idLoop, bind_ok (getS_run _), bind_ok (modS_run _ _)]
    have h1 : tdStore (inAt ([c] ++ r) s).cur { inAt ([c] ++ r) s with hash := hashStep (inAt ([c] ++ r) s).hash (inAt ([c] ++ r) s).cur } =
        .ok () (inAt (c :: r) { s with td := s.td.set s.tdPos c, tdPos := s.tdPos + 1, hash := hashStep s.hash c }) :=
      tdStore_at c (c :: r) { s with hash := hashStep s.hash c } (by show s.tdPos < 2048; simp at ht; omega)
    rw [bind_ok h1, bind_ok (fastChar_at _ _ _), bind_ok (getS_run _)]
    have : isIdChar (inAt r { s with td := s.td.set s.tdPos c, tdPos := s.tdPos + 1, hash := hashStep s.hash c }).cur = false := head_not_word hr
    rw [this]
    rfl
  | cons d w ih =>
    intro c n r s hn hw hr ht
    obtain ⟨n, rfl⟩ := Nat.exists_eq_succ_of_ne_zero (by omega : n ≠ 0)
    simp only [List.length_cons] at hn ht
    rw [idLoop, bind_ok (getS_run _), bind_ok (modS_run _ _)]
    have h1 : tdStore (inAt (c :: (d :: w) ++ r) s).cur { inAt (c :: (d :: w) ++ r) s with hash := hashStep (inAt (c :: (d :: w) ++ r) s).hash (inAt (c :: (d :: w) ++ r) s).cur } =
        .ok () (inAt (c :: (d :: w ++ r)) { s with td := s.td.set s.tdPos c, tdPos := s.tdPos + 1, hash := hashStep s.hash c }) :=
      tdStore_at c (c :: (d :: w ++ r)) { s with hash := hashStep s.hash c } (by show s.tdPos < 2048; omega)
    rw [bind_ok h1, bind_ok (fastChar_at _ _ _), bind_ok (getS_run _)]
    have : isIdChar (inAt (d :: w ++ r) { s with td := s.td.set s.tdPos c, tdPos := s.tdPos + 1, hash := hashStep s.hash c }).cur = true :=
      (isIdChar_iff d).mpr (hw d (by simp))
    rw [this, if_pos rfl, ih d n r _ (by omega) (fun d hd => hw d (by simp [hd])) hr (by simp only; omega)]
    simp only [writeMem, List.length_cons, List.foldl_cons]
    rw [show s.tdPos + 1 + (w.length + 1) = s.tdPos + (w.length + 1 + 1) by omega]

theorem isWs_iff : ∀ c : Byte, c.toNat < 0x80 → c ≠ 0 → ((isWs c = true ∧ c ≠ 0x0A) ↔ IsBlank c) := by decide +kernel

theorem wsLoop_at (w : List Byte) : ∀ (n : Nat) (r : List Byte) (s : S), w.length < n → (∀ d ∈ w, IsBlank d) →
    (∀ c, r.head? = some c → ¬ IsBlank c ∧ c.toNat < 0x80 ∧ c ≠ 0) → (w ++ r ≠ []) →
    wsLoop n (inAt (w ++ r) s) = .ok () (inAt r s) := by
  induction w with
  | nil =>
    intro n r s hn _ hr hne
    obtain ⟨n, rfl⟩ := Nat.exists_eq_succ_of_ne_zero (by omega : n ≠ 0)
    rw [wsLoop, bind_ok (getS_run _)]
    cases r with
    | nil => exact absurd rfl hne
    | cons c r =>
      obtain ⟨h1, h2, h3⟩ := hr c rfl
      rw [if_neg (by rw [← isWs_iff c h2 h3] at h1; exact h1)]
      rfl
  | cons c w ih =>
    intro n r s hn hw hr _
    obtain ⟨n, rfl⟩ := Nat.exists_eq_succ_of_ne_zero (by omega : n ≠ 0)
    simp only [List.length_cons] at hn
    have hc := hw c (by simp)
    rw [wsLoop, bind_ok (getS_run _), if_pos (by exact (isWs_iff c (by have := hc.1; omega) hc.2.1).mpr hc), List.cons_append, bind_ok (fastChar_at _ _ _),
      bind_ok (getS_run _)]
    cases hwr : w ++ r with
    | nil =>
      obtain ⟨rfl, rfl⟩ := List.append_eq_nil_iff.mp hwr
      rfl
    | cons d t =>
      have hd : d ≠ 0 := by
        cases w with
        | nil => exact (hr d (by simp at hwr; rw [hwr]; rfl)).2.2
        | cons e w => simp at hwr; exact hwr.1 ▸ (hw e (by simp)).2.1
      rw [if_neg (by exact hd), ← hwr, ih n r s (by omega) (fun d hd => hw d (by simp [hd])) hr (by rw [hwr]; simp)]

/-! ## Tokens -/

/-- The state after the token `w` of number `ty` has been read. -/
def lexed (w : List Byte) (ty h : Nat) (r : List Byte) (s : S) : S :=
  inAt r { s with td := writeMem s.td s.tdNext (w ++ [0]), tdPos := s.tdNext + w.length + 1, tok := ⟨ty, .data s.tdNext⟩, hash := h }

/-- The state at the beginning of `lexRaw`. -/
def start (s : S) : S := { s with tdPos := s.tdNext, tok := { s.tok with txt := .data s.tdNext } }

theorem lexRaw_start (l : List Byte) (s : S) : (modS (σ := S) fun s => { s with tdPos := s.tdNext, tok := { s.tok with txt := .data s.tdNext } }) (inAt l s) = .ok () (inAt l (start s)) := rfl

theorem alpha_facts : ∀ c : Byte, IsAlpha c → c ≠ 0x0A ∧ c ≠ 0x2F ∧ c ≠ 0x5C ∧ ¬ (c = 0x22 ∨ c = 0x27) ∧ c ≠ 0 ∧
    (c ≠ 0x5F → isWs c = false ∧ ¬ c.toNat < 0x41 ∧ (c &&& 0xDF).toNat ≤ 0x5A) := by decide +kernel

theorem lexId_at (n : Nat) (c : Byte) (w r : List Byte) (s : S) (hn : w.length < n) (hw : ∀ d ∈ w, IsWord d) (hr : ∀ c, r.head? = some c → ¬ IsWord c)
    (ht : s.tdNext + (w.length + 1) + 1 ≤ 2048) :
    lexId n (inAt (c :: w ++ r) (start s)) = .ok () (lexed (c :: w) tokRawId (hashOf (c :: w)) r s) := by
  refine run_modS (run_modS (run_bind (idLoop_at w c n r { start s with tok := ⟨tokRawId, .data s.tdNext⟩, hash := 0 } hn hw hr
    (by show s.tdNext + w.length + 1 ≤ 2048; omega)) ?_))
  refine (tokOut_at r _ (by show s.tdNext + (w.length + 1) < 2048; omega)).trans ?_
  simp only [lexed, start, hashOf, writeMem_append, List.length_cons]
  rfl

theorem lexRaw_id (n : Nat) (c : Byte) (w r : List Byte) (s : S) (hn : w.length < n) (hc : IsAlpha c) (hw : ∀ d ∈ w, IsWord d)
    (hr : ∀ c, r.head? = some c → ¬ IsWord c) (ht : s.tdNext + (w.length + 1) + 1 ≤ 2048) :
    lexRaw (n + 1) (inAt (c :: w ++ r) s) = .ok () (lexed (c :: w) tokRawId (hashOf (c :: w)) r s) := by
  obtain ⟨h1, h2, h3, h4, h5, h6⟩ := alpha_facts c hc
  refine run_bind (lexRaw_start _ _) (run_getS (run_neg h1 (run_neg h2 (run_neg h3 (run_neg h4 (run_neg h5 ?_))))))
  by_cases h : c = 0x5F
  · exact run_pos h (lexId_at n c w r s hn hw hr ht)
  · obtain ⟨h7, h8, h9⟩ := h6 h
    exact run_neg h (run_neg (by show ¬ isWs c = true; rw [h7]; decide) (run_neg h8 (run_pos h9 (lexId_at n c w r s hn hw hr ht))))

theorem dig_facts : ∀ c : Byte, IsDig c → c ≠ 0x0A ∧ c ≠ 0x2F ∧ c ≠ 0x5C ∧ ¬ (c = 0x22 ∨ c = 0x27) ∧ c ≠ 0 ∧ c ≠ 0x5F ∧ ¬ isWs c = true ∧ c.toNat < 0x41 := by
  decide +kernel

theorem xX_word : ∀ c : Byte, c = 0x78 ∨ c = 0x58 → IsWord c := by decide +kernel

theorem lexRaw_num (n : Nat) (c : Byte) (w r : List Byte) (s : S) (hn : w.length < n) (hc : IsDig c) (hw : ∀ d ∈ w, IsWord d)
    (hr : ∀ c, r.head? = some c → ¬ IsWord c) (ht : s.tdNext + (w.length + 1) + 1 ≤ 2048) :
    lexRaw (n + 1) (inAt (c :: w ++ r) s) = .ok () (lexed (c :: w) tokNum s.hash r s) := by
  obtain ⟨h1, h2, h3, h4, h5, h6, h7, h8⟩ := dig_facts c hc
  refine run_bind (lexRaw_start _ _) (run_getS (run_neg h1 (run_neg h2 (run_neg h3 (run_neg h4 (run_neg h5 (run_neg h6 (run_neg h7 (run_pos h8
    (run_pos hc (run_modS (run_bind (readToTokenData_at c (w ++ r) { start s with tok := ⟨tokNum, .data s.tdNext⟩ } (by show s.tdNext < 2048; omega)) (run_getS ?_)))))))))))))
  -- the x of a hexadecimal number
  have fin : ∀ (w' : List Byte) (s1 : S), w'.length < n → (∀ d ∈ w', IsWord d) → s1.tdPos + w'.length + 1 ≤ 2048 →
      (numLoop n >>= fun _ => tokOut) (inAt (w' ++ r) s1) = .ok () (inAt r { s1 with td := writeMem s1.td s1.tdPos (w' ++ [0]), tdPos := s1.tdPos + w'.length + 1 }) := by
    intro w' s1 h1 h2 h3
    refine run_bind (numLoop_at w' n r s1 h1 h2 hr (by omega)) ?_
    rw [tokOut_at r _ (by show s1.tdPos + w'.length < 2048; omega)]
    simp only [writeMem_append]
    rfl
  by_cases h : (w ++ r).headD 0 = 0x78 ∨ (w ++ r).headD 0 = 0x58
  · refine run_pos h ?_
    cases w with
    | nil =>
      exfalso
      cases r with
      | nil => revert h; decide
      | cons d r => exact hr d rfl (xX_word d h)
    | cons d w =>
      simp only [List.length_cons] at hn ht
      refine run_bind (readToTokenData_at d (w ++ r) { start s with tok := ⟨tokNum, .data s.tdNext⟩, td := s.td.set s.tdNext c, tdPos := s.tdNext + 1 } (by show s.tdNext + 1 < 2048; omega)) ?_
      refine (fin w _ (by omega) (fun d hd => hw d (by simp [hd])) (by show s.tdNext + 1 + 1 + w.length + 1 ≤ 2048; omega)).trans ?_
      simp only [List.cons_append, writeMem, List.length_cons, start, lexed]
      rw [show s.tdNext + 1 + 1 + w.length + 1 = s.tdNext + (w.length + 1 + 1) + 1 by omega]
  · refine run_neg h ?_
    refine (fin w { start s with tok := ⟨tokNum, .data s.tdNext⟩, td := s.td.set s.tdNext c, tdPos := s.tdNext + 1 } hn hw (by show s.tdNext + 1 + w.length + 1 ≤ 2048; omega)).trans ?_
    simp only [List.cons_append, writeMem, start, lexed, List.length_cons]
    rw [show s.tdNext + 1 + w.length + 1 = s.tdNext + (w.length + 1) + 1 by omega]

/-- The state after a newline or white space has been read. -/
def lexedWs (ty line : Nat) (r : List Byte) (s : S) : S :=
  inAt r { s with line := line, tdPos := s.tdNext, tok := ⟨ty, .data s.tdNext⟩ }

theorem lexRaw_nl (n : Nat) (r : List Byte) (s : S) : lexRaw (n + 1) (inAt (0x0A :: r) s) = .ok () (lexedWs tokNl (s.line + 1) r s) :=
  run_bind (lexRaw_start _ _) (run_getS (run_pos rfl (run_modS (readChar_at 0x0A r { start s with tok := ⟨tokNl, .data s.tdNext⟩ }))))

theorem blank_facts : ∀ c : Byte, IsBlank c → c ≠ 0x0A ∧ c ≠ 0x2F ∧ c ≠ 0x5C ∧ ¬ (c = 0x22 ∨ c = 0x27) ∧ c ≠ 0 ∧ c ≠ 0x5F ∧ isWs c = true := by
  decide +kernel

theorem lexRaw_ws (n : Nat) (c : Byte) (w r : List Byte) (s : S) (hn : w.length < n) (hw : ∀ d ∈ c :: w, IsBlank d)
    (hr : ∀ c, r.head? = some c → ¬ IsBlank c ∧ c.toNat < 0x80 ∧ c ≠ 0) :
    lexRaw (n + 1) (inAt (c :: w ++ r) s) = .ok () (lexedWs tokWs s.line r s) := by
  obtain ⟨h1, h2, h3, h4, h5, h6, h7⟩ := blank_facts c (hw c (by simp))
  have e1 := readChar_at c (w ++ r) { start s with tok := ⟨tokWs, .data s.tdNext⟩ }
  rw [if_neg h1] at e1
  refine run_bind (lexRaw_start _ _) (run_getS (run_neg h1 (run_neg h2 (run_neg h3 (run_neg h4 (run_neg h5 (run_neg h6 (run_pos h7
    (run_modS (run_bind e1 (run_getS ?_)))))))))))
  cases hwr : w ++ r with
  | nil =>
    obtain ⟨rfl, rfl⟩ := List.append_eq_nil_iff.mp hwr
    rfl
  | cons d t =>
    have hd : d ≠ 0 := by
      cases w with
      | nil => exact (hr d (by simp at hwr; rw [hwr]; rfl)).2.2
      | cons e w => simp at hwr; exact hwr.1 ▸ (hw e (by simp)).2.1
    refine run_neg hd ?_
    rw [← hwr, wsLoop_at w n r _ hn (fun d hd => hw d (by simp [hd])) hr (by rw [hwr]; simp)]
    rfl

/-- The operators that may be continued: character, second character, number of the longer operator. -/
def ext (c : Byte) : Option (Byte × Nat) :=
  match c.toNat with
  | 0x23 => some (0x23, tokHashhash)
  | 0x3D => some (0x3D, tokEqeq)
  | 0x21 => some (0x3D, tokNoteq)
  | 0x3C => some (0x3D, tokLteq)
  | 0x3E => some (0x3D, tokGteq)
  | 0x26 => some (0x26, tokAndand)
  | 0x7C => some (0x7C, tokOror)
  | _ => none

theorem opTail_eq (c : Byte) : opTail c = match ext c with
    | some (e, t) => tryExtendOp e t
    | none => assertM (opChars.contains c) := by
  unfold opTail ext
  generalize c.toNat = k
  split
  case h_8 h1 h2 h3 h4 h5 h6 h7 =>
    split
    · next h => exfalso; revert h; split <;> simp_all
    · rfl
  all_goals rfl

theorem lexOp_one (c : Byte) (r : List Byte) (s : S) (hc : opChars.contains c = true) (hr : ∀ e t, ext c = some (e, t) → r.head? ≠ some e ∧ e ≠ 0)
    (ht : s.tdNext + 2 ≤ 2048) : lexOp (inAt (c :: r) (start s)) = .ok () (lexed [c] c.toNat s.hash r s) := by
  refine run_getS (run_modS (run_bind (readToTokenData_at c r { start s with tok := ⟨c.toNat, .data s.tdNext⟩ } (by show s.tdNext < 2048; omega)) ?_))
  have h : opTail c (inAt r { start s with tok := ⟨c.toNat, .data s.tdNext⟩, td := s.td.set s.tdNext c, tdPos := s.tdNext + 1 }) =
      .ok () (inAt r { start s with tok := ⟨c.toNat, .data s.tdNext⟩, td := s.td.set s.tdNext c, tdPos := s.tdNext + 1 }) := by
    rw [opTail_eq]
    split
    · next e t he =>
      obtain ⟨h1, h2⟩ := hr e t he
      refine run_getS (run_neg ?_ rfl)
      cases r with
      | nil => exact fun h => h2 h.symm
      | cons d r => exact fun h => h1 (by rw [show d = e from h]; rfl)
    · rw [hc]; rfl
  refine run_bind h ?_
  exact tokOut_at r _ (by show s.tdNext + 1 < 2048; omega)

theorem lexOp_two (c e : Byte) (t : Nat) (r : List Byte) (s : S) (hc : ext c = some (e, t))
    (ht : s.tdNext + 3 ≤ 2048) : lexOp (inAt (c :: e :: r) (start s)) = .ok () (lexed [c, e] t s.hash r s) := by
  refine run_getS (run_modS (run_bind (readToTokenData_at c (e :: r) { start s with tok := ⟨c.toNat, .data s.tdNext⟩ } (by show s.tdNext < 2048; omega)) ?_))
  have h : opTail c (inAt (e :: r) { start s with tok := ⟨c.toNat, .data s.tdNext⟩, td := s.td.set s.tdNext c, tdPos := s.tdNext + 1 }) =
      .ok () (inAt r { start s with tok := ⟨t, .data s.tdNext⟩, td := (s.td.set s.tdNext c).set (s.tdNext + 1) e, tdPos := s.tdNext + 2 }) := by
    rw [opTail_eq, hc]
    exact run_getS (run_pos rfl (run_bind (readToTokenData_at e r _ (by show s.tdNext + 1 < 2048; omega)) (modS_run _ _)))
  refine run_bind h ?_
  exact tokOut_at r _ (by show s.tdNext + 2 < 2048; omega)

theorem lexRaw_slash (n : Nat) (r : List Byte) (s : S) (hr : ∀ c, r.head? = some c → c ≠ 0x2F ∧ c ≠ 0x2A) (ht : s.tdNext + 2 ≤ 2048) :
    lexRaw (n + 1) (inAt (0x2F :: r) s) = .ok () (lexed [0x2F] 0x2F s.hash r s) := by
  have h0 : r.headD 0 ≠ 0x2F ∧ r.headD 0 ≠ 0x2A := by
    cases r with
    | nil => decide
    | cons c r => exact hr c rfl
  refine run_bind (lexRaw_start _ _) (run_getS (run_neg (by decide : (0x2F : Byte) ≠ 0x0A) (run_pos rfl (run_bind (readChar_at 0x2F r (start s)) (run_getS
    (run_neg h0.1 (run_neg h0.2 (run_modS (run_assert ?_ (run_bind (tdStore_at 0x2F r { start s with tok := ⟨0x2F, .data s.tdNext⟩ }
      (by show s.tdNext < 2048; omega)) ?_))))))))))
  · exact decide_eq_true (show s.tdNext < 2048 by omega)
  · exact tokOut_at r { start s with tok := ⟨0x2F, .data s.tdNext⟩, td := s.td.set s.tdNext 0x2F, tdPos := s.tdNext + 1 } (by show s.tdNext + 1 < 2048; omega)

/-- The first character of an operator other than `/`. -/
def OpChar (c : Byte) : Prop :=
  c ≠ 0x0A ∧ c ≠ 0x2F ∧ c ≠ 0x5C ∧ ¬ (c = 0x22 ∨ c = 0x27) ∧ c ≠ 0 ∧ c ≠ 0x5F ∧ ¬ isWs c = true ∧ ¬ (0x30 ≤ c.toNat ∧ c.toNat ≤ 0x39) ∧
    (¬ c.toNat < 0x41 → ¬ (c &&& 0xDF).toNat ≤ 0x5A)

instance (c : Byte) : Decidable (OpChar c) := by unfold OpChar; infer_instance

theorem lexRaw_toOp (n : Nat) (c : Byte) (r : List Byte) (s s' : S) (hc : OpChar c) (h : lexOp (inAt (c :: r) (start s)) = .ok () s') :
    lexRaw (n + 1) (inAt (c :: r) s) = .ok () s' := by
  obtain ⟨h1, h2, h3, h4, h5, h6, h7, h8, h9⟩ := hc
  refine run_bind (lexRaw_start _ _) (run_getS (run_neg h1 (run_neg h2 (run_neg h3 (run_neg h4 (run_neg h5 (run_neg h6 (run_neg h7 ?_))))))))
  by_cases h10 : c.toNat < 0x41
  · exact run_pos h10 (run_neg h8 h)
  · exact run_neg h10 (run_neg (h9 h10) h)

/-- How the entries of the table are read. -/
def EntryOk (e : List Byte × Nat × List Byte) : Bool :=
  match e with
  | ([c], t, x) => if c = 0x2F then t == 0x2F && x == asc "/*" else
      decide (OpChar c) && opChars.contains c && t == c.toNat && x == (match ext c with | some (d, _) => [d] | none => []) && !x.contains 0
  | ([c, d], t, x) => decide (OpChar c) && (match ext c with | some p => p == (d, t) | none => false) && x == []
  | _ => false

theorem opTable_ok : ∀ e ∈ opTable, EntryOk e = true := by decide +kernel

theorem opTable_find : ∀ e ∈ opTable, (PTok.op e.1).ty = e.2.1 := by decide +kernel

theorem lexRaw_op (n : Nat) (w x : List Byte) (t : Nat) (r : List Byte) (s : S) (hw : (w, t, x) ∈ opTable) (hr : ∀ c, r.head? = some c → c ∉ x)
    (ht : s.tdNext + w.length + 1 ≤ 2048) : lexRaw (n + 1) (inAt (w ++ r) s) = .ok () (lexed w t s.hash r s) := by
  have hok := opTable_ok _ hw
  match w, hok with
  | [c], hok =>
    simp only [EntryOk] at hok
    by_cases hc : c = 0x2F
    · subst hc
      simp only [if_true, Bool.and_eq_true, beq_iff_eq] at hok
      obtain ⟨rfl, rfl⟩ := hok
      apply lexRaw_slash _ _ _ _ ht
      intro d hd
      have := hr d hd
      simp [asc] at this
      exact this
    · simp only [if_neg hc, Bool.and_eq_true, beq_iff_eq, decide_eq_true_eq] at hok
      obtain ⟨⟨⟨⟨h1, h2⟩, rfl⟩, h3⟩, h4⟩ := hok
      apply lexRaw_toOp n c r s _ h1
      apply lexOp_one c r s h2 _ ht
      intro e t he
      rw [he] at h3
      subst h3
      refine ⟨fun h => hr e h (by simp), fun h => ?_⟩
      subst h
      exact absurd h4 (by simp)
  | [c, d], hok =>
    simp only [EntryOk, Bool.and_eq_true, beq_iff_eq, decide_eq_true_eq] at hok
    obtain ⟨⟨h1, h2⟩, rfl⟩ := hok
    have he : ext c = some (d, t) := by
      revert h2
      cases ext c with
      | none => intro h; cases h
      | some p => intro h; rw [beq_iff_eq.mp h]
    exact lexRaw_toOp n c (d :: r) s _ h1 (lexOp_two c d t r s he ht)

theorem lexRaw_eof (n : Nat) (s : S) : lexRaw (n + 1) (inAt [] s) =
    .ok () (inAt [] { s with tdPos := s.tdNext, tok := ⟨if s.tok.ty = tokEof then tokNl else tokEof, .data s.tdNext⟩ }) :=
  run_bind (lexRaw_start _ _) (run_getS (run_neg (by decide : (0 : Byte) ≠ 0x0A) (run_neg (by decide : (0 : Byte) ≠ 0x2F) (run_neg (by decide : (0 : Byte) ≠ 0x5C)
    (run_neg (by decide : ¬ ((0 : Byte) = 0x22 ∨ (0 : Byte) = 0x27)) (run_pos rfl rfl))))))

/-- The loop of a literal, reading a text with escapes; `esc`: after a backslash. -/
theorem litLoop_at (q : Byte) (hq : q = 0x22 ∨ q = 0x27) : ∀ (w : List Byte) (n : Nat) (r : List Byte) (s : S), w.length < n → LitBody q w → s.tdPos + w.length ≤ 2048 →
    litLoop n q false (inAt (w ++ q :: r) s) = .ok true (inAt (q :: r) { s with td := writeMem s.td s.tdPos w, tdPos := s.tdPos + w.length })
  | [], n, r, s, hn, _, _ => by
    obtain ⟨n, rfl⟩ := Nat.exists_eq_succ_of_ne_zero (by omega : n ≠ 0)
    exact run_getS (run_neg (by rintro (h | h); cases h; exact h rfl) rfl)
  | [c], n, r, s, hn, hw, ht => by
    obtain ⟨h1, h2, h3, h4⟩ := hw
    simp only [List.length_cons, List.length_nil] at hn ht
    obtain ⟨n, rfl⟩ := Nat.exists_eq_succ_of_ne_zero (by omega : n ≠ 0)
    refine run_getS (run_pos (.inr h2) (run_neg (by rintro (h | h); exact h3 h; exact h4 h) (run_bind (readToTokenData_at c (q :: r) s (by omega)) ?_)))
    have e : (if (inAt ([c] ++ q :: r) s).cur = 0x5C then !false else false) = false := if_neg h1
    rw [e]
    exact litLoop_at q hq [] n r { s with td := s.td.set s.tdPos c, tdPos := s.tdPos + 1 } (by simp only [List.length_nil]; omega) trivial (by show s.tdPos + 1 + 0 ≤ 2048; omega)
  | c :: d :: w, n, r, s, hn, hw, ht => by
    simp only [List.length_cons] at hn ht
    obtain ⟨n, rfl⟩ := Nat.exists_eq_succ_of_ne_zero (by omega : n ≠ 0)
    obtain ⟨n, rfl⟩ := Nat.exists_eq_succ_of_ne_zero (by omega : n ≠ 0)
    rw [LitBody] at hw
    by_cases hc : c = 0x5C
    · rw [if_pos hc] at hw
      obtain ⟨h1, h2, h3⟩ := hw
      have cq : c ≠ q := by rcases hq with rfl | rfl <;> rw [hc] <;> decide
      refine run_getS (run_pos (.inr cq) (run_neg (by rw [show (inAt (c :: d :: w ++ q :: r) s).cur = 0x5C from hc]; decide)
        (run_bind (readToTokenData_at c (d :: w ++ q :: r) s (by omega)) ?_)))
      have e : (if (inAt (c :: d :: w ++ q :: r) s).cur = 0x5C then !false else false) = true := if_pos hc
      rw [e]
      refine run_getS (run_pos (.inl rfl) (run_neg (by rintro (h | h); exact h1 h; exact h2 h)
        (run_bind (readToTokenData_at d (w ++ q :: r) { s with td := s.td.set s.tdPos c, tdPos := s.tdPos + 1 } (by show s.tdPos + 1 < 2048; omega)) ?_)))
      have e : ∀ x : Byte, (if x = 0x5C then !true else false) = false := by intro x; split <;> rfl
      rw [e]
      refine (litLoop_at q hq w n r { s with td := (s.td.set s.tdPos c).set (s.tdPos + 1) d, tdPos := s.tdPos + 1 + 1 } (by omega) h3
        (by show s.tdPos + 1 + 1 + w.length ≤ 2048; omega)).trans ?_
      simp only [writeMem, List.length_cons]
      rw [show s.tdPos + 1 + 1 + w.length = s.tdPos + (w.length + 1 + 1) by omega]
    · rw [if_neg hc] at hw
      obtain ⟨h2, h3, h4, h5⟩ := hw
      refine run_getS (run_pos (.inr h2) (run_neg (by rintro (h | h); exact h3 h; exact h4 h) (run_bind (readToTokenData_at c (d :: w ++ q :: r) s (by omega)) ?_)))
      have e : (if (inAt (c :: d :: w ++ q :: r) s).cur = 0x5C then !false else false) = false := if_neg hc
      rw [e]
      refine (litLoop_at q hq (d :: w) (n + 1) r { s with td := s.td.set s.tdPos c, tdPos := s.tdPos + 1 } (by simp only [List.length_cons]; omega) h5
        (by show s.tdPos + 1 + (w.length + 1) ≤ 2048; omega)).trans ?_
      simp only [writeMem, List.length_cons]
      rw [show s.tdPos + 1 + (w.length + 1) = s.tdPos + (w.length + 1 + 1) by omega]
  termination_by w => w.length

theorem lexRaw_lit (n : Nat) (q : Byte) (w r : List Byte) (s : S) (hq : q = 0x22 ∨ q = 0x27) (hn : w.length < n) (hw : LitBody q w)
    (ht : s.tdNext + w.length + 1 ≤ 2048) :
    lexRaw (n + 1) (inAt (q :: (w ++ q :: r)) s) = .ok () (lexed w (PTok.lit q w).ty s.hash r s) := by
  have f : q ≠ 0x0A ∧ q ≠ 0x2F ∧ q ≠ 0x5C := by rcases hq with rfl | rfl <;> decide
  have e1 := readChar_at q (w ++ q :: r) (start s)
  rw [if_neg f.1] at e1
  refine run_bind (lexRaw_start _ _) (run_getS (run_neg f.1 (run_neg f.2.1 (run_neg f.2.2 (run_pos hq (run_bind e1 (run_modS
    (run_bind (litLoop_at q hq w n r { start s with tok := ⟨(PTok.lit q w).ty, .data s.tdNext⟩ } hn hw (by show s.tdNext + w.length ≤ 2048; omega)) ?_))))))))
  have e2 := readChar_at q r { start s with tok := ⟨(PTok.lit q w).ty, .data s.tdNext⟩, td := writeMem s.td s.tdNext w, tdPos := s.tdNext + w.length }
  rw [if_neg f.1] at e2
  refine run_bind e2 ?_
  refine (tokOut_at r _ (by show s.tdNext + w.length < 2048; omega)).trans ?_
  simp only [lexed, start, writeMem_append]
  rfl

/-- The state after a spelled token. -/
def after (t : PTok) (r : List Byte) (s : S) : S :=
  match t with
  | .ws _ => lexedWs tokWs s.line r s
  | .nl => lexedWs tokNl (s.line + 1) r s
  | .id w => lexed w tokRawId (hashOf w) r s
  | .num w => lexed w tokNum s.hash r s
  | .op w => lexed w (PTok.op w).ty s.hash r s
  | .lit q w => lexed w (PTok.lit q w).ty s.hash r s

theorem rawGet_lex {s : S} (hs : s.stack = []) (hq : s.queue = []) : rawGetToken s = lexRaw (s.inp.length + 2) s := by
  have h : rawPop (s.stack.length + 1) s = lexRaw (s.inp.length + 2) s := by
    rw [rawPop, bind_ok (getS_run _), hs]
    simp only [hq]
  exact h

/-- White space without a comment, or another token. -/
def Bare (t : PTok) : Prop := ∀ w, t = .ws w → ∀ c ∈ w, IsBlank c

theorem ws_bare {w : List Byte} (h : (PTok.ws w).Ok) (hb : Bare (.ws w)) : w ≠ [] ∧ ∀ c ∈ w, IsBlank c := by
  obtain ⟨c, b, rfl, _, h2, _⟩ := h
  exact ⟨fun e => h2 (List.append_eq_nil_iff.mp e).2, hb _ rfl⟩

theorem bare_or {t : PTok} (h : t.Ok) : Bare t ∨ ∃ c b, t = .ws (c ++ b) ∧ Block c ∧ b ≠ [] ∧ ∀ d ∈ b, IsBlank d := by
  cases t with
  | ws w =>
    obtain ⟨c, b, rfl, h1, h2, h3⟩ := h
    rcases h1 with rfl | h1
    · left; intro w e; cases e; exact h3
    · exact .inr ⟨c, b, rfl, h1, h2, h3⟩
  | _ => left; intro w e; cases e

/-- A spelled token is read. -/
theorem lexRaw_tok (n : Nat) (t : PTok) (r : List Byte) (s : S) (hn : t.text.length ≤ n) (ht : t.Ok) (hbare : Bare t) (hr : t.Sep r)
    (hl : s.tdNext + t.need ≤ 2048) : lexRaw (n + 1) (inAt (t.text ++ r) s) = .ok () (after t r s) := by
  cases t with
  | ws w =>
    obtain ⟨hne, hb⟩ := ws_bare ht hbare
    cases w with
    | nil => exact absurd rfl hne
    | cons c w => exact lexRaw_ws _ c w r s (by simp only [PTok.text, List.length_cons] at hn; omega) hb hr
  | nl => exact lexRaw_nl _ r s
  | id w =>
    obtain ⟨c, w', rfl, hc, hw⟩ := ht
    exact lexRaw_id _ c w' r s (by simp only [PTok.text, List.length_cons] at hn; omega) hc hw hr (by simp only [PTok.need, PTok.val, PTok.text, List.length_cons] at hl; omega)
  | num w =>
    obtain ⟨c, w', rfl, hc, hw⟩ := ht
    exact lexRaw_num _ c w' r s (by simp only [PTok.text, List.length_cons] at hn; omega) hc hw hr (by simp only [PTok.need, PTok.val, PTok.text, List.length_cons] at hl; omega)
  | op w =>
    obtain ⟨t, x, hx⟩ := ht
    have := opTable_find _ hx
    simp only [after]
    rw [this]
    exact lexRaw_op _ w x t r s hx (fun c hc => hr t x hx c hc) (by simp only [PTok.need, PTok.val, PTok.text, List.length_cons] at hl; omega)
  | lit q w =>
    have e : (PTok.lit q w).text ++ r = q :: (w ++ q :: r) := by simp [PTok.text]
    rw [e]
    exact lexRaw_lit _ q w r s ht.1 (by simp only [PTok.text, List.length_cons, List.length_append] at hn; omega) ht.2 hl

/-! ## Comments -/

theorem lineComment_at : ∀ (w : List Byte) (x : Byte) (n : Nat) (r : List Byte) (s : S), w.length < n → (∀ c ∈ w, c ≠ 0 ∧ c ≠ 0x0A) → (r = [] ∨ r.head? = some 0x0A) →
    lineComment n (inAt (x :: (w ++ r)) s) = .ok () (inAt r s)
  | [], x, n, r, s, hn, _, hr => by
    obtain ⟨n, rfl⟩ := Nat.exists_eq_succ_of_ne_zero (by omega : n ≠ 0)
    refine run_bind (fastChar_at x r s) (run_getS (run_pos ?_ rfl))
    rcases hr with rfl | hr
    · exact .inl rfl
    · cases r with
      | nil => cases hr
      | cons d r => exact .inr (Option.some.inj hr)
  | c :: w, x, n, r, s, hn, hw, hr => by
    simp only [List.length_cons] at hn
    obtain ⟨n, rfl⟩ := Nat.exists_eq_succ_of_ne_zero (by omega : n ≠ 0)
    have hc := hw c (by simp)
    refine run_bind (fastChar_at x (c :: (w ++ r)) s) (run_getS (run_neg (by rintro (h | h); exact hc.1 h; exact hc.2 h) ?_))
    exact lineComment_at w c n r s (by omega) (fun d hd => hw d (by simp [hd])) hr

theorem blockComment_at : ∀ (w : List Byte) (star : Bool) (n : Nat) (r : List Byte) (s : S), w.length + 1 < n → (∀ c ∈ w, c ≠ 0) →
    (∀ a b, w ≠ a ++ 0x2A :: 0x2F :: b) → (star = true → w.head? ≠ some 0x2F) →
    ∃ k, blockComment n star (inAt (w ++ [0x2A, 0x2F] ++ r) s) = .ok () (inAt (0x2F :: r) { s with line := k })
  | [], star, n, r, s, hn, _, _, _ => by
    obtain ⟨n, rfl⟩ : ∃ j, n = j + 2 := ⟨n - 2, by simp only [List.length_nil] at hn; omega⟩
    refine ⟨_, run_getS (run_pos ⟨(by decide : (0x2A : Byte) ≠ 0), .inr (by decide : (0x2A : Byte) ≠ 0x2F)⟩ (run_bind (readChar_at 0x2A (0x2F :: r) s)
      (run_getS (run_neg ?_ rfl))))⟩
    rintro ⟨_, h | h⟩
    · exact absurd h (by show ¬ (((0x2A : Byte) == 0x2A) = false); decide)
    · exact h rfl
  | c :: w, star, n, r, s, hn, hz, hw, hs => by
    simp only [List.length_cons] at hn
    obtain ⟨n, rfl⟩ := Nat.exists_eq_succ_of_ne_zero (by omega : n ≠ 0)
    have hcond : c ≠ 0 ∧ (star = false ∨ c ≠ 0x2F) := by
      refine ⟨hz c (by simp), ?_⟩
      cases star with
      | false => exact .inl rfl
      | true => exact .inr fun e => hs rfl (by rw [e]; rfl)
    obtain ⟨k, hk⟩ := blockComment_at w (c == 0x2A) n r { s with line := if c = 0x0A then s.line + 1 else s.line } (by omega) (fun d hd => hz d (by simp [hd]))
      (fun a b e => hw (c :: a) b (by rw [e]; rfl)) (fun hc h => by
        cases w with
        | nil => cases h
        | cons d w =>
          have h1 : c = 0x2A := by simpa using hc
          have h2 : d = 0x2F := Option.some.inj h
          exact hw [] w (by rw [h1, h2]; rfl))
    refine ⟨k, run_getS (run_pos hcond (run_bind (s1 := inAt (w ++ [0x2A, 0x2F] ++ r) { s with line := if c = 0x0A then s.line + 1 else s.line }) (a := ()) ?_ hk))⟩
    exact readChar_at c (w ++ [0x2A, 0x2F] ++ r) s

/-- A comment is skipped. -/
theorem lexRaw_cmt {c r : List Byte} (h : Cmt c r) (n : Nat) (s : S) (hn : c.length ≤ n) :
    ∃ k, lexRaw (n + 1) (inAt (c ++ r) s) = lexRaw n (inAt r { start s with line := k }) := by
  cases h with
  | @line w _ hw hr =>
    simp only [List.length_cons] at hn
    refine ⟨s.line, ?_⟩
    refine run_bind (lexRaw_start _ _) (run_getS (run_neg (by decide : (0x2F : Byte) ≠ 0x0A) (run_pos rfl (run_bind (readChar_at 0x2F (0x2F :: (w ++ r)) (start s)) (run_getS
      (run_pos rfl (run_bind (lineComment_at w 0x2F n r _ (by omega) hw hr) ?_)))))))
    rfl
  | block hB =>
    obtain ⟨w, rfl, hz, hw⟩ := hB
    simp only [List.length_cons, List.length_append, List.length_nil] at hn
    obtain ⟨k, hk⟩ := blockComment_at w false n r (start s) (by omega) hz hw (fun h => by cases h)
    have e : 0x2F :: 0x2A :: (w ++ [0x2A, 0x2F]) ++ r = 0x2F :: 0x2A :: (w ++ [0x2A, 0x2F] ++ r) := rfl
    rw [e]
    refine ⟨k, ?_⟩
    refine run_bind (lexRaw_start _ _) (run_getS (run_neg (by decide : (0x2F : Byte) ≠ 0x0A) (run_pos rfl (run_bind (readChar_at 0x2F (0x2A :: (w ++ [0x2A, 0x2F] ++ r)) (start s)) (run_getS
      (run_neg (by show ¬ (0x2A : Byte) = 0x2F; decide) (run_pos rfl (run_bind (readChar_at 0x2A (w ++ [0x2A, 0x2F] ++ r) _) (run_bind hk
        (run_bind (readChar_at 0x2F r _) ?_))))))))))
    rfl

/-- Comments are skipped. -/
theorem lexRaw_cmts {m r : List Byte} (h : Cmts m r) : ∀ (n : Nat) (s : S), m.length ≤ n →
    ∃ n' s', r.length ≤ n' ∧ lexRaw (n + 1) (inAt m s) = lexRaw (n' + 1) (inAt r s') ∧ (s' = s ∨ ∃ k, s' = { start s with line := k }) := by
  induction h with
  | nil r => intro n s hn; exact ⟨n, s, hn, rfl, .inl rfl⟩
  | @cons c l r hc _ ih =>
    intro n s hn
    rw [List.length_append] at hn
    have h2 : 2 ≤ c.length := by
      cases hc with
      | line => simp
      | block h => obtain ⟨w, rfl, _⟩ := h; simp
    obtain ⟨k, hk⟩ := lexRaw_cmt hc n s (by omega)
    obtain ⟨n, rfl⟩ : ∃ j, n = j + 1 := ⟨n - 1, by omega⟩
    obtain ⟨n', s', h1, h3, h4⟩ := ih n { start s with line := k } (by omega)
    refine ⟨n', s', h1, hk.trans h3, .inr ?_⟩
    rcases h4 with rfl | ⟨k', rfl⟩
    · exact ⟨k, rfl⟩
    · exact ⟨k', rfl⟩

theorem Cmts.snoc {m c l : List Byte} (h : Cmts m (c ++ l)) (hc : Cmt c l) : Cmts m l := by
  generalize hx : c ++ l = x at h
  induction h with
  | nil r => subst hx; exact .cons hc (.nil _)
  | cons h1 _ ih => exact .cons h1 (ih hx)

/-- `RawGetToken` reads a spelled token after comments. -/
theorem rawGet_tok {t : PTok} {m r : List Byte} (hc : Cmts m (t.text ++ r)) (s : S) (hs : s.stack = []) (hq : s.queue = []) (ht : t.Ok) (hr : t.Sep r)
    (hl : s.tdNext + t.need ≤ 2048) : ∃ s', rawGetToken (inAt m s) = .ok () (after t r s') ∧ (s' = s ∨ ∃ k, s' = { start s with line := k }) := by
  have key : ∀ t : PTok, Cmts m (t.text ++ r) → t.Ok → Bare t → t.Sep r → s.tdNext + t.need ≤ 2048 →
      ∃ s', rawGetToken (inAt m s) = .ok () (after t r s') ∧ (s' = s ∨ ∃ k, s' = { start s with line := k }) := by
    intro t hc ht hb hr hl
    rw [rawGet_lex (by exact hs) (by exact hq)]
    obtain ⟨n', s', h1, h2, h3⟩ := lexRaw_cmts hc ((inAt m s).inp.length + 1) s (by simp [inAt]; omega)
    rw [List.length_append] at h1
    refine ⟨s', h2.trans (lexRaw_tok n' t r s' (by omega) ht hb hr ?_), h3⟩
    rcases h3 with rfl | ⟨k, rfl⟩ <;> exact hl
  rcases bare_or ht with hb | ⟨c, b, rfl, h1, h2, h3⟩
  · exact key t hc ht hb hr hl
  · refine key (.ws b) (Cmts.snoc (c := c) ?_ (.block h1)) ⟨[], b, rfl, .inl rfl, h2, h3⟩ (fun w e => by cases e; exact h3) hr hl
    rw [← List.append_assoc]; exact hc

theorem rawGet_eof {m : List Byte} (hc : Cmts m []) (s : S) (hs : s.stack = []) (hq : s.queue = []) : ∃ k, rawGetToken (inAt m s) =
    .ok () (inAt [] { s with line := k, tdPos := s.tdNext, tok := ⟨if s.tok.ty = tokEof then tokNl else tokEof, .data s.tdNext⟩ }) := by
  rw [rawGet_lex (by exact hs) (by exact hq)]
  obtain ⟨n', s', h1, h2, h3⟩ := lexRaw_cmts hc ((inAt m s).inp.length + 1) s (by simp [inAt]; omega)
  rcases h3 with rfl | ⟨k, rfl⟩
  · exact ⟨_, h2.trans (lexRaw_eof _ _)⟩
  · exact ⟨k, h2.trans (lexRaw_eof _ _)⟩

/-! ## A text begins with at most one token -/

theorem span_unique {p : Byte → Prop} {l r : List Byte} (hl : ∀ c, l.head? = some c → ¬ p c) (hr : ∀ c, r.head? = some c → ¬ p c) :
    ∀ {w w' : List Byte}, (∀ c ∈ w, p c) → (∀ c ∈ w', p c) → w ++ l = w' ++ r → w = w'
  | [], [], _, _, _ => rfl
  | [], c :: w', _, h, e => absurd (h c (by simp)) (hl c (by rw [show l = c :: (w' ++ r) from e]; rfl))
  | c :: w, [], h, _, e => absurd (h c (by simp)) (hr c (by rw [show r = c :: (w ++ l) from e.symm]; rfl))
  | c :: w, c' :: w', h, h', e => by
    have e1 : c = c' := (List.cons.inj e).1
    have e2 : w ++ l = w' ++ r := (List.cons.inj e).2
    rw [e1, span_unique hl hr (fun d hd => h d (by simp [hd])) (fun d hd => h' d (by simp [hd])) e2]

theorem lit_inv {q c : Byte} {w : List Byte} (h : LitBody q (c :: w)) : (c = 0x5C ∧ ∃ d v, w = d :: v ∧ LitBody q v) ∨ (c ≠ 0x5C ∧ c ≠ q ∧ LitBody q w) := by
  cases w with
  | nil => exact .inr ⟨h.1, h.2.1, trivial⟩
  | cons d v =>
    rw [LitBody] at h
    by_cases hc : c = 0x5C
    · rw [if_pos hc] at h; exact .inl ⟨hc, d, v, rfl, h.2.2⟩
    · rw [if_neg hc] at h; exact .inr ⟨hc, h.1, h.2.2.2⟩

theorem lit_unique {q : Byte} (hq : q ≠ 0x5C) {l r : List Byte} : ∀ (n : Nat) (w w' : List Byte), w.length ≤ n → LitBody q w → LitBody q w' → w ++ q :: l = w' ++ q :: r → w = w'
  | _, [], [], _, _, _, _ => rfl
  | _, [], c :: w', _, _, h, e => by
    have e1 : q = c := (List.cons.inj e).1
    rcases lit_inv h with ⟨rfl, _⟩ | ⟨_, h, _⟩
    · exact absurd e1 hq
    · exact absurd e1.symm h
  | _, c :: w, [], _, h, _, e => by
    have e1 : c = q := (List.cons.inj e).1
    rcases lit_inv h with ⟨rfl, _⟩ | ⟨_, h, _⟩
    · exact absurd e1.symm hq
    · exact absurd e1 h
  | n + 1, c :: w, c' :: w', hn, h, h', e => by
    have e1 : c = c' := (List.cons.inj e).1
    have e2 : w ++ q :: l = w' ++ q :: r := (List.cons.inj e).2
    clear e
    subst e1
    simp only [List.length_cons] at hn
    rcases lit_inv h with ⟨h1, d, v, rfl, h2⟩ | ⟨h1, _, h2⟩ <;> rcases lit_inv h' with ⟨g1, d', v', rfl, g2⟩ | ⟨g1, _, g2⟩
    · have e3 : d = d' := (List.cons.inj e2).1
      have e4 : v ++ q :: l = v' ++ q :: r := (List.cons.inj e2).2
      simp only [List.length_cons] at hn
      rw [e3, lit_unique hq n v v' (by omega) h2 g2 e4]
    · exact absurd h1 g1
    · exact absurd g1 h1
    · rw [lit_unique hq n w w' (by omega) h2 g2 e2]

/-- What a token is, by its first character. -/
def kind (c : Byte) : Nat :=
  if c = 0x0A then 1 else if IsBlank c then 0 else if IsAlpha c then 2 else if IsDig c then 3 else if c = 0x22 ∨ c = 0x27 then 5 else 4

def PTok.kind : PTok → Nat
  | .ws _ => 0
  | .nl => 1
  | .id _ => 2
  | .num _ => 3
  | .op _ => 4
  | .lit _ _ => 5

theorem kind_facts : ∀ c : Byte, (IsBlank c → ScppLex.kind c = 0) ∧ (IsAlpha c → ScppLex.kind c = 2) ∧ (IsDig c → ScppLex.kind c = 3) ∧ (c = 0x22 ∨ c = 0x27 → ScppLex.kind c = 5) := by decide +kernel

theorem op_kind : ∀ e ∈ opTable, e.1 ≠ [] ∧ (e.1.head?.map ScppLex.kind) = some 4 := by decide +kernel

theorem head_kind {t : PTok} (h : t.Ok) (hb : Bare t) : ∃ c w, t.text = c :: w ∧ ScppLex.kind c = t.kind := by
  cases t with
  | ws w =>
    have h := ws_bare h hb
    cases w with
    | nil => exact absurd rfl h.1
    | cons c w => exact ⟨c, w, rfl, (kind_facts c).1 (h.2 c (by simp))⟩
  | nl => exact ⟨_, _, rfl, rfl⟩
  | id w => obtain ⟨c, w, rfl, hc, _⟩ := h; exact ⟨c, w, rfl, (kind_facts c).2.1 hc⟩
  | num w => obtain ⟨c, w, rfl, hc, _⟩ := h; exact ⟨c, w, rfl, (kind_facts c).2.2.1 hc⟩
  | op w =>
    obtain ⟨t, x, hx⟩ := h
    obtain ⟨h1, h2⟩ := op_kind _ hx
    cases w with
    | nil => exact absurd rfl h1
    | cons c w => exact ⟨c, w, rfl, Option.some.inj h2⟩
  | lit q w => exact ⟨_, _, rfl, (kind_facts q).2.2.2 h.1⟩

theorem op_longer : ∀ e ∈ opTable, ∀ e' ∈ opTable, e.1 = e'.1 ∨ ((e.1.isPrefixOf e'.1 = true → ∃ c ∈ (e'.1.drop e.1.length).head?, c ∈ e.2.2)) := by decide +kernel

theorem op_unique {w w' l r : List Byte} (h : (PTok.op w).Ok) (h' : (PTok.op w').Ok) (hl : (PTok.op w).Sep l) (hr : (PTok.op w').Sep r) (e : w ++ l = w' ++ r) : w = w' := by
  have key : ∀ {w w' l r : List Byte}, (PTok.op w).Ok → (PTok.op w').Ok → (PTok.op w).Sep l → w ++ l = w' ++ r → w.length ≤ w'.length → w = w' := by
    intro w w' l r h h' hl e hlen
    obtain ⟨t, x, hx⟩ := h
    obtain ⟨t', x', hx'⟩ := h'
    rcases op_longer _ hx _ hx' with h1 | h1
    · exact h1
    · obtain ⟨a, rfl⟩ : ∃ a, w' = w ++ a := by
        have := List.prefix_of_prefix_length_le (l₁ := w) (l₂ := w') (l₃ := w' ++ r) ⟨l, e⟩ ⟨r, rfl⟩ hlen
        obtain ⟨a, ha⟩ := this
        exact ⟨a, ha.symm⟩
      obtain ⟨c, hc, hcx⟩ := h1 (by simp)
      have hla : l = a ++ r := by rw [List.append_assoc] at e; exact List.append_cancel_left e
      simp only [List.drop_left] at hc
      cases a with
      | nil => cases hc
      | cons d a =>
        have : d = c := Option.some.inj hc
        subst this
        exact absurd hcx (hl t x hx d (by rw [hla]; rfl))
  by_cases hlen : w.length ≤ w'.length
  · exact key h h' hl e hlen
  · exact (key h' h hr e.symm (by omega)).symm

theorem bare_unique {t t' : PTok} {l r : List Byte} (h : t.Ok) (h' : t'.Ok) (hb : Bare t) (hb' : Bare t') (hl : t.Sep l) (hr : t'.Sep r) (e : t.text ++ l = t'.text ++ r) : t = t' := by
  have htt : t = t' := by
    obtain ⟨c, w, e1, k1⟩ := head_kind h hb
    obtain ⟨c', w', e2, k2⟩ := head_kind h' hb'
    have hcc : c = c' := by rw [e1, e2] at e; exact (List.cons.inj e).1
    have hk : t.kind = t'.kind := by rw [← k1, ← k2, hcc]
    cases t <;> cases t' <;> first | exact absurd hk (by simp only [PTok.kind]; decide) | skip
    case ws w w' => rw [span_unique (p := IsBlank) (fun c hc => (hl c hc).1) (fun c hc => (hr c hc).1) (ws_bare h hb).2 (ws_bare h' hb').2 e]
    case nl => rfl
    case id w w' =>
      obtain ⟨a, b, rfl, ha, hb⟩ := h
      obtain ⟨a', b', rfl, ha', hb'⟩ := h'
      rw [span_unique (p := IsWord) hl hr (w := a :: b) (w' := a' :: b') (by
          intro d hd
          rcases List.mem_cons.mp hd with rfl | hd
          · exact .inl ha
          · exact hb d hd) (by
          intro d hd
          rcases List.mem_cons.mp hd with rfl | hd
          · exact .inl ha'
          · exact hb' d hd) e]
    case num w w' =>
      obtain ⟨a, b, rfl, ha, hb⟩ := h
      obtain ⟨a', b', rfl, ha', hb'⟩ := h'
      rw [span_unique (p := IsWord) hl hr (w := a :: b) (w' := a' :: b') (by
          intro d hd
          rcases List.mem_cons.mp hd with rfl | hd
          · exact .inr ha
          · exact hb d hd) (by
          intro d hd
          rcases List.mem_cons.mp hd with rfl | hd
          · exact .inr ha'
          · exact hb' d hd) e]
    case op w w' => rw [op_unique h h' hl hr e]
    case lit q w q' w' =>
      have hq : q = q' := (List.cons.inj e).1
      subst hq
      have e' : w ++ q :: l = w' ++ q :: r := by
        have : (w ++ [q]) ++ l = (w' ++ [q]) ++ r := (List.cons.inj e).2
        rw [List.append_assoc, List.append_assoc] at this
        exact this
      rw [lit_unique (by rcases h.1 with rfl | rfl <;> decide) _ w w' (Nat.le_refl _) h.2 h'.2 e']
  exact htt

/-- A comment ends at one place. -/
theorem block_unique {l r : List Byte} : ∀ {w w' : List Byte}, (∀ a b, w ≠ a ++ 0x2A :: 0x2F :: b) → (∀ a b, w' ≠ a ++ 0x2A :: 0x2F :: b) →
    w ++ 0x2A :: 0x2F :: l = w' ++ 0x2A :: 0x2F :: r → w = w'
  | [], [], _, _, _ => rfl
  | [], [c], _, _, e => by
    have e : (0x2A : Byte) :: 0x2F :: l = c :: 0x2A :: 0x2F :: r := e
    have := (List.cons.inj (List.cons.inj e).2).1
    exact absurd this (by decide)
  | [], c :: d :: w', _, h', e => by
    have e : (0x2A : Byte) :: 0x2F :: l = c :: d :: (w' ++ 0x2A :: 0x2F :: r) := e
    have e1 := (List.cons.inj e).1
    have e2 := (List.cons.inj (List.cons.inj e).2).1
    exact absurd (by rw [← e1, ← e2]; rfl) (h' [] w')
  | [c], [], _, _, e => by
    have e : c :: 0x2A :: 0x2F :: l = (0x2A : Byte) :: 0x2F :: r := e
    have := (List.cons.inj (List.cons.inj e).2).1
    exact absurd this (by decide)
  | c :: d :: w, [], h, _, e => by
    have e : c :: d :: (w ++ 0x2A :: 0x2F :: l) = (0x2A : Byte) :: 0x2F :: r := e
    have e1 := (List.cons.inj e).1
    have e2 := (List.cons.inj (List.cons.inj e).2).1
    exact absurd (by rw [e1, e2]; rfl) (h [] w)
  | c :: w, c' :: w', h, h', e => by
    have e1 : c = c' := (List.cons.inj e).1
    have e2 : w ++ 0x2A :: 0x2F :: l = w' ++ 0x2A :: 0x2F :: r := (List.cons.inj e).2
    rw [e1, block_unique (fun a b x => h (c :: a) b (by rw [x]; rfl)) (fun a b x => h' (c' :: a) b (by rw [x]; rfl)) e2]

theorem op_slash : ∀ e ∈ opTable, e.1.head? = some 0x2F → e.1 = [0x2F] ∧ 0x2A ∈ e.2.2 := by decide +kernel

/-- A comment is no other token. -/
theorem block_bare {c b l r : List Byte} {t : PTok} (hc : Block c) (h : t.Ok) (hb : Bare t) (hr : t.Sep r) : c ++ b ++ l ≠ t.text ++ r := by
  obtain ⟨w, rfl, _⟩ := hc
  intro e
  obtain ⟨d, v, e1, k⟩ := head_kind h hb
  rw [e1] at e
  have hd : (0x2F : Byte) = d := (List.cons.inj e).1
  subst hd
  have e2 : 0x2A :: (w ++ [0x2A, 0x2F] ++ b ++ l) = v ++ r := (List.cons.inj e).2
  have k : 4 = t.kind := k
  have hop : ∃ x, t = .op x := by
    cases t <;> first | exact absurd k (by simp only [PTok.kind]; decide) | exact ⟨_, rfl⟩
  obtain ⟨x, rfl⟩ := hop
  · obtain ⟨t, y, hx⟩ := h
    have e1 : x = 0x2F :: v := e1
    obtain ⟨h1, h2⟩ := op_slash _ hx (by rw [e1]; rfl)
    have h1 : x = [0x2F] := h1
    rw [h1] at e1
    have hv : v = [] := (List.cons.inj e1).2.symm
    subst hv
    exact hr t y hx 0x2A (by rw [show r = _ from e2.symm]; rfl) h2

theorem tok_unique {t t' : PTok} {l r : List Byte} (h : t.Ok) (h' : t'.Ok) (hl : t.Sep l) (hr : t'.Sep r) (e : t.text ++ l = t'.text ++ r) : t = t' ∧ l = r := by
  have htt : t = t' := by
    rcases bare_or h with hb | ⟨c, b, rfl, h1, h2, h3⟩ <;> rcases bare_or h' with hb' | ⟨c', b', rfl, h1', h2', h3'⟩
    · exact bare_unique h h' hb hb' hl hr e
    · exact absurd e.symm (block_bare h1' h hb hl)
    · exact absurd e (block_bare h1 h' hb' hr)
    · obtain ⟨w, rfl, _, hw⟩ := h1
      obtain ⟨w', rfl, _, hw'⟩ := h1'
      have e0 : 0x2F :: 0x2A :: (w ++ [0x2A, 0x2F] ++ b ++ l) = 0x2F :: 0x2A :: (w' ++ [0x2A, 0x2F] ++ b' ++ r) := e
      have e1 : w ++ [0x2A, 0x2F] ++ b ++ l = w' ++ [0x2A, 0x2F] ++ b' ++ r := (List.cons.inj (List.cons.inj e0).2).2
      simp only [List.append_assoc, List.cons_append, List.nil_append] at e1
      have e2 := block_unique hw hw' e1
      subst e2
      have e3 := List.append_cancel_left e1
      have e4 : b ++ l = b' ++ r := (List.cons.inj (List.cons.inj e3).2).2
      rw [span_unique (p := IsBlank) (fun c hc => (hl c hc).1) (fun c hc => (hr c hc).1) h3 h3' e4]
  subst htt
  exact ⟨rfl, List.append_cancel_left e⟩

theorem text_ne {t : PTok} (h : t.Ok) : t.text ≠ [] := by
  rcases bare_or h with hb | ⟨c, b, rfl, h1, h2, h3⟩
  · obtain ⟨c, w, e, _⟩ := head_kind h hb
    rw [e]; simp
  · exact fun e => h2 (List.append_eq_nil_iff.mp e).2

/-- The first token of a text with comments. -/
theorem Commented.inv {t : PTok} {m r : List Byte} (h : Commented m (t.text ++ r)) (ht : t.Ok) (hr : t.Sep r) :
    ∃ r', Cmts m (t.text ++ r') ∧ t.Sep r' ∧ Commented r' r := by
  generalize hx : t.text ++ r = x at h
  cases h with
  | rest => subst hx; exact ⟨r, .nil _, hr, .rest _⟩
  | nil h =>
    exact absurd (List.append_eq_nil_iff.mp hx).1 (text_ne ht)
  | @tok t' m l' l ok sep' sep hc h =>
    obtain ⟨rfl, rfl⟩ := tok_unique ht ok hr sep hx
    exact ⟨l', hc, sep', h⟩

theorem Commented.inv_nil {m : List Byte} (h : Commented m []) : Cmts m [] := by
  generalize hx : ([] : List Byte) = x at h
  cases h with
  | rest => subst hx; exact .nil _
  | nil h => exact h
  | @tok t' m l' l ok sep' sep hc h =>
    exact absurd (List.append_eq_nil_iff.mp hx.symm).1 (text_ne ok)

end Props.ScppLex
