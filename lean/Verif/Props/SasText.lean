import Verif.Props.SasTotal
/-!
# Source texts as sequences of lexical elements (for C22 to C24)

`Reads text xs` is a specification of its own: it says which texts spell the sequence `xs`, without reference to the lexer.
-/
namespace Props.SasText
open Sas I86 Text Prog Props.SasIds Props.SasTotal

/-- A lexical element: a reserved word by its number in the list of names, a number, a string, a sign, or `<<`. -/
inductive Lx
  | word (k : Nat)
  | num (n : Nat)
  | str (s : List Byte)
  | sym (c : Byte)
  | lsh

/-- A byte that separates: a control character or space (NUL ends the text), or one from 0x80 on. -/
def Blank (c : Byte) : Prop := c ≠ 0 ∧ c.toInt ≤ 0x20

/-- A byte that may continue a word or number. -/
def WordChar (c : Byte) : Bool := isDigit c || isIdChar c

/-- The value of a hexadecimal digit. -/
def hexDigit (c : Byte) : Option Nat :=
  if 0x30 ≤ c.toNat ∧ c.toNat ≤ 0x39 then some (c.toNat - 0x30)
  else if 0x41 ≤ c.toNat ∧ c.toNat ≤ 0x46 then some (c.toNat - 0x41 + 10)
  else if 0x61 ≤ c.toNat ∧ c.toNat ≤ 0x66 then some (c.toNat - 0x61 + 10)
  else none

/-- The digits `ds` continue the number `a` to `n` in base 16. -/
inductive HexFrom : Nat → List Byte → Nat → Prop
  | nil {a : Nat} : HexFrom a [] a
  | cons {a d n : Nat} {c : Byte} {ds : List Byte} : hexDigit c = some d → HexFrom (a * 16 + d) ds n → HexFrom a (c :: ds) n

/-- The text of a lexical element. -/
inductive Spells : Lx → List Byte → Prop
  | word {k : Nat} {w : List Byte} : k < 99 → builtins[k]? = some (w.map upcase) → Spells (.word k) w
  | dec {n : Nat} {ds : List Byte} : ds ≠ [] → (∀ d ∈ ds, IsDigit d) → decVal ds = n → n < 2147483500 → Spells (.num n) ds
  | hex {n : Nat} {x : Byte} {ds : List Byte} : x = chr 'x' ∨ x = chr 'X' → HexFrom 0 ds n → n < 2147483500 →
      Spells (.num n) (chr '0' :: x :: ds)
  | str {s : List Byte} : s.length < 128 → (∀ c ∈ s, c ≠ chr '\'' ∧ c ≠ 0) → Spells (.str s) (chr '\'' :: (s ++ [chr '\'']))
  | sym {c : Byte} : c ∈ [chr '+', chr '-', chr ':', chr ',', chr '[', chr ']', chr '|', chr '~'] → Spells (.sym c) [c]
  | lsh : Spells .lsh [chr '<', chr '<']

/-- Must the element be separated from a following letter or digit? -/
def Lx.wordy : Lx → Bool
  | .word _ | .num _ => true
  | _ => false

/-- The text spells the sequence: blanks before and after the elements, and no letter or digit directly behind a word or number. -/
inductive Reads : List Byte → List Lx → Prop
  | nil {ws : List Byte} : (∀ c ∈ ws, Blank c) → Reads ws []
  | cons {ws w rest : List Byte} {x : Lx} {xs : List Lx} : (∀ c ∈ ws, Blank c) → Spells x w →
      (x.wordy = true → ∀ c ∈ rest.head?, WordChar c = false) → Reads rest xs → Reads (ws ++ (w ++ rest)) (x :: xs)

/-- The token of an element. -/
def Lx.tok : Lx → Tok
  | .word k => { ty := synonym (tokId + k) }
  | .num n => { ty := tokNumber, num := n }
  | .str s => { ty := tokString, str := s }
  | .sym c => { ty := c.toNat }
  | .lsh => { ty := tokLsh }

/-- The lexer has read the first element, the others follow. -/
def At (l : Lex) (xs : List Lx) : Prop :=
  Tab l.ids ∧ match xs with
  | [] => l.tok = { ty := tokEof } ∧ l.inp = []
  | x :: r => l.tok = x.tok ∧ Reads l.inp r

theorem skipWs_blank : ∀ {ws : List Byte} {r : List Byte}, (∀ c ∈ ws, Blank c) → skipWs false (ws ++ r) = skipWs false r
  | [], _, _ => rfl
  | c :: ws, r, h => by
    have hc := h c (by simp)
    rw [List.cons_append, skipWs, if_neg hc.1, if_pos hc.2]
    exact skipWs_blank fun c h' => h c (by simp [h'])

theorem skipWs_stop {c : Byte} {r : List Byte} (h : ¬ c.toInt ≤ 0x20) (h2 : c ≠ chr ';') : skipWs false (c :: r) = c :: r := by
  unfold skipWs
  by_cases h0 : c = 0
  · rw [if_pos h0]
  · rw [if_neg h0, if_neg h, if_neg h2]

theorem dropWhile_word {w rest : List Byte} (hw : ∀ c ∈ w, WordChar c = true) (hr : ∀ c ∈ rest.head?, WordChar c = false) :
    (w ++ rest).takeWhile WordChar = w ∧ (w ++ rest).dropWhile WordChar = rest := by
  induction w with
  | nil =>
    cases rest with
    | nil => simp
    | cons c r => have := hr c (by simp); simp [List.takeWhile_cons, List.dropWhile_cons, this]
  | cons c w ih =>
    have := hw c (by simp)
    obtain ⟨h1, h2⟩ := ih fun c h => hw c (by simp [h])
    simp [List.takeWhile_cons, List.dropWhile_cons, this, h1, h2]

theorem isDigit_iff {c : Byte} : isDigit c = true ↔ IsDigit c := by
  simp [isDigit, IsDigit]

/-- Decimal digits. -/
theorem decRun_digits : ∀ {ds rest : List Byte} {a : Nat}, (∀ d ∈ ds, IsDigit d) → (∀ c ∈ rest.head?, isDigit c = false) →
    ds.foldl (fun a b => a * 10 + (b.toNat - 0x30)) a < 2147483500 →
    decRun a (ds ++ rest) = .ok ((ds.foldl (fun a b => a * 10 + (b.toNat - 0x30)) a : Nat), rest)
  | [], rest, a, _, hr, _ => by
    cases rest with
    | nil => simp [decRun]
    | cons c r => have := hr c (by simp); simp [decRun, this]
  | c :: ds, rest, a, hd, hr, hn => by
    have hc := hd c (by simp)
    have hle : a * 10 + (c.toNat - 0x30) ≤ ds.foldl (fun a b => a * 10 + (b.toNat - 0x30)) (a * 10 + (c.toNat - 0x30)) := by
      clear hn hd hr
      generalize a * 10 + (c.toNat - 0x30) = b
      induction ds generalizing b with
      | nil => simp
      | cons e ds ih => simp only [List.foldl_cons]; exact Nat.le_trans (by omega) (ih _)
    simp only [List.foldl_cons] at hn ⊢
    have h1 : accDigit 10 a c 0x30 0 = .ok ((a * 10 + (c.toNat - 0x30) : Nat) : Int) := by
      unfold accDigit IsDigit at *
      rw [if_pos]
      · congr 1; omega
      · simp only [inInt, Bool.and_eq_true, decide_eq_true_eq]; omega
    rw [List.cons_append, decRun, if_pos (isDigit_iff.mpr hc), h1]
    exact decRun_digits (fun d h => hd d (by simp [h])) hr hn

theorem HexFrom.le {a n : Nat} {ds : List Byte} (h : HexFrom a ds n) : a ≤ n := by
  induction h with
  | nil => exact Nat.le_refl _
  | cons _ _ ih => omega

theorem hexRun_digits {a n : Nat} {ds : List Byte} (h : HexFrom a ds n) {rest : List Byte} (hr : ∀ c ∈ rest.head?, hexDigit c = none)
    (hn : n < 2147483500) : hexRun a (ds ++ rest) = .ok ((n : Int), rest) := by
  induction h with
  | nil =>
    cases rest with
    | nil => simp [hexRun]
    | cons c r =>
      have := hr c (by simp)
      unfold hexDigit at this
      have h1 : ¬ (0x30 ≤ c.toNat ∧ c.toNat ≤ 0x39) := fun h => by rw [if_pos h] at this; cases this
      rw [if_neg h1] at this
      have h2 : ¬ (0x41 ≤ c.toNat ∧ c.toNat ≤ 0x46) := fun h => by rw [if_pos h] at this; cases this
      rw [if_neg h2] at this
      have h3 : ¬ (0x61 ≤ c.toNat ∧ c.toNat ≤ 0x66) := fun h => by rw [if_pos h] at this; cases this
      have h0 : ¬ isDigit c = true := by rw [isDigit_iff]; exact h1
      simp only [List.nil_append, hexRun, if_neg h0, if_neg h2, if_neg h3]
  | @cons a d n c ds hd hh ih =>
    have hle := hh.le
    have ih := ih hn
    unfold hexDigit at hd
    rw [List.cons_append, hexRun]
    have acc : ∀ off add : Nat, off ≤ c.toNat → c.toNat - off + add = d → c.toNat ≤ d + 90 → add ≤ 10 →
        accDigit 16 a c off add = .ok ((a * 16 + d : Nat) : Int) := by
      intro off add h1 h2 h3 h4
      unfold accDigit
      rw [if_pos]
      · congr 1; omega
      · simp only [inInt, Bool.and_eq_true, decide_eq_true_eq]; omega
    split at hd
    · next h =>
      have hd := Option.some.inj hd
      have := acc 0x30 0 (by omega) (by omega) (by omega) (by omega)
      rw [if_pos (isDigit_iff.mpr h)]
      rw [show accDigit 16 (↑a) c 48 0 = .ok ((a * 16 + d : Nat) : Int) from this]
      exact ih
    · next h0 =>
      rw [if_neg (fun h => h0 (isDigit_iff.mp h))]
      split at hd
      · next h =>
        have hd := Option.some.inj hd
        have := acc 0x41 10 (by omega) (by omega) (by omega) (by omega)
        rw [if_pos h]
        rw [show accDigit 16 (↑a) c 65 10 = .ok ((a * 16 + d : Nat) : Int) from this]
        exact ih
      · next h1 =>
        rw [if_neg h1]
        split at hd
        · next h =>
          have hd := Option.some.inj hd
          have := acc 0x61 10 (by omega) (by omega) (by omega) (by omega)
          rw [if_pos h]
          rw [show accDigit 16 (↑a) c 97 10 = .ok ((a * 16 + d : Nat) : Int) from this]
          exact ih
        · cases hd

theorem hexDigit_word : ∀ c : Byte, WordChar c = false → hexDigit c = none := by decide +kernel
theorem digit_word {c : Byte} (h : WordChar c = false) : isDigit c = false := by
  unfold WordChar at h; cases h1 : isDigit c <;> simp_all

theorem lexStr_text : ∀ {s rest acc : List Byte}, (∀ c ∈ s, c ≠ chr '\'' ∧ c ≠ 0) → acc.length + s.length < 128 →
    lexStr acc (s ++ chr '\'' :: rest) = .ok (acc ++ s, rest)
  | [], rest, acc, _, hl => by
    simp only [List.nil_append, lexStr, if_true, List.append_nil]
    rw [if_pos (by simpa using hl)]
  | c :: s, rest, acc, hc, hl => by
    have := hc c (by simp)
    simp only [List.length_cons] at hl
    rw [List.cons_append, lexStr, if_neg this.1, if_neg (by omega), if_neg this.2]
    rw [lexStr_text (fun d h => hc d (by simp [h])) (by simp; omega)]
    simp

theorem builtins_id : ∀ w ∈ builtins, w ≠ [] ∧ w.length ≤ 16 ∧ (∀ c ∈ w, isAlpha c = true) := by decide +kernel

theorem upcase_alpha : ∀ c : Byte, isAlpha (upcase c) = true → isAlpha c = true := by decide +kernel
theorem alpha_id : ∀ c : Byte, isAlpha c = true → isIdChar c = true ∧ isDigit c = false ∧ ¬ c.toInt ≤ 0x20 ∧ c ≠ chr ';' ∧ c ≠ 0 := by decide +kernel
theorem digit_ws : ∀ c : Byte, isDigit c = true → ¬ c.toInt ≤ 0x20 ∧ c ≠ chr ';' ∧ c ≠ 0 := by decide +kernel

/-- A reserved word. -/
theorem getId_word {ids : IdTab} (ht : Tab ids) {k : Nat} {w : List Byte} (hk : k < 99) (hw : builtins[k]? = some (w.map upcase)) :
    getId ids w = .ok (k, ids) := by
  have hc : canon w = w.map upcase := by unfold canon; rw [if_pos (List.mem_of_getElem? hw)]
  have := (lookupId_eq ht w).1 k (by rw [getElem?_take_builtins ht hk, hw, hc])
  unfold getId; rw [this]

/-- The lexer reads the first element. -/
theorem lexTok_spells {equ : Nat → Option Int} {ids : IdTab} (ht : Tab ids) {x : Lx} {w rest : List Byte} (h : Spells x w)
    (hr : x.wordy = true → ∀ c ∈ rest.head?, WordChar c = false) : ∃ c r, w ++ rest = c :: r ∧ ¬ c.toInt ≤ 0x20 ∧ c ≠ chr ';' ∧ c ≠ 0 ∧
    lexTok equ ids c r = .ok { inp := rest, ids, tok := x.tok } := by
  cases h with
  | @word k w hk hw =>
    have hm := List.mem_of_getElem? hw
    obtain ⟨h1, h2, h3⟩ := builtins_id _ hm
    have ha : ∀ c ∈ w, isAlpha c = true := fun c hc => upcase_alpha c (h3 _ (List.mem_map_of_mem hc))
    cases w with
    | nil => exact absurd rfl h1
    | cons c w =>
      obtain ⟨i1, i2, i3, i4, i5⟩ := alpha_id c (ha c (by simp))
      refine ⟨c, w ++ rest, rfl, i3, i4, i5, ?_⟩
      unfold lexTok
      rw [if_neg (by rw [i2]; decide), if_pos i1]
      have := dropWhile_word (w := w) (rest := rest) (fun c hc => by
        have := alpha_id c (ha c (by simp [hc])); simp [WordChar, this.1]) (hr rfl)
      have e1 : (w ++ rest).takeWhile (fun c => isDigit c || isIdChar c) = w := this.1
      have e2 : (w ++ rest).dropWhile (fun c => isDigit c || isIdChar c) = rest := this.2
      dsimp only
      rw [e1, e2, List.take_of_length_le (by simpa using h2), getId_word ht hk hw]
      have : ¬ tokId + k ≥ tokUserId := by simp [tokId, tokUserId]; omega
      dsimp only
      rw [Nat.add_comm k tokId]
      unfold translateId
      rw [if_neg this]
      rfl
  | @dec n ds h1 h2 h3 h4 =>
    cases w with
    | nil => exact absurd rfl h1
    | cons c ds =>
      have hc : IsDigit c := h2 c (by simp)
      obtain ⟨i3, i4, i5⟩ := digit_ws c (isDigit_iff.mpr hc)
      refine ⟨c, ds ++ rest, rfl, i3, i4, i5, ?_⟩
      unfold lexTok
      rw [if_pos (isDigit_iff.mpr hc)]
      have hx : ¬ ((ds ++ rest).headD 0 = chr 'x' ∨ (ds ++ rest).headD 0 = chr 'X') := by
        cases ds with
        | nil =>
          cases rest with
          | nil => decide
          | cons d r =>
            have := hr rfl d (by simp)
            rintro (h | h) <;> (have h : d = _ := h; rw [h] at this; revert this; decide)
        | cons d r =>
          have := h2 d (by simp)
          rintro (h | h) <;> (have h : d = _ := h; rw [h] at this; revert this; decide)
      have hv : decVal (c :: ds) = ds.foldl (fun a b => a * 10 + (b.toNat - 0x30)) (c.toNat - 0x30) := by simp [decVal]
      rw [hv] at h3
      have hd := decRun_digits (ds := ds) (rest := rest) (a := c.toNat - 0x30) (fun d h => h2 d (by simp [h]))
        (fun d h => digit_word (hr rfl d h)) (by omega)
      have hc0 : (c.toNat : Int) - 0x30 = ((c.toNat - 0x30 : Nat) : Int) := by unfold IsDigit at hc; omega
      simp only [lexNum]
      rw [if_neg (fun h => hx h.2), hc0, hd, h3]
      rfl
  | @hex n x ds h1 h2 h3 =>
    refine ⟨chr '0', x :: (ds ++ rest), rfl, by decide, by decide, by decide, ?_⟩
    unfold lexTok
    rw [if_pos (by decide)]
    have hh := hexRun_digits h2 (rest := rest) (fun d h => hexDigit_word d (hr rfl d h)) h3
    have hd : decRun n rest = .ok ((n : Int), rest) := by
      have := decRun_digits (ds := []) (rest := rest) (a := n) (by simp) (fun d h => digit_word (hr rfl d h)) (by simpa using h3)
      simpa using this
    have hn : lexNum (chr '0') (x :: (ds ++ rest)) = .ok ((n : Int), rest) := by
      unfold lexNum
      dsimp only
      rw [if_pos ⟨by decide, h1⟩]
      have hz : ((chr '0').toNat : Int) - 0x30 = ((0 : Nat) : Int) := by decide
      rw [List.tail_cons, hz, hh]
      exact hd
    rw [hn]
    rfl
  | @str s h1 h2 =>
    refine ⟨chr '\'', s ++ chr '\'' :: rest, by simp, by decide, by decide, by decide, ?_⟩
    unfold lexTok
    rw [if_neg (by decide), if_neg (by decide), if_pos rfl, lexStr_text h2 (by simpa using h1)]
    rfl
  | @sym c h1 =>
    refine ⟨c, rest, rfl, ?_⟩
    have h2 : ¬ c.toInt ≤ 0x20 ∧ c ≠ chr ';' ∧ c ≠ 0 ∧ isDigit c = false ∧ isIdChar c = false ∧ c ≠ chr '\'' ∧
        (c = chr '+' ∨ c = chr '-' ∨ c = chr ':' ∨ c = chr ',' ∨ c = chr '[' ∨ c = chr ']' ∨ c = chr '|' ∨ c = chr '~') := by
      simp only [List.mem_cons, List.not_mem_nil, or_false] at h1
      rcases h1 with rfl | rfl | rfl | rfl | rfl | rfl | rfl | rfl <;> decide
    obtain ⟨a1, a2, a3, a4, a5, a6, a7⟩ := h2
    refine ⟨a1, a2, a3, ?_⟩
    unfold lexTok
    rw [if_neg (by rw [a4]; decide), if_neg (by rw [a5]; decide), if_neg a6, if_pos a7]
    rfl
  | lsh =>
    refine ⟨chr '<', chr '<' :: rest, rfl, by decide, by decide, by decide, ?_⟩
    unfold lexTok
    rw [if_neg (by decide), if_neg (by decide), if_neg (by decide), if_neg (by decide), if_pos ⟨rfl, rfl⟩]
    rfl

theorem lexStep_reads {equ : Nat → Option Int} {l : Lex} (ht : Tab l.ids) {xs : List Lx} (h : Reads l.inp xs) :
    ∃ l', lexStep equ l = .ok l' ∧ At l' xs := by
  obtain ⟨inp, ids, tok⟩ := l
  cases h with
  | nil hb =>
    refine ⟨{ inp := [], ids, tok := { ty := tokEof } }, ?_, ht, rfl, rfl⟩
    have := skipWs_blank (r := []) hb
    rw [List.append_nil] at this
    unfold lexStep
    rw [this]
    rfl
  | @cons ws w rest x xs hb hs hw hr =>
    obtain ⟨c, r, e, h1, h2, h3, h4⟩ := lexTok_spells (equ := equ) ht hs hw
    refine ⟨{ inp := rest, ids, tok := x.tok }, ?_, ht, rfl, hr⟩
    unfold lexStep
    have : skipWs false (ws.append (w ++ rest)) = c :: r := by
      show skipWs false (ws ++ (w ++ rest)) = c :: r
      rw [skipWs_blank hb, e, skipWs_stop h1 h2]
    dsimp only
    rw [this]
    dsimp only
    rw [if_neg h3]
    exact h4

/-! ## Running the assembler on such a text -/

/-- On a text `xs`, `m` has the given result and changes nothing but the place in the text, where `ys` remains. -/
def Rd {α : Type} (xs : List Lx) (m : A α) (r : Except Err α) (ys : List Lx) : Prop :=
  ∀ s : S, At s.lex xs → match (generalizing := false) r with
    | .ok v => ∃ l, m s = .ok v { s with lex := l } ∧ At l ys
    | .error e => m s = .err e

theorem Rd.pure {α : Type} {xs : List Lx} {v : α} : Rd xs (pure v) (.ok v) xs := fun s h => ⟨s.lex, rfl, h⟩

theorem Rd.fail {α : Type} {xs ys : List Lx} {e : Err} : Rd xs (fail e : A α) (.error e) ys := fun _ _ => rfl

theorem Rd.bind {α β : Type} {xs ys zs : List Lx} {m : A α} {f : α → A β} {r : Except Err α} {k : α → Except Err β} (h : Rd xs m r ys)
    (hf : ∀ v, r = .ok v → Rd ys (f v) (k v) zs) : Rd xs (m >>= f) (r >>= k) zs := by
  intro s hs
  have h1 := h s hs
  cases r with
  | error e =>
    show (m >>= f) s = .err e
    rw [bind_run, (h1 : m s = .err e)]
  | ok v =>
    obtain ⟨l, e, hl⟩ := h1
    have h2 := hf v rfl { s with lex := l } hl
    have ek : ((Except.ok v : Except Err α) >>= k) = k v := rfl
    rw [ek]
    have em : (m >>= f) s = f v { s with lex := l } := by rw [bind_run, e]
    rw [em]
    exact h2

theorem Rd.seq {α β : Type} {xs ys zs : List Lx} {m : A α} {f : α → A β} {v : α} {r : Except Err β} (h : Rd xs m (.ok v) ys)
    (hf : Rd ys (f v) r zs) : Rd xs (m >>= f) r zs :=
  Rd.bind (r := .ok v) (k := fun _ => r) h fun u e => by cases e; exact hf

theorem rd_getToken {x : Lx} {xs : List Lx} : Rd (x :: xs) getToken (.ok ()) xs := by
  intro s ⟨ht, _, h⟩
  obtain ⟨l, e, hl⟩ := lexStep_reads (equ := equOf s.labels) ht h
  exact ⟨l, by unfold getToken; rw [e], hl⟩

theorem rd_eof : Rd [] getToken (.ok ()) [] := by
  intro s ⟨ht, _, h⟩
  obtain ⟨l, e, hl⟩ := lexStep_reads (equ := equOf s.labels) (l := s.lex) ht (xs := []) (by rw [h]; exact .nil (by simp))
  exact ⟨l, by unfold getToken; rw [e], hl⟩

theorem rd_tokTy {x : Lx} {xs : List Lx} : Rd (x :: xs) tokTy (.ok x.tok.ty) (x :: xs) :=
  fun s h => ⟨s.lex, by show Res.ok s.lex.tok.ty s = _; rw [h.2.1], h⟩

/-- The type of the first token. -/
def headTy : List Lx → Nat
  | [] => tokEof
  | x :: _ => x.tok.ty

theorem rd_ty {xs : List Lx} : Rd xs tokTy (.ok (headTy xs)) xs := by
  intro s h
  refine ⟨s.lex, ?_, h⟩
  show Res.ok s.lex.tok.ty s = _
  cases xs with
  | nil => rw [h.2.1]; rfl
  | cons x xs => rw [h.2.1]; rfl

/-- The first token. -/
def headTok : List Lx → Tok
  | [] => { ty := tokEof }
  | x :: _ => x.tok

theorem rd_tok {xs : List Lx} : Rd xs curTok (.ok (headTok xs)) xs := by
  intro s h
  refine ⟨s.lex, ?_, h⟩
  show Res.ok s.lex.tok s = _
  cases xs with
  | nil => rw [h.2.1]; rfl
  | cons x xs => rw [h.2.1]; rfl

theorem headTok_ty (xs : List Lx) : (headTok xs).ty = headTy xs := by cases xs <;> rfl

end Props.SasText
