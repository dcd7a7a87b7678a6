import Verif.Props.SasLabels
/-!
# C48: the assembler terminates
-/
namespace Props.SasTotal
open Sas I86 Text Prog Props.SasIds

/-! ## The lexer consumes its input -/

theorem skipWs_len : ∀ (b : Bool) (l : List Byte), (skipWs b l).length ≤ l.length
  | _, [] => by simp [skipWs]
  | true, c :: r => by
    unfold skipWs
    split
    · simp
    · split
      · have := skipWs_len false r; simp; omega
      · have := skipWs_len true r; simp; omega
  | false, c :: r => by
    unfold skipWs
    split
    · simp
    · split
      · have := skipWs_len false r; simp; omega
      · split
        · have := skipWs_len true r; simp; omega
        · simp

/-- No lack of fuel, and the result has `p`. -/
def EP {α : Type} (p : α → Prop) (x : Except Err α) : Prop :=
  match x with
  | .ok a => p a
  | .error e => e ≠ .fuel

theorem EP.mono {α : Type} {p q : α → Prop} {x : Except Err α} (h : EP p x) (hq : ∀ a, p a → q a) : EP q x := by
  cases x with
  | ok a => exact hq a h
  | error e => exact h

theorem accDigit_ok {base n off add : Int} {c : Byte} : EP (fun _ => True) (accDigit base n c off add) := by
  unfold accDigit; split <;> simp [EP]

theorem hexRun_ok : ∀ (l : List Byte) (n : Int), EP (fun a => a.2.length ≤ l.length) (hexRun n l)
  | [], n => by simp [hexRun, EP]
  | c :: r, n => by
    have step : ∀ n', EP (fun a => a.2.length ≤ (c :: r).length) (hexRun n' r) := fun n' =>
      (hexRun_ok r n').mono fun a h => by simp; omega
    unfold hexRun
    split
    · have h0 := accDigit_ok (base := 16) (n := n) (off := 48) (add := 0) (c := c); cases h : accDigit 16 n c 48 0 with | ok n' => exact step n' | error e => rw [h] at h0; exact h0
    · split
      · have h0 := accDigit_ok (base := 16) (n := n) (off := 65) (add := 10) (c := c); cases h : accDigit 16 n c 65 10 with | ok n' => exact step n' | error e => rw [h] at h0; exact h0
      · split
        · have h0 := accDigit_ok (base := 16) (n := n) (off := 97) (add := 10) (c := c); cases h : accDigit 16 n c 97 10 with | ok n' => exact step n' | error e => rw [h] at h0; exact h0
        · simp [EP]

theorem decRun_ok : ∀ (l : List Byte) (n : Int), EP (fun a => a.2.length ≤ l.length) (decRun n l)
  | [], n => by simp [decRun, EP]
  | c :: r, n => by
    unfold decRun
    split
    · have h0 := accDigit_ok (base := 10) (n := n) (off := 48) (add := 0) (c := c); cases h : accDigit 10 n c 48 0 with
      | ok n' => exact (decRun_ok r n').mono fun a h => by simp only [List.length_cons]; omega
      | error e => rw [h] at h0; exact h0
    · simp [EP]

theorem lexNum_ok (c : Byte) (l : List Byte) : EP (fun a => a.2.length ≤ l.length) (lexNum c l) := by
  unfold lexNum
  dsimp only
  have := l.length_tail
  split
  · have h1 := hexRun_ok l.tail ((c.toNat : Int) - 0x30)
    cases h : hexRun ((c.toNat : Int) - 0x30) l.tail with
    | ok a =>
      rw [h] at h1
      refine (decRun_ok a.2 a.1).mono fun b hb => ?_
      have : a.2.length ≤ l.tail.length := h1
      omega
    | error e => rw [h] at h1; exact h1
  · exact decRun_ok _ _

theorem lexStr_ok : ∀ (l acc : List Byte), EP (fun a => a.2.length ≤ l.length) (lexStr acc l)
  | [], acc => by simp [lexStr, EP]
  | c :: r, acc => by
    unfold lexStr
    split
    · split
      · simp [EP]
      · simp [EP]
    · split
      · simp [EP]
      · split
        · simp [EP]
        · exact (lexStr_ok r (acc ++ [c])).mono fun a h => by simp; omega

theorem getId_ok {t : IdTab} (ht : Tab t) (s : List Byte) : EP (fun a => Tab a.2) (getId t s) := by
  rcases getId_cases ht s with ⟨id, _, h⟩ | ⟨_, ⟨_, h⟩ | ⟨_, _, h⟩ | ⟨t', h, h2, _⟩⟩
  · rw [h]; exact ht
  · rw [h]; simp [EP]
  · rw [h]; simp [EP]
  · rw [h]; exact h2

/-- What is left of the input, the token included. -/
def left (l : Lex) : Nat := l.inp.length + if l.tok.ty = tokEof then 0 else 1

theorem lexTok_ok {equ : Nat → Option Int} {ids : IdTab} (ht : Tab ids) (c : Byte) (r : List Byte) :
    EP (fun l => Tab l.ids ∧ l.inp.length ≤ r.length) (lexTok equ ids c r) := by
  unfold lexTok
  split
  · have h0 := lexNum_ok c r; cases h : lexNum c r with | ok a => rw [h] at h0; exact ⟨ht, h0⟩ | error e => rw [h] at h0; exact h0
  · split
    · dsimp only
      have h0 := getId_ok ht ((c :: r.takeWhile (fun c => isDigit c || isIdChar c)).take 16)
      cases h : getId ids ((c :: r.takeWhile (fun c => isDigit c || isIdChar c)).take 16) with
      | ok a => rw [h] at h0; exact ⟨h0, (List.dropWhile_sublist _).length_le⟩
      | error e => rw [h] at h0; exact h0
    · split
      · have h0 := lexStr_ok r []; cases h : lexStr [] r with | ok a => rw [h] at h0; exact ⟨ht, h0⟩ | error e => rw [h] at h0; exact h0
      · split
        · exact ⟨ht, Nat.le_refl _⟩
        · split
          · exact ⟨ht, by simp⟩
          · simp [EP]

/-- A token is consumed. -/
theorem lexStep_left {equ : Nat → Option Int} {l : Lex} (ht : Tab l.ids) :
    EP (fun l' => Tab l'.ids ∧ left l' ≤ l.inp.length) (lexStep equ l) := by
  unfold lexStep
  have h1 := skipWs_len false l.inp
  split
  · exact ⟨ht, by simp [left]⟩
  · next c r h =>
    rw [h] at h1
    split
    · exact ⟨ht, by simp only [left]; simpa using h1⟩
    · refine (lexTok_ok ht c r).mono fun l' h => ⟨h.1, ?_⟩
      simp only [List.length_cons] at h1
      have h2 := h.2
      simp only [left]
      split <;> omega

/-! ## Every part of the assembler -/

/-- The table is in order and at most `k` is left. -/
def Ms (k : Nat) (s : S) : Prop := Tab s.lex.ids ∧ left s.lex ≤ k

/-- The same, and there is a token. -/
def Mt (k : Nat) (s : S) : Prop := Tab s.lex.ids ∧ left s.lex ≤ k + 1 ∧ s.lex.tok.ty ≠ tokEof

theorem Ms.mono {k k' : Nat} (h : k ≤ k') {s : S} (hs : Ms k s) : Ms k' s := ⟨hs.1, Nat.le_trans hs.2 h⟩

theorem tot_mono {k k' : Nat} {P : S → Prop} {α : Type} {x : A α} (h : Tot P x (fun _ => Ms k)) (hk : k ≤ k') :
    Tot P x (fun _ => Ms k') := h.post fun _ _ hs => hs.mono hk

theorem tot_next {k : Nat} : Tot (Mt k) getToken (fun _ => Ms k) := by
  intro s hs
  have := lexStep_left (equ := equOf s.labels) hs.1
  unfold getToken
  cases h : lexStep (equOf s.labels) s.lex with
  | ok l =>
    rw [h] at this
    refine ⟨this.1, ?_⟩
    have h1 := hs.2.1
    have h2 := this.2
    simp only [left, if_neg hs.2.2] at h1
    show left l ≤ k
    omega
  | error e => rw [h] at this; exact this

theorem tot_getToken {k : Nat} : Tot (Ms k) getToken (fun _ => Ms k) := by
  intro s hs
  have := lexStep_left (equ := equOf s.labels) hs.1
  unfold getToken
  cases h : lexStep (equOf s.labels) s.lex with
  | ok l =>
    rw [h] at this
    refine ⟨this.1, ?_⟩
    have h1 := hs.2
    have h2 := this.2
    simp only [left] at h1
    show left l ≤ k
    omega
  | error e => rw [h] at this; exact this

theorem tot_tokTy {P : S → Prop} : Tot P tokTy (fun _ => P) := fun _ h => h
theorem tot_curTok {P : S → Prop} : Tot P curTok (fun _ => P) := fun _ h => h
theorem tot_getS {P : S → Prop} : Tot P getS (fun _ => P) := fun _ h => h
theorem tot_assertM {P : S → Prop} {b : Bool} : Tot P (assertM b) (fun _ => P) := Tot.assertM.post fun _ _ h => h.1
theorem tot_ck {P : S → Prop} {n : Int} : Tot P (ck n) (fun _ => P) := by
  unfold ck; exact Tot.ite (fun _ => Tot.pure fun _ h => h) (fun _ => Tot.fail (by decide))
theorem tot_ty {P : S → Prop} : Tot P tokTy (fun t s => P s ∧ t = s.lex.tok.ty) := fun _ h => ⟨h, rfl⟩
theorem tot_tok {P : S → Prop} : Tot P curTok (fun t s => P s ∧ t = s.lex.tok) := fun _ h => ⟨h, rfl⟩

theorem tot_fuel {k : Nat} : Tot (Ms k) tokFuel (fun f s => Ms (min k (left s.lex)) s ∧ 4 * left s.lex + 4 ≤ f) := by
  intro s hs
  refine ⟨⟨hs.1, ?_⟩, ?_⟩
  · have := hs.2; omega
  · show 4 * left s.lex + 4 ≤ 4 * s.lex.inp.length + 8
    unfold left; split <;> omega

theorem tot_seq {k : Nat} {α β : Type} {x : A α} {f : α → A β} {Q : β → S → Prop} (hx : Tot (Ms k) x (fun _ => Ms k))
    (hf : ∀ a, Tot (Ms k) (f a) Q) : Tot (Ms k) (x >>= f) Q := hx.bind hf

theorem tot_same {k : Nat} {f : S → S} (h : ∀ s, (f s).lex = s.lex) : Tot (Ms k) (modS f) (fun _ => Ms k) :=
  Tot.modS fun s hs => ⟨by rw [h]; exact hs.1, by rw [h]; exact hs.2⟩

/-- A fact about a part of the program. -/
syntax "tot_lemma" : tactic
macro_rules | `(tactic| tot_lemma) => `(tactic| with_reducible exact Tot.fail (by decide))
macro_rules | `(tactic| tot_lemma) => `(tactic| with_reducible exact Tot.pure fun _ h => h)
macro_rules | `(tactic| tot_lemma) => `(tactic| with_reducible exact tot_getToken)
macro_rules | `(tactic| tot_lemma) => `(tactic| with_reducible exact tot_tokTy)
macro_rules | `(tactic| tot_lemma) => `(tactic| with_reducible exact tot_curTok)
macro_rules | `(tactic| tot_lemma) => `(tactic| with_reducible exact tot_getS)
macro_rules | `(tactic| tot_lemma) => `(tactic| with_reducible exact tot_assertM)
macro_rules | `(tactic| tot_lemma) => `(tactic| with_reducible exact tot_ck)
macro_rules | `(tactic| tot_lemma) => `(tactic| with_reducible exact tot_same (fun _ => rfl))

macro "tot_go" : tactic => `(tactic| repeat' first
  | tot_lemma
  | with_reducible refine Tot.ite (fun _ => ?_) (fun _ => ?_)
  | with_reducible refine tot_seq ?_ (fun _ => ?_)
  | split)

theorem tot_outputByte {k : Nat} {b : Byte} : Tot (Ms k) (outputByte b) (fun _ => Ms k) := by unfold outputByte; tot_go
macro_rules | `(tactic| tot_lemma) => `(tactic| with_reducible exact tot_outputByte)

theorem tot_outputWord {k : Nat} {w : Int} : Tot (Ms k) (outputWord w) (fun _ => Ms k) := by unfold outputWord; tot_go
macro_rules | `(tactic| tot_lemma) => `(tactic| with_reducible exact tot_outputWord)

theorem tot_outputBytes {k : Nat} : ∀ l, Tot (Ms k) (outputBytes l) (fun _ => Ms k)
  | [] => Tot.pure fun _ h => h
  | b :: l => tot_seq tot_outputByte fun _ => tot_outputBytes l
macro_rules | `(tactic| tot_lemma) => `(tactic| with_reducible exact tot_outputBytes _)

theorem mt_of {k : Nat} {s : S} (h : Ms (k + 1) s) (ht : s.lex.tok.ty ≠ tokEof) : Mt k s := ⟨h.1, h.2, ht⟩

theorem ms_pos {k : Nat} {s : S} (h : Ms k s) (ht : s.lex.tok.ty ≠ tokEof) : ∃ j, k = j + 1 := by
  have := h.2
  unfold left at this
  rw [if_neg ht] at this
  exact ⟨k - 1, by omega⟩

/-- Parsing a primary expression consumes a token. -/
theorem tot_parsePrimary {k : Nat} : Tot (Ms k) parsePrimary (fun _ => Ms (k - 1)) := by
  unfold parsePrimary
  refine Tot.bind tot_tok fun t => Tot.ite (fun h1 => ?_) fun h1 => Tot.ite (fun h2 => ?_) fun _ => Tot.fail (by decide)
  · refine Tot.bind (R := fun _ => Ms (k - 1)) ?_ fun _ => Tot.pure fun _ h => h
    intro s ⟨hs, ht⟩
    have hne : s.lex.tok.ty ≠ tokEof := by rw [← ht, h1]; decide
    obtain ⟨j, rfl⟩ := ms_pos hs hne
    exact tot_next s (mt_of hs hne)
  · unfold numFromString
    refine Tot.bind (R := fun t' s => Ms k s ∧ s.lex.tok.ty ≠ tokEof) ?_ fun t' => Tot.bind tot_assertM fun _ =>
      Tot.ite (fun _ => Tot.fail (by decide)) fun _ => Tot.bind (R := fun _ => Ms (k - 1)) ?_ fun _ => Tot.pure fun _ h => h
    · intro s ⟨hs, ht⟩
      exact ⟨hs, by rw [← ht, h2]; decide⟩
    · intro s ⟨hs, hne⟩
      obtain ⟨j, rfl⟩ := ms_pos hs hne
      exact tot_next s (mt_of hs hne)

theorem tot_unaryOp {k : Nat} {op : Nat} {n : Int} : Tot (Ms k) (unaryOp op n) (fun _ => Ms k) := by unfold unaryOp; tot_go
theorem tot_binOp {k : Nat} {op : Nat} {l r : Int} : Tot (Ms k) (binOp op l r) (fun _ => Ms k) := by unfold binOp; tot_go

theorem unary_ne {t : Nat} (h : isUnaryOp t = true) : t ≠ tokEof := by rintro rfl; revert h; decide

theorem prec_ne {t p : Nat} (h : ¬ precedence t > p) (hp : p < 100) : t ≠ tokEof := by
  rintro rfl
  have : precedence tokEof = 100 := by decide
  omega

theorem tot_parseUnary : ∀ f k, k + 1 ≤ f → Tot (Ms k) (parseUnary f) (fun _ => Ms (k - 1))
  | 0, _, h => by omega
  | f + 1, k, hf => by
    unfold parseUnary
    refine Tot.bind tot_ty fun op => Tot.ite (fun h1 => ?_) fun _ => tot_parsePrimary.pre fun _ h => h.1
    intro s ⟨hs, ht⟩
    have hne : s.lex.tok.ty ≠ tokEof := by rw [← ht]; exact unary_ne h1
    obtain ⟨j, rfl⟩ := ms_pos hs hne
    refine Tot.bind tot_next (fun _ => Tot.bind (tot_mono (tot_parseUnary f j (by omega)) (by omega : j - 1 ≤ j)) fun n => tot_unaryOp) s
      (mt_of hs hne)

theorem precedence_le (t : Nat) : precedence t ≤ 10 ∨ precedence t = 100 := by
  unfold precedence
  repeat' split
  all_goals simp

theorem tot_parseExprs : ∀ f k, (∀ l p, 2 * k + 1 ≤ f → p < 100 → Tot (Ms k) (parseExpr f l p) (fun _ => Ms k)) ∧
    (∀ l p, 2 * k + 2 ≤ f → p ≤ 100 → Tot (Ms k) (parseInner f l p) (fun _ => Ms k))
  | 0, k => ⟨fun _ _ h => by omega, fun _ _ h => by omega⟩
  | f + 1, k => by
    constructor
    · intro l p hf hp
      unfold parseExpr
      refine Tot.bind tot_ty fun op => Tot.ite (fun _ => Tot.pure fun _ h => h.1) fun h1 => ?_
      intro s ⟨hs, ht⟩
      have hne : s.lex.tok.ty ≠ tokEof := by rw [← ht]; exact prec_ne h1 hp
      obtain ⟨j, rfl⟩ := ms_pos hs hne
      have hpr : precedence op ≤ 100 := by rcases precedence_le op with h | h <;> omega
      refine Tot.bind tot_next (fun _ => Tot.bind (tot_parseUnary f j (by omega)) fun r =>
        Tot.bind ((tot_parseExprs f (j - 1)).2 _ _ (by omega) hpr) fun r => Tot.bind tot_binOp fun l =>
        tot_mono ((tot_parseExprs f (j - 1)).1 _ _ (by omega) hp) (by omega)) s (mt_of hs hne)
    · intro l p hf hp
      unfold parseInner
      refine Tot.bind tot_ty fun la => Tot.ite (fun _ => Tot.pure fun _ h => h.1) fun h1 => ?_
      intro s ⟨hs, ht⟩
      have hpr : precedence la < 100 := by omega
      have hne : s.lex.tok.ty ≠ tokEof := by rw [← ht]; exact prec_ne (p := 99) (by omega) (by omega)
      obtain ⟨j, rfl⟩ := ms_pos hs hne
      cases f with
      | zero => omega
      | succ f =>
        -- the expression consumes the operator
        have hx : Tot (fun s => Ms (j + 1) s ∧ la = s.lex.tok.ty) (parseExpr (f + 1) l (precedence la)) (fun _ => Ms j) := by
          unfold parseExpr
          refine Tot.bind (R := fun op s => (Ms (j + 1) s ∧ la = s.lex.tok.ty) ∧ op = la) (fun s h => ⟨h, h.2.symm⟩) fun op =>
            Tot.and fun e => Tot.ite (fun h => by subst e; omega) fun _ => ?_
          subst e
          intro s ⟨hs, ht⟩
          refine Tot.bind tot_next (fun _ => Tot.bind (tot_parseUnary f j (by omega)) fun r =>
            Tot.bind ((tot_parseExprs f (j - 1)).2 _ _ (by omega) (by omega)) fun r => Tot.bind tot_binOp fun l =>
            tot_mono ((tot_parseExprs f (j - 1)).1 _ _ (by omega) hpr) (by omega)) s (mt_of hs (by rw [← ht]; exact prec_ne (p := 99) (by omega) (by omega)))
        exact Tot.bind hx (fun r => tot_mono ((tot_parseExprs (f + 1) j).2 _ _ (by omega) hp) (by omega)) s ⟨hs, ht⟩

theorem tot_parseNumber {k : Nat} : Tot (Ms k) parseNumber (fun _ => Ms (k - 1)) := by
  unfold parseNumber
  intro s hs
  have h := tot_fuel s hs
  have hk : 4 * left s.lex + 4 ≤ 4 * s.lex.inp.length + 8 := by unfold left; split <;> omega
  have := Tot.bind (tot_parseUnary (4 * s.lex.inp.length + 8) (min k (left s.lex)) (by omega)) (fun n =>
    tot_mono ((tot_parseExprs (4 * s.lex.inp.length + 8) (min k (left s.lex) - 1)).1 n 15 (by omega) (by omega)) (by omega : _ ≤ k - 1)) s
    ⟨hs.1, by have := hs.2; omega⟩
  exact this

theorem tot_number {k : Nat} : Tot (Ms k) parseNumber (fun _ => Ms k) := tot_mono tot_parseNumber (by omega)
macro_rules | `(tactic| tot_lemma) => `(tactic| with_reducible exact tot_number)

theorem tot_expect {k t : Nat} : Tot (Ms k) (expect t) (fun _ => Ms k) := by unfold expect; tot_go
macro_rules | `(tactic| tot_lemma) => `(tactic| with_reducible exact tot_expect)

theorem tot_accept {k t : Nat} : Tot (Ms k) (accept t) (fun _ => Ms k) := by unfold accept; tot_go
macro_rules | `(tactic| tot_lemma) => `(tactic| with_reducible exact tot_accept)

/-- An accepted token is consumed. -/
theorem tot_accept' {k t : Nat} (ht : t ≠ tokEof) : Tot (Ms k) (accept t) (fun b s => Ms k s ∧ (b = true → ∃ j, k = j + 1 ∧ Ms j s)) := by
  unfold accept
  refine Tot.bind tot_ty fun op => Tot.ite (fun h1 => ?_) fun _ => Tot.pure fun _ h => ⟨h.1, by simp⟩
  intro s ⟨hs, e⟩
  have hne : s.lex.tok.ty ≠ tokEof := by rw [← e, h1]; exact ht
  obtain ⟨j, rfl⟩ := ms_pos hs hne
  exact Tot.bind (R := fun _ => Ms j) tot_next (fun _ => Tot.pure fun _ h => ⟨h.mono (by omega), fun _ => ⟨j, rfl, h⟩⟩) s (mt_of hs hne)

theorem tot_referenceLabel {k : Nat} : Tot (Ms k) referenceLabel (fun _ => Ms (k - 1)) := by
  unfold referenceLabel setLabel
  refine Tot.bind tot_ty fun ty => Tot.bind Tot.assertM fun _ => Tot.and fun h0 => ?_
  have hu : ty ≠ tokEof := by
    rintro rfl; revert h0; decide
  have hn : Tot (fun s => Ms k s ∧ ty = s.lex.tok.ty) (do getToken; pure (ty - tokUserId) : A Nat) (fun _ => Ms (k - 1)) := by
    refine Tot.bind (R := fun _ => Ms (k - 1)) ?_ fun _ => Tot.pure fun _ h => h
    intro s ⟨hs, e⟩
    have hne : s.lex.tok.ty ≠ tokEof := by rw [← e]; exact hu
    obtain ⟨j, rfl⟩ := ms_pos hs hne
    exact tot_next s (mt_of hs hne)
  refine Tot.bind tot_getS fun s => ?_
  dsimp only
  refine Tot.ite (fun _ => ?_) fun _ => Tot.bind tot_assertM fun _ => hn
  exact Tot.bind (Tot.modS fun s h => h) fun _ => Tot.bind (Tot.modS fun s h => h) fun _ => hn

theorem tot_reference {k : Nat} : Tot (Ms k) referenceLabel (fun _ => Ms k) := tot_mono tot_referenceLabel (by omega)
macro_rules | `(tactic| tot_lemma) => `(tactic| with_reducible exact tot_reference)

theorem tot_translate {k ty : Nat} {m : Byte} : Tot (Ms k) (translateMemMod ty m) (fun _ => Ms k) := by unfold translateMemMod; tot_go

/-- An item inside brackets is consumed. -/
theorem tot_memItem {k : Nat} {neg : Bool} {o : Operand} : Tot (Ms k) (memItem neg o) (fun _ => Ms (k - 1)) := by
  unfold memItem
  refine Tot.bind tot_tok fun t => ?_
  have hn : t.ty ≠ tokEof → ∀ o', Tot (fun s => Ms k s ∧ t = s.lex.tok) (do getToken; pure o' : A Operand) (fun _ => Ms (k - 1)) := by
    intro ht o'
    refine Tot.bind (R := fun _ => Ms (k - 1)) ?_ fun _ => Tot.pure fun _ h => h
    intro s ⟨hs, e⟩
    have hne : s.lex.tok.ty ≠ tokEof := by rw [← e]; exact ht
    obtain ⟨j, rfl⟩ := ms_pos hs hne
    exact tot_next s (mt_of hs hne)
  refine Tot.ite (fun h => ?_) fun _ => Tot.ite (fun h => ?_) fun _ => Tot.ite (fun h => ?_) fun _ => Tot.fail (by decide)
  · have ht : t.ty ≠ tokEof := by rcases h with h | h | h | h <;> rw [h] <;> decide
    refine Tot.bind (R := fun _ s => Ms k s ∧ t = s.lex.tok) ?_ fun m => hn ht _
    unfold translateMemMod
    repeat' first | exact Tot.fail (by decide) | exact Tot.pure fun _ h => h | refine Tot.ite (fun _ => ?_) (fun _ => ?_)
  · have ht : t.ty ≠ tokEof := by rw [h]; decide
    exact Tot.bind tot_ck fun d => hn ht _
  · refine Tot.bind (R := fun _ => Ms k) (Tot.assertM.post fun _ _ h => h.1.1) fun _ => Tot.bind tot_referenceLabel fun i => tot_seq tot_getS fun s =>
      tot_seq tot_assertM fun _ => Tot.ite (fun _ => Tot.pure fun _ h => h) fun _ => ?_
    exact tot_seq tot_ck fun d => Tot.pure fun _ h => h

theorem tot_memItems : ∀ f k neg o, k + 1 ≤ f → Tot (Ms k) (memItems f neg o) (fun _ => Ms k)
  | 0, _, _, _, h => by omega
  | f + 1, k, neg, o, hf => by
    unfold memItems
    refine Tot.bind tot_ty fun ty => Tot.ite (fun h => ?_) fun _ => ?_
    · intro s ⟨hs, e⟩
      have hne : s.lex.tok.ty ≠ tokEof := by
        rw [← e]; rintro rfl; exact absurd h.1 (by decide)
      obtain ⟨j, rfl⟩ := ms_pos hs hne
      refine Tot.bind (R := fun _ => Mt j) ?_ (fun _ => Tot.bind tot_next fun _ => tot_seq tot_expect fun _ =>
        tot_mono (tot_memItems f j neg o (by omega)) (by omega)) s (mt_of hs hne)
      unfold outputByte
      refine Tot.bind tot_getS fun _ => Tot.bind tot_assertM fun _ => Tot.bind tot_assertM fun _ => Tot.bind tot_ck fun _ => ?_
      exact Tot.modS fun s h => h
    · refine Tot.bind (tot_memItem.pre fun _ h => h.1) fun o => ?_
      refine Tot.bind (tot_accept' (by decide)) fun minus => Tot.ite (fun h => ?_) fun _ => ?_
      · intro s hs
        obtain ⟨j, e, hj⟩ := hs.2 h
        exact tot_mono (tot_memItems f j true o (by omega)) (by omega) s hj
      · refine Tot.bind ((tot_accept' (k := k - 1) (by decide)).pre fun _ h => h.1) fun plus => Tot.ite (fun h => ?_) fun _ => Tot.pure fun _ h => h.1.mono (by omega)
        intro s hs
        obtain ⟨j, e, hj⟩ := hs.2 h
        exact tot_mono (tot_memItems f j false o (by omega)) (by omega) s hj

theorem tot_parseMem {k : Nat} : Tot (Ms k) parseMem (fun _ => Ms k) := by
  unfold parseMem
  intro s hs
  have hk : 4 * left s.lex + 4 ≤ 4 * s.lex.inp.length + 8 := by unfold left; split <;> omega
  exact (Tot.bind (Q := fun _ => Ms k) (tot_mono (tot_memItems (4 * s.lex.inp.length + 8) (left s.lex) false _ (by omega)) hs.2) fun o =>
    tot_seq tot_expect fun _ => Tot.pure fun _ h => h : Tot _ (memItems _ false _ >>= fun o => expect tokRbracket >>= fun _ => pure (finishMem o)) _) s ⟨hs.1, Nat.le_refl _⟩
macro_rules | `(tactic| tot_lemma) => `(tactic| with_reducible exact tot_parseMem)

theorem tot_parseOperand {k : Nat} : Tot (Ms k) parseOperand (fun _ => Ms k) := by unfold parseOperand; tot_go
macro_rules | `(tactic| tot_lemma) => `(tactic| with_reducible exact tot_parseOperand)

theorem tot_parse2Operands {k : Nat} : Tot (Ms k) parse2Operands (fun _ => Ms k) := by unfold parse2Operands; tot_go
macro_rules | `(tactic| tot_lemma) => `(tactic| with_reducible exact tot_parse2Operands)

theorem tot_logRef {k : Nat} {r : RefK} {o : Operand} : Tot (Ms k) (logRef r o) (fun _ => Ms k) := by unfold logRef; tot_go
macro_rules | `(tactic| tot_lemma) => `(tactic| with_reducible exact tot_logRef)

theorem mt_out {k : Nat} {b : Byte} : Tot (Mt k) (outputByte b) (fun _ => Mt k) := by
  unfold outputByte
  exact Tot.bind tot_getS fun _ => Tot.bind tot_assertM fun _ => Tot.bind tot_assertM fun _ => Tot.bind tot_ck fun _ => Tot.modS fun s h => h

theorem mt_outs {k : Nat} : ∀ l, Tot (Mt k) (outputBytes l) (fun _ => Mt k)
  | [] => Tot.pure fun _ h => h
  | b :: l => Tot.bind mt_out fun _ => mt_outs l

theorem tot_dxItem {k size : Nat} : Tot (Ms k) (dxItem size) (fun _ => Ms (k - 1)) := by
  unfold dxItem
  dsimp only
  refine Tot.bind tot_tok fun t => Tot.ite (fun h => ?_) fun _ => Tot.ite (fun h => ?_) fun _ => Tot.ite (fun h => ?_) fun _ => Tot.fail (by decide)
  · intro s ⟨hs, e⟩
    have hne : s.lex.tok.ty ≠ tokEof := by rw [← e, h]; decide
    obtain ⟨j, rfl⟩ := ms_pos hs hne
    refine (Tot.ite (P := Mt j) (fun _ => ?_) fun _ => ?_) s (mt_of hs hne)
    · exact Tot.bind mt_out fun _ => Tot.bind tot_next fun _ => Tot.pure fun _ h => h
    · exact Tot.bind (Tot.bind mt_out fun _ => mt_out) fun _ => Tot.bind tot_next fun _ => Tot.pure fun _ h => h
  · intro s ⟨hs, e⟩
    have hne : s.lex.tok.ty ≠ tokEof := by rw [← e, h]; decide
    obtain ⟨j, rfl⟩ := ms_pos hs hne
    refine (Tot.bind (Q := fun _ => Ms j) (mt_outs t.str) fun _ => ?_) s (mt_of hs hne)
    exact Tot.bind tot_next fun _ => Tot.pure fun _ h => h
  · refine Tot.bind (R := fun _ => Ms k) (Tot.assertM.post fun _ _ h => h.1.1) fun _ => Tot.bind tot_referenceLabel fun i => ?_
    tot_go

theorem tot_dxItems {size : Nat} : ∀ f k n, k + 1 ≤ f → Tot (Ms k) (dxItems size f n) (fun _ => Ms k)
  | 0, _, _, h => by omega
  | f + 1, k, n, hf => by
    unfold dxItems
    refine Tot.bind tot_dxItem fun d => Tot.bind (tot_accept' (by decide)) fun more => Tot.ite (fun h => ?_) fun _ =>
      Tot.pure fun _ h => h.1.mono (by omega)
    intro s hs
    obtain ⟨j, e, hj⟩ := hs.2 h
    exact tot_mono (tot_dxItems f j _ (by omega)) (by omega) s hj

theorem tot_dx {k size : Nat} : Tot (Ms k) (do let f ← tokFuel; dxItems size f 0) (fun _ => Ms k) := by
  intro s hs
  have hk : 4 * left s.lex + 4 ≤ 4 * s.lex.inp.length + 8 := by unfold left; split <;> omega
  exact (tot_mono (tot_dxItems (4 * s.lex.inp.length + 8) (left s.lex) 0 (by omega)) hs.2) s ⟨hs.1, Nat.le_refl _⟩

theorem tot_handleDx {k size : Nat} : Tot (Ms k) (handleDx size) (fun _ => Ms k) := by
  have : handleDx size = ((do let f ← tokFuel; dxItems size f 0) >>= fun n => if size = 2 ∧ n % 2 = 1 then outputByte 0 else pure ()) := by
    funext s; rfl
  rw [this]
  refine tot_seq tot_dx fun n => ?_
  tot_go
macro_rules | `(tactic| tot_lemma) => `(tactic| with_reducible exact tot_handleDx)

theorem tot_handleResx {k : Nat} {n : Int} : Tot (Ms k) (handleResx n) (fun _ => Ms k) := by unfold handleResx; tot_go
macro_rules | `(tactic| tot_lemma) => `(tactic| with_reducible exact tot_handleResx)

theorem tot_handleDirective {k d : Nat} : Tot (Ms k) (handleDirective d) (fun _ => Ms k) := by unfold handleDirective; tot_go
macro_rules | `(tactic| tot_lemma) => `(tactic| with_reducible exact tot_handleDirective)

theorem tot_addFixupHere {k i : Nat} {ty : FixT} : Tot (Ms k) (addFixupHere i ty) (fun _ => Ms k) := by unfold addFixupHere; tot_go
macro_rules | `(tactic| tot_lemma) => `(tactic| with_reducible exact tot_addFixupHere)

theorem tot_fixOp {k : Nat} {o : Operand} {ty : FixT} : Tot (Ms k) (fixOp o ty) (fun _ => Ms k) := by unfold fixOp; tot_go
macro_rules | `(tactic| tot_lemma) => `(tactic| with_reducible exact tot_fixOp)

theorem tot_outputImm8 {k : Nat} {o : Operand} : Tot (Ms k) (outputImm8 o) (fun _ => Ms k) := by unfold outputImm8; tot_go
macro_rules | `(tactic| tot_lemma) => `(tactic| with_reducible exact tot_outputImm8)

theorem tot_outputImm16 {k : Nat} {o : Operand} : Tot (Ms k) (outputImm16 o) (fun _ => Ms k) := by unfold outputImm16; tot_go
macro_rules | `(tactic| tot_lemma) => `(tactic| with_reducible exact tot_outputImm16)

theorem tot_outputImm {k : Nat} {o : Operand} {w : Bool} : Tot (Ms k) (outputImm o w) (fun _ => Ms k) := by unfold outputImm; tot_go
macro_rules | `(tactic| tot_lemma) => `(tactic| with_reducible exact tot_outputImm)

theorem tot_outputModRM {k : Nat} {o : Operand} {r : Byte} : Tot (Ms k) (outputModRM o r) (fun _ => Ms k) := by unfold outputModRM; tot_go
macro_rules | `(tactic| tot_lemma) => `(tactic| with_reducible exact tot_outputModRM)

theorem tot_outputMR {k : Nat} {inst : Byte} {l r : Operand} : Tot (Ms k) (outputMR inst l r) (fun _ => Ms k) := by unfold outputMR; tot_go
macro_rules | `(tactic| tot_lemma) => `(tactic| with_reducible exact tot_outputMR)

theorem tot_outputMImm {k : Nat} {inst : Byte} {r : Byte} {m imm : Operand} : Tot (Ms k) (outputMImm inst r m imm) (fun _ => Ms k) := by unfold outputMImm; tot_go
macro_rules | `(tactic| tot_lemma) => `(tactic| with_reducible exact tot_outputMImm)

theorem tot_handleMOV {k : Nat} : Tot (Ms k) handleMOV (fun _ => Ms k) := by unfold handleMOV; tot_go
macro_rules | `(tactic| tot_lemma) => `(tactic| with_reducible exact tot_handleMOV)

theorem tot_handleALU {k : Nat} {base : Byte} : Tot (Ms k) (handleALU base) (fun _ => Ms k) := by unfold handleALU; tot_go
macro_rules | `(tactic| tot_lemma) => `(tactic| with_reducible exact tot_handleALU)

theorem tot_handleROT {k : Nat} {r : Byte} : Tot (Ms k) (handleROT r) (fun _ => Ms k) := by unfold handleROT; tot_go
macro_rules | `(tactic| tot_lemma) => `(tactic| with_reducible exact tot_handleROT)

theorem tot_relDisp {k : Nat} {o : Operand} {n : Int} : Tot (Ms k) (relDisp o n) (fun _ => Ms k) := by unfold relDisp; tot_go
macro_rules | `(tactic| tot_lemma) => `(tactic| with_reducible exact tot_relDisp)

theorem tot_handleRel8 {k : Nat} {o : Operand} : Tot (Ms k) (handleRel8 o) (fun _ => Ms k) := by unfold handleRel8; tot_go
macro_rules | `(tactic| tot_lemma) => `(tactic| with_reducible exact tot_handleRel8)

theorem tot_handleRel16 {k : Nat} {o : Operand} : Tot (Ms k) (handleRel16 o) (fun _ => Ms k) := by unfold handleRel16; tot_go
macro_rules | `(tactic| tot_lemma) => `(tactic| with_reducible exact tot_handleRel16)

theorem tot_handleCALL {k : Nat} : Tot (Ms k) handleCALL (fun _ => Ms k) := by unfold handleCALL; tot_go
macro_rules | `(tactic| tot_lemma) => `(tactic| with_reducible exact tot_handleCALL)

theorem tot_acceptShort {k : Nat} : Tot (Ms k) acceptShort (fun _ => Ms k) := by unfold acceptShort; tot_go
macro_rules | `(tactic| tot_lemma) => `(tactic| with_reducible exact tot_acceptShort)

theorem tot_jmpShort {k : Nat} {o : Operand} : Tot (Ms k) (jmpShort o) (fun _ => Ms k) := by unfold jmpShort; tot_go
macro_rules | `(tactic| tot_lemma) => `(tactic| with_reducible exact tot_jmpShort)

theorem tot_handleJMP {k : Nat} : Tot (Ms k) handleJMP (fun _ => Ms k) := by unfold handleJMP; tot_go
macro_rules | `(tactic| tot_lemma) => `(tactic| with_reducible exact tot_handleJMP)

theorem tot_handleJCC {k : Nat} {cc : Byte} : Tot (Ms k) (handleJCC cc) (fun _ => Ms k) := by unfold handleJCC; tot_go
macro_rules | `(tactic| tot_lemma) => `(tactic| with_reducible exact tot_handleJCC)

theorem tot_handleIncDec {k : Nat} {dec : Byte} : Tot (Ms k) (handleIncDec dec) (fun _ => Ms k) := by unfold handleIncDec; tot_go
macro_rules | `(tactic| tot_lemma) => `(tactic| with_reducible exact tot_handleIncDec)

theorem tot_handlePUSH {k : Nat} : Tot (Ms k) handlePUSH (fun _ => Ms k) := by unfold handlePUSH; tot_go
macro_rules | `(tactic| tot_lemma) => `(tactic| with_reducible exact tot_handlePUSH)

theorem tot_handlePOP {k : Nat} : Tot (Ms k) handlePOP (fun _ => Ms k) := by unfold handlePOP; tot_go
macro_rules | `(tactic| tot_lemma) => `(tactic| with_reducible exact tot_handlePOP)

theorem tot_handleINT {k : Nat} : Tot (Ms k) handleINT (fun _ => Ms k) := by unfold handleINT; tot_go
macro_rules | `(tactic| tot_lemma) => `(tactic| with_reducible exact tot_handleINT)

theorem tot_handleTEST {k : Nat} : Tot (Ms k) handleTEST (fun _ => Ms k) := by unfold handleTEST; tot_go
macro_rules | `(tactic| tot_lemma) => `(tactic| with_reducible exact tot_handleTEST)

theorem tot_handleXCHG {k : Nat} : Tot (Ms k) handleXCHG (fun _ => Ms k) := by unfold handleXCHG; tot_go
macro_rules | `(tactic| tot_lemma) => `(tactic| with_reducible exact tot_handleXCHG)

theorem tot_handleMulDiv {k : Nat} {r : Byte} : Tot (Ms k) (handleMulDiv r) (fun _ => Ms k) := by unfold handleMulDiv; tot_go
macro_rules | `(tactic| tot_lemma) => `(tactic| with_reducible exact tot_handleMulDiv)

theorem tot_handleLEA {k : Nat} : Tot (Ms k) handleLEA (fun _ => Ms k) := by unfold handleLEA; tot_go
macro_rules | `(tactic| tot_lemma) => `(tactic| with_reducible exact tot_handleLEA)

theorem tot_handleInstruction {k : Nat} {inst : Nat} : Tot (Ms k) (handleInstruction inst) (fun _ => Ms k) := by unfold handleInstruction; tot_go
macro_rules | `(tactic| tot_lemma) => `(tactic| with_reducible exact tot_handleInstruction)

/-! ## Labels and the main loop -/

open Props.SasFix

theorem applyFixup_nf {va : Int} {f : Fixup} {out : Array Byte} : EP (fun _ => True) (applyFixup va f out) := by
  unfold applyFixup
  dsimp only
  repeat' split
  all_goals simp [EP]

theorem applyFixups_nf {va : Int} {fx : Nat → Fixup} : ∀ {l : List Nat} {n f : Nat} {out : Array Byte}, Chain fx (some f) (f :: l) →
    l.length < n → EP (fun _ => True) (applyFixups va fx n f out)
  | _, 0, _, _, _, h => by omega
  | l, n + 1, f, out, hc, hn => by
    unfold applyFixups
    have h0 := applyFixup_nf (va := va) (f := fx f) (out := out)
    cases h : applyFixup va (fx f) out with
    | error e => rw [h] at h0; exact h0
    | ok out' =>
      dsimp only
      cases hg : (fx f).next with
      | none => trivial
      | some g =>
        obtain ⟨l', e, hc'⟩ := hc.some_eq
        obtain ⟨_, rfl⟩ := List.cons.inj e
        rw [hg] at hc'
        obtain ⟨l'', rfl, h3⟩ := hc'.some_eq
        exact applyFixups_nf (.cons h3) (by simp at hn; omega)

theorem tot_defineEqu {k i : Nat} : Tot (Ms k) (defineEqu i) (fun _ => Ms k) := by unfold defineEqu setLabel; tot_go
macro_rules | `(tactic| tot_lemma) => `(tactic| with_reducible exact tot_defineEqu)

theorem nodup_lt {l : List Nat} (hn : l.Nodup) (h : ∀ n ∈ l, n < 600) : l.length ≤ 600 := by
  have : l ⊆ List.range 600 := fun n hx => List.mem_range.mpr (h n hx)
  simpa using (List.subperm_of_subset hn this).length_le

/-- A label with pending references is resolved in finitely many steps, unless a label was placed at address -1. -/
theorem tot_resolve {k i : Nat} : Tot (fun s => Ms k s ∧ I [] s ∧ ¬ M1 s ∧ (s.labels i).ty = .normal) (resolve i) (fun _ => Ms k) := by
  intro s ⟨hs, hi, hm, ht⟩
  unfold resolve
  by_cases hv : (s.labels i).val ≠ -1
  · rw [if_pos hv]; exact fun h => by cases h
  · rw [if_neg hv]
    have hv : (s.labels i).val = -1 := by simpa using hv
    cases hf : (s.labels i).fix with
    | none => exact hs
    | some f =>
      dsimp only
      obtain ⟨free, ch, iv⟩ := (hi.2.resolve_left hm).1
      have hc := iv.chain i ⟨ht, hv⟩
      rw [hf] at hc
      obtain ⟨l, e, hc'⟩ := hc.some_eq
      have hl : (ch i).length ≤ 600 := nodup_lt (iv.ndC i) (iv.ltC i)
      rw [e] at hl hc
      have h0 := applyFixups_nf (va := s.va) (n := fixupMax + 1) (out := s.out) hc (by simp [fixupMax] at hl ⊢; omega)
      cases h : applyFixups s.va s.fixups (fixupMax + 1) f s.out with
      | error e => rw [h] at h0; exact h0
      | ok a => exact hs

theorem tot_defineLabel {k i : Nat} {g : Bool} : Tot (fun s => Ms k s ∧ I [] s ∧ ¬ M1 s ∧ (s.labels i).ty ≠ .equ) (defineLabel i g) (fun _ => Ms k) := by
  unfold defineLabel
  have hg : ∀ g : Bool, Tot (Ms k) (if g then modS retire else pure ()) (fun _ => Ms k) := by
    intro g; tot_go
  refine Tot.bind Tot.getS fun s => ?_
  dsimp only
  refine Tot.ite (fun hn => ?_) (fun hn => ?_)
  · unfold setLabel
    refine Tot.bind (R := fun _ => Ms k) (Tot.modS fun s h => h.2.1) fun _ => tot_seq (tot_same fun _ => rfl) fun _ => tot_seq (tot_same fun _ => rfl) fun _ => hg g
  · refine Tot.bind (R := fun _ => Ms k) ?_ fun _ => tot_seq (tot_same fun _ => rfl) fun _ => hg g
    refine tot_resolve.pre ?_
    rintro s0 ⟨rfl, h1, h2, h3, h4⟩
    refine ⟨h1, h2, h3, ?_⟩
    cases h : (s.labels i).ty with
    | none => exact absurd h hn
    | normal => rfl
    | equ => exact absurd h h4

/-- Neither the labels nor what is recorded about them change. -/
def Same2 (s s' : S) : Prop := s'.labels = s.labels ∧ s'.gDefs = s.gDefs

theorem same2_getToken : Pres Same2 getToken := by
  intro s a s' h
  unfold getToken at h
  split at h
  · cases h; exact ⟨rfl, rfl⟩
  · cases h

theorem tot_step {k : Nat} : Tot (fun s => Mt k s ∧ I [] s ∧ ¬ M1 s) step (fun _ => Ms k) := by
  unfold step
  refine Tot.bind tot_ty fun ty => ?_
  dsimp only
  refine Tot.ite (fun hu => ?_) fun _ => Tot.ite (fun _ => Tot.fail (by decide)) fun _ => ?_
  · refine Tot.bind tot_getS fun s0 => ?_
    intro s ⟨⟨hs, hi, hm⟩, ht⟩
    -- the state after the label
    have g1 : Tot (fun t => t = s) getToken (fun _ t => Ms k t ∧ I [] t ∧ ¬ M1 t ∧ t.labels = s.labels) := by
      intro s1 e1
      rw [e1]
      have := tot_next _ hs
      cases e : getToken s with
      | ok a t =>
        rw [e] at this
        have h2 := same2_getToken _ _ _ e
        exact ⟨this, tri_getToken' _ _ _ hi e, by unfold M1; rw [h2.2]; exact hm, h2.1⟩
      | err x => rw [e] at this; exact this
    have g2 : ∀ u, Tot (fun t => Ms k t ∧ I [] t ∧ ¬ M1 t ∧ t.labels = s.labels) (accept u)
        (fun _ t => Ms k t ∧ I [] t ∧ ¬ M1 t ∧ t.labels = s.labels) := by
      intro u t ⟨h1, h2, h3, h4⟩
      have := tot_accept (t := u) _ h1
      cases e : accept u t with
      | ok a t' =>
        rw [e] at this
        have h5 : Same2 t t' := by
          unfold accept at e
          obtain ⟨_, _, e1, e⟩ := bind_eq_ok.mp e
          cases e1
          split at e
          · obtain ⟨_, _, e1, e⟩ := bind_eq_ok.mp e
            cases e
            exact same2_getToken _ _ _ e1
          · cases e
            exact ⟨rfl, rfl⟩
        exact ⟨this, tri_accept _ _ _ h2 e, by unfold M1; rw [h5.2]; exact h3, h5.1.trans h4⟩
      | err x => rw [e] at this; exact this
    refine (Tot.bind g1 fun _ => Tot.bind (g2 _) fun colon => Tot.ite (fun _ => ?_) fun _ => Tot.bind (g2 _) fun equ => Tot.ite (fun _ => ?_) fun _ => Tot.fail (by decide)) s rfl
    · refine tot_defineLabel.pre ?_
      rintro t ⟨h1, h2, h3, h4⟩
      exact ⟨h1, h2, h3, by rw [h4, ht]; exact hi.1 (by rw [← ht]; exact hu)⟩
    · exact tot_defineEqu.pre fun t h => h.1
  · refine Tot.bind (tot_next.pre fun s h => h.1.1) fun _ => ?_
    tot_go

theorem loop_total : ∀ (f k : Nat) (s : S), k + 1 ≤ f → Ms k s → I [] s → loop f s = .err .fuel →
    ∃ s', Relation.ReflTransGen (fun a b => step a = .ok () b) s s' ∧ M1 s'
  | 0, _, _, h, _, _, _ => by omega
  | f + 1, k, s, hf, hs, hi, h => by
    by_cases hm : M1 s
    · exact ⟨s, .refl, hm⟩
    · unfold loop at h
      have h : (if s.lex.tok.ty = tokEof then pure () else (do step; loop f : A Unit)) s = .err .fuel := h
      split at h
      · cases h
      · next hne =>
        obtain ⟨j, rfl⟩ := ms_pos hs hne
        have h1 := tot_step s ⟨mt_of hs hne, hi, hm⟩
        rw [bind_run] at h
        cases e : step s with
        | ok a t =>
          rw [e] at h1 h
          obtain ⟨s', h2, h3⟩ := loop_total f j t (by omega) h1 (tri_step _ _ _ hi e) h
          exact ⟨s', .head e h2, h3⟩
        | err x =>
          rw [e] at h h1
          exact absurd (by simpa using h) h1

end Props.SasTotal

namespace Props
open Sas I86 Text Prog Props.SasIds Props.SasFix Props.SasTotal

/-- **C48.**  The assembler comes to an end on every source: the steps allowed by the length of the source (and 601 for the pending
references of a label) suffice, unless a label was placed at address -1. -/
theorem C48_terminates {inp : List Byte} (h : Sas.run inp = .err .fuel) : ∃ s, Between inp s ∧ M1 s := by
  unfold Sas.run at h
  split at h
  · next e h1 =>
    obtain ⟨t, ht, _, _⟩ := builtin_tab
    rw [ht] at h1
    cases h1
  · next ids h1 =>
    obtain ⟨t, ht, htab, _⟩ := builtin_tab
    have e : t = ids := by rw [ht] at h1; exact Except.ok.inj h1
    subst e
    rw [bind_run] at h
    have h0 : Ms (inp.length + 1) (init t inp) := ⟨htab, by show left _ ≤ _; unfold left; split <;> simp [init]⟩
    have h2 := tot_getToken _ h0
    cases e : getToken (init t inp) with
    | ok a s =>
      rw [e] at h h2
      have hi : I [] s := tri_getToken _ _ _ (init_i0 _ _) e
      obtain ⟨s', h3, h4⟩ := loop_total _ _ s (by omega) h2 hi h
      refine ⟨s', ?_, h4⟩
      have hb : Between inp s := .start h1 e
      clear h h2 hi h4
      induction h3 with
      | refl => exact hb
      | tail _ h5 ih => exact .step ih h5
    | err x => rw [e] at h h2; exact absurd (by simpa using h) h2

/-- The first `n` statements. -/
def firstSteps : Nat → A Unit
  | 0 => pure ()
  | n + 1 => do
    firstSteps n
    Sas.step

theorem between_steps {inp : List Byte} {ids : IdTab} (hi : addAll emptyTab builtins = .ok ids) : ∀ {n : Nat} {s : S},
    (do getToken; firstSteps n : A Unit) (init ids inp) = .ok () s → Between inp s
  | 0, s, h => by
    obtain ⟨_, s1, e, h⟩ := bind_eq_ok.mp h
    cases h
    exact .start hi e
  | n + 1, s, h => by
    obtain ⟨_, s1, e, h⟩ := bind_eq_ok.mp h
    obtain ⟨_, s2, e2, h⟩ := bind_eq_ok.mp h
    exact .step (between_steps hi (bind_eq_ok.mpr ⟨_, _, e, e2⟩)) h

/-- A list of nodes without end is never resolved. -/
theorem applyFixups_cyclic {va : Int} {fx : Nat → Fixup} {f : Nat} (h : (fx f).next = some f) :
    ∀ {k : Nat} {out : Array Byte} {r : Array Byte × Nat}, applyFixups va fx k f out ≠ .ok r
  | 0, _, _ => by simp [applyFixups]
  | k + 1, out, r => by
    unfold applyFixups
    split
    · simp
    · rw [h]
      exact applyFixups_cyclic h

/-- A source on which the assembler does not end. -/
def cyclicSrc : String := "jmp x\norg ~0\nx: jmp x\nx:"

/-- The state before the last statement of that source. -/
def cyclicCheck : Bool :=
  match addAll emptyTab builtins with
  | .error _ => false
  | .ok ids => match (do getToken; firstSteps 4 : A Unit) (init ids (asc cyclicSrc)) with
    | .err _ => false
    | .ok _ s => s.lex.tok.ty == tokUserId && (s.labels 0).val == -1 && (s.labels 0).fix == some 0 && (s.fixups 0).next == some 0

theorem cyclic_check : cyclicCheck = true := by decide +kernel

/-- A label placed at address -1 and used again: it still has no address, its list of pending references has no end, and however many steps
are allowed the loop of `sas.c:1630-1646` does not end. -/
theorem C48_minus_one_violated : ∃ s, Between (asc cyclicSrc) s ∧ s.lex.tok.ty = tokUserId ∧ (s.labels 0).val = -1 ∧ (s.labels 0).fix = some 0 ∧
    ∀ fuel r, applyFixups s.va s.fixups fuel 0 s.out ≠ .ok r := by
  obtain ⟨ids, hi, _⟩ := builtin_tab
  have key := cyclic_check
  unfold cyclicCheck at key
  rw [hi] at key
  dsimp only at key
  cases e : (do getToken; firstSteps 4 : A Unit) (init ids (asc cyclicSrc)) with
  | err x => rw [e] at key; cases key
  | ok a s =>
    rw [e] at key
    simp only [Bool.and_eq_true, beq_iff_eq] at key
    obtain ⟨⟨⟨h1, h2⟩, h3⟩, h4⟩ := key
    exact ⟨s, between_steps hi e, h1, h2, h3, fun fuel r => applyFixups_cyclic h4⟩

/-- An ordinary source does not meet the exception. -/
example : ∃ s, Sas.run (asc sampleSrc) = .ok () s ∧ ¬ M1 s := by
  obtain ⟨s, h1, h2⟩ : ∃ s, Sas.run (asc sampleSrc) = .ok () s ∧ ∀ d ∈ s.gDefs, d.2 ≠ -1 := by
    refine exists_ok ?_
    decide +kernel
  exact ⟨s, h1, fun ⟨d, hd, e⟩ => h2 d hd e⟩

end Props
