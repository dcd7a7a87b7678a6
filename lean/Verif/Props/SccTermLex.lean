import Verif.Props.SccTermKeep
/-!
# Termination of the compiler (C53): the tokenizer uses up the text
-/
namespace Props.SccTermLex
open Prog Text Scc

/-- The number of characters left. -/
def left (s : S) : Nat := s.inp.length + if s.cur = 0 then 0 else 1

/-- No more characters are left than before; the precedence is the same. -/
def R (s s' : S) : Prop := left s' ≤ left s ∧ s'.prec = s.prec

theorem pre : Preorder R := ⟨fun _ => ⟨Nat.le_refl _, rfl⟩, fun _ _ _ h1 h2 => ⟨Nat.le_trans h2.1 h1.1, h2.2.trans h1.2⟩⟩

abbrev Keep {α : Type} (x : A α) : Prop := Pres R x

syntax "keepL" : tactic
macro_rules | `(tactic| keepL) => `(tactic| keep Props.SccTermLex (intro s; exact ⟨Nat.le_refl _, rfl⟩))

/-- The text of a state. -/
theorem left_text {s' : S} {l : List Byte} (h1 : s'.cur = l.headD 0) (h2 : s'.inp = l.tail) : left s' ≤ l.length := by
  cases l with
  | nil => simp [left, h1, h2]
  | cons c l => simp [left, h1, h2]; split <;> omega

theorem left_inp (s : S) : s.inp.length ≤ left s := by simp [left]

theorem k_nextChar : Keep nextChar := by
  intro s a s' h
  cases h
  exact ⟨Nat.le_trans (left_text rfl rfl) (left_inp s), rfl⟩

/-- `NextChar` uses up a character. -/
theorem nextChar_lt {s s' : S} {a : Unit} (h : nextChar s = .ok a s') (hc : s.cur ≠ 0) : left s' < left s := by
  cases h
  refine Nat.lt_of_le_of_lt (left_text rfl rfl) ?_
  have : (if s.cur = 0 then 0 else 1) = 1 := if_neg hc
  unfold left
  omega

theorem k_failIf : ∀ (x0 : Bool), Keep (Scc.failIf x0) := by
  intros; unfold Scc.failIf; keepL
theorem k_getNum : ∀ (n init base : Nat), Keep (Scc.getNum init base n) := by
  intro n
  induction n with
  | zero => intros; unfold Scc.getNum; keepL
  | succ n ih => intros; unfold Scc.getNum; keepL
theorem k_unescape : Keep (Scc.unescape) := by
  intros; unfold Scc.unescape; keepL
theorem k_putStr : ∀ (x0 : Byte), Keep (Scc.putStr x0) := by
  intros; unfold Scc.putStr; keepL

/-- What is left after white space and comments. -/
def Fewer (n : Nat) : Skipped → Prop
  | .stop m => m.length ≤ n
  | .slash m => m.length < n
  | .bad => True

theorem Fewer.mono {a b : Nat} {k : Skipped} (h : Fewer a k) (hab : a ≤ b) : Fewer b k := by
  cases k <;> simp only [Fewer] at * <;> omega

theorem skip_le (k : Skip) (l : List Byte) : Fewer l.length (skip k l) := by
  fun_induction skip k l <;>
    first
    | exact Nat.le_refl _
    | exact Nat.zero_le _
    | exact Nat.lt_succ_self _
    | trivial
    | (refine Fewer.mono ‹Fewer _ _› ?_; simp only [List.length_cons]; omega)

/-- From the current character on. -/
theorem skip_left (s : S) : Fewer (left s) (skip .top (s.cur :: s.inp)) := by
  by_cases h : s.cur = 0
  · have e : left s = s.inp.length := by simp [left, h]
    rw [e, h]
    cases hi : s.inp with
    | nil => simp [skip, Fewer]
    | cons d r =>
      have : skip .top (0 :: d :: r) = skip .top (d :: r) := by simp [skip]
      rw [this]
      exact skip_le _ _
  · have e : left s = (s.cur :: s.inp).length := congrArg (s.inp.length + ·) (if_neg h)
    rw [e]
    exact skip_le _ _

/-- `SkipWhitespace`: a `/` is used up if the result is true. -/
theorem skipWhitespace_le {s s' : S} {b : Bool} (h : skipWhitespace s = .ok b s') :
    left s' + (if b then 1 else 0) ≤ left s ∧ s'.prec = s.prec := by
  have hl := skip_left s
  unfold skipWhitespace at h
  obtain ⟨t, s1, e1, h⟩ := bind_eq_ok.mp h
  cases e1
  cases hk : skip .top (s.cur :: s.inp) with
  | stop l =>
    rw [hk] at h hl
    obtain ⟨_, s2, e2, h⟩ := bind_eq_ok.mp h
    cases e2; cases h
    have h1 : left _ ≤ l.length := left_text (s' := { s with cur := l.headD 0, inp := l.tail }) rfl rfl
    exact ⟨Nat.le_trans h1 hl, rfl⟩
  | slash l =>
    rw [hk] at h hl
    obtain ⟨_, s2, e2, h⟩ := bind_eq_ok.mp h
    cases e2; cases h
    have h1 : left _ ≤ l.length := left_text (s' := { s with cur := l.headD 0, inp := l.tail }) rfl rfl
    exact ⟨Nat.le_trans (Nat.succ_le_succ h1) hl, rfl⟩
  | bad => rw [hk] at h; cases h

theorem k_skipWhitespace : Keep skipWhitespace := fun _ _ _ h => ⟨by have := (skipWhitespace_le h).1; omega, (skipWhitespace_le h).2⟩

theorem k_strLoop : ∀ (n : Nat) , Keep (Scc.strLoop n) := by
  intro  n
  induction n with
  | zero => intros; unfold Scc.strLoop; keepL
  | succ n ih => intros; unfold Scc.strLoop; keepL
theorem k_getStringLiteral : Keep (Scc.getStringLiteral) := by
  intros; unfold Scc.getStringLiteral; keepL

theorem getIdent_le {c : Byte} {s s' : S} {a : Unit} (h : getIdent c s = .ok a s') :
    left s' ≤ left s ∧ s'.prec = s.prec ∧ s'.tok ≠ 0 := by
  have hd : left { s with cur := ((s.cur :: s.inp).dropWhile isIdChar).headD 0, inp := ((s.cur :: s.inp).dropWhile isIdChar).tail } ≤ left s := by
    rw [List.dropWhile_cons]
    split
    · refine Nat.le_trans (left_text rfl rfl) (Nat.le_trans ?_ (left_inp s))
      exact (List.dropWhile_suffix _).length_le
    · exact Nat.le_refl _
  unfold getIdent at h
  obtain ⟨t, s1, e1, h⟩ := bind_eq_ok.mp h
  cases e1
  obtain ⟨_, s2, e2, h⟩ := bind_eq_ok.mp h
  cases e2
  obtain ⟨_, s3, e3, h⟩ := bind_eq_ok.mp h
  unfold ubUnless at e3
  split at e3
  · cases e3
    rcases hp : probe s.idHash s.idText (c :: (s.cur :: s.inp).takeWhile isIdChar) idHashMax
      (hashOf (c :: (s.cur :: s.inp).takeWhile isIdChar)) with _ | ⟨j, _ | i⟩
    · rw [hp] at h; cases h
    rotate_left
    · rw [hp] at h; cases h
      exact ⟨hd, rfl, Nat.succ_ne_zero _⟩
    · rw [hp] at h
      obtain ⟨_, s4, e4, h⟩ := bind_eq_ok.mp h
      unfold failIf at e4
      split at e4
      · cases e4
      · cases e4; cases h
        exact ⟨hd, rfl, Nat.succ_ne_zero _⟩
  · cases e3

theorem k_getNumber : ∀ (x0 : Byte), Keep (Scc.getNumber x0) := by
  intros; unfold Scc.getNumber; keepL
theorem k_getCharLit : Keep (Scc.getCharLit) := by
  intros; unfold Scc.getCharLit; keepL

/-- The end of the file is the only token 0. -/
def Eof (t : Nat) (o : Option (Nat × Nat × Nat)) : Prop := ∀ p k, o = some (0, p, k) → t = 0 ∧ p = precStop

theorem Eof.ite {t : Nat} {c : Prop} [Decidable c] {a b : Option (Nat × Nat × Nat)} (h1 : c → Eof t a) (h2 : ¬ c → Eof t b) :
    Eof t (if c then a else b) := by
  split
  · next h => exact h1 h
  · next h => exact h2 h

theorem Eof.none {t : Nat} : Eof t none := fun _ _ h => by cases h

theorem Eof.some {t x p k : Nat} (h : x ≠ 0 ∨ t = 0 ∧ p = precStop) : Eof t (some (x, p, k)) := by
  intro q m e
  simp only [Option.some.injEq, Prod.mk.injEq] at e
  obtain ⟨rfl, rfl, rfl⟩ := e
  exact h.resolve_left (fun h => h rfl)

theorem operator_zero (t : Nat) (c : Byte) (inp : List Byte) : Eof t (operator t c inp) := by
  unfold operator
  simp only
  repeat' (first | refine Eof.ite (fun _ => ?_) (fun _ => ?_) | exact Eof.none)
  all_goals first | exact Eof.some (.inl (by decide)) | exact Eof.some (by omega)

theorem getOperator_le {t : Nat} {s s' : S} {a : Unit} (h : getOperator t s = .ok a s') :
    left s' ≤ left s ∧ (s'.tok = 0 → t = 0 ∧ s'.prec = precStop) := by
  unfold getOperator at h
  obtain ⟨u, s1, e1, h⟩ := bind_eq_ok.mp h
  cases e1
  cases ho : operator t s.cur s.inp with
  | none => rw [ho] at h; cases h
  | some r =>
    obtain ⟨t', p, k⟩ := r
    rw [ho] at h
    obtain ⟨_, s2, e2, h⟩ := bind_eq_ok.mp h
    cases e2
    cases h
    refine ⟨?_, ?_⟩
    · cases k with
      | zero => exact Nat.le_refl _
      | succ k =>
        refine Nat.le_trans (left_text (l := s.inp.drop k) rfl rfl) (Nat.le_trans ?_ (left_inp s))
        simp
    · intro h0
      have h0 : t' = 0 := h0
      subst h0
      exact operator_zero _ _ _ _ _ ho

/-- `GetToken` uses up a character, except at the end of the file, where the token is 0. -/
def Lexed (s s' : S) : Prop := left s' ≤ left s ∧ (s'.tok ≠ 0 → left s' < left s) ∧ (s'.tok = 0 → s'.prec = precStop)

theorem getTokenAt_le {s s' : S} {a : Unit} (h : getTokenAt s = .ok a s') : Lexed s s' := by
  unfold getTokenAt at h
  obtain ⟨_, s1, e1, h⟩ := bind_eq_ok.mp h
  cases e1
  obtain ⟨_, s1, e1, h⟩ := bind_eq_ok.mp h
  obtain ⟨_, s2, e2, h⟩ := bind_eq_ok.mp h
  have h2 : left s2 = left s1 ∧ s2.prec = precStop := by cases e2; exact ⟨rfl, rfl⟩
  have h1 := (k_nextChar _ _ _ e1).1
  have key : ∀ s3, left s3 ≤ left s2 → s.cur ≠ 0 → left s3 < left s := by
    intro s3 h3 hc
    have := nextChar_lt e1 hc
    omega
  clear e1 e2
  have fin : s.cur ≠ 0 → left s' ≤ left s2 → s'.tok ≠ 0 → Lexed s s' := by
    intro hc hl ht
    have := key s' hl hc
    exact ⟨by omega, fun _ => this, fun h => absurd h ht⟩
  split at h
  · next hd =>
    have hk := k_getNumber _ _ _ _ h
    refine fin (fun hc => ?_) hk.1 ?_
    · rw [hc] at hd; exact absurd hd (by decide)
    · unfold getNumber at h
      obtain ⟨_, s4, e4, h⟩ := bind_eq_ok.mp h
      split at h
      · split at h
        · obtain ⟨_, s5, e5, h⟩ := bind_eq_ok.mp h
          obtain ⟨_, s6, e6, h⟩ := bind_eq_ok.mp h
          cases h
          exact Nat.one_ne_zero
        · obtain ⟨_, s6, e6, h⟩ := bind_eq_ok.mp h
          cases h
          exact Nat.one_ne_zero
      · obtain ⟨_, s6, e6, h⟩ := bind_eq_ok.mp h
        cases h
        exact Nat.one_ne_zero
  · split at h
    · next hd =>
      have hk := getIdent_le h
      refine fin (fun hc => ?_) hk.1 hk.2.2
      rw [hc] at hd; exact absurd hd (by decide)
    · split at h
      · next hd =>
        have hk := k_getCharLit _ _ _ h
        refine fin (fun hc => ?_) hk.1 ?_
        · rw [hc] at hd; exact absurd hd (by decide)
        · unfold getCharLit at h
          obtain ⟨_, s4, e4, h⟩ := bind_eq_ok.mp h
          obtain ⟨_, s5, e5, h⟩ := bind_eq_ok.mp h
          split at h
          all_goals
            obtain ⟨_, s6, e6, h⟩ := bind_eq_ok.mp h
            obtain ⟨_, s7, e7, h⟩ := bind_eq_ok.mp h
            obtain ⟨_, s8, e8, h⟩ := bind_eq_ok.mp h
            obtain ⟨_, s9, e9, h⟩ := bind_eq_ok.mp h
            cases e9
            cases h
            exact Nat.one_ne_zero
      · split at h
        · next hd =>
          obtain ⟨_, s4, e4, h⟩ := bind_eq_ok.mp h
          have hk := k_getStringLiteral _ _ _ e4
          cases h
          refine fin (fun hc => ?_) hk.1 (show 2 ≠ 0 by decide)
          rw [hc] at hd; exact absurd hd (by decide)
        · have hk := getOperator_le h
          by_cases hc : s.cur = 0
          · rw [hc] at h
            refine ⟨by omega, fun ht => absurd ?_ ht, fun ht => (hk.2 ht).2⟩
            unfold getOperator at h
            obtain ⟨_, s4, e4, h⟩ := bind_eq_ok.mp h
            cases e4
            cases h
            rfl
          · have := key s' hk.1 hc
            exact ⟨by omega, fun _ => this, fun ht => (hk.2 ht).2⟩

theorem getToken_le {s s' : S} {a : Unit} (h : getToken s = .ok a s') : Lexed s s' := by
  unfold getToken at h
  obtain ⟨_, s1, e1, h⟩ := bind_eq_ok.mp h
  cases e1
  split at h
  · obtain ⟨b, s2, e2, h⟩ := bind_eq_ok.mp h
    have hk := skipWhitespace_le e2
    split at h
    · next hb =>
      have ho := getOperator_le h
      rw [if_pos hb] at hk
      exact ⟨by omega, fun _ => by omega, fun ht => absurd (ho.2 ht).1 (by decide)⟩
    · next hb =>
      have ht := getTokenAt_le h
      rw [if_neg hb] at hk
      exact ⟨Nat.le_trans ht.1 hk.1, fun h => Nat.lt_of_lt_of_le (ht.2.1 h) hk.1, ht.2.2⟩
  · exact getTokenAt_le h

/-- At the end of the file no operator follows. -/
def AtEnd (s : S) : Prop := s.tok = 0 → s.prec = precStop

/-- The measure: characters left, and one for a token. -/
def size (s : S) : Nat := left s + if s.tok = 0 then 0 else 1

theorem getToken_size {s s' : S} {a : Unit} (h : getToken s = .ok a s') : AtEnd s' ∧ size s' + (if s.tok = 0 then 0 else 1) ≤ size s := by
  have hl := getToken_le h
  refine ⟨hl.2.2, ?_⟩
  unfold size
  by_cases h' : s'.tok = 0
  · rw [if_pos h']
    have := hl.1
    omega
  · rw [if_neg h']
    have := hl.2.1 h'
    omega

end Props.SccTermLex
