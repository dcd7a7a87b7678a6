import Verif.Props.SccTermTop
import Verif.Props.SccNames
/-!
# Termination of the compiler (C53): the tokenizer

The loops of the tokenizer end: those over the text because they use it up, the search of an identifier because the table is never full.
-/
namespace Props.SccTermTok
open Prog Text Scc Props.SccTermLex Props.SccIds

/-- No loop is cut off. -/
def Ends {α : Type} (x : A α) (s : S) : Prop := x s ≠ .err .fuel

variable {α β : Type} {s : S}

theorem Ends.bind {x : A α} {f : α → A β} (h : Ends x s) (hf : ∀ a s', x s = .ok a s' → Ends (f a) s') : Ends (x >>= f) s := by
  unfold Ends at *
  rw [bind_run]
  cases hx : x s with
  | ok a s1 => exact hf a s1 hx
  | err e => rw [hx] at h; exact fun h' => h (by cases h'; rfl)

theorem Ends.getS {f : S → A α} (h : Ends (f s) s) : Ends (Prog.getS >>= f) s := h
theorem Ends.modS {f : S → S} : Ends (Prog.modS f) s := fun h => by cases h
theorem Ends.pure {a : α} : Ends (Pure.pure a : A α) s := fun h => by cases h
theorem Ends.fatal : Ends (fail .fatal : A α) s := fun h => by cases h
theorem Ends.ite {c : Prop} [Decidable c] {x y : A α} (h1 : c → Ends x s) (h2 : ¬ c → Ends y s) : Ends (if c then x else y) s := by
  split
  · next h => exact h1 h
  · next h => exact h2 h
theorem Ends.failIf {b : Bool} : Ends (failIf b) s := Ends.ite (fun _ => Ends.fatal) fun _ => Ends.pure
theorem Ends.ub {b : Bool} : Ends (ubUnless b) s := Ends.ite (fun _ => Ends.pure) fun _ => (fun h => by cases h)

theorem getNum_ends : ∀ (n i b : Nat) (s : S), Ends (getNum i b n) s
  | 0, _, _, _ => Ends.pure
  | n + 1, _, _, _ => by
    unfold getNum
    exact Ends.getS (Ends.ite (fun _ => Ends.pure) fun _ => Ends.bind Ends.modS fun _ _ _ => getNum_ends n _ _ _)

theorem unescape_ends (s : S) : Ends unescape s := by
  unfold unescape
  refine Ends.getS (Ends.bind Ends.modS fun _ _ _ => ?_)
  repeat' refine Ends.ite (fun _ => ?_) (fun _ => ?_)
  · exact Ends.pure
  · exact Ends.pure
  · exact Ends.pure
  · exact Ends.pure
  · exact Ends.pure
  · exact Ends.pure
  · exact Ends.bind (getNum_ends _ _ _ _) fun _ _ _ => Ends.pure
  · exact Ends.bind Ends.failIf fun _ _ _ => Ends.bind (getNum_ends _ _ _ _) fun _ _ _ => Ends.pure

theorem putStr_ends (c : Byte) (s : S) : Ends (putStr c) s := by
  unfold putStr
  exact Ends.getS (Ends.bind Ends.ub fun _ _ _ => Ends.modS)

theorem skipWhitespace_ends (s : S) : Ends skipWhitespace s := by
  unfold skipWhitespace
  refine Ends.getS ?_
  cases skip .top (s.cur :: s.inp) with
  | stop l => exact Ends.bind Ends.modS fun _ _ _ => Ends.pure
  | slash l => exact Ends.bind Ends.modS fun _ _ _ => Ends.pure
  | bad => exact Ends.fatal

/-- Every round uses up a character. -/
theorem strLoop_ends : ∀ (n : Nat) (s : S), left s < n → Ends (strLoop n) s
  | 0, _, h => absurd h (Nat.not_lt_zero _)
  | n + 1, s, h => by
    unfold strLoop
    refine Ends.getS (Ends.ite (fun hc => ?_) fun hc => ?_)
    · refine Ends.bind Ends.modS fun _ s1 e1 => ?_
      have h1 := nextChar_lt e1 (by rw [hc]; decide)
      refine Ends.bind (skipWhitespace_ends s1) fun _ s2 e2 => ?_
      have h2 := (k_skipWhitespace _ _ _ e2).1
      refine Ends.getS (Ends.ite (fun hc => ?_) fun _ => Ends.pure)
      refine Ends.bind Ends.modS fun _ s3 e3 => ?_
      have h3 := (k_nextChar _ _ _ e3).1
      exact strLoop_ends n s3 (by omega)
    · refine Ends.bind Ends.failIf fun _ s0 e0 => ?_
      have h0 : s0 = s ∧ s.cur ≠ 0 := by
        unfold failIf at e0
        split at e0
        · cases e0
        · next hb => cases e0; exact ⟨rfl, by simpa using hb⟩
      obtain ⟨rfl, h0⟩ := h0
      refine Ends.bind Ends.modS fun _ s1 e1 => ?_
      have h1 := nextChar_lt e1 h0
      refine Ends.ite (fun _ => ?_) fun _ => ?_
      · refine Ends.bind (unescape_ends s1) fun _ s2 e2 => ?_
        have h2 := (k_unescape _ _ _ e2).1
        refine Ends.bind (putStr_ends _ s2) fun _ s3 e3 => ?_
        have h3 := (k_putStr _ _ _ _ e3).1
        exact strLoop_ends n s3 (by omega)
      · refine Ends.bind (putStr_ends _ s1) fun _ s3 e3 => ?_
        have h3 := (k_putStr _ _ _ _ e3).1
        exact strLoop_ends n s3 (by omega)

theorem getStringLiteral_ends (s : S) : Ends getStringLiteral s := by
  unfold getStringLiteral
  refine Ends.bind Ends.modS fun _ s1 e1 => Ends.getS ?_
  refine Ends.bind (strLoop_ends _ s1 ?_) fun _ s2 _ => Ends.bind (putStr_ends _ _) fun _ _ _ => Ends.getS Ends.failIf
  unfold left
  split <;> omega

/-- The table of identifiers is never full. -/
theorem getIdent_ends {names : List (List Byte)} (c : Byte) (hi : Ids s names) : Ends (getIdent c) s := by
  unfold getIdent
  refine Ends.getS (Ends.bind Ends.modS fun _ s1 _ => Ends.bind Ends.ub fun _ s2 _ => ?_)
  rcases probe_spec hi (c :: (s.cur :: s.inp).takeWhile isIdChar) with ⟨i, p, _, h2⟩ | ⟨j, _, _, _, _, h2⟩
  · rw [h2]; exact Ends.modS
  · rw [h2]; exact Ends.bind Ends.failIf fun _ _ _ => Ends.modS

theorem getNumber_ends (c : Byte) (s : S) : Ends (getNumber c) s := by
  unfold getNumber
  refine Ends.getS (Ends.ite (fun _ => Ends.ite (fun _ => ?_) fun _ => ?_) fun _ => ?_)
  · exact Ends.bind Ends.modS fun _ _ _ => Ends.bind (getNum_ends _ _ _ _) fun _ _ _ => Ends.modS
  · exact Ends.bind (getNum_ends _ _ _ _) fun _ _ _ => Ends.modS
  · exact Ends.bind (getNum_ends _ _ _ _) fun _ _ _ => Ends.modS

theorem getCharLit_ends (s : S) : Ends getCharLit s := by
  unfold getCharLit
  refine Ends.getS (Ends.bind Ends.modS fun _ s1 _ => Ends.ite (fun _ => ?_) fun _ => ?_)
  · exact Ends.bind (unescape_ends _) fun _ _ _ => Ends.getS (Ends.bind Ends.failIf fun _ _ _ => Ends.bind Ends.modS fun _ _ _ => Ends.modS)
  · exact Ends.bind Ends.pure fun _ _ _ => Ends.getS (Ends.bind Ends.failIf fun _ _ _ => Ends.bind Ends.modS fun _ _ _ => Ends.modS)

theorem getOperator_ends (t : Nat) (s : S) : Ends (getOperator t) s := by
  unfold getOperator
  refine Ends.getS ?_
  cases operator t s.cur s.inp with
  | none => exact Ends.fatal
  | some r => exact Ends.bind Ends.modS fun _ _ _ => Ends.modS

theorem getTokenAt_ends {names : List (List Byte)} (hi : Ids s names) : Ends getTokenAt s := by
  unfold getTokenAt
  refine Ends.getS (Ends.bind Ends.modS fun _ s1 e1 => Ends.bind Ends.modS fun _ s2 e2 => ?_)
  have h2 : Ids s2 names := by cases e1; cases e2; exact hi
  refine Ends.ite (fun _ => ?_) fun _ => Ends.ite (fun _ => ?_) fun _ => Ends.ite (fun _ => ?_) fun _ => Ends.ite (fun _ => ?_) fun _ => ?_
  · exact getNumber_ends _ _
  · exact getIdent_ends _ h2
  · exact getCharLit_ends _
  · exact Ends.bind (getStringLiteral_ends _) fun _ _ _ => Ends.modS
  · exact getOperator_ends _ _

theorem getToken_ends {names : List (List Byte)} (hi : Ids s names) : Ends getToken s := by
  unfold getToken
  refine Ends.getS (Ends.ite (fun _ => ?_) fun _ => getTokenAt_ends hi)
  refine Ends.bind (skipWhitespace_ends _) fun b s1 e1 => Ends.ite (fun _ => getOperator_ends _ _) fun _ => ?_
  obtain ⟨m, h⟩ := SccKeep.k_skipWhitespace _ _ _ e1 _ hi
  exact getTokenAt_ends h

end Props.SccTermTok

namespace Props
open Prog Text Scc SccIds SccTermTok

/-- **C53**. Wherever a token is read during a compilation, the loops of `GetToken` end. -/
theorem C53_tokenizer_ends (src : List Byte) (s0 s : S) (h0 : prelude (init src) = .ok () s0) (h : Later s0 s) : getToken s ≠ .err .fuel := by
  obtain ⟨m, hi⟩ := C34_prelude src s0 h0
  obtain ⟨m', hi⟩ := h.keep _ hi
  exact getToken_ends hi

/-- A case of `C53_tokenizer_ends`: the first name of a file. -/
example : ∃ s0, prelude (init (asc "x;")) = .ok () s0 ∧ getToken s0 ≠ .err .fuel := by
  have h : (match prelude (init (asc "x;")) with | .ok _ _ => true | .err _ => false) = true := by decide +kernel
  cases e : prelude (init (asc "x;")) with
  | ok a s0 => exact ⟨s0, rfl, C53_tokenizer_ends _ s0 s0 e (.refl _)⟩
  | err er => rw [e] at h; cases h

end Props
