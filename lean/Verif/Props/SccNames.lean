import Verif.Props.SccKeep
/-!
# Identifiers of the compiler (C34)
-/
namespace Props.SccIds
open Prog Text Scc Props.SccLex

/-- `GetToken` reads the identifier `w`: the text to be read is `w`, after blanks or comments and before a character of another kind, and the
call succeeds. -/
def Reads (s : S) (w : List Byte) (s' : S) : Prop :=
  ∃ g r, s.cur :: s.inp = g ++ w ++ r ∧ Gap g ∧ Word w ∧ WordEnd r ∧ r ≠ [] ∧ getToken s = .ok () s'

/-- `s'` is reached from `s` by the compiler: tokens, calls of the parser, external definitions. -/
inductive Later : S → S → Prop
  | refl (s) : Later s s
  | token {s s1 s2} : Later s s1 → getToken s1 = .ok () s2 → Later s s2
  | parse {s s1 s2} (n t v) : Later s s1 → run n t s1 = .ok v s2 → Later s s2
  | external {s s1 s2} (n) : Later s s1 → parseExternal (run n) s1 = .ok () s2 → Later s s2

theorem Later.keep {s s' : S} (h : Later s s') : SccKeep.R s s' := by
  induction h with
  | refl => exact SccKeep.pre.refl _
  | token _ h ih => exact SccKeep.pre.trans _ _ _ ih (SccKeep.k_getToken _ _ _ h)
  | parse n t v _ h ih => exact SccKeep.pre.trans _ _ _ ih (SccKeep.k_run n t _ _ _ h)
  | external n _ h ih => exact SccKeep.pre.trans _ _ _ ih (SccKeep.k_parseExternal _ (SccKeep.k_run n) _ _ _ h)

theorem at_self (s : S) : at' s (s.cur :: s.inp) = s := rfl

theorem getIdent_ok {t t' : S} {names : List (List Byte)} {c : Byte} {w : List Byte} (hi : Ids t names) (hw : c :: (t.cur :: t.inp).takeWhile isIdChar = w)
    (h : getIdent c t = .ok () t') : Ids t' (intern names w) ∧ ∃ i, t'.tok = i + tokKeyword ∧ (intern names w)[i]? = some w := by
  unfold getIdent at h
  obtain ⟨_, _, e1, h⟩ := bind_eq_ok.mp h
  cases e1
  obtain ⟨_, s2, e2, h⟩ := bind_eq_ok.mp h
  obtain ⟨_, s3, e3, h⟩ := bind_eq_ok.mp h
  cases e2
  obtain rfl := SccKeep.ub_ok e3
  rw [hw] at h
  rcases probe_spec hi w with ⟨i, p, h1, h2⟩ | ⟨j, hj, hm, hf, hb, h2⟩
  · rw [h2] at h
    cases h
    have hmem : w ∈ names := List.mem_of_getElem? h1
    rw [intern, if_pos hmem]
    exact ⟨hi, i, rfl, h1⟩
  · rw [h2] at h
    obtain ⟨_, s4, e4, h⟩ := bind_eq_ok.mp h
    unfold failIf at e4
    split at e4
    · cases e4
    · next hne =>
      cases e4
      cases h
      have hlt : names.length < idMax := by
        have h1 := hi.cnt
        have h2 := hi.le
        have h3 : t.idCount ≠ idMax := by simpa using hne
        omega
      rw [intern, if_neg hm]
      refine ⟨hi.add _ hm hlt hj hf hb, names.length, ?_, by simp⟩
      show t.idCount + tokKeyword = _
      rw [hi.cnt]

/-- The number of an identifier that has been read is its place in the list of the names. -/
theorem reads_spec {s s' : S} {names : List (List Byte)} {w : List Byte} (hi : Ids s names) (h : Reads s w s') :
    Ids s' (intern names w) ∧ ∃ i, s'.tok = i + tokKeyword ∧ (intern names w)[i]? = some w := by
  obtain ⟨g, r, e, hg, hw, hr, hrn, ht⟩ := h
  have hs : at' s (g ++ w ++ r) = s := by rw [← e]; exact at_self s
  rw [← hs] at ht
  obtain ⟨c, l, rfl, hc, hl⟩ := hw
  obtain ⟨f1, f2, f3, f4, f5⟩ := start_facts c hc
  obtain ⟨t1, t2⟩ := takeWhile_word l r hl hr
  rw [List.append_assoc, List.cons_append, getToken_gap s c (l ++ r) hg ⟨f1, f2, f3⟩] at ht
  have h1 : getTokenAt (at' s (c :: (l ++ r))) = getIdent c { at' s (l ++ r) with prec := precStop } := by
    refine run_getS ?_
    refine run_bind (next_at s c (l ++ r)) ?_
    refine run_modS ?_
    exact run_neg f4 (run_pos f5 rfl)
  rw [h1] at ht
  refine getIdent_ok (t := { at' s (l ++ r) with prec := precStop }) hi ?_ ht
  show c :: List.takeWhile isIdChar ((at' s (l ++ r)).cur :: (at' s (l ++ r)).inp) = _
  rw [rest_eq s _ (by simp [hrn]), t1]

theorem intern_prefix (names : List (List Byte)) (w : List Byte) : ∃ more, intern names w = names ++ more := by
  unfold intern
  split
  · exact ⟨[], by simp⟩
  · exact ⟨[w], rfl⟩

end Props.SccIds

namespace Props
open Prog Text Scc SccLex SccIds

/-- C34: at the end of `AddBuiltins` and up to the first token, the keywords and built-in names have the first numbers, in the order of the
token constants. -/
theorem C34_prelude (src : List Byte) (s : S) (h : prelude (init src) = .ok () s) : ∃ more, Ids s (builtins.map asc ++ more) := by
  unfold prelude at h
  obtain ⟨_, s1, e1, h⟩ := bind_eq_ok.mp h
  cases e1
  refine (?_ : SccKeep.R _ s) _ (builtins_ids src)
  refine (?_ : SccKeep.Keep (_ : A Unit)) _ _ _ h
  keep Props.SccKeep skip

/-- C34: during one compilation, at whatever two places two identifiers are read, they get the same token exactly if they are spelled the
same. -/
theorem C34_same_token (src : List Byte) (s0 s1 s1' s2 s2' : S) (w1 w2 : List Byte) (h0 : prelude (init src) = .ok () s0) (h1 : Later s0 s1)
    (r1 : Reads s1 w1 s1') (h2 : Later s1' s2) (r2 : Reads s2 w2 s2') : s1'.tok = s2'.tok ↔ w1 = w2 := by
  obtain ⟨m0, i0⟩ := C34_prelude src s0 h0
  obtain ⟨m1, i1⟩ := h1.keep _ i0
  obtain ⟨i1', j, hj, hw1⟩ := reads_spec i1 r1
  obtain ⟨m2, i2⟩ := h2.keep _ i1'
  obtain ⟨i2', k, hk, hw2⟩ := reads_spec i2 r2
  obtain ⟨m3, hm3⟩ := intern_prefix (intern (builtins.map asc ++ m0 ++ m1) w1 ++ m2) w2
  have hjl := (List.getElem?_eq_some_iff.1 hw1).1
  have hw1' : (intern (intern (builtins.map asc ++ m0 ++ m1) w1 ++ m2) w2)[j]? = some w1 := by
    rw [hm3, List.append_assoc, List.getElem?_append_left hjl]; exact hw1
  rw [hj, hk]
  constructor
  · intro e
    obtain rfl : j = k := by omega
    rw [hw1'] at hw2
    exact Option.some.inj hw2
  · rintro rfl
    have hl := (List.getElem?_eq_some_iff.1 hw1').1
    have := (List.getElem?_inj hl i2'.nodup).1 (hw1'.trans hw2.symm)
    rw [this]

/-- C34: a keyword or built-in name always gets its token, and no other identifier gets it. -/
theorem C34_keywords (src : List Byte) (s0 s1 s1' : S) (w : List Byte) (k : Nat) (kw : String) (h0 : prelude (init src) = .ok () s0) (h1 : Later s0 s1)
    (r1 : Reads s1 w s1') (hk : builtins[k]? = some kw) : s1'.tok = tokKeyword + k ↔ w = asc kw := by
  obtain ⟨m0, i0⟩ := C34_prelude src s0 h0
  obtain ⟨m1, i1⟩ := h1.keep _ i0
  obtain ⟨i1', j, hj, hw1⟩ := reads_spec i1 r1
  obtain ⟨m3, hm3⟩ := intern_prefix (builtins.map asc ++ m0 ++ m1) w
  have hkl := (List.getElem?_eq_some_iff.1 hk).1
  have hk' : (intern (builtins.map asc ++ m0 ++ m1) w)[k]? = some (asc kw) := by
    rw [hm3, List.append_assoc, List.append_assoc, List.getElem?_append_left (by simpa using hkl), List.getElem?_map, hk]; rfl
  rw [hj]
  constructor
  · intro e
    obtain rfl : j = k := by omega
    rw [hk'] at hw1
    exact (Option.some.inj hw1).symm
  · rintro rfl
    have hl := (List.getElem?_eq_some_iff.1 hk').1
    have := (List.getElem?_inj hl i1'.nodup).1 (hk'.trans hw1.symm)
    omega

/-- C34: the token constants of the source are those of `C34_keywords`. -/
theorem C34_tokens : [(tokBreak, "break"), (tokCase, "case"), (tokChar, "char"), (tokConst, "const"), (tokContinue, "continue"), (tokDefault, "default"),
    (tokDo, "do"), (tokElse, "else"), (tokEnum, "enum"), (tokExtern, "extern"), (tokFor, "for"), (tokGoto, "goto"), (tokIf, "if"), (tokInt, "int"),
    (tokReturn, "return"), (tokSizeof, "sizeof"), (tokStatic, "static"), (tokStruct, "struct"), (tokSwitch, "switch"), (tokTypedef, "typedef"),
    (tokUnion, "union"), (tokUnsigned, "unsigned"), (tokVoid, "void"), (tokWhile, "while"), (tokStart, "_start"), (tokSbss, "_SBSS"),
    (tokEbss, "_EBSS")].all (fun p => decide (builtins[p.1 - tokKeyword]? = some p.2) && decide (tokKeyword ≤ p.1)) = true := by decide +kernel

end Props

namespace Props
open Prog Text Scc SccLex SccIds

/-! ## Cases meeting the hypotheses -/

/-- A text with a comment, read from the start of a compilation: the hypotheses of the theorems hold and the word gets the first free
number. -/
example : ∃ s0 s1, prelude (init (asc "x int x2;")) = .ok () s0 ∧ Reads s0 (asc "int") s1 ∧ s1.tok = tokInt := by
  have h : (match prelude (init (asc "x int x2;")) with
      | .ok _ s0 => (match getToken s0 with | .ok _ s1 => decide (s0.cur :: s0.inp = asc " int x2;" ∧ s1.tok = tokInt) | .err _ => false)
      | .err _ => false) = true := by decide +kernel
  split at h
  · next s0 h0 =>
    split at h
    · next s1 h1 =>
      have h2 := of_decide_eq_true h
      refine ⟨s0, s1, h0, ⟨asc " ", asc " x2;", by rw [h2.1]; decide, Blank.gap (by decide), ⟨_, asc "nt", rfl, by decide, by decide⟩, ?_, by decide, h1⟩, h2.2⟩
      intro c hc
      obtain rfl : 0x20 = c := by simpa [asc, chr] using hc
      decide
    · cases h
  · cases h

end Props
