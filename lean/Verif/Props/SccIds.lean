import Verif.Props.SccLex
import Verif.Util.Probe
/-!
# Identifiers of the compiler (C34): one lookup
-/
namespace Props.SccIds
open Prog Text Scc Props.SccLex

/-- The slots of the hash table. -/
def slots (tab : Tab (Option Nat) 10) (a : Nat) : Option Nat := if a < 1024 then tab.get a else none

/-- The identifiers known, in the order of their numbers, are `names`. -/
structure IdsOf (tab : Tab (Option Nat) 10) (txt : Tab (List Byte) 10) (n : Nat) (names : List (List Byte)) : Prop where
  cnt : n = names.length
  le : names.length ≤ idMax
  text : ∀ i w, names[i]? = some w → txt.get i = w
  inv : Probe.Inv 1024 hashOf (slots tab) names
  nodup : names.Nodup

abbrev Ids (s : S) (names : List (List Byte)) : Prop := IdsOf s.idHash s.idText s.idCount names

theorem hash_lt (w : List Byte) : hashOf w < 1024 := Nat.mod_lt _ (by decide)

theorem slots_pr (tab : Tab (Option Nat) 10) (h j : Nat) : slots tab (Probe.pr 1024 h j) = tab.get (Probe.pr 1024 h j) :=
  if_pos (Probe.pr_lt (by decide) h j)

theorem probe_steps (tab : Tab (Option Nat) 10) (txt : Tab (List Byte) 10) (w : List Byte) (h j : Nat)
    (hk : ∀ k < j, ∃ i, tab.get (Probe.pr 1024 h k) = some i ∧ txt.get i ≠ w) : ∀ (d n : Nat), d ≤ j → j ≤ n + d →
    probe tab txt w (n + 1) (Probe.pr 1024 h d) = probe tab txt w (n + 1 + d - j) (Probe.pr 1024 h j) := by
  intro d n hd hn
  obtain ⟨e, rfl⟩ : ∃ e, j = d + e := ⟨j - d, by omega⟩
  clear hd
  induction e generalizing d n with
  | zero => rw [show n + 1 + d - (d + 0) = n + 1 by omega]; rfl
  | succ e ih =>
    obtain ⟨i, h1, h2⟩ := hk d (by omega)
    obtain ⟨n, rfl⟩ : ∃ m, n = m + 1 := ⟨n - 1, by omega⟩
    have := ih (d + 1) n (by intro k hk'; exact hk k (by omega)) (by omega)
    conv => lhs; unfold probe
    simp only [h1, if_neg h2, show idHashMax = 1024 from rfl, Probe.pr_succ]
    rw [this, show d + 1 + e = d + (e + 1) by omega, show n + 1 + (d + 1) = n + 1 + 1 + d by omega]

/-- What the search for a word finds. -/
theorem probe_spec {tab txt n names} (h : IdsOf tab txt n names) (w : List Byte) :
    (∃ i a, names[i]? = some w ∧ probe tab txt w idHashMax (hashOf w) = some (a, some i)) ∨
    (∃ j < 1024, w ∉ names ∧ slots tab (Probe.pr 1024 (hashOf w) j) = none ∧ (∀ k < j, slots tab (Probe.pr 1024 (hashOf w) k) ≠ none) ∧
      probe tab txt w idHashMax (hashOf w) = some (Probe.pr 1024 (hashOf w) j, none)) := by
  obtain ⟨j, hj, hk, hr⟩ := Probe.search h.inv h.nodup w
  have hk' : ∀ k < j, ∃ i, tab.get (Probe.pr 1024 (hashOf w) k) = some i ∧ txt.get i ≠ w := by
    intro k hkj
    obtain ⟨i, t, h1, h2, h3⟩ := hk k hkj
    rw [slots_pr] at h1
    exact ⟨i, h1, by rw [h.text i t h2]; exact h3⟩
  have hs := probe_steps tab txt w (hashOf w) j hk' 0 1023 (by omega) (by omega)
  rw [Probe.pr_zero (hash_lt w)] at hs
  obtain ⟨m, hm⟩ : ∃ m, 1023 + 1 + 0 - j = m + 1 := ⟨1023 - j, by omega⟩
  rw [hm] at hs
  rcases hr with ⟨h1, h2⟩ | ⟨i, h1, h2⟩
  · refine .inr ⟨j, hj, h2, h1, ?_, ?_⟩
    · intro k hkj
      obtain ⟨i, t, h3, _⟩ := hk k hkj
      rw [h3]; exact Option.some_ne_none _
    · show probe tab txt w (1023 + 1) _ = _
      rw [hs]; unfold probe
      rw [slots_pr] at h1
      simp only [h1]
  · refine .inl ⟨i, Probe.pr 1024 (hashOf w) j, h2, ?_⟩
    show probe tab txt w (1023 + 1) _ = _
    rw [hs]; unfold probe
    rw [slots_pr] at h1
    simp only [h1, h.text i w h2, if_true]

/-- A new word. -/
theorem IdsOf.add {tab txt n names} (h : IdsOf tab txt n names) (w : List Byte) (hw : w ∉ names) (hl : names.length < idMax) {j : Nat} (hj : j < 1024)
    (hf : slots tab (Probe.pr 1024 (hashOf w) j) = none) (hb : ∀ k < j, slots tab (Probe.pr 1024 (hashOf w) k) ≠ none) :
    IdsOf (tab.set (Probe.pr 1024 (hashOf w) j) (some n)) (txt.set n w) (n + 1) (names ++ [w]) where
  cnt := by simp [h.cnt]
  le := by simp only [List.length_append, List.length_singleton]; exact hl
  text := by
    have hm : idMax < 1024 := by decide
    intro i v hi
    by_cases hlt : i < names.length
    · rw [List.getElem?_append_left hlt] at hi
      rw [Tab.get_set_ne _ _ (by have := h.cnt; omega) (by omega) (by have := h.cnt; omega)]
      exact h.text i v hi
    · have e : i = names.length := by
        have := (List.getElem?_eq_some_iff.1 hi).1
        simp at this; omega
      subst e
      simp at hi
      subst hi
      rw [h.cnt]
      exact Tab.get_set_self ..
  inv := by
    have hm : idMax < 1023 := by decide
    have := Probe.add h.inv w (by omega) hj hf hb
    have e : slots (tab.set (Probe.pr 1024 (hashOf w) j) (some n)) =
        (fun a => if a = Probe.pr 1024 (hashOf w) j then some names.length else slots tab a) := by
      funext a
      have hp := Probe.pr_lt (N := 1024) (by decide) (hashOf w) j
      by_cases ha : a = Probe.pr 1024 (hashOf w) j
      · subst ha
        simp only [slots_pr, Tab.get_set_self, if_true, h.cnt]
      · simp only [if_neg ha, slots]
        split
        · exact Tab.get_set_ne _ _ hp (by omega) (fun e => ha e.symm)
        · rfl
    rwa [e]
  nodup := by
    rw [List.nodup_append]
    refine ⟨h.nodup, by simp, ?_⟩
    intro a ha b hb' e
    simp at hb'
    subst hb' e
    exact hw ha

/-! ## `GetToken` on an identifier -/

/-- The characters that begin an identifier. -/
def IsStart (c : Byte) : Prop := isIdChar c = true ∧ ¬ IsDigit c

/-- `w` is an identifier. -/
def Word (w : List Byte) : Prop := ∃ c l, w = c :: l ∧ IsStart c ∧ ∀ d ∈ l, isIdChar d = true

/-- `r` does not go on with a letter, a digit or an underscore. -/
def WordEnd (r : List Byte) : Prop := ∀ c, r.head? = some c → isIdChar c = false

instance (c : Byte) : Decidable (IsDigit c) := by unfold IsDigit; infer_instance
instance (c : Byte) : Decidable (IsStart c) := by unfold IsStart; infer_instance

theorem start_facts : ∀ c : Byte, IsStart c → 0x20 < c.toInt ∧ c ≠ 0x2F ∧ c ≠ 0x23 ∧ ¬(0x30 ≤ c.toNat ∧ c.toNat ≤ 0x39) ∧
    (0x41 ≤ c.toNat ∧ c.toNat &&& 0xDF ≤ 0x5A ∨ c = 0x5F) := by decide +kernel

theorem takeWhile_word (l r : List Byte) (hl : ∀ d ∈ l, isIdChar d = true) (hr : WordEnd r) :
    (l ++ r).takeWhile isIdChar = l ∧ (l ++ r).dropWhile isIdChar = r := by
  induction l with
  | nil =>
    cases r with
    | nil => exact ⟨rfl, rfl⟩
    | cons c r => simp [hr c rfl]
  | cons d l ih =>
    have := ih (fun x hx => hl x (by simp [hx]))
    simp [hl d (by simp), this]

/-- The state after the identifier with number `i`, before the tables are updated. -/
def afterId (s : S) (i : Nat) (r : List Byte) : S := { at' s r with tok := i + tokKeyword, prec := precStop }

/-- The list of the names after `w` has been read. -/
def intern (names : List (List Byte)) (w : List Byte) : List (List Byte) := if w ∈ names then names else names ++ [w]

theorem rest_eq (s : S) (l : List Byte) : l ≠ [] → (at' s l).cur :: (at' s l).inp = l := by cases l <;> simp [at']

/-- One identifier. Either it is known and its number is its place in the list, or it gets the next number. -/
theorem getToken_word (s : S) (names : List (List Byte)) (ws w r : List Byte) (h : Ids s names) (hws : Gap ws) (hw : Word w) (hr : WordEnd r) (hrn : r ≠ [])
    (hb : s.idPos + w.length + 1 ≤ idBufferMax) (hn : w ∈ names ∨ names.length < idMax) :
    ∃ s', getToken (at' s (ws ++ w ++ r)) = .ok () s' ∧ s'.cur :: s'.inp = r ∧ Ids s' (intern names w) ∧
      ∃ i, s'.tok = i + tokKeyword ∧ (intern names w)[i]? = some w := by
  obtain ⟨c, l, rfl, hc, hl⟩ := hw
  obtain ⟨f1, f2, f3, f4, f5⟩ := start_facts c hc
  obtain ⟨t1, t2⟩ := takeWhile_word l r hl hr
  have hne : l ++ r ≠ [] := by simp [hrn]
  have hrun : ∀ res, getIdent c { at' s (l ++ r) with prec := precStop } = res → getToken (at' s (ws ++ c :: l ++ r)) = res := by
    intro res hres
    rw [List.append_assoc, List.cons_append, getToken_gap s c (l ++ r) hws ⟨f1, f2, f3⟩]
    refine run_getS ?_
    refine run_bind (next_at s c (l ++ r)) ?_
    refine run_modS ?_
    exact run_neg f4 (run_pos f5 hres)
  have hid : ∀ res, (match probe s.idHash s.idText (c :: l) idHashMax (hashOf (c :: l)) with
      | none => fail .fuel
      | some (_, some i) => modS fun s => { s with tok := i + tokKeyword }
      | some (h, none) => do
        failIf (s.idCount == idMax)
        modS fun s => { s with
          tok := s.idCount + tokKeyword, idHash := s.idHash.set h (some s.idCount), idText := s.idText.set s.idCount (c :: l),
          idPos := s.idPos + (c :: l).length + 1, idCount := s.idCount + 1 } : A Unit) { at' s r with prec := precStop } = res →
      getIdent c { at' s (l ++ r) with prec := precStop } = res := by
    intro res hres
    refine run_getS ?_
    have e : ({ at' s (l ++ r) with prec := precStop } : S).cur :: ({ at' s (l ++ r) with prec := precStop } : S).inp = l ++ r := rest_eq s _ hne
    rw [e, t1, t2]
    refine run_bind (a := ()) (s1 := { at' s r with prec := precStop }) rfl ?_
    refine run_ub (decide_eq_true hb) ?_
    exact hres
  rcases probe_spec h (c :: l) with ⟨i, a, hi, hp⟩ | ⟨j, hj, hm, hf, hbf, hp⟩
  · have hmem : c :: l ∈ names := List.mem_of_getElem? hi
    refine ⟨afterId s i r, hrun _ (hid _ ?_), rest_eq s r hrn, ?_, i, rfl, ?_⟩
    · rw [hp]; rfl
    · rw [intern, if_pos hmem]; exact h
    · rw [intern, if_pos hmem]; exact hi
  · have hlt : names.length < idMax := hn.resolve_left hm
    refine ⟨{ afterId s s.idCount r with
        idHash := s.idHash.set (Probe.pr 1024 (hashOf (c :: l)) j) (some s.idCount), idText := s.idText.set s.idCount (c :: l),
        idPos := s.idPos + (c :: l).length + 1, idCount := s.idCount + 1 }, hrun _ (hid _ ?_), ?_, ?_, names.length, ?_, ?_⟩
    · rw [hp]
      refine run_bind (a := ()) (s1 := { at' s r with prec := precStop }) ?_ rfl
      show failIf (s.idCount == idMax) _ = _
      rw [beq_eq_false_iff_ne.2 (by have := h.cnt; omega)]
      rfl
    · exact rest_eq s r hrn
    · rw [intern, if_neg hm]; exact h.add (c :: l) hm hlt hj hf hbf
    · show s.idCount + tokKeyword = _
      rw [h.cnt]
    · rw [intern, if_neg hm]; simp

/-! ## The keywords -/

theorem free_steps (tab : Tab (Option Nat) 10) (h j : Nat) (hk : ∀ k < j, (tab.get (Probe.pr 1024 h k)).isSome = true) : ∀ (d n : Nat), d ≤ j → j ≤ n + d →
    freeSlot tab (n + 1) (Probe.pr 1024 h d) = freeSlot tab (n + 1 + d - j) (Probe.pr 1024 h j) := by
  intro d n hd hn
  obtain ⟨e, rfl⟩ : ∃ e, j = d + e := ⟨j - d, by omega⟩
  clear hd
  induction e generalizing d n with
  | zero => rw [show n + 1 + d - (d + 0) = n + 1 by omega]; rfl
  | succ e ih =>
    have h1 := hk d (by omega)
    obtain ⟨n, rfl⟩ : ∃ m, n = m + 1 := ⟨n - 1, by omega⟩
    have := ih (d + 1) n (by intro k hk'; exact hk k (by omega)) (by omega)
    conv => lhs; unfold freeSlot
    simp only [h1, if_true, show idHashMax = 1024 from rfl, Probe.pr_succ]
    rw [this, show d + 1 + e = d + (e + 1) by omega, show n + 1 + (d + 1) = n + 1 + 1 + d by omega]

theorem addBuiltin_ids {s : S} {names : List (List Byte)} (h : Ids s names) (w : List Byte) (hw : w ∉ names) (hl : names.length < idMax) :
    Ids (addBuiltin s w) (names ++ [w]) := by
  obtain ⟨j, hj, h1, h2⟩ := Probe.exists_first h.inv (hashOf w)
  have hs := free_steps s.idHash (hashOf w) j (by
    intro k hk
    have := h2 k hk
    rw [slots_pr] at this
    exact Option.isSome_iff_ne_none.2 this) 0 1023 (by omega) (by omega)
  rw [Probe.pr_zero (hash_lt w)] at hs
  obtain ⟨m, hm⟩ : ∃ m, 1023 + 1 + 0 - j = m + 1 := ⟨1023 - j, by omega⟩
  have e : freeSlot s.idHash idHashMax (hashOf w) = Probe.pr 1024 (hashOf w) j := by
    show freeSlot s.idHash (1023 + 1) _ = _
    rw [hs, hm]; unfold freeSlot
    have := h1
    rw [slots_pr] at this
    simp [this]
  have := h.add w hw hl hj h1 h2
  unfold Ids addBuiltin
  simp only [e]
  exact this

theorem fold_ids : ∀ (l : List (List Byte)) (s : S) (names : List (List Byte)), Ids s names → (names ++ l).Nodup → names.length + l.length ≤ idMax →
    Ids (l.foldl addBuiltin s) (names ++ l) := by
  intro l
  induction l with
  | nil => intro s names h _ _; simpa using h
  | cons w l ih =>
    intro s names h hd hl
    have hw : w ∉ names := by
      intro hm
      have := (List.nodup_append.1 hd).2.2 w hm w (by simp)
      exact this rfl
    simp only [List.length_cons] at hl
    have := ih (addBuiltin s w) (names ++ [w]) (addBuiltin_ids h w hw (by omega)) (by simpa using hd) (by simp; omega)
    simpa using this

theorem init_ids (src : List Byte) : Ids (init src) [] where
  cnt := rfl
  le := by simp
  text := by simp
  inv := by
    have e : slots (init src).idHash = fun _ => none := by
      funext a; simp [slots, init]
    rw [e]; exact Probe.inv_empty (by decide)
  nodup := by simp

/-- The keywords have their numbers from the start. -/
theorem builtins_ids (src : List Byte) : Ids ((builtins.map asc).foldl addBuiltin (init src)) (builtins.map asc) := by
  have := fold_ids (builtins.map asc) (init src) [] (init_ids src) (by decide +kernel) (by decide +kernel)
  simpa using this

end Props.SccIds
