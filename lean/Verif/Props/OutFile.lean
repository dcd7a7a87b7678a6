import Verif.Scpp.Output
import Verif.Util.Text
/-!
# C28 (output of the preprocessor) and C32 (output file names)
-/
namespace Props.OutFile
open Scpp.Output

/-- What has been output: the bytes written, and those in the buffer. -/
def total (f : OutFile) : List Byte := f.writes.flatten ++ prefix_ f.buf f.ptr

theorem prefix_length (m : Mem 9) (n : Nat) : (prefix_ m n).length = n := by simp [prefix_]

theorem prefix_set (m : Mem 9) {n i : Nat} (b : Byte) (h : n ≤ i) (hi : i < 512) : prefix_ (m.set i b) n = prefix_ m n := by
  simp only [prefix_]
  apply List.map_congr_left
  intro j hj
  rw [List.mem_range] at hj
  exact Mem.get_set_ne m b (by omega) (by omega) (by omega)

theorem prefix_push (m : Mem 9) {n : Nat} (b : Byte) (h : n < 512) : prefix_ (m.set n b) (n + 1) = prefix_ m n ++ [b] := by
  have := prefix_set m b (Nat.le_refl n) h
  simp only [prefix_] at *
  rw [List.range_succ, List.map_append, this, List.map_cons, List.map_nil, Mem.get_set_self]

/-- Every `write` so far was of the whole buffer, and the buffer is not full. -/
def Inv (f : OutFile) : Prop := f.ptr < 512 ∧ ∀ w ∈ f.writes, w.length = 512

theorem outputStr_spec (l : List Byte) : ∀ f, Inv f → ∃ g, outputStr l f = some g ∧ Inv g ∧ total g = total f ++ l := by
  induction l with
  | nil =>
    intro f hf
    refine ⟨{ f with buf := f.buf.set f.ptr 0 }, ?_, hf, ?_⟩
    · rw [outputStr, if_pos (by simpa [size] using hf.1)]
    · simp only [total, prefix_set f.buf 0 (Nat.le_refl _) hf.1, List.append_nil]
  | cons c cs ih =>
    intro f hf
    have hp := hf.1
    rw [outputStr, if_pos (by simpa [size] using hp)]
    by_cases h : f.ptr + 1 = 512
    · simp only [size, h, ne_eq, not_true_eq_false, if_false, write, Nat.le_refl, if_true]
      obtain ⟨g, hg, hi, ht⟩ := ih { f with buf := f.buf.set f.ptr c, ptr := 0, writes := f.writes ++ [prefix_ (f.buf.set f.ptr c) 512] }
        ⟨by simp, by
          intro w hw
          simp only [List.mem_append, List.mem_singleton] at hw
          rcases hw with hw | hw
          · exact hf.2 w hw
          · rw [hw, prefix_length]⟩
      refine ⟨g, hg, hi, ?_⟩
      rw [ht]
      have := prefix_push f.buf c hp
      rw [h] at this
      simp only [total, this]
      simp [prefix_]
    · simp only [size, h, ne_eq, not_false_eq_true, if_true]
      obtain ⟨g, hg, hi, ht⟩ := ih { f with buf := f.buf.set f.ptr c, ptr := f.ptr + 1 } ⟨by simp; omega, hf.2⟩
      refine ⟨g, hg, hi, ?_⟩
      rw [ht]
      simp only [total, prefix_push f.buf c hp]
      simp

theorem outputAll_spec (ls : List (List Byte)) : ∀ f, Inv f → ∃ g, outputAll ls f = some g ∧ Inv g ∧ total g = total f ++ ls.flatten := by
  induction ls with
  | nil => intro f hf; exact ⟨f, rfl, hf, by simp⟩
  | cons l ls ih =>
    intro f hf
    obtain ⟨g, hg, hi, ht⟩ := outputStr_spec l f hf
    obtain ⟨k, hk, hj, hu⟩ := ih g hi
    exact ⟨k, by rw [outputAll, hg]; exact hk, hj, by rw [hu, ht]; simp⟩

end Props.OutFile

namespace Props
open Scpp.Output OutFile

/-- **C28.**  For every sequence of strings, the calls of `OutputStr` and the final `write` never leave the buffer; the bytes
written, concatenated, are the strings, concatenated; and every `write` but the last is of exactly 512 bytes, the last of fewer. -/
theorem C28_output (ls : List (List Byte)) :
    ∃ (ws : List (List Byte)) (w : List Byte), session ls = some (ws ++ [w]) ∧ (ws ++ [w]).flatten = ls.flatten ∧
      (∀ x ∈ ws, x.length = 512) ∧ w.length < 512 := by
  obtain ⟨g, hg, hi, ht⟩ := outputAll_spec ls { buf := Mem.const 0 9, ptr := 0, writes := [] } ⟨by simp, by simp⟩
  refine ⟨g.writes, prefix_ g.buf g.ptr, ?_, ?_, hi.2, by rw [prefix_length]; exact hi.1⟩
  · have hle : g.ptr ≤ size := Nat.le_of_lt hi.1
    simp only [session, hg, write, if_pos hle]
    rfl
  · simp only [List.flatten_append, List.flatten_cons, List.flatten_nil, List.append_nil]
    have : total g = ls.flatten := by rw [ht]; simp [total, prefix_]
    exact this

example : session [Text.asc "int ", Text.asc "x", Text.asc ";"] = some [Text.asc "int x;"] := by decide +kernel

/-- A character that separates the components of a path. -/
def IsSep (c : Byte) : Prop := c = 0x2F ∨ c = 0x5C

/-- `r` is `n` with the extension of its last component replaced by `ext`, or with `ext` appended when there is none. -/
inductive NamedBy (ext : List Byte) : List Byte → List Byte → Prop
  | replace (dir stem e : List Byte) (hd : dir = [] ∨ ∃ d c, dir = d ++ [c] ∧ IsSep c) (hs : ∀ c ∈ stem, ¬ IsSep c)
      (he : ∀ c ∈ e, ¬ IsSep c ∧ c ≠ 0x2E) : NamedBy ext (dir ++ stem ++ 0x2E :: e) (dir ++ stem ++ ext)
  | append (dir base : List Byte) (hd : dir = [] ∨ ∃ d c, dir = d ++ [c] ∧ IsSep c) (hb : ∀ c ∈ base, ¬ IsSep c ∧ c ≠ 0x2E) :
      NamedBy ext (dir ++ base) (dir ++ base ++ ext)

end Props

namespace Props.OutFile
open OutName

theorem cstr_eq (m : Nat → Byte) : ∀ (l : List Byte) (n i : Nat), l.length < n → (∀ c ∈ l, c ≠ 0) → (∀ k, (h : k < l.length) → m (i + k) = l[k]) →
    m (i + l.length) = 0 → cstr m n i = l
  | _, 0, _, h, _, _, _ => absurd h (Nat.not_lt_zero _)
  | [], n + 1, i, _, _, _, hz => by rw [cstr, if_pos (by simpa using hz)]
  | c :: l, n + 1, i, h, hnz, hm, hz => by
    have h0 : m i = c := hm 0 (by simp)
    rw [cstr, h0, if_neg (hnz c (by simp)), cstr_eq m l n (i + 1) (by simpa using h) (fun d hd => hnz d (by simp [hd]))]
    · intro k hk
      have := hm (k + 1) (by simpa using hk)
      simpa [Nat.add_comm, Nat.add_left_comm] using this
    · rw [Nat.add_assoc, Nat.add_comm 1]; exact hz

/-- The array holds `l` at its beginning. -/
def Holds (m : Nat → Byte) (l : List Byte) : Prop := ∀ k, (h : k < l.length) → m k = l[k]

theorem store_push {cap : Nat} {m : Nat → Byte} {l : List Byte} {c : Byte} (hm : Holds m l) (hc : l.length < cap) :
    ∃ m', store cap m l.length c = some m' ∧ Holds m' (l ++ [c]) ∧ m' l.length = c := by
  refine ⟨_, by rw [store, if_pos hc], ?_, by simp⟩
  intro k hk
  simp only [List.length_append, List.length_cons, List.length_nil] at hk
  by_cases h : k = l.length
  · simp [h]
  · have : k < l.length := by omega
    simp [h, hm k this, List.getElem_append_left this]

theorem strcpy_spec {cap : Nat} (e : List Byte) : ∀ (m : Nat → Byte) (l : List Byte), Holds m l → l.length + e.length < cap →
    ∃ m', strcpy cap m l.length e = some m' ∧ Holds m' (l ++ e) ∧ m' (l ++ e).length = 0 := by
  induction e with
  | nil =>
    intro m l hm hc
    obtain ⟨m', h1, h2, h3⟩ := store_push (c := 0) hm (by simpa using hc)
    refine ⟨m', h1, ?_, by simpa using h3⟩
    intro k hk
    simp only [List.append_nil] at hk
    have := h2 k (by simp; omega)
    simpa [List.getElem_append_left hk] using this
  | cons c e ih =>
    intro m l hm hc
    simp only [List.length_cons] at hc
    obtain ⟨m', h1, h2, _⟩ := store_push (c := c) hm (by omega : l.length < cap)
    obtain ⟨m2, h3, h4, h5⟩ := ih m' (l ++ [c]) h2 (by simp; omega)
    refine ⟨m2, ?_, by simpa using h4, by simpa using h5⟩
    rw [strcpy, h1]
    simpa using h3

theorem Holds.take {m : Nat → Byte} {l : List Byte} (h : Holds m l) (k : Nat) : Holds m (l.take k) := by
  intro j hj
  rw [List.length_take] at hj
  rw [h j (by omega), List.getElem_take]

/-- The place of the last dot. -/
def lastDot : List Byte → Nat → Option Nat → Option Nat
  | [], _, last => last
  | c :: cs, i, last => lastDot cs (i + 1) (if c = 0x2E then some i else last)

theorem loop_spec {cap : Nat} {ext : List Byte} (n : List Byte) : ∀ (m : Nat → Byte) (l : List Byte) (last : Option Nat), Holds m l →
    l.length + n.length + ext.length < cap → (∀ i, last = some i → i ≤ l.length) →
    ∃ m' r, loop cap ext m l.length last n = some m' ∧ Holds m' r ∧ m' r.length = 0 ∧
      r = (l ++ n).take ((lastDot n l.length last).getD (l ++ n).length) ++ ext ∧ r.length < cap := by
  induction n with
  | nil =>
    intro m l last hm hc hl
    simp only [List.length_nil, Nat.add_zero] at hc
    have hle : last.getD l.length ≤ l.length := by
      cases last with
      | none => simp
      | some i => simpa using hl i rfl
    have hlen : (l.take (last.getD l.length)).length = last.getD l.length := by rw [List.length_take]; omega
    obtain ⟨m', h1, h2, h3⟩ := strcpy_spec (cap := cap) ext m _ (hm.take (last.getD l.length)) (by rw [hlen]; omega)
    rw [hlen] at h1
    refine ⟨m', _, by rw [loop]; exact h1, h2, h3, by simp [lastDot], by rw [List.length_append, hlen]; omega⟩
  | cons c cs ih =>
    intro m l last hm hc hl
    simp only [List.length_cons] at hc
    obtain ⟨m', h1, h2, _⟩ := store_push (c := c) hm (by omega : l.length < cap)
    have hlen : (l ++ [c]).length = l.length + 1 := by simp
    obtain ⟨m2, r, h3, h4, h5, h6, h7⟩ := ih m' (l ++ [c]) (if c = 0x2E then some l.length else last) h2 (by rw [hlen]; omega) (by
      intro i hi
      split at hi
      · cases hi; simp
      · have := hl i hi; rw [hlen]; omega)
    rw [hlen] at h3 h6
    refine ⟨m2, r, by rw [loop, h1]; exact h3, h4, h5, ?_, h7⟩
    rw [h6, lastDot]
    simp

theorem lastDot_append (a b : List Byte) : ∀ i last, lastDot (a ++ b) i last = lastDot b (i + a.length) (lastDot a i last) := by
  induction a with
  | nil => intro i last; simp [lastDot]
  | cons c a ih => intro i last; simp [lastDot, ih, Nat.add_assoc, Nat.add_comm]

theorem lastDot_none (e : List Byte) (h : ∀ c ∈ e, c ≠ 0x2E) : ∀ i last, lastDot e i last = last := by
  induction e with
  | nil => intro i last; rfl
  | cons c e ih =>
    intro i last
    rw [lastDot, if_neg (h c (by simp)), ih (fun d hd => h d (by simp [hd]))]

theorem make_spec {cap : Nat} {ext n : List Byte} (hn : ∀ c ∈ n, c ≠ 0) (he : ∀ c ∈ ext, c ≠ 0) (hc : n.length + ext.length < cap) :
    make cap ext n = some (n.take ((lastDot n 0 none).getD n.length) ++ ext) := by
  obtain ⟨m, r, h1, h2, h3, h4, h5⟩ := loop_spec (cap := cap) (ext := ext) n (fun _ => 0) [] none (fun k h => absurd h (by simp)) (by simpa using hc) (by simp)
  simp only [List.nil_append, List.length_nil] at h1 h4
  rw [make, h1, Option.map_some, cstr_eq m r cap 0 h5 (by
    intro c hcm
    rw [h4, List.mem_append] at hcm
    rcases hcm with h | h
    · exact hn c (List.mem_of_mem_take h)
    · exact he c h) (fun k hk => by simpa using h2 k hk) (by simpa using h3), h4]

end Props.OutFile

namespace Props
open OutFile OutName

/-- **C32 (partial).**  Let a name without NUL be split as `dir` (empty, or ending with a separator) and a last component `base`
without separators.  If `base` has a dot, or `dir` has none, and the array is large enough, the default output name is the
one that replaces the extension of the last component or appends one.

Missing: names whose last component has no dot while a directory has one (`C32_dir_violated`), and names that do not fit the array
(`C32_overflow_violated`). -/
theorem C32_name_partial (cap : Nat) (ext dir base : List Byte) (hext : ∀ c ∈ ext, c ≠ 0) (hn : ∀ c ∈ dir ++ base, c ≠ 0)
    (hd : dir = [] ∨ ∃ d c, dir = d ++ [c] ∧ IsSep c) (hb : ∀ c ∈ base, ¬ IsSep c) (hdot : 0x2E ∈ base ∨ 0x2E ∉ dir)
    (hcap : (dir ++ base).length + ext.length < cap) :
    ∃ r, make cap ext (dir ++ base) = some r ∧ NamedBy ext (dir ++ base) r := by
  rw [make_spec hn hext hcap]
  refine ⟨_, rfl, ?_⟩
  by_cases h : 0x2E ∈ base
  · -- split at the last dot
    have : ∃ stem e, base = stem ++ 0x2E :: e ∧ ∀ c ∈ e, c ≠ (0x2E : Byte) := by
      clear hb hn hcap hdot
      induction base with
      | nil => cases h
      | cons c cs ih =>
        by_cases h' : (0x2E : Byte) ∈ cs
        · obtain ⟨s, e, h1, h2⟩ := ih h'
          exact ⟨c :: s, e, by rw [h1]; rfl, h2⟩
        · simp only [List.mem_cons] at h
          have hc : c = 0x2E := by
            rcases h with h | h
            · exact h.symm
            · exact absurd h h'
          exact ⟨[], cs, by rw [hc]; rfl, fun d hd he => h' (he ▸ hd)⟩
    obtain ⟨stem, e, rfl, he⟩ := this
    rw [← List.append_assoc, lastDot_append]
    simp only [lastDot, if_true, lastDot_none e he, Option.getD_some, Nat.zero_add, List.take_left']
    exact .replace dir stem e hd (fun c hc => hb c (by simp [hc])) (fun c hc => ⟨hb c (by simp [hc]), he c hc⟩)
  · have hnd : 0x2E ∉ dir := by
      rcases hdot with h' | h'
      · exact absurd h' h
      · exact h'
    have : ∀ c ∈ dir ++ base, c ≠ (0x2E : Byte) := by
      intro c hc e
      rw [List.mem_append] at hc
      subst e
      rcases hc with hc | hc
      · exact hnd hc
      · exact h hc
    rw [lastDot_none _ this, Option.getD_none, List.take_length]
    exact .append dir base hd (fun c hc => ⟨hb c hc, fun e => h (e ▸ hc)⟩)

example : OutName.scpp (Text.asc "../src/a.b.c") = some (Text.asc "../src/a.b.i") := by decide +kernel
example : OutName.sas (Text.asc "src/prog") = some (Text.asc "src/prog.com") := by decide +kernel

/-- The specification determines the name. -/
theorem C32_spec_unique {ext n r r' : List Byte} (h : NamedBy ext n r) (h' : NamedBy ext n r') : r = r' := by
  have key : ∀ (d b : List Byte) (d' b' : List Byte), (d = [] ∨ ∃ x c, d = x ++ [c] ∧ IsSep c) → (∀ c ∈ b, ¬ IsSep c) →
      (d' = [] ∨ ∃ x c, d' = x ++ [c] ∧ IsSep c) → (∀ c ∈ b', ¬ IsSep c) → d ++ b = d' ++ b' → d = d' ∧ b = b' := by
    intro d b d' b' hd hb hd' hb' e
    rcases List.append_eq_append_iff.mp e with ⟨t, h1, h2⟩ | ⟨t, h1, h2⟩
    · rcases hd' with rfl | ⟨x, c, rfl, hc⟩
      · obtain ⟨rfl, rfl⟩ := List.append_eq_nil_iff.mp h1.symm
        exact ⟨rfl, by simpa using h2⟩
      · rcases List.eq_nil_or_concat t with rfl | ⟨t', c', rfl⟩
        · exact ⟨by simpa using h1.symm, by simpa using h2⟩
        · have : c = c' := by
            have := congrArg List.getLast? h1
            rw [List.concat_eq_append, ← List.append_assoc, List.getLast?_concat, List.getLast?_concat] at this
            exact Option.some.inj this
          subst this
          exact absurd hc (hb c (by rw [h2]; simp))
    · rcases hd with rfl | ⟨x, c, rfl, hc⟩
      · obtain ⟨rfl, rfl⟩ := List.append_eq_nil_iff.mp h1.symm
        exact ⟨rfl, by simpa using h2.symm⟩
      · rcases List.eq_nil_or_concat t with rfl | ⟨t', c', rfl⟩
        · exact ⟨by simpa using h1, by simpa using h2.symm⟩
        · have : c = c' := by
            have := congrArg List.getLast? h1
            rw [List.concat_eq_append, ← List.append_assoc, List.getLast?_concat, List.getLast?_concat] at this
            exact Option.some.inj this
          subst this
          exact absurd hc (hb' c (by rw [h2]; simp))
  have dot : ∀ (s e s' e' : List Byte), (∀ c ∈ e, c ≠ (0x2E : Byte)) → (∀ c ∈ e', c ≠ (0x2E : Byte)) → s ++ 0x2E :: e = s' ++ 0x2E :: e' → s = s' := by
    intro s e s' e' he he' h
    rcases List.append_eq_append_iff.mp h with ⟨t, h1, h2⟩ | ⟨t, h1, h2⟩
    · cases t with
      | nil => simpa using h1.symm
      | cons c t =>
        simp only [List.cons_append, List.cons.injEq] at h2
        exact absurd rfl (he 0x2E (by rw [h2.2]; simp))
    · cases t with
      | nil => simpa using h1
      | cons c t =>
        simp only [List.cons_append, List.cons.injEq] at h2
        exact absurd rfl (he' 0x2E (by rw [h2.2]; simp))
  have dn : ¬ IsSep 0x2E := by unfold IsSep; decide
  generalize hm : n = m at h'
  cases h with
  | replace d s e hd hs he =>
    cases h' with
    | replace d' s' e' hd' hs' he' =>
      simp only [List.append_assoc] at hm
      obtain ⟨rfl, h2⟩ := key _ _ _ _ hd (by
        intro c hc
        simp only [List.mem_append, List.mem_cons] at hc
        rcases hc with hc | rfl | hc
        · exact hs c hc
        · exact dn
        · exact (he c hc).1) hd' (by
        intro c hc
        simp only [List.mem_append, List.mem_cons] at hc
        rcases hc with hc | rfl | hc
        · exact hs' c hc
        · exact dn
        · exact (he' c hc).1) hm
      rw [dot s e s' e' (fun c hc => (he c hc).2) (fun c hc => (he' c hc).2) h2]
    | append d' b' hd' hb' =>
      simp only [List.append_assoc] at hm
      obtain ⟨rfl, h2⟩ := key _ _ _ _ hd (by
        intro c hc
        simp only [List.mem_append, List.mem_cons] at hc
        rcases hc with hc | rfl | hc
        · exact hs c hc
        · exact dn
        · exact (he c hc).1) hd' (fun c hc => (hb' c hc).1) hm
      exact absurd rfl (hb' 0x2E (by rw [← h2]; simp)).2
  | append d b hd hb =>
    cases h' with
    | replace d' s' e' hd' hs' he' =>
      simp only [List.append_assoc] at hm
      obtain ⟨rfl, h2⟩ := key _ _ _ _ hd (fun c hc => (hb c hc).1) hd' (by
        intro c hc
        simp only [List.mem_append, List.mem_cons] at hc
        rcases hc with hc | rfl | hc
        · exact hs' c hc
        · exact dn
        · exact (he' c hc).1) hm
      exact absurd rfl (hb 0x2E (by rw [h2]; simp)).2
    | append d' b' hd' hb' =>
      rw [hm]

/-- **C32 is violated** by a directory name with a dot: the output for `a.b/c` goes to `a.i`. -/
theorem C32_dir_violated : OutName.scpp (Text.asc "a.b/c") = some (Text.asc "a.i") ∧ ¬ NamedBy (Text.asc ".i") (Text.asc "a.b/c") (Text.asc "a.i") := by
  refine ⟨by decide +kernel, fun h => ?_⟩
  have h2 : NamedBy (Text.asc ".i") (Text.asc "a.b/c") (Text.asc "a.b/c.i") := by
    have := NamedBy.append (ext := Text.asc ".i") (Text.asc "a.b/") (Text.asc "c") (.inr ⟨Text.asc "a.b", 0x2F, by decide, .inl rfl⟩)
      (by intro c hc; have : c = 0x63 := by simpa [Text.asc] using hc
          subst this; unfold IsSep; decide)
    exact this
  exact absurd (C32_spec_unique h h2) (by decide)

/-- **C32 is violated** by long names: the copy of a name of 62 or more characters overflows the array of `scpp`. -/
theorem C32_overflow_violated (n : List Byte) (h : ∀ c ∈ n, c ≠ 0 ∧ c ≠ 0x2E) (hl : 62 ≤ n.length) : OutName.scpp n = none := by
  have st : ∀ (e : List Byte) (m : Nat → Byte) (i : Nat), 64 ≤ i + e.length → strcpy 64 m i e = none := by
    intro e
    induction e with
    | nil => intro m i hi; rw [strcpy, store, if_neg (by simpa using hi)]
    | cons c e ih =>
      intro m i hi
      rw [strcpy, store]
      split
      · rfl
      · exact ih _ _ (by simp only [List.length_cons] at hi; omega)
  have lp : ∀ (n : List Byte) (m : Nat → Byte) (i : Nat), (∀ c ∈ n, c ≠ (0x2E : Byte)) → 62 ≤ i + n.length → loop 64 [0x2E, 0x69] m i none n = none := by
    intro n
    induction n with
    | nil => intro m i _ hi; rw [loop]; exact st _ _ _ (by simpa using hi)
    | cons c n ih =>
      intro m i hc hi
      rw [loop, store]
      split
      · rfl
      · rw [if_neg (hc c (by simp))]
        exact ih _ _ (fun d hd => hc d (by simp [hd])) (by simp only [List.length_cons] at hi; omega)
  rw [OutName.scpp, make, lp n _ 0 (fun c hc => (h c hc).2) (by omega)]
  rfl

end Props
