import Verif.Lib.Args
import Verif.Util.Text
import Mathlib.Tactic.Tauto
/-!
# C18: `ParseArgs`
-/
namespace Props
open I86 Lib Text

/-- A separator: a byte that is not above blank, as a signed character (so bytes from 0x80 on are separators as well). -/
def isBlank (b : Byte) : Bool := b.toInt ≤ 0x20

/-- The words of a command tail: the maximal runs of characters above blank, up to the first NUL. -/
def words (t : List Byte) : List (List Byte) :=
  ((t.takeWhile (· ≠ 0)).splitOnP isBlank).filter (· ≠ [])

/-- The bytes from `p` on are `l`. -/
def BytesAt (m : Mem 16) (p : Nat) (l : List Byte) : Prop := ∀ i b, l[i]? = some b → m.get (p + i) = b

/-- The word at `p`. -/
def wordAt (m : Mem 16) (p : Nat) : Nat := (m.get p).toNat + 256 * (m.get (p + 1)).toNat

/-- Entry `i` of the argument vector points to the NUL-terminated string `l`. -/
def ArgIs (m : Mem 16) (i : Nat) (l : List Byte) : Prop := BytesAt m (wordAt m (0x5C + 2 * i)) (l ++ [0])

/-! ## Lemmas -/

theorem bytesAt_nil (m : Mem 16) (p : Nat) : BytesAt m p [] := by intro i b h; simp at h

theorem bytesAt_cons {m : Mem 16} {p : Nat} {b : Byte} {l : List Byte} :
    BytesAt m p (b :: l) ↔ m.get p = b ∧ BytesAt m (p + 1) l := by
  constructor
  · intro h
    refine ⟨h 0 b rfl, fun i c hc => ?_⟩
    have := h (i + 1) c (by simpa using hc)
    rwa [show p + 1 + i = p + (i + 1) by omega]
  · rintro ⟨h0, h1⟩ i c hc
    cases i with
    | zero => simp at hc; subst hc; exact h0
    | succ i =>
      have := h1 i c (by simpa using hc)
      rwa [show p + (i + 1) = p + 1 + i by omega]

theorem bytesAt_append {m : Mem 16} {p : Nat} {k l : List Byte} :
    BytesAt m p (k ++ l) ↔ BytesAt m p k ∧ BytesAt m (p + k.length) l := by
  induction k generalizing p with
  | nil => simp [bytesAt_nil]
  | cons b k ih =>
    simp only [List.cons_append, bytesAt_cons, ih, List.length_cons, and_assoc,
      show p + 1 + k.length = p + (k.length + 1) by omega]

theorem bytesAt_congr {m m' : Mem 16} {p : Nat} {l : List Byte} (h : BytesAt m p l)
    (hm : ∀ a, p ≤ a → a < p + l.length → m'.get a = m.get a) : BytesAt m' p l := by
  intro i b hb
  have hi : i < l.length := by
    rcases Nat.lt_or_ge i l.length with h | h
    · exact h
    · rw [List.getElem?_eq_none h] at hb; simp at hb
  rw [hm _ (by omega) (by omega)]
  exact h i b hb

theorem skipWhile_run {c : Byte → Bool} {m : Mem 16} {p fuel : Nat} {l : List Byte} {b : Byte} (hm : BytesAt m p (l ++ [b]))
    (hl : ∀ x ∈ l, c x = true) (hb : c b = false) (hf : l.length < fuel) :
    skipWhile c m fuel p = some (p + l.length) := by
  induction l generalizing p fuel with
  | nil =>
    obtain ⟨fuel, rfl⟩ : ∃ f, fuel = f + 1 := ⟨fuel - 1, by simp at hf; omega⟩
    have := (bytesAt_cons.mp hm).1
    rw [skipWhile, this, if_neg (by rw [hb]; decide)]; rfl
  | cons x l ih =>
    obtain ⟨fuel, rfl⟩ : ∃ f, fuel = f + 1 := ⟨fuel - 1, by simp at hf; omega⟩
    obtain ⟨h0, h1⟩ := bytesAt_cons.mp hm
    rw [skipWhile, h0, if_pos (hl x (by simp)), ih h1 (fun y hy => hl y (by simp [hy])) (by simp at hf; omega)]
    simp only [List.length_cons]; congr 1; omega

theorem setArg_ne (m : Mem 16) (i v a : Nat) (hi : i < 1000) (ha : a < 65536) (h : a < 0x5C + 2 * i ∨ 0x5C + 2 * i + 2 ≤ a) :
    (setArg m i v).get a = m.get a := by
  unfold setArg
  rw [Mem.get_set_ne _ _ (by omega) (by omega) (by omega), Mem.get_set_ne _ _ (by omega) (by omega) (by omega)]

theorem wordAt_setArg (m : Mem 16) (i v : Nat) (hi : i < 1000) (hv : v < 65536) :
    wordAt (setArg m i v) (0x5C + 2 * i) = v := by
  unfold setArg wordAt
  rw [Mem.get_set_self, Mem.get_set_ne _ _ (by omega) (by omega) (by omega), Mem.get_set_self]
  simp only [BitVec.toNat_ofNat]
  omega

theorem splitOnP_blank_prefix (bs l : List Byte) (h : ∀ b ∈ bs, isBlank b = true) :
    ((bs ++ l).splitOnP isBlank).filter (· ≠ []) = (l.splitOnP isBlank).filter (· ≠ []) := by
  induction bs with
  | nil => rfl
  | cons b bs ih =>
    rw [List.cons_append, List.splitOnP_cons_eq_if_modifyHead, if_pos (h b (by simp)), List.filter_cons_of_neg (by simp)]
    exact ih (fun x hx => h x (by simp [hx]))

theorem mem_takeWhile_imp {p : Byte → Bool} {l : List Byte} {b : Byte} (h : b ∈ l.takeWhile p) : p b = true := by
  induction l with
  | nil => simp at h
  | cons a l ih =>
    by_cases ha : p a
    · rw [List.takeWhile_cons_of_pos ha] at h
      rcases List.mem_cons.mp h with rfl | h
      · exact ha
      · exact ih h
    · rw [List.takeWhile_cons_of_neg ha] at h; simp at h

theorem takeWhile_all {l : List Byte} (h : (0 : Byte) ∉ l) : l.takeWhile (· ≠ 0) = l := by
  induction l with
  | nil => rfl
  | cons a l ih =>
    rw [List.takeWhile_cons_of_pos (by simpa using fun e : a = 0 => h (by rw [e]; exact List.mem_cons_self)),
      ih (fun hc => h (List.mem_cons_of_mem _ hc))]

theorem words_nonul {l : List Byte} (h : (0 : Byte) ∉ l) : words l = (l.splitOnP isBlank).filter (· ≠ []) := by
  unfold words; rw [takeWhile_all h]

/-- A list splits into blanks, a word, and what follows the word. -/
theorem dropWhile_head {p : Byte → Bool} {l : List Byte} : l.dropWhile p = [] ∨ ∃ b r, l.dropWhile p = b :: r ∧ p b = false := by
  induction l with
  | nil => simp
  | cons a l ih =>
    by_cases h : p a
    · rw [List.dropWhile_cons_of_pos h]; exact ih
    · rw [List.dropWhile_cons_of_neg h]; exact Or.inr ⟨a, l, rfl, by simpa using h⟩

/-- What the `for` loop does: `r` is the rest of the command tail. -/
theorem parseLoop_ok (fuel : Nat) (m : Mem 16) (p n : Nat) (r : List Byte) (hm : BytesAt m p (r ++ [0])) (h0 : (0 : Byte) ∉ r)
    (hf : r.length < fuel) (hl : r.length ≤ 127) (hp : 0x81 ≤ p) (hq : p + r.length ≤ 0x100)
    (hn : n + (words r).length ≤ 17) :
    ∃ m', parseLoop fuel m p n = some (m', n + (words r).length) ∧
      (∀ i l, (words r)[i]? = some l → ArgIs m' (n + i) l ∧ p ≤ wordAt m' (0x5C + 2 * (n + i)) ∧
        wordAt m' (0x5C + 2 * (n + i)) + l.length ≤ p + r.length) ∧
      (∀ a, a < 65536 → (a < 0x5C + 2 * n ∨ 0x5C + 2 * (n + (words r).length) ≤ a) → (a < p ∨ p + r.length ≤ a) →
        m'.get a = m.get a) := by
  induction fuel generalizing m p n r with
  | zero => omega
  | succ fuel ih =>
    -- the blanks
    obtain ⟨bs, w, hbw, hbs, hw⟩ : ∃ bs w, r = bs ++ w ∧ (∀ b ∈ bs, isBlank b = true) ∧ (w = [] ∨ ∃ b t, w = b :: t ∧ isBlank b = false) :=
      ⟨r.takeWhile isBlank, r.dropWhile isBlank, (List.takeWhile_append_dropWhile).symm,
        fun b hb => mem_takeWhile_imp hb, dropWhile_head⟩
    have hlen : r.length = bs.length + w.length := by rw [hbw, List.length_append]
    have hb0 : (0 : Byte) ∉ bs := fun hc => h0 (by rw [hbw]; exact List.mem_append_left _ hc)
    have hw0 : (0 : Byte) ∉ w := fun hc => h0 (by rw [hbw]; exact List.mem_append_right _ hc)
    have hskip : ∀ x ∈ bs, (fun b : Byte => b ≠ 0 && decide (b.toInt ≤ 0x20)) x = true := by
      intro x hx
      have h1 : x ≠ 0 := fun e => hb0 (e ▸ hx)
      have h2 := hbs x hx
      simp only [isBlank] at h2
      simpa [of_decide_eq_true h2] using h1
    have hwords : words r = words w := by
      rw [words_nonul h0, words_nonul hw0, hbw]
      exact splitOnP_blank_prefix bs w hbs
    rw [hbw, List.append_assoc] at hm
    have hm' := bytesAt_append.mp hm
    rcases hw with rfl | ⟨b, t, rfl, hb⟩
    · -- nothing left
      have e : skipWhile (fun b => b ≠ 0 && b.toInt ≤ 0x20) m 129 p = some (p + bs.length) :=
        skipWhile_run (l := bs) (b := 0) hm hskip (by decide) (by simp at hlen; omega)
      have hz := (bytesAt_cons.mp hm'.2).1
      refine ⟨m, ?_, ?_, ?_⟩
      · rw [parseLoop, e]
        dsimp only
        rw [if_pos hz, hwords]
        rfl
      · rw [hwords]; intro i l hil; simp [words] at hil
      · intros; rfl
    · -- a word
      have hbne : b ≠ 0 := fun e => hw0 (by simp [e])
      have e : skipWhile (fun b => b ≠ 0 && b.toInt ≤ 0x20) m 129 p = some (p + bs.length) := by
        refine skipWhile_run (l := bs) (b := b) ?_ hskip ?_ (by simp at hlen; omega)
        · rw [bytesAt_append]
          exact ⟨hm'.1, bytesAt_cons.mpr ⟨(bytesAt_cons.mp hm'.2).1, bytesAt_nil _ _⟩⟩
        · simp only [isBlank] at hb
          simp only [hb, Bool.and_false]
      have hget : m.get (p + bs.length) = b := (bytesAt_cons.mp hm'.2).1
      -- the end of the word
      obtain ⟨u, v, huv, hu, hv⟩ : ∃ u v, b :: t = u ++ v ∧ (∀ b ∈ u, isBlank b = false) ∧
          (v = [] ∨ ∃ b t, v = b :: t ∧ isBlank b = true) := by
        refine ⟨(b :: t).takeWhile (fun x => !isBlank x), (b :: t).dropWhile (fun x => !isBlank x),
          (List.takeWhile_append_dropWhile).symm, fun b hb => by simpa using mem_takeWhile_imp hb, ?_⟩
        rcases dropWhile_head (p := fun x => !isBlank x) (l := b :: t) with h | ⟨b, r, h, hb⟩
        · exact Or.inl h
        · exact Or.inr ⟨b, r, h, by simpa using hb⟩
      have hune : u ≠ [] := by
        rintro rfl
        rcases hv with rfl | ⟨b', t', rfl, hb'⟩
        · simp at huv
        · simp only [List.nil_append, List.cons.injEq] at huv
          rw [huv.1, hb'] at hb; simp at hb
      have hu0 : (0 : Byte) ∉ u := fun hc => hw0 (by rw [huv]; exact List.mem_append_left _ hc)
      have hv0 : (0 : Byte) ∉ v := fun hc => hw0 (by rw [huv]; exact List.mem_append_right _ hc)
      rw [huv] at hm' hlen hwords
      rw [List.length_append] at hlen
      have husk : ∀ x ∈ u, (fun b : Byte => b ≠ 0 && decide (b.toInt > 0x20)) x = true := by
        intro x hx
        have h1 : x ≠ 0 := fun e => hu0 (e ▸ hx)
        have h2 := hu x hx
        simp only [isBlank, decide_eq_false_iff_not] at h2
        have h3 : x.toInt > 0x20 := by omega
        simpa [h3] using h1
      have hnlt : n < 17 := by
        have : words r ≠ [] := by
          rw [hwords, words_nonul (by rw [← huv]; exact hw0)]
          rcases hv with rfl | ⟨b', t', rfl, hb'⟩
          · rw [List.append_nil, List.splitOnP_eq_singleton hu,
              List.filter_cons_of_pos (by simpa using hune)]
            simp
          · rw [List.splitOnP_append_cons_of_forall_mem (xs := u) (p := isBlank) hu b' hb' t',
              List.filter_cons_of_pos (by simpa using hune)]
            simp
        have := List.length_pos_iff.mpr this
        omega
      have hulen := List.length_pos_iff.mpr hune
      -- the memory with the pointer stored
      let m1 := setArg m n (p + bs.length)
      have hm1 : ∀ a, a < 65536 → a < 0x5C + 2 * n ∨ 0x5C + 2 * n + 2 ≤ a → m1.get a = m.get a :=
        fun a ha h => setArg_ne m n _ a (by omega) ha h
      have hat : BytesAt m1 (p + bs.length) (u ++ v ++ [0]) :=
        bytesAt_congr hm'.2 (fun a h1 h2 => by
          simp only [List.length_append, List.length_singleton] at h2
          exact hm1 a (by omega) (by omega))
      rw [List.append_assoc] at hat
      have hat' := bytesAt_append.mp hat
      have step : parseLoop (fuel + 1) m p n =
          (match skipWhile (fun b => b ≠ 0 && b.toInt > 0x20) m1 129 (p + bs.length) with
          | none => none
          | some p => if m1.get p = 0 then some (m1, n + 1) else parseLoop fuel (m1.set p 0) (p + 1) (n + 1)) := by
        rw [parseLoop, e]
        dsimp only
        rw [if_neg (by rw [hget]; exact hbne)]
        rfl
      rcases hv with rfl | ⟨b', t', rfl, hb'⟩
      · -- the last word
        have e2 : skipWhile (fun b => b ≠ 0 && b.toInt > 0x20) m1 129 (p + bs.length) = some (p + bs.length + u.length) :=
          skipWhile_run (l := u) (b := 0) hat husk (by decide) (by omega)
        have hz : m1.get (p + bs.length + u.length) = 0 := (bytesAt_cons.mp hat'.2).1
        have hws : words r = [u] := by
          rw [hwords, List.append_nil, words_nonul hu0, List.splitOnP_eq_singleton hu,
            List.filter_cons_of_pos (by simpa using hune)]
          rfl
        refine ⟨m1, ?_, ?_, ?_⟩
        · rw [step, e2]
          dsimp only
          rw [if_pos hz, hws]; rfl
        · rw [hws]
          intro i l hil
          cases i with
          | succ i => simp at hil
          | zero =>
            simp at hil; subst hil
            have hw : wordAt m1 (0x5C + 2 * n) = p + bs.length := wordAt_setArg m n _ (by omega) (by omega)
            refine ⟨?_, ?_, ?_⟩
            · unfold ArgIs
              rw [Nat.add_zero, hw]
              exact hat
            · rw [Nat.add_zero, hw]; omega
            · rw [Nat.add_zero, hw]; omega
        · rw [hws]
          intro a ha h1 h2
          simp only [List.length_singleton] at h1
          exact hm1 a ha (by omega)
      · -- more may follow
        simp only [List.length_cons] at hlen
        have hsplit : words r = u :: words t' := by
          have ht0 : (0 : Byte) ∉ t' := fun hc => hv0 (List.mem_cons_of_mem _ hc)
          rw [hwords, words_nonul (by rw [← huv]; exact hw0), words_nonul ht0,
            List.splitOnP_append_cons_of_forall_mem (xs := u) (p := isBlank) hu b' hb' t',
            List.filter_cons_of_pos (by simpa using hune)]
        have hb'0 : b' ≠ 0 := fun e => hv0 (by simp [e])
        have e2 : skipWhile (fun b => b ≠ 0 && b.toInt > 0x20) m1 129 (p + bs.length) = some (p + bs.length + u.length) := by
          refine skipWhile_run (l := u) (b := b') ?_ husk ?_ (by omega)
          · rw [bytesAt_append]
            exact ⟨hat'.1, bytesAt_cons.mpr ⟨(bytesAt_cons.mp hat'.2).1, bytesAt_nil _ _⟩⟩
          · simp only [isBlank, decide_eq_true_eq] at hb'
            have : ¬ b'.toInt > 0x20 := by omega
            simp [this]
        have hz : m1.get (p + bs.length + u.length) = b' := (bytesAt_cons.mp hat'.2).1
        let m2 := m1.set (p + bs.length + u.length) 0
        have hm2 : ∀ a, a < 65536 → a ≠ p + bs.length + u.length → m2.get a = m1.get a :=
          fun a ha h => Mem.get_set_ne _ _ (by omega) (by omega) (fun e => h e.symm)
        have hrest : BytesAt m2 (p + bs.length + u.length + 1) (t' ++ [0]) :=
          bytesAt_congr (bytesAt_cons.mp hat'.2).2 (fun a h1 h2 => by
            simp only [List.length_append, List.length_singleton] at h2
            exact hm2 a (by omega) (by omega))
        rw [hsplit] at hn ⊢
        simp only [List.length_cons] at hn ⊢
        obtain ⟨m', e3, hargs, hframe⟩ := ih m2 (p + bs.length + u.length + 1) (n + 1) t' hrest
          (fun hc => hv0 (List.mem_cons_of_mem _ hc)) (by omega) (by omega) (by omega) (by omega) (by omega)
        refine ⟨m', ?_, ?_, ?_⟩
        · rw [step, e2]
          dsimp only
          rw [if_neg (by rw [hz]; exact hb'0), e3]
          congr 2; omega
        · intro i l hil
          cases i with
          | succ i =>
            have := hargs i l (by simpa using hil)
            rw [show n + 1 + i = n + (i + 1) by omega] at this
            exact ⟨this.1, by omega, by omega⟩
          | zero =>
            simp at hil; subst hil
            have hw : wordAt m' (0x5C + 2 * n) = p + bs.length := by
              have : wordAt m' (0x5C + 2 * n) = wordAt m1 (0x5C + 2 * n) := by
                unfold wordAt
                rw [hframe _ (by omega) (by omega) (by omega), hframe _ (by omega) (by omega) (by omega),
                  hm2 _ (by omega) (by omega), hm2 _ (by omega) (by omega)]
              rw [this]
              exact wordAt_setArg m n _ (by omega) (by omega)
            refine ⟨?_, ?_, ?_⟩
            · unfold ArgIs
              rw [Nat.add_zero, hw, bytesAt_append]
              constructor
              · refine bytesAt_congr hat'.1 (fun a h1 h2 => ?_)
                rw [hframe a (by omega) (by omega) (by omega), hm2 a (by omega) (by omega)]
              · refine bytesAt_cons.mpr ⟨?_, bytesAt_nil _ _⟩
                rw [hframe _ (by omega) (by omega) (by omega)]
                exact Mem.get_set_self _ _ _
            · rw [Nat.add_zero, hw]; omega
            · rw [Nat.add_zero, hw]; omega
        · intro a ha h1 h2
          rw [hframe a ha (by omega) (by omega), hm2 a ha (by omega), hm1 a ha (by omega)]

/-! ## The property -/

/-- C18: whatever the command tail `t` (up to 127 bytes, and up to 16 words), `ParseArgs` returns one more than the number of
its words, entry `i + 1` of the vector points to a NUL-terminated copy of word `i`, the entry after the last is null, and no
memory outside the vector and the command tail changes. -/
theorem C18_parseArgs_partial (argv0 : Nat) (h0 : argv0 < 65536) (m : Mem 16) (t : List Byte) (hlen : t.length = (m.get 0x80 &&& 0x7f).toNat)
    (hm : BytesAt m 0x81 t) (hw : (words t).length ≤ 16) :
    ∃ m', parseArgs argv0 m = some (m', (words t).length + 1) ∧
      wordAt m' 0x5C = argv0 ∧
      (∀ i l, (words t)[i]? = some l → ArgIs m' (i + 1) l) ∧
      wordAt m' (0x5C + 2 * ((words t).length + 1)) = 0 ∧
      ∀ a, a < 65536 → (a < 0x5C ∨ 0x80 ≤ a) → (a < 0x81 ∨ 0x81 + t.length < a) → m'.get a = m.get a := by
  have h127 : t.length ≤ 127 := by
    rw [hlen, BitVec.toNat_and]
    exact Nat.and_le_right
  let m1 := setArg (m.set (0x81 + t.length) 0) 0 argv0
  have hm1 : ∀ a, a < 65536 → (a < 0x5C ∨ 0x5E ≤ a) → a ≠ 0x81 + t.length → m1.get a = m.get a := by
    intro a ha h hne
    show (setArg _ _ _).get a = _
    rw [setArg_ne _ _ _ a (by omega) ha (by omega), Mem.get_set_ne _ _ (by omega) (by omega) (fun e => hne e.symm)]
  have hend : m1.get (0x81 + t.length) = 0 := by
    show (setArg _ _ _).get _ = _
    rw [setArg_ne _ _ _ _ (by omega) (by omega) (by omega), Mem.get_set_self]
  -- the part before the first NUL
  obtain ⟨r, s, hrs, hr0, hs⟩ : ∃ r s, t = r ++ s ∧ (0 : Byte) ∉ r ∧ (s = [] ∨ ∃ s', s = 0 :: s') := by
    refine ⟨t.takeWhile (· ≠ 0), t.dropWhile (· ≠ 0), (List.takeWhile_append_dropWhile).symm, ?_, ?_⟩
    · intro hc
      have := mem_takeWhile_imp hc
      simp at this
    · rcases dropWhile_head (p := fun x : Byte => decide (x ≠ 0)) (l := t) with h | ⟨b, s', h, hb⟩
      · exact Or.inl h
      · simp at hb; subst hb; exact Or.inr ⟨s', h⟩
  have hwr : words t = words r := by
    unfold words
    congr 2
    rw [hrs, List.takeWhile_append_of_pos (by intro x hx; simpa using fun e : x = 0 => hr0 (e ▸ hx)), takeWhile_all hr0]
    rcases hs with rfl | ⟨s', rfl⟩ <;> simp
  have hlen2 : t.length = r.length + s.length := by rw [hrs, List.length_append]
  have hat : BytesAt m1 0x81 (r ++ [0]) := by
    rw [hrs] at hm
    have hm' := bytesAt_append.mp hm
    rw [bytesAt_append]
    constructor
    · exact bytesAt_congr hm'.1 (fun a h1 h2 => hm1 a (by omega) (by omega) (by omega))
    · refine bytesAt_cons.mpr ⟨?_, bytesAt_nil _ _⟩
      rcases hs with rfl | ⟨s', rfl⟩
      · rw [show r.length = t.length by rw [hlen2]; simp]; exact hend
      · rw [hm1 _ (by omega) (by omega) (by simp at hlen2; omega)]
        exact (bytesAt_cons.mp hm'.2).1
  obtain ⟨m', e, hargs, hframe⟩ := parseLoop_ok 129 m1 0x81 1 r hat hr0 (by omega) (by omega) (by omega) (by omega)
    (by rw [← hwr]; omega)
  rw [← hwr] at e hargs hframe
  have hfin : ∀ a, a < 65536 → (a < 0x5C + 2 * (1 + (words t).length) ∨ 0x5C + 2 * (1 + (words t).length) + 2 ≤ a) →
      (setArg m' (1 + (words t).length) 0).get a = m'.get a :=
    fun a ha h => setArg_ne _ _ _ a (by omega) ha h
  refine ⟨setArg m' (1 + (words t).length) 0, ?_, ?_, ?_, ?_, ?_⟩
  · unfold parseArgs
    simp only
    rw [← hlen]
    show (match parseLoop 129 m1 0x81 1 with | none => none | some (m, n) => some (setArg m n 0, n)) = _
    rw [e, Nat.add_comm]
  · have : wordAt m1 0x5C = argv0 := wordAt_setArg _ 0 argv0 (by omega) h0
    rw [← this]
    unfold wordAt
    rw [hfin _ (by omega) (by omega), hfin _ (by omega) (by omega), hframe _ (by omega) (by omega) (by omega),
      hframe _ (by omega) (by omega) (by omega)]
  · intro i l hil
    obtain ⟨h1, h2, h3⟩ := hargs i l hil
    have hi : i < (words t).length := by
      rcases Nat.lt_or_ge i (words t).length with h | h
      · exact h
      · rw [List.getElem?_eq_none h] at hil; simp at hil
    rw [Nat.add_comm i 1]
    have hwd : wordAt (setArg m' (1 + (words t).length) 0) (0x5C + 2 * (1 + i)) = wordAt m' (0x5C + 2 * (1 + i)) := by
      unfold wordAt
      rw [hfin _ (by omega) (by omega), hfin _ (by omega) (by omega)]
    unfold ArgIs
    rw [hwd]
    refine bytesAt_congr h1 (fun a ha1 ha2 => ?_)
    simp only [List.length_append, List.length_singleton] at ha2
    exact hfin a (by omega) (by omega)
  · rw [Nat.add_comm (words t).length 1]
    exact wordAt_setArg m' _ 0 (by omega) (by omega)
  · intro a ha h1 h2
    rw [hfin a ha (by omega), hframe a ha (by omega) (by omega), hm1 a ha (by omega) (by omega)]

/-- C18: joining words with blanks and splitting again returns the words. -/
theorem C18_join (ws : List (List Byte)) (hne : ∀ w ∈ ws, w ≠ []) (hb : ∀ w ∈ ws, ∀ b ∈ w, (0x20 : Int) < b.toInt) :
    words (List.intercalate [0x20] ws) = ws := by
  have nul : ∀ w ∈ ws, (0 : Byte) ∉ w := by
    intro w hw hc
    have := hb w hw 0 hc
    simp at this
  have h0 : (0 : Byte) ∉ List.intercalate [0x20] ws := by
    intro hc
    unfold List.intercalate at hc
    rw [List.mem_flatten] at hc
    obtain ⟨l, hl, hl0⟩ := hc
    clear hne hb
    induction ws with
    | nil => simp at hl
    | cons w ws ih =>
      cases ws with
      | nil => simp at hl; subst hl; exact nul l (by simp) hl0
      | cons w' ws =>
        simp only [List.intersperse_cons_cons, List.mem_cons] at hl
        rcases hl with rfl | rfl | hl
        · exact nul l (by simp) hl0
        · simp at hl0
        · exact ih (fun w hw => nul w (by simp at hw ⊢; tauto)) (by simpa using hl)
  rw [words_nonul h0]
  clear h0 nul
  induction ws with
  | nil => rfl
  | cons w ws ih =>
    have hw : ∀ x ∈ w, isBlank x = false := by
      intro x hx
      have := hb w (by simp) x hx
      simp only [isBlank, decide_eq_false_iff_not]
      omega
    cases ws with
    | nil =>
      simp only [List.intercalate, List.intersperse_singleton, List.flatten_cons, List.flatten_nil, List.append_nil]
      rw [List.splitOnP_eq_singleton hw, List.filter_cons_of_pos (by simpa using hne w (by simp))]
      rfl
    | cons w' ws =>
      have ih := ih (fun w hw => hne w (by simp at hw ⊢; tauto)) (fun w hw => hb w (by simp at hw ⊢; tauto))
      have e : List.intercalate [0x20] (w :: w' :: ws) = w ++ (0x20 : Byte) :: List.intercalate [0x20] (w' :: ws) := by
        simp [List.intercalate]
      rw [e, List.splitOnP_append_cons_of_forall_mem hw 0x20 (by decide), List.filter_cons_of_pos (by simpa using hne w (by simp)), ih]

/-- The missing part of C18 is false: with 17 words the terminating null pointer overwrites the first word. -/
theorem C18_seventeen_violated :
    let t := (List.replicate 17 (asc "ab ")).flatten
    let m : Mem 16 := (List.range t.length).foldl (fun m i => m.set (0x81 + i) (t.getD i 0)) ((Mem.const 0 16).set 0x80 (BitVec.ofNat 8 t.length))
    ((parseArgs 0 m).map fun (m', n) => (n, wordAt m' 0x5E, m'.get 0x81)) = some (18, 0x81, 0) ∧ (words t)[0]? = some (asc "ab") := by
  decide +kernel

/-- Bytes from 0x80 on separate words, as `char` is signed. -/
theorem C18_high_bytes : words (asc "aéb") = [asc "a", asc "b"] := by decide +kernel

example : ∃ m : Mem 16, (asc " in.c  out.com").length = (m.get 0x80 &&& 0x7f).toNat ∧ BytesAt m 0x81 (asc " in.c  out.com") ∧
    words (asc " in.c  out.com") = [asc "in.c", asc "out.com"] := by
  refine ⟨(List.range 14).foldl (fun m i => m.set (0x81 + i) ((asc " in.c  out.com").getD i 0)) ((Mem.const 0 16).set 0x80 14),
    by decide +kernel, ?_, by decide +kernel⟩
  have : ∀ i : Fin 14, ((List.range 14).foldl (fun m i => m.set (0x81 + i) ((asc " in.c  out.com").getD i 0))
      ((Mem.const 0 16).set 0x80 14)).get (0x81 + i.val) = (asc " in.c  out.com").getD i.val 0 := by decide +kernel
  intro i b hb
  have hi : i < 14 := by
    rcases Nat.lt_or_ge i 14 with h | h
    · exact h
    · rw [List.getElem?_eq_none (by exact h)] at hb; simp at hb
  rw [this ⟨i, hi⟩, List.getD, hb]
  rfl

end Props
