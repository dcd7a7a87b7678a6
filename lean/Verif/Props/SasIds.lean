import Verif.Sas.Lexer
import Mathlib.Data.Fintype.Card
import Mathlib.Data.Nat.Prime.Basic
import Mathlib.Tactic.Ring
import Mathlib.Tactic.Linarith
/-!
# C19: the symbol table of the assembler is a finite map

Specification: `canon s` is the upper-case spelling if that is a builtin name, and `s` itself otherwise.
-/
namespace Props
open Sas I86 Prog Text

namespace SasIds

/-- The `j`-th slot tried from `h`. -/
def pr (h j : Nat) : Nat := (h + j * (j + 1) / 2) % 1024

theorem pr_zero (h : Nat) : pr h 0 = h % 1024 := by simp [pr]

theorem tri_succ (j : Nat) : (j + 1) * (j + 1 + 1) / 2 = j * (j + 1) / 2 + (j + 1) := by
  have : (j + 1) * (j + 1 + 1) = j * (j + 1) + (j + 1) * 2 := by ring
  rw [this, Nat.add_mul_div_right _ _ (by decide)]

theorem pr_succ (h j : Nat) : (pr h j + (1 + j)) % 1024 = pr h (j + 1) := by
  simp only [pr, tri_succ]; omega

theorem pr_inj {h i j : Nat} (hi : i < 1024) (hj : j < 1024) (e : pr h i = pr h j) : i = j := by
  wlog hij : i ≤ j generalizing i j
  · exact (this hj hi e.symm (by omega)).symm
  obtain ⟨d, rfl⟩ := Nat.exists_eq_add_of_le hij
  by_contra hne
  have hd : 0 < d := by omega
  have h1 : i * (i + 1) / 2 * 2 = i * (i + 1) := Nat.div_mul_cancel (Nat.even_mul_succ_self i).two_dvd
  have h2 : (i + d) * (i + d + 1) / 2 * 2 = (i + d) * (i + d + 1) := Nat.div_mul_cancel (Nat.even_mul_succ_self (i + d)).two_dvd
  have h3 : (i + d) * (i + d + 1) = i * (i + 1) + d * (2 * i + d + 1) := by ring
  simp only [pr] at e
  have h4 : 2048 ∣ d * (2 * i + d + 1) := by
    have : ∃ k, (i + d) * (i + d + 1) / 2 = i * (i + 1) / 2 + 1024 * k := by
      refine ⟨((i + d) * (i + d + 1) / 2 - i * (i + 1) / 2) / 1024, ?_⟩
      have : i * (i + 1) / 2 ≤ (i + d) * (i + d + 1) / 2 := Nat.div_le_div_right (by nlinarith)
      omega
    obtain ⟨k, hk⟩ := this
    exact ⟨k, by omega⟩
  have h5 : (2048 : Nat) = 2 ^ 11 := by decide
  rcases Nat.even_or_odd d with he | ho
  · have hc : Nat.Coprime 2048 (2 * i + d + 1) := by
      rw [h5]
      apply Nat.Coprime.pow_left
      refine Nat.coprime_two_left.mpr ?_
      obtain ⟨k, rfl⟩ := he
      exact ⟨i + k, by ring⟩
    have := Nat.le_of_dvd hd (hc.dvd_of_dvd_mul_right h4)
    omega
  · have hc : Nat.Coprime 2048 d := by
      rw [h5]
      apply Nat.Coprime.pow_left
      refine Nat.coprime_two_left.mpr ?_
      exact ho
    have := Nat.le_of_dvd (by omega) (hc.dvd_of_dvd_mul_left h4)
    omega

/-- The occupied slots are numbered injectively, and each number can be found from the hash of its name. -/
structure Inv (t : IdTab) : Prop where
  len : t.names.length ≤ 600
  lt : ∀ a id, t.hash a = some id → id < t.names.length
  inj : ∀ a b id, t.hash a = some id → t.hash b = some id → a = b
  find : ∀ id s, t.names[id]? = some s → ∃ j < 1024, t.hash (pr (hashStr s) j) = some id ∧ ∀ k < j, t.hash (pr (hashStr s) k) ≠ none

theorem inv_empty : Inv emptyTab :=
  ⟨by simp [emptyTab], by simp [emptyTab], by simp [emptyTab], by simp [emptyTab]⟩

/-- There is a free slot. -/
theorem exists_free {t : IdTab} (ht : Inv t) (h : Nat) : ∃ j < 1024, t.hash (pr h j) = none := by
  by_contra hc
  have hs : ∀ j : Fin 1024, ∃ id : Fin 600, t.hash (pr h j) = some id.val := by
    intro j
    have : t.hash (pr h j) ≠ none := fun e => hc ⟨j, j.2, e⟩
    obtain ⟨id, hid⟩ := Option.ne_none_iff_exists'.mp this
    exact ⟨⟨id, lt_of_lt_of_le (ht.lt _ _ hid) ht.len⟩, hid⟩
  choose f hf using hs
  have hinj : Function.Injective f := by
    intro i j e
    have h1 := hf i
    have h2 := hf j
    rw [← e] at h2
    exact Fin.ext (pr_inj i.2 j.2 (ht.inj _ _ _ h1 h2))
  have := Fintype.card_le_of_injective f hinj
  simp at this

/-- The first free slot. -/
theorem exists_first {t : IdTab} (ht : Inv t) (h : Nat) : ∃ j < 1024, t.hash (pr h j) = none ∧ ∀ k < j, t.hash (pr h k) ≠ none := by
  have := exists_free ht h
  classical
  refine ⟨Nat.find this, (Nat.find_spec this).1, (Nat.find_spec this).2, ?_⟩
  intro k hk he
  exact Nat.find_min this hk ⟨lt_trans hk (Nat.find_spec this).1, he⟩

theorem freeSlot_eq (hash : Nat → Option Nat) (h0 : Nat) : ∀ n fuel h i, n < fuel → h % 1024 = pr h0 i →
    (∀ k < n, hash (pr h0 (i + k)) ≠ none) → hash (pr h0 (i + n)) = none → freeSlot hash fuel h i = some (pr h0 (i + n)) := by
  intro n
  induction n with
  | zero =>
    intro fuel h i hf hh _ hn
    obtain ⟨fuel, rfl⟩ := Nat.exists_eq_succ_of_ne_zero (by omega : fuel ≠ 0)
    simp only [freeSlot, hh]
    rw [Nat.add_zero] at hn ⊢
    simp only [hn]
    rfl
  | succ n ih =>
    intro fuel h i hf hh hs hn
    obtain ⟨fuel, rfl⟩ := Nat.exists_eq_succ_of_ne_zero (by omega : fuel ≠ 0)
    simp only [freeSlot, hh]
    obtain ⟨id, hid⟩ := Option.ne_none_iff_exists'.mp (hs 0 (by omega))
    rw [Nat.add_zero] at hid
    rw [hid]
    have e : i + (n + 1) = i + 1 + n := by omega
    rw [e] at hn ⊢
    refine ih fuel _ _ (by omega) (pr_succ h0 i) ?_ hn
    intro k hk
    have := hs (k + 1) (by omega)
    rwa [show i + (k + 1) = i + 1 + k by omega] at this

theorem hash_mod (s : List Byte) : hashStr s % 1024 = pr (hashStr s) 0 := by simp [pr]

/-- What `AddId` does. -/
theorem addId_ok {t : IdTab} (ht : Inv t) (s : List Byte) (hl : t.names.length < 600) (hb : t.bufLen + (s.length + 1) ≤ 5000) :
    ∃ t', addId t s = .ok (t.names.length, t') ∧ Inv t' ∧ t'.names = t.names ++ [s] ∧ t'.bufLen = t.bufLen + (s.length + 1) := by
  obtain ⟨j, hj, hn, hs⟩ := exists_first ht (hashStr s)
  have hf : freeSlot t.hash idHashMax (hashStr s) 0 = some (pr (hashStr s) j) := by
    have := freeSlot_eq t.hash (hashStr s) j 1024 (hashStr s) 0 hj (hash_mod s) (by simpa using hs) (by simpa using hn)
    simpa using this
  refine ⟨{ names := t.names ++ [s], hash := upd t.hash (pr (hashStr s) j) (some t.names.length),
            bufLen := t.bufLen + (s.length + 1) }, ?_, ?_, rfl, rfl⟩
  · simp only [addId, idBufferMax, idMax]
    rw [if_neg (by omega), if_neg (by omega), hf]
  · have hne : ∀ a id, t.hash a = some id → a ≠ pr (hashStr s) j := by
      intro a id ha e
      rw [e, hn] at ha; cases ha
    refine ⟨by simp; omega, ?_, ?_, ?_⟩
    · intro a id ha
      simp only [upd] at ha
      split at ha
      · cases ha; simp
      · have := ht.lt _ _ ha; simp; omega
    · intro a b id ha hb'
      simp only [upd] at ha hb'
      split at ha <;> split at hb'
      · next e1 e2 => rw [e1, e2]
      · cases ha; have := ht.lt _ _ hb'; omega
      · cases hb'; have := ht.lt _ _ ha; omega
      · exact ht.inj _ _ _ ha hb'
    · intro id u hu
      simp only at hu
      rcases Nat.lt_or_ge id t.names.length with hlt | hge
      · rw [List.getElem?_append_left hlt] at hu
        obtain ⟨k, hk, h1, h2⟩ := ht.find id u hu
        refine ⟨k, hk, ?_, ?_⟩
        · simp only [upd, if_neg (hne _ _ h1), h1]
        · intro l hl
          simp only [upd]
          split
          · simp
          · exact h2 l hl
      · rw [List.getElem?_append_right hge] at hu
        have : id = t.names.length ∧ u = s := by
          cases hd : id - t.names.length with
          | zero => rw [hd] at hu; simp at hu; exact ⟨by omega, hu.symm⟩
          | succ k => rw [hd] at hu; simp at hu
        obtain ⟨rfl, rfl⟩ := this
        refine ⟨j, hj, by simp [upd], ?_⟩
        intro k hk
        simp only [upd]
        split
        · simp
        · exact hs k hk

theorem upcase_mask : ∀ c : Byte, upcase c &&& 0xDF = c &&& 0xDF := by decide

theorem hashStr_upcase (s : List Byte) : hashStr (s.map upcase) = hashStr s := by
  simp only [hashStr, List.foldl_map, upcase_mask]

/-- What `LookupId` does, for any way of matching. -/
theorem lookupLoop_eq (t : IdTab) (s : List Byte) (h0 : Nat) : ∀ n fuel h i, n < fuel → h % 1024 = pr h0 i →
    (∀ k < n, ∃ id, t.hash (pr h0 (i + k)) = some id ∧ id < t.names.length ∧ idMatches t s id = false) →
    (t.hash (pr h0 (i + n)) = none → lookupLoop t s fuel h i = .ok none) ∧
    (∀ id, t.hash (pr h0 (i + n)) = some id → id < t.names.length → idMatches t s id = true → lookupLoop t s fuel h i = .ok (some id)) := by
  intro n
  induction n with
  | zero =>
    intro fuel h i hf hh _
    obtain ⟨fuel, rfl⟩ := Nat.exists_eq_succ_of_ne_zero (by omega : fuel ≠ 0)
    simp only [lookupLoop, hh, Nat.add_zero]
    constructor
    · intro hn; rw [hn]
    · intro id hid hlt hm; rw [hid]; simp only
      rw [if_neg (by omega), if_pos hm]
  | succ n ih =>
    intro fuel h i hf hh hs
    obtain ⟨fuel, rfl⟩ := Nat.exists_eq_succ_of_ne_zero (by omega : fuel ≠ 0)
    obtain ⟨id, hid, hlt, hm⟩ := hs 0 (by omega)
    rw [Nat.add_zero] at hid
    have := ih fuel (pr h0 i + (1 + i)) (i + 1) (by omega) (pr_succ h0 i) (by
      intro k hk
      have := hs (k + 1) (by omega)
      rwa [show i + (k + 1) = i + 1 + k by omega] at this)
    simp only [lookupLoop, hh, hid]
    rw [if_neg (by omega), hm]
    simp only [Bool.false_eq_true, if_false]
    rwa [show i + (n + 1) = i + 1 + n by omega]

/-- The invariant of a table that starts with the builtin names. -/
structure Tab (t : IdTab) : Prop extends Inv t where
  pre : t.names.take 99 = builtins
  user : ∀ id s, 99 ≤ id → t.names[id]? = some s → s.map upcase ∉ builtins
  nodup : (t.names.drop 99).Nodup

theorem builtins_len : builtins.length = 99 := by decide +kernel
theorem builtins_nodup : builtins.Nodup := by decide +kernel
theorem builtins_upper : ∀ s ∈ builtins, s.map upcase = s := by decide +kernel
theorem builtins_size : (builtins.map fun s => s.length + 1).sum ≤ 5000 := by decide +kernel

/-- The canonical spelling. -/
def canon (s : List Byte) : List Byte := if s.map upcase ∈ builtins then s.map upcase else s

theorem getElem?_take_builtins {t : IdTab} (ht : Tab t) {id : Nat} (h : id < 99) : t.names[id]? = builtins[id]? := by
  rw [← ht.pre, List.getElem?_take_of_lt h]

/-- A name matches a number exactly if that number's name is the canonical spelling. -/
theorem idMatches_iff {t : IdTab} (ht : Tab t) (s : List Byte) {id : Nat} (hid : id < t.names.length) :
    idMatches t s id = true ↔ t.names[id]? = some (canon s) := by
  have hg : t.names[id]? = some t.names[id] := List.getElem?_eq_getElem hid
  have hd : t.names.getD id [] = t.names[id] := by simp [List.getD, hg]
  simp only [idMatches, hd, hg, Option.some.injEq, canon]
  by_cases h99 : id < 99
  · have hb : t.names[id] ∈ builtins := by
      have := getElem?_take_builtins ht h99
      rw [hg] at this
      exact List.mem_of_getElem? this.symm
    rw [if_pos (show id < tokUserId - tokId from h99)]
    simp only [beq_iff_eq]
    constructor
    · intro e
      rw [if_pos (by rw [e]; exact hb), e]
    · intro e
      split at e
      · exact e.symm
      · next hn => rw [← e] at hn ⊢; exact builtins_upper _ hb
  · have hu := ht.user id _ (by omega) hg
    rw [if_neg (show ¬ id < tokUserId - tokId from h99)]
    simp only [beq_iff_eq]
    constructor
    · intro e
      rw [e, if_neg hu]
    · intro e
      split at e
      · next hp =>
        exfalso; apply hu; rw [e]
        rw [builtins_upper _ hp]; exact hp
      · exact e.symm

theorem hash_canon (s : List Byte) : hashStr (canon s) = hashStr s := by
  unfold canon; split
  · exact hashStr_upcase s
  · rfl

theorem names_inj {t : IdTab} (ht : Tab t) {i j : Nat} {s : List Byte} (hi : t.names[i]? = some s) (hj : t.names[j]? = some s) : i = j := by
  have aux : ∀ i j, t.names[i]? = some s → t.names[j]? = some s → i < 99 → j < 99 := by
    intro i j hi hj h
    by_contra h2
    have hb : s ∈ builtins := by
      rw [getElem?_take_builtins ht h] at hi
      exact List.mem_of_getElem? hi
    exact ht.user j s (by omega) hj (by rw [builtins_upper _ hb]; exact hb)
  by_cases h : i < 99
  · have h2 := aux i j hi hj h
    rw [getElem?_take_builtins ht h] at hi
    rw [getElem?_take_builtins ht h2] at hj
    obtain ⟨hi', e1⟩ := List.getElem?_eq_some_iff.mp hi
    obtain ⟨hj', e2⟩ := List.getElem?_eq_some_iff.mp hj
    exact (List.Nodup.getElem_inj_iff builtins_nodup).mp (e1.trans e2.symm)
  · have h2 : ¬ j < 99 := fun h2 => h (aux j i hj hi h2)
    have e1 : (t.names.drop 99)[i - 99]? = some s := by rw [List.getElem?_drop, show 99 + (i - 99) = i by omega, hi]
    have e2 : (t.names.drop 99)[j - 99]? = some s := by rw [List.getElem?_drop, show 99 + (j - 99) = j by omega, hj]
    obtain ⟨hi', e1⟩ := List.getElem?_eq_some_iff.mp e1
    obtain ⟨hj', e2⟩ := List.getElem?_eq_some_iff.mp e2
    have := (List.Nodup.getElem_inj_iff ht.nodup).mp (e1.trans e2.symm)
    omega

/-- `LookupId` finds exactly the canonical spelling. -/
theorem lookupId_eq {t : IdTab} (ht : Tab t) (s : List Byte) :
    (∀ id, t.names[id]? = some (canon s) → lookupId t s = .ok (some id)) ∧
    (canon s ∉ t.names → lookupId t s = .ok none) := by
  have key : ∀ n, n < 1024 → (∀ k < n, t.hash (pr (hashStr s) k) ≠ none) →
      (∀ k < n, ∀ id, t.hash (pr (hashStr s) k) = some id → idMatches t s id = false) →
      (t.hash (pr (hashStr s) n) = none → lookupId t s = .ok none) ∧
      (∀ id, t.hash (pr (hashStr s) n) = some id → id < t.names.length → idMatches t s id = true → lookupId t s = .ok (some id)) := by
    intro n hn h1 h2
    have := lookupLoop_eq t s (hashStr s) n 1024 (hashStr s) 0 hn (hash_mod s) (by
      intro k hk
      obtain ⟨id, hid⟩ := Option.ne_none_iff_exists'.mp (h1 k hk)
      rw [Nat.zero_add]
      exact ⟨id, hid, ht.lt _ _ hid, h2 k hk id hid⟩)
    rw [Nat.zero_add] at this
    exact this
  constructor
  · intro id hid
    obtain ⟨j, hj, hf, hne⟩ := ht.find id _ hid
    rw [hash_canon] at hf hne
    have hlt := ht.lt _ _ hf
    refine (key j hj hne ?_).2 id hf hlt ((idMatches_iff ht s hlt).mpr hid)
    intro k hk id' hid'
    by_contra hm
    have hm : idMatches t s id' = true := by simpa using hm
    have hlt' := ht.lt _ _ hid'
    have := names_inj ht ((idMatches_iff ht s hlt').mp hm) hid
    subst this
    exact absurd (pr_inj (lt_trans hk hj) hj (ht.inj _ _ _ hid' hf)) (by omega)
  · intro hno
    obtain ⟨j, hj, hn, hne⟩ := exists_first ht.toInv (hashStr s)
    refine (key j hj hne ?_).1 hn
    intro k hk id' hid'
    by_contra hm
    have hm : idMatches t s id' = true := by simpa using hm
    exact hno (List.mem_of_getElem? ((idMatches_iff ht s (ht.lt _ _ hid')).mp hm))

theorem canon_not_builtin {s : List Byte} (h : canon s ∉ builtins) : canon s = s ∧ s.map upcase ∉ builtins := by
  unfold canon at h ⊢
  split
  · next hp => rw [if_pos hp] at h; exact absurd hp h
  · next hp => exact ⟨rfl, hp⟩

theorem mem_builtins {t : IdTab} (ht : Tab t) {s : List Byte} (h : s ∈ builtins) : s ∈ t.names := by
  rw [← ht.pre] at h; exact List.mem_of_mem_take h

/-- What looking up or adding a name does. -/
theorem getId_cases {t : IdTab} (ht : Tab t) (s : List Byte) :
    (∃ id, t.names[id]? = some (canon s) ∧ getId t s = .ok (id, t)) ∨
    (canon s ∉ t.names ∧
      ((t.bufLen + (s.length + 1) > 5000 ∧ getId t s = .error .assertFail) ∨
       (t.bufLen + (s.length + 1) ≤ 5000 ∧ t.names.length = 600 ∧ getId t s = .error .ub) ∨
       (∃ t', getId t s = .ok (t.names.length, t') ∧ Tab t' ∧ t'.names = t.names ++ [canon s] ∧
          t'.bufLen = t.bufLen + (s.length + 1)))) := by
  by_cases h : canon s ∈ t.names
  · obtain ⟨id, hid⟩ := List.getElem?_of_mem h
    exact Or.inl ⟨id, hid, by simp only [getId, (lookupId_eq ht s).1 id hid]⟩
  · refine Or.inr ⟨h, ?_⟩
    have e : getId t s = addId t s := by simp only [getId, (lookupId_eq ht s).2 h]
    obtain ⟨hc, hu⟩ := canon_not_builtin (fun hb => h (mem_builtins ht hb))
    rw [e]
    by_cases hb : t.bufLen + (s.length + 1) ≤ 5000
    · refine Or.inr ?_
      by_cases hl : t.names.length < 600
      · refine Or.inr ?_
        obtain ⟨t', h1, h2, h3, h4⟩ := addId_ok ht.toInv s hl hb
        have hlen : 99 ≤ t.names.length := by
          have := congrArg List.length ht.pre
          rw [builtins_len, List.length_take] at this; omega
        refine ⟨t', h1, ⟨h2, ?_, ?_, ?_⟩, by rw [h3, hc], h4⟩
        · rw [h3, List.take_append_of_le_length hlen, ht.pre]
        · intro id u hid hu'
          rw [h3] at hu'
          rcases Nat.lt_or_ge id t.names.length with hlt | hge
          · rw [List.getElem?_append_left hlt] at hu'
            exact ht.user id u hid hu'
          · rw [List.getElem?_append_right hge] at hu'
            have := List.mem_of_getElem? hu'
            simp only [List.mem_singleton] at this
            rw [this]; exact hu
        · rw [h3, List.drop_append_of_le_length hlen, List.nodup_append]
          refine ⟨ht.nodup, by simp, ?_⟩
          intro a ha b hb' e'
          simp only [List.mem_singleton] at hb'
          subst hb' e'
          exact h (by rw [hc]; exact List.mem_of_mem_drop ha)
      · refine Or.inl ⟨hb, by have := ht.len; omega, ?_⟩
        simp only [addId, idBufferMax, idMax]
        rw [if_neg (by omega), if_pos (by omega)]
    · refine Or.inl ⟨by omega, ?_⟩
      simp only [addId, idBufferMax]
      rw [if_pos (by omega)]

theorem addAll_ok : ∀ (l : List (List Byte)) (t : IdTab), Inv t → t.names.length + l.length ≤ 600 →
    t.bufLen + (l.map fun s => s.length + 1).sum ≤ 5000 →
    ∃ t', addAll t l = .ok t' ∧ Inv t' ∧ t'.names = t.names ++ l ∧ t'.bufLen = t.bufLen + (l.map fun s => s.length + 1).sum := by
  intro l
  induction l with
  | nil => intro t ht _ _; exact ⟨t, rfl, ht, by simp, by simp⟩
  | cons s l ih =>
    intro t ht hl hb
    simp only [List.length_cons, List.map_cons, List.sum_cons] at hl hb
    obtain ⟨t1, h1, h2, h3, h4⟩ := addId_ok ht s (by omega) (by omega)
    obtain ⟨t', h5, h6, h7, h8⟩ := ih t1 h2 (by rw [h3]; simp; omega) (by rw [h4]; omega)
    refine ⟨t', by simp only [addAll, h1, h5], h6, by rw [h7, h3]; simp, by rw [h8, h4]; simp; omega⟩

/-- The table with the builtin names. -/
theorem builtin_tab : ∃ t, addAll emptyTab builtins = .ok t ∧ Tab t ∧ t.names = builtins := by
  obtain ⟨t, h1, h2, h3, _⟩ := addAll_ok builtins emptyTab inv_empty (by rw [builtins_len]; decide)
    (by have := builtins_size; simp only [emptyTab]; omega)
  have h3 : t.names = builtins := by simpa [emptyTab] using h3
  refine ⟨t, h1, ⟨h2, ?_, ?_, ?_⟩, h3⟩
  · rw [h3, ← builtins_len, List.take_length]
  · intro id s hid hs
    rw [h3, List.getElem?_eq_none (by rw [builtins_len]; omega)] at hs
    cases hs
  · rw [h3, ← builtins_len, List.drop_length]; exact List.nodup_nil

/-- Look up (and add) names one after the other. -/
def getIds : IdTab → List (List Byte) → Except Err (List Nat × IdTab)
  | t, [] => .ok ([], t)
  | t, s :: l =>
    match getId t s with
    | .error e => .error e
    | .ok (id, t) =>
      match getIds t l with
      | .error e => .error e
      | .ok (ids, t) => .ok (id :: ids, t)

theorem getIds_names : ∀ (ws : List (List Byte)) (t : IdTab), Tab t → ∀ ids t', getIds t ws = .ok (ids, t') →
    Tab t' ∧ t.names <+: t'.names ∧ ids.length = ws.length ∧
    ∀ (i : Nat) (w : List Byte) (n : Nat), ws[i]? = some w → ids[i]? = some n → t'.names[n]? = some (canon w) := by
  intro ws
  induction ws with
  | nil => intro t ht ids t' e; cases e; exact ⟨ht, List.prefix_refl _, rfl, by simp⟩
  | cons s l ih =>
    intro t ht ids t' e
    simp only [getIds] at e
    obtain ⟨n0, t1, h1, ht1, hp1, hn1⟩ : ∃ n0 t1, getId t s = .ok (n0, t1) ∧ Tab t1 ∧ t.names <+: t1.names ∧
        t1.names[n0]? = some (canon s) := by
      rcases getId_cases ht s with ⟨id, h1, h2⟩ | ⟨_, ⟨_, h2⟩ | ⟨_, _, h2⟩ | ⟨t1, h2, h3, h4, _⟩⟩
      · exact ⟨id, t, h2, ht, List.prefix_refl _, h1⟩
      · rw [h2] at e; cases e
      · rw [h2] at e; cases e
      · exact ⟨_, t1, h2, h3, by rw [h4]; exact List.prefix_append _ _, by rw [h4]; simp⟩
    rw [h1] at e
    simp only at e
    cases h2 : getIds t1 l with
    | error _ => rw [h2] at e; cases e
    | ok p =>
      rw [h2] at e
      obtain ⟨ids', t2⟩ := p
      simp only [Except.ok.injEq, Prod.mk.injEq] at e
      obtain ⟨rfl, rfl⟩ := e
      obtain ⟨ht2, hp2, hl2, hn2⟩ := ih t1 ht1 _ _ h2
      refine ⟨ht2, hp1.trans hp2, by simp [hl2], ?_⟩
      intro i w n hw hn
      cases i with
      | zero =>
        simp only [List.getElem?_cons_zero, Option.some.injEq] at hw hn
        subst hw hn
        obtain ⟨u, hu⟩ := hp2
        rw [← hu, List.getElem?_append_left (List.getElem?_eq_some_iff.mp hn1).1, hn1]
      | succ i =>
        simp only [List.getElem?_cons_succ] at hw hn
        exact hn2 i w n hw hn

end SasIds

open SasIds

/-- C19.  Names are looked up (and added) one after the other, starting with the table of builtin names.  As long as no
look-up fails, two of them get the same number exactly if they have the same canonical spelling, wherever they stand in the
sequence; and the builtin names, in any case, have their fixed numbers, which no other name gets. -/
theorem C19_symbol_table {t0 : IdTab} (h0 : addAll emptyTab builtins = .ok t0) {ws : List (List Byte)} {ids : List Nat}
    {t : IdTab} (h : getIds t0 ws = .ok (ids, t)) :
    ids.length = ws.length ∧
    (∀ (i j : Nat) (v w : List Byte) (m n : Nat), ws[i]? = some v → ws[j]? = some w → ids[i]? = some m → ids[j]? = some n →
      (m = n ↔ canon v = canon w)) ∧
    (∀ (i : Nat) (w : List Byte) (n : Nat), ws[i]? = some w → ids[i]? = some n →
      (∀ k, builtins[k]? = some (w.map upcase) ↔ n = k ∧ n < 99)) := by
  obtain ⟨t0', h0', ht0, _⟩ := builtin_tab
  rw [h0] at h0'
  cases h0'
  obtain ⟨ht, _, hl, hn⟩ := getIds_names ws t0 ht0 ids t h
  refine ⟨hl, ?_, ?_⟩
  · intro i j v w m n hv hw hm hn'
    have h1 := hn i v m hv hm
    have h2 := hn j w n hw hn'
    constructor
    · rintro rfl
      rw [h1] at h2; exact Option.some.inj h2
    · intro e
      rw [e] at h1
      exact names_inj ht h1 h2
  · intro i w n hw hn' k
    have h1 := hn i w n hw hn'
    constructor
    · intro hk
      have hk99 : k < 99 := by
        have := (List.getElem?_eq_some_iff.mp hk).1
        rw [builtins_len] at this; exact this
      have hc : canon w = w.map upcase := by
        unfold canon; rw [if_pos (List.mem_of_getElem? hk)]
      rw [← getElem?_take_builtins ht hk99, ← hc] at hk
      have := names_inj ht h1 hk
      exact ⟨this, by omega⟩
    · rintro ⟨rfl, h99⟩
      rw [getElem?_take_builtins ht h99] at h1
      have hb := List.mem_of_getElem? h1
      by_cases hp : w.map upcase ∈ builtins
      · simpa only [canon, if_pos hp] using h1
      · simp only [canon, if_neg hp] at h1 hb
        rw [builtins_upper _ hb] at hp
        exact absurd hb hp

/-- C19.  A look-up fails only when the name is new and the table is full: more than 5000 bytes of names, or 600 names.  In
particular the search always ends. -/
theorem C19_fails_only_when_full {t0 : IdTab} (h0 : addAll emptyTab builtins = .ok t0) {ws : List (List Byte)} {ids : List Nat}
    {t : IdTab} (h : getIds t0 ws = .ok (ids, t)) {w : List Byte} {e : Err} (hw : getId t w = .error e) :
    (∀ v ∈ ws, canon v ≠ canon w) ∧ w.map upcase ∉ builtins ∧
    ((e = .assertFail ∧ t.bufLen + (w.length + 1) > 5000) ∨ (e = .ub ∧ t.names.length = 600)) := by
  obtain ⟨t0', h0', ht0, _⟩ := builtin_tab
  rw [h0] at h0'
  cases h0'
  obtain ⟨ht, _, hl, hn⟩ := getIds_names ws t0 ht0 ids t h
  rcases getId_cases ht w with ⟨id, _, h2⟩ | ⟨hc, h3⟩
  · rw [h2] at hw; cases hw
  · refine ⟨?_, ?_, ?_⟩
    · intro v hv e'
      obtain ⟨i, hi⟩ := List.getElem?_of_mem hv
      have hlt : i < ids.length := by rw [hl]; exact (List.getElem?_eq_some_iff.mp hi).1
      have := hn i v _ hi (List.getElem?_eq_getElem hlt)
      rw [e'] at this
      exact hc (List.mem_of_getElem? this)
    · intro hb
      apply hc
      unfold canon
      rw [if_pos hb]
      exact mem_builtins ht hb
    · rcases h3 with ⟨h4, h5⟩ | ⟨_, h4, h5⟩ | ⟨t', h5, _⟩
      · rw [h5] at hw; cases hw; exact Or.inl ⟨rfl, h4⟩
      · rw [h5] at hw; cases hw; exact Or.inr ⟨rfl, h4⟩
      · rw [h5] at hw; cases hw

/-- `mov`, `foo`, `Foo`, `MOV`, `foo`: numbers 49 (MOV), 99, 100, 49, 99. -/
example : (match addAll emptyTab builtins with
    | .ok t => (match getIds t [asc "mov", asc "foo", asc "Foo", asc "MOV", asc "foo"] with
      | .ok (ids, _) => ids
      | .error _ => [])
    | .error _ => []) = [49, 99, 100, 49, 99] := by decide +kernel

end Props
