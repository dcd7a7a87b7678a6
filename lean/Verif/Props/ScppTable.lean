import Verif.Props.ScppDefine
/-!
# `#define` and `#undef` change the macro table

Lemmas for `C26`, `C30` and `C31`.
-/
namespace Props.ScppTable
open Scpp Prog Text Props.ScppLex Props.ScppMacro Props.ScppDefine

/-! ## `#define` -/

/-- The nodes in use. -/
def used (Δ : Table) : Nat := (Δ.map fun e => (e.2.getD []).length).sum

/-- What directives other than conditionals leave alone. -/
structure Same (s s' : S) : Prop where
  cond : s'.cond = s.cond
  out : s'.out = s.out
  files : s'.files = s.files

theorem Same.trans {s s' s'' : S} (h : Same s s') (h' : Same s' s'') : Same s s'' := ⟨h'.cond.trans h.cond, h'.out.trans h.out, h'.files.trans h.files⟩

theorem _root_.Props.ScppMacro.RawAt.same {s s' : S} {t : PTok} {r : List Byte} (h : RawAt s s' t r) : Same s s' := ⟨h.frame.cond, h.out, h.frame.files⟩

/-- The state while macro `m` is being defined. -/
structure Half (Δ : Table) (m : Nat) (s : S) : Prop where
  ids : Ids (names Δ) s
  queue : s.queue = []
  tdn : s.tdNext ≤ 2048
  mac : ∀ i w b, Δ[i]? = some (w, some b) → (s.mac i).args = .none ∧ Chain s (s.mac i).repl b ∧ b.length ≤ 128 ∧ ∀ t ∈ b, BodyTok t
  undef : ∀ i w, i ≠ m → Δ[i]? = some (w, none) → (s.mac i).hide = 2
  hide : ∀ i w b, Δ[i]? = some (w, some b) → (s.mac i).hide = 0
  now : (s.mac m).hide = 0
  stack : s.stack = []
  freshHide : ∀ i, Δ.length ≤ i → (s.mac i).hide = 0
  pool : Pool Δ s
  fresh : Fresh Δ s

theorem used_eq {Δ : Table} {own : List (List Nat)} (hl : own.length = Δ.length)
    (h1 : ∀ (i : Nat) w b l, Δ[i]? = some (w, some b) → own[i]? = some l → l.length = b.length)
    (h2 : ∀ (i : Nat) w l, Δ[i]? = some (w, none) → own[i]? = some l → l = []) : own.flatten.length = used Δ := by
  rw [List.length_flatten, used]
  congr 1
  apply List.ext_getElem (by simpa using hl)
  intro i hi hi'
  simp only [List.length_map] at hi hi'
  simp only [List.getElem_map]
  rcases e : Δ[i] with ⟨w, _ | b⟩
  · rw [h2 i w own[i] (by rw [List.getElem?_eq_getElem hi', e]) (List.getElem?_eq_getElem hi)]; rfl
  · exact h1 i w b own[i] (by rw [List.getElem?_eq_getElem hi', e]) (List.getElem?_eq_getElem hi)

theorem chain_keep {s s' : S} : ∀ {b : List PTok} {st : Option Nat} {l : List Nat}, Chain s st b → Nodes s.node st l → (∀ i ∈ l, s'.node i = s.node i) → s.tdNext ≤ s'.tdNext →
    (∀ i, i < s.tdNext → s'.td.get i = s.td.get i) → Chain s' st b
  | [], none, _, _, _, _, _, _ => trivial
  | p :: ps, some i, [], _, hn, _, _, _ => by cases hn
  | p :: ps, some i, j :: l, ⟨hc1, hc2⟩, ⟨hn1, hn2⟩, h, h1, h2 => by
    subst hn1
    refine ⟨⟨by rw [h i (by simp)]; exact hc1.1, fun hw => by rw [h i (by simp)]; exact txt_mono (hc1.2 hw) h1 h2⟩, ?_⟩
    rw [h i (by simp)]
    exact chain_keep hc2 hn2 (fun k hk => h k (by simp [hk])) h1 h2

theorem flatten_set_perm {α : Type} (new : List α) : ∀ (own : List (List α)) (m : Nat), own[m]? = some [] → ((own.set m new).flatten).Perm (new ++ own.flatten)
  | [], m, h => by simp at h
  | o :: own, 0, h => by
    simp only [List.getElem?_cons_zero, Option.some.injEq] at h
    subst h
    simp
  | o :: own, m + 1, h => by
    simp only [List.getElem?_cons_succ] at h
    simp only [List.set_cons_succ, List.flatten_cons]
    have := flatten_set_perm new own m h
    refine (List.Perm.append_left o this).trans ?_
    rw [← List.append_assoc, ← List.append_assoc]
    exact List.Perm.append_right _ List.perm_append_comm

theorem names_set {Δ : Table} {m : Nat} {w : List Byte} {e e' : Option (List PTok)} (hm : Δ[m]? = some (w, e)) : names (Δ.set m (w, e')) = names Δ := by
  simp only [names, List.map_set]
  congr 1
  apply List.ext_getElem?
  intro i
  rw [List.getElem?_set]
  split
  · rename_i h
    subst h
    simp only [List.length_map, List.getElem?_map, hm, Option.map_some]
    have := (List.getElem?_eq_some_iff.mp hm).1
    simp [this]
  · rfl

theorem half_rest {Δ : Table} {m : Nat} {w v : List Byte} {b : List PTok} {W : Option (List Byte)} {r : List Byte} {s : S} (h : Half Δ m s) (hm : Δ[m]? = some (w, none))
    (ha : At s (render (bodyToks v b W ++ [.nl]) ++ r)) (hsp : Spelled (bodyToks v b W ++ [.nl]) r) (htd : s.tdNext + needs b ≤ 2048) (hfl : used Δ + b.length ≤ 128)
    (hb : ∀ t ∈ b, BodyTok t) (htr : Trim b) :
    ∃ N s', (∀ n, N ≤ n → rest n m s = .ok () s') ∧ Good (Δ.set m (w, some b)) s' ∧ At s' r ∧ s'.tok.ty = tokNl ∧ s'.tdNext = s.tdNext + needs b ∧ Same s s' := by
  obtain ⟨fl, own, p1, p2, p3, p4, p5⟩ := h.pool
  have hlen := used_eq p2 (fun i w b l h1 h2 => (p3 i w b l h1 h2).2) p4
  have hfl' : b.length ≤ fl.length := by
    have := p5.length_eq
    simp only [List.length_append, List.length_range, hlen] at this
    omega
  have hnd : (fl ++ own.flatten).Nodup := p5.nodup_iff.mpr List.nodup_range
  obtain ⟨N, s', new, fl', e, k1, k2, k3, k4, k5, k6, k7, k8, k9⟩ := define_tail (m := m) h.stack h.queue (h.fresh.undef m w hm) p1 (List.nodup_append.mp hnd).1 ha hsp htd hfl'
    (fun t ht => (hb t ht).2.1) htr
  have hml : m < Δ.length := (List.getElem?_eq_some_iff.mp hm).1
  have hout : ∀ (i : Nat) l, own[i]? = some l → ∀ j ∈ l, j ∉ fl := fun i l hi j hj hf =>
    (List.nodup_append.mp hnd).2.2 j hf j (List.mem_flatten.mpr ⟨l, List.mem_of_getElem? hi, hj⟩) rfl
  have hown : ∀ i w' b', Δ[i]? = some (w', some b') → ∃ l, own[i]? = some l := fun i w' b' hi => by
    have := (List.getElem?_eq_some_iff.mp hi).1
    exact ⟨own[i], List.getElem?_eq_getElem (by omega)⟩
  have hget : ∀ i, i ≠ m → (Δ.set m (w, some b))[i]? = Δ[i]? := fun i hi => by rw [List.getElem?_set_ne (fun e => hi e.symm)]
  have hgetm : (Δ.set m (w, some b))[m]? = some (w, some b) := by rw [List.getElem?_set_self hml]
  have hbl : b.length ≤ 128 := by omega
  refine ⟨N, s', k1, ⟨?_, ?_, ?_, ?_⟩, k7, k8, k6, k5.cond, k5.out, k5.files⟩
  · refine ⟨?_, ?_, ?_, ?_, ?_, k5.queue.trans h.queue, by omega, ?_, ?_⟩
    · rw [names_set hm, k5.idHash]; exact h.ids.inv
    · rw [names_set hm]; exact h.ids.nodup
    · rw [names_set hm, k5.idCount]; exact h.ids.cnt
    · rw [names_set hm]; exact h.ids.le
    · rw [names_set hm, k5.idText]
      exact fun i v hi => txt_mono (h.ids.txt i v hi) k5.tdNext k5.td
    · intro i w' b' hi
      by_cases hne : i = m
      · subst hne
        rw [hgetm] at hi
        cases hi
        exact ⟨k5.args.trans (h.fresh.undef _ _ hm), chain_of k3 k4, hbl, hb⟩
      · rw [hget i hne] at hi
        obtain ⟨a1, a2, a3, a4⟩ := h.mac i w' b' hi
        obtain ⟨l, hl⟩ := hown i w' b' hi
        rw [k5.mac i hne]
        exact ⟨a1, chain_keep a2 (p3 i w' b' l hi hl).1 (fun j hj => k5.node j (hout i l hl j hj)) k5.tdNext k5.td, a3, a4⟩
    · intro i w' hi
      by_cases hne : i = m
      · subst hne
        rw [hgetm] at hi
        cases hi
      · rw [hget i hne] at hi
        rw [k5.mac i hne]
        exact h.undef i w' hne hi
  · refine ⟨by rw [k5.stack, h.stack]; exact .nil, ?_, by simp, ?_⟩
    · intro i w' b' hi
      simp only [List.map_nil, List.not_mem_nil, if_false]
      by_cases hne : i = m
      · subst hne
        exact k5.hide.trans h.now
      · rw [hget i hne] at hi
        rw [k5.mac i hne]
        exact h.hide i w' b' hi
    · intro i hi
      rw [List.length_set] at hi
      rw [k5.mac i (by omega)]
      exact h.freshHide i hi
  · have hom : own[m]? = some [] := by
      have : own[m]? = some own[m] := List.getElem?_eq_getElem (by omega)
      rw [this, p4 m w _ hm this]
    refine ⟨fl', own.set m new, k2, by simpa using p2, ?_, ?_, ?_⟩
    · intro i w' b' l hi hl
      by_cases hne : i = m
      · subst hne
        rw [hgetm] at hi
        cases hi
        rw [List.getElem?_set_self (by omega)] at hl
        cases hl
        exact ⟨k3, k9⟩
      · rw [hget i hne] at hi
        rw [List.getElem?_set_ne (fun e => hne e.symm)] at hl
        obtain ⟨a, c⟩ := p3 i w' b' l hi hl
        rw [k5.mac i hne]
        exact ⟨a.congr fun j hj => by rw [k5.node j (hout i l hl j hj)], c⟩
    · intro i w' l hi hl
      by_cases hne : i = m
      · subst hne
        rw [hgetm] at hi
        cases hi
      · rw [hget i hne] at hi
        rw [List.getElem?_set_ne (fun e => hne e.symm)] at hl
        exact p4 i w' l hi hl
    · refine List.Perm.trans ?_ p5
      rw [e]
      refine (List.Perm.append_left fl' (flatten_set_perm new own m hom)).trans ?_
      rw [← List.append_assoc]
      exact List.Perm.append_right _ List.perm_append_comm
  · refine ⟨?_, ?_⟩
    · intro i hi
      rw [List.length_set] at hi
      rw [k5.mac i (by omega)]
      exact h.fresh.new i hi
    · intro i w' hi
      by_cases hne : i = m
      · subst hne
        rw [hgetm] at hi
        cases hi
      · rw [hget i hne] at hi
        rw [k5.mac i hne]
        exact h.fresh.undef i w' hi

/-! ## The rest of a line -/

/-- After the whole line. -/
structure Eol (s s' : S) (r : List Byte) : Prop where
  frame : Frame s s'
  at_ : At s' r
  ty : s'.tok.ty = tokNl
  stack : s'.stack = s.stack
  mac : s'.mac = s.mac
  out : s'.out = s.out

theorem Eol.same {s s' : S} {r : List Byte} (h : Eol s s' r) : Same s s' := ⟨h.frame.cond, h.out, h.frame.files⟩

theorem _root_.Props.ScppMacro.RawAt.eol {s s' : S} {r : List Byte} (h : RawAt s s' .nl r) : Eol s s' r := ⟨h.frame, h.at_, h.ty, h.stack, h.mac, h.out⟩

theorem Eol.after {s s1 s' : S} {t : PTok} {r0 r : List Byte} (h : RawAt s s1 t r0) (h' : Eol s1 s' r) : Eol s s' r :=
  ⟨h.frame.trans h'.frame, h'.at_, h'.ty, h'.stack.trans h.stack, h'.mac.trans h.mac, h'.out.trans h.out⟩

theorem toNewline_nl (n : Nat) {s : S} (h : s.tok.ty = tokNl) : toNewline (n + 1) s = .ok () s := run_getS (run_neg (by rw [h]; decide) rfl)

/-- The rest of a line is skipped. -/
theorem toNewline_eq {r : List Byte} : ∀ (ts : List PTok) (s : S), (∀ t ∈ ts, t ≠ .nl) → s.tok.ty ≠ tokNl → s.stack = [] → s.queue = [] → At s (render (ts ++ [.nl]) ++ r) →
    Spelled (ts ++ [.nl]) r → s.tdNext ≤ 2048 → (∀ t ∈ ts, s.tdNext + t.need ≤ 2048) → ∃ s', (∀ n, ts.length + 2 ≤ n → toNewline n s = .ok () s') ∧ Eol s s' r
  | [], s, _, hty, hs, hq, ha, hsp, htd, _ => by
    obtain ⟨o1, o2, _⟩ := hsp
    obtain ⟨s1, h1, h2⟩ := raw_next (t := .nl) hs hq (by simpa [render] using ha) o1 (by simpa [render] using o2) (by simpa [PTok.need] using htd)
    refine ⟨s1, fun n hn => ?_, h2.eol⟩
    obtain ⟨n, rfl⟩ : ∃ j, n = j + 2 := ⟨n - 2, by simp at hn; omega⟩
    exact run_getS (run_pos hty (run_bind h1 (toNewline_nl _ h2.ty)))
  | t :: ts, s, hnl, hty, hs, hq, ha, hsp, htd, hneed => by
    obtain ⟨o1, o2, o3⟩ := hsp
    rw [List.cons_append, render_cons] at ha
    obtain ⟨s1, h1, h2⟩ := raw_next (t := t) hs hq ha o1 o2 (hneed t (by simp))
    obtain ⟨s', k1, k2⟩ := toNewline_eq ts s1 (fun t ht => hnl t (by simp [ht])) (by rw [h2.ty]; exact fun e => hnl t (by simp) ((ty_facts o1).2.2.2.2.2.1.mp e)) (h2.stack.trans hs)
      (h2.frame.queue.trans hq) h2.at_ o3 (by rw [h2.frame.tdNext]; exact htd) (fun t ht => by rw [h2.frame.tdNext]; exact hneed t (by simp [ht]))
    refine ⟨s', fun n hn => ?_, Eol.after h2 k2⟩
    obtain ⟨n, rfl⟩ : ∃ j, n = j + 1 := ⟨n - 1, by simp at hn; omega⟩
    exact run_getS (run_pos hty (run_bind h1 (k1 n (by simp at hn; omega))))

/-! ## `#define` -/

/-- The table after `#define w b`: the first definition stays. -/
def defineT : Table → List Byte → List PTok → Table
  | [], w, b => [(w, some b)]
  | (v, e) :: Δ, w, b => if v = w then (v, some (e.getD b)) :: Δ else (v, e) :: defineT Δ w b

theorem defineT_new {w : List Byte} {b : List PTok} : ∀ {Δ : Table}, w ∉ Δ.map (·.1) → defineT Δ w b = (Δ ++ [(w, none)]).set Δ.length (w, some b)
  | [], _ => rfl
  | (v, e) :: Δ, h => by
    have hv : v ≠ w := fun e => h (by simp [e])
    simp only [defineT, if_neg hv, List.cons_append, List.length_cons, List.set_cons_succ, defineT_new (Δ := Δ) (fun hm => h (List.mem_cons_of_mem _ hm))]

theorem defineT_set {w : List Byte} {b : List PTok} {e : Option (List PTok)} : ∀ {Δ : Table} {m : Nat}, (Δ.map (·.1)).Nodup → Δ[m]? = some (w, e) →
    defineT Δ w b = Δ.set m (w, some (e.getD b))
  | [], m, _, h => by simp at h
  | (v, x) :: Δ, 0, _, h => by
    simp only [List.getElem?_cons_zero, Option.some.injEq, Prod.mk.injEq] at h
    obtain ⟨rfl, rfl⟩ := h
    simp [defineT]
  | (v, x) :: Δ, m + 1, hn, h => by
    simp only [List.getElem?_cons_succ] at h
    simp only [List.map_cons, List.nodup_cons] at hn
    have hv : v ≠ w := fun e => hn.1 (by rw [e]; exact List.mem_map.mpr ⟨_, List.mem_of_getElem? h, rfl⟩)
    simp only [defineT, if_neg hv, List.set_cons_succ, defineT_set hn.2 h]

theorem defineT_same {w : List Byte} {b b' : List PTok} {Δ : Table} {m : Nat} (hn : (Δ.map (·.1)).Nodup) (h : Δ[m]? = some (w, some b')) : defineT Δ w b = Δ := by
  rw [defineT_set hn h]
  obtain ⟨hm, e⟩ := List.getElem?_eq_some_iff.mp h
  rw [Option.getD_some, ← e, List.set_getElem_self]

theorem names_nodup_tail {Δ : Table} (h : (names Δ).Nodup) : (Δ.map (·.1)).Nodup := (List.nodup_append.mp h).2.1

theorem handleDefine_new {n k : Nat} {s s0 s1 s2 s3 : S} (h1 : rawGetToken s = .ok () s0) (h2 : rawSkipWs n s0 = .ok () s1) (hty : s1.tok.ty = tokRawId) (h3 : replaceId s1 = .ok () s2)
    (hno : ¬ tokUserId ≤ s2.tok.ty) (h4 : addId s2.tok.txt s2 = .ok k s3) (hk : tokId + k < tokUserId + macroMax) :
    handleDefine n s = rest n (tokId + k - tokUserId) { s3 with tdNext := s3.tdPos } :=
  run_bind h1 (run_bind h2 (run_getS (run_assert (by rw [hty]; rfl) (run_bind h3 (run_getS (run_neg (fun h => hno h.1) (run_neg hno (run_bind h4 (run_modS
    (run_assert (by simpa using hk) rfl))))))))))

theorem handleDefine_old {n : Nat} {s s0 s1 s2 : S} (h1 : rawGetToken s = .ok () s0) (h2 : rawSkipWs n s0 = .ok () s1) (hty : s1.tok.ty = tokRawId) (h3 : replaceId s1 = .ok () s2)
    (hge : tokUserId ≤ s2.tok.ty) (hno : (s2.mac (s2.tok.ty - tokUserId)).hide ≠ 0) :
    handleDefine n s = rest n (s2.tok.ty - tokUserId) { s2 with mac := upd s2.mac (s2.tok.ty - tokUserId) { s2.mac (s2.tok.ty - tokUserId) with hide := 0 } } :=
  run_bind h1 (run_bind h2 (run_getS (run_assert (by rw [hty]; rfl) (run_bind h3 (run_getS (run_neg (fun h => hno h.2) (run_pos hge (run_modS rfl))))))))

theorem set_mac {Δ : Table} {s s' : S} (h : Pool Δ s) (h1 : s'.node = s.node) (h2 : s'.free = s.free) (h3 : ∀ i, (s'.mac i).repl = (s.mac i).repl) : Pool Δ s' := by
  obtain ⟨fl, own, p1, p2, p3, p4, p5⟩ := h
  exact ⟨fl, own, by rw [h1, h2]; exact p1, p2, fun i w b l hi hl => by rw [h1, h3]; exact p3 i w b l hi hl, p4, p5⟩

theorem le_sum {a : Nat} : ∀ {l : List Nat}, a ∈ l → a ≤ l.sum
  | b :: l, h => by
    simp only [List.sum_cons]
    rcases List.mem_cons.mp h with rfl | h
    · omega
    · have := le_sum h; omega

/-- `#define` at its name. -/
theorem define_eq {Δ : Table} {w v1 v : List Byte} {b : List PTok} {W : Option (List Byte)} {r : List Byte} {s : S} (h : Good Δ s) (hs : s.stack = [])
    (ha : At s (render (.ws v1 :: .id w :: (bodyToks v b W ++ [.nl])) ++ r)) (hsp : Spelled (.ws v1 :: .id w :: (bodyToks v b W ++ [.nl])) r)
    (hw : w ∉ builtins) (hcount : w ∈ names Δ ∨ Δ.length < 16) (htd : s.tdNext + (w.length + 1) + needs b ≤ 2048) (hfl : used Δ + b.length ≤ 128)
    (hb : ∀ t ∈ b, BodyTok t) (htr : Trim b) :
    ∃ N s', (∀ n, N ≤ n → (do handleDefine n; toNewline n : A Unit) s = .ok () s') ∧ Good (defineT Δ w b) s' ∧ At s' r ∧ s'.tok.ty = tokNl ∧
      s.tdNext ≤ s'.tdNext ∧ s'.tdNext ≤ s.tdNext + (w.length + 1) + needs b ∧ Same s s' := by
  obtain ⟨o1, o2, o3, o4, o5⟩ := hsp
  have hR := h.rep
  have ha1 : At s (render (sps (some v1)) ++ ((PTok.id w).text ++ (render (bodyToks v b W ++ [.nl]) ++ r))) := by
    rw [render_cons, render_cons] at ha
    simpa [sps, render] using ha
  obtain ⟨s0, s1, h1, h2, h3⟩ := raw_skip (W := some v1) (t := .id w) hs hR.queue ha1 ⟨o1, by simpa [render] using o2, o3, by simpa [render] using o4, trivial⟩ (by show ¬ tokRawId = tokWs; decide)
    (by simp only [PTok.need, PTok.val, PTok.text]; omega)
  have hR1 := hR.frame h3.frame
  have hS1 := h.stk.frame h3.frame h3.stack h3.mac
  have hG1 := h.frame h3.frame hS1
  have hne : (PTok.id w) ≠ .nl := by simp
  have hnw : (PTok.id w).ty ≠ tokWs := by show ¬ tokRawId = tokWs; decide
  obtain ⟨q1, q2, q3⟩ := h3.pos hne hnw
  have hty1 : s1.tok.ty = tokRawId := h3.ty
  obtain ⟨hh, hcase⟩ := replaceId_eq hR1 hty1 (h3.txt hne hnw) (.inr (h3.hash w rfl))
  have htd1 := h3.frame.tdNext
  rcases hcase with ⟨hnot, hrep⟩ | ⟨id, hid, hrep⟩
  · -- a new name
    let s2 : S := { s1 with hash := hh }
    have f12 : Frame s1 s2 := ⟨rfl, rfl, rfl, rfl, rfl, rfl, rfl, rfl, rfl, rfl, rfl, rfl, rfl, fun _ _ => rfl, fun _ => ⟨rfl, rfl, id⟩⟩
    have hR2 := hR1.frame f12
    have hcnt : Δ.length < 16 := hcount.resolve_left hnot
    have hnl : (names Δ).length = 16 + Δ.length := by rw [names, List.length_append, builtins_len, List.length_map]
    obtain ⟨hk, a1, a2⟩ := addId_eq (s := s2) (t := s1.tok.txt) (w := w) hR2.ids (h3.txt hne hnw) hnot (by omega)
    let s3 : S := { added hk s1.tok.txt s2 with tdNext := s1.tdPos }
    have htp : s1.tdPos = s1.tdNext + (w.length + 1) := by rw [q2, htd1]; rfl
    have htd13 : s1.tdNext ≤ s3.tdNext := by show _ ≤ s1.tdPos; omega
    have hids : Ids (names Δ ++ [w]) s3 := by
      refine a2 s3 rfl rfl rfl (fun i v _ ht => txt_mono ht htd13 fun _ _ => rfl) ?_
      refine .inr ⟨s.tdNext, q1, ?_⟩
      show StrBelow s1.td s1.tdPos s.tdNext w
      rw [q2]; exact q3
    have hnames : names (Δ ++ [(w, none)]) = names Δ ++ [w] := by simp [names]
    have hmac13 : s3.mac = s.mac := h3.mac
    have hget : ∀ i e, (Δ ++ [(w, none)])[i]? = some e → Δ[i]? = some e ∨ i = Δ.length ∧ e = (w, none) := by
      intro i e hi
      rw [List.getElem?_append] at hi
      split at hi
      · exact .inl hi
      · rename_i hlt
        rw [List.getElem?_singleton] at hi
        split at hi
        · exact .inr ⟨by omega, by cases hi; rfl⟩
        · cases hi
    have hH : Half (Δ ++ [(w, none)]) Δ.length s3 := by
      refine ⟨by rw [hnames]; exact hids, hR1.queue, ?_, ?_, ?_, ?_, ?_, h3.stack.trans hs, ?_, ?_, ?_⟩
      · show s1.tdPos ≤ 2048; omega
      · intro i w' b' hi
        rcases hget i _ hi with hi | ⟨_, e⟩
        · obtain ⟨c1, c2, c3, c4⟩ := hR1.mac i w' b' hi
          obtain ⟨fl, own, p1, p2, p3, p4, p5⟩ := hG1.pool
          have hlt := (List.getElem?_eq_some_iff.mp hi).1
          exact ⟨c1, chain_keep (s := s1) (s' := s3) c2 (p3 i w' b' own[i] hi (List.getElem?_eq_getElem (by omega))).1 (fun _ _ => rfl) htd13 (fun _ _ => rfl), c3, c4⟩
        · cases e
      · intro i w' hne hi
        rcases hget i _ hi with hi | ⟨e, _⟩
        · exact hR1.undef i w' hi
        · exact absurd e hne
      · intro i w' b' hi
        rcases hget i _ hi with hi | ⟨_, e⟩
        · have := hS1.hide i w' b' hi
          rw [List.map_nil, if_neg (by simp)] at this
          exact this
        · cases e
      · exact hS1.fresh _ (Nat.le_refl _)
      · intro i hi
        simp only [List.length_append, List.length_singleton] at hi
        exact hS1.fresh i (by omega)
      · obtain ⟨fl, own, p1, p2, p3, p4, p5⟩ := hG1.pool
        refine ⟨fl, own ++ [[]], p1, by simp [p2], ?_, ?_, by simpa using p5⟩
        · intro i w' b' l hi hl
          rcases hget i _ hi with hi | ⟨_, e⟩
          · have hlt := (List.getElem?_eq_some_iff.mp hi).1
            rw [List.getElem?_append_left (by omega)] at hl
            exact p3 i w' b' l hi hl
          · cases e
        · intro i w' l hi hl
          rcases hget i _ hi with hi | ⟨e, _⟩
          · have hlt := (List.getElem?_eq_some_iff.mp hi).1
            rw [List.getElem?_append_left (by omega)] at hl
            exact p4 i w' l hi hl
          · rw [e, List.getElem?_append_right (by omega), p2, Nat.sub_self] at hl
            cases hl; rfl
      · refine ⟨fun i hi => ?_, fun i w' hi => ?_⟩
        · simp only [List.length_append, List.length_singleton] at hi
          exact hG1.fresh.new i (by omega)
        · rcases hget i _ hi with hi | ⟨e, _⟩
          · exact hG1.fresh.undef i w' hi
          · rw [e]; exact (hG1.fresh.new _ (Nat.le_refl _)).1
    obtain ⟨N, s', k1, k2, k3, k4, k5, k6⟩ := half_rest (w := w) (v := v) (W := W) (r := r) hH (by simp) h3.at_ o5
      (by show s1.tdPos + _ ≤ _; omega) (by simpa [used] using hfl) hb htr
    have hnu : w ∉ Δ.map (·.1) := fun hm => hnot (by rw [names]; exact List.mem_append_right _ hm)
    refine ⟨N + 2, s', fun n hn => ?_, (by rw [defineT_new hnu]; exact k2), k3, k4, ?_, ?_, ?_⟩
    · obtain ⟨n, rfl⟩ : ∃ j, n = j + 2 := ⟨n - 2, by omega⟩
      refine run_bind (s1 := s') (a := ()) ?_ (toNewline_nl _ k4)
      rw [handleDefine_new h1 (h2 n) hty1 hrep (by show ¬ tokUserId ≤ s1.tok.ty; rw [hty1]; decide) a1 (by rw [hnl]; show 257 + (16 + Δ.length) < 273 + 16; omega), hnl,
        show tokId + (16 + Δ.length) - tokUserId = Δ.length by show 257 + (16 + Δ.length) - 273 = _; omega]
      exact k1 _ (by omega)
    · rw [k5]; show _ ≤ s1.tdPos + _; omega
    · rw [k5]; show s1.tdPos + _ ≤ _; omega
    · exact Same.trans h3.same ⟨k6.cond, k6.out, k6.files⟩
  · have h16 : 16 ≤ id := by
      by_contra hlt
      rw [names, List.getElem?_append_left (by simp [builtins]; omega)] at hid
      exact hw (List.mem_of_getElem? hid)
    obtain ⟨x, hx⟩ := names_user hid h16
    have hx : Δ[id - 16]? = some (w, x) := hx
    let s2 : S := { s1 with hash := hh, tok := { s1.tok with ty := tokId + id } }
    have f12 : Frame s1 s2 := ⟨rfl, rfl, rfl, rfl, rfl, rfl, rfl, rfl, rfl, rfl, rfl, rfl, rfl, fun _ _ => rfl, fun _ => ⟨rfl, rfl, fun e => e⟩⟩
    have hG2 := hG1.frame f12 (hS1.frame f12 rfl rfl)
    have hidx : s2.tok.ty - tokUserId = id - 16 := by show tokId + id - tokUserId = _; simp [tokId, tokUserId]; omega
    have hge : tokUserId ≤ s2.tok.ty := by show tokUserId ≤ tokId + id; simp [tokId, tokUserId]; omega
    cases x with
    | some b' =>
      -- already defined
      have hhide : (s2.mac (id - 16)).hide = 0 := by simpa using hG2.stk.hide _ w b' hx
      have hnl : ∀ t ∈ bodyToks v b W, t ≠ .nl := by
        intro t ht
        cases b with
        | nil => cases W with
          | none => simp [bodyToks, sps] at ht
          | some w => simp [bodyToks, sps] at ht; simp [ht]
        | cons c b =>
          simp only [bodyToks, List.mem_cons, List.mem_append] at ht
          rcases ht with rfl | (rfl | ht) | ht
          · simp
          · exact (hb _ (by simp)).2.1
          · exact (hb _ (by simp [ht])).2.1
          · cases W with
            | none => simp [sps] at ht
            | some w => simp [sps] at ht; simp [ht]
      have hneed : ∀ t ∈ bodyToks v b W, t.need ≤ needs b := by
        intro t ht
        have hmem : ∀ c ∈ b, c.need ≤ needs b := fun c hc => le_sum (List.mem_map.mpr ⟨c, hc, rfl⟩)
        cases b with
        | nil => cases W with
          | none => simp [bodyToks, sps] at ht
          | some w => simp [bodyToks, sps] at ht; simp [ht, PTok.need]
        | cons c b =>
          simp only [bodyToks, List.mem_cons, List.mem_append] at ht
          rcases ht with rfl | (rfl | ht) | ht
          · simp [PTok.need]
          · exact hmem _ (by simp)
          · exact hmem _ (by simp [ht])
          · cases W with
            | none => simp [sps] at ht
            | some w => simp [sps] at ht; simp [ht, PTok.need]
      obtain ⟨s', k1, k2⟩ := toNewline_eq (r := r) (bodyToks v b W) s2 hnl (by show ¬ tokId + id = tokNl; simp [tokId, tokNl]; omega) (h3.stack.trans hs) hG2.rep.queue h3.at_ o5
        hG2.rep.tdn (fun t ht => by have := hneed t ht; show s1.tdNext + _ ≤ _; omega)
      refine ⟨(bodyToks v b W).length + 2, s', fun n hn => ?_, ?_, k2.at_, k2.ty, ?_, ?_, ?_⟩
      · obtain ⟨n, rfl⟩ : ∃ j, n = j + 2 := ⟨n - 2, by omega⟩
        refine run_bind (s1 := s2) (a := ()) ?_ (k1 _ (by omega))
        exact run_bind h1 (run_bind (h2 n) (run_getS (run_assert (by rw [hty1]; rfl) (run_bind hrep (run_getS (run_pos ⟨hge, by rw [hidx]; exact hhide⟩ rfl))))))
      · rw [defineT_same (names_nodup_tail hR.nodup) hx]
        exact hG2.frame k2.frame (hG2.stk.frame k2.frame k2.stack k2.mac)
      · rw [k2.frame.tdNext]; show _ ≤ s1.tdNext; omega
      · rw [k2.frame.tdNext]; show s1.tdNext ≤ _; omega
      · exact h3.same.trans (Same.trans (s' := s2) ⟨rfl, rfl, rfl⟩ k2.same)
    | none =>
      -- undefined before
      have hhide : (s2.mac (id - 16)).hide = 2 := hG2.rep.undef _ w hx
      let m := id - 16
      let s3 : S := { s2 with mac := upd s2.mac m { s2.mac m with hide := 0 } }
      have hm3 : ∀ i, i ≠ m → s3.mac i = s2.mac i := fun i hi => upd_ne _ _ hi
      have hm : s3.mac m = { s2.mac m with hide := 0 } := upd_self _ _ _
      have hlt := (List.getElem?_eq_some_iff.mp hx).1
      have hneq : ∀ (i : Nat) w' b', Δ[i]? = some (w', some b') → i ≠ m := fun i w' b' hi e => by
        rw [e, show m = id - 16 from rfl, hx] at hi; cases hi
      have hH : Half Δ m s3 := by
        refine ⟨⟨hG2.rep.inv, hG2.rep.nodup, hG2.rep.cnt, hG2.rep.le, hG2.rep.txt⟩, hG2.rep.queue, hG2.rep.tdn, ?_, ?_, ?_, by rw [hm], h3.stack.trans hs, ?_, ?_, ?_⟩
        · intro i w' b' hi
          obtain ⟨c1, c2, c3, c4⟩ := hG2.rep.mac i w' b' hi
          obtain ⟨fl, own, p1, p2, p3, p4, p5⟩ := hG2.pool
          have hlt := (List.getElem?_eq_some_iff.mp hi).1
          rw [hm3 i (hneq i _ _ hi)]
          exact ⟨c1, chain_keep (s := s2) (s' := s3) c2 (p3 i w' b' own[i] hi (List.getElem?_eq_getElem (by omega))).1 (fun _ _ => rfl) (Nat.le_refl _) (fun _ _ => rfl), c3, c4⟩
        · intro i w' hne hi
          rw [hm3 i hne]
          exact hG2.rep.undef i w' hi
        · intro i w' b' hi
          rw [hm3 i (hneq i _ _ hi)]
          simpa using hG2.stk.hide i w' b' hi
        · intro i hi
          rw [hm3 i (by have : m < Δ.length := hlt; omega)]
          exact hG2.stk.fresh i hi
        · refine set_mac hG2.pool rfl rfl fun i => ?_
          by_cases e : i = m
          · subst e; rw [hm]
          · rw [hm3 i e]
        · refine ⟨fun i hi => ?_, fun i w' hi => ?_⟩
          · rw [hm3 i (by have : m < Δ.length := hlt; omega)]
            exact hG2.fresh.new i hi
          · by_cases e : i = m
            · subst e; rw [hm]; exact hG2.fresh.undef _ w' hi
            · rw [hm3 i e]; exact hG2.fresh.undef i w' hi
      obtain ⟨N, s', k1, k2, k3, k4, k5, k6⟩ := half_rest (w := w) (v := v) (W := W) (r := r) hH hx h3.at_ o5 (by show s1.tdNext + _ ≤ _; omega) hfl hb htr
      refine ⟨N + 2, s', fun n hn => ?_, ?_, k3, k4, ?_, ?_, ?_⟩
      · obtain ⟨n, rfl⟩ : ∃ j, n = j + 2 := ⟨n - 2, by omega⟩
        refine run_bind (s1 := s') (a := ()) ?_ (toNewline_nl _ k4)
        rw [handleDefine_old h1 (h2 n) hty1 hrep hge (by show (s2.mac (s2.tok.ty - tokUserId)).hide ≠ 0; rw [hidx, hhide]; decide)]
        show rest _ (s2.tok.ty - tokUserId) { s2 with mac := upd s2.mac (s2.tok.ty - tokUserId) { s2.mac (s2.tok.ty - tokUserId) with hide := 0 } } = _
        rw [hidx]
        exact k1 _ (by omega)
      · rw [defineT_set (names_nodup_tail hR.nodup) hx]
        exact k2
      · rw [k5]; show _ ≤ s1.tdNext + _; omega
      · rw [k5]; show s1.tdNext + _ ≤ _; omega
      · exact h3.same.trans (Same.trans (s' := s3) ⟨rfl, rfl, rfl⟩ k6)

end Props.ScppTable
