import Verif.Props.ScppTable
/-!
# `#undef`, the end of directive lines and the first state

Lemmas for `C26`, `C30` and `C31`.
-/
namespace Props.ScppUndef
open Scpp Prog Text Props.ScppLex Props.ScppMacro Props.ScppDefine Props.ScppTable

/-! ## The end of a directive line -/

theorem eol_read {W : Option (List Byte)} {r : List Byte} {s : S} (hs : s.stack = []) (hq : s.queue = []) (htd : s.tdNext ≤ 2048)
    (ha : At s (render (sps W ++ [.nl]) ++ r)) (hsp : Spelled (sps W ++ [.nl]) r) :
    ∃ s1 t r1, rawGetToken s = .ok () s1 ∧ RawAt s s1 t r1 ∧ t.Ok ∧ (∀ w, t ≠ .id w) ∧ (∀ n, getToken (n + 1) s = .ok () s1) ∧ ∀ c, ∃ s', (∀ n, toNewline (n + 3) { s1 with cond := c } = .ok () s') ∧
      Eol { s1 with cond := c } s' r := by
  cases W with
  | none =>
    obtain ⟨o1, o2, _⟩ := hsp
    obtain ⟨s1, h1, h2⟩ := raw_next (t := .nl) (r := r) hs hq (by simpa [sps, render] using ha) o1 (by simpa [render] using o2) (by simpa [PTok.need] using htd)
    refine ⟨s1, .nl, r, h1, h2, o1, by simp, fun n => ?_, fun c => ⟨{ s1 with cond := c }, fun n => toNewline_nl _ h2.ty, Frame.refl _, h2.at_, h2.ty, rfl, rfl, rfl⟩⟩
    have hf := ty_facts (t := .nl) trivial
    have e : s1.tok.ty = tokNl := h2.ty
    simp only [getToken]
    refine run_bind h1 (run_getS (run_neg (by rw [e]; decide) (run_neg (by rw [e]; decide) (run_pos (by rw [e]; decide) rfl))))
  | some w =>
    obtain ⟨o1, o2, o3, o4, _⟩ := hsp
    obtain ⟨s1, h1, h2⟩ := raw_next (t := .ws w) (r := [0x0A] ++ r) hs hq (by simpa [sps, render, PTok.text] using ha) o1 (by simpa [render, PTok.text] using o2)
      (by simpa [PTok.need] using htd)
    refine ⟨s1, .ws w, [0x0A] ++ r, h1, h2, o1, by simp, fun n => ?_, fun c => ?_⟩
    · have e : s1.tok.ty = tokWs := h2.ty
      simp only [getToken]
      refine run_bind h1 (run_getS (run_neg (by rw [e]; decide) (run_neg (by rw [e]; decide) (run_pos (by rw [e]; decide) rfl))))
    · have e : s1.tok.ty = tokWs := h2.ty
      obtain ⟨s', k1, k2⟩ := toNewline_eq (r := r) [] { s1 with cond := c } (by simp) (by rw [show ({ s1 with cond := c } : S).tok = s1.tok from rfl, e]; decide) (h2.stack.trans hs)
        (h2.frame.queue.trans hq) (h2.at_.congr rfl rfl) ⟨o3, o4, trivial⟩ (by show s1.tdNext ≤ _; rw [h2.frame.tdNext]; exact htd) (by simp)
      exact ⟨s', fun n => k1 _ (by simp), k2⟩

/-! ## `#undef` -/

/-- The table after `#undef w`. -/
def undefT (Δ : Table) (w : List Byte) : Table := Δ.map fun e => if e.1 = w then (e.1, none) else e

theorem names_undef (Δ : Table) (w : List Byte) : names (undefT Δ w) = names Δ := by
  simp only [names, undefT, List.map_map]
  congr 1
  apply List.map_congr_left
  intro e _
  simp only [Function.comp]
  split <;> rfl

theorem undefT_get {Δ : Table} {w : List Byte} {i : Nat} {v : List Byte} {e : Option (List PTok)} (h : (undefT Δ w)[i]? = some (v, e)) :
    (v = w ∧ e = none ∧ ∃ e', Δ[i]? = some (v, e')) ∨ (v ≠ w ∧ Δ[i]? = some (v, e)) := by
  rw [undefT, List.getElem?_map] at h
  cases he : Δ[i]? with
  | none => rw [he] at h; cases h
  | some x =>
    rw [he] at h
    obtain ⟨a, b⟩ := x
    simp only [Option.map_some, Option.some.injEq] at h
    split at h
    · rename_i hv
      cases h
      exact .inl ⟨hv, rfl, b, rfl⟩
    · rename_i hv
      cases h
      exact .inr ⟨hv, rfl⟩

theorem linkLast_eq {l : Nat} {last : Option Nat} {s : S} : ∀ {is : List Nat} {i : Nat}, Nodes s.node (some i) is → is.getLast? = some l → ∀ n, is.length ≤ n →
    linkLast n i last s = .ok () { s with node := upd s.node l { s.node l with next := last } }
  | [], _, h, _, _, _ => by cases h
  | [j], i, ⟨h1, h2⟩, hl, n, hn => by
    subst h1
    simp only [List.getLast?_singleton, Option.some.injEq] at hl
    subst hl
    obtain ⟨n, rfl⟩ : ∃ k, n = k + 1 := ⟨n - 1, by simp at hn; omega⟩
    have hx : (s.node i).next = none := by
      cases hx : (s.node i).next with
      | none => rfl
      | some k => rw [hx] at h2; cases h2
    simp only [linkLast]
    refine run_getS ?_
    simp only [hx]
    rfl
  | j :: k :: is, i, ⟨h1, h2⟩, hl, n, hn => by
    subst h1
    rw [List.getLast?_cons_cons] at hl
    obtain ⟨n, rfl⟩ : ∃ k, n = k + 1 := ⟨n - 1, by simp at hn; omega⟩
    obtain ⟨e, h3⟩ := h2.head
    simp only [linkLast]
    refine run_getS ?_
    simp only [e]
    exact linkLast_eq (is := k :: is) (by rw [e] at h2; exact h2) hl n (by simp at hn ⊢; omega)

theorem freeTokenList_eq {tl : Option Nat} {is fl : List Nat} {s : S} (h : Nodes s.node tl is) (hf : Nodes s.node s.free fl) (hn : (is ++ fl).Nodup) (hl : is.length ≤ 128) :
    ∃ s', freeTokenList tl s = .ok () s' ∧ Nodes s'.node s'.free (is ++ fl) ∧ (∀ i, i ∉ is → s'.node i = s.node i) ∧ s' = { s with node := s'.node, free := s'.free } := by
  cases is with
  | nil =>
    cases tl with
    | none => exact ⟨s, rfl, hf, fun _ _ => rfl, rfl⟩
    | some i => cases h
  | cons j is =>
    obtain ⟨e, h2⟩ := h.head
    subst e
    obtain ⟨l, hlast⟩ : ∃ l, (j :: is).getLast? = some l := ⟨_, List.getLast?_eq_some_getLast (by simp)⟩
    have hmem : l ∈ j :: is := List.mem_of_getLast? hlast
    let s1 : S := { s with free := some j }
    refine ⟨{ s1 with node := upd s1.node l { s1.node l with next := s.free } }, ?_, ?_, ?_, rfl⟩
    · exact run_getS (run_modS (linkLast_eq (s := s1) h hlast _ (by show _ ≤ 128 + 1; omega)))
    · refine Nodes.join h (List.nodup_append.mp hn).1 hlast (fun i _ hi => by show (upd s.node l _ i).next = _; rw [upd_ne _ _ hi])
        (by show (upd s.node l _ l).next = _; rw [upd_self]) (hf.congr fun i hi => ?_)
      show (upd s.node l _ i).next = _
      rw [upd_ne _ _ (fun e => (List.nodup_append.mp hn).2.2 l hmem i hi e.symm)]
    · intro i hi
      exact upd_ne _ _ (fun e => hi (e ▸ hmem))

theorem Good.undef_mac {Δ : Table} {m : Nat} {w : List Byte} {b : List PTok} {s : S} (h : Good Δ s) (hm : Δ[m]? = some (w, some b)) :
    ∃ s', (do modS fun s => { s with mac := upd s.mac m { s.mac m with hide := 2 } }; freeTokenList (s.mac m).repl : A Unit) s = .ok () s' ∧ Good (undefT Δ w) s' ∧
      s' = { s with mac := upd s.mac m { s.mac m with hide := 2 }, node := s'.node, free := s'.free } := by
  obtain ⟨fl, own, p1, p2, p3, p4, p5⟩ := h.pool
  have hml := (List.getElem?_eq_some_iff.mp hm).1
  obtain ⟨l, hl⟩ : ∃ l, own[m]? = some l := ⟨own[m], List.getElem?_eq_getElem (by omega)⟩
  obtain ⟨q1, q2⟩ := p3 m w b l hm hl
  have hperm : (own.flatten).Perm (l ++ (own.set m []).flatten) := by
    have := flatten_set_perm l (own.set m []) m (by rw [List.getElem?_set_self (by omega)])
    rwa [List.set_set, show own.set m l = own by
      obtain ⟨h1, h2⟩ := List.getElem?_eq_some_iff.mp hl
      rw [← h2, List.set_getElem_self]] at this
  have hall : ((l ++ fl) ++ (own.set m []).flatten).Perm (List.range 128) := by
    refine List.Perm.trans ?_ p5
    refine List.Perm.trans ?_ (List.Perm.append_left fl hperm.symm)
    rw [← List.append_assoc]
    exact List.Perm.append_right _ List.perm_append_comm
  have hnd := hall.nodup_iff.mpr List.nodup_range
  have hb128 := (h.rep.mac m w b hm).2.2.1
  let s1 : S := { s with mac := upd s.mac m { s.mac m with hide := 2 } }
  have hm1 : ∀ i, i ≠ m → s1.mac i = s.mac i := fun i hi => upd_ne _ _ hi
  have hmm : s1.mac m = { s.mac m with hide := 2 } := upd_self _ _ _
  obtain ⟨s', k1, k2, k3, k4⟩ := freeTokenList_eq (s := s1) (tl := (s.mac m).repl) q1 p1 (List.nodup_append.mp hnd).1 (by omega)
  refine ⟨s', run_modS k1, ?_, k4⟩
  have eM : s'.mac = s1.mac := by rw [k4]
  have e1 : s'.idHash = s.idHash := by rw [k4]
  have e2 : s'.idText = s.idText := by rw [k4]
  have e3 : s'.idCount = s.idCount := by rw [k4]
  have e4 : s'.queue = s.queue := by rw [k4]
  have e5 : s'.tdNext = s.tdNext := by rw [k4]
  have e6 : s'.td = s.td := by rw [k4]
  have e7 : s'.stack = s.stack := by rw [k4]
  have hne : ∀ (i : Nat) v e, Δ[i]? = some (v, e) → v ≠ w → i ≠ m := fun i v e hi hv ei => by
    rw [ei, hm] at hi; cases hi; exact hv rfl
  have hnodes : ∀ (i : Nat) l', i ≠ m → own[i]? = some l' → ∀ j ∈ l', s'.node j = s.node j := by
    intro i l' hi hl' j hj
    refine k3 j fun hjl => ?_
    have : j ∈ (own.set m []).flatten := List.mem_flatten.mpr ⟨l', by
      have : (own.set m [])[i]? = some l' := by rw [List.getElem?_set_ne (fun e => hi e.symm)]; exact hl'
      exact List.mem_of_getElem? this, hj⟩
    exact (List.nodup_append.mp hnd).2.2 j (List.mem_append_left _ hjl) j this rfl
  refine ⟨?_, ?_, ?_, ?_⟩
  · refine ⟨?_, ?_, ?_, ?_, ?_, ?_, ?_, ?_, ?_⟩
    · rw [names_undef, e1]; exact h.rep.inv
    · rw [names_undef]; exact h.rep.nodup
    · rw [names_undef, e3]; exact h.rep.cnt
    · rw [names_undef]; exact h.rep.le
    · rw [names_undef, e2]
      exact fun i v hi => txt_mono (h.rep.txt i v hi) (by rw [e5]) (fun _ _ => by rw [e6])
    · rw [e4]; exact h.rep.queue
    · rw [e5]; exact h.rep.tdn
    · intro i v b' hi
      rcases undefT_get hi with ⟨_, hx, _⟩ | ⟨hv, hi⟩
      · cases hx
      · have hi' := hne i v _ hi hv
        obtain ⟨c1, c2, c3, c4⟩ := h.rep.mac i v b' hi
        have hilt := (List.getElem?_eq_some_iff.mp hi).1
        have hown : own[i]? = some own[i] := List.getElem?_eq_getElem (by omega)
        rw [eM, hm1 i hi']
        exact ⟨c1, chain_keep c2 (p3 i v b' _ hi hown).1 (hnodes i _ hi' hown) (by rw [e5]) (fun _ _ => by rw [e6]), c3, c4⟩
    · intro i v hi
      rw [eM]
      rcases undefT_get hi with ⟨rfl, _, e', hi⟩ | ⟨hv, hi⟩
      · rw [names_nodup_idx h.rep.nodup hi hm, hmm]
      · rw [hm1 i (hne i v _ hi hv)]; exact h.rep.undef i v hi
  · refine ⟨by rw [e7, stk_nil h.stk]; exact .nil, ?_, by simp, ?_⟩
    · intro i v b' hi
      rcases undefT_get hi with ⟨_, hx, _⟩ | ⟨hv, hi⟩
      · cases hx
      · rw [eM, hm1 i (hne i v _ hi hv)]; exact h.stk.hide i v b' hi
    · intro i hi
      rw [undefT, List.length_map] at hi
      rw [eM, hm1 i (by omega)]
      exact h.stk.fresh i hi
  · refine ⟨l ++ fl, own.set m [], k2, by rw [List.length_set, undefT, List.length_map]; exact p2, ?_, ?_, hall⟩
    · intro i v b' l' hi hl'
      rcases undefT_get hi with ⟨_, hx, _⟩ | ⟨hv, hi⟩
      · cases hx
      · have hi' := hne i v _ hi hv
        rw [List.getElem?_set_ne (fun e => hi' e.symm)] at hl'
        obtain ⟨c1, c2⟩ := p3 i v b' l' hi hl'
        rw [eM, hm1 i hi']
        exact ⟨c1.congr fun j hj => by rw [hnodes i l' hi' hl' j hj], c2⟩
    · intro i v l' hi hl'
      rcases undefT_get hi with ⟨rfl, _, e', hi⟩ | ⟨hv, hi⟩
      · have := names_nodup_idx h.rep.nodup hi hm
        subst this
        rw [List.getElem?_set_self (by omega)] at hl'
        cases hl'; rfl
      · rw [List.getElem?_set_ne (fun e => hne i v _ hi hv e.symm)] at hl'
        exact p4 i v l' hi hl'
  · refine ⟨fun i hi => ?_, fun i v hi => ?_⟩
    · rw [undefT, List.length_map] at hi
      rw [eM, hm1 i (by omega)]
      exact h.fresh.new i hi
    · rw [eM]
      rcases undefT_get hi with ⟨rfl, _, e', hi⟩ | ⟨hv, hi⟩
      · have := names_nodup_idx h.rep.nodup hi hm
        subst this
        rw [hmm]
        exact (h.rep.mac _ _ _ hm).1
      · rw [hm1 i (hne i v _ hi hv)]; exact h.fresh.undef i v hi

theorem undefT_none {Δ : Table} {w : List Byte} (h : w ∉ Δ.map (·.1)) : undefT Δ w = Δ := by
  rw [undefT]
  conv => rhs; rw [← List.map_id Δ]
  apply List.map_congr_left
  intro e he
  rw [if_neg (fun hw => h (by rw [← hw]; exact List.mem_map.mpr ⟨e, he, rfl⟩))]
  rfl

/-- The name after `#undef`, `#ifdef` and `#ifndef`. -/
theorem name_eq {Δ : Table} {w v1 : List Byte} {r : List Byte} {s : S} (h : Good Δ s)
    (ha : At s (render [.ws v1, .id w] ++ r)) (hsp : Spelled [.ws v1, .id w] r) (htd : s.tdNext + (w.length + 1) ≤ 2048) :
    ∃ s0 s1 s2, rawGetToken s = .ok () s0 ∧ (∀ n, rawSkipWs (n + 2) s0 = .ok () s1) ∧ replaceId s1 = .ok () s2 ∧ Good Δ s2 ∧ At s2 r ∧ s2.tdNext = s.tdNext ∧ Same s s2 ∧
      (w ∉ names Δ ∧ s2.tok.ty = tokRawId ∨ ∃ id, (names Δ)[id]? = some w ∧ s2.tok.ty = tokId + id) := by
  obtain ⟨o1, o2, o3, o4, o5⟩ := hsp
  have hR := h.rep
  have hne : (PTok.id w) ≠ .nl := by simp
  have hnw : (PTok.id w).ty ≠ tokWs := by show ¬ tokRawId = tokWs; decide
  have ha1 : At s (render (sps (some v1)) ++ ((PTok.id w).text ++ r)) := by
    rw [render_cons, render_cons] at ha
    simpa [sps, render] using ha
  obtain ⟨s0, s1, h1, h2, h3⟩ := raw_skip (W := some v1) (t := .id w) (stk_nil h.stk) hR.queue ha1 ⟨o1, by simpa [render] using o2, o3, by simpa [render] using o4, trivial⟩ hnw
    (by simp only [PTok.need, PTok.val, PTok.text]; omega)
  have hR1 := hR.frame h3.frame
  have hS1 := h.stk.frame h3.frame h3.stack h3.mac
  have hG1 := h.frame h3.frame hS1
  obtain ⟨hh, ⟨hnot, hrep⟩ | ⟨id, hid, hrep⟩⟩ := replaceId_eq hR1 h3.ty (h3.txt hne hnw) (.inr (h3.hash w rfl))
  · have f12 : Frame s1 { s1 with hash := hh } := ⟨rfl, rfl, rfl, rfl, rfl, rfl, rfl, rfl, rfl, rfl, rfl, rfl, rfl, fun _ _ => rfl, fun _ => ⟨rfl, rfl, fun e => e⟩⟩
    exact ⟨s0, s1, _, h1, h2, hrep, hG1.frame f12 (hS1.frame f12 rfl rfl), h3.at_, h3.frame.tdNext, ⟨h3.same.1, h3.same.2, h3.same.3⟩, .inl ⟨hnot, h3.ty⟩⟩
  · have f12 : Frame s1 { s1 with hash := hh, tok := { s1.tok with ty := tokId + id } } :=
      ⟨rfl, rfl, rfl, rfl, rfl, rfl, rfl, rfl, rfl, rfl, rfl, rfl, rfl, fun _ _ => rfl, fun _ => ⟨rfl, rfl, fun e => e⟩⟩
    exact ⟨s0, s1, _, h1, h2, hrep, hG1.frame f12 (hS1.frame f12 rfl rfl), h3.at_, h3.frame.tdNext, ⟨h3.same.1, h3.same.2, h3.same.3⟩, .inr ⟨id, hid, rfl⟩⟩

theorem Good.eol {Δ : Table} {s s' : S} {r : List Byte} (h : Good Δ s) (h' : Eol s s' r) : Good Δ s' := h.frame h'.frame (h.stk.frame h'.frame h'.stack h'.mac)

theorem Good.raw {Δ : Table} {s s' : S} {t : PTok} {r : List Byte} (h : Good Δ s) (h' : RawAt s s' t r) : Good Δ s' := h.frame h'.frame (h.stk.frame h'.frame h'.stack h'.mac)

theorem Good.set_cond {Δ : Table} {s : S} (h : Good Δ s) (c : List Cond) : Good Δ { s with cond := c } := by
  obtain ⟨⟨a1, a2, a3, a4, a5, a6, a7, a8, a9⟩, ⟨b1, b2, b3, b4⟩, ⟨fl, own, p1, p2, p3, p4, p5⟩, ⟨d1, d2⟩⟩ := h
  refine ⟨⟨a1, a2, a3, a4, a5, a6, a7, ?_, a9⟩, ⟨?_, b2, b3, b4⟩, ⟨fl, own, p1, p2, p3, p4, p5⟩, ⟨d1, d2⟩⟩
  · intro i w b hi
    obtain ⟨c1, c2, c3, c4⟩ := a8 i w b hi
    have hl := (List.getElem?_eq_some_iff.mp hi).1
    exact ⟨c1, chain_keep c2 (p3 i w b own[i] hi (List.getElem?_eq_getElem (by omega))).1 (fun _ _ => rfl) (Nat.le_refl _) (fun _ _ => rfl), c3, c4⟩
  · cases hs : s.stack with
    | nil => exact .nil
    | cons x xs => rw [hs] at b1; cases b1

/-- `#undef` at its name. -/
theorem undef_eq {Δ : Table} {w v1 : List Byte} {W : Option (List Byte)} {r : List Byte} {s : S} (h : Good Δ s)
    (ha : At s (render (.ws v1 :: .id w :: (sps W ++ [.nl])) ++ r)) (hsp : Spelled (.ws v1 :: .id w :: (sps W ++ [.nl])) r)
    (hw : ∀ i : Nat, Δ[i]? ≠ some (w, none)) (htd : s.tdNext + (w.length + 1) ≤ 2048) :
    ∃ s', (∀ n, (do
        rawGetToken
        rawSkipWs (n + 3)
        replaceId
        let s ← getS
        if tokUserId ≤ s.tok.ty then
          let m := s.tok.ty - tokUserId
          modS fun s => { s with mac := upd s.mac m { s.mac m with hide := 2 } }
          freeTokenList (s.mac m).repl
        getToken (n + 3)
        toNewline (n + 3) : A Unit) s = .ok () s') ∧ Good (undefT Δ w) s' ∧ At s' r ∧ s'.tok.ty = tokNl ∧ s'.tdNext = s.tdNext ∧ Same s s' := by
  obtain ⟨o1, o2, o3, o4, o5⟩ := hsp
  obtain ⟨s0, s1, s2, h1, h2, h3, h4, h5, h6, h7, h8⟩ := name_eq (r := render (sps W ++ [.nl]) ++ r) h (by
    rw [render_cons, render_cons] at ha; rw [render_cons, render_cons]; simpa [render] using ha) ⟨o1, by simpa [render] using o2, o3, by simpa [render] using o4, trivial⟩ htd
  have fin : ∀ s3, Good (undefT Δ w) s3 → s3.cur = s2.cur → s3.inp = s2.inp → s3.tdNext = s2.tdNext → Same s2 s3 →
      ∃ s', (∀ n, (do getToken (n + 3); toNewline (n + 3) : A Unit) s3 = .ok () s') ∧ Good (undefT Δ w) s' ∧ At s' r ∧ s'.tok.ty = tokNl ∧ s'.tdNext = s.tdNext ∧ Same s s' := by
    intro s3 g1 g2 g3 g4 g5
    obtain ⟨s4, t, r1, k1, k2, _, _, k3, k4⟩ := eol_read (stk_nil g1.stk) g1.rep.queue g1.rep.tdn (h5.congr g2 g3) o5
    obtain ⟨s', k5, k6⟩ := k4 s4.cond
    refine ⟨s', fun n => run_bind (k3 _) (k5 n), Good.eol (Good.raw g1 k2) k6, k6.at_, k6.ty, ?_, ?_⟩
    · rw [k6.frame.tdNext]; show s4.tdNext = _; rw [k2.frame.tdNext, g4, h6]
    · exact h7.trans (g5.trans (k2.same.trans k6.same))
  rcases h8 with ⟨hn, hty⟩ | ⟨id, hid, hty⟩
  · obtain ⟨s', k1, k2⟩ := fin s2 (by rw [undefT_none (fun hm => hn (List.mem_append_right _ hm))]; exact h4) rfl rfl rfl ⟨rfl, rfl, rfl⟩
    exact ⟨s', fun n => run_bind h1 (run_bind (h2 _) (run_bind h3 (run_getS (run_neg (by rw [hty]; decide) (k1 n))))), k2⟩
  · by_cases h16 : 16 ≤ id
    · obtain ⟨x, hx⟩ := names_user hid h16
      cases x with
      | none => exact absurd hx (hw _)
      | some b =>
        obtain ⟨s3, g1, g2, g3⟩ := Good.undef_mac h4 hx
        obtain ⟨s', k1, k2⟩ := fin s3 g2 (by rw [g3]) (by rw [g3]) (by rw [g3]) ⟨by rw [g3], by rw [g3], by rw [g3]⟩
        have hidx : s2.tok.ty - tokUserId = id - 16 := by rw [hty]; show 257 + id - 273 = _; omega
        refine ⟨s', fun n => run_bind h1 (run_bind (h2 _) (run_bind h3 (run_getS (run_pos (by rw [hty]; show 273 ≤ 257 + id; omega) ?_)))), k2⟩
        rw [hidx]
        have := g1
        exact run_modS (run_bind (by have := g1; rw [bind_run, modS_run] at this; exact this) (k1 n))
    · have hmem : w ∈ builtins := by
        rw [names, List.getElem?_append_left (by rw [builtins_len]; omega)] at hid
        exact List.mem_of_getElem? hid
      have hnot : w ∉ Δ.map (·.1) := fun hm => (List.nodup_append.mp h.rep.nodup).2.2 w hmem w hm rfl
      obtain ⟨s', k1, k2⟩ := fin s2 (by rw [undefT_none hnot]; exact h4) rfl rfl rfl ⟨rfl, rfl, rfl⟩
      exact ⟨s', fun n => run_bind h1 (run_bind (h2 _) (run_bind h3 (run_getS (run_neg (by rw [hty]; show ¬ 273 ≤ 257 + id; omega) (k1 n))))), k2⟩

end Props.ScppUndef
