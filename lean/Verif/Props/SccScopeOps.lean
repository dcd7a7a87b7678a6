import Verif.Props.SccScope
/-!
# Scopes of the compiler (C35): declarations, uses, beginning and end of scopes
-/
namespace Props.SccScope
open Prog Scc

theorem ub_ok {b : Bool} {s s' : S} {a : Unit} (h : ubUnless b s = .ok a s') : s = s' ∧ b = true := by
  unfold ubUnless at h
  split at h <;> cases h
  exact ⟨rfl, by assumption⟩

theorem failIf_ok {b : Bool} {s s' : S} {a : Unit} (h : failIf b s = .ok a s') : s = s' ∧ b = false := by
  unfold failIf at h
  split at h <;> cases h
  next h => exact ⟨rfl, Bool.eq_false_iff.mpr h⟩

theorem Lay.congr {s s' : S} {E : Env} {r : Nat} (h : Lay s E r) (h3 : s'.scopes = s.scopes) (h5 : s'.vars = s.vars) : Lay s' E r :=
  ⟨h.len, by rw [h5]; exact h.recs, by rw [h3]; exact h.top, by rw [h3, h5]; exact h.frames⟩

theorem Inv.ne {s : S} (h : Inv s) : env s.log ≠ [] := h.lay.frames.ne

theorem Inv.pos {s : S} (h : Inv s) : 0 < s.scopeCount := by
  rw [h.cnt]
  exact List.length_pos_iff.mpr h.ne

theorem headMem {f : Frame} {E : Env} {b : Bind} (h : b ∈ f) : b ∈ (f :: E).flatten := by
  rw [List.flatten_cons, List.mem_append]
  exact .inl h

theorem mem_addHead1 {x : Int} {v : Nat} : ∀ {E : Env} {b : Bind}, b ∈ (addHead [(x, v)] E).flatten → b = (x, v) ∨ b ∈ E.flatten
  | [], _, h => .inr h
  | f :: fs, b, h => by
    simp only [addHead, List.flatten_cons, List.cons_append, List.nil_append, List.mem_cons] at h ⊢
    exact h

theorem resolve_addHead1 {x : Int} {v : Nat} {y : Int} : ∀ {E : Env}, E ≠ [] → resolve (addHead [(x, v)] E) y = if x = y then some v else resolve E y
  | f :: fs, _ => by
    simp only [addHead, resolve, List.flatten_cons, List.cons_append, List.nil_append, List.find?_cons]
    by_cases h : x = y
    · subst h; simp
    · simp [h]

theorem inv_decl {s s' : S} {x : Int} {k v : Nat} (h : Inv s) (hk : k = s.scopeCount - 1) (hv : v = s.scopes.get k) (hlt : v < varDeclMax)
    (h0 : 0 ≤ x ∧ x < idMax) (hg : x ∉ here (env s.log)) (e1 : s'.scopes = s.scopes.set k (v + 1)) (e2 : s'.scopeCount = s.scopeCount)
    (e3 : s'.lookup = s.lookup.set x.toNat (some v)) (e4 : s'.log = .decl x v :: s.log) (e5 : (s'.vars.get v).id = x)
    (e6 : (s'.vars.get v).prev = s.lookup.get x.toNat) (e7 : ∀ i, i ≠ v → i < 512 → s'.vars.get i = s.vars.get i) : Inv s' := by
  have hp := h.pos
  have hc := h.cnt
  have hl := h.lay.len
  have hk1 : k + 1 = (env s.log).length := by omega
  have hk2 : k < 2 ^ 4 := by simp only [scopeMax] at hl; omega
  have hx : x.toNat < idMax := by omega
  have hxx : ((x.toNat : Nat) : Int) = x := by omega
  have hsk : s'.scopes.get k = v + 1 := by rw [e1, Tab.get_set_self]
  have hlen : (env s'.log).length = (env s.log).length := by rw [e4]; exact length_addHead _ _
  refine ⟨⟨by rw [hlen]; exact hl, ?_, ?_, ?_⟩, by rw [e2, hlen, hc], ?_, ?_, by rw [e4]; simp⟩
  · intro b hb
    rw [e4] at hb
    rcases mem_addHead1 hb with rfl | hb
    · exact ⟨e5, hlt, h0.2⟩
    · have h1 := h.lay.recs b hb
      have h2 := h.lay.frames.lt b hb
      have h3 : (env s.log).length - 1 = k := by omega
      rw [h3, ← hv] at h2
      rw [e7 b.2 (by omega) (by simp only [varDeclMax] at hlt; omega)]
      exact h1
  · rw [hlen, ← hk1, Nat.add_sub_cancel, hsk]
    omega
  · have hr : room s'.log = room s.log := by rw [e4]; rfl
    have he : env s'.log = addHead [(x, v)] (env s.log) := by rw [e4]; rfl
    rw [hr, he]
    refine h.lay.frames.decl hk1 hv h0.1 hsk (fun j hj => ?_) (fun i hi => ?_) hg ?_
    · rw [e1, Tab.get_set_ne _ _ hk2 (by omega) (by omega)]
    · simp only [varDeclMax] at hlt
      simp only [e7 i (by omega) (by omega), and_self]
    · rw [e6, h.look _ hx, hxx]
  · intro y hy
    have he : env s'.log = addHead [(x, v)] (env s.log) := by rw [e4]; rfl
    rw [he, resolve_addHead1 h.ne, e3, Tab.get_set _ _ (by simp only [idMax] at hx; omega) (by simp only [idMax] at hy; omega)]
    by_cases hxy : x = y
    · rw [if_pos hxy, if_pos (by omega)]
    · rw [if_neg hxy, if_neg (by omega)]
      exact h.look y hy
  · rw [e4]; exact h.uses

theorem ext_decl {s s' : S} {x : Int} {v : Nat} (e4 : s'.log = .decl x v :: s.log) : Ext (env s.log) (env s'.log) :=
  ⟨[(x, v)], [], by rw [e4, addLast_nil]; rfl, by simp⟩

theorem k_addVarDecl : ∀ (id : Int), Keep (addVarDecl id) := by
  intro id s a s' h
  unfold addVarDecl at h
  obtain ⟨t, s1, e, h⟩ := bind_eq_ok.mp h
  cases e
  obtain ⟨_, s1, e, h⟩ := bind_eq_ok.mp h
  obtain ⟨rfl, hf⟩ := failIf_ok e
  obtain ⟨_, s1, e, h⟩ := bind_eq_ok.mp h
  obtain ⟨rfl, hu⟩ := ub_ok e
  dsimp only at h
  split at h
  · cases h; exact pre.refl _
  · obtain ⟨v, s1, e, h⟩ := bind_eq_ok.mp h
    unfold addVarDeclScope at e
    obtain ⟨t, s2, e', e⟩ := bind_eq_ok.mp e
    cases e'
    obtain ⟨_, s2, e', e⟩ := bind_eq_ok.mp e
    obtain ⟨rfl, hu'⟩ := ub_ok e'
    cases e
    cases h
    simp only [decide_eq_true_eq, decide_eq_false_iff_not, Nat.not_le] at hf hu hu'
    refine ⟨⟨[.decl id (s.scopes.get (s.scopeCount - 1))], rfl⟩, fun hg hi => ⟨?_, ext_decl rfl⟩⟩
    refine inv_decl hi rfl rfl hu' hu hg.2 rfl rfl rfl rfl ?_ ?_ ?_
    · simp only [Tab.get_set_self]
    · simp only [Tab.get_set_self]
    · intro i hi1 hi2
      have : s.scopes.get (s.scopeCount - 1) < 2 ^ 9 := by simp only [varDeclMax] at hu'; omega
      simp only [Tab.get_set_ne _ _ this hi2 (Ne.symm hi1)]

/-! ## Late declarations -/

theorem lay_late {s s' : S} {E : Env} {r v : Nat} {x : Int} (h : Lay s E r) (hv : v = s.scopes.get 0) (hlt : v < varDeclMax)
    (hx : x < idMax) (hr : E.length = 1 ∨ 0 < r) (hu : x < 0 ∨ ∀ b ∈ E.flatten, b.1 ≠ x) (e1 : s'.scopes = s.scopes.set 0 (v + 1))
    (e5 : (s'.vars.get v).id = x) (e7 : ∀ i, i ≠ v → i < 512 → s'.vars.get i = s.vars.get i) : Lay s' (addLast [(x, v)] E) (r - 1) := by
  have hl := h.len
  simp only [scopeMax] at hl
  have hne := h.frames.ne
  have hs' : ∀ j, j ≠ 0 → j < 16 → s'.scopes.get j = s.scopes.get j := fun j h1 h2 => by
    rw [e1, Tab.get_set_ne _ _ (by decide) (by omega) (by omega)]
  have hs0 : s'.scopes.get 0 = v + 1 := by rw [e1, Tab.get_set_self]
  have htop := h.top
  simp only [varDeclMax] at htop hlt
  refine ⟨by rw [length_addLast]; exact hl, ?_, ?_, ?_⟩
  · intro b hb
    rcases (mem_addLast hne b).mp hb with hb | hb
    · simp only [List.mem_singleton] at hb
      subst hb
      exact ⟨e5, hlt, hx⟩
    · have h1 := h.recs b hb
      have hbv : b.2 ≠ v := by
        intro he
        have hb2 := hb
        match E, h, hr, hb with
        | [f], h, hr, hb =>
          have := h.frames b (by simpa using hb)
          omega
        | f :: g :: fs, h, hr, hb =>
          have hr : 0 < r := by simpa using hr
          have key : ∀ E : Env, Frames s.scopes.get (fun i => (s.vars.get i).id) (fun i => (s.vars.get i).prev) r E → 2 ≤ E.length →
              ∀ b ∈ E.flatten, b.2 ≠ s.scopes.get 0 := by
            intro E
            induction E with
            | nil => intro h; exact absurd h id
            | cons f E ih =>
              intro hF _ b hb
              match E, ih, hF, hb with
              | [g], ih, hF, hb =>
                rw [List.flatten_cons, List.mem_append] at hb
                rcases hb with hb | hb
                · have := (hF.2.1 b hb).2.1
                  simp at this
                  omega
                · have := hF.2.2.2 b (by simpa using hb)
                  omega
              | g :: k :: fs, ih, hF, hb =>
                rw [List.flatten_cons, List.mem_append] at hb
                rcases hb with hb | hb
                · have h8 := (hF.2.1 b hb).2.1
                  have h9 := hF.2.2.2.room (by simp)
                  simp only [List.length_cons, Nat.add_sub_cancel] at h8 h9
                  omega
                · exact ih hF.2.2.2 (by simp) b hb
          exact key _ h.frames (by simp) b hb (by omega)
      rw [e7 b.2 hbv (by have := h1.2.1; simp only [varDeclMax] at this; omega)]
      exact h1
  · rw [length_addLast]
    by_cases hz : E.length - 1 = 0
    · rw [hz, hs0]; simp only [varDeclMax]; omega
    · rw [hs' _ hz (by omega)]; simp only [varDeclMax]; exact htop
  · refine Frames.late hv hs0 hs' (fun i h1 h2 => ?_) h.frames hr hu hl htop
    simp only [e7 i h1 (by omega), and_self]

theorem addLate_ok {s s' : S} {x : Int} {v : Nat} (h : addLateGlobalVar x s = .ok v s') :
    v = s.scopes.get 0 ∧ v < varDeclMax ∧ s'.scopes = s.scopes.set 0 (v + 1) ∧ (s'.vars.get v).id = x ∧
    (∀ i, i ≠ v → i < 512 → s'.vars.get i = s.vars.get i) ∧ s'.log = .late x v :: s.log ∧ s'.lookup = s.lookup ∧
    s'.scopeCount = s.scopeCount := by
  unfold addLateGlobalVar at h
  obtain ⟨t, s1, e, h⟩ := bind_eq_ok.mp h
  cases e
  obtain ⟨_, s1, e, h⟩ := bind_eq_ok.mp h
  cases e
  obtain ⟨_, s1, e, h⟩ := bind_eq_ok.mp h
  obtain ⟨rfl, hf⟩ := failIf_ok e
  obtain ⟨w, s1, e, h⟩ := bind_eq_ok.mp h
  unfold addVarDeclScope at e
  obtain ⟨t, s2, e', e⟩ := bind_eq_ok.mp e
  cases e'
  obtain ⟨_, s2, e', e⟩ := bind_eq_ok.mp e
  obtain ⟨rfl, hu'⟩ := ub_ok e'
  cases e
  cases h
  simp only [decide_eq_true_eq] at hu'
  refine ⟨rfl, hu', rfl, ?_, ?_, rfl, rfl, rfl⟩
  · simp only [Tab.get_set_self]
  · intro i h1 h2
    have : s.scopes.get 0 < 2 ^ 9 := by simp only [varDeclMax] at hu'; omega
    exact Tab.get_set_ne _ _ this h2 (Ne.symm h1)

/-- A late declaration of a name that has no declaration. -/
theorem inv_late {s s' : S} {v : Nat} {x : Int} (h : Inv s) (hg : Good (.late x v :: s.log)) (hv : v = s.scopes.get 0)
    (hlt : v < varDeclMax) (hx : 0 ≤ x ∧ x < idMax) (hn : s.lookup.get x.toNat = none) (e1 : s'.scopes = s.scopes.set 0 (v + 1))
    (e2 : s'.scopeCount = s.scopeCount) (e3 : s'.lookup = s.lookup.set x.toNat (some v)) (e4 : s'.log = .late x v :: s.log)
    (e5 : (s'.vars.get v).id = x) (e7 : ∀ i, i ≠ v → i < 512 → s'.vars.get i = s.vars.get i) :
    Inv s' ∧ Ext (env s.log) (env s'.log) := by
  have hx1 : x.toNat < idMax := by omega
  have hxx : ((x.toNat : Nat) : Int) = x := by omega
  have hn' : resolve (env s.log) x = none := by rw [← hn, h.look _ hx1, hxx]
  have he : env s'.log = addLast [(x, v)] (env s.log) := by rw [e4]; rfl
  have hr : room s'.log = room s.log - 1 := by rw [e4]; rfl
  refine ⟨⟨?_, ?_, ?_, ?_, by rw [e4]; simp⟩, ⟨[], [(x, v)], by rw [he, addHead_nil], by simpa using .inr hn'⟩⟩
  · rw [he, hr]
    exact lay_late h.lay hv hlt hx.2 hg.2 (.inr (resolve_none.mp hn')) e1 e5 e7
  · rw [e2, he, length_addLast, h.cnt]
  · intro y hy
    rw [e3, he, Tab.get_set _ _ (by simp only [idMax] at hx1; omega) (by simp only [idMax] at hy; omega)]
    by_cases hxy : x = y
    · rw [if_pos (by omega)]
      subst hxy
      have : ∀ {E : Env}, E ≠ [] → resolve E y = none → resolve (addLast [((y : Int), v)] E) y = some v := by
        intro E
        induction E with
        | nil => intro h; exact absurd rfl h
        | cons f E ih =>
          intro _ hr
          match E, ih, hr with
          | [], _, _ => simp [addLast, resolve]
          | g :: fs, ih, hr =>
            have hnot : ¬ (y : Int) ∈ f.map (·.1) := by
              intro hm
              obtain ⟨b, hb, hbe⟩ := List.mem_map.mp hm
              exact resolve_none.mp hr b (headMem hb) hbe
            rw [resolve_cons, if_neg hnot] at hr
            rw [addLast, resolve_cons, if_neg hnot]
            exact ih (by simp) hr
      exact (this h.ne hn').symm
    · rw [if_neg (by omega), resolve_addLast (by simpa using hxy)]
      exact h.look y hy
  · rw [e4]; exact h.uses

theorem inv_use {s s' : S} {x : Int} (h : Inv s) (hx : 0 ≤ x ∧ x < idMax) (h1 : s'.log = .use x (s.lookup.get x.toNat) :: s.log)
    (h2 : s'.lookup = s.lookup) (h3 : s'.scopes = s.scopes) (h4 : s'.scopeCount = s.scopeCount) (h5 : s'.vars = s.vars) : Inv s' := by
  have he : env s'.log = env s.log := by rw [h1]; rfl
  have hr : room s'.log = room s.log := by rw [h1]; rfl
  refine ⟨⟨?_, ?_, ?_, ?_⟩, ?_, ?_, ?_, by rw [h1]; simp⟩
  · rw [he]; exact h.lay.len
  · rw [he, h5]; exact h.lay.recs
  · rw [he, h3]; exact h.lay.top
  · rw [he, hr, h3, h5]; exact h.lay.frames
  · rw [he, h4]; exact h.cnt
  · rw [he, h2]; exact h.look
  · rw [h1]
    have hl : s.lookup.get x.toNat = resolve (env s.log) x := by
      rw [h.look _ (by omega)]
      congr 1
      omega
    refine ⟨h.uses, hl, fun b hb hv => ?_⟩
    rw [hl] at hv
    have h6 := (h.lay.recs _ (resolve_mem hv.symm)).1
    rw [← (h.lay.recs b hb).1, h6]

theorem r_use {s s' : S} {x : Int} (hx : 0 ≤ x ∧ x < idMax) (h1 : s'.log = .use x (s.lookup.get x.toNat) :: s.log)
    (h2 : s'.lookup = s.lookup) (h3 : s'.scopes = s.scopes) (h4 : s'.scopeCount = s.scopeCount) (h5 : s'.vars = s.vars) : R s s' :=
  ⟨⟨[.use x (s.lookup.get x.toNat)], h1⟩, fun _ h => ⟨inv_use h hx h1 h2 h3 h4 h5, by
    have he : env s'.log = env s.log := by rw [h1]; rfl
    rw [he]; exact Ext.refl _⟩⟩

theorem k_handlePrimaryId : Keep handlePrimaryId := by
  intro s a s' h
  unfold handlePrimaryId at h
  obtain ⟨t, s1, e, h⟩ := bind_eq_ok.mp h
  cases e
  obtain ⟨_, s1, e, h⟩ := bind_eq_ok.mp h
  obtain ⟨rfl, hu⟩ := ub_ok e
  simp only [decide_eq_true_eq] at hu
  obtain ⟨_, t, e, h⟩ := bind_eq_ok.mp h
  have r0 : R s t := by cases e; exact r_use hu rfl rfl rfl rfl rfl
  have hl : t.lookup = s.lookup := by cases e; rfl
  have hv' : t.val = s.val := by cases e; rfl
  clear e
  cases hn : s.lookup.get s.val.toNat with
  | none =>
    rw [hn] at h
    obtain ⟨_, s1, e, h⟩ := bind_eq_ok.mp h
    cases e
    obtain ⟨_, s1, e, h⟩ := bind_eq_ok.mp h
    cases e
    split at h
    · cases h
      exact pre.trans _ _ _ r0 (same0 rfl rfl rfl rfl rfl)
    · obtain ⟨_, s1, e, h⟩ := bind_eq_ok.mp h
      cases e
      obtain ⟨v, s1, e, h⟩ := bind_eq_ok.mp h
      cases h
      obtain ⟨hv, hlt, e1, e5, e7, e4, e3, e2⟩ := addLate_ok e
      refine pre.trans _ _ _ r0 ⟨⟨[.late s.val v], e4⟩, fun hg hi => ?_⟩
      rw [e4] at hg
      exact inv_late hi hg hv hlt hu (by rw [hl]; exact hn) e1 e2 (by rw [e3, hv, ← hv']) e4 e5 e7
  | some v =>
    rw [hn] at h
    dsimp only at h
    repeat' split at h
    all_goals
      cases h
      exact pre.trans _ _ _ r0 (same0 rfl rfl rfl rfl rfl)

/-! ## Beginning and end of a scope -/

theorem pushScope_ok {s s' : S} {a : Unit} (h : pushScope s = .ok a s') :
    s.scopeCount ≠ scopeMax ∧ s' = { s with
      scopes := s.scopes.set s.scopeCount (s.scopes.get (s.scopeCount - 1)), scopeCount := s.scopeCount + 1
      ignoreRedef := s.ignoreRedef + 1, log := .push :: s.log } := by
  unfold pushScope at h
  obtain ⟨t, s1, e, h⟩ := bind_eq_ok.mp h
  cases e
  obtain ⟨_, s1, e, h⟩ := bind_eq_ok.mp h
  obtain ⟨rfl, hu⟩ := failIf_ok e
  cases h
  exact ⟨by simpa using hu, rfl⟩

theorem inv_push {s s' : S} {a : Unit} (h : Inv s) (e : pushScope s = .ok a s') : Inv s' := by
  obtain ⟨hne, rfl⟩ := pushScope_ok e
  have hc := h.cnt
  have hl := h.lay.len
  have hp := h.pos
  simp only [scopeMax] at hl hne
  refine ⟨⟨?_, ?_, ?_, ?_⟩, ?_, ?_, h.uses, by simp⟩
  · simp only [env, scopeStep, List.length_cons, scopeMax]; omega
  · exact h.lay.recs
  · simp only [env, scopeStep, List.length_cons, Nat.add_sub_cancel]
    rw [← hc, Tab.get_set_self, hc]
    exact h.lay.top
  · refine h.lay.frames.push (k := s.scopeCount - 1) (by omega) ?_ (fun j hj => ?_) ?_
    · simp only
      rw [Nat.sub_add_cancel hp, Tab.get_set_self]
    · simp only
      rw [Tab.get_set_ne _ _ (by omega) (by omega) (by omega)]
    · split
      · next h1 => simp [room, h1, h.head]
      · next h1 => simp [room, h1]
  · simp only [env, scopeStep, List.length_cons]; omega
  · exact h.look

/-- The tables while `PopScope` runs through the records of the scope, of which those below `i` are done. -/
structure Mid (s : S) (i : Nat) : Prop where
  lay : Lay s (env s.log) (room s.log)
  cnt : s.scopeCount + 1 = (env s.log).length
  two : 0 < s.scopeCount
  lo : s.scopes.get (s.scopeCount - 1) ≤ i
  done : ∀ id : Nat, id < idMax → (∃ b ∈ (env s.log).headD [], b.1 = id ∧ b.2 < i) → s.lookup.get id = resolve (env s.log).tail id
  todo : ∀ id : Nat, id < idMax → (¬ ∃ b ∈ (env s.log).headD [], b.1 = id ∧ b.2 < i) → s.lookup.get id = resolve (env s.log) id
  uses : Uses s.log

/-- The end of a scope keeps the other scopes; the scope of the file may grow by declarations without names. -/
def Anon (E E' : Env) : Prop := ∃ l, E' = addLast l E ∧ ∀ b ∈ l, b.1 < 0

theorem headD_addLast (l : Frame) {E : Env} (h : 2 ≤ E.length) : (addLast l E).headD [] = E.headD [] ∧ (addLast l E).tail = addLast l E.tail := by
  match E, h with
  | f :: g :: fs, _ => exact ⟨rfl, rfl⟩

theorem popVar_mid {s s' : S} {a : Unit} {i : Nat} (e : popVar i s = .ok a s') :
    (∃ l, s'.log = l ++ s.log) ∧ (Good s'.log → Mid s i → i < s.scopes.get s.scopeCount →
      Mid s' (i + 1) ∧ Anon (env s.log) (env s'.log) ∧ s'.scopeCount = s.scopeCount ∧
      s'.scopes.get s.scopeCount = s.scopes.get s.scopeCount) := by
  unfold popVar at e
  obtain ⟨t, s1, e1, e⟩ := bind_eq_ok.mp e
  cases e1
  dsimp only at e
  -- the step that restores the name
  have main : ∀ (t : S), Mid t i → i < t.scopes.get t.scopeCount → 0 ≤ (t.vars.get i).id →
      Mid { t with lookup := t.lookup.set (t.vars.get i).id.toNat (t.vars.get i).prev } (i + 1) := by
    intro t ht hit h0
    have hc := ht.cnt
    have h2 := ht.two
    have hF := ht.lay.frames
    have hrecs := ht.lay.recs
    have hdone := ht.done
    have htodo := ht.todo
    suffices h : ∀ y : Nat, y < idMax → ((∃ b ∈ (env t.log).headD [], b.1 = (y : Int) ∧ b.2 < i + 1) →
        (t.lookup.set (t.vars.get i).id.toNat (t.vars.get i).prev).get y = resolve (env t.log).tail y) ∧
        ((¬ ∃ b ∈ (env t.log).headD [], b.1 = (y : Int) ∧ b.2 < i + 1) →
        (t.lookup.set (t.vars.get i).id.toNat (t.vars.get i).prev).get y = resolve (env t.log) y) from
      ⟨ht.lay.congr rfl rfl, hc, h2, Nat.le_succ_of_le ht.lo, fun y hy => (h y hy).1, fun y hy => (h y hy).2, ht.uses⟩
    intro y hy
    revert hF hrecs hdone htodo hc
    cases hE : env t.log with
    | nil => intro h; simp at h
    | cons f E =>
      cases E with
      | nil => intro hc; simp at hc; omega
      | cons g fs =>
        intro hc hF hrecs hdone htodo
        simp only [List.length_cons, Nat.add_right_cancel_iff] at hc
        have hlo := ht.lo
        rw [hc] at hit hlo
        rw [Nat.add_sub_cancel] at hlo
        have hmem : ∃ b ∈ f, b.2 = i := by
          rcases hF.2.2.1 i hlo hit with h | h
          · exact absurd h (by simp only; omega)
          · exact h
        obtain ⟨b, hb, hbi⟩ := hmem
        have hid := (hrecs b (headMem hb)).1
        have hidm := (hrecs b (headMem hb)).2.2
        have hpv := (hF.2.1 b hb).2.2.2
        simp only at hpv
        rw [hbi] at hid hpv
        have hn : (t.vars.get i).id.toNat < 2 ^ 10 := by simp only [idMax] at hidm; omega
        rw [Tab.get_set _ _ hn (by simp only [idMax] at hy; omega)]
        simp only [List.headD_cons, List.tail_cons] at hdone htodo ⊢
        by_cases hxy : (t.vars.get i).id.toNat = y
        · refine ⟨fun _ => ?_, fun hno => absurd ⟨b, hb, by omega, by omega⟩ hno⟩
          rw [if_pos hxy, hpv]
          congr 1
          omega
        · rw [if_neg hxy]
          have : (∃ b ∈ f, b.1 = (y : Int) ∧ b.2 < i) ↔ (∃ b ∈ f, b.1 = (y : Int) ∧ b.2 < i + 1) := by
            constructor
            · rintro ⟨c, h3, h4, h5⟩
              exact ⟨c, h3, h4, by omega⟩
            · rintro ⟨c, h3, h4, h5⟩
              refine ⟨c, h3, h4, ?_⟩
              by_cases hci : c.2 = i
              · have := (hrecs c (headMem h3)).1
                rw [hci] at this
                omega
              · omega
          rw [← this]
          exact ⟨hdone y hy, htodo y hy⟩
  split at e
  · next hneg =>
    cases e
    refine ⟨⟨[], rfl⟩, fun _ hm hi => ⟨?_, ⟨[], (addLast_nil _).symm, by simp⟩, rfl, rfl⟩⟩
    suffices h : ∀ y : Nat, (∃ b ∈ (env s.log).headD [], b.1 = (y : Int) ∧ b.2 < i) ↔ (∃ b ∈ (env s.log).headD [], b.1 = (y : Int) ∧ b.2 < i + 1) from ⟨hm.lay, hm.cnt, hm.two, Nat.le_succ_of_le hm.lo,
      fun y hy h' => hm.done y hy ((h y).mpr h'), fun y hy h' => hm.todo y hy (fun h'' => h' ((h y).mp h'')), hm.uses⟩
    intro y
    constructor
    · rintro ⟨c, h3, h4, h5⟩
      exact ⟨c, h3, h4, by omega⟩
    · rintro ⟨c, h3, h4, h5⟩
      refine ⟨c, h3, h4, ?_⟩
      by_cases hci : c.2 = i
      · have hmem : c ∈ (env s.log).flatten := by
          revert h3
          cases env s.log with
          | nil => simp
          | cons f E => exact fun h3 => headMem h3
        have := (hm.lay.recs c hmem).1
        rw [hci] at this
        omega
      · omega
  · next hpos =>
    split at e
    · obtain ⟨_, s2, e2, e⟩ := bind_eq_ok.mp e
      cases e2
      obtain ⟨_, s2, e2, e⟩ := bind_eq_ok.mp e
      cases e2
      obtain ⟨w, s2, e2, e⟩ := bind_eq_ok.mp e
      obtain ⟨hv, hlt, q1, q5, q7, q4, q3, q2⟩ := addLate_ok e2
      simp only at q1 q7 q4 q3 q2 hv
      obtain ⟨_, s3, e3, e⟩ := bind_eq_ok.mp e
      cases e3
      obtain ⟨t, s3, e3, e⟩ := bind_eq_ok.mp e
      cases e3
      obtain ⟨_, s3, e3, e⟩ := bind_eq_ok.mp e
      obtain ⟨rfl, hu⟩ := ub_ok e3
      simp only [decide_eq_true_eq] at hu
      cases e
      refine ⟨⟨[.late (-2) w], q4⟩, fun hg hm hi => ?_⟩
      simp only at hg
      rw [q4] at hg
      have hg2 := hg.2
      have hcn := hm.cnt
      have htw := hm.two
      have hE2 : 2 ≤ (env s.log).length := by omega
      have hroom : 0 < room s.log := by rcases hg2 with h | h; omega; exact h
      have hl := hm.lay.len
      simp only [scopeMax] at hl
      have hlay : Lay s2 (addLast [(-2, w)] (env s.log)) (room s.log - 1) :=
        lay_late (s := s) hm.lay hv hlt (by decide) hg2 (.inl (by decide)) q1 q5 q7
      have he : env s2.log = addLast [(-2, w)] (env s.log) := by rw [q4]; rfl
      have hro : room s2.log = room s.log - 1 := by rw [q4]; rfl
      have hsc : ∀ j, j ≠ 0 → j < 16 → s2.scopes.get j = s.scopes.get j := fun j h1 h2 => by
        rw [q1, Tab.get_set_ne _ _ (by decide) (by omega) (by omega)]
      -- the record `i` belongs to the scope
      have hlo : s2.scopes.get (s2.scopeCount - 1) ≤ i := by
        rw [q2]
        by_cases hz : s.scopeCount - 1 = 0
        · rw [hz, q1, Tab.get_set_self]
          have hlo := hm.lo
          have hF := hm.lay.frames
          revert hF
          have hlen : (env s.log).length = 2 := by omega
          match hE : env s.log, hlen with
          | [f, g], _ =>
            intro hF
            rw [hz] at hlo
            have h1 : s.scopeCount = 1 := by omega
            rw [h1] at hi
            rcases hF.2.2.1 i (by simpa using hlo) (by simpa using hi) with h | ⟨b, hb, hbi⟩
            · exact absurd h hpos
            · have := (hF.2.1 b hb).2.1
              simp at this
              omega
        · rw [hsc _ hz (by omega)]; exact hm.lo
      have hmid : Mid s2 i := by
        refine ⟨by rw [he, hro]; exact hlay, by rw [q2, he, length_addLast]; exact hcn, by rw [q2]; exact htw, hlo, ?_, ?_, by rw [q4]; exact hm.uses⟩
        · intro y hy h
          rw [he, (headD_addLast _ hE2).1] at h
          rw [q3, hm.done y hy h, he, (headD_addLast _ hE2).2, resolve_addLast]
          simp
        · intro y hy h
          rw [he, (headD_addLast _ hE2).1] at h
          rw [q3, hm.todo y hy h, he, resolve_addLast]
          simp
      have hi2 : i < s2.scopes.get s2.scopeCount := by rw [q2, hsc _ (by omega) (by omega)]; exact hi
      -- the change of `Ref`
      have hp1 := fun j => Tab.proj_set VarDecl.id s2.vars w { s2.vars.get w with ref := (s.vars.get i).ref } rfl j
      have hp2 := fun j => Tab.proj_set VarDecl.prev s2.vars w { s2.vars.get w with ref := (s.vars.get i).ref } rfl j
      have hmid' : Mid { s2 with vars := s2.vars.set w { s2.vars.get w with ref := (s.vars.get i).ref } } i := by
        refine ⟨⟨hmid.lay.len, ?_, hmid.lay.top, ?_⟩, hmid.cnt, hmid.two, hmid.lo, hmid.done, hmid.todo, hmid.uses⟩
        · intro b hb
          rw [hp1]
          exact hmid.lay.recs b hb
        · simp only [hp1, hp2]
          exact hmid.lay.frames
      refine ⟨main _ hmid' hi2 hu, ⟨[(-2, w)], he, by simp⟩, q2, ?_⟩
      exact hsc _ (by omega) (by omega)
    · obtain ⟨t, s2, e2, e⟩ := bind_eq_ok.mp e
      cases e2
      obtain ⟨_, s2, e2, e⟩ := bind_eq_ok.mp e
      obtain ⟨rfl, hu⟩ := ub_ok e2
      simp only [decide_eq_true_eq] at hu
      cases e
      refine ⟨⟨[], rfl⟩, fun _ hm hi => ⟨main s hm hi hu, ⟨[], (addLast_nil _).symm, by simp⟩, rfl, rfl⟩⟩

theorem popVars_mid : ∀ (n : Nat) {s s' : S} {a : Unit} {i : Nat}, popVars n i s = .ok a s' →
    (∃ l, s'.log = l ++ s.log) ∧ (Good s'.log → Mid s i → i + n = s.scopes.get s.scopeCount ∨ n = 0 →
      Mid s' (i + n) ∧ Anon (env s.log) (env s'.log) ∧ s'.scopeCount = s.scopeCount ∧
      s'.scopes.get s.scopeCount = s.scopes.get s.scopeCount)
  | 0, s, s', a, i, e => by
    cases e
    exact ⟨⟨[], rfl⟩, fun _ hm _ => ⟨hm, ⟨[], (addLast_nil _).symm, by simp⟩, rfl, rfl⟩⟩
  | n + 1, s, s', a, i, e => by
    unfold popVars at e
    obtain ⟨_, s1, e1, e⟩ := bind_eq_ok.mp e
    obtain ⟨⟨l1, q1⟩, p1⟩ := popVar_mid e1
    obtain ⟨⟨l2, q2⟩, p2⟩ := popVars_mid n e
    refine ⟨⟨l2 ++ l1, by rw [q2, q1, List.append_assoc]⟩, fun hg hm hi => ?_⟩
    have hi : i + (n + 1) = s.scopes.get s.scopeCount := by simpa using hi
    obtain ⟨m1, ⟨x1, a1, b1⟩, c1, d1⟩ := p1 (good_suffix l2 (q2 ▸ hg)) hm (by omega)
    obtain ⟨m2, ⟨x2, a2, b2⟩, c2, d2⟩ := p2 hg m1 (.inl (by rw [c1, d1]; omega))
    refine ⟨by rw [show i + (n + 1) = i + 1 + n by omega]; exact m2, ⟨x2 ++ x1, by rw [a2, a1, addLast_addLast], ?_⟩, by rw [c2, c1], ?_⟩
    · intro b hb
      rcases List.mem_append.mp hb with hb | hb
      · exact b2 b hb
      · exact b1 b hb
    · rw [c1] at d2
      rw [d2, d1]

/-- `PopScope` restores the names. -/
theorem popScope_spec {s s' : S} {a : Unit} (e : popScope s = .ok a s') :
    (∃ l, s'.log = l ++ s.log) ∧ (Good s'.log → Inv s → Inv s' ∧ 2 ≤ (env s.log).length ∧
      ∃ E, Anon (env s.log) E ∧ env s'.log = E.tail) := by
  unfold popScope at e
  obtain ⟨t, s1, e1, e⟩ := bind_eq_ok.mp e
  cases e1
  obtain ⟨_, s1, e1, e⟩ := bind_eq_ok.mp e
  obtain ⟨rfl, hf⟩ := failIf_ok e1
  obtain ⟨_, s1, e1, e⟩ := bind_eq_ok.mp e
  cases e1
  obtain ⟨t, s1, e1, e⟩ := bind_eq_ok.mp e
  cases e1
  dsimp only at e
  obtain ⟨_, s1, e1, e⟩ := bind_eq_ok.mp e
  cases e
  obtain ⟨⟨l, q⟩, p⟩ := popVars_mid _ e1
  refine ⟨⟨.pop :: l, by show Ev.pop :: s1.log = _; rw [q]; rfl⟩, fun hg hi => ?_⟩
  have hc := hi.cnt
  have hp := hi.pos
  have hf : s.scopeCount ≠ 1 := by simpa using hf
  have hE2 : 2 ≤ (env s.log).length := by omega
  obtain ⟨f, g, fs, hE⟩ : ∃ f g fs, env s.log = f :: g :: fs := by
    match env s.log, hE2 with
    | f :: g :: fs, _ => exact ⟨f, g, fs, rfl⟩
  have hF := hi.lay.frames
  rw [hE] at hF hc
  simp only [List.length_cons] at hc
  have hsc : s.scopeCount - 1 = fs.length + 1 := by omega
  have hsc2 : s.scopeCount - 1 - 1 = fs.length := by omega
  have hle := hF.1
  have hm : Mid { s with scopeCount := s.scopeCount - 1, ignoreRedef := s.ignoreRedef - 1 } (s.scopes.get (s.scopeCount - 1 - 1)) := by
    refine ⟨hi.lay.congr rfl rfl, by show s.scopeCount - 1 + 1 = _; rw [hE]; simp only [List.length_cons]; omega, by show 0 < s.scopeCount - 1; omega, Nat.le_refl _, ?_, fun y hy _ => hi.look y hy, hi.uses⟩
    rintro y hy ⟨b, hb, _, hb2⟩
    exfalso
    simp only [hE, List.headD_cons] at hb
    have := (hF.2.1 b hb).2.1
    rw [hsc2] at hb2
    omega
  obtain ⟨m, ⟨x, a1, b1⟩, c1, d1⟩ := p hg hm (by simp only [hsc, Nat.add_sub_cancel]; omega)
  simp only at a1 c1 d1
  have hend : s.scopes.get (s.scopeCount - 1 - 1) + (s.scopes.get (s.scopeCount - 1) - s.scopes.get (s.scopeCount - 1 - 1)) = s.scopes.get (s.scopeCount - 1) := by
    rw [hsc, Nat.add_sub_cancel]; omega
  simp only [hend] at m
  rw [hE, addLast] at a1
  have hne : addLast x (g :: fs) ≠ [] := addLast_ne (by simp)
  have hle' : leave (f :: addLast x (g :: fs)) = addLast x (g :: fs) := by
    revert hne
    cases addLast x (g :: fs) with
    | nil => exact fun h => absurd rfl h
    | cons u v => exact fun _ => rfl
  have he : env (.pop :: s1.log) = addLast x (g :: fs) := by
    show leave (env s1.log) = _
    rw [a1, hle']
  have hF1 := m.lay.frames
  rw [a1] at hF1
  have hlen1 : (addLast x (g :: fs)).length = fs.length + 1 := by simp [length_addLast]
  have hF1' : Frames s1.scopes.get (fun i => (s1.vars.get i).id) (fun i => (s1.vars.get i).prev) (room s1.log) (addLast x (g :: fs)) ∧
      s1.scopes.get fs.length ≤ s1.scopes.get (fs.length + 1) ∧ ∀ b ∈ f, b.2 < s1.scopes.get (fs.length + 1) := by
    revert hF1 hlen1
    cases addLast x (g :: fs) with
    | nil => intro _ h; simp at h
    | cons u v =>
      intro hF1 hlen1
      have hv : v.length = fs.length := by simpa using hlen1
      have h1 := hF1.1
      rw [hv] at h1
      refine ⟨hF1.2.2.2, by omega, fun b hb => ?_⟩
      have := (hF1.2.1 b hb).2.2.1
      rwa [hv] at this
  have htop1 := m.lay.top
  rw [a1, List.length_cons, Nat.add_sub_cancel, hlen1] at htop1
  have hlen := hi.lay.len
  rw [hE] at hlen
  simp only [List.length_cons, scopeMax] at hlen
  refine ⟨⟨⟨?_, ?_, ?_, ?_⟩, ?_, ?_, ?_, by simp⟩, hE2, f :: addLast x (g :: fs), ⟨x, by rw [hE]; rfl, b1⟩, he⟩
  · rw [he, hlen1]; simp only [scopeMax]; omega
  · intro b hb
    rw [he] at hb
    exact m.lay.recs b (by rw [a1, List.flatten_cons, List.mem_append]; exact .inr hb)
  · rw [he, hlen1, Nat.add_sub_cancel]
    exact Nat.le_trans hF1'.2.1 htop1
  · rw [he]
    exact hF1'.1
  · show s1.scopeCount = _
    rw [he, hlen1, c1]; omega
  · intro y hy
    rw [he]
    have h1 := m.done y hy
    have h2 := m.todo y hy
    rw [a1] at h1 h2
    simp only [List.headD_cons, List.tail_cons] at h1 h2
    by_cases hno : ∃ b ∈ f, b.1 = (y : Int) ∧ b.2 < s.scopes.get (s.scopeCount - 1)
    · exact h1 hno
    · show s1.lookup.get y = _
      rw [h2 hno]
      rw [resolve_cons, if_neg]
      intro hm
      obtain ⟨b, hb, hbe⟩ := List.mem_map.mp hm
      refine hno ⟨b, hb, hbe, ?_⟩
      have := hF1'.2.2 b hb
      rw [hsc] at d1 ⊢
      rw [← d1]
      exact this
  · exact m.uses

end Props.SccScope
