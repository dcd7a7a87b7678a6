import Verif.Props.ScppFile
/-!
# Beginnings of files

The text up to a place in a section.
-/
namespace Props.ScppOpen
open Scpp Prog Text Props.ScppLex Props.ScppMacro Props.ScppDefine Props.ScppTable Props.ScppUndef Props.ScppRun Props.ScppExpr Props.ScppCond Props.ScppFile

/-- `Upto fs d m k td Δ src act' k' td' Δ' out`: as `Ev`, but `src` ends at a line under `k'` sections, of which those beyond `k` are still open; this line is kept if `act'`. -/
inductive Upto (fs : Fs) : Nat → Mode → Nat → Nat → Table → List PTok → Bool → Nat → Nat → Table → List PTok → Prop
  | nil {d : Nat} {act : Bool} {k td : Nat} {Δ : Table} : Upto fs d (.lines act) k td Δ [] act k td Δ []
  /-- Complete lines and sections. -/
  | seq {d : Nat} {act act' : Bool} {k k' td td1 td' : Nat} {Δ Δ1 Δ' : Table} {src rest o1 o2 : List PTok} (h1 : Ev fs d (.lines act) k td Δ src td1 Δ1 o1)
      (h2 : Upto fs d (.lines act) k td1 Δ1 rest act' k' td' Δ' o2) : Upto fs d (.lines act) k td Δ (src ++ rest) act' k' td' Δ' (o1 ++ o2)
  /-- In the first group of a section. -/
  | sect {d : Nat} {act c act' : Bool} {k k' td td' : Nat} {Δ Δ' : Table} {V : Option (List Byte)} {w : List Byte} {ts body out : List PTok} (hw : w ≠ asc "elif") (hk : k < 16) (hn : td + 9 ≤ 2048)
      (ht : Test Δ td w ts c) (h : Upto fs d (.lines (act && c)) (k + 1) td Δ body act' k' td' Δ' out) : Upto fs d (.lines act) k td Δ (dir V w ++ (ts ++ body)) act' k' td' Δ' out
  /-- In a later group of a section. -/
  | sectMore {d : Nat} {act c act' : Bool} {k k' td td1 td' : Nat} {Δ Δ1 Δ' : Table} {V : Option (List Byte)} {w : List Byte} {ts body more o1 o2 : List PTok} (hw : w ≠ asc "elif") (hk : k < 16)
      (hn : td + 9 ≤ 2048) (ht : Test Δ td w ts c) (h1 : Ev fs d (.lines (act && c)) (k + 1) td Δ body td1 Δ1 o1) (h2 : Upto fs d (.more act c) (k + 1) td1 Δ1 more act' k' td' Δ' o2) :
      Upto fs d (.lines act) k td Δ (dir V w ++ (ts ++ (body ++ more))) act' k' td' Δ' (o1 ++ o2)
  /-- In the group of `#else`. -/
  | els {d : Nat} {act taken act' : Bool} {k k' td td' : Nat} {Δ Δ' : Table} {V W : Option (List Byte)} {body out : List PTok} (hn : td + 9 ≤ 2048)
      (h : Upto fs d (.lines (act && !taken)) k td Δ body act' k' td' Δ' out) : Upto fs d (.more act taken) k td Δ (dir V (asc "else") ++ ((sps W ++ [.nl]) ++ body)) act' k' td' Δ' out
  /-- In the group of `#elif`, after groups that are not kept. -/
  | elif {d : Nat} {c act' : Bool} {k k' td td' : Nat} {Δ Δ' : Table} {V : Option (List Byte)} {ts body out : List PTok} (hn : td + 9 ≤ 2048) (ht : Test Δ td (asc "elif") ts c)
      (h : Upto fs d (.lines c) k td Δ body act' k' td' Δ' out) : Upto fs d (.more true false) k td Δ (dir V (asc "elif") ++ (ts ++ body)) act' k' td' Δ' out
  /-- After the group of such an `#elif`. -/
  | elifMore {d : Nat} {c act' : Bool} {k k' td td1 td' : Nat} {Δ Δ1 Δ' : Table} {V : Option (List Byte)} {ts body more o1 o2 : List PTok} (hn : td + 9 ≤ 2048) (ht : Test Δ td (asc "elif") ts c)
      (h1 : Ev fs d (.lines c) k td Δ body td1 Δ1 o1) (h2 : Upto fs d (.more true c) k td1 Δ1 more act' k' td' Δ' o2) :
      Upto fs d (.more true false) k td Δ (dir V (asc "elif") ++ (ts ++ (body ++ more))) act' k' td' Δ' (o1 ++ o2)
  /-- In the group of an `#elif` whose expression does not matter. -/
  | elifSkip {d : Nat} {act taken act' : Bool} {k k' td td' : Nat} {Δ Δ' : Table} {V : Option (List Byte)} {v : List Byte} {ts body out : List PTok} (hc : act = false ∨ taken = true)
      (hn : td + 9 ≤ 2048) (ht : ∀ t ∈ ts, t ≠ .nl) (hn' : ∀ t ∈ ts, td + t.need ≤ 2048) (h : Upto fs d (.lines false) k td Δ body act' k' td' Δ' out) :
      Upto fs d (.more act taken) k td Δ (dir V (asc "elif") ++ ((.ws v :: (ts ++ [.nl])) ++ body)) act' k' td' Δ' out
  /-- After the group of such an `#elif`. -/
  | elifSkipMore {d : Nat} {act taken act' : Bool} {k k' td td1 td' : Nat} {Δ Δ1 Δ' : Table} {V : Option (List Byte)} {v : List Byte} {ts body more o1 o2 : List PTok} (hc : act = false ∨ taken = true)
      (hn : td + 9 ≤ 2048) (ht : ∀ t ∈ ts, t ≠ .nl) (hn' : ∀ t ∈ ts, td + t.need ≤ 2048) (h1 : Ev fs d (.lines false) k td Δ body td1 Δ1 o1)
      (h2 : Upto fs d (.more act taken) k td1 Δ1 more act' k' td' Δ' o2) :
      Upto fs d (.more act taken) k td Δ (dir V (asc "elif") ++ ((.ws v :: (ts ++ [.nl])) ++ (body ++ more))) act' k' td' Δ' (o1 ++ o2)

variable {fs : Fs}

/-- `#elif` after groups that are not kept. -/
theorem elif_fin {k td ws : Nat} {c act : Bool} {Δ : Table} {V : Option (List Byte)} {ts rest : List PTok} {F : List FileRec} {s : S} {r : List Byte} (hn : td + 9 ≤ 2048) (ht : Test Δ td (asc "elif") ts c)
    (hI : Inv F (.more true false) k td Δ s) (ha : At s (render (dir V (asc "elif") ++ (ts ++ rest)) ++ r)) (hsp : Spelled (dir V (asc "elif") ++ (ts ++ rest)) r)
    (hf : ∀ s', Inv F (.lines c) k td Δ s' → At s' (render rest ++ r) → s'.out = s.out → (∃ cs, s'.cond = (if c then .true else .false) :: cs ∧ cs.length + 1 = k ∧ condActive cs = true) → Fin fs s' ws (condActive s'.cond) P) : Fin fs s ws act P := by
  obtain ⟨h1, h2, h3, c0, cs, h4, h5, h6, h7, h8⟩ := hI
  obtain ⟨a1, p1, p2, p3⟩ := split3 ha hsp
  have hc0 := (h8 rfl).mpr rfl
  subst hc0
  refine dir_done (k := 5) (c := (if c then .true else .false) :: cs) (Δ' := Δ) (by decide) h1 a1 p1 (by omega) (fun s2 g1 g2 g3 g4 _ => ?_) fun s' d => ?_
  · generalize hel : asc "elif" = kw at ht
    cases ht with
    | ifdef => exact absurd hel (by decide)
    | ifndef => exact absurd hel (by decide)
    | expr hk h1 h2 h3 h4' h5 h6 h7 =>
      obtain ⟨s', k1, k2⟩ := elif_run (fs := fs) g1 (g3.cond.trans h4) h1 h2 h3 h4' h5 h6 (fun t htm => by have := h7 t htm; omega) g2 p2
      exact ⟨s', k1, by simpa using k2⟩
  · exact hf s' ⟨d.good, by rw [d.cond]; simp [h5], by rw [d.cond]; cases c <;> rfl, by rw [d.td]; exact h2, d.files.trans h3⟩ d.at_ d.out ⟨cs, d.cond, h5, h6⟩

/-- `#elif` whose expression does not matter. -/
theorem elifSkip_fin {k td ws : Nat} {act taken a : Bool} {Δ : Table} {V : Option (List Byte)} {v : List Byte} {ts rest : List PTok} {F : List FileRec} {s : S} {r : List Byte} (hc : act = false ∨ taken = true)
    (hn : td + 9 ≤ 2048) (ht : ∀ t ∈ ts, t ≠ .nl) (hn' : ∀ t ∈ ts, td + t.need ≤ 2048) (hI : Inv F (.more act taken) k td Δ s)
    (ha : At s (render (dir V (asc "elif") ++ ((.ws v :: (ts ++ [.nl])) ++ rest)) ++ r)) (hsp : Spelled (dir V (asc "elif") ++ ((.ws v :: (ts ++ [.nl])) ++ rest)) r)
    (hf : ∀ s', Inv F (.lines false) k td Δ s' → At s' (render rest ++ r) → s'.out = s.out → (∃ cs, s'.cond = .done :: cs ∧ cs.length + 1 = k ∧ condActive cs = act) → Fin fs s' ws (condActive s'.cond) P) : Fin fs s ws a P := by
  obtain ⟨h1, h2, h3, c0, cs, h4, h5, h6, h7, h8⟩ := hI
  obtain ⟨a1, p1, p2, p3⟩ := split3 ha hsp
  have hne : c0 ≠ .false := by
    rintro rfl
    cases act with
    | false => have := h7 rfl; cases this
    | true =>
      rcases hc with hc | hc
      · cases hc
      · have := (h8 rfl).mp rfl
        rw [hc] at this; cases this
  refine dir_done (k := 5) (c := .done :: cs) (Δ' := Δ) (by decide) h1 a1 p1 (by omega) (fun s2 g1 g2 g3 g4 _ => elifSkip_run g1 (g3.cond.trans h4) hne ht (fun t htm => by have := hn' t htm; omega) g2 p2)
    fun s' d => ?_
  exact hf s' ⟨d.good, by rw [d.cond]; simp [h5], by rw [d.cond]; rfl, by rw [d.td]; exact h2, d.files.trans h3⟩ d.at_ d.out ⟨cs, d.cond, h5, h6⟩

/-- The beginning of a section. -/
theorem sect_fin {k td ws : Nat} {act c a : Bool} {Δ : Table} {V : Option (List Byte)} {w : List Byte} {ts rest : List PTok} {F : List FileRec} {s : S} {r : List Byte} (hw : w ≠ asc "elif") (hk : k < 16)
    (hn : td + 9 ≤ 2048) (ht : Test Δ td w ts c) (hI : Inv F (.lines act) k td Δ s) (ha : At s (render (dir V w ++ (ts ++ rest)) ++ r)) (hsp : Spelled (dir V w ++ (ts ++ rest)) r)
    (hf : ∀ s', Inv F (.lines (act && c)) (k + 1) td Δ s' → At s' (render rest ++ r) → s'.out = s.out → s'.cond = pushCond s.cond c :: s.cond → Fin fs s' ws (condActive s'.cond) P) : Fin fs s ws a P := by
  obtain ⟨h1, h2, h3, h4, h5⟩ := hI
  obtain ⟨a1, p1, p2, p3⟩ := split3 ha hsp
  obtain ⟨k', hk1, hk2⟩ := test_run (fs := fs) ht hw
  refine dir_done (c := pushCond s.cond c :: s.cond) (Δ' := Δ) hk1 h1 a1 p1 (by omega) (fun s2 g1 g2 g3 g4 _ => ?_) fun s' d => ?_
  · rw [← g3.cond]
    exact hk2 s2 _ g1 (by rw [g3.cond]; omega) (by omega) g2 p2
  · exact hf s' ⟨d.good, by rw [d.cond]; simp [h2], by rw [d.cond, push_active, h3], by rw [d.td]; exact h4, d.files.trans h5⟩ d.at_ d.out d.cond

/-- `#else`. -/
theorem else_fin {k td ws : Nat} {act taken a : Bool} {Δ : Table} {V W : Option (List Byte)} {rest : List PTok} {F : List FileRec} {s : S} {r : List Byte} (hn : td + 9 ≤ 2048)
    (hI : Inv F (.more act taken) k td Δ s) (ha : At s (render (dir V (asc "else") ++ ((sps W ++ [.nl]) ++ rest)) ++ r)) (hsp : Spelled (dir V (asc "else") ++ ((sps W ++ [.nl]) ++ rest)) r)
    (hf : ∀ s', Inv F (.lines (act && !taken)) k td Δ s' → At s' (render rest ++ r) → s'.out = s.out → Fin fs s' ws (condActive s'.cond) P) : Fin fs s ws a P := by
  obtain ⟨h1, h2, h3, c, cs, h4, h5, h6, h7, h8⟩ := hI
  obtain ⟨a1, p1, p2, p3⟩ := split3 ha hsp
  refine dir_done (k := 6) (c := (if c = .false then .true else .done) :: cs) (Δ' := Δ) (by decide) h1 a1 p1 (by omega) (fun s2 g1 g2 g3 g4 _ => else_run g1 (g3.cond.trans h4) g2 p2) fun s' d => ?_
  refine hf s' ⟨d.good, by rw [d.cond]; simp [h5], ?_, by rw [d.td]; exact h2, d.files.trans h3⟩ d.at_ d.out
  rw [d.cond]
  cases act with
  | false => rw [h7 rfl]; rfl
  | true =>
    cases taken with
    | false => rw [(h8 rfl).mpr rfl]; rfl
    | true =>
      have : c ≠ .false := fun e => by have := (h8 rfl).mp e; cases this
      rw [if_neg this]; rfl

/-- The preprocessor computes the meaning of the beginning of a file. -/
theorem upto_fin {d : Nat} {m : Mode} {k k' td td' : Nat} {act' : Bool} {Δ Δ' : Table} {src out : List PTok} (h : Upto fs d m k td Δ src act' k' td' Δ' out) :
    ∀ (F : List FileRec) (s : S) (ws : Nat) (r : List Byte), F.length = d → Inv F m k td Δ s → At s (render src ++ r) → Spelled src r →
      (∀ s' ws', Inv F (.lines act') k' td' Δ' s' → At s' r → s'.out.toList = s.out.toList ++ (layout (gapOf ws) out).2 → gapOf ws' = (layout (gapOf ws) out).1 → Fin fs s' ws' (condActive s'.cond) P) →
      Fin fs s ws (condActive s.cond) P := by
  induction h with
  | nil =>
    intro F s ws r hF hI ha _ hf
    exact hf s ws hI ha (by simp [layout]) rfl
  | @seq act act' k k' td td1 td' Δ Δ1 Δ' src rest o1 o2 h1 _ ih =>
    intro F s ws r hF hI ha hsp hf
    obtain ⟨p1, p2⟩ := Spelled.app hsp
    rw [render_append] at ha
    have ⟨_, i2, i3, _, _⟩ := hI
    refine ev_fin h1 F s ws _ hF hI ha p1 fun s1 ws1 q1 q2 q3 q4 q5 q6 q7 _ => ?_
    have q2 : s1.cond = s.cond := q2
    refine ih F s1 ws1 r hF ⟨q1, by rw [q2]; exact i2, by rw [q2]; exact i3, q3, q4⟩ q5 p2 fun s2 ws2 j1 j2 j3 j4 => ?_
    rw [q7] at j3 j4
    exact hf s2 ws2 j1 j2 (lay_append q6 j3) (by rw [j4]; simp [layout_append])
  | @sect act c act' k k' td td' Δ Δ' V w ts body out hw hk hn ht _ ih =>
    intro F s ws r hF hI ha hsp hf
    refine sect_fin hw hk hn ht hI ha hsp fun s1 q1 q2 q3 _ => ?_
    refine ih F s1 ws r hF q1 q2 (split3 ha hsp).2.2.2 fun s2 ws2 j1 j2 j3 j4 => ?_
    exact hf s2 ws2 j1 j2 (by rw [j3, q3]) j4
  | @sectMore act c act' k k' td td1 td' Δ Δ1 Δ' V w ts body more o1 o2 hw hk hn ht h1 _ ih =>
    intro F s ws r hF hI ha hsp hf
    obtain ⟨p4, p5⟩ := Spelled.app (split3 ha hsp).2.2.2
    have ⟨_, i2, i3, _, _⟩ := hI
    refine sect_fin hw hk hn ht hI ha hsp fun s1 q1 q2 q3 c1 => ?_
    rw [render_append] at q2
    refine ev_fin h1 F s1 ws _ hF q1 q2 p4 fun s2 ws2 g1 g2 g3 g4 g5 g6 g7 _ => ?_
    have c2 : s2.cond = pushCond s.cond c :: s.cond := g2.trans c1
    refine ih F s2 ws2 r hF ⟨g1, g3, g4, _, _, c2, by simp [i2], i3, ?_, ?_⟩ g5 p5 fun s3 ws3 j1 j2 j3 j4 => ?_
    · rintro rfl
      simp [pushCond, i3]
    · rintro rfl
      cases c <;> simp [pushCond, i3]
    rw [g7] at j3 j4
    rw [q3] at g6
    exact hf s3 ws3 j1 j2 (lay_append g6 j3) (by rw [j4]; simp [layout_append])
  | @els act taken act' k k' td td' Δ Δ' V W body out hn _ ih =>
    intro F s ws r hF hI ha hsp hf
    refine else_fin hn hI ha hsp fun s1 q1 q2 q3 => ?_
    refine ih F s1 ws r hF q1 q2 (split3 ha hsp).2.2.2 fun s2 ws2 j1 j2 j3 j4 => ?_
    exact hf s2 ws2 j1 j2 (by rw [j3, q3]) j4
  | @elif c act' k k' td td' Δ Δ' V ts body out hn ht _ ih =>
    intro F s ws r hF hI ha hsp hf
    refine elif_fin hn ht hI ha hsp fun s1 q1 q2 q3 _ => ?_
    refine ih F s1 ws r hF q1 q2 (split3 ha hsp).2.2.2 fun s2 ws2 j1 j2 j3 j4 => ?_
    exact hf s2 ws2 j1 j2 (by rw [j3, q3]) j4
  | @elifMore c act' k k' td td1 td' Δ Δ1 Δ' V ts body more o1 o2 hn ht h1 _ ih =>
    intro F s ws r hF hI ha hsp hf
    obtain ⟨p4, p5⟩ := Spelled.app (split3 ha hsp).2.2.2
    refine elif_fin hn ht hI ha hsp fun s1 q1 q2 q3 ⟨cs, c1, c2, c3⟩ => ?_
    rw [render_append] at q2
    refine ev_fin h1 F s1 ws _ hF q1 q2 p4 fun s2 ws2 g1 g2 g3 g4 g5 g6 g7 _ => ?_
    have e2 := g2.trans c1
    refine ih F s2 ws2 r hF ⟨g1, g3, g4, _, _, e2, c2, c3, (fun e => by cases e), (fun _ => by cases c <;> simp)⟩ g5 p5 fun s3 ws3 j1 j2 j3 j4 => ?_
    rw [g7] at j3 j4
    rw [q3] at g6
    exact hf s3 ws3 j1 j2 (lay_append g6 j3) (by rw [j4]; simp [layout_append])
  | @elifSkip act taken act' k k' td td' Δ Δ' V v ts body out hc hn ht hn' _ ih =>
    intro F s ws r hF hI ha hsp hf
    refine elifSkip_fin hc hn ht hn' hI ha hsp fun s1 q1 q2 q3 _ => ?_
    refine ih F s1 ws r hF q1 q2 (split3 ha hsp).2.2.2 fun s2 ws2 j1 j2 j3 j4 => ?_
    exact hf s2 ws2 j1 j2 (by rw [j3, q3]) j4
  | @elifSkipMore act taken act' k k' td td1 td' Δ Δ1 Δ' V v ts body more o1 o2 hc hn ht hn' h1 _ ih =>
    intro F s ws r hF hI ha hsp hf
    obtain ⟨p4, p5⟩ := Spelled.app (split3 ha hsp).2.2.2
    refine elifSkip_fin hc hn ht hn' hI ha hsp fun s1 q1 q2 q3 ⟨cs, c1, c2, c3⟩ => ?_
    rw [render_append] at q2
    refine ev_fin h1 F s1 ws _ hF q1 q2 p4 fun s2 ws2 g1 g2 g3 g4 g5 g6 g7 _ => ?_
    have e2 := g2.trans c1
    refine ih F s2 ws2 r hF ⟨g1, g3, g4, _, _, e2, c2, c3, (fun _ => rfl), fun e => ?_⟩ g5 p5 fun s3 ws3 j1 j2 j3 j4 => ?_
    · rcases hc with hc | hc
      · rw [hc] at e; cases e
      · simp [hc]
    rw [g7] at j3 j4
    rw [q3] at g6
    exact hf s3 ws3 j1 j2 (lay_append g6 j3) (by rw [j4]; simp [layout_append])

/-! ## Rejected directives -/

/-- `#error`. -/
theorem error_run {s : S} (hc : condActive s.cond = true) : ∀ n, 1 ≤ n → dirRest fs n (tokId + 10) s = .err .fatal := by
  intro n _
  unfold dirRest
  exact run_getS (run_assert (by decide) (run_neg (by decide) (run_neg (by decide) (run_neg (by decide) (run_neg (by decide) (run_pos (by decide) (run_pos hc rfl)))))))

end Props.ScppOpen
