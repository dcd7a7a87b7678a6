import Verif.Props.SccStmParse
/-!
# Compiled statements (C49): the compiler emits the code (control structures)
-/
namespace SccStm
open Prog Scc SccCode SccGen SccLayout Props.SccLex

variable {off : Nat → Int} {G : Fns}

theorem sz_ife {e : Cd} {p q : St} : sz (.ife e p q) = csz e + 8 + sz p + sz q := rfl
theorem nl_ife {e : Cd} {p q : St} : nl (.ife e p q) = 2 + labs e + nl p + nl q := rfl
theorem nl_loop {c : Option Cd} {p q : St} : nl (.loop c p q) = 4 + labsO c + nl q := rfl
theorem sz_dow {e : Cd} {p : St} : sz (.dow p e) = sz p + csz e + 5 := rfl
theorem nl_dow {e : Cd} {p : St} : nl (.dow p e) = 3 + labs e + nl p := rfl

theorem Mv.t {l0 n k n' k' : Nat} {s s1 s' : S} {ys zs : List Item} (h : Mv l0 n k s ys s1) (h' : Mv l0 n' k' s1 zs s') : Mv l0 (n + n') (k + k') s (ys ++ zs) s' :=
  h.trans h' (Nat.le_refl _)

theorem tst_lab {neg : Bool} {e : Cd} {l j n : Nat} (hn : j < n) : .lab j ∉ tst off neg e l n := by
  unfold tst
  split
  · intro h
    rcases List.mem_append.1 h with h | h
    · have := cdI_own e n j (.inl h); omega
    · simp at h
  · simp

theorem tst_noj {neg : Bool} {e : Cd} {l j n : Nat} (h : j ≠ l) (hn : j < n) : NoJ j (tst off neg e l n) := by
  intro cc
  unfold tst
  split
  · intro hh
    rcases List.mem_append.1 hh with hh | hh
    · have := cdI_own e n j (.inr ⟨cc, hh⟩); omega
    · simp only [List.mem_cons, Item.jcc.injEq, List.not_mem_nil, or_false] at hh
      exact h hh.2
  · simp

theorem tstO_lab {c : Option Cd} {l j n : Nat} (hn : j < n) : .lab j ∉ tstO off c l n := by
  cases c with
  | none => simp [tstO]
  | some e => exact tst_lab hn

theorem tstO_noj {c : Option Cd} {l j n : Nat} (h : j ≠ l) (hn : j < n) : NoJ j (tstO off c l n) := by
  cases c with
  | none => intro cc; simp [tstO]
  | some e => exact tst_noj h hn

theorem jmpU_lab {d : Bool} {l j : Nat} : .lab j ∉ jmpU d l := by unfold jmpU; split <;> simp
theorem jmpU_noj {d : Bool} {l j : Nat} : NoJ j (jmpU d l) := by intro cc; unfold jmpU; split <;> simp

theorem noj_nil {j : Nat} : NoJ j [] := fun _ => List.not_mem_nil
theorem noj_lab {j l : Nat} : NoJ j [.lab l] := fun _ => by simp
theorem lab_nil {j : Nat} : Item.lab j ∉ [] := List.not_mem_nil
theorem lab_ne {j l : Nat} (h : j ≠ l) : Item.lab j ∉ [Item.lab l] := by simpa using h

/-- Code, and a jump unless the end cannot be reached. -/
theorem bare_jmpU {lo : Int} {R : Nat} {b k : Int} {l l' : Nat} {t : St} {ys : List Item} (h : Code off G.A lo R b k l l' t ys) {xs : List Nat} {m : Nat} (hok : Ok G.F xs m t)
    (i j : Nat) (pre : List Item) : bare j ((jmpU (dies t) i).reverse ++ (ys.reverse ++ pre)) = false := by
  cases hd : dies t with
  | true => exact h.dies hok hd j pre
  | false => rfl

section
variable {xs : List Nat} {m : Nat} {s0 : Base} {a : Nat} {its : List Item} {ts : List Tk} {s : S}

theorem Rdy.new' (h : Rdy off G xs s0 a its ts s) (l0 l : Nat) (hl : s.labelCount = l) (hc : l < labelMax) :
    ∃ s', makeLabel s = .ok l s' ∧ Rdy off G xs s0 a its ts s' ∧ Mv l0 0 1 s [] s' ∧ s'.dead = s.dead ∧ s'.labelCount = l + 1 ∧ Free l its s' ∧ NoJ l its := by
  subst hl
  exact h.new l0 hc

theorem Rdy.compat (h : Rdy off G xs s0 a its ts s) : ∃ R : Nat, s.returnLabel = -1 ∨ s.returnLabel = R := by
  by_cases h1 : s.returnLabel = -1
  · exact ⟨0, .inl h1⟩
  · have := h.rl.1
    exact ⟨s.returnLabel.toNat, .inr (by omega)⟩

theorem Mv.compat {l0 n k : Nat} {s s' : S} {ys : List Item} (h : Mv l0 n k s ys s') {R : Nat} (hR : s'.returnLabel = -1 ∨ s'.returnLabel = R) :
    s.returnLabel = -1 ∨ s.returnLabel = R := by
  rcases h.rl with e | ⟨e, _⟩
  · rw [← e]; exact hR
  · exact .inl e

theorem p_ifs {d : Nat} {inl cl : Bool} {e : Cd} {ts : List Tk} {p : St} {us : List Tk} (he : ShowsCd 12 e ts) (ih : Parsed off G xs m s0 a false d inl cl p us)
    : Parsed off G xs m s0 a false d inl false (.ife e p .nil) (kw tokIf :: opn :: ts ++ cls :: us) := by
  intro s u rest its h hok hu hcl hd hsc hin hsz hnl
  have hdead := not_dead hd rfl
  unfold sz at hsz
  unfold nl at hnl
  obtain ⟨l, hl⟩ : ∃ l, s.labelCount = l := ⟨_, rfl⟩
  have h' : Rdy off G xs s0 a its (kw tokIf :: opn :: (ts ++ cls :: (us ++ u :: rest))) s := by simpa using h
  obtain ⟨t0, vs, rfl, hst⟩ := he.start hok.1
  obtain ⟨s1, e1, r1, m1, d1⟩ := h'.tok l
  obtain ⟨s2, e2, r2, m2, d2, c2, f2, j2⟩ := r1.new' l l (m1.lc.trans hl) (by omega)
  obtain ⟨s3, e3, r3, m3, d3⟩ := r2.expect l 0x28 rfl
  have M3 := (m1.t m2).t m3
  have k3 := M3.code
  have l3 := m3.lc
  have f3 := f2.mv m3 lab_nil
  have d3' : s3.dead = false := by rw [d3, d2, d1]; exact hdead
  obtain ⟨s4, ⟨N4, g4⟩, r4, m4, d4, c4⟩ := Rdy.cond (neg := true) he r3 d3' (by decide) (.inr (by decide)) hok.1 (.inr (.inr hok.2.1)) f3.lt (Nat.le_refl l) f3.nr (l3.trans c2) (by omega) (by omega)
  obtain ⟨v, ws, ev⟩ : ∃ v ws, us ++ u :: rest = v :: ws := by cases us <;> exact ⟨_, _, rfl⟩
  rw [ev] at r4
  obtain ⟨s5, e5, r5, m5, d5⟩ := r4.expect l 0x29 rfl
  rw [← ev] at r5
  have M5 := (M3.t m4).t m5
  have k5 := M5.code
  have l5 : s5.labelCount = l + 1 + labs e := by rw [m5.lc, c4]
  have f5 := (f3.mv m4 (tst_lab (by omega))).mv m5 lab_nil
  obtain ⟨s6, ys, ⟨N6, g6⟩, r6⟩ := ih s5 u rest _ r5 hok.2.2.1 nofun (fun _ => hcl rfl) (fun e => by rw [d5, d4] at e; cases e) (by rw [M5.scc]; exact hsc) (fun e => (hin e).mv M5)
    (by omega) (by omega)
  have f6 := f5.own r6.mv (by omega)
  have k6 := r6.mv.code
  obtain ⟨R0, hR0⟩ := r6.rdy.compat
  have hb : bare l (ys.reverse ++ ((tst off true e l (l + 1)).reverse ++ its)) = false := by
    have := hok.2.2.2.2 rfl
    rw [Bool.or_eq_true] at this
    rcases this with hc | hc
    · obtain ⟨bs, hm⟩ := (r6.code R0 hR0).raw hc
      refine bare_of' (bare'_code (fun cc hh => ?_) ⟨bs, hm.imp List.mem_reverse.2 fun ⟨p, hm⟩ => ⟨p, List.mem_reverse.2 hm⟩⟩)
      have := (r6.mv.own l (.inr ⟨cc, List.mem_reverse.1 hh⟩)).1
      omega
    · exact (r6.code R0 hR0).dies hok.2.2.1 hc l _
  obtain ⟨s7, e7, r7, m7, d7⟩ := r6.rdy.label f6 (Nat.le_refl l) (by omega) hb
  have M7 := (M5.t (r6.mv.base (by omega))).t m7
  refine ⟨s7, tst off true e l (l + 1) ++ ys ++ [.lab l], stmt_go h.sw (by rw [h'.on.1.tok]; decide) ⟨N4 + N6, fun n hn => ?_⟩, ?_, ?_, ?_, fun R hR => ?_⟩
  · refine (kw_if h'.on.1.tok).trans (run_bind e1 (run_bind e2 (run_bind e3 (run_bind (g4 n (by omega)) (run_bind e5 (run_bind (g6 n (by omega)) (run_getS (run_neg ?_ e7))))))))
    rw [r6.rdy.on.1.tok]; exact hcl rfl
  · simpa using r7
  · rw [hl]
    have M := M7.le (n' := sz (.ife e p .nil)) (k' := nl (.ife e p .nil)) (by rw [sz_ife]; omega) (by rw [nl_ife]; omega)
    simpa using M
  · rw [d7, hdead]; rfl
  · have hc := r6.code R (m7.compat hR)
    rw [M5.lo, M5.bl, M5.cl, l5] at hc
    rw [m7.lc, hl]
    exact .ifs hc

theorem p_ife {d : Nat} {inl cl : Bool} {e : Cd} {ts : List Tk} {p q : St} {us vs : List Tk} (he : ShowsCd 12 e ts) (ih : Parsed off G xs m s0 a false d inl true p us)
    (ih' : Parsed off G xs m s0 a false d inl cl q vs) : Parsed off G xs m s0 a false d inl cl (.ife e p q) (kw tokIf :: opn :: ts ++ cls :: us ++ kw tokElse :: vs) := by
  intro s u rest its h hok hu hcl hd hsc hin hsz hnl
  have hdead := not_dead hd rfl
  unfold sz at hsz
  unfold nl at hnl
  obtain ⟨l, hl⟩ : ∃ l, s.labelCount = l := ⟨_, rfl⟩
  have h' : Rdy off G xs s0 a its (kw tokIf :: opn :: (ts ++ cls :: (us ++ kw tokElse :: (vs ++ u :: rest)))) s := by simpa using h
  obtain ⟨t0, ts', rfl, hst⟩ := he.start hok.1
  obtain ⟨s1, e1, r1, m1, d1⟩ := h'.tok l
  obtain ⟨s2, e2, r2, m2, d2, c2, f2, j2⟩ := r1.new' l l (m1.lc.trans hl) (by omega)
  obtain ⟨s3, e3, r3, m3, d3⟩ := r2.expect l 0x28 rfl
  have M3 := (m1.t m2).t m3
  have k3 := M3.code
  have l3 := m3.lc
  have f3 := f2.mv m3 lab_nil
  have d3' : s3.dead = false := by rw [d3, d2, d1]; exact hdead
  obtain ⟨s4, ⟨N4, g4⟩, r4, m4, d4, c4⟩ := Rdy.cond (neg := true) he r3 d3' (by decide) (.inr (by decide)) hok.1 (.inr (.inr hok.2.1)) f3.lt (Nat.le_refl l) f3.nr (l3.trans c2) (by omega) (by omega)
  obtain ⟨v, ws, ev⟩ : ∃ v ws, us ++ kw tokElse :: (vs ++ u :: rest) = v :: ws := by cases us <;> exact ⟨_, _, rfl⟩
  rw [ev] at r4
  obtain ⟨s5, e5, r5, m5, d5⟩ := r4.expect l 0x29 rfl
  rw [← ev] at r5
  have M5 := (M3.t m4).t m5
  have k5 := M5.code
  have l5 : s5.labelCount = l + 1 + labs e := by rw [m5.lc, c4]
  have f5 := (f3.mv m4 (tst_lab (by omega))).mv m5 lab_nil
  obtain ⟨s6, ys, ⟨N6, g6⟩, r6⟩ := ih s5 (kw tokElse) (vs ++ u :: rest) _ r5 hok.2.2.1 nofun nofun (fun e => by rw [d5, d4] at e; cases e) (by rw [M5.scc]; exact hsc)
    (fun e => (hin e).mv M5) (by omega) (by omega)
  have f6 := f5.own r6.mv (by omega)
  have M6 := M5.t (r6.mv.base (by omega))
  have k6 := r6.mv.code
  have lm6 := r6.mv.labM
  have lb6 := r6.mv.lab
  have dd6 : s6.dead = dies p := by rw [r6.dead, d5, d4]; rfl
  obtain ⟨R0, hR0⟩ := r6.rdy.compat
  obtain ⟨v', ws', ev'⟩ : ∃ v ws, vs ++ u :: rest = v :: ws := by cases vs <;> exact ⟨_, _, rfl⟩
  have r6' := r6.rdy
  rw [ev'] at r6'
  obtain ⟨s7, e7, r7, m7, d7⟩ := r6'.tok l
  rw [← ev'] at r7
  obtain ⟨l1, hl1⟩ : ∃ l1, s6.labelCount = l1 := ⟨_, rfl⟩
  obtain ⟨s8, e8, r8, m8, d8, c8, f8, j8⟩ := r7.new' l l1 (m7.lc.trans hl1) (by omega)
  have k8 := (m7.t m8).code
  obtain ⟨s9, e9, r9, m9, d9⟩ := r8.jmp l f8.lt (by omega)
  rw [d8, d7, dd6] at r9 m9
  have k9 := m9.code
  have F9 := ((f6.mv m7 lab_nil).mv m8 lab_nil).mv m9 jmpU_lab
  have f9 := f8.mv m9 jmpU_lab
  have j9 := j8.mv (jmpU_noj (d := dies p) (l := l1))
  obtain ⟨s10, e10, r10, m10, d10⟩ := r9.label F9 (Nat.le_refl l) (by omega) (bare_jmpU (r6.code R0 hR0) hok.2.2.1 l1 l _)
  have k10 := m10.code
  have l10 : s10.labelCount = l1 + 1 := by rw [m10.lc, m9.lc, c8]
  have f10 := f9.mv m10 (lab_ne (by omega))
  have j10 := j9.mv (noj_lab (l := l))
  have M10 := (((M6.t m7).t m8).t m9).t m10
  obtain ⟨s11, zs, ⟨N11, g11⟩, r11⟩ := ih' s10 u rest _ r10 hok.2.2.2.1 nofun hcl (fun e => by rw [d10] at e; cases e) (by rw [M10.scc]; exact hsc) (fun e => (hin e).mv M10)
    (by omega) (by omega)
  have k11 := r11.mv.code
  have f11 := f10.own r11.mv (by omega)
  have j11 := j10.own r11.mv (by omega)
  obtain ⟨s12, e12, r12, m12, d12⟩ := r11.rdy.label (l0 := l) f11 (by omega) (by omega) j11.bare
  have M12 := (M10.t (r11.mv.base (by omega))).t m12
  refine ⟨s12, tst off true e l (l + 1) ++ ys ++ jmpU (dies p) l1 ++ [.lab l] ++ zs ++ [.lab l1], stmt_go h.sw (by rw [h'.on.1.tok]; decide) ⟨N4 + N6 + N11, fun n hn => ?_⟩, ?_, ?_, ?_,
    fun R hR => ?_⟩
  · exact (kw_if h'.on.1.tok).trans (run_bind e1 (run_bind e2 (run_bind e3 (run_bind (g4 n (by omega)) (run_bind e5 (run_bind (g6 n (by omega)) (run_getS
      (run_pos r6.rdy.on.1.tok (run_bind e7 (run_bind e8 (run_bind e9 (run_bind e10 (run_bind (g11 n (by omega)) e12)))))))))))))
  · simpa using r12
  · rw [hl]
    have M := M12.le (n' := sz (.ife e p q)) (k' := nl (.ife e p q)) (by rw [sz_ife]; omega) (by rw [nl_ife]; omega)
    simpa using M
  · rw [d12, hdead]; rfl
  · have hR11 := m12.compat hR
    have hc := r11.code R hR11
    rw [M10.lo, M10.bl, M10.cl, l10] at hc
    have hc' := r6.code R (m7.compat (m8.compat (m9.compat (m10.compat (r11.mv.compat hR11)))))
    rw [M5.lo, M5.bl, M5.cl, l5, hl1] at hc'
    rw [m12.lc, hl]
    exact .ife hc' hc

/-! ## Loops -/

theorem loop_go {d : Nat} {cl : Bool} {t : St} {us : List Tk} (ih : Parsed off G xs m s0 a false d true cl t us) {u : Tk} {rest : List Tk}
    (h : Rdy off G xs s0 a its (us ++ u :: rest) s) (hok : Ok G.F xs m t) (hcl : cl = false → u.tok ≠ tokElse) (hd : s.dead = false) (hsc : s.scopeCount + d ≤ scopeMax)
    {b k : Nat} (hb : b < s.labelCount) (hk : k < s.labelCount) (hsz : s.code + sz t + 2 ≤ codeStart + outputMax) (hnl : s.labelCount + nl t ≤ labelMax) :
    ∃ s' ys, (∃ N, ∀ n, N ≤ n → doLoopStatements (run n) b k s = .ok () s') ∧ Rdy off G xs s0 a (ys.reverse ++ its) (u :: rest) s' ∧ Mv s.labelCount (sz t) (nl t) s ys s' ∧
      s'.dead = dies t ∧ ∀ R : Nat, (s'.returnLabel = -1 ∨ s'.returnLabel = R) → Code off G.A s.localOffset R b k s.labelCount s'.labelCount t ys := by
  let s1 : S := { s with breakLabel := b, contLabel := k, bStack := s.localOffset, cStack := s.localOffset }
  have r1 : Rdy off G xs s0 a its (us ++ u :: rest) s1 :=
    ⟨h.on.of_tks rfl, h.ids, h.loc, h.sp, h.push, h.reg, h.sw, h.sc, h.rl, h.hist.same ⟨rfl, rfl, rfl, rfl, rfl⟩ rfl rfl, h.funs.of rfl rfl⟩
  obtain ⟨s2, ys, ⟨N, g2⟩, r2⟩ := ih s1 u rest its r1 hok nofun hcl (fun e => by rw [show s1.dead = false from hd] at e; cases e) hsc (fun _ => ⟨b, k, rfl, rfl, hb, hk, rfl, rfl⟩) hsz hnl
  let s3 : S := { s2 with breakLabel := s.breakLabel, contLabel := s.contLabel, bStack := s.bStack, cStack := s.cStack }
  have M3 : Mv s.labelCount (sz t) (nl t) s ys s3 := by
    refine ⟨?_, r2.mv.lo, r2.mv.scs, r2.mv.lab, r2.mv.labM, r2.mv.code, r2.mv.rl, r2.mv.own, r2.mv.fl⟩
    show { fz s2 with breakLabel := s.breakLabel, contLabel := s.contLabel, bStack := s.bStack, cStack := s.cStack } = fz s
    rw [r2.mv.fz]
    rfl
  refine ⟨s3, ys, ⟨N, fun n hn => run_getS (run_modS (run_bind (g2 n hn) rfl))⟩,
    h.of M3 (r2.rdy.on.of_tks rfl) r2.rdy.push r2.rdy.reg (r2.rdy.hist.same ⟨rfl, rfl, rfl, rfl, rfl⟩ rfl rfl), M3, ?_, fun R hR => r2.code R hR⟩
  show s2.dead = _
  rw [r2.dead, show s1.dead = false from hd]; rfl

theorem p_whl {d : Nat} {inl cl : Bool} {e : Cd} {ts : List Tk} {p : St} {us : List Tk} (he : ShowsCd 12 e ts) (ih : Parsed off G xs m s0 a false d true cl p us)
    : Parsed off G xs m s0 a false d inl cl (.loop (some e) .nil p) (kw tokWhile :: opn :: ts ++ cls :: us) := by
  intro s u rest its h hok hu hcl hd hsc hin hsz hnl
  have hdead := not_dead hd rfl
  have hsz : s.code + (csz e + 5 + 0 + sz p + 9) + 2 ≤ codeStart + outputMax := hsz
  have hnl : s.labelCount + (4 + labs e + nl p) ≤ labelMax := hnl
  obtain ⟨hoe, hc0⟩ := hok.1 e rfl
  obtain ⟨l, hl⟩ : ∃ l, s.labelCount = l := ⟨_, rfl⟩
  have h' : Rdy off G xs s0 a its (kw tokWhile :: opn :: (ts ++ cls :: (us ++ u :: rest))) s := by simpa using h
  obtain ⟨t0, vs, rfl, hst⟩ := he.start hoe
  obtain ⟨s1, e1, r1, m1, d1⟩ := h'.tok l
  obtain ⟨s2, e2, r2, m2, d2, c2, f2, j2⟩ := r1.new' l l (m1.lc.trans hl) (by omega)
  obtain ⟨s3, e3, r3, m3, d3, c3, f3, j3⟩ := r2.new' l (l + 1) c2 (by omega)
  have M3 := (m1.t m2).t m3
  have k3 := M3.code
  obtain ⟨s4, e4, r4, m4, d4⟩ := r3.label (f2.mv m3 lab_nil) (Nat.le_refl l) (by omega) j2.bare
  have f4 := f3.mv m4 (lab_ne (by omega))
  obtain ⟨s5, e5, r5, m5, d5⟩ := r4.expect l 0x28 rfl
  have f5 := f4.mv m5 lab_nil
  have M5 := (M3.t m4).t m5
  have k5 := M5.code
  have l5 : s5.labelCount = l + 2 := by rw [m5.lc, m4.lc, c3]
  obtain ⟨s6, ⟨N6, g6⟩, r6, m6, d6, c6⟩ := Rdy.cond (neg := true) (l0 := l) he r5 (d5.trans d4) (by decide) (.inr (by decide)) hoe (.inr (.inr hc0)) f5.lt (by omega) f5.nr l5 (by omega) (by omega)
  obtain ⟨v, ws, ev⟩ : ∃ v ws, us ++ u :: rest = v :: ws := by cases us <;> exact ⟨_, _, rfl⟩
  rw [ev] at r6
  obtain ⟨s7, e7, r7, m7, d7⟩ := r6.expect l 0x29 rfl
  rw [← ev] at r7
  have M7 := (M5.t m6).t m7
  have k7 := M7.code
  have l7 : s7.labelCount = l + 2 + labs e := by rw [m7.lc, c6]
  have f7 := (f5.mv m6 (tst_lab (by omega))).mv m7 lab_nil
  obtain ⟨s8, ys, ⟨N8, g8⟩, r8, m8, d8, hc8⟩ := loop_go ih r7 hok.2.2.2 hcl (d7.trans d6) (by rw [M7.scc]; exact hsc) (b := l + 1) (k := l) (by omega) (by omega) (by omega) (by omega)
  have f8 := f7.own m8 (by omega)
  have k8 := m8.code
  have lb8 := m8.lab
  obtain ⟨s9, e9, r9, m9, d9⟩ := r8.jmp l (l := l) (by omega) (by omega)
  rw [d8] at r9 m9
  have k9 := m9.code
  have f9 := f8.mv m9 jmpU_lab
  obtain ⟨R0, hR0⟩ := r8.compat
  obtain ⟨s10, e10, r10, m10, d10⟩ := r9.label (l0 := l) f9 (by omega) (by omega) (bare_jmpU (hc8 R0 hR0) hok.2.2.2 l (l + 1) _)
  have M10 := ((M7.t (m8.base (by omega))).t m9).t m10
  refine ⟨s10, [.lab l] ++ tst off true e (l + 1) (l + 2) ++ ys ++ jmpU (dies p) l ++ [.lab (l + 1)], stmt_go h.sw (by rw [h'.on.1.tok]; decide) ⟨N6 + N8, fun n hn => ?_⟩, ?_, ?_, ?_,
    fun R hR => ?_⟩
  · exact (kw_while h'.on.1.tok).trans (run_bind e1 (run_bind e2 (run_bind e3 (run_bind e4 (run_bind e5 (run_bind (g6 n (by omega)) (run_bind e7 (run_bind (g8 n (by omega))
      (run_bind e9 e10)))))))))
  · simpa using r10
  · rw [hl]
    have M := M10.le (n' := sz (.loop (some e) .nil p)) (k' := nl (.loop (some e) .nil p)) (by show _ ≤ csz e + 5 + 0 + sz p + 9; omega) (by show _ ≤ 4 + labs e + nl p; omega)
    simpa using M
  · rw [d10, hdead]; rfl
  · have hc := hc8 R (m9.compat (m10.compat hR))
    rw [M7.lo, l7] at hc
    rw [m10.lc, m9.lc, hl]
    exact .whl hc

theorem p_dow {d : Nat} {inl cl cl' : Bool} {e : Cd} {ts : List Tk} {p : St} {us : List Tk} (he : ShowsCd 12 e ts) (ih : Parsed off G xs m s0 a false d true cl' p us)
    : Parsed off G xs m s0 a false d inl cl (.dow p e) (kw tokDo :: us ++ kw tokWhile :: opn :: ts ++ [cls, semi]) := by
  intro s u rest its h hok hu hcl hd hsc hin hsz hnl
  have hdead := not_dead hd rfl
  unfold sz at hsz
  unfold nl at hnl
  obtain ⟨l, hl⟩ : ∃ l, s.labelCount = l := ⟨_, rfl⟩
  have h' : Rdy off G xs s0 a its (kw tokDo :: (us ++ kw tokWhile :: opn :: (ts ++ cls :: semi :: u :: rest))) s := by simpa using h
  obtain ⟨t0, vs, rfl, hst⟩ := he.start hok.2.1
  obtain ⟨v, ws, ev⟩ : ∃ v ws, us ++ kw tokWhile :: opn :: (t0 :: vs ++ cls :: semi :: u :: rest) = v :: ws := by cases us <;> exact ⟨_, _, rfl⟩
  have ht := h'.on.1.tok
  rw [ev] at h'
  obtain ⟨s1, e1, r1, m1, d1⟩ := h'.tok l
  rw [← ev] at r1
  obtain ⟨s2, e2, r2, m2, d2, c2, f2, j2⟩ := r1.new' l l (m1.lc.trans hl) (by omega)
  obtain ⟨s3, e3, r3, m3, d3, c3, f3, j3⟩ := r2.new' l (l + 1) c2 (by omega)
  obtain ⟨s4, e4, r4, m4, d4, c4, f4, j4⟩ := r3.new' l (l + 2) c3 (by omega)
  have M4 := ((m1.t m2).t m3).t m4
  have k4 := M4.code
  obtain ⟨s5, e5, r5, m5, d5⟩ := r4.label ((f2.mv m3 lab_nil).mv m4 lab_nil) (Nat.le_refl l) (by omega) j2.bare
  have M5 := M4.t m5
  have k5 := M5.code
  have l5 : s5.labelCount = l + 3 := by rw [m5.lc, c4]
  have f5 := (f3.mv m4 lab_nil).mv m5 (lab_ne (by omega))
  have F5 := f4.mv m5 (lab_ne (by omega))
  have nr5 : (l : Int) ≠ s5.returnLabel := m5.nr (by omega) (m4.nr (by omega) (m3.nr (by omega) f2.nr))
  obtain ⟨s6, ys, ⟨N6, g6⟩, r6, m6, d6, hc6⟩ := loop_go ih r5 hok.1 (fun _ => by decide) d5 (by rw [M5.scc]; exact hsc) (b := l + 2) (k := l + 1) (by omega) (by omega) (by omega) (by omega)
  have f6 := f5.own m6 (by omega)
  have F6 := F5.own m6 (by omega)
  have j6 := (j3.mv (noj_lab (l := l))).own m6 (by omega)
  have J6 := (j4.mv (noj_lab (l := l))).own m6 (by omega)
  have k6 := m6.code
  have lb6 := m6.lab
  have lm6 := m6.labM
  have nr6 := m6.nr (by omega) nr5
  obtain ⟨s7, e7, r7, m7, d7⟩ := r6.label (l0 := l) f6 (by omega) (by omega) j6.bare
  have k7 := m7.code
  have F7 := F6.mv m7 (lab_ne (by omega))
  have J7 := J6.mv (noj_lab (l := l + 1))
  obtain ⟨s8, e8, r8, m8, d8⟩ := r7.expect l tokWhile rfl
  obtain ⟨s9, e9, r9, m9, d9⟩ := r8.expect l 0x28 rfl
  have k9 := (m8.t m9).code
  have l9 : s9.labelCount = s6.labelCount := by rw [m9.lc, m8.lc, m7.lc]
  have nr9 := m9.nr (l := l) (by rw [m8.lc, m7.lc]; omega) (m8.nr (by rw [m7.lc]; omega) (m7.nr (by omega) nr6))
  have F9 := (F7.mv m8 lab_nil).mv m9 lab_nil
  obtain ⟨s10, ⟨N10, g10⟩, r10, m10, d10, c10⟩ := Rdy.cond (neg := false) (l := l) (l0 := l) he r9 (by rw [d9, d8, d7]) (by decide) (.inr (by decide)) hok.2.1 (.inr (.inl rfl))
    (by omega) (Nat.le_refl l) nr9 l9 (by omega) (by omega)
  have k10 := m10.code
  obtain ⟨s11, e11, r11, m11, d11⟩ := r10.expect l 0x29 rfl
  have k11 := m11.code
  have F11 := (F9.mv m10 (tst_lab (by omega))).mv m11 lab_nil
  have J11 := J7.mv (tst_noj (off := off) (neg := false) (e := e) (l := l) (j := l + 2) (n := s6.labelCount) (by omega) (by omega))
  obtain ⟨s12, e12, r12, m12, d12⟩ := r11.label (l0 := l) F11 (by omega) (by omega) J11.bare
  obtain ⟨s13, e13, r13, m13, d13⟩ := r12.semi l
  have M13 := (((((((M5.t (m6.base (by omega))).t m7).t m8).t m9).t m10).t m11).t m12).t m13
  refine ⟨s13, [.lab l] ++ ys ++ [.lab (l + 1)] ++ tst off false e l s6.labelCount ++ [.lab (l + 2)], stmt_go h.sw (by rw [ht]; decide) ⟨N6 + N10, fun n hn => ?_⟩, ?_, ?_, ?_, fun R hR => ?_⟩
  · exact (kw_do ht).trans (run_bind e1 (run_bind e2 (run_bind e3 (run_bind e4 (run_bind e5 (run_bind (g6 n (by omega)) (run_bind e7 (run_bind e8 (run_bind e9
      (run_bind (g10 n (by omega)) (run_bind e11 (run_bind e12 e13))))))))))))
  · simpa using r13
  · rw [hl]
    have M := M13.le (n' := sz (.dow p e)) (k' := nl (.dow p e)) (by rw [sz_dow]; omega) (by rw [nl_dow]; omega)
    simpa using M
  · rw [d13, d12, hdead]; rfl
  · have hc := hc6 R (m7.compat (m8.compat (m9.compat (m10.compat (m11.compat (m12.compat (m13.compat hR)))))))
    rw [M5.lo, l5] at hc
    rw [m13.lc, m12.lc, m11.lc, c10, hl]
    exact .dow hc

end

end SccStm
