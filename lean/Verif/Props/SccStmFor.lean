import Verif.Props.SccStmCtl
/-!
# Compiled statements (C49): the compiler emits the code (`for`, and all statements)
-/
namespace SccStm
open Prog Scc SccCode SccGen SccLayout Props.SccLex

variable {off : Nat → Int} {G : Fns}
variable {xs : List Nat} {m : Nat} {s0 : Base} {a : Nat} {its : List Item} {ts : List Tk} {s : S}

theorem Code.nil_eq {A : Nat → Nat} {lo b k : Int} {R l l' : Nat} {z : List Item} (h : Code off A lo R b k l l' .nil z) : z = [] := by
  cases h; rfl

theorem Code.asgn_eq {A : Nat → Nat} {lo b k : Int} {R l l' x : Nat} {o : As} {e : E} {z : List Item} (h : Code off A lo R b k l l' (.asgn o x e) z) : z = [.raw (asgnB off o x e)] := by
  cases h; rfl

def szO : Option Cd → Nat
  | some e => csz e + 5
  | none => 0

/-- An assignment as an expression. -/
theorem Rdy.set {o : As} {x : Nat} {e : E} {ts rest : List Tk} {t : Tk} (h : Rdy off G xs s0 a its (ts ++ t :: rest) s) (he : ShowsA o x e ts) (hok : Ok G.F xs m (.asgn o x e))
    (hd : s.dead = false) (ht : precComma < t.prec) (hn : NoPost t) (hle : s.code + 64 * size e + o.sz ≤ codeStart + outputMax) (l0 : Nat) :
    ∃ s', Go .expr s s' ∧ Rdy off G xs s0 a (.raw (asgnB off o x e) :: its) (t :: rest) s' ∧ Mv l0 (64 * size e + o.sz) 0 s [.raw (asgnB off o x e)] s' ∧ s'.dead = false := by
  obtain ⟨s1, g1, on1, d1⟩ := asgn_expr (h.ex0 hd) he hok.2.2 hok.1 h.on ht hn hok.2.1.1 hok.2.1.2.1 hle
  have hlen := asgn_len (off := off) o x hok.2.1.1
  obtain ⟨r1, m1, e1⟩ := h.did d1 on1 (asgn_starts off o x hok.2.1.1) (by omega) l0 (64 * size e + o.sz) hlen
  exact ⟨s1, g1, r1, m1, e1.trans hd⟩

/-- The first part. -/
theorem Rdy.init {i : St} {ts rest : List Tk} (hp : ShowsP i ts) (h : Rdy off G xs s0 a its (ts ++ SccStm.semi :: rest) s) (hok : Ok G.F xs m i) (hd : s.dead = false)
    (hle : s.code + sz i ≤ codeStart + outputMax) (l0 : Nat) :
    ∃ s' zs, (∃ N, ∀ n, N ≤ n → ∀ k : Unit → A Unit, (if s.tok ≠ 0x3B then go' (run n) .expr >>= k else k ()) s = k () s') ∧ Rdy off G xs s0 a (zs.reverse ++ its) (SccStm.semi :: rest) s' ∧
      Mv l0 (sz i) 0 s zs s' ∧ s'.dead = false ∧ ∀ lo R b k l, Code off G.A lo R b k l l i zs := by
  cases hp with
  | nil =>
    refine ⟨s, [], ⟨0, fun n _ k => run_neg (by rw [h.on.1.tok]; decide) rfl⟩, h, Mv.same rfl rfl rfl rfl rfl (Nat.le_refl _) fun j hj => absurd hj (own_nil j), hd, fun _ _ _ _ _ => .nil⟩
  | asgn he =>
    obtain ⟨t0, us, hts, _, _, h1, _⟩ := he.ne
    obtain ⟨s1, ⟨N, g1⟩, r1, m1, d1⟩ := h.set he hok hd (by decide) (.inr (by decide)) (by rw [sz] at hle; omega) l0
    refine ⟨s1, [_], ⟨N, fun n hn k => run_pos ?_ (run_bind (g1 n hn) rfl)⟩, r1, m1, d1, fun _ _ _ _ _ => .asgn⟩
    have hon := h.on
    rw [hts] at hon
    rw [hon.1.tok]; exact h1

/-- The second part. -/
theorem Rdy.condO {c : Option Cd} {ts rest : List Tk} (hp : ShowsC c ts) (h : Rdy off G xs s0 a its (ts ++ SccStm.semi :: rest) s) (hok : ∀ e, c = some e → OkC xs m e ∧ cstC e ≠ some 0)
    (hd : s.dead = false) {l l0 : Nat} (hl : l < s.labelCount) (hl0 : l0 ≤ l) (hr : (l : Int) ≠ s.returnLabel)
    {i : Nat} (hi : s.labelCount = i) (hlm : i + labsO c ≤ labelMax) (hle : s.code + szO c ≤ codeStart + outputMax) :
    ∃ s', (∃ N, ∀ n, N ≤ n → ∀ k : Unit → A Unit, (if s.tok ≠ 0x3B then doCond (run n) l true >>= k else k ()) s = k () s') ∧
      Rdy off G xs s0 a ((tstO off c l i).reverse ++ its) (SccStm.semi :: rest) s' ∧ Mv l0 (szO c) (labsO c) s (tstO off c l i) s' ∧ s'.dead = false ∧ s'.labelCount = i + labsO c := by
  cases hp with
  | none =>
    exact ⟨s, ⟨0, fun n _ k => run_neg (by rw [h.on.1.tok]; decide) rfl⟩, h, Mv.same rfl rfl rfl rfl rfl (Nat.le_refl _) fun j hj => absurd hj (own_nil j), hd, hi⟩
  | @some e ts he =>
    obtain ⟨hoe, hc⟩ := hok e rfl
    obtain ⟨t0, vs, rfl, hst⟩ := he.start hoe
    obtain ⟨s1, ⟨N, g1⟩, r1, m1, d1, c1⟩ := Rdy.cond (neg := true) (l0 := l0) he h hd (by decide) (.inr (by decide)) hoe (.inr (.inr hc)) hl hl0 hr hi hlm hle
    refine ⟨s1, ⟨N, fun n hn k => run_pos ?_ (run_bind (g1 n hn) rfl)⟩, r1, m1, d1, c1⟩
    rw [h.on.1.tok]
    rcases hst with ⟨v, rfl⟩ | ⟨x, _, rfl⟩ | rfl | ⟨o, rfl⟩
    · show tokNum ≠ 0x3B; decide
    · show x + 150 ≠ 0x3B; omega
    · decide
    · cases o <;> decide

/-- The third part: where `continue` goes to, and the code. -/
theorem Rdy.iter {c : Option Cd} {k : St} {ts rest : List Tk} {l i : Nat} (hp : ShowsP k ts) (h : Rdy off G xs s0 a its (ts ++ cls :: rest) s) (hok : Ok G.F xs m k) (hd : s.dead = false)
    (hl : s.labelCount = i) (hi : i = l + 3 + labsO c) (hn : (l : Int) ≠ s.returnLabel) (hj : NoJ (l + 1) its) (hlm : i + 1 ≤ labelMax)
    (hle : s.code + sz k + 8 ≤ codeStart + outputMax) :
    ∃ s' il zs, (∃ N, ∀ n, N ≤ n → forIter (run n) l (l + 1) s = .ok il s') ∧ Rdy off G xs s0 a (zs.reverse ++ its) (cls :: rest) s' ∧ Mv l (sz k + 6) 1 s zs s' ∧
      l ≤ il ∧ il < s'.labelCount ∧ (il : Int) ≠ s'.returnLabel ∧ i ≤ s'.labelCount ∧ .lab (l + 1) ∉ zs ∧ .lab (l + 2) ∉ zs ∧ bare (l + 1) (zs.reverse ++ its) = false ∧
      ∀ lo R b kk q l1 ys, Code off G.A lo R ((l + 2 : Nat) : Int) (il : Nat) s'.labelCount l1 q ys →
        Code off G.A lo R b kk l l1 (.loop c k q) ([.lab l] ++ tstO off c (l + 2) (l + 3) ++ zs ++ [.lab (l + 1)] ++ ys ++ jmpU (dies q) il ++ [.lab (l + 2)]) := by
  cases hp with
  | nil =>
    refine ⟨s, l, [], ⟨0, fun n _ => run_getS (run_neg (by rw [h.on.1.tok]; decide) rfl)⟩, h,
      (Mv.same (n := 0) (ys := []) rfl rfl rfl rfl rfl (Nat.le_refl _) fun j hj => absurd hj (own_nil j)).le (by omega) (by omega), Nat.le_refl _, by omega, hn, by omega, lab_nil, lab_nil, hj.bare, ?_⟩
    intro lo R b kk q l1 ys hc
    rw [hl, hi] at hc
    simpa using Code.for0 (c := c) hc
  | @asgn o x e ts he =>
    rw [sz] at hle
    obtain ⟨t0, us, hts, _, _, _, h1⟩ := he.ne
    obtain ⟨s1, e1, r1, m1, d1⟩ := h.jmp l (l := l + 1) (by omega) (by omega)
    rw [hd] at r1 m1
    have k1 := m1.code
    obtain ⟨s2, e2, r2, m2, d2, c2, f2, j2⟩ := r1.new' l i (m1.lc.trans hl) (by omega)
    have k2 := m2.code
    obtain ⟨s3, e3, r3, m3, d3⟩ := r2.label (l0 := l) f2 (by omega) (by omega) rfl
    have k3 := m3.code
    obtain ⟨s4, ⟨N, g4⟩, r4, m4, d4⟩ := r3.set he hok d3 (by decide) (.inr (by decide)) (by omega) l
    have k4 := m4.code
    have l4 : s4.labelCount = i + 1 := by rw [m4.lc, m3.lc, c2]
    have nr4 := m4.nr (l := l) (by rw [m3.lc, c2]; omega) (m3.nr (by omega) (m2.nr (by rw [m1.lc]; omega) (m1.nr (by omega) hn)))
    have nr4' := m4.nr (l := i) (by rw [m3.lc, c2]; omega) (m3.nr f2.lt f2.nr)
    obtain ⟨s5, e5, r5, m5, d5⟩ := r4.jmp l (l := l) (by omega) (by omega)
    rw [d4] at r5 m5
    have M5 := (((m1.t m2).t m3).t m4).t m5
    refine ⟨s5, i, [.jmp (l + 1), .lab i, .raw (asgnB off o x e), .jmp l], ⟨N, fun n hn => run_getS (run_pos ?_ (run_bind e1 (run_bind e2 (run_bind e3
      (run_bind (g4 n hn) (run_bind e5 rfl))))))⟩, ?_, ?_, by omega, by rw [m5.lc]; omega, ?_, by rw [m5.lc]; omega, by simp; omega, by simp; omega, rfl, ?_⟩
    · have hon := h.on
      rw [hts] at hon
      rw [hon.1.tok]; exact h1
    · exact r5
    · exact M5.le (by rw [sz]; omega) (by omega)
    · exact m5.nr (by omega) nr4'
    · intro lo R b kk q l1 ys hc
      rw [m5.lc, l4] at hc
      simpa using Code.forK (c := c) (b := b) (k := kk) (t := .asgn o x e) hi .asgn hc

theorem sz_for {i : St} {c : Option Cd} {k p : St} : sz (.seq i (.loop c k p)) = sz i + (szO c + sz k + sz p + 9) := by cases c <;> rfl
theorem nl_for {i : St} {c : Option Cd} {k p : St} : nl (.seq i (.loop c k p)) = nl i + (4 + labsO c + nl p) := rfl

theorem p_for {d : Nat} {inl cl : Bool} {i : St} {ts : List Tk} {c : Option Cd} {us : List Tk} {k : St} {vs : List Tk} {p : St} {ws : List Tk}
    (hi : ShowsP i ts) (hc : ShowsC c us) (hk : ShowsP k vs) (ih : Parsed off G xs m s0 a false d true cl p ws) :
    Parsed off G xs m s0 a false d inl cl (.seq i (.loop c k p)) (kw tokFor :: opn :: ts ++ semi :: us ++ semi :: vs ++ cls :: ws) := by
  intro s u rest its h hok hu hcl hd hsc hin hsz hnl
  have hdead := not_dead hd (by cases hi <;> rfl)
  rw [sz_for] at hsz
  rw [nl_for] at hnl
  obtain ⟨hoi, ⟨hoc, hok', _, hop⟩, _⟩ := hok
  obtain ⟨l, hl⟩ : ∃ l, s.labelCount = l := ⟨_, rfl⟩
  generalize hC : szO c = zc at hsz
  have h' : Rdy off G xs s0 a its (kw tokFor :: opn :: (ts ++ semi :: (us ++ semi :: (vs ++ cls :: (ws ++ u :: rest))))) s := by simpa using h
  obtain ⟨v1, w1, ev1⟩ : ∃ v w, ts ++ semi :: (us ++ semi :: (vs ++ cls :: (ws ++ u :: rest))) = v :: w := by cases ts <;> exact ⟨_, _, rfl⟩
  obtain ⟨v2, w2, ev2⟩ : ∃ v w, us ++ semi :: (vs ++ cls :: (ws ++ u :: rest)) = v :: w := by cases us <;> exact ⟨_, _, rfl⟩
  obtain ⟨v3, w3, ev3⟩ : ∃ v w, vs ++ cls :: (ws ++ u :: rest) = v :: w := by cases vs <;> exact ⟨_, _, rfl⟩
  obtain ⟨v4, w4, ev4⟩ : ∃ v w, ws ++ u :: rest = v :: w := by cases ws <;> exact ⟨_, _, rfl⟩
  have ht := h'.on.1.tok
  obtain ⟨s1, e1, r1, m1, d1⟩ := h'.tok l
  obtain ⟨s2, e2, r2, m2, d2, c2, f2, j2⟩ := r1.new' l l (m1.lc.trans hl) (by omega)
  obtain ⟨s3, e3, r3, m3, d3, c3, f3, j3⟩ := r2.new' l (l + 1) c2 (by omega)
  obtain ⟨s4, e4, r4, m4, d4, c4, f4, j4⟩ := r3.new' l (l + 2) c3 (by omega)
  rw [ev1] at r4
  obtain ⟨s5, e5, r5, m5, d5⟩ := r4.expect l 0x28 rfl
  rw [← ev1] at r5
  have M5 := (((m1.t m2).t m3).t m4).t m5
  have k5 := M5.code
  have d5' : s5.dead = false := by rw [d5, d4, d3, d2, d1, hdead]
  obtain ⟨s6, zi, ⟨N6, g6⟩, r6, m6, d6, hc6⟩ := r5.init hi hoi d5' (by omega) l
  rw [ev2] at r6
  obtain ⟨s7, e7, r7, m7, d7⟩ := r6.expect l 0x3B rfl
  rw [← ev2] at r7
  have M7 := (M5.t m6).t m7
  have k7 := M7.code
  have z6 : .lab l ∉ zi ∧ .lab (l + 1) ∉ zi ∧ .lab (l + 2) ∉ zi ∧ NoJ l zi ∧ NoJ (l + 1) zi := by
    cases hi with
    | nil => cases (hc6 0 0 0 0 0).nil_eq; exact ⟨lab_nil, lab_nil, lab_nil, noj_nil, noj_nil⟩
    | asgn _ => cases (hc6 0 0 0 0 0).asgn_eq; exact ⟨by simp, by simp, by simp, fun _ => by simp, fun _ => by simp⟩
  have F4 := (f2.mv m3 lab_nil).mv m4 lab_nil
  have F7 := ((F4.mv m5 lab_nil).mv m6 z6.1).mv m7 lab_nil
  have G7 := (((f3.mv m4 lab_nil).mv m5 lab_nil).mv m6 z6.2.1).mv m7 lab_nil
  have H7 := ((f4.mv m5 lab_nil).mv m6 z6.2.2.1).mv m7 lab_nil
  have J7 := j2.mv z6.2.2.2.1
  have JG7 := j3.mv z6.2.2.2.2
  obtain ⟨s8, e8, r8, m8, d8⟩ := r7.label F7 (Nat.le_refl l) (by omega) J7.bare
  have k8 := m8.code
  have G8 := G7.mv m8 (lab_ne (by omega))
  have H8 := H7.mv m8 (lab_ne (by omega))
  have JG8 := JG7.mv (noj_lab (l := l))
  have nr8 := m8.nr F7.lt F7.nr
  have l8 : s8.labelCount = l + 3 := by rw [m8.lc, m7.lc, m6.lc, m5.lc, c4]
  obtain ⟨s9, ⟨N9, g9⟩, r9, m9, d9, c9⟩ := r8.condO hc hoc d8 (l := l + 2) (l0 := l) H8.lt (by omega) H8.nr l8 (by omega) (by rw [hC]; omega)
  rw [hC] at m9
  have k9 := m9.code
  rw [ev3] at r9
  obtain ⟨s10, e10, r10, m10, d10⟩ := r9.expect l 0x3B rfl
  rw [← ev3] at r10
  have G10 := (G8.mv m9 (tstO_lab (by omega))).mv m10 lab_nil
  have H10 := (H8.mv m9 (tstO_lab (by omega))).mv m10 lab_nil
  have JG10 := JG8.mv (tstO_noj (off := off) (c := c) (l := l + 2) (j := l + 1) (n := l + 3) (by omega) (by omega))
  have l10 : s10.labelCount = l + 3 + labsO c := by rw [m10.lc, c9]
  have nr10 := m10.nr (l := l) (by omega) (m9.nr (by omega) nr8)
  have M10 := ((M7.t m8).t m9).t m10
  have k10 := m10.code
  obtain ⟨s11, il, zs, ⟨N11, g11⟩, r11, m11, hil, hil', hiln, hl11, hz1, hz2, hb11, hc11⟩ := r10.iter (c := c) hk hok' (d10.trans d9) l10 rfl nr10 JG10 (by omega) (by omega)
  have k11 := m11.code
  have lb11 := m11.labM
  rw [ev4] at r11
  obtain ⟨s12, e12, r12, m12, d12⟩ := r11.expect l 0x29 rfl
  rw [← ev4] at r12
  have k12 := m12.code
  have G12 := (G10.mv m11 hz1).mv m12 lab_nil
  have H12 := (H10.mv m11 hz2).mv m12 lab_nil
  obtain ⟨s13, e13, r13, m13, d13⟩ := r12.label (l0 := l) G12 (by omega) (by omega) hb11
  have k13 := m13.code
  have H13 := H12.mv m13 (lab_ne (by omega))
  have l13 : s13.labelCount = s11.labelCount := by rw [m13.lc, m12.lc]
  have M13 := ((M10.t m11).t m12).t m13
  obtain ⟨s14, ys, ⟨N14, g14⟩, r14, m14, d14, hc14⟩ := loop_go ih r13 hop hcl d13 (by rw [M13.scc]; exact hsc) (b := l + 2) (k := il) (by omega) (by omega) (by omega) (by omega)
  have H14 := H13.own m14 (by omega)
  have k14 := m14.code
  have lb14 := m14.lab
  obtain ⟨s15, e15, r15, m15, d15⟩ := r14.jmp l (l := il) (by omega) (by omega)
  rw [d14] at r15 m15
  have k15 := m15.code
  have H15 := H14.mv m15 jmpU_lab
  obtain ⟨R0, hR0⟩ := r14.compat
  obtain ⟨s16, e16, r16, m16, d16⟩ := r15.label (l0 := l) H15 (by omega) (by omega) (bare_jmpU (hc14 R0 hR0) hop il (l + 2) _)
  have M16 := ((M13.t (m14.base (by omega))).t m15).t m16
  refine ⟨s16, zi ++ ([.lab l] ++ tstO off c (l + 2) (l + 3) ++ zs ++ [.lab (l + 1)] ++ ys ++ jmpU (dies p) il ++ [.lab (l + 2)]), stmt_go h.sw (by rw [ht]; decide)
    ⟨N6 + N9 + N11 + N14, fun n hn => ?_⟩, ?_, ?_, ?_, fun R hR => ?_⟩
  · exact (kw_for ht).trans (run_bind e1 (run_bind e2 (run_bind e3 (run_bind e4 (run_bind e5 (run_getS ((g6 n (by omega) _).trans (run_bind e7 (run_bind e8
      (run_getS ((g9 n (by omega) _).trans (run_bind e10 (run_bind (g11 n (by omega)) (run_bind e12 (run_bind e13 (run_bind (g14 n (by omega)) (run_bind e15 e16)))))))))))))))))
  · simpa using r16
  · rw [hl]
    have M := M16.le (n' := sz (.seq i (.loop c k p))) (k' := nl (.seq i (.loop c k p))) (by rw [sz_for, hC]; omega) (by rw [nl_for]; omega)
    simpa using M
  · rw [d16, hdead]; cases hi <;> rfl
  · have hc := hc14 R (m15.compat (m16.compat hR))
    rw [M13.lo, l13] at hc
    rw [m16.lc, m15.lc, hl]
    exact .seq (hc6 _ _ _ _ _) (hc11 _ _ _ _ _ _ _ hc)

/-- **`ParseStatement`** on the tokens of a statement emits the code that is described by `Code`. -/
theorem parsed {li : Bool} {d : Nat} {inl cl : Bool} {t : St} {ts : List Tk} (h : ShowsS li d inl cl t ts) : Parsed off G xs m s0 a li d inl cl t ts := by
  induction h with
  | none => exact p_none
  | cons ha hb iha ihb => exact p_cons ha hb iha ihb
  | nil => exact p_nil
  | block ha ih => exact p_block ih
  | asgn he => exact p_asgn he
  | ifs he ha ih => exact p_ifs he ih
  | ife he ha hb iha ihb => exact p_ife he iha ihb
  | whl he ha ih => exact p_whl he ih
  | dow he ha ih => exact p_dow he ih
  | «for» hi hc hk ha ih => exact p_for hi hc hk ih
  | ret he => exact p_ret he
  | ret0 => exact p_ret0
  | brk => exact p_brk
  | cont => exact p_cont
  | call hx h => exact p_call hx h

end SccStm
