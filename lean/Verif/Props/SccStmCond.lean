import Verif.Props.SccStmMove
/-!
# Compiled statements (C42, C49): conditions with `&&` and `||`

`ShowsCd` is the grammar of conditions, as tokens.  `parse_cd` is the theorem about their code, `Rdy.cond` the one about `DoCond`.
-/
namespace SccStm
open Prog Scc SccCode SccGen SccLayout Props.SccLex

variable {off : Nat → Int} {G : Fns}

/-! ## Specification: the grammar -/

/-- The token and the level of `||` and `&&`. -/
def logTok (or : Bool) : Nat := if or then tokOrOr else tokAndAnd
def logPrec (or : Bool) : Nat := if or then 12 else 11

/-- The tokens of a condition whose operators bind at least as tight as the level `q`. -/
inductive ShowsCd : Nat → Cd → List Tk → Prop
  | one {q : Nat} {e : E} {ts : List Tk} (hq : 10 ≤ q) (h : Shows 10 e ts) : ShowsCd q (.one e) ts
  | con {q : Nat} (or : Bool) {a b : Cd} {ts us : List Tk} (hq : logPrec or ≤ q) (ha : ShowsCd (logPrec or) a ts) (hb : ShowsCd (logPrec or - 1) b us) :
      ShowsCd q (.con or a b) (ts ++ .sym (logTok or) (logPrec or) :: us)
  | par {q : Nat} {c : Cd} {ts : List Tk} (h : ShowsCd 12 c ts) : ShowsCd q c (.sym 0x28 precStop :: ts ++ [.sym 0x29 precStop])

theorem ShowsCd.start {q : Nat} {c : Cd} {ts : List Tk} (h : ShowsCd q c ts) {xs : List Nat} {m : Nat} (hok : OkC xs m c) : ∃ t us, ts = t :: us ∧ Start xs t := by
  induction h with
  | one hq h => exact h.start hok.2.1
  | con or hq ha hb iha _ =>
    obtain ⟨t, us, rfl, hs⟩ := iha hok.1
    exact ⟨t, _, rfl, hs⟩
  | par h _ => exact ⟨_, _, rfl, .inr (.inr (.inl rfl))⟩

theorem ShowsCd.expr {q : Nat} {c : Cd} {ts : List Tk} (h : ShowsCd q c ts) {e : E} (he : c = .one e) : Shows 10 e ts := by
  induction h with
  | one hq h => cases he; exact h
  | con => cases he
  | par h ih => exact .par _ (ih he)

/-- At most this many bytes are emitted for a condition, without the last jump. -/
def csz : Cd → Nat
  | .one e => 64 * size e + 8
  | .con _ a b => csz a + csz b + 14

/-! ## The code -/

theorem cdCC_lt (c : Cd) : cdCC off c < 16 := by
  induction c with
  | one e => exact testCC_lt e
  | con or a b iha ihb =>
    rw [cdCC]
    split
    · exact iha
    · decide

theorem cdI_raw (c : Cd) : ∃ bs, ∀ n, .raw bs ∈ cdI off c n := by
  induction c with
  | one e => exact ⟨_, fun _ => List.mem_cons_self ..⟩
  | con or a b iha ihb =>
    obtain ⟨bs, h⟩ := iha
    exact ⟨bs, fun n => by simp [cdI, h]⟩

theorem cdI_own (c : Cd) (n j : Nat) (h : Own j (cdI off c n)) : n ≤ j ∧ j < n + labs c := by
  induction c generalizing n with
  | one e => exact absurd h own_raw
  | con or a b iha ihb =>
    rw [cdI] at h
    rw [labs]
    rcases h.append with h | h
    · rcases h.append with h | h
      · rcases h.append with h | h
        · have := iha n h; omega
        · have := own_jcc h; omega
      · have := ihb _ h; omega
    · have : j = n + labs a := by
        unfold conI at h
        split at h
        · exact own_lab h
        · rcases h with h | ⟨_, h⟩ <;> simp at h
          exact h
      omega

/-- Bytes, if there are any. -/
def rawI (bs : List Byte) : List Item := if bs = [] then [] else [.raw bs]

theorem testB_toReg (g : SccGen.G) : testB off (toReg off false g) = testB off g := by unfold testB; rw [toReg_toReg]
theorem testCC_toReg (g : SccGen.G) : testCC off (toReg off false g) = testCC off g := by unfold testCC; rw [toReg_toReg]

/-- A new label. -/
def mkL (s : S) : S := { s with labels := s.labels.set s.labelCount ⟨0, 0⟩, labelCount := s.labelCount + 1 }

theorem make_mk {s : S} (h : s.labelCount < labelMax) : makeLabel s = .ok s.labelCount (mkL s) := by
  refine run_getS (run_failIf ?_ rfl)
  exact beq_eq_false_iff_ne.2 (Nat.ne_of_lt h)

theorem done_made {s s1 : S} {g : SccGen.G} (h : Done off s g s1) : Done off (mkL s) g (mkL s1) := by
  refine ⟨⟨?_, h.em.ge, h.em.code, h.em.new, h.em.old⟩, h.reg, h.bal, h.zf, ?_⟩
  · show mkL (core s1) = mkL (core s)
    rw [h.em.fr]
  · have := h.kd
    cases hk : g.kd <;> rw [hk] at this <;> exact this

section
variable {xs : List Nat} {s0 : Base} {a : Nat} {its : List Item} {ts : List Tk} {s s' : S}

/-- `if (CurrentType != VT_BOOL) ToBool();` -/
theorem Rdy.test (r : Rdy off G xs s0 a its ts s) (hd : s.dead = false) {g : SccGen.G} (d : Done off s g s') (hl : ∀ v, g.kd ≠ .lit v) (hr : g.r = false) {ts' : List Tk}
    (on : On s0 s' ts') (hs : testB off g = [] ∨ Starts (testB off g)) (hle : s.code + (testB off g).length ≤ codeStart + outputMax) (l0 : Nat) :
    ∃ s2, (∀ {β : Type} (k : Unit → A β), (if s'.type ≠ vtBool then toBool >>= k else pure () >>= k) s' = k () s2) ∧
      Rdy off G xs s0 a ((rawI (testB off g)).reverse ++ its) ts' s2 ∧ Mv l0 (testB off g).length 0 s (rawI (testB off g)) s2 ∧ s2.dead = false ∧
      s2.type = vtBool ∧ s2.val = testCC off g := by
  have h := r.ex0 hd
  obtain ⟨s2, e3, hd3, ht3⟩ := d.test h.up h.push hl (h.room hle)
  have hreg := hd3.reg.trans hr
  have hkd : s2.type = vtBool ∧ s2.val = testCC off g ∧ s2.push = false := hd3.kd
  have hdid : Did s (testB off g) s2 := ⟨hd3.em, hkd.2.2, hreg, lo_of_bal hd3.bal hkd.2.2 hreg h.push h.reg, hd3.zf⟩
  refine ⟨s2, e3, ?_⟩
  rcases hs with hs | hs
  · rw [hs] at hdid
    obtain ⟨r1, m1, d1⟩ := r.did0 hdid (on.of_tks ht3) hd l0
    have e : rawI (testB off g) = [] := by rw [hs]; rfl
    rw [e, hs]
    exact ⟨r1, m1, d1.trans hd, hkd.1, hkd.2.1⟩
  · obtain ⟨r1, m1, d1⟩ := r.did hdid (on.of_tks ht3) hs hle l0 _ (Nat.le_refl _)
    have e : rawI (testB off g) = [.raw (testB off g)] := by
      obtain ⟨b, t, hb, _⟩ := hs
      unfold rawI
      rw [if_neg (by rw [hb]; simp)]
    rw [e]
    exact ⟨r1, m1, d1.trans hd, hkd.1, hkd.2.1⟩

/-- `EmitLocalLabel` does not change the current value. -/
theorem Rdy.label' (h : Rdy off G xs s0 a its ts s) {l l0 : Nat} (hf : Free l its s) (hl : l0 ≤ l) (hle : s.code + 2 ≤ codeStart + outputMax) (hb : bare l its = false) :
    ∃ s', emitLocalLabel l s = .ok () s' ∧ Rdy off G xs s0 a (.lab l :: its) ts s' ∧ Mv l0 0 0 s [.lab l] s' ∧ s'.dead = false ∧ s'.type = s.type ∧ s'.val = s.val := by
  obtain ⟨s', e, r, m, d⟩ := h.label hf hl hle hb
  obtain ⟨m', n, t, e', _⟩ := h.hist.label hf.lt hf.nl h.sp hle hb
  rw [e] at e'
  cases e'
  exact ⟨_, e, r, m, d, rfl, rfl⟩

theorem Rdy.jcc' (h : Rdy off G xs s0 a its ts s) (hd : s.dead = false) {cc l l0 : Nat} (hcc : cc < 16) (hl : l < s.labelCount) (hl0 : l0 ≤ l) (hr : (l : Int) ≠ s.returnLabel)
    (hle : s.code + 5 ≤ codeStart + outputMax) :
    ∃ s', emitJcc cc l s = .ok () s' ∧ Rdy off G xs s0 a (.jcc cc l :: its) ts s' ∧ Mv l0 5 0 s [.jcc cc l] s' ∧ s'.dead = false ∧ s'.type = s.type ∧ s'.val = s.val := by
  obtain ⟨s', e, r, m, d⟩ := h.jcc hd hcc hl hl0 hr hle
  obtain ⟨m', n, t, e', _⟩ := h.hist.jcc (h.live hd) hcc hl hle
  rw [e] at e'
  cases e'
  exact ⟨_, e, r, m, d, rfl, rfl⟩

theorem Rdy.made (h : Rdy off G xs s0 a its ts s) (l0 : Nat) (hc : s.labelCount < labelMax) :
    Rdy off G xs s0 a its ts (mkL s) ∧ Mv l0 0 1 s [] (mkL s) ∧ Free s.labelCount its (mkL s) ∧ NoJ s.labelCount its := by
  obtain ⟨s', e, r, m, _, _, f, j⟩ := h.new l0 hc
  rw [make_mk hc] at e
  cases e
  exact ⟨r, m, f, j⟩

/-- A round with `&&` or `||`. -/
theorem round_log {s2 s3 s4 s5 s6 s7 : S} {op p : Nat} {le : Int} (ht : s2.tok = op) (hp : s2.prec = p) (e3 : getToken s2 = .ok () s3)
    (e4 : lhsStep op p s3 = .ok (op, le) s4) (h5 : Go .cast s4 s5) (h6 : Go (.rhs p) s5 s6)
    (e7 : finishExpr1 op p le s4.type s4.extra s4.val s6 = .ok () s7) : Round s2 s7 := by
  obtain ⟨N1, h1⟩ := h5
  obtain ⟨N2, h2⟩ := h6
  refine ⟨N1 + N2, fun n hn => ?_⟩
  rw [ht, hp]
  exact run_bind e3 (run_bind e4 (run_getS (run_bind (h1 n (by omega)) (run_bind (h2 n (by omega)) e7))))

/-- The parser was at the condition in the state `s` and is behind it in `s'`: it emitted `pre` up to the state `sb` and then the code of `g`. -/
structure Cond (off : Nat → Int) (G : Fns) (xs : List Nat) (s0 : Base) (a : Nat) (its : List Item) (c : Cd) (s : S) (pre : List Item) (sb : S) (g : SccGen.G) (s' : S) : Prop where
  rdy : ∃ tb, Rdy off G xs s0 a (pre.reverse ++ its) tb sb
  mv : Mv s.labelCount (csz c) (labs c) s pre sb
  dead : sb.dead = false
  lc : sb.labelCount = s.labelCount + labs c
  done : Done off sb g s'
  nl : ∀ v, g.kd ≠ .lit v
  r : g.r = false
  items : pre ++ rawI (testB off g) = cdI off c s.labelCount
  cc : testCC off g = cdCC off c
  starts : testB off g = [] ∨ Starts (testB off g)
  len : sb.code + (testB off g).length ≤ s.code + csz c

theorem Cond.type {c : Cd} {pre : List Item} {sb : S} {g : SccGen.G} (h : Cond off G xs s0 a its c s pre sb g s') : s'.type ≠ vtLocLit ||| vtInt := by
  have hk := h.done.kd
  cases hgk : g.kd with
  | lit v => exact absurd hgk (h.nl v)
  | var x => rw [hgk] at hk; rw [hk.1]; decide
  | reg sk => rw [hgk] at hk; rw [hk.1]; decide
  | flag f => rw [hgk] at hk; rw [hk.1]; decide

theorem Cond.test {c : Cd} {pre : List Item} {sb : S} {g : SccGen.G} (h : Cond off G xs s0 a its c s pre sb g s') (on : On s0 s' ts) (hle : s.code + csz c ≤ codeStart + outputMax) :
    ∃ s2, (∀ {β : Type} (k : Unit → A β), (if s'.type ≠ vtBool then toBool >>= k else pure () >>= k) s' = k () s2) ∧
      Rdy off G xs s0 a ((cdI off c s.labelCount).reverse ++ its) ts s2 ∧ Mv s.labelCount (csz c) (labs c) s (cdI off c s.labelCount) s2 ∧ s2.dead = false ∧
      s2.labelCount = s.labelCount + labs c ∧ s2.type = vtBool ∧ s2.val = cdCC off c := by
  obtain ⟨tb, r⟩ := h.rdy
  have hl := h.len
  obtain ⟨s2, e, r2, m2, d2, t2, v2⟩ := r.test h.dead h.done h.nl h.r on h.starts (by omega) s.labelCount
  have hc : s2.code ≤ s.code + csz c := by have := m2.code; omega
  refine ⟨s2, e, ?_, ?_, d2, m2.lc.trans h.lc, t2, by rw [← h.cc]; exact v2⟩
  · rw [← h.items, List.reverse_append, List.append_assoc]; exact r2
  · rw [← h.items]
    have m := h.mv.trans m2 (Nat.le_refl _)
    exact { m with code := hc, labM := by have := m2.lc; have := h.lc; omega }

theorem log_facts (or : Bool) : logTok or ≠ 0x2C ∧ (logTok or = tokOrOr ∨ logTok or = tokAndAnd) ∧ logTok or ≠ 0x3F ∧ logPrec or ≠ precAssign ∧ 11 ≤ logPrec or ∧ logPrec or ≤ 12 ∧
    (logTok or = tokOrOr ↔ or = true) ∧ precComma > 12 := by
  cases or <;> decide

theorem parse_cd {q : Nat} {c : Cd} {us : List Tk} (h : ShowsCd q c us) {m : Nat} : ∀ {its : List Item} {s : S} {t : Tk} {rest : List Tk},
    Rdy off G xs s0 a its (us ++ t :: rest) s → s.dead = false → q ≤ t.prec → NoPost t → OkC xs m c → cstC c = none →
    s.labelCount + labs c ≤ labelMax → s.code + csz c ≤ codeStart + outputMax →
    ∃ n s1 s' pre sb g, Go .cast s s1 ∧ Rounds q n s1 s' ∧ On s0 s' (t :: rest) ∧ Cond off G xs s0 a its c s pre sb g s' := by
  induction h with
  | @one q e ts hq h =>
    intro its s t rest r hd ht hn hok hc _ hle
    have h0 := r.ex0 hd
    have hlen := gen_len (off := off) e hok.1 false false
    have htl := test_len (off := off) e hok.1
    have hle : s.code + (64 * size e + 8) ≤ codeStart + outputMax := hle
    obtain ⟨n, s1, s', g1, r1, on', d⟩ := parses ⟨s, s0.fin⟩ xs h0.loc h0.up h s t rest (On.rebase r.on h0.ids) rfl (by omega) hn hok.1 hok.2.1 h0.zf
      (by rw [h0.push, h0.reg]; exact h0.room (by omega))
    rw [h0.push, h0.reg] at d
    refine ⟨n, s1, s', [], s, gen off e false false, g1, r1.mono hq, On.rebase on' h0.ids.symm, ⟨_, r⟩, ?_, hd, rfl, d, (gen_kd off e false false hok.1).1 hc, gen_r (off := off) e, ?_, rfl,
      .inr (test_starts off hok.1 hc), ?_⟩
    · exact (Mv.same (n := 0) rfl rfl rfl rfl rfl (Nat.le_refl _) fun j hj => absurd hj (own_nil j)).le (Nat.zero_le _) (Nat.zero_le _)
    · have hs := test_starts off hok.1 hc
      obtain ⟨b, t, hb, _⟩ := hs
      unfold rawI
      rw [if_neg (by rw [hb]; simp)]
      rfl
    · show s.code + _ ≤ s.code + (64 * size e + 8)
      omega
  | @par q c ts h ih =>
    intro its s t rest r hd ht hn hok hc hlm hle
    obtain ⟨t0, vs, rfl, hst⟩ := h.start hok
    have r' : Rdy off G xs s0 a its (.sym 0x28 precStop :: t0 :: (vs ++ .sym 0x29 precStop :: t :: rest)) s := by simpa using r
    have htok : s.tok = 0x28 := r'.on.1.tok
    obtain ⟨s2, e2, r2, m2, d2⟩ := r'.tok s.labelCount
    have hl2 := m2.lc
    have hc2 := m2.code
    obtain ⟨n, s3, s4, pre, sb, g, h3, h4, on4, C⟩ := ih (t := .sym 0x29 precStop) (rest := t :: rest) r2 (d2.trans hd) (by decide) close_nopost hok hc (by omega) (by omega)
    obtain ⟨tb, rb⟩ := C.rdy
    obtain ⟨s5, e5, on5, tk5⟩ := on4.next' ((ids_core C.done.em.fr).trans rb.ids)
    obtain ⟨N1, g3⟩ := h3
    obtain ⟨N2, g4⟩ := h4.tail (q' := precComma) (by decide) (by rw [on4.1.prec]; decide)
    have hexpr : Go .expr s2 s4 := Go.of (N1 + N2) fun n hn =>
      run_bind (a := ()) (s1 := s4) (run_bind (g3 n (by omega)) (run_getS (g4 n (by omega)))) rfl
    obtain ⟨N3, g5⟩ := hexpr
    obtain ⟨N4, g6⟩ := postfix_nop on5.1 hn
    refine ⟨0, s5, s5, pre, sb, g, ?_, .refl _, on5, C.rdy, ?_, C.dead, by rw [C.lc, hl2], C.done.tok_r tk5, C.nl, C.r, by rw [← hl2]; exact C.items, C.cc, C.starts,
      by have := C.len; omega⟩
    · refine Go.of (N3 + N4) fun n hn => run_bind (a := ()) (s1 := s5) (run_getS (run_pos htok (run_bind e2 (run_getS (run_neg ?_
        (run_bind (g5 n (by omega)) (run_bind (a := ()) (s1 := s5) (run_getS (run_pos on4.1.tok e5)) (g6 n (by omega))))))))) rfl
      rw [no_type r2.loc hst r2.on.1]; decide
    · have := m2.trans C.mv (by omega)
      simpa using this
  | @con q or ca cb ts us hq ha hb iha ihb =>
    intro its s t rest r hd ht hn hok hc hlm hle
    obtain ⟨oka, okb, ca0, cb0⟩ := hok
    obtain ⟨f1, f2, f3, f4, f5, f6, f7, f8⟩ := log_facts or
    have hlm : s.labelCount + (labs ca + 1 + labs cb) ≤ labelMax := hlm
    have hle : s.code + (csz ca + csz cb + 14) ≤ codeStart + outputMax := hle
    obtain ⟨t0, vs, rfl, hst⟩ := hb.start okb
    have r' : Rdy off G xs s0 a its (ts ++ .sym (logTok or) (logPrec or) :: (t0 :: vs ++ t :: rest)) s := by simpa using r
    -- the left operand
    obtain ⟨n1, s1, s2, pre, sb, g, g1, R1, on2, C⟩ := iha r' hd (Nat.le_refl _) (.inl (by cases or <;> decide)) oka ca0 (by omega) (by omega)
    obtain ⟨tb, rb⟩ := C.rdy
    have hlen := C.len
    have hlc := C.lc
    obtain ⟨s3, e3, on3, tk3⟩ := on2.next' ((ids_core C.done.em.fr).trans rb.ids)
    have hx := rb.ex0 C.dead
    have hrl : (toReg off false g).bs.length ≤ (testB off g).length := by
      unfold testB; split
      · simp
      · exact Nat.le_refl _
    obtain ⟨s4, e4, d4, t4⟩ := (C.done.tok_r tk3).toReg hx.up (by rw [hx.push]; exact hx.room (by omega))
    rw [hx.push] at d4
    obtain ⟨rk, mk', fk, jk⟩ := rb.made s.labelCount (by omega)
    have hlc4 : s4.labelCount = sb.labelCount := by have := congrArg S.labelCount d4.em.fr; exact this
    have e5 : makeLabel s4 = .ok sb.labelCount (mkL s4) := by rw [make_mk (by omega), hlc4]
    have on4 : On s0 (mkL s4) (t0 :: vs ++ t :: rest) := on3.of_tks (congrArg Prod.fst t4)
    obtain ⟨s6, e6, r6, m6, d6, ty6, v6⟩ := rk.test C.dead (done_made d4) (fun v e => C.nl v ((toReg_kd off false g).2.1 v e)) ((toReg_r g).trans C.r) on4
      (by rw [testB_toReg]; exact C.starts) (by rw [testB_toReg]; show sb.code + _ ≤ _; omega) s.labelCount
    rw [testB_toReg] at r6 m6
    rw [testCC_toReg, C.cc] at v6
    have hc6 : s6.code ≤ s.code + csz ca := by have := m6.code; show _ ≤ _; have e : (mkL sb).code = sb.code := rfl; omega
    have hl6 : s6.labelCount = s.labelCount + labs ca + 1 := by rw [m6.lc]; show sb.labelCount + 1 = _; omega
    obtain ⟨L, hL⟩ : ∃ L, s.labelCount + labs ca = L := ⟨_, rfl⟩
    have hLb : sb.labelCount = L := by omega
    rw [hLb] at fk jk e5
    have f6' := fk.mv m6 (by unfold rawI; split <;> simp)
    have j6' : NoJ L ((rawI (testB off g)).reverse ++ (pre.reverse ++ its)) := jk.mv (by intro cc; unfold rawI; split <;> simp)
    have hcc : cdCC off ca ^^^ (if or = true then 0 else 1) < 16 := Nat.xor_lt_two_pow (n := 4) (cdCC_lt ca) (by cases or <;> decide)
    obtain ⟨s7, e7, r7, m7, d7, ty7, v7⟩ := r6.jcc' d6 hcc f6'.lt (l0 := s.labelCount) (by omega) f6'.nr (by omega)
    have f7' := f6'.mv m7 (by simp)
    have hc7 := m7.code
    have hl7 : s7.labelCount = L + 1 := by rw [m7.lc]; omega
    have M7 : Mv s.labelCount (csz ca + 5) (labs ca + 1) s (cdI off ca s.labelCount ++ [.jcc (cdCC off ca ^^^ (if or = true then 0 else 1)) L]) s7 := by
      have m := ((C.mv.trans mk' (Nat.le_refl _)).trans m6 (Nat.le_refl _)).trans m7 (Nat.le_refl _)
      rw [List.append_nil, C.items] at m
      exact { m with code := by omega, labM := by omega }
    have lhs : lhsStep (logTok or) (logPrec or) s3 = .ok (logTok or, (L : Int)) s7 := by
      refine run_getS (run_neg f4 ?_)
      refine run_bind e4 (run_bind (a := logTok or) (s1 := s4) rfl (run_pos f2 (run_bind e5 (run_getS ((e6 _).trans (run_getS ?_))))))
      have ev : s6.val.toNat ^^^ (if logTok or = tokOrOr then 0 else 1) = cdCC off ca ^^^ (if or = true then 0 else 1) := by
        rw [v6, Int.toNat_natCast]
        congr 1
        cases or <;> rfl
      rw [ev]
      exact run_bind e7 rfl
    -- the right operand
    have r7' : Rdy off G xs s0 a (.jcc (cdCC off ca ^^^ (if or = true then 0 else 1)) L :: ((cdI off ca s.labelCount).reverse ++ its)) (t0 :: vs ++ t :: rest) s7 := by
      rw [← C.items, List.reverse_append, List.append_assoc]; exact r7
    obtain ⟨n8, s8, s9, pre9, sb9, g9, g8, R8, on9, C9⟩ := ihb r7' d7 (by omega) hn okb cb0 (by omega) (by omega)
    have hrhs := Rounds.rhs (logPrec or) f4 (by omega) n8 R8 (by rw [on9.1.prec]; omega)
    have ht9 := C9.type
    obtain ⟨s10, e10, r10, m10, d10, l10, ty10, v10⟩ := C9.test on9 (by omega)
    have hc10 := m10.code
    rw [hl7] at r10 m10
    have fL : Free L ((cdI off cb (L + 1)).reverse ++ (.jcc (cdCC off ca ^^^ (if or = true then 0 else 1)) L :: ((cdI off ca s.labelCount).reverse ++ its))) s10 := by
      have := f7'.own m10 (by omega)
      rw [← C.items, List.reverse_append, List.append_assoc]
      simpa using this
    have hbare : bare L ((cdI off cb (L + 1)).reverse ++ (.jcc (cdCC off ca ^^^ (if or = true then 0 else 1)) L :: ((cdI off ca s.labelCount).reverse ++ its))) = false := by
      obtain ⟨bs, hbs⟩ := cdI_raw (off := off) cb
      refine bare_of' (bare'_code (fun cc hh => ?_) ⟨bs, .inl (List.mem_reverse.2 (hbs _))⟩)
      have := cdI_own cb (L + 1) L (.inr ⟨cc, List.mem_reverse.1 hh⟩)
      omega
    have M10 : Mv s.labelCount (csz ca + 5 + csz cb) (labs ca + 1 + labs cb) s
        (cdI off ca s.labelCount ++ [.jcc (cdCC off ca ^^^ (if or = true then 0 else 1)) L] ++ cdI off cb (L + 1)) s10 := M7.trans m10 (by omega)
    have hlcE : s10.labelCount = s.labelCount + (labs ca + 1 + labs cb) := by omega
    -- the end
    have fin : ∀ {s' : S}, finishLogic (logTok or) L (cdCC off ca) s9 = .ok () s' → Round s2 s' := by
      intro s' e
      refine round_log on2.1.tok on2.1.prec e3 lhs g8 hrhs ?_
      rw [ty7, ty6, v7, v6]
      refine run_neg f1 (run_getS (run_neg (fun hh => absurd hh.1 (by decide)) (run_pos (Int.natCast_nonneg _) e)))
    have wrap : ∀ {s' : S} {pre' : List Item} {sb' : S} {g' : SccGen.G}, finishLogic (logTok or) L (cdCC off ca) s9 = .ok () s' → On s0 s' (t :: rest) →
        Cond off G xs s0 a its (.con or ca cb) s pre' sb' g' s' →
        ∃ n s1 s' pre sb g, Go .cast s s1 ∧ Rounds q n s1 s' ∧ On s0 s' (t :: rest) ∧ Cond off G xs s0 a its (.con or ca cb) s pre sb g s' := by
      intro s' pre' sb' g' e on C'
      refine ⟨n1 + 1, s1, s', pre', sb', g', g1, (R1.mono hq).snoc (fin e) ?_ ?_ ?_, on, C'⟩
      · rw [on2.1.prec]; show 3 ≤ logPrec or; omega
      · rw [on2.1.prec]; exact hq
      · rw [on2.1.tok]; exact f3
    have on10 : On s0 s10 (t :: rest) := r10.on
    by_cases heq : cdCC off ca = cdCC off cb
    · obtain ⟨s11, e11, r11, m11, d11, ty11, v11⟩ := r10.label' fL (l0 := s.labelCount) (by omega) (by omega) hbare
      have M11 := M10.trans m11 (Nat.le_refl _)
      have hI : cdI off (.con or ca cb) s.labelCount =
          cdI off ca s.labelCount ++ [.jcc (cdCC off ca ^^^ (if or = true then 0 else 1)) L] ++ cdI off cb (L + 1) ++ [.lab L] := by
        rw [cdI, conI, if_pos heq, hL]
      have hB : testB off (⟨[], .flag (cdCC off cb), false⟩ : SccGen.G) = [] := rfl
      refine wrap (s' := s11) (pre' := cdI off (.con or ca cb) s.labelCount) (sb' := s11) (g' := ⟨[], .flag (cdCC off cb), false⟩) ?_ r11.on ⟨⟨t :: rest, ?_⟩, ?_, d11, ?_, ?_, nofun, rfl, ?_, ?_, .inl rfl, ?_⟩
      · refine run_getS ((e10 _).trans (run_getS (run_neg ?_ e11)))
        rw [v10, heq]; exact fun hh => hh rfl
      · rw [hI]; simpa using r11
      · rw [hI]
        exact M11.le (by show _ ≤ csz ca + csz cb + 14; omega) (Nat.le_refl _)
      · rw [m11.lc]; exact hlcE
      · exact ⟨.refl rfl r11.hist.ge rfl rfl, r11.reg, rfl, r11.hist.zf, ty11.trans ty10, v11.trans v10, r11.push⟩
      · rw [hB]; exact List.append_nil _
      · show cdCC off cb = cdCC off (.con or ca cb)
        rw [cdCC, if_pos heq, heq]
      · rw [hB]
        have := m11.code
        show s11.code + 0 ≤ s.code + (csz ca + csz cb + 14)
        omega
    · obtain ⟨bA, hbA⟩ : ∃ bA : Byte, bA = if or = true then 0 else 1 := ⟨_, rfl⟩
      obtain ⟨bT, hbT⟩ : ∃ bT : Byte, bT = if or = true then 1 else 0 := ⟨_, rfl⟩
      have hlv := r10.live d10
      have hrm : ∀ n, n ≤ 4 → Room s10 n := fun n hn => r10.hist.room (by omega)
      have did0 : Did s10 [] s10 := ⟨.refl rfl r10.hist.ge rfl rfl, r10.push, r10.reg, rfl, r10.hist.zf⟩
      have w1 := put_wrote [0xB0, bA] s10 (hrm _ (by show 2 ≤ 4; decide))
      have o1 := hlv.out_put (bs := [0xB0, bA]) (hrm _ (by show 2 ≤ 4; decide))
      have did1 := did0.wrote w1
      generalize hs11 : put s10 [0xB0, bA] = s11 at *
      obtain ⟨jb, hjb⟩ : ∃ jb : Byte, jb = nb (0x70 ||| (cdCC off cb ^^^ if or = true then 1 else 0)) := ⟨_, rfl⟩
      have hr11 : Room s11 [jb, 2].length := did1.em.room (hrm _ (by show 4 ≤ 4; decide))
      have lv11 : Live s11 := ⟨by have := congrArg S.dead did1.em.fr; exact this.trans d10, by have := congrArg S.spAdj did1.em.fr; exact this.trans r10.sp, did1.push⟩
      have w2 := put_wrote [jb, 2] s11 hr11
      have o2 := lv11.out_put (bs := [jb, 2]) hr11
      have did2 := did1.wrote w2
      have tk2 : tks (put s11 [jb, 2]) = tks s10 := by rw [← hs11, put_eq, put_eq]; rfl
      generalize hs12 : put s11 [jb, 2] = s12 at *
      obtain ⟨r12, m12, d12⟩ := r10.did did2 (on10.of_tks tk2) ⟨0xB0, _, rfl, by decide, fun e => absurd e (by decide)⟩ (by show s10.code + 4 ≤ _; omega) s.labelCount 4 (Nat.le_refl _)
      have f12 := fL.mv m12 (by simp)
      obtain ⟨s13, e13, r13, m13, d13, _, _⟩ := r12.label' f12 (l0 := s.labelCount) (by omega) (by have := m12.code; omega) rfl
      have hc12 := m12.code
      have hc13 := m13.code
      have hr13 : Room s13 [0xB0, bT, 0x98].length := r13.hist.room (by show s13.code + 3 ≤ _; omega)
      have o3 := (r13.live d13).out_put (bs := [0xB0, bT, 0x98]) hr13
      have w3 := put_wrote [0xB0, bT, 0x98] s13 hr13
      have em3 := Em.of_wrote (s := s13) w3 rfl rfl rfl r13.hist.ge
      have hp3 := put_eq [0xB0, bT, 0x98] s13
      generalize put s13 [0xB0, bT, 0x98] = s14 at *
      have M13 := (M10.trans m12 (Nat.le_refl _)).trans m13 (Nat.le_refl _)
      let pre' : List Item := cdI off ca s.labelCount ++ [.jcc (cdCC off ca ^^^ (if or = true then 0 else 1)) L] ++ cdI off cb (L + 1) ++ [.raw ([] ++ [0xB0, bA] ++ [jb, 2])] ++ [.lab L]
      have hI : cdI off (.con or ca cb) s.labelCount = pre' ++ [.raw [0xB0, bT, 0x98, 0x21, 0xC0]] := by
        rw [cdI, conI, if_neg heq, hL]
        simp only [pre', hbA, hbT, hjb, List.append_assoc]
        rfl
      have hB : testB off (⟨[0xB0, bT, 0x98], .reg false, false⟩ : SccGen.G) = [0xB0, bT, 0x98, 0x21, 0xC0] := rfl
      refine wrap (s' := { s14 with type := vtInt }) (pre' := pre') (sb' := s13) (g' := ⟨[0xB0, bT, 0x98], .reg false, false⟩) ?_ ?_ ⟨⟨t :: rest, ?_⟩, ?_, d13, ?_, ?_, nofun, rfl, ?_, ?_, .inr ?_, ?_⟩
      · have hne : (cdCC off ca : Int) ≠ s10.val := by rw [v10]; exact fun hh => heq (Int.ofNat.inj hh)
        refine run_getS ((e10 _).trans (run_getS (run_pos hne ?_)))
        have t1 : nb (1 - if logTok or = tokOrOr then 1 else 0) = bA := by rw [hbA]; cases or <;> rfl
        have t2 : nb (if logTok or = tokOrOr then 1 else 0) = bT := by rw [hbT]; cases or <;> rfl
        have t3 : nb (0x70 ||| (s10.val.toNat ^^^ if logTok or = tokOrOr then 1 else 0)) = jb := by
          rw [hjb, v10, Int.toNat_natCast]
          cases or <;> rfl
        rw [t1, t2, t3]
        exact run_bind o1 (run_bind o2 (run_bind e13 (run_bind o3 rfl)))
      · rw [hp3]; exact r13.on.of_tks rfl
      · simpa [pre'] using r13
      · exact { M13 with code := by show _ ≤ s.code + (csz ca + csz cb + 14); omega, labM := by show s13.labelCount ≤ s.labelCount + (labs ca + 1 + labs cb); rw [m13.lc, m12.lc]; omega }
      · rw [m13.lc, m12.lc]; exact hlcE
      · have hc14 : s14.code = s13.code + 3 := em3.code
        have hz : s14.lastZF = s13.lastZF := by rw [hp3]
        have hz13 := r13.hist.zf
        refine ⟨⟨em3.fr, em3.ge, em3.code, em3.new, em3.old⟩, ?_, ?_, ?_, rfl, ?_, ?_⟩
        · show s14.regUse = false
          rw [hp3]; exact r13.reg
        · show bal s14 = bal s13
          rw [hp3]; rfl
        · show s14.lastZF ≤ s14.code
          omega
        · show s14.push = false
          rw [hp3]; exact r13.push
        · refine ⟨nofun, fun hh => ?_⟩
          have hh : s14.lastZF = s14.code := hh
          omega
      · rw [hI, hB]; rfl
      · show 5 = cdCC off (.con or ca cb)
        rw [cdCC, if_neg heq]
      · rw [hB]; exact ⟨0xB0, _, rfl, by decide, fun e => absurd e (by decide)⟩
      · rw [hB]
        show s13.code + 5 ≤ s.code + (csz ca + csz cb + 14)
        omega

/-- `DoCond`. -/
theorem Rdy.cond {us : List Tk} {t : Tk} {c : Cd} (hsh : ShowsCd 12 c us) (h : Rdy off G xs s0 a its (us ++ t :: ts) s) (hd : s.dead = false) (ht : precComma < t.prec) (hn : NoPost t)
    {m : Nat} (hok : OkC xs m c) {neg : Bool} (hc : cstC c = none ∨ neg = false ∨ cstC c ≠ some 0) {l l0 : Nat} (hl : l < s.labelCount) (hl0 : l0 ≤ l) (hr : (l : Int) ≠ s.returnLabel)
    {i : Nat} (hi : s.labelCount = i) (hlm : i + labs c ≤ labelMax) (hle : s.code + csz c + 5 ≤ codeStart + outputMax) :
    ∃ s', (∃ N, ∀ n, N ≤ n → doCond (run n) l neg s = .ok () s') ∧ Rdy off G xs s0 a ((tst off neg c l i).reverse ++ its) (t :: ts) s' ∧
      Mv l0 (csz c + 5) (labs c) s (tst off neg c l i) s' ∧ s'.dead = false ∧ s'.labelCount = i + labs c := by
  subst hi
  cases hce : cstC c with
  | none =>
    obtain ⟨n, s1, s2, pre, sb, g, ⟨N1, g1⟩, R, on2, C⟩ := parse_cd hsh h hd (Nat.le_of_lt (Nat.lt_trans (by decide) ht)) hn hok hce hlm (by omega)
    obtain ⟨N2, g2⟩ := R.tail (q' := precComma) (by decide) (by rw [on2.1.prec]; exact ht)
    have hexpr : Go .expr s s2 := Go.of (N1 + N2) fun n hn =>
      run_bind (a := ()) (s1 := s2) (run_bind (g1 n (by omega)) (run_getS (g2 n (by omega)))) rfl
    obtain ⟨N, g⟩ := hexpr
    obtain ⟨s3, e3, r3, m3, d3, l3, ty3, v3⟩ := C.test on2 (by omega)
    have hcc : cdCC off c ^^^ (if neg then 1 else 0) < 16 := Nat.xor_lt_two_pow (n := 4) (cdCC_lt c) (by cases neg <;> decide)
    have hco := m3.code
    obtain ⟨s4, e4, r4, m4, d4⟩ := r3.jcc d3 hcc (by omega) hl0 (m3.nr hl hr) (by omega)
    have hT : tst off neg c l s.labelCount = cdI off c s.labelCount ++ [.jcc (cdCC off c ^^^ (if neg then 1 else 0)) l] := by
      unfold tst
      rw [hce]
    refine ⟨s4, ⟨N, fun n hn => run_bind (g n hn) (run_getS (run_neg C.type ((e3 _).trans (run_getS ?_))))⟩, ?_, ?_, d4, by rw [m4.lc]; exact l3⟩
    · rw [v3, Int.toNat_natCast]; exact e4
    · rw [hT]; simpa using r4
    · rw [hT]; exact ((m3.base (by omega)).trans m4 (Nat.le_refl _)).le (Nat.le_refl _) (Nat.le_refl _)
  | some y =>
    have hT : tst off neg c l s.labelCount = [] := by unfold tst; rw [hce]
    cases c with
    | con or p q => cases hce
    | one e =>
      have hle' : s.code + (64 * size e + 8) ≤ codeStart + outputMax := Nat.le_trans (Nat.le_add_right _ 5) hle
      obtain ⟨s1, ⟨N, g1⟩, on1, d1⟩ := cond_lit (h.ex0 hd) (hsh.expr rfl) h.on ht hn hok.1 hok.2.1 hce (Nat.le_trans (Nat.add_le_add_left (Nat.le_add_right _ 8) _) hle')
      obtain ⟨r1, m1, hd1⟩ := h.did0 d1 on1 hd l0
      refine ⟨s1, ⟨N, fun n hn => g1 n hn l neg ?_⟩, by rw [hT]; exact r1, by rw [hT]; exact m1.le (Nat.zero_le _) (Nat.le_refl _), hd1.trans hd, m1.lc⟩
      rcases hc with h | h | h
      · rw [hce] at h; cases h
      · exact .inr h
      · exact .inl fun h0 => h (by rw [hce, h0])

end

end SccStm
