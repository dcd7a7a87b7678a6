import Verif.Props.SccStmRun
/-!
# Compiled statements (C49): the compiler emits the code (continued)
-/
namespace SccStm
open Prog Scc SccCode SccGen SccLayout Props.SccLex

variable {off : Nat → Int} {G : Fns}

/-! ## Keywords -/

section kw
variable {s : S} {n : Nat}

theorem kw_return (h : s.tok = tokReturn) : parseKeyword (run n) s = parseReturn (run n) s :=
  run_getS (run_neg (by rw [h]; decide) (run_pos h rfl))

theorem kw_if (h : s.tok = tokIf) : parseKeyword (run n) s = parseIf (run n) s :=
  run_getS (run_neg (by rw [h]; decide) (run_neg (by rw [h]; decide) (run_neg (by rw [h]; decide) (run_neg (by rw [h]; decide) (run_neg (by rw [h]; decide)
    (run_neg (by rw [h]; decide) (run_pos h rfl)))))))

theorem kw_for (h : s.tok = tokFor) : parseKeyword (run n) s = parseFor (run n) s :=
  run_getS (run_neg (by rw [h]; decide) (run_neg (by rw [h]; decide) (run_neg (by rw [h]; decide) (run_neg (by rw [h]; decide) (run_neg (by rw [h]; decide)
    (run_neg (by rw [h]; decide) (run_neg (by rw [h]; decide) (run_pos h rfl))))))))

theorem kw_while (h : s.tok = tokWhile) : parseKeyword (run n) s = parseWhile (run n) s :=
  run_getS (run_neg (by rw [h]; decide) (run_neg (by rw [h]; decide) (run_neg (by rw [h]; decide) (run_neg (by rw [h]; decide) (run_neg (by rw [h]; decide)
    (run_neg (by rw [h]; decide) (run_neg (by rw [h]; decide) (run_neg (by rw [h]; decide) (run_pos h rfl)))))))))

theorem kw_do (h : s.tok = tokDo) : parseKeyword (run n) s = parseDo (run n) s :=
  run_getS (run_neg (by rw [h]; decide) (run_neg (by rw [h]; decide) (run_neg (by rw [h]; decide) (run_neg (by rw [h]; decide) (run_neg (by rw [h]; decide)
    (run_neg (by rw [h]; decide) (run_neg (by rw [h]; decide) (run_neg (by rw [h]; decide) (run_neg (by rw [h]; decide) (run_pos h rfl))))))))))

end kw

theorem Hist.die {a : Nat} {its : List Item} {s : S} (h : Hist a its s) : Hist a its { s with dead := true } := by
  obtain ⟨cs, h, e⟩ := h
  exact ⟨cs, ⟨h.inv.same ⟨rfl, rfl, rfl, rfl, rfl⟩, h.zf, h.zfj, nofun⟩, e⟩

theorem not_dead {s : S} {t : St} (h : s.dead = true → void t = true) (hv : void t = false) : s.dead = false := by
  cases hh : s.dead with
  | false => rfl
  | true => rw [h hh] at hv; cases hv

/-- The end of `return`. -/
def leave : A Unit := do
  let s ← getS
  if s.localOffset ≠ 0 then
    if s.returnLabel < 0 then
      let l ← makeLabel
      modS fun s => { s with returnLabel := l }
    else pure ()
    let s ← getS
    emitJmp s.returnLabel
  else
    output [0x5D, 0xC3]
    setDead true
  getSemicolon

section
variable {xs : List Nat} {m : Nat} {s0 : Base} {a : Nat}

theorem Rdy.leave {its : List Item} {ts : List Tk} {u : Tk} {s : S} (h : Rdy off G xs s0 a its (SccStm.semi :: u :: ts) s) (hd : s.dead = false) (hle : s.code + 3 ≤ codeStart + outputMax)
    (hlc : s.labelCount + 1 ≤ labelMax) (l0 : Nat) :
    ∃ s' ys, SccStm.leave s = .ok () s' ∧ Rdy off G xs s0 a (ys.reverse ++ its) (u :: ts) s' ∧ Mv l0 3 1 s ys s' ∧ s'.dead = true ∧
      ∀ R : Nat, (s'.returnLabel = -1 ∨ s'.returnLabel = R) → ys = fin (decide (s.localOffset ≠ 0)) R := by
  by_cases hlo : s.localOffset ≠ 0
  · by_cases hrl : s.returnLabel < 0
    · obtain ⟨s1, e1, r1, m1, d1, c1, f1, _⟩ := h.new l0 hlc
      have hm : s.returnLabel = -1 := by have := h.rl.1; omega
      obtain ⟨s2, hs2⟩ : ∃ s2 : S, s2 = { s1 with returnLabel := (s.labelCount : Int) } := ⟨_, rfl⟩
      have m2 : Mv l0 0 1 s [] s2 := by
        rw [hs2]
        exact ⟨m1.fz, m1.lo, m1.scs, m1.lab, m1.labM, m1.code, .inr ⟨hm, Int.le_refl _, by show (s.labelCount : Int) < s1.labelCount; omega⟩, fun j hj => absurd hj (own_nil j), fun h0 => absurd h0 hlo⟩
      have r2 : Rdy off G xs s0 a its (SccStm.semi :: u :: ts) s2 := by
        refine h.of m2 ?_ ?_ ?_ ?_ <;> rw [hs2]
        · exact r1.on.of_tks rfl
        · exact r1.push
        · exact r1.reg
        · exact r1.hist.same ⟨rfl, rfl, rfl, rfl, rfl⟩ rfl rfl
      have hd2 : s2.dead = false := by rw [hs2]; exact d1.trans hd
      have hrl2 : s2.returnLabel = s.labelCount := by rw [hs2]
      have hlc2 : s2.labelCount = s.labelCount + 1 := by rw [hs2]; exact c1
      have cc := m2.code
      obtain ⟨s3, e3, r3, m3, d3⟩ := r2.jmp l0 (l := s.labelCount) (by omega) (by omega)
      rw [hd2] at r3 m3
      obtain ⟨s4, e4, r4, m4, d4⟩ := r3.semi l0
      refine ⟨s4, [.jmp s.labelCount], run_getS (run_pos hlo (run_pos hrl (run_bind e1 (run_bind (a := ()) (s1 := s2) (by rw [hs2]; rfl) (run_getS (run_bind (a := ()) (s1 := s3) (by rw [hrl2]; exact e3) e4)))))), r4, ?_, d4.trans d3, fun R hR => ?_⟩
      · have M := m2.trans (m3.trans m4 (Nat.le_refl _)) (Nat.le_refl _)
        exact M.le (by decide) (by decide)
      · have hr4 : s4.returnLabel = s.labelCount := by
          have h1 := m3.rl
          have h2 := m4.rl
          have h3 := m3.lc
          have h4 := m4.lc
          omega
        have : R = s.labelCount := by omega
        rw [this, fin, decide_eq_true hlo]; rfl
    · obtain ⟨R0, hR0⟩ : ∃ R0 : Nat, s.returnLabel = R0 := ⟨s.returnLabel.toNat, by omega⟩
      have hlt := h.rl.2
      obtain ⟨s3, e3, r3, m3, d3⟩ := h.jmp l0 (l := R0) (by omega) hle
      rw [hd] at r3 m3
      obtain ⟨s4, e4, r4, m4, d4⟩ := r3.semi l0
      refine ⟨s4, [.jmp R0], run_getS (run_pos hlo (run_neg hrl (run_getS (run_bind (a := ()) (s1 := s3) (by rw [hR0]; exact e3) e4)))), r4, ?_, d4.trans d3, fun R hR => ?_⟩
      · exact (m3.trans m4 (Nat.le_refl _)).le (by omega) (by omega)
      · have hr4 : s4.returnLabel = R0 := by
          have h1 := m3.rl
          have h2 := m4.rl
          omega
        have : R = R0 := by omega
        rw [this, fin, decide_eq_true hlo]; rfl
  · have hroom : Room s 2 := h.hist.room (by omega)
    have e1 := (h.live hd).out_put (bs := [0x5D, 0xC3]) hroom
    have w1 := put_wrote [0x5D, 0xC3] s hroom
    have d0 : Did s [] s := ⟨.refl rfl h.hist.ge rfl rfl, h.push, h.reg, rfl, h.hist.zf⟩
    have d1 := d0.wrote w1
    have ht : tks (put s [0x5D, 0xC3]) = tks s := by rw [put_eq]; rfl
    generalize put s [0x5D, 0xC3] = s1 at *
    obtain ⟨r1, m1, hd1⟩ := h.did d1 (h.on.of_tks ht) fin_starts (by show s.code + 2 ≤ _; omega) l0 3 (by decide)
    have m2 : Mv l0 3 0 s [.raw [0x5D, 0xC3]] { s1 with dead := true } := ⟨m1.fz, m1.lo, m1.scs, m1.lab, m1.labM, m1.code, m1.rl, m1.own, m1.fl⟩
    have r2 := h.of (ts' := SccStm.semi :: u :: ts) m2 (r1.on.of_tks rfl) r1.push r1.reg r1.hist.die
    obtain ⟨s3, e3, r3, m3, d3⟩ := r2.semi l0
    refine ⟨s3, [.raw [0x5D, 0xC3]], run_getS (run_neg hlo (run_bind e1 (run_modS e3))), r3, (m2.trans m3 (Nat.le_refl _)).le (by omega) (by omega), d3, fun R hR => ?_⟩
    rw [fin, decide_eq_false hlo]; rfl

theorem p_ret {d : Nat} {inl cl : Bool} {e : E} {ts : List Tk} (he : Shows 10 e ts) : Parsed off G xs m s0 a false d inl cl (.ret (some e)) (kw tokReturn :: ts ++ [semi]) := by
  intro s u rest its h hok hu hcl hd hsc hin hsz hnl
  have hdead := not_dead hd rfl
  unfold sz at hsz
  have h' : Rdy off G xs s0 a its (kw tokReturn :: (ts ++ semi :: u :: rest)) s := by simpa using h
  obtain ⟨t0, us, rfl, hst⟩ := he.start hok.2.1
  obtain ⟨s1, e1, r1, m1, d1⟩ := h'.tok s.labelCount
  have c1 := m1.code
  obtain ⟨s2, s3, ⟨N, g2⟩, e3, on3, d3⟩ := val_on (r1.ex0 (d1.trans hdead)) he r1.on (by decide) (.inr (by decide)) hok.1 hok.2.1 (by omega)
  have hvl := val_len (off := off) e hok.1
  obtain ⟨r3, m3, hd3⟩ := r1.did d3 on3 (val_starts off hok.1) (by omega) s.labelCount (64 * size e + 12) hvl
  have c3 := m3.code
  have l1 := m1.lc
  have l3 := m3.lc
  unfold nl at hnl
  obtain ⟨s4, ys, e4, r4, m4, d4, hf⟩ := r3.leave (hd3.trans (d1.trans hdead)) (by omega) (by omega) s.labelCount
  have hne : s1.tok ≠ 0x3B := by
    rw [r1.on.1.tok]
    obtain ⟨v, rfl⟩ | ⟨x, hx, rfl⟩ | rfl | ⟨o, rfl⟩ := hst
    · show tokNum ≠ 0x3B; decide
    · show x + 150 ≠ 0x3B; omega
    · decide
    · cases o <;> decide
  refine ⟨s4, [.raw (valB off (gen off e false false))] ++ ys, stmt_go h.sw (by rw [h'.on.1.tok]; decide) ⟨N, fun n hn => ?_⟩, ?_, ?_, ?_, fun R hR => ?_⟩
  · exact (kw_return h'.on.1.tok).trans (run_bind e1 (run_getS (run_pos hne (run_bind (g2 n hn) (run_bind e3 e4)))))
  · rw [List.reverse_append, List.append_assoc]; exact r4
  · exact (m1.trans (m3.trans m4 (Nat.le_refl _)) (Nat.le_refl _)).le (by unfold sz; omega) (by unfold nl; omega)
  · rw [d4, hdead]; rfl
  · rw [hf R hR, m3.lo, m1.lo]
    exact .ret (by have := m4.lab; omega)

theorem p_ret0 {d : Nat} {inl cl : Bool} : Parsed off G xs m s0 a false d inl cl (.ret none) [kw tokReturn, semi] := by
  intro s u rest its h hok hu hcl hd hsc hin hsz hnl
  have hdead := not_dead hd rfl
  unfold sz at hsz
  unfold nl at hnl
  obtain ⟨s1, e1, r1, m1, d1⟩ := h.tok s.labelCount
  have c1 := m1.code
  have l1 := m1.lc
  obtain ⟨s4, ys, e4, r4, m4, d4, hf⟩ := r1.leave (d1.trans hdead) (by omega) (by omega) s.labelCount
  refine ⟨s4, ys, stmt_go h.sw (by rw [h.on.1.tok]; decide) ⟨0, fun n hn => ?_⟩, r4, ?_, ?_, fun R hR => ?_⟩
  · exact (kw_return h.on.1.tok).trans (run_bind e1 (run_getS (run_neg (fun hh => hh r1.on.1.tok) e4)))
  · exact (m1.trans m4 (Nat.le_refl _)).le (by unfold sz; omega) (by unfold nl; omega)
  · rw [d4, hdead]; rfl
  · rw [hf R hR, m1.lo]
    exact .ret0 (by have := m4.lab; omega)

theorem p_brk {d : Nat} {cl : Bool} : Parsed off G xs m s0 a false d true cl .brk [kw tokBreak, semi] := by
  intro s u rest its h hok hu hcl hd hsc hin hsz hnl
  have hdead := not_dead hd rfl
  unfold sz at hsz
  obtain ⟨b, k, hb, hk, hb1, hk1, hbs, hcs⟩ := hin rfl
  obtain ⟨s1, e1, r1, m1, d1⟩ := h.tok s.labelCount
  have c1 := m1.code
  have l1 := m1.lc
  obtain ⟨s2, e2, r2, m2, d2⟩ := r1.jmp s.labelCount (l := b) (by omega) (by omega)
  rw [d1, hdead] at r2 m2
  obtain ⟨s3, e3, r3, m3, d3⟩ := r2.semi s.labelCount
  refine ⟨s3, [.jmp b], stmt_go h.sw (by rw [h.on.1.tok]; decide) ⟨0, fun n hn => ?_⟩, r3, ?_, ?_, fun R hR => ?_⟩
  · have ht : s.tok = tokBreak := h.on.1.tok
    have hz : s1.spAdj + (s1.bStack - s1.localOffset) = s1.spAdj := by rw [m1.bs, m1.lo, hbs, Int.sub_self, Int.add_zero]
    have hmod : modS (fun s : S => { s with spAdj := s.spAdj + (s.bStack - s.localOffset) }) s1 = .ok () s1 :=
      congrArg (fun z => (Prog.Res.ok () { s1 with spAdj := z } : Prog.Res S Unit)) hz
    refine run_getS (run_neg (by rw [ht]; decide) (run_neg (by rw [ht]; decide) (run_pos ht (run_bind e1
      (run_bind (a := ()) (s1 := s1) hmod (run_getS (run_bind (a := ()) (s1 := s2) ?_ e3)))))))
    rw [m1.bl, hb]; exact e2
  · exact (m1.trans (m2.trans m3 (Nat.le_refl _)) (Nat.le_refl _)).le (by unfold sz; omega) (by unfold nl; omega)
  · rw [d3, d2, hdead]; rfl
  · rw [m3.lc, m2.lc, m1.lc]; exact .brk b hb

theorem p_cont {d : Nat} {cl : Bool} : Parsed off G xs m s0 a false d true cl .cont [kw tokContinue, semi] := by
  intro s u rest its h hok hu hcl hd hsc hin hsz hnl
  have hdead := not_dead hd rfl
  unfold sz at hsz
  obtain ⟨b, k, hb, hk, hb1, hk1, hbs, hcs⟩ := hin rfl
  obtain ⟨s1, e1, r1, m1, d1⟩ := h.tok s.labelCount
  have c1 := m1.code
  have l1 := m1.lc
  obtain ⟨s2, e2, r2, m2, d2⟩ := r1.jmp s.labelCount (l := k) (by omega) (by omega)
  rw [d1, hdead] at r2 m2
  obtain ⟨s3, e3, r3, m3, d3⟩ := r2.semi s.labelCount
  refine ⟨s3, [.jmp k], stmt_go h.sw (by rw [h.on.1.tok]; decide) ⟨0, fun n hn => ?_⟩, r3, ?_, ?_, fun R hR => ?_⟩
  · have ht : s.tok = tokContinue := h.on.1.tok
    have hz : s1.spAdj + (s1.cStack - s1.localOffset) = s1.spAdj := by rw [m1.cs, m1.lo, hcs, Int.sub_self, Int.add_zero]
    have hmod : modS (fun s : S => { s with spAdj := s.spAdj + (s.cStack - s.localOffset) }) s1 = .ok () s1 :=
      congrArg (fun z => (Prog.Res.ok () { s1 with spAdj := z } : Prog.Res S Unit)) hz
    refine run_getS (run_neg (by rw [ht]; decide) (run_neg (by rw [ht]; decide) (run_neg (by rw [ht]; decide) (run_pos ht (run_bind e1
      (run_bind (a := ()) (s1 := s1) hmod (run_getS (run_bind (a := ()) (s1 := s2) ?_ e3))))))))
    rw [m1.cl, hk]; exact e2
  · exact (m1.trans (m2.trans m3 (Nat.le_refl _)) (Nat.le_refl _)).le (by unfold sz; omega) (by unfold nl; omega)
  · rw [d3, d2, hdead]; rfl
  · rw [m3.lc, m2.lc, m1.lc]; exact .cont k hk

/-! ## Blocks -/

theorem p_block {d : Nat} {inl cl cl' : Bool} {t : St} {ts : List Tk} (ih : Parsed off G xs m s0 a true d inl cl' t ts) :
    Parsed off G xs m s0 a false (d + 1) inl cl t (lbr :: ts ++ [rbr]) := by
  intro s u rest its h hok hu hcl hd hsc hin hsz hnl
  have h' : Rdy off G xs s0 a its (lbr :: (ts ++ rbr :: u :: rest)) s := by simpa using h
  let sA : S := { s with
    scopes := s.scopes.set s.scopeCount (s.scopes.get (s.scopeCount - 1)), scopeCount := s.scopeCount + 1, ignoreRedef := s.ignoreRedef + 1, log := .push :: s.log }
  have hlt : s.scopeCount < 16 := by have : s.scopeCount + (d + 1) ≤ 16 := hsc; omega
  have eA : pushScope s = .ok () sA := run_getS (run_failIf (by rw [beq_eq_false_iff_ne]; show s.scopeCount ≠ 16; omega) rfl)
  have rA : Rdy off G xs s0 a its (lbr :: (ts ++ rbr :: u :: rest)) sA :=
    ⟨h'.on.of_tks rfl, h.ids, h.loc, h.sp, h.push, h.reg, h.sw, Nat.succ_le_succ (Nat.zero_le _), h.rl, h.hist.same ⟨rfl, rfl, rfl, rfl, rfl⟩ rfl rfl, h.funs.of rfl rfl⟩
  obtain ⟨v, vs, ev⟩ : ∃ v vs, ts ++ rbr :: u :: rest = v :: vs := by cases ts <;> exact ⟨_, _, rfl⟩
  rw [ev] at rA
  obtain ⟨s1, e1, r1, m1, d1⟩ := rA.expect s.labelCount 0x7B rfl
  rw [← ev] at r1
  have hin1 : inl = true → Loop s1 := fun e => by
    have hL : Loop sA := hin e
    exact hL.mv m1
  have c1 : s1.code ≤ s.code := m1.code
  have l1 : s1.labelCount = s.labelCount := m1.lc
  have lo1 : s1.localOffset = s.localOffset := m1.lo
  have dd1 : s1.dead = s.dead := d1
  have sc1 : s1.scopeCount = s.scopeCount + 1 := m1.scc
  obtain ⟨s2, ys, ⟨N, g2⟩, r2⟩ := ih s1 rbr (u :: rest) its r1 hok (fun _ => rfl) (fun _ => by decide) (fun e => hd (by rw [← dd1]; exact e))
    (by omega) hin1 (by omega) (by omega)
  obtain ⟨s3, e3, r3, m3, d3⟩ := r2.rdy.tok s.labelCount
  have M : Mv s.labelCount (sz t) (nl t) sA ys s3 := by
    have := (m1.trans r2.mv (Nat.le_of_eq l1.symm)).trans m3 (Nat.le_refl _)
    simpa using this
  have hsc3 : s3.scopeCount = s.scopeCount + 1 := M.scc
  have hg1 : s3.scopes.get s.scopeCount = s.scopes.get (s.scopeCount - 1) := by
    rw [M.scs _ (Nat.lt_succ_self _)]
    exact Tab.get_set_self ..
  have hg2 : ∀ i < s.scopeCount, s3.scopes.get i = s.scopes.get i := by
    intro i hi
    rw [M.scs _ (Nat.lt_succ_of_lt hi)]
    exact Tab.get_set_ne _ _ (by show s.scopeCount < 16; omega) (by show i < 16; omega) (by omega)
  have hpos := h.sc
  let s4 : S := { s3 with scopeCount := s3.scopeCount - 1, ignoreRedef := s3.ignoreRedef - 1, log := .pop :: s3.log }
  have e4 : popScope s3 = .ok () s4 := by
    refine run_getS (run_failIf (by rw [beq_eq_false_iff_ne]; omega) (run_modS (run_getS (run_bind (a := ()) (s1 := { s3 with scopeCount := s3.scopeCount - 1, ignoreRedef := s3.ignoreRedef - 1 }) ?_ rfl))))
    have : s3.scopes.get (s3.scopeCount - 1) - s3.scopes.get (s3.scopeCount - 1 - 1) = 0 := by
      rw [hsc3, Nat.add_sub_cancel, hg1, hg2 _ (by omega)]; exact Nat.sub_self _
    show popVars (s3.scopes.get (s3.scopeCount - 1) - s3.scopes.get (s3.scopeCount - 1 - 1)) _ _ = _
    rw [this]; rfl
  let s5 : S := { s4 with spAdj := s4.spAdj + (s.localOffset - s4.localOffset), localOffset := s.localOffset, memCount := s.memCount, structCount := s.structCount,
                          arrayCount := s.arrayCount }
  have hlo3 : s3.localOffset = s.localOffset := M.lo
  have M5 : Mv s.labelCount (sz t) (nl t) s ys s5 := by
    refine ⟨?_, rfl, hg2, M.lab, M.labM, M.code, M.rl, M.own, M.fl⟩
    have hf := M.fz
    have h1 : s5.spAdj = s3.spAdj := by show s3.spAdj + (s.localOffset - s3.localOffset) = s3.spAdj; rw [hlo3, Int.sub_self, Int.add_zero]
    have h2 : s3.ignoreRedef = s.ignoreRedef + 1 := by have := congrArg S.ignoreRedef hf; exact this
    have h3 : fz s5 = { fz s3 with scopeCount := s5.scopeCount, ignoreRedef := s5.ignoreRedef, spAdj := s5.spAdj, memCount := s.memCount, structCount := s.structCount, arrayCount := s.arrayCount } := rfl
    have h4 : s5.scopeCount = s.scopeCount := by show s3.scopeCount - 1 = _; rw [hsc3]; rfl
    have h5 : s5.ignoreRedef = s.ignoreRedef := by show s3.ignoreRedef - 1 = _; rw [h2]; rfl
    have h6 : s3.spAdj = s.spAdj := by have := congrArg S.spAdj hf; exact this
    rw [h3, h4, h5, h1, h6, hf]
    rfl
  have hd5 : s5.dead = (s.dead || dies t) := by
    show s3.dead = _
    rw [d3, r2.dead, dd1]
  refine ⟨s5, ys, Go.of N fun n hn => run_bind (a := ()) (s1 := s5) (run_getS (run_pos h'.on.1.tok (run_getS (run_bind eA (run_bind e1 (run_bind (g2 n hn) (run_bind e3
    (run_bind e4 rfl)))))))) rfl, h.of M5 (r3.on.of_tks rfl) r3.push r3.reg (r3.hist.same ⟨rfl, rfl, rfl, rfl, rfl⟩ rfl rfl), M5, hd5, fun R hR => ?_⟩
  have hR2 : s2.returnLabel = -1 ∨ s2.returnLabel = R := by
    have h1 : s3.returnLabel = -1 ∨ s3.returnLabel = R := hR
    have h2 := m3.rl
    have h3 := m3.lc
    omega
  have hc := r2.code R hR2
  rw [lo1, m1.bl, m1.cl, l1] at hc
  have h3 : s5.labelCount = s2.labelCount := m3.lc
  rw [h3]
  exact hc

end

end SccStm
