import Verif.Props.SccGenRun
import Verif.Props.SccStmAsgn
/-!
# Calls (C49): expressions compiled while a change of SP is pending

Before the first argument of a call `ParseCall` makes room on the stack, and after the call it removes the arguments. Neither is done at once:
`LocalOffset` and `SpAdj` change, and the instruction that changes SP is emitted before the next instruction (`FlushSpAdj`, scc.c:1378-1388).
-/
namespace SccCall
open Prog Scc SccCode SccGen SccStm Props.SccLex

variable {off : Nat → Int}

/-! ## The pending change of SP -/

/-- The state once SP has been changed. -/
def fl (s : S) : S := if s.spAdj = 0 then s else put { s with spAdj := 0 } (spB s.spAdj)

/-- A change of SP may be pending. -/
structure Pd (s : S) : Prop where
  dead : s.dead = false
  adj : s.spAdj = 0 ∨ s.spAdj = 8 ∨ s.spAdj = -8

theorem Pd.of {s s' : S} (h : Pd s) (hf : core s' = core s) : Pd s' := by
  have h2 : s'.spAdj = s.spAdj := show (core s').spAdj = (core s).spAdj by rw [hf]
  have h3 : s'.dead = s.dead := show (core s').dead = (core s).dead by rw [hf]
  exact ⟨h3.trans h.dead, by rw [h2]; exact h.adj⟩

theorem _root_.SccGen.Up.pd {s : S} (h : Up s) : Pd s := ⟨h.dead, .inl h.spAdj⟩

theorem fl_up {s : S} (h : Up s) : fl s = s := if_pos h.spAdj

theorem fl_put {s : S} (h : s.spAdj ≠ 0) : fl s = put { s with spAdj := 0 } (spB s.spAdj) := if_neg h

theorem put_up {s : S} (h : s.spAdj ≠ 0) : fl s = { s with spAdj := 0, out := putOut s.out s.code (spB s.spAdj), code := s.code + 3 } := by
  rw [fl_put h, put_eq]; rfl

theorem up_fl {s : S} (h : Pd s) : Up (fl s) := by
  by_cases hs : s.spAdj = 0
  · rw [fl, if_pos hs]; exact ⟨h.dead, hs⟩
  · rw [put_up hs]; exact ⟨h.dead, rfl⟩

theorem core_fl (s : S) : core (fl s) = { core s with spAdj := 0 } := by
  by_cases hs : s.spAdj = 0
  · rw [fl, if_pos hs]
    conv => lhs; rw [show s = { s with spAdj := 0 } by cases s; cases hs; rfl]
    rfl
  · rw [put_up hs]; rfl

theorem core_fl_congr {s s' : S} (h : core s' = core s) : core (fl s') = core (fl s) := by rw [core_fl, core_fl, h]

theorem ids_fl (s : S) : ids (fl s) = ids s := by
  by_cases hs : s.spAdj = 0
  · rw [fl, if_pos hs]
  · rw [put_up hs]; rfl

theorem push_fl (s : S) : (fl s).push = s.push := by
  by_cases hs : s.spAdj = 0
  · rw [fl, if_pos hs]
  · rw [put_up hs]

theorem reg_fl (s : S) : (fl s).regUse = s.regUse := by
  by_cases hs : s.spAdj = 0
  · rw [fl, if_pos hs]
  · rw [put_up hs]

theorem type_fl (s : S) : (fl s).type = s.type := by
  by_cases hs : s.spAdj = 0
  · rw [fl, if_pos hs]
  · rw [put_up hs]

theorem val_fl (s : S) : (fl s).val = s.val := by
  by_cases hs : s.spAdj = 0
  · rw [fl, if_pos hs]
  · rw [put_up hs]

theorem lo_fl (s : S) : (fl s).localOffset = s.localOffset := by
  by_cases hs : s.spAdj = 0
  · rw [fl, if_pos hs]
  · rw [put_up hs]

theorem tku_fl (s : S) : tku (fl s) = tku s := by
  by_cases hs : s.spAdj = 0
  · rw [fl, if_pos hs]
  · rw [put_up hs]; rfl

theorem tks_fl (s : S) : tks (fl s) = tks s := congrArg Prod.fst (tku_fl s)

theorem zf_fl (s : S) : (fl s).lastZF = s.lastZF := by
  by_cases hs : s.spAdj = 0
  · rw [fl, if_pos hs]
  · rw [put_up hs]

theorem bal_fl (s : S) : bal (fl s) = bal s := by unfold bal; rw [lo_fl, reg_fl, push_fl]

theorem code_fl (s : S) : s.code ≤ (fl s).code ∧ (fl s).code ≤ s.code + 3 := by
  by_cases hs : s.spAdj = 0
  · rw [fl, if_pos hs]; omega
  · rw [put_up hs]; show s.code ≤ s.code + 3 ∧ _; exact ⟨by omega, Nat.le_refl _⟩

theorem room_fl {s : S} {n : Nat} (h : Room s (3 + n)) : Room (fl s) n := by
  have h1 := code_fl s
  unfold Room at *
  generalize codeStart = a, outputMax = b at *
  omega

/-- What is known of the value does not change. -/
theorem fl_val (s : S) (t : Nat) : fl { s with type := t } = { fl s with type := t } := by
  by_cases hs : s.spAdj = 0
  · rw [fl, if_pos (show ({ s with type := t } : S).spAdj = 0 from hs), fl, if_pos hs]
  · rw [put_up hs, put_up (show ({ s with type := t } : S).spAdj ≠ 0 from hs)]

theorem fl_uns (s : S) (b : Bool) : fl { s with isUnsigned := b } = { fl s with isUnsigned := b } := by
  by_cases hs : s.spAdj = 0
  · rw [fl, if_pos (show ({ s with isUnsigned := b } : S).spAdj = 0 from hs), fl, if_pos hs]
  · rw [put_up hs, put_up (show ({ s with isUnsigned := b } : S).spAdj ≠ 0 from hs)]

theorem fl_tok {s s' : S} (h : Tok s s') : Tok (fl s) (fl s') := by
  have hsp : s'.spAdj = s.spAdj := by rw [h]
  by_cases hs : s.spAdj = 0
  · rw [fl, if_pos hs, fl, if_pos (hsp.trans hs)]; exact h
  · rw [put_up hs, put_up (by rw [hsp]; exact hs)]
    unfold Tok at *
    rw [h]

theorem flushSpAdj_fl {s : S} (h : Pd s) (hr : Room s 3) : flushSpAdj s = .ok () (fl s) := by
  by_cases hs : s.spAdj = 0
  · rw [fl, if_pos hs]
    exact run_getS (run_pos hs rfl)
  · have hd : ({ s with spAdj := 0, push := false } : S).dead = false := h.dead
    have hb : ∀ bs : List Byte, bs.length = 3 → outA bs { s with spAdj := 0, push := false } = .ok () (put { s with spAdj := 0, push := false } bs) :=
      fun bs hl => run_getS (run_neg (by rw [hd]; decide) (raw_put bs _ (by rw [hl]; exact hr)))
    have e1 : addRegConstWith outA rSP s.spAdj { s with spAdj := 0, push := false } = .ok () (put { s with spAdj := 0, push := false } (spB s.spAdj)) := by
      obtain h0 | h8 | h8 := h.adj
      · exact absurd h0 hs
      · rw [h8]
        exact run_neg (by decide) (run_ub rfl (run_neg (by decide) (run_pos (by decide) (hb [0x83, 0xC4, 8] rfl))))
      · rw [h8]
        exact run_neg (by decide) (run_ub rfl (run_neg (by decide) (run_pos (by decide) (hb [0x83, 0xEC, 8] rfl))))
    refine run_getS (run_neg hs (run_modS (run_bind e1 ?_)))
    rw [put_up hs, put_eq]
    rfl

theorem bind_same {α β : Type} {x : A α} {f : α → A β} {s s' : S} (h : x s = x s') : (x >>= f) s = (x >>= f) s' := by
  rw [bind_run, bind_run, h]

/-- The change is made before the next instruction. -/
theorem output_fl {s : S} (h : Pd s) (hr : Room s 3) (bs : List Byte) : output bs s = output bs (fl s) := by
  by_cases hs : s.spAdj = 0
  · rw [fl, if_pos hs]
  have hu := up_fl h
  have hl : output bs s = (flushPushAx >>= fun _ => checkSize >>= fun _ => raw bs) (fl s) := by
    refine run_getS (run_pos (.inr (.inl hs)) ?_)
    have e : emitChecks s = (flushPushAx >>= fun _ => checkSize >>= fun _ => pure false) (fl s) :=
      run_getS (run_neg (by rw [h.dead]; decide) (run_bind (flushSpAdj_fl h hr) rfl))
    rw [bind_run, e, bind_run, bind_run]
    cases flushPushAx (fl s) with
    | err e => rfl
    | ok a t =>
      simp only
      rw [bind_run, bind_run]
      cases checkSize t with
      | err e => rfl
      | ok a t => rfl
  rw [hl]
  have hsz : checkSize (fl s) = .ok () (fl s) := by
    have h1 := (code_fl s).2
    have : ¬ outputMax + codeStart < (fl s).code := by
      unfold Room at hr
      generalize codeStart = a, outputMax = b at *
      omega
    refine run_getS ?_
    rw [decide_eq_false this]; rfl
  by_cases hp : (fl s).push = true
  · refine Eq.symm (run_getS (run_pos (.inr (.inr hp)) ?_))
    have e : emitChecks (fl s) = (flushPushAx >>= fun _ => checkSize >>= fun _ => pure false) (fl s) :=
      run_getS (run_neg (by rw [hu.dead]; decide) (run_bind (a := ()) (s1 := fl s) (run_getS (run_pos hu.spAdj rfl)) rfl))
    rw [bind_run, e, bind_run, bind_run]
    cases flushPushAx (fl s) with
    | err e => rfl
    | ok a t =>
      simp only
      rw [bind_run, bind_run]
      cases checkSize t with
      | err e => rfl
      | ok a t => rfl
  · have e1 : flushPushAx (fl s) = .ok () (fl s) := run_getS (run_neg hp rfl)
    rw [run_bind e1 (run_bind hsz rfl)]
    refine Eq.symm (run_getS (run_neg ?_ rfl))
    rw [hu.dead, hu.spAdj]
    rintro (h | h | h)
    · cases h
    · exact h rfl
    · exact hp h

theorem modrm_fl {s : S} (h : Pd s) (hr : Room s 3) (inst : Nat) (v : Int) : emitModrm inst rAX vtLocOff v s = emitModrm inst rAX vtLocOff v (fl s) := by
  unfold emitModrm
  rw [if_pos rfl]
  exact bind_same (output_fl h hr _)

theorem lval_fl {s : S} (h : Pd s) (hr : Room s 3) (ht : s.type = vtInt ||| vtLval ||| vtLocOff) : lvalToRval s = lvalToRval (fl s) := by
  have e : ∀ s : S, s.type = vtInt ||| vtLval ||| vtLocOff → lvalToRval s = (emitModrm 0x8B rAX vtLocOff s.val >>= fun _ => (pure () : A Unit)) { s with type := vtInt } := by
    intro s ht
    refine run_getS (run_neg (by rw [ht]; decide) ?_)
    rw [ht]
    exact run_modS (run_neg (by decide) (run_neg (by decide) (run_neg (by decide) rfl)))
  have h2 : Pd { s with type := vtInt } := ⟨h.dead, h.adj⟩
  rw [e s ht, bind_same (modrm_fl h2 hr 0x8B s.val), fl_val, ← val_fl s]
  exact (e _ ((type_fl s).trans ht)).symm

theorem getVal_fl {s : S} (h : Pd s) (hr : Room s 3) (ht : s.type = vtInt ||| vtLval ||| vtLocOff) : getVal s = getVal (fl s) := by
  have e : ∀ s : S, s.type = vtInt ||| vtLval ||| vtLocOff → getVal s = (lvalToRval >>= fun _ => getS >>= fun s => if s.type &&& vtLocMask ≠ 0 then do
      failIf (s.type != vtInt ||| vtLocLit)
      setType vtInt
      if s.val ≠ 0 then emitMovRImm rAX s.val else output [0x31, 0xC0]
    else pure ()) s := by
    intro s ht
    exact run_getS (run_neg (by rw [ht]; decide) rfl)
  rw [e s ht, e _ ((type_fl s).trans ht)]
  exact bind_same (lval_fl h hr ht)

theorem lhsStep_fl {s : S} (h : Pd s) (hr : Room s 3) (ht : s.type = vtInt ||| vtLval ||| vtLocOff) (o : BOp) :
    lhsStep o.tok o.prec s = lhsStep o.tok o.prec (fl s) := by
  obtain ⟨p1, p2, p3⟩ := tok_facts o
  refine run_getS (run_neg p1 ?_)
  refine Eq.symm (run_getS (run_neg p1 ?_))
  exact bind_same (lval_fl h hr ht).symm

theorem finishBin_fl {s : S} (h : Pd s) (hr : Room s 3) (ht : s.type = vtInt ||| vtLval ||| vtLocOff) (o : BOp) (ex x : Int) :
    finishBin o.tok vtInt vtLocLit ex x s = finishBin o.tok vtInt vtLocLit ex x (fl s) := by
  have hn : s.type ≠ vtLocLit ||| vtInt := by rw [ht]; decide
  unfold finishBin
  refine run_neg (by decide) (run_bind (a := 0) rfl (run_getS (run_neg hn (run_pos rfl (run_failIf rfl ?_)))))
  refine Eq.symm (run_neg (by decide) (run_bind (a := 0) rfl (run_getS (run_neg (by rw [type_fl]; exact hn) (run_pos rfl (run_failIf rfl ?_))))))
  exact bind_same (getVal_fl h hr ht).symm

/-! ## What has been compiled -/

/-- The values of a literal and of a variable need no code; all other code comes after the change of SP. -/
def DoneP (off : Nat → Int) (s : S) (g : G) (s' : S) : Prop :=
  match g.kd with
  | .lit _ => g.bs = [] ∧ Done off s g s'
  | .var _ => g.bs = [] ∧ Done off s g s'
  | .reg _ => Done off (fl s) g s'
  | .flag _ => Done off (fl s) g s'

theorem done_fl {s s1 : S} {g : G} (hd : Done off s g s1) (hb : g.bs = []) (hk : (∃ v, g.kd = .lit v) ∨ ∃ x, g.kd = .var x) (hr : Room s 3) :
    Done off (fl s) g (fl s1) := by
  obtain ⟨bs, kd, r⟩ := g
  obtain rfl : bs = [] := hb
  have hc : s1.code = s.code := by rw [hd.em.code]; rfl
  have hsp : s1.spAdj = s.spAdj := show (core s1).spAdj = (core s).spAdj by rw [hd.em.fr]
  have hcf : (fl s1).code = (fl s).code := by
    by_cases hs : s.spAdj = 0
    · rw [fl, if_pos (hsp.trans hs), fl, if_pos hs, hc]
    · rw [put_up hs, put_up (by rw [hsp]; exact hs)]
      show s1.code + 3 = s.code + 3
      rw [hc]
  have hz := hd.zf
  refine ⟨⟨core_fl_congr hd.em.fr, Nat.le_trans hd.em.ge (code_fl s).1, hcf, fun i h => absurd h (by simp), fun j hj => ?_⟩, (reg_fl s1).trans hd.reg,
    (bal_fl s1).trans (hd.bal.trans (bal_fl s).symm), by rw [zf_fl]; exact Nat.le_trans hz (code_fl s1).1, ?_⟩
  · by_cases hs : s.spAdj = 0
    · rw [fl, if_pos (hsp.trans hs), fl, if_pos hs]
      rw [fl, if_pos hs] at hj
      exact hd.em.old j hj
    · have w := put_wrote (spB s.spAdj) { s with spAdj := 0 } hr
      have w1 := put_wrote (spB s.spAdj) { s1 with spAdj := 0 } (by unfold Room at *; show _ ∧ s1.code - _ + _ ≤ _; rw [hc]; exact hr)
      have hj2 : j < s.code + 3 - codeStart := by rw [put_up hs] at hj; exact hj
      rw [fl_put hs, fl_put (by rw [hsp]; exact hs), hsp]
      obtain ⟨o, e, n, old⟩ := w
      obtain ⟨o1, e1, n1, old1⟩ := w1
      rw [e, e1]
      show o1.get j = o.get j
      by_cases hlt : j < s.code - codeStart
      · rw [old j (.inl hlt), old1 j (.inl (by rw [show ({ s1 with spAdj := 0 } : S).code = s.code from hc]; exact hlt))]
        exact hd.em.old j hlt
      · have hg := hd.em.ge
        obtain ⟨i, hi, rfl⟩ : ∃ i, i < 3 ∧ j = s.code - codeStart + i := ⟨j - (s.code - codeStart), by generalize codeStart = a at *; omega, by omega⟩
        have q := n i hi
        have q1 := n1 i hi
        rw [show ({ s1 with spAdj := 0 } : S).code = s.code from hc] at q1
        rw [q1]
        exact q.symm
  · rw [push_fl]
    obtain ⟨v, hk⟩ | ⟨v, hk⟩ := hk
    · simp only at hk
      subst hk
      have := hd.kd
      exact ⟨(type_fl s1).trans this.1, (val_fl s1).trans this.2.1, (push_fl s1).trans this.2.2⟩
    · simp only at hk
      subst hk
      have := hd.kd
      exact ⟨(type_fl s1).trans this.1, (val_fl s1).trans this.2.1, (push_fl s1).trans this.2.2⟩

theorem DoneP.of_up {s s' : S} (hu : Up s) {g : G} (h : DoneP off s g s') : Done off s g s' := by
  obtain ⟨bs, kd, r⟩ := g
  unfold DoneP at h
  rw [fl_up hu] at h
  cases kd with
  | lit v => exact h.2
  | var v => exact h.2
  | reg v => exact h
  | flag v => exact h

theorem DoneP.tok_r {s s1 s2 : S} {g : G} (h : DoneP off s g s1) (ht : Tok s1 s2) : DoneP off s g s2 := by
  obtain ⟨bs, kd, r⟩ := g
  unfold DoneP at *
  cases kd with
  | lit v => exact ⟨h.1, h.2.tok_r ht⟩
  | var v => exact ⟨h.1, h.2.tok_r ht⟩
  | reg v => exact Done.tok_r h ht
  | flag v => exact Done.tok_r h ht

theorem DoneP.tok_l {s s1 s2 : S} {g : G} (h : DoneP off s1 g s2) (ht : Tok s s1) : DoneP off s g s2 := by
  obtain ⟨bs, kd, r⟩ := g
  unfold DoneP at *
  cases kd with
  | lit v => exact ⟨h.1, h.2.tok_l ht⟩
  | var v => exact ⟨h.1, h.2.tok_l ht⟩
  | reg v => exact Done.tok_l h (fl_tok ht)
  | flag v => exact Done.tok_l h (fl_tok ht)

theorem DoneP.uns {s s1 : S} {g : G} (h : DoneP off s g s1) (b : Bool) : DoneP off s g { s1 with isUnsigned := b } := by
  obtain ⟨bs, kd, r⟩ := g
  unfold DoneP at *
  cases kd with
  | lit v => exact ⟨h.1, h.2.uns b⟩
  | var v => exact ⟨h.1, h.2.uns b⟩
  | reg v => exact Done.uns h b
  | flag v => exact Done.uns h b

theorem DoneP.types {s s1 : S} {g : G} (h : DoneP off s g s1) :
    s1.type = vtLocLit ||| vtInt ∨ s1.type = vtInt ||| vtLval ||| vtLocOff ∨ s1.type = vtInt ∨ s1.type = vtBool := by
  obtain ⟨bs, kd, r⟩ := g
  unfold DoneP at h
  cases kd with
  | lit v => exact h.2.types
  | var v => exact h.2.types
  | reg v => exact Done.types h
  | flag v => exact Done.types h

theorem DoneP.ids {s s1 : S} {g : G} (h : DoneP off s g s1) : ids s1 = ids s := by
  obtain ⟨bs, kd, r⟩ := g
  unfold DoneP at h
  cases kd with
  | lit v => exact ids_core h.2.em.fr
  | var v => exact ids_core h.2.em.fr
  | reg v => exact (ids_core h.em.fr).trans (ids_fl s)
  | flag v => exact (ids_core h.em.fr).trans (ids_fl s)

theorem DoneP.not_lit {s s1 : S} {g : G} (h : DoneP off s g s1) (hl : ∀ v, g.kd ≠ .lit v) : s1.type &&& vtLocMask ≠ vtLocLit ∧ s1.type ≠ vtLocLit ||| vtInt := by
  obtain ⟨bs, kd, r⟩ := g
  unfold DoneP at h
  cases kd with
  | lit v => exact absurd rfl (hl v)
  | var v => rw [h.2.kd.1]; decide
  | reg v => rw [h.kd.1]; decide
  | flag v => rw [h.kd.1]; decide

/-- A value that is no constant, after the change of SP. -/
theorem DoneP.go {α : Type} {s s1 : S} {g : G} (h : DoneP off s g s1) (hp : Pd s) (hr : Room s 3) (hl : ∀ v, g.kd ≠ .lit v) (x : A α)
    (hx : ∀ s : S, Pd s → Room s 3 → s.type = vtInt ||| vtLval ||| vtLocOff → x s = x (fl s)) :
    ∃ s1', x s1 = x s1' ∧ Done off (fl s) g s1' ∧ tku s1' = tku s1 := by
  obtain ⟨bs, kd, r⟩ := g
  unfold DoneP at h
  cases kd with
  | lit v => exact absurd rfl (hl v)
  | var v =>
    refine ⟨fl s1, hx s1 (hp.of h.2.em.fr) ?_ h.2.kd.1, done_fl h.2 h.1 (.inr ⟨v, rfl⟩) hr, tku_fl s1⟩
    refine h.2.em.room ?_
    rw [h.1]; exact hr
  | reg v => exact ⟨s1, rfl, h, rfl⟩
  | flag v => exact ⟨s1, rfl, h, rfl⟩

theorem DoneP.toReg {s s1 : S} {g : G} (h : DoneP off s g s1) (hp : Pd s) (hl : ∀ v, g.kd ≠ .lit v) (hr : Room s (3 + (SccGen.toReg off s.push g).bs.length)) :
    ∃ s2, lvalToRval s1 = .ok () s2 ∧ Done off (fl s) (SccGen.toReg off s.push g) s2 ∧ tku s2 = tku s1 := by
  obtain ⟨s1', e, hd, ht⟩ := h.go hp (room_le hr (by omega)) hl lvalToRval fun s h hr ht => lval_fl h hr ht
  obtain ⟨s2, e2, hd2, ht2⟩ := hd.toReg (up_fl hp) (by rw [push_fl]; exact room_fl hr)
  rw [push_fl] at hd2
  exact ⟨s2, e.trans e2, hd2, ht2.trans ht⟩

theorem DoneP.toVal {s s1 : S} {g : G} (h : DoneP off s g s1) (hp : Pd s) (hl : ∀ v, g.kd ≠ .lit v) (hr : Room s (3 + (SccGen.toVal off s.push g).bs.length)) :
    ∃ s2, getVal s1 = .ok () s2 ∧ Done off (fl s) (SccGen.toVal off s.push g) s2 ∧ tku s2 = tku s1 := by
  obtain ⟨s1', e, hd, ht⟩ := h.go hp (room_le hr (by omega)) hl getVal fun s h hr ht => getVal_fl h hr ht
  obtain ⟨s2, e2, hd2, ht2⟩ := hd.toVal (up_fl hp) hl (by rw [push_fl]; exact room_fl hr)
  rw [push_fl] at hd2
  exact ⟨s2, e.trans e2, hd2, ht2.trans ht⟩

theorem DoneP.lhs {s s1 : S} {g : G} (h : DoneP off s g s1) (hp : Pd s) (o : BOp) (hl : ∀ v, g.kd ≠ .lit v)
    (hr : Room s (3 + (SccGen.toVal off s.push g).bs.length)) :
    ∃ s2, lhsStep o.tok o.prec s1 = .ok (o.tok, -1) { s2 with push := true } ∧ Done off (fl s) (SccGen.toVal off s.push g) s2 ∧ tks s2 = tks s1 := by
  obtain ⟨s1', e, hd, ht⟩ := h.go hp (room_le hr (by omega)) hl (lhsStep o.tok o.prec) fun s h hr ht => lhsStep_fl h hr ht o
  obtain ⟨s2, e2, hd2, ht2⟩ := hd.lhs (up_fl hp) o hl (by rw [push_fl]; exact room_fl hr)
  rw [push_fl] at hd2
  exact ⟨s2, e.trans e2, hd2, ht2.trans (congrArg Prod.fst ht)⟩

theorem binP_litL {s s1 : S} {g : G} (h : DoneP off s g s1) (hp : Pd s) (hun : s1.isUnsigned = false) (hl : ∀ v, g.kd ≠ .lit v) (o : BOp) (ex x : Int)
    (hx : In16 x) (hr : Room s (3 + (genLitL o x (SccGen.toVal off s.push g)).bs.length)) :
    ∃ s2, finishBin o.tok vtInt vtLocLit ex x s1 = .ok () s2 ∧ Done off (fl s) (genLitL o x (SccGen.toVal off s.push g)) s2 ∧ tks s2 = tks s1 := by
  obtain ⟨s1', e, hd, ht⟩ := h.go hp (room_le hr (by omega)) hl (finishBin o.tok vtInt vtLocLit ex x) fun s h hr ht => finishBin_fl h hr ht o ex x
  obtain ⟨s2, e2, hd2, ht2⟩ := bin_litL hd (up_fl hp) ((congrArg Prod.snd ht).trans hun) hl o ex x hx (by rw [push_fl]; exact room_fl hr)
  rw [push_fl] at hd2
  exact ⟨s2, e.trans e2, hd2, ht2.trans (congrArg Prod.fst ht)⟩

theorem DoneP.afterLit {s s1 s2 : S} {x : Int} {r : Bool} {g : G} (h : Done off s ⟨[], .lit x, r⟩ s1) (h2 : DoneP off s1 g s2) (hr : Room s 3) : DoneP off s g s2 := by
  have h' := done_fl h rfl (.inl ⟨x, rfl⟩) hr
  obtain ⟨bs, kd, r⟩ := g
  unfold DoneP at *
  cases kd with
  | lit v => exact ⟨h2.1, h.afterLit h2.2⟩
  | var v => exact ⟨h2.1, h.afterLit h2.2⟩
  | reg v => exact h'.afterLit h2
  | flag v => exact h'.afterLit h2

/-! ## The parser -/

theorem locals_fl {xs : List Nat} {s : S} (h : Locals off xs s) : Locals off xs (fl s) := by
  have h1 : (fl s).lookup = s.lookup := by
    by_cases hs : s.spAdj = 0
    · rw [fl, if_pos hs]
    · rw [put_up hs]
  have h2 : (fl s).vars = s.vars := by
    by_cases hs : s.spAdj = 0
    · rw [fl, if_pos hs]
    · rw [put_up hs]
  intro x hx
  obtain ⟨a, b, v, c, d, e⟩ := h x hx
  exact ⟨a, b, v, by rw [h1]; exact c, by rw [h2]; exact d, by rw [h2]; exact e⟩

/-- What the parser does with an expression. -/
def ParsesP (off : Nat → Int) (s0 : Base) (xs : List Nat) (q : Nat) (e : E) (ts : List Tk) : Prop :=
  ∀ (s : S) (t : Tk) (rest : List Tk), On s0 s (ts ++ t :: rest) → core s = core s0 → q ≤ t.prec → NoPost t → Stat e → (∀ x ∈ Vars e, x ∈ xs) →
    s.lastZF ≤ s.code → Room s (3 + (gen off e s.push s.regUse).bs.length) →
    ∃ n s1 s', Go .cast s s1 ∧ Rounds q n s1 s' ∧ On s0 s' (t :: rest) ∧ DoneP off s (gen off e s.push s.regUse) s'

theorem parsesP_par (s0 : Base) (xs : List Nat) (hl : Locals off xs s0) (q : Nat) {e : E} {ts : List Tk} (h : Shows 10 e ts) (ih : ParsesP off s0 xs 10 e ts) :
    ParsesP off s0 xs q e (.sym 0x28 precStop :: ts ++ [.sym 0x29 precStop]) := by
  intro s t rest hon hc hq hnp hs hx hz hr
  have htok : s.tok = 0x28 := by
    exact (hon : On s0 s (.sym 0x28 precStop :: (ts ++ [.sym 0x29 precStop] ++ t :: rest))).1.tok
  obtain ⟨t0, us, rfl, hst⟩ := h.start hx
  obtain ⟨s2, e2, on2, tk2⟩ := On.next (s := s) (ts := us ++ [.sym 0x29 precStop] ++ t :: rest) hon hc
  have hc2 := tk2.core.trans hc
  have hon2 : On s0 s2 (t0 :: us ++ Tk.sym 0x29 precStop :: t :: rest) := by
    have : us ++ [Tk.sym 0x29 precStop] ++ t :: rest = us ++ Tk.sym 0x29 precStop :: t :: rest := by simp
    rw [this] at on2
    exact on2
  obtain ⟨n, s3, s4, h3, h4, on4, hd⟩ := ih s2 _ _ hon2 hc2 (by decide) close_nopost hs hx (by rw [tk2.lastZF, tk2.code]; exact hz)
    (by rw [tk2.push, tk2.regUse]; exact tk2.room hr)
  rw [tk2.push, tk2.regUse] at hd
  obtain ⟨s5, e5, on5, tk5⟩ := on4.next' (hd.ids.trans (ids_core hc2))
  obtain ⟨N1, g3⟩ := h3
  obtain ⟨N2, g4⟩ := h4.tail (q' := precComma) (by decide) (by rw [on4.1.prec]; decide)
  have hexpr : Go .expr s2 s4 := Go.of (N1 + N2) fun n hn =>
    run_bind (a := ()) (s1 := s4) (run_bind (g3 n (by omega)) (run_getS (g4 n (by omega)))) rfl
  obtain ⟨N3, g5⟩ := hexpr
  obtain ⟨N4, g6⟩ := postfix_nop on5.1 hnp
  refine ⟨0, s5, s5, ?_, .refl _, on5, (hd.tok_l tk2).tok_r tk5⟩
  refine Go.of (N3 + N4) fun n hn => run_bind (a := ()) (s1 := s5) (run_getS (run_pos htok (run_bind e2 (run_getS (run_neg ?_
    (run_bind (g5 n (by omega)) (run_bind (a := ()) (s1 := s5) (run_getS (run_pos on4.1.tok e5)) (g6 n (by omega))))))))) rfl
  rw [no_type (hl.of_core hc2) hst on2.1]; decide

theorem DoneP.lit {s s1 : S} {v : Int} {r : Bool} (h : DoneP off s ⟨[], .lit v, r⟩ s1) : Done off s ⟨[], .lit v, r⟩ s1 := h.2

theorem DoneP.of_reg {s s1 : S} {g : G} (h : Done off (fl s) g s1) (hl : ∀ v, g.kd ≠ .lit v) (hv : ∀ x, g.kd ≠ .var x) : DoneP off s g s1 := by
  obtain ⟨bs, kd, r⟩ := g
  cases kd with
  | lit v => exact absurd rfl (hl v)
  | var v => exact absurd rfl (hv v)
  | reg v => exact h
  | flag v => exact h

theorem parsesP_un (s0 : Base) (xs : List Nat) (hp0 : Pd s0) (q : Nat) (o : UOp) {e : E} {ts : List Tk} (h : Shows 0 e ts) (ih : ParsesP off s0 xs 0 e ts) :
    ParsesP off s0 xs q (.un o e) (.sym o.tok o.prec :: ts) := by
  intro s t rest hon hc hq hnp hs hx hz hr
  have htok : s.tok = o.tok := by exact (hon : On s0 s (.sym o.tok o.prec :: (ts ++ t :: rest))).1.tok
  have hp : Pd s := hp0.of hc
  obtain ⟨t0, us, rfl, hst⟩ := h.start hx
  obtain ⟨s2, e2, on2, tk2⟩ := On.next (s := s) (ts := us ++ t :: rest) hon hc
  have hc2 := tk2.core.trans hc
  have hs' := hs
  obtain ⟨hs1, hs2, hs3⟩ := hs'
  have hroom : (gen off e s.push s.regUse).bs.length ≤ (gen off (.un o e) s.push s.regUse).bs.length := by
    cases hce : cst e with
    | some x => rw [(gen_cst off e s.push s.regUse x hs1 hce).1]; exact Nat.zero_le _
    | none =>
      simp only [gen, hce]
      exact Nat.le_trans (len_toReg (off := off) _ _) (len_un _ _)
  obtain ⟨n, s3, s4, h3, h4, on4, hd⟩ := ih s2 t rest on2 hc2 (Nat.zero_le _) hnp hs1 hx (by rw [tk2.lastZF, tk2.code]; exact hz)
    (by rw [tk2.push, tk2.regUse]; exact tk2.room (room_le hr (by omega)))
  obtain rfl := h4.zero
  rw [tk2.push, tk2.regUse] at hd
  have hd := hd.tok_l tk2
  have hop : o.tok ≠ 0x28 ∧ (o.tok = 0x2D ∨ o.tok = 0x21 ∨ o.tok = 0x2A ∨ o.tok = 0x26 ∨ o.tok = 0x7E ∨ o.tok = 0x2B) ∧ o.tok ≠ 0x26 := by
    cases o <;> decide
  obtain ⟨N1, g3⟩ := h3
  have key : ∀ {s5 : S}, (getS >>= fun s => (if s.type &&& vtLocMask = vtLocLit then failIf (s.type != vtInt ||| vtLocLit) >>= fun _ => doUnary o.tok true
      else lvalToRval >>= fun _ => doUnary o.tok false : A Unit)) s3 = .ok () s5 → Go .cast s s5 := by
    intro s5 e5
    have hg : Go .unary s s5 := by
      refine Go.of N1 fun n hn => run_bind (a := ()) (s1 := s5) (run_getS (run_pos (by rw [htok]; exact hop.2.1) ?_)) rfl
      refine run_getS (run_bind e2 (run_bind (g3 n (by omega)) (run_neg (by rw [htok]; exact hop.2.2) ?_)))
      rw [htok]
      exact e5
    obtain ⟨N, hg⟩ := hg
    exact Go.of N fun n hn => run_bind (a := ()) (s1 := s5) (run_getS (run_neg (by rw [htok]; exact hop.1) (hg n hn))) rfl
  cases hce : cst e with
  | some x =>
    obtain ⟨hg, hx16⟩ := gen_cst off e s.push s.regUse x hs1 hce
    rw [hg] at hd
    obtain ⟨s5, e5, hd5, ht5⟩ := hd.lit.unConst (by unfold In16 at hx16; omega) o
    have ht : s3.type = vtLocLit ||| vtInt := hd.lit.kd.1
    refine ⟨0, s5, s5, key (run_getS (run_pos (by rw [ht]; decide) (run_failIf (by rw [ht]; decide) e5))), .refl _, on4.of_tks ht5, ?_⟩
    simp only [gen, hce]
    exact ⟨rfl, hd5⟩
  | none =>
    have hkd := gen_kd off e s.push s.regUse hs1
    have hg : gen off (.un o e) s.push s.regUse = genUn o (toReg off s.push (gen off e s.push s.regUse)) := by simp only [gen, hce]
    have hkd2 := gen_kd off (.un o e) s.push s.regUse hs
    have hce2 : cst (.un o e) = none := by simp only [cst, hce]; rfl
    have hnl2 := hkd2.1 hce2
    have hnv2 : ∀ y, (gen off (.un o e) s.push s.regUse).kd ≠ .var y := by
      intro y hy
      rw [hg] at hy
      revert hy
      have htk := (toReg_kd off s.push (gen off e s.push s.regUse)).1
      generalize toReg off s.push (gen off e s.push s.regUse) = g at *
      obtain ⟨bs, kd, r⟩ := g
      cases o <;> cases kd <;> simp_all [genUn]
    rw [hg] at hr hnl2 hnv2 ⊢
    obtain ⟨s5, e5, hd5, ht5⟩ := hd.toReg hp (hkd.1 hce) (room_le hr (Nat.add_le_add_left (len_un _ _) 3))
    have htk := toReg_kd off s.push (gen off e s.push s.regUse)
    have hk : (∃ sk, (toReg off s.push (gen off e s.push s.regUse)).kd = .reg sk) ∨
        (∃ cc, (toReg off s.push (gen off e s.push s.regUse)).kd = .flag cc) ∧ o ≠ .neg ∧ o ≠ .bnot := by
      cases hkk : (toReg off s.push (gen off e s.push s.regUse)).kd with
      | lit y => exact absurd (htk.2.1 y hkk) (hkd.1 hce y)
      | var y => exact absurd hkk (htk.1 y)
      | reg sk => exact .inl ⟨sk, rfl⟩
      | flag cc =>
        have htest := hkd.2 cc (htk.2.2 cc hkk)
        refine .inr ⟨⟨cc, rfl⟩, fun ho => ?_, fun ho => ?_⟩
        · rw [hs2 (.inl ho) hce] at htest; cases htest
        · rw [hs2 (.inr ho) hce] at htest; cases htest
    obtain ⟨s6, e6, hd6, ht6⟩ := hd5.un (up_fl hp) o hk (room_fl hr)
    refine ⟨0, s6, s6, key (run_getS (run_neg ?_ (run_bind e5 e6))), .refl _, on4.of_tks (ht6.trans (congrArg Prod.fst ht5)), .of_reg hd6 hnl2 hnv2⟩
    exact (hd.not_lit (hkd.1 hce)).1

theorem binKd_no (o : BOp) : (∀ v, binKd o ≠ .lit v) ∧ ∀ y, binKd o ≠ .var y := by
  constructor <;> intro v h <;> cases o <;> cases h

theorem genLitL_kd (o : BOp) (x : Int) (g : G) : (∀ v, (genLitL o x g).kd ≠ .lit v) ∧ ∀ y, (genLitL o x g).kd ≠ .var y := by
  have h : ∃ gs, (genLitL o x g) = ⟨gs, binKd o, g.r⟩ := by unfold genLitL; split <;> exact ⟨_, rfl⟩
  obtain ⟨gs, h⟩ := h
  rw [h]
  exact binKd_no o

theorem genRhs_kd (o : BOp) (as : List Byte) (r : Bool) (g : G) : (∀ v, (genRhs off o as r g).kd ≠ .lit v) ∧ ∀ y, (genRhs off o as r g).kd ≠ .var y := by
  have h : ∃ gs r', (genRhs off o as r g) = ⟨gs, binKd o, r'⟩ := by unfold genRhs; split <;> exact ⟨_, _, rfl⟩
  obtain ⟨gs, r', h⟩ := h
  rw [h]
  exact binKd_no o

theorem parsesP_bin (s0 : Base) (xs : List Nat) (hl0 : Locals off xs s0) (hp0 : Pd s0) (q : Nat) (o : BOp) {a b : E} {ts us : List Tk} (hqo : o.prec ≤ q) (hb : Shows (o.prec - 1) b us)
    (iha : ParsesP off s0 xs o.prec a ts) (ihb : ParsesP off s0 xs (o.prec - 1) b us) :
    ParsesP off s0 xs q (.bin o a b) (ts ++ .sym o.tok o.prec :: us) := by
  intro s t rest hon hc hq hnp hs hx hz hr
  have hp : Pd s := hp0.of hc
  obtain ⟨p3, pq, pa⟩ := op_facts o
  have hs' := hs
  obtain ⟨hs1, hs2, hs3⟩ := hs'
  have hxa : ∀ x ∈ Vars a, x ∈ xs := fun x h => hx x (by simp [Vars, h])
  have hxb : ∀ x ∈ Vars b, x ∈ xs := fun x h => hx x (by simp [Vars, h])
  rw [List.append_assoc, List.cons_append] at hon
  have hlena : (gen off a s.push s.regUse).bs.length ≤ (gen off (.bin o a b) s.push s.regUse).bs.length := by
    cases hca : cst a with
    | some x => rw [(gen_cst off a s.push s.regUse x hs1 hca).1]; exact Nat.zero_le _
    | none =>
      simp only [gen, hca]
      exact Nat.le_trans (len_toVal (off := off) _ _) (len_rhs _ _ _ _)
  obtain ⟨n1, s1, s2, h1, r1, on2, hd2⟩ := iha s _ _ hon hc (Nat.le_refl _) (op_nopost o) hs1 hxa hz (room_le hr (by omega))
  obtain ⟨t0, vs, rfl, hst⟩ := hb.start hxb
  have hi2 := hd2.ids.trans (ids_core hc)
  obtain ⟨s3, e3, on3, tk3⟩ := On.next' (s := s2) (ts := vs ++ t :: rest) on2 hi2
  have hd3 := hd2.tok_r tk3
  have htok2 : s2.tok = o.tok := on2.1.tok
  have hprec2 : s2.prec = o.prec := on2.1.prec
  have fin : ∀ {g : G} {s7 : S}, Round s2 s7 → DoneP off s g s7 → On s0 s7 (t :: rest) → g = gen off (.bin o a b) s.push s.regUse →
      ∃ n s1 s', Go .cast s s1 ∧ Rounds q n s1 s' ∧ On s0 s' (t :: rest) ∧ DoneP off s (gen off (.bin o a b) s.push s.regUse) s' := by
    rintro g s7 hrd hd hon7 rfl
    exact ⟨_, s1, s7, h1, (r1.snoc hrd (by omega) (by omega) (by rw [htok2]; exact pq)).mono hqo, hon7, hd⟩
  cases hca : cst a with
  | some x =>
    obtain ⟨hga, hx16⟩ := gen_cst off a s.push s.regUse x hs1 hca
    rw [hga] at hd3
    have hd3 := hd3.lit
    have hc3 := hd3.em.fr.trans hc
    have hp3 : s3.push = s.push := hd3.kd.2.2
    have hr3 : s3.regUse = s.regUse := hd3.reg
    have ht3 : s3.type = vtLocLit ||| vtInt := hd3.kd.1
    have hv3 : s3.val = x := hd3.kd.2.1
    have hlenb : (gen off b s.push s.regUse).bs.length ≤ (gen off (.bin o a b) s.push s.regUse).bs.length := by
      cases hcb : cst b with
      | some y => rw [(gen_cst off b s.push s.regUse y hs2 hcb).1]; exact Nat.zero_le _
      | none =>
        simp only [gen, hca, hcb]
        refine Nat.le_trans (len_toVal (off := off) s.push _) ?_
        unfold genLitL; split <;> simp
    have hroom3 : Room s3 (3 + (gen off b s.push s.regUse).bs.length) := hd3.em.room (room_le hr (by simp; omega))
    obtain ⟨n4, s4, s5, h4, r4, on5, hd5⟩ := ihb s3 t rest on3 hc3 (by omega) hnp hs2 hxb hd3.zf (by rw [hp3, hr3]; exact hroom3)
    rw [hp3, hr3] at hd5
    have hrhs := Rounds.rhs o.prec pa (by omega) n4 r4 (by rw [on5.1.prec]; omega)
    have hd5' := DoneP.afterLit hd3 hd5 (room_le hr (by omega))
    have e4 := hd3.lhsLit o
    cases hcb : cst b with
    | some y =>
      obtain ⟨hgb, hy16⟩ := gen_cst off b s.push s.regUse y hs2 hcb
      rw [hgb] at hd5'
      obtain ⟨v, hv⟩ := Option.isSome_iff_exists.1 (hs3 x y hca hcb)
      obtain ⟨e7, hd7⟩ := finish_const hd5'.lit o s3.extra x v hx16 hy16 hv
      refine fin (g := ⟨[], .lit v, s.regUse⟩) (round_mk htok2 hprec2 e3 e4 h4 hrhs (by rw [ht3, hv3]; exact e7)) ⟨rfl, hd7⟩ (on5.of_tks rfl) ?_
      simp only [gen, hca, hcb, hv]
      rfl
    | none =>
      have hg : gen off (.bin o a b) s.push s.regUse = genLitL o x (toVal off s.push (gen off b s.push s.regUse)) := by simp only [gen, hca, hcb]
      rw [hg] at hr
      have hl := (gen_kd off b s.push s.regUse hs2).1 hcb
      obtain ⟨s7, e7, hd7, ht7⟩ := binP_litL (hd5'.uns false) hp rfl hl o s3.extra x hx16 hr
      have hn := (hd5'.not_lit hl).2
      refine fin (round_mk htok2 hprec2 e3 e4 h4 hrhs ?_) (.of_reg hd7 (genLitL_kd _ _ _).1 (genLitL_kd _ _ _).2) (on5.of_tks ht7) hg.symm
      rw [ht3, hv3, finish_bin o _ (.inr rfl) _ _ hd5'.types (fun h => hn h.2)]
      exact e7
  | none =>
    have hla := (gen_kd off a s.push s.regUse hs1).1 hca
    have hg : gen off (.bin o a b) s.push s.regUse = genRhs off o (toVal off s.push (gen off a s.push s.regUse)).bs
        (toVal off s.push (gen off a s.push s.regUse)).r (gen off b true (toVal off s.push (gen off a s.push s.regUse)).r) := by simp only [gen, hca]
    rw [hg] at hr
    obtain ⟨s4, e4, hd4, ht4⟩ := hd3.lhs hp o hla (room_le hr (Nat.add_le_add_left (len_rhs _ _ _ _) 3))
    have hr := room_fl hr
    have hu := up_fl hp
    obtain ⟨sk, hsk⟩ := toVal_reg (off := off) s.push (gen off a s.push s.regUse) hla
    have hl4 : Locals off xs (fl s) := locals_fl (hl0.of_core hc)
    generalize toVal off s.push (gen off a s.push s.regUse) = ga at *
    have hkd4 := hd4.kd
    rw [hsk] at hkd4
    have hL := hd4.left hsk
    have hc4 : core { s4 with push := true } = core (fl s) := hd4.em.fr
    have on4 : On s0 { s4 with push := true } (t0 :: vs ++ t :: rest) := on3.of_tks ht4
    have hty4 : ({ s4 with push := true } : S).type = vtInt := hkd4.1
    have hrg4 : ({ s4 with push := true } : S).regUse = ga.r := hd4.reg
    have hzf4 : ({ s4 with push := true } : S).lastZF ≤ ({ s4 with push := true } : S).code := hd4.zf
    have hpu4 : ({ s4 with push := true } : S).push = true := rfl
    generalize ({ s4 with push := true } : S) = s4' at *
    have hi4 : ids s4' = ids s0 := (ids_core hc4).trans ((ids_fl s).trans (ids_core hc))
    have hroomb : Room s4' (gen off b true ga.r).bs.length := by
      refine hL.em.room (room_le hr ?_)
      cases hkk : (gen off b true ga.r).kd with
      | lit y =>
        cases hcb : cst b with
        | none => exact absurd hkk ((gen_kd off b true ga.r hs2).1 hcb y)
        | some z =>
          rw [(gen_cst off b true ga.r z hs2 hcb).1]
          exact len_rhs _ _ _ _
      | var y => rw [gen_var hkk]; exact len_rhs _ _ _ _
      | reg sk =>
        have := len_toVal (off := off) false (gen off b true ga.r)
        simp only [genRhs, hkk, List.length_append]; omega
      | flag cc =>
        have := len_toVal (off := off) false (gen off b true ga.r)
        simp only [genRhs, hkk, List.length_append]; omega
    obtain ⟨n5, s5, s6, h5, r5, on6', hd6⟩ := parses ⟨s4', s0.fin⟩ xs (hl4.of_core hc4) (hu.of hc4) hb s4' t rest (SccStm.On.rebase on4 hi4) rfl (by omega) hnp hs2 hxb hzf4
      (by rw [hpu4, hrg4]; exact hroomb)
    have on6 : On s0 s6 (t :: rest) := SccStm.On.rebase on6' hi4.symm
    rw [hpu4, hrg4] at hd6
    have hrhs := Rounds.rhs o.prec pa (by omega) n5 r5 (by rw [on6.1.prec]; omega)
    have wrap : ∀ {g : G} {s7 : S}, finishBin o.tok vtInt 0 s4'.extra s4'.val { s6 with isUnsigned := false } = .ok () s7 → Done off (fl s) g s7 → tks s7 = tks s6 →
        g = genRhs off o ga.bs ga.r (gen off b true ga.r) →
        ∃ n s1 s', Go .cast s s1 ∧ Rounds q n s1 s' ∧ On s0 s' (t :: rest) ∧ DoneP off s (gen off (.bin o a b) s.push s.regUse) s' := by
      intro g s7 e7 hd7 ht7 hgg
      refine fin (round_mk htok2 hprec2 e3 e4 h5 hrhs ?_) (.of_reg hd7 (by rw [hgg]; exact (genRhs_kd _ _ _ _).1) (by rw [hgg]; exact (genRhs_kd _ _ _ _).2)) (on6.of_tks ht7) (hgg.trans hg.symm)
      rw [hty4, finish_bin o _ (.inl rfl) _ _ hd6.types (fun h => absurd h.1 (by decide))]
      exact e7
    cases hkk : (gen off b true ga.r).kd with
    | lit y =>
      cases hcb : cst b with
      | none => exact absurd hkk ((gen_kd off b true ga.r hs2).1 hcb y)
      | some z =>
        obtain ⟨hgb, hz16⟩ := gen_cst off b true ga.r z hs2 hcb
        rw [hgb] at hd6 hr
        obtain ⟨s7, e7, hd7, ht7⟩ := bin_litR (s2 := { s6 with isUnsigned := false }) hL hu (hd6.uns false) rfl hz16 o s4'.extra s4'.val hr
        exact wrap e7 hd7 ht7 (by rw [hgb]; rfl)
    | var y =>
      have hgb := gen_var hkk
      rw [hgb] at hd6 hr
      obtain ⟨s7, e7, hd7, ht7⟩ := bin_varR (s2 := { s6 with isUnsigned := false }) hL hu (hd6.uns false) rfl o s4'.extra s4'.val hr
      exact wrap e7 hd7 ht7 (by rw [hgb]; rfl)
    | reg sk =>
      have hgr : genRhs off o ga.bs ga.r (gen off b true ga.r) = ⟨ga.bs ++ (toVal off false (gen off b true ga.r)).bs ++ rhsReg o (toVal off false (gen off b true ga.r)).r, binKd o, false⟩ := by
        simp only [genRhs, hkk]
      rw [hgr] at hr
      obtain ⟨s7, e7, hd7, ht7⟩ := bin_regR (s2 := { s6 with isUnsigned := false }) hL hu (hd6.uns false) (.inl ⟨sk, hkk⟩) rfl o s4'.extra s4'.val hr
      exact wrap e7 hd7 ht7 hgr.symm
    | flag cc =>
      have hgr : genRhs off o ga.bs ga.r (gen off b true ga.r) = ⟨ga.bs ++ (toVal off false (gen off b true ga.r)).bs ++ rhsReg o (toVal off false (gen off b true ga.r)).r, binKd o, false⟩ := by
        simp only [genRhs, hkk]
      rw [hgr] at hr
      obtain ⟨s7, e7, hd7, ht7⟩ := bin_regR (s2 := { s6 with isUnsigned := false }) hL hu (hd6.uns false) (.inr ⟨cc, hkk⟩) rfl o s4'.extra s4'.val hr
      exact wrap e7 hd7 ht7 hgr.symm

/-- The parser emits the change of SP and the code that `gen` describes. -/
theorem parsesP (s0 : Base) (xs : List Nat) (hl : Locals off xs s0) (hp : Pd s0) {q : Nat} {e : E} {ts : List Tk} (h : Shows q e ts) : ParsesP off s0 xs q e ts := by
  induction h with
  | lit q v =>
    intro s t rest hon hc hq hnp hs hx hz hr
    obtain ⟨n, s1, s', a, b, c, d⟩ := parses_lit (off := off) s0 xs q v s t rest hon hc hq hnp hs hx hz (room_le hr (by omega))
    exact ⟨n, s1, s', a, b, c, rfl, d⟩
  | var q x =>
    intro s t rest hon hc hq hnp hs hx hz hr
    obtain ⟨n, s1, s', a, b, c, d⟩ := parses_var s0 xs hl q x s t rest hon hc hq hnp hs hx hz (room_le hr (by omega))
    exact ⟨n, s1, s', a, b, c, rfl, d⟩
  | par q h ih => exact parsesP_par s0 xs hl q h ih
  | un q o h ih => exact parsesP_un s0 xs hp q o h ih
  | bin q o hq ha hb iha ihb => exact parsesP_bin s0 xs hl hp q o hq hb iha ihb

/-- `ParseAssignmentExpression` for an argument. -/
theorem parse_arg (s : S) (xs : List Nat) (hl : Locals off xs s) (hp : Pd s) (hz : s.lastZF ≤ s.code) {e : E} {ts : List Tk} (h : Shows 10 e ts) {t : Tk} {rest : List Tk}
    {F : List Byte → Prop} (hon : On ⟨s, F⟩ s (ts ++ t :: rest)) (ht : precAssign < t.prec) (hn : NoPost t) (hs : Stat e) (hx : ∀ x ∈ Vars e, x ∈ xs)
    (hr : Room s (3 + (gen off e s.push s.regUse).bs.length)) :
    ∃ s', Go .assign s s' ∧ On ⟨s, F⟩ s' (t :: rest) ∧ DoneP off s (gen off e s.push s.regUse) s' := by
  obtain ⟨n, s1, s2, h1, r1, on2, hd⟩ := parsesP ⟨s, F⟩ xs hl hp h s t rest hon rfl (by have : (14 : Nat) < t.prec := ht; omega) hn hs hx hz hr
  obtain ⟨N1, g1⟩ := h1
  obtain ⟨N2, g2⟩ := r1.tail (q' := precAssign) (by decide) (by rw [on2.1.prec]; exact ht)
  exact ⟨s2, Go.of (N1 + N2) fun n hn => run_bind (a := ()) (s1 := s2) (run_bind (g1 n (by omega)) (run_getS (g2 n (by omega)))) rfl, on2, hd⟩

end SccCall
