import Verif.Props.SccGenVal
/-!
# Compiled expressions (C43): what the functions that emit code write
-/
namespace SccGen
open Prog Scc SccCode

/-! ## Frames -/

/-- The state without the token, the text that is left, the code, and what is known about the current value. -/
def core (s : S) : S :=
  { s with cur := 0, inp := [], tok := 0, num := 0, prec := 0, localOffset := 0, type := 0, val := 0, extra := 0, isUnsigned := false,
           push := false, regUse := false, lastZF := 0, code := 0, out := .const 0 15, log := [] }

/-- The code `bs` has been added. -/
structure Em (s : S) (bs : List Byte) (s' : S) : Prop where
  fr : core s' = core s
  ge : codeStart ≤ s.code
  code : s'.code = s.code + bs.length
  new : ∀ i (h : i < bs.length), s'.out.get (s.code + i - codeStart) = bs[i]
  old : ∀ j, j < s.code - codeStart → s'.out.get j = s.out.get j

theorem Em.refl {s s' : S} (h : core s' = core s) (hg : codeStart ≤ s.code) (hc : s'.code = s.code) (ho : s'.out = s.out) : Em s [] s' :=
  ⟨h, hg, hc, fun i h => absurd h (by simp), fun j _ => by rw [ho]⟩

theorem Em.trans {s s1 s2 : S} {as bs : List Byte} (h : Em s as s1) (h' : Em s1 bs s2) : Em s (as ++ bs) s2 := by
  obtain ⟨f1, g1, c1, n1, o1⟩ := h
  obtain ⟨f2, g2, c2, n2, o2⟩ := h'
  refine ⟨f2.trans f1, g1, by rw [c2, c1, List.length_append]; omega, fun i hi => ?_, fun j hj => ?_⟩
  · rw [List.length_append] at hi
    generalize codeStart = a at *
    by_cases hlt : i < as.length
    · rw [List.getElem_append_left hlt, o2 _ (by omega), n1 i hlt]
    · rw [List.getElem_append_right (by omega)]
      have := n2 (i - as.length) (by omega)
      rw [c1, show s.code + as.length + (i - as.length) - a = s.code + i - a by omega] at this
      exact this
  · generalize codeStart = a at *
    rw [o2 _ (by omega), o1 _ hj]

theorem Em.of_wrote {s m s' : S} {bs : List Byte} (hw : Wrote m bs s') (hf : core m = core s) (ho : m.out = s.out) (hc : m.code = s.code)
    (hg : codeStart ≤ s.code) : Em s bs s' := by
  obtain ⟨out, rfl, h1, h2⟩ := hw
  refine ⟨hf, hg, by rw [← hc], fun i hi => ?_, fun j hj => ?_⟩
  · rw [← h1 i hi, hc]
    generalize codeStart = a at *
    simp only
    congr 1; omega
  · rw [← ho]; exact h2 j (.inl (by rw [hc]; exact hj))

theorem Em.room {s s' : S} {as : List Byte} {n : Nat} (h : Em s as s') (hr : Room s (as.length + n)) : Room s' n := by
  unfold Room at *
  rw [h.code]
  generalize codeStart = a, outputMax = b at *
  omega

theorem room_le {s : S} {m n : Nat} (h : Room s n) (hm : m ≤ n) : Room s m := by
  unfold Room at *
  generalize codeStart = a, outputMax = b at *
  omega

/-! ## Bytes -/

def putOut (m : Mem 15) (code : Nat) : List Byte → Mem 15
  | [] => m
  | b :: bs => putOut (m.set (code - codeStart) b) (code + 1) bs

theorem put_eq (bs : List Byte) (s : S) : put s bs = { s with out := putOut s.out s.code bs, code := s.code + bs.length } := by
  induction bs generalizing s with
  | nil => rfl
  | cons b bs ih =>
    rw [put, ih]
    simp only [putOut, List.length_cons]
    congr 1; omega

/-- The state after `FlushPushAx` (without the code). -/
def pre (s : S) : S :=
  { s with push := false, regUse := s.push || s.regUse, localOffset := if s.push && s.regUse then s.localOffset - 2 else s.localOffset }

theorem pre_of {s : S} (h : s.push = false) : pre s = s := by
  cases s; cases h; rfl

structure Up (s : S) : Prop where
  dead : s.dead = false
  spAdj : s.spAdj = 0

theorem Up.of {s s' : S} (h : Up s) (hf : core s' = core s) : Up s' := ⟨(congrArg S.dead hf).trans h.dead, (congrArg S.spAdj hf).trans h.spAdj⟩

theorem Up.live {s : S} (h : Up s) (hp : s.push = false) : Live s := ⟨h.dead, h.spAdj, hp⟩

theorem live_outB {s : S} (h : Live s) {bs : List Byte} (hr : Room s bs.length) : outB bs s = .ok () (put s bs) :=
  run_getS (run_neg (by rw [h.dead]; decide) (run_pos h.spAdj (raw_put bs s hr)))

theorem out_flush {s : S} (h : Up s) {bs : List Byte} (hr : Room s (flB s.push s.regUse ++ bs).length) :
    output bs s = .ok () (put (pre s) (flB s.push s.regUse ++ bs)) := by
  cases hp : s.push with
  | false =>
    rw [hp] at hr
    rw [pre_of hp]
    exact (h.live hp).out_put hr
  | true =>
    rw [hp] at hr
    obtain ⟨r1, r2⟩ := Room.put (as := flB true s.regUse) (bs := bs) hr
    have hlive : Live { s with push := false } := ⟨h.dead, h.spAdj, rfl⟩
    have hfl : flushPushAx s = .ok () (put (pre s) (flB true s.regUse)) := by
      refine run_getS (run_pos hp (run_modS ?_))
      by_cases hu : s.regUse = true
      · rw [hu] at r1
        obtain ⟨q1, q2⟩ := Room.put (s := s) (as := [0x53]) (bs := [0x93]) r1
        refine run_pos hu (run_bind (live_outB hlive (bs := [0x53]) q1) (run_modS ?_))
        refine run_bind (live_outB (s := { put { s with push := false } [0x53] with localOffset := _ }) ⟨h.dead, h.spAdj, rfl⟩ (bs := [0x93]) q2) ?_
        unfold pre
        rw [hp, hu]
        rfl
      · have hn := hu
        rw [Bool.not_eq_true] at hu
        rw [hu] at r1
        refine run_neg hn ?_
        refine run_bind (live_outB hlive (bs := [0x93]) r1) ?_
        unfold pre
        rw [hp, hu]
        rfl
    refine run_getS (run_pos (.inr (.inr hp)) ?_)
    refine run_bind (a := false) (s1 := put (pre s) (flB true s.regUse)) ?_ ?_
    · refine run_getS (run_neg (by rw [h.dead]; decide) ?_)
      refine run_bind (a := ()) (s1 := s) (run_getS (run_pos h.spAdj rfl)) ?_
      refine run_bind hfl (run_bind (a := ()) (s1 := put (pre s) (flB true s.regUse)) ?_ rfl)
      refine run_getS ?_
      rw [put_code]
      have : ¬ outputMax + codeStart < (pre s).code + (flB true s.regUse).length := by
        unfold Room at r1
        have : (pre s).code = s.code := rfl
        rw [this]
        generalize codeStart = a, outputMax = b at *
        omega
      rw [decide_eq_false this]; rfl
    · rw [put_append]
      refine run_neg (by decide) (raw_put _ _ ?_)
      unfold Room at *
      rw [put_code] at *
      exact r2

theorem out_wrote {s : S} (h : Up s) {bs : List Byte} (hr : Room s (flB s.push s.regUse ++ bs).length) :
    ∃ s', output bs s = .ok () s' ∧ Wrote (pre s) (flB s.push s.regUse ++ bs) s' :=
  ⟨_, out_flush h hr, put_wrote _ _ hr⟩

/-- `EmitModrm` for a local variable. -/
theorem modrm_wrote_r {s : S} (h : Up s) (inst r : Nat) (hr8 : r < 8) (v : Int) (hr : Room s (flB s.push s.regUse ++ modB inst r v).length) :
    ∃ s', emitModrm inst r vtLocOff v s = .ok () s' ∧ Wrote (pre s) (flB s.push s.regUse ++ modB inst r v) s' := by
  have hadd : nb (0x46 ||| r * 8) + 0x40 = nb (0x86 ||| r * 8) := (show ∀ r < 8, nb (0x46 ||| r * 8) + 0x40 = nb (0x86 ||| r * 8) by decide) r hr8
  unfold modB at hr ⊢
  by_cases hf : fits8 v = true
  · rw [if_pos hf] at hr ⊢
    unfold emitModrm
    obtain ⟨s', e, hw⟩ := out_wrote h hr
    exact ⟨s', run_pos rfl (run_bind e (run_pos hf rfl)), hw⟩
  · rw [if_neg hf] at hr ⊢
    unfold emitModrm
    generalize hfl : flB s.push s.regUse = fl at *
    have hr1 : Room s (fl ++ [nb inst, nb (0x46 ||| r * 8), Scc.lo v]).length := room_le hr (by simp only [List.length_append, List.length_cons]; omega)
    obtain ⟨s1, e1, hw⟩ := out_wrote (bs := [nb inst, nb (0x46 ||| r * 8), Scc.lo v]) h (by rw [hfl]; exact hr1)
    rw [hfl] at hw
    obtain ⟨out, rfl, n1, o1⟩ := hw
    have hg : codeStart ≤ s.code := hr.1
    have hlt : s.code - codeStart + fl.length + 4 ≤ outputMax := by
      have := hr.2; simp only [List.length_append, List.length_cons, List.length_nil] at this
      generalize codeStart = a, outputMax = b at *; omega
    have hcode : (pre s).code + (fl ++ [nb inst, nb (0x46 ||| r * 8), Scc.lo v]).length = s.code + fl.length + 3 := by
      simp only [List.length_append, List.length_cons, List.length_nil]; rfl
    rw [hcode] at e1
    simp only [show (pre s).code = s.code from rfl] at n1 o1
    generalize hm : (pre s) = ps at *
    -- the byte that is patched
    have hidx : ((s.code + fl.length + 3 : Nat) : Int) - codeStart + (-2 : Int) = ((s.code - codeStart + fl.length + 1 : Nat) : Int) := by
      generalize codeStart = a at *; omega
    have hb : out.get (s.code - codeStart + fl.length + 1) = nb (0x46 ||| r * 8) := by
      have := n1 (fl.length + 1) (by simp)
      rw [List.getElem_append_right (by omega)] at this
      simp only [Nat.add_sub_cancel_left, List.getElem_cons_succ, List.getElem_cons_zero] at this
      rw [← Nat.add_assoc] at this
      exact this
    have hub : decide (0 ≤ ((s.code + fl.length + 3 : Nat) : Int) - codeStart + (-2 : Int) ∧ ((s.code + fl.length + 3 : Nat) : Int) - codeStart + (-2 : Int) < outputMax) = true := by
      rw [hidx]
      refine decide_eq_true ⟨Int.natCast_nonneg _, ?_⟩
      generalize codeStart = a, outputMax = b at *; omega
    let out2 := out.set (s.code - codeStart + fl.length + 1) (nb (0x86 ||| r * 8))
    have hpl : Live { ps with out := out2, code := s.code + fl.length + 3 } := by
      rw [← hm]; exact ⟨h.dead, h.spAdj, rfl⟩
    have hr2 : Room { ps with out := out2, code := s.code + fl.length + 3 } [Scc.hi v].length := by
      unfold Room
      simp only [List.length_cons, List.length_nil]
      generalize codeStart = a, outputMax = b at *; omega
    refine ⟨put { ps with out := out2, code := s.code + fl.length + 3 } [Scc.hi v], run_pos rfl (run_bind e1 (run_neg hf (run_getS (run_neg ?_ ?_)))), ?_⟩
    · rw [← hm]; rw [show (pre s).dead = s.dead from rfl, h.dead]; decide
    · refine run_bind (a := nb (0x46 ||| r * 8)) (s1 := { ps with out := out, code := s.code + fl.length + 3 }) ?_ ?_
      · refine run_getS (run_ub hub ?_)
        rw [hidx, Int.toNat_natCast, hb]; rfl
      · refine run_bind (a := ()) (s1 := { ps with out := out2, code := s.code + fl.length + 3 }) ?_ (hpl.out_put hr2)
        refine run_ub hub ?_
        simp only [hidx, Int.toNat_natCast, hadd]
        rfl
    · have hps : ps.out = s.out := by rw [← hm]; rfl
      have hpc : ps.code = s.code := by rw [← hm]; rfl
      have hM : outputMax ≤ 2 ^ 15 := by decide
      refine ⟨out2.set (s.code + fl.length + 3 - codeStart) (Scc.hi v), ?_, fun i hi => ?_, fun j hj => ?_⟩
      · have hl : (fl ++ [nb inst, nb (0x86 ||| r * 8), Scc.lo v, Scc.hi v]).length = fl.length + 4 := by simp
        rw [hl, hpc]; rfl
      · simp only [List.length_append, List.length_cons, List.length_nil] at hi
        rw [hpc]
        have ne : ∀ {i j : Nat} (m : Mem 15) (b : Byte), i < outputMax → j < outputMax → i ≠ j → (m.set i b).get j = m.get j :=
          fun m b hi hj hne => Mem.get_set_ne _ _ (by omega) (by omega) hne
        by_cases h3 : i = fl.length + 3
        · subst h3
          rw [List.getElem_append_right (by omega)]
          simp only [Nat.add_sub_cancel_left, List.getElem_cons_succ, List.getElem_cons_zero]
          rw [show s.code - codeStart + (fl.length + 3) = s.code + fl.length + 3 - codeStart by generalize codeStart = a at *; omega, Mem.get_set_self]
        · rw [ne _ _ (by generalize codeStart = a, outputMax = b at *; omega) (by generalize codeStart = a, outputMax = b at *; omega)
            (by generalize codeStart = a, outputMax = b at *; omega)]
          by_cases h1 : i = fl.length + 1
          · subst h1
            rw [List.getElem_append_right (by omega)]
            simp only [Nat.add_sub_cancel_left, List.getElem_cons_succ, List.getElem_cons_zero]
            rw [← Nat.add_assoc]
            exact Mem.get_set_self ..
          · have := n1 i (by simp only [List.length_append, List.length_cons, List.length_nil]; omega)
            rw [ne _ _ (by generalize codeStart = a, outputMax = b at *; omega) (by generalize codeStart = a, outputMax = b at *; omega)
              (by generalize codeStart = a, outputMax = b at *; omega), this]
            by_cases hlt' : i < fl.length
            · rw [List.getElem_append_left hlt', List.getElem_append_left hlt']
            · rw [List.getElem_append_right (by omega), List.getElem_append_right (by omega)]
              obtain h | h : i - fl.length = 0 ∨ i - fl.length = 2 := by omega
              · simp only [h, List.getElem_cons_zero]
              · simp only [h, List.getElem_cons_succ, List.getElem_cons_zero]
      · simp only [List.length_append, List.length_cons, List.length_nil] at hj
        rw [hpc] at hj
        have hj2 : j < outputMax := by generalize codeStart = a, outputMax = b at *; omega
        have hj3 : j < 2 ^ 15 := by generalize 2 ^ 15 = c, codeStart = a, outputMax = b at *; omega
        rw [Mem.get_set_ne _ _ (by generalize 2 ^ 15 = c, codeStart = a, outputMax = b at *; omega) hj3 (by generalize codeStart = a, outputMax = b at *; omega),
          Mem.get_set_ne _ _ (by generalize 2 ^ 15 = c, codeStart = a, outputMax = b at *; omega) hj3 (by generalize codeStart = a, outputMax = b at *; omega),
          o1 j (by simp only [List.length_append, List.length_cons, List.length_nil]; generalize codeStart = a, outputMax = b at *; omega)]

theorem modrm_wrote {s : S} (h : Up s) (inst : Nat) (v : Int) (hr : Room s (flB s.push s.regUse ++ modB inst 0 v).length) :
    ∃ s', emitModrm inst rAX vtLocOff v s = .ok () s' ∧ Wrote (pre s) (flB s.push s.regUse ++ modB inst 0 v) s' := modrm_wrote_r h inst 0 (by decide) v hr

/-! ## What has been compiled -/

/-- The offset of the stack pointer once the values in registers are saved. -/
def bal (s : S) : Int := s.localOffset - 2 * (if s.regUse then 1 else 0) - 2 * (if s.push then 1 else 0)

/-- The current token and the text after it. -/
def tks (s : S) : Nat × Nat × Int × Byte × List Byte := (s.tok, s.prec, s.num, s.cur, s.inp)

/-- The same, and the signedness of the operation. -/
def tku (s : S) : (Nat × Nat × Int × Byte × List Byte) × Bool := (tks s, s.isUnsigned)

variable (off : Nat → Int)

/-- The compiler knows the place of the value. -/
def KdOk (p : Bool) (s : S) : Kd → Prop
  | .lit v => s.type = vtLocLit ||| vtInt ∧ s.val = v ∧ s.push = p
  | .var x => s.type = vtInt ||| vtLval ||| vtLocOff ∧ s.val = off x ∧ s.push = p
  | .reg skip => s.type = vtInt ∧ s.push = false ∧ (skip = true ↔ s.lastZF = s.code)
  | .flag cc => s.type = vtBool ∧ s.val = cc ∧ s.push = false

structure Done (s : S) (g : G) (s' : S) : Prop where
  em : Em s g.bs s'
  reg : s'.regUse = g.r
  bal : bal s' = bal s
  zf : s'.lastZF ≤ s'.code
  kd : KdOk off s.push s' g.kd

variable {off}

theorem bal_pre (s : S) : bal (pre s) = bal s := by
  unfold bal pre
  cases s.push <;> cases s.regUse <;> simp <;> omega

theorem flB_ne {p r : Bool} (bs : List Byte) : (flB p r ++ bs).length = (flB p r).length + bs.length := List.length_append

theorem modB_pos (inst r : Nat) (v : Int) : 3 ≤ (modB inst r v).length := by
  unfold modB; split <;> simp

theorem Done.toReg {s s1 : S} {g : G} (h : Done off s g s1) (hu : Up s) (hr : Room s (SccGen.toReg off s.push g).bs.length) :
    ∃ s2, lvalToRval s1 = .ok () s2 ∧ Done off s (SccGen.toReg off s.push g) s2 ∧ tku s2 = tku s1 := by
  obtain ⟨bs, kd, r⟩ := g
  cases kd with
  | lit v =>
    refine ⟨s1, run_getS (run_pos ?_ rfl), h, rfl⟩
    rw [h.kd.1]; decide
  | reg sk =>
    refine ⟨s1, run_getS (run_pos ?_ rfl), h, rfl⟩
    rw [h.kd.1]; decide
  | flag cc =>
    refine ⟨s1, run_getS (run_pos ?_ rfl), h, rfl⟩
    rw [h.kd.1]; decide
  | var x =>
    obtain ⟨he, hg, hb, hz, ht, hv, hp⟩ := h
    simp only [SccGen.toReg] at hr ⊢
    simp only at he hg
    have hu1 : Up s1 := hu.of he.fr
    have hr1 : Room s1 (flB s1.push s1.regUse ++ modB 0x8B 0 (off x)).length := by
      rw [hp, hg]
      refine he.room ?_
      rw [List.append_assoc, List.length_append] at hr
      exact hr
    obtain ⟨s2, e2, hw⟩ := modrm_wrote (s := { s1 with type := vtInt }) ⟨hu1.dead, hu1.spAdj⟩ 0x8B (off x) hr1
    refine ⟨s2, ?_, ?_⟩
    · refine run_getS (run_neg (by rw [ht]; decide) ?_)
      rw [ht, hv]
      exact run_modS (run_neg (by decide) (run_neg (by decide) (run_neg (by decide) (run_bind e2 rfl))))
    · have hem : Em s1 (flB s1.push s1.regUse ++ modB 0x8B 0 (off x)) s2 := Em.of_wrote (s := s1) hw rfl rfl rfl hr1.1
      rw [hp, hg] at hem
      have h1 := hem.code
      rw [List.length_append] at h1
      obtain ⟨out, rfl, n2, o2⟩ := id hw
      refine ⟨⟨?_, ?_, ?_, ?_, ?_⟩, rfl⟩
      · rw [List.append_assoc]; exact he.trans hem
      · show (s1.push || s1.regUse) = (s.push || r)
        rw [hp, hg]
      · exact (bal_pre s1).trans hb
      · rw [hem.code]; exact Nat.le_trans hz (Nat.le_add_right _ _)
      · refine ⟨rfl, rfl, fun h => absurd h (by decide), fun h => ?_⟩
        have h2 := modB_pos 0x8B 0 (off x)
        have h3 : s1.lastZF = s1.code + ((flB s.push r).length + (modB 0x8B 0 (off x)).length) := Eq.trans h h1
        omega

theorem toReg_notvar (p : Bool) (g : G) (x : Nat) : (SccGen.toReg off p g).kd ≠ .var x := by
  unfold SccGen.toReg
  cases hk : g.kd <;> simp [hk]

/-- `GetVal`, if the value is no constant. -/
theorem Done.toVal {s s1 : S} {g : G} (h : Done off s g s1) (hu : Up s) (hl : ∀ v, g.kd ≠ .lit v)
    (hr : Room s (SccGen.toVal off s.push g).bs.length) :
    ∃ s2, getVal s1 = .ok () s2 ∧ Done off s (SccGen.toVal off s.push g) s2 ∧ tku s2 = tku s1 := by
  obtain ⟨bs, kd, r⟩ := g
  cases kd with
  | lit v => exact absurd rfl (hl v)
  | reg sk => exact ⟨s1, getVal_int s1 h.kd.1, h, rfl⟩
  | flag cc =>
    obtain ⟨he, hg, hb, hz, ht, hv, hp⟩ := h
    simp only [SccGen.toVal, SccGen.toReg] at hr ⊢
    simp only at he hg
    have hr1 : Room s1 (boolBytes cc).length := he.room (by rw [List.length_append] at hr; exact hr)
    have hw := put_wrote (boolBytes cc) { s1 with type := vtInt, val := s1.val } hr1
    refine ⟨_, getVal_bool s1 ((hu.of he.fr).live hp) ht cc hv hr1, ?_⟩
    generalize put { s1 with type := vtInt, val := s1.val } (boolBytes cc) = s2 at hw
    obtain ⟨out, rfl, n2, o2⟩ := id hw
    have hem := Em.of_wrote (s := s1) hw rfl rfl rfl hr1.1
    refine ⟨⟨he.trans hem, hg, hb, ?_, rfl, hp, fun h => absurd h (by decide), fun h => ?_⟩, rfl⟩
    · rw [hem.code]; exact Nat.le_trans hz (Nat.le_add_right _ _)
    · have h3 : s1.lastZF = s1.code + 6 := h
      omega
  | var x =>
    have ht := h.kd.1
    obtain ⟨s2, e2, hd, hk⟩ := h.toReg hu (room_le hr (Nat.le_of_eq rfl))
    refine ⟨s2, run_getS (run_neg (by rw [ht]; decide) (run_bind e2 (run_getS (run_neg ?_ rfl)))), hd, hk⟩
    have : s2.type = vtInt := hd.kd.1
    rw [this]; decide

theorem toVal_reg (p : Bool) (g : G) (hl : ∀ v, g.kd ≠ .lit v) : ∃ sk, (SccGen.toVal off p g).kd = .reg sk := by
  obtain ⟨bs, kd, r⟩ := g
  cases kd with
  | lit v => exact absurd rfl (hl v)
  | reg sk => exact ⟨sk, rfl⟩
  | flag cc => exact ⟨false, rfl⟩
  | var x => exact ⟨false, rfl⟩

/-- A unary operator with a constant. -/
theorem Done.unConst {s s1 : S} {x : Int} {r : Bool} (h : Done off s ⟨[], .lit x, r⟩ s1) (hx : -(2 ^ 31) < x) (o : UOp) :
    ∃ s2, doUnary o.tok true s1 = .ok () s2 ∧ Done off s ⟨[], .lit (o.fold x), r⟩ s2 ∧ tks s2 = tks s1 := by
  obtain ⟨he, hg, hb, hz, ht, hv, hp⟩ := h
  have key : ∀ v, Done off s ⟨[], .lit v, r⟩ { s1 with val := v } := fun v => ⟨⟨he.fr, he.ge, he.code, he.new, he.old⟩, hg, hb, hz, ht, rfl, hp⟩
  cases o with
  | neg =>
    refine ⟨{ s1 with val := -x }, run_getS (run_pos rfl (run_pos rfl (run_ub (decide_eq_true (by rw [hv]; exact hx)) ?_))), key _, rfl⟩
    rw [hv]; rfl
  | not =>
    refine ⟨{ s1 with val := if x = 0 then 1 else 0 }, run_getS (run_neg (by decide) (run_pos rfl (run_pos rfl ?_))), key _, rfl⟩
    rw [hv]; rfl
  | bnot =>
    refine ⟨{ s1 with val := -x - 1 }, run_getS (run_neg (by decide) (run_neg (by decide) (run_neg (by decide) (run_pos rfl (run_pos rfl ?_))))), key _, rfl⟩
    rw [hv]; rfl
  | plus =>
    exact ⟨s1, run_getS (run_neg (by decide) (run_neg (by decide) (run_neg (by decide) (run_neg (by decide) rfl)))), ⟨he, hg, hb, hz, ht, hv, hp⟩, rfl⟩

theorem Done.out {s s1 : S} {g : G} (h : Done off s g s1) (hu : Up s) (hp : s1.push = false) (bs : List Byte) (hn : bs ≠ [])
    (hr : Room s (g.bs ++ bs).length) :
    ∃ s2, output bs s1 = .ok () s2 ∧ Wrote s1 bs s2 ∧ Em s (g.bs ++ bs) s2 ∧ s2.lastZF < s2.code := by
  have hr1 : Room s1 bs.length := h.em.room (by rw [List.length_append] at hr; exact hr)
  have hw := put_wrote bs s1 hr1
  have hem := Em.of_wrote (s := s1) hw rfl rfl rfl hr1.1
  refine ⟨_, ((hu.of h.em.fr).live hp).out_put hr1, hw, h.em.trans hem, ?_⟩
  have hl : (put s1 bs).lastZF = s1.lastZF := by obtain ⟨_, e, _⟩ := hw; rw [e]
  have hc := hem.code
  have := List.length_pos_iff.2 hn
  have := h.zf
  omega

/-- A unary operator with a value in a register or in the flags. -/
theorem Done.un {s s1 : S} {g : G} (h : Done off s g s1) (hu : Up s) (o : UOp) (hk : (∃ sk, g.kd = .reg sk) ∨ (∃ cc, g.kd = .flag cc) ∧ o ≠ .neg ∧ o ≠ .bnot)
    (hr : Room s (genUn o g).bs.length) :
    ∃ s2, doUnary o.tok false s1 = .ok () s2 ∧ Done off s (genUn o g) s2 ∧ tks s2 = tks s1 := by
  have hm : ∀ bs : List Byte, bs ≠ [] → (∃ sk, g.kd = .reg sk) → Room s (g.bs ++ bs).length →
      ∃ s2, output bs s1 = .ok () s2 ∧ Done off s ⟨g.bs ++ bs, .reg false, g.r⟩ s2 ∧ tks s2 = tks s1 := by
    intro bs hn hk hr
    obtain ⟨sk, hk⟩ := hk
    have hkd := h.kd
    rw [hk] at hkd
    obtain ⟨s2, e2, hw, hem, hlt⟩ := h.out hu hkd.2.1 bs hn hr
    obtain ⟨out, rfl, _⟩ := hw
    exact ⟨_, e2, ⟨hem, h.reg, h.bal, Nat.le_of_lt hlt, hkd.1, hkd.2.1, fun x => absurd x (by decide), fun x => absurd x (Nat.ne_of_lt hlt)⟩, rfl⟩
  cases o with
  | neg =>
    obtain hk | hk := hk
    · obtain ⟨s2, e2, hd⟩ := hm [0xF7, 0xD8] (by simp) hk hr
      obtain ⟨sk, hk⟩ := hk
      have hkd := h.kd; rw [hk] at hkd
      exact ⟨s2, run_getS (run_pos rfl (run_neg (by decide) (run_failIf (by rw [hkd.1]; decide) e2))), hd⟩
    · exact absurd rfl hk.2.1
  | bnot =>
    obtain hk | hk := hk
    · obtain ⟨s2, e2, hd⟩ := hm [0xF7, 0xD0] (by simp) hk hr
      obtain ⟨sk, hk⟩ := hk
      have hkd := h.kd; rw [hk] at hkd
      exact ⟨s2, run_getS (run_neg (by decide) (run_neg (by decide) (run_neg (by decide) (run_pos rfl (run_neg (by decide)
        (run_failIf (by rw [hkd.1]; decide) e2)))))), hd⟩
    · exact absurd rfl hk.2.2
  | plus => exact ⟨s1, run_getS (run_neg (by decide) (run_neg (by decide) (run_neg (by decide) (run_neg (by decide) rfl)))), h, rfl⟩
  | not =>
    obtain ⟨sk, hk⟩ | ⟨⟨cc, hk⟩, _⟩ := hk
    · have hkd := h.kd; rw [hk] at hkd
      have hlv : lvalToRval s1 = .ok () s1 := run_getS (run_pos (by rw [hkd.1]; decide) rfl)
      simp only [genUn, hk] at hr ⊢
      cases hsk : sk with
      | true =>
        rw [hsk] at hkd hr
        refine ⟨{ s1 with type := vtBool, val := 4 }, ?_, ⟨?_, h.reg, h.bal, h.zf, rfl, rfl, hkd.2.1⟩, rfl⟩
        · refine run_getS (run_neg (by decide) (run_pos rfl (run_neg (by decide) (run_pos (by rw [hkd.1]; decide) ?_))))
          refine run_bind (a := ()) (s1 := ({ s1 with type := vtBool, val := jNZ } : S)) ?_ ?_
          · exact run_bind hlv (run_getS (run_neg (fun hn => hn (hkd.2.2.1 rfl).symm) rfl))
          · exact (congrArg (fun v => Res.ok () { s1 with type := vtBool, val := v }) (by decide : (((jNZ : Int).toNat ^^^ 1 : Nat) : Int) = 4))
        · rw [if_pos rfl, List.append_nil]
          exact ⟨h.em.fr, h.em.ge, h.em.code, h.em.new, h.em.old⟩
      | false =>
        rw [hsk] at hkd hr
        obtain ⟨s2, e2, hd, ht⟩ := hm [0x21, 0xC0] (by simp) ⟨sk, hk⟩ hr
        refine ⟨{ s2 with type := vtBool, val := 4 }, ?_, ⟨?_, hd.reg, hd.bal, hd.zf, rfl, rfl, hd.kd.2.1⟩, ht⟩
        · refine run_getS (run_neg (by decide) (run_pos rfl (run_neg (by decide) (run_pos (by rw [hkd.1]; decide) ?_))))
          refine run_bind (a := ()) (s1 := ({ s2 with type := vtBool, val := jNZ } : S)) ?_ ?_
          · exact run_bind hlv (run_getS (run_pos (fun he => absurd (hkd.2.2.2 he.symm) (by decide)) (run_bind e2 rfl)))
          · exact (congrArg (fun v => Res.ok () { s2 with type := vtBool, val := v }) (by decide : (((jNZ : Int).toNat ^^^ 1 : Nat) : Int) = 4))
        · exact ⟨hd.em.fr, hd.em.ge, hd.em.code, hd.em.new, hd.em.old⟩
    · have hkd := h.kd; rw [hk] at hkd
      simp only [genUn, hk] at hr ⊢
      refine ⟨{ s1 with val := (cc ^^^ 1 : Nat) }, ?_, ⟨⟨h.em.fr, h.em.ge, h.em.code, h.em.new, h.em.old⟩, h.reg, h.bal, h.zf, hkd.1, rfl, hkd.2.2⟩, rfl⟩
      refine run_getS (run_neg (by decide) (run_pos rfl (run_neg (by decide) (run_neg (fun hn => hn hkd.1) ?_))))
      have : s1.val.toNat = cc := by rw [hkd.2.1]; rfl
      rw [← this]; rfl

theorem tok_facts (o : BOp) : o.prec ≠ precAssign ∧ ¬(o.tok = tokOrOr ∨ o.tok = tokAndAnd) ∧ o.tok ≠ 0x2C := by
  cases o <;> decide

/-- The left operand is no constant. -/
theorem Done.lhs {s s1 : S} {g : G} (h : Done off s g s1) (hu : Up s) (o : BOp) (hl : ∀ v, g.kd ≠ .lit v)
    (hr : Room s (SccGen.toVal off s.push g).bs.length) :
    ∃ s2, lhsStep o.tok o.prec s1 = .ok (o.tok, -1) { s2 with push := true } ∧ Done off s (SccGen.toVal off s.push g) s2 ∧ tks s2 = tks s1 := by
  obtain ⟨p1, p2, p3⟩ := tok_facts o
  have hle : (SccGen.toReg off s.push g).bs.length ≤ (SccGen.toVal off s.push g).bs.length := by
    unfold SccGen.toVal
    split
    · simp
    · exact Nat.le_refl _
  obtain ⟨s2, e2, hd2, t2⟩ := h.toReg hu (room_le hr hle)
  have hl2 : ∀ v, (SccGen.toReg off s.push g).kd ≠ .lit v := by
    intro v
    unfold SccGen.toReg
    cases hk : g.kd <;> simp_all
  have hvv : SccGen.toVal off s.push (SccGen.toReg off s.push g) = SccGen.toVal off s.push g := by
    obtain ⟨bs, kd, r⟩ := g
    cases kd <;> rfl
  obtain ⟨s3, e3, hd3, t3⟩ := hd2.toVal hu hl2 (by rw [hvv]; exact hr)
  rw [hvv] at hd3
  obtain ⟨sk, hsk⟩ := toVal_reg s.push g hl (off := off)
  have hkd := hd3.kd; rw [hsk] at hkd
  have hd0 := (hu.of hd3.em.fr).dead
  refine ⟨s3, run_getS (run_neg p1 (run_bind e2 (run_neg p2 (run_getS ?_)))), hd3, congrArg Prod.fst (t3.trans t2)⟩
  have fin : ∀ x : S, x = s3 → (getS >>= fun s => (if s.type &&& vtLocMask = 0 ∧ o.tok ≠ 0x2C ∧ !s.dead then setPush true >>= fun _ => pure (o.tok, (-1 : Int)) else pure (o.tok, (-1 : Int)) : A (Nat × Int))) x
      = .ok (o.tok, -1) { s3 with push := true } := by
    rintro x rfl
    exact run_getS (run_pos ⟨by rw [hkd.1]; decide, p3, by rw [hd0]; rfl⟩ rfl)
  by_cases hb : s2.type = vtBool
  · exact run_pos hb (run_bind e3 (fin s3 rfl))
  · refine run_neg hb ?_
    have : s2 = s3 := by
      have hkk := hd2.kd
      cases hk : (SccGen.toReg off s.push g).kd with
      | lit v => exact absurd hk (hl2 v)
      | var x => exact (toReg_notvar _ _ _ hk).elim
      | flag cc => rw [hk] at hkk; exact absurd hkk.1 hb
      | reg sk =>
        rw [hk] at hkk
        rw [getVal_int s2 hkk.1] at e3
        cases e3; rfl
    exact fin s2 this

/-- The left operand is a constant. -/
theorem Done.lhsLit {s s1 : S} {x : Int} {bs : List Byte} {r : Bool} (h : Done off s ⟨bs, .lit x, r⟩ s1) (o : BOp) :
    lhsStep o.tok o.prec s1 = .ok (o.tok, -1) s1 := by
  obtain ⟨p1, p2, p3⟩ := tok_facts o
  have ht : s1.type = vtLocLit ||| vtInt := h.kd.1
  refine run_getS (run_neg p1 (run_bind (a := ()) (s1 := s1) (run_getS (run_pos (by rw [ht]; decide) rfl)) (run_neg p2 (run_getS (run_neg (by rw [ht]; decide) ?_)))))
  exact run_getS (run_neg (fun hc => absurd hc.1 (by rw [ht]; decide)) rfl)

/-! ## Operators -/

/-- Within an operator: the code `as` has been added, the value is in AX. -/
structure Mid (s : S) (as : List Byte) (r : Bool) (b : Int) (s' : S) : Prop where
  em : Em s as s'
  up : Up s'
  push : s'.push = false
  reg : s'.regUse = r
  bal : bal s' = b
  type : s'.type = vtInt
  uns : s'.isUnsigned = false

theorem Mid.live {s s1 : S} {as : List Byte} {r : Bool} {b : Int} (h : Mid s as r b s1) : Live s1 := h.up.live h.push

theorem Mid.room {s s1 : S} {as bs : List Byte} {r : Bool} {b : Int} (h : Mid s as r b s1) (hr : Room s (as ++ bs).length) : Room s1 bs.length :=
  h.em.room (by rw [List.length_append] at hr; exact hr)

theorem Mid.wrote {s s1 s2 : S} {as bs : List Byte} {r : Bool} {b : Int} (h : Mid s as r b s1) (hw : Wrote s1 bs s2) (hg : codeStart ≤ s1.code) :
    Mid s (as ++ bs) r b s2 ∧ tks s2 = tks s1 ∧ s2.val = s1.val := by
  have hem := Em.of_wrote (s := s1) hw rfl rfl rfl hg
  have hu2 := h.up.of hem.fr
  obtain ⟨out, rfl, _⟩ := hw
  exact ⟨⟨h.em.trans hem, hu2, h.push, h.reg, h.bal, h.type, h.uns⟩, rfl, rfl⟩

theorem Mid.out {s s1 : S} {as : List Byte} {r : Bool} {b : Int} (h : Mid s as r b s1) (bs : List Byte) (hr : Room s (as ++ bs).length) :
    ∃ s2, output bs s1 = .ok () s2 ∧ Mid s (as ++ bs) r b s2 ∧ tks s2 = tks s1 ∧ s2.val = s1.val :=
  ⟨_, h.live.out_put (h.room hr), h.wrote (put_wrote bs s1 (h.room hr)) (h.room hr).1⟩

theorem Mid.modrm {s s1 : S} {as : List Byte} {r : Bool} {b : Int} (h : Mid s as r b s1) (inst : Nat) (v : Int) (hr : Room s (as ++ modB inst 0 v).length) :
    ∃ s2, emitModrm inst rAX vtLocOff v s1 = .ok () s2 ∧ Mid s (as ++ modB inst 0 v) r b s2 ∧ tks s2 = tks s1 ∧ s2.val = s1.val := by
  have hr1 := h.room hr
  obtain ⟨s2, e, hw⟩ := modrm_wrote h.up inst v (by rw [h.push]; exact hr1)
  rw [h.push, pre_of h.push] at hw
  exact ⟨s2, e, h.wrote hw hr1.1⟩

theorem Mid.stored {s s1 : S} {as : List Byte} {r : Bool} {b : Int} (h : Mid s as r b s1) (hr : Room s (as ++ if r then [] else [0x59]).length) :
    ∃ s2, getStoredVal none s1 = .ok (if r then 3 else 1) s2 ∧ Mid s (as ++ if r then [] else [0x59]) false (b + 2) s2 ∧ tks s2 = tks s1 := by
  have hb := h.bal
  have hg := h.reg
  have hp := h.push
  cases r with
  | true =>
    refine ⟨{ s1 with regUse := false }, run_getS (run_failIf hp (run_pos hg (run_modS (run_pos rfl rfl)))), ?_, rfl⟩
    rw [if_pos rfl, List.append_nil]
    refine ⟨⟨h.em.fr, h.em.ge, h.em.code, h.em.new, h.em.old⟩, ⟨h.up.dead, h.up.spAdj⟩, hp, rfl, ?_, h.type, h.uns⟩
    unfold SccGen.bal at hb ⊢
    simp only [hg, hp] at hb ⊢
    simp at hb ⊢
    omega
  | false =>
    obtain ⟨s2, e, hm, ht, _⟩ := h.out [0x59] hr
    refine ⟨{ s2 with localOffset := s2.localOffset + 2 }, run_getS (run_failIf hp (run_neg (by rw [hg]; decide) (run_bind e rfl))), ?_, ht⟩
    refine ⟨⟨hm.em.fr, hm.em.ge, hm.em.code, hm.em.new, hm.em.old⟩, ⟨hm.up.dead, hm.up.spAdj⟩, hm.push, hm.reg, ?_, hm.type, hm.uns⟩
    have := hm.bal
    unfold SccGen.bal at this ⊢
    simp only at this ⊢
    omega

theorem Mid.storedAx {s s1 : S} {as : List Byte} {r : Bool} {b : Int} (h : Mid s as r b s1) (hr : Room s (as ++ if r then [0x93] else [0x58]).length) :
    ∃ s2, getStoredVal (some rAX) s1 = .ok rAX s2 ∧ Mid s (as ++ if r then [0x93] else [0x58]) false (b + 2) s2 ∧ tks s2 = tks s1 := by
  have hb := h.bal
  have hg := h.reg
  have hp := h.push
  cases r with
  | true =>
    have h' : Mid s as false (b + 2) { s1 with regUse := false } := by
      refine ⟨⟨h.em.fr, h.em.ge, h.em.code, h.em.new, h.em.old⟩, ⟨h.up.dead, h.up.spAdj⟩, hp, rfl, ?_, h.type, h.uns⟩
      unfold SccGen.bal at hb ⊢
      simp only [hg, hp] at hb ⊢
      simp at hb ⊢
      omega
    obtain ⟨s2, e, hm, ht, _⟩ := h'.out [0x93] hr
    exact ⟨s2, run_getS (run_failIf hp (run_pos hg (run_modS (run_neg (by decide) (run_pos rfl (run_bind e rfl)))))), hm, ht⟩
  | false =>
    obtain ⟨s2, e, hm, ht, _⟩ := h.out [0x58] hr
    refine ⟨{ s2 with localOffset := s2.localOffset + 2 }, run_getS (run_failIf hp (run_neg (by rw [hg]; decide) (run_bind e rfl))), ?_, ht⟩
    refine ⟨⟨hm.em.fr, hm.em.ge, hm.em.code, hm.em.new, hm.em.old⟩, ⟨hm.up.dead, hm.up.spAdj⟩, hm.push, hm.reg, ?_, hm.type, hm.uns⟩
    have := hm.bal
    unfold SccGen.bal at this ⊢
    simp only at this ⊢
    omega

theorem put_modify (bs : List Byte) (s : S) (t : Nat) (v : Int) : ({ put s bs with type := t, val := v } : S) = put { s with type := t, val := v } bs := put_type ..

/-- The last instructions of an operator. -/
theorem Mid.fin {s s1 : S} {as bs : List Byte} {r : Bool} (h : Mid s as r (SccGen.bal s) s1) (o : BOp) {x : A Unit}
    (e : x s1 = (raw bs >>= fun _ => finishOp (o.cc false)) s1) (hr : Room s (as ++ bs).length) :
    ∃ s2, x s1 = .ok () s2 ∧ Done off s ⟨as ++ bs, binKd o, r⟩ { s2 with lastZF := s2.code } ∧ tks s2 = tks s1 := by
  have hr1 := h.room hr
  rw [bind_run, raw_put bs s1 hr1] at e
  obtain ⟨hm, ht, _⟩ := h.wrote (put_wrote bs s1 hr1) hr1.1
  generalize put s1 bs = s2 at *
  unfold binKd
  by_cases hc : o.cc false = 0
  · rw [if_pos hc]
    rw [hc] at e
    exact ⟨s2, e, ⟨⟨hm.em.fr, hm.em.ge, hm.em.code, hm.em.new, hm.em.old⟩, hm.reg, hm.bal, Nat.le_refl _, hm.type, hm.push, fun _ => rfl, fun _ => rfl⟩, ht⟩
  · rw [if_neg hc]
    rw [show finishOp (o.cc false) = modS fun z => { z with type := vtBool, val := (o.cc false : Int) } from if_neg hc] at e
    exact ⟨{ s2 with type := vtBool, val := (o.cc false : Int) }, e,
      ⟨⟨hm.em.fr, hm.em.ge, hm.em.code, hm.em.new, hm.em.old⟩, hm.reg, hm.bal, Nat.le_refl _, rfl, rfl, hm.push⟩, ht⟩

theorem Mid.bin {s s1 : S} {as : List Byte} {r : Bool} (h : Mid s as r (SccGen.bal s) s1) (o : BOp) (g : Nat) (hg : g = 1 ∨ o = .mul ∨ (o.alu false).isSome)
    (hr : Room s (as ++ binBytes false o g).length) :
    ∃ s2, doBinOp o.tok g s1 = .ok () s2 ∧ Done off s ⟨as ++ binBytes false o g, binKd o, r⟩ { s2 with lastZF := s2.code } ∧ tks s2 = tks s1 := by
  have e := binOp_raw o g s1 h.live (by rw [h.uns]; exact hg)
  rw [h.uns] at e
  exact h.fin o e hr

theorem Mid.const {s s1 : S} {as : List Byte} {r : Bool} (h : Mid s as r (SccGen.bal s) s1) (o : BOp) (hv : In16 s1.val)
    (hr : Room s (as ++ constBytes false o s1.val).length) :
    ∃ s2, doRhsConstBinOp o.tok s1 = .ok () s2 ∧ Done off s ⟨as ++ constBytes false o s1.val, binKd o, r⟩ { s2 with lastZF := s2.code } ∧ tks s2 = tks s1 := by
  unfold In16 at hv
  have e := constOp_raw o s1 h.live (by omega) (by omega)
  rw [h.uns] at e
  exact h.fin o e hr

theorem comm_alu {o : BOp} (h : opCommutes o.tok = true) : o = .mul ∨ (o.alu false).isSome := by
  cases o <;> first | exact .inl rfl | exact .inr rfl | (revert h; decide)

/-- The left operand is a constant, the right one is not. -/
theorem bin_litL {s s1 : S} {g : G} (h : Done off s g s1) (hu : Up s) (hun : s1.isUnsigned = false) (hl : ∀ v, g.kd ≠ .lit v) (o : BOp) (ex x : Int)
    (hx : In16 x) (hr : Room s (genLitL o x (SccGen.toVal off s.push g)).bs.length) :
    ∃ s2, finishBin o.tok vtInt vtLocLit ex x s1 = .ok () s2 ∧ Done off s (genLitL o x (SccGen.toVal off s.push g)) s2 ∧ tks s2 = tks s1 := by
  have hnt : s1.type ≠ vtLocLit ||| vtInt := by
    have := h.kd
    cases hk : g.kd with
    | lit v => exact absurd hk (hl v)
    | var x => rw [hk] at this; rw [this.1]; decide
    | reg sk => rw [hk] at this; rw [this.1]; decide
    | flag cc => rw [hk] at this; rw [this.1]; decide
  have hle : (SccGen.toVal off s.push g).bs.length ≤ (genLitL o x (SccGen.toVal off s.push g)).bs.length := by
    unfold genLitL; split <;> simp
  obtain ⟨s2, e2, hd, ht⟩ := h.toVal hu hl (room_le hr hle)
  obtain ⟨sk, hsk⟩ := toVal_reg s.push g hl (off := off)
  generalize SccGen.toVal off s.push g = gv at *
  have hkd := hd.kd; rw [hsk] at hkd
  have hun2 : s2.isUnsigned = false := (congrArg Prod.snd ht).trans hun
  have ht2 := congrArg Prod.fst ht
  have hm : Mid s gv.bs gv.r (bal s) s2 := ⟨hd.em, hu.of hd.em.fr, hkd.2.1, hd.reg, hd.bal, hkd.1, hun2⟩
  unfold genLitL at hr ⊢
  by_cases hc : opCommutes o.tok = true
  · rw [if_pos hc] at hr ⊢
    have hm' : Mid s gv.bs gv.r (bal s) { s2 with val := x } :=
      ⟨⟨hm.em.fr, hm.em.ge, hm.em.code, hm.em.new, hm.em.old⟩, ⟨hm.up.dead, hm.up.spAdj⟩, hm.push, hm.reg, hm.bal, hm.type, hm.uns⟩
    obtain ⟨s3, e3, hd3, ht3⟩ := hm'.const o hx hr (off := off)
    refine ⟨{ s3 with lastZF := s3.code }, ?_, hd3, ht3.trans ht2⟩
    unfold finishBin
    exact run_neg (by decide) <| run_bind (a := 0) rfl (run_getS (run_neg hnt (run_pos rfl (run_failIf rfl (run_bind e2 (run_pos hc (run_modS (run_bind e3
      (run_neg (fun h => h.2 rfl) rfl)))))))))
  · rw [if_neg hc] at hr ⊢
    have hl3 : gv.bs ++ (movCx x ++ [0x91] ++ binBytes false o 1) = gv.bs ++ movCx x ++ [0x91] ++ binBytes false o 1 := by simp
    rw [hl3] at hr ⊢
    obtain ⟨s3, e3, hm3, ht3, _⟩ := hm.out (movCx x) (room_le hr (by simp))
    obtain ⟨s4, e4, hm4, ht4, _⟩ := hm3.out [0x91] (room_le hr (by simp))
    obtain ⟨s5, e5, hd5, ht5⟩ := hm4.bin o 1 (.inl rfl) hr (off := off)
    refine ⟨{ s5 with lastZF := s5.code }, ?_, hd5, ht5.trans (ht4.trans (ht3.trans ht2))⟩
    unfold finishBin
    exact run_neg (by decide) <| run_bind (a := 0) rfl (run_getS (run_neg hnt (run_pos rfl (run_failIf rfl (run_bind e2 (run_neg hc (run_bind e3 (run_bind e4 (run_bind e5
      (run_neg (fun h => h.2 rfl) rfl))))))))))

/-- The left operand is in AX. -/
structure Left (s : S) (as : List Byte) (r : Bool) (s1 : S) : Prop where
  em : Em s as s1
  push : s1.push = true
  reg : s1.regUse = r
  bal : bal s1 = bal s - 2

/-- The right operand is a constant. -/
theorem bin_litR {s s1 s2 : S} {as : List Byte} {r : Bool} (h1 : Left s as r s1) (hu : Up s) {y : Int} (h2 : Done off s1 ⟨[], .lit y, r⟩ s2)
    (hun : s2.isUnsigned = false) (hy : In16 y) (o : BOp) (ex x : Int) (hr : Room s (as ++ constBytes false o y).length) :
    ∃ s3, finishBin o.tok vtInt 0 ex x s2 = .ok () s3 ∧ Done off s ⟨as ++ constBytes false o y, binKd o, r⟩ s3 ∧ tks s3 = tks s2 := by
  obtain ⟨ht, hv, hp⟩ := h2.kd
  have hem := h1.em.trans h2.em
  rw [List.append_nil] at hem
  have hu2 := hu.of hem.fr
  have hm : Mid s as r (bal s) { s2 with push := false, type := vtInt } := by
    refine ⟨⟨hem.fr, hem.ge, hem.code, hem.new, hem.old⟩, ⟨hu2.dead, hu2.spAdj⟩, rfl, h2.reg, ?_, rfl, hun⟩
    have a := h2.bal
    have b := h1.bal
    rw [← a] at b
    unfold SccGen.bal at b ⊢
    rw [h1.push] at hp
    simp only [hp] at b ⊢
    simp at b ⊢
    omega
  obtain ⟨s3, e3, hd3, ht3⟩ := hm.const o (by rw [show ({ s2 with push := false, type := vtInt } : S).val = y from hv]; exact hy)
    (by rw [show ({ s2 with push := false, type := vtInt } : S).val = y from hv]; exact hr) (off := off)
  rw [show ({ s2 with push := false, type := vtInt } : S).val = y from hv] at hd3
  refine ⟨{ s3 with lastZF := s3.code }, ?_, hd3, ht3⟩
  unfold finishBin
  exact run_neg (by decide) <| run_bind (a := 0) rfl (run_getS (run_pos ht (run_failIf (by rw [hp, h1.push]; rfl) (run_modS (run_modS (run_neg (by decide) (run_bind e3
    (run_neg (fun h => h.2 rfl) rfl))))))))

theorem lvalBin_some {op inst k loc : Nat} {v : Int} {s s3 s4 : S} (ha : getSimpleALU op s.isUnsigned = some (inst, k)) (hl : s.type &&& vtLocMask = loc)
    (hv : s.val = v) (e3 : emitModrm (inst ||| 3) rAX loc v { s with type := clr s.type (vtLocMask ||| vtLval) } = .ok () s3)
    (e4 : finishOp k s3 = .ok () s4) : doRhsLvalBinOp op s = .ok true s4 := by
  subst hl hv
  refine run_getS (run_modS ?_)
  rw [ha]
  exact run_bind e3 (run_bind e4 rfl)

theorem lvalBin_none {op loc : Nat} {v : Int} {s s3 s4 : S} (ha : getSimpleALU op s.isUnsigned = none) (hl : s.type &&& vtLocMask = loc)
    (hv : s.val = v) (e3 : output [0x91] { s with type := clr s.type (vtLocMask ||| vtLval) } = .ok () s3)
    (e4 : emitLoadAx 2 loc v s3 = .ok () s4) : doRhsLvalBinOp op s = .ok false s4 := by
  subst hl hv
  refine run_getS (run_modS ?_)
  rw [ha]
  exact run_bind e3 (run_bind e4 rfl)

/-- The right operand is a variable. -/
theorem bin_varR {s s1 s2 : S} {as : List Byte} {r : Bool} (h1 : Left s as r s1) (hu : Up s) {y : Nat} (h2 : Done off s1 ⟨[], .var y, r⟩ s2)
    (hun : s2.isUnsigned = false) (o : BOp) (ex x : Int) (hr : Room s (as ++ rhsVar o (off y)).length) :
    ∃ s3, finishBin o.tok vtInt 0 ex x s2 = .ok () s3 ∧ Done off s ⟨as ++ rhsVar o (off y), binKd o, r⟩ s3 ∧ tks s3 = tks s2 := by
  obtain ⟨ht, hv, hp⟩ := h2.kd
  have hem := h1.em.trans h2.em
  rw [List.append_nil] at hem
  have hu2 := hu.of hem.fr
  have hm : Mid s as r (bal s) { s2 with push := false, type := clr s2.type (vtLocMask ||| vtLval) } := by
    refine ⟨⟨hem.fr, hem.ge, hem.code, hem.new, hem.old⟩, ⟨hu2.dead, hu2.spAdj⟩, rfl, h2.reg, ?_, (by show clr s2.type (vtLocMask ||| vtLval) = vtInt; rw [ht]; decide), hun⟩
    have a := h2.bal
    have b := h1.bal
    rw [← a] at b
    unfold SccGen.bal at b ⊢
    rw [h1.push] at hp
    simp only [hp] at b ⊢
    simp at b ⊢
    omega
  have hcond : ¬(o.tok = 0x2B ∧ 0 ≠ 0) ∧ s2.push = true ∧ s2.type &&& vtBaseMask ≠ vtArray ∧ s2.type &&& (vtBaseMask ||| vtPtrMask) ≠ vtChar :=
    ⟨fun h => h.2 rfl, hp.trans h1.push, by rw [ht]; decide, by rw [ht]; decide⟩
  have key : ∀ {s3 : S}, (doRhsLvalBinOp o.tok >>= fun b => (if b then pure () else if opCommutes o.tok then doBinOp o.tok rCX else output [0x91] >>= fun _ => doBinOp o.tok rCX : A Unit))
      { s2 with push := false } = .ok () s3 → finishBin o.tok vtInt 0 ex x s2 = .ok () { s3 with lastZF := s3.code } := by
    intro s3 e3
    unfold finishBin
    refine run_neg (by decide) <| run_bind (a := 0) rfl (run_getS (run_neg (by rw [ht]; decide) (run_neg (by decide) ?_)))
    refine run_bind (a := ()) (s1 := s3) ?_ (run_neg (fun h => h.2 rfl) rfl)
    exact run_failIf (by decide) (run_getS (run_pos hcond (run_failIf (by rw [ht]; decide) (run_modS e3))))
  unfold rhsVar at hr ⊢
  cases ha : o.alu false with
  | some ik =>
    obtain ⟨inst, k⟩ := ik
    simp only [ha] at hr ⊢
    have hk : k = o.cc false := by unfold BOp.cc; rw [ha]; rfl
    obtain ⟨s3, e3, hm3, ht3, _⟩ := hm.modrm (inst ||| 3) (off y) hr
    obtain ⟨s4, e4, hd4, ht4⟩ := hm3.fin o (x := finishOp (o.cc false)) (bs := []) rfl (by rw [List.append_nil]; exact hr) (off := off)
    rw [List.append_nil] at hd4
    refine ⟨{ s4 with lastZF := s4.code }, key ?_, hd4, ht4.trans ht3⟩
    refine run_bind (a := true) (s1 := s4) ?_ rfl
    refine lvalBin_some (k := k) (s := { s2 with push := false }) ?_ ?_ hv e3 (by rw [hk]; exact e4)
    · show getSimpleALU o.tok s2.isUnsigned = _
      rw [hun]; exact ha
    · show s2.type &&& vtLocMask = _
      rw [ht]; decide
  | none =>
    simp only [ha] at hr ⊢
    have hl : ∀ z : List Byte, as ++ ([0x91] ++ modB 0x8B 0 (off y) ++ z ++ binBytes false o 1) = as ++ [0x91] ++ modB 0x8B 0 (off y) ++ z ++ binBytes false o 1 := by
      intro z; simp
    rw [hl] at hr ⊢
    obtain ⟨s3, e3, hm3, ht3, _⟩ := hm.out [0x91] (room_le hr (by simp))
    obtain ⟨s4, e4, hm4, ht4, _⟩ := hm3.modrm 0x8B (off y) (room_le hr (by simp only [List.length_append]; omega))
    have hfirst : doRhsLvalBinOp o.tok { s2 with push := false } = .ok false s4 := by
      refine lvalBin_none (s := { s2 with push := false }) ?_ (loc := vtLocOff) ?_ hv e3 ?_
      · show getSimpleALU o.tok s2.isUnsigned = _
        rw [hun]; exact ha
      · show s2.type &&& vtLocMask = _
        rw [ht]; decide
      · unfold emitLoadAx
        exact run_neg (by decide) (run_neg (by decide) e4)
    by_cases hc : opCommutes o.tok = true
    · rw [if_pos hc, List.append_nil] at hr ⊢
      obtain ⟨s5, e5, hd5, ht5⟩ := hm4.bin o 1 (.inl rfl) hr (off := off)
      exact ⟨_, key (run_bind hfirst (run_neg (by decide) (run_pos hc e5))), hd5, ht5.trans (ht4.trans ht3)⟩
    · rw [if_neg hc] at hr ⊢
      obtain ⟨s5, e5, hm5, ht5, _⟩ := hm4.out [0x91] (room_le hr (by simp only [List.length_append]; omega))
      obtain ⟨s6, e6, hd6, ht6⟩ := hm5.bin o 1 (.inl rfl) hr (off := off)
      exact ⟨_, key (run_bind hfirst (run_neg (by decide) (run_neg hc (run_bind e5 e6)))), hd6, ht6.trans (ht5.trans (ht4.trans ht3))⟩

/-- The right operand is in AX or in the flags. -/
theorem bin_regR {s s1 s2 : S} {as : List Byte} {r : Bool} (h1 : Left s as r s1) (hu : Up s) {g : G} (h2 : Done off s1 g s2)
    (hk : (∃ sk, g.kd = .reg sk) ∨ ∃ cc, g.kd = .flag cc) (hun : s2.isUnsigned = false) (o : BOp) (ex x : Int)
    (hr : Room s (as ++ (SccGen.toVal off false g).bs ++ rhsReg o (SccGen.toVal off false g).r).length) :
    ∃ s3, finishBin o.tok vtInt 0 ex x s2 = .ok () s3 ∧
      Done off s ⟨as ++ (SccGen.toVal off false g).bs ++ rhsReg o (SccGen.toVal off false g).r, binKd o, false⟩ s3 ∧ tks s3 = tks s2 := by
  have hl : ∀ v, g.kd ≠ .lit v := by
    intro v hv
    obtain ⟨_, hk⟩ | ⟨_, hk⟩ := hk <;> rw [hv] at hk <;> cases hk
  have hvv : SccGen.toVal off s1.push g = SccGen.toVal off false g := by
    obtain ⟨bs, kd, r⟩ := g
    obtain ⟨_, hk⟩ | ⟨_, hk⟩ := hk <;> cases hk <;> rfl
  have hkd2 : s2.push = false ∧ s2.type ≠ vtLocLit ||| vtInt := by
    have := h2.kd
    obtain ⟨_, hk⟩ | ⟨_, hk⟩ := hk
    · rw [hk] at this; exact ⟨this.2.1, by rw [this.1]; decide⟩
    · rw [hk] at this; exact ⟨this.2.2, by rw [this.1]; decide⟩
  have hr1 : Room s1 (SccGen.toVal off s1.push g).bs.length := by
    rw [hvv]; exact h1.em.room (room_le hr (by simp only [List.length_append]; omega))
  obtain ⟨s3, e3, hd3, ht3⟩ := h2.toVal (hu.of h1.em.fr) hl hr1
  obtain ⟨sk, hsk⟩ := toVal_reg s1.push g hl (off := off)
  rw [hvv] at hd3 hsk
  generalize SccGen.toVal off false g = gv at *
  have hkd := hd3.kd; rw [hsk] at hkd
  have hem := h1.em.trans hd3.em
  have hm : Mid s (as ++ gv.bs) gv.r (bal s - 2) s3 :=
    ⟨hem, hu.of hem.fr, hkd.2.1, hd3.reg, hd3.bal.trans h1.bal, hkd.1, (congrArg Prod.snd ht3).trans hun⟩
  have ht3' := congrArg Prod.fst ht3
  have hbb : bal s - 2 + 2 = bal s := by omega
  have key : ∀ {s5 : S}, (if opCommutes o.tok then getStoredVal none >>= fun r => doBinOp o.tok r
      else output [0x91] >>= fun _ => getStoredVal (some rAX) >>= fun _ => doBinOp o.tok rCX : A Unit) s3 = .ok () s5 →
      finishBin o.tok vtInt 0 ex x s2 = .ok () { s5 with lastZF := s5.code } := by
    intro s5 e5
    unfold finishBin
    refine run_neg (by decide) <| run_bind (a := 0) rfl (run_getS (run_neg hkd2.2 (run_neg (by decide) ?_)))
    refine run_bind (a := ()) (s1 := s5) ?_ (run_neg (fun h => h.2 rfl) rfl)
    exact run_failIf (by decide) (run_getS (run_neg (fun h => absurd h.2.1 (by rw [hkd2.1]; decide)) (run_neg (fun h => h.2 rfl) (run_bind e3 e5))))
  unfold rhsReg at hr ⊢
  by_cases hc : opCommutes o.tok = true
  · rw [if_pos hc] at hr ⊢
    cases hgr : gv.r with
    | true =>
      rw [hgr] at hr hm
      rw [if_pos rfl] at hr ⊢
      obtain ⟨s4, e4, hm4, ht4⟩ := hm.stored (room_le hr (by simp))
      rw [if_pos rfl, List.append_nil, hbb] at hm4
      obtain ⟨s5, e5, hd5, ht5⟩ := hm4.bin o 3 (.inr (comm_alu hc)) hr (off := off)
      exact ⟨_, key (run_pos hc (run_bind e4 e5)), hd5, ht5.trans (ht4.trans ht3')⟩
    | false =>
      rw [hgr] at hr hm
      rw [if_neg (by decide)] at hr ⊢
      rw [← List.append_assoc] at hr ⊢
      obtain ⟨s4, e4, hm4, ht4⟩ := hm.stored (room_le hr (by simp))
      rw [if_neg (by decide), hbb] at hm4
      obtain ⟨s5, e5, hd5, ht5⟩ := hm4.bin o 1 (.inl rfl) hr (off := off)
      exact ⟨_, key (run_pos hc (run_bind e4 e5)), hd5, ht5.trans (ht4.trans ht3')⟩
  · rw [if_neg hc] at hr ⊢
    have hl : as ++ gv.bs ++ ([0x91] ++ (if gv.r then [0x93] else [0x58]) ++ binBytes false o 1)
        = as ++ gv.bs ++ [0x91] ++ (if gv.r then [0x93] else [0x58]) ++ binBytes false o 1 := by simp
    rw [hl] at hr ⊢
    obtain ⟨s4, e4, hm4, ht4, _⟩ := hm.out [0x91] (room_le hr (by simp))
    obtain ⟨s5, e5, hm5, ht5⟩ := hm4.storedAx (room_le hr (by simp only [List.length_append]; omega))
    rw [hbb] at hm5
    obtain ⟨s6, e6, hd6, ht6⟩ := hm5.bin o 1 (.inl rfl) hr (off := off)
    exact ⟨_, key (run_neg hc (run_bind e4 (run_bind e5 e6))), hd6, ht6.trans (ht5.trans (ht4.trans ht3'))⟩

/-! ## The end of a binary operator -/

theorem Done.uns {s s1 : S} {g : G} (h : Done off s g s1) (b : Bool) : Done off s g { s1 with isUnsigned := b } := by
  refine ⟨⟨h.em.fr, h.em.ge, h.em.code, h.em.new, h.em.old⟩, h.reg, h.bal, h.zf, ?_⟩
  have := h.kd
  cases hk : g.kd with
  | lit v => rw [hk] at this; exact this
  | var x => rw [hk] at this; exact this
  | reg sk => rw [hk] at this; exact this
  | flag cc => rw [hk] at this; exact this

theorem Done.types {s s1 : S} {g : G} (h : Done off s g s1) :
    s1.type = vtLocLit ||| vtInt ∨ s1.type = vtInt ||| vtLval ||| vtLocOff ∨ s1.type = vtInt ∨ s1.type = vtBool := by
  have := h.kd
  cases hk : g.kd with
  | lit v => rw [hk] at this; exact .inl this.1
  | var x => rw [hk] at this; exact .inr (.inl this.1)
  | reg sk => rw [hk] at this; exact .inr (.inr (.inl this.1))
  | flag cc => rw [hk] at this; exact .inr (.inr (.inr this.1))

theorem finish_bin {s2 : S} (o : BOp) (t : Nat) (ht : t = vtInt ∨ t = vtLocLit ||| vtInt) (ex x : Int)
    (hk : s2.type = vtLocLit ||| vtInt ∨ s2.type = vtInt ||| vtLval ||| vtLocOff ∨ s2.type = vtInt ∨ s2.type = vtBool)
    (hn : ¬(t &&& vtLocMask = vtLocLit ∧ s2.type = vtLocLit ||| vtInt)) :
    finishExpr1 o.tok o.prec (-1) t ex x s2 = finishBin o.tok vtInt (t &&& vtLocMask) ex x { s2 with isUnsigned := false } := by
  obtain ⟨p1, p2, p3⟩ := tok_facts o
  have hc : clr t vtLocMask = vtInt := by obtain rfl | rfl := ht <;> decide
  have hb : (clr t vtLocMask == vtUnsigned ||| vtInt || s2.type &&& (vtUnsigned ||| vtPtrMask ||| vtBaseMask) == vtUnsigned ||| vtInt) = false := by
    rw [hc]
    obtain h | h | h | h := hk <;> rw [h] <;> decide
  refine run_neg p3 (run_getS (run_neg hn (run_neg (by decide) (run_modS (run_neg p1 ?_)))))
  rw [hb, hc]

theorem finish_const {s s2 : S} {y : Int} {r : Bool} (h : Done off s ⟨[], .lit y, r⟩ s2) (o : BOp) (ex x v : Int) (hx : In16 x) (hy : In16 y)
    (hv : o.exact x y = some v) :
    finishExpr1 o.tok o.prec (-1) (vtLocLit ||| vtInt) ex x s2 = .ok () { s2 with val := v } ∧ Done off s ⟨[], .lit v, r⟩ { s2 with val := v } := by
  obtain ⟨p1, p2, p3⟩ := tok_facts o
  obtain ⟨ht, hvv, hp⟩ := h.kd
  refine ⟨?_, ⟨h.em.fr, h.em.ge, h.em.code, h.em.new, h.em.old⟩, h.reg, h.bal, h.zf, ht, rfl, hp⟩
  refine run_neg p3 (run_getS (run_pos ⟨by decide, ht⟩ (run_failIf (by decide) (run_bind (a := v) (s1 := s2) ?_ rfl))))
  unfold doConstBinOp
  rw [hvv, (exact_fold hx hy hv).1]
  rfl

/-- A constant does not change anything for the right operand. -/
theorem Done.afterLit {s s1 s2 : S} {x : Int} {r : Bool} {g : G} (h : Done off s ⟨[], .lit x, r⟩ s1) (h2 : Done off s1 g s2) : Done off s g s2 := by
  have hp : s1.push = s.push := h.kd.2.2
  refine ⟨h.em.trans h2.em, h2.reg, h2.bal.trans h.bal, h2.zf, ?_⟩
  rw [← hp]; exact h2.kd

theorem Done.left {s s1 : S} {g : G} {sk : Bool} (h : Done off s g s1) (hk : g.kd = .reg sk) : Left s g.bs g.r { s1 with push := true } := by
  have := h.kd
  rw [hk] at this
  refine ⟨⟨h.em.fr, h.em.ge, h.em.code, h.em.new, h.em.old⟩, rfl, h.reg, ?_⟩
  have hb := h.bal
  rw [← hb]
  unfold SccGen.bal
  rw [this.2.1]
  simp only
  simp

end SccGen
