import Verif.Props.SccStmHist
/-!
# Compiled statements (C49): expressions, conditions and assignments at the current token
-/
namespace SccStm
open Prog Scc SccCode SccGen SccLayout Props.SccLex

variable {off : Nat → Int}

/-! ## Tokens -/

theorem Scan.rebase {s0 s1 : Base} {l : List Byte} {ts : List Tk} (h : Scan s0 l ts) (hi : ids s1.s = ids s0.s) (hf : s1.fin = s0.fin := by rfl) : Scan s1 l ts := by
  induction h with
  | nil r h => exact .nil r (hf ▸ h)
  | cons r r' h _ ih => exact .cons r r' (fun s hc => h s (hc.trans hi)) ih

theorem On.rebase {s0 s1 : Base} {s : S} {ts : List Tk} (h : On s0 s ts) (hi : ids s1.s = ids s0.s) (hf : s1.fin = s0.fin := by rfl) : On s1 s ts := by
  cases ts with
  | nil => trivial
  | cons t ts => exact ⟨h.1, Scan.rebase h.2 hi hf⟩

/-! ## Expressions -/

/-- What holds at the beginning of each expression. -/
structure Ex0 (off : Nat → Int) (xs : List Nat) (s0 : Base) (s : S) : Prop where
  up : Up s
  push : s.push = false
  reg : s.regUse = false
  zf : s.lastZF ≤ s.code
  ge : codeStart ≤ s.code
  ids : ids s = ids s0
  loc : Locals off xs s

theorem Ex0.room {xs : List Nat} {s0 : Base} {s : S} (h : Ex0 off xs s0 s) {n : Nat} (hn : s.code + n ≤ codeStart + outputMax) : Room s n := by
  have := h.ge
  unfold Room
  generalize codeStart = y, outputMax = z at *
  omega

/-- A piece of code was emitted and the compiler is between statements again. -/
structure Did (s : S) (bs : List Byte) (s' : S) : Prop where
  em : Em s bs s'
  push : s'.push = false
  reg : s'.regUse = false
  lo : s'.localOffset = s.localOffset
  zf : s'.lastZF ≤ s'.code

theorem lo_of_bal {s s' : S} (h : bal s' = bal s) (h1 : s'.push = false) (h2 : s'.regUse = false) (h3 : s.push = false) (h4 : s.regUse = false) :
    s'.localOffset = s.localOffset := by
  unfold bal at h
  rw [h1, h2, h3, h4] at h
  simpa using h

/-- `ParseExpr`. -/
theorem expr_on {xs : List Nat} {s0 : Base} {s : S} (h : Ex0 off xs s0 s) {e : E} {ts rest : List Tk} {t : Tk} (hsh : Shows 10 e ts) (hon : On s0 s (ts ++ t :: rest))
    (ht : precComma < t.prec) (hn : NoPost t) (hs : Stat e) (hx : ∀ x ∈ Vars e, x ∈ xs) (hr : s.code + 64 * size e ≤ codeStart + outputMax) :
    ∃ s', Go .expr s s' ∧ On s0 s' (t :: rest) ∧ Done off s (gen off e false false) s' := by
  have hlen := gen_len (off := off) e hs false false
  obtain ⟨s', g, on, d⟩ := parse_expr s xs h.loc h.up h.zf .expr precComma (.inl ⟨rfl, rfl⟩) hsh (On.rebase hon h.ids) ht hn hs hx
    (by rw [h.push, h.reg]; exact h.room (by omega))
  rw [h.push, h.reg] at d
  exact ⟨s', g, On.rebase on h.ids.symm, d⟩

/-- `ParseExpr`, `GetVal`. -/
theorem val_on {xs : List Nat} {s0 : Base} {s : S} (h : Ex0 off xs s0 s) {e : E} {ts rest : List Tk} {t : Tk} (hsh : Shows 10 e ts) (hon : On s0 s (ts ++ t :: rest))
    (ht : precComma < t.prec) (hn : NoPost t) (hs : Stat e) (hx : ∀ x ∈ Vars e, x ∈ xs) (hr : s.code + 64 * size e + 12 ≤ codeStart + outputMax) :
    ∃ s1 s', Go .expr s s1 ∧ getVal s1 = .ok () s' ∧ On s0 s' (t :: rest) ∧ Did s (valB off (gen off e false false)) s' := by
  obtain ⟨s1, g, on, d⟩ := expr_on h hsh hon ht hn hs hx (by omega)
  have hvl := val_len (off := off) e hs
  obtain ⟨s', e', got, hr', ht'⟩ := d.val h.up h.push (h.room (by omega))
  have hreg := hr'.trans (gen_r (off := off) e)
  exact ⟨s1, s', g, e', on.of_tks ht', got.em, got.push, hreg, lo_of_bal got.bal got.push hreg h.push h.reg, got.zf⟩

/-- `DoCond` with a condition that is not constant. -/
theorem cond_on {xs : List Nat} {s0 : Base} {s : S} (h : Ex0 off xs s0 s) {e : E} {ts rest : List Tk} {t : Tk} (hsh : Shows 10 e ts) (hon : On s0 s (ts ++ t :: rest))
    (ht : precComma < t.prec) (hn : NoPost t) (hs : Stat e) (hx : ∀ x ∈ Vars e, x ∈ xs) (hc : cst e = none)
    (hr : s.code + 64 * size e + 8 ≤ codeStart + outputMax) :
    ∃ s', (∃ N, ∀ n, N ≤ n → ∀ (l : Int) (f : Bool), doCond (run n) l f s = emitJcc (testCC off (gen off e false false) ^^^ if f then 1 else 0) l s') ∧
      On s0 s' (t :: rest) ∧ Did s (testB off (gen off e false false)) s' := by
  obtain ⟨s1, ⟨N, g⟩, on, d⟩ := expr_on h hsh hon ht hn hs hx (by omega)
  have hnl := (gen_kd off e false false hs).1 hc
  have htl := test_len (off := off) e hs
  obtain ⟨s', e3, hd3, ht3⟩ := d.test h.up h.push hnl (h.room (by omega))
  have hreg := hd3.reg.trans (gen_r (off := off) e)
  have hkd : s'.type = vtBool ∧ s'.val = testCC off (gen off e false false) ∧ s'.push = false := hd3.kd
  have hlit : s1.type ≠ vtLocLit ||| vtInt := by
    have hk := d.kd
    cases hgk : (gen off e false false).kd with
    | lit v => exact absurd hgk (hnl v)
    | var x => rw [hgk] at hk; rw [hk.1]; decide
    | reg sk => rw [hgk] at hk; rw [hk.1]; decide
    | flag f => rw [hgk] at hk; rw [hk.1]; decide
  refine ⟨s', ⟨N, fun n hn l f => ?_⟩, on.of_tks ht3, hd3.em, hkd.2.2, hreg, lo_of_bal hd3.bal hkd.2.2 hreg h.push h.reg, hd3.zf⟩
  refine run_bind (g n hn) (run_getS (run_neg hlit ((e3 _).trans (run_getS ?_))))
  rw [hkd.2.1, Int.toNat_natCast]

/-- `DoCond` with a constant condition after which nothing is emitted. -/
theorem cond_lit {xs : List Nat} {s0 : Base} {s : S} (h : Ex0 off xs s0 s) {e : E} {ts rest : List Tk} {t : Tk} (hsh : Shows 10 e ts) (hon : On s0 s (ts ++ t :: rest))
    (ht : precComma < t.prec) (hn : NoPost t) (hs : Stat e) (hx : ∀ x ∈ Vars e, x ∈ xs) {y : Int} (hc : cst e = some y)
    (hr : s.code + 64 * size e ≤ codeStart + outputMax) :
    ∃ s', (∃ N, ∀ n, N ≤ n → ∀ (l : Int) (f : Bool), (y ≠ 0 ∨ f = false) → doCond (run n) l f s = .ok () s') ∧
      On s0 s' (t :: rest) ∧ Did s [] s' := by
  obtain ⟨s1, ⟨N, g⟩, on, d⟩ := expr_on h hsh hon ht hn hs hx hr
  rw [(gen_cst off e false false y hs hc).1] at d
  have hkd : s1.type = vtLocLit ||| vtInt ∧ s1.val = y ∧ s1.push = s.push := d.kd
  have hp := hkd.2.2.trans h.push
  refine ⟨s1, ⟨N, fun n hn l f hf => ?_⟩, on, d.em, hp, d.reg, lo_of_bal d.bal hp d.reg h.push h.reg, d.zf⟩
  refine run_bind (g n hn) (run_getS (run_pos hkd.1 (run_neg ?_ rfl)))
  rw [hkd.2.1]
  rintro ⟨h1, h2⟩
  obtain h3 | h3 := hf
  · exact h3 h1
  · rw [h3] at h2; cases h2

/-! ## Assignments -/

theorem Rounds.rhs' (p : Nat) (hp0 : 0 < p) : ∀ (n : Nat) {s s' : S}, Rounds (p - 1) n s s' → p < s'.prec → Go (.rhs p) s s' := by
  intro n
  induction n using Nat.strongRecOn with
  | _ n ih =>
    intro s s' hr he
    cases hr with
    | refl => exact Go.of 0 fun n _ => run_bind (a := ()) (s1 := s) (run_getS (run_pos (.inl he) rfl)) rfl
    | @step m _ s1 _ h h3 hq ht hr =>
      have hr0 : Rounds (p - 1) (m + 1) s s' := .step h h3 hq ht hr
      obtain ⟨a, b, sm, e, r1, h1, r2, hpos⟩ := hr0.split s.prec (by omega)
      obtain ⟨N1, t1⟩ := r1.tail (Nat.le_refl _) h1
      obtain ⟨N2, t2⟩ := ih b (by have := hpos (Nat.le_refl _) (by omega); omega) r2 he
      refine Go.of (N1 + N2) fun n hn => run_bind (a := ()) (s1 := s') (run_getS (run_neg ?_ ?_)) rfl
      · omega
      · have e1 := t1 n (by omega)
        rw [if_pos (Nat.le_refl _)] at e1
        exact run_bind e1 (t2 n (by omega))

theorem toReg_toReg (g : G) : toReg off false (toReg off false g) = toReg off false g := by
  have h := toReg_notvar (off := off) false g
  generalize toReg off false g = g' at *
  obtain ⟨bs, kd, r⟩ := g'
  cases kd with
  | var x => exact absurd rfl (h x)
  | _ => rfl

theorem toVal_toReg (g : G) : toVal off false (toReg off false g) = toVal off false g := by
  unfold toVal
  rw [toReg_toReg]

theorem set_len (x : Nat) {e : E} (hs : Stat e) : (setB off x e).length ≤ 64 * size e + 16 := by
  have h1 := gen_len (off := off) e hs false false
  have h2 := toVal_len (off := off) false (gen off e false false)
  have h3 := len_modB 0xC7 0 (off x)
  have h4 := len_modB 0x89 0 (off x)
  unfold setB
  split
  · simp only [List.length_append, List.length_cons, List.length_nil]; omega
  · simp only [List.length_append]; omega

theorem Did.wrote {s s1 s' : S} {as bs : List Byte} (h : Did s as s1) (hw : Wrote s1 bs s') : Did s (as ++ bs) s' := by
  have hem := Em.of_wrote (s := s1) hw rfl rfl rfl (by rw [h.em.code]; exact Nat.le_trans h.em.ge (Nat.le_add_right _ _))
  obtain ⟨out, rfl, _⟩ := hw
  exact ⟨h.em.trans hem, h.push, h.reg, h.lo, Nat.le_trans h.zf (Nat.le_add_right _ _)⟩

/-- The assignment, after its operands. -/
theorem store_set {s s1 : S} {x : Nat} {e : E} (hu : Up s) (hp : s.push = false) (hreg : s.regUse = false) (hs : Stat e)
    (h : Done off s (gen off e false false) s1) (hr : Room s (setB off x e).length) (ex : Int) :
    ∃ s', finishAssign 0x3D vtInt vtLocOff ex (off x) s1 = .ok () s' ∧ Did s (setB off x e) s' ∧ tks s' = tks s1 := by
  have hg := gen_r (off := off) e
  have hvv : (toReg off false (gen off e false false)).bs.length ≤ (setB off x e).length := by
    unfold setB
    split
    · rename_i v hk
      have : toReg off false (gen off e false false) = gen off e false false := by unfold toReg; rw [hk]
      rw [this]; simp only [List.length_append]; omega
    · obtain ⟨bs, eb⟩ := toVal_app off (gen off e false false)
      rw [eb]; simp only [List.length_append]; omega
  obtain ⟨s2, e2, d2, t2⟩ := h.toReg hu (by rw [hp]; exact room_le hr hvv)
  rw [hp] at d2
  have hstart : ∀ {r : Res S Unit}, (getS >>= fun s => if s.type = vtInt ||| vtLocLit then emitStoreConst 2 vtLocOff (off x)
      else getVal >>= fun _ => emitStoreAx 2 vtLocOff (off x)) s2 = r → finishAssign 0x3D vtInt vtLocOff ex (off x) s1 = r := by
    intro r hr
    exact run_bind (a := ()) (s1 := s1) rfl (run_neg (by decide) (run_bind e2 hr))
  have up2 : Up s2 := hu.of d2.em.fr
  cases hc : cst e with
  | some y =>
    obtain ⟨hgen, _⟩ := gen_cst off e false false y hs hc
    have hB : setB off x e = modB 0xC7 0 (off x) ++ [Scc.lo y, Scc.hi y] := by unfold setB; rw [hgen]; rfl
    rw [hgen] at d2
    have hkd : s2.type = vtLocLit ||| vtInt ∧ s2.val = y ∧ s2.push = s.push := d2.kd
    have hp2 := hkd.2.2.trans hp
    have hd0 : Did s [] s2 := ⟨d2.em, hp2, d2.reg, lo_of_bal d2.bal hp2 d2.reg hp hreg, d2.zf⟩
    rw [hB] at hr ⊢
    have hr2 : Room s2 (modB 0xC7 0 (off x) ++ [Scc.lo y, Scc.hi y]).length := hd0.em.room (by simpa using hr)
    obtain ⟨s3, e3, w3⟩ := modrm_wrote up2 0xC7 (off x) (by rw [hp2]; exact room_le hr2 (by simp [flB]))
    rw [hp2, pre_of hp2] at w3
    have d3 := hd0.wrote w3
    have hr3 : Room s3 [Scc.lo y, Scc.hi y].length := d3.em.room (by simpa [flB] using hr)
    have l3 : Live s3 := (hu.of d3.em.fr).live d3.push
    have hv3 : s3.val = y := by obtain ⟨o, rfl, _⟩ := w3; exact hkd.2.1
    have e4 := l3.out_put (bs := [Scc.lo y]) (room_le hr3 (by simp))
    have w4 := put_wrote [Scc.lo y] s3 (room_le hr3 (by simp))
    generalize hs4 : put s3 [Scc.lo y] = s4 at *
    have d4 := d3.wrote w4
    have l4 : Live s4 := (hu.of d4.em.fr).live d4.push
    have hr4 : Room s4 [Scc.hi y].length := d4.em.room (by simpa [flB] using hr)
    have e5 := l4.out_put (bs := [Scc.hi y]) hr4
    have w5 := put_wrote [Scc.hi y] s4 hr4
    have d5 := d4.wrote w5
    refine ⟨put s4 [Scc.hi y], hstart (run_getS (run_pos (by rw [hkd.1]; decide) (run_bind e3 (run_getS ?_)))), ?_, ?_⟩
    · rw [hv3]
      exact run_bind e4 (run_pos rfl e5)
    · simpa [flB] using d5
    · obtain ⟨o5, h5, _⟩ := w5
      obtain ⟨o4, h4, _⟩ := w4
      obtain ⟨o3, h3, _⟩ := w3
      rw [h5, h4, h3]
      exact congrArg Prod.fst t2
  | none =>
    have hnl := (gen_kd off e false false hs).1 hc
    have hB : setB off x e = (toVal off false (gen off e false false)).bs ++ modB 0x89 0 (off x) := by
      unfold setB
      split
      · rename_i v hk
        exact absurd hk (hnl v)
      · rfl
    have hnl2 : ∀ v, (toReg off false (gen off e false false)).kd ≠ .lit v := fun v hv => hnl v ((toReg_kd off false _).2.1 v hv)
    rw [hB] at hr ⊢
    have hr1 : Room s (toVal off false (toReg off false (gen off e false false))).bs.length := by
      rw [toVal_toReg]; exact room_le hr (by simp)
    obtain ⟨s3, e3, d3, t3⟩ := d2.toVal hu hnl2 (by rw [hp]; exact hr1)
    rw [hp, toVal_toReg] at d3
    obtain ⟨sk, hsk⟩ := toVal_reg (off := off) false (gen off e false false) hnl
    have hkd := d3.kd
    rw [hsk] at hkd
    have hreg3 : s3.regUse = false := d3.reg.trans ((toVal_r _).trans hg)
    have hd3 : Did s (toVal off false (gen off e false false)).bs s3 := ⟨d3.em, hkd.2.1, hreg3, lo_of_bal d3.bal hkd.2.1 hreg3 hp hreg, d3.zf⟩
    have up3 : Up s3 := hu.of d3.em.fr
    have hr3 : Room s3 (modB 0x89 0 (off x)).length := d3.em.room (by simpa using hr)
    obtain ⟨s4, e4, w4⟩ := modrm_wrote up3 0x89 (off x) (by rw [hd3.push]; simpa [flB] using hr3)
    rw [hd3.push, pre_of hd3.push] at w4
    have d4 := hd3.wrote w4
    have hty : s2.type ≠ vtInt ||| vtLocLit := by
      have hk := d2.kd
      cases hgk : (toReg off false (gen off e false false)).kd with
      | lit v => exact absurd hgk (hnl2 v)
      | var x => rw [hgk] at hk; rw [hk.1]; decide
      | reg sk => rw [hgk] at hk; rw [hk.1]; decide
      | flag f => rw [hgk] at hk; rw [hk.1]; decide
    refine ⟨s4, hstart (run_getS (run_neg hty (run_bind e3 (run_neg (by decide) (run_neg (by decide) e4))))), by simpa [flB] using d4, ?_⟩
    obtain ⟨o4, h4, _⟩ := w4
    rw [h4]
    exact (congrArg Prod.fst t3).trans (congrArg Prod.fst t2)

/-! ## Operators with assignments -/

/-- At most this many bytes follow the code for the right operand. -/
def As.sz : As → Nat
  | .set => 16
  | _ => 48

theorem asgn_len (k : As) (x : Nat) {e : E} (hs : Stat e) : (asgnB off k x e).length ≤ 64 * size e + k.sz := by
  have h1 := gen_len (off := off) e hs false false
  have h2 := toVal_len (off := off) false (gen off e false false)
  have h2' := toReg_len (off := off) false (gen off e false false)
  have hm := fun i r => len_modB i r (off x)
  cases k with
  | set => exact set_len x hs
  | inc d post =>
    show ((if post then modB 0x8B 0 (off x) else []) ++ modB 0xFF (if d then 1 else 0) (off x)).length ≤ 64 * size e + 48
    have h3 := hm 0x8B 0
    have h4 := hm 0xFF (if d then 1 else 0)
    rw [List.length_append]
    cases post
    · simp only [Bool.false_eq_true, if_false, List.length_nil]; omega
    · simp only [if_true]; omega
  | op o =>
    show _ ≤ 64 * size e + 48
    cases hi : o.alu false with
    | some p =>
      rw [asgn_alu off hi]
      have h3 := hm 0x81 (p.1 / 8)
      have h4 := hm p.1 0
      unfold aluB
      split
      · simp only [List.length_append, List.length_cons, List.length_nil]; omega
      · simp only [List.length_append]; omega
    | none =>
      rw [asgn_oth off hi]
      have h3 := hm 0x8B 0
      have h4 := hm 0x89 0
      have h5 := len_bin o 1
      cases hc : cst e with
      | some y =>
        obtain ⟨hgen, hy⟩ := gen_cst off e false false y hs hc
        have h6 := len_const o y hy
        unfold othB
        rw [hgen]
        simp only [List.length_append, List.length_nil]; omega
      | none =>
        have hnl := (gen_kd off e false false hs).1 hc
        unfold othB
        split
        · rename_i v hk
          exact absurd hk (hnl v)
        · simp only [List.length_append, List.length_cons, List.length_nil]; omega

/-- Only the code differs. -/
def Same (s s' : S) : Prop := ∃ o n, s' = { s with out := o, code := n }

theorem Same.tku {s s' : S} (h : Same s s') : tku s' = tku s := by obtain ⟨o, n, rfl⟩ := h; rfl
theorem Same.val {s s' : S} (h : Same s s') : s'.val = s.val := by obtain ⟨o, n, rfl⟩ := h; rfl
theorem Same.type {s s' : S} (h : Same s s') : s'.type = s.type := by obtain ⟨o, n, rfl⟩ := h; rfl
theorem Same.uns {s s' : S} (h : Same s s') : s'.isUnsigned = s.isUnsigned := by obtain ⟨o, n, rfl⟩ := h; rfl

theorem Did.with {s s1 : S} {as : List Byte} (h : Did s as s1) (t : Nat) (v : Int) : Did s as { s1 with type := t, val := v } :=
  ⟨⟨h.em.fr, h.em.ge, h.em.code, h.em.new, h.em.old⟩, h.push, h.reg, h.lo, h.zf⟩

theorem Did.lastZF {s s1 : S} {as : List Byte} (h : Did s as s1) : Did s as { s1 with lastZF := s1.code } :=
  ⟨⟨h.em.fr, h.em.ge, h.em.code, h.em.new, h.em.old⟩, h.push, h.reg, h.lo, Nat.le_refl _⟩

theorem Did.room {s s1 : S} {as bs : List Byte} (h : Did s as s1) (hr : Room s (as ++ bs).length) : Room s1 bs.length :=
  h.em.room (by rw [List.length_append] at hr; exact hr)

theorem Did.put {s s1 : S} {as bs : List Byte} (h : Did s as s1) (hr : Room s (as ++ bs).length) : Did s (as ++ bs) (put s1 bs) ∧ Same s1 (SccCode.put s1 bs) := by
  have hw := put_wrote bs s1 (h.room hr)
  refine ⟨h.wrote hw, ?_⟩
  obtain ⟨o, e, _⟩ := hw
  exact ⟨o, _, e⟩

theorem Did.out {s s1 : S} {as bs : List Byte} (h : Did s as s1) (hu : Up s) (hr : Room s (as ++ bs).length) :
    ∃ s2, output bs s1 = .ok () s2 ∧ Did s (as ++ bs) s2 ∧ Same s1 s2 :=
  ⟨_, ((hu.of h.em.fr).live h.push).out_put (h.room hr), h.put hr⟩

theorem Did.modrm {s s1 : S} {as : List Byte} (h : Did s as s1) (hu : Up s) (inst r : Nat) (hr8 : r < 8) (v : Int) (hr : Room s (as ++ modB inst r v).length) :
    ∃ s2, emitModrm inst r vtLocOff v s1 = .ok () s2 ∧ Did s (as ++ modB inst r v) s2 ∧ Same s1 s2 := by
  obtain ⟨s2, e, hw⟩ := modrm_wrote_r (hu.of h.em.fr) inst r hr8 v (by rw [h.push]; exact h.room hr)
  rw [h.push, pre_of h.push] at hw
  refine ⟨s2, e, h.wrote hw, ?_⟩
  obtain ⟨o, e, _⟩ := hw
  exact ⟨o, _, e⟩

theorem Done.did {s s1 : S} {g : G} (h : Done off s g s1) (hp : s1.push = false) (hg : g.r = false) (hp0 : s.push = false) (hreg : s.regUse = false) : Did s g.bs s1 :=
  ⟨h.em, hp, h.reg.trans hg, lo_of_bal h.bal hp (h.reg.trans hg) hp0 hreg, h.zf⟩

/-- The place of the right operand after `LvalToRval`. -/
theorem Done.type {s s1 : S} {g : G} (h : Done off s g s1) : (∃ v, g.kd = .lit v) ∨ s1.type ≠ vtInt ||| vtLocLit := by
  have hk := h.kd
  cases hgk : g.kd with
  | lit v => exact .inl ⟨v, rfl⟩
  | var x => rw [hgk] at hk; rw [hk.1]; exact .inr (by decide)
  | reg sk => rw [hgk] at hk; rw [hk.1]; exact .inr (by decide)
  | flag f => rw [hgk] at hk; rw [hk.1]; exact .inr (by decide)

theorem tok_ne (o : BOp) : o.tok ≠ 0x3D := by cases o <;> decide

/-- `o=` for an operator of the ALU. -/
theorem store_alu {s s1 : S} {x : Nat} {e : E} (hu : Up s) (hp : s.push = false) (hreg : s.regUse = false) (hs : Stat e) {o : BOp} {p : Nat × Nat}
    (hi : o.alu false = some p) (h : Done off s (gen off e false false) s1) (hun : s1.isUnsigned = false) (hr : Room s (aluB off p.1 x e).length) (ex : Int) :
    ∃ s', finishAssign o.tok vtInt vtLocOff ex (off x) s1 = .ok () s' ∧ Did s (aluB off p.1 x e) s' ∧ tks s' = tks s1 := by
  have hg := gen_r (off := off) e
  have hp8 : p.1 / 8 < 8 := by cases o <;> cases hi <;> decide
  have hvv : (toReg off false (gen off e false false)).bs.length ≤ (aluB off p.1 x e).length := by
    unfold aluB
    split
    · rename_i v hk
      have : toReg off false (gen off e false false) = gen off e false false := by unfold toReg; rw [hk]
      rw [this]; simp only [List.length_append]; omega
    · obtain ⟨bs, eb⟩ := toVal_app off (gen off e false false)
      rw [eb]; simp only [List.length_append]; omega
  obtain ⟨s2, e2, d2, t2⟩ := h.toReg hu (by rw [hp]; exact room_le hr hvv)
  rw [hp] at d2
  have hun2 : s2.isUnsigned = false := (congrArg Prod.snd t2).trans hun
  have hstart : ∀ {r : Res S Unit}, assignALU p.1 (s2.type == vtInt ||| vtLocLit) vtInt vtLocOff (off x) s2 = r → finishAssign o.tok vtInt vtLocOff ex (off x) s1 = r := by
    intro r hr
    refine run_bind (a := ()) (s1 := s1) rfl (run_neg (by decide) (run_bind e2 (run_getS (run_pos (tok_ne o) ?_))))
    show assignOp o.tok 2 vtInt vtLocOff (off x) s2 = r
    unfold assignOp
    refine run_neg (by decide) (run_getS ?_)
    have e : (if 2 = 2 then getSimpleALU o.tok s2.isUnsigned else none) = some p := by rw [hun2]; exact hi
    rw [e]
    exact hr
  cases hc : cst e with
  | some y =>
    obtain ⟨hgen, _⟩ := gen_cst off e false false y hs hc
    have hB : aluB off p.1 x e = modB 0x81 (p.1 / 8) (off x) ++ [Scc.lo y, Scc.hi y] := by unfold aluB; rw [hgen]; rfl
    rw [hgen] at d2
    have hkd : s2.type = vtLocLit ||| vtInt ∧ s2.val = y ∧ s2.push = s.push := d2.kd
    have hd0 : Did s [] s2 := Done.did d2 (hkd.2.2.trans hp) rfl hp hreg
    rw [hB] at hr ⊢
    obtain ⟨s3, e3, d3, w3⟩ := hd0.modrm hu 0x81 (p.1 / 8) hp8 (off x) (room_le hr (by simp))
    obtain ⟨s4, e4, d4, w4⟩ := d3.out (bs := [Scc.lo y, Scc.hi y]) hu hr
    refine ⟨_, hstart (run_pos (by rw [hkd.1]; decide) (run_bind e3 (run_getS (run_bind (a := ()) (s1 := s4) ?_ (run_neg (by decide) rfl))))), d4.with _ _, ?_⟩
    · rw [show s3.val = y from w3.val.trans hkd.2.1]; exact e4
    · show tks s4 = _
      exact congrArg Prod.fst ((w4.tku.trans w3.tku).trans t2)
  | none =>
    have hnl := (gen_kd off e false false hs).1 hc
    have hB : aluB off p.1 x e = (toVal off false (gen off e false false)).bs ++ modB p.1 0 (off x) := by
      unfold aluB
      split
      · rename_i v hk
        exact absurd hk (hnl v)
      · rfl
    have hnl2 : ∀ v, (toReg off false (gen off e false false)).kd ≠ .lit v := fun v hv => hnl v ((toReg_kd off false _).2.1 v hv)
    have hty : s2.type ≠ vtInt ||| vtLocLit := (Done.type d2).resolve_left fun ⟨v, hv⟩ => hnl2 v hv
    rw [hB] at hr ⊢
    have hr1 : Room s (toVal off false (toReg off false (gen off e false false))).bs.length := by
      rw [toVal_toReg]; exact room_le hr (by simp)
    obtain ⟨s3, e3, d3, t3⟩ := d2.toVal hu hnl2 (by rw [hp]; exact hr1)
    rw [hp, toVal_toReg] at d3
    obtain ⟨sk, hsk⟩ := toVal_reg (off := off) false (gen off e false false) hnl
    have hkd := d3.kd
    rw [hsk] at hkd
    have hd3 := Done.did d3 hkd.2.1 ((toVal_r _).trans hg) hp hreg
    obtain ⟨s4, e4, d4, w4⟩ := hd3.modrm hu p.1 0 (by decide) (off x) hr
    refine ⟨_, hstart (run_neg (by simpa using hty) (run_bind e3 (run_bind e4 (run_neg (by decide) rfl)))), d4.with _ _, ?_⟩
    show tks s4 = _
    exact congrArg Prod.fst ((w4.tku.trans t3).trans t2)

/-- `o=` for an operator that needs AX. -/
theorem store_oth {s s1 : S} {x : Nat} {e : E} (hu : Up s) (hp : s.push = false) (hreg : s.regUse = false) (hs : Stat e) {o : BOp}
    (hi : o.alu false = none) (hok : cst e = none → isTest e = false) (h : Done off s (gen off e false false) s1) (hun : s1.isUnsigned = false) (hr : Room s (othB off o x e).length) (ex : Int) :
    ∃ s', finishAssign o.tok vtInt vtLocOff ex (off x) s1 = .ok () s' ∧ Did s (othB off o x e) s' ∧ tks s' = tks s1 := by
  have hg := gen_r (off := off) e
  have hcc : o.cc false = 0 := by unfold BOp.cc; rw [hi]; rfl
  have hvv : (toReg off false (gen off e false false)).bs.length ≤ (othB off o x e).length := by
    unfold othB
    split
    · rename_i v hk
      have : toReg off false (gen off e false false) = gen off e false false := by unfold toReg; rw [hk]
      rw [this]; simp only [List.length_append]; omega
    · simp only [List.length_append]; omega
  obtain ⟨s2, e2, d2, t2⟩ := h.toReg hu (by rw [hp]; exact room_le hr hvv)
  rw [hp] at d2
  have hun2 : s2.isUnsigned = false := (congrArg Prod.snd t2).trans hun
  have hstart : ∀ {r : Res S Unit}, assignOther o.tok 2 (s2.type == vtInt ||| vtLocLit) vtInt vtLocOff (off x) s2 = r → finishAssign o.tok vtInt vtLocOff ex (off x) s1 = r := by
    intro r hr
    refine run_bind (a := ()) (s1 := s1) rfl (run_neg (by decide) (run_bind e2 (run_getS (run_pos (tok_ne o) ?_))))
    show assignOp o.tok 2 vtInt vtLocOff (off x) s2 = r
    unfold assignOp
    refine run_neg (by decide) (run_getS ?_)
    have e : (if 2 = 2 then getSimpleALU o.tok s2.isUnsigned else none) = none := by rw [hun2]; exact hi
    rw [e]
    exact hr
  cases hc : cst e with
  | some y =>
    obtain ⟨hgen, hy⟩ := gen_cst off e false false y hs hc
    have hB : othB off o x e = modB 0x8B 0 (off x) ++ constBytes false o y ++ modB 0x89 0 (off x) := by unfold othB; rw [hgen]; rfl
    rw [hgen] at d2
    have hkd : s2.type = vtLocLit ||| vtInt ∧ s2.val = y ∧ s2.push = s.push := d2.kd
    have hd0 : Did s [] s2 := Done.did d2 (hkd.2.2.trans hp) rfl hp hreg
    rw [hB] at hr ⊢
    obtain ⟨s3, e3, d3, w3⟩ := hd0.modrm hu 0x8B 0 (by decide) (off x) (room_le hr (by simp only [List.length_append, List.length_cons, List.length_nil]; omega))
    have hv3 : s3.val = y := w3.val.trans hkd.2.1
    have hu3 : s3.isUnsigned = false := w3.uns.trans hun2
    unfold In16 at hy
    have e4 := constOp_raw o s3 ((hu.of d3.em.fr).live d3.push) (by omega) (by omega)
    rw [hu3, hv3, hcc, bind_run] at e4
    obtain ⟨d4, w4⟩ := d3.put (bs := constBytes false o y) (room_le hr (by simp only [List.length_append, List.length_nil]; omega))
    rw [raw_put _ _ (d3.room (room_le hr (by simp only [List.length_append, List.length_nil]; omega)))] at e4
    generalize SccCode.put s3 (constBytes false o y) = s4 at *
    obtain ⟨s5, e5, d5, w5⟩ := (d4.with (clr s4.type vtLocMask) s4.val).lastZF.modrm hu 0x89 0 (by decide) (off x) hr
    refine ⟨s5, hstart (run_pos (by rw [hkd.1]; decide) (run_bind e3 (run_neg (by decide) (run_pos (by rw [hkd.1]; decide) (run_bind e4 ?_))))), d5, ?_⟩
    · exact run_modS (run_modS e5)
    · exact congrArg Prod.fst (((w5.tku.trans w4.tku).trans w3.tku).trans t2)
  | none =>
    have hnl := (gen_kd off e false false hs).1 hc
    have hB : othB off o x e = (toReg off false (gen off e false false)).bs ++ [0x91] ++ modB 0x8B 0 (off x) ++ binBytes false o 1 ++ modB 0x89 0 (off x) := by
      unfold othB
      split
      · rename_i v hk
        exact absurd hk (hnl v)
      · rfl
    have hnl2 : ∀ v, (toReg off false (gen off e false false)).kd ≠ .lit v := fun v hv => hnl v ((toReg_kd off false _).2.1 v hv)
    have hty : s2.type ≠ vtInt ||| vtLocLit := (Done.type d2).resolve_left fun ⟨v, hv⟩ => hnl2 v hv
    have hrg : s2.type = vtInt ∧ s2.push = false := by
      have hk := d2.kd
      cases hgk : (toReg off false (gen off e false false)).kd with
      | lit v => exact absurd hgk (hnl2 v)
      | var x => exact absurd hgk ((toReg_kd off false _).1 x)
      | reg sk => rw [hgk] at hk; exact ⟨hk.1, hk.2.1⟩
      | flag f =>
        have := (gen_kd off e false false hs).2 f ((toReg_kd off false _).2.2 f hgk)
        rw [hok hc] at this; cases this
    have hd2 := Done.did d2 hrg.2 ((toReg_r _).trans hg) hp hreg
    rw [hB] at hr ⊢
    obtain ⟨s3, e3, d3, w3⟩ := hd2.out (bs := [0x91]) hu (room_le hr (by simp only [List.length_append, List.length_cons, List.length_nil]; omega))
    obtain ⟨s4, e4, d4, w4⟩ := d3.modrm hu 0x8B 0 (by decide) (off x) (room_le hr (by simp only [List.length_append, List.length_cons, List.length_nil]; omega))
    have hu4 : s4.isUnsigned = false := (w4.uns.trans w3.uns).trans hun2
    have e5 := binOp_raw o 1 s4 ((hu.of d4.em.fr).live d4.push) (.inl rfl)
    rw [hu4, hcc, bind_run] at e5
    obtain ⟨d5, w5⟩ := d4.put (bs := binBytes false o 1) (room_le hr (by simp only [List.length_append, List.length_nil]; omega))
    rw [raw_put _ _ (d4.room (room_le hr (by simp only [List.length_append, List.length_nil]; omega)))] at e5
    generalize SccCode.put s4 (binBytes false o 1) = s5 at *
    obtain ⟨s6, e6, d6, w6⟩ := d5.lastZF.modrm hu 0x89 0 (by decide) (off x) hr
    refine ⟨s6, hstart (run_neg (by simpa using hty) (run_getS (run_failIf (by rw [hrg.1]; decide) (run_bind e3 (run_bind e4 (run_neg (by decide)
      (run_neg (by simpa using hty) (run_bind e5 (run_modS e6))))))))), d6, ?_⟩
    exact congrArg Prod.fst ((((w6.tku.trans w5.tku).trans w4.tku).trans w3.tku).trans t2)

/-- The token of an assignment and the operator. -/
def AsTk (k : As) (tk op : Nat) : Prop := k = .set ∧ tk = 0x3D ∧ op = 0x3D ∨ ∃ o, k = .op o ∧ o.asTok = some tk ∧ op = o.tok

/-- The assignment, after its operands. -/
theorem store {s s1 : S} {x : Nat} {e : E} (hu : Up s) (hp : s.push = false) (hreg : s.regUse = false) (hs : Stat e) {k : As} {tk op : Nat} (hk : AsTk k tk op) (hok : k.Ok e)
    (h : Done off s (gen off e false false) s1) (hun : s1.isUnsigned = false) (hr : Room s (asgnB off k x e).length) (ex : Int) :
    ∃ s', finishAssign op vtInt vtLocOff ex (off x) s1 = .ok () s' ∧ Did s (asgnB off k x e) s' ∧ tks s' = tks s1 := by
  obtain ⟨rfl, _, rfl⟩ | ⟨o, rfl, _, rfl⟩ := hk
  · exact store_set hu hp hreg hs h hr ex
  · cases hi : o.alu false with
    | some p =>
      rw [asgn_alu off hi] at hr ⊢
      exact store_alu hu hp hreg hs hi h hun hr ex
    | none =>
      rw [asgn_oth off hi] at hr ⊢
      refine store_oth hu hp hreg hs hi (hok.2 ?_) h hun hr ex
      cases o <;> first | (cases hi; done) | simp

theorem lhs_asgn {s : S} {k : As} {tk op : Nat} (hk : AsTk k tk op) (ht : s.type = vtInt ||| vtLval ||| vtLocOff) :
    lhsStep tk precAssign s = .ok (op, -1) { s with type := vtInt ||| vtLocOff } := by
  have h1 : clr s.type vtLval = vtInt ||| vtLocOff := by rw [ht]; rfl
  have hop : op ≠ tokOrOr ∧ op ≠ tokAndAnd ∧ op ≠ 0x2C := by
    obtain ⟨_, _, rfl⟩ | ⟨o, _, _, rfl⟩ := hk
    · decide
    · cases o <;> decide
  refine run_getS (run_pos rfl (run_failIf (by rw [ht]; decide) (run_bind (a := ()) (s1 := { s with type := vtInt ||| vtLocOff }) ?_ ?_)))
  · show Res.ok () { s with type := clr s.type vtLval } = _
    rw [h1]
  · have hend : (if op = tokOrOr ∨ op = tokAndAnd then do
        let l ← makeLabel
        let s ← getS
        if s.type ≠ vtBool then toBool else pure ()
        let s ← getS
        emitJcc (s.val.toNat ^^^ (if op = tokOrOr then 0 else 1)) l
        pure (op, (l : Int))
      else do
        let s ← getS
        if s.type = vtBool then getVal else pure ()
        let s ← getS
        if s.type &&& vtLocMask = 0 ∧ op ≠ 0x2C ∧ !s.dead then setPush true else pure ()
        pure (op, (-1 : Int)) : A (Nat × Int)) { s with type := vtInt ||| vtLocOff } = .ok (op, -1) { s with type := vtInt ||| vtLocOff } := by
      refine run_neg (by rintro (h | h); exact hop.1 h; exact hop.2.1 h) (run_getS (run_neg (by show vtInt ||| vtLocOff ≠ vtBool; decide) (run_getS (run_neg ?_ rfl))))
      intro hh
      exact absurd (show (vtInt ||| vtLocOff) &&& vtLocMask = 0 from hh.1) (by decide)
    obtain ⟨_, rfl, rfl⟩ | ⟨o, _, ht, rfl⟩ := hk
    · exact run_pos rfl (run_bind (a := 0x3D) (s1 := { s with type := vtInt ||| vtLocOff }) rfl hend)
    · refine run_neg (by cases o <;> cases ht <;> decide) ?_
      have hra : removeAssign tk = some o.tok := by cases o <;> cases ht <;> rfl
      rw [hra]
      exact run_bind (a := o.tok) (s1 := { s with type := vtInt ||| vtLocOff }) rfl hend

theorem uns_kd {s s1 : S} {g : G} (h : Done off s g s1) :
    (vtInt == vtUnsigned ||| vtInt || s1.type &&& (vtUnsigned ||| vtPtrMask ||| vtBaseMask) == vtUnsigned ||| vtInt) = false := by
  have hk := h.kd
  cases hgk : g.kd with
  | lit v => rw [hgk] at hk; rw [hk.1]; decide
  | var x => rw [hgk] at hk; rw [hk.1]; decide
  | reg sk => rw [hgk] at hk; rw [hk.1]; decide
  | flag f => rw [hgk] at hk; rw [hk.1]; decide

/-- `= e` or `o= e`, after the variable. -/
theorem asgn_rest {xs : List Nat} {s0 : Base} {s s1 : S} (h : Ex0 off xs s0 s) {x : Nat} (hx : x ∈ xs) (hd : Done off s ⟨[], .var x, false⟩ s1) {e : E} {ts rest : List Tk}
    {t : Tk} (hsh : Shows 10 e ts) {k : As} {tk op : Nat} (hk : AsTk k tk op) (hok : k.Ok e) (hon : On s0 s1 (.sym tk precAssign :: ts ++ t :: rest)) (ht : precComma < t.prec) (hn : NoPost t) (hs : Stat e)
    (hxe : ∀ x ∈ Vars e, x ∈ xs) (hr : s.code + 64 * size e + k.sz ≤ codeStart + outputMax) :
    ∃ s', Go (.expr1 precComma) s1 s' ∧ On s0 s' (t :: rest) ∧ Did s (asgnB off k x e) s' := by
  have hlen := gen_len (off := off) e hs false false
  have hlen2 := asgn_len (off := off) k x hs
  obtain ⟨t0, us, rfl, hst⟩ := hsh.start hxe
  have hi1 : ids s1 = ids s0 := (ids_core hd.em.fr).trans h.ids
  obtain ⟨s2, e2, on2, tk2⟩ := On.next' (s := s1) (ts := us ++ t :: rest) hon hi1
  have hkd : s1.type = vtInt ||| vtLval ||| vtLocOff ∧ s1.val = off x ∧ s1.push = s.push := hd.kd
  have hp1 := hkd.2.2.trans h.push
  have hty2 : s2.type = vtInt ||| vtLval ||| vtLocOff := by rw [tk2]; exact hkd.1
  have hv2 : s2.val = off x := by rw [tk2]; exact hkd.2.1
  have hp2 : s2.push = false := tk2.push.trans hp1
  have hr2 : s2.regUse = false := tk2.regUse.trans hd.reg
  let s3 : S := { s2 with type := vtInt ||| vtLocOff }
  have e3 : lhsStep tk precAssign s2 = .ok (op, -1) s3 := lhs_asgn hk hty2
  have hc1 : s1.code = s.code := by rw [hd.em.code]; rfl
  have hc3 : s3.code = s.code := tk2.code.trans hc1
  have fr3 : core s3 = core s := tk2.core.trans hd.em.fr
  have hex3 : Ex0 off xs ⟨s3, s0.fin⟩ s3 := ⟨h.up.of fr3, hp2, hr2, by
    show s2.lastZF ≤ s2.code
    rw [tk2.lastZF, tk2.code]; exact hd.zf, by rw [hc3]; exact h.ge, rfl, h.loc.of_core fr3⟩
  have hi3 : ids s3 = ids s0 := (ids_core fr3).trans h.ids
  have on3 : On ⟨s3, s0.fin⟩ s3 (t0 :: us ++ t :: rest) := On.rebase (on2.of_tks rfl) hi3
  obtain ⟨n, s4, s5, h4, r5, on5, d5⟩ := parses ⟨s3, s0.fin⟩ xs hex3.loc hex3.up hsh s3 t rest on3 rfl (by have : (15 : Nat) < t.prec := ht; omega) hn hs hxe hex3.zf
    (by rw [show s3.push = false from hp2, show s3.regUse = false from hr2]; exact hex3.room (by rw [hc3]; omega))
  rw [show s3.push = false from hp2, show s3.regUse = false from hr2] at d5
  have htp : (15 : Nat) < s5.prec := by rw [on5.1.prec]; exact ht
  obtain ⟨N1, g4⟩ := h4
  obtain ⟨N2, g5⟩ := Rounds.rhs' precAssign (by decide) n (r5.mono (by decide)) (Nat.lt_trans (by decide) htp)
  obtain ⟨s6, e6, d6, t6⟩ := store (x := x) hex3.up hp2 hr2 hs hk hok
    (d5.uns (vtInt == vtUnsigned ||| vtInt || s5.type &&& (vtUnsigned ||| vtPtrMask ||| vtBaseMask) == vtUnsigned ||| vtInt)) (uns_kd d5) (hex3.room (by rw [hc3]; omega)) s3.extra
  have hop : op ≠ 0x2C := by
    obtain ⟨_, _, rfl⟩ | ⟨o, _, _, rfl⟩ := hk
    · decide
    · cases o <;> decide
  have htk : tk ≠ 0x3F := by
    obtain ⟨_, rfl, _⟩ | ⟨o, _, h, _⟩ := hk
    · decide
    · cases o <;> cases h <;> decide
  have e7 : finishExpr1 op precAssign (-1) s3.type s3.extra s3.val s5 = .ok () s6 := by
    rw [show s3.val = off x from hv2]
    show finishExpr1 op precAssign (-1) (vtInt ||| vtLocOff) s3.extra (off x) s5 = .ok () s6
    have h1 : (vtInt ||| vtLocOff) &&& vtLocMask = vtLocOff := by decide
    have h2 : clr (vtInt ||| vtLocOff) vtLocMask = vtInt := by decide
    unfold finishExpr1
    simp only [h1, h2]
    exact run_neg hop (run_getS (run_neg (fun hh => absurd hh.1 (by decide)) (run_neg (by decide) (run_modS (run_pos trivial e6)))))
  have on6 : On s0 s6 (t :: rest) := (On.rebase on5 hi3.symm).of_tks t6
  refine ⟨s6, ?_, on6, ⟨?_, d6.push, d6.reg, ?_, d6.zf⟩⟩
  · refine Go.of (N1 + N2) fun n hn => run_bind (a := ()) (s1 := s6) (run_getS (run_bind e2 (run_neg ?_ ?_))) rfl
    · rw [show s1.tok = tk from hon.1.tok]; exact htk
    · rw [show s1.tok = tk from hon.1.tok, show s1.prec = precAssign from hon.1.prec]
      refine run_bind (a := ()) (s1 := s6) (run_bind e3 (run_getS (run_bind (g4 n (by omega)) (run_bind (g5 n (by omega)) e7)))) (run_getS (run_neg ?_ rfl))
      rw [on6.1.prec]
      exact Nat.not_le.2 ht
  · have h1 : s3.out = s1.out := by show s2.out = s1.out; rw [tk2]
    have em3 : Em s [] s3 := ⟨fr3, h.ge, hc3, fun i hi => absurd hi (by simp), fun j hj => by rw [h1]; exact hd.em.old j hj⟩
    exact em3.trans d6.em
  · rw [d6.lo]
    have : s3.localOffset = s1.localOffset := by show s2.localOffset = s1.localOffset; rw [tk2]
    rw [this]
    exact lo_of_bal hd.bal hp1 hd.reg h.push h.reg

/-- `HandlePrimaryId` for a variable. -/
theorem prim_id {xs : List Nat} {s0 : Base} {s : S} (h : Ex0 off xs s0 s) {x : Nat} (hx : x ∈ xs) {t : Tk} {rest : List Tk} (hon : On s0 s (.id x :: t :: rest)) :
    ∃ s2 s3, getToken { s with val := (x : Int) } = .ok () s2 ∧ On s0 s2 (t :: rest) ∧ handlePrimaryId s2 = .ok () s3 ∧ On s0 s3 (t :: rest) ∧
      Done off s ⟨[], .var x, false⟩ s3 := by
  have hon' : On s0 { s with val := (x : Int) } (.id x :: t :: rest) := hon.of_tks rfl
  obtain ⟨hx1, hx2, v, hlk, hty, hof⟩ := h.loc x hx
  obtain ⟨s2, e2, on2, tk2⟩ := hon'.next' h.ids
  have hval2 : s2.val = (x : Int) := by rw [tk2]
  have hlk2 : s2.lookup.get x = some v := by rw [tk2]; exact hlk
  have hty2 : (s2.vars.get v).type = vtInt ||| vtLocOff := by rw [tk2]; exact hty
  have hof2 : (s2.vars.get v).offset = off x := by rw [tk2]; exact hof
  let s3 : S := { s2 with log := .use x (s2.lookup.get x) :: s2.log, val := (s2.vars.get v).offset, type := (s2.vars.get v).type ||| vtLval, extra := (s2.vars.get v).extra }
  have hid : handlePrimaryId s2 = .ok () s3 := by
    refine run_getS (run_ub (decide_eq_true (by rw [hval2]; exact ⟨Int.natCast_nonneg _, Int.ofNat_lt.2 hx2⟩)) (run_modS ?_))
    simp only [hval2, Int.toNat_natCast, hlk2]
    have hm : ((s2.vars.get v).type ||| vtLval) &&& vtLocMask = vtLocOff := by rw [hty2]; decide
    rw [if_neg (by rw [hm]; decide), if_neg (by rw [hm]; decide)]
    show Res.ok () _ = Res.ok () s3
    simp only [s3, hlk2]
  refine ⟨s2, s3, e2, on2, hid, on2.of_tks rfl, .refl ?_ h.ge ?_ ?_, ?_, ?_, ?_, ?_, hof2, ?_⟩
  · exact tk2.core
  · exact tk2.code
  · show s2.out = s.out
    rw [tk2]
  · show s2.regUse = false
    rw [tk2.regUse]; exact h.reg
  · show SccGen.bal s2 = SccGen.bal s
    rw [tk2]; rfl
  · show s2.lastZF ≤ s2.code
    rw [tk2.lastZF, tk2.code]; exact h.zf
  · show (s2.vars.get v).type ||| vtLval = _
    rw [hty2]; decide
  · show s2.push = s.push
    rw [tk2.push]

theorem asgn_nopost {t : Nat} : NoPost (.sym t precAssign) := .inl (by show precAssign ≠ precStop; decide)

/-- An assignment as an expression. -/
theorem asgn_bin {xs : List Nat} {s0 : Base} {s : S} (h : Ex0 off xs s0 s) {x : Nat} (hx : x ∈ xs) {e : E} {ts rest : List Tk} {t : Tk} (hsh : Shows 10 e ts) {k : As} {tk op : Nat}
    (hk : AsTk k tk op) (hok : k.Ok e) (hon : On s0 s (.id x :: .sym tk precAssign :: ts ++ t :: rest)) (ht : precComma < t.prec) (hn : NoPost t) (hs : Stat e)
    (hxe : ∀ x ∈ Vars e, x ∈ xs) (hr : s.code + 64 * size e + k.sz ≤ codeStart + outputMax) :
    ∃ s', Go .expr s s' ∧ On s0 s' (t :: rest) ∧ Did s (asgnB off k x e) s' := by
  obtain ⟨n, s1, s2, ⟨N1, g1⟩, r2, on2, d2⟩ := parses ⟨s, s0.fin⟩ xs h.loc h.up (.var 0 x) s (.sym tk precAssign) (ts ++ t :: rest) (On.rebase hon h.ids) rfl (Nat.zero_le _)
    asgn_nopost trivial (fun y hy => by simp only [Vars, List.mem_singleton] at hy; rw [hy]; exact hx) h.zf (h.room (by
      have : (gen off (.var x) s.push s.regUse).bs.length = 0 := rfl
      omega))
  obtain rfl := r2.zero
  rw [h.push, h.reg] at d2
  obtain ⟨s', ⟨N2, g2⟩, on', d'⟩ := asgn_rest h hx d2 hsh hk hok (On.rebase on2 h.ids.symm) ht hn hs hxe hr
  refine ⟨s', Go.of (N1 + N2) fun n hn => run_bind (a := ()) (s1 := s') (run_bind (g1 n (by omega)) (run_getS (run_pos ?_ (g2 n (by omega))))) rfl, on', d'⟩
  rw [on2.1.prec]
  show (14 : Nat) ≤ 15
  decide

/-! ## `++` and `--` -/

/-- `DoIncDecOp` for a variable. -/
theorem inc_op {s s1 : S} {x : Nat} (hu : Up s) (hp : s.push = false) (hreg : s.regUse = false) (h : Done off s ⟨[], .var x, false⟩ s1) (d post : Bool) (e : E)
    (hr : Room s (asgnB off (.inc d post) x e).length) :
    ∃ s', doIncDecOp (if d then tokMinusMinus else tokPlusPlus) post s1 = .ok () s' ∧ Did s (asgnB off (.inc d post) x e) s' ∧ tks s' = tks s1 := by
  have hkd : s1.type = vtInt ||| vtLval ||| vtLocOff ∧ s1.val = off x ∧ s1.push = s.push := h.kd
  have hd0 : Did s [] s1 := Done.did h (hkd.2.2.trans hp) rfl hp hreg
  have hmin : ((if d then tokMinusMinus else tokPlusPlus) == tokMinusMinus) = d := by cases d <;> decide
  have hb : asgnB off (.inc d post) x e = (if post then modB 0x8B 0 (off x) else []) ++ modB 0xFF (if d then 1 else 0) (off x) := rfl
  rw [hb] at hr ⊢
  have h1 : (s1.type &&& (vtBaseMask ||| vtPtrMask) != vtChar) = true := by rw [hkd.1]; decide
  have h2 : s1.type &&& vtLocMask = vtLocOff := by rw [hkd.1]; decide
  have h3 : ¬ s1.type &&& vtPtrMask ≠ 0 := by rw [hkd.1]; decide
  have hstart : ∀ {r : Res S Unit}, (if post then do
          emitLoadAx 2 vtLocOff (off x)
          modS fun s => { s with type := clr s1.type (vtLval ||| vtLocMask) }
          incDecInst 1 d true vtLocOff
        else incDecInst 1 d true vtLocOff : A Unit) s1 = r → doIncDecOp (if d then tokMinusMinus else tokPlusPlus) post s1 = r := by
    intro r hr
    refine run_getS (run_failIf (by rw [hkd.1]; decide) (run_neg h3 ?_))
    simp only [h1, h2, hmin, hkd.2.1, if_true]
    cases post with
    | false => exact hr
    | true => exact hr
  cases post with
  | false =>
    simp only [Bool.false_eq_true, if_false, List.nil_append] at hr ⊢
    obtain ⟨s2, e2, d2, w2⟩ := hd0.modrm hu 0xFF (if d then 1 else 0) (by cases d <;> decide) (off x) hr
    refine ⟨s2, hstart (run_getS (run_neg (by decide) ?_)), d2, congrArg Prod.fst w2.tku⟩
    rw [hkd.2.1]; exact e2
  | true =>
    simp only [if_true] at hr ⊢
    obtain ⟨s2, e2, d2, w2⟩ := hd0.modrm hu 0x8B 0 (by decide) (off x) (room_le hr (by simp))
    obtain ⟨s3, e3, d3, w3⟩ := (d2.with (clr s1.type (vtLval ||| vtLocMask)) (off x)).modrm hu 0xFF (if d then 1 else 0) (by cases d <;> decide) (off x) hr
    refine ⟨s3, hstart (run_bind e2 (run_modS (run_getS (run_neg (by decide) ?_)))), d3, congrArg Prod.fst (w3.tku.trans w2.tku)⟩
    rw [show s2.val = off x from w2.val.trans hkd.2.1]
    simpa using e3

theorem Did.tok_r {s s1 s2 : S} {bs : List Byte} (h : Did s bs s1) (ht : Tok s1 s2) : Did s bs s2 :=
  ⟨h.em.tok_r ht, by rw [ht]; exact h.push, by rw [ht]; exact h.reg, by rw [ht]; exact h.lo, by rw [ht]; exact h.zf⟩

theorem Did.tok_l {s s1 s2 : S} {bs : List Byte} (h : Did s1 bs s2) (ht : Tok s s1) : Did s bs s2 := by
  have h1 : s1.code = s.code := by rw [ht]
  have h2 : s1.out = s.out := by rw [ht]
  have h3 : s1.localOffset = s.localOffset := by rw [ht]
  obtain ⟨⟨a, b, c, d, e⟩, f, g, i, k⟩ := h
  rw [h1] at b c d e
  rw [h2] at e
  exact ⟨⟨a.trans ht.core, b, c, d, e⟩, f, g, i.trans h3, k⟩

theorem Ex0.tok {xs : List Nat} {s0 : Base} {s s1 : S} (h : Ex0 off xs s0 s) (ht : Tok s s1) : Ex0 off xs s0 s1 :=
  ⟨h.up.of ht.core, ht.push.trans h.push, ht.regUse.trans h.reg, by rw [ht.lastZF, ht.code]; exact h.zf, by rw [ht.code]; exact h.ge, (ids_core ht.core).trans h.ids, h.loc.of_core ht.core⟩

/-- The token `++` or `--`. -/
abbrev incT (d : Bool) : Tk := .sym (if d then tokMinusMinus else tokPlusPlus) precStop

theorem inc_tok (d : Bool) : (incT d).tok = tokPlusPlus ∨ (incT d).tok = tokMinusMinus := by cases d <;> decide

/-- `++` or `--` after the variable. -/
theorem inc_post {xs : List Nat} {s0 : Base} {s s1 : S} (h : Ex0 off xs s0 s) {x : Nat} (hd : Done off s ⟨[], .var x, false⟩ s1) (d : Bool) (e : E) (he : Stat e) {t : Tk} {rest : List Tk}
    (hon : On s0 s1 (incT d :: t :: rest)) (hn : NoPost t) (hr : s.code + 64 * size e + 48 ≤ codeStart + outputMax) :
    ∃ s', Go .postfix s1 s' ∧ On s0 s' (t :: rest) ∧ Did s (asgnB off (.inc d true) x e) s' := by
  have hlen : _ ≤ 64 * size e + 48 := asgn_len (off := off) (.inc d true) x he
  obtain ⟨s2, e2, d2, t2⟩ := inc_op h.up h.push h.reg hd d true e (h.room (by omega))
  obtain ⟨s3, e3, on3, tk3⟩ := On.next' (hon.of_tks t2) ((ids_core d2.em.fr).trans h.ids)
  obtain ⟨N, g⟩ := postfix_nop on3.1 hn
  have htok : s1.tok = (incT d).tok := hon.1.tok
  have h1 := inc_tok d
  have hne : s1.tok ≠ 0x28 ∧ s1.tok ≠ 0x5B ∧ s1.tok ≠ 0x2E ∧ s1.tok ≠ tokArrow := by rw [htok]; cases d <;> decide
  rw [← htok] at h1
  refine ⟨s3, Go.of N fun n hn => run_bind (a := ()) (s1 := s3) (run_getS (run_neg (not_not_intro hon.1.prec) (run_neg hne.1 (run_neg hne.2.1 (run_neg hne.2.2.1 (run_neg hne.2.2.2
    (run_pos h1 (run_bind (s1 := s2) (a := ()) (by rw [htok]; exact e2) (run_bind e3 (g n hn)))))))))) rfl, on3, d2.tok_r tk3⟩

/-- `++` or `--` before the variable. -/
theorem inc_pre {xs : List Nat} {s0 : Base} {s : S} (h : Ex0 off xs s0 s) {x : Nat} (hx : x ∈ xs) (d : Bool) (e : E) (he : Stat e) {t : Tk} {rest : List Tk}
    (hon : On s0 s (incT d :: .id x :: t :: rest)) (hn : NoPost t) (hr : s.code + 64 * size e + 48 ≤ codeStart + outputMax) :
    ∃ s', Go .cast s s' ∧ On s0 s' (t :: rest) ∧ Did s (asgnB off (.inc d false) x e) s' := by
  have hlen : _ ≤ 64 * size e + 48 := asgn_len (off := off) (.inc d false) x he
  obtain ⟨s1, e1, on1, tk1⟩ := On.next' hon h.ids
  have h1 := h.tok tk1
  obtain ⟨s2, ⟨N1, g1⟩, on2, d2⟩ := prim_var (s0 := ⟨s1, s0.fin⟩) h1.loc (On.rebase on1 h1.ids) rfl hx h1.zf h1.ge
  rw [h1.reg] at d2
  obtain ⟨N2, g2⟩ := postfix_nop on2.1 hn
  obtain ⟨s3, e3, d3, t3⟩ := inc_op h1.up h1.push h1.reg d2 d false e (h1.room (by rw [tk1.code]; omega))
  have htok : s.tok = (incT d).tok := hon.1.tok
  have hi := inc_tok d
  have hne : s.tok ≠ 0x28 ∧ ¬(s.tok = 0x2D ∨ s.tok = 0x21 ∨ s.tok = 0x2A ∨ s.tok = 0x26 ∨ s.tok = 0x7E ∨ s.tok = 0x2B) := by rw [htok]; cases d <;> decide
  rw [← htok] at hi
  have hx1 : 37 ≤ x := (h.loc x hx).1
  have htok1 : s1.tok = x + 150 := on1.1.tok
  have hu : Go .unary s1 s2 := Go.of (N1 + N2) fun n hn => run_bind (a := ()) (s1 := s2) (run_getS (run_neg (by omega) (run_neg ?_ (run_neg ?_
    (run_bind (g1 n (by omega)) (g2 n (by omega))))))) rfl
  · obtain ⟨N3, g3⟩ := hu
    have hu' : Go .unary s s3 := Go.of N3 fun n hn => run_bind (a := ()) (s1 := s3) (run_getS (run_neg hne.2 (run_pos hi (run_bind e1 (run_bind (g3 n hn) (by rw [htok]; exact e3)))))) rfl
    obtain ⟨N4, g4⟩ := hu'
    exact ⟨s3, Go.of N4 fun n hn => run_bind (a := ()) (s1 := s3) (run_getS (run_neg hne.1 (g4 n hn))) rfl, (On.rebase on2 h1.ids.symm).of_tks t3, d3.tok_l tk1⟩
  · rw [htok1]; rintro (h | h)
    · have : x + 150 = tokPlusPlus := h
      unfold tokPlusPlus at this; omega
    · have : x + 150 = tokMinusMinus := h
      unfold tokMinusMinus at this; omega
  · rw [htok1]; show x + 150 ≠ tokSizeof; unfold tokSizeof; omega

/-- An assignment, as tokens. -/
inductive ShowsA : As → Nat → E → List Tk → Prop
  | set {x : Nat} {e : E} {ts : List Tk} (hx : 37 ≤ x) (he : Shows 10 e ts) : ShowsA .set x e (.id x :: .sym 0x3D precAssign :: ts)
  | op {o : BOp} {t x : Nat} {e : E} {ts : List Tk} (ht : o.asTok = some t) (hx : 37 ≤ x) (he : Shows 10 e ts) : ShowsA (.op o) x e (.id x :: .sym t precAssign :: ts)
  | post {d : Bool} {x : Nat} (hx : 37 ≤ x) : ShowsA (.inc d true) x (.lit 1) [.id x, incT d]
  | pre {d : Bool} {x : Nat} (hx : 37 ≤ x) : ShowsA (.inc d false) x (.lit 1) [incT d, .id x]

/-- An assignment begins with the variable, unless it is `++x` or `--x`. -/
theorem ShowsA.head {k : As} {x : Nat} {e : E} {ts : List Tk} (h : ShowsA k x e ts) : ∃ t us, ts = t :: us ∧ (t = .id x ∧ 37 ≤ x ∨ ∃ d, t = incT d ∧ us = [.id x] ∧ k = .inc d false) := by
  cases h with
  | set hx he => exact ⟨_, _, rfl, .inl ⟨rfl, hx⟩⟩
  | op ht hx he => exact ⟨_, _, rfl, .inl ⟨rfl, hx⟩⟩
  | post hx => exact ⟨_, _, rfl, .inl ⟨rfl, hx⟩⟩
  | pre hx => exact ⟨_, _, rfl, .inr ⟨_, rfl, rfl, rfl⟩⟩

/-- An assignment does not begin with a symbol that ends a statement. -/
theorem ShowsA.ne {k : As} {x : Nat} {e : E} {ts : List Tk} (h : ShowsA k x e ts) : ∃ t us, ts = t :: us ∧ t.tok ≠ tokElse ∧ t.tok ≠ 0x7D ∧ t.tok ≠ 0x3B ∧ t.tok ≠ 0x29 := by
  obtain ⟨t, us, rfl, ⟨rfl, hx⟩ | ⟨d, rfl, _, _⟩⟩ := h.head
  · refine ⟨_, _, rfl, ?_, ?_, ?_, ?_⟩
    · show _ + 150 ≠ 159; omega
    · show _ + 150 ≠ 0x7D; omega
    · show _ + 150 ≠ 0x3B; omega
    · show _ + 150 ≠ 0x29; omega
  · exact ⟨_, _, rfl, by cases d <;> decide⟩

/-- An assignment, after the variable: what follows is parsed by `ParsePostfixExpression` and `ParseExpr1`. -/
theorem asgn_tail {xs : List Nat} {s0 : Base} {s s1 : S} (h : Ex0 off xs s0 s) {k : As} {x : Nat} {e : E} {us rest : List Tk} {t : Tk} (hsh : ShowsA k x e (.id x :: us)) (hok : k.Ok e) (hx : x ∈ xs)
    (hd : Done off s ⟨[], .var x, false⟩ s1) (hon : On s0 s1 (us ++ t :: rest)) (ht : precComma < t.prec) (hn : NoPost t) (hs : Stat e) (hxe : ∀ x ∈ Vars e, x ∈ xs)
    (hr : s.code + 64 * size e + k.sz ≤ codeStart + outputMax) :
    ∃ s' u us', us = u :: us' ∧ u.tok ≠ 0x3A ∧ On s0 s' (t :: rest) ∧ Did s (asgnB off k x e) s' ∧
      ∃ s2, Go .postfix s1 s2 ∧ ∃ N, ∀ n, N ≤ n → ∀ {r : Res S Unit} {f : Unit → A Unit}, f () s' = r →
        (if s2.prec ≤ precComma then go' (run n) (.expr1 precComma) >>= f else f () : A Unit) s2 = r := by
  have bin : ∀ {tk op : Nat} {ts : List Tk}, AsTk k tk op → tk ≠ 0x3A → us = .sym tk precAssign :: ts → Shows 10 e ts →
      ∃ s' u us', us = u :: us' ∧ u.tok ≠ 0x3A ∧ On s0 s' (t :: rest) ∧ Did s (asgnB off k x e) s' ∧
          ∃ s2, Go .postfix s1 s2 ∧ ∃ N, ∀ n, N ≤ n → ∀ {r : Res S Unit} {f : Unit → A Unit}, f () s' = r →
            (if s2.prec ≤ precComma then go' (run n) (.expr1 precComma) >>= f else f () : A Unit) s2 = r := by
    intro tk op ts hk hne hus he
    rw [hus] at hon
    obtain ⟨s', ⟨N, g⟩, on', d'⟩ := asgn_rest h hx hd he hk hok hon ht hn hs hxe hr
    exact ⟨s', _, _, hus, hne, on', d', s1, postfix_nop hon.1 asgn_nopost, N, fun n hn r f hf => run_pos (by rw [hon.1.prec]; show (14 : Nat) ≤ 15; decide) (run_bind (g n hn) hf)⟩
  cases hsh with
  | set hx he => exact bin (.inl ⟨rfl, rfl, rfl⟩) (by decide) rfl he
  | @op o tk _ _ _ hk hx he => exact bin (.inr ⟨o, rfl, hk, rfl⟩) (by cases o <;> cases hk <;> decide) rfl he
  | @post d _ hx =>
    obtain ⟨s', g, on', d'⟩ := inc_post h hd d (.lit 1) hs hon hn hr
    exact ⟨s', _, _, rfl, by cases d <;> decide, on', d', s', g, 0, fun n hn r f hf => run_neg (by rw [on'.1.prec]; exact Nat.not_le.2 ht) hf⟩

/-- An assignment as an expression. -/
theorem asgn_expr {xs : List Nat} {s0 : Base} {s : S} (h : Ex0 off xs s0 s) {k : As} {x : Nat} {e : E} {ts rest : List Tk} {t : Tk} (hsh : ShowsA k x e ts) (hok : k.Ok e) (hx : x ∈ xs)
    (hon : On s0 s (ts ++ t :: rest)) (ht : precComma < t.prec) (hn : NoPost t) (hs : Stat e) (hxe : ∀ x ∈ Vars e, x ∈ xs) (hr : s.code + 64 * size e + k.sz ≤ codeStart + outputMax) :
    ∃ s', Go .expr s s' ∧ On s0 s' (t :: rest) ∧ Did s (asgnB off k x e) s' := by
  have end' : ∀ {s'}, Go .cast s s' → On s0 s' (t :: rest) → Go .expr s s' := fun {s'} ⟨N, g⟩ on' =>
    Go.of N fun n hn => run_bind (a := ()) (s1 := s') (run_bind (g n hn) (run_getS (run_neg (by rw [on'.1.prec]; exact Nat.not_le.2 ht) rfl))) rfl
  cases hsh with
  | set hx' he => exact asgn_bin h hx he (.inl ⟨rfl, rfl, rfl⟩) hok hon ht hn hs hxe hr
  | op hk hx' he => exact asgn_bin h hx he (.inr ⟨_, rfl, hk, rfl⟩) hok hon ht hn hs hxe hr
  | @post d _ hx' =>
    obtain ⟨s1, ⟨N1, g1⟩, on1, d1⟩ := prim_var (s0 := ⟨s, s0.fin⟩) h.loc (On.rebase hon h.ids) rfl hx h.zf h.ge
    rw [h.reg] at d1
    obtain ⟨s', ⟨N2, g2⟩, on', d'⟩ := inc_post h d1 d (.lit 1) hs (On.rebase on1 h.ids.symm) hn hr
    have htok : s.tok = x + 150 := hon.1.tok
    have hu : Go .unary s s' := Go.of (N1 + N2) fun n hn => run_bind (a := ()) (s1 := s') (run_getS (run_neg (by omega) (run_neg ?_ (run_neg ?_
      (run_bind (g1 n (by omega)) (g2 n (by omega))))))) rfl
    · obtain ⟨N3, g3⟩ := hu
      exact ⟨s', end' (Go.of N3 fun n hn => run_bind (a := ()) (s1 := s') (run_getS (run_neg (by omega) (g3 n hn))) rfl) on', on', d'⟩
    · rw [htok]; rintro (h | h)
      · have : x + 150 = tokPlusPlus := h
        unfold tokPlusPlus at this; omega
      · have : x + 150 = tokMinusMinus := h
        unfold tokMinusMinus at this; omega
    · rw [htok]; show x + 150 ≠ tokSizeof; unfold tokSizeof; omega
  | @pre d _ hx' =>
    obtain ⟨s', g, on', d'⟩ := inc_pre h hx d (.lit 1) hs hon hn hr
    exact ⟨s', end' g on', on', d'⟩

/-- The identifiers are functions that return `int` and have been placed. -/
def Funs (A : Nat → Nat) (F : List Nat) (s : S) : Prop :=
  ∀ f ∈ F, 37 ≤ f ∧ f < idMax ∧ ∃ v, s.lookup.get f = some v ∧ v < varDeclMax ∧ (s.vars.get v).type = vtInt ||| vtFun ||| vtLocGlob ∧ (s.vars.get v).offset = A f ∧ A f ≠ 0

theorem Funs.of {A : Nat → Nat} {F : List Nat} {s s' : S} (h : Funs A F s) (h1 : s'.lookup = s.lookup) (h2 : s'.vars = s.vars) : Funs A F s' := by
  intro f hf
  obtain ⟨a, b, v, c, d, e, g, i⟩ := h f hf
  exact ⟨a, b, v, by rw [h1]; exact c, d, by rw [h2]; exact e, by rw [h2]; exact g, i⟩

theorem Funs.of_core {A : Nat → Nat} {F : List Nat} {s s' : S} (h : Funs A F s) (hc : core s' = core s) : Funs A F s' :=
  h.of (show (core s').lookup = (core s).lookup by rw [hc]) (show (core s').vars = (core s).vars by rw [hc])

end SccStm
