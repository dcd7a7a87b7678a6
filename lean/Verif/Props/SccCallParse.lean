import Verif.Props.SccCallGen
/-!
# Calls (C49): the parser emits the arguments and the call
-/
namespace SccCall
open Prog Scc SccCode SccGen SccStm Props.SccLex

variable {off : Nat → Int}

/-! ## Arguments -/

theorem argB_len (d : Int) {e : E} (hs : Stat e) : (argB off d e).length ≤ 64 * size e + 16 := by
  have h1 := gen_len (off := off) e hs false false
  have h2 := toVal_len (off := off) false (gen off e false false)
  have h3 := len_modB 0xC7 0 d
  have h4 := len_modB 0x89 0 d
  unfold argB
  split
  · simp only [List.length_append, List.length_cons, List.length_nil]; omega
  · simp only [List.length_append]; omega

def argsSz : List E → Nat
  | [] => 0
  | e :: es => 64 * size e + 16 + argsSz es

theorem argsB_len (d : Int) {es : List E} (hs : ∀ e ∈ es, Stat e) : (argsB off d es).length ≤ argsSz es := by
  induction es generalizing d with
  | nil => exact Nat.le_refl _
  | cons e es ih =>
    have h1 := argB_len (off := off) d (hs e (by simp))
    have h2 := ih (d + 2) fun e h => hs e (by simp [h])
    simp only [argsB, List.length_append, argsSz]
    omega

theorem fl_lo_of {s s' : S} {bs : List Byte} (h : Did (fl s) bs s') : s'.localOffset = s.localOffset := h.lo.trans (lo_fl s)

theorem storeArg_did {s s1 : S} {e : E} (hp : Pd s) (hpu : s.push = false) (hreg : s.regUse = false) (hs : Stat e)
    (h : DoneP off s (gen off e false false) s1) (size : Nat) (hr : Room s (3 + (argB off (s.localOffset + size) e).length)) :
    ∃ s', storeArg size s1 = .ok () s' ∧ Did (fl s) (argB off (s.localOffset + size) e) s' ∧ tks s' = tks s1 := by
  have hg := gen_r (off := off) e
  have hr3 : Room s 3 := room_le hr (by omega)
  have hu := up_fl hp
  have hfp := (push_fl s).trans hpu
  have hfr := (reg_fl s).trans hreg
  generalize hdd : s.localOffset + (size : Int) = d at *
  cases hc : cst e with
  | some y =>
    obtain ⟨hgen, _⟩ := gen_cst off e false false y hs hc
    have hB : argB off d e = modB 0xC7 0 d ++ [Scc.lo y, Scc.hi y] := by unfold argB; rw [hgen]; rfl
    rw [hgen] at h
    have h0 : Done off s ⟨[], .lit y, false⟩ s1 := h.2
    have hk1 : s1.type = vtLocLit ||| vtInt ∧ s1.val = y ∧ s1.push = s.push := h0.kd
    have hlo : s1.localOffset = s.localOffset := lo_of_bal h0.bal (hk1.2.2.trans hpu) h0.reg hpu hreg
    have d2 := done_fl h0 rfl (.inl ⟨y, rfl⟩) hr3
    have hsw : emitStoreConst 2 vtLocOff d s1 = emitStoreConst 2 vtLocOff d (fl s1) :=
      bind_same (modrm_fl (hp.of h0.em.fr) (h0.em.room hr3) 0xC7 d)
    have htk := tks_fl s1
    generalize fl s1 = s2 at *
    have up2 : Up s2 := hu.of d2.em.fr
    have hkd : s2.type = vtLocLit ||| vtInt ∧ s2.val = y ∧ s2.push = (fl s).push := d2.kd
    have hp2 := hkd.2.2.trans hfp
    have hd0 : Did (fl s) [] s2 := ⟨d2.em, hp2, d2.reg, lo_of_bal d2.bal hp2 d2.reg hfp hfr, d2.zf⟩
    rw [hB] at hr ⊢
    have hr := room_fl hr
    have hr2 : Room s2 (modB 0xC7 0 d ++ [Scc.lo y, Scc.hi y]).length := hd0.em.room (by simpa using hr)
    obtain ⟨s3, e3, w3⟩ := modrm_wrote up2 0xC7 d (by rw [hp2]; exact room_le hr2 (by simp [flB]))
    rw [hp2, pre_of hp2] at w3
    have d3 := hd0.wrote w3
    have hr3 : Room s3 [Scc.lo y, Scc.hi y].length := d3.em.room (by simpa [flB] using hr)
    have l3 : Live s3 := (hu.of d3.em.fr).live d3.push
    have hv3 : s3.val = y := by obtain ⟨o, rfl, _⟩ := w3; exact hkd.2.1
    have e4 := l3.out_put (bs := [Scc.lo y]) (room_le hr3 (by simp))
    have w4 := put_wrote [Scc.lo y] s3 (room_le hr3 (by simp))
    generalize hs4 : put s3 [Scc.lo y] = s4 at *
    have d4 := d3.wrote w4
    have l4 : Live s4 := (hu.of d4.em.fr).live d4.push
    have hr4 : Room s4 [Scc.hi y].length := d4.em.room (by simpa [flB] using hr)
    have e5 := l4.out_put (bs := [Scc.hi y]) hr4
    have w5 := put_wrote [Scc.hi y] s4 hr4
    have d5 := d4.wrote w5
    refine ⟨put s4 [Scc.hi y], run_getS (run_pos (by rw [hk1.1]; decide) ?_), ?_, ?_⟩
    · rw [hlo, hdd, hsw]
      refine run_bind e3 (run_getS ?_)
      rw [hv3]
      exact run_bind e4 (run_pos rfl e5)
    · simpa [flB] using d5
    · obtain ⟨o5, h5, _⟩ := w5
      obtain ⟨o4, h4, _⟩ := w4
      obtain ⟨o3, h3, _⟩ := w3
      rw [h5, h4, h3]
      exact htk
  | none =>
    have hnl := (gen_kd off e false false hs).1 hc
    have hB : argB off d e = (toVal off false (gen off e false false)).bs ++ modB 0x89 0 d := by
      unfold argB
      split
      · rename_i v hk
        exact absurd hk (hnl v)
      · rfl
    rw [hB] at hr ⊢
    obtain ⟨s3, e3, d3, t3⟩ := h.toVal hp hnl (by rw [hpu]; exact room_le hr (by simp only [List.length_append]; omega))
    rw [hpu] at d3
    obtain ⟨sk, hsk⟩ := toVal_reg (off := off) false (gen off e false false) hnl
    have hkd := d3.kd
    rw [hsk] at hkd
    have hreg3 : s3.regUse = false := d3.reg.trans ((toVal_r _).trans hg)
    have hlo3 := lo_of_bal d3.bal hkd.2.1 hreg3 hfp hfr
    have hd3 : Did (fl s) (toVal off false (gen off e false false)).bs s3 := ⟨d3.em, hkd.2.1, hreg3, hlo3, d3.zf⟩
    have up3 : Up s3 := hu.of d3.em.fr
    have hr3 : Room s3 (modB 0x89 0 d).length := d3.em.room (by simpa using room_fl hr)
    obtain ⟨s4, e4, w4⟩ := modrm_wrote up3 0x89 d (by rw [hd3.push]; simpa [flB] using hr3)
    rw [hd3.push, pre_of hd3.push] at w4
    have d4 := hd3.wrote w4
    have hty : s1.type ≠ vtInt ||| vtLocLit := (h.not_lit hnl).2
    refine ⟨s4, run_getS (run_neg hty (run_bind e3 (run_getS (run_failIf (by rw [hkd.1]; decide) (run_getS ?_))))), by simpa [flB] using d4, ?_⟩
    · rw [hlo3, lo_fl, hdd]
      exact run_neg (by decide) (run_neg (by decide) e4)
    · obtain ⟨o4, h4, _⟩ := w4
      rw [h4]
      exact congrArg Prod.fst t3

/-! ## The list of arguments -/

/-- The tokens of the arguments, up to the closing parenthesis. -/
inductive ShowsA : List E → List Tk → Prop
  | one {e : E} {ts : List Tk} (h : Shows 10 e ts) : ShowsA [e] ts
  | cons {e : E} {ts : List Tk} {es : List E} {us : List Tk} (h : Shows 10 e ts) (hs : ShowsA es us) : ShowsA (e :: es) (ts ++ .sym 0x2C precComma :: us)

/-- The arguments in parentheses. -/
inductive ShowsL : List E → List Tk → Prop
  | nil : ShowsL [] []
  | some {es : List E} {ts : List Tk} (h : ShowsA es ts) : ShowsL es ts

/-- The loop over the arguments, after the room for them has been made. -/
def argBody (go : Task → A Int) (size : Nat) : A Int := do
  go' go .assign
  storeArg size
  let s ← getS
  if s.tok = 0x2C then
    getToken
    go (.args (size + 2))
  else pure ((size + 2 : Nat) : Int)

theorem start_tok {xs : List Nat} {t : Tk} (h : Start xs t) : t.tok ≠ 0x29 := by
  obtain ⟨v, rfl⟩ | ⟨x, _, rfl⟩ | rfl | ⟨o, rfl⟩ := h
  · show tokNum ≠ 0x29; decide
  · show x + tokKeyword ≠ 0x29
    have : tokKeyword = 150 := rfl
    omega
  · decide
  · cases o <;> decide

/-- What holds before an argument. -/
structure Ex1 (off : Nat → Int) (xs : List Nat) (s0 : Base) (s : S) : Prop where
  pd : Pd s
  push : s.push = false
  reg : s.regUse = false
  zf : s.lastZF ≤ s.code
  ge : codeStart ≤ s.code
  ids : ids s = ids s0
  loc : Locals off xs s

theorem Ex1.room {xs : List Nat} {s0 : Base} {s : S} (h : Ex1 off xs s0 s) {n : Nat} (hn : s.code + n ≤ codeStart + outputMax) : Room s n := by
  have := h.ge
  unfold Room
  generalize codeStart = y, outputMax = z at *
  omega

theorem _root_.SccStm.Ex0.pend {xs : List Nat} {s0 : Base} {s : S} (h : Ex0 off xs s0 s) : Ex1 off xs s0 s := ⟨h.up.pd, h.push, h.reg, h.zf, h.ge, h.ids, h.loc⟩

/-- After code has been emitted nothing is pending. -/
theorem Ex1.did {xs : List Nat} {s0 : Base} {s s' : S} (h : Ex1 off xs s0 s) {bs : List Byte} (hd : Did (fl s) bs s') : Ex0 off xs s0 s' :=
  ⟨(up_fl h.pd).of hd.em.fr, hd.push, hd.reg, hd.zf, by rw [hd.em.code]; exact Nat.le_trans hd.em.ge (Nat.le_add_right _ _),
    (ids_core hd.em.fr).trans ((ids_fl s).trans h.ids), (locals_fl h.loc).of_core hd.em.fr⟩

theorem _root_.SccStm.Did.trans {s s1 s2 : S} {as bs : List Byte} (h : Did s as s1) (h2 : Did s1 bs s2) : Did s (as ++ bs) s2 :=
  ⟨h.em.trans h2.em, h2.push, h2.reg, h2.lo.trans h.lo, h2.zf⟩

theorem comma_nopost : NoPost (.sym 0x2C precComma) := .inl (by decide)

/-- One argument. -/
theorem arg_on {xs : List Nat} {s0 : Base} {s : S} (h : Ex1 off xs s0 s) {e : E} {ts rest : List Tk} {t : Tk} (hsh : Shows 10 e ts) (hon : On s0 s (ts ++ t :: rest))
    (ht : precAssign < t.prec) (hn : NoPost t) (hs : Stat e) (hx : ∀ x ∈ Vars e, x ∈ xs) (size' : Nat) (hr : s.code + 64 * size e + 19 ≤ codeStart + outputMax) :
    ∃ s1 s', Go .assign s s1 ∧ storeArg size' s1 = .ok () s' ∧ On s0 s' (t :: rest) ∧ Did (fl s) (argB off (s.localOffset + size') e) s' := by
  have hlen := gen_len (off := off) e hs false false
  have hl2 := argB_len (off := off) (s.localOffset + size') hs
  obtain ⟨s1, g, on, d⟩ := parse_arg s xs h.loc h.pd h.zf hsh (On.rebase hon h.ids) ht hn hs hx (by rw [h.push, h.reg]; exact h.room (by omega))
  rw [h.push, h.reg] at d
  obtain ⟨s', e', d', t'⟩ := storeArg_did h.pd h.push h.reg hs d size' (h.room (by omega))
  exact ⟨s1, s', g, e', (On.rebase on h.ids.symm).of_tks t', d'⟩

theorem args_body {xs : List Nat} {s0 : Base} {rest : List Tk} {es : List E} {ts : List Tk} (hsh : ShowsA es ts) : ∀ {s : S} (_ : Ex1 off xs s0 s) (size' : Nat) (_ : size' + 2 * es.length ≤ 8)
    (_ : size' % 2 = 0)
    (_ : On s0 s (ts ++ .sym 0x29 precStop :: rest)) (_ : ∀ e ∈ es, Stat e) (_ : ∀ e ∈ es, ∀ x ∈ Vars e, x ∈ xs) (_ : (fl s).code + argsSz es + 3 ≤ codeStart + outputMax),
    ∃ N s', (∀ n, N ≤ n → argBody (run n) size' s = .ok ((size' + 2 * es.length : Nat) : Int) s') ∧ On s0 s' (.sym 0x29 precStop :: rest) ∧
      Did (fl s) (argsB off (s.localOffset + size') es) s' := by
  induction hsh with
  | @one e ts h =>
    intro s h0 size' hsz hev hon hs hx hr
    simp only [argsSz] at hr
    have hfc := (code_fl s).1
    obtain ⟨s1, s', ⟨N, g⟩, e1, on', d'⟩ := arg_on h0 h hon (by decide) close_nopost (hs e (by simp)) (hx e (by simp)) size' (by omega)
    refine ⟨N, s', fun n hn => run_bind (g n hn) (run_bind e1 (run_getS (run_neg ?_ rfl))), on', ?_⟩
    · rw [on'.1.tok]; decide
    · simpa [argsB] using d'
  | @cons e ts es us h hsA ih =>
    intro s h0 size' hsz hev hon hs hx hr
    simp only [argsSz] at hr
    simp only [List.length_cons] at hsz
    rw [List.append_assoc, List.cons_append] at hon
    have hst := hs e (by simp)
    have hfc := (code_fl s).1
    obtain ⟨s1, s2, ⟨N1, g⟩, e1, on2, d2⟩ := arg_on h0 h hon (by decide) comma_nopost hst (hx e (by simp)) size' (by omega)
    have h2 := h0.did d2
    have hlen := argB_len (off := off) (s.localOffset + size') hst
    have hc2 := d2.em.code
    have hpos : 1 ≤ es.length := by cases hsA <;> simp
    obtain ⟨t0, vs, hus, hst0⟩ : ∃ t us', us = t :: us' ∧ Start xs t := by
      cases hsA with
      | one h => exact h.start (hx _ (by simp))
      | cons h hs =>
        obtain ⟨t, us', rfl, hst⟩ := h.start (hx _ (by simp))
        exact ⟨t, _, rfl, hst⟩
    rw [hus] at on2
    obtain ⟨s3, e3, on3, tk3⟩ := On.next' (s := s2) (ts := vs ++ .sym 0x29 precStop :: rest) on2 h2.ids
    have h3 : Ex1 off xs s0 s3 := ⟨h2.up.pd.of tk3.core, tk3.push.trans h2.push, tk3.regUse.trans h2.reg, by rw [tk3.lastZF, tk3.code]; exact h2.zf,
      by rw [tk3.code]; exact h2.ge, (ids_core tk3.core).trans h2.ids, h2.loc.of_core tk3.core⟩
    have hlo3 : s3.localOffset = s.localOffset := by
      have : s3.localOffset = s2.localOffset := by rw [tk3]
      rw [this]; exact fl_lo_of d2
    obtain ⟨N2, s', gb, on', d'⟩ := ih h3 (size' + 2) (by omega) (by omega) (by rw [hus]; exact on3) (fun e h => hs e (by simp [h])) (fun e h => hx e (by simp [h]))
      (by rw [fl_up (h2.up.of tk3.core), tk3.code, hc2]; omega)
    have hu3 : Up s3 := h2.up.of tk3.core
    rw [fl_up hu3] at d'
    have d3 : Did s2 (argsB off (s3.localOffset + (size' + 2 : Nat)) es) s' := by
      have he : Em s2 [] s3 := .refl tk3.core h2.ge tk3.code (by rw [tk3])
      exact ⟨he.trans d'.em, d'.push, d'.reg, d'.lo.trans (by rw [tk3]), d'.zf⟩
    refine ⟨N1 + N2 + 1, s', fun n hn => ?_, on', ?_⟩
    · refine run_bind (g n (by omega)) (run_bind e1 (run_getS (run_pos ?_ (run_bind e3 ?_))))
      · rw [on2.1.tok]; rfl
      · obtain ⟨m, rfl⟩ : ∃ m, n = m + 1 := ⟨n - 1, by omega⟩
        show parseArgs (run m) (size' + 2) s3 = _
        refine run_getS (run_neg ?_ ?_)
        · rw [on3.1.tok]; exact start_tok hst0
        · have hch : argChunk (size' + 2) s3 = .ok () s3 := run_neg (by omega) rfl
          refine run_bind hch ((gb m (by omega)).trans ?_)
          congr 1
          push_cast [List.length_cons]
          omega
    · simp only [argsB]
      have := d2.trans d3
      rw [hlo3] at this
      push_cast at this ⊢
      rw [← Int.add_assoc] at this
      exact this

/-! ## The call -/

/-- What remains to be removed from the stack. -/
def popN : List E → Int
  | [] => 0
  | _ :: _ => 8

/-- What the call leaves: the value is in AX, the arguments are still on the stack. -/
structure Result (s : S) (bs : List Byte) (n : Int) (s' : S) : Prop where
  did : ∃ s4, Did s bs s4 ∧ core s' = { core s4 with spAdj := n } ∧ s'.code = s4.code ∧ s'.out = s4.out ∧ s'.lastZF = s4.lastZF ∧ s'.localOffset = s4.localOffset
  type : s'.type = vtInt
  push : s'.push = false
  reg : s'.regUse = false

theorem args_go {xs : List Nat} {s0 : Base} {s : S} (h : Ex0 off xs s0 s) {es : List E} {ts rest : List Tk} (hsh : ShowsL es ts) (hon : On s0 s (ts ++ .sym 0x29 precStop :: rest))
    (hlen : es.length ≤ 4) (hs : ∀ e ∈ es, Stat e) (hx : ∀ e ∈ es, ∀ x ∈ Vars e, x ∈ xs) (hr : s.code + argsSz es + 6 ≤ codeStart + outputMax) :
    ∃ N s' s4, (∀ n, N ≤ n → run n (.args 0) s = .ok ((2 * es.length : Nat) : Int) s') ∧ On s0 s' (.sym 0x29 precStop :: rest) ∧ Did s (preB off s.localOffset es) s4 ∧
      s4 = { s' with localOffset := s'.localOffset + popN es } := by
  have h0 : Did s [] s := ⟨.refl rfl h.ge rfl rfl, h.push, h.reg, rfl, h.zf⟩
  cases hsh with
  | nil =>
    refine ⟨1, s, s, fun n hn => ?_, hon, h0, ?_⟩
    · obtain ⟨m, rfl⟩ : ∃ m, n = m + 1 := ⟨n - 1, by omega⟩
      exact run_getS (run_pos (show s.tok = 0x29 from hon.1.tok) rfl)
    · show s = { s with localOffset := s.localOffset + 0 }
      rw [Int.add_zero]
  | some hA =>
    let sa : S := { s with localOffset := s.localOffset - 8, spAdj := s.spAdj - 8 }
    have hsp : sa.spAdj = -8 := by show s.spAdj - 8 = -8; rw [h.up.spAdj]; rfl
    have ha : Ex1 off xs s0 sa := ⟨⟨h.up.dead, .inr (.inr hsp)⟩, h.push, h.reg, h.zf, h.ge, h.ids, h.loc⟩
    have hne : sa.spAdj ≠ 0 := by rw [hsp]; decide
    have hfl := put_up hne
    obtain ⟨N, s', g, on', d⟩ := args_body hA ha 0 (by omega) rfl (hon.of_tks rfl) hs hx (by
      have := (code_fl sa).2
      have : sa.code = s.code := rfl
      omega)
    obtain ⟨t0, us', hts, hst⟩ : ∃ t us', ts = t :: us' ∧ Start xs t := by
      cases hA with
      | one h => exact h.start (hx _ (by simp))
      | cons h hs =>
        obtain ⟨t, us', rfl, hst⟩ := h.start (hx _ (by simp))
        exact ⟨t, _, rfl, hst⟩
    obtain ⟨e, es', rfl⟩ : ∃ e es', es = e :: es' := by cases hA <;> exact ⟨_, _, rfl⟩
    have hB : preB off s.localOffset (e :: es') = spB (-8) ++ argsB off (sa.localOffset + (0 : Nat)) (e :: es') := by
      simp [preB, sa]
    have w := put_wrote (spB sa.spAdj) { sa with spAdj := 0 } (h.room (n := 3) (by omega))
    rw [← fl_put hne, hsp] at w
    have hem : Em s (spB (-8)) (fl sa) := by
      refine Em.of_wrote w ?_ rfl rfl h.ge
      have h8 : s.spAdj = 0 := h.up.spAdj
      show core { s with localOffset := s.localOffset - 8, spAdj := 0 } = core s
      rw [← h8]; rfl
    refine ⟨N + 1, s', { s' with localOffset := s'.localOffset + 8 }, fun n hn => ?_, on', ?_, rfl⟩
    · obtain ⟨m, rfl⟩ : ∃ m, n = m + 1 := ⟨n - 1, by omega⟩
      show parseArgs (run m) 0 s = _
      refine run_getS (run_neg ?_ ?_)
      · rw [hts] at hon
        rw [hon.1.tok]; exact start_tok hst
      · have hch : argChunk 0 s = .ok () sa := by
          refine run_pos rfl (run_bind (a := ()) (s1 := s) (run_getS (run_neg (by rw [h.push]; decide) rfl)) (run_modS (run_neg (fun h => h rfl) rfl)))
        refine run_bind hch ((g m (by omega)).trans ?_)
        rw [Nat.zero_add]
    · rw [hB]
      have em := hem.trans d.em
      refine ⟨⟨em.fr, em.ge, em.code, em.new, em.old⟩, d.push, d.reg, ?_, d.zf⟩
      show s'.localOffset + 8 = s.localOffset
      rw [fl_lo_of d]
      show s.localOffset - 8 + 8 = s.localOffset
      omega

/-- A call. -/
theorem call_go {xs F : List Nat} {A : Nat → Nat} {s0 : Base} {s : S} (h : Ex0 off xs s0 s) (hF : Funs A F s) {f : Nat} (hf : f ∈ F) {es : List E} {ts rest : List Tk} {t : Tk}
    (hsh : ShowsL es ts) (hon : On s0 s (.id f :: .sym 0x28 precStop :: ts ++ .sym 0x29 precStop :: t :: rest)) (hn : NoPost t)
    (hlen : es.length ≤ 4) (hs : ∀ e ∈ es, Stat e) (hx : ∀ e ∈ es, ∀ x ∈ Vars e, x ∈ xs) (hr : s.code + argsSz es + 9 ≤ codeStart + outputMax) :
    ∃ s', Go .cast s s' ∧ On s0 s' (t :: rest) ∧ Result s (callB off s.localOffset (A f) s.code es) (popN es) s' := by
  have htok : s.tok = f + tokKeyword := hon.1.tok
  obtain ⟨hf1, hf2, v, hlk, hvm, hty, hof, hA0⟩ := hF f hf
  obtain ⟨s2, e2, on2, tk2⟩ := On.next' (s := s) (ts := ts ++ .sym 0x29 precStop :: t :: rest) hon h.ids
  have hne : ∀ k, k < tokId → s.tok ≠ k := by
    intro k hk he
    rw [htok] at he
    have hk' : k < 187 := hk
    have : f + 150 = k := he
    omega
  have hlk2 : s2.lookup.get f = some v := by rw [tk2]; exact hlk
  have hty2 : (s2.vars.get v).type = vtInt ||| vtFun ||| vtLocGlob := by rw [tk2]; exact hty
  let s3 : S := { s2 with log := .use f (s2.lookup.get f) :: s2.log, val := (v : Int), type := (s2.vars.get v).type ||| vtLval, extra := (s2.vars.get v).extra }
  have hid : handlePrimaryId { s2 with val := (f : Int) } = .ok () s3 := by
    refine run_getS (run_ub (decide_eq_true ⟨Int.natCast_nonneg _, Int.ofNat_lt.2 hf2⟩) (run_modS ?_))
    simp only [Int.toNat_natCast, hlk2]
    have hm : ((s2.vars.get v).type ||| vtLval) &&& vtLocMask = vtLocGlob := by rw [hty2]; decide
    rw [if_neg (by rw [hm]; decide), if_pos hm]
    show Res.ok () _ = Res.ok () s3
    simp only [s3, hlk2]
  have hprim : Go .primary s s3 := by
    refine Go.of 0 fun n _ => run_bind (a := ()) (s1 := s3) (run_getS (run_neg (hne _ (by decide)) (run_neg (hne _ (by decide)) (run_neg (hne _ (by decide)) (run_neg ?_ ?_))))) rfl
    · rintro (h | h | h) <;> exact hne _ (by decide) h
    · refine run_bind (a := f) (s1 := s2) ?_ (run_modS hid)
      refine run_getS (run_pos ?_ (run_bind e2 ?_))
      · rw [htok]; show 187 ≤ f + 150; omega
      · rw [htok, Nat.add_sub_cancel]; rfl
  have on3 : On s0 s3 (.sym 0x28 precStop :: (ts ++ .sym 0x29 precStop :: t :: rest)) := on2.of_tks rfl
  have hi3 : ids s3 = ids s0 := (show ids s3 = ids s2 from rfl).trans ((ids_core tk2.core).trans h.ids)
  have hty3 : s3.type = vtInt ||| vtFun ||| vtLocGlob ||| vtLval := by show (s2.vars.get v).type ||| vtLval = _; rw [hty2]
  have hv3 : s3.val = (v : Int) := rfl
  have c3 : core s3 = core s := tk2.core
  have code3 : s3.code = s.code := tk2.code
  have out3 : s3.out = s.out := by show s2.out = s.out; rw [tk2]
  have push3 : s3.push = false := tk2.push.trans h.push
  have reg3 : s3.regUse = false := tk2.regUse.trans h.reg
  have zf3 : s3.lastZF ≤ s3.code := by show s2.lastZF ≤ s2.code; rw [tk2.lastZF, tk2.code]; exact h.zf
  have lo3 : s3.localOffset = s.localOffset := by show s2.localOffset = _; rw [tk2]
  generalize s3 = s3 at *
  -- the call
  obtain ⟨u, us, hus⟩ : ∃ u us, ts ++ .sym 0x29 precStop :: t :: rest = u :: us := by cases ts <;> exact ⟨_, _, rfl⟩
  rw [hus] at on3
  obtain ⟨s5, e5, on5, tk5⟩ := on3.next' hi3
  rw [← hus] at on5
  have c5 : core s5 = core s := tk5.core.trans c3
  have code5 : s5.code = s.code := tk5.code.trans code3
  have out5 : s5.out = s.out := by have : s5.out = s3.out := by rw [tk5]
                                   exact this.trans out3
  have lo5 : s5.localOffset = s.localOffset := by have : s5.localOffset = s3.localOffset := by rw [tk5]
                                                  exact this.trans lo3
  have ty5 : s5.type = vtInt ||| vtFun ||| vtLocGlob ||| vtLval := by have : s5.type = s3.type := by rw [tk5]
                                                                      exact this.trans hty3
  have val5 : s5.val = (v : Int) := by have : s5.val = s3.val := by rw [tk5]
                                       exact this.trans hv3
  have h5 : Ex0 off xs s0 s5 := ⟨h.up.of c5, tk5.push.trans push3, tk5.regUse.trans reg3, by rw [tk5.lastZF, tk5.code]; exact zf3, by rw [code5]; exact h.ge,
    (ids_core c5).trans h.ids, h.loc.of_core c5⟩
  have hem5 : Em s [] s5 := .refl c5 h.ge code5 out5
  have hsave : saveRegs s5 = .ok () s5 :=
    run_getS (run_neg (by rw [h5.push]; decide) (run_getS (run_neg (by rw [h5.reg]; decide) rfl)))
  obtain ⟨N1, s6, s7, g6, on6, d7, e7⟩ := args_go h5 hsh on5 hlen hs hx (by omega)
  rw [lo5] at d7
  have d7 : Did s (preB off s.localOffset es) s7 := ⟨hem5.trans d7.em, d7.push, d7.reg, d7.lo.trans lo5, d7.zf⟩
  have hpl : (preB off s.localOffset es).length ≤ argsSz es + 3 := by
    cases es with
    | nil => exact Nat.zero_le _
    | cons e es =>
      have := argsB_len (off := off) (s.localOffset - 8) hs
      simp only [preB, List.length_append, spB, List.length_cons, List.length_nil] at this ⊢
      omega
  have hc6 : core s6 = core s7 := by rw [e7]; rfl
  have hup6 : Up s6 := h.up.of (hc6.trans d7.em.fr)
  have i6 : ids s6 = ids s0 := (ids_core (hc6.trans d7.em.fr)).trans h.ids
  obtain ⟨s8, e8, on8, tk8⟩ := on6.next' i6
  have c8 : core s8 = core s := tk8.core.trans (hc6.trans d7.em.fr)
  have up8 : Up s8 := h.up.of c8
  have p8 : s8.push = false := tk8.push.trans (by have := d7.push; rw [e7] at this; exact this)
  have r8 : s8.regUse = false := tk8.regUse.trans (by have := d7.reg; rw [e7] at this; exact this)
  have code8 : s8.code = s.code + (preB off s.localOffset es).length := by
    rw [tk8.code, ← d7.em.code, e7]
  have hroom8 : Room s8 3 := by
    have := h.ge
    unfold Room
    rw [code8]
    generalize codeStart = y, outputMax = z at *
    omega
  have e9 := (up8.live p8).out_put (bs := [0xE8]) (room_le hroom8 (by decide))
  have w9 := put_wrote [0xE8] s8 (room_le hroom8 (by decide))
  have hcp9 : (put s8 [0xE8]).code = s8.code + 1 := by rw [put_eq]; rfl
  have hvar9 : (put s8 [0xE8]).vars = s.vars := by
    rw [put_eq]
    show (core s8).vars = (core s).vars
    rw [c8]
  have hlv9 : Live (put s8 [0xE8]) := by rw [put_eq]; exact ⟨up8.dead, up8.spAdj, p8⟩
  let dsp : Int := (A f : Int) - (s.code + (preB off s.localOffset es).length + 1 : Nat) - 2
  have hroom9 : Room (put s8 [0xE8]) 2 := by
    unfold Room at hroom8 ⊢
    rw [hcp9]
    generalize codeStart = y, outputMax = z at *
    omega
  have e10 := hlv9.out_put (bs := [Scc.lo dsp, Scc.hi dsp]) hroom9
  have w10 := put_wrote [Scc.lo dsp, Scc.hi dsp] (put s8 [0xE8]) hroom9
  have href : emitGlobalRefRel v (put s8 [0xE8]) = .ok () (put (put s8 [0xE8]) [Scc.lo dsp, Scc.hi dsp]) := by
    refine run_getS ?_
    rw [hvar9, hof, hcp9, code8]
    exact (run_neg (by intro hh; exact hA0 (by exact_mod_cast hh)) e10)
  have t10 : tks (put (put s8 [0xE8]) [Scc.lo dsp, Scc.hi dsp]) = tks s8 := by rw [put_eq, put_eq]; rfl
  have lo10 : (put (put s8 [0xE8]) [Scc.lo dsp, Scc.hi dsp]).localOffset = s8.localOffset := by rw [put_eq, put_eq]
  -- the code
  have d8 : Did s (preB off s.localOffset es) { s8 with localOffset := s8.localOffset + popN es } := by
    have h1 := d7.em.new
    have h2 := d7.em.old
    have h3 : s7.out = s6.out := by rw [e7]
    have ho : s8.out = s6.out := by rw [tk8]
    refine ⟨⟨c8, h.ge, code8, fun i hi => ?_, fun j hj => ?_⟩, p8, r8, ?_, ?_⟩
    · show s8.out.get _ = _
      rw [ho, ← h3]; exact h1 i hi
    · show s8.out.get _ = _
      rw [ho, ← h3]; exact h2 j hj
    · rw [← d7.lo, e7]
      show s8.localOffset + _ = s6.localOffset + _
      rw [tk8]
    · show s8.lastZF ≤ s8.code
      have := d7.zf
      rw [e7] at this
      rw [tk8.lastZF, tk8.code]; exact this
  have w9' : Wrote { s8 with localOffset := s8.localOffset + popN es } [0xE8] { put s8 [0xE8] with localOffset := s8.localOffset + popN es } := by
    obtain ⟨o, e, a, b⟩ := w9
    exact ⟨o, by rw [e], a, b⟩
  have w10' : Wrote { put s8 [0xE8] with localOffset := s8.localOffset + popN es } [Scc.lo dsp, Scc.hi dsp]
      { put (put s8 [0xE8]) [Scc.lo dsp, Scc.hi dsp] with localOffset := s8.localOffset + popN es } := by
    obtain ⟨o, e, a, b⟩ := w10
    exact ⟨o, by rw [e], a, b⟩
  have d10 := (d8.wrote w9').wrote w10'
  have hB : preB off s.localOffset es ++ [0xE8] ++ [Scc.lo dsp, Scc.hi dsp] = callB off s.localOffset (A f) s.code es := by
    simp only [callB, List.append_assoc, List.cons_append, List.nil_append]; rfl
  rw [hB] at d10
  have hp10 : (put (put s8 [0xE8]) [Scc.lo dsp, Scc.hi dsp]).push = false := by rw [put_eq, put_eq]; exact p8
  have hr10 : (put (put s8 [0xE8]) [Scc.lo dsp, Scc.hi dsp]).regUse = false := by rw [put_eq, put_eq]; exact r8
  have hsp10 : (put (put s8 [0xE8]) [Scc.lo dsp, Scc.hi dsp]).spAdj = 0 := by rw [put_eq, put_eq]; exact up8.spAdj
  generalize put (put s8 [0xE8]) [Scc.lo dsp, Scc.hi dsp] = sA at *
  have hsz : ((((2 * es.length : Nat) : Int).toNat + 7) / 8 * 8 : Nat) = (popN es : Int) := by
    rw [Int.toNat_natCast]
    cases es with
    | nil => rfl
    | cons e es =>
      simp only [List.length_cons] at hlen ⊢
      have : (2 * (es.length + 1) + 7) / 8 = 1 := by omega
      rw [this]; rfl
  let sB : S := { sA with spAdj := sA.spAdj + popN es, localOffset := sA.localOffset + popN es, type := vtInt, extra := (s5.vars.get v).extra }
  have onB : On s0 sB (t :: rest) := on8.of_tks t10
  have hcall : ∃ N, ∀ n, N ≤ n → parseCall (run n) s3 = .ok () sB := by
    refine ⟨N1, fun n hn => run_bind e5 (run_getS (run_failIf (by rw [ty5]; decide) ?_))⟩
    have hct : callTarget s5 = .ok (some v) s5 := by
      refine run_getS ?_
      rw [ty5, val5]
      exact run_pos (by decide) (run_bind (a := v) (s1 := s5) (run_ub (decide_eq_true ⟨Int.natCast_nonneg _, Int.ofNat_lt.2 hvm⟩) (by rw [Int.toNat_natCast]; rfl)) rfl)
    refine run_bind hct (run_bind hsave (run_bind (g6 n hn) (run_bind (a := ()) (s1 := s8) (run_getS (run_pos on6.1.tok e8)) ?_)))
    refine run_bind (a := ()) (s1 := { sA with spAdj := sA.spAdj + popN es, localOffset := sA.localOffset + popN es }) ?_ ?_
    · refine run_bind e9 (run_bind href ?_)
      rw [← hsz]
      rfl
    · rw [ty5]
      refine run_bind (a := ()) (s1 := { sA with spAdj := sA.spAdj + popN es, localOffset := sA.localOffset + popN es, type := vtInt }) ?_ rfl
      rfl
  obtain ⟨N2, gc⟩ := hcall
  obtain ⟨N3, gp⟩ := postfix_nop onB.1 hn
  have hpost : Go .postfix s3 sB := by
    refine Go.of (N2 + N3) fun n hn => run_bind (a := ()) (s1 := sB) (run_getS (run_neg ?_ (run_pos on3.1.tok (run_bind (gc n (by omega)) (gp n (by omega)))))) rfl
    rw [on3.1.prec]
    exact fun h => h rfl
  refine ⟨sB, ?_, onB, ⟨⟨_, d10, ?_, rfl, rfl, rfl, ?_⟩, rfl, hp10, hr10⟩⟩
  · obtain ⟨M1, q1⟩ := hprim
    obtain ⟨M2, q2⟩ := hpost
    have hg : Go .unary s sB := Go.of (M1 + M2) fun n hn =>
      run_bind (a := ()) (s1 := sB) (run_getS (run_neg (by rintro (h | h | h | h | h | h) <;> exact hne _ (by decide) h) (run_neg (by rintro (h | h) <;> exact hne _ (by decide) h)
        (run_neg (hne _ (by decide)) (run_bind (q1 n (by omega)) (q2 n (by omega))))))) rfl
    obtain ⟨M, hg⟩ := hg
    exact Go.of M fun n hn => run_bind (a := ()) (s1 := sB) (run_getS (run_neg (hne _ (by decide)) (hg n hn))) rfl
  · show core sB = { core sA with spAdj := popN es }
    have : sB.spAdj = popN es := by show sA.spAdj + popN es = _; rw [hsp10, Int.zero_add]
    rw [← this]; rfl
  · show sA.localOffset + popN es = s8.localOffset + popN es
    rw [lo10]

theorem call_len {l : Int} {a p x : Nat} {es : List E} (hs : ∀ e ∈ es, Stat e) : (callAsgnB off l a p x es).length ≤ argsSz es + 16 := by
  have h4 := len_modB 0x89 0 (off x)
  cases es with
  | nil => simp only [callAsgnB, callB, preB, popB, List.length_append, List.length_cons, List.length_nil]; omega
  | cons e es =>
    have := argsB_len (off := off) (l - 8) hs
    simp only [callAsgnB, callB, preB, popB, List.length_append, spB, List.length_cons, List.length_nil] at this ⊢
    omega

theorem Result.up {s s' : S} {bs : List Byte} {es : List E} (h : Up s) (hr : Result s bs (popN es) s') : Pd s' := by
  obtain ⟨s4, d, c, _⟩ := hr.did
  have h2 : s'.spAdj = popN es := show (core s').spAdj = _ by rw [c]
  have h3 : s'.dead = s4.dead := show (core s').dead = (core s4).dead by rw [c]
  refine ⟨h3.trans (h.of d.em.fr).dead, ?_⟩
  rw [h2]
  cases es with
  | nil => exact .inl rfl
  | cons => exact .inr (.inl rfl)

/-- The arguments are removed. -/
theorem Result.pop {s s' : S} {bs : List Byte} {es : List E} (h : Up s) (hr : Result s bs (popN es) s') (hroom : Room s (bs.length + 3)) :
    Did s (bs ++ popB es) (fl s') := by
  obtain ⟨s4, d, c, h1, h2, h3, h4⟩ := hr.did
  have hsp : s'.spAdj = popN es := show (core s').spAdj = _ by rw [c]
  have hu4 := h.of d.em.fr
  have hc : core { s' with spAdj := 0 } = core s4 := by
    have : core { s' with spAdj := 0 } = { core s' with spAdj := 0 } := rfl
    rw [this, c]
    have h0 : s4.spAdj = 0 := hu4.spAdj
    show ({ core s4 with spAdj := 0 } : S) = core s4
    conv => rhs; rw [show core s4 = { core s4 with spAdj := (core s4).spAdj } from rfl, show (core s4).spAdj = 0 from h0]
  have d0 : Did s bs { s' with spAdj := 0 } := by
    refine ⟨⟨hc.trans d.em.fr, d.em.ge, ?_, ?_, ?_⟩, hr.push, hr.reg, ?_, ?_⟩
    · show s'.code = _; rw [h1]; exact d.em.code
    · intro i hi; show s'.out.get _ = _; rw [h2]; exact d.em.new i hi
    · intro j hj; show s'.out.get _ = _; rw [h2]; exact d.em.old j hj
    · show s'.localOffset = _; rw [h4]; exact d.lo
    · show s'.lastZF ≤ s'.code; rw [h3, h1]; exact d.zf
  cases es with
  | nil =>
    have hsp : s'.spAdj = 0 := hsp
    rw [fl, if_pos hsp]
    show Did s (bs ++ []) s'
    rw [List.append_nil]
    rw [show s' = { s' with spAdj := 0 } by rw [← hsp]]
    exact d0
  | cons e es =>
    have hsp : s'.spAdj = 8 := hsp
    have hne : s'.spAdj ≠ 0 := by rw [hsp]; decide
    rw [fl_put hne, hsp]
    exact d0.wrote (put_wrote (spB 8) _ (d0.em.room (by exact hroom)))

/-- `= f(es)`, after the variable. -/
theorem call_rest {xs F : List Nat} {A : Nat → Nat} {s0 : Base} {s s1 : S} (h : Ex0 off xs s0 s) (hF : Funs A F s) {x : Nat} (hd : Done off s ⟨[], .var x, false⟩ s1)
    {f : Nat} (hf : f ∈ F) {es : List E} {ts rest : List Tk} {t : Tk} (hsh : ShowsL es ts)
    (hon : On s0 s1 (.sym 0x3D precAssign :: .id f :: .sym 0x28 precStop :: ts ++ .sym 0x29 precStop :: t :: rest)) (ht : precComma < t.prec) (hn : NoPost t)
    (hlen : es.length ≤ 4) (hs : ∀ e ∈ es, Stat e) (hx : ∀ e ∈ es, ∀ x ∈ Vars e, x ∈ xs) (hr : s.code + argsSz es + 16 ≤ codeStart + outputMax) :
    ∃ s', Go (.expr1 precComma) s1 s' ∧ On s0 s' (t :: rest) ∧ Did s (callAsgnB off s.localOffset (A f) s.code x es) s' := by
  have hi1 : ids s1 = ids s0 := (ids_core hd.em.fr).trans h.ids
  obtain ⟨s2, e2, on2, tk2⟩ := On.next' (s := s1) (ts := .sym 0x28 precStop :: ts ++ .sym 0x29 precStop :: t :: rest) hon hi1
  have hkd : s1.type = vtInt ||| vtLval ||| vtLocOff ∧ s1.val = off x ∧ s1.push = s.push := hd.kd
  have hp1 := hkd.2.2.trans h.push
  have hty2 : s2.type = vtInt ||| vtLval ||| vtLocOff := by rw [tk2]; exact hkd.1
  have hv2 : s2.val = off x := by rw [tk2]; exact hkd.2.1
  have hp2 : s2.push = false := tk2.push.trans hp1
  have hr2 : s2.regUse = false := tk2.regUse.trans hd.reg
  let s3 : S := { s2 with type := vtInt ||| vtLocOff }
  have e3 : lhsStep 0x3D precAssign s2 = .ok (0x3D, -1) s3 := by
    refine run_getS (run_pos rfl (run_failIf (by rw [hty2]; decide) (run_bind (a := ()) (s1 := s3) ?_ (run_pos rfl ?_))))
    · show Res.ok () { s2 with type := clr s2.type vtLval } = Res.ok () s3
      rw [hty2]; rfl
    · refine run_bind (a := 0x3D) (s1 := s3) rfl (run_neg (by decide) (run_getS (run_neg (by show vtInt ||| vtLocOff ≠ vtBool; decide)
        (run_getS (run_neg ?_ rfl)))))
      intro hh
      exact absurd (show (vtInt ||| vtLocOff) &&& vtLocMask = 0 from hh.1) (by decide)
  have hc1 : s1.code = s.code := by rw [hd.em.code]; rfl
  have hc3 : s3.code = s.code := tk2.code.trans hc1
  have fr3 : core s3 = core s := tk2.core.trans hd.em.fr
  have hex3 : Ex0 off xs s0 s3 := ⟨h.up.of fr3, hp2, hr2, by
    show s2.lastZF ≤ s2.code
    rw [tk2.lastZF, tk2.code]; exact hd.zf, by rw [hc3]; exact h.ge, (ids_core fr3).trans h.ids, h.loc.of_core fr3⟩
  have on3 : On s0 s3 (.id f :: .sym 0x28 precStop :: ts ++ .sym 0x29 precStop :: t :: rest) := on2.of_tks rfl
  obtain ⟨s5, ⟨N1, g4⟩, on5, d5⟩ := call_go hex3 (hF.of_core fr3) hf hsh on3 hn hlen hs hx (by rw [hc3]; omega)
  have hlo3 : s3.localOffset = s.localOffset := by
    have : s3.localOffset = s1.localOffset := by show s2.localOffset = s1.localOffset; rw [tk2]
    rw [this]
    exact lo_of_bal hd.bal hp1 hd.reg h.push h.reg
  rw [hc3, hlo3] at d5
  have htp : (15 : Nat) < s5.prec := by rw [on5.1.prec]; exact ht
  obtain ⟨N2, g5⟩ := Rounds.rhs' precAssign (by decide) 0 (Rounds.refl (s := s5)) (Nat.lt_trans (by decide) htp)
  have hcl := call_len (off := off) (l := s.localOffset) (a := A f) (p := s.code) (x := x) hs
  have hml : (modB 0x89 0 (off x)).length ≤ 4 := len_modB 0x89 0 (off x)
  have hcb : (callB off s.localOffset (A f) s.code es).length ≤ argsSz es + 6 := by
    cases es with
    | nil => simp only [callB, preB, List.length_append, List.length_cons, List.length_nil]; omega
    | cons e es =>
      have := argsB_len (off := off) (s.localOffset - 8) hs
      simp only [callB, preB, List.length_append, spB, List.length_cons, List.length_nil] at this ⊢
      omega
  have dp := d5.pop hex3.up (hex3.room (by rw [hc3]; omega))
  have pd5 := d5.up hex3.up
  have hc5 : s5.code = s3.code + (callB off s.localOffset (A f) s.code es).length := by
    obtain ⟨s4, d, c, h1, _⟩ := d5.did
    rw [h1]; exact d.em.code
  have hroom5 : Room s5 3 := by
    have := h.ge
    unfold Room
    rw [hc5, hc3]
    generalize codeStart = y, outputMax = z at *
    omega
  let u : Bool := vtInt == vtUnsigned ||| vtInt || s5.type &&& (vtUnsigned ||| vtPtrMask ||| vtBaseMask) == vtUnsigned ||| vtInt
  let s6 : S := { s5 with isUnsigned := u }
  have hty6 : s6.type = vtInt := d5.type
  have pd6 : Pd s6 := ⟨pd5.dead, pd5.adj⟩
  have dp6 : Did s3 (callB off s.localOffset (A f) s.code es ++ popB es) (fl s6) := by
    rw [fl_uns]
    exact ⟨⟨dp.em.fr, dp.em.ge, dp.em.code, dp.em.new, dp.em.old⟩, dp.push, dp.reg, dp.lo, dp.zf⟩
  have up6 : Up (fl s6) := up_fl pd6
  have hsw := modrm_fl pd6 hroom5 0x89 (off x)
  have hpl : (popB es).length ≤ 3 := by cases es <;> simp [popB, spB]
  obtain ⟨s7, e7, w7⟩ := modrm_wrote up6 0x89 (off x) (by
    rw [dp6.push]
    refine room_le (dp6.em.room (n := 4) (hex3.room (by rw [hc3]; simp only [List.length_append]; omega))) (by simpa [flB] using hml))
  rw [dp6.push, pre_of dp6.push] at w7
  have d7 := dp6.wrote w7
  have e8 : finishExpr1 0x3D precAssign (-1) s3.type s3.extra s3.val s5 = .ok () s7 := by
    rw [show s3.val = off x from hv2]
    show finishExpr1 0x3D precAssign (-1) (vtInt ||| vtLocOff) s3.extra (off x) s5 = .ok () s7
    have h1 : (vtInt ||| vtLocOff) &&& vtLocMask = vtLocOff := by decide
    have h2 : clr (vtInt ||| vtLocOff) vtLocMask = vtInt := by decide
    unfold finishExpr1
    simp only [h1, h2]
    refine run_neg (by decide) (run_getS (run_neg (fun hh => absurd hh.1 (by decide)) (run_neg (by decide) (run_modS (run_pos trivial ?_)))))
    show finishAssign 0x3D vtInt vtLocOff s3.extra (off x) s6 = .ok () s7
    have hl : lvalToRval s6 = .ok () s6 := run_getS (run_pos (by rw [hty6]; decide) rfl)
    have hg : getVal s6 = .ok () s6 := by
      exact run_getS (run_neg (by rw [hty6]; decide) (run_bind hl (run_getS (run_neg (by rw [hty6]; decide) rfl))))
    refine run_bind (a := ()) (s1 := s6) rfl (run_neg (by decide) (run_bind hl (run_getS (run_neg (fun h => h rfl) (run_neg (by rw [hty6]; decide)
      (run_bind hg (run_neg (by decide) (run_neg (by decide) ?_))))))))
    exact hsw.trans e7
  have on6 : On s0 s7 (t :: rest) := by
    refine on5.of_tks ?_
    obtain ⟨o, h, _⟩ := w7
    rw [h]
    exact tks_fl s6
  refine ⟨s7, ?_, on6, ⟨?_, d7.push, d7.reg, ?_, d7.zf⟩⟩
  · refine Go.of (N1 + N2) fun n hn => run_bind (a := ()) (s1 := s7) (run_getS (run_bind e2 (run_neg ?_ ?_))) rfl
    · rw [show s1.tok = 0x3D from hon.1.tok]; decide
    · rw [show s1.tok = 0x3D from hon.1.tok, show s1.prec = precAssign from hon.1.prec]
      refine run_bind (a := ()) (s1 := s7) (run_bind e3 (run_getS (run_bind (g4 n (by omega)) (run_bind (g5 n (by omega)) e8)))) (run_getS (run_neg ?_ rfl))
      rw [on6.1.prec]
      exact Nat.not_le.2 ht
  · have h1 : s3.out = s1.out := by show s2.out = s1.out; rw [tk2]
    have em3 : Em s [] s3 := ⟨fr3, h.ge, hc3, fun i hi => absurd hi (by simp), fun j hj => by rw [h1]; exact hd.em.old j hj⟩
    have := em3.trans d7.em
    simpa [callAsgnB, flB] using this
  · rw [d7.lo, hlo3]

/-- `x = f(es)` as an expression. -/
theorem call_expr {xs F : List Nat} {A : Nat → Nat} {s0 : Base} {s : S} (h : Ex0 off xs s0 s) (hF : Funs A F s) {x : Nat} (hx : x ∈ xs)
    {f : Nat} (hf : f ∈ F) {es : List E} {ts rest : List Tk} {t : Tk} (hsh : ShowsL es ts)
    (hon : On s0 s (.id x :: .sym 0x3D precAssign :: .id f :: .sym 0x28 precStop :: ts ++ .sym 0x29 precStop :: t :: rest)) (ht : precComma < t.prec) (hn : NoPost t)
    (hlen : es.length ≤ 4) (hs : ∀ e ∈ es, Stat e) (hxe : ∀ e ∈ es, ∀ x ∈ Vars e, x ∈ xs) (hr : s.code + argsSz es + 16 ≤ codeStart + outputMax) :
    ∃ s', Go .expr s s' ∧ On s0 s' (t :: rest) ∧ Did s (callAsgnB off s.localOffset (A f) s.code x es) s' := by
  obtain ⟨n, s1, s2, ⟨N1, g1⟩, r2, on2, d2⟩ := parses ⟨s, s0.fin⟩ xs h.loc h.up (.var 0 x) s (.sym 0x3D precAssign)
    (.id f :: .sym 0x28 precStop :: ts ++ .sym 0x29 precStop :: t :: rest) (SccStm.On.rebase hon h.ids) rfl (Nat.zero_le _)
    asgn_nopost trivial (fun y hy => by simp only [Vars, List.mem_singleton] at hy; rw [hy]; exact hx) h.zf (h.room (by
      have : (gen off (.var x) s.push s.regUse).bs.length = 0 := rfl
      omega))
  obtain rfl := r2.zero
  rw [h.push, h.reg] at d2
  obtain ⟨s', ⟨N2, g2⟩, on', d'⟩ := call_rest h hF d2 hf hsh (SccStm.On.rebase on2 h.ids.symm) ht hn hlen hs hxe hr
  refine ⟨s', Go.of (N1 + N2) fun n hn => run_bind (a := ()) (s1 := s') (run_bind (g1 n (by omega)) (run_getS (run_pos ?_ (g2 n (by omega))))) rfl, on', d'⟩
  rw [on2.1.prec]
  decide

end SccCall
