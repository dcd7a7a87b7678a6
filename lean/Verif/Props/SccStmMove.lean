import Verif.Props.SccCallParse
/-!
# Compiled statements (C49): the steps of the compiler

`Rdy its ts s`: the compiler, in the state `s`, is between two parts of a statement, has emitted `its` and goes on with the tokens `ts`.
`Mv l0 n k s ys s'`: from `s` to `s'` it emitted the items `ys`, at most `n` bytes, and made at most `k` labels; the labels it placed and the
targets of its conditional jumps are not older than `l0`.
-/
namespace SccStm
open Prog Scc SccCode SccGen SccLayout Props.SccLex

variable {off : Nat → Int} {G : Fns}

/-! ## Conditions are condition codes -/

theorem binKd_flag (o : BOp) {cc : Nat} (h : binKd o = .flag cc) : cc < 16 := by
  cases o <;> cases h <;> decide

theorem gen_flag (e : E) : ∀ (p r : Bool) (cc : Nat), (gen off e p r).kd = .flag cc → cc < 16 := by
  induction e with
  | lit v => exact nofun
  | var x => exact nofun
  | un o a ih =>
    intro p r cc h
    rw [gen] at h
    split at h
    · cases h
    · have h3 := (toReg_kd off p (gen off a p r)).2.2
      generalize toReg off p (gen off a p r) = g at *
      unfold genUn at h
      split at h
      · cases h
      · cases h
      · exact ih p r cc (h3 cc h)
      · rename_i k hk
        cases h
        have h1 := ih p r k (h3 k hk)
        exact Nat.xor_lt_two_pow (n := 4) h1 (by decide)
      · cases h; decide
      · exact ih p r cc (h3 cc h)
  | bin o a b iha ihb =>
    intro p r cc h
    rw [gen] at h
    split at h
    · split at h
      · cases h
      · rw [genLitL_kd] at h; exact binKd_flag o h
    · rw [genRhs_kd] at h; exact binKd_flag o h

theorem testCC_lt (e : E) : testCC off (gen off e false false) < 16 := by
  unfold testCC
  split
  · rename_i cc h
    exact gen_flag e false false cc ((toReg_kd off false _).2.2 cc h)
  · decide

/-! ## States between parts of statements -/

/-- What statements do not change. -/
def fz (s : S) : S := { core s with labels := .const ⟨0, 0⟩ 9, labelCount := 0, lastFixup := 0, dead := false, returnLabel := 0, scopes := .const 0 4 }

/-- A label that is placed or the target of a conditional jump. -/
def Own (j : Nat) (ys : List Item) : Prop := .lab j ∈ ys ∨ ∃ cc, .jcc cc j ∈ ys

structure Mv (l0 n k : Nat) (s : S) (ys : List Item) (s' : S) : Prop where
  fz : fz s' = fz s
  lo : s'.localOffset = s.localOffset
  scs : ∀ i < s.scopeCount, s'.scopes.get i = s.scopes.get i
  lab : s.labelCount ≤ s'.labelCount
  labM : s'.labelCount ≤ s.labelCount + k
  code : s'.code ≤ s.code + n
  rl : s'.returnLabel = s.returnLabel ∨ s.returnLabel = -1 ∧ (s.labelCount : Int) ≤ s'.returnLabel ∧ s'.returnLabel < s'.labelCount
  own : ∀ j, Own j ys → l0 ≤ j ∧ j < s'.labelCount ∧ (j : Int) ≠ s'.returnLabel
  fl : s.localOffset = 0 → s'.returnLabel = s.returnLabel

structure Rdy (off : Nat → Int) (G : Fns) (xs : List Nat) (s0 : Base) (a : Nat) (its : List Item) (ts : List Tk) (s : S) : Prop where
  on : On s0 s ts
  ids : ids s = ids s0
  loc : Locals off xs s
  sp : s.spAdj = 0
  push : s.push = false
  reg : s.regUse = false
  sw : s.switchCase < 0
  sc : 1 ≤ s.scopeCount
  rl : -1 ≤ s.returnLabel ∧ s.returnLabel < s.labelCount
  hist : Hist a its s
  funs : Funs G.A (G.F.filter (· ∉ xs)) s

section mv
variable {l0 n k : Nat} {s s1 s' : S} {ys : List Item}

theorem Own.append {j : Nat} {ys zs : List Item} (h : Own j (ys ++ zs)) : Own j ys ∨ Own j zs := by
  rcases h with h | ⟨cc, h⟩
  · exact (List.mem_append.1 h).imp .inl .inl
  · exact (List.mem_append.1 h).imp (fun h => .inr ⟨cc, h⟩) fun h => .inr ⟨cc, h⟩

theorem Mv.trans {l1 n' k' : Nat} {zs : List Item} (h : Mv l0 n k s ys s1) (h' : Mv l1 n' k' s1 zs s') (hl : l0 ≤ l1) : Mv l0 (n + n') (k + k') s (ys ++ zs) s' := by
  have hsc : s1.scopeCount = s.scopeCount := by have := congrArg S.scopeCount h.fz; exact this
  have h1 := h.labM; have h2 := h'.labM; have h3 := h.code; have h4 := h'.code; have h5 := h.lab; have h6 := h'.lab
  refine ⟨h'.fz.trans h.fz, h'.lo.trans h.lo, fun i hi => (h'.scs i (by rw [hsc]; exact hi)).trans (h.scs i hi), Nat.le_trans h5 h6, by omega, by omega, ?_, fun j hj => ?_,
    fun h0 => (h'.fl (h.lo.trans h0)).trans (h.fl h0)⟩
  · rcases h'.rl with e | ⟨e1, e2, e3⟩
    · rcases h.rl with d | ⟨d1, d2, d3⟩
      · exact .inl (e.trans d)
      · exact .inr ⟨d1, by omega, by omega⟩
    · rcases h.rl with d | ⟨d1, d2, d3⟩
      · exact .inr ⟨by omega, by omega, by omega⟩
      · exact .inr ⟨d1, by omega, by omega⟩
  · rcases hj.append with hj | hj
    · obtain ⟨a1, a2, a3⟩ := h.own j hj
      refine ⟨a1, by omega, ?_⟩
      rcases h'.rl with e | ⟨e1, e2, e3⟩ <;> omega
    · obtain ⟨a1, a2, a3⟩ := h'.own j hj
      exact ⟨by omega, a2, a3⟩

theorem Mv.le {n' k' : Nat} (h : Mv l0 n k s ys s') (hn : n ≤ n') (hk : k ≤ k') : Mv l0 n' k' s ys s' :=
  { h with labM := Nat.le_trans h.labM (by omega), code := Nat.le_trans h.code (by omega) }

theorem Mv.base {l1 : Nat} (h : Mv l0 n k s ys s') (hl : l1 ≤ l0) : Mv l1 n k s ys s' :=
  { h with own := fun j hj => ⟨Nat.le_trans hl (h.own j hj).1, (h.own j hj).2⟩ }

theorem Mv.lc (h : Mv l0 n 0 s ys s') : s'.labelCount = s.labelCount := Nat.le_antisymm h.labM h.lab

/-- A label that is not the label for `return` does not become it. -/
theorem Mv.nr (h : Mv l0 n k s ys s') {l : Nat} (hl : l < s.labelCount) (hr : (l : Int) ≠ s.returnLabel) : (l : Int) ≠ s'.returnLabel := by
  rcases h.rl with e | ⟨e1, e2, e3⟩ <;> omega

theorem Mv.same (h1 : SccStm.fz s' = SccStm.fz s) (h2 : s'.localOffset = s.localOffset) (h3 : s'.scopes = s.scopes) (h4 : s'.labelCount = s.labelCount) (h5 : s'.returnLabel = s.returnLabel)
    (h6 : s'.code ≤ s.code + n) (ho : ∀ j, Own j ys → l0 ≤ j ∧ j < s.labelCount ∧ (j : Int) ≠ s.returnLabel) : Mv l0 n 0 s ys s' :=
  ⟨h1, h2, fun i _ => by rw [h3], Nat.le_of_eq h4.symm, Nat.le_of_eq h4, h6, .inl h5, fun j hj => by rw [h4, h5]; exact ho j hj, fun _ => h5⟩

theorem Mv.bl (h : Mv l0 n k s ys s') : s'.breakLabel = s.breakLabel := by have := congrArg S.breakLabel h.fz; exact this
theorem Mv.cl (h : Mv l0 n k s ys s') : s'.contLabel = s.contLabel := by have := congrArg S.contLabel h.fz; exact this
theorem Mv.bs (h : Mv l0 n k s ys s') : s'.bStack = s.bStack := by have := congrArg S.bStack h.fz; exact this
theorem Mv.cs (h : Mv l0 n k s ys s') : s'.cStack = s.cStack := by have := congrArg S.cStack h.fz; exact this
theorem Mv.scc (h : Mv l0 n k s ys s') : s'.scopeCount = s.scopeCount := by have := congrArg S.scopeCount h.fz; exact this

theorem own_nil (j : Nat) : ¬Own j [] := by rintro (h | ⟨_, h⟩) <;> cases h
theorem own_raw {j : Nat} {bs : List Byte} : ¬Own j [.raw bs] := by rintro (h | ⟨_, h⟩) <;> simp at h
theorem own_pos {j p : Nat} {bs : List Byte} : ¬Own j [.pos p bs] := by rintro (h | ⟨_, h⟩) <;> simp at h
theorem own_jmp {j l : Nat} : ¬Own j [.jmp l] := by rintro (h | ⟨_, h⟩) <;> simp at h
theorem own_lab {j l : Nat} (h : Own j [.lab l]) : j = l := by rcases h with h | ⟨_, h⟩ <;> simp at h; exact h
theorem own_jcc {j l cc : Nat} (h : Own j [.jcc cc l]) : j = l := by rcases h with h | ⟨_, h⟩ <;> simp at h; exact h.2

end mv

section
variable {xs : List Nat} {s0 : Base} {a : Nat} {its : List Item} {ts : List Tk} {s s' : S}

theorem Rdy.of {ys : List Item} {l0 n k : Nat} {ts' : List Tk} (h : Rdy off G xs s0 a its ts s) (m : Mv l0 n k s ys s') (hon : On s0 s' ts') (hp : s'.push = false)
    (hr : s'.regUse = false) (hh : Hist a (ys.reverse ++ its) s') : Rdy off G xs s0 a (ys.reverse ++ its) ts' s' := by
  refine ⟨hon, ?_, ?_, ?_, hp, hr, ?_, by rw [m.scc]; exact h.sc, ?_, hh, ?_⟩
  · rw [← h.ids]
    show SccGen.ids (fz s') = SccGen.ids (fz s)
    rw [m.fz]
  · have h1 : s'.lookup = s.lookup := by have := congrArg S.lookup m.fz; exact this
    have h2 : s'.vars = s.vars := by have := congrArg S.vars m.fz; exact this
    intro x hx
    obtain ⟨a, b, v, c, d, e⟩ := h.loc x hx
    exact ⟨a, b, v, by rw [h1]; exact c, by rw [h2]; exact d, by rw [h2]; exact e⟩
  · have h1 : s'.spAdj = s.spAdj := by have := congrArg S.spAdj m.fz; exact this
    rw [h1]; exact h.sp
  · have h1 : s'.switchCase = s.switchCase := by have := congrArg S.switchCase m.fz; exact this
    rw [h1]; exact h.sw
  · have h1 := h.rl
    have h2 := m.lab
    rcases m.rl with e | ⟨e1, e2, e3⟩ <;> omega
  · exact h.funs.of (by have := congrArg S.lookup m.fz; exact this) (by have := congrArg S.vars m.fz; exact this)

theorem Rdy.ex0 (h : Rdy off G xs s0 a its ts s) (hd : s.dead = false) : Ex0 off xs s0 s :=
  ⟨⟨hd, h.sp⟩, h.push, h.reg, h.hist.zf, h.hist.ge, h.ids, h.loc⟩

theorem Rdy.live (h : Rdy off G xs s0 a its ts s) (hd : s.dead = false) : Live s := ⟨hd, h.sp, h.push⟩

/-! ## Steps -/

theorem Rdy.tok {t u : Tk} (h : Rdy off G xs s0 a its (t :: u :: ts) s) (l0 : Nat) :
    ∃ s', getToken s = .ok () s' ∧ Rdy off G xs s0 a its (u :: ts) s' ∧ Mv l0 0 0 s [] s' ∧ s'.dead = s.dead := by
  obtain ⟨s', e, on, tk⟩ := h.on.next' h.ids
  have m : Mv l0 0 0 s [] s' := by
    refine Mv.same ?_ ?_ ?_ ?_ ?_ ?_ fun j hj => absurd hj (own_nil j)
    · unfold fz; rw [tk.core]
    all_goals rw [tk]
    exact Nat.le_refl _
  have hd : s'.dead = s.dead := by rw [tk]
  refine ⟨s', e, h.of m on ?_ ?_ (h.hist.same ⟨?_, ?_, ?_, ?_, ?_⟩ ?_ hd), m, hd⟩
  · rw [tk]; exact h.push
  · rw [tk]; exact h.reg
  all_goals rw [tk]

theorem Rdy.expect {t u : Tk} (h : Rdy off G xs s0 a its (t :: u :: ts) s) (l0 : Nat) (n : Nat) (hn : t.tok = n) :
    ∃ s', Scc.expect n s = .ok () s' ∧ Rdy off G xs s0 a its (u :: ts) s' ∧ Mv l0 0 0 s [] s' ∧ s'.dead = s.dead := by
  obtain ⟨s', e, r⟩ := h.tok l0
  exact ⟨s', run_getS (run_pos (h.on.1.tok.trans hn) e), r⟩

theorem Rdy.semi {u : Tk} (h : Rdy off G xs s0 a its (.sym 0x3B precStop :: u :: ts) s) (l0 : Nat) :
    ∃ s', getSemicolon s = .ok () s' ∧ Rdy off G xs s0 a its (u :: ts) s' ∧ Mv l0 0 0 s [] s' ∧ s'.dead = s.dead := by
  obtain ⟨s', e, r⟩ := h.tok l0
  exact ⟨s', run_getS (run_neg (fun hh => hh h.on.1.tok) e), r⟩

/-- Labels that were not yet placed. -/
structure Free (l : Nat) (its : List Item) (s : S) : Prop where
  lt : l < s.labelCount
  nr : (l : Int) ≠ s.returnLabel
  nl : .lab l ∉ its

def NoJ (l : Nat) (its : List Item) : Prop := ∀ cc, .jcc cc l ∉ its

theorem Free.mv {l l0 n k : Nat} {ys : List Item} (h : Free l its s) (m : Mv l0 n k s ys s') (hy : .lab l ∉ ys) : Free l (ys.reverse ++ its) s' :=
  ⟨Nat.lt_of_lt_of_le h.lt m.lab, m.nr h.lt h.nr, by simp only [List.mem_append, List.mem_reverse]; exact fun hh => hh.elim hy h.nl⟩

theorem Free.own {l l0 n k : Nat} {ys : List Item} (h : Free l its s) (m : Mv l0 n k s ys s') (hl : l < l0) : Free l (ys.reverse ++ its) s' :=
  h.mv m fun hh => by have := (m.own l (.inl hh)).1; omega

theorem NoJ.mv {l : Nat} {ys : List Item} (h : NoJ l its) (hy : NoJ l ys) : NoJ l (ys.reverse ++ its) :=
  fun cc => by simp only [List.mem_append, List.mem_reverse]; exact fun hh => hh.elim (hy cc) (h cc)

theorem NoJ.own {l l0 n k : Nat} {ys : List Item} (h : NoJ l its) (m : Mv l0 n k s ys s') (hl : l < l0) : NoJ l (ys.reverse ++ its) :=
  h.mv fun cc hh => by have := (m.own l (.inr ⟨cc, hh⟩)).1; omega

theorem NoJ.bare {l : Nat} (h : NoJ l its) : bare l its = false := bare_of' (bare'_none h)

theorem Rdy.new (h : Rdy off G xs s0 a its ts s) (l0 : Nat) (hc : s.labelCount < labelMax) :
    ∃ s', makeLabel s = .ok s.labelCount s' ∧ Rdy off G xs s0 a its ts s' ∧ Mv l0 0 1 s [] s' ∧ s'.dead = s.dead ∧ s'.labelCount = s.labelCount + 1 ∧
      Free s.labelCount its s' ∧ NoJ s.labelCount its := by
  obtain ⟨e, hi⟩ := h.hist.new hc
  refine ⟨_, e, h.of (ys := []) (l0 := l0) (n := 0) (k := 1) ?m (h.on.of_tks rfl) h.push h.reg hi, ?m, rfl, rfl, ⟨Nat.lt_succ_self _, ?_, ?_⟩, ?_⟩
  case m =>
    exact ⟨rfl, rfl, fun _ _ => rfl, Nat.le_succ _, Nat.le_refl _, Nat.le_refl _, .inl rfl, fun j hj => absurd hj (own_nil j), fun _ => rfl⟩
  · have := h.rl.2
    show (s.labelCount : Int) ≠ s.returnLabel
    omega
  · exact fun hm => Nat.lt_irrefl _ (h.hist.lab_lt hm)
  · exact fun cc hm => Nat.lt_irrefl _ (h.hist.to_lt hm rfl)

/-- `EmitJmp`. -/
theorem Rdy.jmp (h : Rdy off G xs s0 a its ts s) (l0 : Nat) {l : Nat} (hl : l < s.labelCount) (hle : s.code + 3 ≤ codeStart + outputMax) :
    ∃ s', emitJmp l s = .ok () s' ∧ Rdy off G xs s0 a ((jmpU s.dead l).reverse ++ its) ts s' ∧ Mv l0 3 0 s (jmpU s.dead l) s' ∧ s'.dead = true := by
  cases hd : s.dead with
  | true =>
    have hs : { s with push := false } = s := by rw [← h.push]
    refine ⟨s, run_modS ?_, h, Mv.same rfl rfl rfl rfl rfl (Nat.le_add_right ..) fun j hj => absurd hj (own_nil j), hd⟩
    rw [hs]
    exact run_bind (a := true) (s1 := s) (run_getS (run_pos hd rfl)) rfl
  | false =>
    obtain ⟨m', n, t, e, hn, hi⟩ := h.hist.jmp hd h.sp hl hle
    refine ⟨_, e, h.of (ys := [.jmp l]) (l0 := l0) (n := 3) (k := 0) ?m (h.on.of_tks rfl) rfl h.reg hi, ?m, rfl⟩
    case m => exact Mv.same rfl rfl rfl rfl rfl (Nat.add_le_add_left hn _) fun j hj => absurd hj own_jmp

/-- `EmitLocalLabel`. -/
theorem Rdy.label (h : Rdy off G xs s0 a its ts s) {l l0 : Nat} (hf : Free l its s) (hl : l0 ≤ l) (hle : s.code + 2 ≤ codeStart + outputMax) (hb : bare l its = false) :
    ∃ s', emitLocalLabel l s = .ok () s' ∧ Rdy off G xs s0 a (.lab l :: its) ts s' ∧ Mv l0 0 0 s [.lab l] s' ∧ s'.dead = false := by
  obtain ⟨m', n, t, e, hn, hi⟩ := h.hist.label hf.lt hf.nl h.sp hle hb
  refine ⟨_, e, h.of (ys := [.lab l]) (l0 := l0) (n := 0) (k := 0) ?m (h.on.of_tks rfl) h.push h.reg hi, ?m, rfl⟩
  case m =>
    refine Mv.same rfl rfl rfl rfl rfl hn fun j hj => ?_
    rw [own_lab hj]
    exact ⟨hl, hf.lt, hf.nr⟩

/-- Code was emitted. -/
theorem Rdy.did {bs : List Byte} {ts' : List Tk} (h : Rdy off G xs s0 a its ts s) (hd : Did s bs s') (hon : On s0 s' ts') (hs : Starts bs)
    (hle : s.code + bs.length ≤ codeStart + outputMax) (l0 n : Nat) (hn : bs.length ≤ n) :
    Rdy off G xs s0 a (.raw bs :: its) ts' s' ∧ Mv l0 n 0 s [.raw bs] s' ∧ s'.dead = s.dead := by
  have m : Mv l0 n 0 s [.raw bs] s' := by
    refine Mv.same (by unfold fz; rw [hd.em.fr]) hd.lo ?_ ?_ ?_ (by rw [hd.em.code]; omega) fun j hj => absurd hj own_raw
    · have := congrArg S.scopes hd.em.fr; exact this
    · have := congrArg S.labelCount hd.em.fr; exact this
    · have := congrArg S.returnLabel hd.em.fr; exact this
  exact ⟨h.of m hon hd.push hd.reg (h.hist.em hd.em hs hd.zf hle), m, by have := congrArg S.dead hd.em.fr; exact this⟩

/-- Code was emitted that depends on its address. -/
theorem Rdy.didP {bs : List Byte} {ts' : List Tk} (h : Rdy off G xs s0 a its ts s) (hd : Did s bs s') (hon : On s0 s' ts') (hs : ∃ b t, bs = b :: t ∧ b ≠ 0xEB ∧ b ≠ 0x5D)
    (hle : s.code + bs.length ≤ codeStart + outputMax) (l0 n : Nat) (hn : bs.length ≤ n) :
    Rdy off G xs s0 a (.pos s.code bs :: its) ts' s' ∧ Mv l0 n 0 s [.pos s.code bs] s' ∧ s'.dead = s.dead := by
  have m : Mv l0 n 0 s [.pos s.code bs] s' := by
    refine Mv.same (by unfold fz; rw [hd.em.fr]) hd.lo ?_ ?_ ?_ (by rw [hd.em.code]; omega) fun j hj => absurd hj own_pos
    · have := congrArg S.scopes hd.em.fr; exact this
    · have := congrArg S.labelCount hd.em.fr; exact this
    · have := congrArg S.returnLabel hd.em.fr; exact this
  exact ⟨h.of m hon hd.push hd.reg (h.hist.emP hd.em hs hd.zf hle), m, by have := congrArg S.dead hd.em.fr; exact this⟩

theorem Rdy.did0 {ts' : List Tk} (h : Rdy off G xs s0 a its ts s) (hd : Did s [] s') (hon : On s0 s' ts') (hdead : s.dead = false) (l0 : Nat) :
    Rdy off G xs s0 a its ts' s' ∧ Mv l0 0 0 s [] s' ∧ s'.dead = s.dead := by
  have m : Mv l0 0 0 s [] s' := by
    refine Mv.same (by unfold fz; rw [hd.em.fr]) hd.lo ?_ ?_ ?_ (by rw [hd.em.code]; exact Nat.le_refl _) fun j hj => absurd hj (own_nil j)
    · have := congrArg S.scopes hd.em.fr; exact this
    · have := congrArg S.labelCount hd.em.fr; exact this
    · have := congrArg S.returnLabel hd.em.fr; exact this
  exact ⟨h.of m hon hd.push hd.reg (h.hist.em0 hd.em hdead hd.zf), m, by have := congrArg S.dead hd.em.fr; exact this⟩

/-- `EmitJcc`. -/
theorem Rdy.jcc (h : Rdy off G xs s0 a its ts s) (hd : s.dead = false) {cc l l0 : Nat} (hcc : cc < 16) (hl : l < s.labelCount) (hl0 : l0 ≤ l) (hr : (l : Int) ≠ s.returnLabel)
    (hle : s.code + 5 ≤ codeStart + outputMax) :
    ∃ s', emitJcc cc l s = .ok () s' ∧ Rdy off G xs s0 a (.jcc cc l :: its) ts s' ∧ Mv l0 5 0 s [.jcc cc l] s' ∧ s'.dead = false := by
  obtain ⟨m', n, t, e, hn, hi⟩ := h.hist.jcc (h.live hd) hcc hl hle
  refine ⟨_, e, h.of (ys := [.jcc cc l]) (l0 := l0) (n := 5) (k := 0) ?m (h.on.of_tks rfl) h.push h.reg hi, ?m, hd⟩
  case m =>
    refine Mv.same rfl rfl rfl rfl rfl (Nat.add_le_add_left hn _) fun j hj => ?_
    rw [own_jcc hj]
    exact ⟨hl0, hl, hr⟩

end

end SccStm
