import Verif.Props.SccStm
/-!
# Compiled statements (C49): what has been emitted

`Hist a its s`: the compiler, in the state `s`, has emitted the items `its` (last one first) from the address `a` on.  The lemmas say how the
functions of the code generator extend the list.
-/
namespace SccLayout
open Prog Scc SccFix SccJump SccGen

/-- Only bytes that are not yet part of the code change. -/
theorem Inv.below {a : Nat} {cs : List Chunk} {s s' : S} (h : Inv a cs s) (e1 : s'.code = s.code) (hb : Below s.out s'.out s.code) (e3 : s'.labels = s.labels)
    (e4 : s'.labelCount = s.labelCount) (e5 : s'.lastFixup = s.lastFixup) : Inv a cs s' := by
  have hfun : adr s' = adr s := funext fun l => by unfold adr; rw [e3]
  refine ⟨by rw [e1]; exact h.tile, h.ge, by rw [e1]; exact h.le, fun c hc => ?_, by rw [e4]; exact h.labs, fun c hc l hto => ?_, fun l hl h0 => ?_, by rw [e5]; exact h.fix,
    h.starts, h.jj, h.nz, by rw [e4]; exact h.count, by rw [e4, hfun]; exact h.has⟩
  · rw [hfun]
    exact (h.plain c hc).congr (h.eqv hb hc) fun _ _ => rfl
  · obtain ⟨h1, h2, h3⟩ := h.site c hc l hto
    rw [hfun, e4]
    exact ⟨h1, fun h0 => (h2 h0).congr (h.eqv hb hc), fun h0 => (h3 h0).congr (h.eqv hb hc) (fun _ _ => rfl) (fun _ _ => rfl) (fun x hx _ _ => hx) (fun _ _ _ hx => hx)⟩
  · rw [e4] at hl
    rw [hfun] at h0
    rw [e3]
    exact h.chain_keep hb h0 (h.chain l hl h0)

/-- A chunk without bytes is a label or a jump that was removed. -/
theorem Inv.zero {a : Nat} {cs : List Chunk} {s : S} (h : Inv a cs s) {z : Chunk} (hz : z ∈ cs) (h0 : z.len = 0) :
    (∃ l, z.item = .lab l) ∨ ∃ l, z.item = .jmp l := by
  obtain ⟨it, p, n⟩ := z
  have h0 : n = 0 := h0
  subst h0
  cases it with
  | raw bs =>
    obtain ⟨h1, h2, _⟩ := h.plain _ hz
    exact absurd (List.length_eq_zero_iff.1 h1.symm) h2
  | pos q bs =>
    obtain ⟨_, h1, ⟨b, t, rfl, _⟩, _⟩ := h.plain _ hz
    cases h1
  | lab l' => exact .inl ⟨l', rfl⟩
  | jmp l' => exact .inr ⟨l', rfl⟩
  | jcc cc l' =>
    exfalso
    obtain ⟨_, h2, h3⟩ := h.site _ hz l' rfl
    by_cases ha : adr s l' = 0
    · have := (h2 ha).1; omega
    · rcases (h3 ha).2 with ⟨h, _⟩ | ⟨h, _⟩ <;> omega

/-- A jump takes at most three bytes, a conditional jump five. -/
theorem Inv.len {a : Nat} {cs : List Chunk} {s : S} (h : Inv a cs s) {c : Chunk} (hc : c ∈ cs) :
    (∀ l, c.item = .jmp l → c.len ≤ 3) ∧ ∀ cc l, c.item = .jcc cc l → c.len ≤ 5 := by
  obtain ⟨it, p, n⟩ := c
  refine ⟨fun l e => ?_, fun cc l e => ?_⟩
  · cases e
    obtain ⟨_, h2, h3⟩ := h.site _ hc l rfl
    by_cases ha : adr s l = 0
    · have := (h2 ha).1; show n ≤ 3; omega
    · show n ≤ 3
      rcases (h3 ha) with ⟨h, _⟩ | ⟨h, _⟩ | ⟨h, _⟩ <;> omega
  · cases e
    obtain ⟨_, h2, h3⟩ := h.site _ hc l rfl
    by_cases ha : adr s l = 0
    · have := (h2 ha).1; show n ≤ 5; omega
    · show n ≤ 5
      rcases (h3 ha).2 with ⟨h, _⟩ | ⟨h, _⟩ <;> omega

end SccLayout

namespace SccStm
open Prog Scc SccCode SccGen SccLayout SccFix SccJump

/-! ## Conditional jumps that are not yet followed by code -/

/-- The last item apart from labels and jumps is a conditional jump to `l`. -/
def bare' (l : Nat) : List Item → Bool
  | .jcc _ l' :: _ => decide (l' = l)
  | .lab _ :: its | .jmp _ :: its => bare' l its
  | _ => false

/-- The same, but there is no jump at the end. -/
def bare (l : Nat) : List Item → Bool
  | .jmp _ :: _ => false
  | its => bare' l its

theorem bare_of' {l : Nat} {its : List Item} (h : bare' l its = false) : bare l its = false := by
  cases its with
  | nil => exact h
  | cons x its => cases x <;> first | exact h | rfl

theorem bare'_none {l : Nat} {its : List Item} (h : ∀ cc, .jcc cc l ∉ its) : bare' l its = false := by
  induction its with
  | nil => rfl
  | cons x its ih =>
    have h' := ih fun cc hm => h cc (List.mem_cons_of_mem _ hm)
    cases x with
    | raw bs => rfl
    | pos q bs => rfl
    | jmp l' => exact h'
    | lab l' => exact h'
    | jcc cc l' => exact decide_eq_false fun e => h cc (by rw [e]; exact List.mem_cons_self ..)

theorem bare'_code {l : Nat} {zs its : List Item} (h : ∀ cc, .jcc cc l ∉ zs) (hr : ∃ bs, .raw bs ∈ zs ∨ ∃ p, .pos p bs ∈ zs) : bare' l (zs ++ its) = false := by
  obtain ⟨bs, hr⟩ := hr
  induction zs with
  | nil => rcases hr with hr | ⟨_, hr⟩ <;> cases hr
  | cons x zs ih =>
    have h' := ih fun cc hm => h cc (List.mem_cons_of_mem _ hm)
    cases x with
    | raw bs => rfl
    | pos q bs => rfl
    | jmp l' => exact h' (by simpa using hr)
    | lab l' => exact h' (by simpa using hr)
    | jcc cc l' => exact decide_eq_false fun e => h cc (by rw [e]; exact List.mem_cons_self ..)

theorem bare'_zeros {zs : List Item} {cc l : Nat} {pre : List Item} (h : ∀ z ∈ zs, (∃ l', z = .lab l') ∨ ∃ l', z = .jmp l') :
    bare' l (zs ++ .jcc cc l :: pre) = true := by
  induction zs with
  | nil => exact decide_eq_true rfl
  | cons z zs ih =>
    have := ih fun x hx => h x (List.mem_cons_of_mem _ hx)
    rcases h z (List.mem_cons_self ..) with ⟨l', rfl⟩ | ⟨l', rfl⟩ <;> exact this

/-! ## The history -/

structure HistC (a : Nat) (cs : List Chunk) (s : S) : Prop where
  inv : Inv a cs s
  zf : s.lastZF ≤ s.code
  zfj : ∀ c pre l, cs = c :: pre → c.item = .jmp l → s.lastZF ≤ c.pos
  live : s.dead = false → afterJmp (cs.map Chunk.item) = false

def Hist (a : Nat) (its : List Item) (s : S) : Prop := ∃ cs, HistC a cs s ∧ cs.map Chunk.item = its

theorem Hist.zf {a : Nat} {its : List Item} {s : S} (h : Hist a its s) : s.lastZF ≤ s.code := by
  obtain ⟨_, h, _⟩ := h; exact h.zf

theorem Hist.ge {a : Nat} {its : List Item} {s : S} (h : Hist a its s) : codeStart ≤ s.code := by
  obtain ⟨_, h, _⟩ := h
  exact Nat.le_trans h.inv.ge h.inv.tile.le

theorem Hist.count {a : Nat} {its : List Item} {s : S} (h : Hist a its s) : s.labelCount ≤ labelMax := by
  obtain ⟨_, h, _⟩ := h; exact h.inv.count

theorem Hist.room {a : Nat} {its : List Item} {s : S} (h : Hist a its s) {n : Nat} (hn : s.code + n ≤ codeStart + outputMax) : Room s n := by
  have := h.ge
  unfold Room
  generalize codeStart = y, outputMax = z at *
  omega

theorem Hist.to_lt {a : Nat} {its : List Item} {s : S} (h : Hist a its s) {it : Item} (hm : it ∈ its) {l : Nat} (ht : it.to = some l) : l < s.labelCount := by
  obtain ⟨cs, h, rfl⟩ := h
  obtain ⟨c, hc, rfl⟩ := List.mem_map.1 hm
  exact (h.inv.site c hc l ht).1

theorem Hist.lab_lt {a : Nat} {its : List Item} {s : S} (h : Hist a its s) {l : Nat} (hm : .lab l ∈ its) : l < s.labelCount := by
  obtain ⟨cs, h, rfl⟩ := h
  obtain ⟨c, hc, e⟩ := List.mem_map.1 hm
  exact h.inv.labs c hc l e

/-- A label that is not among the items has no address. -/
theorem HistC.unplaced {a : Nat} {cs : List Chunk} {s : S} (h : HistC a cs s) {l : Nat} (hl : l < s.labelCount) (hn : .lab l ∉ cs.map Chunk.item) : adr s l = 0 := by
  by_cases h0 : adr s l = 0
  · exact h0
  · exact absurd (List.mem_map.2 ⟨_, h.inv.has l hl h0, rfl⟩) hn

/-- Code was emitted. -/
theorem Hist.em {a : Nat} {its : List Item} {s s' : S} {bs : List Byte} (h : Hist a its s) (he : Em s bs s') (hst : Starts bs) (hz : s'.lastZF ≤ s'.code)
    (hle : s.code + bs.length ≤ codeStart + outputMax) : Hist a (.raw bs :: its) s' := by
  obtain ⟨cs, h, rfl⟩ := h
  have hbs : bs ≠ [] := by obtain ⟨b, t, rfl, _⟩ := hst; simp
  have e1 : s'.labels = s.labels := by have h := congrArg S.labels he.fr; exact h
  have e2 : s'.labelCount = s.labelCount := by have h := congrArg S.labelCount he.fr; exact h
  have e3 : s'.lastFixup = s.lastFixup := by have h := congrArg S.lastFixup he.fr; exact h
  have hb : Below s.out s'.out s.code := by
    intro x hx hlt
    show s'.out.get (x - codeStart) = s.out.get (x - codeStart)
    refine he.old _ ?_
    have := hx.1
    generalize codeStart = y at *
    omega
  refine ⟨⟨.raw bs, s.code, bs.length⟩ :: cs, ⟨h.inv.push rfl he.code (by rw [he.code]; exact hle) hb (fun l => by unfold adr; rw [e1]) e2 e3 (fun _ e => by cases e)
    ⟨rfl, hbs, fun i hi => he.new i hi⟩ (fun _ e => by cases e) (fun l hl h0 => ?_) (fun bs' e _ => by cases e; exact hst) (fun _ e => by cases e), hz, ?_, fun _ => rfl⟩, rfl⟩
  · rw [e1]
    exact h.inv.chain_keep hb h0 (h.inv.chain l hl h0)
  · intro c pre l e1 e2
    cases e1
    cases e2

/-- Code was emitted that depends on its address. -/
theorem Hist.emP {a : Nat} {its : List Item} {s s' : S} {bs : List Byte} (h : Hist a its s) (he : Em s bs s') (hst : ∃ b t, bs = b :: t ∧ b ≠ 0xEB ∧ b ≠ 0x5D) (hz : s'.lastZF ≤ s'.code)
    (hle : s.code + bs.length ≤ codeStart + outputMax) : Hist a (.pos s.code bs :: its) s' := by
  obtain ⟨cs, h, rfl⟩ := h
  have e1 : s'.labels = s.labels := by have h := congrArg S.labels he.fr; exact h
  have e2 : s'.labelCount = s.labelCount := by have h := congrArg S.labelCount he.fr; exact h
  have e3 : s'.lastFixup = s.lastFixup := by have h := congrArg S.lastFixup he.fr; exact h
  have hb : Below s.out s'.out s.code := by
    intro x hx hlt
    show s'.out.get (x - codeStart) = s.out.get (x - codeStart)
    refine he.old _ ?_
    have := hx.1
    generalize codeStart = y at *
    omega
  refine ⟨⟨.pos s.code bs, s.code, bs.length⟩ :: cs, ⟨h.inv.push rfl he.code (by rw [he.code]; exact hle) hb (fun l => by unfold adr; rw [e1]) e2 e3 (fun _ e => by cases e)
    ⟨rfl, rfl, hst, fun i hi => he.new i hi⟩ (fun _ e => by cases e) (fun l hl h0 => ?_) (fun _ e _ => by cases e) (fun _ e => by cases e), hz, ?_, fun _ => rfl⟩, rfl⟩
  · rw [e1]
    exact h.inv.chain_keep hb h0 (h.inv.chain l hl h0)
  · intro c pre l e1 e2
    cases e1
    cases e2

/-- An expression was read and no code emitted. -/
theorem Hist.em0 {a : Nat} {its : List Item} {s s' : S} (h : Hist a its s) (he : Em s [] s') (hd : s.dead = false) (hz : s'.lastZF ≤ s'.code) : Hist a its s' := by
  obtain ⟨cs, h, rfl⟩ := h
  have e1 : s'.labels = s.labels := by have h := congrArg S.labels he.fr; exact h
  have e2 : s'.labelCount = s.labelCount := by have h := congrArg S.labelCount he.fr; exact h
  have e3 : s'.lastFixup = s.lastFixup := by have h := congrArg S.lastFixup he.fr; exact h
  have hb : Below s.out s'.out s.code := by
    intro x hx hlt
    show s'.out.get (x - codeStart) = s.out.get (x - codeStart)
    refine he.old _ ?_
    have := hx.1
    generalize codeStart = y at *
    omega
  refine ⟨cs, ⟨h.inv.below (by rw [he.code]; rfl) hb e1 e2 e3, hz, fun c pre l ec ej => ?_, fun _ => h.live hd⟩, rfl⟩
  have := h.live hd
  rw [ec, List.map_cons, ej] at this
  cases this

/-- Nothing was emitted. -/
theorem Hist.same {a : Nat} {its : List Item} {s s' : S} (h : Hist a its s) (he : Same s s') (hz : s'.lastZF = s.lastZF) (hd : s'.dead = s.dead) : Hist a its s' := by
  obtain ⟨cs, h, rfl⟩ := h
  exact ⟨cs, ⟨h.inv.same he, by rw [hz, he.1]; exact h.zf, by rw [hz]; exact h.zfj, by rw [hd]; exact h.live⟩, rfl⟩

/-- `EmitJmp`. -/
theorem Hist.jmp {a : Nat} {its : List Item} {s : S} (h : Hist a its s) (hd : s.dead = false) (hsp : s.spAdj = 0) {l : Nat} (hl : l < s.labelCount)
    (hle : s.code + 3 ≤ codeStart + outputMax) :
    ∃ m' n t, emitJmp l s = .ok () { s with push := false, dead := true, out := m', code := s.code + n, labels := t } ∧ n ≤ 3 ∧
      Hist a (.jmp l :: its) { s with push := false, dead := true, out := m', code := s.code + n, labels := t } := by
  have hr := h.room hle
  obtain ⟨cs, h, rfl⟩ := h
  obtain ⟨m', n, t, e, hi⟩ := h.inv.jmp hd hsp hl (h.live hd) hr
  refine ⟨m', n, t, e, (hi.len (List.mem_cons_self ..)).1 l rfl, ⟨.jmp l, s.code, n⟩ :: cs, ⟨hi, ?_, fun c pre l' e1 e2 => ?_, fun e => by cases e⟩, rfl⟩
  · exact Nat.le_trans h.zf (Nat.le_add_right ..)
  · cases e1
    exact h.zf

/-- `EmitJcc`. -/
theorem Hist.jcc {a : Nat} {its : List Item} {s : S} (h : Hist a its s) (hlv : Live s) {cc l : Nat} (hcc : cc < 16) (hl : l < s.labelCount)
    (hle : s.code + 5 ≤ codeStart + outputMax) :
    ∃ m' n t, emitJcc cc l s = .ok () { s with out := m', code := s.code + n, labels := t } ∧ n ≤ 5 ∧
      Hist a (.jcc cc l :: its) { s with out := m', code := s.code + n, labels := t } := by
  have hr := h.room hle
  obtain ⟨cs, h, rfl⟩ := h
  obtain ⟨m', n, t, e, hi⟩ := h.inv.jcc hlv hcc hl hr
  refine ⟨m', n, t, e, (hi.len (List.mem_cons_self ..)).2 cc l rfl, ⟨.jcc cc l, s.code, n⟩ :: cs, ⟨hi, ?_, fun c pre l' e1 e2 => ?_, fun _ => rfl⟩, rfl⟩
  · exact Nat.le_trans h.zf (Nat.le_add_right ..)
  · cases e1
    cases e2

/-- `MakeLabel`. -/
theorem Hist.new {a : Nat} {its : List Item} {s : S} (h : Hist a its s) (hc : s.labelCount < labelMax) :
    makeLabel s = .ok s.labelCount { s with labels := s.labels.set s.labelCount ⟨0, 0⟩, labelCount := s.labelCount + 1 } ∧
      Hist a its { s with labels := s.labels.set s.labelCount ⟨0, 0⟩, labelCount := s.labelCount + 1 } := by
  obtain ⟨cs, h, rfl⟩ := h
  obtain ⟨e, hi⟩ := h.inv.new hc
  exact ⟨e, cs, ⟨hi, h.zf, h.zfj, h.live⟩, rfl⟩

/-- `EmitLocalLabel`. -/
theorem Hist.label {a : Nat} {its : List Item} {s : S} (h : Hist a its s) {l : Nat} (hl : l < s.labelCount) (hn : .lab l ∉ its) (hsp : s.spAdj = 0)
    (hle : s.code + 2 ≤ codeStart + outputMax) (hb : bare l its = false) :
    ∃ m' e t, emitLocalLabel l s = .ok () { s with dead := false, out := m', code := e, lastFixup := e, labels := t } ∧ e ≤ s.code ∧
      Hist a (.lab l :: its) { s with dead := false, out := m', code := e, lastFixup := e, labels := t } := by
  have hge := h.ge
  obtain ⟨cs, h, rfl⟩ := h
  have hroom : In (s.code + 1) := by
    unfold In
    generalize codeStart = y, outputMax = z at *
    omega
  obtain ⟨m', e, cs', em, hi, hcs, he⟩ := h.inv.label hl (h.unplaced hl hn) hsp hroom fun c hc cc hj hce => by
    exfalso
    obtain ⟨zs, pre, rfl, hz⟩ := h.inv.tile.last hc hce
    have hzs : ∀ z ∈ zs.map Chunk.item, (∃ l', z = .lab l') ∨ ∃ l', z = .jmp l' := fun z hzm => by
      obtain ⟨c', hc', rfl⟩ := List.mem_map.1 hzm
      exact h.inv.zero (List.mem_append_left _ hc') (hz c' hc').1
    have h1 : bare' l ((zs ++ c :: pre).map Chunk.item) = true := by
      rw [List.map_append, List.map_cons, hj]
      exact bare'_zeros hzs
    cases zs with
    | nil =>
      rw [List.nil_append, List.map_cons, hj] at hb h1
      exact absurd (h1.symm.trans hb) (by decide)
    | cons z zs =>
      rcases hzs _ (List.mem_cons_self ..) with ⟨l', e⟩ | ⟨l', e⟩
      · rw [List.cons_append, List.map_cons, e] at hb h1
        exact absurd (h1.symm.trans hb) (by decide)
      · exact h.inv.nz z _ l' rfl e (hz z (List.mem_cons_self ..)).1
  refine ⟨m', e, _, em, ?_, cs', ⟨hi, ?_, fun c pre l' e1 e2 => ?_, fun _ => by rw [hcs]; rfl⟩, hcs⟩
  · rcases he with rfl | ⟨c, pre, rfl, _, rfl⟩
    · exact Nat.le_refl _
    · have := (h.inv.tile.mem (List.mem_cons_self ..)).2
      omega
  · rcases he with rfl | ⟨c, pre, rfl, hj, rfl⟩
    · exact h.zf
    · exact h.zfj c pre l rfl hj
  · rw [e1, List.map_cons, e2] at hcs
    cases hcs

/-! ## Code begins with an instruction -/

def Ld (bs : List Byte) : Prop := ∃ t, bs = 0x8B :: t

theorem Ld.app {as : List Byte} (h : Ld as) (bs : List Byte) : Ld (as ++ bs) := by
  obtain ⟨t, rfl⟩ := h
  exact ⟨t ++ bs, rfl⟩

theorem Ld.starts {bs : List Byte} (h : Ld bs) : Starts bs := by
  obtain ⟨t, rfl⟩ := h
  exact ⟨_, t, rfl, by decide, fun e => absurd e (by decide)⟩

variable (off : Nat → Int)

theorem Ld.mod (v : Int) : Ld (modB 0x8B 0 v) := by
  unfold modB
  split
  · exact ⟨_, rfl⟩
  · exact ⟨_, rfl⟩

theorem toReg_app (g : G) : ∃ bs, (toReg off false g).bs = g.bs ++ bs := by
  unfold toReg
  split
  · exact ⟨_, by rw [List.append_assoc]⟩
  · exact ⟨[], by simp⟩

theorem toVal_app (g : G) : ∃ bs, (toVal off false g).bs = (toReg off false g).bs ++ bs := by
  unfold toVal
  split
  · exact ⟨_, rfl⟩
  · exact ⟨[], by simp⟩

theorem Ld.reg {g : G} (h : Ld g.bs) : Ld (toReg off false g).bs := by
  obtain ⟨bs, e⟩ := toReg_app off g
  rw [e]; exact h.app _

theorem Ld.val {g : G} (h : Ld (toReg off false g).bs) : Ld (toVal off false g).bs := by
  obtain ⟨bs, e⟩ := toVal_app off g
  rw [e]; exact h.app _

theorem Ld.un (o : UOp) {g : G} (h : Ld g.bs) : Ld (genUn o g).bs := by
  unfold genUn
  split
  · exact h.app _
  · exact h.app _
  · exact h
  · exact h
  · exact h.app _
  · exact h

theorem Ld.litL (o : BOp) (x : Int) {g : G} (h : Ld g.bs) : Ld (genLitL o x g).bs := by
  unfold genLitL
  split <;> exact h.app _

theorem Ld.rhs (o : BOp) {as : List Byte} (r : Bool) (g : G) (h : Ld as) : Ld (genRhs off o as r g).bs := by
  unfold genRhs
  split
  · exact h.app _
  · exact h.app _
  · exact (h.app _).app _

/-- The code for an expression that is not constant begins with loading a variable. -/
theorem gen_ld {e : E} (hs : Stat e) (hc : cst e = none) : ∀ r, Ld (toReg off false (gen off e false r)).bs := by
  induction e with
  | lit v => cases hc
  | var x => exact fun r => Ld.mod _
  | un o a ih =>
    intro r
    have ha : cst a = none := by
      cases h : cst a with
      | none => rfl
      | some x => rw [cst, h] at hc; cases hc
    refine Ld.reg off ?_
    rw [gen, ha]
    exact Ld.un o (ih hs.1 ha r)
  | bin o a b iha ihb =>
    intro r
    refine Ld.reg off ?_
    cases ha : cst a with
    | none =>
      rw [gen, ha]
      exact Ld.rhs off o _ _ (Ld.val off (iha hs.1 ha r))
    | some x =>
      cases hb : cst b with
      | none =>
        rw [gen, ha]
        simp only [hb]
        exact Ld.litL o x (Ld.val off (ihb hs.2.1 hb r))
      | some y =>
        have := hs.2.2 x y ha hb
        rw [cst, ha, hb] at hc
        simp only at hc
        rw [hc] at this
        cases this

theorem test_starts {e : E} (hs : Stat e) (hc : cst e = none) : Starts (testB off (gen off e false false)) := by
  have := gen_ld off hs hc false
  unfold testB
  split
  · exact (this.app _).starts
  · exact this.starts

theorem val_starts {e : E} (hs : Stat e) : Starts (valB off (gen off e false false)) := by
  cases hc : cst e with
  | none =>
    have hv := Ld.val off (gen_ld off hs hc false)
    have hk := (gen_kd off e false false hs).1 hc
    unfold valB
    split
    · rename_i v h
      exact absurd h (hk v)
    · exact hv.starts
  | some y =>
    obtain ⟨h, _⟩ := gen_cst off e false false y hs hc
    rw [h, valB]
    simp only [List.nil_append]
    split
    · exact ⟨_, _, rfl, by decide, fun e => absurd e (by decide)⟩
    · exact ⟨_, _, rfl, by decide, fun e => absurd e (by decide)⟩

theorem set_starts (x : Nat) {e : E} (hs : Stat e) : Starts (setB off x e) := by
  cases hc : cst e with
  | none =>
    have hv := Ld.val off (gen_ld off hs hc false)
    have hk := (gen_kd off e false false hs).1 hc
    unfold setB
    split
    · rename_i v h
      exact absurd h (hk v)
    · exact (hv.app _).starts
  | some y =>
    obtain ⟨h, _⟩ := gen_cst off e false false y hs hc
    unfold setB
    rw [h]
    simp only [List.nil_append]
    unfold modB
    split
    · exact ⟨_, _, rfl, by decide, fun e => absurd e (by decide)⟩
    · exact ⟨_, _, rfl, by decide, fun e => absurd e (by decide)⟩

theorem alu_starts {o : BOp} {i k : Nat} (hi : o.alu false = some (i, k)) (x : Nat) {e : E} (hs : Stat e) : Starts (aluB off i x e) := by
  cases hc : cst e with
  | none =>
    have hv := Ld.val off (gen_ld off hs hc false)
    have hk := (gen_kd off e false false hs).1 hc
    unfold aluB
    split
    · rename_i v h
      exact absurd h (hk v)
    · exact (hv.app _).starts
  | some y =>
    obtain ⟨h, _⟩ := gen_cst off e false false y hs hc
    unfold aluB
    rw [h]
    simp only [List.nil_append]
    unfold modB
    split
    · exact ⟨_, _, rfl, by decide, fun e => absurd e (by decide)⟩
    · exact ⟨_, _, rfl, by decide, fun e => absurd e (by decide)⟩

theorem oth_starts (o : BOp) (x : Nat) {e : E} (hs : Stat e) : Starts (othB off o x e) := by
  cases hc : cst e with
  | none =>
    have hv := gen_ld off hs hc false
    have hk := (gen_kd off e false false hs).1 hc
    unfold othB
    split
    · rename_i v h
      exact absurd h (hk v)
    · exact ((((hv.app _).app _).app _).app _).starts
  | some y =>
    obtain ⟨h, _⟩ := gen_cst off e false false y hs hc
    unfold othB
    rw [h]
    exact (((Ld.mod _).app _).app _).starts

theorem asgn_alu {o : BOp} {p : Nat × Nat} (hi : o.alu false = some p) (x : Nat) (e : E) : asgnB off (.op o) x e = aluB off p.1 x e := by simp only [asgnB, hi]

theorem asgn_oth {o : BOp} (hi : o.alu false = none) (x : Nat) (e : E) : asgnB off (.op o) x e = othB off o x e := by simp only [asgnB, hi]

theorem asgn_starts (k : As) (x : Nat) {e : E} (hs : Stat e) : Starts (asgnB off k x e) := by
  cases k with
  | set => exact set_starts off x hs
  | op o =>
    cases hi : o.alu false with
    | some p => rw [asgn_alu off hi]; exact alu_starts off hi x hs
    | none => rw [asgn_oth off hi]; exact oth_starts off o x hs
  | inc d post =>
    cases post with
    | true => exact ((Ld.mod _).app _).starts
    | false =>
      show Starts (modB 0xFF (if d then 1 else 0) (off x))
      unfold modB
      split
      · exact ⟨_, _, rfl, by decide, fun e => absurd e (by decide)⟩
      · exact ⟨_, _, rfl, by decide, fun e => absurd e (by decide)⟩

theorem fin_starts : Starts [0x5D, 0xC3] := ⟨_, _, rfl, by decide, fun _ => ⟨_, rfl⟩⟩

end SccStm
