import Verif.Sas.Model
import Mathlib.Data.List.Basic
/-!
# Labels and fixups of the assembler: the invariant (for C20 and C21)
-/
namespace Props.SasFix
open Sas I86 Prog

/-- The list of nodes from `p` on. -/
inductive Chain (fx : Nat → Fixup) : Option Nat → List Nat → Prop
  | nil : Chain fx none []
  | cons {f : Nat} {l : List Nat} : Chain fx (fx f).next l → Chain fx (some f) (f :: l)

/-- A label that is used but has no address yet. -/
def Pend (s : S) (i : Nat) : Prop := (s.labels i).ty = .normal ∧ (s.labels i).val = -1

/-- `t` is the sum of the addresses of the given labels. -/
inductive SumD (defs : List (Nat × Int)) : List Nat → Int → Prop
  | nil : SumD defs [] 0
  | cons {k : Nat} {v : Int} {l : List Nat} {t : Int} : (k, v) ∈ defs → SumD defs l t → SumD defs (k :: l) (v + t)

/-- A word of the image, low byte first. -/
def wordAt (out : Array Byte) (k : Nat) : BitVec 16 := byteAt out (k + 1) ++ byteAt out k

/-- The number of bytes of an emitted operand. -/
def RefK.size : RefK → Nat
  | .abs16 => 2
  | .abs8 => 1
  | .rel16 => 2
  | .rel8 => 1

/-- The emitted operand has the value `v`: a 16-bit word holds it modulo 2^16, a byte displacement is it after sign extension,
a branch leads to it when added to the address behind the field (modulo 2^16 for a word, modulo 2^8 for a byte). -/
def Holds (out : Array Byte) (r : Ref) (v : Int) : Prop :=
  match r.kind with
  | .abs16 => wordAt out r.off = BitVec.ofInt 16 v
  | .abs8 => (byteAt out r.off).signExtend 16 = BitVec.ofInt 16 v
  | .rel16 => wordAt out r.off = BitVec.ofInt 16 (v - (r.va + 2))
  | .rel8 => byteAt out r.off = BitVec.ofInt 8 (v - (r.va + 1))

/-- The kind of emitted operand that a fixup is for. -/
def kindOf : FixT → RefK
  | .rel8 => .rel8
  | .rel16 => .rel16
  | .disp16 => .abs16

/-- The invariant, for given chains. -/
structure InvC (s : S) (free : List Nat) (ch : Nat → List Nat) : Prop where
  cfree : Chain s.fixups s.nextFixup free
  chain : ∀ i, Pend s i → Chain s.fixups (s.labels i).fix (ch i)
  empty : ∀ i, ¬ Pend s i → ch i = []
  ndF : free.Nodup
  ndC : ∀ i, (ch i).Nodup
  disFC : ∀ i n, n ∈ free → n ∉ ch i
  disCC : ∀ i j n, i ≠ j → n ∈ ch i → n ∉ ch j
  ltF : ∀ n ∈ free, n < 600
  ltC : ∀ i n, n ∈ ch i → n < 600
  total : s.gDropped = false → ∀ n < 600, n ∈ free ∨ ∃ i, n ∈ ch i
  refs : ∀ i, Pend s i → (ch i).map (fun n => (kindOf (s.fixups n).ty, (s.fixups n).off)) =
    (s.gRefs.filter fun r => r.pend == some (s.labels i).gInst).map fun r => (r.kind, r.off)
  layout : s.gRefs.Pairwise fun r o => o.off + RefK.size o.kind ≤ r.off
  inOut : ∀ r ∈ s.gRefs, r.off + RefK.size r.kind ≤ s.out.size
  instLt : ∀ i, (s.labels i).ty = .normal → (s.labels i).gInst < s.gNext
  defLt : ∀ k v, (k, v) ∈ s.gDefs → k < s.gNext
  instInj : ∀ i j, (s.labels i).ty = .normal → (s.labels j).ty = .normal → (s.labels i).gInst = (s.labels j).gInst → i = j
  defUniq : ∀ k v v', (k, v) ∈ s.gDefs → (k, v') ∈ s.gDefs → v = v'
  defd : ∀ i, (s.labels i).ty = .normal → (s.labels i).val ≠ -1 → ((s.labels i).gInst, (s.labels i).val) ∈ s.gDefs
  undef : ∀ i, Pend s i → ∀ v, ((s.labels i).gInst, v) ∉ s.gDefs
  abs8 : ∀ r ∈ s.gRefs, r.kind = .abs8 → r.pend = none
  pendLt : ∀ r ∈ s.gRefs, ∀ k, r.pend = some k → k < s.gNext
  val : ∀ r ∈ s.gRefs,
    (r.pend = none ∧ ∃ t, SumD s.gDefs r.labs t ∧ Holds s.out r (r.addend + t)) ∨
    (∃ k l t, r.pend = some k ∧ r.labs = k :: l ∧ SumD s.gDefs l t ∧
      (((∀ v, (k, v) ∉ s.gDefs) ∧ Holds s.out r (r.addend + t)) ∨ (∃ v, (k, v) ∈ s.gDefs ∧ Holds s.out r (r.addend + t + v))))

/-- The invariant. -/
def Inv (s : S) : Prop := ∃ free ch, InvC s free ch

/-- Some label was defined at address -1, which the program takes for "no address yet". -/
def M1 (s : S) : Prop := ∃ d ∈ s.gDefs, d.2 = -1

/-- An operand agrees with the labels. -/
def OpOk (s : S) (o : Operand) : Prop :=
  (o.fixup = none ∧ ∃ t, SumD s.gDefs o.gLabs t ∧ o.disp = o.gAddend + t) ∨
  (∃ i l t, o.fixup = some i ∧ Pend s i ∧ o.gLabs = (s.labels i).gInst :: l ∧ SumD s.gDefs l t ∧ o.disp = o.gAddend + t ∧
    (o.ty = .lit → o.disp = 0))

/-! ## Basic facts -/

theorem Chain.congr {fx fx' : Nat → Fixup} {p : Option Nat} {l : List Nat} (h : Chain fx p l)
    (e : ∀ n ∈ l, (fx' n).next = (fx n).next) : Chain fx' p l := by
  induction h with
  | nil => exact .nil
  | @cons f l _ ih =>
    refine .cons ?_
    rw [e f (by simp)]
    exact ih fun n hn => e n (by simp [hn])

theorem Chain.none_eq {fx : Nat → Fixup} {l : List Nat} (h : Chain fx none l) : l = [] := by cases h; rfl

theorem Chain.some_eq {fx : Nat → Fixup} {f : Nat} {l : List Nat} (h : Chain fx (some f) l) :
    ∃ l', l = f :: l' ∧ Chain fx (fx f).next l' := by cases h with | cons h => exact ⟨_, rfl, h⟩

/-- Linking one chain behind another. -/
theorem Chain.link {fx : Nat → Fixup} {q : Option Nat} {m : List Nat} (hq : Chain fx q m) :
    ∀ {f : Nat} {l : List Nat} {last : Nat}, Chain fx (some f) l → l.getLast? = some last → l.Nodup → (∀ n ∈ l, n ∉ m) →
    Chain (upd fx last { fx last with next := q }) (some f) (l ++ m) := by
  intro f l last h0
  obtain ⟨l, rfl, h⟩ := h0.some_eq
  clear h0
  induction l generalizing f with
  | nil =>
    intro hl nd hd
    simp only [List.getLast?_singleton, Option.some.injEq] at hl
    subst hl
    refine .cons ?_
    have e : (upd fx f { fx f with next := q } f).next = q := by simp [upd]
    rw [e]
    refine hq.congr ?_
    intro n hn
    have : n ≠ f := fun e => hd f (by simp) (e ▸ hn)
    simp only [upd, if_neg this]
  | cons g l ih =>
    intro hl nd hd
    rw [List.getLast?_cons_cons] at hl
    have hfl : f ≠ last := by
      have := List.mem_of_mem_getLast? (Option.mem_def.mpr hl)
      rintro rfl
      exact (List.nodup_cons.mp nd).1 this
    cases hg : (fx f).next with
    | none => rw [hg] at h; cases h
    | some g' =>
      rw [hg] at h
      obtain ⟨l', e, h'⟩ := h.some_eq
      obtain ⟨rfl, rfl⟩ := List.cons.inj e
      have := ih h' hl (List.nodup_cons.mp nd).2 fun n hn => hd n (by simp [hn])
      refine .cons ?_
      simp only [upd, if_neg hfl, hg]
      exact this

theorem SumD.mono {d d' : List (Nat × Int)} (h : ∀ x ∈ d, x ∈ d') {l : List Nat} {t : Int} (hs : SumD d l t) : SumD d' l t := by
  induction hs with
  | nil => exact .nil
  | cons hm _ ih => exact .cons (h _ hm) ih

theorem SumD.uniq {d : List (Nat × Int)} (h : ∀ k v v', (k, v) ∈ d → (k, v') ∈ d → v = v') {l : List Nat} {t t' : Int}
    (hs : SumD d l t) (hs' : SumD d l t') : t = t' := by
  induction hs generalizing t' with
  | nil => cases hs'; rfl
  | cons hm _ ih =>
    cases hs' with
    | cons hm' hs' => rw [h _ _ _ hm hm', ih hs']

theorem byteAt_push_lt {out : Array Byte} {b : Byte} {k : Nat} (h : k < out.size) : byteAt (out.push b) k = byteAt out k := by
  simp only [byteAt, Array.getD_eq_getD_getElem?, Array.getElem?_push, if_neg (Nat.ne_of_lt h)]

theorem byteAt_push_eq {out : Array Byte} {b : Byte} : byteAt (out.push b) out.size = b := by
  simp [byteAt, Array.getD_eq_getD_getElem?]

theorem byteAt_set {out : Array Byte} {i k : Nat} {b : Byte} (h : i < out.size) :
    byteAt (out.setIfInBounds i b) k = if i = k then b else byteAt out k := by
  simp only [byteAt, Array.getD_eq_getD_getElem?, Array.getElem?_setIfInBounds]
  split
  · next e => subst e; simp [h]
  · rfl

theorem Holds.congr {out out' : Array Byte} {r : Ref} {v : Int} (h : Holds out r v)
    (e : ∀ k, r.off ≤ k → k < r.off + RefK.size r.kind → byteAt out' k = byteAt out k) : Holds out' r v := by
  unfold Holds at h ⊢
  cases hk : r.kind <;> simp only [hk, RefK.size, wordAt] at h e ⊢ <;>
    first
    | rw [e r.off (by omega) (by omega), e (r.off + 1) (by omega) (by omega)]; exact h
    | rw [e r.off (by omega) (by omega)]; exact h

/-! ## States that differ in nothing that matters -/

/-- The fields that the invariant depends on. -/
def Same (s s' : S) : Prop :=
  s'.fixups = s.fixups ∧ s'.nextFixup = s.nextFixup ∧ s'.labels = s.labels ∧ s'.out = s.out ∧ s'.gNext = s.gNext ∧
  s'.gDefs = s.gDefs ∧ s'.gRefs = s.gRefs ∧ s'.gDropped = s.gDropped

theorem InvC.same {s s' : S} (h : Same s s') {free : List Nat} {ch : Nat → List Nat} (i : InvC s free ch) : InvC s' free ch := by
  obtain ⟨h1, h2, h3, h4, h5, h6, h7, h8⟩ := h
  obtain ⟨lex, fx, nf, la, out, va, bss, so, gn, gd, gr, gx⟩ := s
  obtain ⟨lex', fx', nf', la', out', va', bss', so', gn', gd', gr', gx'⟩ := s'
  simp only at h1 h2 h3 h4 h5 h6 h7 h8
  subst h1 h2 h3 h4 h5 h6 h7 h8
  exact ⟨i.1, i.2, i.3, i.4, i.5, i.6, i.7, i.8, i.9, i.10, i.11, i.12, i.13, i.14, i.15, i.16, i.17, i.18, i.19, i.20, i.21, i.22⟩

theorem OpOk.same {s s' : S} (h : Same s s') {o : Operand} (i : OpOk s o) : OpOk s' o := by
  obtain ⟨h1, h2, h3, h4, h5, h6, h7, h8⟩ := h
  unfold OpOk Pend at *
  rw [h3, h6]; exact i

theorem M1.same {s s' : S} (h : Same s s') (i : M1 s) : M1 s' := by
  unfold M1 at *; rw [h.2.2.2.2.2.1]; exact i

/-! ## Appending bytes -/

/-- The image grows. -/
theorem InvC.grow {s : S} {free : List Nat} {ch : Nat → List Nat} (i : InvC s free ch) {out : Array Byte} {va : Int}
    (hsz : s.out.size ≤ out.size) (hpre : ∀ k < s.out.size, byteAt out k = byteAt s.out k) :
    InvC { s with out, va } free ch := by
  have hh : ∀ r ∈ s.gRefs, ∀ v, Holds s.out r v → Holds out r v := fun r hr v hv =>
    hv.congr fun k _ hk => hpre k (by have := i.inOut r hr; omega)
  refine ⟨i.1, i.2, i.3, i.4, i.5, i.6, i.7, i.8, i.9, i.10, i.11, i.12, fun r hr => Nat.le_trans (i.inOut r hr) hsz, i.14, i.15, i.16,
    i.17, i.18, i.19, i.20, i.21, ?_⟩
  intro r hr
  rcases i.val r hr with ⟨h1, t, h2, h3⟩ | ⟨k, l, t, h1, h2, h3, ⟨h4, h5⟩ | ⟨v, h4, h5⟩⟩
  · exact Or.inl ⟨h1, t, h2, hh r hr _ h3⟩
  · exact Or.inr ⟨k, l, t, h1, h2, h3, Or.inl ⟨h4, hh r hr _ h5⟩⟩
  · exact Or.inr ⟨k, l, t, h1, h2, h3, Or.inr ⟨v, h4, hh r hr _ h5⟩⟩

/-- The state after a fixup (if the operand needs one) was added. -/
def addFix (o : Operand) (ty : FixT) (s : S) : S :=
  match o.fixup, s.nextFixup with
  | some i, some f => { s with
      nextFixup := (s.fixups f).next
      fixups := upd s.fixups f { ty, off := s.out.size, next := (s.labels i).fix }
      labels := upd s.labels i { s.labels i with fix := some f } }
  | _, _ => s

/-- The record of an emitted operand. -/
def mkRef (k : RefK) (o : Operand) (s : S) : Ref where
  kind := k
  off := s.out.size
  va := s.va
  labs := o.gLabs
  addend := o.gAddend
  pend := o.fixup.map fun i => (s.labels i).gInst

theorem pend_upd_fix {s : S} {i : Nat} {f : Option Nat} {fx nf} (j : Nat) :
    Pend { s with nextFixup := nf, fixups := fx, labels := upd s.labels i { s.labels i with fix := f } } j ↔ Pend s j := by
  unfold Pend
  simp only [upd]
  split
  · next e => subst e; rfl
  · rfl

/-- Emitting an operand. -/
theorem Inv.emit {s : S} (hi : Inv s) {o : Operand} (ho : OpOk s o) {k : RefK} {ty : FixT} {out : Array Byte} {va : Int}
    (hk : o.fixup ≠ none → kindOf ty = k ∧ s.nextFixup ≠ none)
    (hsz : out.size = s.out.size + RefK.size k) (hpre : ∀ k < s.out.size, byteAt out k = byteAt s.out k)
    (hold : Holds out (mkRef k o s) o.disp) :
    Inv { addFix o ty s with gRefs := mkRef k o s :: s.gRefs, out, va } := by
  obtain ⟨free, ch, i⟩ := hi
  have hh : ∀ r ∈ s.gRefs, ∀ v, Holds s.out r v → Holds out r v := fun r hr v hv =>
    hv.congr fun k _ hk => hpre k (by have := i.inOut r hr; omega)
  have hval : ∀ r ∈ s.gRefs,
      (r.pend = none ∧ ∃ t, SumD s.gDefs r.labs t ∧ Holds out r (r.addend + t)) ∨
      (∃ k l t, r.pend = some k ∧ r.labs = k :: l ∧ SumD s.gDefs l t ∧
        (((∀ v, (k, v) ∉ s.gDefs) ∧ Holds out r (r.addend + t)) ∨ (∃ v, (k, v) ∈ s.gDefs ∧ Holds out r (r.addend + t + v)))) := by
    intro r hr
    rcases i.val r hr with ⟨h1, t, h2, h3⟩ | ⟨k, l, t, h1, h2, h3, ⟨h4, h5⟩ | ⟨v, h4, h5⟩⟩
    · exact Or.inl ⟨h1, t, h2, hh r hr _ h3⟩
    · exact Or.inr ⟨k, l, t, h1, h2, h3, Or.inl ⟨h4, hh r hr _ h5⟩⟩
    · exact Or.inr ⟨k, l, t, h1, h2, h3, Or.inr ⟨v, h4, hh r hr _ h5⟩⟩
  have hlay : (mkRef k o s :: s.gRefs).Pairwise fun r o => o.off + RefK.size o.kind ≤ r.off :=
    List.pairwise_cons.mpr ⟨fun r hr => i.inOut r hr, i.layout⟩
  have hin : ∀ r ∈ mkRef k o s :: s.gRefs, r.off + RefK.size r.kind ≤ out.size := by
    intro r hr
    rcases List.mem_cons.mp hr with rfl | hr
    · simp only [mkRef]; omega
    · have := i.inOut r hr; omega
  rcases ho with ⟨hf, t, ht, hd⟩ | ⟨a, l, t, hf, hp, hl, ht, hd, _⟩
  · have e : addFix o ty s = s := by simp only [addFix, hf]
    rw [e]
    refine ⟨free, ch, ⟨i.1, i.2, i.3, i.4, i.5, i.6, i.7, i.8, i.9, i.10, ?_, hlay, hin, i.14, i.15, i.16,
      i.17, i.18, i.19, ?_, ?_, ?_⟩⟩
    · intro j hj
      simp only [List.filter_cons, mkRef, hf, Option.map_none]
      exact i.refs j hj
    · intro r hr
      rcases List.mem_cons.mp hr with rfl | hr
      · intro _; simp [mkRef, hf]
      · exact i.abs8 r hr
    · intro r hr
      rcases List.mem_cons.mp hr with rfl | hr
      · intro _; simp [mkRef, hf]
      · exact i.pendLt r hr
    · intro r hr
      rcases List.mem_cons.mp hr with rfl | hr
      · refine Or.inl ⟨by simp [mkRef, hf], t, ht, ?_⟩
        rw [show (mkRef k o s).addend + t = o.disp from hd.symm]
        exact hold
      · exact hval r hr
  · obtain ⟨hkk, hnf⟩ := hk (by simp [hf])
    obtain ⟨f, hnf⟩ := Option.ne_none_iff_exists'.mp hnf
    obtain ⟨free', rfl, hfree'⟩ := (hnf ▸ i.cfree).some_eq
    have hndF := List.nodup_cons.mp i.ndF
    have e : addFix o ty s = { s with
        nextFixup := (s.fixups f).next
        fixups := upd s.fixups f { ty, off := s.out.size, next := (s.labels a).fix }
        labels := upd s.labels a { s.labels a with fix := some f } } := by simp only [addFix, hf, hnf]
    rw [e]
    have hpe : ∀ j, Pend ({ s with
        nextFixup := (s.fixups f).next
        fixups := upd s.fixups f { ty, off := s.out.size, next := (s.labels a).fix }
        labels := upd s.labels a { s.labels a with fix := some f }
        gRefs := mkRef k o s :: s.gRefs, out, va } : S) j ↔ Pend s j := by
      intro j
      unfold Pend
      simp only [upd]
      split
      · next e => subst e; rfl
      · rfl
    have hlab : ∀ j, (upd s.labels a { s.labels a with fix := some f } j).ty = (s.labels j).ty ∧
        (upd s.labels a { s.labels a with fix := some f } j).val = (s.labels j).val ∧
        (upd s.labels a { s.labels a with fix := some f } j).gInst = (s.labels j).gInst := by
      intro j
      simp only [upd]
      split
      · next e => subst e; exact ⟨rfl, rfl, rfl⟩
      · exact ⟨rfl, rfl, rfl⟩
    have hfx : ∀ n, n ≠ f → upd s.fixups f { ty, off := s.out.size, next := (s.labels a).fix } n = s.fixups n := by
      intro n hn; simp only [upd, if_neg hn]
    have hfc : ∀ j, f ∉ ch j := fun j => i.disFC j f (by simp)
    refine ⟨free', fun j => if j = a then f :: ch a else ch j, ⟨?_, ?_, ?_, ?_, ?_, ?_, ?_, ?_, ?_, ?_, ?_, hlay, hin, ?_, i.15, ?_,
      i.17, ?_, ?_, ?_, ?_, ?_⟩⟩
    · refine hfree'.congr fun n hn => ?_
      exact congrArg Fixup.next (hfx n fun e => hndF.1 (e ▸ hn))
    · intro j hj
      replace hj := (hpe j).mp hj
      simp only
      by_cases hja : j = a
      · subst hja
        have e1 : (upd s.labels j { s.labels j with fix := some f } j).fix = some f := by simp [upd]
        have e2 : (upd s.fixups f { ty, off := s.out.size, next := (s.labels j).fix } f).next = (s.labels j).fix := by simp [upd]
        rw [if_pos rfl, e1]
        refine .cons ?_
        rw [e2]
        exact (i.chain j hj).congr fun n hn => congrArg Fixup.next (hfx n fun e => hfc j (e ▸ hn))
      · have e1 : (upd s.labels a { s.labels a with fix := some f } j).fix = (s.labels j).fix := by simp [upd, hja]
        rw [if_neg hja, e1]
        exact (i.chain j hj).congr fun n hn => congrArg Fixup.next (hfx n fun e => hfc j (e ▸ hn))
    · intro j hj
      replace hj := fun h => hj ((hpe j).mpr h)
      have : j ≠ a := fun e => hj (e ▸ hp)
      simp only [if_neg this]
      exact i.empty j hj
    · exact hndF.2
    · intro j
      by_cases hja : j = a
      · simp only [if_pos hja]; exact List.nodup_cons.mpr ⟨hfc a, i.ndC a⟩
      · simp only [if_neg hja]; exact i.ndC j
    · intro j n hn
      by_cases hja : j = a
      · simp only [if_pos hja, List.mem_cons, not_or]
        exact ⟨fun e => hndF.1 (e ▸ hn), i.disFC a n (by simp [hn])⟩
      · simp only [if_neg hja]; exact i.disFC j n (by simp [hn])
    · intro j j' n hjj hn
      by_cases hja : j = a
      · subst hja
        simp only [if_pos, List.mem_cons] at hn
        simp only [if_neg (Ne.symm hjj)]
        rcases hn with rfl | hn
        · exact hfc j'
        · exact i.disCC j j' n hjj hn
      · simp only [if_neg hja] at hn
        by_cases hja' : j' = a
        · simp only [if_pos hja', List.mem_cons, not_or]
          exact ⟨fun e => hfc j (e ▸ hn), i.disCC j a n hja hn⟩
        · simp only [if_neg hja']; exact i.disCC j j' n hjj hn
    · intro n hn; exact i.ltF n (by simp [hn])
    · intro j n hn
      by_cases hja : j = a
      · simp only [if_pos hja, List.mem_cons] at hn
        rcases hn with rfl | hn
        · exact i.ltF n (by simp)
        · exact i.ltC a n hn
      · simp only [if_neg hja] at hn; exact i.ltC j n hn
    · intro hg n hn
      rcases i.total hg n hn with h | ⟨j, h⟩
      · rcases List.mem_cons.mp h with rfl | h
        · exact Or.inr ⟨a, by simp⟩
        · exact Or.inl h
      · refine Or.inr ⟨j, ?_⟩
        by_cases hja : j = a
        · subst hja; simp [h]
        · simp only [if_neg hja]; exact h
    · intro j hj
      replace hj := (hpe j).mp hj
      simp only [(hlab j).2.2]
      have hmap : (ch j).map (fun n => (kindOf (upd s.fixups f { ty, off := s.out.size, next := (s.labels a).fix } n).ty,
          (upd s.fixups f { ty, off := s.out.size, next := (s.labels a).fix } n).off)) =
          (s.gRefs.filter fun r => r.pend == some (s.labels j).gInst).map fun r => (r.kind, r.off) := by
        rw [← i.refs j hj]
        refine List.map_congr_left fun n hn => ?_
        rw [hfx n fun e => hfc j (e ▸ hn)]
      by_cases hja : j = a
      · subst hja
        have e1 : upd s.fixups f { ty, off := s.out.size, next := (s.labels j).fix } f =
          { ty, off := s.out.size, next := (s.labels j).fix } := by simp [upd]
        simp only [if_true, List.map_cons, hmap, List.filter_cons, mkRef, hf, Option.map_some, beq_self_eq_true, e1, hkk]
      · have hne : (s.labels a).gInst ≠ (s.labels j).gInst := fun e => hja (i.instInj a j hp.1 hj.1 e).symm
        simp only [if_neg hja, hmap, List.filter_cons, mkRef, hf, Option.map_some]
        have : (some (s.labels a).gInst == some (s.labels j).gInst) = false := by simp [hne]
        rw [this]; rfl
    · intro j hj; simp only [(hlab j).1, (hlab j).2.2] at hj ⊢; exact i.instLt j hj
    · intro j j' hj hj' he
      simp only [(hlab j).1, (hlab j').1, (hlab j).2.2, (hlab j').2.2] at hj hj' he
      exact i.instInj j j' hj hj' he
    · intro j hj hv
      simp only [(hlab j).1, (hlab j).2.1, (hlab j).2.2] at hj hv ⊢; exact i.defd j hj hv
    · intro j hj
      replace hj := (hpe j).mp hj
      simp only [(hlab j).2.2]; exact i.undef j hj
    · intro r hr
      rcases List.mem_cons.mp hr with rfl | hr
      · intro hkk'
        simp only [mkRef] at hkk'
        rw [← hkk] at hkk'
        cases ty <;> cases hkk'
      · exact i.abs8 r hr
    · intro r hr
      rcases List.mem_cons.mp hr with rfl | hr
      · intro k' hk'
        simp only [mkRef, hf, Option.map_some, Option.some.injEq] at hk'
        rw [← hk']; exact i.instLt a hp.1
      · exact i.pendLt r hr
    · intro r hr
      rcases List.mem_cons.mp hr with rfl | hr
      · refine Or.inr ⟨(s.labels a).gInst, l, t, by simp [mkRef, hf], hl, ht, Or.inl ⟨i.undef a hp, ?_⟩⟩
        rw [show (mkRef k o s).addend + t = o.disp from hd.symm]
        exact hold
      · exact hval r hr

/-! ## Applying fixups -/

theorem app_toNat (a b : Byte) : (a ++ b : Word).toNat = a.toNat * 256 + b.toNat := by
  rw [BitVec.toNat_append, Nat.shiftLeft_eq, Nat.mul_comm, ← Nat.two_pow_add_eq_or_of_lt (i := 8) b.isLt, Nat.mul_comm]

theorem word_toByte (v : Int) : (toByte (v / 256) ++ toByte v : Word) = BitVec.ofInt 16 v := by
  apply BitVec.eq_of_toNat_eq
  rw [app_toNat]
  simp only [toByte, BitVec.toNat_ofInt]
  omega

theorem ofInt_toNat_add (v : Int) (a b : Byte) :
    BitVec.ofInt 16 (v + ((b.toNat + 256 * a.toNat : Nat) : Int)) = (a ++ b : Word) + BitVec.ofInt 16 v := by
  apply BitVec.eq_of_toNat_eq
  rw [BitVec.toNat_add, app_toNat]
  simp only [BitVec.toNat_ofInt]
  omega

/-- Byte `k` belongs to the emitted operand `r`. -/
def InRef (r : Ref) (k : Nat) : Prop := r.off ≤ k ∧ k < r.off + RefK.size r.kind

theorem applyFixup_ok {va : Int} {f : Fixup} {out out' : Array Byte} (h : applyFixup va f out = .ok out') {r : Ref}
    (hr : (kindOf f.ty, f.off) = (r.kind, r.off)) :
    out'.size = out.size ∧ (∀ v, Holds out r v → Holds out' r (v + va)) ∧ (∀ k, ¬ InRef r k → byteAt out' k = byteAt out k) := by
  obtain ⟨hk, ho⟩ := Prod.mk.inj hr
  obtain ⟨ty, off, nx⟩ := f
  simp only at ho hk
  subst ho
  have word : ∀ (hk : RefK.size r.kind = 2) (hh : ∀ out v, Holds out r v ↔ ∃ c, wordAt out r.off = BitVec.ofInt 16 (v + c) ∧
        c = (match r.kind with | .rel16 => - (r.va + 2) | _ => 0)),
      (if r.off + 1 < out.size then
        let v := va + ((byteAt out r.off).toNat + 256 * (byteAt out (r.off + 1)).toNat : Nat)
        if inInt v then .ok ((out.setIfInBounds r.off (toByte v)).setIfInBounds (r.off + 1) (toByte (v / 256))) else .error .ub
      else .error .ub : Except Err (Array Byte)) = .ok out' →
      out'.size = out.size ∧ (∀ v, Holds out r v → Holds out' r (v + va)) ∧ (∀ k, ¬ InRef r k → byteAt out' k = byteAt out k) := by
    intro hk2 hh h
    split at h
    · next hb =>
      simp only at h
      split at h
      · cases h
        have hbyte : ∀ k, byteAt ((out.setIfInBounds r.off (toByte (va + ((byteAt out r.off).toNat +
            256 * (byteAt out (r.off + 1)).toNat : Nat)))).setIfInBounds (r.off + 1)
            (toByte ((va + ((byteAt out r.off).toNat + 256 * (byteAt out (r.off + 1)).toNat : Nat)) / 256))) k =
            if r.off + 1 = k then toByte ((va + ((byteAt out r.off).toNat + 256 * (byteAt out (r.off + 1)).toNat : Nat)) / 256)
            else if r.off = k then toByte (va + ((byteAt out r.off).toNat + 256 * (byteAt out (r.off + 1)).toNat : Nat))
            else byteAt out k := by
          intro k
          rw [byteAt_set (by rw [Array.size_setIfInBounds]; exact hb), byteAt_set (by omega)]
        refine ⟨by simp, ?_, ?_⟩
        · intro v hv
          rw [hh] at hv ⊢
          obtain ⟨c, hv, hc⟩ := hv
          refine ⟨c, ?_, hc⟩
          have e : wordAt ((out.setIfInBounds r.off (toByte (va + ((byteAt out r.off).toNat +
            256 * (byteAt out (r.off + 1)).toNat : Nat)))).setIfInBounds (r.off + 1)
            (toByte ((va + ((byteAt out r.off).toNat + 256 * (byteAt out (r.off + 1)).toNat : Nat)) / 256))) r.off =
            wordAt out r.off + BitVec.ofInt 16 va := by
            unfold wordAt
            rw [hbyte, hbyte, if_pos rfl, if_neg (by omega), if_pos rfl, word_toByte]
            exact ofInt_toNat_add va (byteAt out (r.off + 1)) (byteAt out r.off)
          rw [e, hv, ← BitVec.ofInt_add]
          congr 1; omega
        · intro k hk
          unfold InRef at hk
          rw [hbyte, if_neg (by omega), if_neg (by omega)]
      · cases h
    · cases h
  cases ty with
  | rel8 =>
    have hk : r.kind = .rel8 := hk.symm
    simp only [applyFixup] at h
    split at h
    · next hb =>
      split at h
      · cases h
        refine ⟨by simp, ?_, ?_⟩
        · intro v hv
          unfold Holds at hv ⊢
          simp only [hk] at hv ⊢
          rw [byteAt_set hb, if_pos rfl]
          rw [hv, toByte, ← BitVec.ofInt_add]
          congr 1; omega
        · intro k hk'
          unfold InRef at hk'
          rw [hk] at hk'
          simp only [RefK.size] at hk'
          rw [byteAt_set hb, if_neg (by omega)]
      · cases h
    · cases h
  | rel16 =>
    have hk : r.kind = .rel16 := hk.symm
    simp only [applyFixup] at h
    refine word (by rw [hk]; rfl) ?_ h
    intro out v
    unfold Holds
    simp only [hk]
    constructor
    · intro h; exact ⟨_, by rw [h]; congr 1, rfl⟩
    · rintro ⟨c, h, rfl⟩; rw [h]; congr 1
  | disp16 =>
    have hk : r.kind = .abs16 := hk.symm
    simp only [applyFixup] at h
    refine word (by rw [hk]; rfl) ?_ h
    intro out v
    unfold Holds
    simp only [hk]
    constructor
    · intro h; exact ⟨0, by rw [h]; congr 1; omega, rfl⟩
    · rintro ⟨c, h, rfl⟩; rw [h]; congr 1; omega

theorem applyFixups_ok {va : Int} {fx : Nat → Fixup} : ∀ (fuel f : Nat) (l : List Nat) (rl : List Ref) (out out' : Array Byte) (last : Nat),
    applyFixups va fx fuel f out = .ok (out', last) → Chain fx (some f) l →
    l.map (fun n => (kindOf (fx n).ty, (fx n).off)) = rl.map (fun r => (r.kind, r.off)) →
    rl.Pairwise (fun r o => o.off + RefK.size o.kind ≤ r.off) →
    l.getLast? = some last ∧ out'.size = out.size ∧ (∀ r ∈ rl, ∀ v, Holds out r v → Holds out' r (v + va)) ∧
    (∀ k, (∀ r ∈ rl, ¬ InRef r k) → byteAt out' k = byteAt out k) := by
  intro fuel
  induction fuel with
  | zero => intro f l rl out out' last h; cases h
  | succ fuel ih =>
    intro f l rl out out' last h hc0 hm hp
    obtain ⟨l, rfl, hc⟩ := hc0.some_eq
    cases rl with
    | nil => cases hm
    | cons r rl =>
      simp only [List.map_cons, List.cons.injEq] at hm
      obtain ⟨hr, hm⟩ := hm
      obtain ⟨hp1, hp⟩ := List.pairwise_cons.mp hp
      simp only [applyFixups] at h
      cases h1 : applyFixup va (fx f) out with
      | error e => rw [h1] at h; cases h
      | ok out1 =>
        rw [h1] at h
        obtain ⟨hs1, hh1, hb1⟩ := applyFixup_ok h1 hr
        cases hn : (fx f).next with
        | none =>
          simp only [hn, Except.ok.injEq, Prod.mk.injEq] at h
          obtain ⟨rfl, rfl⟩ := h
          rw [hn] at hc
          obtain rfl := hc.none_eq
          cases rl with
          | cons _ _ => cases hm
          | nil =>
            refine ⟨rfl, hs1, ?_, ?_⟩
            · intro r' hr'
              simp only [List.mem_singleton] at hr'
              subst hr'; exact hh1
            · intro k hk; exact hb1 k (hk r (by simp))
        | some g =>
          simp only [hn] at h
          rw [hn] at hc
          obtain ⟨h2, h3, h4, h5⟩ := ih g l rl out1 out' last h hc hm hp
          refine ⟨?_, by rw [h3, hs1], ?_, ?_⟩
          · obtain ⟨l', rfl, _⟩ := hc.some_eq
            rw [List.getLast?_cons_cons]; exact h2
          · intro r' hr' v hv
            rcases List.mem_cons.mp hr' with rfl | hr'
            · refine (hh1 v hv).congr ?_
              intro k hk1 hk2
              refine h5 k fun r2 hr2 hin => ?_
              have := hp1 r2 hr2
              unfold InRef at hin
              omega
            · refine h4 r' hr' v ?_
              refine hv.congr ?_
              intro k hk1 hk2
              refine hb1 k fun hin => ?_
              have := hp1 r' hr'
              unfold InRef at hin
              omega
          · intro k hk
            rw [h5 k fun r' hr' => hk r' (by simp [hr']), hb1 k (hk r (by simp))]

/-! ## Labels -/

/-- Labels that are not in use may change. -/
theorem InvC.inert {s : S} {free : List Nat} {ch : Nat → List Nat} (i : InvC s free ch) {a : Nat} {l : Label}
    (h1 : (s.labels a).ty ≠ .normal) (h2 : l.ty ≠ .normal) : InvC { s with labels := upd s.labels a l } free ch := by
  have hl : ∀ j, (upd s.labels a l j).ty = .normal → upd s.labels a l j = s.labels j ∧ (s.labels j).ty = .normal := by
    intro j hj
    simp only [upd] at hj ⊢
    split
    · next e => rw [if_pos e] at hj; exact absurd hj h2
    · next e => rw [if_neg e] at hj; exact ⟨rfl, hj⟩
  have hp : ∀ j, Pend { s with labels := upd s.labels a l } j → Pend s j ∧ upd s.labels a l j = s.labels j := by
    intro j hj
    obtain ⟨e, hn⟩ := hl j hj.1
    have := hj.2
    simp only [e] at this
    exact ⟨⟨hn, this⟩, e⟩
  have hp' : ∀ j, Pend s j → Pend { s with labels := upd s.labels a l } j := by
    intro j hj
    have : j ≠ a := fun e => h1 (e ▸ hj.1)
    unfold Pend
    simp only [upd, if_neg this]
    exact hj
  refine ⟨i.1, ?_, fun j hj => i.empty j fun h => hj (hp' j h), i.4, i.5, i.6, i.7, i.8, i.9, i.10, ?_, i.12, i.13, ?_, i.15, ?_, i.17,
    ?_, ?_, i.20, i.21, i.22⟩
  · intro j hj; obtain ⟨h, e⟩ := hp j hj; simp only [e]; exact i.chain j h
  · intro j hj; obtain ⟨h, e⟩ := hp j hj; simp only [e]; exact i.refs j h
  · intro j hj; obtain ⟨e, h⟩ := hl j hj; simp only [e]; exact i.instLt j h
  · intro j j' hj hj' he
    obtain ⟨e, h⟩ := hl j hj
    obtain ⟨e', h'⟩ := hl j' hj'
    simp only [e, e'] at he
    exact i.instInj j j' h h' he
  · intro j hj hv; obtain ⟨e, h⟩ := hl j hj; simp only [e] at hv ⊢; exact i.defd j h hv
  · intro j hj; obtain ⟨h, e⟩ := hp j hj; simp only [e]; exact i.undef j h

/-- A label is used for the first time. -/
theorem InvC.fresh {s : S} {free : List Nat} {ch : Nat → List Nat} (i : InvC s free ch) {a : Nat} (h1 : (s.labels a).ty ≠ .normal) :
    InvC { s with labels := upd s.labels a { ty := .normal, val := -1, fix := none, gInst := s.gNext }, gNext := s.gNext + 1 } free ch := by
  have hna : ¬ Pend s a := fun h => h1 h.1
  have hne : ∀ j, (s.labels j).ty = .normal → j ≠ a := fun j hj e => h1 (e ▸ hj)
  have hold : ∀ j, j ≠ a → upd s.labels a { ty := .normal, val := -1, fix := none, gInst := s.gNext } j = s.labels j := by
    intro j hj; simp only [upd, if_neg hj]
  have hnew : upd s.labels a { ty := .normal, val := -1, fix := none, gInst := s.gNext } a =
      { ty := .normal, val := -1, fix := none, gInst := s.gNext } := by simp only [upd, if_true]
  have hp : ∀ j, j ≠ a → (Pend { s with
      labels := upd s.labels a { ty := .normal, val := -1, fix := none, gInst := s.gNext }, gNext := s.gNext + 1 } j ↔ Pend s j) := by
    intro j hj; unfold Pend; simp only [hold j hj]
  refine ⟨i.1, ?_, ?_, i.4, i.5, i.6, i.7, i.8, i.9, i.10, ?_, i.12, i.13, ?_, fun k v h => by have := i.defLt k v h; simp only; omega, ?_,
    i.17, ?_, ?_, i.20, fun r hr k h => by have := i.pendLt r hr k h; simp only; omega, i.22⟩
  · intro j hj
    by_cases e : j = a
    · subst e
      rw [i.empty j hna]
      simp only [hnew]
      exact .nil
    · simp only [hold j e]; exact i.chain j ((hp j e).mp hj)
  · intro j hj
    by_cases e : j = a
    · subst e; exact i.empty j hna
    · exact i.empty j fun h => hj ((hp j e).mpr h)
  · intro j hj
    by_cases e : j = a
    · subst e
      rw [i.empty j hna]
      simp only [hnew]
      have : (s.gRefs.filter fun r => r.pend == some s.gNext) = [] := by
        rw [List.filter_eq_nil_iff]
        intro r hr h
        have := i.pendLt r hr s.gNext (by simpa using h)
        omega
      rw [this]; rfl
    · simp only [hold j e]; exact i.refs j ((hp j e).mp hj)
  · intro j hj
    by_cases e : j = a
    · subst e; simp only [hnew]; omega
    · simp only [hold j e] at hj ⊢
      have := i.instLt j hj; omega
  · intro j j' hj hj' he
    by_cases e : j = a <;> by_cases e' : j' = a
    · rw [e, e']
    · subst e
      simp only [hold j' e', hnew] at hj' he
      have := i.instLt j' hj'; omega
    · subst e'
      simp only [hold j e, hnew] at hj he
      have := i.instLt j hj; omega
    · simp only [hold j e, hold j' e'] at hj hj' he
      exact i.instInj j j' hj hj' he
  · intro j hj hv
    by_cases e : j = a
    · subst e; simp only [hnew] at hv; exact absurd rfl hv
    · simp only [hold j e] at hj hv ⊢; exact i.defd j hj hv
  · intro j hj v h
    by_cases e : j = a
    · subst e; simp only [hnew] at h
      have := i.defLt _ _ h; omega
    · simp only [hold j e] at h
      exact i.undef j ((hp j e).mp hj) v h

/-- A label that was not in use is defined. -/
theorem InvC.defineNew {s : S} {free : List Nat} {ch : Nat → List Nat} (i : InvC s free ch) {a : Nat} (h1 : (s.labels a).ty ≠ .normal)
    (hva : s.va ≠ -1) :
    InvC { s with labels := upd s.labels a { ty := .normal, val := s.va, fix := none, gInst := s.gNext }, gNext := s.gNext + 1,
                  gDefs := (s.gNext, s.va) :: s.gDefs } free ch := by
  have hna : ¬ Pend s a := fun h => h1 h.1
  have hold : ∀ j, j ≠ a → upd s.labels a { ty := .normal, val := s.va, fix := none, gInst := s.gNext } j = s.labels j := by
    intro j hj; simp only [upd, if_neg hj]
  have hnew : upd s.labels a { ty := .normal, val := s.va, fix := none, gInst := s.gNext } a =
      { ty := .normal, val := s.va, fix := none, gInst := s.gNext } := by simp only [upd, if_true]
  have hp : ∀ j, Pend { s with
      labels := upd s.labels a { ty := .normal, val := s.va, fix := none, gInst := s.gNext }, gNext := s.gNext + 1,
      gDefs := (s.gNext, s.va) :: s.gDefs } j → j ≠ a ∧ Pend s j := by
    intro j hj
    by_cases e : j = a
    · subst e
      have := hj.2
      simp only [hnew] at this
      exact absurd this hva
    · refine ⟨e, ?_⟩
      unfold Pend at hj; simp only [hold j e] at hj; exact hj
  have hp' : ∀ j, Pend s j → Pend { s with
      labels := upd s.labels a { ty := .normal, val := s.va, fix := none, gInst := s.gNext }, gNext := s.gNext + 1,
      gDefs := (s.gNext, s.va) :: s.gDefs } j := by
    intro j hj
    have e : j ≠ a := fun e => hna (e ▸ hj)
    unfold Pend; simp only [hold j e]; exact hj
  have hmono : ∀ x ∈ s.gDefs, x ∈ (s.gNext, s.va) :: s.gDefs := fun x hx => List.mem_cons_of_mem _ hx
  refine ⟨i.1, ?_, fun j hj => i.empty j fun h => hj (hp' j h), i.4, i.5, i.6, i.7, i.8, i.9, i.10, ?_, i.12, i.13, ?_, ?_, ?_, ?_, ?_, ?_,
    i.20, fun r hr k h => by have := i.pendLt r hr k h; simp only; omega, ?_⟩
  · intro j hj; obtain ⟨e, h⟩ := hp j hj; simp only [hold j e]; exact i.chain j h
  · intro j hj; obtain ⟨e, h⟩ := hp j hj; simp only [hold j e]; exact i.refs j h
  · intro j hj
    by_cases e : j = a
    · subst e; simp only [hnew]; omega
    · simp only [hold j e] at hj ⊢
      have := i.instLt j hj; omega
  · intro k v h
    rcases List.mem_cons.mp h with h | h
    · obtain ⟨rfl, rfl⟩ := Prod.mk.inj h; simp only; omega
    · have := i.defLt k v h; simp only; omega
  · intro j j' hj hj' he
    by_cases e : j = a <;> by_cases e' : j' = a
    · rw [e, e']
    · subst e
      simp only [hold j' e', hnew] at hj' he
      have := i.instLt j' hj'; omega
    · subst e'
      simp only [hold j e, hnew] at hj he
      have := i.instLt j hj; omega
    · simp only [hold j e, hold j' e'] at hj hj' he
      exact i.instInj j j' hj hj' he
  · intro k v v' h h'
    rcases List.mem_cons.mp h with h | h <;> rcases List.mem_cons.mp h' with h' | h'
    · rw [(Prod.mk.inj h).2, (Prod.mk.inj h').2]
    · obtain ⟨rfl, rfl⟩ := Prod.mk.inj h; have := i.defLt _ _ h'; omega
    · obtain ⟨rfl, rfl⟩ := Prod.mk.inj h'; have := i.defLt _ _ h; omega
    · exact i.defUniq k v v' h h'
  · intro j hj hv
    by_cases e : j = a
    · subst e; simp only [hnew]; exact List.mem_cons_self
    · simp only [hold j e] at hj hv ⊢; exact hmono _ (i.defd j hj hv)
  · intro j hj v h
    obtain ⟨e, hj⟩ := hp j hj
    simp only [hold j e] at h
    rcases List.mem_cons.mp h with h | h
    · have := i.instLt j hj.1
      have := (Prod.mk.inj h).1
      omega
    · exact i.undef j hj v h
  · intro r hr
    rcases i.val r hr with ⟨h1, t, h2, h3⟩ | ⟨k, l, t, h1, h2, h3, ⟨h4, h5⟩ | ⟨v, h4, h5⟩⟩
    · exact Or.inl ⟨h1, t, h2.mono hmono, h3⟩
    · refine Or.inr ⟨k, l, t, h1, h2, h3.mono hmono, Or.inl ⟨?_, h5⟩⟩
      intro v h
      rcases List.mem_cons.mp h with h | h
      · have := i.pendLt r hr k h1
        have := (Prod.mk.inj h).1
        omega
      · exact h4 v h
    · exact Or.inr ⟨k, l, t, h1, h2, h3.mono hmono, Or.inr ⟨v, hmono _ h4, h5⟩⟩

/-- A label that was used before is defined. -/
theorem InvC.define {s : S} {free : List Nat} {ch : Nat → List Nat} (i : InvC s free ch) {a : Nat} (hpa : Pend s a)
    (hva : s.va ≠ -1) {out : Array Byte} {fx : Nat → Fixup} {nf : Option Nat} (hc : Chain fx nf (ch a ++ free))
    (hfx : ∀ n, n ∉ ch a → fx n = s.fixups n) (hsz : out.size = s.out.size)
    (hh1 : ∀ r ∈ s.gRefs, r.pend = some (s.labels a).gInst → ∀ v, Holds s.out r v → Holds out r (v + s.va))
    (hh2 : ∀ r ∈ s.gRefs, r.pend ≠ some (s.labels a).gInst → ∀ v, Holds s.out r v → Holds out r v) :
    InvC { s with out, fixups := fx, nextFixup := nf, labels := upd s.labels a { s.labels a with val := s.va },
                  gDefs := ((s.labels a).gInst, s.va) :: s.gDefs }
      (ch a ++ free) (fun j => if j = a then [] else ch j) := by
  have hold : ∀ j, j ≠ a → upd s.labels a { s.labels a with val := s.va } j = s.labels j := by
    intro j hj; simp only [upd, if_neg hj]
  have hnew : upd s.labels a { s.labels a with val := s.va } a = { s.labels a with val := s.va } := by simp only [upd, if_true]
  have hp : ∀ j, Pend { s with
      out, fixups := fx, nextFixup := nf, labels := upd s.labels a { s.labels a with val := s.va },
      gDefs := ((s.labels a).gInst, s.va) :: s.gDefs } j → j ≠ a ∧ Pend s j := by
    intro j hj
    by_cases e : j = a
    · subst e
      have := hj.2
      simp only [hnew] at this
      exact absurd this hva
    · refine ⟨e, ?_⟩
      unfold Pend at hj; simp only [hold j e] at hj; exact hj
  have hp' : ∀ j, j ≠ a → Pend s j → Pend { s with
      out, fixups := fx, nextFixup := nf, labels := upd s.labels a { s.labels a with val := s.va },
      gDefs := ((s.labels a).gInst, s.va) :: s.gDefs } j := by
    intro j e hj
    unfold Pend; simp only [hold j e]; exact hj
  have hmono : ∀ x ∈ s.gDefs, x ∈ ((s.labels a).gInst, s.va) :: s.gDefs := fun x hx => List.mem_cons_of_mem _ hx
  have hnch : ∀ j n, j ≠ a → n ∈ ch j → n ∉ ch a := fun j n hj hn => i.disCC j a n hj hn
  have hinst : ∀ j, (upd s.labels a { s.labels a with val := s.va } j).gInst = (s.labels j).gInst ∧
      (upd s.labels a { s.labels a with val := s.va } j).ty = (s.labels j).ty := by
    intro j
    by_cases e : j = a
    · subst e; rw [hnew]; exact ⟨rfl, rfl⟩
    · rw [hold j e]; exact ⟨rfl, rfl⟩
  refine ⟨hc, ?_, ?_, ?_, ?_, ?_, ?_, ?_, ?_, ?_, ?_, i.12, ?_, ?_, ?_, ?_, ?_, ?_, ?_, i.20, i.21, ?_⟩
  · intro j hj
    obtain ⟨e, h⟩ := hp j hj
    simp only [hold j e, if_neg e]
    exact (i.chain j h).congr fun n hn => congrArg Fixup.next (hfx n (hnch j n e hn))
  · intro j hj
    by_cases e : j = a
    · simp only [if_pos e]
    · simp only [if_neg e]; exact i.empty j fun h => hj (hp' j e h)
  · rw [List.nodup_append]
    exact ⟨i.ndC a, i.ndF, fun x hx y hy e => i.disFC a y hy (e ▸ hx)⟩
  · intro j
    by_cases e : j = a
    · simp only [if_pos e]; exact List.nodup_nil
    · simp only [if_neg e]; exact i.ndC j
  · intro j n hn
    by_cases e : j = a
    · simp only [if_pos e]; exact List.not_mem_nil
    · simp only [if_neg e]
      rcases List.mem_append.mp hn with hn | hn
      · exact fun h => hnch j n e h hn
      · exact i.disFC j n hn
  · intro j j' n hjj hn
    by_cases e : j = a
    · simp only [if_pos e] at hn; cases hn
    · simp only [if_neg e] at hn
      by_cases e' : j' = a
      · simp only [if_pos e']; exact List.not_mem_nil
      · simp only [if_neg e']; exact i.disCC j j' n hjj hn
  · intro n hn
    rcases List.mem_append.mp hn with hn | hn
    · exact i.ltC a n hn
    · exact i.ltF n hn
  · intro j n hn
    by_cases e : j = a
    · simp only [if_pos e] at hn; cases hn
    · simp only [if_neg e] at hn; exact i.ltC j n hn
  · intro hg n hn
    rcases i.total hg n hn with h | ⟨j, h⟩
    · exact Or.inl (List.mem_append_right _ h)
    · by_cases e : j = a
      · exact Or.inl (List.mem_append_left _ (e ▸ h))
      · refine Or.inr ⟨j, ?_⟩; simp only [if_neg e]; exact h
  · intro j hj
    obtain ⟨e, h⟩ := hp j hj
    simp only [hold j e, if_neg e]
    rw [← i.refs j h]
    refine List.map_congr_left fun n hn => ?_
    rw [hfx n (hnch j n e hn)]
  · intro r hr; simp only [hsz]; exact i.inOut r hr
  · intro j hj; simp only [(hinst j).1, (hinst j).2] at hj ⊢; exact i.instLt j hj
  · intro k v h
    rcases List.mem_cons.mp h with h | h
    · obtain ⟨rfl, rfl⟩ := Prod.mk.inj h; exact i.instLt a hpa.1
    · exact i.defLt k v h
  · intro j j' hj hj' he
    simp only [(hinst j).1, (hinst j).2, (hinst j').1, (hinst j').2] at hj hj' he
    exact i.instInj j j' hj hj' he
  · intro k v v' h h'
    rcases List.mem_cons.mp h with h | h <;> rcases List.mem_cons.mp h' with h' | h'
    · rw [(Prod.mk.inj h).2, (Prod.mk.inj h').2]
    · obtain ⟨rfl, rfl⟩ := Prod.mk.inj h; exact absurd h' (i.undef a hpa v')
    · obtain ⟨rfl, rfl⟩ := Prod.mk.inj h'; exact absurd h (i.undef a hpa v)
    · exact i.defUniq k v v' h h'
  · intro j hj hv
    by_cases e : j = a
    · subst e; simp only [hnew]; exact List.mem_cons_self
    · simp only [hold j e] at hj hv ⊢; exact hmono _ (i.defd j hj hv)
  · intro j hj v h
    obtain ⟨e, hj⟩ := hp j hj
    simp only [hold j e] at h
    rcases List.mem_cons.mp h with h | h
    · exact e (i.instInj j a hj.1 hpa.1 (Prod.mk.inj h).1)
    · exact i.undef j hj v h
  · intro r hr
    by_cases hpr : r.pend = some (s.labels a).gInst
    · rcases i.val r hr with ⟨h1, _⟩ | ⟨k, l, t, h1, h2, h3, ⟨h4, h5⟩ | ⟨v, h4, h5⟩⟩
      · rw [h1] at hpr; cases hpr
      · rw [h1] at hpr
        obtain rfl := Option.some.inj hpr
        exact Or.inr ⟨_, l, t, h1, h2, h3.mono hmono, Or.inr ⟨s.va, List.mem_cons_self, hh1 r hr h1 _ h5⟩⟩
      · rw [h1] at hpr
        obtain rfl := Option.some.inj hpr
        exact absurd h4 (i.undef a hpa v)
    · have hh := hh2 r hr hpr
      rcases i.val r hr with ⟨h1, t, h2, h3⟩ | ⟨k, l, t, h1, h2, h3, ⟨h4, h5⟩ | ⟨v, h4, h5⟩⟩
      · exact Or.inl ⟨h1, t, h2.mono hmono, hh _ h3⟩
      · refine Or.inr ⟨k, l, t, h1, h2, h3.mono hmono, Or.inl ⟨?_, hh _ h5⟩⟩
        intro v h
        rcases List.mem_cons.mp h with h | h
        · apply hpr; rw [h1, (Prod.mk.inj h).1]
        · exact h4 v h
      · exact Or.inr ⟨k, l, t, h1, h2, h3.mono hmono, Or.inr ⟨v, hmono _ h4, hh _ h5⟩⟩

/-- Retiring labels. -/
theorem Inv.retire {s : S} (hi : Inv s) : Inv (retire s) := by
  obtain ⟨free, ch, i⟩ := hi
  let C : Nat → Prop := fun j => j < s.lex.ids.names.length - (tokUserId - tokId) ∧ (s.labels j).ty ≠ .none ∧ isLocal s.lex.ids j
  have hC : ∀ j, C j → ((Sas.retire s).labels j).ty = .none := by
    intro j hj; simp only [Sas.retire]; rw [if_pos hj]
  have hN : ∀ j, ¬ C j → (Sas.retire s).labels j = s.labels j := by
    intro j hj; simp only [Sas.retire]; rw [if_neg hj]
  have hn : ∀ j, ((Sas.retire s).labels j).ty = .normal → (Sas.retire s).labels j = s.labels j ∧ ¬ C j ∧ (s.labels j).ty = .normal := by
    intro j hj
    by_cases e : C j
    · rw [hC j e] at hj; cases hj
    · exact ⟨hN j e, e, by rw [hN j e] at hj; exact hj⟩
  have hp : ∀ j, Pend (Sas.retire s) j → ¬ C j ∧ Pend s j ∧ (Sas.retire s).labels j = s.labels j := by
    intro j hj
    obtain ⟨e1, e2, e3⟩ := hn j hj.1
    refine ⟨e2, ⟨e3, ?_⟩, e1⟩
    have := hj.2; rw [e1] at this; exact this
  classical
  refine ⟨free, fun j => if C j then [] else ch j, ⟨i.1, ?_, ?_, i.4, ?_, ?_, ?_, i.8, ?_, ?_, ?_, i.12, i.13, ?_, i.15, ?_, i.17,
    ?_, ?_, i.20, i.21, i.22⟩⟩
  · intro j hj; obtain ⟨h1, h2, h3⟩ := hp j hj; rw [h3]; simp only [if_neg h1]; exact i.chain j h2
  · intro j hj
    by_cases e : C j
    · simp only [if_pos e]
    · simp only [if_neg e]
      refine i.empty j fun h => hj ?_
      unfold Pend; rw [hN j e]; exact h
  · intro j
    by_cases e : C j
    · simp only [if_pos e]; exact List.nodup_nil
    · simp only [if_neg e]; exact i.ndC j
  · intro j n hn
    by_cases e : C j
    · simp only [if_pos e]; exact List.not_mem_nil
    · simp only [if_neg e]; exact i.disFC j n hn
  · intro j j' n hjj hn
    by_cases e : C j
    · simp only [if_pos e] at hn; cases hn
    · simp only [if_neg e] at hn
      by_cases e' : C j'
      · simp only [if_pos e']; exact List.not_mem_nil
      · simp only [if_neg e']; exact i.disCC j j' n hjj hn
  · intro j n hn
    by_cases e : C j
    · simp only [if_pos e] at hn; cases hn
    · simp only [if_neg e] at hn; exact i.ltC j n hn
  · intro hg n hn
    have hg2 : s.gDropped = false ∧ ∀ j, C j → Pend s j → (s.labels j).fix = none := by
      simp only [Sas.retire, Bool.or_eq_false_iff, List.any_eq_false, List.mem_range, Bool.and_eq_true, beq_iff_eq, bne_iff_ne,
        not_and, Decidable.not_not] at hg
      exact ⟨hg.1, fun j hj hpj => hg.2 j hj.1 ⟨⟨hpj.1, hj.2.2⟩, hpj.2⟩⟩
    rcases i.total hg2.1 n hn with h | ⟨j, h⟩
    · exact Or.inl h
    · refine Or.inr ⟨j, ?_⟩
      by_cases e : C j
      · exfalso
        by_cases hpj : Pend s j
        · have := i.chain j hpj
          rw [hg2.2 j e hpj] at this
          rw [this.none_eq] at h; cases h
        · rw [i.empty j hpj] at h; cases h
      · simp only [if_neg e]; exact h
  · intro j hj; obtain ⟨h1, h2, h3⟩ := hp j hj; rw [h3]; simp only [if_neg h1]; exact i.refs j h2
  · intro j hj; obtain ⟨h1, _, h3⟩ := hn j hj; rw [h1]; exact i.instLt j h3
  · intro j j' hj hj' he
    obtain ⟨h1, _, h3⟩ := hn j hj
    obtain ⟨h1', _, h3'⟩ := hn j' hj'
    rw [h1, h1'] at he
    exact i.instInj j j' h3 h3' he
  · intro j hj hv; obtain ⟨h1, _, h3⟩ := hn j hj; rw [h1] at hv ⊢; exact i.defd j h3 hv
  · intro j hj; obtain ⟨_, h2, h3⟩ := hp j hj; rw [h3]; exact i.undef j h2

end Props.SasFix
