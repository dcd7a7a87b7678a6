import Verif.Props.SccLink
import Verif.Props.SccLandWit
/-!
# References to global names (C36): the theorems, a history, programs that are wrong
-/
namespace SccLink
open Prog Scc SccCode SccGen SccJump SccFix SccLayout I86
open I86.Cpu hiding lo hi rd

/-- A call. -/
theorem call_run {m : Mem 15} {p t : Nat} (h0 : B m p = 0xE8) (ht : BitVec.ofNat 16 t = BitVec.ofNat 16 (p + 3) + I86.word (B m (p + 1)) (B m (p + 2))) (K : Contract) {c : Cpu}
    (hip : c.ip = BitVec.ofNat 16 p) (hi : Img m c p (p + 3)) : c.step K = .next { c.push (BitVec.ofNat 16 (p + 3)) with ip := BitVec.ofNat 16 t } := by
  have hc : c.codeAt c.ip [0xE8, B m (p + 1), B m (p + 2)] := by
    rw [hip]
    refine hi.codeAt _ (by simp) fun i hi => ?_
    match i, hi with
    | 0, _ => exact h0
    | 1, _ => rfl
    | 2, _ => rfl
  have hst := step_enc (K := K) (i := .call (word (B m (p + 1)) (B m (p + 2)))) ⟨by simp, fun _ => rfl⟩ hc
  refine hst.trans ?_
  rw [ht, ofNat_add', ← hip]
  rfl

/-! ## A history -/

/-- Record 0: a function `f`; record 1: a variable `x`. -/
def vf : VarDecl := ⟨0, vtFun ||| vtInt ||| vtLocGlob, 0, 0, 0, none⟩
def vx : VarDecl := ⟨1, vtInt ||| vtLocGlob, 0, 0, 0, none⟩

def g0 : S := { (init []) with code := 0x102 }
def g1 : S := { g0 with vars := g0.vars.set 0 vf }
def g2 : S := { g1 with vars := g1.vars.set 1 vx }
def g3 : S := after (output [0xE8]) g2
def g4 : S := after (emitGlobalRefRel 0) g3
def g5 : S := after (output [0xA1]) g4
def g6 : S := after (emitGlobalRef 1) g5
def g7 : S := after (output [0x8B, 0x0E]) g6
def g8 : S := after (emitGlobalRef 1) g7
def g9 : S := after (emitGlobalLabel 0) g8
def g10 : S := after (output [0xE8]) g9
def g11 : S := after (emitGlobalRefRel 0) g10
def g12 : S := after (emitGlobalLabel 1) g11

/-- `CALL f; MOV AX, x; MOV CX, x; f: CALL f; x:` -/
theorem hist : Linked [.lab 1 0x10F, .ref 0 0xE8 true 0x10D, .lab 0 0x10C, .ref 1 0x0E false 0x10A, .ref 1 0xA1 false 0x106, .ref 0 0xE8 true 0x103, .new 1, .new 0] g12 := by
  have b0 : Linked [] g0 := .start _ (by decide)
  have b1 : Linked [.new 0] g1 := .new b0 (by decide) (by decide) rfl rfl
  have b2 : Linked [.new 1, .new 0] g2 := .new b1 (by decide) (by decide) rfl rfl
  have b4 : Linked [.ref 0 0xE8 true 0x103, .new 1, .new 0] g4 := Linked.refRel (s := g2) (s1 := g3) (s' := g4) (bs := []) (op := 0xE8) b2 ⟨by decide +kernel, by decide +kernel, by decide +kernel⟩
    (by unfold Room; decide +kernel) (by decide) (by decide) (goes_ok (by decide +kernel)) (goes_ok (by decide +kernel))
  have b6 : Linked [.ref 1 0xA1 false 0x106, .ref 0 0xE8 true 0x103, .new 1, .new 0] g6 := by
    have := Linked.ref (s := g4) (s1 := g5) (s' := g6) (v := 1) (bs := []) (op := 0xA1) b4 ⟨by decide +kernel, by decide +kernel, by decide +kernel⟩
      (by unfold Room; decide +kernel) (by decide) (by decide) (by decide) (goes_ok (by decide +kernel)) (goes_ok (by decide +kernel))
    rwa [show g4.code + ([] : List Byte).length + 1 = 0x106 by decide +kernel] at this
  have b8 : Linked [.ref 1 0x0E false 0x10A, .ref 1 0xA1 false 0x106, .ref 0 0xE8 true 0x103, .new 1, .new 0] g8 := by
    have := Linked.ref (s := g6) (s1 := g7) (s' := g8) (v := 1) (bs := [0x8B]) (op := 0x0E) b6 ⟨by decide +kernel, by decide +kernel, by decide +kernel⟩
      (by unfold Room; decide +kernel) (by decide) (by decide) (by decide) (goes_ok (by decide +kernel)) (goes_ok (by decide +kernel))
    rwa [show g6.code + ([0x8B] : List Byte).length + 1 = 0x10A by decide +kernel] at this
  have b9 : Linked [.lab 0 0x10C, .ref 1 0x0E false 0x10A, .ref 1 0xA1 false 0x106, .ref 0 0xE8 true 0x103, .new 1, .new 0] g9 := by
    have := Linked.lab (s := g8) (s' := g9) (v := 0) b8 (by decide) (by
      intro x hx
      obtain ⟨h1, h2⟩ := toVar_mem hx
      simp only [sites, st, List.mem_cons, List.not_mem_nil, or_false] at h1
      rcases h1 with rfl | rfl | rfl
      · exact absurd h2 (by decide)
      · exact absurd h2 (by decide)
      · exact ⟨by decide +kernel, fun _ => by decide +kernel⟩) (goes_ok (by decide +kernel))
    rwa [show g8.code = 0x10C by decide +kernel] at this
  have b11 : Linked [.ref 0 0xE8 true 0x10D, .lab 0 0x10C, .ref 1 0x0E false 0x10A, .ref 1 0xA1 false 0x106, .ref 0 0xE8 true 0x103, .new 1, .new 0] g11 := by
    have := Linked.refRel (s := g9) (s1 := g10) (s' := g11) (v := 0) (bs := []) (op := 0xE8) b9 ⟨by decide +kernel, by decide +kernel, by decide +kernel⟩
      (by unfold Room; decide +kernel) (by decide) (by decide) (goes_ok (by decide +kernel)) (goes_ok (by decide +kernel))
    rwa [show g9.code + ([] : List Byte).length + 1 = 0x10D by decide +kernel] at this
  have := Linked.lab (s := g11) (s' := g12) (v := 1) b11 (by decide) (by
      intro x hx
      obtain ⟨h1, h2⟩ := toVar_mem hx
      simp only [sites, SccLink.st, Site.put, List.map, List.mem_cons, List.not_mem_nil, or_false] at h1
      rcases h1 with rfl | rfl | rfl | rfl
      · exact absurd h2 (by decide)
      · exact ⟨by decide +kernel, fun h => absurd h (by decide)⟩
      · exact ⟨by decide +kernel, fun h => absurd h (by decide)⟩
      · exact absurd h2 (by decide)) (goes_ok (by decide +kernel))
  rwa [show g11.code = 0x10F by decide +kernel] at this

end SccLink

namespace Props
open Prog Text Scc SccCode SccGen SccJump SccFix SccLayout SccLink I86 SccWit
open I86.Cpu hiding lo hi rd

/-- **C36** (partial, global names): Let the compiler declare names, emit instructions with references to them (before or after their address is
known), give them addresses, and do anything else that leaves the references alone, in any order (`Linked`).  Then every reference to a name with
an address, as computed from the history alone (`sites`), is right: the operand of an instruction is the address of the name, a call calls it,
and a jump (which may have been shortened) goes to it.

Partial: `Linked` assumes what is wrong otherwise: a function is only called, not used as a value, before its address is known
(`C36_pointer_violated`), and no label follows a reference to it directly (`C36_start_violated`). -/
theorem C36_global_partial (es : List SccLink.Ev) (s : S) (h : Linked es s) (x : Site) (hx : x ∈ sites es) (a : Nat) (ha : x.tgt = .inr a) :
    (x.rel = false → s.out.get (x.pos - 1 - codeStart) = x.op ∧ I86.word (s.out.get (x.pos - codeStart)) (s.out.get (x.pos + 1 - codeStart)) = BitVec.ofNat 16 a) ∧
    ∀ (K : Contract) (c : Cpu), (∀ y, x.pos - 1 ≤ y → y < x.pos + 2 → rdb c.mem c.cs (BitVec.ofNat 16 y) = s.out.get (y - codeStart)) →
      x.rel = true → c.ip = BitVec.ofNat 16 (x.pos - 1) →
        (x.op = 0xE8 → c.step K = .next { c.push (BitVec.ofNat 16 (x.pos + 2)) with ip := BitVec.ofNat 16 a }) ∧
        (x.op = 0xE9 → Reach K c (· = { c with ip := BitVec.ofNat 16 a })) := by
  have hi := h.inv
  obtain ⟨p1, p2, p3, p4⟩ := hi.inside x hx
  obtain ⟨q1, q2⟩ := hi.ops x hx
  have hg := hi.goes x hx a ha
  obtain ⟨tgt, op, rel, pos⟩ := x
  obtain ⟨p, rfl⟩ : ∃ p, pos = p + 1 := ⟨pos - 1, by simp only at p1; omega⟩
  simp only [Nat.add_sub_cancel] at *
  refine ⟨fun hr => ?_, fun K c himg hr hip => ?_⟩
  · subst hr
    rcases hg with hg | ⟨he, _⟩
    · rw [Nat.add_sub_cancel] at hg
      have e := hg.2
      simp only [Bool.false_eq_true, if_false] at e
      exact ⟨hg.1, (e.trans (BitVec.zero_add _)).symm⟩
    · exact absurd (q2 he) (by decide)
  · subst hr
    have himg : Img s.out c p (p + 3) := himg
    refine ⟨fun he => ?_, fun he => ?_⟩
    · subst he
      rcases hg with hg | ⟨he, _⟩
      · rw [Nat.add_sub_cancel] at hg
        exact call_run hg.1 hg.2 K hip himg
      · exact absurd he (by decide)
    · subst he
      rcases hg with hg | ⟨_, hg⟩
      · rw [Nat.add_sub_cancel] at hg
        exact Long.run ⟨hg.1, hg.2⟩ K hip himg
      · rw [Nat.add_sub_cancel] at hg
        exact Short.run hg K hip (himg.mono (by omega) (by omega))

/-- **C36** (partial, global names): giving a name its address changes nothing in the output but the references to the name. -/
theorem C36_global_rest_partial (es : List SccLink.Ev) (s s' : S) (v : Nat) (h : Linked es s) (hv : SccLink.st es v ≠ .none)
    (hk : ∀ x ∈ toVar v (sites es), x.rel = ((s.vars.get v).type &&& vtFun != 0) ∧ (x.rel = true → x.pos + 2 ≠ s.code)) (he : emitGlobalLabel v s = .ok () s')
    (a : Nat) (ha : codeStart ≤ a ∧ a < codeStart + outputMax) (hn : ∀ x ∈ toVar v (sites es), a < x.pos - 1 ∨ x.pos + 2 ≤ a) :
    s'.out.get (a - codeStart) = s.out.get (a - codeStart) :=
  (h.inv.lab hv hk he).2 a ha hn

/-- The history meets the hypothesis: five references. -/
example : ∀ x ∈ sites [.lab 1 0x10F, .ref 0 0xE8 true 0x10D, .lab 0 0x10C, .ref 1 0x0E false 0x10A, .ref 1 0xA1 false 0x106, .ref 0 0xE8 true 0x103, .new 1, .new 0],
    x.tgt = .inr 0x10F ∧ x.rel = false ∧ I86.word (g12.out.get (x.pos - codeStart)) (g12.out.get (x.pos + 1 - codeStart)) = 0x10F ∨ x.tgt = .inr 0x10C ∧ x.rel = true := by
  intro x hx
  have h := fun a ha => (C36_global_partial _ _ SccLink.hist x hx a ha).1
  simp only [sites, SccLink.st, Site.put, List.map, List.mem_cons, List.not_mem_nil, or_false] at hx
  rcases hx with rfl | rfl | rfl | rfl
  · exact .inr ⟨by decide, rfl⟩
  · exact .inl ⟨by decide, rfl, (h 0x10F (by decide) rfl).2⟩
  · exact .inl ⟨by decide, rfl, (h 0x10F (by decide) rfl).2⟩
  · exact .inr ⟨by decide, rfl⟩

/-- The code of this history. -/
example : (image g12).drop 2 = [0xE8, 0x07, 0x00, 0xA1, 0x0F, 0x01, 0x8B, 0x0E, 0x0F, 0x01, 0xE8, 0xFD, 0xFF] := by decide +kernel

/-- **C36** is violated: the address of a function that is used as a value before the function is defined is taken to be relative.  The operand of
`MOV AX, g` (at 10Ah) is 12h; the address of `g` is 11Fh.  If `g` is defined first the program returns 7. -/
theorem C36_pointer_violated :
    ((compile 40 (asc "int g();f(){int(*p)();p=g;return p();}g(){return 7;}_start(){return f();}")).toOption.map fun r => ((r.1.drop 0x0A).take 3, (r.1.drop 0x1F).take 6)) =
      some ([0xB8, 0x12, 0x00], [0x55, 0x89, 0xE5, 0xB8, 0x07, 0x00]) ∧
    result .real (asc "int g();f(){int(*p)();p=g;return p();}g(){return 7;}_start(){return f();}") ≠ some 7 ∧
    result .real (asc "int g();g(){return 7;}f(){int(*p)();p=g;return p();}_start(){return f();}") = some 7 := by decide +kernel

end Props
