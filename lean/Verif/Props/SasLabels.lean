import Verif.Props.SasFix
import Verif.Props.SasIds
/-!
# C20, C21: label references and fixup nodes of the assembler
-/
namespace Props
open Sas I86 Text Prog Props.SasFix

theorem exists_ok {x : Res S Unit} {P : S → Prop} (h : match x with | .ok _ s => P s | .err _ => False) : ∃ s, x = .ok () s ∧ P s := by
  cases x with
  | ok a s => exact ⟨s, rfl, h⟩
  | err e => exact h.elim

instance {x : Res S Unit} {P : S → Prop} [DecidablePred P] : Decidable (match x with | .ok _ s => P s | .err _ => False) :=
  match x with
  | .ok _ s => inferInstanceAs (Decidable (P s))
  | .err _ => inferInstanceAs (Decidable False)

/-! ## C20 -/

/-- **C20.**  If the assembler accepts a file in which no label is placed at address -1, then every operand it emitted holds the
right value: the constant part plus the addresses of the labels in it, whether these were known when the operand was emitted or
were filled in later.  `Holds` says what that means for a word, a sign-extended byte and the displacement of a jump, call or
short branch; the displacement of a short branch is right modulo 256.  A label has one address, and operands lie within the image
and do not overlap. -/
theorem C20_label_references {inp : List Byte} {s : S} (h : Sas.run inp = .ok () s) (hm : ∀ d ∈ s.gDefs, d.2 ≠ -1) :
    (∀ r ∈ s.gRefs, ∀ t, SumD s.gDefs r.labs t → Holds s.out r (r.addend + t)) ∧
    (∀ k v v', (k, v) ∈ s.gDefs → (k, v') ∈ s.gDefs → v = v') ∧
    (∀ r ∈ s.gRefs, r.off + RefK.size r.kind ≤ s.out.size) ∧
    s.gRefs.Pairwise (fun r o => o.off + RefK.size o.kind ≤ r.off) := by
  obtain ⟨f, c, i⟩ := run_inv h hm
  refine ⟨fun r hr t ht => ?_, i.defUniq, i.inOut, i.layout⟩
  rcases i.val r hr with ⟨_, t', h1, h2⟩ | ⟨k, l, t', h1, h2, h3, h4⟩
  · rw [ht.uniq i.defUniq h1]; exact h2
  · rw [h2] at ht
    obtain ⟨k', v, h5, t'', h6, h7, h8, h9⟩ : ∃ k' v, k = k' ∧ ∃ t'', (k, v) ∈ s.gDefs ∧ SumD s.gDefs l t'' ∧ t = v + t'' ∧ True := by
      cases ht with
      | cons a b => exact ⟨k, _, rfl, _, a, b, rfl, trivial⟩
    subst h8
    rw [h7.uniq i.defUniq h3]
    rcases h4 with ⟨h4, _⟩ | ⟨v', h4, h5⟩
    · exact absurd h6 (h4 v)
    · rw [i.defUniq _ _ _ h6 h4]
      have : r.addend + (v' + t') = r.addend + t' + v' := by omega
      rw [this]; exact h5

/-- A short branch reaches its label if that is near enough. -/
theorem C20_short_branch {inp : List Byte} {s : S} (h : Sas.run inp = .ok () s) (hm : ∀ d ∈ s.gDefs, d.2 ≠ -1) {r : Ref}
    (hr : r ∈ s.gRefs) (hk : r.kind = .rel8) {k : Nat} {v : Int} (hl : r.labs = [k]) (ha : r.addend = 0) (hd : (k, v) ∈ s.gDefs)
    (hn : -128 ≤ v - (r.va + 1) ∧ v - (r.va + 1) < 128) : r.va + 1 + (byteAt s.out r.off).toInt = v := by
  have := (C20_label_references h hm).1 r hr v (by rw [hl]; have := SumD.cons hd .nil; rwa [Int.add_zero] at this)
  unfold Holds at this
  rw [hk] at this
  simp only at this
  rw [this, ha, BitVec.toInt_ofInt, Int.bmod_eq_of_le (by omega) (by omega)]
  omega

/-- The result of assembling a text. -/
def asmOk (src : String) (out : List Byte) : Bool :=
  match Sas.assemble (asc src) with
  | .ok o => o.toList == out
  | .error _ => false

/-- A file meeting the hypotheses of C20, with references of all kinds in both directions. -/
def sampleSrc : String := "org 256\nx: call y\n jne .l\n mov ax,[bx+y]\n.l: dw x\ny: db 1"

example : ∃ s, Sas.run (asc sampleSrc) = .ok () s ∧ (∀ d ∈ s.gDefs, d.2 ≠ -1) ∧ s.gRefs.length = 4 ∧ s.gDefs.length = 3 ∧
    s.out.toList = [0xE8, 8, 0, 0x75, 4, 0x8B, 0x87, 11, 1, 0, 1, 1] := by
  refine exists_ok ?_
  decide +kernel

/-- A label that is never defined is accepted, and its reference is left without an address. -/
theorem C20_undefined_label_violated : asmOk "jmp x" [0xE9, 0xFD, 0xFF] = true := by decide +kernel

/-- `DW` of a label that is defined later gives 0 and is never filled in: here the label is at 2. -/
theorem C20_dw_forward_violated : asmOk "dw x\nx: dw x" [0, 0, 2, 0] = true := by decide +kernel

/-- The distance of a short branch is not checked: this jump from 1002 to 0 leads to 1024. -/
theorem C20_range_violated : asmOk "x: org 1000\n jne x" [0x75, 0x16] = true := by decide +kernel

/-- In a memory operand a label is added even after a minus: `[5-x]` with x = 256 is taken for `[5+x]`. -/
theorem C20_minus_label_violated : asmOk "org 256\nx: mov bx,[5-x]" [0x8B, 0x1E, 5, 1] = true := by decide +kernel

/-- A label at address -1 is taken for one without address: the jump to it is taken for a forward reference. -/
theorem C20_minus_one_violated : asmOk "org ~0\nx: dw x\n dw x" [0, 0, 0, 0] = true := by decide +kernel

/-- With [BP+label] and a label that is not yet known the assembler emits a register operand and no displacement. -/
theorem C20_bp_forward_violated : asmOk "mov bx,[bp+x]\nx:" [0x8B, 0xDE] = true := by decide +kernel

/-! ## C21 -/

/-- The states between the statements of a file. -/
inductive Between (inp : List Byte) : S → Prop
  | start {ids : IdTab} {s : S} : addAll emptyTab builtins = .ok ids → getToken (init ids inp) = .ok () s → Between inp s
  | step {s s' : S} : Between inp s → Sas.step s = .ok () s' → Between inp s'

theorem between_i {inp : List Byte} {s : S} (h : Between inp s) : I [] s := by
  induction h with
  | start _ e => exact tri_getToken _ _ _ (init_i0 _ _) e
  | step _ e ih => exact tri_step _ _ _ ih e

/-- **C21.**  Between any two statements, unless a label was placed at address -1: the free nodes form a chain, the pending
references of every label used but not defined form a chain, no node occurs twice in these chains, and all are nodes of the array.
The nodes of a label are exactly its pending references, in order.  As long as no label was given up with references pending,
no node is missing from the chains; so `AddFixupHere` runs out of nodes only if all 600 hold pending references. -/
theorem C21_fixup_nodes {inp : List Byte} {s : S} (h : Between inp s) (hm : ∀ d ∈ s.gDefs, d.2 ≠ -1) :
    ∃ (free : List Nat) (ch : Nat → List Nat),
      Chain s.fixups s.nextFixup free ∧
      (∀ i, Pend s i → Chain s.fixups (s.labels i).fix (ch i)) ∧
      (∀ i, ¬ Pend s i → ch i = []) ∧
      free.Nodup ∧ (∀ i, (ch i).Nodup) ∧
      (∀ i, ∀ n ∈ free, n ∉ ch i) ∧ (∀ i j, i ≠ j → ∀ n ∈ ch i, n ∉ ch j) ∧
      (∀ n ∈ free, n < 600) ∧ (∀ i, ∀ n ∈ ch i, n < 600) ∧
      (∀ i, Pend s i → (ch i).map (fun n => (kindOf (s.fixups n).ty, (s.fixups n).off)) =
        (s.gRefs.filter fun r => r.pend == some (s.labels i).gInst).map fun r => (r.kind, r.off)) ∧
      (s.gDropped = false → ∀ n < 600, n ∈ free ∨ ∃ i, n ∈ ch i) ∧
      (s.gDropped = false → s.nextFixup = none → ∀ n < 600, ∃ i, Pend s i ∧ n ∈ ch i) := by
  rcases (between_i h).2 with ⟨d, h1, h2⟩ | ⟨⟨free, ch, i⟩, _⟩
  · exact absurd h2 (hm d h1)
  · refine ⟨free, ch, i.cfree, i.chain, i.empty, i.ndF, i.ndC, fun j n hn => i.disFC j n hn, fun j k hjk n hn => i.disCC j k n hjk hn,
      i.ltF, i.ltC, i.refs, i.total, fun hd hn n hn6 => ?_⟩
    have hf : free = [] := by have := i.cfree; rw [hn] at this; exact this.none_eq
    rcases i.total hd n hn6 with h | ⟨j, h⟩
    · rw [hf] at h; cases h
    · refine ⟨j, ?_, h⟩
      apply Classical.byContradiction
      intro hp
      rw [i.empty j hp] at h; cases h

/-- A node is taken exactly when an operand is emitted whose label has no address, and is the only way to take one: without a free
node the assembler stops with a failed assertion. -/
theorem C21_out_of_nodes {s : S} (h : s.nextFixup = none) (i : Nat) (ty : FixT) : addFixupHere i ty s = .err .assertFail := by
  unfold addFixupHere
  rw [bind_run, getS_run]
  simp only [h, fail_run]

/-- The nodes of a local label that is given up undefined are lost: after this program no label is pending, yet node 0 is not on
the free list (it holds nodes 1 to 599). -/
theorem C21_leak_violated : ∃ s, Sas.run (asc "x: jmp .l\ny:") = .ok () s ∧ s.gDropped = true ∧ s.nextFixup = some 1 ∧
    ((List.range 600).all fun n => (s.fixups n).next == if n + 1 < 600 ∧ n ≠ 0 then some (n + 1) else none) = true := by
  refine exists_ok ?_
  decide +kernel

example : ∃ s, Sas.run (asc sampleSrc) = .ok () s ∧ (∀ d ∈ s.gDefs, d.2 ≠ -1) ∧ s.gDropped = false := by
  refine exists_ok ?_
  decide +kernel

end Props
