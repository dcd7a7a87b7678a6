import Verif.I86.Lemmas
/-!
# Executing known machine code on the specified processor

`Enc bytes i`: the bytes are an encoding of instruction `i`, whatever follows.  `codeAt c off bytes`: the bytes are in
the code segment at `off`.
-/
namespace I86

/-- `bytes` encode `i` (at most seven bytes, so that the fetch window covers them). -/
structure Enc (bytes : List Byte) (i : Instr) : Prop where
  len : bytes.length ≤ 7
  dec : ∀ junk, decode (bytes ++ junk) = some (i, junk)

namespace Cpu

/-- The bytes at `CS:off`. -/
def codeAt (c : Cpu) : Word → List Byte → Prop
  | _, [] => True
  | off, b :: bs => c.rd8 c.cs off = b ∧ codeAt c (off + 1) bs

instance decCodeAt (c : Cpu) : (off : Word) → (bytes : List Byte) → Decidable (codeAt c off bytes)
  | _, [] => .isTrue trivial
  | off, b :: bs =>
    haveI := decCodeAt c (off + 1) bs
    inferInstanceAs (Decidable (c.rd8 c.cs off = b ∧ codeAt c (off + 1) bs))

theorem codeAt_append {c : Cpu} {off : Word} {as bs : List Byte} :
    codeAt c off (as ++ bs) ↔ codeAt c off as ∧ codeAt c (off + BitVec.ofNat 16 as.length) bs := by
  induction as generalizing off with
  | nil => simp [codeAt]
  | cons a as ih =>
    simp only [List.cons_append, codeAt, ih, and_assoc, List.length_cons]
    rw [ofNat_succ_add]

theorem fetch_code {c : Cpu} {off : Word} {bytes : List Byte} (h : codeAt c off bytes) {n : Nat} (hn : bytes.length ≤ n) :
    ∃ junk, c.fetch n off = bytes ++ junk ∧ junk.length = n - bytes.length := by
  induction bytes generalizing off n with
  | nil =>
    refine ⟨c.fetch n off, rfl, ?_⟩
    clear h hn
    induction n generalizing off with
    | zero => rfl
    | succ n ih => simp only [fetch, List.length_cons, List.length_nil]; rw [ih]; rfl
  | cons b bs ih =>
    obtain ⟨n, rfl⟩ : ∃ m, n = m + 1 := ⟨n - 1, by simp only [List.length_cons] at hn; omega⟩
    simp only [List.length_cons] at hn
    obtain ⟨junk, e, hl⟩ := ih h.2 (n := n) (by omega)
    refine ⟨junk, ?_, ?_⟩
    · simp only [fetch, e, h.1, List.cons_append]
    · simp only [List.length_cons]; omega

/-- One step at a known instruction. -/
theorem step_enc {K : Contract} {c : Cpu} {bytes : List Byte} {i : Instr} (he : Enc bytes i) (h : codeAt c c.ip bytes) :
    c.step K = exec K i { c with ip := c.ip + BitVec.ofNat 16 bytes.length } := by
  have hl := he.len
  obtain ⟨junk, e, hj⟩ := fetch_code h (n := window) (by simp only [window]; omega)
  unfold step
  rw [e, he.dec]
  simp only
  have : window - junk.length = bytes.length := by
    rw [hj]; simp only [window]; omega
  rw [this]

theorem decode_enc {c : Cpu} {bytes : List Byte} {i : Instr} (he : Enc bytes i) (h : codeAt c c.ip bytes) :
    ∃ junk, decode (c.fetch window c.ip) = some (i, junk) := by
  have hl := he.len
  obtain ⟨junk, e, hj⟩ := fetch_code h (n := window) (by simp only [window]; omega)
  exact ⟨junk, by rw [e, he.dec]⟩

/-- Code only depends on memory and CS. -/
theorem codeAt_congr {c c' : Cpu} {off : Word} {bytes : List Byte} (hcs : c'.cs = c.cs)
    (h : ∀ i < bytes.length, c'.rd8 c.cs (off + BitVec.ofNat 16 i) = c.rd8 c.cs (off + BitVec.ofNat 16 i))
    (hc : codeAt c off bytes) : codeAt c' off bytes := by
  induction bytes generalizing off with
  | nil => trivial
  | cons b bs ih =>
    refine ⟨?_, ih (fun i hi => ?_) hc.2⟩
    · have := h 0 (by simp)
      rw [ofNat_zero_add] at this
      rw [hcs, this]; exact hc.1
    · rw [ofNat_succ_add]
      exact h (i + 1) (by simp only [List.length_cons]; omega)

/-- A byte of known code. -/
theorem codeAt_get {c : Cpu} {off : Word} {bytes : List Byte} (h : codeAt c off bytes) {i : Nat} (hi : i < bytes.length) :
    c.rd8 c.cs (off + BitVec.ofNat 16 i) = bytes[i] := by
  induction bytes generalizing off i with
  | nil => simp at hi
  | cons b bs ih =>
    cases i with
    | zero => rw [ofNat_zero_add]; exact h.1
    | succ i =>
      rw [← ofNat_succ_add]
      exact ih h.2 (by simpa using hi)

end Cpu
end I86
