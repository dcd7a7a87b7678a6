import Verif.Props.SccGlob
import Verif.Props.SccProgEx
/-!
# An example for the theorem about global variables (C54)
-/
namespace SccGlob
open Prog Text Scc SccCode SccGen SccStm SccHead SccLayout SccLoc SccTop Props.SccLex Props.SccIds I86

/-- `int a=7*6;int b=-300;`. -/
def exGs : List (List Byte × E) := [(asc "a", .bin .mul (.lit 7) (.lit 6)), (asc "b", .un .neg (.lit 300))]

def exGSrc : List Byte := asc "int a=7*6;int b=-300;" ++ exTextB

theorem exInt : intern (builtins.map asc) (asc "a") = builtins.map asc ++ [asc "a"] ∧ intern (builtins.map asc ++ [asc "a"]) (asc "b") = exN := by decide +kernel

theorem exGAdd : addL (builtins.map asc) exGs = exN := by decide +kernel

theorem exGText : LocText exTextB (builtins.map asc) exGs exGSrc := by
  have h2 : SrcTo exN exTextB (asc "-300;" ++ exTextB) [.sym 0x2D 4, .num 300, semi] := by
    have h : SrcTo exN exTextB exTextB [] := .nil
    have h := SrcTo.sym (ws := []) .semi .nil (by unfold Munch; decide) (by decide) h
    have h := SrcTo.num (ws := []) 300 (by decide) .nil (aft _ _ (by decide)) h
    rw [show decimal 300 = asc "300" by decide +kernel] at h
    have h := SrcTo.sym (ws := []) (.un .neg) .nil (by unfold Munch; decide) (by decide) h
    exact h
  have h1 : SrcTo (builtins.map asc ++ [asc "a"]) (asc "int b=-300;" ++ exTextB) (asc "7*6;int b=-300;" ++ exTextB) [.num 7, .sym 0x2A 3, .num 6, semi] := by
    have h : SrcTo (builtins.map asc ++ [asc "a"]) (asc "int b=-300;" ++ exTextB) (asc "int b=-300;" ++ exTextB) [] := .nil
    have h := SrcTo.sym (ws := []) .semi .nil (by unfold Munch; decide) (by decide) h
    have h := SrcTo.num (ws := []) 6 (by decide) .nil (aft _ _ (by decide)) h
    have h := SrcTo.sym (ws := []) (.bin .mul) .nil (by unfold Munch; decide) (by decide) h
    have h := SrcTo.num (ws := []) 7 (by decide) .nil (aft _ _ (by decide)) h
    exact h
  have l2 : LocText exTextB (builtins.map asc ++ [asc "a"]) [(asc "b", .un .neg (.lit 300))] (asc "int b=-300;" ++ exTextB) :=
    .cons (g := []) (g2 := [0x20]) (g3 := []) .nil bl .nil wb (aft _ _ (by decide)) (aft _ _ (by decide)) (by unfold Munch; decide) (.un 10 .neg (.lit 0 300)) (exInt.2.symm ▸ h2) (exInt.2.symm ▸ .nil)
  exact .cons (g := []) (g2 := [0x20]) (g3 := []) .nil bl .nil wa (aft _ _ (by decide)) (aft _ _ (by decide)) (by unfold Munch; decide)
    (.bin 10 .mul (by decide) (.lit _ 7) (.lit _ 6)) (exInt.1.symm ▸ h1) (exInt.1.symm ▸ l2)

end SccGlob

namespace Props
open Prog Text Scc SccCode SccGen SccStm SccHead SccLayout SccTop SccGlob I86
open I86.Cpu hiding lo hi rd

/-- The program with the two variables is compiled; `a` is 42 and `b` is -300, and the function `_start` does what it does without them. -/
example : ∃ img map, (∃ N, ∀ n, N ≤ n → compile n exGSrc = .ok (img, map)) ∧ Word16 img 0x105 42 ∧ Word16 img 0x107 (BitVec.ofInt 16 (-300)) ∧
    ∀ (K : Contract) (c : Cpu) (L n : Nat) (a : Word), n < 2 ^ 16 → Ready img exXs L (exρ2 a (BitVec.ofNat 16 n)) c → c.ip = 0x100 → L + 4 ≤ c.sp.toNat →
      Reach K c (Returned 2 L (some (a + BitVec.ofNat 16 (n * (n + 1) / 2))) { c with bp := 0 }) := by
  obtain ⟨img, map, ad, h1, h2, hv, h3, h4, h5⟩ := C54_globals_partial exGSrc exTextB exGs [exB] exN 1 exGText (exGAdd.symm ▸ exDefsB) (fun p hp => by
      rcases List.mem_cons.1 hp with rfl | hp
      · exact ⟨exKw _ (by simp), by simp [Stat, cst, In16, BOp.exact, fit], 42, rfl⟩
      · rcases List.mem_cons.1 hp with rfl | hp
        · exact ⟨exKw _ (by simp), by simp [Stat, cst, In16, UOp.fold], -300, rfl⟩
        · cases hp) ⟨exFineB _, trivial⟩ (by decide +kernel) (by decide +kernel) (by decide +kernel) exRoom (by decide) (by decide)
  have e2 : exB.xs exN = exXs := by decide +kernel
  refine ⟨img, map, h1, hv 0 (by decide) (fun _ => 0) _ rfl, hv 1 (by decide) (fun _ => 0) _ rfl, fun K c L n a hn hr hip hl => ?_⟩
  have := h4 exB (by simp) rfl K c _ _ L 0 _ _ (e2 ▸ hr) hip hl (exExec K _ _ n a hn) (.inr rfl)
  exact this

end Props
