import Verif.Props.SccProgProp
import Verif.Props.SccStmEx
/-!
# An example for the theorem about compiled programs (C51)
-/
namespace SccTop
open Prog Text Scc SccCode SccGen SccStm SccHead SccLayout Props.SccLex Props.SccIds I86

/-- `int a(int b){return b;}`. -/
def exA : Fn := ⟨false, asc "a", [asc "b"], [], .seq (.ret (some (.var 41))) .nil⟩

/-- `int _start(int a,int b){while(b){a+=b;b--;}return a;}`; the parameter hides the function. -/
def exB : Fn := ⟨false, asc "_start", [asc "a", asc "b"], [], exT⟩

def exSrc : List Byte := asc "int a(int b){return b;}\nint _start(int a,int b){while(b){a+=b;b--;}return a;}\n"

def exN : List (List Byte) := builtins.map asc ++ [asc "a", asc "b"]

theorem exAdd : exA.add (builtins.map asc) = exN ∧ exB.add exN = exN := by decide +kernel

theorem aft (c : Byte) (r : List Byte) (h : isIdChar c = false ∧ c ≠ 0x40 ∧ c ≠ 0x60) : After (c :: r) := by
  intro d hd; cases hd; exact h

theorem bl : Gap [0x20] := .blank _ _ (by decide) (by decide) .nil
theorem nl10 : Gap [0x0A] := .blank _ _ (by decide) (by decide) .nil

theorem na : exN[40]? = some (asc "a") := by decide +kernel
theorem nb : exN[41]? = some (asc "b") := by decide +kernel
theorem nw : exN[31]? = some (asc "while") := by decide +kernel
theorem nr : exN[19]? = some (asc "return") := by decide +kernel
theorem wa : Word (asc "a") := ⟨0x61, [], rfl, by decide, by simp⟩
theorem wb : Word (asc "b") := ⟨0x62, [], rfl, by decide, by simp⟩
theorem ww : Word (asc "while") := ⟨0x77, asc "hile", rfl, by decide, by decide⟩
theorem wr' : Word (asc "return") := ⟨0x72, asc "eturn", rfl, by decide, by decide⟩
theorem ws : Word (asc "_start") := ⟨0x5F, asc "start", rfl, by decide, by decide⟩

theorem exSrcB : SrcTo exN (asc "\n") (asc "while(b){a+=b;b--;}return a;}\n") exFTs := by
  have h : SrcTo exN (asc "\n") (asc "\n") [] := .nil
  have h := SrcTo.sym (ws := []) .brace .nil (by unfold Munch; decide) (by decide) h
  have h := SrcTo.sym (ws := []) .semi .nil (by unfold Munch; decide) (by decide) h
  have h := SrcTo.id 40 na wa bl (aft _ _ (by decide)) (by decide) h
  have h := SrcTo.id (ws := []) 19 nr wr' .nil (aft _ _ (by decide)) (by decide) h
  have h := SrcTo.sym (ws := []) .brace .nil (by unfold Munch; decide) (by decide) h
  have h := SrcTo.sym (ws := []) .semi .nil (by unfold Munch; decide) (by decide) h
  have h := SrcTo.sym (ws := []) .dec .nil (by unfold Munch; decide) (by decide) h
  have h := SrcTo.id (ws := []) 41 nb wb .nil (aft _ _ (by decide)) (by decide) h
  have h := SrcTo.sym (ws := []) .semi .nil (by unfold Munch; decide) (by decide) h
  have h := SrcTo.id (ws := []) 41 nb wb .nil (aft _ _ (by decide)) (by decide) h
  have h := SrcTo.sym (ws := []) (.as (o := .add) rfl) .nil (by unfold Munch; decide) (by decide) h
  have h := SrcTo.id (ws := []) 40 na wa .nil (aft _ _ (by decide)) (by decide) h
  have h := SrcTo.sym (ws := []) .lbrace .nil (by unfold Munch; decide) (by decide) h
  have h := SrcTo.sym (ws := []) .cls .nil (by unfold Munch; decide) (by decide) h
  have h := SrcTo.id (ws := []) 41 nb wb .nil (aft _ _ (by decide)) (by decide) h
  have h := SrcTo.sym (ws := []) .opn .nil (by unfold Munch; decide) (by decide) h
  exact SrcTo.id (ws := []) 31 nw ww .nil (aft _ _ (by decide)) (by decide) h

/-- The text of `_start`. -/
def exTextB : List Byte := asc "\nint _start(int a,int b){while(b){a+=b;b--;}return a;}\n"

theorem exSrcA : SrcTo exN exTextB (asc "return b;}" ++ exTextB) [kw tokReturn, .id 41, semi, rbr] := by
  have h : SrcTo exN exTextB exTextB [] := .nil
  have h := SrcTo.sym (ws := []) .brace .nil (by unfold Munch; decide) (by decide) h
  have h := SrcTo.sym (ws := []) .semi .nil (by unfold Munch; decide) (by decide) h
  have h := SrcTo.id 41 nb wb bl (aft _ _ (by decide)) (by decide) h
  have h := SrcTo.id (ws := []) 19 nr wr' .nil (aft _ _ (by decide)) (by decide) h
  exact h

theorem exDefsB : Defs exN exTextB [exB] exN := by
  have hp : ParText (asc "{while(b){a+=b;b--;}return a;}\n") [asc "a", asc "b"] (asc " a,int b){while(b){a+=b;b--;}return a;}\n") :=
    .more (g1 := []) (g2 := [0x20]) (g3 := []) .nil bl .nil wa (aft _ _ (by decide)) (aft _ _ (by decide)) (.last (g2 := [0x20]) (g3 := []) bl .nil wb (aft _ _ (by decide)))
  have hh : HeadText (asc "_start") (asc "while(b){a+=b;b--;}return a;}\n") [asc "a", asc "b"] (asc " _start(int a,int b){while(b){a+=b;b--;}return a;}\n") :=
    .some (g1 := [0x20]) (g2 := []) (g3 := []) (g4 := []) bl .nil .nil .nil ws (aft _ _ (by decide)) (aft _ _ (by decide)) hp
  refine Defs.fn (g := [0x0A]) (f := exB) nl10 (aft _ _ (by decide)) hh .nil exShowsL (by decide) (exAdd.2.symm ▸ exSrcB) ?_
  rw [exAdd.2]
  exact .nil nl10

theorem exDefs : Defs (builtins.map asc) exSrc [exA, exB] exN := by
  have hp : ParText (asc "{return b;}" ++ exTextB) [asc "b"] (asc " b){return b;}" ++ exTextB) := .last (g2 := [0x20]) (g3 := []) bl .nil wb (aft _ _ (by decide))
  have hh : HeadText (asc "a") (asc "return b;}" ++ exTextB) [asc "b"] (asc " a(int b){return b;}" ++ exTextB) :=
    .some (g1 := [0x20]) (g2 := []) (g3 := []) (g4 := []) bl .nil .nil .nil wa (aft _ _ (by decide)) (aft _ _ (by decide)) hp
  refine Defs.fn (g := []) (f := exA) (cl := false) (ts := [kw tokReturn, .id 41, semi]) .nil (aft _ _ (by decide)) hh .nil
    (.cons (cl' := false) (.ret (ts := [.id 41]) (.var 10 41)) .none) (show 0 + 3 ≤ scopeMax by decide) (exAdd.1.symm ▸ exSrcA) ?_
  rw [exAdd.1]
  exact exDefsB

theorem exRoom : RoomI exN := ⟨by decide +kernel, by decide +kernel⟩

theorem exKw : ∀ w ∈ [asc "a", asc "b", asc "_start"], ¬IsKw w := by unfold IsKw; decide +kernel

theorem exFineA (vis : List (List Byte)) : Fine exN 1 vis exA := by
  have e1 : exA.xs exN = [41] := by decide +kernel
  exact ⟨exKw _ (by decide), fun p hp => exKw p (by simp [exA] at hp; simp [hp]), by simp [exA], by decide, (fun _ h => nomatch h), by decide, trivial, by rw [e1]; simp [exA, Ok, OkE, Stat, Vars, nest, dies, void], by decide⟩

theorem exFineB (vis : List (List Byte)) : Fine exN 1 vis exB := by
  have e2 : exB.xs exN = exXs := by decide +kernel
  refine ⟨exKw _ (by decide), fun p hp => exKw p ?_, by decide, by decide, (fun _ h => nomatch h), by decide, trivial, by rw [e2]; exact exOk _, by decide⟩
  simp [exB] at hp
  rcases hp with rfl | rfl <;> simp

theorem exFine : Fines exN 1 [] [exA, exB] := ⟨exFineA _, exFineB _, trivial⟩

end SccTop

namespace Props
open Prog Text Scc SccCode SccGen SccStm SccHead SccLayout SccTop I86
open I86.Cpu hiding lo hi rd

/-- The program is compiled; if it is started with two numbers `a` and `n` on the stack it returns `a` plus the sum of the numbers up to `n`. -/
example : ∃ img map, (∃ N, ∀ n, N ≤ n → compile n exSrc = .ok (img, map)) ∧
    ∀ (K : Contract) (c : Cpu) (L n : Nat) (a : Word), n < 2 ^ 16 → Ready img exXs L (exρ2 a (BitVec.ofNat 16 n)) c → c.ip = 0x100 → L + 4 ≤ c.sp.toNat →
      Reach K c (Returned 2 L (some (a + BitVec.ofNat 16 (n * (n + 1) / 2))) { c with bp := 0 }) := by
  obtain ⟨img, map, ad, h1, h2, h3, h4, h5⟩ := C51_program_partial exSrc [exA, exB] exN 1 exDefs exFine (by decide +kernel) (by decide +kernel) (by decide +kernel) exRoom (by decide) (by decide)
  have e2 : exB.xs exN = exXs := by decide +kernel
  refine ⟨img, map, h1, fun K c L n a hn hr hip hl => ?_⟩
  have := h4 exB (by simp) rfl K c _ _ L 0 _ _ (e2 ▸ hr) hip hl (exExec K _ _ n a hn) (.inr rfl)
  exact this

/-- Without `_start` it is not a program. -/
example : ∃ N, ∀ n, N ≤ n → compile n (asc "int a(int b){return b;}\n") = .error .fatal := by
  have hp : ParText (asc "{return b;}\n") [asc "b"] (asc " b){return b;}\n") := .last (g2 := [0x20]) (g3 := []) bl .nil wb (aft _ _ (by decide))
  have hh : HeadText (asc "a") (asc "return b;}\n") [asc "b"] (asc " a(int b){return b;}\n") :=
    .some (g1 := [0x20]) (g2 := []) (g3 := []) (g4 := []) bl .nil .nil .nil wa (aft _ _ (by decide)) (aft _ _ (by decide)) hp
  have h : SrcTo exN (asc "\n") (asc "\n") [] := .nil
  have h := SrcTo.sym (ws := []) .brace .nil (by unfold Munch; decide) (by decide) h
  have h := SrcTo.sym (ws := []) .semi .nil (by unfold Munch; decide) (by decide) h
  have h := SrcTo.id 41 nb wb bl (aft _ _ (by decide)) (by decide) h
  have h := SrcTo.id (ws := []) 19 nr wr' .nil (aft _ _ (by decide)) (by decide) h
  have hd : Defs (builtins.map asc) (asc "int a(int b){return b;}\n") [exA] exN := by
    refine Defs.fn (g := []) (f := exA) (cl := false) (ts := [kw tokReturn, .id 41, semi]) .nil (aft _ _ (by decide)) hh .nil
      (.cons (cl' := false) (.ret (ts := [.id 41]) (.var 10 41)) .none) (show 0 + 3 ≤ scopeMax by decide) (exAdd.1.symm ▸ h) ?_
    rw [exAdd.1]
    exact .nil nl10
  exact C51_no_start _ [exA] exN 1 hd ⟨exFineA _, trivial⟩ (by decide +kernel) (by simp) (by decide +kernel) (by decide +kernel) exRoom (by decide) (by decide)

end Props
