import Verif.Props.SccGenExpr
/-!
# An example for the theorems about compiled expressions (C43)
-/
namespace SccGen
open Prog Text Scc SccCode Props.SccLex Props.SccIds I86
open I86.Cpu hiding lo hi rd

/-! ## An example: `a*b-(3+a)/2;` with the parameters `a` at BP+4 and `b` at BP+6 -/

/-- The identifiers of the example. -/
def exNames : List (List Byte) := builtins.map asc ++ [asc "a"] ++ [asc "b"]

def exOff (x : Nat) : Int := if x = 40 then 4 else 6

def exS0 : S := addBuiltin (addBuiltin ((builtins.map asc).foldl addBuiltin (init [])) (asc "a")) (asc "b")

/-- The compiler in the body of the function. -/
def exS : S :=
  { exS0 with lookup := (exS0.lookup.set 40 (some 0)).set 41 (some 1), vars := (exS0.vars.set 0 { exS0.vars.get 0 with type := vtInt ||| vtLocOff, offset := 4 }).set 1 { exS0.vars.get 1 with type := vtInt ||| vtLocOff, offset := 6 }, code := 0x200, dead := false, labelCount := 1 }

def exE : E := .bin .sub (.bin .mul (.var 40) (.var 41)) (.bin .div (.bin .add (.lit 3) (.var 40)) (.lit 2))

def exTs : List Tk := [.id 40, .sym 0x2A 3, .id 41, .sym 0x2D 4, .sym 0x28 precStop, .num 3, .sym 0x2B 4, .id 40, .sym 0x29 precStop, .sym 0x2F 3, .num 2]

def exText : List Byte := [0x20, 0x61, 0x2A, 0x62, 0x2D, 0x28, 0x33, 0x2B, 0x61, 0x29, 0x2F, 0x32, 0x3B, 0x7D, 0x0A]

theorem exIds : Ids exS exNames := by
  have h1 := addBuiltin_ids (builtins_ids []) (asc "a") (by decide +kernel) (by decide +kernel)
  have h2 := addBuiltin_ids h1 (asc "b") (by decide +kernel) (by decide +kernel)
  exact h2

theorem exReady : Ready exS exNames exE where
  dead := rfl
  spAdj := by decide +kernel
  push := by decide +kernel
  reg := by decide +kernel
  zf := by decide +kernel
  ge := by decide +kernel
  room := by decide +kernel
  ids := exIds
  buf := by decide +kernel

theorem exLocals : Locals exOff (Vars exE) exS := by
  intro x hx
  have : x = 40 ∨ x = 41 := by simpa [Vars, exE, or_comm, or_left_comm] using hx
  obtain rfl | rfl := this
  · exact ⟨by decide, by decide, 0, by decide +kernel, by decide +kernel, by decide +kernel⟩
  · exact ⟨by decide, by decide, 1, by decide +kernel, by decide +kernel, by decide +kernel⟩

theorem exShows : Shows 10 exE exTs :=
  .bin 10 .sub (ts := [.id 40, .sym 0x2A 3, .id 41]) (us := [.sym 0x28 precStop, .num 3, .sym 0x2B 4, .id 40, .sym 0x29 precStop, .sym 0x2F 3, .num 2]) (by decide)
    (.bin 4 .mul (ts := [.id 40]) (us := [.id 41]) (by decide) (.var 3 40) (.var 2 41))
    (.bin 3 .div (ts := [.sym 0x28 precStop, .num 3, .sym 0x2B 4, .id 40, .sym 0x29 precStop]) (us := [.num 2]) (by decide)
      (.par 3 (ts := [.num 3, .sym 0x2B 4, .id 40]) (.bin 10 .add (ts := [.num 3]) (us := [.id 40]) (by decide) (.lit 4 3) (.var 3 40))) (.lit 2 2))

theorem exSrc : Src exNames exText (exTs ++ [.sym 0x3B precStop, .sym 0x7D precStop]) := by
  have na : exNames[40]? = some [0x61] := by decide +kernel
  have nb : exNames[41]? = some [0x62] := by decide +kernel
  have wa : Props.SccIds.Word [0x61] := ⟨0x61, [], rfl, by decide, by simp⟩
  have wb : Props.SccIds.Word [0x62] := ⟨0x62, [], rfl, by decide, by simp⟩
  have aft : ∀ (c : Byte) (r : List Byte), isIdChar c = false ∧ c ≠ 0x40 ∧ c ≠ 0x60 → After (c :: r) := by
    intro c r h d hd; cases hd; exact h
  have h0 : Src exNames [0x0A] [] := .nil _
  have h1 := Src.sym (ws := []) .brace .nil (by unfold Munch; decide) (by decide) h0
  have h2 := Src.sym (ws := []) .semi .nil (by unfold Munch; decide) (by decide) h1
  have h3 := Src.num (ws := []) 2 (by decide) .nil (aft _ _ (by decide)) h2
  have h4 := Src.sym (ws := []) (.bin .div) .nil (by unfold Munch; decide) (by decide) h3
  have h5 := Src.sym (ws := []) .cls .nil (by unfold Munch; decide) (by decide) h4
  have h6 := Src.id (ws := []) 40 na wa .nil (aft _ _ (by decide)) (by decide) h5
  have h7 := Src.sym (ws := []) (.bin .add) .nil (by unfold Munch; decide) (by decide) h6
  have h8 := Src.num (ws := []) 3 (by decide) .nil (aft _ _ (by decide)) h7
  have h9 := Src.sym (ws := []) .opn .nil (by unfold Munch; decide) (by decide) h8
  have h10 := Src.sym (ws := []) (.bin .sub) .nil (by unfold Munch; decide) (by decide) h9
  have h11 := Src.id (ws := []) 41 nb wb .nil (aft _ _ (by decide)) (by decide) h10
  have h12 := Src.sym (ws := []) (.bin .mul) .nil (by unfold Munch; decide) (by decide) h11
  exact Src.id (ws := [0x20]) 40 na wa (.blank _ _ (by decide) (by decide) .nil) (aft _ _ (by decide)) (by decide) h12

theorem exStat : Stat exE := by
  simp [exE, Stat, cst, In16]

/-- The values of the parameters. -/
def exρ (x : Nat) : Word := if x = 40 then 5 else 7

theorem exDyn (i : Bool) : Dyn i exρ exE ∧ ev exρ exE = some 31 := by
  refine ⟨?_, by decide⟩
  simp [exE, Dyn, cst, ev, exρ]
  intro k _ w hw
  cases hw
  decide

/-- The processor at the beginning of the code: the parameters are on the stack. -/
def exCpu (code : List Byte) : Cpu :=
  { ax := 0, cx := 0, dx := 0, bx := 0, sp := 0xFFF0, bp := 0xFFF0, si := 0, di := 0, es := 0, cs := 0, ss := 0, ds := 0, ip := 0x200,
    cf := none, zf := none, sf := none, of := none,
    mem := (((code.foldl (fun (p : Mem 20 × Nat) b => (p.1.set p.2 b, p.2 + 1)) (Mem.const 0 20, 0x200)).1).set 0xFFF4 5).set 0xFFF6 7 }

theorem exMach : Mach exOff exρ (Vars exE) 0x300 (nest exE) (exCpu []) := by
  refine ⟨rfl, by decide, ?_, ?_⟩ <;> intro x hx
  all_goals
    have : x = 40 ∨ x = 41 := by simpa [Vars, exE, or_comm, or_left_comm] using hx
    obtain rfl | rfl := this <;> decide +kernel
end SccGen

namespace Props
open Prog Text Scc SccCode SccGen Props.SccLex I86
open I86.Cpu hiding lo hi rd

/-- `return a*b-(3+a)/2;` returns 31 if `a` is 5 and `b` is 7; `exMach` is a processor that meets the conditions. -/
example : ∃ s', (∃ N, ∀ n, N ≤ n → parseReturn (run n) (at' exS exText) = .ok () s') ∧
    ∀ (K : Contract) (c : Cpu), c.ip = 0x200 → Image exS s' c → Mach exOff exρ (Vars exE) s'.code (nest exE) c → c.sp.toNat + 3 < 2 ^ 16 →
      Reach K c fun c' => c'.ax = 31 ∧ c'.sp = c.sp + 4 ∧ c'.ip = rdw c.mem c.ss (c.sp + 2) := by
  obtain ⟨s', h1, _, _, _, _, _, h2⟩ := C43_return_partial exS exNames exOff exE exTs exText (.sym 0x7D precStop) exReady rfl exLocals exShows exSrc exStat
  exact ⟨s', h1, fun K c hip hi hm hs => (h2 K c exρ 31 hip hi hm hs (exDyn _).1 (exDyn true).2).mono fun c' h => ⟨h.1, h.2.2.2.1, h.2.2.1⟩⟩

end Props
