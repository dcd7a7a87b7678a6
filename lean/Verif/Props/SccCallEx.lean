import Verif.Props.SccProgEx
/-!
# An example for the theorem about compiled programs (C51): a function that calls itself
-/
namespace SccTop.Rec
open Prog Text Scc SccCode SccGen SccStm SccCall SccHead SccLayout Props.SccLex Props.SccIds I86
open SccStm.World (PE PC)

/-- `if(b){a=f(a+b,b-1);}return a;`. -/
def bodyF : St := .seq (.ife (.one (.var 42)) (.seq (.call 41 40 [.bin .add (.var 41) (.var 42), .bin .sub (.var 42) (.lit 1)]) .nil) .nil) (.seq (.ret (some (.var 41))) .nil)

/-- `a=f(a,b);return a;`. -/
def bodyS : St := .seq (.call 41 40 [.var 41, .var 42]) (.seq (.ret (some (.var 41))) .nil)

def fnF : Fn := ⟨false, asc "f", [asc "a", asc "b"], [], bodyF⟩

def fnS : Fn := ⟨false, asc "_start", [asc "a", asc "b"], [], bodyS⟩

def textS : List Byte := asc "\nint _start(int a,int b){a=f(a,b);return a;}\n"

def src : List Byte := asc "int f(int a,int b){if(b){a=f(a+b,b-1);}return a;}" ++ textS

def names : List (List Byte) := builtins.map asc ++ [asc "f", asc "a", asc "b"]

theorem hadd : fnF.add (builtins.map asc) = names ∧ fnS.add names = names := by decide +kernel

theorem nf : names[40]? = some (asc "f") := by decide +kernel
theorem na : names[41]? = some (asc "a") := by decide +kernel
theorem nb : names[42]? = some (asc "b") := by decide +kernel
theorem ni : names[15]? = some (asc "if") := by decide +kernel
theorem nr : names[19]? = some (asc "return") := by decide +kernel
theorem wf : Word (asc "f") := ⟨0x66, [], rfl, by decide, by simp⟩
theorem wi : Word (asc "if") := ⟨0x69, asc "f", rfl, by decide, by decide⟩

def tsF : List Tk :=
  [kw tokIf, opn, .id 42, cls, lbr, .id 41, asg, .id 40, opn, .id 41, .sym 0x2B 4, .id 42, .sym 0x2C precComma, .id 42, .sym 0x2D 4, .num 1, cls, semi, rbr, kw tokReturn, .id 41, semi, rbr]

def tsS : List Tk := [.id 41, asg, .id 40, opn, .id 41, .sym 0x2C precComma, .id 42, cls, semi, kw tokReturn, .id 41, semi, rbr]

theorem srcF : SrcTo names textS (asc "if(b){a=f(a+b,b-1);}return a;}" ++ textS) tsF := by
  have h : SrcTo names textS textS [] := .nil
  have h := SrcTo.sym (ws := []) .brace .nil (by unfold Munch; decide) (by decide) h
  have h := SrcTo.sym (ws := []) .semi .nil (by unfold Munch; decide) (by decide) h
  have h := SrcTo.id 41 na wa bl (aft _ _ (by decide)) (by decide) h
  have h := SrcTo.id (ws := []) 19 nr wr' .nil (aft _ _ (by decide)) (by decide) h
  have h := SrcTo.sym (ws := []) .brace .nil (by unfold Munch; decide) (by decide) h
  have h := SrcTo.sym (ws := []) .semi .nil (by unfold Munch; decide) (by decide) h
  have h := SrcTo.sym (ws := []) .cls .nil (by unfold Munch; decide) (by decide) h
  have h := SrcTo.num (ws := []) 1 (by decide) .nil (aft _ _ (by decide)) h
  have h := SrcTo.sym (ws := []) (.bin .sub) .nil (by unfold Munch; decide) (by decide) h
  have h := SrcTo.id (ws := []) 42 nb wb .nil (aft _ _ (by decide)) (by decide) h
  have h := SrcTo.sym (ws := []) .comma .nil (by unfold Munch; decide) (by decide) h
  have h := SrcTo.id (ws := []) 42 nb wb .nil (aft _ _ (by decide)) (by decide) h
  have h := SrcTo.sym (ws := []) (.bin .add) .nil (by unfold Munch; decide) (by decide) h
  have h := SrcTo.id (ws := []) 41 na wa .nil (aft _ _ (by decide)) (by decide) h
  have h := SrcTo.sym (ws := []) .opn .nil (by unfold Munch; decide) (by decide) h
  have h := SrcTo.id (ws := []) 40 nf wf .nil (aft _ _ (by decide)) (by decide) h
  have h := SrcTo.sym (ws := []) .asgn .nil (by unfold Munch; decide) (by decide) h
  have h := SrcTo.id (ws := []) 41 na wa .nil (aft _ _ (by decide)) (by decide) h
  have h := SrcTo.sym (ws := []) .lbrace .nil (by unfold Munch; decide) (by decide) h
  have h := SrcTo.sym (ws := []) .cls .nil (by unfold Munch; decide) (by decide) h
  have h := SrcTo.id (ws := []) 42 nb wb .nil (aft _ _ (by decide)) (by decide) h
  have h := SrcTo.sym (ws := []) .opn .nil (by unfold Munch; decide) (by decide) h
  have h := SrcTo.id (ws := []) 15 ni wi .nil (aft _ _ (by decide)) (by decide) h
  exact h

theorem srcS : SrcTo names (asc "\n") (asc "a=f(a,b);return a;}\n") tsS := by
  have h : SrcTo names (asc "\n") (asc "\n") [] := .nil
  have h := SrcTo.sym (ws := []) .brace .nil (by unfold Munch; decide) (by decide) h
  have h := SrcTo.sym (ws := []) .semi .nil (by unfold Munch; decide) (by decide) h
  have h := SrcTo.id 41 na wa bl (aft _ _ (by decide)) (by decide) h
  have h := SrcTo.id (ws := []) 19 nr wr' .nil (aft _ _ (by decide)) (by decide) h
  have h := SrcTo.sym (ws := []) .semi .nil (by unfold Munch; decide) (by decide) h
  have h := SrcTo.sym (ws := []) .cls .nil (by unfold Munch; decide) (by decide) h
  have h := SrcTo.id (ws := []) 42 nb wb .nil (aft _ _ (by decide)) (by decide) h
  have h := SrcTo.sym (ws := []) .comma .nil (by unfold Munch; decide) (by decide) h
  have h := SrcTo.id (ws := []) 41 na wa .nil (aft _ _ (by decide)) (by decide) h
  have h := SrcTo.sym (ws := []) .opn .nil (by unfold Munch; decide) (by decide) h
  have h := SrcTo.id (ws := []) 40 nf wf .nil (aft _ _ (by decide)) (by decide) h
  have h := SrcTo.sym (ws := []) .asgn .nil (by unfold Munch; decide) (by decide) h
  exact SrcTo.id (ws := []) 41 na wa .nil (aft _ _ (by decide)) (by decide) h

theorem showsF : ShowsS true 1 false false bodyF tsF.dropLast := by
  have hc : ShowsS false 0 false false (.call 41 40 [.bin .add (.var 41) (.var 42), .bin .sub (.var 42) (.lit 1)])
      [.id 41, asg, .id 40, opn, .id 41, .sym 0x2B 4, .id 42, .sym 0x2C precComma, .id 42, .sym 0x2D 4, .num 1, cls, semi] :=
    .call (by decide) (ts := [.id 41, .sym 0x2B 4, .id 42, .sym 0x2C precComma, .id 42, .sym 0x2D 4, .num 1])
      (.some (.cons (ts := [.id 41, .sym 0x2B 4, .id 42]) (.bin 10 .add (ts := [.id 41]) (us := [.id 42]) (by decide) (.var 4 41) (.var 3 42))
        (.one (.bin 10 .sub (ts := [.id 42]) (us := [.num 1]) (by decide) (.var 4 42) (.lit 3 1)))))
  exact .cons (cl' := false) (.ifs (cl := false) (ts := [.id 42]) (.one (by decide) (.var 10 42)) (.block (d := 0) (cl' := false) (.cons (cl' := false) hc .none)))
    (.cons (cl' := false) (.ret (ts := [.id 41]) (.var 10 41)) .none)

theorem showsS : ShowsS true 0 false false bodyS tsS.dropLast := by
  have hc : ShowsS false 0 false false (.call 41 40 [.var 41, .var 42]) [.id 41, asg, .id 40, opn, .id 41, .sym 0x2C precComma, .id 42, cls, semi] :=
    .call (by decide) (ts := [.id 41, .sym 0x2C precComma, .id 42]) (.some (.cons (ts := [.id 41]) (.var 10 41) (.one (.var 10 42))))
  exact .cons (cl' := false) hc (.cons (cl' := false) (.ret (ts := [.id 41]) (.var 10 41)) .none)

theorem defs : Defs (builtins.map asc) src [fnF, fnS] names := by
  have hS : Defs names textS [fnS] names := by
    have hp : ParText (asc "{a=f(a,b);return a;}\n") [asc "a", asc "b"] (asc " a,int b){a=f(a,b);return a;}\n") :=
      .more (g1 := []) (g2 := [0x20]) (g3 := []) .nil bl .nil wa (aft _ _ (by decide)) (aft _ _ (by decide)) (.last (g2 := [0x20]) (g3 := []) bl .nil wb (aft _ _ (by decide)))
    have hh : HeadText (asc "_start") (asc "a=f(a,b);return a;}\n") [asc "a", asc "b"] (asc " _start(int a,int b){a=f(a,b);return a;}\n") :=
      .some (g1 := [0x20]) (g2 := []) (g3 := []) (g4 := []) bl .nil .nil .nil ws (aft _ _ (by decide)) (aft _ _ (by decide)) hp
    refine Defs.fn (g := [0x0A]) (f := fnS) nl10 (aft _ _ (by decide)) hh .nil showsS (by decide) (hadd.2.symm ▸ srcS) ?_
    rw [hadd.2]
    exact .nil nl10
  have hp : ParText (asc "{if(b){a=f(a+b,b-1);}return a;}" ++ textS) [asc "a", asc "b"] (asc " a,int b){if(b){a=f(a+b,b-1);}return a;}" ++ textS) :=
    .more (g1 := []) (g2 := [0x20]) (g3 := []) .nil bl .nil wa (aft _ _ (by decide)) (aft _ _ (by decide)) (.last (g2 := [0x20]) (g3 := []) bl .nil wb (aft _ _ (by decide)))
  have hh : HeadText (asc "f") (asc "if(b){a=f(a+b,b-1);}return a;}" ++ textS) [asc "a", asc "b"] (asc " f(int a,int b){if(b){a=f(a+b,b-1);}return a;}" ++ textS) :=
    .some (g1 := [0x20]) (g2 := []) (g3 := []) (g4 := []) bl .nil .nil .nil wf (aft _ _ (by decide)) (aft _ _ (by decide)) hp
  refine Defs.fn (g := []) (f := fnF) .nil (aft _ _ (by decide)) hh .nil showsF (by decide) (hadd.1.symm ▸ srcF) ?_
  rw [hadd.1]
  exact hS

theorem room : RoomI names := ⟨by decide +kernel, by decide +kernel⟩

theorem nokw : ∀ w ∈ [asc "a", asc "b", asc "f", asc "_start"], ¬IsKw w := by unfold IsKw; decide +kernel

theorem xsF : fnF.xs names = [41, 42] := by decide +kernel
theorem xsS : fnS.xs names = [41, 42] := by decide +kernel

theorem fine : Fines names 1 [] [fnF, fnS] := by
  have v1 : (fnF.vis ++ []).map (num names) = [40] := by decide +kernel
  have v2 : (fnS.vis ++ (fnF.vis ++ [])).map (num names) = [40] := by decide +kernel
  have hps : ∀ p ∈ [asc "a", asc "b"], ¬IsKw p := fun p hp => nokw p (by simp at hp; rcases hp with rfl | rfl <;> simp)
  refine ⟨⟨nokw _ (by decide), hps, by decide, by decide, (fun _ h => nomatch h), by decide, trivial, ?_, by decide⟩, ⟨nokw _ (by decide), hps, by decide, by decide, (fun _ h => nomatch h), by decide, trivial, ?_, by decide⟩, trivial⟩
  · rw [xsF, v1]; simp [fnF, bodyF, Fn.ys, Ok, OkC, cstC, OkE, Stat, Vars, nest, cst, In16, dies, void, hasCode]
  · rw [xsS, v2]; simp [fnS, bodyS, Fn.ys, Ok, OkC, cstC, OkE, Stat, Vars, nest, dies, void]

/-- The values of the parameters. -/
def env (a b : BitVec 16) (x : Nat) : BitVec 16 := if x = 41 then a else if x = 42 then b else 0

theorem env_upd (a b v : BitVec 16) : upd (env a b) 41 v = env v b := by
  funext x
  simp only [upd, env]
  split <;> simp_all

theorem progF : prog names [fnF, fnS] 40 = some ([41, 42], bodyF) := by
  have h : num names fnF.name = 40 := by decide +kernel
  rw [← xsF]
  unfold prog
  rw [List.find?_cons_of_pos (by simpa using h)]
  rfl

/-- The function adds the numbers up to `n`; `n + 1` calls are active then. -/
theorem execF (K : Contract) : ∀ (n : Nat) (a : BitVec 16), n < 2 ^ 16 →
    ∃ ρ, Exec (prog names [fnF, fnS]) (PE K) (PC K) n bodyF (env a (BitVec.ofNat 16 n)) (.ret (some (a + BitVec.ofNat 16 (n * (n + 1) / 2))) ρ) := by
  intro n
  induction n with
  | zero =>
    intro a _
    refine ⟨env a 0, .seq (.ifF ⟨0, rfl, ⟨trivial, fun _ => trivial⟩, rfl⟩ (.nil _)) (.stop ?_ rfl)⟩
    rw [show a + BitVec.ofNat 16 (0 * (0 + 1) / 2) = a by simp]
    exact .ret rfl trivial
  | succ n ih =>
    intro a hn
    have hne : (BitVec.ofNat 16 (n + 1) : BitVec 16) ≠ 0 := by
      intro e
      have := congrArg BitVec.toNat e
      rw [BitVec.toNat_ofNat, Nat.mod_eq_of_lt hn] at this
      exact absurd this (by simp)
    have e1 : BitVec.ofNat 16 (n + 1) - 1 = BitVec.ofNat 16 n := by rw [BitVec.ofNat_add]; exact BitVec.add_sub_cancel _ 1#16
    obtain ⟨ρ, h⟩ := ih (a + BitVec.ofNat 16 (n + 1)) (by omega)
    rw [BitVec.add_assoc, ← BitVec.ofNat_add, show n + 1 + n * (n + 1) / 2 = (n + 1) * (n + 1 + 1) / 2 by
        rw [show (n + 1) * (n + 1 + 1) = n * (n + 1) + (n + 1) * 2 by ring, Nat.add_mul_div_right _ _ (by decide)]; omega] at h
    refine ⟨_, .seq (.ifT ⟨_, rfl, ⟨trivial, fun _ => trivial⟩, (bne_iff_ne.2 hne).symm⟩ (.seq (.call progF ?_ ?_ h) (.nil _))) (.stop (.ret ?_ trivial) rfl)⟩
    · show [some (a + BitVec.ofNat 16 (n + 1)), some (BitVec.ofNat 16 (n + 1) - 1)] = [some _, some _]
      rw [e1]
      rfl
    · simp [PE, Dyn, cst]
    · rw [env_upd]; rfl

end SccTop.Rec

namespace Props
open Prog Text Scc SccCode SccGen SccStm SccHead SccLayout SccTop I86
open I86.Cpu hiding lo hi rd

/-- `int f(int a,int b){if(b){a=f(a+b,b-1);}return a;} int _start(int a,int b){a=f(a,b);return a;}` is compiled; if it is started with the numbers `a` and `n` on the
stack, and there is room for `n + 1` calls, it returns `a` plus the sum of the numbers up to `n`. -/
example : ∃ img map, (∃ N, ∀ n, N ≤ n → compile n Rec.src = .ok (img, map)) ∧
    ∀ (K : Contract) (c : Cpu) (L n : Nat) (a : Word), n < 2 ^ 16 → Ready img [41, 42] L (Rec.env a (BitVec.ofNat 16 n)) c → c.ip = 0x100 → L + 4 + 14 * (n + 1) ≤ c.sp.toNat →
      Reach K c (Returned 2 L (some (a + BitVec.ofNat 16 (n * (n + 1) / 2))) { c with bp := 0 }) := by
  obtain ⟨img, map, ad, h1, h2, h3, h4, h5⟩ := C51_program_partial Rec.src [Rec.fnF, Rec.fnS] Rec.names 1 Rec.defs Rec.fine (by decide +kernel) (by decide +kernel) (by decide +kernel) Rec.room (by decide) (by decide)
  refine ⟨img, map, h1, fun K c L n a hn hr hip hl => ?_⟩
  obtain ⟨ρ, hx⟩ := Rec.execF K n a hn
  refine h4 Rec.fnS (by simp) rfl K c _ _ L (n + 1) _ _ (Rec.xsS ▸ hr) hip (by unfold World.stackFor; omega)
    (.seq (.call Rec.progF rfl (by simp [World.PE, Dyn]) hx) (.stop (.ret ?_ trivial) rfl)) (.inr rfl)
  rw [Rec.env_upd]
  rfl

end Props
