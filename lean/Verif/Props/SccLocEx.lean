import Verif.Props.SccProgEx
/-!
# An example for the theorem about compiled programs (C51): a local variable
-/
namespace SccTop.Local
open Prog Text Scc SccCode SccGen SccStm SccHead SccLayout SccLoc Props.SccLex Props.SccIds I86
open SccStm.World (PE PC)

/-- `int _start(int a){int b=a-1;while(b){a+=b;b--;}return a;}`. -/
def fnS : Fn := ⟨false, asc "_start", [asc "a"], [(asc "b", .bin .sub (.var 40) (.lit 1))], exT⟩

def src : List Byte := asc "int _start(int a){int b=a-1;while(b){a+=b;b--;}return a;}\n"

theorem hadd : fnS.add (builtins.map asc) = exN := by decide +kernel

theorem hhd : intern (fnS.hd (builtins.map asc)) (asc "b") = exN := by decide +kernel

theorem loc' {ns : List (List Byte)} (hn : intern ns (asc "b") = exN) : LocText (asc "while(b){a+=b;b--;}return a;}\n") ns [(asc "b", .bin .sub (.var 40) (.lit 1))]
    (asc "int b=a-1;while(b){a+=b;b--;}return a;}\n") := by
  have h : SrcTo exN (asc "while(b){a+=b;b--;}return a;}\n") (asc "while(b){a+=b;b--;}return a;}\n") [] := .nil
  have h := SrcTo.sym (ws := []) .semi .nil (by unfold Munch; decide) (by decide) h
  have h := SrcTo.num (ws := []) 1 (by decide) .nil (aft _ _ (by decide)) h
  have h := SrcTo.sym (ws := []) (.bin .sub) .nil (by unfold Munch; decide) (by decide) h
  have h := SrcTo.id (ws := []) 40 na wa .nil (aft _ _ (by decide)) (by decide) h
  rw [← hn] at h
  exact LocText.cons (g := []) (g2 := [0x20]) (g3 := []) (ts := [.id 40, .sym 0x2D 4, .num 1]) .nil bl .nil wb (aft _ _ (by decide)) (aft _ _ (by decide)) (by unfold Munch; decide)
    (.bin 10 .sub (ts := [.id 40]) (us := [.num 1]) (by decide) (.var 4 40) (.lit 3 1)) h .nil

theorem loc : LocText (asc "while(b){a+=b;b--;}return a;}\n") (fnS.hd (builtins.map asc)) fnS.locs (asc "int b=a-1;while(b){a+=b;b--;}return a;}\n") := loc' hhd

theorem defs : Defs (builtins.map asc) src [fnS] exN := by
  have hp : ParText (asc "{int b=a-1;while(b){a+=b;b--;}return a;}\n") [asc "a"] (asc " a){int b=a-1;while(b){a+=b;b--;}return a;}\n") := .last (g2 := [0x20]) (g3 := []) bl .nil wa (aft _ _ (by decide))
  have hh : HeadText (asc "_start") (asc "int b=a-1;while(b){a+=b;b--;}return a;}\n") [asc "a"] (asc " _start(int a){int b=a-1;while(b){a+=b;b--;}return a;}\n") :=
    .some (g1 := [0x20]) (g2 := []) (g3 := []) (g4 := []) bl .nil .nil .nil ws (aft _ _ (by decide)) (aft _ _ (by decide)) hp
  refine Defs.fn (g := []) (f := fnS) .nil (aft _ _ (by decide)) hh loc exShowsL (by decide) (hadd.symm ▸ exSrcB) ?_
  rw [hadd]
  exact .nil nl10

theorem fine : Fines exN 2 [] [fnS] := by
  have e1 : fnS.xs exN = [40] := by decide +kernel
  have e2 : fnS.ys exN = [41] := by decide +kernel
  have e3 : nums exN fnS.locs = [(41, .bin .sub (.var 40) (.lit 1))] := by
    have : num exN (asc "b") = 41 := by decide +kernel
    unfold nums fnS
    rw [List.map_singleton, this]
  refine ⟨⟨exKw _ (by decide), fun p hp => exKw p (by simp [fnS] at hp; simp [hp]), by decide, by decide, fun p hp => exKw _ (by simp [fnS] at hp; simp [hp]), by decide, ?_, by rw [e1, e2]; exact exOk _, by decide⟩, trivial⟩
  rw [e1, e3]
  simp [OkL, OkE, Stat, Vars, nest, cst, In16, fnS]

theorem exec (K : Contract) (Γ : Nat → Option (List Nat × St)) (d n : Nat) (v : BitVec 16) (hn : n + 1 < 2 ^ 16) :
    Exec Γ (PE K) (PC K) d (fnS.code exN) (exρ2 (BitVec.ofNat 16 (n + 1)) v) (.ret (some (BitVec.ofNat 16 ((n + 1) * (n + 2) / 2))) (exρ2 (BitVec.ofNat 16 ((n + 1) * (n + 2) / 2)) 0)) := by
  have e : fnS.code exN = .seq (.asgn .set 41 (.bin .sub (.var 40) (.lit 1))) exT := by
    have : num exN (asc "b") = 41 := by decide +kernel
    unfold Fn.code fnS
    rw [List.foldr_cons, List.foldr_nil, this]
  have e1 : BitVec.ofNat 16 (n + 1) - 1 = BitVec.ofNat 16 n := by rw [BitVec.ofNat_add]; exact BitVec.add_sub_cancel _ 1#16
  rw [e]
  refine .seq (.asgn (v := BitVec.ofNat 16 n) ?_ (by simp [As.rhs, PE, Dyn, cst])) ?_
  · rw [← e1]; rfl
  · rw [(exρ2_upd _ _ _).2]
    have := exExec K Γ d n (BitVec.ofNat 16 (n + 1)) (by omega)
    rwa [← BitVec.ofNat_add, show n + 1 + n * (n + 1) / 2 = (n + 1) * (n + 2) / 2 by
        rw [show (n + 1) * (n + 2) = n * (n + 1) + (n + 1) * 2 by ring, Nat.add_mul_div_right _ _ (by decide)]; omega] at this

end SccTop.Local

namespace Props
open Prog Text Scc SccCode SccGen SccStm SccHead SccLayout SccTop I86
open I86.Cpu hiding lo hi rd

/-- `int _start(int a){int b=a-1;while(b){a+=b;b--;}return a;}` is compiled; if it is started with a number `n > 0` on the stack it returns the sum of the numbers up to `n`, whatever was on the stack where the
variable is. -/
example : ∃ img map, (∃ N, ∀ n, N ≤ n → compile n Local.src = .ok (img, map)) ∧
    ∀ (K : Contract) (c : Cpu) (L n : Nat), n + 1 < 2 ^ 16 → Ready img [40] L (fun _ => BitVec.ofNat 16 (n + 1)) c → c.ip = 0x100 → L + 6 ≤ c.sp.toNat →
      Reach K c (Returned 1 L (some (BitVec.ofNat 16 ((n + 1) * (n + 2) / 2))) { c with bp := 0 }) := by
  obtain ⟨img, map, ad, h1, h2, h3, h4, h5⟩ := C51_program_partial Local.src [Local.fnS] exN 2 Local.defs Local.fine (by decide +kernel) (by decide +kernel) (by decide +kernel) exRoom (by decide) (by decide)
  have e1 : Local.fnS.xs exN = [40] := by decide +kernel
  refine ⟨img, map, h1, fun K c L n hn hr hip hl => ?_⟩
  refine h4 Local.fnS (by simp) rfl K c (exρ2 (BitVec.ofNat 16 (n + 1)) 7) _ L 0 _ _ ?_ hip (by unfold World.stackFor; omega) (Local.exec K _ 0 n 7 hn) (.inr rfl)
  rw [e1]
  exact ⟨hr.load, hr.ss, hr.below, hr.stack, hr.args, fun i hi => by
    have : i = 0 := by simp at hi; exact hi
    subst this
    exact hr.val 0 hi⟩

end Props
