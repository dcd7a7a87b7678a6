import Verif.Props.SccTerm
import Verif.Util.Text
/-!
# Termination of the compiler (C53)

The model of the parser has a bound on the depth of the recursion (calls of parser functions and rounds of their loops) and one on the
number of external definitions. For every source text there is a bound that is never reached: what would happen there makes no difference.
-/
namespace Props.SccTerm
open Prog Text Scc Props.SccTermLex

/-- The parser, with `f` in place of a call that is deeper than the bound. -/
def runB (f : Task → A Int) : Nat → Task → A Int
  | 0 => f
  | n + 1 => step (runB f n)

/-- The external definitions, with `g` in place of those that are more than the bound. -/
def externalsB (f : Task → A Int) (g : A Unit) (n : Nat) : Nat → A Unit
  | 0 => g
  | k + 1 => do
    let s ← getS
    if s.tok = 0 then pure ()
    else
      parseExternal (runB f n)
      externalsB f g n k

/-- The compiler, with `f` and `g` in place of what is beyond the bounds. -/
def programB (f : Task → A Int) (g : A Unit) (n : Nat) : A Unit := do
  prelude
  externalsB f g n n
  finish

theorem env (f f' : Task → A Int) : ∀ n, Env (runB f n) (runB f' n) n
  | 0 => fun _ _ _ _ h => absurd h (Nat.not_lt_zero _)
  | n + 1 => fun t _ hi ho h => step_ter (env f f' n) hi t ho (Nat.lt_succ_iff.mp h)

theorem externals_ter {f f' : Task → A Int} {g g' : A Unit} {n : Nat} : ∀ (k : Nat) (s : S), AtEnd s → 16 * size s + 8 ≤ n → size s < k →
    Ter (externalsB f g n k) (externalsB f' g' n k) s (fun _ s' => Down 0 s s')
  | 0, _, _, _, h => absurd h (Nat.not_lt_zero _)
  | k + 1, s, hi, hn, hk => by
    unfold externalsB
    refine Ter.getS (Ter.ite (fun _ => Ter.pure ⟨hi, Nat.le_refl _⟩) fun ht => ?_)
    refine Ter.bind (parseExternal_ter (env f f' n) hi hn) ?_
    rintro _ s' ⟨hi', hs'⟩
    refine Ter.mono (externals_ter k s' hi' (by omega) (by omega)) ?_
    rintro _ s'' ⟨hi'', hs''⟩
    exact ⟨hi'', by omega⟩

/-- After the first token. -/
theorem prelude_down {s s' : S} {a : Unit} (h : prelude s = .ok a s') : Down 0 s s' := by
  unfold prelude at h
  obtain ⟨_, s1, e1, h⟩ := bind_eq_ok.mp h
  have k1 : SccTermKeep.R s s1 := by
    cases e1
    have : ∀ (l : List (List Byte)) (s : S), SccTermKeep.R s (l.foldl addBuiltin s) := by
      intro l
      induction l with
      | nil => exact SccTermKeep.pre.refl
      | cons w l ih => exact fun s => SccTermKeep.pre.trans _ _ _ (⟨rfl, rfl, rfl, rfl⟩ : SccTermKeep.R s (addBuiltin s w)) (ih _)
    exact this _ s
  obtain ⟨_, s2, e2, h⟩ := bind_eq_ok.mp h
  have k2 := SccTermKeep.k_output _ _ _ _ e2
  obtain ⟨_, s3, e3, h⟩ := bind_eq_ok.mp h
  have k3 := SccTermKeep.k_output _ _ _ _ e3
  obtain ⟨_, s4, e4, h⟩ := bind_eq_ok.mp h
  have k4 := SccTermKeep.k_setType _ _ _ _ e4
  obtain ⟨_, s5, e5, h⟩ := bind_eq_ok.mp h
  have k5 := SccTermKeep.k_addVarDecl _ _ _ _ e5
  obtain ⟨_, s6, e6, h⟩ := bind_eq_ok.mp h
  have k6 := SccTermKeep.k_emitGlobalRefRel _ _ _ _ e6
  obtain ⟨_, s7, e7, h⟩ := bind_eq_ok.mp h
  have k7 := SccTermKeep.k_setType _ _ _ _ e7
  obtain ⟨_, s8, e8, h⟩ := bind_eq_ok.mp h
  have k8 := SccTermKeep.k_addVarDecl _ _ _ _ e8
  obtain ⟨_, s9, e9, h⟩ := bind_eq_ok.mp h
  have k9 := SccTermKeep.k_addVarDecl _ _ _ _ e9
  have t := SccTermKeep.pre.trans
  have k := t _ _ _ k1 (t _ _ _ k2 (t _ _ _ k3 (t _ _ _ k4 (t _ _ _ k5 (t _ _ _ k6 (t _ _ _ k7 (t _ _ _ k8 k9)))))))
  obtain ⟨h1, h2⟩ := getToken_size h
  refine ⟨h1, ?_⟩
  have hs : size s9 = size s := by
    unfold size left
    rw [k.1, k.2.2.1, k.2.2.2]
  omega

theorem runB_fuel : ∀ n, runB (fun _ => fail .fuel) n = run n
  | 0 => by funext t; rfl
  | n + 1 => by
    funext t
    show step (runB _ n) t = step (run n) t
    rw [runB_fuel n]

theorem runB_run (d : Nat) : ∀ n, runB (run d) n = run (n + d)
  | 0 => by rw [Nat.zero_add]; rfl
  | n + 1 => by
    rw [Nat.add_right_comm]
    funext t
    show step (runB _ n) t = step (run (n + d)) t
    rw [runB_run d n]

theorem externalsB_fuel (n : Nat) : ∀ k, externalsB (fun _ => fail .fuel) (fail .fuel) n k = externals n k
  | 0 => rfl
  | k + 1 => by
    unfold externalsB externals
    rw [runB_fuel, externalsB_fuel n k]

theorem externalsB_run (n d : Nat) : ∀ k, externalsB (run d) (externals (n + d) d) n k = externals (n + d) (k + d)
  | 0 => by rw [Nat.zero_add]; rfl
  | k + 1 => by
    rw [Nat.add_right_comm]
    show (Prog.getS >>= fun s : S => if s.tok = 0 then (pure () : A Unit) else
      parseExternal (runB (run d) n) >>= fun _ => externalsB (run d) (externals (n + d) d) n k) =
      (Prog.getS >>= fun s : S => if s.tok = 0 then pure () else parseExternal (run (n + d)) >>= fun _ => externals (n + d) (k + d))
    rw [runB_run, externalsB_run n d k]

end Props.SccTerm

namespace Props
open Prog Text Scc SccTerm

/-- **C53**. The recursion of the parser ends: for a source text of `k` characters no call is nested deeper than `16 * (k + 1)` (every round of
a loop of the parser counts as a call) and there are no more external definitions than that. Whatever stands for deeper calls or further
definitions, the result is the same. -/
theorem C53_parser_ends_partial (src : List Byte) (n : Nat) (hn : 16 * (src.length + 1) ≤ n) (f : Task → A Int) (g : A Unit) :
    programB f g n (init src) = program n (init src) := by
  have h : ∀ f' g', programB f g n (init src) = programB f' g' n (init src) := by
    intro f' g'
    have hp : Ter prelude prelude (init src) (fun _ s' => Down 0 (init src) s') := ⟨rfl, fun _ _ h => prelude_down h⟩
    refine (Ter.bind (Q := fun _ _ => True) hp ?_).1
    rintro _ s ⟨hi, hs⟩
    have h0 : SccTermLex.size (init src) = src.length := rfl
    refine Ter.bind (externals_ter n s hi (by omega) (by omega)) ?_
    intro _ _ _
    exact ⟨rfl, fun _ _ _ => trivial⟩
  rw [h (fun _ => fail .fuel) (fail .fuel)]
  unfold programB program
  rw [externalsB_fuel]

/-- **C53**. So the result of a compilation is the same for all bounds from `16 * (k + 1)` on. -/
theorem C53_bound_partial (src : List Byte) (n m : Nat) (hn : 16 * (src.length + 1) ≤ n) (hm : 16 * (src.length + 1) ≤ m) : compile n src = compile m src := by
  have h : ∀ d, program (n + d) (init src) = program n (init src) := by
    intro d
    rw [← C53_parser_ends_partial src n hn (run d) (externals (n + d) d)]
    unfold programB program
    rw [externalsB_run]
  have h' : ∀ d, program (m + d) (init src) = program m (init src) := by
    intro d
    rw [← C53_parser_ends_partial src m hm (run d) (externals (m + d) d)]
    unfold programB program
    rw [externalsB_run]
  have e : program n (init src) = program m (init src) := by
    rw [← h m, ← h' n, Nat.add_comm]
  unfold compile
  rw [e]

/-- The state in which a variable of type `struct P` is declared that has a member of the same type. -/
def SccTerm.Loop (s : S) : Bool :=
  s.type == vtStruct && s.extra == 0 && (s.structs.get 0).members == some 0 && (s.members.get 0).type == vtStruct && (s.members.get 0).extra == 0

theorem SccTerm.loop_fuel {s : S} (h : Loop s) : ∀ n, sizeofType n vtStruct 0 s = .err .fuel
  | 0 => rfl
  | n + 1 => by
    simp only [Loop, Bool.and_eq_true, beq_iff_eq] at h
    obtain ⟨⟨⟨⟨h1, h2⟩, h3⟩, h4⟩, h5⟩ := h
    show sizeMembers (sizeofType n) ((s.structs.get 0).id &&& 0x8000 != 0) (39 + 1) (s.structs.get 0).members 0 s = _
    rw [h3]
    unfold sizeMembers
    show (sizeofType n (s.members.get 0).type (s.members.get 0).extra >>= _) s = _
    rw [h4, h5]
    exact bind_err (loop_fuel (s := s) (by simp [Loop, *]) n)

/-- The text of the example: a structure that contains itself. -/
def SccTerm.loopText : List Byte := asc "struct P{struct P x;}y;"

/-- The declaration of the example, until `SizeofType` is called. -/
def SccTerm.loopDecl : A (Option Nat) := do
  prelude
  parseFirstDecl (run 40)

/-- The state before `SizeofType` is reached. -/
def SccTerm.atLoop (r : Res S (Option Nat)) : Bool :=
  match r with
  | .ok (some _) s => Loop s
  | _ => false

theorem SccTerm.atLoop_ok {r : Res S (Option Nat)} (h : atLoop r = true) : ∃ v s, r = .ok (some v) s ∧ Loop s = true := by
  cases r with
  | ok v s =>
    cases v with
    | none => cases h
    | some v => exact ⟨v, s, rfl, h⟩
  | err e => cases h

def SccTerm.isFuel {α : Type} (r : Except Err α) : Bool :=
  match r with
  | .error .fuel => true
  | _ => false

theorem SccTerm.fuel_ok {α : Type} {r : Except Err α} (h : isFuel r = true) : r = .error .fuel := by
  cases r with
  | ok v => cases h
  | error e => cases e <;> first | rfl | cases h

/-- **C53** is violated: for a structure that contains itself (which is no C, but is not refused) `SizeofType` calls itself for ever. -/
theorem C53_sizeof_violation :
    (∃ v s, loopDecl (init loopText) = .ok (some v) s ∧ ∀ n, sizeofType n s.type s.extra s = .err .fuel) ∧
    ∀ n, 16 * (loopText.length + 1) ≤ n → compile n loopText = .error .fuel := by
  constructor
  · obtain ⟨v, s, e, h⟩ := atLoop_ok (r := loopDecl (init loopText)) (by decide +kernel)
    refine ⟨v, s, e, fun n => ?_⟩
    have h' := h
    simp only [Loop, Bool.and_eq_true, beq_iff_eq] at h'
    rw [h'.1.1.1.1, h'.1.1.1.2]
    exact loop_fuel h n
  · intro n hn
    rw [C53_bound_partial loopText n (16 * (loopText.length + 1)) hn (Nat.le_refl _)]
    exact fuel_ok (by decide +kernel)

/-- A case of `C53_bound_partial`: this program compiles, with every larger bound. -/
example (n : Nat) (hn : 400 ≤ n) : (match compile n (asc "_start(a){while(a)a-=1;}") with
    | .ok _ => true | .error _ => false) = true := by
  rw [C53_bound_partial _ n 400 (by exact Nat.le_trans (by decide +kernel) hn) (by decide +kernel)]
  decide +kernel

end Props
