import Verif.Util.Prog
import Lean.Elab.Tactic
import Lean.Meta.Tactic.Split
/-!
# A tactic for relations kept by a program

`keep N t` proves `Pres R x` by following the text of `x`. For a call of a function `f` it uses the lemma `N.k_f`, for the reflexivity and
transitivity of `R` the lemma `N.pre`, and for a change of the state the tactic `t`. Proofs are checked by the kernel as usual.
-/
namespace Prog

/-- A part of a program that is used in several places. -/
theorem Pres.shared {σ α β γ : Type} {R : σ → σ → Prop} (v : β → M σ γ) (b : (β → M σ γ) → M σ α) (h1 : ∀ x, Pres R (v x))
    (h2 : ∀ f, (∀ x, Pres R (f x)) → Pres R (b f)) : Pres R (b v) := h2 v h1

open Lean Meta Elab Tactic

/-- One step; `none` if it does not apply. -/
def keepStep (ns : Name) (side : MVarId → TacticM (List MVarId)) (g : MVarId) : TacticM (Option (List MVarId)) := g.withContext do
  let t ← whnfR (← instantiateMVars (← g.getType))
  if t.isForall then
    let (_, g) ← g.intro1
    return some [g]
  unless t.isAppOf ``Prog.Pres do
    return none
  let args := t.getAppArgs
  let x := args.back!.consumeMData.headBeta
  let change (y : Expr) : MetaM MVarId := g.replaceTargetDefEq (mkAppN t.getAppFn (args.pop.push y))
  if x.isLet then
    if x.letType!.isForall then
      let b := Expr.lam x.letName! x.letType! x.letBody! .default
      let e ← mkAppOptM ``Prog.Pres.shared #[args[0]!, args[1]!, none, none, args[2]!, some x.letValue!, some b]
      return some (← g.apply e)
    else
      return some [← change (x.letBody!.instantiate1 x.letValue!)]
  let pre ← mkConstWithFreshMVarLevels (ns ++ `pre)
  let g ← change x
  let useLemma (n : Name) : MetaM (List MVarId) := do
    let gs ← g.apply (← mkConstWithFreshMVarLevels n)
    gs.filterM fun h => do
      if (← h.getType).isAppOf ``Prog.Preorder then
        h.assign pre
        return false
      else return true
  match x.getAppFn.constName? with
  | some ``Bind.bind => return some (← useLemma ``Prog.Pres.bind)
  | some ``Pure.pure => return some (← useLemma ``Prog.Pres.pure)
  | some ``Prog.getS => return some (← useLemma ``Prog.Pres.getS)
  | some ``Prog.ubUnless => return some (← useLemma ``Prog.Pres.ubUnless)
  | some ``Prog.assertM => return some (← useLemma ``Prog.Pres.assertM)
  | some ``Prog.fail => return some (← g.apply (← mkConstWithFreshMVarLevels ``Prog.Pres.fail))
  | some ``ite => return some (← g.apply (← mkConstWithFreshMVarLevels ``Prog.Pres.ite))
  | some ``Prog.modS =>
    let gs ← g.apply (← mkConstWithFreshMVarLevels ``Prog.Pres.modS)
    let gs ← gs.mapM side
    return some gs.flatten
  | some c =>
    if (← isMatcherApp x) then
      match ← Lean.Meta.splitTarget? g with
      | some gs => return some gs
      | none => return none
    let k := ns ++ Name.mkSimple ("k_" ++ (c.getString!).replace "'" "_")
    if (← getEnv).contains k then
      return some (← g.apply (← mkConstWithFreshMVarLevels k))
    else
      for d in ← getLCtx do
        if d.isImplementationDetail then continue
        if let some gs ← observing? (g.apply d.toExpr) then return some gs
      return none
  | none =>
    for d in ← getLCtx do
      if d.isImplementationDetail then continue
      if let some gs ← observing? (g.apply d.toExpr) then return some gs
    return none

/-- All steps; the goals that remain. -/
partial def keepAll (ns : Name) (side : MVarId → TacticM (List MVarId)) (g : MVarId) : TacticM (List MVarId) := do
  match ← keepStep ns side g with
  | none => return [g]
  | some gs => return (← gs.mapM (keepAll ns side)).flatten

elab "keep " n:ident t:tacticSeq : tactic => do
  let side (g : MVarId) : TacticM (List MVarId) := do
    let gs ← getGoals
    setGoals [g]
    evalTactic t
    let r ← getGoals
    setGoals gs
    return r
  let g ← getMainGoal
  let r ← keepAll n.getId.eraseMacroScopes side g
  replaceMainGoal r

end Prog
