import Verif.Util.Prog
/-!
# Following a run of a model step by step

Lemmas in the form needed to compute `x s` by `refine`.
-/
namespace Prog

variable {σ α β : Type}

theorem run_bind {x : M σ α} {f : α → M σ β} {s s1 : σ} {a : α} {r : Res σ β} (h : x s = .ok a s1) (h2 : f a s1 = r) : (x >>= f) s = r := by
  rw [bind_ok h, h2]

theorem run_getS {f : σ → M σ β} {s : σ} {r : Res σ β} (h2 : f s s = r) : (getS >>= f) s = r := h2

theorem run_modS {f : σ → σ} {g : Unit → M σ β} {s : σ} {r : Res σ β} (h2 : g () (f s) = r) : (modS f >>= g) s = r := h2

theorem run_assert {b : Bool} {g : Unit → M σ β} {s : σ} {r : Res σ β} (hb : b = true) (h2 : g () s = r) : (assertM b >>= g) s = r := by
  subst hb; exact h2

theorem run_assert_last {b : Bool} {s : σ} (hb : b = true) : assertM b s = .ok () s := by
  subst hb; rfl

theorem run_ub {b : Bool} {g : Unit → M σ β} {s : σ} {r : Res σ β} (hb : b = true) (h2 : g () s = r) : (ubUnless b >>= g) s = r := by
  subst hb; exact h2

theorem run_pure {a : α} {f : α → M σ β} {s : σ} {r : Res σ β} (h2 : f a s = r) : ((pure a : M σ α) >>= f) s = r := h2

theorem run_pos {c : Prop} [Decidable c] {x y : M σ α} {s : σ} {r : Res σ α} (hc : c) (h : x s = r) : (if c then x else y) s = r := by
  rw [if_pos hc, h]

theorem run_neg {c : Prop} [Decidable c] {x y : M σ α} {s : σ} {r : Res σ α} (hc : ¬ c) (h : y s = r) : (if c then x else y) s = r := by
  rw [if_neg hc, h]

/-- `if c then x` followed by more. -/
theorem run_pos' {c : Prop} [Decidable c] {x y : M σ α} {f : α → M σ β} {s : σ} {r : Res σ β} (hc : c) (h : (x >>= f) s = r) :
    ((if c then x else y) >>= f) s = r := by
  rw [if_pos hc, h]

theorem run_neg' {c : Prop} [Decidable c] {x y : M σ α} {f : α → M σ β} {s : σ} {r : Res σ β} (hc : ¬ c) (h : (y >>= f) s = r) :
    ((if c then x else y) >>= f) s = r := by
  rw [if_neg hc, h]

/-- A final unit. -/
theorem run_unit {x : M σ Unit} {s : σ} {r : Res σ Unit} (h : x s = r) : (x >>= fun _ => pure ()) s = r := by
  rw [bind_run, h]; cases r <;> rfl

end Prog
