/-!
# A monad for models of C code

A computation over a state `σ` either ends normally with a value and a new state, or abnormally: `fatal` (the program's own error
exit), `assertFail` (a failed `assert`), `ub` (undefined behaviour: out-of-bounds access, signed overflow, …), or `fuel` (a loop of
the model was cut off).  The state at an abnormal end is not kept.
-/
namespace Prog

inductive Err | fatal | assertFail | ub | fuel
  deriving DecidableEq, Repr

inductive Res (σ α : Type) | ok (a : α) (s : σ) | err (e : Err)

def M (σ α : Type) : Type := σ → Res σ α

variable {σ α β : Type}

def M.pure (a : α) : M σ α := fun s => .ok a s

def M.bind (x : M σ α) (f : α → M σ β) : M σ β := fun s =>
  match x s with
  | .ok a s => f a s
  | .err e => .err e

instance : Monad (M σ) where
  pure := M.pure
  bind := M.bind

def getS : M σ σ := fun s => .ok s s
def modS (f : σ → σ) : M σ Unit := fun s => .ok () (f s)
def fail (e : Err) : M σ α := fun _ => .err e
def assertM (b : Bool) : M σ Unit := if b then pure () else fail .assertFail
def ubUnless (b : Bool) : M σ Unit := if b then pure () else fail .ub

/-- Run `x`, with a value and a new state or an error. -/
def M.run (x : M σ α) (s : σ) : Except Err (α × σ) :=
  match x s with
  | .ok a s => .ok (a, s)
  | .err e => .error e

theorem bind_run (x : M σ α) (f : α → M σ β) (s : σ) :
    (x >>= f) s = match x s with
      | .ok a s => f a s
      | .err e => .err e := rfl

theorem map_run (x : M σ α) (f : α → β) (s : σ) :
    (f <$> x) s = match x s with
      | .ok a s => .ok (f a) s
      | .err e => .err e := rfl

theorem pure_run (a : α) (s : σ) : (pure a : M σ α) s = .ok a s := rfl
theorem getS_run (s : σ) : (getS : M σ σ) s = .ok s s := rfl
theorem modS_run (f : σ → σ) (s : σ) : modS f s = .ok () (f s) := rfl
theorem fail_run (e : Err) (s : σ) : (fail e : M σ α) s = .err e := rfl
theorem assertM_run (b : Bool) (s : σ) : assertM b s = if b then .ok () s else .err .assertFail := by cases b <;> rfl
theorem ubUnless_run (b : Bool) (s : σ) : ubUnless b s = if b then .ok () s else .err .ub := by cases b <;> rfl

theorem bind_ok {x : M σ α} {f : α → M σ β} {s s1 : σ} {a : α} (h : x s = .ok a s1) : (x >>= f) s = f a s1 := by
  rw [bind_run, h]

theorem bind_err {x : M σ α} {f : α → M σ β} {s : σ} {e : Err} (h : x s = .err e) : (x >>= f) s = .err e := by
  rw [bind_run, h]

theorem bind_eq_ok {x : M σ α} {f : α → M σ β} {s s2 : σ} {b : β} :
    (x >>= f) s = .ok b s2 ↔ ∃ a s1, x s = .ok a s1 ∧ f a s1 = .ok b s2 := by
  rw [bind_run]
  cases h : x s with
  | ok a s1 =>
    constructor
    · intro hf; exact ⟨a, s1, rfl, hf⟩
    · rintro ⟨a', s1', h', hf⟩; cases h'; exact hf
  | err e =>
    constructor
    · intro hf; cases hf
    · rintro ⟨a', s1', h', hf⟩; cases h'

/-- Whenever `x` ends normally, its initial and final states and its value are related by `R`. -/
def Post (x : M σ α) (R : σ → α → σ → Prop) : Prop := ∀ s a s', x s = .ok a s' → R s a s'

/-- Whenever `x` ends normally, its initial and final states are related by `R`. -/
def Pres (R : σ → σ → Prop) (x : M σ α) : Prop := ∀ s a s', x s = .ok a s' → R s s'

/-- A reflexive and transitive relation. -/
structure Preorder (R : σ → σ → Prop) : Prop where
  refl : ∀ s, R s s
  trans : ∀ s1 s2 s3, R s1 s2 → R s2 s3 → R s1 s3

theorem Pres.pure {R : σ → σ → Prop} (h : Preorder R) (a : α) : Pres R (Pure.pure a : M σ α) := by
  intro s b s' e; cases e; exact h.refl s

theorem Pres.bind {R : σ → σ → Prop} (h : Preorder R) {x : M σ α} {f : α → M σ β} (hx : Pres R x) (hf : ∀ a, Pres R (f a)) :
    Pres R (x >>= f) := by
  intro s b s' e
  obtain ⟨a, s1, h1, h2⟩ := bind_eq_ok.mp e
  exact h.trans _ _ _ (hx _ _ _ h1) (hf a _ _ _ h2)

theorem Pres.getS {R : σ → σ → Prop} (h : Preorder R) : Pres R (Prog.getS : M σ σ) := by
  intro s b s' e; cases e; exact h.refl s

theorem Pres.modS {R : σ → σ → Prop} {f : σ → σ} (h : ∀ s, R s (f s)) : Pres R (Prog.modS f) := by
  intro s b s' e; cases e; exact h s

theorem Pres.fail {R : σ → σ → Prop} (e : Err) : Pres R (Prog.fail e : M σ α) := by
  intro s b s' h; cases h

theorem Pres.assertM {R : σ → σ → Prop} (h : Preorder R) (b : Bool) : Pres R (Prog.assertM b : M σ Unit) := by
  unfold Prog.assertM; split
  · exact Pres.pure h _
  · exact Pres.fail _

theorem Pres.ubUnless {R : σ → σ → Prop} (h : Preorder R) (b : Bool) : Pres R (Prog.ubUnless b : M σ Unit) := by
  unfold Prog.ubUnless; split
  · exact Pres.pure h _
  · exact Pres.fail _

theorem Pres.ite {R : σ → σ → Prop} {c : Prop} [Decidable c] {x y : M σ α} (hx : c → Pres R x) (hy : ¬ c → Pres R y) :
    Pres R (if c then x else y) := by
  split
  · next h => exact hx h
  · next h => exact hy h

/-- Partial correctness: if `x` starts in a state with `P` and ends normally, then `Q` holds of its value and the final state. -/
def Tri (P : σ → Prop) (x : M σ α) (Q : α → σ → Prop) : Prop := ∀ s a s', P s → x s = .ok a s' → Q a s'

theorem Tri.pure {P : σ → Prop} {Q : α → σ → Prop} {a : α} (h : ∀ s, P s → Q a s) : Tri P (Pure.pure a : M σ α) Q := by
  intro s b s' hp e; cases e; exact h s hp

theorem Tri.bind {P : σ → Prop} {R : α → σ → Prop} {Q : β → σ → Prop} {x : M σ α} {f : α → M σ β}
    (hx : Tri P x R) (hf : ∀ a, Tri (R a) (f a) Q) : Tri P (x >>= f) Q := by
  intro s b s' hp e
  obtain ⟨a, s1, h1, h2⟩ := bind_eq_ok.mp e
  exact hf a s1 b s' (hx s a s1 hp h1) h2

theorem Tri.weaken {P P' : σ → Prop} {Q Q' : α → σ → Prop} {x : M σ α} (h : Tri P x Q) (hp : ∀ s, P' s → P s)
    (hq : ∀ a s, Q a s → Q' a s) : Tri P' x Q' := fun s a s' p e => hq _ _ (h s a s' (hp s p) e)

theorem Tri.pre {P P' : σ → Prop} {Q : α → σ → Prop} {x : M σ α} (h : Tri P x Q) (hp : ∀ s, P' s → P s) : Tri P' x Q :=
  h.weaken hp fun _ _ q => q

theorem Tri.post {P : σ → Prop} {Q Q' : α → σ → Prop} {x : M σ α} (h : Tri P x Q) (hq : ∀ a s, Q a s → Q' a s) : Tri P x Q' :=
  h.weaken (fun _ p => p) hq

theorem Tri.getS {P : σ → Prop} : Tri P (Prog.getS : M σ σ) (fun a s => a = s ∧ P s) := by
  intro s b s' hp e; cases e; exact ⟨rfl, hp⟩

theorem Tri.modS {P : σ → Prop} {Q : Unit → σ → Prop} {f : σ → σ} (h : ∀ s, P s → Q () (f s)) : Tri P (Prog.modS f) Q := by
  intro s b s' hp e; cases e; exact h s hp

theorem Tri.fail {P : σ → Prop} {Q : α → σ → Prop} {e : Err} : Tri P (Prog.fail e : M σ α) Q := by
  intro s b s' _ h; cases h

theorem Tri.assertM {P : σ → Prop} {b : Bool} : Tri P (Prog.assertM b : M σ Unit) (fun _ s => P s ∧ b = true) := by
  cases b
  · exact Tri.fail
  · exact Tri.pure fun s h => ⟨h, rfl⟩

theorem Tri.ite {P : σ → Prop} {Q : α → σ → Prop} {c : Prop} [Decidable c] {x y : M σ α} (hx : c → Tri P x Q)
    (hy : ¬ c → Tri P y Q) : Tri P (if c then x else y) Q := by
  split
  · next h => exact hx h
  · next h => exact hy h

/-- Started in a state with `P`, `x` does not run out of fuel, and if it ends normally `Q` holds. -/
def Tot (P : σ → Prop) (x : M σ α) (Q : α → σ → Prop) : Prop :=
  ∀ s, P s → match x s with
    | .ok a s' => Q a s'
    | .err e => e ≠ .fuel

theorem Tot.ok {P : σ → Prop} {x : M σ α} {Q : α → σ → Prop} (h : Tot P x Q) {s s' : σ} {a : α} (hp : P s) (e : x s = .ok a s') : Q a s' := by
  have := h s hp; rw [e] at this; exact this

theorem Tot.nofuel {P : σ → Prop} {x : M σ α} {Q : α → σ → Prop} (h : Tot P x Q) {s : σ} (hp : P s) : x s ≠ .err .fuel := by
  intro e; have := h s hp; rw [e] at this; exact this rfl

theorem Tot.pure {P : σ → Prop} {Q : α → σ → Prop} {a : α} (h : ∀ s, P s → Q a s) : Tot P (Pure.pure a : M σ α) Q := fun s hp => h s hp

theorem Tot.bind {P : σ → Prop} {R : α → σ → Prop} {Q : β → σ → Prop} {x : M σ α} {f : α → M σ β}
    (hx : Tot P x R) (hf : ∀ a, Tot (R a) (f a) Q) : Tot P (x >>= f) Q := by
  intro s hp
  have h1 := hx s hp
  rw [bind_run]
  cases hxs : x s with
  | ok a s1 => rw [hxs] at h1; exact hf a s1 h1
  | err e => rw [hxs] at h1; exact h1

theorem Tot.weaken {P P' : σ → Prop} {Q Q' : α → σ → Prop} {x : M σ α} (h : Tot P x Q) (hp : ∀ s, P' s → P s)
    (hq : ∀ a s, Q a s → Q' a s) : Tot P' x Q' := by
  intro s hs
  have := h s (hp s hs)
  cases hxs : x s with
  | ok a s1 => rw [hxs] at this; exact hq a s1 this
  | err e => rw [hxs] at this; exact this

theorem Tot.pre {P P' : σ → Prop} {Q : α → σ → Prop} {x : M σ α} (h : Tot P x Q) (hp : ∀ s, P' s → P s) : Tot P' x Q :=
  h.weaken hp fun _ _ q => q

theorem Tot.post {P : σ → Prop} {Q Q' : α → σ → Prop} {x : M σ α} (h : Tot P x Q) (hq : ∀ a s, Q a s → Q' a s) : Tot P x Q' :=
  h.weaken (fun _ p => p) hq

theorem Tot.getS {P : σ → Prop} : Tot P (Prog.getS : M σ σ) (fun a s => a = s ∧ P s) := fun _ hp => ⟨rfl, hp⟩

theorem Tot.modS {P : σ → Prop} {Q : Unit → σ → Prop} {f : σ → σ} (h : ∀ s, P s → Q () (f s)) : Tot P (Prog.modS f) Q :=
  fun s hp => h s hp

theorem Tot.fail {P : σ → Prop} {Q : α → σ → Prop} {e : Err} (h : e ≠ .fuel) : Tot P (Prog.fail e : M σ α) Q := fun _ _ => h

theorem Tot.assertM {P : σ → Prop} {b : Bool} : Tot P (Prog.assertM b : M σ Unit) (fun _ s => P s ∧ b = true) := by
  cases b
  · exact Tot.fail (by decide)
  · exact Tot.pure fun s h => ⟨h, rfl⟩

theorem Tot.ite {P : σ → Prop} {Q : α → σ → Prop} {c : Prop} [Decidable c] {x y : M σ α} (hx : c → Tot P x Q)
    (hy : ¬ c → Tot P y Q) : Tot P (if c then x else y) Q := by
  split
  · next h => exact hx h
  · next h => exact hy h

theorem Tot.and {P : σ → Prop} {p : Prop} {x : M σ α} {Q : α → σ → Prop} (h : p → Tot P x Q) : Tot (fun s => P s ∧ p) x Q :=
  fun s hs => h hs.2 s hs.1

/-- `y` does what `x` does, unless `x` runs out of fuel. -/
def Le (x y : M σ α) : Prop := ∀ s, x s ≠ .err .fuel → y s = x s

theorem Le.refl (x : M σ α) : Le x x := fun _ _ => rfl

theorem Le.fuel (y : M σ α) : Le (Prog.fail .fuel) y := fun _ h => absurd rfl h

theorem Le.bind {x y : M σ α} {f g : α → M σ β} (h : Le x y) (hf : ∀ a, Le (f a) (g a)) : Le (x >>= f) (y >>= g) := by
  intro s hs
  rw [bind_run] at hs
  rw [bind_run, bind_run]
  cases hx : x s with
  | ok a s1 =>
    rw [h s (by rw [hx]; simp), hx]
    rw [hx] at hs
    exact hf a s1 hs
  | err e =>
    rw [hx] at hs
    rw [h s (by rw [hx]; exact fun h => hs (by simpa using h)), hx]

theorem Le.ite {c : Prop} [Decidable c] {x y x' y' : M σ α} (h : Le x x') (h' : Le y y') :
    Le (if c then x else y) (if c then x' else y') := by
  split
  · exact h
  · exact h'

end Prog
