import Verif.Sim86.Dos
/-!
# The simulated system refines the specified system, for runs of any length
-/
namespace Sim86
open I86
variable {σ : Type}

/-- The instruction at CS:IP, if it is in the specified subset. -/
def current (s : St σ) : Option Instr := (decode ((abs s F0).fetch Cpu.window (abs s F0).ip)).map (·.1)

/-- The states from which `sim86.c` executes the next instruction as specified: no host integer is near the
overflow bounds, and the host representations meet what the instruction at CS:IP needs. -/
structure Good (s : St σ) : Prop where
  safe : Safe s
  allowed : ∀ i, current s = some i → Allowed s i
  handles : ∀ n, current s = some (.int n) → HandleOk s

theorem fetch_abs (s : St σ) (F : Flags4) (n : Nat) (ip : Word) : (abs s F).fetch n ip = (abs s F0).fetch n ip := by
  induction n generalizing ip with
  | zero => rfl
  | succ n ih => simp only [Cpu.fetch, ih]; rfl

theorem decode_current {s : St σ} {F : Flags4} {i rest}
    (h : decode ((abs s F).fetch Cpu.window (abs s F).ip) = some (i, rest)) : current s = some i := by
  rw [fetch_abs] at h
  change decode ((abs s F0).fetch Cpu.window (abs s F0).ip) = _ at h
  rw [current, h]
  rfl

/-- What the simulator does from `s`, compared to what the specified system does. -/
def Refines (x : M σ Unit) (s : St σ) : SysOut σ → Prop
  | .next c' w' => ∃ s', x s = .ok () s' ∧ Rel s' c' ∧ s'.world = w'
  | .exit code w' => ∃ s', x s = .err (.exit (code.setWidth 32)) s' ∧ s'.world = w'
  | .undef => True

theorem sysStep_refines (H : Host σ) (hH : H.Ok) {s : St σ} {c : Cpu} (hg : Good s) (hr : Rel s c) :
    Refines (step H) s (Cpu.sysStep .sim H.os c s.world) := by
  obtain ⟨F, rfl, hF⟩ := hr
  unfold Cpu.sysStep
  cases hx : Cpu.step .sim (abs s F) with
  | next c' =>
    obtain ⟨⟨⟩, s', h1, h2, h3⟩ := step_wp H hg.safe hF (fun i rest h => hg.allowed i (decode_current h)) hx
    exact ⟨s', h1, h2, h3⟩
  | divErr c' => trivial
  | undef => trivial
  | intr n c' =>
    have hcur : current s = some (.int n) := by
      unfold Cpu.step at hx
      split at hx
      · cases hx
      · rename_i i rest hd
        obtain ⟨rfl, -⟩ := exec_intr hx
        exact decode_current hd
    have hh := hg.handles n hcur
    obtain ⟨rfl, hst⟩ := step_intr H hg.safe hx
    have := intBody_ok (F := F) H hH (hg.safe.dec (k := 2) (by decide) none 0 none true) hF hh n
    change IntrOk _ _ (Cpu.intr H.os n _ s.world) at this
    change Refines _ _ (Cpu.intr H.os n _ s.world)
    cases ho : Cpu.intr H.os n (abs (dec s 2 none 0 none true) F) s.world with
    | next c' w' =>
      rw [ho] at this
      obtain ⟨⟨⟩, s', h1, h2⟩ := this
      exact ⟨s', hst.trans h1, h2⟩
    | exit code w' =>
      rw [ho] at this
      obtain ⟨s', h1, h2⟩ := this
      exact ⟨s', hst.trans h1, h2⟩
    | undef => trivial

/-- **The simulator refines the specification**: as long as the states of the run are `Good`, `n` iterations of the
main loop do what `n` steps of the specified processor and operating system do, also when the program exits. -/
theorem sysRun_refines (H : Host σ) (hH : H.Ok) (n : Nat) {s : St σ} {c : Cpu} (hr : Rel s c)
    (hg : ∀ m < n, ∀ sm, run H m s = .ok () sm → Good sm) :
    Refines (run H n) s (Cpu.sysRun .sim H.os n c s.world) := by
  induction n generalizing s c with
  | zero => exact ⟨s, rfl, hr, rfl⟩
  | succ n ih =>
    have h1 := sysStep_refines H hH (hg 0 (by omega) s rfl) hr
    unfold Cpu.sysRun
    cases hx : Cpu.sysStep .sim H.os c s.world with
    | next c1 w1 =>
      rw [hx] at h1
      obtain ⟨s1, hs1, hr1, hw1⟩ := h1
      have hrun : ∀ m, run H (m + 1) s = run H m s1 := by
        intro m
        change (step H >>= fun _ => run H m) s = _
        rw [bind_run, hs1]
      have := ih hr1 (fun m hm sm h => hg (m + 1) (by omega) sm (by rw [hrun, h]))
      simp only
      rw [← hw1]
      cases hx2 : Cpu.sysRun .sim H.os n c1 s1.world with
      | next c2 w2 => rw [hx2] at this; obtain ⟨s', h1, h2⟩ := this; exact ⟨s', (hrun n).trans h1, h2⟩
      | exit c2 w2 => rw [hx2] at this; obtain ⟨s', h1, h2⟩ := this; exact ⟨s', (hrun n).trans h1, h2⟩
      | undef => trivial
    | exit code w1 =>
      rw [hx] at h1
      obtain ⟨s1, hs1, hw1⟩ := h1
      refine ⟨s1, ?_, hw1⟩
      change (step H >>= fun _ => run H n) s = _
      rw [bind_run, hs1]
    | undef => trivial

end Sim86
