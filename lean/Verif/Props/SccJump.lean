import Verif.Props.SccGenEmit
/-!
# Jumps (C36, C42): what `EmitJmp` and `EmitJcc` write
-/
namespace SccJump
open Prog Scc SccCode SccGen

/-! ## The output buffer -/

theorem set_set {n : Nat} (m : Mem n) (a : Nat) (v w : Byte) (ha : a < 2 ^ n) : (m.set a v).set a w = m.set a w := by
  refine Mem.ext_get fun b hb => ?_
  by_cases h : a = b
  · subst h; rw [Mem.get_set_self, Mem.get_set_self]
  · rw [Mem.get_set_ne _ _ ha hb h, Mem.get_set_ne _ _ ha hb h, Mem.get_set_ne _ _ ha hb h]

theorem set_comm {n : Nat} (m : Mem n) (a b : Nat) (v w : Byte) (ha : a < 2 ^ n) (hb : b < 2 ^ n) (h : a ≠ b) : (m.set a v).set b w = (m.set b w).set a v := by
  refine Mem.ext_get fun i hi => ?_
  by_cases h1 : a = i
  · subst h1; rw [Mem.get_set_ne _ _ hb hi (Ne.symm h), Mem.get_set_self, Mem.get_set_self]
  · by_cases h2 : b = i
    · subst h2; rw [Mem.get_set_self, Mem.get_set_ne _ _ ha hi h1, Mem.get_set_self]
    · rw [Mem.get_set_ne _ _ hb hi h2, Mem.get_set_ne _ _ ha hi h1, Mem.get_set_ne _ _ ha hi h1, Mem.get_set_ne _ _ hb hi h2]

theorem max_lt : outputMax ≤ 2 ^ 15 := by decide

theorem checks_live {s : S} (h : Live s) (hr : Room s 0) : emitChecks s = .ok false s := by
  refine run_getS (run_neg (by rw [h.dead]; decide) ?_)
  refine run_bind (a := ()) (s1 := s) (run_getS (run_pos h.spAdj rfl)) ?_
  refine run_bind (a := ()) (s1 := s) (run_getS (run_neg (by rw [h.push]; decide) rfl)) ?_
  refine run_bind (a := ()) (s1 := s) (run_getS ?_) rfl
  have h0 : ¬ outputMax + codeStart < s.code := by
    have h1 := hr.1
    have h2 := hr.2
    generalize codeStart = a, outputMax = b at *
    omega
  show failIf (decide (outputMax + codeStart < s.code)) s = _
  rw [decide_eq_false h0]
  rfl

/-- The state after a jump with a fixup for the label `l`. -/
def jumped (s : S) (l : Nat) (bs : List Byte) : S :=
  { s with out := putOut s.out s.code bs, code := s.code + bs.length, labels := s.labels.set l ⟨(s.labels.get l).addr, s.code + bs.length - 2⟩ }

theorem put_live {s : S} (h : Live s) (bs : List Byte) : Live (put s bs) := by rw [put_eq]; exact ⟨h.dead, h.spAdj, h.push⟩

theorem put_room {s : S} {bs : List Byte} {n : Nat} (h : Room s (bs.length + n)) : Room (put s bs) n := by
  rw [put_eq]
  have h1 := h.1
  have h2 := h.2
  show codeStart ≤ s.code + _ ∧ s.code + bs.length - codeStart + n ≤ outputMax
  generalize codeStart = a, outputMax = b at *
  omega

theorem fix_new {s : S} (h : Live s) (l : Nat) (hr : Room s 2) :
    addFixupLabel l s = .ok () (jumped s l [Scc.lo (s.labels.get l).ref, Scc.hi (s.labels.get l).ref]) := by
  refine run_getS (run_neg (by rw [h.dead]; decide) (run_bind (h.out_put hr) ?_))
  rw [put_eq]; rfl

theorem putOut_append (as bs : List Byte) : ∀ (m : Mem 15) (a : Nat), putOut m a (as ++ bs) = putOut (putOut m a as) (a + as.length) bs := by
  induction as with
  | nil => intro m a; rfl
  | cons b as ih =>
    intro m a
    show putOut (m.set _ b) (a + 1) (as ++ bs) = _
    rw [ih, List.length_cons, Nat.add_right_comm a 1, Nat.add_assoc a]
    rfl

theorem jump_new {s : S} (h : Live s) (l : Nat) (hl : l < s.labelCount) (ha : (s.labels.get l).addr = 0) (hr : Room s 3) :
    emitLocalJump l s = .ok false (jumped s l [0xE9, Scc.lo (s.labels.get l).ref, Scc.hi (s.labels.get l).ref]) := by
  refine run_getS (run_failIf (decide_eq_false (fun h => h ⟨by omega, by omega⟩)) (run_pos ha (run_bind (h.out_put (bs := [0xE9]) (room_le hr (by simp))) ?_)))
  have hr1 : Room (put s [0xE9]) 2 := put_room hr
  refine run_bind (fix_new (put_live h _) l hr1) ?_
  rw [put_eq]
  rfl

/-- `EmitJmp` to a label that comes later. -/
theorem jmp_new {s : S} (hd : s.dead = false) (ha : s.spAdj = 0) (l : Nat) (hl : l < s.labelCount) (ha' : (s.labels.get l).addr = 0) (hr : Room s 3) :
    emitJmp l s = .ok () { jumped { s with push := false } l [0xE9, Scc.lo (s.labels.get l).ref, Scc.hi (s.labels.get l).ref] with dead := true } := by
  have hlive : Live { s with push := false } := ⟨hd, ha, rfl⟩
  refine run_modS (run_bind (checks_live hlive (room_le hr (by omega))) (run_neg (by decide) ?_))
  exact run_bind (jump_new hlive l hl ha' hr) rfl

/-- `EmitJcc` to a label that comes later. -/
theorem jcc_new {s : S} (h : Live s) (cc l : Nat) (hl : l < s.labelCount) (hm : s.labelCount ≤ labelMax) (ha : (s.labels.get l).addr = 0) (hr : Room s 5) :
    emitJcc cc l s = .ok () (jumped s l [nb (0x70 ||| (cc ^^^ 1)), 3, 0, Scc.lo (s.labels.get l).ref, Scc.hi (s.labels.get l).ref]) := by
  refine run_bind (checks_live h (room_le hr (by omega))) (run_neg (by decide) (run_getS (run_ub (decide_eq_true ⟨by omega, by omega⟩) (run_neg (fun h => h.1 ha) ?_))))
  refine run_bind (h.out_put (bs := [nb (0x70 ||| (cc ^^^ 1)), 3]) (room_le hr (by simp))) ?_
  have hl1 := put_live h [nb (0x70 ||| (cc ^^^ 1)), 3]
  have hr1 : Room (put s [nb (0x70 ||| (cc ^^^ 1)), 3]) 3 := put_room hr
  have e := jump_new (s := put s [nb (0x70 ||| (cc ^^^ 1)), 3]) hl1 l (by rw [put_eq]; exact hl) (by rw [put_eq]; exact ha) hr1
  refine run_bind e (run_neg (by decide) (run_getS ?_))
  rw [put_eq]
  obtain ⟨h1, h2⟩ := hr
  have hM := max_lt
  show wr (s.code + 2 + 3) (-3) 0 _ = _
  refine run_ub (decide_eq_true ?_) ?_
  · generalize codeStart = a, outputMax = b at *
    omega
  · show Res.ok () _ = Res.ok () _
    have e2 : ((s.code + 2 + 3 : Nat) : Int) - codeStart + -3 = ((s.code + 2 - codeStart : Nat) : Int) := by
      generalize codeStart = a at *
      omega
    simp only [e2, Int.toNat_natCast]
    unfold jumped
    simp only [putOut, List.length_cons, List.length_nil, Nat.add_assoc, Nat.reduceAdd]
    have i1 : s.code + 2 - codeStart < 2 ^ 15 := by generalize codeStart = a, outputMax = b at *; omega
    have i2 : s.code + 3 - codeStart < 2 ^ 15 := by generalize codeStart = a, outputMax = b at *; omega
    have i3 : s.code + 4 - codeStart < 2 ^ 15 := by generalize codeStart = a, outputMax = b at *; omega
    have n1 : s.code + 4 - codeStart ≠ s.code + 2 - codeStart := by generalize codeStart = a at *; omega
    have n2 : s.code + 3 - codeStart ≠ s.code + 2 - codeStart := by generalize codeStart = a at *; omega
    rw [set_comm _ _ _ _ _ i3 i1 n1, set_comm _ _ _ _ _ i2 i1 n2, set_set _ _ _ _ i1]

end SccJump
