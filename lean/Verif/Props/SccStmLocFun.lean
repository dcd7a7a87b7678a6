import Verif.Props.SccStmLoc
/-!
# Compiled functions (C51): functions with local variables
-/
namespace SccLoc
open Prog Text Scc SccCode SccGen SccStm SccHead SccLayout Props.SccLex Props.SccIds

/-! ## The end of a function -/

/-- `ADD SP, 2n`. -/
def dropB (n : Nat) : List Byte := addBytes 4 ((2 * n : Nat) : Int)

theorem drop_cases {n : Nat} (hn : n ≠ 0) : dropB n = [0x44, 0x44] ∧ n = 1 ∨ dropB n = [0x83, 0xC4, nb (2 * n)] ∧ 1 < n ∧ n < 64 ∨
    dropB n = [0x81, 0xC4, Scc.lo ((2 * n : Nat) : Int), Scc.hi ((2 * n : Nat) : Int)] ∧ 64 ≤ n := by
  by_cases h1 : n = 1
  · subst h1; exact .inl ⟨rfl, rfl⟩
  have e1 : ¬ ((2 * n : Nat) : Int) < 0 := by omega
  have e2 : ¬ ((2 * n : Nat) : Int) = 0 := by omega
  have e3 : ¬ (2 * n ≤ 2) := by omega
  right
  unfold dropB addBytes
  simp only [e1, e2, Int.natAbs_natCast, e3, if_false]
  by_cases h2 : 2 * n < 128
  · rw [if_pos h2]
    exact .inl ⟨rfl, by omega, by omega⟩
  · rw [if_neg h2]
    exact .inr ⟨rfl, by omega⟩

theorem drop_len (n : Nat) : (dropB n).length ≤ 4 := by
  by_cases hn : n = 0
  · subst hn; decide
  · rcases drop_cases hn with ⟨h, _⟩ | ⟨h, _⟩ | ⟨h, _⟩ <;> rw [h] <;> simp

theorem drop_starts {n : Nat} (hn : n ≠ 0) : Starts (dropB n) := by
  rcases drop_cases hn with ⟨h, _⟩ | ⟨h, _⟩ | ⟨h, _⟩ <;> rw [h] <;> exact ⟨_, _, rfl, by decide, fun e => absurd e (by decide)⟩

theorem flush_put {s : S} {n : Nat} (hn : n ≠ 0) (hd : s.dead = false) (hsp : s.spAdj = ((2 * n : Nat) : Int)) (hp : s.push = false) (hr : Room s 4) :
    flushSpAdj s = .ok () (put { s with spAdj := 0 } (dropB n)) := by
  have hb : ∀ (t : S) (bs : List Byte), t.dead = false → Room t bs.length → outA bs t = .ok () (put t bs) := fun t bs hd hl => run_getS (run_neg (by rw [hd]; decide) (raw_put bs _ hl))
  let s0 : S := { s with spAdj := 0, push := false }
  have h0 : s0 = { s with spAdj := 0 } := by show ({ s with spAdj := 0, push := false } : S) = _; rw [← hp]
  have hr' : ∀ k, k ≤ 4 → Room s0 k := fun k hk => by
    unfold Room at *
    generalize codeStart = y, outputMax = z at *
    have : s0.code = s.code := rfl
    omega
  have e1 : ¬ ((2 * n : Nat) : Int) < 0 := by omega
  have e2 : ¬ ((2 * n : Nat) : Int) = 0 := by omega
  have key : addRegConstWith outA rSP s.spAdj s0 = .ok () (put s0 (dropB n)) := by
    rw [hsp]
    refine run_neg e2 (run_ub (decide_eq_true (by omega)) ?_)
    rw [Int.natAbs_natCast]
    rcases drop_cases hn with ⟨h, h1⟩ | ⟨h, h1, h2⟩ | ⟨h, h1⟩ <;> rw [h]
    · subst h1
      refine run_pos (by decide) (run_bind (hb s0 [0x44] hd (hr' 1 (by omega))) (run_pos rfl ?_))
      refine (hb _ [0x44] ?_ ?_).trans ?_
      · rw [put_eq]; exact hd
      · exact (Room.put (as := [0x44]) (bs := [0x44]) (hr' 2 (by omega))).2
      · rw [← put_append]; rfl
    · refine run_neg (by omega) (run_pos (by omega) ?_)
      rw [if_neg e1]
      exact hb s0 _ hd (hr' 3 (by omega))
    · refine run_neg (by omega) (run_neg (by omega) ?_)
      rw [if_neg e1]
      refine run_neg (show ¬ rSP = 0 by decide) (run_bind (hb s0 [0x81, 0xC4] hd (hr' 2 (by omega))) ?_)
      refine (hb _ [Scc.lo ((2 * n : Nat) : Int), Scc.hi ((2 * n : Nat) : Int)] ?_ ?_).trans ?_
      · rw [put_eq]; exact hd
      · exact (Room.put (as := [0x81, 0xC4]) (bs := [Scc.lo ((2 * n : Nat) : Int), Scc.hi ((2 * n : Nat) : Int)]) (hr' 4 (by omega))).2
      · rw [← put_append]; rfl
  refine run_getS (run_neg (by rw [hsp]; exact e2) (run_bind (a := ()) (s1 := s0) rfl (run_bind key ?_)))
  rw [h0, put_eq]
  rfl

/-- The items at the end of a function; `rl` is the label of `return`. -/
def endItems (n : Nat) (dd : Bool) (rl : Int) : List Item :=
  (if dd = true ∨ n = 0 then [] else [.raw (dropB n)]) ++ (if 0 ≤ rl then [.lab rl.toNat, .raw [0x89, 0xEC], .raw [0x5D, 0xC3]] else if dd then [] else [.raw [0x5D, 0xC3]])

/-- What the end of a function does not change. -/
def fe (s : S) : S := { s with out := .const 0 15, code := 0, labels := .const ⟨0, 0⟩ 9, dead := false, lastFixup := 0, spAdj := 0 }

theorem put_hist {a : Nat} {its : List Item} {s : S} {bs : List Byte} (h : Hist a its s) (hs : Starts bs) (hle : s.code + bs.length ≤ codeStart + outputMax) :
    Hist a (.raw bs :: its) (put s bs) := by
  have hr := h.room hle
  have hem := Em.of_wrote (s := s) (put_wrote bs s hr) rfl rfl rfl h.ge
  refine h.em hem hs ?_ hle
  have := h.zf
  rw [put_eq]
  exact Nat.le_trans this (Nat.le_add_right ..)

/-- The pending change of SP is made. -/
theorem flush_ok {a : Nat} {its : List Item} {s : S} {n : Nat} (h : Hist a its s) (hsp : s.spAdj = ((2 * n : Nat) : Int)) (hp : s.push = false) (hle : s.code + 4 ≤ codeStart + outputMax) :
    ∃ s', flushSpAdj s = .ok () s' ∧ Hist a ((if s.dead = true ∨ n = 0 then [] else [.raw (dropB n)]) ++ its) s' ∧ fe s' = fe s ∧ s'.spAdj = 0 ∧ s'.dead = s.dead ∧ s'.labelCount = s.labelCount ∧
      s'.code ≤ s.code + 4 := by
  by_cases hn : n = 0
  · subst hn
    rw [if_pos (.inr rfl)]
    exact ⟨s, run_getS (run_pos hsp rfl), h, rfl, hsp, rfl, rfl, by omega⟩
  by_cases hd : s.dead = true
  · rw [if_pos (.inl hd)]
    have hne : s.spAdj ≠ 0 := by omega
    let s1 : S := { s with spAdj := 0, push := false }
    have ha : ∀ bs, outA bs s1 = .ok () s1 := fun bs => run_getS (run_pos hd rfl)
    have e : addRegConstWith outA rSP s.spAdj s1 = .ok () s1 := by
      refine run_neg hne (run_ub (decide_eq_true (by omega)) ?_)
      by_cases h2 : s.spAdj.natAbs ≤ 2
      · refine run_pos h2 (run_bind (ha _) ?_)
        by_cases h3 : s.spAdj.natAbs = 2
        · exact run_pos h3 (ha _)
        · exact run_neg h3 rfl
      · refine run_neg h2 ?_
        by_cases h3 : s.spAdj.natAbs < 128
        · exact run_pos h3 (ha _)
        · exact run_neg h3 (run_neg (show ¬ rSP = 0 by decide) (run_bind (ha _) (ha _)))
    refine ⟨{ s with spAdj := 0 }, run_getS (run_neg hne (run_bind (a := ()) (s1 := s1) rfl (run_bind e rfl))), h.same ⟨rfl, rfl, rfl, rfl, rfl⟩ rfl rfl, rfl, rfl, rfl, rfl, by show s.code ≤ _; omega⟩
  · have hd' : s.dead = false := by simpa using hd
    rw [if_neg (not_or.2 ⟨hd, hn⟩)]
    have hl := drop_len n
    have h' : Hist a its { s with spAdj := 0 } := h.same ⟨rfl, rfl, rfl, rfl, rfl⟩ rfl rfl
    refine ⟨_, flush_put hn hd' hsp hp (h.room hle), put_hist h' (drop_starts hn) (by show s.code + _ ≤ _; omega), ?_, ?_, ?_, ?_, ?_⟩ <;> rw [put_eq]
    · rfl
    · show s.code + _ ≤ _
      omega

/-- The end of the function after its body. -/
def leaveAll : A Unit := do
  let s ← getS
  if 0 ≤ s.returnLabel then
    emitLocalLabel s.returnLabel
    emitMovRR rSP rBP
  else pure ()
  output [0x5D, 0xC3]

theorem leave_ok {a : Nat} {its : List Item} {s : S} {n : Nat} (h : Hist a its s) (hsp : s.spAdj = ((2 * n : Nat) : Int)) (hp : s.push = false) (hle : s.code + 8 ≤ codeStart + outputMax)
    (h0 : 0 ≤ s.returnLabel → n ≠ 0 ∧ s.returnLabel < s.labelCount ∧ .lab s.returnLabel.toNat ∉ its ∧ (s.dead = true → bare s.returnLabel.toNat its = false))
    (h1 : s.returnLabel < 0 → s.dead = true → n = 0) :
    ∃ s', leaveAll s = .ok () s' ∧ Hist a ((endItems n s.dead s.returnLabel).reverse ++ its) s' ∧ fe s' = fe s ∧ s'.spAdj = 0 ∧ s'.code ≤ s.code + 8 := by
  obtain ⟨s1, e1, hh1, f1, sp1, d1, lc1, c1⟩ := flush_ok h hsp hp (by omega)
  have p1 : s1.push = false := by have := congrArg S.push f1; exact this.trans hp
  by_cases hr : 0 ≤ s.returnLabel
  · obtain ⟨hn, hlt, hnl, hb⟩ := h0 hr
    obtain ⟨R, hR⟩ : ∃ R : Nat, s.returnLabel = R := ⟨s.returnLabel.toNat, by omega⟩
    have hRt : s.returnLabel.toNat = R := by omega
    rw [hRt] at hnl hb
    have hnl1 : Item.lab R ∉ (if s.dead = true ∨ n = 0 then [] else [.raw (dropB n)]) ++ its := by
      intro hm
      rcases List.mem_append.1 hm with hm | hm
      · split at hm
        · cases hm
        · cases List.mem_singleton.1 hm
      · exact hnl hm
    have hb1 : bare R ((if s.dead = true ∨ n = 0 then [] else [.raw (dropB n)]) ++ its) = false := by
      by_cases hd : s.dead = true
      · rw [if_pos (.inl hd)]; exact hb hd
      · rw [if_neg (not_or.2 ⟨hd, hn⟩)]; rfl
    obtain ⟨m', e, t, e2, he, hh2⟩ := hh1.label (l := R) (by omega) hnl1 sp1 (by omega) hb1
    have hu : (s.labels.get R).addr = 0 := by
      have hcount := h.count
      obtain ⟨cs, hc, hi⟩ := h
      rw [← adr_eq (l := R) (by omega) hcount]
      exact hc.unplaced (l := R) (by omega) (by rw [hi]; exact hnl)
    -- the label is placed after the change of SP
    have e2' : emitLocalLabel R s = .ok () { s1 with dead := false, out := m', code := e, lastFixup := e, labels := t } := by
      have hs1 : flushSpAdj s1 = .ok () s1 := run_getS (run_pos sp1 rfl)
      have hu1 : (s1.labels.get R).addr = 0 := by
        have hcount := hh1.count
        obtain ⟨cs, hc, hi⟩ := hh1
        rw [← adr_eq (l := R) (by omega) hcount]
        exact hc.unplaced (l := R) (by omega) (by rw [hi]; exact hnl1)
      rw [← e2]
      unfold emitLocalLabel
      refine run_getS (run_failIf (decide_eq_false (by omega)) (run_ub (decide_eq_true (by omega)) (run_failIf ?_ (run_bind e1 ?_))))
      · rw [Int.toNat_natCast]; exact decide_eq_false (fun hh => hh hu)
      · refine Eq.symm (run_getS (run_failIf (decide_eq_false (by omega)) (run_ub (decide_eq_true (by omega)) (run_failIf ?_ (run_bind hs1 rfl)))))
        rw [Int.toNat_natCast]; exact decide_eq_false (fun hh => hh hu1)
    generalize hs2 : ({ s1 with dead := false, out := m', code := e, lastFixup := e, labels := t } : S) = s2 at e2' hh2
    have lv2 : Live s2 := by rw [← hs2]; exact ⟨rfl, sp1, p1⟩
    have f2 : fe s2 = fe s := by rw [← hs2]; exact f1
    have c2 : s2.code ≤ s.code + 4 := by rw [← hs2]; exact Nat.le_trans he c1
    have e3 := lv2.out_put (bs := [0x89, 0xEC]) (hh2.room (by show s2.code + 2 ≤ _; omega))
    have hh3 := put_hist (bs := [0x89, 0xEC]) hh2 ⟨_, _, rfl, by decide, nofun⟩ (by show s2.code + 2 ≤ _; omega)
    have f3 : fe (put s2 [0x89, 0xEC]) = fe s := by rw [put_eq]; exact f2
    have lv3 : Live (put s2 [0x89, 0xEC]) := by rw [put_eq]; exact ⟨lv2.dead, lv2.spAdj, lv2.push⟩
    have c3 : (put s2 [0x89, 0xEC]).code ≤ s.code + 6 := by rw [put_eq]; show s2.code + 2 ≤ _; omega
    generalize put s2 [0x89, 0xEC] = s3 at e3 hh3 f3 lv3 c3
    have e4 := lv3.out_put (bs := [0x5D, 0xC3]) (hh3.room (by show s3.code + 2 ≤ _; omega))
    have hh4 := put_hist (bs := [0x5D, 0xC3]) hh3 fin_starts (by show s3.code + 2 ≤ _; omega)
    refine ⟨put s3 [0x5D, 0xC3], run_getS (run_pos hr ?_), ?_, ?_, ?_, ?_⟩
    · rw [hR]
      exact run_bind e2' (run_bind e3 e4)
    · unfold endItems
      rw [if_pos hr, hRt]
      have : ∀ x : List Item, (∃ y, x = [y]) ∨ x = [] → (x ++ [Item.lab R, .raw [0x89, 0xEC], .raw [0x5D, 0xC3]]).reverse ++ its = .raw [0x5D, 0xC3] :: .raw [0x89, 0xEC] :: .lab R :: (x ++ its) := by
        rintro x (⟨y, rfl⟩ | rfl) <;> simp
      rw [this _ (by split; exact .inr rfl; exact .inl ⟨_, rfl⟩)]
      exact hh4
    · rw [put_eq]; exact f3
    · rw [put_eq]; exact lv3.spAdj
    · rw [put_eq]; show s3.code + 2 ≤ _; omega
  · have hneg : ¬ 0 ≤ s.returnLabel := hr
    by_cases hd : s.dead = true
    · have hn := h1 (by omega) hd
      subst hn
      refine ⟨s, run_getS (run_neg hneg (output_dead hd _)), ?_, rfl, hsp, by omega⟩
      unfold endItems
      rw [if_neg hneg, hd]
      exact h
    · have hd' : s.dead = false := by simpa using hd
      have lv1 : Live s1 := ⟨d1.trans hd', sp1, p1⟩
      have e2 := lv1.out_put (bs := [0x5D, 0xC3]) (hh1.room (by show s1.code + 2 ≤ _; omega))
      have hh2 := put_hist (bs := [0x5D, 0xC3]) hh1 fin_starts (by show s1.code + 2 ≤ _; omega)
      have e2' : output [0x5D, 0xC3] s = .ok () (put s1 [0x5D, 0xC3]) := by
        by_cases hs0 : s.spAdj = 0
        · have : s1 = s := by
            have he : flushSpAdj s = .ok () s := run_getS (run_pos hs0 rfl)
            rw [he] at e1
            cases e1
            rfl
          rw [← this]; exact e2
        · refine run_getS (run_pos (.inr (.inl hs0)) (run_bind (a := false) (s1 := s1) (run_getS (run_neg hd (run_bind e1 (run_bind (a := ()) (s1 := s1) ?_ (run_bind (a := ()) (s1 := s1) ?_ rfl))))) ?_))
          · exact run_getS (run_neg (by rw [p1]; decide) rfl)
          · refine run_getS ?_
            have e : decide (outputMax + codeStart < s1.code) = false := decide_eq_false (by omega)
            show failIf (decide (outputMax + codeStart < s1.code)) s1 = _
            rw [e]; rfl
          · exact raw_put _ _ (hh1.room (by show s1.code + 2 ≤ _; omega))
      refine ⟨put s1 [0x5D, 0xC3], run_getS (run_neg hneg e2'), ?_, ?_, ?_, ?_⟩
      · unfold endItems
        rw [if_neg hneg, hd']
        rw [hd'] at hh2
        have : ∀ x : List Item, (∃ y, x = [y]) ∨ x = [] → (x ++ (if false = true then [] else [Item.raw [0x5D, 0xC3]])).reverse ++ its = .raw [0x5D, 0xC3] :: (x ++ its) := by
          rintro x (⟨y, rfl⟩ | rfl) <;> simp
        rw [this _ (by split; exact .inr rfl; exact .inl ⟨_, rfl⟩)]
        exact hh2
      · rw [put_eq]; exact f1
      · rw [put_eq]; exact sp1
      · rw [put_eq]; show s1.code + 2 ≤ _; omega

/-! ## The beginning of a function -/

/-- The compiler after the beginning of the function `v`; `its0` stands for all that was emitted before. -/
structure Begun (xs : List Nat) (v a : Nat) (om : Mem 15) (its0 : List Item) (s s' : S) : Prop where
  par : Par s.ignoreRedef s.lookup xs (s.scopes.get 0 + globalReserve) xs.length s'
  scs : s'.scopes.get 0 = s.scopes.get 0
  vars : ∀ j < s.scopes.get 0, s'.vars.get j = if j = v then { s.vars.get v with offset := s.code } else s.vars.get j
  res : ∀ j, s.scopes.get 0 ≤ j → j < s.scopes.get 0 + globalReserve → (s'.vars.get j).id = -1
  hist : Hist codeStart ([.raw [0x89, 0xE5], .raw [0x55]] ++ its0) s'
  fin : ∀ its t, Hist codeStart (its ++ its0) t → ∃ cs, SccLayout.Inv a cs t ∧ cs.map Chunk.item = its ∧ ∀ i, codeStart + i < a → t.out.get i = om.get i
  tks : tks s' = tks s
  ids : SccGen.ids s' = SccGen.ids s
  code : s'.code = a + 3
  dead : s'.dead = false
  sp : s'.spAdj = 0
  push : s'.push = false
  reg : s'.regUse = false
  sw : s'.switchCase < 0
  lab : s'.labelCount = 0
  lo : s'.localOffset = 0
  rl : s'.returnLabel = -1
  bl : s'.breakLabel = -1
  cl : s'.contLabel = -1
  bss : s'.bss = s.bss
  map : s'.map = s.map ++ (cvtHex a ++ asc " " ++ s.idText.get (s.vars.get v).id.toNat ++ [0x0D, 0x0A]).toArray

theorem begin_ok {xs : List Nat} {v a : Nat} {om : Mem 15} {s : S} (h : Entry0 xs v s) (hfx : Fixes v s a om) (hsz : a + 3 ≤ codeStart + outputMax) :
    ∃ s' its0, Begun xs v a om its0 s s' ∧ ∀ n s6 s7 s8, go' (run n) .stmt s' = .ok () s6 → leaveAll s6 = .ok () s7 → popScope { s7 with labelCount := 0, namedCount := 0 } = .ok () s8 →
      parseFunction (run n) v s = .ok () s8 := by
  obtain ⟨s1, e1, p1, f1, z1, v1, w1⟩ := open_ok h.par h.sc h.room
  have hf : ∀ {β : Type} (g : S → β), (∀ s, g (fo s) = g s) → g s1 = g s := fun g hg => by rw [← hg s1, f1, hg]
  let s2 : S := { s1 with localOffset := 0, returnLabel := -1, breakLabel := -1, contLabel := -1 }
  have hv9 : v < 2 ^ 9 := by
    have := h.lt; have := h.room
    exact Nat.lt_of_lt_of_le (show v < varDeclMax by omega) (by decide)
  have hvv : s1.vars.get v = s.vars.get v := v1 v h.lt
  have hcode : s1.code = s.code := hf S.code fun _ => rfl
  obtain ⟨mp, e3, hmp⟩ : ∃ mp, emitGlobalLabel v s2 = .ok () { s2 with vars := s2.vars.set v { s2.vars.get v with offset := s2.code }, dead := false, out := om, code := a, lastFixup := a, map := mp } ∧
      mp = s.map ++ (cvtHex a ++ asc " " ++ s.idText.get (s.vars.get v).id.toNat ++ [0x0D, 0x0A]).toArray := by
    have hid : ((s1.vars.set v { s1.vars.get v with offset := s1.code }).get v).id = (s.vars.get v).id := by rw [Tab.get_set_self]; show (s1.vars.get v).id = _; rw [hvv]
    refine ⟨_, run_getS (run_failIf ?_ (run_modS (run_bind (a := ())
      (s1 := { s2 with vars := s2.vars.set v { s2.vars.get v with offset := s2.code }, dead := false, out := om, code := a, lastFixup := a }) ?_ (run_getS (run_ub ?_ (run_ub ?_ rfl)))))), ?_⟩
    · show decide ((s1.vars.get v).offset ≠ 0) = false
      rw [hvv]; exact decide_eq_false (fun hh => hh h.off)
    · show doFixups ((s1.vars.get v).type &&& vtFun != 0) fixFuel (s1.vars.get v).ref _ = _
      rw [hvv]
      exact hfx.run _ (hf S.out fun _ => rfl) (hf S.code fun _ => rfl) (hf S.lastFixup fun _ => rfl)
    · show decide (((s1.vars.set v _).get v).id = -2 ∨ 0 ≤ ((s1.vars.set v _).get v).id ∧ _) = true
      rw [Tab.get_set_self]
      show decide ((s1.vars.get v).id = -2 ∨ 0 ≤ (s1.vars.get v).id ∧ (s1.vars.get v).id < idMax) = true
      rw [hvv]
      exact decide_eq_true (.inr h.id)
    · show decide (s1.idPos + (if ((s1.vars.set v { s1.vars.get v with offset := s1.code }).get v).id = -2 then staticName
        else s1.idText.get ((s1.vars.set v { s1.vars.get v with offset := s1.code }).get v).id.toNat).length + 7 ≤ idBufferMax) = true
      have := h.id
      rw [hid, if_neg (by omega), show s1.idPos = s.idPos from hf S.idPos fun _ => rfl, show s1.idText = s.idText from hf S.idText fun _ => rfl]
      exact decide_eq_true h.buf
    · show s1.map ++ (cvtHex a ++ asc " " ++ (if ((s1.vars.set v { s1.vars.get v with offset := s1.code }).get v).id = -2 then staticName
        else s1.idText.get ((s1.vars.set v { s1.vars.get v with offset := s1.code }).get v).id.toNat) ++ [0x0D, 0x0A]).toArray = _
      have := h.id
      rw [hid, if_neg (by omega), show s1.map = s.map from hf S.map fun _ => rfl, show s1.idText = s.idText from hf S.idText fun _ => rfl]
  obtain ⟨s3, hs3⟩ : ∃ s3 : S, s3 = { s2 with vars := s2.vars.set v { s2.vars.get v with offset := s2.code }, dead := false, out := om, code := a, lastFixup := a, map := mp } := ⟨_, rfl⟩
  rw [← hs3] at e3
  have hvs : ∀ j, j < 2 ^ 9 → j ≠ v → s3.vars.get j = s1.vars.get j := fun j hj hne => by
    rw [hs3]; exact Tab.get_set_ne _ _ hv9 hj (Ne.symm hne)
  have hvv3 : s3.vars.get v = { s.vars.get v with offset := s.code } := by
    rw [hs3]
    show (s1.vars.set v { s1.vars.get v with offset := s1.code }).get v = _
    rw [Tab.get_set_self, hvv, hcode]
  have hcode3 : s3.code = a := by rw [hs3]
  have hge := hfx.ge
  have hzf3 : s3.lastZF ≤ a := by rw [hs3]; show s1.lastZF ≤ a; rw [hf S.lastZF fun _ => rfl]; exact hfx.zf
  have hlc3 : s3.labelCount = 0 := by rw [hs3]; exact (hf S.labelCount fun _ => rfl).trans h.lab
  obtain ⟨its0, hh3, hend⟩ := hist_start (s := s3) hcode3 hge (by omega) hlc3 hzf3
  have lv3 : Live s3 := by
    refine ⟨by rw [hs3], ?_, ?_⟩
    · rw [hs3]; exact (hf S.spAdj fun _ => rfl).trans h.sp
    · rw [hs3]; exact (hf S.push fun _ => rfl).trans h.push
  have e4 := lv3.out_put (bs := [0x55]) (hh3.room (by show s3.code + 1 ≤ _; omega))
  have hh4 := put_hist (bs := [0x55]) hh3 ⟨_, _, rfl, by decide, nofun⟩ (by show s3.code + 1 ≤ _; omega)
  have lv4 : Live (put s3 [0x55]) := by rw [put_eq]; exact ⟨lv3.dead, lv3.spAdj, lv3.push⟩
  have c4 : (put s3 [0x55]).code = a + 1 := by rw [put_eq]; show s3.code + 1 = _; omega
  have e5 := lv4.out_put (bs := [0x89, 0xE5]) (hh4.room (by show (put s3 [0x55]).code + 2 ≤ _; omega))
  have hh5 := put_hist (bs := [0x89, 0xE5]) hh4 ⟨_, _, rfl, by decide, nofun⟩ (by show (put s3 [0x55]).code + 2 ≤ _; omega)
  have hs5 : put (put s3 [0x55]) [0x89, 0xE5] = { s3 with out := (put (put s3 [0x55]) [0x89, 0xE5]).out, code := a + 3 } := by
    have : (put (put s3 [0x55]) [0x89, 0xE5]).code = a + 3 := by rw [put_eq]; show (put s3 [0x55]).code + 2 = _; omega
    rw [← this, put_eq, put_eq]
  generalize put (put s3 [0x55]) [0x89, 0xE5] = s5 at e5 hh5 hs5
  have hp : ∀ {β : Type} (g : S → β), (∀ (s : S) o c, g { s with out := o, code := c } = g s) → g s5 = g s3 := fun g hg => by rw [hs5, hg]
  have hroom := h.room
  have hlt := h.lt
  have v5 : s5.vars = s3.vars := hp S.vars fun _ _ _ => rfl
  have hb : ∀ j, s.scopes.get 0 ≤ j → j < s.scopes.get 0 + globalReserve + xs.length → s5.vars.get j = s1.vars.get j := fun j h1 h2 => by
    rw [v5]; exact hvs j (Nat.lt_of_lt_of_le (show j < varDeclMax by omega) (by decide)) (by omega)
  have l5 : s5.lookup = s1.lookup := by rw [hp S.lookup fun _ _ _ => rfl, hs3]
  have c5 : s5.scopes = s1.scopes := by rw [hp S.scopes fun _ _ _ => rfl, hs3]
  refine ⟨s5, its0, ⟨⟨?_, ?_, ?_, fun i hi hi' => ?_, fun i hi hi' => ?_, fun i hi hi' => ?_, fun y hy hny => ?_⟩, ?_, fun j hj => ?_, fun j h1 h2 => ?_, hh5, fun its t ht => ?_, ?_, ?_,
    by rw [hs5], ?_, ?_, ?_, ?_, ?_, ?_, ?_, ?_, ?_, ?_, ?_, ?_⟩, fun n s6 s7 s8 e6 e7 e8 => ?_⟩
  · rw [hp S.scopeCount fun _ _ _ => rfl, hs3]; exact p1.sc
  · rw [c5]; exact p1.top
  · rw [hp S.ignoreRedef fun _ _ _ => rfl, hs3]; exact p1.redef
  · rw [l5]; exact p1.look i hi hi'
  · rw [hb _ (by omega) (by omega)]; exact p1.decl i hi hi'
  · rw [hb _ (by omega) (by omega)]; exact p1.prev i hi hi'
  · rw [l5]; exact p1.keep y hy hny
  · rw [c5]; exact z1
  · rw [v5]
    by_cases hjv : j = v
    · subst hjv; rw [if_pos rfl, hvv3]
    · rw [if_neg hjv, hvs j (Nat.lt_of_lt_of_le (show j < varDeclMax by omega) (by decide)) hjv, v1 j hj]
  · rw [hb j h1 (by omega)]; exact w1 j h1 h2
  · obtain ⟨cs, h1, h2, h3⟩ := hend its t ht
    refine ⟨cs, h1, h2, fun i hi => ?_⟩
    rw [h3 i hi, hs3]
  · rw [hp SccGen.tks fun _ _ _ => rfl, hs3]; exact hf SccGen.tks fun _ => rfl
  · rw [hp SccGen.ids fun _ _ _ => rfl, hs3]; exact hf SccGen.ids fun _ => rfl
  · exact (hp S.dead fun _ _ _ => rfl).trans lv3.dead
  · exact (hp S.spAdj fun _ _ _ => rfl).trans lv3.spAdj
  · exact (hp S.push fun _ _ _ => rfl).trans lv3.push
  · rw [hp S.regUse fun _ _ _ => rfl, hs3]; exact (hf S.regUse fun _ => rfl).trans h.reg
  · rw [hp S.switchCase fun _ _ _ => rfl, hs3]; show s1.switchCase < 0; rw [hf S.switchCase fun _ => rfl]; exact h.sw
  · exact (hp S.labelCount fun _ _ _ => rfl).trans hlc3
  · rw [hp S.localOffset fun _ _ _ => rfl, hs3]
  · rw [hp S.returnLabel fun _ _ _ => rfl, hs3]
  · rw [hp S.breakLabel fun _ _ _ => rfl, hs3]
  · rw [hp S.contLabel fun _ _ _ => rfl, hs3]
  · rw [hp S.bss fun _ _ _ => rfl, hs3]; exact hf S.bss fun _ => rfl
  · rw [hp S.map fun _ _ _ => rfl, hs3]; exact hmp
  · refine run_bind e1 (run_getS (run_failIf ?_ (run_modS (run_bind e3 (run_bind e4 (run_bind e5 (run_bind e6 (run_getS ?_))))))))
    · rw [hf S.labelCount fun _ => rfl, h.lab]; rfl
    · by_cases hr : 0 ≤ s6.returnLabel
      · have e7' : (emitLocalLabel s6.returnLabel >>= fun _ => emitMovRR rSP rBP >>= fun _ => output [0x5D, 0xC3]) s6 = .ok () s7 := by
          rw [← e7]
          refine Eq.symm ?_
          exact run_getS (run_pos hr rfl)
        obtain ⟨_, sa, ea, e7'⟩ := bind_eq_ok.1 e7'
        obtain ⟨_, sb, eb, ec⟩ := bind_eq_ok.1 e7'
        exact run_pos hr (run_bind ea (run_bind eb (run_bind ec (run_modS e8))))
      · have ec : output [0x5D, 0xC3] s6 = .ok () s7 := by
          rw [← e7]
          refine Eq.symm ?_
          exact run_getS (run_neg hr rfl)
        exact run_neg hr (run_bind ec (run_modS e8))

/-! ## The function -/

/-- The place of a parameter or of a local variable, relative to BP. -/
def locOff (xs ys : List Nat) (x : Nat) : Int := if x ∈ ys then -((2 * (ys.idxOf x + 1) : Nat) : Int) else parOff xs x

/-- A statement that ends with a jump outside of loops jumps to the end of the function. -/
theorem die_jmp {off : Nat → Int} {A : Nat → Nat} {lo : Int} {R : Nat} {b k : Int} {l l' : Nat} {t : St} {ys : List Item} (h : Code off A lo R b k l l' t ys) (hd : dies t = true) (hlo : lo ≠ 0)
    (hb : b < 0) (hk : k < 0) : .jmp R ∈ ys := by
  induction h with
  | seq h1 h2 ih1 ih2 =>
    rw [SccStm.dies, Bool.or_eq_true] at hd
    rcases hd with hd | hd
    · exact List.mem_append_left _ (ih1 hd hb hk)
    · exact List.mem_append_right _ (ih2 hd hb hk)
  | ret _ => unfold fin; rw [decide_eq_true hlo]; simp
  | ret0 _ => unfold fin; rw [decide_eq_true hlo]; simp
  | brk j e => omega
  | cont j e => omega
  | _ => cases hd

theorem OkL.new {m : Nat} : ∀ {ds : List (Nat × E)} {xs : List Nat}, OkL m xs ds → (∀ y ∈ ds.map Prod.fst, y ∉ xs) ∧ (ds.map Prod.fst).Nodup
  | [], _, _ => ⟨nofun, .nil⟩
  | (x, e) :: ds, xs, ⟨h1, _, h3⟩ => by
    obtain ⟨h4, h5⟩ := OkL.new h3
    refine ⟨fun y hy => ?_, List.nodup_cons.2 ⟨fun hm => h4 x hm (by simp), h5⟩⟩
    rcases List.mem_cons.1 hy with rfl | hy
    · exact h1
    · exact fun hm => h4 y hy (by simp [hm])

/-- The items for a function with the local variables `ls`. -/
def funItemsL (off : Nat → Int) (ls : List (List Byte × E)) (t : St) (zs : List Item) (rl : Int) : List Item :=
  [.raw [0x55], .raw [0x89, 0xE5]] ++ (ls.map fun p => Item.raw (declB off p.2)) ++ zs ++ endItems ls.length (dies t) rl

/-- The function has been compiled: its code begins at `a`, below it the output is `m`; the compiler is ready for the next definition. -/
structure CompiledL (A : Nat → Nat) (xs ys : List Nat) (v a : Nat) (m : Mem 15) (ls : List (List Byte × E)) (t : St) (names : List (List Byte)) (s s' : S) : Prop where
  code : ∃ s8 cs zs l' rl R, s'.out = s8.out ∧ s'.code = s8.code ∧ SccLayout.Inv a cs s8 ∧ cs.map Chunk.item = (funItemsL (locOff xs ys) ls t zs rl).reverse ∧
    Code (locOff xs ys) A (-((2 * ls.length : Nat) : Int)) R (-1) (-1) 0 l' t zs ∧ (rl = -1 ∧ (ls ≠ [] → .jmp R ∉ zs) ∨ rl = R ∧ ls ≠ [])
  low : ∀ i, codeStart + i < a → s'.out.get i = m.get i
  len : s'.code ≤ a + szL ls + sz t + 11
  ge : a ≤ s'.code
  ids : Ids s' names
  pos : s'.idPos = used names
  sc : s'.scopeCount = 1
  scs : s'.scopes.get 0 = s.scopes.get 0
  redef : s'.ignoreRedef = s.ignoreRedef
  look : ∀ y < 2 ^ 10, s'.lookup.get y = s.lookup.get y
  vars : ∀ j < s.scopes.get 0, s'.vars.get j = if j = v then { s.vars.get v with offset := s.code } else s.vars.get j
  lab : s'.labelCount = 0
  sp : s'.spAdj = 0
  push : s'.push = false
  reg : s'.regUse = false
  sw : s'.switchCase < 0
  zf : s'.lastZF ≤ s'.code
  bss : s'.bss = s.bss
  map : s'.map = s.map ++ (cvtHex a ++ asc " " ++ s.idText.get (s.vars.get v).id.toNat ++ [0x0D, 0x0A]).toArray

theorem scope_ok {xs ys : List Nat} {v a : Nat} {om : Mem 15} {its0 : List Item} {s s5 : S} {G : Fns} (h : Entry0 xs v s) (hkn : Known G v s)
    (hnt : ∀ y < 2 ^ 10, ∀ w, s.lookup.get y = some w → w < s.scopes.get 0 ∧ (s.vars.get w).type &&& vtTypedef = 0) (B5 : Begun xs v a om its0 s s5) (hnew : ∀ y ∈ ys, y ∉ xs) :
    Scope (locOff xs ys) G xs s5.lookup s5.vars (s.scopes.get 0 + globalReserve + xs.length) := by
  have hlt := h.lt
  have hroom := h.room
  have hold : ∀ w < s.scopes.get 0, (s5.vars.get w).type = (s.vars.get w).type ∧ (s5.vars.get w).offset = if w = v then (s.code : Int) else (s.vars.get w).offset := fun w hw => by
    rw [B5.vars w hw]
    by_cases hwv : w = v
    · subst hwv; rw [if_pos rfl, if_pos rfl]; exact ⟨rfl, rfl⟩
    · rw [if_neg hwv, if_neg hwv]; exact ⟨rfl, rfl⟩
  refine ⟨fun x hx => ?_, fun f hf hfx => ?_, fun y hy w hw => ?_⟩
  · obtain ⟨i, hi, rfl⟩ := List.getElem_of_mem hx
    obtain ⟨d1, d2, _⟩ := B5.par.decl i hi hi
    refine ⟨(h.par.ids _ hx).1, (h.par.ids _ hx).2, _, ?_, B5.par.look i hi hi, d1, ?_⟩
    · omega
    · rw [d2, locOff, if_neg fun hm => hnew _ hm hx, parOff, h.par.nodup.idxOf_getElem i hi]
  · obtain ⟨k1, k2, w, k3, k4, k5, k6, k7⟩ := hkn f hf
    refine ⟨k1, k2, w, by omega, ?_, by omega, ?_, ?_, k7⟩
    · exact (B5.par.keep f (Nat.lt_of_lt_of_le k2 (by decide)) (by rw [List.take_length]; exact hfx)).trans k3
    · rw [(hold w k4).1]; exact k5
    · rw [(hold w k4).2]; exact k6
  · by_cases hyx : y ∈ xs
    · obtain ⟨i, hi, rfl⟩ := List.getElem_of_mem hyx
      rw [B5.par.look i hi hi] at hw
      cases hw
      refine ⟨by omega, ?_⟩
      rw [(B5.par.decl i hi hi).1]; decide
    · rw [B5.par.keep y hy (by rw [List.take_length]; exact hyx)] at hw
      obtain ⟨h1, h2⟩ := hnt y hy w hw
      refine ⟨by omega, ?_⟩
      rw [(hold w h1).1]; exact h2

theorem nums_fst (names : List (List Byte)) (ls : List (List Byte × E)) : (nums names ls).map Prod.fst = ls.map fun p => num names p.1 := by
  unfold nums; rw [List.map_map]; rfl

theorem compiledL {G : Fns} {xs ys : List Nat} {v a : Nat} {om : Mem 15} {s : S} (h : Entry0 xs v s) (hkn : Known G v s)
    (hnt : ∀ y < 2 ^ 10, ∀ w, s.lookup.get y = some w → w < s.scopes.get 0 ∧ (s.vars.get w).type &&& vtTypedef = 0) (hfx : Fixes v s a om) {names : List (List Byte)} {r rest rest2 e : List Byte}
    {ls : List (List Byte × E)} {d : Nat} {cl : Bool} {t : St} {ts : List Tk} {u : Tk} {m m' : Nat} (hlx : Lex names r s) (htok : s.tok = 0x7B) (hpr : s.prec = precStop)
    (hlt : LocText rest names ls r) (hsh : ShowsS true d false cl t ts) (hsrc : SrcTo (addL names ls) rest2 rest (ts ++ [rbr]))
    (hys : ys = ls.map fun p => num (addL names ls) p.1) (hokl : OkL m xs (nums (addL names ls) ls)) (hok : Ok G.F (xs ++ ys) m' t) (hd : d + 3 ≤ scopeMax)
    (hroom : RoomI (addL names ls)) (hkw : Kw names) (hk : ∀ p ∈ ls, ¬ IsKw p.1) (hvars : s.scopes.get 0 + globalReserve + xs.length + ls.length ≤ varDeclMax)
    (hsz : a + szL ls + sz t + 11 ≤ codeStart + outputMax) (hnl : nl t ≤ labelMax)
    (hnext : ∀ B : Base, Ids B.s (addL names ls) → B.s.idPos = used (addL names ls) → B.fin = (· = e.headD 0 :: e.tail) → Scan B rest2 [u]) :
    ∃ s', (∃ N, ∀ n, N ≤ n → parseFunction (run n) v s = .ok () s') ∧ CompiledL G.A xs ys v a om ls t (addL names ls) s s' ∧ s'.tok = u.tok ∧ s'.cur :: s'.inp = e.headD 0 :: e.tail := by
  obtain ⟨s5, its0, B5, hrun⟩ := begin_ok h hfx (by omega)
  have hyl : ys.length = ls.length := by rw [hys, List.length_map]
  have hfst : (nums (addL names ls) ls).map Prod.fst = ys := by rw [nums_fst, hys]
  have hnew : (∀ y ∈ ys, y ∉ xs) ∧ ys.Nodup := by rw [← hfst]; exact hokl.new
  have Sc := scope_ok h hkn hnt B5 hnew.1
  have D : Decls (locOff xs ys) xs ys (s.scopes.get 0 + globalReserve + xs.length) := by
    refine ⟨by omega, hnew.2, fun y hy => ?_, hnew.1, fun i hi => ?_⟩
    · rw [hys] at hy
      obtain ⟨p, hp, rfl⟩ := List.mem_map.1 hy
      exact ⟨Kw.user (hkw.trans (addL_pre ls names)) (hk p hp), Nat.lt_of_lt_of_le (List.idxOf_lt_length_of_mem (addL_mem ls names hp)) hroom.1⟩
    · rw [locOff, if_pos (List.getElem_mem hi), hnew.2.idxOf_getElem i hi]
  -- the block
  let sA : S := { s5 with scopes := s5.scopes.set s5.scopeCount (s5.scopes.get (s5.scopeCount - 1)), scopeCount := s5.scopeCount + 1, ignoreRedef := s5.ignoreRedef + 1, log := .push :: s5.log }
  have sc5 := B5.par.sc
  have eA : pushScope s5 = .ok () sA := run_getS (run_failIf (by rw [sc5]; rfl) rfl)
  have htk : ∀ {β : Type} (g : Nat × Nat × Int × Byte × List Byte → β), g (tks s5) = g (tks s) := fun g => by rw [B5.tks]
  have tok5 : s5.tok = 0x7B := (htk (·.1)).trans htok
  have prec5 : s5.prec = precStop := (htk (·.2.1)).trans hpr
  have lx5 : Lex names r s5 := by
    have i5 := B5.ids
    simp only [SccGen.ids, Prod.mk.injEq] at i5
    obtain ⟨i1, i2, i3, i4⟩ := i5
    refine ⟨?_, ?_, i4.trans hlx.pos, hlx.ge⟩
    · rw [show s5.cur = s.cur from htk (·.2.2.2.1), show s5.inp = s.inp from htk (·.2.2.2.2)]; exact hlx.text
    · unfold Props.SccIds.Ids
      rw [i1, i2, i3]
      exact hlx.ids
  have lxA : Lex names r sA := ⟨lx5.text, lx5.ids, lx5.pos, lx5.ge⟩
  have hsA : sA.scopes = s5.scopes.set 2 (s5.scopes.get 1) := by show s5.scopes.set s5.scopeCount (s5.scopes.get (s5.scopeCount - 1)) = _; rw [sc5]
  have dA : Dcl s.ignoreRedef (s.scopes.get 0) s5.lookup s5.vars ys (s.scopes.get 0 + globalReserve + xs.length) 0 ([.raw [0x89, 0xE5], .raw [0x55]] ++ its0) sA := by
    refine ⟨⟨?_, ?_, ?_, ?_, fun _ _ hh => absurd hh (Nat.not_lt_zero _), fun _ _ hh => absurd hh (Nat.not_lt_zero _), fun _ _ hh => absurd hh (Nat.not_lt_zero _), fun _ _ _ => rfl, fun _ _ => rfl, B5.lo⟩,
      B5.sp, B5.push, B5.reg, B5.sw, B5.hist.same ⟨rfl, rfl, rfl, rfl, rfl⟩ rfl rfl, B5.dead, B5.rl, B5.lab⟩
    · show s5.scopeCount + 1 = 3
      rw [sc5]
    · rw [hsA, Tab.get_set_ne _ _ (by decide) (by decide) (by decide), Tab.get_set_ne _ _ (by decide) (by decide) (by decide)]
      exact ⟨B5.scs, B5.par.top⟩
    · rw [hsA, Tab.get_set_self]; exact B5.par.top
    · show s5.ignoreRedef + 1 = _
      rw [B5.par.redef]
  have cA : sA.code = a + 3 := B5.code
  have hrn : rest ≠ [] := src_ne hsrc (by simp)
  obtain ⟨sB, pB, lB, dB, kB, cB, gB⟩ := locs_ok hrn ls hlt lxA prec5 D Sc dA (by rw [List.drop_zero, hfst]) (by rw [List.take_zero, List.append_nil]; exact hokl) hroom hkw hk (by omega)
  rw [Nat.zero_add] at dB
  let B : Base := ⟨sB, (· = e.headD 0 :: e.tail)⟩
  have onB : On B sB (.sym sB.tok precStop :: (ts ++ rbr :: u :: [])) := by
    refine ⟨⟨rfl, pB, nofun⟩, ?_⟩
    have := hsrc.scan B (hnext B lB.ids lB.pos rfl) lB.ids fun w hw => by
      have h1 := hroom.2 w hw
      have h2 := lB.pos
      show sB.idPos + _ + 1 ≤ _
      omega
    rw [lB.text]
    simpa using this
  obtain ⟨w, ws, ew⟩ : ∃ w ws, ts ++ rbr :: u :: [] = w :: ws := by cases ts <;> exact ⟨_, _, rfl⟩
  obtain ⟨sC, eC, onC, kC⟩ := On.next' (s0 := B) (u := w) (ts := ws) (by rw [ew] at onB; exact onB) rfl
  rw [← ew] at onC
  have dC := dB.tok (s' := sC) (by unfold TokI; rw [show sC = _ from kC])
  have rC := dC.rdy D Sc onC (by have := congrArg SccGen.ids kC; exact this)
  rw [← hyl, List.take_length] at rC
  have codeC : sC.code = sB.code := by have := congrArg S.code kC; exact this
  have loC : sC.localOffset = -((2 * ls.length : Nat) : Int) := dC.loc.lo
  have hlC : ∀ {β : Type} (g : S → β), (∀ s, g (hl s) = g s) → g sC = g sA := fun g hg => by
    have e1 : hl sC = hl sA := by rw [← kB, show sC = _ from kC]; rfl
    rw [← hg sC, e1, hg]
  have blC : sC.breakLabel = -1 := (hlC S.breakLabel fun _ => rfl).trans B5.bl
  have clC : sC.contLabel = -1 := (hlC S.contLabel fun _ => rfl).trans B5.cl
  -- the statements
  have hpar := parsed (m := m') (a := codeStart) hsh sC rbr [u] _ rC hok (fun _ => rfl) (fun _ => by decide) (fun e => by rw [dC.dead] at e; cases e) (by rw [dC.loc.sc]; omega) nofun (by omega) (by rw [dC.lab]; omega)
  obtain ⟨s6, zs, g6, r6⟩ := hpar
  have g6 : Go .stmts sC s6 := g6
  obtain ⟨s1, eT, ⟨N, gT⟩⟩ := gB sC s6 eC g6
  obtain ⟨s7, e7, r7, m7, d7⟩ := r6.rdy.tok sC.labelCount
  have M : Mv sC.labelCount (sz t) (nl t) sC zs s7 := by
    have := r6.mv.trans m7 (Nat.le_refl _)
    simpa using this
  have dd7 : s7.dead = dies t := by rw [d7, r6.dead, dC.dead]; rfl
  have hz7 : ∀ {β : Type} (g : S → β), (∀ s, g (fz s) = g s) → g s7 = g sC := fun g hg => by rw [← hg s7, M.fz, hg]
  have sc7 : s7.scopeCount = 3 := (hz7 S.scopeCount fun _ => rfl).trans dC.loc.sc
  have g0 : s7.scopes.get 0 = s.scopes.get 0 := (M.scs 0 (by rw [dC.loc.sc]; decide)).trans dC.loc.scs.1
  have g1 : s7.scopes.get 1 = s.scopes.get 0 + globalReserve + xs.length := (M.scs 1 (by rw [dC.loc.sc]; decide)).trans dC.loc.scs.2
  have g2 : s7.scopes.get 2 = s.scopes.get 0 + globalReserve + xs.length + ys.length := (M.scs 2 (by rw [dC.loc.sc]; decide)).trans (dC.loc.top.trans (by rw [hyl]))
  have v7 : s7.vars = sC.vars := hz7 S.vars fun _ => rfl
  have k7 : s7.lookup = sC.lookup := hz7 S.lookup fun _ => rfl
  let sP : S := { s7 with scopeCount := s7.scopeCount - 1, ignoreRedef := s7.ignoreRedef - 1 }
  obtain ⟨tL, eP, hL⟩ := popVars_ok (L := s5.lookup) (xs := ys) (b := s.scopes.get 0 + globalReserve + xs.length) (fun y hy => (D.ids y hy).2) ys.length 0 sP (by omega)
    (fun j hj => by
      show (s7.vars.get _).id = _ ∧ (s7.vars.get _).prev = _ ∧ (s7.vars.get _).ref = 0
      rw [v7]
      obtain ⟨h1, h2⟩ := dC.loc.prev j hj (by omega)
      exact ⟨h1, h2, (dC.loc.decl j hj (by omega)).2.2⟩)
    (fun y hy hny => by
      show s7.lookup.get y = _
      rw [k7]
      exact dC.loc.keep y hy (by rw [← hyl, List.take_length]; exact hny))
  let s8 : S := { sP with lookup := tL, log := .pop :: s7.log }
  have e8 : popScope s7 = .ok () s8 := by
    refine run_getS (run_failIf (by rw [sc7]; rfl) (run_modS (run_getS (run_bind (a := ()) (s1 := { sP with lookup := tL }) ?_ rfl))))
    show popVars (s7.scopes.get (s7.scopeCount - 1) - s7.scopes.get (s7.scopeCount - 1 - 1)) (s7.scopes.get (s7.scopeCount - 1 - 1)) sP = _
    rw [sc7, show s7.scopes.get (3 - 1) = _ from g2, show s7.scopes.get (3 - 1 - 1) = _ from g1, Nat.add_sub_cancel_left]
    exact eP
  have lo7 : s7.localOffset = -((2 * ls.length : Nat) : Int) := M.lo.trans loC
  generalize hs9 : ({ s8 with spAdj := s8.spAdj + (s5.localOffset - s8.localOffset), localOffset := s5.localOffset, memCount := s5.memCount, structCount := s5.structCount, arrayCount := s5.arrayCount } : S) = s9
  have go9 : ∀ n, N + 1 ≤ n → go' (run n) .stmt s5 = .ok () s9 := by
    intro n hn
    obtain ⟨n, rfl⟩ : ∃ j, n = j + 1 := ⟨n - 1, by omega⟩
    have eX : expect 0x7B sA = .ok () s1 := run_getS (run_pos tok5 eT)
    refine run_bind (a := 0) (s1 := s9) (run_bind (a := ()) (s1 := s9) (run_getS (run_pos tok5 (run_getS (run_bind eA (run_bind eX (run_bind (gT n (by omega)) (run_bind e7 (run_bind e8 ?_)))))))) rfl) rfl
    rw [← hs9]; rfl
  have sp9 : s9.spAdj = ((2 * ls.length : Nat) : Int) := by
    have h1 : s9.spAdj = s7.spAdj + (s5.localOffset - s7.localOffset) := by rw [← hs9]
    have h2 := r7.sp
    have h3 := B5.lo
    omega
  have hh9 : Hist codeStart (zs.reverse ++ ((ls.map fun p => Item.raw (declB (locOff xs ys) p.2)).reverse ++ ([.raw [0x89, 0xE5], .raw [0x55]] ++ its0))) s9 := by
    rw [← hs9]; exact r7.hist.same ⟨rfl, rfl, rfl, rfl, rfl⟩ rfl rfl
  have hq : ∀ {β : Type} (g : S → β), (∀ (s : S) a b c d e f g' h i, g { s with scopeCount := a, ignoreRedef := b, lookup := c, log := d, spAdj := e, localOffset := f, memCount := g', structCount := h, arrayCount := i } = g s) →
      g s9 = g s7 := fun g hg => by rw [← hs9]; exact hg s7 _ _ _ _ _ _ _ _ _
  have c7 := M.code
  have c9 : s9.code = s7.code := hq S.code fun _ _ _ _ _ _ _ _ _ _ => rfl
  have rl9 : s9.returnLabel = s7.returnLabel := hq S.returnLabel fun _ _ _ _ _ _ _ _ _ _ => rfl
  have lc9 : s9.labelCount = s7.labelCount := hq S.labelCount fun _ _ _ _ _ _ _ _ _ _ => rfl
  have dd9 : s9.dead = dies t := (hq S.dead fun _ _ _ _ _ _ _ _ _ _ => rfl).trans dd7
  have rlM := m7.rl
  have lcM : s7.labelCount = s6.labelCount := m7.lc
  have hcode : ∀ R : Nat, s7.returnLabel = -1 ∨ s7.returnLabel = R → Code (locOff xs ys) G.A (-((2 * ls.length : Nat) : Int)) R (-1) (-1) 0 s6.labelCount t zs := fun R hR => by
    have := r6.code R (by omega)
    rwa [loC, blC, clC, dC.lab] at this
  have hns : ls = [] → s7.returnLabel = -1 := fun hh => (M.fl (by rw [loC, hh]; rfl)).trans dC.rl
  have rlL := r7.rl
  obtain ⟨s10, e10, hh10, f10, sp10, c10⟩ := leave_ok (n := ls.length) hh9 sp9 ((hq S.push fun _ _ _ _ _ _ _ _ _ _ => rfl).trans r7.push) (by omega)
    (fun h0 => by
      rw [rl9] at h0 ⊢
      rw [lc9, dd9]
      refine ⟨fun hh => ?_, rlL.2, fun hm => ?_, fun hdt => ?_⟩
      · have := hns (List.length_eq_zero_iff.1 hh)
        omega
      · rcases List.mem_append.1 hm with hm | hm
        · have := (M.own s7.returnLabel.toNat (.inl (List.mem_reverse.1 hm))).2.2
          omega
        · have := dC.hist.lab_lt hm
          have := dC.lab
          omega
      · exact (hcode s7.returnLabel.toNat (by omega)).dies hok hdt _ _)
    (fun h0 hdt => by
      rw [rl9] at h0
      rw [dd9] at hdt
      have hr1 : s7.returnLabel = -1 := by omega
      by_cases hn : ls.length = 0
      · exact hn
      · have hj := die_jmp (hcode s7.labelCount (.inl hr1)) hdt (by omega) (by decide) (by decide)
        have := r7.hist.to_lt (List.mem_append_left _ (List.mem_reverse.2 hj)) (l := s7.labelCount) rfl
        omega)
  have hf : ∀ {β : Type} (g : S → β), (∀ s, g (fe s) = g s) → g s10 = g s9 := fun g hg => by rw [← hg s10, f10, hg]
  have q9 : s9.scopeCount = 2 ∧ s9.ignoreRedef = s.ignoreRedef + 1 ∧ s9.lookup = tL ∧ s9.scopes = s7.scopes ∧ s9.vars = sC.vars := by
    rw [← hs9]
    refine ⟨?_, ?_, rfl, rfl, v7⟩
    · show s7.scopeCount - 1 = 2
      rw [sc7]
    · show s7.ignoreRedef - 1 = _
      rw [hz7 S.ignoreRedef fun _ => rfl, dC.loc.redef]; rfl
  have vA : ∀ j < s.scopes.get 0 + globalReserve + xs.length, s10.vars.get j = s5.vars.get j := fun j hj => by
    rw [hf S.vars fun _ => rfl, q9.2.2.2.2]; exact dC.loc.old j hj
  have gs : s10.scopes = s7.scopes := (hf S.scopes fun _ => rfl).trans q9.2.2.2.1
  obtain ⟨lk, lg, e11, hlk⟩ := close_ok (L := s.lookup) (xs := xs) (s := { s10 with labelCount := 0, namedCount := 0 }) (fun x hx => (h.par.ids x hx).2) ((hf S.scopeCount fun _ => rfl).trans q9.1)
    (by show s10.scopes.get 1 = s10.scopes.get 0 + _ + _; rw [gs, g0, g1])
    (fun j h1 h2 => by
      have h1 : s10.scopes.get 0 ≤ j := h1
      have h2 : j < s10.scopes.get 0 + globalReserve := h2
      rw [gs, g0] at h1 h2
      show (s10.vars.get j).id < 0
      rw [vA j (by omega), B5.res j h1 h2]; decide)
    (fun j hj => by
      show (s10.vars.get (s10.scopes.get 0 + globalReserve + j)).id = _ ∧ (s10.vars.get (s10.scopes.get 0 + globalReserve + j)).prev = _ ∧ (s10.vars.get (s10.scopes.get 0 + globalReserve + j)).ref = _
      rw [gs, g0, vA _ (by omega)]
      exact ⟨(B5.par.prev j hj hj).1, (B5.par.prev j hj hj).2, (B5.par.decl j hj hj).2.2⟩)
    (fun y hy hny => by
      show s10.lookup.get y = _
      rw [hf S.lookup fun _ => rfl, q9.2.2.1, hL y hy]
      exact B5.par.keep y hy (by rw [List.take_length]; exact hny))
  have hitems : (endItems ls.length s9.dead s9.returnLabel).reverse ++ (zs.reverse ++ ((ls.map fun p => Item.raw (declB (locOff xs ys) p.2)).reverse ++ ([.raw [0x89, 0xE5], .raw [0x55]] ++ its0))) =
      (funItemsL (locOff xs ys) ls t zs s7.returnLabel).reverse ++ its0 := by
    unfold funItemsL
    rw [dd9, rl9]
    simp
  rw [hitems] at hh10
  obtain ⟨cs, hcs, hits, hlow⟩ := B5.fin _ _ hh10
  have hq5 : ∀ {β : Type} (g : S → β), (∀ s, g (fe s) = g s) → (∀ (s : S) a b c d e f g' h i, g { s with scopeCount := a, ignoreRedef := b, lookup := c, log := d, spAdj := e, localOffset := f, memCount := g', structCount := h, arrayCount := i } = g s) →
      (∀ s, g (fz s) = g s) → (∀ s, g (hl s) = g s) → g s10 = g sA := fun g h1 h2 h3 h4 => by rw [hf g h1, hq g h2, hz7 g h3, hlC g h4]
  have i10 : SccGen.ids s10 = SccGen.ids sB := by
    rw [hf SccGen.ids fun _ => rfl, hq SccGen.ids fun _ _ _ _ _ _ _ _ _ _ => rfl, hz7 SccGen.ids fun _ => rfl]
    have := congrArg SccGen.ids kC
    exact this
  have t10 : tks s10 = tks s7 := (hf tks fun _ => rfl).trans (hq tks fun _ _ _ _ _ _ _ _ _ _ => rfl)
  simp only [SccGen.ids, Prod.mk.injEq] at i10
  obtain ⟨i1, i2, i3, i4⟩ := i10
  have hlt := h.lt
  refine ⟨_, ⟨N + 1, fun n hn => hrun n s9 s10 _ (go9 n hn) e10 e11⟩, ⟨?_, hlow, ?_, hcs.tile.le, ?_, ?_, rfl, ?_, ?_, hlk, fun j hj => ?_, rfl, sp10, ?_, ?_, ?_, hh10.zf, ?_, ?_⟩, ?_, ?_⟩
  · by_cases hr : s7.returnLabel = -1
    · refine ⟨s10, cs, zs, s6.labelCount, -1, s7.labelCount, rfl, rfl, hcs, by rw [hits, hr], hcode _ (.inl hr), .inl ⟨rfl, fun _ hj => ?_⟩⟩
      have := r7.hist.to_lt (List.mem_append_left _ (List.mem_reverse.2 hj)) (l := s7.labelCount) rfl
      omega
    · have hR : s7.returnLabel = (s7.returnLabel.toNat : Int) := by omega
      exact ⟨s10, cs, zs, s6.labelCount, s7.returnLabel, s7.returnLabel.toNat, rfl, rfl, hcs, hits, hcode _ (.inr hR), .inr ⟨hR, fun hh => hr (hns hh)⟩⟩
  · show s10.code ≤ _
    omega
  · show IdsOf s10.idHash s10.idText s10.idCount _
    rw [i1, i2, i3]; exact lB.ids
  · exact i4.trans lB.pos
  · show s10.scopes.get 0 = _
    rw [gs, g0]
  · show s10.ignoreRedef - 1 = _
    rw [hf S.ignoreRedef fun _ => rfl, q9.2.1]; rfl
  · show s10.vars.get j = _
    rw [vA j (by omega)]; exact B5.vars j hj
  · exact ((hf S.push fun _ => rfl).trans (hq S.push fun _ _ _ _ _ _ _ _ _ _ => rfl)).trans r7.push
  · exact ((hf S.regUse fun _ => rfl).trans (hq S.regUse fun _ _ _ _ _ _ _ _ _ _ => rfl)).trans r7.reg
  · show s10.switchCase < 0
    rw [hf S.switchCase fun _ => rfl, hq S.switchCase fun _ _ _ _ _ _ _ _ _ _ => rfl]; exact r7.sw
  · exact (hq5 S.bss (fun _ => rfl) (fun _ _ _ _ _ _ _ _ _ _ => rfl) (fun _ => rfl) fun _ => rfl).trans B5.bss
  · exact (hq5 S.map (fun _ => rfl) (fun _ _ _ _ _ _ _ _ _ _ => rfl) (fun _ => rfl) fun _ => rfl).trans B5.map
  · have := congrArg (·.1) t10
    exact this.trans r7.on.1.tok
  · have h1 : s10.cur = s7.cur := congrArg (·.2.2.2.1) t10
    have h2 : s10.inp = s7.inp := congrArg (·.2.2.2.2) t10
    show s10.cur :: s10.inp = _
    rw [h1, h2]
    cases r7.on.2 with
    | nil _ h => exact h

end SccLoc
