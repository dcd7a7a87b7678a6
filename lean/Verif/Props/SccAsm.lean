import Verif.Props.SccLabel
import Verif.Props.SccGenExpr
/-!
# Jumps and labels (C36): every jump reaches its label
-/
namespace SccLayout
open Prog Scc SccCode SccGen SccJump SccFix

/-! ## Emitting -/

theorem B_putOut (bs : List Byte) : ∀ (m : Mem 15) (e x : Nat), In e → e + bs.length ≤ codeStart + outputMax → In x →
    B (putOut m e bs) x = if h : e ≤ x ∧ x < e + bs.length then bs[x - e]'(by omega) else B m x := by
  induction bs with
  | nil =>
    intro m e x _ _ _
    rw [dif_neg (by simp only [List.length_nil]; omega)]
    rfl
  | cons b bs ih =>
    intro m e x he hle hx
    rw [List.length_cons] at hle
    show B (putOut (st m e b) (e + 1) bs) x = _
    by_cases hb : bs = []
    · subst hb
      show B (st m e b) x = _
      by_cases hxe : x = e
      · subst hxe
        rw [B_self, dif_pos ⟨Nat.le_refl _, by simp⟩]
        simp
      · rw [B_ne _ _ he hx (Ne.symm hxe), dif_neg (by simp only [List.length_cons, List.length_nil]; omega)]
    · have hl : 0 < bs.length := List.length_pos_iff.2 hb
      have he1 : In (e + 1) := ⟨by have := he.1; omega, by omega⟩
      rw [ih _ _ x he1 (by omega) hx]
      by_cases h1 : e + 1 ≤ x ∧ x < e + 1 + bs.length
      · rw [dif_pos h1, dif_pos ⟨by omega, by rw [List.length_cons]; omega⟩]
        simp only [show x - e = (x - (e + 1)) + 1 by omega, List.getElem_cons_succ]
      · rw [dif_neg h1]
        by_cases hxe : x = e
        · subst hxe
          rw [B_self, dif_pos ⟨Nat.le_refl _, by simp⟩]
          simp
        · rw [B_ne _ _ he hx (Ne.symm hxe), dif_neg (by rw [List.length_cons]; omega)]

theorem room_in {s : S} {n : Nat} (h : Room s n) (hn : n ≠ 0) : In s.code ∧ s.code + n ≤ codeStart + outputMax := by
  obtain ⟨h1, h2⟩ := h
  unfold In
  generalize codeStart = y, outputMax = z at *
  omega

theorem below_put {s : S} {bs : List Byte} (h : Room s bs.length) (hn : bs.length ≠ 0) : Below s.out (putOut s.out s.code bs) s.code := by
  intro x hx hlt
  obtain ⟨h1, h2⟩ := room_in h hn
  rw [B_putOut bs _ _ _ h1 h2 hx, dif_neg (by omega)]

theorem new_put {s : S} {bs : List Byte} (h : Room s bs.length) (i : Nat) (hi : i < bs.length) : B (putOut s.out s.code bs) (s.code + i) = bs[i] := by
  obtain ⟨h1, h2⟩ := room_in h (by omega)
  rw [B_putOut bs _ _ _ h1 h2 ⟨by have := h1.1; omega, by omega⟩, dif_pos ⟨by omega, by omega⟩]
  simp

/-- Code is added. -/
theorem Inv.raw {a : Nat} {cs : List Chunk} {s : S} (h : Inv a cs s) (hlv : Live s) {bs : List Byte} (hb : bs ≠ [])
    (hst : afterJcc (cs.map Chunk.item) = true → Starts bs) (hr : Room s bs.length) :
    output bs s = .ok () (put s bs) ∧ Inv a (⟨.raw bs, s.code, bs.length⟩ :: cs) (put s bs) := by
  refine ⟨hlv.out_put hr, ?_⟩
  have hn : bs.length ≠ 0 := fun e => hb (List.length_eq_zero_iff.1 e)
  rw [put_eq]
  refine h.push rfl rfl ?_ (below_put hr hn) (fun _ => rfl) rfl rfl (fun _ e => by cases e) ⟨rfl, hb, fun i hi => new_put hr i hi⟩ (fun _ e => by cases e) (fun l hl h0 => ?_)
    (fun bs' e ha => by cases e; exact hst ha) (fun _ e => by cases e)
  · exact (room_in hr hn).2
  · exact h.chain_keep (below_put hr hn) h0 (h.chain l hl h0)

theorem adr_set {s s' : S} {l v : Nat} (hlt : l < 2 ^ 9) (hl : s'.labels = s.labels.set l ⟨(s.labels.get l).addr, v⟩) (l' : Nat) : adr s' l' = adr s l' := by
  unfold adr
  rw [hl]
  by_cases h9 : l' < 2 ^ 9
  · rw [if_pos h9, if_pos h9, Tab.get_set _ _ hlt h9]
    by_cases e : l = l'
    · rw [if_pos e]; subst e; rfl
    · rw [if_neg e]
  · rw [if_neg h9, if_neg h9]

theorem lo_hi_ref {r : Nat} (h : r < 2 ^ 16) : (Scc.lo (r : Int)).toNat + 256 * (Scc.hi (r : Int)).toNat = r := by
  unfold Scc.lo Scc.hi byteOf
  rw [BitVec.toNat_ofInt, BitVec.toNat_ofInt, Int.shiftRight_eq_div_pow]
  omega

theorem Inv.ref_lt {a : Nat} {cs : List Chunk} {s : S} (h : Inv a cs s) {l : Nat} (hl : l < s.labelCount) (h0 : adr s l = 0) : (s.labels.get l).ref < 2 ^ 16 := by
  have hch := h.chain l hl h0
  cases hrf : refs l cs with
  | nil => rw [hrf] at hch; have : (s.labels.get l).ref = 0 := hch; omega
  | cons c rest =>
    rw [hrf] at hch
    have h1 := hch.1
    have hm := (mem_refs.1 (show c ∈ refs l cs by rw [hrf]; exact List.mem_cons_self ..)).1
    have h2 := (h.tile.mem hm).2
    have h3 := h.le
    have : codeStart + outputMax < 2 ^ 16 := by decide
    omega

/-- A reference with a fixup is added: the last two bytes are the address of the one before. -/
theorem Inv.jumped {a : Nat} {cs : List Chunk} {s : S} (h : Inv a cs s) {l : Nat} (hl : l < s.labelCount) (h0 : adr s l = 0) {it : Item} {pre : List Byte}
    (hto : it.to = some l) (hr : Room s (pre ++ [Scc.lo (s.labels.get l).ref, Scc.hi (s.labels.get l).ref]).length)
    (hp : Pend (putOut s.out s.code (pre ++ [Scc.lo (s.labels.get l).ref, Scc.hi (s.labels.get l).ref])) ⟨it, s.code, pre.length + 2⟩)
    (hjj : ∀ l, it = .jmp l → afterJmp (cs.map Chunk.item) = false) :
    Inv a (⟨it, s.code, pre.length + 2⟩ :: cs) (SccJump.jumped s l (pre ++ [Scc.lo (s.labels.get l).ref, Scc.hi (s.labels.get l).ref])) := by
  have hcnt := h.count
  have h512 : labelMax < 2 ^ 9 := by decide
  have hlt : l < 2 ^ 9 := by omega
  have hn : (pre ++ [Scc.lo (s.labels.get l).ref, Scc.hi (s.labels.get l).ref]).length ≠ 0 := by simp
  have hlen : (pre ++ [Scc.lo (s.labels.get l).ref, Scc.hi (s.labels.get l).ref]).length = pre.length + 2 := by simp
  refine h.push rfl ?_ ?_ (below_put hr hn) (adr_set hlt rfl) rfl rfl (fun _ e => by simp only at e; rw [e] at hto; cases hto) ?_ (fun l' e => ?_) (fun l' hl' h0' => ?_)
    (fun bs e => by simp only at e; rw [e] at hto; cases hto) (fun l' e => ⟨hjj l' e, by simp⟩)
  · show s.code + _ = s.code + _; rw [hlen]
  · exact (room_in hr hn).2
  · cases it with
    | raw bs => cases hto
    | pos q bs => cases hto
    | lab l => cases hto
    | jmp l => trivial
    | jcc cc l => trivial
  · obtain rfl : l' = l := Option.some.inj (e.symm.trans hto)
    exact ⟨hl, fun _ => hp, fun hn => absurd h0 hn⟩
  · by_cases e : l' = l
    · subst e
      have er : refs l' (⟨it, s.code, pre.length + 2⟩ :: cs) = ⟨it, s.code, pre.length + 2⟩ :: refs l' cs := List.filter_cons_of_pos (by simp [hto])
      rw [er]
      show Chain _ ((s.labels.set l' ⟨_, _⟩).get l').ref _
      rw [Tab.get_set_self]
      refine ⟨by show s.code + _ - 2 = _; rw [hlen], ?_⟩
      have hx : s.code + (pre ++ [Scc.lo (s.labels.get l').ref, Scc.hi (s.labels.get l').ref]).length - 2 = s.code + pre.length := by rw [hlen]; omega
      show Chain (putOut s.out s.code _) (nextRef (putOut s.out s.code _) (s.code + (pre ++ [Scc.lo (s.labels.get l').ref, Scc.hi (s.labels.get l').ref]).length - 2)) _
      rw [hx]
      have en : nextRef (putOut s.out s.code (pre ++ [Scc.lo (s.labels.get l').ref, Scc.hi (s.labels.get l').ref])) (s.code + pre.length) = (s.labels.get l').ref := by
        unfold nextRef
        rw [new_put hr pre.length (by rw [hlen]; omega), Nat.add_assoc, new_put hr (pre.length + 1) (by rw [hlen]; omega)]
        simp only [List.getElem_append_right (Nat.le_refl _), Nat.sub_self, List.getElem_cons_zero,
          List.getElem_append_right (Nat.le_add_right pre.length 1), Nat.add_sub_cancel_left, List.getElem_cons_succ]
        exact lo_hi_ref (h.ref_lt hl h0)
      rw [en]
      exact h.chain_keep (below_put hr hn) h0 (h.chain l' hl h0)
    · have er : refs l' (⟨it, s.code, pre.length + 2⟩ :: cs) = refs l' cs := List.filter_cons_of_neg (by simp [hto]; exact Ne.symm e)
      rw [er]
      show Chain _ ((s.labels.set l ⟨_, _⟩).get l').ref _
      rw [Tab.get_set_ne _ _ hlt (by omega) (Ne.symm e)]
      exact h.chain_keep (below_put hr hn) h0' (h.chain l' hl' h0')

/-- A reference to a label that is already defined is added. -/
theorem Inv.back {a : Nat} {cs : List Chunk} {s : S} (h : Inv a cs s) {l : Nat} (hl : l < s.labelCount) (h0 : adr s l ≠ 0) {it : Item} {bs : List Byte}
    (hto : it.to = some l) (hb : bs ≠ []) (hr : Room s bs.length) (hp : Lands (putOut s.out s.code bs) (adr s) (⟨it, s.code, bs.length⟩ :: cs) ⟨it, s.code, bs.length⟩)
    (hjj : ∀ l, it = .jmp l → afterJmp (cs.map Chunk.item) = false) : Inv a (⟨it, s.code, bs.length⟩ :: cs) (put s bs) := by
  have hn : bs.length ≠ 0 := fun e => hb (List.length_eq_zero_iff.1 e)
  rw [put_eq]
  refine h.push rfl rfl ?_ (below_put hr hn) (fun _ => rfl) rfl rfl (fun _ e => by simp only at e; rw [e] at hto; cases hto) ?_ (fun l' e => ?_) (fun l' hl' h0' => ?_)
    (fun bs e => by simp only at e; rw [e] at hto; cases hto) (fun l' e => ⟨hjj l' e, hn⟩)
  · exact (room_in hr hn).2
  · cases it with
    | raw bs => cases hto
    | pos q bs => cases hto
    | lab l => cases hto
    | jmp l => trivial
    | jcc cc l => trivial
  · obtain rfl : l' = l := Option.some.inj (e.symm.trans hto)
    exact ⟨hl, fun h1 => absurd h1 h0, fun _ => hp⟩
  · have hne : l ≠ l' := fun e => h0 (by rw [e]; exact h0')
    have er : refs l' (⟨it, s.code, bs.length⟩ :: cs) = refs l' cs := List.filter_cons_of_neg (by simp [hto]; exact hne)
    rw [er]
    exact h.chain_keep (below_put hr hn) h0' (h.chain l' hl' h0')

/-! ## Jumps to labels that are already defined -/

/-- The bytes of a jump from `e` to `t`. -/
def jmpB (e t : Nat) : List Byte :=
  if fits8 ((t : Int) - (e + 2 : Nat)) then [0xEB, Scc.lo ((t : Int) - (e + 2 : Nat))] else [0xE9, Scc.lo ((t : Int) - (e + 2 : Nat) - 1), Scc.hi ((t : Int) - (e + 2 : Nat) - 1)]

theorem jump_back {s : S} (hlv : Live s) {l : Nat} (hl : l < s.labelCount) (h0 : (s.labels.get l).addr ≠ 0) (hr : Room s 3) :
    emitLocalJump l s = .ok true (put s (jmpB s.code (s.labels.get l).addr)) := by
  refine run_getS (run_failIf (decide_eq_false (fun h => h ⟨by omega, by omega⟩)) (run_neg h0 ?_))
  unfold jmpB
  by_cases hf : fits8 (((s.labels.get l).addr : Int) - (s.code + 2 : Nat)) = true
  · rw [if_pos hf]
    exact run_pos (by simpa using hf) (run_bind (hlv.out_put (bs := [_, _]) (room_le hr (by simp))) (by simp; rfl))
  · rw [if_neg hf]
    refine run_neg (by simpa using hf) (run_bind (hlv.out_put (bs := [_]) (room_le hr (by simp))) ?_)
    refine run_bind ((put_live hlv _).out_put (bs := [_, _]) (put_room (n := 2) (bs := [0xE9]) hr)) ?_
    rw [put_eq, put_eq, put_eq]
    simp
    rfl

theorem jmpB_lands {s : S} {t : Nat} {pre : List Byte} (hr : Room s (pre ++ jmpB (s.code + pre.length) t).length) :
    Short (putOut s.out s.code (pre ++ jmpB (s.code + pre.length) t)) (s.code + pre.length) t ∧ (jmpB (s.code + pre.length) t).length = 2 ∨
    Long (putOut s.out s.code (pre ++ jmpB (s.code + pre.length) t)) (s.code + pre.length) t ∧ (jmpB (s.code + pre.length) t).length = 3 := by
  have hget : ∀ i (h : i < (jmpB (s.code + pre.length) t).length), B (putOut s.out s.code (pre ++ jmpB (s.code + pre.length) t)) (s.code + pre.length + i) = (jmpB (s.code + pre.length) t)[i] := by
    intro i h
    rw [Nat.add_assoc, new_put hr (pre.length + i) (by rw [List.length_append]; omega), List.getElem_append_right (by omega)]
    simp
  generalize s.code + pre.length = e at *
  generalize hm : putOut s.out s.code (pre ++ jmpB e t) = m at *
  clear hm hr
  unfold jmpB at hget ⊢
  by_cases hf : fits8 ((t : Int) - (e + 2 : Nat)) = true
  · rw [if_pos hf] at hget
    rw [if_pos hf]
    refine .inl ⟨⟨hget 0 (by simp), ?_⟩, rfl⟩
    rw [hget 1 (by simp)]
    show _ = _ + (byteOf _).signExtend 16
    rw [sext_byteOf ((fits8_iff _).1 hf)]
    exact to_word (by omega)
  · rw [if_neg hf] at hget
    rw [if_neg hf]
    refine .inr ⟨⟨hget 0 (by simp), ?_⟩, rfl⟩
    rw [hget 1 (by simp), hget 2 (by simp)]
    show _ = _ + I86.word (Scc.lo _) (Scc.hi _)
    rw [word_lo_hi]
    exact to_word (by omega)

theorem jmpB_len (e t : Nat) : (jmpB e t).length ≤ 3 ∧ jmpB e t ≠ [] := by
  unfold jmpB
  split <;> simp

/-- A jump is added. -/
theorem Inv.jmp {a : Nat} {cs : List Chunk} {s : S} (h : Inv a cs s) (hd : s.dead = false) (hsp : s.spAdj = 0) {l : Nat} (hl : l < s.labelCount)
    (hjj : afterJmp (cs.map Chunk.item) = false) (hr : Room s 3) :
    ∃ m' n t, emitJmp l s = .ok () { s with push := false, dead := true, out := m', code := s.code + n, labels := t } ∧
      Inv a (⟨.jmp l, s.code, n⟩ :: cs) { s with push := false, dead := true, out := m', code := s.code + n, labels := t } := by
  have hlive : Live { s with push := false } := ⟨hd, hsp, rfl⟩
  have ha := adr_eq hl h.count
  have h' : Inv a cs { s with push := false } := h.same ⟨rfl, rfl, rfl, rfl, rfl⟩
  by_cases h0 : adr s l = 0
  · have e := jmp_new hd hsp l hl (ha ▸ h0) hr
    refine ⟨_, 3, _, e, ?_⟩
    have hi := h'.jumped (it := .jmp l) (pre := [0xE9]) hl h0 rfl hr ⟨rfl, new_put (s := { s with push := false }) (bs := [0xE9, _, _]) hr 0 (by simp)⟩ (fun _ _ => hjj)
    exact hi.same ⟨rfl, rfl, rfl, rfl, rfl⟩
  · have e := jump_back hlive hl (ha ▸ h0) hr
    have hlen := jmpB_len s.code (s.labels.get l).addr
    have hr' : Room { s with push := false } (jmpB s.code (s.labels.get l).addr).length := room_le hr hlen.1
    have e1 : emitJmp l s = .ok () { put { s with push := false } (jmpB s.code (s.labels.get l).addr) with dead := true } :=
      run_modS (run_bind (checks_live hlive (room_le hr (by omega))) (run_neg (by decide) (run_bind e rfl)))
    rw [put_eq] at e1
    refine ⟨_, _, _, e1, ?_⟩
    have hld := jmpB_lands (s := { s with push := false }) (t := (s.labels.get l).addr) (pre := []) hr'
    have hi := h'.back (it := .jmp l) hl h0 rfl hlen.2 hr' ?_ (fun _ _ => hjj)
    · rw [put_eq] at hi
      exact hi.same ⟨rfl, rfl, rfl, rfl, rfl⟩
    · show _ ∨ _ ∨ _
      rw [show adr { s with push := false } l = (s.labels.get l).addr from ha]
      rcases hld with ⟨h1, h2⟩ | ⟨h1, h2⟩
      · exact .inr (.inl ⟨.inl h2, h1⟩)
      · exact .inr (.inr ⟨h2, h1⟩)

/-- A conditional jump is added. -/
theorem Inv.jcc {a : Nat} {cs : List Chunk} {s : S} (h : Inv a cs s) (hlv : Live s) {cc l : Nat} (hcc : cc < 16) (hl : l < s.labelCount) (hr : Room s 5) :
    ∃ m' n t, emitJcc cc l s = .ok () { s with out := m', code := s.code + n, labels := t } ∧
      Inv a (⟨.jcc cc l, s.code, n⟩ :: cs) { s with out := m', code := s.code + n, labels := t } := by
  have ha := adr_eq hl h.count
  have hcnt := h.count
  by_cases h0 : adr s l = 0
  · have e := jcc_new hlv cc l hl h.count (ha ▸ h0) hr
    refine ⟨_, 5, _, e, ?_⟩
    exact h.jumped (it := .jcc cc l) (pre := [nb (0x70 ||| (cc ^^^ 1)), 3, 0]) hl h0 rfl hr
      ⟨rfl, hcc, new_put (bs := [_, _, _, _, _]) hr 0 (by simp), new_put (bs := [_, _, _, _, _]) hr 1 (by simp), new_put (bs := [_, _, _, _, _]) hr 2 (by simp)⟩ (fun _ e => by cases e)
  · have hpre : ∀ {r : Res S Unit}, (if (s.labels.get l).addr ≠ 0 ∧ fits8 (((s.labels.get l).addr : Int) - (s.code + 2 : Nat)) = true then
          output [nb (0x70 ||| cc), Scc.lo (((s.labels.get l).addr : Int) - (s.code + 2 : Nat))] else emitFarJcc cc l) s = r → emitJcc cc l s = r := by
      intro r hr'
      refine run_bind (checks_live hlv (room_le hr (by omega))) (run_neg (by decide) (run_getS (run_ub (decide_eq_true ⟨by omega, by omega⟩) ?_)))
      simpa using hr'
    by_cases hf : fits8 (((s.labels.get l).addr : Int) - (s.code + 2 : Nat)) = true
    · have hr2 : Room s [nb (0x70 ||| cc), Scc.lo (((s.labels.get l).addr : Int) - (s.code + 2 : Nat))].length := room_le hr (by simp)
      have e := hpre (run_pos ⟨ha ▸ h0, hf⟩ (hlv.out_put (bs := [nb (0x70 ||| cc), _]) hr2))
      have hi := h.back (it := .jcc cc l) (bs := [nb (0x70 ||| cc), Scc.lo (((s.labels.get l).addr : Int) - (s.code + 2 : Nat))]) hl h0 rfl (by simp) hr2 ?_ (fun _ e => by cases e)
      · rw [put_eq] at e hi
        exact ⟨_, _, _, e, hi⟩
      · refine ⟨hcc, .inl ⟨rfl, new_put hr2 0 (by simp), ?_⟩⟩
        rw [new_put hr2 1 (by simp), ha]
        show _ = _ + (byteOf _).signExtend 16
        rw [sext_byteOf ((fits8_iff _).1 hf)]
        exact to_word (by omega)
    · have hr2 : Room s [nb (0x70 ||| (cc ^^^ 1)), 3].length := room_le hr (by simp)
      have hr3 : Room (put s [nb (0x70 ||| (cc ^^^ 1)), 3]) 3 := put_room hr
      have ej := jump_back (put_live hlv [nb (0x70 ||| (cc ^^^ 1)), 3]) (l := l) (by rw [put_eq]; exact hl) (by rw [put_eq]; exact ha ▸ h0) hr3
      -- the label is far behind, so the jump is a near jump
      have hpa : (s.labels.get l).addr ≤ s.code := by
        have := (h.tile.mem (h.has l hl h0)).2
        rw [ha] at this
        exact this
      have hfar : ¬ fits8 (((s.labels.get l).addr : Int) - (s.code + 2 + 2 : Nat)) = true := by
        rw [fits8_iff] at hf ⊢
        omega
      have ej3 : put (put s [nb (0x70 ||| (cc ^^^ 1)), 3]) (jmpB (put s [nb (0x70 ||| (cc ^^^ 1)), 3]).code ((put s [nb (0x70 ||| (cc ^^^ 1)), 3]).labels.get l).addr) =
          put s ([nb (0x70 ||| (cc ^^^ 1)), 3] ++ jmpB (s.code + 2) (s.labels.get l).addr) := by
        rw [put_eq, put_eq, put_eq]
        simp only [putOut_append, List.length_append, List.length_cons, List.length_nil, Nat.add_assoc, Nat.reduceAdd]
      rw [ej3] at ej
      have e := hpre (run_neg (fun h => hf h.2) (run_bind (hlv.out_put (bs := [nb (0x70 ||| (cc ^^^ 1)), 3]) hr2) (run_bind ej (run_pos rfl rfl))))
      have hlen : (jmpB (s.code + 2) (s.labels.get l).addr).length = 3 := by
        unfold jmpB
        rw [if_neg hfar]
        rfl
      have hr4 : Room s ([nb (0x70 ||| (cc ^^^ 1)), 3] ++ jmpB (s.code + 2) (s.labels.get l).addr).length := room_le hr (by
        simp only [List.length_append, List.length_cons, List.length_nil, hlen]; omega)
      have hld := jmpB_lands (s := s) (t := (s.labels.get l).addr) (pre := [nb (0x70 ||| (cc ^^^ 1)), 3]) hr4
      have hi := h.back (it := .jcc cc l) hl h0 rfl (by simp) hr4 ?_ (fun _ e => by cases e)
      · rw [put_eq] at e hi
        exact ⟨_, _, _, e, hi⟩
      · refine ⟨hcc, .inr ⟨by simp only [List.length_append, List.length_cons, List.length_nil, hlen], .inl ⟨?_, ?_, ?_⟩⟩⟩
        · exact new_put hr4 0 (by simp)
        · rw [new_put hr4 1 (by simp)]
          rfl
        · rw [ha]
          rcases hld with ⟨h1, h2⟩ | ⟨h1, _⟩
          · exact .inl h1
          · exact .inr h1

/-- `MakeLabel`. -/
theorem Inv.new {a : Nat} {cs : List Chunk} {s : S} (h : Inv a cs s) (hc : s.labelCount < labelMax) :
    makeLabel s = .ok s.labelCount { s with labels := s.labels.set s.labelCount ⟨0, 0⟩, labelCount := s.labelCount + 1 } ∧
      Inv a cs { s with labels := s.labels.set s.labelCount ⟨0, 0⟩, labelCount := s.labelCount + 1 } := by
  have h512 : labelMax < 2 ^ 9 := by decide
  refine ⟨run_getS (run_failIf (by rw [beq_eq_false_iff_ne]; omega) rfl), ?_⟩
  have hself : adr { s with labels := s.labels.set s.labelCount ⟨0, 0⟩, labelCount := s.labelCount + 1 } s.labelCount = 0 := by
    unfold adr
    rw [if_pos (by omega)]
    show ((s.labels.set s.labelCount ⟨0, 0⟩).get s.labelCount).addr = 0
    rw [Tab.get_set_self]
  have hget : ∀ l, l < s.labelCount → (s.labels.set s.labelCount ⟨0, 0⟩).get l = s.labels.get l := fun l hl => Tab.get_set_ne _ _ (by omega) (by omega) (by omega)
  have hadr : ∀ l, l < s.labelCount → adr { s with labels := s.labels.set s.labelCount ⟨0, 0⟩, labelCount := s.labelCount + 1 } l = adr s l := fun l hl => by
    unfold adr
    rw [if_pos (by omega), if_pos (by omega)]
    show ((s.labels.set s.labelCount ⟨0, 0⟩).get l).addr = _
    rw [hget l hl]
  have hnone : refs s.labelCount cs = [] := by
    rw [List.eq_nil_iff_forall_not_mem]
    intro c hc
    obtain ⟨hm, hto⟩ := mem_refs.1 hc
    have := (h.site c hm _ hto).1
    omega
  generalize hs' : ({ s with labels := s.labels.set s.labelCount ⟨0, 0⟩, labelCount := s.labelCount + 1 } : S) = s' at *
  have e1 : s'.code = s.code := by rw [← hs']
  have e2 : s'.out = s.out := by rw [← hs']
  have e3 : s'.labelCount = s.labelCount + 1 := by rw [← hs']
  have e4 : s'.lastFixup = s.lastFixup := by rw [← hs']
  have e5 : s'.labels = s.labels.set s.labelCount ⟨0, 0⟩ := by rw [← hs']
  have hall : ∀ l, adr s l ≠ 0 → (∃ c ∈ cs, c.item = .lab l ∨ c.item.to = some l) → adr s' l = adr s l := by
    rintro l _ ⟨c, hm, hh | hh⟩
    · exact hadr l (h.labs c hm l hh)
    · exact hadr l (h.site c hm l hh).1
  refine ⟨by rw [e1]; exact h.tile, h.ge, by rw [e1]; exact h.le, fun c hm => ?_, fun c hm l e => ?_, fun c hm l e => ?_, fun l hl h0 => ?_, by rw [e4]; exact h.fix, h.starts, h.jj, h.nz,
    by omega, fun l hl h0 => ?_⟩
  · rw [e2]
    exact (h.plain c hm).congr (fun _ _ _ => rfl) fun l e => hadr l (h.labs c hm l e)
  · have := h.labs c hm l e; omega
  · obtain ⟨h1, h2, h3⟩ := h.site c hm l e
    rw [hadr l h1, e2]
    refine ⟨by omega, h2, fun h0 => ?_⟩
    have hL := h3 h0
    obtain ⟨it, p, n⟩ := c
    cases it with
    | raw bs => cases e
    | pos q bs => cases e
    | lab l => cases e
    | jmp l' =>
      obtain rfl : l' = l := Option.some.inj e
      show _ ∨ _ ∨ _
      rw [hadr l' h1]
      exact hL
    | jcc cc l' =>
      obtain rfl : l' = l := Option.some.inj e
      refine ⟨hL.1, ?_⟩
      rw [hadr l' h1]
      rcases hL.2 with g | ⟨g, g' | ⟨g1, g2, g3⟩⟩
      · exact .inl g
      · exact .inr ⟨g, .inl g'⟩
      · refine .inr ⟨g, .inr ⟨g1, g2, ?_⟩⟩
        rcases g3 with g3 | ⟨l2, n2, k1, k2, k3, k4⟩ | g3
        · exact .inl g3
        · have := (h.site _ k1 l2 rfl).1
          exact .inr (.inl ⟨l2, n2, k1, k2, by rw [hadr l2 this]; exact k3, by rw [hadr l2 this]; exact k4⟩)
        · exact .inr (.inr g3)
  · rw [e2, e5]
    by_cases hll : l = s.labelCount
    · subst hll
      rw [Tab.get_set_self, hnone]
      rfl
    · have hlt : l < s.labelCount := by omega
      rw [hget l hlt]
      exact h.chain l hlt (by rw [← hadr l hlt]; exact h0)
  · by_cases hll : l = s.labelCount
    · subst hll; exact absurd hself h0
    · have hlt : l < s.labelCount := by omega
      rw [hadr l hlt] at h0 ⊢
      exact h.has l hlt h0

/-! ## Histories -/

/-- What the compiler has asked for since the code was at address `a` (last one first) and its state.  Between two requests anything but the
code and the labels may change (`other`), for example `IsDeadCode`. -/
inductive Built (a : Nat) : List Item → S → Prop
  | start {s : S} : s.labelCount = 0 → s.code = a → codeStart ≤ a → a ≤ codeStart + outputMax → Built a [] s
  | other {its : List Item} {s s' : S} : Built a its s → Same s s' → Built a its s'
  | new {its : List Item} {s s' : S} {l : Nat} : Built a its s → makeLabel s = .ok l s' → Built a its s'
  | raw {its : List Item} {s s' : S} {bs : List Byte} : Built a its s → Live s → bs ≠ [] → (afterJcc its = true → Starts bs) → Room s bs.length →
      output bs s = .ok () s' → Built a (.raw bs :: its) s'
  | jmp {its : List Item} {s s' : S} {l : Nat} : Built a its s → s.dead = false → s.spAdj = 0 → l < s.labelCount → afterJmp its = false → Room s 3 →
      emitJmp l s = .ok () s' → Built a (.jmp l :: its) s'
  | jcc {its : List Item} {s s' : S} {cc l : Nat} : Built a its s → Live s → cc < 16 → l < s.labelCount → Room s 5 →
      emitJcc cc l s = .ok () s' → Built a (.jcc cc l :: its) s'
  | lab {its : List Item} {s s' : S} {l : Nat} : Built a its s → s.spAdj = 0 → l < s.labelCount → Room s 2 →
      (afterJcc its = true → B s.out s.code ≠ 0xEB ∧ B s.out s.code ≠ 0x5D) →
      emitLocalLabel l s = .ok () s' → Built a (.lab l :: its) s'

theorem Inv.afterJcc {a : Nat} {cs : List Chunk} {s : S} (h : Inv a cs s) {c : Chunk} (hc : c ∈ cs) {cc l : Nat} (hj : c.item = .jcc cc l) (he : c.pos + c.len = s.code) :
    SccLayout.afterJcc (cs.map Chunk.item) = true := by
  obtain ⟨zs, pre, hcs, hz⟩ := h.tile.last hc he
  rw [hcs, List.map_append, List.map_cons, hj]
  refine afterJcc_zeros fun z hzm => ?_
  obtain ⟨c', hc', rfl⟩ := List.mem_map.1 hzm
  have hm : c' ∈ cs := by rw [hcs]; exact List.mem_append_left _ hc'
  have h0 := (hz c' hc').1
  obtain ⟨it, p, n⟩ := c'
  have h0 : n = 0 := h0
  subst h0
  cases it with
  | raw bs =>
    obtain ⟨h1, h2, _⟩ := h.plain _ hm
    exact absurd (List.length_eq_zero_iff.1 h1.symm) h2
  | pos q bs =>
    obtain ⟨_, h1, ⟨b, t, rfl, _⟩, _⟩ := h.plain _ hm
    cases h1
  | lab l' => exact .inl ⟨l', rfl⟩
  | jmp l' => exact .inr ⟨l', rfl⟩
  | jcc cc l' =>
    exfalso
    obtain ⟨_, h2, h3⟩ := h.site _ hm l' rfl
    by_cases ha : adr s l' = 0
    · have := (h2 ha).1; omega
    · rcases (h3 ha).2 with ⟨h, _⟩ | ⟨h, _⟩ <;> omega

theorem ok_inj {σ α : Type} {x y : α} {s t : σ} {r : Res σ α} (h1 : r = .ok x s) (h2 : r = .ok y t) : x = y ∧ s = t := by
  rw [h1] at h2
  cases h2
  exact ⟨rfl, rfl⟩

/-- The invariant holds. -/
theorem Built.inv {a : Nat} {its : List Item} {s : S} (h : Built a its s) : ∃ cs, Inv a cs s ∧ cs.map Chunk.item = its := by
  induction h with
  | @start s h1 h2 h3 h4 =>
    have hle : s.code ≤ codeStart + outputMax := by rw [h2]; exact h4
    have hcnt : s.labelCount ≤ labelMax := by rw [h1]; exact Nat.zero_le _
    have hno : ∀ l, ¬ l < s.labelCount := fun l hl => by rw [h1] at hl; exact absurd hl (Nat.not_lt_zero _)
    exact ⟨[], ⟨h2, h3, hle, fun _ hc => absurd hc (by simp), fun _ hc => absurd hc (by simp), fun _ hc => absurd hc (by simp), fun l hl => absurd hl (hno l),
      fun p hp => absurd hp (by simp [lastLab]), trivial, fun h => absurd h (by simp [afterJmp]), fun c pre l e => absurd e (by simp), hcnt, fun l hl => absurd hl (hno l)⟩, rfl⟩
  | other _ he ih =>
    obtain ⟨cs, hi, e⟩ := ih
    exact ⟨cs, hi.same he, e⟩
  | @new its s s' l _ he ih =>
    obtain ⟨cs, hi, e⟩ := ih
    by_cases hc : s.labelCount < labelMax
    · obtain ⟨h1, h2⟩ := hi.new hc
      rw [← (ok_inj h1 he).2]
      exact ⟨cs, h2, e⟩
    · have := hi.count
      have hb : (s.labelCount == labelMax) = true := by rw [beq_iff_eq]; omega
      have : makeLabel s = .err .fatal := by
        refine run_getS ?_
        rw [hb]
        rfl
      rw [this] at he
      cases he
  | @raw its s s' bs _ hl hb hst hr he ih =>
    obtain ⟨cs, hi, rfl⟩ := ih
    obtain ⟨h1, h2⟩ := hi.raw hl hb hst hr
    rw [← (ok_inj h1 he).2]
    exact ⟨_, h2, rfl⟩
  | @jmp its s s' l _ hd hsp hl hj hr he ih =>
    obtain ⟨cs, hi, rfl⟩ := ih
    obtain ⟨m', n, t, h1, h2⟩ := hi.jmp hd hsp hl hj hr
    rw [← (ok_inj h1 he).2]
    exact ⟨_, h2, rfl⟩
  | @jcc its s s' cc l _ hlv hcc hl hr he ih =>
    obtain ⟨cs, hi, rfl⟩ := ih
    obtain ⟨m', n, t, h1, h2⟩ := hi.jcc hlv hcc hl hr
    rw [← (ok_inj h1 he).2]
    exact ⟨_, h2, rfl⟩
  | @lab its s s' l _ hsp hl hr hst he ih =>
    obtain ⟨cs, hi, rfl⟩ := ih
    by_cases h0 : adr s l = 0
    · have hin : In (s.code + 1) := by
        obtain ⟨h1, h2⟩ := hr
        unfold In
        generalize codeStart = y, outputMax = z at *
        omega
      obtain ⟨m', e, cs', h1, h2, h3, _⟩ := hi.label hl h0 hsp hin (fun c hc cc hj hce => hst (hi.afterJcc hc hj hce))
      rw [← (ok_inj h1 he).2]
      exact ⟨cs', h2, h3⟩
    · exfalso
      have ha := adr_eq hl hi.count
      have hb : decide ((s.labels.get l).addr ≠ 0) = true := decide_eq_true (ha ▸ h0)
      have hb' : decide ((s.labelCount : Int) ≤ l) = false := decide_eq_false (by omega)
      have hb2 : decide ((0 : Int) ≤ l) = true := decide_eq_true (by omega)
      have : emitLocalLabel l s = .err .fatal := by
        refine run_getS (run_failIf hb' (run_ub hb2 ?_))
        simp only [Int.toNat_natCast, hb]
        rfl
      rw [this] at he
      cases he

end SccLayout
