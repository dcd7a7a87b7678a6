import Verif.Props.SccLayout
/-!
# Labels (C36): `EmitLocalLabel` keeps the invariant of the layout
-/
namespace SccLayout
open Prog Scc SccCode SccGen SccJump SccFix

/-- While the references to `l` are resolved: `pend` are still to be done, `L` are the addresses of the labels when all is done. -/
structure Loop (a l : Nat) (L : Nat → Nat) (cs pend : List Chunk) (s : S) : Prop where
  tile : Tile a cs s.code
  ge : codeStart ≤ a
  room : In (s.code + 1)
  self : L l = s.code
  zero : adr s l = 0
  other : ∀ l', l' ≠ l → L l' = adr s l'
  plain : ∀ c ∈ cs, Plain s.out L c
  labs : ∀ c ∈ cs, ∀ l', c.item = .lab l' → l' < s.labelCount
  site : ∀ c ∈ cs, ∀ l', c.item.to = some l' → l' < s.labelCount ∧ (l' ≠ l → adr s l' = 0 → Pend s.out c) ∧ (l' ≠ l → adr s l' ≠ 0 → Lands s.out L cs c) ∧
    (l' = l → c ∈ pend → Pend s.out c) ∧ (l' = l → c ∉ pend → Lands s.out L cs c)
  chain : ∀ l', l' < s.labelCount → l' ≠ l → adr s l' = 0 → Chain s.out (s.labels.get l').ref (refs l' cs)
  sub : ∀ c ∈ pend, c ∈ cs ∧ c.item.to = some l
  sorted : pend.Pairwise fun c d => d.pos + d.len ≤ c.pos
  nr : ∀ c ∈ pend, ∀ l', c.item = .jmp l' → c.pos + c.len = s.code → s.lastFixup = s.code
  stale : ∀ c ∈ pend, ∀ cc l', c.item = .jcc cc l' → c.pos + c.len = s.code → B s.out s.code ≠ 0xEB ∧ B s.out s.code ≠ 0x5D
  starts : StartsOk (cs.map Chunk.item)
  count : s.labelCount ≤ labelMax
  has : ∀ l', l' < s.labelCount → l' ≠ l → adr s l' ≠ 0 → ⟨.lab l', adr s l', 0⟩ ∈ cs

section
variable {a l : Nat} {L : Nat → Nat} {cs pend : List Chunk} {s : S}

theorem Loop.L_ne (h : Loop a l L cs pend s) {l' : Nat} (hl : l' = l ∨ adr s l' ≠ 0) : L l' ≠ 0 := by
  have := h.tile.le
  have := h.ge
  have hc : 0 < codeStart := by decide
  by_cases e : l' = l
  · rw [e, h.self]; omega
  · rw [h.other l' e]; exact hl.resolve_left e

theorem Loop.inside (h : Loop a l L cs pend s) {c : Chunk} (hc : c ∈ cs) {x : Nat} (h1 : c.pos ≤ x) (h2 : x ≤ s.code + 1) : In x := by
  have h3 := h.tile.mem hc
  have h4 := h.ge
  have h5 := h.room
  unfold In at *
  generalize codeStart = y, outputMax = z at *
  omega

/-- Zero-length chunks are labels and removed jumps. -/
theorem Loop.zeros (h : Loop a l L cs pend s) {z : Chunk} (hz : z ∈ cs) (h0 : z.len = 0) : (∃ l', z.item = .lab l') ∨ ∃ l', z.item = .jmp l' := by
  obtain ⟨it, p, n⟩ := z
  have h0 : n = 0 := h0
  subst h0
  cases it with
  | raw bs =>
    obtain ⟨h1, h2, _⟩ := h.plain _ hz
    exact absurd (List.length_eq_zero_iff.1 h1.symm) h2
  | pos q bs =>
    obtain ⟨_, h1, ⟨b, t, rfl, _⟩, _⟩ := h.plain _ hz
    cases h1
  | jmp l' => exact .inr ⟨l', rfl⟩
  | lab l' => exact .inl ⟨l', rfl⟩
  | jcc cc l' =>
    exfalso
    obtain ⟨_, h1, h2, h3, h4⟩ := h.site _ hz l' rfl
    have hp : Pend s.out ⟨.jcc cc l', p, 0⟩ → False := fun hh => by have := hh.1; omega
    have hl : Lands s.out L cs ⟨.jcc cc l', p, 0⟩ → False := fun hh => by
      rcases hh.2 with ⟨h, _⟩ | ⟨h, _⟩ <;> omega
    by_cases e : l' = l
    · by_cases hm : (⟨.jcc cc l', p, 0⟩ : Chunk) ∈ pend
      · exact hp (h3 e hm)
      · exact hl (h4 e hm)
    · by_cases h0 : adr s l' = 0
      · exact hp (h1 e h0)
      · exact hl (h2 e h0)

theorem afterJcc_zeros {zs : List Item} {cc l : Nat} {pre : List Item} (h : ∀ z ∈ zs, (∃ l', z = .lab l') ∨ ∃ l', z = .jmp l') :
    afterJcc (zs ++ .jcc cc l :: pre) = true := by
  induction zs with
  | nil => rfl
  | cons z zs ih =>
    have := ih fun x hx => h x (List.mem_cons_of_mem _ hx)
    rcases h z (List.mem_cons_self ..) with ⟨l', rfl⟩ | ⟨l', rfl⟩ <;> exact this

/-- What is behind a conditional jump. -/
theorem Loop.behind (h : Loop a l L cs pend s) {p cc lj : Nat} (hc : (⟨.jcc cc lj, p, 5⟩ : Chunk) ∈ pend) :
    (B s.out (p + 5) = 0xEB → ∃ l' n, (⟨.jmp l', p + 5, n⟩ : Chunk) ∈ cs ∧ n ≠ 0 ∧ L l' ≠ 0 ∧ Short s.out (p + 5) (L l')) ∧
    (B s.out (p + 5) = 0x5D → ∃ t n, (⟨.raw (0x5D :: 0xC3 :: t), p + 5, n⟩ : Chunk) ∈ cs) := by
  obtain ⟨hm, _⟩ := h.sub _ hc
  obtain ⟨post, pre, hcs⟩ := List.append_of_mem hm
  have ht := h.tile
  rw [hcs] at ht
  obtain ⟨x, hx1, hx2⟩ := ht.split
  have hx : x = p + 5 := hx1.1
  subst hx
  by_cases hend : s.code = p + 5
  · have := h.stale _ hc cc lj rfl hend.symm
    rw [hend] at this
    exact ⟨fun e => absurd e this.1, fun e => absurd e this.2⟩
  · obtain ⟨p2, c', zs, e1, e2, e3, e4⟩ := hx2.next (by have := hx2.le; omega)
    have hmem : c' ∈ cs := by rw [hcs, e1]; simp
    have hzs : ∀ z ∈ zs, z ∈ cs := fun z hz => by rw [hcs, e1]; simp [hz]
    obtain ⟨it, q, n⟩ := c'
    have e2 : q = p + 5 := e2
    subst e2
    cases it with
    | lab l' =>
      exact absurd (h.plain _ hmem).1 e3
    | raw bs =>
      obtain ⟨h1, h2, h3⟩ := h.plain _ hmem
      have haj : afterJcc ((zs ++ ⟨.jcc cc lj, p, 5⟩ :: pre).map Chunk.item) = true := by
        rw [List.map_append, List.map_cons]
        refine afterJcc_zeros fun z hz => ?_
        obtain ⟨c, hc, rfl⟩ := List.mem_map.1 hz
        exact h.zeros (hzs c hc) (e4 c hc)
      have hst : StartsOk (cs.map Chunk.item) := h.starts
      rw [hcs, e1, List.append_assoc, List.cons_append, List.map_append, List.map_cons] at hst
      obtain ⟨b, t, rfl, hb1, hb2⟩ := hst.get haj
      have hb : B s.out (p + 5) = b := h3 0 (by simp)
      refine ⟨fun e => absurd (hb.symm.trans e) hb1, fun e => ?_⟩
      obtain rfl : b = 0x5D := hb.symm.trans e
      obtain ⟨t', rfl⟩ := hb2 rfl
      exact ⟨t', n, hmem⟩
    | pos q bs =>
      obtain ⟨_, h1, ⟨b, t, rfl, hb1, hb2⟩, h3⟩ := h.plain _ hmem
      have hb : B s.out (p + 5) = b := h3 0 (by simp)
      exact ⟨fun e => absurd (hb.symm.trans e) hb1, fun e => absurd (hb.symm.trans e) hb2⟩
    | jmp l' =>
      obtain ⟨_, h1, h2, h3, h4⟩ := h.site _ hmem l' rfl
      have hp : Pend s.out ⟨.jmp l', p + 5, n⟩ → B s.out (p + 5) = 0xE9 := fun hh => hh.2
      have hl : (l' = l ∨ adr s l' ≠ 0) → Lands s.out L cs ⟨.jmp l', p + 5, n⟩ → B s.out (p + 5) = 0xE9 ∨ (B s.out (p + 5) = 0xEB ∧ L l' ≠ 0 ∧ Short s.out (p + 5) (L l')) := by
        intro hne hh
        rcases hh with hh | ⟨_, hh⟩ | ⟨_, hh⟩
        · exact absurd hh.1 e3
        · exact .inr ⟨hh.1, h.L_ne hne, hh⟩
        · exact .inl hh.1
      have key : B s.out (p + 5) = 0xE9 ∨ (B s.out (p + 5) = 0xEB ∧ L l' ≠ 0 ∧ Short s.out (p + 5) (L l')) := by
        by_cases e : l' = l
        · by_cases hm : (⟨.jmp l', p + 5, n⟩ : Chunk) ∈ pend
          · exact .inl (hp (h3 e hm))
          · exact hl (.inl e) (h4 e hm)
        · by_cases h0 : adr s l' = 0
          · exact .inl (hp (h1 e h0))
          · exact hl (.inr h0) (h2 e h0)
      rcases key with k | ⟨k1, k2, k3⟩
      · rw [k]; exact ⟨fun e => absurd e (by decide), fun e => absurd e (by decide)⟩
      · rw [k1]; exact ⟨fun _ => ⟨l', n, hmem, e3, k2, k3⟩, fun e => absurd e (by decide)⟩
    | jcc cc' l' =>
      obtain ⟨_, h1, h2, h3, h4⟩ := h.site _ hmem l' rfl
      have hp : Pend s.out ⟨.jcc cc' l', p + 5, n⟩ → B s.out (p + 5) ≠ 0xEB ∧ B s.out (p + 5) ≠ 0x5D := fun hh => by
        rw [hh.2.2.1]; exact (cc_bytes cc' hh.2.1).2.2.2.2
      have hl : Lands s.out L cs ⟨.jcc cc' l', p + 5, n⟩ → B s.out (p + 5) ≠ 0xEB ∧ B s.out (p + 5) ≠ 0x5D := fun hh => by
        obtain ⟨hcc, hh⟩ := hh
        obtain ⟨_, _, k1, k2, k3, k4⟩ := cc_bytes cc' hcc
        rcases hh with ⟨_, hh⟩ | ⟨_, hh | ⟨hh, _⟩⟩
        · rw [hh.1]; exact ⟨k1, k2⟩
        · rw [hh.1]; exact ⟨k3, k4⟩
        · rw [hh.1]; exact ⟨k1, k2⟩
      have key : B s.out (p + 5) ≠ 0xEB ∧ B s.out (p + 5) ≠ 0x5D := by
        by_cases e : l' = l
        · by_cases hm : (⟨.jcc cc' l', p + 5, n⟩ : Chunk) ∈ pend
          · exact hp (h3 e hm)
          · exact hl (h4 e hm)
        · by_cases h0 : adr s l' = 0
          · exact hp (h1 e h0)
          · exact hl (h2 e h0)
      exact ⟨fun e => absurd e key.1, fun e => absurd e key.2⟩

theorem copy_short {m m' : Mem 15} {p t : Nat} (h : Short m (p + 5) t) (h1 : B m' (p + 2) = 0xEB) (h2 : (B m' (p + 3)).signExtend 16 = (B m (p + 6)).signExtend 16 + 3) :
    Short m' (p + 2) t := by
  refine ⟨h1, ?_⟩
  have h3 : BitVec.ofNat 16 t = BitVec.ofNat 16 (p + 5 + 2) + (B m (p + 5 + 1)).signExtend 16 := h.2
  rw [h3, h2, show p + 5 + 2 = (p + 2 + 2) + 3 by omega, BitVec.ofNat_add _ 3, show p + 5 + 1 = p + 6 by omega]
  generalize BitVec.ofNat 16 (p + 2 + 2) = x
  generalize (B m (p + 6)).signExtend 16 = y
  rw [BitVec.add_assoc, BitVec.add_comm _ y]
  rfl

/-- The bytes of one reference are written. -/
theorem Loop.write (h : Loop a l L cs pend s) {c : Chunk} {rest : List Chunk} (hp : pend = c :: rest) {m' : Mem 15} (hk : Keep s.out m' c.pos (c.pos + c.len))
    (hl : Lands m' L cs c) : Loop a l L cs rest { s with out := m' } := by
  subst hp
  obtain ⟨hcm, hcto⟩ := h.sub c (List.mem_cons_self ..)
  obtain ⟨hs1, hs2⟩ := List.pairwise_cons.1 h.sorted
  have hpend : Pend s.out c := (h.site c hcm l hcto).2.2.2.1 rfl (List.mem_cons_self ..)
  have hclen := hpend.len hcto
  have hcb := h.tile.mem hcm
  have heqv : ∀ d ∈ cs, d ≠ c → Eqv s.out m' d := by
    intro d hd hne x hx1 hx2
    have hd2 := h.tile.mem hd
    refine hk x (h.inside hd hx1 (by omega)) ?_
    rcases h.tile.apart hd hcm with e | e | e
    · exact absurd e hne
    · omega
    · omega
  have hpl : ∀ d ∈ cs, Plain m' L d := by
    intro d hd
    by_cases e : d = c
    · subst e
      obtain ⟨it, p, n⟩ := d
      cases it with
      | raw bs => cases hcto
      | pos q bs => cases hcto
      | lab l => cases hcto
      | jmp l => trivial
      | jcc cc l => trivial
    · exact (h.plain d hd).congr (heqv d hd e) fun _ _ => rfl
  refine ⟨h.tile, h.ge, h.room, h.self, h.zero, h.other, hpl, h.labs, fun d hd l' e => ?_, fun l' hl' hne h0 => ?_, fun d hd => h.sub d (List.mem_cons_of_mem _ hd), hs2,
    fun d hd l' => h.nr d (List.mem_cons_of_mem _ hd) l', fun d hd cc l' e he => ?_, h.starts, h.count, h.has⟩
  · obtain ⟨h1, h2, h3, h4, h5⟩ := h.site d hd l' e
    by_cases hdc : d = c
    · subst hdc
      have : l' = l := Option.some.inj (e.symm.trans hcto)
      refine ⟨h1, fun hn => absurd this hn, fun hn => absurd this hn, fun _ hm => ?_, fun _ _ => hl⟩
      have := hs1 d hm
      omega
    · have hev := heqv d hd hdc
      refine ⟨h1, fun hn h0 => (h2 hn h0).congr hev, fun hn h0 => (h3 hn h0).congr hev (fun _ _ => rfl) (fun _ _ => rfl) (fun _ hx _ _ => hx) (fun _ _ _ hx => hx),
        fun hn hm => (h4 hn (List.mem_cons_of_mem _ hm)).congr hev, fun hn hm => (h5 hn ?_).congr hev (fun _ _ => rfl) (fun _ _ => rfl) (fun _ hx _ _ => hx) (fun _ _ _ hx => hx)⟩
      exact fun hmm => (List.mem_cons.1 hmm).elim hdc hm
  · refine (h.chain l' hl' hne h0).congr fun d hd => ?_
    obtain ⟨hm, hto⟩ := mem_refs.1 hd
    have hlen := ((h.site d hm l' hto).2.1 hne h0).len hto
    have hdc : d ≠ c := fun e => by subst e; exact hne (Option.some.inj (hto.symm.trans hcto))
    exact ⟨heqv d hm hdc _ (by omega) (by omega), heqv d hm hdc _ (by omega) (by omega)⟩
  · have hin : In s.code := (h.inside hcm (x := s.code) (by omega) (by omega))
    have hd := h.stale d (List.mem_cons_of_mem _ hd) cc l' e he
    rw [show B m' s.code = B s.out s.code from hk _ hin (.inr hcb.2)]
    exact hd

/-- One round of `DoFixups`. -/
theorem Loop.fixOne (h : Loop a l L cs pend s) {c : Chunk} {rest : List Chunk} (hp : pend = c :: rest) :
    ∃ m', Scc.fixOne (c.pos + c.len - 2) true s = .ok (nextRef s.out (c.pos + c.len - 2)) { s with out := m' } ∧
      Keep s.out m' c.pos (c.pos + c.len) ∧ Lands m' L cs c := by
  have hcp : c ∈ pend := by rw [hp]; exact List.mem_cons_self ..
  obtain ⟨hcm, hcto⟩ := h.sub c hcp
  have hpend : Pend s.out c := (h.site c hcm l hcto).2.2.2.1 rfl hcp
  have hcb := h.tile.mem hcm
  obtain ⟨it, p, n⟩ := c
  cases it with
  | raw bs => cases hcto
  | pos q bs => cases hcto
  | lab l => cases hcto
  | jmp l' =>
    obtain rfl : l' = l := Option.some.inj hcto
    obtain ⟨rfl, hb⟩ := hpend
    have hc2 : p + 3 ≤ s.code := hcb.2
    obtain ⟨m', e, hj, hk⟩ := fix_jmp (s := s) (h.inside hcm (Nat.le_refl _) (by show p ≤ _; omega)) (h.inside hcm (x := p + 2) (by simp) (by omega)) hb hc2
      (fun e => h.nr _ hcp l' rfl e.symm)
    refine ⟨m', e, hk, ?_⟩
    show 3 = 0 ∧ L l' = p ∨ (3 = 2 ∨ 3 = 3) ∧ Short m' p (L l') ∨ 3 = 3 ∧ Long m' p (L l')
    rw [h.self]
    rcases hj with hj | hj
    · exact .inr (.inl ⟨.inr rfl, hj⟩)
    · exact .inr (.inr ⟨rfl, hj⟩)
  | jcc cc l' =>
    obtain rfl : l' = l := Option.some.inj hcto
    obtain ⟨rfl, hcc, hb, hb1, hb2⟩ := hpend
    have hc2 : p + 5 ≤ s.code := hcb.2
    obtain ⟨m', e, hj, hk⟩ := fix_jcc (s := s) (h.inside hcm (Nat.le_refl _) (by show p ≤ _; omega)) (h.inside hcm (x := p + 6) (by simp) (by omega)) hcc hb hb1 hb2 hc2
    refine ⟨m', e, hk, ?_⟩
    obtain ⟨hbe, hbr⟩ := h.behind hcp
    refine ⟨hcc, .inr ⟨rfl, ?_⟩⟩
    rw [h.self]
    rcases hj with hj | ⟨hj, ht, hj'⟩
    · exact .inl hj
    · refine .inr ⟨hj, ht, ?_⟩
      rcases hj' with hj' | ⟨k1, k2, k3⟩ | ⟨k1, k2, k3⟩
      · exact .inl hj'
      · obtain ⟨l'', n'', g1, g2, g3, g4⟩ := hbe k1
        exact .inr (.inl ⟨l'', n'', g1, g2, g3, copy_short g4 k2 k3⟩)
      · exact .inr (.inr ⟨k2, k3, hbr k1⟩)

/-- `DoFixups` when no jump is removed. -/
theorem Loop.run (h : Loop a l L cs pend s) {r n : Nat} (hch : Chain s.out r pend) (hn : pend.length < n) :
    ∃ m', doFixups true n r s = .ok () { s with out := m', lastFixup := s.code } ∧ Loop a l L cs [] { s with out := m' } := by
  induction pend generalizing s r n with
  | nil =>
    obtain rfl : r = 0 := hch
    obtain ⟨k, rfl⟩ : ∃ k, n = k + 1 := ⟨n - 1, by simp at hn; omega⟩
    exact ⟨s.out, run_pos rfl rfl, h⟩
  | cons c rest ih =>
    obtain ⟨k, rfl⟩ : ∃ k, n = k + 1 := ⟨n - 1, by simp at hn; omega⟩
    obtain ⟨m', e, hk, hl⟩ := h.fixOne rfl
    obtain ⟨hr, hch'⟩ := hch
    have h' := h.write rfl hk hl
    obtain ⟨hs1, hs2⟩ := List.pairwise_cons.1 h.sorted
    obtain ⟨hcm, hcto⟩ := h.sub c (List.mem_cons_self ..)
    have hclen := ((h.site c hcm l hcto).2.2.2.1 rfl (List.mem_cons_self ..)).len hcto
    have hch2 : Chain m' (nextRef s.out r) rest := by
      refine hch'.congr fun d hd => ?_
      obtain ⟨hdm, hdto⟩ := h.sub d (List.mem_cons_of_mem _ hd)
      have hdlen := ((h.site d hdm l hdto).2.2.2.1 rfl (List.mem_cons_of_mem _ hd)).len hdto
      have h1 := hs1 d hd
      have h2 := h.tile.mem hdm
      have h3 := h.tile.mem hcm
      exact ⟨hk _ (h.inside hdm (by omega) (by omega)) (.inl (by omega)), hk _ (h.inside hdm (by omega) (by omega)) (.inl (by omega))⟩
    obtain ⟨m2, e2, h2⟩ := ih (n := k) h' hch2 (by rw [List.length_cons] at hn; omega)
    refine ⟨m2, run_neg (by have := h.tile.mem hcm; have := h.ge; have : 2 ≤ codeStart := by decide
                            omega) (run_bind (by rw [hr]; exact e) ?_), h2⟩
    rw [← hr]
    exact e2

end

/-! ## The whole of `EmitLocalLabel` -/

theorem lastLab_head {cs : List Chunk} {z : Chunk} {l : Nat} (h : z.item = .lab l) : lastLab (z :: cs) = some z.pos := by
  obtain ⟨it, p, n⟩ := z
  cases h
  rfl

/-- After the fixups, the label is set. -/
theorem Loop.close {a l : Nat} {L : Nat → Nat} {cs : List Chunk} {s : S} (h : Loop a l L cs [] s) (hl : l < s.labelCount) :
    Inv a (⟨.lab l, s.code, 0⟩ :: cs) { s with lastFixup := s.code, labels := s.labels.set l ⟨s.code, 0⟩ } := by
  have hcnt := h.count
  have h512 : labelMax < 2 ^ 9 := by decide
  have hlt : l < 2 ^ 9 := by omega
  have hfun : adr { s with lastFixup := s.code, labels := s.labels.set l ⟨s.code, 0⟩ } = L := by
    funext l'
    unfold adr
    by_cases e : l' = l
    · subst e
      rw [if_pos hlt, h.self]
      show ((s.labels.set l' ⟨s.code, 0⟩).get l').addr = _
      rw [Tab.get_set_self]
    · rw [h.other l' e]
      unfold adr
      by_cases h9 : l' < 2 ^ 9
      · rw [if_pos h9, if_pos h9]
        show ((s.labels.set l ⟨s.code, 0⟩).get l').addr = _
        rw [Tab.get_set_ne _ _ hlt h9 (Ne.symm e)]
      · rw [if_neg h9, if_neg h9]
  refine ⟨⟨rfl, h.tile⟩, h.ge, ?_, ?_, ?_, ?_, ?_, ?_, h.starts, ?_, ?_, h.count, ?_⟩
  · have := h.room.2
    show s.code ≤ _
    generalize codeStart = y, outputMax = z at *
    omega
  · intro d hd
    rw [hfun]
    rcases List.mem_cons.1 hd with rfl | hd
    · exact ⟨rfl, h.self⟩
    · exact h.plain d hd
  · intro d hd l' e
    rcases List.mem_cons.1 hd with rfl | hd
    · cases e; exact hl
    · exact h.labs d hd l' e
  · intro d hd l' e
    rw [hfun]
    rcases List.mem_cons.1 hd with rfl | hd
    · cases e
    · obtain ⟨h1, h2, h3, h4, h5⟩ := h.site d hd l' e
      have hw : Lands s.out L cs d → Lands s.out L (⟨.lab l, s.code, 0⟩ :: cs) d := fun hh =>
        hh.congr (fun _ _ _ => rfl) (fun _ _ => rfl) (fun _ _ => rfl) (fun _ hx _ _ => List.mem_cons_of_mem _ hx) (fun _ _ _ hx => List.mem_cons_of_mem _ hx)
      by_cases hll : l' = l
      · refine ⟨h1, fun h0 => absurd h0 (h.L_ne (.inl hll)), fun _ => hw (h5 hll (by simp))⟩
      · rw [h.other l' hll]
        exact ⟨h1, fun h0 => h2 hll h0, fun h0 => hw (h3 hll h0)⟩
  · intro l' hl' h0
    rw [hfun] at h0
    have hll : l' ≠ l := fun e => h.L_ne (.inl e) h0
    have hl2 : l' < s.labelCount := hl'
    show Chain s.out ((s.labels.set l ⟨s.code, 0⟩).get l').ref (refs l' cs)
    rw [Tab.get_set_ne _ _ hlt (by omega) (Ne.symm hll)]
    exact h.chain l' hl' hll (by rw [← h.other l' hll]; exact h0)
  · intro p hp
    exact Option.some.inj hp
  · intro hj; cases hj
  · intro c pre l' e hj
    cases e; cases hj
  · intro l' hl' hne
    rw [hfun] at hne ⊢
    by_cases e : l' = l
    · subst e
      rw [h.self]
      exact List.mem_cons_self ..
    · rw [h.other l' e] at hne ⊢
      exact List.mem_cons_of_mem _ (h.has l' hl' e hne)

theorem to_jmp {it : Item} {l : Nat} (h : it.to = some l) : it = .jmp l ∨ ∃ cc, it = .jcc cc l := by
  cases it with
  | raw bs => cases h
  | pos q bs => cases h
  | lab l => cases h
  | jmp l' => cases h; exact .inl rfl
  | jcc cc l' => cases h; exact .inr ⟨cc, rfl⟩

/-- The references are resolved; the last chunk may have become empty. -/
theorem Inv.fixups {a : Nat} {cs : List Chunk} {s : S} (h : Inv a cs s) {l : Nat} (hl : l < s.labelCount) (h0 : adr s l = 0)
    (hroom : In (s.code + 1))
    (hstale : ∀ c ∈ cs, ∀ cc, c.item = .jcc cc l → c.pos + c.len = s.code → B s.out s.code ≠ 0xEB ∧ B s.out s.code ≠ 0x5D) :
    (∃ m', doFixups true fixFuel (s.labels.get l).ref s = .ok () { s with out := m', lastFixup := s.code } ∧
      Loop a l (fun l' => if l' = l then s.code else adr s l') cs [] { s with out := m' }) ∨
    ∃ c pre m', cs = c :: pre ∧ c.item = .jmp l ∧ s.code = c.pos + 3 ∧
      doFixups true fixFuel (s.labels.get l).ref s = .ok () { s with code := c.pos, out := m', lastFixup := c.pos } ∧
      Loop a l (fun l' => if l' = l then c.pos else adr s l') (⟨.jmp l, c.pos, 0⟩ :: pre) [] { s with code := c.pos, out := m' } := by
  have hch := h.chain l hl h0
  have hsort := h.tile.sorted l
  have hpend : ∀ c ∈ refs l cs, Pend s.out c ∧ (c.len = 3 ∨ c.len = 5) ∧ c.pos + c.len ≤ s.code := fun c hc => by
    obtain ⟨hm, hto⟩ := mem_refs.1 hc
    have hp := (h.site c hm l hto).2.1 h0
    exact ⟨hp, hp.len hto, (h.tile.mem hm).2⟩
  have hlen : (refs l cs).length < fixFuel := by
    have h1 := sorted_length hsort fun c hc => ⟨by have := (hpend c hc).2.1; omega, (hpend c hc).2.2⟩
    have h2 := hroom.lt
    unfold fixFuel
    omega
  by_cases hgone : ∃ c rest, refs l cs = c :: rest ∧ c.item = .jmp l ∧ c.pos + c.len = s.code ∧ s.lastFixup ≠ s.code
  · right
    obtain ⟨c, rest, hr, hcj, hce, hlf⟩ := hgone
    have hcr : c ∈ refs l cs := by rw [hr]; exact List.mem_cons_self ..
    obtain ⟨hcm, hcto⟩ := mem_refs.1 hcr
    obtain ⟨hp, hclen, _⟩ := hpend c hcr
    obtain ⟨zs, pre, hcs, hzs⟩ := h.tile.last hcm hce
    -- nothing comes after the jump
    have hz : zs = [] := by
      cases zs with
      | nil => rfl
      | cons z zs =>
        exfalso
        obtain ⟨hz0, hzp⟩ := hzs z (List.mem_cons_self ..)
        have hzm : z ∈ cs := by rw [hcs]; simp
        obtain ⟨it, q, n⟩ := z
        have hz0 : n = 0 := hz0
        have hzp : q = s.code := hzp
        subst hz0 hzp
        cases it with
        | raw bs =>
          obtain ⟨h1, h2, _⟩ := h.plain _ hzm
          exact h2 (List.length_eq_zero_iff.1 h1.symm)
        | pos q bs =>
          obtain ⟨_, h1, ⟨b, t, rfl, _⟩, _⟩ := h.plain _ hzm
          cases h1
        | lab l' => exact hlf (h.fix s.code (by rw [hcs]; rfl))
        | jmp l' => exact h.nz _ _ l' hcs rfl rfl
        | jcc cc l' =>
          obtain ⟨_, h2, h3⟩ := h.site _ hzm l' rfl
          by_cases ha : adr s l' = 0
          · have := (h2 ha).1; omega
          · rcases (h3 ha).2 with ⟨h, _⟩ | ⟨h, _⟩ <;> omega
    subst hz
    have hcs : cs = c :: pre := hcs
    obtain ⟨it, p, n⟩ := c
    have hcj : it = .jmp l := hcj
    subst hcj
    obtain ⟨rfl, hb⟩ := hp
    have hce : p + 3 = s.code := hce
    have hpm := h.tile.mem hcm
    have hge := h.ge
    have hin : ∀ x, p ≤ x → x ≤ s.code + 1 → In x := by
      intro x h1 h2
      have h3 := hpm.1
      unfold In at *
      generalize codeStart = y, outputMax = z at *
      omega
    have hrest : rest = refs l pre := by
      rw [hcs] at hr
      unfold refs at hr
      rw [List.filter_cons_of_pos (by simp [Item.to])] at hr
      exact (List.cons.inj hr).2.symm
    have hmem : ∀ d, d ∈ pre → d ∈ cs := fun d hd => by rw [hcs]; exact List.mem_cons_of_mem _ hd
    have htile : Tile a pre p := by have := h.tile; rw [hcs] at this; exact this.2
    have hnot : (⟨.jmp l, p, 0⟩ : Chunk) ∉ rest := by
      intro hx
      have := (hpend ⟨.jmp l, p, 0⟩ (by rw [hr]; exact List.mem_cons_of_mem _ hx)).1.1
      omega
    have hsub : ∀ d, d ∈ (⟨.jmp l, p, 0⟩ :: pre : List Chunk) → d = ⟨.jmp l, p, 0⟩ ∨ d ∈ pre := fun d hd => List.mem_cons.1 hd
    have hloop : Loop a l (fun l' => if l' = l then p else adr s l') (⟨.jmp l, p, 0⟩ :: pre) rest { s with code := p } := by
      have hhL : ∀ l', adr s l' ≠ 0 → (fun l' => if l' = l then p else adr s l') l' = adr s l' := fun l' hn => if_neg fun e => hn (by rw [e]; exact h0)
      refine ⟨⟨rfl, htile⟩, hge, hin _ (by show p ≤ p + 1; omega) (by show p + 1 ≤ _; omega), if_pos rfl, h0, fun l' hn => if_neg hn, fun d hd => ?_, fun d hd l' e => ?_, fun d hd l' e => ?_, fun l' hl' hn ha => ?_, fun d hd => ?_, ?_,
        fun d hd l' e he => ?_, fun d hd cc l' e he => ?_, ?_, h.count, fun l' hl' _ ha => ?_⟩
      · rcases hsub d hd with rfl | hd1
        · trivial
        · refine (h.plain d (hmem d hd1)).congr (fun _ _ _ => rfl) fun l' e => if_neg fun e' => ?_
          subst e'
          obtain ⟨it, q, n⟩ := d
          cases e
          have h1 : adr s l' = q := (h.plain ⟨.lab l', q, n⟩ (hmem _ hd1)).2
          have h2 := (htile.mem hd1).1
          have : adr s l' = q := h1
          have hc : 0 < codeStart := by decide
          have : a ≤ q := h2
          omega
      · rcases hsub d hd with rfl | hd1
        · cases e
        · exact h.labs d (hmem d hd1) l' e
      · rcases hsub d hd with rfl | hd1
        · cases e
          exact ⟨hl, fun hn => absurd rfl hn, fun hn => absurd rfl hn, fun _ hm => absurd hm hnot, fun _ _ => .inl ⟨rfl, if_pos rfl⟩⟩
        · obtain ⟨h1, h2, h3⟩ := h.site d (hmem d hd1) l' e
          refine ⟨h1, fun _ ha => h2 ha, fun hn ha => (h3 ha).congr (fun _ _ _ => rfl) hhL (fun l'' e' => ?_) (fun x hx hn0 hj => ?_) (fun bs q n hx => ?_), fun e' _ => h2 (by rw [e']; exact h0), fun e' hm => ?_⟩
          · have : l'' = l' := Option.some.inj (e'.symm.trans e)
            subst this
            exact if_neg hn
          · rw [hcs] at hx
            rcases List.mem_cons.1 hx with rfl | hx
            · exact absurd h0 (hj l rfl)
            · exact List.mem_cons_of_mem _ hx
          · rw [hcs] at hx
            rcases List.mem_cons.1 hx with hx | hx
            · cases hx
            · exact List.mem_cons_of_mem _ hx
          · subst e'
            exact absurd (by rw [hrest]; exact mem_refs.2 ⟨hd1, e⟩) hm
      · have := h.chain l' hl' ha
        rw [hcs] at this
        have e1 : ∀ n, refs l' (⟨.jmp l, p, n⟩ :: pre) = refs l' pre := fun n => List.filter_cons_of_neg (by simp [Item.to]; exact Ne.symm hn)
        rw [e1] at this ⊢
        exact this
      · rw [hrest] at hd
        obtain ⟨h1, h2⟩ := mem_refs.1 hd
        exact ⟨List.mem_cons_of_mem _ h1, h2⟩
      · rw [hr] at hsort
        exact (List.pairwise_cons.1 hsort).2
      · -- a second jump directly before the removed one
        rw [hrest] at hd
        obtain ⟨h1, h2⟩ := mem_refs.1 hd
        obtain ⟨ws, pre2, hpre, hws⟩ := htile.last h1 he
        cases ws with
        | nil =>
          exfalso
          have hj := h.jj
          rw [hcs, show pre = d :: pre2 from hpre] at hj
          have := hj rfl
          simp only [List.map_cons, List.tail_cons, e, afterJmp] at this
          cases this
        | cons w ws =>
          obtain ⟨hw0, hwp⟩ := hws w (List.mem_cons_self ..)
          have hwm : w ∈ cs := hmem w (by rw [hpre]; simp)
          obtain ⟨it, q, n⟩ := w
          have hw0 : n = 0 := hw0
          have hwp : q = p := hwp
          subst hw0 hwp
          cases it with
          | raw bs =>
            obtain ⟨h1, h2, _⟩ := h.plain _ hwm
            exact absurd (List.length_eq_zero_iff.1 h1.symm) h2
          | pos q bs =>
            obtain ⟨_, h1, ⟨b, t, rfl, _⟩, _⟩ := h.plain _ hwm
            cases h1
          | lab l'' => exact h.fix q (by rw [hcs, hpre]; rfl)
          | jmp l'' =>
            exfalso
            have hj := h.jj
            rw [hcs, hpre] at hj
            have := hj rfl
            simp only [List.cons_append, List.map_cons, List.tail_cons, afterJmp] at this
            cases this
          | jcc cc l'' =>
            exfalso
            obtain ⟨_, h2, h3⟩ := h.site _ hwm l'' rfl
            by_cases ha : adr s l'' = 0
            · have := (h2 ha).1; omega
            · rcases (h3 ha).2 with ⟨h, _⟩ | ⟨h, _⟩ <;> omega
      · show B s.out p ≠ _ ∧ B s.out p ≠ _
        rw [hb]
        decide
      · have := h.starts
        rw [hcs] at this
        exact this
      · have := h.has l' hl' ha
        rw [hcs] at this
        rcases List.mem_cons.1 this with e | e
        · cases e
        · exact List.mem_cons_of_mem _ e
    rw [hr] at hch hlen
    obtain ⟨hr1, hch2⟩ := hch
    have hfx : Scc.fixOne (p + 1) true s = .ok (nextRef s.out (p + 1)) { s with code := p } :=
      fix_gone (hin p (by omega) (by omega)) (hin (p + 2) (by omega) (by omega)) hb hce.symm hlf
    have hr1 : (s.labels.get l).ref = p + 1 := hr1
    rw [hr1] at hch2
    obtain ⟨m', e, hl2⟩ := hloop.run (n := 65535) hch2 (by rw [List.length_cons] at hlen; exact Nat.lt_of_succ_lt_succ hlen)
    refine ⟨_, pre, m', hcs, rfl, hce.symm, ?_, hl2⟩
    rw [hr1]
    exact run_neg (by omega) (run_bind hfx e)
  · left
    have hloop : Loop a l (fun l' => if l' = l then s.code else adr s l') cs (refs l cs) s := by
      refine ⟨h.tile, h.ge, hroom, if_pos rfl, h0, fun l' hn => if_neg hn, fun d hd => ?_, h.labs, fun d hd l' e => ?_, fun l' hl' _ ha => h.chain l' hl' ha, fun d hd => mem_refs.1 hd, hsort,
        fun d hd l' e he => ?_, fun d hd cc l' e he => ?_, h.starts, h.count, fun l' hl' _ ha => h.has l' hl' ha⟩
      · refine (h.plain d hd).congr (fun _ _ _ => rfl) fun l' e => if_neg fun e' => ?_
        subst e'
        obtain ⟨it, q, n⟩ := d
        cases e
        have h1 : adr s l' = q := (h.plain _ hd).2
        have h2 : a ≤ q := (h.tile.mem hd).1
        have hc : 0 < codeStart := by decide
        have := h.ge
        omega
      · obtain ⟨h1, h2, h3⟩ := h.site d hd l' e
        refine ⟨h1, fun _ ha => h2 ha, fun hn ha => (h3 ha).congr (fun _ _ _ => rfl) (fun l'' hn' => if_neg fun e' => hn' (by rw [e']; exact h0)) (fun l'' e' => ?_)
          (fun _ hx _ _ => hx) (fun _ _ _ hx => hx), fun e' _ => h2 (by rw [e']; exact h0), fun e' hm => ?_⟩
        · have : l'' = l' := Option.some.inj (e'.symm.trans e)
          subst this
          exact if_neg hn
        · subst e'
          exact absurd (mem_refs.2 ⟨hd, e⟩) hm
      · obtain ⟨hdm, hdto⟩ := mem_refs.1 hd
        have hd3 : d.item = .jmp l := by rw [e] at hdto ⊢; cases hdto; rfl
        generalize hrf : refs l cs = rf at *
        cases rf with
        | nil => cases hd
        | cons c rest =>
          rcases List.mem_cons.1 hd with rfl | hd'
          · exact Decidable.byContradiction fun hn => hgone ⟨d, rest, rfl, hd3, he, hn⟩
          · have h1 := (List.pairwise_cons.1 hsort).1 d hd'
            have h2 := hpend c (List.mem_cons_self ..)
            omega
      · obtain ⟨hdm, hdto⟩ := mem_refs.1 hd
        have hd3 : d.item = .jcc cc l := by rw [e] at hdto ⊢; cases hdto; rfl
        exact hstale d hdm cc hd3 he
    exact hloop.run hch hlen

/-- `EmitLocalLabel`. -/
theorem Inv.label {a : Nat} {cs : List Chunk} {s : S} (h : Inv a cs s) {l : Nat} (hl : l < s.labelCount) (h0 : adr s l = 0) (hsp : s.spAdj = 0)
    (hroom : In (s.code + 1))
    (hstale : ∀ c ∈ cs, ∀ cc, c.item = .jcc cc l → c.pos + c.len = s.code → B s.out s.code ≠ 0xEB ∧ B s.out s.code ≠ 0x5D) :
    ∃ m' e cs', emitLocalLabel l s = .ok () { s with dead := false, out := m', code := e, lastFixup := e, labels := s.labels.set l ⟨e, 0⟩ } ∧
      Inv a cs' { s with dead := false, out := m', code := e, lastFixup := e, labels := s.labels.set l ⟨e, 0⟩ } ∧
      cs'.map Chunk.item = .lab l :: cs.map Chunk.item ∧ (e = s.code ∨ ∃ c pre, cs = c :: pre ∧ c.item = .jmp l ∧ e = c.pos) := by
  have hinv' : Inv a cs { s with dead := false } := h.same ⟨rfl, rfl, rfl, rfl, rfl⟩
  have hstart : ∀ {r : Res S Unit}, (doFixups true fixFuel (s.labels.get l).ref >>= fun _ => modS fun s => { s with labels := s.labels.set l ⟨s.code, 0⟩ }) { s with dead := false } = r →
      emitLocalLabel l s = r := by
    intro r hr
    refine run_getS (run_failIf (decide_eq_false (by omega)) (run_ub (decide_eq_true (by omega)) (run_failIf (decide_eq_false ?_) ?_)))
    · rw [adr_eq hl h.count] at h0
      exact fun hn => hn h0
    · refine run_bind (a := ()) (s1 := s) (run_getS (run_pos hsp rfl)) (run_modS (run_getS hr))
  rcases hinv'.fixups hl h0 hroom hstale with ⟨m', e, hlp⟩ | ⟨c, pre, m', hcs, hcj, hce, e, hlp⟩
  · refine ⟨m', s.code, _, hstart (run_bind e rfl), (hlp.close hl).same ⟨rfl, rfl, rfl, rfl, rfl⟩, rfl, .inl rfl⟩
  · refine ⟨m', c.pos, _, hstart (run_bind e rfl), (hlp.close hl).same ⟨rfl, rfl, rfl, rfl, rfl⟩, ?_, .inr ⟨c, pre, hcs, hcj, rfl⟩⟩
    rw [hcs, List.map_cons, List.map_cons, List.map_cons, hcj]

end SccLayout
