import Verif.Props.SccAsm
/-!
# Jumps and labels (C36): what the processor does at a jump
-/
namespace SccLayout
open Prog Scc SccCode SccGen SccJump SccFix I86
open I86.Cpu hiding lo hi rd

/-- The bytes from `p` to `q` of the output are in memory. -/
def Img (m : Mem 15) (c : Cpu) (p q : Nat) : Prop := ∀ x, p ≤ x → x < q → rdb c.mem c.cs (BitVec.ofNat 16 x) = B m x

theorem Img.codeAt {m : Mem 15} {c : Cpu} {p q : Nat} (h : Img m c p q) (bs : List Byte) (hl : p + bs.length ≤ q) (hb : ∀ i (h : i < bs.length), B m (p + i) = bs[i]) :
    c.codeAt (BitVec.ofNat 16 p) bs :=
  SccGen.codeAt_of c bs p fun i hi => by rw [h (p + i) (by omega) (by omega), hb i hi]

theorem Img.mono {m : Mem 15} {c : Cpu} {p q p' q' : Nat} (h : Img m c p q) (h1 : p ≤ p') (h2 : q' ≤ q) : Img m c p' q' :=
  fun x hx hx' => h x (by omega) (by omega)

theorem Img.ip {m : Mem 15} {c : Cpu} {p q : Nat} (h : Img m c p q) (w : Word) : Img m { c with ip := w } p q := h

theorem ofNat_add' (a b : Nat) : BitVec.ofNat 16 (a + b) = BitVec.ofNat 16 a + BitVec.ofNat 16 b := BitVec.ofNat_add a b

theorem Short.step {m : Mem 15} {p t : Nat} (h : Short m p t) (K : Contract) {c : Cpu} (hip : c.ip = BitVec.ofNat 16 p) (hi : Img m c p (p + 2)) :
    c.step K = .next { c with ip := BitVec.ofNat 16 t } := by
  have hc : c.codeAt c.ip [0xEB, B m (p + 1)] := by
    rw [hip]
    refine hi.codeAt _ (by simp) fun i hi => ?_
    match i, hi with
    | 0, _ => exact h.1
    | 1, _ => rfl
  have hst := step_enc (K := K) (i := .jmp ((B m (p + 1)).signExtend 16)) ⟨by simp, fun _ => rfl⟩ hc
  refine hst.trans ?_
  rw [h.2, hip, ofNat_add']
  rfl

theorem Short.run {m : Mem 15} {p t : Nat} (h : Short m p t) (K : Contract) {c : Cpu} (hip : c.ip = BitVec.ofNat 16 p) (hi : Img m c p (p + 2)) :
    Reach K c (· = { c with ip := BitVec.ofNat 16 t }) := .step (Short.step h K hip hi) (.done rfl)

theorem Long.step {m : Mem 15} {p t : Nat} (h : Long m p t) (K : Contract) {c : Cpu} (hip : c.ip = BitVec.ofNat 16 p) (hi : Img m c p (p + 3)) :
    c.step K = .next { c with ip := BitVec.ofNat 16 t } := by
  have hc : c.codeAt c.ip [0xE9, B m (p + 1), B m (p + 2)] := by
    rw [hip]
    refine hi.codeAt _ (by simp) fun i hi => ?_
    match i, hi with
    | 0, _ => exact h.1
    | 1, _ => rfl
    | 2, _ => rfl
  have hst := step_enc (K := K) (i := .jmp (word (B m (p + 1)) (B m (p + 2)))) ⟨by simp, fun _ => rfl⟩ hc
  refine hst.trans ?_
  rw [h.2, hip, ofNat_add']
  rfl

theorem Long.run {m : Mem 15} {p t : Nat} (h : Long m p t) (K : Contract) {c : Cpu} (hip : c.ip = BitVec.ofNat 16 p) (hi : Img m c p (p + 3)) :
    Reach K c (· = { c with ip := BitVec.ofNat 16 t }) := .step (Long.step h K hip hi) (.done rfl)

/-- A conditional jump, taken or not. -/
theorem jcc_run {m : Mem 15} {cc p : Nat} (hcc : cc < 16) (h : B m p = nb (0x70 ||| cc)) (K : Contract) {c : Cpu} (hip : c.ip = BitVec.ofNat 16 p) (hi : Img m c p (p + 2))
    {b : Bool} (hb : c.cond (Fin.ofNat 16 cc) = some b) :
    Reach K c (· = { c with ip := if b then BitVec.ofNat 16 (p + 2) + (B m (p + 1)).signExtend 16 else BitVec.ofNat 16 (p + 2) }) := by
  have hv : (Fin.ofNat 16 cc).val = cc := by rw [Fin.val_ofNat, Nat.mod_eq_of_lt hcc]
  have hc : c.codeAt c.ip [nb (0x70 ||| (Fin.ofNat 16 cc).val), B m (p + 1)] := by
    rw [hip, hv]
    refine hi.codeAt _ (by simp) fun i hi => ?_
    match i, hi with
    | 0, _ => exact h
    | 1, _ => rfl
  have hst := step_enc (K := K) (SccCode.enc_jcc (Fin.ofNat 16 cc) (B m (p + 1))) hc
  have hcd : ∀ n, cond { c with ip := n } (Fin.ofNat 16 cc) = some b := fun n => (cond_congr (c := c) rfl rfl rfl rfl _).trans hb
  refine .step (c1 := _) (hst.trans ?_) (.done rfl)
  rw [exec_jcc, hcd, jumpIf_some, hip, ofNat_add']
  rfl

theorem cond_not {c : Cpu} {cc : Nat} (hcc : cc < 16) {b : Bool} (hb : c.cond (Fin.ofNat 16 cc) = some b) : c.cond (Fin.ofNat 16 (cc ^^^ 1)) = some (!b) := by
  have hlt : cc ^^^ 1 < 16 := Nat.xor_lt_two_pow (n := 4) hcc (by decide)
  have e1 : Fin.ofNat 16 (cc ^^^ 1) = Fin.ofNat 16 cc ^^^ 1 := by
    apply Fin.ext
    rw [xor_val, Fin.val_ofNat, Fin.val_ofNat, Nat.mod_eq_of_lt hcc, Nat.mod_eq_of_lt hlt]
  rw [e1, cond_xor, hb]
  rfl

theorem pad_run {m : Mem 15} {p : Nat} (h0 : B m p = 0x88) (h1 : B m (p + 1) = 0xC0) (h2 : B m (p + 2) = 0x90) (K : Contract) {c : Cpu} (hip : c.ip = BitVec.ofNat 16 p)
    (hi : Img m c p (p + 3)) : Reach K c (· = { c with ip := BitVec.ofNat 16 (p + 3) }) := by
  have hc : c.codeAt c.ip ([0x88, 0xC0] ++ [0x90]) := by
    rw [hip]
    refine hi.codeAt _ (by simp) fun i hi => ?_
    match i, hi with
    | 0, _ => exact h0
    | 1, _ => exact h1
    | 2, _ => exact h2
  obtain ⟨hc1, hc2⟩ := codeAt_append.1 hc
  refine .step (c1 := { c with ip := BitVec.ofNat 16 (p + 2) }) ((step_enc (i := .movRmReg false (.reg 0) 0) ⟨by simp, fun _ => rfl⟩ hc1).trans ?_)
    (.step (c1 := { c with ip := BitVec.ofNat 16 (p + 3) }) ((step_enc (c := { c with ip := BitVec.ofNat 16 (p + 2) }) (bytes := [0x90]) (i := .xchgAx 0) ⟨by simp, fun _ => rfl⟩ ?_).trans ?_) (.done rfl))
  · simp only [Cpu.exec, setRm8, setReg8, reg8, hi_append_lo, hip, ofNat_add']
    rfl
  · rw [hip, ← ofNat_add'] at hc2
    exact hc2
  · simp only [Cpu.exec, setReg16, reg16, ← ofNat_add']
    rfl

theorem pop_step {m : Mem 15} {p : Nat} (h0 : B m p = 0x5D) (K : Contract) {c : Cpu} (hip : c.ip = BitVec.ofNat 16 p) (hi : Img m c p (p + 1)) :
    c.step K = .next { c with ip := BitVec.ofNat 16 (p + 1), sp := c.sp + 2, bp := rdw c.mem c.ss c.sp } := by
  have hc : c.codeAt c.ip [0x5D] := by
    rw [hip]
    refine hi.codeAt _ (by simp) fun i hi => ?_
    match i, hi with
    | 0, _ => exact h0
  refine (step_enc (i := .pop 5) (bytes := [0x5D]) ⟨by simp, fun _ => rfl⟩ hc).trans ?_
  simp only [Cpu.exec, Cpu.pop, rd16_eq, setReg16, hip, ofNat_add']
  rfl

theorem ret_step {m : Mem 15} {p : Nat} (h0 : B m p = 0xC3) (K : Contract) {c : Cpu} (hip : c.ip = BitVec.ofNat 16 p) (hi : Img m c p (p + 1)) :
    c.step K = .next { c with ip := rdw c.mem c.ss c.sp, sp := c.sp + 2 } := by
  have hc : c.codeAt c.ip [0xC3] := by
    rw [hip]
    refine hi.codeAt _ (by simp) fun i hi => ?_
    match i, hi with
    | 0, _ => exact h0
  refine (step_enc (i := .ret) (bytes := [0xC3]) ⟨by simp, fun _ => rfl⟩ hc).trans ?_
  simp only [Cpu.exec, Cpu.pop, rd16_eq]

/-- `POP BP; RET` does the same everywhere. -/
theorem ret_run {m : Mem 15} {p : Nat} (h0 : B m p = 0x5D) (h1 : B m (p + 1) = 0xC3) (K : Contract) {c : Cpu} (hip : c.ip = BitVec.ofNat 16 p)
    (hi : Img m c p (p + 2)) :
    Reach K c (· = { c with ip := rdw c.mem c.ss (c.sp + 2), sp := c.sp + 2 + 2, bp := rdw c.mem c.ss c.sp }) :=
  .step (pop_step h0 K hip (hi.mono (Nat.le_refl _) (by omega)))
    (.step (ret_step (p := p + 1) h1 K (c := { c with ip := BitVec.ofNat 16 (p + 1), sp := c.sp + 2, bp := rdw c.mem c.ss c.sp }) rfl
      (fun x h1 h2 => hi x (by omega) (by omega))) (.done rfl))

/-! ## Jumps, from the invariant -/

theorem _root_.I86.Cpu.Reach.skip {K : Contract} {c c1 : Cpu} {Q : Cpu → Prop} (h : Reach K c Q) (hs : c.step K = .next c1) (hq : ¬ Q c) : Reach K c1 Q := by
  obtain ⟨n, c', e, hc⟩ := h
  cases n with
  | zero => cases e; exact absurd hc hq
  | succ n =>
    simp only [runN, hs] at e
    exact ⟨n, c', e, hc⟩

variable {a : Nat} {cs : List Chunk} {s : S} {K : Contract} {c : Cpu} {p n l : Nat}

/-- A jump whose label is placed. -/
theorem Inv.jmp_run (hi : Inv a cs s) (himg : Img s.out c a s.code) (hc : ⟨.jmp l, p, n⟩ ∈ cs) (h0 : adr s l ≠ 0) (hip : c.ip = BitVec.ofNat 16 p) :
    Reach K c (· = { c with ip := BitVec.ofNat 16 (adr s l) }) := by
  have hb := hi.tile.mem hc
  rcases (hi.site _ hc l rfl).2.2 h0 with ⟨h1, h2⟩ | ⟨hn, hs⟩ | ⟨rfl, hs⟩
  · refine .done ?_
    rw [h2, ← hip]
  · exact Short.run hs K hip (himg.mono hb.1 (by have h2 : p + n ≤ s.code := hb.2; omega))
  · exact Long.run hs K hip (himg.mono hb.1 hb.2)

theorem Inv.jmp_step (hi : Inv a cs s) (himg : Img s.out c a s.code) (hc : ⟨.jmp l, p, n⟩ ∈ cs) (h0 : adr s l ≠ 0) (hn0 : n ≠ 0)
    (hip : c.ip = BitVec.ofNat 16 p) : c.step K = .next { c with ip := BitVec.ofNat 16 (adr s l) } := by
  have hb := hi.tile.mem hc
  rcases (hi.site _ hc l rfl).2.2 h0 with ⟨h1, h2⟩ | ⟨hn, hs⟩ | ⟨rfl, hs⟩
  · exact absurd h1 hn0
  · exact Short.step hs K hip (himg.mono hb.1 (by have h2 : p + n ≤ s.code := hb.2; omega))
  · exact Long.step hs K hip (himg.mono hb.1 hb.2)

/-- A conditional jump that is taken. -/
theorem Inv.jcc_run {cc : Nat} (hi : Inv a cs s) (himg : Img s.out c a s.code) (hc : ⟨.jcc cc l, p, n⟩ ∈ cs) (h0 : adr s l ≠ 0) (hip : c.ip = BitVec.ofNat 16 p)
    (hcd : c.cond (Fin.ofNat 16 cc) = some true) : Reach K c (· = { c with ip := BitVec.ofNat 16 (adr s l) }) := by
  have hb := hi.tile.mem hc
  have hb1 : a ≤ p := hb.1
  have hb2 : p + n ≤ s.code := hb.2
  obtain ⟨hcc, hform⟩ := (hi.site _ hc l rfl).2.2 h0
  rcases hform with ⟨rfl, hs⟩ | ⟨rfl, ⟨g1, g2, g3⟩ | ⟨hs, g4, g5⟩⟩
  · have hr := SccLayout.jcc_run hcc hs.1 K hip (himg.mono hb1 hb2) hcd
    rw [← hs.2] at hr
    exact hr
  · have hr := SccLayout.jcc_run (cc := cc ^^^ 1) (Nat.xor_lt_two_pow (n := 4) hcc (by decide)) g1 K hip (himg.mono hb1 (by omega)) (cond_not hcc hcd)
    refine hr.trans ?_
    rintro _ rfl
    rcases g3 with g3 | g3
    · exact Short.run g3 K rfl ((himg.ip _).mono (by omega) (by omega))
    · exact Long.run g3 K rfl ((himg.ip _).mono (by omega) (by omega))
  · have hr := SccLayout.jcc_run hcc hs.1 K hip (himg.mono hb1 (by omega)) hcd
    rw [← hs.2] at hr
    exact hr

/-- A conditional jump that is not taken: what can be reached from behind it can be reached. -/
theorem Inv.jcc_not {cc : Nat} (hi : Inv a cs s) (himg : Img s.out c a s.code) (hc : ⟨.jcc cc l, p, n⟩ ∈ cs) (h0 : adr s l ≠ 0) (hip : c.ip = BitVec.ofNat 16 p)
    (hcd : c.cond (Fin.ofNat 16 cc) = some false) {Q : Cpu → Prop} (hQ : ∀ d, Q d → d.sp ≠ c.sp ∧ d.sp ≠ c.sp + 2)
    (h : Reach K { c with ip := BitVec.ofNat 16 (p + n) } Q) : Reach K c Q := by
  have hb := hi.tile.mem hc
  have hb1 : a ≤ p := hb.1
  have hb2 : p + n ≤ s.code := hb.2
  obtain ⟨hcc, hform⟩ := (hi.site _ hc l rfl).2.2 h0
  rcases hform with ⟨rfl, hs⟩ | ⟨rfl, ⟨g1, g2, g3⟩ | ⟨hs, g4, g5⟩⟩
  · refine (SccLayout.jcc_run hcc hs.1 K hip (himg.mono hb1 hb2) hcd).trans ?_
    rintro _ rfl
    exact h
  · have hr := SccLayout.jcc_run (cc := cc ^^^ 1) (Nat.xor_lt_two_pow (n := 4) hcc (by decide)) g1 K hip (himg.mono hb1 (by omega)) (cond_not hcc hcd)
    rw [g2, show (3 : Byte).signExtend 16 = BitVec.ofNat 16 3 by decide, ← ofNat_add'] at hr
    refine hr.trans ?_
    rintro _ rfl
    exact h
  · refine (SccLayout.jcc_run hcc hs.1 K hip (himg.mono hb1 (by omega)) hcd).trans ?_
    rintro _ rfl
    rcases g5 with ⟨k1, k2⟩ | ⟨l', n', k1, k2, k3, k4⟩ | ⟨k1, k2, t, n', k3⟩
    · refine (pad_run k1 k2 g4 K (c := { c with ip := BitVec.ofNat 16 (p + 2) }) rfl ((himg.ip _).mono (by omega) (by omega))).trans ?_
      rintro _ rfl
      exact h
    · refine .step (Short.step k4 K (c := { c with ip := BitVec.ofNat 16 (p + 2) }) rfl ((himg.ip _).mono (by omega) (by omega))) ?_
      exact h.skip (hi.jmp_step (himg.ip _) k1 k3 k2 rfl) fun hq => (hQ _ hq).1 rfl
    · have hb' := hi.tile.mem k3
      obtain ⟨j1, _, j2⟩ := hi.plain _ k3
      have hb3 : p + 5 + n' ≤ s.code := hb'.2
      rw [List.length_cons, List.length_cons] at j1
      have h1 := h.skip (pop_step (p := p + 5) (j2 0 (by simp)) K rfl ((himg.ip _).mono (by omega) (by omega))) fun hq => (hQ _ hq).1 rfl
      have h2 := h1.skip (ret_step (m := s.out) (p := p + 5 + 1) (j2 1 (by simp)) K rfl (fun x h1 h2 => himg x (by omega) (by omega))) fun hq => (hQ _ hq).2 rfl
      exact .step (pop_step (p := p + 2) k1 K (c := { c with ip := BitVec.ofNat 16 (p + 2) }) rfl ((himg.ip _).mono (by omega) (by omega)))
        (.step (ret_step (m := s.out) (p := p + 2 + 1) k2 K rfl (fun x h1 h2 => himg x (by omega) (by omega))) h2)

end SccLayout

namespace Props
open Prog Scc SccCode SccGen SccJump SccFix SccLayout I86
open I86.Cpu hiding lo hi rd

/-- **C36** (partial, local labels): Let the compiler, from an address `a` on, emit code, jumps, conditional jumps and labels in any order
(`Built`).  Then the output consists of the requested items one after the other (`cs`, last one first), and at each jump the processor goes to
the place of its label, wherever the label is and however the jump has been shortened.  A jump directly before its label may be empty.  If a
conditional jump is not taken, the processor goes on behind it, or it does at once what it would do there.

Partial: local labels only.  `Built` assumes what is wrong otherwise: the first byte behind the end of the code is not that of a short jump or of
`POP BP` when a label follows a conditional jump directly (`C36_stale_violated`). -/
theorem C36_local_partial (a : Nat) (its : List Item) (s : S) (h : Built a its s) :
    ∃ cs : List Chunk, cs.map Chunk.item = its ∧ Tile a cs s.code ∧
      (∀ bs p n, ⟨.raw bs, p, n⟩ ∈ cs → n = bs.length ∧ ∀ i (h : i < bs.length), s.out.get (p + i - codeStart) = bs[i]) ∧
      (∀ l p n, ⟨.lab l, p, n⟩ ∈ cs → n = 0 ∧ (s.labels.get l).addr = p) ∧
      ∀ (K : Contract) (c : Cpu), (∀ x, a ≤ x → x < s.code → rdb c.mem c.cs (BitVec.ofNat 16 x) = s.out.get (x - codeStart)) →
        (∀ l p n q k, ⟨.jmp l, p, n⟩ ∈ cs → ⟨.lab l, q, k⟩ ∈ cs → c.ip = BitVec.ofNat 16 p → Reach K c (· = { c with ip := BitVec.ofNat 16 q })) ∧
        (∀ cc l p n q k b, ⟨.jcc cc l, p, n⟩ ∈ cs → ⟨.lab l, q, k⟩ ∈ cs → c.ip = BitVec.ofNat 16 p → c.cond (Fin.ofNat 16 cc) = some b →
          if b then Reach K c (· = { c with ip := BitVec.ofNat 16 q })
          else ∃ c', Reach K c (· = c') ∧ Reach K { c with ip := BitVec.ofNat 16 (p + n) } (· = c')) := by
  obtain ⟨cs, hi, hm⟩ := h.inv
  have hpos : 0 < codeStart := by decide
  have hlabs : ∀ l p n, ⟨.lab l, p, n⟩ ∈ cs → n = 0 ∧ (s.labels.get l).addr = p ∧ adr s l = p ∧ adr s l ≠ 0 := fun l p n hc => by
    obtain ⟨h1, h2⟩ := hi.plain _ hc
    have := adr_eq (hi.labs _ hc l rfl) hi.count
    have h3 := (hi.tile.mem hc).1
    have h4 := hi.ge
    have h3 : a ≤ p := h3
    exact ⟨h1, by rw [← this]; exact h2, h2, by omega⟩
  refine ⟨cs, hm, hi.tile, fun bs p n hc => ?_, fun l p n hc => ⟨(hlabs l p n hc).1, (hlabs l p n hc).2.1⟩, fun K c himg => ?_⟩
  · obtain ⟨h1, _, h3⟩ := hi.plain _ hc
    exact ⟨h1, h3⟩
  · have himg : Img s.out c a s.code := himg
    have hjmp : ∀ (w : Word) l p n q, ⟨.jmp l, p, n⟩ ∈ cs → adr s l = q → adr s l ≠ 0 → w = BitVec.ofNat 16 p →
        Reach K { c with ip := w } (· = { c with ip := BitVec.ofNat 16 q }) := by
      intro w l p n q hc hq h0 hip
      have hb := hi.tile.mem hc
      rcases (hi.site _ hc l rfl).2.2 h0 with ⟨h1, h2⟩ | ⟨hn, hs⟩ | ⟨rfl, hs⟩
      · refine .done ?_
        rw [hip, ← hq, h2]
      · rw [← hq]
        exact Short.run hs K hip ((himg.ip w).mono hb.1 (by have h2 : p + n ≤ s.code := hb.2; omega))
      · rw [← hq]
        exact Long.run hs K hip ((himg.ip w).mono hb.1 hb.2)
    refine ⟨fun l p n q k hc hl hip => ?_, fun cc l p n q k b hc hl hip hcd => ?_⟩
    · obtain ⟨_, _, h3, h4⟩ := hlabs l q k hl
      exact hjmp c.ip l p n q hc h3 h4 hip
    · obtain ⟨_, _, h3, h4⟩ := hlabs l q k hl
      have hb := hi.tile.mem hc
      have hb1 : a ≤ p := hb.1
      have hb2 : p + n ≤ s.code := hb.2
      obtain ⟨hcc, hform⟩ := (hi.site _ hc l rfl).2.2 h4
      rw [h3] at hform
      rcases hform with ⟨rfl, hs⟩ | ⟨rfl, ⟨g1, g2, g3⟩ | ⟨hs, g4, g5⟩⟩
      · -- a short jump
        have hr := jcc_run hcc hs.1 K hip (himg.mono hb1 hb2) hcd
        rw [← hs.2] at hr
        cases b with
        | true => exact hr
        | false => exact ⟨_, hr, .done rfl⟩
      · -- a jump around a jump
        have hr := jcc_run (cc := cc ^^^ 1) (Nat.xor_lt_two_pow (n := 4) hcc (by decide)) g1 K hip (himg.mono hb1 (by omega)) (cond_not hcc hcd)
        rw [g2, show (3 : Byte).signExtend 16 = BitVec.ofNat 16 3 by decide, ← ofNat_add'] at hr
        cases b with
        | true =>
          refine hr.trans ?_
          rintro _ rfl
          rcases g3 with g3 | g3
          · exact Short.run g3 K rfl ((himg.ip _).mono (by omega) (by omega))
          · exact Long.run g3 K rfl ((himg.ip _).mono (by omega) (by omega))
        | false => exact ⟨_, hr, .done rfl⟩
      · -- a fused jump
        have hr := jcc_run hcc hs.1 K hip (himg.mono hb1 (by omega)) hcd
        rw [← hs.2] at hr
        cases b with
        | true => exact hr
        | false =>
          rcases g5 with ⟨k1, k2⟩ | ⟨l', n', k1, k2, k3, k4⟩ | ⟨k1, k2, t, n', k3⟩
          · refine ⟨_, hr.trans ?_, .done rfl⟩
            rintro _ rfl
            exact pad_run k1 k2 g4 K rfl ((himg.ip _).mono (by omega) (by omega))
          · refine ⟨{ c with ip := BitVec.ofNat 16 (adr s l') }, hr.trans ?_, hjmp _ l' (p + 5) n' _ k1 rfl k3 rfl⟩
            rintro _ rfl
            exact Short.run k4 K rfl ((himg.ip _).mono (by omega) (by omega))
          · have hb' := hi.tile.mem k3
            obtain ⟨j1, _, j2⟩ := hi.plain _ k3
            have hb3 : p + 5 + n' ≤ s.code := hb'.2
            rw [List.length_cons, List.length_cons] at j1
            refine ⟨_, hr.trans ?_, ret_run (p := p + 5) (j2 0 (by simp)) (j2 1 (by simp)) K rfl ((himg.ip _).mono (by omega) (by omega))⟩
            rintro _ rfl
            exact ret_run (p := p + 2) k1 k2 K rfl ((himg.ip _).mono (by omega) (by omega))

end Props
