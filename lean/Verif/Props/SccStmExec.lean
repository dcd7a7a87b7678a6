import Verif.Props.SccStm
/-!
# Compiled statements (C49): what the code does
-/
namespace SccStm
open Scc SccCode SccGen SccJump SccFix SccLayout I86
open I86.Cpu hiding lo hi rd

/-- A function in memory and the processor when its statements begin: code and stack are in the segment `sg`, the variables `xs` at different
places above `T`, where the stack begins; it may grow down to `L`; the code is below. -/
structure World where
  K : Contract
  sg : Word
  bp : Word
  L : Nat
  T : Nat
  off : Nat → Int
  xs : List Nat
  lt : L ≤ T
  hT : T < 2 ^ 16
  above : ∀ x ∈ xs, T ≤ (bp + BitVec.ofInt 16 (off x)).toNat ∧ (bp + BitVec.ofInt 16 (off x)).toNat + 1 < 2 ^ 16
  apart : ∀ x ∈ xs, ∀ y ∈ xs, x ≠ y → (bp + BitVec.ofInt 16 (off x)).toNat + 2 ≤ (bp + BitVec.ofInt 16 (off y)).toNat ∨
    (bp + BitVec.ofInt 16 (off y)).toNat + 2 ≤ (bp + BitVec.ofInt 16 (off x)).toNat
  a : Nat
  cs : List Chunk
  s : S
  inv : SccLayout.Inv a cs s
  top : s.code ≤ L
  c0 : Cpu
  img : ∀ x, a ≤ x → x < s.code → rdb c0.mem sg (BitVec.ofNat 16 x) = B s.out x
  lo : Int
  hlo : bp + BitVec.ofInt 16 lo = BitVec.ofNat 16 T
  R : Nat
  hR : lo ≠ 0 → (∃ p n, ⟨.jmp R, p, n⟩ ∈ cs) → adr s R ≠ 0
  A : Nat → Nat

namespace World
variable (W : World)

/-- The place of a variable. -/
def cell (x : Nat) : Word := W.bp + BitVec.ofInt 16 (W.off x)

def fr (ρ : Nat → Word) : Fr where
  K := W.K
  sg := W.sg
  bp := W.bp
  L := W.L
  T := W.T
  off := W.off
  ρ := ρ
  xs := W.xs
  lt := W.lt
  hT := W.hT
  above := W.above

/-- The memory is as in the beginning, except for variables and the stack. -/
def Kp (c : Cpu) : Prop := ∀ o : Word, o.toNat < W.L ∨ W.T ≤ o.toNat ∧ (∀ x ∈ W.xs, o ≠ W.cell x ∧ o ≠ W.cell x + 1) → rdb c.mem W.sg o = rdb W.c0.mem W.sg o

/-- The processor between two statements. -/
structure Sit (ρ : Nat → Word) (c : Cpu) : Prop where
  inv : SccGen.Inv (W.fr ρ) false [] c
  kp : W.Kp c

variable {W} {ρ : Nat → Word} {c c1 : Cpu} {Q : Cpu → Prop} {p q n l : Nat}

theorem Sit.sp (h : W.Sit ρ c) : c.sp = BitVec.ofNat 16 W.T := by
  obtain ⟨m, e, hm⟩ := h.inv.stk
  have e : m = [] := e.symm
  have hs : c.sp.toNat + 2 * m.length = W.T := hm.sp
  rw [e] at hs
  apply BitVec.eq_of_toNat_eq
  rw [BitVec.toNat_ofNat, Nat.mod_eq_of_lt W.hT, ← hs]
  rfl

theorem Sit.img (h : W.Sit ρ c) : Img W.s.out c W.a W.s.code := by
  intro x h1 h2
  have hc : c.cs = W.sg := h.inv.cs
  have := W.top
  have := W.lt
  have := W.hT
  rw [hc, h.kp _ (.inl (by rw [BitVec.toNat_ofNat]; omega)), W.img x h1 h2]

theorem Sit.keep (h : W.Sit ρ c) {ρ' : Nat → Word} (hk : Keep (W.fr ρ) c c1) (hi : SccGen.Inv (W.fr ρ') false [] c1) : W.Sit ρ' c1 :=
  ⟨hi, fun o ho => (hk o (ho.imp id And.left)).trans (h.kp o ho)⟩

theorem Sit.ip (h : W.Sit ρ c) (w : Word) : W.Sit ρ { c with ip := w } := ⟨h.inv.congr rfl rfl rfl rfl rfl rfl, h.kp⟩

/-- Along the items there are chunks. -/
inductive Path (cs : List Chunk) : Nat → List Item → Nat → Prop
  | nil (p : Nat) : Path cs p [] p
  | cons {p n q : Nat} {it : Item} {its : List Item} (h : ⟨it, p, n⟩ ∈ cs) (ht : Path cs (p + n) its q) : Path cs p (it :: its) q

theorem Path.append {cs : List Chunk} {p q : Nat} {xs ys : List Item} (h : Path cs p (xs ++ ys) q) : ∃ m, Path cs p xs m ∧ Path cs m ys q := by
  induction xs generalizing p with
  | nil => exact ⟨p, .nil p, h⟩
  | cons x xs ih =>
    cases h with
    | cons h ht =>
      obtain ⟨m, h1, h2⟩ := ih ht
      exact ⟨m, .cons h h1, h2⟩

/-- A label that is placed. -/
def Lab (W : World) (l : Nat) : Prop := adr W.s l ≠ 0

theorem lab_at (h : ⟨.lab l, p, n⟩ ∈ W.cs) : n = 0 ∧ adr W.s l = p ∧ W.Lab l := by
  obtain ⟨h1, h2⟩ := W.inv.plain _ h
  have h3 : W.a ≤ p := (W.inv.tile.mem h).1
  have h4 := W.inv.ge
  have hpos : 0 < codeStart := by decide
  refine ⟨h1, h2, ?_⟩
  unfold Lab
  have h2 : adr W.s l = p := h2
  omega

/-- The processor goes over a label. -/
theorem path_lab {its : List Item} (h : Path W.cs p (.lab l :: its) q) : Path W.cs p its q ∧ adr W.s l = p ∧ W.Lab l := by
  cases h with
  | cons h ht =>
    obtain ⟨rfl, h2, h3⟩ := lab_at h
    exact ⟨ht, h2, h3⟩

theorem run_jmp (hs : W.Sit ρ c) (hm : ⟨.jmp l, p, n⟩ ∈ W.cs) (hip : c.ip = BitVec.ofNat 16 p) (hl : W.Lab l)
    (k : W.Sit ρ { c with ip := BitVec.ofNat 16 (adr W.s l) } → Reach W.K { c with ip := BitVec.ofNat 16 (adr W.s l) } Q) : Reach W.K c Q := by
  refine (W.inv.jmp_run hs.img hm hl hip).trans ?_
  rintro _ rfl
  exact k (hs.ip _)

/-- The states of interest have left the function. -/
def Far (W : World) (Q : Cpu → Prop) : Prop := ∀ d, Q d → d.sp ≠ BitVec.ofNat 16 W.T ∧ d.sp ≠ BitVec.ofNat 16 W.T + 2

theorem run_jcc' {cc : Nat} {b : Bool} (hs : W.Sit ρ c) (hm : ⟨.jcc cc l, p, n⟩ ∈ W.cs) (hip : c.ip = BitVec.ofNat 16 p) (hl : W.Lab l) (hf : W.Far Q)
    (hc : c.cond (Fin.ofNat 16 cc) = some b)
    (k : W.Sit ρ { c with ip := BitVec.ofNat 16 (if b then adr W.s l else p + n) } → Reach W.K { c with ip := BitVec.ofNat 16 (if b then adr W.s l else p + n) } Q) : Reach W.K c Q := by
  cases b with
  | true =>
    refine (W.inv.jcc_run hs.img hm hl hip hc).trans ?_
    rintro _ rfl
    exact k (hs.ip _)
  | false =>
    refine W.inv.jcc_not hs.img hm hl hip hc (fun d hd => ?_) (k (hs.ip _))
    rw [hs.sp]
    exact hf d hd

theorem run_jcc {cc : Nat} {b : Bool} (hs : W.Sit ρ c) (hm : ⟨.jcc cc l, p, n⟩ ∈ W.cs) (hip : c.ip = BitVec.ofNat 16 p) (hl : W.Lab l) (hf : W.Far Q)
    (hc : c.cond (Fin.ofNat 16 cc) = some b)
    (k : ∀ c1, W.Sit ρ c1 → c1.ip = BitVec.ofNat 16 (if b then adr W.s l else p + n) → Reach W.K c1 Q) : Reach W.K c Q :=
  run_jcc' hs hm hip hl hf hc fun h => k _ h rfl

theorem run_raw {bs : List Byte} {P : Cpu → Prop} (hs : W.Sit ρ c) (hm : ⟨.raw bs, p, n⟩ ∈ W.cs) (hip : c.ip = BitVec.ofNat 16 p) (hx : Ex (W.fr ρ) c bs P)
    (k : ∀ c1, c1.ip = BitVec.ofNat 16 (p + n) → Keep (W.fr ρ) c c1 → P c1 → Reach W.K c1 Q) : Reach W.K c Q := by
  obtain ⟨h1, _, h3⟩ := W.inv.plain _ hm
  obtain ⟨h4, h5⟩ := W.inv.tile.mem hm
  have h4 : W.a ≤ p := h4
  have h5 : p + n ≤ W.s.code := h5
  have := W.top
  have := W.lt
  have := W.hT
  refine (hx ?_ ?_).trans fun c1 ⟨e1, e2, e3⟩ => k c1 ?_ e2 e3
  · rw [hip]
    exact (hs.img.mono h4 (h1 ▸ h5)).codeAt bs (Nat.le_refl _) h3
  · rw [hip, BitVec.toNat_ofNat]
    show p % 2 ^ 16 + bs.length ≤ W.L
    omega
  · rw [e1, hip, h1, ofNat_add']

/-- Two pieces of code with nothing between them are run as one. -/
theorem run_flat {bs bs' : List Byte} {n' : Nat} {P : Cpu → Prop} (hs : W.Sit ρ c) (hm : ⟨.raw bs, p, n⟩ ∈ W.cs) (hm' : ⟨.raw bs', p + n, n'⟩ ∈ W.cs) (hip : c.ip = BitVec.ofNat 16 p)
    (hx : Ex (W.fr ρ) c (bs ++ bs') P) (k : ∀ c1, c1.ip = BitVec.ofNat 16 (p + n + n') → Keep (W.fr ρ) c c1 → P c1 → Reach W.K c1 Q) : Reach W.K c Q := by
  obtain ⟨h1, _, h3⟩ := W.inv.plain _ hm
  obtain ⟨h4, h5⟩ := W.inv.tile.mem hm
  have h4 : W.a ≤ p := h4
  obtain ⟨g1, _, g3⟩ := W.inv.plain _ hm'
  obtain ⟨g4, g5⟩ := W.inv.tile.mem hm'
  have g4 : W.a ≤ p + n := g4
  have g5 : p + n + n' ≤ W.s.code := g5
  have h1 : n = bs.length := h1
  have g1 : n' = bs'.length := g1
  have := W.top
  have := W.lt
  have := W.hT
  subst h1 g1
  refine (hx ?_ ?_).trans fun c1 ⟨e1, e2, e3⟩ => k c1 ?_ e2 e3
  · rw [hip, codeAt_append, ← ofNat_add']
    exact ⟨(hs.img.mono h4 (Nat.le_trans (Nat.le_add_right _ _) g5)).codeAt bs (Nat.le_refl _) h3, (hs.img.mono g4 g5).codeAt bs' (Nat.le_refl _) g3⟩
  · rw [hip, BitVec.toNat_ofNat]
    show p % 2 ^ 16 + (bs ++ bs').length ≤ W.L
    rw [List.length_append]
    omega
  · rw [e1, hip, List.length_append, ← ofNat_add', Nat.add_assoc]

/-! ## Conditions and assignments -/

/-- What is required of expressions that are evaluated. -/
def PE (K : Contract) (ρ : Nat → Word) (e : E) : Prop := Dyn K.incDecFlags ρ e

/-- What is required of conditions that are evaluated. -/
def PC (K : Contract) (ρ : Nat → Word) (e : E) : Prop := Dyn K.incDecFlags ρ e ∧ (cst e = none → ZfOk K.incDecFlags e)

variable {m : Nat} {e : E}

theorem cst_ev (he : Stat e) {y : Int} (hy : cst e = some y) (W : World) {v : Word} (hd : Dyn W.K.incDecFlags ρ e) (hx : ∀ x ∈ Vars e, x ∈ W.xs) (hs : W.Sit ρ c)
    (hl : W.L + 2 * nest e ≤ W.T) (hv : ev ρ e = some v) : v = BitVec.ofInt 16 y := by
  have hg := exec_gen (F := W.fr ρ) e false false [] c v he hd hx hv hs.inv (show W.L + 2 * (0 + nest e) ≤ W.T by omega)
  rw [show (W.fr ρ).off = W.off from rfl, (gen_cst W.off e false false y he hy).1] at hg
  exact hg.2.2.1

theorem lo_app (a y : Byte) : I86.Cpu.lo (a ++ y) = y := by
  unfold I86.Cpu.lo
  apply BitVec.eq_of_toNat_eq
  have h2 : y.toNat < 2 ^ 8 := y.isLt
  have h := Nat.two_pow_add_eq_or_of_lt h2 a.toNat
  have e : (a ++ y : Word).toNat = a.toNat <<< 8 ||| y.toNat := BitVec.toNat_append a y
  rw [BitVec.toNat_setWidth, e, Nat.shiftLeft_eq, Nat.mul_comm, ← h]
  omega

/-- `MOV AL, y`. -/
theorem at_al (K : Contract) (c : Cpu) (y : Byte) : At K c [0xB0, y] (fun c1 => c1 = { c with ax := I86.Cpu.hi c.ax ++ y, ip := c.ip + 2 }) := by
  refine .one (ins := .movImm false (.reg 0) (y.zeroExtend 16)) ⟨by simp, fun _ => rfl⟩ ⟨_, rfl, rfl, ?_⟩
  show ({ c with ax := I86.Cpu.hi c.ax ++ I86.Cpu.lo (y.zeroExtend 16), ip := c.ip + BitVec.ofNat 16 2 } : Cpu) = _
  rw [show I86.Cpu.lo (y.zeroExtend 16) = y by unfold I86.Cpu.lo; apply BitVec.eq_of_toNat_eq; simp]
  rfl

theorem at_cbw (K : Contract) (c : Cpu) (a y : Byte) (h : c.ax = a ++ y) : At K c [0x98] (Upto { c with ax := y.signExtend 16 }) := by
  refine .one (ins := .cbw) ⟨by simp, fun _ => rfl⟩ ⟨_, rfl, rfl, ?_⟩
  show Upto _ { c with ip := c.ip + 1, ax := (I86.Cpu.lo c.ax).signExtend 16 }
  rw [h, lo_app]
  rfl

/-- `MOV AL, y` and `CBW`. -/
theorem at_set (K : Contract) (c : Cpu) (y : Byte) : At K c ([0xB0, y] ++ [0x98]) (Upto { c with ax := y.signExtend 16 }) := by
  refine At.append (at_al K c y) ?_
  rintro c1 rfl
  exact ⟨⟨rfl, rfl⟩, (at_cbw K _ _ y rfl).mono fun c2 h => by rw [h]; rfl⟩

/-- `MOV AL, y`, a jump over `MOV AL, z`, and `CBW`. -/
theorem at_con (K : Contract) (c : Cpu) (cc : Fin 16) (b : Bool) (y z : Byte) (h : c.cond cc = some b) :
    At K c ([0xB0, y] ++ ([nb (0x70 ||| cc.val), 2] ++ ([0xB0, z] ++ [0x98]))) (Upto { c with ax := (if b then y else z).signExtend 16 }) := by
  refine At.append (at_al K c y) ?_
  rintro c1 rfl
  refine ⟨⟨rfl, rfl⟩, fun hc => ?_⟩
  have hc2 := hc
  rw [codeAt_append] at hc2
  have hcond : ∀ n, cond { c with ax := I86.Cpu.hi c.ax ++ y, ip := n } cc = some b := fun n => (cond_congr (c := c) rfl rfl rfl rfl _).trans h
  cases b with
  | true =>
    refine .step (c1 := { c with ax := I86.Cpu.hi c.ax ++ y, ip := c.ip + 2 + 2 + 2 }) ((step_enc (enc_jcc cc 2) hc2.1).trans ?_) ?_
    · rw [exec_jcc, hcond, jumpIf_some]; rfl
    · have h3 := (codeAt_append.1 hc2.2).2
      refine ((at_cbw K { c with ax := I86.Cpu.hi c.ax ++ y, ip := c.ip + 2 + 2 + 2 } _ y rfl) h3).mono fun c2 ⟨hi, hu⟩ => ⟨?_, ?_⟩
      · rw [hi]; simp only [BitVec.add_assoc]; rfl
      · rw [hu]; rfl
  | false =>
    refine .step (c1 := { c with ax := I86.Cpu.hi c.ax ++ y, ip := c.ip + 2 + 2 }) ((step_enc (enc_jcc cc 2) hc2.1).trans ?_) ?_
    · rw [exec_jcc, hcond, jumpIf_some]; rfl
    · refine ((at_set K { c with ax := I86.Cpu.hi c.ax ++ y, ip := c.ip + 2 + 2 } z) hc2.2).mono fun c2 ⟨hi, hu⟩ => ⟨?_, ?_⟩
      · rw [hi]; simp only [BitVec.add_assoc]; rfl
      · rw [hu]; rfl
theorem cond_nz {c : Cpu} {b : Bool} (h : c.zf = some b) : c.cond (Fin.ofNat 16 5) = some (!b) := by
  show c.zf.map _ = _
  rw [h]; rfl

theorem ex_set {F : Fr} {y : Bool} {b : Byte} (hb : b = if y then 1 else 0) (hi : SccGen.Inv F false [] c) :
    Ex F c [0xB0, b, 0x98, 0x21, 0xC0] fun c' => SccGen.Inv F false [] c' ∧ c'.cond (Fin.ofNat 16 5) = some y := by
  refine Ex.append (as := [0xB0, b] ++ [0x98]) (bs := [0x21, 0xC0]) hi.cs (.of_at (at_set F.K c b) fun _ hu => hu.mem) fun c1 hu => ?_
  have h1 := hi.upto hu
  refine ⟨h1.cs, h1.test.mono fun c2 ⟨h2, hz⟩ => ⟨h2, (cond_nz hz).trans ?_⟩⟩
  rw [show c1.ax = b.signExtend 16 from hu.reg 0, hb]
  cases y <;> rfl

theorem ex_con {F : Fr} {y v : Bool} {cc : Fin 16} {a b : Byte} (ha : a = if y then 1 else 0) (hb : b = if y then 0 else 1) (hi : SccGen.Inv F false [] c)
    (hc : c.cond cc = some (v == y)) : Ex F c ([0xB0, a, nb (0x70 ||| cc.val), 2] ++ [0xB0, b, 0x98, 0x21, 0xC0]) fun c' => SccGen.Inv F false [] c' ∧ c'.cond (Fin.ofNat 16 5) = some v := by
  refine Ex.append (as := [0xB0, a] ++ ([nb (0x70 ||| cc.val), 2] ++ ([0xB0, b] ++ [0x98]))) (bs := [0x21, 0xC0]) hi.cs (.of_at (at_con F.K c cc _ a b hc) fun _ hu => hu.mem) fun c1 hu => ?_
  have h1 := hi.upto hu
  refine ⟨h1.cs, h1.test.mono fun c2 ⟨h2, hz⟩ => ⟨h2, (cond_nz hz).trans ?_⟩⟩
  rw [show c1.ax = (if v == y then a else b).signExtend 16 from hu.reg 0, ha, hb]
  cases y <;> cases v <;> rfl

theorem xor_lt {a : Nat} (h : a < 16) (b : Bool) : a ^^^ (if b then 1 else 0) < 16 := Nat.xor_lt_two_pow (n := 4) h (by cases b <;> decide)

theorem cond_if {cc : Nat} (hcc : cc < 16) {b : Bool} (hb : c.cond (Fin.ofNat 16 cc) = some b) (y : Bool) : c.cond (Fin.ofNat 16 (cc ^^^ if y then 1 else 0)) = some (b != y) := by
  cases y with
  | true => exact (cond_not hcc hb).trans (by simp)
  | false => simp only [Bool.false_eq_true, if_false, Nat.xor_zero]; exact hb.trans (by simp)

/-- After the code for a condition the flags tell its truth. -/
theorem run_cd (hf : W.Far Q) (hm : W.L + 2 * m ≤ W.T) (cd : Cd) : ∀ {n p q : Nat} {c : Cpu} {b : Bool}, OkC W.xs m cd → cstC cd = none → W.Sit ρ c → Path W.cs p (cdI W.off cd n) q →
    c.ip = BitVec.ofNat 16 p → Truth (PC W.K) ρ cd b →
    (∀ c1, W.Sit ρ c1 → c1.ip = BitVec.ofNat 16 q → cdCC W.off cd < 16 → c1.cond (Fin.ofNat 16 (cdCC W.off cd)) = some b → Reach W.K c1 Q) → Reach W.K c Q := by
  induction cd with
  | one e =>
    intro n p q c b he hc hs hp hip ht k
    obtain ⟨h1, h2, h3⟩ := he
    obtain ⟨v, hv, ⟨hd, hzf⟩, hb⟩ := ht
    cases hp with
    | cons hr hp =>
      cases hp
      obtain ⟨hcc, hex⟩ := exec_test (W.fr ρ) e c v h1 hc hd (hzf hc) h2 hv hs.inv (show W.L + 2 * nest e ≤ W.T by omega)
      exact run_raw hs hr hip hex fun c1 hip1 hk ⟨hi, hcd⟩ => k c1 (hs.keep hk hi) hip1 hcc (hb ▸ hcd)
  | con or x y ihx ihy =>
    intro n p q c b he _ hs hp hip ht k
    obtain ⟨h1, h2, h3, h4⟩ := he
    obtain ⟨m3, hp, p4⟩ := hp.append
    obtain ⟨m2, hp, p3⟩ := hp.append
    obtain ⟨m1, p1, p2⟩ := hp.append
    cases p2 with
    | @cons _ nj _ _ _ hj p2 =>
    cases p2
    have hor : (if or = true then 0 else 1) = if (!or) = true then 1 else 0 := by cases or <;> rfl
    have hlab : W.Lab (n + labs x) := by
      unfold conI at p4
      split at p4
      · exact (path_lab p4).2.2
      · cases p4 with
        | cons _ p4 => exact (path_lab p4).2.2
    by_cases hcc : cdCC W.off x = cdCC W.off y
    · have hC : cdCC W.off (.con or x y) = cdCC W.off x := by rw [cdCC, if_pos hcc]
      rw [conI, if_pos hcc] at p4
      obtain ⟨p4, l1, l2⟩ := path_lab p4
      cases p4
      rw [hC] at k
      rcases ht with ⟨ht, hb⟩ | ⟨ht, hb⟩
      · refine ihx h1 h3 hs p1 hip ht fun c1 hs1 hip1 hx1 hcd1 => ?_
        have hj' := cond_if hx1 hcd1 (!or)
        rw [← hor, show (or != !or) = true by cases or <;> rfl] at hj'
        exact run_jcc' hs1 hj hip1 hlab hf hj' fun hs2 => k _ hs2 (by rw [← l1]; rfl) hx1 (hb ▸ hcd1)
      · refine ihx h1 h3 hs p1 hip ht fun c1 hs1 hip1 hx1 hcd1 => ?_
        have hj' := cond_if hx1 hcd1 (!or)
        rw [← hor, show ((!or) != !or) = false by cases or <;> rfl] at hj'
        refine run_jcc hs1 hj hip1 hlab hf hj' fun c2 hs2 hip2 => ihy h2 h4 hs2 p3 hip2 hb fun c3 hs3 hip3 hx3 hcd3 => k c3 hs3 hip3 hx1 ?_
        rw [hcc]; exact hcd3
    · have hC : cdCC W.off (.con or x y) = 5 := by rw [cdCC, if_neg hcc]
      rw [conI, if_neg hcc] at p4
      cases p4 with
      | cons hr1 p4 =>
      obtain ⟨p4, l1, l2⟩ := path_lab p4
      cases p4 with
      | cons hr2 p4 =>
      cases p4
      rw [hC] at k
      rcases ht with ⟨ht, hb⟩ | ⟨ht, hb⟩
      · refine ihx h1 h3 hs p1 hip ht fun c1 hs1 hip1 hx1 hcd1 => ?_
        have hj' := cond_if hx1 hcd1 (!or)
        rw [← hor, show (or != !or) = true by cases or <;> rfl] at hj'
        refine run_jcc hs1 hj hip1 hlab hf hj' fun c2 hs2 hip2 => ?_
        refine run_raw hs2 hr2 (hip2.trans (by rw [← l1]; rfl)) (ex_set (y := b) (by rw [hb]) hs2.inv) fun c3 hip3 hk ⟨hi, hcd⟩ => k c3 (hs2.keep hk hi) hip3 (by decide) hcd
      · refine ihx h1 h3 hs p1 hip ht fun c1 hs1 hip1 hx1 hcd1 => ?_
        have hj' := cond_if hx1 hcd1 (!or)
        rw [← hor, show ((!or) != !or) = false by cases or <;> rfl] at hj'
        refine run_jcc hs1 hj hip1 hlab hf hj' fun c2 hs2 hip2 => ihy h2 h4 hs2 p3 hip2 hb fun c3 hs3 hip3 hx3 hcd3 => ?_
        have hlt := xor_lt hx3 or
        have hj3 := cond_if hx3 hcd3 or
        rw [show (b != or) = (b == !or) by cases b <;> cases or <;> rfl] at hj3
        have hx := ex_con (F := W.fr ρ) (y := !or) (a := if or = true then 0 else 1) (b := if or = true then 1 else 0) (by cases or <;> rfl) (by cases or <;> rfl) hs3.inv hj3
        rw [show (Fin.ofNat 16 (cdCC W.off y ^^^ if or = true then 1 else 0)).val = cdCC W.off y ^^^ if or = true then 1 else 0 from Nat.mod_eq_of_lt hlt] at hx
        exact run_flat hs3 hr1 hr2 hip3 hx fun c4 hip4 hk ⟨hi, hcd⟩ => k c4 (hs3.keep hk hi) hip4 (by decide) hcd

theorem run_tst {neg : Bool} {e : Cd} {i : Nat} (hs : W.Sit ρ c) (hp : Path W.cs p (tst W.off neg e l i) q) (hip : c.ip = BitVec.ofNat 16 p) (hl : W.Lab l) (hf : W.Far Q)
    (he : OkC W.xs m e) (hm : W.L + 2 * m ≤ W.T) {b : Bool} (hh : Holds (PC W.K) ρ (some e) b) (hz : ∀ y, cstC e = some y → (if neg then y ≠ 0 else y = 0))
    (k : ∀ c1, W.Sit ρ c1 → c1.ip = BitVec.ofNat 16 (if b = neg then q else adr W.s l) → Reach W.K c1 Q) : Reach W.K c Q := by
  cases hc : cstC e with
  | some y =>
    rw [tst, hc] at hp
    cases hp
    cases e with
    | con => cases hc
    | one e =>
    obtain ⟨h1, h2, h3⟩ := he
    obtain ⟨v, hv, ⟨hd, hzf⟩, hb⟩ := hh
    have hc : cst e = some y := hc
    have hvy := cst_ev h1 hc W hd h2 hs (by omega) hv
    have h16 := cst_in16 h1 hc
    have hz := hz y hc
    refine k c hs ?_
    have : b = neg := by
      rw [hb, hvy]
      cases neg with
      | true =>
        have hz : y ≠ 0 := hz
        have : BitVec.ofInt 16 y ≠ 0 := fun h => by
          have h := congrArg BitVec.toInt h
          rw [BitVec.toInt_ofInt] at h
          have h16 : -32768 ≤ y ∧ y < 32768 := h16
          have h' : y.bmod (2 ^ 16) = 0 := h
          rw [Int.bmod_eq_of_le (by omega) (by omega)] at h'
          exact hz h'
        exact bne_iff_ne.2 this
      | false =>
        have hz : y = 0 := hz
        rw [hz]
        rfl
    rw [if_pos this]
    exact hip
  | none =>
    rw [tst, hc] at hp
    obtain ⟨m1, p1, p2⟩ := hp.append
    cases p2 with
    | cons hj hp =>
      cases hp
      refine run_cd hf hm e he hc hs p1 hip hh fun c1 hs1 hip1 hcc hcd => ?_
      refine run_jcc hs1 hj hip1 hl hf (cond_if hcc hcd neg) fun c2 hs2 hip2 => k c2 hs2 (hip2.trans ?_)
      cases b <;> cases neg <;> rfl

theorem enc_store (v : Int) : Enc (modB 0x89 0 v) (.movRmReg true (.mem none .bp (BitVec.ofInt 16 v)) 0) := by
  unfold modB
  by_cases h : fits8 v = true
  · rw [if_pos h, ← sext_lo h]; exact ⟨by simp, fun _ => rfl⟩
  · rw [if_neg h, ← word_lo_hi]; exact ⟨by simp, fun _ => rfl⟩

theorem enc_storeImm (v y : Int) : Enc (modB 0xC7 0 v ++ [Scc.lo y, Scc.hi y]) (.movImm true (.mem none .bp (BitVec.ofInt 16 v)) (BitVec.ofInt 16 y)) := by
  unfold modB
  rw [← word_lo_hi y]
  by_cases h : fits8 v = true
  · rw [if_pos h, ← sext_lo h]; exact ⟨by simp, fun _ => rfl⟩
  · rw [if_neg h, ← word_lo_hi v]; exact ⟨by simp, fun _ => rfl⟩

/-- Storing into a variable. -/
theorem Sit.store (h : W.Sit ρ c) {x : Nat} (hx : x ∈ W.xs) (v w : Word) : W.Sit (upd ρ x v) { c with ip := w, mem := wrw c.mem c.ss (W.cell x) v } := by
  have hss : c.ss = W.sg := h.inv.ss
  have hap : ∀ o : Word, o ≠ W.cell x → o ≠ W.cell x + 1 → rdb (wrw c.mem c.ss (W.cell x) v) W.sg o = rdb c.mem W.sg o := fun o ho ho1 => by
    rw [hss]
    exact rdb_wrw_ne _ _ ⟨fun e => ho (lin_inj e).symm, fun e => ho1 (lin_inj e).symm⟩
  have habv := W.above x hx
  have e1 : (W.cell x + 1).toNat = (W.cell x).toNat + 1 := by
    have : (W.cell x).toNat + 1 < 2 ^ 16 := habv.2
    rw [BitVec.toNat_add]; simp; omega
  obtain ⟨h1, h2, h3, h4, mm, h5, h6, h7⟩ := h.inv
  have h5 : mm = [] := h5.symm
  refine ⟨⟨h1, h2, h3, fun y hy => ?_, mm, by rw [h5]; rfl, h6, fun i hi => by rw [h5] at hi; cases hi⟩, fun o ho => ?_⟩
  · show rdw (wrw c.mem c.ss (W.cell x) v) W.sg (W.cell y) = if y = x then v else ρ y
    by_cases e : y = x
    · rw [if_pos e, e, hss]; exact rdw_wrw_self ..
    · rw [if_neg e]
      have h4 : rdw c.mem W.sg (W.cell y) = ρ y := h4 y hy
      rw [← h4]
      have hxy := W.apart y hy x hx e
      have hyv := W.above y hy
      have e2 : (W.cell y + 1).toNat = (W.cell y).toNat + 1 := by
        have : (W.cell y).toNat + 1 < 2 ^ 16 := hyv.2
        rw [BitVec.toNat_add]; simp; omega
      have hxy : (W.cell y).toNat + 2 ≤ (W.cell x).toNat ∨ (W.cell x).toNat + 2 ≤ (W.cell y).toNat := hxy
      unfold Cpu.rdw
      rw [hap, hap]
      all_goals intro e; have := congrArg BitVec.toNat e; omega
  · show rdb (wrw c.mem c.ss (W.cell x) v) W.sg o = _
    rw [← h.kp o ho]
    refine hap o (fun e => ?_) (fun e => ?_)
    · rcases ho with ho | ⟨_, ho⟩
      · have := habv.1
        have := W.lt
        have : W.T ≤ (W.cell x).toNat := habv.1
        rw [e] at ho; omega
      · exact (ho x hx).1 e
    · rcases ho with ho | ⟨_, ho⟩
      · have := W.lt
        have : W.T ≤ (W.cell x).toNat := habv.1
        rw [e] at ho; omega
      · exact (ho x hx).2 e

theorem enc_aluStore (o : BOp) (a : AluOp) (i k : Nat) (h : o.alu false = some (i, k)) (ha : o.cpu = some a) (v : Int) :
    Enc (modB i 0 v) (.aluRmReg a true (.mem none .bp (BitVec.ofInt 16 v)) 0) := by
  unfold modB
  by_cases hf : fits8 v = true
  · rw [if_pos hf, ← sext_lo hf]
    refine ⟨by simp, fun _ => ?_⟩
    cases o <;> cases h <;> cases ha <;> rfl
  · rw [if_neg hf, ← word_lo_hi]
    refine ⟨by simp, fun _ => ?_⟩
    cases o <;> cases h <;> cases ha <;> rfl

theorem enc_aluStoreImm (o : BOp) (a : AluOp) (i k : Nat) (h : o.alu false = some (i, k)) (ha : o.cpu = some a) (v y : Int) :
    Enc (modB 0x81 (i / 8) v ++ [Scc.lo y, Scc.hi y]) (.aluImm a true (.mem none .bp (BitVec.ofInt 16 v)) (BitVec.ofInt 16 y)) := by
  unfold modB
  rw [← word_lo_hi y]
  by_cases hf : fits8 v = true
  · rw [if_pos hf, ← sext_lo hf]
    refine ⟨by simp, fun _ => ?_⟩
    cases o <;> cases h <;> cases ha <;> rfl
  · rw [if_neg hf, ← word_lo_hi v]
    refine ⟨by simp, fun _ => ?_⟩
    cases o <;> cases h <;> cases ha <;> rfl

theorem enc_incMem (d : Bool) (v : Int) : Enc (modB 0xFF (if d then 1 else 0) v) (.incDec d true (.mem none .bp (BitVec.ofInt 16 v))) := by
  unfold modB
  by_cases h : fits8 v = true
  · rw [if_pos h, ← sext_lo h]; exact ⟨by simp, fun _ => by cases d <;> rfl⟩
  · rw [if_neg h, ← word_lo_hi]; exact ⟨by simp, fun _ => by cases d <;> rfl⟩

theorem exec_aluStore (K : Contract) (a : AluOp) (ha : a ≠ .cmp ∧ a ≠ .adc ∧ a ≠ .sbb) (m : RM) (c : Cpu) :
    exec K (.aluRmReg a true m 0) c = .next ((aluFlags K a (c.rm16 m) c.ax false c).setRm16 m (aluRes a (c.rm16 m) c.ax false)) := by
  obtain ⟨h1, h2, h3⟩ := ha
  cases a <;> first | contradiction | rfl

theorem exec_aluStoreImm (K : Contract) (a : AluOp) (ha : a ≠ .cmp ∧ a ≠ .adc ∧ a ≠ .sbb) (m : RM) (y : Word) (c : Cpu) :
    exec K (.aluImm a true m y) c = .next ((aluFlags K a (c.rm16 m) y false c).setRm16 m (aluRes a (c.rm16 m) y false)) := by
  obtain ⟨h1, h2, h3⟩ := ha
  cases a <;> first | contradiction | rfl

/-- The last instruction of an assignment stores the value. -/
def Stores (W : World) (x : Nat) (v : Word) (i : Instr) (d : Cpu) : Prop :=
  ∀ w : Word, ∃ c', exec W.K i { d with ip := w } = .next c' ∧ c'.ip = w ∧ Upto { d with mem := wrw d.mem d.ss (W.cell x) v } c'

theorem run_last {x : Nat} {v : Word} {bs ls : List Byte} {i : Instr} (hs : W.Sit ρ c) (hm : ⟨.raw (bs ++ ls), p, n⟩ ∈ W.cs) (hip : c.ip = BitVec.ofNat 16 p) (hx : x ∈ W.xs)
    {P : Cpu → Prop} (hex : Ex (W.fr ρ) c bs fun d => SccGen.Inv (W.fr ρ) false [] d ∧ P d) (hen : Enc ls i) (hst : ∀ d, SccGen.Inv (W.fr ρ) false [] d → P d → W.Stores x v i d)
    (k : ∀ c1, W.Sit (upd ρ x v) c1 → c1.ip = BitVec.ofNat 16 (p + n) → Reach W.K c1 Q) : Reach W.K c Q := by
  obtain ⟨g1, _, g3⟩ := W.inv.plain _ hm
  obtain ⟨g4, g5⟩ := W.inv.tile.mem hm
  have g4 : W.a ≤ p := g4
  have g5 : p + n ≤ W.s.code := g5
  have hcode : c.codeAt c.ip (bs ++ ls) := by
    rw [hip]
    exact (hs.img.mono g4 (g1 ▸ g5)).codeAt _ (Nat.le_refl _) g3
  have := W.top
  have := W.lt
  have := W.hT
  have hlen : n = (bs ++ ls).length := g1
  obtain ⟨c1, c2⟩ := codeAt_append.1 hcode
  rw [List.length_append] at hlen
  have hipn : c.ip.toNat = p := by rw [hip, BitVec.toNat_ofNat]; omega
  refine (hex c1 (by show _ ≤ W.L; omega)).trans fun d ⟨i1, i2, i3, i4⟩ => ?_
  have hsd := hs.keep i2 i3
  have hcs : d.cs = c.cs := Eq.trans (show d.cs = W.sg from i3.cs) (show W.sg = c.cs from hs.inv.cs.symm)
  have hcd : d.codeAt d.ip ls := by
    rw [i1]
    refine codeAt_congr hcs (fun i hi => ?_) c2
    rw [rd8_eq, rd8_eq, show c.cs = W.sg from hs.inv.cs]
    refine i2 _ (.inl ?_)
    rw [BitVec.toNat_add, BitVec.toNat_add, BitVec.toNat_ofNat, BitVec.toNat_ofNat, hipn]
    show _ < W.L
    omega
  obtain ⟨c', e, hi', hu⟩ := hst d i3 i4 (d.ip + BitVec.ofNat 16 ls.length)
  have hst' := hsd.store hx v d.ip
  refine .step ((step_enc hen hcd).trans e) (k c' ⟨hst'.inv.congr ?_ ?_ ?_ ?_ ?_ ?_, fun o ho => ?_⟩ ?_)
  · rw [hu]
  · rw [hu]
  · rw [hu]
  · rw [hu]
  · rw [hu]
  · rw [hu]
  · rw [hu.mem]; exact hst'.kp o ho
  · rw [hi', hlen, i1, hip, ← ofNat_add', ← ofNat_add', Nat.add_assoc]

theorem stores_ax {x : Nat} {d : Cpu} (hi : SccGen.Inv (W.fr ρ) false [] d) : W.Stores x d.ax (.movRmReg true (.mem none .bp (BitVec.ofInt 16 (W.off x))) 0) d := by
  intro w
  refine ⟨_, rfl, rfl, ?_⟩
  have hbp : d.bp = W.bp := hi.bp
  simp only [setRm16, if_true, wr16_eq]
  rw [World.cell, ← hbp]
  rfl

theorem rm_var {x : Nat} {d : Cpu} (hi : SccGen.Inv (W.fr ρ) false [] d) (hx : x ∈ W.xs) (w : Word) : rm16 { d with ip := w } (.mem none .bp (BitVec.ofInt 16 (W.off x))) = ρ x := hi.rd hx w

theorem stores_alu {x : Nat} {d : Cpu} (hi : SccGen.Inv (W.fr ρ) false [] d) (hx : x ∈ W.xs) {a : AluOp} (ha : a ≠ .cmp ∧ a ≠ .adc ∧ a ≠ .sbb) {v : Word}
    (hv : aluRes a (ρ x) d.ax false = v) : W.Stores x v (.aluRmReg a true (.mem none .bp (BitVec.ofInt 16 (W.off x))) 0) d := by
  intro w
  refine ⟨_, exec_aluStore _ _ ha _ _, rfl, ?_⟩
  have hbp : d.bp = W.bp := hi.bp
  rw [rm_var hi hx, show ({ d with ip := w } : Cpu).ax = d.ax from rfl, hv]
  simp only [setRm16, wr16_eq]
  rw [World.cell, ← hbp]
  rfl

theorem stores_aluImm {x : Nat} {d : Cpu} (hi : SccGen.Inv (W.fr ρ) false [] d) (hx : x ∈ W.xs) {a : AluOp} (ha : a ≠ .cmp ∧ a ≠ .adc ∧ a ≠ .sbb) {v y : Word}
    (hv : aluRes a (ρ x) y false = v) : W.Stores x v (.aluImm a true (.mem none .bp (BitVec.ofInt 16 (W.off x))) y) d := by
  intro w
  refine ⟨_, exec_aluStoreImm _ _ ha _ _ _, rfl, ?_⟩
  have hbp : d.bp = W.bp := hi.bp
  rw [rm_var hi hx, hv]
  simp only [setRm16, wr16_eq]
  rw [World.cell, ← hbp]
  rfl

theorem stores_inc {x : Nat} {d : Cpu} (hi : SccGen.Inv (W.fr ρ) false [] d) (hx : x ∈ W.xs) {b : Bool} {v : Word}
    (hv : aluRes (if b then .sub else .add) (ρ x) 1 false = v) : W.Stores x v (.incDec b true (.mem none .bp (BitVec.ofInt 16 (W.off x)))) d := by
  intro w
  refine ⟨_, rfl, rfl, ?_⟩
  have hbp : d.bp = W.bp := hi.bp
  simp only [if_true, rm_var hi hx, hv]
  simp only [setRm16, wr16_eq]
  rw [World.cell, ← hbp]
  rfl

theorem run_set {x : Nat} {v : Word} (hs : W.Sit ρ c) (hm : ⟨.raw (setB W.off x e), p, n⟩ ∈ W.cs) (hip : c.ip = BitVec.ofNat 16 p) (hx : x ∈ W.xs) (he : OkE W.xs m e)
    (hml : W.L + 2 * m ≤ W.T) (hv : ev ρ e = some v) (hd : PE W.K ρ e)
    (k : ∀ c1, W.Sit (upd ρ x v) c1 → c1.ip = BitVec.ofNat 16 (p + n) → Reach W.K c1 Q) : Reach W.K c Q := by
  obtain ⟨h1, h2, h3⟩ := he
  cases hk : (gen W.off e false false).kd with
  | lit y =>
    have hg := exec_gen (F := W.fr ρ) e false false [] c v h1 hd h2 hv hs.inv (by show W.L + 2 * (0 + nest e) ≤ W.T; omega)
    simp only [Good] at hg
    rw [show (W.fr ρ).off = W.off from rfl, hk] at hg
    obtain ⟨hb, _, hvy, _⟩ := hg
    simp only [setB, hk, hb, List.nil_append] at hm
    refine run_last (bs := []) (P := fun _ => True) hs hm hip hx (.nil ⟨hs.inv, trivial⟩) (enc_storeImm _ _) (fun d hi _ w => ⟨_, rfl, rfl, ?_⟩) k
    have hbp : d.bp = W.bp := hi.bp
    simp only [setRm16, if_true, wr16_eq]
    rw [World.cell, ← hbp, hvy]
    rfl
  | _ =>
    have hval : valB W.off (gen W.off e false false) = (toVal W.off false (gen W.off e false false)).bs := by rw [valB, hk]
    have hex := exec_val (W.fr ρ) e c v h1 hd h2 hv hs.inv (show W.L + 2 * nest e ≤ W.T by omega)
    rw [show (W.fr ρ).off = W.off from rfl, hval] at hex
    simp only [setB, hk] at hm
    exact run_last hs hm hip hx hex (enc_store _) (fun d hi hax => by rw [← hax]; exact stores_ax hi) k

/-- The value of the right side. -/
theorem ev_op {o : BOp} {x : Nat} {e : E} {v : Word} (hv : ev ρ (.bin o (.var x) e) = some v) : ∃ w, ev ρ e = some w ∧ o.sem false (ρ x) w = some v := by
  unfold ev at hv
  rw [show ev ρ (.var x) = some (ρ x) from rfl, Option.bind_some] at hv
  obtain ⟨w, h1, h2⟩ := Option.bind_eq_some_iff.1 hv
  exact ⟨w, h1, h2⟩

theorem run_alu {x i : Nat} {v : Word} {o : BOp} (hs : W.Sit ρ c) (hi : o.alu false = some (i, 0)) (hm : ⟨.raw (aluB W.off i x e), p, n⟩ ∈ W.cs) (hip : c.ip = BitVec.ofNat 16 p)
    (hx : x ∈ W.xs) (he : OkE W.xs m e) (hml : W.L + 2 * m ≤ W.T) (hpl : SccGen.Plain o) (hv : ev ρ (.bin o (.var x) e) = some v) (hd : PE W.K ρ (.bin o (.var x) e))
    (k : ∀ c1, W.Sit (upd ρ x v) c1 → c1.ip = BitVec.ofNat 16 (p + n) → Reach W.K c1 Q) : Reach W.K c Q := by
  obtain ⟨h1, h2, h3⟩ := he
  obtain ⟨u, hu, hsem⟩ := ev_op hv
  obtain ⟨a, i', hcpu, hal, hne, hres⟩ := plain_alu hpl _ _ _ hsem
  cases hk : (gen W.off e false false).kd with
  | lit y =>
    have hg := exec_gen (F := W.fr ρ) e false false [] c u h1 hd.2.1 h2 hu hs.inv (by show W.L + 2 * (0 + nest e) ≤ W.T; omega)
    simp only [Good] at hg
    rw [show (W.fr ρ).off = W.off from rfl, hk] at hg
    obtain ⟨hb, _, hvy, _⟩ := hg
    simp only [aluB, hk, hb, List.nil_append] at hm
    exact run_last (bs := []) (P := fun _ => True) hs hm hip hx (.nil ⟨hs.inv, trivial⟩) (enc_aluStoreImm o a i 0 hi hcpu _ _) (fun d hi _ => stores_aluImm hi hx hne (by rw [← hvy]; exact hres)) k
  | _ =>
    have hval : valB W.off (gen W.off e false false) = (toVal W.off false (gen W.off e false false)).bs := by rw [valB, hk]
    have hex := exec_val (W.fr ρ) e c u h1 hd.2.1 h2 hu hs.inv (show W.L + 2 * nest e ≤ W.T by omega)
    rw [show (W.fr ρ).off = W.off from rfl, hval] at hex
    simp only [aluB, hk] at hm
    exact run_last hs hm hip hx hex (enc_aluStore o a i 0 hi hcpu _) (fun d hi hax => stores_alu hi hx hne (by rw [hax]; exact hres)) k

theorem run_oth {x : Nat} {v : Word} {o : BOp} (hs : W.Sit ρ c) (hcc : o.cc false = 0) (hm : ⟨.raw (othB W.off o x e), p, n⟩ ∈ W.cs) (hip : c.ip = BitVec.ofNat 16 p)
    (hx : x ∈ W.xs) (he : OkE W.xs m e) (hml : W.L + 2 * m ≤ W.T) (hok : cst e = none → isTest e = false) (hv : ev ρ (.bin o (.var x) e) = some v) (hd : PE W.K ρ (.bin o (.var x) e))
    (k : ∀ c1, W.Sit (upd ρ x v) c1 → c1.ip = BitVec.ofNat 16 (p + n) → Reach W.K c1 Q) : Reach W.K c Q := by
  obtain ⟨h1, h2, h3⟩ := he
  obtain ⟨u, hu, hsem⟩ := ev_op hv
  have hg := exec_gen (F := W.fr ρ) e false false [] c u h1 hd.2.1 h2 hu hs.inv (by show W.L + 2 * (0 + nest e) ≤ W.T; omega)
  have hx' : x ∈ (W.fr ρ).xs := hx
  cases hc : cst e with
  | some y =>
    obtain ⟨hgen, hy⟩ := gen_cst W.off e false false y h1 hc
    have hvy := cst_ev h1 hc W hd.2.1 h2 hs (by omega) hu
    have hB : othB W.off o x e = modB 0x8B 0 (W.off x) ++ constBytes false o y ++ modB 0x89 0 (W.off x) := by unfold othB; rw [hgen]; rfl
    rw [hB] at hm
    refine run_last (P := fun d => d.ax = v) hs hm hip hx ?_ (enc_store _) (fun d hi hax => by rw [← hax]; exact stores_ax hi) k
    refine (hs.inv.load hx').append hs.inv.cs fun c1 hu1 => ?_
    have i1 : SccGen.Inv (W.fr ρ) false [] c1 := hs.inv.upto hu1
    have hax : c1.ax = ρ x := hu1.reg 0
    refine ⟨i1.cs, (i1.const o y v hy (by rw [hax, ← hvy]; exact hsem) (fun h hy0 => ?_) (fun h j hj => ?_)).mono fun d hd => ⟨hd.1, (hd.2.1 hcc).1⟩⟩
    · exact (hd.2.2.1 rfl h).2 (by rw [hc, hy0])
    · rw [hax]; exact hd.2.2.2 rfl h j (by rw [hc, hj]) _ rfl
  | none =>
    have hnl := (gen_kd W.off e false false h1).1 hc
    have hB : othB W.off o x e = (toReg W.off false (gen W.off e false false)).bs ++ ([0x91] ++ (modB 0x8B 0 (W.off x) ++ binBytes false o 1)) ++ modB 0x89 0 (W.off x) := by
      unfold othB
      split
      · rename_i v hk
        exact absurd hk (hnl v)
      · simp
    rw [hB] at hm
    refine run_last (P := fun d => d.ax = v) hs hm hip hx ?_ (enc_store _) (fun d hi hax => by rw [← hax]; exact stores_ax hi) k
    have hr := hg.toReg hs.inv (by show W.L + 2 * 0 ≤ W.T; have := W.lt; omega)
    rw [show (W.fr ρ).off = W.off from rfl] at hr
    unfold Good at hr
    cases hgk : (toReg W.off false (gen W.off e false false)).kd with
    | lit v => exact absurd ((toReg_kd W.off false _).2.1 v hgk) (hnl v)
    | var x => exact absurd hgk ((toReg_kd W.off false _).1 x)
    | flag f =>
      have := (gen_kd W.off e false false h1).2 f ((toReg_kd W.off false _).2.2 f hgk)
      rw [hok hc] at this; cases this
    | reg sk =>
      simp only [hgk] at hr
      rw [(toReg_r _).trans (gen_r e)] at hr
      refine hr.append hs.inv.cs fun c1 ⟨i1, hax, _⟩ => ⟨i1.cs, i1.xchgCx.append i1.cs fun c2 ⟨i2, hcx, _⟩ => ⟨i2.cs, (i2.load hx').append i2.cs fun c3 hu3 => ?_⟩⟩
      have i3 : SccGen.Inv (W.fr ρ) false [] c3 := i2.upto hu3
      have hax3 : c3.ax = ρ x := hu3.reg 0
      have hcx3 : c3.cx = u := (hu3.reg 1).trans (hcx.trans hax)
      exact ⟨i3.cs, (i3.bin1 o v (by rw [hax3, hcx3]; exact hsem)).mono fun d hd => ⟨hd.1, (hd.2.1 hcc).1⟩⟩

theorem run_asgn {o : As} {x : Nat} {v : Word} (hs : W.Sit ρ c) (hm : ⟨.raw (asgnB W.off o x e), p, n⟩ ∈ W.cs) (hip : c.ip = BitVec.ofNat 16 p) (hx : x ∈ W.xs) (he : OkE W.xs m e)
    (hok : o.Ok e) (hml : W.L + 2 * m ≤ W.T) (hv : ev ρ (o.rhs x e) = some v) (hd : PE W.K ρ (o.rhs x e))
    (k : ∀ c1, W.Sit (upd ρ x v) c1 → c1.ip = BitVec.ofNat 16 (p + n) → Reach W.K c1 Q) : Reach W.K c Q := by
  cases o with
  | set => exact run_set hs hm hip hx he hml hv hd k
  | op o =>
    obtain ⟨hcc, hok⟩ := hok
    cases hi : o.alu false with
    | some q =>
      obtain ⟨hpl, hq⟩ : SccGen.Plain o ∧ q.2 = 0 := by
        unfold SccGen.Plain
        cases o <;> first | (exact absurd hcc (by decide)) | (cases hi; done) | (cases hi; exact ⟨by simp, rfl⟩)
      obtain ⟨i, z⟩ := q
      simp only [asgnB, hi] at hm
      obtain rfl : z = 0 := hq
      exact run_alu hs hi hm hip hx he hml hpl hv hd k
    | none =>
      simp only [asgnB, hi] at hm
      refine run_oth hs hcc hm hip hx he hml (hok ?_) hv hd k
      cases o <;> first | (cases hi; done) | simp
  | inc d post =>
    have hres : aluRes (if d then .sub else .add) (ρ x) 1 false = v := by
      obtain ⟨w, h1, h2⟩ := ev_op hv
      cases h1
      cases d <;> exact Option.some.inj h2
    cases post with
    | false => exact run_last (bs := []) (P := fun _ => True) hs hm hip hx (.nil ⟨hs.inv, trivial⟩) (enc_incMem d _) (fun d hi _ => stores_inc hi hx hres) k
    | true =>
      exact run_last (P := fun _ => True) hs hm hip hx ((hs.inv.load (show x ∈ (W.fr ρ).xs from hx)).mono fun c1 hu => ⟨hs.inv.upto hu, trivial⟩) (enc_incMem d _)
        (fun d hi _ => stores_inc hi hx hres) k

/-! ## Statements -/

/-- The function is about to be left. -/
def Leaves (W : World) (c : Cpu) : Prop :=
  if W.lo ≠ 0 then (∃ p n, ⟨.jmp W.R, p, n⟩ ∈ W.cs) ∧ c.ip = BitVec.ofNat 16 (adr W.s W.R) else ∃ p n, ⟨.raw [0x5D, 0xC3], p, n⟩ ∈ W.cs ∧ c.ip = BitVec.ofNat 16 p

/-- The processor after a statement that ends at `q`. -/
def Post (W : World) (b k : Int) (q : Nat) : SccStm.Out → Cpu → Prop
  | .norm ρ, c => W.Sit ρ c ∧ c.ip = BitVec.ofNat 16 q
  | .brk ρ, c => W.Sit ρ c ∧ ∃ j : Nat, b = j ∧ W.Lab j ∧ c.ip = BitVec.ofNat 16 (adr W.s j)
  | .cont ρ, c => W.Sit ρ c ∧ ∃ j : Nat, k = j ∧ W.Lab j ∧ c.ip = BitVec.ofNat 16 (adr W.s j)
  | .ret v ρ, c => W.Sit ρ c ∧ (∀ w, v = some w → c.ax = w) ∧ W.Leaves c

theorem run_fin (hs : W.Sit ρ c) (hp : Path W.cs p (fin (decide (W.lo ≠ 0)) W.R) q) (hip : c.ip = BitVec.ofNat 16 p)
    (k : ∀ c1, W.Sit ρ c1 → c1.ax = c.ax → W.Leaves c1 → Reach W.K c1 Q) : Reach W.K c Q := by
  unfold fin at hp
  unfold Leaves at k
  by_cases hlo : W.lo ≠ 0
  · simp only [hlo, ne_eq, not_false_eq_true, decide_true, if_true] at hp k
    cases hp with
    | cons hj _ => exact run_jmp hs hj hip (W.hR hlo ⟨_, _, hj⟩) fun hs1 => k _ hs1 rfl ⟨⟨_, _, hj⟩, rfl⟩
  · simp only [hlo, decide_false, Bool.false_eq_true, if_false] at hp k
    cases hp with
    | cons hj _ => exact k c hs rfl ⟨p, _, hj, hip⟩

theorem dies_norm {P C : (Nat → Word) → E → Prop} {Γ : Nat → Option (List Nat × St)} {d : Nat} {t : St} {o : SccStm.Out} (h : Exec Γ P C d t ρ o) : ∀ ρ', o = .norm ρ' → dies t = false := by
  induction h with
  | seq ha hb iha ihb => intro ρ' ho; rw [dies, iha _ rfl, ihb _ ho]; rfl
  | stop ha ho => intro ρ' h; rw [h] at ho; cases ho
  | ret => intro ρ' h; cases h
  | ret0 => intro ρ' h; cases h
  | brk => intro ρ' h; cases h
  | cont => intro ρ' h; cases h
  | _ => intro _ _; rfl

/-- A jump at the end of the body of a loop. -/
theorem run_again {b k : Int} {j : Nat} {o : SccStm.Out} {ρ1 : Nat → Word} {d : Bool} {q' : Nat} (hd : ∀ ρ', o = .norm ρ' → d = false) (ho : o.again = some ρ1)
    (hp : W.Post b k q o c) (hk : k = j) (hj : Path W.cs q (jmpU d j) q') (hl : W.Lab j)
    (kk : ∀ c1, W.Sit ρ1 c1 → c1.ip = BitVec.ofNat 16 (adr W.s j) → Reach W.K c1 Q) : Reach W.K c Q := by
  cases o with
  | norm ρ' =>
    cases ho
    rw [hd _ rfl] at hj
    obtain ⟨hs, hip⟩ := hp
    cases hj with
    | cons hj _ => exact run_jmp hs hj hip hl fun hs1 => kk _ hs1 rfl
  | cont ρ' =>
    cases ho
    obtain ⟨hs, j', e, _, hip⟩ := hp
    obtain rfl : j = j' := by omega
    exact kk c hs hip
  | brk ρ' => cases ho
  | ret v ρ' => cases ho

theorem post_leave {b k b' k' : Int} {j : Nat} {o o' : SccStm.Out} (ho : o.leave = some o') (hp : W.Post b k q o c) (hb : b = j) (hj : adr W.s j = q') :
    W.Post b' k' q' o' c := by
  cases o with
  | norm ρ' => cases ho
  | cont ρ' => cases ho
  | brk ρ' =>
    cases ho
    obtain ⟨hs, j', e, _, hip⟩ := hp
    obtain rfl : j = j' := by omega
    exact ⟨hs, by rw [← hj]; exact hip⟩
  | ret v ρ' => cases ho; exact hp

theorem run_tstO {co : Option Cd} {i : Nat} (hs : W.Sit ρ c) (hp : Path W.cs p (tstO W.off co l i) q) (hip : c.ip = BitVec.ofNat 16 p) (hl : W.Lab l) (hf : W.Far Q)
    (he : ∀ e, co = some e → OkC W.xs m e ∧ cstC e ≠ some 0) (hm : W.L + 2 * m ≤ W.T) {b : Bool} (hh : Holds (PC W.K) ρ co b)
    (k : ∀ c1, W.Sit ρ c1 → c1.ip = BitVec.ofNat 16 (if b = true then q else adr W.s l) → Reach W.K c1 Q) : Reach W.K c Q := by
  cases co with
  | none =>
    cases hp
    cases hh
    exact k c hs hip
  | some e =>
    exact run_tst (neg := true) hs hp hip hl hf (he e rfl).1 hm hh (fun y hy => by rw [if_pos rfl]; rintro rfl; exact (he e rfl).2 hy) k

/-! ## Calls -/

/-- The function has returned to the caller with the value `v`; it has changed nothing but the free part of the stack (down to `L`) and its own arguments. -/
structure _root_.SccStm.Returned (n L : Nat) (v : Option Word) (c d : Cpu) : Prop where
  ip : d.ip = rdw c.mem c.ss c.sp
  sp : d.sp = c.sp + 2
  bp : d.bp = c.bp
  cs : d.cs = c.cs
  ss : d.ss = c.ss
  ax : ∀ w, v = some w → d.ax = w
  mem : ∀ o : Word, o.toNat < L ∨ c.sp.toNat ≤ o.toNat ∧ o.toNat < c.sp.toNat + 2 ∨ c.sp.toNat + 2 + 2 * n ≤ o.toNat → rdb d.mem c.cs o = rdb c.mem c.cs o

/-- The stack for a function if at most `d` further calls are active at the same time and expressions need at most `m` words: each call takes 8 bytes for arguments, the return address, BP and the values of expressions. -/
def stackFor (m d : Nat) : Nat := 2 * m + (12 + 2 * m) * d

/-- The functions are in memory and do what they say, if at most `d` further calls are active at the same time. -/
def Calls (K : Contract) (Γ : Nat → Option (List Nat × St)) (A : Nat → Nat) (sg : Word) (L m : Nat) (c0 : Cpu) (d : Nat) : Prop :=
  ∀ (f : Nat) (ps : List Nat) (b : St) (ρ ρ1 : Nat → Word) (w : Word), Γ f = some (ps, b) → Exec Γ (PE K) (PC K) d b ρ (.ret (some w) ρ1) →
    ∀ c : Cpu, c.ip = BitVec.ofNat 16 (A f) → c.cs = sg → c.ss = sg → (∀ o : Word, o.toNat < L → rdb c.mem sg o = rdb c0.mem sg o) →
      L + 2 + stackFor m d ≤ c.sp.toNat → c.sp.toNat + 2 + 2 * ps.length ≤ 2 ^ 16 →
      (∀ i (h : i < ps.length), rdw c.mem sg (c.sp + BitVec.ofNat 16 (2 + 2 * i)) = ρ ps[i]) → Reach K c (Returned ps.length L (some w) c)

theorem Calls.congr {K : Contract} {Γ : Nat → Option (List Nat × St)} {A : Nat → Nat} {sg : Word} {L d : Nat} {c0 c0' : Cpu} (h : Calls K Γ A sg L m c0 d)
    (he : ∀ o : Word, o.toNat < L → rdb c0'.mem sg o = rdb c0.mem sg o) : Calls K Γ A sg L m c0' d :=
  fun f ps b ρ ρ1 w hf hx c h1 h2 h3 h4 => h f ps b ρ ρ1 w hf hx c h1 h2 h3 fun o ho => (h4 o ho).trans (he o ho)

/-- There is enough stack for expressions that need `m` words, and calls do what they should, if each of them has `M` words. -/
structure Enough (W : World) (Γ : Nat → Option (List Nat × St)) (M m d : Nat) : Prop where
  stk : W.L + (2 * m + (12 + 2 * M) * d) ≤ W.T
  calls : ∀ d' < d, Calls W.K Γ W.A W.sg W.L M W.c0 d'

theorem Enough.room {Γ : Nat → Option (List Nat × St)} {M d : Nat} (h : W.Enough Γ M m d) : W.L + 2 * m ≤ W.T := by
  have := h.stk
  omega

/-- The frame with room for arguments. -/
def fr8 (W : World) (ρ : Nat → Word) (h : W.L + 8 ≤ W.T) : Fr where
  K := W.K
  sg := W.sg
  bp := W.bp
  L := W.L
  T := W.T - 8
  off := W.off
  ρ := ρ
  xs := W.xs
  lt := by omega
  hT := by have := W.hT; omega
  above := fun x hx => ⟨by have := (W.above x hx).1; omega, (W.above x hx).2⟩

theorem ex_fr {h8 : W.L + 8 ≤ W.T} {bs : List Byte} {P : Cpu → Prop} (h : Ex (W.fr8 ρ h8) c bs P) : Ex (W.fr ρ) c bs P := fun hc hl =>
  (h hc hl).mono fun _ ⟨h1, h2, h3⟩ => ⟨h1, fun o ho => h2 o (ho.imp id fun (ho : W.T ≤ _) => show W.T - 8 ≤ _ by omega), h3⟩

theorem inv_sp {h8 : W.L + 8 ≤ W.T} (h : SccGen.Inv (W.fr8 ρ h8) false [] c) : c.sp = BitVec.ofNat 16 (W.T - 8) := by
  obtain ⟨m, e, hm⟩ := h.stk
  have e : m = [] := e.symm
  have hs : c.sp.toNat + 2 * m.length = W.T - 8 := hm.sp
  rw [e] at hs
  have := W.hT
  apply BitVec.eq_of_toNat_eq
  rw [BitVec.toNat_ofNat, Nat.mod_eq_of_lt (by omega), ← hs]
  rfl

/-- An argument is stored. -/
theorem store_arg {h8 : W.L + 8 ≤ W.T} (h : SccGen.Inv (W.fr8 ρ h8) false [] c) {o : Word} (ho : W.T - 8 ≤ o.toNat) (ho' : o.toNat + 1 < W.T) (v w : Word) :
    SccGen.Inv (W.fr8 ρ h8) false [] { c with ip := w, mem := wrw c.mem c.ss o v } ∧ rdw (wrw c.mem c.ss o v) W.sg o = v ∧
    ∀ u : Word, u.toNat < o.toNat ∨ o.toNat + 2 ≤ u.toNat → rdb (wrw c.mem c.ss o v) W.sg u = rdb c.mem W.sg u := by
  have hss : c.ss = W.sg := h.ss
  have := W.hT
  have e1 : (o + 1).toNat = o.toNat + 1 := by rw [BitVec.toNat_add]; simp; omega
  have hne : ∀ u : Word, u.toNat < o.toNat ∨ o.toNat + 2 ≤ u.toNat → rdb (wrw c.mem c.ss o v) W.sg u = rdb c.mem W.sg u := fun u hu => by
    rw [hss]
    refine rdb_wrw_ne _ _ ⟨fun e => ?_, fun e => ?_⟩
    · rw [← lin_inj e] at hu; omega
    · rw [← lin_inj e] at hu; omega
  obtain ⟨h1, h2, h3, h4, mm, h5, h6, h7⟩ := h
  have h5 : mm = [] := h5.symm
  refine ⟨⟨h1, h2, h3, fun y hy => ?_, mm, by rw [h5]; rfl, h6, fun i hi => by rw [h5] at hi; cases hi⟩, by rw [hss]; exact rdw_wrw_self .., hne⟩
  show rdw (wrw c.mem c.ss o v) W.sg (W.cell y) = ρ y
  have h4 : rdw c.mem W.sg (W.cell y) = ρ y := h4 y hy
  rw [← h4]
  have hy1 : W.T ≤ (W.cell y).toNat ∧ (W.cell y).toNat + 1 < 2 ^ 16 := W.above y hy
  have e2 : (W.cell y + 1).toNat = (W.cell y).toNat + 1 := by rw [BitVec.toNat_add]; simp; omega
  unfold Cpu.rdw
  rw [hne _ (by omega), hne _ (by omega)]

/-- The code for one argument. -/
theorem exec_arg {h8 : W.L + 8 ≤ W.T} (h : SccGen.Inv (W.fr8 ρ h8) false [] c) {d : Int} {j : Nat} {v : Word} (hd : W.bp + BitVec.ofInt 16 d = BitVec.ofNat 16 j)
    (hj : W.T - 8 ≤ j) (hj' : j + 1 < W.T) (he : OkE W.xs m e) (hm : W.L + 2 * m + 8 ≤ W.T) (hv : ev ρ e = some v) (hp : PE W.K ρ e) :
    Ex (W.fr ρ) c (argB W.off d e) fun c' => SccGen.Inv (W.fr8 ρ h8) false [] c' ∧ rdw c'.mem W.sg (BitVec.ofNat 16 j) = v ∧
      ∀ u : Word, W.T - 8 ≤ u.toNat ∧ u.toNat < j → rdb c'.mem W.sg u = rdb c.mem W.sg u := by
  obtain ⟨h1, h2, h3⟩ := he
  have := W.hT
  have hjn : (BitVec.ofNat 16 j : Word).toNat = j := by rw [BitVec.toNat_ofNat]; omega
  cases hk : (gen W.off e false false).kd with
  | lit y =>
    have hg := exec_gen (F := W.fr8 ρ h8) e false false [] c v h1 hp h2 hv h (by show W.L + 2 * (0 + nest e) ≤ W.T - 8; omega)
    simp only [Good] at hg
    rw [show (W.fr8 ρ h8).off = W.off from rfl, hk] at hg
    obtain ⟨hb, _, hvy, _⟩ := hg
    intro hcode hlen
    simp only [argB, hk, hb, List.nil_append] at hcode hlen ⊢
    obtain ⟨s1, s2, s3⟩ := store_arg h (o := BitVec.ofNat 16 j) (by omega) (by omega) v (c.ip + BitVec.ofNat 16 (modB 0xC7 0 d ++ [Scc.lo y, Scc.hi y]).length)
    refine .step ((step_enc (enc_storeImm _ _) hcode).trans ?_) (.done (c := { c with ip := c.ip + BitVec.ofNat 16 (modB 0xC7 0 d ++ [Scc.lo y, Scc.hi y]).length, mem := wrw c.mem c.ss (BitVec.ofNat 16 j) v }) ⟨rfl, fun o ho => s3 o ?_, s1, s2, fun u hu => s3 u (by omega)⟩)
    · rw [hvy, ← hd, ← show c.bp = W.bp from h.bp]
      simp only [Cpu.exec, setRm16, if_true, wr16_eq]
      rfl
    · rcases ho with ho | ho
      · have ho : o.toNat < W.L := ho
        omega
      · have ho : W.T ≤ o.toNat := ho
        omega
  | _ =>
    have hval : valB W.off (gen W.off e false false) = (toVal W.off false (gen W.off e false false)).bs := by rw [valB, hk]
    have hex := exec_val (W.fr8 ρ h8) e c v h1 hp h2 hv h (show W.L + 2 * nest e ≤ W.T - 8 by omega)
    rw [show (W.fr8 ρ h8).off = W.off from rfl, hval] at hex
    simp only [argB, hk]
    have hex' : Ex (W.fr8 ρ h8) c (toVal W.off false (gen W.off e false false)).bs fun c' => (SccGen.Inv (W.fr8 ρ h8) false [] c' ∧ c'.ax = v) ∧ ∀ u : Word, W.T - 8 ≤ u.toNat ∧ u.toNat < j → rdb c'.mem W.sg u = rdb c.mem W.sg u :=
      fun hc hl => (hex hc hl).mono fun _ ⟨q1, q2, q3⟩ => ⟨q1, q2, q3, fun u hu => q2 u (.inr hu.1)⟩
    refine (ex_fr hex').append h.cs ?_
    rintro c1 ⟨⟨i1, i2⟩, i3⟩
    refine ⟨i1.cs, fun hcode hlen => ?_⟩
    obtain ⟨s1, s2, s3⟩ := store_arg i1 (o := BitVec.ofNat 16 j) (by omega) (by omega) v (c1.ip + BitVec.ofNat 16 (modB 0x89 0 d).length)
    refine .step ((step_enc (enc_store _) hcode).trans ?_) (.done (c := { c1 with ip := c1.ip + BitVec.ofNat 16 (modB 0x89 0 d).length, mem := wrw c1.mem c1.ss (BitVec.ofNat 16 j) v }) ⟨rfl, fun o ho => s3 o ?_, s1, s2, fun u hu => (s3 u (by omega)).trans (i3 u hu)⟩)
    · rw [← i2, ← hd, ← show c1.bp = W.bp from i1.bp]
      simp only [Cpu.exec, setRm16, if_true, wr16_eq]
      rfl
    · rcases ho with ho | ho
      · have ho : o.toNat < W.L := ho
        omega
      · have ho : W.T ≤ o.toNat := ho
        omega

/-- The code for the arguments. -/
theorem exec_args {h8 : W.L + 8 ≤ W.T} (hm : W.L + 2 * m + 8 ≤ W.T) : ∀ {es : List E} {vs : List Word} {c : Cpu} {d : Int} {j : Nat}, SccGen.Inv (W.fr8 ρ h8) false [] c →
    W.bp + BitVec.ofInt 16 d = BitVec.ofNat 16 j → W.T - 8 ≤ j → j + 2 * es.length ≤ W.T → (∀ e ∈ es, OkE W.xs m e) → es.map (ev ρ) = vs.map some → (∀ e ∈ es, PE W.K ρ e) →
    Ex (W.fr ρ) c (argsB W.off d es) fun c' => SccGen.Inv (W.fr8 ρ h8) false [] c' ∧ (∀ i (h : i < vs.length), rdw c'.mem W.sg (BitVec.ofNat 16 (j + 2 * i)) = vs[i]) ∧
      ∀ u : Word, W.T - 8 ≤ u.toNat ∧ u.toNat < j → rdb c'.mem W.sg u = rdb c.mem W.sg u := by
  intro es
  induction es with
  | nil =>
    intro vs c d j h _ _ _ _ hv _
    cases vs with
    | cons => simp at hv
    | nil => exact .nil ⟨h, nofun, fun _ _ => rfl⟩
  | cons e es ih =>
    intro vs c d j h hd hj hj' he hv hp
    cases vs with
    | nil => simp at hv
    | cons v vs =>
    obtain ⟨hv1, hv2⟩ := List.cons_eq_cons.1 (show ev ρ e :: es.map (ev ρ) = some v :: vs.map some from hv)
    rw [List.length_cons] at hj'
    have := W.hT
    rw [argsB]
    refine (exec_arg h hd hj (by omega) (he e (List.mem_cons_self ..)) hm hv1 (hp e (List.mem_cons_self ..))).append h.cs ?_
    rintro c1 ⟨i1, i2, i3⟩
    refine ⟨i1.cs, (ih (vs := vs) (j := j + 2) i1 ?_ (by omega) (by omega) (fun e' he' => he e' (List.mem_cons_of_mem _ he')) hv2 (fun e' he' => hp e' (List.mem_cons_of_mem _ he'))).mono ?_⟩
    · rw [BitVec.ofInt_add, ← BitVec.add_assoc, hd, BitVec.ofNat_add]
      rfl
    · rintro c2 ⟨k1, k2, k3⟩
      refine ⟨k1, fun i hi => ?_, fun u hu => (k3 u (by omega)).trans (i3 u hu)⟩
      cases i with
      | zero =>
        show rdw c2.mem W.sg (BitVec.ofNat 16 j) = v
        rw [← i2]
        have hjn : (BitVec.ofNat 16 j : Word).toNat = j := by rw [BitVec.toNat_ofNat]; omega
        have e1 : (BitVec.ofNat 16 j + 1 : Word).toNat = j + 1 := by rw [BitVec.toNat_add, hjn]; simp; omega
        unfold Cpu.rdw
        rw [k3 _ (by omega), k3 _ (by omega)]
      | succ i =>
        have := k2 i (by simpa using hi)
        rw [show j + 2 * (i + 1) = j + 2 + 2 * i by omega]
        exact this

/-- A part of a piece of code is in memory. -/
theorem part_at {xs ys zs : List Byte} (hm : ⟨.pos q (xs ++ ys ++ zs), p, n⟩ ∈ W.cs) {d : Cpu} (hcs : d.cs = W.sg) (hk : ∀ o : Word, o.toNat < W.L → rdb d.mem W.sg o = rdb W.c0.mem W.sg o)
    (hip : d.ip = BitVec.ofNat 16 (p + xs.length)) : d.codeAt d.ip ys ∧ d.ip.toNat + ys.length ≤ W.L := by
  obtain ⟨_, g1, _, g3⟩ := W.inv.plain _ hm
  obtain ⟨g4, g5⟩ := W.inv.tile.mem hm
  have g4 : W.a ≤ p := g4
  have g5 : p + n ≤ W.s.code := g5
  have := W.top
  have := W.lt
  have := W.hT
  simp only [List.length_append] at g1
  have hlen : p + xs.length + ys.length ≤ W.L := by omega
  refine ⟨?_, by rw [hip, BitVec.toNat_ofNat]; omega⟩
  rw [hip]
  have hi : Img W.s.out d W.a W.s.code := fun x h1 h2 => by rw [hcs, hk _ (by rw [BitVec.toNat_ofNat]; omega), W.img x h1 h2]
  refine (hi.mono (show W.a ≤ p + xs.length by omega) (show p + xs.length + ys.length ≤ _ by omega)).codeAt ys (Nat.le_refl _) fun i h => ?_
  have h3 := g3 (xs.length + i) (by simp only [List.length_append]; omega)
  rw [← Nat.add_assoc] at h3
  rw [h3, List.getElem_append_left (by simp only [List.length_append]; omega), List.getElem_append_right (by omega)]
  simp

/-- `SUB SP, 8` and `ADD SP, 8`. -/
theorem exec_sp {K : Contract} {y : Int} (hy : y = -8 ∨ y = 8) (hc : c.codeAt c.ip (spB y)) :
    Reach K c fun c' => c'.ip = c.ip + 3 ∧ c'.sp = c.sp + BitVec.ofInt 16 y ∧ c'.cs = c.cs ∧ c'.ss = c.ss ∧ c'.bp = c.bp ∧ c'.ax = c.ax ∧ c'.mem = c.mem := by
  have e : spB y = addBytes (4 : Fin 8).val y := by rcases hy with rfl | rfl <;> rfl
  rw [e] at hc
  refine (code_add K 4 y c hc).mono fun c' ⟨h1, h2⟩ => ?_
  have hl : (addBytes (4 : Fin 8).val y).length = 3 := by rcases hy with rfl | rfl <;> rfl
  rw [hl] at h1
  have h2 : Upto { c with sp := c.sp + BitVec.ofInt 16 y } c' := h2
  refine ⟨h1, ?_, ?_, ?_, ?_, ?_, ?_⟩ <;> rw [h2]

/-- The arguments are on the stack. -/
structure Ready (W : World) (ρ : Nat → Word) (es : List E) (vs : List Word) (c c1 : Cpu) : Prop where
  sp : c1.sp = BitVec.ofNat 16 (W.T - (if es = [] then 0 else 8))
  cs : c1.cs = W.sg
  ss : c1.ss = W.sg
  bp : c1.bp = W.bp
  keep : Keep (W.fr ρ) c c1
  val : ∀ i (h : i < vs.length), rdw c1.mem W.sg (c1.sp + BitVec.ofNat 16 (2 * i)) = vs[i]

theorem run_pre {es : List E} {vs : List Word} {zs : List Byte} (hs : W.Sit ρ c) (hm : ⟨.pos q (preB W.off W.lo es ++ zs), p, n⟩ ∈ W.cs) (hip : c.ip = BitVec.ofNat 16 p)
    (hn : es.length ≤ 4) (hok : ∀ e ∈ es, OkE W.xs m e) (hml : W.L + 2 * m + 8 ≤ W.T) (hv : es.map (ev ρ) = vs.map some) (hp : ∀ e ∈ es, PE W.K ρ e)
    (k : ∀ c1, c1.ip = BitVec.ofNat 16 (p + (preB W.off W.lo es).length) → W.Ready ρ es vs c c1 → Reach W.K c1 Q) : Reach W.K c Q := by
  cases es with
  | nil =>
    cases vs with
    | cons => simp at hv
    | nil => exact k c hip ⟨hs.sp, hs.inv.cs, hs.inv.ss, hs.inv.bp, .refl _ c, nofun⟩
  | cons e es =>
    have h8 : W.L + 8 ≤ W.T := by omega
    have := W.hT
    have hL : ∀ o : Word, o.toNat < W.L → rdb c.mem W.sg o = rdb W.c0.mem W.sg o := fun o ho => hs.kp o (.inl ho)
    rw [show preB W.off W.lo (e :: es) = spB (-8) ++ argsB W.off (W.lo - 8) (e :: es) from rfl] at hm k
    have ha := part_at (xs := []) (ys := spB (-8)) (zs := argsB W.off (W.lo - 8) (e :: es) ++ zs) (by simpa using hm) hs.inv.cs hL hip
    refine (exec_sp (.inl rfl) ha.1).trans fun c1 ⟨a1, a2, a3, a4, a5, _, a7⟩ => ?_
    have hsp : c1.sp = BitVec.ofNat 16 (W.T - 8) := by
      rw [a2, hs.sp]
      obtain ⟨T', e⟩ : ∃ T', W.T = T' + 8 := ⟨W.T - 8, by omega⟩
      rw [e, Nat.add_sub_cancel, BitVec.ofNat_add, BitVec.add_assoc]
      exact BitVec.add_zero _
    have hi : SccGen.Inv (W.fr8 ρ h8) false [] c1 := by
      refine ⟨a3.trans hs.inv.cs, a4.trans hs.inv.ss, a5.trans hs.inv.bp, fun x hx => ?_, [], rfl, ?_, nofun⟩
      · rw [a7]; exact hs.inv.vars x hx
      · show c1.sp.toNat + 2 * 0 = W.T - 8
        rw [hsp, BitVec.toNat_ofNat]; omega
    have hb := part_at (xs := spB (-8)) (ys := argsB W.off (W.lo - 8) (e :: es)) (zs := zs) (by simpa using hm) (d := c1) hi.cs (by rw [a7]; exact hL)
      (by rw [a1, hip]; exact (BitVec.ofNat_add p 3).symm)
    refine (exec_args (h8 := h8) hml (j := W.T - 8) hi ?_ (Nat.le_refl _) (by omega) hok hv hp hb.1 hb.2).trans fun c2 ⟨b1, b2, b3, b4, _⟩ => k c2 ?_ ?_
    · obtain ⟨T', e⟩ : ∃ T', W.T = T' + 8 := ⟨W.T - 8, by omega⟩
      have hlo := W.hlo
      rw [e, BitVec.ofNat_add] at hlo
      rw [Int.sub_eq_add_neg, BitVec.ofInt_add, ← BitVec.add_assoc, hlo, e, Nat.add_sub_cancel, BitVec.add_assoc]
      exact BitVec.add_zero _
    · rw [b1, a1, hip, List.length_append, ← Nat.add_assoc, BitVec.ofNat_add, BitVec.ofNat_add]
      rfl
    · refine ⟨inv_sp b3, b3.cs, b3.ss, b3.bp, fun o ho => (b2 o ho).trans (by rw [a7]), fun i hi => ?_⟩
      rw [inv_sp b3, ← BitVec.ofNat_add]
      exact b4 i hi

theorem run_call {Γ : Nat → Option (List Nat × St)} {M d x f : Nat} {es : List E} {ps : List Nat} {b : St} {ρ' ρ1 : Nat → Word} {w : Word} (hs : W.Sit ρ c)
    (hm : ⟨.pos q (callAsgnB W.off W.lo (W.A f) q x es), p, n⟩ ∈ W.cs) (hip : c.ip = BitVec.ofNat 16 p) (hx : x ∈ W.xs) (hn : es.length ≤ 4) (hok : ∀ e ∈ es, OkE W.xs m e)
    (hE : W.Enough Γ M m (d + 1)) (hΓ : Γ f = some (ps, b)) (ha : es.map (ev ρ) = ps.map fun y => some (ρ' y)) (hp : ∀ e ∈ es, PE W.K ρ e)
    (hb : Exec Γ (PE W.K) (PC W.K) d b ρ' (.ret (some w) ρ1))
    (k : ∀ c1, W.Sit (upd ρ x w) c1 → c1.ip = BitVec.ofNat 16 (p + n) → Reach W.K c1 Q) : Reach W.K c Q := by
  obtain ⟨g0, g1, _, _⟩ := W.inv.plain _ hm
  obtain rfl : q = p := g0
  have := W.hT
  have := W.lt
  have htop := W.top
  have hstk : W.L + (2 * m + (12 + 2 * M) * (d + 1)) ≤ W.T := hE.stk
  rw [Nat.mul_add, Nat.mul_one] at hstk
  have hcall := hE.calls d (Nat.lt_succ_self d) f ps b ρ' ρ1 w hΓ hb
  have hlen : es.length = ps.length := by simpa using congrArg List.length ha
  obtain ⟨r, hr⟩ : ∃ r, r = (preB W.off W.lo es).length := ⟨_, rfl⟩
  obtain ⟨g4, g5⟩ := W.inv.tile.mem hm
  have g5 : q + n ≤ W.s.code := g5
  have hn' : n = r + 3 + (popB es).length + (modB 0x89 0 (W.off x)).length := by
    have g1 : n = (callAsgnB W.off W.lo (W.A f) q x es).length := g1
    rw [g1, hr]
    simp [callAsgnB, callB]
    omega
  have hL : ∀ o : Word, o.toNat < W.L → rdb c.mem W.sg o = rdb W.c0.mem W.sg o := fun o ho => hs.kp o (.inl ho)
  refine run_pre (es := es) (vs := ps.map ρ')
    (zs := [0xE8, Scc.lo ((W.A f : Int) - (q + (preB W.off W.lo es).length + 1 : Nat) - 2), Scc.hi ((W.A f : Int) - (q + (preB W.off W.lo es).length + 1 : Nat) - 2)] ++ popB es ++ modB 0x89 0 (W.off x))
    hs (by simpa [callAsgnB, callB] using hm) hip hn hok (by omega) (by rw [ha, List.map_map]; rfl) hp fun c1 hip1 hr1 => ?_
  rw [← hr] at hip1
  have hL1 : ∀ o : Word, o.toNat < W.L → rdb c1.mem W.sg o = rdb W.c0.mem W.sg o := fun o ho => (hr1.keep o (.inl ho)).trans (hL o ho)
  obtain ⟨hc1, _⟩ := part_at (xs := preB W.off W.lo es) (ys := [0xE8, Scc.lo ((W.A f : Int) - (q + r + 1 : Nat) - 2), Scc.hi ((W.A f : Int) - (q + r + 1 : Nat) - 2)]) (zs := popB es ++ modB 0x89 0 (W.off x))
    (by rw [hr]; simpa [callAsgnB, callB] using hm) hr1.cs hL1 (by rw [hip1, hr])
  obtain ⟨T2, hT2⟩ : ∃ T2, T2 + 2 = W.T - (if es = [] then 0 else 8) := ⟨W.T - (if es = [] then 0 else 8) - 2, by split <;> omega⟩
  have hT3 : W.T ≤ T2 + 2 + 8 := by split at hT2 <;> omega
  have hT4 : T2 + 2 + 2 * ps.length ≤ W.T := by
    split at hT2
    · rename_i h; rw [h] at hlen; simp at hlen; omega
    · omega
  have hsp1 : c1.sp = BitVec.ofNat 16 (T2 + 2) := by rw [hr1.sp, hT2]
  have hsp2 : c1.sp - 2 = BitVec.ofNat 16 T2 := by
    rw [hsp1, BitVec.ofNat_add]
    exact BitVec.add_sub_cancel _ 2#16
  have hn2 : (BitVec.ofNat 16 T2 : Word).toNat = T2 := by rw [BitVec.toNat_ofNat]; omega
  have hn3 : (BitVec.ofNat 16 T2 + 1 : Word).toNat = T2 + 1 := by rw [BitVec.toNat_add, hn2]; simp; omega
  let c2 : Cpu := { c1 with ip := BitVec.ofNat 16 (W.A f), sp := c1.sp - 2, mem := wrw c1.mem c1.ss (c1.sp - 2) (BitVec.ofNat 16 (q + r + 3)) }
  have hstep : c1.step W.K = .next c2 := by
    refine (step_enc (K := W.K) (i := .call (word (Scc.lo ((W.A f : Int) - (q + r + 1 : Nat) - 2)) (Scc.hi ((W.A f : Int) - (q + r + 1 : Nat) - 2)))) ⟨by simp, fun _ => rfl⟩ hc1).trans ?_
    have e1 : c1.ip + BitVec.ofNat 16 3 = BitVec.ofNat 16 (q + r + 3) := by rw [hip1, ← BitVec.ofNat_add]
    have e2 : BitVec.ofNat 16 (q + r + 3) + word (Scc.lo ((W.A f : Int) - (q + r + 1 : Nat) - 2)) (Scc.hi ((W.A f : Int) - (q + r + 1 : Nat) - 2)) = BitVec.ofNat 16 (W.A f) := by
      rw [word_lo_hi, ← BitVec.ofInt_natCast, ← BitVec.ofInt_natCast, ← BitVec.ofInt_add]
      congr 1
      omega
    show Cpu.exec W.K _ { c1 with ip := c1.ip + BitVec.ofNat 16 3 } = _
    rw [e1]
    simp only [Cpu.exec, Cpu.push, wr16_eq]
    rw [e2]
  have hmem2 : ∀ o : Word, o.toNat < T2 ∨ T2 + 2 ≤ o.toNat → rdb c2.mem W.sg o = rdb c1.mem W.sg o := by
    intro o ho
    show rdb (wrw c1.mem c1.ss (c1.sp - 2) _) W.sg o = _
    rw [hr1.ss, hsp2]
    refine rdb_wrw_ne _ _ ⟨fun e => ?_, fun e => ?_⟩
    · rw [← lin_inj e, hn2] at ho; omega
    · rw [← lin_inj e, hn3] at ho; omega
  have hra : rdw c2.mem c2.ss c2.sp = BitVec.ofNat 16 (q + r + 3) := by
    show rdw (wrw c1.mem c1.ss (c1.sp - 2) _) c1.ss (c1.sp - 2) = _
    exact rdw_wrw_self ..
  have hsp2n : c2.sp.toNat = T2 := by show (c1.sp - 2).toNat = T2; rw [hsp2, hn2]
  refine .step hstep ((hcall c2 rfl hr1.cs hr1.ss (fun o ho => (hmem2 o (by omega)).trans (hL1 o ho)) ?_ (by rw [hsp2n]; omega) ?_).trans fun c3 h3 => ?_)
  · rw [hsp2n, stackFor]; omega
  · intro i hi
    have hv := hr1.val i (by simpa using hi)
    rw [List.getElem_map, hsp1, ← BitVec.ofNat_add] at hv
    have e : c2.sp + BitVec.ofNat 16 (2 + 2 * i) = BitVec.ofNat 16 (T2 + 2 + 2 * i) := by
      show c1.sp - 2 + _ = _
      rw [hsp2, ← BitVec.ofNat_add, Nat.add_assoc]
    rw [e, ← hv]
    have e1 : (BitVec.ofNat 16 (T2 + 2 + 2 * i) : Word).toNat = T2 + 2 + 2 * i := by rw [BitVec.toNat_ofNat]; omega
    have e2 : (BitVec.ofNat 16 (T2 + 2 + 2 * i) + 1 : Word).toNat = T2 + 2 + 2 * i + 1 := by rw [BitVec.toNat_add, e1]; simp; omega
    unfold Cpu.rdw
    rw [hmem2 _ (by omega), hmem2 _ (by omega)]
  -- the call has returned
  have hcs2 : c2.cs = W.sg := hr1.cs
  have hmem3 : Keep (W.fr ρ) c c3 := by
    intro o ho
    have ho' : o.toNat < W.L ∨ W.T ≤ o.toNat := ho
    have e3 := h3.mem o (by rw [hsp2n]; omega)
    rw [hcs2] at e3
    exact (e3.trans (hmem2 o (by omega))).trans (hr1.keep o ho)
  have hip3 : c3.ip = BitVec.ofNat 16 (q + r + 3) := h3.ip.trans hra
  have hsp3 : c3.sp = BitVec.ofNat 16 (T2 + 2) := by rw [h3.sp]; show c1.sp - 2 + 2 = _; rw [BitVec.sub_add_cancel, hsp1]
  have hcs3 : c3.cs = W.sg := h3.cs.trans hcs2
  have hss3 : c3.ss = W.sg := h3.ss.trans hr1.ss
  have hbp3 : c3.bp = W.bp := h3.bp.trans hr1.bp
  have hax3 : c3.ax = w := h3.ax w rfl
  have hL3 : ∀ o : Word, o.toNat < W.L → rdb c3.mem W.sg o = rdb W.c0.mem W.sg o := fun o ho => (hmem3 o (.inl ho)).trans (hL o ho)
  -- the stack pointer
  have hpop : ∀ Q : Cpu → Prop, (∀ c4, c4.ip = BitVec.ofNat 16 (q + r + 3 + (popB es).length) → c4.sp = BitVec.ofNat 16 W.T → c4.cs = W.sg → c4.ss = W.sg → c4.bp = W.bp → c4.ax = w →
      c4.mem = c3.mem → Reach W.K c4 Q) → Reach W.K c3 Q := by
    intro Q k
    cases es with
    | nil =>
      rw [if_pos rfl] at hT2
      exact k c3 hip3 (by rw [hsp3, hT2, Nat.sub_zero]) hcs3 hss3 hbp3 hax3 rfl
    | cons e es =>
      rw [if_neg (by simp)] at hT2
      obtain ⟨hc3, _⟩ := part_at (xs := callB W.off W.lo (W.A f) q (e :: es)) (ys := spB 8) (zs := modB 0x89 0 (W.off x)) hm hcs3 hL3
        (by rw [hip3]; simp only [callB, List.length_append, ← hr, List.length_cons, List.length_nil]; rfl)
      refine (exec_sp (.inr rfl) hc3).trans fun c4 ⟨a1, a2, a3, a4, a5, a6, a7⟩ => k c4 ?_ ?_ (a3.trans hcs3) (a4.trans hss3) (a5.trans hbp3) (a6.trans hax3) a7
      · rw [a1, hip3]; exact (BitVec.ofNat_add (q + r + 3) 3).symm
      · rw [a2, hsp3, hT2]
        obtain ⟨T', e⟩ : ∃ T', W.T = T' + 8 := ⟨W.T - 8, by omega⟩
        rw [e, Nat.add_sub_cancel, BitVec.ofNat_add]
        rfl
  refine hpop Q fun c4 hip4 hsp4 hcs4 hss4 hbp4 hax4 hm4 => ?_
  have hk4 : Keep (W.fr ρ) c c4 := fun o ho => by rw [hm4]; exact hmem3 o ho
  have hi4 : SccGen.Inv (W.fr ρ) false [] c4 := by
    refine ⟨hcs4, hss4, hbp4, fun y hy => ?_, [], rfl, ?_, nofun⟩
    · rw [← hs.inv.vars y hy]
      have hy1 : W.T ≤ (W.cell y).toNat ∧ (W.cell y).toNat + 1 < 2 ^ 16 := W.above y hy
      have e2 : (W.cell y + 1).toNat = (W.cell y).toNat + 1 := by rw [BitVec.toNat_add]; simp; omega
      show rdw c4.mem W.sg (W.cell y) = rdw c.mem W.sg (W.cell y)
      have q1 : rdb c4.mem W.sg (W.cell y) = rdb c.mem W.sg (W.cell y) := hk4 _ (.inr hy1.1)
      have q2 : rdb c4.mem W.sg (W.cell y + 1) = rdb c.mem W.sg (W.cell y + 1) := hk4 _ (.inr (show W.T ≤ _ by omega))
      unfold Cpu.rdw
      rw [q1, q2]
    · show c4.sp.toNat + 2 * 0 = W.T
      rw [hsp4, BitVec.toNat_ofNat]; omega
  have hs4 := hs.keep hk4 hi4
  obtain ⟨hc4, _⟩ := part_at (xs := callB W.off W.lo (W.A f) q es ++ popB es) (ys := modB 0x89 0 (W.off x)) (zs := []) (by rw [List.append_nil]; exact hm) hcs4 (by rw [hm4]; exact hL3)
    (by rw [hip4]; simp only [callB, List.length_append, ← hr, List.length_cons, List.length_nil]; congr 1; omega)
  refine .step ((step_enc (enc_store _) hc4).trans ?_) (k _ (hs4.store hx w (BitVec.ofNat 16 (q + n))) rfl)
  rw [← hax4, hip4, ← BitVec.ofNat_add, hn']
  simp only [Cpu.exec, setRm16, if_true, wr16_eq]
  rw [World.cell, ← hbp4]
  simp only [← Nat.add_assoc]
  rfl

/-- The code of a statement does what the statement means. -/
theorem exec_code {Γ : Nat → Option (List Nat × St)} {F : List Nat} {M : Nat} (hf : W.Far Q) {d : Nat} {t : St} {o : SccStm.Out} (h : Exec Γ (PE W.K) (PC W.K) d t ρ o) :
    W.Enough Γ M m d → ∀ {b k : Int} {l l' : Nat} {its : List Item} {p q : Nat} {c : Cpu}, Code W.off W.A W.lo W.R b k l l' t its → Path W.cs p its q → Ok F W.xs m t →
      (∀ j : Nat, b = j → W.Lab j) → (∀ j : Nat, k = j → W.Lab j) → W.Sit ρ c → c.ip = BitVec.ofNat 16 p →
      (∀ c1, W.Post b k q o c1 → Reach W.K c1 Q) → Reach W.K c Q := by
  induction h with
  | nil ρ =>
    intro hE b k l l' its p q c hc hp hok hb hk hs hip kk
    cases hc; cases hp
    exact kk c ⟨hs, hip⟩
  | seq ha hb' iha ihb =>
    intro hE b k l l' its p q c hc hp hok hb hk hs hip kk
    cases hc with
    | seq c1 c2 =>
      obtain ⟨m1, p1, p2⟩ := hp.append
      exact iha hE c1 p1 hok.1 hb hk hs hip fun d hd => ihb hE c2 p2 hok.2.1 hb hk hd.1 hd.2 kk
  | @stop _ _ _ _ o' ha ho iha =>
    intro hE b k l l' its p q c hc hp hok hb hk hs hip kk
    cases hc with
    | seq c1 c2 =>
      obtain ⟨m1, p1, p2⟩ := hp.append
      refine iha hE c1 p1 hok.1 hb hk hs hip fun d hd => kk d ?_
      cases o' with
      | norm => cases ho
      | _ => exact hd
  | asgn hv hpe =>
    intro hE b k l l' its p q c hc hp hok hb hk hs hip kk
    cases hc
    cases hp with
    | cons hr ht =>
      cases ht
      exact run_asgn hs hr hip hok.1 hok.2.1 hok.2.2 hE.room hv hpe fun c1 h1 h2 => kk c1 ⟨h1, h2⟩
  | @ifT _ e s t ρ o hh ha iha =>
    intro hE b k l l' its p q c hc hp hok hb hk hs hip kk
    have hz : ∀ y, cstC e = some y → (if true = true then y ≠ 0 else y = 0) := fun y hy => by
      rw [if_pos rfl]; rintro rfl; exact hok.2.1 hy
    cases hc with
    | ifs c1 =>
      obtain ⟨m2, p12, p3⟩ := hp.append
      obtain ⟨m1, p1, p2⟩ := p12.append
      obtain ⟨p4, l1, l2⟩ := path_lab p3
      cases p4
      exact run_tst hs p1 hip l2 hf hok.1 hE.room hh hz fun d hd hipd => iha hE c1 p2 hok.2.2.1 hb hk hd hipd kk
    | ife c1 c2 =>
      obtain ⟨m5, p5, q6⟩ := hp.append
      obtain ⟨m4, p4, q5⟩ := p5.append
      obtain ⟨m3, p3, q4⟩ := p4.append
      obtain ⟨m2, p2, q3⟩ := p3.append
      obtain ⟨m1, p1, q2⟩ := p2.append
      obtain ⟨q4, l1, l2⟩ := path_lab q4
      cases q4
      obtain ⟨q6, l3, l4⟩ := path_lab q6
      cases q6
      refine run_tst hs p1 hip l2 hf hok.1 hE.room hh hz fun d hd hipd => iha hE c1 q2 hok.2.2.1 hb hk hd hipd fun d1 hd1 => ?_
      cases o with
      | norm ρ' =>
        obtain ⟨hs1, hip1⟩ := hd1
        rw [dies_norm ha _ rfl] at q3
        cases q3 with
        | cons hj _ => exact run_jmp hs1 hj hip1 l4 fun hs2 => kk _ ⟨hs2, by rw [l3]⟩
      | _ => exact kk _ hd1
  | @ifF _ e s t ρ o hh ha iha =>
    intro hE b k l l' its p q c hc hp hok hb hk hs hip kk
    have hz : ∀ y, cstC e = some y → (if true = true then y ≠ 0 else y = 0) := fun y hy => by
      rw [if_pos rfl]; rintro rfl; exact hok.2.1 hy
    cases hc with
    | ifs c1 =>
      obtain ⟨m2, p12, p3⟩ := hp.append
      obtain ⟨m1, p1, p2⟩ := p12.append
      obtain ⟨p4, l1, l2⟩ := path_lab p3
      cases p4
      cases ha
      exact run_tst hs p1 hip l2 hf hok.1 hE.room hh hz fun d hd hipd => kk d ⟨hd, by rw [← l1]; exact hipd⟩
    | ife c1 c2 =>
      obtain ⟨m5, p5, q6⟩ := hp.append
      obtain ⟨m4, p4, q5⟩ := p5.append
      obtain ⟨m3, p3, q4⟩ := p4.append
      obtain ⟨m2, p2, q3⟩ := p3.append
      obtain ⟨m1, p1, q2⟩ := p2.append
      obtain ⟨q4, l1, l2⟩ := path_lab q4
      cases q4
      obtain ⟨q6, l3, l4⟩ := path_lab q6
      cases q6
      refine run_tst hs p1 hip l2 hf hok.1 hE.room hh hz fun d hd hipd => iha hE c2 q5 hok.2.2.2.1 hb hk hd (by rw [← l1]; exact hipd) kk
  | @done _ co t s ρ hh =>
    intro hE b k l l' its p q c hc hp hok hb hk hs hip kk
    cases hc with
    | whl c1 =>
      obtain ⟨m4, p4, q5⟩ := hp.append
      obtain ⟨m3, p3, q4⟩ := p4.append
      obtain ⟨m2, p2, q3⟩ := p3.append
      obtain ⟨p2, l1, l2⟩ := path_lab p2
      obtain ⟨q5, l3, l4⟩ := path_lab q5
      cases q5
      exact run_tstO hs (co := some _) p2 hip l4 hf hok.1 hE.room hh fun d hd hipd => kk d ⟨hd, by rw [← l3]; exact hipd⟩
    | for0 c1 =>
      obtain ⟨m4, p4, q5⟩ := hp.append
      obtain ⟨m3, p3, q4⟩ := p4.append
      obtain ⟨m2, p2, q3⟩ := p3.append
      obtain ⟨m1, p1, q2⟩ := p2.append
      obtain ⟨p1, l1, l2⟩ := path_lab p1
      obtain ⟨q5, l3, l4⟩ := path_lab q5
      cases q5
      exact run_tstO hs p1 hip l4 hf hok.1 hE.room hh fun d hd hipd => kk d ⟨hd, by rw [← l3]; exact hipd⟩
    | forK hi c1 c2 =>
      obtain ⟨m6, p6, q7⟩ := hp.append
      obtain ⟨m5, p5, q6⟩ := p6.append
      obtain ⟨m4, p4, q5⟩ := p5.append
      obtain ⟨m3, p3, q4⟩ := p4.append
      obtain ⟨m2, p2, q3⟩ := p3.append
      obtain ⟨m1, p1, q2⟩ := p2.append
      obtain ⟨p1, l1, l2⟩ := path_lab p1
      obtain ⟨q7, l3, l4⟩ := path_lab q7
      cases q7
      exact run_tstO hs p1 hip l4 hf hok.1 hE.room hh fun d hd hipd => kk d ⟨hd, by rw [← l3]; exact hipd⟩
  | @leave _ co t s ρ o o' hh ha hl iha =>
    intro hE b k l l' its p q c hc hp hok hb hk hs hip kk
    cases hc with
    | whl c1 =>
      obtain ⟨m4, p4, q5⟩ := hp.append
      obtain ⟨m3, p3, q4⟩ := p4.append
      obtain ⟨m2, p2, q3⟩ := p3.append
      obtain ⟨p2, l1, l2⟩ := path_lab p2
      obtain ⟨q5, l3, l4⟩ := path_lab q5
      cases q5
      exact run_tstO hs (co := some _) p2 hip l4 hf hok.1 hE.room hh fun d hd hipd => iha hE c1 q3 hok.2.2.2 (fun j e => by obtain rfl := Int.ofNat.inj e; exact l4)
        (fun j e => by obtain rfl := Int.ofNat.inj e; exact l2) hd hipd fun d1 hd1 => kk d1 (post_leave hl hd1 rfl l3)
    | for0 c1 =>
      obtain ⟨m4, p4, q5⟩ := hp.append
      obtain ⟨m3, p3, q4⟩ := p4.append
      obtain ⟨m2, p2, q3⟩ := p3.append
      obtain ⟨m1, p1, q2⟩ := p2.append
      obtain ⟨p1, l1, l2⟩ := path_lab p1
      obtain ⟨q2, l5, l6⟩ := path_lab q2
      cases q2
      obtain ⟨q5, l3, l4⟩ := path_lab q5
      cases q5
      exact run_tstO hs p1 hip l4 hf hok.1 hE.room hh fun d hd hipd => iha hE c1 q3 hok.2.2.2 (fun j e => by obtain rfl := Int.ofNat.inj e; exact l4)
        (fun j e => by obtain rfl := Int.ofNat.inj e; exact l2) hd hipd fun d1 hd1 => kk d1 (post_leave hl hd1 rfl l3)
    | forK hi c1 c2 =>
      obtain ⟨m6, p6, q7⟩ := hp.append
      obtain ⟨m5, p5, q6⟩ := p6.append
      obtain ⟨m4, p4, q5⟩ := p5.append
      obtain ⟨m3, p3, q4⟩ := p4.append
      obtain ⟨m2, p2, q3⟩ := p3.append
      obtain ⟨m1, p1, q2⟩ := p2.append
      obtain ⟨p1, l1, l2⟩ := path_lab p1
      obtain ⟨q7, l3, l4⟩ := path_lab q7
      cases q7
      cases q2 with
      | cons j1 q2 =>
        obtain ⟨q2, l5, l6⟩ := path_lab q2
        cases q2
        cases q4 with
        | cons j2 q4 =>
          obtain ⟨q4, l7, l8⟩ := path_lab q4
          cases q4
          exact run_tstO hs p1 hip l4 hf hok.1 hE.room hh fun d hd hipd => run_jmp hd j1 hipd l8 fun hd' => iha hE c2 q5 hok.2.2.2
            (fun j e => by obtain rfl := Int.ofNat.inj e; exact l4) (fun j e => by obtain rfl := Int.ofNat.inj e; exact l6) hd' (by rw [l7])
            fun d1 hd1 => kk d1 (post_leave hl hd1 rfl l3)
  | @again _ co t s ρ o ρ1 ρ2 o' hh ha hl hk' hr iha ihk ihr =>
    intro hE b k l l' its p q c hc hp hok hb hk hs hip kk
    have hc' := hc
    have hp' := hp
    cases hc with
    | whl c1 =>
      obtain ⟨m4, p4, q5⟩ := hp.append
      obtain ⟨m3, p3, q4⟩ := p4.append
      obtain ⟨m2, p2, q3⟩ := p3.append
      obtain ⟨p2, l1, l2⟩ := path_lab p2
      obtain ⟨q5, l3, l4⟩ := path_lab q5
      cases q5
      cases hk'
      exact run_tstO hs (co := some _) p2 hip l4 hf hok.1 hE.room hh fun d hd hipd => iha hE c1 q3 hok.2.2.2 (fun j e => by obtain rfl := Int.ofNat.inj e; exact l4)
        (fun j e => by obtain rfl := Int.ofNat.inj e; exact l2) hd hipd fun d1 hd1 => run_again (dies_norm ha) hl hd1 rfl q4 l2
          fun d2 hd2 hip2 => ihr hE hc' hp' hok hb hk hd2 (by rw [← l1]; exact hip2) kk
    | for0 c1 =>
      obtain ⟨m4, p4, q5⟩ := hp.append
      obtain ⟨m3, p3, q4⟩ := p4.append
      obtain ⟨m2, p2, q3⟩ := p3.append
      obtain ⟨m1, p1, q2⟩ := p2.append
      obtain ⟨p1, l1, l2⟩ := path_lab p1
      obtain ⟨q2, l5, l6⟩ := path_lab q2
      cases q2
      obtain ⟨q5, l3, l4⟩ := path_lab q5
      cases q5
      cases hk'
      exact run_tstO hs p1 hip l4 hf hok.1 hE.room hh fun d hd hipd => iha hE c1 q3 hok.2.2.2 (fun j e => by obtain rfl := Int.ofNat.inj e; exact l4)
        (fun j e => by obtain rfl := Int.ofNat.inj e; exact l2) hd hipd fun d1 hd1 => run_again (dies_norm ha) hl hd1 rfl q4 l2
          fun d2 hd2 hip2 => ihr hE hc' hp' hok hb hk hd2 (by rw [← l1]; exact hip2) kk
    | forK hi c1 c2 =>
      obtain ⟨m6, p6, q7⟩ := hp.append
      obtain ⟨m5, p5, q6⟩ := p6.append
      obtain ⟨m4, p4, q5⟩ := p5.append
      obtain ⟨m3, p3, q4⟩ := p4.append
      obtain ⟨m2, p2, q3⟩ := p3.append
      obtain ⟨m1, p1, q2⟩ := p2.append
      obtain ⟨p1, l1, l2⟩ := path_lab p1
      obtain ⟨q7, l3, l4⟩ := path_lab q7
      cases q7
      cases q2 with
      | cons j1 q2 =>
        obtain ⟨q2, l5, l6⟩ := path_lab q2
        cases q2
        cases q4 with
        | cons j2 q4 =>
          obtain ⟨q4, l7, l8⟩ := path_lab q4
          cases q4
          exact run_tstO hs p1 hip l4 hf hok.1 hE.room hh fun d hd hipd => run_jmp hd j1 hipd l8 fun hd' => iha hE c2 q5 hok.2.2.2
            (fun j e => by obtain rfl := Int.ofNat.inj e; exact l4) (fun j e => by obtain rfl := Int.ofNat.inj e; exact l6) hd' (by rw [l7])
            fun d1 hd1 => run_again (dies_norm ha) hl hd1 rfl q6 l6 fun d2 hd2 hip2 => ihk hE c1 q3 hok.2.1 hb hk hd2 (by rw [← l5]; exact hip2)
              fun d3 hd3 => run_jmp hd3.1 j2 hd3.2 l2 fun hd4 => ihr hE hc' hp' hok hb hk hd4 (by rw [← l1]) kk
  | @doDone _ s e ρ o ρ1 ha hl hh iha =>
    intro hE b k l l' its p q c hc hp hok hb hk hs hip kk
    cases hc with
    | dow c1 =>
      obtain ⟨m4, p4, q5⟩ := hp.append
      obtain ⟨m3, p3, q4⟩ := p4.append
      obtain ⟨m2, p2, q3⟩ := p3.append
      obtain ⟨m1, p1, q2⟩ := p2.append
      obtain ⟨p1, l1, l2⟩ := path_lab p1
      cases p1
      obtain ⟨q3, l5, l6⟩ := path_lab q3
      cases q3
      obtain ⟨q5, l3, l4⟩ := path_lab q5
      cases q5
      refine iha hE c1 q2 hok.1 (fun j e => by obtain rfl := Int.ofNat.inj e; exact l4) (fun j e => by obtain rfl := Int.ofNat.inj e; exact l6) hs hip fun d1 hd1 => ?_
      have hd : W.Sit ρ1 d1 ∧ d1.ip = BitVec.ofNat 16 m3 := by
        cases o with
        | norm ρ' => cases hl; exact hd1
        | cont ρ' =>
          cases hl
          obtain ⟨hs1, j', e, _, hip1⟩ := hd1
          obtain rfl := Int.ofNat.inj e
          exact ⟨hs1, by rw [hip1, l5]⟩
        | brk => cases hl
        | ret => cases hl
      exact run_tst hd.1 q4 hd.2 l2 hf hok.2.1 hE.room hh (fun y hy => by
        rw [if_neg (by decide)]
        rcases hok.2.2 with h | h
        · rw [h] at hy; cases hy
        · rw [h] at hy; cases hy; rfl) fun d2 hd2 hip2 => kk d2 ⟨hd2, hip2⟩
  | @doLeave _ s e ρ o o' ha hl iha =>
    intro hE b k l l' its p q c hc hp hok hb hk hs hip kk
    cases hc with
    | dow c1 =>
      obtain ⟨m4, p4, q5⟩ := hp.append
      obtain ⟨m3, p3, q4⟩ := p4.append
      obtain ⟨m2, p2, q3⟩ := p3.append
      obtain ⟨m1, p1, q2⟩ := p2.append
      obtain ⟨p1, l1, l2⟩ := path_lab p1
      cases p1
      obtain ⟨q3, l5, l6⟩ := path_lab q3
      cases q3
      obtain ⟨q5, l3, l4⟩ := path_lab q5
      cases q5
      exact iha hE c1 q2 hok.1 (fun j e => by obtain rfl := Int.ofNat.inj e; exact l4) (fun j e => by obtain rfl := Int.ofNat.inj e; exact l6) hs hip
        fun d1 hd1 => kk d1 (post_leave hl hd1 rfl l3)
  | @doAgain _ s e ρ o ρ1 o' ha hl hh hr iha ihr =>
    intro hE b k l l' its p q c hc hp hok hb hk hs hip kk
    have hc' := hc
    have hp' := hp
    cases hc with
    | dow c1 =>
      obtain ⟨m4, p4, q5⟩ := hp.append
      obtain ⟨m3, p3, q4⟩ := p4.append
      obtain ⟨m2, p2, q3⟩ := p3.append
      obtain ⟨m1, p1, q2⟩ := p2.append
      obtain ⟨p1, l1, l2⟩ := path_lab p1
      cases p1
      obtain ⟨q3, l5, l6⟩ := path_lab q3
      cases q3
      obtain ⟨q5, l3, l4⟩ := path_lab q5
      cases q5
      refine iha hE c1 q2 hok.1 (fun j e => by obtain rfl := Int.ofNat.inj e; exact l4) (fun j e => by obtain rfl := Int.ofNat.inj e; exact l6) hs hip fun d1 hd1 => ?_
      have hd : W.Sit ρ1 d1 ∧ d1.ip = BitVec.ofNat 16 m3 := by
        cases o with
        | norm ρ' => cases hl; exact hd1
        | cont ρ' =>
          cases hl
          obtain ⟨hs1, j', e, _, hip1⟩ := hd1
          obtain rfl := Int.ofNat.inj e
          exact ⟨hs1, by rw [hip1, l5]⟩
        | brk => cases hl
        | ret => cases hl
      exact run_tst hd.1 q4 hd.2 l2 hf hok.2.1 hE.room hh (fun y hy => by
        rw [if_neg (by decide)]
        rcases hok.2.2 with h | h
        · rw [h] at hy; cases hy
        · rw [h] at hy; cases hy; rfl) fun d2 hd2 hip2 => ihr hE hc' hp' hok hb hk hd2 (by rw [hip2]; simp [l1]) kk
  | ret hv hpe =>
    intro hE b k l l' its p q c hc hp hok hb hk hs hip kk
    cases hc with
    | ret hll =>
      cases hp with
      | cons hr ht =>
        obtain ⟨h1, h2, h3⟩ := hok
        refine run_raw hs hr hip (exec_val (W.fr _) _ c _ h1 hpe h2 hv hs.inv (show W.L + 2 * nest _ ≤ W.T by have := hE.room; omega)) fun c1 hip1 hk1 ⟨hi, hax⟩ => ?_
        exact run_fin (hs.keep hk1 hi) ht hip1 fun c2 h1 h2 h3 => kk c2 ⟨h1, fun w e => by cases e; rw [h2]; exact hax, h3⟩
  | ret0 ρ =>
    intro hE b k l l' its p q c hc hp hok hb hk hs hip kk
    cases hc
    exact run_fin hs hp hip fun c2 h1 h2 h3 => kk c2 ⟨h1, (fun w e => by cases e), h3⟩
  | brk ρ =>
    intro hE b k l l' its p q c hc hp hok hb hk hs hip kk
    cases hc with
    | brk j hj =>
      cases hp with
      | cons hr ht => exact run_jmp hs hr hip (hb j hj) fun h1 => kk _ ⟨h1, j, hj, hb j hj, rfl⟩
  | cont ρ =>
    intro hE b k l l' its p q c hc hp hok hb hk hs hip kk
    cases hc with
    | cont j hj =>
      cases hp with
      | cons hr ht => exact run_jmp hs hr hip (hk j hj) fun h1 => kk _ ⟨h1, j, hj, hk j hj, rfl⟩
  | @call d x f es ps b' ρ ρ' w ρ1 hΓ ha hpe hx _ =>
    intro hE b k l l' its p q c hc hp hok hb hk hs hip kk
    cases hc with
    | call =>
      cases hp with
      | cons hr ht =>
        cases ht
        exact run_call hs hr hip hok.1 hok.2.2.2.1 hok.2.2.2.2 hE hΓ ha hpe hx fun c1 h1 h2 => kk c1 ⟨h1, h2⟩

end World
end SccStm
