import Verif.Props.SccGenText
/-!
# Compiled expressions (C43): from the text to the value in AX
-/
namespace SccGen
open Prog Text Scc SccCode Props.SccLex Props.SccIds I86
open I86.Cpu hiding lo hi rd

variable {off : Nat → Int}

/-! ## The value in AX -/

/-- The code for an expression with its value in AX. -/
def valB (off : Nat → Int) (g : G) : List Byte :=
  match g.kd with
  | .lit v => g.bs ++ if v ≠ 0 then [nb (0xB8 ||| rAX), Scc.lo v, Scc.hi v] else [0x31, 0xC0]
  | _ => (toVal off false g).bs

structure Got (s : S) (bs : List Byte) (s' : S) : Prop where
  em : Em s bs s'
  type : s'.type = vtInt
  push : s'.push = false
  bal : bal s' = bal s
  zf : s'.lastZF ≤ s'.code

theorem Done.val {s s1 : S} {g : G} (h : Done off s g s1) (hu : Up s) (hp : s.push = false) (hr : Room s (valB off g).length) :
    ∃ s2, getVal s1 = .ok () s2 ∧ Got s (valB off g) s2 ∧ s2.regUse = g.r ∧ tks s2 = tks s1 := by
  cases hk : g.kd with
  | lit v =>
    have hkd := h.kd
    rw [hk] at hkd
    obtain ⟨ht, rfl, hp1⟩ := hkd
    rw [hp] at hp1
    have hb : valB off g = g.bs ++ if s1.val ≠ 0 then [nb (0xB8 ||| rAX), Scc.lo s1.val, Scc.hi s1.val] else [0x31, 0xC0] := by simp only [valB, hk]
    rw [hb] at hr ⊢
    generalize hbs : (if s1.val ≠ 0 then [nb (0xB8 ||| rAX), Scc.lo s1.val, Scc.hi s1.val] else [0x31, 0xC0]) = bs at *
    have hr1 : Room { s1 with type := vtInt } bs.length := h.em.room (by rw [List.length_append] at hr; exact hr)
    have hw := put_wrote bs { s1 with type := vtInt } hr1
    have hem := Em.of_wrote (s := s1) hw rfl rfl rfl hr1.1
    have hlive : Live { s1 with type := vtInt } := ⟨(hu.of h.em.fr).dead, (hu.of h.em.fr).spAdj, hp1⟩
    refine ⟨put { s1 with type := vtInt } bs, ?_, ⟨h.em.trans hem, ?_, ?_, ?_, ?_⟩, ?_, ?_⟩
    · refine run_getS (run_neg (by rw [ht]; decide) (run_bind (a := ()) (s1 := s1) ?_ ?_))
      · exact run_getS (run_pos (by rw [ht]; decide) rfl)
      · refine run_getS (run_pos (by rw [ht]; decide) (run_failIf (by rw [ht]; decide) (run_bind (a := ()) (s1 := { s1 with type := vtInt }) ?_ ?_)))
        · show Res.ok () { s1 with type := vtInt, val := s1.val } = _; rfl
        · by_cases h0 : s1.val ≠ 0
          · rw [if_pos h0] at hbs
            refine run_pos h0 ?_
            rw [← hbs] at hr1 ⊢
            exact hlive.out_put hr1
          · rw [if_neg h0] at hbs
            refine run_neg h0 ?_
            rw [← hbs] at hr1 ⊢
            exact hlive.out_put hr1
    · rw [(put_proj _ _).1]
    · rw [put_eq]; exact hp1
    · rw [put_eq]; exact h.bal
    · rw [put_eq]; have := h.zf; simp only; omega
    · rw [put_eq]; exact h.reg
    · rw [put_eq]; rfl
  | _ =>
    have hl : ∀ v, g.kd ≠ .lit v := by rw [hk]; nofun
    have hb : valB off g = (SccGen.toVal off false g).bs := by simp only [valB, hk]
    rw [hb] at hr ⊢
    rw [← hp] at hr
    obtain ⟨s2, e2, hd, ht⟩ := h.toVal hu hl hr
    obtain ⟨sk, hsk⟩ := toVal_reg (off := off) s.push g hl
    have hkd := hd.kd
    rw [hsk] at hkd
    rw [hp] at hd
    refine ⟨s2, e2, ⟨hd.em, hkd.1, hkd.2.1, hd.bal, hd.zf⟩, hd.reg.trans ?_, congrArg Prod.fst ht⟩
    unfold SccGen.toVal SccGen.toReg
    simp only [hk, Bool.false_or]

theorem toVal_r (g : G) : (toVal off false g).r = g.r := by
  unfold toVal toReg
  cases hk : g.kd <;> simp [hk]

theorem genUn_r (o : UOp) (g : G) : (genUn o g).r = g.r := by unfold genUn; split <;> rfl
theorem toReg_r (g : G) : (toReg off false g).r = g.r := by unfold toReg; split <;> simp

theorem gen_r (e : E) : (gen off e false false).r = false := by
  induction e with
  | lit v => rfl
  | var x => rfl
  | un o a ih =>
    simp only [gen]
    split
    · rfl
    · rw [genUn_r, toReg_r, ih]
  | bin o a b iha ihb =>
    simp only [gen]
    split
    · split
      · rfl
      · unfold genLitL
        split <;> exact (toVal_r _).trans ihb
    · unfold genRhs
      split
      · exact (toVal_r _).trans iha
      · exact (toVal_r _).trans iha
      · rfl

theorem exec_val (F : Fr) (e : E) (c : Cpu) (v : Word) (hs : Stat e) (hd : Dyn F.K.incDecFlags F.ρ e) (hx : ∀ x ∈ Vars e, x ∈ F.xs) (hv : ev F.ρ e = some v)
    (hi : Inv F false [] c) (hl : F.L + 2 * nest e ≤ F.T) :
    Ex F c (valB F.off (gen F.off e false false)) fun c' => Inv F false [] c' ∧ c'.ax = v := by
  have hg := exec_gen e false false [] c v hs hd hx hv hi (by simpa using hl)
  cases hk : (gen F.off e false false).kd with
  | lit y =>
    simp only [Good, hk] at hg
    obtain ⟨hb, _, hvy, h16⟩ := hg
    simp only [valB, hk, hb, List.nil_append]
    split
    · refine (Ex.one (ins := .movImm true (.reg 0) (BitVec.ofInt 16 y)) ⟨by simp, fun junk => ?_⟩
        ⟨{ c with ip := c.ip + BitVec.ofNat 16 3, ax := BitVec.ofInt 16 y }, rfl, rfl, .of_mem rfl, ?_, hvy.symm⟩)
      · rw [← word_lo_hi]; rfl
      · exact hi.congr rfl rfl rfl rfl rfl rfl
    · rename_i h0
      simp only [ne_eq, Decidable.not_not] at h0
      subst h0
      have hz : c.ax ^^^ c.ax = 0 := BitVec.xor_self
      refine (Ex.one (ins := .aluRmReg .xor true (.reg 0) 0) ⟨by simp, fun junk => rfl⟩ ⟨_, exec_aluReg F.K .xor (by decide) 0 _, rfl, .of_mem rfl, ?_, ?_⟩)
      · exact hi.congr rfl rfl rfl rfl rfl rfl
      · rw [hvy]; exact hz
  | _ =>
    have hl : ∀ y, (gen F.off e false false).kd ≠ .lit y := by rw [hk]; nofun
    have := hg.toVal hi (by have := F.lt; simp; exact this) hl
    have hr := (toVal_r (off := F.off) (gen F.off e false false)).trans (gen_r (off := F.off) e)
    rw [hr] at this
    have hb : valB F.off (gen F.off e false false) = (SccGen.toVal F.off false (gen F.off e false false)).bs := by simp only [valB, hk]
    rw [hb]
    exact this

/-! ## The length of the code -/

/-- The number of operands and operators. -/
def size : E → Nat
  | .lit _ => 1
  | .var _ => 1
  | .un _ a => size a + 1
  | .bin _ a b => size a + size b + 1

theorem len_shifts (rm : Byte) (k : Nat) : (shifts rm k).length = 2 * k := by
  induction k with
  | zero => rfl
  | succ k ih => rw [shifts, List.length_append, ih]; simp; omega

theorem len_bin (o : BOp) (r : Nat) : (binBytes false o r).length ≤ 4 := by
  unfold binBytes
  split
  · simp
  · cases o <;> simp [divBytes]

theorem len_add (y : Int) : (addBytes 0 y).length ≤ 3 := by
  unfold addBytes
  simp only
  split
  · simp
  · split
    · simp; omega
    · split <;> simp

theorem len_const (o : BOp) (y : Int) (hy : In16 y) : (constBytes false o y).length ≤ 30 := by
  have hlog : y.toNat.log2 ≤ 15 := by
    have : y.toNat < 2 ^ 15 := by unfold In16 at hy; omega
    by_cases h0 : y.toNat = 0
    · rw [h0]; decide
    · exact Nat.le_of_lt ((Nat.log2_lt h0).2 this)
  have h1 := len_add y
  have h2 := len_add (-y)
  cases o <;> simp only [constBytes]
  case add => omega
  case sub => omega
  case mul => split <;> simp [len_shifts, movCx]; omega
  case div => split <;> simp [len_shifts, movCx, divBytes]; omega
  case mod => have := len_bin .mod 1; simp [movCx]; omega
  case shl => have := len_bin .shl 1; simp; omega
  case shr => have := len_bin .shr 1; simp; omega
  all_goals (split <;> simp)

theorem len_modB (i r : Nat) (v : Int) : (modB i r v).length ≤ 4 := by unfold modB; split <;> simp
theorem len_flB (p r : Bool) : (flB p r).length ≤ 2 := by cases p <;> cases r <;> simp [flB]

theorem toReg_len (p : Bool) (g : G) : (toReg off p g).bs.length ≤ g.bs.length + 6 := by
  unfold toReg
  split
  · have := len_modB 0x8B 0 (off ‹_›)
    have := len_flB p g.r
    simp only [List.length_append]; omega
  · omega

theorem toVal_len (p : Bool) (g : G) : (toVal off p g).bs.length ≤ g.bs.length + 12 := by
  have := toReg_len (off := off) p g
  unfold toVal
  split
  · simp [boolBytes]; omega
  · omega

theorem gen_len (e : E) : Stat e → ∀ p r, (gen off e p r).bs.length ≤ 64 * size e := by
  induction e with
  | lit v => intro _ p r; simp [gen]
  | var x => intro _ p r; simp [gen]
  | un o a ih =>
    intro hs p r
    have h1 := ih hs.1 p r
    have h2 := toReg_len (off := off) p (gen off a p r)
    simp only [gen, size]
    split
    · simp
    · unfold genUn
      split <;> (try split) <;> (try simp only [List.length_append, List.length_cons, List.length_nil]) <;> omega
  | bin o a b iha ihb =>
    intro hs p r
    have h1 := iha hs.1 p r
    have h2 := toVal_len (off := off) p (gen off a p r)
    simp only [gen, size]
    split
    · rename_i x hca
      split
      · simp
      · have h3 := ihb hs.2.1 p r
        have h4 := toVal_len (off := off) p (gen off b p r)
        have h5 := len_const o x (cst_in16 hs.1 hca)
        have h6 := len_bin o 1
        unfold genLitL
        split <;> simp only [List.length_append, List.length_cons, List.length_nil, movCx] <;> omega
    · generalize (toVal off p (gen off a p r)) = ga at *
      have h3 := ihb hs.2.1 true ga.r
      unfold genRhs
      split
      · rename_i y hk
        have h5 : (constBytes false o y).length ≤ 30 := by
          cases hcb : cst b with
          | none => exact absurd hk ((gen_kd off b true ga.r hs.2.1).1 hcb y)
          | some z =>
            obtain ⟨hgb, hz⟩ := gen_cst off b true ga.r z hs.2.1 hcb
            rw [hgb] at hk
            cases hk
            exact len_const o _ hz
        simp only [List.length_append]; omega
      · rename_i y _
        have h6 := len_bin o 1
        have h7 := len_modB 0x8B 0 (off y)
        have h8 := fun i => len_modB i 0 (off y)
        unfold rhsVar
        split
        · rename_i inst _ _
          have := h8 (inst ||| 3)
          simp only [List.length_append]
          omega
        · split <;> simp only [List.length_append, List.length_cons, List.length_nil] <;> omega
      · have h4 := toVal_len (off := off) false (gen off b true ga.r)
        have h6 := len_bin o 1
        have h7 := len_bin o 3
        unfold rhsReg
        split <;> split <;> simp only [List.length_append, List.length_cons, List.length_nil] <;> omega

theorem val_len (e : E) (hs : Stat e) : (valB off (gen off e false false)).length ≤ 64 * size e + 12 := by
  have h1 := gen_len (off := off) e hs false false
  have h2 := toVal_len (off := off) false (gen off e false false)
  unfold valB
  split
  · split <;> simp only [List.length_append, List.length_cons, List.length_nil] <;> omega
  · omega

/-! ## From the text -/

/-- The compiler is inside of a function: the code that it emits can be reached, no value is in a register, it knows the identifiers `names`,
and it has room for the code of `e`. -/
structure Ready (s : S) (names : List (List Byte)) (e : E) : Prop where
  dead : s.dead = false
  spAdj : s.spAdj = 0
  push : s.push = false
  reg : s.regUse = false
  zf : s.lastZF ≤ s.code
  ge : codeStart ≤ s.code
  room : s.code + 64 * size e + 16 ≤ codeStart + outputMax
  ids : Ids s names
  buf : ∀ w ∈ names, s.idPos + w.length + 1 ≤ idBufferMax

/-- The emitted code is in the memory, at the addresses for which it has been emitted. -/
def Image (s s' : S) (c : Cpu) : Prop := ∀ a, s.code ≤ a → a < s'.code → rdb c.mem c.cs (BitVec.ofNat 16 a) = s'.out.get (a - codeStart)

/-- The processor in front of the code: the variables `xs` have the values `ρ`, there is room for `n` words on the stack above the code, which
ends at `top`. -/
structure Mach (off : Nat → Int) (ρ : Nat → Word) (xs : List Nat) (top n : Nat) (c : Cpu) : Prop where
  ss : c.ss = c.cs
  stack : top + 2 * n ≤ c.sp.toNat
  above : ∀ x ∈ xs, c.sp.toNat ≤ (c.bp + BitVec.ofInt 16 (off x)).toNat ∧ (c.bp + BitVec.ofInt 16 (off x)).toNat + 1 < 2 ^ 16
  vars : ∀ x ∈ xs, rdw c.mem c.ss (c.bp + BitVec.ofInt 16 (off x)) = ρ x

theorem Scan.at' {s0 : Base} {r : List Byte} {ts : List Tk} (h : Scan s0 r ts) (s : S) : Scan s0 ((at' s r).cur :: (at' s r).inp) ts := by
  cases r with
  | cons b r => exact h
  | nil =>
    cases h with
    | nil _ h => exact .nil _ h
    | cons _ r2 h2 hs2 => exact .cons _ r2 h2 hs2

/-- `GetToken`, `ParseExpr`. -/
theorem expr_done {s : S} {names : List (List Byte)} {e : E} {ts rest : List Tk} {text : List Byte} {t : Tk} (hy : Ready s names e) (hl : Locals off (Vars e) s)
    (hsh : Shows 10 e ts) (hsrc : Src names text (ts ++ t :: rest)) (ht : precComma < t.prec) (hn : NoPost t) (hs : Stat e) :
    ∃ s1 s2, getToken (at' s text) = .ok () s1 ∧ Go .expr s1 s2 ∧ Done off s (gen off e false false) s2 ∧ On (bas (at' s text)) s2 (t :: rest) ∧
      ∃ t0, Start (Vars e) t0 ∧ s1.tok = t0.tok := by
  have hsc := hsrc.scan (at' s text) hy.ids hy.buf
  obtain ⟨t0, us, rfl, hst⟩ := hsh.start (xs := Vars e) (fun x h => h)
  have hon : On (bas (at' s text)) (at' s text) (.sym s.tok s.prec :: t0 :: us ++ t :: rest) := ⟨⟨rfl, rfl, nofun⟩, hsc.at' s⟩
  obtain ⟨s1, e1, on1, tk1⟩ := On.next (ts := us ++ t :: rest) hon rfl
  have hlen := gen_len (off := off) e hs false false
  have hroom : ∀ n, n ≤ 64 * size e + 12 → Room s n := by
    intro n hn
    have h1 := hy.room
    have h2 := hy.ge
    unfold Room
    generalize codeStart = a, outputMax = b at *
    omega
  have hup : Up (Props.SccLex.at' s text) := ⟨hy.dead, hy.spAdj⟩
  have hup1 : Up s1 := hup.of tk1.core
  have hp1 : s1.push = false := tk1.push.trans hy.push
  have hr1 : s1.regUse = false := tk1.regUse.trans hy.reg
  have hl1 : Locals off (Vars e) s1 := Locals.of_core (s := s) hl (tk1.core.trans rfl)
  have hsc1 : ∀ l ts, Scan (bas (Props.SccLex.at' s text)) l ts → Scan (bas s1) l ts := by
    intro l ts h
    induction h with
    | nil r h => exact .nil r h
    | cons r r' h _ ih => exact .cons r r' (fun s hc => h s (hc.trans (ids_core tk1.core))) ih
  have hsc2 : ∀ l ts, Scan (bas s1) l ts → Scan (bas (Props.SccLex.at' s text)) l ts := by
    intro l ts h
    induction h with
    | nil r h => exact .nil r h
    | cons r r' h _ ih => exact .cons r r' (fun s hc => h s (hc.trans (ids_core tk1.core.symm))) ih
  obtain ⟨s2, g2, on2, d2⟩ := parse_expr s1 (Vars e) hl1 hup1 (by rw [tk1.lastZF, tk1.code]; exact hy.zf) .expr precComma (.inl ⟨rfl, rfl⟩) hsh
    (t := t) (rest := rest) ⟨on1.1, hsc1 _ _ on1.2⟩ ht hn hs (fun x h => h) (by rw [hp1, hr1]; exact tk1.room (hroom _ (by omega)))
  rw [hp1, hr1] at d2
  refine ⟨s1, s2, e1, g2, ?_, ⟨on2.1, hsc2 _ _ on2.2⟩, t0, hst, on1.1.tok⟩
  obtain ⟨⟨a, b, c, d, f⟩, g, h, i, j⟩ := d2
  have h1 : s1.code = s.code := tk1.code
  have h2 : s1.out = s.out := by rw [tk1]; rfl
  have h4 : SccGen.bal s1 = SccGen.bal s := by rw [tk1]; rfl
  rw [h1] at b c d f
  rw [h2] at f
  rw [hp1] at j
  refine ⟨⟨a.trans (tk1.core.trans rfl), b, c, d, f⟩, g, h.trans h4, i, ?_⟩
  rw [hy.push]; exact j

/-- `GetToken`, `ParseExpr`, `GetVal`. -/
theorem expr_text {s : S} {names : List (List Byte)} {e : E} {ts rest : List Tk} {text : List Byte} {t : Tk} (hy : Ready s names e) (hl : Locals off (Vars e) s)
    (hsh : Shows 10 e ts) (hsrc : Src names text (ts ++ t :: rest)) (ht : precComma < t.prec) (hn : NoPost t) (hs : Stat e) :
    ∃ s1 s2 s', getToken (at' s text) = .ok () s1 ∧ Go .expr s1 s2 ∧ getVal s2 = .ok () s' ∧ Got s (valB off (gen off e false false)) s' ∧
      s'.regUse = false ∧ On (bas (at' s text)) s' (t :: rest) ∧ ∃ t0, Start (Vars e) t0 ∧ s1.tok = t0.tok := by
  obtain ⟨s1, s2, e1, g2, d2, on2, hst⟩ := expr_done hy hl hsh hsrc ht hn hs
  have hroom : Room s (valB off (gen off e false false)).length := by
    have h1 := hy.room
    have h2 := hy.ge
    have hvl := val_len (off := off) e hs
    unfold Room
    generalize codeStart = a, outputMax = b at *
    omega
  obtain ⟨s', e', got, hr', ht'⟩ := d2.val ⟨hy.dead, hy.spAdj⟩ hy.push hroom
  exact ⟨s1, s2, s', e1, g2, e', got, hr'.trans (gen_r e), on2.of_tks ht', hst⟩

theorem codeAt_of (c : Cpu) : ∀ (bs : List Byte) (a : Nat), (∀ i (h : i < bs.length), rdb c.mem c.cs (BitVec.ofNat 16 (a + i)) = bs[i]) →
    c.codeAt (BitVec.ofNat 16 a) bs := by
  intro bs
  induction bs with
  | nil => intro a _; trivial
  | cons b bs ih =>
    intro a h
    refine ⟨?_, ?_⟩
    · rw [rd8_eq]; exact h 0 (by simp)
    · have := ih (a + 1) (fun i hi => by have := h (i + 1) (by simpa using hi); rw [show a + 1 + i = a + (i + 1) by omega]; simpa using this)
      rw [BitVec.ofNat_add] at this
      exact this

theorem Image.codeAt {s s' : S} {bs : List Byte} (h : Em s bs s') {c : Cpu} (hi : Image s s' c) : c.codeAt (BitVec.ofNat 16 s.code) bs := by
  refine codeAt_of c bs s.code fun i hlt => ?_
  rw [hi (s.code + i) (by omega) (by rw [h.code]; omega), h.new i hlt]

/-- The frame of the proof for a processor. -/
def Mach.fr {off : Nat → Int} {ρ : Nat → Word} {xs : List Nat} {top n : Nat} {c : Cpu} (h : Mach off ρ xs top n c) (K : Contract) : Fr where
  K := K
  sg := c.cs
  bp := c.bp
  L := c.sp.toNat - 2 * n
  T := c.sp.toNat
  off := off
  ρ := ρ
  xs := xs
  lt := Nat.sub_le _ _
  hT := c.sp.isLt
  above := h.above

theorem Mach.inv {off : Nat → Int} {ρ : Nat → Word} {xs : List Nat} {top n : Nat} {c : Cpu} (h : Mach off ρ xs top n c) (K : Contract) :
    Inv (h.fr K) false [] c where
  cs := rfl
  ss := h.ss
  bp := rfl
  vars := fun x hx => by have := h.vars x hx; rw [h.ss] at this; exact this
  stk := ⟨[], rfl, by show c.sp.toNat + 2 * 0 = c.sp.toNat; omega, fun i hi => absurd hi (by simp)⟩

end SccGen

namespace Props
open Prog Text Scc SccCode SccGen Props.SccLex I86
open I86.Cpu hiding lo hi rd

/-- **C43** (partial): Let the text after the current token be an expression over `int` constants and `int` variables on the stack, followed by
`;` or `)`.  The compiler reads exactly the expression, and the code that it appends computes, whatever the values of the variables are, the
value of the expression into AX; it leaves BP, SP and everything outside of the free stack as it was.

Partial: no `&&`, `||`, `?:`, `sizeof`, assignments, calls, other types than `int`.  `Stat` and `Dyn` exclude what the compiler refuses and
what it gets wrong (see the `C43_…_violated`). -/
theorem C43_expr_partial (s : S) (names : List (List Byte)) (off : Nat → Int) (e : E) (ts rest : List Tk) (text : List Byte) (t : Tk)
    (hy : Ready s names e) (hl : Locals off (Vars e) s) (hsh : Shows 10 e ts) (hsrc : Src names text (ts ++ t :: rest))
    (ht : t = .sym 0x3B precStop ∨ t = .sym 0x29 precStop) (hs : Stat e) :
    ∃ s', (∃ N, ∀ n, N ≤ n → (getToken >>= fun _ => go' (run n) .expr >>= fun _ => getVal) (at' s text) = .ok () s') ∧
      s'.tok = t.tok ∧ s'.type = vtInt ∧ s'.localOffset = s.localOffset ∧ s'.push = false ∧ s'.regUse = false ∧
      s.code ≤ s'.code ∧ (∀ j, j < s.code - codeStart → s'.out.get j = s.out.get j) ∧
      ∀ (K : Contract) (c : Cpu) (ρ : Nat → Word) (v : Word), c.ip = BitVec.ofNat 16 s.code → Image s s' c → Mach off ρ (Vars e) s'.code (nest e) c →
        Dyn K.incDecFlags ρ e → ev ρ e = some v →
        Reach K c fun c' => c'.ip = BitVec.ofNat 16 s'.code ∧ c'.ax = v ∧ c'.sp = c.sp ∧ c'.bp = c.bp ∧ c'.cs = c.cs ∧ c'.ss = c.ss ∧
          ∀ o : Word, o.toNat < s'.code ∨ c.sp.toNat ≤ o.toNat → rdb c'.mem c.cs o = rdb c.mem c.cs o := by
  have htp : precComma < t.prec ∧ NoPost t := by
    obtain rfl | rfl := ht
    · exact ⟨by decide, .inr (by decide)⟩
    · exact ⟨by decide, .inr (by decide)⟩
  obtain ⟨s1, s2, s', e1, ⟨N, g2⟩, e', got, hr, hon, _⟩ := expr_text hy hl hsh hsrc htp.1 htp.2 hs
  have hcode := got.em.code
  refine ⟨s', ⟨N, fun n hn => run_bind e1 (run_bind (g2 n hn) e')⟩, hon.1.tok, got.type, ?_, got.push, hr, by omega, got.em.old, ?_⟩
  · have := got.bal
    unfold SccGen.bal at this
    rw [hr, got.push, hy.reg, hy.push] at this
    simpa using this
  · intro K c ρ v hip him hm hd hv
    have hst := hm.stack
    have hx := exec_val (hm.fr K) e c v hs hd (fun x h => h) hv (hm.inv K) (by show c.sp.toNat - 2 * nest e + 2 * nest e ≤ c.sp.toNat; omega)
    have hc1 : s'.code < 2 ^ 16 := by have := c.sp.isLt; omega
    have hci : c.ip.toNat = s.code := by rw [hip, BitVec.toNat_ofNat, Nat.mod_eq_of_lt (by omega)]
    refine (hx (by rw [hip]; exact him.codeAt got.em) (by show c.ip.toNat + _ ≤ c.sp.toNat - 2 * nest e; rw [hci]; simp only [Mach.fr]; omega)).mono ?_
    rintro c' ⟨h1, h2, h3, h4⟩
    refine ⟨?_, h4, ?_, h3.bp, h3.cs, h3.ss.trans hm.ss.symm, fun o ho => h2 o ?_⟩
    · have := congrArg (BitVec.ofNat 16) hcode
      rw [BitVec.ofNat_add] at this
      rw [h1, hip]; exact this.symm
    · obtain ⟨m, hm1, hm2⟩ := h3.stk
      obtain rfl : m = [] := by cases m with | nil => rfl | cons a m => cases hm1
      exact BitVec.eq_of_toNat_eq hm2.sp
    · show o.toNat < c.sp.toNat - 2 * nest e ∨ c.sp.toNat ≤ o.toNat
      omega

/-- **C43** (partial): the same for the statement `return e;` in a function whose only variables are its parameters: the processor returns to
the caller with the value of the expression in AX and the caller's BP. -/
theorem C43_return_partial (s : S) (names : List (List Byte)) (off : Nat → Int) (e : E) (ts : List Tk) (text : List Byte) (u : Tk)
    (hy : Ready s names e) (h0 : s.localOffset = 0) (hl : Locals off (Vars e) s) (hsh : Shows 10 e ts)
    (hsrc : Src names text (ts ++ [.sym 0x3B precStop, u])) (hs : Stat e) :
    ∃ s', (∃ N, ∀ n, N ≤ n → parseReturn (run n) (at' s text) = .ok () s') ∧ s'.tok = u.tok ∧ s'.dead = true ∧ s'.localOffset = 0 ∧
      s.code ≤ s'.code ∧ (∀ j, j < s.code - codeStart → s'.out.get j = s.out.get j) ∧
      ∀ (K : Contract) (c : Cpu) (ρ : Nat → Word) (v : Word), c.ip = BitVec.ofNat 16 s.code → Image s s' c → Mach off ρ (Vars e) s'.code (nest e) c →
        c.sp.toNat + 3 < 2 ^ 16 → Dyn K.incDecFlags ρ e → ev ρ e = some v →
        Reach K c fun c' => c'.ax = v ∧ c'.bp = rdw c.mem c.ss c.sp ∧ c'.ip = rdw c.mem c.ss (c.sp + 2) ∧ c'.sp = c.sp + 4 ∧
          c'.cs = c.cs ∧ c'.ss = c.ss ∧ ∀ o : Word, o.toNat < s'.code ∨ c.sp.toNat ≤ o.toNat → rdb c'.mem c.cs o = rdb c.mem c.cs o := by
  obtain ⟨s1, s2, s3, e1, ⟨N, g2⟩, e3, got, hr, hon, t0, hst, htok⟩ := expr_text hy hl hsh hsrc (by decide) (.inr (by decide)) hs
  have hcode := got.em.code
  have hlo : s3.localOffset = 0 := by
    have := got.bal
    unfold SccGen.bal at this
    rw [hr, got.push, hy.reg, hy.push, h0] at this
    simpa using this
  have hroom : Room s3 2 := by
    have h1 := hy.room
    have h2 := hy.ge
    have h3 := val_len (off := off) e hs
    unfold Room
    rw [hcode]
    generalize codeStart = a, outputMax = b at *
    omega
  have hup : Up s3 := Up.of (s := s) ⟨hy.dead, hy.spAdj⟩ got.em.fr
  have hw := put_wrote [0x5D, 0xC3] s3 hroom
  have hem := Em.of_wrote (s := s3) hw rfl rfl rfl hroom.1
  have hall := got.em.trans hem
  have hne : s1.tok ≠ 0x3B := by
    rw [htok]
    obtain ⟨v, rfl⟩ | ⟨x, hx, rfl⟩ | rfl | ⟨o, rfl⟩ := hst
    · show tokNum ≠ 0x3B; decide
    · show x + 150 ≠ 0x3B; omega
    · decide
    · cases o <;> decide
  have on4 : On (bas (at' s text)) (put s3 [0x5D, 0xC3]) [.sym 0x3B precStop, u] := hon.of_tks (by rw [put_eq]; rfl)
  have on4' : On (bas (at' s text)) { put s3 [0x5D, 0xC3] with dead := true } [.sym 0x3B precStop, u] := on4.of_tks rfl
  obtain ⟨s5, e5, on5, tk5⟩ := on4'.next' (show ids (put s3 [0x5D, 0xC3]) = ids (at' s text) from ids_core hall.fr)
  have hc5 : s5.code = s.code + (valB off (gen off e false false) ++ [0x5D, 0xC3]).length := tk5.code.trans hall.code
  have ho5 : s5.out = (put s3 [0x5D, 0xC3]).out := by rw [tk5]
  have hl5 : s5.localOffset = 0 := by rw [tk5]; show (put s3 [0x5D, 0xC3]).localOffset = 0; rw [put_eq]; exact hlo
  refine ⟨s5, ⟨N, fun n hn => ?_⟩, on5.1.tok, by rw [tk5], hl5, by omega, by rw [ho5]; exact hall.old, ?_⟩
  · refine run_bind e1 (run_getS (run_pos hne (run_bind (g2 n hn) (run_bind e3 (run_getS (run_neg (not_not.2 hlo) ?_))))))
    refine run_bind ((hup.live got.push).out_put hroom) (run_modS (run_getS (run_neg (not_not.2 on4.1.tok) e5)))
  · intro K c ρ v hip him hm hsp hd hv
    have hst := hm.stack
    have hx := exec_val (hm.fr K) e c v hs hd (fun x h => h) hv (hm.inv K) (by show c.sp.toNat - 2 * nest e + 2 * nest e ≤ c.sp.toNat; omega)
    have hc1 : s5.code < 2 ^ 16 := by have := c.sp.isLt; omega
    have hci : c.ip.toNat = s.code := by rw [hip, BitVec.toNat_ofNat, Nat.mod_eq_of_lt (by omega)]
    have him' : c.codeAt c.ip (valB off (gen off e false false) ++ [0x5D, 0xC3]) := by
      rw [hip]
      refine codeAt_of c _ s.code fun i hi => ?_
      rw [him (s.code + i) (by omega) (by omega), ho5, hall.new i hi]
    rw [codeAt_append] at him'
    have hlen := List.length_append (as := valB off (gen off e false false)) (bs := [(0x5D : Byte), 0xC3])
    simp only [List.length_cons, List.length_nil] at hlen
    refine (hx him'.1 (by show c.ip.toNat + _ ≤ c.sp.toNat - 2 * nest e; rw [hci]; simp only [Mach.fr]; omega)).trans ?_
    rintro c' ⟨h1, h2, h3, h4⟩
    have hkeep : ∀ o : Word, o.toNat < s5.code ∨ c.sp.toNat ≤ o.toNat → rdb c'.mem c.cs o = rdb c.mem c.cs o :=
      fun o ho => h2 o (by show o.toNat < c.sp.toNat - 2 * nest e ∨ c.sp.toNat ≤ o.toNat; omega)
    have hsp' : c'.sp = c.sp := by
      obtain ⟨m, hm1, hm2⟩ := h3.stk
      obtain rfl : m = [] := by cases m with | nil => rfl | cons a m => cases hm1
      exact BitVec.eq_of_toNat_eq hm2.sp
    have hcs' : c'.cs = c.cs := h3.cs
    have hss' : c'.ss = c.ss := h3.ss.trans hm.ss.symm
    have hcode' : c'.codeAt c'.ip [0x5D, 0xC3] := by
      rw [h1]
      refine codeAt_congr (c := c) hcs' (fun i hi => ?_) him'.2
      rw [rd8_eq, rd8_eq]
      refine hkeep _ (.inl ?_)
      show (c.ip + BitVec.ofNat 16 (valB off (gen off e false false)).length + BitVec.ofNat 16 i).toNat < s5.code
      simp only [List.length_cons, List.length_nil] at hi
      rw [BitVec.toNat_add, BitVec.toNat_add, BitVec.toNat_ofNat, BitVec.toNat_ofNat, hci]
      omega
    have r1 : rdw c'.mem c'.ss c'.sp = rdw c.mem c.ss c.sp := by
      rw [hss', hsp', hm.ss]
      exact h2.rdw (Nat.le_refl _) (by omega)
    have r2 : rdw c'.mem c'.ss (c'.sp + 2) = rdw c.mem c.ss (c.sp + 2) := by
      have e2 : (c.sp + 2).toNat = c.sp.toNat + 2 := by rw [BitVec.toNat_add]; simp; omega
      rw [hss', hsp', hm.ss]
      exact h2.rdw (by show c.sp.toNat ≤ _; omega) (by omega)
    refine .step (c1 := { c' with ip := c'.ip + 1, sp := c'.sp + 2, bp := rdw c'.mem c'.ss c'.sp }) ?_ (.step
      (c1 := { c' with ip := rdw c'.mem c'.ss (c'.sp + 2), sp := c'.sp + 2 + 2, bp := rdw c'.mem c'.ss c'.sp }) ?_ (.done ⟨h4, r1, r2, ?_, hcs', hss', hkeep⟩))
    · refine (step_enc (i := .pop 5) (bytes := [0x5D]) ⟨by simp, fun _ => rfl⟩ ⟨hcode'.1, trivial⟩).trans ?_
      simp only [Cpu.exec, Cpu.pop, rd16_eq, setReg16]
      rfl
    · refine (step_enc (i := .ret) (bytes := [0xC3]) ⟨by simp, fun _ => rfl⟩ ⟨hcode'.2.1, trivial⟩).trans ?_
      simp only [Cpu.exec, Cpu.pop, rd16_eq]
    · show c'.sp + 2 + 2 = c.sp + 4
      rw [hsp', BitVec.add_assoc]; rfl

end Props
