import Verif.Props.SccGenEx
import Verif.Props.SccJump
/-!
# Conditions (C42): the flags which a conditional jump looks at
-/
namespace SccGen
open Prog Text Scc SccCode Props.SccLex Props.SccIds I86
open I86.Cpu hiding lo hi rd

variable {off : Nat → Int}

/-! ## The test -/

/-- The code for a value that is tested, and the condition for a jump if it is not zero. -/
def testB (off : Nat → Int) (g : G) : List Byte :=
  match (toReg off false g).kd with
  | .reg skip => (toReg off false g).bs ++ if skip then [] else [0x21, 0xC0]
  | _ => (toReg off false g).bs

def testCC (off : Nat → Int) (g : G) : Nat :=
  match (toReg off false g).kd with
  | .flag cc => cc
  | _ => 5

/-- `if (CurrentType != VT_BOOL) ToBool();` -/
theorem Done.test {s s1 : S} {g : G} (h : Done off s g s1) (hu : Up s) (hp : s.push = false) (hl : ∀ v, g.kd ≠ .lit v)
    (hr : Room s (testB off g).length) :
    ∃ s2, (∀ {β : Type} (k : Unit → A β), (if s1.type ≠ vtBool then toBool >>= k else pure () >>= k) s1 = k () s2) ∧
      Done off s ⟨testB off g, .flag (testCC off g), g.r⟩ s2 ∧ tks s2 = tks s1 := by
  have hle : (SccGen.toReg off s.push g).bs.length ≤ (testB off g).length := by
    rw [hp]; unfold testB; split
    · simp
    · exact Nat.le_refl _
  obtain ⟨s2, e2, hd, ht⟩ := h.toReg hu (room_le hr hle)
  have hrr : (SccGen.toReg off false g).r = g.r := toReg_r g
  rw [hp] at hd
  have hv := toReg_notvar (off := off) false g
  have hll : ∀ y, (SccGen.toReg off false g).kd ≠ .lit y := fun y e => hl y ((toReg_kd off false g).2.1 y e)
  by_cases hb : s1.type = vtBool
  · have hf : ∃ cc, g.kd = .flag cc := by
      have hkd := h.kd
      cases hk : g.kd with
      | lit v => exact absurd hk (hl v)
      | var x => rw [hk] at hkd; exact absurd (hkd.1.symm.trans hb) (by decide)
      | reg sk => rw [hk] at hkd; exact absurd (hkd.1.symm.trans hb) (by decide)
      | flag cc => exact ⟨cc, rfl⟩
    obtain ⟨cc, hk⟩ := hf
    refine ⟨s1, fun k => run_neg (not_not.2 hb) rfl, ?_, rfl⟩
    have e1 : testB off g = g.bs := by simp only [testB, SccGen.toReg, hk]
    have e2 : testCC off g = cc := by simp only [testCC, SccGen.toReg, hk]
    rw [e1, e2]
    obtain ⟨bs, kd, r⟩ := g
    cases hk
    exact h
  · have hne : ∀ cc, g.kd ≠ .flag cc := by
      intro cc hk
      have hkd := h.kd
      rw [hk] at hkd
      exact hb hkd.1
    cases hk : (SccGen.toReg off false g).kd with
    | lit y => exact absurd hk (hll y)
    | var x => exact absurd hk (hv x)
    | flag cc => exact absurd ((toReg_kd off false g).2.2 cc hk) (hne cc)
    | reg skip =>
      have hkd := hd.kd
      rw [hk] at hkd
      have e1 : testB off g = (SccGen.toReg off false g).bs ++ if skip then [] else [0x21, 0xC0] := by simp only [testB, hk]
      have e3 : testCC off g = 5 := by simp only [testCC, hk]
      rw [e1] at hr
      rw [e1, e3, ← hrr]
      cases skip with
      | true =>
        refine ⟨{ s2 with type := vtBool, val := jNZ }, fun k => ?_, ⟨?_, hd.reg, hd.bal, hd.zf, rfl, rfl, hkd.2.1⟩, congrArg Prod.fst ht⟩
        · refine run_pos hb (run_bind (a := ()) (run_bind e2 (run_getS (run_neg (fun hn => hn (hkd.2.2.1 rfl).symm) rfl))) rfl)
        · rw [if_pos rfl, List.append_nil]
          exact ⟨hd.em.fr, hd.em.ge, hd.em.code, hd.em.new, hd.em.old⟩
      | false =>
        obtain ⟨s3, e3, hw, hem, hlt⟩ := hd.out hu hkd.2.1 [0x21, 0xC0] (by simp) hr
        obtain ⟨out, rfl, _⟩ := hw
        refine ⟨{ s2 with out := out, code := s2.code + [(0x21 : Byte), 0xC0].length, type := vtBool, val := jNZ }, fun k => ?_,
          ⟨?_, hd.reg, hd.bal, Nat.le_of_lt hlt, rfl, rfl, hkd.2.1⟩, congrArg Prod.fst ht⟩
        · exact run_pos hb (run_bind (a := ()) (run_bind e2 (run_getS (run_pos (fun he => absurd (hkd.2.2.2 he.symm) (by decide)) (run_bind e3 rfl)))) rfl)
        · exact ⟨hem.fr, hem.ge, hem.code, hem.new, hem.old⟩

/-- The test is that of the operator `!`. -/
theorem gen_not (e : E) (h : cst e = none) (hl : ∀ y, (gen off e false false).kd ≠ .lit y) :
    gen off (.un .not e) false false = ⟨testB off (gen off e false false), .flag (testCC off (gen off e false false) ^^^ 1), false⟩ := by
  have hv := toReg_notvar (off := off) false (gen off e false false)
  have hll : ∀ y, (SccGen.toReg off false (gen off e false false)).kd ≠ .lit y := fun y e' => hl y ((toReg_kd off false _).2.1 y e')
  have hr := (toReg_r (off := off) (gen off e false false)).trans (gen_r (off := off) e)
  simp only [gen, h, genUn, testB, testCC]
  cases hk : (SccGen.toReg off false (gen off e false false)).kd with
  | lit y => exact absurd hk (hll y)
  | var x => exact absurd hk (hv x)
  | reg skip => simp only [hr]; rfl
  | flag cc => simp only [hr]

/-- After the code for the test the condition holds if and only if the value is not zero. -/
theorem exec_test (F : Fr) (e : E) (c : Cpu) (v : Word) (hs : Stat e) (hc : cst e = none) (hd : Dyn F.K.incDecFlags F.ρ e)
    (hz : ZfOk F.K.incDecFlags e) (hx : ∀ x ∈ Vars e, x ∈ F.xs) (hv : ev F.ρ e = some v) (hi : Inv F false [] c) (hl : F.L + 2 * nest e ≤ F.T) :
    testCC F.off (gen F.off e false false) < 16 ∧ Ex F c (testB F.off (gen F.off e false false)) fun c' => Inv F false [] c' ∧
      c'.cond (Fin.ofNat 16 (testCC F.off (gen F.off e false false))) = some (v != 0) := by
  have hg := exec_gen (.un .not e) false false [] c (b2w (v == 0)) ⟨hs, fun h => by simp at h, by rw [hc]; nofun⟩ ⟨hd, fun _ _ => hz⟩ hx
    (by rw [ev, hv]; rfl) hi (by simpa [nest] using hl)
  rw [gen_not e hc ((gen_kd F.off e false false hs).1 hc)] at hg
  generalize testCC F.off (gen F.off e false false) = cc at *
  simp only [Good] at hg
  obtain ⟨hcc, hg⟩ := hg
  have hcc' : cc < 16 := by
    have := Nat.xor_lt_two_pow (n := 4) hcc (by decide : 1 < 2 ^ 4)
    rwa [Nat.xor_assoc, Nat.xor_self, Nat.xor_zero] at this
  refine ⟨hcc', hg.mono fun c' ⟨h1, b, hb, hbv⟩ => ⟨h1, ?_⟩⟩
  have e1 : Fin.ofNat 16 (cc ^^^ 1) = Fin.ofNat 16 cc ^^^ 1 := by
    apply Fin.ext
    rw [xor_val, Fin.val_ofNat, Fin.val_ofNat, Nat.mod_eq_of_lt hcc, Nat.mod_eq_of_lt hcc']
  rw [e1, cond_xor] at hb
  cases hcd : c'.cond (Fin.ofNat 16 cc) with
  | none => rw [hcd] at hb; cases hb
  | some b' =>
    rw [hcd] at hb
    cases hb
    congr 1
    have : (v == 0) = !b' := by
      revert hbv
      cases v == 0 <;> cases b' <;> decide
    rw [bne, this]; simp

theorem test_len (e : E) (hs : Stat e) : (testB off (gen off e false false)).length ≤ 64 * size e + 8 := by
  have h1 := gen_len (off := off) e hs false false
  have h2 := toReg_len (off := off) false (gen off e false false)
  unfold testB
  split
  · split <;> simp only [List.length_append, List.length_cons, List.length_nil] <;> omega
  · omega

end SccGen

namespace Props
open Prog Text Scc SccCode SccGen SccJump Props.SccLex I86
open I86.Cpu hiding lo hi rd

/-- **C42** (partial): Let the text after the current token be an expression over `int` constants and `int` variables on the stack, not a
constant, followed by `)` or `;`, as in the condition of `if`, `while` and `for`.  The code for the jump to the label `l`, which is to be taken
if the condition is false, ends with a conditional jump over the place of a jump to the label (its last 3 bytes).  Whatever the values of the
variables are, the processor goes over it if the value is not zero, and to it if the value is zero, also where the compiler relies on the
flags of the last operation.

Partial: the expressions of C43; `ZfOk` excludes the operators after which the compiler wrongly relies on the flags (see the
`C42_…_violated`). -/
theorem C42_condition_partial (s : S) (names : List (List Byte)) (off : Nat → Int) (e : E) (ts rest : List Tk) (text : List Byte) (t : Tk) (l : Nat)
    (hy : Ready s names e) (hlo : Locals off (Vars e) s) (hsh : Shows 10 e ts) (hsrc : Src names text (ts ++ t :: rest))
    (ht : t = .sym 0x3B precStop ∨ t = .sym 0x29 precStop) (hs : Stat e) (hc : cst e = none)
    (hl : l < s.labelCount) (hm : s.labelCount ≤ labelMax) (ha : (s.labels.get l).addr = 0) :
    ∃ s', (∃ N, ∀ n, N ≤ n → (getToken >>= fun _ => doCond (run n) l true) (at' s text) = .ok () s') ∧
      s'.tok = t.tok ∧ s'.localOffset = s.localOffset ∧ s'.push = false ∧ s'.regUse = false ∧ s'.dead = false ∧
      s.code + 5 ≤ s'.code ∧ (∀ j, j < s.code - codeStart → s'.out.get j = s.out.get j) ∧
      s'.labels.get l = ⟨0, s'.code - 2⟩ ∧ s'.out.get (s'.code - 3 - codeStart) = 0 ∧
      ∀ (K : Contract) (c : Cpu) (ρ : Nat → Word) (v : Word), c.ip = BitVec.ofNat 16 s.code →
        (∀ a, s.code ≤ a → a + 3 < s'.code → rdb c.mem c.cs (BitVec.ofNat 16 a) = s'.out.get (a - codeStart)) →
        Mach off ρ (Vars e) s'.code (nest e) c → Dyn K.incDecFlags ρ e → ZfOk K.incDecFlags e → ev ρ e = some v →
        Reach K c fun c' => c'.ip = BitVec.ofNat 16 (if v = 0 then s'.code - 3 else s'.code) ∧ c'.sp = c.sp ∧ c'.bp = c.bp ∧ c'.cs = c.cs ∧
          c'.ss = c.ss ∧ ∀ o : Word, o.toNat < s'.code ∨ c.sp.toNat ≤ o.toNat → rdb c'.mem c.cs o = rdb c.mem c.cs o := by
  have htp : precComma < t.prec ∧ NoPost t := by
    obtain rfl | rfl := ht
    · exact ⟨by decide, .inr (by decide)⟩
    · exact ⟨by decide, .inr (by decide)⟩
  obtain ⟨s1, s2, e1, ⟨N, g2⟩, hd, hon, _⟩ := expr_done hy hlo hsh hsrc htp.1 htp.2 hs
  have hnl := (gen_kd off e false false hs).1 hc
  have hup : Up s := ⟨hy.dead, hy.spAdj⟩
  have htl := test_len (off := off) e hs
  have hroom : ∀ n, n ≤ 64 * size e + 16 → Room s n := by
    intro n hn
    have h1 := hy.room
    have h2 := hy.ge
    unfold Room
    generalize codeStart = a, outputMax = b at *
    omega
  obtain ⟨s3, e3, hd3, ht3⟩ := hd.test hup hy.push hnl (hroom _ (by omega))
  have hg := gen_r (off := off) e
  generalize hgen : gen off e false false = g at *
  generalize hB : testB off g = B at *
  generalize hC : testCC off g = cc at *
  have hcode : s3.code = s.code + B.length := hd3.em.code
  have hkd : s3.type = vtBool ∧ s3.val = cc ∧ s3.push = false := hd3.kd
  have hlive : Live s3 := (hup.of hd3.em.fr).live hkd.2.2
  have hr3 : Room s3 5 := hd3.em.room (hroom _ (by show B.length + 5 ≤ _; omega))
  have hlc : s3.labelCount = s.labelCount := show (core s3).labelCount = (core s).labelCount by rw [hd3.em.fr]
  have hlb : s3.labels = s.labels := show (core s3).labels = (core s).labels by rw [hd3.em.fr]
  have ej := jcc_new hlive (cc ^^^ 1) l (by rw [hlc]; exact hl) (by rw [hlc]; exact hm) (by rw [hlb]; exact ha) hr3
  have hxor : cc ^^^ 1 ^^^ 1 = cc := by rw [Nat.xor_assoc, Nat.xor_self, Nat.xor_zero]
  rw [hxor] at ej
  generalize hbs : [nb (0x70 ||| cc), 3, 0, Scc.lo (s3.labels.get l).ref, Scc.hi (s3.labels.get l).ref] = bs at *
  have hlen : bs.length = 5 := by rw [← hbs]; rfl
  have hput := put_wrote bs s3 (by rw [hlen]; exact hr3)
  have hem : Em s (B ++ bs) (put s3 bs) := hd3.em.trans (Em.of_wrote (s := s3) hput rfl rfl rfl hr3.1)
  have hout : (jumped s3 l bs).out = (put s3 bs).out := by rw [put_eq]; rfl
  have hco : (jumped s3 l bs).code = s.code + B.length + 5 := by show s3.code + bs.length = _; rw [hlen, hcode]
  have hge : codeStart ≤ s.code := hy.ge
  have hlit : s2.type ≠ vtLocLit ||| vtInt := by
    have hk := hd.kd
    cases hgk : g.kd with
    | lit v => exact absurd hgk (hnl v)
    | var x => rw [hgk] at hk; rw [hk.1]; decide
    | reg sk => rw [hgk] at hk; rw [hk.1]; decide
    | flag f => rw [hgk] at hk; rw [hk.1]; decide
  refine ⟨jumped s3 l bs, ⟨N, fun n hn => run_bind e1 (run_bind (g2 n hn) ?_)⟩, ?_, ?_, hkd.2.2, hd3.reg.trans hg, hlive.dead, by omega, ?_, ?_, ?_, ?_⟩
  · refine run_getS (run_neg hlit ((e3 _).trans (run_getS ?_)))
    have : s3.val.toNat ^^^ (if (true : Bool) = true then 1 else 0) = cc ^^^ 1 := by rw [hkd.2.1]; rfl
    rw [this]; exact ej
  · have := (hon.of_tks ht3).1.tok
    exact this
  · have hb := hd3.bal
    unfold SccGen.bal at hb
    rw [hd3.reg, hg, hkd.2.2, hy.reg, hy.push] at hb
    show s3.localOffset = _
    simpa using hb
  · intro j hj
    rw [hout]
    exact hem.old j hj
  · show (s3.labels.set l _).get l = _
    rw [Tab.get_set_self, hlb, ha]
    rfl
  · rw [hout, hco]
    have := hem.new (B.length + 2) (by rw [List.length_append]; omega)
    rw [show s.code + B.length + 5 - 3 - codeStart = s.code + (B.length + 2) - codeStart by omega, this]
    simp [← hbs]
  · intro K c ρ v hip him hma hdy hz hv
    have hst := hma.stack
    have hc1 : (jumped s3 l bs).code < 2 ^ 16 := by have := c.sp.isLt; omega
    have hci : c.ip.toNat = s.code := by rw [hip, BitVec.toNat_ofNat, Nat.mod_eq_of_lt (by omega)]
    have hx := exec_test (hma.fr K) e c v hs hc hdy hz (fun x h => h) hv (hma.inv K) (by show c.sp.toNat - 2 * nest e + 2 * nest e ≤ c.sp.toNat; omega)
    simp only [Mach.fr, hgen, hB, hC] at hx
    obtain ⟨hcc, hx⟩ := hx
    have hnew : ∀ i (h : i < B.length + 2), rdb c.mem c.cs (BitVec.ofNat 16 (s.code + i)) = (B ++ [nb (0x70 ||| cc), 3])[i]'(by simp; omega) := by
      intro i h
      rw [him (s.code + i) (by omega) (by omega), hout, hem.new i (by rw [List.length_append]; omega)]
      have e : B ++ bs = (B ++ [nb (0x70 ||| cc), 3]) ++ [0, Scc.lo (s3.labels.get l).ref, Scc.hi (s3.labels.get l).ref] := by rw [← hbs]; simp
      simp only [e]
      rw [List.getElem_append_left]
    have him' : c.codeAt c.ip (B ++ [nb (0x70 ||| cc), 3]) := by
      rw [hip]
      exact codeAt_of c _ s.code fun i hi => hnew i (by simpa using hi)
    rw [codeAt_append] at him'
    refine (hx him'.1 (by show c.ip.toNat + _ ≤ c.sp.toNat - 2 * nest e; rw [hci]; omega)).trans ?_
    rintro c' ⟨h1, h2, h3, h4⟩
    have hkeep : ∀ o : Word, o.toNat < (jumped s3 l bs).code ∨ c.sp.toNat ≤ o.toNat → rdb c'.mem c.cs o = rdb c.mem c.cs o :=
      fun o ho => h2 o (by show o.toNat < c.sp.toNat - 2 * nest e ∨ c.sp.toNat ≤ o.toNat; omega)
    have hsp' : c'.sp = c.sp := by
      obtain ⟨m, hm1, hm2⟩ := h3.stk
      obtain rfl : m = [] := by cases m with | nil => rfl | cons a m => cases hm1
      exact BitVec.eq_of_toNat_eq hm2.sp
    have hcs' : c'.cs = c.cs := h3.cs
    have hss' : c'.ss = c.ss := h3.ss.trans hma.ss.symm
    have hcode' : c'.codeAt c'.ip [nb (0x70 ||| cc), 3] := by
      rw [h1]
      refine codeAt_congr (c := c) hcs' (fun i hi => ?_) him'.2
      rw [rd8_eq, rd8_eq]
      refine hkeep _ (.inl ?_)
      simp only [List.length_cons, List.length_nil] at hi
      show (c.ip + BitVec.ofNat 16 B.length + BitVec.ofNat 16 i).toNat < _
      rw [BitVec.toNat_add, BitVec.toNat_add, BitVec.toNat_ofNat, BitVec.toNat_ofNat, hci]
      omega
    have hj := enc_jcc (Fin.ofNat 16 cc) 3
    rw [Fin.val_ofNat, Nat.mod_eq_of_lt hcc] at hj
    have hst2 := step_enc (K := K) hj hcode'
    have hcd : ∀ n, cond { c' with ip := n } (Fin.ofNat 16 cc) = some (v != 0) := fun n => (cond_congr (c := c') rfl rfl rfl rfl _).trans h4
    rw [exec_jcc, hcd, jumpIf_some] at hst2
    have hb : c'.ip = BitVec.ofNat 16 (s.code + B.length) := by rw [h1, hip, BitVec.ofNat_add]
    by_cases hv0 : v = 0
    · subst hv0
      refine .step hst2 (.done ⟨?_, hsp', h3.bp, hcs', hss', hkeep⟩)
      rw [if_pos rfl, hco]
      simp only [bne_self_eq_false, Bool.false_eq_true, if_false, hb, List.length_cons, List.length_nil]
      rw [← BitVec.ofNat_add]
      rfl
    · have hv1 : (v != 0) = true := by simpa using hv0
      rw [hv1] at hst2
      refine .step hst2 (.done ⟨?_, hsp', h3.bp, hcs', hss', hkeep⟩)
      rw [if_neg hv0, hco]
      simp only [if_true, hb, List.length_cons, List.length_nil]
      rw [← BitVec.ofNat_add]
      show BitVec.ofNat 16 _ + BitVec.ofNat 16 3 = _
      rw [← BitVec.ofNat_add]

/-- `for(; a*b-(3+a)/2; …)` with `a = 5`, `b = 7`: the processor goes on behind the jump to the end of the loop. -/
example : ∃ s', (∃ N, ∀ n, N ≤ n → (getToken >>= fun _ => doCond (run n) 0 true) (at' exS exText) = .ok () s') ∧
    ∀ (K : Contract) (c : Cpu), c.ip = 0x200 → (∀ a, 0x200 ≤ a → a + 3 < s'.code → rdb c.mem c.cs (BitVec.ofNat 16 a) = s'.out.get (a - codeStart)) →
      Mach exOff exρ (Vars exE) s'.code (nest exE) c → Reach K c fun c' => c'.ip = BitVec.ofNat 16 s'.code ∧ c'.sp = c.sp := by
  obtain ⟨s', h1, _, _, _, _, _, _, _, _, _, h2⟩ := C42_condition_partial exS exNames exOff exE exTs [.sym 0x7D precStop] exText (.sym 0x3B precStop) 0 exReady
    exLocals exShows exSrc (.inl rfl) exStat rfl (by decide) (by decide) (by decide +kernel)
  refine ⟨s', h1, fun K c hip hi hm => ?_⟩
  exact (h2 K c exρ 31 hip hi hm (exDyn _).1 (.inr (.inr (.inr (.inr (.inl ⟨rfl, nofun⟩))))) (exDyn true).2).mono fun c' h => ⟨h.1, h.2.1⟩

end Props
