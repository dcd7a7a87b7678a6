import Verif.Props.SccStmFun
import Verif.Props.SccStmExec
/-!
# Compiled functions (C49): what a call does
-/
namespace SccStm
open Scc SccCode SccGen SccJump SccFix SccLayout I86
open I86.Cpu hiding lo hi rd
open World (Path PE PC Calls stackFor)

theorem path_snoc {cs : List Chunk} {it : Item} {n : Nat} : ∀ {its : List Item} {p q : Nat}, Path cs p its q → ⟨it, q, n⟩ ∈ cs → Path cs p (its ++ [it]) (q + n) := by
  intro its p q h hm
  induction h with
  | nil p => exact .cons hm (.nil _)
  | cons h _ ih => exact .cons h (ih hm)

/-- Chunks that lie one behind the other are along a path. -/
theorem path_of {a e : Nat} : ∀ {cs all : List Chunk} {its : List Item}, Tile a cs e → (∀ c ∈ cs, c ∈ all) → cs.map Chunk.item = its.reverse → Path all a its e := by
  intro cs
  induction cs generalizing e with
  | nil =>
    intro all its h _ hi
    have : its = [] := by simpa using hi.symm
    subst this
    rw [show e = a from h]
    exact .nil a
  | cons c cs ih =>
    intro all its h hs hi
    obtain ⟨h1, h2⟩ := h
    have e1 : its = (cs.map Chunk.item).reverse ++ [c.item] := by
      rw [← List.reverse_reverse its, ← hi, List.map_cons, List.reverse_cons]
    rw [e1, h1]
    exact path_snoc (ih h2 (fun d hd => hs d (List.mem_cons_of_mem _ hd)) (by rw [List.reverse_reverse])) (hs c (List.mem_cons_self ..))

theorem push_bp_step {m : Mem 15} {p : Nat} (h0 : B m p = 0x55) (K : Contract) {c : Cpu} (hip : c.ip = BitVec.ofNat 16 p) (hi : Img m c p (p + 1)) :
    c.step K = .next { c with ip := BitVec.ofNat 16 (p + 1), sp := c.sp - 2, mem := wrw c.mem c.ss (c.sp - 2) c.bp } := by
  have hc : c.codeAt c.ip [0x55] := by
    rw [hip]
    refine hi.codeAt _ (by simp) fun i hi => ?_
    match i, hi with
    | 0, _ => exact h0
  refine (step_enc (i := .push 5) (bytes := [0x55]) ⟨by simp, fun _ => rfl⟩ hc).trans ?_
  simp only [Cpu.exec, Cpu.push, reg16, wr16_eq, hip, ofNat_add']
  rfl

theorem mov_bp_step {m : Mem 15} {p : Nat} (h0 : B m p = 0x89) (h1 : B m (p + 1) = 0xE5) (K : Contract) {c : Cpu} (hip : c.ip = BitVec.ofNat 16 p) (hi : Img m c p (p + 2)) :
    c.step K = .next { c with ip := BitVec.ofNat 16 (p + 2), bp := c.sp } := by
  have hc : c.codeAt c.ip [0x89, 0xE5] := by
    rw [hip]
    refine hi.codeAt _ (by simp) fun i hi => ?_
    match i, hi with
    | 0, _ => exact h0
    | 1, _ => exact h1
  refine (step_enc (i := .movRmReg true (.reg 5) 4) (bytes := [0x89, 0xE5]) ⟨by simp, fun _ => rfl⟩ hc).trans ?_
  simp only [Cpu.exec, reg16, hip, ofNat_add']
  rfl

/-- The processor in front of a function: the code of the function is in memory, the return address on the stack and above it the arguments; the stack may grow down to `L`. -/
structure Called (xs : List Nat) (a e : Nat) (m : Mem 15) (L : Nat) (ρ : Nat → Word) (c : Cpu) : Prop where
  ip : c.ip = BitVec.ofNat 16 a
  ss : c.ss = c.cs
  img : Img m c a e
  below : e ≤ L
  stack : L + 2 ≤ c.sp.toNat
  args : c.sp.toNat + 2 + 2 * xs.length ≤ 2 ^ 16
  val : ∀ i (h : i < xs.length), rdw c.mem c.cs (c.sp + BitVec.ofNat 16 (2 + 2 * i)) = ρ xs[i]

variable {xs : List Nat} {a L : Nat} {ρ : Nat → Word} {c : Cpu}

theorem parOff_at {T : Nat} {x : Nat} (hx : x ∈ xs) (hl : T + 4 + 2 * xs.length ≤ 2 ^ 16) :
    (BitVec.ofNat 16 T + BitVec.ofInt 16 (parOff xs x)).toNat = T + 4 + 2 * xs.idxOf x := by
  have hi := List.idxOf_lt_length_of_mem hx
  rw [parOff, BitVec.ofInt_natCast, ← BitVec.ofNat_add, BitVec.toNat_ofNat]
  omega

theorem word_add (a b : Nat) (h : a + b < 2 ^ 16) : (BitVec.ofNat 16 a + BitVec.ofNat 16 b).toNat = a + b := by
  rw [← BitVec.ofNat_add, BitVec.toNat_ofNat, Nat.mod_eq_of_lt h]

/-- What a call of a compiled function does. -/
theorem call_run {K : Contract} {s : S} {cs : List Chunk} {t : St} {ys : List Item} {l' m d : Nat} {v : Option Word} {o : SccStm.Out} {Γ : Nat → Option (List Nat × St)} {A : Nat → Nat} {F : List Nat}
    (hc : Called xs a s.code s.out L ρ c) (hnd : xs.Nodup) (hinv : SccLayout.Inv a cs s) (hits : cs.map Chunk.item = (funItems t ys).reverse) (hcode : Code (parOff xs) A 0 0 (-1) (-1) 0 l' t ys)
    (hok : Ok F xs m t) (hm : L + 2 + stackFor m d ≤ c.sp.toNat) (hcalls : ∀ d' < d, Calls K Γ A c.cs L m c d') (hx : Exec Γ (PE K) (PC K) d t ρ o) (ho : ∃ ρ', o = .norm ρ' ∧ v = none ∨ o = .ret v ρ') :
    Reach K c (Returned xs.length L v c) := by
  obtain ⟨T, hT⟩ : ∃ T, c.sp.toNat = T + 2 := ⟨c.sp.toNat - 2, by omega⟩
  have hargs := hc.args
  have hbelow := hc.below
  have hsp : c.sp = BitVec.ofNat 16 (T + 2) := BitVec.eq_of_toNat_eq (by rw [hT, BitVec.toNat_ofNat]; omega)
  have hsp2 : c.sp - 2 = BitVec.ofNat 16 T := by
    rw [hsp, BitVec.ofNat_add]
    exact BitVec.add_sub_cancel _ 2#16
  have hpath : Path cs a (funItems t ys) s.code := path_of hinv.tile (fun _ h => h) hits
  unfold funItems at hpath
  rw [List.append_assoc, List.cons_append, List.cons_append, List.nil_append] at hpath
  cases hpath with
  | cons p1 hpath =>
  cases hpath with
  | cons p2 hpath =>
  obtain ⟨n1, _, b1⟩ := hinv.plain _ p1
  obtain ⟨n2, _, b2⟩ := hinv.plain _ p2
  subst n1 n2
  obtain ⟨q, hbody, hend⟩ := hpath.append
  have hr2 := (hinv.tile.mem p2).2
  simp only [List.length_cons, List.length_nil] at hr2 hbody b2
  let c1 : Cpu := { c with ip := BitVec.ofNat 16 (a + 1), sp := c.sp - 2, mem := wrw c.mem c.ss (c.sp - 2) c.bp }
  let c2 : Cpu := { c1 with ip := BitVec.ofNat 16 (a + 1 + 2), bp := c.sp - 2 }
  have hTT : (BitVec.ofNat 16 T : Word).toNat = T := by rw [BitVec.toNat_ofNat]; omega
  have hTT1 : (BitVec.ofNat 16 T + 1 : Word).toNat = T + 1 := word_add T 1 (by omega)
  have hmem : ∀ o : Word, o.toNat < T ∨ T + 2 ≤ o.toNat → rdb c1.mem c.cs o = rdb c.mem c.cs o := by
    intro o ho
    show rdb (wrw c.mem c.ss (c.sp - 2) c.bp) c.cs o = _
    rw [hc.ss, hsp2]
    refine rdb_wrw_ne _ _ ⟨fun e => ?_, fun e => ?_⟩
    · rw [← lin_inj e, hTT] at ho; omega
    · rw [← lin_inj e, hTT1] at ho; omega
  have himg1 : Img s.out c1 a s.code := fun x h1 h2 => (hmem _ (.inl (by rw [BitVec.toNat_ofNat]; omega))).trans (hc.img x h1 h2)
  refine .step (push_bp_step (b1 0 (by simp)) K hc.ip (hc.img.mono (Nat.le_refl _) (by omega))) ?_
  refine .step (mov_bp_step (c := c1) (b2 0 (by simp)) (b2 1 (by simp)) K rfl (himg1.mono (by omega) (by omega))) ?_
  let W : World :=
    { K := K, sg := c.cs, bp := BitVec.ofNat 16 T, L := L, T := T, off := parOff xs, xs := xs, lt := by omega, hT := by omega
      above := fun x hx => by rw [parOff_at hx (by omega)]; have := List.idxOf_lt_length_of_mem hx; omega
      apart := fun x hx y hy hne => by
        rw [parOff_at hx (by omega), parOff_at hy (by omega)]
        have : xs.idxOf x ≠ xs.idxOf y := fun e => hne ((List.idxOf_inj hx).1 e)
        omega
      a := a, cs := cs, s := s, inv := hinv, top := hbelow, c0 := c2, img := himg1, lo := 0, hlo := by simp, R := 0, hR := fun h _ => absurd rfl h, A := A }
  have hcell : ∀ x ∈ xs, (W.cell x).toNat = T + 4 + 2 * xs.idxOf x := fun x hx => parOff_at hx (by omega)
  have hcell1 : ∀ x ∈ xs, (W.cell x + 1).toNat = T + 4 + 2 * xs.idxOf x + 1 := fun x hx => by
    have h1 := hcell x hx
    have h2 := List.idxOf_lt_length_of_mem hx
    rw [BitVec.toNat_add, h1]
    simp
    omega
  have hsit : W.Sit ρ c2 := by
    refine ⟨⟨rfl, hc.ss, hsp2, fun x hx => ?_, [], rfl, ?_, nofun⟩, fun _ _ => rfl⟩
    · have hx : x ∈ xs := hx
      have hl := List.idxOf_lt_length_of_mem hx
      have h1 := hc.val _ hl
      have h2 : xs[xs.idxOf x] = x := List.getElem_idxOf hl
      rw [h2] at h1
      have e : W.cell x = c.sp + BitVec.ofNat 16 (2 + 2 * xs.idxOf x) := by
        apply BitVec.eq_of_toNat_eq
        rw [hcell x hx, hsp, word_add _ _ (by omega)]
        omega
      show rdw c1.mem c.cs (W.cell x) = ρ x
      rw [← h1, ← e]
      unfold rdw
      rw [hmem _ (.inr (by rw [hcell1 x hx]; omega)), hmem _ (.inr (by rw [hcell x hx]; omega))]
    · show (c.sp - 2).toNat + 2 * 0 = T
      rw [hsp2, hTT]; rfl
  have hsT : c.sp + 2 = BitVec.ofNat 16 T + 4 := by
    rw [hsp, BitVec.ofNat_add, BitVec.add_assoc]
    rfl
  have hfar : W.Far (Returned xs.length L v c) := by
    intro d hd
    rw [hd.sp, hsT]
    constructor
    · intro e
      have : BitVec.ofNat 16 T + 4 - BitVec.ofNat 16 T = BitVec.ofNat 16 T - BitVec.ofNat 16 T := by rw [show BitVec.ofNat 16 W.T = BitVec.ofNat 16 T from rfl] at e; rw [e]
      bv_omega
    · intro e
      have e : BitVec.ofNat 16 T + 4 = BitVec.ofNat 16 T + 2 := e
      bv_omega
  -- the end of the function
  have hleave : ∀ (ρ' : Nat → Word) (c3 : Cpu) (p n : Nat), W.Sit ρ' c3 → ⟨.raw [0x5D, 0xC3], p, n⟩ ∈ cs → c3.ip = BitVec.ofNat 16 p → (∀ w, v = some w → c3.ax = w) →
      Reach K c3 (Returned xs.length L v c) := by
    intro ρ' c3 p n hs hp hip hax
    obtain ⟨n3, _, b3⟩ := hinv.plain _ hp
    have hr3 := hinv.tile.mem hp
    subst n3
    simp only [List.length_cons, List.length_nil] at hr3
    have hcs : c3.cs = c.cs := hs.inv.cs
    have hss : c3.ss = c.cs := hs.inv.ss
    have hsp3 : c3.sp = BitVec.ofNat 16 T := hs.sp
    have hk : ∀ o : Word, T ≤ o.toNat ∧ o.toNat < T + 4 ∨ T + 4 + 2 * xs.length ≤ o.toNat ∨ o.toNat < L → rdb c3.mem c.cs o = rdb c1.mem c.cs o := by
      intro o ho
      refine hs.kp o ?_
      rcases ho with ho | ho | ho
      · refine .inr ⟨ho.1, fun x hx => ⟨fun e => ?_, fun e => ?_⟩⟩
        · rw [e, hcell x hx] at ho; omega
        · rw [e, hcell1 x hx] at ho; omega
      · refine .inr ⟨show T ≤ _ by omega, fun x hx => ⟨fun e => ?_, fun e => ?_⟩⟩
        · have hlx : xs.idxOf x < xs.length := List.idxOf_lt_length_of_mem hx; rw [e, hcell x hx] at ho; omega
        · have hlx : xs.idxOf x < xs.length := List.idxOf_lt_length_of_mem hx; rw [e, hcell1 x hx] at ho; omega
      · exact .inl ho
    have hbp : rdw c3.mem c.cs (BitVec.ofNat 16 T) = c.bp := by
      have h1 : rdw c1.mem c.cs (BitVec.ofNat 16 T) = c.bp := by
        show rdw (wrw c.mem c.ss (c.sp - 2) c.bp) c.cs (BitVec.ofNat 16 T) = c.bp
        rw [hc.ss, hsp2]
        exact rdw_wrw_self ..
      rw [← h1]
      unfold rdw
      rw [hk _ (.inl (by rw [hTT1]; omega)), hk _ (.inl (by rw [hTT]; omega))]
    have hT2 : BitVec.ofNat 16 T + 2 = c.sp := by rw [hsp, BitVec.ofNat_add]; rfl
    have hs1 : (c.sp + 1).toNat = T + 3 := by rw [hsp]; exact word_add (T + 2) 1 (by omega)
    have hra : rdw c3.mem c.cs c.sp = rdw c.mem c.cs c.sp := by
      unfold rdw
      rw [hk _ (.inl (by omega)), hk _ (.inl (by omega)), hmem _ (.inr (by omega)), hmem _ (.inr (by omega))]
    refine (ret_run (b3 0 (by simp)) (b3 1 (by simp)) K hip (hs.img.mono hr3.1 hr3.2)).mono ?_
    rintro _ rfl
    refine ⟨?_, ?_, ?_, hcs, hss.trans hc.ss.symm, hax, ?_⟩
    · show rdw c3.mem c3.ss (c3.sp + 2) = _
      rw [hss, hsp3, hT2, hra, hc.ss]
    · show c3.sp + 2 + 2 = _
      rw [hsp3, hT2]
    · show rdw c3.mem c3.ss c3.sp = _
      rw [hss, hsp3, hbp]
    · intro o ho
      show rdb c3.mem c.cs o = _
      rw [hk o (by omega), hmem o (by omega)]
  refine World.exec_code (W := W) (Q := Returned xs.length L v c) (m := m) hfar hx ⟨show L + stackFor m d ≤ T by omega, fun d' hd => (hcalls d' hd).congr fun o ho => hmem o (by omega)⟩ hcode hbody hok (fun j hj => by omega) (fun j hj => by omega) hsit rfl fun c3 hp => ?_
  obtain ⟨ρ', ⟨rfl, rfl⟩ | rfl⟩ := ho
  · obtain ⟨hs, hip⟩ := hp
    rw [World.dies_norm hx _ rfl, if_neg (by simp)] at hend
    cases hend with
    | cons he _ => exact hleave ρ' c3 _ _ hs he hip nofun
  · obtain ⟨hs, hax, p, n, he, hip⟩ := hp
    exact hleave ρ' c3 p n hs he hip hax

end SccStm

namespace Props
open Prog Text Scc SccCode SccGen SccStm SccLayout Props.SccIds I86
open SccStm.World (PE PC)
open I86.Cpu hiding lo hi rd

/-- **C49** (partial): Let the compiler be in front of the body of a function whose parameters are the `int` variables `xs`, and let the body
consist of assignments (`=`, `+=` and the like, `++`, `--`), `if`, `while`, `do`, `for`, `break`, `continue`, `return`, `;` and blocks in any nesting.  The compiler reads exactly the
body.  If a processor comes to the beginning of the code with a return address and the arguments on the stack, and the statements end for
these arguments, then the processor comes back to the caller, with the returned value in AX, with the caller's BP and with the arguments still
on the stack; it has written to nothing but the free part of the stack and the arguments.

The conditions may be combined by `&&` and `||`, with the operands evaluated only as far as needed; a constant operand (`C43_and_violated`) and such a
combination elsewhere than in a condition are excluded.

Partial: no local variables, calls, `switch`, `goto`, other types than `int`; expressions as in C43.  `Ok` and `ShowsS`
exclude what the compiler refuses; what it gets wrong is excluded by `PE` and `PC`, the conditions of C42 and C43 on the expressions that are
evaluated. -/
theorem C49_function_partial (s : S) (names : List (List Byte)) (xs : List Nat) (v d m : Nat) (cl : Bool) (t : St) (ts : List Tk) (u : Tk) (text : List Byte)
    (hent : Entry xs v s) (hids : Ids s names) (hbuf : ∀ w ∈ names, s.idPos + w.length + 1 ≤ idBufferMax)
    (htok : s.tok = 0x7B) (hprec : s.prec = precStop) (htext : s.cur :: s.inp = text)
    (hsh : ShowsS false d false cl t (lbr :: ts)) (hsrc : Src names text (ts ++ [u])) (hu : u.tok ≠ tokElse)
    (hok : Ok [] xs m t) (hd : d + 2 ≤ scopeMax) (hsz : s.code + sz t + 7 ≤ codeStart + outputMax) (hnl : nl t ≤ labelMax) :
    ∃ s', (∃ N, ∀ n, N ≤ n → parseFunction (run n) v s = .ok () s') ∧ s'.tok = u.tok ∧
      ∀ (K : Contract) (c : Cpu) (ρ ρ' : Nat → Word) (L : Nat) (r : Option Word) (o : SccStm.Out),
        Called xs s.code s'.code s'.out L ρ c → L + 2 * m + 2 ≤ c.sp.toNat → Exec (fun _ => none) (PE K) (PC K) 0 t ρ o → (o = .norm ρ' ∧ r = none ∨ o = .ret r ρ') →
        Reach K c (Returned xs.length L r c) := by
  have hon : On (bas s) s (lbr :: ts ++ u :: []) := ⟨⟨htok, hprec, nofun⟩, by rw [htext]; exact hsrc.scan s hids hbuf⟩
  obtain ⟨s', hrun, ⟨⟨s8, cs, ys, l', e1, e2, hinv, hits, hcode⟩, _⟩, hon'⟩ := compiled (G := ⟨fun _ => 0, []⟩) hent.toEntry0 nofun hent.fixes hsh rfl hon hu hok hd hsz hnl
  refine ⟨s', hrun, hon'.1.tok, fun K c ρ ρ' L r o hc hm hx ho => ?_⟩
  rw [e1, e2] at hc
  exact call_run hc hent.par.nodup hinv hits hcode hok (by rw [World.stackFor]; omega) (fun _ h => absurd h (Nat.not_lt_zero _)) hx ⟨ρ', ho⟩

end Props
