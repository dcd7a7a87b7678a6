import Verif.Props.SccStmLocFun
/-!
# Compiled functions (C51): what a call of a function with local variables does
-/
namespace SccLoc
open Scc SccCode SccGen SccJump SccFix SccStm SccLayout I86
open I86.Cpu hiding lo hi rd
open SccStm.World (Path PE PC Calls stackFor)

/-- A function in memory when its declarations begin: BP is `T0`, the arguments `xs` are above, the local variables `ys` will be below. -/
structure Frame where
  K : Contract
  sg : Word
  L : Nat
  T0 : Nat
  xs : List Nat
  ys : List Nat
  args : T0 + 4 + 2 * xs.length ≤ 2 ^ 16
  low : L + 2 * ys.length ≤ T0
  nd : (xs ++ ys).Nodup
  a : Nat
  cs : List Chunk
  s : S
  inv : SccLayout.Inv a cs s
  top : s.code ≤ L
  c0 : Cpu
  img : ∀ x, a ≤ x → x < s.code → rdb c0.mem sg (BitVec.ofNat 16 x) = B s.out x
  R : Nat
  hR : ys ≠ [] → (∃ p n, ⟨.jmp R, p, n⟩ ∈ cs) → adr s R ≠ 0
  A : Nat → Nat

namespace Frame
variable (f : Frame)

/-- The place of a variable. -/
def pos (x : Nat) : Nat := if x ∈ f.ys then f.T0 - 2 * (f.ys.idxOf x + 1) else f.T0 + 4 + 2 * f.xs.idxOf x

theorem neg_word {T k : Nat} (h : k ≤ T) : BitVec.ofNat 16 T + BitVec.ofInt 16 (-((k : Nat) : Int)) = BitVec.ofNat 16 (T - k) := by
  rw [← BitVec.ofInt_natCast, ← BitVec.ofInt_natCast, ← BitVec.ofInt_add]
  congr 1
  omega

theorem cell_pos {x : Nat} (hx : x ∈ f.xs ++ f.ys) : (BitVec.ofNat 16 f.T0 + BitVec.ofInt 16 (locOff f.xs f.ys x)).toNat = f.pos x := by
  have := f.args
  have := f.low
  unfold pos locOff
  by_cases h : x ∈ f.ys
  · have hl := List.idxOf_lt_length_of_mem h
    rw [if_pos h, if_pos h, neg_word (by omega), BitVec.toNat_ofNat]
    omega
  · rw [if_neg h, if_neg h]
    exact parOff_at ((List.mem_append.1 hx).resolve_right h) (by omega)

theorem pos_par {x : Nat} (hx : x ∈ f.xs) : f.pos x = f.T0 + 4 + 2 * f.xs.idxOf x := by
  unfold pos
  rw [if_neg fun h => (List.disjoint_of_nodup_append f.nd) hx h]

theorem idx_take {ys : List Nat} {x i : Nat} (h : x ∈ ys.take i) : ys.idxOf x < i := by
  have h1 := List.idxOf_lt_length_of_mem h
  have h2 := List.idxOf_append_of_mem (l₂ := ys.drop i) h
  rw [List.take_append_drop] at h2
  rw [List.length_take] at h1
  omega

theorem pos_loc {x i : Nat} (hx : x ∈ f.ys.take i) : f.pos x = f.T0 - 2 * (f.ys.idxOf x + 1) ∧ f.ys.idxOf x < i ∧ f.ys.idxOf x < f.ys.length := by
  have h := List.mem_of_mem_take hx
  refine ⟨by unfold pos; rw [if_pos h], idx_take hx, List.idxOf_lt_length_of_mem h⟩

theorem pos_ge {i : Nat} {x : Nat} (hx : x ∈ f.xs ++ f.ys.take i) : f.T0 - 2 * i ≤ f.pos x ∧ f.pos x + 1 < 2 ^ 16 := by
  have := f.args
  have := f.low
  rcases List.mem_append.1 hx with h | h
  · have := List.idxOf_lt_length_of_mem h
    rw [f.pos_par h]
    omega
  · obtain ⟨e, h1, h2⟩ := f.pos_loc h
    omega

theorem pos_ne {x y : Nat} (hx : x ∈ f.xs ++ f.ys) (hy : y ∈ f.xs ++ f.ys) (hne : x ≠ y) : f.pos x + 2 ≤ f.pos y ∨ f.pos y + 2 ≤ f.pos x := by
  have := f.args
  have := f.low
  unfold pos
  by_cases h1 : x ∈ f.ys <;> by_cases h2 : y ∈ f.ys
  · have := List.idxOf_lt_length_of_mem h1
    have := List.idxOf_lt_length_of_mem h2
    have : f.ys.idxOf x ≠ f.ys.idxOf y := fun e => hne ((List.idxOf_inj h1).1 e)
    rw [if_pos h1, if_pos h2]; omega
  · rw [if_pos h1, if_neg h2]; omega
  · rw [if_neg h1, if_pos h2]; omega
  · have : f.xs.idxOf x ≠ f.xs.idxOf y := fun e => hne ((List.idxOf_inj ((List.mem_append.1 hx).resolve_right h1)).1 e)
    rw [if_neg h1, if_neg h2]; omega

theorem mem_take {x i : Nat} (h : x ∈ f.xs ++ f.ys.take i) : x ∈ f.xs ++ f.ys :=
  (List.mem_append.1 h).elim (fun h => List.mem_append_left _ h) fun h => List.mem_append_right _ (List.mem_of_mem_take h)

/-- The surroundings of statements behind `i` declarations. -/
def wd (i : Nat) (hi : i ≤ f.ys.length) : World where
  K := f.K
  sg := f.sg
  bp := BitVec.ofNat 16 f.T0
  L := f.L
  T := f.T0 - 2 * i
  off := locOff f.xs f.ys
  xs := f.xs ++ f.ys.take i
  lt := by have := f.low; omega
  hT := by have := f.args; omega
  above := fun x hx => by rw [f.cell_pos (f.mem_take hx)]; exact f.pos_ge hx
  apart := fun x hx y hy hne => by rw [f.cell_pos (f.mem_take hx), f.cell_pos (f.mem_take hy)]; exact f.pos_ne (f.mem_take hx) (f.mem_take hy) hne
  a := f.a
  cs := f.cs
  s := f.s
  inv := f.inv
  top := f.top
  c0 := f.c0
  img := f.img
  lo := -((2 * i : Nat) : Int)
  hlo := neg_word (by have := f.low; omega)
  R := f.R
  hR := fun h => f.hR fun e => h (by rw [e] at hi; obtain rfl : i = 0 := Nat.le_zero.1 hi; rfl)
  A := f.A

variable {f} {ρ : Nat → Word} {c : Cpu} {Q : Cpu → Prop} {i p q n m : Nat} {hi : i ≤ f.ys.length}

theorem cell_eq {x : Nat} (hx : x ∈ f.xs ++ f.ys) : (f.wd i hi).cell x = BitVec.ofNat 16 (f.pos x) := by
  apply BitVec.eq_of_toNat_eq
  have h := f.cell_pos hx
  have h2 := f.pos_ge (i := f.ys.length) (x := x) (by rw [List.take_length]; exact hx)
  rw [BitVec.toNat_ofNat, Nat.mod_eq_of_lt (by omega)]
  exact h

/-- A declaration with a value puts the value on the stack. -/
theorem run_decl {e : E} {v : Word} (hlt : i < f.ys.length) (hs : (f.wd i hi).Sit ρ c) (hm : ⟨.raw (declB (locOff f.xs f.ys) e), p, n⟩ ∈ f.cs) (hip : c.ip = BitVec.ofNat 16 p)
    (hok : OkE (f.xs ++ f.ys.take i) m e) (hroom : f.L + 2 * m + 2 * i ≤ f.T0) (hv : ev ρ e = some v) (hp : PE f.K ρ e)
    (k : ∀ c1, (f.wd (i + 1) hlt).Sit (upd ρ f.ys[i] v) c1 → c1.ip = BitVec.ofNat 16 (p + n) → Reach f.K c1 Q) : Reach f.K c Q := by
  obtain ⟨h1, h2, h3⟩ := hok
  obtain ⟨g1, _, g3⟩ := f.inv.plain _ hm
  obtain ⟨g4, g5⟩ := f.inv.tile.mem hm
  have g4 : f.a ≤ p := g4
  have g5 : p + n ≤ f.s.code := g5
  have hcode : c.codeAt c.ip (declB (locOff f.xs f.ys) e) := by
    rw [hip]
    exact (hs.img.mono g4 (g1 ▸ g5)).codeAt _ (Nat.le_refl _) g3
  have := f.top
  have := f.low
  have := f.args
  have hlen : n = (declB (locOff f.xs f.ys) e).length := g1
  have hex := exec_val ((f.wd i hi).fr ρ) e c v h1 hp h2 hv hs.inv (show f.L + 2 * nest e ≤ f.T0 - 2 * i by omega)
  rw [show ((f.wd i hi).fr ρ).off = locOff f.xs f.ys from rfl] at hex
  unfold declB at hcode hlen
  obtain ⟨c1, c2⟩ := codeAt_append.1 hcode
  rw [List.length_append] at hlen
  have hipn : c.ip.toNat = p := by rw [hip, BitVec.toNat_ofNat]; omega
  refine (hex c1 (by show _ ≤ f.L; omega)).trans fun d ⟨i1, i2, i3, i4⟩ => ?_
  have hsd := hs.keep i2 i3
  have hcs : d.cs = c.cs := Eq.trans (show d.cs = f.sg from i3.cs) (show f.sg = c.cs from hs.inv.cs.symm)
  have hcd : d.codeAt d.ip [0x50] := by
    rw [i1]
    refine codeAt_congr hcs (fun i hi => ?_) c2
    rw [rd8_eq, rd8_eq, show c.cs = f.sg from hs.inv.cs]
    refine i2 _ (.inl ?_)
    rw [BitVec.toNat_add, BitVec.toNat_add, BitVec.toNat_ofNat, BitVec.toNat_ofNat, hipn]
    show _ < f.L
    simp only [List.length_cons, List.length_nil] at hlen hi
    omega
  have hsp : d.sp = BitVec.ofNat 16 (f.T0 - 2 * i) := hsd.sp
  have hss : d.ss = f.sg := i3.ss
  have hsp2 : d.sp - 2 = BitVec.ofNat 16 (f.T0 - 2 * (i + 1)) := by
    rw [hsp, show f.T0 - 2 * i = f.T0 - 2 * (i + 1) + 2 by omega, BitVec.ofNat_add]
    exact BitVec.add_sub_cancel _ 2#16
  have hy : f.ys[i] ∈ f.ys := List.getElem_mem hlt
  have hnd := (List.nodup_append.1 f.nd).2.1
  have hidx : f.ys.idxOf f.ys[i] = i := hnd.idxOf_getElem i hlt
  have hpos : f.pos f.ys[i] = f.T0 - 2 * (i + 1) := by unfold pos; rw [if_pos hy, hidx]
  have hcell : (f.wd (i + 1) hlt).cell f.ys[i] = BitVec.ofNat 16 (f.T0 - 2 * (i + 1)) := by rw [cell_eq (List.mem_append_right _ hy), hpos]
  have hn0 : (BitVec.ofNat 16 (f.T0 - 2 * (i + 1)) : Word).toNat = f.T0 - 2 * (i + 1) := by rw [BitVec.toNat_ofNat]; omega
  have hn1 : (BitVec.ofNat 16 (f.T0 - 2 * (i + 1)) + 1 : Word).toNat = f.T0 - 2 * (i + 1) + 1 := word_add _ 1 (by omega)
  let d1 : Cpu := { d with ip := BitVec.ofNat 16 (p + n), sp := d.sp - 2, mem := wrw d.mem d.ss (d.sp - 2) d.ax }
  have hstep : d.step f.K = .next d1 := by
    refine (step_enc (K := f.K) (i := .push 0) (bytes := [0x50]) ⟨by simp, fun _ => rfl⟩ hcd).trans ?_
    simp only [Cpu.exec, Cpu.push, reg16, wr16_eq]
    rw [i1, hip, ← ofNat_add', ← ofNat_add', Nat.add_assoc, ← hlen]
    rfl
  have hmem : ∀ o : Word, o.toNat < f.T0 - 2 * (i + 1) ∨ f.T0 - 2 * i ≤ o.toNat → rdb d1.mem f.sg o = rdb d.mem f.sg o := by
    intro o ho
    show rdb (wrw d.mem d.ss (d.sp - 2) _) f.sg o = _
    rw [hss, hsp2]
    refine rdb_wrw_ne _ _ ⟨fun e => ?_, fun e => ?_⟩
    · rw [← lin_inj e, hn0] at ho; omega
    · rw [← lin_inj e, hn1] at ho; omega
  have htk : f.ys.take (i + 1) = f.ys.take i ++ [f.ys[i]] := (List.take_append_getElem hlt).symm
  refine .step hstep (k d1 ⟨⟨i3.cs, i3.ss, i3.bp, fun x hx => ?_, [], rfl, ?_, nofun⟩, fun o ho => ?_⟩ rfl)
  · have hx : x ∈ f.xs ++ f.ys.take (i + 1) := hx
    show rdw d1.mem f.sg ((f.wd (i + 1) hlt).cell x) = if x = f.ys[i] then v else ρ x
    by_cases e : x = f.ys[i]
    · rw [if_pos e, e, hcell]
      show rdw (wrw d.mem d.ss (d.sp - 2) d.ax) f.sg _ = v
      rw [hss, hsp2, ← i4]
      exact rdw_wrw_self ..
    · rw [if_neg e]
      have hx' : x ∈ f.xs ++ f.ys.take i := by
        rw [htk, ← List.append_assoc] at hx
        exact (List.mem_append.1 hx).resolve_right fun h => e (List.mem_singleton.1 h)
      have hv := i3.vars x hx'
      have hv : rdw d.mem f.sg ((f.wd (i + 1) hlt).cell x) = ρ x := hv
      rw [← hv, cell_eq (f.mem_take hx)]
      have hge := f.pos_ge hx'
      have e1 : (BitVec.ofNat 16 (f.pos x) : Word).toNat = f.pos x := by rw [BitVec.toNat_ofNat]; omega
      have e2 : (BitVec.ofNat 16 (f.pos x) + 1 : Word).toNat = f.pos x + 1 := word_add _ 1 (by omega)
      unfold Cpu.rdw
      rw [hmem _ (.inr (by omega)), hmem _ (.inr (by omega))]
  · show (d.sp - 2).toNat + 2 * 0 = f.T0 - 2 * (i + 1)
    rw [hsp2, hn0]; omega
  · have ho : o.toNat < f.L ∨ f.T0 - 2 * (i + 1) ≤ o.toNat ∧ ∀ x ∈ f.xs ++ f.ys.take (i + 1), o ≠ (f.wd (i + 1) hlt).cell x ∧ o ≠ (f.wd (i + 1) hlt).cell x + 1 := ho
    have hge : o.toNat < f.L ∨ f.T0 - 2 * i ≤ o.toNat := by
      refine ho.imp id fun ⟨h1, h2⟩ => ?_
      obtain ⟨h3, h4⟩ := h2 f.ys[i] (by rw [htk, ← List.append_assoc]; exact List.mem_append_right _ (List.mem_singleton.2 rfl))
      rw [hcell] at h3 h4
      have h3 : o.toNat ≠ f.T0 - 2 * (i + 1) := fun e => h3 (BitVec.eq_of_toNat_eq (by rw [e, hn0]))
      have h4 : o.toNat ≠ f.T0 - 2 * (i + 1) + 1 := fun e => h4 (BitVec.eq_of_toNat_eq (by rw [e, hn1]))
      omega
    refine (hmem o (by omega)).trans (hsd.kp o ?_)
    rcases hge with h | h
    · exact .inl h
    · refine ho.imp id fun ⟨_, h2⟩ => ⟨h, fun x hx => h2 x ?_⟩
      have hx : x ∈ f.xs ++ f.ys.take i := hx
      rw [htk, ← List.append_assoc]
      exact List.mem_append_left _ hx

/-- The statements that declarations with values stand for. -/
def unroll (ds : List (Nat × E)) (t : St) : St := ds.foldr (fun p t => .seq (.asgn .set p.1 p.2) t) t

theorem run_decls {Γ : Nat → Option (List Nat × St)} {d : Nat} {t : St} {o : SccStm.Out} (hroom : f.L + 2 * m + 2 * f.ys.length ≤ f.T0) : ∀ (ds : List (Nat × E)) {i p : Nat} {hi : i ≤ f.ys.length} {ρ : Nat → Word} {c : Cpu},
    f.ys.drop i = ds.map Prod.fst → OkL m (f.xs ++ f.ys.take i) ds → Path f.cs p (ds.map fun p => .raw (declB (locOff f.xs f.ys) p.2)) q → (f.wd i hi).Sit ρ c → c.ip = BitVec.ofNat 16 p →
    Exec Γ (PE f.K) (PC f.K) d (unroll ds t) ρ o → (∀ ρ1 c1, (f.wd f.ys.length (Nat.le_refl _)).Sit ρ1 c1 → c1.ip = BitVec.ofNat 16 q → Exec Γ (PE f.K) (PC f.K) d t ρ1 o → Reach f.K c1 Q) → Reach f.K c Q
  | [], i, p, hi, ρ, c, hd, _, hp, hs, hip, hx, k => by
    have h := congrArg List.length hd
    rw [List.length_drop] at h
    obtain rfl : i = f.ys.length := by simp at h; omega
    cases hp
    exact k ρ c hs hip hx
  | (y, e) :: ds, i, p, hi, ρ, c, hd, hok, hp, hs, hip, hx, k => by
    have h := congrArg List.length hd
    rw [List.length_drop] at h
    have hlt : i < f.ys.length := by simp at h; omega
    rw [List.drop_eq_getElem_cons hlt, List.map_cons] at hd
    obtain ⟨h1, h2⟩ := List.cons.inj hd
    have h1 : f.ys[i] = y := h1
    cases hp with
    | cons hm hp =>
      have htk : f.ys.take (i + 1) = f.ys.take i ++ [y] := by rw [← h1]; exact (List.take_append_getElem hlt).symm
      have hgo : ∀ v, ev ρ e = some v → PE f.K ρ e → Exec Γ (PE f.K) (PC f.K) d (unroll ds t) (upd ρ y v) o → Reach f.K c Q := fun v hv hpe hx =>
        run_decl hlt hs hm hip hok.2.1 (by omega) hv hpe fun c1 hs1 hip1 =>
          run_decls hroom ds h2 (by rw [htk, ← List.append_assoc]; exact hok.2.2) hp hs1 hip1 (by rw [h1]; exact hx) k
      cases hx with
      | seq ha hb =>
        cases ha with
        | asgn hv hpe => exact hgo _ hv hpe hb
      | stop ha ho =>
        cases ha with
        | asgn hv hpe => cases ho

end Frame

theorem OkL.nodup {m : Nat} : ∀ {ds : List (Nat × E)} {xs : List Nat}, xs.Nodup → OkL m xs ds → (xs ++ ds.map Prod.fst).Nodup
  | [], xs, h, _ => by simpa using h
  | (x, e) :: ds, xs, h, hok => by
    have h1 : (xs ++ [x]).Nodup := by
      refine List.nodup_append.2 ⟨h, List.nodup_singleton x, fun y hy z hz e => ?_⟩
      rw [List.mem_singleton.1 hz] at e
      exact hok.1 (e ▸ hy)
    have := OkL.nodup (ds := ds) h1 hok.2.2
    rw [List.append_assoc] at this
    exact this

theorem mov_sp_step {m : Mem 15} {p : Nat} (h0 : B m p = 0x89) (h1 : B m (p + 1) = 0xEC) (K : Contract) {c : Cpu} (hip : c.ip = BitVec.ofNat 16 p) (hi : Img m c p (p + 2)) :
    c.step K = .next { c with ip := BitVec.ofNat 16 (p + 2), sp := c.bp } := by
  have hc : c.codeAt c.ip [0x89, 0xEC] := by
    rw [hip]
    refine hi.codeAt _ (by simp) fun i hi => ?_
    match i, hi with
    | 0, _ => exact h0
    | 1, _ => exact h1
  refine (step_enc (i := .movRmReg true (.reg 4) 5) (bytes := [0x89, 0xEC]) ⟨by simp, fun _ => rfl⟩ hc).trans ?_
  simp only [Cpu.exec, reg16, hip, ofNat_add']
  rfl

variable {xs ys : List Nat} {a L : Nat} {ρ : Nat → Word} {c : Cpu}

/-- What a call of a compiled function with local variables does. -/
theorem call_runL {K : Contract} {s : S} {cs : List Chunk} {t : St} {zs : List Item} {l' m m' d R : Nat} {rl : Int} {v : Option Word} {o : SccStm.Out} {Γ : Nat → Option (List Nat × St)} {A : Nat → Nat} {F : List Nat}
    {ls : List (List Byte × E)} {ds : List (Nat × E)} (hc : Called xs a s.code s.out L ρ c) (hnd : xs.Nodup) (hinv : SccLayout.Inv a cs s)
    (hits : cs.map Chunk.item = (funItemsL (locOff xs ys) ls t zs rl).reverse) (hcode : Code (locOff xs ys) A (-((2 * ls.length : Nat) : Int)) R (-1) (-1) 0 l' t zs)
    (hrl : rl = -1 ∧ (ls ≠ [] → .jmp R ∉ zs) ∨ rl = R ∧ ls ≠ []) (hds : ds.map Prod.snd = ls.map Prod.snd) (hys : ys = ds.map Prod.fst) (hokl : OkL m' xs ds) (hok : Ok F (xs ++ ys) m' t)
    (hmm : m' + ls.length ≤ m) (hm : L + 2 + stackFor m d ≤ c.sp.toNat) (hcalls : ∀ d' < d, Calls K Γ A c.cs L m c d') (hx : Exec Γ (PE K) (PC K) d (Frame.unroll ds t) ρ o)
    (ho : ∃ ρ', o = .norm ρ' ∧ v = none ∨ o = .ret v ρ') : Reach K c (Returned xs.length L v c) := by
  obtain ⟨T, hT⟩ : ∃ T, c.sp.toNat = T + 2 := ⟨c.sp.toNat - 2, by omega⟩
  have hargs := hc.args
  have hbelow := hc.below
  have hylen : ys.length = ls.length := by rw [hys, List.length_map]; simpa using congrArg List.length hds
  have hm : L + 2 + (2 * m + (12 + 2 * m) * d) ≤ c.sp.toNat := hm
  have hsp : c.sp = BitVec.ofNat 16 (T + 2) := BitVec.eq_of_toNat_eq (by rw [hT, BitVec.toNat_ofNat]; omega)
  have hsp2 : c.sp - 2 = BitVec.ofNat 16 T := by
    rw [hsp, BitVec.ofNat_add]
    exact BitVec.add_sub_cancel _ 2#16
  have hpath : Path cs a (funItemsL (locOff xs ys) ls t zs rl) s.code := path_of hinv.tile (fun _ h => h) hits
  have hjmp : (∃ p n, ⟨.jmp R, p, n⟩ ∈ cs) → ls ≠ [] → rl = R := by
    rintro ⟨p, n, hj⟩ hne
    rcases hrl with ⟨_, h⟩ | ⟨h, _⟩
    · have h1 : Item.jmp R ∈ cs.map Chunk.item := List.mem_map.2 ⟨_, hj, rfl⟩
      rw [hits, List.mem_reverse] at h1
      unfold funItemsL endItems at h1
      simp only [List.mem_append, List.mem_cons, List.mem_map, List.not_mem_nil, or_false] at h1
      have := h hne
      rcases h1 with ((h1 | ⟨_, _, h1⟩) | h1) | h1
      · rcases h1 with h1 | h1 <;> cases h1
      · cases h1
      · exact absurd h1 this
      · exfalso
        rcases h1 with h1 | h1
        · split at h1 <;> simp at h1
        · split at h1
          · simp at h1
          · split at h1 <;> simp at h1
    · exact h
  unfold funItemsL at hpath
  rw [List.append_assoc, List.append_assoc, List.cons_append, List.cons_append, List.nil_append] at hpath
  cases hpath with
  | cons p1 hpath =>
  cases hpath with
  | cons p2 hpath =>
  obtain ⟨n1, _, b1⟩ := hinv.plain _ p1
  obtain ⟨n2, _, b2⟩ := hinv.plain _ p2
  subst n1 n2
  obtain ⟨q0, hdecl, hpath⟩ := hpath.append
  obtain ⟨q, hbody, hend⟩ := hpath.append
  have hr2 := (hinv.tile.mem p2).2
  simp only [List.length_cons, List.length_nil] at hr2 hdecl b2
  let c1 : Cpu := { c with ip := BitVec.ofNat 16 (a + 1), sp := c.sp - 2, mem := wrw c.mem c.ss (c.sp - 2) c.bp }
  let c2 : Cpu := { c1 with ip := BitVec.ofNat 16 (a + 1 + 2), bp := c.sp - 2 }
  have hTT : (BitVec.ofNat 16 T : Word).toNat = T := by rw [BitVec.toNat_ofNat]; omega
  have hTT1 : (BitVec.ofNat 16 T + 1 : Word).toNat = T + 1 := word_add T 1 (by omega)
  have hmem : ∀ o : Word, o.toNat < T ∨ T + 2 ≤ o.toNat → rdb c1.mem c.cs o = rdb c.mem c.cs o := by
    intro o ho
    show rdb (wrw c.mem c.ss (c.sp - 2) c.bp) c.cs o = _
    rw [hc.ss, hsp2]
    refine rdb_wrw_ne _ _ ⟨fun e => ?_, fun e => ?_⟩
    · rw [← lin_inj e, hTT] at ho; omega
    · rw [← lin_inj e, hTT1] at ho; omega
  have himg1 : Img s.out c1 a s.code := fun x h1 h2 => (hmem _ (.inl (by rw [BitVec.toNat_ofNat]; omega))).trans (hc.img x h1 h2)
  refine .step (push_bp_step (b1 0 (by simp)) K hc.ip (hc.img.mono (Nat.le_refl _) (by omega))) ?_
  refine .step (mov_bp_step (c := c1) (b2 0 (by simp)) (b2 1 (by simp)) K rfl (himg1.mono (by omega) (by omega))) ?_
  have hlabR : ∀ p n, ⟨.lab R, p, n⟩ ∈ cs → n = 0 ∧ adr s R = p ∧ adr s R ≠ 0 := by
    intro p n h
    obtain ⟨h1, h2⟩ := hinv.plain _ h
    have h3 : a ≤ p := (hinv.tile.mem h).1
    have h4 := hinv.ge
    have hpos : 0 < codeStart := by decide
    have h2 : adr s R = p := h2
    exact ⟨h1, h2, by omega⟩
  -- the end of the function, if there are local variables
  have hendR : rl = R → ∃ p, Path cs p [.lab R, .raw [0x89, 0xEC], .raw [0x5D, 0xC3]] s.code ∧ (dies t = true ∨ ls.length = 0 → q = p) := by
    intro e
    unfold endItems at hend
    obtain ⟨p, h1, h2⟩ := hend.append
    rw [if_pos (by omega), e] at h2
    refine ⟨p, h2, fun h => ?_⟩
    rw [if_pos h] at h1
    cases h1
    rfl
  let f : Frame :=
    { K := K, sg := c.cs, L := L, T0 := T, xs := xs, ys := ys, args := by omega, low := by omega, nd := by rw [hys]; exact hokl.nodup hnd
      a := a, cs := cs, s := s, inv := hinv, top := hbelow, c0 := c2, img := himg1, R := R, A := A
      hR := fun hne h => by
        obtain ⟨p, hp, _⟩ := hendR (hjmp h fun e => hne (List.length_eq_zero_iff.1 (by rw [hylen, e]; rfl)))
        cases hp with
        | cons hl _ => exact (hlabR _ _ hl).2.2 }
  let W := f.wd ys.length (Nat.le_refl _)
  have hxs : W.xs = xs ++ ys := by show xs ++ ys.take ys.length = _; rw [List.take_length]
  have hWT : W.T = T - 2 * ls.length := by show T - 2 * ys.length = _; rw [hylen]
  have hpos : ∀ x ∈ xs ++ ys, (W.cell x).toNat = f.pos x ∧ (W.cell x + 1).toNat = f.pos x + 1 ∧ (T - 2 * ls.length ≤ f.pos x ∧ f.pos x + 1 < T ∨ T + 4 ≤ f.pos x ∧ f.pos x + 2 ≤ T + 4 + 2 * xs.length) := by
    intro x hx
    have h1 : (W.cell x).toNat = f.pos x := f.cell_pos hx
    have h2 := f.pos_ge (i := ys.length) (x := x) (by show x ∈ xs ++ ys.take ys.length; rw [List.take_length]; exact hx)
    refine ⟨h1, by rw [BitVec.toNat_add, h1]; simp; omega, ?_⟩
    by_cases hy : x ∈ ys
    · have h3 := List.idxOf_lt_length_of_mem hy
      have h4 : f.pos x = T - 2 * (ys.idxOf x + 1) := if_pos hy
      omega
    · have h3 := (List.mem_append.1 hx).resolve_right hy
      have h5 := List.idxOf_lt_length_of_mem h3
      have h4 : f.pos x = T + 4 + 2 * xs.idxOf x := if_neg hy
      omega
  have hsit : (f.wd 0 (Nat.zero_le _)).Sit ρ c2 := by
    refine ⟨⟨rfl, hc.ss, hsp2, fun x hx => ?_, [], rfl, ?_, nofun⟩, fun _ _ => rfl⟩
    · have hx : x ∈ xs := by
        have hx : x ∈ xs ++ ys.take 0 := hx
        simpa using hx
      have hl := List.idxOf_lt_length_of_mem hx
      have h1 := hc.val _ hl
      have h2 : xs[xs.idxOf x] = x := List.getElem_idxOf hl
      rw [h2] at h1
      obtain ⟨h3, h4, _⟩ := hpos x (List.mem_append_left _ hx)
      have h5 : f.pos x = T + 4 + 2 * xs.idxOf x := f.pos_par hx
      have e : W.cell x = c.sp + BitVec.ofNat 16 (2 + 2 * xs.idxOf x) := by
        apply BitVec.eq_of_toNat_eq
        rw [h3, hsp, word_add _ _ (by omega)]
        omega
      show rdw c1.mem c.cs (W.cell x) = ρ x
      rw [← h1, ← e]
      unfold rdw
      rw [hmem _ (.inr (by omega)), hmem _ (.inr (by omega))]
    · show (c.sp - 2).toNat + 2 * 0 = T - 2 * 0
      rw [hsp2, hTT]; rfl
  have hsT : c.sp + 2 = BitVec.ofNat 16 (T + 4) := by
    rw [hsp, BitVec.ofNat_add, BitVec.ofNat_add, BitVec.add_assoc]
    rfl
  have hge := hinv.ge
  have hpos0 : 100 < codeStart := by decide
  have hle : a ≤ s.code := by have := (hinv.tile.mem p1).1; have := (hinv.tile.mem p1).2; omega
  have hmul : 0 ≤ (12 + 2 * m) * d := Nat.zero_le _
  have hfar : W.Far (Returned xs.length L v c) := by
    intro d hd
    have h1 : d.sp.toNat = (T + 4) % 2 ^ 16 := by rw [hd.sp, hsT, BitVec.toNat_ofNat]
    rw [hWT]
    constructor
    · intro e
      rw [e, BitVec.toNat_ofNat] at h1
      omega
    · intro e
      rw [e, BitVec.toNat_add, BitVec.toNat_ofNat] at h1
      simp at h1
      omega
  -- the end of the function
  have hleave : ∀ (ρ' : Nat → Word) (c3 c4 : Cpu) (p n : Nat), W.Sit ρ' c3 → c4.cs = c.cs → c4.ss = c.cs → c4.mem = c3.mem → c4.sp = BitVec.ofNat 16 T → ⟨.raw [0x5D, 0xC3], p, n⟩ ∈ cs → c4.ip = BitVec.ofNat 16 p →
      (∀ w, v = some w → c4.ax = w) → Reach K c4 (Returned xs.length L v c) := by
    intro ρ' c3 c4 p n hs hcs hss hm4 hsp3 hp hip hax
    obtain ⟨n3, _, b3⟩ := hinv.plain _ hp
    have hr3 := hinv.tile.mem hp
    subst n3
    simp only [List.length_cons, List.length_nil] at hr3
    have hk : ∀ o : Word, T ≤ o.toNat ∧ o.toNat < T + 4 ∨ T + 4 + 2 * xs.length ≤ o.toNat ∨ o.toNat < L → rdb c4.mem c.cs o = rdb c1.mem c.cs o := by
      intro o ho
      rw [hm4]
      refine hs.kp o ?_
      by_cases hoL : o.toNat < L
      · exact .inl hoL
      · refine .inr ⟨by rw [hWT]; omega, fun x hx => ?_⟩
        rw [hxs] at hx
        obtain ⟨h1, h2, h3⟩ := hpos x hx
        constructor
        · intro e; rw [e] at ho; omega
        · intro e; rw [e] at ho; omega
    have hbp : rdw c4.mem c.cs (BitVec.ofNat 16 T) = c.bp := by
      have h1 : rdw c1.mem c.cs (BitVec.ofNat 16 T) = c.bp := by
        show rdw (wrw c.mem c.ss (c.sp - 2) c.bp) c.cs (BitVec.ofNat 16 T) = c.bp
        rw [hc.ss, hsp2]
        exact rdw_wrw_self ..
      rw [← h1]
      unfold rdw
      rw [hk _ (.inl (by rw [hTT1]; omega)), hk _ (.inl (by rw [hTT]; omega))]
    have hT2 : BitVec.ofNat 16 T + 2 = c.sp := by rw [hsp, BitVec.ofNat_add]; rfl
    have hs1 : (c.sp + 1).toNat = T + 3 := by rw [hsp]; exact word_add (T + 2) 1 (by omega)
    have hra : rdw c4.mem c.cs c.sp = rdw c.mem c.cs c.sp := by
      unfold rdw
      rw [hk _ (.inl (by omega)), hk _ (.inl (by omega)), hmem _ (.inr (by omega)), hmem _ (.inr (by omega))]
    have himg : Img s.out c4 a s.code := by
      intro x h1 h2
      have h3 : rdb c3.mem c3.cs (BitVec.ofNat 16 x) = B s.out x := hs.img x h1 h2
      rw [hcs, hm4, ← h3, show c3.cs = c.cs from hs.inv.cs]
    refine (ret_run (b3 0 (by simp)) (b3 1 (by simp)) K hip (himg.mono hr3.1 hr3.2)).mono ?_
    rintro _ rfl
    refine ⟨?_, ?_, ?_, hcs, hss.trans hc.ss.symm, hax, ?_⟩
    · show rdw c4.mem c4.ss (c4.sp + 2) = _
      rw [hss, hsp3, hT2, hra, hc.ss]
    · show c4.sp + 2 + 2 = _
      rw [hsp3, hT2]
    · show rdw c4.mem c4.ss c4.sp = _
      rw [hss, hsp3, hbp]
    · intro o ho
      show rdb c4.mem c.cs o = _
      rw [hk o (by omega), hmem o (by omega)]
  -- from the label at the end
  have hlast : ∀ (ρ' : Nat → Word) (c3 c4 : Cpu) (p : Nat), W.Sit ρ' c3 → c4.cs = c.cs → c4.ss = c.cs → c4.mem = c3.mem → c4.bp = BitVec.ofNat 16 T → Path cs p [.lab R, .raw [0x89, 0xEC], .raw [0x5D, 0xC3]] s.code →
      c4.ip = BitVec.ofNat 16 p → (∀ w, v = some w → c4.ax = w) → Reach K c4 (Returned xs.length L v c) := by
    intro ρ' c3 c4 p hs hcs hss hm4 hbp hp hip hax
    cases hp with
    | cons hl hp =>
    cases hp with
    | cons h1 hp =>
    cases hp with
    | cons h2 hp =>
    obtain ⟨rfl, _, _⟩ := hlabR _ _ hl
    obtain ⟨n3, _, b3⟩ := hinv.plain _ h1
    have hr3 := hinv.tile.mem h1
    subst n3
    simp only [List.length_cons, List.length_nil, Nat.add_zero] at hr3 b3 h2
    have himg : Img s.out c4 a s.code := by
      intro x h1 h2
      have h3 : rdb c3.mem c3.cs (BitVec.ofNat 16 x) = B s.out x := hs.img x h1 h2
      rw [hcs, hm4, ← h3, show c3.cs = c.cs from hs.inv.cs]
    exact .step (mov_sp_step (b3 0 (by simp)) (b3 1 (by simp)) K hip (himg.mono hr3.1 hr3.2)) (hleave ρ' c3 _ _ _ hs hcs hss hm4 hbp h2 rfl hax)
  have hdrop : ys.drop 0 = ds.map Prod.fst := hys
  refine f.run_decls (Q := Returned xs.length L v c) (m := m') (q := q0) (by show L + 2 * m' + 2 * ys.length ≤ T; omega) ds hdrop (by show OkL m' (xs ++ ys.take 0) ds; simpa using hokl) ?_ hsit rfl hx
    fun ρ1 c5 hs5 hip5 hx5 => ?_
  · have e : (ds.map fun p => Item.raw (declB (locOff xs ys) p.2)) = ls.map fun p => Item.raw (declB (locOff xs ys) p.2) := by
      have h := congrArg (List.map fun e => Item.raw (declB (locOff xs ys) e)) hds
      rw [List.map_map, List.map_map] at h
      exact h
    show Path cs _ (ds.map fun p => Item.raw (declB (locOff xs ys) p.2)) _
    rw [e]
    exact hdecl
  have hlo : W.lo = -((2 * ls.length : Nat) : Int) := by show -((2 * ys.length : Nat) : Int) = _; rw [hylen]
  refine World.exec_code (W := W) (F := F) (Q := Returned xs.length L v c) (M := m) (m := m') hfar hx5 ⟨by rw [hWT]; show L + _ ≤ _; omega, fun d' hd => (hcalls d' hd).congr fun o ho => hmem o (by omega)⟩
    (by rw [hlo]; exact hcode) hbody (by rw [hxs]; exact hok) (fun j hj => by omega) (fun j hj => by omega) hs5 hip5 fun c3 hp => ?_
  obtain ⟨ρ', ⟨rfl, rfl⟩ | rfl⟩ := ho
  · obtain ⟨hs, hip⟩ := hp
    rw [World.dies_norm hx5 _ rfl] at hend
    unfold endItems at hend
    obtain ⟨q1, he1, he2⟩ := hend.append
    have hfin : ∀ c4 : Cpu, c4.cs = c.cs → c4.ss = c.cs → c4.mem = c3.mem → c4.sp = BitVec.ofNat 16 T → c4.bp = BitVec.ofNat 16 T → c4.ip = BitVec.ofNat 16 q1 → Reach K c4 (Returned xs.length L none c) := by
      intro c4 h1 h2 h3 h4 h5 h6
      rcases hrl with ⟨e, _⟩ | ⟨e, _⟩
      · rw [if_neg (by omega), if_neg (by simp)] at he2
        cases he2 with
        | cons he _ => exact hleave ρ' c3 c4 _ _ hs h1 h2 h3 h4 he h6 nofun
      · rw [if_pos (by omega), e] at he2
        exact hlast ρ' c3 c4 q1 hs h1 h2 h3 h5 he2 h6 nofun
    have hsp3 : c3.sp = BitVec.ofNat 16 (T - 2 * ls.length) := by rw [hs.sp, hWT]
    by_cases hn : ls.length = 0
    · rw [if_pos (.inr hn)] at he1
      cases he1
      exact hfin c3 hs.inv.cs hs.inv.ss rfl (by rw [hsp3, hn]; rfl) hs.inv.bp hip
    · rw [if_neg (by simp [hn])] at he1
      cases he1 with
      | cons hd0 he1 =>
      cases he1
      obtain ⟨n3, _, b3⟩ := hinv.plain _ hd0
      have hr3 := hinv.tile.mem hd0
      subst n3
      have hcd : c3.codeAt c3.ip (dropB ls.length) := by
        rw [hip]
        exact (hs.img.mono hr3.1 hr3.2).codeAt _ (Nat.le_refl _) b3
      refine (code_add K 4 _ c3 hcd).trans fun c4 ⟨h1, h2⟩ => ?_
      have h2 : Upto { c3 with sp := c3.sp + BitVec.ofInt 16 ((2 * ls.length : Nat) : Int) } c4 := h2
      refine hfin c4 ?_ ?_ ?_ ?_ ?_ ?_
      · rw [h2]; exact hs.inv.cs
      · rw [h2]; exact hs.inv.ss
      · rw [h2]
      · rw [h2]
        show c3.sp + _ = _
        rw [hsp3, BitVec.ofInt_natCast, ← BitVec.ofNat_add]
        congr 1
        omega
      · rw [h2]; exact hs.inv.bp
      · rw [h1, hip, ← ofNat_add']
        rfl
  · obtain ⟨hs, hax, hlv⟩ := hp
    unfold World.Leaves at hlv
    by_cases hn : ls.length = 0
    · rw [if_neg (by rw [hlo, hn]; simp)] at hlv
      obtain ⟨p, n, he, hip⟩ := hlv
      exact hleave ρ' c3 c3 p n hs hs.inv.cs hs.inv.ss rfl (by rw [hs.sp, hWT, hn]; rfl) he hip hax
    · rw [if_pos (by rw [hlo]; omega)] at hlv
      obtain ⟨hj, hip⟩ := hlv
      obtain ⟨p, hp, _⟩ := hendR (hjmp hj fun e => hn (by rw [e]; rfl))
      refine hlast ρ' c3 c3 p hs hs.inv.cs hs.inv.ss rfl hs.inv.bp hp ?_ hax
      rw [hip]
      cases hp with
      | cons hl _ => exact congrArg _ (hlabR _ _ hl).2.1

end SccLoc
