import Verif.Sim86.Sim
import Verif.I86.Dos
/-!
# DOS calls, and runs of the whole system
-/
namespace Sim86
open I86
variable {σ : Type}

/-- The operating system as seen by the simulated program. -/
def Host.os (H : Host σ) : OS σ where
  openFile w name create :=
    let r := H.openFile w name create
    (if r.1.slt 0 then none else some (t16 r.1), r.2)
  closeFile w h := H.closeFile w (h.setWidth 32)
  readFile w h n :=
    let r := H.readFile w (h.setWidth 32) (BitVec.ofNat 32 n)
    (if r.1.slt 0 ∨ r.1 = 0 then none else some r.2.1, r.2.2)
  writeFile w h bs :=
    let r := H.writeFile w (h.setWidth 32) bs
    (if r.1.slt 0 ∨ r.1 = 0 then none else some (t16 r.1), r.2)
  putChar w b := H.putChar w (b.setWidth 32)

/-- `read` of the host stores as many bytes as it returns, and none when it fails. -/
def Host.Ok (H : Host σ) : Prop := ∀ w fd n,
  if (H.readFile w fd n).1.slt 0 ∨ (H.readFile w fd n).1 = 0 then (H.readFile w fd n).2.1 = []
  else (H.readFile w fd n).1.toNat = (H.readFile w fd n).2.1.length

/-- The file handle and the size are passed to the host as untrimmed host integers. -/
def HandleOk (s : St σ) : Prop :=
  (Cpu.hi (t16 s.ax) = 0x3e#8 ∨ Cpu.hi (t16 s.ax) = 0x3f#8 ∨ Cpu.hi (t16 s.ax) = 0x40#8 → ZExt s.bx) ∧
  (Cpu.hi (t16 s.ax) = 0x3f#8 ∨ Cpu.hi (t16 s.ax) = 0x40#8 → ZExt s.cx)

theorem and_ff_eq (x : W) : x &&& 0xff = (t8 x).setWidth 32 := by
  apply BitVec.eq_of_toNat_eq
  rw [BitVec.toNat_and, BitVec.toNat_setWidth, BitVec.toNat_setWidth, show (0xff : W).toNat = 2 ^ 8 - 1 from rfl,
    Nat.and_two_pow_sub_one_eq_mod]
  have := x.isLt
  omega

theorem zext_eq {v : W} (h : ZExt v) : (t16 v).setWidth 32 = v := by
  apply BitVec.eq_of_toNat_eq
  have h : v.toNat < 2 ^ 16 := h
  rw [BitVec.toNat_setWidth, BitVec.toNat_setWidth, Nat.mod_eq_of_lt h, Nat.mod_eq_of_lt (by omega)]

theorem flagsOk_setC {F : Flags4} {f : W} (h : FlagsOk F f) : FlagsOk { F with cf := some true } (f ||| FC) := by
  have e : ∀ m : W, FC &&& m = 0 → (f ||| FC) &&& m = f &&& m := by
    intro m hm
    rw [BitVec.and_comm, BitVec.and_or_distrib_left, BitVec.and_comm m FC, hm, show (0 : W) = 0#32 from rfl, BitVec.or_zero, BitVec.and_comm]
  constructor
  · intro v hv
    cases hv
    have : (f ||| FC) &&& FC = FC := by
      rw [BitVec.and_comm, BitVec.and_or_distrib_left]
      rw [show FC &&& FC = FC by decide]
      apply BitVec.eq_of_getLsbD_eq
      intro i hi
      simp only [BitVec.getLsbD_or, BitVec.getLsbD_and]
      cases FC.getLsbD i <;> simp
    rw [cfOf, this]; decide
  · intro v hv; rw [zfOf, e FZ (by decide)]; exact h.zf v hv
  · intro v hv; rw [sfOf, e FS (by decide)]; exact h.sf v hv
  · intro v hv; rw [ofOf, e FO (by decide)]; exact h.of v hv

theorem flagsOk_clrC {F : Flags4} {f : W} (h : FlagsOk F f) : FlagsOk { F with cf := some false } (f &&& ~~~FC) := by
  have e : ∀ m : W, ~~~FC &&& m = m → (f &&& ~~~FC) &&& m = f &&& m := by
    intro m hm
    rw [BitVec.and_assoc, hm]
  constructor
  · intro v hv
    cases hv
    rw [cfOf, BitVec.and_assoc, show ~~~FC &&& FC = 0#32 by decide, BitVec.and_zero]; decide
  · intro v hv; rw [zfOf, e FZ (by decide)]; exact h.zf v hv
  · intro v hv; rw [sfOf, e FS (by decide)]; exact h.sf v hv
  · intro v hv; rw [ofOf, e FO (by decide)]; exact h.of v hv

section
variable {d : St σ} {F : Flags4}

theorem lin_add {seg off : Word} {n i : Nat} (h : Cpu.inSeg seg off n) (hi : i < n) :
    Cpu.lin seg (off + BitVec.ofNat 16 i) = Cpu.lin seg off + i := by
  obtain ⟨h1, h2⟩ := h
  simp only [Cpu.lin, BitVec.toNat_add, BitVec.toNat_ofNat]
  rw [Nat.mod_eq_of_lt (show i < 2 ^ 16 by omega), Nat.mod_eq_of_lt (show off.toNat + i < 2 ^ 16 by omega),
    Nat.mod_eq_of_lt (by omega), Nat.mod_eq_of_lt (by omega)]
  omega

theorem inSeg_tail {seg off : Word} {n : Nat} (h : Cpu.inSeg seg off (n + 1)) (hn : n ≠ 0) :
    Cpu.inSeg seg (off + 1) n ∧ Cpu.lin seg (off + 1) = Cpu.lin seg off + 1 := by
  have h3 := lin_add h (show 1 < n + 1 by omega)
  obtain ⟨h1, h2⟩ := h
  have : (off + 1).toNat = off.toNat + 1 := by
    rw [BitVec.toNat_add, show (1 : Word).toNat = 1 from rfl, Nat.mod_eq_of_lt (by omega)]
  exact ⟨⟨by omega, by omega⟩, h3⟩

theorem store_eq (bs : List Byte) (c : Cpu) (seg off : Word) (h : Cpu.inSeg seg off bs.length) :
    c.store seg off bs = { c with mem := storeBytes c.mem (Cpu.lin seg off) bs } := by
  induction bs generalizing c off with
  | nil => rfl
  | cons b bs ih =>
    simp only [Cpu.store, storeBytes]
    cases bs with
    | nil => rfl
    | cons b2 bs =>
      obtain ⟨h1, h2⟩ := inSeg_tail (n := (b2 :: bs).length) h (by simp)
      rw [ih _ _ h1, h2]
      rfl

theorem bytes_eq (n : Nat) (c : Cpu) (seg off : Word) (h : Cpu.inSeg seg off n) :
    c.bytes seg n off = loadBytes c.mem (Cpu.lin seg off) n := by
  induction n generalizing off with
  | zero => rfl
  | succ n ih =>
    simp only [Cpu.bytes, loadBytes]
    cases n with
    | zero => rfl
    | succ n =>
      obtain ⟨h1, h2⟩ := inSeg_tail (n := n + 1) h (by simp)
      rw [ih _ h1, h2]
      rfl

theorem ReadAsciiz_eq (n : Nat) (off : W) (hoff : -2 ^ 30 ≤ off.toInt ∧ off.toInt + n < 2 ^ 30) (name : List Byte)
    (h : (abs d F).asciiz (abs d F).ds n (t16 off) = some name) : ReadAsciiz n DS off d = .ok name d := by
  induction n generalizing off name with
  | zero => cases h
  | succ n ih =>
    simp only [Cpu.asciiz] at h
    have hr : Read8 DS off d = .ok (((abs d F).rd8 (abs d F).ds (t16 off)).setWidth 32) d := by
      rw [Cpu.rd8, ← show t16 d.ds = (abs d F).ds from rfl, ← makeaddr_toNat]; rfl
    have h1 : (1 : W).toInt = 1 := rfl
    unfold ReadAsciiz
    rw [bind_run, hr]
    simp only
    rw [bind_run, addI_eq _ (by omega) (by omega)]
    simp only
    generalize hb : (abs d F).rd8 (abs d F).ds (t16 off) = b at *
    by_cases h0 : b = 0
    · rw [if_pos h0] at h
      cases h
      subst h0
      rfl
    · rw [if_neg h0] at h
      have hb0 : ¬ (b.setWidth 32 : W) = 0 := by
        intro e
        apply h0
        have := congrArg (BitVec.setWidth 8) e
        rwa [setWidth8_32] at this
      rw [if_neg hb0]
      cases ht : (abs d F).asciiz (abs d F).ds n (t16 off + 1) with
      | none => rw [ht] at h; cases h
      | some rest =>
        rw [ht] at h
        cases h
        have hadd := toInt_add_eq (a := off) (b := 1) (by omega) (by omega)
        rw [bind_run, ih (off + 1) (by rw [hadd]; omega) rest (by rw [t16_add]; exact ht)]
        simp only [pure_run, setWidth8_32]

/-- Result of opening a file. -/
theorem HandleOpen_ok (H : Host σ) (hs : SafeD d) (hF : FlagsOk F d.flags) (create : Bool) {c' w'}
    (h : Cpu.dos.openCall H.os (abs d F) d.world create = .next c' w') :
    wp (HandleOpen H create) d fun _ s' => Rel s' c' ∧ s'.world = w' := by
  simp only [Cpu.dos.openCall] at h
  split at h
  · cases h
  rename_i name hn
  have hdx := hs.reg 2
  change -2 ^ 28 ≤ d.dx.toInt ∧ d.dx.toInt < 2 ^ 28 at hdx
  have hra : ReadAsciiz 64 DS d.dx d = .ok name d := ReadAsciiz_eq (F := F) 64 d.dx (by omega) name hn
  unfold HandleOpen
  rw [wp_bind, wp_getReg, wp_bind]
  rw [show d.reg DX = d.dx from rfl, wp_of_eq hra, wp_bind, wp_getS]
  simp only [Host.os] at h
  generalize hop : H.openFile d.world name create = r at h ⊢
  obtain ⟨fd, w⟩ := r
  simp only at h ⊢
  rw [wp_bind, wp_modS]
  by_cases hneg : fd.slt 0 = true
  · simp only [hneg, if_true] at h ⊢
    cases h
    rw [wp_modS]
    exact ⟨⟨{ F with cf := some true }, rfl, flagsOk_setC hF⟩, rfl⟩
  · simp only [hneg, Bool.false_eq_true, if_false] at h ⊢
    cases h
    rw [wp_modS]
    exact ⟨⟨{ F with cf := some false }, rfl, flagsOk_clrC hF⟩, rfl⟩

/-- The result of a software interrupt. -/
def IntrOk (x : M σ Unit) (d : St σ) : SysOut σ → Prop
  | .next c' w' => wp x d fun _ s' => Rel s' c' ∧ s'.world = w'
  | .exit code w' => ∃ s', x d = .err (.exit (code.setWidth 32)) s' ∧ s'.world = w'
  | .undef => True

theorem intBody_ok (H : Host σ) (hH : H.Ok) (hs : SafeD d) (hF : FlagsOk F d.flags) (hh : HandleOk d) (n : Byte) :
    IntrOk (intBody H (n.setWidth 32)) d (Cpu.intr H.os n (abs d F) d.world) := by
  unfold Cpu.intr
  split
  · rename_i e
    obtain rfl : n = 0x20#8 := BitVec.eq_of_toNat_eq e
    exact ⟨d, rfl, rfl⟩
  · rename_i e
    obtain rfl : n = 0x21#8 := BitVec.eq_of_toNat_eq e
    have hfunc : d.ax.sshiftRight 8 &&& 0xff = (Cpu.hi (t16 d.ax)).setWidth 32 := by
      rw [and_ff_eq, t8_sshiftRight]
    have h21 : ((0x21#8).setWidth 32 : W) = 0x21 := by decide
    have hbody : intBody H ((0x21#8).setWidth 32) d = (
      let func : W := (Cpu.hi (t16 d.ax)).setWidth 32
      if func = 0x02 then
        modS fun s => { s with world := H.putChar s.world (s.dx &&& 0xff) }
      else if func = 0x3c then HandleOpen H true
      else if func = 0x3d then HandleOpen H false
      else if func = 0x3e then
        modS fun s => { s with world := H.closeFile s.world s.bx, flags := s.flags &&& ~~~FC }
      else if func = 0x3f then do ioResult (← ReadToMem H d.bx d.dx d.cx)
      else if func = 0x40 then do ioResult (← WriteFromMem H d.bx d.dx d.cx)
      else if func = 0x4c then fail (.exit (d.ax &&& 0xff))
      else fail .fatal : M σ Unit) d := by
      rw [← hfunc, h21]; unfold intBody; rw [if_neg (by decide), if_neg (by decide), bind_run]; rfl
    have wpEq : ∀ {x y : M σ Unit} {Q}, x d = y d → wp y d Q → wp x d Q := by
      intro x y Q h1 ⟨a, s', h2, h3⟩
      exact ⟨a, s', h1.trans h2, h3⟩
    unfold Cpu.dos
    have hax : (abs d F).ax = t16 d.ax := rfl
    rw [hax]
    unfold HandleOk at hh
    generalize Cpu.hi (t16 d.ax) = f at *
    have mkey : (MAKEADDR d.ds d.dx).toNat = Cpu.lin (abs d F).ds (abs d F).dx := makeaddr_toNat _ _
    split
    · rename_i e
      obtain rfl : f = 0x02#8 := BitVec.eq_of_toNat_eq e
      refine wpEq hbody ?_
      change wp (modS _) _ _
      rw [wp_modS]
      refine ⟨⟨F, rfl, hF⟩, ?_⟩
      simp only [Host.os]
      rw [and_ff_eq, t8_eq_lo]
      rfl
    · rename_i e
      obtain rfl : f = 0x3c#8 := BitVec.eq_of_toNat_eq e
      cases ho : Cpu.dos.openCall H.os (abs d F) d.world true with
      | next c' w' => exact wpEq hbody (HandleOpen_ok H hs hF true ho)
      | undef => trivial
      | exit code w' =>
        unfold Cpu.dos.openCall at ho
        split at ho
        · cases ho
        · split at ho <;> cases ho
    · rename_i e
      obtain rfl : f = 0x3d#8 := BitVec.eq_of_toNat_eq e
      cases ho : Cpu.dos.openCall H.os (abs d F) d.world false with
      | next c' w' => exact wpEq hbody (HandleOpen_ok H hs hF false ho)
      | undef => trivial
      | exit code w' =>
        unfold Cpu.dos.openCall at ho
        split at ho
        · cases ho
        · split at ho <;> cases ho
    · rename_i e
      obtain rfl : f = 0x3e#8 := BitVec.eq_of_toNat_eq e
      refine wpEq hbody ?_
      change wp (modS _) _ _
      rw [wp_modS]
      refine ⟨⟨{ F with cf := some false }, rfl, flagsOk_clrC hF⟩, ?_⟩
      simp only [Host.os]
      rw [show ((abs d F).bx.setWidth 32 : W) = d.bx from zext_eq (hh.1 (by simp))]
    · rename_i e
      obtain rfl : f = 0x3f#8 := BitVec.eq_of_toNat_eq e
      have hb : ((abs d F).bx.setWidth 32 : W) = d.bx := zext_eq (hh.1 (by simp))
      have hc : (BitVec.ofNat 32 (abs d F).cx.toNat : W) = d.cx := by
        rw [BitVec.ofNat_toNat]; exact zext_eq (hh.2 (by simp))
      simp only [Host.os, hb, hc]
      have hok := hH d.world d.bx d.cx
      generalize hr : H.readFile d.world d.bx d.cx = r at hok ⊢
      obtain ⟨r, data, w⟩ := r
      simp only at hok ⊢
      by_cases hneg : r.slt 0 = true ∨ r = 0
      · simp only [hneg, if_true] at hok ⊢
        subst hok
        refine wpEq hbody ?_
        change wp (do ioResult (← ReadToMem H d.bx d.dx d.cx)) d _
        unfold ReadToMem ioResult
        rw [wp_bind, wp_bind, wp_getS]
        simp only [hr]
        have : ¬ 2 ^ 20 < (MAKEADDR d.ds d.dx).toNat + ([] : List Byte).length := by
          rw [mkey, Cpu.lin]
          have := Nat.mod_lt ((abs d F).ds.toNat * 16 + (abs d F).dx.toNat) (Nat.two_pow_pos 20)
          simp only [List.length_nil]
          omega
        rw [if_neg this, wp_bind, wp_modS, wp_pure, if_pos hneg, wp_modS]
        exact ⟨⟨{ F with cf := some true }, rfl, flagsOk_setC hF⟩, rfl⟩
      · simp only [hneg, if_false] at hok ⊢
        split
        · rename_i hin
          refine wpEq hbody ?_
          change wp (do ioResult (← ReadToMem H d.bx d.dx d.cx)) d _
          unfold ReadToMem ioResult
          rw [wp_bind, wp_bind, wp_getS]
          simp only [hr]
          have hlin : Cpu.lin (abs d F).ds (abs d F).dx = (abs d F).ds.toNat * 16 + (abs d F).dx.toNat := by
            rcases Nat.eq_zero_or_pos data.length with h0 | h0
            · exfalso
              rw [h0] at hok
              exact hneg (Or.inr (BitVec.eq_of_toNat_eq hok))
            · exact Nat.mod_eq_of_lt (by have := hin.2; omega)
          have : ¬ 2 ^ 20 < (MAKEADDR d.ds d.dx).toNat + data.length := by
            rw [mkey, hlin]
            have := hin.2
            omega
          rw [if_neg this, wp_bind, wp_modS, wp_pure, if_neg hneg, wp_modS]
          refine ⟨⟨{ F with cf := some false }, ?_, flagsOk_clrC hF⟩, rfl⟩
          rw [store_eq _ _ _ _ hin, ← mkey]
          have : t16 r = BitVec.ofNat 16 data.length := by
            rw [← hok]; exact (BitVec.ofNat_toNat 16 r).symm
          rw [← this]
          rfl
        · trivial
    · rename_i e
      obtain rfl : f = 0x40#8 := BitVec.eq_of_toNat_eq e
      have hb : ((abs d F).bx.setWidth 32 : W) = d.bx := zext_eq (hh.1 (by simp))
      have hc : (abs d F).cx.toNat = d.cx.toNat := zext_toNat (hh.2 (by simp))
      have hcx : d.cx.toNat < 2 ^ 16 := hh.2 (by simp)
      split
      · rename_i hin
        rw [bytes_eq _ _ _ _ hin]
        simp only [Host.os, hb, hc] at hin ⊢
        rw [← mkey, show (abs d F).mem = d.mem from rfl]
        generalize hr : H.writeFile d.world d.bx (loadBytes d.mem (MAKEADDR d.ds d.dx).toNat d.cx.toNat) = r
        obtain ⟨r, w⟩ := r
        have hlin : (MAKEADDR d.ds d.dx).toNat + d.cx.toNat ≤ 2 ^ 20 := by
          rw [mkey, Cpu.lin]
          have h1 := hin.2
          have h2 := Nat.mod_le ((abs d F).ds.toNat * 16 + (abs d F).dx.toNat) (2 ^ 20)
          omega
        have hslt : d.cx.slt 0 = false := by
          rw [BitVec.slt, BitVec.toInt_eq_toNat_of_lt (by omega)]
          simp
        have hpre : ∀ Q, wp (ioResult r) { d with world := w } Q → wp (do ioResult (← WriteFromMem H d.bx d.dx d.cx)) d Q := by
          intro Q hq
          unfold WriteFromMem
          rw [wp_bind, wp_bind, wp_getS]
          simp only [hr]
          rw [if_neg (by rw [hslt]; simp; omega), wp_bind, wp_modS, wp_pure]
          exact hq
        by_cases hneg : r.slt 0 = true ∨ r = 0
        · simp only [hneg, if_true]
          refine wpEq hbody (hpre _ ?_)
          unfold ioResult
          rw [if_pos hneg, wp_modS]
          exact ⟨⟨{ F with cf := some true }, rfl, flagsOk_setC hF⟩, rfl⟩
        · simp only [hneg, if_false]
          refine wpEq hbody (hpre _ ?_)
          unfold ioResult
          rw [if_neg hneg, wp_modS]
          exact ⟨⟨{ F with cf := some false }, rfl, flagsOk_clrC hF⟩, rfl⟩
      · trivial
    · rename_i e
      obtain rfl : f = 0x4c#8 := BitVec.eq_of_toNat_eq e
      refine ⟨d, ?_, rfl⟩
      rw [hbody]
      change Res.err (.exit (d.ax &&& 0xff)) d = _
      rw [and_ff_eq, t8_eq_lo]
    · trivial
  · trivial

end
end Sim86
