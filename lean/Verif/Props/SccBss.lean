import Verif.Props.SccSize
import Verif.Util.KeepTac
/-!
# Global variables without initial value (C52)
-/
namespace SccBss
open Prog Scc SccCode SccSize

/-! ## Addresses in the output -/

/-- Only bytes of the output change. -/
def R (s s' : S) : Prop := ∃ o l, s' = { s with out := o, lastFixup := l }

theorem pre : Preorder R := ⟨fun s => ⟨s.out, s.lastFixup, rfl⟩, fun _ _ _ ⟨_, _, h1⟩ ⟨o, l, h2⟩ => ⟨o, l, by rw [h2, h1]⟩⟩

abbrev Keep {α : Type} (x : A α) : Prop := Pres R x

syntax "keepb" : tactic
macro_rules | `(tactic| keepb) => `(tactic| keep SccBss (intro s; exact ⟨_, _, rfl⟩))

theorem k_failIf : ∀ (x0 : Bool), Keep (Scc.failIf x0) := by
  intros; unfold Scc.failIf; keepb
theorem k_rd : ∀ (r : Nat) (k : Int), Keep (Scc.rd r k) := by
  intros; unfold Scc.rd; keepb
theorem k_wr : ∀ (r : Nat) (k : Int) (b : Byte), Keep (Scc.wr r k b) := by
  intros; unfold Scc.wr; keepb
theorem k_fixFused : ∀ (r : Nat) (f : Int), Keep (Scc.fixFused r f) := by
  intros; unfold Scc.fixFused; keepb
theorem k_fixPlain : ∀ (r : Nat) (f : Int), Keep (Scc.fixPlain r f) := by
  intros; unfold Scc.fixPlain; keepb
theorem k_fixOne (r : Nat) : Keep (Scc.fixOne r false) := by
  unfold Scc.fixOne
  simp only [Bool.false_eq_true, false_and, if_false]
  keepb
theorem k_doFixups : ∀ (n r : Nat), Keep (Scc.doFixups false n r) := by
  intro n
  induction n with
  | zero => intros; unfold Scc.doFixups; keepb
  | succ n ih => intros; unfold Scc.doFixups; keepb

/-- What `EmitGlobalLabel` does for a variable. -/
theorem label {v : Nat} {s s' : S} (h : emitGlobalLabel v s = .ok () s') (ht : (s.vars.get v).type &&& vtFun = 0) :
    (s.vars.get v).offset = 0 ∧ ∃ o l m, s' = { s with vars := s.vars.set v { s.vars.get v with offset := s.code }, dead := false, out := o, lastFixup := l, map := m } := by
  unfold emitGlobalLabel at h
  obtain ⟨_, _, e, h⟩ := bind_eq_ok.mp h
  cases e
  obtain ⟨_, s1, e1, h⟩ := bind_eq_ok.mp h
  obtain ⟨_, s2, e2, h⟩ := bind_eq_ok.mp h
  obtain ⟨_, s3, e3, h⟩ := bind_eq_ok.mp h
  unfold failIf at e1
  split at e1
  · cases e1
  next h0 =>
  cases e1
  cases e2
  refine ⟨by simpa using h0, ?_⟩
  rw [show ((s.vars.get v).type &&& vtFun != 0) = false by simp [ht]] at e3
  obtain ⟨o, l, rfl⟩ := k_doFixups _ _ _ _ _ e3
  unfold mapLine at h
  obtain ⟨_, _, e, h⟩ := bind_eq_ok.mp h
  cases e
  obtain ⟨_, s4, e4, h⟩ := bind_eq_ok.mp h
  obtain ⟨_, s5, e5, h⟩ := bind_eq_ok.mp h
  have ub : ∀ {b : Bool} {s s' : S} {a : Unit}, ubUnless b s = .ok a s' → s' = s := by
    intro b s s' a h
    unfold ubUnless at h
    split at h <;> cases h
    rfl
  obtain rfl := ub e4
  obtain rfl := ub e5
  cases h
  exact ⟨_, _, _, rfl⟩

/-! ## Sizes -/

namespace Eq
def R (s s' : S) : Prop := s' = s
theorem pre : Preorder R := ⟨fun _ => rfl, fun _ _ _ h1 h2 => by unfold R at *; rw [h2, h1]⟩
syntax "keepe" : tactic
macro_rules | `(tactic| keepe) => `(tactic| keep SccBss.Eq skip)
theorem k_failIf : ∀ (x0 : Bool), Pres R (Scc.failIf x0) := by
  intros; unfold Scc.failIf; keepe
theorem k_arrayAt : ∀ (x0 : Int), Pres R (Scc.arrayAt x0) := by
  intros; unfold Scc.arrayAt; keepe
theorem k_sizeMembers : ∀ (f : Nat → Int → A Nat), (∀ t e, Pres R (f t e)) → ∀ (u : Bool) (n : Nat) (o : Option Nat) (z : Nat), Pres R (Scc.sizeMembers f u n o z) := by
  intro f hf u n
  induction n with
  | zero => intros; unfold Scc.sizeMembers; keepe
  | succ n ih => intro o z; cases o <;> unfold Scc.sizeMembers <;> keepe
theorem k_sizeofType : ∀ (n : Nat) (t : Nat) (e : Int), Pres R (Scc.sizeofType n t e) := by
  intro n
  induction n with
  | zero => intros; unfold Scc.sizeofType; keepe
  | succ n ih => intros; unfold Scc.sizeofType; keepe
end Eq


mutual
theorem repr_congr {s s' : S} (h1 : s'.arrays = s.arrays) (h2 : s'.structs = s.structs) (h3 : s'.members = s.members) {ty : Nat} {ex : Int} {t : CT} (h : Repr s ty ex t) : Repr s' ty ex t := by
  cases h with
  | ptr h => exact .ptr h
  | int h hb => exact .int h hb
  | char h hb => exact .char h hb
  | arr h hb hk h0 ht =>
    rename_i k t
    have := Repr.arr (s := s') (k := k) (t := t) h hb hk (by rw [h1]; exact h0) (by rw [h1]; exact repr_congr h1 h2 h3 ht)
    rwa [h1] at this
  | struct h hb hk hu hm => exact .struct h hb hk (by rw [h2]; exact hu) (by rw [h2]; exact reprMems_congr h1 h2 h3 hm)
  | union h hb hk hu hm => exact .union h hb hk (by rw [h2]; exact hu) (by rw [h2]; exact reprMems_congr h1 h2 h3 hm)
theorem reprMems_congr {s s' : S} (h1 : s'.arrays = s.arrays) (h2 : s'.structs = s.structs) (h3 : s'.members = s.members) {o : Option Nat} {ms : Mems} (h : ReprMems s o ms) : ReprMems s' o ms := by
  cases h with
  | nil => exact .nil
  | cons ht hm =>
    rename_i k t ms
    have := ReprMems.cons (s := s') (k := k) (t := t) (ms := ms) (by rw [h3]; exact repr_congr h1 h2 h3 ht) (by rw [h3]; exact reprMems_congr h1 h2 h3 hm)
    rwa [h3] at this
end

/-! ## The loop over the variables -/

/-- What the placing of variables does not change. -/
structure Same (s s' : S) : Prop where
  arrays : s'.arrays = s.arrays
  structs : s'.structs = s.structs
  members : s'.members = s.members
  scopes : s'.scopes = s.scopes
  bss : s'.bss = s.bss

theorem Same.trans {s s' s'' : S} (h1 : Same s s') (h2 : Same s' s'') : Same s s'' :=
  ⟨h2.1.trans h1.1, h2.2.trans h1.2, h2.3.trans h1.3, h2.4.trans h1.4, h2.5.trans h1.5⟩

/-- A global variable that has no address yet. -/
def Free (s : S) (v : Nat) : Prop := v ≠ vEbss ∧ (s.vars.get v).type &&& vtLocMask = vtLocGlob ∧ (s.vars.get v).offset = 0

/-- The variables `v, …, v + n - 1` that had no address get addresses `a` and have room for `k` bytes. -/
structure Placed (s s' : S) (v n : Nat) (a k : Nat → Nat) : Prop where
  same : Same s s'
  code : s.code ≤ s'.code
  keep : ∀ w, w < 512 → ¬(v ≤ w ∧ w < v + n ∧ Free s w) → s'.vars.get w = s.vars.get w
  put : ∀ w, v ≤ w → w < v + n → Free s w → s'.vars.get w = { s.vars.get w with offset := a w }
  var : ∀ w, v ≤ w → w < v + n → Free s w → (s.vars.get w).type &&& vtFun = 0
  lower : ∀ w, v ≤ w → w < v + n → Free s w → s.code ≤ a w
  upper : ∀ w, v ≤ w → w < v + n → Free s w → a w + k w ≤ s'.code
  size : ∀ w, v ≤ w → w < v + n → Free s w → ∀ t, Repr s (s.vars.get w).type (s.vars.get w).extra t → t.small sizeFuel → t.size < 2 ^ 30 → k w = t.size
  order : ∀ w w', v ≤ w → w < w' → w' < v + n → Free s w → Free s w' → a w + k w ≤ a w'

theorem Free.congr {s s' : S} {w : Nat} (h : s'.vars.get w = s.vars.get w) : Free s' w ↔ Free s w := by
  unfold Free
  rw [h]

theorem place : ∀ (n v : Nat) (s s' : S), placeVars n v s = .ok () s' → v + n ≤ 512 → ∃ a k, Placed s s' v n a k := by
  intro n
  induction n with
  | zero =>
    intro v s s' h _
    cases h
    exact ⟨fun _ => 0, fun _ => 0, ⟨rfl, rfl, rfl, rfl, rfl⟩, Nat.le_refl _, fun _ _ _ => rfl, by omega, by omega, by omega, by omega, by omega, by omega⟩
  | succ n ih =>
    intro v s s' h hb
    unfold placeVars at h
    obtain ⟨_, s1, e, h⟩ := bind_eq_ok.mp h
    cases e
    obtain ⟨_, _, e, h⟩ := bind_eq_ok.mp h
    cases e
    have step : ∃ s2, placeVars n (v + 1) s2 = .ok () s' ∧ Same s s2 ∧ ((¬Free s v ∧ s2.vars = s.vars ∧ s2.code = s.code) ∨ (Free s v ∧ (s.vars.get v).type &&& vtFun = 0 ∧
        s2.vars = s.vars.set v { s.vars.get v with offset := s.code } ∧ ∃ k0, s2.code = s.code + k0 ∧
        ∀ t, Repr s (s.vars.get v).type (s.vars.get v).extra t → t.small sizeFuel → t.size < 2 ^ 30 → k0 = t.size)) := by
      by_cases hc : (s.vars.get v).type &&& vtLocMask ≠ vtLocGlob ∨ (s.vars.get v).offset ≠ 0 ∨ v = vEbss
      · have h' := h
        refine ⟨{ s with type := (s.vars.get v).type }, ?_, ⟨rfl, rfl, rfl, rfl, rfl⟩, .inl ⟨?_, rfl, rfl⟩⟩
        · rw [← h']; exact (run_pos (c := (s.vars.get v).type &&& vtLocMask ≠ vtLocGlob ∨ (s.vars.get v).offset ≠ 0 ∨ v = vEbss) hc rfl).symm
        · rintro ⟨h1, h2, h3⟩
          rcases hc with hc | hc | hc
          · exact hc h2
          · exact hc h3
          · exact h1 hc
      · change (if (s.vars.get v).type &&& vtLocMask ≠ vtLocGlob ∨ (s.vars.get v).offset ≠ 0 ∨ v = vEbss then (_ : A Unit) else (_ : A Unit)) _ = _ at h
        rw [if_neg hc] at h
        have hc : (s.vars.get v).type &&& vtLocMask = vtLocGlob ∧ (s.vars.get v).offset = 0 ∧ v ≠ vEbss := by simpa only [not_or, ne_eq, Decidable.not_not] using hc
        obtain ⟨_, s3, e3, h⟩ := bind_eq_ok.mp h
        unfold failIf at e3
        split at e3
        · cases e3
        next hty =>
        cases e3
        have hty : (s.vars.get v).type &&& vtFun = 0 := by simpa using hty
        obtain ⟨_, s4, e4, h⟩ := bind_eq_ok.mp h
        obtain ⟨_, o, l, m, e9⟩ := label e4 hty
        obtain ⟨k0, s5, e5, h5⟩ := bind_eq_ok.mp h
        obtain rfl := Eq.k_sizeofType _ _ _ _ _ _ e5
        obtain ⟨_, s6, e6, h6⟩ := bind_eq_ok.mp h5
        cases e6
        have hs : Same s s5 := by subst e9; exact ⟨rfl, rfl, rfl, rfl, rfl⟩
        have hv : s5.vars = s.vars.set v { s.vars.get v with offset := s.code } := by subst e9; rfl
        have hcd : s5.code = s.code := by subst e9; rfl
        refine ⟨_, h6, ⟨hs.1, hs.2, hs.3, hs.4, hs.5⟩, .inr ⟨⟨hc.2.2, hc.1, hc.2.1⟩, hty, hv, k0, congrArg (· + k0) hcd, fun t ht h1 h2 => ?_⟩⟩
        have e7 := sizeof_spec sizeFuel t _ _ (repr_congr hs.1 hs.2 hs.3 ht) h1 h2
        have e8 := e5.symm.trans e7
        injection e8
    obtain ⟨s2, h2, hs, hc⟩ := step
    obtain ⟨a, k, P⟩ := ih (v + 1) s2 s' h2 (by omega)
    clear h h2 ih
    have hcode := P.code
    rcases hc with ⟨hf, hv, hc⟩ | ⟨hf, hty, hv, k0, hc, hk⟩
    · have up : ∀ {w : Nat}, v ≤ w → Free s w → v + 1 ≤ w := fun {w} h1 h2 => by
        rcases Nat.eq_or_lt_of_le h1 with rfl | h
        · exact absurd h2 hf
        · exact h
      have hfr : ∀ {w : Nat}, Free s2 w ↔ Free s w := fun {w} => Free.congr (by rw [hv])
      refine ⟨a, k, hs.trans P.same, by omega,
        fun w h1 h2 => (P.keep w h1 fun h => h2 ⟨by omega, by omega, hfr.1 h.2.2⟩).trans (by rw [hv]),
        fun w h1 h2 h3 => (P.put w (up h1 h3) (by omega) (hfr.2 h3)).trans (by rw [hv]),
        fun w h1 h2 h3 => ?_,
        fun w h1 h2 h3 => hc ▸ P.lower w (up h1 h3) (by omega) (hfr.2 h3),
        fun w h1 h2 h3 => P.upper w (up h1 h3) (by omega) (hfr.2 h3),
        fun w h1 h2 h3 t ht => P.size w (up h1 h3) (by omega) (hfr.2 h3) t (by rw [hv]; exact repr_congr hs.1 hs.2 hs.3 ht),
        fun w w' h1 h2 h3 h4 h5 => P.order w w' (up h1 h4) h2 (by omega) (hfr.2 h4) (hfr.2 h5)⟩
      have := P.var w (up h1 h3) (by omega) (hfr.2 h3)
      rwa [hv] at this
    · have hne : ∀ {w : Nat}, w < 512 → w ≠ v → s2.vars.get w = s.vars.get w := fun {w} h1 h2 => by rw [hv]; exact Tab.get_set_ne _ _ (by omega) h1 (Ne.symm h2)
      have hself : s2.vars.get v = { s.vars.get v with offset := s.code } := by rw [hv]; exact Tab.get_set_self _ _ _
      have hfr : ∀ {w : Nat}, w < 512 → w ≠ v → Free s w → Free s2 w := fun {w} h1 h2 h3 => (Free.congr (hne h1 h2)).2 h3
      have hkeep : s'.vars.get v = { s.vars.get v with offset := s.code } := (P.keep v (by omega) (by omega)).trans hself
      refine ⟨fun w => if w = v then s.code else a w, fun w => if w = v then k0 else k w, hs.trans P.same, by omega, ?_, ?_, ?_, ?_, ?_, ?_, ?_⟩ <;> try dsimp only
      · intro w h1 h2
        have hw : w ≠ v := by rintro rfl; exact h2 ⟨by omega, by omega, hf⟩
        rw [P.keep w h1 fun h => h2 ⟨by omega, by omega, (Free.congr (hne h1 hw)).1 h.2.2⟩]
        exact hne h1 hw
      all_goals intro w
      · intro h1 h2 h3
        by_cases hw : w = v
        · subst hw; rw [if_pos rfl]; exact hkeep
        · rw [if_neg hw, P.put w (by omega) (by omega) (hfr (by omega) hw h3), hne (by omega) hw]
      · intro h1 h2 h3
        by_cases hw : w = v
        · subst hw; exact hty
        · have := P.var w (by omega) (by omega) (hfr (by omega) hw h3)
          rwa [hne (by omega) hw] at this
      · intro h1 h2 h3
        by_cases hw : w = v
        · rw [if_pos hw]; exact Nat.le_refl _
        · rw [if_neg hw]
          have := P.lower w (by omega) (by omega) (hfr (by omega) hw h3)
          omega
      · intro h1 h2 h3
        by_cases hw : w = v
        · rw [if_pos hw, if_pos hw]; omega
        · rw [if_neg hw, if_neg hw]
          exact P.upper w (by omega) (by omega) (hfr (by omega) hw h3)
      · intro h1 h2 h3 t ht
        by_cases hw : w = v
        · subst hw; rw [if_pos rfl]; exact hk t ht
        · rw [if_neg hw]
          exact P.size w (by omega) (by omega) (hfr (by omega) hw h3) t (by rw [hne (by omega) hw]; exact repr_congr hs.1 hs.2 hs.3 ht)
      · intro w' h1 h2 h3 h4 h5
        rw [if_neg (by omega : w' ≠ v)]
        by_cases hw : w = v
        · rw [if_pos hw, if_pos hw]
          have := P.lower w' (by omega) (by omega) (hfr (by omega) (by omega) h5)
          omega
        · rw [if_neg hw, if_neg hw]
          exact P.order w w' (by omega) h2 (by omega) (hfr (by omega) hw h4) (hfr (by omega) (by omega) h5)

/-- A global variable without initial value: it has no address before the end of the compilation. The first three records are `_start`, `_SBSS` and `_EBSS`. -/
def Var (s : S) (v : Nat) : Prop := v < s.scopes.get 0 ∧ v ≠ vSbss ∧ Free s v

/-- `int a; char b[3]; int _start() {}`, read to its end. -/
def exRun : Res S Unit := (prelude >>= fun _ => externals 20 20) (init (Text.asc "int a;char b[3];int _start(){}\n"))

/-- What is checked in the two states of the example. -/
def exFacts (s s' : S) : Prop :=
  s.scopes.get 0 = 5 ∧ s.code = 0x107 ∧ (s.vars.get 1).type = vtChar ||| vtLocGlob ∧ (s.vars.get 2).type = vtChar ||| vtLocGlob ∧ (s.vars.get 3).type = vtInt ||| vtLocGlob ∧ (s.vars.get 3).offset = 0 ∧
  (s.vars.get 4).type = vtArray ||| vtLocGlob ∧ (s.vars.get 4).offset = 0 ∧ (s.vars.get 4).extra = ((0 : Nat) : Int) ∧ (s.arrays.get 0).bound = 3 ∧ (s.arrays.get 0).type = vtChar ∧
  (s'.vars.get 3).offset = 0x107 ∧ (s'.vars.get 4).offset = 0x109 ∧ s.bss = 5

instance (s s' : S) : Decidable (exFacts s s') := by unfold exFacts; infer_instance

def exCheck : Bool := match exRun with
  | .ok _ s => match finish s with
    | .ok _ s' => decide (exFacts s s')
    | .err _ => false
  | .err _ => false

end SccBss

namespace Props
open Prog Text Scc SccCode SccSize SccBss

/-- **C52**. Let `s` be the state of the compiler when it has read the whole file and `s'` the state at its end. The global variables without initial value follow the program: `_SBSS` is the end of
the program and `_EBSS` is as far behind it as the counted sizes say. Every variable lies between the two, has room for its type, and different variables do not overlap. The addresses of
everything else stay as they are. The file ends where the variables begin. -/
theorem C52_variables (s s' : S) (h : finish s = .ok () s') (hn : s.scopes.get 0 ≤ varDeclMax) (hc : codeStart ≤ s.code) (h1 : (s.vars.get vSbss).type &&& vtFun = 0)
    (h2 : (s.vars.get vEbss).type &&& vtFun = 0) :
    (s'.vars.get vSbss).offset = s.code ∧ (s'.vars.get vEbss).offset = s.code + s.bss ∧ (image s').length = s.code - codeStart ∧ ∃ a k : Nat → Nat,
      (∀ v, Var s v → (s.vars.get v).type &&& vtFun = 0 ∧ (s'.vars.get v).offset = a v ∧ s.code ≤ a v ∧ a v + k v ≤ s.code + s.bss ∧
        ∀ t, Repr s (s.vars.get v).type (s.vars.get v).extra t → t.small sizeFuel → t.size < 2 ^ 30 → k v = t.size) ∧
      (∀ v w, v < w → Var s v → Var s w → a v + k v ≤ a w) ∧
      ∀ v, v < varDeclMax → v ≠ vSbss → v ≠ vEbss → ¬Var s v → s'.vars.get v = s.vars.get v := by
  have hmax : varDeclMax = 380 := rfl
  have hpos : 0 < codeStart := by decide
  unfold finish at h
  obtain ⟨_, _, e, h⟩ := bind_eq_ok.mp h
  cases e
  obtain ⟨_, s0, e0, h⟩ := bind_eq_ok.mp h
  unfold failIf at e0
  split at e0
  · cases e0
  cases e0
  obtain ⟨_, s1, e1, h⟩ := bind_eq_ok.mp h
  obtain ⟨hz, o, l, m, hs1⟩ := label e1 h1
  obtain ⟨_, _, e, h⟩ := bind_eq_ok.mp h
  cases e
  obtain ⟨_, s2, e2, h⟩ := bind_eq_ok.mp h
  have hv1 : s1.vars = s.vars.set 1 { s.vars.get 1 with offset := s.code } := by subst hs1; rfl
  have hc1 : s1.code = s.code := by subst hs1; rfl
  have hsame : Same s s1 := by subst hs1; exact ⟨rfl, rfl, rfl, rfl, rfl⟩
  obtain ⟨a, k, P⟩ := place _ _ _ _ e2 (by rw [hsame.scopes]; omega)
  rw [hsame.scopes] at P
  obtain ⟨_, _, e, h⟩ := bind_eq_ok.mp h
  cases e
  obtain ⟨_, s3, e3, h⟩ := bind_eq_ok.mp h
  unfold failIf at e3
  split at e3
  · cases e3
  next hb =>
  cases e3
  have hne1 : ∀ {w : Nat}, w < 512 → w ≠ 1 → s1.vars.get w = s.vars.get w := fun {w} h1 h2 => by rw [hv1]; exact Tab.get_set_ne _ _ (by omega) h1 (Ne.symm h2)
  have hs1g : s1.vars.get 1 = { s.vars.get 1 with offset := s.code } := by rw [hv1]; exact Tab.get_set_self _ _ _
  have hnf : ¬Free s1 1 := fun hf => by
    have := hf.2.2
    rw [hs1g] at this
    have : (s.code : Int) = 0 := this
    omega
  have hg1 : s2.vars.get 1 = { s.vars.get 1 with offset := s.code } := (P.keep 1 (by omega) fun h => hnf h.2.2).trans hs1g
  have hg2 : s2.vars.get 2 = s.vars.get 2 := (P.keep 2 (by omega) fun h => h.2.2.1 rfl).trans (hne1 (by omega) (by omega))
  have hbss : (s2.code : Int) - s.code = s.bss := by
    have : (s2.code : Int) - (s2.vars.get vSbss).offset = s2.bss := by simpa using hb
    rw [hg1, P.same.bss, hsame.bss] at this
    exact this
  obtain ⟨_, s4, e4, h⟩ := bind_eq_ok.mp h
  obtain ⟨hz2, o2, l2, m2, hs4⟩ := label e4 (by rw [hg2]; exact h2)
  obtain ⟨_, _, e, h⟩ := bind_eq_ok.mp h
  cases e
  unfold ubUnless at h
  split at h
  case isFalse => cases h
  next hub =>
  cases h
  have hv4 : s'.vars = s2.vars.set 2 { s2.vars.get 2 with offset := s2.code } := by subst hs4; rfl
  have hc4 : s'.code = s2.code := by subst hs4; rfl
  have hb4 : s'.bss = s.bss := by rw [← hsame.bss, ← P.same.bss]; subst hs4; rfl
  have hne4 : ∀ {w : Nat}, w < 512 → w ≠ 2 → s'.vars.get w = s2.vars.get w := fun {w} h1 h2 => by rw [hv4]; exact Tab.get_set_ne _ _ (by omega) h1 (Ne.symm h2)
  have hfree : ∀ {v : Nat}, v < 512 → v ≠ 1 → (Free s1 v ↔ Free s v) := fun {v} h1 h2 => Free.congr (hne1 h1 h2)
  refine ⟨?_, ?_, ?_, a, k, fun v hv => ?_, fun v w hvw hv hw => ?_, fun v hlt hn1 hn2 hv => ?_⟩
  · rw [hne4 (w := vSbss) (by decide) (by decide)]
    show (s2.vars.get 1).offset = _
    rw [hg1]
  · rw [hv4, Tab.get_set_self]
    show (s2.code : Int) = _
    omega
  · unfold image
    rw [List.length_map, List.length_range, hb4, hc4]
    omega
  · obtain ⟨hv1, hv2, hv3⟩ := hv
    have hlt : v < 512 := by omega
    have hF := (hfree hlt hv2).2 hv3
    have q := hne1 hlt hv2
    have e1 := P.put v (by omega) (by omega) hF
    have e2 := P.var v (by omega) (by omega) hF
    have e3 := P.lower v (by omega) (by omega) hF
    have e4 := P.upper v (by omega) (by omega) hF
    have e5 := P.size v (by omega) (by omega) hF
    rw [q] at e1 e2 e5
    refine ⟨e2, ?_, by omega, by omega, fun t ht => e5 t (repr_congr hsame.1 hsame.2 hsame.3 ht)⟩
    rw [hne4 hlt hv3.1, e1]
  · have := hw.1
    exact P.order v w (by omega) hvw (by omega) ((hfree (by omega) hv.2.1).2 hv.2.2) ((hfree (by omega) hw.2.1).2 hw.2.2)
  · rw [hne4 (by omega) hn2, P.keep v (by omega) fun hh => hv ⟨by omega, hn1, (hfree (by omega) hn1).1 hh.2.2⟩]
    exact hne1 (by omega) hn1

/-- The variables of the example: `a` at the end of the program, `b` two bytes behind it. -/
example : ∃ s s', exRun = .ok () s ∧ finish s = .ok () s' ∧ Var s 3 ∧ Var s 4 ∧ Repr s (s.vars.get 4).type (s.vars.get 4).extra (.arr 3 .char) ∧ (s'.vars.get 3).offset = 0x107 ∧
    (s'.vars.get 4).offset = 0x109 ∧ (s'.vars.get vSbss).offset = 0x107 ∧ (s'.vars.get vEbss).offset = 0x10C ∧ (image s').length = 7 := by
  have h : exCheck = true := by decide +kernel
  unfold exCheck at h
  generalize exRun = r at h ⊢
  cases r with
  | err e => cases h
  | ok u s =>
  dsimp only at h
  cases hf : finish s with
  | err e => rw [hf] at h; cases h
  | ok u' s' =>
  rw [hf] at h
  obtain ⟨f0, f1, f2, f3, f4, f5, f6, f7, f8, f9, f10, f11, f12, f13⟩ := of_decide_eq_true h
  obtain ⟨h1, h2, h3, _⟩ := C52_variables s s' hf (by rw [f0]; decide) (by rw [f1]; decide) (by rw [f2]; decide) (by rw [f3]; decide)
  refine ⟨s, s', rfl, hf, ⟨by rw [f0]; decide, by decide, by decide, by rw [f4]; decide, f5⟩, ⟨by rw [f0]; decide, by decide, by decide, by rw [f6]; decide, f7⟩, ?_, f11, f12, by rw [h1, f1]; rfl,
    by rw [h2, f1, f13]; rfl, by rw [h3, f1]; rfl⟩
  have := Repr.arr (s := s) (ty := (s.vars.get 4).type) (k := 0) (t := .char) (by rw [f6]; decide) (by rw [f6]; decide) (by decide) (by rw [f9]; decide) (.char (by rw [f10]; decide) (by rw [f10]; decide))
  rw [f9] at this
  rw [f8]
  exact this

end Props
