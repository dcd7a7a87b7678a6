import Verif.Input.Model
/-!
# C25, C29, C44: the input does not depend on how `read` splits the file
-/
namespace Props.Input
open _root_.Input

/-! ## Specification -/

/-- The first `n` characters of a file, with zeros behind the end. -/
def stream (data : List Byte) (n : Nat) : List Byte := (List.range n).map fun i => data.getD i 0

/-- The characters seen by calling a reader `n` times. -/
def chars {σ : Type} (next : σ → Option σ) (cur : σ → Byte) : Nat → σ → Option (List Byte)
  | 0, _ => some []
  | n + 1, s => do
    let s ← next s
    let cs ← chars next cur n s
    pure (cur s :: cs)

/-- The abstract preprocessor input: the current character and, for each open file, the character to return to and the text not yet seen. -/
structure Abs where
  cur : Byte
  top : List Byte
  saved : List (Byte × List Byte)

/-- One operation on it.  Three files may be open besides the output. -/
def Abs.op (a : Abs) : Op → Option Abs
  | .read | .fast => some { a with cur := a.top.headD 0, top := a.top.tail }
  | .enter d => if a.saved.length < 2 then some { a with top := d, saved := (a.cur, a.top) :: a.saved } else none
  | .leave => match a.saved with
    | [] => none
    | (c, t) :: l => some { cur := c, top := t, saved := l }

def Abs.run : Abs → List Op → Option (List Byte)
  | _, [] => some []
  | a, o :: l => do
    let a ← a.op o
    let cs ← a.run l
    pure (a.cur :: cs)

/-! ## Proof -/

theorem stream_cons (c : Byte) (l : List Byte) (n : Nat) : stream (c :: l) (n + 1) = c :: stream l n := by
  unfold stream
  rw [List.range_succ_eq_map]
  simp [Function.comp_def]

theorem stream_nil (n : Nat) : stream [] (n + 1) = 0 :: stream [] n := by
  unfold stream
  rw [List.range_succ_eq_map]
  simp [Function.comp_def]

/-- A reader that keeps an invariant and delivers the text that is pending. -/
theorem chars_of {σ : Type} {next : σ → Option σ} {cur : σ → Byte} {Inv : σ → List Byte → Prop}
    (h : ∀ s l, Inv s l → ∃ s', next s = some s' ∧ cur s' = l.headD 0 ∧ Inv s' l.tail) :
    ∀ n s l, Inv s l → chars next cur n s = some (stream l n)
  | 0, _, _, _ => rfl
  | n + 1, s, l, hi => by
    obtain ⟨s', h1, h2, h3⟩ := h s l hi
    unfold chars
    rw [h1]
    show (chars next cur n s' >>= fun cs => some (cur s' :: cs)) = _
    rw [chars_of h n s' _ h3, h2]
    cases l with
    | nil => rw [stream_nil]; rfl
    | cons c l => rw [stream_cons]; rfl

theorem deliver_le {w n : Nat} {l : List Byte} : deliver w n l ≤ n ∧ deliver w n l ≤ l.length := by
  unfold deliver; omega

theorem deliver_zero {w n : Nat} {l : List Byte} (hn : 0 < n) : deliver w n l = 0 ↔ l = [] := by
  unfold deliver
  constructor
  · intro h
    exact List.length_eq_zero_iff.mp (by omega)
  · rintro rfl; simp

theorem fill_get {buf : Buf} {l : List Byte} {i : Nat} (h : i < l.length) : fill buf l i = l[i] := by
  simp [fill, h]

/-! ### sas.c -/

/-- The text pending. -/
structure SasInv (s : Sas) (l : List Byte) : Prop where
  cnt : s.cnt ≤ s.size
  size : s.size ≤ 512
  text : l = (List.range (s.size - s.cnt)).map (fun i => s.buf (s.cnt + i)) ++ s.rest

theorem sas_next (sched : Nat → Nat) (s : Sas) (l : List Byte) (h : SasInv s l) :
    ∃ s', s.readChar sched = some s' ∧ s'.cur = l.headD 0 ∧ SasInv s' l.tail := by
  obtain ⟨h1, h2, h3⟩ := h
  unfold Sas.readChar
  by_cases hc : s.cnt = s.size
  · rw [if_pos hc]
    have hl : l = s.rest := by rw [h3, hc]; simp
    subst hl
    have hd := deliver_le (w := sched s.calls) (n := 512) (l := s.rest)
    by_cases hk : deliver (sched s.calls) 512 s.rest = 0
    · have hr := (deliver_zero (by decide)).mp hk
      simp only [hk, if_true]
      refine ⟨_, rfl, by simp [hr], ⟨by simp, by simp, by simp [hr]⟩⟩
    · simp only [if_neg hk]
      obtain ⟨c, r, hr⟩ : ∃ c r, s.rest = c :: r := by
        cases e : s.rest with
        | nil => exact absurd ((deliver_zero (by decide)).mpr e) hk
        | cons c r => exact ⟨c, r, rfl⟩
      refine ⟨_, rfl, ?_, ⟨by dsimp only; omega, by dsimp only; omega, ?_⟩⟩
      · dsimp only
        rw [fill_get (by simp; omega)]
        simp [hr]
      · dsimp only
        generalize hkk : deliver (sched s.calls) 512 s.rest = k at *
        rw [hr] at hd ⊢
        simp only [List.length_cons] at hd
        obtain ⟨m, rfl⟩ : ∃ m, k = m + 1 := ⟨k - 1, by omega⟩
        simp only [List.tail_cons, List.take_succ_cons, List.drop_succ_cons, Nat.add_sub_cancel]
        refine (List.take_append_drop m r).symm.trans ?_
        congr 1
        apply List.ext_getElem
        · simp; omega
        · intro i g1 g2
          simp at g1 g2
          simp only [List.getElem_map, List.getElem_range]
          rw [fill_get (by simp; omega)]
          simp [Nat.add_comm 1 i]
  · rw [if_neg hc, if_pos (by omega)]
    obtain ⟨m, hm⟩ : ∃ m, s.size - s.cnt = m + 1 := ⟨s.size - s.cnt - 1, by omega⟩
    rw [hm, List.range_succ_eq_map] at h3
    simp only [List.map_cons, List.map_map, List.cons_append] at h3
    refine ⟨_, rfl, by rw [h3]; simp, ⟨by dsimp only; omega, h2, ?_⟩⟩
    rw [h3]
    dsimp only [List.tail_cons]
    rw [show s.size - (s.cnt + 1) = m by omega]
    congr 1
    apply List.map_congr_left
    intro i _
    show s.buf (s.cnt + (i + 1)) = s.buf (s.cnt + 1 + i)
    rw [show s.cnt + (i + 1) = s.cnt + 1 + i by omega]

/-! ### Buffers with a terminator -/

/-- In the buffer, from `ptr` on, up to a terminator within `max`, is `l1`. -/
def Holds (buf : Buf) (ptr max : Nat) (l1 : List Byte) : Prop :=
  ptr + l1.length ≤ max ∧ (∀ i (h : i < l1.length), buf (ptr + i) = l1[i]) ∧ buf (ptr + l1.length) = 0 ∧ 0 ∉ l1

theorem Holds.cons {buf : Buf} {ptr max : Nat} {c : Byte} {l1 : List Byte} (h : Holds buf ptr max (c :: l1)) :
    buf ptr = c ∧ c ≠ 0 ∧ Holds buf (ptr + 1) max l1 := by
  obtain ⟨h1, h2, h3, h4⟩ := h
  simp only [List.length_cons] at h1 h3
  simp only [List.mem_cons, not_or] at h4
  refine ⟨h2 0 (by simp), fun h => h4.1 h.symm, by omega, fun i hi => ?_, ?_, h4.2⟩
  · have := h2 (i + 1) (by simp; omega)
    simp only [List.getElem_cons_succ] at this
    rw [← this]; congr 1; omega
  · rw [show ptr + 1 + l1.length = ptr + (l1.length + 1) by omega]; exact h3

theorem Holds.nil {buf : Buf} {ptr max : Nat} (h : Holds buf ptr max []) : buf ptr = 0 := by simpa using h.2.2.1

/-- After `read`. -/
theorem holds_fill {buf : Buf} {max k : Nat} {l : List Byte} (hk : k ≤ max) (hl : k ≤ l.length) (h0 : 0 ∉ l) :
    Holds (term (fill buf (l.take k)) k) 0 max (l.take k) := by
  have e : (l.take k).length = k := by simp; omega
  refine ⟨by omega, fun i hi => ?_, ?_, fun h => h0 (List.mem_of_mem_take h)⟩
  · unfold term
    rw [if_neg (by omega), Nat.zero_add, fill_get hi]
  · unfold term
    rw [if_pos (by omega)]

/-! ### scc.c -/

def SccInv (s : Scc) (l : List Byte) : Prop := 0 ∉ l ∧ ∃ l1, Holds s.buf s.ptr 512 l1 ∧ l = l1 ++ s.rest

theorem scc_next (sched : Nat → Nat) (s : Scc) (l : List Byte) (h : SccInv s l) :
    ∃ s', s.nextChar sched = some s' ∧ s'.cur = l.headD 0 ∧ SccInv s' l.tail := by
  obtain ⟨h0, l1, h1, h2⟩ := h
  have hp : s.ptr < 513 := by have := h1.1; omega
  unfold Scc.nextChar
  rw [if_neg (by omega)]
  cases l1 with
  | cons c l1 =>
    obtain ⟨g1, g2, g3⟩ := h1.cons
    rw [if_pos (by rw [g1]; exact g2)]
    subst h2
    refine ⟨_, rfl, by simpa using g1, fun h => h0 (List.mem_of_mem_tail h), l1, g3, rfl⟩
  | nil =>
    rw [if_neg (by rw [h1.nil]; simp)]
    have h2 : l = s.rest := h2
    subst h2
    have hd := deliver_le (w := sched s.calls) (n := 512) (l := s.rest)
    have hf := holds_fill (buf := s.buf) hd.1 hd.2 h0
    by_cases hk : deliver (sched s.calls) 512 s.rest = 0
    · have hr := (deliver_zero (by decide)).mp hk
      simp only [hk, if_true]
      rw [hk] at hf
      refine ⟨_, rfl, by simp [hr], by simp [hr], [], hf, by simp [hr]⟩
    · simp only [if_neg hk]
      generalize deliver (sched s.calls) 512 s.rest = k at *
      obtain ⟨c, r, hr⟩ : ∃ c r, s.rest = c :: r := by
        cases e : s.rest with
        | nil => rw [e] at hd; simp at hd; omega
        | cons c r => exact ⟨c, r, rfl⟩
      obtain ⟨m, rfl⟩ : ∃ m, k = m + 1 := ⟨k - 1, by omega⟩
      rw [hr] at hf h0 ⊢
      rw [List.take_succ_cons] at hf ⊢
      obtain ⟨g1, g2, g3⟩ := hf.cons
      refine ⟨_, rfl, by simpa using g1, fun h => h0 (List.mem_of_mem_tail h), r.take m, g3, ?_⟩
      simp

theorem scc_fast (sched : Nat → Nat) (s : Scc) (hb : s.ptr < 513) : s.fastChar sched = s.nextChar sched := by
  unfold Scc.fastChar
  rw [if_neg (by omega)]
  dsimp only
  by_cases hz : s.buf s.ptr = 0
  · rw [if_neg (by rw [hz]; simp)]
    unfold Scc.nextChar
    dsimp only
    rw [Nat.add_sub_cancel]
  · rw [if_pos hz]
    unfold Scc.nextChar
    rw [if_neg (by omega), if_pos hz]

/-! ### scpp.c -/

/-- An open file with its text. -/
def FileInv (f : PFile) (ptr : Nat) (l : List Byte) : Prop := 0 ∉ l ∧ ∃ l1, Holds f.buf ptr 511 l1 ∧ l = l1 ++ f.rest

/-- The files below the top: number `i` is the innermost. -/
def Saved (files : Nat → PFile) : Nat → List (Byte × List Byte) → Prop
  | _, [] => True
  | i, (c, l) :: r => (files i).last = c ∧ FileInv (files i) (files i).ptr l ∧ Saved files (i - 1) r

structure PpInv (s : Pp) (a : Abs) : Prop where
  num : s.num = a.saved.length + 2
  cur : s.cur = a.cur
  top : FileInv (s.files (s.num - 1)) s.ptr a.top
  saved : Saved s.files (s.num - 2) a.saved

theorem saved_upd {files : Nat → PFile} {j : Nat} {f : PFile} : ∀ {i : Nat} {l : List (Byte × List Byte)}, l.length ≤ i → i < j →
    Saved files i l → Saved (updF files j f) i l
  | _, [], _, _, _ => trivial
  | i, (c, t) :: r, hl, hi, h => by
    simp only [List.length_cons] at hl
    obtain ⟨h1, h2, h3⟩ := h
    have e : updF files j f i = files i := by unfold updF; rw [if_neg (by omega)]
    exact ⟨by rw [e]; exact h1, by rw [e]; exact h2, saved_upd (by omega) (by omega) h3⟩

theorem pp_read (sched : Nat → Nat) (s : Pp) (a : Abs) (h : PpInv s a) :
    ∃ s', s.readChar sched = some s' ∧ PpInv s' { a with cur := a.top.headD 0, top := a.top.tail } := by
  obtain ⟨hn, hc, ⟨h0, l1, h1, h2⟩, hs⟩ := h
  have hp : s.ptr < 512 := by have := h1.1; omega
  unfold Pp.readChar
  dsimp only
  rw [if_neg (by omega)]
  cases l1 with
  | cons c l1 =>
    obtain ⟨g1, g2, g3⟩ := h1.cons
    rw [if_pos (by rw [g1]; exact g2)]
    refine ⟨_, rfl, ⟨hn, by rw [h2]; simpa using g1, ?_, hs⟩⟩
    rw [h2] at h0 ⊢
    exact ⟨fun h => h0 (List.mem_of_mem_tail h), l1, g3, rfl⟩
  | nil =>
    rw [if_neg (by rw [h1.nil]; simp)]
    have h2 : a.top = (s.files (s.num - 1)).rest := h2
    rw [h2] at h0 ⊢
    generalize hf' : s.files (s.num - 1) = f at *
    have hd := deliver_le (w := sched s.calls) (n := 511) (l := f.rest)
    have hf := holds_fill (buf := f.buf) hd.1 hd.2 h0
    have hsv : ∀ g, Saved (updF s.files (s.num - 1) g) (s.num - 2) a.saved := fun g => saved_upd (by omega) (by omega) hs
    have hup : ∀ g, updF s.files (s.num - 1) g (s.num - 1) = g := fun g => by simp [updF]
    by_cases hk : deliver (sched s.calls) 511 f.rest = 0
    · have hr := (deliver_zero (by decide)).mp hk
      simp only [hk, if_true]
      rw [hk] at hf
      refine ⟨_, rfl, ⟨hn, by simp [hr], ?_, hsv _⟩⟩
      dsimp only
      rw [hup]
      exact ⟨by simp [hr], [], hf, by simp [hr]⟩
    · simp only [if_neg hk]
      generalize deliver (sched s.calls) 511 f.rest = k at *
      obtain ⟨c, r, hr⟩ : ∃ c r, f.rest = c :: r := by
        cases e : f.rest with
        | nil => rw [e] at hd; simp at hd; omega
        | cons c r => exact ⟨c, r, rfl⟩
      obtain ⟨m, rfl⟩ : ∃ m, k = m + 1 := ⟨k - 1, by omega⟩
      rw [hr] at hf h0 ⊢
      rw [List.take_succ_cons] at hf ⊢
      obtain ⟨g1, g2, g3⟩ := hf.cons
      refine ⟨_, rfl, ⟨hn, ?_, ?_, hsv _⟩⟩
      · dsimp only
        rw [fill_get (by simp)]
        simp
      · dsimp only
        rw [hup]
        exact ⟨fun h => h0 (List.mem_of_mem_tail h), r.take m, g3, by simp⟩

theorem pp_fast (sched : Nat → Nat) (s : Pp) (hb : s.ptr < 512) : s.fastChar sched = s.readChar sched := by
  unfold Pp.fastChar
  rw [if_neg (by omega)]
  dsimp only
  by_cases hz : (s.files (s.num - 1)).buf s.ptr = 0
  · rw [if_neg (by rw [hz]; simp)]
    unfold Pp.readChar
    dsimp only
    rw [Nat.add_sub_cancel]
  · rw [if_pos hz]
    unfold Pp.readChar
    dsimp only
    rw [if_neg (by omega), if_pos hz]

/-- The files named in the operations are free of NUL. -/
def Clean : List Op → Prop
  | [] => True
  | .enter d :: l => 0 ∉ d ∧ Clean l
  | _ :: l => Clean l

theorem pp_run (sched : Nat → Nat) : ∀ (ops : List Op) (s : Pp) (a : Abs), PpInv s a → Clean ops → s.run sched ops = a.run ops
  | [], _, _, _, _ => rfl
  | o :: l, s, a, h, hc => by
    have hp : s.ptr < 512 := by obtain ⟨_, _, ⟨_, l1, h1, _⟩, _⟩ := h; have := h1.1; omega
    have one : ∀ {x : Option Pp} {y : Option Abs}, s.op sched o = x → a.op o = y →
        ((x = none ∧ y = none) ∨ ∃ s' a', x = some s' ∧ y = some a' ∧ PpInv s' a') → Clean l → s.run sched (o :: l) = a.run (o :: l) := by
      intro x y hx hy h hc
      unfold Pp.run Abs.run
      rw [hx, hy]
      rcases h with ⟨rfl, rfl⟩ | ⟨s', a', rfl, rfl, hi⟩
      · rfl
      · have := pp_run sched l s' a' hi hc
        show (s'.run sched l >>= fun cs => some (s'.cur :: cs)) = (a'.run l >>= fun cs => some (a'.cur :: cs))
        rw [this, hi.cur]
    cases o with
    | read =>
      obtain ⟨s', e, hi⟩ := pp_read sched s a h
      exact one e rfl (Or.inr ⟨_, _, rfl, rfl, hi⟩) hc
    | fast =>
      obtain ⟨s', e, hi⟩ := pp_read sched s a h
      exact one (by show s.fastChar sched = _; rw [pp_fast sched s hp, e]) rfl (Or.inr ⟨_, _, rfl, rfl, hi⟩) hc
    | enter d =>
      obtain ⟨hn, hcur, ht, hs⟩ := h
      by_cases hl : a.saved.length < 2
      · refine one (x := some _) (y := some _) (by
          show s.enter d = _
          unfold Pp.enter
          rw [if_neg (by omega), if_neg (by omega)]) (by show (if _ then _ else _) = _; rw [if_pos hl]) (Or.inr ⟨_, _, rfl, rfl, ?_⟩) hc.2
        refine ⟨by simp; omega, hcur, ?_, ?_⟩
        · dsimp only
          rw [show s.num + 1 - 1 = s.num by omega]
          unfold updF
          rw [if_pos rfl]
          exact ⟨hc.1, [], ⟨by simp, by simp, rfl, by simp⟩, rfl⟩
        · dsimp only
          rw [show s.num + 1 - 2 = s.num - 1 by omega]
          have e : ∀ f g, updF (updF s.files (s.num - 1) f) s.num g (s.num - 1) = f := by
            intro f g; unfold updF; rw [if_neg (by omega), if_pos rfl]
          refine ⟨by rw [e]; exact hcur, by rw [e]; exact ht, ?_⟩
          rw [show s.num - 1 - 1 = s.num - 2 by omega]
          exact saved_upd (by omega) (by omega) (saved_upd (by omega) (by omega) hs)
      · refine one (x := none) (y := none) (by
          show s.enter d = _
          unfold Pp.enter
          rw [if_neg (by omega), if_pos (by omega)]) (by show (if _ then _ else _) = _; rw [if_neg hl]) (Or.inl ⟨rfl, rfl⟩) hc.2
    | leave =>
      obtain ⟨hn, hcur, ht, hs⟩ := h
      cases hsv : a.saved with
      | nil =>
        rw [hsv] at hn
        refine one (x := none) (y := none) (by show (if _ then _ else _) = _; rw [if_neg (by simp at hn; omega)]) (by
          show (match a.saved with | [] => none | (c, t) :: l => some _) = _; rw [hsv]) (Or.inl ⟨rfl, rfl⟩) hc
      | cons x r =>
        obtain ⟨c, t⟩ := x
        rw [hsv] at hn hs
        simp only [List.length_cons] at hn
        obtain ⟨g1, g2, g3⟩ := hs
        refine one (x := some s.leave) (y := some _) (by show (if _ then _ else _) = _; rw [if_pos (by omega)]) (by
          show (match a.saved with | [] => none | (c, t) :: l => some _) = _; rw [hsv]) (Or.inr ⟨_, _, rfl, rfl, ?_⟩) hc
        refine ⟨by simp [Pp.leave]; omega, g1, ?_, ?_⟩
        · show FileInv (s.files (s.num - 1 - 1)) _ _
          rw [show s.num - 1 - 1 = s.num - 2 by omega]; exact g2
        · show Saved s.files (s.num - 1 - 2) r
          rw [show s.num - 1 - 2 = s.num - 2 - 1 by omega]; exact g3

end Props.Input

namespace Props
open _root_.Input Props.Input

/-- C25.  Whatever the schedule of `read`, calling `ReadChar` of the assembler any number of times delivers the bytes of the file in order,
then zeros; no access is outside the buffer.  (The lexer sees the file through `CurrentChar` and `ReadChar` only; its model, in
`Verif/Sas/Lexer.lean`, works on this sequence.) -/
theorem C25_chunking (sched : Nat → Nat) (data : List Byte) (n : Nat) :
    chars (fun s => Sas.readChar sched s) Sas.cur n (Sas.init data) = some (stream data n) :=
  chars_of (Inv := SasInv) (sas_next sched) n _ _ ⟨by simp [Sas.init], by simp [Sas.init], by simp [Sas.init]⟩

/-- Five bytes in pieces of two, a NUL among them. -/
example : chars (fun s => Sas.readChar (fun _ => 2) s) Sas.cur 7 (Sas.init [1, 0, 3, 4, 5]) = some [1, 0, 3, 4, 5, 0, 0] := by
  rw [C25_chunking]; rfl

/-- C44.  The same for `NextChar` of the compiler, and for its inline versions in any mixture with it, for files without NUL. -/
theorem C44_chunking (sched : Nat → Nat) (data : List Byte) (h0 : 0 ∉ data) (n : Nat) :
    chars (fun s => Scc.nextChar sched s) Scc.cur n (Scc.init data) = some (stream data n) ∧
    ∀ (fast : Nat → Bool), chars (fun s => if fast s.2 then (Scc.fastChar sched s.1).map (·, s.2 + 1) else (Scc.nextChar sched s.1).map (·, s.2 + 1))
      (fun s => s.1.cur) n (Scc.init data, 0) = some (stream data n) := by
  have hi : SccInv (Scc.init data) data := ⟨h0, [], ⟨by simp [Scc.init], by simp, rfl, by simp⟩, rfl⟩
  refine ⟨chars_of (Inv := SccInv) (scc_next sched) n _ _ hi, fun fast => ?_⟩
  refine chars_of (Inv := fun (s : Scc × Nat) l => SccInv s.1 l) ?_ n _ _ hi
  intro s l h
  obtain ⟨s', e, h1, h2⟩ := scc_next sched s.1 l h
  have hp : s.1.ptr < 513 := by obtain ⟨_, l1, h1, _⟩ := h; have := h1.1; omega
  refine ⟨(s', s.2 + 1), ?_, h1, h2⟩
  rw [scc_fast sched _ hp, e]
  simp

/-- Three bytes in pieces of two. -/
example : chars (fun s => Scc.nextChar (fun _ => 2) s) Scc.cur 5 (Scc.init [1, 2, 3]) = some [1, 2, 3, 0, 0] := by
  rw [(C44_chunking _ _ (by decide) _).1]; rfl

/-- C29.  For every schedule of `read`, every sequence of reading (in both ways), entering and leaving files (free of NUL) shows the
preprocessor the characters of the abstract machine, in which an included file is read from its beginning and the including file goes on
exactly where it was left; more than two levels of inclusion are refused by both. -/
theorem C29_chunking (sched : Nat → Nat) (data : List Byte) (h0 : 0 ∉ data) (ops : List Op) (hc : Clean ops) :
    (Pp.init data).run sched ops = Abs.run ⟨0, data, []⟩ ops := by
  refine pp_run sched ops _ _ ⟨rfl, rfl, ⟨h0, [], ⟨by simp [Pp.init], by simp, rfl, by simp⟩, rfl⟩, trivial⟩ hc

/-- A file read byte by byte, with an included file in the middle. -/
example : (Pp.init [1, 2, 3]).run (fun _ => 1) [.read, .enter [7, 8], .read, .fast, .fast, .leave, .fast, .fast, .read] = some [1, 1, 7, 8, 0, 1, 2, 3, 0] := by
  rw [C29_chunking _ _ (by decide) _ (by simp [Clean])]; rfl

/-- Not so for files with a NUL: what is seen of them depends on the schedule. -/
theorem C44_nul_violated : chars (fun s => Scc.nextChar (fun _ => 3) s) Scc.cur 3 (Scc.init [1, 0, 2]) = some [1, 0, 0] ∧
    chars (fun s => Scc.nextChar (fun _ => 2) s) Scc.cur 3 (Scc.init [1, 0, 2]) = some [1, 2, 0] := by
  constructor <;> decide +kernel

theorem C29_nul_violated : (Pp.init [1, 0, 2]).run (fun _ => 3) [.read, .read, .read] = some [1, 0, 0] ∧
    (Pp.init [1, 0, 2]).run (fun _ => 2) [.read, .read, .read] = some [1, 2, 0] := by
  constructor <;> decide +kernel

end Props
