import Verif.Props.SasExpr
/-!
# Assembly statements: text, meaning, and the emission of bytes (for C22)
-/
namespace Props.SasAsm
open Sas I86 Text Prog Props.SasIds Props.SasTotal Props.SasText Props.SasExpr

/-! ## Specification: operands and their text -/

/-- A reserved word by its name. -/
def kw (s : String) : Lx := .word (builtins.idxOf (asc s))

/-- The registers that may stand in a memory operand. -/
inductive AReg | bx | bp | si | di
  deriving DecidableEq

/-- An item inside brackets. -/
inductive MItem
  | reg (r : AReg)
  | num (n : Nat)
  deriving DecidableEq

/-- A memory operand: an ES override, the items with their signs (true: minus). -/
structure MemT where
  es : Bool
  items : List (Bool × MItem)

/-- The registers of the items, in order. -/
def regsOf : List (Bool × MItem) → List AReg
  | [] => []
  | (_, .reg r) :: l => r :: regsOf l
  | (_, .num _) :: l => regsOf l

/-- The displacement: the sum of the numbers. -/
def dispOf : List (Bool × MItem) → Int
  | [] => 0
  | (_, .reg _) :: l => dispOf l
  | (neg, .num n) :: l => (if neg then -(n : Int) else n) + dispOf l

/-- The sum of the absolute values. -/
def absOf : List (Bool × MItem) → Nat
  | [] => 0
  | (_, .reg _) :: l => absOf l
  | (_, .num n) :: l => n + absOf l

/-- The addressing mode (the assembler knows the pair of registers only in this order). -/
def baseOf : List AReg → Option Base
  | [] => some .none
  | [.bx] => some .bx
  | [.bp] => some .bp
  | [.si] => some .si
  | [.di] => some .di
  | [.si, .bx] => some .bxsi
  | _ => none

/-- The operand is well-formed: at least one item, no sign before the first, no minus before a register, a known addressing mode, and
no overflow in the displacement. -/
structure MemT.OK (m : MemT) (b : Base) : Prop where
  base : baseOf (regsOf m.items) = some b
  first : ∃ i l, m.items = (false, i) :: l
  sign : ∀ r, (true, MItem.reg r) ∉ m.items
  abs : absOf m.items < 2147483648

def AReg.lx : AReg → Lx
  | .bx => kw "BX"
  | .bp => kw "BP"
  | .si => kw "SI"
  | .di => kw "DI"

def MItem.lx : MItem → Lx
  | .reg r => r.lx
  | .num n => .num n

/-- The items with signs between them. -/
def itemsLx : List (Bool × MItem) → List Lx
  | [] => []
  | [(_, i)] => [i.lx]
  | (_, i) :: (neg, j) :: l => i.lx :: .sym (if neg then chr '-' else chr '+') :: itemsLx ((neg, j) :: l)

def MemT.lx (m : MemT) : List Lx :=
  .sym (chr '[') :: ((if m.es then [kw "ES", .sym (chr ':')] else []) ++ (itemsLx m.items ++ [.sym (chr ']')]))

/-- The names of the registers. -/
def reg8Name : Fin 8 → String
  | 0 => "AL" | 1 => "CL" | 2 => "DL" | 3 => "BL" | 4 => "AH" | 5 => "CH" | 6 => "DH" | 7 => "BH"
def reg16Name : Fin 8 → String
  | 0 => "AX" | 1 => "CX" | 2 => "DX" | 3 => "BX" | 4 => "SP" | 5 => "BP" | 6 => "SI" | 7 => "DI"
def segName : SReg → String
  | .es => "ES" | .cs => "CS" | .ss => "SS" | .ds => "DS"

def regName (w : Bool) (r : Fin 8) : String := if w then reg16Name r else reg8Name r

/-! ## The emission of bytes -/

/-- On a text `xs` at address `va`, `m` has the value `v`, emits `bs`, and leaves the text `ys`. -/
def Em {α : Type} (xs : List Lx) (va : Int) (ov : Nat) (m : A α) (v : α) (bs : List Byte) (ov' : Nat) (ys : List Lx) : Prop :=
  ∀ s : S, At s.lex xs → s.va = va → s.sizeOv = ov → s.inBSS = false → s.out.size + bs.length ≤ 20000 → Fits va → Fits (va + bs.length) →
    ∃ l g, m s = .ok v { s with lex := l, out := s.out ++ bs.toArray, va := va + bs.length, sizeOv := ov', gRefs := g } ∧ At l ys

variable {α β : Type} {xs ys zs : List Lx} {va : Int} {ov ov' ov'' : Nat}

theorem Em.pure {v : α} : Em xs va ov (pure v) v [] ov xs := by
  intro s h1 h2 h3 _ _ _ _
  refine ⟨s.lex, s.gRefs, ?_, h1⟩
  show Res.ok v s = _
  congr 1
  simp [← h2, ← h3]

theorem Em.of_rd {m : A α} {v : α} (h : Rd xs m (.ok v) ys) : Em xs va ov m v [] ov ys := by
  intro s h1 h2 h3 _ _ _ _
  obtain ⟨l, e, hl⟩ := h s h1
  refine ⟨l, s.gRefs, ?_, hl⟩
  rw [e]
  congr 1
  simp [← h2, ← h3]

theorem Em.bind {m : A α} {f : α → A β} {v : α} {u : β} {bs cs : List Byte} (h : Em xs va ov m v bs ov' ys)
    (hf : Em ys (va + bs.length) ov' (f v) u cs ov'' zs) : Em xs va ov (m >>= f) u (bs ++ cs) ov'' zs := by
  intro s h1 h2 h3 h4 h5 h6 h7
  simp only [List.length_append, Nat.cast_add] at h5 h7
  have hmid : Fits (va + bs.length) := by unfold Fits at *; omega
  obtain ⟨l, g, e, hl⟩ := h s h1 h2 h3 h4 (by omega) h6 hmid
  obtain ⟨l', g', e', hl'⟩ := hf { s with lex := l, out := s.out ++ bs.toArray, va := va + bs.length, sizeOv := ov', gRefs := g }
    hl rfl rfl h4 (by simp; omega) hmid (by rw [Int.add_assoc]; exact h7)
  refine ⟨l', g', ?_, hl'⟩
  rw [bind_run, e]
  show f v _ = _
  rw [e']
  congr 1
  simp [Int.add_assoc]

/-- The same without bytes in the first part. -/
theorem Em.seq {m : A α} {f : α → A β} {v : α} {u : β} {cs : List Byte} (h : Em xs va ov m v [] ov' ys)
    (hf : Em ys va ov' (f v) u cs ov'' zs) : Em xs va ov (m >>= f) u cs ov'' zs := by
  have := Em.bind (bs := []) h (u := u) (cs := cs) (zs := zs) (ov'' := ov'') (f := f) (by simpa using hf)
  simpa using this

theorem em_out {b : Byte} : Em xs va ov (outputByte b) () [b] ov xs := by
  intro s h1 h2 h3 h4 h5 h6 h7
  refine ⟨s.lex, s.gRefs, ?_, h1⟩
  simp only [List.length_singleton] at h5 h7
  have hc : inInt (s.va + 1) = true := by rw [h2]; simpa [inInt, Fits] using h7
  have hz : (decide (s.out.size < outputMax)) = true := by simp [outputMax]; omega
  have : outputByte b s = .ok () { s with out := s.out.push b, va := s.va + 1 } := by
    unfold outputByte
    rw [bind_run]
    show ((assertM !s.inBSS) >>= _) s = _
    rw [h4, bind_run]
    show ((assertM (decide (s.out.size < outputMax))) >>= _) s = _
    rw [hz, bind_run]
    show ((ck (s.va + 1)) >>= _) s = _
    unfold ck
    rw [if_pos hc]
    show Res.ok () _ = Res.ok () _
    rw [← h4]
  rw [this]
  congr 1
  simp [h2, ← h3]

theorem em_word {n : Int} : Em xs va ov (outputWord n) () [toByte n, toByte (n / 256)] ov xs :=
  Em.bind (bs := [toByte n]) em_out em_out

theorem em_log {k : RefK} {o : Operand} : Em xs va ov (logRef k o) () [] ov xs := by
  intro s h1 h2 h3 _ _ _ _
  refine ⟨s.lex, (match logRef k o s with | .ok _ s' => s'.gRefs | .err _ => []), ?_, h1⟩
  subst h2 h3
  simp [logRef, modS]

theorem em_assert {b : Bool} (h : b = true) : Em xs va ov (assertM b) () [] ov xs := by subst h; exact Em.pure

theorem em_setOv {n : Nat} : Em xs va ov (modS fun s => { s with sizeOv := n }) () [] n xs := by
  intro s h1 h2 h3 _ _ _ _
  refine ⟨s.lex, s.gRefs, ?_, h1⟩
  show Res.ok () _ = _
  congr 1
  simp [← h2]

theorem em_ty : Em xs va ov tokTy (headTy xs) [] ov xs := Em.of_rd rd_ty
theorem em_tok : Em xs va ov curTok (headTok xs) [] ov xs := Em.of_rd rd_tok
theorem em_getToken {x : Lx} : Em (x :: xs) va ov getToken () [] ov xs := Em.of_rd rd_getToken

theorem em_ck {n : Int} (h : Fits n) : Em xs va ov (ck n) n [] ov xs := by
  unfold ck
  rw [if_pos (by simpa [inInt, Fits] using h)]
  exact Em.pure

theorem em_accept_yes {x : Lx} {t : Nat} (h : x.tok.ty = t) : Em (x :: xs) va ov (accept t) true [] ov xs := by
  unfold accept
  refine Em.seq em_ty ?_
  rw [if_pos (show headTy (x :: xs) = t from h)]
  exact Em.seq em_getToken Em.pure

theorem em_accept_no {t : Nat} (h : headTy xs ≠ t) : Em xs va ov (accept t) false [] ov xs := by
  unfold accept
  refine Em.seq em_ty ?_
  rw [if_neg h]
  exact Em.pure

theorem em_expect {x : Lx} {t : Nat} (h : x.tok.ty = t) : Em (x :: xs) va ov (expect t) () [] ov xs := by
  unfold expect
  refine Em.seq em_ty ?_
  rw [if_neg (show ¬ headTy (x :: xs) ≠ t from fun h' => h' h)]
  exact em_getToken

/-- A part that looks at the state. -/
theorem Em.getS {f : S → A β} {u : β} {cs : List Byte} (hf : ∀ s : S, s.va = va → s.sizeOv = ov → Em xs va ov (f s) u cs ov' zs) :
    Em xs va ov (Prog.getS >>= f) u cs ov' zs := by
  intro s h1 h2 h3 h4 h5 h6 h7
  exact hf s h2 h3 s h1 h2 h3 h4 h5 h6 h7

theorem reads_length {inp : List Byte} {xs : List Lx} (h : Reads inp xs) : xs.length ≤ inp.length := by
  induction h with
  | nil _ => simp
  | @cons ws w rest x xs hb hs hw hr ih =>
    have : w ≠ [] := by
      cases hs with
      | word hk hw => rintro rfl; exact (builtins_id _ (List.mem_of_getElem? hw)).1 rfl
      | dec h _ _ _ => exact h
      | hex _ _ _ => simp
      | str _ _ => simp
      | sym _ => simp
      | lsh => simp
    have := List.length_pos_of_ne_nil this
    simp only [List.length_cons, List.length_append]; omega

theorem at_length {l : Lex} (h : At l xs) : xs.length + 4 ≤ 4 * l.inp.length + 8 := by
  cases xs with
  | nil => simp
  | cons x xs => have := reads_length h.2.2; simp only [List.length_cons]; omega

/-- A value depending on the length of the text. -/
theorem Em.tokFuel {f : Nat → A β} {u : β} {cs : List Byte} (hf : ∀ n, xs.length + 4 ≤ n → Em xs va ov (f n) u cs ov' zs) :
    Em xs va ov (Sas.tokFuel >>= f) u cs ov' zs := by
  intro s h1 h2 h3 h4 h5 h6 h7
  exact hf _ (at_length h1) s h1 h2 h3 h4 h5 h6 h7

/-! ## Parsing operands -/

def AReg.ty : AReg → Nat
  | .bx => tokBx
  | .bp => tokBp
  | .si => tokSi
  | .di => tokDi

theorem aregs : ∀ r : AReg, r.lx.tok = { ty := r.ty } := by
  intro r; cases r <;> decide +kernel

/-- The base bits of the ModRM byte after the registers `rs`. -/
def baseStep (m : Byte) : AReg → Byte
  | .bx => if m = 0xFF then 7 else 0
  | .bp => 6
  | .si => 4
  | .di => 5

/-- The code of an addressing mode as `TranslateMemMod` keeps it. -/
def baseCode : Base → Byte
  | .bxsi => 0 | .bxdi => 1 | .bpsi => 2 | .bpdi => 3 | .si => 4 | .di => 5 | .bp => 6 | .bx => 7 | .none => 0xFF

/-- The registers read so far together with those to come form a known mode. -/
theorem translate_ok {done : List AReg} {b0 b : Base} {r : AReg} {rest : List AReg} (h0 : baseOf done = some b0)
    (h : baseOf (done ++ r :: rest) = some b) :
    ∃ b1, baseOf (done ++ [r]) = some b1 ∧ translateMemMod r.ty (baseCode b0) = pure (baseCode b1) := by
  have cls : (done = [] ∨ (done = [.si] ∧ r = .bx)) := by
    match done, h with
    | [], _ => exact Or.inl rfl
    | [a], h => cases a <;> cases r <;> cases rest <;> simp [baseOf] at h ⊢
    | [a, c], h => cases a <;> cases c <;> cases r <;> simp [baseOf] at h
    | a :: c :: d :: l, h => cases a <;> cases c <;> simp [baseOf] at h
  rcases cls with rfl | ⟨rfl, rfl⟩
  · cases h0
    cases r <;> exact ⟨_, rfl, rfl⟩
  · cases h0
    exact ⟨_, rfl, rfl⟩

/-- The operand after the items. -/
def memO (b : Base) (d : Int) : Operand := { ty := .mem, modrm := baseCode b, disp := d, gAddend := d }

theorem absOf_disp (l : List (Bool × MItem)) : -(absOf l : Int) ≤ dispOf l ∧ dispOf l ≤ absOf l := by
  induction l with
  | nil => simp [absOf, dispOf]
  | cons a l ih =>
    obtain ⟨neg, i⟩ := a
    cases i with
    | reg r => simpa [absOf, dispOf] using ih
    | num n => cases neg <;> simp [absOf, dispOf] <;> omega

/-- Reading one item. -/
theorem em_item {neg : Bool} {i : MItem} {b0 : Base} {d0 : Int} {done : List AReg} {rest : List AReg} {b : Base} (h0 : baseOf done = some b0)
    (h : baseOf (done ++ (regsOf [(neg, i)] ++ rest)) = some b) (hd : Fits (d0 + dispOf [(neg, i)])) :
    ∃ b1, baseOf (done ++ regsOf [(neg, i)]) = some b1 ∧
      Em (i.lx :: xs) va ov (memItem neg (memO b0 d0)) (memO b1 (d0 + dispOf [(neg, i)])) [] ov xs := by
  cases i with
  | reg r =>
    obtain ⟨b1, e1, e2⟩ := translate_ok (rest := rest) h0 h
    refine ⟨b1, e1, ?_⟩
    unfold memItem
    refine Em.seq em_tok ?_
    have ht : (headTok ((MItem.reg r).lx :: xs)).ty = r.ty := by show r.lx.tok.ty = _; rw [aregs]
    rw [ht, if_pos (by cases r <;> simp [AReg.ty])]
    rw [show (memO b0 d0).modrm = baseCode b0 from rfl, e2]
    refine Em.seq Em.pure (Em.seq em_getToken ?_)
    simp only [dispOf, Int.add_zero]
    exact Em.pure
  | num n =>
    refine ⟨b0, by simpa [regsOf] using h0, ?_⟩
    unfold memItem
    refine Em.seq em_tok ?_
    have hty : headTok ((MItem.num n).lx :: xs) = { ty := tokNumber, num := (n : Int) } := rfl
    simp only [hty]
    rw [if_neg (by decide), if_pos trivial]
    have e : (if neg = true then (memO b0 d0).disp - (n : Int) else (memO b0 d0).disp + (n : Int)) = d0 + dispOf [(neg, .num n)] := by
      cases neg <;> simp [memO, dispOf]; omega
    have e' : (if neg = true then (memO b0 d0).gAddend - (n : Int) else (memO b0 d0).gAddend + (n : Int)) = d0 + dispOf [(neg, .num n)] := by
      cases neg <;> simp [memO, dispOf]; omega
    rw [e, e']
    exact Em.seq (em_ck hd) (Em.seq em_getToken Em.pure)

theorem regs_not_seg (i : MItem) (ys : List Lx) : ¬ (tokEs ≤ headTy (i.lx :: ys) ∧ headTy (i.lx :: ys) ≤ tokDs) := by
  cases i with
  | reg r => show ¬ (tokEs ≤ r.lx.tok.ty ∧ r.lx.tok.ty ≤ tokDs); rw [aregs]; cases r <;> decide
  | num n => show ¬ (tokEs ≤ tokNumber ∧ tokNumber ≤ tokDs); decide

theorem regsOf_cons (a : Bool × MItem) (l : List (Bool × MItem)) : regsOf (a :: l) = regsOf [a] ++ regsOf l := by
  obtain ⟨n, i⟩ := a; cases i <;> rfl

theorem dispOf_cons (a : Bool × MItem) (l : List (Bool × MItem)) : dispOf (a :: l) = dispOf [a] + dispOf l := by
  obtain ⟨n, i⟩ := a; cases i <;> simp [dispOf]

theorem absOf_cons (a : Bool × MItem) (l : List (Bool × MItem)) : absOf (a :: l) = absOf [a] + absOf l := by
  obtain ⟨n, i⟩ := a; cases i <;> simp [absOf]

/-- Reading the items. -/
theorem em_items {b : Base} (h1 : headTy xs ≠ tokMinus) (h2 : headTy xs ≠ tokPlus) :
    ∀ (l : List (Bool × MItem)) (a : Bool × MItem) (f : Nat) (done : List AReg) (b0 : Base) (d0 : Int),
      l.length < f → baseOf done = some b0 → baseOf (done ++ regsOf (a :: l)) = some b →
      d0.natAbs + absOf (a :: l) < 2147483648 →
      Em (itemsLx (a :: l) ++ xs) va ov (memItems f a.1 (memO b0 d0)) (memO b (d0 + dispOf (a :: l))) [] ov xs := by
  intro l
  induction l with
  | nil =>
    intro a f done b0 d0 hf h0 hb hd
    obtain ⟨neg, i⟩ := a
    obtain ⟨f, rfl⟩ : ∃ k, f = k + 1 := ⟨f - 1, by simp at hf; omega⟩
    have ha := absOf_disp [(neg, i)]
    obtain ⟨b1, e1, e2⟩ := em_item (neg := neg) (i := i) (d0 := d0) (rest := []) (xs := xs) (va := va) (ov := ov) h0 (by simpa using hb)
      (by unfold Fits; omega)
    rw [hb] at e1
    cases e1
    unfold memItems
    show Em (i.lx :: xs) va ov _ _ _ _ _
    refine Em.seq em_ty ?_
    rw [if_neg (regs_not_seg i _)]
    refine Em.seq e2 ?_
    refine Em.seq (em_accept_no h1) (Em.seq (em_accept_no h2) ?_)
    exact Em.pure
  | cons c l ih =>
    intro a f done b0 d0 hf h0 hb hd
    obtain ⟨neg, i⟩ := a
    obtain ⟨f, rfl⟩ : ∃ k, f = k + 1 := ⟨f - 1, by simp at hf; omega⟩
    have ha := absOf_disp [(neg, i)]
    rw [absOf_cons] at hd
    rw [regsOf_cons] at hb
    obtain ⟨b1, e1, e2⟩ := em_item (neg := neg) (i := i) (d0 := d0) (rest := regsOf (c :: l)) (ov := ov) (va := va)
      (xs := .sym (if c.1 then chr '-' else chr '+') :: (itemsLx (c :: l) ++ xs)) h0 hb (by unfold Fits; omega)
    have ih' := ih c f _ b1 (d0 + dispOf [(neg, i)]) (by simp at hf; omega) e1 (by simpa using hb) (by omega)
    rw [dispOf_cons, ← Int.add_assoc]
    unfold memItems
    obtain ⟨neg', j⟩ := c
    show Em (i.lx :: .sym (if neg' then chr '-' else chr '+') :: (itemsLx ((neg', j) :: l) ++ xs)) va ov _ _ _ _ _
    refine Em.seq em_ty ?_
    rw [if_neg (regs_not_seg i _)]
    refine Em.seq e2 ?_
    cases neg' with
    | true =>
      refine Em.seq (em_accept_yes rfl) ?_
      exact ih'
    | false =>
      refine Em.seq (em_accept_no (by show Lx.tok (.sym (chr '+')) |>.ty |> (· ≠ tokMinus); decide)) ?_
      refine Em.seq (em_accept_yes rfl) ?_
      exact ih'

/-- The prefix byte of an operand. -/
def pre (es : Bool) : List Byte := if es then [0x26] else []

theorem itemsLx_len (l : List (Bool × MItem)) : l.length ≤ (itemsLx l).length := by
  fun_induction itemsLx l <;> simp_all; omega

/-- Reading a memory operand after its bracket. -/
theorem em_mem {m : MemT} {b : Base} (hm : m.OK b) :
    Em (m.lx.tail ++ xs) va ov parseMem (finishMem (memO b (dispOf m.items))) (pre m.es) ov xs := by
  obtain ⟨es, items⟩ := m
  obtain ⟨i, l, hi⟩ := hm.first
  have hb := hm.base
  have habs := hm.abs
  dsimp only at hi hb habs
  subst hi
  have tl := itemsLx_len ((false, i) :: l)
  simp only [List.length_cons] at tl
  have main : ∀ f, l.length < f → ∀ va, Em (itemsLx ((false, i) :: l) ++ (.sym (chr ']') :: xs)) va ov
      (memItems f false { ty := .mem, modrm := 0xFF }) (memO b (dispOf ((false, i) :: l))) [] ov (.sym (chr ']') :: xs) := by
    intro f hf va
    have := em_items (xs := .sym (chr ']') :: xs) (va := va) (ov := ov) (b := b) (by show Lx.tok (.sym (chr ']')) |>.ty |> (· ≠ tokMinus); decide)
      (by show Lx.tok (.sym (chr ']')) |>.ty |> (· ≠ tokPlus); decide) l (false, i) f [] .none 0 hf rfl (by simpa using hb) (by simpa using habs)
    rw [Int.zero_add] at this
    exact this
  unfold parseMem
  refine Em.tokFuel ?_
  intro f hf
  cases es with
  | false =>
    simp only [MemT.lx, List.tail_cons, Bool.false_eq_true, if_false, List.nil_append, List.append_assoc, List.singleton_append] at hf ⊢
    simp only [List.length_append, List.length_cons] at hf
    refine Em.seq (main f (by omega) va) ?_
    exact Em.seq (em_expect (by decide)) Em.pure
  | true =>
    simp only [MemT.lx, List.tail_cons, if_true, List.append_assoc, List.cons_append, List.nil_append] at hf ⊢
    simp only [List.length_append, List.length_cons] at hf
    obtain ⟨f, rfl⟩ : ∃ k, f = k + 1 := ⟨f - 1, by omega⟩
    have hes : (kw "ES").tok.ty = tokEs := by decide +kernel
    have first : Em (kw "ES" :: .sym (chr ':') :: (itemsLx ((false, i) :: l) ++ (.sym (chr ']') :: xs))) va ov
        (memItems (f + 1) false { ty := .mem, modrm := 0xFF }) (memO b (dispOf ((false, i) :: l))) [0x26] ov (.sym (chr ']') :: xs) := by
      unfold memItems
      refine Em.seq em_ty ?_
      have hh : headTy (kw "ES" :: .sym (chr ':') :: (itemsLx ((false, i) :: l) ++ (.sym (chr ']') :: xs))) = tokEs := hes
      rw [hh, if_pos (by decide)]
      rw [show (0x26 ||| BitVec.ofNat 8 (tokEs - tokEs) : Byte) = 0x26 by decide]
      refine Em.bind (bs := [0x26]) (cs := []) em_out (Em.seq em_getToken (Em.seq (em_expect (x := .sym (chr ':')) (by decide)) (main f (by omega) _)))
    refine Em.bind (bs := [0x26]) (cs := []) first ?_
    exact Em.seq (em_expect (by decide)) Em.pure

end Props.SasAsm
