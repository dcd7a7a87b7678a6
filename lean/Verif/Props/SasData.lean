import Verif.Props.SasAsm
import Verif.Props.SasLabels
/-!
# C24: data directives
-/
namespace Props.SasData
open Sas I86 Text Prog Props.SasIds Props.SasTotal Props.SasText Props.SasExpr Props.SasAsm

/-! ## Specification -/

/-- An item of DB or DW. -/
inductive Item
  | num (n : Nat)
  | str (s : List Byte)

/-- A directive: DB or DW with its items, RESB or RESW, ORG, CPU. -/
inductive Dir
  | data (word : Bool) (i : Item) (l : List Item)
  | res (word : Bool) (e : E)
  | org (e : E)
  | cpu (e : E)

def Item.lx : Item → Lx
  | .num n => .num n
  | .str s => .str s

/-- The items behind the first. -/
def moreLx : List Item → List Lx
  | [] => []
  | i :: l => .sym (chr ',') :: i.lx :: moreLx l

def Dir.lx : Dir → List Lx
  | .data w i l => kw (if w then "DW" else "DB") :: i.lx :: moreLx l
  | .res w e => kw (if w then "RESW" else "RESB") :: e.lx
  | .org e => kw "ORG" :: e.lx
  | .cpu e => kw "CPU" :: e.lx

/-- The expressions are well-formed, and an origin is an `int` (as it is for every expression that can be spelled). -/
def Dir.WF : Dir → Prop
  | .data _ _ _ => True
  | .res _ e | .cpu e => e.WF
  | .org e => e.WF ∧ ∀ v, e.val = some v → Fits v

/-- The bytes of an item: a number is a byte or a word (low byte first), a string always bytes. -/
def Item.bytes (word : Bool) : Item → List Byte
  | .num n => if word then [BitVec.ofNat 8 n, BitVec.ofNat 8 (n / 256)] else [BitVec.ofNat 8 n]
  | .str s => s

/-- The number of bytes in strings. -/
def strLen : List Item → Nat
  | [] => 0
  | .num _ :: l => strLen l
  | .str s :: l => s.length + strLen l

/-- The bytes of a directive: those of the items, and a zero after DW if the strings have an odd number of bytes. -/
def dataBytes (word : Bool) (l : List Item) : List Byte :=
  l.flatMap (Item.bytes word) ++ (if word ∧ strLen l % 2 = 1 then [0] else [])

/-- How far the assembler is: the bytes so far, the address, and whether RESB/RESW has been seen. -/
structure Place where
  out : List Byte
  va : Int
  bss : Bool

/-- Placing bytes: refused after RESB/RESW and beyond 20000 bytes; the address is a C `int`. -/
def emit (p : Place) (bs : List Byte) : Except Err Place :=
  if bs = [] then .ok p
  else if p.bss then .error .assertFail
  else if p.out.length + bs.length ≤ 20000 then
    if Fits (p.va + bs.length) then .ok { p with out := p.out ++ bs, va := p.va + bs.length } else .error .ub
  else if Fits (p.va + (20000 - p.out.length : Nat)) then .error .assertFail else .error .ub

/-- The effect of a directive. -/
def Dir.eval (p : Place) : Dir → Except Err Place
  | .data w i l => emit p (dataBytes w (i :: l))
  | .res w e => do
    let n ← outcome e.val
    let d ← outcome (fit ((if w then 2 else 1) * n))
    let va ← outcome (fit (p.va + d))
    pure { p with va, bss := true }
  | .org e => do
    let n ← outcome e.val
    pure { p with va := n }
  | .cpu e => do
    let n ← outcome e.val
    if n = 8086 then pure p else .error .fatal

def evalAll : List Dir → Place → Except Err Place
  | [], p => .ok p
  | d :: l, p => d.eval p >>= evalAll l

/-! ## Proof -/

/-- On a text `xs` at the place `p`, `m` has the outcome `r` and leaves the text `ys`. -/
def Ru {α : Type} (xs : List Lx) (p : Place) (m : A α) (r : Except Err (α × Place)) (ys : List Lx) : Prop :=
  ∀ s : S, At s.lex xs → s.out.toList = p.out → s.va = p.va → s.inBSS = p.bss → Fits s.va → match (generalizing := false) r with
    | .ok (v, q) => ∃ s', m s = .ok v s' ∧ At s'.lex ys ∧ s'.out.toList = q.out ∧ s'.va = q.va ∧ s'.inBSS = q.bss ∧ Fits s'.va
    | .error e => m s = .err e

variable {α β : Type} {xs ys zs : List Lx} {p q : Place}

theorem Ru.pure {v : α} : Ru xs p (pure v) (.ok (v, p)) xs := fun s h1 h2 h3 h4 h5 => ⟨s, rfl, h1, h2, h3, h4, h5⟩

theorem Ru.of_rd {m : A α} {r : Except Err α} (h : Rd xs m r ys) : Ru xs p m (r >>= fun v => .ok (v, p)) ys := by
  intro s h1 h2 h3 h4 h5
  have := h s h1
  cases r with
  | ok v => obtain ⟨l, e, hl⟩ := this; exact ⟨_, e, hl, h2, h3, h4, h5⟩
  | error e => exact this

theorem Ru.rd {m : A α} {v : α} (h : Rd xs m (.ok v) ys) : Ru xs p m (.ok (v, p)) ys := Ru.of_rd h

theorem Ru.bind {m : A α} {f : α → A β} {r : Except Err (α × Place)} {k : α × Place → Except Err (β × Place)} (h : Ru xs p m r ys)
    (hf : ∀ v q, r = .ok (v, q) → Ru ys q (f v) (k (v, q)) zs) : Ru xs p (m >>= f) (r >>= k) zs := by
  intro s h1 h2 h3 h4 h5
  have := h s h1 h2 h3 h4 h5
  cases r with
  | ok v =>
    obtain ⟨v, q⟩ := v
    obtain ⟨s', e, g1, g2, g3, g4, g5⟩ := this
    have := hf v q rfl s' g1 g2 g3 g4 g5
    have e1 : (m >>= f) s = f v s' := by rw [bind_run, e]
    have e2 : ((Except.ok (v, q) : Except Err (α × Place)) >>= k) = k (v, q) := rfl
    rw [e1, e2]
    exact this
  | error e =>
    show (m >>= f) s = _
    have this : m s = .err e := this
    rw [bind_run, this]

theorem Ru.seq {m : A α} {f : α → A β} {v : α} {q : Place} {r : Except Err (β × Place)} (h : Ru xs p m (.ok (v, q)) ys)
    (hf : Ru ys q (f v) r zs) : Ru xs p (m >>= f) r zs :=
  Ru.bind (r := .ok (v, q)) (k := fun _ => r) h fun _ _ h => by cases h; exact hf

theorem ru_ck {n : Int} : Ru xs p (ck n) (outcome (fit n) >>= fun v => .ok (v, p)) xs := by
  intro s h1 h2 h3 h4 h5
  by_cases h : Fits n
  · have e1 : ck n = pure n := by unfold ck; rw [if_pos (by simpa [inInt, Fits] using h)]
    have e2 : fit n = some n := by unfold fit; rw [if_pos h]
    rw [e1, e2]
    exact ⟨s, rfl, h1, h2, h3, h4, h5⟩
  · have e1 : ck n = fail .ub := by unfold ck; rw [if_neg (by simpa [inInt, Fits] using h)]
    have e2 : fit n = none := by unfold fit; rw [if_neg h]
    rw [e1, e2]
    rfl

/-- One byte. -/
def emit1 (p : Place) (b : Byte) : Except Err Place :=
  if p.bss then .error .assertFail
  else if p.out.length < 20000 then
    if Fits (p.va + 1) then .ok { p with out := p.out ++ [b], va := p.va + 1 } else .error .ub
  else .error .assertFail

theorem ru_out {b : Byte} : Ru xs p (outputByte b) (emit1 p b >>= fun q => .ok ((), q)) xs := by
  intro s h1 h2 h3 h4 h5
  obtain ⟨out, va, bss⟩ := p
  subst h2 h3 h4
  unfold emit1 outputByte
  simp only [Array.length_toList]
  rw [bind_run]
  dsimp only [getS_run]
  cases hb : s.inBSS with
  | true => rfl
  | false =>
    rw [if_neg (by decide)]
    by_cases hz : s.out.size < 20000
    · rw [if_pos hz]
      have hz' : decide (s.out.size < outputMax) = true := by simpa [outputMax] using hz
      by_cases hf : Fits (s.va + 1)
      · rw [if_pos hf]
        refine ⟨{ s with out := s.out.push b, va := s.va + 1 }, ?_, h1, by simp, rfl, hb, hf⟩
        have : ck (s.va + 1) = pure (s.va + 1) := by unfold ck; rw [if_pos (by simpa [inInt, Fits] using hf)]
        rw [this, hz']
        rfl
      · rw [if_neg hf]
        have : ck (s.va + 1) = fail .ub := by unfold ck; rw [if_neg (by simpa [inInt, Fits] using hf)]
        show _ = Res.err _
        rw [this, hz']
        rfl
    · rw [if_neg hz]
      have hz' : decide (s.out.size < outputMax) = false := by simpa [outputMax] using hz
      show _ = Res.err _
      rw [hz']
      rfl

theorem emit_nil : emit p [] = .ok p := rfl

/-- Placing bytes one by one. -/
theorem emit_cons {b : Byte} {bs : List Byte} : Fits p.va → emit p (b :: bs) = emit1 p b >>= fun q => emit q bs := by
  intro hva
  obtain ⟨out, va, bss⟩ := p
  unfold emit emit1
  cases bss with
  | true => rfl
  | false =>
    have hva : Fits va := hva
    simp only [List.cons_ne_nil, if_false, List.length_cons, Bool.false_eq_true]
    by_cases h1 : out.length < 20000
    · rw [if_pos h1]
      by_cases h2 : Fits (va + 1)
      · rw [if_pos h2]
        show _ = (if bs = [] then _ else _ : Except Err Place)
        by_cases hb : bs = []
        · subst hb
          rw [if_pos rfl, if_pos (by simp; omega), if_pos (by simpa using h2)]; rfl
        · rw [if_neg hb]
          have e1 : (out ++ [b]).length + bs.length = out.length + (bs.length + 1) := by simp; omega
          have e2 : va + 1 + (bs.length : Int) = va + ((bs.length + 1 : Nat) : Int) := by simp; omega
          have e3 : va + 1 + ((20000 - (out ++ [b]).length : Nat) : Int) = va + ((20000 - out.length : Nat) : Int) := by simp; omega
          simp only [e1, e2, e3, List.append_assoc, List.singleton_append, Bool.false_eq_true, if_false]
      · rw [if_neg h2]
        show _ = Except.error Err.ub
        have h3 : ¬ Fits (va + ((bs.length + 1 : Nat) : Int)) := by unfold Fits at *; omega
        have h4 : ¬ Fits (va + ((20000 - out.length : Nat) : Int)) := by unfold Fits at *; omega
        rw [if_neg h3, if_neg h4]; simp
    · rw [if_neg h1, if_neg (by omega)]
      have : 20000 - out.length = 0 := by omega
      rw [this]
      simp only [Nat.cast_zero, Int.add_zero]
      rw [if_pos hva]; rfl

theorem emit1_fits {b : Byte} (h : emit1 p b = .ok q) : Fits q.va := by
  unfold emit1 at h
  split at h
  · cases h
  · split at h
    · split at h
      · cases h; assumption
      · cases h
    · cases h

theorem emit_fits {bs : List Byte} (hp : Fits p.va) (h : emit p bs = .ok q) : Fits q.va := by
  induction bs generalizing p with
  | nil => cases h; exact hp
  | cons b bs ih =>
    rw [emit_cons hp] at h
    cases e : emit1 p b with
    | error x => rw [e] at h; cases h
    | ok r => rw [e] at h; exact ih (emit1_fits e) h

theorem emit_append {bs cs : List Byte} (hp : Fits p.va) : emit p (bs ++ cs) = emit p bs >>= fun q => emit q cs := by
  induction bs generalizing p with
  | nil => rfl
  | cons b bs ih =>
    rw [List.cons_append, emit_cons hp, emit_cons hp]
    cases e : emit1 p b with
    | error x => rfl
    | ok r => exact ih (emit1_fits e)

/-- A relation that may use that the address is an `int`. -/
theorem Ru.fits {m : A α} {r : Except Err (α × Place)} (h : Fits p.va → Ru xs p m r ys) : Ru xs p m r ys := by
  intro s h1 h2 h3 h4 h5
  exact h (h3 ▸ h5) s h1 h2 h3 h4 h5

theorem ru_bytes {bs : List Byte} : Ru xs p (outputBytes bs) (emit p bs >>= fun q => .ok ((), q)) xs := by
  induction bs generalizing p with
  | nil => exact Ru.pure
  | cons b bs ih =>
    refine Ru.fits fun hp => ?_
    rw [emit_cons hp]
    unfold outputBytes
    have := Ru.bind (f := fun _ => outputBytes bs) (k := fun x => emit x.2 bs >>= fun q => .ok ((), q)) (ru_out (xs := xs) (p := p) (b := b)) (zs := xs) fun v q _ => ih
    revert this
    cases emit1 p b <;> exact id

theorem ru_word {n : Nat} : Ru xs p (outputWord n) (emit p [BitVec.ofNat 8 n, BitVec.ofNat 8 (n / 256)] >>= fun q => .ok ((), q)) xs := by
  have e1 : toByte (n : Int) = BitVec.ofNat 8 n := by simp [toByte]
  have e2 : toByte ((n : Int) / 256) = BitVec.ofNat 8 (n / 256) := by
    rw [show (n : Int) / 256 = ((n / 256 : Nat) : Int) by simp]; simp [toByte, -Int.natCast_ediv]
  have := ru_bytes (xs := xs) (p := p) (bs := [BitVec.ofNat 8 n, BitVec.ofNat 8 (n / 256)])
  have eo : outputWord (n : Int) = outputBytes [BitVec.ofNat 8 n, BitVec.ofNat 8 (n / 256)] := by
    funext s
    unfold outputWord outputBytes outputBytes outputBytes
    rw [e1, e2, bind_run, bind_run]
    cases outputByte (BitVec.ofNat 8 n) s with
    | err e => rfl
    | ok a s1 =>
      dsimp only
      rw [bind_run]
      cases outputByte (BitVec.ofNat 8 (n / 256)) s1 <;> rfl
  rw [eo]
  exact this

def Item.len : Item → Nat
  | .num _ => 0
  | .str s => s.length

theorem ru_item {w : Bool} {i : Item} :
    Ru (i.lx :: xs) p (dxItem (if w then 2 else 1)) (emit p (i.bytes w) >>= fun q => .ok (i.len, q)) xs := by
  unfold dxItem
  refine Ru.seq (Ru.rd rd_tok) ?_
  cases i with
  | num n =>
    have hty : headTok ((Item.num n).lx :: xs) = { ty := tokNumber, num := (n : Int) } := rfl
    simp only [hty]
    rw [if_pos trivial]
    cases w with
    | true =>
      rw [if_neg (by decide)]
      have := Ru.bind (f := fun _ => getToken >>= fun _ => pure 0) (k := fun x => .ok (0, x.2)) (ru_word (xs := (Item.num n).lx :: xs) (p := p) (n := n)) (zs := xs) fun v q _ =>
        Ru.seq (Ru.rd rd_getToken) Ru.pure
      revert this
      show Ru _ _ _ ((emit p [BitVec.ofNat 8 n, BitVec.ofNat 8 (n / 256)] >>= _) >>= _) _ → Ru _ _ _ (emit p [BitVec.ofNat 8 n, BitVec.ofNat 8 (n / 256)] >>= _) _
      cases emit p [BitVec.ofNat 8 n, BitVec.ofNat 8 (n / 256)] <;> exact id
    | false =>
      rw [if_pos (by decide)]
      have e1 : toByte (n : Int) = BitVec.ofNat 8 n := by simp [toByte]
      rw [e1]
      refine Ru.fits fun hp => ?_
      have := Ru.bind (f := fun _ => getToken >>= fun _ => pure 0) (k := fun x => .ok (0, x.2)) (ru_out (xs := (Item.num n).lx :: xs) (p := p) (b := BitVec.ofNat 8 n)) (zs := xs) fun v q _ =>
        Ru.seq (Ru.rd rd_getToken) Ru.pure
      show Ru _ _ _ (emit p [BitVec.ofNat 8 n] >>= _) _
      rw [emit_cons hp]
      revert this
      cases emit1 p (BitVec.ofNat 8 n) <;> exact id
  | str t =>
    have hty : headTok ((Item.str t).lx :: xs) = { ty := tokString, str := t } := rfl
    simp only [hty]
    rw [if_neg (by decide), if_pos trivial]
    have := Ru.bind (f := fun _ => getToken >>= fun _ => pure t.length) (k := fun x => .ok (t.length, x.2)) (ru_bytes (xs := (Item.str t).lx :: xs) (p := p) (bs := t)) (zs := xs) fun v q _ =>
      Ru.seq (Ru.rd rd_getToken) Ru.pure
    revert this
    show Ru _ _ _ ((emit p t >>= _) >>= _) _ → Ru _ _ _ (emit p t >>= _) _
    cases emit p t <;> exact id

theorem ru_accept_yes {x : Lx} {t : Nat} (h : x.tok.ty = t) : Ru (x :: xs) p (accept t) (.ok (true, p)) xs := by
  unfold accept
  refine Ru.seq (Ru.rd rd_ty) ?_
  rw [if_pos (show headTy (x :: xs) = t from h)]
  exact Ru.seq (Ru.rd rd_getToken) Ru.pure

theorem ru_accept_no {t : Nat} (h : headTy xs ≠ t) : Ru xs p (accept t) (.ok (false, p)) xs := by
  unfold accept
  refine Ru.seq (Ru.rd rd_ty) ?_
  rw [if_neg h]
  exact Ru.pure

theorem ru_items {w : Bool} (hx : headTy xs ≠ tokComma) : ∀ {l : List Item} {i : Item} {p : Place} {f n : Nat}, l.length < f →
    Ru (i.lx :: moreLx l ++ xs) p (dxItems (if w then 2 else 1) f n)
      (emit p ((i :: l).flatMap (Item.bytes w)) >>= fun q => .ok (n + strLen (i :: l), q)) xs := by
  have elen : ∀ (i : Item) (l : List Item), strLen (i :: l) = i.len + strLen l := by intro i l; cases i <;> simp [strLen, Item.len]
  intro l
  induction l with
  | nil =>
    intro i p f n hf
    obtain ⟨f, rfl⟩ : ∃ g, f = g + 1 := ⟨f - 1, by omega⟩
    unfold dxItems
    have := Ru.bind (f := fun k => accept tokComma >>= fun more => if more then dxItems (if w then 2 else 1) f (n + k) else pure (n + k))
      (k := fun x => .ok (n + x.1, x.2)) (ru_item (xs := xs) (p := p) (w := w) (i := i)) (zs := xs) fun v q _ =>
        Ru.seq (ru_accept_no hx) (by rw [if_neg (by decide)]; exact Ru.pure)
    show Ru (i.lx :: xs) _ _ (emit p (i.bytes w ++ []) >>= _) _
    rw [List.append_nil]
    rw [elen]
    simp only [strLen, Nat.add_zero]
    revert this
    cases emit p (i.bytes w) <;> exact id
  | cons j l ih =>
    intro i p f n hf
    refine Ru.fits fun hp => ?_
    obtain ⟨f, rfl⟩ : ∃ g, f = g + 1 := ⟨f - 1, by omega⟩
    simp only [List.length_cons] at hf
    unfold dxItems
    have := Ru.bind (f := fun k => accept tokComma >>= fun more => if more then dxItems (if w then 2 else 1) f (n + k) else pure (n + k))
      (k := fun x => emit x.2 ((j :: l).flatMap (Item.bytes w)) >>= fun q => .ok (n + x.1 + strLen (j :: l), q))
      (ru_item (xs := .sym (chr ',') :: (j.lx :: moreLx l ++ xs)) (p := p) (w := w) (i := i)) (zs := xs) fun v q _ =>
        Ru.seq (ru_accept_yes rfl) (by rw [if_pos rfl]; exact ih (by omega))
    rw [List.flatMap_cons, emit_append hp, elen]
    revert this
    cases emit p (i.bytes w) with
    | error e => exact id
    | ok q =>
      show Ru _ _ _ (emit q _ >>= _) _ → Ru _ _ _ (emit q _ >>= _) _
      simp only [Nat.add_assoc]
      exact id

theorem Ru.tokFuel {f : Nat → A β} {r : Except Err (β × Place)} (hf : ∀ n, xs.length + 4 ≤ n → Ru xs p (f n) r zs) :
    Ru xs p (Sas.tokFuel >>= f) r zs := by
  intro s h1 h2 h3 h4 h5
  exact hf _ (at_length h1) s h1 h2 h3 h4 h5

theorem moreLx_length (l : List Item) : l.length ≤ (moreLx l).length := by
  induction l with
  | nil => simp [moreLx]
  | cons i l ih => simp [moreLx]; omega

theorem ru_dx {w : Bool} {i : Item} {l : List Item} (hx : headTy xs ≠ tokComma) :
    Ru (i.lx :: moreLx l ++ xs) p (handleDx (if w then 2 else 1)) (emit p (dataBytes w (i :: l)) >>= fun q => .ok ((), q)) xs := by
  refine Ru.fits fun hp => ?_
  unfold handleDx
  refine Ru.tokFuel fun n hn => ?_
  have hn : l.length < n := by
    have := moreLx_length l
    simp only [List.length_append, List.length_cons] at hn; omega
  have := Ru.bind (f := fun k => if (if w then 2 else 1) = 2 ∧ k % 2 = 1 then outputByte 0 else pure ())
    (k := fun x => emit x.2 (if w ∧ strLen (i :: l) % 2 = 1 then [0] else []) >>= fun q => .ok ((), q))
    (ru_items (p := p) (w := w) hx hn (i := i) (n := 0)) (zs := xs) fun v q hv => by
      have hv : v = strLen (i :: l) := by
        cases he : emit p ((i :: l).flatMap (Item.bytes w)) with
        | error e => rw [he] at hv; cases hv
        | ok a => rw [he] at hv; cases hv; simp
      subst hv
      refine Ru.fits fun hq => ?_
      cases w with
      | false => exact Ru.pure
      | true =>
        by_cases h : strLen (i :: l) % 2 = 1
        · rw [if_pos ⟨rfl, h⟩, if_pos ⟨rfl, h⟩, emit_cons hq]
          have := ru_out (xs := xs) (p := q) (b := 0)
          revert this
          cases emit1 q 0 <;> exact id
        · rw [if_neg (fun h' => h h'.2), if_neg (fun h' => h h'.2)]
          exact Ru.pure
  unfold dataBytes
  rw [emit_append hp]
  revert this
  cases emit p ((i :: l).flatMap (Item.bytes w)) <;> exact id

theorem ru_mod {f : S → S} (h : ∀ s, At s.lex xs → s.out.toList = p.out → s.va = p.va → s.inBSS = p.bss → Fits s.va →
    At (f s).lex xs ∧ (f s).out.toList = q.out ∧ (f s).va = q.va ∧ (f s).inBSS = q.bss ∧ Fits (f s).va) : Ru xs p (modS f) (.ok ((), q)) xs :=
  fun s h1 h2 h3 h4 h5 => ⟨f s, rfl, h s h1 h2 h3 h4 h5⟩

theorem ru_num {e : E} (hw : e.WF) (hr : precedence (headTy xs) = 100) : Ru (e.lx ++ xs) p parseNumber (outcome e.val >>= fun v => .ok (v, p)) xs :=
  Ru.of_rd (C23_expression hw hr)

theorem outcome_fit {n v : Int} (h : outcome (fit n) = .ok v) : v = n ∧ Fits n := by
  unfold fit at h
  split at h
  · cases h; exact ⟨rfl, by assumption⟩
  · cases h

theorem ru_res {w : Bool} {e : E} (hw : e.WF) (hr : precedence (headTy xs) = 100) :
    Ru (e.lx ++ xs) p (handleResx (if w then 2 else 1)) ((Dir.res w e).eval p >>= fun q => .ok ((), q)) xs := by
  unfold handleResx
  refine Ru.seq (q := { p with bss := true }) (ru_mod fun s h1 h2 h3 h4 h5 => ⟨h1, h2, h3, rfl, h5⟩) ?_
  have := Ru.bind (f := fun n => ck ((if w then 2 else 1) * n) >>= fun d => getS >>= fun s => ck (s.va + d) >>= fun va => modS fun s => { s with va })
    (k := fun x => outcome (fit ((if w then 2 else 1) * x.1)) >>= fun d => outcome (fit (p.va + d)) >>= fun va => .ok ((), { p with va, bss := true }))
    (ru_num (p := { p with bss := true }) hw hr) (zs := xs) fun n q hn => by
      have hq : q = { p with bss := true } := by
        cases he : outcome e.val with
        | error x => rw [he] at hn; cases hn
        | ok a => rw [he] at hn; cases hn; rfl
      subst hq
      dsimp only
      have := Ru.bind (f := fun d => getS >>= fun s => ck (s.va + d) >>= fun va => modS fun s => { s with va })
        (k := fun x => outcome (fit (p.va + x.1)) >>= fun va => .ok ((), { p with va, bss := true }))
        (ru_ck (xs := xs) (p := { p with bss := true }) (n := (if w then 2 else 1) * n)) (zs := xs) fun d q hd => by
          have hq : q = { p with bss := true } := by
            cases he : outcome (fit ((if w then 2 else 1) * n)) with
            | error x => rw [he] at hd; cases hd
            | ok a => rw [he] at hd; cases hd; rfl
          subst hq
          intro s h1 h2 h3 h4 h5
          have h3 : s.va = p.va := h3
          have := Ru.bind (f := fun va => modS fun s : S => { s with va })
            (k := fun x => .ok ((), { p with va := x.1, bss := true }))
            (ru_ck (xs := xs) (p := { p with bss := true }) (n := p.va + d)) (zs := xs) fun va q hd => by
              have hv : Fits va := by
                cases he : outcome (fit (p.va + d)) with
                | error x => rw [he] at hd; cases hd
                | ok a => rw [he] at hd; cases hd; have := outcome_fit he; exact this.1 ▸ this.2
              exact ru_mod fun s h1 h2 h3 h4 h5 => ⟨h1, by
                cases he : outcome (fit (p.va + d)) with
                | error x => rw [he] at hd; cases hd
                | ok a => rw [he] at hd; cases hd; exact h2, rfl, by
                cases he : outcome (fit (p.va + d)) with
                | error x => rw [he] at hd; cases hd
                | ok a => rw [he] at hd; cases hd; exact h4, hv⟩
          have := this s h1 h2 h3 h4 h5
          rw [← h3] at this
          dsimp only
          rw [← h3]
          revert this
          have e1 : (getS >>= fun s => ck (s.va + d) >>= fun va => modS fun s : S => { s with va }) s = (ck (s.va + d) >>= fun va => modS fun s : S => { s with va }) s := rfl
          rw [e1]
          cases outcome (fit (s.va + d)) <;> exact id
      revert this
      cases outcome (fit ((if w then 2 else 1) * n)) <;> exact id
  simp only [Dir.eval]
  revert this
  cases outcome e.val with
  | error x => exact id
  | ok n =>
    show Ru _ _ _ (outcome _ >>= _) _ → Ru _ _ _ ((outcome _ >>= _) >>= _) _
    cases outcome (fit ((if w then 2 else 1) * n)) with
    | error x => exact id
    | ok d =>
      show Ru _ _ _ (outcome _ >>= _) _ → Ru _ _ _ ((outcome _ >>= _) >>= _) _
      cases outcome (fit (p.va + d)) <;> exact id

theorem kw_ty : (kw "DB").tok.ty = tokDb ∧ (kw "DW").tok.ty = tokDw ∧ (kw "RESB").tok.ty = tokResb ∧ (kw "RESW").tok.ty = tokResw ∧
    (kw "ORG").tok.ty = tokOrg ∧ (kw "CPU").tok.ty = tokCpu := by decide +kernel

theorem ru_step {x : Lx} {t : Nat} {r : Except Err (Unit × Place)} (hx : x.tok.ty = t) (h1 : tokDirective ≤ t) (h2 : t < tokInst)
    (h : Ru xs p (handleDirective t) r ys) : Ru (x :: xs) p step r ys := by
  unfold step
  refine Ru.seq (Ru.rd rd_ty) ?_
  have ht : headTy (x :: xs) = t := hx
  rw [ht, if_neg (by unfold tokUserId tokInst at *; omega), if_neg (by omega)]
  refine Ru.seq (Ru.rd rd_getToken) (Ru.seq (q := p) (ru_mod fun s h1 h2 h3 h4 h5 => ⟨h1, h2, h3, h4, h5⟩) ?_)
  rw [if_pos h2]
  exact h

theorem ru_dir {d : Dir} (hw : d.WF) (hr : precedence (headTy xs) = 100) (hc : headTy xs ≠ tokComma) :
    Ru (d.lx ++ xs) p step (d.eval p >>= fun q => .ok ((), q)) xs := by
  obtain ⟨k1, k2, k3, k4, k5, k6⟩ := kw_ty
  cases d with
  | data w i l =>
    cases w with
    | false => exact ru_step k1 (by decide) (by decide) (ru_dx (w := false) hc)
    | true => exact ru_step k2 (by decide) (by decide) (ru_dx (w := true) hc)
  | res w e =>
    cases w with
    | false => exact ru_step k3 (by decide) (by decide) (ru_res (w := false) hw hr)
    | true => exact ru_step k4 (by decide) (by decide) (ru_res (w := true) hw hr)
  | org e =>
    refine ru_step k5 (by decide) (by decide) ?_
    have := Ru.bind (f := fun n => modS fun s : S => { s with va := n }) (k := fun x => .ok ((), { p with va := x.1 })) (ru_num (p := p) hw.1 hr) (zs := xs) fun n q hn => by
      cases he : outcome e.val with
      | error x => rw [he] at hn; cases hn
      | ok a =>
        rw [he] at hn; cases hn
        have hf : Fits n := hw.2 n (by cases h : e.val with | none => rw [h] at he; cases he | some x => rw [h] at he; cases he; rfl)
        exact ru_mod fun s h1 h2 h3 h4 h5 => ⟨h1, h2, rfl, h4, hf⟩
    simp only [Dir.eval]
    revert this
    cases outcome e.val <;> exact id
  | cpu e =>
    refine ru_step k6 (by decide) (by decide) ?_
    have := Ru.bind (f := fun n => if n ≠ 8086 then (fail .fatal : A Unit) else pure ()) (k := fun x => if x.1 = 8086 then .ok ((), p) else .error .fatal) (ru_num (p := p) hw hr) (zs := xs) fun n q hn => by
      cases he : outcome e.val with
      | error x => rw [he] at hn; cases hn
      | ok a =>
        rw [he] at hn; cases hn
        by_cases ha : n = 8086
        · subst ha; exact Ru.pure
        · dsimp only
          rw [if_pos ha, if_neg ha]
          intro s h1 h2 h3 h4 h5
          rfl
    simp only [Dir.eval]
    revert this
    cases outcome e.val with
    | error x => exact id
    | ok n =>
      by_cases hn : n = 8086
      · subst hn; exact id
      · show Ru _ _ _ (if n = 8086 then _ else _) _ → Ru _ _ _ ((if n = 8086 then _ else _) >>= _) _
        rw [if_neg hn, if_neg hn]; exact id

theorem head_dirs (ds : List Dir) : precedence (headTy (ds.flatMap Dir.lx)) = 100 ∧ headTy (ds.flatMap Dir.lx) ≠ tokComma := by
  obtain ⟨k1, k2, k3, k4, k5, k6⟩ := kw_ty
  cases ds with
  | nil => decide
  | cons d ds =>
    cases d with
    | data w i l =>
      cases w
      · show precedence (kw "DB").tok.ty = 100 ∧ (kw "DB").tok.ty ≠ tokComma; rw [k1]; decide
      · show precedence (kw "DW").tok.ty = 100 ∧ (kw "DW").tok.ty ≠ tokComma; rw [k2]; decide
    | res w e =>
      cases w
      · show precedence (kw "RESB").tok.ty = 100 ∧ (kw "RESB").tok.ty ≠ tokComma; rw [k3]; decide
      · show precedence (kw "RESW").tok.ty = 100 ∧ (kw "RESW").tok.ty ≠ tokComma; rw [k4]; decide
    | org e => show precedence (kw "ORG").tok.ty = 100 ∧ (kw "ORG").tok.ty ≠ tokComma; rw [k5]; decide
    | cpu e => show precedence (kw "CPU").tok.ty = 100 ∧ (kw "CPU").tok.ty ≠ tokComma; rw [k6]; decide

theorem dir_head (d : Dir) (xs : List Lx) : headTy (d.lx ++ xs) ≠ tokEof := by
  obtain ⟨k1, k2, k3, k4, k5, k6⟩ := kw_ty
  cases d with
  | data w i l =>
    cases w
    · show (kw "DB").tok.ty ≠ tokEof; rw [k1]; decide
    · show (kw "DW").tok.ty ≠ tokEof; rw [k2]; decide
  | res w e =>
    cases w
    · show (kw "RESB").tok.ty ≠ tokEof; rw [k3]; decide
    · show (kw "RESW").tok.ty ≠ tokEof; rw [k4]; decide
  | org e => show (kw "ORG").tok.ty ≠ tokEof; rw [k5]; decide
  | cpu e => show (kw "CPU").tok.ty ≠ tokEof; rw [k6]; decide

theorem ru_loop : ∀ {ds : List Dir} {p : Place} {f : Nat}, (∀ d ∈ ds, d.WF) → ds.length < f →
    Ru (ds.flatMap Dir.lx) p (loop f) (evalAll ds p >>= fun q => .ok ((), q)) []
  | [], p, f, _, hf => by
    obtain ⟨f, rfl⟩ : ∃ g, f = g + 1 := ⟨f - 1, by omega⟩
    unfold loop
    refine Ru.seq (Ru.rd rd_ty) ?_
    rw [if_pos (by decide)]
    exact Ru.pure
  | d :: ds, p, f, hw, hf => by
    obtain ⟨f, rfl⟩ : ∃ g, f = g + 1 := ⟨f - 1, by omega⟩
    simp only [List.length_cons] at hf
    unfold loop
    refine Ru.seq (Ru.rd rd_ty) ?_
    rw [List.flatMap_cons, if_neg (dir_head d _)]
    have := Ru.bind (f := fun _ => loop f) (k := fun x => evalAll ds x.2 >>= fun q => .ok ((), q))
      (ru_dir (p := p) (hw d (by simp)) (head_dirs ds).1 (head_dirs ds).2) fun v q _ => ru_loop (fun d h => hw d (by simp [h])) (by omega)
    simp only [evalAll]
    revert this
    cases d.eval p <;> exact id

end Props.SasData

namespace Props
open Sas I86 Text Prog Props.SasIds Props.SasTotal Props.SasText Props.SasExpr Props.SasAsm Props.SasData

/-- C24, the layout.  For every file that consists of data directives (with arbitrary blanks between the lexical elements) the outcome of
the assembler is the one of the specification: either the file written is the concatenation of the bytes and words in order, with the
final address as specified, or the file is rejected for the reason specified; in particular it is rejected by an assertion, and nothing
is written beyond the buffer, when the data exceeds 20000 bytes. -/
theorem C24_layout {text : List Byte} {ds : List Dir} (hr : Reads text (ds.flatMap Dir.lx)) (hw : ∀ d ∈ ds, d.WF) :
    match evalAll ds ⟨[], 0, false⟩ with
    | .ok p => ∃ s, Sas.run text = .ok () s ∧ Sas.assemble text = .ok s.out ∧ s.out.toList = p.out ∧ s.va = p.va
    | .error e => Sas.assemble text = .error e := by
  obtain ⟨ids, hi, ht, _⟩ := builtin_tab
  have hrun : Sas.run text = (do getToken; loop (4 * text.length + 8)) (init ids text) := by unfold Sas.run; rw [hi]
  have hlen : ds.length ≤ (ds.flatMap Dir.lx).length := by
    clear hr hw
    induction ds with
    | nil => simp
    | cons d ds ih => have : 0 < d.lx.length := by cases d <;> simp [Dir.lx]
                      simp only [List.flatMap_cons, List.length_append, List.length_cons]; omega
  have hl := reads_length hr
  obtain ⟨l, hl1, hl2⟩ : ∃ l, getToken (init ids text) = .ok () { init ids text with lex := l } ∧ At l (ds.flatMap Dir.lx) := by
    obtain ⟨l, e, h⟩ := lexStep_reads (equ := equOf (init ids text).labels) (l := (init ids text).lex) ht hr
    exact ⟨l, by unfold getToken; rw [e], h⟩
  have h1 := ru_loop (p := ⟨[], 0, false⟩) (f := 4 * text.length + 8) hw (by omega) { init ids text with lex := l } hl2 rfl rfl rfl (show Fits 0 by decide)
  have h2 : Sas.run text = loop (4 * text.length + 8) { init ids text with lex := l } := by rw [hrun, bind_run, hl1]
  unfold Sas.assemble
  rw [h2]
  cases e : evalAll ds ⟨[], 0, false⟩ with
  | error x =>
    rw [e] at h1
    have h1 : loop (4 * text.length + 8) { init ids text with lex := l } = .err x := h1
    rw [h1]
  | ok p =>
    rw [e] at h1
    obtain ⟨s', g1, g2, g3, g4, g5⟩ := h1
    rw [g1]
    exact ⟨s', rfl, rfl, g3, g4⟩

/-- A file with all the directives: `ORG 256  DW 1,'ab c',770  DB 'x',255  RESW 1<<3  RESB 2`. -/
def sampleDirs : List Dir := [.org (.num 256), .data true (.num 1) [.str (asc "ab c"), .num 770], .data false (.str (asc "x")) [.num 255],
  .res true (.bin .shl (.num 1) (.num 3)), .res false (.num 2)]

example : (∀ d ∈ sampleDirs, d.WF) ∧ (match evalAll sampleDirs ⟨[], 0, false⟩ with
      | .ok p => p.out == [1, 0, 0x61, 0x62, 0x20, 0x63, 2, 3, 0x78, 0xFF] && p.va == 284 && p.bss
      | .error _ => false) = true := by
  refine ⟨?_, by decide +kernel⟩
  intro d hd
  simp only [sampleDirs, List.mem_cons, List.not_mem_nil, or_false] at hd
  rcases hd with rfl | rfl | rfl | rfl | rfl
  · exact ⟨trivial, fun v h => by cases h; decide⟩
  · trivial
  · trivial
  · simp [Dir.WF, E.WF, E.lvl, BOp.lvl]
  · trivial

end Props
