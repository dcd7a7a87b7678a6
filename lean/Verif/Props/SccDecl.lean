import Verif.Props.SccSize
import Verif.Props.SccStmHead
/-!
# Declarations of types in `scc.c` (C40): tokens, pointers and arrays

The tables which the compiler builds for a declarator represent the declared type.
-/
namespace SccDecl
open Prog Text Scc SccCode SccGen SccHead SccSize Props.SccLex Props.SccIds

/-! ## Specification: the text -/

/-- Brackets. -/
inductive Br : Tk → List Byte → Prop
  | lb : Br (.sym 0x5B precStop) (asc "[")
  | rb : Br (.sym 0x5D precStop) (asc "]")

/-- The text `l` has the tokens `ts` and then `E`.  `names` are the words known before it, `N` those known behind it; a word is known by
its place in the list, and a new word gets the next place. -/
inductive Txt (N : List (List Byte)) (E : List Byte) : List (List Byte) → List Byte → List Tk → Prop
  | nil : Txt N E N E []
  | num {names : List (List Byte)} {ws r : List Byte} {ts : List Tk} (n : Nat) (hn : n < 10 ^ 9) (hw : Gap ws) (ha : After r) (hr : r ≠ [])
      (h : Txt N E names r ts) : Txt N E names (ws ++ decimal n ++ r) (.num n :: ts)
  | word {names : List (List Byte)} {ws w r : List Byte} {ts : List Tk} (hwd : Word w) (hroom : RoomI (intern names w)) (hw : Gap ws) (ha : After r)
      (hr : r ≠ []) (h : Txt N E (intern names w) r ts) : Txt N E names (ws ++ w ++ r) (.id (SccHead.num (intern names w) w) :: ts)
  | sym {names : List (List Byte)} {ws w r : List Byte} {t p : Nat} {ts : List Tk} (hs : Sym (.sym t p) w) (hw : Gap ws) (ha : Munch w r) (hr : r ≠ [])
      (h : Txt N E names r ts) : Txt N E names (ws ++ w ++ r) (.sym t p :: ts)
  | br {names : List (List Byte)} {ws w r : List Byte} {t p : Nat} {ts : List Tk} (hs : Br (.sym t p) w) (hw : Gap ws) (hr : r ≠ [])
      (h : Txt N E names r ts) : Txt N E names (ws ++ w ++ r) (.sym t p :: ts)

/-- The current token and those which follow. -/
def At (N : List (List Byte)) (E : List Byte) (s : S) : List Tk → Prop
  | [] => True
  | t :: ts => Cur s t ∧ ∃ names text, Lex names text s ∧ Txt N E names text ts

/-! ## Reading tokens -/

variable {N : List (List Byte)} {E : List Byte}

def lx (s : S) : Byte × List Byte × Nat × Int × Nat × Tab (Option Nat) 10 × Tab (List Byte) 10 × Nat × Nat :=
  (s.cur, s.inp, s.tok, s.num, s.prec, s.idHash, s.idText, s.idCount, s.idPos)

theorem At.congr {s s' : S} {ts : List Tk} (h : At N E s ts) (e : lx s' = lx s) : At N E s' ts := by
  unfold lx at e
  simp only [Prod.mk.injEq] at e
  obtain ⟨e1, e2, e3, e4, e5, e6, e7, e8, e9⟩ := e
  cases ts with
  | nil => trivial
  | cons t ts =>
    obtain ⟨⟨c1, c2, c3⟩, names, text, hl, ht⟩ := h
    refine ⟨⟨e3.trans c1, e5.trans c2, fun v hv => e4.trans (c3 v hv)⟩, names, text, ⟨by rw [e1, e2]; exact hl.text, ?_, by rw [e9]; exact hl.pos, hl.ge⟩, ht⟩
    have := hl.ids
    unfold Ids at this ⊢
    rw [e6, e7, e8]
    exact this

theorem Br.scan {t : Tk} {w ws r : List Byte} (h : Br t w) (hw : Gap ws) (hr : r ≠ []) (s : S) :
    getToken (at' s (ws ++ w ++ r)) = .ok () (showT t (at' s r)) := by
  cases h with
  | lb => exact op_at (c := 0x5B) (w := []) (by decide) (by decide) (by decide) (by decide) (by decide) hr hw rfl
  | rb => exact op_at (c := 0x5D) (w := []) (by decide) (by decide) (by decide) (by decide) (by decide) hr hw rfl

theorem At.next {s : S} {t u : Tk} {ts : List Tk} (h : At N E s (t :: u :: ts)) : ∃ s', getToken s = .ok () s' ∧ TokI s s' ∧ At N E s' (u :: ts) := by
  obtain ⟨_, names, text, hl, ht⟩ := h
  cases ht with
  | @num _ ws r _ n hn hw ha hr h =>
    have h16 : ∀ b, b ≤ 16 → Ends b r := fun b hb c hc => ⟨by rw [(after_digit c (ha c hc).1).1]; omega, fun _ => (ha c hc).2⟩
    have e := Props.C33_roundtrip s ws r n hw hn (h16 10 (by decide)) fun _ => ⟨h16 16 (by decide), by
      cases r with
      | nil => decide
      | cons c r => exact (after_digit c (ha c rfl).1).2⟩
    rw [← hl.at'] at e
    exact ⟨_, e, rfl, ⟨rfl, rfl, fun v hv => by cases hv; rfl⟩, names, r, ⟨rest_eq s r hr, hl.ids, hl.pos, hl.ge⟩, h⟩
  | @word _ ws w r _ hwd hroom hw ha hr h =>
    obtain ⟨s1, e1, k1, l1, t1, p1⟩ := read_word hl hw hwd ha hr hroom
    exact ⟨s1, e1, k1, ⟨t1, p1, nofun⟩, _, _, l1, h⟩
  | @sym _ ws w r t p _ hs hw ha hr h =>
    obtain ⟨s1, e1, k1, l1, t1, p1⟩ := read_sym hl hs hw ha hr
    exact ⟨s1, e1, k1, ⟨t1, p1, nofun⟩, _, _, l1, h⟩
  | @br _ ws w r t p _ hs hw hr h =>
    have e := hs.scan hw hr s
    rw [← hl.at'] at e
    exact ⟨_, e, rfl, ⟨rfl, rfl, nofun⟩, names, r, ⟨rest_eq s r hr, hl.ids, hl.pos, hl.ge⟩, h⟩

/-! ## What declarations of types do not change -/

def fz (s : S) : S :=
  { s with
    cur := 0, inp := [], tok := 0, num := 0, prec := 0, idHash := .const none 10, idText := .const [] 10, idCount := 0, idPos := 0
    members := .const ⟨0, 0, 0, none⟩ 5, memCount := 0, structs := .const ⟨0, none⟩ 3, structCount := 0, arrays := .const ⟨0, 0, 0⟩ 5, arrayCount := 0
    type := 0, extra := 0, val := 0, baseType := 0, baseExtra := 0 }

theorem _root_.SccHead.TokI.fz {s s' : S} (h : TokI s s') : fz s' = fz s := by rw [h]; rfl
theorem _root_.SccHead.TokI.val {s s' : S} (h : TokI s s') : s'.val = s.val := by have := congrArg S.val h; exact this

/-- The tables of types, and the type of the declaration. -/
def tb (s : S) : Tab StructMember 5 × Nat × Tab StructDecl 3 × Nat × Tab ArrayDecl 5 × Nat × Nat × Int :=
  (s.members, s.memCount, s.structs, s.structCount, s.arrays, s.arrayCount, s.baseType, s.baseExtra)

theorem _root_.SccHead.TokI.tb {s s' : S} (h : TokI s s') : tb s' = tb s := by rw [h]; rfl

theorem noTd_fz {s s' : S} (h : NoTd s) (e : fz s' = fz s) : NoTd s' := by
  have h1 : s'.lookup = s.lookup := by have := congrArg S.lookup e; exact this
  have h2 : s'.vars = s.vars := by have := congrArg S.vars e; exact this
  intro x hx v
  rw [h1, h2]
  exact h x hx v

/-! ## Types which stay represented -/

/-- What is in the tables of `s` is in those of `s'`, but for the members `om` and the structures `os`. -/
structure Keep (om os : List Nat) (s s' : S) : Prop where
  ac : s.arrayCount ≤ s'.arrayCount
  mc : s.memCount ≤ s'.memCount
  sc : s.structCount ≤ s'.structCount
  arr : ∀ k < s.arrayCount, s'.arrays.get k = s.arrays.get k
  mem : ∀ k < s.memCount, k ∉ om → s'.members.get k = s.members.get k
  str : ∀ k < s.structCount, k ∉ os → s'.structs.get k = s.structs.get k

theorem Keep.refl (om os : List Nat) (s : S) : Keep om os s s := ⟨Nat.le_refl _, Nat.le_refl _, Nat.le_refl _, fun _ _ => rfl, fun _ _ _ => rfl, fun _ _ _ => rfl⟩

theorem Keep.trans {om os : List Nat} {s s1 s2 : S} (h1 : Keep om os s s1) (h2 : Keep om os s1 s2) : Keep om os s s2 :=
  ⟨Nat.le_trans h1.ac h2.ac, Nat.le_trans h1.mc h2.mc, Nat.le_trans h1.sc h2.sc, fun k hk => (h2.arr k (Nat.lt_of_lt_of_le hk h1.ac)).trans (h1.arr k hk),
    fun k hk ho => (h2.mem k (Nat.lt_of_lt_of_le hk h1.mc) ho).trans (h1.mem k hk ho), fun k hk ho => (h2.str k (Nat.lt_of_lt_of_le hk h1.sc) ho).trans (h1.str k hk ho)⟩

theorem Keep.of_tb {om os : List Nat} {s s' : S} (h : tb s' = tb s) : Keep om os s s' := by
  unfold tb at h
  simp only [Prod.mk.injEq] at h
  obtain ⟨h1, h2, h3, h4, h5, h6, _⟩ := h
  exact ⟨by rw [h6], by rw [h2], by rw [h4], fun _ _ => by rw [h5], fun _ _ _ => by rw [h1], fun _ _ _ => by rw [h3]⟩

theorem Keep.mono {om om' os os' : List Nat} {s s' : S} (h : Keep om os s s') (hm : ∀ k < s.memCount, k ∈ om → k ∈ om') (hs : ∀ k < s.structCount, k ∈ os → k ∈ os') :
    Keep om' os' s s' :=
  ⟨h.ac, h.mc, h.sc, h.arr, fun k hk ho => h.mem k hk fun hi => ho (hm k hk hi), fun k hk ho => h.str k hk fun hi => ho (hs k hk hi)⟩

/-- The type is represented, and stays so whatever is done to the members `om` and the structures `os`. -/
def Rep (om os : List Nat) (s : S) (ty : Nat) (ex : Int) (t : CT) : Prop := ∀ s', Keep om os s s' → Repr s' ty ex t

theorem Rep.keep {om os : List Nat} {s s' : S} {ty : Nat} {ex : Int} {t : CT} (h : Rep om os s ty ex t) (k : Keep om os s s') : Rep om os s' ty ex t :=
  fun s2 k2 => h s2 (k.trans k2)

theorem Rep.mono {om om' os os' : List Nat} {s : S} {ty : Nat} {ex : Int} {t : CT} (h : Rep om' os' s ty ex t) (hm : ∀ k < s.memCount, k ∈ om → k ∈ om')
    (hs : ∀ k < s.structCount, k ∈ os → k ∈ os') : Rep om os s ty ex t :=
  fun s2 k2 => h s2 (k2.mono hm hs)

theorem Rep.repr {om os : List Nat} {s : S} {ty : Nat} {ex : Int} {t : CT} (h : Rep om os s ty ex t) : Repr s ty ex t := h s (.refl _ _ _)

/-- The specifiers of a declaration give a type without pointers and arrays, or an incomplete one. -/
structure Base (om os : List Nat) (s : S) (ty : Nat) (ex : Int) (o : Option CT) : Prop where
  lt : ty < 16
  ne : ty &&& vtBaseMask ≠ vtArray
  rep : ∀ t, o = some t → Rep om os s ty ex t

theorem Base.keep {om os : List Nat} {s s' : S} {ty : Nat} {ex : Int} {o : Option CT} (h : Base om os s ty ex o) (k : Keep om os s s') : Base om os s' ty ex o :=
  ⟨h.lt, h.ne, fun t ht => (h.rep t ht).keep k⟩

/-! ## Specification: declarators -/

/-- `n` elements of the type, with `bs` the bounds from the outermost one. -/
def arrs (t : CT) : List Nat → CT
  | [] => t
  | b :: bs => .arr b (arrs t bs)

/-- The tokens of bounds. -/
def boundToks (bs : List Nat) : List Tk := bs.flatMap fun b => [.sym 0x5B precStop, .num b, .sym 0x5D precStop]

/-- A declarator of the identifier `x` gives the type `t` on top of the specified type `o`: up to three `*`, the identifier, bounds. -/
inductive Dcl (o : Option CT) : List Tk → Nat → CT → Prop
  | val {t : CT} (x : Nat) (hx : 37 ≤ x ∧ x < idMax) (bs : List Nat) (hb : ∀ b ∈ bs, b ≠ 0) (ho : o = some t) :
      Dcl o (.id x :: boundToks bs) x (arrs t bs)
  | ptr (p x : Nat) (hp : p < 3) (hx : 37 ≤ x ∧ x < idMax) (bs : List Nat) (hb : ∀ b ∈ bs, b ≠ 0) :
      Dcl o (List.replicate (p + 1) (.sym 0x2A 3) ++ .id x :: boundToks bs) x (arrs .ptr bs)

/-! ## Array bounds -/

/-- The arrays from `j` down to `a` have the bounds `bs`, and the last one has elements of the type `ty`. -/
def Chain (s : S) (a ty : Nat) (ex : Int) : Nat → List Nat → Prop
  | _, [] => False
  | j, [b] => j = a ∧ s.arrays.get j = ⟨b, ty, ex⟩
  | j, b :: bs => a < j ∧ s.arrays.get j = ⟨b, vtArray, (j - 1 : Nat)⟩ ∧ Chain s a ty ex (j - 1) bs

theorem Chain.le {s : S} {a ty : Nat} {ex : Int} {bs : List Nat} : ∀ {j : Nat}, Chain s a ty ex j bs → a ≤ j := by
  match bs with
  | [] => exact fun _ h => h.elim
  | [b] => exact fun _ h => Nat.le_of_eq h.1.symm
  | b :: c :: bs => exact fun _ h => Nat.le_of_lt h.1

theorem Chain.congr {s s' : S} {a ty : Nat} {ex : Int} {bs : List Nat} : ∀ {j : Nat}, Chain s a ty ex j bs → (∀ k, a ≤ k → k ≤ j → s'.arrays.get k = s.arrays.get k) →
    Chain s' a ty ex j bs := by
  induction bs with
  | nil => exact fun h _ => h.elim
  | cons b bs ih =>
    intro j h hs
    cases bs with
    | nil => exact ⟨h.1, by rw [hs _ (Nat.le_of_eq h.1.symm) (Nat.le_refl _)]; exact h.2⟩
    | cons c bs => exact ⟨h.1, by rw [hs _ (Nat.le_of_lt h.1) (Nat.le_refl _)]; exact h.2.1, ih h.2.2 fun k h1 h2 => hs k h1 (by omega)⟩

theorem Chain.repr {om os : List Nat} {s : S} {a ty : Nat} {ex : Int} {t : CT} (ht : Rep om os s ty ex t) (hc : s.arrayCount ≤ arrayMax) :
    ∀ {bs : List Nat} {j : Nat}, Chain s a ty ex j bs → (∀ b ∈ bs, b ≠ 0) → j < s.arrayCount → Rep om os s vtArray j (arrs t bs)
  | [], _, h, _, _ => h.elim
  | [b], j, h, hb, hj => by
    intro s' k
    have e : s'.arrays.get j = ⟨b, ty, ex⟩ := (k.arr j hj).trans h.2
    have r := Repr.arr (s := s') (ty := vtArray) (k := j) (t := t) (by decide) (by decide) (Nat.lt_of_lt_of_le hj hc) (by rw [e]; exact hb b (by simp)) (by rw [e]; exact ht s' k)
    rw [e] at r
    exact r
  | b :: c :: bs, j, h, hb, hj => by
    intro s' k
    have ih := Chain.repr ht hc h.2.2 (fun b hb' => hb b (List.mem_cons_of_mem _ hb')) (by omega) s' k
    have e : s'.arrays.get j = ⟨b, vtArray, (j - 1 : Nat)⟩ := (k.arr j hj).trans h.2.1
    have r := Repr.arr (s := s') (ty := vtArray) (k := j) (t := arrs t (c :: bs)) (by decide) (by decide) (Nat.lt_of_lt_of_le hj hc) (by rw [e]; exact hb b (by simp))
      (by rw [e]; exact ih)
    rw [e] at r
    exact r

/-- The bounds are moved inwards. -/
theorem move_ok {a ty : Nat} {ex : Int} (hty : ty ≠ vtArray) (b : Nat) : ∀ (bs : List Nat) (f j : Nat) (s : S), bs.length < f → j < arrayMax → s.arrays.get j = ⟨b, vtArray, (j - 1 : Nat)⟩ → a < j →
    Chain s a ty ex (j - 1) bs → ∃ s' ar, moveBounds f j s = .ok () s' ∧ s' = { s with arrays := ar } ∧ Chain s' a ty ex j (bs ++ [b]) ∧
      ∀ k < arrayMax, k < a ∨ j < k → s'.arrays.get k = s.arrays.get k := by
  intro bs
  induction bs with
  | nil => exact fun _ _ _ _ _ _ _ h => h.elim
  | cons c bs ih =>
    intro f j s hf hj hg haj hch
    cases f with
    | zero => simp at hf
    | succ f =>
    let s1 : S := { s with arrays := (s.arrays.set j ⟨c, vtArray, (j - 1 : Nat)⟩).set (j - 1) { s.arrays.get (j - 1) with bound := b } }
    have hbd : (s.arrays.get (j - 1)).bound = c := by
      cases bs with
      | nil => rw [hch.2]
      | cons d bs => rw [hch.2.1]
    have hj5 : j < 2 ^ 5 := hj
    have hrun : ∀ r, moveBounds f (j - 1) s1 = r → moveBounds (f + 1) j s = r := by
      intro r hr
      refine run_getS ?_
      rw [hg]
      refine run_pos rfl (run_bind (a := j - 1) (s1 := s) (run_ub (decide_eq_true (by show (0 : Int) ≤ ((j - 1 : Nat) : Int) ∧ ((j - 1 : Nat) : Int) < 32; have : j < 32 := hj; omega)) rfl) ?_)
      refine run_modS ?_
      rw [hbd]
      exact hr
    have gj : s1.arrays.get j = ⟨c, vtArray, (j - 1 : Nat)⟩ := by
      show ((s.arrays.set _ _).set _ _).get _ = _
      rw [Tab.get_set_ne _ _ (by omega) hj5 (by omega), Tab.get_set_self]
    have gj1 : s1.arrays.get (j - 1) = { s.arrays.get (j - 1) with bound := b } := by
      show ((s.arrays.set _ _).set _ _).get _ = _
      rw [Tab.get_set_self]
    have go : ∀ k < arrayMax, k ≠ j → k ≠ j - 1 → s1.arrays.get k = s.arrays.get k := by
      intro k hk h1 h2
      show ((s.arrays.set _ _).set _ _).get _ = _
      rw [Tab.get_set_ne _ _ (by omega) hk (by omega), Tab.get_set_ne _ _ hj5 hk (by omega)]
    cases bs with
    | nil =>
      obtain ⟨h1, h2⟩ := hch
      have gt : s1.arrays.get (j - 1) = ⟨b, ty, ex⟩ := by rw [gj1, h2]
      refine ⟨s1, _, hrun _ ?_, rfl, ?_, fun k hk h => go k hk (by omega) (by omega)⟩
      · cases f with
        | zero => simp at hf
        | succ f => exact run_getS (run_neg (by rw [gt]; exact hty) rfl)
      · exact ⟨haj, gj, h1, gt⟩
    | cons d bs =>
      obtain ⟨h1, h2, h3⟩ := hch
      have gt : s1.arrays.get (j - 1) = ⟨b, vtArray, (j - 1 - 1 : Nat)⟩ := by rw [gj1, h2]
      obtain ⟨s2, ar, e2, k2, c2, o2⟩ := ih f (j - 1) s1 (by simp at hf ⊢; omega) (by omega) gt h1 (h3.congr fun k _ hk => go k (by omega) (by omega) (by omega))
      refine ⟨s2, ar, hrun _ e2, by rw [k2], ?_, fun k hk h => ?_⟩
      · exact ⟨haj, by rw [o2 j hj (.inr (by omega)), gj], c2⟩
      · rw [o2 k hk (by omega), go k hk (by omega) (by omega)]

/-- A number as a constant expression. -/
theorem num_ok {s : S} {n : Nat} {ts : List Tk} (h : At N E s (.num n :: .sym 0x5D precStop :: ts)) :
    ∃ s', Go .expr s s' ∧ At N E s' (.sym 0x5D precStop :: ts) ∧ s'.type = vtInt ||| vtLocLit ∧ s'.val = n ∧ s'.extra = s.extra ∧ tb s' = tb s ∧ fz s' = fz s := by
  let s1 : S := { s with type := vtLocLit ||| vtInt, val := s.num }
  obtain ⟨s2, e2, k2, a2⟩ := (h.congr (s' := s1) rfl).next
  have t1 : s.tok = tokNum := h.1.tok
  have t2 : s2.tok = 0x5D := a2.1.tok
  have p2 : s2.prec = precStop := a2.1.prec
  have h1 : Go .primary s s2 := Go.of 0 fun n _ => run_bind (a := ()) (s1 := s2) (run_getS (run_neg (by rw [t1]; decide) (run_pos t1 (run_modS e2)))) rfl
  have h2 : Go .postfix s2 s2 := by
    refine Go.of 0 fun n _ => run_bind (a := ()) (s1 := s2) (run_getS ?_) rfl
    refine run_neg (by rw [p2]; simp) (run_neg (by rw [t2]; decide) (run_neg (by rw [t2]; decide) (run_neg (by rw [t2]; decide) (run_neg (by rw [t2]; decide) (run_neg (by rw [t2]; decide) rfl)))))
  obtain ⟨N1, h1⟩ := h1
  obtain ⟨N2, h2⟩ := h2
  have h3 : Go .unary s s2 := by
    refine Go.of (N1 + N2) fun n hn => run_bind (a := ()) (s1 := s2) (run_getS ?_) rfl
    exact run_neg (by rw [t1]; decide) (run_neg (by rw [t1]; decide) (run_neg (by rw [t1]; decide) (run_bind (h1 n (by omega)) (h2 n (by omega)))))
  obtain ⟨N3, h3⟩ := h3
  have h4 : Go .cast s s2 := Go.of N3 fun n hn => run_bind (a := ()) (s1 := s2) (run_getS (run_neg (by rw [t1]; decide) (h3 n hn))) rfl
  obtain ⟨N4, h4⟩ := h4
  refine ⟨s2, Go.of N4 fun n hn => run_bind (a := ()) (s1 := s2) (run_bind (h4 n hn) (run_getS (run_neg (by rw [p2]; decide) rfl))) rfl, a2, k2.type, ?_, k2.extra, k2.tb, k2.fz⟩
  rw [k2.val]
  exact h.1.num _ rfl

/-- The tables but for the arrays. -/
def tn (s : S) : Tab StructMember 5 × Nat × Tab StructDecl 3 × Nat × Nat × Int :=
  (s.members, s.memCount, s.structs, s.structCount, s.baseType, s.baseExtra)

theorem tn_tb {s s' : S} (h : tb s' = tb s) : tn s' = tn s := by
  unfold tb at h
  simp only [Prod.mk.injEq] at h
  obtain ⟨h1, h2, h3, h4, _, _, h7, h8⟩ := h
  simp only [tn, h1, h2, h3, h4, h7, h8]

theorem arr_tb {s s' : S} (h : tb s' = tb s) : s'.arrays = s.arrays ∧ s'.arrayCount = s.arrayCount := by
  unfold tb at h
  simp only [Prod.mk.injEq] at h
  exact ⟨h.2.2.2.2.1, h.2.2.2.2.2.1⟩

/-- The type of arrays with bounds `done` of elements of type `ty`; the arrays are numbered from `a`. -/
def Arrs (s : S) (a ty : Nat) (ex : Int) (done : List Nat) : Prop :=
  s.arrayCount = a + done.length ∧
  match done with
  | [] => s.type = ty ∧ s.extra = ex
  | _ :: _ => s.type = vtArray ∧ s.extra = (s.arrayCount - 1 : Nat) ∧ Chain s a ty ex (s.arrayCount - 1) done

/-- Bounds. -/
theorem bounds_ok {a ty : Nat} {ex : Int} (hty : ty ≠ vtArray) (hcl : clr ty vtStatic = ty ∧ ty &&& vtStatic = 0) {u : Tk} (hu : u.tok ≠ 0x5B) {ts : List Tk} :
    ∀ (bs done : List Nat) (s : S), At N E s (boundToks bs ++ u :: ts) → Arrs s a ty ex done → (∀ b ∈ bs, b ≠ 0) → s.arrayCount + bs.length ≤ arrayMax →
    ∃ s', Go .bounds s s' ∧ At N E s' (u :: ts) ∧ Arrs s' a ty ex (done ++ bs) ∧ tn s' = tn s ∧ fz s' = fz s ∧ ∀ k < a, s'.arrays.get k = s.arrays.get k := by
  intro bs
  induction bs with
  | nil =>
    intro done s hat har _ _
    have t1 : s.tok = u.tok := hat.1.tok
    exact ⟨s, Go.of 0 fun n _ => run_bind (a := ()) (s1 := s) (run_getS (run_pos (by rw [t1]; exact hu) rfl)) rfl, hat, by rw [List.append_nil]; exact har, rfl, rfl, fun _ _ => rfl⟩
  | cons b bs ih =>
    intro done s hat har hb hroom
    have hat : At N E s (.sym 0x5B precStop :: .num b :: .sym 0x5D precStop :: (boundToks bs ++ u :: ts)) := hat
    obtain ⟨v, vs, hv⟩ : ∃ v vs, boundToks bs ++ u :: ts = v :: vs := by
      cases bs with
      | nil => exact ⟨_, _, rfl⟩
      | cons c bs => exact ⟨_, _, rfl⟩
    have t0 : s.tok = 0x5B := hat.1.tok
    have hlt : s.arrayCount < 32 := by simp at hroom; have : s.arrayCount + (bs.length + 1) ≤ 32 := hroom; omega
    obtain ⟨s1, e1, k1, a1⟩ := hat.next
    obtain ⟨q1, q2⟩ := arr_tb k1.tb
    let ad : ArrayDecl := { s.arrays.get s.arrayCount with type := clr s.type vtStatic, extra := s.extra }
    let s2 : S := { s1 with arrays := s1.arrays.set s.arrayCount ad }
    have a2 : At N E s2 (.num b :: .sym 0x5D precStop :: (boundToks bs ++ u :: ts)) := a1.congr rfl
    have t2 : s2.tok = tokNum := a2.1.tok
    obtain ⟨s3, ⟨N3, g3⟩, a3, y3, v3, x3, b3, z3⟩ := num_ok a2
    obtain ⟨q3, q4⟩ := arr_tb b3
    let s4 : S := { s3 with arrays := s3.arrays.set s.arrayCount { s3.arrays.get s.arrayCount with bound := s3.val.toNat } }
    have a4 : At N E s4 (.sym 0x5D precStop :: v :: vs) := by
      rw [← hv]; exact a3.congr rfl
    obtain ⟨s5, e5, k5, a5⟩ := a4.next
    obtain ⟨q5, q6⟩ := arr_tb k5.tb
    have c5 : s5.arrayCount = s.arrayCount := by
      rw [q6]; show s3.arrayCount = _; rw [q4]; exact q2
    let s6 : S := { s5 with type := vtArray ||| (s.type &&& vtStatic), extra := s5.arrayCount, arrayCount := s5.arrayCount + 1 }
    have hst : clr s.type vtStatic = s.type ∧ s.type &&& vtStatic = 0 := by
      cases done with
      | nil => rw [har.2.1]; exact hcl
      | cons d ds => rw [har.2.1]; decide
    have ar6 : s6.arrays = (s.arrays.set s.arrayCount ad).set s.arrayCount { ad with bound := b } := by
      show s5.arrays = _
      rw [q5]
      show s3.arrays.set _ { s3.arrays.get _ with bound := s3.val.toNat } = _
      rw [q3, v3]
      show (s1.arrays.set _ _).set _ { (s1.arrays.set _ _).get _ with bound := _ } = _
      rw [Tab.get_set_self, q1, Int.toNat_natCast]
    have g6 : s6.arrays.get s.arrayCount = ⟨b, s.type, s.extra⟩ := by
      rw [ar6, Tab.get_set_self]
      show ArrayDecl.mk b (clr s.type vtStatic) s.extra = _
      rw [hst.1]
    have g6' : ∀ k < 32, k ≠ s.arrayCount → s6.arrays.get k = s.arrays.get k := by
      intro k hk hne
      rw [ar6, Tab.get_set_ne _ _ hlt hk (Ne.symm hne), Tab.get_set_ne _ _ hlt hk (Ne.symm hne)]
    have y6 : s6.type = vtArray := by show vtArray ||| (s.type &&& vtStatic) = _; rw [hst.2]; rfl
    obtain ⟨s7, ar, e7, k7, c7, o7⟩ : ∃ s7 ar, moveBounds 40 s.arrayCount s6 = .ok () s7 ∧ s7 = { s6 with arrays := ar } ∧ Chain s7 a ty ex s.arrayCount (done ++ [b]) ∧
        ∀ k < arrayMax, k < a ∨ s.arrayCount < k → s7.arrays.get k = s6.arrays.get k := by
      cases done with
      | nil =>
        obtain ⟨h1, h2, h3⟩ := har
        rw [h2, h3] at g6
        exact ⟨s6, s6.arrays, run_getS (run_neg (by rw [g6]; exact hty) rfl), rfl, ⟨by simpa using h1, g6⟩, fun _ _ _ => rfl⟩
      | cons d ds =>
        obtain ⟨h1, h2, h3, h4⟩ := har
        rw [h2, h3] at g6
        simp only [List.length_cons] at h1
        exact move_ok hty b (d :: ds) 40 s.arrayCount s6 (by simp; omega) hlt g6 (by omega) (h4.congr fun k _ hk => g6' k (by omega) (by omega))
    have hlen : s.arrayCount = a + done.length := har.1
    have cnt7 : s7.arrayCount = s.arrayCount + 1 := by rw [k7]; show s5.arrayCount + 1 = _; rw [c5]
    have a7 : At N E s7 (boundToks bs ++ u :: ts) := by rw [hv]; exact a5.congr (by rw [k7]; rfl)
    have ar7 : Arrs s7 a ty ex (done ++ [b]) := by
      refine ⟨by rw [cnt7, hlen]; simp; omega, ?_⟩
      have hx : s7.type = vtArray ∧ s7.extra = (s7.arrayCount - 1 : Nat) := by
        refine ⟨by rw [k7]; exact y6, ?_⟩
        rw [cnt7, k7]
        show (s5.arrayCount : Int) = _
        rw [c5]; rfl
      cases done with
      | nil => exact ⟨hx.1, hx.2, by rw [cnt7]; exact c7⟩
      | cons d ds => exact ⟨hx.1, hx.2, by rw [cnt7]; exact c7⟩
    obtain ⟨s8, ⟨N8, g8⟩, a8, ar8, n8, z8, o8⟩ := ih (done ++ [b]) s7 a7 ar7 (fun c hc => hb c (List.mem_cons_of_mem _ hc)) (by rw [cnt7]; simp at hroom; omega)
    refine ⟨s8, Go.of (N3 + N8) fun n hn => run_bind (a := ()) (s1 := s8) (run_getS ?_) rfl, a8, by rw [List.append_assoc] at ar8; exact ar8, ?_, ?_, fun k hk => ?_⟩
    · refine run_neg (by rw [t0]; simp) (run_bind e1 (run_failIf (beq_eq_false_iff_ne.2 (Nat.ne_of_lt hlt)) ?_))
      refine run_modS ?_
      rw [show ({ s1 with arrays := s1.arrays.set s.arrayCount { s1.arrays.get s.arrayCount with type := clr s1.type vtStatic, extra := s1.extra } } : S) = s2 by
        show _ = ({ s1 with arrays := s1.arrays.set s.arrayCount { s.arrays.get s.arrayCount with type := clr s.type vtStatic, extra := s.extra } } : S)
        rw [k1.type, k1.extra, q1]]
      refine run_getS (run_pos (by rw [t2]; decide) (run_bind (g3 n (by omega)) (run_getS (run_failIf (by simp [y3]) (run_failIf ?_ (run_modS ?_))))))
      · have := hb b (by simp)
        rw [v3]
        exact decide_eq_false (by omega)
      · refine run_bind (a := ()) (s1 := s5) (run_getS (run_pos a4.1.tok e5)) (run_modS (run_bind (a := ()) (s1 := s7) e7 (g8 n (by omega))))
    · refine n8.trans ?_
      rw [k7]
      exact (show tn s6 = tn s5 from rfl).trans ((tn_tb k5.tb).trans ((show tn s4 = tn s3 from rfl).trans ((tn_tb b3).trans ((show tn s2 = tn s1 from rfl).trans (tn_tb k1.tb)))))
    · refine z8.trans ?_
      rw [k7]
      exact (show fz s6 = fz s5 from rfl).trans (k5.fz.trans ((show fz s4 = fz s3 from rfl).trans (z3.trans ((show fz s2 = fz s1 from rfl).trans k1.fz))))
    · have hk2 : k < s.arrayCount := by omega
      rw [o8 k hk, o7 k (Nat.lt_trans hk2 hlt) (.inl hk), g6' k (by omega) (by omega)]

/-! ## Declarators -/

/-- The number of tokens of a kind. -/
def cnt (c : Nat) (ts : List Tk) : Nat := ts.countP fun t => t.tok == c

theorem cnt_append (c : Nat) (ts us : List Tk) : cnt c (ts ++ us) = cnt c ts + cnt c us := List.countP_append
theorem cnt_cons (c : Nat) (t : Tk) (ts : List Tk) : cnt c (t :: ts) = cnt c ts + if t.tok = c then 1 else 0 := by
  simp only [cnt, List.countP_cons, beq_iff_eq]
theorem cnt_nil (c : Nat) : cnt c [] = 0 := rfl

theorem cnt_id (c x : Nat) (hx : 37 ≤ x) (hc : c < 187) (ts : List Tk) : cnt c (.id x :: ts) = cnt c ts := by
  rw [cnt_cons, if_neg (by show x + 150 ≠ c; omega), Nat.add_zero]

theorem cnt_bounds (c : Nat) : ∀ bs : List Nat, cnt c (boundToks bs) = bs.length * ((if 0x5B = c then 1 else 0) + (if tokNum = c then 1 else 0) + if 0x5D = c then 1 else 0)
  | [] => by simp [boundToks, cnt]
  | b :: bs => by
    rw [show boundToks (b :: bs) = .sym 0x5B precStop :: .num b :: .sym 0x5D precStop :: boundToks bs from rfl, cnt_cons, cnt_cons, cnt_cons, cnt_bounds c bs, List.length_cons,
      Nat.succ_mul]
    simp only [Tk.tok]
    by_cases h1 : 0x5B = c <;> by_cases h2 : tokNum = c <;> by_cases h3 : 0x5D = c <;> simp only [h1, h2, h3, if_true, if_false] <;> omega

theorem cnt_stars (c p : Nat) (hc : c ≠ 0x2A) : cnt c (List.replicate p (.sym 0x2A 3)) = 0 := by
  induction p with
  | zero => rfl
  | succ p ih => rw [List.replicate_succ, cnt_cons, ih, if_neg (fun e => hc e.symm)]

/-- The identifier of a member is noted. -/
def putMem (dest : Dest) (x : Nat) (m : Tab StructMember 5) : Tab StructMember 5 :=
  match dest with
  | .member k => m.set k { m.get k with id := x }
  | _ => m

/-- Pointers. -/
theorem stars_ok {dest : Dest} {x : Nat} {ts : List Tk} : ∀ (p : Nat) (s : S), At N E s (List.replicate p (.sym 0x2A 3) ++ .id x :: ts) →
    ∃ s1, At N E s1 (.id x :: ts) ∧ tb s1 = tb s ∧ s1.type = s.type + vtPtr1 * p ∧ s1.extra = s.extra ∧ fz s1 = fz s ∧
      ∀ v s', GoV (.declarator dest) v s1 s' → GoV (.declarator dest) v s s' := by
  intro p
  induction p with
  | zero => exact fun s h => ⟨s, h, rfl, rfl, rfl, rfl, fun _ _ h => h⟩
  | succ p ih =>
    intro s h
    obtain ⟨v, vs, hv⟩ : ∃ v vs, List.replicate p (.sym 0x2A 3) ++ .id x :: ts = v :: vs := by
      cases p with
      | zero => exact ⟨_, _, rfl⟩
      | succ p => exact ⟨_, _, rfl⟩
    have t0 : s.tok = 0x2A := h.1.tok
    have h : At N E s (.sym 0x2A 3 :: v :: vs) := by rw [← hv]; exact h
    obtain ⟨s1, e1, k1, a1⟩ := h.next
    let s2 : S := { s1 with type := s1.type + vtPtr1 }
    obtain ⟨s3, a3, b3, y3, x3, z3, g3⟩ := ih s2 (by rw [hv]; exact a1.congr rfl)
    refine ⟨s3, a3, b3.trans ((show tb s2 = tb s1 from rfl).trans k1.tb), ?_, x3.trans k1.extra, z3.trans ((show fz s2 = fz s1 from rfl).trans k1.fz), fun v s' hv => ?_⟩
    · rw [y3]
      show s1.type + vtPtr1 + _ = _
      rw [k1.type, Nat.mul_succ]
      omega
    · obtain ⟨M, hm⟩ := g3 v s' hv
      exact GoV.of M fun n hn => run_getS (run_pos t0 (run_bind e1 (run_modS (hm n hn))))

theorem mem_tb {s s' : S} (h : tb s' = tb s) : s'.members = s.members ∧ s'.memCount = s.memCount ∧ s'.structs = s.structs ∧ s'.structCount = s.structCount ∧
    s'.baseType = s.baseType ∧ s'.baseExtra = s.baseExtra := by
  unfold tb at h
  simp only [Prod.mk.injEq] at h
  exact ⟨h.1, h.2.1, h.2.2.1, h.2.2.2.1, h.2.2.2.2.2.2.1, h.2.2.2.2.2.2.2⟩

/-- `SaveBaseType` after a declarator. -/
def SaveBase (s : S) (bt : Nat) (be : Int) : Prop :=
  ∀ s' : S, s'.type = s.type → s'.extra = s.extra → s'.arrays = s.arrays → saveBaseType s' = .ok () { s' with baseType := bt, baseExtra := be }

/-- The identifier and the bounds. -/
theorem rest_ok {om os : List Nat} {dest : Dest} (hd : dest = .ret ∨ ∃ k, dest = .member k) (hk : ∀ k, dest = .member k → k ∈ om ∧ k < 32) {x : Nat} (hx : 37 ≤ x ∧ x < idMax) {bs : List Nat}
    (hb : ∀ b ∈ bs, b ≠ 0) {u : Tk} (hu : u.tok ≠ 0x5B ∧ u.tok ≠ 0x28) {ts : List Tk} {s : S} (hat : At N E s (.id x :: (boundToks bs ++ u :: ts)))
    (hty : s.type ≠ vtArray ∧ clr s.type vtStatic = s.type ∧ s.type &&& vtStatic = 0) {t : CT} (ht : Rep om os s s.type s.extra t)
    (hc : s.arrayCount + bs.length ≤ arrayMax) (hmc : s.memCount ≤ 32) (hlo : s.type < 512 ∧ s.type &&& vtFunPtr = 0) (hna : s.type &&& vtBaseMask ≠ vtArray) :
    ∃ s', GoV (.declarator dest) x s s' ∧ At N E s' (u :: ts) ∧ Rep om os s' s'.type s'.extra (arrs t bs) ∧ s'.members = putMem dest x s.members ∧ s'.memCount = s.memCount ∧
      s'.structs = s.structs ∧ s'.structCount = s.structCount ∧ s'.baseType = s.baseType ∧ s'.baseExtra = s.baseExtra ∧ s'.arrayCount = s.arrayCount + bs.length ∧
      Keep om os s s' ∧ fz s' = fz s ∧ (s'.type < 512 ∧ s'.type &&& vtFunPtr = 0) ∧ ∃ bt be, SaveBase s' bt be ∧ (bs.length = 0 → bt = clr s.type vtPtrMask ∧ be = s.extra) ∧
        (bs.length = 1 → bt = s.type ∧ be = s.extra) := by
  have t0 : s.tok = x + tokKeyword := hat.1.tok
  have hid : tokId ≤ s.tok := by rw [t0]; show 187 ≤ x + 150; omega
  have hne : ∀ k, k < 187 → s.tok ≠ k := fun k hk e => by have : 187 ≤ s.tok := hid; omega
  have hn28 := hne 0x28 (by decide)
  let s1 : S := { s with members := putMem dest x s.members }
  obtain ⟨v, vs, hv, hv28⟩ : ∃ v vs, boundToks bs ++ u :: ts = v :: vs ∧ v.tok ≠ 0x28 := by
    cases bs with
    | nil => exact ⟨_, _, rfl, hu.2⟩
    | cons b bs => exact ⟨_, _, rfl, by show 0x5B ≠ 0x28; decide⟩
  rw [hv] at hat
  obtain ⟨s2, e2, k2, a2⟩ := (hat.congr (s' := s1) rfl).next
  have t2 := a2.1.tok
  rw [← hv] at a2
  obtain ⟨m1, m2, m3, m4, m5, m6⟩ := mem_tb k2.tb
  obtain ⟨q1, q2⟩ := arr_tb k2.tb
  have hArr : Arrs s2 s.arrayCount s.type s.extra [] := ⟨q2, k2.type, k2.extra⟩
  obtain ⟨s3, ⟨M, g3⟩, a3, ar3, n3, z3, o3⟩ := bounds_ok hty.1 hty.2 hu.1 bs [] s2 a2 hArr hb (by rw [q2]; exact hc)
  unfold tn at n3
  simp only [Prod.mk.injEq] at n3
  obtain ⟨n1, n2, n3, n4, n5, n6⟩ := n3
  have hxe : ((s.tok - tokKeyword : Nat) : Int) = x := by rw [t0, Nat.add_sub_cancel]
  rw [List.nil_append] at ar3
  have cnt3 : s3.arrayCount = s.arrayCount + bs.length := ar3.1
  have kp : Keep om os s s3 := by
    refine ⟨by omega, Nat.le_of_eq (n2.trans m2).symm, Nat.le_of_eq (n4.trans m4).symm, fun k hk => ?_, fun k hk' ho => ?_, fun k _ _ => by rw [n3, m3]⟩
    · rw [o3 k hk, q1]
    · rw [n1, m1]
      show (putMem dest x s.members).get k = _
      obtain rfl | ⟨j, rfl⟩ := hd
      · rfl
      · obtain ⟨h1, h2⟩ := hk j rfl
        exact Tab.get_set_ne _ _ h2 (show k < 32 by omega) (fun e => ho (e ▸ h1))
  refine ⟨s3, GoV.of M fun n hn => ?_, a3, ?_, n1.trans m1, n2.trans m2, n3.trans m3, n4.trans m4, n5.trans m5, n6.trans m6, cnt3, kp, z3.trans k2.fz, ?_, ?_⟩
  · refine run_getS (run_neg (hne _ (by decide)) (run_neg (not_or.2 ⟨hne _ (by decide), hne _ (by decide)⟩) ?_))
    refine run_getS (run_neg hn28 ?_)
    refine run_bind (a := (x : Int)) (s1 := s2) ?_ (run_neg hn28 (run_getS (run_neg (t2 ▸ hv28) (run_bind (g3 n hn) rfl))))
    obtain rfl | ⟨k, rfl⟩ := hd
    · refine run_getS (run_pos hid ?_)
      rw [hxe]
      exact run_bind (a := ()) (s1 := s) rfl (run_bind e2 rfl)
    · refine run_getS (run_pos hid ?_)
      rw [hxe]
      exact run_modS (run_bind e2 rfl)
  · cases bs with
    | nil =>
      obtain ⟨_, h2, h3⟩ := ar3
      rw [h2, h3]
      exact ht.keep kp
    | cons b bs =>
      obtain ⟨_, h2, h3, h4⟩ := ar3
      rw [h2, h3]
      exact Chain.repr (ht.keep kp) (by rw [cnt3]; exact hc) h4 hb (by rw [cnt3]; simp)
  · cases bs with
    | nil => rw [ar3.2.1]; exact hlo
    | cons b bs => rw [ar3.2.1]; decide
  · cases bs with
    | nil =>
      obtain ⟨_, h2, h3⟩ := ar3
      refine ⟨clr s.type vtPtrMask, s.extra, fun s' y1 y2 _ => run_getS (run_neg (by rw [y1, h2]; exact hna) ?_), fun _ => ⟨rfl, rfl⟩, nofun⟩
      rw [← h2, ← y1, ← h3, ← y2]
      rfl
    | cons b bs =>
      obtain ⟨h1, h2, h3, h4⟩ := ar3
      have hlt : s3.arrayCount - 1 < 32 := by
        have : arrayMax = 32 := rfl
        simp only [List.length_cons] at h1 hc
        omega
      refine ⟨(s3.arrays.get (s3.arrayCount - 1)).type, (s3.arrays.get (s3.arrayCount - 1)).extra, fun s' y1 y2 y3 => ?_, nofun, fun h => ?_⟩
      · refine run_getS (run_pos (by rw [y1, h2]; rfl) (run_bind (a := s3.arrayCount - 1) (s1 := s') ?_ ?_))
        · rw [y2, h3]
          refine run_ub (decide_eq_true ⟨by omega, by show _ < (32 : Int); omega⟩) ?_
          show Res.ok _ _ = _
          rw [Int.toNat_natCast]
        · rw [← y3]; rfl
      · obtain rfl : bs = [] := by simpa using h
        obtain ⟨_, e⟩ := h4
        rw [e]
        exact ⟨rfl, rfl⟩

theorem ty_lo : ∀ ty < 16, (ty < 512 ∧ ty &&& vtFunPtr = 0) ∧ clr ty vtPtrMask = ty := by decide
theorem ty_lo_ptr : ∀ p < 3, ∀ ty < 16, (ty + vtPtr1 * (p + 1) < 512 ∧ (ty + vtPtr1 * (p + 1)) &&& vtFunPtr = 0) ∧ clr (ty + vtPtr1 * (p + 1)) vtPtrMask = ty ∧
    (ty + vtPtr1 * (p + 1)) &&& vtBaseMask = ty &&& vtBaseMask := by decide

/-- A declarator without bounds, or without `*` and with one bound. -/
def Simple (d : List Tk) : Prop := cnt 0x5B d = 0 ∨ cnt 0x5B d = 1 ∧ cnt 0x2A d = 0

theorem ty_val : ∀ ty < 16, ty &&& vtBaseMask ≠ vtArray → ty ≠ vtArray ∧ clr ty vtStatic = ty ∧ ty &&& vtStatic = 0 := by decide

theorem ty_ptr : ∀ p < 3, ∀ ty < 16, (ty + vtPtr1 * (p + 1) ≠ vtArray ∧ clr (ty + vtPtr1 * (p + 1)) vtStatic = ty + vtPtr1 * (p + 1) ∧ (ty + vtPtr1 * (p + 1)) &&& vtStatic = 0) ∧
    (ty + vtPtr1 * (p + 1)) &&& (vtPtrMask ||| vtFunPtr) ≠ 0 := by decide

/-- A declarator. -/
theorem dcl_ok {om os : List Nat} {dest : Dest} (hd : dest = .ret ∨ ∃ k, dest = .member k) (hk : ∀ k, dest = .member k → k ∈ om ∧ k < 32) {o : Option CT} {d : List Tk} {x : Nat} {t : CT}
    (h : Dcl o d x t) {u : Tk} (hu : u.tok ≠ 0x5B ∧ u.tok ≠ 0x28) {ts : List Tk} {s : S} (hat : At N E s (d ++ u :: ts))
    (hb : Base om os s s.type s.extra o) (hc : s.arrayCount + cnt 0x5B d ≤ arrayMax) (hmc : s.memCount ≤ 32) :
    ∃ s', GoV (.declarator dest) x s s' ∧ At N E s' (u :: ts) ∧ Rep om os s' s'.type s'.extra t ∧ s'.members = putMem dest x s.members ∧ s'.memCount = s.memCount ∧
      s'.structs = s.structs ∧ s'.structCount = s.structCount ∧ s'.baseType = s.baseType ∧ s'.baseExtra = s.baseExtra ∧ s'.arrayCount = s.arrayCount + cnt 0x5B d ∧
      Keep om os s s' ∧ fz s' = fz s ∧ (s'.type < 512 ∧ s'.type &&& vtFunPtr = 0) ∧ ∃ bt be, SaveBase s' bt be ∧ (Simple d → bt = s.type ∧ be = s.extra) := by
  cases h with
  | val x hx bs hbs ho =>
    have ec : cnt 0x5B (.id x :: boundToks bs) = bs.length := by rw [cnt_id _ _ hx.1 (by decide), cnt_bounds]; simp
    rw [ec] at hc ⊢
    obtain ⟨s', h1, h2, h3, h4, h5, h6, h7, h8, h9, h10, h11, h12, h13, bt, be, h14, h15, h16⟩ :=
      rest_ok hd hk hx hbs hu hat (ty_val _ hb.lt hb.ne) (hb.rep _ ho) hc hmc (ty_lo _ hb.lt).1 hb.ne
    refine ⟨s', h1, h2, h3, h4, h5, h6, h7, h8, h9, h10, h11, h12, h13, bt, be, h14, fun h => ?_⟩
    unfold Simple at h
    rw [ec] at h
    rcases h with h | ⟨h, _⟩
    · rw [← (ty_lo _ hb.lt).2]; exact h15 h
    · exact h16 h
  | ptr p x hp hx bs hbs =>
    have ec : cnt 0x5B (List.replicate (p + 1) (.sym 0x2A 3) ++ .id x :: boundToks bs) = bs.length := by
      rw [cnt_append, cnt_stars _ _ (by decide), cnt_id _ _ hx.1 (by decide), cnt_bounds]; simp
    rw [ec] at hc ⊢
    have hat : At N E s (List.replicate (p + 1) (.sym 0x2A 3) ++ .id x :: (boundToks bs ++ u :: ts)) := by
      have := hat
      rw [List.append_assoc] at this
      exact this
    obtain ⟨s1, a1, b1, y1, x1, z1, g1⟩ := stars_ok (dest := dest) (p + 1) s hat
    obtain ⟨m1, m2, m3, m4, m5, m6⟩ := mem_tb b1
    obtain ⟨q1, q2⟩ := arr_tb b1
    have hty := ty_ptr p hp s.type hb.lt
    rw [← y1] at hty
    obtain ⟨l1, l2, l3⟩ := ty_lo_ptr p hp s.type hb.lt
    rw [← y1] at l1 l2 l3
    obtain ⟨s', h1, h2, h3, h4, h5, h6, h7, h8, h9, h10, h11, h12, h13, bt, be, h14, h15, _⟩ := rest_ok (om := om) (os := os) (t := .ptr) hd hk hx hbs hu a1 hty.1 (fun s' _ => .ptr hty.2)
      (by rw [q2]; exact hc) (by rw [m2]; exact hmc) l1 (by rw [l3]; exact hb.ne)
    refine ⟨s', g1 _ _ h1, h2, h3, by rw [h4, m1], by rw [h5, m2], by rw [h6, m3], by rw [h7, m4], by rw [h8, m5], by rw [h9, m6], by rw [h10, q2], (Keep.of_tb b1).trans h11, h12.trans z1, h13, bt, be, h14, fun h => ?_⟩
    unfold Simple at h
    rw [ec] at h
    rcases h with h | ⟨_, h⟩
    · rw [← l2, ← x1]; exact h15 h
    · rw [cnt_append, List.replicate_succ, cnt_cons, if_pos (show (Tk.sym 0x2A 3).tok = 0x2A from rfl)] at h
      omega

end SccDecl
