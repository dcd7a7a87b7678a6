import Verif.Props.ScppLex
/-!
# Expansion of object-like macros by the preprocessor

Lemmas for `C31`: `GetToken` delivers the tokens of the expansion, one at a time.
-/
namespace Props.ScppMacro
open Scpp Prog Text ScppLex

/-! ## Specification -/

/-- A macro table: names, with the replacement list of the macro or nothing (a name that is not defined at present). -/
abbrev Table := List (List Byte × Option (List PTok))

/-- The replacement list of a name. -/
def lookup (Δ : Table) (w : List Byte) : Option (List PTok) :=
  match Δ.find? fun e => e.1 == w with
  | some e => e.2
  | none => none

/-- `Exp Δ d H ts os`: when the macros `H` are disabled, the tokens `ts` expand to `os`, with expansions nested at most `d` deep.
A macro is disabled while its replacement list is expanded. -/
inductive Exp (Δ : Table) : Nat → List (List Byte) → List PTok → List PTok → Prop
  | nil (d : Nat) (H : List (List Byte)) : Exp Δ d H [] []
  | copy {d : Nat} {H : List (List Byte)} {t : PTok} {ts os : List PTok} (ht : ∀ w, t = .id w → lookup Δ w = none ∨ w ∈ H)
      (h : Exp Δ d H ts os) : Exp Δ d H (t :: ts) (t :: os)
  | repl {d : Nat} {H : List (List Byte)} {w : List Byte} {b bs ts os : List PTok} (hw : w ∉ H) (hb : lookup Δ w = some b)
      (h1 : Exp Δ d (w :: H) b bs) (h2 : Exp Δ (d + 1) H ts os) : Exp Δ (d + 1) H (.id w :: ts) (bs ++ os)

/-- The names the preprocessor replaces by itself. -/
def special : List (List Byte) := [asc "__FILE__", asc "__LINE__", asc "__SCC__"]

/-- Tokens of replacement lists: no `#`, no `##`, no newline, none of the special names. -/
def BodyTok (t : PTok) : Prop := t.Ok ∧ t ≠ .nl ∧ t ≠ .op (asc "#") ∧ t ≠ .op (asc "##") ∧ ∀ w, t = .id w → w ∉ special

/-- Tokens of text: no `#`, none of the special names. -/
def TextTok (t : PTok) : Prop := t.Ok ∧ t ≠ .op (asc "#") ∧ ∀ w, t = .id w → w ∉ special

/-! ## Representation -/

/-- A pointer to the string `l`, which lies below `NextTokenDataPos`. -/
def TxtIs (s : S) (t : Txt) (l : List Byte) : Prop := t = .lit l ∨ ∃ off, t = .data off ∧ StrBelow s.td s.tdNext off l

theorem TxtIs.str {s : S} {t : Txt} {l : List Byte} (h : TxtIs s t l) (hl : s.tdNext ≤ 2048) : strOf s t = some l := by
  rcases h with rfl | ⟨off, rfl, h⟩
  · rfl
  · exact h.cstr hl

/-- A stored token. -/
def TokIs (s : S) (t : Tok) (p : PTok) : Prop := t.ty = p.ty ∧ (p.ty ≠ tokWs → TxtIs s t.txt p.val)

/-- A list of nodes that holds the tokens `ps`. -/
def Chain (s : S) : Option Nat → List PTok → Prop
  | none, [] => True
  | some i, p :: ps => TokIs s (s.node i).tok p ∧ Chain s (s.node i).next ps
  | _, _ => False

/-- All names of the table. -/
def names (Δ : Table) : List (List Byte) := builtins ++ Δ.map (·.1)

/-- The identifier table and the macro table hold `Δ`. -/
structure Rep (Δ : Table) (s : S) : Prop where
  inv : Probe.Inv idHashMax hashOf s.idHash (names Δ)
  nodup : (names Δ).Nodup
  cnt : s.idCount = (names Δ).length
  le : (names Δ).length ≤ 32
  txt : ∀ i w, (names Δ)[i]? = some w → TxtIs s (s.idText i) w
  queue : s.queue = []
  tdn : s.tdNext ≤ 2048
  mac : ∀ i w b, Δ[i]? = some (w, some b) → (s.mac i).args = .none ∧ Chain s (s.mac i).repl b ∧ b.length ≤ 128 ∧ ∀ t ∈ b, BodyTok t
  undef : ∀ i w, Δ[i]? = some (w, none) → (s.mac i).hide = 2

/-- The stack of pending expansions: macro number and tokens to come. -/
structure Stk (Δ : Table) (s : S) (lv : List (Nat × List PTok)) : Prop where
  rel : List.Forall₂ (fun r l => r.m = some l.1 ∧ r.stop = false ∧ Chain s r.tl l.2 ∧ l.2.length ≤ 128 ∧ (∀ t ∈ l.2, BodyTok t) ∧ (s.mac l.1).args = .none) s.stack lv
  hide : ∀ i w b, Δ[i]? = some (w, some b) → (s.mac i).hide = if i ∈ lv.map (·.1) then 1 else 0
  def_ : ∀ i ∈ lv.map (·.1), ∃ w b, Δ[i]? = some (w, some b)
  fresh : ∀ i, Δ.length ≤ i → (s.mac i).hide = 0

/-- What the expansion of macros leaves alone. -/
structure Frame (s s' : S) : Prop where
  tdNext : s'.tdNext = s.tdNext
  idText : s'.idText = s.idText
  idHash : s'.idHash = s.idHash
  idCount : s'.idCount = s.idCount
  queue : s'.queue = s.queue
  node : s'.node = s.node
  free : s'.free = s.free
  arg : s'.arg = s.arg
  argCount : s'.argCount = s.argCount
  cond : s'.cond = s.cond
  files : s'.files = s.files
  name : s'.name = s.name
  oldLine : s'.oldLine = s.oldLine
  td : ∀ i, i < s.tdNext → s'.td.get i = s.td.get i
  mac : ∀ i, (s'.mac i).args = (s.mac i).args ∧ (s'.mac i).repl = (s.mac i).repl ∧ ((s.mac i).hide = 2 → (s'.mac i).hide = 2)

theorem Frame.refl (s : S) : Frame s s :=
  ⟨rfl, rfl, rfl, rfl, rfl, rfl, rfl, rfl, rfl, rfl, rfl, rfl, rfl, fun _ _ => rfl, fun _ => ⟨rfl, rfl, id⟩⟩

theorem Frame.trans {s s' s'' : S} (h : Frame s s') (h' : Frame s' s'') : Frame s s'' where
  tdNext := h'.tdNext.trans h.tdNext
  idText := h'.idText.trans h.idText
  idHash := h'.idHash.trans h.idHash
  idCount := h'.idCount.trans h.idCount
  queue := h'.queue.trans h.queue
  node := h'.node.trans h.node
  free := h'.free.trans h.free
  arg := h'.arg.trans h.arg
  argCount := h'.argCount.trans h.argCount
  cond := h'.cond.trans h.cond
  files := h'.files.trans h.files
  name := h'.name.trans h.name
  oldLine := h'.oldLine.trans h.oldLine
  td := fun i hi => (h'.td i (by rw [h.tdNext]; exact hi)).trans (h.td i hi)
  mac := fun i => ⟨(h'.mac i).1.trans (h.mac i).1, (h'.mac i).2.1.trans (h.mac i).2.1, fun e => (h'.mac i).2.2 ((h.mac i).2.2 e)⟩

theorem StrBelow.frame {m m' : Mem 11} {lim off : Nat} {l : List Byte} (h : StrBelow m lim off l) (hm : ∀ i, i < lim → m'.get i = m.get i) :
    StrBelow m' lim off l := by
  have := h.1
  refine ⟨h.1, h.2.1, ?_, ?_⟩
  · intro i hi
    rw [hm _ (by omega)]
    exact h.2.2.1 i hi
  · rw [hm _ (by omega)]
    exact h.2.2.2

theorem TxtIs.frame {s s' : S} {t : Txt} {l : List Byte} (h : TxtIs s t l) (f : Frame s s') : TxtIs s' t l := by
  rcases h with rfl | ⟨off, rfl, h⟩
  · exact .inl rfl
  · exact .inr ⟨off, rfl, by rw [f.tdNext]; exact StrBelow.frame h f.td⟩

theorem TokIs.frame {s s' : S} {t : Tok} {p : PTok} (h : TokIs s t p) (f : Frame s s') : TokIs s' t p := ⟨h.1, fun e => (h.2 e).frame f⟩

theorem Chain.frame {s s' : S} (f : Frame s s') : ∀ {tl : Option Nat} {ps : List PTok}, Chain s tl ps → Chain s' tl ps
  | none, [], _ => trivial
  | some i, p :: ps, h => by
    simp only [Chain] at h ⊢
    rw [f.node]
    exact ⟨h.1.frame f, Chain.frame f h.2⟩

theorem Rep.frame {Δ : Table} {s s' : S} (h : Rep Δ s) (f : Frame s s') : Rep Δ s' where
  inv := by rw [f.idHash]; exact h.inv
  nodup := h.nodup
  cnt := by rw [f.idCount]; exact h.cnt
  le := h.le
  txt := fun i w e => by rw [f.idText]; exact (h.txt i w e).frame f
  queue := by rw [f.queue]; exact h.queue
  tdn := by rw [f.tdNext]; exact h.tdn
  mac := fun i w b e => by
    obtain ⟨h1, h2, h3, h4⟩ := h.mac i w b e
    exact ⟨(f.mac i).1.trans h1, by rw [(f.mac i).2.1]; exact h2.frame f, h3, h4⟩
  undef := fun i w e => (f.mac i).2.2 (h.undef i w e)

/-- The same stack in another state. -/
theorem Stk.frame {Δ : Table} {s s' : S} {lv : List (Nat × List PTok)} (h : Stk Δ s lv) (f : Frame s s') (hs : s'.stack = s.stack) (hm : s'.mac = s.mac) :
    Stk Δ s' lv where
  rel := by
    rw [hs, hm]
    exact h.rel.imp fun _ _ a => ⟨a.1, a.2.1, Chain.frame f a.2.2.1, a.2.2.2.1, a.2.2.2.2.1, a.2.2.2.2.2⟩
  hide := by rw [hm]; exact h.hide
  def_ := h.def_
  fresh := by rw [hm]; exact h.fresh

/-! ## Tokens from replacement lists -/

theorem opTable_ty : ∀ e ∈ opTable, e.2.1 ≠ tokWs ∧ e.2.1 ≠ tokNl ∧ e.2.1 ≠ tokEof ∧ e.2.1 ≠ tokArg ∧ e.2.1 ≠ tokRawId ∧ e.2.1 ≠ tokNum ∧
    e.2.1 ≠ tokStrlit ∧ e.2.1 ≠ tokCharlit ∧ e.2.1 < tokRawId ∧ (e.2.1 = 0x23 → e.1 = asc "#") ∧ (e.2.1 = tokHashhash → e.1 = asc "##") := by decide +kernel

theorem op_ty {w : List Byte} (h : (PTok.op w).Ok) : ∃ t x, (w, t, x) ∈ opTable ∧ (PTok.op w).ty = t := by
  obtain ⟨t, x, hx⟩ := h
  exact ⟨t, x, hx, opTable_find _ hx⟩

/-- The number of a well-formed token determines what it is. -/
theorem ty_facts {t : PTok} (h : t.Ok) : t.ty ≠ tokEof ∧ t.ty ≠ tokArg ∧ (t.ty = tokStrlit ↔ ∃ w, t = .lit 0x22 w) ∧ (t.ty = tokCharlit ↔ ∃ q w, t = .lit q w ∧ q ≠ 0x22) ∧ (t.ty = tokWs ↔ ∃ w, t = .ws w) ∧
    (t.ty = tokNl ↔ t = .nl) ∧ (t.ty = tokRawId ↔ ∃ w, t = .id w) ∧ (t.ty = 0x23 → t = .op (asc "#")) ∧ (t.ty = tokHashhash → t = .op (asc "##")) ∧
    (t.ty = tokNum ↔ ∃ w, t = .num w) ∧ t.ty ≤ tokRawId := by
  cases t with
  | op w =>
    obtain ⟨t, x, hx, e⟩ := op_ty h
    have := opTable_ty _ hx
    rw [e]
    simp only [reduceCtorEq, false_and, exists_false, iff_false, PTok.op.injEq]
    exact ⟨this.2.2.1, this.2.2.2.1, this.2.2.2.2.2.2.1, this.2.2.2.2.2.2.2.1, this.1, this.2.1, this.2.2.2.2.1, this.2.2.2.2.2.2.2.2.2.1,
      this.2.2.2.2.2.2.2.2.2.2, this.2.2.2.2.2.1, Nat.le_of_lt this.2.2.2.2.2.2.2.2.1⟩
  | ws w => simp [PTok.ty]; decide
  | nl => simp [PTok.ty]; decide
  | id w => simp [PTok.ty]
  | num w => simp [PTok.ty]; decide
  | lit q w =>
    rcases h.1 with rfl | rfl
    · simp [PTok.ty]; decide
    · simp [PTok.ty]; decide

/-- Looking past white space in a replacement list finds no `##`. -/
theorem noPaste {s : S} : ∀ {ps : List PTok} {tl : Option Nat} {n : Nat}, Chain s tl ps → (∀ t ∈ ps, BodyTok t) → ps.length < n →
    ∃ tl', skipWsNl n tl s = .ok tl' s ∧ ∀ k, pasteLoop (k + 1) tl' s = .ok () s
  | [], none, n, _, _, hn => by
    obtain ⟨n, rfl⟩ := Nat.exists_eq_succ_of_ne_zero (by omega : n ≠ 0)
    exact ⟨none, rfl, fun k => rfl⟩
  | [], some i, _, h, _, _ => by simp [Chain] at h
  | p :: ps, none, _, h, _, _ => by simp [Chain] at h
  | p :: ps, some i, n, h, hb, hn => by
    obtain ⟨n, rfl⟩ := Nat.exists_eq_succ_of_ne_zero (by omega : n ≠ 0)
    simp only [List.length_cons] at hn
    simp only [Chain] at h
    obtain ⟨h1, h2⟩ := h
    have hp := hb p (by simp)
    by_cases hw : (s.node i).tok.ty = tokWs ∨ (s.node i).tok.ty = tokNl
    · obtain ⟨tl', h3, h4⟩ := noPaste h2 (fun t ht => hb t (by simp [ht])) (show ps.length < n by omega)
      exact ⟨tl', run_getS (run_pos hw h3), h4⟩
    · refine ⟨some i, run_getS (run_neg hw rfl), fun k => ?_⟩
      refine run_getS (run_neg ?_ rfl)
      rw [h1.1]
      intro e
      exact hp.2.2.2.1 ((ty_facts hp.1).2.2.2.2.2.2.2.2.1 e)

/-- `RawGetToken` takes the next token of a replacement list. -/
theorem rawGet_stack {s : S} {r : RepElem} {rs : List RepElem} {m i : Nat} {p : PTok} {ps : List PTok} (hs : s.stack = r :: rs) (hm : r.m = some m)
    (hh : (s.mac m).hide = 1) (ht : r.tl = some i) (hc : Chain s (some i) (p :: ps)) (hb : ∀ t ∈ ps, BodyTok t) (hl : ps.length ≤ 128) :
    rawGetToken s = .ok () { s with tok := (s.node i).tok, stack := { r with tl := (s.node i).next } :: rs, hash := idHashMax } := by
  simp only [Chain] at hc
  refine run_getS ?_
  rw [hs]
  refine run_getS ?_
  simp only [hs, hm]
  refine run_assert (by rw [hh]; rfl) ?_
  simp only [ht]
  refine run_modS ?_
  have h1 : setTop (s.node i).next { s with tok := (s.node i).tok } = .ok () { s with tok := (s.node i).tok, stack := { r with tl := (s.node i).next } :: rs } := by
    rw [setTop, modS_run]
    simp only [hs]
  rw [hm] at h1
  refine run_bind h1 ?_
  have fr : Frame s { s with tok := (s.node i).tok, stack := { r with tl := (s.node i).next } :: rs } :=
    ⟨rfl, rfl, rfl, rfl, rfl, rfl, rfl, rfl, rfl, rfl, rfl, rfl, rfl, fun _ _ => rfl, fun _ => ⟨rfl, rfl, fun e => e⟩⟩
  have f := hc.2.frame fr
  obtain ⟨tl', h2, h3⟩ := noPaste f hb (show ps.length < tokenListMax + 1 by simp only [tokenListMax]; omega)
  rw [hm] at h2 h3
  refine run_bind h2 (run_bind (h3 tokenListMax) ?_)
  rw [modS_run]

/-- The state after the expansion of a macro has ended. -/
def popped (m : Nat) (rs : List RepElem) (s : S) : S := { s with mac := upd s.mac m { s.mac m with hide := 0 }, stack := rs }

/-- `RawGetToken` leaves a replacement list that is used up. -/
theorem rawGet_pop {s : S} {r : RepElem} {rs : List RepElem} {m : Nat} (hs : s.stack = r :: rs) (hm : r.m = some m)
    (hh : (s.mac m).hide = 1) (ht : r.tl = none) (ha : (s.mac m).args = .none) (hst : r.stop = false) :
    rawGetToken s = rawGetToken (popped m rs s) := by
  refine run_getS ?_
  rw [hs]
  refine run_getS ?_
  simp only [hs, hm]
  refine run_assert (by rw [hh]; rfl) ?_
  simp only [ht]
  refine run_modS ?_
  have h1 : ∀ s' : S, freeArgs (s.mac m).args s' = .ok () s' := by rw [ha]; intro; rfl
  refine run_bind (h1 _) (run_modS ?_)
  refine (run_neg (show ¬ r.stop = true by rw [hst]; decide) ?_)
  rfl

/-! ## Identifiers -/

theorem idLoopFind_eq {Δ : Table} {w : List Byte} {h : Nat} : ∀ (j k : Nat) (s : S) (n : Nat), Rep Δ s → s.hash = Probe.pr idHashMax h k → j < n →
    (∀ i < j, ∃ id t, s.idHash (Probe.pr idHashMax h (k + i)) = some id ∧ (names Δ)[id]? = some t ∧ t ≠ w) →
    (s.idHash (Probe.pr idHashMax h (k + j)) = none → idLoopFind n w s = .ok () { s with hash := Probe.pr idHashMax h (k + j) }) ∧
    (∀ id, s.idHash (Probe.pr idHashMax h (k + j)) = some id → (names Δ)[id]? = some w →
      idLoopFind n w s = .ok () { s with hash := Probe.pr idHashMax h (k + j), tok := { s.tok with ty := tokId + id } }) := by
  intro j
  induction j with
  | zero =>
    intro k s n hR hk hn _
    obtain ⟨n, rfl⟩ := Nat.exists_eq_succ_of_ne_zero (by omega : n ≠ 0)
    have e : { s with hash := Probe.pr idHashMax h (k + 0) } = s := by rw [Nat.add_zero, ← hk]
    constructor
    · intro h0
      rw [e]
      rw [Nat.add_zero] at h0
      refine run_getS ?_
      rw [hk, h0]
      rfl
    · intro id h0 hw
      rw [Nat.add_zero] at h0
      refine run_getS ?_
      rw [hk]
      simp only [h0]
      have ht : text (s.idText id) s = .ok w s := by
        refine run_getS ?_
        rw [(hR.txt id w hw).str hR.tdn]
        rfl
      refine run_bind ht (run_pos rfl ?_)
      rw [setTy, modS_run, Nat.add_zero, ← hk]
  | succ j ih =>
    intro k s n hR hk hn hb
    obtain ⟨n, rfl⟩ := Nat.exists_eq_succ_of_ne_zero (by omega : n ≠ 0)
    obtain ⟨id, t, h1, h2, h3⟩ := hb 0 (by omega)
    have ht : text (s.idText id) s = .ok t s := by
      refine run_getS ?_
      rw [(hR.txt id t h2).str hR.tdn]
      rfl
    have step : idLoopFind (n + 1) w s = idLoopFind n w { s with hash := Probe.pr idHashMax h (k + 1) } := by
      refine run_getS ?_
      rw [hk]
      rw [Nat.add_zero] at h1
      simp only [h1]
      refine run_bind ht (run_neg h3 (run_modS ?_))
      rw [hk, Probe.pr_succ]
    have fr : Frame s { s with hash := Probe.pr idHashMax h (k + 1) } :=
      ⟨rfl, rfl, rfl, rfl, rfl, rfl, rfl, rfl, rfl, rfl, rfl, rfl, rfl, fun _ _ => rfl, fun _ => ⟨rfl, rfl, fun e => e⟩⟩
    have := ih (k + 1) { s with hash := Probe.pr idHashMax h (k + 1) } n (hR.frame fr) rfl (by omega) (by
      intro i hi
      have := hb (i + 1) (by omega)
      rw [show k + (i + 1) = k + 1 + i by omega] at this
      exact this)
    rw [step, show k + (j + 1) = k + 1 + j by omega]
    exact this

theorem hashOf_lt (w : List Byte) : hashOf w < idHashMax := by
  rcases List.eq_nil_or_concat w with rfl | ⟨w', c, rfl⟩
  · decide
  · simp only [hashOf, List.concat_eq_append, List.foldl_append, List.foldl_cons, List.foldl_nil]
    exact Nat.mod_lt _ (by decide)

/-- `ReplaceId`: the number of a name, or none. -/
theorem replaceId_eq {Δ : Table} {s : S} {w : List Byte} (hR : Rep Δ s) (hty : s.tok.ty = tokRawId) (hw : strOf s s.tok.txt = some w)
    (hh : s.hash = idHashMax ∨ s.hash = hashOf w) :
    ∃ h, (w ∉ names Δ ∧ replaceId s = .ok () { s with hash := h }) ∨
      ∃ id, (names Δ)[id]? = some w ∧ replaceId s = .ok () { s with hash := h, tok := { s.tok with ty := tokId + id } } := by
  obtain ⟨j, hj, h1, h2⟩ := Probe.search hR.inv hR.nodup w
  have ht : text s.tok.txt s = .ok w s := by
    refine run_getS ?_
    rw [hw]
    rfl
  have start : replaceId s = idLoopFind (idHashMax + 1) w { s with hash := hashOf w } := by
    refine run_getS (run_assert (by rw [hty]; rfl) (run_bind ht ?_))
    rcases hh with e | e
    · exact run_pos e (run_modS rfl)
    · refine run_neg ?_ ?_
      · rw [e]; exact Nat.ne_of_lt (hashOf_lt w)
      · rw [← e]
  have fr : Frame s { s with hash := hashOf w } :=
    ⟨rfl, rfl, rfl, rfl, rfl, rfl, rfl, rfl, rfl, rfl, rfl, rfl, rfl, fun _ _ => rfl, fun _ => ⟨rfl, rfl, fun e => e⟩⟩
  have key := idLoopFind_eq (Δ := Δ) (w := w) (h := hashOf w) j 0 { s with hash := hashOf w } (idHashMax + 1) (hR.frame fr)
    (Probe.pr_zero (hashOf_lt w)).symm (by omega) (by simpa using h1)
  simp only [Nat.zero_add] at key
  refine ⟨Probe.pr idHashMax (hashOf w) j, ?_⟩
  rcases h2 with ⟨h2, h3⟩ | ⟨id, h2, h3⟩
  · exact .inl ⟨h3, start.trans (key.1 h2)⟩
  · exact .inr ⟨id, h3, start.trans (key.2 id h2 h3)⟩

theorem upd_self {α : Type} (f : Nat → α) (i : Nat) (a : α) : upd f i a i = a := by simp [upd]

theorem upd_ne {α : Type} (f : Nat → α) {i : Nat} (a : α) {j : Nat} (h : j ≠ i) : upd f i a j = f j := by simp [upd, h]

/-! ## Results of `GetToken` -/

/-- The current token is the token `o`. -/
structure Shows (Δ : Table) (s : S) (o : PTok) : Prop where
  ty : o.ty ≠ tokRawId → s.tok.ty = o.ty
  id : ∀ w, o = .id w → s.tok.ty = tokRawId ∧ w ∉ names Δ ∨ ∃ k, (names Δ)[k]? = some w ∧ s.tok.ty = tokId + k
  txt : o ≠ .nl → o.ty ≠ tokWs → strOf s s.tok.txt = some o.val
  undef : ∀ w, o = .id w → ∀ i : Nat, Δ[i]? = some (w, none) → (s.mac i).hide = 2


/-- What `GetToken` leaves alone besides. -/
def kept (s : S) : Array Byte × List Cond := (s.out, s.cond)

/-- Without delivering a token `GetToken` comes from `s` to `s'`. -/
def Silent (s s' : S) : Prop := (∃ k, ∀ n, getToken (n + k) s = getToken n s') ∧ kept s' = kept s

/-- `GetToken` delivers the token `o`. -/
def Step (Δ : Table) (s : S) (o : PTok) (s' : S) : Prop := (∃ k, ∀ n, k ≤ n → getToken n s = .ok () s') ∧ Shows Δ s' o ∧ kept s' = kept s

/-- Calls of `GetToken` deliver the tokens `os` and lead to a state with `Q`.  Between the calls the output may change. -/
def Emits (Δ : Table) (s : S) : List PTok → (S → Prop) → Prop
  | [], Q => ∃ s', Silent s s' ∧ Q s'
  | o :: os, Q => ∃ s1, Step Δ s o s1 ∧ ∀ out, Emits Δ { s1 with out := out } os Q

theorem Silent.refl (s : S) : Silent s s := ⟨⟨0, fun _ => rfl⟩, rfl⟩

theorem Silent.trans {s s1 s2 : S} (h : Silent s s1) (h' : Silent s1 s2) : Silent s s2 := by
  obtain ⟨⟨k, h⟩, e⟩ := h
  obtain ⟨⟨k', h'⟩, e'⟩ := h'
  exact ⟨⟨k' + k, fun n => by rw [← Nat.add_assoc, h, h']⟩, e'.trans e⟩

theorem Silent.step {Δ : Table} {s s1 s2 : S} {o : PTok} (h : Silent s s1) (h' : Step Δ s1 o s2) : Step Δ s o s2 := by
  obtain ⟨⟨k, h⟩, e⟩ := h
  obtain ⟨⟨k', h'⟩, hs, e'⟩ := h'
  refine ⟨⟨k' + k, fun n hn => ?_⟩, hs, e'.trans e⟩
  have := h (n - k)
  rw [show n - k + k = n by omega] at this
  rw [this]
  exact h' _ (by omega)

theorem Silent.emits {Δ : Table} {s s1 : S} {os : List PTok} {Q : S → Prop} (h : Silent s s1) (h' : Emits Δ s1 os Q) : Emits Δ s os Q := by
  cases os with
  | nil =>
    obtain ⟨s2, h2, hq⟩ := h'
    exact ⟨s2, h.trans h2, hq⟩
  | cons o os =>
    obtain ⟨s3, h3, h4⟩ := h'
    exact ⟨s3, h.step h3, h4⟩

theorem Emits.append {Δ : Table} {ps : List PTok} {P Q : S → Prop} (hP : ∀ s, P s → Emits Δ s ps Q) : ∀ {os : List PTok} {s : S}, Emits Δ s os P → Emits Δ s (os ++ ps) Q
  | [], _, ⟨_, h, h'⟩ => Silent.emits h (hP _ h')
  | _ :: _, _, ⟨s3, h3, h4⟩ => ⟨s3, h3, fun out => Emits.append hP (h4 out)⟩

theorem Emits.imp {Δ : Table} {P Q : S → Prop} (hP : ∀ s, P s → Q s) : ∀ {os : List PTok} {s : S}, Emits Δ s os P → Emits Δ s os Q
  | [], _, ⟨_, h, h'⟩ => ⟨_, h, hP _ h'⟩
  | _ :: _, _, ⟨s3, h3, h4⟩ => ⟨s3, h3, fun out => Emits.imp hP (h4 out)⟩

theorem frame_out (s : S) (out : Array Byte) : Frame s { s with out := out } :=
  ⟨rfl, rfl, rfl, rfl, rfl, rfl, rfl, rfl, rfl, rfl, rfl, rfl, rfl, fun _ _ => rfl, fun _ => ⟨rfl, rfl, fun e => e⟩⟩

/-- The names of the macros being expanded. -/
def hid (Δ : Table) (lv : List (Nat × List PTok)) : List (List Byte) := lv.map fun l => ((Δ[l.1]?).getD ([], none)).1

theorem names_nodup_idx {Δ : Table} (h : (names Δ).Nodup) {i j : Nat} {w : List Byte} {x y : Option (List PTok)} (hi : Δ[i]? = some (w, x)) (hj : Δ[j]? = some (w, y)) :
    i = j := by
  have h2 : (Δ.map (·.1)).Nodup := (List.nodup_append.mp h).2.1
  have hi' : (Δ.map (·.1))[i]? = some w := by rw [List.getElem?_map, hi]; rfl
  have hj' : (Δ.map (·.1))[j]? = some w := by rw [List.getElem?_map, hj]; rfl
  obtain ⟨a, ha⟩ := List.getElem?_eq_some_iff.mp hi'
  obtain ⟨b, hb⟩ := List.getElem?_eq_some_iff.mp hj'
  exact (List.Nodup.getElem_inj_iff h2).mp (ha.trans hb.symm)

theorem lookup_idx {Δ : Table} (h : (names Δ).Nodup) {i : Nat} {w : List Byte} {x : Option (List PTok)} (hi : Δ[i]? = some (w, x)) : lookup Δ w = x := by
  rw [lookup]
  cases hf : Δ.find? fun e => e.1 == w with
  | none =>
    have := List.find?_eq_none.mp hf _ (List.mem_of_getElem? hi)
    simp at this
  | some e =>
    have h1 := List.find?_some hf
    have h2 := List.mem_of_find?_eq_some hf
    obtain ⟨j, hj⟩ := List.getElem?_of_mem h2
    simp only [beq_iff_eq] at h1
    obtain ⟨w', y⟩ := e
    subst h1
    have := names_nodup_idx h hi hj
    subst this
    rw [hi] at hj
    cases hj
    rfl

theorem lookup_some {Δ : Table} {w : List Byte} {b : List PTok} (h : lookup Δ w = some b) : ∃ i : Nat, Δ[i]? = some (w, some b) := by
  rw [lookup] at h
  cases hf : Δ.find? fun e => e.1 == w with
  | none => rw [hf] at h; cases h
  | some e =>
    rw [hf] at h
    have h1 := List.find?_some hf
    have h2 := List.mem_of_find?_eq_some hf
    obtain ⟨j, hj⟩ := List.getElem?_of_mem h2
    simp only [beq_iff_eq] at h1
    obtain ⟨w', y⟩ := e
    subst h1
    change y = some b at h
    subst h
    exact ⟨j, hj⟩

theorem mem_hid {Δ : Table} {s : S} {lv : List (Nat × List PTok)} (h : (names Δ).Nodup) (hS : Stk Δ s lv) {i : Nat} {w : List Byte} {x : Option (List PTok)}
    (hi : Δ[i]? = some (w, x)) : w ∈ hid Δ lv ↔ i ∈ lv.map (·.1) := by
  simp only [hid, List.mem_map]
  constructor
  · rintro ⟨l, hl, e⟩
    obtain ⟨w', b, hb⟩ := hS.def_ l.1 (List.mem_map.mpr ⟨l, hl, rfl⟩)
    rw [hb] at e
    simp only [Option.getD_some] at e
    subst e
    exact ⟨l, hl, names_nodup_idx h hb hi⟩
  · rintro ⟨l, hl, rfl⟩
    exact ⟨l, hl, by rw [hi]; rfl⟩

theorem builtins_len : builtins.length = 16 := by decide

/-- A user name and its number. -/
theorem names_user {Δ : Table} {id : Nat} {w : List Byte} (h : (names Δ)[id]? = some w) (h16 : 16 ≤ id) : ∃ x, Δ[id - 16]? = some (w, x) := by
  rw [names, List.getElem?_append_right (by rw [builtins_len]; exact h16), builtins_len, List.getElem?_map] at h
  cases he : Δ[id - 16]? with
  | none => rw [he] at h; simp at h
  | some e =>
    rw [he] at h
    simp only [Option.map_some, Option.some.injEq] at h
    exact ⟨e.2, by rw [← h]⟩

theorem builtin_not_user {Δ : Table} (hn : (names Δ).Nodup) {id : Nat} {w : List Byte} (h : (names Δ)[id]? = some w) (h16 : id < 16) : lookup Δ w = none := by
  cases hl : lookup Δ w with
  | none => rfl
  | some b =>
    obtain ⟨i, hi⟩ := lookup_some hl
    have h2 : (names Δ)[16 + i]? = some w := by
      rw [names, List.getElem?_append_right (by rw [builtins_len]; omega), builtins_len, show 16 + i - 16 = i by omega, List.getElem?_map, hi]
      rfl
    obtain ⟨a, ha⟩ := List.getElem?_eq_some_iff.mp h
    obtain ⟨b', hb⟩ := List.getElem?_eq_some_iff.mp h2
    have := (List.Nodup.getElem_inj_iff hn).mp (ha.trans hb.symm)
    omega

theorem lookup_none_of_not_mem {Δ : Table} {w : List Byte} (h : w ∉ names Δ) : lookup Δ w = none := by
  cases hl : lookup Δ w with
  | none => rfl
  | some b =>
    obtain ⟨i, hi⟩ := lookup_some hl
    refine absurd ?_ h
    rw [names, List.mem_append]
    exact .inr (List.mem_map.mpr ⟨_, List.mem_of_getElem? hi, rfl⟩)

theorem special_idx : ∀ i < 16, ∀ w, builtins[i]? = some w → w ∉ special → i ≤ 12 := by decide +kernel

/-- No arguments are in force while object-like macros are expanded. -/
theorem getArg_none {Δ : Table} {s : S} {lv : List (Nat × List PTok)} (hS : Stk Δ s lv) (id : Nat) : getArg id s = .ok none s := by
  have h := hS.rel
  refine run_getS ?_
  cases hs : s.stack with
  | nil => rfl
  | cons r rs =>
    rw [hs] at h
    cases h with
    | cons h1 h2 =>
      simp only [h1.1, h1.2.2.2.2.2]
      rfl

/-- What a change of the current token leaves alone. -/
theorem frame_tok (s : S) (h : Nat) (t : Tok) : Frame s { s with hash := h, tok := t } :=
  ⟨rfl, rfl, rfl, rfl, rfl, rfl, rfl, rfl, rfl, rfl, rfl, rfl, rfl, fun _ _ => rfl, fun _ => ⟨rfl, rfl, fun e => e⟩⟩

/-- The state in which the expansion of macro `m` begins. -/
def pushed (m i : Nat) (s : S) : S :=
  { s with stack := { m := some m, tl := some i, stop := false } :: s.stack, mac := upd s.mac m { s.mac m with hide := 1 } }

theorem frame_pushed (m i : Nat) (s : S) (h : (s.mac m).hide ≠ 2) : Frame s (pushed m i s) := by
  refine ⟨rfl, rfl, rfl, rfl, rfl, rfl, rfl, rfl, rfl, rfl, rfl, rfl, rfl, fun _ _ => rfl, fun j => ?_⟩
  by_cases hj : j = m
  · subst hj
    simp only [pushed, upd_self]
    exact ⟨trivial, trivial, fun e => absurd e h⟩
  · simp only [pushed, upd_ne _ _ hj]
    exact ⟨trivial, trivial, id⟩

/-- An identifier that is not replaced. -/
theorem id_copy {Δ : Table} {s s1 : S} {lv : List (Nat × List PTok)} {w : List Byte} (hraw : rawGetToken s = .ok () s1) (hR : Rep Δ s1) (hS : Stk Δ s1 lv)
    (hty : s1.tok.ty = tokRawId) (hw : strOf s1 s1.tok.txt = some w) (hh : s1.hash = idHashMax ∨ s1.hash = hashOf w) (hsp : w ∉ special)
    (hl : lookup Δ w = none ∨ w ∈ hid Δ lv) (ho : kept s1 = kept s) : ∃ h t, Step Δ s (.id w) { s1 with hash := h, tok := t } := by
  have c1 : ¬ s1.tok.ty = 0x23 := by rw [hty]; decide
  have c2 : ¬ s1.tok.ty = tokArg := by rw [hty]; decide
  have c3 : ¬ s1.tok.ty ≠ tokRawId := by rw [hty]; decide
  obtain ⟨h, ⟨hn, hr⟩ | ⟨id, hn, hr⟩⟩ := replaceId_eq hR hty hw hh
  · refine ⟨h, s1.tok, ⟨1, fun n hn => ?_⟩, ?_⟩
    · obtain ⟨n, rfl⟩ := Nat.exists_eq_succ_of_ne_zero (by omega : n ≠ 0)
      simp only [getToken]
      refine run_bind hraw (run_getS (run_neg c1 (run_neg c2 (run_neg c3 (run_bind hr (run_getS ?_))))))
      refine run_pos (show s1.tok.ty < tokUserId by rw [hty]; decide) ?_
      refine run_neg (show ¬ tokDefined < s1.tok.ty by rw [hty]; decide) rfl
    · exact ⟨⟨fun e => absurd rfl e, fun w' e => by cases e; exact .inl ⟨hty, hn⟩, fun _ _ => hw, fun _ _ i hi => hR.undef i _ hi⟩, ho⟩
  · refine ⟨h, { s1.tok with ty := tokId + id }, ⟨1, fun n hn' => ?_⟩, ?_⟩
    · obtain ⟨n, rfl⟩ := Nat.exists_eq_succ_of_ne_zero (by omega : n ≠ 0)
      simp only [getToken]
      refine run_bind hraw (run_getS (run_neg c1 (run_neg c2 (run_neg c3 (run_bind hr (run_getS ?_))))))
      by_cases h16 : id < 16
      · have hb : builtins[id]? = some w := by rwa [names, List.getElem?_append_left (by rw [builtins_len]; exact h16)] at hn
        have := special_idx id h16 w hb hsp
        refine run_pos (show tokId + id < tokUserId by simp only [tokId, tokUserId]; omega) ?_
        exact run_neg (show ¬ tokDefined < tokId + id by simp only [tokId, tokDefined]; omega) rfl
      · obtain ⟨x, hx⟩ := names_user hn (by omega)
        refine run_neg (show ¬ tokId + id < tokUserId by simp only [tokId, tokUserId]; omega) ?_
        refine run_bind (getArg_none (hS.frame (frame_tok s1 h { s1.tok with ty := tokId + id }) rfl rfl) _) ?_
        refine run_pos ?_ rfl
        show (s1.mac (tokId + id - tokUserId)).hide ≠ 0
        rw [show tokId + id - tokUserId = id - 16 by simp only [tokId, tokUserId]; omega]
        cases x with
        | none => rw [hR.undef _ _ hx]; decide
        | some b =>
          rw [hS.hide _ _ _ hx]
          rcases hl with hl | hl
          · rw [lookup_idx hR.nodup hx] at hl
            cases hl
          · rw [if_pos ((mem_hid hR.nodup hS hx).mp hl)]
            decide
    · exact ⟨⟨fun e => absurd rfl e, fun w' e => by cases e; exact .inr ⟨id, hn, rfl⟩, fun _ _ => hw, fun _ _ i hi => hR.undef i _ hi⟩, ho⟩

/-- An identifier that is replaced: the expansion of the macro begins. -/
theorem id_macro {Δ : Table} {s s1 : S} {lv : List (Nat × List PTok)} {w : List Byte} {b : List PTok} (hraw : rawGetToken s = .ok () s1) (hR : Rep Δ s1)
    (hS : Stk Δ s1 lv) (hty : s1.tok.ty = tokRawId) (hw : strOf s1 s1.tok.txt = some w) (hh : s1.hash = idHashMax ∨ s1.hash = hashOf w)
    (hl : lookup Δ w = some b) (hnh : w ∉ hid Δ lv) (hd : lv.length < 10) (ho : kept s1 = kept s) :
    ∃ s2, Silent s s2 ∧ Frame s1 s2 ∧ s2.cur = s1.cur ∧ s2.inp = s1.inp ∧
      (b = [] ∧ Stk Δ s2 lv ∨ ∃ i, i ∉ lv.map (·.1) ∧ hid Δ ((i, b) :: lv) = w :: hid Δ lv ∧ Stk Δ s2 ((i, b) :: lv)) := by
  have c1 : ¬ s1.tok.ty = 0x23 := by rw [hty]; decide
  have c2 : ¬ s1.tok.ty = tokArg := by rw [hty]; decide
  have c3 : ¬ s1.tok.ty ≠ tokRawId := by rw [hty]; decide
  obtain ⟨h, ⟨hn, hr⟩ | ⟨id, hn, hr⟩⟩ := replaceId_eq hR hty hw hh
  · rw [lookup_none_of_not_mem hn] at hl
    cases hl
  · have h16 : 16 ≤ id := by
      refine Nat.le_of_not_lt fun h16 => ?_
      rw [builtin_not_user hR.nodup hn h16] at hl
      cases hl
    obtain ⟨x, hx⟩ := names_user hn h16
    rw [lookup_idx hR.nodup hx] at hl
    subst hl
    generalize hm : id - 16 = m at hx
    have hmac := hR.mac _ _ _ hx
    have hni : m ∉ lv.map (·.1) := fun e => hnh ((mem_hid hR.nodup hS hx).mpr e)
    have hhide : (s1.mac m).hide = 0 := by rw [hS.hide _ _ _ hx, if_neg hni]
    let s2 : S := { s1 with hash := h, tok := { s1.tok with ty := tokId + id } }
    have fr : Frame s1 s2 := frame_tok s1 _ _
    have hS2 : Stk Δ s2 lv := hS.frame fr rfl rfl
    have hidm : tokId + id - tokUserId = m := by simp only [tokId, tokUserId]; omega
    have hg : ∀ n, getToken (n + 2) s = (match (s1.mac m).repl with
        | some i => do
          push { m := some m, tl := some i, stop := false }
          modS fun s => { s with mac := upd s.mac m { s.mac m with hide := 1 } }
          getToken n
        | none => do
          freeArgs (s1.mac m).args
          getToken n : A Unit) s2 := by
      intro n
      simp only [getToken]
      refine run_bind hraw (run_getS (run_neg c1 (run_neg c2 (run_neg c3 (run_bind hr (run_getS ?_))))))
      refine run_neg (show ¬ tokId + id < tokUserId by simp only [tokId, tokUserId]; omega) ?_
      refine run_bind (getArg_none hS2 _) ?_
      refine run_neg (show ¬ (s1.mac (tokId + id - tokUserId)).hide ≠ 0 by rw [hidm, hhide]; decide) ?_
      have : (s1.mac (tokId + id - tokUserId)).args = .none := by rw [hidm]; exact hmac.1
      simp only [this, expand]
      refine run_getS ?_
      simp only [hidm]
      have e : s2.mac m = s1.mac m := rfl
      cases hrp : (s1.mac m).repl <;> simp only [e, hrp] <;> rfl
    cases hrep : (s1.mac m).repl with
    | none =>
      have hb : b = [] := by
        have := hmac.2.1
        rw [hrep] at this
        cases b with
        | nil => rfl
        | cons _ _ => simp [Chain] at this
      refine ⟨s2, ⟨⟨2, fun n => ?_⟩, ho⟩, fr, rfl, rfl, .inl ⟨hb, hS2⟩⟩
      rw [hg, hrep]
      refine run_bind (s1 := s2) (a := ()) ?_ rfl
      show freeArgs (s1.mac m).args s2 = _
      rw [hmac.1]
      rfl
    | some i =>
      have fr2 : Frame s2 (pushed m i s2) := frame_pushed m i s2 (by show (s1.mac m).hide ≠ 2; rw [hhide]; decide)
      refine ⟨pushed m i s2, ⟨⟨2, fun n => ?_⟩, ho⟩, fr.trans fr2, rfl, rfl, .inr ⟨m, hni, ?_, ?_⟩⟩
      · rw [hg, hrep]
        have hlen : s2.stack.length = lv.length := hS2.rel.length_eq
        refine run_bind (s1 := { s2 with stack := { m := some m, tl := some i, stop := false } :: s2.stack }) (a := ()) ?_ (run_modS rfl)
        refine run_getS (run_assert ?_ (modS_run _ _))
        simp only [hlen, decide_eq_true_eq]
        simpa using hd
      · simp only [hid, List.map_cons, hx, Option.getD_some]
      · refine ⟨?_, ?_, ?_, ?_⟩
        · refine .cons ⟨rfl, rfl, ?_, hmac.2.2.1, hmac.2.2.2, ?_⟩ ?_
          · rw [← hrep]
            exact (hmac.2.1.frame fr).frame fr2
          · exact (fr2.mac m).1.trans hmac.1
          · exact hS2.rel.imp fun _ _ a => ⟨a.1, a.2.1, a.2.2.1.frame fr2, a.2.2.2.1, a.2.2.2.2.1, (fr2.mac _).1.trans a.2.2.2.2.2⟩
        · intro j w' b' hj
          by_cases e : j = m
          · subst e
            simp [pushed, upd_self]
          · simp only [pushed, upd_ne _ _ e, List.map_cons, List.mem_cons, e, false_or]
            exact hS2.hide j w' b' hj
        · intro j hj
          rcases List.mem_cons.mp hj with rfl | hj
          · exact ⟨_, _, hx⟩
          · exact hS2.def_ j hj
        · intro j hj
          have : j ≠ m := by
            rintro rfl
            have := (List.getElem?_eq_some_iff.mp hx).1
            omega
          simp only [pushed, upd_ne _ _ this]
          exact hS2.fresh j hj

/-- The end of a replacement list. -/
theorem stk_pop {Δ : Table} {s : S} {lv : List (Nat × List PTok)} {i : Nat} (hS : Stk Δ s ((i, []) :: lv)) (hnd : i ∉ lv.map (·.1)) :
    ∃ s2, Silent s s2 ∧ Frame s s2 ∧ s2.cur = s.cur ∧ s2.inp = s.inp ∧ Stk Δ s2 lv := by
  obtain ⟨w, b, hx⟩ := hS.def_ i (by simp)
  have hhide : (s.mac i).hide = 1 := by rw [hS.hide _ _ _ hx]; simp
  cases hs : s.stack with
  | nil => have := hS.rel; rw [hs] at this; cases this
  | cons r rs =>
    have hrel := hS.rel
    rw [hs] at hrel
    cases hrel with
    | cons h1 h2 =>
      have htl : r.tl = none := by
        have := h1.2.2.1
        cases hr : r.tl with
        | none => rfl
        | some j => rw [hr] at this; simp [Chain] at this
      have hp := rawGet_pop hs h1.1 hhide htl h1.2.2.2.2.2 h1.2.1
      have fr : Frame s (popped i rs s) := by
        refine ⟨rfl, rfl, rfl, rfl, rfl, rfl, rfl, rfl, rfl, rfl, rfl, rfl, rfl, fun _ _ => rfl, fun j => ?_⟩
        by_cases e : j = i
        · subst e
          simp only [popped, upd_self, hhide]
          exact ⟨trivial, trivial, fun e => by cases e⟩
        · simp only [popped, upd_ne _ _ e]
          exact ⟨trivial, trivial, id⟩
      refine ⟨popped i rs s, ⟨⟨0, fun n => ?_⟩, rfl⟩, fr, rfl, rfl, ?_, ?_, ?_, ?_⟩
      · cases n with
        | zero => rfl
        | succ n =>
          simp only [getToken]
          show (rawGetToken >>= _) s = (rawGetToken >>= _) (popped i rs s)
          show Prog.M.bind rawGetToken _ s = Prog.M.bind rawGetToken _ (popped i rs s)
          simp only [Prog.M.bind, hp]
      · exact h2.imp fun _ _ a => ⟨a.1, a.2.1, a.2.2.1.frame fr, a.2.2.2.1, a.2.2.2.2.1, (fr.mac _).1.trans a.2.2.2.2.2⟩
      · intro j w' b' hj
        by_cases e : j = i
        · subst e
          rw [if_neg hnd]
          simp [popped, upd_self]
        · simp only [popped, upd_ne _ _ e]
          rw [hS.hide j w' b' hj]
          simp only [List.map_cons, List.mem_cons, e, false_or]
      · intro j hj
        exact hS.def_ j (by simp [hj])
      · intro j hj
        have : j ≠ i := by
          rintro rfl
          have := (List.getElem?_eq_some_iff.mp hx).1
          omega
        simp only [popped, upd_ne _ _ this]
        exact hS.fresh j hj

theorem hid_cons (Δ : Table) (i : Nat) (ts ts' : List PTok) (lv : List (Nat × List PTok)) : hid Δ ((i, ts) :: lv) = hid Δ ((i, ts') :: lv) := rfl

/-- A token that is no identifier. -/
theorem step_other {Δ : Table} {s s1 : S} {t : PTok} (hraw : rawGetToken s = .ok () s1) (hty : s1.tok.ty = t.ty) (hok : t.Ok) (hni : ∀ w, t ≠ .id w)
    (hh : t = .op (asc "#") → s1.stack = []) (htxt : t ≠ .nl → t.ty ≠ tokWs → strOf s1 s1.tok.txt = some t.val)
    (ho : kept s1 = kept s) : Step Δ s t s1 := by
  have hf := ty_facts hok
  have hr : t.ty ≠ tokRawId := fun e => by
    obtain ⟨w, hw⟩ := hf.2.2.2.2.2.2.1.mp e
    exact hni w hw
  refine ⟨⟨1, fun n hn => ?_⟩, ⟨fun _ => hty, fun w e => absurd e (hni w), htxt, fun w e => absurd e (hni w)⟩, ho⟩
  obtain ⟨n, rfl⟩ := Nat.exists_eq_succ_of_ne_zero (by omega : n ≠ 0)
  simp only [getToken]
  refine run_bind hraw (run_getS ?_)
  by_cases h23 : t.ty = 0x23
  · refine run_pos (by rw [hty, h23]) (run_pos ?_ rfl)
    rw [hh (hf.2.2.2.2.2.2.2.1 h23)]
    rfl
  · exact run_neg (by rw [hty]; exact h23) (run_neg (by rw [hty]; exact hf.2.1) (run_pos (by rw [hty]; exact hr) rfl))

/-- The next token of a replacement list. -/
theorem stk_next {Δ : Table} {s : S} {lv : List (Nat × List PTok)} {i : Nat} {t : PTok} {ts : List PTok} (hR : Rep Δ s) (hS : Stk Δ s ((i, t :: ts) :: lv)) :
    ∃ s1, rawGetToken s = .ok () s1 ∧ Frame s s1 ∧ s1.cur = s.cur ∧ s1.inp = s.inp ∧ s1.tok.ty = t.ty ∧ (t.ty ≠ tokWs → strOf s1 s1.tok.txt = some t.val) ∧
      s1.hash = idHashMax ∧ Stk Δ s1 ((i, ts) :: lv) ∧ BodyTok t ∧ kept s1 = kept s := by
  obtain ⟨w, b, hx⟩ := hS.def_ i (by simp)
  have hhide : (s.mac i).hide = 1 := by rw [hS.hide _ _ _ hx]; simp
  cases hs : s.stack with
  | nil => have := hS.rel; rw [hs] at this; cases this
  | cons r rs =>
    have hrel := hS.rel
    rw [hs] at hrel
    cases hrel with
    | cons h1 h2 =>
      obtain ⟨a1, a2, a3, a4, a5, a6⟩ := h1
      cases htl : r.tl with
      | none => rw [htl] at a3; simp [Chain] at a3
      | some j =>
        rw [htl] at a3
        have hb : ∀ t ∈ ts, BodyTok t := fun t ht => a5 t (by simp [ht])
        have hl : ts.length ≤ 128 := by simp only [List.length_cons] at a4; omega
        have hg := rawGet_stack hs a1 hhide htl a3 hb hl
        simp only [Chain] at a3
        let s1 : S := { s with tok := (s.node j).tok, stack := { r with tl := (s.node j).next } :: rs, hash := idHashMax }
        have fr : Frame s s1 :=
          ⟨rfl, rfl, rfl, rfl, rfl, rfl, rfl, rfl, rfl, rfl, rfl, rfl, rfl, fun _ _ => rfl, fun _ => ⟨rfl, rfl, fun e => e⟩⟩
        refine ⟨s1, hg, fr, rfl, rfl, a3.1.1, ?_, rfl, ⟨?_, hS.hide, hS.def_, hS.fresh⟩, a5 t (by simp), rfl⟩
        · intro e
          exact ((a3.1.2 e).frame fr).str hR.tdn
        · refine .cons ⟨a1, a2, a3.2.frame fr, hl, hb, a6⟩ ?_
          exact h2.imp fun _ _ a => ⟨a.1, a.2.1, a.2.2.1.frame fr, a.2.2.2.1, a.2.2.2.2.1, a.2.2.2.2.2⟩

/-- The tokens of a replacement list are delivered expanded. -/
theorem emits_stack {Δ : Table} {d : Nat} {H : List (List Byte)} {ts os : List PTok} (h : Exp Δ d H ts os) :
    ∀ (s : S) (lv : List (Nat × List PTok)) (i : Nat) (rest : List PTok), Rep Δ s → Stk Δ s ((i, ts ++ rest) :: lv) → H = hid Δ ((i, []) :: lv) →
      lv.length + 1 + d ≤ 10 →
      Emits Δ s os fun s' => Frame s s' ∧ s'.cur = s.cur ∧ s'.inp = s.inp ∧ Stk Δ s' ((i, rest) :: lv) := by
  induction h with
  | nil d H => intro s lv i rest _ hS _ _; exact ⟨s, Silent.refl s, Frame.refl s, rfl, rfl, hS⟩
  | @copy d H t ts os ht _ ih =>
    intro s lv i rest hR hS hH hd
    obtain ⟨s1, h1, h2, h3, h4, h5, h6, h7, h8, h9, h10⟩ := stk_next hR hS
    have hR1 := hR.frame h2
    by_cases hid' : ∃ w, t = .id w
    · obtain ⟨w, rfl⟩ := hid'
      obtain ⟨h', t', hst⟩ := id_copy h1 hR1 h8 h5 (h6 (by decide : tokRawId ≠ tokWs)) (.inl h7) (h9.2.2.2.2 w rfl) (by
        rcases ht w rfl with e | e
        · exact .inl e
        · exact .inr (by rw [hH] at e; exact e)) h10
      refine ⟨_, hst, fun out => ?_⟩
      have fr := (frame_tok s1 h' t').trans (frame_out _ out)
      refine (ih _ lv i rest (hR1.frame fr) (h8.frame fr rfl rfl) hH hd).imp ?_
      rintro s' ⟨e2, e3, e4, e5⟩
      exact ⟨(h2.trans fr).trans e2, e3.trans h3, e4.trans h4, e5⟩
    · have hst := step_other (Δ := Δ) h1 h5 h9.1 (fun w hw => hid' ⟨w, hw⟩) (fun e => absurd e h9.2.2.1) (fun _ => h6) h10
      refine ⟨_, hst, fun out => ?_⟩
      have fr := frame_out s1 out
      refine (ih _ lv i rest (hR1.frame fr) (h8.frame fr rfl rfl) hH hd).imp ?_
      rintro s' ⟨e2, e3, e4, e5⟩
      exact ⟨(h2.trans fr).trans e2, e3.trans h3, e4.trans h4, e5⟩
  | @repl d H w b bs ts os hw hb hE _ ih1 ih2 =>
    intro s lv i rest hR hS hH hd
    obtain ⟨s1, h1, h2, h3, h4, h5, h6, h7, h8, h9, h10⟩ := stk_next hR hS
    have hR1 := hR.frame h2
    obtain ⟨s2, g1, g2, g3, g4, g5⟩ := id_macro h1 hR1 h8 h5 (h6 (by decide : tokRawId ≠ tokWs)) (.inl h7) hb (by rw [hid_cons Δ i _ [], ← hH]; exact hw)
      (by simp only [List.length_cons]; omega) h10
    have hR2 := hR1.frame g2
    refine g1.emits (Emits.append (P := fun s3 => Frame s2 s3 ∧ s3.cur = s2.cur ∧ s3.inp = s2.inp ∧ Stk Δ s3 ((i, ts ++ rest) :: lv)) ?_ ?_)
    · rintro s3 ⟨k2, k3, k4, k5⟩
      refine (ih2 s3 lv i rest (hR2.frame k2) k5 hH hd).imp ?_
      rintro s' ⟨e2, e3, e4, e5⟩
      exact ⟨((h2.trans g2).trans k2).trans e2, e3.trans (k3.trans (g3.trans h3)), e4.trans (k4.trans (g4.trans h4)), e5⟩
    · rcases g5 with ⟨rfl, g5⟩ | ⟨j, gn, gh, g5⟩
      · cases hE
        exact ⟨s2, Silent.refl s2, Frame.refl s2, rfl, rfl, g5⟩
      · have := ih1 s2 ((i, ts ++ rest) :: lv) j [] hR2 (by rw [List.append_nil]; exact g5)
          (by rw [hid_cons Δ j _ b]; exact (gh.trans (congrArg (w :: ·) hH.symm)).symm) (by simp only [List.length_cons]; omega)
        rw [← List.append_nil bs]
        refine Emits.append ?_ this
        rintro s3 ⟨e2, e3, e4, e5⟩
        obtain ⟨s4, p1, p2, p3, p4, p6⟩ := stk_pop e5 gn
        exact ⟨s4, p1, e2.trans p2, p3.trans e3, p4.trans e4, p6⟩

/-! ## Tokens from the text -/

/-- The part of the text that is still to be read, with comments removed. -/
def At (s : S) (r : List Byte) : Prop := ∃ m, Commented m r ∧ s.cur = m.headD 0 ∧ s.inp = m.tail

theorem At.inAt {s : S} {r : List Byte} (h : At s r) : ∃ m, Commented m r ∧ inAt m s = s := by
  obtain ⟨m, h1, h2, h3⟩ := h
  exact ⟨m, h1, by rw [ScppLex.inAt, ← h2, ← h3]⟩

theorem At.congr {s s' : S} {r : List Byte} (h : At s r) (h1 : s'.cur = s.cur) (h2 : s'.inp = s.inp) : At s' r := by
  obtain ⟨m, k1, k2, k3⟩ := h
  exact ⟨m, k1, h1.trans k2, h2.trans k3⟩

theorem word_nz : ∀ c : Byte, IsWord c → c ≠ 0 := by decide +kernel

theorem op_nz : ∀ e ∈ opTable, ∀ c ∈ e.1, c ≠ 0 := by decide +kernel

theorem lit_nz {q : Byte} : ∀ {w : List Byte}, LitBody q w → ∀ c ∈ w, c ≠ 0
  | [], _, c, hc => by cases hc
  | [d], h, c, hc => by rw [List.mem_singleton.mp hc]; exact h.2.2.1
  | d :: e :: w, h, c, hc => by
    rw [LitBody] at h
    by_cases hd : d = 0x5C
    · rw [if_pos hd] at h
      rcases List.mem_cons.mp hc with rfl | hc
      · rw [hd]; decide
      rcases List.mem_cons.mp hc with rfl | hc
      · exact h.1
      · exact lit_nz h.2.2 c hc
    · rw [if_neg hd] at h
      rcases List.mem_cons.mp hc with rfl | hc
      · exact h.2.1
      · exact lit_nz h.2.2.2 c hc
  termination_by w => w.length

theorem text_nz {t : PTok} (h : t.Ok) : ∀ c ∈ t.val, c ≠ 0 := by
  cases t with
  | ws w =>
    obtain ⟨c, b, rfl, h1, _, h3⟩ := h
    intro d hd
    rcases List.mem_append.mp hd with hd | hd
    · rcases h1 with rfl | ⟨v, rfl, hv, _⟩
      · cases hd
      · simp only [List.mem_cons, List.mem_append, List.not_mem_nil, or_false] at hd
        rcases hd with rfl | rfl | hd | rfl | rfl
        · decide
        · decide
        · exact hv d hd
        · decide
        · decide
    · exact (h3 d hd).2.1
  | nl => intro c hc; simp only [PTok.val, PTok.text, List.mem_singleton] at hc; subst hc; decide
  | id w =>
    obtain ⟨c, r, rfl, hc, hr⟩ := h
    intro d hd
    rcases List.mem_cons.mp hd with rfl | hd
    · exact word_nz _ (.inl hc)
    · exact word_nz _ (hr d hd)
  | num w =>
    obtain ⟨c, r, rfl, hc, hr⟩ := h
    intro d hd
    rcases List.mem_cons.mp hd with rfl | hd
    · exact word_nz _ (.inr hc)
    · exact word_nz _ (hr d hd)
  | op w =>
    obtain ⟨t, x, hx⟩ := h
    exact op_nz _ hx
  | lit q w => exact lit_nz h.2

theorem At.of_inAt {m r : List Byte} (h : Commented m r) (s : S) : At (ScppLex.inAt m s) r := ⟨m, h, rfl, rfl⟩

theorem frame_lexed {s : S} {w : List Byte} (ty h : Nat) (r : List Byte) (hl : s.tdNext + w.length + 1 ≤ 2048) : Frame s (lexed w ty h r s) :=
  ⟨rfl, rfl, rfl, rfl, rfl, rfl, rfl, rfl, rfl, rfl, rfl, rfl, rfl,
    fun i hi => get_writeMem_lt _ _ _ _ hi (by simp; omega), fun _ => ⟨rfl, rfl, fun e => e⟩⟩

theorem frame_lexedWs {s : S} (ty line : Nat) (r : List Byte) : Frame s (lexedWs ty line r s) :=
  ⟨rfl, rfl, rfl, rfl, rfl, rfl, rfl, rfl, rfl, rfl, rfl, rfl, rfl, fun _ _ => rfl, fun _ => ⟨rfl, rfl, fun e => e⟩⟩

theorem stk_nil {Δ : Table} {s : S} (h : Stk Δ s []) : s.stack = [] := by
  have := h.rel
  cases hs : s.stack with
  | nil => rfl
  | cons _ _ => rw [hs] at this; cases this

/-- The state `s1` after `RawGetToken` has read the token `t` in `s`. -/
structure RawAt (s s1 : S) (t : PTok) (r : List Byte) : Prop where
  frame : Frame s s1
  at_ : At s1 r
  ty : s1.tok.ty = t.ty
  txt : t ≠ .nl → t.ty ≠ tokWs → strOf s1 s1.tok.txt = some t.val
  pos : t ≠ .nl → t.ty ≠ tokWs → s1.tok.txt = .data s.tdNext ∧ s1.tdPos = s.tdNext + t.need ∧ StrBelow s1.td (s.tdNext + t.need) s.tdNext t.val
  hash : ∀ w, t = .id w → s1.hash = hashOf w
  stack : s1.stack = s.stack
  mac : s1.mac = s.mac
  out : s1.out = s.out

theorem rawAt_after {s : S} {t : PTok} {m r : List Byte} (hm : Commented m r) (hok : t.Ok) (hl : s.tdNext + t.need ≤ 2048) : RawAt s (after t m s) t r := by
  have hlx : ∀ w ty h, t.val = w → s.tdNext + t.val.length + 1 ≤ 2048 → strOf (lexed w ty h m s) (lexed w ty h m s).tok.txt = some t.val := by
    intro w ty h e hl
    subst e
    exact cstr_writeMem hl (text_nz hok)
  have hsb : ∀ w ty h, t.val = w → s.tdNext + t.val.length + 1 ≤ 2048 → StrBelow (lexed w ty h m s).td (s.tdNext + t.val.length + 1) s.tdNext t.val := by
    intro w ty h e hl
    subst e
    exact StrBelow.of_write hl (text_nz hok)
  cases t with
  | ws w => exact ⟨frame_lexedWs _ _ _, .of_inAt hm _, rfl, fun _ e => absurd rfl e, fun _ e => absurd rfl e, fun _ e => (by cases e), rfl, rfl, rfl⟩
  | nl => exact ⟨frame_lexedWs _ _ _, .of_inAt hm _, rfl, fun e => absurd rfl e, fun e => absurd rfl e, fun _ e => (by cases e), rfl, rfl, rfl⟩
  | id w => exact ⟨frame_lexed _ _ _ hl, .of_inAt hm _, rfl, fun _ _ => hlx _ _ _ rfl hl, fun _ _ => ⟨rfl, rfl, hsb _ _ _ rfl hl⟩, fun _ e => (by cases e; rfl), rfl, rfl, rfl⟩
  | num w => exact ⟨frame_lexed _ _ _ hl, .of_inAt hm _, rfl, fun _ _ => hlx _ _ _ rfl hl, fun _ _ => ⟨rfl, rfl, hsb _ _ _ rfl hl⟩, fun _ e => (by cases e), rfl, rfl, rfl⟩
  | op w => exact ⟨frame_lexed _ _ _ hl, .of_inAt hm _, rfl, fun _ _ => hlx _ _ _ rfl hl, fun _ _ => ⟨rfl, rfl, hsb _ _ _ rfl hl⟩, fun _ e => (by cases e), rfl, rfl, rfl⟩
  | lit q w => exact ⟨frame_lexed _ _ _ hl, .of_inAt hm _, rfl, fun _ _ => hlx _ _ _ rfl hl, fun _ _ => ⟨rfl, rfl, hsb _ _ _ rfl hl⟩, fun _ e => (by cases e), rfl, rfl, rfl⟩

/-- The next token of the text. -/
theorem raw_next {s : S} {t : PTok} {r : List Byte} (hs : s.stack = []) (hq : s.queue = []) (ha : At s (t.text ++ r)) (hok : t.Ok) (hsep : t.Sep r)
    (hl : s.tdNext + t.need ≤ 2048) : ∃ s1, rawGetToken s = .ok () s1 ∧ RawAt s s1 t r := by
  obtain ⟨m, h1, h2⟩ := ha.inAt
  obtain ⟨r', h3, h4, h5⟩ := h1.inv hok hsep
  obtain ⟨s', h6, h7⟩ := rawGet_tok h3 s hs hq hok h4 hl
  rw [h2] at h6
  refine ⟨_, h6, ?_⟩
  rcases h7 with rfl | ⟨k, rfl⟩
  · exact rawAt_after h5 hok hl
  · have h8 : RawAt { start s with line := k } (after t r' { start s with line := k }) t r := rawAt_after h5 hok hl
    have fr : Frame s { start s with line := k } := ⟨rfl, rfl, rfl, rfl, rfl, rfl, rfl, rfl, rfl, rfl, rfl, rfl, rfl, fun _ _ => rfl, fun _ => ⟨rfl, rfl, fun e => e⟩⟩
    exact ⟨fr.trans h8.frame, h8.at_, h8.ty, h8.txt, h8.pos, h8.hash, h8.stack, h8.mac, h8.out⟩

/-- The next token of the text. -/
theorem text_next {Δ : Table} {s : S} {t : PTok} {r : List Byte} (hR : Rep Δ s) (hS : Stk Δ s []) (ha : At s (t.text ++ r)) (hok : t.Ok) (hsep : t.Sep r)
    (hl : s.tdNext + t.need ≤ 2048) : ∃ s1, rawGetToken s = .ok () s1 ∧ RawAt s s1 t r ∧ Stk Δ s1 [] := by
  obtain ⟨s1, h1, h2⟩ := raw_next (stk_nil hS) hR.queue ha hok hsep hl
  exact ⟨s1, h1, h2, hS.frame h2.frame h2.stack h2.mac⟩

theorem kept_eq {s s1 : S} (h : s1.out = s.out) (h' : s1.cond = s.cond) : kept s1 = kept s := by rw [kept, kept, h, h']

/-- The text ends with a string and the end of the line, as an `#include` does. -/
def IncEnd (ts : List PTok) : Prop := ∃ a w, ts = a ++ [.lit 0x22 w, .nl]

/-- The kind of the last token read before and after the text `ts`. -/
def TyEnd (ts : List PTok) (a b : Nat) : Prop := (ts = [] → b = a) ∧ (ts.getLast? = some .nl → ¬ IncEnd ts → b = tokNl)

theorem TyEnd.nil (a : Nat) : TyEnd [] a a := ⟨fun _ => rfl, fun e => by cases e⟩

theorem TyEnd.append {x y : List PTok} {a b c : Nat} (h : TyEnd x a b) (h' : TyEnd y b c) : TyEnd (x ++ y) a c := by
  refine ⟨fun e => ?_, fun e hi => ?_⟩
  · obtain ⟨e1, e2⟩ := List.append_eq_nil_iff.mp e
    exact (h'.1 e2).trans (h.1 e1)
  · by_cases hy : y = []
    · subst hy
      rw [List.append_nil] at e hi
      exact (h'.1 rfl).trans (h.2 e hi)
    · refine h'.2 ?_ fun ⟨u, w, hw⟩ => hi ⟨x ++ u, w, by rw [hw, List.append_assoc]⟩
      rwa [List.getLast?_append_of_ne_nil _ hy] at e

theorem TyEnd.one {t : PTok} {a b : Nat} (h : t = .nl → b = tokNl) : TyEnd [t] a b := ⟨fun e => (by cases e), fun e _ => h (by simpa using e)⟩

/-- The tokens of the text are delivered expanded. -/
theorem emits_text {Δ : Table} {d : Nat} {H : List (List Byte)} {ts os : List PTok} (h : Exp Δ d H ts os) :
    ∀ (s : S) (r : List Byte), H = [] → d ≤ 10 → Rep Δ s → Stk Δ s [] → At s (render ts ++ r) → Spelled ts r → (∀ t ∈ ts, ∀ w, t = .id w → w ∉ special) →
      (∀ t ∈ ts, s.tdNext + t.need ≤ 2048) → Emits Δ s os fun s' => Frame s s' ∧ At s' r ∧ Stk Δ s' [] ∧ TyEnd ts s.tok.ty s'.tok.ty := by
  induction h with
  | nil d H => intro s r _ _ _ hS ha _ _ _; exact ⟨s, Silent.refl s, Frame.refl s, ha, hS, .nil _⟩
  | @copy d H t ts os ht _ ih =>
    intro s r hH hd hR hS ha hsp hspec hlen
    obtain ⟨o1, o2, o3⟩ := hsp
    have ha' : At s (t.text ++ (render ts ++ r)) := by
      rw [← List.append_assoc]; exact ha
    obtain ⟨s1, h1, ⟨h2, h3, h4, h5, _, h6, _, _, h8⟩, h7⟩ := text_next hR hS ha' o1 o2 (hlen t (by simp))
    have hR1 := hR.frame h2
    have hlen' : ∀ t ∈ ts, s1.tdNext + t.need ≤ 2048 := by rw [h2.tdNext]; exact fun t ht => hlen t (by simp [ht])
    have hspec' : ∀ t ∈ ts, ∀ w, t = .id w → w ∉ special := fun t ht => hspec t (by simp [ht])
    by_cases hid' : ∃ w, t = .id w
    · obtain ⟨w, rfl⟩ := hid'
      obtain ⟨h', t', hst⟩ := id_copy h1 hR1 h7 h4 (h5 (by simp) (by decide : tokRawId ≠ tokWs)) (.inr (h6 w rfl)) (hspec _ (by simp) w rfl) (by
        rcases ht w rfl with e | e
        · exact .inl e
        · rw [hH] at e; cases e) (kept_eq h8 h2.cond)
      refine ⟨_, hst, fun out => ?_⟩
      have fr := (frame_tok s1 h' t').trans (frame_out _ out)
      refine (ih _ r hH hd (hR1.frame fr) (h7.frame fr rfl rfl) h3 o3 hspec' hlen').imp ?_
      rintro s' ⟨e2, e3, e4, e5⟩
      exact ⟨(h2.trans fr).trans e2, e3, e4, (TyEnd.one (fun e => by cases e)).append e5⟩
    · have hst := step_other (Δ := Δ) h1 h4 o1 (fun w hw => hid' ⟨w, hw⟩) (fun _ => stk_nil h7) h5 (kept_eq h8 h2.cond)
      refine ⟨_, hst, fun out => ?_⟩
      have fr := frame_out s1 out
      refine (ih _ r hH hd (hR1.frame fr) (h7.frame fr rfl rfl) h3 o3 hspec' hlen').imp ?_
      rintro s' ⟨e2, e3, e4, e5⟩
      exact ⟨(h2.trans fr).trans e2, e3, e4, (TyEnd.one (fun e => by rw [e] at h4; exact h4)).append e5⟩
  | @repl d H w b bs ts os hw hb hE _ _ ih2 =>
    intro s r hH hd hR hS ha hsp hspec hlen
    obtain ⟨o1, o2, o3⟩ := hsp
    have ha' : At s ((PTok.id w).text ++ (render ts ++ r)) := by
      rw [← List.append_assoc]; exact ha
    obtain ⟨s1, h1, ⟨h2, h3, h4, h5, _, h6, _, _, h8⟩, h7⟩ := text_next hR hS ha' o1 o2 (hlen _ (by simp))
    have hR1 := hR.frame h2
    obtain ⟨s2, g1, g2, g3, g4, g5⟩ := id_macro h1 hR1 h7 h4 (h5 (by simp) (by decide : tokRawId ≠ tokWs)) (.inr (h6 w rfl)) hb (by simp [hid])
      (by decide) (kept_eq h8 h2.cond)
    have hR2 := hR1.frame g2
    refine g1.emits (Emits.append (P := fun s3 => Frame s2 s3 ∧ s3.cur = s2.cur ∧ s3.inp = s2.inp ∧ Stk Δ s3 []) ?_ ?_)
    · rintro s3 ⟨k2, k3, k4, k5⟩
      have fr := (h2.trans g2).trans k2
      refine (ih2 s3 r hH hd (hR2.frame k2) k5 (h3.congr (k3.trans g3) (k4.trans g4)) o3
        (fun t ht => hspec t (by simp [ht])) (by rw [fr.tdNext]; exact fun t ht => hlen t (by simp [ht]))).imp ?_
      rintro s' ⟨e2, e3, e4, e5⟩
      exact ⟨fr.trans e2, e3, e4, (TyEnd.one (fun e => by cases e)).append e5⟩
    · rcases g5 with ⟨rfl, g5⟩ | ⟨j, gn, gh, g5⟩
      · cases hE
        exact ⟨s2, Silent.refl s2, Frame.refl s2, rfl, rfl, g5⟩
      · have := emits_stack hE s2 [] j [] hR2 (by rw [List.append_nil]; exact g5)
          (by rw [hid_cons Δ j _ b, gh, hH]; rfl) (by simp only [List.length_nil]; omega)
        rw [← List.append_nil bs]
        refine Emits.append ?_ this
        rintro s3 ⟨e2, e3, e4, e5⟩
        obtain ⟨s4, p1, p2, p3, p4, p6⟩ := stk_pop e5 gn
        exact ⟨s4, p1, e2.trans p2, p3.trans e3, p4.trans e4, p6⟩

end Props.ScppMacro
