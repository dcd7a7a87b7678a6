import Verif.Props.SccStmCall
/-!
# Compiled functions (C51): reading the tokens of a function header

Identifiers that occur for the first time get their numbers here.
-/
namespace SccHead
open Prog Text Scc SccCode SccGen SccStm Props.SccLex Props.SccIds

/-! ## Identifiers -/

/-- The number of characters kept for identifiers that are no keywords. -/
def used (names : List (List Byte)) : Nat := ((names.drop 40).map fun w => w.length + 1).sum

/-- The number of an identifier. -/
abbrev num (names : List (List Byte)) (w : List Byte) : Nat := names.idxOf w

theorem intern_mem (names : List (List Byte)) (w : List Byte) : w ∈ intern names w := by
  unfold intern; split <;> simp_all

theorem intern_pre (names : List (List Byte)) (w : List Byte) : names <+: intern names w := by
  unfold intern; split <;> simp

theorem num_pre {names names' : List (List Byte)} (h : names <+: names') {w : List Byte} (hw : w ∈ names) : num names' w = num names w := by
  obtain ⟨l, rfl⟩ := h
  exact List.idxOf_append_of_mem hw

theorem used_pre {names names' : List (List Byte)} (h : names <+: names') : used names ≤ used names' := by
  obtain ⟨l, rfl⟩ := h
  unfold used
  rw [List.drop_append, List.map_append, List.sum_append]
  omega

theorem used_intern {names : List (List Byte)} (h40 : 40 ≤ names.length) (w : List Byte) : used (intern names w) = if w ∈ names then used names else used names + w.length + 1 := by
  unfold intern used
  split
  · rfl
  · rw [List.drop_append_of_le_length h40, List.map_append, List.sum_append]
    simp
    omega

/-- The buffer for identifiers is large enough. -/
def RoomI (names : List (List Byte)) : Prop := names.length ≤ idMax ∧ ∀ w ∈ names, used names + w.length + 7 ≤ idBufferMax

theorem RoomI.pre {names names' : List (List Byte)} (h : RoomI names') (hp : names <+: names') : RoomI names := by
  refine ⟨Nat.le_trans hp.length_le h.1, fun w hw => ?_⟩
  have := h.2 w (hp.subset hw)
  have := used_pre hp
  omega

/-! ## The text -/

/-- The text not yet read is `r`, the identifiers known are `names`. -/
structure Lex (names : List (List Byte)) (r : List Byte) (s : S) : Prop where
  text : s.cur :: s.inp = r
  ids : Ids s names
  pos : s.idPos = used names
  ge : 40 ≤ names.length

/-- Only the token and the identifiers have changed. -/
def TokI (s s' : S) : Prop :=
  s' = { s with cur := s'.cur, inp := s'.inp, tok := s'.tok, num := s'.num, prec := s'.prec, idHash := s'.idHash, idText := s'.idText, idCount := s'.idCount, idPos := s'.idPos }

theorem Lex.at' {names : List (List Byte)} {r : List Byte} {s : S} (h : Lex names r s) : s = at' s r := by
  rw [← h.text]; rfl

theorem read_word {s : S} {names : List (List Byte)} {ws w r : List Byte} (h : Lex names (ws ++ w ++ r) s) (hws : Gap ws) (hw : Word w) (hr : After r) (hrn : r ≠ [])
    (hroom : RoomI (intern names w)) :
    ∃ s', getToken s = .ok () s' ∧ TokI s s' ∧ Lex (intern names w) r s' ∧ s'.tok = num (intern names w) w + tokKeyword ∧ s'.prec = precStop := by
  have hpos := h.pos
  have hb : s.idPos + w.length + 1 ≤ idBufferMax := by
    have h1 := hroom.2 w (intern_mem names w)
    have h2 := used_pre (intern_pre names w)
    omega
  have hui := used_intern h.ge w
  have hgei : 40 ≤ (intern names w).length := Nat.le_trans h.ge (intern_pre names w).length_le
  obtain ⟨c, l, rfl, hc, hl⟩ := hw
  obtain ⟨f1, f2, f3, f4, f5⟩ := start_facts c hc
  obtain ⟨t1, t2⟩ := takeWhile_word l r hl (fun c hc => (hr c hc).1)
  have hne : l ++ r ≠ [] := by simp [hrn]
  have hrun : ∀ res, getIdent c { Props.SccLex.at' s (l ++ r) with prec := precStop } = res → getToken s = res := by
    intro res hres
    rw [h.at', List.append_assoc, List.cons_append, getToken_gap s c (l ++ r) hws ⟨f1, f2, f3⟩]
    refine run_getS (run_bind (next_at s c (l ++ r)) (run_modS (run_neg f4 (run_pos f5 hres))))
  have hid : ∀ res, (match probe s.idHash s.idText (c :: l) idHashMax (hashOf (c :: l)) with
      | none => fail .fuel
      | some (_, some i) => modS fun s => { s with tok := i + tokKeyword }
      | some (h, none) => do
        failIf (s.idCount == idMax)
        modS fun s => { s with
          tok := s.idCount + tokKeyword, idHash := s.idHash.set h (some s.idCount), idText := s.idText.set s.idCount (c :: l),
          idPos := s.idPos + (c :: l).length + 1, idCount := s.idCount + 1 } : A Unit) { Props.SccLex.at' s r with prec := precStop } = res →
      getIdent c { Props.SccLex.at' s (l ++ r) with prec := precStop } = res := by
    intro res hres
    refine run_getS ?_
    have e : ({ Props.SccLex.at' s (l ++ r) with prec := precStop } : S).cur :: ({ Props.SccLex.at' s (l ++ r) with prec := precStop } : S).inp = l ++ r := rest_eq s _ hne
    rw [e, t1, t2]
    refine run_bind (a := ()) (s1 := { Props.SccLex.at' s r with prec := precStop }) rfl ?_
    exact run_ub (decide_eq_true hb) hres
  rcases probe_spec h.ids (c :: l) with ⟨i, a, hi, hp⟩ | ⟨j, hj, hm, hf, hbf, hp⟩
  · have hmem : c :: l ∈ names := List.mem_of_getElem? hi
    have e : intern names (c :: l) = names := if_pos hmem
    have hnum : num names (c :: l) = i := by
      obtain ⟨h1, h2⟩ := List.getElem?_eq_some_iff.1 hi
      rw [← h2]
      exact h.ids.nodup.idxOf_getElem i h1
    rw [e, hnum]
    refine ⟨afterId s i r, hrun _ (hid _ ?_), rfl, ⟨rest_eq s r hrn, h.ids, h.pos, h.ge⟩, rfl, rfl⟩
    rw [hp]; rfl
  · have e : intern names (c :: l) = names ++ [c :: l] := if_neg hm
    have hlt : names.length < idMax := by
      have := hroom.1
      rw [e, List.length_append] at this
      exact this
    have hnum : num (names ++ [c :: l]) (c :: l) = names.length := by
      show List.idxOf (c :: l) (names ++ [c :: l]) = _
      rw [List.idxOf_append_of_notMem hm]
      simp
    rw [if_neg hm] at hui
    rw [e] at hgei hui
    rw [e, hnum]
    refine ⟨{ afterId s s.idCount r with
        idHash := s.idHash.set (Probe.pr 1024 (hashOf (c :: l)) j) (some s.idCount), idText := s.idText.set s.idCount (c :: l),
        idPos := s.idPos + (c :: l).length + 1, idCount := s.idCount + 1 }, hrun _ (hid _ ?_), rfl, ⟨rest_eq s r hrn, h.ids.add (c :: l) hm hlt hj hf hbf, ?_, hgei⟩, ?_, rfl⟩
    · rw [hp]
      refine run_bind (a := ()) (s1 := { Props.SccLex.at' s r with prec := precStop }) ?_ rfl
      show failIf (s.idCount == idMax) _ = _
      rw [beq_eq_false_iff_ne.2 (by have := h.ids.cnt; omega)]
      rfl
    · show s.idPos + (c :: l).length + 1 = _
      rw [hui, h.pos]
    · show s.idCount + tokKeyword = _
      rw [h.ids.cnt]

theorem read_sym {s : S} {names : List (List Byte)} {ws w r : List Byte} {t p : Nat} (h : Lex names (ws ++ w ++ r) s) (hs : Sym (.sym t p) w) (hws : Gap ws) (ha : Munch w r) (hrn : r ≠ []) :
    ∃ s', getToken s = .ok () s' ∧ TokI s s' ∧ Lex names r s' ∧ s'.tok = t ∧ s'.prec = p := by
  have e := hs.scan hws ha hrn s
  rw [← h.at'] at e
  exact ⟨_, e, rfl, ⟨rest_eq s r hrn, h.ids, h.pos, h.ge⟩, rfl, rfl⟩

/-! ## The end of the text -/

theorem skip_end {ws : List Byte} (hw : Gap ws) : skip .top ws = .stop [] := by
  induction hw with
  | nil => rfl
  | blank d g h1 h2 _ ih =>
    cases g with
    | nil => simp only [skip]; rw [if_pos]; rw [BitVec.toInt_eq_toNat_cond]; split <;> omega
    | cons b g => rw [skip_blank1 d _ h1 h2 (by simp), ih]
  | line body g hb _ ih =>
    simp only [skip]
    rw [if_neg (by decide), if_neg (by decide), if_pos trivial, if_pos trivial, skip_line _ _ hb, ih]
  | comment body g hb hg ih =>
    simp only [skip]
    rw [if_neg (by decide), if_neg (by decide), if_pos trivial, if_neg (by decide), if_pos trivial, skip_com _ _ _ (by simp) hb, ih]
  | directive body g hb _ ih =>
    have e : skip .top (0x23 :: (body ++ 0x0A :: g)) = skip .line (body ++ 0x0A :: g) := by
      cases body with
      | nil => simp only [List.nil_append, skip]; rw [if_neg (by decide), if_neg (by decide), if_neg (by decide), if_pos trivial]
      | cons b body => simp only [List.cons_append, skip]; rw [if_neg (by decide), if_neg (by decide), if_neg (by decide), if_pos trivial]
    rw [e, skip_line _ _ hb, ih]

/-- At the end of the text the token is zero. -/
theorem end_at {ws : List Byte} (hw : Gap ws) (s : S) : getToken (at' s ws) = .ok () (showT (.sym 0 precStop) (at' s [])) := by
  have hlow : (ws.headD 0).toInt ≤ 0x2F := by
    cases hw with
    | nil => decide
    | blank d g h1 h2 _ => show d.toInt ≤ 0x2F; rw [BitVec.toInt_eq_toNat_cond]; split <;> omega
    | line => show (0x2F : Byte).toInt ≤ 0x2F; decide
    | comment => show (0x2F : Byte).toInt ≤ 0x2F; decide
    | directive => show (0x23 : Byte).toInt ≤ 0x2F; decide
  refine run_getS (run_pos hlow (run_bind (a := false) (s1 := at' s []) ?_ (run_neg Bool.false_ne_true rfl)))
  refine run_getS ?_
  have e : skip .top ((at' s ws).cur :: (at' s ws).inp) = .stop [] := by
    cases ws with
    | nil => rfl
    | cons c ws => exact skip_end hw
  rw [e]; rfl

/-! ## The text of a header -/

/-- The text of the parameters `ps` behind the first `int`, and then `r`. -/
inductive ParText (r : List Byte) : List (List Byte) → List Byte → Prop
  | last {g2 g3 p : List Byte} (h2 : Gap g2) (h3 : Gap g3) (hp : Word p) (hb : After (g3 ++ asc ")" ++ r)) : ParText r [p] (g2 ++ p ++ (g3 ++ asc ")" ++ r))
  | more {g1 g2 g3 p t : List Byte} {ps : List (List Byte)} (h1 : Gap g1) (h2 : Gap g2) (h3 : Gap g3) (hp : Word p) (ha : After t)
      (hb : After (g3 ++ asc "," ++ (g1 ++ asc "int" ++ t))) (h : ParText r ps t) : ParText r (p :: ps) (g2 ++ p ++ (g3 ++ asc "," ++ (g1 ++ asc "int" ++ t)))

/-- The text of the header of the function `f` with the parameters `ps` behind the type, and then `r`. -/
inductive HeadText (f r : List Byte) : List (List Byte) → List Byte → Prop
  | zero {g1 g2 g3 g4 : List Byte} (h1 : Gap g1) (h2 : Gap g2) (h3 : Gap g3) (h4 : Gap g4) (hf : Word f) (ha : After (g2 ++ asc "(" ++ (g3 ++ asc ")" ++ (g4 ++ asc "{" ++ r)))) :
      HeadText f r [] (g1 ++ f ++ (g2 ++ asc "(" ++ (g3 ++ asc ")" ++ (g4 ++ asc "{" ++ r))))
  | some {g1 g2 g3 g4 t : List Byte} {ps : List (List Byte)} (h1 : Gap g1) (h2 : Gap g2) (h3 : Gap g3) (h4 : Gap g4) (hf : Word f) (ha : After (g2 ++ asc "(" ++ (g3 ++ asc "int" ++ t))) (hb : After t)
      (h : ParText (g4 ++ asc "{" ++ r) ps t) : HeadText f r ps (g1 ++ f ++ (g2 ++ asc "(" ++ (g3 ++ asc "int" ++ t)))

/-! ## Declarations -/

/-- What the header of a function does not change. -/
def hz (s : S) : S :=
  { s with
    cur := 0, inp := [], tok := 0, num := 0, prec := 0, idHash := .const none 10, idText := .const [] 10, idCount := 0, idPos := 0, args := .const ⟨0, 0, 0⟩ 3
    argsCount := 0, type := 0, extra := 0 }

theorem TokI.hz {s s' : S} (h : TokI s s') : hz s' = hz s := by rw [h]; rfl
theorem TokI.type {s s' : S} (h : TokI s s') : s'.type = s.type := by have := congrArg S.type h; exact this
theorem TokI.extra {s s' : S} (h : TokI s s') : s'.extra = s.extra := by have := congrArg S.extra h; exact this
theorem TokI.args {s s' : S} (h : TokI s s') : s'.args = s.args := by have := congrArg S.args h; exact this
theorem TokI.argsCount {s s' : S} (h : TokI s s') : s'.argsCount = s.argsCount := by have := congrArg S.argsCount h; exact this

/-- No name is the name of a type. -/
def NoTd (s : S) : Prop := ∀ x < 2 ^ 10, ∀ v, s.lookup.get x = some v → (s.vars.get v).type &&& vtTypedef = 0

theorem NoTd.of {s s' : S} (h : NoTd s) (e : SccHead.hz s' = SccHead.hz s) : NoTd s' := by
  have h1 : s'.lookup = s.lookup := by have := congrArg S.lookup e; exact this
  have h2 : s'.vars = s.vars := by have := congrArg S.vars e; exact this
  intro x hx v
  rw [h1, h2]
  exact h x hx v

theorem NoTd.none {s : S} (h : NoTd s) {x : Nat} (hx : x < idMax) (ht : s.tok = x + tokKeyword) : lookupTypedef s = .none := by
  have h10 : x < 2 ^ 10 := Nat.lt_of_lt_of_le hx (by decide)
  unfold lookupTypedef
  split
  · rfl
  · rw [ht, Nat.add_sub_cancel]
    cases hl : s.lookup.get x with
    | none => rfl
    | some v => simp only [h x h10 v hl, bne_self_eq_false, Bool.false_eq_true, if_false]

theorem simple_id {t : Nat} (h : tokId ≤ t) (ty fl : Nat) : simpleSpec t ty fl = .none := by
  have h : 187 ≤ t := h
  unfold simpleSpec
  have hne : ∀ k, k < 187 → t ≠ k := fun k hk e => by omega
  rw [if_neg (hne _ (by decide)), if_neg (hne _ (by decide)), if_neg (not_or.2 ⟨hne _ (by decide), hne _ (by decide)⟩), if_neg (hne _ (by decide)),
    if_neg (not_or.2 ⟨hne _ (by decide), not_or.2 ⟨hne _ (by decide), not_or.2 ⟨hne _ (by decide), not_or.2 ⟨hne _ (by decide), hne _ (by decide)⟩⟩⟩⟩), if_neg (hne _ (by decide)),
    if_neg (hne _ (by decide)), if_neg (hne _ (by decide)), if_neg (hne _ (by decide))]

/-- `int w` or `void w`: the type, and the next token is the name. -/
theorem specs_ok {s : S} {names : List (List Byte)} {ws w r : List Byte} {ty : Nat} (htok : s.tok = tokInt ∧ ty = vtInt ∨ s.tok = tokVoid ∧ ty = vtVoid)
    (hl : Lex names (ws ++ w ++ r) s) (hws : Gap ws) (hw : Word w) (hr : After r) (hrn : r ≠ []) (hroom : RoomI (intern names w)) (hk : 37 ≤ num (intern names w) w) (hnt : NoTd s) :
    ∃ s', Go .declSpecs s s' ∧ Lex (intern names w) r s' ∧ s'.tok = num (intern names w) w + tokKeyword ∧ s'.type = ty ∧ hz s' = hz s ∧ s'.args = s.args ∧
      s'.argsCount = s.argsCount := by
  let s1 : S := { s with type := vtInt }
  let s2 : S := { s1 with type := ty }
  obtain ⟨s3, e3, k3, l3, t3, _⟩ := read_word (s := s2) ⟨hl.text, hl.ids, hl.pos, hl.ge⟩ hws hw hr hrn hroom
  let s4 : S := { s3 with type := s3.type ||| 0 }
  have hx : num (intern names w) w < idMax := by
    have h1 : num (intern names w) w < (intern names w).length := List.idxOf_lt_length_of_mem (intern_mem names w)
    have := hroom.1
    omega
  have hz3 : SccHead.hz s3 = SccHead.hz s := k3.hz.trans rfl
  have hid : tokId ≤ s3.tok := by rw [t3]; show 187 ≤ _ + 150; omega
  have h3 : Go (.specs 0) s3 s4 := by
    refine Go.of 0 fun n _ => run_bind (a := ()) (s1 := s4) (run_getS ?_) rfl
    rw [simple_id hid]
    have hne : ∀ k, k < 187 → s3.tok ≠ k := fun k hk e => by have : 187 ≤ s3.tok := hid; omega
    refine run_neg (hne _ (by decide)) (run_neg (not_or.2 ⟨hne _ (by decide), hne _ (by decide)⟩) ?_)
    rw [(hnt.of hz3).none hx t3]
    rfl
  obtain ⟨N3, g3⟩ := h3
  have h1 : Go (.specs 0) s1 s4 := by
    refine Go.of N3 fun n hn => run_bind (a := ()) (s1 := s4) (run_getS ?_) rfl
    have e : simpleSpec s1.tok s1.type 0 = Option.some (ty, 0) := by
      show simpleSpec s.tok vtInt 0 = _
      obtain ⟨h, rfl⟩ | ⟨h, rfl⟩ := htok <;> rw [h] <;> rfl
    rw [e]
    exact run_modS (run_bind e3 (g3 n hn))
  obtain ⟨N1, g1⟩ := h1
  exact ⟨s4, Go.of N1 fun n hn => run_bind (a := ()) (s1 := s4) (run_modS (g1 n hn)) rfl, ⟨l3.text, l3.ids, l3.pos, l3.ge⟩, t3,
    by show s3.type ||| 0 = ty; rw [k3.type]; exact Nat.or_zero _, hz3, k3.args, k3.argsCount⟩

/-- No operator begins with one of these symbols. -/
theorem munch_sym {c : Byte} (h : ∀ v ∈ ops, v.head? ≠ Option.some c) (r : List Byte) : Munch [c] r := by
  intro v hv hp
  cases v with
  | nil => exact Nat.zero_le _
  | cons b v =>
    have : b = c := by obtain ⟨l, hl⟩ := hp; simp only [List.cons_append, List.cons.injEq] at hl; exact hl.1
    exact absurd (congrArg Option.some this) (h _ hv)

theorem munch_opn (r : List Byte) : Munch (asc "(") r := munch_sym (c := 0x28) (by decide) r
theorem munch_cls (r : List Byte) : Munch (asc ")") r := munch_sym (c := 0x29) (by decide) r
theorem munch_comma (r : List Byte) : Munch (asc ",") r := munch_sym (c := 0x2C) (by decide) r
theorem munch_lbrace (r : List Byte) : Munch (asc "{") r := munch_sym (c := 0x7B) (by decide) r

/-- A task with a value. -/
def GoV (t : Task) (x : Int) (s s' : S) : Prop := ∃ N, ∀ n, N ≤ n → run n t s = .ok x s'

theorem GoV.of {t : Task} {x : Int} {s s' : S} (N : Nat) (h : ∀ n, N ≤ n → step (run n) t s = .ok x s') : GoV t x s s' := by
  refine ⟨N + 1, fun n hn => ?_⟩
  obtain ⟨m, rfl⟩ : ∃ m, n = m + 1 := ⟨n - 1, by omega⟩
  exact h m (by omega)

theorem GoV.go {t : Task} {x : Int} {s s' : S} (h : GoV t x s s') : Go t s s' := by
  obtain ⟨N, h⟩ := h
  exact ⟨N, fun n hn => run_bind (h n hn) rfl⟩

/-- The declarator of a parameter. -/
theorem decl_arg {s : S} {names : List (List Byte)} {ws w r : List Byte} {t p k x : Nat} (hl : Lex names (ws ++ w ++ r) s) (hs : Sym (.sym t p) w) (hws : Gap ws) (ha : Munch w r)
    (hrn : r ≠ []) (htok : s.tok = x + tokKeyword) (hx : 37 ≤ x) (ht : t ≠ 0x28 ∧ t ≠ 0x5B) :
    ∃ s', GoV (.declarator (.arg k)) x s s' ∧ Lex names r s' ∧ s'.tok = t ∧ hz s' = hz s ∧ s'.args = s.args.set k { s.args.get k with id := x } ∧ s'.argsCount = s.argsCount ∧
      s'.type = s.type ∧ s'.extra = s.extra := by
  have hid : tokId ≤ s.tok := by rw [htok]; show 187 ≤ _ + 150; omega
  have hne : ∀ k, k < 187 → s.tok ≠ k := fun k hk e => by have : 187 ≤ s.tok := hid; omega
  have hn28 := hne 0x28 (by decide)
  let s1 : S := { s with args := s.args.set k { s.args.get k with id := x } }
  obtain ⟨s2, e2, k2, l2, t2, _⟩ := read_sym (s := s1) ⟨hl.text, hl.ids, hl.pos, hl.ge⟩ hs hws ha hrn
  have hb : Go .bounds s2 s2 := Go.of 0 fun n _ => run_bind (a := ()) (s1 := s2) (run_getS (run_pos (t2 ▸ ht.2) rfl)) rfl
  obtain ⟨N, hb⟩ := hb
  have hxe : ((s.tok - tokKeyword : Nat) : Int) = x := by rw [htok, Nat.add_sub_cancel]
  refine ⟨s2, GoV.of N fun n hn => ?_, l2, t2, k2.hz.trans rfl, k2.args, k2.argsCount, k2.type, k2.extra⟩
  refine run_getS (run_neg (hne _ (by decide)) (run_neg (not_or.2 ⟨hne _ (by decide), hne _ (by decide)⟩) ?_))
  refine run_getS (run_neg hn28 ?_)
  refine run_bind (a := (x : Int)) (s1 := s2) (run_getS (run_pos hid ?_)) ?_
  · rw [hxe]
    exact run_modS (run_bind e2 rfl)
  refine run_neg hn28 (run_getS (run_neg (t2 ▸ ht.1) (run_bind (hb n hn) rfl)))

/-- The keywords have their numbers. -/
def Kw (names : List (List Byte)) : Prop := builtins.map asc <+: names

theorem Kw.intern {names : List (List Byte)} (h : Kw names) (w : List Byte) : Kw (intern names w) := h.trans (intern_pre _ _)

theorem Kw.num {names : List (List Byte)} (h : Kw names) {w : List Byte} (hw : w ∈ builtins.map asc) : num names w = num (builtins.map asc) w := num_pre h hw

theorem Kw.mem {names : List (List Byte)} (h : Kw names) {w : List Byte} (hw : w ∈ builtins.map asc) : Props.SccIds.intern names w = names := if_pos (h.subset hw)

/-- A keyword of the language. -/
def IsKw (w : List Byte) : Prop := w ∈ (builtins.map asc).take 37

theorem Kw.user {names : List (List Byte)} (h : Kw names) {w : List Byte} (hw : ¬ IsKw w) : 37 ≤ SccHead.num names w := by
  obtain ⟨l, rfl⟩ := h
  unfold IsKw at hw
  rw [show builtins.map asc ++ l = (builtins.map asc).take 37 ++ ((builtins.map asc).drop 37 ++ l) by rw [← List.append_assoc, List.take_append_drop]]
  show 37 ≤ List.idxOf w _
  rw [List.idxOf_append_of_notMem hw]
  exact Nat.le_add_right _ _

theorem word_int : Word (asc "int") := ⟨_, _, rfl, by decide, by decide⟩

theorem foldl_pre : ∀ (ps : List (List Byte)) (names : List (List Byte)), names <+: ps.foldl intern names
  | [], _ => List.prefix_refl _
  | p :: ps, names => (intern_pre names p).trans (foldl_pre ps _)

theorem Word.ne {w : List Byte} (h : Word w) : w ≠ [] := by
  obtain ⟨c, l, rfl, _⟩ := h; simp

theorem ParText.ne {r : List Byte} {ps : List (List Byte)} {text : List Byte} (h : ParText r ps text) : text ≠ [] := by
  cases h with
  | last _ _ hp _ => simp [Word.ne hp]
  | more _ _ _ hp _ _ _ => simp [Word.ne hp]

/-- The keyword `int`. -/
theorem read_int {s : S} {names : List (List Byte)} {g r : List Byte} (hl : Lex names (g ++ asc "int" ++ r) s) (hg : Gap g) (ha : After r) (hr : r ≠ []) (hroom : RoomI names) (hkw : Kw names) :
    ∃ s', getToken s = .ok () s' ∧ TokI s s' ∧ Lex names r s' ∧ s'.tok = tokInt := by
  have hint : asc "int" ∈ builtins.map asc := by decide
  obtain ⟨s1, e1, k1, l1, t1, _⟩ := read_word hl hg word_int ha hr (by rw [hkw.mem hint]; exact hroom)
  rw [hkw.mem hint] at l1 t1
  rw [(hkw.num hint).trans (show _ = 16 by decide)] at t1
  exact ⟨s1, e1, k1, l1, t1⟩

/-- A parameter. -/
theorem param_ok {s1 : S} {names : List (List Byte)} {g2 g3 p w r : List Byte} {c q : Nat} (hs : Sym (.sym c q) w) (hc : c ≠ 0x28 ∧ c ≠ 0x5B) (hm : Munch w r) (hrn : r ≠ [])
    (h2 : Gap g2) (h3 : Gap g3) (hp : Word p) (hb : After (g3 ++ w ++ r)) (htok : s1.tok = tokInt)
    (hl : Lex names (g2 ++ p ++ (g3 ++ w ++ r)) s1) (hnt : NoTd s1) (hroom : RoomI (intern names p)) (hkw : Kw names) (hpk : ¬ IsKw p) (hargs : s1.argsCount < argsMax) :
    ∃ s4, Lex (intern names p) r s4 ∧ s4.tok = c ∧ hz s4 = hz s1 ∧ s4.argsCount = s1.argsCount + 1 ∧
      ((s4.args.get s1.argsCount).id = num (intern names p) p ∧ (s4.args.get s1.argsCount).type = vtInt) ∧ (∀ j < s1.argsCount, s4.args.get j = s1.args.get j) ∧
      ∀ s', (∃ N, ∀ n, N ≤ n → (if c = 0x2C then getToken >>= fun _ => go' (run n) .params else pure () : A Unit) s4 = .ok () s') → Go .params s1 s' := by
  have hne2 : g3 ++ w ++ r ≠ [] := by simp [hrn]
  obtain ⟨s2, ⟨N2, g2'⟩, l2, t2, y2, z2, a2, c2⟩ := specs_ok (.inl ⟨htok, rfl⟩) hl h2 hp hb hne2 hroom ((hkw.intern p).user hpk) hnt
  let s2' : S := { s2 with argsCount := s1.argsCount + 1 }
  obtain ⟨s3, ⟨N3, g3'⟩, l3, t3, z3, a3, c3, y3, x3⟩ := decl_arg (s := s2') (k := s1.argsCount) ⟨l2.text, l2.ids, l2.pos, l2.ge⟩ hs h3 hm hrn t2 ((hkw.intern p).user hpk) hc
  have hk8 : s1.argsCount < 2 ^ 3 := hargs
  let s4 : S := { s3 with args := s3.args.set s1.argsCount { s3.args.get s1.argsCount with type := s3.type, extra := s3.extra } }
  have ea : s3.args = s1.args.set s1.argsCount { s1.args.get s1.argsCount with id := num (intern names p) p } := by
    rw [a3, show s2'.args = s1.args from a2]
  refine ⟨s4, ⟨l3.text, l3.ids, l3.pos, l3.ge⟩, t3, ?_, c3, ?_, ?_, fun s' hs' => ?_⟩
  · exact (show hz s4 = hz s3 from rfl).trans (z3.trans ((show hz s2' = hz s2 from rfl).trans z2))
  · show ((s3.args.set _ _).get _).id = _ ∧ ((s3.args.set _ _).get _).type = _
    rw [Tab.get_set_self]
    refine ⟨?_, y3.trans y2⟩
    show (s3.args.get _).id = _
    rw [ea, Tab.get_set_self]
  · intro j hj
    show (s3.args.set _ _).get j = _
    rw [Tab.get_set_ne _ _ hk8 (by omega) (by omega), ea, Tab.get_set_ne _ _ hk8 (by omega) (by omega)]
  · obtain ⟨N, hs'⟩ := hs'
    have hi2 : 187 ≤ s2.tok := by rw [t2]; have := (hkw.intern p).user hpk; show 187 ≤ _ + 150; omega
    refine Go.of (N + N2 + N3) fun n hn => run_bind (a := ()) (s1 := s') (run_getS ?_) rfl
    refine run_neg (by rw [htok]; decide) (run_neg (by rw [htok]; decide) (run_bind (g2' n (by omega)) (run_getS ?_)))
    refine run_neg (fun e => by rw [e] at hi2; omega) (run_failIf ?_ ?_)
    · rw [c2]; exact beq_eq_false_iff_ne.2 (by omega)
    · rw [c2]
      refine run_modS (run_bind (g3' n (by omega) |> fun h => run_bind h rfl) (run_modS (run_getS ?_)))
      have h := hs' n (by omega)
      have t4 : s4.tok = c := t3
      by_cases hcc : c = 0x2C
      · rw [if_pos hcc] at h
        exact run_pos (t4.trans hcc) h
      · rw [if_neg hcc] at h
        exact run_neg (fun e => hcc (t4.symm.trans e)) h

/-- The parameters. -/
theorem params_ok {r : List Byte} (hrn : r ≠ []) {ps : List (List Byte)} {text : List Byte} (h : ParText r ps text) : ∀ {names : List (List Byte)} {s : S}, Lex names text s → NoTd s →
    RoomI (ps.foldl intern names) → Kw names → (∀ p ∈ ps, ¬ IsKw p) → s.argsCount + ps.length ≤ argsMax → s.tok = tokInt →
    ∃ s', Go .params s s' ∧ s'.tok = 0x29 ∧ Lex (ps.foldl intern names) r s' ∧ hz s' = hz s ∧ s'.argsCount = s.argsCount + ps.length ∧
      (∀ i (h : i < ps.length), (s'.args.get (s.argsCount + i)).id = num (ps.foldl intern names) ps[i] ∧ (s'.args.get (s.argsCount + i)).type = vtInt) ∧
      ∀ j < s.argsCount, s'.args.get j = s.args.get j := by
  induction h with
  | @last g2 g3 p h2 h3 hp hb =>
    intro names s hl hnt hroom hkw hpk hargs htok
    have hargs' : s.argsCount < argsMax := by simp at hargs; omega
    obtain ⟨s4, l4, t4, z4, c4, a4, b4, hgo⟩ := param_ok .cls (by decide) (munch_cls r) hrn h2 h3 hp hb htok hl hnt hroom hkw (hpk p (by simp)) hargs'
    refine ⟨s4, hgo s4 ⟨0, fun n _ => rfl⟩, t4, l4, z4, c4, ?_, b4⟩
    intro i hi
    obtain rfl : i = 0 := by simp at hi; exact hi
    exact a4
  | @more g1 g2 g3 p t ps h1 h2 h3 hp ha hb h ih =>
    intro names s hl hnt hroom hkw hpk hargs htok
    have hargs' : s.argsCount + 1 + ps.length ≤ argsMax := by simp at hargs; omega
    have h8 : s.argsCount < argsMax := by omega
    obtain ⟨s4, l4, t4, z4, c4, a4, b4, hgo⟩ := param_ok .comma (by decide) (munch_comma _) (by simp [h.ne]) h2 h3 hp hb htok hl hnt (hroom.pre (foldl_pre ps _)) hkw (hpk p (by simp)) h8
    obtain ⟨s5, e5, k5, l5, t5⟩ := read_int l4 h1 ha h.ne (hroom.pre (foldl_pre ps _)) (hkw.intern p)
    obtain ⟨s6, ⟨N, g6⟩, t6, l6, z6, c6, a6, b6⟩ := ih l5 (hnt.of (k5.hz.trans z4)) hroom (hkw.intern p) (fun p hp => hpk p (by simp [hp])) (by rw [k5.argsCount, c4]; exact hargs') t5
    rw [k5.argsCount, c4] at c6 a6 b6
    refine ⟨s6, hgo s6 ⟨N, fun n hn => ?_⟩, t6, l6, z6.trans (k5.hz.trans z4), ?_, ?_, ?_⟩
    · rw [if_pos rfl]
      exact run_bind e5 (g6 n hn)
    · rw [c6]; simp; omega
    · intro i hi
      cases i with
      | zero =>
        rw [Nat.add_zero, b6 _ (by omega), k5.args]
        refine ⟨a4.1.trans ?_, a4.2⟩
        show ((num (intern names p) p : Nat) : Int) = num (ps.foldl intern (intern names p)) p
        rw [num_pre (foldl_pre ps _) (intern_mem names p)]
      | succ i =>
        have := a6 i (by simpa using hi)
        rw [show s.argsCount + (i + 1) = s.argsCount + 1 + i by omega]
        exact this
    · intro j hj
      rw [b6 j (by omega), k5.args, b4 j hj]

/-! ## The header of a function -/

/-- What is known after the parameters. -/
structure Head (names : List (List Byte)) (ps : List (List Byte)) (r : List Byte) (s s' : S) : Prop where
  tok : s'.tok = 0x29
  lex : Lex names r s'
  hz : hz s' = hz s
  cnt : s'.argsCount = ps.length
  args : ∀ i (h : i < ps.length), (s'.args.get i).id = num names ps[i] ∧ (s'.args.get i).type = vtInt

/-- The declarator of a function, given what happens between the parentheses. -/
theorem decl_fun {s : S} {names names' : List (List Byte)} {g2 g4 t r : List Byte} {ps : List (List Byte)} {x : Nat} (hl : Lex names (g2 ++ asc "(" ++ t) s) (h2 : Gap g2) (h4 : Gap g4) (htn : t ≠ []) (hrn : r ≠ [])
    (htok : s.tok = x + tokKeyword) (hx : 37 ≤ x)
    (hpar : ∀ s1 : S, Lex names t s1 → SccHead.hz s1 = SccHead.hz s → ∃ s2, getToken s1 = .ok () s2 ∧ ∃ s3, Go .params { s2 with argsCount := 0 } s3 ∧ Head names' ps (g4 ++ asc "{" ++ r) s1 s3) :
    ∃ s', GoV (.declarator .ret) x s s' ∧ Lex names' r s' ∧ s'.tok = 0x7B ∧ s'.prec = precStop ∧ SccHead.hz s' = SccHead.hz s ∧ s'.type = s.type ||| vtFun ∧ s'.argsCount = ps.length ∧
      (∀ i (h : i < ps.length), (s'.args.get i).id = num names' ps[i] ∧ (s'.args.get i).type = vtInt) := by
  have hid : tokId ≤ s.tok := by rw [htok]; show 187 ≤ _ + 150; omega
  have hne : ∀ k, k < 187 → s.tok ≠ k := fun k hk e => by have : 187 ≤ s.tok := hid; omega
  have hn28 := hne 0x28 (by decide)
  have hxe : ((s.tok - tokKeyword : Nat) : Int) = x := by rw [htok, Nat.add_sub_cancel]
  obtain ⟨s1, e1, k1, l1, t1, _⟩ := read_sym hl .opn h2 (munch_opn t) htn
  obtain ⟨s2, e2, s3, ⟨N, g3⟩, H⟩ := hpar s1 l1 k1.hz
  obtain ⟨s4, e4, k4, l4, t4, p4⟩ := read_sym H.lex .lbrace h4 (munch_lbrace r) hrn
  let s5 : S := { s4 with type := s1.type ||| vtFun, extra := s1.extra }
  refine ⟨s5, GoV.of N fun n hn => ?_, ⟨l4.text, l4.ids, l4.pos, l4.ge⟩, t4, p4, ?_, ?_, ?_, ?_⟩
  · refine run_getS (run_neg (hne _ (by decide)) (run_neg (not_or.2 ⟨hne _ (by decide), hne _ (by decide)⟩) ?_))
    refine run_getS (run_neg hn28 ?_)
    refine run_bind (a := (x : Int)) (s1 := s1) (run_getS (run_pos hid ?_)) ?_
    · rw [hxe]
      exact run_bind (a := ()) (s1 := s) rfl (run_bind e1 rfl)
    · refine run_neg hn28 (run_getS (run_pos t1 (run_bind e2 (run_modS (run_bind (g3 n hn) (run_bind (a := ()) (s1 := s4) ?_ rfl))))))
      exact run_getS (run_pos H.tok e4)
  · exact (show SccHead.hz s5 = SccHead.hz s4 from rfl).trans (k4.hz.trans (H.hz.trans k1.hz))
  · show s1.type ||| vtFun = _
    rw [k1.type]
  · exact k4.argsCount.trans H.cnt
  · intro i hi
    show (s4.args.get i).id = _ ∧ (s4.args.get i).type = _
    rw [k4.args]
    exact H.args i hi

/-- The header of a function. -/
theorem head_ok {s : S} {names : List (List Byte)} {f r text : List Byte} {ps : List (List Byte)} {ty : Nat} (htok : s.tok = tokInt ∧ ty = vtInt ∨ s.tok = tokVoid ∧ ty = vtVoid)
    (h : HeadText f r ps text) (hl : Lex names text s) (hrn : r ≠ []) (hnt : NoTd s) (hroom : RoomI (ps.foldl intern (intern names f))) (hkw : Kw names) (hf : ¬ IsKw f)
    (hps : ∀ p ∈ ps, ¬ IsKw p) (hlen : ps.length ≤ argsMax) :
    ∃ s1 s', Go .declSpecs s s1 ∧ s1.tok ≠ 0x3B ∧ GoV (.declarator .ret) (num (intern names f) f) s1 s' ∧ Lex (ps.foldl intern (intern names f)) r s' ∧ s'.tok = 0x7B ∧ s'.prec = precStop ∧
      hz s' = hz s ∧ s'.type = ty ||| vtFun ∧ s'.argsCount = ps.length ∧
      (∀ i (h : i < ps.length), (s'.args.get i).id = num (ps.foldl intern (intern names f)) ps[i] ∧ (s'.args.get i).type = vtInt) := by
  have hroom1 : RoomI (intern names f) := hroom.pre (foldl_pre ps _)
  have hx := (hkw.intern f).user hf
  have fin : ∀ {g1 g2 g4 t : List Byte} (h1 : Gap g1) (h2 : Gap g2) (h4 : Gap g4) (hw : Word f) (ha : After (g2 ++ asc "(" ++ t)) (htn : t ≠ []) (hl : Lex names (g1 ++ f ++ (g2 ++ asc "(" ++ t)) s),
      (∀ s1 : S, Lex (intern names f) t s1 → hz s1 = hz s → ∃ s2, getToken s1 = .ok () s2 ∧ ∃ s3, Go .params { s2 with argsCount := 0 } s3 ∧ Head (ps.foldl intern (intern names f)) ps (g4 ++ asc "{" ++ r) s1 s3) →
      ∃ s1 s', Go .declSpecs s s1 ∧ s1.tok ≠ 0x3B ∧ GoV (.declarator .ret) (num (intern names f) f) s1 s' ∧ Lex (ps.foldl intern (intern names f)) r s' ∧ s'.tok = 0x7B ∧ s'.prec = precStop ∧
      hz s' = hz s ∧ s'.type = ty ||| vtFun ∧ s'.argsCount = ps.length ∧
      (∀ i (h : i < ps.length), (s'.args.get i).id = num (ps.foldl intern (intern names f)) ps[i] ∧ (s'.args.get i).type = vtInt) := by
    intro g1 g2 g4 t h1 h2 h4 hw ha htn hl hp
    obtain ⟨s1, g1', l1, t1, y1, z1, _, _⟩ := specs_ok htok hl h1 hw ha (by simp [htn]) hroom1 hx hnt
    obtain ⟨s', d1, d2, d3, d4, d5, d6, d7, d8⟩ := decl_fun l1 h2 h4 htn hrn t1 hx (fun s2 hl2 hz2 => hp s2 hl2 (hz2.trans z1))
    refine ⟨s1, s', g1', ?_, d1, d2, d3, d4, d5.trans z1, by rw [d6, y1], d7, d8⟩
    rw [t1]
    intro e
    have : num (intern names f) f + 150 = 59 := e
    omega
  cases h with
  | @zero g1 g2 g3 g4 h1 h2 h3 h4 hw ha =>
    refine fin (t := g3 ++ asc ")" ++ (g4 ++ asc "{" ++ r)) h1 h2 h4 hw ha (by simp [hrn]) hl fun s1 hl1 hz1 => ?_
    obtain ⟨s2, e2, k2, l2, t2, _⟩ := read_sym hl1 .cls h3 (munch_cls _) (by simp [hrn])
    exact ⟨s2, e2, { s2 with argsCount := 0 }, Go.of 0 fun n _ => run_bind (a := ()) (s1 := { s2 with argsCount := 0 }) (run_getS (run_pos t2 rfl)) rfl,
      t2, ⟨l2.text, l2.ids, l2.pos, l2.ge⟩, k2.hz, rfl, fun i hi => by simp at hi⟩
  | @some g1 g2 g3 g4 t ps h1 h2 h3 h4 hw ha hb h =>
    refine fin (t := g3 ++ asc "int" ++ t) h1 h2 h4 hw ha (by simp [h.ne]) hl fun s1 hl1 hz1 => ?_
    obtain ⟨s2, e2, k2, l2, t2⟩ := read_int hl1 h3 hb h.ne hroom1 (hkw.intern f)
    obtain ⟨s3, g3', t3, l3, z3, c3, a3, _⟩ := params_ok (s := { s2 with argsCount := 0 }) (by simp [hrn]) h ⟨l2.text, l2.ids, l2.pos, l2.ge⟩ (hnt.of (k2.hz.trans hz1)) hroom (hkw.intern f) hps
      (by simpa using hlen) t2
    refine ⟨s2, e2, s3, g3', t3, l3, z3.trans k2.hz, by rw [c3]; exact Nat.zero_add _, fun i hi => ?_⟩
    have := a3 i hi
    rw [show ({ s2 with argsCount := 0 } : S).argsCount + i = i from Nat.zero_add _] at this
    exact this

end SccHead
