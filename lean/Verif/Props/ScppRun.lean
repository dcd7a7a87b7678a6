import Verif.Props.ScppUndef
/-!
# The main loop of the preprocessor

Lemmas for `C26` and `C31`.
-/
namespace Props.ScppRun
open Scpp Prog Text Props.ScppLex Props.ScppMacro Props.ScppDefine Props.ScppTable Props.ScppUndef

/-! ## Specification: layout of the output -/

/-- The white space owed before the next token. -/
inductive Gap
  | none
  | space
  | line
  deriving DecidableEq

/-- Its text. -/
def Gap.text : Gap → List Byte
  | .none => []
  | .space => [0x20]
  | .line => [0x0D, 0x0A]

/-- The text of a sequence of tokens: white space shrinks to one space, white space with a newline in it to one line break, white space at the end stays owed. -/
def layout : Gap → List PTok → Gap × List Byte
  | g, [] => (g, [])
  | g, .ws _ :: ts => layout (if g = .none then .space else g) ts
  | _, .nl :: ts => layout .line ts
  | g, t :: ts => ((layout .none ts).1, g.text ++ t.text ++ (layout .none ts).2)

theorem layout_append : ∀ (a b : List PTok) (g : Gap), layout g (a ++ b) = ((layout (layout g a).1 b).1, (layout g a).2 ++ (layout (layout g a).1 b).2)
  | [], b, g => by simp [layout]
  | t :: a, b, g => by
    cases t <;> simp only [List.cons_append, layout] <;> rw [layout_append a b] <;> simp

/-! ## Runs of the main loop -/

/-- `WS` as a gap. -/
def gapOf (ws : Nat) : Gap := if ws = 0 then .none else if ws = 1 then .space else .line

/-- The loop with the token current in `s` has a result with `P`. -/
def Loop (fs : Fs) (s : S) (ws : Nat) (act : Bool) (P : Res S Unit → Prop) : Prop :=
  ∃ x, P x ∧ ∃ N, ∀ f n, N ≤ f → N ≤ n → ppLoop fs f n ws act s = x

/-- The same before the token is read. -/
def Fin (fs : Fs) (s : S) (ws : Nat) (act : Bool) (P : Res S Unit → Prop) : Prop :=
  ∃ s1, s1.cond = s.cond ∧ (∃ k, ∀ n, k ≤ n → getToken n s = .ok () s1) ∧ Loop fs s1 ws act P

variable {fs : Fs} {P : Res S Unit → Prop}

theorem Fin.run {s : S} {ws : Nat} {act : Bool} (h : Fin fs s ws act P) :
    ∃ x, P x ∧ ∃ N, ∀ g f n, N ≤ g → N ≤ f → N ≤ n → (do getToken g; ppLoop fs f n ws act : A Unit) s = x := by
  obtain ⟨s1, _, ⟨k, hk⟩, s', hP, N, hN⟩ := h
  exact ⟨s', hP, N + k, fun g f n hg hf hn => run_bind (hk g (by omega)) (hN f n (by omega) (by omega))⟩

theorem fin_silent {s s1 : S} {ws : Nat} {act : Bool} (h : Silent s s1) (h' : Fin fs s1 ws act P) : Fin fs s ws act P := by
  obtain ⟨⟨k, hk⟩, e⟩ := h
  obtain ⟨s2, hc, ⟨k', hk'⟩, hL⟩ := h'
  refine ⟨s2, hc.trans (congrArg Prod.snd e), ⟨k + k', fun n hn => ?_⟩, hL⟩
  rw [show n = n - k + k by omega, hk]
  exact hk' _ (by omega)

theorem fin_get {s s1 : S} {ws : Nat} {act : Bool} (h : ∃ k, ∀ n, k ≤ n → getToken n s = .ok () s1) (hc : s1.cond = s.cond) (h' : Loop fs s1 ws act P) : Fin fs s ws act P :=
  ⟨s1, hc, h, h'⟩

theorem loop_skip {s : S} {ws : Nat} (h1 : s.tok.ty ≠ 0x23) (h2 : s.tok.ty ≠ tokEof) (h : Fin fs s ws false P) : Loop fs s ws false P := by
  obtain ⟨s', hP, N, hN⟩ := h.run
  refine ⟨s', hP, N + 1, fun f n hf hn => ?_⟩
  obtain ⟨n, rfl⟩ : ∃ j, n = j + 1 := ⟨n - 1, by omega⟩
  simp only [ppLoop]
  exact run_getS (run_neg h1 (run_neg h2 (run_pos rfl (hN f f n (by omega) (by omega) (by omega)))))

theorem loop_ws {s : S} {ws : Nat} (h : s.tok.ty = tokWs) (h' : Fin fs s (if ws = 0 then 1 else if ws = 2 then 3 else ws) true P) : Loop fs s ws true P := by
  obtain ⟨s', hP, N, hN⟩ := h'.run
  refine ⟨s', hP, N + 1, fun f n hf hn => ?_⟩
  obtain ⟨n, rfl⟩ : ∃ j, n = j + 1 := ⟨n - 1, by omega⟩
  simp only [ppLoop]
  exact run_getS (run_neg (by rw [h]; decide) (run_neg (by rw [h]; decide) (run_neg (by decide) (run_pos h (hN f f n (by omega) (by omega) (by omega))))))

theorem loop_nl {s : S} {ws : Nat} (h : s.tok.ty = tokNl) (h' : Fin fs s (if ws = 0 then 2 else if ws = 1 then 3 else ws) true P) : Loop fs s ws true P := by
  obtain ⟨s', hP, N, hN⟩ := h'.run
  refine ⟨s', hP, N + 1, fun f n hf hn => ?_⟩
  obtain ⟨n, rfl⟩ : ∃ j, n = j + 1 := ⟨n - 1, by omega⟩
  simp only [ppLoop]
  exact run_getS (run_neg (by rw [h]; decide) (run_neg (by rw [h]; decide) (run_neg (by decide) (run_neg (by rw [h]; decide) (run_pos h
    (hN f f n (by omega) (by omega) (by omega)))))))

theorem outputStr_run (l : List Byte) (s : S) : outputStr l s = .ok () { s with out := s.out ++ l } := rfl

/-- The text of a token as it is printed. -/
def quoted (ty : Nat) (l : List Byte) : List Byte :=
  if ty = tokStrlit then 0x22 :: (l ++ [0x22]) else if ty = tokCharlit then 0x27 :: (l ++ [0x27]) else l

theorem printTok_eq {s : S} {ws : Nat} {l : List Byte} (h : strOf s s.tok.txt = some l) :
    ∃ out, printTok ws s = .ok () { s with out := out } ∧ out.toList = s.out.toList ++ ((gapOf ws).text ++ quoted s.tok.ty l) := by
  have ht : ∀ o, text s.tok.txt { s with out := o } = .ok l { s with out := o } := fun o => run_getS (by
    have : strOf { s with out := o } s.tok.txt = some l := by rw [← h]; cases s.tok.txt <;> rfl
    rw [this]; rfl)
  have tail : ∀ o : Array Byte, ∃ out, (do
      let s ← getS
      let l ← text s.tok.txt
      if s.tok.ty = tokStrlit then
        outputStr (asc "\"")
        outputStr l
        outputStr (asc "\"")
      else if s.tok.ty = tokCharlit then
        outputStr (asc "'")
        outputStr l
        outputStr (asc "'")
      else outputStr l : A Unit) { s with out := o } = .ok () { s with out := out } ∧ out.toList = o.toList ++ quoted s.tok.ty l := by
    intro o
    by_cases h1 : s.tok.ty = tokStrlit
    · refine ⟨o ++ asc "\"" ++ l ++ asc "\"", run_getS (run_bind (ht o) (run_pos h1 (run_bind (outputStr_run _ _) (run_bind (outputStr_run _ _) (outputStr_run _ _))))), ?_⟩
      simp only [quoted, if_pos h1, Array.toList_appendList]
      simp [asc]
    · by_cases h2 : s.tok.ty = tokCharlit
      · refine ⟨o ++ asc "'" ++ l ++ asc "'", run_getS (run_bind (ht o) (run_neg h1 (run_pos h2 (run_bind (outputStr_run _ _) (run_bind (outputStr_run _ _) (outputStr_run _ _)))))), ?_⟩
        simp only [quoted, if_neg h1, if_pos h2, Array.toList_appendList]
        simp [asc]
      · refine ⟨o ++ l, run_getS (run_bind (ht o) (run_neg h1 (run_neg h2 (outputStr_run _ _)))), ?_⟩
        simp only [quoted, if_neg h1, if_neg h2, Array.toList_appendList]
  by_cases h0 : ws = 0
  · obtain ⟨out, e1, e2⟩ := tail s.out
    refine ⟨out, run_neg (fun e => e h0) e1, by rw [e2]; simp [gapOf, h0, Gap.text]⟩
  · by_cases hw : 2 ≤ ws
    · obtain ⟨out, e1, e2⟩ := tail (s.out ++ asc "\r\n")
      refine ⟨out, run_pos h0 (run_pos hw (run_bind (outputStr_run _ _) e1)), ?_⟩
      have : gapOf ws = .line := by rw [gapOf, if_neg h0, if_neg (by omega)]
      rw [e2, this]; simp [Gap.text]; rfl
    · obtain ⟨out, e1, e2⟩ := tail (s.out ++ asc " ")
      refine ⟨out, run_pos h0 (run_neg hw (run_bind (outputStr_run _ _) e1)), ?_⟩
      have : gapOf ws = .space := by rw [gapOf, if_neg h0, if_pos (by omega)]
      rw [e2, this]; simp [Gap.text]; rfl

theorem loop_print {s : S} {ws : Nat} {l : List Byte} (h : strOf s s.tok.txt = some l) (h0 : s.tok.ty ≠ 0x23) (h1 : s.tok.ty ≠ tokEof) (h2 : s.tok.ty ≠ tokWs) (h3 : s.tok.ty ≠ tokNl)
    (h' : ∀ out, out.toList = s.out.toList ++ ((gapOf ws).text ++ quoted s.tok.ty l) → Fin fs { s with out := out } 0 true P) : Loop fs s ws true P := by
  obtain ⟨out, e1, e2⟩ := printTok_eq (ws := ws) h
  obtain ⟨s', hP, N, hN⟩ := (h' out e2).run
  refine ⟨s', hP, N + 1, fun f n hf hn => ?_⟩
  obtain ⟨n, rfl⟩ : ∃ j, n = j + 1 := ⟨n - 1, by omega⟩
  simp only [ppLoop]
  exact run_getS (run_neg h0 (run_neg h1 (run_neg (by decide) (run_neg h2 (run_neg h3 (run_bind e1 (hN f f n (by omega) (by omega) (by omega))))))))

theorem gapOf_ws (ws : Nat) : gapOf (if ws = 0 then 1 else if ws = 2 then 3 else ws) = if gapOf ws = .none then .space else gapOf ws := by
  unfold gapOf
  by_cases h0 : ws = 0
  · simp [h0]
  · by_cases h2 : ws = 2
    · simp [h2]
    · simp only [h0, h2, if_false]
      by_cases h1 : ws = 1 <;> simp [h1]

theorem gapOf_nl (ws : Nat) : gapOf (if ws = 0 then 2 else if ws = 1 then 3 else ws) = .line := by
  unfold gapOf
  by_cases h0 : ws = 0
  · simp [h0]
  · by_cases h1 : ws = 1
    · simp [h1]
    · simp [h0, h1]

/-- The token shown is none of the loop's special tokens. -/
theorem shows_ty {Δ : Table} {s : S} {o : PTok} (h : Shows Δ s o) (hok : o.Ok) (hh : o ≠ .op (asc "#")) :
    s.tok.ty ≠ 0x23 ∧ s.tok.ty ≠ tokEof ∧ quoted s.tok.ty o.val = o.text ∧ (s.tok.ty = tokWs ↔ o.ty = tokWs) ∧ (s.tok.ty = tokNl ↔ o = .nl) := by
  have hf := ty_facts hok
  by_cases hid : ∃ w, o = .id w
  · obtain ⟨w, rfl⟩ := hid
    have hr : ¬ (PTok.id w).ty = tokWs := by show ¬ tokRawId = tokWs; decide
    rcases h.id w rfl with ⟨e, _⟩ | ⟨k, _, e⟩
    · rw [e]
      exact ⟨by decide, by decide, rfl, ⟨fun x => (by cases x), fun x => absurd x hr⟩, ⟨fun x => (by cases x), fun x => (by cases x)⟩⟩
    · rw [e]
      have h257 : tokId + k = 257 + k := rfl
      rw [h257]
      simp only [tokEof, tokStrlit, tokCharlit, tokWs, tokNl] at *
      refine ⟨by omega, by omega, by rw [quoted, if_neg (by show ¬ 257 + k = 5; omega), if_neg (by show ¬ 257 + k = 4; omega)]; rfl, ⟨fun x => by omega, fun x => absurd x hr⟩, ⟨fun x => by omega, fun x => by cases x⟩⟩
  · have hr : o.ty ≠ tokRawId := fun e => hid (hf.2.2.2.2.2.2.1.mp e)
    rw [h.ty hr]
    have hq : quoted o.ty o.val = o.text := by
      by_cases hl : ∃ q w, o = .lit q w
      · obtain ⟨q, w, rfl⟩ := hl
        rcases hok.1 with rfl | rfl <;> rfl
      · have e : o.val = o.text := by
          cases o with
          | lit q w => exact absurd ⟨q, w, rfl⟩ hl
          | _ => rfl
        rw [quoted, if_neg (fun e => hl ((hf.2.2.1.mp e).elim fun w h => ⟨_, w, h⟩)), if_neg (fun e => hl ((hf.2.2.2.1.mp e).elim fun q h => h.elim fun w h => ⟨q, w, h.1⟩)), e]
    exact ⟨fun e => hh (hf.2.2.2.2.2.2.2.1 e), hf.1, hq, Iff.rfl, hf.2.2.2.2.2.1⟩

/-- Tokens in a group that is kept are printed. -/
theorem emits_fin {Δ : Table} {Q : S → Prop} : ∀ (os : List PTok) (s : S) (ws : Nat), Emits Δ s os Q → (∀ o ∈ os, o.Ok ∧ o ≠ .op (asc "#")) →
    (∀ s' ws', Q s' → s'.out.toList = s.out.toList ++ (layout (gapOf ws) os).2 → gapOf ws' = (layout (gapOf ws) os).1 → Fin fs s' ws' true P) → Fin fs s ws true P
  | [], s, ws, h, _, hQ => by
    obtain ⟨s', h1, h2⟩ := h
    have e : s'.out = s.out := congrArg Prod.fst h1.2
    exact fin_silent h1 (hQ s' ws h2 (by rw [e]; simp [layout]) rfl)
  | o :: os, s, ws, h, hok, hQ => by
    obtain ⟨s1, ⟨hg, hs, hkept⟩, h2⟩ := h
    have ho : s1.out = s.out := congrArg Prod.fst hkept
    obtain ⟨hok1, hh⟩ := hok o (by simp)
    obtain ⟨t1, t2, t3, t5, t6⟩ := shows_ty hs hok1 hh
    refine fin_get hg (congrArg Prod.snd hkept) ?_
    have ih := fun out ws => emits_fin os { s1 with out := out } ws (h2 out) (fun o ho => hok o (by simp [ho]))
    by_cases hw : o.ty = tokWs
    · obtain ⟨w, rfl⟩ := ws_of_ty hok1 hw
      refine loop_ws (t5.mpr hw) (ih s1.out _ fun s' ws' hq e1 e2 => ?_)
      rw [gapOf_ws] at e1 e2
      exact hQ s' ws' hq (by rw [e1, ho]; rfl) (by rw [e2]; rfl)
    · by_cases hn : o = .nl
      · subst hn
        refine loop_nl (t6.mpr rfl) (ih s1.out _ fun s' ws' hq e1 e2 => ?_)
        rw [gapOf_nl] at e1 e2
        exact hQ s' ws' hq (by rw [e1, ho]; rfl) (by rw [e2]; rfl)
      · refine loop_print (hs.txt hn hw) t1 t2 (fun e => hw (t5.mp e)) (fun e => hn (t6.mp e)) fun out hout => ih out 0 fun s' ws' hq e1 e2 => ?_
        have hl : layout (gapOf ws) (o :: os) = ((layout .none os).1, (gapOf ws).text ++ o.text ++ (layout .none os).2) := by
          cases o with
          | ws w => exact absurd rfl hw
          | nl => exact absurd rfl hn
          | id _ => rfl
          | num _ => rfl
          | op _ => rfl
          | lit _ _ => rfl
        refine hQ s' ws' hq ?_ (by rw [e2, hl]; rfl)
        rw [e1, hl]
        show out.toList ++ (layout .none os).2 = _
        rw [hout, ho, t3]
        simp

/-- Tokens in a group that is not kept are not printed. -/
theorem emits_skip {Δ : Table} {Q : S → Prop} : ∀ (os : List PTok) (s : S) (ws : Nat), Emits Δ s os Q → (∀ o ∈ os, o.Ok ∧ o ≠ .op (asc "#")) →
    (∀ s', Q s' → s'.out = s.out → Fin fs s' ws false P) → Fin fs s ws false P
  | [], s, ws, h, _, hQ => by
    obtain ⟨s', h1, h2⟩ := h
    exact fin_silent h1 (hQ s' h2 (congrArg Prod.fst h1.2))
  | o :: os, s, ws, h, hok, hQ => by
    obtain ⟨s1, ⟨hg, hs, hkept⟩, h2⟩ := h
    have ho : s1.out = s.out := congrArg Prod.fst hkept
    obtain ⟨hok1, hh⟩ := hok o (by simp)
    obtain ⟨t1, t2, _⟩ := shows_ty hs hok1 hh
    refine fin_get hg (congrArg Prod.snd hkept) (loop_skip t1 t2 ?_)
    exact emits_skip os _ ws (h2 s1.out) (fun o ho => hok o (by simp [ho])) fun s' hq e => hQ s' hq (e.trans ho)

theorem loop_eof {s : S} {ws : Nat} {act : Bool} (h : s.tok.ty = tokEof) (hf : s.files = []) (hP : P (.ok () { s with line := s.oldLine })) : Loop fs s ws act P := by
  refine ⟨_, hP, 1, fun f n hf' hn => ?_⟩
  obtain ⟨n, rfl⟩ : ∃ j, n = j + 1 := ⟨n - 1, by omega⟩
  simp only [ppLoop]
  refine run_getS (run_neg (by rw [h]; decide) (run_pos h ?_))
  clear hP h
  cases s
  cases hf
  rfl

/-- At the end of the file. -/
theorem fin_eof {s : S} {ws : Nat} {act : Bool} (ha : At s []) (hs : s.stack = []) (hq : s.queue = []) (hf : s.files = [])
    (hP : ∀ s', Frame s s' → s'.out = s.out → P (.ok () s')) : Fin fs s ws act P := by
  have key : ∀ (s : S) (ws : Nat), s.tok.ty ≠ tokEof → At s [] → s.stack = [] → s.queue = [] → s.files = [] → (∀ s', Frame s s' → s'.out = s.out → P (.ok () s')) → Fin fs s ws act P := by
    intro s ws hne ha hs hq hf hP
    obtain ⟨m, hm, hi⟩ := ha.inAt
    obtain ⟨k, h1⟩ := rawGet_eof hm.inv_nil s hs hq
    rw [hi, if_neg hne] at h1
    let s1 : S := inAt [] { s with line := k, tdPos := s.tdNext, tok := ⟨tokEof, .data s.tdNext⟩ }
    refine fin_get (s1 := s1) ⟨1, fun n hn => ?_⟩ rfl (loop_eof rfl hf
      (hP _ ⟨rfl, rfl, rfl, rfl, rfl, rfl, rfl, rfl, rfl, rfl, rfl, rfl, rfl, fun _ _ => rfl, fun _ => ⟨rfl, rfl, fun e => e⟩⟩ rfl))
    obtain ⟨n, rfl⟩ : ∃ j, n = j + 1 := ⟨n - 1, by omega⟩
    simp only [getToken]
    exact run_bind h1 (run_getS (run_neg (by show ¬ tokEof = 0x23; decide) (run_neg (by show ¬ tokEof = tokArg; decide) (run_pos (by show tokEof ≠ tokRawId; decide) rfl))))
  by_cases he : s.tok.ty = tokEof
  · obtain ⟨m, hm, hi⟩ := ha.inAt
    obtain ⟨k, h1⟩ := rawGet_eof hm.inv_nil s hs hq
    rw [hi, if_pos he] at h1
    let s1 : S := inAt [] { s with line := k, tdPos := s.tdNext, tok := ⟨tokNl, .data s.tdNext⟩ }
    have fr : Frame s s1 := ⟨rfl, rfl, rfl, rfl, rfl, rfl, rfl, rfl, rfl, rfl, rfl, rfl, rfl, fun _ _ => rfl, fun _ => ⟨rfl, rfl, fun e => e⟩⟩
    have hF : ∀ ws, Fin fs s1 ws act P := fun ws => key s1 ws (by show tokNl ≠ tokEof; decide) (.of_inAt (.rest _) _) hs hq hf fun s' f e => hP s' (fr.trans f) e
    refine fin_get (s1 := s1) ⟨1, fun n hn => ?_⟩ rfl ?_
    · obtain ⟨n, rfl⟩ : ∃ j, n = j + 1 := ⟨n - 1, by omega⟩
      simp only [getToken]
      exact run_bind h1 (run_getS (run_neg (by show ¬ tokNl = 0x23; decide) (run_neg (by show ¬ tokNl = tokArg; decide) (run_pos (by show tokNl ≠ tokRawId; decide) rfl))))
    · cases act with
      | true => exact loop_nl rfl (hF _)
      | false => exact loop_skip (by show tokNl ≠ 0x23; decide) (by show tokNl ≠ tokEof; decide) (hF _)
  · exact key s ws he ha hs hq hf hP

/-! ## Directives -/

/-- `HandleDirective` after the name. -/
def dirRest (fs : Fs) (n d : Nat) : A Unit := do
  let s ← getS
  assertM (d < tokUserId)
  if d = tokDefine then
    if condActive s.cond then handleDefine n
  else if d = tokInclude then
    if condActive s.cond then handleInclude fs n
  else if d = tokUndef then
    if condActive s.cond then
      rawGetToken
      rawSkipWs n
      replaceId
      let s ← getS
      if tokUserId ≤ s.tok.ty then
        let m := s.tok.ty - tokUserId
        modS fun s => { s with mac := upd s.mac m { s.mac m with hide := 2 } }
        freeTokenList (s.mac m).repl
      getToken n
  else if d = tokIfdef ∨ d = tokIfndef then
    rawGetToken
    rawSkipWs n
    replaceId
    let s ← getS
    newCond ((d == tokIfndef) ^^ isDefined s s.tok.ty)
    rawGetToken
  else if d = tokError then
    if condActive s.cond then fail .fatal
  else if d = tokPragma ∨ d = tokLine then pure ()
  else if d = tokRawId then assertM (!condActive s.cond)
  else
    getToken n
    let s ← getS
    if d = tokIf then
      let v ← evalExpr n
      newCond (v != 0)
    else if d = tokElif then
      match s.cond with
      | [] => fail .assertFail
      | .true :: _ => setCond .done
      | .false :: _ =>
        let v ← evalExpr n
        if v ≠ 0 then setCond .true
      | .done :: _ => pure ()
    else if d = tokElse then
      match s.cond with
      | [] => fail .assertFail
      | .true :: _ => setCond .done
      | .false :: _ => setCond .true
      | .done :: _ => pure ()
    else if d = tokEndif then
      match s.cond with
      | [] => fail .assertFail
      | _ :: r => modS fun s => { s with cond := r }
    else pure ()
  toNewline n

theorem run_err {σ α β : Type} {x : M σ α} {f : α → M σ β} {s : σ} {e : Err} (h : x s = .err e) : (x >>= f) s = .err e := by
  show (match x s with | .ok a s' => f a s' | .err e => .err e) = _
  rw [h]

/-- A directive: the rest of it succeeds or is rejected. -/
theorem dir_both {Δ : Table} {k ws : Nat} {act : Bool} {w : List Byte} {W : Option (List Byte)} {r : List Byte} {s : S} (hk : builtins[k]? = some w) (h : Good Δ s)
    (ha : At s (render (.op (asc "#") :: (sps W ++ [.id w])) ++ r)) (hsp : Spelled (.op (asc "#") :: (sps W ++ [.id w])) r) (htd : s.tdNext + 9 ≤ 2048)
    (hrest : ∀ s2, Good Δ s2 → At s2 r → Same s s2 → s2.tdNext = s.tdNext → s2.tok.ty ≠ tokNl →
      (∃ N s', (∀ n, N ≤ n → dirRest fs n (tokId + k) s2 = .ok () s') ∧ s'.tok.ty = tokNl ∧ Fin fs s' ws (condActive s'.cond) P) ∨
      ∃ N e, (∀ n, N ≤ n → dirRest fs n (tokId + k) s2 = .err e) ∧ P (.err e)) : Fin fs s ws act P := by
  obtain ⟨o1, o2, o3⟩ := hsp
  have hlen : w.length ≤ 8 := by
    have : ∀ v ∈ builtins, v.length ≤ 8 := by decide
    exact this w (List.mem_of_getElem? hk)
  have hR := h.rep
  rw [render_cons] at ha
  obtain ⟨s1, h1, h2⟩ := raw_next (t := .op (asc "#")) (stk_nil h.stk) hR.queue ha o1 o2 (by show s.tdNext + 2 ≤ 2048; omega)
  have g1 := Good.raw h h2
  have hstep := step_other (Δ := Δ) h1 h2.ty o1 (by simp) (fun _ => stk_nil g1.stk) h2.txt (kept_eq h2.out h2.frame.cond)
  have hty1 : s1.tok.ty = 0x23 := h2.ty.trans (by decide)
  refine fin_get hstep.1 h2.frame.cond ?_
  have hne : (PTok.id w) ≠ .nl := by simp
  have hnw : (PTok.id w).ty ≠ tokWs := by show ¬ tokRawId = tokWs; decide
  have ha1 : At s1 (render (sps W) ++ ((PTok.id w).text ++ r)) := by
    have := h2.at_
    simpa [render, List.append_assoc] using this
  obtain ⟨s2, s3, k1, k2, k3⟩ := raw_skip (W := W) (t := .id w) (stk_nil g1.stk) g1.rep.queue ha1 o3 hnw (by rw [h2.frame.tdNext]; simp only [PTok.need, PTok.val, PTok.text]; omega)
  have g3 := Good.raw g1 k3
  have hnm : (names Δ)[k]? = some w := by
    rw [names, List.getElem?_append_left (List.getElem?_eq_some_iff.mp hk).1]; exact hk
  obtain ⟨hh, ⟨hnot, hrep⟩ | ⟨id, hid, hrep⟩⟩ := replaceId_eq g3.rep k3.ty (k3.txt hne hnw) (.inr (k3.hash w rfl))
  · exact absurd (List.mem_of_getElem? hnm) hnot
  · have hik : id = k := by
      have h1 := (List.getElem?_eq_some_iff.mp hid)
      have h2 := (List.getElem?_eq_some_iff.mp hnm)
      exact (List.getElem_inj (h₀ := h1.1) (h₁ := h2.1) g3.rep.nodup).mp (h1.2.trans h2.2.symm)
    subst hik
    let s4 : S := { s3 with hash := hh, tok := { s3.tok with ty := tokId + id } }
    have f12 : Frame s3 s4 := ⟨rfl, rfl, rfl, rfl, rfl, rfl, rfl, rfl, rfl, rfl, rfl, rfl, rfl, fun _ _ => rfl, fun _ => ⟨rfl, rfl, fun e => e⟩⟩
    have g4 : Good Δ s4 := g3.frame f12 (g3.stk.frame f12 rfl rfl)
    have hsame : Same s s4 := (h2.same.trans k3.same).trans (Same.mk rfl rfl rfl)
    rcases hrest s4 g4 k3.at_ hsame (by show s3.tdNext = _; rw [k3.frame.tdNext, h2.frame.tdNext])
      (by show ¬ 257 + id = 2; omega) with ⟨N, s', q1, q2, s5, q3, ⟨k, q4⟩, s'', hP, N', q5⟩ | ⟨N, e, q1, hP⟩
    · refine ⟨s'', hP, N + N' + k + 3, fun f n hf hn => ?_⟩
      obtain ⟨n, rfl⟩ : ∃ j, n = j + 1 := ⟨n - 1, by omega⟩
      obtain ⟨f, rfl⟩ : ∃ j, f = j + 2 := ⟨f - 2, by omega⟩
      have hd : handleDirective fs (f + 2) s2 = .ok () s' := by
        refine run_bind (k2 f) (run_getS (run_neg (by rw [k3.ty]; exact (by decide : ¬ tokRawId = tokNl)) (run_bind hrep ?_)))
        exact q1 _ (by omega)
      simp only [ppLoop]
      refine run_getS (run_pos hty1 (run_bind k1 (run_bind hd (run_getS (run_neg (by rw [q2]; decide) (run_assert (by rw [q2]; rfl) ?_))))))
      refine run_bind (q4 _ (by omega)) (run_getS ?_)
      rw [q3]
      exact q5 _ _ (by omega) (by omega)
    · refine ⟨_, hP, N + 3, fun f n hf hn => ?_⟩
      obtain ⟨n, rfl⟩ : ∃ j, n = j + 1 := ⟨n - 1, by omega⟩
      obtain ⟨f, rfl⟩ : ∃ j, f = j + 2 := ⟨f - 2, by omega⟩
      have hd : handleDirective fs (f + 2) s2 = .err e := by
        refine run_bind (k2 f) (run_getS (run_neg (by rw [k3.ty]; exact (by decide : ¬ tokRawId = tokNl)) (run_bind hrep ?_)))
        exact q1 _ (by omega)
      simp only [ppLoop]
      exact run_getS (run_pos hty1 (run_bind k1 (run_err hd)))

/-- The name of a directive. -/
theorem dir_fin {Δ : Table} {k ws : Nat} {act : Bool} {w : List Byte} {W : Option (List Byte)} {r : List Byte} {s : S} (hk : builtins[k]? = some w) (h : Good Δ s)
    (ha : At s (render (.op (asc "#") :: (sps W ++ [.id w])) ++ r)) (hsp : Spelled (.op (asc "#") :: (sps W ++ [.id w])) r) (htd : s.tdNext + 9 ≤ 2048)
    (hrest : ∀ s2, Good Δ s2 → At s2 r → Same s s2 → s2.tdNext = s.tdNext → s2.tok.ty ≠ tokNl →
      ∃ N s', (∀ n, N ≤ n → dirRest fs n (tokId + k) s2 = .ok () s') ∧ s'.tok.ty = tokNl ∧ Fin fs s' ws (condActive s'.cond) P) : Fin fs s ws act P :=
  dir_both hk h ha hsp htd fun s2 h1 h2 h3 h4 h5 => .inl (hrest s2 h1 h2 h3 h4 h5)

/-- A directive that is rejected. -/
theorem dir_fail {Δ : Table} {k ws : Nat} {act : Bool} {w : List Byte} {W : Option (List Byte)} {r : List Byte} {s : S} (hk : builtins[k]? = some w) (h : Good Δ s)
    (ha : At s (render (.op (asc "#") :: (sps W ++ [.id w])) ++ r)) (hsp : Spelled (.op (asc "#") :: (sps W ++ [.id w])) r) (htd : s.tdNext + 9 ≤ 2048)
    (hrest : ∀ s2, Good Δ s2 → At s2 r → Same s s2 → s2.tdNext = s.tdNext →
      ∃ N e, (∀ n, N ≤ n → dirRest fs n (tokId + k) s2 = .err e) ∧ P (.err e)) : Fin fs s ws act P :=
  dir_both hk h ha hsp htd fun s2 h1 h2 h3 h4 _ => .inr (hrest s2 h1 h2 h3 h4)

end Props.ScppRun
