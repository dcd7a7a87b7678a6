import Verif.Props.SccTermLex
/-!
# Termination of the compiler (C53): the parser
-/
namespace Props.SccTerm
open Prog Text Scc Props.SccTermLex

variable {α β : Type} {go g2 : Task → A Int} {b : Nat} {s : S}

/-- `x` and `y` do the same in `s`, and `Q` holds after them. -/
def Ter (x y : A α) (s : S) (Q : α → S → Prop) : Prop := x s = y s ∧ ∀ a s', x s = .ok a s' → Q a s'

theorem Ter.bind {x y : A α} {f g : α → A β} {P : α → S → Prop} {Q : β → S → Prop} (h : Ter x y s P)
    (hf : ∀ a s', P a s' → Ter (f a) (g a) s' Q) : Ter (x >>= f) (y >>= g) s Q := by
  obtain ⟨e, h⟩ := h
  cases hx : x s with
  | ok a s1 =>
    have h1 := hf a s1 (h a s1 hx)
    refine ⟨?_, ?_⟩
    · rw [bind_run, bind_run, ← e, hx]; exact h1.1
    · intro c s' hc
      rw [bind_run, hx] at hc
      exact h1.2 c s' hc
  | err er =>
    refine ⟨?_, ?_⟩
    · rw [bind_run, bind_run, ← e, hx]
    · intro c s' hc
      rw [bind_run, hx] at hc
      cases hc

theorem Ter.mono {x y : A α} {P Q : α → S → Prop} (h : Ter x y s P) (hq : ∀ a s', P a s' → Q a s') : Ter x y s Q :=
  ⟨h.1, fun a s' e => hq a s' (h.2 a s' e)⟩

theorem Ter.getS {f g : S → A α} {Q : α → S → Prop} (h : Ter (f s) (g s) s Q) : Ter (Prog.getS >>= f) (Prog.getS >>= g) s Q := h

theorem Ter.pure {a : α} {Q : α → S → Prop} (h : Q a s) : Ter (Pure.pure a : A α) (Pure.pure a) s Q :=
  ⟨rfl, fun _ _ e => by cases e; exact h⟩

theorem Ter.fail {e : Err} {Q : α → S → Prop} : Ter (Prog.fail e : A α) (Prog.fail e) s Q := ⟨rfl, fun _ _ h => by cases h⟩

theorem Ter.ite {c : Prop} [Decidable c] {x y x' y' : A α} {Q : α → S → Prop} (h1 : c → Ter x y s Q) (h2 : ¬ c → Ter x' y' s Q) :
    Ter (if c then x else x') (if c then y else y') s Q := by
  split
  · next h => exact h1 h
  · next h => exact h2 h

/-- The measure has fallen by `k`. -/
def Down (k : Nat) (s s' : S) : Prop := AtEnd s' ∧ size s' + k ≤ size s

/-- The token is the same, nothing is used up. -/
structure Up (s s' : S) : Prop where
  tok : s'.tok = s.tok
  prec : s'.prec = s.prec
  inv : AtEnd s'
  size : size s' = size s

theorem Ter.free {x : A α} (h : Pres SccTermKeep.R x) (hi : AtEnd s) : Ter x x s (fun _ s' => Up s s') := by
  refine ⟨rfl, fun a s' e => ?_⟩
  obtain ⟨h1, h2, h3, h4⟩ := h s a s' e
  refine ⟨h1, h2, ?_, ?_⟩
  · unfold AtEnd; rw [h1, h2]; exact hi
  · unfold SccTermLex.size left; rw [h1, h3, h4]

theorem Ter.tok (h : s.tok ≠ 0) : Ter getToken getToken s (fun _ s' => Down 1 s s') := by
  refine ⟨rfl, fun a s' e => ?_⟩
  have := getToken_size e
  rwa [if_neg h] at this

theorem Ter.tok0 : Ter getToken getToken s (fun _ s' => Down 0 s s') := by
  refine ⟨rfl, fun a s' e => ?_⟩
  have := getToken_size e
  exact ⟨this.1, by omega⟩

theorem Ter.expect {t : Nat} (h : t ≠ 0) : Ter (expect t) (expect t) s (fun _ s' => Down 1 s s') := by
  unfold Scc.expect
  refine Ter.getS (Ter.ite (fun hc => Ter.tok (by rw [hc]; exact h)) fun _ => Ter.fail)

theorem Ter.expectId : Ter expectId expectId s (fun _ s' => Down 1 s s') := by
  unfold Scc.expectId
  refine Ter.getS (Ter.ite (fun hc => Ter.bind (Ter.tok (by intro h; rw [h] at hc; exact absurd hc (by decide))) fun _ _ h => Ter.pure h)
    fun _ => Ter.fail)

/-- What a task needs: there is an operator. -/
def Ok : Task → S → Prop
  | .expr1 o, s => o < precStop ∧ s.prec ≤ o
  | .rhs p, _ => p < precStop
  | _, _ => True

/-- The order of the tasks that use up nothing before they call others. -/
def top : Task → Nat
  | .primary => 1 | .postfix => 1 | .unary => 2 | .cast => 3 | .expr1 _ => 1 | .rhs _ => 2 | .expr => 4 | .assign => 4 | .args _ => 5
  | .bounds => 1 | .specs _ => 1 | .declSpecs => 2 | .enums _ => 1 | .declarator _ => 3 | .memberList _ _ => 4 | .members _ _ => 5
  | .params => 4 | .locals _ => 1 | .globals _ => 1 | .stmt => 7 | .stmts => 8

/-- A statement after a `case` that jumps over the comparison comes first. -/
def ord : Task → S → Nat
  | .stmt, s => if 0 ≤ s.switchStmt then 7 else 6
  | t, _ => top t

theorem ord_le (t : Task) (s : S) : ord t s ≤ top t := by
  cases t <;> simp only [ord, top] <;> first | exact Nat.le_refl _ | (split <;> omega)

/-- Tasks that use up a token. -/
def strict : Task → Nat
  | .stmt => 1
  | .expr1 _ => 1
  | _ => 0

/-- Below the bound the two interpretations of the tasks agree, and they use up tokens. -/
def Env (go g2 : Task → A Int) (b : Nat) : Prop :=
  ∀ t s, AtEnd s → Ok t s → 16 * size s + ord t s < b → Ter (go t) (g2 t) s (fun _ s' => Down (strict t) s s')

theorem Ter.call {t : Task} (h : Env go g2 b) (hi : AtEnd s) (ho : Ok t s) (hr : 16 * size s + top t < b) :
    Ter (go t) (g2 t) s (fun _ s' => Down (strict t) s s') :=
  h t s hi ho (Nat.lt_of_le_of_lt (Nat.add_le_add_left (ord_le t s) _) hr)

theorem Ter.call' {t : Task} (h : Env go g2 b) (hi : AtEnd s) (ho : Ok t s) (hr : 16 * size s + top t < b) :
    Ter (go' go t) (Scc.go' g2 t) s (fun _ s' => Down (strict t) s s') :=
  Ter.bind (Ter.call h hi ho hr) fun _ _ hd => Ter.pure hd

theorem nz_eq {s : S} {t : Nat} (h : s.tok = t) (ht : t ≠ 0) : s.tok ≠ 0 := by rw [h]; exact ht
theorem nz_le {s : S} {t : Nat} (h : t ≤ s.tok) (ht : 0 < t) : s.tok ≠ 0 := by omega
theorem simpleSpec_nz {tok type flags : Nat} {r : Nat × Nat} (h : simpleSpec tok type flags = some r) : tok ≠ 0 := by
  rintro rfl
  cases h

theorem typedef_nz {s : S} {v : VarDecl} (h : lookupTypedef s = some v) : s.tok ≠ 0 := by
  intro h0
  unfold lookupTypedef at h
  rw [h0] at h
  cases h

theorem nz_tr {s s' : S} (h : s'.tok = s.tok) (ht : s.tok ≠ 0) : s'.tok ≠ 0 := by rw [h]; exact ht
theorem nz_or {s : S} {t u : Nat} (h : s.tok = t ∨ s.tok = u) (ht : t ≠ 0) (hu : u ≠ 0) : s.tok ≠ 0 := by omega

/-- A token is not the end of the file. -/
syntax "nz" : tactic
macro_rules | `(tactic| nz) => `(tactic| first
  | assumption
  | exact nz_eq ‹_› (by decide)
  | exact nz_le ‹_› (by decide)
  | exact nz_or ‹_› (by decide) (by decide)
  | omega
  | exact nz_tr ‹_› (nz_eq ‹_› (by decide))
  | exact nz_tr ‹_› (nz_or ‹_› (by decide) (by decide))
  | exact nz_tr ‹_› (simpleSpec_nz ‹_›)
  | exact nz_tr ‹_› (nz_tr ‹_› (typedef_nz ‹_›)))

/-- `NextDecl` uses up a comma if there is a declaration. -/
def took : Option Nat → Nat
  | some _ => 1
  | none => 0

syntax "ar" : tactic
macro_rules | `(tactic| ar) => `(tactic| ((try simp only [top, strict, took] at *); omega))

syntax "down" : tactic
macro_rules | `(tactic| down) => `(tactic| exact ⟨‹_›, by ar⟩)

syntax "into" : tactic
macro_rules | `(tactic| into) => `(tactic| (
  intro _ _ hd
  first
  | obtain ⟨_, _, _, _⟩ : Up _ _ := hd
  | obtain ⟨_, _⟩ : Down _ _ _ := hd))

open Lean Meta Elab Tactic in
/-- The program of a goal. -/
def prog (g : MVarId) : MetaM (Option Expr) := do
  let t ← instantiateMVars (← g.getType)
  let t := t.consumeMData
  unless t.isAppOf ``Ter do return none
  return some (t.getAppArgs[1]!).consumeMData.headBeta

open Lean Meta Elab Tactic in
/-- The rule for a call. -/
elab "rule" : tactic => do
  let g ← getMainGoal
  let some x ← prog g | throwError "no program"
  match x.getAppFn.constName? with
  | some ``Scc.expect => evalTactic (← `(tactic| exact Ter.expect (by decide)))
  | some ``Scc.expectId => evalTactic (← `(tactic| exact Ter.expectId))
  | some ``Scc.getToken => evalTactic (← `(tactic| first | exact Ter.tok (by nz) | exact Ter.tok0))
  | some ``Scc.go' => evalTactic (← `(tactic| exact Ter.call' ‹_› ‹_› (by first | trivial | assumption | exact ⟨by omega, by omega⟩) (by ar)))
  | some c =>
    let n := `Props.SccTerm ++ Name.mkSimple (c.getString! ++ "_ter")
    if (← getEnv).contains n then
      let i := mkIdent (`_root_ ++ n)
      evalTactic (← `(tactic| first | exact $i:ident | exact $i:ident ‹_› | exact $i:ident ‹_› ‹_› (by ar) | exact $i:ident ‹_› ‹_› (by first | nz | assumption) (by ar)))
    else evalTactic (← `(tactic| exact Ter.free (by keep Props.SccTermKeep (intro s; exact ⟨rfl, rfl, rfl, rfl⟩)) ‹_›))
  | none => evalTactic (← `(tactic| exact Ter.call ‹_› ‹_› (by first | trivial | assumption | exact ⟨by omega, by omega⟩) (by ar)))

open Lean Meta Elab Tactic in
/-- One step through a program. -/
elab "ter1" : tactic => do
  let g ← getMainGoal
  let some x ← prog g | throwError "no program"
  if x.isLet then evalTactic (← `(tactic| dsimp only))
  else match x.getAppFn.constName? with
  | some ``Bind.bind =>
    let y := (x.getAppArgs[4]!).consumeMData.headBeta
    match y.getAppFn.constName? with
    | some ``Prog.getS => evalTactic (← `(tactic| refine Ter.getS ?_))
    | some ``Bind.bind => evalTactic (← `(tactic| refine Ter.bind (P := fun _ s' => Down 0 _ s') ?_ ?_))
    | some ``ite => throwError "ite"
    | _ => evalTactic (← `(tactic| (refine Ter.bind (by rule) ?_; into)))
  | some ``Pure.pure => evalTactic (← `(tactic| exact Ter.pure (by down)))
  | some ``Prog.fail => evalTactic (← `(tactic| exact Ter.fail))
  | some ``ite => evalTactic (← `(tactic| refine Ter.ite (fun _ => ?_) (fun _ => ?_)))
  | some _ =>
    if (← isMatcherApp x) then
      evalTactic (← `(tactic| split))
    else evalTactic (← `(tactic| (refine Ter.mono (by rule) ?_; into; down)))
  | none => evalTactic (← `(tactic| (refine Ter.mono (by rule) ?_; into; down)))

syntax "ter" : tactic
macro_rules | `(tactic| ter) => `(tactic| repeat' ter1)

section
variable (he : Env go g2 b) (hi : AtEnd s)
include he hi

theorem parseAbstractDecl_ter (hb : 16 * size s + 4 ≤ b) : Ter (parseAbstractDecl go) (parseAbstractDecl g2) s (fun _ s' => Down 0 s s') := by
  unfold parseAbstractDecl
  ter

theorem handleVarArg_ter (hb : 16 * size s + 1 ≤ b) : Ter (handleVarArg go) (handleVarArg g2) s (fun _ s' => Down 0 s s') := by
  unfold handleVarArg
  ter

omit he in
theorem parseStrLit_ter : Ter parseStrLit parseStrLit s (fun _ s' => Down 0 s s') := by
  unfold parseStrLit
  ter

omit he in
theorem parseMember_ter : Ter parseMember parseMember s (fun _ s' => Down 1 s s') := by
  unfold parseMember
  ter

theorem parsePrimary_ter (hb : 16 * size s + 1 ≤ b) : Ter (parsePrimary go) (parsePrimary g2) s (fun _ s' => Down 0 s s') := by
  unfold parsePrimary
  ter

theorem parseArgs_ter {k : Nat} (hb : 16 * size s + 5 ≤ b) : Ter (parseArgs go k) (parseArgs g2 k) s (fun _ s' => Down 0 s s') := by
  unfold parseArgs
  ter

theorem parseCall_ter (ht : s.tok ≠ 0) (hb : 16 * size s + 1 ≤ b) : Ter (parseCall go) (parseCall g2) s (fun _ s' => Down 1 s s') := by
  unfold parseCall
  ter

theorem parseIndex_ter (ht : s.tok ≠ 0) (hb : 16 * size s + 1 ≤ b) : Ter (parseIndex go) (parseIndex g2) s (fun _ s' => Down 1 s s') := by
  unfold parseIndex
  ter

theorem parsePostfix_ter (hb : 16 * size s + 1 ≤ b) : Ter (parsePostfix go) (parsePostfix g2) s (fun _ s' => Down 0 s s') := by
  unfold parsePostfix
  ter

theorem parseUnaryOp_ter (ht : s.tok ≠ 0) (hb : 16 * size s + 1 ≤ b) : Ter (parseUnaryOp go) (parseUnaryOp g2) s (fun _ s' => Down 1 s s') := by
  unfold parseUnaryOp
  ter

theorem parseSizeof_ter (ht : s.tok ≠ 0) (hb : 16 * size s + 1 ≤ b) : Ter (parseSizeof go) (parseSizeof g2) s (fun _ s' => Down 1 s s') := by
  unfold parseSizeof
  ter

theorem parseUnary_ter (hb : 16 * size s + 2 ≤ b) : Ter (parseUnary go) (parseUnary g2) s (fun _ s' => Down 0 s s') := by
  unfold parseUnary
  ter

theorem parseCast_ter (hb : 16 * size s + 3 ≤ b) : Ter (parseCast go) (parseCast g2) s (fun _ s' => Down 0 s s') := by
  unfold parseCast
  ter

theorem doCond_ter {l : Int} {f : Bool} (hb : 16 * size s + 5 ≤ b) : Ter (doCond go l f) (doCond g2 l f) s (fun _ s' => Down 0 s s') := by
  unfold doCond
  ter

theorem parseMaybeDead_ter {l : Bool} (hb : 16 * size s + 5 ≤ b) : Ter (parseMaybeDead go l) (parseMaybeDead g2 l) s (fun _ s' => Down 0 s s') := by
  unfold parseMaybeDead
  ter

theorem handleCondOp_ter (hb : 16 * size s + 5 ≤ b) : Ter (handleCondOp go) (handleCondOp g2) s (fun _ s' => Down 0 s s') := by
  unfold handleCondOp
  ter

theorem parseBinary_ter {op p : Nat} (hp : p < precStop) (hb : 16 * size s + 4 ≤ b) : Ter (parseBinary go op p) (parseBinary g2 op p) s (fun _ s' => Down 0 s s') := by
  unfold parseBinary
  ter

theorem parseExpr1_ter {o : Nat} (ho : o < precStop ∧ s.prec ≤ o) (hb : 16 * size s + 1 ≤ b) : Ter (parseExpr1 go o) (parseExpr1 g2 o) s (fun _ s' => Down 1 s s') := by
  have ht : s.tok ≠ 0 := fun h => by have := hi h; omega
  have hp : s.prec < precStop := by omega
  unfold parseExpr1
  ter

theorem parseRhs_ter {p : Nat} (hp : p < precStop) (hb : 16 * size s + 2 ≤ b) : Ter (parseRhs go p) (parseRhs g2 p) s (fun _ s' => Down 0 s s') := by
  unfold parseRhs
  ter

theorem parseExpr_ter {p : Nat} (hp : p < precStop) (hb : 16 * size s + 4 ≤ b) : Ter (parseExpr go p) (parseExpr g2 p) s (fun _ s' => Down 0 s s') := by
  unfold parseExpr
  ter

theorem parseMemberList_ter {si : Nat} {l : Option Nat} (hb : 16 * size s + 4 ≤ b) :
    Ter (parseMemberList go si l) (parseMemberList g2 si l) s (fun _ s' => Down 0 s s') := by
  unfold parseMemberList
  ter

theorem parseMembers_ter {si : Nat} {l : Option Nat} (hb : 16 * size s + 5 ≤ b) :
    Ter (parseMembers go si l) (parseMembers g2 si l) s (fun _ s' => Down 0 s s') := by
  unfold parseMembers
  ter

omit he hi in
theorem structName_ter (ht : s.tok ≠ 0) : Ter structName structName s (fun _ s' => Down 1 s s') := by
  unfold structName
  ter

theorem parseStruct_ter (ht : s.tok ≠ 0) (hb : 16 * size s + 1 ≤ b) :
    Ter (parseStruct go) (parseStruct g2) s (fun _ s' => Down 1 s s') := by
  unfold parseStruct
  ter

theorem parseEnums_ter {v : Int} (hb : 16 * size s + 1 ≤ b) :
    Ter (parseEnums go v) (parseEnums g2 v) s (fun _ s' => Down 0 s s') := by
  unfold parseEnums
  ter

theorem parseEnum_ter (ht : s.tok ≠ 0) (hb : 16 * size s + 1 ≤ b) :
    Ter (parseEnum go) (parseEnum g2) s (fun _ s' => Down 1 s s') := by
  unfold parseEnum
  ter

theorem parseSpecs_ter {f : Nat} (hb : 16 * size s + 1 ≤ b) :
    Ter (parseSpecs go f) (parseSpecs g2 f) s (fun _ s' => Down 0 s s') := by
  unfold parseSpecs
  ter

theorem parseDeclSpecs_ter (hb : 16 * size s + 2 ≤ b) :
    Ter (parseDeclSpecs go) (parseDeclSpecs g2) s (fun _ s' => Down 0 s s') := by
  unfold parseDeclSpecs
  ter

theorem parseParams_ter (hb : 16 * size s + 4 ≤ b) :
    Ter (parseParams go) (parseParams g2) s (fun _ s' => Down 0 s s') := by
  unfold parseParams
  ter

theorem parseBounds_ter (hb : 16 * size s + 1 ≤ b) :
    Ter (parseBounds go) (parseBounds g2) s (fun _ s' => Down 0 s s') := by
  unfold parseBounds
  ter

omit he in
theorem declId_ter {d : Dest} : Ter (declId d) (declId d) s (fun _ s' => Down 0 s s') := by
  unfold declId
  ter

theorem declRest_ter {d : Dest} (hb : 16 * size s + 3 ≤ b) :
    Ter (declRest go d) (declRest g2 d) s (fun _ s' => Down 0 s s') := by
  unfold declRest
  ter

theorem parseDeclarator_ter {d : Dest} (hb : 16 * size s + 3 ≤ b) :
    Ter (parseDeclarator go d) (parseDeclarator g2 d) s (fun _ s' => Down 0 s s') := by
  unfold parseDeclarator
  ter

theorem doDecl_ter (hb : 16 * size s + 4 ≤ b) :
    Ter (doDecl go) (doDecl g2) s (fun _ s' => Down 0 s s') := by
  unfold doDecl
  ter

theorem parseFirstDecl_ter (hb : 16 * size s + 4 ≤ b) :
    Ter (parseFirstDecl go) (parseFirstDecl g2) s (fun _ s' => Down 0 s s') := by
  unfold parseFirstDecl
  ter


theorem nextDecl_ter (hb : 16 * size s + 1 ≤ b) :
    Ter (nextDecl go) (nextDecl g2) s (fun v s' => Down (took v) s s') := by
  unfold nextDecl
  refine Ter.getS (Ter.ite (fun _ => Ter.pure ⟨hi, Nat.le_refl _⟩) fun hc => ?_)
  refine Ter.bind (Ter.tok (by omega)) ?_
  into
  refine Ter.bind (by rule) ?_
  into
  refine Ter.bind (by rule) ?_
  into
  exact Ter.pure ⟨‹_›, show _ + 1 ≤ _ by ar⟩

theorem doLoopStatements_ter {l : Int} {c : Int} (hb : 16 * size s + 8 ≤ b) :
    Ter (doLoopStatements go l c) (doLoopStatements g2 l c) s (fun _ s' => Down 1 s s') := by
  unfold doLoopStatements
  ter

theorem parseStmts_ter (hb : 16 * size s + 8 ≤ b) :
    Ter (parseStmts go) (parseStmts g2) s (fun _ s' => Down 0 s s') := by
  unfold parseStmts
  ter

theorem parseBlock_ter (hb : 16 * size s + 6 ≤ b) :
    Ter (parseBlock go) (parseBlock g2) s (fun _ s' => Down 1 s s') := by
  unfold parseBlock
  ter

theorem parseCases_ter {n : Nat} (hb : 16 * size s + 5 ≤ b) :
    Ter (parseCases go (n + 1)) (parseCases g2 (n + 1)) s (fun _ s' => Down 1 s s') := by
  induction n generalizing s with
  | zero => unfold parseCases; unfold parseCases; ter
  | succ n ih =>
    unfold parseCases
    refine Ter.bind (by rule) ?_
    into
    refine Ter.bind (by rule) ?_
    into
    refine Ter.bind (by rule) ?_
    into
    refine Ter.getS ?_
    refine Ter.bind (by rule) ?_
    into
    refine Ter.ite (fun _ => ?_) (fun _ => ?_)
    · refine Ter.bind (ih ‹_› (by ar)) ?_
      into
      ter
    · ter

/-- After the jump the state is one after which no jump is due. -/
theorem switchStmtLabel_ter (hb : 16 * size s + 7 ≤ b) :
    Ter (switchStmtLabel go) (switchStmtLabel g2) s (fun _ s' => Down 1 s s') := by
  unfold switchStmtLabel
  refine Ter.getS ?_
  refine Ter.bind (by rule) ?_
  into
  rename_i s1 h1 h2 h3 h4
  refine Ter.bind (P := fun _ s' => Up s1 s' ∧ s'.switchStmt = -1) ?_ ?_
  · refine ⟨rfl, fun _ _ e => ?_⟩
    cases e
    exact ⟨⟨rfl, rfl, h3, rfl⟩, rfl⟩
  · rintro _ s2 ⟨hu, hs⟩
    refine Ter.bind (Ter.mono (he .stmt s2 hu.inv trivial ?_) ?_) (P := fun _ s' => Down 1 s s') ?_
    · have : ord .stmt s2 = 6 := by simp [ord, hs]
      have := hu.size
      omega
    · rintro _ s3 ⟨h5, h6⟩
      have := hu.size
      exact ⟨h5, by ar⟩
    · intro _ _ hd
      exact Ter.pure hd

theorem parseCase_ter (hb : 16 * size s + 6 ≤ b) :
    Ter (parseCase go) (parseCase g2) s (fun _ s' => Down 1 s s') := by
  unfold parseCase
  ter

theorem parseDefault_ter (hb : 16 * size s + 6 ≤ b) :
    Ter (parseDefault go) (parseDefault g2) s (fun _ s' => Down 1 s s') := by
  unfold parseDefault
  ter

omit he hi in
theorem getSemicolon_ter : Ter getSemicolon getSemicolon s (fun _ s' => Down 1 s s') := by
  unfold getSemicolon
  ter

theorem parseReturn_ter (hb : 16 * size s + 6 ≤ b) :
    Ter (parseReturn go) (parseReturn g2) s (fun _ s' => Down 1 s s') := by
  unfold parseReturn
  ter

theorem parseIf_ter (ht : s.tok ≠ 0) (hb : 16 * size s + 6 ≤ b) :
    Ter (parseIf go) (parseIf g2) s (fun _ s' => Down 1 s s') := by
  unfold parseIf
  ter

theorem forIter_ter {c : Nat} {d : Nat} (hb : 16 * size s + 5 ≤ b) :
    Ter (forIter go c d) (forIter g2 c d) s (fun _ s' => Down 0 s s') := by
  unfold forIter
  ter

theorem parseFor_ter (ht : s.tok ≠ 0) (hb : 16 * size s + 6 ≤ b) :
    Ter (parseFor go) (parseFor g2) s (fun _ s' => Down 1 s s') := by
  unfold parseFor
  ter

theorem parseWhile_ter (ht : s.tok ≠ 0) (hb : 16 * size s + 6 ≤ b) :
    Ter (parseWhile go) (parseWhile g2) s (fun _ s' => Down 1 s s') := by
  unfold parseWhile
  ter

theorem parseDo_ter (ht : s.tok ≠ 0) (hb : 16 * size s + 6 ≤ b) :
    Ter (parseDo go) (parseDo g2) s (fun _ s' => Down 1 s s') := by
  unfold parseDo
  ter

theorem parseSwitch_ter (ht : s.tok ≠ 0) (hb : 16 * size s + 6 ≤ b) :
    Ter (parseSwitch go) (parseSwitch g2) s (fun _ s' => Down 1 s s') := by
  unfold parseSwitch
  ter

theorem localVar_ter {v : Nat} (hb : 16 * size s + 1 ≤ b) :
    Ter (localVar go v) (localVar g2 v) s (fun _ s' => Down 0 s s') := by
  unfold localVar
  ter

theorem parseLocals_ter {v : Nat} (hb : 16 * size s + 1 ≤ b) :
    Ter (parseLocals go v) (parseLocals g2 v) s (fun _ s' => Down 0 s s') := by
  unfold parseLocals
  ter

theorem parseIdStmt_ter (ht : s.tok ≠ 0) (hb : 16 * size s + 6 ≤ b) :
    Ter (parseIdStmt go) (parseIdStmt g2) s (fun _ s' => Down 1 s s') := by
  unfold parseIdStmt
  ter

theorem parseSimple_ter (hb : 16 * size s + 6 ≤ b) :
    Ter (parseSimple go) (parseSimple g2) s (fun _ s' => Down 1 s s') := by
  unfold parseSimple
  ter

theorem parseKeyword_ter (hb : 16 * size s + 6 ≤ b) :
    Ter (parseKeyword go) (parseKeyword g2) s (fun _ s' => Down 1 s s') := by
  unfold parseKeyword
  ter

theorem parseGlobals_ter {v : Nat} (hb : 16 * size s + 1 ≤ b) :
    Ter (parseGlobals go v) (parseGlobals g2 v) s (fun _ s' => Down 0 s s') := by
  unfold parseGlobals
  ter

theorem parseFunction_ter {v : Nat} (hb : 16 * size s + 8 ≤ b) :
    Ter (parseFunction go v) (parseFunction g2 v) s (fun _ s' => Down 1 s s') := by
  unfold parseFunction
  ter

theorem parseExternal_ter (hb : 16 * size s + 8 ≤ b) :
    Ter (parseExternal go) (parseExternal g2) s (fun _ s' => Down 1 s s') := by
  unfold parseExternal
  ter


theorem parseStatement_ter (hb : 16 * size s + ord .stmt s ≤ b) :
    Ter (parseStatement go) (parseStatement g2) s (fun _ s' => Down 1 s s') := by
  unfold parseStatement
  refine Ter.getS ?_
  by_cases hs : 0 ≤ s.switchStmt
  · have h7 : ord .stmt s = 7 := by simp [ord, hs]
    rw [h7] at hb
    ter
  · have h6 : ord .stmt s = 6 := by simp [ord, hs]
    rw [h6] at hb
    refine Ter.ite (fun _ => ?_) (fun _ => Ter.ite (fun _ => ?_) (fun _ => Ter.ite (fun _ => ?_) (fun _ => Ter.ite (fun h => absurd h.2 hs) (fun _ => ?_))))
    all_goals ter

theorem unit0_ter {x y : A Unit} {k : Nat} (h : Ter x y s (fun _ s' => Down k s s')) :
    Ter (unit0 x) (unit0 y) s (fun _ s' => Down k s s') :=
  Ter.bind h fun _ _ hd => Ter.pure hd

/-- One step of the recursion. -/
theorem step_ter (t : Task) (ho : Ok t s) (hb : 16 * size s + ord t s ≤ b) :
    Ter (step go t) (step g2 t) s (fun _ s' => Down (strict t) s s') := by
  cases t with
  | expr => exact unit0_ter he hi (parseExpr_ter he hi (by decide) hb)
  | assign => exact unit0_ter he hi (parseExpr_ter he hi (by decide) hb)
  | expr1 o => exact unit0_ter he hi (parseExpr1_ter he hi ho hb)
  | rhs p => exact unit0_ter he hi (parseRhs_ter he hi ho hb)
  | cast => exact unit0_ter he hi (parseCast_ter he hi hb)
  | unary => exact unit0_ter he hi (parseUnary_ter he hi hb)
  | «postfix» => exact unit0_ter he hi (parsePostfix_ter he hi hb)
  | args k => exact parseArgs_ter he hi hb
  | primary => exact unit0_ter he hi (parsePrimary_ter he hi hb)
  | declSpecs => exact unit0_ter he hi (parseDeclSpecs_ter he hi hb)
  | specs f => exact unit0_ter he hi (parseSpecs_ter he hi hb)
  | enums v => exact unit0_ter he hi (parseEnums_ter he hi hb)
  | members si l => exact parseMembers_ter he hi hb
  | memberList si l => exact parseMemberList_ter he hi hb
  | declarator d => exact parseDeclarator_ter he hi hb
  | params => exact unit0_ter he hi (parseParams_ter he hi hb)
  | bounds => exact unit0_ter he hi (parseBounds_ter he hi hb)
  | stmt => exact unit0_ter he hi (parseStatement_ter he hi hb)
  | stmts => exact unit0_ter he hi (parseStmts_ter he hi hb)
  | locals v => exact unit0_ter he hi (parseLocals_ter he hi hb)
  | globals v => exact unit0_ter he hi (parseGlobals_ter he hi hb)

end

end Props.SccTerm
