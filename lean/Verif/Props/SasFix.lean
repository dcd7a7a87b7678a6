import Verif.Props.SasFixInv
/-!
# C20, C21: label references and fixup nodes of the assembler
-/
namespace Props.SasFix
open Sas I86 Prog

/-- The current token, if it is a user identifier, is not a constant. -/
def TokOk (s : S) : Prop := s.lex.tok.ty ≥ tokUserId → (s.labels (s.lex.tok.ty - tokUserId)).ty ≠ .equ

/-- The invariant together with the operands at hand. -/
def I0 (os : List Operand) (s : S) : Prop := M1 s ∨ (Inv s ∧ ∀ o ∈ os, OpOk s o)

def I (os : List Operand) (s : S) : Prop := TokOk s ∧ I0 os s

theorem I0.mono {os os' : List Operand} (h : ∀ o ∈ os', o ∈ os) {s : S} (i : I0 os s) : I0 os' s :=
  i.imp id fun i => ⟨i.1, fun o ho => i.2 o (h o ho)⟩

theorem I.mono {os os' : List Operand} (h : ∀ o ∈ os', o ∈ os) {s : S} (i : I os s) : I os' s := ⟨i.1, i.2.mono h⟩

theorem I0.same {os : List Operand} {s s' : S} (h : Same s s') (i : I0 os s) : I0 os s' :=
  i.imp (M1.same h) fun ⟨⟨f, c, i⟩, o⟩ => ⟨⟨f, c, i.same h⟩, fun x hx => (o x hx).same h⟩

/-! ## Lexer -/

theorem not_user {n : Nat} (h : n < tokUserId) : ¬ n ≥ tokUserId := Nat.not_le.mpr h

theorem synonym_lt {ty : Nat} (h : ty < tokUserId) : synonym ty < tokUserId := by
  have : tokUserId = 355 := rfl
  unfold synonym
  repeat' split
  all_goals omega

theorem translateId_ok (equ : Nat → Option Int) (ty : Nat) :
    (translateId equ ty).ty ≥ tokUserId → equ ((translateId equ ty).ty - tokUserId) = none := by
  unfold translateId
  split
  · split
    · intro h; exact absurd h (not_user (by show _ < 355; simp only [tokNumber, tokEof, tokString, tokLsh]; decide))
    · next h => intro _; exact h
  · next h => intro h'; exact absurd h' (Nat.not_le.mpr (synonym_lt (Nat.lt_of_not_le h)))

theorem byte_lt_user (c : Byte) : ¬ c.toNat ≥ tokUserId := by have := c.isLt; have : tokUserId = 355 := rfl; omega

theorem lexStep_ok {equ : Nat → Option Int} {l l' : Lex} (h : lexStep equ l = .ok l') :
    l'.tok.ty ≥ tokUserId → equ (l'.tok.ty - tokUserId) = none := by
  unfold lexStep at h
  split at h
  · cases h; intro h; exact absurd h (not_user (by show _ < 355; simp only [tokNumber, tokEof, tokString, tokLsh]; decide))
  · split at h
    · cases h; intro h; exact absurd h (not_user (by show _ < 355; simp only [tokNumber, tokEof, tokString, tokLsh]; decide))
    · unfold lexTok at h
      split at h
      · split at h
        · cases h; intro h; exact absurd h (not_user (by show _ < 355; simp only [tokNumber, tokEof, tokString, tokLsh]; decide))
        · cases h
      · split at h
        · dsimp only at h
          split at h
          · cases h; exact translateId_ok _ _
          · cases h
        · split at h
          · split at h
            · cases h; intro h; exact absurd h (not_user (by show _ < 355; simp only [tokNumber, tokEof, tokString, tokLsh]; decide))
            · cases h
          · split at h
            · cases h; intro h; exact absurd h (byte_lt_user _)
            · split at h
              · cases h; intro h; exact absurd h (not_user (by show _ < 355; simp only [tokNumber, tokEof, tokString, tokLsh]; decide))
              · cases h

theorem getToken_ok {s s' : S} {a : Unit} (h : getToken s = .ok a s') :
    s' = { s with lex := s'.lex } ∧ (s'.lex.tok.ty ≥ tokUserId → (s.labels (s'.lex.tok.ty - tokUserId)).ty ≠ .equ) := by
  unfold getToken at h
  split at h
  · next l hl =>
    cases h
    refine ⟨rfl, fun h => ?_⟩
    have := lexStep_ok hl h
    unfold equOf at this
    intro e
    rw [if_pos e] at this
    cases this
  · cases h

theorem same_lex (s : S) (l : Lex) : Same s { s with lex := l } := ⟨rfl, rfl, rfl, rfl, rfl, rfl, rfl, rfl⟩

theorem tri_getToken {os : List Operand} : Tri (I0 os) getToken (fun _ => I os) := by
  intro s a s' hs h
  obtain ⟨e, ht⟩ := getToken_ok h
  refine ⟨?_, ?_⟩
  · unfold TokOk
    intro h'
    have := ht h'
    rw [e]; exact this
  · rw [e]; exact hs.same (same_lex s _)

theorem tri_getToken' {os : List Operand} : Tri (I os) getToken (fun _ => I os) := tri_getToken.pre fun _ h => h.2

theorem tri_tokTy {P : S → Prop} : Tri P tokTy (fun _ => P) := by intro s a s' hs h; cases h; exact hs
theorem tri_curTok {P : S → Prop} : Tri P curTok (fun _ => P) := by intro s a s' hs h; cases h; exact hs
theorem tri_tokFuel {P : S → Prop} : Tri P tokFuel (fun _ => P) := by intro s a s' hs h; cases h; exact hs
theorem tri_getS {P : S → Prop} : Tri P getS (fun _ => P) := by intro s a s' hs h; cases h; exact hs
theorem tri_assertM {P : S → Prop} {b : Bool} : Tri P (assertM b) (fun _ => P) := Tri.assertM.post fun _ _ h => h.1
theorem tri_ck {P : S → Prop} {n : Int} : Tri P (ck n) (fun _ => P) := by
  unfold ck; exact Tri.ite (fun _ => Tri.pure fun _ h => h) (fun _ => Tri.fail)
theorem ck_ok {n m : Int} {s s' : S} (h : ck n s = .ok m s') : m = n ∧ s' = s := by
  unfold ck at h; split at h
  · cases h; exact ⟨rfl, rfl⟩
  · cases h

/-! ## Output -/

theorem outputByte_ok {b : Byte} {s s' : S} {a : Unit} (h : outputByte b s = .ok a s') :
    s' = { s with out := s.out.push b, va := s.va + 1 } := by
  unfold outputByte at h
  obtain ⟨s1, _, e1, h⟩ := bind_eq_ok.mp h
  cases e1
  obtain ⟨_, _, e2, h⟩ := bind_eq_ok.mp h
  rw [assertM_run] at e2
  split at e2
  · cases e2
    obtain ⟨_, _, e3, h⟩ := bind_eq_ok.mp h
    rw [assertM_run] at e3
    split at e3
    · cases e3
      obtain ⟨_, _, e4, h⟩ := bind_eq_ok.mp h
      obtain ⟨rfl, rfl⟩ := ck_ok e4
      cases h; rfl
    · cases e3
  · cases e2

theorem outputWord_ok {w : Int} {s s' : S} {a : Unit} (h : outputWord w s = .ok a s') :
    s' = { s with out := (s.out.push (toByte w)).push (toByte (w / 256)), va := s.va + 1 + 1 } := by
  unfold outputWord at h
  obtain ⟨_, s1, e1, h⟩ := bind_eq_ok.mp h
  rw [outputByte_ok h, outputByte_ok e1]

theorem I0.grow {os : List Operand} {s : S} (i : I0 os s) {out : Array Byte} {va : Int}
    (hsz : s.out.size ≤ out.size) (hpre : ∀ k < s.out.size, byteAt out k = byteAt s.out k) : I0 os { s with out, va } := by
  rcases i with h | ⟨⟨f, c, i⟩, ho⟩
  · exact Or.inl h
  · exact Or.inr ⟨⟨f, c, i.grow hsz hpre⟩, fun o h => ho o h⟩

theorem tri_outputByte {os : List Operand} {b : Byte} : Tri (I os) (outputByte b) (fun _ => I os) := by
  intro s a s' hs h
  rw [outputByte_ok h]
  exact ⟨hs.1, hs.2.grow (by simp) fun k hk => byteAt_push_lt hk⟩

theorem tri_outputWord {os : List Operand} {w : Int} : Tri (I os) (outputWord w) (fun _ => I os) := by
  unfold outputWord
  exact tri_outputByte.bind fun _ => tri_outputByte

theorem tri_outputBytes {os : List Operand} : ∀ l, Tri (I os) (outputBytes l) (fun _ => I os)
  | [] => Tri.pure fun _ h => h
  | b :: l => by
    unfold outputBytes
    exact tri_outputByte.bind fun _ => tri_outputBytes l

/-! ## Emitted operands -/

theorem fixOp_ok {o : Operand} {ty : FixT} {s s' : S} {a : Unit} (h : fixOp o ty s = .ok a s') :
    s' = addFix o ty s ∧ (o.fixup ≠ none → s.nextFixup ≠ none) := by
  unfold fixOp at h
  unfold addFix
  cases hi : o.fixup with
  | none => rw [hi] at h; cases h; exact ⟨rfl, fun h => absurd rfl h⟩
  | some i =>
    rw [hi] at h
    unfold addFixupHere at h
    obtain ⟨s1, _, e1, h⟩ := bind_eq_ok.mp h
    cases e1
    cases hf : s.nextFixup with
    | none => rw [hf] at h; cases h
    | some f => rw [hf] at h; cases h; exact ⟨rfl, fun _ => by simp⟩

theorem relDisp_ok {o : Operand} {k d : Int} {s s' : S} (h : relDisp o k s = .ok d s') : s' = s ∧ d = o.disp - (s.va + k) := by
  unfold relDisp at h
  obtain ⟨s1, _, e1, h⟩ := bind_eq_ok.mp h
  cases e1
  obtain ⟨n, _, e2, h⟩ := bind_eq_ok.mp h
  obtain ⟨rfl, rfl⟩ := ck_ok e2
  obtain ⟨rfl, rfl⟩ := ck_ok h
  exact ⟨rfl, rfl⟩

theorem addFix_frame (o : Operand) (ty : FixT) (s : S) :
    (addFix o ty s).out = s.out ∧ (addFix o ty s).va = s.va ∧ (addFix o ty s).gRefs = s.gRefs ∧ (addFix o ty s).gDefs = s.gDefs ∧
    (addFix o ty s).lex = s.lex ∧
    ∀ j, ((addFix o ty s).labels j).ty = (s.labels j).ty ∧ ((addFix o ty s).labels j).val = (s.labels j).val ∧
      ((addFix o ty s).labels j).gInst = (s.labels j).gInst := by
  unfold addFix
  split
  · refine ⟨rfl, rfl, rfl, rfl, rfl, fun j => ?_⟩
    simp only [upd]
    split
    · next e => subst e; exact ⟨rfl, rfl, rfl⟩
    · exact ⟨rfl, rfl, rfl⟩
  · exact ⟨rfl, rfl, rfl, rfl, rfl, fun j => ⟨rfl, rfl, rfl⟩⟩

theorem mkRef_addFix (k : RefK) (o : Operand) (ty : FixT) (s : S) : mkRef k o (addFix o ty s) = mkRef k o s := by
  obtain ⟨h1, h2, _, _, _, h6⟩ := addFix_frame o ty s
  unfold mkRef
  rw [h1, h2]
  congr 1
  cases o.fixup with
  | none => rfl
  | some i => simp only [Option.map_some, (h6 i).2.2]

/-- Emitting an operand keeps the invariant. -/
theorem I.emit {os : List Operand} {s : S} (hs : I os s) {o : Operand} (ho : o ∈ os) {k : RefK} {ty : FixT} {out : Array Byte} {va : Int}
    (hk : o.fixup ≠ none → kindOf ty = k ∧ s.nextFixup ≠ none)
    (hsz : out.size = s.out.size + RefK.size k) (hpre : ∀ k < s.out.size, byteAt out k = byteAt s.out k)
    (hold : OpOk s o → Holds out (mkRef k o s) o.disp) :
    I os { addFix o ty s with gRefs := mkRef k o s :: s.gRefs, out, va } := by
  obtain ⟨h1, h2, h3, h4, h5, h6⟩ := addFix_frame o ty s
  refine ⟨?_, ?_⟩
  · have := hs.1
    unfold TokOk at this ⊢
    simp only [h5, (h6 _).1]
    exact this
  · rcases hs.2 with h | ⟨hi, hos⟩
    · left
      unfold M1 at h ⊢
      simp only [h4]; exact h
    · right
      refine ⟨hi.emit (hos o ho) hk hsz hpre (hold (hos o ho)), fun o' ho' => ?_⟩
      have := hos o' ho'
      unfold OpOk Pend at this ⊢
      simp only [h4, (h6 _).1, (h6 _).2.1, (h6 _).2.2]
      exact this

theorem wordAt_push2 {out : Array Byte} {w : Int} :
    wordAt ((out.push (toByte w)).push (toByte (w / 256))) out.size = BitVec.ofInt 16 w := by
  unfold wordAt
  have := byteAt_push_eq (out := out.push (toByte w)) (b := toByte (w / 256))
  rw [Array.size_push] at this
  rw [this, byteAt_push_lt (by simp), byteAt_push_eq, word_toByte]

theorem push2_size {out : Array Byte} {b c : Byte} : ((out.push b).push c).size = out.size + 2 := by simp

theorem push2_pre {out : Array Byte} {b c : Byte} : ∀ k < out.size, byteAt ((out.push b).push c) k = byteAt out k := by
  intro k hk
  rw [byteAt_push_lt (by simp; omega), byteAt_push_lt hk]

theorem emit16_ok {o : Operand} {s s' : S} {a : Unit} (h : (do fixOp o .disp16; logRef .abs16 o; outputWord o.disp : A Unit) s = .ok a s') :
    s' = { addFix o .disp16 s with gRefs := mkRef .abs16 o s :: s.gRefs, out := (s.out.push (toByte o.disp)).push (toByte (o.disp / 256)), va := s.va + 1 + 1 } ∧
    (o.fixup ≠ none → s.nextFixup ≠ none) := by
  obtain ⟨_, s1, e1, h⟩ := bind_eq_ok.mp h
  obtain ⟨rfl, hn⟩ := fixOp_ok e1
  obtain ⟨_, s2, e2, h⟩ := bind_eq_ok.mp h
  cases e2
  rw [outputWord_ok h]
  obtain ⟨h1, h2, h3, _⟩ := addFix_frame o .disp16 s
  have e := mkRef_addFix .abs16 o .disp16 s
  refine ⟨?_, hn⟩
  unfold mkRef at e
  simp only [h1, h2, h3] at e ⊢
  rw [e]; rfl

theorem tri_emit16 {os : List Operand} {o : Operand} (ho : o ∈ os) :
    Tri (I os) (do fixOp o .disp16; logRef .abs16 o; outputWord o.disp : A Unit) (fun _ => I os) := by
  intro s a s' hs h
  obtain ⟨rfl, hn⟩ := emit16_ok h
  exact hs.emit ho (fun h => ⟨rfl, hn h⟩) push2_size push2_pre fun _ => wordAt_push2

theorem rel16_ok {o : Operand} {s s' : S} {a : Unit} (h : handleRel16 o s = .ok a s') :
    s' = { addFix o .rel16 s with gRefs := mkRef .rel16 o s :: s.gRefs, out := (s.out.push (toByte (o.disp - (s.va + 2)))).push (toByte ((o.disp - (s.va + 2)) / 256)), va := s.va + 1 + 1 } ∧
    (o.fixup ≠ none → s.nextFixup ≠ none) := by
  unfold handleRel16 at h
  obtain ⟨_, s1, e1, h⟩ := bind_eq_ok.mp h
  obtain ⟨rfl, hn⟩ := fixOp_ok e1
  obtain ⟨_, s2, e2, h⟩ := bind_eq_ok.mp h
  cases e2
  obtain ⟨_, s3, e3, h⟩ := bind_eq_ok.mp h
  obtain ⟨rfl, rfl⟩ := relDisp_ok e3
  rw [outputWord_ok h]
  obtain ⟨h1, h2, h3, _⟩ := addFix_frame o .rel16 s
  have e := mkRef_addFix .rel16 o .rel16 s
  refine ⟨?_, hn⟩
  unfold mkRef at e
  simp only [h1, h2, h3] at e ⊢
  rw [e]; rfl

theorem tri_rel16 {os : List Operand} {o : Operand} (ho : o ∈ os) : Tri (I os) (handleRel16 o) (fun _ => I os) := by
  intro s a s' hs h
  obtain ⟨rfl, hn⟩ := rel16_ok h
  exact hs.emit ho (fun h => ⟨rfl, hn h⟩) push2_size push2_pre fun _ => wordAt_push2

theorem rel8_core {o : Operand} {s s' : S} {a : Unit} {d : Int}
    (h : (do fixOp o .rel8; logRef .rel8 o; let d ← relDisp { o with disp := d } 1; outputByte (toByte d) : A Unit) s = .ok a s') :
    s' = { addFix o .rel8 s with gRefs := mkRef .rel8 o s :: s.gRefs, out := s.out.push (toByte (d - (s.va + 1))), va := s.va + 1 } ∧
    (o.fixup ≠ none → s.nextFixup ≠ none) := by
  obtain ⟨_, s1, e1, h⟩ := bind_eq_ok.mp h
  obtain ⟨rfl, hn⟩ := fixOp_ok e1
  obtain ⟨_, s2, e2, h⟩ := bind_eq_ok.mp h
  cases e2
  obtain ⟨_, s3, e3, h⟩ := bind_eq_ok.mp h
  obtain ⟨rfl, rfl⟩ := relDisp_ok e3
  rw [outputByte_ok h]
  obtain ⟨h1, h2, h3, _⟩ := addFix_frame o .rel8 s
  have e := mkRef_addFix .rel8 o .rel8 s
  refine ⟨?_, hn⟩
  unfold mkRef at e
  simp only [h1, h2, h3] at e ⊢
  rw [e]; rfl

theorem tri_rel8_core {os : List Operand} {o : Operand} (ho : o ∈ os) {d : Int} (hd : ∀ s, OpOk s o → o.disp = d) :
    Tri (I os) (do fixOp o .rel8; logRef .rel8 o; let d ← relDisp { o with disp := d } 1; outputByte (toByte d) : A Unit)
      (fun _ => I os) := by
  intro s a s' hs h
  obtain ⟨rfl, hn⟩ := rel8_core h
  refine hs.emit ho (fun h => ⟨rfl, hn h⟩) (by simp [RefK.size]) (fun k hk => byteAt_push_lt hk) ?_
  intro h
  have := hd s h
  subst this
  exact byteAt_push_eq

theorem tri_rel8 {os : List Operand} {o : Operand} (ho : o ∈ os) : Tri (I os) (handleRel8 o) (fun _ => I os) :=
  tri_rel8_core ho fun _ _ => rfl

theorem tri_abs8 {os : List Operand} {o : Operand} (ho : o ∈ os) (hf : o.fixup = none) (hs : isShort o.disp = true) :
    Tri (I os) (do logRef .abs8 o; outputByte (toByte o.disp) : A Unit) (fun _ => I os) := by
  intro s a s' hi h
  obtain ⟨_, s1, e1, h⟩ := bind_eq_ok.mp h
  cases e1
  rw [outputByte_ok h]
  have := hi.emit ho (k := .abs8) (ty := .disp16) (out := s.out.push (toByte o.disp)) (va := s.va + 1) (fun h => absurd hf h)
    (by simp [RefK.size]) (fun k hk => byteAt_push_lt hk) (fun _ => by
      show (byteAt _ _).signExtend 16 = _
      rw [show (mkRef .abs8 o s).off = s.out.size from rfl, byteAt_push_eq]
      unfold isShort at hs
      simp only [beq_iff_eq] at hs
      apply BitVec.eq_of_toInt_eq
      rw [BitVec.toInt_signExtend_of_le (by decide)]
      rw [BitVec.toInt_ofInt]
      rw [show o.disp.bmod (2 ^ 16) = (toByte o.disp).toInt.bmod (2 ^ 16) from by
        rw [← Int.emod_bmod o.disp, ← Int.emod_bmod (toByte o.disp).toInt]; exact congrArg (Int.bmod · _) hs]
      have h1 := (toByte o.disp).toInt_lt
      have h2 := (toByte o.disp).le_toInt
      rw [Int.bmod_eq_of_le (by omega) (by omega)])
  have e : addFix o .disp16 s = s := by unfold addFix; simp only [hf]
  rw [e] at this
  exact this


/-! ## Triples for the parts of the assembler -/

/-- A fact about a part of the program that keeps the invariant. -/
syntax "tri_lemma" : tactic
macro_rules | `(tactic| tri_lemma) => `(tactic| with_reducible exact Tri.fail)
macro_rules | `(tactic| tri_lemma) => `(tactic| with_reducible exact Tri.pure fun _ h => h)
macro_rules | `(tactic| tri_lemma) => `(tactic| with_reducible exact tri_getToken')
macro_rules | `(tactic| tri_lemma) => `(tactic| with_reducible exact tri_tokTy)
macro_rules | `(tactic| tri_lemma) => `(tactic| with_reducible exact tri_curTok)
macro_rules | `(tactic| tri_lemma) => `(tactic| with_reducible exact tri_tokFuel)
macro_rules | `(tactic| tri_lemma) => `(tactic| with_reducible exact tri_getS)
macro_rules | `(tactic| tri_lemma) => `(tactic| with_reducible exact tri_assertM)
macro_rules | `(tactic| tri_lemma) => `(tactic| with_reducible exact tri_ck)
macro_rules | `(tactic| tri_lemma) => `(tactic| with_reducible exact tri_outputByte)
macro_rules | `(tactic| tri_lemma) => `(tactic| with_reducible exact tri_outputWord)
macro_rules | `(tactic| tri_lemma) => `(tactic| with_reducible exact tri_outputBytes _)

theorem tri_seq {os : List Operand} {α β : Type} {x : A α} {f : α → A β} {Q : β → S → Prop} (hx : Tri (I os) x (fun _ => I os))
    (hf : ∀ a, Tri (I os) (f a) Q) : Tri (I os) (x >>= f) Q := hx.bind hf

/-- Go through a program whose parts keep the invariant. -/
macro "tri_go" : tactic => `(tactic| repeat' first
  | tri_lemma
  | with_reducible refine Tri.ite (fun _ => ?_) (fun _ => ?_)
  | with_reducible refine tri_seq ?_ (fun _ => ?_)
  | split)

variable {os : List Operand}

theorem tri_numFromString : Tri (I os) numFromString (fun _ => I os) := by
  unfold numFromString; tri_go

macro_rules | `(tactic| tri_lemma) => `(tactic| with_reducible exact tri_numFromString)

theorem tri_parsePrimary : Tri (I os) parsePrimary (fun _ => I os) := by
  unfold parsePrimary; tri_go

macro_rules | `(tactic| tri_lemma) => `(tactic| with_reducible exact tri_parsePrimary)

theorem tri_unaryOp {op : Nat} {n : Int} : Tri (I os) (unaryOp op n) (fun _ => I os) := by
  unfold unaryOp; tri_go

macro_rules | `(tactic| tri_lemma) => `(tactic| with_reducible exact tri_unaryOp)

theorem tri_parseUnary : ∀ fuel, Tri (I os) (parseUnary fuel) (fun _ => I os)
  | 0 => Tri.fail
  | fuel + 1 => by
    have := tri_parseUnary fuel
    unfold parseUnary
    repeat' first | exact this | tri_go

macro_rules | `(tactic| tri_lemma) => `(tactic| with_reducible exact tri_parseUnary _)

theorem tri_binOp {op : Nat} {l r : Int} : Tri (I os) (binOp op l r) (fun _ => I os) := by
  unfold binOp; tri_go

macro_rules | `(tactic| tri_lemma) => `(tactic| with_reducible exact tri_binOp)

theorem tri_parseExprs : ∀ fuel, (∀ l p, Tri (I os) (parseExpr fuel l p) (fun _ => I os)) ∧
    (∀ l p, Tri (I os) (parseInner fuel l p) (fun _ => I os))
  | 0 => ⟨fun _ _ => by unfold parseExpr; exact Tri.fail, fun _ _ => by unfold parseInner; exact Tri.fail⟩
  | fuel + 1 => by
    obtain ⟨h1, h2⟩ := tri_parseExprs fuel
    constructor
    · intro l p
      unfold parseExpr
      repeat' first | exact h1 _ _ | exact h2 _ _ | tri_lemma | refine Tri.ite (fun _ => ?_) (fun _ => ?_) |
        refine tri_seq ?_ (fun _ => ?_)
    · intro l p
      unfold parseInner
      repeat' first | exact h1 _ _ | exact h2 _ _ | tri_lemma | refine Tri.ite (fun _ => ?_) (fun _ => ?_) |
        refine tri_seq ?_ (fun _ => ?_)

theorem tri_parseNumber : Tri (I os) parseNumber (fun _ => I os) := by
  unfold parseNumber
  refine Tri.bind tri_tokFuel fun f => Tri.bind (tri_parseUnary f) fun n => (tri_parseExprs f).1 n 15

macro_rules | `(tactic| tri_lemma) => `(tactic| with_reducible exact tri_parseNumber)

theorem tri_expect {t : Nat} : Tri (I os) (expect t) (fun _ => I os) := by
  unfold expect; tri_go

macro_rules | `(tactic| tri_lemma) => `(tactic| with_reducible exact tri_expect)

theorem tri_accept {t : Nat} : Tri (I os) (accept t) (fun _ => I os) := by
  unfold accept; tri_go

macro_rules | `(tactic| tri_lemma) => `(tactic| with_reducible exact tri_accept)

theorem tri_same {f : S → S} (h : ∀ s, Same s (f s)) (hl : ∀ s, (f s).lex = s.lex) : Tri (I os) (modS f) (fun _ => I os) :=
  Tri.modS fun s hs => ⟨by
    have := hs.1
    unfold TokOk at this ⊢
    rw [hl s, (h s).2.2.1]; exact this, hs.2.same (h s)⟩

macro_rules | `(tactic| tri_lemma) => `(tactic| (with_reducible refine tri_same ?_ ?_) <;> (intro _; first | rfl | exact ⟨rfl, rfl, rfl, rfl, rfl, rfl, rfl, rfl⟩))

theorem tri_acceptShort : Tri (I os) acceptShort (fun _ => I os) := by
  unfold acceptShort; tri_go

macro_rules | `(tactic| tri_lemma) => `(tactic| with_reducible exact tri_acceptShort)

theorem tri_relDisp {o : Operand} {k : Int} : Tri (I os) (relDisp o k) (fun _ => I os) := by
  unfold relDisp; tri_go

macro_rules | `(tactic| tri_lemma) => `(tactic| with_reducible exact tri_relDisp)

theorem tri_jmpShort {o : Operand} : Tri (I os) (jmpShort o) (fun _ => I os) := by
  unfold jmpShort; tri_go

macro_rules | `(tactic| tri_lemma) => `(tactic| with_reducible exact tri_jmpShort)

/-! ## Operands -/

/-- What emitting a memory operand relies on. -/
def MemOk (o : Operand) : Prop := o.modrm ≠ 6 → o.modrm &&& 0xc0 = 0x40 → o.fixup = none ∧ isShort o.disp = true

theorem fresh_frame {s : S} {i : Nat} (h : (s.labels i).ty = .none) {o : Operand} (ho : OpOk s o) :
    OpOk { s with labels := upd s.labels i { ty := .normal, val := -1, fix := none, gInst := s.gNext }, gNext := s.gNext + 1 } o := by
  rcases ho with ho | ⟨j, l, t, h1, h2, h3, h4⟩
  · exact Or.inl ho
  · have e : upd s.labels i { ty := .normal, val := -1, fix := none, gInst := s.gNext } j = s.labels j := by
      have : j ≠ i := fun e => by rw [e] at h2; rw [h2.1] at h; cases h
      simp only [upd, if_neg this]
    refine Or.inr ⟨j, l, t, h1, ?_, ?_, h4⟩
    · unfold Pend; dsimp only; rw [e]; exact h2
    · dsimp only; rw [h3, e]

theorem tri_referenceLabel : Tri (I os) referenceLabel (fun _ => I os) := by
  unfold referenceLabel
  refine Tri.bind tri_tokTy fun ty => Tri.bind tri_assertM fun _ => Tri.bind Tri.getS fun s => ?_
  dsimp only
  refine Tri.ite (fun hn => ?_) (fun _ => Tri.bind (Tri.assertM.post fun _ _ h => h.1.2.2) fun _ =>
    Tri.bind tri_getToken fun _ => Tri.pure fun _ h => h)
  refine Tri.bind (R := fun _ s1 => s1 = { s with
      labels := upd s.labels (ty - tokUserId) { ty := .normal, val := -1, fix := none, gInst := s.gNext } } ∧ I os s)
    (Tri.modS fun s1 h => ?_) fun _ => Tri.bind (R := fun _ => I0 os) (Tri.modS fun s1 h => ?_) fun _ => Tri.bind tri_getToken
    fun _ => Tri.pure fun _ h => h
  · obtain ⟨rfl, h⟩ := h
    exact ⟨rfl, h⟩
  · obtain ⟨rfl, hs⟩ := h
    rcases hs.2 with h | ⟨⟨f, c, h⟩, ho⟩
    · exact Or.inl h
    · exact Or.inr ⟨⟨f, c, h.fresh (by rw [hn]; simp)⟩, fun o h => fresh_frame hn (ho o h)⟩

macro_rules | `(tactic| tri_lemma) => `(tactic| with_reducible exact tri_referenceLabel)

/-- A label as part of an operand. -/
theorem I.addLabel {s : S} {o : Operand} (hs : I (o :: os) s) {i : Nat} (hn : (s.labels i).ty = .normal) (hf : o.fixup = none) :
    ((s.labels i).val = -1 → (o.ty = .lit → o.disp = 0) →
      I ({ o with fixup := some i, gLabs := (s.labels i).gInst :: o.gLabs } :: os) s) ∧
    ((s.labels i).val ≠ -1 →
      I ({ o with disp := o.disp + (s.labels i).val, gLabs := (s.labels i).gInst :: o.gLabs } :: os) s) := by
  constructor
  · intro hv hl
    refine ⟨hs.1, hs.2.imp id fun ⟨h, ho⟩ => ⟨h, ?_⟩⟩
    intro x hx
    rcases List.mem_cons.mp hx with rfl | hx
    · rcases ho o (by simp) with ⟨_, t, h1, h2⟩ | ⟨j, _, _, h, _⟩
      · exact Or.inr ⟨i, o.gLabs, t, rfl, ⟨hn, hv⟩, rfl, h1, h2, hl⟩
      · rw [hf] at h; cases h
    · exact ho x (by simp [hx])
  · intro hv
    refine ⟨hs.1, hs.2.imp id fun ⟨⟨f, c, h⟩, ho⟩ => ⟨⟨f, c, h⟩, ?_⟩⟩
    intro x hx
    rcases List.mem_cons.mp hx with rfl | hx
    · rcases ho o (by simp) with ⟨_, t, h1, h2⟩ | ⟨j, _, _, h, _⟩
      · refine Or.inl ⟨hf, _, .cons (h.defd i hn hv) h1, ?_⟩
        simp only [h2]; omega
      · rw [hf] at h; cases h
    · exact ho x (by simp [hx])

/-- A constant as part of an operand. -/
theorem I.addConst {s : S} {o : Operand} (hs : I (o :: os) s) {d : Int} (hm : o.ty = .mem) :
    I ({ o with disp := o.disp + d, gAddend := o.gAddend + d } :: os) s := by
  refine ⟨hs.1, hs.2.imp id fun ⟨h, ho⟩ => ⟨h, ?_⟩⟩
  intro x hx
  rcases List.mem_cons.mp hx with rfl | hx
  · rcases ho o (by simp) with ⟨h0, t, h1, h2⟩ | ⟨j, l, t, h0, h1, h2, h3, h4, h5⟩
    · refine Or.inl ⟨h0, t, h1, ?_⟩
      simp only [h2]; omega
    · refine Or.inr ⟨j, l, t, h0, h1, h2, h3, by simp only [h4]; omega, fun h => ?_⟩
      simp only [hm] at h; cases h
  · exact ho x (by simp [hx])

/-- The mode byte is of no importance for the value. -/
theorem I.setMod {s : S} {o : Operand} (hs : I (o :: os) s) {m : Byte} : I ({ o with modrm := m } :: os) s := by
  refine ⟨hs.1, hs.2.imp id fun ⟨h, ho⟩ => ⟨h, ?_⟩⟩
  intro x hx
  rcases List.mem_cons.mp hx with rfl | hx
  · exact ho o (by simp)
  · exact ho x (by simp [hx])

/-- A constant operand. -/
theorem I.const {s : S} (hs : I os s) {t : OpT} {m : Byte} {d : Int} :
    I ({ ty := t, modrm := m, disp := d, gAddend := d } :: os) s := by
  refine ⟨hs.1, hs.2.imp id fun ⟨h, ho⟩ => ⟨h, ?_⟩⟩
  intro x hx
  rcases List.mem_cons.mp hx with rfl | hx
  · exact Or.inl ⟨rfl, 0, .nil, by simp⟩
  · exact ho x hx

theorem I.tail {s : S} {o : Operand} (hs : I (o :: os) s) : I os s := hs.mono fun _ h => by simp [h]

theorem tri_translateMemMod {P : S → Prop} {ty : Nat} {m : Byte} : Tri P (translateMemMod ty m) (fun _ => P) := by
  unfold translateMemMod
  repeat' first | exact Tri.fail | exact Tri.pure fun _ h => h | refine Tri.ite (fun _ => ?_) (fun _ => ?_)

theorem tri_memItem {neg : Bool} {o : Operand} (hm : o.ty = .mem) :
    Tri (I (o :: os)) (memItem neg o) (fun o' s => I (o' :: os) s ∧ o'.ty = .mem) := by
  unfold memItem
  refine Tri.bind tri_curTok fun t => ?_
  refine Tri.ite (fun _ => ?_) (fun _ => Tri.ite (fun _ => ?_) (fun _ => Tri.ite (fun _ => ?_) (fun _ => Tri.fail)))
  · refine Tri.bind tri_translateMemMod fun m => Tri.bind tri_getToken' fun _ => Tri.pure fun s h => ⟨h.setMod, hm⟩
  · refine Tri.bind (R := fun d s => I (o :: os) s ∧ d = if neg then o.disp - t.num else o.disp + t.num) ?_ fun d => ?_
    · intro s a s' hs h
      obtain ⟨rfl, rfl⟩ := ck_ok h
      exact ⟨hs, rfl⟩
    · refine Tri.bind (R := fun _ s => I (o :: os) s ∧ d = if neg then o.disp - t.num else o.disp + t.num) ?_ fun _ => Tri.pure ?_
      · intro s a s' hs h
        exact ⟨tri_getToken' s a s' hs.1 h, hs.2⟩
      · rintro s ⟨hs, rfl⟩
        refine ⟨?_, hm⟩
        cases neg
        · exact hs.addConst hm
        · exact hs.addConst (d := - t.num) hm
  · refine Tri.bind Tri.assertM fun _ => Tri.bind (R := fun _ s => I (o :: os) s ∧ (o.fixup == none) = true) ?_ fun i => ?_
    · intro s a s' hs h
      exact ⟨tri_referenceLabel s a s' hs.1 h, hs.2⟩
    · refine Tri.bind Tri.getS fun s => Tri.bind Tri.assertM fun _ => Tri.ite (fun hv => Tri.pure ?_) (fun hv => ?_)
      · rintro s1 ⟨⟨rfl, hs, hf⟩, hn⟩
        exact ⟨(hs.addLabel (by simpa using hn) (by simpa using hf)).1 hv (fun h => by rw [hm] at h; cases h), hm⟩
      · intro s1 a s2 hs h
        obtain ⟨⟨rfl, hs, hf⟩, hn⟩ := hs
        obtain ⟨d, s3, e, h⟩ := bind_eq_ok.mp h
        obtain ⟨rfl, rfl⟩ := ck_ok e
        cases h
        exact ⟨(hs.addLabel (by simpa using hn) (by simpa using hf)).2 hv, hm⟩

/-- Facts that do not depend on the state. -/
theorem tri_and {P : S → Prop} {p : Prop} {α : Type} {x : A α} {Q : α → S → Prop} (h : p → Tri P x Q) :
    Tri (fun s => P s ∧ p) x Q := fun s a s' hs e => h hs.2 s a s' hs.1 e

theorem tri_keep {P : S → Prop} {p : Prop} {α : Type} {x : A α} {Q : α → S → Prop} (h : Tri P x Q) (hp : p) :
    Tri P x (fun a s => Q a s ∧ p) := h.post fun _ _ h => ⟨h, hp⟩

theorem tri_memItems : ∀ (fuel : Nat) (neg : Bool) (o : Operand), o.ty = .mem →
    Tri (I (o :: os)) (memItems fuel neg o) (fun o' s => I (o' :: os) s ∧ o'.ty = .mem)
  | 0, _, _, _ => by unfold memItems; exact Tri.fail
  | fuel + 1, neg, o, hm => by
    unfold memItems
    refine Tri.bind tri_tokTy fun ty => Tri.ite (fun _ => ?_) (fun _ => ?_)
    · exact Tri.bind tri_outputByte fun _ => Tri.bind tri_getToken' fun _ => Tri.bind tri_expect fun _ => tri_memItems fuel neg o hm
    · refine Tri.bind (tri_memItem hm) fun o' => tri_and fun hm' => Tri.bind tri_accept fun b => Tri.ite (fun _ => ?_) (fun _ => ?_)
      · exact tri_memItems fuel true o' hm'
      · refine Tri.bind tri_accept fun b => Tri.ite (fun _ => ?_) (fun _ => ?_)
        · exact tri_memItems fuel false o' hm'
        · exact Tri.pure fun s h => ⟨h, hm'⟩

theorem finishMem_eq (o : Operand) : ∃ m, finishMem o = { o with modrm := m } := by
  unfold finishMem
  dsimp only
  repeat' split
  all_goals exact ⟨_, rfl⟩

theorem or80 (m : Byte) : (m ||| 0x80) &&& 0xc0 ≠ 0x40 := by
  intro h
  have := congrArg (fun b : Byte => b.getLsbD 7) h
  simp at this

theorem finishMem_ok (o : Operand) : MemOk (finishMem o) := by
  unfold MemOk finishMem
  dsimp only
  generalize (if o.modrm = 6 ∧ o.disp = 0 then o.modrm ||| 0x40 else o.modrm) = m
  by_cases h1 : m = 0xFF
  · rw [if_pos h1]; intro h; exact absurd rfl h
  · rw [if_neg h1]
    by_cases hf : o.fixup ≠ none
    · rw [if_pos hf]; intro _ h; exact absurd h (or80 m)
    · rw [if_neg hf]
      have hf : o.fixup = none := by simpa using hf
      by_cases hd : o.disp ≠ 0
      · rw [if_pos hd]
        by_cases hs : isShort o.disp = true
        · intro _ _; exact ⟨hf, hs⟩
        · rw [if_neg hs]; intro _ h; exact absurd h (or80 m)
      · rw [if_neg hd]
        have hd : o.disp = 0 := by simpa using hd
        intro _ _
        refine ⟨hf, ?_⟩
        simp only [hd]; rfl

theorem tri_parseMem : Tri (I os) parseMem (fun o s => I (o :: os) s ∧ MemOk o) := by
  unfold parseMem
  refine Tri.bind tri_tokFuel fun f => ?_
  refine Tri.bind (R := fun o s => I (o :: os) s ∧ o.ty = .mem) ((tri_memItems f false _ rfl).pre fun s h => h.const) fun o => ?_
  refine tri_and fun _ => Tri.bind tri_expect fun _ => Tri.pure fun s h => ⟨?_, finishMem_ok o⟩
  obtain ⟨m, e⟩ := finishMem_eq o
  rw [e]; exact h.setMod

theorem memOk_lit {t : OpT} {d : Int} {f : Option Nat} {l : List Nat} {a : Int} :
    MemOk { ty := t, disp := d, fixup := f, gLabs := l, gAddend := a } := by
  intro _ h
  exact absurd h (by simp)

theorem tri_parseOperand : Tri (I os) parseOperand (fun o s => I (o :: os) s ∧ MemOk o) := by
  unfold parseOperand
  refine Tri.bind tri_curTok fun t => ?_
  refine Tri.ite (fun _ => ?_) (fun _ => Tri.ite (fun _ => ?_) (fun _ => Tri.ite (fun _ => ?_) (fun _ => Tri.ite (fun _ => ?_)
    (fun _ => Tri.ite (fun _ => ?_) (fun _ => Tri.fail)))))
  · exact Tri.bind tri_parseNumber fun n => Tri.pure fun s h => ⟨h.const, memOk_lit⟩
  · exact Tri.bind tri_getToken' fun _ => tri_parseMem
  · refine Tri.bind (R := fun _ => I os) ?_ fun _ => Tri.bind tri_getToken' fun _ => Tri.bind tri_expect fun _ => tri_parseMem
    tri_lemma
  · exact Tri.bind tri_getToken' fun _ => Tri.pure fun s h => ⟨h.const, memOk_lit⟩
  · refine Tri.bind tri_referenceLabel fun i => Tri.bind Tri.getS fun s => Tri.bind Tri.assertM fun _ =>
      Tri.ite (fun hv => Tri.pure ?_) (fun hv => Tri.pure ?_)
    · rintro s1 ⟨⟨rfl, hs⟩, hn⟩
      exact ⟨((hs.const (t := .lit) (m := 0) (d := 0)).addLabel (by simpa using hn) rfl).1 hv fun _ => rfl, memOk_lit⟩
    · rintro s1 ⟨⟨rfl, hs⟩, hn⟩
      have := ((hs.const (t := .lit) (m := 0) (d := 0)).addLabel (by simpa using hn) rfl).2 hv
      simp only [Int.zero_add] at this
      exact ⟨this, memOk_lit⟩

theorem tri_parse2 : Tri (I os) parse2Operands (fun p s => I (p.2 :: p.1 :: os) s ∧ (MemOk p.1 ∧ MemOk p.2)) := by
  unfold parse2Operands
  refine Tri.bind tri_parseOperand fun o1 => tri_and fun h1 => Tri.bind tri_expect fun _ => Tri.bind tri_parseOperand fun o2 =>
    tri_and fun h2 => Tri.pure fun s h => ⟨h, h1, h2⟩

/-! ## Instructions -/

theorem tri_fixWord {o : Operand} (ho : o ∈ os) : Tri (I os) (do fixOp o .disp16; logRef .abs16 o; outputWord o.disp : A Unit)
    (fun _ => I os) := tri_emit16 ho

theorem tri_outputImm8 {o : Operand} : Tri (I os) (outputImm8 o) (fun _ => I os) := by
  unfold outputImm8; tri_go

theorem tri_outputImm16 {o : Operand} (ho : o ∈ os) : Tri (I os) (outputImm16 o) (fun _ => I os) := tri_emit16 ho

theorem tri_outputImm {o : Operand} (ho : o ∈ os) {w : Bool} : Tri (I os) (outputImm o w) (fun _ => I os) := by
  unfold outputImm
  exact Tri.ite (fun _ => tri_outputImm16 ho) (fun _ => tri_outputImm8)

/-- A byte immediate that is extended again. -/
theorem tri_short {o : Operand} (ho : o ∈ os) {w short : Bool} (h : short = true → o.fixup = none ∧ isShort o.disp = true ∧ w = false) :
    Tri (I os) (if short then (do logRef .abs8 o; outputImm o w) else outputImm o w : A Unit) (fun _ => I os) := by
  refine Tri.ite (fun hs => ?_) (fun hs => ?_)
  · obtain ⟨h1, h2, rfl⟩ := h hs
    intro s a s' hi e
    have hb : (o.fixup == none) = true := by rw [h1]; rfl
    have ee : (outputImm o false : A Unit) = outputByte (toByte o.disp) := by
      unfold outputImm outputImm8; rw [hb]; rfl
    rw [ee] at e
    exact tri_abs8 ho h1 h2 s a s' hi e
  · exact tri_outputImm ho

theorem tri_outputModRM {o : Operand} (ho : o ∈ os) (hm : MemOk o) {r : Byte} : Tri (I os) (outputModRM o r) (fun _ => I os) := by
  unfold outputModRM
  refine tri_seq tri_assertM fun _ => tri_seq tri_outputByte fun _ => Tri.ite (fun _ => tri_emit16 ho) (fun h1 => Tri.ite (fun h2 => ?_)
    (fun _ => Tri.pure fun _ h => h))
  obtain ⟨h3, h4⟩ := hm (fun e => h1 (Or.inl e)) h2
  exact tri_abs8 ho h3 h4

macro_rules | `(tactic| tri_lemma) => `(tactic| with_reducible exact tri_outputImm8)
macro_rules | `(tactic| tri_lemma) => `(tactic| with_reducible exact tri_outputImm16 (by simp))
macro_rules | `(tactic| tri_lemma) => `(tactic| with_reducible exact tri_outputImm (by simp))
macro_rules | `(tactic| tri_lemma) => `(tactic| with_reducible exact tri_outputModRM (by simp) (by assumption))

theorem tri_outputMR {m r : Operand} (ho : m ∈ os) (hm : MemOk m) {i : Byte} : Tri (I os) (outputMR i m r) (fun _ => I os) := by
  unfold outputMR
  exact tri_seq tri_assertM fun _ => tri_seq tri_outputByte fun _ => tri_outputModRM ho hm

theorem tri_outputMImm {m o : Operand} (ho : m ∈ os) (ho' : o ∈ os) (hm : MemOk m) {i r : Byte} :
    Tri (I os) (outputMImm i r m o) (fun _ => I os) := by
  unfold outputMImm
  refine tri_seq tri_assertM fun _ => tri_seq tri_getS fun s => tri_seq tri_assertM fun _ => ?_
  dsimp only
  refine tri_seq tri_outputByte fun _ => tri_seq (tri_outputModRM ho hm) fun _ => tri_short ho' ?_
  intro h
  simp only [Bool.and_eq_true, beq_iff_eq] at h
  simp [h]

macro_rules | `(tactic| tri_lemma) => `(tactic| with_reducible exact tri_outputMR (by simp) (by assumption))
macro_rules | `(tactic| tri_lemma) => `(tactic| with_reducible exact tri_outputMImm (by simp) (by simp) (by assumption))
macro_rules | `(tactic| tri_lemma) => `(tactic| with_reducible exact tri_rel8 (by simp))
macro_rules | `(tactic| tri_lemma) => `(tactic| with_reducible exact tri_rel16 (by simp))

/-- A program that parses an operand first. -/
theorem tri_op1 {f : Operand → A Unit} (h : ∀ o, MemOk o → Tri (I [o]) (f o) (fun _ => I [o])) :
    Tri (I []) (parseOperand >>= f) (fun _ => I []) :=
  tri_parseOperand.bind fun o => tri_and fun hm => (h o hm).post fun _ _ i => i.mono (by simp)

theorem tri_op2 {f : Operand × Operand → A Unit} (h : ∀ o1 o2, MemOk o1 → MemOk o2 → Tri (I [o2, o1]) (f (o1, o2)) (fun _ => I [o2, o1])) :
    Tri (I []) (parse2Operands >>= f) (fun _ => I []) :=
  tri_parse2.bind fun p => tri_and fun hm => (h p.1 p.2 hm.1 hm.2).post fun _ _ i => i.mono (by simp)

theorem tri_handleMOV : Tri (I []) handleMOV (fun _ => I []) := by
  unfold handleMOV
  refine tri_op2 fun o1 o2 h1 h2 => ?_
  dsimp only
  tri_go

theorem tri_handleALU {b : Byte} : Tri (I []) (handleALU b) (fun _ => I []) := by
  unfold handleALU
  refine tri_op2 fun o1 o2 h1 h2 => ?_
  dsimp only
  split
  · split
    · tri_go
    · refine Tri.ite (fun _ => ?_) (fun _ => Tri.ite (fun _ => ?_) (fun _ => ?_))
      · tri_go
      · tri_go
      · refine tri_seq tri_outputByte fun _ => tri_seq tri_outputByte fun _ => tri_short (by simp) ?_
        intro h
        simp only [Bool.and_eq_true, beq_iff_eq] at h
        simp [h]
    · tri_go
  · tri_go
  · tri_go

theorem tri_handleROT {b : Byte} : Tri (I []) (handleROT b) (fun _ => I []) := by
  unfold handleROT
  refine tri_op2 fun o1 o2 h1 h2 => ?_
  dsimp only
  tri_go

theorem tri_handleCALL : Tri (I []) handleCALL (fun _ => I []) := by
  unfold handleCALL
  refine tri_op1 fun o h => ?_
  tri_go

theorem tri_handleJMP : Tri (I []) handleJMP (fun _ => I []) := by
  unfold handleJMP
  refine tri_seq tri_acceptShort fun _ => tri_op1 fun o h => ?_
  tri_go

theorem tri_handleJCC {c : Byte} : Tri (I []) (handleJCC c) (fun _ => I []) := by
  unfold handleJCC
  refine tri_seq tri_acceptShort fun _ => tri_op1 fun o h => ?_
  refine Tri.bind Tri.assertM fun _ => tri_and fun hl => tri_seq tri_outputByte fun _ => ?_
  have hl : o.ty = .lit := by simpa using hl
  split
  · next i hi =>
    have e : (do addFixupHere i .rel8; logRef .rel8 o; let d ← relDisp { o with disp := 0 } 1; outputByte (toByte d) : A Unit) =
        (do fixOp o .rel8; logRef .rel8 o; let d ← relDisp { o with disp := 0 } 1; outputByte (toByte d)) := by
      unfold fixOp; rw [hi]
    rw [e]
    intro s a s' hs h
    by_cases hm : M1 s
    · obtain ⟨rfl, hn⟩ := rel8_core h
      obtain ⟨h1, h2, h3, h4, h5, h6⟩ := addFix_frame o .rel8 s
      refine ⟨?_, Or.inl ?_⟩
      · have := hs.1
        unfold TokOk at this ⊢
        simp only [h5, (h6 _).1]
        exact this
      · unfold M1 at hm ⊢
        simp only [h4]; exact hm
    · exact tri_rel8_core (d := 0) (by simp) (fun s ho => by
        rcases ho with ⟨h, _⟩ | ⟨_, _, _, _, _, _, _, _, h⟩
        · rw [hi] at h; cases h
        · exact h hl) s a s' hs h
  · next hi =>
    have e : (do logRef .rel8 o; let d ← relDisp o 1; outputByte (toByte d) : A Unit) =
        (do fixOp o .rel8; logRef .rel8 o; let d ← relDisp o 1; outputByte (toByte d)) := by
      unfold fixOp; rw [hi]; rfl
    rw [e]
    exact tri_rel8 (by simp)

theorem tri_handleIncDec {b : Byte} : Tri (I []) (handleIncDec b) (fun _ => I []) := by
  unfold handleIncDec
  refine tri_op1 fun o h => ?_
  tri_go

theorem tri_handlePUSH : Tri (I []) handlePUSH (fun _ => I []) := by
  unfold handlePUSH
  refine tri_op1 fun o h => ?_
  tri_go

theorem tri_handlePOP : Tri (I []) handlePOP (fun _ => I []) := by
  unfold handlePOP
  refine tri_op1 fun o h => ?_
  tri_go

theorem tri_handleINT : Tri (I []) handleINT (fun _ => I []) := by
  unfold handleINT
  tri_go

theorem tri_handleTEST : Tri (I []) handleTEST (fun _ => I []) := by
  unfold handleTEST
  refine tri_op2 fun o1 o2 h1 h2 => ?_
  dsimp only
  tri_go

theorem tri_handleXCHG : Tri (I []) handleXCHG (fun _ => I []) := by
  unfold handleXCHG
  refine tri_op2 fun o1 o2 h1 h2 => ?_
  dsimp only
  tri_go

theorem tri_handleMulDiv {b : Byte} : Tri (I []) (handleMulDiv b) (fun _ => I []) := by
  unfold handleMulDiv
  refine tri_op1 fun o h => ?_
  tri_go

theorem tri_handleLEA : Tri (I []) handleLEA (fun _ => I []) := by
  unfold handleLEA
  refine tri_op2 fun o1 o2 h1 h2 => ?_
  dsimp only
  tri_go

theorem tri_handleInstruction {i : Nat} : Tri (I []) (handleInstruction i) (fun _ => I []) := by
  unfold handleInstruction
  split
  all_goals first
    | with_reducible exact tri_outputByte | with_reducible exact tri_handleALU | with_reducible exact tri_handleMulDiv | with_reducible exact tri_handleROT | with_reducible exact tri_handleIncDec
    | with_reducible exact tri_handleCALL | with_reducible exact tri_handleINT | with_reducible exact tri_handleJMP | with_reducible exact tri_handleLEA | with_reducible exact tri_handleMOV
    | with_reducible exact tri_handlePOP | with_reducible exact tri_handlePUSH | with_reducible exact tri_handleTEST | with_reducible exact tri_handleXCHG
    | exact Tri.ite (fun _ => tri_handleJCC) (fun _ => Tri.fail)

/-! ## Directives -/

theorem tri_dxItem {size : Nat} : Tri (I []) (dxItem size) (fun _ => I []) := by
  unfold dxItem
  refine tri_seq tri_curTok fun t => Tri.ite (fun _ => ?_) (fun _ => Tri.ite (fun _ => ?_) (fun _ => Tri.ite (fun _ => ?_) (fun _ => Tri.fail)))
  · dsimp only
    tri_go
  · tri_go
  · refine tri_seq tri_assertM fun _ => tri_seq tri_referenceLabel fun i => Tri.bind Tri.getS fun s => Tri.bind Tri.assertM fun _ => ?_
    dsimp only
    refine Tri.ite (fun hv => ?_) (fun _ => ?_)
    · intro s1 a s2 hs h
      obtain ⟨⟨rfl, hs⟩, hn⟩ := hs
      have h0 := ((hs.const (t := .lit) (m := 0) (d := 0)).addLabel (by simpa using hn) rfl).2 hv
      simp only [Int.zero_add] at h0
      have e : (do logRef .abs16 { ty := .lit, disp := (s.labels i).val, gLabs := [(s.labels i).gInst] }
                   outputWord (s.labels i).val
                   pure 0 : A Nat) =
          (do (do fixOp { ty := .lit, disp := (s.labels i).val, gLabs := [(s.labels i).gInst] } .disp16
                  logRef .abs16 { ty := .lit, disp := (s.labels i).val, gLabs := [(s.labels i).gInst] }
                  outputWord (Operand.disp { ty := .lit, disp := (s.labels i).val, gLabs := [(s.labels i).gInst] }) : A Unit)
              pure 0) := rfl
      rw [e] at h
      obtain ⟨_, s3, h1, h2⟩ := bind_eq_ok.mp h
      cases h2
      exact (tri_emit16 (by simp) _ _ _ h0 h1).tail
    · refine Tri.pre (P := I []) ?_ fun s h => h.1.2
      tri_go

theorem tri_dxItems {size : Nat} : ∀ fuel n, Tri (I []) (dxItems size fuel n) (fun _ => I [])
  | 0, _ => by unfold dxItems; exact Tri.fail
  | fuel + 1, n => by
    unfold dxItems
    exact tri_seq tri_dxItem fun k => tri_seq tri_accept fun b => Tri.ite (fun _ => tri_dxItems fuel _) fun _ => Tri.pure fun _ h => h

theorem tri_handleDx {size : Nat} : Tri (I []) (handleDx size) (fun _ => I []) := by
  unfold handleDx
  refine tri_seq tri_tokFuel fun f => tri_seq (tri_dxItems f 0) fun n => ?_
  tri_go

theorem tri_handleResx {size : Int} : Tri (I []) (handleResx size) (fun _ => I []) := by
  unfold handleResx
  tri_go

theorem tri_handleDirective {d : Nat} : Tri (I []) (handleDirective d) (fun _ => I []) := by
  unfold handleDirective
  repeat' first | exact tri_handleDx | exact tri_handleResx | tri_go

/-! ## Definitions -/

theorem tri_retire {g : Bool} : Tri (I []) (if g then modS retire else pure () : A Unit) (fun _ => I []) := by
  refine Tri.ite (fun _ => Tri.modS fun s hs => ⟨?_, ?_⟩) (fun _ => Tri.pure fun _ h => h)
  · have := hs.1
    unfold TokOk at this ⊢
    intro h
    simp only [retire]
    split
    · simp
    · exact this h
  · rcases hs.2 with h | ⟨h, _⟩
    · exact Or.inl h
    · exact Or.inr ⟨h.retire, by simp⟩

/-- The address is recorded. -/
def setAddr (i : Nat) (s : S) : S := { s with
  labels := upd s.labels i { s.labels i with val := s.va }
  gDefs := ((s.labels i).gInst, s.va) :: s.gDefs }

theorem upd_upd {α : Type} (f : Nat → α) (i : Nat) (a b : α) : upd (upd f i a) i b = upd f i b := by
  funext j; simp only [upd]; split <;> rfl

theorem upd_same {α : Type} (f : Nat → α) (i : Nat) (a : α) : upd f i a i = a := by simp [upd]

theorem define_new {s : S} {i : Nat} (hs : I [] s) (hn : (s.labels i).ty = .none) :
    I [] (setAddr i { s with labels := upd s.labels i { s.labels i with ty := .normal, fix := none, gInst := s.gNext }, gNext := s.gNext + 1 }) := by
  have e : setAddr i { s with labels := upd s.labels i { s.labels i with ty := .normal, fix := none, gInst := s.gNext }, gNext := s.gNext + 1 } =
      { s with labels := upd s.labels i { ty := .normal, val := s.va, fix := none, gInst := s.gNext }, gNext := s.gNext + 1,
               gDefs := (s.gNext, s.va) :: s.gDefs } := by
    simp only [setAddr, upd_upd, upd_same]
  rw [e]
  refine ⟨?_, ?_⟩
  · have := hs.1
    unfold TokOk at this ⊢
    intro h
    simp only [upd]
    split
    · simp
    · exact this h
  · by_cases hv : s.va = -1
    · exact Or.inl ⟨(s.gNext, s.va), by simp, hv⟩
    · rcases hs.2 with ⟨d, h1, h2⟩ | ⟨⟨f, c, h⟩, _⟩
      · exact Or.inl ⟨d, by simp [h1], h2⟩
      · exact Or.inr ⟨⟨f, c, h.defineNew (by rw [hn]; simp) hv⟩, by simp⟩

theorem resolve_ok {s s' : S} {i : Nat} {a : Unit} (h : resolve i s = .ok a s') :
    (s.labels i).val = -1 ∧ (((s.labels i).fix = none ∧ s' = s) ∨ ∃ f out last, (s.labels i).fix = some f ∧
      applyFixups s.va s.fixups (fixupMax + 1) f s.out = .ok (out, last) ∧
      s' = { s with out, fixups := upd s.fixups last { s.fixups last with next := s.nextFixup }, nextFixup := some f }) := by
  unfold resolve at h
  split at h
  · cases h
  · next hv =>
    refine ⟨by simpa using hv, ?_⟩
    split at h
    · next hf => cases h; exact Or.inl ⟨hf, rfl⟩
    · next f hf =>
      split at h
      · cases h
      · next out last he =>
        cases h
        exact Or.inr ⟨f, out, last, hf, he, rfl⟩

theorem refs_disjoint {l : List Ref} (h : l.Pairwise fun r o => o.off + RefK.size o.kind ≤ r.off) {r r' : Ref} (hr : r ∈ l)
    (hr' : r' ∈ l) (hne : r ≠ r') : r.off + RefK.size r.kind ≤ r'.off ∨ r'.off + RefK.size r'.kind ≤ r.off := by
  induction l with
  | nil => cases hr
  | cons x l ih =>
    obtain ⟨h1, h2⟩ := List.pairwise_cons.mp h
    rcases List.mem_cons.mp hr with e | e <;> rcases List.mem_cons.mp hr' with e' | e'
    · exact absurd (e.trans e'.symm) hne
    · subst e; exact Or.inr (h1 _ e')
    · subst e'; exact Or.inl (h1 _ e)
    · exact ih h2 e e'

theorem define_old {s s' : S} {i : Nat} {a : Unit} (hs : I [] s) (hn : (s.labels i).ty = .normal) (h : resolve i s = .ok a s') :
    I [] (setAddr i s') := by
  obtain ⟨hv, h⟩ := resolve_ok h
  have hl : s'.labels = s.labels ∧ s'.va = s.va ∧ s'.gDefs = s.gDefs ∧ s'.lex = s.lex := by
    rcases h with ⟨_, rfl⟩ | ⟨_, _, _, _, _, rfl⟩ <;> exact ⟨rfl, rfl, rfl, rfl⟩
  have ht : TokOk (setAddr i s') := by
    have := hs.1
    unfold TokOk at this ⊢
    simp only [setAddr, hl.1, hl.2.2.2]
    intro h
    simp only [upd]
    split
    · simp only [hn]; simp
    · exact this h
  refine ⟨ht, ?_⟩
  by_cases hva : s.va = -1
  · exact Or.inl ⟨((s'.labels i).gInst, s'.va), by simp [setAddr], by rw [hl.2.1]; exact hva⟩
  · rcases hs.2 with ⟨d, h1, h2⟩ | ⟨⟨free, ch, hi⟩, _⟩
    · exact Or.inl ⟨d, by simp [setAddr, hl.2.2.1, h1], h2⟩
    · refine Or.inr ⟨?_, by simp⟩
      have hp : Pend s i := ⟨hn, hv⟩
      have hc := hi.chain i hp
      have hr := hi.refs i hp
      have hpw : (s.gRefs.filter fun r => r.pend == some (s.labels i).gInst).Pairwise fun r o => o.off + RefK.size o.kind ≤ r.off :=
        hi.layout.sublist List.filter_sublist
      rcases h with ⟨hf, e⟩ | ⟨f, out, last, hf, he, rfl⟩
      · rw [e]
        rw [hf] at hc
        have hce := hc.none_eq
        have hnr : ∀ r ∈ s.gRefs, r.pend ≠ some (s.labels i).gInst := by
          rw [hce, List.map_nil] at hr
          have hr := List.map_eq_nil_iff.mp hr.symm
          intro r hr1 hr2
          have := List.filter_eq_nil_iff.mp hr r hr1
          simp [hr2] at this
        exact ⟨_, _, hi.define hp hva (out := s.out) (fx := s.fixups) (nf := s.nextFixup) (by rw [hce]; exact hi.cfree) (fun _ _ => rfl) rfl
          (fun r h1 h2 => absurd h2 (hnr r h1)) (fun r _ _ v h => h)⟩
      · rw [hf] at hc
        obtain ⟨g1, g2, g3, g4⟩ := applyFixups_ok _ _ _ _ _ _ _ he hc hr hpw
        refine ⟨_, _, hi.define hp hva (out := out) (hi.cfree.link hc g1 (hi.ndC i) fun n h1 h2 => hi.disFC i n h2 h1) ?_ g2 ?_ ?_⟩
        · intro n hn
          have : n ≠ last := fun e => hn (e ▸ List.mem_of_mem_getLast? (Option.mem_def.mpr g1))
          simp only [upd, if_neg this]
        · intro r h1 h2 v h3
          exact g3 r (by simp [h1, h2]) v h3
        · intro r h1 h2 v h3
          refine h3.congr fun k k1 k2 => g4 k fun r' hr' hk => ?_
          obtain ⟨h5, h6⟩ := List.mem_filter.mp hr'
          have h6 : r'.pend = some (s.labels i).gInst := by simpa using h6
          have hne : r ≠ r' := fun e => h2 (e ▸ h6)
          have := refs_disjoint hi.layout h1 h5 hne
          unfold InRef at hk
          omega

theorem tri_defineLabel {i : Nat} {g : Bool} : Tri (fun s => I [] s ∧ (s.labels i).ty ≠ .equ) (defineLabel i g) (fun _ => I []) := by
  unfold defineLabel
  refine Tri.bind Tri.getS fun s => ?_
  dsimp only
  refine Tri.ite (fun hn => ?_) (fun hn => ?_)
  · intro s0 a s' hs h
    obtain ⟨rfl, hs, _⟩ := hs
    obtain ⟨_, s1, e1, h⟩ := bind_eq_ok.mp h
    cases e1
    obtain ⟨_, s1, e1, h⟩ := bind_eq_ok.mp h
    cases e1
    obtain ⟨_, s1, e1, h⟩ := bind_eq_ok.mp h
    cases e1
    exact tri_retire _ _ _ (define_new hs hn) h
  · intro s0 a s' hs h
    obtain ⟨rfl, hs, hne⟩ := hs
    obtain ⟨_, s1, e1, h⟩ := bind_eq_ok.mp h
    obtain ⟨_, s2, e2, h⟩ := bind_eq_ok.mp h
    cases e2
    refine tri_retire _ _ _ (define_old hs ?_ e1) h
    cases ht : (s.labels i).ty
    · exact absurd ht hn
    · exact absurd ht hne
    · rfl

theorem parsePrimary_first {s s' : S} {n : Int} (hs : I0 [] s) (h : parsePrimary s = .ok n s') : I [] s' := by
  unfold parsePrimary at h
  obtain ⟨t, _, e, h⟩ := bind_eq_ok.mp h
  cases e
  split at h
  · obtain ⟨_, s1, e1, h⟩ := bind_eq_ok.mp h
    cases h
    exact tri_getToken _ _ _ hs e1
  · split at h
    · unfold numFromString at h
      obtain ⟨t, _, e, h⟩ := bind_eq_ok.mp h
      cases e
      obtain ⟨t, _, e, h⟩ := bind_eq_ok.mp h
      rw [assertM_run] at e
      split at e
      · cases e
        split at h
        · cases h
        · obtain ⟨_, s1, e1, h⟩ := bind_eq_ok.mp h
          cases h
          exact tri_getToken _ _ _ hs e1
      · cases e
    · cases h

theorem parseNumber_first : Tri (I0 []) parseNumber (fun _ => I []) := by
  unfold parseNumber
  refine Tri.bind tri_tokFuel fun f => Tri.bind (R := fun _ => I []) ?_ fun n => (tri_parseExprs f).1 n 15
  cases f with
  | zero => exact Tri.fail
  | succ f =>
    unfold parseUnary
    refine Tri.bind tri_tokTy fun op => Tri.ite (fun _ => ?_) (fun _ => ?_)
    · exact Tri.bind tri_getToken fun _ => Tri.bind (tri_parseUnary f) fun n => tri_unaryOp
    · exact fun s a s' hs h => parsePrimary_first hs h

theorem I0.inert {s : S} {i : Nat} {l : Label} (hs : I0 [] s) (h1 : (s.labels i).ty ≠ .normal) (h2 : l.ty ≠ .normal) :
    I0 [] { s with labels := upd s.labels i l } := by
  rcases hs with h | ⟨⟨f, c, h⟩, _⟩
  · exact Or.inl h
  · exact Or.inr ⟨⟨f, c, h.inert h1 h2⟩, by simp⟩

/-! ### The labels stay as they are while a number is parsed -/

def SameLab (s s' : S) : Prop := s'.labels = s.labels

theorem sameLab_pre : Prog.Preorder SameLab := ⟨fun _ => rfl, fun _ _ _ h1 h2 => h2.trans h1⟩

theorem sl_getToken : Pres SameLab getToken := by
  intro s a s' h
  obtain ⟨e, _⟩ := getToken_ok h
  unfold SameLab; rw [e]

theorem sl_ck {n : Int} : Pres SameLab (ck n) := by
  intro s a s' h
  obtain ⟨_, rfl⟩ := ck_ok h; rfl

theorem sl_tokTy : Pres SameLab tokTy := by intro s a s' h; cases h; rfl
theorem sl_curTok : Pres SameLab curTok := by intro s a s' h; cases h; rfl
theorem sl_tokFuel : Pres SameLab tokFuel := by intro s a s' h; cases h; rfl

macro "sl_go" : tactic => `(tactic| repeat' first
  | with_reducible exact sl_getToken
  | with_reducible exact sl_tokTy
  | with_reducible exact sl_curTok
  | with_reducible exact sl_tokFuel
  | with_reducible exact sl_ck
  | with_reducible exact Pres.fail _
  | with_reducible exact Pres.pure sameLab_pre _
  | with_reducible exact Pres.assertM sameLab_pre _
  | with_reducible assumption
  | with_reducible refine Pres.ite (fun _ => ?_) (fun _ => ?_)
  | with_reducible refine Pres.bind sameLab_pre ?_ (fun _ => ?_))

theorem sl_parsePrimary : Pres SameLab parsePrimary := by
  unfold parsePrimary numFromString; sl_go

theorem sl_parseUnary : ∀ fuel, Pres SameLab (parseUnary fuel)
  | 0 => Pres.fail _
  | fuel + 1 => by
    have := sl_parseUnary fuel
    have h2 := sl_parsePrimary
    unfold parseUnary unaryOp
    sl_go

theorem sl_binOp {op : Nat} {l r : Int} : Pres SameLab (binOp op l r) := by
  unfold binOp; sl_go

theorem sl_parseExprs : ∀ fuel, (∀ l p, Pres SameLab (parseExpr fuel l p)) ∧ (∀ l p, Pres SameLab (parseInner fuel l p))
  | 0 => ⟨fun _ _ => by unfold parseExpr; exact Pres.fail _, fun _ _ => by unfold parseInner; exact Pres.fail _⟩
  | fuel + 1 => by
    obtain ⟨h1, h2⟩ := sl_parseExprs fuel
    have h3 := sl_parseUnary fuel
    constructor
    · intro l p
      unfold parseExpr
      refine Pres.bind sameLab_pre sl_tokTy fun op => Pres.ite (fun _ => Pres.pure sameLab_pre _) fun _ => ?_
      exact Pres.bind sameLab_pre sl_getToken fun _ => Pres.bind sameLab_pre h3 fun _ => Pres.bind sameLab_pre (h2 _ _) fun _ =>
        Pres.bind sameLab_pre sl_binOp fun _ => h1 _ _
    · intro l p
      unfold parseInner
      refine Pres.bind sameLab_pre sl_tokTy fun op => Pres.ite (fun _ => Pres.pure sameLab_pre _) fun _ => ?_
      exact Pres.bind sameLab_pre (h1 _ _) fun _ => h2 _ _

theorem sl_parseNumber : Pres SameLab parseNumber := by
  unfold parseNumber
  exact Pres.bind sameLab_pre sl_tokFuel fun f => Pres.bind sameLab_pre (sl_parseUnary f) fun n => (sl_parseExprs f).1 n 15

theorem tri_defineEqu {i : Nat} : Tri (I []) (defineEqu i) (fun _ => I []) := by
  intro s a s' hs h
  unfold defineEqu at h
  obtain ⟨_, _, e1, h⟩ := bind_eq_ok.mp h
  cases e1
  obtain ⟨_, s1, e1, h⟩ := bind_eq_ok.mp h
  rw [assertM_run] at e1
  split at e1
  · next hn =>
    cases e1
    have hn : (s.labels i).ty = .none := by simpa using hn
    obtain ⟨_, s1, e1, h⟩ := bind_eq_ok.mp h
    cases e1
    obtain ⟨n, s2, e2, h⟩ := bind_eq_ok.mp h
    cases h
    have h1 : I [] s2 := parseNumber_first _ _ _ (hs.2.inert (by rw [hn]; simp) (by simp)) e2
    have h2 : s2.labels = upd s.labels i { s.labels i with ty := .equ } := sl_parseNumber _ _ _ e2
    have h3 : (s2.labels i).ty = .equ := by rw [h2]; simp [upd]
    refine ⟨?_, h1.2.inert (by rw [h3]; simp) (by simp only [h3]; simp)⟩
    have := h1.1
    unfold TokOk at this ⊢
    intro h
    have := this h
    simp only [upd]
    split
    · next e => rw [e] at this; exact absurd h3 this
    · exact this
  · cases e1

theorem tri_step : Tri (I []) step (fun _ => I []) := by
  unfold step
  intro s a s' hs h
  obtain ⟨ty, _, e1, h⟩ := bind_eq_ok.mp h
  cases e1
  dsimp only at h
  split at h
  · next hu =>
    obtain ⟨_, _, e1, h⟩ := bind_eq_ok.mp h
    cases e1
    obtain ⟨_, s1, e1, h⟩ := bind_eq_ok.mp h
    obtain ⟨_, s2, e2, h⟩ := bind_eq_ok.mp h
    have h1 := tri_getToken' _ _ _ hs e1
    have h2 := tri_accept _ _ _ h1 e2
    have l1 : s1.labels = s.labels := sl_getToken _ _ _ e1
    have l2 : s2.labels = s1.labels := by
      have : Pres SameLab (accept tokColon) := by unfold accept; sl_go
      exact this _ _ _ e2
    split at h
    · exact tri_defineLabel _ _ _ ⟨h2, by rw [l2, l1]; exact hs.1 hu⟩ h
    · obtain ⟨_, s3, e3, h⟩ := bind_eq_ok.mp h
      have h3 := tri_accept _ _ _ h2 e3
      split at h
      · exact tri_defineEqu _ _ _ h3 h
      · cases h
  · split at h
    · cases h
    · obtain ⟨_, s1, e1, h⟩ := bind_eq_ok.mp h
      have h1 := tri_getToken' _ _ _ hs e1
      obtain ⟨_, s2, e2, h⟩ := bind_eq_ok.mp h
      cases e2
      have h2 : I [] { s1 with sizeOv := 0 } := ⟨h1.1, I0.same (s := s1) ⟨rfl, rfl, rfl, rfl, rfl, rfl, rfl, rfl⟩ h1.2⟩
      split at h
      · exact tri_handleDirective _ _ _ h2 h
      · exact tri_handleInstruction _ _ _ h2 h

theorem tri_loop : ∀ fuel, Tri (I []) (loop fuel) (fun _ => I [])
  | 0 => Tri.fail
  | fuel + 1 => by
    unfold loop
    exact tri_seq tri_tokTy fun ty => Tri.ite (fun _ => Tri.pure fun _ h => h) fun _ => tri_seq tri_step fun _ => tri_loop fuel

theorem chain_init (ids : IdTab) (inp : List Byte) : ∀ k n, n + k = 600 →
    Chain (init ids inp).fixups (if n < 600 then some n else none) (List.range' n k)
  | 0, n, h => by rw [if_neg (by omega)]; exact .nil
  | k + 1, n, h => by
    rw [if_pos (by omega)]
    have := chain_init ids inp k (n + 1) (by omega)
    refine .cons ?_
    have e : ((init ids inp).fixups n).next = if n + 1 < 600 then some (n + 1) else none := by
      simp only [init, fixupMax]
      by_cases h : n + 1 < 600
      · rw [if_pos h, if_pos (by omega)]
      · rw [if_neg h, if_neg (by omega)]
    rw [e]; exact this

theorem init_inv (ids : IdTab) (inp : List Byte) : Inv (init ids inp) := by
  have hp : ∀ i, ¬ Pend (init ids inp) i := fun i h => by cases h.1
  refine ⟨List.range' 0 600, fun _ => [], ?_⟩
  exact {
    cfree := chain_init ids inp 600 0 rfl
    chain := fun i h => absurd h (hp i)
    empty := fun _ _ => rfl
    ndF := List.nodup_range'
    ndC := fun _ => List.nodup_nil
    disFC := fun _ _ _ => List.not_mem_nil
    disCC := fun _ _ _ _ _ => List.not_mem_nil
    ltF := fun n h => by simpa using h
    ltC := fun _ _ h => absurd h List.not_mem_nil
    total := fun _ n h => Or.inl (by simpa using h)
    refs := fun i h => absurd h (hp i)
    layout := List.Pairwise.nil
    inOut := fun _ h => absurd h List.not_mem_nil
    instLt := fun i h => by cases h
    defLt := fun _ _ h => absurd h List.not_mem_nil
    instInj := fun _ _ h => by cases h
    defUniq := fun _ _ _ h => absurd h List.not_mem_nil
    defd := fun _ h => by cases h
    undef := fun i h => absurd h (hp i)
    abs8 := fun _ h => absurd h List.not_mem_nil
    pendLt := fun _ h => absurd h List.not_mem_nil
    val := fun _ h => absurd h List.not_mem_nil }

theorem init_i0 (ids : IdTab) (inp : List Byte) : I0 [] (init ids inp) := Or.inr ⟨init_inv ids inp, by simp⟩

theorem run_i {inp : List Byte} {s : S} (h : Sas.run inp = .ok () s) : I [] s := by
  unfold Sas.run at h
  split at h
  · cases h
  · obtain ⟨_, s1, e1, h⟩ := bind_eq_ok.mp h
    exact tri_loop _ _ _ _ (tri_getToken _ _ _ (init_i0 _ _) e1) h

theorem run_inv {inp : List Byte} {s : S} (h : Sas.run inp = .ok () s) (hm : ∀ d ∈ s.gDefs, d.2 ≠ -1) : Inv s := by
  rcases (run_i h).2 with ⟨d, h1, h2⟩ | ⟨h, _⟩
  · exact absurd h2 (hm d h1)
  · exact h

end Props.SasFix
