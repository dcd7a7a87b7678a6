import Verif.Props.SccGenRun
import Verif.Util.Text
/-!
# Compiled expressions (C43): the text of an expression
-/
namespace SccGen
open Prog Text Scc SccCode Props.SccLex Props.SccIds

/-! ## Specification -/

/-- The operators of C with more than one character and what begins a comment. -/
def ops : List (List Byte) :=
  (["==", "!=", "<=", ">=", "<<", ">>", "<<=", ">>=", "&&", "||", "&=", "|=", "^=", "+=", "-=", "*=", "/=", "%=", "++", "--", "->", "...",
    "//", "/*"]).map asc

/-- Maximal munch: no longer operator begins with `w`. -/
def Munch (w r : List Byte) : Prop := ∀ v ∈ ops, v <+: w ++ r → v.length ≤ w.length

def _root_.SccCode.BOp.text : BOp → List Byte
  | .add => asc "+" | .sub => asc "-" | .mul => asc "*" | .div => asc "/" | .mod => asc "%" | .and => asc "&" | .xor => asc "^" | .or => asc "|"
  | .shl => asc "<<" | .shr => asc ">>" | .lt => asc "<" | .le => asc "<=" | .gt => asc ">" | .ge => asc ">=" | .eq => asc "==" | .ne => asc "!="

def UOp.text : UOp → List Byte
  | .neg => asc "-" | .not => asc "!" | .bnot => asc "~" | .plus => asc "+"

/-- The tokens for an operator with an assignment. -/
def _root_.SccCode.BOp.asTok : BOp → Option Nat
  | .add => some tokPlusEq | .sub => some tokMinusEq | .mul => some tokStarEq | .div => some tokSlashEq | .mod => some tokModEq
  | .shl => some tokLshEq | .shr => some tokRshEq | .and => some tokAndEq | .xor => some tokXorEq | .or => some tokOrEq
  | _ => none

/-- The text of the symbols. -/
inductive Sym : Tk → List Byte → Prop
  | bin (o : BOp) : Sym (.sym o.tok o.prec) o.text
  | un (o : UOp) : Sym (.sym o.tok o.prec) o.text
  | opn : Sym (.sym 0x28 precStop) (asc "(")
  | cls : Sym (.sym 0x29 precStop) (asc ")")
  | semi : Sym (.sym 0x3B precStop) (asc ";")
  | brace : Sym (.sym 0x7D precStop) (asc "}")
  | lbrace : Sym (.sym 0x7B precStop) (asc "{")
  | asgn : Sym (.sym 0x3D precAssign) (asc "=")
  | as {o : BOp} {t : Nat} (h : o.asTok = some t) : Sym (.sym t precAssign) (o.text ++ asc "=")
  | inc : Sym (.sym tokPlusPlus precStop) (asc "++")
  | dec : Sym (.sym tokMinusMinus precStop) (asc "--")
  | comma : Sym (.sym 0x2C precComma) (asc ",")
  | land : Sym (.sym tokAndAnd 11) (asc "&&")
  | lor : Sym (.sym tokOrOr 12) (asc "||")

/-- The text after a word or a number: no letter, digit or underscore, nor the two characters which the compiler takes for digits. -/
def After (r : List Byte) : Prop := ∀ c, r.head? = some c → isIdChar c = false ∧ c ≠ 0x40 ∧ c ≠ 0x60

/-- The text `l` begins with the tokens `ts`; `names` are the identifiers by their numbers. -/
inductive Src (names : List (List Byte)) : List Byte → List Tk → Prop
  | nil (r : List Byte) : Src names r []
  | num {ws r : List Byte} {ts : List Tk} (n : Nat) (hn : n < 10 ^ 9) (hw : Gap ws) (ha : After r) (h : Src names r ts) :
      Src names (ws ++ decimal n ++ r) (.num n :: ts)
  | id {ws w r : List Byte} {ts : List Tk} (x : Nat) (hx : names[x]? = some w) (hi : Word w) (hw : Gap ws) (ha : After r) (hr : r ≠ [])
      (h : Src names r ts) : Src names (ws ++ w ++ r) (.id x :: ts)
  | sym {ws w r : List Byte} {t : Tk} {ts : List Tk} (hs : Sym t w) (hw : Gap ws) (ha : Munch w r) (hr : r ≠ []) (h : Src names r ts) :
      Src names (ws ++ w ++ r) (t :: ts)

/-- The text `l` is the text of the tokens `ts` and then `e`. -/
inductive SrcTo (names : List (List Byte)) (e : List Byte) : List Byte → List Tk → Prop
  | nil : SrcTo names e e []
  | num {ws r : List Byte} {ts : List Tk} (n : Nat) (hn : n < 10 ^ 9) (hw : Gap ws) (ha : After r) (h : SrcTo names e r ts) :
      SrcTo names e (ws ++ decimal n ++ r) (.num n :: ts)
  | id {ws w r : List Byte} {ts : List Tk} (x : Nat) (hx : names[x]? = some w) (hi : Word w) (hw : Gap ws) (ha : After r) (hr : r ≠ [])
      (h : SrcTo names e r ts) : SrcTo names e (ws ++ w ++ r) (.id x :: ts)
  | sym {ws w r : List Byte} {t : Tk} {ts : List Tk} (hs : Sym t w) (hw : Gap ws) (ha : Munch w r) (hr : r ≠ []) (h : SrcTo names e r ts) :
      SrcTo names e (ws ++ w ++ r) (t :: ts)

theorem Src.to {names : List (List Byte)} {l : List Byte} {ts : List Tk} (h : Src names l ts) : ∃ e, SrcTo names e l ts := by
  induction h with
  | nil r => exact ⟨r, .nil⟩
  | num n hn hw ha _ ih => exact ⟨ih.choose, .num n hn hw ha ih.choose_spec⟩
  | id x hx hi hw ha hr _ ih => exact ⟨ih.choose, .id x hx hi hw ha hr ih.choose_spec⟩
  | sym hs hw ha hr _ ih => exact ⟨ih.choose, .sym hs hw ha hr ih.choose_spec⟩

/-! ## Symbols -/

theorem Munch.ne {b : Byte} {w r : List Byte} (h : Munch w r) (hb : b ≠ 0) (hm : w ++ [b] ∈ ops) : (r.headD 0).toNat ≠ b.toNat := by
  intro e
  have e' : r.headD 0 = b := BitVec.eq_of_toNat_eq e
  cases r with
  | nil => exact hb e'.symm
  | cons c r =>
    have : c = b := e'
    subst this
    have := h _ hm ⟨r, by simp⟩
    simp at this
    omega

theorem op_at {s : S} {c : Byte} {w r : List Byte} {t p : Nat} (hs : Starts c) (h1 : ¬(0x30 ≤ c.toNat ∧ c.toNat ≤ 0x39))
    (h2 : ¬(0x41 ≤ c.toNat ∧ c.toNat &&& 0xDF ≤ 0x5A ∨ c = 0x5F)) (h3 : c ≠ 0x27) (h4 : c ≠ 0x22) (hr : r ≠ []) {ws : List Byte} (hw : Gap ws)
    (ho : operator c.toNat ((w ++ r).headD 0) (w ++ r).tail = some (t, p, w.length)) :
    getToken (at' s (ws ++ c :: w ++ r)) = .ok () (showT (.sym t p) (at' s r)) := by
  rw [List.append_assoc, List.cons_append, getToken_gap s c (w ++ r) hw hs]
  refine run_getS (run_bind (next_at s c (w ++ r)) (run_modS (run_neg h1 (run_neg h2 (run_neg h3 (run_neg h4 (run_getS ?_)))))))
  have e : ({ at' s (w ++ r) with prec := precStop } : S).cur :: ({ at' s (w ++ r) with prec := precStop } : S).inp = w ++ r :=
    rest_eq s _ (by simp [hr])
  simp only [e]
  show (match operator c.toNat ((w ++ r).headD 0) (w ++ r).tail with
    | none => fail .fatal
    | some (t', p, k) => setTok t' p >>= fun _ => setText ((w ++ r).drop k) : A Unit) _ = _
  rw [ho]
  refine run_modS ?_
  rw [List.drop_left]
  rfl

theorem skip_slash {ws : List Byte} (hw : Gap ws) (r : List Byte) (h1 : r.head? ≠ some 0x2F) (h2 : r.head? ≠ some 0x2A) :
    skip .top (ws ++ 0x2F :: r) = .slash r := by
  induction hw with
  | nil =>
    cases r with
    | nil => rfl
    | cons d r =>
      simp only [List.nil_append, skip]
      rw [if_neg (by decide), if_neg (by decide), if_pos trivial, if_neg (fun e => h1 (by rw [e]; rfl)), if_neg (fun e => h2 (by rw [e]; rfl))]
  | blank d g h1 h2 _ ih => rw [List.cons_append, skip_blank1 d _ h1 h2 (by simp), ih]
  | line body g hb _ ih =>
    simp only [List.cons_append, List.append_assoc, skip]
    rw [if_neg (by decide), if_neg (by decide), if_pos trivial, if_pos trivial, skip_line _ _ hb, ih]
  | comment body g hb _ ih =>
    simp only [List.cons_append, List.append_assoc, skip]
    rw [if_neg (by decide), if_neg (by decide), if_pos trivial, if_neg (by decide), if_pos trivial, skip_com _ _ _ (by simp) hb, ih]
  | directive body g hb _ ih =>
    have e : skip .top ((0x23 :: (body ++ 0x0A :: g)) ++ 0x2F :: r) = skip .line (body ++ 0x0A :: (g ++ 0x2F :: r)) := by
      simp only [List.cons_append, List.append_assoc]
      cases body with
      | nil => simp only [List.nil_append, skip]; rw [if_neg (by decide), if_neg (by decide), if_neg (by decide), if_pos trivial]
      | cons b body => simp only [List.cons_append, skip]; rw [if_neg (by decide), if_neg (by decide), if_neg (by decide), if_pos trivial]
    rw [e, skip_line _ _ hb, ih]

theorem _root_.Props.SccLex.Gap.low {ws : List Byte} (hw : Gap ws) (r : List Byte) : ((ws ++ 0x2F :: r).headD 0).toInt ≤ 0x2F := by
  cases hw with
  | nil => show (0x2F : Byte).toInt ≤ 0x2F; decide
  | blank d g h1 h2 _ => show d.toInt ≤ 0x2F; rw [BitVec.toInt_eq_toNat_cond]; split <;> omega
  | line => show (0x2F : Byte).toInt ≤ 0x2F; decide
  | comment => show (0x2F : Byte).toInt ≤ 0x2F; decide
  | directive => show (0x23 : Byte).toInt ≤ 0x2F; decide

theorem slash_at {s : S} {r ws : List Byte} (hr : r ≠ []) (hw : Gap ws) (h1 : r.head? ≠ some 0x2F) (h2 : r.head? ≠ some 0x2A)
    (h3 : (r.headD 0).toNat ≠ 0x3D) : getToken (at' s (ws ++ [0x2F] ++ r)) = .ok () (showT (.sym 0x2F 3) (at' s r)) := by
  rw [List.append_assoc]
  refine run_getS (run_pos (hw.low r) (run_bind (a := true) (s1 := at' s r) ?_ ?_))
  · refine run_getS ?_
    rw [rest_eq s _ (by simp)]
    show (match skip .top (ws ++ 0x2F :: r) with | .stop l => _ | .slash l => _ | .bad => _ : A Bool) _ = _
    rw [skip_slash hw r h1 h2]
    rfl
  · refine run_pos rfl (run_getS ?_)
    have ho : operator 0x2F (at' s r).cur (at' s r).inp = some (0x2F, 3, 0) := by
      have h3' : (at' s r).cur.toNat ≠ 0x3D := h3
      simp [operator, h3']
    rw [ho]
    refine run_modS ?_
    show setText ((at' s r).cur :: (at' s r).inp) _ = _
    rw [rest_eq s r hr]
    rfl

theorem slash_eq {s : S} {r ws : List Byte} (hw : Gap ws) :
    getToken (at' s (ws ++ [0x2F, 0x3D] ++ r)) = .ok () (showT (.sym tokSlashEq precAssign) (at' s r)) := by
  rw [List.append_assoc, show [0x2F, 0x3D] ++ r = 0x2F :: (0x3D :: r) from rfl]
  refine run_getS (run_pos (hw.low (0x3D :: r)) (run_bind (a := true) (s1 := at' s (0x3D :: r)) ?_ ?_))
  · refine run_getS ?_
    rw [rest_eq s _ (by simp)]
    show (match skip .top (ws ++ 0x2F :: (0x3D :: r)) with | .stop l => _ | .slash l => _ | .bad => _ : A Bool) _ = _
    rw [skip_slash hw (0x3D :: r) (by simp) (by simp)]
    rfl
  · refine run_pos rfl (run_getS ?_)
    have ho : operator 0x2F (at' s (0x3D :: r)).cur (at' s (0x3D :: r)).inp = some (tokSlashEq, precAssign, 1) := rfl
    rw [ho]
    refine run_modS ?_
    rfl

theorem Sym.scan {t : Tk} {w ws r : List Byte} (h : Sym t w) (hw : Gap ws) (ha : Munch w r) (hr : r ≠ []) (s : S) :
    getToken (at' s (ws ++ w ++ r)) = .ok () (showT t (at' s r)) := by
  cases h with
  | bin o =>
    cases o
    case div =>
      refine slash_at hr hw ?_ ?_ (ha.ne (b := 0x3D) (by decide) (by decide))
      · intro e
        cases r with
        | nil => cases e
        | cons c r => exact ha.ne (b := 0x2F) (by decide) (by decide) (by cases e; rfl)
      · intro e
        cases r with
        | nil => cases e
        | cons c r => exact ha.ne (b := 0x2A) (by decide) (by decide) (by cases e; rfl)
    case add =>
      have h1 := ha.ne (b := 0x2B) (by decide) (by decide)
      have h2 := ha.ne (b := 0x3D) (by decide) (by decide)
      exact op_at (c := 0x2B) (w := []) (by decide) (by decide) (by decide) (by decide) (by decide) hr hw (by simp_all [operator] <;> decide)
    case sub =>
      have h1 := ha.ne (b := 0x2D) (by decide) (by decide)
      have h2 := ha.ne (b := 0x3D) (by decide) (by decide)
      have h3 := ha.ne (b := 0x3E) (by decide) (by decide)
      exact op_at (c := 0x2D) (w := []) (by decide) (by decide) (by decide) (by decide) (by decide) hr hw (by simp_all [operator] <;> decide)
    case mul =>
      have h2 := ha.ne (b := 0x3D) (by decide) (by decide)
      exact op_at (c := 0x2A) (w := []) (by decide) (by decide) (by decide) (by decide) (by decide) hr hw (by simp_all [operator] <;> decide)
    case mod =>
      have h2 := ha.ne (b := 0x3D) (by decide) (by decide)
      exact op_at (c := 0x25) (w := []) (by decide) (by decide) (by decide) (by decide) (by decide) hr hw (by simp_all [operator] <;> decide)
    case and =>
      have h1 := ha.ne (b := 0x26) (by decide) (by decide)
      have h2 := ha.ne (b := 0x3D) (by decide) (by decide)
      exact op_at (c := 0x26) (w := []) (by decide) (by decide) (by decide) (by decide) (by decide) hr hw (by simp_all [operator] <;> decide)
    case xor =>
      have h2 := ha.ne (b := 0x3D) (by decide) (by decide)
      exact op_at (c := 0x5E) (w := []) (by decide) (by decide) (by decide) (by decide) (by decide) hr hw (by simp_all [operator] <;> decide)
    case or =>
      have h1 := ha.ne (b := 0x7C) (by decide) (by decide)
      have h2 := ha.ne (b := 0x3D) (by decide) (by decide)
      exact op_at (c := 0x7C) (w := []) (by decide) (by decide) (by decide) (by decide) (by decide) hr hw (by simp_all [operator] <;> decide)
    case shl =>
      have h2 := ha.ne (b := 0x3D) (by decide) (by decide)
      have h3 : r.headD 0 ≠ 0x3D := fun e => h2 (congrArg BitVec.toNat e)
      exact op_at (c := 0x3C) (w := [0x3C]) (by decide) (by decide) (by decide) (by decide) (by decide) hr hw
        (by show operator 0x3C 0x3C r = _; simp only [operator]; rw [if_neg h3]; rfl)
    case shr =>
      have h2 := ha.ne (b := 0x3D) (by decide) (by decide)
      have h3 : r.headD 0 ≠ 0x3D := fun e => h2 (congrArg BitVec.toNat e)
      exact op_at (c := 0x3E) (w := [0x3E]) (by decide) (by decide) (by decide) (by decide) (by decide) hr hw
        (by simp_all [operator] <;> decide)
    case lt =>
      have h1 := ha.ne (b := 0x3C) (by decide) (by decide)
      have h2 := ha.ne (b := 0x3D) (by decide) (by decide)
      exact op_at (c := 0x3C) (w := []) (by decide) (by decide) (by decide) (by decide) (by decide) hr hw (by simp_all [operator] <;> decide)
    case gt =>
      have h1 := ha.ne (b := 0x3E) (by decide) (by decide)
      have h2 := ha.ne (b := 0x3D) (by decide) (by decide)
      exact op_at (c := 0x3E) (w := []) (by decide) (by decide) (by decide) (by decide) (by decide) hr hw (by simp_all [operator] <;> decide)
    case le => exact op_at (c := 0x3C) (w := [0x3D]) (by decide) (by decide) (by decide) (by decide) (by decide) hr hw rfl
    case ge => exact op_at (c := 0x3E) (w := [0x3D]) (by decide) (by decide) (by decide) (by decide) (by decide) hr hw rfl
    case eq => exact op_at (c := 0x3D) (w := [0x3D]) (by decide) (by decide) (by decide) (by decide) (by decide) hr hw rfl
    case ne => exact op_at (c := 0x21) (w := [0x3D]) (by decide) (by decide) (by decide) (by decide) (by decide) hr hw rfl
  | un o =>
    cases o
    case neg =>
      have h1 := ha.ne (b := 0x2D) (by decide) (by decide)
      have h2 := ha.ne (b := 0x3D) (by decide) (by decide)
      have h3 := ha.ne (b := 0x3E) (by decide) (by decide)
      exact op_at (c := 0x2D) (w := []) (by decide) (by decide) (by decide) (by decide) (by decide) hr hw (by simp_all [operator] <;> decide)
    case plus =>
      have h1 := ha.ne (b := 0x2B) (by decide) (by decide)
      have h2 := ha.ne (b := 0x3D) (by decide) (by decide)
      exact op_at (c := 0x2B) (w := []) (by decide) (by decide) (by decide) (by decide) (by decide) hr hw (by simp_all [operator] <;> decide)
    case not =>
      have h2 := ha.ne (b := 0x3D) (by decide) (by decide)
      exact op_at (c := 0x21) (w := []) (by decide) (by decide) (by decide) (by decide) (by decide) hr hw (by simp_all [operator] <;> decide)
    case bnot => exact op_at (c := 0x7E) (w := []) (by decide) (by decide) (by decide) (by decide) (by decide) hr hw rfl
  | opn => exact op_at (c := 0x28) (w := []) (by decide) (by decide) (by decide) (by decide) (by decide) hr hw rfl
  | cls => exact op_at (c := 0x29) (w := []) (by decide) (by decide) (by decide) (by decide) (by decide) hr hw rfl
  | semi => exact op_at (c := 0x3B) (w := []) (by decide) (by decide) (by decide) (by decide) (by decide) hr hw rfl
  | brace => exact op_at (c := 0x7D) (w := []) (by decide) (by decide) (by decide) (by decide) (by decide) hr hw rfl
  | comma => exact op_at (c := 0x2C) (w := []) (by decide) (by decide) (by decide) (by decide) (by decide) hr hw rfl
  | lbrace => exact op_at (c := 0x7B) (w := []) (by decide) (by decide) (by decide) (by decide) (by decide) hr hw rfl
  | asgn =>
    have h2 := ha.ne (b := 0x3D) (by decide) (by decide)
    exact op_at (c := 0x3D) (w := []) (by decide) (by decide) (by decide) (by decide) (by decide) hr hw (by simp_all [operator] <;> decide)
  | @as o t h =>
    cases o <;> cases h
    case div.refl => exact slash_eq hw
    case add.refl => exact op_at (c := 0x2B) (w := [0x3D]) (by decide) (by decide) (by decide) (by decide) (by decide) hr hw rfl
    case sub.refl => exact op_at (c := 0x2D) (w := [0x3D]) (by decide) (by decide) (by decide) (by decide) (by decide) hr hw rfl
    case mul.refl => exact op_at (c := 0x2A) (w := [0x3D]) (by decide) (by decide) (by decide) (by decide) (by decide) hr hw rfl
    case mod.refl => exact op_at (c := 0x25) (w := [0x3D]) (by decide) (by decide) (by decide) (by decide) (by decide) hr hw rfl
    case and.refl => exact op_at (c := 0x26) (w := [0x3D]) (by decide) (by decide) (by decide) (by decide) (by decide) hr hw rfl
    case xor.refl => exact op_at (c := 0x5E) (w := [0x3D]) (by decide) (by decide) (by decide) (by decide) (by decide) hr hw rfl
    case or.refl => exact op_at (c := 0x7C) (w := [0x3D]) (by decide) (by decide) (by decide) (by decide) (by decide) hr hw rfl
    case shl.refl => exact op_at (c := 0x3C) (w := [0x3C, 0x3D]) (by decide) (by decide) (by decide) (by decide) (by decide) hr hw rfl
    case shr.refl => exact op_at (c := 0x3E) (w := [0x3E, 0x3D]) (by decide) (by decide) (by decide) (by decide) (by decide) hr hw rfl
  | inc => exact op_at (c := 0x2B) (w := [0x2B]) (by decide) (by decide) (by decide) (by decide) (by decide) hr hw rfl
  | dec => exact op_at (c := 0x2D) (w := [0x2D]) (by decide) (by decide) (by decide) (by decide) (by decide) hr hw rfl
  | land => exact op_at (c := 0x26) (w := [0x26]) (by decide) (by decide) (by decide) (by decide) (by decide) hr hw rfl
  | lor => exact op_at (c := 0x7C) (w := [0x7C]) (by decide) (by decide) (by decide) (by decide) (by decide) hr hw rfl

/-! ## Words and numbers -/

/-- A word that is known. -/
theorem getToken_known (s : S) (names : List (List Byte)) (ws w r : List Byte) (h : Ids s names) (hws : Gap ws) (hw : Word w) (hr : WordEnd r) (hrn : r ≠ [])
    (hb : s.idPos + w.length + 1 ≤ idBufferMax) {x : Nat} (hx : names[x]? = some w) :
    getToken (at' s (ws ++ w ++ r)) = .ok () (showT (.id x) (at' s r)) := by
  obtain ⟨c, l, rfl, hc, hl⟩ := hw
  obtain ⟨f1, f2, f3, f4, f5⟩ := start_facts c hc
  obtain ⟨t1, t2⟩ := takeWhile_word l r hl hr
  have hne : l ++ r ≠ [] := by simp [hrn]
  rw [List.append_assoc, List.cons_append, getToken_gap s c (l ++ r) hws ⟨f1, f2, f3⟩]
  refine run_getS (run_bind (next_at s c (l ++ r)) (run_modS (run_neg f4 (run_pos f5 (run_getS ?_)))))
  have e : ({ at' s (l ++ r) with prec := precStop } : S).cur :: ({ at' s (l ++ r) with prec := precStop } : S).inp = l ++ r := rest_eq s _ hne
  rw [e, t1, t2]
  refine run_bind (a := ()) (s1 := { at' s r with prec := precStop }) rfl (run_ub (decide_eq_true hb) ?_)
  rcases probe_spec h (c :: l) with ⟨i, a, hi, hp⟩ | ⟨j, hj, hm, _⟩
  · have hix : i = x := by
      obtain ⟨h1, h2⟩ := List.getElem?_eq_some_iff.1 hi
      obtain ⟨h3, h4⟩ := List.getElem?_eq_some_iff.1 hx
      exact (List.Nodup.getElem_inj_iff h.nodup).1 (h2.trans h4.symm)
    subst hix
    show (match probe s.idHash s.idText (c :: l) idHashMax (hashOf (c :: l)) with | none => _ | some (_, some i) => _ | some (h, none) => _ : A Unit) _ = _
    rw [hp]; rfl
  · exact absurd (List.mem_of_getElem? hx) hm

theorem after_digit : ∀ c : Byte, isIdChar c = false → digitVal c = 99 ∧ c &&& 0xDF ≠ 0x58 := by decide +kernel

theorem SrcTo.scan {names : List (List Byte)} {e l : List Byte} {ts us : List Tk} (h : SrcTo names e l ts) (s0 : Base) (hf : Scan s0 e us) (hi : Ids s0.s names)
    (hb : ∀ w ∈ names, s0.s.idPos + w.length + 1 ≤ idBufferMax) : Scan s0 l (ts ++ us) := by
  induction h with
  | nil => exact hf
  | @num ws r ts n hn hw ha _ ih =>
    refine .cons _ r (fun s _ => ?_) ih
    have h16 : ∀ b, b ≤ 16 → Ends b r := fun b hb c hc => ⟨by rw [(after_digit c (ha c hc).1).1]; omega, fun _ => (ha c hc).2⟩
    refine Props.C33_roundtrip s ws r n hw hn (h16 10 (by decide)) fun _ => ⟨h16 16 (by decide), ?_⟩
    cases r with
    | nil => decide
    | cons c r => exact (after_digit c (ha c rfl).1).2
  | @id ws w r ts x hx hwd hw ha hr _ ih =>
    refine .cons _ r (fun s hs => ?_) ih
    have e1 : s.idHash = s0.s.idHash := congrArg (·.1) hs
    have e2 : s.idText = s0.s.idText := congrArg (·.2.1) hs
    have e3 : s.idCount = s0.s.idCount := congrArg (·.2.2.1) hs
    have e4 : s.idPos = s0.s.idPos := congrArg (·.2.2.2) hs
    refine getToken_known s names ws w r ?_ hw hwd (fun c hc => (ha c hc).1) hr ?_ hx
    · unfold Ids; rw [e1, e2, e3]; exact hi
    · rw [e4]; exact hb w (List.mem_of_getElem? hx)
  | @sym ws w r t ts hs hw ha hr _ ih => exact .cons _ r (fun s _ => hs.scan hw ha hr s) ih

theorem Src.scan {names : List (List Byte)} {l : List Byte} {ts : List Tk} (h : Src names l ts) (s : S) (hi : Ids s names)
    (hb : ∀ w ∈ names, s.idPos + w.length + 1 ≤ idBufferMax) : Scan (bas s) l ts := by
  have := h.to.choose_spec.scan (us := []) (bas s) (.nil _ trivial) hi hb
  rwa [List.append_nil] at this

end SccGen
