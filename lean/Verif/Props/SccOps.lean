import Verif.Props.SccGenText
/-!
# Operators (C50)
-/
namespace SccOps
open Prog Text Scc SccCode SccGen Props.SccLex Props.SccIds

/-! ## Specification -/

/-- The operators and other symbols of C: text, token, precedence (`precStop` if it cannot follow an operand as a binary operator). -/
def table : List (String × Nat × Nat) :=
  [(";", 0x3b, 100), ("(", 0x28, 100), (")", 0x29, 100), ("{", 0x7b, 100), ("}", 0x7d, 100),
   ("[", 0x5b, 100), ("]", 0x5d, 100), (":", 0x3a, 100), ("~", 0x7e, 100), ("=", 0x3d, 14),
   ("==", tokEqEq, 7), (",", 0x2c, 15), ("?", 0x3f, 13), ("!", 0x21, 100), ("!=", tokNotEq, 7),
   ("<", 0x3c, 6), ("<=", tokLtEq, 6), ("<<", tokLsh, 5), ("<<=", tokLshEq, 14), (">", 0x3e, 6),
   (">=", tokGtEq, 6), (">>", tokRsh, 5), (">>=", tokRshEq, 14), ("&", 0x26, 8), ("&&", tokAndAnd, 11),
   ("&=", tokAndEq, 14), ("|", 0x7c, 10), ("||", tokOrOr, 12), ("|=", tokOrEq, 14), ("^", 0x5e, 9),
   ("^=", tokXorEq, 14), ("+", 0x2b, 4), ("++", tokPlusPlus, 100), ("+=", tokPlusEq, 14), ("-", 0x2d, 4),
   ("--", tokMinusMinus, 100), ("->", tokArrow, 100), ("-=", tokMinusEq, 14), ("*", 0x2a, 3), ("*=", tokStarEq, 14),
   ("/", 0x2f, 3), ("/=", tokSlashEq, 14), ("%", 0x25, 3), ("%=", tokModEq, 14), (".", 0x2e, 100),
   ("...", tokEllipsis, 100)]

/-- The levels of the binary operators of C, from the one that binds most. -/
def levels : List (List String) :=
  [["*", "/", "%"], ["+", "-"], ["<<", ">>"], ["<", "<=", ">", ">="], ["==", "!="], ["&"], ["^"], ["|"], ["&&"], ["||"], ["?"],
   ["=", "+=", "-=", "*=", "/=", "%=", "<<=", ">>=", "&=", "^=", "|="], [","]]

/-- The precedence of an operator. -/
def precOf (w : String) : Option Nat := (table.find? (·.1 == w)).map (·.2.2)

/-! ## Proof -/

theorem munch_head {w r : List Byte} {b : Byte} (h : Munch w r) (hm : w ++ [b] ∈ ops) : r.head? ≠ some b := by
  intro e
  cases r with
  | nil => cases e
  | cons c r =>
    cases e
    have := h _ hm ⟨r, by simp⟩
    simp at this
    omega

theorem dot_ne {r : List Byte} (h : r.head? ≠ some 0x2E) : (r.headD 0).toNat ≠ 0x2E := by
  intro e
  have e' : r.headD 0 = 0x2E := BitVec.eq_of_toNat_eq e
  cases r with
  | nil => cases e'
  | cons c r => exact h (congrArg some e')

theorem table_at {s : S} {w : String} {t p : Nat} {r ws : List Byte} (hm : (w, t, p) ∈ table) (hw : Gap ws) (ha : Munch (asc w) r) (hr : r ≠ [])
    (hd : w = "." → r.head? ≠ some 0x2E) : getToken (at' s (ws ++ asc w ++ r)) = .ok () (showT (.sym t p) (at' s r)) := by
  simp only [table, List.mem_cons, List.not_mem_nil, or_false, Prod.mk.injEq] at hm
  rcases hm with ⟨rfl, rfl, rfl⟩ | ⟨rfl, rfl, rfl⟩ | ⟨rfl, rfl, rfl⟩ | ⟨rfl, rfl, rfl⟩ | ⟨rfl, rfl, rfl⟩ | ⟨rfl, rfl, rfl⟩ | ⟨rfl, rfl, rfl⟩ | ⟨rfl, rfl, rfl⟩ | ⟨rfl, rfl, rfl⟩ | ⟨rfl, rfl, rfl⟩ | ⟨rfl, rfl, rfl⟩ | ⟨rfl, rfl, rfl⟩ | ⟨rfl, rfl, rfl⟩ | ⟨rfl, rfl, rfl⟩ | ⟨rfl, rfl, rfl⟩ | ⟨rfl, rfl, rfl⟩ | ⟨rfl, rfl, rfl⟩ | ⟨rfl, rfl, rfl⟩ | ⟨rfl, rfl, rfl⟩ | ⟨rfl, rfl, rfl⟩ | ⟨rfl, rfl, rfl⟩ | ⟨rfl, rfl, rfl⟩ | ⟨rfl, rfl, rfl⟩ | ⟨rfl, rfl, rfl⟩ | ⟨rfl, rfl, rfl⟩ | ⟨rfl, rfl, rfl⟩ | ⟨rfl, rfl, rfl⟩ | ⟨rfl, rfl, rfl⟩ | ⟨rfl, rfl, rfl⟩ | ⟨rfl, rfl, rfl⟩ | ⟨rfl, rfl, rfl⟩ | ⟨rfl, rfl, rfl⟩ | ⟨rfl, rfl, rfl⟩ | ⟨rfl, rfl, rfl⟩ | ⟨rfl, rfl, rfl⟩ | ⟨rfl, rfl, rfl⟩ | ⟨rfl, rfl, rfl⟩ | ⟨rfl, rfl, rfl⟩ | ⟨rfl, rfl, rfl⟩ | ⟨rfl, rfl, rfl⟩ | ⟨rfl, rfl, rfl⟩ | ⟨rfl, rfl, rfl⟩ | ⟨rfl, rfl, rfl⟩ | ⟨rfl, rfl, rfl⟩ | ⟨rfl, rfl, rfl⟩ | ⟨rfl, rfl, rfl⟩
  · -- ;
    exact op_at (c := 0x3b) (w := []) (by decide) (by decide) (by decide) (by decide) (by decide) hr hw rfl
  · -- (
    exact op_at (c := 0x28) (w := []) (by decide) (by decide) (by decide) (by decide) (by decide) hr hw rfl
  · -- )
    exact op_at (c := 0x29) (w := []) (by decide) (by decide) (by decide) (by decide) (by decide) hr hw rfl
  · -- {
    exact op_at (c := 0x7b) (w := []) (by decide) (by decide) (by decide) (by decide) (by decide) hr hw rfl
  · -- }
    exact op_at (c := 0x7d) (w := []) (by decide) (by decide) (by decide) (by decide) (by decide) hr hw rfl
  · -- [
    exact op_at (c := 0x5b) (w := []) (by decide) (by decide) (by decide) (by decide) (by decide) hr hw rfl
  · -- ]
    exact op_at (c := 0x5d) (w := []) (by decide) (by decide) (by decide) (by decide) (by decide) hr hw rfl
  · -- :
    exact op_at (c := 0x3a) (w := []) (by decide) (by decide) (by decide) (by decide) (by decide) hr hw rfl
  · -- ~
    exact op_at (c := 0x7e) (w := []) (by decide) (by decide) (by decide) (by decide) (by decide) hr hw rfl
  · -- =
    have h0 := ha.ne (b := 0x3d) (by decide) (by decide)
    have g0 : r.headD 0 ≠ 0x3d := fun e => h0 (congrArg BitVec.toNat e)
    exact op_at (c := 0x3d) (w := []) (by decide) (by decide) (by decide) (by decide) (by decide) hr hw (by simp_all [operator])
  · -- ==
    exact op_at (c := 0x3d) (w := [0x3d]) (by decide) (by decide) (by decide) (by decide) (by decide) hr hw rfl
  · -- ,
    exact op_at (c := 0x2c) (w := []) (by decide) (by decide) (by decide) (by decide) (by decide) hr hw rfl
  · -- ?
    exact op_at (c := 0x3f) (w := []) (by decide) (by decide) (by decide) (by decide) (by decide) hr hw rfl
  · -- !
    have h0 := ha.ne (b := 0x3d) (by decide) (by decide)
    have g0 : r.headD 0 ≠ 0x3d := fun e => h0 (congrArg BitVec.toNat e)
    exact op_at (c := 0x21) (w := []) (by decide) (by decide) (by decide) (by decide) (by decide) hr hw (by simp_all [operator])
  · -- !=
    exact op_at (c := 0x21) (w := [0x3d]) (by decide) (by decide) (by decide) (by decide) (by decide) hr hw rfl
  · -- <
    have h0 := ha.ne (b := 0x3d) (by decide) (by decide)
    have g0 : r.headD 0 ≠ 0x3d := fun e => h0 (congrArg BitVec.toNat e)
    have h1 := ha.ne (b := 0x3c) (by decide) (by decide)
    have g1 : r.headD 0 ≠ 0x3c := fun e => h1 (congrArg BitVec.toNat e)
    exact op_at (c := 0x3c) (w := []) (by decide) (by decide) (by decide) (by decide) (by decide) hr hw (by simp_all [operator])
  · -- <=
    exact op_at (c := 0x3c) (w := [0x3d]) (by decide) (by decide) (by decide) (by decide) (by decide) hr hw rfl
  · -- <<
    have h0 := ha.ne (b := 0x3d) (by decide) (by decide)
    have g0 : r.headD 0 ≠ 0x3d := fun e => h0 (congrArg BitVec.toNat e)
    exact op_at (c := 0x3c) (w := [0x3c]) (by decide) (by decide) (by decide) (by decide) (by decide) hr hw (by simp_all [operator])
  · -- <<=
    exact op_at (c := 0x3c) (w := [0x3c, 0x3d]) (by decide) (by decide) (by decide) (by decide) (by decide) hr hw rfl
  · -- >
    have h0 := ha.ne (b := 0x3d) (by decide) (by decide)
    have g0 : r.headD 0 ≠ 0x3d := fun e => h0 (congrArg BitVec.toNat e)
    have h1 := ha.ne (b := 0x3e) (by decide) (by decide)
    have g1 : r.headD 0 ≠ 0x3e := fun e => h1 (congrArg BitVec.toNat e)
    exact op_at (c := 0x3e) (w := []) (by decide) (by decide) (by decide) (by decide) (by decide) hr hw (by simp_all [operator])
  · -- >=
    exact op_at (c := 0x3e) (w := [0x3d]) (by decide) (by decide) (by decide) (by decide) (by decide) hr hw rfl
  · -- >>
    have h0 := ha.ne (b := 0x3d) (by decide) (by decide)
    have g0 : r.headD 0 ≠ 0x3d := fun e => h0 (congrArg BitVec.toNat e)
    exact op_at (c := 0x3e) (w := [0x3e]) (by decide) (by decide) (by decide) (by decide) (by decide) hr hw (by simp_all [operator])
  · -- >>=
    exact op_at (c := 0x3e) (w := [0x3e, 0x3d]) (by decide) (by decide) (by decide) (by decide) (by decide) hr hw rfl
  · -- &
    have h0 := ha.ne (b := 0x26) (by decide) (by decide)
    have g0 : r.headD 0 ≠ 0x26 := fun e => h0 (congrArg BitVec.toNat e)
    have h1 := ha.ne (b := 0x3d) (by decide) (by decide)
    have g1 : r.headD 0 ≠ 0x3d := fun e => h1 (congrArg BitVec.toNat e)
    exact op_at (c := 0x26) (w := []) (by decide) (by decide) (by decide) (by decide) (by decide) hr hw (by simp_all [operator])
  · -- &&
    exact op_at (c := 0x26) (w := [0x26]) (by decide) (by decide) (by decide) (by decide) (by decide) hr hw rfl
  · -- &=
    exact op_at (c := 0x26) (w := [0x3d]) (by decide) (by decide) (by decide) (by decide) (by decide) hr hw rfl
  · -- |
    have h0 := ha.ne (b := 0x7c) (by decide) (by decide)
    have g0 : r.headD 0 ≠ 0x7c := fun e => h0 (congrArg BitVec.toNat e)
    have h1 := ha.ne (b := 0x3d) (by decide) (by decide)
    have g1 : r.headD 0 ≠ 0x3d := fun e => h1 (congrArg BitVec.toNat e)
    exact op_at (c := 0x7c) (w := []) (by decide) (by decide) (by decide) (by decide) (by decide) hr hw (by simp_all [operator])
  · -- ||
    exact op_at (c := 0x7c) (w := [0x7c]) (by decide) (by decide) (by decide) (by decide) (by decide) hr hw rfl
  · -- |=
    exact op_at (c := 0x7c) (w := [0x3d]) (by decide) (by decide) (by decide) (by decide) (by decide) hr hw rfl
  · -- ^
    have h0 := ha.ne (b := 0x3d) (by decide) (by decide)
    have g0 : r.headD 0 ≠ 0x3d := fun e => h0 (congrArg BitVec.toNat e)
    exact op_at (c := 0x5e) (w := []) (by decide) (by decide) (by decide) (by decide) (by decide) hr hw (by simp_all [operator])
  · -- ^=
    exact op_at (c := 0x5e) (w := [0x3d]) (by decide) (by decide) (by decide) (by decide) (by decide) hr hw rfl
  · -- +
    have h0 := ha.ne (b := 0x3d) (by decide) (by decide)
    have g0 : r.headD 0 ≠ 0x3d := fun e => h0 (congrArg BitVec.toNat e)
    have h1 := ha.ne (b := 0x2b) (by decide) (by decide)
    have g1 : r.headD 0 ≠ 0x2b := fun e => h1 (congrArg BitVec.toNat e)
    exact op_at (c := 0x2b) (w := []) (by decide) (by decide) (by decide) (by decide) (by decide) hr hw (by simp_all [operator])
  · -- ++
    exact op_at (c := 0x2b) (w := [0x2b]) (by decide) (by decide) (by decide) (by decide) (by decide) hr hw rfl
  · -- +=
    exact op_at (c := 0x2b) (w := [0x3d]) (by decide) (by decide) (by decide) (by decide) (by decide) hr hw rfl
  · -- -
    have h0 := ha.ne (b := 0x3d) (by decide) (by decide)
    have g0 : r.headD 0 ≠ 0x3d := fun e => h0 (congrArg BitVec.toNat e)
    have h1 := ha.ne (b := 0x2d) (by decide) (by decide)
    have g1 : r.headD 0 ≠ 0x2d := fun e => h1 (congrArg BitVec.toNat e)
    have h2 := ha.ne (b := 0x3e) (by decide) (by decide)
    have g2 : r.headD 0 ≠ 0x3e := fun e => h2 (congrArg BitVec.toNat e)
    exact op_at (c := 0x2d) (w := []) (by decide) (by decide) (by decide) (by decide) (by decide) hr hw (by simp_all [operator])
  · -- --
    exact op_at (c := 0x2d) (w := [0x2d]) (by decide) (by decide) (by decide) (by decide) (by decide) hr hw rfl
  · -- ->
    exact op_at (c := 0x2d) (w := [0x3e]) (by decide) (by decide) (by decide) (by decide) (by decide) hr hw rfl
  · -- -=
    exact op_at (c := 0x2d) (w := [0x3d]) (by decide) (by decide) (by decide) (by decide) (by decide) hr hw rfl
  · -- *
    have h0 := ha.ne (b := 0x3d) (by decide) (by decide)
    have g0 : r.headD 0 ≠ 0x3d := fun e => h0 (congrArg BitVec.toNat e)
    exact op_at (c := 0x2a) (w := []) (by decide) (by decide) (by decide) (by decide) (by decide) hr hw (by simp_all [operator])
  · -- *=
    exact op_at (c := 0x2a) (w := [0x3d]) (by decide) (by decide) (by decide) (by decide) (by decide) hr hw rfl
  · -- /
    exact slash_at hr hw (munch_head ha (by decide)) (munch_head ha (by decide)) (ha.ne (b := 0x3D) (by decide) (by decide))
  · -- /=
    exact slash_eq hw
  · -- %
    have h0 := ha.ne (b := 0x3d) (by decide) (by decide)
    have g0 : r.headD 0 ≠ 0x3d := fun e => h0 (congrArg BitVec.toNat e)
    exact op_at (c := 0x25) (w := []) (by decide) (by decide) (by decide) (by decide) (by decide) hr hw (by simp_all [operator])
  · -- %=
    exact op_at (c := 0x25) (w := [0x3d]) (by decide) (by decide) (by decide) (by decide) (by decide) hr hw rfl
  · -- .
    have h0 : (r.headD 0).toNat ≠ 0x2E := dot_ne (hd rfl)
    exact op_at (c := 0x2e) (w := []) (by decide) (by decide) (by decide) (by decide) (by decide) hr hw (by simp_all [operator])
  · -- ...
    exact op_at (c := 0x2e) (w := [0x2e, 0x2e]) (by decide) (by decide) (by decide) (by decide) (by decide) hr hw rfl

end SccOps

namespace Props
open Prog Text Scc SccGen SccOps Props.SccLex Props.SccIds

/-- **C50**: The operators and other symbols of C are read by maximal munch: if the text after white space begins with the symbol `w`, and no longer
symbol or comment begins there, the compiler reads `w`, gives it its own token and continues behind it; different symbols have different
tokens, and their precedences are the levels of C.  (`..` that does not begin `...` is refused, although `.` is a symbol.) -/
theorem C50_munch (s : S) (w : String) (t p : Nat) (ws r : List Byte) (hm : (w, t, p) ∈ table) (hw : Gap ws) (ha : Munch (asc w) r) (hr : r ≠ [])
    (hd : w = "." → r.head? ≠ some 0x2E) :
    getToken (at' s (ws ++ asc w ++ r)) = .ok () { at' s r with tok := t, prec := p } :=
  table_at hm hw ha hr hd

theorem C50_distinct : (∀ a ∈ table, ∀ b ∈ table, a.2.1 = b.2.1 → a = b) ∧ ∀ a ∈ table, a.2.1 ≠ tokNum ∧ a.2.1 ≠ tokStrLit ∧ a.2.1 < tokKeyword := by
  decide +kernel

theorem C50_levels : (levels.flatten.all fun w => (precOf w).any (· < precStop)) = true ∧
    (∀ i ∈ List.range levels.length, ∀ j ∈ List.range levels.length, ∀ a ∈ levels.getD i [], ∀ b ∈ levels.getD j [],
      i < j ↔ (precOf a).getD 0 < (precOf b).getD 0) := by
  decide +kernel

/-- `a>>=b`: behind `a` the compiler reads `>>=`. -/
example (s : S) : getToken (at' s (asc " >>=b;")) = .ok () { at' s (asc "b;") with tok := tokRshEq, prec := precAssign } :=
  C50_munch s ">>=" _ _ [0x20] (asc "b;") (by decide) (.blank _ _ (by decide) (by decide) .nil) (by unfold Munch; decide) (by decide) (by decide)

end Props
