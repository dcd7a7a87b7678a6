import Verif.Props.SasText
/-!
# C23: constant expressions of the assembler
-/
namespace Props.SasExpr
open Sas I86 Text Prog Props.SasIds Props.SasTotal Props.SasText

/-- Unary operators. -/
inductive UOp | plus | minus | tilde
  deriving DecidableEq

/-- Binary operators. -/
inductive BOp | add | sub | shl | or
  deriving DecidableEq

/-- Expressions (there are no parentheses). -/
inductive E
  | num (n : Nat)
  | chars (c : Byte) (d : Option Byte)
  | un (o : UOp) (e : E)
  | bin (o : BOp) (a b : E)

/-- Is `n` a 32-bit `int`? -/
def Fits (n : Int) : Prop := -2147483648 ≤ n ∧ n ≤ 2147483647

instance (n : Int) : Decidable (Fits n) := by unfold Fits; infer_instance

/-- The result of an operation, if it is an `int`. -/
def fit (n : Int) : Option Int := if Fits n then some n else none

/-- The value of a unary operator. -/
def UOp.val : UOp → Int → Option Int
  | .plus, n => some n
  | .minus, n => fit (-n)
  | .tilde, n => some (-n - 1)

/-- The value of a binary operator; none where C leaves it undefined. -/
def BOp.val : BOp → Int → Int → Option Int
  | .add, a, b => fit (a + b)
  | .sub, a, b => fit (a - b)
  | .shl, a, b => if 0 ≤ a ∧ 0 ≤ b ∧ b ≤ 31 then fit (a * 2 ^ b.toNat) else none
  | .or, a, b => some (BitVec.ofInt 32 a ||| BitVec.ofInt 32 b).toInt

/-- The value of an expression; none if C leaves it undefined. -/
def E.val : E → Option Int
  | .num n => some n
  | .chars c d => some (c.toNat + 256 * (d.getD 0).toNat)
  | .un o e => e.val.bind o.val
  | .bin o a b => a.val.bind fun x => b.val.bind fun y => o.val x y

/-- Binding strength as in C: unary operators bind most tightly, then + and -, then <<, then |. -/
def BOp.lvl : BOp → Nat
  | .add | .sub => 1
  | .shl => 2
  | .or => 3

def E.lvl : E → Nat
  | .bin o _ _ => o.lvl
  | _ => 0

/-- The tree is the one that the text without parentheses stands for: operands bind more tightly, or as tightly on the left. -/
def E.WF : E → Prop
  | .num _ | .chars _ _ => True
  | .un _ e => e.lvl = 0 ∧ e.WF
  | .bin o a b => a.lvl ≤ o.lvl ∧ b.lvl < o.lvl ∧ a.WF ∧ b.WF

def UOp.lx : UOp → Lx
  | .plus => .sym (chr '+')
  | .minus => .sym (chr '-')
  | .tilde => .sym (chr '~')

def BOp.lx : BOp → Lx
  | .add => .sym (chr '+')
  | .sub => .sym (chr '-')
  | .shl => .lsh
  | .or => .sym (chr '|')

/-- The lexical elements of an expression. -/
def E.lx : E → List Lx
  | .num n => [.num n]
  | .chars c d => [.str (c :: d.toList)]
  | .un o e => o.lx :: e.lx
  | .bin o a b => a.lx ++ o.lx :: b.lx

/-- The outcome of parsing: the value, or undefined behaviour. -/
def outcome : Option Int → Except Err Int
  | some v => .ok v
  | none => .error .ub

/-! ## Proof -/

def BOp.prec : BOp → Nat
  | .add | .sub => 4
  | .shl => 5
  | .or => 10

/-- The precedence number of the next operator. -/
def hp (xs : List Lx) : Nat := precedence (headTy xs)

/-- The level as a precedence number. -/
def lp (n : Nat) : Nat := if n = 0 then 0 else if n = 1 then 4 else if n = 2 then 5 else 10

theorem lp_mono {a b : Nat} (h : a ≤ b) : lp a ≤ lp b := by unfold lp; split <;> split <;> (try split) <;> (try split) <;> (try split) <;> (try split) <;> omega
theorem lp_lt {a b : Nat} (h : a < b) (hb : b ≤ 3) : lp a < lp b := by unfold lp; split <;> split <;> (try split) <;> (try split) <;> (try split) <;> (try split) <;> omega
theorem lvl_le (o : BOp) : o.lvl ≤ 3 := by cases o <;> decide
theorem lp_lvl (o : BOp) : lp o.lvl = o.prec := by cases o <;> rfl
theorem hp_op (o : BOp) (xs : List Lx) : hp (o.lx :: xs) = o.prec := by cases o <;> rfl
theorem prec_le (o : BOp) : o.prec ≤ 10 := by cases o <;> decide

theorem rd_ck {xs : List Lx} {n : Int} : Rd xs (ck n) (outcome (fit n)) xs := by
  unfold ck fit
  by_cases h : Fits n
  · rw [if_pos h, if_pos (by simpa [inInt, Fits] using h)]; exact Rd.pure
  · rw [if_neg h, if_neg (by simpa [inInt, Fits] using h)]; exact Rd.fail

theorem rd_unaryOp {xs : List Lx} {o : UOp} {n : Int} : Rd xs (unaryOp o.lx.tok.ty n) (outcome (o.val n)) xs := by
  cases o with
  | plus => exact Rd.pure
  | minus => exact rd_ck
  | tilde => exact Rd.pure

theorem rd_binOp {xs : List Lx} {o : BOp} {a b : Int} : Rd xs (binOp o.lx.tok.ty a b) (outcome (o.val a b)) xs := by
  cases o with
  | add => exact rd_ck
  | sub => exact rd_ck
  | or => exact Rd.pure
  | shl =>
    show Rd xs (if 0 ≤ a ∧ 0 ≤ b ∧ b < 32 then ck (a * 2 ^ b.toNat) else fail .ub) (outcome (if 0 ≤ a ∧ 0 ≤ b ∧ b ≤ 31 then fit (a * 2 ^ b.toNat) else none)) xs
    by_cases h : 0 ≤ a ∧ 0 ≤ b ∧ b ≤ 31
    · rw [if_pos h, if_pos (by omega)]; exact rd_ck
    · rw [if_neg h, if_neg (by omega)]; exact Rd.fail

/-- For all sufficiently large bounds on the number of steps. -/
def Ev (p : Nat → Prop) : Prop := ∃ f0, ∀ f, f0 ≤ f → p f

theorem Ev.all {p : Nat → Prop} (h : ∀ f, p f) : Ev p := ⟨0, fun f _ => h f⟩
theorem Ev.and {p q : Nat → Prop} (h : Ev p) (h' : Ev q) : Ev fun f => p f ∧ q f := by
  obtain ⟨a, ha⟩ := h
  obtain ⟨b, hb⟩ := h'
  exact ⟨max a b, fun f hf => ⟨ha f (by omega), hb f (by omega)⟩⟩
theorem Ev.mono {p q : Nat → Prop} (h : Ev p) (hq : ∀ f, p f → q f) : Ev q := by
  obtain ⟨a, ha⟩ := h
  exact ⟨a, fun f hf => hq f (ha f hf)⟩
theorem Ev.succ {p : Nat → Prop} (h : Ev fun f => p (f + 1)) : Ev p := by
  obtain ⟨a, ha⟩ := h
  refine ⟨a + 1, fun f hf => ?_⟩
  obtain ⟨g, rfl⟩ : ∃ g, f = g + 1 := ⟨f - 1, by omega⟩
  exact ha g (by omega)

theorem rd_parsePrimary_num {n : Nat} {xs : List Lx} : Rd (.num n :: xs) parsePrimary (.ok n) xs := by
  unfold parsePrimary
  refine Rd.seq rd_tok ?_
  rw [if_pos (show (headTok (Lx.num n :: xs)).ty = tokNumber from rfl)]
  exact Rd.seq rd_getToken Rd.pure

theorem rd_parsePrimary_chars {c : Byte} {d : Option Byte} {xs : List Lx} :
    Rd (.str (c :: d.toList) :: xs) parsePrimary (.ok (c.toNat + 256 * (d.getD 0).toNat)) xs := by
  unfold parsePrimary
  refine Rd.seq rd_tok ?_
  rw [if_neg (show ¬ (headTok (Lx.str (c :: d.toList) :: xs)).ty = tokNumber by intro h; exact absurd (show tokString = tokNumber from h) (by decide)),
    if_pos (show (headTok (Lx.str (c :: d.toList) :: xs)).ty = tokString from rfl)]
  unfold numFromString
  refine Rd.seq rd_tok ?_
  refine Rd.seq (v := ()) (ys := .str (c :: d.toList) :: xs) (fun s h => ⟨s.lex, rfl, h⟩) ?_
  have hl : ¬ ((headTok (.str (c :: d.toList) :: xs)).str.length = 0 ∨ (headTok (.str (c :: d.toList) :: xs)).str.length > 2) := by
    show ¬ ((c :: d.toList).length = 0 ∨ (c :: d.toList).length > 2)
    cases d <;> simp
  rw [if_neg hl]
  refine Rd.seq rd_getToken ?_
  have : (((headTok (.str (c :: d.toList) :: xs)).str.getD 0 0).toNat + 256 * ((headTok (.str (c :: d.toList) :: xs)).str.getD 1 0).toNat : Int) =
      c.toNat + 256 * (d.getD 0).toNat := by
    show (((c :: d.toList).getD 0 0).toNat + 256 * ((c :: d.toList).getD 1 0).toNat : Int) = _
    cases d <;> simp
  rw [this]
  exact Rd.pure

theorem outcome_bind {x : Option Int} {k : Int → Option Int} : (outcome x >>= fun v => outcome (k v)) = outcome (x.bind k) := by
  cases x <;> rfl

/-- Operands. -/
theorem ev_unary : ∀ {e : E}, e.WF → e.lvl = 0 → ∀ rest, Ev fun f => Rd (e.lx ++ rest) (parseUnary f) (outcome e.val) rest
  | .num n, _, _, rest => Ev.succ <| Ev.all fun f => by
      unfold parseUnary
      refine Rd.seq rd_ty ?_
      rw [if_neg (by exact (by decide : ¬ isUnaryOp tokNumber = true))]
      exact rd_parsePrimary_num
  | .chars c d, _, _, rest => Ev.succ <| Ev.all fun f => by
      unfold parseUnary
      refine Rd.seq rd_ty ?_
      rw [if_neg (by exact (by decide : ¬ isUnaryOp tokString = true))]
      exact rd_parsePrimary_chars
  | .un o e, h, _, rest => Ev.succ <| (ev_unary h.2 h.1 rest).mono fun f hf => by
      unfold parseUnary
      refine Rd.seq rd_ty ?_
      rw [if_pos (by cases o <;> rfl)]
      refine Rd.seq rd_getToken ?_
      show Rd (e.lx ++ rest) _ (outcome (e.val.bind o.val)) rest
      rw [← outcome_bind]
      exact Rd.bind hf fun v _ => rd_unaryOp
  | .bin o a b, _, h, _ => by cases o <;> cases h

theorem stop_inner {f p : Nat} {v : Int} {rest : List Lx} (h : p ≤ hp rest) : Rd rest (parseInner (f + 1) v p) (.ok v) rest := by
  unfold parseInner
  refine Rd.seq rd_ty ?_
  rw [if_pos (show precedence (headTy rest) ≥ p from h)]
  exact Rd.pure

theorem stop_expr {f p : Nat} {v : Int} {rest : List Lx} (h : p < hp rest) : Rd rest (parseExpr (f + 1) v p) (.ok v) rest := by
  unfold parseExpr
  refine Rd.seq rd_ty ?_
  rw [if_pos (show precedence (headTy rest) > p from h)]
  exact Rd.pure

theorem bin_lx (o : BOp) (a b : E) (rest : List Lx) : (E.bin o a b).lx ++ rest = a.lx ++ (o.lx :: (b.lx ++ rest)) := by
  simp [E.lx]

theorem bind_assoc' {α β γ : Type} (x : A α) (f : α → A β) (g : β → A γ) : ((x >>= f) >>= g) = (x >>= fun a => f a >>= g) := by
  funext s
  simp only [bind_run]
  cases x s <;> rfl

theorem exc_assoc {α β γ : Type} (x : Except Err α) (f : α → Except Err β) (g : β → Except Err γ) : ((x >>= f) >>= g) = (x >>= fun a => f a >>= g) := by
  cases x <;> rfl

theorem le_parseUnary : ∀ f, Le (parseUnary f) (parseUnary (f + 1))
  | 0 => by unfold parseUnary; exact Le.fuel _
  | f + 1 => by
    unfold parseUnary
    exact Le.bind (Le.refl _) fun op => Le.ite (Le.bind (Le.refl _) fun _ => Le.bind (le_parseUnary f) fun _ => Le.refl _) (Le.refl _)

theorem le_parse : ∀ f, (∀ v q, Le (parseExpr f v q) (parseExpr (f + 1) v q)) ∧ (∀ v q, Le (parseInner f v q) (parseInner (f + 1) v q))
  | 0 => ⟨fun v q => by unfold parseExpr; exact Le.fuel _, fun v q => by unfold parseInner; exact Le.fuel _⟩
  | f + 1 => by
    obtain ⟨h1, h2⟩ := le_parse f
    constructor
    · intro v q
      unfold parseExpr
      exact Le.bind (Le.refl _) fun op => Le.ite (Le.refl _) <| Le.bind (Le.refl _) fun _ => Le.bind (le_parseUnary f) fun r =>
        Le.bind (h2 r _) fun r => Le.bind (Le.refl _) fun l => h1 l q
    · intro v q
      unfold parseInner
      exact Le.bind (Le.refl _) fun op => Le.ite (Le.refl _) <| Le.bind (h1 _ _) fun r => h2 r q

theorem Le.trans {α : Type} {x y z : A α} (h : Le x y) (h' : Le y z) : Le x z := fun s hs => by
  have e := h s hs
  have := h' s (by rw [e]; exact hs)
  rw [this, e]

theorem le_unary_le {f g : Nat} (h : f ≤ g) : Le (parseUnary f) (parseUnary g) := by
  induction h with
  | refl => exact Le.refl _
  | step _ ih => exact Le.trans ih (le_parseUnary _)

theorem le_expr_le {f g : Nat} (h : f ≤ g) (v : Int) (q : Nat) : Le (parseExpr f v q) (parseExpr g v q) := by
  induction h with
  | refl => exact Le.refl _
  | step _ ih => exact Le.trans ih ((le_parse _).1 v q)

theorem Rd.le {α : Type} {xs ys : List Lx} {m m' : A α} {r : Except Err α} (h : Rd xs m r ys) (hl : Le m m') (hr : r ≠ .error .fuel) : Rd xs m' r ys := by
  intro s hs
  have h1 := h s hs
  have : m' s = m s := by
    refine hl s ?_
    cases r with
    | error e =>
      rw [(h1 : m s = .err e)]
      intro h; cases h; exact hr rfl
    | ok v =>
      obtain ⟨l, e, _⟩ := h1
      rw [e]; intro h; cases h
  rw [this]
  exact h1

theorem outcome_nf {x : Option Int} {k : Int → Except Err Int} (hk : ∀ v, k v ≠ .error .fuel) : (outcome x >>= k) ≠ .error .fuel := by
  cases x with
  | none => intro h; cases h
  | some v => exact hk v

/-- Parsing an expression and going on with the operators that follow: `expr` and `inner` are the two loops. -/
theorem ev_both : ∀ {e : E}, e.WF → ∀ rest ys, lp e.lvl ≤ hp rest →
    (∀ q k, lp e.lvl ≤ q → (∀ v, e.val = some v → Ev fun f => Rd rest (parseExpr f v q) (k v) ys) →
      Ev fun f => Rd (e.lx ++ rest) (parseUnary f >>= fun n => parseExpr f n q) (outcome e.val >>= k) ys) ∧
    (∀ q k, (∀ v, k v ≠ .error .fuel) → lp e.lvl < q → (∀ v, e.val = some v → Ev fun f => Rd rest (parseInner f v q) (k v) ys) →
      Ev fun f => Rd (e.lx ++ rest) (parseUnary f >>= fun n => parseInner f n q) (outcome e.val >>= k) ys) := by
  intro e
  induction e with
  | num n =>
    intro hw rest ys _
    refine ⟨fun q k _ hk => ?_, fun q k _ _ hk => ?_⟩ <;>
    · refine ((ev_unary hw rfl rest).and (hk n rfl)).mono fun f hf => Rd.bind hf.1 fun v hv => ?_
      cases hv
      exact hf.2
  | chars c d =>
    intro hw rest ys _
    refine ⟨fun q k _ hk => ?_, fun q k _ _ hk => ?_⟩ <;>
    · refine ((ev_unary hw rfl rest).and (hk _ rfl)).mono fun f hf => Rd.bind hf.1 fun v hv => ?_
      cases hv
      exact hf.2
  | un o e _ =>
    intro hw rest ys _
    have h0 := ev_unary (e := .un o e) hw rfl rest
    cases hv : (E.un o e).val with
    | none =>
      rw [hv] at h0
      refine ⟨fun q k _ hk => ?_, fun q k _ _ hk => ?_⟩ <;>
      exact h0.mono fun f hf => Rd.bind (ys := rest) hf fun v h => by cases h
    | some v =>
      rw [hv] at h0
      refine ⟨fun q k _ hk => ?_, fun q k _ _ hk => ?_⟩ <;>
      · refine (h0.and (hk v rfl)).mono fun f hf => Rd.bind hf.1 fun v hv => ?_
        cases hv
        exact hf.2
  | bin o a b iha ihb =>
    intro hw rest ys hl
    obtain ⟨ha, hb, wa, wb⟩ := hw
    have hlo : lp (E.bin o a b).lvl = o.prec := lp_lvl o
    rw [hlo] at hl ⊢
    have la : lp a.lvl ≤ o.prec := lp_lvl o ▸ lp_mono ha
    have lb : lp b.lvl < o.prec := lp_lvl o ▸ lp_lt hb (lvl_le o)
    have hpo : ∀ xs, hp (o.lx :: xs) = o.prec := hp_op o
    -- the right operand
    have hB : Ev fun f => Rd (b.lx ++ rest) (parseUnary f >>= fun n => parseInner f n o.prec) (outcome b.val) rest := by
      have := (ihb wb rest rest (by omega)).2 o.prec (fun v => .ok v) (by simp) lb fun v _ => Ev.succ <| Ev.all fun f => stop_inner hl
      refine this.mono fun f hf => ?_
      have e : (outcome b.val >>= fun v => (.ok v : Except Err Int)) = outcome b.val := by cases outcome b.val <;> rfl
      rw [e] at hf
      exact hf
    have hA := iha wa (o.lx :: (b.lx ++ rest)) ys (by rw [hpo]; exact la)
    -- one turn of the outer loop
    have turn : ∀ (q : Nat) (va : Int) (m : Nat → Int → A Int) (k : Int → Except Err Int) (zs : List Lx), o.prec ≤ q →
        (∀ vb v, b.val = some vb → o.val va vb = some v → Ev fun f => Rd rest (parseExpr f v q >>= m (f + 1)) (k v) zs) →
        Ev fun f => Rd (o.lx :: (b.lx ++ rest)) (parseExpr f va q >>= m f) (outcome (b.val.bind fun y => o.val va y) >>= k) zs := by
      intro q va m k zs hq hk
      have h1 : Ev fun f => ∀ vb v, b.val = some vb → o.val va vb = some v → Rd rest (parseExpr f v q >>= m (f + 1)) (k v) zs := by
        cases hbv : b.val with
        | none => exact Ev.all fun f vb v h => by cases h
        | some vb =>
          cases hov : o.val va vb with
          | none => refine Ev.all fun f vb' v h h' => ?_; cases h; rw [hov] at h'; cases h'
          | some v => exact (hk vb v hbv hov).mono fun f hf vb' v' h h' => by cases h; rw [hov] at h'; cases h'; exact hf
      refine Ev.succ <| (hB.and h1).mono fun f hf => ?_
      rw [parseExpr, bind_assoc']
      refine Rd.seq rd_ty ?_
      have e1 : headTy (o.lx :: (b.lx ++ rest)) = o.lx.tok.ty := rfl
      have e2 : precedence o.lx.tok.ty = o.prec := hpo []
      rw [e1, e2, if_neg (by omega), bind_assoc']
      refine Rd.seq rd_getToken ?_
      rw [← bind_assoc', bind_assoc', ← outcome_bind, exc_assoc]
      simp only [bind_assoc']
      rw [← bind_assoc']
      refine Rd.bind hf.1 fun vb hvb => ?_
      have hvb : b.val = some vb := by cases h : b.val with | none => rw [h] at hvb; cases hvb | some x => rw [h] at hvb; cases hvb; rfl
      refine Rd.bind rd_binOp fun v hv => ?_
      refine hf.2 vb v hvb ?_
      cases h : o.val va vb with | none => rw [h] at hv; cases hv | some x => rw [h] at hv; cases hv; rfl
    have pure_bind' : ∀ x : A Int, (x >>= fun r => pure r) = x := fun x => by
      funext s; rw [bind_run]; cases x s <;> rfl
    constructor
    · intro q k hq hk
      have hA := hA.1 q (fun va => outcome (b.val.bind fun y => o.val va y) >>= k) (by omega) fun va hva => by
        have := turn q va (fun _ r => pure r) k ys hq fun vb v h1 h2 => by
          have := hk v (by simp [E.val, hva, h1, h2])
          refine this.mono fun f hf => ?_
          rw [pure_bind']; exact hf
        refine this.mono fun f hf => ?_
        rw [pure_bind'] at hf; exact hf
      refine hA.mono fun f hf => ?_
      rw [bin_lx, E.val, ← outcome_bind, exc_assoc]
      exact hf
    · intro q k hnf hq hk
      have hA := hA.2 q (fun va => outcome (b.val.bind fun y => o.val va y) >>= k) (fun va => outcome_nf hnf) (by omega) fun va hva => ?_
      · refine hA.mono fun f hf => ?_
        rw [bin_lx, E.val, ← outcome_bind, exc_assoc]
        exact hf
      · -- one turn of the inner loop
        have := turn o.prec va (fun f r => parseInner f r q) k ys (Nat.le_refl _) fun vb v h1 h2 => ?_
        · refine Ev.succ <| this.mono fun f hf => ?_
          unfold parseInner
          refine Rd.seq rd_ty ?_
          have e2 : precedence (headTy (o.lx :: (b.lx ++ rest))) = o.prec := hpo _
          rw [e2, if_neg (by omega)]
          exact hf
        · have hk := hk v (by simp [E.val, hva, h1, h2])
          by_cases he : hp rest = o.prec
          · -- the operator that follows has the same precedence: the inner call takes it too
            obtain ⟨n, hn⟩ := hk
            refine ⟨n, fun f hf => ?_⟩
            have h1 := hn (f + 1) (by omega)
            have h2 : Rd rest (parseExpr f v o.prec >>= fun r => parseInner f r q) (k v) ys := by
              intro s hs
              have := h1 s hs
              have e : parseInner (f + 1) v q s = (parseExpr f v o.prec >>= fun r => parseInner f r q) s := by
                obtain ⟨l, e, _⟩ := rd_ty (xs := rest) s hs
                rw [parseInner, bind_run, e]
                have he : precedence (headTy rest) = o.prec := he
                dsimp only
                rw [he, if_neg (by omega)]
                have : (⟨l, s.fixups, s.nextFixup, s.labels, s.out, s.va, s.inBSS, s.sizeOv, s.gNext, s.gDefs, s.gRefs, s.gDropped⟩ : S) = s := by
                  have : tokTy s = .ok s.lex.tok.ty s := rfl
                  rw [this] at e
                  exact ((Res.ok.inj e).2).symm
                rw [this]
              rw [e] at this
              exact this
            exact Rd.le h2 (Le.bind (Le.refl _) fun r => (le_parse f).2 r q) (hnf v)
          · have hlt : o.prec < hp rest := by omega
            obtain ⟨n, hn⟩ := hk
            refine ⟨n + 1, fun f hf => ?_⟩
            obtain ⟨g, rfl⟩ : ∃ g, f = g + 1 := ⟨f - 1, by omega⟩
            exact Rd.seq (stop_expr hlt) (hn _ (by omega))

end Props.SasExpr

namespace Props
open Sas I86 Text Prog Props.SasIds Props.SasTotal Props.SasText Props.SasExpr

/-- **C23.**  An expression in the source, followed by something that is not a binary operator, is read entirely and has its value as in
C; where C leaves the value undefined the assembler runs into the same undefined operation. -/
theorem C23_expression {e : E} (hw : e.WF) {rest : List Lx} (hr : precedence (headTy rest) = 100) :
    Rd (e.lx ++ rest) parseNumber (outcome e.val) rest := by
  have hl : lp e.lvl ≤ 10 := by unfold lp; split <;> (try split) <;> (try split) <;> omega
  have := (ev_both hw rest rest (by show lp e.lvl ≤ precedence _; omega)).1 15 (fun v => .ok v) (by omega) fun v _ =>
    Ev.succ <| Ev.all fun f => stop_expr (by show 15 < precedence _; omega)
  obtain ⟨n, hn⟩ := this
  intro s hs
  have h1 := hn (max n (4 * s.lex.inp.length + 8)) (by omega)
  have e1 : (outcome e.val >>= fun v => (.ok v : Except Err Int)) = outcome e.val := by cases outcome e.val <;> rfl
  rw [e1] at h1
  have h2 := h1 s hs
  have hne : parseNumber s ≠ .err .fuel := (tot_parseNumber (k := left s.lex)).nofuel ⟨hs.1, Nat.le_refl _⟩
  have hle : Le (parseUnary (4 * s.lex.inp.length + 8) >>= fun n => parseExpr (4 * s.lex.inp.length + 8) n 15)
      (parseUnary (max n (4 * s.lex.inp.length + 8)) >>= fun m => parseExpr (max n (4 * s.lex.inp.length + 8)) m 15) :=
    Le.bind (le_unary_le (by omega)) fun v => le_expr_le (by omega) v 15
  have e2 := hle s hne
  rw [e2] at h2
  exact h2

/-- An expression with all operators: `1+2<<3-'a'|~5-+7`. -/
example : (E.bin .or (.bin .shl (.bin .add (.num 1) (.num 2)) (.bin .sub (.num 3) (.num 2))) (.bin .sub (.un .tilde (.num 5)) (.un .plus (.num 7)))).WF ∧
    (E.bin .or (.bin .shl (.bin .add (.num 1) (.num 2)) (.bin .sub (.num 3) (.num 2))) (.bin .sub (.un .tilde (.num 5)) (.un .plus (.num 7)))).val = some (-9) := by
  refine ⟨by simp [E.WF, E.lvl, BOp.lvl], by decide⟩

end Props
