import Verif.Props.SccStmCond
/-!
# Compiled statements (C49): the compiler emits the code

`ShowsS` is the grammar of the statements, as tokens.  `parsed` is the theorem about `ParseStatement`.
-/
namespace SccStm
open Prog Scc SccCode SccGen SccLayout Props.SccLex

variable {off : Nat → Int} {G : Fns}

/-! ## Specification: the grammar -/

abbrev kw (t : Nat) : Tk := .id (t - tokKeyword)
abbrev semi : Tk := .sym 0x3B precStop
abbrev opn : Tk := .sym 0x28 precStop
abbrev cls : Tk := .sym 0x29 precStop
abbrev lbr : Tk := .sym 0x7B precStop
abbrev rbr : Tk := .sym 0x7D precStop
abbrev asg : Tk := .sym 0x3D precAssign

/-- The first and the third part of a `for`. -/
inductive ShowsP : St → List Tk → Prop
  | nil : ShowsP .nil []
  | asgn {k : As} {x : Nat} {e : E} {ts : List Tk} (h : ShowsA k x e ts) : ShowsP (.asgn k x e) ts

/-- The condition of a `for`. -/
inductive ShowsC : Option Cd → List Tk → Prop
  | none : ShowsC none []
  | some {e : Cd} {ts : List Tk} (he : ShowsCd 12 e ts) : ShowsC (some e) ts

/-- The tokens of a statement, or of the statements in a block (`li`).  `d` is the greatest depth of its blocks, `inl` whether it is in a loop,
`cl` if it may be followed by `else`. -/
inductive ShowsS : (li : Bool) → (d : Nat) → (inl cl : Bool) → St → List Tk → Prop
  | none {d inl cl} : ShowsS true d inl cl .nil []
  | cons {d inl cl cl' a b ts us} (ha : ShowsS false d inl cl' a ts) (hb : ShowsS true d inl cl b us) : ShowsS true d inl cl (.seq a b) (ts ++ us)
  | nil {d inl cl} : ShowsS false d inl cl .nil [semi]
  | block {d inl cl cl' a ts} (ha : ShowsS true d inl cl' a ts) : ShowsS false (d + 1) inl cl a (lbr :: ts ++ [rbr])
  | asgn {d inl cl k x e ts} (h : ShowsA k x e ts) : ShowsS false d inl cl (.asgn k x e) (ts ++ [semi])
  | ifs {d inl cl e ts a us} (he : ShowsCd 12 e ts) (ha : ShowsS false d inl cl a us) :
      ShowsS false d inl false (.ife e a .nil) (kw tokIf :: opn :: ts ++ cls :: us)
  | ife {d inl cl e ts a us b vs} (he : ShowsCd 12 e ts) (ha : ShowsS false d inl true a us) (hb : ShowsS false d inl cl b vs) :
      ShowsS false d inl cl (.ife e a b) (kw tokIf :: opn :: ts ++ cls :: us ++ kw tokElse :: vs)
  | whl {d inl cl e ts a us} (he : ShowsCd 12 e ts) (ha : ShowsS false d true cl a us) :
      ShowsS false d inl cl (.loop (some e) .nil a) (kw tokWhile :: opn :: ts ++ cls :: us)
  | dow {d inl cl cl' e ts a us} (he : ShowsCd 12 e ts) (ha : ShowsS false d true cl' a us) :
      ShowsS false d inl cl (.dow a e) (kw tokDo :: us ++ kw tokWhile :: opn :: ts ++ [cls, semi])
  | for {d inl cl i ts c us k vs a ws} (hi : ShowsP i ts) (hc : ShowsC c us) (hk : ShowsP k vs) (ha : ShowsS false d true cl a ws) :
      ShowsS false d inl cl (.seq i (.loop c k a)) (kw tokFor :: opn :: ts ++ semi :: us ++ semi :: vs ++ cls :: ws)
  | ret {d inl cl e ts} (he : Shows 10 e ts) : ShowsS false d inl cl (.ret (some e)) (kw tokReturn :: ts ++ [semi])
  | ret0 {d inl cl} : ShowsS false d inl cl (.ret none) [kw tokReturn, semi]
  | brk {d cl} : ShowsS false d true cl .brk [kw tokBreak, semi]
  | cont {d cl} : ShowsS false d true cl .cont [kw tokContinue, semi]
  | call {d inl cl x f es ts} (hx : 37 ≤ x) (h : SccCall.ShowsL es ts) : ShowsS false d inl cl (.call x f es) (.id x :: asg :: .id f :: opn :: ts ++ [cls, semi])

theorem ShowsS.head {li : Bool} {d : Nat} {inl cl : Bool} {t : St} {ts : List Tk} (h : ShowsS li d inl cl t ts) (hl : li = false) :
    ∃ t0 us, ts = t0 :: us ∧ t0.tok ≠ tokElse ∧ t0.tok ≠ 0x7D := by
  cases h with
  | none => cases hl
  | cons => cases hl
  | asgn h =>
    obtain ⟨t, us, rfl, h1, h2, _⟩ := h.ne
    exact ⟨_, _, rfl, h1, h2⟩
  | call hx h =>
    refine ⟨_, _, rfl, ?_, ?_⟩
    · show _ + 150 ≠ 159; omega
    · show _ + 150 ≠ 0x7D; omega
  | _ => exact ⟨_, _, rfl, by decide, by decide⟩

theorem ShowsS.head' {li : Bool} {d : Nat} {inl cl : Bool} {t : St} {ts : List Tk} (h : ShowsS li d inl cl t ts) {u : Tk} (hu : u.tok ≠ tokElse) (rest : List Tk) :
    ∃ t0 us, ts ++ u :: rest = t0 :: us ∧ t0.tok ≠ tokElse := by
  cases h with
  | none => exact ⟨u, rest, rfl, hu⟩
  | cons ha hb =>
    obtain ⟨t0, us, e, h1, _⟩ := ha.head rfl
    exact ⟨t0, _, by rw [e]; rfl, h1⟩
  | asgn h =>
    obtain ⟨t, us, rfl, h1, _⟩ := h.ne
    exact ⟨_, _, rfl, h1⟩
  | call hx h => exact ⟨_, _, rfl, by show _ + 150 ≠ 159; omega⟩
  | _ => exact ⟨_, _, rfl, by decide⟩

/-! ## Bounds -/

/-- At most this many bytes are emitted. -/
def sz : St → Nat
  | .nil => 0
  | .seq a b => sz a + sz b
  | .asgn k _ e => 64 * size e + k.sz
  | .ife e a b => csz e + 8 + sz a + sz b
  | .loop c k a => (match c with | some e => csz e + 5 | none => 0) + sz k + sz a + 9
  | .dow a e => sz a + csz e + 5
  | .ret (some e) => 64 * size e + 15
  | .ret none => 3
  | .brk | .cont => 3
  | .call _ _ es => SccCall.argsSz es + 16

/-- At most this many labels are made. -/
def nl : St → Nat
  | .nil | .asgn .. | .call .. | .brk | .cont => 0
  | .seq a b => nl a + nl b
  | .ife e a b => 2 + labs e + nl a + nl b
  | .loop c _ a => 4 + labsO c + nl a
  | .dow a e => 3 + labs e + nl a
  | .ret _ => 1

/-! ## The code of statements -/

theorem Code.void {lo : Int} {R : Nat} {b k : Int} {l l' : Nat} {t : St} {ys : List Item} (h : Code off G.A lo R b k l l' t ys) (hv : void t = true) : ys = [] ∧ l' = l := by
  induction h with
  | nil => exact ⟨rfl, rfl⟩
  | seq h1 h2 ih1 ih2 =>
    rw [SccStm.void, Bool.and_eq_true] at hv
    obtain ⟨rfl, rfl⟩ := ih1 hv.1
    obtain ⟨rfl, rfl⟩ := ih2 hv.2
    exact ⟨rfl, rfl⟩
  | _ => cases hv

/-- After a jump there is no place for a conditional jump. -/
theorem Code.dies {lo : Int} {R : Nat} {b k : Int} {l l' : Nat} {t : St} {ys : List Item} (h : Code off G.A lo R b k l l' t ys) {xs : List Nat} {m : Nat} (hok : Ok G.F xs m t)
    (hd : dies t = true) (j : Nat) (pre : List Item) : bare j (ys.reverse ++ pre) = false := by
  induction h generalizing pre with
  | seq h1 h2 ih1 ih2 =>
    rw [List.reverse_append, List.append_assoc]
    rw [SccStm.dies, Bool.or_eq_true] at hd
    rcases hd with hd | hd
    · obtain ⟨rfl, _⟩ := h2.void (hok.2.2 hd)
      exact ih1 hok.1 hd pre
    · exact ih2 hok.2.1 hd _
  | ret _ => unfold fin; split <;> rfl
  | ret0 _ => unfold fin; split <;> rfl
  | brk => rfl
  | cont => rfl
  | _ => cases hd

theorem tst_raw {e : Cd} (h : (cstC e).isNone = true) : ∃ bs, ∀ neg l n, .raw bs ∈ tst off neg e l n := by
  unfold tst
  cases hc : cstC e with
  | some y => rw [hc] at h; cases h
  | none =>
    obtain ⟨bs, hb⟩ := cdI_raw (off := off) e
    exact ⟨bs, fun _ _ n => List.mem_append_left _ (hb n)⟩

theorem tstO_raw {c : Option Cd} (h : (match c with | some e => (cstC e).isNone | none => false) = true) : ∃ bs, ∀ l n, .raw bs ∈ tstO off c l n := by
  cases c with
  | none => cases h
  | some e =>
    obtain ⟨bs, h⟩ := tst_raw (off := off) h
    exact ⟨bs, h true⟩

theorem Code.raw {lo : Int} {R : Nat} {b k : Int} {l l' : Nat} {t : St} {ys : List Item} (h : Code off G.A lo R b k l l' t ys) (hc : hasCode t = true) :
    ∃ bs, .raw bs ∈ ys ∨ ∃ p, .pos p bs ∈ ys := by
  induction h with
  | nil => cases hc
  | seq h1 h2 ih1 ih2 =>
    rw [hasCode, Bool.or_eq_true] at hc
    rcases hc with hc | hc
    · obtain ⟨bs, h⟩ := ih1 hc; exact ⟨bs, h.imp (fun h => by simp [h]) fun ⟨p, h⟩ => ⟨p, by simp [h]⟩⟩
    · obtain ⟨bs, h⟩ := ih2 hc; exact ⟨bs, h.imp (fun h => by simp [h]) fun ⟨p, h⟩ => ⟨p, by simp [h]⟩⟩
  | asgn => exact ⟨_, .inl (List.mem_cons_self ..)⟩
  | ifs h ih =>
    unfold hasCode at hc
    rw [Bool.or_eq_true, Bool.or_eq_true] at hc
    rcases hc with (hc | hc) | hc
    · obtain ⟨bs, h⟩ := tst_raw (off := off) hc; exact ⟨bs, .inl (by simp [h])⟩
    · obtain ⟨bs, h⟩ := ih hc; exact ⟨bs, h.imp (fun h => by simp [h]) fun ⟨p, h⟩ => ⟨p, by simp [h]⟩⟩
    · cases hc
  | ife h1 h2 ih1 ih2 =>
    unfold hasCode at hc
    rw [Bool.or_eq_true, Bool.or_eq_true] at hc
    rcases hc with (hc | hc) | hc
    · obtain ⟨bs, h⟩ := tst_raw (off := off) hc; exact ⟨bs, .inl (by simp [h])⟩
    · obtain ⟨bs, h⟩ := ih1 hc; exact ⟨bs, h.imp (fun h => by simp [h]) fun ⟨p, h⟩ => ⟨p, by simp [h]⟩⟩
    · obtain ⟨bs, h⟩ := ih2 hc; exact ⟨bs, h.imp (fun h => by simp [h]) fun ⟨p, h⟩ => ⟨p, by simp [h]⟩⟩
  | whl h ih =>
    unfold hasCode at hc
    rw [Bool.or_eq_true, Bool.or_eq_true] at hc
    rcases hc with (hc | hc) | hc
    · obtain ⟨bs, h⟩ := tst_raw (off := off) hc; exact ⟨bs, .inl (by simp [h])⟩
    · cases hc
    · obtain ⟨bs, h⟩ := ih hc; exact ⟨bs, h.imp (fun h => by simp [h]) fun ⟨p, h⟩ => ⟨p, by simp [h]⟩⟩
  | for0 h ih =>
    unfold hasCode at hc
    rw [Bool.or_eq_true, Bool.or_eq_true] at hc
    rcases hc with (hc | hc) | hc
    · obtain ⟨bs, h⟩ := tstO_raw (off := off) hc; exact ⟨bs, .inl (by simp [h])⟩
    · cases hc
    · obtain ⟨bs, h⟩ := ih hc; exact ⟨bs, h.imp (fun h => by simp [h]) fun ⟨p, h⟩ => ⟨p, by simp [h]⟩⟩
  | forK hi h1 h ih1 ih =>
    unfold hasCode at hc
    rw [Bool.or_eq_true, Bool.or_eq_true] at hc
    rcases hc with (hc | hc) | hc
    · obtain ⟨bs, h⟩ := tstO_raw (off := off) hc; exact ⟨bs, .inl (by simp [h])⟩
    · obtain ⟨bs, h⟩ := ih1 hc; exact ⟨bs, h.imp (fun h => by simp [h]) fun ⟨p, h⟩ => ⟨p, by simp [h]⟩⟩
    · obtain ⟨bs, h⟩ := ih hc; exact ⟨bs, h.imp (fun h => by simp [h]) fun ⟨p, h⟩ => ⟨p, by simp [h]⟩⟩
  | dow h ih =>
    rw [hasCode, Bool.or_eq_true] at hc
    rcases hc with hc | hc
    · obtain ⟨bs, h⟩ := ih hc; exact ⟨bs, h.imp (fun h => by simp [h]) fun ⟨p, h⟩ => ⟨p, by simp [h]⟩⟩
    · obtain ⟨bs, h⟩ := tst_raw (off := off) hc; exact ⟨bs, .inl (by simp [h])⟩
  | ret _ => exact ⟨_, .inl (List.mem_cons_self ..)⟩
  | ret0 _ => cases hc
  | brk => cases hc
  | cont => cases hc
  | call => exact ⟨_, .inr ⟨_, List.mem_cons_self ..⟩⟩

theorem void_dies {t : St} (h : void t = true) : dies t = false := by
  induction t with
  | seq a b ih1 ih2 =>
    rw [void, Bool.and_eq_true] at h
    rw [dies, ih1 h.1, ih2 h.2]; rfl
  | nil => rfl
  | _ => cases h

/-! ## The parser -/

/-- In a loop. -/
def Loop (s : S) : Prop :=
  ∃ b k : Nat, s.breakLabel = b ∧ s.contLabel = k ∧ b < s.labelCount ∧ k < s.labelCount ∧ s.bStack = s.localOffset ∧ s.cStack = s.localOffset

theorem Loop.mv {l0 n k : Nat} {s s' : S} {ys : List Item} (h : Loop s) (m : Mv l0 n k s ys s') : Loop s' := by
  obtain ⟨b, k, h1, h2, h3, h4, h5, h6⟩ := h
  have := m.lab
  exact ⟨b, k, m.bl.trans h1, m.cl.trans h2, by omega, by omega, by rw [m.bs, m.lo, h5], by rw [m.cs, m.lo, h6]⟩

/-- What the compiler does with a statement. -/
structure Res (off : Nat → Int) (G : Fns) (xs : List Nat) (s0 : Base) (a : Nat) (its : List Item) (ts : List Tk) (t : St) (s : S) (ys : List Item) (s' : S) : Prop where
  rdy : Rdy off G xs s0 a (ys.reverse ++ its) ts s'
  mv : Mv s.labelCount (sz t) (nl t) s ys s'
  dead : s'.dead = (s.dead || dies t)
  code : ∀ R : Nat, (s'.returnLabel = -1 ∨ s'.returnLabel = R) → Code off G.A s.localOffset R s.breakLabel s.contLabel s.labelCount s'.labelCount t ys

def Parsed (off : Nat → Int) (G : Fns) (xs : List Nat) (m : Nat) (s0 : Base) (a : Nat) (li : Bool) (d : Nat) (inl cl : Bool) (t : St) (ts : List Tk) : Prop :=
  ∀ (s : S) (u : Tk) (rest : List Tk) (its : List Item), Rdy off G xs s0 a its (ts ++ u :: rest) s → Ok G.F xs m t → (li = true → u = rbr) → (cl = false → u.tok ≠ tokElse) →
    (s.dead = true → void t = true) → s.scopeCount + d ≤ scopeMax → (inl = true → Loop s) → s.code + sz t + 2 ≤ codeStart + outputMax →
    s.labelCount + nl t ≤ labelMax → ∃ s' ys, Go (if li then .stmts else .stmt) s s' ∧ Res off G xs s0 a its (u :: rest) t s ys s'

/-- `ParseStatement` for statements that are not blocks. -/
theorem stmt_go {s s' : S} (hsw : s.switchCase < 0) (h7 : s.tok ≠ 0x7B) (h : ∃ N, ∀ n, N ≤ n → parseKeyword (run n) s = .ok () s') : Go .stmt s s' := by
  obtain ⟨N, h⟩ := h
  have hn : ∀ p : Prop, ¬(0 ≤ s.switchCase ∧ p) := fun p hp => by have := hp.1; omega
  exact Go.of N fun n hn' => run_bind (a := ()) (s1 := s') (run_getS (run_neg h7 (run_neg (hn _) (run_neg (hn _) (run_neg (hn _) (h n hn')))))) rfl

section
variable {xs : List Nat} {m : Nat} {s0 : Base} {a : Nat}

theorem p_none {d : Nat} {inl cl : Bool} : Parsed off G xs m s0 a true d inl cl .nil [] := by
  intro s u rest its h hok hu hcl hd hsc hin hsz hnl
  refine ⟨s, [], Go.of 0 fun n _ => run_bind (a := ()) (s1 := s) (run_getS (run_pos ?_ rfl)) rfl, h, Mv.same rfl rfl rfl rfl rfl (Nat.le_refl _) fun j hj => absurd hj (own_nil j), ?_,
    fun R _ => .nil⟩
  · rw [h.on.1.tok, hu rfl]; rfl
  · exact (Bool.or_false _).symm

theorem p_cons {d : Nat} {inl cl cl' : Bool} {p q : St} {ts us : List Tk} (ha : ShowsS false d inl cl' p ts) (hb : ShowsS true d inl cl q us)
    (iha : Parsed off G xs m s0 a false d inl cl' p ts) (ihb : Parsed off G xs m s0 a true d inl cl q us) : Parsed off G xs m s0 a true d inl cl (.seq p q) (ts ++ us) := by
  intro s u rest its h hok hu hcl hd hsc hin hsz hnl
  obtain ⟨t0, vs, ev, hv⟩ := hb.head' (u := u) (by rw [hu rfl]; decide) rest
  obtain ⟨t1, ws, ew, _, h7⟩ := ha.head rfl
  rw [sz] at hsz
  rw [nl] at hnl
  have hon : Rdy off G xs s0 a its (ts ++ t0 :: vs) s := by rw [← ev, ← List.append_assoc]; exact h
  obtain ⟨s1, ys, ⟨N1, g1⟩, r1⟩ := iha s t0 vs its hon hok.1 nofun (fun _ => hv) (fun e => by have := hd e; rw [void, Bool.and_eq_true] at this; exact this.1) hsc hin
    (by omega) (by omega)
  have c1 := r1.mv.code
  have c2 := r1.mv.labM
  obtain ⟨s2, zs, ⟨N2, g2⟩, r2⟩ := ihb s1 u rest _ (by rw [ev]; exact r1.rdy) hok.2.1 hu hcl (fun e => by
      rw [r1.dead, Bool.or_eq_true] at e
      rcases e with e | e
      · have := hd e; rw [void, Bool.and_eq_true] at this; exact this.2
      · exact hok.2.2 e) (by rw [r1.mv.scc]; exact hsc) (fun e => (hin e).mv r1.mv) (by omega) (by omega)
  refine ⟨s2, ys ++ zs, Go.of (N1 + N2) fun n hn => run_bind (a := ()) (s1 := s2) (run_getS (run_neg ?_ (run_bind (g1 n (by omega)) (g2 n (by omega))))) rfl, ?_, ?_, ?_, ?_⟩
  · have := hon.on
    rw [ew] at this
    rw [this.1.tok]; exact h7
  · rw [List.reverse_append, List.append_assoc]; exact r2.rdy
  · exact r1.mv.trans r2.mv r1.mv.lab
  · rw [r2.dead, r1.dead, dies, Bool.or_assoc]
  · intro R hR
    have hR1 : s1.returnLabel = -1 ∨ s1.returnLabel = R := by
      rcases r2.mv.rl with e | ⟨e, _⟩
      · rw [← e]; exact hR
      · exact .inl e
    have h2 := r2.code R hR
    rw [r1.mv.lo, r1.mv.bl, r1.mv.cl] at h2
    exact .seq (r1.code R hR1) h2

theorem p_nil {d : Nat} {inl cl : Bool} : Parsed off G xs m s0 a false d inl cl .nil [semi] := by
  intro s u rest its h hok hu hcl hd hsc hin hsz hnl
  obtain ⟨s1, e1, r1, m1, d1⟩ := h.tok s.labelCount
  refine ⟨s1, [], stmt_go h.sw (by rw [h.on.1.tok]; decide) ⟨0, fun n _ => run_getS (run_pos h.on.1.tok e1)⟩, r1, m1, ?_, fun R _ => ?_⟩
  · exact d1.trans (Bool.or_false _).symm
  · rw [m1.lc]; exact .nil

/-- `ParseStatement` for statements that do not begin with a keyword. -/
theorem stmt_simple {s : S} {r : Prog.Res S Unit} {n : Nat} (h : 37 + 150 ≤ s.tok ∨ s.tok < 150) (h3 : s.tok ≠ 0x3B) (hr : parseSimple (run n) s = r) : parseKeyword (run n) s = r := by
  refine run_getS (run_neg h3 (run_neg (by show s.tok ≠ 169; omega) (run_neg (by show s.tok ≠ 151; omega)
    (run_neg (by show s.tok ≠ 155; omega) (run_neg (by show s.tok ≠ tokGoto; unfold tokGoto; omega)
    (run_neg (by show s.tok ≠ tokEmit; unfold tokEmit; omega) (run_neg (by show s.tok ≠ 165; omega)
    (run_neg (by show s.tok ≠ 163; omega) (run_neg (by show s.tok ≠ 181; omega) (run_neg (by show s.tok ≠ 157; omega)
    (run_neg (by show s.tok ≠ tokSwitch; unfold tokSwitch; omega) hr)))))))))))

theorem p_asgn {d : Nat} {inl cl : Bool} {o : As} {x : Nat} {e : E} {ts : List Tk} (hsh : ShowsA o x e ts) :
    Parsed off G xs m s0 a false d inl cl (.asgn o x e) (ts ++ [semi]) := by
  intro s u rest its h hok hu hcl hd hsc hin hsz hnl
  have hdead : s.dead = false := by
    cases hh : s.dead with
    | false => rfl
    | true => have := hd hh; cases this
  rw [sz] at hsz
  have hon : On s0 s (ts ++ semi :: u :: rest) := by simpa using h.on
  have hlen := asgn_len (off := off) o x hok.2.1.1
  obtain ⟨t0, us, rfl, hd0⟩ := hsh.head
  have hon' : On s0 s (t0 :: (us ++ semi :: u :: rest)) := hon
  rcases hd0 with ⟨rfl, hx⟩ | ⟨d', rfl, rfl, rfl⟩
  · have htok : s.tok = x + 150 := hon'.1.tok
    obtain ⟨u0, us', hus⟩ : ∃ u0 us', us ++ semi :: u :: rest = u0 :: us' := by cases us <;> exact ⟨_, _, rfl⟩
    rw [hus] at hon'
    obtain ⟨s2, s3, e2, on2, e3, on3, d3⟩ := prim_id (h.ex0 hdead) hok.1 hon'
    rw [← hus] at on2 on3
    obtain ⟨s5, u1, us1, rfl, hu1, on5, d5, s4, ⟨N1, g4⟩, N2, g5⟩ := asgn_tail (h.ex0 hdead) hsh hok.2.2 hok.1 d3 on3 (by decide) (.inr (by decide)) hok.2.1.1 hok.2.1.2.1 (by omega)
    obtain ⟨r5, m5, hd5⟩ := h.did d5 on5 (asgn_starts off o x hok.2.1.1) (by omega) s.labelCount (64 * size e + o.sz) hlen
    obtain ⟨s6, e6, r6, m6, hd6⟩ := r5.semi s.labelCount
    refine ⟨s6, [.raw (asgnB off o x e)], stmt_go h.sw (by omega) ⟨N1 + N2, fun n hn => stmt_simple (by omega) (by omega) ?_⟩, r6, m5.trans m6 (Nat.le_refl _), ?_, fun R _ => ?_⟩
    · refine run_getS (run_neg (by rw [no_type h.loc (.inr (.inl ⟨x, hok.1, rfl⟩)) hon'.1]; decide) (run_pos (by rw [htok]; show 187 ≤ x + 150; omega) ?_))
      have hv : (s.tok - tokKeyword : Nat) = x := by rw [htok]; show x + 150 - 150 = x; omega
      refine run_getS (run_bind (a := ()) (s1 := { s with val := (x : Int) }) (by show Res.ok () _ = Res.ok () _; rw [hv]) (run_bind e2 (run_getS (run_neg ?_ ?_))))
      · rw [on2.1.tok]; exact hu1
      · exact run_bind e3 (run_bind (g4 n (by omega)) (run_getS (g5 n (by omega) e6)))
    · exact (hd6.trans hd5).trans (Bool.or_false _).symm
    · rw [m6.lc, m5.lc]; exact .asgn
  · have htok : s.tok = (incT d').tok := hon'.1.tok
    have hne : s.tok ≠ 0x7B ∧ s.tok ≠ 0x3B ∧ s.tok < 150 := by rw [htok]; cases d' <;> decide
    obtain ⟨s5, ⟨N, g5⟩, on5, d5⟩ := asgn_expr (h.ex0 hdead) hsh hok.2.2 hok.1 hon (by decide) (.inr (by decide)) hok.2.1.1 hok.2.1.2.1 (by omega)
    obtain ⟨r5, m5, hd5⟩ := h.did d5 on5 (asgn_starts off _ x hok.2.1.1) (by omega) s.labelCount (64 * size e + 48) hlen
    obtain ⟨s6, e6, r6, m6, hd6⟩ := r5.semi s.labelCount
    refine ⟨s6, [.raw (asgnB off _ x e)], stmt_go h.sw hne.1 ⟨N, fun n hn => stmt_simple (.inr hne.2.2) hne.2.1 ?_⟩, r6, m5.trans m6 (Nat.le_refl _), ?_, fun R _ => ?_⟩
    · refine run_getS (run_neg ?_ (run_neg (by show ¬ 187 ≤ s.tok; omega) (run_bind (g5 n hn) e6)))
      have : isTypeStart s = false := by
        unfold isTypeStart lookupTypedef
        rw [if_pos (show s.tok < tokId from Nat.lt_trans hne.2.2 (by decide)), htok]
        cases d' <;> decide
      rw [this]; decide
    · exact (hd6.trans hd5).trans (Bool.or_false _).symm
    · rw [m6.lc, m5.lc]; exact .asgn

theorem callAsgn_start {l : Int} {a p x : Nat} {es : List E} : ∃ b t, callAsgnB off l a p x es = b :: t ∧ b ≠ 0xEB ∧ b ≠ 0x5D := by
  cases es with
  | nil => exact ⟨_, _, rfl, by decide, by decide⟩
  | cons e es => exact ⟨_, _, rfl, by decide, by decide⟩

theorem p_call {d : Nat} {inl cl : Bool} {x f : Nat} {es : List E} {ts : List Tk} (hx : 37 ≤ x) (he : SccCall.ShowsL es ts) :
    Parsed off G xs m s0 a false d inl cl (.call x f es) (.id x :: asg :: .id f :: opn :: ts ++ [cls, semi]) := by
  intro s u rest its h hok hu hcl hd hsc hin hsz hnl
  have hdead : s.dead = false := by
    cases hh : s.dead with
    | false => rfl
    | true => have := hd hh; cases this
  rw [sz] at hsz
  have hon : On s0 s (.id x :: asg :: (.id f :: opn :: ts ++ cls :: semi :: u :: rest)) := by simpa using h.on
  have htok : s.tok = x + 150 := hon.1.tok
  obtain ⟨hxx, hf, hfx, hlen, hes⟩ := hok
  obtain ⟨s2, s3, e2, on2, e3, on3, d3⟩ := prim_id (h.ex0 hdead) hxx hon
  obtain ⟨N1, g4⟩ := postfix_nop on3.1 asgn_nopost
  obtain ⟨s5, ⟨N2, g5⟩, on5, d5⟩ := SccCall.call_rest (h.ex0 hdead) h.funs d3 (List.mem_filter.2 ⟨hf, decide_eq_true hfx⟩) he on3 (by decide) (.inr (by decide)) hlen (fun e he => (hes e he).1) (fun e he => (hes e he).2.1) (by omega)
  have hlen := SccCall.call_len (off := off) (l := s.localOffset) (a := G.A f) (p := s.code) (x := x) fun e he => (hes e he).1
  obtain ⟨r5, m5, hd5⟩ := h.didP d5 on5 callAsgn_start (by omega) s.labelCount (SccCall.argsSz es + 16) hlen
  obtain ⟨s6, e6, r6, m6, hd6⟩ := r5.semi s.labelCount
  refine ⟨s6, [.pos s.code (callAsgnB off s.localOffset (G.A f) s.code x es)], stmt_go h.sw (by omega) ⟨N1 + N2, fun n hn => ?_⟩, r6, m5.trans m6 (Nat.le_refl _), ?_, fun R _ => ?_⟩
  · refine run_getS (run_neg (by omega) (run_neg (by rw [htok]; show x + 150 ≠ 169; omega) (run_neg (by rw [htok]; show x + 150 ≠ 151; omega)
      (run_neg (by rw [htok]; show x + 150 ≠ 155; omega) (run_neg (by rw [htok]; show x + 150 ≠ tokGoto; unfold tokGoto; omega)
      (run_neg (by rw [htok]; show x + 150 ≠ tokEmit; unfold tokEmit; omega) (run_neg (by rw [htok]; show x + 150 ≠ 165; omega)
      (run_neg (by rw [htok]; show x + 150 ≠ 163; omega) (run_neg (by rw [htok]; show x + 150 ≠ 181; omega) (run_neg (by rw [htok]; show x + 150 ≠ 157; omega)
      (run_neg (by rw [htok]; show x + 150 ≠ tokSwitch; unfold tokSwitch; omega) ?_)))))))))))
    refine run_getS (run_neg (by rw [no_type h.loc (.inr (.inl ⟨x, hxx, rfl⟩)) hon.1]; decide) (run_pos (by rw [htok]; show 187 ≤ x + 150; omega) ?_))
    have hv : (s.tok - tokKeyword : Nat) = x := by rw [htok]; show x + 150 - 150 = x; omega
    refine run_getS (run_bind (a := ()) (s1 := { s with val := (x : Int) }) (by show Res.ok () _ = Res.ok () _; rw [hv]) (run_bind e2 (run_getS (run_neg ?_ ?_))))
    · rw [on2.1.tok]; decide
    · refine run_bind e3 (run_bind (g4 n (by omega)) (run_getS (run_pos ?_ (run_bind (g5 n (by omega)) e6))))
      rw [on3.1.prec]; decide
  · exact (hd6.trans hd5).trans (Bool.or_false _).symm
  · rw [m6.lc, m5.lc]; exact .call

end

end SccStm
