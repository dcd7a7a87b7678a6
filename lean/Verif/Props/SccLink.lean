import Verif.Props.SccAsm
/-!
# References to global names (C36): calls, addresses of functions and variables

A reference to a name whose address is not known yet is a word in the output that links to the reference before it; `EmitGlobalLabel` follows the links
and writes the address.  The history of the references is described by events; what each reference stands for is computed from the events alone.
-/
namespace SccLink
open Prog Scc SccCode SccGen SccJump SccFix SccLayout

/-- What happens to the records of global names. -/
inductive Ev
  /-- Record `v` is used for a new name. -/
  | new (v : Nat)
  /-- A reference to the name in record `v`: the word at `r`, after the byte `op`; relative to its end if `rel`. -/
  | ref (v : Nat) (op : Byte) (rel : Bool) (r : Nat)
  /-- The name in record `v` is given the address `a`. -/
  | lab (v a : Nat)
  /-- The name in record `v` moves to record `w`. -/
  | move (v w : Nat)

/-- A record: without name, with a name without address, with a name with an address. -/
inductive St
  | none
  | open
  | addr (a : Nat)
deriving DecidableEq

/-- The records after the events (the last one first). -/
def st : List Ev → Nat → St
  | [], _ => .none
  | .new v :: es, x => if x = v then .open else st es x
  | .ref .. :: es, x => st es x
  | .lab v a :: es, x => if x = v then .addr a else st es x
  | .move v w :: es, x => if x = v then .none else if x = w then .open else st es x

/-- A reference: what it refers to (a record or an address), the byte before it, whether it is relative, its place. -/
structure Site where
  tgt : Nat ⊕ Nat
  op : Byte
  rel : Bool
  pos : Nat

/-- References to record `v` are now to `t`. -/
def Site.put (v : Nat) (t : Nat ⊕ Nat) (x : Site) : Site := if x.tgt = .inl v then { x with tgt := t } else x

/-- The references after the events, the last one first. -/
def sites : List Ev → List Site
  | [] => []
  | .new _ :: es => sites es
  | .ref v op rel r :: es => ⟨match st es v with | .addr a => .inr a | _ => .inl v, op, rel, r⟩ :: sites es
  | .lab v a :: es => (sites es).map (.put v (.inr a))
  | .move v w :: es => (sites es).map (.put v (.inl w))

/-- The references to record `v`. -/
def toVar (v : Nat) (xs : List Site) : List Site := xs.filter fun x => decide (x.tgt = .inl v)

/-- The reference at `r`, after the byte `op`, is to the address `a`.  A near jump may have become a short jump. -/
def Goes (m : Mem 15) (op : Byte) (rel : Bool) (r a : Nat) : Prop :=
  (B m (r - 1) = op ∧ BitVec.ofNat 16 a = (if rel then BitVec.ofNat 16 (r + 2) else 0) + I86.word (B m r) (B m (r + 1))) ∨
  op = 0xE9 ∧ Short m (r - 1) a

/-- The bytes of the references are the same, and the output still contains them. -/
def Same (xs : List Site) (s s' : S) : Prop :=
  ∀ x ∈ xs, B s'.out (x.pos - 1) = B s.out (x.pos - 1) ∧ B s'.out x.pos = B s.out x.pos ∧ B s'.out (x.pos + 1) = B s.out (x.pos + 1) ∧ x.pos + 2 ≤ s'.code

/-- The states in which the events have happened. -/
inductive Linked : List Ev → S → Prop
  | start (s : S) : codeStart ≤ s.code → Linked [] s
  /-- Anything that leaves the references and the records of names alone. -/
  | other {es : List Ev} {s s' : S} : Linked es s → Same (sites es) s s' → codeStart ≤ s'.code →
      (∀ v, st es v ≠ .none → (s'.vars.get v).ref = (s.vars.get v).ref ∧ (s'.vars.get v).offset = (s.vars.get v).offset) → Linked es s'
  | new {es : List Ev} {s : S} {v : Nat} {d : VarDecl} : Linked es s → v < varDeclMax → st es v = .none → d.ref = 0 → d.offset = 0 →
      Linked (.new v :: es) { s with vars := s.vars.set v d }
  /-- An instruction with an address. -/
  | ref {es : List Ev} {s s1 s' : S} {v : Nat} {bs : List Byte} {op : Byte} : Linked es s → Live s → Room s (bs.length + 3) → st es v ≠ .none → op ≠ 0 → op ≠ 0xE9 →
      output (bs ++ [op]) s = .ok () s1 → emitGlobalRef v s1 = .ok () s' → Linked (.ref v op false (s.code + bs.length + 1) :: es) s'
  /-- A call or jump. -/
  | refRel {es : List Ev} {s s1 s' : S} {v : Nat} {bs : List Byte} {op : Byte} : Linked es s → Live s → Room s (bs.length + 3) → st es v ≠ .none → op ≠ 0 →
      output (bs ++ [op]) s = .ok () s1 → emitGlobalRefRel v s1 = .ok () s' → Linked (.ref v op true (s.code + bs.length + 1) :: es) s'
  /-- The address of a name is known: references to a name of a function must be relative, to a variable not; a jump or call just before the label would be lost. -/
  | lab {es : List Ev} {s s' : S} {v : Nat} : Linked es s → st es v ≠ .none → (∀ x ∈ toVar v (sites es), x.rel = ((s.vars.get v).type &&& vtFun != 0) ∧ (x.rel = true → x.pos + 2 ≠ s.code)) →
      emitGlobalLabel v s = .ok () s' → Linked (.lab v s.code :: es) s'
  /-- A static variable of a function that ends. -/
  | move {es : List Ev} {s : S} {v w : Nat} {d : VarDecl} : Linked es s → w < varDeclMax → st es v = .open → st es w = .none → d.ref = (s.vars.get v).ref → d.offset = 0 →
      Linked (.move v w :: es) { s with vars := s.vars.set w d }

/-! ## The invariant -/

/-- The list of references in the output from `r` on. -/
def Links (m : Mem 15) : Nat → List Site → Prop
  | r, [] => r = 0
  | r, x :: xs => r = x.pos ∧ Links m (nextRef m r) xs

structure Inv (es : List Ev) (s : S) : Prop where
  ge : codeStart ≤ s.code
  sorted : (sites es).Pairwise fun x y => y.pos + 3 ≤ x.pos
  inside : ∀ x ∈ sites es, 1 ≤ x.pos ∧ In (x.pos - 1) ∧ In (x.pos + 1) ∧ x.pos + 2 ≤ s.code
  ops : ∀ x ∈ sites es, x.op ≠ 0 ∧ (x.op = 0xE9 → x.rel = true)
  lt : ∀ v, st es v ≠ .none → v < varDeclMax
  opn : ∀ v, st es v = .open → (s.vars.get v).offset = 0 ∧ Links s.out (s.vars.get v).ref (toVar v (sites es))
  addr : ∀ v a, st es v = .addr a → a ≠ 0 ∧ (s.vars.get v).offset = a
  pend : ∀ x ∈ sites es, ∀ v, x.tgt = .inl v → st es v = .open ∧ B s.out (x.pos - 1) = x.op
  goes : ∀ x ∈ sites es, ∀ a, x.tgt = .inr a → Goes s.out x.op x.rel x.pos a

theorem Goes.congr {m m' : Mem 15} {op : Byte} {rel : Bool} {r a : Nat} (hr : 1 ≤ r) (h0 : B m' (r - 1) = B m (r - 1)) (h1 : B m' r = B m r) (h2 : B m' (r + 1) = B m (r + 1))
    (h : Goes m op rel r a) : Goes m' op rel r a := by
  unfold Goes Short at *
  have e : r - 1 + 1 = r := by omega
  rw [e] at h ⊢
  rw [h0, h1, h2]
  exact h

theorem Links.congr {m m' : Mem 15} : ∀ {xs : List Site} {r : Nat}, (∀ x ∈ xs, B m' x.pos = B m x.pos ∧ B m' (x.pos + 1) = B m (x.pos + 1)) → Links m r xs → Links m' r xs
  | [], _, _, h => h
  | x :: xs, r, hx, ⟨h1, h2⟩ => by
    refine ⟨h1, ?_⟩
    have := hx x (List.mem_cons_self ..)
    have e : nextRef m' r = nextRef m r := by unfold nextRef; rw [h1, this.1, this.2]
    rw [e]
    exact h2.congr fun y hy => hx y (List.mem_cons_of_mem _ hy)

theorem toVar_mem {v : Nat} {xs : List Site} {x : Site} (h : x ∈ toVar v xs) : x ∈ xs ∧ x.tgt = .inl v := by
  obtain ⟨h1, h2⟩ := List.mem_filter.1 h
  exact ⟨h1, of_decide_eq_true h2⟩

theorem Inv.other {es : List Ev} {s s' : S} (h : Inv es s) (hs : Same (sites es) s s') (hge : codeStart ≤ s'.code)
    (hv : ∀ v, st es v ≠ .none → (s'.vars.get v).ref = (s.vars.get v).ref ∧ (s'.vars.get v).offset = (s.vars.get v).offset) : Inv es s' where
  ge := hge
  sorted := h.sorted
  inside x hx := by
    obtain ⟨h1, h2, h3, _⟩ := h.inside x hx
    exact ⟨h1, h2, h3, (hs x hx).2.2.2⟩
  ops := h.ops
  lt := h.lt
  opn v e := by
    have hh := hv v (by rw [e]; exact fun h => St.noConfusion h)
    rw [hh.1, hh.2]
    exact ⟨(h.opn v e).1, (h.opn v e).2.congr fun x hx => ⟨(hs x (toVar_mem hx).1).2.1, (hs x (toVar_mem hx).1).2.2.1⟩⟩
  addr v a e := by
    have hh := hv v (by rw [e]; exact fun h => St.noConfusion h)
    rw [hh.2]
    exact h.addr v a e
  pend x hx v e := ⟨(h.pend x hx v e).1, (hs x hx).1.trans (h.pend x hx v e).2⟩
  goes x hx a e := (h.goes x hx a e).congr (h.inside x hx).1 (hs x hx).1 (hs x hx).2.1 (hs x hx).2.2.1

theorem var_lt {v : Nat} (h : v < varDeclMax) : v < 2 ^ 9 := by
  have : varDeclMax < 2 ^ 9 := by decide
  omega

theorem get_ne {s : S} {v x : Nat} {d : VarDecl} (hv : v < varDeclMax) (hx : x < varDeclMax) (h : x ≠ v) : (s.vars.set v d).get x = s.vars.get x :=
  Tab.get_set_ne _ _ (var_lt hv) (var_lt hx) (Ne.symm h)

theorem Inv.toVar_nil {es : List Ev} {s : S} (h : Inv es s) {v : Nat} (hv : st es v ≠ .open) : toVar v (sites es) = [] := by
  refine List.filter_eq_nil_iff.2 fun x hx e => hv ?_
  exact (h.pend x hx v (of_decide_eq_true e)).1

theorem Inv.new {es : List Ev} {s : S} (h : Inv es s) {v : Nat} {d : VarDecl} (hv : v < varDeclMax) (hn : st es v = .none) (h1 : d.ref = 0) (h2 : d.offset = 0) :
    Inv (.new v :: es) { s with vars := s.vars.set v d } where
  ge := h.ge
  sorted := h.sorted
  inside := h.inside
  ops := h.ops
  lt x hx := by
    by_cases e : x = v
    · rw [e]; exact hv
    · exact h.lt x (by simpa only [st, if_neg e] using hx)
  opn x hx := by
    by_cases e : x = v
    · subst e
      simp only [Tab.get_set_self]
      refine ⟨h2, ?_⟩
      rw [h1]
      show Links s.out 0 (toVar x (sites es))
      rw [h.toVar_nil (by rw [hn]; exact fun h => St.noConfusion h)]
      rfl
    · simp only [st, if_neg e] at hx
      simp only
      rw [get_ne hv (h.lt x (by rw [hx]; exact fun h => St.noConfusion h)) e]
      exact h.opn x hx
  addr x a hx := by
    by_cases e : x = v
    · simp only [st, if_pos e] at hx
      exact St.noConfusion hx
    · simp only [st, if_neg e] at hx
      simp only
      rw [get_ne hv (h.lt x (by rw [hx]; exact fun h => St.noConfusion h)) e]
      exact h.addr x a hx
  pend x hx w e := by
    have := h.pend x hx w e
    refine ⟨?_, this.2⟩
    simp only [st]
    split
    · rfl
    · exact this.1
  goes := h.goes

/-! ## A reference -/

theorem word_bytes (r : Nat) (h : r < 2 ^ 16) : (Scc.lo (r : Int)).toNat + 256 * (Scc.hi (r : Int)).toNat = r := by
  unfold Scc.lo Scc.hi Scc.byteOf
  rw [BitVec.toNat_ofInt, BitVec.toNat_ofInt, Int.shiftRight_eq_div_pow]
  omega

/-- The invariant with one reference more. -/
theorem Inv.add {es : List Ev} {s s' : S} (h : Inv es s) {v : Nat} {op : Byte} {rel : Bool} {n : Nat} (hn : 1 ≤ n) (hv : st es v ≠ .none) (hop : op ≠ 0) (he9 : op = 0xE9 → rel = true)
    (hin : In (s.code + n - 1) ∧ In (s.code + n + 1)) (hc : s'.code = s.code + n + 2) (hb : Below s.out s'.out s.code) (hb0 : B s'.out (s.code + n - 1) = op)
    (hvars : ∀ x, x ≠ v → x < varDeclMax → s'.vars.get x = s.vars.get x) (hoff : (s'.vars.get v).offset = (s.vars.get v).offset)
    (hopen : st es v = .open → (s'.vars.get v).ref = s.code + n ∧ nextRef s'.out (s.code + n) = (s.vars.get v).ref)
    (haddr : ∀ a, st es v = .addr a → Goes s'.out op rel (s.code + n) a) : Inv (.ref v op rel (s.code + n) :: es) s' := by
  have hold : ∀ x ∈ sites es, B s'.out (x.pos - 1) = B s.out (x.pos - 1) ∧ B s'.out x.pos = B s.out x.pos ∧ B s'.out (x.pos + 1) = B s.out (x.pos + 1) := by
    intro x hx
    obtain ⟨h1, h2, h3, h4⟩ := h.inside x hx
    exact ⟨hb _ h2 (by omega), hb _ (h2.of h3 (by omega) (by omega)) (by omega), hb _ h3 (by omega)⟩
  refine ⟨?_, ?_, ?_, ?_, ?_, ?_, ?_, ?_, ?_⟩
  · have := h.ge; omega
  · refine List.pairwise_cons.2 ⟨fun y hy => ?_, h.sorted⟩
    have := (h.inside y hy).2.2.2
    simp only; omega
  · intro x hx
    rcases List.mem_cons.1 hx with rfl | hx
    · simp only
      exact ⟨by omega, hin.1, hin.2, by omega⟩
    · obtain ⟨h1, h2, h3, h4⟩ := h.inside x hx
      exact ⟨h1, h2, h3, by omega⟩
  · intro x hx
    rcases List.mem_cons.1 hx with rfl | hx
    · exact ⟨hop, he9⟩
    · exact h.ops x hx
  · exact h.lt
  · intro x hx
    have hx' : st es x = .open := hx
    by_cases e : x = v
    · subst e
      obtain ⟨h1, h2⟩ := hopen hx'
      obtain ⟨h3, h4⟩ := h.opn x hx'
      refine ⟨hoff.trans h3, ?_⟩
      have et : toVar x (sites (.ref x op rel (s.code + n) :: es)) = ⟨.inl x, op, rel, s.code + n⟩ :: toVar x (sites es) := by
        simp only [sites, hx']
        exact List.filter_cons_of_pos (decide_eq_true rfl)
      rw [et, h1]
      refine ⟨rfl, ?_⟩
      rw [h2]
      exact h4.congr fun y hy => (hold y (toVar_mem hy).1).2
    · rw [hvars x e (h.lt x (by rw [hx']; exact fun h => St.noConfusion h))]
      obtain ⟨h3, h4⟩ := h.opn x hx'
      refine ⟨h3, ?_⟩
      have et : toVar x (sites (.ref v op rel (s.code + n) :: es)) = toVar x (sites es) := by
        refine List.filter_cons_of_neg ?_
        simp only [decide_eq_true_eq]
        cases st es v <;> simp only [reduceCtorEq, Sum.inl.injEq, not_false_eq_true] <;> exact fun h => e h.symm
      rw [et]
      exact h4.congr fun y hy => (hold y (toVar_mem hy).1).2
  · intro x a hx
    have hx' : st es x = .addr a := hx
    by_cases e : x = v
    · subst e
      rw [hoff]
      exact h.addr x a hx'
    · rw [hvars x e (h.lt x (by rw [hx']; exact fun h => St.noConfusion h))]
      exact h.addr x a hx'
  · intro x hx w e
    rcases List.mem_cons.1 hx with rfl | hx
    · simp only at e ⊢
      refine ⟨?_, hb0⟩
      show st es w = .open
      cases hst : st es v with
      | none => exact absurd hst hv
      | «open» =>
        rw [hst] at e
        obtain rfl : v = w := by simpa using e
        exact hst
      | addr a =>
        rw [hst] at e
        exact absurd e (by simp)
    · exact ⟨(h.pend x hx w e).1, (hold x hx).1.trans (h.pend x hx w e).2⟩
  · intro x hx a e
    rcases List.mem_cons.1 hx with rfl | hx
    · simp only at e ⊢
      cases hst : st es v with
      | none => exact absurd hst hv
      | «open» =>
        rw [hst] at e
        exact absurd e (by simp)
      | addr b =>
        rw [hst] at e
        obtain rfl : b = a := by simpa using e
        exact haddr b hst
    · exact (h.goes x hx a e).congr (h.inside x hx).1 (hold x hx).1 (hold x hx).2.1 (hold x hx).2.2

theorem Inv.ref_lt {es : List Ev} {s : S} (h : Inv es s) {v : Nat} (hv : st es v = .open) : (s.vars.get v).ref < 2 ^ 16 := by
  have hl := (h.opn v hv).2
  cases ht : toVar v (sites es) with
  | nil =>
    rw [ht] at hl
    have hl : (s.vars.get v).ref = 0 := hl
    omega
  | cons x xs =>
    rw [ht] at hl
    have hl : (s.vars.get v).ref = x.pos := hl.1
    have hx := h.inside x (toVar_mem (v := v) (by rw [ht]; exact List.mem_cons_self ..)).1
    have := hx.2.2.1.lt
    omega

/-- The word written for a reference. -/
def refWord (s : S) (v : Nat) (rel : Bool) : Int :=
  if (s.vars.get v).offset = 0 then (s.vars.get v).ref else if rel then (s.vars.get v).offset - s.code - 2 else (s.vars.get v).offset

/-- The reference is in the list. -/
def linked (s : S) (v : Nat) : S :=
  if (s.vars.get v).offset = 0 then { s with vars := s.vars.set v { s.vars.get v with ref := s.code - 2 } } else s

theorem emitRef_run {s : S} (hl : Live s) (hr : Room s 2) (v : Nat) (rel : Bool) :
    (if rel then emitGlobalRefRel v else emitGlobalRef v) s = .ok () (linked (put s [Scc.lo (refWord s v rel), Scc.hi (refWord s v rel)]) v) := by
  have e : ∀ w, outputWord w s = .ok () (put s [Scc.lo w, Scc.hi w]) := fun w => hl.out_put hr
  have ev : ∀ bs, (put s bs).vars = s.vars := fun bs => by rw [put_eq]
  unfold refWord linked
  rw [ev]
  cases rel
  · simp only [Bool.false_eq_true, if_false]
    by_cases h0 : (s.vars.get v).offset = 0
    · rw [if_pos h0, if_pos h0]
      refine run_getS (run_pos h0 (run_getS (run_neg (by rw [hl.dead]; decide) (run_bind (e _) ?_))))
      simp only [modS, ev]
    · rw [if_neg h0, if_neg h0]
      exact run_getS (run_neg h0 (e _))
  · simp only [if_true]
    by_cases h0 : (s.vars.get v).offset = 0
    · rw [if_pos h0, if_pos h0]
      refine run_getS (run_pos h0 (run_getS (run_neg (by rw [hl.dead]; decide) (run_bind (e _) ?_))))
      simp only [modS, ev]
    · rw [if_neg h0, if_neg h0]
      exact run_getS (run_neg h0 (e _))

theorem Inv.ref {es : List Ev} {s s1 s' : S} (h : Inv es s) {v : Nat} {bs : List Byte} {op : Byte} {rel : Bool} (hl : Live s) (hr : Room s (bs.length + 3)) (hv : st es v ≠ .none)
    (hop : op ≠ 0) (he9 : op = 0xE9 → rel = true) (h1 : output (bs ++ [op]) s = .ok () s1) (h2 : (if rel then emitGlobalRefRel v else emitGlobalRef v) s1 = .ok () s') :
    Inv (.ref v op rel (s.code + bs.length + 1) :: es) s' := by
  have hlen : (bs ++ [op]).length = bs.length + 1 := by simp
  rw [hl.out_put (room_le hr (by omega))] at h1
  obtain rfl : put s (bs ++ [op]) = s1 := by injection h1
  have hl1 : Live (put s (bs ++ [op])) := by rw [put_eq]; exact ⟨hl.dead, hl.spAdj, hl.push⟩
  have hc1 : (put s (bs ++ [op])).code = s.code + bs.length + 1 := by rw [put_eq, hlen]; rfl
  have hv1 : (put s (bs ++ [op])).vars = s.vars := by rw [put_eq]
  have hr1 : Room (put s (bs ++ [op])) 2 := by
    unfold Room at *
    rw [hc1]
    generalize codeStart = x, outputMax = y at *
    omega
  rw [emitRef_run hl1 hr1] at h2
  generalize hw : refWord (put s (bs ++ [op])) v rel = w at h2
  have hpp : put (put s (bs ++ [op])) [Scc.lo w, Scc.hi w] = put s (bs ++ [op, Scc.lo w, Scc.hi w]) := by
    rw [← put_append, List.append_assoc]; rfl
  rw [hpp] at h2
  have hlen2 : (bs ++ [op, Scc.lo w, Scc.hi w]).length = bs.length + 3 := by simp
  obtain rfl : linked (put s (bs ++ [op, Scc.lo w, Scc.hi w])) v = s' := by injection h2
  have hr2 : Room s (bs ++ [op, Scc.lo w, Scc.hi w]).length := by rw [hlen2]; exact hr
  have hcode : (linked (put s (bs ++ [op, Scc.lo w, Scc.hi w])) v).code = s.code + bs.length + 3 := by
    unfold linked
    split <;> (rw [put_eq, hlen2]; try rfl)
  have hout : (linked (put s (bs ++ [op, Scc.lo w, Scc.hi w])) v).out = putOut s.out s.code (bs ++ [op, Scc.lo w, Scc.hi w]) := by
    unfold linked
    split <;> (rw [put_eq]; try rfl)
  have hvar : (linked (put s (bs ++ [op, Scc.lo w, Scc.hi w])) v).vars =
      if (s.vars.get v).offset = 0 then s.vars.set v { s.vars.get v with ref := s.code + bs.length + 1 } else s.vars := by
    unfold linked
    rw [put_eq, hlen2]
    split
    · show s.vars.set v { s.vars.get v with ref := s.code + (bs.length + 3) - 2 } = _
      have : s.code + (bs.length + 3) - 2 = s.code + bs.length + 1 := by omega
      rw [this]
    · rfl
  have hb : Below s.out (putOut s.out s.code (bs ++ [op, Scc.lo w, Scc.hi w])) s.code := below_put hr2 (by rw [hlen2]; omega)
  have hnew := fun i hi => new_put (s := s) hr2 i hi
  have b0 : B (putOut s.out s.code (bs ++ [op, Scc.lo w, Scc.hi w])) (s.code + bs.length) = op := by
    rw [hnew bs.length (by omega)]; simp
  have b1 : B (putOut s.out s.code (bs ++ [op, Scc.lo w, Scc.hi w])) (s.code + bs.length + 1) = Scc.lo w := by
    rw [Nat.add_assoc, hnew (bs.length + 1) (by omega)]; simp
  have b2 : B (putOut s.out s.code (bs ++ [op, Scc.lo w, Scc.hi w])) (s.code + bs.length + 2) = Scc.hi w := by
    rw [Nat.add_assoc, hnew (bs.length + 2) (by omega)]; simp
  have hi := room_in hr (by omega)
  have hI : ∀ k, k < bs.length + 3 → In (s.code + k) := fun k hk => by
    obtain ⟨⟨q1, _⟩, q2⟩ := hi
    unfold In
    generalize codeStart = x, outputMax = y at *
    omega
  have hvlt := h.lt v hv
  generalize linked (put s (bs ++ [op, Scc.lo w, Scc.hi w])) v = s' at *
  have key := h.add (s' := s') (v := v) (op := op) (rel := rel) (n := bs.length + 1) (by omega) hv hop he9 ⟨hI bs.length (by omega), hI (bs.length + 2) (by omega)⟩ (by omega)
    (by rw [hout]; exact hb) (by rw [hout]; exact b0)
    (fun x hx hlt => by
      rw [hvar]
      split
      · exact get_ne hvlt hlt hx
      · rfl)
    (by
      rw [hvar]
      split
      · rw [Tab.get_set_self]
      · rfl)
    (fun ho => by
      have h0 := (h.opn v ho).1
      rw [hvar, if_pos h0, Tab.get_set_self, hout]
      refine ⟨rfl, ?_⟩
      unfold nextRef
      rw [show s.code + (bs.length + 1) = s.code + bs.length + 1 from rfl, b1, show s.code + bs.length + 1 + 1 = s.code + bs.length + 2 from rfl, b2, ← hw]
      unfold refWord
      rw [hv1, if_pos h0]
      exact word_bytes _ (h.ref_lt ho))
    (fun a ha => by
      obtain ⟨hne, ho⟩ := h.addr v a ha
      rw [hout]
      refine .inl ⟨b0, ?_⟩
      have ew : w = if rel then (a : Int) - (s.code + bs.length + 1 : Nat) - 2 else a := by
        rw [← hw]
        unfold refWord
        rw [hv1, hc1, ho]
        exact if_neg (fun e => hne (by omega))
      rw [show s.code + (bs.length + 1) = s.code + bs.length + 1 from rfl, b1, show s.code + bs.length + 1 + 1 = s.code + bs.length + 2 from rfl, b2, word_lo_hi, ew]
      cases rel
      · simp only [Bool.false_eq_true, if_false]
        have := to_word (a := a) (b := 0) (v := (a : Int)) (by omega)
        exact this
      · simp only [if_true]
        exact to_word (by omega))
  exact key

/-! ## A label -/

theorem fix_site {s : S} {r : Nat} {op : Byte} {rel : Bool} (hr : 1 ≤ r) (h0 : In (r - 1)) (h2 : In (r + 1)) (hp : B s.out (r - 1) = op) (hop : op ≠ 0) (he9 : op = 0xE9 → rel = true)
    (hle : r + 2 ≤ s.code) (hk : rel = true → r + 2 ≠ s.code) :
    ∃ out', fixOne r rel s = .ok (nextRef s.out r) { s with out := out' } ∧ Goes out' op rel r s.code ∧ Keep s.out out' (r - 1) (r + 2) := by
  obtain ⟨p, rfl⟩ : ∃ p, r = p + 1 := ⟨r - 1, by omega⟩
  rw [Nat.add_sub_cancel] at h0 hp ⊢
  have h1 : In (p + 1) := h0.of h2 (by omega) (by omega)
  by_cases he : op = 0xE9
  · have hrel := he9 he
    subst hrel
    have hne := hk rfl
    obtain ⟨out', e, hj, hkp⟩ := fix_jmp h0 h2 (hp.trans he) (by omega) (fun h => absurd h.symm hne)
    refine ⟨out', e, ?_, hkp⟩
    unfold Goes
    rw [Nat.add_sub_cancel]
    rcases hj with hj | hj
    · exact .inr ⟨he, hj⟩
    · exact .inl ⟨hj.1.trans he.symm, hj.2⟩
  · generalize hf : (if rel = true then (s.code : Int) - ((p + 1 : Nat) + 2) else s.code) = f
    have ep : fixPlain (p + 1) f s = .ok () { s with out := SccFix.st (SccFix.st s.out (p + 1) (Scc.lo f)) (p + 1 + 1) (Scc.hi f) } :=
      run_bind (rd_at p (by omega) h0) (run_neg (fun h => he (hp.symm.trans h.1))
        (run_bind (wr_at (p + 1) (Scc.lo f) (by omega) h1) (wr_at (p + 1 + 1) (Scc.hi f) (by omega) h2)))
    refine ⟨_, run_getS (run_bind (rd_at (p + 1) (by omega) h1) (run_bind (rd_at (p + 1 + 1) (by omega) h2) (run_bind (rd_at p (by omega) h0)
      (run_neg (by rw [hp]; exact hop) (run_neg (fun h => hk h.1 h.2.1.symm) (run_bind (by rw [hf]; exact ep) rfl)))))), .inl ?_, fun x hx hn => ?_⟩
    · simp only [Nat.add_sub_cancel]
      rw [B_ne _ _ h2 h0 (by omega), B_ne _ _ h1 h0 (by omega), B_ne _ _ h2 h1 (by omega), B_self, B_self, word_lo_hi, ← hf]
      refine ⟨hp, ?_⟩
      cases rel
      · exact to_word (a := s.code) (b := 0) (v := (s.code : Int)) (by omega)
      · exact to_word (a := s.code) (b := p + 1 + 2) (by simp only [if_true]; omega)
    · rw [B_ne _ _ h2 hx (by omega), B_ne _ _ h1 hx (by omega)]

/-- What is asked of the references to be resolved at `e`. -/
def Fixable (m : Mem 15) (rel : Bool) (e : Nat) (x : Site) : Prop :=
  1 ≤ x.pos ∧ In (x.pos - 1) ∧ In (x.pos + 1) ∧ x.pos + 2 ≤ e ∧ x.op ≠ 0 ∧ (x.op = 0xE9 → rel = true) ∧ x.rel = rel ∧ (rel = true → x.pos + 2 ≠ e) ∧ B m (x.pos - 1) = x.op

theorem fix_all {rel : Bool} (xs : List Site) : ∀ (n r : Nat) (s : S), xs.length < n → Links s.out r xs → xs.Pairwise (fun x y => y.pos + 3 ≤ x.pos) → (∀ x ∈ xs, Fixable s.out rel s.code x) →
    ∃ out', doFixups rel n r s = .ok () { s with out := out', lastFixup := s.code } ∧ (∀ x ∈ xs, Goes out' x.op x.rel x.pos s.code) ∧
      ∀ a, In a → (∀ x ∈ xs, a < x.pos - 1 ∨ x.pos + 2 ≤ a) → B out' a = B s.out a := by
  induction xs with
  | nil =>
    intro n r s hn hl _ _
    obtain ⟨n, rfl⟩ : ∃ k, n = k + 1 := ⟨n - 1, by simp only [List.length_nil] at hn; omega⟩
    exact ⟨s.out, run_pos hl rfl, by simp, fun _ _ _ => rfl⟩
  | cons x xs ih =>
    intro n r s hn hrl hs hx
    obtain ⟨n, rfl⟩ : ∃ k, n = k + 1 := ⟨n - 1, by simp only [List.length_cons] at hn; omega⟩
    obtain ⟨hr, hl⟩ := hrl
    obtain ⟨q1, q2, q3, q4, q5, q6, q7, q8, q9⟩ := hx x (List.mem_cons_self ..)
    obtain ⟨hs1, hs2⟩ := List.pairwise_cons.1 hs
    subst hr
    obtain ⟨m, e1, hg, hk⟩ := fix_site q1 q2 q3 q9 q5 q6 q4 q8
    have hin : ∀ y ∈ xs, 1 ≤ y.pos ∧ In (y.pos - 1) ∧ In (y.pos + 1) ∧ y.pos + 3 ≤ x.pos := fun y hy => by
      obtain ⟨p1, p2, p3, _⟩ := hx y (List.mem_cons_of_mem _ hy)
      exact ⟨p1, p2, p3, hs1 y hy⟩
    have hl2 : Links m (nextRef s.out x.pos) xs := hl.congr fun y hy => by
      obtain ⟨p1, p2, p3, p4⟩ := hin y hy
      exact ⟨hk _ (p2.of p3 (by omega) (by omega)) (.inl (by omega)), hk _ p3 (.inl (by omega))⟩
    obtain ⟨out', e2, hg2, hk2⟩ := ih n (nextRef s.out x.pos) { s with out := m } (by simp only [List.length_cons] at hn; omega) hl2 hs2 (fun y hy => by
      obtain ⟨p1, p2, p3, p4⟩ := hin y hy
      obtain ⟨t1, t2, t3, t4, t5, t6, t7, t8, t9⟩ := hx y (List.mem_cons_of_mem _ hy)
      exact ⟨t1, t2, t3, t4, t5, t6, t7, t8, (hk _ p2 (.inl (by omega))).trans t9⟩)
    refine ⟨out', run_neg (by omega) (run_bind e1 e2), fun y hy => ?_, fun a ha hn => ?_⟩
    · rcases List.mem_cons.1 hy with rfl | hy
      · have far : ∀ a, In a → y.pos - 1 ≤ a → B out' a = B m a := fun a ha hle => hk2 a ha fun z hz => by
          obtain ⟨p1, p2, p3, p4⟩ := hin z hz
          omega
        rw [q7]
        exact hg.congr q1 (far _ q2 (by omega)) (far _ (q2.of q3 (by omega) (by omega)) (by omega)) (far _ q3 (by omega))
      · exact hg2 y hy
    · rw [hk2 a ha fun z hz => hn z (List.mem_cons_of_mem _ hz)]
      exact hk a ha (by have := hn x (List.mem_cons_self ..); omega)

theorem len_le : ∀ (xs : List Site) (b : Nat), xs.Pairwise (fun x y => y.pos + 3 ≤ x.pos) → (∀ x ∈ xs, x.pos < b) → xs.length ≤ b
  | [], _, _, _ => by simp
  | x :: xs, b, hs, hb => by
    obtain ⟨h1, h2⟩ := List.pairwise_cons.1 hs
    have := len_le xs x.pos h2 fun y hy => by have := h1 y hy; omega
    have := hb x (List.mem_cons_self ..)
    simp only [List.length_cons]; omega

theorem ub_ok {b : Bool} {s s' : S} {a : Unit} (h : ubUnless b s = .ok a s') : s = s' := by
  unfold ubUnless at h
  split at h <;> cases h
  rfl

theorem mapLine_ok {v : Nat} {s s' : S} (h : mapLine v s = .ok () s') : ∃ m, s' = { s with map := m } := by
  unfold mapLine at h
  obtain ⟨_, _, h0, h⟩ := bind_eq_ok.1 h
  cases h0
  obtain ⟨_, _, h1, h⟩ := bind_eq_ok.1 h
  cases ub_ok h1
  obtain ⟨_, _, h2, h⟩ := bind_eq_ok.1 h
  cases ub_ok h2
  cases h
  exact ⟨_, rfl⟩

/-! ### Lists of references -/

theorem put_pos (v : Nat) (t : Nat ⊕ Nat) (x : Site) : (Site.put v t x).pos = x.pos := by unfold Site.put; split <;> rfl
theorem put_op (v : Nat) (t : Nat ⊕ Nat) (x : Site) : (Site.put v t x).op = x.op := by unfold Site.put; split <;> rfl
theorem put_rel (v : Nat) (t : Nat ⊕ Nat) (x : Site) : (Site.put v t x).rel = x.rel := by unfold Site.put; split <;> rfl
theorem put_at {v : Nat} {t : Nat ⊕ Nat} {x : Site} (h : x.tgt = .inl v) : (Site.put v t x).tgt = t := by unfold Site.put; rw [if_pos h]
theorem put_ne {v : Nat} {t : Nat ⊕ Nat} {x : Site} (h : x.tgt ≠ .inl v) : Site.put v t x = x := by unfold Site.put; rw [if_neg h]

theorem toVar_put {v y : Nat} {t : Nat ⊕ Nat} (hy : y ≠ v) (ht : t ≠ .inl y) : ∀ xs : List Site, toVar y (xs.map (.put v t)) = toVar y xs
  | [] => rfl
  | x :: xs => by
    have ih := toVar_put hy ht xs
    unfold toVar at *
    rw [List.map_cons]
    by_cases e : x.tgt = .inl v
    · rw [List.filter_cons_of_neg (by rw [put_at e]; simpa using ht), List.filter_cons_of_neg (by rw [e]; simpa using Ne.symm hy), ih]
    · rw [put_ne e]
      by_cases e2 : x.tgt = .inl y
      · rw [List.filter_cons_of_pos (by simpa using e2), List.filter_cons_of_pos (by simpa using e2), ih]
      · rw [List.filter_cons_of_neg (by simpa using e2), List.filter_cons_of_neg (by simpa using e2), ih]

theorem toVar_move {v w : Nat} (hw : w ≠ v) : ∀ xs : List Site, toVar w xs = [] → toVar w (xs.map (.put v (.inl w))) = (toVar v xs).map (.put v (.inl w))
  | [], _ => rfl
  | x :: xs, h => by
    have hx : x.tgt ≠ .inl w := fun e => by
      have : x ∈ toVar w (x :: xs) := List.mem_filter.2 ⟨List.mem_cons_self .., decide_eq_true e⟩
      rw [h] at this
      exact absurd this (by simp)
    have h' : toVar w xs = [] := by
      unfold toVar at h ⊢
      rwa [List.filter_cons_of_neg (by simpa using hx)] at h
    have ih := toVar_move hw xs h'
    unfold toVar at *
    rw [List.map_cons]
    by_cases e : x.tgt = .inl v
    · rw [List.filter_cons_of_pos (by rw [put_at e]; simp), List.filter_cons_of_pos (by simpa using e), ih, List.map_cons]
    · rw [List.filter_cons_of_neg (by rw [put_ne e]; simpa using hx), List.filter_cons_of_neg (by simpa using e), ih]

theorem Links.map {m : Mem 15} {v : Nat} {t : Nat ⊕ Nat} : ∀ {xs : List Site} {r : Nat}, Links m r xs → Links m r (xs.map (.put v t))
  | [], _, h => h
  | _ :: _, _, ⟨h1, h2⟩ => ⟨by rw [put_pos]; exact h1, h2.map⟩

theorem sorted_map {xs : List Site} {v : Nat} {t : Nat ⊕ Nat} (h : xs.Pairwise fun x y => y.pos + 3 ≤ x.pos) : (xs.map (Site.put v t)).Pairwise fun x y => y.pos + 3 ≤ x.pos := by
  rw [List.pairwise_map]
  simpa only [put_pos] using h

theorem apart : ∀ {xs : List Site}, (xs.Pairwise fun x y => y.pos + 3 ≤ x.pos) → ∀ {x y : Site}, x ∈ xs → y ∈ xs → x = y ∨ x.pos + 3 ≤ y.pos ∨ y.pos + 3 ≤ x.pos
  | z :: zs, h, x, y, hx, hy => by
    obtain ⟨h1, h2⟩ := List.pairwise_cons.1 h
    rcases List.mem_cons.1 hx with rfl | hx
    · rcases List.mem_cons.1 hy with rfl | hy
      · exact .inl rfl
      · exact .inr (.inr (h1 y hy))
    · rcases List.mem_cons.1 hy with e | hy
      · rw [e]; exact .inr (.inl (h1 x hx))
      · exact apart h2 hx hy

theorem Inv.move {es : List Ev} {s : S} (h : Inv es s) {v w : Nat} {d : VarDecl} (hw : w < varDeclMax) (hv : st es v = .open) (hn : st es w = .none) (h1 : d.ref = (s.vars.get v).ref)
    (h2 : d.offset = 0) : Inv (.move v w :: es) { s with vars := s.vars.set w d } := by
  have hvw : w ≠ v := fun e => by rw [e, hv] at hn; exact St.noConfusion hn
  have hno : ∀ {x : St}, x = .open → x ≠ .none := fun e => by rw [e]; exact fun h => St.noConfusion h
  have hnil := h.toVar_nil (v := w) (by rw [hn]; exact fun h => St.noConfusion h)
  refine ⟨h.ge, sorted_map h.sorted, ?_, ?_, ?_, ?_, ?_, ?_, ?_⟩
  · intro x hx
    obtain ⟨y, hy, rfl⟩ := List.mem_map.1 hx
    rw [put_pos]
    exact h.inside y hy
  · intro x hx
    obtain ⟨y, hy, rfl⟩ := List.mem_map.1 hx
    rw [put_op, put_rel]
    exact h.ops y hy
  · intro x hx
    simp only [st] at hx
    split at hx
    · exact absurd rfl hx
    · split at hx
      · rename_i e; rw [e]; exact hw
      · exact h.lt x hx
  · intro x hx
    simp only [st] at hx
    split at hx
    · exact St.noConfusion hx
    · rename_i e1
      split at hx
      · rename_i e2
        subst e2
        simp only [Tab.get_set_self]
        refine ⟨h2, ?_⟩
        rw [h1]
        simp only [sites]
        rw [toVar_move hvw _ hnil]
        exact (h.opn v hv).2.map
      · rename_i e2
        simp only
        rw [get_ne hw (h.lt x (hno hx)) e2]
        simp only [sites]
        rw [toVar_put e1 (fun e => e2 (Sum.inl.inj e).symm)]
        exact h.opn x hx
  · intro x a hx
    simp only [st] at hx
    split at hx
    · exact St.noConfusion hx
    · split at hx
      · exact St.noConfusion hx
      · rename_i e2
        simp only
        rw [get_ne hw (h.lt x (by rw [hx]; exact fun h => St.noConfusion h)) e2]
        exact h.addr x a hx
  · intro x hx y e
    obtain ⟨z, hz, rfl⟩ := List.mem_map.1 hx
    rw [put_pos, put_op]
    by_cases ez : z.tgt = .inl v
    · rw [put_at ez] at e
      obtain rfl : w = y := Sum.inl.inj e
      refine ⟨?_, (h.pend z hz v ez).2⟩
      simp only [st]
      rw [if_neg hvw]; exact if_pos trivial
    · rw [put_ne ez] at e
      have hp := h.pend z hz y e
      refine ⟨?_, hp.2⟩
      have hyv : y ≠ v := fun e2 => ez (e2 ▸ e)
      simp only [st]
      rw [if_neg hyv]
      split
      · rfl
      · exact hp.1
  · intro x hx a e
    obtain ⟨z, hz, rfl⟩ := List.mem_map.1 hx
    rw [put_pos, put_op, put_rel]
    by_cases ez : z.tgt = .inl v
    · rw [put_at ez] at e
      exact absurd e (by simp)
    · rw [put_ne ez] at e
      exact h.goes z hz a e

theorem Inv.lab {es : List Ev} {s s' : S} (h : Inv es s) {v : Nat} (hv : st es v ≠ .none)
    (hk : ∀ x ∈ toVar v (sites es), x.rel = ((s.vars.get v).type &&& vtFun != 0) ∧ (x.rel = true → x.pos + 2 ≠ s.code)) (he : emitGlobalLabel v s = .ok () s') :
    Inv (.lab v s.code :: es) s' ∧ ∀ a, In a → (∀ x ∈ toVar v (sites es), a < x.pos - 1 ∨ x.pos + 2 ≤ a) → B s'.out a = B s.out a := by
  have hc : 0 < codeStart := by decide
  have hge := h.ge
  have hvl := h.lt v hv
  unfold emitGlobalLabel at he
  obtain ⟨_, _, h0, he⟩ := bind_eq_ok.1 he
  cases h0
  have hoff : (s.vars.get v).offset = 0 := by
    by_cases e : (s.vars.get v).offset = 0
    · exact e
    · obtain ⟨_, _, h0, _⟩ := bind_eq_ok.1 he
      rw [decide_eq_true e] at h0
      cases h0
  have ho : st es v = .open := by
    cases hst : st es v with
    | none => exact absurd hst hv
    | «open» => rfl
    | addr a =>
      obtain ⟨q1, q2⟩ := h.addr v a hst
      omega
  have hd : decide ((s.vars.get v).offset ≠ 0) = false := decide_eq_false (fun h => h hoff)
  simp only [hd] at he
  obtain ⟨_, _, h0, he⟩ := bind_eq_ok.1 he
  cases h0
  obtain ⟨_, _, h0, he⟩ := bind_eq_ok.1 he
  cases h0
  obtain ⟨hx1, hx2⟩ := h.opn v ho
  have hps : (toVar v (sites es)).Pairwise fun x y => y.pos + 3 ≤ x.pos := h.sorted.filter _
  have hlen : (toVar v (sites es)).length < fixFuel := by
    have := len_le _ (2 ^ 15) hps fun x hx => by
      have := (h.inside x (toVar_mem hx).1).2.2.1.lt
      omega
    have : (2 : Nat) ^ 15 < fixFuel := by decide
    omega
  obtain ⟨out', e1, hg, hkp⟩ := fix_all (rel := (s.vars.get v).type &&& vtFun != 0) (toVar v (sites es)) fixFuel (s.vars.get v).ref
    { s with vars := s.vars.set v { s.vars.get v with offset := s.code }, dead := false } hlen hx2 hps (fun x hx => by
      obtain ⟨m1, m2⟩ := toVar_mem hx
      obtain ⟨q1, q2, q3, q4⟩ := h.inside x m1
      obtain ⟨q5, q6⟩ := h.ops x m1
      obtain ⟨k1, k2⟩ := hk x hx
      exact ⟨q1, q2, q3, q4, q5, fun e => k1 ▸ q6 e, k1, fun e => k2 (k1.trans e), (h.pend x m1 v m2).2⟩)
  rw [bind_ok e1] at he
  obtain ⟨m, rfl⟩ := mapLine_ok he
  refine ⟨?_, hkp⟩
  have hold : ∀ x ∈ sites es, x.tgt ≠ .inl v → B out' (x.pos - 1) = B s.out (x.pos - 1) ∧ B out' x.pos = B s.out x.pos ∧ B out' (x.pos + 1) = B s.out (x.pos + 1) := by
    intro x hx hne
    obtain ⟨q1, q2, q3, q4⟩ := h.inside x hx
    have far : ∀ a, x.pos - 1 ≤ a → a ≤ x.pos + 1 → ∀ y ∈ toVar v (sites es), a < y.pos - 1 ∨ y.pos + 2 ≤ a := fun a h1 h2 y hy => by
      obtain ⟨m1, m2⟩ := toVar_mem hy
      have := (h.inside y m1).1
      rcases apart h.sorted hx m1 with e | e | e
      · rw [← e] at m2; exact absurd m2 hne
      · omega
      · omega
    exact ⟨hkp _ q2 (far _ (by omega) (by omega)), hkp _ (q2.of q3 (by omega) (by omega)) (far _ (by omega) (by omega)), hkp _ q3 (far _ (by omega) (by omega))⟩
  refine ⟨hge, sorted_map h.sorted, ?_, ?_, ?_, ?_, ?_, ?_, ?_⟩
  · intro x hx
    obtain ⟨y, hy, rfl⟩ := List.mem_map.1 hx
    rw [put_pos]
    exact h.inside y hy
  · intro x hx
    obtain ⟨y, hy, rfl⟩ := List.mem_map.1 hx
    rw [put_op, put_rel]
    exact h.ops y hy
  · intro x hx
    simp only [st] at hx
    split at hx
    · rename_i e; rw [e]; exact hvl
    · exact h.lt x hx
  · intro x hx
    simp only [st] at hx
    split at hx
    · exact St.noConfusion hx
    · rename_i e1
      simp only
      rw [get_ne hvl (h.lt x (by rw [hx]; exact fun h => St.noConfusion h)) e1]
      simp only [sites]
      rw [toVar_put e1 (by simp)]
      refine ⟨(h.opn x hx).1, (h.opn x hx).2.congr fun y hy => ?_⟩
      obtain ⟨m1, m2⟩ := toVar_mem hy
      exact (hold y m1 (by rw [m2]; exact fun e => e1 (Sum.inl.inj e))).2
  · intro x a hx
    simp only [st] at hx
    split at hx
    · rename_i e1
      subst e1
      obtain rfl : s.code = a := by injection hx
      refine ⟨by omega, ?_⟩
      simp only [Tab.get_set_self]
    · rename_i e1
      simp only
      rw [get_ne hvl (h.lt x (by rw [hx]; exact fun h => St.noConfusion h)) e1]
      exact h.addr x a hx
  · intro x hx y e
    obtain ⟨z, hz, rfl⟩ := List.mem_map.1 hx
    rw [put_pos, put_op]
    by_cases ez : z.tgt = .inl v
    · rw [put_at ez] at e
      exact absurd e (by simp)
    · rw [put_ne ez] at e
      have hp := h.pend z hz y e
      have hyv : y ≠ v := fun e2 => ez (e2 ▸ e)
      refine ⟨?_, (hold z hz ez).1.trans hp.2⟩
      simp only [st]
      rw [if_neg hyv]
      exact hp.1
  · intro x hx a e
    obtain ⟨z, hz, rfl⟩ := List.mem_map.1 hx
    rw [put_pos, put_op, put_rel]
    by_cases ez : z.tgt = .inl v
    · rw [put_at ez] at e
      obtain rfl : s.code = a := Sum.inr.inj e
      exact hg z (List.mem_filter.2 ⟨hz, decide_eq_true ez⟩)
    · rw [put_ne ez] at e
      obtain ⟨q1, q2, q3⟩ := hold z hz ez
      exact (h.goes z hz a e).congr (h.inside z hz).1 q1 q2 q3

theorem Linked.inv {es : List Ev} {s : S} (h : Linked es s) : Inv es s := by
  induction h with
  | start s hs =>
    refine ⟨hs, List.Pairwise.nil, ?_, ?_, ?_, ?_, ?_, ?_, ?_⟩ <;> simp [sites, st]
  | other _ h1 h2 h3 ih => exact ih.other h1 h2 h3
  | new _ h1 h2 h3 h4 ih => exact ih.new h1 h2 h3 h4
  | ref _ h1 h2 h3 h4 h5 h6 h7 ih => exact ih.ref (rel := false) h1 h2 h3 h4 (fun e => absurd e h5) h6 h7
  | refRel _ h1 h2 h3 h4 h5 h6 ih => exact ih.ref (rel := true) h1 h2 h3 h4 (fun _ => rfl) h5 h6
  | lab _ h1 h2 h3 ih => exact (ih.lab h1 h2 h3).1
  | move _ h1 h2 h3 h4 h5 ih => exact ih.move h1 h2 h3 h4 h5

end SccLink
