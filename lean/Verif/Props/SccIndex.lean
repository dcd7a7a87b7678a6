import Verif.Props.SccSize
import Verif.Props.SccGenWit
/-!
# Indexing and pointer arithmetic in `scc.c` (C40)
-/
namespace SccIndex
open Prog Text Scc SccCode SccSize I86 I86.Cpu

/-- The pointer is fetched from BX or from the stack. -/
def storedB (r : Bool) : List Byte := if r then [] else [0x59]

/-- The address of an element of `n` bytes: AX is the index, the pointer is in BX or on the stack. -/
def elemB (r : Bool) (n : Nat) : List Byte := scaleBytes n ++ (storedB r ++ [0x01, nb (0xC0 ||| (if r then 3 else 1) * 8)])

theorem put_upd (bs : List Byte) (s : S) (r : Bool) (o : Int) : { put s bs with regUse := r, localOffset := o } = put { s with regUse := r, localOffset := o } bs := by
  induction bs generalizing s with
  | nil => rfl
  | cons b bs ih => exact ih _

theorem put_reg (bs : List Byte) (s : S) : (put s bs).regUse = s.regUse ∧ (put s bs).localOffset = s.localOffset ∧ (put s bs).extra = s.extra ∧ (put s bs).vars = s.vars := by
  induction bs generalizing s with
  | nil => exact ⟨rfl, rfl, rfl, rfl⟩
  | cons b bs ih => exact ih _

/-- What `GetStoredVal` does to the state besides the code. -/
def took (s : S) : S := { s with regUse := false, localOffset := if s.regUse then s.localOffset else s.localOffset + 2 }

theorem stored_put (s : S) (hs : Live s) (hr : Room s (storedB s.regUse).length) : getStoredVal none s = .ok (if s.regUse then 3 else 1) (put (took s) (storedB s.regUse)) := by
  refine run_getS (run_failIf hs.push ?_)
  unfold took storedB at *
  cases h : s.regUse with
  | true => exact run_pos rfl rfl
  | false =>
    rw [h] at hr
    refine run_neg (by decide) (run_bind (hs.out_put hr) (run_modS ?_))
    cases s
    cases h
    rfl

theorem put_ty (bs : List Byte) (s : S) (t : Nat) (e : Int) : { put s bs with type := t, extra := e } = put { s with type := t, extra := e } bs := by
  induction bs generalizing s with
  | nil => rfl
  | cons b bs ih => exact ih _

theorem took_put (bs : List Byte) (s : S) : took (put s bs) = put (took s) bs := by
  unfold took
  rw [(put_reg bs s).1, (put_reg bs s).2.1, put_upd]

/-! ## The code -/

theorem code_add (K : Contract) (r : Fin 8) : Code K [0x01, nb (0xC0 ||| r.val * 8)] fun c c' => Upto { c with ax := c.ax + c.reg16 r } c' := by
  refine code_one (enc_alu false .add .add 0x01 0 rfl rfl r) fun c n => ⟨_, exec_aluReg K .add (by decide) r _, rfl, ?_⟩
  rw [reg16_ip]
  rfl

theorem code_pop (K : Contract) : Code K [0x59] fun c c' => Upto { c with cx := c.rd16 c.ss c.sp, sp := c.sp + 2 } c' :=
  code_one (ins := .pop 1) ⟨by simp, fun _ => rfl⟩ fun _ _ => ⟨_, rfl, rfl, rfl⟩

theorem code_addAx (K : Contract) (a : Int) : Code K [0x05, Scc.lo a, Scc.hi a] fun c c' => Upto { c with ax := c.ax + BitVec.ofInt 16 a } c' :=
  code_one (ins := .aluImm .add true (.reg 0) (BitVec.ofInt 16 a)) ⟨by simp, fun _ => by rw [← word_lo_hi]; rfl⟩ fun _ _ => ⟨_, rfl, rfl, rfl⟩

/-- The pointer which is kept for the addition. -/
def kept (r : Bool) (c : Cpu) : BitVec 16 := if r then c.bx else c.rd16 c.ss c.sp

theorem code_elem (K : Contract) (r : Bool) (n : Nat) : Code K (elemB r n) fun c c' =>
    ∃ cx dx, Upto { c with ax := kept r c + c.ax * BitVec.ofNat 16 n, cx := cx, dx := dx, sp := if r then c.sp else c.sp + 2 } c' := by
  refine code_append (Q := fun c c' => ∃ cx, Upto { c with ax := kept r c + c.ax, cx := cx, sp := if r then c.sp else c.sp + 2 } c') (code_scale K n) ?_
    (fun c c' ⟨_, _, h⟩ => ⟨h.mem, h.cs⟩) ?_
  · cases r with
    | true =>
      refine (code_add K 3).mono fun c c' h => ⟨c.cx, ?_⟩
      rw [show kept true c + c.ax = c.ax + c.reg16 3 from BitVec.add_comm _ _]
      exact h
    | false =>
      refine code_append (code_pop K) (code_add K 1) (fun c c' h => ⟨h.mem, h.cs⟩) fun a b c hp hq => ⟨a.rd16 a.ss a.sp, ?_⟩
      refine Upto.trans ?_ hq
      rw [hp, show kept false a + a.ax = a.ax + a.rd16 a.ss a.sp from BitVec.add_comm _ _]
      rfl
  · rintro a b c ⟨cx, dx, hp⟩ ⟨cx', hq⟩
    refine ⟨cx', dx, Upto.trans ?_ hq⟩
    rw [hp]
    cases r <;> rfl

/-! ## The compiler -/

/-- An integer which is in AX. -/
def IntAx (s : S) : Prop := s.type = vtInt ∨ s.type = vtInt ||| vtUnsigned

theorem IntAx.lval {s : S} (h : IntAx s) : lvalToRval s = .ok () s :=
  run_getS (run_pos (by rcases h with h | h <;> rw [h] <;> decide) rfl)

theorem indexAddr_none (s : S) (hs : Live s) (ht : IntAx s) (n : Nat) (h0 : n ≠ 0) (hn : n < 2 ^ 31) (hr : Room s (elemB s.regUse n).length) :
    indexAddr none n s = .ok () (put (took s) (elemB s.regUse n)) := by
  obtain ⟨h1, h2⟩ := hr.put
  obtain ⟨h2, h3⟩ := h2.put
  refine run_getS (run_neg (by rcases ht with h | h <;> rw [h] <;> decide) (run_bind ht.lval (run_getS (run_failIf ?_ ?_))))
  · rw [hs.push]
    rcases ht with h | h <;> rw [h] <;> decide
  refine run_bind (a := ()) (s1 := put s (scaleBytes n)) ((scale_raw n h0 hn s hs).trans (raw_put _ _ h1)) ?_
  have e := stored_put (put s (scaleBytes n)) (hs.put _) (by rw [(put_reg _ _).1]; exact h2)
  rw [(put_reg _ _).1, took_put] at e
  refine run_bind e ?_
  have hl : Live (put (put (took s) (scaleBytes n)) (storedB s.regUse)) := Live.put (Live.put (s := took s) ⟨hs.dead, hs.spAdj, hs.push⟩ _) _
  refine (hl.out_put ?_).trans ?_
  · unfold Room at h3 ⊢
    simp only [put_code] at h3 ⊢
    exact h3
  · rw [elemB, put_append, put_append]

theorem indexAddr_some (s : S) (hs : Live s) (ht : IntAx s) (n v : Nat) (h0 : n ≠ 0) (hn : n < 2 ^ 31) (hr : Room s (scaleBytes n ++ [0x05]).length) :
    indexAddr (some v) n s = emitGlobalRef v (put s (scaleBytes n ++ [0x05])) := by
  obtain ⟨h1, h2⟩ := hr.put
  refine run_getS (run_neg (by rcases ht with h | h <;> rw [h] <;> decide) (run_bind ht.lval (run_getS (run_failIf ?_ ?_))))
  · rw [hs.push]
    rcases ht with h | h <;> rw [h] <;> decide
  refine run_bind (a := ()) (s1 := put s (scaleBytes n)) ((scale_raw n h0 hn s hs).trans (raw_put _ _ h1)) ?_
  rw [put_append]
  exact run_bind ((hs.put _).out_put h2) rfl

/-- What is behind the choice of the address in an indexed expression. -/
theorem parseIndex_run (go : Task → A Int) (s s0 s1 s2 s3 s4 : S) (arr : Option Nat) (n : Nat) (h1 : getToken s = .ok () s0) (h2 : indexBase s0 = .ok arr s1) (h3 : sizeofCurrentType s1 = .ok n s1)
    (h4 : go' go .expr s1 = .ok () s2) (h5 : expect 0x5D s2 = .ok () s3) (hd : s3.dead = false) (h6 : indexAddr arr n s3 = .ok () s4) (hl : (s1.type ||| vtLval) &&& vtLocMask = 0) :
    parseIndex go s = .ok () { s4 with type := s1.type ||| vtLval, extra := s1.extra } := by
  unfold parseIndex
  refine run_bind h1 (run_bind h2 (run_bind h3 (run_getS (run_bind h4 (run_bind h5 (run_getS (run_neg (by rw [hd]; decide) (run_bind h6 (run_modS (run_modS ?_))))))))))
  have : failIf ((s1.type ||| vtLval) &&& vtLocMask != 0) { s4 with type := s1.type ||| vtLval, extra := s1.extra } = .ok () { s4 with type := s1.type ||| vtLval, extra := s1.extra } := by
    rw [hl]
    rfl
  exact this

theorem indexBase_ptr (s s1 : S) (hg : s.type &&& (vtBaseMask ||| vtLocMask) ≠ vtArray ||| vtLocGlob) (h1 : lvalToRval s = .ok () s1) (hp : s1.type &&& vtPtrMask ≠ 0) (hd : s1.dead = false) :
    indexBase s = .ok none { s1 with type := s1.type - vtPtr1, push := true } := by
  refine run_getS (run_neg hg (run_bind h1 (run_getS (run_failIf (beq_eq_false_iff_ne.2 hp) (run_modS ?_)))))
  exact run_neg (by rw [hd]; decide) (run_modS rfl)

theorem indexBase_arr (s : S) (hg : s.type &&& (vtBaseMask ||| vtLocMask) = vtArray ||| vtLocGlob) (k v : Nat) (hk : s.extra = k) (hk' : k < arrayMax) (hv : s.val = v) (hv' : v < varDeclMax) :
    indexBase s = .ok (some v) { s with type := (s.arrays.get k).type, extra := (s.arrays.get k).extra } := by
  refine run_getS (run_pos hg (run_bind (a := k) (s1 := s) ?_ (run_bind (a := v) (s1 := s) ?_ (run_modS (run_modS rfl)))))
  · unfold arrayAt
    refine run_ub (decide_eq_true ?_) ?_
    · rw [hk]; exact ⟨by omega, by exact_mod_cast hk'⟩
    · rw [hk]; rfl
  · unfold varAt
    refine run_ub (decide_eq_true ?_) ?_
    · rw [hv]; exact ⟨by omega, by exact_mod_cast hv'⟩
    · rw [hv]; rfl

theorem indexAddr_const (s : S) (hd : s.dead = false) (hsp : s.spAdj = 0) (hp : s.push = true) (ht : s.type = vtInt ||| vtLocLit) (n : Nat) (hm : -(2 ^ 31) < s.val * n ∧ s.val * n < 2 ^ 31)
    (hr : Room s (addBytes 0 (s.val * n)).length) : indexAddr none n s = .ok () (put { s with push := false } (addBytes 0 (s.val * n))) := by
  refine run_getS (run_pos ht (run_failIf (by rw [hp]; rfl) (run_modS (run_bind (a := s.val * n) (s1 := { s with push := false }) ?_ ?_))))
  · exact run_ub (decide_eq_true ⟨Int.le_of_lt hm.1, hm.2⟩) rfl
  · exact (addRegConst_raw 0 _ hm.1 { s with push := false } ⟨hd, hsp, rfl⟩).trans (raw_put _ _ hr)

theorem and_or_zero {a b c : Nat} (h1 : a &&& c = 0) (h2 : b &&& c = 0) : (a ||| b) &&& c = 0 := by
  rw [Nat.and_or_distrib_right, h1, h2]
  rfl

/-- A pointer in AX. -/
def PtrAx (ty : Nat) : Prop := ty &&& vtPtrMask ≠ 0 ∧ ty &&& vtLval = 0 ∧ ty &&& vtLocMask = 0 ∧ ty ≠ vtBool

theorem getVal_ptr (s : S) (h : PtrAx s.type) : getVal s = .ok () s :=
  run_getS (run_neg h.2.2.2 (run_bind (a := ()) (s1 := s) (run_getS (run_pos h.2.1 rfl)) (run_getS (run_neg (by rw [h.2.2.1]; decide) rfl))))

theorem getVal_ax (s : S) (h : IntAx s) : getVal s = .ok () s :=
  run_getS (run_neg (by rcases h with h | h <;> rw [h] <;> decide) (run_bind (a := ()) (s1 := s) h.lval (run_getS (run_neg (by rcases h with h | h <;> rw [h] <;> decide) rfl))))

theorem finishVar_ptr (s : S) (hs : Live s) (ht : IntAx s) (ty n : Nat) (hty : PtrAx ty) (h0 : n ≠ 0) (hn : n < 2 ^ 31) (hr : Room s (elemB s.regUse n).length) :
    finishVar 0x2B ty n s = .ok () (put { took s with type := ty } (elemB s.regUse n)) := by
  obtain ⟨h1, h2⟩ := hr.put
  obtain ⟨h2, h3⟩ := h2.put
  refine run_failIf (by rw [beq_eq_false_iff_ne.2 h0]; exact Bool.and_false _) (run_getS (run_neg (fun h => h.1 ⟨rfl, h0⟩) (run_pos ⟨rfl, h0⟩ ?_)))
  refine run_bind (getVal_ax s ht) (run_bind (a := ()) (s1 := put s (scaleBytes n)) ((scale_raw n h0 hn s hs).trans (raw_put _ _ h1)) (run_modS ?_))
  have e1 : { put s (scaleBytes n) with type := ty } = put { s with type := ty } (scaleBytes n) := put_type _ s ty s.val |> fun h => by
    rw [← h, (put_proj _ s).2.1.symm]
  rw [e1]
  have hl : Live ({ s with type := ty } : S) := ⟨hs.dead, hs.spAdj, hs.push⟩
  refine run_bind (getVal_ptr _ (by rw [(put_proj _ _).1]; exact hty)) (run_pos rfl ?_)
  have e := stored_put (put { s with type := ty } (scaleBytes n)) (hl.put _) (by
    rw [(put_reg _ _).1]
    unfold Room at h2 ⊢
    simp only [put_code] at h2 ⊢
    exact h2)
  rw [(put_reg _ _).1, took_put] at e
  refine run_bind e ?_
  have hl2 : Live (put (put (took { s with type := ty }) (scaleBytes n)) (storedB s.regUse)) := Live.put (Live.put (s := took { s with type := ty }) ⟨hs.dead, hs.spAdj, hs.push⟩ _) _
  refine run_getS ?_
  have hsim : ∀ u, getSimpleALU 0x2B u = some (0x01, 0) := by decide
  rw [hsim]
  refine (run_bind (a := ()) (hl2.out_put ?_) ?_)
  · unfold Room at h3 ⊢
    simp only [put_code] at h3 ⊢
    exact h3
  · rw [elemB, put_append, put_append]
    rfl

theorem int_base (s : S) (h : IntAx s) : s.type &&& vtBaseMask ≠ vtArray ∧ s.type ≠ vtLocLit ||| vtInt := by
  rcases h with h | h <;> rw [h] <;> decide

end SccIndex

namespace Props
open Prog Text Scc SccCode SccSize SccIndex I86

/-- **C40**, `p[i]` for a pointer. `s0` is the state behind `[`, `s1` the one with the pointer in AX (an array that is no global variable is turned into a pointer to its first element). The compiler reads the
index (`s2`) and `]` (`s3`), the index is an integer in AX. The code that follows adds the index times the size of what the pointer points to to the pointer, which was kept in BX or on the stack; the result has
the type pointed to. -/
theorem C40_index_pointer (go : Task → A Int) (s s0 s1 s2 s3 : Scc.S) (t : CT) (h1 : getToken s = .ok () s0) (hg : s0.type &&& (vtBaseMask ||| vtLocMask) ≠ vtArray ||| vtLocGlob) (h2 : lvalToRval s0 = .ok () s1)
    (hp : s1.type &&& vtPtrMask ≠ 0) (hd : s1.dead = false) (hloc : (s1.type - vtPtr1) &&& vtLocMask = 0) (hrep : Repr { s1 with type := s1.type - vtPtr1, push := true } (s1.type - vtPtr1) s1.extra t)
    (hsm : t.small sizeFuel) (h0 : t.size ≠ 0) (hb : t.size < 2 ^ 30) (h3 : go' go .expr { s1 with type := s1.type - vtPtr1, push := true } = .ok () s2) (h4 : expect 0x5D s2 = .ok () s3) (hl : Live s3) (ht : IntAx s3)
    (hr : Room s3 (elemB s3.regUse t.size).length) :
    ∃ s4, parseIndex go s = .ok () { s4 with type := (s1.type - vtPtr1) ||| vtLval, extra := s1.extra } ∧ Wrote (took s3) (elemB s3.regUse t.size) s4 ∧
      ∀ K : Contract, Code K (elemB s3.regUse t.size) fun c c' => ∃ cx dx, Upto { c with ax := (if s3.regUse then c.bx else c.rd16 c.ss c.sp) + c.ax * BitVec.ofNat 16 t.size, cx := cx, dx := dx, sp := if s3.regUse then c.sp else c.sp + 2 } c' := by
  have hb' : t.size < 2 ^ 31 := by omega
  have e1 := indexBase_ptr s0 s1 hg h2 hp hd
  have e2 := C40_sizeof _ t _ _ hrep hsm hb
  have e3 := indexAddr_none s3 hl ht t.size h0 hb' hr
  have hl' : ((s1.type - vtPtr1) ||| vtLval) &&& vtLocMask = 0 := and_or_zero hloc (by decide)
  exact ⟨_, parseIndex_run go s s0 { s1 with type := s1.type - vtPtr1, push := true } s2 s3 _ none t.size h1 e1 (run_getS e2) h3 h4 hl.dead e3 hl', put_wrote _ (took s3) hr, fun K => code_elem K _ _⟩

/-- **C40**, `a[i]` for a global array: the code multiplies the index by the size of the elements and adds the address of the array, which is the operand behind it (for what is written there see C36). -/
theorem C40_index_array (go : Task → A Int) (s s0 s2 s3 s4 : Scc.S) (t : CT) (k v : Nat) (h1 : getToken s = .ok () s0) (hg : s0.type &&& (vtBaseMask ||| vtLocMask) = vtArray ||| vtLocGlob) (hk : s0.extra = k)
    (hk' : k < arrayMax) (hv : s0.val = v) (hv' : v < varDeclMax) (hloc : (s0.arrays.get k).type &&& vtLocMask = 0)
    (hrep : Repr { s0 with type := (s0.arrays.get k).type, extra := (s0.arrays.get k).extra } (s0.arrays.get k).type (s0.arrays.get k).extra t)
    (hsm : t.small sizeFuel) (h0 : t.size ≠ 0) (hb : t.size < 2 ^ 30) (h3 : go' go .expr { s0 with type := (s0.arrays.get k).type, extra := (s0.arrays.get k).extra } = .ok () s2)
    (h4 : expect 0x5D s2 = .ok () s3) (hl : Live s3) (ht : IntAx s3) (hr : Room s3 (scaleBytes t.size ++ [0x05]).length) (h5 : emitGlobalRef v (put s3 (scaleBytes t.size ++ [0x05])) = .ok () s4) :
    parseIndex go s = .ok () { s4 with type := (s0.arrays.get k).type ||| vtLval, extra := (s0.arrays.get k).extra } ∧ Wrote s3 (scaleBytes t.size ++ [0x05]) (put s3 (scaleBytes t.size ++ [0x05])) ∧
      ∀ (K : Contract) (a : Int), Code K (scaleBytes t.size ++ [0x05, Scc.lo a, Scc.hi a]) fun c c' => ∃ cx dx, Upto { c with ax := BitVec.ofInt 16 a + c.ax * BitVec.ofNat 16 t.size, cx := cx, dx := dx } c' := by
  refine ⟨parseIndex_run go s s0 _ s2 s3 s4 (some v) t.size h1 (indexBase_arr s0 hg k v hk hk' hv hv') (run_getS (C40_sizeof _ t _ _ hrep hsm hb)) h3 h4 hl.dead
    ((indexAddr_some s3 hl ht t.size v h0 (by omega) hr).trans h5) (and_or_zero hloc (by decide)), put_wrote _ s3 hr, fun K a => ?_⟩
  refine code_append (code_scale K t.size) (code_addAx K a) (fun c c' ⟨_, _, h⟩ => ⟨h.mem, h.cs⟩) ?_
  rintro a1 b c ⟨cx, dx, hp⟩ hq
  refine ⟨cx, dx, Upto.trans ?_ hq⟩
  rw [hp, BitVec.add_comm]
  rfl

/-- **C40**, `p[k]` with a constant index. -/
theorem C40_index_const (s : Scc.S) (hd : s.dead = false) (hsp : s.spAdj = 0) (hp : s.push = true) (ht : s.type = vtInt ||| vtLocLit) (n : Nat) (hm : -(2 ^ 31) < s.val * n ∧ s.val * n < 2 ^ 31)
    (hr : Room s (addBytes 0 (s.val * n)).length) :
    ∃ s', indexAddr none n s = .ok () s' ∧ Wrote { s with push := false } (addBytes 0 (s.val * n)) s' ∧
      ∀ K : Contract, Code K (addBytes 0 (s.val * n)) fun c c' => Upto { c with ax := c.ax + BitVec.ofInt 16 (s.val * n) } c' :=
  ⟨_, indexAddr_const s hd hsp hp ht n hm hr, put_wrote _ { s with push := false } hr, fun K => SccCode.code_add K 0 _⟩

/-- **C40**, `p + i` for a pointer that is kept in BX or on the stack and an integer in AX: the integer times the size of what the pointer points to is added, the result has the type of the pointer. -/
theorem C40_pointer_var (s : Scc.S) (hl : Live s) (ht : IntAx s) (t : CT) (ty : Nat) (ex lv : Int) (hty : PtrAx ty) (h : Repr s (ty - vtPtr1) ex t) (hsm : t.small sizeFuel) (h0 : t.size ≠ 0) (hb : t.size < 2 ^ 30)
    (hr : Room s (elemB s.regUse t.size).length) :
    ∃ s1 s', finishBin 0x2B ty 0 ex lv s = .ok () s' ∧ Wrote s1 (elemB s.regUse t.size) s' ∧ s1.code = s.code ∧ s1.out = s.out ∧ s1.type = ty ∧ s1.extra = ex ∧
      ∀ K : Contract, Code K (elemB s.regUse t.size) fun c c' => ∃ cx dx, Upto { c with ax := (if s.regUse then c.bx else c.rd16 c.ss c.sp) + c.ax * BitVec.ofNat 16 t.size, cx := cx, dx := dx, sp := if s.regUse then c.sp else c.sp + 2 } c' := by
  let s0 : Scc.S := { s with extra := ex, isUnsigned := true }
  have e0 := finishVar_ptr s0 ⟨hl.dead, hl.spAdj, hl.push⟩ ht ty t.size hty h0 (by omega) hr
  refine ⟨{ took s0 with type := ty, lastZF := (put { took s0 with type := ty } (elemB s.regUse t.size)).code },
    { put { took s0 with type := ty } (elemB s.regUse t.size) with lastZF := (put { took s0 with type := ty } (elemB s.regUse t.size)).code }, ?_, ?_, rfl, rfl, rfl, rfl, fun K => code_elem K _ _⟩
  · unfold finishBin
    refine run_pos hty.1 (run_bind (C40_sizeof s t _ _ h hsm hb) (run_getS (run_neg (int_base s ht).1 (run_modS (run_pure ?_)))))
    refine run_getS (run_neg (int_base s ht).2 (run_neg (by decide) (run_bind (a := ()) e0 (run_neg (fun x => absurd x.1 (by decide)) rfl))))
  · obtain ⟨out, e, h1, h2⟩ := put_wrote (elemB s.regUse t.size) { took s0 with type := ty } hr
    generalize put { took s0 with type := ty } (elemB s.regUse t.size) = z at *
    exact ⟨out, congrArg (fun y : Scc.S => { y with lastZF := z.code }) e, h1, h2⟩

/-- **C40** is violated: `p - 1` is divided by the size, as the difference of two pointers is. -/
theorem C40_pointer_minus_violated : SccWit.result .real (asc "f(int*p){return p-1;}_start(){return f(100);}") = some 49 := by decide +kernel

/-- Programs with pointers that are compiled correctly. -/
example : SccWit.result .real (asc "f(int*p,x){return p+x;}_start(){return f(100,5);}") = some 110 := by decide +kernel
example : SccWit.result .real (asc "int a[5];f(x){a[x]=7;a[x+1]=8;return a[3]*10+a[4];}_start(){return f(3);}") = some 78 := by decide +kernel

end Props

/-! ## The hypotheses -/

namespace SccIndex
open Prog Text Scc SccCode SccSize I86

def stOf (r : Res S Unit) : S := match r with
  | .ok _ s => s
  | .err _ => init []
def isOk (r : Res S Unit) : Bool := match r with
  | .ok _ _ => true
  | .err _ => false
theorem ok_of {r : Res S Unit} (h : isOk r = true) : r = .ok () (stOf r) := by
  cases r with
  | ok => rfl
  | err => cases h

/-- A pointer to integers is in AX, and the text is `[`…`];`, where `…` stands for an expression that leaves an integer in AX and the pointer in BX. -/
def exI : S := { init [] with cur := 0x5D, inp := asc ";\n", tok := 0x5B, type := vtInt + vtPtr1 }
def exGo : Task → A Int := fun _ s => .ok 0 { s with type := vtInt, push := false, regUse := true }
def exI0 : S := stOf (getToken exI)
def exI2 : S := stOf (go' exGo .expr { exI0 with type := exI0.type - vtPtr1, push := true })
def exI3 : S := stOf (expect 0x5D exI2)

end SccIndex

namespace Props
open Prog Text Scc SccCode SccSize SccIndex I86

/-- The index is multiplied by 2. -/
example : ∃ s4, parseIndex exGo exI = .ok () { s4 with type := vtInt ||| vtLval, extra := 0 } ∧ Wrote (took exI3) [0xD1, 0xE0, 0x01, 0xD8] s4 := by
  have ht : exI0.type = vtInt + vtPtr1 := by decide +kernel
  have hx : exI0.extra = 0 := by decide +kernel
  obtain ⟨s4, h1, h2, _⟩ := C40_index_pointer exGo exI exI0 exI0 exI2 exI3 .int (ok_of (by decide +kernel)) (by decide +kernel) (run_getS (run_pos (by decide +kernel) rfl)) (by decide +kernel) (by decide +kernel)
    (by decide +kernel) (by rw [ht]; exact .int (by decide) (by decide)) trivial (by decide) (by decide) (ok_of (by decide +kernel)) (ok_of (by decide +kernel))
    ⟨by decide +kernel, by decide +kernel, by decide +kernel⟩ (.inl (by decide +kernel)) ⟨by decide +kernel, by decide +kernel⟩
  rw [ht, hx] at h1
  have hb : elemB exI3.regUse CT.int.size = [0xD1, 0xE0, 0x01, 0xD8] := by decide +kernel
  rw [hb] at h2
  exact ⟨s4, h1, h2⟩

end Props
