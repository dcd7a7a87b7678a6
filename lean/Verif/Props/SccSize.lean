import Verif.Props.SccConst
/-!
# Sizes and the layout of structures in `scc.c` (C40)
-/
namespace SccSize
open Prog Scc SccCode

/-! ## Specification -/

mutual
/-- The types of the language as far as sizes matter. -/
inductive CT
  | char | int | ptr
  | arr (n : Nat) (t : CT)
  | struct (ms : Mems)
  | union (ms : Mems)
/-- The members of a structure: identifier and type. -/
inductive Mems
  | nil
  | cons (id : Int) (t : CT) (ms : Mems)
end

mutual
def CT.size : CT → Nat
  | .char => 1
  | .int => 2
  | .ptr => 2
  | .arr n t => n * t.size
  | .struct ms => ms.sum
  | .union ms => ms.max
def Mems.sum : Mems → Nat
  | .nil => 0
  | .cons _ t ms => t.size + ms.sum
def Mems.max : Mems → Nat
  | .nil => 0
  | .cons _ t ms => Nat.max t.size ms.max
end

def Mems.toList : Mems → List (Int × CT)
  | .nil => []
  | .cons id t ms => (id, t) :: ms.toList

/-- The offset of the member number `i`: the sizes of the members before it. -/
def Mems.offset (ms : Mems) (i : Nat) : Nat := ((ms.toList.take i).map (·.2.size)).sum

mutual
/-- The type fits a computation of depth `n`, and no structure has 40 members or more (the table of the code has 32). -/
def CT.small : Nat → CT → Prop
  | 0, _ => False
  | n + 1, .arr _ t => t.small n ∧ True
  | n + 1, .struct ms => ms.toList.length < 40 ∧ ms.small n
  | n + 1, .union ms => ms.toList.length < 40 ∧ ms.small n
  | _ + 1, _ => True
def Mems.small : Nat → Mems → Prop
  | _, .nil => True
  | n, .cons _ t ms => t.small n ∧ ms.small n
end

/-! ## How the tables of the compiler represent types -/

mutual
inductive Repr (s : S) : Nat → Int → CT → Prop
  | ptr {ty : Nat} {ex : Int} (h : ty &&& (vtPtrMask ||| vtFunPtr) ≠ 0) : Repr s ty ex .ptr
  | int {ty : Nat} {ex : Int} (h : ty &&& (vtPtrMask ||| vtFunPtr) = 0) (hb : ty &&& vtBaseMask = vtInt) : Repr s ty ex .int
  | char {ty : Nat} {ex : Int} (h : ty &&& (vtPtrMask ||| vtFunPtr) = 0) (hb : ty &&& vtBaseMask = vtChar) : Repr s ty ex .char
  | arr {ty : Nat} {k : Nat} {t : CT} (h : ty &&& (vtPtrMask ||| vtFunPtr) = 0) (hb : ty &&& vtBaseMask = vtArray) (hk : k < arrayMax)
      (h0 : (s.arrays.get k).bound ≠ 0) (ht : Repr s (s.arrays.get k).type (s.arrays.get k).extra t) :
      Repr s ty k (.arr (s.arrays.get k).bound t)
  | struct {ty : Nat} {k : Nat} {ms : Mems} (h : ty &&& (vtPtrMask ||| vtFunPtr) = 0) (hb : ty &&& vtBaseMask = vtStruct) (hk : k < structMax)
      (hu : (s.structs.get k).id &&& 0x8000 = 0) (hm : ReprMems s (s.structs.get k).members ms) : Repr s ty k (.struct ms)
  | union {ty : Nat} {k : Nat} {ms : Mems} (h : ty &&& (vtPtrMask ||| vtFunPtr) = 0) (hb : ty &&& vtBaseMask = vtStruct) (hk : k < structMax)
      (hu : (s.structs.get k).id &&& 0x8000 ≠ 0) (hm : ReprMems s (s.structs.get k).members ms) : Repr s ty k (.union ms)
inductive ReprMems (s : S) : Option Nat → Mems → Prop
  | nil : ReprMems s none .nil
  | cons {k : Nat} {t : CT} {ms : Mems} (ht : Repr s (s.members.get k).type (s.members.get k).extra t)
      (hm : ReprMems s (s.members.get k).next ms) : ReprMems s (some k) (.cons (s.members.get k).id t ms)
end

/-! ## The computation -/

theorem sizeMembers_spec {s : S} {n : Nat} (ih : ∀ (t : CT) (ty : Nat) (ex : Int), Repr s ty ex t → t.small n → t.size < 2 ^ 30 →
      sizeofType n ty ex s = .ok t.size s) (u : Bool) (ms : Mems) :
    ∀ (o : Option Nat) (size f : Nat), ReprMems s o ms → ms.small n → ms.toList.length < f →
      (if u then Nat.max size ms.max else size + ms.sum) < 2 ^ 30 →
      sizeMembers (sizeofType n) u f o size s = .ok (if u then Nat.max size ms.max else size + ms.sum) s := by
  induction ms using Mems.rec (motive_1 := fun _ => True) with
  | nil =>
    intro o size f hr _ hf _
    cases hr
    cases f with
    | zero => simp at hf
    | succ f =>
      show Res.ok size s = _
      cases u <;> simp [Mems.max, Mems.sum]
  | cons id t ms _ ihm =>
    intro o size f hr hs hf hsz
    cases hr with
    | cons ht hm =>
    rename_i k
    cases f with
    | zero => simp at hf
    | succ f =>
      have e : (if u then Nat.max (if u then Nat.max size t.size else size + t.size) ms.max else (if u then Nat.max size t.size else size + t.size) + ms.sum)
          = if u then Nat.max size (Mems.cons (s.members.get k).id t ms).max else size + (Mems.cons (s.members.get k).id t ms).sum := by
        cases u
        · simp only [Bool.false_eq_true, if_false, Mems.sum, Nat.add_assoc]
        · simp only [if_true, Mems.max]
          exact Nat.max_assoc ..
      have hb : size < 2 ^ 30 ∧ t.size < 2 ^ 30 := by
        cases u
        · simp only [Bool.false_eq_true, if_false, Mems.sum] at hsz; omega
        · simp only [if_true, Mems.max] at hsz
          have h1 := Nat.le_max_left size (Nat.max t.size ms.max)
          have h2 := Nat.le_max_right size (Nat.max t.size ms.max)
          have h3 := Nat.le_max_left t.size ms.max
          exact ⟨Nat.lt_of_le_of_lt h1 hsz, Nat.lt_of_le_of_lt (Nat.le_trans h3 h2) hsz⟩
      refine run_getS (run_bind (ih t _ _ ht hs.1 hb.2) (run_ub (decide_eq_true (by omega)) ?_))
      rw [← e] at hsz ⊢
      exact ihm _ _ f hm hs.2 (by simpa [Mems.toList] using hf) hsz
  | _ => trivial

theorem sizeof_spec {s : S} (n : Nat) : ∀ (t : CT) (ty : Nat) (ex : Int), Repr s ty ex t → t.small n → t.size < 2 ^ 30 →
    sizeofType n ty ex s = .ok t.size s := by
  induction n with
  | zero =>
    intro t ty ex _ hs
    cases t <;> simp [CT.small] at hs
  | succ n ih =>
    intro t ty ex hr hs hsz
    unfold sizeofType
    cases hr with
    | ptr h => exact run_pos h rfl
    | int h hb => exact run_neg (by simpa using h) (run_pos hb rfl)
    | char h hb => exact run_neg (by simpa using h) (run_neg (by rw [hb]; decide) (run_pos hb rfl))
    | arr h hb hk h0 ht =>
      rename_i k t
      refine run_neg (by simpa using h) (run_neg (by rw [hb]; decide) (run_neg (by rw [hb]; decide) (run_pos hb ?_)))
      have h1 : t.size ≤ (s.arrays.get k).bound * t.size := Nat.le_mul_of_pos_left _ (Nat.pos_of_ne_zero h0)
      simp only [CT.size] at hsz
      simp only [CT.small] at hs
      refine run_bind (a := k) (s1 := s) (run_ub (decide_eq_true (by omega)) rfl) (run_getS ?_)
      refine run_failIf ?_ (run_bind (ih t _ _ ht hs.1 (by omega)) (run_ub (decide_eq_true (by omega)) rfl))
      simpa using h0
    | struct h hb hk hu hm =>
      rename_i k ms
      refine run_neg (by simpa using h) (run_neg (by rw [hb]; decide) (run_neg (by rw [hb]; decide) (run_neg (by rw [hb]; decide) (run_pos hb ?_))))
      simp only [CT.small] at hs
      refine run_ub (decide_eq_true (by omega)) (run_getS ?_)
      have := sizeMembers_spec ih false ms _ 0 40 hm hs.2 hs.1 (by simpa [CT.size] using hsz)
      simp only [Int.toNat_natCast, hu]
      simpa [CT.size] using this
    | union h hb hk hu hm =>
      rename_i k ms
      refine run_neg (by simpa using h) (run_neg (by rw [hb]; decide) (run_neg (by rw [hb]; decide) (run_neg (by rw [hb]; decide) (run_pos hb ?_))))
      simp only [CT.small] at hs
      refine run_ub (decide_eq_true (by omega)) (run_getS ?_)
      have := sizeMembers_spec ih true ms _ 0 40 hm hs.2 hs.1 (by simpa [CT.size] using hsz)
      have hb : ((s.structs.get k).id &&& 0x8000 != 0) = true := by simpa using hu
      simp only [Int.toNat_natCast, hb]
      simpa [CT.size] using this

/-! ## Members -/

theorem sum_le_of_mem {l : List Nat} {i : Nat} (h : i < l.length) : (l.take i).sum + l[i] ≤ l.sum := by
  induction l generalizing i with
  | nil => simp at h
  | cons a l ih =>
    cases i with
    | zero => simp
    | succ i =>
      have := ih (i := i) (by simpa using h)
      simp only [List.take_succ_cons, List.sum_cons, List.getElem_cons_succ]
      omega

theorem Mems.sum_eq (ms : Mems) : ms.sum = (ms.toList.map (·.2.size)).sum := by
  induction ms using Mems.rec (motive_1 := fun _ => True) with
  | nil => rfl
  | cons id t ms _ ih => simp only [Mems.sum, Mems.toList, List.map_cons, List.sum_cons, ih]
  | _ => trivial

theorem Mems.le_max (ms : Mems) (i : Nat) (h : i < ms.toList.length) : (ms.toList[i]).2.size ≤ ms.max := by
  induction ms using Mems.rec (motive_1 := fun _ => True) generalizing i with
  | nil => simp [Mems.toList] at h
  | cons id t ms _ ih =>
    cases i with
    | zero => exact Nat.le_max_left ..
    | succ i => exact Nat.le_trans (ih i (by simpa [Mems.toList] using h)) (Nat.le_max_right ..)
  | _ => trivial

theorem findMember_spec {s : S} (id : Nat) (ms : Mems) : ∀ (o : Option Nat) (off f : Nat) (i : Nat) (hi : i < ms.toList.length),
    ReprMems s o ms → ms.small sizeFuel → ms.toList.length < f → ms.sum < 2 ^ 30 → (ms.toList[i]).1 = id →
    (∀ j, j < i → (ms.toList[j]?.map (·.1)) ≠ some (id : Int)) →
    ∃ m, findMember id f o off s = .ok (m, off + ms.offset i) s ∧ m.id = id ∧ Repr s m.type m.extra (ms.toList[i]).2 := by
  induction ms using Mems.rec (motive_1 := fun _ => True) with
  | nil => intro o off f i hi; simp [Mems.toList] at hi
  | cons mid t ms _ ih =>
    intro o off f i hi hr hs hf hsz hid hfirst
    cases hr with
    | cons ht hm =>
    rename_i k
    simp only [Mems.sum] at hsz
    cases f with
    | zero => simp at hf
    | succ f =>
      cases i with
      | zero => exact ⟨_, run_getS (run_pos hid (by simp [Mems.offset]; rfl)), hid, ht⟩
      | succ i =>
        obtain ⟨m, e, h1, h2⟩ := ih _ (off + t.size) f i (by simpa [Mems.toList] using hi) hm hs.2 (by simpa [Mems.toList] using hf) (by omega) hid
          fun j hj => hfirst (j + 1) (by omega)
        refine ⟨m, run_getS (run_neg ?_ (run_bind (sizeof_spec _ t _ _ ht hs.1 (by omega)) (e.trans ?_))), h1, h2⟩
        · have := hfirst 0 (by omega)
          simpa [Mems.toList] using this
        · simp only [Mems.offset, Mems.toList, List.take_succ_cons, List.map_cons, List.sum_cons, Nat.add_assoc]
  | _ => trivial

end SccSize

namespace Props
open SccSize

/-- C40: the size the compiler computes for a type is the size of the type. -/
theorem C40_sizeof (s : Scc.S) (t : CT) (ty : Nat) (ex : Int) (h : Repr s ty ex t) (hs : t.small Scc.sizeFuel) (hb : t.size < 2 ^ 30) :
    Scc.sizeofType Scc.sizeFuel ty ex s = .ok t.size s := sizeof_spec _ t ty ex h hs hb

/-- C40: the member of a structure found for an identifier is the first one with it, it is at the offset given by the members before it,
and has its declared type. -/
theorem C40_member (s : Scc.S) (ms : Mems) (o : Option Nat) (h : ReprMems s o ms) (hs : ms.small Scc.sizeFuel)
    (hl : ms.toList.length < 40) (hb : ms.sum < 2 ^ 30) (id i : Nat) (hi : i < ms.toList.length) (hid : (ms.toList[i]).1 = id)
    (hfirst : ∀ j, j < i → (ms.toList[j]?.map (·.1)) ≠ some (id : Int)) :
    ∃ m, Scc.findMember id 40 o 0 s = .ok (m, ms.offset i) s ∧ m.id = id ∧ Repr s m.type m.extra (ms.toList[i]).2 := by
  have := findMember_spec id ms o 0 40 i hi h hs hl hb hid hfirst
  simpa using this

/-- C40: these offsets are in the order of the members, members do not overlap, and all lie inside the structure. -/
theorem C40_layout (ms : Mems) (i : Nat) (hi : i < ms.toList.length) :
    ms.offset i + (ms.toList[i]).2.size ≤ (CT.struct ms).size ∧
    ∀ j, j < ms.toList.length → i < j → ms.offset i + (ms.toList[i]).2.size ≤ ms.offset j := by
  have hsum : ∀ k (hk : k ≤ ms.toList.length), i < k → ms.offset i + (ms.toList[i]).2.size ≤ ((ms.toList.take k).map (·.2.size)).sum := by
    intro k hk hik
    have := sum_le_of_mem (l := (ms.toList.take k).map (·.2.size)) (i := i) (by simp; omega)
    rw [← List.map_take, List.take_take, Nat.min_eq_left (Nat.le_of_lt hik)] at this
    simpa [Mems.offset] using this
  refine ⟨?_, fun j hj hij => hsum j (Nat.le_of_lt hj) hij⟩
  have := hsum ms.toList.length (Nat.le_refl _) hi
  rw [List.take_length] at this
  simpa [CT.size, Mems.sum_eq] using this

/-- C40: a member of a local structure variable at `[BP + Val]` is at its offset from there; all members of a union are at its start
and fit into it. -/
theorem C40_access (s : Scc.S) (off : Nat) :
    Scc.memberAddr off Scc.vtLocOff false s = .ok Scc.vtLocOff { s with val := s.val + off } ∧
    Scc.memberAddr off Scc.vtLocOff true s = .ok Scc.vtLocOff s ∧
    ∀ (ms : Mems) (i : Nat) (hi : i < ms.toList.length), (ms.toList[i]).2.size ≤ (CT.union ms).size := by
  refine ⟨?_, ?_, fun ms i hi => Mems.le_max ms i hi⟩
  · by_cases h : off = 0
    · subst h
      refine (Prog.run_neg (by simp) rfl).trans ?_
      simp; rfl
    · exact Prog.run_pos ⟨h, rfl⟩ rfl
  · exact Prog.run_neg (by simp) rfl

/-- C40: `p + k` for a pointer in AX (its push still pending) and a constant `k` adds `k` times the size of what `p` points to. -/
theorem C40_pointer_const (s : Scc.S) (hd : s.dead = false) (hsp : s.spAdj = 0) (hp : s.push = true) (hk : s.type = Scc.vtLocLit ||| Scc.vtInt)
    (t : CT) (ty : Nat) (ex lv : Int) (hty : ty &&& Scc.vtPtrMask ≠ 0) (h : Repr s (ty - Scc.vtPtr1) ex t) (hs : t.small Scc.sizeFuel)
    (hb : t.size < 2 ^ 30) (hm : -(2 ^ 31) < s.val * t.size ∧ s.val * t.size < 2 ^ 31) :
    ∃ bs, (SccCode.Room s bs.length → ∃ s1 s', Scc.finishBin 0x2B ty 0 ex lv s = .ok () s' ∧ SccCode.Wrote s1 bs s' ∧
        s1.code = s.code ∧ s1.out = s.out ∧ s1.type = ty) ∧
      ∀ K : I86.Contract, SccCode.Code K bs fun c c' => SccCode.Upto { c with ax := c.ax + BitVec.ofInt 16 (s.val * t.size) } c' := by
  refine ⟨SccCode.addBytes 0 (s.val * t.size), fun hr => ?_, fun K => SccCode.code_add K 0 _⟩
  let s0 : Scc.S := { s with extra := ex, isUnsigned := true, push := false, type := ty, val := s.val * t.size }
  have hl : SccCode.Live s0 := ⟨hd, hsp, rfl⟩
  have e0 : Scc.doRhsConstBinOp 0x2B s0 = .ok () (SccCode.put s0 (SccCode.addBytes 0 (s.val * t.size))) := by
    refine Prog.run_getS (Prog.run_pos rfl ((SccCode.addRegConst_raw 0 _ hm.1 s0 hl).trans (SccCode.raw_put _ _ hr)))
  refine ⟨{ s0 with lastZF := (SccCode.put s0 (SccCode.addBytes 0 (s.val * t.size))).code },
    { SccCode.put s0 (SccCode.addBytes 0 (s.val * t.size)) with lastZF := (SccCode.put s0 (SccCode.addBytes 0 (s.val * t.size))).code },
    ?_, ?_, rfl, rfl, rfl⟩
  · unfold Scc.finishBin
    refine Prog.run_pos hty (Prog.run_bind (C40_sizeof s t _ _ h hs hb) (Prog.run_getS ?_))
    refine Prog.run_neg (by rw [hk]; decide) ?_
    refine Prog.run_modS (Prog.run_pure ?_)
    refine Prog.run_getS (Prog.run_pos hk (SccCode.run_failIf (by simp [hp]) (Prog.run_modS (Prog.run_modS (Prog.run_pos hty ?_)))))
    refine Prog.run_bind (a := s.val * t.size) (Prog.run_ub (decide_eq_true ⟨Int.le_of_lt hm.1, hm.2⟩) rfl) (Prog.run_modS (Prog.run_modS ?_))
    exact Prog.run_bind (a := ()) e0 (Prog.run_neg (fun x => absurd x.1 (by decide)) rfl)
  · obtain ⟨out, e, h1, h2⟩ := SccCode.put_wrote (SccCode.addBytes 0 (s.val * t.size)) s0 hr
    generalize SccCode.put s0 (SccCode.addBytes 0 (s.val * t.size)) = z at *
    exact ⟨out, congrArg (fun y : Scc.S => { y with lastZF := z.code }) e, h1, h2⟩

/-- The tables for `struct { char a; int b[3]; union { int x; char *y; } u; }`, its size and the offset of `u`. -/
def exS : Scc.S :=
  { Scc.init [] with
    members := ((((Scc.init []).members.set 0 ⟨40, Scc.vtChar, 0, some 1⟩).set 1 ⟨41, Scc.vtArray, 0, some 4⟩).set 2 ⟨42, Scc.vtInt, 0, some 3⟩).set 3
      ⟨43, Scc.vtChar + Scc.vtPtr1, 0, none⟩ |>.set 4 ⟨44, Scc.vtStruct, 1, none⟩
    structs := ((Scc.init []).structs.set 0 ⟨30, some 0⟩).set 1 ⟨0x8000 + 31, some 2⟩
    arrays := (Scc.init []).arrays.set 0 ⟨3, Scc.vtInt, 0⟩ }
def exMs : Mems := .cons 40 .char (.cons 41 (.arr 3 .int) (.cons 44 (.union (.cons 42 .int (.cons 43 .ptr .nil))) .nil))
example : Repr exS Scc.vtStruct (0 : Nat) (.struct exMs) :=
  .struct (k := 0) (by decide) (by decide) (by decide) (by decide +kernel)
    (.cons (k := 0) (.char (by decide +kernel) (by decide +kernel))
      (.cons (k := 1) (.arr (k := 0) (by decide +kernel) (by decide +kernel) (by decide) (by decide +kernel) (.int (by decide +kernel) (by decide +kernel)))
        (.cons (k := 4) (.union (k := 1) (by decide +kernel) (by decide +kernel) (by decide) (by decide +kernel)
          (.cons (k := 2) (.int (by decide +kernel) (by decide +kernel)) (.cons (k := 3) (.ptr (by decide +kernel)) .nil))) .nil)))
example : (CT.struct exMs).size = 9 ∧ exMs.offset 2 = 7 ∧ exMs.toList.length = 3 := by decide
example : Scc.sizeofType Scc.sizeFuel Scc.vtStruct 0 exS = .ok 9 exS := by
  refine C40_sizeof exS (.struct exMs) _ _ ?_ ?_ (by decide)
  · exact .struct (k := 0) (by decide) (by decide) (by decide) (by decide +kernel)
      (.cons (k := 0) (.char (by decide +kernel) (by decide +kernel))
        (.cons (k := 1) (.arr (k := 0) (by decide +kernel) (by decide +kernel) (by decide) (by decide +kernel) (.int (by decide +kernel) (by decide +kernel)))
          (.cons (k := 4) (.union (k := 1) (by decide +kernel) (by decide +kernel) (by decide) (by decide +kernel)
            (.cons (k := 2) (.int (by decide +kernel) (by decide +kernel)) (.cons (k := 3) (.ptr (by decide +kernel)) .nil))) .nil)))
  · simp [exMs, CT.small, Mems.small, Mems.toList]

end Props
