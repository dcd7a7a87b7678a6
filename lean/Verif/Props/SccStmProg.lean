import Verif.Props.SccStmTop
/-!
# Compiled programs (C51): the whole program
-/
namespace SccTop
open Prog Text Scc SccCode SccGen SccStm SccHead SccLayout SccLoc Props.SccLex Props.SccIds

/-! ## The first token of a definition -/

/-- The first token of the functions. -/
def first : List Fn → Tk
  | [] => .sym 0 precStop
  | f :: _ => .id (if f.void then 29 else 16)

/-- The text begins with the token `u`, then comes `e`. -/
def Nx (names : List (List Byte)) (text : List Byte) (u : Tk) (e : List Byte) : Prop :=
  ∀ B : Base, Ids B.s names → B.s.idPos = used names → B.fin = (· = e.headD 0 :: e.tail) → Scan B text [u]

/-- The rest of the definitions behind the first token. -/
def Open (names : List (List Byte)) (e : List Byte) (names' : List (List Byte)) : List Fn → Prop
  | [] => names' = names ∧ e = []
  | f :: fs => ∃ r mid rest d cl ts, HeadText f.name r f.pars e ∧ LocText mid (f.hd names) f.locs r ∧ ShowsS true d false cl f.body ts ∧ d + 3 ≤ scopeMax ∧ SrcTo (f.add names) rest mid (ts ++ [rbr]) ∧
    Defs (f.add names) rest fs names'

theorem Fn.ty_word (f : Fn) : Word f.ty := by
  unfold Fn.ty
  split
  · exact ⟨_, _, rfl, by decide, by decide⟩
  · exact word_int

theorem Fn.ty_at (f : Fn) {names : List (List Byte)} (h : Kw names) : names[if f.void then 29 else 16]? = some f.ty := by
  obtain ⟨l, rfl⟩ := h
  unfold Fn.ty
  cases f.void <;> rfl

theorem HeadText.ne {f r text : List Byte} {ps : List (List Byte)} (h : HeadText f r ps text) : text ≠ [] := by
  cases h with
  | zero _ _ _ _ hf _ => simp [Word.ne hf]
  | some _ _ _ _ hf _ _ _ => simp [Word.ne hf]

theorem SrcTo.ne {names : List (List Byte)} {e l : List Byte} {ts : List Tk} (h : SrcTo names e l ts) (ht : ts ≠ []) : l ≠ [] := by
  cases h with
  | nil => exact absurd rfl ht
  | num n _ _ _ _ => 
    intro hh
    have := List.append_eq_nil_iff.1 hh
    have := (List.append_eq_nil_iff.1 this.1).2
    exact absurd this (by unfold decimal; simp)
  | id _ _ hi _ _ _ _ => simp [Word.ne hi]
  | sym _ _ _ hr _ => simp [hr]

theorem Defs.open {names names' : List (List Byte)} {text : List Byte} {fs : List Fn} (h : Defs names text fs names') (hkw : Kw names) (hroom : RoomI names) :
    ∃ e, Nx names text (first fs) e ∧ Open names e names' fs := by
  cases h with
  | nil hg => exact ⟨[], fun B _ _ hf => .cons _ [] (fun s _ => end_at hg s) (.nil _ (by rw [hf])), rfl, rfl⟩
  | @fn _ _ g head r rest f fs d cl ts mid hg ha hh hl hs hd hr h =>
    refine ⟨head, fun B hi hp hf => .cons _ head (fun s hs => ?_) (.nil _ (by rw [hf])), r, mid, rest, d, cl, ts, hh, hl, hs, hd, hr, h⟩
    have e1 : s.idHash = B.s.idHash := congrArg (·.1) hs
    have e2 : s.idText = B.s.idText := congrArg (·.2.1) hs
    have e3 : s.idCount = B.s.idCount := congrArg (·.2.2.1) hs
    have e4 : s.idPos = B.s.idPos := congrArg (·.2.2.2) hs
    refine getToken_known s names g f.ty head ?_ hg f.ty_word (fun c hc => (ha c hc).1) (HeadText.ne hh) ?_ (f.ty_at hkw)
    · unfold Ids; rw [e1, e2, e3]; exact hi
    · rw [e4, hp]
      have := hroom.2 f.ty (List.mem_of_getElem? (f.ty_at hkw))
      omega

/-! ## All definitions -/

/-- A line of the map file. -/
def line (a : Nat) (w : List Byte) : List Byte := cvtHex a ++ asc " " ++ w ++ [0x0D, 0x0A]

/-- The functions are in the output. -/
structure At (names : List (List Byte)) (A : Nat → Nat) (m : Mem 15) (E : Nat) (f : Fn) (p : Nat × Nat) : Prop where
  placed : Placed names A f m p.1 p.2
  addr : A (num names f.name) = p.1
  end_le : p.2 ≤ E
  jumps : f.name = wStart → Jumps m p.1

theorem Fn.xs_pre (f : Fn) {names names' : List (List Byte)} (h : names <+: names') (hm : ∀ p ∈ f.pars, p ∈ names) : f.xs names' = f.xs names :=
  List.map_congr_left fun p hp => num_pre h (hm p hp)

theorem Fn.ys_pre (f : Fn) {names names' : List (List Byte)} (h : names <+: names') (hm : ∀ p ∈ f.locs, p.1 ∈ names) : f.ys names' = f.ys names :=
  List.map_congr_left fun p hp => num_pre h (hm p hp)

theorem Fn.nums_pre (f : Fn) {names names' : List (List Byte)} (h : names <+: names') (hm : ∀ p ∈ f.locs, p.1 ∈ names) : nums names' f.locs = nums names f.locs :=
  List.map_congr_left fun p hp => by rw [num_pre h (hm p hp)]

theorem defs_pre {names names' : List (List Byte)} {text : List Byte} {fs : List Fn} (h : Defs names text fs names') : names <+: names' := by
  induction h with
  | nil => exact List.prefix_refl _
  | fn _ _ _ _ _ _ _ _ ih => exact (fn_pre _ _).trans ih

theorem Placed.lt {names : List (List Byte)} {A : Nat → Nat} {f : Fn} {out : Mem 15} {a e : Nat} (h : Placed names A f out a e) : a < e := by
  obtain ⟨s8, cs, zs, l', rl, R, rfl, _, hi, hm, _⟩ := h
  have : Item.raw [0x55] ∈ cs.map Chunk.item := by rw [hm]; simp [funItemsL]
  obtain ⟨⟨it, p, n⟩, hc, rfl⟩ := List.mem_map.1 this
  have h1 := hi.tile.mem hc
  have h2 := (hi.plain _ hc).1
  simp only [List.length_cons, List.length_nil] at h1 h2
  omega

theorem Placed.ge {names : List (List Byte)} {A : Nat → Nat} {f : Fn} {out : Mem 15} {a e : Nat} (h : Placed names A f out a e) : codeStart ≤ a := by
  obtain ⟨s8, cs, zs, l', rl, R, _, _, hi, _⟩ := h
  exact hi.ge

theorem defs_mem {names names' : List (List Byte)} {text : List Byte} {fs : List Fn} (h : Defs names text fs names') : ∀ f ∈ fs, ∀ p ∈ f.pars, p ∈ names' := by
  induction h with
  | nil => simp
  | @fn _ _ _ _ _ _ f _ _ _ _ _ _ _ _ _ _ _ _ h ih =>
    intro g hg p hp
    rcases List.mem_cons.1 hg with rfl | hg
    · exact (defs_pre h).subset (par_mem g _ p hp)
    · exact ih g hg p hp

/-- The size of the code of the functions. -/
def size : List Fn → Nat
  | [] => 0
  | f :: fs => szL f.locs + sz f.body + 11 + size fs

theorem defs_ok {names' : List (List Byte)} {m : Nat} (hroom : RoomI names') : ∀ (fs : List Fn) {names dec vis : List (List Byte)} {A : Nat → Nat} {st : Bool} {s : S} {e : List Byte}, Top names dec st s → Vis names dec vis A s → wStart ∈ dec →
    Open names e names' fs → s.tok = (first fs).tok → s.cur :: s.inp = e.headD 0 :: e.tail → Fines names' m vis fs → (fs.map Fn.name).Nodup →
    (∀ f ∈ fs, f.name ∉ dec ∨ f.name = wStart ∧ st = false) → (∀ f ∈ fs, dec.length + fs.length + f.locs.length + globalReserve + argsMax ≤ varDeclMax) → s.code + size fs ≤ codeStart + outputMax →
    ∃ s' ad dec' A', (∃ N, ∀ n, N ≤ n → ∀ k, fs.length < k → externals n k s = .ok () s') ∧ Top names' dec' (st || decide (wStart ∈ fs.map Fn.name)) s' ∧ dec'.length ≤ dec.length + fs.length ∧ s'.code ≤ s.code + size fs ∧
      List.Forall₂ (At names' A' s'.out s'.code) fs ad ∧ (∀ x, (∀ g ∈ fs, num names' g.name ≠ x) → A' x = A x) ∧ (∀ i, codeStart + i < s.code → st = true ∨ 5 ≤ i → codeStart + i < s'.code ∧ s'.out.get i = s.out.get i) ∧
      s'.map = s.map ++ ((List.zipWith (fun f p => line p.1 f.name) fs ad).flatten).toArray
  | [], names, dec, vis, A, st, s, e, T, V, hs, ho, htok, htext, hfine, hnd, hnew, hvars, hsz => by
    obtain ⟨rfl, rfl⟩ := ho
    refine ⟨s, [], dec, A, ⟨0, fun n _ k hk => ?_⟩, by simpa using T, Nat.le_refl _, by simp [size], .nil, fun _ _ => rfl, fun i h _ => ⟨h, rfl⟩, by simp⟩
    obtain ⟨k, rfl⟩ : ∃ k', k = k' + 1 := ⟨k - 1, by simp at hk; omega⟩
    exact run_getS (run_pos htok rfl)
  | f :: fs, names, dec, vis, A, st, s, e, T, V, hs, ho, htok, htext, hfine, hnd, hnew, hvars, hsz => by
    obtain ⟨r, mid, rest, d, cl, ts, hh, hlt, hsh, hd, hr, hdefs⟩ := ho
    have hpre : f.add names <+: names' := defs_pre hdefs
    have hroom1 := hroom.pre hpre
    obtain ⟨e2, hnx, hop⟩ := hdefs.open (T.kw.trans (fn_pre f names)) hroom1
    have hxs : f.xs names' = f.xs (f.add names) := f.xs_pre hpre (par_mem f names)
    have hys : f.ys names' = f.ys (f.add names) := f.ys_pre hpre (loc_mem f names)
    obtain ⟨F, hfine⟩ := hfine
    have hnd' := List.nodup_cons.1 hnd
    have hvm : ∀ w ∈ f.vis ++ vis, w ∈ f.add names ∧ ∀ g ∈ fs, w ≠ g.name := by
      intro w hw
      rcases List.mem_append.1 hw with h | h
      · unfold Fn.vis at h
        split at h
        · cases h
        · have : w = f.name := by simpa using h
          rw [this]
          exact ⟨fn_mem f names, fun g hg e => hnd'.1 (e ▸ List.mem_map_of_mem hg)⟩
      · obtain ⟨b1, _, b3, _⟩ := V w h
        refine ⟨(fn_pre f names).subset (T.sub w b1), fun g hg e => ?_⟩
        rcases hnew g (by simp [hg]) with h | ⟨h, _⟩
        · exact h (e ▸ b1)
        · exact b3 (e.trans h)
    have hvn : (f.vis ++ vis).map (num names') = (f.vis ++ vis).map (num (f.add names)) := List.map_congr_left fun w hw => num_pre hpre (hvm w hw).1
    have F1 : Fine (f.add names) m (f.vis ++ vis) f := ⟨F.kw, F.kps, F.nodup, F.len, F.kls, F.fit, by rw [← hxs, ← f.nums_pre hpre (loc_mem f names)]; exact F.okl, by rw [← hvn, ← hxs, ← hys]; exact F.ok, F.nl⟩
    have hne := HeadText.ne hh
    have htext' : s.cur :: s.inp = e := by
      rw [htext]
      cases e with
      | nil => exact absurd rfl hne
      | cons _ _ => rfl
    have htok' : s.tok = if f.void then tokVoid else tokInt := by
      rw [htok]
      show (if f.void then 29 else 16) + tokKeyword = _
      cases f.void <;> rfl
    have hlen : (f :: fs).length = fs.length + 1 := rfl
    have hsize : size (f :: fs) = szL f.locs + sz f.body + 11 + size fs := rfl
    obtain ⟨s1, a, ⟨N1, g1⟩, T1, t1, x1, p1, q1, c1, k1, j1, m1, V1⟩ := def_ok T V hs htok' htext' hh (hlt.ne (src_ne hr (by simp))) hlt hsh hd hr F1 (hnew f (by simp)) hroom1
      (by have := F.len; have := hvars f (by simp); omega) (by omega) hnx
    have hs1 : wStart ∈ decl dec f.name := by unfold decl; split <;> simp [hs]
    obtain ⟨s', ad, dec', A', ⟨N2, g2⟩, T', d', c', A1, a1, k', m'⟩ := defs_ok hroom fs T1 V1 hs1 hop t1 x1 hfine hnd'.2
      (fun g hg => by
        have hgf : g.name ≠ f.name := fun h => hnd'.1 (h ▸ List.mem_map_of_mem hg)
        rcases hnew g (by simp [hg]) with h | ⟨h1, h2⟩
        · left
          unfold decl
          split
          · exact h
          · simp [h, hgf]
        · right
          refine ⟨h1, ?_⟩
          have : f.name ≠ wStart := fun h => hgf (h1.trans h.symm)
          simp [h2, this])
      (fun g hg => by
        have : (decl dec f.name).length ≤ dec.length + 1 := by unfold decl; split <;> simp
        have := hvars g (by simp [hg])
        omega)
      (by omega)
    have hkeep : ∀ i, a ≤ codeStart + i → codeStart + i < s1.code → codeStart + i < s'.code ∧ s'.out.get i = s1.out.get i := by
      intro i h1 h2
      refine k' i h2 ?_
      rcases q1 with h | h | h
      · left; simp [h]
      · left; simp [h]
      · right; omega
    have hdl : (decl dec f.name).length ≤ dec.length + 1 := by unfold decl; split <;> simp
    have hlt := p1.lt
    have hge := p1.ge
    have hle : s1.code ≤ s'.code := by
      have := hkeep (s1.code - 1 - codeStart) (by omega) (by omega)
      omega
    have hfn : num names' f.name = num (f.add names) f.name := num_pre hpre (fn_mem f names)
    refine ⟨s', (a, s1.code) :: ad, dec', A', ⟨N1 + N2, fun n hn k hk => ?_⟩, ?_, by omega, by omega, .cons ⟨?_, ?_, ?_, fun hf => ?_⟩ A1, fun x hx => ?_, fun i h1 h2 => ?_, ?_⟩
    · obtain ⟨k, rfl⟩ : ∃ k', k = k' + 1 := ⟨k - 1, by omega⟩
      refine run_getS (run_neg ?_ (run_bind (g1 n (by omega)) (g2 n (by omega) k (by omega))))
      rw [htok']
      cases f.void <;> decide
    · have e : (st || decide (wStart ∈ (f :: fs).map Fn.name)) = (st || decide (f.name = wStart) || decide (wStart ∈ fs.map Fn.name)) := by
        rw [Bool.or_assoc]
        congr 1
        rw [List.map_cons, ← Bool.decide_or]
        simp [List.mem_cons, eq_comm]
      rw [e]
      exact T'
    · obtain ⟨s8, cs, zs, l', rl, R, e1, e2, e3, e4, e5, e6⟩ := p1
      refine ⟨s8, cs, zs, l', rl, R, e1, fun i h1 h2 => (hkeep i h1 h2).2.trans (e2 i h1 h2), e3, by rw [hxs, hys]; exact e4, ?_, e6⟩
      rw [hxs, hys]
      refine e5.congr F1.ok fun x hx => a1 x fun g hg => ?_
      obtain ⟨w, hw, rfl⟩ := List.mem_map.1 hx
      obtain ⟨b1, b2⟩ := hvm w hw
      rw [← num_pre hpre b1]
      exact fun e => b2 g hg (num_inj (hpre.subset b1) e.symm)
    · rw [a1 _ fun g hg e => hnd'.1 (num_inj (hpre.subset (fn_mem f names)) e.symm ▸ List.mem_map_of_mem hg), hfn, addr, if_pos rfl]
    · show s1.code ≤ s'.code
      omega
    · refine (j1 hf).congr fun h5 i hi => (k' i (by omega) (.inl (by simp [hf]))).2
    · rw [a1 x fun g hg => hx g (by simp [hg]), addr, if_neg]
      rw [← hfn]
      exact fun e => hx f (by simp) e.symm
    · obtain ⟨b1, b2⟩ := k1 i h1 h2
      obtain ⟨b3, b4⟩ := k' i b1 (h2.imp (fun h => by simp [h]) id)
      exact ⟨b3, b4.trans b2⟩
    · rw [m', m1]
      simp [line]

/-! ## The beginning of `main` -/

/-- `main` behind the words, with `k` for the first token. -/
def prel (k : A Unit) : A Unit := do
  output [0x31, 0xED]
  output [0xE9]
  setType (vtFun ||| vtVoid ||| vtLocGlob)
  let v ← addVarDecl (tokStart - tokKeyword : Nat)
  emitGlobalRefRel v
  setType (vtChar ||| vtLocGlob)
  let _ ← addVarDecl (tokSbss - tokKeyword : Nat)
  let _ ← addVarDecl (tokEbss - tokKeyword : Nat)
  k

theorem builtins_eq : ∀ (l : List (List Byte)) (s : S), ∃ tx h n, l.foldl addBuiltin s = { s with idText := tx, idHash := h, idCount := n }
  | [], s => ⟨_, _, _, rfl⟩
  | w :: l, s => by
    obtain ⟨tx, h, n, e⟩ := builtins_eq l (addBuiltin s w)
    exact ⟨tx, h, n, e⟩

structure Pre (src : List Byte) (b p : S) : Prop where
  ids : ids p = ids b
  text : p.cur = 0 ∧ p.inp = src
  code : p.code = codeStart + 5
  o0 : p.out.get 0 = 0x31
  o1 : p.out.get 1 = 0xED
  o2 : p.out.get 2 = 0xE9
  o3 : p.out.get 3 = 0
  o4 : p.out.get 4 = 0
  v0 : p.vars.get 0 = ⟨37, vtFun ||| vtVoid ||| vtLocGlob, 0, 0, codeStart + 3, none⟩
  v1 : p.vars.get 1 = ⟨38, vtChar ||| vtLocGlob, 0, 0, 0, none⟩
  v2 : p.vars.get 2 = ⟨39, vtChar ||| vtLocGlob, 0, 0, 0, none⟩
  lookup : p.lookup = (((Tab.const none 10).set 37 (some 0)).set 38 (some 1)).set 39 (some 2)
  sc : p.scopeCount = 1
  cnt : p.scopes.get 0 = 3
  redef : p.ignoreRedef = 0
  lab : p.labelCount = 0
  sp : p.spAdj = 0
  push : p.push = false
  reg : p.regUse = false
  sw : p.switchCase = -1
  bss : p.bss = 0
  zf : p.lastZF = 0
  fix : p.lastFixup = 0
  map : p.map = #[]
  pos : p.idPos = 0
  tabs : p.memCount = 0 ∧ p.structCount = 0 ∧ p.arrayCount = 0


theorem out1 {s : S} {b : Byte} {i : Nat} (hd : s.dead = false) (hs : s.spAdj = 0) (hp : s.push = false) (hc : s.code = codeStart + i) (hi : i < outputMax) :
    output [b] s = .ok () { s with out := s.out.set i b, code := codeStart + (i + 1) } := by
  refine run_getS (run_neg (by simp [hd, hs, hp]) (run_getS (run_ub (by simp [hc]; omega) (run_modS ?_))))
  rw [hc, Nat.add_sub_cancel_left]
  rfl

theorem out2 {s : S} {b c : Byte} {i : Nat} (hd : s.dead = false) (hs : s.spAdj = 0) (hp : s.push = false) (hc : s.code = codeStart + i) (hi : i + 1 < outputMax) :
    output [b, c] s = .ok () { s with out := (s.out.set i b).set (i + 1) c, code := codeStart + (i + 2) } := by
  refine run_getS (run_neg (by simp [hd, hs, hp]) (run_getS (run_ub (by simp [hc]; omega) (run_modS (run_getS (run_ub (by simp [hc]; omega) (run_modS ?_)))))))
  rw [hc, Nat.add_sub_cancel_left, show codeStart + i + 1 - codeStart = i + 1 by omega]
  rfl

theorem declNew {s : S} {x k : Nat} (h1 : s.scopeCount = 1) (h2 : s.scopes.get 0 = k) (hk : k < varDeclMax) (hx : x < idMax) (hl : s.lookup.get x = none) :
    addVarDecl (x : Nat) s = .ok k { s with scopes := s.scopes.set 0 (k + 1), vars := (s.vars.set k ⟨x, s.type, s.extra, 0, 0, (s.vars.get k).prev⟩).set k { (s.vars.set k ⟨x, s.type, s.extra, 0, 0, (s.vars.get k).prev⟩).get k with prev := none }, lookup := s.lookup.set x (some k), log := .decl x k :: s.log } := by
  refine run_getS (run_failIf ?_ (run_ub ?_ ?_))
  · rw [h1, h2]; exact decide_eq_false (by omega)
  · exact decide_eq_true ⟨by omega, by omega⟩
  · rw [Int.toNat_natCast, hl]
    refine run_neg (by simp) (run_bind (a := k) (s1 := { s with scopes := s.scopes.set 0 (k + 1), vars := s.vars.set k ⟨x, s.type, s.extra, 0, 0, (s.vars.get k).prev⟩ }) ?_ rfl)
    rw [show s.scopeCount - 1 = 0 by omega]
    refine run_getS (run_ub ?_ (run_modS ?_))
    · rw [h2]; exact decide_eq_true hk
    · rw [h2]; rfl

theorem refNew {s : S} {v i : Nat} (hd : s.dead = false) (hs : s.spAdj = 0) (hp : s.push = false) (hc : s.code = codeStart + i) (hi : i + 1 < outputMax) (h1 : (s.vars.get v).offset = 0) (h2 : (s.vars.get v).ref = 0) :
    emitGlobalRefRel v s = .ok () { s with out := (s.out.set i 0).set (i + 1) 0, code := codeStart + (i + 2), vars := s.vars.set v { s.vars.get v with ref := codeStart + i } } := by
  refine run_getS (run_pos h1 (run_getS (run_neg (by simp [hd]) ?_)))
  rw [h2]
  exact run_bind (out2 hd hs hp hc hi) rfl

/-- What they leave as it is. -/
def tq (s : S) : S := { s with out := .const 0 15, code := 0, vars := .const ⟨0, 0, 0, 0, 0, none⟩ 9, type := 0, lookup := .const none 10, scopes := .const 0 4, log := [] }

theorem declNew' {s : S} {x k : Nat} (h1 : s.scopeCount = 1) (h2 : s.scopes.get 0 = k) (hk : k < varDeclMax) (hx : x < idMax) (hl : s.lookup.get x = none) :
    ∃ p, addVarDecl (x : Nat) s = .ok k p ∧ tq p = tq s ∧ p.code = s.code ∧ p.out = s.out ∧ p.scopes.get 0 = k + 1 ∧ p.type = s.type ∧ p.lookup = s.lookup.set x (some k) ∧ p.vars.get k = ⟨x, s.type, s.extra, 0, 0, none⟩ ∧
      ∀ j < 2 ^ 9, j ≠ k → p.vars.get j = s.vars.get j := by
  have hk9 : k < 2 ^ 9 := Nat.lt_trans hk (by decide)
  refine ⟨_, declNew h1 h2 hk hx hl, rfl, rfl, rfl, Tab.get_set_self _ _ _, rfl, rfl, ?_, fun j hj hne => ?_⟩
  · rw [Tab.get_set_self, Tab.get_set_self]
  · show ((s.vars.set k _).set k _).get j = _
    rw [Tab.get_set_ne _ _ hk9 hj (Ne.symm hne), Tab.get_set_ne _ _ hk9 hj (Ne.symm hne)]

theorem refNew' {s : S} {v i : Nat} (hd : s.dead = false) (hs : s.spAdj = 0) (hp : s.push = false) (hc : s.code = codeStart + i) (hi : i + 1 < outputMax) (h1 : (s.vars.get v).offset = 0) (h2 : (s.vars.get v).ref = 0) (hv : v < 2 ^ 9) :
    ∃ p, emitGlobalRefRel v s = .ok () p ∧ tq p = tq s ∧ p.code = codeStart + (i + 2) ∧ p.out = (s.out.set i 0).set (i + 1) 0 ∧ p.scopes = s.scopes ∧ p.lookup = s.lookup ∧ p.vars.get v = { s.vars.get v with ref := codeStart + i } ∧
      ∀ j < 2 ^ 9, j ≠ v → p.vars.get j = s.vars.get j := by
  refine ⟨_, refNew hd hs hp hc hi h1 h2, rfl, rfl, rfl, rfl, rfl, Tab.get_set_self _ _ _, fun j hj hne => Tab.get_set_ne _ _ hv hj (Ne.symm hne)⟩

theorem prel_ok {b : S} {src : List Byte} (hb : ∃ tx h n, b = { init src with idText := tx, idHash := h, idCount := n }) : ∃ p, (∀ k, prel k b = k p) ∧ Pre src b p := by
  obtain ⟨tx, h, n, e⟩ := hb
  have hd : (tq b).dead = false := by rw [e]; rfl
  have hs : (tq b).spAdj = 0 := by rw [e]; rfl
  have hp : (tq b).push = false := by rw [e]; rfl
  have hc : b.code = codeStart + 0 := by rw [e]; rfl
  have hl : b.lookup = .const none 10 := by rw [e]; rfl
  have ho : b.out = .const 0 15 := by rw [e]; rfl
  have h1 : (tq b).scopeCount = 1 := by rw [e]; rfl
  have h2 : b.scopes.get 0 = 0 := by rw [e]; rfl
  have h3 : (tq b).extra = 0 := by rw [e]; rfl
  have g1 := out2 (s := b) (b := 0x31) (c := 0xED) (i := 0) hd hs hp hc (by decide)
  generalize e1 : ({ b with out := (b.out.set 0 0x31).set (0 + 1) 0xED, code := codeStart + (0 + 2) } : S) = p1 at g1
  have g2 := out1 (s := p1) (b := 0xE9) (i := 2) (by rw [← e1]; exact hd) (by rw [← e1]; exact hs) (by rw [← e1]; exact hp) (by rw [← e1]) (by decide)
  generalize e2 : ({ p1 with out := p1.out.set 2 0xE9, code := codeStart + (2 + 1) } : S) = p2 at g2
  generalize e3 : ({ p2 with type := vtFun ||| vtVoid ||| vtLocGlob } : S) = p3
  have g3 : setType (vtFun ||| vtVoid ||| vtLocGlob) p2 = .ok () p3 := by rw [← e3]; rfl
  have u3 : p3.type = vtFun ||| vtVoid ||| vtLocGlob := by rw [← e3]
  have l3 : p3.lookup = .const none 10 ∧ p3.scopes = b.scopes ∧ p3.out = (((Mem.const 0 15).set 0 0x31).set 1 0xED).set 2 0xE9 := by rw [← e3, ← e2, ← e1]; exact ⟨hl, rfl, by rw [ho]⟩
  have q3 : tq p3 = tq b := by rw [← e3, ← e2, ← e1]; rfl
  have c3 : p3.code = codeStart + 3 := by rw [← e3, ← e2]
  clear e1 e2 e3
  have x3 : p3.extra = 0 := by have := congrArg S.extra q3; exact this.trans h3
  obtain ⟨p4, g4, q4, c4, o4, s4, _, l4, v4, w4⟩ := declNew' (s := p3) (x := 37) (k := 0) (by have := congrArg S.scopeCount q3; exact this.trans h1) (by rw [l3.2.1, h2]) (by decide) (by decide) (by rw [l3.1]; rfl)
  rw [u3, x3] at v4
  obtain ⟨p5, g5, q5, c5, o5, s5, l5, v5, w5⟩ := refNew' (s := p4) (v := 0) (i := 3) (by have := congrArg S.dead (q4.trans q3); exact this.trans hd) (by have := congrArg S.spAdj (q4.trans q3); exact this.trans hs)
    (by have := congrArg S.push (q4.trans q3); exact this.trans hp) (c4.trans c3) (by decide) (by rw [v4]) (by rw [v4]) (by decide)
  rw [v4] at v5
  generalize e6 : ({ p5 with type := vtChar ||| vtLocGlob } : S) = p6
  have g6 : setType (vtChar ||| vtLocGlob) p5 = .ok () p6 := by rw [← e6]; rfl
  have u6 : p6.type = vtChar ||| vtLocGlob := by rw [← e6]
  have l6 : p6.lookup = (Tab.const none 10).set 37 (some 0) ∧ p6.scopes = p4.scopes ∧ p6.vars = p5.vars ∧ p6.out = p5.out ∧ p6.code = p5.code := by rw [← e6]; exact ⟨by rw [l5, l4, l3.1], s5, rfl, rfl, rfl⟩
  have q6 : tq p6 = tq b := by rw [← e6, ← q3, ← q4, ← q5]; rfl
  clear e6
  have x6 : p6.extra = 0 := by have := congrArg S.extra q6; exact this.trans h3
  obtain ⟨p7, g7, q7, c7, o7, s7, y7, l7, v7, w7⟩ := declNew' (s := p6) (x := 38) (k := 1) (by have := congrArg S.scopeCount q6; exact this.trans h1) (by rw [l6.2.1, s4]) (by decide) (by decide) (by rw [l6.1]; rfl)
  rw [u6, x6] at v7
  rw [u6] at y7
  have x7 : p7.extra = 0 := by have := congrArg S.extra (q7.trans q6); exact this.trans h3
  obtain ⟨p8, g8, q8, c8, o8, s8, _, l8, v8, w8⟩ := declNew' (s := p7) (x := 39) (k := 2) (by have := congrArg S.scopeCount (q7.trans q6); exact this.trans h1) (by rw [s7]) (by decide) (by decide) (by rw [l7, l6.1]; rfl)
  rw [y7, x7] at v8
  have q : tq p8 = tq b := q8.trans (q7.trans q6)
  have ho : p8.out = (((((Mem.const 0 15).set 0 0x31).set 1 0xED).set 2 0xE9).set 3 0).set 4 0 := by rw [o8, o7, l6.2.2.2.1, o5, o4, l3.2.2]
  have tr {α : Type} (f : S → α) : f (tq p8) = f (tq b) := congrArg f q
  refine ⟨p8, fun k => run_bind g1 (run_bind g2 (run_bind g3 (run_bind g4 (run_bind g5 (run_bind g6 (run_bind g7 (run_bind g8 rfl))))))), ?_⟩
  constructor
  case text => exact ⟨(tr S.cur).trans (by rw [e]; rfl), (tr S.inp).trans (by rw [e]; rfl)⟩
  case ids => exact tr SccGen.ids
  case code => rw [c8, c7, l6.2.2.2.2, c5]
  case o0 => rw [ho]; rfl
  case o1 => rw [ho]; rfl
  case o2 => rw [ho]; rfl
  case o3 => rw [ho]; rfl
  case o4 => rw [ho]; rfl
  case v0 => rw [w8 0 (by decide) (by decide), w7 0 (by decide) (by decide), l6.2.2.1, v5]; rfl
  case v1 => rw [w8 1 (by decide) (by decide), v7]; rfl
  case v2 => rw [v8]; rfl
  case lookup => rw [l8, l7, l6.1]
  case cnt => exact s8
  case sc => exact (tr S.scopeCount).trans (by rw [e]; rfl)
  case redef => exact (tr S.ignoreRedef).trans (by rw [e]; rfl)
  case lab => exact (tr S.labelCount).trans (by rw [e]; rfl)
  case sp => exact (tr S.spAdj).trans (by rw [e]; rfl)
  case push => exact (tr S.push).trans (by rw [e]; rfl)
  case reg => exact (tr S.regUse).trans (by rw [e]; rfl)
  case sw => exact (tr S.switchCase).trans (by rw [e]; rfl)
  case bss => exact (tr S.bss).trans (by rw [e]; rfl)
  case zf => exact (tr S.lastZF).trans (by rw [e]; rfl)
  case fix => exact (tr S.lastFixup).trans (by rw [e]; rfl)
  case map => exact (tr S.map).trans (by rw [e]; rfl)
  case pos => exact (tr S.idPos).trans (by rw [e]; rfl)
  case tabs => exact ⟨(tr S.memCount).trans (by rw [e]; rfl), (tr S.structCount).trans (by rw [e]; rfl), (tr S.arrayCount).trans (by rw [e]; rfl)⟩

theorem lead {ws : List Byte} (c : Byte) (r : List Byte) (hw : Gap ws) (h : Starts c) (s : S) : getToken (at' s (0 :: (ws ++ c :: r))) = getToken (at' s (ws ++ c :: r)) := by
  rw [getToken_gap s c r hw h]
  refine run_getS (run_pos (show (0 : Byte).toInt ≤ 0x2F by decide) (run_bind (a := false) (s1 := at' s (c :: r)) ?_ (run_neg Bool.false_ne_true rfl)))
  refine run_getS ?_
  have e : skip .top ((at' s (0 :: (ws ++ c :: r))).cur :: (at' s (0 :: (ws ++ c :: r))).inp) = .stop (c :: r) := by
    rw [← skip_gap hw c r h]
    show skip .top (0 :: (ws ++ c :: r)) = _
    cases hx : ws ++ c :: r with
    | nil => simp at hx
    | cons d l => rfl
  rw [e]
  rfl

theorem prelude_eq (s : S) : prelude s = prel getToken ((builtins.map asc).foldl addBuiltin s) := by
  unfold prelude prel
  exact run_modS rfl

/-- What a token does not change. -/
def tz (s : S) : S := { s with cur := 0, inp := [], tok := 0, num := 0, prec := 0 }

/-- The names declared at the beginning. -/
abbrev dec0 : List (List Byte) := [wStart, asc "_SBSS", asc "_EBSS"]

/-- The beginning of `main`, for a text that begins with the word `k`. -/
theorem prelude_gen {src e : List Byte} {k : Nat} (hr : RoomI (builtins.map asc)) (hnx : Nx (builtins.map asc) src (.id k) e) (hlead : ∃ (g : List Byte) (c : Byte) (l : List Byte), src = g ++ c :: l ∧ Gap g ∧ Props.SccLex.Starts c) :
    ∃ s, prelude (init src) = .ok () s ∧ Top (builtins.map asc) dec0 false s ∧ s.tok = k + tokKeyword ∧ s.cur :: s.inp = e.headD 0 :: e.tail ∧ s.code = codeStart + 5 ∧ s.map = #[] := by
  have hkw : Kw (builtins.map asc) := List.prefix_refl _
  have hb := builtins_eq (builtins.map asc) (init src)
  have hi0 := builtins_ids src
  have hpre : prelude (init src) = prel getToken ((builtins.map asc).foldl addBuiltin (init src)) := prelude_eq _
  generalize (builtins.map asc).foldl addBuiltin (init src) = b at hb hi0 hpre
  generalize hN : builtins.map asc = N at hi0 hkw hr hnx
  obtain ⟨p, g, P⟩ := prel_ok hb
  have hi : Ids p N := by
    have e1 : p.idHash = _ := congrArg (·.1) P.ids
    have e2 : p.idText = _ := congrArg (·.2.1) P.ids
    have e3 : p.idCount = _ := congrArg (·.2.2.1) P.ids
    unfold Ids
    rw [e1, e2, e3]
    exact hi0
  have hpos : p.idPos = used N := by rw [P.pos, ← hN]; rfl
  have hp : p = at' p (0 :: src) := by
    unfold at'
    rw [List.headD_cons, List.tail_cons, ← P.text.1, ← P.text.2]
  have hsc := hnx ⟨p, (· = e.headD 0 :: e.tail)⟩ hi hpos rfl
  have hgt : getToken p = .ok () (showT (.id k) (at' p e)) := by
    rw [hp]
    have : getToken (at' p (0 :: src)) = getToken (at' p src) := by
      obtain ⟨g, c, l, rfl, hg, hc⟩ := hlead
      exact lead c _ hg hc p
    rw [this]
    cases hsc with
    | cons _ r' h1 h2 =>
      cases h2 with
      | nil _ h3 =>
        rw [h1 p rfl]
        have h3 := List.cons.inj h3
        unfold at'
        rw [h3.1, h3.2]
  have k5 : codeStart + 2 ≤ p.code := by rw [P.code]; omega
  have hs' : ∀ s, s = showT (.id k) (at' p e) → Top N dec0 false s ∧ s.tok = k + tokKeyword ∧ s.cur :: s.inp = e.headD 0 :: e.tail ∧ s.code = codeStart + 5 ∧ s.map = #[] := by
    intro s es
    have hz : tz s = tz p := by rw [es]; rfl
    have tr {α : Type} (f : S → α) : f (tz s) = f (tz p) := congrArg f hz
    have hnum : ∀ i w, dec0[i]? = some w → num N w = 37 + i := by
      rw [← hN]
      intro i w hw
      rcases i with _ | _ | _ | i
      · cases hw; decide +kernel
      · cases hw; decide +kernel
      · cases hw; decide +kernel
      · simp at hw
    have hlk : s.lookup = _ := (tr S.lookup).trans P.lookup
    have hv0 : s.vars.get 0 = _ := (tr fun s => s.vars.get 0).trans P.v0
    have hv1 : s.vars.get 1 = _ := (tr fun s => s.vars.get 1).trans P.v1
    have hv2 : s.vars.get 2 = _ := (tr fun s => s.vars.get 2).trans P.v2
    have hcode : s.code = codeStart + 5 := (tr S.code).trans P.code
    have hzf : s.lastZF = 0 := (tr S.lastZF).trans P.zf
    refine ⟨?_, ?_, ?_, hcode, (tr S.map).trans P.map⟩
    · constructor
      case ids =>
        have e1 : s.idHash = p.idHash := tr S.idHash
        have e2 : s.idText = p.idText := tr S.idText
        have e3 : s.idCount = p.idCount := tr S.idCount
        unfold Ids
        rw [e1, e2, e3]
        exact hi
      case pos => exact (tr S.idPos).trans hpos
      case kw => exact hkw
      case sub =>
        intro w hw
        obtain ⟨i, hi⟩ := List.getElem?_of_mem hw
        have h1 := hnum i w hi
        refine List.idxOf_lt_length_iff.1 ?_
        have h2 : List.idxOf w N = 37 + i := h1
        have h3 : N.length = 40 := by rw [← hN]; rfl
        have h4 := (List.getElem?_eq_some_iff.1 hi).1
        have h5 : dec0.length = 3 := rfl
        omega
      case three => exact Nat.le_refl 3
      case sc => exact (tr S.scopeCount).trans P.sc
      case cnt => exact (tr fun s => s.scopes.get 0).trans P.cnt
      case redef => exact (tr S.ignoreRedef).trans P.redef
      case lab => exact (tr S.labelCount).trans P.lab
      case sp => exact (tr S.spAdj).trans P.sp
      case push => exact (tr S.push).trans P.push
      case reg => exact (tr S.regUse).trans P.reg
      case sw => have : s.switchCase = -1 := (tr S.switchCase).trans P.sw; omega
      case bss => exact (tr S.bss).trans P.bss
      case ge => omega
      case bp => exact ⟨(tr fun s => s.out.get 0).trans P.o0, (tr fun s => s.out.get 1).trans P.o1⟩
      case zf => omega
      case look =>
        intro x hx v hv
        rw [hlk, Tab.get_set _ _ (by decide) hx, Tab.get_set _ _ (by decide) hx, Tab.get_set _ _ (by decide) hx] at hv
        split at hv
        · next hx => cases hv; exact ⟨by decide, by rw [hv2]; decide, _, by simp, (hnum 2 _ rfl).trans hx⟩
        · split at hv
          · next hx => cases hv; exact ⟨by decide, by rw [hv1]; decide, _, by simp, (hnum 1 _ rfl).trans hx⟩
          · split at hv
            · next hx => cases hv; exact ⟨by decide, by rw [hv0]; decide, _, by simp, (hnum 0 _ rfl).trans hx⟩
            · have : (Tab.const none 10 : Tab (Option Nat) 10).get x = none := Tab.get_const ..
              rw [this] at hv
              cases hv
      case offs =>
        intro j h1 h2 h3 h4
        have h5 : dec0.length = 3 := rfl
        omega
      case bssv =>
        rintro j (rfl | rfl)
        · rw [hv1]; exact ⟨rfl, rfl, rfl⟩
        · rw [hv2]; exact ⟨rfl, rfl, rfl⟩
      case pend =>
        intro _
        refine ⟨by rw [hlk]; rfl, by rw [hv0], by rw [hv0], ⟨by rw [hv0], by rw [hv0], (tr fun s => s.out.get 2).trans P.o2, (tr fun s => s.out.get 3).trans P.o3, (tr fun s => s.out.get 4).trans P.o4⟩, by omega, fun _ => ⟨?_, by omega⟩⟩
        have : s.lastFixup = 0 := (tr S.lastFixup).trans P.fix
        rw [this, hcode]
        decide
      case did => exact fun h => absurd h Bool.false_ne_true
    · rw [es]; rfl
    · rw [es]; rfl
  obtain ⟨h1, h2⟩ := hs' _ rfl
  exact ⟨_, by rw [hpre, g]; exact hgt, hN ▸ h1, h2⟩

theorem Defs.lead {names names' : List (List Byte)} {src : List Byte} {fs : List Fn} (h : Defs names src fs names') (hfs : fs ≠ []) :
    ∃ (g : List Byte) (c : Byte) (l : List Byte), src = g ++ c :: l ∧ Gap g ∧ Props.SccLex.Starts c := by
  cases h with
  | nil => exact absurd rfl hfs
  | @fn _ _ g head r rest f fs d cl ts mid hg ha hh hl hs hd hr h =>
    obtain ⟨c, l, hw, hc⟩ : ∃ c l, f.ty = c :: l ∧ Starts c := by
      unfold Fn.ty
      split
      · exact ⟨_, _, rfl, by decide⟩
      · exact ⟨_, _, rfl, by decide⟩
    exact ⟨g, c, l ++ head, by rw [hw, List.append_assoc, List.cons_append], hg, hc⟩

theorem prelude_ok {src : List Byte} {fs : List Fn} {names' : List (List Byte)} (h : Defs (builtins.map asc) src fs names') (hfs : fs ≠ []) (hroom : RoomI names') :
    ∃ s e, prelude (init src) = .ok () s ∧ Top (builtins.map asc) dec0 false s ∧ Open (builtins.map asc) e names' fs ∧ s.tok = (first fs).tok ∧ s.cur :: s.inp = e.headD 0 :: e.tail ∧ s.code = codeStart + 5 ∧ s.map = #[] := by
  have hr := hroom.pre (defs_pre h)
  obtain ⟨e, hnx, hop⟩ := h.open (List.prefix_refl _) hr
  have hlead := h.lead hfs
  cases fs with
  | nil => exact absurd rfl hfs
  | cons f fs =>
    obtain ⟨s, g, T, h1, h2⟩ := prelude_gen hr hnx hlead
    exact ⟨s, e, g, T, hop, h1, h2⟩

/-! ## The end of `main` -/

theorem label_ok {s : S} {j : Nat} {w : List Byte} (h1 : (s.vars.get j).offset = 0) (h2 : (s.vars.get j).ref = 0) (hid : (s.vars.get j).id = (37 + j : Nat)) (hj : 37 + j < idMax)
    (hw : s.idText.get (37 + j) = w) (hr : s.idPos + w.length + 7 ≤ idBufferMax) :
    emitGlobalLabel j s = .ok () { s with vars := s.vars.set j { s.vars.get j with offset := s.code }, dead := false, lastFixup := s.code, map := s.map ++ (line s.code w).toArray } := by
  refine run_getS (run_failIf (by simp [h1]) (run_modS (run_bind (a := ()) (s1 := { s with vars := s.vars.set j { s.vars.get j with offset := s.code }, dead := false, lastFixup := s.code }) ?_ ?_)))
  · rw [h2]
    show doFixups _ (65535 + 1) 0 _ = _
    unfold doFixups
    exact run_pos rfl rfl
  · have e : ((s.vars.set j { s.vars.get j with offset := s.code }).get j).id = (37 + j : Nat) := by rw [Tab.get_set_self]; exact hid
    refine run_getS (run_ub ?_ ?_)
    · rw [e]; exact decide_eq_true (.inr ⟨by omega, by omega⟩)
    · rw [e, if_neg (by omega), Int.toNat_natCast, hw]
      exact run_ub (decide_eq_true hr) rfl

theorem placeVars_ok : ∀ (n v : Nat) {s : S}, (∀ j, v ≤ j → j < v + n → (s.vars.get j).offset ≠ 0 ∨ j = vEbss) → ∃ ty, placeVars n v s = .ok () { s with type := ty }
  | 0, v, s, _ => ⟨s.type, rfl⟩
  | n + 1, v, s, h => by
    obtain ⟨ty, e⟩ := placeVars_ok n (v + 1) (s := { s with type := (s.vars.get v).type }) (fun j h1 h2 => h j (by omega) (by omega))
    exact ⟨ty, run_modS (run_getS (run_pos (.inr (h v (by omega) (by omega))) e))⟩

theorem Top.text {names dec : List (List Byte)} {st : Bool} {s : S} (T : Top names dec st s) (hroom : RoomI names) {i : Nat} {w : List Byte} (hw : (builtins.map asc)[i]? = some w) :
    s.idText.get i = w ∧ s.idPos + w.length + 7 ≤ idBufferMax := by
  obtain ⟨l, hl⟩ := T.kw
  have h1 : names[i]? = some w := by rw [← hl, List.getElem?_append_left (List.getElem?_eq_some_iff.1 hw).1, hw]
  have h2 := hroom.2 w (List.mem_of_getElem? h1)
  exact ⟨T.ids.text i w h1, by rw [T.pos]; exact h2⟩

/-- Without a function `_start` there is no program. -/
theorem finish_no {names dec : List (List Byte)} {s : S} (T : Top names dec false s) (hroom : RoomI names) : finish s = .err .fatal := by
  obtain ⟨a1, a2, a3⟩ := T.bssv 1 (.inl rfl)
  obtain ⟨n1, r1⟩ := T.text hroom (i := 38) (w := asc "_SBSS") rfl
  obtain ⟨-, -, p3, p4, -⟩ := T.pend rfl
  have g1 := label_ok a1 a2 a3 (by decide) n1 r1
  generalize e1 : ({ s with vars := s.vars.set 1 { s.vars.get 1 with offset := s.code }, dead := false, lastFixup := s.code, map := s.map ++ (line s.code (asc "_SBSS")).toArray } : S) = s1 at g1
  have v2 : s1.vars.get 0 = s.vars.get 0 := by rw [← e1]; exact Tab.get_set_ne _ _ (by decide) (by decide) (by decide)
  have x1 : s1.scopes = s.scopes := by rw [← e1]
  clear e1
  refine run_getS (run_failIf (by simp [T.sc]) (run_bind g1 (run_getS ?_)))
  rw [x1, T.cnt]
  obtain ⟨n, hn⟩ : ∃ n, dec.length = n + 1 := ⟨dec.length - 1, by have := T.three; omega⟩
  rw [hn]
  have g2 : placeVars (n + 1) 0 s1 = .err .fatal := by
    refine run_modS (run_getS (run_neg ?_ ?_))
    · show ¬((s1.vars.get 0).type &&& vtLocMask ≠ vtLocGlob ∨ (s1.vars.get 0).offset ≠ 0 ∨ 0 = vEbss)
      rw [v2, p4.ty, p3]
      decide
    · show (failIf ((s1.vars.get 0).type &&& vtFun != 0) >>= _) _ = _
      rw [v2, p4.ty]
      rfl
  show (placeVars (n + 1) 0 >>= _) s1 = _
  simp only [bind_run, g2]

theorem finish_ok {names dec : List (List Byte)} {s : S} (T : Top names dec true s) (hroom : RoomI names) (hle : s.code ≤ codeStart + outputMax) (hlen : dec.length < 2 ^ 9) :
    ∃ s', finish s = .ok () s' ∧ s'.code = s.code ∧ s'.out = s.out ∧ s'.bss = 0 ∧ s'.map = s.map ++ (line s.code (asc "_SBSS")).toArray ++ (line s.code (asc "_EBSS")).toArray := by
  obtain ⟨a1, a2, a3⟩ := T.bssv 1 (.inl rfl)
  obtain ⟨b1, b2, b3⟩ := T.bssv 2 (.inr rfl)
  obtain ⟨n1, r1⟩ := T.text hroom (i := 38) (w := asc "_SBSS") rfl
  obtain ⟨n2, r2⟩ := T.text hroom (i := 39) (w := asc "_EBSS") rfl
  have h3 := T.three
  have g1 := label_ok a1 a2 a3 (by decide) n1 r1
  generalize e1 : ({ s with vars := s.vars.set 1 { s.vars.get 1 with offset := s.code }, dead := false, lastFixup := s.code, map := s.map ++ (line s.code (asc "_SBSS")).toArray } : S) = s1 at g1
  have c1 : s1.code = s.code := by rw [← e1]
  have v1 : (s1.vars.get 1).offset = s.code := by rw [← e1]; show ((s.vars.set 1 _).get 1).offset = _; rw [Tab.get_set_self]
  have v2 : ∀ j < 2 ^ 9, j ≠ 1 → s1.vars.get j = s.vars.get j := fun j hj hne => by rw [← e1]; exact Tab.get_set_ne _ _ (by decide) hj (Ne.symm hne)
  have x1 : s1.scopes = s.scopes ∧ s1.bss = s.bss ∧ s1.idText = s.idText ∧ s1.idPos = s.idPos ∧ s1.out = s.out ∧ s1.map = s.map ++ (line s.code (asc "_SBSS")).toArray := by rw [← e1]; exact ⟨rfl, rfl, rfl, rfl, rfl, rfl⟩
  clear e1
  obtain ⟨y1, y2, y3, y4, y5, y6⟩ := x1
  have hge := T.ge
  obtain ⟨ty, g2⟩ := placeVars_ok (s1.scopes.get 0) 0 (s := s1) fun j _ hj => by
    rw [y1, T.cnt] at hj
    by_cases h0 : j = 0
    · subst h0; left; rw [v2 0 (by decide) (by decide)]; exact T.did rfl
    · by_cases h1 : j = 1
      · subst h1; left; rw [v1]; omega
      · by_cases h2 : j = 2
        · exact .inr h2
        · left; rw [v2 j (by omega) h1]; exact T.offs j (by omega) h0 h1 h2
  have k2 := v2 2 (by decide) (by decide)
  have g3 := label_ok (s := { s1 with type := ty }) (j := 2) (w := asc "_EBSS") (by show (s1.vars.get 2).offset = 0; rw [k2]; exact b1) (by show (s1.vars.get 2).ref = 0; rw [k2]; exact b2) (by show (s1.vars.get 2).id = _; rw [k2]; exact b3) (by decide)
    (by show s1.idText.get 39 = _; rw [y3]; exact n2) (by show s1.idPos + _ + 7 ≤ _; rw [y4]; exact r2)
  generalize e2 : ({ s1 with type := ty, vars := s1.vars.set 2 { s1.vars.get 2 with offset := s1.code }, dead := false, lastFixup := s1.code, map := s1.map ++ (line s1.code (asc "_EBSS")).toArray } : S) = s2
  replace g3 : emitGlobalLabel 2 { s1 with type := ty } = .ok () s2 := by rw [← e2]; exact g3
  have z : s2.code = s1.code ∧ s2.out = s1.out ∧ s2.bss = s1.bss ∧ s2.map = s1.map ++ (line s1.code (asc "_EBSS")).toArray := by rw [← e2]; exact ⟨rfl, rfl, rfl, rfl⟩
  clear e2
  obtain ⟨z1, z2, z3, z4⟩ := z
  refine ⟨s2, run_getS (run_failIf (by simp [T.sc]) (run_bind g1 (run_getS (run_bind g2 (run_getS (run_failIf ?_ (run_bind g3 (run_getS ?_)))))))), z1.trans c1, z2.trans y5, z3.trans (y2.trans T.bss), ?_⟩
  · show decide ((s1.code : Int) - (s1.vars.get 1).offset ≠ s1.bss) = false
    rw [c1, v1, y2, T.bss]
    simp
  · have : decide (codeStart + s2.bss ≤ s2.code ∧ s2.code ≤ codeStart + s2.bss + outputMax) = true := by
      rw [z3, y2, T.bss, z1, c1]
      exact decide_eq_true ⟨by omega, by omega⟩
    rw [this]
    rfl
  · rw [z4, y6, c1]

end SccTop
