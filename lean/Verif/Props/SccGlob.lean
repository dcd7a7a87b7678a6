import Verif.Props.SccProgProp
/-!
# Global variables with initial values (C54)
-/
namespace SccGlob
open Prog Text Scc SccCode SccGen SccStm SccHead SccLayout SccLoc SccTop Props.SccLex Props.SccIds

/-! ## One variable -/

/-- `EmitGlobalLabel` for a variable that has not been used. -/
theorem label_at {s : S} {v x : Nat} {w : List Byte} (h1 : (s.vars.get v).offset = 0) (h2 : (s.vars.get v).ref = 0) (hid : (s.vars.get v).id = (x : Nat)) (hx : x < idMax)
    (hw : s.idText.get x = w) (hr : s.idPos + w.length + 7 ≤ idBufferMax) :
    emitGlobalLabel v s = .ok () { s with vars := s.vars.set v { s.vars.get v with offset := s.code }, dead := false, lastFixup := s.code, map := s.map ++ (line s.code w).toArray } := by
  refine run_getS (run_failIf (by simp [h1]) (run_modS (run_bind (a := ()) (s1 := { s with vars := s.vars.set v { s.vars.get v with offset := s.code }, dead := false, lastFixup := s.code }) ?_ ?_)))
  · rw [h2]
    show doFixups _ (65535 + 1) 0 _ = _
    unfold doFixups
    exact run_pos rfl rfl
  · have e : ((s.vars.set v { s.vars.get v with offset := s.code }).get v).id = (x : Nat) := by rw [Tab.get_set_self]; exact hid
    refine run_getS (run_ub ?_ ?_)
    · rw [e]; exact decide_eq_true (.inr ⟨by omega, by omega⟩)
    · rw [e, if_neg (by omega), Int.toNat_natCast, hw]
      exact run_ub (decide_eq_true hr) rfl

/-- What the definition of a global variable does not change. -/
def gz (s : S) : S := { core (ho s) with dead := false, lastFixup := 0, map := #[] }

/-- `int x = e;` at top level with a constant `e`: two bytes with the value of `e`, and a line in the map file. -/
theorem glob_ok {names dec : List (List Byte)} {s : S} {x g2 g3 t2 t3 ee : List Byte} {e : E} {y : Int} {ts : List Tk} {u : Tk} (T : Top names dec false s) (hs : wStart ∈ dec)
    (htok : s.tok = tokInt) (htext : s.cur :: s.inp = g2 ++ x ++ (g3 ++ asc "=" ++ t2)) (h2 : Gap g2) (h3 : Gap g3) (hw : Word x)
    (ha : After (g3 ++ asc "=" ++ t2)) (hm : Munch (asc "=") t2) (hroom : RoomI (intern names x)) (hxk : ¬ IsKw x) (hnew : x ∉ dec) (hvars : dec.length < varDeclMax)
    (hsh : Shows 10 e ts) (hsrc : SrcTo (intern names x) t3 t2 (ts ++ [semi])) (hst : Stat e) (hc : cst e = some y) (hv : Vars e = []) (hsz : s.code + 2 ≤ codeStart + outputMax)
    (hnext : Nx (intern names x) t3 u ee) :
    ∃ s', (∃ N, ∀ n, N ≤ n → parseExternal (run n) s = .ok () s') ∧ Top (intern names x) (x :: dec) false s' ∧ s'.tok = u.tok ∧ s'.cur :: s'.inp = ee.headD 0 :: ee.tail ∧ s'.code = s.code + 2 ∧
      (∀ i, codeStart + i < s.code → s'.out.get i = s.out.get i) ∧ s'.out.get (s.code - codeStart) = lo y ∧ s'.out.get (s.code + 1 - codeStart) = hi y ∧ s'.map = s.map ++ (line s.code x).toArray := by
  have ht2 : t2 ≠ [] := src_ne hsrc (by simp)
  have h40 : 40 ≤ names.length := Nat.le_trans (by decide) T.kw.length_le
  have hpre := intern_pre names x
  have hkw' : Kw (intern names x) := T.kw.trans hpre
  have hu := hkw'.user hxk
  have hxs : x ≠ wStart := fun h => hnew (h ▸ hs)
  have hdec : decl dec x = x :: dec := if_neg hxs
  obtain ⟨s1, ⟨N1, g1⟩, l1, t1, y1, z1, _, _⟩ := specs_ok (.inl ⟨htok, rfl⟩) ⟨htext, T.ids, T.pos, h40⟩ h2 hw ha (by simp [ht2]) hroom hu T.noTd
  obtain ⟨s2, ⟨N2, g2'⟩, l2, t2', p2, z2, y2, x2⟩ := decl_ret l1 .asgn h3 hm ht2 t1 hu (by decide)
  have z2 : hz s2 = hz s := z2.trans z1
  have y2 : s2.type = vtInt := y2.trans y1
  obtain ⟨v, s3, e3, D, hs3⟩ := declare_ok (f := x) T z2 hpre (intern_mem names x) hroom.1 (by omega) (.inl hnew) hs
  have hs3 : ho s3 = ho s2 ∧ tks s3 = tks s2 ∧ SccGen.ids s3 = SccGen.ids s2 ∧ s3.type = s2.type := by
    obtain ⟨V, L, C, G, rfl⟩ := hs3
    exact ⟨rfl, rfl, rfl, rfl⟩
  obtain ⟨o3, tk3, id3, ty3⟩ := hs3
  obtain ⟨hvd, hv3, hvt⟩ := D.v3 hxs
  have hvt : (s3.vars.get v).type = vtInt := hvt.trans (ty3.trans y2)
  have hv9 : v < 2 ^ 9 := Nat.lt_of_lt_of_le (show v < varDeclMax by omega) (by decide)
  generalize hs4 : ({ s3 with baseType := clr s3.type vtPtrMask, baseExtra := s3.extra } : S) = s4
  generalize hs5 : ({ s4 with vars := s4.vars.set v { s4.vars.get v with type := clr (s4.vars.get v).type vtStatic } } : S) = s5
  generalize hs6 : ({ s5 with vars := s5.vars.set v { s5.vars.get v with type := (s5.vars.get v).type ||| vtLocGlob } } : S) = s6
  have v5 : s5.vars.get v = { s3.vars.get v with type := clr (s3.vars.get v).type vtStatic } := by rw [← hs5, ← hs4]; exact Tab.get_set_self _ _ _
  have v6 : s6.vars.get v = { s3.vars.get v with type := vtInt ||| vtLocGlob } := by
    rw [← hs6]
    show (s5.vars.set v _).get v = _
    rw [Tab.get_set_self, v5, hvt]; rfl
  have w6 : ∀ j < 2 ^ 9, j ≠ v → s6.vars.get j = s3.vars.get j := fun j hj hne => by
    rw [← hs6, ← hs5, ← hs4]
    show ((s3.vars.set v _).set v _).get j = _
    rw [Tab.get_set_ne _ _ hv9 hj (Ne.symm hne), Tab.get_set_ne _ _ hv9 hj (Ne.symm hne)]
  have o6 : ho s6 = ho s := by
    have : ho s6 = ho s3 := by rw [← hs6, ← hs5, ← hs4]; rfl
    exact this.trans (o3.trans (by unfold ho; rw [z2]))
  have tk6 : tks s6 = tks s2 := by rw [← hs6, ← hs5, ← hs4]; exact tk3
  have id6 : SccGen.ids s6 = SccGen.ids s2 := by rw [← hs6, ← hs5, ← hs4]; exact id3
  have lk6 : s6.lookup = s3.lookup ∧ s6.scopes = s3.scopes := by rw [← hs6, ← hs5, ← hs4]; exact ⟨rfl, rfl⟩
  have hp : ∀ {β : Type} (g : S → β), (∀ s, g (ho s) = g s) → g s6 = g s := fun g hg => by rw [← hg s6, o6, hg]
  have I6 : Ids s6 (intern names x) := by
    have e1 : s6.idHash = s2.idHash := by have := congrArg (·.1) id6; exact this
    have e2 : s6.idText = s2.idText := by have := congrArg (·.2.1) id6; exact this
    have e3 : s6.idCount = s2.idCount := by have := congrArg (·.2.2.1) id6; exact this
    show IdsOf _ _ _ _
    rw [e1, e2, e3]; exact l2.ids
  have P6 : s6.idPos = used (intern names x) := by have := congrArg (·.2.2.2) id6; exact this.trans l2.pos
  let B : Base := ⟨s6, (· = ee.headD 0 :: ee.tail)⟩
  have on6 : On B s6 (.sym 0x3D precAssign :: (ts ++ semi :: [u])) := by
    refine ⟨⟨?_, ?_, nofun⟩, ?_⟩
    · have := congrArg (·.1) tk6; exact this.trans t2'
    · have := congrArg (·.2.1) tk6; exact this.trans p2
    · have := hsrc.scan B (hnext B I6 P6 rfl) I6 fun w hw => by
        have h1 := hroom.2 w hw
        show s6.idPos + _ + 1 ≤ _
        omega
      have e1 : s6.cur = s2.cur := by have := congrArg (·.2.2.2.1) tk6; exact this
      have e2 : s6.inp = s2.inp := by have := congrArg (·.2.2.2.2) tk6; exact this
      rw [e1, e2, l2.text]
      simpa using this
  have hvx : ∀ z ∈ Vars e, z ∈ ([] : List Nat) := by rw [hv]; exact fun _ h => h
  obtain ⟨t0, us, ets, _⟩ := hsh.start hvx
  obtain ⟨s7, e7, on7, k7⟩ := On.next' (s0 := B) (u := t0) (ts := us ++ [semi, u]) (by rw [ets] at on6; simpa using on6) rfl
  have on7 : On B s7 (ts ++ semi :: [u]) := by rw [ets]; simpa using on7
  have c7 : core s7 = core s6 := k7.core
  have v7 : s7.vars = s6.vars := show (core s7).vars = (core s6).vars by rw [c7]
  have i7 := ids_core c7
  have hidt : s7.idText.get (num (intern names x) x) = x := by
    have e2 : s7.idText = s6.idText := by have := congrArg (·.2.1) i7; exact this
    rw [e2]
    exact I6.text _ _ (by rw [List.getElem?_eq_getElem (List.idxOf_lt_length_of_mem (intern_mem names x))]; exact congrArg some (List.getElem_idxOf _))
  have P7 : s7.idPos = used (intern names x) := by have := congrArg (·.2.2.2) i7; exact this.trans P6
  have hx : num (intern names x) x < idMax := Nat.lt_of_lt_of_le (List.idxOf_lt_length_of_mem (intern_mem names x)) hroom.1
  have e8 := label_at (s := s7) (v := v) (x := num (intern names x) x) (w := x) (by rw [v7, v6]; exact D.off) (by rw [v7, v6]; show (s3.vars.get v).ref = 0; rw [D.ref, if_neg hxs]) (by rw [v7, v6]; exact D.id) hx hidt
    (by rw [P7]; exact hroom.2 x (intern_mem names x))
  generalize hs8 : ({ s7 with vars := s7.vars.set v { s7.vars.get v with offset := s7.code }, dead := false, lastFixup := s7.code, map := s7.map ++ (line s7.code x).toArray } : S) = s8 at e8
  have q7 : gz s7 = gz s6 := by rw [show s7 = _ from k7]; rfl
  have q8 : gz s8 = gz s := by
    have : gz s8 = gz s7 := by rw [← hs8]; rfl
    refine this.trans (q7.trans ?_)
    unfold gz
    rw [o6]
  have hg8 : ∀ {β : Type} (g : S → β), (∀ s, g (gz s) = g s) → g s8 = g s := fun g hg => by rw [← hg s8, q8, hg]
  have hcode7 : s7.code = s.code := by
    have : s7.code = s6.code := by rw [show s7 = _ from k7]
    exact this.trans (hp S.code fun _ => rfl)
  have hout7 : s7.out = s.out := by
    have : s7.out = s6.out := by rw [show s7 = _ from k7]
    exact this.trans (hp S.out fun _ => rfl)
  have hpush7 : s7.push = false ∧ s7.regUse = false ∧ s7.lastZF = s.lastZF ∧ s7.map = s.map := by
    have : s7.push = s6.push ∧ s7.regUse = s6.regUse ∧ s7.lastZF = s6.lastZF ∧ s7.map = s6.map := by rw [show s7 = _ from k7]; exact ⟨rfl, rfl, rfl, rfl⟩
    exact ⟨this.1.trans ((hp S.push fun _ => rfl).trans T.push), this.2.1.trans ((hp S.regUse fun _ => rfl).trans T.reg), this.2.2.1.trans (hp S.lastZF fun _ => rfl), this.2.2.2.trans (hp S.map fun _ => rfl)⟩
  have hcode8 : s8.code = s.code := by rw [← hs8]; exact hcode7
  have hout8 : s8.out = s.out := by rw [← hs8]; exact hout7
  have hpush8 : s8.push = false ∧ s8.regUse = false ∧ s8.lastZF = s.lastZF ∧ s8.dead = false := by rw [← hs8]; exact ⟨hpush7.1, hpush7.2.1, hpush7.2.2.1, rfl⟩
  have hmap8 : s8.map = s.map ++ (line s.code x).toArray := by rw [← hs8]; show s7.map ++ (line s7.code x).toArray = _; rw [hcode7, hpush7.2.2.2]
  have hup8 : Up s8 := ⟨hpush8.2.2.2, (hg8 S.spAdj fun _ => rfl).trans T.sp⟩
  have on8 : On B s8 (ts ++ semi :: [u]) := on7.of_tks (by rw [← hs8]; rfl)
  have i8 : SccGen.ids s8 = SccGen.ids B.s := by
    have : SccGen.ids s8 = SccGen.ids s7 := by rw [← hs8]; rfl
    exact this.trans i7
  have hge := T.ge
  obtain ⟨hgen, hin⟩ := gen_cst (fun _ => 0) e s8.push s8.regUse y hst hc
  obtain ⟨s9, ⟨N3, g9⟩, on9, d9⟩ := parse_expr (off := fun _ => 0) s8 [] (fun _ h => nomatch h) hup8 (by rw [hpush8.2.2.1, hcode8]; exact T.zf) .assign precAssign (.inr ⟨rfl, rfl⟩) hsh
    (On.rebase on8 i8) (by decide) (.inr (by decide)) hst hvx (by rw [hgen]; unfold Room; rw [hcode8]; simp only [List.length_nil]; omega)
  rw [hgen] at d9
  have on9 : On B s9 (semi :: [u]) := On.rebase on9 i8.symm
  obtain ⟨kt, kv, kp⟩ := d9.kd
  have c9 : s9.code = s.code := by have := d9.em.code; simpa [hcode8] using this
  have hr9 : Room s9 [lo y, hi y].length := by unfold Room; rw [c9]; simp only [List.length_cons, List.length_nil]; omega
  have hup9 := hup8.of d9.em.fr
  have e10 := Live.out_put (hup9.live (kp.trans hpush8.1)) hr9
  have m10 := Em.of_wrote (put_wrote [lo y, hi y] s9 hr9) rfl rfl rfl (by omega)
  have on10 : On B (put s9 [lo y, hi y]) (semi :: [u]) := on9.of_tks (by rw [put_eq]; rfl)
  have x10 : (put s9 [lo y, hi y]).push = s9.push ∧ (put s9 [lo y, hi y]).regUse = s9.regUse ∧ (put s9 [lo y, hi y]).lastZF = s9.lastZF := by rw [put_eq]; exact ⟨rfl, rfl, rfl⟩
  generalize put s9 [lo y, hi y] = s10 at e10 m10 on10 x10
  have em := d9.em.trans m10
  have f10 := em.fr
  have i10 : SccGen.ids s10 = SccGen.ids B.s := (ids_core f10).trans i8
  obtain ⟨s11, e11, on11, k11⟩ := On.next' (s0 := B) on10 i10
  have tr : ∀ {β : Type} (g : S → β), (∀ s, g (core s) = g s) → g s11 = g s8 := fun g hg => by
    rw [← hg s11, k11.core, f10, hg]
  have tr' : ∀ {β : Type} (g : S → β), (∀ s, g (core s) = g s) → (∀ s, g (gz s) = g s) → g s11 = g s := fun g h1 h2 => (tr g h1).trans (hg8 g h2)
  have x11 : s11.push = s10.push ∧ s11.regUse = s10.regUse ∧ s11.lastZF = s10.lastZF ∧ s11.out = s10.out ∧ s11.code = s10.code := by rw [show s11 = _ from k11]; exact ⟨rfl, rfl, rfl, rfl, rfl⟩
  have hcode : s11.code = s.code + 2 := by rw [x11.2.2.2.2, em.code, hcode8]; rfl
  have hout : ∀ i, codeStart + i < s.code → s11.out.get i = s.out.get i := fun i hi => by
    rw [x11.2.2.2.1, em.old i (by omega), hout8]
  have hn0 := em.new 0 (by simp)
  have hn1 := em.new 1 (by simp)
  have hvar : ∀ j < 2 ^ 9, j ≠ v → s11.vars.get j = s3.vars.get j := fun j hj hne => by
    rw [tr S.vars fun _ => rfl, ← hs8]
    show (s7.vars.set v _).get j = _
    rw [Tab.get_set_ne _ _ hv9 hj (Ne.symm hne), v7, w6 j hj hne]
  have hvv : s11.vars.get v = { s3.vars.get v with type := vtInt ||| vtLocGlob, offset := s.code } := by
    rw [tr S.vars fun _ => rfl, ← hs8]
    show (s7.vars.set v _).get v = _
    rw [Tab.get_set_self, v7, v6, hcode7]
  have hl8 : s8.lookup = s3.lookup ∧ s8.scopes = s3.scopes := by
    have a : s8.lookup = s7.lookup ∧ s8.scopes = s7.scopes := by rw [← hs8]; exact ⟨rfl, rfl⟩
    have b : s7.lookup = s6.lookup ∧ s7.scopes = s6.scopes := by rw [show s7 = _ from k7]; exact ⟨rfl, rfl⟩
    exact ⟨a.1.trans (b.1.trans lk6.1), a.2.trans (b.2.trans lk6.2)⟩
  have hlk : s11.lookup = s3.lookup := (tr S.lookup fun _ => rfl).trans hl8.1
  have hsc : s11.scopes = s3.scopes := (tr S.scopes fun _ => rfl).trans hl8.2
  have hi11 : SccGen.ids s11 = SccGen.ids s6 := (ids_core k11.core).trans i10
  have hdl : (decl dec x).length = dec.length + 1 := by rw [hdec]; rfl
  have hlt9 : ∀ j, j < dec.length + 1 → j < 2 ^ 9 := fun j hj => Nat.lt_of_lt_of_le (show j < varDeclMax by omega) (by decide)
  have hvar' : ∀ j < dec.length, s11.vars.get j = s.vars.get j := fun j hj => (hvar j (hlt9 j (by omega)) (by omega)).trans (D.old j (by omega) (by omega)).2
  obtain ⟨b1, b2, b3, P, b5, b6⟩ := T.pend rfl
  have hthree := T.three
  refine ⟨s11, ⟨N1 + N2 + N3 + 1, fun n hn => ?_⟩, ?_, on11.1.tok, ?_, hcode, hout, ?_, ?_, ?_⟩
  · refine run_bind (a := Option.some v) (s1 := s4) (run_bind (g1 n (by omega)) (run_getS (run_neg ?_ (run_bind (a := v) (s1 := s3) ?_ (run_bind (a := ()) (s1 := s4) ?_ rfl))))) ?_
    · rw [t1]; intro e; have : num (intern names x) x + 150 = 59 := e; omega
    · exact run_bind (g2' n (by omega)) (run_failIf (decide_eq_false (by omega)) e3)
    · exact run_getS (run_neg (by rw [ty3, y2]; decide) (by rw [← hs4]; rfl))
    · refine run_bind (a := ()) (s1 := s5) (by rw [← hs5]; rfl) (run_getS (run_neg ?_ (run_bind (a := ()) (s1 := s10) ?_ (run_getS (run_pos on10.1.tok e11)))))
      · rw [v5, hvt]; exact fun h => h (show clr vtInt vtStatic &&& vtFun = 0 by decide)
      · obtain ⟨k, rfl⟩ : ∃ j, n = j + 1 := ⟨n - 1, by omega⟩
        refine run_bind (a := (0 : Int)) (s1 := s10) (run_bind (a := ()) (s1 := s10) ?_ rfl) rfl
        refine run_bind (a := ()) (s1 := s6) (by rw [← hs6]; rfl) (run_getS (run_pos on6.1.tok (run_bind e7 (run_bind e8 (run_bind (g9 k (by omega)) (run_getS (run_pos ?_ ?_)))))))
        · rw [kt]; rfl
        · rw [kv]
          exact run_bind e10 (run_bind (a := none) (s1 := s10) (run_getS (run_pos (by rw [on10.1.tok]; decide) rfl)) rfl)
  · constructor
    case ids =>
      have e1 : s11.idHash = s6.idHash := by have := congrArg (·.1) hi11; exact this
      have e2 : s11.idText = s6.idText := by have := congrArg (·.2.1) hi11; exact this
      have e3 : s11.idCount = s6.idCount := by have := congrArg (·.2.2.1) hi11; exact this
      show IdsOf _ _ _ _
      rw [e1, e2, e3]; exact I6
    case pos => have := congrArg (·.2.2.2) hi11; exact this.trans P6
    case kw => exact hkw'
    case sub =>
      intro w hw
      rcases List.mem_cons.1 hw with rfl | hw
      · exact intern_mem names w
      · exact hpre.subset (T.sub w hw)
    case three => simp only [List.length_cons]; omega
    case sc => exact (tr' S.scopeCount (fun _ => rfl) fun _ => rfl).trans T.sc
    case cnt => rw [hsc, D.cnt, hdec]
    case redef => exact (tr' S.ignoreRedef (fun _ => rfl) fun _ => rfl).trans T.redef
    case lab => exact (tr' S.labelCount (fun _ => rfl) fun _ => rfl).trans T.lab
    case sp => exact (tr' S.spAdj (fun _ => rfl) fun _ => rfl).trans T.sp
    case push => rw [x11.1, x10.1, kp]; exact hpush8.1
    case reg => rw [x11.2.1, x10.2.1, d9.reg]; exact hpush8.2.1
    case sw => rw [tr' S.switchCase (fun _ => rfl) fun _ => rfl]; exact T.sw
    case bss => exact (tr' S.bss (fun _ => rfl) fun _ => rfl).trans T.bss
    case ge => omega
    case bp => rw [hout 0 (by omega), hout 1 (by omega)]; exact T.bp
    case zf => rw [x11.2.2.1, x10.2.2, hcode]; have := d9.zf; omega
    case look =>
      intro z hz u hu
      rw [hlk] at hu
      obtain ⟨a1, a2, a3⟩ := D.look z hz u hu
      rw [hdec] at a1 a3
      refine ⟨a1, ?_, a3⟩
      by_cases huv : u = v
      · rw [huv, hvv]; show (vtInt ||| vtLocGlob) &&& vtTypedef = 0; decide
      · have hul : u < dec.length := by simp only [List.length_cons] at a1; omega
        rw [hvar' u hul]; exact a2 huv
    case offs =>
      intro j hj h0 h1 h2
      simp only [List.length_cons] at hj
      by_cases hjv : j = v
      · rw [hjv, hvv]; show ((s.code : Nat) : Int) ≠ 0; omega
      · rw [hvar' j (by omega)]; exact T.offs j (by omega) h0 h1 h2
    case bssv => intro j hj; rw [hvar' j (by omega)]; exact T.bssv j hj
    case pend =>
      intro _
      have hv0 : s11.vars.get 0 = s.vars.get 0 := hvar' 0 (by omega)
      refine ⟨?_, by rw [hv0]; exact b2, by rw [hv0]; exact b3, ⟨by rw [hv0]; exact P.ref, by rw [hv0]; exact P.ty, by rw [hout 2 (by omega)]; exact P.op, by rw [hout 3 (by omega)]; exact P.lo,
        by rw [hout 4 (by omega)]; exact P.hi⟩, by omega, fun hh => by omega⟩
      have hn37 : num (intern names x) x ≠ 37 := by
        intro hh
        have h37 : num (intern names x) wStart = 37 := (hkw'.num (by decide)).trans (by decide)
        exact hxs (num_inj (intern_mem names x) (hh.trans h37.symm))
      rw [hlk, D.keep 37 (by decide) (Ne.symm hn37)]; exact b1
    case did => exact fun h => absurd h Bool.false_ne_true
  · cases on11.2 with
    | nil _ hfin => exact hfin
  · rw [x11.2.2.2.1, ← hcode8]; exact hn0
  · rw [x11.2.2.2.1, ← hcode8]; exact hn1
  · rw [tr S.map fun _ => rfl, hmap8]

/-! ## All variables -/

/-- The first token of the global variables and functions. -/
def gfirst (fs : List Fn) : List (List Byte × E) → Tk
  | [] => first fs
  | _ :: _ => .id 16

/-- The rest behind the first token. -/
def GOpen (names : List (List Byte)) (e : List Byte) (names' : List (List Byte)) (fs : List Fn) : List (List Byte × E) → Prop
  | [] => Open names e names' fs
  | (x, v) :: gs => ∃ g2 g3 t2 t3 ts rest, e = g2 ++ x ++ (g3 ++ asc "=" ++ t2) ∧ Gap g2 ∧ Gap g3 ∧ Word x ∧ After (g3 ++ asc "=" ++ t2) ∧ Munch (asc "=") t2 ∧ Shows 10 v ts ∧
      SrcTo (intern names x) t3 t2 (ts ++ [semi]) ∧ LocText rest (intern names x) gs t3 ∧ Defs (addL (intern names x) gs) rest fs names'

theorem globs_open {names names' : List (List Byte)} {text rest : List Byte} {gs : List (List Byte × E)} {fs : List Fn} (h : LocText rest names gs text) (hd : Defs (addL names gs) rest fs names')
    (hkw : Kw names) (hroom : RoomI names) : ∃ e, Nx names text (gfirst fs gs) e ∧ GOpen names e names' fs gs := by
  cases h with
  | nil => exact hd.open hkw hroom
  | @cons _ g g2 g3 x t2 t3 v ts ls h1 h2 h3 hw hb ha hm hsh hsrc h =>
    have hk : names[16]? = some (asc "int") := by obtain ⟨l, rfl⟩ := hkw; rfl
    refine ⟨_, fun B hi hp hf => .cons _ (g2 ++ x ++ (g3 ++ asc "=" ++ t2)) (fun s hs => ?_) (.nil _ (by rw [hf])), g2, g3, t2, t3, ts, rest, rfl, h2, h3, hw, ha, hm, hsh, hsrc, h, hd⟩
    have e1 : s.idHash = B.s.idHash := congrArg (·.1) hs
    have e2 : s.idText = B.s.idText := congrArg (·.2.1) hs
    have e3 : s.idCount = B.s.idCount := congrArg (·.2.2.1) hs
    have e4 : s.idPos = B.s.idPos := congrArg (·.2.2.2) hs
    refine getToken_known s names g (asc "int") _ ?_ h1 word_int (fun c hc => (hb c hc).1) (by simp [Word.ne hw]) ?_ hk
    · unfold Ids; rw [e1, e2, e3]; exact hi
    · rw [e4, hp]
      have := hroom.2 _ (List.mem_of_getElem? hk)
      omega

/-- A constant has no variables. -/
theorem cst_vars : ∀ (e : E) {y : Int}, cst e = some y → Vars e = []
  | .lit _, _, _ => rfl
  | .var _, _, h => nomatch h
  | .un o a, y, h => by
    obtain ⟨x, hx, _⟩ := Option.map_eq_some_iff.1 h
    exact cst_vars a hx
  | .bin o a b, y, h => by
    cases ha : cst a with
    | none => simp only [cst, ha] at h; cases h
    | some x =>
      cases hb : cst b with
      | none => simp only [cst, ha, hb] at h; cases h
      | some z => rw [Vars, cst_vars a ha, cst_vars b hb]; rfl

/-- What is required of a global variable: its name is no keyword, its value is a constant. -/
def GOk (p : List Byte × E) : Prop := ¬ IsKw p.1 ∧ Stat p.2 ∧ ∃ y, cst p.2 = some y

theorem globs_ok {names' : List (List Byte)} {fs : List Fn} (hroom : RoomI names') : ∀ (gs : List (List Byte × E)) {names dec : List (List Byte)} {s : S} {e : List Byte}, Top names dec false s → wStart ∈ dec →
    GOpen names e names' fs gs → s.tok = (gfirst fs gs).tok → s.cur :: s.inp = e.headD 0 :: e.tail → (∀ p ∈ gs, GOk p) → (gs.map Prod.fst).Nodup → (∀ p ∈ gs, p.1 ∉ dec) → dec.length + gs.length ≤ varDeclMax →
    s.code + 2 * gs.length ≤ codeStart + outputMax →
    ∃ s' e', (∃ N, ∀ n, N ≤ n → ∀ k, externals n (k + gs.length) s = externals n k s') ∧ Top (addL names gs) ((gs.map Prod.fst).reverse ++ dec) false s' ∧ Open (addL names gs) e' names' fs ∧
      s'.tok = (first fs).tok ∧ s'.cur :: s'.inp = e'.headD 0 :: e'.tail ∧ s'.code = s.code + 2 * gs.length ∧ (∀ i, codeStart + i < s.code → s'.out.get i = s.out.get i) ∧
      (∀ i (h : i < gs.length) y, cst gs[i].2 = some y → s'.out.get (s.code + 2 * i - codeStart) = lo y ∧ s'.out.get (s.code + 2 * i + 1 - codeStart) = hi y) ∧
      s'.map = s.map ++ ((List.zipWith (fun p i => line (s.code + 2 * i) p.1) gs (List.range gs.length)).flatten).toArray
  | [], names, dec, s, e, T, hs, ho, htok, htext, hok, hnd, hnew, hvars, hsz =>
    ⟨s, e, ⟨0, fun _ _ _ => rfl⟩, T, ho, htok, htext, rfl, fun _ _ => rfl, fun i h => absurd h (Nat.not_lt_zero i), by simp⟩
  | (x, v) :: gs, names, dec, s, e, T, hs, ho, htok, htext, hok, hnd, hnew, hvars, hsz => by
    obtain ⟨g2, g3, t2, t3, ts, rest, he, h2, h3, hw, ha, hm, hsh, hsrc, hl, hd⟩ := ho
    obtain ⟨hxk, hst, y, hc⟩ := hok (x, v) (by simp)
    have hpre : intern names x <+: names' := (addL_pre gs _).trans (defs_pre hd)
    have hroom1 := hroom.pre hpre
    obtain ⟨e2, hnx, hop⟩ := globs_open hl hd (T.kw.trans (intern_pre names x)) hroom1
    have hne : e ≠ [] := by rw [he]; simp [Word.ne hw]
    have htext' : s.cur :: s.inp = g2 ++ x ++ (g3 ++ asc "=" ++ t2) := by
      rw [htext, ← he]
      cases e with
      | nil => exact absurd rfl hne
      | cons _ _ => rfl
    have hnd' := List.nodup_cons.1 hnd
    have htok' : s.tok = tokInt := htok
    have hlen : ((x, v) :: gs).length = gs.length + 1 := rfl
    rw [hlen] at hvars hsz
    obtain ⟨s1, ⟨N1, p1⟩, T1, k1, x1, c1, o1, l1, u1, m1⟩ := glob_ok T hs htok' htext' h2 h3 hw ha hm hroom1 hxk (hnew (x, v) (by simp)) (by omega) hsh hsrc hst hc (cst_vars v hc) (by omega) hnx
    obtain ⟨s', e', ⟨N2, p2⟩, T2, op2, k2, x2, c2, o2, w2, m2⟩ := globs_ok hroom gs T1 (by simp [hs]) hop k1 x1 (fun p hp => hok p (by simp [hp])) hnd'.2
      (fun p hp h => by
        rcases List.mem_cons.1 h with h | h
        · exact hnd'.1 (List.mem_map.2 ⟨p, hp, h⟩)
        · exact hnew p (by simp [hp]) h)
      (by simp only [List.length_cons]; omega) (by omega)
    have hge := T.ge
    refine ⟨s', e', ⟨N1 + N2, fun n hn k => ?_⟩, ?_, op2, k2, x2, by omega, fun i hi => (o2 i (by omega)).trans (o1 i hi), fun i hi z hz => ?_, ?_⟩
    · rw [hlen, ← p2 n (by omega) k]
      show externals n (k + gs.length + 1) s = _
      refine run_getS (run_neg (by rw [htok']; decide) (run_bind (p1 n (by omega)) rfl))
    · simp only [List.map_cons, List.reverse_cons, List.append_assoc, List.cons_append, List.nil_append]; exact T2
    · cases i with
      | zero =>
        have : z = y := by
          have hz : cst v = some z := hz
          rw [hc] at hz
          exact (Option.some.inj hz).symm
        subst this
        rw [o2 _ (by omega), o2 _ (by omega)]
        exact ⟨l1, u1⟩
      | succ i =>
        have := w2 i (by simpa using hi) z hz
        rw [c1] at this
        rw [show s.code + 2 * (i + 1) = s.code + 2 + 2 * i by omega]
        exact this
    · rw [m2, m1, c1, hlen, List.range_succ_eq_map]
      have : ∀ l : List Nat, List.zipWith (fun p i => line (s.code + 2 + 2 * i) p.1) gs l = List.zipWith (fun p i => line (s.code + 2 * i) p.1) gs (l.map Nat.succ) := fun l => by
        rw [List.zipWith_map_right]
        congr 1
        funext p i
        rw [show s.code + 2 + 2 * i = s.code + 2 * i.succ by omega]
      rw [this]
      simp

end SccGlob

namespace SccGlob
open Prog Text Scc SccCode SccGen SccStm SccHead SccLayout SccLoc SccTop Props.SccLex Props.SccIds I86
open I86.Cpu hiding lo hi rd

/-- The word at the address `a` of the loaded program is `w`. -/
def Word16 (img : List Byte) (a : Nat) (w : Word) : Prop := ∀ c : Cpu, Loaded img c → rdw c.mem c.cs (BitVec.ofNat 16 a) = w

theorem word_at {s : S} {a : Nat} {y : Int} (hb : s.bss = 0) (h0 : s.out.get (a - codeStart) = Scc.lo y) (h1 : s.out.get (a + 1 - codeStart) = Scc.hi y) (ha : codeStart ≤ a) (he : a + 2 ≤ s.code) :
    Word16 (image s) a (BitVec.ofInt 16 y) := by
  intro c hc
  have hi := image_img hb hc
  have e0 := hi a ha (by omega)
  have e1 := hi (a + 1) (by omega) (by omega)
  have h0 : rdb c.mem c.cs (BitVec.ofNat 16 a) = Scc.lo y := e0.trans h0
  have h1 : rdb c.mem c.cs (BitVec.ofNat 16 (a + 1)) = Scc.hi y := e1.trans h1
  rw [rdw, show BitVec.ofNat 16 a + 1 = BitVec.ofNat 16 (a + 1) by rw [BitVec.ofNat_add]; rfl, h0, h1]
  exact word_lo_hi y

end SccGlob

namespace Props
open Prog Text Scc SccCode SccGen SccStm SccHead SccLayout SccLoc SccTop SccGlob Props.SccLex Props.SccIds I86

/-- **C54** (partial): Let a file consist of definitions of global variables `int x = e;` with constant expressions `e`, in any layout with comments, and of functions as in C51.  The compiler accepts the
file; the first variable is at 0x105 and each variable occupies the two bytes behind the one before.  In the loaded program each variable has the value of its expression.  The functions do what they do in C51.
The map file lists the variables with their addresses, then the functions and the end of the program.

Partial: the functions of C51 do not use global variables (a parameter or local variable may have the name of one); global variables without a value (they are behind the program) and of other types, several variables in one
declaration, and comparisons within the expressions are not covered; the variables are defined before the functions. -/
theorem C54_globals_partial (src rest : List Byte) (gs : List (List Byte × E)) (fs : List Fn) (names : List (List Byte)) (m : Nat) (hgtext : LocText rest (builtins.map asc) gs src)
    (htext : Defs (addL (builtins.map asc) gs) rest fs names) (hgs : ∀ p ∈ gs, ¬ IsKw p.1 ∧ Stat p.2 ∧ ∃ y, cst p.2 = some y) (hfine : Fines names m [] fs)
    (hnd : (gs.map Prod.fst ++ fs.map Fn.name).Nodup) (hst : asc "_start" ∈ fs.map Fn.name) (hbss : ∀ w ∈ gs.map Prod.fst ++ fs.map Fn.name, w ≠ asc "_SBSS" ∧ w ≠ asc "_EBSS") (hroom : RoomI names)
    (hlen : ∀ f ∈ fs, gs.length + fs.length + f.locs.length + 15 ≤ varDeclMax) (hsz : 2 * gs.length + SccTop.size fs + 5 ≤ outputMax) :
    ∃ (img : List Byte) (map : Array Byte) (ad : List Nat), (∃ N, ∀ n, N ≤ n → compile n src = .ok (img, map)) ∧ ad.length = fs.length ∧
      (∀ i (h : i < gs.length) ρ w, ev ρ gs[i].2 = some w → Word16 img (0x105 + 2 * i) w) ∧
      (∀ f a, (f, a) ∈ fs.zip ad → Does names m fs img f a) ∧ (∀ f ∈ fs, f.name = asc "_start" → SccTop.Starts names m fs img f) ∧
      map = ((List.zipWith (fun p i => line (0x105 + 2 * i) p.1) gs (List.range gs.length)).flatten ++ (List.zipWith (fun f a => line a f.name) fs ad).flatten ++
        line (codeStart + img.length) (asc "_SBSS") ++ line (codeStart + img.length) (asc "_EBSS")).toArray := by
  have hfs : fs ≠ [] := by rintro rfl; simp at hst
  have hkw : Kw (builtins.map asc) := List.prefix_refl _
  have hr0 : RoomI (builtins.map asc) := hroom.pre ((addL_pre gs _).trans (defs_pre htext))
  obtain ⟨e0, hnx, hgo⟩ := globs_open hgtext htext hkw hr0
  obtain ⟨hnd1, hnd2, hdis⟩ := List.nodup_append.1 hnd
  have hsg : asc "_start" ∉ gs.map Prod.fst := fun h => hdis _ h _ hst rfl
  obtain ⟨k, hk⟩ : ∃ k, gfirst fs gs = .id k := by
    cases gs with
    | cons _ _ => exact ⟨_, rfl⟩
    | nil =>
      cases fs with
      | nil => exact absurd rfl hfs
      | cons f fs => exact ⟨_, rfl⟩
  have hlead : ∃ (g : List Byte) (c : Byte) (l : List Byte), src = g ++ c :: l ∧ Gap g ∧ Props.SccLex.Starts c := by
    cases hgtext with
    | @cons _ g g2 g3 x t2 t3 v ts ls h1 h2 h3 hw hb ha hm hsh hsrc h => exact ⟨g, 0x69, asc "nt" ++ (g2 ++ x ++ (g3 ++ asc "=" ++ t2)), by simp [asc], h1, by decide⟩
    | nil => exact htext.lead hfs
  obtain ⟨s0, g0, T0, htok0, htx0, hcode0, hmap0⟩ := prelude_gen hr0 (hk ▸ hnx) hlead
  have hd0 : dec0.length = 3 := rfl
  obtain ⟨f0, hf0, _⟩ := List.mem_map.1 hst
  have hl0 := hlen f0 hf0
  obtain ⟨s, e, ⟨N0, gg⟩, T, hop, htok, htx, hcode, _, hwords, hmap⟩ := globs_ok hroom gs T0 (by simp) hgo (by rw [hk]; exact htok0) htx0 hgs hnd1
    (fun p hp => by
      have h1 := hbss p.1 (by simp only [List.mem_append]; exact .inl (List.mem_map_of_mem hp))
      have h2 : p.1 ≠ wStart := fun h => hsg (List.mem_map.2 ⟨p, hp, h⟩)
      simp [h1.1, h1.2, h2]) (by omega) (by omega)
  obtain ⟨s1, ad, dec', A, ⟨N, g1⟩, T1, hd1, hc1, hat, _, hkeep, hm1⟩ := defs_ok (m := m) (A := fun _ => 0) (vis := []) hroom fs T (fun _ h => nomatch h) (by simp) hop htok htx hfine hnd2 (fun f hf => by
      obtain ⟨h1, h2⟩ := hbss f.name (by simp only [List.mem_append]; exact .inr (List.mem_map_of_mem hf))
      have h3 : f.name ∉ gs.map Prod.fst := fun h => hdis _ h _ (List.mem_map_of_mem hf) rfl
      by_cases h : f.name = wStart
      · exact .inr ⟨h, rfl⟩
      · exact .inl (by simp only [List.mem_append, List.mem_reverse, not_or]; exact ⟨h3, by simp [h, h1, h2]⟩))
      (fun f hf => by have := hlen f hf; have : globalReserve = 4 := rfl; have : argsMax = 8 := rfl; simp only [List.length_append, List.length_reverse, List.length_map]; omega) (by omega)
  rw [show (false || decide (wStart ∈ fs.map Fn.name)) = true by simpa using hst] at T1
  obtain ⟨s2, g2, c2, o2, b2, m2⟩ := finish_ok T1 hroom (by omega) (by have : varDeclMax = 380 := rfl; simp only [List.length_append, List.length_reverse, List.length_map] at hd1; omega)
  have hge : codeStart ≤ s2.code := by have := T1.ge; omega
  have hlen2 := image_length b2 hge
  have hl := hat.length_eq
  have hdoes : ∀ f p, (f, p) ∈ fs.zip ad → Does names m fs (image s2) f p.1 ∧ At names A s1.out s1.code f p := by
    intro f p hp
    have hA := (List.forall₂_iff_zip.1 hat).2 hp
    refine ⟨does c2 o2 b2 hat (fun f hf => ?_) hfine.fine (List.of_mem_zip hp).1 hA, hA⟩
    obtain ⟨_, F⟩ := hfine.fine f hf
    exact F.nodup.map_on fun p hp q hq h => num_inj (defs_mem htext f hf p hp) h
  refine ⟨image s2, s2.map, ad.map Prod.fst, ⟨N0 + N + gs.length + fs.length + 1, fun n hn => ?_⟩, by rw [List.length_map, hl], fun i hi ρ w hw => ?_, fun f a hfa => ?_, fun f hf hn K c ρ ρ' L d r o hr hip hm hx hend => ?_, ?_⟩
  · have hex : externals n n s0 = .ok () s1 := by
      have := gg n (by omega) (n - gs.length)
      rw [show n - gs.length + gs.length = n by omega] at this
      rw [this]
      exact g1 n (by omega) _ (by omega)
    have : program n (init src) = .ok () s2 := run_bind g0 (run_bind hex g2)
    unfold compile
    rw [this]
  · obtain ⟨_, hstat, y, hy⟩ := hgs gs[i] (List.getElem_mem hi)
    rw [ev_cst ρ _ y w hstat hy hw]
    obtain ⟨w1, w2⟩ := hwords i hi y hy
    have k1 := hkeep (s0.code + 2 * i - codeStart) (by omega) (.inr (by omega))
    have k2 := hkeep (s0.code + 2 * i + 1 - codeStart) (by omega) (.inr (by omega))
    have ea : 0x105 + 2 * i = s0.code + 2 * i := by rw [hcode0]
    rw [ea]
    exact word_at b2 (by rw [o2, k1.2]; exact w1) (by rw [o2, k2.2]; exact w2) (by omega) (by omega)
  · rw [List.zip_map_right] at hfa
    obtain ⟨⟨g, p⟩, hp, he⟩ := List.mem_map.1 hfa
    cases he
    exact (hdoes _ _ hp).1
  · obtain ⟨i, hi, rfl⟩ := List.getElem_of_mem hf
    have hp : (fs[i], ad[i]'(by omega)) ∈ fs.zip ad := List.mem_iff_getElem.2 ⟨i, by simp; omega, by simp⟩
    obtain ⟨hD, hA⟩ := hdoes _ _ hp
    have hle := hA.end_le
    have hlt := hA.placed.lt
    refine (entry_run (q := s2.code) T1.bp.1 T1.bp.2 (hA.jumps hn) (by omega) K hip (o2 ▸ image_img b2 hr.load)).trans ?_
    rintro d ⟨cf, zf, sf, of, rfl⟩
    refine (hD K { c with ip := BitVec.ofNat 16 (ad[i]'(by omega)).1, bp := 0, cf := cf, zf := zf, sf := sf, of := of } ρ ρ' L d r o ⟨hr.load, hr.ss, hr.below, hr.stack, hr.args, hr.val⟩ rfl hm hx hend).mono fun d hd => ?_
    exact ⟨hd.ip, hd.sp, hd.bp, hd.cs, hd.ss, hd.ax, hd.mem⟩
  · have ea : ∀ i, s0.code + 2 * i = 0x105 + 2 * i := fun i => by rw [hcode0]
    rw [m2, hm1, hmap, hmap0, hlen2, c2, List.zipWith_map_right]
    simp only [ea]
    simp

end Props
