import Verif.Props.ScppExpr
/-!
# The lines of conditional sections

Lemmas for `C26` and `C27`.
-/
namespace Props.ScppCond
open Scpp Prog Text Props.ScppLex Props.ScppMacro Props.ScppDefine Props.ScppTable Props.ScppUndef Props.ScppRun Props.ScppExpr

/-! ## Specification: the text of an expression -/

/-- A piece of the text of an expression: tokens; `defined w`; `defined (w)`. -/
inductive Src
  | toks (ts : List PTok)
  | dfn (v w : List Byte)
  | dfnP (v v2 : Option (List Byte)) (w : List Byte)

/-- The tokens of the text. -/
def Src.text : Src → List PTok
  | .toks ts => ts
  | .dfn v w => [.id (asc "defined"), .ws v, .id w]
  | .dfnP v v2 w => .id (asc "defined") :: (sps v ++ .op (asc "(") :: (sps v2 ++ [.id w, .op (asc ")")]))

/-- The tokens of a text. -/
def srcText (ss : List Src) : List PTok := (ss.map Src.text).flatten

/-- The elements after macro replacement; the operand of `defined` is not replaced. -/
inductive SrcExp (Δ : Table) : List Src → List El → Prop
  | nil : SrcExp Δ [] []
  | toks {ts os : List PTok} {ss : List Src} {es : List El} (h : Exp Δ 10 [] ts os) (ht : ∀ t ∈ ts, TextTok t ∧ t ≠ .nl) (h' : SrcExp Δ ss es) :
      SrcExp Δ (.toks ts :: ss) (os.map .tok ++ es)
  | dfn {v w : List Byte} {ss : List Src} {es : List El} (h' : SrcExp Δ ss es) : SrcExp Δ (.dfn v w :: ss) (.dfn w :: es)
  | dfnP {v v2 : Option (List Byte)} {w : List Byte} {ss : List Src} {es : List El} (h' : SrcExp Δ ss es) : SrcExp Δ (.dfnP v v2 w :: ss) (.dfn w :: es)

/-! ## Names -/

theorem special_iff : ∀ i < 16, ∀ w, builtins[i]? = some w → (w ∈ special ↔ 13 ≤ i) := by decide +kernel

theorem special_builtin : ∀ w ∈ special, w ∈ builtins := by decide +kernel

variable {Δ : Table} {Q : S → Prop}

/-- `IsDefined` after `ReplaceId`. -/
theorem isDefined_eq {w : List Byte} {s : S} (h : Good Δ s) (hw : w ∉ names Δ ∧ s.tok.ty = tokRawId ∨ ∃ id, (names Δ)[id]? = some w ∧ s.tok.ty = tokId + id) :
    isDefined s s.tok.ty = true ↔ isDef Δ w := by
  rcases hw with ⟨hn, hty⟩ | ⟨id, hid, hty⟩
  · rw [hty]
    have h1 : isDefined s tokRawId = false := rfl
    rw [h1]
    constructor
    · intro h; cases h
    · rintro (h | h)
      · exact absurd (List.mem_append_left _ (special_builtin w h)) hn
      · rw [lookup_none_of_not_mem hn] at h; cases h
  · by_cases h16 : id < 16
    · have hb : builtins[id]? = some w := by rwa [names, List.getElem?_append_left (by rw [builtins_len]; exact h16)] at hid
      rw [isDef, builtin_not_user h.rep.nodup hid h16, special_iff id h16 w hb]
      simp only [isDefined, hty, tokDefined, tokId, tokUserId, Bool.or_eq_true, Bool.and_eq_true, decide_eq_true_eq, Option.isSome_none, Bool.false_eq_true, or_false]
      omega
    · obtain ⟨x, hx⟩ := names_user hid (by omega)
      have hnb : w ∉ special := fun hs => by
        have := List.disjoint_of_nodup_append h.rep.nodup (special_builtin w hs)
        exact this (List.mem_map.mpr ⟨_, List.mem_of_getElem? hx, rfl⟩)
      rw [isDef, lookup_idx h.rep.nodup hx]
      have e1 : s.tok.ty - tokUserId = id - 16 := by rw [hty]; show 257 + id - 273 = _; omega
      have e2 : tokUserId ≤ s.tok.ty := by rw [hty]; show 273 ≤ 257 + id; omega
      have e3 : ¬ s.tok.ty < tokUserId := by omega
      simp only [isDefined, e1, e2, e3, decide_true, decide_false, Bool.and_false, Bool.true_and, Bool.false_or, beq_iff_eq, hnb, false_or]
      cases x with
      | none => rw [h.rep.undef _ _ hx]; decide
      | some b =>
        have := h.stk.hide _ _ _ hx
        simp only [List.map_nil, List.not_mem_nil, if_false] at this
        simp [this]

/-- A name after optional white space. -/
theorem name_opt {w : List Byte} {W : Option (List Byte)} {r : List Byte} {s : S} (h : Good Δ s)
    (ha : At s (render (sps W ++ [.id w]) ++ r)) (hsp : Spelled (sps W ++ [.id w]) r) (htd : s.tdNext + (w.length + 1) ≤ 2048) :
    ∃ s0 s1 s2, rawGetToken s = .ok () s0 ∧ (∀ n, rawSkipWs (n + 2) s0 = .ok () s1) ∧ s1.tok.ty = tokRawId ∧ replaceId s1 = .ok () s2 ∧ Good Δ s2 ∧ At s2 r ∧ s2.tdNext = s.tdNext ∧
      Same s s2 ∧ (isDefined s2 s2.tok.ty = true ↔ isDef Δ w) := by
  have hR := h.rep
  have hne : (PTok.id w) ≠ .nl := by simp
  have hnw : (PTok.id w).ty ≠ tokWs := by show ¬ tokRawId = tokWs; decide
  obtain ⟨s0, s1, h1, h2, h3⟩ := raw_skip (W := W) (t := .id w) (stk_nil h.stk) hR.queue (by simpa [render] using ha) hsp hnw (by simp only [PTok.need, PTok.val, PTok.text]; omega)
  have hR1 := hR.frame h3.frame
  have hS1 := h.stk.frame h3.frame h3.stack h3.mac
  have hG1 := h.frame h3.frame hS1
  obtain ⟨hh, ⟨hnot, hrep⟩ | ⟨id, hid, hrep⟩⟩ := replaceId_eq hR1 h3.ty (h3.txt hne hnw) (.inr (h3.hash w rfl))
  · have f12 : Frame s1 { s1 with hash := hh } := ⟨rfl, rfl, rfl, rfl, rfl, rfl, rfl, rfl, rfl, rfl, rfl, rfl, rfl, fun _ _ => rfl, fun _ => ⟨rfl, rfl, fun e => e⟩⟩
    have g := hG1.frame f12 (hS1.frame f12 rfl rfl)
    exact ⟨s0, s1, _, h1, h2, h3.ty, hrep, g, h3.at_, h3.frame.tdNext, ⟨h3.same.1, h3.same.2, h3.same.3⟩, isDefined_eq g (.inl ⟨hnot, h3.ty⟩)⟩
  · have f12 : Frame s1 { s1 with hash := hh, tok := { s1.tok with ty := tokId + id } } :=
      ⟨rfl, rfl, rfl, rfl, rfl, rfl, rfl, rfl, rfl, rfl, rfl, rfl, rfl, fun _ _ => rfl, fun _ => ⟨rfl, rfl, fun e => e⟩⟩
    have g := hG1.frame f12 (hS1.frame f12 rfl rfl)
    exact ⟨s0, s1, _, h1, h2, h3.ty, hrep, g, h3.at_, h3.frame.tdNext, ⟨h3.same.1, h3.same.2, h3.same.3⟩, isDefined_eq g (.inr ⟨id, hid, rfl⟩)⟩

/-- `GetToken` reads a token that is not an identifier. -/
theorem get_raw {s s1 : S} {t : PTok} {r : List Byte} (hs : s.stack = []) (hraw : rawGetToken s = .ok () s1) (h : RawAt s s1 t r) (hok : t.Ok) (hni : ∀ w, t ≠ .id w) :
    Runs getToken s () s1 :=
  (step_other (Δ := []) hraw h.ty hok hni (fun _ => h.stack.trans hs) h.txt (kept_eq h.out h.frame.cond)).1

/-! ## `defined` -/

theorem Spelled.app : ∀ {a b : List PTok} {r : List Byte}, Spelled (a ++ b) r → Spelled a (render b ++ r) ∧ Spelled b r
  | [], _, _, h => ⟨trivial, h⟩
  | t :: a, b, r, h => by
    obtain ⟨h1, h2, h3⟩ := h
    obtain ⟨h4, h5⟩ := Spelled.app h3
    exact ⟨⟨h1, by simpa [render] using h2, h4⟩, h5⟩

theorem render_append (a b : List PTok) (r : List Byte) : render (a ++ b) ++ r = render a ++ (render b ++ r) := by simp [render]

theorem ofBool_def {b : Bool} {w : List Byte} (h : b = true ↔ isDef Δ w) : ofBool b = truth (isDef Δ w) := ofBool_truth h

/-- `defined w`. -/
theorem dfn_run {v w r : List Byte} {s : S} (h : Good Δ s) (ha : At s (render [.ws v, .id w] ++ r)) (hsp : Spelled [.ws v, .id w] r) (htd : s.tdNext + (w.length + 1) ≤ 2048) :
    ∃ s2, Good Δ s2 ∧ At s2 r ∧ s2.tdNext = s.tdNext ∧ Same s s2 ∧ ∀ s3, Runs getToken s2 () s3 → Runs dfnBranch s (truth (isDef Δ w)) s3 := by
  obtain ⟨s0, s1, s2, h1, h2, h3, h4, h5, h6, h7, h8, h9⟩ := name_opt (W := some v) h ha hsp htd
  refine ⟨s2, h5, h6, h7, h8, fun s3 hg => ?_⟩
  obtain ⟨o1, o2, o3⟩ := hsp
  obtain ⟨s0', k1, k2⟩ := raw_next (t := .ws v) (r := render [.id w] ++ r) (stk_nil h.stk) h.rep.queue (by simpa [render] using ha) o1 o2 (by simpa [PTok.need] using h.rep.tdn)
  rw [h1] at k1
  cases k1
  have hget := get_raw (stk_nil h.stk) h1 k2 o1 (by simp)
  have hpar : ¬ (s1.tok.ty == 0x28) = true := by rw [h3]; decide
  unfold dfnBranch
  refine .bind hget (.bind ⟨2, fun n hn => by obtain ⟨n, rfl⟩ : ∃ k, n = k + 2 := ⟨n - 2, by omega⟩; exact h2 n⟩ (.get ?_))
  refine .neg hpar (.bind (.of h4) (.get (.bind hg (.neg hpar ?_))))
  rw [ofBool_def h9]
  exact .of rfl

/-- `defined (w)`. -/
theorem dfnP_run {v v2 : Option (List Byte)} {w r : List Byte} {s : S} (h : Good Δ s) (ha : At s (render (sps v ++ .op (asc "(") :: (sps v2 ++ [.id w, .op (asc ")")])) ++ r))
    (hsp : Spelled (sps v ++ .op (asc "(") :: (sps v2 ++ [.id w, .op (asc ")")])) r) (htd : s.tdNext + (w.length + 1) ≤ 2048) (htd2 : s.tdNext + 2 ≤ 2048) :
    ∃ s2, Good Δ s2 ∧ At s2 r ∧ s2.tdNext = s.tdNext ∧ Same s s2 ∧ ∀ s3, Runs getToken s2 () s3 → Runs dfnBranch s (truth (isDef Δ w)) s3 := by
  have e1 : sps v ++ .op (asc "(") :: (sps v2 ++ [.id w, .op (asc ")")]) = (sps v ++ [.op (asc "(")]) ++ ((sps v2 ++ [.id w]) ++ [.op (asc ")")]) := by simp
  rw [e1] at ha hsp
  obtain ⟨p1, p2⟩ := Spelled.app hsp
  obtain ⟨p2, p3⟩ := Spelled.app p2
  rw [render_append, render_append] at ha
  have lty : (PTok.op (asc "(")).ty = 0x28 := by decide
  have rty : (PTok.op (asc ")")).ty = 0x29 := by decide
  obtain ⟨s0, s1, h1, h2, h3⟩ := raw_skip (W := v) (t := .op (asc "(")) (stk_nil h.stk) h.rep.queue (by simpa [render] using ha) p1 (by rw [lty]; decide) (by
    show s.tdNext + 2 ≤ 2048; exact htd2)
  have g1 := Good.raw h h3
  have hget : Runs getToken s () s0 := by
    cases v with
    | none =>
      obtain ⟨o1, o2, _⟩ := p1
      obtain ⟨s0', k1, k2⟩ := raw_next (t := .op (asc "(")) (stk_nil h.stk) h.rep.queue (by simpa [render, sps] using ha) o1 o2 (by show s.tdNext + 2 ≤ 2048; exact htd2)
      rw [h1] at k1
      cases k1
      exact get_raw (stk_nil h.stk) h1 k2 o1 (by simp)
    | some v =>
      obtain ⟨o1, o2, _⟩ := p1
      obtain ⟨s0', k1, k2⟩ := raw_next (t := .ws v) (stk_nil h.stk) h.rep.queue (by simpa [render, sps] using ha) o1 (by simpa [render, sps] using o2) (by simpa [PTok.need] using h.rep.tdn)
      rw [h1] at k1
      cases k1
      exact get_raw (stk_nil h.stk) h1 k2 o1 (by simp)
  obtain ⟨s2, s3, s4, j1, j2, j3, j4, j5, j6, j7, j8, j9⟩ := name_opt (W := v2) g1 (by rw [← render_append]; exact h3.at_) p2 (by rw [h3.frame.tdNext]; exact htd)
  obtain ⟨o1, o2, _⟩ := p3
  have htd4 : s4.tdNext = s.tdNext := j7.trans h3.frame.tdNext
  obtain ⟨s5, i1, i2⟩ := raw_next (t := .op (asc ")")) (r := r) (stk_nil j5.stk) j5.rep.queue (by simpa [render] using j6) o1 (by simpa [render] using o2) (by
    show s4.tdNext + 2 ≤ 2048; rw [htd4]; exact htd2)
  refine ⟨s5, Good.raw j5 i2, i2.at_, i2.frame.tdNext.trans htd4, h3.same.trans (j8.trans i2.same), fun s6 hg => ?_⟩
  have hpar : (s1.tok.ty == 0x28) = true := by rw [h3.ty, lty]; decide
  unfold dfnBranch
  refine .bind hget (.bind ⟨2, fun n hn => by obtain ⟨n, rfl⟩ : ∃ k, n = k + 2 := ⟨n - 2, by omega⟩; exact h2 n⟩ (.get ?_))
  refine .pos hpar (.bind (.of j1) (.bind ⟨2, fun n hn => by obtain ⟨n, rfl⟩ : ∃ k, n = k + 2 := ⟨n - 2, by omega⟩; exact j2 n⟩ (.bind (.of j4) (.get ?_))))
  refine .bind (get_raw (stk_nil j5.stk) i1 i2 o1 (by simp)) (.pos hpar (.bind (expect_eq (by rw [i2.ty, rty]) hg) ?_))
  rw [ofBool_def j9]
  exact .of rfl

/-! ## The elements of an expression -/

/-- The next elements. -/
def Feeds (Δ : Table) (Q : S → Prop) (es : List El) (s : S) : Prop := ∃ s1, Runs getToken s () s1 ∧ s1.cond = s.cond ∧ Has Δ Q es s1

theorem Feeds.silent {es : List El} {s s1 : S} (h : Silent s s1) (h' : Feeds Δ Q es s1) : Feeds Δ Q es s := by
  obtain ⟨⟨k, hk⟩, hkept⟩ := h
  obtain ⟨s2, ⟨N, h1⟩, hc, h2⟩ := h'
  refine ⟨s2, ⟨N + k, fun n hn => ?_⟩, hc.trans (congrArg Prod.snd hkept), h2⟩
  obtain ⟨m, rfl⟩ : ∃ m, n = m + k := ⟨n - k, by omega⟩
  rw [hk]
  exact h1 m (by omega)

theorem emits_feeds {P : S → Prop} {es : List El} : ∀ (os : List PTok) (s : S), Emits Δ s os P → (∀ o ∈ os, o.Ok ∧ o ≠ .nl) → (∀ s', P s' → kept s' = kept s → Feeds Δ Q es s') →
    Feeds Δ Q (os.map .tok ++ es) s
  | [], s, ⟨s', h1, h2⟩, _, hP => Feeds.silent h1 (hP s' h2 h1.2)
  | o :: os, s, ⟨s1, ⟨h1, h2, h3⟩, h4⟩, hok, hP => by
    obtain ⟨s2, h5, _, h6⟩ := emits_feeds os s1 (h4 s1.out) (fun o ho => hok o (by simp [ho])) (fun s' hs' e => hP s' hs' (e.trans h3))
    exact ⟨s1, h1, congrArg Prod.snd h3, (hok o (by simp)).1, (hok o (by simp)).2, h2, s2, h5, h6⟩

/-- What holds for the tokens of the text and of the macros holds after expansion. -/
theorem exp_all {P : PTok → Prop} {d : Nat} {H : List (List Byte)} {ts os : List PTok} (hb : ∀ w b, lookup Δ w = some b → ∀ t ∈ b, P t) (h : Exp Δ d H ts os) :
    (∀ t ∈ ts, P t) → ∀ o ∈ os, P o := by
  induction h with
  | nil => intro _ o ho; cases ho
  | copy ht h ih =>
    intro hP o ho
    rcases List.mem_cons.mp ho with rfl | ho
    · exact hP _ (by simp)
    · exact ih (fun t ht => hP t (by simp [ht])) o ho
  | repl hw hl h1 h2 ih1 ih2 =>
    intro hP o ho
    rcases List.mem_append.mp ho with ho | ho
    · exact ih1 (hb _ _ hl) o ho
    · exact ih2 (fun t ht => hP t (by simp [ht])) o ho

theorem rep_body {s : S} (h : Rep Δ s) {w : List Byte} {b : List PTok} (hl : lookup Δ w = some b) : ∀ t ∈ b, BodyTok t := by
  obtain ⟨i, hi⟩ := lookup_some hl
  exact (h.mac i w b hi).2.2.2

theorem defined_idx : builtins[12]? = some (asc "defined") := by decide

/-- The word `defined`. -/
theorem defined_next {r : List Byte} {s : S} (h : Good Δ s) (ha : At s ((PTok.id (asc "defined")).text ++ r)) (hok : (PTok.id (asc "defined")).Ok) (hsep : (PTok.id (asc "defined")).Sep r)
    (htd : s.tdNext + 8 ≤ 2048) : ∃ s1, Runs getToken s () s1 ∧ s1.tok.ty = tokDefined ∧ Good Δ s1 ∧ At s1 r ∧ s1.tdNext = s.tdNext ∧ Same s s1 := by
  obtain ⟨s1, h1, h2, h3⟩ := text_next h.rep h.stk ha hok hsep (by show s.tdNext + 8 ≤ 2048; exact htd)
  have g1 := Good.raw h h2
  have hid : (names Δ)[12]? = some (asc "defined") := by
    rw [names, List.getElem?_append_left (by rw [builtins_len]; decide)]
    exact defined_idx
  obtain ⟨hh, tk, k1, k2, k3⟩ := id_copy h1 g1.rep h3 h2.ty (h2.txt (by simp) (by show ¬ tokRawId = tokWs; decide)) (.inr (h2.hash _ rfl)) (by decide)
    (.inl (builtin_not_user g1.rep.nodup hid (by decide))) (kept_eq h2.out h2.frame.cond)
  have f := frame_tok s1 hh tk
  refine ⟨_, k1, ?_, g1.frame f (h3.frame f rfl rfl), h2.at_, h2.frame.tdNext, ⟨h2.same.1, h2.same.2, h2.same.3⟩⟩
  rcases k2.id _ rfl with ⟨_, hn⟩ | ⟨k, hk, hty⟩
  · exact absurd (List.mem_of_getElem? hid) hn
  · have : k = 12 := by
      have hl := (List.getElem?_eq_some_iff.mp hk).1
      exact (List.getElem?_inj hl h.rep.nodup).mp (hk.trans hid.symm)
    rw [hty, this]

/-- The text of an expression, to the end of the line. -/
theorem feeds_src {s0 : S} {r : List Byte} {ss : List Src} {es : List El} (h : SrcExp Δ ss es) : ∀ s : S, Good Δ s → At s (render (srcText ss ++ [.nl]) ++ r) → Spelled (srcText ss ++ [.nl]) r →
    (∀ t ∈ srcText ss, s.tdNext + t.need ≤ 2048) → Same s0 s → s.tdNext = s0.tdNext →
    Feeds Δ (fun s' => Good Δ s' ∧ At s' r ∧ Same s0 s' ∧ s'.tdNext = s0.tdNext) es s := by
  induction h with
  | nil =>
    intro s hg ha hsp _ hs ht
    obtain ⟨o1, o2, _⟩ := hsp
    obtain ⟨s1, h1, h2⟩ := raw_next (t := .nl) (r := r) (stk_nil hg.stk) hg.rep.queue (by simpa [render, srcText] using ha) trivial trivial (by simpa [PTok.need] using hg.rep.tdn)
    exact ⟨s1, get_raw (stk_nil hg.stk) h1 h2 trivial (by simp), h2.frame.cond, h2.ty, Good.raw hg h2, h2.at_, hs.trans h2.same, h2.frame.tdNext.trans ht⟩
  | @toks ts os ss es hx hts _ ih =>
    intro s hg ha hsp htd hs ht
    have e : srcText (.toks ts :: ss) ++ [.nl] = ts ++ (srcText ss ++ [.nl]) := by simp [srcText, Src.text]
    have em : ∀ t, t ∈ srcText (.toks ts :: ss) ↔ t ∈ ts ∨ t ∈ srcText ss := by intro t; simp [srcText, Src.text]
    rw [e] at ha hsp
    obtain ⟨p1, p2⟩ := Spelled.app hsp
    rw [render_append] at ha
    have hem := emits_text hx s _ rfl (Nat.le_refl _) hg.rep hg.stk ha p1 (fun t htm => (hts t htm).1.2.2) (fun t htm => htd t ((em t).mpr (.inl htm)))
    refine emits_feeds os s hem ?_ ?_
    · exact exp_all (P := fun o => o.Ok ∧ o ≠ .nl) (fun w b hl t htb => ⟨(rep_body hg.rep hl t htb).1, (rep_body hg.rep hl t htb).2.1⟩) hx (fun t htm => ⟨(hts t htm).1.1, (hts t htm).2⟩)
    · rintro s' ⟨f, a, k, _⟩ hk
      have hs' : Same s s' := ⟨f.cond, congrArg Prod.fst hk, f.files⟩
      exact ih s' (hg.frame f k) a p2 (fun t htm => by rw [f.tdNext]; exact htd t ((em t).mpr (.inr htm))) (hs.trans hs') (f.tdNext.trans ht)
  | @dfn v w ss es _ ih =>
    intro s hg ha hsp htd hs ht
    have e : srcText (.dfn v w :: ss) ++ [.nl] = .id (asc "defined") :: ([.ws v, .id w] ++ (srcText ss ++ [.nl])) := by simp [srcText, Src.text]
    have em : ∀ t, t ∈ srcText (.dfn v w :: ss) ↔ t ∈ [.id (asc "defined"), .ws v, .id w] ∨ t ∈ srcText ss := by
      intro t; simp only [srcText, Src.text, List.map_cons, List.flatten_cons, List.mem_append]
    rw [e] at ha hsp
    obtain ⟨o1, o2, o3⟩ := hsp
    obtain ⟨p1, p2⟩ := Spelled.app o3
    rw [render_cons] at ha
    obtain ⟨s1, h1, h2, h3, h4, h5, h6⟩ := defined_next hg ha o1 o2 (htd (.id (asc "defined")) ((em _).mpr (.inl (by simp))))
    rw [render_append] at h4
    obtain ⟨s2, k1, k2, k3, k4, k5⟩ := dfn_run h3 h4 p1 (by rw [h5]; exact htd (.id w) ((em _).mpr (.inl (by simp))))
    obtain ⟨s3, j1, _, j2⟩ := ih s2 k1 k2 p2 (fun t htm => by rw [k3, h5]; exact htd t ((em t).mpr (.inr htm))) (hs.trans (h6.trans k4)) (k3.trans (h5.trans ht))
    exact ⟨s1, h1, h6.cond, h2, s3, k5 s3 j1, j2⟩
  | @dfnP v v2 w ss es _ ih =>
    intro s hg ha hsp htd hs ht
    have e : srcText (.dfnP v v2 w :: ss) ++ [.nl] = .id (asc "defined") :: ((sps v ++ .op (asc "(") :: (sps v2 ++ [.id w, .op (asc ")")])) ++ (srcText ss ++ [.nl])) := by
      simp [srcText, Src.text]
    have em : ∀ t, t ∈ srcText (.dfnP v v2 w :: ss) ↔ t ∈ .id (asc "defined") :: (sps v ++ .op (asc "(") :: (sps v2 ++ [.id w, .op (asc ")")])) ∨ t ∈ srcText ss := by
      intro t; simp only [srcText, Src.text, List.map_cons, List.flatten_cons, List.mem_append]
    rw [e] at ha hsp
    obtain ⟨o1, o2, o3⟩ := hsp
    obtain ⟨p1, p2⟩ := Spelled.app o3
    rw [render_cons] at ha
    obtain ⟨s1, h1, h2, h3, h4, h5, h6⟩ := defined_next hg ha o1 o2 (htd (.id (asc "defined")) ((em _).mpr (.inl (by simp))))
    rw [render_append] at h4
    obtain ⟨s2, k1, k2, k3, k4, k5⟩ := dfnP_run h3 h4 p1 (by rw [h5]; exact htd (.id w) ((em _).mpr (.inl (by simp))))
      (by rw [h5]; exact htd (.op (asc "(")) ((em _).mpr (.inl (by simp))))
    obtain ⟨s3, j1, _, j2⟩ := ih s2 k1 k2 p2 (fun t htm => by rw [k3, h5]; exact htd t ((em t).mpr (.inr htm))) (hs.trans (h6.trans k4)) (k3.trans (h5.trans ht))
    exact ⟨s1, h1, h6.cond, h2, s3, k5 s3 j1, j2⟩

end Props.ScppCond
