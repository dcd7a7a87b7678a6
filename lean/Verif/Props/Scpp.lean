import Verif.Props.ScppOpen
/-!
# The preprocessor: conditional sections, expressions, macros

`C26`, `C27`, `C30`, `C31`.  A file is a sequence of tokens `src` of which the text is `render src`; `Ev` (in `ScppFile`) is its meaning, `layout` the text
that is written for the tokens kept.
-/
namespace Props.ScppMain
open Scpp Prog Text Props.ScppLex Props.ScppMacro Props.ScppDefine Props.ScppTable Props.ScppUndef Props.ScppRun Props.ScppExpr Props.ScppCond Props.ScppFile Props.ScppOpen

/-! ## The beginning -/

theorem addAll : ∀ (bs ns : List (List Byte)) (s : S), Ids ns s → (ns ++ bs).Nodup → (ns ++ bs).length ≤ 32 →
    ∃ s', addBuiltins bs s = .ok () s' ∧ Ids (ns ++ bs) s' ∧ ∃ f g c, s' = { s with idText := f, idHash := g, idCount := c }
  | [], ns, s, hI, _, _ => ⟨s, rfl, by simpa using hI, _, _, _, rfl⟩
  | b :: bs, ns, s, hI, hn, hl => by
    have hb : b ∉ ns := fun h => (List.nodup_append.mp hn).2.2 b h b (by simp) rfl
    obtain ⟨h, h1, h2⟩ := addId_eq (t := .lit b) hI rfl hb (by simp at hl; omega)
    have hI' : Ids (ns ++ [b]) (added h (.lit b) s) := h2 _ rfl rfl rfl (fun i v _ h => h) (.inl rfl)
    obtain ⟨s', h3, h4, f, g, c, h5⟩ := addAll bs (ns ++ [b]) _ hI' (by simpa using hn) (by simpa using hl)
    exact ⟨s', run_bind h1 h3, by simpa using h4, f, g, c, h5⟩

theorem nodes_init (s : S) (hs : ∀ i, (s.node i).next = if i + 1 < 128 then some (i + 1) else none) : ∀ (k i : Nat), i + k = 127 → Nodes s.node (some i) (List.range' i (k + 1))
  | 0, i, h => by
    rw [List.range'_succ]
    refine ⟨rfl, ?_⟩
    rw [hs, if_neg (by omega)]; trivial
  | k + 1, i, h => by
    rw [List.range'_succ]
    refine ⟨rfl, ?_⟩
    rw [hs, if_pos (by omega)]
    exact nodes_init s hs k (i + 1) (by omega)

/-- The state when the first token is read. -/
theorem start (name : List Byte) {input l : List Byte} (hm : Commented input l) : ∃ s, (∀ fs n, mainM fs n (init0 name input) = (do getToken n; ppLoop fs n n 0 true : A Unit) s) ∧ Good [] s ∧ At s l ∧
    s.cond = [] ∧ s.tdNext = 0 ∧ s.files = [] ∧ s.out = #[] := by
  have h0 : Ids [] (init0 name input) := ⟨Probe.inv_empty (by decide), .nil, rfl, by simp, by simp⟩
  obtain ⟨s', h1, h2, f, g, c, rfl⟩ := addAll builtins [] _ h0 (by decide) (by decide)
  obtain ⟨i1, i2, i3, i4, i5⟩ := h2
  refine ⟨nextCh { init0 name input with idText := f, idHash := g, idCount := c }, fun fs n => ?_, ?_, ?_, ?_, ?_, ?_, ?_⟩
  · exact run_bind h1 (run_bind (a := ()) rfl rfl)
  · have e : nextCh { init0 name input with idText := f, idHash := g, idCount := c } = { init0 name input with cur := input.headD 0, inp := input.tail, idText := f, idHash := g, idCount := c } := by
      cases input <;> rfl
    rw [e]
    refine ⟨⟨by simpa [names] using i1, by simpa [names] using i2, by simpa [names] using i3, by simpa [names] using i4, ?_, rfl, Nat.zero_le _, by simp, by simp⟩,
      ⟨.nil, by simp, by simp, fun _ _ => rfl⟩, ⟨List.range 128, [], ?_, rfl, by simp, by simp, by simp⟩, ⟨fun _ _ => ⟨rfl, rfl⟩, by simp⟩⟩
    · intro i w hi
      rcases i5 i w (by simpa [names] using hi) with h | ⟨off, h, h'⟩
      · exact .inl h
      · exact .inr ⟨off, h, h'⟩
    · rw [List.range_eq_range']
      exact nodes_init _ (fun _ => rfl) 127 0 (by omega)
  all_goals cases input <;> first | rfl | exact ⟨_, hm, rfl, rfl⟩

variable {fs : Fs} {P : Res S Unit → Prop} {name : List Byte}

/-- A whole run. -/
theorem run_ev {td : Nat} {Δ : Table} {src out : List PTok} {m r : List Byte} (hm : Commented m (render src ++ r)) (h : Ev fs 0 (.lines true) 0 0 [] src td Δ out) (hsp : Spelled src r)
    (hf : ∀ s ws, Good Δ s → s.cond = [] → s.tdNext ≤ td → s.files = [] → At s r → s.out.toList = (layout .none out).2 → gapOf ws = (layout .none out).1 → Fin fs s ws true P) :
    ∃ x, P x ∧ ∃ N, ∀ n, N ≤ n → mainM fs n (init0 name m) = x := by
  obtain ⟨s, h1, h2, h3, h4, h5, h6, h7⟩ := start name hm
  have := ev_fin (fs := fs) (P := P) h [] s 0 r rfl ⟨h2, by rw [h4]; rfl, by rw [h4]; rfl, by omega, h6⟩ h3 hsp fun s' ws' k1 k2 k3 k4 k5 k6 k7 _ => by
    have hc : s'.cond = [] := k2.trans h4
    rw [hc]
    exact hf s' ws' k1 hc k3 k4 k5 (by rw [k6, h7]; rfl) k7
  obtain ⟨x, hx, N, hN⟩ := this.run
  refine ⟨x, hx, N, fun n hn => ?_⟩
  rw [h1]
  have := hN n n n hn hn hn
  rwa [h4] at this

/-- The beginning of a run. -/
theorem run_upto {k td : Nat} {act : Bool} {Δ : Table} {src out : List PTok} {m r : List Byte} (hm : Commented m (render src ++ r)) (h : Upto fs 0 (.lines true) 0 0 [] src act k td Δ out) (hsp : Spelled src r)
    (hf : ∀ s ws, Inv [] (.lines act) k td Δ s → At s r → s.out.toList = (layout .none out).2 → gapOf ws = (layout .none out).1 → Fin fs s ws act P) :
    ∃ x, P x ∧ ∃ N, ∀ n, N ≤ n → mainM fs n (init0 name m) = x := by
  obtain ⟨s, h1, h2, h3, h4, h5, h6, h7⟩ := start name hm
  have := upto_fin (fs := fs) (P := P) h [] s 0 r rfl ⟨h2, by rw [h4]; rfl, by rw [h4]; rfl, by omega, h6⟩ h3 hsp fun s' ws' k1 k2 k3 k4 => by
    rw [k1.2.2.1]
    exact hf s' ws' k1 k2 (by rw [k3, h7]; rfl) k4
  obtain ⟨x, hx, N, hN⟩ := this.run
  refine ⟨x, hx, N, fun n hn => ?_⟩
  rw [h1]
  have := hN n n n hn hn hn
  rwa [h4] at this

/-- The end of the file. -/
theorem fin_end {Δ : Table} {s : S} {ws : Nat} {act : Bool} {o : List Byte} (h : Good Δ s) (ha : At s []) (hf : s.files = []) (ho : s.out.toList = o) :
    Fin fs s ws act (fun x => ∃ s', x = .ok () s' ∧ Pool Δ s' ∧ s'.out.toList = o) :=
  fin_eof ha (stk_nil h.stk) h.rep.queue hf fun s' k1 k2 => ⟨s', rfl, h.pool.frame k1, by rw [k2, ho]⟩

theorem preprocess_ok {input o : List Byte} {n : Nat} {s : S} (h : mainM fs n (init0 name input) = .ok () s) (ho : s.out.toList = o) : preprocess fs n name input = .ok o.toArray := by
  unfold preprocess
  rw [h, ← ho]

/-- A whole run of two parts. -/
theorem run_ev2 {td td' : Nat} {Δ Δ' : Table} {src src' out out' : List PTok} {m : List Byte} (hm : Commented m (render (src ++ src'))) (h : Ev fs 0 (.lines true) 0 0 [] src td Δ out) (h' : Ev fs 0 (.lines true) 0 td Δ src' td' Δ' out') (hsp : Spelled (src ++ src') []) :
    ∃ N, ∀ n, N ≤ n → ∃ s', mainM fs n (init0 name m) = .ok () s' ∧ Pool Δ' s' ∧ s'.out.toList = (layout .none (out ++ out')).2 := by
  obtain ⟨p1, p2⟩ := Spelled.app hsp
  obtain ⟨x, ⟨s', rfl, h1, h2⟩, N, hN⟩ := run_ev (fs := fs) (name := name) (m := m) (r := render src' ++ []) (by rw [← render_append, List.append_nil]; exact hm) h p1 fun s ws k1 k2 k3 k4 k5 k6 k7 => by
    have := ev_fin (fs := fs) (P := fun x => ∃ s', x = .ok () s' ∧ Pool Δ' s' ∧ s'.out.toList = (layout .none (out ++ out')).2) h' [] s ws [] rfl ⟨k1, by rw [k2]; rfl, by rw [k2]; rfl, k3, k4⟩ k5 p2
      fun s2 ws2 q1 q2 q3 q4 q5 q6 q7 _ => fin_end q1 q5 q4 (by rw [q6, k6, k7, layout_append])
    rw [k2] at this
    exact this
  refine ⟨N, fun n hn => ⟨s', ?_, h1, h2⟩⟩
  exact hN n hn

/-- `#elif`, `#else` and `#endif` outside of sections. -/
theorem unmatched_run {Δ : Table} {k : Nat} {W : Option (List Byte)} {r : List Byte} {s : S} (h : Good Δ s) (hk : k = 5 ∨ k = 6 ∨ k = 7) (hc : s.cond = [])
    (ha : At s (render (sps W ++ [.nl]) ++ r)) (hsp : Spelled (sps W ++ [.nl]) r) : ∀ n, 1 ≤ n → dirRest fs n (tokId + k) s = .err .assertFail := by
  obtain ⟨s1, t, r1, k1, k2, _, _, k3, k4⟩ := eol_read (stk_nil h.stk) h.rep.queue h.rep.tdn ha hsp
  intro n hn
  obtain ⟨n, rfl⟩ : ∃ j, n = j + 1 := ⟨n - 1, by omega⟩
  have hc1 : s1.cond = [] := k2.frame.cond.trans hc
  unfold dirRest
  rcases hk with rfl | rfl | rfl
  · refine run_getS (run_assert (by decide) (run_neg (by decide) (run_neg (by decide) (run_neg (by decide) (run_neg (by decide) (run_neg (by decide) (run_neg (by decide) (run_neg (by decide) ?_))))))))
    refine run_bind (k3 n) (run_getS (run_neg (by decide) (run_pos (by decide) ?_)))
    rw [hc1]; rfl
  · refine run_getS (run_assert (by decide) (run_neg (by decide) (run_neg (by decide) (run_neg (by decide) (run_neg (by decide) (run_neg (by decide) (run_neg (by decide) (run_neg (by decide) ?_))))))))
    refine run_bind (k3 n) (run_getS (run_neg (by decide) (run_neg (by decide) (run_pos (by decide) ?_))))
    rw [hc1]; rfl
  · refine run_getS (run_assert (by decide) (run_neg (by decide) (run_neg (by decide) (run_neg (by decide) (run_neg (by decide) (run_neg (by decide) (run_neg (by decide) (run_neg (by decide) ?_))))))))
    refine run_bind (k3 n) (run_getS (run_neg (by decide) (run_neg (by decide) (run_neg (by decide) (run_pos (by decide) ?_)))))
    rw [hc1]; rfl

/-- With `d` names that can still be replaced, expansions nest at most `d` deep. -/
theorem exp_exists {Δ : Table} : ∀ (d : Nat) (H : List (List Byte)), ((Δ.filter fun e => e.2.isSome ∧ e.1 ∉ H).map (·.1)).length ≤ d → ∀ ts, ∃ os, Exp Δ d H ts os := by
  intro d
  induction d with
  | zero =>
    intro H hd ts
    induction ts with
    | nil => exact ⟨[], .nil _ _⟩
    | cons t ts ih =>
      obtain ⟨os, ho⟩ := ih
      refine ⟨t :: os, .copy (fun w hw => ?_) ho⟩
      by_cases hH : w ∈ H
      · exact .inr hH
      · left
        unfold lookup
        cases hf : Δ.find? fun e => e.1 == w with
        | none => rfl
        | some e =>
          have h1 := List.find?_some hf
          have h2 := List.mem_of_find?_eq_some hf
          simp only [beq_iff_eq] at h1
          have hz := List.length_eq_zero_iff.mp (Nat.le_zero.mp hd)
          rw [List.map_eq_nil_iff, List.filter_eq_nil_iff] at hz
          have h3 := hz e h2
          rw [h1] at h3
          cases h4 : e.2 with
          | none => exact h4
          | some b => rw [h4] at h3; exact absurd (by simp [hH]) h3
  | succ d ihd =>
    intro H hd ts
    induction ts with
    | nil => exact ⟨[], .nil _ _⟩
    | cons t ts ih =>
      obtain ⟨os, ho⟩ := ih
      by_cases hx : ∃ w b, t = .id w ∧ w ∉ H ∧ lookup Δ w = some b
      · obtain ⟨w, b, rfl, hH, hb⟩ := hx
        have hlt : ((Δ.filter fun e => e.2.isSome ∧ e.1 ∉ w :: H).map (·.1)).length ≤ d := by
          have : (Δ.filter fun e => e.2.isSome ∧ e.1 ∉ w :: H).length < (Δ.filter fun e => e.2.isSome ∧ e.1 ∉ H).length := by
            unfold lookup at hb
            cases hf : Δ.find? fun e => e.1 == w with
            | none => rw [hf] at hb; simp at hb
            | some e =>
              rw [hf] at hb
              have h1 := List.find?_some hf
              have h2 := List.mem_of_find?_eq_some hf
              simp only [beq_iff_eq] at h1
              have key : ∀ l : Table, e ∈ l → (l.filter fun e => e.2.isSome ∧ e.1 ∉ w :: H).length < (l.filter fun e => e.2.isSome ∧ e.1 ∉ H).length := by
                intro l
                have le : ∀ l : Table, (l.filter fun e => e.2.isSome ∧ e.1 ∉ w :: H).length ≤ (l.filter fun e => e.2.isSome ∧ e.1 ∉ H).length := by
                  intro l
                  rw [← List.countP_eq_length_filter, ← List.countP_eq_length_filter]
                  exact List.countP_mono_left (fun x _ hx => by simp at hx ⊢; exact ⟨hx.1, hx.2.2⟩)
                induction l with
                | nil => simp
                | cons a l il =>
                  intro hm
                  by_cases ha : a = e
                  · subst ha
                    rw [List.filter_cons_of_neg (by simp [h1]), List.filter_cons_of_pos (by simp [h1, hH, show a.2 = some b from hb])]
                    have := le l
                    simp only [List.length_cons]; omega
                  · have := il (by simpa [Ne.symm ha] using hm)
                    rw [List.filter_cons, List.filter_cons]
                    split <;> split
                    · simpa using this
                    · rename_i p q; simp at p q; exact absurd p.2.2 (by simpa using q p.1)
                    · simp only [List.length_cons]; omega
                    · exact this
              exact key Δ h2
          simp only [List.length_map] at hd ⊢
          omega
        obtain ⟨bs, hbs⟩ := ihd (w :: H) hlt b
        exact ⟨bs ++ os, .repl hH hb hbs ho⟩
      · refine ⟨t :: os, .copy (fun w hw => ?_) ho⟩
        by_cases hH : w ∈ H
        · exact .inr hH
        · left
          cases hb : lookup Δ w with
          | none => rfl
          | some b => exact absurd ⟨w, b, hw, hH, hb⟩ hx

/-- The expansion is unique. -/
theorem exp_unique {Δ : Table} {d : Nat} {H : List (List Byte)} {ts os : List PTok} (h : Exp Δ d H ts os) : ∀ {d' os'}, Exp Δ d' H ts os' → os' = os := by
  induction h with
  | nil => intro d' os' h'; cases h'; rfl
  | copy ht _ ih =>
    intro d' os' h'
    cases h' with
    | copy _ h2 => rw [ih h2]
    | repl hw hb _ _ =>
      rcases ht _ rfl with h | h
      · rw [h] at hb; cases hb
      · exact absurd h hw
  | repl hw hb _ _ ih1 ih2 =>
    intro d' os' h'
    cases h' with
    | copy ht h2 =>
      rcases ht _ rfl with h | h
      · rw [h] at hb; cases hb
      · exact absurd h hw
    | repl hw' hb' h1 h2 =>
      rw [hb] at hb'
      cases hb'
      rw [ih1 h1, ih2 h2]

/-- Text that is not kept produces nothing and defines nothing. -/
theorem ev_dropped {d : Nat} {m : Mode} {k td td' : Nat} {Δ Δ' : Table} {src out : List PTok} (h : Ev fs d m k td Δ src td' Δ' out) : (m = .lines false ∨ ∃ t, m = .more false t) → out = [] ∧ Δ' = Δ := by
  induction h with
  | nil => exact fun _ => ⟨rfl, rfl⟩
  | text _ _ _ _ _ ih =>
    intro hm
    have hm' := hm
    rcases hm with hm | ⟨_, hm⟩ <;> cases hm
    simpa using ih hm'
  | define => rintro (hm | ⟨_, hm⟩) <;> cases hm
  | incl => rintro (hm | ⟨_, hm⟩) <;> cases hm
  | undef => rintro (hm | ⟨_, hm⟩) <;> cases hm
  | skip _ _ _ _ _ ih => exact ih
  | sect _ _ _ _ _ _ _ ih1 ih2 ih3 =>
    intro hm
    have hm' := hm
    rcases hm with hm | ⟨_, hm⟩ <;> cases hm
    obtain ⟨rfl, rfl⟩ := ih1 (.inl rfl)
    obtain ⟨rfl, rfl⟩ := ih2 (.inr ⟨_, rfl⟩)
    obtain ⟨rfl, rfl⟩ := ih3 hm'
    exact ⟨rfl, rfl⟩
  | endif => exact fun _ => ⟨rfl, rfl⟩
  | els _ _ _ ih =>
    intro hm
    rcases hm with hm | ⟨_, hm⟩ <;> cases hm
    exact ih (.inl rfl)
  | elif => rintro (hm | ⟨_, hm⟩) <;> cases hm
  | elifSkip _ _ _ _ _ _ ih1 ih2 =>
    intro hm
    have hm' := hm
    rcases hm with hm | ⟨_, hm⟩ <;> cases hm
    obtain ⟨rfl, rfl⟩ := ih1 (.inl rfl)
    obtain ⟨rfl, rfl⟩ := ih2 hm'
    exact ⟨rfl, rfl⟩

/-! ## Checks for the examples -/

def litB (q : Byte) : List Byte → Bool
  | [] => true
  | [c] => decide (c ≠ 0x5C ∧ c ≠ q ∧ c ≠ 0 ∧ c ≠ 0x0A)
  | c :: d :: r => if c = 0x5C then decide (d ≠ 0 ∧ d ≠ 0x0A) && litB q r else decide (c ≠ q ∧ c ≠ 0 ∧ c ≠ 0x0A) && litB q (d :: r)

theorem lit_of_litB {q : Byte} : ∀ {w : List Byte}, litB q w = true → LitBody q w
  | [], _ => trivial
  | [c], h => by rw [litB, decide_eq_true_eq] at h; exact h
  | c :: d :: r, h => by
    rw [litB] at h
    rw [LitBody]
    by_cases hc : c = 0x5C
    · rw [if_pos hc, Bool.and_eq_true] at h
      rw [if_pos hc]
      exact ⟨(of_decide_eq_true h.1).1, (of_decide_eq_true h.1).2, lit_of_litB h.2⟩
    · rw [if_neg hc, Bool.and_eq_true] at h
      rw [if_neg hc]
      have := of_decide_eq_true h.1
      exact ⟨this.1, this.2.1, this.2.2, lit_of_litB h.2⟩
  termination_by w => w.length

def endB : List Byte → Bool
  | 0x2A :: 0x2F :: _ => true
  | _ :: w => endB w
  | [] => false

theorem endB_app : ∀ (a b : List Byte), endB (a ++ 0x2A :: 0x2F :: b) = true
  | [], _ => rfl
  | c :: a, b => by
    have ih := endB_app a b
    rw [List.cons_append, endB.eq_def]
    split
    · rfl
    · next h => cases h; exact ih
    · next h => cases h

/-- The text before and after the end of a comment. -/
def cutB : List Byte → List Byte × List Byte
  | 0x2A :: 0x2F :: b => ([], b)
  | c :: r => (c :: (cutB r).1, (cutB r).2)
  | [] => ([], [])

def blockB (w : List Byte) : Bool := (w.all fun c => decide (c ≠ 0)) && !endB w

theorem block_of {w : List Byte} (h : blockB w = true) : Block (0x2F :: 0x2A :: (w ++ [0x2A, 0x2F])) := by
  simp only [blockB, Bool.and_eq_true, decide_eq_true_eq, List.all_eq_true] at h
  refine ⟨w, rfl, h.1, fun a b e => ?_⟩
  rw [e, endB_app] at h
  exact absurd h.2 (by decide)

def blanksB (b : List Byte) : Bool := !b.isEmpty && b.all fun c => decide (IsBlank c)

def wsB (w : List Byte) : Bool :=
  blanksB w || decide (w = 0x2F :: 0x2A :: ((cutB (w.drop 2)).1 ++ [0x2A, 0x2F]) ++ (cutB (w.drop 2)).2) && blockB (cutB (w.drop 2)).1 && blanksB (cutB (w.drop 2)).2

theorem blanks_of {b : List Byte} (h : blanksB b = true) : b ≠ [] ∧ ∀ d ∈ b, IsBlank d := by
  simp [blanksB] at h
  exact ⟨fun e => by simp [e] at h, h.2⟩

def okB : PTok → Bool
  | .ws w => wsB w
  | .nl => true
  | .id (c :: r) => decide (IsAlpha c) && r.all fun c => decide (IsWord c)
  | .num (c :: r) => decide (IsDig c) && r.all fun c => decide (IsWord c)
  | .op w => opTable.any fun e => e.1 == w
  | .lit q w => decide (q = 0x22 ∨ q = 0x27) && litB q w
  | _ => false

theorem ok_of_okB {t : PTok} (h : okB t = true) : t.Ok := by
  match t, h with
  | .ws w, h =>
    rw [okB, wsB, Bool.or_eq_true, Bool.and_eq_true, Bool.and_eq_true, decide_eq_true_eq] at h
    rcases h with h | ⟨⟨h1, h2⟩, h3⟩
    · exact ⟨[], w, rfl, .inl rfl, blanks_of h⟩
    · exact ⟨_, _, h1, .inr (block_of h2), blanks_of h3⟩
  | .nl, _ => trivial
  | .id (c :: r), h => simp [okB] at h; exact ⟨c, r, rfl, h.1, h.2⟩
  | .num (c :: r), h => simp [okB] at h; exact ⟨c, r, rfl, h.1, h.2⟩
  | .op w, h =>
    simp only [okB, List.any_eq_true, beq_iff_eq] at h
    obtain ⟨⟨a, b, c⟩, h1, rfl⟩ := h
    exact ⟨b, c, h1⟩
  | .lit q w, h =>
    rw [okB, Bool.and_eq_true] at h
    exact ⟨of_decide_eq_true h.1, lit_of_litB h.2⟩

def sepB : PTok → List Byte → Bool
  | _, [] => true
  | .ws _, c :: _ => decide (¬ IsBlank c ∧ c.toNat < 0x80 ∧ c ≠ 0)
  | .nl, _ => true
  | .id _, c :: _ => decide (¬ IsWord c)
  | .num _, c :: _ => decide (¬ IsWord c)
  | .op w, c :: _ => opTable.all fun e => e.1 != w || !e.2.2.contains c
  | .lit _ _, _ => true

theorem sep_of_sepB {t : PTok} {r : List Byte} (h : sepB t r = true) : t.Sep r := by
  cases t <;> cases r with
  | nil => simp [PTok.Sep]
  | cons c r =>
    first
    | trivial
    | (intro d hd; simp at hd; subst hd; exact of_decide_eq_true h)
    | (intro t x hm d hd hx
       simp at hd; subst hd
       have := List.all_eq_true.mp h _ hm
       simp [hx] at this)

def spelledB : List PTok → List Byte → Bool
  | [], _ => true
  | t :: ts, r => okB t && sepB t (render ts ++ r) && spelledB ts r

theorem spelled_of {ts : List PTok} {r : List Byte} (h : spelledB ts r = true) : Spelled ts r := by
  induction ts with
  | nil => trivial
  | cons t ts ih =>
    simp only [spelledB, Bool.and_eq_true] at h
    exact ⟨ok_of_okB h.1.1, sep_of_sepB h.1.2, ih h.2⟩

def textB (t : PTok) : Bool := okB t && t != .op (asc "#") && match t with | .id w => !special.contains w | _ => true

theorem text_of {t : PTok} (h : textB t = true) : TextTok t := by
  simp only [textB, Bool.and_eq_true] at h
  refine ⟨ok_of_okB h.1.1, by simpa using h.1.2, ?_⟩
  rintro w rfl
  simpa using h.2

def bodyB (t : PTok) : Bool := okB t && t != .nl && t != .op (asc "#") && t != .op (asc "##") && match t with | .id w => !special.contains w | _ => true

theorem body_of {t : PTok} (h : bodyB t = true) : BodyTok t := by
  simp only [bodyB, Bool.and_eq_true] at h
  refine ⟨ok_of_okB h.1.1.1.1, by simpa using h.1.1.1.2, by simpa using h.1.1.2, by simpa using h.1.2, ?_⟩
  rintro w rfl
  simpa using h.2

/-- The comments of the examples. -/
inductive C
  | none
  | line (w : List Byte)
  | block (w : List Byte)

def C.text : C → List Byte
  | .none => []
  | .line w => 0x2F :: 0x2F :: w
  | .block w => 0x2F :: 0x2A :: (w ++ [0x2A, 0x2F])

def cB : C → List Byte → Bool
  | .none, _ => true
  | .line w, r => (w.all fun c => decide (c ≠ 0 ∧ c ≠ 0x0A)) && decide (r = [] ∨ r.head? = some 0x0A)
  | .block w, _ => blockB w

theorem cmts_of {c : C} {l r : List Byte} (h : cB c l = true) (h' : Cmts l r) : Cmts (c.text ++ l) r := by
  cases c with
  | none => exact h'
  | line w =>
    simp only [cB, Bool.and_eq_true, decide_eq_true_eq, List.all_eq_true] at h
    exact .cons (.line h.1 h.2) h'
  | block w =>
    exact .cons (.block (block_of h)) h'

def ctext : List (C × PTok) → List Byte
  | [] => []
  | (c, t) :: l => c.text ++ (t.text ++ ctext l)

def ctoks (l : List (C × PTok)) : List PTok := l.map (·.2)

def commB : List (C × PTok) → Bool
  | [] => true
  | (c, t) :: l => okB t && sepB t (ctext l) && sepB t (render (ctoks l)) && cB c (t.text ++ ctext l) && commB l

theorem comm_of : ∀ {l : List (C × PTok)}, commB l = true → Commented (ctext l) (render (ctoks l))
  | [], _ => .nil (.nil _)
  | (c, t) :: l, h => by
    simp only [commB, Bool.and_eq_true] at h
    obtain ⟨⟨⟨⟨h1, h2⟩, h3⟩, h4⟩, h5⟩ := h
    exact .tok (ok_of_okB h1) (sep_of_sepB h2) (sep_of_sepB h3) (cmts_of h4 (.nil _)) (comm_of h5)

def plainB (Δ : Table) (t : PTok) : Bool := match t with | .id w => (lookup Δ w).isNone | _ => true

/-- Text without macros. -/
theorem exp_plain {Δ : Table} {d : Nat} {H : List (List Byte)} : ∀ {ts : List PTok}, ts.all (plainB Δ) = true → Exp Δ d H ts ts
  | [], _ => .nil _ _
  | t :: ts, h => by
    simp only [List.all_cons, Bool.and_eq_true] at h
    refine .copy (fun w hw => .inl ?_) (exp_plain h.2)
    subst hw
    simpa [plainB] using h.1

/-- A circle of nodes is no list. -/
theorem circle {node : Nat → Node} (h : ∀ i < 128, (node i).next = some ((i + 1) % 128)) : ∀ (fl : List Nat) (i : Nat), i < 128 → ¬ Nodes node (some i) fl
  | [], _, _, hn => hn
  | j :: fl, i, hi, hn => by
    have := hn.2
    rw [h i hi] at this
    exact circle h fl _ (Nat.mod_lt _ (by decide)) this

end Props.ScppMain

namespace Props
open _root_.Scpp Prog Text Props.ScppLex Props.ScppMacro Props.ScppDefine Props.ScppTable Props.ScppUndef Props.ScppRun Props.ScppExpr Props.ScppCond Props.ScppFile Props.ScppOpen Props.ScppMain

variable {fs : Fs} {name : List Byte}

/-! ## `C26` -/

/-- A file with the meaning `out` (`Ev`: the text in the groups that are kept, with the macros defined by the directives that are kept expanded) is accepted, and `out` is written; `m` may have comments between the tokens (`Commented`).
Partial: files without comments that part two words or stand between two blanks in a directive, without function-like macros and the special names; `#include` only of a name in quotes at the end of the line, nested twice at most, of files that end with
an end of line that is not that of an `#include`. -/
theorem C26_file_partial {td : Nat} {Δ : Table} {src out : List PTok} {m : List Byte} (h : Ev fs 0 (.lines true) 0 0 [] src td Δ out) (hsp : Spelled src []) (hm : Commented m (render src)) :
    ∃ N, ∀ n, N ≤ n → preprocess fs n name m = .ok (layout .none out).2.toArray := by
  obtain ⟨N, hN⟩ := run_ev2 (fs := fs) (name := name) (m := m) (by simpa using hm) h .nil (by simpa using hsp)
  refine ⟨N, fun n hn => ?_⟩
  obtain ⟨s', h1, _, h2⟩ := hN n hn
  simp only [List.append_nil] at h2
  exact preprocess_ok h1 h2

/-- In text that is not kept nothing is written and nothing is defined. -/
theorem C26_dropped {d k td td' : Nat} {Δ Δ' : Table} {src out : List PTok} (h : Ev fs d (.lines false) k td Δ src td' Δ' out) : out = [] ∧ Δ' = Δ := ev_dropped h (.inl rfl)

/-- `#elif`, `#else` and `#endif` outside of sections are rejected, whatever follows. -/
theorem C26_unmatched {td : Nat} {Δ : Table} {src out : List PTok} {V W : Option (List Byte)} {m w r : List Byte} (h : Ev fs 0 (.lines true) 0 0 [] src td Δ out) (htd : td + 9 ≤ 2048)
    (hw : w = asc "elif" ∨ w = asc "else" ∨ w = asc "endif") (hsp : Spelled (src ++ (dir V w ++ (sps W ++ [.nl]))) r) (hm : Commented m (render (src ++ (dir V w ++ (sps W ++ [.nl]))) ++ r)) :
    ∃ N, ∀ n, N ≤ n → preprocess fs n name m = .error .assertFail := by
  obtain ⟨p1, p2⟩ := Spelled.app hsp
  obtain ⟨p3, p4⟩ := Spelled.app p2
  obtain ⟨k, hk, hb⟩ : ∃ k, (k = 5 ∨ k = 6 ∨ k = 7) ∧ builtins[k]? = some w := by
    rcases hw with rfl | rfl | rfl
    · exact ⟨5, by decide, by decide⟩
    · exact ⟨6, by decide, by decide⟩
    · exact ⟨7, by decide, by decide⟩
  obtain ⟨x, rfl, N, hN⟩ := run_ev (fs := fs) (name := name) (P := fun x => x = .err .assertFail) (m := m) (by rw [← render_append]; exact hm) h p1 fun s ws k1 k2 k3 k4 k5 k6 k7 => by
    rw [render_append] at k5
    refine dir_fail hb k1 k5 p3 (by omega) fun s2 q1 q2 q3 q4 => ⟨1, _, unmatched_run q1 hk (q3.cond.trans k2) q2 p4, rfl⟩
  refine ⟨N, fun n hn => ?_⟩
  unfold preprocess
  rw [hN n hn]

/-- The end of the file in sections, whatever their number: not rejected (the code finds no fault), the text so far is written. -/
theorem C26_unterminated_violated {k td : Nat} {act : Bool} {Δ : Table} {src out : List PTok} {m : List Byte} (h : Upto fs 0 (.lines true) 0 0 [] src act k td Δ out) (hsp : Spelled src [])
    (hm : Commented m (render src)) : ∃ N, ∀ n, N ≤ n → preprocess fs n name m = .ok (layout .none out).2.toArray := by
  obtain ⟨x, ⟨s', rfl, _, h2⟩, N, hN⟩ := run_upto (fs := fs) (name := name) (P := fun x => ∃ s', x = .ok () s' ∧ Pool Δ s' ∧ s'.out.toList = (layout .none out).2) (m := m) (r := [])
    (by rw [List.append_nil]; exact hm) h hsp fun s ws k1 k2 k3 _ => fin_end k1.1 k2 k1.2.2.2.2 k3
  exact ⟨N, fun n hn => preprocess_ok (hN n hn) h2⟩

/-- `#error` in text that is kept, in any number of sections, ends the preprocessor. -/
theorem C26_error {k td : Nat} {Δ : Table} {src out : List PTok} {V : Option (List Byte)} {m r : List Byte} (h : Upto fs 0 (.lines true) 0 0 [] src true k td Δ out) (htd : td + 9 ≤ 2048)
    (hsp : Spelled (src ++ dir V (asc "error")) r) (hm : Commented m (render (src ++ dir V (asc "error")) ++ r)) : ∃ N, ∀ n, N ≤ n → preprocess fs n name m = .error .fatal := by
  obtain ⟨p1, p2⟩ := Spelled.app hsp
  obtain ⟨x, rfl, N, hN⟩ := run_upto (fs := fs) (name := name) (P := fun x => x = .err .fatal) (m := m) (by rw [← render_append]; exact hm) h p1 fun s ws k1 k2 k3 _ => by
    obtain ⟨i1, i2, i3, i4, _⟩ := k1
    exact dir_fail (k := 10) (by decide) i1 k2 p2 (by omega) fun s2 _ _ q3 _ => ⟨1, _, error_run (by rw [q3.cond]; exact i3), rfl⟩
  refine ⟨N, fun n hn => ?_⟩
  unfold preprocess
  rw [hN n hn]

/-- `#include` of a file that does not exist ends the preprocessor. -/
theorem C26_no_file {k td : Nat} {Δ : Table} {src out : List PTok} {V : Option (List Byte)} {m v nm r : List Byte} (h : Upto fs 0 (.lines true) 0 0 [] src true k td Δ out) (hf : fs nm = none)
    (htd : td + 9 ≤ 2048) (htd' : td + (nm.length + 1) ≤ 2048) (hsp : Spelled (src ++ (dir V (asc "include") ++ [.ws v, .lit 0x22 nm, .nl])) r)
    (hm : Commented m (render (src ++ (dir V (asc "include") ++ [.ws v, .lit 0x22 nm, .nl])) ++ r)) : ∃ N, ∀ n, N ≤ n → preprocess fs n name m = .error .fatal := by
  obtain ⟨p1, p2⟩ := Spelled.app hsp
  obtain ⟨p3, p4⟩ := Spelled.app p2
  obtain ⟨x, rfl, N, hN⟩ := run_upto (fs := fs) (name := name) (P := fun x => x = .err .fatal) (m := m) (by rw [← render_append]; exact hm) h p1 fun s ws k1 k2 k3 _ => by
    obtain ⟨i1, i2, i3, i4, i5⟩ := k1
    rw [render_append] at k2
    refine dir_fail (k := 8) (by decide) i1 k2 p3 (by omega) fun s2 q1 q2 q3 q4 => ?_
    obtain ⟨N, hN⟩ := include_none (fs := fs) q1 (by rw [q3.cond]; exact i3) (by rw [q3.files, i5]; decide) hf (by omega) q2 p4
    exact ⟨N, _, hN, rfl⟩
  refine ⟨N, fun n hn => ?_⟩
  unfold preprocess
  rw [hN n hn]

/-- `A` is written unless the macro `A` is defined. -/
def c26File (ts : List PTok) : List PTok := ts ++ (dir none (asc "ifdef") ++ ([.ws (asc " "), .id (asc "A"), .nl] ++ ([.id (asc "x"), .nl] ++
  ((dir none (asc "else") ++ (([] ++ [.nl]) ++ ([.id (asc "y"), .nl] ++ (dir none (asc "endif") ++ ([] ++ [.nl]))))) ++ [.id (asc "z"), .nl]))))

/-- The macro table after `#define A`. -/
def c26Table : Table := [(asc "A", some [])]

theorem c26_ev : Ev fs 0 (.lines true) 0 0 [] (c26File (dir none (asc "define") ++ ((.ws (asc " ") :: .id (asc "A") :: (bodyToks [] [] none ++ [.nl])) ++ []))) 2 c26Table
    [.id (asc "x"), .nl, .id (asc "z"), .nl] := by
  have h0 : Ev fs 0 (.lines true) 0 2 c26Table (c26File []) 2 c26Table [.id (asc "x"), .nl, .id (asc "z"), .nl] := by
    refine Ev.sect (act := true) (c := true) (td1 := 2) (td2 := 2) (Δ1 := c26Table) (Δ2 := c26Table) (o1 := [.id (asc "x"), .nl]) (o2 := []) (by decide) (by decide) (by decide) ?_ ?_ ?_ ?_
    · exact Test.ifdef (W := none) (by decide)
    · exact Ev.text (act := true) (ts := [.id (asc "x"), .nl]) (rest := []) (exp_plain (by decide)) (fun t h => text_of (by revert t; decide)) (.inr rfl) (by decide) .nil
    · exact Ev.els (V := none) (V' := none) (W := none) (W' := none) (by decide)
        (Ev.text (act := false) (ts := [.id (asc "y"), .nl]) (rest := []) (out := []) (exp_plain (by decide)) (fun t h => text_of (by revert t; decide)) (.inr rfl) (by decide) .nil) (by decide)
    · exact Ev.text (act := true) (ts := [.id (asc "z"), .nl]) (rest := []) (exp_plain (by decide)) (fun t h => text_of (by revert t; decide)) (.inr rfl) (by decide) .nil
  exact Ev.define (V := none) (W := none) (v1 := asc " ") (v := []) (w := asc "A") (b := []) (Δ := []) (td := 0) (by decide) (.inr (by decide)) (by decide) (by simp) (by simp [Trim, Apart]) (by decide) (by decide) h0

example : render (c26File (dir none (asc "define") ++ ((.ws (asc " ") :: .id (asc "A") :: (bodyToks [] [] none ++ [.nl])) ++ []))) =
    asc "#define A\n#ifdef A\nx\n#else\ny\n#endif\nz\n" := by decide +kernel

example : ∃ N, ∀ n, N ≤ n → preprocess fs n name (asc "#define A\n#ifdef A\nx\n#else\ny\n#endif\nz\n") = .ok (asc "x\r\nz").toArray := by
  have := C26_file_partial (fs := fs) (name := name) c26_ev (spelled_of (by decide +kernel)) (.rest _)
  rw [show render (c26File (dir none (asc "define") ++ ((.ws (asc " ") :: .id (asc "A") :: (bodyToks [] [] none ++ [.nl])) ++ []))) =
    asc "#define A\n#ifdef A\nx\n#else\ny\n#endif\nz\n" by decide +kernel] at this
  exact this

/-- The same file with comments. -/
def c26Commented : List (C × PTok) :=
  [(.block (asc " a\n* b *"), .op (asc "#")), (.none, .id (asc "define")), (.none, .ws (asc " ")), (.block [], .id (asc "A")), (.line (asc " A?"), .nl),
   (.none, .op (asc "#")), (.none, .id (asc "ifdef")), (.none, .ws (asc " ")), (.none, .id (asc "A")), (.none, .nl),
   (.none, .id (asc "x")), (.block (asc "/ '"), .nl),
   (.none, .op (asc "#")), (.none, .id (asc "else")), (.line (asc "\""), .nl),
   (.none, .id (asc "y")), (.none, .nl),
   (.none, .op (asc "#")), (.none, .id (asc "endif")), (.none, .nl),
   (.none, .id (asc "z")), (.none, .nl)]

example : ∃ N, ∀ n, N ≤ n →
    preprocess fs n name (asc "/* a\n* b **/#define /**/A// A?\n#ifdef A\nx/*/ '*/\n#else//\"\ny\n#endif\nz\n") = .ok (asc "x\r\nz").toArray := by
  have hc := comm_of (l := c26Commented) (by decide +kernel)
  have := C26_file_partial (fs := fs) (name := name) c26_ev (spelled_of (by decide +kernel)) hc
  rw [show ctext c26Commented = asc "/* a\n* b **/#define /**/A// A?\n#ifdef A\nx/*/ '*/\n#else//\"\ny\n#endif\nz\n" by decide +kernel] at this
  exact this

/-- Comments between blanks: white space that begins with a comment. -/
example : ∃ N, ∀ n, N ≤ n → preprocess fs n name (asc "x /* a */ /* * b */\t= y; /* ' */ // z\n") = .ok (asc "x = y;").toArray := by
  let ts : List PTok := [.id (asc "x"), .ws (asc " "), .ws (asc "/* a */ "), .ws (asc "/* * b */\t"), .op (asc "="), .ws (asc " "), .id (asc "y"), .op (asc ";"), .ws (asc " "), .ws (asc "/* ' */ "), .nl]
  have hc := comm_of (l := [(.none, .id (asc "x")), (.none, .ws (asc " ")), (.none, .ws (asc "/* a */ ")), (.none, .ws (asc "/* * b */\t")), (.none, .op (asc "=")), (.none, .ws (asc " ")), (.none, .id (asc "y")),
    (.none, .op (asc ";")), (.none, .ws (asc " ")), (.none, .ws (asc "/* ' */ ")), (.line (asc " z"), .nl)]) (by decide +kernel)
  have := C26_file_partial (fs := fs) (name := name) (src := ts)
    (Ev.text (act := true) (ts := ts) (rest := []) (out := []) (exp_plain (by decide +kernel)) (fun t h => text_of (by revert t; decide +kernel)) (.inr rfl) (by decide) .nil) (spelled_of (by decide +kernel)) hc
  exact this

/-- A header that defines a macro and uses it, and a file that includes it. -/
def c26Header : List PTok :=
  dir none (asc "define") ++ ((.ws (asc " ") :: .id (asc "A") :: (bodyToks (asc " ") [.id (asc "b")] none ++ [.nl])) ++ ([.id (asc "A"), .op (asc ";"), .nl] ++ []))

def c26Includes : List PTok := [.id (asc "x"), .nl] ++ (dir none (asc "include") ++ ([.ws (asc " "), .lit 0x22 (asc "h.h"), .nl] ++ ([.id (asc "A"), .nl] ++ [])))

example (hf : fs (asc "h.h") = some (asc "#define A b\nA;\n")) : ∃ N, ∀ n, N ≤ n → preprocess fs n name (asc "x\n#include \"h.h\"\nA\n") = .ok (asc "x\r\nb;\r\nb").toArray := by
  have hb : ∀ d H, Exp [(asc "A", some [.id (asc "b")])] d H [.id (asc "b")] [.id (asc "b")] := fun d H => .copy (fun w hw => .inl (by cases hw; decide +kernel)) (.nil _ _)
  have h1 : Ev fs 1 (.lines true) 0 (0 + ((asc "h.h").length + 1)) [] c26Header (0 + ((asc "h.h").length + 1) + ((asc "A").length + 1) + needs [.id (asc "b")]) [(asc "A", some [.id (asc "b")])]
      (([.id (asc "b")] ++ [.op (asc ";"), .nl]) ++ []) :=
    Ev.define (by decide) (.inr (by decide)) (by decide) (fun t ht => body_of (by revert t; decide)) (by simp [Trim, Apart]) (by decide) (by decide)
      (Ev.text (act := true) (.repl (b := [.id (asc "b")]) (by decide) (by decide +kernel) (hb 9 _) (exp_plain (by decide))) (fun t h => text_of (by revert t; decide)) (.inr rfl) (by decide) .nil)
  have h2 : Ev fs 0 (.lines true) 0 0 [] c26Includes _ _ ([.id (asc "x"), .nl] ++ ((([.id (asc "b")] ++ [.op (asc ";"), .nl]) ++ []) ++ (([.id (asc "b")] ++ [.nl]) ++ []))) :=
    Ev.text (act := true) (exp_plain (by decide)) (fun t h => text_of (by revert t; decide)) (.inl rfl) (by decide)
      (Ev.incl (by decide) hf (.rest _) (spelled_of (by decide +kernel)) (.inr rfl) (fun ⟨a, w, h⟩ => by simpa [c26Header, dir, bodyToks] using congrArg (fun l : List PTok => l.reverse.take 2) h) (by decide) (by decide) h1
        (Ev.text (act := true) (.repl (b := [.id (asc "b")]) (by decide) (by decide +kernel) (hb 9 _) (exp_plain (by decide))) (fun t h => text_of (by revert t; decide)) (.inr rfl) (by decide) .nil))
  have := C26_file_partial (fs := fs) (name := name) h2 (spelled_of (by decide +kernel)) (.rest _)
  rw [show render c26Includes = asc "x\n#include \"h.h\"\nA\n" by decide +kernel] at this
  exact this

/-- What is written, as a check. -/
def writes (n : Nat) (input out : List Byte) : Bool :=
  match preprocess (fun _ => none) n (asc "a.c") input with
  | .ok o => o.toList == out
  | .error _ => false

/-- A comment between two words does not part them: the text after it is read as one word by the compiler. -/
theorem C26_comment_joins_violated : writes 60 (asc "int/**/x;\n") (asc "intx;") = true := by decide +kernel

/-- What is written, as a check, with a file `h`. -/
def writesH (n : Nat) (h input out : List Byte) : Bool :=
  match preprocess (fun w => if w = asc "h" then some h else none) n (asc "a.c") input with
  | .ok o => o.toList == out
  | .error _ => false

/-- Sections are not closed at the end of an included file: a header with a section that is not closed takes the rest of the file that includes it with it, and a header may close a section of that file. -/
theorem C26_across_files_violated :
    writesH 60 (asc "#ifdef A\n") (asc "x\n#include \"h\"\ny\n") (asc "x") = true ∧ writesH 60 (asc "#endif\n") (asc "#ifndef A\n#include \"h\"\ny\n") (asc "y") = true := by decide +kernel

/-- The last word of an included file without a newline at its end and the first word behind the `#include` become one. -/
theorem C26_files_join_violated : writesH 60 (asc "int") (asc "#include \"h\"\nx;\n") (asc "intx;") = true := by decide +kernel

example : ∃ N, ∀ n, N ≤ n → preprocess fs n name (asc "#endif\nx") = .error .assertFail := by
  have := C26_unmatched (fs := fs) (name := name) (V := none) (W := none) (w := asc "endif") (r := asc "x") .nil (by decide) (by decide) (spelled_of (by decide +kernel)) (.rest _)
  exact this

/-- In two sections, the second with `#else`. -/
def c26Open : List PTok := dir none (asc "ifdef") ++ ([.ws (asc " "), .id (asc "__SCC__"), .nl] ++ (dir none (asc "ifdef") ++ ([.ws (asc " "), .id (asc "A"), .nl] ++ (([.id (asc "x"), .nl] ++ []) ++
  (dir none (asc "else") ++ (([] ++ [.nl]) ++ (([.id (asc "y"), .nl] ++ []) ++ [])))))))

theorem c26_open : Upto fs 0 (.lines true) 0 0 [] c26Open true 2 0 [] [.id (asc "y"), .nl] := by
  refine Upto.sect (c := true) (by decide) (by decide) (by decide) (Test.ifdef (v := asc " ") (w := asc "__SCC__") (W := none) (by decide)) ?_
  refine Upto.sectMore (c := false) (td1 := 0) (Δ1 := []) (o1 := []) (by decide) (by decide) (by decide) (Test.ifdef (v := asc " ") (w := asc "A") (W := none) (by decide)) ?_ ?_
  · exact Ev.text (act := false) (ts := [.id (asc "x"), .nl]) (rest := []) (out := []) (exp_plain (by decide)) (fun t h => text_of (by revert t; decide)) (.inr rfl) (by decide) .nil
  · refine Upto.els (W := none) (by decide) (Upto.seq (o1 := [.id (asc "y"), .nl]) (o2 := []) ?_ .nil)
    exact Ev.text (act := true) (ts := [.id (asc "y"), .nl]) (rest := []) (out := []) (exp_plain (by decide)) (fun t h => text_of (by revert t; decide)) (.inr rfl) (by decide) .nil

example : ∃ N, ∀ n, N ≤ n → preprocess fs n name (asc "#ifdef __SCC__\n#ifdef A\nx\n#else\ny\n") = .ok (asc "y").toArray := by
  have := C26_unterminated_violated (fs := fs) (name := name) c26_open (spelled_of (by decide +kernel)) (.rest _)
  rw [show render c26Open = asc "#ifdef __SCC__\n#ifdef A\nx\n#else\ny\n" by decide +kernel] at this
  exact this

example : ∃ N, ∀ n, N ≤ n → preprocess fs n name (asc "#ifdef __SCC__\n#ifdef A\nx\n#else\ny\n#error no A\n'") = .error .fatal := by
  have := C26_error (fs := fs) (name := name) (V := none) (r := asc " no A\n'") c26_open (by decide) (spelled_of (by decide +kernel)) (.rest _)
  rw [show render (c26Open ++ dir none (asc "error")) ++ asc " no A\n'" = asc "#ifdef __SCC__\n#ifdef A\nx\n#else\ny\n#error no A\n'" by decide +kernel] at this
  exact this

example (hf : fs (asc "h") = none) : ∃ N, ∀ n, N ≤ n → preprocess fs n name (asc "#ifdef __SCC__\n#ifdef A\nx\n#else\ny\n#include \"h\"\nz") = .error .fatal := by
  have := C26_no_file (fs := fs) (name := name) (V := none) (v := asc " ") (r := asc "z") c26_open hf (by decide) (by decide) (spelled_of (by decide +kernel)) (.rest _)
  rw [show render (c26Open ++ (dir none (asc "include") ++ [.ws (asc " "), .lit 0x22 (asc "h"), .nl])) ++ asc "z" = asc "#ifdef __SCC__\n#ifdef A\nx\n#else\ny\n#include \"h\"\nz" by decide +kernel] at this
  exact this

/-! ## `C27` -/

/-- `#if e`, `A`, `#else`, `B`, `#endif` after a file with the macros `Δ`: `A` is written if the value of `e` in C is not 0, otherwise `B`.
Partial: `Tame` (see there) expressions of which all parts have a value; `>`, chains of operators of the same level (except `& ^ | && ||`) and operands that C does not evaluate are wrong (below). -/
theorem C27_if_partial {td : Nat} {Δ : Table} {pre out A oA B oB : List PTok} {ss : List Src} {es es' : List El} {e : Ex} {v : Int} {m : List Byte}
    (hpre : Ev fs 0 (.lines true) 0 0 [] pre td Δ out)
    (h1 : SrcExp Δ ss es) (h2 : Str e es es') (h3 : dropWs es' = []) (h4 : Gram e) (h5 : Tame Δ e) (h6 : (val Δ e).isSome) (hv : cval Δ e = some v)
    (hA : Exp Δ 10 [] A oA) (hA' : ∀ t ∈ A, TextTok t) (hB : Exp Δ 10 [] B oB) (hB' : ∀ t ∈ B, TextTok t) (hn : ∀ t ∈ srcText ss ++ A ++ B, td + t.need ≤ 2048) (htd : td + 9 ≤ 2048)
    (hsp : Spelled (pre ++ (dir none (asc "if") ++ ((srcText ss ++ [.nl]) ++ (A ++ (dir none (asc "else") ++ (([] ++ [.nl]) ++ (B ++ (dir none (asc "endif") ++ ([] ++ [.nl]))))))))) []) (hm : Commented m (render (pre ++ (dir none (asc "if") ++ ((srcText ss ++ [.nl]) ++ (A ++ (dir none (asc "else") ++ (([] ++ [.nl]) ++ (B ++ (dir none (asc "endif") ++ ([] ++ [.nl]))))))))))) :
    ∃ N, ∀ n, N ≤ n → preprocess fs n name m = .ok (layout .none (out ++ if v ≠ 0 then oA else oB)).2.toArray := by
  obtain ⟨v', hv'⟩ := Option.isSome_iff_exists.mp h6
  have : v' = v := Option.some.inj ((cval_of_val e v' hv').symm.trans hv)
  subst this
  have hA2 : Ev fs 0 (.lines (true && decide (v' ≠ 0))) (0 + 1) td Δ A td Δ ((if (true && decide (v' ≠ 0)) = true then oA else []) ++ []) := by
    have := Ev.text (fs := fs) (d := 0) (act := true && decide (v' ≠ 0)) (k := 0 + 1) (rest := []) hA hA' (.inr rfl) (fun t ht => hn t (by simp [ht])) .nil
    simpa using this
  have hB2 : Ev fs 0 (.lines (true && !decide (v' ≠ 0))) (0 + 1) td Δ B td Δ ((if (true && !decide (v' ≠ 0)) = true then oB else []) ++ []) := by
    have := Ev.text (fs := fs) (d := 0) (act := true && !decide (v' ≠ 0)) (k := 0 + 1) (rest := []) hB hB' (.inr rfl) (fun t ht => hn t (by simp [ht])) .nil
    simpa using this
  have hsect := Ev.sect (V := none) (by decide) (by decide) htd
    (Test.expr (.inl rfl) h1 h2 h3 h4 h5 hv' (fun t ht => hn t (by simp [ht]))) hA2
    (Ev.els (V := none) (W := none) (V' := none) (W' := none) htd hB2 htd) Ev.nil
  rw [List.append_nil] at hsect
  obtain ⟨N, hN⟩ := run_ev2 (fs := fs) (name := name) hm hpre hsect hsp
  refine ⟨N, fun n hn => ?_⟩
  obtain ⟨s', q1, _, q2⟩ := hN n hn
  refine preprocess_ok q1 (q2.trans ?_)
  by_cases hz : v' = 0 <;> simp [hz]

/-- `1+2<4 && !B` is true. -/
example : ∃ N, ∀ n, N ≤ n → preprocess fs n name (asc "#if 1+2<4 && !B\nA\n#else\nB\n#endif\n") = .ok (asc "A").toArray := by
  have hE : SrcExp [] [.toks [.ws (asc " "), .num (asc "1"), .op (asc "+"), .num (asc "2"), .op (asc "<"), .num (asc "4"), .ws (asc " "), .op (asc "&&"), .ws (asc " "), .op (asc "!"), .id (asc "B")]]
      ([.tok (.ws (asc " ")), .tok (.num (asc "1")), .tok (.op (asc "+")), .tok (.num (asc "2")), .tok (.op (asc "<")), .tok (.num (asc "4")), .tok (.ws (asc " ")), .tok (.op (asc "&&")),
        .tok (.ws (asc " ")), .tok (.op (asc "!")), .tok (.id (asc "B"))] ++ []) :=
    .toks (exp_plain (by decide)) (fun t h => ⟨text_of (by revert t; decide), by revert t; decide⟩) .nil
  have := C27_if_partial (fs := fs) (name := name) (A := [.id (asc "A"), .nl]) (B := [.id (asc "B"), .nl]) (v := 1) (es' := [])
    (e := .bin (asc "&&") (.bin (asc "<") (.bin (asc "+") (.num (asc "1")) (.num (asc "2"))) (.num (asc "4"))) (.not (.name (asc "B")))) .nil hE
    ⟨_, _, ⟨_, _, ⟨_, _, rfl, rfl, rfl⟩, rfl, rfl⟩, rfl, _, rfl, rfl⟩ rfl (by simp only [Gram]; decide +kernel) (by simp only [Tame]; decide +kernel) (by decide +kernel) (by decide +kernel)
    (exp_plain (by decide)) (fun t h => text_of (by revert t; decide)) (exp_plain (by decide)) (fun t h => text_of (by revert t; decide)) (by decide +kernel) (by decide) (spelled_of (by decide +kernel)) (.rest _)
  exact this

/-- `2 > 1` counts as false. -/
theorem C27_gt_violated : writes 60 (asc "#if 2>1\nA\n#else\nB\n#endif\n") (asc "B") = true := by decide +kernel

/-- `10 - 3 - 2 == 9` counts as true. -/
theorem C27_assoc_violated : writes 60 (asc "#if 10-3-2==9\nA\n#else\nB\n#endif\n") (asc "A") = true := by decide +kernel

/-- `0 && 1/0` is not accepted. -/
theorem C27_and_violated : (match preprocess (fun _ => none) 60 (asc "a.c") (asc "#if 0&&1/0\nA\n#endif\n") with | .ok _ => true | .error .fuel => true | .error _ => false) = false := by decide +kernel

/-! ## `C30` -/

/-- At the end of a file the nodes of the pool are, each once, in the free list or in the replacement list of exactly one macro (`Pool`).
Partial: files without function-like macros (no argument lists), `Ev`; undefining a name twice is excluded (below). -/
theorem C30_pool_partial {td : Nat} {Δ : Table} {src out : List PTok} {m : List Byte} (h : Ev fs 0 (.lines true) 0 0 [] src td Δ out) (hsp : Spelled src []) (hm : Commented m (render src)) :
    ∃ N, ∀ n, N ≤ n → ∃ s, mainM fs n (init0 name m) = .ok () s ∧ ∃ (fl : List Nat) (own : List (List Nat)), Nodes s.node s.free fl ∧ own.length = Δ.length ∧
      (∀ (i : Nat) w b l, Δ[i]? = some (w, some b) → own[i]? = some l → Nodes s.node (s.mac i).repl l ∧ l.length = b.length) ∧
      (∀ (i : Nat) w l, Δ[i]? = some (w, none) → own[i]? = some l → l = []) ∧ (fl ++ own.flatten).Perm (List.range 128) := by
  obtain ⟨N, hN⟩ := run_ev2 (fs := fs) (name := name) (m := m) (by simpa using hm) h .nil (by simpa using hsp)
  refine ⟨N, fun n hn => ?_⟩
  obtain ⟨s', h1, h2, _⟩ := hN n hn
  exact ⟨s', h1, h2⟩

/-- After a name has been undefined twice, the free list goes round in a circle: it has no end. -/
theorem C30_undef_twice_violated : ∃ s, mainM (fun _ => none) 60 (init0 (asc "a.c") (asc "#define A x\n#undef A\n#undef A\n")) = .ok () s ∧ ∀ fl, ¬ Nodes s.node s.free fl := by
  have h : (match mainM (fun _ => none) 60 (init0 (asc "a.c") (asc "#define A x\n#undef A\n#undef A\n")) with
    | .ok _ s => s.free == some 0 && (List.range 128).all fun i => (s.node i).next == some ((i + 1) % 128) | .err _ => false) = true := by decide +kernel
  cases hm : mainM (fun _ => none) 60 (init0 (asc "a.c") (asc "#define A x\n#undef A\n#undef A\n")) with
  | err e => rw [hm] at h; cases h
  | ok a s =>
    rw [hm] at h
    simp only [Bool.and_eq_true, beq_iff_eq, List.all_eq_true, List.mem_range] at h
    exact ⟨s, rfl, fun fl => by rw [h.1]; exact circle h.2 fl 0 (by decide)⟩

/-! ## `C31` -/

/-- Text after a file that leaves the macros `Δ`, at most 10 of them defined, is expanded as `Exp` says: macros are replaced by their replacement lists, these are
expanded again with the macro disabled, everything else is copied; in particular the expansion ends.
Partial: object-like macros only (as the property says), text without the special names, comments as in `C26_file_partial`; more than 10 macros only if expansions nest at most 10 deep (`C26_file_partial`). -/
theorem C31_expand_partial {td : Nat} {Δ : Table} {src out ts : List PTok} {m : List Byte} (h : Ev fs 0 (.lines true) 0 0 [] src td Δ out) (hd : (Δ.filter fun e => e.2.isSome).length ≤ 10)
    (ht : ∀ t ∈ ts, TextTok t) (hn : ∀ t ∈ ts, td + t.need ≤ 2048) (hsp : Spelled (src ++ ts) []) (hm : Commented m (render (src ++ ts))) :
    ∃ os, Exp Δ 10 [] ts os ∧ ∃ N, ∀ n, N ≤ n → preprocess fs n name m = .ok (layout .none (out ++ os)).2.toArray := by
  obtain ⟨os, ho⟩ := exp_exists (Δ := Δ) 10 [] (by simpa using hd) ts
  have hev := Ev.text (fs := fs) (d := 0) (act := true) (k := 0) (rest := []) ho ht (.inr rfl) hn .nil
  obtain ⟨N, hN⟩ := run_ev2 (fs := fs) (name := name) (m := m) (by simpa using hm) h hev (by simpa using hsp)
  refine ⟨os, ho, N, fun n hn => ?_⟩
  obtain ⟨s', h1, _, h2⟩ := hN n hn
  simp only [List.append_nil, if_true] at h2
  exact preprocess_ok h1 h2

/-- `#define A B`, `#define B A x`: `A` becomes `A x`. -/
example : ∃ N, ∀ n, N ≤ n → preprocess fs n name (asc "#define A B\n#define B A x\nA\n") = .ok (asc "A x").toArray := by
  have h : Ev fs 0 (.lines true) 0 0 [] (dir none (asc "define") ++ ((.ws (asc " ") :: .id (asc "A") :: (bodyToks (asc " ") [.id (asc "B")] none ++ [.nl])) ++
      (dir none (asc "define") ++ ((.ws (asc " ") :: .id (asc "B") :: (bodyToks (asc " ") [.id (asc "A"), .ws (asc " "), .id (asc "x")] none ++ [.nl])) ++ []))))
      (0 + ((asc "A").length + 1) + needs [.id (asc "B")] + ((asc "B").length + 1) + needs [.id (asc "A"), .ws (asc " "), .id (asc "x")])
      [(asc "A", some [.id (asc "B")]), (asc "B", some [.id (asc "A"), .ws (asc " "), .id (asc "x")])] [] := by
    refine Ev.define (by decide) (.inr (by decide)) (by decide) ?_ (by simp [Trim, Apart]) (by decide) (by decide) (Ev.define (by decide) (.inr (by decide)) (by decide) ?_ (by simp [Trim, Apart]) (by decide) (by decide) .nil)
    · exact fun t ht => body_of (by revert t; decide)
    · exact fun t ht => body_of (by revert t; decide)
  obtain ⟨os, h1, h2⟩ := C31_expand_partial (fs := fs) (name := name) (ts := [.id (asc "A"), .nl]) h (by decide) (fun t h => text_of (by revert t; decide)) (by decide) (spelled_of (by decide +kernel)) (.rest _)
  have h3 : Exp [(asc "A", some [.id (asc "B")]), (asc "B", some [.id (asc "A"), .ws (asc " "), .id (asc "x")])] 2 [] [.id (asc "A"), .nl] (([.id (asc "A"), .ws (asc " "), .id (asc "x")] ++ []) ++ [.nl]) :=
    .repl (b := [.id (asc "B")]) (by decide) (by decide +kernel) (.repl (b := [.id (asc "A"), .ws (asc " "), .id (asc "x")]) (by decide) (by decide +kernel)
      (.copy (fun w hw => .inr (by cases hw; decide)) (.copy (by simp) (.copy (fun w hw => .inl (by cases hw; decide +kernel)) (.nil _ _)))) (.nil _ _)) (.copy (by simp) (.nil _ _))
  cases exp_unique h1 h3
  exact h2

/-- Eleven macros each of which is replaced by the next: not accepted, although the expansion has an end (`C31_terminates`). -/
theorem C31_depth_violated : (match preprocess (fun _ => none) 400 (asc "a.c") (asc "#define A B\n#define B C\n#define C D\n#define D E\n#define E F\n#define F G\n#define G H\n#define H I\n#define I J\n#define J K\n#define K L\nA\n") with
    | .error .assertFail => true | _ => false) = true := by decide +kernel

/-- `#define A "A B"`: names in literals are not replaced, literals from macros are written with their quotes. -/
example : ∃ N, ∀ n, N ≤ n → preprocess fs n name (asc "#define A \"A B\"\nf(A, 'A', '\\'', \"\\\"A\");\n") = .ok (asc "f(\"A B\", 'A', '\\'', \"\\\"A\");").toArray := by
  have h : Ev fs 0 (.lines true) 0 0 [] (dir none (asc "define") ++ ((.ws (asc " ") :: .id (asc "A") :: (bodyToks (asc " ") [.lit 0x22 (asc "A B")] none ++ [.nl])) ++ []))
      (0 + ((asc "A").length + 1) + needs [.lit 0x22 (asc "A B")]) [(asc "A", some [.lit 0x22 (asc "A B")])] [] :=
    Ev.define (by decide) (.inr (by decide)) (by decide) (fun t ht => body_of (by revert t; decide)) (by simp [Trim, Apart]) (by decide) (by decide) .nil
  obtain ⟨os, h1, h2⟩ := C31_expand_partial (fs := fs) (name := name)
    (ts := [.id (asc "f"), .op (asc "("), .id (asc "A"), .op (asc ","), .ws (asc " "), .lit 0x27 (asc "A"), .op (asc ","), .ws (asc " "), .lit 0x27 (asc "\\'"), .op (asc ","), .ws (asc " "),
      .lit 0x22 (asc "\\\"A"), .op (asc ")"), .op (asc ";"), .nl]) h (by decide) (fun t h => text_of (by revert t; decide)) (by decide) (spelled_of (by decide +kernel)) (.rest _)
  have h3 : Exp [(asc "A", some [.lit 0x22 (asc "A B")])] 1 [] [.id (asc "f"), .op (asc "("), .id (asc "A"), .op (asc ","), .ws (asc " "), .lit 0x27 (asc "A"), .op (asc ","), .ws (asc " "),
      .lit 0x27 (asc "\\'"), .op (asc ","), .ws (asc " "), .lit 0x22 (asc "\\\"A"), .op (asc ")"), .op (asc ";"), .nl]
      (.id (asc "f") :: .op (asc "(") :: ([.lit 0x22 (asc "A B")] ++ [.op (asc ","), .ws (asc " "), .lit 0x27 (asc "A"), .op (asc ","), .ws (asc " "),
        .lit 0x27 (asc "\\'"), .op (asc ","), .ws (asc " "), .lit 0x22 (asc "\\\"A"), .op (asc ")"), .op (asc ";"), .nl])) :=
    .copy (fun w hw => .inl (by cases hw; decide +kernel)) (.copy (by simp) (.repl (b := [.lit 0x22 (asc "A B")]) (by decide) (by decide +kernel) (.copy (by simp) (.nil _ _)) (exp_plain (by decide))))
  cases exp_unique h1 h3
  exact h2

/-- Every text has an expansion, whatever the macros. -/
theorem C31_terminates (Δ : Table) (ts : List PTok) : ∃ os, Exp Δ (Δ.filter fun e => e.2.isSome).length [] ts os := exp_exists _ [] (by simp) ts

/-- There is only one expansion. -/
theorem C31_unique {Δ : Table} {d d' : Nat} {ts os os' : List PTok} (h : Exp Δ d [] ts os) (h' : Exp Δ d' [] ts os') : os' = os := exp_unique h h'

end Props
