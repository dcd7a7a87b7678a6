import Verif.Props.SccScopeKeep
/-!
# Scopes of the compiler (C35)
-/
namespace Props.SccScope
open Prog Text Scc

/-! ## Functions and external definitions -/

theorem reserve_spec : ∀ (n v : Nat) {s s' : S} {a : Unit}, reserve n v s = .ok a s' →
    s'.log = s.log ∧ s'.lookup = s.lookup ∧ s'.scopes = s.scopes ∧ s'.scopeCount = s.scopeCount ∧ (n = 0 ∨ v + n ≤ varDeclMax) ∧
    (∀ i < 512, i < v → s'.vars.get i = s.vars.get i) ∧ ∀ i, v ≤ i → i < v + n → (s'.vars.get i).id = -1
  | 0, v, s, s', a, e => by
    cases e
    exact ⟨rfl, rfl, rfl, rfl, .inl rfl, fun _ _ _ => rfl, fun i h1 h2 => by omega⟩
  | n + 1, v, s, s', a, e => by
    unfold reserve at e
    obtain ⟨_, s1, e1, e⟩ := bind_eq_ok.mp e
    obtain ⟨rfl, hu⟩ := ub_ok e1
    simp only [decide_eq_true_eq] at hu
    obtain ⟨_, s1, e1, e⟩ := bind_eq_ok.mp e
    have h0 : (s1.vars.get v).id = -1 := by cases e1; simp only [Tab.get_set_self]
    have hv : ∀ i < 512, i ≠ v → s1.vars.get i = s.vars.get i := by
      cases e1
      intro i h1 h2
      simp only [varDeclMax] at hu
      exact Tab.get_set_ne _ _ (by omega) h1 (Ne.symm h2)
    obtain ⟨q1, q2, q3, q4, q5, q6, q7⟩ := reserve_spec n (v + 1) e
    have hs : s1.log = s.log ∧ s1.lookup = s.lookup ∧ s1.scopes = s.scopes ∧ s1.scopeCount = s.scopeCount := by cases e1; exact ⟨rfl, rfl, rfl, rfl⟩
    simp only [varDeclMax] at hu
    refine ⟨by rw [q1, hs.1], by rw [q2, hs.2.1], by rw [q3, hs.2.2.1], by rw [q4, hs.2.2.2], ?_, ?_, ?_⟩
    · simp only [varDeclMax] at q5 ⊢; omega
    · intro i h1 h2
      rw [q6 i h1 (by omega), hv i h1 (by omega)]
    · intro i h1 h2
      by_cases hi : i = v
      · subst hi
        rw [q6 i (by omega) (by omega)]
        exact h0
      · exact q7 i (by omega) (by omega)

/-- The scope of a function begins. -/
theorem open_spec {s s' : S} {a : Unit} (e : openFunction s = .ok a s') :
    (∃ l, s'.log = l ++ s.log) ∧ (Good s'.log → Inv s → (env s.log).length = 1 → Inv s' ∧ Ext ([] :: env s.log) (env s'.log)) := by
  unfold openFunction at e
  obtain ⟨_, s1, e1, e⟩ := bind_eq_ok.mp e
  cases e1
  obtain ⟨_, s1, e1, e⟩ := bind_eq_ok.mp e
  obtain ⟨q1, q2, q3, q4, q5, q6, q7⟩ := reserve_spec _ _ e1
  obtain ⟨_, s2, e2, e⟩ := bind_eq_ok.mp e
  cases e2
  obtain ⟨_, s3, e3, e⟩ := bind_eq_ok.mp e
  obtain ⟨hne, rfl⟩ := pushScope_ok e3
  obtain ⟨_, s4, e4, e⟩ := bind_eq_ok.mp e
  obtain ⟨_, s5, e5, e⟩ := bind_eq_ok.mp e
  cases e5
  obtain ⟨⟨l, ql⟩, p⟩ := k_addParams _ _ _ _ _ e
  have hlog : s4.log = .push :: .reserve :: s.log := by cases e4; rw [← q1]
  refine ⟨⟨l ++ [.push, .reserve], by rw [ql, hlog]; simp⟩, fun hg hi h1 => ?_⟩
  have hc := hi.cnt
  rw [h1] at hc
  have henv : env s4.log = [] :: env s.log := by rw [hlog]; rfl
  have hlook : s4.lookup = s.lookup := by cases e4; exact q2
  have hcnt : s4.scopeCount = 2 := by cases e4; show s1.scopeCount + 1 = 2; rw [q4, hc]
  have hvars : s4.vars = s1.vars := by cases e4; rfl
  have hsc0 : s4.scopes.get 0 = s.scopes.get 0 := by
    cases e4
    simp only [q4, hc, q3]
    rw [Tab.get_set_self, Tab.get_set_ne _ _ (by decide) (by decide) (by decide), Tab.get_set_self]
    omega
  have hsc1 : s4.scopes.get 1 = s.scopes.get 0 + globalReserve := by
    cases e4
    simp only [q4, hc, q3]
    rw [Tab.get_set_ne _ _ (by decide) (by decide) (by decide), Tab.get_set_self, Tab.get_set_self]
  have hroom : room s4.log = globalReserve := by
    rw [hlog]
    have : (env (.reserve :: s.log)).length = 1 := h1
    simp [room, this]
  have hlt : ∀ b ∈ (env s.log).flatten, b.2 < s.scopes.get 0 := by
    intro b hb
    have := hi.lay.frames.lt b hb
    rwa [h1] at this
  have i4 : Inv s4 := by
    refine ⟨⟨?_, ?_, ?_, ?_⟩, ?_, ?_, ?_, by rw [hlog]; simp⟩
    · rw [henv, List.length_cons, h1]; decide
    · intro b hb
      rw [henv] at hb
      have hb : b ∈ (env s.log).flatten := hb
      have h2 := hi.lay.recs b hb
      rw [hvars, q6 b.2 (by have := h2.2.1; simp only [varDeclMax] at this; omega) (hlt b hb)]
      exact h2
    · rw [henv, List.length_cons, h1]
      show s4.scopes.get 1 ≤ _
      rw [hsc1]
      exact q5.resolve_left (by decide)
    · rw [henv, hroom, hvars]
      match hE : env s.log, h1 with
      | [f], _ =>
        refine ⟨?_, by simp, ?_, ?_⟩
        · show s4.scopes.get 0 + globalReserve ≤ s4.scopes.get 1
          rw [hsc0, hsc1]; exact Nat.le_refl _
        · intro i h2 h3
          left
          have h2 : s4.scopes.get 0 ≤ i := h2
          have h3 : i < s4.scopes.get 1 := h3
          rw [hsc0] at h2
          rw [hsc1] at h3
          simp only
          rw [q7 i h2 h3]
          decide
        · intro b hb
          show b.2 < s4.scopes.get 0
          rw [hsc0]
          exact hlt b (by rw [hE]; simpa using hb)
    · rw [hcnt, henv, List.length_cons, h1]
    · rw [hlook, henv]
      exact hi.look
    · rw [hlog]; exact hi.uses
  have := p hg i4
  rw [henv] at this
  exact this

/-- A function definition leaves only declarations of the file. -/
theorem function_spec {go : Task → A Int} (hgo : ∀ t, Keep (go t)) {v : Nat} {s s' : S} {a : Unit} (e : parseFunction go v s = .ok a s') :
    (∃ l, s'.log = l ++ s.log) ∧ (Good s'.log → Inv s → (env s.log).length = 1 → Inv s' ∧
      ∃ l, env s'.log = addLast l (env s.log) ∧ ∀ b ∈ l, b.1 < 0 ∨ resolve (env s.log) b.1 = none) := by
  -- the statements between the beginning and the end of the scope
  have hb : ∃ (body : A Unit), Keep body ∧ parseFunction go v = (openFunction >>= fun _ => body >>= fun _ => popScope) := by
    refine ⟨(do
      let s ← getS
      failIf (s.labelCount != 0)
      modS fun s => { s with localOffset := 0, returnLabel := -1, breakLabel := -1, contLabel := -1 }
      emitGlobalLabel v
      output [0x55]
      emitMovRR rBP rSP
      go' go .stmt
      let s ← getS
      if 0 ≤ s.returnLabel then
        emitLocalLabel s.returnLabel
        emitMovRR rSP rBP
      else pure ()
      output [0x5D, 0xC3]
      modS fun s => { s with labelCount := 0, namedCount := 0 }), by keep', ?_⟩
    unfold parseFunction
    funext s
    simp only [bind_run]
    cases openFunction s with
    | err => rfl
    | ok a s1 =>
      simp only [getS_run]
      cases failIf (s1.labelCount != 0) s1 with
      | err => rfl
      | ok a s2 =>
        simp only [modS_run]
        cases emitGlobalLabel v _ with
        | err => rfl
        | ok a s3 =>
          simp only []
          cases output [0x55] s3 with
          | err => rfl
          | ok a s4 =>
            simp only []
            cases emitMovRR rBP rSP s4 with
            | err => rfl
            | ok a s5 =>
              simp only []
              cases go' go .stmt s5 with
              | err => rfl
              | ok a s6 =>
                simp only []
                split
                · simp only [bind_run]
                  cases emitLocalLabel s6.returnLabel s6 with
                  | err => rfl
                  | ok a s7 =>
                    simp only []
                    cases emitMovRR rSP rBP s7 with
                    | err => rfl
                    | ok a s8 =>
                      simp only []
                      cases output [0x5D, 0xC3] s8 <;> rfl
                · simp only [bind_run]
                  cases output [0x5D, 0xC3] s6 <;> rfl
  obtain ⟨body, hbody, hb⟩ := hb
  rw [hb] at e
  obtain ⟨_, s1, e1, e⟩ := bind_eq_ok.mp e
  obtain ⟨_, s2, e2, e⟩ := bind_eq_ok.mp e
  obtain ⟨⟨l1, q1⟩, p1⟩ := open_spec e1
  obtain ⟨⟨l2, q2⟩, p2⟩ := hbody _ _ _ e2
  obtain ⟨⟨l3, q3⟩, p3⟩ := popScope_spec e
  refine ⟨⟨l3 ++ l2 ++ l1, by rw [q3, q2, q1]; simp⟩, fun hg hi h1 => ?_⟩
  have hg2 : Good s2.log := good_suffix l3 (q3 ▸ hg)
  have hg1 : Good s1.log := good_suffix l2 (q2 ▸ hg2)
  obtain ⟨i1, x1⟩ := p1 hg1 hi h1
  obtain ⟨i2, x2⟩ := p2 hg2 i1
  obtain ⟨i3, _, E, ⟨m, hE, hm⟩, h5⟩ := p3 hg i2
  refine ⟨i3, ?_⟩
  obtain ⟨n, l, hx, hl⟩ := x1.trans x2
  have hne := hi.ne
  rw [addLast_cons _ _ hne] at hx
  simp only [addHead, List.append_nil] at hx
  have hE' : E = n :: addLast m (addLast l (env s.log)) := by rw [hE, hx, addLast_cons _ _ (addLast_ne hne)]
  refine ⟨m ++ l, by rw [h5, hE', List.tail_cons, addLast_addLast], fun b hb => ?_⟩
  rcases List.mem_append.mp hb with hb | hb
  · exact .inl (hm b hb)
  · refine (hl b hb).imp (fun h => h) (fun h => ?_)
    rw [resolve_cons] at h
    simpa using h

/-- What an external definition does to the scopes. -/
def R1 (s s' : S) : Prop :=
  (∃ e, s'.log = e ++ s.log) ∧ (Good s'.log → Inv s → (env s.log).length = 1 → Inv s' ∧ Ext (env s.log) (env s'.log))

theorem pre1 : Preorder R1 :=
  ⟨fun s => ⟨⟨[], rfl⟩, fun _ h _ => ⟨h, Ext.refl _⟩⟩, fun a b c h1 h2 => by
    obtain ⟨⟨e1, l1⟩, h1⟩ := h1
    obtain ⟨⟨e2, l2⟩, h2⟩ := h2
    refine ⟨⟨e2 ++ e1, by rw [l2, l1, List.append_assoc]⟩, fun hg hi h0 => ?_⟩
    obtain ⟨i1, x1⟩ := h1 (good_suffix e2 (l2 ▸ hg)) hi h0
    obtain ⟨i2, x2⟩ := h2 hg i1 (by rw [x1.length]; exact h0)
    exact ⟨i2, x1.trans x2⟩⟩

theorem R.one {s s' : S} (h : R s s') : R1 s s' := ⟨h.1, fun hg hi _ => h.2 hg hi⟩

theorem Keep.one {α : Type} {x : A α} (h : Keep x) : Pres R1 x := fun s a s' e => (h s a s' e).one

theorem r1_function (go : Task → A Int) (hgo : ∀ t, Keep (go t)) (v : Nat) : Pres R1 (parseFunction go v) := by
  intro s a s' e
  obtain ⟨h1, h2⟩ := function_spec hgo e
  refine ⟨h1, fun hg hi h0 => ?_⟩
  obtain ⟨i, l, he, hl⟩ := h2 hg hi h0
  exact ⟨i, [], l, by rw [he, addHead_nil], hl⟩

theorem r1_external (go : Task → A Int) (hgo : ∀ t, Keep (go t)) : Pres R1 (parseExternal go) := by
  unfold parseExternal
  refine Pres.bind pre1 (k_parseFirstDecl go hgo).one fun v => ?_
  split
  · exact (k_expect _).one
  · refine Pres.bind pre1 (Pres.modS fun s => R.one (by exact sameV rfl rfl rfl rfl rfl rfl rfl)) fun _ => ?_
    refine Pres.bind pre1 (Pres.getS pre1) fun s => ?_
    split
    · refine Pres.bind pre1 (Pres.modS fun s => R.one (by exact sameV rfl rfl rfl rfl rfl rfl rfl)) fun _ => ?_
      split
      · exact (k_expect _).one
      · exact r1_function go hgo _
    · exact Pres.bind pre1 (k_go_ go hgo _).one fun _ => (k_expect _).one

theorem r1_externals (n : Nat) : ∀ k, Pres R1 (externals n k)
  | 0 => Pres.fail _
  | k + 1 => by
    unfold externals
    refine Pres.bind pre1 (Pres.getS pre1) fun s => ?_
    split
    · exact Pres.pure pre1 _
    · exact Pres.bind pre1 (r1_external _ (k_run n)) fun _ => r1_externals n k

theorem init_inv (src : List Byte) : Inv (init src) := by
  refine ⟨⟨by show 1 ≤ scopeMax; decide, by simp [env, init], by simp [init, env], by simp [init, env, Frames]⟩, rfl, ?_, trivial, by simp [init]⟩
  intro id _
  simp [init, env, resolve]

theorem foldl_same (ws : List (List Byte)) : ∀ s : S, (ws.foldl addBuiltin s).log = s.log ∧ (ws.foldl addBuiltin s).lookup = s.lookup ∧
    (ws.foldl addBuiltin s).scopes = s.scopes ∧ (ws.foldl addBuiltin s).scopeCount = s.scopeCount ∧ (ws.foldl addBuiltin s).vars = s.vars := by
  induction ws with
  | nil => intro s; exact ⟨rfl, rfl, rfl, rfl, rfl⟩
  | cons w ws ih => intro s; exact ih (addBuiltin s w)

theorem k_prelude : Keep prelude := by
  unfold prelude
  refine Pres.bind pre (Pres.modS fun s => ?_) fun _ => ?_
  · obtain ⟨h1, h2, h3, h4, h5⟩ := foldl_same (builtins.map asc) s
    exact same0 h1 h2 h3 h4 h5
  · keep'

theorem program_inv {n : Nat} {src : List Byte} {s : S} (h : program n (init src) = .ok () s) (hg : Good s.log) : Inv s := by
  have : Pres R1 (program n) := by
    unfold program
    refine Pres.bind pre1 k_prelude.one fun _ => Pres.bind pre1 (r1_externals n n) fun _ => k_finish.one
  exact ((this _ _ _ h).2 hg (init_inv src) rfl).1

theorem uses_at : ∀ (post : List Ev) {pre : List Ev} {id : Int} {v : Option Nat}, Uses (post ++ .use id v :: pre) →
    v = resolve (env pre) id ∧ ∀ b ∈ (env pre).flatten, some b.2 = v → b.1 = id
  | [], _, _, _, h => h.2
  | e :: post, _, _, _, h => by
    refine uses_at post ?_
    cases e <;> first | exact h | exact h.1

/-- The points of a compilation between calls of the functions of the parser. -/
inductive Point (src : List Byte) : S → Prop
  | start {s} : prelude (init src) = .ok () s → Point src s
  | token {s s'} : Point src s → getToken s = .ok () s' → Point src s'
  | parse {s s'} (n t v) : Point src s → run n t s = .ok v s' → Point src s'
  | external {s s'} (n) : Point src s → s.scopeCount = 1 → parseExternal (run n) s = .ok () s' → Point src s'
  | function {s s'} : Point src s → s.scopeCount = 1 → openFunction s = .ok () s' → Point src s'
  | block {s s'} : Point src s → pushScope s = .ok () s' → Point src s'

theorem Point.inv {src : List Byte} {s : S} (h : Point src s) : Good s.log → Inv s := by
  induction h with
  | start h => exact fun hg => ((k_prelude _ _ _ h).2 hg (init_inv src)).1
  | token _ h ih =>
    intro hg
    obtain ⟨⟨e, q⟩, p⟩ := k_getToken _ _ _ h
    exact (p hg (ih (good_suffix e (q ▸ hg)))).1
  | parse n t v _ h ih =>
    intro hg
    obtain ⟨⟨e, q⟩, p⟩ := k_run n t _ _ _ h
    exact (p hg (ih (good_suffix e (q ▸ hg)))).1
  | external n _ h1 h ih =>
    intro hg
    obtain ⟨⟨e, q⟩, p⟩ := r1_external _ (k_run n) _ _ _ h
    have hi := ih (good_suffix e (q ▸ hg))
    exact (p hg hi (by rw [← hi.cnt]; exact h1)).1
  | function _ h1 h ih =>
    intro hg
    obtain ⟨⟨e, q⟩, p⟩ := open_spec h
    have hi := ih (good_suffix e (q ▸ hg))
    exact (p hg hi (by rw [← hi.cnt]; exact h1)).1
  | block _ h ih =>
    intro hg
    refine inv_push (ih ?_) h
    obtain ⟨_, rfl⟩ := pushScope_ok h
    exact hg

/-- `Good` as a computation. -/
def goodB : List Ev → Bool
  | [] => true
  | .decl id _ :: l => goodB l && !(here (env l)).contains id
  | .late _ _ :: l => goodB l && ((env l).length == 1 || decide (0 < room l))
  | _ :: l => goodB l

theorem goodB_iff : ∀ l, goodB l = true ↔ Good l
  | [] => by simp [goodB, Good]
  | .decl id v :: l => by simp [goodB, Good, goodB_iff l]
  | .late id v :: l => by simp [goodB, Good, goodB_iff l]
  | .use _ _ :: l => goodB_iff l
  | .push :: l => goodB_iff l
  | .pop :: l => goodB_iff l
  | .reserve :: l => goodB_iff l

/-- The uses of names that are not resolved as the specification says. -/
def wrong : List Ev → List Ev
  | [] => []
  | .use id v :: l =>
    if v = resolve (env l) id ∧ (env l).flatten.all (fun b => some b.2 != v || b.1 == id) then wrong l else .use id v :: wrong l
  | _ :: l => wrong l

/-- The events of a compilation. -/
def logOf (n : Nat) (src : String) : Option (List Ev) :=
  match program n (init (asc src)) with
  | .ok _ s => some s.log
  | .err _ => none

end Props.SccScope

namespace Props
open Prog Text Scc SccScope

/-- **C35**. In every compilation in which no name is declared twice in a scope and no function makes more late declarations than the compiler
sets records aside for: every use of a name stands for the innermost declaration of it that is in scope, and no other declaration in scope
has its record. -/
theorem C35_resolve_partial {n : Nat} {src : List Byte} {s : S} (h : program n (init src) = .ok () s) (hg : Good s.log)
    {post pre : List Ev} {id : Int} {v : Option Nat} (hu : s.log = post ++ .use id v :: pre) :
    v = resolve (env pre) id ∧ ∀ b ∈ (env pre).flatten, some b.2 = v → b.1 = id :=
  uses_at post (hu ▸ (program_inv h hg).uses)

/-- **C35**. The table `VarLookup` holds the innermost declaration of every name at every point. -/
theorem C35_lookup_partial {src : List Byte} {s : S} (h : Point src s) (hg : Good s.log) (id : Nat) (hid : id < idMax) :
    s.lookup.get id = resolve (env s.log) id :=
  (h.inv hg).look id hid

/-- **C35**. A block, whatever it contains, restores what every name stands for; only a name that had no declaration may stand for a
function declared by its use. -/
theorem C35_restore_partial {src : List Byte} {n : Nat} {s s' : S} (h : Point src s) (e : parseBlock (run n) s = .ok () s')
    (hg : Good s'.log) (id : Nat) (hid : id < idMax) : s'.lookup.get id = s.lookup.get id ∨ s.lookup.get id = none := by
  obtain ⟨⟨l, q⟩, p⟩ := block_spec (k_run n) e
  have hi := h.inv (good_suffix l (q ▸ hg))
  obtain ⟨i', m, he, hm⟩ := p hg hi
  rw [i'.look id hid, hi.look id hid, he]
  cases hr : resolve (env s.log) id with
  | none => exact .inr rfl
  | some v => exact .inl (resolve_addLast_some hr hm (by omega))

/-- A program with nested scopes, a parameter that is hidden by a local variable and a function that is used before its definition. -/
example : ∃ l, logOf 40 "f(x){int y;y=2;{int x;x=y;g(x);}return x+y;}g(y){return y;}_start(){f(1);}" = some l ∧ Good l ∧ l.length = 35 := by
  have h : (match logOf 40 "f(x){int y;y=2;{int x;x=y;g(x);}return x+y;}g(y){return y;}_start(){f(1);}" with
    | some l => goodB l && l.length == 35
    | none => false) = true := by decide +kernel
  split at h
  · next l hl =>
    simp only [Bool.and_eq_true, beq_iff_eq] at h
    exact ⟨l, hl, (goodB_iff l).mp h.1, h.2⟩
  · cases h

/-- The restriction to names that are declared once in a scope is needed: after a block in which `x` is declared twice, `x` stands for a
declaration that is no longer in scope. -/
theorem C35_redeclare_violated : ∃ l, logOf 40 "f(x){{int x;int x;}return x;}_start(){f(1);}" = some l ∧ wrong l ≠ [] := by
  have h : (match logOf 40 "f(x){{int x;int x;}return x;}_start(){f(1);}" with
    | some l => wrong l != []
    | none => false) = true := by decide +kernel
  split at h
  · next l hl => exact ⟨l, hl, by simpa using h⟩
  · cases h

/-- The restriction on late declarations is needed: the fifth function used before its definition takes the record of the parameter `x`. -/
theorem C35_overflow_violated :
    ∃ l, logOf 40 "f(x){a();b();c();d();e();return x;}a(){}b(){}c(){}d(){}e(){}_start(){f(1);}" = some l ∧ wrong l ≠ [] := by
  have h : (match logOf 40 "f(x){a();b();c();d();e();return x;}a(){}b(){}c(){}d(){}e(){}_start(){f(1);}" with
    | some l => wrong l != []
    | none => false) = true := by decide +kernel
  split at h
  · next l hl => exact ⟨l, hl, by simpa using h⟩
  · cases h

end Props
