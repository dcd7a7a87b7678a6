import Verif.Scc.Parse
import Verif.Util.KeepTac
/-!
# Scopes of the compiler (C35): specification and invariant

The specification reads the events of the scopes (the ghost field `log`): `env` gives the declarations in scope after a sequence of
events, `resolve` the declaration a name stands for. The invariant relates the tables of the compiler to it.
-/
namespace Props.SccScope
open Prog Scc

/-- A name with the record of its declaration. -/
abbrev Bind := Int × Nat
/-- The declarations of a scope, the last one first. -/
abbrev Frame := List Bind
/-- The open scopes, the innermost one first. The last one is the scope of the file. -/
abbrev Env := List Frame

/-- A declaration in the scope of the file. -/
def addLast (l : Frame) : Env → Env
  | [] => []
  | [f] => [l ++ f]
  | f :: g :: fs => f :: addLast l (g :: fs)

/-- Declarations in the innermost scope. -/
def addHead (l : Frame) : Env → Env
  | [] => []
  | f :: fs => (l ++ f) :: fs

/-- The end of a scope. -/
def leave : Env → Env
  | _ :: g :: fs => g :: fs
  | E => E

def scopeStep (E : Env) : Ev → Env
  | .decl id v => addHead [(id, v)] E
  | .late id v => addLast [(id, v)] E
  | .push => [] :: E
  | .pop => leave E
  | _ => E

/-- The declarations in scope after the events, the last event first. -/
def env : List Ev → Env
  | [] => [[]]
  | e :: l => scopeStep (env l) e

/-- The innermost declaration of a name. -/
def resolve (E : Env) (id : Int) : Option Nat := (E.flatten.find? (fun b => b.1 = id)).map (·.2)

/-- The names declared in the innermost scope. -/
def here (E : Env) : List Int := (E.headD []).map (·.1)

/-- The number of records for late declarations that are left in the current function. -/
def room : List Ev → Nat
  | [] => 0
  | .push :: l => if (env l).length = 1 then (if l.head? = some .reserve then globalReserve else 0) else room l
  | .late _ _ :: l => room l - 1
  | _ :: l => room l

/-- No name is declared twice in a scope, and no function makes more late declarations than there are records set aside. -/
def Good : List Ev → Prop
  | [] => True
  | .decl id _ :: l => Good l ∧ id ∉ here (env l)
  | .late _ _ :: l => Good l ∧ ((env l).length = 1 ∨ 0 < room l)
  | _ :: l => Good l

/-- Every name stands for its innermost declaration, and no other name in scope has its record. -/
def Uses : List Ev → Prop
  | [] => True
  | .use id v :: l => Uses l ∧ v = resolve (env l) id ∧ ∀ b ∈ (env l).flatten, some b.2 = v → b.1 = id
  | _ :: l => Uses l

/-! ## Facts about environments -/

theorem resolve_none {E : Env} {id : Int} : resolve E id = none ↔ ∀ b ∈ E.flatten, b.1 ≠ id := by
  simp only [resolve, Option.map_eq_none_iff, List.find?_eq_none, decide_eq_true_eq]

theorem resolve_mem {E : Env} {id : Int} {v : Nat} (h : resolve E id = some v) : (id, v) ∈ E.flatten := by
  simp only [resolve, Option.map_eq_some_iff] at h
  obtain ⟨⟨i, w⟩, hb, rfl⟩ := h
  have h1 := List.mem_of_find?_eq_some hb
  have h2 := List.find?_some hb
  simp only [decide_eq_true_eq] at h2
  subst h2
  exact h1

theorem resolve_cons (f : Frame) (E : Env) (id : Int) :
    resolve (f :: E) id = if id ∈ f.map (·.1) then (f.find? (fun b => b.1 = id)).map (·.2) else resolve E id := by
  simp only [resolve, List.flatten_cons, List.find?_append]
  split
  · next h =>
    obtain ⟨b, hb, rfl⟩ := List.mem_map.mp h
    cases hf : f.find? (fun c => decide (c.1 = b.1)) with
    | none => exact absurd (List.find?_eq_none.mp hf b hb) (by simp)
    | some c => rfl
  · next h =>
    rw [List.find?_eq_none.mpr]
    · rfl
    · intro c hc hd
      simp only [decide_eq_true_eq] at hd
      exact h (List.mem_map.mpr ⟨c, hc, hd⟩)

theorem mem_addLast {l : Frame} : ∀ {E : Env}, E ≠ [] → ∀ b, b ∈ (addLast l E).flatten ↔ b ∈ l ∨ b ∈ E.flatten
  | [f], _, b => by simp [addLast]
  | f :: g :: fs, _, b => by
    have ih := mem_addLast (l := l) (E := g :: fs) (by simp) b
    simp only [addLast, List.flatten_cons, List.mem_append] at ih ⊢
    rw [ih]
    constructor
    · rintro (h | h | h)
      · exact .inr (.inl h)
      · exact .inl h
      · exact .inr (.inr h)
    · rintro (h | h | h)
      · exact .inr (.inl h)
      · exact .inl h
      · exact .inr (.inr h)

theorem length_addLast (l : Frame) : ∀ E : Env, (addLast l E).length = E.length
  | [] => rfl
  | [_] => rfl
  | _ :: g :: fs => by simp [addLast, length_addLast l (g :: fs)]

theorem length_addHead (l : Frame) : ∀ E : Env, (addHead l E).length = E.length
  | [] => rfl
  | _ :: _ => rfl

/-- A declaration of the file hides nothing. -/
theorem resolve_addLast {l : Frame} : ∀ {E : Env} {id : Int}, (∀ b ∈ l, b.1 ≠ id) → resolve (addLast l E) id = resolve E id
  | [], _, _ => rfl
  | [f], id, h => by
    simp only [addLast, resolve, List.flatten_cons, List.flatten_nil, List.append_nil, List.find?_append]
    rw [List.find?_eq_none.mpr]
    · rfl
    · intro c hc hd
      exact h c hc (by simpa using hd)
  | f :: g :: fs, id, h => by
    simp only [addLast, resolve_cons]
    rw [← resolve_cons g fs, resolve_addLast h]

theorem resolve_addLast_some {l : Frame} {E : Env} {id : Int} {v : Nat} (h : resolve E id = some v)
    (hl : ∀ b ∈ l, b.1 < 0 ∨ resolve E b.1 = none) (h0 : 0 ≤ id) : resolve (addLast l E) id = some v := by
  rw [resolve_addLast, h]
  rintro b hb rfl
  rcases hl b hb with h1 | h1
  · omega
  · rw [h1] at h; cases h

theorem addLast_addLast (l l' : Frame) : ∀ E, addLast l' (addLast l E) = addLast (l' ++ l) E
  | [] => rfl
  | [f] => by simp [addLast]
  | f :: g :: fs => by
    have := addLast_addLast l l' (g :: fs)
    have hne : addLast l (g :: fs) ≠ [] := by
      intro h
      have := length_addLast l (g :: fs)
      rw [h] at this
      simp at this
    obtain ⟨g', fs', hg⟩ := List.exists_cons_of_ne_nil hne
    simp only [addLast]
    rw [hg, addLast, ← hg, this]

theorem good_suffix : ∀ (e : List Ev) {l : List Ev}, Good (e ++ l) → Good l
  | [], _, h => h
  | a :: e, l, h => by
    refine good_suffix e (l := l) ?_
    cases a <;> first | exact h | exact h.1

/-! ## The records of the scopes -/

/-- The scopes occupy consecutive parts of `VarDecls`, of which `sc` are the ends; `r` records at the start of the part of the function
are free for late declarations. `id`, `pv` are the fields `Id`, `Prev` of the records. -/
def Frames (sc : Nat → Nat) (id : Nat → Int) (pv : Nat → Option Nat) (r : Nat) : Env → Prop
  | [] => False
  | [f] => ∀ b ∈ f, b.2 < sc 0
  | f :: g :: fs =>
    sc fs.length + (if fs.length = 0 then r else 0) ≤ sc (fs.length + 1) ∧
    (∀ b ∈ f, 0 ≤ b.1 ∧ sc fs.length + (if fs.length = 0 then r else 0) ≤ b.2 ∧ b.2 < sc (fs.length + 1) ∧
      pv b.2 = resolve (g :: fs) b.1) ∧
    (∀ i, sc fs.length ≤ i → i < sc (fs.length + 1) → id i < 0 ∨ ∃ b ∈ f, b.2 = i) ∧
    Frames sc id pv r (g :: fs)

theorem Frames.ne {sc id pv r E} (h : Frames sc id pv r E) : E ≠ [] := by
  rintro rfl
  exact h

/-- The ends of the scopes ascend. -/
theorem Frames.mono {sc id pv r} : ∀ {E}, Frames sc id pv r E → ∀ j < E.length, sc j ≤ sc (E.length - 1)
  | [f], _, j, hj => by
    have : j = 0 := by simpa using hj
    subst this
    exact Nat.le_refl _
  | f :: g :: fs, h, j, hj => by
    have ih := Frames.mono (E := g :: fs) h.2.2.2 j
    have h1 := h.1
    simp only [List.length_cons, Nat.add_sub_cancel] at ih hj ⊢
    by_cases hk : j = fs.length + 1
    · subst hk; exact Nat.le_refl _
    · have := ih (by omega)
      omega

theorem Frames.room {sc id pv r} : ∀ {E}, Frames sc id pv r E → 2 ≤ E.length → sc 0 + r ≤ sc (E.length - 1)
  | [f], _, hj => by simp at hj
  | [f, g], h, _ => by simpa using h.1
  | f :: g :: k :: fs, h, _ => by
    have ih := Frames.room (E := g :: k :: fs) h.2.2.2 (by simp)
    have h1 := h.1
    simp only [List.length_cons, Nat.add_sub_cancel] at ih h1 ⊢
    omega

theorem Frames.lt {sc id pv r} : ∀ {E}, Frames sc id pv r E → ∀ b ∈ E.flatten, b.2 < sc (E.length - 1)
  | [f], h, b, hb => h b (by simpa using hb)
  | f :: g :: fs, h, b, hb => by
    rw [List.flatten_cons, List.mem_append] at hb
    rcases hb with hb | hb
    · exact (h.2.1 b hb).2.2.1
    · have := Frames.lt (E := g :: fs) h.2.2.2 b hb
      have h1 := h.1
      simp only [List.length_cons, Nat.add_sub_cancel] at this ⊢
      omega

/-- Only the part of the tables below the end of the innermost scope matters. -/
theorem Frames.low {sc sc' : Nat → Nat} {id id' : Nat → Int} {pv pv' : Nat → Option Nat} {r : Nat} : ∀ {E}, Frames sc id pv r E →
    (∀ j < E.length, sc' j = sc j) → (∀ i < sc (E.length - 1), id' i = id i ∧ pv' i = pv i) → Frames sc' id' pv' r E
  | [f], h, hs, _ => fun b hb => by rw [hs 0 (by simp)]; exact h b hb
  | f :: g :: fs, h, hs, hi => by
    have h0 := h.1
    simp only [List.length_cons, Nat.add_sub_cancel] at hs hi
    have e1 := hs fs.length (by omega)
    have e2 := hs (fs.length + 1) (by omega)
    refine ⟨by rw [e1, e2]; exact h0, ?_, ?_, ?_⟩
    · intro b hb
      have h1 := h.2.1 b hb
      rw [e1, e2, (hi b.2 h1.2.2.1).2]
      exact h1
    · intro i h1 h2
      rw [e1] at h1
      rw [e2] at h2
      rw [(hi i h2).1]
      exact h.2.2.1 i h1 h2
    · refine Frames.low h.2.2.2 (fun j hj => hs j (by simp at hj; omega)) (fun i hlt => hi i ?_)
      simp only [List.length_cons, Nat.add_sub_cancel] at hlt
      omega

/-- A declaration in the innermost scope. -/
theorem Frames.decl {sc sc' : Nat → Nat} {id id' : Nat → Int} {pv pv' : Nat → Option Nat} {r k v : Nat} {E : Env} {x : Int}
    (h : Frames sc id pv r E) (hk : k + 1 = E.length) (hv : v = sc k) (h0 : 0 ≤ x) (hs : sc' k = v + 1) (hs' : ∀ j, j < k → sc' j = sc j)
    (hi : ∀ i, i < v → id' i = id i ∧ pv' i = pv i) (hx : x ∉ here E) (hp : pv' v = resolve E x) :
    Frames sc' id' pv' r (addHead [(x, v)] E) := by
  match E, h, hk, hx, hp with
  | [f], h, hk, hx, hp =>
    have : k = 0 := by simpa using hk
    subst this
    intro b hb
    simp only [List.cons_append, List.nil_append, List.mem_cons] at hb
    rcases hb with rfl | hb
    · simp only [hs]; omega
    · have := h b hb
      omega
  | f :: g :: fs, h, hk, hx, hp =>
    have : k = fs.length + 1 := by simpa using hk
    subst this
    have e1 := hs' fs.length (by omega)
    have h0' := h.1
    refine ⟨by rw [e1, hs]; omega, ?_, ?_, ?_⟩
    · intro b hb
      simp only [List.cons_append, List.nil_append, List.mem_cons] at hb
      rcases hb with rfl | hb
      · refine ⟨h0, ?_, ?_, ?_⟩
        · simp only [e1]; omega
        · simp only [hs]; omega
        · simp only [hp]
          rw [resolve_cons, if_neg (by simpa [here] using hx)]
      · obtain ⟨h1, h2, h3, h4⟩ := h.2.1 b hb
        refine ⟨h1, by rw [e1]; exact h2, by rw [hs]; omega, ?_⟩
        rw [(hi b.2 (by omega)).2]
        exact h4
    · intro i h1 h2
      rw [e1] at h1
      rw [hs] at h2
      by_cases hiv : i = v
      · exact .inr ⟨(x, v), by simp, hiv.symm⟩
      · rw [(hi i (by omega)).1]
        rcases h.2.2.1 i h1 (by omega) with h3 | ⟨b, hb, h3⟩
        · exact .inl h3
        · exact .inr ⟨b, by simp [hb], h3⟩
    · refine Frames.low h.2.2.2 (fun j hj => hs' j (by simpa using hj)) (fun i hlt => hi i ?_)
      simp only [List.length_cons, Nat.add_sub_cancel] at hlt
      omega

/-- A late declaration. -/
theorem Frames.late {sc sc' : Nat → Nat} {id id' : Nat → Int} {pv pv' : Nat → Option Nat} {r v N N' : Nat} {x : Int}
    (hv : v = sc 0) (hs : sc' 0 = v + 1) (hs' : ∀ j, j ≠ 0 → j < N → sc' j = sc j)
    (hi : ∀ i, i ≠ v → i < N' → id' i = id i ∧ pv' i = pv i) :
    ∀ {E : Env}, Frames sc id pv r E → (E.length = 1 ∨ 0 < r) → (x < 0 ∨ ∀ b ∈ E.flatten, b.1 ≠ x) →
    E.length ≤ N → sc (E.length - 1) ≤ N' →
    Frames sc' id' pv' (r - 1) (addLast [(x, v)] E)
  | [f], h, _, _, _, _ => by
    intro b hb
    simp only [List.cons_append, List.nil_append, List.mem_cons] at hb
    rcases hb with rfl | hb
    · simp only [hs]; omega
    · have := h b hb
      omega
  | f :: g :: fs, h, hr, hx, hN, hN' => by
    simp only [List.length_cons, Nat.add_sub_cancel] at hN hN'
    have h1' := h.1
    have hr : 0 < r := by simpa using hr
    have ih := Frames.late hv hs hs' hi (E := g :: fs) h.2.2.2 (.inr hr)
      (hx.imp (fun h => h) fun h b hb => h b (by rw [List.flatten_cons, List.mem_append]; exact .inr hb))
      (by simp only [List.length_cons]; omega) (by simp only [List.length_cons, Nat.add_sub_cancel]; omega)
    obtain ⟨h1, h2, h3, h4'⟩ := h
    have e1 : (addLast [(x, v)] (g :: fs)).length = fs.length + 1 := by simp [length_addLast]
    obtain ⟨g', fs', hg⟩ := List.exists_cons_of_ne_nil (l := addLast [(x, v)] (g :: fs)) (by intro hh; rw [hh] at e1; simp at e1)
    have e2 : fs'.length = fs.length := by rw [hg] at e1; simpa using e1
    simp only [addLast]
    rw [hg] at ih ⊢
    have es := hs' (fs.length + 1) (by omega) (by omega)
    have lo : sc fs.length + (if fs.length = 0 then r else 0) = sc' fs.length + (if fs.length = 0 then r - 1 else 0) := by
      by_cases hz : fs.length = 0
      · rw [if_pos hz, if_pos hz, hz, hs]; omega
      · rw [if_neg hz, if_neg hz, hs' _ hz (by omega)]
    have low : v < sc' fs.length ∨ fs.length = 0 := by
      by_cases hz : fs.length = 0
      · exact .inr hz
      · left
        rw [hs' _ hz (by omega)]
        have := Frames.room h4' (by simp only [List.length_cons]; omega)
        simp only [List.length_cons, Nat.add_sub_cancel] at this
        omega
    refine ⟨by rw [e2, es, ← lo]; exact h1, ?_, ?_, ih⟩
    · intro b hb
      obtain ⟨h4, h5, h6, h7⟩ := h2 b hb
      rw [e2]
      refine ⟨h4, by rw [← lo]; exact h5, by rw [es]; exact h6, ?_⟩
      have hbv : b.2 ≠ v := by
        rcases low with h8 | h8
        · omega
        · rw [if_pos h8, h8] at h5; omega
      rw [(hi b.2 hbv (by omega)).2, h7, ← hg, resolve_addLast]
      intro c hc
      simp only [List.mem_singleton] at hc
      subst hc
      rcases hx with hx | hx
      · simp only; omega
      · exact fun he => hx b (by rw [List.flatten_cons, List.mem_append]; exact .inl hb) he.symm
    · intro i h4 h5
      rw [e2] at h4 h5
      rw [es] at h5
      have hiv : i ≠ v := by
        rcases low with h8 | h8
        · omega
        · rw [h8, hs] at h4; omega
      have h6 : sc fs.length ≤ i := by
        by_cases hz : fs.length = 0
        · rw [hz, hs] at h4; rw [hz]; omega
        · rw [hs' _ hz (by omega)] at h4; exact h4
      rw [(hi i hiv (by omega)).1]
      exact h3 i h6 h5

/-- The start of a scope. -/
theorem Frames.push {sc sc' : Nat → Nat} {id : Nat → Int} {pv : Nat → Option Nat} {r r' k : Nat} {E : Env}
    (h : Frames sc id pv r E) (hk : k + 1 = E.length) (hs : sc' (k + 1) = sc k) (hs' : ∀ j, j ≤ k → sc' j = sc j)
    (hr : if E.length = 1 then r' = 0 else r' = r) : Frames sc' id pv r' ([] :: E) := by
  match E, h, hk, hr with
  | [f], h, hk, hr =>
    have : k = 0 := by simpa using hk
    subst this
    have : r' = 0 := by simpa using hr
    subst this
    refine ⟨by simp [hs, hs'], by simp, fun i h1 h2 => ?_, fun b hb => ?_⟩
    · simp [hs, hs'] at h1 h2; omega
    · rw [hs' 0 (by omega)]; exact h b hb
  | f :: g :: fs, h, hk, hr =>
    have : k = fs.length + 1 := by simpa using hk
    subst this
    have : r' = r := by simpa using hr
    subst this
    have hl : (g :: fs).length = fs.length + 1 := rfl
    refine ⟨by simp [hs, hs'], by simp, fun i h1 h2 => ?_, Frames.low h (fun j hj => hs' j (by simp at hj; omega)) (fun _ _ => ⟨rfl, rfl⟩)⟩
    rw [hl] at h1 h2
    rw [hs] at h2
    rw [hs' _ (by omega)] at h1
    omega

/-! ## The tables of the compiler -/

/-- All of the invariant but the table `VarLookup`. -/
structure Lay (s : S) (E : Env) (r : Nat) : Prop where
  len : E.length ≤ scopeMax
  recs : ∀ b ∈ E.flatten, (s.vars.get b.2).id = b.1 ∧ b.2 < varDeclMax ∧ b.1 < idMax
  top : s.scopes.get (E.length - 1) ≤ varDeclMax
  frames : Frames s.scopes.get (fun i => (s.vars.get i).id) (fun i => (s.vars.get i).prev) r E

/-- The tables agree with the specification. -/
structure Inv (s : S) : Prop where
  lay : Lay s (env s.log) (room s.log)
  cnt : s.scopeCount = (env s.log).length
  look : ∀ id, id < idMax → s.lookup.get id = resolve (env s.log) id
  uses : Uses s.log
  head : s.log.head? ≠ some .reserve

/-- What a piece of program that closes the scopes it opens may do: declare names in the innermost scope, and names that had no
declaration in the scope of the file. -/
def Ext (E E' : Env) : Prop := ∃ n l, E' = addHead n (addLast l E) ∧ ∀ b ∈ l, b.1 < 0 ∨ resolve E b.1 = none

theorem addHead_nil : ∀ E, addHead [] E = E
  | [] => rfl
  | _ :: _ => rfl

theorem addLast_nil : ∀ E, addLast [] E = E
  | [] => rfl
  | [_] => rfl
  | f :: g :: fs => by rw [addLast, addLast_nil (g :: fs)]

theorem Ext.refl (E : Env) : Ext E E := ⟨[], [], by rw [addLast_nil, addHead_nil], by simp⟩

theorem addLast_ne {l : Frame} {E : Env} (h : E ≠ []) : addLast l E ≠ [] := by
  intro hh
  have := length_addLast l E
  rw [hh] at this
  exact h (List.length_eq_zero_iff.mp this.symm)

theorem mem_addHead {n : Frame} : ∀ {E : Env}, ∀ b ∈ E.flatten, b ∈ (addHead n E).flatten
  | [], _, h => h
  | f :: fs, b, h => by
    simp only [addHead, List.flatten_cons, List.mem_append] at h ⊢
    exact h.imp .inr (fun h => h)

theorem Ext.mem {E E' : Env} (h : Ext E E') (hE : E ≠ []) : ∀ b ∈ E.flatten, b ∈ E'.flatten := by
  obtain ⟨n, l, rfl, _⟩ := h
  exact fun b hb => mem_addHead b ((mem_addLast hE b).mpr (.inr hb))

theorem Ext.none {E E' : Env} (h : Ext E E') (hE : E ≠ []) {id : Int} (hn : resolve E' id = none) : resolve E id = none :=
  resolve_none.mpr fun b hb => resolve_none.mp hn b (h.mem hE b hb)

theorem Ext.length {E E' : Env} (h : Ext E E') : E'.length = E.length := by
  obtain ⟨n, l, rfl, _⟩ := h
  rw [length_addHead, length_addLast]

theorem addLast_cons (l : Frame) (f : Frame) {E : Env} (h : E ≠ []) : addLast l (f :: E) = f :: addLast l E := by
  cases E with
  | nil => exact absurd rfl h
  | cons g fs => rfl

theorem Ext.trans {E E' E'' : Env} (h : Ext E E') (h' : Ext E' E'') : Ext E E'' := by
  by_cases hE : E = []
  · subst hE
    obtain ⟨n, l, rfl, _⟩ := h
    obtain ⟨n', l', rfl, _⟩ := h'
    exact Ext.refl _
  have hnone := fun id => Ext.none h hE (id := id)
  obtain ⟨n, l, rfl, hl⟩ := h
  obtain ⟨n', l', rfl, hl'⟩ := h'
  match E with
  | [f] => exact ⟨n' ++ l' ++ n, l, by simp [addHead, addLast], hl⟩
  | f :: g :: fs =>
    refine ⟨n' ++ n, l' ++ l, ?_, ?_⟩
    · have hne : addLast l (g :: fs) ≠ [] := addLast_ne (by simp)
      simp only [addLast, addHead]
      rw [addLast_cons _ _ hne, addLast_addLast]
      simp
    · intro b hb
      rcases List.mem_append.mp hb with hb | hb
      · exact (hl' b hb).imp (fun h => h) (hnone b.1)
      · exact hl b hb

/-- `s'` comes after `s`; if the events up to `s'` are good, the invariant is kept. -/
def R (s s' : S) : Prop :=
  (∃ e, s'.log = e ++ s.log) ∧ (Good s'.log → Inv s → Inv s' ∧ Ext (env s.log) (env s'.log))

theorem pre : Preorder R :=
  ⟨fun s => ⟨⟨[], rfl⟩, fun _ h => ⟨h, Ext.refl _⟩⟩, fun a b c h1 h2 => by
    obtain ⟨⟨e1, l1⟩, h1⟩ := h1
    obtain ⟨⟨e2, l2⟩, h2⟩ := h2
    refine ⟨⟨e2 ++ e1, by rw [l2, l1, List.append_assoc]⟩, fun hg hi => ?_⟩
    obtain ⟨i1, x1⟩ := h1 (good_suffix e2 (l2 ▸ hg)) hi
    obtain ⟨i2, x2⟩ := h2 hg i1
    exact ⟨i2, x1.trans x2⟩⟩

abbrev Keep {α : Type} (x : A α) : Prop := Pres R x

theorem Inv.same {s s' : S} (h : Inv s) (h1 : s'.log = s.log) (h2 : s'.lookup = s.lookup) (h3 : s'.scopes = s.scopes)
    (h4 : s'.scopeCount = s.scopeCount) (h5 : ∀ i, (s'.vars.get i).id = (s.vars.get i).id)
    (h6 : ∀ i, (s'.vars.get i).prev = (s.vars.get i).prev) : Inv s' := by
  refine ⟨⟨?_, ?_, ?_, ?_⟩, ?_, ?_, ?_, ?_⟩
  · rw [h1]; exact h.lay.len
  · intro b hb
    rw [h1] at hb
    rw [h5]
    exact h.lay.recs b hb
  · rw [h1, h3]; exact h.lay.top
  · simp only [h1, h3, h5, h6]
    exact h.lay.frames
  · rw [h1, h4]; exact h.cnt
  · rw [h1, h2]; exact h.look
  · rw [h1]; exact h.uses
  · rw [h1]; exact h.head

/-- Changes of other parts of the state. -/
theorem same {s s' : S} (h1 : s'.log = s.log) (h2 : s'.lookup = s.lookup) (h3 : s'.scopes = s.scopes)
    (h4 : s'.scopeCount = s.scopeCount) (h5 : ∀ i, (s'.vars.get i).id = (s.vars.get i).id)
    (h6 : ∀ i, (s'.vars.get i).prev = (s.vars.get i).prev) : R s s' :=
  ⟨⟨[], h1⟩, fun _ h => ⟨h.same h1 h2 h3 h4 h5 h6, by rw [h1]; exact Ext.refl _⟩⟩

theorem same0 {s s' : S} (h1 : s'.log = s.log) (h2 : s'.lookup = s.lookup) (h3 : s'.scopes = s.scopes)
    (h4 : s'.scopeCount = s.scopeCount) (h5 : s'.vars = s.vars) : R s s' :=
  same h1 h2 h3 h4 (fun i => by rw [h5]) (fun i => by rw [h5])

theorem sameV {s s' : S} {v : Nat} {d : VarDecl} (h1 : s'.log = s.log) (h2 : s'.lookup = s.lookup) (h3 : s'.scopes = s.scopes)
    (h4 : s'.scopeCount = s.scopeCount) (h5 : s'.vars = s.vars.set v d) (h6 : d.id = (s.vars.get v).id)
    (h7 : d.prev = (s.vars.get v).prev) : R s s' :=
  same h1 h2 h3 h4 (fun i => by rw [h5]; exact Tab.proj_set VarDecl.id _ _ _ h6 i)
    (fun i => by rw [h5]; exact Tab.proj_set VarDecl.prev _ _ _ h7 i)

syntax "keep'" : tactic
macro_rules | `(tactic| keep') => `(tactic| keep Props.SccScope (intro s; first
  | exact Props.SccScope.same0 rfl rfl rfl rfl rfl | exact Props.SccScope.sameV rfl rfl rfl rfl rfl rfl rfl))

end Props.SccScope
