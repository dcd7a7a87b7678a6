import Verif.Props.ScppMacro
import Mathlib.Data.List.Perm.Basic
/-!
# `#define` and `#undef`

Lemmas for `C26` and `C31`: the directives change the macro table as they should.  `Pool` says which nodes are free and which hold replacement lists.
-/
namespace Props.ScppDefine
open Scpp Prog Text ScppLex ScppMacro

/-! ## The identifier table -/

/-- The identifier table holds the names `ns`. -/
structure Ids (ns : List (List Byte)) (s : S) : Prop where
  inv : Probe.Inv idHashMax hashOf s.idHash ns
  nodup : ns.Nodup
  cnt : s.idCount = ns.length
  le : ns.length ≤ 32
  txt : ∀ i w, ns[i]? = some w → TxtIs s (s.idText i) w

theorem _root_.Props.ScppMacro.Rep.ids {Δ : Table} {s : S} (h : Rep Δ s) : Ids (names Δ) s := ⟨h.inv, h.nodup, h.cnt, h.le, h.txt⟩

theorem freeSlot_eq {t : Nat → Option Nat} {h : Nat} : ∀ (j k n : Nat), j < n → t (Probe.pr idHashMax h (k + j)) = none →
    (∀ i < j, t (Probe.pr idHashMax h (k + i)) ≠ none) → freeSlot t n (Probe.pr idHashMax h k) = some (Probe.pr idHashMax h (k + j))
  | 0, k, n, hn, h0, _ => by
    obtain ⟨n, rfl⟩ := Nat.exists_eq_succ_of_ne_zero (by omega : n ≠ 0)
    rw [Nat.add_zero] at h0 ⊢
    simp only [freeSlot, h0]
  | j + 1, k, n, hn, h0, hb => by
    obtain ⟨n, rfl⟩ := Nat.exists_eq_succ_of_ne_zero (by omega : n ≠ 0)
    have hk := hb 0 (by omega)
    rw [Nat.add_zero] at hk
    obtain ⟨v, hv⟩ := Option.ne_none_iff_exists'.mp hk
    simp only [freeSlot, hv]
    rw [Probe.pr_succ, freeSlot_eq j (k + 1) n (by omega) (by rw [show k + 1 + j = k + (j + 1) by omega]; exact h0)
      (fun i hi => by rw [show k + 1 + i = k + (i + 1) by omega]; exact hb (i + 1) (by omega)), show k + 1 + j = k + (j + 1) by omega]

/-- The state after `AddId`. -/
def added (h : Nat) (t : Txt) (s : S) : S :=
  { s with idText := upd s.idText s.idCount t, idHash := upd s.idHash h (some s.idCount), idCount := s.idCount + 1 }

/-- `AddId` adds a new name. -/
theorem addId_eq {ns : List (List Byte)} {s : S} {t : Txt} {w : List Byte} (hI : Ids ns s) (hw : strOf s t = some w) (hn : w ∉ ns) (hl : ns.length < 32) :
    ∃ h, addId t s = .ok ns.length (added h t s) ∧
      ∀ s', s'.idText = (added h t s).idText → s'.idHash = (added h t s).idHash → s'.idCount = (added h t s).idCount →
        (∀ i v, ns[i]? = some v → TxtIs s (s.idText i) v → TxtIs s' (s.idText i) v) → TxtIs s' t w → Ids (ns ++ [w]) s' := by
  obtain ⟨j, hj, h1, h2⟩ := Probe.exists_first hI.inv (hashOf w)
  refine ⟨Probe.pr idHashMax (hashOf w) j, ?_, ?_⟩
  · refine run_getS (run_assert (by rw [hI.cnt]; simpa [idMax] using hl) ?_)
    refine run_bind (a := w) (s1 := s) (run_getS (by rw [hw]; rfl)) ?_
    have := freeSlot_eq (t := s.idHash) (h := hashOf w) j 0 idHashMax hj (by rw [Nat.zero_add]; exact h1) (fun i hi => by rw [Nat.zero_add]; exact h2 i hi)
    rw [Probe.pr_zero (hashOf_lt w), Nat.zero_add] at this
    simp only [this]
    refine run_modS ?_
    rw [hI.cnt]
    simp only [added, hI.cnt]
    rfl
  · intro s' e1 e2 e3 hT hw'
    have hc : ns.length + 1 < idHashMax := by simp only [idHashMax]; omega
    refine ⟨?_, ?_, ?_, ?_, ?_⟩
    · have := Probe.add hI.inv w hc hj h1 h2
      rw [e2]
      simp only [added, hI.cnt]
      exact this
    · rw [List.nodup_append]
      exact ⟨hI.nodup, by simp, fun a ha b hb => by simp only [List.mem_singleton] at hb; subst hb; exact fun e => hn (e ▸ ha)⟩
    · rw [e3]; simp [added, hI.cnt]
    · simp; omega
    · intro i v hv
      rw [e1]
      simp only [added, hI.cnt]
      by_cases hi : i < ns.length
      · rw [upd_ne _ _ (by omega)]
        rw [List.getElem?_append_left hi] at hv
        exact hT i v hv (hI.txt i v hv)
      · rw [List.getElem?_append_right (by omega)] at hv
        have h0 : i - ns.length = 0 := by
          have := (List.getElem?_eq_some_iff.mp hv).1
          simp at this; omega
        rw [h0] at hv
        simp only [List.getElem?_cons_zero, Option.some.injEq] at hv
        have : i = ns.length := by omega
        subst this
        rw [upd_self, ← hv]
        exact hw'

/-! ## The pool of nodes -/

/-- The list of nodes from `st`. -/
def Nodes (node : Nat → Node) : Option Nat → List Nat → Prop
  | none, [] => True
  | some i, j :: is => i = j ∧ Nodes node (node i).next is
  | _, _ => False

theorem Nodes.congr {node node' : Nat → Node} : ∀ {is : List Nat} {st : Option Nat}, Nodes node st is → (∀ i ∈ is, (node' i).next = (node i).next) → Nodes node' st is
  | [], none, _, _ => trivial
  | j :: is, some i, ⟨h1, h2⟩, he => by
    subst h1
    refine ⟨rfl, ?_⟩
    rw [he i (by simp)]
    exact Nodes.congr h2 fun k hk => he k (by simp [hk])

/-- The end of a list gets another node. -/
theorem Nodes.snoc {node node' : Nat → Node} {e l : Nat} : ∀ {is : List Nat} {st : Option Nat}, Nodes node st is → is.Nodup → is.getLast? = some l →
    (∀ i ∈ is, i ≠ l → (node' i).next = (node i).next) → (node' l).next = some e → (node' e).next = none → Nodes node' st (is ++ [e])
  | [], _, _, _, h, _, _, _ => by simp at h
  | [j], some i, ⟨h1, _⟩, _, hl, _, h3, h4 => by
    subst h1
    simp only [List.getLast?_singleton, Option.some.injEq] at hl
    subst hl
    refine ⟨rfl, ?_⟩
    rw [h3]
    exact ⟨rfl, by rw [h4]; trivial⟩
  | j :: k :: is, some i, ⟨h1, h2⟩, hd, hl, he, h3, h4 => by
    subst h1
    have hl' : (k :: is).getLast? = some l := by rwa [List.getLast?_cons_cons] at hl
    have hil : i ≠ l := by
      rintro rfl
      have := List.mem_of_mem_getLast? (Option.mem_def.mpr hl')
      exact (List.nodup_cons.mp hd).1 this
    refine ⟨rfl, ?_⟩
    rw [he i (by simp) hil]
    exact Nodes.snoc h2 (List.nodup_cons.mp hd).2 hl' (fun m hm => he m (by simp at hm ⊢; exact .inr hm)) h3 h4

/-- Two lists one after the other. -/
theorem Nodes.join {node node' : Nat → Node} {l : Nat} {fr : Option Nat} {fs : List Nat} : ∀ {is : List Nat} {st : Option Nat}, Nodes node st is → is.Nodup → is.getLast? = some l →
    (∀ i ∈ is, i ≠ l → (node' i).next = (node i).next) → (node' l).next = fr → Nodes node' fr fs → Nodes node' st (is ++ fs)
  | [], _, _, _, h, _, _, _ => by simp at h
  | [j], some i, ⟨h1, _⟩, _, hl, _, h3, h4 => by
    subst h1
    simp only [List.getLast?_singleton, Option.some.injEq] at hl
    subst hl
    refine ⟨rfl, ?_⟩
    rw [h3]
    exact h4
  | j :: k :: is, some i, ⟨h1, h2⟩, hd, hl, he, h3, h4 => by
    subst h1
    have hl' : (k :: is).getLast? = some l := by rwa [List.getLast?_cons_cons] at hl
    have hil : i ≠ l := by
      rintro rfl
      have := List.mem_of_mem_getLast? (Option.mem_def.mpr hl')
      exact (List.nodup_cons.mp hd).1 this
    refine ⟨rfl, ?_⟩
    rw [he i (by simp) hil]
    exact Nodes.join h2 (List.nodup_cons.mp hd).2 hl' (fun m hm => he m (by simp at hm ⊢; exact .inr hm)) h3 h4

/-- The tokens of the nodes. -/
def Toks (s : S) (is : List Nat) (ps : List PTok) : Prop := List.Forall₂ (fun i p => TokIs s (s.node i).tok p) is ps

theorem chain_of {s : S} : ∀ {is : List Nat} {st : Option Nat} {ps : List PTok}, Nodes s.node st is → Toks s is ps → Chain s st ps
  | [], none, _, _, .nil => trivial
  | _ :: _, some _, _, ⟨h1, h2⟩, .cons a b => by
    subst h1
    exact ⟨a, chain_of h2 b⟩

/-- Every node is on the free list or belongs to the replacement list of one macro. -/
def Pool (Δ : Table) (s : S) : Prop := ∃ (fl : List Nat) (own : List (List Nat)), Nodes s.node s.free fl ∧ own.length = Δ.length ∧
  (∀ (i : Nat) w b l, Δ[i]? = some (w, some b) → own[i]? = some l → Nodes s.node (s.mac i).repl l ∧ l.length = b.length) ∧
  (∀ (i : Nat) w l, Δ[i]? = some (w, none) → own[i]? = some l → l = []) ∧
  (fl ++ own.flatten).Perm (List.range 128)

/-- The macros not in the table yet. -/
structure Fresh (Δ : Table) (s : S) : Prop where
  new : ∀ i, Δ.length ≤ i → (s.mac i).args = .none ∧ (s.mac i).repl = none
  undef : ∀ i w, Δ[i]? = some (w, none) → (s.mac i).args = .none

/-- The state of the preprocessor between lines: the macro table is `Δ`. -/
structure Good (Δ : Table) (s : S) : Prop where
  rep : Rep Δ s
  stk : Stk Δ s []
  pool : Pool Δ s
  fresh : Fresh Δ s

theorem Pool.frame {Δ : Table} {s s' : S} (h : Pool Δ s) (f : Frame s s') : Pool Δ s' := by
  obtain ⟨fl, own, h1, h2, h3, h4, h5⟩ := h
  refine ⟨fl, own, by rw [f.node, f.free]; exact h1, h2, ?_, h4, h5⟩
  intro i w b l hi hl
  rw [f.node, (f.mac i).2.1]
  exact h3 i w b l hi hl

theorem Fresh.frame {Δ : Table} {s s' : S} (h : Fresh Δ s) (f : Frame s s') : Fresh Δ s' :=
  ⟨fun i hi => by rw [(f.mac i).1, (f.mac i).2.1]; exact h.new i hi, fun i w hi => by rw [(f.mac i).1]; exact h.undef i w hi⟩

theorem Good.frame {Δ : Table} {s s' : S} (h : Good Δ s) (f : Frame s s') (hS : Stk Δ s' []) : Good Δ s' :=
  ⟨h.rep.frame f, hS, h.pool.frame f, h.fresh.frame f⟩

/-! ## Spaces -/

/-- Optional white space. -/
def sps : Option (List Byte) → List PTok
  | none => []
  | some w => [.ws w]

/-- `RawGetToken` and `RawSkipWS` pass optional white space. -/
theorem raw_skip {s : S} {W : Option (List Byte)} {t : PTok} {r : List Byte} (hs : s.stack = []) (hq : s.queue = []) (ha : At s (render (sps W) ++ (t.text ++ r)))
    (hsp : Spelled (sps W ++ [t]) r) (ht : t.ty ≠ tokWs) (hl : s.tdNext + t.need ≤ 2048) :
    ∃ s0 s1, rawGetToken s = .ok () s0 ∧ (∀ n, rawSkipWs (n + 2) s0 = .ok () s1) ∧ RawAt s s1 t r := by
  cases W with
  | none =>
    obtain ⟨o1, o2, _⟩ := hsp
    obtain ⟨s1, h1, h2⟩ := raw_next hs hq ha o1 o2 hl
    exact ⟨s1, s1, h1, fun n => run_getS (run_neg (by rw [h2.ty]; exact ht) rfl), h2⟩
  | some w =>
    obtain ⟨o1, o2, o3, o4, _⟩ := hsp
    obtain ⟨s0, h1, h2⟩ := raw_next (t := .ws w) (r := t.text ++ r) hs hq (by simpa [sps, render, PTok.text] using ha) o1 (by simpa [render] using o2)
      (by simp only [PTok.need]; omega)
    obtain ⟨s1, h3, h4⟩ := raw_next (t := t) (r := r) (h2.stack.trans hs) (by rw [h2.frame.queue]; exact hq) h2.at_ o3 o4 (by rw [h2.frame.tdNext]; exact hl)
    refine ⟨s0, s1, h1, fun n => run_getS (run_pos (by rw [h2.ty]; rfl) (run_bind h3 (run_getS (run_neg (by rw [h4.ty]; exact ht) rfl)))), ?_⟩
    have e := h2.frame.tdNext
    exact ⟨h2.frame.trans h4.frame, h4.at_, h4.ty, h4.txt, by rw [← e]; exact h4.pos, h4.hash, h4.stack.trans h2.stack, h4.mac.trans h2.mac, h4.out.trans h2.out⟩

/-! ## Replacement lists -/

/-- What building the replacement list of macro `m` from the nodes `fl` leaves alone. -/
structure Build (m : Nat) (fl : List Nat) (s s' : S) : Prop where
  tdNext : s.tdNext ≤ s'.tdNext
  idText : s'.idText = s.idText
  idHash : s'.idHash = s.idHash
  idCount : s'.idCount = s.idCount
  queue : s'.queue = s.queue
  arg : s'.arg = s.arg
  argCount : s'.argCount = s.argCount
  cond : s'.cond = s.cond
  files : s'.files = s.files
  name : s'.name = s.name
  oldLine : s'.oldLine = s.oldLine
  stack : s'.stack = s.stack
  out : s'.out = s.out
  td : ∀ i, i < s.tdNext → s'.td.get i = s.td.get i
  node : ∀ i, i ∉ fl → s'.node i = s.node i
  mac : ∀ i, i ≠ m → s'.mac i = s.mac i
  args : (s'.mac m).args = (s.mac m).args
  hide : (s'.mac m).hide = (s.mac m).hide

theorem Build.trans {m : Nat} {fl fl' : List Nat} {s s' s'' : S} (h : Build m fl s s') (h' : Build m fl' s' s'') (hf : ∀ i ∈ fl', i ∈ fl) : Build m fl s s'' where
  tdNext := Nat.le_trans h.tdNext h'.tdNext
  idText := h'.idText.trans h.idText
  idHash := h'.idHash.trans h.idHash
  idCount := h'.idCount.trans h.idCount
  queue := h'.queue.trans h.queue
  arg := h'.arg.trans h.arg
  argCount := h'.argCount.trans h.argCount
  cond := h'.cond.trans h.cond
  files := h'.files.trans h.files
  name := h'.name.trans h.name
  oldLine := h'.oldLine.trans h.oldLine
  stack := h'.stack.trans h.stack
  out := h'.out.trans h.out
  td := fun i hi => (h'.td i (Nat.lt_of_lt_of_le hi h.tdNext)).trans (h.td i hi)
  node := fun i hi => (h'.node i fun e => hi (hf i e)).trans (h.node i hi)
  mac := fun i hi => (h'.mac i hi).trans (h.mac i hi)
  args := h'.args.trans h.args
  hide := h'.hide.trans h.hide

theorem Build.raw {m : Nat} {fl : List Nat} {s s' : S} {t : PTok} {r : List Byte} (h : RawAt s s' t r) : Build m fl s s' where
  tdNext := by rw [h.frame.tdNext]
  idText := h.frame.idText
  idHash := h.frame.idHash
  idCount := h.frame.idCount
  queue := h.frame.queue
  arg := h.frame.arg
  argCount := h.frame.argCount
  cond := h.frame.cond
  files := h.frame.files
  name := h.frame.name
  oldLine := h.frame.oldLine
  stack := h.stack
  out := h.out
  td := h.frame.td
  node := fun i _ => by rw [h.frame.node]
  mac := fun i _ => by rw [h.mac]
  args := by rw [h.mac]
  hide := by rw [h.mac]

theorem txt_mono {s s' : S} {t : Txt} {w : List Byte} (h : TxtIs s t w) (h1 : s.tdNext ≤ s'.tdNext) (h2 : ∀ i, i < s.tdNext → s'.td.get i = s.td.get i) : TxtIs s' t w := by
  rcases h with rfl | ⟨off, rfl, h⟩
  · exact .inl rfl
  · exact .inr ⟨off, rfl, (StrBelow.frame h h2).mono h1⟩

/-- The replacement list so far: its nodes `idx` with the tokens `pre`, the free nodes `fl`, and the place for the next node. -/
structure Bld (m : Nat) (s : S) (fl idx : List Nat) (pre : List PTok) (l : Loc) : Prop where
  free : Nodes s.node s.free fl
  toks : Toks s idx pre
  nodup : (fl ++ idx).Nodup
  loc : idx = [] ∧ l = .mac m ∨ Nodes s.node (s.mac m).repl idx ∧ ∃ e, idx.getLast? = some e ∧ l = .node e

theorem Nodes.head {node : Nat → Node} {st : Option Nat} {e : Nat} {is : List Nat} (h : Nodes node st (e :: is)) : st = some e ∧ Nodes node (node e).next is := by
  cases st with
  | none => cases h
  | some i =>
    obtain ⟨rfl, h⟩ := h
    exact ⟨rfl, h⟩

/-- `AddToken`. -/
theorem addToken_eq {m : Nat} {s : S} {fl idx : List Nat} {e : Nat} {pre : List PTok} {l : Loc} (t : Tok) (h : Bld m s (e :: fl) idx pre l) :
    ∃ s', addToken l t s = .ok (.node e) s' ∧ Build m (e :: idx) s s' ∧ s'.tdNext = s.tdNext ∧ s'.td = s.td ∧ s'.tdPos = s.tdPos ∧ s'.tok = s.tok ∧ s'.cur = s.cur ∧
      s'.inp = s.inp ∧ s'.hash = s.hash ∧ (s'.node e).tok = t ∧
      ∀ p, TokIs s' t p → Bld m s' fl (idx ++ [e]) (pre ++ [p]) (.node e) := by
  obtain ⟨hf, hf'⟩ := h.free.head
  have hnd := h.nodup
  simp only [List.cons_append, List.nodup_cons, List.mem_append, not_or] at hnd
  obtain ⟨⟨hefl, heidx⟩, hnd⟩ := hnd
  have hndi := (List.nodup_append.mp hnd).2.1
  have hdis := (List.nodup_append.mp hnd).2.2
  rcases h.loc with ⟨rfl, rfl⟩ | ⟨hN, last, hlast, rfl⟩
  · let s' : S := { s with free := (s.node e).next, node := upd s.node e ⟨t, none⟩, mac := upd s.mac m { s.mac m with repl := some e } }
    have hrun : addToken (.mac m) t s = .ok (.node e) s' := by
      refine run_getS ?_
      simp only [hf]
      refine run_modS (run_modS (run_modS ?_))
      show Res.ok _ _ = Res.ok _ _
      have : ∀ (f : Nat → Node) i a b, upd (upd f i a) i b = upd f i b := by intro f i a b; funext j; simp only [upd]; split <;> rfl
      simp only [setLoc, upd_self, this]
      rfl
    have hno : ∀ i, i ≠ e → s'.node i = s.node i := fun i hi => upd_ne _ _ hi
    refine ⟨s', hrun, ⟨Nat.le_refl _, rfl, rfl, rfl, rfl, rfl, rfl, rfl, rfl, rfl, rfl, rfl, rfl, fun _ _ => rfl, ?_, ?_, ?_, ?_⟩, rfl, rfl, rfl, rfl, rfl, rfl, rfl,
      by show (upd s.node e ⟨t, none⟩ e).tok = t; rw [upd_self], ?_⟩
    · intro i hi; exact hno i (by simpa using hi)
    · intro i hi; exact upd_ne _ _ hi
    · show (upd s.mac m _ m).args = _; rw [upd_self]
    · show (upd s.mac m _ m).hide = _; rw [upd_self]
    · intro p hp
      refine ⟨hf'.congr fun i hi => by rw [hno i (fun e' => hefl (e' ▸ hi))], ?_, ?_, .inr ⟨?_, e, by simp, rfl⟩⟩
      · have hpre : pre = [] := by cases h.toks; rfl
        subst hpre
        refine .cons ?_ .nil
        show TokIs s' (upd s.node e ⟨t, none⟩ e).tok p
        rw [upd_self]
        exact hp
      · rw [List.append_nil] at hnd
        rw [List.nil_append, List.nodup_append]
        exact ⟨hnd, by simp, fun a ha b hb => by simp only [List.mem_singleton] at hb; subst hb; exact fun e' => hefl (e' ▸ ha)⟩
      · show Nodes _ (upd s.mac m _ m).repl _
        rw [upd_self]
        refine ⟨rfl, ?_⟩
        show Nodes _ (upd s.node e ⟨t, none⟩ e).next []
        rw [upd_self]
        trivial
  · have hli : last ∈ idx := List.mem_of_mem_getLast? (Option.mem_def.mpr hlast)
    have hle : last ≠ e := fun e' => heidx (e' ▸ hli)
    let s' : S := { s with free := (s.node e).next, node := upd (upd s.node e ⟨t, none⟩) last { s.node last with next := some e } }
    have hrun : addToken (.node last) t s = .ok (.node e) s' := by
      refine run_getS ?_
      simp only [hf]
      refine run_modS (run_modS (run_modS ?_))
      show Res.ok _ _ = Res.ok _ _
      simp only [setLoc, upd_ne _ _ hle, upd_ne _ _ (Ne.symm hle), upd_self]
      refine congrArg _ ?_
      show _ = s'
      have : ∀ (f : Nat → Node) a b c, upd (upd (upd f e a) last b) e c = upd (upd f e c) last b := by
        intro f a b c; funext j; simp only [upd]
        by_cases h1 : j = e
        · subst h1; simp [Ne.symm hle]
        · simp [h1]
      rw [this]
    have hne : s'.node e = ⟨t, none⟩ := by
      show upd (upd s.node e ⟨t, none⟩) last _ e = _
      rw [upd_ne _ _ (Ne.symm hle), upd_self]
    have hnl : s'.node last = { s.node last with next := some e } := upd_self _ _ _
    have hno : ∀ i, i ≠ e → i ≠ last → s'.node i = s.node i := fun i hi hi' => by
      show upd (upd s.node e ⟨t, none⟩) last _ i = _
      rw [upd_ne _ _ hi', upd_ne _ _ hi]
    refine ⟨s', hrun, ⟨Nat.le_refl _, rfl, rfl, rfl, rfl, rfl, rfl, rfl, rfl, rfl, rfl, rfl, rfl, fun _ _ => rfl, ?_, fun _ _ => rfl, rfl, rfl⟩, rfl, rfl, rfl, rfl, rfl, rfl, rfl,
      by rw [hne], ?_⟩
    · intro i hi
      simp only [List.mem_cons, not_or] at hi
      exact hno i hi.1 fun e' => hi.2 (e' ▸ hli)
    · intro p hp
      refine ⟨hf'.congr fun i hi => by rw [hno i (fun e' => hefl (e' ▸ hi)) (fun e' => hdis i hi last hli e')], ?_, ?_, .inr ⟨?_, e, by simp, rfl⟩⟩
      · refine List.rel_append ?_ (.cons (by rw [hne]; exact hp) .nil)
        have ht := h.toks
        have : ∀ is ps, (∀ i ∈ is, i ≠ e) → Toks s is ps → List.Forall₂ (fun i p => TokIs s' (s'.node i).tok p) is ps := by
          intro is ps hi ht
          induction ht with
          | nil => exact .nil
          | @cons a b _ _ hab _ ih =>
            refine .cons ?_ (ih fun i hi' => hi i (by simp [hi']))
            by_cases hal : a = last
            · subst hal; rw [hnl]; exact hab
            · rw [hno a (hi a (by simp)) hal]; exact hab
        exact this _ _ (fun i hi e' => heidx (e' ▸ hi)) ht
      · rw [← List.append_assoc, List.nodup_append]
        refine ⟨hnd, by simp, fun a ha b hb => ?_⟩
        simp only [List.mem_singleton] at hb
        subst hb
        rintro rfl
        rcases List.mem_append.mp ha with h1 | h1
        · exact hefl h1
        · exact heidx h1
      · refine hN.snoc hndi hlast (fun i hi hi' => by rw [hno i (fun e' => heidx (e' ▸ hi)) hi']) (by rw [hnl]) (by rw [hne])

/-- The current token is `t`, just read. -/
structure Cur (s : S) (t : PTok) : Prop where
  ty : s.tok.ty = t.ty
  pos : t ≠ .nl → t.ty ≠ tokWs → s.tok.txt = .data s.tdNext ∧ s.tdPos = s.tdNext + t.need ∧ StrBelow s.td (s.tdNext + t.need) s.tdNext t.val

theorem _root_.Props.ScppMacro.RawAt.cur {s s1 : S} {t : PTok} {r : List Byte} (h : RawAt s s1 t r) : Cur s1 t := ⟨h.ty, by rw [h.frame.tdNext]; exact h.pos⟩

/-- A change of `NextTokenDataPos`. -/
theorem Bld.bump {m : Nat} {s : S} {fl idx : List Nat} {pre : List PTok} {l : Loc} (h : Bld m s fl idx pre l) (p : Nat) (hp : s.tdNext ≤ p) :
    Bld m { s with tdNext := p } fl idx pre l where
  free := h.free
  toks := h.toks.imp fun _ _ a => ⟨a.1, fun e => txt_mono (a.2 e) hp fun _ _ => rfl⟩
  nodup := h.nodup
  loc := h.loc

theorem Bld.raw {m : Nat} {s s' : S} {fl idx : List Nat} {pre : List PTok} {l : Loc} {t : PTok} {r : List Byte} (h : Bld m s fl idx pre l) (hr : RawAt s s' t r) :
    Bld m s' fl idx pre l where
  free := by rw [hr.frame.node, hr.frame.free]; exact h.free
  toks := h.toks.imp fun _ _ a => by rw [hr.frame.node]; exact a.frame hr.frame
  nodup := h.nodup
  loc := by rw [hr.frame.node, hr.mac]; exact h.loc

/-- A token of the replacement list is stored. -/
theorem body_step {m : Nat} {s : S} {fl idx : List Nat} {pre pw : List PTok} {l : Loc} {p : Option Bool} {t : PTok} (h : Bld m s fl idx pre l) (hc : Cur s t) (hok : t.Ok)
    (hnl : t ≠ .nl) (hws : t.ty ≠ tokWs) (ha : (s.mac m).args = .none) (hp : p = some true ∧ (∃ w, pw = [.ws w]) ∨ p ≠ some true ∧ pw = []) (hl : pw.length + 1 ≤ fl.length) :
    ∃ s1 new fl' e, fl = new ++ fl' ∧ (∀ n, defBody (n + 1) m l p s = (rawGetToken >>= fun _ => defBody n m (.node e) (some false)) s1) ∧
      Bld m s1 fl' (idx ++ new) (pre ++ pw ++ [t]) (.node e) ∧ Build m (fl ++ idx) s s1 ∧ s1.tdNext = s.tdNext + t.need ∧ s1.cur = s.cur ∧ s1.inp = s.inp ∧
      new.length = pw.length + 1 := by
  have c1 : ¬ s.tok.ty = tokNl := by rw [hc.ty]; exact fun e => hnl ((ty_facts hok).2.2.2.2.2.1.mp e)
  have c2 : ¬ s.tok.ty = tokWs := by rw [hc.ty]; exact hws
  have c3 : ¬ (s.tok.ty = tokRawId ∧ (s.mac m).args ≠ .none) := fun e => e.2 ha
  obtain ⟨q1, q2, q3⟩ := hc.pos hnl hws
  -- storing the token itself
  have store : ∀ (s0 : S) (e : Nat) (fl' idx' : List Nat) (pre' : List PTok) (l' : Loc), Bld m s0 (e :: fl') idx' pre' l' → s0.tok = s.tok → s0.tdNext = s.tdNext →
      s0.tdPos = s.tdPos → s0.td = s.td → ∃ s1, addToken l' s.tok s0 = .ok (.node e) s1 ∧ Build m (e :: idx') s0 { s1 with tdNext := s1.tdPos } ∧
        Bld m { s1 with tdNext := s1.tdPos } fl' (idx' ++ [e]) (pre' ++ [t]) (.node e) ∧ s1.tdPos = s.tdNext + t.need ∧ s1.cur = s0.cur ∧ s1.inp = s0.inp := by
    intro s0 e fl' idx' pre' l' hB e1 e2 e3 e4
    obtain ⟨s1, a1, a2, a3, a4, a5, a6, a7, a8, _, a9, a10⟩ := addToken_eq s.tok hB
    have hpos : s1.tdPos = s.tdNext + t.need := a5.trans (e3.trans q2)
    refine ⟨s1, a1, ⟨?_, a2.idText, a2.idHash, a2.idCount, a2.queue, a2.arg, a2.argCount, a2.cond, a2.files, a2.name, a2.oldLine, a2.stack, a2.out,
      a2.td, a2.node, a2.mac, a2.args, a2.hide⟩, ?_, hpos, a7, a8⟩
    · show s0.tdNext ≤ s1.tdPos
      rw [e2, hpos]; omega
    · have hB1 : Bld m { s1 with tdNext := s1.tdPos } fl' (idx' ++ [e]) (pre' ++ [t]) (.node e) := by
        -- the list of nodes, with a token known only after the change of `NextTokenDataPos`
        have hB3 := hB.bump s1.tdPos (by rw [e2, hpos]; omega)
        obtain ⟨s2, b1, b2, b3, b4, b5, b6, b7, b8, b8', b9, b10⟩ := addToken_eq s.tok hB3
        have hs2 : s2 = { s1 with tdNext := s1.tdPos } := by
          have g : addToken l' s.tok { s0 with tdNext := s1.tdPos } = .ok (.node e) { s1 with tdNext := s1.tdPos } := by
            have hf := hB.free.head.1
            have h1 : addToken l' s.tok s0 = .ok (.node e) s1 := a1
            unfold addToken at h1 ⊢
            simp only [bind_run, getS_run, hf, modS_run, pure_run] at h1 ⊢
            simp only [Res.ok.injEq, true_and] at h1 ⊢
            rw [← h1]
            cases l' <;> rfl
          rw [b1] at g
          simp only [Res.ok.injEq, true_and] at g
          exact g
        rw [← hs2]
        refine b10 t ⟨hc.ty, fun _ => .inr ⟨s.tdNext, q1, ?_⟩⟩
        rw [b3, b4]
        show StrBelow s0.td s1.tdPos s.tdNext t.val
        rw [e4, hpos]
        exact q3
      exact hB1
  rcases hp with ⟨rfl, w, rfl⟩ | ⟨hp, rfl⟩
  · match fl, hl, h with
    | e0 :: e :: fl', _, h =>
      obtain ⟨s0, a1, a2, a3, a4, a5, a6, a7, a8, _, a9, a10⟩ := addToken_eq { ty := tokWs, txt := .undef } h
      have hB0 := a10 (.ws w) ⟨rfl, fun e => absurd rfl e⟩
      obtain ⟨s1, b1, b2, b3, b4, b5, b6⟩ := store s0 e fl' _ _ _ hB0 a6 a3 a5 a4
      refine ⟨{ s1 with tdNext := s1.tdPos }, [e0, e], fl', e, rfl, ?_, ?_, ?_, b4, b5.trans a7, b6.trans a8, rfl⟩
      · intro n
        refine run_getS (run_neg c1 (run_neg c2 (run_neg c3 ?_)))
        refine run_bind a1 (run_getS ?_)
        rw [a6]
        exact run_bind b1 rfl
      · rw [List.append_assoc] at b3
        exact b3
      · refine Build.trans (Build.trans (fl' := e0 :: idx) (fl := e0 :: e :: fl' ++ idx) ⟨Nat.le_refl _, rfl, rfl, rfl, rfl, rfl, rfl, rfl, rfl, rfl, rfl, rfl, rfl, fun _ _ => rfl, fun _ _ => rfl, fun _ _ => rfl, rfl, rfl⟩ a2 ?_) b2 ?_
        · intro i hi
          simp only [List.mem_cons, List.mem_append, List.cons_append] at hi ⊢
          rcases hi with h | h
          · exact .inl h
          · exact .inr (.inr (.inr h))
        · intro i hi
          simp only [List.mem_cons, List.mem_append, List.cons_append, List.not_mem_nil, or_false] at hi ⊢
          rcases hi with h | h | h
          · exact .inr (.inl h)
          · exact .inr (.inr (.inr h))
          · exact .inl h
  · match fl, hl, h with
    | e :: fl', _, h =>
      obtain ⟨s1, b1, b2, b3, b4, b5, b6⟩ := store s e fl' _ _ _ h rfl rfl rfl rfl
      refine ⟨{ s1 with tdNext := s1.tdPos }, [e], fl', e, rfl, ?_, ?_, ?_, b4, b5, b6, rfl⟩
      · intro n
        refine run_getS (run_neg c1 (run_neg c2 (run_neg c3 ?_)))
        exact run_neg hp (run_pure (run_getS (run_bind b1 rfl)))
      · rw [List.append_nil]
        exact b3
      · refine Build.trans (fl := e :: fl' ++ idx) ⟨Nat.le_refl _, rfl, rfl, rfl, rfl, rfl, rfl, rfl, rfl, rfl, rfl, rfl, rfl, fun _ _ => rfl, fun _ _ => rfl, fun _ _ => rfl, rfl, rfl⟩ b2 ?_
        intro i hi
        simp only [List.mem_cons, List.mem_append, List.cons_append] at hi ⊢
        rcases hi with h | h
        · exact .inl h
        · exact .inr (.inr h)

/-- The bytes of `TokenData` the tokens take. -/
def needs (ts : List PTok) : Nat := (ts.map PTok.need).sum

theorem needs_cons (t : PTok) (ts : List PTok) : needs (t :: ts) = t.need + needs ts := by simp [needs]

theorem render_cons (t : PTok) (ts : List PTok) (r : List Byte) : render (t :: ts) ++ r = t.text ++ (render ts ++ r) := by simp [render]

theorem ws_of_ty {t : PTok} (h : t.Ok) (hw : t.ty = tokWs) : ∃ w, t = .ws w := (ty_facts h).2.2.2.2.1.mp hw

theorem Build.refl (m : Nat) (fl : List Nat) (s : S) : Build m fl s s :=
  ⟨Nat.le_refl _, rfl, rfl, rfl, rfl, rfl, rfl, rfl, rfl, rfl, rfl, rfl, rfl, fun _ _ => rfl, fun _ _ => rfl, fun _ _ => rfl, rfl, rfl⟩

/-- The end of the line. -/
theorem defBody_end {m : Nat} {W : Option (List Byte)} {r : List Byte} {s : S} {fl idx : List Nat} {pre : List PTok} {l : Loc} (p : Option Bool) (hB : Bld m s fl idx pre l)
    (ha : At s (render (sps W ++ [.nl]) ++ r)) (hsp : Spelled (sps W ++ [.nl]) r) (hst : s.stack = []) (hq : s.queue = []) (htd : s.tdNext ≤ 2048) :
    ∃ s', (∀ n, (rawGetToken >>= fun _ => defBody (n + 2) m l p) s = .ok l s') ∧ Bld m s' fl idx pre l ∧ Build m [] s s' ∧ s'.tdNext = s.tdNext ∧ At s' r ∧ s'.tok.ty = tokNl := by
  cases W with
  | none =>
    obtain ⟨o1, o2, _⟩ := hsp
    obtain ⟨s1, h1, h2⟩ := raw_next (t := .nl) hst hq ha o1 o2 htd
    exact ⟨s1, fun n => run_bind h1 (run_getS (run_pos h2.ty rfl)), hB.raw h2, Build.raw h2, h2.frame.tdNext, h2.at_, h2.ty⟩
  | some w =>
    obtain ⟨o1, o2, o3, o4, _⟩ := hsp
    obtain ⟨s0, h1, h2⟩ := raw_next (t := .ws w) (r := PTok.nl.text ++ r) hst hq (by simpa [sps, render, PTok.text] using ha) o1 (by simpa [render] using o2) htd
    obtain ⟨s1, h3, h4⟩ := raw_next (t := .nl) (r := r) (h2.stack.trans hst) (by rw [h2.frame.queue]; exact hq) h2.at_ o3 o4 (by rw [h2.frame.tdNext]; exact htd)
    refine ⟨s1, fun n => run_bind h1 (run_getS (run_neg (by rw [h2.ty]; exact (by decide : ¬ tokWs = tokNl)) (run_pos (by rw [h2.ty]; rfl) (run_bind h3 (run_getS (run_pos h4.ty rfl)))))),
      (hB.raw h2).raw h4, (Build.raw h2).trans (Build.raw (fl := []) h4) (by simp), h4.frame.tdNext.trans h2.frame.tdNext, h4.at_, h4.ty⟩

/-- No white space after white space. -/
def Apart : List PTok → Prop
  | .ws _ :: .ws _ :: _ => False
  | _ :: ts => Apart ts
  | [] => True

theorem Apart.tail {t : PTok} {ts : List PTok} (h : Apart (t :: ts)) : Apart ts := by
  rw [Apart.eq_def] at h
  split at h
  · exact h.elim
  · next e => cases e; exact h
  · next e => cases e

/-- The replacement list up to the end of the line. -/
theorem defBody_eq {m : Nat} {W : Option (List Byte)} {r : List Byte} : ∀ (k : Nat) (ts : List PTok), ts.length ≤ k → ∀ (t : PTok) (s : S) (fl idx : List Nat) (pre pw : List PTok)
    (l : Loc) (p : Option Bool), Bld m s fl idx pre l → Cur s t → t.Ok → t ≠ .nl → t.ty ≠ tokWs → (∀ t ∈ ts, t ≠ .nl) → (∀ w, (t :: ts).getLast? ≠ some (.ws w)) → Apart ts →
    At s (render (ts ++ (sps W ++ [.nl])) ++ r) → Spelled (ts ++ (sps W ++ [.nl])) r → s.stack = [] → s.queue = [] → (s.mac m).args = .none →
    s.tdNext + needs (t :: ts) ≤ 2048 → (p = some true ∧ (∃ w, pw = [.ws w]) ∨ p ≠ some true ∧ pw = []) → pw.length + (ts.length + 1) ≤ fl.length →
    ∃ N s' new fl' e, fl = new ++ fl' ∧ (∀ n, N ≤ n → defBody n m l p s = .ok (.node e) s') ∧ Bld m s' fl' (idx ++ new) (pre ++ pw ++ t :: ts) (.node e) ∧
      Build m (fl ++ idx) s s' ∧ s'.tdNext = s.tdNext + needs (t :: ts) ∧ At s' r ∧ s'.tok.ty = tokNl ∧ new.length = pw.length + (ts.length + 1) := by
  intro k
  induction k with
  | zero =>
    intro ts hk t s fl idx pre pw l p hB hc hok hnl hws hts hlast hap ha hsp hst hq hargs htd hp hfl
    have : ts = [] := List.length_eq_zero_iff.mp (by omega)
    subst this
    obtain ⟨s1, new, fl', e, g1, g2, g3, g4, g5, g6, g7, g8⟩ := body_step hB hc hok hnl hws hargs hp (by simpa using hfl)
    obtain ⟨s2, k1, k2, k3, k4, k5, k6⟩ := defBody_end (W := W) (r := r) (some false) g3 (ha.congr g6 g7) hsp (g4.stack.trans hst) (g4.queue.trans hq)
      (by rw [g5]; simpa [needs] using htd)
    refine ⟨3, s2, new, fl', e, g1, fun n hn => ?_, k2, g4.trans k3 (by simp), by rw [k4, g5]; simp [needs], k5, k6, by simpa using g8⟩
    obtain ⟨n, rfl⟩ : ∃ j, n = j + 3 := ⟨n - 3, by omega⟩
    rw [g2]
    exact k1 n
  | succ k ih =>
    intro ts hk t s fl idx pre pw l p hB hc hok hnl hws hts hlast hap ha hsp hst hq hargs htd hp hfl
    cases ts with
    | nil => exact ih [] (by simp) t s fl idx pre pw l p hB hc hok hnl hws hts hlast hap ha hsp hst hq hargs htd hp hfl
    | cons t' ts =>
      obtain ⟨s1, new, fl', e, g1, g2, g3, g4, g5, g6, g7, g8⟩ := body_step hB hc hok hnl hws hargs hp (by simp only [List.length_cons] at hfl; omega)
      rw [needs_cons] at htd
      simp only [List.cons_append] at hsp
      obtain ⟨o1, o2, o3⟩ := hsp
      have ha1 : At s1 (t'.text ++ (render (ts ++ (sps W ++ [.nl])) ++ r)) := by
        rw [List.cons_append, render_cons] at ha
        exact ha.congr g6 g7
      rw [needs_cons] at htd
      obtain ⟨s2, h1, h2⟩ := raw_next (g4.stack.trans hst) (g4.queue.trans hq) ha1 o1 o2 (by rw [g5]; omega)
      have hlen : new.length + fl'.length = fl.length := by rw [g1, List.length_append]
      have hB2 : Build m (fl ++ idx) s s2 := g4.trans (Build.raw (fl := []) h2) (by simp)
      have hsub : ∀ i ∈ fl' ++ (idx ++ new), i ∈ fl ++ idx := by
        intro i hi
        rw [g1]
        simp only [List.mem_append] at hi ⊢
        rcases hi with h | h | h
        · exact .inl (.inr h)
        · exact .inr h
        · exact .inl (.inl h)
      by_cases hw : t'.ty = tokWs
      · obtain ⟨w, rfl⟩ := ws_of_ty o1 hw
        cases ts with
        | nil => exact absurd (by simp) (hlast w)
        | cons t2 ts =>
          simp only [List.cons_append] at o3
          obtain ⟨u1, u2, u3⟩ := o3
          have ha2 := h2.at_
          rw [List.cons_append, render_cons] at ha2
          have hw2 : t2.ty ≠ tokWs := fun e => by
            obtain ⟨v, rfl⟩ := ws_of_ty u1 e
            exact hap
          obtain ⟨s3, h3, h4⟩ := raw_next (h2.stack.trans (g4.stack.trans hst)) (by rw [h2.frame.queue, g4.queue]; exact hq) ha2 u1 u2
            (by rw [h2.frame.tdNext, g5]; rw [needs_cons] at htd; omega)
          have hB3 : Build m (fl ++ idx) s s3 := hB2.trans (Build.raw (fl := []) h4) (by simp)
          obtain ⟨N, s', new', fl2, e', k1, k2, k3, k4, k5, k6, k7, k8⟩ := ih ts (by simp only [List.length_cons] at hk; omega) t2 s3 fl' (idx ++ new) (pre ++ pw ++ [t]) [.ws w] (.node e) (some true)
            ((g3.raw h2).raw h4) h4.cur u1 (hts t2 (by simp)) hw2 (fun x hx => hts x (by simp [hx])) (fun v => by
              have := hlast v
              rwa [List.getLast?_cons_cons, List.getLast?_cons_cons] at this) hap.tail.tail h4.at_ u3 (hB3.stack.trans hst) (hB3.queue.trans hq)
            (hB3.args.trans hargs) (by rw [h4.frame.tdNext, h2.frame.tdNext, g5]; omega) (.inl ⟨rfl, w, rfl⟩)
            (by simp only [List.length_cons, List.length_nil] at hfl ⊢; omega)
          refine ⟨N + 2, s', new ++ new', fl2, e', by rw [g1, k1, List.append_assoc], fun n hn => ?_, ?_, hB3.trans k4 hsub, ?_, k6, k7, ?_⟩
          · obtain ⟨n, rfl⟩ : ∃ j, n = j + 2 := ⟨n - 2, by omega⟩
            rw [g2]
            refine run_bind h1 (run_getS (run_neg (by rw [h2.ty]; exact (by decide : ¬ tokWs = tokNl)) (run_pos (by rw [h2.ty]; rfl) (run_bind h3 ?_))))
            exact k2 n (by omega)
          · simpa using k3
          · rw [k5, h4.frame.tdNext, h2.frame.tdNext, g5, needs_cons t, needs_cons (.ws w)]; simp only [PTok.need]; omega
          · simp only [List.length_append, List.length_cons, List.length_nil] at k8 ⊢; omega
      · obtain ⟨N, s', new', fl2, e', k1, k2, k3, k4, k5, k6, k7, k8⟩ := ih ts (by simp only [List.length_cons] at hk; omega) t' s2 fl' (idx ++ new) (pre ++ pw ++ [t]) [] (.node e) (some false)
          (g3.raw h2) h2.cur o1 (hts t' (by simp)) hw (fun x hx => hts x (by simp [hx])) (fun v => by
            have := hlast v
            rwa [List.getLast?_cons_cons] at this) hap.tail h2.at_ o3 (hB2.stack.trans hst) (hB2.queue.trans hq)
          (hB2.args.trans hargs) (by rw [h2.frame.tdNext, g5, needs_cons]; omega) (.inr ⟨by simp, rfl⟩)
          (by simp only [List.length_cons, List.length_nil] at hfl ⊢; omega)
        refine ⟨N + 1, s', new ++ new', fl2, e', by rw [g1, k1, List.append_assoc], fun n hn => ?_, ?_, hB2.trans k4 hsub, ?_, k6, k7, ?_⟩
        · obtain ⟨n, rfl⟩ : ∃ j, n = j + 1 := ⟨n - 1, by omega⟩
          rw [g2]
          exact run_bind h1 (k2 n (by omega))
        · simpa using k3
        · rw [k5, h2.frame.tdNext, g5, needs_cons t]; omega
        · simp only [List.length_append, List.length_cons, List.length_nil] at k8 ⊢; omega

/-! ## The whole line -/

/-- The part of `HandleDefine` after the name. -/
def rest (n m : Nat) : A Unit := do
  rawGetToken
  let s ← getS
  if s.tok.ty = 0x28 then
    rawGetToken
    rawSkipWs n
    let last ← defParams n m none
    match last with
    | none => modS fun s => { s with mac := upd s.mac m { s.mac m with args := .none } }
    | some j => modS fun s => { s with arg := upd s.arg j { s.arg j with next := none } }
    let s ← getS
    assertM (s.tok.ty == 0x29)
    rawGetToken
    modS fun s => { s with mac := upd s.mac m { s.mac m with args := if (s.mac m).args = .none then .empty else (s.mac m).args } }
  rawSkipWs n
  let l ← defBody n m (.mac m) none
  modS (setLoc l none)

/-- The replacement list on the line of the definition. -/
def bodyToks (v : List Byte) (b : List PTok) (W : Option (List Byte)) : List PTok :=
  match b with
  | [] => sps W
  | b => .ws v :: (b ++ sps W)

/-- A replacement list as it is stored: no white space at the ends and none after white space. -/
def Trim (b : List PTok) : Prop := (∀ w, b.head? ≠ some (.ws w)) ∧ (∀ w, b.getLast? ≠ some (.ws w)) ∧ Apart b

theorem Nodes.last_next {node : Nat → Node} {e : Nat} : ∀ {is : List Nat} {st : Option Nat}, Nodes node st is → is.getLast? = some e → (node e).next = none
  | [], _, _, h => by simp at h
  | [j], some i, ⟨h1, h2⟩, hl => by
    subst h1
    simp only [List.getLast?_singleton, Option.some.injEq] at hl
    subst hl
    cases hn : (node i).next with
    | none => rfl
    | some k => rw [hn] at h2; cases h2
  | j :: k :: is, some i, ⟨h1, h2⟩, hl => by
    rw [List.getLast?_cons_cons] at hl
    exact Nodes.last_next h2 hl

theorem define_tail {m : Nat} {v : List Byte} {b : List PTok} {W : Option (List Byte)} {r : List Byte} {s : S} {fl : List Nat} (hst : s.stack = []) (hq : s.queue = [])
    (hargs : (s.mac m).args = .none) (hfree : Nodes s.node s.free fl) (hnd : fl.Nodup) (ha : At s (render (bodyToks v b W ++ [.nl]) ++ r))
    (hsp : Spelled (bodyToks v b W ++ [.nl]) r) (htd : s.tdNext + needs b ≤ 2048) (hfl : b.length ≤ fl.length) (hb : ∀ t ∈ b, t ≠ .nl) (htr : Trim b) :
    ∃ N s' new fl', fl = new ++ fl' ∧ (∀ n, N ≤ n → rest n m s = .ok () s') ∧ Nodes s'.node s'.free fl' ∧ Nodes s'.node (s'.mac m).repl new ∧ Toks s' new b ∧
      Build m fl s s' ∧ s'.tdNext = s.tdNext + needs b ∧ At s' r ∧ s'.tok.ty = tokNl ∧ new.length = b.length := by
  cases b with
  | nil =>
    obtain ⟨s0, s1, h1, h2, h3⟩ := raw_skip (W := W) (t := .nl) hst hq (by simpa [bodyToks, render] using ha) hsp (by decide) (by simpa [needs, PTok.need] using htd)
    have h28 : ¬ s0.tok.ty = 0x28 := by
      intro e
      have := h2 0
      rw [show rawSkipWs 2 s0 = .ok () s0 from run_getS (run_neg (by rw [e]; decide) rfl)] at this
      cases this
      rw [h3.ty] at e
      cases e
    refine ⟨2, { s1 with mac := upd s1.mac m { s1.mac m with repl := none } }, [], fl, rfl, fun n hn => ?_, ?_, ?_, .nil, ?_, ?_, h3.at_, h3.ty, rfl⟩
    · obtain ⟨n, rfl⟩ : ∃ j, n = j + 2 := ⟨n - 2, by omega⟩
      refine run_bind h1 (run_getS (run_neg h28 (run_bind (h2 n) ?_)))
      exact run_bind (a := .mac m) (s1 := s1) (run_getS (run_pos h3.ty rfl)) rfl
    · show Nodes s1.node s1.free fl
      rw [h3.frame.node, h3.frame.free]; exact hfree
    · show Nodes _ (upd s1.mac m _ m).repl []
      rw [upd_self]; trivial
    · have := Build.raw (m := m) (fl := fl) h3
      refine ⟨this.tdNext, this.idText, this.idHash, this.idCount, this.queue, this.arg, this.argCount, this.cond, this.files, this.name, this.oldLine, this.stack, this.out,
        this.td, this.node, fun i hi => ?_, ?_, ?_⟩
      · show upd s1.mac m _ i = _
        rw [upd_ne _ _ hi]; exact this.mac i hi
      · show (upd s1.mac m _ m).args = _
        rw [upd_self]; exact this.args
      · show (upd s1.mac m _ m).hide = _
        rw [upd_self]; exact this.hide
    · show s1.tdNext = _
      rw [h3.frame.tdNext]; rfl
  | cons t ts =>
    have hsp1 : Spelled (.ws v :: t :: (ts ++ (sps W ++ [.nl]))) r := by
      have := hsp
      simp only [bodyToks, List.cons_append, List.append_assoc] at this
      exact this
    obtain ⟨o1, o2, o3, o4, o5⟩ := hsp1
    have hws : t.ty ≠ tokWs := fun e => by
      obtain ⟨w, rfl⟩ := ws_of_ty o3 e
      exact htr.1 w rfl
    rw [needs_cons] at htd
    have ha1 : At s (render (sps (some v)) ++ (t.text ++ (render (ts ++ (sps W ++ [.nl])) ++ r))) := by
      have := ha
      simp only [bodyToks, List.cons_append, List.append_assoc] at this
      rw [render_cons, render_cons] at this
      simpa [sps, render] using this
    obtain ⟨s0, s1, h1, h2, h3⟩ := raw_skip (W := some v) (t := t) hst hq ha1 ⟨o1, by simpa [render] using o2, o3, by simpa [render] using o4, trivial⟩ hws (by omega)
    have h28 : ¬ s0.tok.ty = 0x28 := by
      intro e
      have hr : rawGetToken s = .ok () s0 := h1
      obtain ⟨s0', h1', h2'⟩ := raw_next (t := .ws v) (r := t.text ++ (render (ts ++ (sps W ++ [.nl])) ++ r)) hst hq (by simpa [sps, render, PTok.text] using ha1) o1
        (by rw [render_cons] at o2; exact o2) (by simp only [PTok.need]; omega)
      rw [hr] at h1'
      cases h1'
      rw [h2'.ty] at e
      cases e
    have hB : Bld m s1 fl [] [] (.mac m) := ⟨by rw [h3.frame.node, h3.frame.free]; exact hfree, .nil, by simpa using hnd, .inl ⟨rfl, rfl⟩⟩
    obtain ⟨N, s', new, fl', e, k1, k2, k3, k4, k5, k6, k7, k8⟩ := defBody_eq ts.length ts (Nat.le_refl _) t s1 fl [] [] [] (.mac m) none hB h3.cur o3 (hb t (by simp)) hws
      (fun x hx => hb x (by simp [hx])) htr.2.1 htr.2.2.tail h3.at_ o5 (h3.stack.trans hst) (by rw [h3.frame.queue]; exact hq) (by rw [h3.mac]; exact hargs)
      (by rw [h3.frame.tdNext, needs_cons]; exact htd) (.inr ⟨by simp, rfl⟩) (by simpa using hfl)
    simp only [List.nil_append, List.append_nil] at k3 k4
    rcases k3.loc with ⟨hx, _⟩ | ⟨hN, e', hl, he⟩
    · rw [hx] at k8; simp at k8
    · have hne : (s'.node e).next = none := by
        cases he
        exact hN.last_next hl
      have hset : setLoc (.node e) none s' = s' := by
        have : upd s'.node e { s'.node e with next := none } = s'.node := by
          funext j
          simp only [upd]
          split
          · rename_i h; subst h; rw [← hne]
          · rfl
        simp only [setLoc, this]
      refine ⟨N + 2, s', new, fl', k1, fun n hn => ?_, k3.free, hN, k3.toks, (Build.raw h3).trans k4 (fun i hi => hi), ?_, k6, k7, by simpa using k8⟩
      · obtain ⟨n, rfl⟩ : ∃ j, n = j + 2 := ⟨n - 2, by omega⟩
        refine run_bind h1 (run_getS (run_neg h28 (run_bind (h2 n) ?_)))
        refine run_bind (k2 _ (by omega)) ?_
        rw [modS_run, hset]
      · rw [k5, h3.frame.tdNext]

end Props.ScppDefine
