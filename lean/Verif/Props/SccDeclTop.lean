import Verif.Props.SccStmProg
import Verif.Props.SccDeclFile
/-!
# Declarations of types in `scc.c` (C40): the start of a file
-/
namespace SccDecl
open Prog Text Scc SccCode SccGen SccHead SccSize SccTop Props.SccLex Props.SccIds

variable {N : List (List Byte)} {E : List Byte}

theorem first_tok {s : S} {names : List (List Byte)} {text : List Byte} (hl : Lex names text s) {u : Tk} {ts : List Tk} (h : Txt N E names text (u :: ts)) :
    ∃ s', getToken s = .ok () s' ∧ TokI s s' ∧ At N E s' (u :: ts) :=
  At.next (t := .sym s.tok s.prec) ⟨⟨rfl, rfl, nofun⟩, names, text, hl, h⟩

theorem Decls.head {env env' : Env} {ls : List Tk} {k m : Nat} {vs : List (Nat × CT)} (h : Decls env ls k m vs env') (hne : ls ≠ []) : ∃ x ts, ls = Tk.id x :: ts := by
  cases h with
  | nil => exact absurd rfl hne
  | type hs _ =>
    obtain ⟨x, ts, rfl⟩ := hs.head
    exact ⟨x, _, rfl⟩
  | vars hs _ _ =>
    obtain ⟨x, ts, rfl⟩ := hs.head
    exact ⟨x, _, rfl⟩

theorem start_ok {src : List Byte} {x : Nat} {ts : List Tk} (h : Txt N E (builtins.map asc) src (.id x :: ts)) :
    ∃ s, prelude (init src) = .ok () s ∧ At N E s (.id x :: ts) ∧ Ok [] [] (fun _ => none) (fun _ => -1) s ∧ Td s ∧ s.memCount = 0 ∧ s.structCount = 0 ∧ s.arrayCount = 0 ∧ s.scopes.get 0 = 3 ∧
      s.scopeCount = 1 ∧ s.ignoreRedef = 0 ∧ s.bss = 0 ∧ s.code = codeStart + 5 ∧ ∀ y, 40 ≤ y → y < 2 ^ 10 → s.lookup.get y = none := by
  have hb := builtins_eq (builtins.map asc) (init src)
  have hi0 := builtins_ids src
  have hpre : prelude (init src) = prel getToken ((builtins.map asc).foldl addBuiltin (init src)) := prelude_eq _
  generalize (builtins.map asc).foldl addBuiltin (init src) = b at hb hi0 hpre
  generalize hN : builtins.map asc = names at h hi0
  obtain ⟨p, g, P⟩ := prel_ok hb
  have hi : Ids p names := by
    have e1 : p.idHash = _ := congrArg (·.1) P.ids
    have e2 : p.idText = _ := congrArg (·.2.1) P.ids
    have e3 : p.idCount = _ := congrArg (·.2.2.1) P.ids
    unfold Ids
    rw [e1, e2, e3]
    exact hi0
  have hpos : p.idPos = used names := by rw [P.pos, ← hN]; rfl
  have hp : p = at' p (0 :: src) := by
    unfold at'
    rw [List.headD_cons, List.tail_cons, ← P.text.1, ← P.text.2]
  have hne : src ≠ [] := by
    rintro rfl
    generalize hs : ([] : List Byte) = r at h
    cases h with
    | word hwd =>
      obtain ⟨c, l, rfl, _⟩ := hwd
      simp at hs
  have hgt : getToken p = getToken (at' p src) := by
    rw [hp]
    show getToken (at' p (0 :: src)) = getToken (at' p src)
    cases h with
    | @word _ ws w r _ hwd hroom hw ha hr h =>
      obtain ⟨c, l, rfl, hc, _⟩ := hwd
      have hs := start_facts c hc
      rw [List.append_assoc, List.cons_append]
      exact lead c _ hw ⟨hs.1, hs.2.1, hs.2.2.1⟩ p
  have hlex : Lex names src (at' p src) := ⟨rest_eq p src hne, hi, hpos, by rw [← hN]; decide⟩
  obtain ⟨s, e, k, a⟩ := first_tok hlex h
  have tr {α : Type} (f : S → α) (hf : ∀ s, f (fz s) = f s) : f s = f p := by
    rw [← hf s, k.fz, hf]
    rw [← hf p, ← hf (at' p src)]
    rfl
  obtain ⟨m1, m2, m3, m4, _⟩ := mem_tb k.tb
  obtain ⟨_, q2⟩ := arr_tb k.tb
  have mc : s.memCount = 0 := m2.trans P.tabs.1
  have sc : s.structCount = 0 := m4.trans P.tabs.2.1
  have ac : s.arrayCount = 0 := q2.trans P.tabs.2.2
  have hlk : s.lookup = _ := (tr S.lookup fun _ => rfl).trans P.lookup
  have hv : s.vars = p.vars := tr S.vars fun _ => rfl
  have hcnt : s.scopes.get 0 = 3 := (tr (fun s => s.scopes.get 0) fun _ => rfl).trans P.cnt
  have look : ∀ y < 2 ^ 10, s.lookup.get y = if y = 39 then some 2 else if y = 38 then some 1 else if y = 37 then some 0 else none := by
    intro y hy
    rw [hlk]
    by_cases h1 : y = 39
    · rw [if_pos h1, h1, Tab.get_set_self]
    · rw [if_neg h1, Tab.get_set_ne _ _ (by decide) hy (Ne.symm h1)]
      by_cases h2 : y = 38
      · rw [if_pos h2, h2, Tab.get_set_self]
      · rw [if_neg h2, Tab.get_set_ne _ _ (by decide) hy (Ne.symm h2)]
        by_cases h3 : y = 37
        · rw [if_pos h3, h3, Tab.get_set_self]
        · rw [if_neg h3, Tab.get_set_ne _ _ (by decide) hy (Ne.symm h3), Tab.get_const]
  have td : Td s := by
    intro y hy v hv'
    rw [look y hy] at hv'
    rw [hcnt, hv]
    split at hv'
    · cases hv'; rw [P.v2]; exact ⟨by decide, by decide⟩
    · split at hv'
      · cases hv'; rw [P.v1]; exact ⟨by decide, by decide⟩
      · split at hv'
        · cases hv'; rw [P.v0]; exact ⟨by decide, by decide⟩
        · cases hv'
  refine ⟨s, ?_, a, ?_, td, mc, sc, ac, hcnt, (tr S.scopeCount fun _ => rfl).trans P.sc, (tr S.ignoreRedef fun _ => rfl).trans P.redef, (tr S.bss fun _ => rfl).trans P.bss,
    (tr S.code fun _ => rfl).trans P.code, fun y hy hy' => ?_⟩
  · rw [hpre, g, hgt, e]
  · refine ⟨by omega, by omega, by omega, nofun, nofun, fun u x _ => ?_, fun _ _ _ _ => rfl, nofun, td.noTd⟩
    unfold findStruct
    rw [sc]
    rfl
  · rw [look y hy', if_neg (by omega), if_neg (by omega), if_neg (by omega)]

theorem VarsAt.get {s : S} : ∀ {vs : List (Nat × CT)} {c : Nat}, VarsAt s c vs → ∀ (i : Nat) (h : i < vs.length), (s.vars.get (c + i)).id = vs[i].1 ∧
    Repr s (s.vars.get (c + i)).type (s.vars.get (c + i)).extra vs[i].2 ∧ (s.vars.get (c + i)).type &&& vtLocMask = vtLocGlob ∧ (s.vars.get (c + i)).type &&& vtFun = 0 ∧
      (s.vars.get (c + i)).offset = 0
  | [], _, _, i, h => absurd h (Nat.not_lt_zero i)
  | _ :: _, c, h, 0, _ => ⟨h.1.1, h.1.2.1.repr, h.1.2.2.1, h.1.2.2.2.1, h.1.2.2.2.2.1⟩
  | _ :: vs, c, h, i + 1, hi => by
    have := h.2.get i (by simpa using hi)
    rw [Nat.add_assoc, Nat.add_comm 1] at this
    exact this

end SccDecl

namespace Props
open Prog Text Scc SccGen SccSize SccDecl

/-- **C40**, declarations. A file begins with declarations of structures, unions and global variables of the types `vs`, within the limits of the compiler. The compiler accepts them: with enough depth it goes
on behind them in a state `s'` where the variables have the declared types and the sizes of these types, and the size of all of them has been counted. -/
theorem C40_declarations {N : List (List Byte)} {E src : List Byte} {ls rest : List Tk} {u : Tk} {k m : Nat} {vs : List (Nat × CT)} {env' : Env} (htext : Txt N E (builtins.map asc) src (ls ++ u :: rest))
    (hd : Decls (fun _ => none) ls k m vs env') (hne : ls ≠ []) (ha : cnt 0x5B ls ≤ arrayMax) (hm : m ≤ structMemberMax) (hs : cnt 0x7B ls ≤ structMax) (hv : 3 + vs.length ≤ varDeclMax)
    (hx : ∀ v ∈ vs, 40 ≤ v.1) (hnd : (vs.map Prod.fst).Nodup) (hsz : ∀ v ∈ vs, v.2.size < 2 ^ 30) :
    ∃ s' M, (∀ n, M ≤ n → program (n + k) (init src) = (externals (n + k) n >>= fun _ => finish) s') ∧ At N E s' (u :: rest) ∧ s'.scopes.get 0 = 3 + vs.length ∧
      s'.bss = (vs.map fun v => v.2.size).sum ∧ s'.code = codeStart + 5 ∧
      ∀ (i : Nat) (h : i < vs.length), (s'.vars.get (3 + i)).id = vs[i].1 ∧ (s'.vars.get (3 + i)).type &&& vtLocMask = vtLocGlob ∧ (s'.vars.get (3 + i)).type &&& vtFun = 0 ∧
        (s'.vars.get (3 + i)).offset = 0 ∧ Repr s' (s'.vars.get (3 + i)).type (s'.vars.get (3 + i)).extra vs[i].2 ∧
        sizeofType sizeFuel (s'.vars.get (3 + i)).type (s'.vars.get (3 + i)).extra s' = .ok vs[i].2.size s' := by
  obtain ⟨x, ts, hls⟩ := hd.head hne
  have htext' : Txt N E (builtins.map asc) src (.id x :: (ts ++ u :: rest)) := by rw [hls] at htext; exact htext
  obtain ⟨s, e, a, ok, td, mc, sc, ac, c3, s1, r0, b0, code, look⟩ := start_ok htext'
  have a : At N E s (ls ++ u :: rest) := by rw [hls]; exact a
  have hnames := hd.names
  obtain ⟨s', ix', ⟨M, g⟩, a', _, ad, sm⟩ := decls_ok hd a ok td nofun (by rw [ac, Nat.zero_add]; exact ha) (by rw [mc, Nat.zero_add]; exact hm) (by rw [sc, Nat.zero_add]; exact hs) s1 r0 (by rw [c3]; exact hv)
    (fun v hv => look _ (hx v hv) (hnames v hv)) hnd hsz
  refine ⟨s', M, fun n hn => ?_, a', by rw [ad.cnt, c3], by rw [ad.bss, b0, Nat.zero_add], ?_, fun i hi => ?_⟩
  · show (prelude >>= fun _ => externals (n + k) (n + k) >>= fun _ => finish) (init src) = _
    rw [bind_run, e]
    show (externals (n + k) (n + k) >>= fun _ => finish) s = _
    rw [bind_run, bind_run, g (n + k) (by omega) n]
  · have := congrArg S.code ad.fy
    exact Eq.trans this code
  · have := ad.vars.get i hi
    rw [c3] at this
    obtain ⟨h1, h2, h3, h4, h5⟩ := this
    exact ⟨h1, h3, h4, h5, h2, C40_sizeof s' _ _ _ h2 (sm _ (List.getElem_mem hi)) (hsz _ (List.getElem_mem hi))⟩

end Props

/-! ## Example -/

namespace SccDecl
open Prog Text Scc SccCode SccGen SccHead SccSize SccTop Props.SccLex Props.SccIds

/-- A token with its text. -/
inductive Item
  | word (w : List Byte) (x : Nat)
  | num (n : Nat)
  | sym (w : List Byte) (t p : Nat)
  | br (w : List Byte) (t : Nat)

def Item.text : Item → List Byte
  | .word w _ => w
  | .num n => decimal n
  | .sym w _ _ => w
  | .br w _ => w

def Item.tk : Item → Tk
  | .word _ x => .id x
  | .num n => .num n
  | .sym _ t p => .sym t p
  | .br _ t => .sym t precStop

def gap (b : Bool) : List Byte := if b then [0x20] else []

def textOf (E : List Byte) : List (Bool × Item) → List Byte
  | [] => E
  | (b, i) :: l => gap b ++ i.text ++ textOf E l

def wordB (w : List Byte) : Bool := match w with
  | [] => false
  | c :: l => decide (IsStart c) && l.all isIdChar

def afterB (r : List Byte) : Bool := match r with
  | [] => false
  | c :: _ => !isIdChar c && decide (c ≠ 0x40) && decide (c ≠ 0x60)

def syms : List (List Byte × Nat × Nat) :=
  [(asc "*", 0x2A, 3), (asc ";", 0x3B, precStop), (asc "{", 0x7B, precStop), (asc "}", 0x7D, precStop), (asc ",", 0x2C, precComma)]

instance (names : List (List Byte)) : Decidable (RoomI names) := by unfold RoomI; infer_instance

def okItem (names : List (List Byte)) (r : List Byte) : Item → Bool
  | .word w x => wordB w && decide (RoomI (intern names w)) && afterB r && decide (SccHead.num (intern names w) w = x)
  | .num n => decide (n < 10 ^ 9) && afterB r
  | .sym w t p => decide ((w, t, p) ∈ syms) && decide (r ≠ []) && ops.all (fun v => !(v.isPrefixOf (w ++ r)) || decide (v.length ≤ w.length))
  | .br w t => decide ((w, t) ∈ [(asc "[", 0x5B), (asc "]", 0x5D)]) && decide (r ≠ [])

def learn (names : List (List Byte)) : Item → List (List Byte)
  | .word w _ => intern names w
  | _ => names

def okAll (E : List Byte) : List (List Byte) → List (Bool × Item) → Bool
  | _, [] => true
  | names, (_, i) :: l => okItem names (textOf E l) i && okAll E (learn names i) l

theorem syms_ok : ∀ e ∈ syms, Sym (.sym e.2.1 e.2.2) e.1 := by
  intro e he
  simp only [syms, List.mem_cons, List.not_mem_nil, or_false] at he
  rcases he with rfl | rfl | rfl | rfl | rfl
  · exact .bin .mul
  · exact .semi
  · exact .lbrace
  · exact .brace
  · exact .comma

theorem gap_ok (b : Bool) : Gap (gap b) := by
  cases b
  · exact .nil
  · exact .blank _ _ (by decide) (by decide) .nil

theorem afterB_ok {r : List Byte} (h : afterB r = true) : After r ∧ r ≠ [] := by
  cases r with
  | nil => cases h
  | cons c r =>
    simp only [afterB, Bool.and_eq_true, Bool.not_eq_true', decide_eq_true_eq] at h
    exact ⟨fun d hd => by cases hd; exact ⟨h.1.1, h.1.2, h.2⟩, nofun⟩

theorem wordB_ok {w : List Byte} (h : wordB w = true) : Word w := by
  cases w with
  | nil => cases h
  | cons c l =>
    simp only [wordB, Bool.and_eq_true, decide_eq_true_eq, List.all_eq_true] at h
    exact ⟨c, l, rfl, h.1, h.2⟩

theorem txt_of {E : List Byte} : ∀ (l : List (Bool × Item)) (names : List (List Byte)), okAll E names l = true →
    Txt (l.foldl (fun ns i => learn ns i.2) names) E names (textOf E l) (l.map fun i => i.2.tk)
  | [], names, _ => .nil
  | (b, i) :: l, names, h => by
    rw [okAll, Bool.and_eq_true] at h
    have ih := txt_of l _ h.2
    have h := h.1
    cases i with
    | word w x =>
      simp only [okItem, Bool.and_eq_true, decide_eq_true_eq] at h
      obtain ⟨⟨⟨h1, h2⟩, h3⟩, h4⟩ := h
      have := Txt.word (wordB_ok h1) h2 (gap_ok b) (afterB_ok h3).1 (afterB_ok h3).2 ih
      rw [h4] at this
      exact this
    | num n =>
      simp only [okItem, Bool.and_eq_true, decide_eq_true_eq] at h
      exact .num n h.1 (gap_ok b) (afterB_ok h.2).1 (afterB_ok h.2).2 ih
    | sym w t p =>
      simp only [okItem, Bool.and_eq_true, decide_eq_true_eq, List.all_eq_true, Bool.or_eq_true, Bool.not_eq_true'] at h
      refine .sym (syms_ok _ h.1.1) (gap_ok b) (fun v hv hp => ?_) h.1.2 ih
      rcases h.2 v hv with h' | h'
      · have hp : v <+: w ++ textOf E l := hp
        rw [List.isPrefixOf_iff_prefix.2 hp] at h'
        cases h'
      · exact h'
    | br w t =>
      simp only [okItem, Bool.and_eq_true, decide_eq_true_eq, List.mem_cons, List.not_mem_nil, or_false, Prod.mk.injEq] at h
      obtain ⟨⟨rfl, rfl⟩ | ⟨rfl, rfl⟩, h2⟩ := h
      · exact .br .lb (gap_ok b) h2 ih
      · exact .br .rb (gap_ok b) h2 ih

namespace Ex

def w (s : String) (x : Nat) : Bool × Item := (false, .word (asc s) x)
def w' (s : String) (x : Nat) : Bool × Item := (true, .word (asc s) x)
def semi : Bool × Item := (false, .sym (asc ";") 0x3B precStop)
def comma : Bool × Item := (false, .sym (asc ",") 0x2C precComma)
def star : Bool × Item := (false, .sym (asc "*") 0x2A 3)
def lb : Bool × Item := (false, .br (asc "[") 0x5B)
def rb : Bool × Item := (false, .br (asc "]") 0x5D)
def n (k : Nat) : Bool × Item := (false, .num k)

def decls : List (Bool × Item) :=
  [w "struct" 24, w' "P" 40, (false, .sym (asc "{") 0x7B precStop), w "char" 3, w' "c" 41, semi, w "int" 16, w' "a" 42, lb, n 2, rb, lb, n 3, rb, semi, w "struct" 24, w' "P" 40, star, w "n" 43, semi,
    (false, .sym (asc "}") 0x7D precStop), semi, w "struct" 24, w' "P" 40, w' "x" 44, comma, star, w "y" 45, lb, n 4, rb, semi, w "char" 3, w' "z" 46, lb, n 5, rb, semi]

def src : List Byte := asc "struct P{char c;int a[2][3];struct P*n;};struct P x,*y[4];char z[5];int f(){}\n"

def P : CT := agg false [(41, .char), (42, .arr 2 (.arr 3 .int)), (43, .ptr)]
def vs : List (Nat × CT) := [(44, P), (45, .arr 4 .ptr), (46, .arr 5 .char)]

theorem text : Txt (builtins.map asc ++ ["P", "c", "a", "n", "x", "y", "z", "f"].map asc) (asc "(){}\n") (builtins.map asc) src (decls.map (fun i => i.2.tk) ++ .id 16 :: [.id 47]) := by
  have h := txt_of (E := asc "(){}\n") (decls ++ [w "int" 16, w' "f" 47]) (builtins.map asc) (by decide +kernel)
  have e : (decls ++ [w "int" 16, w' "f" 47]).foldl (fun ns i => learn ns i.2) (builtins.map asc) = builtins.map asc ++ ["P", "c", "a", "n", "x", "y", "z", "f"].map asc := by decide +kernel
  rw [e] at h
  exact h

/-- The first declaration has the three members of `P`, the second one a structure and an array of pointers to it. -/
theorem ok : ∃ env', Decls (fun _ => none) (decls.map fun i => i.2.tk) 3 3 vs env' := by
  have l3 : Lines (Env.set (fun _ => none) false (some 40) none) _ [(43, .ptr)] _ :=
    .cons (ds := [.sym 0x2A 3, .id 43]) (.ref _ false 40 (by decide)) (.one (.ptr 0 43 (by decide) (by decide) [] (by decide))) (.nil _)
  have l2 := Lines.cons (ds := [.id 42, .sym 0x5B precStop, .num 2, .sym 0x5D precStop, .sym 0x5B precStop, .num 3, .sym 0x5D precStop]) (.int _ (ws := [tokInt]) (by decide))
    (.one (.val 42 (by decide) [2, 3] (by decide) rfl)) l3
  have l1 := Lines.cons (ds := [.id 41]) (.char _ (ws := [tokChar]) (by decide)) (.one (.val 41 (by decide) [] (by decide) rfl)) l2
  have sp := Spec.agg (env := fun _ => none) false (some 40) (fun y hy => by cases hy; exact ⟨by decide, rfl⟩) l1
  have d3 := fun env => Decls.vars (ds := [.id 46, .sym 0x5B precStop, .num 5, .sym 0x5D precStop]) (.char env (ws := [tokChar]) (by decide))
    (.one (.val 46 (by decide) [5] (by decide) rfl)) (.nil env)
  have d2 := fun (env : Env) (h : (env (tag false 40)).join = some P) => Decls.vars (ds := [.id 44, .sym 0x2C precComma, .sym 0x2A 3, .id 45, .sym 0x5B precStop, .num 4, .sym 0x5D precStop])
    (.ref env false 40 (by decide)) (.more (d := [.id 44]) (.val 44 (by decide) [] (by decide) h) (.inl rfl) (.one (.ptr 0 45 (by decide) (by decide) [4] (by decide)))) (d3 env)
  exact ⟨_, .type sp (d2 _ rfl)⟩

end Ex
end SccDecl

namespace Props
open Prog Text Scc SccGen SccSize SccDecl

/-- `struct P{char c;int a[2][3];struct P*n;};struct P x,*y[4];char z[5];` declares a structure of 15 bytes, an array of pointers of 8 bytes and an array of 5 bytes. -/
example : ∃ s' M, (∀ n, M ≤ n → program (n + 3) (init Ex.src) = (externals (n + 3) n >>= fun _ => finish) s') ∧ s'.scopes.get 0 = 6 ∧ s'.bss = 28 ∧
    sizeofType sizeFuel (s'.vars.get 3).type (s'.vars.get 3).extra s' = .ok 15 s' ∧ sizeofType sizeFuel (s'.vars.get 4).type (s'.vars.get 4).extra s' = .ok 8 s' ∧
      sizeofType sizeFuel (s'.vars.get 5).type (s'.vars.get 5).extra s' = .ok 5 s' := by
  obtain ⟨env', hd⟩ := Ex.ok
  obtain ⟨s', M, h1, _, h2, h3, _, h4⟩ := C40_declarations Ex.text hd (by decide) (by decide) (by decide) (by decide) (by decide) (by decide) (by decide) (by decide)
  exact ⟨s', M, h1, h2, h3, (h4 0 (by decide)).2.2.2.2.2, (h4 1 (by decide)).2.2.2.2.2, (h4 2 (by decide)).2.2.2.2.2⟩

/-- The text is compiled, and the `i`th variable of the file has `n` bytes. -/
def SizeIs (src : List Byte) (i n : Nat) : Bool :=
  match program 40 (init src) with
  | .ok _ s => match sizeofType sizeFuel (s.vars.get (3 + i)).type (s.vars.get (3 + i)).extra s with
    | .ok k _ => k == n
    | _ => false
  | _ => false

/-- The condition on the first of several declarators in `Vars` is needed: with `char *p[3],q;` the variable `q` is a pointer, and with `int a[2][3],b;` the variable `b` is an array. -/
theorem C40_declarators_violation : SizeIs (asc "char *p[3],q;int _start(){return 1;}\n") 1 2 = true ∧ SizeIs (asc "int a[2][3],b;int _start(){return 1;}\n") 1 6 = true := by
  decide +kernel

end Props
