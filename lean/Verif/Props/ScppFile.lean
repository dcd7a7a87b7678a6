import Verif.Props.ScppCond
/-!
# Whole files

The meaning of a file with macro definitions and conditional sections, and the lemmas that the preprocessor computes it.
-/
namespace Props.ScppFile
open Scpp Prog Text Props.ScppLex Props.ScppMacro Props.ScppDefine Props.ScppTable Props.ScppUndef Props.ScppRun Props.ScppExpr Props.ScppCond

/-! ## Specification -/

/-- The beginning of a directive. -/
def dir (W : Option (List Byte)) (w : List Byte) : List PTok := .op (asc "#") :: (sps W ++ [.id w])

/-- The test of `#ifdef`, `#ifndef`, `#if` and `#elif`: its text up to the end of the line and its value. -/
inductive Test (Δ : Table) (td : Nat) : List Byte → List PTok → Bool → Prop
  | ifdef {v w : List Byte} {W : Option (List Byte)} (h : td + (w.length + 1) ≤ 2048) : Test Δ td (asc "ifdef") (.ws v :: .id w :: (sps W ++ [.nl])) (decide (isDef Δ w))
  | ifndef {v w : List Byte} {W : Option (List Byte)} (h : td + (w.length + 1) ≤ 2048) : Test Δ td (asc "ifndef") (.ws v :: .id w :: (sps W ++ [.nl])) (!decide (isDef Δ w))
  | expr {k : List Byte} {ss : List Src} {es es' : List El} {e : Ex} {v : Int} (hk : k = asc "if" ∨ k = asc "elif") (h1 : SrcExp Δ ss es) (h2 : Str e es es') (h3 : dropWs es' = [])
      (h4 : Gram e) (h5 : Tame Δ e) (h6 : val Δ e = some v) (h7 : ∀ t ∈ srcText ss, td + t.need ≤ 2048) : Test Δ td k (srcText ss ++ [.nl]) (decide (v ≠ 0))

/-- Where we are in a file: at lines that are kept if `act`; after a group of a section that lies in kept text if `act` and of which a group has been kept if `taken`. -/
inductive Mode
  | lines (act : Bool)
  | more (act taken : Bool)

/-- `Ev fs d m k td Δ src td' Δ' out`: in a file with `d` files around it, under `k` sections, with the macros `Δ`, the text `src` has the expansion `out` and leaves the macros `Δ'`.
`td` and `td'` bound the storage used for names, which the preprocessor never reclaims; `fs` are the files that can be included. -/
inductive Ev (fs : Fs) : Nat → Mode → Nat → Nat → Table → List PTok → Nat → Table → List PTok → Prop
  | nil {d : Nat} {act : Bool} {k td : Nat} {Δ : Table} : Ev fs d (.lines act) k td Δ [] td Δ []
  /-- Lines of text. -/
  | text {d : Nat} {act : Bool} {k td td' : Nat} {Δ Δ' : Table} {ts os rest out : List PTok} (hx : Exp Δ 10 [] ts os) (ht : ∀ t ∈ ts, TextTok t) (hl : ts.getLast? = some .nl ∨ rest = [])
      (hn : ∀ t ∈ ts, td + t.need ≤ 2048) (h : Ev fs d (.lines act) k td Δ rest td' Δ' out) :
      Ev fs d (.lines act) k td Δ (ts ++ rest) td' Δ' ((if act then os else []) ++ out)
  /-- `#define w b`. -/
  | define {d k td td' : Nat} {Δ Δ' : Table} {V W : Option (List Byte)} {v1 w v : List Byte} {b rest out : List PTok} (hw : w ∉ builtins) (hc : w ∈ names Δ ∨ Δ.length < 16)
      (hu : used Δ + b.length ≤ 128) (hb : ∀ t ∈ b, BodyTok t) (htr : Trim b) (hn : td + 9 ≤ 2048) (hn' : td + (w.length + 1) + needs b ≤ 2048)
      (h : Ev fs d (.lines true) k (td + (w.length + 1) + needs b) (defineT Δ w b) rest td' Δ' out) :
      Ev fs d (.lines true) k td Δ (dir V (asc "define") ++ ((.ws v1 :: .id w :: (bodyToks v b W ++ [.nl])) ++ rest)) td' Δ' out
  /-- `#undef w`. -/
  | undef {d k td td' : Nat} {Δ Δ' : Table} {V W : Option (List Byte)} {v1 w : List Byte} {rest out : List PTok} (hw : ∀ i : Nat, Δ[i]? ≠ some (w, none)) (hn : td + 9 ≤ 2048)
      (hn' : td + (w.length + 1) ≤ 2048) (h : Ev fs d (.lines true) k td (undefT Δ w) rest td' Δ' out) :
      Ev fs d (.lines true) k td Δ (dir V (asc "undef") ++ ((.ws v1 :: .id w :: (sps W ++ [.nl])) ++ rest)) td' Δ' out
  /-- Directives without effect: `#pragma`, `#line`, and in text that is not kept others. -/
  | skip {d : Nat} {act : Bool} {k td td' : Nat} {Δ Δ' : Table} {V : Option (List Byte)} {w : List Byte} {ts rest out : List PTok}
      (hw : w ∈ [asc "pragma", asc "line"] ∨ act = false ∧ w ∈ [asc "define", asc "undef", asc "include", asc "error"]) (ht : ∀ t ∈ ts, t ≠ .nl) (hn : td + 9 ≤ 2048)
      (hn' : ∀ t ∈ ts, td + t.need ≤ 2048) (h : Ev fs d (.lines act) k td Δ rest td' Δ' out) :
      Ev fs d (.lines act) k td Δ (dir V w ++ ((ts ++ [.nl]) ++ rest)) td' Δ' out
  /-- `#include "nm"` of a file that ends with a line other than an `#include`.  At most two files are open besides the first. -/
  | incl {d k td td1 td' : Nat} {Δ Δ1 Δ' : Table} {V : Option (List Byte)} {v nm c : List Byte} {src rest o1 o2 : List PTok} (hd : d < 2) (hf : fs nm = some c) (hc : Commented c (render src))
      (hsp : Spelled src []) (he : src = [] ∨ src.getLast? = some .nl) (hi : ¬ IncEnd src) (hn : td + 9 ≤ 2048) (hn' : td + (nm.length + 1) ≤ 2048)
      (h1 : Ev fs (d + 1) (.lines true) k (td + (nm.length + 1)) Δ src td1 Δ1 o1) (h2 : Ev fs d (.lines true) k td1 Δ1 rest td' Δ' o2) :
      Ev fs d (.lines true) k td Δ (dir V (asc "include") ++ ([.ws v, .lit 0x22 nm, .nl] ++ rest)) td' Δ' (o1 ++ o2)
  /-- A section. -/
  | sect {d : Nat} {act c : Bool} {k td td1 td2 td' : Nat} {Δ Δ1 Δ2 Δ' : Table} {V : Option (List Byte)} {w : List Byte} {ts body more rest o1 o2 o3 : List PTok} (hw : w ≠ asc "elif")
      (hk : k < 16) (hn : td + 9 ≤ 2048) (ht : Test Δ td w ts c) (h1 : Ev fs d (.lines (act && c)) (k + 1) td Δ body td1 Δ1 o1)
      (h2 : Ev fs d (.more act c) (k + 1) td1 Δ1 more td2 Δ2 o2) (h3 : Ev fs d (.lines act) k td2 Δ2 rest td' Δ' o3) :
      Ev fs d (.lines act) k td Δ (dir V w ++ (ts ++ (body ++ (more ++ rest)))) td' Δ' (o1 ++ (o2 ++ o3))
  /-- `#endif`. -/
  | endif {d : Nat} {act taken : Bool} {k td : Nat} {Δ : Table} {V W : Option (List Byte)} (hn : td + 9 ≤ 2048) :
      Ev fs d (.more act taken) k td Δ (dir V (asc "endif") ++ (sps W ++ [.nl])) td Δ []
  /-- `#else`. -/
  | els {d : Nat} {act taken : Bool} {k td td' : Nat} {Δ Δ' : Table} {V W V' W' : Option (List Byte)} {body out : List PTok} (hn : td + 9 ≤ 2048)
      (h : Ev fs d (.lines (act && !taken)) k td Δ body td' Δ' out) (hn' : td' + 9 ≤ 2048) :
      Ev fs d (.more act taken) k td Δ (dir V (asc "else") ++ ((sps W ++ [.nl]) ++ (body ++ (dir V' (asc "endif") ++ (sps W' ++ [.nl]))))) td' Δ' out
  /-- `#elif` after groups that are not kept. -/
  | elif {d : Nat} {c : Bool} {k td td1 td' : Nat} {Δ Δ1 Δ' : Table} {V : Option (List Byte)} {ts body more o1 o2 : List PTok} (hn : td + 9 ≤ 2048) (ht : Test Δ td (asc "elif") ts c)
      (h1 : Ev fs d (.lines c) k td Δ body td1 Δ1 o1) (h2 : Ev fs d (.more true c) k td1 Δ1 more td' Δ' o2) :
      Ev fs d (.more true false) k td Δ (dir V (asc "elif") ++ (ts ++ (body ++ more))) td' Δ' (o1 ++ o2)
  /-- `#elif` whose expression does not matter. -/
  | elifSkip {d : Nat} {act taken : Bool} {k td td1 td' : Nat} {Δ Δ1 Δ' : Table} {V : Option (List Byte)} {v : List Byte} {ts body more o1 o2 : List PTok} (hc : act = false ∨ taken = true)
      (hn : td + 9 ≤ 2048) (ht : ∀ t ∈ ts, t ≠ .nl) (hn' : ∀ t ∈ ts, td + t.need ≤ 2048)
      (h1 : Ev fs d (.lines false) k td Δ body td1 Δ1 o1) (h2 : Ev fs d (.more act taken) k td1 Δ1 more td' Δ' o2) :
      Ev fs d (.more act taken) k td Δ (dir V (asc "elif") ++ ((.ws v :: (ts ++ [.nl])) ++ (body ++ more))) td' Δ' (o1 ++ o2)

/-! ## The directives -/

variable {Δ : Table} {fs : Fs}

/-- The end of a directive. -/
structure Done (Δ : Table) (s s' : S) (c : List Cond) (r : List Byte) : Prop where
  good : Good Δ s'
  at_ : At s' r
  ty : s'.tok.ty = tokNl
  td : s'.tdNext = s.tdNext
  cond : s'.cond = c
  out : s'.out = s.out
  files : s'.files = s.files

/-- The condition pushed for a test. -/
def pushCond (cs : List Cond) (c : Bool) : Cond := if !condActive cs then .done else if c then .true else .false

theorem newCond_eq {s : S} {c : Bool} (h : s.cond.length < 16) : newCond c s = .ok () { s with cond := pushCond s.cond c :: s.cond } :=
  run_getS (run_assert (by simpa using h) rfl)

/-- `#ifdef` and `#ifndef`. -/
theorem ifdef_run {neg : Bool} {v w r : List Byte} {W : Option (List Byte)} {s : S} (h : Good Δ s) (hd : s.cond.length < 16)
    (ha : At s (render (.ws v :: .id w :: (sps W ++ [.nl])) ++ r)) (hsp : Spelled (.ws v :: .id w :: (sps W ++ [.nl])) r) (htd : s.tdNext + (w.length + 1) ≤ 2048) :
    ∃ s', Runs (fun n => dirRest fs n (tokId + (if neg then 4 else 3))) s () s' ∧ Done Δ s s' (pushCond s.cond (neg ^^ decide (isDef Δ w)) :: s.cond) r := by
  have e : PTok.ws v :: .id w :: (sps W ++ [.nl]) = (sps (some v) ++ [.id w]) ++ (sps W ++ [.nl]) := by simp [sps]
  rw [e] at ha hsp
  obtain ⟨p1, p2⟩ := Spelled.app hsp
  rw [render_append] at ha
  obtain ⟨s0, s1, s2, h1, h2, _, h4, h5, h6, h7, h8, h9⟩ := name_opt h ha p1 htd
  have hdec : isDefined s2 s2.tok.ty = decide (isDef Δ w) := by
    by_cases hx : isDef Δ w
    · rw [h9.mpr hx, decide_eq_true hx]
    · rw [decide_eq_false hx, Bool.eq_false_iff]; exact fun e => hx (h9.mp e)
  let c := pushCond s.cond (neg ^^ decide (isDef Δ w)) :: s.cond
  have g2 : Good Δ { s2 with cond := c } := Good.set_cond h5 c
  obtain ⟨s3, t, r1, k1, k2, _, _, _, k4⟩ := eol_read (stk_nil g2.stk) g2.rep.queue g2.rep.tdn (h6.congr rfl rfl) p2
  obtain ⟨s', k5, k6⟩ := k4 s3.cond
  refine ⟨s', ⟨3, fun n hn => ?_⟩, ⟨Good.eol (Good.raw g2 k2) k6, k6.at_, k6.ty, ?_, ?_, ?_, ?_⟩⟩
  · obtain ⟨n, rfl⟩ : ∃ j, n = j + 3 := ⟨n - 3, by omega⟩
    have hnc : newCond ((tokId + (if neg then 4 else 3) == tokIfndef) ^^ isDefined s2 s2.tok.ty) s2 = .ok () { s2 with cond := c } := by
      rw [newCond_eq (by rw [h8.cond]; exact hd), hdec, h8.cond]
      cases neg <;> rfl
    unfold dirRest
    refine run_getS (run_assert (by cases neg <;> decide) ?_)
    refine run_neg (by cases neg <;> decide) (run_neg (by cases neg <;> decide) (run_neg (by cases neg <;> decide) (run_pos (by cases neg <;> decide) ?_)))
    exact run_bind h1 (run_bind (h2 (n + 1)) (run_bind h4 (run_getS (run_bind hnc (run_bind k1 (k5 n))))))
  · rw [k6.frame.tdNext]; exact k2.frame.tdNext.trans h7
  · exact k6.frame.cond.trans k2.frame.cond
  · exact k6.out.trans (k2.out.trans h8.out)
  · exact k6.frame.files.trans (k2.frame.files.trans h8.files)

/-- The expression of `#if` and `#elif`. -/
theorem expr_run {ss : List Src} {es es' : List El} {e : Ex} {v : Int} {r : List Byte} {s : S} (h : Good Δ s) (h1 : SrcExp Δ ss es) (h2 : Str e es es') (h3 : dropWs es' = [])
    (h4 : Gram e) (h5 : Tame Δ e) (h6 : val Δ e = some v) (h7 : ∀ t ∈ srcText ss, s.tdNext + t.need ≤ 2048)
    (ha : At s (render (srcText ss ++ [.nl]) ++ r)) (hsp : Spelled (srcText ss ++ [.nl]) r) :
    ∃ s1 s', Runs getToken s () s1 ∧ s1.cond = s.cond ∧ Runs evalExpr s1 v s' ∧ Done Δ s s' s.cond r := by
  obtain ⟨s1, k1, kc, k2⟩ := feeds_src (s0 := s) h1 s h ha hsp h7 ⟨rfl, rfl, rfl⟩ rfl
  obtain ⟨s', k3, k4, k5, k6, k7, k8⟩ := evalExpr_c h.rep.nodup h4 h5 h6 h2 h3 k2
  exact ⟨s1, s', k1, kc, k3, ⟨k5, k6, k4, k8, k7.cond, k7.out, k7.files⟩⟩

/-- `#if`. -/
theorem if_run {ss : List Src} {es es' : List El} {e : Ex} {v : Int} {r : List Byte} {s : S} (h : Good Δ s) (hd : s.cond.length < 16) (h1 : SrcExp Δ ss es) (h2 : Str e es es') (h3 : dropWs es' = [])
    (h4 : Gram e) (h5 : Tame Δ e) (h6 : val Δ e = some v) (h7 : ∀ t ∈ srcText ss, s.tdNext + t.need ≤ 2048)
    (ha : At s (render (srcText ss ++ [.nl]) ++ r)) (hsp : Spelled (srcText ss ++ [.nl]) r) :
    ∃ s', Runs (fun n => dirRest fs n (tokId + 2)) s () s' ∧ Done Δ s s' (pushCond s.cond (decide (v ≠ 0)) :: s.cond) r := by
  obtain ⟨s1, s2, k1, _, k2, k3⟩ := expr_run h h1 h2 h3 h4 h5 h6 h7 ha hsp
  have hdec : (v != 0) = decide (v ≠ 0) := by simp [bne, BEq.beq]
  refine ⟨{ s2 with cond := pushCond s.cond (decide (v ≠ 0)) :: s.cond }, ?_, ⟨Good.set_cond k3.good _, k3.at_, k3.ty, k3.td, rfl, k3.out, k3.files⟩⟩
  have hnc : newCond (v != 0) s2 = .ok () { s2 with cond := pushCond s.cond (decide (v ≠ 0)) :: s.cond } := by
    rw [newCond_eq (by rw [k3.cond]; exact hd), hdec, k3.cond]
  have key : Runs (fun n => (do getToken n; let v ← evalExpr n; newCond (v != 0); toNewline n : A Unit)) s () { s2 with cond := pushCond s.cond (decide (v ≠ 0)) :: s.cond } :=
    .bind k1 (.bind k2 (.bind (.of hnc) (.succ ⟨0, fun n _ => toNewline_nl n k3.ty⟩)))
  obtain ⟨N, hN⟩ := key
  exact ⟨N, fun n hn => hN n hn⟩

/-- `#elif` that is evaluated. -/
theorem elif_run {ss : List Src} {es es' : List El} {e : Ex} {v : Int} {r : List Byte} {s : S} {cs : List Cond} (h : Good Δ s) (hc : s.cond = .false :: cs) (h1 : SrcExp Δ ss es) (h2 : Str e es es')
    (h3 : dropWs es' = []) (h4 : Gram e) (h5 : Tame Δ e) (h6 : val Δ e = some v) (h7 : ∀ t ∈ srcText ss, s.tdNext + t.need ≤ 2048)
    (ha : At s (render (srcText ss ++ [.nl]) ++ r)) (hsp : Spelled (srcText ss ++ [.nl]) r) :
    ∃ s', Runs (fun n => dirRest fs n (tokId + 5)) s () s' ∧ Done Δ s s' ((if v ≠ 0 then .true else .false) :: cs) r := by
  obtain ⟨s1, s2, k1, kc, k2, k3⟩ := expr_run h h1 h2 h3 h4 h5 h6 h7 ha hsp
  have hc1 : s1.cond = .false :: cs := kc.trans hc
  have hc2 : s2.cond = .false :: cs := k3.cond.trans hc
  by_cases hv : v ≠ 0
  · rw [if_pos hv]
    let s3 : S := { s2 with cond := .true :: cs }
    refine ⟨s3, ?_, ⟨Good.set_cond k3.good _, k3.at_, k3.ty, k3.td, rfl, k3.out, k3.files⟩⟩
    have hset : setCond .true s2 = .ok () s3 := by
      show Res.ok () { s2 with cond := .true :: s2.cond.tail } = _
      rw [hc2]; rfl
    have key : Runs (fun n => (do
        let v ← evalExpr n
        if v ≠ 0 then setCond .true
        toNewline n : A Unit)) s1 () s3 :=
      .bind k2 (.pos hv (.bind (.of hset) (.succ ⟨0, fun n _ => toNewline_nl n k3.ty⟩)))
    obtain ⟨N, hN⟩ := key
    obtain ⟨N', hN'⟩ := k1
    refine ⟨N + N', fun n hn => ?_⟩
    unfold dirRest
    refine run_getS (run_assert (by decide) (run_neg (by decide) (run_neg (by decide) (run_neg (by decide) (run_neg (by decide) (run_neg (by decide) (run_neg (by decide) (run_neg (by decide) ?_)))))))) 
    refine run_bind (hN' n (by omega)) (run_getS (run_neg (by decide) (run_pos (by decide) ?_)))
    rw [hc1]
    exact hN n (by omega)
  · rw [if_neg hv]
    refine ⟨s2, ?_, ⟨k3.good, k3.at_, k3.ty, k3.td, hc2, k3.out, k3.files⟩⟩
    have key : Runs (fun n => (do
        let v ← evalExpr n
        if v ≠ 0 then setCond .true
        toNewline n : A Unit)) s1 () s2 :=
      .bind k2 (.neg hv (.succ ⟨0, fun n _ => toNewline_nl n k3.ty⟩))
    obtain ⟨N, hN⟩ := key
    obtain ⟨N', hN'⟩ := k1
    refine ⟨N + N', fun n hn => ?_⟩
    unfold dirRest
    refine run_getS (run_assert (by decide) (run_neg (by decide) (run_neg (by decide) (run_neg (by decide) (run_neg (by decide) (run_neg (by decide) (run_neg (by decide) (run_neg (by decide) ?_))))))))
    refine run_bind (hN' n (by omega)) (run_getS (run_neg (by decide) (run_pos (by decide) ?_)))
    rw [hc1]
    exact hN n (by omega)

/-- `#elif` that is not evaluated. -/
theorem elifSkip_run {v : List Byte} {ts : List PTok} {r : List Byte} {s : S} {c : Cond} {cs : List Cond} (h : Good Δ s) (hc : s.cond = c :: cs) (hne : c ≠ .false) (ht : ∀ t ∈ ts, t ≠ .nl)
    (hn : ∀ t ∈ ts, s.tdNext + t.need ≤ 2048) (ha : At s (render (.ws v :: (ts ++ [.nl])) ++ r)) (hsp : Spelled (.ws v :: (ts ++ [.nl])) r) :
    ∃ s', Runs (fun n => dirRest fs n (tokId + 5)) s () s' ∧ Done Δ s s' (.done :: cs) r := by
  obtain ⟨o1, o2, o3⟩ := hsp
  rw [render_cons] at ha
  obtain ⟨s1, h1, h2⟩ := raw_next (t := .ws v) (stk_nil h.stk) h.rep.queue ha o1 o2 (by simpa [PTok.need] using h.rep.tdn)
  have hget := get_raw (stk_nil h.stk) h1 h2 o1 (by simp)
  have g1 := Good.set_cond (Good.raw h h2) (.done :: cs)
  let s2 : S := { s1 with cond := .done :: cs }
  obtain ⟨s', k1, k2⟩ := toNewline_eq (r := r) ts s2 ht (by show ¬ s1.tok.ty = tokNl; rw [h2.ty]; exact (by decide : ¬ tokWs = tokNl)) (stk_nil g1.stk) g1.rep.queue (h2.at_.congr rfl rfl) o3 g1.rep.tdn
    (fun t htm => by show s1.tdNext + _ ≤ _; rw [h2.frame.tdNext]; exact hn t htm)
  refine ⟨s', ?_, ⟨Good.eol g1 k2, k2.at_, k2.ty, k2.frame.tdNext.trans h2.frame.tdNext, k2.frame.cond, k2.out.trans h2.out, k2.frame.files.trans h2.frame.files⟩⟩
  obtain ⟨N, hN⟩ := hget
  refine ⟨N + (ts.length + 2), fun n hn => ?_⟩
  have hc1 : s1.cond = c :: cs := h2.frame.cond.trans hc
  unfold dirRest
  refine run_getS (run_assert (by decide) (run_neg (by decide) (run_neg (by decide) (run_neg (by decide) (run_neg (by decide) (run_neg (by decide) (run_neg (by decide) (run_neg (by decide) ?_))))))))
  refine run_bind (hN n (by omega)) (run_getS (run_neg (by decide) (run_pos (by decide) ?_)))
  rw [hc1]
  cases c with
  | false => exact absurd rfl hne
  | true =>
    refine run_bind (a := ()) (s1 := s2) ?_ (k1 n (by omega))
    show Res.ok () { s1 with cond := .done :: s1.cond.tail } = _
    rw [hc1]; rfl
  | done =>
    have : s2 = s1 := by show { s1 with cond := .done :: cs } = s1; rw [← hc1]
    rw [this] at k1
    exact k1 n (by omega)

/-- `#else`. -/
theorem else_run {W : Option (List Byte)} {r : List Byte} {s : S} {c : Cond} {cs : List Cond} (h : Good Δ s) (hc : s.cond = c :: cs)
    (ha : At s (render (sps W ++ [.nl]) ++ r)) (hsp : Spelled (sps W ++ [.nl]) r) :
    ∃ s', Runs (fun n => dirRest fs n (tokId + 6)) s () s' ∧ Done Δ s s' ((if c = .false then .true else .done) :: cs) r := by
  obtain ⟨s1, t, r1, k1, k2, _, _, k3, k4⟩ := eol_read (stk_nil h.stk) h.rep.queue h.rep.tdn ha hsp
  obtain ⟨s', k5, k6⟩ := k4 ((if c = .false then .true else .done) :: cs)
  have g1 := Good.set_cond (Good.raw h k2) ((if c = .false then .true else .done) :: cs)
  refine ⟨s', ⟨3, fun n hn => ?_⟩, ⟨Good.eol g1 k6, k6.at_, k6.ty, k6.frame.tdNext.trans k2.frame.tdNext, k6.frame.cond, k6.out.trans k2.out, k6.frame.files.trans k2.frame.files⟩⟩
  obtain ⟨n, rfl⟩ : ∃ j, n = j + 3 := ⟨n - 3, by omega⟩
  have hc1 : s1.cond = c :: cs := k2.frame.cond.trans hc
  unfold dirRest
  refine run_getS (run_assert (by decide) (run_neg (by decide) (run_neg (by decide) (run_neg (by decide) (run_neg (by decide) (run_neg (by decide) (run_neg (by decide) (run_neg (by decide) ?_))))))))
  refine run_bind (k3 (n + 2)) (run_getS (run_neg (by decide) (run_neg (by decide) (run_pos (by decide) ?_))))
  rw [hc1]
  cases c with
  | false =>
    refine run_bind (a := ()) (s1 := { s1 with cond := .true :: cs }) ?_ (k5 n)
    show Res.ok () { s1 with cond := .true :: s1.cond.tail } = _
    rw [hc1]; rfl
  | true =>
    refine run_bind (a := ()) (s1 := { s1 with cond := .done :: cs }) ?_ (k5 n)
    show Res.ok () { s1 with cond := .done :: s1.cond.tail } = _
    rw [hc1]; rfl
  | done =>
    have : ({ s1 with cond := .done :: cs } : S) = s1 := by rw [← hc1]
    have k5 : ∀ n, toNewline (n + 3) { s1 with cond := .done :: cs } = .ok () s' := k5
    rw [this] at k5
    exact k5 n

/-- `#endif`. -/
theorem endif_run {W : Option (List Byte)} {r : List Byte} {s : S} {c : Cond} {cs : List Cond} (h : Good Δ s) (hc : s.cond = c :: cs)
    (ha : At s (render (sps W ++ [.nl]) ++ r)) (hsp : Spelled (sps W ++ [.nl]) r) :
    ∃ s', Runs (fun n => dirRest fs n (tokId + 7)) s () s' ∧ Done Δ s s' cs r := by
  obtain ⟨s1, t, r1, k1, k2, _, _, k3, k4⟩ := eol_read (stk_nil h.stk) h.rep.queue h.rep.tdn ha hsp
  obtain ⟨s', k5, k6⟩ := k4 cs
  have g1 := Good.set_cond (Good.raw h k2) cs
  refine ⟨s', ⟨3, fun n hn => ?_⟩, ⟨Good.eol g1 k6, k6.at_, k6.ty, k6.frame.tdNext.trans k2.frame.tdNext, k6.frame.cond, k6.out.trans k2.out, k6.frame.files.trans k2.frame.files⟩⟩
  obtain ⟨n, rfl⟩ : ∃ j, n = j + 3 := ⟨n - 3, by omega⟩
  have hc1 : s1.cond = c :: cs := k2.frame.cond.trans hc
  unfold dirRest
  refine run_getS (run_assert (by decide) (run_neg (by decide) (run_neg (by decide) (run_neg (by decide) (run_neg (by decide) (run_neg (by decide) (run_neg (by decide) (run_neg (by decide) ?_))))))))
  refine run_bind (k3 (n + 2)) (run_getS (run_neg (by decide) (run_neg (by decide) (run_neg (by decide) (run_pos (by decide) ?_)))))
  rw [hc1]
  exact run_bind (a := ()) (s1 := { s1 with cond := cs }) rfl (k5 n)

/-- Directives without effect. -/
theorem skip_run {k : Nat} {ts : List PTok} {r : List Byte} {s : S} (h : Good Δ s) (hty : s.tok.ty ≠ tokNl)
    (hk : k = 11 ∨ k = 9 ∨ condActive s.cond = false ∧ (k = 0 ∨ k = 1 ∨ k = 8 ∨ k = 10)) (ht : ∀ t ∈ ts, t ≠ .nl)
    (hn : ∀ t ∈ ts, s.tdNext + t.need ≤ 2048) (ha : At s (render (ts ++ [.nl]) ++ r)) (hsp : Spelled (ts ++ [.nl]) r) :
    ∃ s', Runs (fun n => dirRest fs n (tokId + k)) s () s' ∧ Done Δ s s' s.cond r := by
  obtain ⟨s', k1, k2⟩ := toNewline_eq ts s ht hty (stk_nil h.stk) h.rep.queue ha hsp h.rep.tdn hn
  refine ⟨s', ⟨ts.length + 2, fun n hn => ?_⟩, ⟨Good.eol h k2, k2.at_, k2.ty, k2.frame.tdNext, k2.frame.cond, k2.out, k2.frame.files⟩⟩
  have k3 := k1 n hn
  unfold dirRest
  rcases hk with rfl | rfl | ⟨ha, rfl | rfl | rfl | rfl⟩
  · exact run_getS (run_assert (by decide) k3)
  · exact run_getS (run_assert (by decide) k3)
  · exact run_getS (run_assert (by decide) (run_pos (by decide) (run_neg (by rw [ha]; decide) k3)))
  · exact run_getS (run_assert (by decide) (run_neg (by decide) (run_neg (by decide) (run_pos (by decide) (run_neg (by rw [ha]; decide) k3)))))
  · exact run_getS (run_assert (by decide) (run_neg (by decide) (run_pos (by decide) (run_neg (by rw [ha]; decide) k3))))
  · exact run_getS (run_assert (by decide) (run_neg (by decide) (run_neg (by decide) (run_neg (by decide) (run_neg (by decide) (run_pos (by decide) (run_neg (by rw [ha]; decide) k3)))))))

/-! ## Files -/

/-- The state of the preprocessor in a file. -/
def Inv (F : List FileRec) : Mode → Nat → Nat → Table → S → Prop
  | .lines act, k, td, Δ, s => Good Δ s ∧ s.cond.length = k ∧ condActive s.cond = act ∧ s.tdNext ≤ td ∧ s.files = F
  | .more act taken, k, td, Δ, s => Good Δ s ∧ s.tdNext ≤ td ∧ s.files = F ∧ ∃ c cs, s.cond = c :: cs ∧ cs.length + 1 = k ∧ condActive cs = act ∧ (act = false → c = .done) ∧
      (act = true → (c = .false ↔ taken = false))

/-- The conditions after the text. -/
def Mode.after : Mode → List Cond → List Cond
  | .lines _, cs => cs
  | .more _ _, cs => cs.tail

theorem push_active (cs : List Cond) (c : Bool) (rest : List Cond) : condActive (pushCond cs c :: rest) = (condActive cs && c) := by
  unfold pushCond
  cases condActive cs <;> cases c <;> rfl

/-- A test. -/
theorem test_run {td : Nat} {w : List Byte} {ts : List PTok} {c : Bool} (ht : Test Δ td w ts c) (hw : w ≠ asc "elif") :
    ∃ k, builtins[k]? = some w ∧ ∀ (s : S) (r : List Byte), Good Δ s → s.cond.length < 16 → s.tdNext ≤ td → At s (render ts ++ r) → Spelled ts r →
      ∃ s', Runs (fun n => dirRest fs n (tokId + k)) s () s' ∧ Done Δ s s' (pushCond s.cond c :: s.cond) r := by
  cases ht with
  | ifdef hl =>
    refine ⟨3, by decide, fun s r h hd htd ha hsp => ?_⟩
    obtain ⟨s', h1, h2⟩ := ifdef_run (fs := fs) (neg := false) h hd ha hsp (by omega)
    exact ⟨s', h1, by simpa using h2⟩
  | ifndef hl =>
    refine ⟨4, by decide, fun s r h hd htd ha hsp => ?_⟩
    obtain ⟨s', h1, h2⟩ := ifdef_run (fs := fs) (neg := true) h hd ha hsp (by omega)
    exact ⟨s', h1, by simpa using h2⟩
  | expr hk h1 h2 h3 h4 h5 h6 h7 =>
    rcases hk with rfl | rfl
    · refine ⟨2, by decide, fun s r h hd htd ha hsp => ?_⟩
      exact if_run (fs := fs) h hd h1 h2 h3 h4 h5 h6 (fun t htm => by have := h7 t htm; omega) ha hsp
    · exact absurd rfl hw

theorem Done.same {s s' s2 : S} {c : List Cond} {r : List Byte} (h : Done Δ s2 s' c r) (k : Same s s2) (ht : s2.tdNext = s.tdNext) : Done Δ s s' c r :=
  ⟨h.good, h.at_, h.ty, h.td.trans ht, h.cond, h.out.trans k.out, h.files.trans k.files⟩

variable {P : Res S Unit → Prop}

/-- A directive that ends in a known way. -/
theorem dir_done {Δ' : Table} {k ws : Nat} {act : Bool} {w : List Byte} {V : Option (List Byte)} {ts : List PTok} {r : List Byte} {s : S} {c : List Cond} (hk : builtins[k]? = some w) (h : Good Δ s)
    (ha : At s (render (dir V w ++ ts) ++ r)) (hsp : Spelled (dir V w ++ ts) r) (htd : s.tdNext + 9 ≤ 2048)
    (hrest : ∀ s2, Good Δ s2 → At s2 (render ts ++ r) → Same s s2 → s2.tdNext = s.tdNext → s2.tok.ty ≠ tokNl →
      ∃ s', Runs (fun n => dirRest fs n (tokId + k)) s2 () s' ∧ Done Δ' s2 s' c r)
    (hfin : ∀ s', Done Δ' s s' c r → Fin fs s' ws (condActive s'.cond) P) : Fin fs s ws act P := by
  obtain ⟨p1, _⟩ := Spelled.app hsp
  rw [render_append] at ha
  refine dir_fin hk h ha p1 htd fun s2 h1 h2 h3 h4 h5 => ?_
  obtain ⟨s', ⟨N, k1⟩, k2⟩ := hrest s2 h1 h2 h3 h4 h5
  exact ⟨N, s', k1, k2.ty, hfin s' (k2.same h3 h4)⟩

theorem split3 {a b c : List PTok} {r : List Byte} {s : S} (ha : At s (render (a ++ (b ++ c)) ++ r)) (hsp : Spelled (a ++ (b ++ c)) r) :
    At s (render (a ++ b) ++ (render c ++ r)) ∧ Spelled (a ++ b) (render c ++ r) ∧ Spelled b (render c ++ r) ∧ Spelled c r := by
  rw [← List.append_assoc] at ha hsp
  obtain ⟨h1, h2⟩ := Spelled.app hsp
  rw [render_append] at ha
  exact ⟨ha, h1, (Spelled.app h1).2, h2⟩

theorem lay_append {g : Gap} {o1 o2 : List PTok} {a b c : List Byte} (h1 : b = a ++ (layout g o1).2) (h2 : c = b ++ (layout (layout g o1).1 o2).2) : c = a ++ (layout g (o1 ++ o2)).2 := by
  rw [h2, h1, layout_append]; simp

theorem _root_.Props.ScppMacro.TyEnd.dir {x : List PTok} {a b : Nat} {V : Option (List Byte)} {w : List Byte} (h : b = tokNl) : TyEnd (ScppFile.dir V w ++ x) a b :=
  ⟨fun e => by simp [ScppFile.dir] at e, fun _ _ => h⟩

theorem _root_.Props.ScppMacro.TyEnd.pre {x y : List PTok} {a b c : Nat} {V : Option (List Byte)} {w : List Byte} (h' : TyEnd y b c) (h : b = tokNl) : TyEnd (ScppFile.dir V w ++ (x ++ y)) a c := by
  rw [← List.append_assoc]
  exact (TyEnd.dir h).append h'

/-! ## Other files -/

theorem _root_.Props.ScppDefine.Good.io {s : S} (h : Good Δ s) {k : Nat} (hk : s.tdNext ≤ k) (hk' : k ≤ 2048) (cur : Byte) (inp : List Byte) (line : Nat) (files : List FileRec) (name : Txt) (oldLine : Nat)
    (tok : Tok) (tdPos : Nat) : Good Δ { s with tdNext := k, cur := cur, inp := inp, line := line, files := files, name := name, oldLine := oldLine, tok := tok, tdPos := tdPos } := by
  obtain ⟨⟨a1, a2, a3, a4, a5, a6, a7, a8, a9⟩, ⟨b1, b2, b3, b4⟩, ⟨fl, own, p1, p2, p3, p4, p5⟩, ⟨d1, d2⟩⟩ := h
  refine ⟨⟨a1, a2, a3, a4, fun i w hi => txt_mono (a5 i w hi) hk (fun _ _ => rfl), a6, hk', ?_, a9⟩, ⟨?_, b2, b3, b4⟩, ⟨fl, own, p1, p2, p3, p4, p5⟩, ⟨d1, d2⟩⟩
  · intro i w b hi
    obtain ⟨c1, c2, c3, c4⟩ := a8 i w b hi
    have hl := (List.getElem?_eq_some_iff.mp hi).1
    exact ⟨c1, chain_keep c2 (p3 i w b own[i] hi (List.getElem?_eq_getElem (by omega))).1 (fun _ _ => rfl) hk (fun _ _ => rfl), c3, c4⟩
  · cases hs : s.stack with
    | nil => exact .nil
    | cons x xs => rw [hs] at b1; cases b1

/-- Where the including file goes on. -/
def Rest (f : FileRec) (r : List Byte) : Prop := ∃ m, Commented m r ∧ f.last = m.headD 0 ∧ f.rest = m.tail

/-- `#include`. -/
theorem include_run {v nm c l r : List Byte} {s : S} (h : Good Δ s) (hcond : condActive s.cond = true) (hd : s.files.length < 2) (hf : fs nm = some c) (htd : s.tdNext + (nm.length + 1) ≤ 2048)
    (ha : At s (render [.ws v, .lit 0x22 nm, .nl] ++ r)) (hsp : Spelled [.ws v, .lit 0x22 nm, .nl] r) (hm : Commented c l) :
    ∃ s' f, Runs (fun n => dirRest fs n (tokId + 8)) s () s' ∧ Good Δ s' ∧ At s' l ∧ s'.tok.ty = tokNl ∧ s'.tdNext = s.tdNext + (nm.length + 1) ∧ s'.cond = s.cond ∧ s'.out = s.out ∧
      s'.files = f :: s.files ∧ Rest f r := by
  obtain ⟨o1, o2, o3, o4, o5, o6, _⟩ := hsp
  rw [render_cons] at ha
  obtain ⟨s1, r1, R1⟩ := raw_next (stk_nil h.stk) h.rep.queue ha o1 o2 (by simpa [PTok.need] using h.rep.tdn)
  have G1 := Good.raw h R1
  have a1 := R1.at_
  rw [render_cons] at a1
  obtain ⟨s2, r2, R2⟩ := raw_next (stk_nil G1.stk) G1.rep.queue a1 o3 o4 (by rw [R1.frame.tdNext]; exact htd)
  have G2 := Good.raw G1 R2
  obtain ⟨t1, t2, t3⟩ := R2.pos (by simp) (by decide : tokStrlit ≠ tokWs)
  have ht : s1.tdNext = s.tdNext := R1.frame.tdNext
  rw [ht] at t1 t2 t3
  have t2 : s2.tdPos = s.tdNext + (nm.length + 1) := t2
  have ht2 : s2.tdNext = s.tdNext := R2.frame.tdNext.trans ht
  let s3 : S := { s2 with tdNext := s2.tdPos }
  have G3 : Good Δ s3 := Good.io G2 (k := s2.tdPos) (by omega) (by omega) s2.cur s2.inp s2.line s2.files s2.name s2.oldLine s2.tok s2.tdPos
  have a3 : At s3 (PTok.nl.text ++ r) := by
    have := R2.at_
    rw [render_cons] at this
    exact this.congr rfl rfl
  obtain ⟨s4, r4, R4⟩ := raw_next (s := s3) (stk_nil G3.stk) G3.rep.queue a3 o5 o6 (by simpa [PTok.need] using G3.rep.tdn)
  have G4 := Good.raw G3 R4
  have td4 : s4.tdNext = s.tdNext + (nm.length + 1) := R4.frame.tdNext.trans t2
  have hstr : strOf s4 s2.tok.txt = some nm := by
    rw [t1]
    refine TxtIs.str (.inr ⟨_, rfl, ?_⟩) (by omega)
    rw [td4]
    exact StrBelow.frame t3 fun i hi => R4.frame.td i (by show i < s2.tdPos; rw [t2]; exact hi)
  have fl4 : s4.files = s.files := R4.frame.files.trans (R2.frame.files.trans R1.frame.files)
  let f : FileRec := { name := s4.name, oldLine := s4.oldLine, last := s4.cur, rest := s4.inp }
  let s5 : S := { s4 with tok := { s4.tok with ty := tokNl } }
  let s' : S := { s5 with cur := c.headD 0, inp := c.tail, files := f :: s4.files, name := s2.tok.txt, oldLine := s4.line, line := if s4.cur = 0x0A then 1 + 1 else 1 }
  refine ⟨s', f, ?_, Good.io G4 (k := s4.tdNext) (Nat.le_refl _) (by omega) _ _ _ _ _ _ _ s4.tdPos, ⟨c, hm, rfl, rfl⟩, rfl, td4,
    R4.frame.cond.trans (R2.frame.cond.trans R1.frame.cond), R4.out.trans (R2.out.trans R1.out), by show f :: s4.files = _; rw [fl4], ?_⟩
  · have g1 := get_raw (stk_nil h.stk) r1 R1 o1 (by simp)
    have g2 := get_raw (stk_nil G1.stk) r2 R2 o3 (by simp)
    have hty2 : s2.tok.ty = tokStrlit := R2.ty
    have hsk : Runs skipWs s1 () s2 := by
      obtain ⟨N, hN⟩ := g2
      refine ⟨N + 2, fun n hn => ?_⟩
      obtain ⟨n, rfl⟩ : ∃ j, n = j + 2 := ⟨n - 2, by omega⟩
      exact run_getS (run_pos R1.ty (run_bind (hN (n + 1) (by omega)) (run_getS (run_neg (by rw [hty2]; decide) rfl))))
    have key : Runs (fun n => handleInclude fs n) s () s' := by
      obtain ⟨N, hN⟩ := g1
      obtain ⟨N', hN'⟩ := hsk
      refine ⟨N + N', fun n hn => ?_⟩
      refine run_bind (hN n (by omega)) (run_bind (hN' n (by omega)) (run_getS ?_))
      rw [if_neg (show ¬ s2.tok.ty = 0x3C by rw [hty2]; decide)]
      refine run_bind (a := ()) (s1 := s3) rfl (run_bind (a := s2.tok.txt) (s1 := s3) rfl (run_bind r4 (run_bind (a := ()) (s1 := s5) rfl (run_getS (run_assert (by show decide (s4.files.length + 2 < 4) = true; rw [fl4]; simp; omega) ?_)))))
      refine run_bind (a := nm) (s1 := s5) ?_ ?_
      · show (match strOf s4 s2.tok.txt with | some l => pure l | none => fail .ub : A (List Byte)) s5 = _
        rw [hstr]; rfl
      · rw [hf]
        cases c <;> rfl
    obtain ⟨N, hN⟩ := key
    refine ⟨N + 1, fun n hn => ?_⟩
    obtain ⟨n, rfl⟩ : ∃ j, n = j + 1 := ⟨n - 1, by omega⟩
    unfold dirRest
    exact run_getS (run_assert (by decide) (run_neg (by decide) (run_pos (by decide) (run_pos hcond (run_bind (hN (n + 1) (by omega)) (toNewline_nl n rfl))))))
  · exact R4.at_

/-- `#include` of a file that does not exist. -/
theorem include_none {v nm r : List Byte} {s : S} (h : Good Δ s) (hcond : condActive s.cond = true) (hd : s.files.length < 2) (hf : fs nm = none) (htd : s.tdNext + (nm.length + 1) ≤ 2048)
    (ha : At s (render [.ws v, .lit 0x22 nm, .nl] ++ r)) (hsp : Spelled [.ws v, .lit 0x22 nm, .nl] r) :
    ∃ N, ∀ n, N ≤ n → dirRest fs n (tokId + 8) s = .err .fatal := by
  obtain ⟨o1, o2, o3, o4, o5, o6, _⟩ := hsp
  rw [render_cons] at ha
  obtain ⟨s1, r1, R1⟩ := raw_next (stk_nil h.stk) h.rep.queue ha o1 o2 (by simpa [PTok.need] using h.rep.tdn)
  have G1 := Good.raw h R1
  have a1 := R1.at_
  rw [render_cons] at a1
  obtain ⟨s2, r2, R2⟩ := raw_next (stk_nil G1.stk) G1.rep.queue a1 o3 o4 (by rw [R1.frame.tdNext]; exact htd)
  have G2 := Good.raw G1 R2
  obtain ⟨t1, t2, t3⟩ := R2.pos (by simp) (by decide : tokStrlit ≠ tokWs)
  have ht : s1.tdNext = s.tdNext := R1.frame.tdNext
  rw [ht] at t1 t2 t3
  have t2 : s2.tdPos = s.tdNext + (nm.length + 1) := t2
  have ht2 : s2.tdNext = s.tdNext := R2.frame.tdNext.trans ht
  let s3 : S := { s2 with tdNext := s2.tdPos }
  have G3 : Good Δ s3 := Good.io G2 (k := s2.tdPos) (by omega) (by omega) s2.cur s2.inp s2.line s2.files s2.name s2.oldLine s2.tok s2.tdPos
  have a3 : At s3 (PTok.nl.text ++ r) := by
    have := R2.at_
    rw [render_cons] at this
    exact this.congr rfl rfl
  obtain ⟨s4, r4, R4⟩ := raw_next (s := s3) (stk_nil G3.stk) G3.rep.queue a3 o5 o6 (by simpa [PTok.need] using G3.rep.tdn)
  have G4 := Good.raw G3 R4
  have td4 : s4.tdNext = s.tdNext + (nm.length + 1) := R4.frame.tdNext.trans t2
  have hstr : strOf s4 s2.tok.txt = some nm := by
    rw [t1]
    refine TxtIs.str (.inr ⟨_, rfl, ?_⟩) (by omega)
    rw [td4]
    exact StrBelow.frame t3 fun i hi => R4.frame.td i (by show i < s2.tdPos; rw [t2]; exact hi)
  have fl4 : s4.files = s.files := R4.frame.files.trans (R2.frame.files.trans R1.frame.files)
  let s5 : S := { s4 with tok := { s4.tok with ty := tokNl } }
  have g1 := get_raw (stk_nil h.stk) r1 R1 o1 (by simp)
  have g2 := get_raw (stk_nil G1.stk) r2 R2 o3 (by simp)
  have hty2 : s2.tok.ty = tokStrlit := R2.ty
  have hsk : Runs skipWs s1 () s2 := by
    obtain ⟨N, hN⟩ := g2
    refine ⟨N + 2, fun n hn => ?_⟩
    obtain ⟨n, rfl⟩ : ∃ j, n = j + 2 := ⟨n - 2, by omega⟩
    exact run_getS (run_pos R1.ty (run_bind (hN (n + 1) (by omega)) (run_getS (run_neg (by rw [hty2]; decide) rfl))))
  obtain ⟨N, hN⟩ := g1
  obtain ⟨N', hN'⟩ := hsk
  refine ⟨N + N', fun n hn => ?_⟩
  unfold dirRest
  refine run_getS (run_assert (by decide) (run_neg (by decide) (run_pos (by decide) (run_pos hcond (run_err ?_)))))
  refine run_bind (hN n (by omega)) (run_bind (hN' n (by omega)) (run_getS ?_))
  rw [if_neg (show ¬ s2.tok.ty = 0x3C by rw [hty2]; decide)]
  refine run_bind (a := ()) (s1 := s3) rfl (run_bind (a := s2.tok.txt) (s1 := s3) rfl (run_bind r4 (run_bind (a := ()) (s1 := s5) rfl (run_getS (run_assert (by show decide (s4.files.length + 2 < 4) = true; rw [fl4]; simp; omega) ?_)))))
  refine run_bind (a := nm) (s1 := s5) ?_ ?_
  · show (match strOf s4 s2.tok.txt with | some l => pure l | none => fail .ub : A (List Byte)) s5 = _
    rw [hstr]; rfl
  · rw [hf]; rfl

theorem loop_pop {s : S} {ws : Nat} {act : Bool} {f : FileRec} {F : List FileRec} (h : s.tok.ty = tokEof) (hf : s.files = f :: F)
    (h' : Fin fs { s with line := s.oldLine, files := F, name := f.name, oldLine := f.oldLine, cur := f.last, inp := f.rest } ws act P) : Loop fs s ws act P := by
  obtain ⟨x, hP, N, hN⟩ := h'.run
  refine ⟨x, hP, N + 1, fun g n hg hn => ?_⟩
  obtain ⟨n, rfl⟩ : ∃ j, n = j + 1 := ⟨n - 1, by omega⟩
  simp only [ppLoop]
  refine run_getS (run_neg (by rw [h]; decide) (run_pos h ?_))
  rw [hf]
  exact hN g g n (by omega) (by omega) (by omega)

/-- The end of a file that was included. -/
theorem fin_pop {s : S} {ws : Nat} {act : Bool} {f : FileRec} {F : List FileRec} {r : List Byte} (h : Good Δ s) (ha : At s []) (hne : s.tok.ty ≠ tokEof) (hf : s.files = f :: F) (hr : Rest f r)
    (hfin : ∀ s', Good Δ s' → At s' r → s'.cond = s.cond → s'.tdNext = s.tdNext → s'.files = F → s'.out = s.out → Fin fs s' ws act P) : Fin fs s ws act P := by
  obtain ⟨m, hm, hi⟩ := ha.inAt
  obtain ⟨k, h1⟩ := rawGet_eof hm.inv_nil s (stk_nil h.stk) h.rep.queue
  rw [hi, if_neg hne] at h1
  let s1 : S := inAt [] { s with line := k, tdPos := s.tdNext, tok := ⟨tokEof, .data s.tdNext⟩ }
  refine fin_get (s1 := s1) ⟨1, fun n hn => ?_⟩ rfl (loop_pop rfl hf (hfin _ ?_ hr rfl rfl rfl rfl))
  · obtain ⟨n, rfl⟩ : ∃ j, n = j + 1 := ⟨n - 1, by omega⟩
    simp only [getToken]
    exact run_bind h1 (run_getS (run_neg (by show ¬ tokEof = 0x23; decide) (run_neg (by show ¬ tokEof = tokArg; decide) (run_pos (by show tokEof ≠ tokRawId; decide) rfl))))
  · exact Good.io h (Nat.le_refl _) h.rep.tdn _ _ _ _ _ _ _ _

/-- The preprocessor computes the meaning of a file. -/
theorem ev_fin {d : Nat} {m : Mode} {k td td' : Nat} {Δ Δ' : Table} {src out : List PTok} (h : Ev fs d m k td Δ src td' Δ' out) : ∀ (F : List FileRec) (s : S) (ws : Nat) (r : List Byte), F.length = d → Inv F m k td Δ s → At s (render src ++ r) →
    Spelled src r → (∀ s' ws', Good Δ' s' → s'.cond = m.after s.cond → s'.tdNext ≤ td' → s'.files = F → At s' r → s'.out.toList = s.out.toList ++ (layout (gapOf ws) out).2 →
      gapOf ws' = (layout (gapOf ws) out).1 → TyEnd src s.tok.ty s'.tok.ty → Fin fs s' ws' (condActive s'.cond) P) → Fin fs s ws (condActive s.cond) P := by
  induction h with
  | nil =>
    intro F s ws r hF ⟨h1, h2, h3, h4, h5⟩ ha _ hf
    exact hf s ws h1 rfl h4 h5 ha (by simp [layout]) rfl (.nil _)
  | @text d0 act k td td' Δ Δ' ts os rest out hx ht _ hn _ ih =>
    intro F s ws r hF ⟨h1, h2, h3, h4, h5⟩ ha hsp hf
    obtain ⟨p1, p2⟩ := Spelled.app hsp
    rw [render_append] at ha
    have hem := emits_text hx s _ rfl (Nat.le_refl _) h1.rep h1.stk ha p1 (fun t htm => (ht t htm).2.2) (fun t htm => by have := hn t htm; omega)
    have hos : ∀ o ∈ os, o.Ok ∧ o ≠ .op (asc "#") :=
      exp_all (P := fun o => o.Ok ∧ o ≠ .op (asc "#")) (fun w b hl t htb => ⟨(rep_body h1.rep hl t htb).1, (rep_body h1.rep hl t htb).2.2.1⟩) hx (fun t htm => ⟨(ht t htm).1, (ht t htm).2.1⟩)
    cases act with
    | true =>
      rw [h3]
      refine emits_fin os s ws hem hos fun s' ws' hq e1 e2 => ?_
      obtain ⟨f, a, k', ty⟩ := hq
      have hc := f.cond
      have := ih F s' ws' r hF ⟨h1.frame f k', by rw [hc]; exact h2, by rw [hc]; exact h3, by rw [f.tdNext]; exact h4, f.files.trans h5⟩ a p2 (fun s2 ws2 q1 q2 q3 q4 q5 q6 q7 q8 => by
        rw [e2] at q6 q7
        exact hf s2 ws2 q1 (q2.trans hc) q3 q4 q5 (lay_append e1 q6) (by rw [q7]; simp [layout_append]) (ty.append q8))
      rw [hc, h3] at this
      exact this
    | false =>
      rw [h3]
      refine emits_skip os s ws hem hos fun s' hq e1 => ?_
      obtain ⟨f, a, k', ty⟩ := hq
      have hc := f.cond
      have := ih F s' ws r hF ⟨h1.frame f k', by rw [hc]; exact h2, by rw [hc]; exact h3, by rw [f.tdNext]; exact h4, f.files.trans h5⟩ a p2 (fun s2 ws2 q1 q2 q3 q4 q5 q6 q7 q8 =>
        hf s2 ws2 q1 (q2.trans hc) q3 q4 q5 (by rw [q6, e1]; rfl) (by rw [q7]; rfl) (ty.append q8))
      rw [hc, h3] at this
      exact this
  | @define d0 k td td' Δ Δ' V W v1 w v b rest out hw hc hu hb htr hn hn' _ ih =>
    intro F s ws r hF ⟨h1, h2, h3, h4, h5⟩ ha hsp hf
    obtain ⟨a1, p1, p2, p3⟩ := split3 ha hsp
    rw [render_append] at a1
    refine dir_fin (k := 0) (by decide) h1 a1 (Spelled.app p1).1 (by omega) fun s2 g1 g2 g3 g4 _ => ?_
    obtain ⟨N, s', k1, k2, k3, k4, k5, k6, k7⟩ := define_eq g1 (stk_nil g1.stk) g2 p2 hw hc (by omega) hu hb htr
    have hc' : s'.cond = s.cond := k7.cond.trans g3.cond
    have ho' : s'.out = s.out := k7.out.trans g3.out
    refine ⟨N, s', fun n hn => ?_, k4, ?_⟩
    · unfold dirRest
      exact run_getS (run_assert (by decide) (run_pos (by decide) (run_pos (by rw [g3.cond]; exact h3) (k1 n hn))))
    · exact ih F s' ws r hF ⟨k2, by rw [hc']; exact h2, by rw [hc']; exact h3, by omega, k7.files.trans (g3.files.trans h5)⟩ k3 p3 fun s3 ws3 q1 q2 q3 q4 q5 q6 q7 q8 =>
        hf s3 ws3 q1 (q2.trans hc') q3 q4 q5 (by rw [q6, ho']) q7 (q8.pre k4)
  | @undef d0 k td td' Δ Δ' V W v1 w rest out hw hn hn' _ ih =>
    intro F s ws r hF ⟨h1, h2, h3, h4, h5⟩ ha hsp hf
    obtain ⟨a1, p1, p2, p3⟩ := split3 ha hsp
    rw [render_append] at a1
    refine dir_fin (k := 1) (by decide) h1 a1 (Spelled.app p1).1 (by omega) fun s2 g1 g2 g3 g4 _ => ?_
    obtain ⟨s', k1, k2, k3, k4, k5, k7⟩ := undef_eq g1 g2 p2 hw (by omega)
    have hc' : s'.cond = s.cond := k7.cond.trans g3.cond
    have ho' : s'.out = s.out := k7.out.trans g3.out
    refine ⟨3, s', fun n hn => ?_, k4, ?_⟩
    · obtain ⟨n, rfl⟩ : ∃ j, n = j + 3 := ⟨n - 3, by omega⟩
      unfold dirRest
      exact run_getS (run_assert (by decide) (run_neg (by decide) (run_neg (by decide) (run_pos (by decide) (run_pos (by rw [g3.cond]; exact h3) (k1 n))))))
    · exact ih F s' ws r hF ⟨k2, by rw [hc']; exact h2, by rw [hc']; exact h3, by omega, k7.files.trans (g3.files.trans h5)⟩ k3 p3 fun s3 ws3 q1 q2 q3 q4 q5 q6 q7 q8 =>
        hf s3 ws3 q1 (q2.trans hc') q3 q4 q5 (by rw [q6, ho']) q7 (q8.pre k4)
  | @skip d0 act k td td' Δ Δ' V w ts rest out hw ht hn hn' _ ih =>
    intro F s ws r hF ⟨h1, h2, h3, h4, h5⟩ ha hsp hf
    obtain ⟨a1, p1, p2, p3⟩ := split3 ha hsp
    obtain ⟨k', hk1, hk2⟩ : ∃ k' : Nat, builtins[k']? = some w ∧ (k' = 11 ∨ k' = 9 ∨ act = false ∧ (k' = 0 ∨ k' = 1 ∨ k' = 8 ∨ k' = 10)) := by
      simp only [List.mem_cons, List.not_mem_nil, or_false] at hw
      rcases hw with (rfl | rfl) | ⟨rfl, rfl | rfl | rfl | rfl⟩
      · exact ⟨11, by decide, by simp⟩
      · exact ⟨9, by decide, by simp⟩
      · exact ⟨0, by decide, by simp⟩
      · exact ⟨1, by decide, by simp⟩
      · exact ⟨8, by decide, by simp⟩
      · exact ⟨10, by decide, by simp⟩
    refine dir_done (c := s.cond) (Δ' := Δ) hk1 h1 a1 p1 (by omega) (fun s2 g1 g2 g3 g4 g5 => ?_) fun s' d => ?_
    · rw [← g3.cond]
      exact skip_run g1 g5 (by rw [g3.cond, h3]; exact hk2) ht (fun t htm => by have := hn' t htm; omega) g2 p2
    · exact ih F s' ws r hF ⟨d.good, by rw [d.cond]; exact h2, by rw [d.cond]; exact h3, by rw [d.td]; exact h4, d.files.trans h5⟩ d.at_ p3 fun s3 ws3 q1 q2 q3 q4 q5 q6 q7 q8 =>
        hf s3 ws3 q1 (q2.trans d.cond) q3 q4 q5 (by rw [q6, d.out]) q7 (q8.pre d.ty)
  | @incl d0 k td td1 td' Δ Δ1 Δ' V v nm c src rest o1 o2 hd hf' hc hsp' he hi hn hn' _ _ ih1 ih2 =>
    intro F s ws r hF ⟨h1, h2, h3, h4, h5⟩ ha hsp hf
    obtain ⟨a1, p1, p2, p3⟩ := split3 ha hsp
    rw [render_append] at a1
    refine dir_fin (k := 8) (by decide) h1 a1 (Spelled.app p1).1 (by omega) fun s2 g1 g2 g3 g4 _ => ?_
    obtain ⟨s', f, ⟨N, k1⟩, k2, k3, k4, k5, k6, k7, k8, k9⟩ := include_run (fs := fs) (l := render src) g1 (by rw [g3.cond]; exact h3) (by rw [g3.files, h5, hF]; exact hd) hf' (by omega) g2 p2 hc
    have hc' : s'.cond = s.cond := k6.trans g3.cond
    have ho' : s'.out = s.out := k7.trans g3.out
    refine ⟨N, s', k1, k4, ?_⟩
    refine ih1 (f :: F) s' ws [] (by simp [hF]) ⟨k2, by rw [hc']; exact h2, by rw [hc']; exact h3, by omega, by rw [k8, g3.files, h5]⟩ (by rw [List.append_nil]; exact k3) hsp' fun s3 ws3 q1 q2 q3 q4 q5 q6 q7 q8 => ?_
    have ht3 : s3.tok.ty = tokNl := by
      rcases he with he | he
      · exact (q8.1 he).trans k4
      · exact q8.2 he hi
    have hc3 : s3.cond = s.cond := q2.trans hc'
    refine fin_pop q1 q5 (by rw [ht3]; decide) q4 k9 fun s4 j1 j2 j3 j4 j5 j6 => ?_
    have hc4 : s4.cond = s.cond := j3.trans hc3
    rw [hc3, ← hc4]
    refine ih2 F s4 ws3 r hF ⟨j1, by rw [hc4]; exact h2, by rw [hc4]; exact h3, by omega, j5⟩ j2 p3 fun s5 ws5 i1 i2 i3 i4 i5 i6 i7 i8 => ?_
    rw [q7] at i6 i7
    rw [ho'] at q6
    refine hf s5 ws5 i1 (i2.trans hc4) i3 i4 i5 (lay_append q6 (by rw [i6, j6])) (by rw [i7]; simp [layout_append]) ⟨fun e => by simp [dir] at e, fun e hi' => ?_⟩
    by_cases hr : rest = []
    · subst hr
      exact absurd ⟨dir V (asc "include") ++ [.ws v], nm, by simp⟩ hi'
    · refine i8.2 ?_ fun ⟨u, w, hw⟩ => hi' ⟨dir V (asc "include") ++ [.ws v, .lit 0x22 nm, .nl] ++ u, w, by rw [hw]; simp⟩
      rwa [← List.append_assoc, List.getLast?_append_of_ne_nil _ hr] at e
  | @sect d0 act c k td td1 td2 td' Δ Δ1 Δ2 Δ' V w ts body more rest o1 o2 o3 hw hk hn ht _ _ _ ih1 ih2 ih3 =>
    intro F s ws r hF ⟨h1, h2, h3, h4, h5⟩ ha hsp hf
    obtain ⟨a1, p1, p2, p3⟩ := split3 ha hsp
    obtain ⟨p4, p5⟩ := Spelled.app p3
    obtain ⟨p5, p6⟩ := Spelled.app p5
    obtain ⟨k', hk1, hk2⟩ := test_run (fs := fs) ht hw
    refine dir_done (c := pushCond s.cond c :: s.cond) (Δ' := Δ) hk1 h1 a1 p1 (by omega) (fun s2 g1 g2 g3 g4 _ => ?_) fun s' d => ?_
    · rw [← g3.cond]
      exact hk2 s2 _ g1 (by rw [g3.cond]; omega) (by omega) g2 p2
    · refine ih1 F s' ws (render (more ++ rest) ++ r) hF ⟨d.good, by rw [d.cond]; simp [h2], by rw [d.cond, push_active, h3], by rw [d.td]; exact h4, d.files.trans h5⟩ (by
        rw [← render_append]; exact d.at_) p4 fun s3 ws3 q1 q2 q3 q4 q5 q6 q7 q8 => ?_
      have c3 : s3.cond = pushCond s.cond c :: s.cond := q2.trans d.cond
      rw [render_append] at q5
      refine ih2 F s3 ws3 (render rest ++ r) hF ⟨q1, q3, q4, _, _, c3, by simp [h2], h3, ?_, ?_⟩ q5 p5 fun s4 ws4 j1 j2 j3 j4 j5 j6 j7 j8 => ?_
      · rintro rfl
        simp [pushCond, h3]
      · rintro rfl
        cases c <;> simp [pushCond, h3]
      have c4 : s4.cond = s.cond := by rw [j2]; show s3.cond.tail = _; rw [c3]; rfl
      refine ih3 F s4 ws4 r hF ⟨j1, by rw [c4]; exact h2, by rw [c4]; exact h3, j3, j4⟩ j5 p6 fun s5 ws5 i1 i2 i3 i4 i5 i6 i7 i8 => ?_
      rw [d.out] at q6
      rw [q7] at j6 j7
      rw [j7] at i6 i7
      refine hf s5 ws5 i1 (i2.trans c4) i3 i4 i5 ?_ (by rw [i7]; simp [layout_append]) ((q8.append (j8.append i8)).pre d.ty)
      rw [← List.append_assoc]
      refine lay_append (lay_append q6 j6) ?_
      rw [i6]; simp [layout_append]
  | @endif d0 act taken k td Δ V W hn =>
    intro F s ws r hF ⟨h1, h2, h3, c, cs, h4, h5, h6, h7, h8⟩ ha hsp hf
    refine dir_done (k := 7) (c := cs) (Δ' := Δ) (by decide) h1 ha hsp (by omega) (fun s2 g1 g2 g3 g4 _ => endif_run g1 (g3.cond.trans h4) g2 (Spelled.app hsp).2) fun s' d => ?_
    exact hf s' ws d.good (by rw [d.cond, h4]; rfl) (by rw [d.td]; exact h2) (d.files.trans h3) d.at_ (by rw [d.out]; simp [layout]) rfl (.dir d.ty)
  | @els d0 act taken k td td' Δ Δ' V W V' W' body out hn _ hn' ih =>
    intro F s ws r hF ⟨h1, h2, h3, c, cs, h4, h5, h6, h7, h8⟩ ha hsp hf
    obtain ⟨a1, p1, p2, p3⟩ := split3 ha hsp
    obtain ⟨p4, p5⟩ := Spelled.app p3
    refine dir_done (k := 6) (c := (if c = .false then .true else .done) :: cs) (Δ' := Δ) (by decide) h1 a1 p1 (by omega) (fun s2 g1 g2 g3 g4 _ => else_run g1 (g3.cond.trans h4) g2 p2) fun s' d => ?_
    refine ih F s' ws _ hF ⟨d.good, by rw [d.cond]; simp [h5], ?_, by rw [d.td]; exact h2, d.files.trans h3⟩ (by rw [← render_append]; exact d.at_) p4 fun s3 ws3 q1 q2 q3 q4 q5 q6 q7 q8 => ?_
    · rw [d.cond]
      cases act with
      | false => rw [h7 rfl]; rfl
      | true =>
        cases taken with
        | false => rw [(h8 rfl).mpr rfl]; rfl
        | true =>
          have : c ≠ .false := fun e => by have := (h8 rfl).mp e; cases this
          rw [if_neg this]; rfl
    have c3 := q2.trans d.cond
    refine dir_done (k := 7) (c := cs) (Δ' := Δ') (by decide) q1 q5 p5 (by omega) (fun s2 g1 g2 g3 g4 _ => endif_run g1 (g3.cond.trans c3) g2 (Spelled.app p5).2) fun s4 d' => ?_
    exact hf s4 ws3 d'.good (by rw [d'.cond, h4]; rfl) (by rw [d'.td]; exact q3) (d'.files.trans q4) d'.at_ (by rw [d'.out, q6, d.out]) q7 (.dir d'.ty)
  | @elif d0 c k td td1 td' Δ Δ1 Δ' V ts body more o1 o2 hn ht _ _ ih1 ih2 =>
    intro F s ws r hF ⟨h1, h2, h3, c0, cs, h4, h5, h6, h7, h8⟩ ha hsp hf
    obtain ⟨a1, p1, p2, p3⟩ := split3 ha hsp
    obtain ⟨p4, p5⟩ := Spelled.app p3
    have hc0 := (h8 rfl).mpr rfl
    subst hc0
    refine dir_done (k := 5) (c := (if c then .true else .false) :: cs) (Δ' := Δ) (by decide) h1 a1 p1 (by omega) (fun s2 g1 g2 g3 g4 _ => ?_) fun s' d => ?_
    · generalize hel : asc "elif" = kw at ht
      cases ht with
      | ifdef => exact absurd hel (by decide)
      | ifndef => exact absurd hel (by decide)
      | expr hk h1 h2 h3 h4' h5 h6 h7 =>
        obtain ⟨s', k1, k2⟩ := elif_run (fs := fs) g1 (g3.cond.trans h4) h1 h2 h3 h4' h5 h6 (fun t htm => by have := h7 t htm; omega) g2 p2
        exact ⟨s', k1, by simpa using k2⟩
    · refine ih1 F s' ws _ hF ⟨d.good, by rw [d.cond]; simp [h5], by rw [d.cond]; cases c <;> rfl, by rw [d.td]; exact h2, d.files.trans h3⟩ (by rw [← render_append]; exact d.at_) p4
        fun s3 ws3 q1 q2 q3 q4 q5 q6 q7 q8 => ?_
      have c3 := q2.trans d.cond
      refine ih2 F s3 ws3 r hF ⟨q1, q3, q4, _, _, c3, h5, h6, (fun e => by cases e), (fun _ => by cases c <;> simp)⟩ q5 p5 fun s4 ws4 j1 j2 j3 j4 j5 j6 j7 j8 => ?_
      rw [d.out] at q6
      rw [q7] at j6 j7
      exact hf s4 ws4 j1 (by rw [j2]; show s3.cond.tail = s.cond.tail; rw [c3, h4]; rfl) j3 j4 j5 (lay_append q6 j6) (by rw [j7]; simp [layout_append]) ((q8.append j8).pre d.ty)
  | @elifSkip d0 act taken k td td1 td' Δ Δ1 Δ' V v ts body more o1 o2 hc hn ht hn' _ _ ih1 ih2 =>
    intro F s ws r hF ⟨h1, h2, h3, c0, cs, h4, h5, h6, h7, h8⟩ ha hsp hf
    obtain ⟨a1, p1, p2, p3⟩ := split3 ha hsp
    obtain ⟨p4, p5⟩ := Spelled.app p3
    have hne : c0 ≠ .false := by
      rintro rfl
      cases act with
      | false => have := h7 rfl; cases this
      | true =>
        rcases hc with hc | hc
        · cases hc
        · have := (h8 rfl).mp rfl
          rw [hc] at this; cases this
    refine dir_done (k := 5) (c := .done :: cs) (Δ' := Δ) (by decide) h1 a1 p1 (by omega) (fun s2 g1 g2 g3 g4 _ => elifSkip_run g1 (g3.cond.trans h4) hne ht (fun t htm => by have := hn' t htm; omega) g2 p2)
      fun s' d => ?_
    refine ih1 F s' ws _ hF ⟨d.good, by rw [d.cond]; simp [h5], by rw [d.cond]; rfl, by rw [d.td]; exact h2, d.files.trans h3⟩ (by rw [← render_append]; exact d.at_) p4
      fun s3 ws3 q1 q2 q3 q4 q5 q6 q7 q8 => ?_
    have c3 := q2.trans d.cond
    refine ih2 F s3 ws3 r hF ⟨q1, q3, q4, _, _, c3, h5, h6, fun _ => rfl, fun e => ?_⟩ q5 p5 fun s4 ws4 j1 j2 j3 j4 j5 j6 j7 j8 => ?_
    · rcases hc with hc | hc
      · rw [hc] at e; cases e
      · simp [hc]
    rw [d.out] at q6
    rw [q7] at j6 j7
    exact hf s4 ws4 j1 (by rw [j2]; show s3.cond.tail = s.cond.tail; rw [c3, h4]; rfl) j3 j4 j5 (lay_append q6 j6) (by rw [j7]; simp [layout_append]) ((q8.append j8).pre d.ty)

end Props.ScppFile
