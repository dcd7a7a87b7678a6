import Verif.Props.SccStmProg
import Verif.Props.SccStmLocRun
/-!
# Compiled programs (C51): the theorem
-/
namespace SccTop
open Prog Text Scc SccCode SccGen SccStm SccHead SccLayout SccLoc SccFix Props.SccLex Props.SccIds I86
open SccStm.World (PE PC Calls stackFor)
open I86.Cpu hiding lo hi rd

/-- The program is in memory, as DOS loads it. -/
def Loaded (img : List Byte) (c : Cpu) : Prop := ∀ i (h : i < img.length), rdb c.mem c.cs (BitVec.ofNat 16 (codeStart + i)) = img[i]

/-- The program is in memory; the stack goes down to `L`, which is behind the program, and on the stack are a return address and the arguments. -/
structure Ready (img : List Byte) (xs : List Nat) (L : Nat) (ρ : Nat → Word) (c : Cpu) : Prop where
  load : Loaded img c
  ss : c.ss = c.cs
  below : codeStart + img.length ≤ L
  stack : L + 2 ≤ c.sp.toNat
  args : c.sp.toNat + 2 + 2 * xs.length ≤ 2 ^ 16
  val : ∀ i (h : i < xs.length), rdw c.mem c.cs (c.sp + BitVec.ofNat 16 (2 + 2 * i)) = ρ xs[i]

theorem image_img {s : S} (hb : s.bss = 0) {c : Cpu} (h : Loaded (image s) c) : Img s.out c codeStart s.code := by
  intro x h1 h2
  have hl : x - codeStart < (image s).length := by unfold image; simp [hb]; omega
  have := h (x - codeStart) hl
  rw [show codeStart + (x - codeStart) = x by omega] at this
  refine this.trans ((List.getElem_map ..).trans ?_)
  rw [List.getElem_range]
  rfl

theorem image_length {s : S} (hb : s.bss = 0) (hge : codeStart ≤ s.code) : codeStart + (image s).length = s.code := by
  unfold image
  rw [List.length_map, List.length_range, hb]
  omega

/-- `XOR BP, BP`. -/
theorem xor_run {m : Mem 15} {p : Nat} (h0 : B m p = 0x31) (h1 : B m (p + 1) = 0xED) (K : Contract) {c : Cpu} (hip : c.ip = BitVec.ofNat 16 p) (hi : Img m c p (p + 2)) :
    ∃ cf zf sf of, c.step K = .next { c with ip := BitVec.ofNat 16 (p + 2), bp := 0, cf := cf, zf := zf, sf := sf, of := of } := by
  have hc : c.codeAt c.ip [0x31, 0xED] := by
    rw [hip]
    refine hi.codeAt _ (by simp) fun i hi => ?_
    match i, hi with
    | 0, _ => exact h0
    | 1, _ => exact h1
  have hst := step_enc (K := K) (i := .aluRmReg .xor true (.reg 5) 5) ⟨by simp, fun _ => rfl⟩ hc
  have e : c.bp ^^^ c.bp = 0 := BitVec.xor_self
  simp only [i86x, e, hip] at hst
  rw [hst, show BitVec.ofNat 16 (p + 2) = BitVec.ofNat 16 p + 2#16 from ofNat_add' p 2]
  exact ⟨_, _, _, _, rfl⟩

theorem entry_run {m : Mem 15} {a q : Nat} (h0 : m.get 0 = 0x31) (h1 : m.get 1 = 0xED) (hj : Jumps m a) (ha : a < q) (K : Contract) {c : Cpu} (hip : c.ip = BitVec.ofNat 16 codeStart) (hi : Img m c codeStart q) :
    Reach K c (fun d => ∃ cf zf sf of, d = { c with ip := BitVec.ofNat 16 a, bp := 0, cf := cf, zf := zf, sf := sf, of := of }) := by
  have h5 : codeStart + 2 ≤ a := by rcases hj with h | h <;> omega
  obtain ⟨cf, zf, sf, of, hst⟩ := xor_run (p := codeStart) h0 h1 K hip (hi.mono (Nat.le_refl _) (by omega))
  refine .step hst ?_
  generalize hc1 : ({ c with ip := BitVec.ofNat 16 (codeStart + 2), bp := 0, cf := cf, zf := zf, sf := sf, of := of } : Cpu) = c1
  have hip1 : c1.ip = BitVec.ofNat 16 (codeStart + 2) := by rw [← hc1]
  have hi1 : Img m c1 codeStart q := by rw [← hc1]; exact hi
  have fin : ∀ d, d = { c1 with ip := BitVec.ofNat 16 a } → ∃ cf zf sf of, d = { c with ip := BitVec.ofNat 16 a, bp := 0, cf := cf, zf := zf, sf := sf, of := of } := by
    rintro _ rfl
    rw [← hc1]
    exact ⟨cf, zf, sf, of, rfl⟩
  rcases hj with rfl | ⟨hlt, ⟨hf, b2, b3⟩ | ⟨b2, b3, b4⟩⟩
  · exact .done (fin _ (by rw [← hc1]))
  · have hs : Short m (codeStart + 2) a := by
      refine ⟨b2, ?_⟩
      show _ = _ + (m.get 3).signExtend 16
      rw [b3, sext_byteOf ((fits8_iff _).1 hf)]
      exact to_word (by omega)
    exact (SccLayout.Short.run hs K hip1 (hi1.mono (by omega) (by omega))).mono fin
  · have hs : Long m (codeStart + 2) a := by
      refine ⟨b2, ?_⟩
      show _ = _ + I86.word (m.get 3) (m.get 4)
      rw [b3, b4, word_lo_hi]
      exact to_word (by omega)
    exact (SccLayout.Long.run hs K hip1 (hi1.mono (by omega) (by omega))).mono fin

/-- What the function does: first the local variables get their values. -/
def Fn.code (f : Fn) (names : List (List Byte)) : St := f.locs.foldr (fun p t => .seq (.asgn .set (num names p.1) p.2) t) f.body

/-- The functions of the program. -/
def prog (names : List (List Byte)) (fs : List Fn) (x : Nat) : Option (List Nat × St) := (fs.find? fun f => num names f.name = x).map fun f => (f.xs names, f.code names)

/-- What the code at `a` in the program does. -/
def Does (names : List (List Byte)) (m : Nat) (fs : List Fn) (img : List Byte) (f : Fn) (a : Nat) : Prop :=
  ∀ (K : Contract) (c : Cpu) (ρ ρ' : Nat → Word) (L d : Nat) (r : Option Word) (o : SccStm.Out), Ready img (f.xs names) L ρ c → c.ip = BitVec.ofNat 16 a → L + 2 + stackFor m d ≤ c.sp.toNat →
    Exec (prog names fs) (PE K) (PC K) d (f.code names) ρ o → (o = .norm ρ' ∧ r = none ∨ o = .ret r ρ') → Reach K c (Returned f.pars.length L r c)

/-- What the program does, if `f` is the function `_start`. -/
def Starts (names : List (List Byte)) (m : Nat) (fs : List Fn) (img : List Byte) (f : Fn) : Prop :=
  ∀ (K : Contract) (c : Cpu) (ρ ρ' : Nat → Word) (L d : Nat) (r : Option Word) (o : SccStm.Out), Ready img (f.xs names) L ρ c → c.ip = BitVec.ofNat 16 codeStart → L + 2 + stackFor m d ≤ c.sp.toNat →
    Exec (prog names fs) (PE K) (PC K) d (f.code names) ρ o → (o = .norm ρ' ∧ r = none ∨ o = .ret r ρ') → Reach K c (Returned f.pars.length L r { c with bp := 0 })

/-- The program is in memory and behind it is room for the stack. -/
theorem at_called {names : List (List Byte)} {A : Nat → Nat} {f : Fn} {p : Nat × Nat} {s s' : S} (hc : s'.code = s.code) (ho : s'.out = s.out) (hb : s'.bss = 0) (h : At names A s.out s.code f p) {K : Contract} {c : Cpu}
    {ρ : Nat → Word} {L d m : Nat} {F : List Nat} {Γ : Nat → Option (List Nat × St)} {r : Option Word} {o : SccStm.Out} (hr : Ready (image s') (f.xs names) L ρ c) (hip : c.ip = BitVec.ofNat 16 p.1) (hnd : (f.xs names).Nodup)
    (hfit : f.locs.length ≤ m) (hokl : OkL (m - f.locs.length) (f.xs names) (nums names f.locs)) (hok : Ok F (f.xs names ++ f.ys names) (m - f.locs.length) f.body) (hm : L + 2 + stackFor m d ≤ c.sp.toNat) (hcalls : ∀ d' < d, Calls K Γ A c.cs L m c d') (hx : Exec Γ (PE K) (PC K) d (f.code names) ρ o)
    (hend : ∃ ρ', o = .norm ρ' ∧ r = none ∨ o = .ret r ρ') : Reach K c (Returned (f.xs names).length L r c) := by
  obtain ⟨⟨s8, cs, zs, l', rl, R, e1, e2, hinv, hits, hcode, hrl⟩, _, hle, _⟩ := h
  have hge := hinv.ge
  have h2 := image_img hb hr.load
  have hlt : codeStart ≤ s8.code := Nat.le_trans hge hinv.tile.le
  have hl := image_length hb (show codeStart ≤ s'.code by omega)
  have hbelow := hr.below
  have : Called (f.xs names) p.1 s8.code s8.out L ρ c := by
    refine ⟨hip, hr.ss, fun x h1' h2' => ?_, by omega, hr.stack, hr.args, hr.val⟩
    rw [h2 x (by omega) (by omega), ho]
    have := e2 (x - codeStart) (by omega) (by omega)
    exact this
  refine call_runL (ds := nums names f.locs) this hnd hinv hits hcode hrl ?_ ?_ hokl hok (by omega) hm hcalls ?_ hend
  · unfold nums; rw [List.map_map]; rfl
  · unfold nums; rw [List.map_map]; rfl
  · have e : Frame.unroll (nums names f.locs) f.body = f.code names := by unfold Frame.unroll nums Fn.code; rw [List.foldr_map]
    rw [e]; exact hx

/-- All functions do what their statements say, however deep the calls. -/
theorem calls_ok {names : List (List Byte)} {A : Nat → Nat} {fs : List Fn} {ad : List (Nat × Nat)} {s s' : S} {m : Nat} (hc : s'.code = s.code) (ho : s'.out = s.out) (hb : s'.bss = 0)
    (hat : List.Forall₂ (At names A s.out s.code) fs ad) (hnd : ∀ f ∈ fs, (f.xs names).Nodup) (hok : ∀ f ∈ fs, ∃ vis, Fine names m vis f) (K : Contract) {c0 : Cpu} {L : Nat} (hload : Loaded (image s') c0)
    (hL : codeStart + (image s').length ≤ L) (d : Nat) : Calls K (prog names fs) A c0.cs L m c0 d := by
  induction d using Nat.strong_induction_on with
  | _ d ih =>
    intro x ps b ρ ρ1 w hx hex c hip hcs hss hmem hstk hargs hval
    obtain ⟨f, hf, he⟩ := Option.map_eq_some_iff.1 hx
    cases he
    have hn : num names f.name = x := by simpa using List.find?_some hf
    have hm := List.mem_of_find?_eq_some hf
    obtain ⟨i, hi, e⟩ := List.getElem_of_mem hm
    have hl := hat.length_eq
    have hp : (f, ad[i]'(by omega)) ∈ fs.zip ad := List.mem_iff_getElem.2 ⟨i, by simp; omega, by simp [e]⟩
    have hA := (List.forall₂_iff_zip.1 hat).2 hp
    obtain ⟨_, hF⟩ := hok f hm
    have hsp := c.sp.isLt
    refine at_called hc ho hb hA ⟨fun j hj => ?_, hss.trans hcs.symm, hL, by omega, hargs, by rw [hcs]; exact hval⟩ ?_ (hnd f hm) hF.fit hF.okl hF.ok hstk (fun d' hd => ?_) hex ⟨ρ1, .inr rfl⟩
    · rw [hcs, hmem _ (by rw [BitVec.toNat_ofNat]; omega)]
      exact hload j hj
    · rw [hip, ← hn, hA.addr]
    · rw [hcs]
      exact (ih d' hd).congr hmem

theorem Fines.fine {names : List (List Byte)} {m : Nat} : ∀ {fs : List Fn} {vis : List (List Byte)}, Fines names m vis fs → ∀ f ∈ fs, ∃ vis', Fine names m vis' f
  | _ :: _, _, h, f, hf => by
    rcases List.mem_cons.1 hf with rfl | hf
    · exact ⟨_, h.1⟩
    · exact h.2.fine f hf

theorem does {names : List (List Byte)} {A : Nat → Nat} {fs : List Fn} {ad : List (Nat × Nat)} {m : Nat} {f : Fn} {p : Nat × Nat} {s s' : S} (hc : s'.code = s.code) (ho : s'.out = s.out) (hb : s'.bss = 0)
    (hat : List.Forall₂ (At names A s.out s.code) fs ad) (hnd : ∀ f ∈ fs, (f.xs names).Nodup) (hok : ∀ f ∈ fs, ∃ vis, Fine names m vis f) (hf : f ∈ fs) (h : At names A s.out s.code f p) :
    Does names m fs (image s') f p.1 := by
  intro K c ρ ρ' L d r o hr hip hm hx hend
  obtain ⟨_, hF⟩ := hok f hf
  have := at_called hc ho hb h hr hip (hnd f hf) hF.fit hF.okl hF.ok hm (fun d' _ => calls_ok hc ho hb hat hnd hok K hr.load hr.below d') hx ⟨ρ', hend⟩
  rwa [Fn.xs, List.length_map] at this

end SccTop

namespace Props
open Prog Text Scc SccCode SccGen SccStm SccHead SccLayout SccTop Props.SccIds

/-- **C51** (partial): Let a file consist of definitions of functions whose type is `int` or `void`, whose parameters are of type `int` and whose bodies
consist of declarations `int x = e;` of local variables followed by the statements of C49, in any layout with comments; one of the functions is `_start`.  The compiler accepts the file.  If the program it
writes is loaded at 0x100 and the address of one of the functions is called, the function does what its statements say (`Does`, as in C49); if
the program is started at 0x100, `_start` does what its statements say, with BP zero (`Starts`).  The map file lists the addresses of the functions
and the end of the program.

The functions may call each other, also recursively: in `x = f(es);` with up to four arguments, if `f` has been defined before or is the function itself.  `d` is the number of calls that are active at
the same time; the stack must have room for them (`stackFor`).  What a local variable was before its declaration does not matter: its declaration is an assignment (`Fn.code`) and an expression that comes before cannot use
it (`OkL`).

Partial: as in C49 without the restriction on calls; calls of functions without a value and calls within expressions are not covered, local variables are only declared at the beginning of the body, one by one, with a value, and there are no global variables, declarations without a body, typedefs or
other types. -/
theorem C51_program_partial (src : List Byte) (fs : List Fn) (names : List (List Byte)) (m : Nat) (htext : Defs (builtins.map asc) src fs names) (hfine : Fines names m [] fs)
    (hnd : (fs.map Fn.name).Nodup) (hst : asc "_start" ∈ fs.map Fn.name) (hbss : ∀ f ∈ fs, f.name ≠ asc "_SBSS" ∧ f.name ≠ asc "_EBSS") (hroom : RoomI names) (hlen : ∀ f ∈ fs, fs.length + f.locs.length + 15 ≤ varDeclMax)
    (hsz : size fs + 5 ≤ outputMax) :
    ∃ (img : List Byte) (map : Array Byte) (ad : List Nat), (∃ N, ∀ n, N ≤ n → compile n src = .ok (img, map)) ∧ ad.length = fs.length ∧
      (∀ f a, (f, a) ∈ fs.zip ad → Does names m fs img f a) ∧ (∀ f ∈ fs, f.name = asc "_start" → SccTop.Starts names m fs img f) ∧
      map = ((List.zipWith (fun f a => line a f.name) fs ad).flatten ++ line (codeStart + img.length) (asc "_SBSS") ++ line (codeStart + img.length) (asc "_EBSS")).toArray := by
  have hfs : fs ≠ [] := by rintro rfl; simp at hst
  obtain ⟨s, e, g0, T, hop, htok, htx, hcode, hmap⟩ := prelude_ok htext hfs hroom
  obtain ⟨s1, ad, dec', A, ⟨N, g1⟩, T1, hd1, hc1, hat, _, hkeep, hm1⟩ := defs_ok (m := m) (A := fun _ => 0) (vis := []) hroom fs T (fun _ h => nomatch h) (by simp) hop htok htx hfine hnd (fun f hf => by
      obtain ⟨h1, h2⟩ := hbss f hf
      by_cases h : f.name = wStart
      · exact .inr ⟨h, rfl⟩
      · exact .inl (by simp [h, h1, h2])) (fun f hf => by have := hlen f hf; have : dec0.length = 3 := rfl; have : globalReserve = 4 := rfl; have : argsMax = 8 := rfl; omega) (by omega)
  rw [show (false || decide (wStart ∈ fs.map Fn.name)) = true by simpa using hst] at T1
  obtain ⟨s2, g2, c2, o2, b2, m2⟩ := finish_ok T1 hroom (by omega) (by obtain ⟨f, hf, _⟩ := List.mem_map.1 hst; have := hlen f hf; have : dec0.length = 3 := rfl; have : varDeclMax = 380 := rfl; omega)
  have hge : codeStart ≤ s2.code := by have := T1.ge; omega
  have hlen2 := image_length b2 hge
  have hl := hat.length_eq
  have hdoes : ∀ f p, (f, p) ∈ fs.zip ad → Does names m fs (image s2) f p.1 ∧ At names A s1.out s1.code f p := by
    intro f p hp
    have hA := (List.forall₂_iff_zip.1 hat).2 hp
    refine ⟨does c2 o2 b2 hat (fun f hf => ?_) hfine.fine (List.of_mem_zip hp).1 hA, hA⟩
    obtain ⟨_, F⟩ := hfine.fine f hf
    exact F.nodup.map_on fun p hp q hq h => num_inj (defs_mem htext f hf p hp) h
  refine ⟨image s2, s2.map, ad.map Prod.fst, ⟨N + fs.length + 1, fun n hn => ?_⟩, by rw [List.length_map, hl], fun f a hfa => ?_, fun f hf hn K c ρ ρ' L d r o hr hip hm hx hend => ?_, ?_⟩
  · have : program n (init src) = .ok () s2 := run_bind g0 (run_bind (g1 n (by omega) n (by omega)) g2)
    unfold compile
    rw [this]
  · rw [List.zip_map_right] at hfa
    obtain ⟨⟨g, p⟩, hp, he⟩ := List.mem_map.1 hfa
    cases he
    exact (hdoes _ _ hp).1
  · obtain ⟨i, hi, rfl⟩ := List.getElem_of_mem hf
    have hp : (fs[i], ad[i]'(by omega)) ∈ fs.zip ad := List.mem_iff_getElem.2 ⟨i, by simp; omega, by simp⟩
    obtain ⟨hD, hA⟩ := hdoes _ _ hp
    have hle := hA.end_le
    have hlt := hA.placed.lt
    refine (entry_run (q := s2.code) T1.bp.1 T1.bp.2 (hA.jumps hn) (by omega) K hip (o2 ▸ image_img b2 hr.load)).trans ?_
    rintro d ⟨cf, zf, sf, of, rfl⟩
    refine (hD K { c with ip := BitVec.ofNat 16 (ad[i]'(by omega)).1, bp := 0, cf := cf, zf := zf, sf := sf, of := of } ρ ρ' L d r o ⟨hr.load, hr.ss, hr.below, hr.stack, hr.args, hr.val⟩ rfl hm hx hend).mono fun d hd => ?_
    exact ⟨hd.ip, hd.sp, hd.bp, hd.cs, hd.ss, hd.ax, hd.mem⟩
  · rw [m2, hm1, hmap, hlen2, c2, List.zipWith_map_right]
    simp

/-- **C51**: A file without a function `_start` is refused. -/
theorem C51_no_start (src : List Byte) (fs : List Fn) (names : List (List Byte)) (m : Nat) (htext : Defs (builtins.map asc) src fs names) (hfine : Fines names m [] fs)
    (hnd : (fs.map Fn.name).Nodup) (hfs : fs ≠ []) (hst : asc "_start" ∉ fs.map Fn.name) (hbss : ∀ f ∈ fs, f.name ≠ asc "_SBSS" ∧ f.name ≠ asc "_EBSS") (hroom : RoomI names) (hlen : ∀ f ∈ fs, fs.length + f.locs.length + 15 ≤ varDeclMax)
    (hsz : size fs + 5 ≤ outputMax) : ∃ N, ∀ n, N ≤ n → compile n src = .error .fatal := by
  obtain ⟨s, e, g0, T, hop, htok, htx, hcode, hmap⟩ := prelude_ok htext hfs hroom
  obtain ⟨s1, ad, dec', A, ⟨N, g1⟩, T1, hd1, hc1, hat, _, hkeep, hm1⟩ := defs_ok (m := m) (A := fun _ => 0) (vis := []) hroom fs T (fun _ h => nomatch h) (by simp) hop htok htx hfine hnd (fun f hf => by
      obtain ⟨h1, h2⟩ := hbss f hf
      by_cases h : f.name = wStart
      · exact .inr ⟨h, rfl⟩
      · exact .inl (by simp [h, h1, h2])) (fun f hf => by have := hlen f hf; have : dec0.length = 3 := rfl; have : globalReserve = 4 := rfl; have : argsMax = 8 := rfl; omega) (by omega)
  rw [show (false || decide (wStart ∈ fs.map Fn.name)) = false by simpa using hst] at T1
  refine ⟨N + fs.length + 1, fun n hn => ?_⟩
  have : program n (init src) = .err .fatal := run_bind g0 (run_bind (g1 n (by omega) n (by omega)) (finish_no T1 hroom))
  unfold compile
  rw [this]

end Props
