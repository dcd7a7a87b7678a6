import Verif.Lib.File
import Verif.Props.Console
import Verif.I86.Lemmas
/-!
# C60: files and console of lib.h on any operating system
-/
namespace Props
open I86 I86.Cpu Lib Text

variable {σ : Type}

/-- `name` is a zero-terminated string at `a` in the data segment. -/
def NameAt (c : Cpu) (a : Word) (name : List Byte) : Prop :=
  (∀ i (h : i < name.length), c.rd8 c.ds (a + BitVec.ofNat 16 i) = name[i] ∧ name[i] ≠ 0) ∧
  c.rd8 c.ds (a + BitVec.ofNat 16 name.length) = 0

/-- `data` is at `a` in the data segment. -/
def DataAt (c : Cpu) (a : Word) (data : List Byte) : Prop :=
  ∀ i (h : i < data.length), c.rd8 c.ds (a + BitVec.ofNat 16 i) = data[i]

/-- Only the `n` bytes from `a` on in the data segment may differ. -/
def SameBut (c c' : Cpu) (a : Word) (n : Nat) : Prop :=
  c'.ds = c.ds ∧ ∀ p < 2 ^ 20, (∀ i < n, p ≠ c.ds.toNat * 16 + a.toNat + i) → c'.mem.get p = c.mem.get p

namespace LibFile

theorem succ_add (a : Word) (i : Nat) : a + 1 + BitVec.ofNat 16 i = a + BitVec.ofNat 16 (i + 1) := by
  rw [BitVec.add_assoc]
  congr 1
  apply BitVec.eq_of_toNat_eq
  rw [BitVec.toNat_add, BitVec.toNat_ofNat, BitVec.toNat_ofNat]
  show (1 + i % 65536) % 65536 = (i + 1) % 65536
  omega

theorem zero_add (a : Word) : a + BitVec.ofNat 16 0 = a := BitVec.add_zero a

theorem dos_open (O : OS σ) (c : Cpu) (w : σ) :
    ((hi c.ax).toNat = 0x3c → Cpu.dos O c w = Cpu.dos.openCall O c w true) ∧
    ((hi c.ax).toNat = 0x3d → Cpu.dos O c w = Cpu.dos.openCall O c w false) := by
  constructor <;> intro h <;> unfold Cpu.dos <;> rw [h] <;> rfl

theorem dos_close (O : OS σ) (c : Cpu) (w : σ) (h : (hi c.ax).toNat = 0x3e) :
    Cpu.dos O c w = .next { c with cf := some false } (O.closeFile w c.bx) := by
  unfold Cpu.dos; rw [h]; rfl

theorem dos_read (O : OS σ) (c : Cpu) (w : σ) (h : (hi c.ax).toNat = 0x3f) : Cpu.dos O c w =
    match O.readFile w c.bx c.cx.toNat with
    | (some data, w) =>
      if inSeg c.ds c.dx data.length then
        .next { c.store c.ds c.dx data with ax := BitVec.ofNat 16 data.length, cf := some false } w
      else .undef
    | (none, w) => .next { c with ax := 0, cf := some true } w := by
  unfold Cpu.dos; rw [h]; rfl

theorem dos_write (O : OS σ) (c : Cpu) (w : σ) (h : (hi c.ax).toNat = 0x40) : Cpu.dos O c w =
    if inSeg c.ds c.dx c.cx.toNat then
      match O.writeFile w c.bx (c.bytes c.ds c.cx.toNat c.dx) with
      | (some n, w) => .next { c with ax := n, cf := some false } w
      | (none, w) => .next { c with ax := 0, cf := some true } w
    else .undef := by
  unfold Cpu.dos; rw [h]; rfl

theorem dos_exit (O : OS σ) (c : Cpu) (w : σ) (h : (hi c.ax).toNat = 0x4c) : Cpu.dos O c w = .exit (lo c.ax) w := by
  unfold Cpu.dos; rw [h]; rfl

theorem asciiz_ok (c : Cpu) (seg : Word) (name : List Byte) (n : Nat) (a : Word) (hn : name.length < n)
    (h : ∀ i (h : i < name.length), c.rd8 seg (a + BitVec.ofNat 16 i) = name[i] ∧ name[i] ≠ 0)
    (h0 : c.rd8 seg (a + BitVec.ofNat 16 name.length) = 0) : c.asciiz seg n a = some name := by
  induction name generalizing n a with
  | nil =>
    obtain ⟨m, rfl⟩ : ∃ m, n = m + 1 := ⟨n - 1, by simp at hn; omega⟩
    have h0' : c.rd8 seg a = 0 := by rw [← zero_add a]; exact h0
    rw [asciiz, if_pos h0']
  | cons b t ih =>
    obtain ⟨m, rfl⟩ : ∃ m, n = m + 1 := ⟨n - 1, by simp at hn; omega⟩
    have hb := h 0 (by simp)
    rw [zero_add] at hb
    have hb1 : c.rd8 seg a = b := hb.1
    have hb2 : b ≠ 0 := hb.2
    rw [asciiz, hb1, if_neg hb2, ih m (a + 1) (by simp at hn; omega) ?_ ?_]
    · rfl
    · intro i hi
      rw [succ_add]
      exact h (i + 1) (by simp; omega)
    · rw [succ_add]; exact h0

theorem bytes_ok (c : Cpu) (seg : Word) (data : List Byte) (a : Word)
    (h : ∀ i (h : i < data.length), c.rd8 seg (a + BitVec.ofNat 16 i) = data[i]) : c.bytes seg data.length a = data := by
  induction data generalizing a with
  | nil => rfl
  | cons b t ih =>
    have hb := h 0 (by simp)
    rw [zero_add] at hb
    rw [List.length_cons, bytes, hb, ih (a + 1) fun i hi => by
      rw [succ_add]
      exact h (i + 1) (by simp; omega)]
    rfl

theorem store_ds (bs : List Byte) (c : Cpu) (seg off : Word) : (c.store seg off bs).ds = c.ds := by
  induction bs generalizing c off with
  | nil => rfl
  | cons b t ih => rw [store, ih]; rfl

theorem inSeg_tail {seg off : Word} {n : Nat} (h : inSeg seg off (n + 1)) :
    inSeg seg (off + 1) n ∧ lin seg off = seg.toNat * 16 + off.toNat ∧ (0 < n → (off + 1).toNat = off.toNat + 1) := by
  obtain ⟨h1, h2⟩ := h
  have e : (off + 1).toNat = (off.toNat + 1) % 65536 := by rw [BitVec.toNat_add]; rfl
  have := seg.isLt
  refine ⟨⟨by omega, by omega⟩, ?_, fun _ => by omega⟩
  unfold lin
  omega

theorem store_other (bs : List Byte) (c : Cpu) (seg off : Word) (h : inSeg seg off bs.length) (p : Nat) (hp : p < 2 ^ 20)
    (hne : ∀ i < bs.length, p ≠ seg.toNat * 16 + off.toNat + i) : (c.store seg off bs).mem.get p = c.mem.get p := by
  induction bs generalizing c off with
  | nil => rfl
  | cons b t ih =>
    obtain ⟨h1, h2, h3⟩ := inSeg_tail h
    rw [store, ih _ _ h1 ?_, get_wr8_ne c b hp]
    · rw [h2]; exact hne 0 (by simp)
    · intro i hi
      rw [h3 (by omega)]
      have := hne (i + 1) (by simp; omega)
      omega

theorem store_data (bs : List Byte) (c : Cpu) (seg off : Word) (h : inSeg seg off bs.length) (i : Nat) (hi : i < bs.length) :
    (c.store seg off bs).rd8 seg (off + BitVec.ofNat 16 i) = bs[i] := by
  induction bs generalizing c off i with
  | nil => cases hi
  | cons b t ih =>
    obtain ⟨h1, h2, h3⟩ := inSeg_tail h
    cases i with
    | zero =>
      rw [zero_add, store]
      show ((c.wr8 seg off b).store seg (off + 1) t).mem.get (lin seg off) = b
      rw [store_other t _ _ _ h1 _ (lin_lt _ _) fun j hj => by rw [h2, h3 (by omega)]; omega]
      exact rd8_wr8_self c seg off b
    | succ i =>
      rw [← succ_add, store]
      exact ih _ _ h1 i (by simpa using hi)

end LibFile
open LibFile

/-- `open` asks for the file with the name given, to be created exactly if `flags` is not 0, and returns the handle, or −1 if
there is none.  Memory does not change. -/
theorem C60_open (O : OS σ) (c : Cpu) (w : σ) (filename flags : Word) (name : List Byte) (hn : NameAt c filename name)
    (hl : name.length ≤ 63) :
    ∃ c', openF O c w filename flags =
        .ret ((O.openFile w name (decide (flags ≠ 0))).1.getD (-1)) c' (O.openFile w name (decide (flags ≠ 0))).2 ∧
      SameBut c c' filename 0 := by
  have key : ∀ f : Word, asciiz { c with ax := f, bx := 0, cx := 0, dx := filename } c.ds 64 filename = some name := fun f =>
    asciiz_ok _ c.ds name 64 filename (by omega) hn.1 hn.2
  unfold openF callDos
  by_cases h : flags = 0
  · rw [if_neg (by simpa using h), show decide (flags ≠ 0) = false by simpa using h]
    have e : Cpu.dos O { c with ax := 0x3d00, bx := 0, cx := 0, dx := filename } w =
        Cpu.dos.openCall O { c with ax := 0x3d00, bx := 0, cx := 0, dx := filename } w false := (dos_open O _ w).2 (by show (hi (0x3d00 : Word)).toNat = _; decide)
    simp only [e, Cpu.dos.openCall, key]
    cases hO : O.openFile w name false with
    | mk r w' => cases r <;> exact ⟨_, rfl, rfl, fun _ _ _ => rfl⟩
  · rw [if_pos h, show decide (flags ≠ 0) = true by simpa using h]
    have e : Cpu.dos O { c with ax := 0x3c00, bx := 0, cx := 0, dx := filename } w =
        Cpu.dos.openCall O { c with ax := 0x3c00, bx := 0, cx := 0, dx := filename } w true := (dos_open O _ w).1 (by show (hi (0x3c00 : Word)).toNat = _; decide)
    simp only [e, Cpu.dos.openCall, key]
    cases hO : O.openFile w name true with
    | mk r w' => cases r <;> exact ⟨_, rfl, rfl, fun _ _ _ => rfl⟩

/-- `close` closes the file. -/
theorem C60_close (O : OS σ) (c : Cpu) (w : σ) (fd : Word) :
    ∃ c', closeF O c w fd = .ret 0 c' (O.closeFile w fd) ∧ SameBut c c' 0 0 := by
  refine ⟨{ c with ax := 0x3e00, bx := fd, cx := 0, dx := 0, cf := some false }, ?_, rfl, fun _ _ _ => rfl⟩
  rw [closeF, callDos, dos_close O _ w (by show (hi (0x3e00 : Word)).toNat = _; decide)]

/-- `read` puts what the operating system delivers into the buffer, changes nothing else, and returns the number of bytes. -/
theorem C60_read (O : OS σ) (c : Cpu) (w w' : σ) (fd buf count : Word) (data : List Byte)
    (hr : O.readFile w fd count.toNat = (some data, w')) (hb : inSeg c.ds buf data.length) :
    ∃ c', readF O c w fd buf count = .ret (BitVec.ofNat 16 data.length) c' w' ∧ DataAt c' buf data ∧
      SameBut c c' buf data.length := by
  let c0 : Cpu := { c with ax := 0x3f00, bx := fd, cx := count, dx := buf }
  refine ⟨{ c0.store c.ds buf data with ax := BitVec.ofNat 16 data.length, cf := some false }, ?_, fun i hi => ?_, ?_⟩
  · have e : Cpu.dos O c0 w = .next { c0.store c.ds buf data with ax := BitVec.ofNat 16 data.length, cf := some false } w' := by
      rw [dos_read O c0 w (by show (hi (0x3f00 : Word)).toNat = _; decide)]
      show (match O.readFile w fd count.toNat with | (some data, w) => _ | (none, w) => _) = _
      rw [hr]
      simp only
      rw [if_pos hb]
    unfold readF callDos
    simp only
    rw [show Cpu.dos O { c with ax := 0x3f00, bx := fd, cx := count, dx := buf } w = _ from e]
    rfl
  · have hd := store_ds data c0 c.ds buf
    have := store_data data c0 c.ds buf hb i hi
    show (c0.store c.ds buf data).rd8 (c0.store c.ds buf data).ds _ = _
    rw [hd]
    exact this
  · exact ⟨store_ds data c0 c.ds buf, fun p hp h => store_other data c0 c.ds buf hb p hp h⟩

/-- After an error `read` returns 0, as at the end of the file. -/
theorem C60_read_error (O : OS σ) (c : Cpu) (w w' : σ) (fd buf count : Word)
    (hr : O.readFile w fd count.toNat = (none, w')) :
    ∃ c', readF O c w fd buf count = .ret 0 c' w' ∧ SameBut c c' buf 0 := by
  let c0 : Cpu := { c with ax := 0x3f00, bx := fd, cx := count, dx := buf }
  refine ⟨{ c0 with ax := 0, cf := some true }, ?_, rfl, fun _ _ _ => rfl⟩
  have e : Cpu.dos O c0 w = .next { c0 with ax := 0, cf := some true } w' := by
    rw [dos_read O c0 w (by show (hi (0x3f00 : Word)).toNat = _; decide)]
    show (match O.readFile w fd count.toNat with | (some data, w) => _ | (none, w) => _) = _
    rw [hr]
  unfold readF callDos
  simp only
  rw [show Cpu.dos O { c with ax := 0x3f00, bx := fd, cx := count, dx := buf } w = _ from e]
  rfl

/-- `write` writes the bytes of the buffer and returns the number of bytes written, 0 after an error. -/
theorem C60_write (O : OS σ) (c : Cpu) (w : σ) (fd buf : Word) (data : List Byte) (hd : DataAt c buf data)
    (hl : data.length < 65536) (hb : inSeg c.ds buf data.length) :
    ∃ c', writeF O c w fd buf (BitVec.ofNat 16 data.length) =
        .ret ((O.writeFile w fd data).1.getD 0) c' (O.writeFile w fd data).2 ∧ SameBut c c' buf 0 := by
  have hn : (BitVec.ofNat 16 data.length).toNat = data.length := by rw [BitVec.toNat_ofNat]; omega
  obtain ⟨c0, hc0⟩ : ∃ c0 : Cpu, c0 = { c with ax := 0x4000, bx := fd, cx := BitVec.ofNat 16 data.length, dx := buf } := ⟨_, rfl⟩
  have hbytes : c0.bytes c.ds data.length buf = data := bytes_ok c0 c.ds data buf (by rw [hc0]; exact hd)
  have e : Cpu.dos O c0 w = (match O.writeFile w fd data with
      | (some n, w) => SysOut.next { c0 with ax := n, cf := some false } w
      | (none, w) => .next { c0 with ax := 0, cf := some true } w) := by
    have h1 : c0.ds = c.ds ∧ c0.dx = buf ∧ c0.cx = BitVec.ofNat 16 data.length ∧ c0.bx = fd := by rw [hc0]; exact ⟨rfl, rfl, rfl, rfl⟩
    rw [dos_write O c0 w (by rw [hc0]; show (hi (0x4000 : Word)).toNat = _; decide), h1.1, h1.2.1, h1.2.2.1, h1.2.2.2, hn, if_pos hb, hbytes]
  have e2 : writeF O c w fd buf (BitVec.ofNat 16 data.length) = (match Cpu.dos O c0 w with
      | .next c w => check 0 c.cf c.ax c w
      | .exit code w => .exit code w
      | .undef => .undef) := by rw [hc0]; rfl
  rw [e2, e]
  cases hO : O.writeFile w fd data with
  | mk r w' =>
    cases r with
    | none => exact ⟨{ c0 with ax := 0, cf := some true }, rfl, by rw [hc0], fun _ _ _ => by rw [hc0]⟩
    | some n => exact ⟨{ c0 with ax := n, cf := some false }, rfl, by rw [hc0], fun _ _ _ => by rw [hc0]⟩

/-- The calls of C59 make the operating system put exactly the bytes shown on the console, in order. -/
theorem C60_console (O : OS σ) (cs : List Call) (h : OnlyOutput cs) (c : Cpu) (w : σ) :
    ∃ c', runCalls O cs c w = .ret 0 c' ((shown cs).foldl O.putChar w) ∧ SameBut c c' 0 0 := by
  induction cs generalizing c w with
  | nil => exact ⟨c, rfl, rfl, fun _ _ _ => rfl⟩
  | cons a t ih =>
    have ha := h a (List.mem_cons_self ..)
    obtain ⟨c1, hc1⟩ : ∃ c1 : Cpu, c1 = { c with ax := a.ax, bx := a.bx, cx := a.cx, dx := a.dx } := ⟨_, rfl⟩
    obtain ⟨c', h1, h2, h3⟩ := ih (fun x hx => h x (List.mem_cons_of_mem _ hx)) c1 (O.putChar w (a.dx.setWidth 8))
    have hi2 : (hi a.ax).toNat = 2 := by
      have := a.ax.isLt
      unfold hi
      rw [BitVec.extractLsb'_toNat, Nat.shiftRight_eq_div_pow]
      omega
    have e : Cpu.dos O c1 w = .next c1 (O.putChar w (a.dx.setWidth 8)) := by
      rw [hc1]
      unfold Cpu.dos
      simp only [hi2]
      rfl
    refine ⟨c', ?_, by rw [h2, hc1], fun p hp hq => ?_⟩
    · rw [runCalls, callDos, ← hc1, e]
      simp only
      rw [h1]
      simp [shown, ha]
    · rw [h3 p hp (fun i hi => absurd hi (Nat.not_lt_zero _)), hc1]

/-- A failed `assert` on any operating system: the text of C59 appears, then the program ends with code 1. -/
theorem C60_assert (O : OS σ) (strAt : Word → List Byte) (rd : Word → Word) (bp : Word) (fs : List (Word × Word))
    (hf : Frames rd bp fs) (fuel : Nat) (h : fs.length < fuel) (c : Cpu) (w : σ) :
    ∃ cs, Lib.assert strAt rd fuel 0 bp = some cs ∧ runCalls O cs c w = .exit 1
      ((crlf ("Assertion failed\n\nBP   Return address\n".toList.map chr ++ fs.flatMap frameLine)).foldl O.putChar w) := by
  obtain ⟨cs, h1, h2, h3⟩ := C59_assert strAt rd bp fs hf fuel h
  refine ⟨_, h1, ?_⟩
  have app : ∀ (as bs : List Call) (c : Cpu) (w : σ), OnlyOutput as → ∃ c', runCalls O (as ++ bs) c w =
      runCalls O bs c' ((shown as).foldl O.putChar w) := by
    intro as bs
    induction as with
    | nil => exact fun c w _ => ⟨c, rfl⟩
    | cons a t ih =>
      intro c w ho
      have ha := ho a (List.mem_cons_self ..)
      have hi2 : (hi a.ax).toNat = 2 := by
        have := a.ax.isLt
        unfold hi
        rw [BitVec.extractLsb'_toNat, Nat.shiftRight_eq_div_pow]
        omega
      obtain ⟨c1, hc1⟩ : ∃ c1 : Cpu, c1 = { c with ax := a.ax, bx := a.bx, cx := a.cx, dx := a.dx } := ⟨_, rfl⟩
      have e : Cpu.dos O c1 w = .next c1 (O.putChar w (a.dx.setWidth 8)) := by
        rw [hc1]
        unfold Cpu.dos
        simp only [hi2]
        rfl
      obtain ⟨c', h'⟩ := ih c1 (O.putChar w (a.dx.setWidth 8)) fun x hx => ho x (List.mem_cons_of_mem _ hx)
      refine ⟨c', ?_⟩
      rw [List.cons_append, runCalls, callDos, ← hc1, e]
      simp only
      rw [h']
      simp [shown, ha]
  obtain ⟨c', h'⟩ := app cs [exit 1] c w h2
  rw [h', h3, runCalls, callDos, dos_exit O _ _ (by show (hi (exit 1).ax).toNat = _; decide)]
  show Ret.exit (lo (exit 1).ax) _ = _
  rw [show lo (exit 1).ax = 1 by decide]

/-! ## Examples: cases meeting the hypotheses -/

/-- An operating system whose state is what was written; there is one file, `A`, with the bytes 1, 2, 3. -/
def oneFile : OS (List Byte) where
  openFile w name _ := (if name = [chr 'A'] then some 5 else none, w)
  closeFile w _ := w
  readFile w h n := (if h = 5 then some ([1, 2, 3].take n) else none, w)
  writeFile w _ data := (some (BitVec.ofNat 16 data.length), w ++ data)
  putChar w b := w ++ [b]

/-- A processor with `data` at 2000:0300. -/
def withData (data : List Byte) : Cpu :=
  let z : Cpu := ⟨0, 0, 0, 0, 0, 0, 0, 0, 0x2000, 0x2000, 0x2000, 0x2000, 0x100, some false, none, none, none, Mem.const 0 20⟩
  z.store 0x2000 0x300 data

example : ∃ c', openF oneFile (withData [chr 'A', 0]) [] 0x300 0 = .ret 5 c' [] := by
  obtain ⟨c', h, _⟩ := C60_open oneFile (withData [chr 'A', 0]) [] 0x300 0 [chr 'A']
    ⟨by decide +kernel, by decide +kernel⟩ (by decide)
  exact ⟨c', h⟩

example : ∃ c', readF oneFile (withData []) [] 5 0x300 2 = .ret 2 c' [] ∧ DataAt c' 0x300 [1, 2] := by
  obtain ⟨c', h, h', _⟩ := C60_read oneFile (withData []) [] [] 5 0x300 2 [1, 2] rfl (by decide +kernel)
  exact ⟨c', h, h'⟩

example : ∃ c', readF oneFile (withData []) [] 6 0x300 2 = .ret 0 c' [] := by
  obtain ⟨c', h, _⟩ := C60_read_error oneFile (withData []) [] [] 6 0x300 2 rfl
  exact ⟨c', h⟩

example : ∃ c', writeF oneFile (withData [7, 8]) [] 5 0x300 2 = .ret 2 c' [7, 8] := by
  obtain ⟨c', h, _⟩ := C60_write oneFile (withData [7, 8]) [] 5 0x300 [7, 8] (by unfold DataAt; decide +kernel) (by decide) (by decide +kernel)
  exact ⟨c', h⟩

example (c : Cpu) : ∃ c', runCalls oneFile (putchar 0x0a) c [] = .ret 0 c' [0x0d, 0x0a] := by
  obtain ⟨c', h, _⟩ := C60_console oneFile (putchar 0x0a) (by unfold OnlyOutput; decide) c []
  exact ⟨c', h⟩

end Props
