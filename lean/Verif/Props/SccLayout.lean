import Verif.Props.SccFix
/-!
# Layout of code with labels (C36): the invariant

The pieces of code of a function, in the order of their addresses, and what is known of the bytes of each of them while some labels are still
undefined.
-/
namespace SccLayout
open Prog Scc SccCode SccGen SccJump SccFix

/-- What the rest of the compiler asks for. -/
inductive Item
  /-- Bytes of instructions or data. -/
  | raw (bs : List Byte)
  /-- Bytes of instructions at the address `p`, on which they depend. -/
  | pos (p : Nat) (bs : List Byte)
  /-- A jump to the label. -/
  | jmp (l : Nat)
  /-- A jump to the label under the condition. -/
  | jcc (cc l : Nat)
  /-- The label is here. -/
  | lab (l : Nat)

/-- The label an item refers to. -/
def Item.to : Item → Option Nat
  | .jmp l | .jcc _ l => some l
  | _ => none

/-- An item and its place. -/
structure Chunk where
  item : Item
  pos : Nat
  len : Nat

/-- The chunks (last one first) fill the addresses from `a` to `e`. -/
def Tile (a : Nat) : List Chunk → Nat → Prop
  | [], e => e = a
  | c :: cs, e => e = c.pos + c.len ∧ Tile a cs c.pos

/-- The address of the last label. -/
def lastLab : List Chunk → Option Nat
  | [] => none
  | ⟨.lab _, p, _⟩ :: _ => some p
  | _ :: cs => lastLab cs

/-- The last thing emitted, apart from labels and jumps, is a conditional jump. -/
def afterJcc : List Item → Bool
  | .jcc .. :: _ => true
  | .lab _ :: its | .jmp _ :: its => afterJcc its
  | _ => false

/-- The last thing emitted is a jump. -/
def afterJmp : List Item → Bool
  | .jmp _ :: _ => true
  | _ => false

/-- The bytes do not begin with a short jump; if they begin with `POP BP`, `RET` follows. -/
def Starts (bs : List Byte) : Prop := ∃ b t, bs = b :: t ∧ b ≠ 0xEB ∧ (b = 0x5D → ∃ t', t = 0xC3 :: t')

/-- Pieces of code after conditional jumps begin with an instruction. -/
def StartsOk : List Item → Prop
  | [] => True
  | .raw bs :: its => (afterJcc its = true → Starts bs) ∧ StartsOk its
  | _ :: its => StartsOk its

/-- A reference to a label that is not yet defined. -/
def Pend (m : Mem 15) : Chunk → Prop
  | ⟨.jmp _, p, n⟩ => n = 3 ∧ B m p = 0xE9
  | ⟨.jcc cc _, p, n⟩ => n = 5 ∧ cc < 16 ∧ B m p = nb (0x70 ||| (cc ^^^ 1)) ∧ B m (p + 1) = 3 ∧ B m (p + 2) = 0
  | _ => True

/-- What follows the conditional jump of a site of five bytes: three bytes without effect, or a copy of the next item. -/
def Copy (m : Mem 15) (L : Nat → Nat) (cs : List Chunk) (p : Nat) : Prop :=
  B m (p + 4) = 0x90 ∧
  (B m (p + 2) = 0x88 ∧ B m (p + 3) = 0xC0 ∨
   (∃ l n, ⟨.jmp l, p + 5, n⟩ ∈ cs ∧ n ≠ 0 ∧ L l ≠ 0 ∧ Short m (p + 2) (L l)) ∨
   B m (p + 2) = 0x5D ∧ B m (p + 3) = 0xC3 ∧ ∃ t n, ⟨.raw (0x5D :: 0xC3 :: t), p + 5, n⟩ ∈ cs)

/-- A reference to a label that is defined; `L l` is the address of `l`. -/
def Lands (m : Mem 15) (L : Nat → Nat) (cs : List Chunk) : Chunk → Prop
  | ⟨.jmp l, p, n⟩ => n = 0 ∧ L l = p ∨ (n = 2 ∨ n = 3) ∧ Short m p (L l) ∨ n = 3 ∧ Long m p (L l)
  | ⟨.jcc cc l, p, n⟩ => cc < 16 ∧ (n = 2 ∧ CondAt m cc p (L l) ∨ n = 5 ∧
      (B m p = nb (0x70 ||| (cc ^^^ 1)) ∧ B m (p + 1) = 3 ∧ (Short m (p + 2) (L l) ∨ Long m (p + 2) (L l)) ∨ CondAt m cc p (L l) ∧ Copy m L cs p))
  | _ => True

/-- The bytes and labels that do not depend on other items. -/
def Plain (m : Mem 15) (L : Nat → Nat) : Chunk → Prop
  | ⟨.raw bs, p, n⟩ => n = bs.length ∧ bs ≠ [] ∧ ∀ i (h : i < bs.length), B m (p + i) = bs[i]
  | ⟨.pos q bs, p, n⟩ => q = p ∧ n = bs.length ∧ (∃ b t, bs = b :: t ∧ b ≠ 0xEB ∧ b ≠ 0x5D) ∧ ∀ i (h : i < bs.length), B m (p + i) = bs[i]
  | ⟨.lab l, p, n⟩ => n = 0 ∧ L l = p
  | _ => True

/-- The list of references in the output: `r` is the address of the last one, `cs` are their chunks. -/
def Chain (m : Mem 15) : Nat → List Chunk → Prop
  | r, [] => r = 0
  | r, c :: cs => r = c.pos + c.len - 2 ∧ Chain m (nextRef m r) cs

/-- The addresses of the labels. -/
def adr (s : S) (l : Nat) : Nat := if l < 2 ^ 9 then (s.labels.get l).addr else 0

theorem adr_eq {s : S} {l : Nat} (hl : l < s.labelCount) (hm : s.labelCount ≤ labelMax) : adr s l = (s.labels.get l).addr := by
  have : labelMax < 2 ^ 9 := by decide
  exact if_pos (by omega)

/-- The references to `l`. -/
def refs (l : Nat) (cs : List Chunk) : List Chunk := cs.filter fun c => c.item.to = some l

/-- The invariant. -/
structure Inv (a : Nat) (cs : List Chunk) (s : S) : Prop where
  tile : Tile a cs s.code
  ge : codeStart ≤ a
  le : s.code ≤ codeStart + outputMax
  plain : ∀ c ∈ cs, Plain s.out (adr s) c
  labs : ∀ c ∈ cs, ∀ l, c.item = .lab l → l < s.labelCount
  site : ∀ c ∈ cs, ∀ l, c.item.to = some l → l < s.labelCount ∧ (adr s l = 0 → Pend s.out c) ∧ (adr s l ≠ 0 → Lands s.out (adr s) cs c)
  chain : ∀ l, l < s.labelCount → adr s l = 0 → Chain s.out (s.labels.get l).ref (refs l cs)
  fix : ∀ p, lastLab cs = some p → s.lastFixup = p
  starts : StartsOk (cs.map Chunk.item)
  jj : afterJmp (cs.map Chunk.item) = true → afterJmp (cs.map Chunk.item).tail = false
  nz : ∀ c pre l, cs = c :: pre → c.item = .jmp l → c.len ≠ 0
  count : s.labelCount ≤ labelMax
  has : ∀ l, l < s.labelCount → adr s l ≠ 0 → ⟨.lab l, adr s l, 0⟩ ∈ cs

/-! ## Tiles -/

theorem Tile.le {a e : Nat} {cs : List Chunk} (h : Tile a cs e) : a ≤ e := by
  induction cs generalizing e with
  | nil => exact Nat.le_of_eq h.symm
  | cons c cs ih => have := ih h.2; have := h.1; omega

theorem Tile.mem {a e : Nat} {cs : List Chunk} (h : Tile a cs e) {c : Chunk} (hc : c ∈ cs) : a ≤ c.pos ∧ c.pos + c.len ≤ e := by
  induction cs generalizing e with
  | nil => cases hc
  | cons d cs ih =>
    rcases List.mem_cons.1 hc with rfl | hc
    · exact ⟨h.2.le, Nat.le_of_eq h.1.symm⟩
    · have := ih h.2 hc; have := h.1; omega

/-- Two chunks do not overlap. -/
theorem Tile.apart {a e : Nat} {cs : List Chunk} (h : Tile a cs e) {c d : Chunk} (hc : c ∈ cs) (hd : d ∈ cs) :
    c = d ∨ c.pos + c.len ≤ d.pos ∨ d.pos + d.len ≤ c.pos := by
  induction cs generalizing e with
  | nil => cases hc
  | cons x cs ih =>
    rcases List.mem_cons.1 hc with rfl | hc'
    · rcases List.mem_cons.1 hd with rfl | hd'
      · exact .inl rfl
      · exact .inr (.inr (h.2.mem hd').2)
    · rcases List.mem_cons.1 hd with rfl | hd'
      · exact .inr (.inl (h.2.mem hc').2)
      · exact ih h.2 hc' hd'

theorem Tile.split {a e : Nat} {post pre : List Chunk} (h : Tile a (post ++ pre) e) : ∃ x, Tile a pre x ∧ Tile x post e := by
  induction post generalizing e with
  | nil => exact ⟨e, h, rfl⟩
  | cons c post ih =>
    obtain ⟨x, h1, h2⟩ := ih h.2
    exact ⟨x, h1, h.1, h2⟩

/-- Behind the end of the chunks `pre` comes a chunk with bytes, if there are bytes. -/
theorem Tile.next {x e : Nat} {post : List Chunk} (h : Tile x post e) (hlt : x < e) :
    ∃ p2 c zs, post = p2 ++ c :: zs ∧ c.pos = x ∧ c.len ≠ 0 ∧ ∀ z ∈ zs, z.len = 0 := by
  induction post generalizing e with
  | nil => have : e = x := h; omega
  | cons d post ih =>
    obtain ⟨h1, h2⟩ := h
    by_cases hx : x < d.pos
    · obtain ⟨p2, c, zs, e1, e2, e3, e4⟩ := ih h2 hx
      exact ⟨d :: p2, c, zs, by rw [e1]; rfl, e2, e3, e4⟩
    · have h3 := h2.le
      have hdx : d.pos = x := by omega
      refine ⟨[], d, post, rfl, hdx, by omega, fun z hz => ?_⟩
      have := h2.mem hz
      omega

/-- The chunk at the end. -/
theorem Tile.last {a e : Nat} {cs : List Chunk} (h : Tile a cs e) {c : Chunk} (hc : c ∈ cs) (he : c.pos + c.len = e) :
    ∃ zs pre, cs = zs ++ c :: pre ∧ ∀ z ∈ zs, z.len = 0 ∧ z.pos = e := by
  induction cs with
  | nil => cases hc
  | cons d cs ih =>
    rcases List.mem_cons.1 hc with rfl | hc'
    · exact ⟨[], cs, rfl, fun z hz => by cases hz⟩
    · obtain ⟨h1, h2⟩ := h
      have := h2.mem hc'
      have hd0 : d.len = 0 := by omega
      have hdp : d.pos = e := by omega
      obtain ⟨zs, pre, e1, e2⟩ := ih (by rw [hdp] at h2; exact h2) hc'
      refine ⟨d :: zs, pre, by rw [e1]; rfl, fun z hz => ?_⟩
      rcases List.mem_cons.1 hz with rfl | hz
      · exact ⟨hd0, hdp⟩
      · exact e2 z hz

/-! ## Dependence on the bytes -/

/-- The bytes of the chunk are the same. -/
def Eqv (m m' : Mem 15) (c : Chunk) : Prop := ∀ a, c.pos ≤ a → a < c.pos + c.len → B m' a = B m a

theorem Short.congr {m m' : Mem 15} {p a : Nat} (h : Short m p a) (h0 : B m' p = B m p) (h1 : B m' (p + 1) = B m (p + 1)) : Short m' p a := by
  unfold Short; rw [h0, h1]; exact h

theorem Long.congr {m m' : Mem 15} {p a : Nat} (h : Long m p a) (h0 : B m' p = B m p) (h1 : B m' (p + 1) = B m (p + 1)) (h2 : B m' (p + 2) = B m (p + 2)) :
    Long m' p a := by
  unfold Long; rw [h0, h1, h2]; exact h

theorem CondAt.congr {m m' : Mem 15} {cc p a : Nat} (h : CondAt m cc p a) (h0 : B m' p = B m p) (h1 : B m' (p + 1) = B m (p + 1)) : CondAt m' cc p a := by
  unfold CondAt; rw [h0, h1]; exact h

theorem Pend.congr {m m' : Mem 15} {c : Chunk} (h : Pend m c) (he : Eqv m m' c) : Pend m' c := by
  obtain ⟨it, p, n⟩ := c
  cases it with
  | raw bs => trivial
  | pos q bs => trivial
  | lab l => trivial
  | jmp l =>
    obtain ⟨rfl, h1⟩ := h
    exact ⟨rfl, by rw [he p (by simp) (by simp)]; exact h1⟩
  | jcc cc l =>
    obtain ⟨rfl, hc, h1, h2, h3⟩ := h
    exact ⟨rfl, hc, by rw [he p (by simp) (by simp)]; exact h1, by rw [he (p + 1) (by simp) (by simp)]; exact h2,
      by rw [he (p + 2) (by simp) (by simp)]; exact h3⟩

theorem Plain.congr {m m' : Mem 15} {L L' : Nat → Nat} {c : Chunk} (h : Plain m L c) (he : Eqv m m' c) (hL : ∀ l, c.item = .lab l → L' l = L l) : Plain m' L' c := by
  obtain ⟨it, p, n⟩ := c
  cases it with
  | raw bs =>
    obtain ⟨rfl, h0, h1⟩ := h
    exact ⟨rfl, h0, fun i hi => by rw [he (p + i) (by simp) (by simp; omega)]; exact h1 i hi⟩
  | pos q bs =>
    obtain ⟨rfl, rfl, h0, h1⟩ := h
    exact ⟨rfl, rfl, h0, fun i hi => by rw [he (q + i) (by simp) (by simp; omega)]; exact h1 i hi⟩
  | lab l => exact ⟨h.1, by rw [hL l rfl]; exact h.2⟩
  | jmp l => trivial
  | jcc cc l => trivial

theorem Lands.congr {m m' : Mem 15} {L L' : Nat → Nat} {cs cs' : List Chunk} {c : Chunk} (h : Lands m L cs c) (he : Eqv m m' c)
    (hL : ∀ l, L l ≠ 0 → L' l = L l) (hto : ∀ l, c.item.to = some l → L' l = L l)
    (hcs : ∀ d ∈ cs, d.len ≠ 0 → (∀ l, d.item = .jmp l → L l ≠ 0) → d ∈ cs') (hl : ∀ bs p n, ⟨.raw bs, p, n⟩ ∈ cs → ⟨.raw bs, p, n⟩ ∈ cs') : Lands m' L' cs' c := by
  obtain ⟨it, p, n⟩ := c
  cases it with
  | raw bs => trivial
  | pos q bs => trivial
  | lab l => trivial
  | jmp l =>
    have hl' := hto l rfl
    show n = 0 ∧ L' l = p ∨ (n = 2 ∨ n = 3) ∧ Short m' p (L' l) ∨ n = 3 ∧ Long m' p (L' l)
    rw [hl']
    rcases h with h | ⟨hn, h⟩ | ⟨rfl, h⟩
    · exact .inl h
    · exact .inr (.inl ⟨hn, Short.congr h (he p (by simp) (by show p < p + n; omega)) (he (p + 1) (by simp) (by show p + 1 < p + n; omega))⟩)
    · exact .inr (.inr ⟨rfl, Long.congr h (he p (by simp) (by simp)) (he (p + 1) (by simp) (by simp)) (he (p + 2) (by simp) (by simp))⟩)
  | jcc cc l =>
    have hl' := hto l rfl
    obtain ⟨hcc, h⟩ := h
    refine ⟨hcc, ?_⟩
    rw [hl']
    rcases h with ⟨rfl, h⟩ | ⟨rfl, h⟩
    · exact .inl ⟨rfl, CondAt.congr h (he p (by simp) (by simp)) (he (p + 1) (by simp) (by simp))⟩
    · have hb : ∀ k, k < 5 → B m' (p + k) = B m (p + k) := fun k hk => he (p + k) (by simp) (by simp; omega)
      refine .inr ⟨rfl, ?_⟩
      rcases h with ⟨h1, h2, h3⟩ | ⟨h1, h2, h3⟩
      · refine .inl ⟨(hb 0 (by omega)).trans h1, by rw [hb 1 (by omega)]; exact h2, ?_⟩
        rcases h3 with h3 | h3
        · exact .inl (Short.congr h3 (hb 2 (by omega)) (hb 3 (by omega)))
        · exact .inr (Long.congr h3 (hb 2 (by omega)) (hb 3 (by omega)) (hb 4 (by omega)))
      · refine .inr ⟨CondAt.congr h1 (hb 0 (by omega)) (hb 1 (by omega)), by rw [hb 4 (by omega)]; exact h2, ?_⟩
        rcases h3 with h3 | ⟨l', n', hm, hn, hne, hs⟩ | ⟨x1, x2, t, n', hm⟩
        · exact .inl (by rw [hb 2 (by omega), hb 3 (by omega)]; exact h3)
        · refine .inr (.inl ⟨l', n', hcs _ hm hn (fun l'' e => ?_), hn, ?_, ?_⟩)
          · cases e; exact hne
          · rw [hL l' hne]; exact hne
          · rw [hL l' hne]; exact Short.congr hs (hb 2 (by omega)) (hb 3 (by omega))
        · exact .inr (.inr ⟨by rw [hb 2 (by omega)]; exact x1, by rw [hb 3 (by omega)]; exact x2, t, n', hl _ _ _ hm⟩)

theorem Chain.congr {m m' : Mem 15} {cs : List Chunk} {r : Nat} (h : Chain m r cs)
    (he : ∀ c ∈ cs, B m' (c.pos + c.len - 2) = B m (c.pos + c.len - 2) ∧ B m' (c.pos + c.len - 2 + 1) = B m (c.pos + c.len - 2 + 1)) : Chain m' r cs := by
  induction cs generalizing r with
  | nil => exact h
  | cons c cs ih =>
    obtain ⟨h1, h2⟩ := h
    refine ⟨h1, ?_⟩
    have hn : nextRef m' r = nextRef m r := by
      unfold nextRef
      rw [h1, (he c (List.mem_cons_self ..)).1, (he c (List.mem_cons_self ..)).2]
    rw [hn]
    exact ih h2 fun d hd => he d (List.mem_cons_of_mem _ hd)

theorem StartsOk.get {post pre : List Item} {bs : List Byte} (h : StartsOk (post ++ .raw bs :: pre)) (ha : afterJcc pre = true) : Starts bs := by
  induction post with
  | nil => exact h.1 ha
  | cons it post ih =>
    cases it with
    | raw _ => exact ih h.2
    | pos _ _ => exact ih h
    | jmp _ => exact ih h
    | jcc _ _ => exact ih h
    | lab _ => exact ih h

/-! ## The references to a label -/

theorem mem_refs {l : Nat} {cs : List Chunk} {c : Chunk} : c ∈ refs l cs ↔ c ∈ cs ∧ c.item.to = some l := by
  unfold refs
  rw [List.mem_filter, decide_eq_true_iff]

/-- The references are in descending order. -/
theorem Tile.sorted {a e : Nat} {cs : List Chunk} (h : Tile a cs e) (l : Nat) : (refs l cs).Pairwise fun c d => d.pos + d.len ≤ c.pos := by
  have : cs.Pairwise fun c d => d.pos + d.len ≤ c.pos := by
    induction cs generalizing e with
    | nil => exact .nil
    | cons c cs ih => exact List.pairwise_cons.2 ⟨fun d hd => (h.2.mem hd).2, ih h.2⟩
  exact this.filter _

theorem sorted_length {e : Nat} {cs : List Chunk} (h : cs.Pairwise fun c d => d.pos + d.len ≤ c.pos) (hn : ∀ c ∈ cs, c.len ≠ 0 ∧ c.pos + c.len ≤ e) : cs.length ≤ e := by
  induction cs generalizing e with
  | nil => exact Nat.zero_le _
  | cons c cs ih =>
    obtain ⟨h1, h2⟩ := List.pairwise_cons.1 h
    have hc := hn c (List.mem_cons_self ..)
    have := ih (e := c.pos) h2 fun d hd => ⟨(hn d (List.mem_cons_of_mem _ hd)).1, h1 d hd⟩
    rw [List.length_cons]
    omega

theorem Pend.len {m : Mem 15} {c : Chunk} {l : Nat} (h : Pend m c) (hto : c.item.to = some l) : c.len = 3 ∨ c.len = 5 := by
  obtain ⟨it, p, n⟩ := c
  cases it with
  | raw bs => cases hto
  | pos q bs => cases hto
  | lab l => cases hto
  | jmp l => exact .inl h.1
  | jcc cc l => exact .inr h.1

/-- The bytes below the end of the code are kept. -/
def Below (m m' : Mem 15) (e : Nat) : Prop := ∀ x, In x → x < e → B m' x = B m x

theorem Inv.inside {a : Nat} {cs : List Chunk} {s : S} (h : Inv a cs s) {c : Chunk} (hc : c ∈ cs) {x : Nat} (h1 : c.pos ≤ x) (h2 : x < c.pos + c.len) : In x ∧ x < s.code := by
  have := h.tile.mem hc
  have := h.ge
  have := h.le
  unfold In
  generalize codeStart = y, outputMax = z at *
  omega

theorem Inv.eqv {a : Nat} {cs : List Chunk} {s : S} (h : Inv a cs s) {m' : Mem 15} (hb : Below s.out m' s.code) {c : Chunk} (hc : c ∈ cs) : Eqv s.out m' c :=
  fun _ h1 h2 => hb _ (h.inside hc h1 h2).1 (h.inside hc h1 h2).2

theorem Inv.chain_keep {a : Nat} {cs : List Chunk} {s : S} (h : Inv a cs s) {m' : Mem 15} (hb : Below s.out m' s.code) {l : Nat} (hl : adr s l = 0) {r : Nat}
    (hch : Chain s.out r (refs l cs)) : Chain m' r (refs l cs) := by
  refine hch.congr fun c hc => ?_
  obtain ⟨hm, hto⟩ := mem_refs.1 hc
  have hlen := ((h.site c hm l hto).2.1 hl).len hto
  exact ⟨h.eqv hb hm _ (by omega) (by omega), h.eqv hb hm _ (by omega) (by omega)⟩

/-- A piece of code or a jump is added. -/
theorem Inv.push {a : Nat} {cs : List Chunk} {s s' : S} (h : Inv a cs s) {c : Chunk} (hpos : c.pos = s.code) (hcode : s'.code = s.code + c.len)
    (hle : s'.code ≤ codeStart + outputMax) (hb : Below s.out s'.out s.code) (hadr : ∀ l, adr s' l = adr s l) (hlc : s'.labelCount = s.labelCount)
    (hlf : s'.lastFixup = s.lastFixup) (hnl : ∀ l, c.item ≠ .lab l) (hpl : Plain s'.out (adr s) c)
    (hsite : ∀ l, c.item.to = some l → l < s.labelCount ∧ (adr s l = 0 → Pend s'.out c) ∧ (adr s l ≠ 0 → Lands s'.out (adr s) (c :: cs) c))
    (hch : ∀ l, l < s.labelCount → adr s l = 0 → Chain s'.out (s'.labels.get l).ref (refs l (c :: cs)))
    (hst : ∀ bs, c.item = .raw bs → afterJcc (cs.map Chunk.item) = true → Starts bs)
    (hjj : ∀ l, c.item = .jmp l → afterJmp (cs.map Chunk.item) = false ∧ c.len ≠ 0) : Inv a (c :: cs) s' := by
  have hfun : adr s' = adr s := funext hadr
  refine ⟨⟨by rw [hcode, hpos], by rw [hpos]; exact h.tile⟩, h.ge, hle, fun d hd => ?_, fun d hd l e => ?_, fun d hd l e => ?_, fun l hl ha => ?_, fun p hp => ?_, ?_, ?_, ?_,
    by rw [hlc]; exact h.count, fun l hl h0 => by rw [hlc] at hl; rw [hadr] at h0 ⊢; exact List.mem_cons_of_mem _ (h.has l hl h0)⟩
  · rw [hfun]
    rcases List.mem_cons.1 hd with rfl | hd
    · exact hpl
    · exact (h.plain d hd).congr (h.eqv hb hd) fun _ _ => rfl
  · rw [hlc]
    rcases List.mem_cons.1 hd with rfl | hd
    · exact absurd e (hnl l)
    · exact h.labs d hd l e
  · rw [hfun, hlc]
    rcases List.mem_cons.1 hd with rfl | hd
    · exact hsite l e
    · obtain ⟨h1, h2, h3⟩ := h.site d hd l e
      exact ⟨h1, fun h0 => (h2 h0).congr (h.eqv hb hd), fun h0 => (h3 h0).congr (h.eqv hb hd) (fun _ _ => rfl) (fun _ _ => rfl)
        (fun x hx _ _ => List.mem_cons_of_mem _ hx) (fun _ _ _ hx => List.mem_cons_of_mem _ hx)⟩
  · rw [hlc] at hl
    exact hch l hl (by rw [← hadr l]; exact ha)
  · rw [hlf]
    obtain ⟨it, q, n⟩ := c
    cases it with
    | raw bs => exact h.fix p hp
    | pos q bs => exact h.fix p hp
    | jmp l => exact h.fix p hp
    | jcc cc l => exact h.fix p hp
    | lab l => exact absurd rfl (hnl l)
  · obtain ⟨it, q, n⟩ := c
    cases it with
    | raw bs => exact ⟨hst bs rfl, h.starts⟩
    | pos q bs => exact h.starts
    | jmp l => exact h.starts
    | jcc cc l => exact h.starts
    | lab l => exact absurd rfl (hnl l)
  · intro hj
    obtain ⟨it, q, n⟩ := c
    cases it with
    | jmp l => exact (hjj l rfl).1
    | raw bs => cases hj
    | pos q bs => cases hj
    | jcc cc l => cases hj
    | lab l => cases hj
  · intro d pre l e hd
    cases e
    exact (hjj l hd).2

/-- The state may change otherwise. -/
def Same (s s' : S) : Prop := s'.code = s.code ∧ s'.out = s.out ∧ s'.labels = s.labels ∧ s'.labelCount = s.labelCount ∧ s'.lastFixup = s.lastFixup

theorem Inv.same {a : Nat} {cs : List Chunk} {s s' : S} (h : Inv a cs s) (he : Same s s') : Inv a cs s' := by
  obtain ⟨e1, e2, e3, e4, e5⟩ := he
  have hfun : adr s' = adr s := funext fun l => by unfold adr; rw [e3]
  obtain ⟨h1, h2, h3, h4, h5, h6, h7, h8, h9, h10, h11, h12, h13⟩ := h
  refine ⟨by rw [e1]; exact h1, h2, by rw [e1]; exact h3, by rw [e2, hfun]; exact h4, by rw [e4]; exact h5, by rw [e2, hfun, e4]; exact h6,
    by rw [e2, hfun, e4, e3]; exact h7, by rw [e5]; exact h8, h9, h10, h11, by rw [e4]; exact h12, by rw [e4, hfun]; exact h13⟩

end SccLayout
