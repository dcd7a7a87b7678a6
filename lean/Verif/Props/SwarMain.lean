import Verif.Props.SwarFire
import Verif.Props.SwarText
import Verif.Swar.Main
/-!
# C57: the whole game
-/
namespace Props
open I86 Swar Text

/-- The line in the upper left corner shows angle and power of a tank. -/
def ShowsInfo (font : Word → Byte) (m : Mem 16) (t : Tank) (c : Word) : Prop :=
  ∀ px py, OnScreen px py → InText 0 0 16 px py →
    readPixel m px py = some (textCol font 0 0 c 0 (infoLine (t.ang.toNat * 180 / 128) t.pow.toNat) px py)

namespace SwarMain

/-- What is kept: the tanks are where they can be, and whoever's turn it is sees their own angle and power; nothing outside the frame changes. -/
structure Good (font : Word → Byte) (m0 : Mem 16) (w : World) : Prop where
  at1 : TankAt 20 w.y1
  at2 : TankAt 300 w.y2
  ok1 : TankOk w.g.t1
  ok2 : TankOk w.g.t2
  frame : ∀ a, 0x4000 ≤ a → a < 0x10000 → w.m.get a = m0.get a
  info : w.g.done = false → ShowsInfo font w.m w.cur w.c

variable {font : Word → Byte} {m0 : Mem 16} {w : World}

theorem cur_ok (h1 : TankOk w.g.t1) (h2 : TankOk w.g.t2) : TankOk w.cur := by
  rw [World.cur]; split <;> assumption

theorem cur_at (h1 : TankAt 20 w.y1) (h2 : TankAt 300 w.y2) : TankAt w.x w.y := by
  rw [World.x, World.y]; split <;> assumption

theorem cur_c : w.c.toNat < 4 := by rw [World.c]; split <;> decide

theorem at_y {x y : Word} (h : TankAt x y) : y.toNat < 200 := by
  obtain ⟨_, g, h1, h2, rfl⟩ := h
  rw [BitVec.toNat_sub, show (11 : Word).toNat = 11 from rfl]; omega

/-- After `ShowTankInfo(cur)` all is well. -/
theorem show_ok (at1 : TankAt 20 w.y1) (at2 : TankAt 300 w.y2) (ok1 : TankOk w.g.t1) (ok2 : TankOk w.g.t2)
    (frame : ∀ a, 0x4000 ≤ a → a < 0x10000 → w.m.get a = m0.get a) :
    ∃ w', w.show font = some w' ∧ w'.g = w.g ∧ Good font m0 w' := by
  obtain ⟨_, m', e, r, f⟩ := C56_info font w.m w.cur.ang w.cur.pow w.c (cur_ok ok1 ok2).1 (cur_ok ok1 ok2).2 cur_c
  exact ⟨{ w with m := m' }, by rw [World.show, e]; rfl, rfl, at1, at2, ok1, ok2, fun a h1 h2 => (f a h1 h2).trans (frame a h1 h2),
    fun _ px py os h => (r px py os).1 h⟩

theorem draw_ok (m : Mem 16) (c : Word) (hc : c.toNat < 4) (ps : List (Word × Word)) (h : ∀ p ∈ ps, OnScreen p.1 p.2) :
    ∃ m', drawAll m c ps = some m' ∧ ∀ a, 0x4000 ≤ a → a < 0x10000 → m'.get a = m.get a := by
  obtain ⟨m', e, _, f⟩ := C45_draw m c hc ps h
  exact ⟨m', e, f⟩

theorem turn_ang {t : Tank} {ch : Word} (ne : keyAng t ch ≠ t.ang) : updateAng (keyAng t ch) = (tankKey t ch).ang := by
  rw [keyAng] at ne ⊢
  by_cases k1 : ch = 0x4B00
  · subst k1
    simp only [if_true] at ne ⊢
    simp only [tankKey, if_true, if_pos ne]
  · by_cases k2 : ch = 0x4D00
    · subst k2
      simp only [if_neg k1, if_true] at ne ⊢
      simp only [tankKey, if_neg k1, if_true, if_pos ne]
    · simp only [if_neg k1, if_neg k2] at ne
      exact absurd rfl ne

/-- A key. -/
theorem key_ok (h : Good font m0 w) (ch : Word) : ∃ w' hit, mainKey font w ch = some w' ∧ w'.g = keyStep w.g ch hit ∧ Good font m0 w' := by
  rw [mainKey]
  by_cases d : w.g.done = true
  · rw [if_pos d]
    exact ⟨w, 0, rfl, by rw [keyStep, if_pos d], h⟩
  rw [if_neg d]
  by_cases esc : ch &&& 0xff = 27
  · rw [if_pos esc]
    refine ⟨{ w with g := { w.g with done := true } }, 0, rfl, by rw [keyStep, if_neg d, if_pos esc], h.at1, h.at2, h.ok1, h.ok2, h.frame, fun hd => by cases hd⟩
  rw [if_neg esc]
  by_cases fires : ch &&& 0xff = 0x20 ∨ ch &&& 0xff = 13
  · rw [if_pos fires]
    obtain ⟨m', hit, e, _, f, _⟩ := C55_pixels w.m w.x w.y w.cur.ang w.cur.pow (at_y (cur_at h.at1 h.at2)) (cur_ok h.ok1 h.ok2).2 1000 (by omega)
    rw [e]
    simp only
    have fr : ∀ a, 0x4000 ≤ a → a < 0x10000 → m'.get a = m0.get a := fun a h1 h2 => (f a h1 h2).trans (h.frame a h1 h2)
    by_cases hh : hit = 2 ∨ hit = 3
    · rw [if_pos hh]
      obtain ⟨m2, e2, _, f2⟩ := C56_winner font m' hit hh
      refine ⟨{ w with m := m2, g := { w.g with done := true } }, hit, by rw [e2]; rfl, by rw [keyStep, if_neg d, if_neg esc, if_pos fires, if_pos hh], h.at1, h.at2, h.ok1, h.ok2,
        fun a h1 h2 => (f2 a h1 h2).trans (fr a h1 h2), fun hd => by cases hd⟩
    · rw [if_neg hh]
      obtain ⟨w', e', g', good⟩ := show_ok (font := font) (m0 := m0) (w := { w with m := m', g := { w.g with second := !w.g.second } }) h.at1 h.at2 h.ok1 h.ok2 fr
      exact ⟨w', hit, e', by rw [g', keyStep, if_neg d, if_neg esc, if_pos fires, if_neg hh], good⟩
  rw [if_neg fires]
  have ks : keyStep w.g ch 0 = if w.g.second then { w.g with t2 := tankKey w.g.t2 ch } else { w.g with t1 := tankKey w.g.t1 ch } := by
    rw [keyStep, if_neg d, if_neg esc, if_neg fires]
  have kt : tankKey w.cur ch = if w.g.second then tankKey w.g.t2 ch else tankKey w.g.t1 ch := by
    rw [World.cur]; split <;> rfl
  by_cases known : ch = 0x4B00 ∨ ch = 0x4D00 ∨ ch = 0x4800 ∨ ch = 0x5000 ∨ ch = 0x4900 ∨ ch = 0x5100
  · rw [if_pos known]
    have drawn : ∃ m', (if keyAng w.cur ch ≠ w.cur.ang then updateTurrent w.m w.x w.y w.cur.ang (keyAng w.cur ch) w.c else some w.m) = some m' ∧
        ∀ a, 0x4000 ≤ a → a < 0x10000 → m'.get a = w.m.get a := by
      by_cases ne : keyAng w.cur ch ≠ w.cur.ang
      · rw [if_pos ne]
        have ea := turn_ang ne
        have tk := tankKey_ok w.cur (cur_ok h.ok1 h.ok2) ch
        obtain ⟨m1, e1, f1⟩ := draw_ok w.m 0 (by decide) _ (C47_turret w.x w.y w.cur.ang (cur_at h.at1 h.at2) (cur_ok h.ok1 h.ok2).1)
        obtain ⟨m2, e2, f2⟩ := draw_ok m1 w.c cur_c _ (C47_turret w.x w.y _ (cur_at h.at1 h.at2) tk.1)
        exact ⟨m2, by rw [updateTurrent, e1, ea]; exact e2, fun a h1 h2 => (f2 a h1 h2).trans (f1 a h1 h2)⟩
      · rw [if_neg ne]
        exact ⟨w.m, rfl, fun _ _ _ => rfl⟩
    obtain ⟨m', e, f⟩ := drawn
    rw [e]
    simp only [Option.bind_some]
    have o1 : TankOk (keyStep w.g ch 0).t1 := by
      rw [ks]; split
      · exact h.ok1
      · exact tankKey_ok _ h.ok1 ch
    have o2 : TankOk (keyStep w.g ch 0).t2 := by
      rw [ks]; split
      · exact tankKey_ok _ h.ok2 ch
      · exact h.ok2
    have eg : (if w.g.second then { w.g with t2 := tankKey w.cur ch } else { w.g with t1 := tankKey w.cur ch }) = keyStep w.g ch 0 := by
      rw [ks, kt]
      split <;> rfl
    rw [eg]
    obtain ⟨w', e', g', good⟩ := show_ok (font := font) (m0 := m0) (w := { w with m := m', g := keyStep w.g ch 0 }) h.at1 h.at2 o1 o2
      (fun a h1 h2 => (f a h1 h2).trans (h.frame a h1 h2))
    exact ⟨w', 0, e', g', good⟩
  · rw [if_neg known]
    simp only [not_or] at known
    obtain ⟨k1, k2, k3, k4, k5, k6⟩ := known
    have same : ∀ t : Tank, tankKey t ch = t := by
      intro t
      simp only [tankKey, if_neg k1, if_neg k2, if_neg k3, if_neg k4, if_neg k5, if_neg k6]
      rw [if_neg (by simp)]
    refine ⟨w, 0, rfl, ?_, h⟩
    rw [ks, same, same]
    split <;> rfl

theorem grass_length (y : Word) (ss : List Word) : (grass y ss).length = ss.length := by
  induction ss generalizing y with
  | nil => rfl
  | cons s ss ih => simp only [grass, List.length_cons, ih]

theorem terrain_ok (gs : List Word) (hl : gs.length ≤ 320) (h : ∀ g ∈ gs, 20 ≤ g.toNat ∧ g.toNat ≤ 180) : ∀ p ∈ terrain gs, OnScreen p.1 p.2 := by
  intro p hp
  simp only [terrain, List.mem_flatMap, List.mem_map, List.mem_range] at hp
  obtain ⟨⟨g, x⟩, hm, k, hk, rfl⟩ := hp
  have hx := List.snd_lt_of_mem_zipIdx hm
  have hg := h g (List.fst_mem_of_mem_zipIdx hm)
  simp only at hk hx ⊢
  rw [word_toInt_small (by omega)] at hk
  refine ⟨by rw [BitVec.toNat_ofNat]; omega, ?_⟩
  rw [BitVec.toNat_add, BitVec.toNat_ofNat]; omega

theorem tank_ok (m : Mem 16) (x y ang c : Word) (h : TankAt x y) (ha : ang.toNat ≤ 128) (hc : c.toNat < 4) :
    ∃ m', drawTank m x y ang c = some m' ∧ ∀ a, 0x4000 ≤ a → a < 0x10000 → m'.get a = m.get a := by
  obtain ⟨m1, e1, f1⟩ := draw_ok m c hc _ (C47_body x y h)
  obtain ⟨m2, e2, f2⟩ := draw_ok m1 c hc _ (C47_turret x y ang h ha)
  exact ⟨m2, by rw [drawTank, e1]; exact e2, fun a h1 h2 => (f2 a h1 h2).trans (f1 a h1 h2)⟩

theorem init_ok (font : Word → Byte) (m : Mem 16) (ss : List Word) (hs : ss.length = 320) :
    ∃ w, mainInit font m ss = some w ∧ w.g = init ∧ Good font m w := by
  have gl := grass_length 100 ss
  have gr := C47_grass 100 ss
  rw [mainInit]
  generalize grass 100 ss = gs at gl gr
  obtain ⟨m1, e1, f1⟩ := draw_ok m 1 (by decide) _ (terrain_ok gs (by omega) gr)
  have l1 : 24 < gs.length := by omega
  have l2 : 304 < gs.length := by omega
  have a1 : TankAt 20 (gs[24] - 11) := ⟨Or.inl rfl, _, (gr _ (List.getElem_mem l1)).1, (gr _ (List.getElem_mem l1)).2, rfl⟩
  have a2 : TankAt 300 (gs[304] - 11) := ⟨Or.inr rfl, _, (gr _ (List.getElem_mem l2)).1, (gr _ (List.getElem_mem l2)).2, rfl⟩
  obtain ⟨m2, e2, f2⟩ := tank_ok m1 20 _ 32 2 a1 (by decide) (by decide)
  obtain ⟨m3, e3, f3⟩ := tank_ok m2 300 _ 96 3 a2 (by decide) (by decide)
  obtain ⟨w', e', g', good⟩ := show_ok (font := font) (m0 := m) (w := { m := m3, g := init, y1 := gs[24] - 11, y2 := gs[304] - 11 }) a1 a2
    (show TankOk init.t1 from ⟨by decide, by decide⟩) (show TankOk init.t2 from ⟨by decide, by decide⟩) (fun a h1 h2 => by rw [f3 a h1 h2, f2 a h1 h2, f1 a h1 h2])
  refine ⟨w', ?_, g', good⟩
  simp only [e1, Option.bind_some, List.getElem?_eq_getElem l1, List.getElem?_eq_getElem l2, e2, e3]
  exact e'

theorem keys_ok (keys : List Word) : ∀ (w : World), Good font m0 w → ∃ w' hits, mainKeys font w keys = some w' ∧
    hits.length = keys.length ∧ w'.g = (keys.zip hits).foldl (fun g k => keyStep g k.1 k.2) w.g ∧ Good font m0 w' := by
  induction keys with
  | nil => exact fun w h => ⟨w, [], rfl, rfl, rfl, h⟩
  | cons ch keys ih =>
    intro w h
    obtain ⟨w1, hit, e1, g1, h1⟩ := SwarMain.key_ok h ch
    obtain ⟨w2, hits, e2, l2, g2, h2⟩ := ih w1 h1
    exact ⟨w2, hit :: hits, by rw [mainKeys, e1]; exact e2, by simp [l2], by rw [g2, g1]; rfl, h2⟩

end SwarMain

/-- C57: for every terrain and whatever keys are pressed, the game never leaves its arrays or the frame, every shot ends, and as long as the
game goes on the upper left corner shows angle and power of the tank whose turn it is, in its colour.  The state of the game is that of C46. -/
theorem C57_game (font : Word → Byte) (m : Mem 16) (ss keys : List Word) (hs : ss.length = 320) :
    ∃ w0 w hits, mainInit font m ss = some w0 ∧ mainKeys font w0 keys = some w ∧ hits.length = keys.length ∧
      w.g = (keys.zip hits).foldl (fun g k => keyStep g k.1 k.2) init ∧
      (∀ a, 0x4000 ≤ a → a < 0x10000 → w.m.get a = m.get a) ∧
      (w.g.done = false → ShowsInfo font w.m (if w.g.second then w.g.t2 else w.g.t1) (if w.g.second then 3 else 2)) := by
  obtain ⟨w0, e0, g0, good⟩ := SwarMain.init_ok font m ss hs
  obtain ⟨w, hits, e, l, g, h⟩ := SwarMain.keys_ok keys w0 good
  exact ⟨w0, w, hits, e0, e, l, by rw [g, g0], h.frame, h.info⟩

/-- C57, a shot: in every state the game can reach, a shot flies as C55 says; the game ends with it exactly if it hits a tank, and then the winner
is named as in C56; otherwise it is the other player's turn. -/
theorem C57_shot (font : Word → Byte) (m : Mem 16) (ss keys : List Word) (hs : ss.length = 320) (w0 w : World)
    (h0 : mainInit font m ss = some w0) (h : mainKeys font w0 keys = some w) (hd : w.g.done = false) (ch : Word) (hf : Fires ch) :
    ∃ w' n m' r, mainKey font w ch = some w' ∧ (∀ k < n, (Flight.ofTank w.x w.y w.cur.ang w.cur.pow).Passes w.m k) ∧
      (Flight.ofTank w.x w.y w.cur.ang w.cur.pow).Ends w.m n m' r ∧
      (w'.g.done = true ↔ r = 2 ∨ r = 3) ∧
      (w'.g.done = true → ∀ px py, OnScreen px py →
        (InText 104 96 14 px py → readPixel w'.m px py = some (textCol font 104 96 (if r = 2 then 3 else 2) 0
          (if r = 2 then asc "Player 2 wins!" else asc "Player 1 wins!") px py)) ∧
        (¬ InText 104 96 14 px py → readPixel w'.m px py = readPixel m' px py)) ∧
      (w'.g.done = false → w'.g.second = !w.g.second ∧ ∀ px py, OnScreen px py → ¬ InText 0 0 16 px py → readPixel w'.m px py = readPixel m' px py) := by
  obtain ⟨w1, e1, _, good1⟩ := SwarMain.init_ok font m ss hs
  cases h0.symm.trans e1
  obtain ⟨w2, _, e2, _, _, good⟩ := SwarMain.keys_ok keys w0 good1
  cases h.symm.trans e2
  obtain ⟨n, m', r, _, e, pass, ends⟩ := C55_fire w.m w.x w.y w.cur.ang w.cur.pow (SwarMain.at_y (SwarMain.cur_at good.at1 good.at2))
    (SwarMain.cur_ok good.ok1 good.ok2).2 1000 (by omega)
  have esc : ¬ ch &&& 0xff = 27 := by
    rcases hf with e | e <;> rw [e] <;> decide
  have st : mainKey font w ch = if r = 2 ∨ r = 3 then (showWinner font m' r).map fun m => { w with m := m, g := { w.g with done := true } }
      else World.show font { w with m := m', g := { w.g with second := !w.g.second } } := by
    rw [mainKey, if_neg (by rw [hd]; decide), if_neg esc, if_pos (show ch &&& 0xff = 0x20 ∨ ch &&& 0xff = 13 from hf), e]
  rw [st]
  by_cases hr : r = 2 ∨ r = 3
  · rw [if_pos hr]
    obtain ⟨m2, e2, p2, _⟩ := C56_winner font m' r hr
    refine ⟨{ w with m := m2, g := { w.g with done := true } }, n, m', r, by rw [e2]; rfl, pass, ends, ⟨fun _ => hr, fun _ => rfl⟩, fun _ => p2,
      fun hd => by cases hd⟩
  · rw [if_neg hr]
    obtain ⟨_, m2, e2, p2, _⟩ := C56_info font m' (World.cur { w with m := m', g := { w.g with second := !w.g.second } }).ang
      (World.cur { w with m := m', g := { w.g with second := !w.g.second } }).pow (World.c { w with m := m', g := { w.g with second := !w.g.second } })
      (SwarMain.cur_ok (w := { w with m := m', g := { w.g with second := !w.g.second } }) good.ok1 good.ok2).1
      (SwarMain.cur_ok (w := { w with m := m', g := { w.g with second := !w.g.second } }) good.ok1 good.ok2).2 SwarMain.cur_c
    refine ⟨{ w with m := m2, g := { w.g with second := !w.g.second } }, n, m', r, by rw [World.show, e2]; rfl, pass, ends,
      ⟨fun h => absurd (hd.symm.trans h) (by decide), fun h => absurd h hr⟩, fun h => absurd (hd.symm.trans h) (by decide), fun _ => ⟨rfl, fun px py os hn => (p2 px py os).2 hn⟩⟩

example : (List.replicate 320 (3 : Word)).length = 320 ∧ (grass 100 (List.replicate 320 (3 : Word)))[24]? = some 100 := by decide +kernel

/-- The hypotheses of `C57_shot` can be met: the space bar at the start of the game on level ground. -/
example (font : Word → Byte) (m : Mem 16) : ∃ w0 w, mainInit font m (List.replicate 320 3) = some w0 ∧ mainKeys font w0 [] = some w ∧
    w.g.done = false ∧ Fires 0x3920 := by
  obtain ⟨w0, w, hits, e0, e, _, g, _⟩ := C57_game font m (List.replicate 320 3) [] (by decide +kernel)
  exact ⟨w0, w, e0, e, by rw [g]; rfl, by decide⟩

namespace SwarMain

theorem mem_body {x y px py : Word} (h : TankAt x y) : (px, py) ∈ body x y ↔
    x.toNat ≤ px.toNat ∧ px.toNat < x.toNat + 9 ∧ y.toNat + 7 ≤ py.toNat ∧ py.toNat < y.toNat + 11 := by
  have hy := at_y h
  have hx : x.toNat ≤ 300 := by rcases h.1 with rfl | rfl <;> decide
  simp only [body, List.mem_flatMap, List.mem_map, List.mem_range, Prod.mk.injEq]
  constructor
  · rintro ⟨j, hj, i, hi, rfl, rfl⟩
    simp only [BitVec.toNat_add, BitVec.toNat_ofNat, show (7 : Word).toNat = 7 from rfl]
    omega
  · rintro ⟨h1, h2, h3, h4⟩
    refine ⟨py.toNat - (y.toNat + 7), by omega, px.toNat - x.toNat, by omega, ?_, ?_⟩ <;> apply BitVec.eq_of_toNat_eq <;>
      simp only [BitVec.toNat_add, BitVec.toNat_ofNat, show (7 : Word).toNat = 7 from rfl] <;> omega

theorem mem_terrain {gs : List Word} (hl : gs.length = 320) (h : ∀ g ∈ gs, 20 ≤ g.toNat ∧ g.toNat ≤ 180) {px py : Word} (os : OnScreen px py) :
    (px, py) ∈ terrain gs ↔ (gs.getD px.toNat 0).toNat ≤ py.toNat := by
  have lt : px.toNat < gs.length := by rw [hl]; exact os.1
  have eg : gs.getD px.toNat 0 = gs[px.toNat] := by simp [List.getD, lt]
  have hy := os.2
  rw [eg]
  simp only [terrain, List.mem_flatMap, List.mem_map, List.mem_range, Prod.mk.injEq]
  constructor
  · rintro ⟨⟨g, x⟩, hm, k, hk, e1, e2⟩
    have eq : gs[x]? = some g := List.mk_mem_zipIdx_iff_getElem?.1 hm
    obtain ⟨hx, eq'⟩ := List.getElem?_eq_some_iff.1 eq
    have hg := h g (by rw [← eq']; exact List.getElem_mem hx)
    simp only at e1 e2 hk
    have ex : px.toNat = x := by rw [← e1, BitVec.toNat_ofNat]; omega
    have ev : gs[px.toNat] = g := by simp only [ex]; exact eq'
    rw [word_toInt_small (by omega)] at hk
    rw [ev, ← e2, BitVec.toNat_add, BitVec.toNat_ofNat]; omega
  · intro hle
    have hg := h _ (List.getElem_mem lt)
    refine ⟨(gs[px.toNat], px.toNat), List.mem_zipIdx_iff_getElem?.2 (by simp [lt]), py.toNat - gs[px.toNat].toNat, ?_, ?_, ?_⟩
    · rw [word_toInt_small (by simp only; omega)]; simp only; omega
    · apply BitVec.eq_of_toNat_eq; rw [BitVec.toNat_ofNat]; simp only; omega
    · apply BitVec.eq_of_toNat_eq; simp only [BitVec.toNat_add, BitVec.toNat_ofNat]; omega

theorem tank_pix (m : Mem 16) (x y ang c : Word) (h : TankAt x y) (ha : ang.toNat ≤ 128) (hc : c.toNat < 4) :
    ∃ m', drawTank m x y ang c = some m' ∧ (∀ px py, OnScreen px py → readPixel m' px py =
        if (px, py) ∈ body x y ∨ (px, py) ∈ turret x y ang then some c else readPixel m px py) := by
  obtain ⟨m1, e1, r1, _⟩ := C45_draw m c hc _ (C47_body x y h)
  obtain ⟨m2, e2, r2, _⟩ := C45_draw m1 c hc _ (C47_turret x y ang h ha)
  refine ⟨m2, by rw [drawTank, e1]; exact e2, fun px py os => ?_⟩
  rw [r2 px py os, r1 px py os]
  by_cases a : (px, py) ∈ turret x y ang <;> by_cases b : (px, py) ∈ body x y <;> simp [a, b]

end SwarMain

/-- The pixels of a tank: a body of 9 times 4 pixels and the turret. -/
def OfTank (x y ang px py : Word) : Prop :=
  (x.toNat ≤ px.toNat ∧ px.toNat < x.toNat + 9 ∧ y.toNat + 7 ≤ py.toNat ∧ py.toNat < y.toNat + 11) ∨ (px, py) ∈ turret x y ang

/-- C57, the start: below and beside the line of text the screen shows the terrain up to its height in each column, the two tanks on it, and
otherwise what was there. -/
theorem C57_start (font : Word → Byte) (m : Mem 16) (ss : List Word) (hs : ss.length = 320) :
    ∃ w, mainInit font m ss = some w ∧ w.y1 = (grass 100 ss).getD 24 0 - 11 ∧ w.y2 = (grass 100 ss).getD 304 0 - 11 ∧
      ∀ px py, OnScreen px py → ¬ InText 0 0 16 px py →
        (OfTank 300 w.y2 96 px py → readPixel w.m px py = some 3) ∧
        (¬ OfTank 300 w.y2 96 px py → OfTank 20 w.y1 32 px py → readPixel w.m px py = some 2) ∧
        (¬ OfTank 300 w.y2 96 px py → ¬ OfTank 20 w.y1 32 px py →
          readPixel w.m px py = if ((grass 100 ss).getD px.toNat 0).toNat ≤ py.toNat then some 1 else readPixel m px py) := by
  have gl := SwarMain.grass_length 100 ss
  have gr := C47_grass 100 ss
  rw [mainInit]
  generalize grass 100 ss = gs at gl gr
  have l1 : 24 < gs.length := by omega
  have l2 : 304 < gs.length := by omega
  have a1 : TankAt 20 (gs[24] - 11) := ⟨Or.inl rfl, _, (gr _ (List.getElem_mem l1)).1, (gr _ (List.getElem_mem l1)).2, rfl⟩
  have a2 : TankAt 300 (gs[304] - 11) := ⟨Or.inr rfl, _, (gr _ (List.getElem_mem l2)).1, (gr _ (List.getElem_mem l2)).2, rfl⟩
  have g1 : gs.getD 24 0 = gs[24] := by simp [List.getD, l1]
  have g2 : gs.getD 304 0 = gs[304] := by simp [List.getD, l2]
  obtain ⟨m1, e1, r1, _⟩ := C45_draw m 1 (by decide) _ (SwarMain.terrain_ok gs (by omega) gr)
  obtain ⟨m2, e2, r2⟩ := SwarMain.tank_pix m1 20 _ 32 2 a1 (by decide) (by decide)
  obtain ⟨m3, e3, r3⟩ := SwarMain.tank_pix m2 300 _ 96 3 a2 (by decide) (by decide)
  obtain ⟨_, m4, e4, r4, _⟩ := C56_info font m3 32 100 2 (by decide) (by decide) (by decide)
  refine ⟨{ m := m4, g := init, y1 := gs[24] - 11, y2 := gs[304] - 11 }, ?_, by rw [g1], by rw [g2], fun px py os hn => ?_⟩
  · simp only [e1, Option.bind_some, List.getElem?_eq_getElem l1, List.getElem?_eq_getElem l2, e2, e3]
    rw [World.show]
    simp only [World.cur, World.c, init]
    exact congrArg (Option.map _) e4
  · simp only
    rw [(r4 px py os).2 hn, r3 px py os, r2 px py os, r1 px py os]
    simp only [SwarMain.mem_body a1, SwarMain.mem_body a2, SwarMain.mem_terrain (by omega) gr os]
    refine ⟨fun h => if_pos h, fun h h' => (if_neg h).trans (if_pos h'), fun h h' => (if_neg h).trans (if_neg h')⟩

/-- C57, turning: a key that turns the turret erases the old one and draws the new one; the other keys that change a tank change nothing but the
line of text, and all other keys that do not fire or end the game nothing at all. -/
theorem C57_turn (font : Word → Byte) (m : Mem 16) (ss keys : List Word) (hs : ss.length = 320) (w0 w : World)
    (h0 : mainInit font m ss = some w0) (h : mainKeys font w0 keys = some w) (hd : w.g.done = false) (ch : Word) (hf : ¬ Fires ch) (he : ch &&& 0xff ≠ 27) :
    ∃ w', mainKey font w ch = some w' ∧ w'.g.second = w.g.second ∧ ∀ px py, OnScreen px py → ¬ InText 0 0 16 px py →
      ((ch = 0x4B00 ∨ ch = 0x4D00) → readPixel w'.m px py =
        if (px, py) ∈ turret w.x w.y w'.cur.ang then some w.c else if (px, py) ∈ turret w.x w.y w.cur.ang then some 0 else readPixel w.m px py) ∧
      (¬ (ch = 0x4B00 ∨ ch = 0x4D00) → readPixel w'.m px py = readPixel w.m px py) := by
  obtain ⟨w1, e1, _, good1⟩ := SwarMain.init_ok font m ss hs
  cases h0.symm.trans e1
  obtain ⟨w2, _, e2, _, _, good⟩ := SwarMain.keys_ok keys w0 good1
  cases h.symm.trans e2
  have ok := SwarMain.cur_ok good.ok1 good.ok2
  have at' := SwarMain.cur_at good.at1 good.at2
  have tk := tankKey_ok w.cur ok ch
  rw [mainKey, if_neg (by rw [hd]; decide), if_neg he, if_neg (show ¬ (ch &&& 0xff = 0x20 ∨ ch &&& 0xff = 13) from hf)]
  by_cases known : ch = 0x4B00 ∨ ch = 0x4D00 ∨ ch = 0x4800 ∨ ch = 0x5000 ∨ ch = 0x4900 ∨ ch = 0x5100
  · rw [if_pos known]
    -- the line of text
    have fin : ∀ m1, ∃ w', World.show font { w with m := m1, g := if w.g.second then { w.g with t2 := tankKey w.cur ch } else { w.g with t1 := tankKey w.cur ch } } = some w' ∧
        w'.g.second = w.g.second ∧ w'.cur = tankKey w.cur ch ∧ ∀ px py, OnScreen px py → ¬ InText 0 0 16 px py → readPixel w'.m px py = readPixel m1 px py := by
      intro m1
      have ec : World.cur { w with m := m1, g := if w.g.second then { w.g with t2 := tankKey w.cur ch } else { w.g with t1 := tankKey w.cur ch } } = tankKey w.cur ch := by
        by_cases sec : w.g.second = true <;> simp only [World.cur, sec, if_true] <;> rfl
      obtain ⟨_, m2, e2, r2, _⟩ := C56_info font m1 (tankKey w.cur ch).ang (tankKey w.cur ch).pow
        (World.c { w with m := m1, g := if w.g.second then { w.g with t2 := tankKey w.cur ch } else { w.g with t1 := tankKey w.cur ch } }) tk.1 tk.2 SwarMain.cur_c
      refine ⟨{ w with m := m2, g := if w.g.second then { w.g with t2 := tankKey w.cur ch } else { w.g with t1 := tankKey w.cur ch } }, ?_, ?_, ec, fun px py os hn => (r2 px py os).2 hn⟩
      · rw [World.show, ec]
        exact congrArg (Option.map _) e2
      · by_cases sec : w.g.second = true <;> simp [sec]
    by_cases turns : ch = 0x4B00 ∨ ch = 0x4D00
    · have ne : keyAng w.cur ch ≠ w.cur.ang := by
        have hb := ok.1
        intro e
        have := congrArg BitVec.toNat e
        rcases turns with rfl | rfl
        · simp only [keyAng, if_true, BitVec.toNat_add, show (1 : Word).toNat = 1 from rfl] at this
          omega
        · rw [keyAng, if_neg (by decide), if_pos rfl] at this
          simp only [BitVec.toNat_sub, show (1 : Word).toNat = 1 from rfl] at this
          omega
      have ea := SwarMain.turn_ang (t := w.cur) (ch := ch) ne
      obtain ⟨m1, e1, r1, _⟩ := C45_draw w.m 0 (by decide) _ (C47_turret w.x w.y w.cur.ang at' ok.1)
      obtain ⟨m2, e2, r2, _⟩ := C45_draw m1 w.c SwarMain.cur_c _ (C47_turret w.x w.y _ at' tk.1)
      obtain ⟨w', e', s', c', r'⟩ := fin m2
      refine ⟨w', ?_, s', fun px py os hn => ⟨fun _ => ?_, fun h => absurd turns h⟩⟩
      · rw [if_pos ne, updateTurrent, e1, ea]
        simp only [Option.bind_some, e2]
        exact e'
      · rw [r' px py os hn, r2 px py os, r1 px py os, c']
    · have eq : keyAng w.cur ch = w.cur.ang := by
        rw [keyAng, if_neg (fun e => turns (Or.inl e)), if_neg (fun e => turns (Or.inr e))]
      obtain ⟨w', e', s', c', r'⟩ := fin w.m
      refine ⟨w', ?_, s', fun px py os hn => ⟨fun h => absurd h turns, fun _ => r' px py os hn⟩⟩
      rw [if_neg (fun h => h eq)]
      exact e'
  · rw [if_neg known]
    exact ⟨w, rfl, rfl, fun px py _ _ => ⟨fun h => absurd (h.elim Or.inl fun h => Or.inr (Or.inl h)) known, fun _ => rfl⟩⟩

example : ¬ Fires 0x4B00 ∧ (0x4B00 : Word) &&& 0xff ≠ 27 := by decide

end Props
