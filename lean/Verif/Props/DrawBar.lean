import Verif.Model.DrawBar
import Verif.Props.ToolBar
import Verif.Props.Shader
/-! What the tool bar of the sample draws (C128). -/
namespace RichText
namespace ToolBar

/-! ### The picture -/

/-- The mouse is in a rectangle or on its edge. -/
def mouseIn (mouse : Option (Rat × Rat)) (x y width height : Rat) : Bool :=
  match mouse with
  | none => false
  | some p => decide (x ≤ p.1 ∧ p.1 ≤ x + width ∧ y ≤ p.2 ∧ p.2 ≤ y + height)

/-- Row `j` of the tray of menu `k`, whose title begins at `X`: highlighted if the mouse is over it, ticked if its setting is
on, with a box around the tick if both. -/
def rowPicture (X : Rat) (k j : Nat) (mouse : Option (Rat × Rat)) (setting : Bool) : List BarStep :=
  let over := mouseIn mouse (X + 3) (23 + 22 * j) 166 22
  (if over then [.fill (X + 3) (23 + 22 * j) 166 22 (145, 201, 247, 255)] else []) ++
  (if setting && over then [.fill (X + 3) (23 + 22 * j) 22 22 (86, 176, 250, 255)] else []) ++
  (if setting then [.text .tick (X + 3) (23 + 22 * j) 22 22 .center .center] else []) ++
  [.text (.label k j) (X + 35) (23 + 22 * j) 166 22 .left .center]

/-- Menu `k` with a name of `letters` letters and `rows` items.  `isOpen`: it is the open one; `over`: nothing is open and the
mouse is over the title. -/
def menuPicture (X : Rat) (k letters rows : Nat) (isOpen over : Bool) (moved : Option (Rat × Rat)) (setting : Nat → Bool) :
    List BarStep :=
  (if isOpen || over then
    [.fill (X + 1) 1 (10 * letters - 2) 17 (if isOpen then (153, 209, 255, 127) else (211, 224, 255, 127)),
      .outline X 0 (10 * letters - 1) 18 (if isOpen then (51, 163, 255, 127) else (153, 209, 255, 127))]
  else []) ++
  [.text (.name k) X 0 (10 * letters) 19 .center .center] ++
  (if isOpen then
    [.fill X 20 171 (5 + 22 * rows) (242, 242, 242, 255), .outline X 20 171 (5 + 22 * rows) (204, 204, 204, 255)] ++
      (List.range rows).flatMap fun j => rowPicture X k j moved (setting j)
  else [])

/-- Where the title of menu `k` begins: ten pixels for each letter of the names before it. -/
def titleX (ms : List (Nat × Nat)) (k : Nat) : Rat := 10 * (((ms.take k).map Prod.fst).sum : Nat)

/-- The tool bar, for a list of menus with their numbers of letters and of items, the open menu, the place where the mouse was
seen last, the place where it was last moved to, and the settings. -/
def picture (ms : List (Nat × Nat)) (width : Rat) (opened : Option Nat) (mouse moved : Option (Rat × Rat))
    (setting : Nat → Nat → Bool) : List BarStep :=
  .fill 0 18 width 2 (240, 240, 240, 255) ::
  (ms.mapIdx fun k m => menuPicture (titleX ms k) k m.1 m.2 (decide (opened = some k))
    (decide (opened = none) && mouseIn mouse (titleX ms k) 0 (10 * m.1) 19) moved (setting k)).flatten

/-- Where the mouse was last moved to. -/
def lastMoved : Option (Rat × Rat) → List BarEvent → Option (Rat × Rat)
  | last, [] => last
  | _, .move x y :: es => lastMoved (some (x, y)) es
  | last, _ :: es => lastMoved last es

/-- The setting of item `j` of menu `k`. -/
def settingOf (b : ToolBar) (k j : Nat) : Bool := ((b.menus[k]?.bind fun m => m.items[j]?).map (·.setting)).getD false

/-- Items are highlighted as the last move left them. -/
def Follows (b : ToolBar) (moved : Option (Rat × Rat)) : Prop :=
  ∀ m ∈ b.menus, ∀ i ∈ m.items, i.hovered = mouseIn moved (m.x + 3) (20 + i.y) 166 22

theorem follows_step {b : ToolBar} {moved : Option (Rat × Rat)} (h : Follows b moved) (e : BarEvent) :
    Follows (b.step e) (lastMoved moved [e]) := by
  cases e with
  | resize w => exact h
  | move x y =>
    intro m hm i hi
    have := C96_highlight b x y m hm i hi
    rw [Bool.eq_iff_iff, this]
    simp only [lastMoved, mouseIn, decide_eq_true_eq]
    constructor
    · rintro ⟨e1, e2, e3, e4⟩
      refine ⟨?_, ?_, ?_, ?_⟩ <;> linarith
    · rintro ⟨e1, e2, e3, e4⟩
      refine ⟨?_, ?_, ?_, ?_⟩ <;> linarith
  | press x y =>
    simp only [step, press, lastMoved]
    split
    · rename_i part _
      cases part with
      | title k =>
        intro m' hm' i hi
        obtain ⟨m, h1, h2⟩ := mem_modify hm'
        have : m'.items = m.items ∧ m'.x = m.x := by
          rcases h2 with rfl | rfl
          · exact ⟨rfl, rfl⟩
          · split <;> exact ⟨rfl, rfl⟩
        rw [this.2]
        exact h m h1 i (this.1 ▸ hi)
      | item k j =>
        intro m' hm' i' hi'
        obtain ⟨m, h1, h2⟩ := mem_modify hm'
        rcases h2 with rfl | rfl
        · exact h _ h1 _ hi'
        · obtain ⟨i, h3, h4⟩ := mem_modify hi'
          have hi : i'.hovered = i.hovered ∧ i'.y = i.y := by
            rcases h4 with rfl | rfl <;> exact ⟨rfl, rfl⟩
          rw [hi.1, hi.2]
          exact h m h1 i h3
    · exact h

theorem follows_run (es : List BarEvent) : ∀ (b : ToolBar) (moved : Option (Rat × Rat)), Follows b moved →
    Follows (b.run es) (lastMoved moved es) := by
  induction es with
  | nil => intro b moved h; exact h
  | cons e es ih =>
    intro b moved h
    have := ih _ _ (follows_step h e)
    cases e <;> exact this

theorem item_draw {i : BarItem} {moved : Option (Rat × Rat)} {X : Rat} (k j : Nat) (hy : i.y = 3 + 22 * (j : Rat))
    (hh : i.hovered = mouseIn moved (X + 3) (20 + i.y) 166 22) (hs : i.selected = i.setting) :
    i.draw k j (0 + X + 0 + 3) (0 + 0 + 20 + i.y) = rowPicture X k j moved i.setting := by
  have e1 : (0 : Rat) + X + 0 + 3 = X + 3 := by ring
  have e2 : (0 : Rat) + 0 + 20 + i.y = 23 + 22 * (j : Rat) := by rw [hy]; ring
  have e3 : (20 : Rat) + i.y = 23 + 22 * (j : Rat) := by rw [hy]; ring
  have e4 : X + 3 + 32 = X + 35 := by ring
  rw [e1, e2]
  rw [e3] at hh
  unfold BarItem.draw rowPicture
  simp only [← hh, hs, e4]
  cases i.hovered <;> cases i.setting <;> rfl

theorem menu_draw {m : BarMenu} {moved : Option (Rat × Rat)} {X : Rat} (k letters rows : Nat)
    (hshape : shape m = (X, 10 * (letters : Rat), 5 + 22 * (rows : Rat), (List.range rows).map fun (j : Nat) => 3 + 22 * (j : Rat)))
    (isOpen over : Bool) (ho : m.open = isOpen) (ht : m.trayVisible = m.open) (hov : isOpen = false → m.hovered = over)
    (hx : isOpen = true → over = false)
    (hf : ∀ i ∈ m.items, i.hovered = mouseIn moved (m.x + 3) (20 + i.y) 166 22)
    (ha : ∀ i ∈ m.items, i.selected = i.setting) (setting : Nat → Bool)
    (hset : ∀ (j : Nat) i, m.items[j]? = some i → setting j = i.setting) :
    m.draw k = menuPicture X k letters rows isOpen over moved setting := by
  simp only [shape, Prod.mk.injEq] at hshape
  obtain ⟨h1, h2, h3, h4⟩ := hshape
  have hlen : m.items.length = rows := by
    have := congrArg List.length h4
    simpa using this
  have hitems : (m.items.mapIdx fun j i => i.draw k j (0 + m.x + 0 + 3) (0 + 0 + 20 + i.y)) =
      (List.range rows).map fun j => rowPicture X k j moved (setting j) := by
    apply List.ext_getElem?
    intro j
    rw [List.getElem?_mapIdx, List.getElem?_map]
    by_cases hj : j < rows
    · have hj' : j < m.items.length := by omega
      rw [List.getElem?_eq_getElem hj', List.getElem?_range hj, Option.map_some, Option.map_some]
      have hy := congrArg (·[j]?) h4
      simp only [List.getElem?_map, List.getElem?_eq_getElem hj', List.getElem?_range hj, Option.map_some, Option.some.injEq] at hy
      have hmem := List.getElem_mem hj'
      rw [hset j _ (List.getElem?_eq_getElem hj')]
      have := hf _ hmem
      rw [h1] at this ⊢
      rw [item_draw k j hy this (ha _ hmem)]
    · rw [List.getElem?_eq_none (by omega), List.getElem?_eq_none (by rw [List.length_range]; omega)]
      rfl
  unfold BarMenu.draw
  rw [hitems]
  unfold BarMenu.drawTitle BarMenu.drawTray menuPicture
  rw [ht, ho, h1, h2, h3, List.flatMap_def]
  have e5 : (19 : Rat) - 2 = 17 := by norm_num
  have e6 : (19 : Rat) - 1 = 18 := by norm_num
  have e7 : (20 : Rat) - 1 = 19 := by norm_num
  have e8 : (172 : Rat) - 1 = 171 := by norm_num
  simp only [zero_add, add_zero, e5, e6, e7, e8]
  cases isOpen with
  | true => rfl
  | false =>
    rw [hov rfl]
    cases over <;> rfl

/-- C128 (partial: for events as in C96).  What the tool bar draws depends on which menu is open, on the settings and on where
the mouse is, and on nothing else that happened before: the open menu is marked and its tray shown, and no other; with all
menus closed, the title under the mouse is marked; the items under the mouse are highlighted, those whose setting is on are
ticked. -/
theorem C128_picture_partial (width : Rat) (ms : List (Nat × Nat))
    (hw : 10 * (((ms.map Prod.fst).sum : Nat) : Rat) ≤ width) (es : List BarEvent)
    (hc : Calm ((create width).setup ms).menus none es) (b : ToolBar) (hb : b = ((create width).setup ms).run es) :
    ∃ opened : Option Nat, (opened = none ↔ b.menusOpen = false) ∧ (∀ k, opened = some k → k < ms.length) ∧
      b.draw = picture ms b.width opened (lastSeen none es) (lastMoved none es) (settingOf b) := by
  have htidy : Tidy b (lastSeen none es) := hb ▸ C96_open_partial width ms hw es hc
  have hshape := C96_places es ((create width).setup ms)
  rw [← hb, C96_setup] at hshape
  have hlen : b.menus.length = ms.length := by
    have := congrArg List.length hshape
    simpa using this
  have hfol : Follows b (lastMoved none es) := by
    rw [hb]
    refine follows_run es _ _ ?_
    rw [C96_setup]
    intro m hm i hi
    obtain ⟨k, n, h1, rfl⟩ := mem_expected hm
    simp only [expected, List.mem_map] at hi
    obtain ⟨j, -, rfl⟩ := hi
    rfl
  have hset := C96_settings width ms es
  rw [← hb] at hset
  obtain ⟨opened, ho1, ho2, ho3⟩ : ∃ opened : Option Nat, (opened = none ↔ b.menusOpen = false) ∧
      (∀ k, opened = some k → k < ms.length) ∧
      ∀ (j : Nat) m, b.menus[j]? = some m → m.open = decide (opened = some j) := by
    cases hbo : b.menusOpen with
    | false =>
      refine ⟨none, by simp, by simp, ?_⟩
      intro j m hm
      rw [(htidy.closed hbo m (List.mem_of_getElem? hm)).1]
      simp
    | true =>
      obtain ⟨-, k, hk, hone⟩ := htidy.one hbo
      refine ⟨some k, by simp, ?_, ?_⟩
      · intro k' hk'
        rw [← hlen, ← Option.some.inj hk']
        exact hk
      · intro j m hm
        rw [Bool.eq_iff_iff, hone j m hm, decide_eq_true_eq, Option.some.injEq]
        exact eq_comm
  refine ⟨opened, ho1, ho2, ?_⟩
  unfold ToolBar.draw picture
  rw [show (0 : Rat) + 20 - 2 = 18 by norm_num]
  congr 2
  apply List.ext_getElem?
  intro k
  rw [List.getElem?_mapIdx, List.getElem?_mapIdx]
  by_cases hk : k < ms.length
  · have hk' : k < b.menus.length := by omega
    have hm := List.getElem?_eq_getElem hk'
    have hn := List.getElem?_eq_getElem hk
    generalize b.menus[k] = m at hm
    generalize ms[k] = n at hn
    rw [hm, hn, Option.map_some, Option.map_some]
    congr 1
    have hmem := List.mem_of_getElem? hm
    have hs : shape m = shape (expected ms k n) := by
      have := congrArg (·[k]?) hshape
      simpa only [List.getElem?_map, hm, List.getElem?_mapIdx, hn, Option.map_some, Option.some.injEq] using this
    have hsx : m.x = titleX ms k := congrArg Prod.fst hs
    have hsw : m.width = 10 * (n.1 : Rat) := congrArg (·.2.1) hs
    refine menu_draw k n.1 n.2 ?_ _ _ (ho3 k m hm) (htidy.tray m hmem) ?_ ?_ (hfol m hmem) (hset m hmem) _ ?_
    · rw [hs]
      simp only [shape, expected, titleX, List.map_map]
      rfl
    · intro hno
      rw [decide_eq_false_iff_not] at hno
      cases hbo : b.menusOpen with
      | false =>
        rw [Bool.eq_iff_iff, (htidy.closed hbo m hmem).2, Bool.and_eq_true, decide_eq_true_eq]
        rw [← hsx, ← hsw]
        unfold Over mouseIn
        cases lastSeen none es with
        | none => simp
        | some p =>
          simp only [Option.some.injEq, exists_eq_left', decide_eq_true_eq, zero_add]
          exact ⟨fun h => ⟨ho1.mpr hbo, h⟩, fun h => h.2⟩
      | true =>
        rw [(htidy.still hbo m hmem).1]
        have : opened ≠ none := fun h => by rw [ho1.mp h] at hbo; exact absurd hbo (by simp)
        simp [this]
    · intro hyes
      rw [decide_eq_true_eq] at hyes
      simp [hyes]
    · intro j i hi
      unfold settingOf
      rw [hm, Option.bind_some, hi]
      rfl
  · rw [List.getElem?_eq_none (by omega), List.getElem?_eq_none (by omega)]
    rfl

/-- The sample with "View" open, the mouse moved to its second item and that item chosen. -/
example : ((sample 640).run [.move 90 10, .press 90 10, .move 100 60, .press 100 60]).draw =
    picture [(6, 1), (4, 3)] 640 (some 1) (some (100, 60)) (some (100, 60)) (fun k j => k == 1 && j == 1) ∧
    (picture [(6, 1), (4, 3)] 640 (some 1) (some (100, 60)) (some (100, 60)) (fun k j => k == 1 && j == 1)).length = 13 := by
  decide +kernel

/-! ### Pixels -/

/-- The pixels of a step: those between the corners of a rectangle rounded down, those of the four lines of an outline.  The
lines of an outline end at the pixels `C110_outline` names. -/
def _root_.RichText.BarStep.Covers : BarStep → Int → Int → Prop
  | .fill x y w h _, i, j => ⌊x⌋ ≤ i ∧ i < ⌊x + w⌋ ∧ ⌊y⌋ ≤ j ∧ j < ⌊y + h⌋
  | .outline x y w h _, i, j => ⌊x⌋ ≤ i ∧ i ≤ ⌊x + w⌋ ∧ ⌊y⌋ ≤ j ∧ j ≤ ⌊y + h⌋ ∧
      (i = ⌊x⌋ ∨ i = ⌊x + w⌋ ∨ j = ⌊y⌋ ∨ j = ⌊y + h⌋)
  | .text .., _, _ => False

/-- C128: a filled rectangle covers, in a window of any size and whatever the rule for centres on edges is, the pixels
`Covers` says. -/
theorem C128_pixels (tie : Pt → Pt → Bool) (ht : FairTie tie) (W H : Rat) (hW : 0 < W) (hH : 0 < H) (x y w h : Rat) (c : Rgba)
    (hw : 0 ≤ w) (hh : 0 ≤ h) (i j : Int) :
    quadFragments tie .rect (W, H) (W, H) ⟨x, y, w, h, unitTex, c.vec⟩ i j ≠ [] ↔ (BarStep.fill x y w h c).Covers i j := by
  rw [C110_rect tie ht W H hW hH _ hw hh]
  unfold BarStep.Covers
  dsimp only
  split <;> simp_all

theorem covers_fill (x y w h : Int) (c : Rgba) (i j : Int) :
    (BarStep.fill (x : Rat) (y : Rat) (w : Rat) (h : Rat) c).Covers i j ↔ x ≤ i ∧ i < x + w ∧ y ≤ j ∧ j < y + h := by
  unfold BarStep.Covers
  dsimp only
  rw [← Int.cast_add, ← Int.cast_add]
  simp only [Int.floor_intCast]

theorem covers_outline (x y w h : Int) (c : Rgba) (i j : Int) :
    (BarStep.outline (x : Rat) (y : Rat) (w : Rat) (h : Rat) c).Covers i j ↔
      x ≤ i ∧ i ≤ x + w ∧ y ≤ j ∧ j ≤ y + h ∧ (i = x ∨ i = x + w ∨ j = y ∨ j = y + h) := by
  unfold BarStep.Covers
  dsimp only
  rw [← Int.cast_add, ← Int.cast_add]
  simp only [Int.floor_intCast]

/-- `titleX` as an integer. -/
def titleZ (ms : List (Nat × Nat)) (k : Nat) : Int := 10 * (((ms.take k).map Prod.fst).sum : Nat)

theorem titleX_eq (ms : List (Nat × Nat)) (k : Nat) : titleX ms k = (titleZ ms k : Rat) := by
  unfold titleX titleZ
  push_cast
  rfl

theorem fill_int {x y w h : Rat} (x' y' w' h' : Int) (c : Rgba) (hx : x = x') (hy : y = y') (hw : w = w') (hh : h = h') (i j : Int) :
    (BarStep.fill x y w h c).Covers i j ↔ x' ≤ i ∧ i < x' + w' ∧ y' ≤ j ∧ j < y' + h' := by
  subst hx hy hw hh
  exact covers_fill ..

theorem outline_int {x y w h : Rat} (x' y' w' h' : Int) (c : Rgba) (hx : x = x') (hy : y = y') (hw : w = w') (hh : h = h')
    (i j : Int) : (BarStep.outline x y w h c).Covers i j ↔
      x' ≤ i ∧ i ≤ x' + w' ∧ y' ≤ j ∧ j ≤ y' + h' ∧ (i = x' ∨ i = x' + w' ∨ j = y' ∨ j = y' + h') := by
  subst hx hy hw hh
  exact covers_outline ..

/-- C128: what a pixel of the title of a menu shows: inside, the filled rectangle; on the edge, the outline; never both, so
that the translucent colours do not add up. -/
theorem C128_title (X : Int) (letters : Nat) (hl : 0 < letters) (c d : Rgba) (i j : Int) :
    ((BarStep.fill ((X : Rat) + 1) 1 (10 * letters - 2) 17 c).Covers i j ↔
      X < i ∧ i < X + 10 * letters - 1 ∧ 0 < j ∧ j < 18) ∧
    ((BarStep.outline X 0 (10 * letters - 1) 18 d).Covers i j ↔
      (X ≤ i ∧ i < X + 10 * letters ∧ 0 ≤ j ∧ j < 19) ∧ ¬ (X < i ∧ i < X + 10 * letters - 1 ∧ 0 < j ∧ j < 18)) := by
  rw [fill_int (X + 1) 1 (10 * letters - 2) 17 c (by push_cast; rfl) (by norm_num) (by push_cast; rfl) (by norm_num),
    outline_int X 0 (10 * letters - 1) 18 d rfl (by norm_num) (by push_cast; rfl) (by norm_num)]
  omega

/-- C128: where the tool bar draws, with no name empty.  Above row 20 these are the line below the bar and the titles, each
in its own pixels.  From there on it is the tray of the open menu, 172 pixels wide: its background, a border of one pixel
around it, and rows of 22 pixels with two pixels between them and the border. -/
theorem C128_places (ms : List (Nat × Nat)) (hms : ∀ m ∈ ms, 0 < m.1) (width : Rat) (opened : Option Nat)
    (mouse moved : Option (Rat × Rat)) (setting : Nat → Nat → Bool) (s : BarStep)
    (hs : s ∈ picture ms width opened mouse moved setting) (i j : Int) (hc : s.Covers i j) :
    (s = .fill 0 18 width 2 (240, 240, 240, 255) ∧ 0 ≤ i ∧ i < ⌊width⌋ ∧ 18 ≤ j ∧ j < 20) ∨
    (∃ k n, ms[k]? = some n ∧ titleZ ms k ≤ i ∧ i < titleZ ms k + 10 * n.1 ∧ 0 ≤ j ∧ j < 19) ∨
    (∃ k n, opened = some k ∧ ms[k]? = some n ∧ titleZ ms k ≤ i ∧ i < titleZ ms k + 172 ∧ 20 ≤ j ∧ j < 26 + 22 * n.2 ∧
      (s = .fill (titleZ ms k) 20 171 (5 + 22 * n.2) (242, 242, 242, 255) ∨
      (s = .outline (titleZ ms k) 20 171 (5 + 22 * n.2) (204, 204, 204, 255) ∧
        (i = titleZ ms k ∨ i = titleZ ms k + 171 ∨ j = 20 ∨ j = 25 + 22 * n.2)) ∨
      ∃ r : Nat, r < n.2 ∧ mouseIn moved (titleZ ms k + 3) (23 + 22 * r) 166 22 = true ∧
        titleZ ms k + 3 ≤ i ∧ i < titleZ ms k + 169 ∧ 23 + 22 * r ≤ j ∧ j < 45 + 22 * r ∧
        (s = .fill (titleZ ms k + 3) (23 + 22 * r) 166 22 (145, 201, 247, 255) ∨
          (setting k r = true ∧ i < titleZ ms k + 25 ∧
            s = .fill (titleZ ms k + 3) (23 + 22 * r) 22 22 (86, 176, 250, 255))))) := by
  unfold picture at hs
  rw [List.mem_cons] at hs
  rcases hs with rfl | hs
  · left
    unfold BarStep.Covers at hc
    dsimp only at hc
    have e1 : ⌊(0 : Rat)⌋ = 0 := by simp
    have e2 : ⌊(18 : Rat)⌋ = 18 := by norm_num
    have e3 : ⌊(18 : Rat) + 2⌋ = 20 := by norm_num
    rw [e1, e2, e3, zero_add] at hc
    exact ⟨rfl, hc⟩
  · right
    rw [List.mem_flatten] at hs
    obtain ⟨l, hl, hs⟩ := hs
    obtain ⟨k, hk⟩ := List.mem_iff_getElem?.mp hl
    obtain ⟨n, hn, rfl⟩ := getElem?_mapIdx_some hk
    have hpos := hms n (List.mem_of_getElem? hn)
    rw [titleX_eq] at hs
    unfold menuPicture at hs
    rw [List.mem_append, List.mem_append] at hs
    rcases hs with (hs | hs) | hs
    · left
      split at hs
      · simp only [List.mem_cons, List.not_mem_nil, or_false] at hs
        refine ⟨k, n, hn, ?_⟩
        rcases hs with rfl | rfl
        · have := (C128_title (titleZ ms k) n.1 hpos _ (0, 0, 0, 0) i j).1.mp hc
          omega
        · exact ((C128_title (titleZ ms k) n.1 hpos (0, 0, 0, 0) _ i j).2.mp hc).1
      · simp at hs
    · rw [List.mem_singleton] at hs
      subst hs
      exact hc.elim
    · right
      split at hs
      · rename_i ho
        refine ⟨k, n, of_decide_eq_true ho, hn, ?_⟩
        simp only [List.mem_append, List.mem_cons, List.not_mem_nil, or_false, List.mem_flatMap, List.mem_range] at hs
        rcases hs with (rfl | rfl) | ⟨r, hr, hs⟩
        · rw [fill_int (titleZ ms k) 20 171 (5 + 22 * n.2) _ rfl (by norm_num) (by norm_num) (by push_cast; rfl)] at hc
          exact ⟨by omega, by omega, by omega, by omega, .inl rfl⟩
        · rw [outline_int (titleZ ms k) 20 171 (5 + 22 * n.2) _ rfl (by norm_num) (by norm_num) (by push_cast; rfl)] at hc
          exact ⟨by omega, by omega, by omega, by omega, .inr (.inl ⟨rfl, by omega⟩)⟩
        · unfold rowPicture at hs
          simp only [List.mem_append] at hs
          rcases hs with ((hs | hs) | hs) | hs
          · split at hs
            · rename_i hover
              rw [List.mem_singleton] at hs
              subst hs
              rw [fill_int (titleZ ms k + 3) (23 + 22 * r) 166 22 _ (by push_cast; rfl) (by push_cast; rfl) (by norm_num) (by norm_num)] at hc
              exact ⟨by omega, by omega, by omega, by omega,
                .inr (.inr ⟨r, hr, hover, by omega, by omega, by omega, by omega, .inl rfl⟩)⟩
            · simp at hs
          · split at hs
            · rename_i hover
              rw [Bool.and_eq_true] at hover
              rw [List.mem_singleton] at hs
              subst hs
              rw [fill_int (titleZ ms k + 3) (23 + 22 * r) 22 22 _ (by push_cast; rfl) (by push_cast; rfl) (by norm_num) (by norm_num)] at hc
              exact ⟨by omega, by omega, by omega, by omega,
                .inr (.inr ⟨r, hr, hover.2, by omega, by omega, by omega, by omega, .inr ⟨hover.1, by omega, rfl⟩⟩)⟩
            · simp at hs
          · split at hs
            · rw [List.mem_singleton] at hs
              subst hs
              exact hc.elim
            · simp at hs
          · rw [List.mem_singleton] at hs
            subst hs
            exact hc.elim
      · simp at hs

/-- C128: the titles of different menus have no pixel in common. -/
theorem C128_apart (ms : List (Nat × Nat)) {k l : Nat} {n : Nat × Nat} (hkl : k < l) (hn : ms[k]? = some n) :
    titleZ ms k + 10 * n.1 ≤ titleZ ms l := by
  unfold titleZ
  have h1 : ms.take (k + 1) = ms.take k ++ [n] := by
    rw [List.take_add_one, hn]
    rfl
  have h2 : ((ms.take (k + 1)).map Prod.fst).sum = ((ms.take k).map Prod.fst).sum + n.1 := by
    rw [h1]
    simp
  have h3 : ((ms.take (k + 1)).map Prod.fst).sum ≤ ((ms.take l).map Prod.fst).sum := by
    have : ms.take l = ms.take (k + 1) ++ (ms.take l).drop (k + 1) := by
      have h := List.take_append_drop (k + 1) (ms.take l)
      rw [List.take_take, Nat.min_eq_left (by omega)] at h
      exact h.symm
    rw [this, List.map_append, List.sum_append]
    omega
  omega

/-! ### What is seen is what takes the press -/

/-- C128 (partial: for events as in C96).  A press in the middle of a pixel reaches the item or the title that is drawn
there: item `r` of menu `k` if and only if the menu is open and the pixel is one of those that are highlighted with the item,
the title of menu `k` if and only if the pixel is one of those that are marked with the title. -/
theorem C128_press_partial (width : Rat) (ms : List (Nat × Nat))
    (hw : 10 * (((ms.map Prod.fst).sum : Nat) : Rat) ≤ width) (es : List BarEvent)
    (hc : Calm ((create width).setup ms).menus none es) (b : ToolBar) (hb : b = ((create width).setup ms).run es) (i j : Int) :
    (∀ k r, b.hit true ((i : Rat) + 1 / 2) ((j : Rat) + 1 / 2) = some (.item k r) ↔
      ∃ m n, b.menus[k]? = some m ∧ m.open = true ∧ ms[k]? = some n ∧ r < n.2 ∧
        (BarStep.fill (titleX ms k + 3) (23 + 22 * r) 166 22 (145, 201, 247, 255)).Covers i j) ∧
    (∀ k, b.hit true ((i : Rat) + 1 / 2) ((j : Rat) + 1 / 2) = some (.title k) ↔
      ∃ n, ms[k]? = some n ∧ titleZ ms k ≤ i ∧ i < titleZ ms k + 10 * n.1 ∧ 0 ≤ j ∧ j < 19) := by
  have htidy : Tidy b (lastSeen none es) := hb ▸ C96_open_partial width ms hw es hc
  have hshape := C96_places es ((create width).setup ms)
  rw [← hb, C96_setup] at hshape
  have hone : ∀ (k k' : Nat) m m', b.menus[k]? = some m → b.menus[k']? = some m' → m.open = true → m'.open = true → k = k' := by
    intro k k' m m' hm hm' ho ho'
    have hopen : b.menusOpen = true := by
      by_contra hcl
      rw [Bool.not_eq_true] at hcl
      rw [(htidy.closed hcl m (List.mem_of_getElem? hm)).1] at ho
      exact absurd ho (by simp)
    obtain ⟨-, k0, -, h⟩ := htidy.one hopen
    rw [(h k m hm).mp ho, (h k' m' hm').mp ho']
  -- menus and what they were set up with
  have hmenu : ∀ (k : Nat) m, b.menus[k]? = some m → ∃ n, ms[k]? = some n ∧ m.x = titleX ms k ∧ m.width = 10 * (n.1 : Rat) ∧
      m.items.length = n.2 ∧ ∀ (r : Nat) it, m.items[r]? = some it → it.y = 3 + 22 * (r : Rat) := by
    intro k m hk
    obtain ⟨m0, h1, h2⟩ := shape_at hshape hk
    obtain ⟨n, h3, rfl⟩ := getElem?_mapIdx_some h1
    simp only [shape, Prod.mk.injEq] at h2
    refine ⟨n, h3, h2.1, h2.2.1, ?_, ?_⟩
    · have := congrArg List.length h2.2.2.2
      simpa [expected] using this
    · intro r it hr
      have := congrArg (·[r]?) h2.2.2.2
      simp only [expected, List.map_map, List.getElem?_map, hr, Option.map_some] at this
      by_cases hjn : r < n.2
      · rw [List.getElem?_eq_getElem (by simpa using hjn)] at this
        simpa using this
      · rw [List.getElem?_eq_none (by simpa using hjn)] at this
        simp at this
  have hback : ∀ (k : Nat) n, ms[k]? = some n → ∃ m, b.menus[k]? = some m := by
    intro k n hn
    have := congrArg List.length hshape
    simp only [List.length_map, List.length_mapIdx] at this
    exact ⟨_, List.getElem?_eq_getElem (by rw [this]; exact (List.getElem?_eq_some_iff.mp hn).1)⟩
  -- rows and titles in terms of pixels
  have half : ∀ (a b : Int), (a : Rat) ≤ (b : Rat) + 1 / 2 ↔ a ≤ b := by
    intro a b
    constructor
    · intro h
      have : (a : Rat) < ((b + 1 : Int) : Rat) := by push_cast; linarith
      have : a < b + 1 := by exact_mod_cast this
      omega
    · intro h
      have : (a : Rat) ≤ (b : Rat) := by exact_mod_cast h
      linarith
  have half' : ∀ (a b : Int), (b : Rat) + 1 / 2 ≤ (a : Rat) ↔ b < a := by
    intro a b
    constructor
    · intro h
      have : (b : Rat) < (a : Rat) := by linarith
      exact_mod_cast this
    · intro h
      have : ((b + 1 : Int) : Rat) ≤ (a : Rat) := by exact_mod_cast h
      push_cast at this
      linarith
  have hrow : ∀ (k r : Nat) m it, b.menus[k]? = some m → m.items[r]? = some it →
      (it.inside m.x ((i : Rat) + 1 / 2) ((j : Rat) + 1 / 2) = true ↔
        titleZ ms k + 3 ≤ i ∧ i < titleZ ms k + 169 ∧ 23 + 22 * r ≤ j ∧ j < 45 + 22 * r) := by
    intro k r m it hk hr
    obtain ⟨n, -, hx, -, -, hy⟩ := hmenu k m hk
    unfold BarItem.inside
    rw [mouseInside_iff, hx, hy r it hr, titleX_eq, ← half (titleZ ms k + 3) i, ← half' (titleZ ms k + 169) i,
      ← half (23 + 22 * r) j, ← half' (45 + 22 * r) j]
    push_cast
    constructor
    · rintro ⟨e1, e2, e3, e4⟩
      refine ⟨?_, ?_, ?_, ?_⟩ <;> linarith
    · rintro ⟨e1, e2, e3, e4⟩
      refine ⟨?_, ?_, ?_, ?_⟩ <;> linarith
  have htitle : ∀ (k : Nat) m n, b.menus[k]? = some m → ms[k]? = some n →
      (m.inside ((i : Rat) + 1 / 2) ((j : Rat) + 1 / 2) = true ↔
        titleZ ms k ≤ i ∧ i < titleZ ms k + 10 * n.1 ∧ 0 ≤ j ∧ j < 19) := by
    intro k m n hk hn
    obtain ⟨n', hn', hx, hwd, -, -⟩ := hmenu k m hk
    rw [hn] at hn'
    cases hn'
    rw [inside_iff]
    unfold Over
    rw [hx, hwd, titleX_eq, ← half (titleZ ms k) i, ← half' (titleZ ms k + 10 * n.1) i, ← half 0 j, ← half' 19 j]
    push_cast
    rfl
  have hcov : ∀ (k r : Nat), (BarStep.fill (titleX ms k + 3) (23 + 22 * r) 166 22 (145, 201, 247, 255)).Covers i j ↔
      titleZ ms k + 3 ≤ i ∧ i < titleZ ms k + 169 ∧ 23 + 22 * r ≤ j ∧ j < 45 + 22 * r := by
    intro k r
    rw [titleX_eq, fill_int (titleZ ms k + 3) (23 + 22 * r) 166 22 _ (by push_cast; rfl) (by push_cast; rfl) (by norm_num)
      (by norm_num)]
    omega
  -- what a hit means
  have fwdItem : ∀ k r, b.hit true ((i : Rat) + 1 / 2) ((j : Rat) + 1 / 2) = some (.item k r) →
      ∃ m n, b.menus[k]? = some m ∧ m.open = true ∧ ms[k]? = some n ∧ r < n.2 ∧
        titleZ ms k + 3 ≤ i ∧ i < titleZ ms k + 169 ∧ 23 + 22 * r ≤ j ∧ j < 45 + 22 * r := by
    intro k r h
    obtain ⟨m, it, h1, h2, h3, h4⟩ := hit_item h
    obtain ⟨n, hn, -, -, hlen, -⟩ := hmenu k m h1
    refine ⟨m, n, h1, (htidy.tray m (List.mem_of_getElem? h1)).symm.trans h2, hn, ?_, (hrow k r m it h1 h3).mp h4⟩
    rw [← hlen]
    exact (List.getElem?_eq_some_iff.mp h3).1
  have fwdTitle : ∀ k, b.hit true ((i : Rat) + 1 / 2) ((j : Rat) + 1 / 2) = some (.title k) →
      ∃ n, ms[k]? = some n ∧ titleZ ms k ≤ i ∧ i < titleZ ms k + 10 * n.1 ∧ 0 ≤ j ∧ j < 19 := by
    intro k h
    obtain ⟨m, h1, -, h2⟩ := hit_title h
    obtain ⟨n, hn, -⟩ := hmenu k m h1
    exact ⟨n, hn, (htitle k m n h1 hn).mp h2⟩
  refine ⟨fun k r => ⟨fun h => ?_, ?_⟩, fun k => ⟨fwdTitle k, ?_⟩⟩
  · obtain ⟨m, n, h1, h2, h3, h4, h5⟩ := fwdItem k r h
    exact ⟨m, n, h1, h2, h3, h4, (hcov k r).mpr h5⟩
  · rintro ⟨m, n, h1, h2, h3, h4, h5⟩
    rw [hcov] at h5
    obtain ⟨n', hn', -, -, hlen, -⟩ := hmenu k m h1
    rw [h3] at hn'
    cases hn'
    have hr : r < m.items.length := by rw [hlen]; exact h4
    cases hh : b.hit true ((i : Rat) + 1 / 2) ((j : Rat) + 1 / 2) with
    | none =>
      have := (hit_none hh m (List.mem_of_getElem? h1)).2 ((htidy.tray m (List.mem_of_getElem? h1)).trans h2) _
        (List.getElem_mem hr)
      rw [(hrow k r m _ h1 (List.getElem?_eq_getElem hr)).mpr h5] at this
      exact absurd this (by simp)
    | some part =>
      cases part with
      | title k' =>
        obtain ⟨n', _, _, _, _, _⟩ := fwdTitle k' hh
        omega
      | item k' r' =>
        obtain ⟨m', n', g1, g2, g3, g4, g5⟩ := fwdItem k' r' hh
        obtain rfl := hone k k' m m' h1 g1 h2 g2
        rw [show r' = r by omega]
  · rintro ⟨n, hn, h5⟩
    obtain ⟨m, h1⟩ := hback k n hn
    cases hh : b.hit true ((i : Rat) + 1 / 2) ((j : Rat) + 1 / 2) with
    | none =>
      have := (hit_none hh m (List.mem_of_getElem? h1)).1 rfl
      rw [(htitle k m n h1 hn).mpr h5] at this
      exact absurd this (by simp)
    | some part =>
      cases part with
      | title k' =>
        obtain ⟨n', g1, g2⟩ := fwdTitle k' hh
        rcases Nat.lt_trichotomy k k' with hlt | heq | hlt
        · have := C128_apart ms hlt hn
          omega
        · rw [heq]
        · have := C128_apart ms hlt g1
          omega
      | item k' r' =>
        obtain ⟨m', n', _, _, _, _, _⟩ := fwdItem k' r' hh
        omega

/-- Pixel (100, 60) is in the second row of "View", pixel (70, 3) in the title. -/
example : ((sample 640).run [.move 90 10, .press 90 10]).hit true (100 + 1 / 2) (60 + 1 / 2) = some (.item 1 1) ∧
    ((sample 640).run [.move 90 10, .press 90 10]).hit true (70 + 1 / 2) (3 + 1 / 2) = some (.title 1) := by decide +kernel

/-! ### Texts -/

/-- C128: the area of a name is its title, that of a tick is inside of its row. -/
theorem C128_areas (ms : List (Nat × Nat)) (width : Rat) (opened : Option Nat) (mouse moved : Option (Rat × Rat))
    (setting : Nat → Nat → Bool) (l : BarLabel) (x y w h : Rat) (ax : XAlignment) (ay : YAlignment)
    (hs : .text l x y w h ax ay ∈ picture ms width opened mouse moved setting) :
    (∃ k n, ms[k]? = some n ∧ l = .name k ∧ x = titleX ms k ∧ y = 0 ∧ w = 10 * n.1 ∧ h = 19 ∧ ax = .center ∧ ay = .center) ∨
    (∃ k n r, opened = some k ∧ ms[k]? = some n ∧ r < n.2 ∧
      ((l = .tick ∧ setting k r = true ∧ x = titleX ms k + 3 ∧ y = 23 + 22 * r ∧ w = 22 ∧ h = 22 ∧ ax = .center ∧ ay = .center) ∨
        (l = .label k r ∧ x = titleX ms k + 35 ∧ y = 23 + 22 * r ∧ w = 166 ∧ h = 22 ∧ ax = .left ∧ ay = .center))) := by
  unfold picture at hs
  rw [List.mem_cons] at hs
  rcases hs with hs | hs
  · cases hs
  · rw [List.mem_flatten] at hs
    obtain ⟨q, hq, hs⟩ := hs
    obtain ⟨k, hk⟩ := List.mem_iff_getElem?.mp hq
    obtain ⟨n, hn, rfl⟩ := getElem?_mapIdx_some hk
    unfold menuPicture at hs
    rw [List.mem_append, List.mem_append] at hs
    rcases hs with (hs | hs) | hs
    · split at hs <;> simp at hs
    · rw [List.mem_singleton] at hs
      injection hs with e1 e2 e3 e4 e5 e6 e7
      exact .inl ⟨k, n, hn, e1, e2, e3, e4, e5, e6, e7⟩
    · split at hs
      · rename_i ho
        simp only [List.mem_append, List.mem_cons, List.not_mem_nil, or_false, List.mem_flatMap, List.mem_range, reduceCtorEq,
          false_or] at hs
        obtain ⟨r, hr, hs⟩ := hs
        refine .inr ⟨k, n, r, of_decide_eq_true ho, hn, hr, ?_⟩
        unfold rowPicture at hs
        simp only [List.mem_append] at hs
        rcases hs with ((hs | hs) | hs) | hs
        · split at hs <;> simp at hs
        · split at hs <;> simp at hs
        · split at hs
          · rename_i hset
            rw [List.mem_singleton] at hs
            injection hs with e1 e2 e3 e4 e5 e6 e7
            exact .inl ⟨e1, hset, e2, e3, e4, e5, e6, e7⟩
          · simp at hs
        · rw [List.mem_singleton] at hs
          injection hs with e1 e2 e3 e4 e5 e6 e7
          exact .inr ⟨e1, e2, e3, e4, e5, e6, e7⟩
      · simp at hs

/-- C128 is violated for the texts of items: the area of every one of them, which is as wide as the row but begins 32 pixels
later, ends 29 pixels behind the tray.  A text wider than 134 pixels leaves its row; it is broken into lines only at 166. -/
theorem C128_text_violated (ms : List (Nat × Nat)) (width : Rat) (k : Nat) (n : Nat × Nat) (hn : ms[k]? = some n) (r : Nat)
    (hr : r < n.2) (mouse moved : Option (Rat × Rat)) (setting : Nat → Nat → Bool) :
    ∃ x y w h ax ay, .text (.label k r) x y w h ax ay ∈ picture ms width (some k) mouse moved setting ∧
      x + w = (titleX ms k + 172) + 29 ∧ x + 134 = (titleX ms k + 3) + 166 := by
  refine ⟨titleX ms k + 35, 23 + 22 * r, 166, 22, .left, .center, ?_, by ring, by ring⟩
  unfold picture
  refine List.mem_cons_of_mem _ (List.mem_flatten.mpr
    ⟨menuPicture (titleX ms k) k n.1 n.2 true false moved (setting k), List.mem_of_getElem? (i := k) ?_, ?_⟩)
  · rw [List.getElem?_mapIdx, hn]
    simp
  · unfold menuPicture
    simp only [if_true, List.mem_append, List.mem_flatMap, List.mem_range]
    refine .inr (.inr ⟨r, hr, ?_⟩)
    unfold rowPicture
    simp

end ToolBar
end RichText
