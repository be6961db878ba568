import Verif.Proof.ToolBar
import Verif.Props.TextBox
import Mathlib.Data.List.Induction
import Mathlib.Tactic.NormNum
/-! The tool bar (C96) and the window (C97). -/
namespace RichText
namespace ToolBar

/-! ### Where things are -/

/-- The menu the user sees: titles side by side, each ten pixels per letter of its name;
below the bar a tray with rows of 22 pixels, three pixels inside of it. -/
def expected (ms : List (Nat × Nat)) (k : Nat) (m : Nat × Nat) : BarMenu :=
  { x := 10 * (((ms.take k).map Prod.fst).sum : Nat), width := 10 * m.1, trayHeight := 5 + 22 * m.2
    items := (List.range m.2).map fun (j : Nat) => { y := 3 + 22 * (j : Rat) } }

theorem modify_last {α : Type _} (f : α → α) (a : α) : ∀ l : List α, (l ++ [a]).modify l.length f = l ++ [f a]
  | [] => rfl
  | b :: l => by simp [modify_last f a l]

theorem addItems (k : Nat) : ∀ (n : Nat) (l : List BarMenu) (m : BarMenu) (b : ToolBar), b.menus = l ++ [m] → k = l.length →
    (List.range n).foldl (fun b' _ => b'.addItem k) b = { b with menus := l ++ [BarMenu.addItem^[n] m] }
  | 0, l, m, b, hb, hk => by
    simp only [List.range_zero, List.foldl_nil, Function.iterate_zero, id]
    rw [← hb]
  | n + 1, l, m, b, hb, hk => by
    rw [List.range_succ, List.foldl_append, addItems k n l m b hb hk]
    subst hk
    simp only [List.foldl_cons, List.foldl_nil, addItem, modify_last, Function.iterate_succ_apply']

theorem addItem_iterate (x : Rat) (name : Nat) : ∀ n : Nat, BarMenu.addItem^[n] (.create x name) =
    { x := x, width := 10 * name, trayHeight := 5 + 22 * n, items := (List.range n).map fun (j : Nat) => { y := 3 + 22 * (j : Rat) } }
  | 0 => by
    simp only [Function.iterate_zero, id, BarMenu.create, List.range_zero, List.map_nil, Nat.cast_zero]
    norm_num
  | n + 1 => by
    rw [Function.iterate_succ_apply', addItem_iterate x name n]
    simp only [BarMenu.addItem, List.range_succ, List.map_append, List.map_cons, List.map_nil, Nat.cast_succ]
    congr 1
    · ring
    · congr 3
      ring

theorem widths (ms : List BarMenu) (names : List Nat) (h : ms.map (·.width) = names.map fun (n : Nat) => (10 * (n : Rat))) :
    ms.foldl (fun offset m => offset + m.width) (0 : Rat) = 10 * (names.sum : Nat) := by
  have : ∀ (ms : List BarMenu) (names : List Nat) (a : Rat), ms.map (·.width) = names.map (fun (n : Nat) => (10 * (n : Rat))) →
      ms.foldl (fun offset m => offset + m.width) a = a + 10 * (names.sum : Nat) := by
    intro ms
    induction ms with
    | nil =>
      intro names a h
      cases names with
      | nil => simp
      | cons => simp at h
    | cons m ms ih =>
      intro names a h
      cases names with
      | nil => simp at h
      | cons n names =>
        simp only [List.map_cons, List.cons.injEq] at h
        rw [List.foldl_cons, ih names _ h.2, h.1, List.sum_cons]
        push_cast
        ring
  rw [this ms names 0 h, zero_add]

/-- C96, geometry: whatever menus are set up, they stand side by side in the bar and
their items stand below each other in the tray; everything is closed. -/
theorem C96_setup (width : Rat) (ms : List (Nat × Nat)) :
    (create width).setup ms = { width := width, menus := ms.mapIdx (expected ms) } := by
  induction ms using List.reverseRecOn with
  | nil => rfl
  | append_singleton ms m ih =>
    have hlen : ∀ (b : ToolBar), b.setup (ms ++ [m]) =
        (List.range m.2).foldl (fun b' _ => b'.addItem (b.setup ms).menus.length) ((b.setup ms).addMenu m.1) := by
      intro b
      simp only [setup, List.foldl_append, List.foldl_cons, List.foldl_nil]
    rw [hlen, ih, addItems _ _ (ms.mapIdx (expected ms)) _ _ rfl rfl, addItem_iterate]
    rw [widths _ (ms.map Prod.fst) (by
      apply List.ext_getElem?
      intro i
      simp only [List.getElem?_mapIdx, List.getElem?_map]
      cases ms[i]? <;> rfl)]
    simp only [addMenu, ToolBar.mk.injEq, true_and]
    rw [List.mapIdx_concat]
    congr 1
    · apply List.ext_getElem?
      intro i
      rw [List.getElem?_mapIdx, List.getElem?_mapIdx]
      by_cases hi : i < ms.length
      · rw [List.getElem?_eq_getElem hi, Option.map_some, Option.map_some]
        simp only [expected, List.take_append_of_le_length (Nat.le_of_lt hi)]
      · rw [List.getElem?_eq_none (by omega)]
        rfl
    · simp only [expected, List.take_left']

/-- The tool bar of the sample. -/
example : (sample 640).menus.map (fun m => (m.x, m.width, m.trayHeight, m.items.map (·.y))) =
    [(0, 60, 27, [3]), (60, 40, 71, [3, 25, 47])] := by decide +kernel

/-! ### Open menus -/

/-- The point is on the title of the menu. -/
def Over (m : BarMenu) (p : Rat × Rat) : Prop := m.x ≤ p.1 ∧ p.1 ≤ m.x + m.width ∧ 0 ≤ p.2 ∧ p.2 ≤ 19

/-- The point is on one title at most. -/
def Single (ms : List BarMenu) (p : Rat × Rat) : Prop :=
  ∀ (j k : Nat) m m', ms[j]? = some m → ms[k]? = some m' → Over m p → Over m' p → j = k

/-- Events as they come with the window wide enough: a button is pressed where the mouse
was last seen, and not where two titles meet. -/
def Calm (ms : List BarMenu) : Option (Rat × Rat) → List BarEvent → Prop
  | _, [] => True
  | _, .move x y :: es => Single ms (x, y) ∧ Calm ms (some (x, y)) es
  | last, .press x y :: es => Single ms (x, y) ∧ (∀ q, last = some q → q = (x, y)) ∧ Calm ms (some (x, y)) es
  | last, .resize w :: es => (∀ m ∈ ms, m.x + m.width ≤ w) ∧ Calm ms last es

/-- Where the mouse was seen last. -/
def lastSeen : Option (Rat × Rat) → List BarEvent → Option (Rat × Rat)
  | last, [] => last
  | _, .move x y :: es => lastSeen (some (x, y)) es
  | _, .press x y :: es => lastSeen (some (x, y)) es
  | last, .resize _ :: es => lastSeen last es

/-- A tool bar as it should be, with the mouse last seen at `last`. -/
structure Tidy (b : ToolBar) (last : Option (Rat × Rat)) : Prop where
  /-- The tray of a menu is shown if and only if the menu is open. -/
  tray : ∀ m ∈ b.menus, m.trayVisible = m.open
  /-- Nothing open: the title under the mouse is highlighted. -/
  closed : b.menusOpen = false → ∀ m ∈ b.menus, m.open = false ∧ (m.hovered = true ↔ ∃ p, last = some p ∧ Over m p)
  /-- Otherwise exactly one menu is open. -/
  one : b.menusOpen = true → (∃ p, last = some p) ∧
    ∃ k, k < b.menus.length ∧ ∀ j m, b.menus[j]? = some m → (m.open = true ↔ j = k)
  /-- It is the one under the mouse if there is one, and no title is highlighted. -/
  still : b.menusOpen = true → ∀ m ∈ b.menus, m.hovered = false ∧ (∀ p, last = some p → Over m p → m.open = true)

theorem inside_iff (m : BarMenu) (mx my : Rat) : m.inside mx my = true ↔ Over m (mx, my) := by
  unfold BarMenu.inside Over
  rw [mouseInside_iff]
  constructor
  · rintro ⟨h1, h2, h3, h4⟩
    refine ⟨h1, ?_, h2, ?_⟩ <;> simp only <;> linarith
  · rintro ⟨h1, h2, h3, h4⟩
    simp only at h1 h2 h3 h4
    refine ⟨h1, h3, ?_, ?_⟩ <;> linarith

/-- A menu without what does not matter here. -/
def core (m : BarMenu) : BarMenu := { m with items := [], trayHeight := 0 }

theorem Over.core {m : BarMenu} {p : Rat × Rat} : Over (core m) p ↔ Over m p := Iff.rfl

theorem core_at {l l' : List BarMenu} (h : l'.map core = l.map core) {j : Nat} {m' : BarMenu} (hm : l'[j]? = some m') :
    ∃ m, l[j]? = some m ∧ core m' = core m := by
  have := congrArg (·[j]?) h
  simp only [List.getElem?_map, hm, Option.map_some] at this
  cases hl : l[j]? with
  | none => rw [hl] at this; simp at this
  | some m =>
    rw [hl, Option.map_some, Option.some.injEq] at this
    exact ⟨m, rfl, this⟩

theorem core_fields {m m' : BarMenu} (h : core m' = core m) :
    m'.x = m.x ∧ m'.width = m.width ∧ m'.trayVisible = m.trayVisible ∧ m'.open = m.open ∧ m'.hovered = m.hovered := by
  simp only [core, BarMenu.mk.injEq] at h
  exact ⟨h.1, h.2.1, h.2.2.2.1, h.2.2.2.2.1, h.2.2.2.2.2.1⟩

theorem Tidy.congr {b b' : ToolBar} {last : Option (Rat × Rat)} (h : Tidy b last) (hm : b'.menus.map core = b.menus.map core)
    (ho : b'.menusOpen = b.menusOpen) : Tidy b' last := by
  have hmem : ∀ m' ∈ b'.menus, ∃ m ∈ b.menus, core m' = core m := by
    intro m' hm'
    obtain ⟨j, hj⟩ := List.mem_iff_getElem?.mp hm'
    obtain ⟨m, h1, h2⟩ := core_at hm hj
    exact ⟨m, List.mem_of_getElem? h1, h2⟩
  refine ⟨fun m' hm' => ?_, fun hc m' hm' => ?_, fun hc => ⟨(h.one (ho ▸ hc)).1, ?_⟩, fun hc m' hm' => ?_⟩
  · obtain ⟨m, h1, h2⟩ := hmem m' hm'
    obtain ⟨-, -, e3, e4, -⟩ := core_fields h2
    rw [e3, e4]
    exact h.tray m h1
  · obtain ⟨m, h1, h2⟩ := hmem m' hm'
    obtain ⟨e1, e2, e3, e4, e5⟩ := core_fields h2
    rw [e4, e5]
    unfold Over
    rw [e1, e2]
    exact h.closed (ho ▸ hc) m h1
  · obtain ⟨-, k, hk, hone⟩ := h.one (ho ▸ hc)
    refine ⟨k, ?_, fun j m' hj => ?_⟩
    · have := congrArg List.length hm
      simp only [List.length_map] at this
      omega
    · obtain ⟨m, h1, h2⟩ := core_at hm hj
      rw [(core_fields h2).2.2.2.1]
      exact hone j m h1
  · obtain ⟨m, h1, h2⟩ := hmem m' hm'
    obtain ⟨e1, e2, e3, e4, e5⟩ := core_fields h2
    rw [e4, e5]
    unfold Over
    rw [e1, e2]
    exact h.still (ho ▸ hc) m h1

/-- What the theorems assume about where things are; `C96_setup` shows it. -/
structure Placed (b : ToolBar) : Prop where
  left : ∀ m ∈ b.menus, 0 ≤ m.x
  fits : ∀ m ∈ b.menus, m.x + m.width ≤ b.width
  below : ∀ m ∈ b.menus, ∀ i ∈ m.items, 0 ≤ i.y

theorem Placed.over {b : ToolBar} (h : Placed b) {m : BarMenu} (hm : m ∈ b.menus) {p : Rat × Rat} (ho : Over m p) :
    mouseInside 0 0 b.width 20 p.1 p.2 = true := by
  rw [mouseInside_iff]
  obtain ⟨h1, h2, h3, h4⟩ := ho
  have := h.left m hm
  have := h.fits m hm
  refine ⟨?_, ?_, ?_, ?_⟩ <;> linarith

theorem getElem?_mapIdx_some {α β : Type _} {f : Nat → α → β} {l : List α} {j : Nat} {b : β} (h : (l.mapIdx f)[j]? = some b) :
    ∃ a, l[j]? = some a ∧ b = f j a := by
  rw [List.getElem?_mapIdx] at h
  cases ha : l[j]? with
  | none => rw [ha] at h; simp at h
  | some a =>
    rw [ha, Option.map_some, Option.some.injEq] at h
    exact ⟨a, rfl, h.symm⟩

theorem getElem?_modify_some {α : Type _} {f : α → α} {l : List α} {k j : Nat} {b : α} (h : (l.modify k f)[j]? = some b) :
    ∃ a, l[j]? = some a ∧ b = if j = k then f a else a := by
  rw [List.getElem?_modify] at h
  cases ha : l[j]? with
  | none => rw [ha] at h; simp at h
  | some a =>
    rw [ha] at h
    simp only [Option.map_eq_map, Option.map_some, Option.some.injEq] at h
    refine ⟨a, rfl, ?_⟩
    rw [← h]
    by_cases hk : j = k
    · simp [hk]
    · simp [hk, Ne.symm hk]

theorem tidy_moveBar {b : ToolBar} {last : Option (Rat × Rat)} (h : Tidy b last) (hp : Placed b) {x y : Rat}
    (hs : Single b.menus (x, y)) : Tidy (b.moveBar x y) (some (x, y)) := by
  unfold moveBar
  cases ho : b.menusOpen with
  | true =>
    obtain ⟨hlast, k, hk, hone⟩ := h.one ho
    have hstay : (∀ m ∈ b.menus, ¬ Over m (x, y)) → Tidy b (some (x, y)) := fun hno =>
      ⟨h.tray, fun hc => absurd hc (by simp [ho]), fun _ => ⟨⟨_, rfl⟩, k, hk, hone⟩, fun hc m hm =>
        ⟨(h.still hc m hm).1, fun p e hov => by cases e; exact absurd hov (hno m hm)⟩⟩
    cases hin : mouseInside 0 0 b.width 20 x y with
    | false =>
      simp only [Bool.and_false, Bool.false_eq_true, if_false, Bool.not_true]
      refine hstay fun m hm hov => ?_
      have := hp.over hm hov
      rw [hin] at this
      exact absurd this (by simp)
    | true =>
      simp only [Bool.and_true, if_true]
      split
      · rename_i f hf
        rw [List.findIdx?_eq_some_iff_getElem] at hf
        obtain ⟨hlt, hf, -⟩ := hf
        have hov : Over b.menus[f] (x, y) := (inside_iff _ _ _).mp hf
        refine ⟨fun m' hm' => ?_, fun hc => absurd hc (by simp [ho]), fun _ => ⟨⟨_, rfl⟩, f, by simpa using hlt, fun j m' hj => ?_⟩, fun _ m' hm' => ?_⟩
        · obtain ⟨j, hj⟩ := List.mem_iff_getElem?.mp hm'
          obtain ⟨m, h1, rfl⟩ := getElem?_mapIdx_some hj
          split <;> rfl
        · obtain ⟨m, h1, rfl⟩ := getElem?_mapIdx_some hj
          by_cases hjf : j = f
          · simp [hjf, BarMenu.setOpen]
          · simp [hjf, BarMenu.setOpen]
        · obtain ⟨j, hj⟩ := List.mem_iff_getElem?.mp hm'
          obtain ⟨m, h1, rfl⟩ := getElem?_mapIdx_some hj
          refine ⟨rfl, fun p e hov' => ?_⟩
          cases e
          have hov' : Over m (x, y) := by
            by_cases hjf : j = f
            · simpa [hjf, BarMenu.setOpen, Over] using hov'
            · simpa [hjf, BarMenu.setOpen, Over] using hov'
          have := hs j f m _ h1 (List.getElem?_eq_getElem hlt) hov' hov
          simp [this, BarMenu.setOpen]
      · rename_i hf
        rw [List.findIdx?_eq_none_iff] at hf
        refine hstay fun m hm hov => ?_
        have := hf m hm
        rw [(inside_iff _ _ _).mpr hov] at this
        exact absurd this (by simp)
  | false =>
    simp only [Bool.false_and, Bool.false_eq_true, if_false, Bool.not_false, if_true]
    refine ⟨fun m' hm' => ?_, fun _ m' hm' => ?_, fun hc => absurd hc (by simp [ho]), fun hc => absurd hc (by simp [ho])⟩
    · obtain ⟨m, h1, rfl⟩ := List.mem_map.mp hm'
      exact h.tray m h1
    · obtain ⟨m, h1, rfl⟩ := List.mem_map.mp hm'
      refine ⟨(h.closed ho m h1).1, ?_⟩
      rw [show (({ m with hovered := m.inside x y } : BarMenu).hovered = true) = (m.inside x y = true) from rfl, inside_iff]
      exact ⟨fun hov => ⟨_, rfl, hov⟩, fun ⟨p, e, hov⟩ => by cases e; exact hov⟩

theorem core_moveItems (l : List BarMenu) (x y : Rat) : (l.map (·.moveItems x y)).map core = l.map core := by
  rw [List.map_map]
  rfl

theorem tidy_move {b : ToolBar} {last : Option (Rat × Rat)} (h : Tidy b last) (hp : Placed b) {x y : Rat}
    (hs : Single b.menus (x, y)) : Tidy (b.move x y) (some (x, y)) :=
  (tidy_moveBar h hp hs).congr (core_moveItems _ x y) rfl

theorem item_below {b : ToolBar} (hp : Placed b) {m : BarMenu} (hm : m ∈ b.menus) {i : BarItem} (hi : i ∈ m.items) {x y : Rat}
    (h : i.inside m.x x y = true) (m' : BarMenu) : ¬ Over m' (x, y) := by
  rintro ⟨-, -, -, h4⟩
  unfold BarItem.inside at h
  rw [mouseInside_iff] at h
  have := hp.below m hm i hi
  simp only at h4
  linarith [h.2.1]

theorem tidy_press {b : ToolBar} {last : Option (Rat × Rat)} (h : Tidy b last) (hp : Placed b) {x y : Rat}
    (hs : Single b.menus (x, y)) (hq : ∀ q, last = some q → q = (x, y)) : Tidy (b.press x y) (some (x, y)) := by
  have hlast : ∀ m : BarMenu, (∃ p, last = some p ∧ Over m p) → Over m (x, y) := by
    rintro m ⟨p, e, ho⟩
    rw [hq p e] at ho
    exact ho
  -- the same bar, with the mouse at the new place
  have hsame : (last = none → ∀ m ∈ b.menus, ¬ Over m (x, y)) → Tidy b (some (x, y)) := by
    intro hn
    refine ⟨h.tray, fun hc m hm => ⟨(h.closed hc m hm).1, (h.closed hc m hm).2.trans ⟨fun h' => ⟨_, rfl, hlast m h'⟩, ?_⟩⟩,
      fun hc => ⟨⟨_, rfl⟩, (h.one hc).2⟩, fun hc m hm => ⟨(h.still hc m hm).1, ?_⟩⟩
    · rintro ⟨p, e, hov⟩
      cases e
      cases hl : last with
      | none => exact absurd hov (hn hl m hm)
      | some q => exact ⟨q, rfl, by rw [hq q hl]; exact hov⟩
    · intro p e hov
      cases e
      obtain ⟨q, hl⟩ := (h.one hc).1
      exact (h.still hc m hm).2 q hl (by rw [hq q hl]; exact hov)
  unfold press
  split
  · rename_i part hhit
    cases part with
    | title k =>
      obtain ⟨mk, hk, -, hin⟩ := hit_title hhit
      have hov : Over mk (x, y) := (inside_iff _ _ _).mp hin
      have huniq : ∀ j m, b.menus[j]? = some m → Over m (x, y) → j = k := fun j m hj ho => hs j k m mk hj hk ho hov
      have hklt : k < b.menus.length := (List.getElem?_eq_some_iff.mp hk).1
      cases ho : b.menusOpen with
      | false =>
        simp only [pressPart, ho, Bool.not_false, if_true]
        refine ⟨fun m' hm' => ?_, fun hc => absurd hc (by simp), fun _ => ⟨⟨_, rfl⟩, k, by simpa using hklt, fun j m' hj => ?_⟩, fun _ m' hm' => ?_⟩
        · obtain ⟨j, hj⟩ := List.mem_iff_getElem?.mp hm'
          obtain ⟨m, h1, rfl⟩ := getElem?_modify_some hj
          split
          · rfl
          · exact h.tray m (List.mem_of_getElem? h1)
        · obtain ⟨m, h1, rfl⟩ := getElem?_modify_some hj
          by_cases hjk : j = k
          · simp [hjk, BarMenu.setOpen]
          · simp [hjk, (h.closed ho m (List.mem_of_getElem? h1)).1]
        · obtain ⟨j, hj⟩ := List.mem_iff_getElem?.mp hm'
          obtain ⟨m, h1, rfl⟩ := getElem?_modify_some hj
          by_cases hjk : j = k
          · simp [hjk, BarMenu.setOpen]
          · simp only [hjk, if_false]
            have hno : ¬ Over m (x, y) := fun ho' => hjk (huniq j m h1 ho')
            refine ⟨?_, fun p e ho' => by cases e; exact absurd ho' hno⟩
            by_contra hh
            rw [Bool.not_eq_false] at hh
            exact hno (hlast m (((h.closed ho m (List.mem_of_getElem? h1)).2).mp hh))
      | true =>
        simp only [pressPart, ho, Bool.not_true, Bool.false_eq_true, if_false]
        obtain ⟨⟨q, hl⟩, k0, -, hone⟩ := h.one ho
        have hqx := hq q hl
        have hk0 : k = k0 := (hone k mk hk).mp ((h.still ho mk (List.mem_of_getElem? hk)).2 q hl (by rw [hqx]; exact hov))
        refine ⟨fun m' hm' => ?_, fun _ m' hm' => ?_, fun hc => absurd hc (by simp), fun hc => absurd hc (by simp)⟩
        · obtain ⟨j, hj⟩ := List.mem_iff_getElem?.mp hm'
          obtain ⟨m, h1, rfl⟩ := getElem?_modify_some hj
          split
          · rfl
          · exact h.tray m (List.mem_of_getElem? h1)
        · obtain ⟨j, hj⟩ := List.mem_iff_getElem?.mp hm'
          obtain ⟨m, h1, rfl⟩ := getElem?_modify_some hj
          by_cases hjk : j = k
          · subst hjk
            rw [hk, Option.some.injEq] at h1
            subst h1
            simp only [if_true]
            exact ⟨rfl, fun _ => ⟨_, rfl, hov⟩, fun _ => trivial⟩
          · simp only [hjk, if_false]
            refine ⟨?_, ?_⟩
            · by_contra hh
              rw [Bool.not_eq_false] at hh
              exact hjk (((hone j m h1).mp hh).trans hk0.symm)
            · rw [(h.still ho m (List.mem_of_getElem? h1)).1]
              refine ⟨fun hh => absurd hh (by simp), fun ⟨p, e, ho'⟩ => ?_⟩
              cases e
              exact absurd (huniq j m h1 ho') hjk
    | item k j =>
      obtain ⟨m, it, h1, h2, h3, h4⟩ := hit_item hhit
      have hm := List.mem_of_getElem? h1
      refine (hsame fun _ m' _ => item_below hp hm (List.mem_of_getElem? h3) h4 m').congr ?_ rfl
      simp only [pressPart]
      apply List.ext_getElem?
      intro n
      rw [List.getElem?_map, List.getElem?_map, List.getElem?_modify]
      cases b.menus[n]? with
      | none => rfl
      | some a =>
        simp only [Option.map_eq_map, Option.map_some]
        split <;> rfl
  · rename_i hhit
    refine hsame fun _ m hm hov => ?_
    have := (hit_none hhit m hm).1 rfl
    rw [(inside_iff _ _ _).mpr hov] at this
    exact absurd this (by simp)

/-! ### Events leave everything where it is -/

/-- Position and size of a menu, its tray and its items. -/
def shape (m : BarMenu) : Rat × Rat × Rat × List Rat := (m.x, m.width, m.trayHeight, m.items.map (·.y))

theorem shape_modify {l : List BarMenu} {f : BarMenu → BarMenu} (hf : ∀ m, shape (f m) = shape m) (k : Nat) :
    (l.modify k f).map shape = l.map shape := by
  apply List.ext_getElem?
  intro n
  rw [List.getElem?_map, List.getElem?_map, List.getElem?_modify]
  cases l[n]? with
  | none => rfl
  | some a =>
    simp only [Option.map_eq_map, Option.map_some]
    split <;> simp [hf]

theorem shape_press (b : ToolBar) (x y : Rat) : (b.press x y).menus.map shape = b.menus.map shape := by
  unfold press
  split
  · rename_i part _
    cases part with
    | title k =>
      refine shape_modify (fun m => ?_) k
      split <;> rfl
    | item k j =>
      refine shape_modify (fun m => ?_) k
      simp only [shape]
      congr 3
      apply List.ext_getElem?
      intro n
      rw [List.getElem?_map, List.getElem?_map, List.getElem?_modify]
      cases m.items[n]? with
      | none => rfl
      | some a =>
        simp only [Option.map_eq_map, Option.map_some]
        split <;> rfl
  · rfl

theorem shape_moveBar (b : ToolBar) (x y : Rat) : (b.moveBar x y).menus.map shape = b.menus.map shape := by
  unfold moveBar
  split
  · split
    · apply List.ext_getElem?
      intro n
      rw [List.getElem?_map, List.getElem?_map, List.getElem?_mapIdx]
      cases b.menus[n]? with
      | none => rfl
      | some a =>
        simp only [Option.map_some]
        split <;> rfl
    · rfl
  · split
    · rw [List.map_map]
      rfl
    · rfl

theorem shape_move (b : ToolBar) (x y : Rat) : (b.move x y).menus.map shape = b.menus.map shape := by
  rw [← shape_moveBar b x y]
  simp only [move, List.map_map]
  congr 1
  funext m
  simp only [Function.comp, shape, BarMenu.moveItems, List.map_map]
  rfl

/-- C96: no event moves or resizes a menu, a tray or an item. -/
theorem C96_places (es : List BarEvent) : ∀ b : ToolBar, (b.run es).menus.map shape = b.menus.map shape := by
  induction es with
  | nil => intro b; rfl
  | cons e es ih =>
    intro b
    rw [run, List.foldl_cons, ← run, ih]
    cases e with
    | move x y => exact shape_move b x y
    | press x y => exact shape_press b x y
    | resize w => rfl

theorem shape_at {l l' : List BarMenu} (h : l'.map shape = l.map shape) {j : Nat} {m' : BarMenu} (hm : l'[j]? = some m') :
    ∃ m, l[j]? = some m ∧ shape m' = shape m := by
  have := congrArg (·[j]?) h
  simp only [List.getElem?_map, hm, Option.map_some] at this
  cases hl : l[j]? with
  | none => rw [hl] at this; simp at this
  | some m =>
    rw [hl, Option.map_some, Option.some.injEq] at this
    exact ⟨m, rfl, this⟩

theorem Over.shape {m m' : BarMenu} (h : shape m' = shape m) {p : Rat × Rat} (ho : Over m' p) : Over m p := by
  simp only [ToolBar.shape, Prod.mk.injEq] at h
  unfold Over at ho ⊢
  rw [← h.1, ← h.2.1]
  exact ho

theorem Single.shape {l l' : List BarMenu} (h : l'.map ToolBar.shape = l.map ToolBar.shape) {p : Rat × Rat} (hs : Single l p) : Single l' p := by
  intro j k m m' hj hk ho ho'
  obtain ⟨n, h1, h2⟩ := shape_at h hj
  obtain ⟨n', h3, h4⟩ := shape_at h hk
  exact hs j k n n' h1 h3 (ho.shape h2) (ho'.shape h4)

theorem Placed.shape {b b' : ToolBar} (hp : Placed b) (h : b'.menus.map ToolBar.shape = b.menus.map ToolBar.shape)
    (hw : ∀ m ∈ b.menus, m.x + m.width ≤ b'.width) : Placed b' := by
  have hmem : ∀ m' ∈ b'.menus, ∃ m ∈ b.menus, ToolBar.shape m' = ToolBar.shape m := by
    intro m' hm'
    obtain ⟨j, hj⟩ := List.mem_iff_getElem?.mp hm'
    obtain ⟨m, h1, h2⟩ := shape_at h hj
    exact ⟨m, List.mem_of_getElem? h1, h2⟩
  refine ⟨fun m' hm' => ?_, fun m' hm' => ?_, fun m' hm' i hi => ?_⟩ <;> obtain ⟨m, h1, h2⟩ := hmem m' hm' <;>
    simp only [ToolBar.shape, Prod.mk.injEq] at h2
  · rw [h2.1]; exact hp.left m h1
  · rw [h2.1, h2.2.1]; exact hw m h1
  · have : i.y ∈ m'.items.map (·.y) := List.mem_map_of_mem hi
    rw [h2.2.2.2] at this
    obtain ⟨i', h3, h4⟩ := List.mem_map.mp this
    rw [← h4]
    exact hp.below m h1 i' h3

theorem width_press (b : ToolBar) (x y : Rat) : (b.press x y).width = b.width := by
  unfold press
  split
  · rename_i part _
    cases part <;> rfl
  · rfl

theorem width_move (b : ToolBar) (x y : Rat) : (b.move x y).width = b.width := by
  unfold move moveBar
  simp only
  split
  · split <;> rfl
  · split <;> rfl

theorem tidy_run (es : List BarEvent) : ∀ (b0 b : ToolBar) (last : Option (Rat × Rat)), b.menus.map shape = b0.menus.map shape →
    Placed b → Tidy b last → Calm b0.menus last es → Tidy (b.run es) (lastSeen last es) := by
  induction es with
  | nil => intro b0 b last _ _ h _; exact h
  | cons e es ih =>
    intro b0 b last he hp h hc
    rw [run, List.foldl_cons, ← run]
    cases e with
    | move x y =>
      obtain ⟨hs, hc⟩ := hc
      refine ih b0 _ _ ((shape_move b x y).trans he) (hp.shape (shape_move b x y) ?_) (tidy_move h hp (hs.shape he)) hc
      rw [show (b.step (.move x y)).width = b.width from width_move b x y]
      exact hp.fits
    | press x y =>
      obtain ⟨hs, hq, hc⟩ := hc
      refine ih b0 _ _ ((shape_press b x y).trans he) (hp.shape (shape_press b x y) ?_) (tidy_press h hp (hs.shape he) hq) hc
      rw [show (b.step (.press x y)).width = b.width from width_press b x y]
      exact hp.fits
    | resize w =>
      obtain ⟨hw, hc⟩ := hc
      refine ih b0 _ _ he (hp.shape rfl fun m hm => ?_) ?_ hc
      · obtain ⟨j, hj⟩ := List.mem_iff_getElem?.mp hm
        obtain ⟨m0, h1, h2⟩ := shape_at he hj
        simp only [shape, Prod.mk.injEq] at h2
        rw [h2.1, h2.2.1]
        exact hw m0 (List.mem_of_getElem? h1)
      · exact ⟨h.tray, h.closed, h.one, h.still⟩

theorem mem_expected {ms : List (Nat × Nat)} {m : BarMenu} (h : m ∈ ms.mapIdx (expected ms)) :
    ∃ k n, ms[k]? = some n ∧ m = expected ms k n := by
  obtain ⟨j, hj⟩ := List.mem_iff_getElem?.mp h
  obtain ⟨n, h1, h2⟩ := getElem?_mapIdx_some hj
  exact ⟨j, n, h1, h2⟩

theorem placed_setup {width : Rat} {ms : List (Nat × Nat)} (hw : 10 * (((ms.map Prod.fst).sum : Nat) : Rat) ≤ width) :
    Placed ((create width).setup ms) := by
  rw [C96_setup]
  refine ⟨fun m hm => ?_, fun m hm => ?_, fun m hm i hi => ?_⟩ <;> obtain ⟨k, n, h1, rfl⟩ := mem_expected hm
  · simp only [expected]
    positivity
  · simp only [expected]
    refine le_trans ?_ hw
    have hsum : ((ms.take k).map Prod.fst).sum + n.1 ≤ (ms.map Prod.fst).sum := by
      obtain ⟨hlt, he⟩ := List.getElem?_eq_some_iff.mp h1
      have hsplit : ms = ms.take k ++ n :: ms.drop (k + 1) := by
        rw [← he, List.getElem_cons_drop, List.take_append_drop]
      have : (ms.map Prod.fst).sum = ((ms.take k).map Prod.fst).sum + (n.1 + ((ms.drop (k + 1)).map Prod.fst).sum) := by
        conv_lhs => rw [hsplit]
        simp
      omega
    have : ((((ms.take k).map Prod.fst).sum : Nat) : Rat) + (n.1 : Rat) ≤ (((ms.map Prod.fst).sum : Nat) : Rat) := by
      exact_mod_cast hsum
    linarith
  · simp only [expected, List.mem_map] at hi
    obtain ⟨j, -, rfl⟩ := hi
    positivity

theorem tidy_setup (width : Rat) (ms : List (Nat × Nat)) : Tidy ((create width).setup ms) none := by
  rw [C96_setup]
  refine ⟨fun m hm => ?_, fun _ m hm => ?_, fun h => absurd h (by simp), fun h => absurd h (by simp)⟩ <;>
    obtain ⟨k, n, h1, rfl⟩ := mem_expected hm
  · rfl
  · exact ⟨rfl, fun h => absurd h (by simp [expected]), fun ⟨p, h, _⟩ => absurd h (by simp)⟩

/-- C96: in a window wide enough for the menus, whatever the mouse does, at most one menu
is open, its tray and no other is shown, and the highlighted title is the one under the
mouse; provided that buttons are pressed where the mouse was seen last and that no press
or move is exactly where two titles meet (`C96_edge_violated`). -/
theorem C96_open_partial (width : Rat) (ms : List (Nat × Nat)) (hw : 10 * (((ms.map Prod.fst).sum : Nat) : Rat) ≤ width)
    (es : List BarEvent) (hc : Calm ((create width).setup ms).menus none es) :
    Tidy (((create width).setup ms).run es) (lastSeen none es) :=
  tidy_run es _ _ _ rfl (placed_setup hw) (tidy_setup width ms) hc

instance (m : BarMenu) (p : Rat × Rat) : Decidable (Over m p) := by unfold Over; infer_instance

theorem single_of {l : List BarMenu} {p : Rat × Rat} (h : l.Pairwise fun m m' => ¬ (Over m p ∧ Over m' p)) : Single l p := by
  intro j k m m' hj hk ho ho'
  obtain ⟨hj', rfl⟩ := List.getElem?_eq_some_iff.mp hj
  obtain ⟨hk', rfl⟩ := List.getElem?_eq_some_iff.mp hk
  rw [List.pairwise_iff_getElem] at h
  rcases Nat.lt_trichotomy j k with hlt | heq | hlt
  · exact absurd ⟨ho, ho'⟩ (h j k hj' hk' hlt)
  · exact heq
  · exact absurd ⟨ho', ho⟩ (h k j hk' hj' hlt)

/-- Opening "Format", going to "View", choosing an item there, closing. -/
example :
    let es : List BarEvent := [.move 30 10, .press 30 10, .move 90 10, .move 100 60, .press 100 60, .resize 300, .move 90 10, .press 90 10]
    Calm (sample 640).menus none es ∧
    ((sample 640).run (es.take 3)).menus.map (fun m => (m.open, m.trayVisible, m.hovered)) = [(false, false, false), (true, true, false)] ∧
    ((sample 640).run es).menus.map (fun m => (m.open, m.hovered, m.items.map (·.selected))) =
      [(false, false, [false]), (false, true, [false, true, false])] := by
  refine ⟨⟨single_of ?_, single_of ?_, ?_, single_of ?_, single_of ?_, single_of ?_, ?_, ?_, single_of ?_, single_of ?_, ?_, trivial⟩, ?_, ?_⟩
  all_goals decide +kernel

/-- C96 is violated where two titles meet: a move opens the left one, a press reaches the
right one.  So the left one stays open although no menu should be open, and pressing once
more both are open. -/
theorem C96_edge_violated :
    let b := (sample 640).run [.move 60 10, .press 60 10, .move 60 10, .press 60 10]
    (b.menusOpen = false ∧ b.menus.map (·.open) = [true, false]) ∧
    ((b.press 60 10).menus.map fun m => (m.open, m.trayVisible)) = [(true, true), (true, true)] := by decide +kernel

/-- C96 is violated in a window narrower than the menus: a title outside of the bar takes
presses, but the bar does not follow the mouse there. -/
theorem C96_narrow_violated :
    let b := (sample 640).run [.resize 80, .move 30 10, .press 30 10, .move 90 10, .press 90 10]
    b.menusOpen = false ∧ b.menus.map (·.open) = [true, false] := by decide +kernel

/-! ### Items -/

theorem mem_modify {α : Type _} {f : α → α} {l : List α} {k : Nat} {b : α} (h : b ∈ l.modify k f) : ∃ a ∈ l, b = a ∨ b = f a := by
  obtain ⟨j, hj⟩ := List.mem_iff_getElem?.mp h
  obtain ⟨a, h1, h2⟩ := getElem?_modify_some hj
  refine ⟨a, List.mem_of_getElem? h1, ?_⟩
  split at h2
  · exact .inr h2
  · exact .inl h2

/-- The items are ticked as their settings are. -/
def Agrees (b : ToolBar) : Prop := ∀ m ∈ b.menus, ∀ i ∈ m.items, i.selected = i.setting

theorem agrees_step {b : ToolBar} (h : Agrees b) (e : BarEvent) : Agrees (b.step e) := by
  cases e with
  | resize w => exact h
  | press x y =>
    simp only [step, press]
    split
    · rename_i part _
      cases part with
      | title k =>
        intro m' hm' i hi
        obtain ⟨m, h1, h2⟩ := mem_modify hm'
        rcases h2 with rfl | rfl
        · exact h _ h1 i hi
        · split at hi <;> exact h _ h1 i hi
      | item k j =>
        intro m' hm' i hi
        obtain ⟨m, h1, h2⟩ := mem_modify hm'
        rcases h2 with rfl | rfl
        · exact h _ h1 i hi
        · obtain ⟨i', h3, h4⟩ := mem_modify hi
          rcases h4 with rfl | rfl
          · exact h _ h1 _ h3
          · rfl
    · exact h
  | move x y =>
    have hbar : Agrees (b.moveBar x y) := by
      unfold moveBar
      split
      · split
        · intro m' hm' i hi
          obtain ⟨j, hj⟩ := List.mem_iff_getElem?.mp hm'
          obtain ⟨m, h1, rfl⟩ := getElem?_mapIdx_some hj
          refine h m (List.mem_of_getElem? h1) i ?_
          split at hi <;> exact hi
        · exact h
      · split
        · intro m' hm' i hi
          obtain ⟨m, h1, rfl⟩ := List.mem_map.mp hm'
          exact h m h1 i hi
        · exact h
    intro m' hm' i hi
    obtain ⟨m, h1, rfl⟩ := List.mem_map.mp hm'
    obtain ⟨i', h2, rfl⟩ := List.mem_map.mp hi
    exact hbar m h1 i' h2

/-- C96: whatever happens, an item is ticked if and only if its setting is on. -/
theorem C96_settings (width : Rat) (ms : List (Nat × Nat)) (es : List BarEvent) :
    ∀ m ∈ (((create width).setup ms).run es).menus, ∀ i ∈ m.items, i.selected = i.setting := by
  have : ∀ (es : List BarEvent) (b : ToolBar), Agrees b → Agrees (b.run es) := by
    intro es
    induction es with
    | nil => intro b h; exact h
    | cons e es ih => intro b h; exact ih _ (agrees_step h e)
  refine this es _ ?_
  rw [C96_setup]
  intro m hm i hi
  obtain ⟨k, n, h1, rfl⟩ := mem_expected hm
  simp only [expected, List.mem_map] at hi
  obtain ⟨j, -, rfl⟩ := hi
  rfl

/-- The point is inside of row `j` of the tray of a menu, and not on its edge. -/
def Inside (m : BarMenu) (j : Nat) (p : Rat × Rat) : Prop :=
  m.x + 3 < p.1 ∧ p.1 < m.x + 169 ∧ 23 + 22 * (j : Rat) < p.2 ∧ p.2 < 23 + 22 * ((j : Rat) + 1)

/-- C96: a press inside of an item of the open menu changes that item, its setting and
nothing else. -/
theorem C96_choose (width : Rat) (ms : List (Nat × Nat)) (hw : 10 * (((ms.map Prod.fst).sum : Nat) : Rat) ≤ width)
    (es : List BarEvent) (hc : Calm ((create width).setup ms).menus none es) (b : ToolBar)
    (hb : b = ((create width).setup ms).run es) {k j : Nat} {m : BarMenu} {i : BarItem} (hm : b.menus[k]? = some m)
    (ho : m.open = true) (hi : m.items[j]? = some i) {p : Rat × Rat} (hp : Inside m j p) :
    b.press p.1 p.2 = { b with menus := b.menus.set k { m with items := m.items.set j { i with selected := !i.selected, setting := !i.setting } } } := by
  have htidy : Tidy b (lastSeen none es) := hb ▸ C96_open_partial width ms hw es hc
  have hshape := C96_places es ((create width).setup ms)
  rw [← hb, C96_setup] at hshape
  have hys : ∀ (k : Nat) m, b.menus[k]? = some m → ∀ (j : Nat) i, m.items[j]? = some i → i.y = 3 + 22 * (j : Rat) := by
    intro k m hk j i hj
    obtain ⟨m0, h1, h2⟩ := shape_at hshape hk
    obtain ⟨n, h3, rfl⟩ := getElem?_mapIdx_some h1
    simp only [shape, Prod.mk.injEq] at h2
    have := congrArg (·[j]?) h2.2.2.2
    simp only [expected, List.map_map, List.getElem?_map, hj, Option.map_some] at this
    by_cases hjn : j < n.2
    · rw [List.getElem?_eq_getElem (by simpa using hjn)] at this
      simpa using this
    · rw [List.getElem?_eq_none (by simpa using hjn)] at this
      simp at this
  obtain ⟨hp1, hp2, hp3, hp4⟩ := hp
  have hin : i.inside m.x p.1 p.2 = true := by
    unfold BarItem.inside
    rw [mouseInside_iff, hys k m hm j i hi]
    refine ⟨?_, ?_, ?_, ?_⟩ <;> linarith
  have hopen : b.menusOpen = true := by
    by_contra hcl
    rw [Bool.not_eq_true] at hcl
    rw [(htidy.closed hcl m (List.mem_of_getElem? hm)).1] at ho
    exact absurd ho (by simp)
  obtain ⟨-, k0, -, hone⟩ := htidy.one hopen
  have hk0 : k = k0 := (hone k m hm).mp ho
  have hhit : b.hit true p.1 p.2 = some (.item k j) := by
    cases hh : b.hit true p.1 p.2 with
    | none =>
      have := (hit_none hh m (List.mem_of_getElem? hm)).2 ((htidy.tray m (List.mem_of_getElem? hm)).trans ho) i (List.mem_of_getElem? hi)
      rw [hin] at this
      exact absurd this (by simp)
    | some part =>
      cases part with
      | title k' =>
        obtain ⟨m', h1, -, h2⟩ := hit_title hh
        obtain ⟨-, -, -, h4⟩ := (inside_iff _ _ _).mp h2
        simp only at h4
        have : (0 : Rat) ≤ (j : Rat) := by positivity
        linarith
      | item k' j' =>
        obtain ⟨m', i', h1, h2, h3, h4⟩ := hit_item hh
        have hk' : k' = k := by
          rw [hk0]
          exact (hone k' m' h1).mp ((htidy.tray m' (List.mem_of_getElem? h1)).symm.trans h2)
        subst hk'
        unfold BarItem.inside at h4
        rw [mouseInside_iff, hys k' m' h1 j' i' h3] at h4
        obtain ⟨-, h5, -, h6⟩ := h4
        have hlt : (j' : Rat) < (j : Rat) + 1 := by linarith
        have hgt : (j : Rat) < (j' : Rat) + 1 := by linarith
        have hlt : j' < j + 1 := by exact_mod_cast hlt
        have hgt : j < j' + 1 := by exact_mod_cast hgt
        rw [show j' = j by omega]
  have hset : i.setting = i.selected := by
    have := C96_settings width ms es m (hb ▸ List.mem_of_getElem? hm) i (List.mem_of_getElem? hi)
    exact this.symm
  have hmod : ∀ {α : Type} (f : α → α) (l : List α) (n : Nat) (a : α), l[n]? = some a → l.modify n f = l.set n (f a) := by
    intro α f l n a h
    apply List.ext_getElem?
    intro q
    rw [List.getElem?_modify, List.getElem?_set]
    by_cases hq : n = q
    · subst hq
      rw [h]
      simp [(List.getElem?_eq_some_iff.mp h).1]
    · simp [hq]
  unfold press
  rw [hhit]
  simp only [pressPart]
  rw [hmod _ _ _ _ hm, hmod _ _ _ _ hi]
  simp only [BarItem.click, hset]

/-- Inside of the second item of "View". -/
example : (((sample 640).run [.move 90 10, .press 90 10]).press 100 60).menus.map (fun m => m.items.map fun i => (i.selected, i.setting)) =
    [[(false, false)], [(false, false), (true, true), (false, false)]] ∧
    Inside { x := 60, width := 40, trayHeight := 71 } 1 (100, 60) := by
  refine ⟨by decide +kernel, ?_⟩
  unfold Inside
  norm_num

/-- C96: after a move the items under the mouse are the highlighted ones. -/
theorem C96_highlight (b : ToolBar) (x y : Rat) : ∀ m ∈ (b.move x y).menus, ∀ i ∈ m.items,
    (i.hovered = true ↔ m.x + 3 ≤ x ∧ x ≤ m.x + 169 ∧ 20 + i.y ≤ y ∧ y ≤ 42 + i.y) := by
  intro m' hm' i' hi'
  obtain ⟨m, h1, rfl⟩ := List.mem_map.mp hm'
  obtain ⟨i, h2, rfl⟩ := List.mem_map.mp hi'
  simp only [BarItem.move, BarItem.inside, BarMenu.moveItems]
  rw [mouseInside_iff]
  constructor
  · rintro ⟨e1, e2, e3, e4⟩
    refine ⟨?_, ?_, ?_, ?_⟩ <;> linarith
  · rintro ⟨e1, e2, e3, e4⟩
    refine ⟨?_, ?_, ?_, ?_⟩ <;> linarith

/-- C96 is violated between two items: both are highlighted, though a press reaches the
lower one only.  (The item of "Format" is not shown.) -/
theorem C96_highlight_violated :
    let b := (sample 640).run [.move 90 10, .press 90 10, .move 100 45]
    b.menus.map (fun m => m.items.map (·.hovered)) = [[true], [true, true, false]] ∧
    (b.press 100 45).menus.map (fun m => m.items.map (·.selected)) = [[false], [false, true, false]] := by decide +kernel

end ToolBar
end RichText
