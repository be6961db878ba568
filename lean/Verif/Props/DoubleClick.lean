import Verif.Props.PasteTyped
import Verif.Props.Walk
/-!
C147: what a double click selects.
-/
namespace RichText
variable {φ : Type}

/-- The stretch from `w` to `v` is a word: characters that are not white space, as many as there are. -/
structure IsWord (b : BreakEnv) (B : Nat → Prop) (w v : Nat) : Prop where
  start : B w
  finish : B v
  some : w < v
  inner : ∀ k, B k → w ≤ k → k < v → ¬ SpaceAt b k
  before : w = 0 ∨ ∃ r, B r ∧ NextIn B r w ∧ SpaceAt b r
  after : v = b.size ∨ SpaceAt b v

namespace IsWord
variable {b : BreakEnv} {B : Nat → Prop} {w v : Nat}

theorem space_of_break (hlbs : ∀ c, isLineBreak c = true → b.space c = true) {k : Nat} (h : LineBreakAt b k) : SpaceAt b k := by
  obtain ⟨c, h1, h2⟩ := h
  refine ⟨c, h1, hlbs c ?_⟩
  rcases h2 with rfl | rfl | rfl | rfl <;> decide

/-- `prev_word` from inside a word or its end goes to its start. -/
theorem prev (hB : Breaks b B) (hlbs : ∀ c, isLineBreak c = true → b.space c = true) (h : IsWord b B w v) {p : Cursor} (h1 : w < p.1) (h2 : p.1 ≤ v) :
    b.prevWord p = .some (w, .default) := by
  have hw : WordStart b B p.1 w := ⟨h.start, h1, .inr ⟨h.inner w h.start (Nat.le_refl _) h.some, h.before⟩⟩
  obtain ⟨q, q1, ⟨q2, q3, q4⟩ | ⟨q2, -⟩⟩ := C51_prev_word hB hlbs p
  · have hle := q4 w hw
    have hq : q.1 = w := by
      refine (Nat.lt_or_ge w q.1).elim (fun hlt => ?_) (fun hge => Nat.le_antisymm hge hle)
      obtain ⟨b1, b2, b3⟩ := q2
      rcases b3 with b3 | ⟨-, b3 | ⟨r, r1, ⟨-, r2, r3⟩, r4⟩⟩
      · exact absurd (space_of_break hlbs b3) (h.inner q.1 b1 hle (by omega))
      · omega
      · have : w ≤ r := (Nat.lt_or_ge r w).elim (fun hr => by have := r3 w h.start hr; omega) id
        exact absurd r4 (h.inner r r1 this (by omega))
    rw [q1, ← hq, ← q3]
  · exact absurd hw (q2 w)

/-- `next_word` from the start of a word goes behind it and the white space that follows. -/
theorem next (hB : Breaks b B) (hlbs : ∀ c, isLineBreak c = true → b.space c = true) (h : IsWord b B w v) (a : Affinity) :
    ∃ q, b.nextWord (w, a) = .some q ∧ v ≤ q.1 ∧ q.1 ≤ b.size ∧ (∀ k, B k → v ≤ k → k < q.1 → SpaceAt b k ∧ ¬ LineBreakAt b k) ∧
      (q.1 = b.size ∨ LineBreakAt b q.1 ∨ ¬ SpaceAt b q.1) ∧ B q.1 := by
  have hvs := hB.inside v h.finish
  -- what lies between the word and a place before the first stop
  have between : ∀ z, z ≤ b.size → (∀ m, WordStop b B w m → z ≤ m) → ∀ k, B k → v ≤ k → k < z → SpaceAt b k ∧ ¬ LineBreakAt b k := by
    intro z hz hmin k
    induction k using Nat.strong_induction_on with
    | _ k ih =>
      intro hk hvk hkz
      have hlb : ¬ LineBreakAt b k := fun hl => by
        have := hmin k ⟨hk, by have := h.some; omega, .inl hl⟩; omega
      refine ⟨?_, hlb⟩
      rcases Nat.eq_or_lt_of_le hvk with rfl | hlt
      · exact h.after.elim (fun h0 => by omega) id
      · by_contra hs
        cases hp : b.precede k with
        | none => exact hB.precede_done k v hp hlt h.finish
        | some r =>
          obtain ⟨r1, r2, r3⟩ := hB.precede_prev k r hp
          have hvr := r3 v h.finish hlt
          have hsr := (ih r r1 r2 hvr (by omega)).1
          have := hmin k ⟨hk, by have := h.some; omega, .inr ⟨hs, r, .inr ⟨r2, by have := h.some; omega⟩, ⟨hk, r1, fun m hm hrm => by
            rcases Nat.lt_or_ge m k with hmk | hmk
            · have := r3 m hm hmk; omega
            · exact hmk⟩, hsr⟩⟩
          omega
  -- no stop inside the word
  have inside : ∀ m, WordStop b B w m → v ≤ m := by
    intro m ⟨m1, m2, m3⟩
    by_contra hlt
    rcases m3 with m3 | ⟨-, r, r1, ⟨-, r2, -⟩, r3⟩
    · exact h.inner m m1 (by omega) (by omega) (space_of_break hlbs m3)
    · rcases r1 with rfl | ⟨r1, r4⟩
      · exact h.inner _ h.start (Nat.le_refl _) h.some r3
      · exact h.inner r r1 (by omega) (by omega) r3
  obtain ⟨q, q1, ⟨q2, -, q4⟩ | ⟨q2, q3⟩⟩ := C51_next_word hB (cursor := (w, a)) (by have := h.some; omega)
  · have hqs := hB.inside _ q2.1
    exact ⟨q, q1, inside _ q2, hqs, between _ hqs q4, .inr (q2.2.2.imp id (fun h => h.1)), q2.1⟩
  · have hq : q.1 = b.size := by
      rcases q3 with ⟨rfl, -⟩ | ⟨rfl, h0⟩
      · rfl
      · exact h0
    exact ⟨q, q1, by omega, by omega, between _ (by omega) (fun m hm => absurd hm (q2 m)), .inl hq, by rw [hq]; exact hB.last⟩

/-- The start of a word is a stop of `next_word` from any boundary before it. -/
theorem stop (h : IsWord b B w v) {a : Nat} (ha : B a) (hlt : a < w) : WordStop b B a w := by
  obtain ⟨r, r1, ⟨r2, r3, r4⟩, r5⟩ := h.before.resolve_left (by omega)
  have har : a ≤ r := (Nat.lt_or_ge r a).elim (fun hr => by have := r4 _ ha hr; omega) id
  exact ⟨h.start, hlt, .inr ⟨h.inner w h.start (Nat.le_refl _) h.some, r,
    (Nat.eq_or_lt_of_le har).imp (fun h => h.symm) (fun h => ⟨r1, h⟩), ⟨r2, r3, r4⟩, r5⟩⟩

/-- From the start of a word `prev_word` goes back to a place from which `next_word` comes back to it. -/
theorem before_start (hB : Breaks b B) (hlbs : ∀ c, isLineBreak c = true → b.space c = true) (h : IsWord b B w v) (h0 : 0 < w) (x : Affinity) :
    ∃ a, b.prevWord (w, x) = .some a ∧ B a.1 ∧ a.1 < w ∧ b.nextWord a = .some (w, .default) := by
  have hws := hB.inside w h.start
  obtain ⟨a, a1, a2⟩ := C51_prev_word hB hlbs (w, x)
  have ha : B a.1 ∧ a.1 < w ∧ ∀ m, WordStart b B w m → m ≤ a.1 := by
    rcases a2 with ⟨⟨b1, b2, -⟩, -, b3⟩ | ⟨b3, ⟨rfl, -⟩ | ⟨rfl, h3⟩⟩
    · exact ⟨b1, b2, b3⟩
    · exact ⟨hB.first, h0, fun m hm => absurd hm (b3 m)⟩
    · exact absurd h3 (by simp only; omega)
  refine ⟨a, a1, ha.1, ha.2.1, ?_⟩
  have hstop := h.stop ha.1 ha.2.1
  obtain ⟨q, q1, ⟨q2, q3, q4⟩ | ⟨q2, -⟩⟩ := C51_next_word hB (cursor := a) (by have := ha.2.1; omega)
  · have hle := q4 w hstop
    have hq : q.1 = w := by
      refine (Nat.lt_or_ge q.1 w).elim (fun hlt => ?_) (fun hge => Nat.le_antisymm hle hge)
      obtain ⟨b1, b2, b3⟩ := q2
      have : q.1 ≤ a.1 := ha.2.2 q.1 ⟨b1, hlt, b3.imp id (fun ⟨c1, r, c2, c3, c4⟩ => ⟨c1, .inr ⟨r, c2.elim (fun h => h ▸ ha.1) (·.1), c3, c4⟩⟩)⟩
      omega
    rw [q1, ← hq, ← q3]
  · exact absurd hstop (q2 w)

end IsWord

open TextBox

/-- What a second click does to the box, in terms of the place under the pointer. -/
theorem TextBox.double_click {e : BoxEnv φ} (hg : e.Good) {s : TextBox φ} (h : Sound e s) (hf : s.focused = true) (hne : s.shown e ≠ []) (x y : Rat)
    (shift : Bool) {clicks : Nat} (hk : clicks % 4 = 1) {p : Cursor} (hp : s.place e x y = some p) :
    ∃ s' a, handle e s (.press x y shift clicks) = some s' ∧ Sound e s' ∧ s'.text = s.text ∧ s'.sel = some a ∧
      (e.breaks s.ctrl).prevWord p = some a ∧ (e.breaks s.ctrl).nextWord a = some s'.cursor ∧ s'.focused = true ∧ s'.editable = s.editable := by
  obtain ⟨s', h1, h2⟩ := handle_sound hg h (i := .press x y shift clicks) ⟨.inl hne, nofun, nofun, h.small⟩
  obtain ⟨line, pos, s1, c1, c2, -, -, c5, -, c7, -, -⟩ := C64_click hf h1
  have hpp : pos = p := by
    unfold TextBox.place BreakEnv.closestToPosition at hp
    rw [c1] at hp
    simp only [c2] at hp
    exact Option.some.inj hp
  subst hpp
  obtain ⟨a, a1, a2, a3⟩ := c7 hk
  refine ⟨s', a, h1, ?_, by rw [c5], a1, a2, a3, by rw [c5]; exact hf, by rw [c5]⟩
  rcases h2 with h2 | h2
  · exact h2
  · have := h2.mode.2.2
    rw [c5] at this
    simp [hf] at this

/-- C147: a second quick click inside a word, or at its end, selects the word from its start, with the white space up to the next word or the end of
the line.  Missing from the full statement: a click at the start of the word, for which it is false (`C147_start_violated`). -/
theorem C147_word_partial {e : BoxEnv φ} (hg : e.Good) {s : TextBox φ} (h : Sound e s) (hf : s.focused = true) (hne : s.shown e ≠ []) (x y : Rat)
    (shift : Bool) {clicks : Nat} (hk : clicks % 4 = 1) {B : Nat → Prop} (hB : Breaks (e.breaks s.ctrl) B) {p : Cursor} (hp : s.place e x y = some p)
    {w v : Nat} (hw : IsWord (e.breaks s.ctrl) B w v) (h1 : w < p.1) (h2 : p.1 ≤ v) :
    ∃ s', handle e s (.press x y shift clicks) = some s' ∧ Sound e s' ∧ s'.text = s.text ∧ s'.sel = some (w, .default) ∧ v ≤ s'.cursor.1 ∧
      s'.cursor.1 ≤ s.ctrl.length ∧ (∀ k, B k → v ≤ k → k < s'.cursor.1 → SpaceAt (e.breaks s.ctrl) k ∧ ¬ LineBreakAt (e.breaks s.ctrl) k) ∧
      (s'.cursor.1 = s.ctrl.length ∨ LineBreakAt (e.breaks s.ctrl) s'.cursor.1 ∨ ¬ SpaceAt (e.breaks s.ctrl) s'.cursor.1) := by
  obtain ⟨s', a, d1, d2, d3, d4, d5, d6, -⟩ := double_click hg h hf hne x y shift hk hp
  have := hw.prev hB (hg.spaces _) h1 h2
  rw [d5] at this
  cases this
  obtain ⟨q, q1, q2, q3, q4, q5, -⟩ := hw.next hB (hg.spaces _) .default
  rw [d6] at q1
  cases q1
  rw [hg.size] at q3 q5
  exact ⟨s', d1, d2, d3, d4, q2, q3, q4, q5⟩

/-- C147 is false at the start of a word that is not the first one: nothing of the word clicked is selected, but what is before it. -/
theorem C147_start_violated {e : BoxEnv φ} (hg : e.Good) {s : TextBox φ} (h : Sound e s) (hf : s.focused = true) (hne : s.shown e ≠ []) (x y : Rat)
    (shift : Bool) {clicks : Nat} (hk : clicks % 4 = 1) {B : Nat → Prop} (hB : Breaks (e.breaks s.ctrl) B) {p : Cursor} (hp : s.place e x y = some p)
    {w v : Nat} (hw : IsWord (e.breaks s.ctrl) B w v) (h0 : 0 < w) (h1 : p.1 = w) :
    ∃ s' a, handle e s (.press x y shift clicks) = some s' ∧ s'.sel = some a ∧ a.1 < w ∧ s'.cursor = (w, .default) := by
  obtain ⟨s', a, d1, -, -, d4, d5, d6, -⟩ := double_click hg h hf hne x y shift hk hp
  obtain ⟨a', a1, -, a2, a3⟩ := hw.before_start hB (hg.spaces _) h0 p.2
  rw [← h1, d5] at a1
  cases a1
  rw [d6] at a3
  exact ⟨s', a, d1, d4, a2, Option.some.inj a3⟩

/-- C147 (partial: left-to-right text): a third quick click selects the line under the pointer, from where the first of its runs starts to where the
last one ends. -/
theorem C147_line_partial {e : BoxEnv φ} {s : TextBox φ} {ls : List (LineSpec φ)} {B : Nat → Prop} (h : s.ShowsLines e ls B) (x y : Rat) (shift : Bool)
    {clicks : Nat} (hk : clicks % 4 = 2) :
    ∃ m l a c s', s.layout.closestToPositionLine y = some m ∧ ls[m]? = some l ∧ handle e s (.press x y shift clicks) = some s' ∧ s'.text = s.text ∧
      s'.sel = some a ∧ s'.cursor = c ∧ (∀ r ∈ l.runs, a.1 ≤ r.charStart ∧ r.charEnd ≤ c.1) ∧ (∃ r ∈ l.runs, a.1 = r.charStart) ∧
      ∃ r ∈ l.runs, c.1 = r.charEnd := by
  obtain ⟨y0, hy⟩ := h.stores
  have hcount := hy.lineCount
  have hpos : 0 < ls.length := List.length_pos_iff.2 h.lines
  obtain ⟨m, m1, m2⟩ := closestToPositionLine_total (L := s.layout) (List.ne_nil_of_length_pos (by omega)) y
  have hm : m < ls.length := by omega
  have hl := List.getElem?_eq_getElem hm
  have hmem := List.mem_of_getElem? hl
  obtain ⟨p, a, k, c1, c2, -⟩ := click_resolves hy h.ne h.size h.ltr h.empty m _ hl (h.proper _ hmem) e.width e.align _ B h.follow
    (fun r hr => h.ends r (List.mem_flatMap.2 ⟨_, hmem, hr⟩)) x
  obtain ⟨s1, d1, d2, d3, d4, d5⟩ := h.set (c := (p, a)) c2 shift
  obtain ⟨⟨p1, a1, k1, e1, e2⟩, ⟨p2, a2, k2, f1, f2⟩⟩ := C23_resolve_partial hy h.ne h.ltr m hm
  obtain ⟨s2, g1, g2, g3, g4, g5⟩ := d2.set (c := (p1, a1)) (by rw [d3]; exact e2) false
  obtain ⟨s3, i1, i2, i3, i4, i5⟩ := g2.set (c := (p2, a2)) (by rw [g3, d3]; exact f2) true
  have hrun : handle e s (.press x y shift clicks) = some { s3 with drag := true } := by
    simp only [handle, TextBox.press, h.focused, if_true, toMouse, BreakEnv.closestToPosition, m1, c1, d1, clickSelect, hk, selectBetween, TextBox.lineStart, TextBox.lineEnd, d3, d5,
      e1, g1, g3, g5, f1, i1]
  obtain ⟨⟨-, w2, -⟩, w3, -⟩ := setCursor_went g1
  obtain ⟨⟨-, -, v2⟩, v3, -⟩ := setCursor_went i1
  have hsel : s3.sel = some (p1, a1) := by rw [v2 rfl, w2 rfl, w3]; rfl
  have hall : ∀ r ∈ ls[m].runs, r ∈ allRuns ls := fun r hr => List.mem_flatMap.2 ⟨_, hmem, hr⟩
  have hdis : ∀ r ∈ ls[m].runs, ∀ t ∈ ls[m].runs, r = t ∨ r.charEnd ≤ t.charStart ∨ t.charEnd ≤ r.charStart := by
    intro r hr t ht
    obtain ⟨i, hi⟩ := List.mem_iff_getElem?.1 (hall r hr)
    obtain ⟨j, hj⟩ := List.mem_iff_getElem?.1 (hall t ht)
    rcases Nat.lt_trichotomy i j with hij | rfl | hij
    · have := contiguous_le h.ltr.cont h.ltr.le hij hi hj
      exact .inr (.inl (by omega))
    · rw [hi] at hj; cases hj; exact .inl rfl
    · have := contiguous_le h.ltr.cont h.ltr.le hij hj hi
      exact .inr (.inr (by omega))
  have hchars : (∃ r, ls[m].runs = [r]) ∨ ∀ r ∈ ls[m].runs, r.charStart < r.charEnd := by
    by_cases hone : ∃ r, ls[m].runs = [r]
    · exact .inl hone
    · exact .inr fun r hr => (h.ltr.shared _ hmem r hr).resolve_right fun h0 => hone ⟨r, h0⟩
  obtain ⟨⟨q1, b1, t1, t2, t3⟩, ⟨q2, b2, u1, u2, u3⟩⟩ := C23_ltr_bounds hy h.ne m _ hl (fun r hr => h.ltr.ltr r (hall r hr)) hdis hchars
  rw [e1] at t1; cases t1
  rw [f1] at u1; cases u1
  exact ⟨m, _, (p1, a1), (p2, a2), _, m1, hl, hrun, (i4.trans g4).trans d4, hsel, v3, fun r hr => ⟨t2 r hr, u2 r hr⟩, t3, u3⟩

/-! The hypotheses are met: "ab cd e", a double click between `c` and `d`, behind `d`, and on the start of `cd`. -/

/-- "ab cd e" typed. -/
def typeWords : List Input := [.focus, .char 97, .char 98, .char 32, .char 99, .char 100, .char 32, .char 101]

theorem typeWords_word : IsWord (marksEnv b!"ab cd e") (fun k => k ≤ 7 ∧ marksBoundary b!"ab cd e" k = true) 3 5 := by
  have hsp : ∀ k, SpaceAt (marksEnv b!"ab cd e") k ↔ ((marksEnv b!"ab cd e").char k).any (marksEnv b!"ab cd e").space = true := by
    intro k
    unfold SpaceAt
    cases (marksEnv b!"ab cd e").char k <;> simp
  refine ⟨by decide +kernel, by decide +kernel, by decide, ?_, .inr ⟨2, by decide +kernel, ⟨by decide +kernel, by decide, fun m _ h => h⟩, ?_⟩, .inr ?_⟩
  · intro k _ h1 h2
    rw [hsp]
    have : k = 3 ∨ k = 4 := by omega
    rcases this with rfl | rfl <;> decide +kernel
  · rw [hsp]; decide +kernel
  · rw [hsp]; decide +kernel

example : (run marksBox {} typeWords).map (fun s => (s.ctrl, (s.place marksBox 20 2).map (·.1), (s.place marksBox 25 2).map (·.1),
      (s.place marksBox 15 2).map (·.1))) = some (b!"ab cd e", some 4, some 5, some 3) := by decide +kernel

example : (run marksBox {} (typeWords ++ [.press 20 2 false 1])).map (fun s => (s.sel.map (·.1), s.cursor.1)) = some (some 3, 6) ∧
    (run marksBox {} (typeWords ++ [.press 25 2 false 1])).map (fun s => (s.sel.map (·.1), s.cursor.1)) = some (some 3, 6) ∧
    (run marksBox {} (typeWords ++ [.press 15 2 false 1])).map (fun s => (s.sel.map (·.1), s.cursor.1)) = some (some 0, 3) := by decide +kernel

/-- `ab` and `c` in two lines of left-to-right text: a third click on each. -/
example : walkBox.ShowsLines walkEnv wrapLines (fun b => b ≤ 3) ∧
    (run walkEnv walkBox [.press 3 2 false 2]).map (fun s => (s.sel.map (·.1), s.cursor.1)) = some (some 0, 2) ∧
    (run walkEnv walkBox [.press 3 12 false 2]).map (fun s => (s.sel.map (·.1), s.cursor.1)) = some (some 2, 3) :=
  ⟨walkBox_shows, by decide +kernel, by decide +kernel⟩

/-- C147 is false for right-to-left text: a third click on the first of two lines selects nothing, as the start of the line is taken for the second
line. -/
theorem C147_rtl_violated : ∃ (e : BoxEnv Nat) (s : TextBox Nat) (ls : List (LineSpec Nat)), Stores s.layout ls [] 0 ∧
    ls.map (fun l => l.runs.map fun r => (r.charStart, r.charEnd, r.charEndOffset, r.rtl)) = [[(0, 2, 0, true)], [(2, 3, 0, true)]] ∧
    s.layout.closestToPositionLine 2 = some 0 ∧
    (run e s [.press 30 2 false 2]).map (fun s => (s.sel.map (·.1), s.cursor.1)) = some (some 2, 2) := by
  have h0 : Draft.steps {} [.run 0 [⟨1, 1, 0, 0⟩, ⟨2, 0, 20, 0⟩] 30 0 0 2 true, .line 10 8,
      .run 0 [⟨3, 2, 0, 0⟩] 5 0 2 3 true, .line 10 8] =
      some (⟨[⟨[⟨0, [⟨1, 1, 0, 0⟩, ⟨2, 0, 20, 0⟩], 30, 0, 0, 2, 0, true⟩], 10, 8⟩,
        ⟨[⟨0, [⟨3, 2, 0, 0⟩], 5, 0, 2, 3, 0, true⟩], 10, 8⟩], [], 0⟩ : Draft Nat) := rfl
  obtain ⟨L, hL, hs⟩ := C19_stores _ _ h0
  have hw : stuckBox.layout = L := by
    unfold stuckBox
    dsimp only
    rw [hL]
    rfl
  exact ⟨walkEnv, stuckBox, _, by rw [hw]; exact hs, rfl, by decide +kernel, by decide +kernel⟩

end RichText
