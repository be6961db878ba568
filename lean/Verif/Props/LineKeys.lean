import Verif.Props.TextEnds
/-!
C161: a line selected with the keys.
-/
namespace RichText
variable {φ : Type}
open TextBox
namespace TextBox

/-- Keys that move the caret by lines leave a box being edited. -/
theorem lines_kept {e : BoxEnv φ} (hg : e.Good) : ∀ (is : List Input) {s s' : TextBox φ}, Sound e s → s.focused = true → s.editable = true → s.text ≠ [] →
    (∀ i ∈ is, i.byLine) → run e s is = some s' → Sound e s' ∧ s'.focused = true ∧ s'.editable = true ∧ s'.text = s.text
  | [], s, s', h, hf, he, _, _, hr => by
    simp only [run] at hr
    cases hr
    exact ⟨h, hf, he, rfl⟩
  | i :: is, s, s', h, hf, he, hne, hi, hr => by
    have hb := hi i (by simp)
    have hp : s.showsRich = false := by simp [showsRich, hf, he]
    have hal : Allowed e s i := by
      cases i <;> first
        | exact absurd hb id
        | exact ⟨.inl (by rw [shown_plain hp]; exact hne), nofun, nofun, h.small⟩
    obtain ⟨s1, h1, h2⟩ := handle_sound hg h hal
    simp only [run, h1] at hr
    obtain ⟨shift, hw, -⟩ := C64_caret hf (by
      cases i <;> first
        | exact absurd hb id
        | exact .inl ⟨_, rfl⟩
        | exact .inr (.inl ⟨_, rfl⟩)
        | exact .inr (.inr (.inr (.inr (.inl ⟨_, _, rfl⟩))))
        | exact .inr (.inr (.inr (.inr (.inr ⟨_, _, rfl⟩))))) h1
    have hw1 := hw.1
    have hf1 : s1.focused = true := by rw [hw1]; exact hf
    have he1 : s1.editable = true := by rw [hw1]; exact he
    have ht1 : s1.text = s.text := by rw [hw1]
    obtain ⟨k1, k2, k3, k4⟩ := lines_kept hg is (h2.sound hf1) hf1 he1 (by rw [ht1]; exact hne) (fun j hj => hi j (by simp [hj])) hr
    exact ⟨k1, k2, k3, k4.trans ht1⟩

end TextBox

section
variable {e : BoxEnv φ} {s : TextBox φ} {ls : List (LineSpec φ)} {B : Nat → Prop}

/-- C161 (partial: left-to-right text): Home and then End with shift, after any keys that move the caret by lines, select the line these keys lead to,
from where the first of its runs starts to where the last one ends. -/
theorem C161_line_partial (h : s.ShowsLines e ls B) (is : List Input) (his : ∀ i ∈ is, i.byLine) :
    ∃ l a c s', ls[is.foldl (Input.lineAfter s.layout.lines.length) s.info.line]? = some l ∧
      run e s (is ++ [.home false false, .end true false]) = some s' ∧ s'.text = s.text ∧
      s'.sel = some a ∧ s'.cursor = c ∧ (∀ r ∈ l.runs, a.1 ≤ r.charStart ∧ r.charEnd ≤ c.1) ∧ (∃ r ∈ l.runs, a.1 = r.charStart) ∧
      ∃ r ∈ l.runs, c.1 = r.charEnd := by
  obtain ⟨s1, a1, d2, d3, d4, d5⟩ := C134_walk_partial is h his
  rw [← d5]
  obtain ⟨y, hy⟩ := h.stores
  have hcount := hy.lineCount
  have hm : s1.info.line < ls.length := by
    obtain ⟨y1, hy1⟩ := d2.stores
    obtain ⟨j, hj, hlt⟩ := cursorPixelPos_total hy1 d2.ne d2.lines d2.size e.width e.align s1.cursor.1 s1.cursor.2
    rw [d2.caret] at hj
    cases hj
    rw [d3] at hlt
    omega
  generalize hline : s1.info.line = m at hm
  have hl := List.getElem?_eq_getElem hm
  have hmem := List.mem_of_getElem? hl
  obtain ⟨⟨p1, b1, k1, e1, e2⟩, ⟨p2, b2, k2, f1, f2⟩⟩ := C23_resolve_partial hy h.ne h.ltr m hm
  obtain ⟨s2, g1, g2, g3, g4, g5⟩ := d2.set (c := (p1, b1)) (by rw [d3]; exact e2) false
  obtain ⟨s3, i1, i2, i3, i4, i5⟩ := g2.set (c := (p2, b2)) (by rw [g3, d3]; exact f2) true
  have hrun : run e s (is ++ [.home false false, .end true false]) = some s3 := by
    rw [run_append, a1]
    simp only [Option.bind_some, run, handle, d2.focused, g2.focused, if_true, key, TextBox.lineStart, TextBox.lineEnd, Bool.false_eq_true, if_false, hline, d3,
      e1, g1, g3, g5, f1, i1]
  obtain ⟨⟨-, w2, -⟩, w3, -⟩ := setCursor_went g1
  obtain ⟨⟨-, -, v2⟩, v3, -⟩ := setCursor_went i1
  have hsel : s3.sel = some (p1, b1) := by rw [v2 rfl, w2 rfl, w3]; rfl
  have hall : ∀ r ∈ ls[m].runs, r ∈ allRuns ls := fun r hr => List.mem_flatMap.2 ⟨_, hmem, hr⟩
  have hdis : ∀ r ∈ ls[m].runs, ∀ t ∈ ls[m].runs, r = t ∨ r.charEnd ≤ t.charStart ∨ t.charEnd ≤ r.charStart := by
    intro r hr t ht
    obtain ⟨i, hi⟩ := List.mem_iff_getElem?.1 (hall r hr)
    obtain ⟨j, hj⟩ := List.mem_iff_getElem?.1 (hall t ht)
    rcases Nat.lt_trichotomy i j with hij | rfl | hij
    · have := contiguous_le h.ltr.cont h.ltr.le hij hi hj
      exact .inr (.inl (by omega))
    · rw [hi] at hj; cases hj; exact .inl rfl
    · have := contiguous_le h.ltr.cont h.ltr.le hij hj hi
      exact .inr (.inr (by omega))
  have hchars : (∃ r, ls[m].runs = [r]) ∨ ∀ r ∈ ls[m].runs, r.charStart < r.charEnd := by
    by_cases hone : ∃ r, ls[m].runs = [r]
    · exact .inl hone
    · exact .inr fun r hr => (h.ltr.shared _ hmem r hr).resolve_right fun h0 => hone ⟨r, h0⟩
  obtain ⟨⟨q1, c1, t1, t2, t3⟩, ⟨q2, c2, u1, u2, u3⟩⟩ := C23_ltr_bounds hy h.ne m _ hl (fun r hr => h.ltr.ltr r (hall r hr)) hdis hchars
  rw [e1] at t1; cases t1
  rw [f1] at u1; cases u1
  exact ⟨_, (p1, b1), (p2, b2), s3, hl, hrun, (i4.trans g4).trans d4, hsel, v3, fun r hr => ⟨t2 r hr, u2 r hr⟩, t3, u3⟩

/-- C161 (partial: left-to-right text, a line with characters): in a box that is being edited, Backspace, Delete or Cut then removes the characters of
that line and no others. -/
theorem C161_removes_partial (hg : e.Good) (hs : Sound e s) (he : s.editable = true) (hne : s.text ≠ []) (h : s.ShowsLines e ls B) (is : List Input)
    (his : ∀ i ∈ is, i.byLine) {i : Input} (hi : RemovesSelection i) {l : LineSpec φ}
    (hl : ls[is.foldl (Input.lineAfter s.layout.lines.length) s.info.line]? = some l) (hchars : ∃ r ∈ l.runs, r.charStart < r.charEnd) :
    ∃ a b s', run e s (is ++ [.home false false, .end true false] ++ [i]) = some s' ∧ s'.text = s.text.take a ++ s.text.drop b ∧ s'.cursor.1 = a ∧
      (∀ r ∈ l.runs, a ≤ r.charStart ∧ r.charEnd ≤ b) ∧ (∃ r ∈ l.runs, a = r.charStart) ∧ ∃ r ∈ l.runs, b = r.charEnd := by
  obtain ⟨l', a, c, s1, k1, k2, k3, k4, k5, k6, k7, k8⟩ := C161_line_partial h is his
  rw [hl] at k1
  cases k1
  obtain ⟨r, hr, hlt⟩ := hchars
  have hac : a.1 < c.1 := by have := k6 r hr; omega
  obtain ⟨m1, m2, m3, m4⟩ := lines_kept hg _ hs h.focused he hne (fun j hj => by
    rcases List.mem_append.1 hj with hj | hj
    · exact his j hj
    · simp only [List.mem_cons, List.not_mem_nil, or_false] at hj
      rcases hj with rfl | rfl <;> rfl) k2
  have hp : s1.showsRich = false := by simp [showsRich, m2, m3]
  have hal : Allowed e s1 i := by
    rcases hi with ⟨c, rfl⟩ | ⟨c, rfl⟩ | rfl <;>
      exact ⟨.inl (by rw [shown_plain hp, k3]; exact hne), fun _ => .inl m3, nofun, m1.small⟩
  obtain ⟨s2, b1, -⟩ := handle_sound hg m1 hal
  have hcol : a ≠ s1.cursor := fun h0 => by rw [h0, k5] at hac; omega
  obtain ⟨x, y, -, r2, r3, r4, r5⟩ := C53_remove_selection_partial m2 k4 hcol (by
    rcases hi with h1 | h1 | h1
    · exact .inl h1
    · exact .inr (.inl h1)
    · exact .inr (.inr ⟨h1, m3⟩)) b1
  obtain ⟨rfl, rfl⟩ := r2 _ k4
  rw [k5] at r3 r4
  refine ⟨a.1, c.1, s2, by rw [run_append, k2]; simp only [Option.bind_some, run, b1], ?_, ?_, k6, k7, k8⟩
  · rw [r3, k3, Nat.min_eq_left (by omega), Nat.max_eq_right (by omega)]; simp
  · rw [r4, Nat.min_eq_left (by omega)]; rfl

/-! The hypotheses are met: three characters on two lines, with the caret on the first; Down, and a line selected. -/

example : walkBox.ShowsLines walkEnv wrapLines (fun b => b ≤ 3) ∧
    (run walkEnv walkBox ([] ++ [.home false false, .end true false])).map (fun s => (s.sel.map (·.1), s.cursor.1)) = some (some 0, 2) ∧
    (run walkEnv walkBox ([.down false] ++ [.home false false, .end true false])).map (fun s => (s.sel.map (·.1), s.cursor.1)) = some (some 2, 3) :=
  ⟨walkBox_shows, by decide +kernel, by decide +kernel⟩

end

/-- "ab" typed, in one line. -/
def lineBox : TextBox Nat where
  text := b!"ab"
  ctrl := b!"ab"
  focused := true
  layout := monoLayout 2
  cursor := (2, .default)
  info := ⟨10, 0, 10, 0⟩

theorem lineBox_shows : lineBox.ShowsLines monoEnv [⟨[monoRun 2], 10, 8⟩] (fun b => b ≤ 2) := by
  have h0 : Draft.steps {} [.run 0 (monoGlyphs 2) (5 * 2) 0 0 2 false, .line 10 8] = some (⟨[⟨[monoRun 2], 10, 8⟩], [], 0⟩ : Draft Nat) := rfl
  obtain ⟨L, hL, hs⟩ := C19_stores _ _ h0
  have hw : lineBox.layout = L := by
    show monoLayout 2 = L
    unfold monoLayout
    have : (execLayout {} [.run 0 (monoGlyphs 2) (5 * 2) 0 0 2 false, .line 10 8] : Option (Layout Nat)) = some L := hL
    simp only [Nat.cast_ofNat] at this ⊢
    rw [this]
    rfl
  have hz : ∀ {P : RunSpec Nat → RunSpec Nat → Prop} (i : Nat) (r t : RunSpec Nat), [monoRun 2][i]? = some r → [monoRun 2][i + 1]? = some t → P r t := by
    intro P i r t _ h2
    simp at h2
  have ha : allRuns [(⟨[monoRun 2], 10, 8⟩ : LineSpec Nat)] = [monoRun 2] := rfl
  refine ⟨rfl, ⟨0, by rw [hw]; exact hs⟩, by decide, by decide, by decide +kernel, ⟨by decide, hz, by decide, ?_, hz, by decide⟩, hz, ?_, ?_, by decide, by decide +kernel⟩
  · intro i r h1 h2
    rw [ha] at h2
    simp at h2
  · intro l hl
    simp only [List.mem_cons, List.not_mem_nil, or_false] at hl
    subst hl
    refine ⟨?_, hz, by decide⟩
    intro r hr
    simp only [List.mem_cons, List.not_mem_nil, or_false] at hr
    subst hr
    left
    refine ⟨rfl, ?_, ?_, ?_, by decide, pairs_mono ?_⟩
    · intro i g h h1 h2
      have := getElem?_lt h2
      simp [monoRun, monoGlyphs] at this
      obtain rfl : i = 0 := by omega
      simp [monoRun, monoGlyphs] at h1 h2; subst h1 h2; decide
    · intro g hg; simp [monoRun, monoGlyphs] at hg; subst hg; rfl
    · intro h; simp [monoRun, monoGlyphs] at h
    · decide +kernel
  · exact succ_follows 2 (by omega)

theorem lineBox_sound : Sound monoEnv lineBox := by
  refine ⟨by decide, by decide, by decide, by decide, nofun, ?_⟩
  exact fun _ => ⟨rfl, by decide +kernel⟩

/-- All hypotheses of `C161_removes_partial` at once. -/
example : monoEnv.Good ∧ Sound monoEnv lineBox ∧ lineBox.editable = true ∧ lineBox.ShowsLines monoEnv [⟨[monoRun 2], 10, 8⟩] (fun b => b ≤ 2) ∧
    (run monoEnv lineBox ([.up false] ++ [.home false false, .end true false] ++ [.delete false])).map (fun s => (s.text, s.cursor.1)) = some ([], 0) :=
  ⟨monoEnv_good, lineBox_sound, rfl, lineBox_shows, by decide +kernel⟩

end RichText
