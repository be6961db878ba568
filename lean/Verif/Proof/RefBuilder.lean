import Verif.Spec.RefBuilder
import Verif.Proof.Paragraph
/-! Lemmas on the builder of the regression test (Model/RefBuilder.lean). -/
namespace RichText
variable {β φ : Type _}

/-! ### The pieces of a bidi run are determined by where they start -/

theorem Consecutive.head {e s : Nat} {l : List (Nat × Nat)} (h : Consecutive e s l) (hlt : s < e) :
    ∃ x t, l = x :: t ∧ x.1 = s := by
  cases l with
  | nil => simp only [Consecutive] at h; omega
  | cons x t => exact ⟨x, t, rfl, h.1⟩

theorem Consecutive.unique {e : Nat} : ∀ {l l' : List (Nat × Nat)} {s : Nat}, Consecutive e s l → Consecutive e s l' →
    (∀ x, s < x → x < e → ((∃ y ∈ l, y.1 = x) ↔ ∃ y ∈ l', y.1 = x)) → l = l'
  | [], [], _, _, _, _ => rfl
  | [], y :: t, s, h, h', _ => by
    have h : s = e := h
    have h1 := h'.1
    have h2 := h'.2.1
    have h3 := Consecutive.le h'.2.2
    omega
  | y :: t, [], s, h', h, _ => by
    have h : s = e := h
    have h1 := h'.1
    have h2 := h'.2.1
    have h3 := Consecutive.le h'.2.2
    omega
  | (a, b) :: t, (a', b') :: t', s, h, h', hx => by
    obtain ⟨rfl, h2, h3⟩ := h
    obtain ⟨rfl, h2', h3'⟩ := h'
    have hle := h3.le
    have hle' := h3'.le
    have hb : b = b' := by
      rcases Nat.lt_trichotomy b b' with hlt | heq | hlt
      · obtain ⟨y, t1, rfl, hy⟩ := h3.head (by omega)
        obtain ⟨z, hz, hzb⟩ := (hx b h2 (by omega)).1 ⟨y, by simp, hy⟩
        rcases List.mem_cons.1 hz with rfl | hz
        · simp only at hzb; omega
        · have := (h3'.mem z hz).1; omega
      · exact heq
      · obtain ⟨y, t1, rfl, hy⟩ := h3'.head (by omega)
        obtain ⟨z, hz, hzb⟩ := (hx b' h2' (by omega)).2 ⟨y, by simp, hy⟩
        rcases List.mem_cons.1 hz with rfl | hz
        · simp only at hzb; omega
        · have := (h3.mem z hz).1; omega
    subst hb
    rw [Consecutive.unique h3 h3' ?_]
    intro x h5 h6
    have := hx x (by omega) h6
    simp only [List.mem_cons, exists_eq_or_imp] at this
    constructor
    · intro h
      rcases this.1 (Or.inr h) with h | h
      · omega
      · exact h
    · intro h
      rcases this.2 (Or.inr h) with h | h
      · omega
      · exact h

theorem ltrPieces_starts {runs : List (LogicalRun φ)} {runEnd : Nat} (d : Nat) : ∀ (k chr : Nat) (ps : List VisualPiece),
    runs.length - k = d → ltrPieces runs runEnd k chr = some ps →
    ∀ p ∈ ps, p.first = chr ∨ ∃ q ∈ runs, q.charEnd = p.first := by
  induction d with
  | zero =>
    intro k chr ps hd h
    unfold ltrPieces at h
    split at h
    · cases h
    · rename_i r hr
      have := (List.getElem?_eq_some_iff.1 hr).1; omega
  | succ d ih =>
    intro k chr ps hd h
    unfold ltrPieces at h
    split at h
    · cases h
    · rename_i r hr
      have hk := (List.getElem?_eq_some_iff.1 hr).1
      split at h
      · cases h
        intro p hp
        rw [List.mem_singleton] at hp; subst hp; exact Or.inl rfl
      · simp only [Option.map_eq_some_iff] at h
        obtain ⟨t, ht, rfl⟩ := h
        intro p hp
        rcases List.mem_cons.1 hp with rfl | hp
        · exact Or.inl rfl
        · rcases ih (k + 1) _ t (by omega) ht p hp with h | h
          · exact Or.inr ⟨r, List.mem_of_getElem? hr, h.symm⟩
          · exact Or.inr h

theorem rtlPieces_starts {runs : List (LogicalRun φ)} {first : Nat} : ∀ (k chr : Nat) (ps : List VisualPiece),
    rtlPieces runs first k chr = some ps → ∀ p ∈ ps, p.first = first ∨ ∃ q ∈ runs, q.charEnd = p.first := by
  intro k
  induction k with
  | zero =>
    intro chr ps h
    unfold rtlPieces at h
    split at h
    · cases h
    · cases h
      intro p hp
      rw [List.mem_singleton] at hp; subst hp; exact Or.inl rfl
  | succ k ih =>
    intro chr ps h
    unfold rtlPieces at h
    split at h
    · rename_i r q hr hq
      split at h
      · cases h
        intro p hp
        rw [List.mem_singleton] at hp; subst hp; exact Or.inl rfl
      · simp only [Option.map_eq_some_iff] at h
        obtain ⟨t, ht, rfl⟩ := h
        intro p hp
        rcases List.mem_cons.1 hp with rfl | hp
        · exact Or.inr ⟨q, List.mem_of_getElem? hq, rfl⟩
        · exact ih _ t ht p hp
    · cases h

theorem bidiPieces_starts {runs : List (LogicalRun φ)} {r : BidiRun} {ps : List VisualPiece}
    (h : bidiPieces runs r = some ps) : ∀ p ∈ ps, p.first = r.offset ∨ ∃ q ∈ runs, q.charEnd = p.first := by
  unfold bidiPieces at h
  simp only at h
  split at h
  · simp only [Option.bind_eq_some_iff] at h
    obtain ⟨k, _, h⟩ := h
    exact ltrPieces_starts _ k _ ps rfl h
  · simp only [Option.bind_eq_some_iff] at h
    obtain ⟨k, _, h⟩ := h
    exact rtlPieces_starts k _ ps h

/-- No logical run ends strictly inside another. -/
theorem LogicalRuns.no_end_inside {s e n : Nat} {runs : List (LogicalRun φ)} (h : LogicalRuns s e n runs)
    {k : Nat} {r : LogicalRun φ} (hk : runs[k]? = some r) {q : LogicalRun φ} (hq : q ∈ runs) :
    q.charEnd ≤ runStart s runs k ∨ r.charEnd ≤ q.charEnd := by
  obtain ⟨j, hj⟩ := List.mem_iff_getElem?.1 hq
  rcases Nat.lt_or_ge j k with hlt | hge
  · left
    cases k with
    | zero => omega
    | succ k =>
      have hk' := (List.getElem?_eq_some_iff.1 hk).1
      have e1 := List.getElem?_eq_getElem (show k < runs.length by omega)
      simp only [runStart, e1, Option.map_some, Option.getD_some]
      exact h.chars_le (by omega) hj e1
  · exact Or.inr (h.chars_le hge hk hj)

/-- Inside a bidi run the pieces start where logical runs end. -/
theorem bidi_starts {s e n : Nat} {runs : List (LogicalRun φ)} (h : LogicalRuns s e n runs) {r : BidiRun}
    (hl : 0 < r.length) (hs : s ≤ r.offset) (he : r.offset + r.length ≤ e) {ps : List VisualPiece}
    (hps : bidiPieces runs r = some ps) (x : Nat) (h1 : r.offset < x) (h2 : x < r.offset + r.length) :
    (∃ y ∈ (revIf r.rtl ps).map VisualPiece.range, y.1 = x) ↔ ∃ q ∈ runs, q.charEnd = x := by
  obtain ⟨ps', a1, a2, a3⟩ := bidiPieces_spec h hl hs he
  rw [hps] at a1; cases a1
  constructor
  · rintro ⟨y, hy, rfl⟩
    obtain ⟨p, hp, rfl⟩ := List.mem_map.1 hy
    have hp' := (revIf_perm r.rtl ps).mem_iff.1 hp
    rcases bidiPieces_starts hps p hp' with h5 | h5
    · have : p.range.1 = p.first := rfl
      omega
    · exact h5
  · rintro ⟨q, hq, rfl⟩
    obtain ⟨p, hp, hp1, hp2⟩ := a2.find (Nat.le_of_lt h1) h2
    have hp' := (revIf_perm r.rtl ps).mem_iff.1 hp
    obtain ⟨_, b1, b2, r', b3, b4⟩ := a3 p hp'
    refine ⟨p.range, List.mem_map_of_mem hp, ?_⟩
    simp only [VisualPiece.range] at hp1 hp2 ⊢
    rcases h.no_end_inside b3 hq with h6 | h6 <;> omega

/-! ### Merged and unmerged logical runs -/

theorem Grouped.end_mem {same : φ → φ → Bool} {qs : List (FontPiece φ)} {runs : List (LogicalRun φ)}
    (h : Grouped same qs runs) : ∀ r ∈ runs, ∃ q ∈ qs, r.charEnd = q.stop := by
  induction h with
  | nil => intro r hr; cases hr
  | @push qs runs q n hg ih =>
    intro r hr
    rcases List.mem_append.1 hr with hr | hr
    · obtain ⟨q', hq', he⟩ := ih r hr
      exact ⟨q', List.mem_append_left _ hq', he⟩
    · rw [List.mem_singleton] at hr; subst hr
      exact ⟨q, by simp, rfl⟩
  | @merge qs init r0 q n hg hs ih =>
    intro r hr
    rcases List.mem_append.1 hr with hr | hr
    · obtain ⟨q', hq', he⟩ := ih r (List.mem_append_left _ hr)
      exact ⟨q', List.mem_append_left _ hq', he⟩
    · rw [List.mem_singleton] at hr; subst hr
      exact ⟨q, by simp, rfl⟩

/-- The logical run of a character. -/
theorem LogicalRuns.find {s e n : Nat} {runs : List (LogicalRun φ)} (h : LogicalRuns s e n runs) {x : Nat}
    (h1 : s ≤ x) (hx : x < e) : ∃ k r, runs[k]? = some r ∧ runStart s runs k ≤ x ∧ x < r.charEnd := by
  obtain ⟨k, r, _, h2, h3, h4⟩ := search_run h hx
  exact ⟨k, r, h2, h4 h1, h3⟩

theorem runStart_mem {s : Nat} {runs : List (LogicalRun φ)} (k : Nat) :
    runStart s runs k = s ∨ ∃ q ∈ runs, q.charEnd = runStart s runs k := by
  cases k with
  | zero => exact Or.inl rfl
  | succ k =>
    simp only [runStart]
    cases hk : runs[k]? with
    | none => exact Or.inl rfl
    | some q => exact Or.inr ⟨q, List.mem_of_getElem? hk, rfl⟩

/-- Where the font changes a logical run ends. -/
theorem Grouped.end_of_ne {same : φ → φ → Bool} {s e n : Nat} {qs : List (FontPiece φ)} {runs : List (LogicalRun φ)}
    (h : Grouped same qs runs) (hsame : ∀ f g, same f g = true → f = g)
    (hc : Consecutive e s (qs.map FontPiece.range)) (hr : LogicalRuns s e n runs) {q q' : FontPiece φ} (hq : q ∈ qs)
    (hq' : q' ∈ qs) (hx : q.stop = q'.first) (hne : q.font ≠ q'.font) : ∃ r ∈ runs, r.charEnd = q.stop := by
  obtain ⟨a1, a2, a3⟩ := hc.mem _ (List.mem_map_of_mem hq)
  obtain ⟨b1, b2, b3⟩ := hc.mem _ (List.mem_map_of_mem hq')
  simp only [FontPiece.range] at a1 a2 a3 b1 b2 b3
  obtain ⟨k, r, h1, h2, h3⟩ := hr.find (x := q.stop) (by omega) (by omega)
  rcases Nat.eq_or_lt_of_le h2 with h2 | h2
  · rcases runStart_mem (s := s) (runs := runs) k with h4 | ⟨r', h4, h5⟩
    · omega
    · exact ⟨r', h4, by omega⟩
  · exfalso
    have e1 : r.font = q.font := (h.font hc k r h1 q hq (q.stop - 1) (by omega) (by omega) (by omega) (by omega)).elim
      id (hsame _ _)
    have e2 : r.font = q'.font := (h.font hc k r h1 q' hq' q.stop (by omega) (by omega) (by omega) (by omega)).elim
      id (hsame _ _)
    exact hne (e1.symm.trans e2)

/-! ### Positions of a shaped buffer -/

theorem refPositions_length : ∀ (hb : List HbGlyph) (x y : Int), (refPositions x y hb).length = hb.length + 1
  | [], _, _ => rfl
  | _ :: t, _, _ => by simp [refPositions, refPositions_length t]

theorem refWidths_eq : ∀ hb : List HbGlyph, refWidths hb = glyphWidths false hb
  | [] => rfl
  | [g] => by simp [refWidths, glyphWidths, HbGlyph.advPrimary, HbGlyph.offPrimary]
  | g :: h :: t => by
    rw [refWidths, glyphWidths, refWidths_eq (h :: t)]
    simp only [HbGlyph.advPrimary, HbGlyph.offPrimary, Bool.false_eq_true, if_false, Int.mul_one]
    congr 1; omega

theorem secondaryPositions_cursor : ∀ (hb : List HbGlyph) (y : Int), (∀ g ∈ hb, g.yAdvance = 0) →
    (secondaryPositions false y hb).2 = y
  | [], _, _ => rfl
  | g :: t, y, h => by
    have h0 := h g (List.mem_cons_self ..)
    simp only [secondaryPositions, HbGlyph.advSecondary, Bool.false_eq_true, if_false, h0, Int.add_zero]
    exact secondaryPositions_cursor t y fun g hg => h g (List.mem_cons_of_mem _ hg)

/-- The distance of two positions is a width, their height the secondary position. -/
theorem refPositions_spec : ∀ (hb : List HbGlyph) (x y : Int), (∀ g ∈ hb, g.yAdvance = 0) → ∀ j, j < hb.length →
    ∃ a a' c c', (refPositions x y hb)[j]? = some (a, c) ∧ (refPositions x y hb)[j + 1]? = some (a', c') ∧
      (glyphWidths false hb)[j]? = some (a' - a) ∧ (secondaryPositions false y hb).1[j]? = some c
  | [], _, _, _, j, hj => by simp at hj
  | [g], x, y, h, j, hj => by
    have h0 := h g (List.mem_cons_self ..)
    have : j = 0 := by simpa using hj
    subst this
    refine ⟨_, _, _, _, rfl, rfl, ?_, rfl⟩
    simp only [glyphWidths, HbGlyph.advPrimary, HbGlyph.offPrimary, Bool.false_eq_true, if_false, Int.mul_one,
      List.getElem?_cons_zero, Option.some.injEq]
    omega
  | g :: g' :: t, x, y, h, 0, _ => by
    refine ⟨_, _, _, _, rfl, rfl, ?_, rfl⟩
    simp only [glyphWidths, HbGlyph.advPrimary, HbGlyph.offPrimary, Bool.false_eq_true, if_false, Int.mul_one,
      List.getElem?_cons_zero, Option.some.injEq]
    omega
  | g :: g' :: t, x, y, h, j + 1, hj => by
    have h0 := h g (List.mem_cons_self ..)
    obtain ⟨a, a', c, c', h1, h2, h3, h4⟩ := refPositions_spec (g' :: t) (x + g.xAdvance) (y + g.yAdvance)
      (fun g hg => h g (List.mem_cons_of_mem _ hg)) j (by simpa using hj)
    refine ⟨a, a', c, c', h1, h2, ?_, ?_⟩
    · rw [glyphWidths, List.getElem?_cons_succ]; exact h3
    · rw [secondaryPositions, List.getElem?_cons_succ]; exact h4

theorem refPositions_level : ∀ (hb : List HbGlyph) (x : Int), (∀ g ∈ hb, g.yAdvance = 0) → (∀ g ∈ hb, g.yOffset = 0) →
    (∀ p ∈ refPositions x 0 hb, p.2 = 0) ∧ ∀ c ∈ (secondaryPositions false 0 hb).1, c = 0
  | [], _, _, _ => by simp [refPositions, secondaryPositions]
  | g :: t, x, h, h' => by
    have h0 := h g (List.mem_cons_self ..)
    have h0' := h' g (List.mem_cons_self ..)
    obtain ⟨h1, h2⟩ := refPositions_level t (x + g.xAdvance) (fun g hg => h g (List.mem_cons_of_mem _ hg))
      (fun g hg => h' g (List.mem_cons_of_mem _ hg))
    simp only [refPositions, secondaryPositions, HbGlyph.advSecondary, HbGlyph.offSecondary, Bool.false_eq_true, if_false,
      h0, h0', Int.add_zero, List.mem_cons, forall_eq_or_imp, true_and]
    exact ⟨h1, h2⟩

/-- The same in logical order. -/
theorem refPositions_logical {hb : List HbGlyph} (h : ∀ g ∈ hb, g.yAdvance = 0) (rev : Bool) {j : Nat} (hj : j < hb.length) :
    ∃ a a' c c', (refPositions 0 0 hb)[j]? = some (a, c) ∧ (refPositions 0 0 hb)[j + 1]? = some (a', c') ∧
      (revIf rev (glyphWidths false hb))[if rev then hb.length - 1 - j else j]? = some (a' - a) ∧
      (revIf rev (secondaryPositions false 0 hb).1)[if rev then hb.length - 1 - j else j]? = some c := by
  obtain ⟨a, a', c, c', h1, h2, h3, h4⟩ := refPositions_spec hb 0 0 h j hj
  refine ⟨a, a', c, c', h1, h2, ?_, ?_⟩ <;> cases rev
  · exact h3
  · simp only [revIf, if_true]
    rw [List.getElem?_reverse (by rw [glyphWidths_length]; omega), glyphWidths_length]
    rw [show hb.length - 1 - (hb.length - 1 - j) = j by omega]; exact h3
  · exact h4
  · simp only [revIf, if_true]
    rw [List.getElem?_reverse (by rw [secondaryPositions_length]; omega), secondaryPositions_length]
    rw [show hb.length - 1 - (hb.length - 1 - j) = j by omega]; exact h4

/-! ### Shaping -/

/-- A logical run with the index in the text. -/
def RefRun.abs (s : Nat) (r : RefRun φ) : LogicalRun φ := ⟨r.font, r.charEnd + s, r.glyphEnd⟩

/-- What the two builders have after shaping `qs`, with `u` the data of the layout builder but with logical
runs that are not merged. -/
structure Sim (e : ParaEnv β φ) (s off : Nat) (qs : List (Sub β φ)) (b u : Shaped φ) (rb : RefShaped φ) : Prop where
  shaping : Shaping s off b
  shapingU : Shaping s off u
  grouped : Grouped e.same (qs.map Sub.piece) b.runs
  consecutive : Consecutive off s ((qs.map Sub.piece).map FontPiece.range)
  glyphs : u.glyphs = b.glyphs
  charIdx : u.charIdx = b.charIdx
  widths : u.widths = b.widths
  secondary : u.secondary = b.secondary
  cursor : b.cursor = 0
  cursorU : u.cursor = 0
  refGlyphs : rb.glyphs = b.glyphs
  refCharIdx : rb.charIdx = b.charIdx
  refWidths : rb.widths = b.widths
  runs : u.runs = rb.runs.map (RefRun.abs s)
  pieces : rb.runs.map (fun r => (r.font, r.charEnd, r.rtl)) = qs.map fun q => (q.font, q.stop - s, e.reversed q.args)
  count : rb.positions.length = rb.glyphs.length + rb.runs.length
  placed : ∀ (k : Nat) (r : RefRun φ), rb.runs[k]? = some r → ∀ j, runFirstGlyph u.runs k + j < r.glyphEnd →
    ∃ a a' c c', rb.positions[runFirstGlyph u.runs k + k + j]? = some (a, c) ∧
      rb.positions[runFirstGlyph u.runs k + k + j + 1]? = some (a', c') ∧
      b.widths[if r.rtl then r.glyphEnd - 1 - j else runFirstGlyph u.runs k + j]? = some (a' - a) ∧
      b.secondary[if r.rtl then r.glyphEnd - 1 - j else runFirstGlyph u.runs k + j]? = some c
  level : (∀ f v a b, ∀ g ∈ e.shape f v a b, g.yOffset = 0) → (∀ c ∈ b.secondary, c = 0) ∧ ∀ p ∈ rb.positions, p.2 = 0

theorem addShaped_noTabs (b : Shaped φ) (hb : List HbGlyph) (start : Nat) (rev : Bool) {isTab : Nat → Bool}
    (ht : ∀ c, isTab c = false) (sa : Int) (sg : Nat) (hf : ∀ g ∈ hb, g.yAdvance = 0) (hc : b.cursor = 0) :
    b.addShaped hb start rev false isTab sa sg =
      { glyphs := b.glyphs ++ revIf rev (hb.map (·.glyph))
        charIdx := b.charIdx ++ revIf rev (hb.map (·.cluster + start))
        widths := b.widths ++ revIf rev (glyphWidths false hb)
        secondary := b.secondary ++ revIf rev (secondaryPositions false 0 hb).1
        cursor := 0
        runs := b.runs } := by
  have e1 : (hb.map fun g => replaceTab sa sg (isTab (g.cluster + start)) g) = hb := by
    conv_rhs => rw [← List.map_id hb]
    apply List.map_congr_left
    intro g _
    simp [ht, replaceTab]
  simp only [Shaped.addShaped, e1, hc, secondaryPositions_cursor hb 0 hf]

theorem addRun_unmerged (b : Shaped φ) (f : φ) (ce : Nat) :
    b.addRun (fun _ _ => false) f ce = { b with runs := b.runs ++ [⟨f, ce, b.glyphs.length⟩] } := by
  unfold Shaped.addRun
  split <;> simp

theorem addRun_data (same : φ → φ → Bool) (b : Shaped φ) (f : φ) (ce : Nat) :
    (b.addRun same f ce).glyphs = b.glyphs ∧ (b.addRun same f ce).charIdx = b.charIdx ∧
    (b.addRun same f ce).widths = b.widths ∧ (b.addRun same f ce).secondary = b.secondary ∧
    (b.addRun same f ce).cursor = b.cursor := by
  unfold Shaped.addRun
  split
  · simp
  · split <;> simp

/-- The environment that does not merge. -/
def ShapeEnv.unmerged (e : ShapeEnv β φ) : ShapeEnv β φ := { e with same := fun _ _ => false }

theorem ShapeEnv.Contract.unmerged {e : ShapeEnv β φ} (h : e.Contract) : e.unmerged.Contract :=
  ⟨h.subFont, h.cluster, h.order⟩

theorem runFirstGlyph_end {s e n : Nat} {runs t : List (LogicalRun φ)}
    (h : (e = s ∧ runs = [] ∧ n = 0) ∨ LogicalRuns s e n runs) : runFirstGlyph (runs ++ t) runs.length = n := by
  rcases h with ⟨_, rfl, rfl⟩ | h
  · rfl
  · obtain ⟨r, h1, _, h3⟩ := h.last
    have := h.length_pos
    obtain ⟨m, hm⟩ : ∃ m, runs.length = m + 1 := ⟨runs.length - 1, by omega⟩
    rw [hm] at h1 ⊢
    simp only [runFirstGlyph]
    rw [List.getElem?_append_left (by omega)]
    simp only [Nat.add_sub_cancel] at h1
    rw [h1]
    simp [h3]

theorem Sim.step {e : ParaEnv β φ} (hC : e.toShapeEnv.Contract) {s off : Nat} {qs : List (Sub β φ)} {b u : Shaped φ}
    {rb : RefShaped φ} (h : Sim e s off qs b u rb) (hes : e.line.start = s) (hv : e.vertical = false)
    (ht : ∀ c, e.isTab c = false) (q : Sub β φ) (hq : q.first = off) (hlt : off < q.stop) (hoff : s ≤ off)
    (hflat : ∀ g ∈ e.shape q.font q.args off q.stop, g.yAdvance = 0)
    (hne : e.reversed q.args = true → e.shape q.font q.args off q.stop ≠ []) :
    ∃ u' rb', rb.add e (off - s) (q.ref s) = some rb' ∧
      Sim e s q.stop (qs ++ [q]) (b.addSubRun e.toShapeEnv q.args off (q.font, q.stop)) u' rb' := by
  have hsp := addSubRun_spec hC h.shaping q.args (q.font, q.stop) hlt
  have hspU := addSubRun_spec hC.unmerged h.shapingU q.args (q.font, q.stop) hlt
  have hgr := addSubRun_grouped h.grouped (off := off) q.args (q.font, q.stop)
  simp only at hsp hspU
  obtain ⟨hb, hhb⟩ : ∃ hb, hb = e.shape q.font q.args off q.stop := ⟨_, rfl⟩
  obtain ⟨rev, hrev⟩ : ∃ rev, rev = e.reversed q.args := ⟨_, rfl⟩
  have eb := addShaped_noTabs b hb off rev ht (e.spaceAdvance q.font) (e.spaceGlyph q.font) (hhb ▸ hflat) h.cursor
  have eu := addShaped_noTabs u hb off rev ht (e.spaceAdvance q.font) (e.spaceGlyph q.font) (hhb ▸ hflat) h.cursorU
  have eU : u.addSubRun e.toShapeEnv.unmerged q.args off (q.font, q.stop) =
      { glyphs := u.glyphs ++ revIf rev (hb.map (·.glyph))
        charIdx := u.charIdx ++ revIf rev (hb.map (·.cluster + off))
        widths := u.widths ++ revIf rev (glyphWidths false hb)
        secondary := u.secondary ++ revIf rev (secondaryPositions false 0 hb).1
        cursor := 0
        runs := u.runs ++ [⟨q.font, q.stop, (u.glyphs ++ revIf rev (hb.map (·.glyph))).length⟩] } := by
    unfold Shaped.addSubRun
    simp only [ShapeEnv.unmerged, addRun_unmerged, hv, ← hhb, ← hrev, eu]
  have eB : ∀ c : Shaped φ, c = b.addSubRun e.toShapeEnv q.args off (q.font, q.stop) →
      c.glyphs = b.glyphs ++ revIf rev (hb.map (·.glyph)) ∧
      c.charIdx = b.charIdx ++ revIf rev (hb.map (·.cluster + off)) ∧
      c.widths = b.widths ++ revIf rev (glyphWidths false hb) ∧
      c.secondary = b.secondary ++ revIf rev (secondaryPositions false 0 hb).1 ∧ c.cursor = 0 := by
    rintro _ rfl
    unfold Shaped.addSubRun
    simp only [hv, ← hhb, ← hrev, eb]
    exact addRun_data e.same _ _ _
  obtain ⟨c, hc⟩ : ∃ c, c = b.addSubRun e.toShapeEnv q.args off (q.font, q.stop) := ⟨_, rfl⟩
  obtain ⟨d, hd⟩ : ∃ d, d = u.addSubRun e.toShapeEnv.unmerged q.args off (q.font, q.stop) := ⟨_, rfl⟩
  obtain ⟨c1, c2, c3, c4, c5⟩ := eB c hc
  rw [← hd] at eU hspU
  rw [← hc] at hsp hgr ⊢
  have hcond : (e.reversed (q.ref s).args && (e.shape (q.ref s).font (q.ref s).args (e.line.start + (off - s))
      (e.line.start + (q.ref s).stop)).isEmpty) = false := by
    simp only [Sub.ref, hes]
    rw [show s + (off - s) = off by omega, show s + (q.stop - s) = q.stop by omega]
    cases hr : e.reversed q.args with
    | false => rfl
    | true => simpa using hne hr
  have heq : rb.add e (off - s) (q.ref s) = some
      { glyphs := rb.glyphs ++ revIf rev (hb.map (·.glyph))
        charIdx := rb.charIdx ++ revIf rev (hb.map fun g => g.cluster + (off - s) + e.line.start)
        positions := rb.positions ++ refPositions 0 0 hb
        widths := rb.widths ++ revIf rev (RichText.refWidths hb)
        runs := rb.runs ++ [⟨⟨q.font, q.stop - s, rb.glyphs.length + hb.length⟩, rev⟩] } := by
    unfold RefShaped.add
    simp only [hcond, Bool.false_eq_true, if_false]
    simp only [Sub.ref, hes]
    rw [show s + (off - s) = off by omega, show s + (q.stop - s) = q.stop by omega, ← hhb, ← hrev]
  refine ⟨d, _, heq, ?_⟩
  have hglen : (u.glyphs ++ revIf rev (hb.map (·.glyph))).length = rb.glyphs.length + hb.length := by
    rw [List.length_append, revIf_length, List.length_map, h.glyphs, h.refGlyphs]
  have hul : u.runs.length = rb.runs.length := by rw [h.runs, List.length_map]
  have hlf : runFirstGlyph (u.runs ++ [⟨q.font, q.stop, rb.glyphs.length + hb.length⟩]) rb.runs.length = b.glyphs.length := by
    rw [← hul, ← h.glyphs]
    apply runFirstGlyph_end (s := s) (e := off)
    rcases h.shapingU.runs with ⟨a1, a2, a3⟩ | a
    · exact Or.inl ⟨a1, a2, by rw [a3]; rfl⟩
    · exact Or.inr a
  rw [hglen] at eU
  have du : d.runs = u.runs ++ [⟨q.font, q.stop, rb.glyphs.length + hb.length⟩] := by rw [eU]
  have hwl : b.widths.length = b.glyphs.length := h.shaping.widths
  have hsl : b.secondary.length = b.glyphs.length := h.shaping.secondary
  exact
    { shaping := hsp
      shapingU := hspU
      grouped := by
        rw [List.map_append, List.map_singleton]
        have : q.piece = ⟨q.font, off, q.stop⟩ := by rw [← hq]; rfl
        rw [this]; exact hgr
      consecutive := by
        rw [List.map_append, List.map_append]
        exact h.consecutive.append ⟨hq, by show q.first < q.stop; omega, rfl⟩
      glyphs := by rw [eU, c1, h.glyphs]
      charIdx := by rw [eU, c2, h.charIdx]
      widths := by rw [eU, c3, h.widths]
      secondary := by rw [eU, c4, h.secondary]
      cursor := c5
      cursorU := by rw [eU]
      refGlyphs := by rw [c1, ← h.refGlyphs]
      refCharIdx := by
        rw [c2, ← h.refCharIdx]
        show _ ++ _ = _
        congr 3
        funext g
        omega
      refWidths := by
        rw [c3, ← h.refWidths, ← refWidths_eq]
      runs := by
        rw [du, h.runs]
        rw [List.map_append, List.map_singleton]
        simp only [RefRun.abs]
        rw [Nat.sub_add_cancel (by omega)]
      pieces := by
        rw [List.map_append, List.map_append, h.pieces]
        simp only [List.map_cons, List.map_nil, hrev]
      count := by
        simp only [List.length_append, refPositions_length, revIf_length, List.length_map, List.length_singleton, h.count]
        omega
      placed := by
        intro k r hk j hj
        simp only at hk hj ⊢
        rw [du] at hj ⊢
        rcases getElem?_snoc hk with ⟨hkl, hk'⟩ | ⟨rfl, rfl⟩
        · rw [runFirstGlyph_append (t' := []) (by omega), List.append_nil] at hj ⊢
          obtain ⟨a, a', x, x', p1, p2, p3, p4⟩ := h.placed k r hk' j hj
          refine ⟨a, a', x, x', ?_, ?_, ?_, ?_⟩
          · rw [List.getElem?_append_left (List.getElem?_eq_some_iff.1 p1).1]; exact p1
          · rw [List.getElem?_append_left (List.getElem?_eq_some_iff.1 p2).1]; exact p2
          · rw [c3, List.getElem?_append_left (List.getElem?_eq_some_iff.1 p3).1]; exact p3
          · rw [c4, List.getElem?_append_left (List.getElem?_eq_some_iff.1 p4).1]; exact p4
        · rw [hlf] at hj ⊢
          simp only at hj ⊢
          rw [h.refGlyphs] at hj ⊢
          have hj' : j < hb.length := by omega
          obtain ⟨a, a', x, x', p1, p2, p3, p4⟩ := refPositions_logical (hhb ▸ hflat) rev hj'
          have hcnt := h.count
          rw [h.refGlyphs] at hcnt
          refine ⟨a, a', x, x', ?_, ?_, ?_, ?_⟩
          · rw [List.getElem?_append_right (by omega)]
            rw [show b.glyphs.length + rb.runs.length + j - rb.positions.length = j by omega]; exact p1
          · rw [List.getElem?_append_right (by omega)]
            rw [show b.glyphs.length + rb.runs.length + j + 1 - rb.positions.length = j + 1 by omega]; exact p2
          · rw [c3, List.getElem?_append_right (by split <;> omega), ← p3]
            congr 1
            split <;> omega
          · rw [c4, List.getElem?_append_right (by split <;> omega), ← p4]
            congr 1
            split <;> omega
      level := by
        intro hz
        obtain ⟨z1, z2⟩ := h.level hz
        obtain ⟨z3, z4⟩ := refPositions_level hb 0 (hhb ▸ hflat) (hhb ▸ hz _ _ _ _)
        constructor
        · intro x hx
          rw [c4, List.mem_append] at hx
          exact hx.elim (z1 x) fun hx => z4 x ((revIf_perm _ _).mem_iff.1 hx)
        · intro x hx
          rw [List.mem_append] at hx
          exact hx.elim (z2 x) (z3 x) }

theorem Sim.init (e : ParaEnv β φ) (s : Nat) : Sim e s s [] {} {} {} where
  shaping := shaping_init s
  shapingU := shaping_init s
  grouped := Grouped.nil
  consecutive := rfl
  glyphs := rfl
  charIdx := rfl
  widths := rfl
  secondary := rfl
  cursor := rfl
  cursorU := rfl
  refGlyphs := rfl
  refCharIdx := rfl
  refWidths := rfl
  runs := rfl
  pieces := rfl
  count := rfl
  placed := by intro k r hk; simp at hk
  level := by intro _; simp

/-- Both builders shape the same. -/
theorem Sim.run {e : ParaEnv β φ} (hC : e.toShapeEnv.Contract) (hv : e.vertical = false)
    (ht : ∀ c, e.isTab c = false) (hflat : ∀ f v a b, ∀ g ∈ e.shape f v a b, g.yAdvance = 0)
    (hne : ∀ f v a b, a < b → e.reversed v = true → e.shape f v a b ≠ []) {calls : List (Nat × β)} {off : Nat}
    {qs : List (Sub β φ)} (h : Subs e.toShapeEnv calls off qs) :
    ∀ {pre : List (Sub β φ)} {b u : Shaped φ} {rb : RefShaped φ}, e.line.start ≤ off →
      Sim e e.line.start off pre b u rb →
      ∃ off' b' u' rb', shapeCalls e.toShapeEnv calls off b = some (off', b') ∧
        refShape e (qs.map (Sub.ref e.line.start)) (off - e.line.start) rb = some rb' ∧
        Sim e e.line.start off' (pre ++ qs) b' u' rb' := by
  induction h with
  | nil off =>
    intro pre b u rb _ h
    exact ⟨off, b, u, rb, rfl, rfl, by rw [List.append_nil]; exact h⟩
  | @next limit v calls off qs hle hs ih =>
    intro pre b u rb ho h
    obtain ⟨off', b', u', rb', h1, h2, h3⟩ := ih ho h
    refine ⟨off', b', u', rb', ?_, h2, h3⟩
    rw [shapeCalls, subFontLoop, if_neg (by omega)]
    exact h1
  | @sub limit v calls off qs hlt hs ih =>
    intro pre b u rb ho h
    obtain ⟨g1, g2⟩ := hC.subFont v off limit hlt
    obtain ⟨f, x, hfx⟩ : ∃ f x, e.subFont v off limit = (f, x) := ⟨_, _, rfl⟩
    simp only [hfx] at g1 g2 ih ⊢
    obtain ⟨u1, rb1, k1, k2⟩ := h.step hC rfl hv ht ⟨f, v, off, x⟩ rfl g1 ho (hflat _ _ _ _) (hne _ _ _ _ g1)
    obtain ⟨off', b', u', rb', h1, h2, h3⟩ := ih (by omega) k2
    refine ⟨off', b', u', rb', ?_, ?_, ?_⟩
    · rw [shapeCalls] at h1 ⊢
      rw [subFontLoop, if_pos hlt, hfx, if_pos g1]
      exact h1
    · rw [List.map_cons, refShape, k1]
      exact h2
    · rw [List.append_assoc] at h3; exact h3

/-! ### Lines -/

theorem refFit_some {area : Int} {ws : List Int} {i : Nat} {w : Int} (h : ws[i]? = some w) (s : Int) :
    refFit area ws i s = if s + w ≤ area then refFit area ws (i + 1) (s + w) else (i, s) := by
  conv_lhs => unfold refFit
  split
  · rename_i hw; rw [h] at hw; cases hw
  · rename_i w' hw
    rw [h] at hw
    simp only [Option.some.injEq] at hw
    subst hw
    rfl

theorem refFit_none {area : Int} {ws : List Int} {i : Nat} (h : ws[i]? = none) (s : Int) :
    refFit area ws i s = (i, s) := by
  unfold refFit
  split
  · rfl
  · rename_i w' hw; rw [h] at hw; cases hw

theorem fitLine_ref {e : LineEnv} {ci : List Nat} {ws : List Int} (ht : ∀ c, e.isTab c = false)
    (hl : ws.length = ci.length) (n : Nat) : ∀ (i : Nat) (s : Int), ci.length - i = n →
      fitLine e ci i s ws = some ⟨(refFit e.area ws i s).1, (refFit e.area ws i s).2, ws⟩ := by
  induction n with
  | zero =>
    intro i s hn
    rw [refFit_none (List.getElem?_eq_none (by omega))]
    unfold fitLine
    rw [if_neg (by omega)]
  | succ n ih =>
    intro i s hn
    have e1 : ws[i]? = some ws[i] := List.getElem?_eq_getElem (by omega)
    have e2 : ci[i]? = some ci[i] := List.getElem?_eq_getElem (by omega)
    have e3 : tabAdjust e ci ws i s = some (ws[i], ws) := by
      unfold tabAdjust
      rw [e1, e2]
      simp [ht]
    rw [refFit_some e1]
    unfold fitLine
    rw [if_pos (by omega), e3]
    simp only
    by_cases hc : s + ws[i] ≤ e.area
    · rw [if_pos hc, if_neg (by omega)]
      exact ih (i + 1) _ (by omega)
    · rw [if_neg hc, if_pos (by omega)]

theorem findBreak_ref {e : LineEnv} (hd : e.Decodes) (n : Nat) : ∀ i, e.length - i = n →
    findPreviousLineBreak e i = refFindBreak e i := by
  induction n using Nat.strongRecOn with
  | ind n ih =>
    intro i hn
    unfold findPreviousLineBreak refFindBreak refSkip
    by_cases hi : i < e.length
    · obtain ⟨h1, h2⟩ := hd i hi
      rw [if_pos hi, if_pos hi, if_pos h1]
      cases hh : e.hangs i with
      | true =>
        simp only [if_true, if_pos h1]
        exact ih (e.length - e.next i) (by omega) (e.next i) rfl
      | false => simp [hi]
    · rw [if_neg hi, if_neg hi]
      simp [hi]

theorem breakLine_ref {e : LineEnv} (hd : e.Decodes) {ci : List Nat} {ws : List Int} (ht : ∀ c, e.isTab c = false)
    (hl : ws.length = ci.length) (ls : Nat) :
    breakLine e ci ls ws = (refBreak e ci ws ls).map fun t => ⟨ls, t, ws⟩ := by
  obtain ⟨l, h, _⟩ := breakLine_defined hd (ci := ci) (Or.inl fun c _ => ht c) ls hl
  have hw := breakLine_noTabs (fun c _ => ht c) h
  obtain ⟨it⟩ := breakLine_iteration h
  rw [h]
  have h2 := it.fit
  rw [fitLine_ref ht hl _ _ _ rfl] at h2
  simp only [Option.some.injEq] at h2
  have h3 := it.prev
  rw [findBreak_ref hd _ _ rfl] at h3
  unfold refBreak
  rw [it.search]
  simp only [Option.bind_some]
  have h4 : (if (refFit e.area ws it.g 0).2 = 0 ∧ (refFit e.area ws it.g 0).1 < ci.length then
      (refFit e.area ws it.g 0).1 + 1 else (refFit e.area ws it.g 0).1) = forceGlyph ci.length it.f := by
    rw [← h2]; rfl
  rw [h4, h3]
  simp only [Option.map_some, Option.some.injEq]
  rw [← it.stop]
  have := it.first
  cases l
  simp only at *
  rw [hw, this]

theorem breakLines_ref {e : LineEnv} (hd : e.Decodes) {ci : List Nat} {ws : List Int} (ht : ∀ c, e.isTab c = false)
    (hl : ws.length = ci.length) : ∀ (fuel ls : Nat),
    breakLines e ci fuel ls ws = (refBreaks e ci ws fuel ls).map (List.map fun l => ⟨l.1, l.2, ws⟩) := by
  intro fuel
  induction fuel with
  | zero =>
    intro ls
    unfold breakLines refBreaks
    split <;> rfl
  | succ fuel ih =>
    intro ls
    unfold breakLines refBreaks
    split
    · simp only
      rw [breakLine_ref hd ht hl]
      cases hr : refBreak e ci ws ls with
      | none => rfl
      | some t =>
        simp only [Option.map_some]
        rw [ih t]
        cases refBreaks e ci ws fuel t <;> rfl
    · rfl

theorem applyTabs_noTabs {e : LineEnv} {ci : List Nat} {ws : List Int} (ht : ∀ c, e.isTab c = false)
    (hl : ws.length = ci.length) : applyTabs e ci 0 0 ws = some ws := by
  obtain ⟨ws', h⟩ := applyTabs_defined (e := e) (ci := ci) _ 0 0 ws (Or.inl fun c _ => ht c) rfl hl
  rw [h, (applyTabs_spec _ 0 0 ws rfl (Nat.zero_le _) h).noTabs fun c _ => ht c]

/-- Both builders break the lines at the same places. -/
theorem paragraphLines_ref {e : LineEnv} (hd : e.Decodes) {ci : List Nat} {ws : List Int} (ht : ∀ c, e.isTab c = false)
    (hl : ws.length = ci.length) :
    paragraphLines e ci ws = (refLines e ci ws).map (List.map fun l => ⟨l.1, l.2, ws⟩) := by
  unfold paragraphLines refLines
  split
  · rw [applyTabs_noTabs ht hl]; rfl
  · exact breakLines_ref hd ht hl _ _

/-! ### Pieces with relative indices -/

/-- A piece with the index in the text. -/
def VisualPiece.shift (s : Nat) (p : VisualPiece) : VisualPiece := ⟨p.run, p.first + s, p.last + s, p.rtl⟩

theorem ltrPieces_some {runs : List (LogicalRun φ)} {k : Nat} {r : LogicalRun φ} (h : runs[k]? = some r) (runEnd chr : Nat) :
    ltrPieces runs runEnd k chr = if runEnd < r.charEnd then some [⟨k, chr, runEnd, false⟩]
      else (ltrPieces runs runEnd (k + 1) r.charEnd).map (⟨k, chr, r.charEnd - 1, false⟩ :: ·) := by
  conv_lhs => unfold ltrPieces
  split
  · rename_i h'; rw [h] at h'; cases h'
  · rename_i r' h'
    rw [h] at h'
    simp only [Option.some.injEq] at h'
    subst h'
    rfl

theorem ltrPieces_none {runs : List (LogicalRun φ)} {k : Nat} (h : runs[k]? = none) (runEnd chr : Nat) :
    ltrPieces runs runEnd k chr = none := by
  unfold ltrPieces
  split
  · rfl
  · rename_i r' h'; rw [h] at h'; cases h'

theorem ltrPieces_shift {runs : List (RefRun φ)} (s : Nat) (hpos : ∀ r ∈ runs, 0 < r.charEnd) {runEnd : Nat} (d : Nat) :
    ∀ (k chr : Nat), runs.length - k = d →
    ltrPieces (runs.map (RefRun.abs s)) (runEnd + s) k (chr + s) =
      (ltrPieces (runs.map (·.toLogicalRun)) runEnd k chr).map (List.map (VisualPiece.shift s)) := by
  induction d with
  | zero =>
    intro k chr hd
    have e1 : runs[k]? = none := List.getElem?_eq_none (by omega)
    rw [ltrPieces_none (by rw [List.getElem?_map, e1]; rfl), ltrPieces_none (by rw [List.getElem?_map, e1]; rfl)]
    rfl
  | succ d ih =>
    intro k chr hd
    have e1 : runs[k]? = some runs[k] := List.getElem?_eq_getElem (by omega)
    have hp := hpos _ (List.mem_of_getElem? e1)
    have g1 : (runs.map (RefRun.abs s))[k]? = some ((runs[k]).abs s) := by rw [List.getElem?_map, e1]; rfl
    have g2 : (runs.map (·.toLogicalRun))[k]? = some (runs[k]).toLogicalRun := by rw [List.getElem?_map, e1]; rfl
    rw [ltrPieces_some g1 (runEnd + s) (chr + s), ltrPieces_some g2 runEnd chr]
    have g3 : ((runs[k]).abs s).charEnd = (runs[k]).charEnd + s := rfl
    rw [g3]
    by_cases hc : runEnd < (runs[k]).charEnd
    · rw [if_pos hc, if_pos (by omega)]; rfl
    · rw [if_neg hc, if_neg (by omega)]
      rw [ih (k + 1) (runs[k]).charEnd (by omega)]
      cases ltrPieces (runs.map (·.toLogicalRun)) runEnd (k + 1) (runs[k]).charEnd with
      | none => rfl
      | some t =>
        simp only [Option.map_some, List.map_cons, VisualPiece.shift, Option.some.injEq, List.cons.injEq, and_true]
        rw [show (runs[k]).charEnd + s - 1 = (runs[k]).charEnd - 1 + s by omega]

theorem rtlPieces_shift {runs : List (RefRun φ)} (s : Nat) (hpos : ∀ r ∈ runs, 0 < r.charEnd) {first : Nat} :
    ∀ (k chr : Nat),
    rtlPieces (runs.map (RefRun.abs s)) (first + s) k (chr + s) =
      (rtlPieces (runs.map (·.toLogicalRun)) first k chr).map (List.map (VisualPiece.shift s)) := by
  intro k
  induction k with
  | zero =>
    intro chr
    unfold rtlPieces
    rw [List.getElem?_map, List.getElem?_map]
    cases runs[0]? <;> rfl
  | succ k ih =>
    intro chr
    unfold rtlPieces
    rw [List.getElem?_map, List.getElem?_map, List.getElem?_map, List.getElem?_map]
    cases h1 : runs[k + 1]? with
    | none => rfl
    | some r =>
      cases h2 : runs[k]? with
      | none => rfl
      | some q =>
        have hp := hpos _ (List.mem_of_getElem? h2)
        simp only [Option.map_some, RefRun.abs]
        by_cases hc : q.charEnd ≤ first
        · rw [if_pos hc, if_pos (by omega)]; rfl
        · rw [if_neg hc, if_neg (by omega), show q.charEnd + s - 1 = q.charEnd - 1 + s by omega, ih]
          cases rtlPieces (runs.map (·.toLogicalRun)) first k (q.charEnd - 1) <;> rfl

theorem bidiPieces_shift {runs : List (RefRun φ)} {s : Nat} (hpos : ∀ r ∈ runs, 0 < r.charEnd) {r : BidiRun}
    (hs : s ≤ r.offset) (hl : 0 < r.length) :
    bidiPieces (runs.map (RefRun.abs s)) r =
      (bidiPieces (runs.map (·.toLogicalRun)) { r with offset := r.offset - s }).map (List.map (VisualPiece.shift s)) := by
  have hsearch : ∀ x y, x = y + s →
      binarySearch (fun i => ((runs.map (RefRun.abs s))[i]?).map (fun q => decide (q.charEnd ≤ x))) 0
        (runs.map (RefRun.abs s)).length =
      binarySearch (fun i => ((runs.map (·.toLogicalRun))[i]?).map (fun q => decide (q.charEnd ≤ y))) 0
        (runs.map (·.toLogicalRun)).length := by
    rintro x y rfl
    rw [List.length_map, List.length_map]
    congr 1
    funext i
    rw [List.getElem?_map, List.getElem?_map]
    cases runs[i]? with
    | none => rfl
    | some q =>
      simp only [Option.map_some, RefRun.abs, Option.some.injEq, decide_eq_decide]
      omega
  unfold bidiPieces
  simp only
  split
  · rw [hsearch r.offset (r.offset - s) (by omega)]
    cases binarySearch (fun i => ((runs.map (·.toLogicalRun))[i]?).map (fun q => decide (q.charEnd ≤ r.offset - s))) 0
        (runs.map (·.toLogicalRun)).length with
    | none => rfl
    | some k =>
      simp only [Option.bind_some]
      rw [← ltrPieces_shift s hpos _ k _ rfl, show r.offset - s + r.length - 1 + s = r.offset + r.length - 1 by omega,
        show r.offset - s + s = r.offset by omega]
  · rw [hsearch (r.offset + r.length - 1) (r.offset - s + r.length - 1) (by omega)]
    cases binarySearch (fun i => ((runs.map (·.toLogicalRun))[i]?).map
        (fun q => decide (q.charEnd ≤ r.offset - s + r.length - 1))) 0 (runs.map (·.toLogicalRun)).length with
    | none => rfl
    | some k =>
      simp only [Option.bind_some]
      rw [← rtlPieces_shift s hpos k _, show r.offset - s + r.length - 1 + s = r.offset + r.length - 1 by omega,
        show r.offset - s + s = r.offset by omega]

theorem linePieces_shift {runs : List (RefRun φ)} {s : Nat} (hpos : ∀ r ∈ runs, 0 < r.charEnd) :
    ∀ bs : List BidiRun, (∀ r ∈ bs, s ≤ r.offset ∧ 0 < r.length) →
    linePieces (runs.map (RefRun.abs s)) bs =
      (linePieces (runs.map (·.toLogicalRun)) (bs.map fun r => { r with offset := r.offset - s })).map
        (List.map (VisualPiece.shift s))
  | [], _ => rfl
  | r :: t, h => by
    obtain ⟨h1, h2⟩ := h r (List.mem_cons_self ..)
    rw [List.map_cons, linePieces, linePieces, bidiPieces_shift hpos h1 h2,
      linePieces_shift hpos t fun r hr => h r (List.mem_cons_of_mem _ hr)]
    cases bidiPieces (runs.map (·.toLogicalRun)) { r with offset := r.offset - s } with
    | none => rfl
    | some a =>
      cases linePieces (runs.map (·.toLogicalRun)) (t.map fun r => { r with offset := r.offset - s }) with
      | none => rfl
      | some c => simp

end RichText
