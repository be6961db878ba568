import Verif.Spec.Layout
import Mathlib.Data.List.Basic
import Mathlib.Tactic.Linarith
import Mathlib.Tactic.Ring
import Mathlib.Tactic.NormNum
import Mathlib.Algebra.Order.Field.Rat
/-! Access lemmas for stored layouts and the preservation of `Stores`. -/
namespace RichText
variable {φ : Type _}

/-- The positions of a list of runs. -/
abbrev posOf (rs : List (RunSpec φ)) : List Rat :=
  rs.flatMap fun r => r.glyphs.flatMap (fun g => [g.x, g.y]) ++ [r.endX, r.endY]

/-- x positions of a run's glyphs, then of its end. -/
def RunSpec.xs (r : RunSpec φ) : List Rat := r.glyphs.map (·.x) ++ [r.endX]

/-- y positions of a run's glyphs, then of its end. -/
def RunSpec.ys (r : RunSpec φ) : List Rat := r.glyphs.map (·.y) ++ [r.endY]

theorem glyphCount_nil : glyphCount ([] : List (RunSpec φ)) = 0 := rfl

theorem glyphCount_cons (r : RunSpec φ) (rs : List (RunSpec φ)) :
    glyphCount (r :: rs) = r.glyphs.length + glyphCount rs := by simp [glyphCount]

theorem glyphCount_append (rs rs' : List (RunSpec φ)) :
    glyphCount (rs ++ rs') = glyphCount rs + glyphCount rs' := by simp [glyphCount]

theorem flatMap_glyphs_length (rs : List (RunSpec φ)) :
    (rs.flatMap (·.glyphs)).length = glyphCount rs := by
  induction rs with
  | nil => rfl
  | cons r rs ih => simp [glyphCount_cons, ih]

theorem xy_length (gs : List GlyphSpec) : (gs.flatMap fun g => [g.x, g.y]).length = 2 * gs.length := by
  induction gs with
  | nil => rfl
  | cons g gs ih => simp [ih]; omega

theorem posOf_length (rs : List (RunSpec φ)) : (posOf rs).length = 2 * (glyphCount rs + rs.length) := by
  induction rs with
  | nil => rfl
  | cons r rs ih =>
    simp only [posOf, List.flatMap_cons, List.length_append, xy_length, glyphCount_cons,
      List.length_cons] at ih ⊢
    simp only [List.length_nil]
    omega

theorem split_at {α : Type _} {l : List α} {i : Nat} {a : α} (h : l[i]? = some a) :
    l = l.take i ++ a :: l.drop (i + 1) ∧ (l.take i).length = i := by
  have hi : i < l.length := by
    rcases Nat.lt_or_ge i l.length with h1 | h1
    · exact h1
    · rw [List.getElem?_eq_none h1] at h; cases h
  have ha : l[i] = a := by rw [List.getElem?_eq_getElem hi] at h; exact Option.some.inj h
  constructor
  · rw [← ha, List.getElem_cons_drop, List.take_append_drop]
  · rw [List.length_take]; omega

theorem glyphCount_take_succ {rs : List (RunSpec φ)} {k : Nat} {r : RunSpec φ} (h : rs[k]? = some r) :
    glyphCount (rs.take (k + 1)) = glyphCount (rs.take k) + r.glyphs.length := by
  rw [List.take_add_one, h, glyphCount_append]
  simp [glyphCount]

theorem glyphCount_take_le (rs : List (RunSpec φ)) (k : Nat) : glyphCount (rs.take k) ≤ glyphCount rs := by
  conv => rhs; rw [← List.take_append_drop k rs, glyphCount_append]
  omega

theorem xy_get (gs : List GlyphSpec) (ex ey : Rat) (j : Nat) (hj : j ≤ gs.length) :
    (gs.flatMap (fun g => [g.x, g.y]) ++ [ex, ey])[2 * j]? = (gs.map (·.x) ++ [ex])[j]? ∧
    (gs.flatMap (fun g => [g.x, g.y]) ++ [ex, ey])[2 * j + 1]? = (gs.map (·.y) ++ [ey])[j]? := by
  induction gs generalizing j with
  | nil =>
    have : j = 0 := by simpa using hj
    subst this; exact ⟨rfl, rfl⟩
  | cons g gs ih =>
    cases j with
    | zero => exact ⟨rfl, rfl⟩
    | succ j =>
      have := ih j (by simpa using hj)
      have e1 : 2 * (j + 1) = 2 * j + 1 + 1 := by omega
      rw [e1]
      simpa using this

theorem xy_get_out (gs : List GlyphSpec) (ex ey : Rat) (j : Nat) (hj : gs.length < j) :
    (gs.map (·.x) ++ [ex])[j]? = none := by
  apply List.getElem?_eq_none
  simp; omega

/-- The positions of run `k` start at `2 * (glyphs before + k)`. -/
theorem posOf_get {rs : List (RunSpec φ)} {k : Nat} {r : RunSpec φ} (h : rs[k]? = some r)
    (j : Nat) (hj : j ≤ r.glyphs.length) :
    (posOf rs)[2 * (glyphCount (rs.take k) + k) + 2 * j]? = r.xs[j]? ∧
    (posOf rs)[2 * (glyphCount (rs.take k) + k) + 2 * j + 1]? = r.ys[j]? := by
  obtain ⟨hs, hk⟩ := split_at h
  have hp : posOf rs = posOf (rs.take k) ++
      ((r.glyphs.flatMap (fun g => [g.x, g.y]) ++ [r.endX, r.endY]) ++ posOf (rs.drop (k + 1))) := by
    conv => lhs; rw [hs]
    simp [posOf]
  have hl : (posOf (rs.take k)).length = 2 * (glyphCount (rs.take k) + k) := by
    rw [posOf_length, hk]
  have hin : 2 * j + 1 < (r.glyphs.flatMap (fun g => [g.x, g.y]) ++ [r.endX, r.endY]).length := by
    simp [xy_length]; omega
  have key := xy_get r.glyphs r.endX r.endY j hj
  constructor
  · rw [hp, List.getElem?_append_right (by omega), hl, Nat.add_sub_cancel_left,
      List.getElem?_append_left (by omega), key.1]; rfl
  · rw [hp, List.getElem?_append_right (by omega), hl]
    have : 2 * (glyphCount (rs.take k) + k) + 2 * j + 1 - 2 * (glyphCount (rs.take k) + k) = 2 * j + 1 := by
      omega
    rw [this, List.getElem?_append_left (by omega), key.2]; rfl

/-- The glyphs of run `k` start at the number of glyphs before. -/
theorem glyphs_get {β : Type _} (f : GlyphSpec → β) {rs : List (RunSpec φ)} {k : Nat} {r : RunSpec φ}
    (h : rs[k]? = some r) (j : Nat) (hj : j < r.glyphs.length) :
    ((rs.flatMap (·.glyphs)).map f)[glyphCount (rs.take k) + j]? = (r.glyphs[j]?).map f := by
  obtain ⟨hs, hk⟩ := split_at h
  have hp : rs.flatMap (·.glyphs) = (rs.take k).flatMap (·.glyphs) ++
      (r.glyphs ++ (rs.drop (k + 1)).flatMap (·.glyphs)) := by
    conv => lhs; rw [hs]
    simp
  have hl : ((rs.take k).flatMap (·.glyphs)).length = glyphCount (rs.take k) := flatMap_glyphs_length _
  rw [List.getElem?_map, hp, List.getElem?_append_right (by omega), hl, Nat.add_sub_cancel_left,
    List.getElem?_append_left hj]

/-! ### Preservation -/

theorem allRuns_append (ls ls' : List (LineSpec φ)) : allRuns (ls ++ ls') = allRuns ls ++ allRuns ls' := by
  simp [allRuns]

theorem allRuns_single (l : LineSpec φ) : allRuns [l] = l.runs := by simp [allRuns]

theorem totalHeight_append (ls ls' : List (LineSpec φ)) :
    totalHeight (ls ++ ls') = totalHeight ls + totalHeight ls' := by
  simp [totalHeight]

theorem foldl_glyphs (gs : List GlyphSpec) (L : Layout φ) :
    gs.foldl (fun L g => ((L.appendGlyph g.id).appendCharIndex g.char).appendGlyphPosition g.x g.y) L =
      { L with
        glyphs := L.glyphs ++ gs.map (·.id), charIdx := L.charIdx ++ gs.map (·.char),
        pos := L.pos ++ gs.flatMap (fun g => [g.x, g.y]) } := by
  induction gs generalizing L with
  | nil => simp
  | cons g gs ih =>
    rw [List.foldl_cons, ih]
    simp [Layout.appendGlyph, Layout.appendCharIndex, Layout.appendGlyphPosition]

theorem getElem?_append_one {α : Type _} (l : List α) (a b : α) (i : Nat)
    (h : (l ++ [a])[i]? = some b) : (l[i]? = some b ∧ i < l.length) ∨ (i = l.length ∧ b = a) := by
  rcases Nat.lt_trichotomy i l.length with h1 | h1 | h1
  · rw [List.getElem?_append_left h1] at h; exact .inl ⟨h, h1⟩
  · subst h1; simp at h; exact .inr ⟨rfl, h.symm⟩
  · rw [List.getElem?_append_right (by omega)] at h
    rw [List.getElem?_eq_none (by simp; omega)] at h; cases h

theorem Stores.addRun {L : Layout φ} {ls : List (LineSpec φ)} {rs : List (RunSpec φ)} {y : Rat}
    (h : Stores L ls rs y) (r : RunSpec φ) :
    Stores { L with
      glyphs := L.glyphs ++ r.glyphs.map (·.id), charIdx := L.charIdx ++ r.glyphs.map (·.char),
      pos := L.pos ++ (r.glyphs.flatMap (fun g => [g.x, g.y]) ++ [r.endX, r.endY]),
      runs := L.runs ++ [⟨r.font, (L.glyphs ++ r.glyphs.map (·.id)).length, r.charStart, r.charEnd,
        r.charEndOffset, r.rtl⟩] } ls (rs ++ [r]) y where
  glyphs := by rw [h.glyphs]; simp
  charIdx := by rw [h.charIdx]; simp
  pos := by rw [h.pos]; simp
  runCount := by simp [h.runCount, Nat.add_assoc]
  runs := by
    intro i s hs
    have e : allRuns ls ++ (rs ++ [r]) = (allRuns ls ++ rs) ++ [r] := (List.append_assoc _ _ _).symm
    rw [e] at hs ⊢
    have hrun := h.runs
    have hcount := h.runCount
    have hgl := h.glyphs
    generalize allRuns ls ++ rs = A at hs hrun hcount hgl ⊢
    rcases getElem?_append_one _ _ _ _ hs with ⟨h1, h2⟩ | ⟨rfl, rfl⟩
    · have := hrun i s h1
      rw [List.getElem?_append_left (by omega), this, List.take_append_of_le_length (by omega)]
    · rw [List.getElem?_append_right (by omega)]
      rw [hcount, Nat.sub_self, List.take_of_length_le (by simp), hgl]
      simp only [List.getElem?_cons_zero, Option.some.injEq, VisualRun.mk.injEq, true_and, and_true]
      rw [List.length_append, List.length_map, List.length_map, flatMap_glyphs_length,
        glyphCount_append, glyphCount_cons, glyphCount_nil]
      rfl
  lineCount := h.lineCount
  lines := h.lines
  startY := h.startY

theorem lineSpec_take_append (ls : List (LineSpec φ)) (l : LineSpec φ) (i : Nat) (hi : i < ls.length) :
    (ls ++ [l]).take (i + 1) = ls.take (i + 1) := List.take_append_of_le_length (by omega)

theorem nextDescent_eq {L : Layout φ} {ls : List (LineSpec φ)} {rs : List (RunSpec φ)} {y : Rat}
    (h : Stores L ls rs y) (x : Rat) : L.nextDescent x = totalHeight ls + x := by
  unfold Layout.nextDescent
  cases hl : ls.getLast? with
  | none =>
    have : ls = [] := by simpa using hl
    subst this
    have : L.lines = [] := by have := h.lineCount; simpa using this
    simp [this, totalHeight]
  | some l =>
    have hne : ls ≠ [] := by rintro rfl; simp at hl
    have hlen : 0 < ls.length := List.length_pos_iff.2 hne
    have hg : ls[ls.length - 1]? = some l := by rw [← List.getLast?_eq_getElem?]; exact hl
    have := h.lines _ _ hg
    rw [← h.lineCount, ← List.getLast?_eq_getElem?] at this
    rw [this]
    have e : L.lines.length - 1 + 1 = ls.length := by rw [h.lineCount]; omega
    simp [e, List.take_of_length_le]

theorem Stores.addLine {L : Layout φ} {ls : List (LineSpec φ)} {rs : List (RunSpec φ)} {y : Rat}
    (h : Stores L ls rs y) (height ascent w : Rat) (hw : w = (⟨rs, height, ascent⟩ : LineSpec φ).width) :
    Stores { L with lines := L.lines ++ [⟨L.runs.length, w, ascent, L.nextDescent height⟩] }
      (ls ++ [⟨rs, height, ascent⟩]) [] y where
  glyphs := by rw [allRuns_append, allRuns_single, List.append_nil]; exact h.glyphs
  charIdx := by rw [allRuns_append, allRuns_single, List.append_nil]; exact h.charIdx
  pos := by rw [allRuns_append, allRuns_single, List.append_nil]; exact h.pos
  runCount := by rw [allRuns_append, allRuns_single, List.append_nil]; exact h.runCount
  runs := by rw [allRuns_append, allRuns_single, List.append_nil]; exact h.runs
  lineCount := by simp [h.lineCount]
  lines := by
    intro i l hl
    rcases getElem?_append_one _ _ _ _ hl with ⟨h1, h2⟩ | ⟨rfl, rfl⟩
    · have := h.lines i l h1
      rw [List.getElem?_append_left (by rw [h.lineCount]; exact h2), this,
        lineSpec_take_append _ _ _ h2]
    · rw [List.getElem?_append_right (by rw [h.lineCount])]
      rw [h.lineCount, Nat.sub_self, List.take_of_length_le (by simp)]
      simp only [List.getElem?_cons_zero, Option.some.injEq, LineInfo.mk.injEq, true_and]
      refine ⟨?_, hw, ?_⟩
      · rw [h.runCount, allRuns_append, allRuns_single]
      · rw [nextDescent_eq h, totalHeight_append]; simp [totalHeight]
  startY := h.startY

theorem runs_getLast {L : Layout φ} {ls : List (LineSpec φ)} {rs : List (RunSpec φ)} {y : Rat}
    (h : Stores L ls rs y) {r : RunSpec φ} (hr : (allRuns ls ++ rs).getLast? = some r) :
    L.runs.getLast? = some ⟨r.font, glyphCount (allRuns ls ++ rs), r.charStart, r.charEnd,
      r.charEndOffset, r.rtl⟩ := by
  have hne : allRuns ls ++ rs ≠ [] := by intro h0; rw [h0] at hr; cases hr
  have hlen : 0 < (allRuns ls ++ rs).length := List.length_pos_iff.2 hne
  rw [List.getLast?_eq_getElem?] at hr ⊢
  rw [h.runCount, h.runs _ _ hr, List.take_of_length_le (by omega)]

theorem appendLine_stores {L : Layout φ} {ls : List (LineSpec φ)} {rs : List (RunSpec φ)} {y : Rat}
    (h : Stores L ls rs y) (hne : rs ≠ []) (height ascent : Rat) :
    ∃ L', L.appendLine height ascent = some L' ∧ Stores L' (ls ++ [⟨rs, height, ascent⟩]) [] y := by
  obtain ⟨r, hr⟩ : ∃ r, rs.getLast? = some r := by
    cases hg : rs.getLast? with
    | none => exact absurd (by simpa using hg) hne
    | some r => exact ⟨r, rfl⟩
  have hr' : (allRuns ls ++ rs).getLast? = some r := by
    rw [List.getLast?_append, hr]; rfl
  have hlast := runs_getLast h hr'
  have hk : (allRuns ls ++ rs)[(allRuns ls ++ rs).length - 1]? = some r := by
    rw [← List.getLast?_eq_getElem?]; exact hr'
  have hpos0 : 0 < (allRuns ls ++ rs).length := by
    have := List.length_pos_iff.2 hne
    rw [List.length_append]; omega
  have hp := (posOf_get hk r.glyphs.length (Nat.le_refl _)).1
  have hgc := glyphCount_take_succ hk
  rw [Nat.sub_add_cancel hpos0, List.take_of_length_le (Nat.le_refl _)] at hgc
  have hidx : 2 * (glyphCount (allRuns ls ++ rs) + (L.runs.length - 1)) =
      2 * (glyphCount ((allRuns ls ++ rs).take ((allRuns ls ++ rs).length - 1)) +
        ((allRuns ls ++ rs).length - 1)) + 2 * r.glyphs.length := by
    rw [h.runCount, hgc]; omega
  have hx : r.xs[r.glyphs.length]? = some r.endX := by simp [RunSpec.xs]
  unfold Layout.appendLine
  rw [hlast]
  simp only
  have hget : L.pos[2 * (glyphCount (allRuns ls ++ rs) + (L.runs.length - 1))]? = some r.endX := by
    rw [hidx, h.pos, hp, hx]
  rw [hget]
  refine ⟨_, rfl, h.addLine height ascent _ ?_⟩
  simp [LineSpec.width, hr]

theorem appendEmptyLine_stores {L : Layout φ} {ls : List (LineSpec φ)} {y : Rat}
    (h : Stores L ls [] y) (font : φ) (c : Nat) (height ascent : Rat) :
    Stores (L.appendEmptyLine font c height ascent) (ls ++ [⟨[.empty font c], height, ascent⟩]) [] y := by
  have h1 := h.addRun (.empty font c)
  have h2 := h1.addLine height ascent 0 (by simp [LineSpec.width, RunSpec.empty])
  have hge : L.lastGlyphEnd = L.glyphs.length := by
    unfold Layout.lastGlyphEnd
    rw [h.glyphs, List.append_nil, List.length_map, flatMap_glyphs_length]
    cases hg : (allRuns ls).getLast? with
    | none =>
      have h0 : allRuns ls = [] := by simpa using hg
      have : L.runs = [] := by
        have := h.runCount
        rw [h0] at this
        simpa using this
      rw [this, h0]; rfl
    | some r =>
      have := runs_getLast h (r := r) (by simpa using hg)
      rw [this]; simp
  unfold Layout.appendEmptyLine
  simp only [hge]
  simpa [RunSpec.empty, Layout.nextDescent] using h2

theorem setOffsetAt_length (o i : Nat) (rs : List (RunSpec φ)) :
    (setOffsetAt o i rs).length = rs.length := by
  induction rs generalizing i with
  | nil => cases i <;> rfl
  | cons r t ih => cases i <;> simp [setOffsetAt, ih]

theorem setOffsetAt_append_right (o i : Nat) (rs rs' : List (RunSpec φ)) (h : rs.length ≤ i) :
    setOffsetAt o i (rs ++ rs') = rs ++ setOffsetAt o (i - rs.length) rs' := by
  induction rs generalizing i with
  | nil => simp
  | cons r t ih =>
    cases i with
    | zero => simp at h
    | succ i =>
      have := ih i (by simpa using h)
      simp [setOffsetAt, this]

theorem setOffsetAt_append_left (o i : Nat) (rs rs' : List (RunSpec φ)) (h : i < rs.length) :
    setOffsetAt o i (rs ++ rs') = setOffsetAt o i rs ++ rs' := by
  induction rs generalizing i with
  | nil => simp at h
  | cons r t ih =>
    cases i with
    | zero => rfl
    | succ i => simp [setOffsetAt, ih i (by simpa using h)]

theorem setOffsetAt_get (o i k : Nat) (rs : List (RunSpec φ)) :
    (setOffsetAt o i rs)[k]? = if k = i then (rs[k]?).map fun r => { r with charEndOffset := o } else rs[k]? := by
  induction rs generalizing i k with
  | nil => cases i <;> simp [setOffsetAt]
  | cons r t ih =>
    cases i with
    | zero => cases k <;> simp [setOffsetAt]
    | succ i => cases k <;> simp [setOffsetAt, ih]

theorem setOffsetAt_map {β : Type _} (f : RunSpec φ → β) (hf : ∀ r o, f { r with charEndOffset := o } = f r)
    (o i : Nat) (rs : List (RunSpec φ)) : (setOffsetAt o i rs).map f = rs.map f := by
  induction rs generalizing i with
  | nil => cases i <;> rfl
  | cons r t ih => cases i <;> simp [setOffsetAt, ih, hf]

theorem setOffsetAt_take (o i k : Nat) (rs : List (RunSpec φ)) :
    (setOffsetAt o i rs).take k = setOffsetAt o i (rs.take k) := by
  induction rs generalizing i k with
  | nil => cases i <;> simp [setOffsetAt]
  | cons r t ih => cases i <;> cases k <;> simp [setOffsetAt, ih]

theorem setOffsetAt_glyphCount (o i : Nat) (rs : List (RunSpec φ)) :
    glyphCount (setOffsetAt o i rs) = glyphCount rs := by
  unfold glyphCount
  rw [setOffsetAt_map (fun r => r.glyphs.length) (fun _ _ => rfl)]

theorem setOffsetAt_flatMap {β : Type _} (f : RunSpec φ → List β)
    (hf : ∀ r o, f { r with charEndOffset := o } = f r) (o i : Nat) (rs : List (RunSpec φ)) :
    (setOffsetAt o i rs).flatMap f = rs.flatMap f := by
  rw [List.flatMap_def, List.flatMap_def, setOffsetAt_map f hf]

theorem setOffsetLines_length (o i : Nat) (ls : List (LineSpec φ)) :
    (setOffsetLines o i ls).length = ls.length := by
  induction ls generalizing i with
  | nil => rfl
  | cons l t ih => unfold setOffsetLines; split <;> simp [ih]

theorem setOffsetLines_allRuns (o i : Nat) (ls : List (LineSpec φ)) :
    allRuns (setOffsetLines o i ls) = setOffsetAt o i (allRuns ls) := by
  induction ls generalizing i with
  | nil => cases i <;> rfl
  | cons l t ih =>
    have e : allRuns (l :: t) = l.runs ++ allRuns t := by simp [allRuns]
    unfold setOffsetLines
    split
    · rename_i h
      rw [e, setOffsetAt_append_left _ _ _ _ h]
      simp [allRuns]
    · rename_i h
      rw [e, setOffsetAt_append_right _ _ _ _ (by omega), ← ih]
      simp [allRuns]

theorem setOffsetAt_getLast (o i : Nat) (rs : List (RunSpec φ)) :
    (setOffsetAt o i rs).getLast?.map (·.endX) = rs.getLast?.map (·.endX) := by
  rw [← List.getLast?_map, ← List.getLast?_map, setOffsetAt_map (fun r => r.endX) (fun _ _ => rfl)]

theorem setOffsetLines_take (o : Nat) (k : Nat) : ∀ (i : Nat) (ls : List (LineSpec φ)),
    ∃ j, (setOffsetLines o i ls).take k = setOffsetLines o j (ls.take k) := by
  induction k with
  | zero => intro i ls; exact ⟨0, by simp [setOffsetLines]⟩
  | succ k ih =>
    intro i ls
    cases ls with
    | nil => exact ⟨0, by simp [setOffsetLines]⟩
    | cons l t =>
      unfold setOffsetLines
      split
      · rename_i h
        refine ⟨i, ?_⟩
        simp [setOffsetLines, h]
      · rename_i h
        obtain ⟨j, hj⟩ := ih (i - l.runs.length) t
        refine ⟨j + l.runs.length, ?_⟩
        simp [setOffsetLines, hj]

theorem setOffsetLines_runs_length (o i : Nat) (ls : List (LineSpec φ)) :
    (allRuns (setOffsetLines o i ls)).length = (allRuns ls).length := by
  rw [setOffsetLines_allRuns, setOffsetAt_length]

theorem setOffsetLines_height (o i : Nat) (ls : List (LineSpec φ)) :
    totalHeight (setOffsetLines o i ls) = totalHeight ls := by
  induction ls generalizing i with
  | nil => rfl
  | cons l t ih =>
    unfold setOffsetLines
    split
    · simp [totalHeight]
    · have := ih (i - l.runs.length)
      simp [totalHeight] at this ⊢
      exact this

theorem setOffsetLines_get (o : Nat) : ∀ (i k : Nat) (ls : List (LineSpec φ)) (l : LineSpec φ),
    (setOffsetLines o i ls)[k]? = some l → ∃ l', ls[k]? = some l' ∧ l'.width = l.width ∧
      l'.ascent = l.ascent := by
  intro i k ls
  induction ls generalizing i k with
  | nil => intro l h; simp [setOffsetLines] at h
  | cons a t ih =>
    intro l h
    unfold setOffsetLines at h
    split at h
    · cases k with
      | zero =>
        simp only [List.getElem?_cons_zero, Option.some.injEq] at h ⊢
        refine ⟨a, rfl, ?_, ?_⟩
        · subst h; simp [LineSpec.width, setOffsetAt_getLast]
        · subst h; rfl
      | succ k =>
        simp only [List.getElem?_cons_succ] at h ⊢
        exact ⟨l, h, rfl, rfl⟩
    · cases k with
      | zero =>
        simp only [List.getElem?_cons_zero, Option.some.injEq] at h ⊢
        exact ⟨l, h, rfl, rfl⟩
      | succ k =>
        simp only [List.getElem?_cons_succ] at h ⊢
        exact ih _ _ _ h

/-- Changing a separator keeps everything else. -/
theorem setOffset_stores {L : Layout φ} {ls ls' : List (LineSpec φ)} {rs rs' : List (RunSpec φ)} {y : Rat}
    (h : Stores L ls rs y) (i o : Nat) (hi : i < (allRuns ls ++ rs).length)
    (hr : allRuns ls' ++ rs' = setOffsetAt o i (allRuns ls ++ rs))
    (hlen : ls'.length = ls.length)
    (hl : ∀ (k : Nat) (l : LineSpec φ), ls'[k]? = some l →
      ∃ l' : LineSpec φ, ls[k]? = some l' ∧ l'.width = l.width ∧ l'.ascent = l.ascent)
    (ht : ∀ k, (allRuns (ls'.take k)).length = (allRuns (ls.take k)).length ∧
      totalHeight (ls'.take k) = totalHeight (ls.take k)) :
    ∃ L', L.setRunCharEndOffset i o = some L' ∧ Stores L' ls' rs' y := by
  obtain ⟨r, hri⟩ : ∃ r, (allRuns ls ++ rs)[i]? = some r := ⟨_, List.getElem?_eq_getElem hi⟩
  have hLr := h.runs i r hri
  unfold Layout.setRunCharEndOffset
  rw [hLr]
  refine ⟨_, rfl, ?_⟩
  constructor
  · rw [hr, setOffsetAt_flatMap (fun r => r.glyphs) (fun _ _ => rfl)]; exact h.glyphs
  · rw [hr, setOffsetAt_flatMap (fun r => r.glyphs) (fun _ _ => rfl)]; exact h.charIdx
  · rw [hr, setOffsetAt_flatMap (fun r : RunSpec φ => r.glyphs.flatMap (fun g => [g.x, g.y]) ++ [r.endX, r.endY])
      (fun _ _ => rfl)]; exact h.pos
  · rw [hr, setOffsetAt_length]; simp [h.runCount]
  · intro k s hs
    rw [hr] at hs ⊢
    rw [setOffsetAt_take, setOffsetAt_glyphCount]
    rw [setOffsetAt_get] at hs
    split at hs
    · rename_i hk
      subst hk
      rw [hri] at hs
      simp only [Option.map_some, Option.some.injEq] at hs
      subst hs
      simp only
      rw [List.getElem?_set_self (by rw [h.runCount]; exact hi)]
    · rename_i hk
      simp only
      rw [List.getElem?_set_ne (by omega)]
      exact h.runs k s hs
  · rw [hlen]; exact h.lineCount
  · intro k l hk
    obtain ⟨l', h1, h2, h3⟩ := hl k l hk
    rw [(ht (k + 1)).1, (ht (k + 1)).2, ← h2, ← h3]
    exact h.lines k l' h1
  · exact h.startY

theorem step_stores {L : Layout φ} {d d' : Draft φ} (op : LayoutOp φ)
    (h : Stores L d.lines d.open_ d.y) (hs : d.step op = some d') :
    ∃ L', op.exec L = some L' ∧ Stores L' d'.lines d'.open_ d'.y := by
  cases op with
  | run font gs ex ey s e rtl =>
    simp only [Draft.step, Option.some.injEq] at hs
    subst hs
    refine ⟨_, rfl, ?_⟩
    have := h.addRun ⟨font, gs, ex, ey, s, e, 0, rtl⟩
    rw [foldl_glyphs]
    simp only [Layout.appendGlyphPosition, Layout.appendRun, List.append_assoc]
    exact this
  | line ht a =>
    simp only [Draft.step] at hs
    split at hs
    · cases hs
    · rename_i hne
      simp only [Option.some.injEq] at hs
      subst hs
      exact appendLine_stores h (by intro h0; rw [h0] at hne; exact hne rfl) ht a
  | emptyLine font c ht a =>
    simp only [Draft.step] at hs
    split at hs
    · rename_i h0
      simp only [Option.some.injEq] at hs
      subst hs
      have h0' : d.open_ = [] := by simpa using h0
      rw [h0'] at h
      simp only [h0']
      exact ⟨_, rfl, appendEmptyLine_stores h font c ht a⟩
    · cases hs
  | setOffset i o =>
    simp only [Draft.step] at hs
    split at hs
    · rename_i hi
      simp only [Option.some.injEq] at hs
      subst hs
      refine setOffset_stores h i o (by rw [List.length_append]; omega) ?_ (setOffsetLines_length _ _ _)
        (setOffsetLines_get o i · _) ?_
      · simp only
        rw [setOffsetLines_allRuns, setOffsetAt_append_left _ _ _ _ hi]
      · intro k
        obtain ⟨j, hj⟩ := setOffsetLines_take o k i d.lines
        simp only
        rw [hj, setOffsetLines_runs_length, setOffsetLines_height]
        exact ⟨rfl, rfl⟩
    · split at hs
      · rename_i hi hi2
        simp only [Option.some.injEq] at hs
        subst hs
        refine setOffset_stores h i o (by rw [List.length_append]; omega) ?_ rfl
          (fun k l hk => ⟨l, hk, rfl, rfl⟩) (fun k => ⟨rfl, rfl⟩)
        rw [setOffsetAt_append_right _ _ _ _ (by omega)]
      · cases hs
  | startY y =>
    simp only [Draft.step, Option.some.injEq] at hs
    subst hs
    exact ⟨_, rfl, ⟨h.glyphs, h.charIdx, h.pos, h.runCount, h.runs, h.lineCount, h.lines, rfl⟩⟩
  | clear =>
    simp only [Draft.step, Option.some.injEq] at hs
    subst hs
    refine ⟨_, rfl, ⟨rfl, rfl, rfl, rfl, ?_, rfl, ?_, h.startY⟩⟩
    · intro i r hr; simp [allRuns] at hr
    · intro i l hl; simp at hl

theorem steps_stores (ops : List (LayoutOp φ)) {L : Layout φ} {d d' : Draft φ}
    (h : Stores L d.lines d.open_ d.y) (hs : d.steps ops = some d') :
    ∃ L', execLayout L ops = some L' ∧ Stores L' d'.lines d'.open_ d'.y := by
  induction ops generalizing L d with
  | nil =>
    simp only [Draft.steps, Option.some.injEq] at hs
    subst hs
    exact ⟨L, rfl, h⟩
  | cons op ops ih =>
    simp only [Draft.steps] at hs
    split at hs
    · cases hs
    · rename_i d1 h1
      obtain ⟨L1, e1, s1⟩ := step_stores op h h1
      obtain ⟨L2, e2, s2⟩ := ih s1 hs
      refine ⟨L2, ?_, s2⟩
      rw [execLayout, e1]
      exact e2

/-! ### Access -/

theorem Stores.firstGlyph {L : Layout φ} {ls : List (LineSpec φ)} {rs : List (RunSpec φ)} {y : Rat}
    (h : Stores L ls rs y) {k : Nat} {r : RunSpec φ} (hk : (allRuns ls ++ rs)[k]? = some r) :
    L.firstGlyphIndex k = some (glyphCount ((allRuns ls ++ rs).take k)) := by
  unfold Layout.firstGlyphIndex
  cases k with
  | zero => simp [glyphCount]
  | succ k =>
    have hlt : k + 1 < (allRuns ls ++ rs).length := by
      rcases Nat.lt_or_ge (k + 1) (allRuns ls ++ rs).length with h1 | h1
      · exact h1
      · rw [List.getElem?_eq_none h1] at hk; cases hk
    have := h.runs k _ (List.getElem?_eq_getElem (by omega))
    rw [if_neg (by omega), Nat.add_sub_cancel, this]
    rfl

theorem Stores.firstPos {L : Layout φ} {ls : List (LineSpec φ)} {rs : List (RunSpec φ)} {y : Rat}
    (h : Stores L ls rs y) {k : Nat} {r : RunSpec φ} (hk : (allRuns ls ++ rs)[k]? = some r) :
    L.firstPositionIndex k = some (2 * (glyphCount ((allRuns ls ++ rs).take k) + k)) := by
  unfold Layout.firstPositionIndex
  cases k with
  | zero => simp [glyphCount]
  | succ k =>
    have hlt : k + 1 < (allRuns ls ++ rs).length := by
      rcases Nat.lt_or_ge (k + 1) (allRuns ls ++ rs).length with h1 | h1
      · exact h1
      · rw [List.getElem?_eq_none h1] at hk; cases hk
    have := h.runs k _ (List.getElem?_eq_getElem (by omega))
    rw [if_neg (by omega), Nat.add_sub_cancel, this]
    rfl

theorem Stores.glyphs_length {L : Layout φ} {ls : List (LineSpec φ)} {rs : List (RunSpec φ)} {y : Rat}
    (h : Stores L ls rs y) : L.glyphs.length = glyphCount (allRuns ls ++ rs) := by
  rw [h.glyphs, List.length_map, flatMap_glyphs_length]

theorem Stores.charIdx_length {L : Layout φ} {ls : List (LineSpec φ)} {rs : List (RunSpec φ)} {y : Rat}
    (h : Stores L ls rs y) : L.charIdx.length = glyphCount (allRuns ls ++ rs) := by
  rw [h.charIdx, List.length_map, flatMap_glyphs_length]

theorem Stores.pos_length {L : Layout φ} {ls : List (LineSpec φ)} {rs : List (RunSpec φ)} {y : Rat}
    (h : Stores L ls rs y) : L.pos.length = 2 * (glyphCount (allRuns ls ++ rs) + (allRuns ls ++ rs).length) := by
  rw [h.pos, posOf_length]

theorem Stores.run_exists {L : Layout φ} {ls : List (LineSpec φ)} {rs : List (RunSpec φ)} {y : Rat}
    (h : Stores L ls rs y) {k : Nat} {v : VisualRun φ} (hk : L.runs[k]? = some v) :
    ∃ r, (allRuns ls ++ rs)[k]? = some r ∧ v = ⟨r.font, glyphCount ((allRuns ls ++ rs).take (k + 1)),
      r.charStart, r.charEnd, r.charEndOffset, r.rtl⟩ := by
  have hlt : k < (allRuns ls ++ rs).length := by
    rw [← h.runCount]
    rcases Nat.lt_or_ge k L.runs.length with h1 | h1
    · exact h1
    · rw [List.getElem?_eq_none h1] at hk; cases hk
  have := h.runs k _ (List.getElem?_eq_getElem hlt)
  rw [hk] at this
  exact ⟨_, List.getElem?_eq_getElem hlt, Option.some.inj this⟩

theorem Stores.line_exists {L : Layout φ} {ls : List (LineSpec φ)} {rs : List (RunSpec φ)} {y : Rat}
    (h : Stores L ls rs y) {k : Nat} {v : LineInfo} (hk : L.lines[k]? = some v) :
    ∃ l : LineSpec φ, ls[k]? = some l ∧ v = ⟨(allRuns (ls.take (k + 1))).length, l.width, l.ascent,
      totalHeight (ls.take (k + 1))⟩ := by
  have hlt : k < ls.length := by
    rw [← h.lineCount]
    rcases Nat.lt_or_ge k L.lines.length with h1 | h1
    · exact h1
    · rw [List.getElem?_eq_none h1] at hk; cases hk
  have := h.lines k _ (List.getElem?_eq_getElem hlt)
  rw [hk] at this
  exact ⟨_, List.getElem?_eq_getElem hlt, Option.some.inj this⟩

theorem glyphCount_take_mono (rs : List (RunSpec φ)) {i j : Nat} (h : i ≤ j) :
    glyphCount (rs.take i) ≤ glyphCount (rs.take j) := by
  have : rs.take i = (rs.take j).take i := by rw [List.take_take, Nat.min_eq_left h]
  rw [this]; exact glyphCount_take_le _ _

theorem allRuns_take_le (ls : List (LineSpec φ)) (k : Nat) :
    (allRuns (ls.take k)).length ≤ (allRuns ls).length := by
  conv => rhs; rw [← List.take_append_drop k ls, allRuns_append]
  rw [List.length_append]; omega

theorem allRuns_take_succ {ls : List (LineSpec φ)} {k : Nat} {l : LineSpec φ} (h : ls[k]? = some l) :
    allRuns (ls.take (k + 1)) = allRuns (ls.take k) ++ l.runs := by
  rw [List.take_add_one, h, allRuns_append]
  simp [allRuns]

theorem allRuns_take_mono (ls : List (LineSpec φ)) {i j : Nat} (h : i ≤ j) :
    (allRuns (ls.take i)).length ≤ (allRuns (ls.take j)).length := by
  have : ls.take i = (ls.take j).take i := by rw [List.take_take, Nat.min_eq_left h]
  rw [this]; exact allRuns_take_le _ _

theorem totalHeight_take_succ {ls : List (LineSpec φ)} {k : Nat} {l : LineSpec φ} (h : ls[k]? = some l) :
    totalHeight (ls.take (k + 1)) = totalHeight (ls.take k) + l.height := by
  rw [List.take_add_one, h, totalHeight_append]
  simp [totalHeight]

/-- Lines built by the protocol have at least one run. -/
theorem step_nonempty {d d' : Draft φ} (op : LayoutOp φ) (h : ∀ l ∈ d.lines, l.runs ≠ [])
    (hs : d.step op = some d') : ∀ l ∈ d'.lines, l.runs ≠ [] := by
  cases op with
  | run => simp only [Draft.step, Option.some.injEq] at hs; subst hs; exact h
  | line ht a =>
    simp only [Draft.step] at hs
    split at hs
    · cases hs
    · rename_i hne
      simp only [Option.some.injEq] at hs
      subst hs
      intro l hl
      simp only [List.mem_append, List.mem_singleton] at hl
      rcases hl with hl | rfl
      · exact h l hl
      · intro h0
        have h0' : d.open_ = [] := h0
        rw [h0'] at hne; exact hne rfl
  | emptyLine font c ht a =>
    simp only [Draft.step] at hs
    split at hs
    · simp only [Option.some.injEq] at hs
      subst hs
      intro l hl
      simp only [List.mem_append, List.mem_singleton] at hl
      rcases hl with hl | rfl
      · exact h l hl
      · simp
    · cases hs
  | setOffset i o =>
    have key : ∀ (i : Nat) (ls : List (LineSpec φ)), (∀ l ∈ ls, l.runs ≠ []) →
        ∀ l ∈ setOffsetLines o i ls, l.runs ≠ [] := by
      intro i ls
      induction ls generalizing i with
      | nil => intro _ l hl; simp [setOffsetLines] at hl
      | cons a t ih =>
        intro h l hl
        unfold setOffsetLines at hl
        split at hl
        · rename_i hi
          rcases List.mem_cons.1 hl with rfl | hl
          · intro h0
            have h0' : setOffsetAt o i a.runs = [] := h0
            have : (setOffsetAt o i a.runs).length = 0 := by rw [h0']; rfl
            rw [setOffsetAt_length] at this
            omega
          · exact h l (by simp [hl])
        · rcases List.mem_cons.1 hl with rfl | hl
          · exact h l (by simp)
          · exact ih _ (fun l hl => h l (by simp [hl])) l hl
    simp only [Draft.step] at hs
    split at hs
    · simp only [Option.some.injEq] at hs; subst hs; exact key _ _ h
    · split at hs
      · simp only [Option.some.injEq] at hs; subst hs; exact h
      · cases hs
  | startY y => simp only [Draft.step, Option.some.injEq] at hs; subst hs; exact h
  | clear =>
    simp only [Draft.step, Option.some.injEq] at hs; subst hs
    intro l hl; simp at hl

theorem steps_nonempty (ops : List (LayoutOp φ)) {d d' : Draft φ} (h : ∀ l ∈ d.lines, l.runs ≠ [])
    (hs : d.steps ops = some d') : ∀ l ∈ d'.lines, l.runs ≠ [] := by
  induction ops generalizing d with
  | nil => simp only [Draft.steps, Option.some.injEq] at hs; subst hs; exact h
  | cons op ops ih =>
    simp only [Draft.steps] at hs
    split at hs
    · cases hs
    · rename_i d1 h1
      exact ih (step_nonempty op h h1) hs

theorem stores_init : Stores ({} : Layout φ) [] [] 0 :=
  ⟨rfl, rfl, rfl, rfl, by intro i r hr; simp [allRuns] at hr, rfl, by intro i l hl; simp at hl, rfl⟩

end RichText
