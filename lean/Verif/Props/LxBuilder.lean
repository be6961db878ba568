import Verif.Proof.LxBuilder
/-!
C130: what the builder of the tests that uses ICU's LayoutEx records (test/build_layout_info_lx.cpp), and which levels the builders
ask for.
-/
namespace RichText
variable {φ : Type _}

/-! ## C130 -/

/-- If LayoutEx answers, the text is laid out.  The lines stored are its lines, paragraph by paragraph: each run with the font, the
direction, the range of characters and the glyphs that are not deleted; ascent and descent of a line are the greatest ones less
their fractions; for an empty paragraph there is an empty line.  The runs, with the separators, hold each character of the text
once; if the last paragraph is empty one more run marks the end.  The first level asked for is 0xFE or 0xFF, whether directions
are overridden or not, and the level of a paragraph laid out with 0xFE is asked for from then on. -/
theorem C130_records (L : Layout φ) (chars : List Nat) (metrics : φ → Metrics) (ps : List (LxPara φ)) (flags : Nat)
    (yAlign : YAlignment) (areaHeight : Rat) (hs : Segments16 chars (ps.map fun p => (p.length, p.separator)))
    (ha : LxAnswers chars ps 0) :
    ∃ (L' : Layout φ) (lines : List (LineSpec φ)) (y : Rat) (level : Nat → Nat) (rs extra : List (RunSpec φ)),
      lxLayout L chars metrics ps flags yAlign areaHeight = some L' ∧
      Stores L' lines [] y ∧
      LxStored chars metrics ps 0 level lines ∧
      (level 0 = if flags % 2 = 0 then 0xFE else 0xFF) ∧
      (∀ i p, ps[i]? = some p → level (i + 1) =
        if level i = 0xFE ∧ 0 < p.length - p.separator then (p.layout 0xFE).1 else level i) ∧
      allRuns lines = rs ++ extra ∧ Partition RunSpec.range 0 chars.length rs ∧
      (∀ p, ps.getLast? = some p → extra = if p.length = 0 then [⟨p.defaultFont, [], 0, 0, chars.length, chars.length, 0, false⟩]
        else []) := by
  obtain ⟨ops, new, rs, h1, h2, h3, h4, h5⟩ := lxParagraphs_spec metrics ps 0 0 (lxBase flags)
    (lxParas_of hs ps 0 rfl (Nat.zero_add _) ha)
  have hclear : Stores L.clear ([] : List (LineSpec φ)) [] L.startY := by
    refine ⟨rfl, rfl, rfl, rfl, ?_, rfl, ?_, rfl⟩ <;> intro i r hr <;> simp [allRuns] at hr
  obtain ⟨L1, g5, g6⟩ := steps_stores ops (L := L.clear) (d := ⟨[], [], L.startY⟩) hclear (h5 _ rfl rfl)
  simp only [List.nil_append] at g6
  refine ⟨L1.alignY areaHeight yAlign, new, (L1.alignY areaHeight yAlign).startY, lxLevel ps (lxBase flags), rs,
    lxFinal ps chars.length, ?_, ⟨g6.glyphs, g6.charIdx, g6.pos, g6.runCount, g6.runs, g6.lineCount, g6.lines, rfl⟩, h2, ?_, ?_,
    h3, h4, ?_⟩
  · unfold lxLayout
    have e : execLayout L (.clear :: ops) = some L1 := g5
    rw [h1, Option.bind_some, e, Option.map_some]
  · show lxBase flags = _
    unfold lxBase
    rw [Nat.and_one_is_mod]
    split <;> split <;> rfl
  · intro i p hp
    have hi := (List.getElem?_eq_some_iff.1 hp).1
    have e : lxLevel ps (lxBase flags) (i + 1) = p.next (lxLevel ps (lxBase flags) i) := by
      unfold lxLevel
      rw [List.take_add_one, hp]
      simp
    rw [e]
    unfold LxPara.next
    by_cases hl : lxLevel ps (lxBase flags) i = 0xFE
    · rw [hl]
      by_cases h0 : 0 < p.length - p.separator
      · rw [if_pos ⟨h0, rfl⟩, if_pos ⟨rfl, h0⟩]
      · rw [if_neg (fun h => h0 h.1), if_neg (fun h => h0 h.2)]
    · rw [if_neg (fun h => hl h.2), if_neg (fun h => hl h.1)]
  · intro p hp
    unfold lxFinal
    rw [hp]
    rfl

/-- The level of a paragraph.  The layout builder: with the override flag that of the other flag, else that of the first strong
character, and that of the other flag if there is none.  The builders of the tests: the latter with and without the flag. -/
theorem C130_flags (flags : Nat) (strong : Option Bool) :
    resolveLevel (mainBase flags) strong =
      (if flags / 2 % 2 = 1 then flags % 2 else (strong.getD (decide (flags % 2 = 1))).toNat) ∧
    resolveLevel (refBase flags) strong = (strong.getD (decide (flags % 2 = 1))).toNat ∧
    resolveLevel (lxBase flags) strong = (strong.getD (decide (flags % 2 = 1))).toNat := by
  have ht : flags.testBit 1 = decide (flags / 2 % 2 = 1) := by
    rw [Nat.testBit_eq_decide_div_mod_eq]
  unfold mainBase refBase lxBase
  rw [ht, Nat.and_one_is_mod]
  rcases Nat.mod_two_eq_zero_or_one flags with h | h <;> rcases Nat.mod_two_eq_zero_or_one (flags / 2) with h' | h' <;>
    rw [h, h'] <;> cases strong with
    | none => decide
    | some b => cases b <;> decide

/-- So the builders of the tests do not override directions: if the flag is set, a paragraph whose first strong character has the
other direction gets another level than in the layout builder, for both directions; if it is not set, none does. -/
theorem C130_override_violated :
    (∀ flags, flags / 2 % 2 = 1 → ∀ b : Bool, b.toNat ≠ flags % 2 →
      resolveLevel (mainBase flags) (some b) ≠ resolveLevel (lxBase flags) (some b) ∧
      resolveLevel (mainBase flags) (some b) ≠ resolveLevel (refBase flags) (some b)) ∧
    ∀ flags, flags / 2 % 2 = 0 → ∀ s, resolveLevel (mainBase flags) s = resolveLevel (lxBase flags) s ∧
      resolveLevel (mainBase flags) s = resolveLevel (refBase flags) s := by
  constructor
  · intro flags h b hb
    obtain ⟨h1, h2, h3⟩ := C130_flags flags (some b)
    rw [h1, h2, h3, if_pos h]
    exact ⟨fun h => hb h.symm, fun h => hb h.symm⟩
  · intro flags h s
    obtain ⟨h1, h2, h3⟩ := C130_flags flags s
    rw [h1, h2, h3, if_neg (by omega)]
    exact ⟨rfl, rfl⟩

/-- Levels asked for as in `C130_records`. -/
def AskedLevels (ps : List (LxPara φ)) (level : Nat → Nat) : Prop :=
  ∀ i p, ps[i]? = some p → level (i + 1) = if level i = 0xFE ∧ 0 < p.length - p.separator then (p.layout 0xFE).1 else level i

/-- With the right-to-left flag 0xFF is asked for each paragraph, so that its level is its own. -/
theorem C130_levels_partial {ps : List (LxPara φ)} {level : Nat → Nat} (h : AskedLevels ps level) (h0 : level 0 = 0xFF) :
    ∀ i, i ≤ ps.length → level i = 0xFF
  | 0, _ => h0
  | i + 1, hi => by
    have e := C130_levels_partial h h0 i (by omega)
    rw [h i _ (List.getElem?_eq_getElem (by omega)), e, if_neg (fun h => absurd h.1 (by decide))]

/-- Without it the paragraphs behind the first one that is not empty are all laid out with the level of that one, whatever their
characters are: the layout builder gives each its own. -/
theorem C130_carry_violated {ps : List (LxPara φ)} {level : Nat → Nat} (h : AskedLevels ps level) (h0 : level 0 = 0xFE)
    {strong : LxPara φ → Option Bool} (hr : ∀ p ∈ ps, ∀ l, (p.layout l).1 = resolveLevel l (strong p))
    {i : Nat} {p : LxPara φ} (hp : ps[i]? = some p) (hne : 0 < p.length - p.separator)
    (hf : ∀ j q, j < i → ps[j]? = some q → q.length = q.separator) :
    (∀ j, j ≤ i → level j = 0xFE) ∧
    ∀ j q, i < j → ps[j]? = some q → (q.layout (level j)).1 = ((strong p).getD false).toNat ∧
      (resolveLevel (mainBase 0) (strong q) ≠ (q.layout (level j)).1 ↔ (strong q).getD false ≠ (strong p).getD false) := by
  have key : ∀ j, j ≤ i → level j = 0xFE := by
    intro j
    induction j with
    | zero => intro _; exact h0
    | succ j ih =>
      intro hj
      have hlt : j < ps.length := by have := (List.getElem?_eq_some_iff.1 hp).1; omega
      have := hf j _ (by omega) (List.getElem?_eq_getElem hlt)
      rw [h j _ (List.getElem?_eq_getElem hlt), if_neg (by omega), ih (by omega)]
  refine ⟨key, ?_⟩
  have hmem : p ∈ ps := List.mem_of_getElem? hp
  have hv : (p.layout 0xFE).1 = ((strong p).getD false).toNat := by rw [hr p hmem]; rfl
  have hb : ∀ b : Bool, b.toNat ≠ 0xFE ∧ b.toNat ≠ 0xFF := by decide
  have after : ∀ k, i + 1 + k ≤ ps.length → level (i + 1 + k) = ((strong p).getD false).toNat := by
    intro k
    induction k with
    | zero => intro _; rw [Nat.add_zero, h i p hp, key i (Nat.le_refl _), if_pos ⟨rfl, hne⟩, hv]
    | succ k ih =>
      intro hk
      have e := ih (by omega)
      have hlt : i + 1 + k < ps.length := by omega
      rw [← Nat.add_assoc, h _ _ (List.getElem?_eq_getElem hlt), e, if_neg (fun h => (hb _).1 h.1)]
  intro j q hj hq
  have hjl := (List.getElem?_eq_some_iff.1 hq).1
  have e := after (j - (i + 1)) (by omega)
  rw [show i + 1 + (j - (i + 1)) = j by omega] at e
  have e2 : (q.layout (level j)).1 = ((strong p).getD false).toNat := by
    rw [hr q (List.mem_of_getElem? hq), e]
    unfold resolveLevel
    rw [if_neg (hb _).1, if_neg (hb _).2]
  refine ⟨e2, ?_⟩
  rw [e2, (C130_flags 0 (strong q)).1]
  cases (strong p).getD false <;> cases strong q with
    | none => decide
    | some b => cases b <;> decide

/-- The ascent stored for a line is that of its highest font, if the ascents of its fonts are whole numbers not below 0, and else
less than one too small; so with the descents. -/
theorem C130_heights_partial {chars : List Nat} {metrics : φ → Metrics} {off : Nat} {l : List (LxRun φ)} {q : LineSpec φ}
    (h : LxRecorded chars metrics off l q) (hne : l ≠ [])
    (hp : ∀ r ∈ l, 0 ≤ (metrics r.font).ascent ∧ (metrics r.font).descent ≤ 0) :
    (∀ r ∈ l, (metrics r.font).ascent < q.ascent + 1 ∧ -(metrics r.font).descent < q.height - q.ascent + 1) ∧
    (∃ r ∈ l, q.ascent ≤ (metrics r.font).ascent) ∧ (∃ r ∈ l, q.height - q.ascent ≤ -(metrics r.font).descent) ∧
    ((∀ r ∈ l, ∃ n : Int, (metrics r.font).ascent = n) →
      (∀ r ∈ l, (metrics r.font).ascent ≤ q.ascent) ∧ ∃ r ∈ l, (metrics r.font).ascent = q.ascent) ∧
    ((∀ r ∈ l, ∃ n : Int, (metrics r.font).descent = n) →
      (∀ r ∈ l, -(metrics r.font).descent ≤ q.height - q.ascent) ∧ ∃ r ∈ l, -(metrics r.font).descent = q.height - q.ascent) := by
  obtain ⟨_, a, d, ⟨ha0, ha1, ha2⟩, ⟨hd0, hd1, hd2⟩, e1, e2⟩ := h
  have e3 : q.height - q.ascent = d := by rw [e1, e2]; ring
  rw [e3, e1]
  obtain ⟨r0, hr0⟩ := List.exists_mem_of_ne_nil _ hne
  have ga : ∃ r ∈ l, (a : Rat) ≤ (metrics r.font).ascent := by
    rcases ha2 with ha2 | ha2
    · refine ⟨r0, hr0, ?_⟩
      rw [ha2]; exact_mod_cast (hp r0 hr0).1
    · exact ha2
  have gd : ∃ r ∈ l, (d : Rat) ≤ -(metrics r.font).descent := by
    rcases hd2 with hd2 | hd2
    · refine ⟨r0, hr0, ?_⟩
      have := (hp r0 hr0).2
      rw [hd2]; push_cast; linarith
    · exact hd2
  refine ⟨fun r hr => ⟨ha1 r hr, hd1 r hr⟩, ga, gd, ?_, ?_⟩
  · intro hi
    have hle : ∀ r ∈ l, (metrics r.font).ascent ≤ a := by
      intro r hr
      obtain ⟨n, hn⟩ := hi r hr
      have : (metrics r.font).ascent < (a : Rat) + 1 := ha1 r hr
      rw [hn] at this ⊢
      have : n < a + 1 := by exact_mod_cast this
      exact_mod_cast (by omega : n ≤ a)
    obtain ⟨r, hr, h⟩ := ga
    exact ⟨hle, r, hr, le_antisymm (hle r hr) h⟩
  · intro hi
    have hle : ∀ r ∈ l, -(metrics r.font).descent ≤ d := by
      intro r hr
      obtain ⟨n, hn⟩ := hi r hr
      have : -(metrics r.font).descent < (d : Rat) + 1 := hd1 r hr
      rw [hn] at this ⊢
      have : -n < d + 1 := by exact_mod_cast this
      exact_mod_cast (by omega : -n ≤ d)
    obtain ⟨r, hr, h⟩ := gd
    exact ⟨hle, r, hr, le_antisymm (hle r hr) h⟩

/-- For a font whose ascent is not a whole number it is too small: whatever lines are recorded of a line in one font. -/
theorem C130_heights_violated {chars : List Nat} {metrics : φ → Metrics} {off : Nat} {r : LxRun φ} {q : LineSpec φ}
    (h : LxRecorded chars metrics off [r] q) (hp : 0 ≤ (metrics r.font).ascent)
    (hn : ∀ n : Int, (metrics r.font).ascent ≠ n) : q.ascent < (metrics r.font).ascent := by
  obtain ⟨_, a, _, ⟨_, _, ha⟩, _, e1, _⟩ := h
  rw [e1]
  refine lt_of_le_of_ne ?_ (hn a).symm
  rcases ha with ha | ⟨s, hs, ha⟩
  · rw [ha]; exact_mod_cast hp
  · rw [List.mem_singleton.1 hs] at ha; exact ha

/-- Nothing is recorded of a run without glyphs: an element in front of the array is read. -/
theorem C130_glyphs_needed (chars : List Nat) (off : Nat) (r : LxRun φ) (h : r.glyphs = []) : lxRun chars off r = none := by
  unfold lxRun
  rw [h]
  split
  · rename_i h4; simp at h4
  · rfl

/-- If the glyphs of a left-to-right run are not in the order of the characters, its range is not that of its characters: of two
characters whose glyphs are exchanged, as a consonant and a vowel sign in front of it, the range is empty. -/
theorem C130_reordered_violated (chars : List Nat) (off c g g' : Nat) (font : φ) (p p' z : Rat × Rat) {u : Nat}
    (hu : chars[c + off]? = some u) (hb : ¬ (0xD800 ≤ u ∧ u ≤ 0xDBFF)) :
    ∃ gs : List GlyphSpec, lxRun chars off ⟨font, false, [g, g'], [p, p', z], [c + 1, c]⟩ =
      some (.run font gs z.1 z.2 (c + 1 + off) (c + 1 + off) false, ⟨0, c + 1 + off, c + 1 + off, false⟩) := by
  obtain ⟨gs, hg⟩ : ∃ gs, lxGlyphs off [g, g'] [p, p', z] [c + 1, c] = some gs :=
    ⟨_, lxGlyphs_spec off [g, g'] [p, p', z] [c + 1, c] (by simp) (by simp)⟩
  have hf : lxForward chars (c + off) = some (c + off + 1) := by
    unfold lxForward
    rw [hu, Option.map_some, if_neg (by omega)]
  refine ⟨gs, ?_⟩
  unfold lxRun
  rw [hg]
  simp only [List.length_cons, List.length_nil, List.getElem?_cons_zero, List.getElem?_cons_succ]
  simp only [Nat.reduceAdd, Nat.reduceEqDiff, if_false, Nat.reduceSub, List.getElem?_cons_succ, List.getElem?_cons_zero,
    Bool.false_eq_true, hf, Option.map_some]
  rw [show c + off + 1 = c + 1 + off by omega]

/-! ### Cases -/

/-- "a", line feed, a Hebrew letter, a surrogate pair: two paragraphs. -/
def lxChars : List Nat := [0x61, 0x0A, 0x5D0, 0xD83A, 0xDD00]

/-- Metrics of a font: 10.5 above, 3 below. -/
def lxMetrics : Nat → Metrics := fun _ => ⟨21 / 2, -3⟩

/-- The paragraphs; the second one holds a right-to-left run with a deleted glyph, and is laid out in one line or, from right to
left, the same. -/
def lxParas : List (LxPara Nat) :=
  [⟨2, 1, fun l => (if l = 0xFE then 0 else if l = 0xFF then 0 else l, [[⟨7, false, [36], [(0, 0), (8, 0)], [0]⟩]]), 7, ⟨21 / 2, -3⟩⟩,
   ⟨3, 0, fun l => (if l = 0xFE then 1 else if l = 0xFF then 1 else l,
      [[⟨9, true, [50, 0xFFFF, 51], [(0, 0), (6, 0), (6, 0), (11, 0)], [1, 1, 0]⟩]]), 9, ⟨21 / 2, -3⟩⟩]

/-- The first strong characters. -/
def lxStrong (p : LxPara Nat) : Option Bool := some (decide (p.separator = 0))

theorem lxParas_segments : Segments16 lxChars (lxParas.map fun p => (p.length, p.separator)) :=
  .cons (a := [0x61]) (sep := [0x0A]) (rest := [0x5D0, 0xD83A, 0xDD00]) (by intro c hc; simp at hc; omega) (.lf _)
    (.last (a := [0x5D0, 0xD83A, 0xDD00]) (by intro c hc; simp at hc; omega))

theorem lxParas_answers : LxAnswers lxChars lxParas 0 := by
  refine ⟨fun _ level => ⟨[[(0, 1)]], .cons ⟨by simp, .cons ⟨by simp, rfl, rfl, ⟨0, rfl, rfl⟩, ⟨0, 0x61, rfl, rfl, rfl⟩⟩ .nil⟩ .nil,
    Partition.single rfl (by decide)⟩, fun _ level => ⟨[[(2, 5)]],
    .cons ⟨by simp, .cons ⟨by simp, rfl, rfl, ⟨0, rfl, rfl⟩, ⟨1, 0xD83A, rfl, rfl, rfl⟩⟩ .nil⟩ .nil,
    Partition.single rfl (by decide)⟩, trivial⟩

/-- Laid out: the deleted glyph is gone, the separator is in the run in front of it, ascents are 10 instead of 10.5. -/
example : (lxLayout {} lxChars lxMetrics lxParas 0 .top 100).map (fun L => (L.runs, L.glyphs, L.charIdx, L.lines.map (·.ascent))) =
    some ([⟨7, 1, 0, 1, 1, false⟩, ⟨9, 3, 2, 5, 0, true⟩], [36, 50, 51], [0, 3, 2], [10, 10]) := by decide +kernel

example : ∃ (L' : Layout Nat) (lines : List (LineSpec Nat)) (y : Rat), lxLayout {} lxChars lxMetrics lxParas 0 .top 100 = some L' ∧
    Stores L' lines [] y ∧ Partition RunSpec.range 0 5 (allRuns lines) := by
  obtain ⟨L', lines, y, _, rs, extra, h1, h2, _, _, _, h3, h4, h5⟩ :=
    C130_records {} lxChars lxMetrics lxParas 0 .top 100 lxParas_segments lxParas_answers
  have : extra = [] := h5 _ rfl
  rw [this, List.append_nil] at h3
  exact ⟨L', lines, y, h1, h2, by rw [h3]; exact h4⟩

theorem lxParas_asked : AskedLevels lxParas (fun i => if i = 0 then 0xFE else 0) := by
  intro i p hp
  match i, hp with
  | 0, hp => simp [lxParas] at hp; subst hp; rfl
  | 1, hp => simp [lxParas] at hp; subst hp; rfl
  | i + 2, hp => simp [lxParas] at hp

/-- The second paragraph, of a right-to-left letter, is laid out left-to-right, which the layout builder does not do. -/
example : ((lxParas[1]?).map fun q => (q.layout 0).1) = some 0 ∧ resolveLevel (mainBase 0) (some true) = 1 :=
  ⟨by decide, by decide⟩

example : ∀ j q, 0 < j → lxParas[j]? = some q → (q.layout (if j = 0 then 0xFE else 0)).1 = 0 ∧
    (resolveLevel (mainBase 0) (lxStrong q) ≠ (q.layout (if j = 0 then 0xFE else 0)).1 ↔ (lxStrong q).getD false ≠ false) :=
  (C130_carry_violated lxParas_asked rfl (strong := lxStrong) (by
    intro p hp l
    simp only [lxParas, List.mem_cons, List.not_mem_nil, or_false] at hp
    rcases hp with rfl | rfl <;> simp only [lxStrong, resolveLevel] <;> split <;> first | rfl | (split <;> rfl))
    (i := 0) rfl (by decide) (by intro j q hj; omega)).2

/-- Right-to-left flag. -/
example : ∀ i, i ≤ 2 → (fun _ => 0xFF : Nat → Nat) i = 0xFF :=
  C130_levels_partial (ps := lxParas) (by intro i p _; rfl) rfl

/-- The override flags: the layout builder takes a right-to-left text for left-to-right and the other way round. -/
example : resolveLevel (mainBase 2) (some true) = 0 ∧ resolveLevel (lxBase 2) (some true) = 1 ∧
    resolveLevel (mainBase 3) (some false) = 1 ∧ resolveLevel (lxBase 3) (some false) = 0 := by decide

/-- Heights of a line in one font. -/
theorem lxLine_recorded : LxRecorded lxChars lxMetrics 0 [⟨7, false, [36], [(0, 0), (8, 0)], [0]⟩]
    ⟨[⟨7, [⟨36, 0, 0, 0⟩], 8, 0, 0, 1, 0, false⟩], 13, 10⟩ := by
  refine ⟨.cons ⟨rfl, rfl, by decide, rfl, by simp, rfl, rfl, ⟨0, rfl, rfl⟩, ⟨0, 0x61, rfl, rfl, rfl⟩⟩ .nil, 10, 3, ?_, ?_,
    by norm_num, by norm_num⟩
  · refine ⟨by decide, ?_, Or.inr ⟨_, List.mem_singleton.2 rfl, ?_⟩⟩
    · intro r hr; rw [List.mem_singleton.1 hr]; simp only [lxMetrics]; norm_num
    · simp only [lxMetrics]; norm_num
  · refine ⟨by decide, ?_, Or.inr ⟨_, List.mem_singleton.2 rfl, ?_⟩⟩
    · intro r hr; rw [List.mem_singleton.1 hr]; simp only [lxMetrics]; norm_num
    · simp only [lxMetrics]; norm_num

example : (10 : Rat) < 21 / 2 :=
  C130_heights_violated lxLine_recorded (by simp only [lxMetrics]; norm_num) (by
    intro n h
    simp only [lxMetrics] at h
    have : (21 : Int) = 2 * n := by
      have h2 : (21 : Rat) = 2 * n := by linarith
      exact_mod_cast h2
    omega)

example : ∃ r ∈ [(⟨7, false, [36], [(0, 0), (8, 0)], [0]⟩ : LxRun Nat)], -(lxMetrics r.font).descent = (13 : Rat) - 10 :=
  ((C130_heights_partial lxLine_recorded (by simp) (by
    intro r _; simp only [lxMetrics]; norm_num)).2.2.2.2 (fun r _ => ⟨-3, by simp only [lxMetrics]; norm_num⟩)).2

/-- A Devanagari letter and the vowel sign whose glyph comes first. -/
example : lxRun [0x0915, 0x093F] 0 (⟨5, false, [71, 20], [(0, 0), (4, 0), (12, 0)], [1, 0]⟩ : LxRun Nat) =
    some (.run 5 [⟨71, 1, 0, 0⟩, ⟨20, 0, 4, 0⟩] 12 0 1 1 false, ⟨0, 1, 1, false⟩) := by decide +kernel

end RichText
