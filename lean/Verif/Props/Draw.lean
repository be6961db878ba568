import Verif.Proof.Draw
/-!
C13 to C16: formatting iterator and drawing.
-/
namespace RichText
open Spec
variable {φ κ σ : Type} [DecidableEq κ]
set_option linter.unusedSectionVars false

/-! ### C13 -/

/-- C13.  After construction at any covered index and any sequence of
`advance_to` calls, the four getters give the value of the last index, or of
the last run if the index is past the end. -/
theorem C13_iterator_history {d : Fmt κ σ} (hd : d.Proper) {n : Nat} (he : d.EndsAt n) {c0 : Nat} (h0 : c0 < n)
    (cs : List Nat) (c : Nat) :
    ∃ it0 it, FmtIter.make d.view c0 = some it0 ∧ it0.advances d.view (cs ++ [c]) = some it ∧
      some it.color = valueOrLast d.color c ∧ it.strokeState d.view = valueOrLast d.stroke c ∧
      some it.strike = valueOrLast d.strike c ∧ some it.underline = valueOrLast d.underline c := by
  obtain ⟨it0, h1, h2, _⟩ := make_spec hd he h0
  obtain ⟨it, h3, _, h5⟩ := advances_spec hd (cs ++ [c]) h2
  have h6 := h5 c (by simp)
  exact ⟨it0, it, h1, h3, h6.color, h6.stroke, h6.strike, h6.underline⟩

/-- C13.  For indices inside the text this is the value of the run that
contains the index. -/
theorem C13_inside {d : Fmt κ σ} (hd : d.Proper) {n : Nat} (he : d.EndsAt n) {c0 : Nat} (h0 : c0 < n)
    (cs : List Nat) {c : Nat} (hc : c < n) :
    ∃ it0 it, FmtIter.make d.view c0 = some it0 ∧ it0.advances d.view (cs ++ [c]) = some it ∧
      some it.color = valueAt d.color c ∧ it.strokeState d.view = valueAt d.stroke c ∧
      some it.strike = valueAt d.strike c ∧ some it.underline = valueAt d.underline c := by
  obtain ⟨it0, it, h1, h2, h3, h4, h5, h6⟩ := C13_iterator_history hd he h0 cs c
  have key : ∀ {β : Type} {runs : List (Int × β)}, endOf runs = some (n : Int) →
      valueOrLast runs c = valueAt runs c := by
    intro β runs hend
    unfold valueOrLast
    obtain ⟨p, hp, hpn⟩ : ∃ p, runs.getLast? = some p ∧ p.1 = n := by
      unfold endOf at hend
      rwa [Option.map_eq_some_iff] at hend
    have : (valueAt runs c).isSome := by
      unfold valueAt
      rw [Option.isSome_map, List.find?_isSome]
      exact ⟨p, List.mem_of_getLast? hp, by simp; omega⟩
    obtain ⟨v, hv⟩ := Option.isSome_iff_exists.1 this
    rw [hv]; rfl
  exact ⟨it0, it, h1, h2, h3.trans (key he.color), h4.trans (key he.stroke), h5.trans (key he.strike),
    h6.trans (key he.underline)⟩

/-- Example formatting of nine bytes: two colours, an underlined and a struck
part. -/
def sampleFmt : Fmt Nat Nat :=
  ⟨[(4, 0), (9, 1)], [(9, 0)], [(2, false), (6, true), (9, false)], [(5, true), (9, false)]⟩

theorem sampleFmt_proper : sampleFmt.Proper ∧ sampleFmt.EndsAt 9 := by
  refine ⟨⟨?_, ?_, ?_, ?_, ?_, ?_⟩, rfl, rfl, rfl, rfl⟩
  all_goals (simp [sampleFmt, SortedLimits])

example : ((FmtIter.make sampleFmt.view 3).bind fun it => it.advances sampleFmt.view [8, 0, 12, 5]).map
    (fun it => (it.color, it.strike, it.underline)) = some (1, true, false) := by decide +kernel

/-! ### C14, C16 -/

/-- The values of a proper formatting. -/
theorem Fmt.Proper.means {d : Fmt κ σ} (hd : d.Proper) : ∃ col stk str und, d.Means col stk str und := by
  have key : ∀ {β : Type} (runs : List (Int × β)), runs ≠ [] →
      ∃ f : Nat → β, ∀ c : Nat, valueOrLast runs c = some (f c) := by
    intro β runs hne
    have : ∀ c : Nat, ∃ v, valueOrLast runs c = some v := by
      intro c
      unfold valueOrLast
      cases hv : valueAt runs c with
      | some v => exact ⟨v, rfl⟩
      | none => exact ⟨(runs.getLast hne).2, by rw [List.getLast?_eq_getLast_of_ne_nil hne]; rfl⟩
    exact ⟨fun c => (this c).choose, fun c => (this c).choose_spec⟩
  obtain ⟨col, h1⟩ := key d.color hd.color.2
  obtain ⟨stk, h2⟩ := key d.stroke hd.stroke.2
  obtain ⟨str, h3⟩ := key d.strike hd.strike.2
  obtain ⟨und, h4⟩ := key d.underline hd.underline.2
  exact ⟨col, stk, str, und, h1, h2, h3, h4⟩

/-- The whole of `draw_text` on a stored layout. -/
theorem drawText_spec {L : Layout φ} {ls : List (LineSpec φ)} {y : Rat} (h : Stores L ls [] y)
    {d : Fmt κ σ} (hd : d.Proper) {n : Nat} (he : d.EndsAt n)
    {col : Nat → κ} {stk : Nat → σ} {str und : Nat → Bool} (hm : d.Means col stk str und) (visible : σ → Bool)
    (metrics : φ → FontMetrics) (W : Rat) (al : XAlignment) (hn : ∀ r ∈ allRuns ls, r.fmtStart < n) :
    ∃ chunks : List (List (DrawCall φ κ σ)), drawText L d.view visible metrics W al = some chunks.flatten ∧
      chunks.length = (placedRuns W al y ls).length ∧
      ∀ (k : Nat) (p : Rat × Rat × RunSpec φ) (chunk : List (DrawCall φ κ σ)), (placedRuns W al y ls)[k]? = some p →
        chunks[k]? = some chunk → ∃ m, RunOfLine ls k m ∧
          RunDrawn visible metrics col stk str und (m, k, p.1, p.2.1) p.2.2 chunk := by
  obtain ⟨calls, e1, e2, e3⟩ := forEachRun_eq h W al
  have hlen : calls.length = (placedRuns W al y ls).length := by
    have := congrArg List.length e2
    simpa using this
  obtain ⟨chunks, f1, f2, f3⟩ := drawRuns_spec h hd he hm visible metrics hn calls 0
    (by intro j c hc; rw [(e3 j c hc).1]; omega) (by rw [hlen, placedRuns_length]; rfl)
  refine ⟨chunks, ?_, f2.trans hlen, ?_⟩
  · unfold drawText
    rw [e1]
    simpa [glyphCount] using f1
  · intro k p chunk hp hch
    have hk : k < calls.length := by rw [hlen]; exact getElem?_lt hp
    have hc := List.getElem?_eq_getElem hk
    generalize calls[k] = c at hc
    have hr : (allRuns ls)[0 + k]? = some p.2.2 := by
      rw [Nat.zero_add, ← placedRuns_runs W al ls y, List.getElem?_map, hp]; rfl
    have hd := f3 k c _ chunk hc hr hch
    obtain ⟨g1, l, g2, g3, g4⟩ := e3 k c hc
    have hxy : (c.2.2.1, c.2.2.2) = (p.1, p.2.1) := by
      have := congrArg (·[k]?) e2
      simp only [List.getElem?_map, hc, hp, Option.map_some, Option.some.injEq] at this
      exact this
    obtain ⟨m, k', x, y'⟩ := c
    simp only [Prod.mk.injEq] at hxy g1 g2 g3 g4
    obtain ⟨rfl, rfl⟩ := hxy
    subst g1
    exact ⟨m, ⟨l, k' - (allRuns (ls.take m)).length, g2, by omega, by omega⟩, hd⟩

/-- C14.  Drawing with a formatting of `n` bytes is free of invalid accesses
exactly if every run is looked up inside the formatting: a left-to-right run at
its first byte, a right-to-left run at the byte after its last character. -/
theorem C14_defined_iff_partial {L : Layout φ} {ls : List (LineSpec φ)} {y : Rat} (h : Stores L ls [] y)
    {d : Fmt κ σ} (hd : d.Proper) {n : Nat} (he : d.EndsAt n) (visible : σ → Bool)
    (metrics : φ → FontMetrics) (W : Rat) (al : XAlignment) :
    (drawText L d.view visible metrics W al).isSome = true ↔
      ∀ r ∈ allRuns ls, (if r.rtl then r.charEnd else r.charStart) < n := by
  obtain ⟨col, stk, str, und, hm⟩ := hd.means
  constructor
  · intro hs
    by_contra hneg
    push Not at hneg
    obtain ⟨r, hr, hbad⟩ := hneg
    obtain ⟨j, hj⟩ := List.mem_iff_getElem?.1 hr
    obtain ⟨calls, e1, e2, e3⟩ := forEachRun_eq h W al
    have hlen : calls.length = (placedRuns W al y ls).length := by
      have := congrArg List.length e2
      simpa using this
    have := drawRuns_none h hd he hm visible metrics calls 0
      (by intro j c hc; rw [(e3 j c hc).1]; omega) (by rw [hlen, placedRuns_length]; rfl)
      ⟨j, r, Nat.zero_le _, hj, hbad⟩
    unfold drawText at hs
    rw [e1] at hs
    simp only [List.take_zero, glyphCount, List.map_nil, List.sum_nil, Nat.add_zero, Nat.mul_zero] at this
    simp [this] at hs
  · intro hn
    obtain ⟨chunks, e, _⟩ := drawText_spec h hd he hm visible metrics W al hn
    rw [e]; rfl

/-- C14 fails for a text that ends with a right-to-left run. -/
theorem C14_rtl_violated : ∃ (ops : List (LayoutOp Nat)) (L : Layout Nat) (d : Fmt Nat Nat),
    execLayout {} ops = some L ∧ d.Proper ∧ d.EndsAt 4 ∧
    (∃ r, L.runs = [r] ∧ r.charStart = 0 ∧ r.charEnd = 4 ∧ r.rtl = true) ∧
    drawText L d.view (fun _ => true) (fun _ => ⟨0, 0, 0, 0⟩) 0 .left = none := by
  refine ⟨[.run 0 [⟨8, 2, 0, 0⟩, ⟨7, 0, 10, 0⟩] 20 0 0 4 true, .line 10 8], _,
    ⟨[(4, 0)], [(4, 0)], [(4, false)], [(4, false)]⟩, rfl, ?_, ⟨rfl, rfl, rfl, rfl⟩, ⟨_, rfl, rfl, rfl, rfl⟩,
    by decide +kernel⟩
  refine ⟨?_, ?_, ?_, ?_, ?_, ?_⟩
  all_goals (simp [SortedLimits])

/-- C14 fails for a left-to-right text with an empty last line: the run of that
line starts at the end of the text. -/
theorem C14_trailing_line_violated : ∃ (ops : List (LayoutOp Nat)) (L : Layout Nat) (d : Fmt Nat Nat),
    execLayout {} ops = some L ∧ d.Proper ∧ d.EndsAt 2 ∧
    (∃ r s, L.runs = [r, s] ∧ r.charStart = 0 ∧ r.charEnd = 1 ∧ r.rtl = false ∧ s.charStart = 2 ∧ s.charEnd = 2 ∧
      s.rtl = false) ∧
    drawText L d.view (fun _ => true) (fun _ => ⟨0, 0, 0, 0⟩) 0 .left = none := by
  refine ⟨[.run 0 [⟨8, 0, 0, 0⟩] 10 0 0 1 false, .line 10 8, .run 0 [] 0 0 2 2 false, .line 10 8], _,
    ⟨[(2, 0)], [(2, 0)], [(2, false)], [(2, false)]⟩, rfl, ?_, ⟨rfl, rfl, rfl, rfl⟩,
    ⟨_, _, rfl, rfl, rfl, rfl, rfl, rfl, rfl⟩, by decide +kernel⟩
  refine ⟨?_, ?_, ?_, ?_, ?_, ?_⟩
  all_goals (simp [SortedLimits])

/-- C16.  The calls other than decorations: one chunk per run in order; each
chunk announces its line and run, then has for each glyph in order the outline
(if visible) and the glyph at its place with the colour and stroke of its
character. -/
theorem C16_draw_order {L : Layout φ} {ls : List (LineSpec φ)} {y : Rat} (h : Stores L ls [] y)
    {d : Fmt κ σ} (hd : d.Proper) {n : Nat} (he : d.EndsAt n)
    {col : Nat → κ} {stk : Nat → σ} {str und : Nat → Bool} (hm : d.Means col stk str und) (visible : σ → Bool)
    (metrics : φ → FontMetrics) (W : Rat) (al : XAlignment)
    (hn : ∀ r ∈ allRuns ls, (if r.rtl then r.charEnd else r.charStart) < n) :
    ∃ chunks : List (List (DrawCall φ κ σ)), drawText L d.view visible metrics W al = some chunks.flatten ∧
      chunks.length = (placedRuns W al y ls).length ∧
      ∀ (k : Nat) (x base : Rat) (r : RunSpec φ) (chunk : List (DrawCall φ κ σ)),
        (placedRuns W al y ls)[k]? = some (x, base, r) → chunks[k]? = some chunk → ∃ m, RunOfLine ls k m ∧
          chunk.filter DrawCall.isMain = DrawCall.run m k :: r.glyphs.flatMap fun g =>
            (if visible (stk g.char) then [.stroke r.font g.id (x + g.x) (base + g.y) (stk g.char)] else []) ++
            [.glyph r.font g.id (x + g.x) (base + g.y) (col g.char)] := by
  obtain ⟨chunks, e1, e2, e3⟩ := drawText_spec h hd he hm visible metrics W al hn
  refine ⟨chunks, e1, e2, ?_⟩
  intro k x base r chunk hp hch
  obtain ⟨m, hm1, hm2⟩ := e3 k _ chunk hp hch
  exact ⟨m, hm1, hm2.main⟩

/-- The glyph calls. -/
def DrawCall.glyph? : DrawCall φ κ σ → Option (φ × Nat × Rat × Rat × κ)
  | .glyph f i x y c => some (f, i, x, y, c)
  | _ => none

theorem glyph?_filter (l : List (DrawCall φ κ σ)) :
    (l.filter DrawCall.isMain).filterMap DrawCall.glyph? = l.filterMap DrawCall.glyph? := by
  induction l with
  | nil => rfl
  | cons a t ih => cases a <;> simp [List.filter_cons, List.filterMap_cons, DrawCall.isMain, DrawCall.glyph?, ih]

theorem flatten_eq_flatMap {α β : Type _} (f : α → List β) (as : List α) : ∀ bs : List (List β),
    bs.length = as.length → (∀ (k : Nat) (a : α) (b : List β), as[k]? = some a → bs[k]? = some b → b = f a) →
    bs.flatten = as.flatMap f := by
  induction as with
  | nil => intro bs hl _; rw [List.length_eq_zero_iff.1 hl]; rfl
  | cons a t ih =>
    intro bs hl hb
    cases bs with
    | nil => simp at hl
    | cons b bs =>
      rw [List.flatten_cons, List.flatMap_cons, hb 0 a b rfl rfl,
        ih bs (by simpa using hl) (fun k a b ha hb' => hb (k + 1) a b (by simpa using ha) (by simpa using hb'))]

/-- C16.  The glyph calls alone: each glyph of each run once, in storage order,
at line start plus stored x and baseline plus stored y, in its run's font and
its character's colour. -/
theorem C16_glyphs {L : Layout φ} {ls : List (LineSpec φ)} {y : Rat} (h : Stores L ls [] y)
    {d : Fmt κ σ} (hd : d.Proper) {n : Nat} (he : d.EndsAt n)
    {col : Nat → κ} {stk : Nat → σ} {str und : Nat → Bool} (hm : d.Means col stk str und) (visible : σ → Bool)
    (metrics : φ → FontMetrics) (W : Rat) (al : XAlignment)
    (hn : ∀ r ∈ allRuns ls, (if r.rtl then r.charEnd else r.charStart) < n) :
    ∃ out, drawText L d.view visible metrics W al = some out ∧
      out.filterMap DrawCall.glyph? = (placedRuns W al y ls).flatMap fun p =>
        p.2.2.glyphs.map fun g => (p.2.2.font, g.id, p.1 + g.x, p.2.1 + g.y, col g.char) := by
  obtain ⟨chunks, e1, e2, e3⟩ := C16_draw_order h hd he hm visible metrics W al hn
  refine ⟨_, e1, ?_⟩
  rw [List.filterMap_flatten]
  apply flatten_eq_flatMap
  · simpa using e2
  · intro k p b hp hb
    rw [List.getElem?_map] at hb
    cases hch : chunks[k]? with
    | none => rw [hch] at hb; cases hb
    | some chunk =>
      rw [hch] at hb
      cases hb
      obtain ⟨m, _, hmain⟩ := e3 k p.1 p.2.1 p.2.2 chunk hp hch
      rw [← glyph?_filter, hmain, List.filterMap_cons_none rfl, List.filterMap_flatMap]
      generalize p.2.2.glyphs = gs
      induction gs with
      | nil => rfl
      | cons g t ih =>
        rw [List.flatMap_cons, List.map_cons, ih]
        split <;> rfl

theorem plainGlyphs_eq {L : Layout φ} {ls : List (LineSpec φ)} {rs : List (RunSpec φ)} {y : Rat}
    (h : Stores L ls rs y) {k : Nat} {r : RunSpec φ} (hk : (allRuns ls ++ rs)[k]? = some r)
    (font : φ) (lineX lineY : Rat) (j : Nat) (hj : j ≤ r.glyphs.length) :
    plainGlyphs L font lineX lineY (glyphCount ((allRuns ls ++ rs).take k) + r.glyphs.length)
      (glyphCount ((allRuns ls ++ rs).take k) + j) (2 * (glyphCount ((allRuns ls ++ rs).take k) + k) + 2 * j) =
    some ((r.glyphs.drop j).map (fun g => (font, g.id, lineX + g.x, lineY + g.y)),
      2 * (glyphCount ((allRuns ls ++ rs).take k) + k) + 2 * r.glyphs.length) := by
  induction hn : r.glyphs.length - j generalizing j with
  | zero =>
    have : j = r.glyphs.length := by omega
    subst this
    unfold plainGlyphs
    simp
  | succ n ih =>
    have hlt : j < r.glyphs.length := by omega
    have hg := List.getElem?_eq_getElem hlt
    obtain ⟨e1, e2, e3, e4⟩ := h.readAll hk hg
    unfold plainGlyphs
    have := ih (j + 1) (by omega) (by omega)
    rw [if_pos (by omega), e1, e3, e4, List.drop_eq_getElem_cons hlt]
    rw [show glyphCount ((allRuns ls ++ rs).take k) + j + 1 = glyphCount ((allRuns ls ++ rs).take k) + (j + 1) by omega,
      show 2 * (glyphCount ((allRuns ls ++ rs).take k) + k) + 2 * j + 2 =
        2 * (glyphCount ((allRuns ls ++ rs).take k) + k) + 2 * (j + 1) by omega]
    simp only [this, List.map_cons]

theorem plainRuns_eq {L : Layout φ} {ls : List (LineSpec φ)} {y : Rat} (h : Stores L ls [] y)
    (placed : List (Rat × Rat × RunSpec φ)) : ∀ (calls : List (Nat × Nat × Rat × Rat)) (k : Nat),
    (∀ j c, calls[j]? = some c → c.2.1 = k + j) →
    (∀ (j : Nat) p, placed[j]? = some p → (allRuns ls)[k + j]? = some p.2.2) →
    calls.map (fun c => (c.2.2.1, c.2.2.2)) = placed.map (fun p => (p.1, p.2.1)) →
    plainRuns L calls (glyphCount ((allRuns ls).take k), 2 * (glyphCount ((allRuns ls).take k) + k)) =
      some (placed.flatMap fun p => p.2.2.glyphs.map fun g => (p.2.2.font, g.id, p.1 + g.x, p.2.1 + g.y)) := by
  induction placed with
  | nil =>
    intro calls k _ _ he
    have : calls = [] := by simpa using he
    subst this
    rfl
  | cons p t ih =>
    intro calls k hidx hr he
    cases calls with
    | nil => simp at he
    | cons c cs =>
      simp only [List.map_cons, List.cons.injEq, Prod.mk.injEq] at he
      obtain ⟨⟨hx, hy⟩, he⟩ := he
      have hk : c.2.1 = k := by simpa using hidx 0 c (by simp)
      have hrk : (allRuns ls)[k]? = some p.2.2 := by simpa using hr 0 p rfl
      have hkk : (allRuns ls ++ ([] : List (RunSpec φ)))[k]? = some p.2.2 := by rw [List.append_nil]; exact hrk
      have hsucc : glyphCount ((allRuns ls).take (k + 1)) = glyphCount ((allRuns ls).take k) + p.2.2.glyphs.length :=
        glyphCount_take_succ hrk
      obtain ⟨f, e1, e2, e3, e4, e5, e6⟩ := h.read hkk
      have hf : f = glyphCount ((allRuns ls).take k) := by
        have := h.firstGlyph hkk
        rw [e1, List.append_nil] at this
        exact Option.some.inj this
      subst hf
      have hg := plainGlyphs_eq h hkk p.2.2.font c.2.2.1 c.2.2.2 0 (Nat.zero_le _)
      simp only [List.append_nil, Nat.add_zero, Nat.mul_zero, List.drop_zero] at hg
      have := ih cs (k + 1) (by
        intro j c' hc'
        have := hidx (j + 1) c' (by simpa using hc')
        omega) (by
        intro j q hq
        rw [show k + 1 + j = k + (j + 1) by omega]
        exact hr (j + 1) q (by simpa using hq)) he
      simp only [plainRuns, hk, e3, hg]
      rw [show max (glyphCount ((allRuns ls).take k)) (glyphCount ((allRuns ls).take k) + p.2.2.glyphs.length) =
          glyphCount ((allRuns ls).take (k + 1)) by rw [hsucc]; omega,
        show 2 * (glyphCount ((allRuns ls).take k) + k) + 2 * p.2.2.glyphs.length + 2 =
          2 * (glyphCount ((allRuns ls).take (k + 1)) + (k + 1)) by rw [hsucc]; omega, this]
      simp only [List.flatMap_cons, hx, hy]

/-- C16, drawing without formatting: every glyph once, in storage order, at its
place. -/
theorem C16_plain {L : Layout φ} {ls : List (LineSpec φ)} {y : Rat} (h : Stores L ls [] y) (W : Rat)
    (al : XAlignment) : drawPlain L W al = some ((placedRuns W al y ls).flatMap fun p =>
      p.2.2.glyphs.map fun g => (p.2.2.font, g.id, p.1 + g.x, p.2.1 + g.y)) := by
  obtain ⟨calls, e1, e2, e3⟩ := forEachRun_eq h W al
  unfold drawPlain
  rw [e1]
  have := plainRuns_eq h (placedRuns W al y ls) calls 0
    (by intro j c hc; rw [(e3 j c hc).1]; omega)
    (by intro j p hp; rw [Nat.zero_add, ← placedRuns_runs W al ls y, List.getElem?_map, hp]; rfl) e2
  simpa [glyphCount] using this

/-- C16, the places: the runs of line `m` have the aligned start of the line and
the baseline `y` plus the heights of the lines above plus the ascent. -/
theorem C16_places {ls : List (LineSpec φ)} (W : Rat) (al : XAlignment) (y : Rat) {m j : Nat} {l : LineSpec φ}
    {r : RunSpec φ} (hl : ls[m]? = some l) (hr : l.runs[j]? = some r) :
    (placedRuns W al y ls)[(allRuns (ls.take m)).length + j]? =
      some (alignedX W l.width al, y + ((ls.take m).map (·.height)).sum + l.ascent, r) := by
  induction ls generalizing m y with
  | nil => simp at hl
  | cons a t ih =>
    cases m with
    | zero =>
      simp at hl
      subst hl
      have := getElem?_lt hr
      simp [placedRuns, allRuns]
      rw [List.getElem?_append_left (by simpa using this), List.getElem?_map, hr]; rfl
    | succ m =>
      have := ih (y + a.height) (by simpa using hl)
      simp only [placedRuns, allRuns, List.take_succ_cons, List.flatMap_cons, List.length_append, List.map_cons,
        List.sum_cons]
      rw [List.getElem?_append_right (by simp; omega), List.length_map,
        show a.runs.length + (List.flatMap (·.runs) (t.take m)).length + j - a.runs.length =
          (List.flatMap (·.runs) (t.take m)).length + j by omega]
      simp only [allRuns] at this
      rw [this]
      refine congrArg some (Prod.ext rfl (Prod.ext ?_ rfl))
      simp only
      ring

/-! ### C15 -/

theorem noJump_of {flag : Nat → Bool} {col : Nat → κ} (gs : List GlyphSpec) : ∀ (g0 : GlyphSpec),
    (∀ (i : Nat) (a b : GlyphSpec), (g0 :: gs)[i]? = some a → (g0 :: gs)[i + 1]? = some b → flag a.char = false →
      flag b.char = true → col b.char = col a.char) →
    NoJump (flag g0.char) (col g0.char) (decoGlyphs flag col gs) := by
  induction gs with
  | nil => intro g0 _; trivial
  | cons g t ih =>
    intro g0 h
    refine ⟨?_, ih g fun i a b ha hb => h (i + 1) a b (by simpa using ha) (by simpa using hb)⟩
    intro h1 h2
    exact h 0 g0 g rfl rfl h2 h1

theorem monoX_of {flag : Nat → Bool} {col : Nat → κ} {endX : Rat} (gs : List GlyphSpec) : ∀ (x : Rat),
    (∀ (i : Nat) (a b : Rat), (x :: (gs.map (·.x) ++ [endX]))[i]? = some a →
      (x :: (gs.map (·.x) ++ [endX]))[i + 1]? = some b → a ≤ b) →
    MonoX endX x (decoGlyphs flag col gs) := by
  induction gs with
  | nil => intro x h; exact h 0 x endX rfl rfl
  | cons g t ih =>
    intro x h
    exact ⟨h 0 x g.x rfl rfl, ih g.x fun i a b ha hb => h (i + 1) a b (by simpa using ha) (by simpa using hb)⟩

/-- A rectangle over the horizontal position. -/
def rectOver {κ : Type} (X : Rat) (q : Rat × Rat × Rat × Rat × κ) : Bool :=
  decide (q.1 < X) && decide (X < q.1 + q.2.2.1)

theorem rectOver_rect (m : FontMetrics) (strike : Bool) (x base t : Rat) (p : Piece κ) :
    rectOver (x + t) (p.rect m strike x base) = p.covers t := by
  unfold rectOver Piece.rect Piece.covers
  congr 1
  · simp
  · have : x + t < x + p.lo + (p.hi - p.lo) ↔ t < p.hi := by
      constructor <;> intro h <;> linarith
    simp only [this]

theorem filter_rects (m : FontMetrics) (strike : Bool) (x base t : Rat) (ps : List (Piece κ)) :
    (ps.map (Piece.rect m strike x base)).filter (rectOver (x + t)) =
      (ps.filter (Piece.covers t)).map (Piece.rect m strike x base) := by
  rw [List.filter_map]
  congr 1
  apply List.filter_congr
  intro p _
  exact rectOver_rect m strike x base t p

/-- Positions of a run in order: glyphs from left to right, then the end. -/
def RunSpec.Ordered (r : RunSpec φ) : Prop :=
  ∀ (i : Nat) (a b : Rat), r.xs[i]? = some a → r.xs[i + 1]? = some b → a ≤ b

theorem ordered_monoX {r : RunSpec φ} (ho : r.Ordered) {flag : Nat → Bool} {col : Nat → κ} :
    MonoX r.endX (r.xAt 0) (decoGlyphs flag col r.glyphs) := by
  obtain ⟨font, gs, endX, endY, cs, ce, co, rtl⟩ := r
  cases gs with
  | nil => exact le_refl _
  | cons g t => exact ⟨le_refl _, monoX_of t g.x fun i a b ha hb => ho i a b ha hb⟩

theorem decoGlyphs_xs {r : RunSpec φ} (flag : Nat → Bool) (col : Nat → κ) :
    (decoGlyphs flag col r.glyphs).map (·.x) ++ [r.endX] = r.xs := by
  simp [decoGlyphs, RunSpec.xs, Function.comp_def]

theorem decoGlyphs_get {r : RunSpec φ} (flag : Nat → Bool) (col : Nat → κ) {i : Nat} {g : GlyphSpec}
    (hg : r.glyphs[i]? = some g) :
    (decoGlyphs flag col r.glyphs)[i]? = some ⟨g.x, flag g.char, col g.char⟩ := by
  simp [decoGlyphs, hg]

/-- C15, without restriction on colours: over every decorated glyph there is a
rectangle of the right kind, place, thickness and colour. -/
theorem C15_covered {L : Layout φ} {ls : List (LineSpec φ)} {y : Rat} (h : Stores L ls [] y)
    {d : Fmt κ σ} (hd : d.Proper) {n : Nat} (he : d.EndsAt n)
    {col : Nat → κ} {stk : Nat → σ} {str und : Nat → Bool} (hm : d.Means col stk str und) (visible : σ → Bool)
    (metrics : φ → FontMetrics) (W : Rat) (al : XAlignment)
    (hn : ∀ r ∈ allRuns ls, (if r.rtl then r.charEnd else r.charStart) < n) (strike : Bool) :
    ∃ chunks : List (List (DrawCall φ κ σ)), drawText L d.view visible metrics W al = some chunks.flatten ∧
      ∀ (k : Nat) (x base : Rat) (r : RunSpec φ) (i : Nat) (g : GlyphSpec) (x' t : Rat),
        (placedRuns W al y ls)[k]? = some (x, base, r) → r.Ordered → r.glyphs[i]? = some g → r.xs[i + 1]? = some x' →
        (if strike then str g.char else und g.char) = true → g.x < t → t < x' →
        ∃ chunk, chunks[k]? = some chunk ∧ ∃ q ∈ chunk.filterMap (DrawCall.deco strike), rectOver (x + t) q = true ∧
          q.2.1 = base + ((metrics r.font).place strike).1 ∧
          q.2.2.2.1 = ((metrics r.font).place strike).2 + 1 / 2 ∧ q.2.2.2.2 = col g.char := by
  obtain ⟨chunks, e1, e2, e3⟩ := drawText_spec h hd he hm visible metrics W al hn
  refine ⟨chunks, e1, ?_⟩
  intro k x base r i g x' t hp ho hg hx' hon h1 h2
  have hk : k < chunks.length := by rw [e2]; exact getElem?_lt hp
  refine ⟨_, List.getElem?_eq_getElem hk, ?_⟩
  obtain ⟨m, _, hrd⟩ := e3 k _ _ hp (List.getElem?_eq_getElem hk)
  have key : ∀ (flag : Nat → Bool) (c0 : κ), flag g.char = true →
      ∃ q ∈ (pieces r.endX (r.xAt 0) false c0 (decoGlyphs flag col r.glyphs)).map
          (Piece.rect (metrics r.font) strike x base), rectOver (x + t) q = true ∧
          q.2.1 = base + ((metrics r.font).place strike).1 ∧
          q.2.2.2.1 = ((metrics r.font).place strike).2 + 1 / 2 ∧ q.2.2.2.2 = col g.char := by
    intro flag c0 hf
    obtain ⟨p, hp1, hp2, hp3⟩ := (pieces_cover (decoGlyphs flag col r.glyphs) (start := r.xAt 0) (was := false)
      (c0 := c0) (ordered_monoX ho)).2 i _ x' t (decoGlyphs_get flag col hg)
      (by rw [decoGlyphs_xs]; exact hx') hf h1 h2
    exact ⟨_, List.mem_map_of_mem hp1, by rw [rectOver_rect]; exact hp2, rfl, rfl, hp3⟩
  cases strike with
  | true =>
    obtain ⟨c0, hc⟩ := hrd.strike
    rw [hc]
    exact key str c0 hon
  | false =>
    obtain ⟨c0, hc⟩ := hrd.underline
    rw [hc]
    exact key und c0 hon

/-- C15 in the part that holds: if within the run no decorated glyph follows an
undecorated glyph of another colour, then over every decorated glyph there is
exactly one rectangle, of the right place, thickness and colour, and over every
other glyph there is none.  Missing: decorations that begin together with a
change of colour (`C15_violated`). -/
theorem C15_exact_partial {L : Layout φ} {ls : List (LineSpec φ)} {y : Rat} (h : Stores L ls [] y)
    {d : Fmt κ σ} (hd : d.Proper) {n : Nat} (he : d.EndsAt n)
    {col : Nat → κ} {stk : Nat → σ} {str und : Nat → Bool} (hm : d.Means col stk str und) (visible : σ → Bool)
    (metrics : φ → FontMetrics) (W : Rat) (al : XAlignment)
    (hn : ∀ r ∈ allRuns ls, (if r.rtl then r.charEnd else r.charStart) < n) (strike : Bool) :
    ∃ chunks : List (List (DrawCall φ κ σ)), drawText L d.view visible metrics W al = some chunks.flatten ∧
      ∀ (k : Nat) (x base : Rat) (r : RunSpec φ) (i : Nat) (g : GlyphSpec) (x' t : Rat),
        (placedRuns W al y ls)[k]? = some (x, base, r) → r.Ordered →
        (∀ (i : Nat) (a b : GlyphSpec), r.glyphs[i]? = some a → r.glyphs[i + 1]? = some b →
          (if strike then str a.char else und a.char) = false → (if strike then str b.char else und b.char) = true →
          col b.char = col a.char) →
        r.glyphs[i]? = some g → r.xs[i + 1]? = some x' → g.x < t → t < x' →
        ∃ chunk, chunks[k]? = some chunk ∧
          ((chunk.filterMap (DrawCall.deco strike)).filter (rectOver (x + t))).map
              (fun q => (q.2.1, q.2.2.2.1, q.2.2.2.2)) =
            if (if strike then str g.char else und g.char) = true then
              [(base + ((metrics r.font).place strike).1, ((metrics r.font).place strike).2 + 1 / 2, col g.char)]
            else [] := by
  obtain ⟨chunks, e1, e2, e3⟩ := drawText_spec h hd he hm visible metrics W al hn
  refine ⟨chunks, e1, ?_⟩
  intro k x base r i g x' t hp ho hj hg hx' h1 h2
  have hk : k < chunks.length := by rw [e2]; exact getElem?_lt hp
  refine ⟨_, List.getElem?_eq_getElem hk, ?_⟩
  obtain ⟨m, _, hrd⟩ := e3 k _ _ hp (List.getElem?_eq_getElem hk)
  have key : ∀ (flag : Nat → Bool) (c0 : κ),
      (∀ (i : Nat) (a b : GlyphSpec), r.glyphs[i]? = some a → r.glyphs[i + 1]? = some b →
          flag a.char = false → flag b.char = true → col b.char = col a.char) →
      (((pieces r.endX (r.xAt 0) false c0 (decoGlyphs flag col r.glyphs)).map
          (Piece.rect (metrics r.font) strike x base)).filter (rectOver (x + t))).map
            (fun q => (q.2.1, q.2.2.2.1, q.2.2.2.2)) =
        if flag g.char = true then
          [(base + ((metrics r.font).place strike).1, ((metrics r.font).place strike).2 + 1 / 2, col g.char)]
        else [] := by
    intro flag c0 hj
    have hgd := decoGlyphs_get flag col hg
    have hxs : ((decoGlyphs flag col r.glyphs).map (·.x) ++ [r.endX])[i + 1]? = some x' := by
      rw [decoGlyphs_xs]; exact hx'
    have hmono : MonoX r.endX (r.xAt 0) (decoGlyphs flag col r.glyphs) := ordered_monoX ho
    have hcolors : ((pieces r.endX (r.xAt 0) false c0 (decoGlyphs flag col r.glyphs)).filter (Piece.covers t)).map
        (·.color) = if flag g.char = true then [col g.char] else [] := by
      have h0 : ∃ g0 gs, r.glyphs = g0 :: gs := by
        cases hgs : r.glyphs with
        | nil => rw [hgs] at hg; simp at hg
        | cons a b => exact ⟨a, b, rfl⟩
      obtain ⟨g0, gs, hgs⟩ := h0
      have hx0 : r.xAt 0 = g0.x := by
        unfold RunSpec.xAt RunSpec.xs
        rw [hgs]; rfl
      rw [hgs] at hj hgd hxs hmono
      rw [hgs, hx0]
      rw [hx0] at hmono
      exact pieces_exact_first c0 hmono (noJump_of gs g0 hj) i _ x' t hgd hxs h1 h2
    rw [filter_rects, List.map_map]
    have : ((fun q : Rat × Rat × Rat × Rat × κ => (q.2.1, q.2.2.2.1, q.2.2.2.2)) ∘
        Piece.rect (metrics r.font) strike x base) = (fun c => (base + ((metrics r.font).place strike).1,
          ((metrics r.font).place strike).2 + 1 / 2, c)) ∘ (fun p : Piece κ => p.color) := rfl
    rw [this, ← List.map_map, hcolors]
    split <;> rfl
  cases strike with
  | true =>
    obtain ⟨c0, hc⟩ := hrd.strike
    rw [hc]
    exact key str c0 hj
  | false =>
    obtain ⟨c0, hc⟩ := hrd.underline
    rw [hc]
    exact key und c0 hj

/-- Red text `a` without underline, then blue underlined `b`. -/
def jumpFmt : Fmt Nat Nat := ⟨[(1, 0), (2, 1)], [(2, 0)], [(2, false)], [(1, false), (2, true)]⟩

/-- C15 fails if a decoration begins together with a change of colour: the
undecorated glyph gets an underline in its own colour. -/
theorem C15_violated : ∃ (ops : List (LayoutOp Nat)) (L : Layout Nat) (out : List (DrawCall Nat Nat Nat)),
    execLayout {} ops = some L ∧ jumpFmt.Proper ∧ jumpFmt.EndsAt 2 ∧
    drawText L jumpFmt.view (fun _ => false) (fun _ => ⟨1, 1, 2, 1⟩) 0 .left = some out ∧
    valueAt jumpFmt.underline 0 = some false ∧
    (out.filterMap (DrawCall.deco false)).filter (rectOver 5) = [(0, 9, 10, 3 / 2, 0)] ∧
    L.charIdx[0]? = some 0 ∧ L.pos[0]? = some 0 ∧ L.pos[2]? = some 10 := by
  refine ⟨[.run 0 [⟨8, 0, 0, 0⟩, ⟨7, 1, 10, 0⟩] 20 0 0 2 false, .line 10 8], _,
    [.run 0 0, .glyph 0 8 0 8 0, .glyph 0 7 10 8 1, .rect false 0 9 10 (3 / 2) 0, .rect false 10 9 10 (3 / 2) 1],
    rfl, ?_, ⟨rfl, rfl, rfl, rfl⟩, ?_, ?_, ?_, ?_, ?_, ?_⟩
  · refine ⟨?_, ?_, ?_, ?_, ?_, ?_⟩
    all_goals (simp [SortedLimits, jumpFmt])
  all_goals decide +kernel

/-- Example for the hypotheses of C14, C15 and C16: three glyphs in one run,
`sampleFmt` without a jump. -/
example : ∃ (L : Layout Nat) (ls : List (LineSpec Nat)), Stores L ls [] 0 ∧
    (∀ r ∈ allRuns ls, (if r.rtl then r.charEnd else r.charStart) < 9) ∧ (∀ r ∈ allRuns ls, r.Ordered) ∧
    drawText L sampleFmt.view (fun _ => false) (fun _ => ⟨1, 1, 2, 1⟩) 0 .left = some
      [.run 0 0, .glyph 0 8 0 8 0, .glyph 0 7 10 8 0, .glyph 0 6 20 8 1,
        .rect false 0 9 20 (3 / 2) 0, .rect true 10 10 10 (3 / 2) 0] := by
  obtain ⟨L, h1, h2⟩ : ∃ L : Layout Nat, execLayout {} [.run 0 [⟨8, 0, 0, 0⟩, ⟨7, 3, 10, 0⟩, ⟨6, 7, 20, 0⟩] 30 0 0 9 false,
      .line 10 8] = some L ∧ drawText L sampleFmt.view (fun _ => false) (fun _ => ⟨1, 1, 2, 1⟩) 0 .left = some
      [.run 0 0, .glyph 0 8 0 8 0, .glyph 0 7 10 8 0, .glyph 0 6 20 8 1,
        .rect false 0 9 20 (3 / 2) 0, .rect true 10 10 10 (3 / 2) 0] := ⟨_, rfl, by decide +kernel⟩
  refine ⟨L, [⟨[⟨0, [⟨8, 0, 0, 0⟩, ⟨7, 3, 10, 0⟩, ⟨6, 7, 20, 0⟩], 30, 0, 0, 9, 0, false⟩], 10, 8⟩], ?_, ?_, ?_, h2⟩
  · obtain ⟨L', e, hs⟩ := C19_stores (φ := Nat) [.run 0 [⟨8, 0, 0, 0⟩, ⟨7, 3, 10, 0⟩, ⟨6, 7, 20, 0⟩] 30 0 0 9 false,
      .line 10 8] _ rfl
    rw [h1] at e
    cases e
    exact hs
  · simp [allRuns]
  · intro r hr
    simp [allRuns] at hr
    subst hr
    intro i a b ha hb
    rcases i with _ | _ | _ | i <;> simp [RunSpec.xs] at ha hb <;> subst ha hb <;> norm_num

end RichText
