import Verif.Proof.Deco
import Verif.Proof.GlyphOffset
import Verif.Props.Cursor
/-!
`draw_text` on a stored layout.
-/
namespace RichText
open Spec
variable {φ κ σ : Type} [DecidableEq κ]

/-- The runs of the lines with the line's start and baseline. -/
def placedRuns (W : Rat) (al : XAlignment) : Rat → List (LineSpec φ) → List (Rat × Rat × RunSpec φ)
  | _, [] => []
  | y, l :: t => l.runs.map (fun r => (alignedX W l.width al, y + l.ascent, r)) ++ placedRuns W al (y + l.height) t

/-- The value functions of a formatting. -/
structure Fmt.Means (d : Fmt κ σ) (col : Nat → κ) (stk : Nat → σ) (str und : Nat → Bool) : Prop where
  color : ∀ c : Nat, valueOrLast d.color c = some (col c)
  stroke : ∀ c : Nat, valueOrLast d.stroke c = some (stk c)
  strike : ∀ c : Nat, valueOrLast d.strike c = some (str c)
  underline : ∀ c : Nat, valueOrLast d.underline c = some (und c)

theorem hasEvent_eq (s ws u wu cc : Bool) :
    FmtIter.hasEvent (FmtIter.eventOf s ws u wu cc) FmtIter.strikeBegin = (s && (!ws || cc)) ∧
    FmtIter.hasEvent (FmtIter.eventOf s ws u wu cc) FmtIter.strikeEnd = ((!s && ws) || (s && cc)) ∧
    FmtIter.hasEvent (FmtIter.eventOf s ws u wu cc) FmtIter.underlineBegin = (u && (!wu || cc)) ∧
    FmtIter.hasEvent (FmtIter.eventOf s ws u wu cc) FmtIter.underlineEnd = ((!u && wu) || (u && cc)) := by
  revert s ws u wu cc
  decide

/-- The glyph loop over a list of glyphs. -/
def drawList (f : FmtView κ σ) (visible : σ → Bool) (m : FontMetrics) (font : φ) (lineX lineY : Rat) :
    List GlyphSpec → DecoState κ → Option (List (DrawCall φ κ σ) × DecoState κ)
  | [], s => some ([], s)
  | g :: t, s =>
    match drawGlyph f visible m font lineX lineY g.id g.char g.x g.y s with
    | none => none
    | some (calls, s) =>
      match drawList f visible m font lineX lineY t s with
      | none => none
      | some (rest, s) => some (calls ++ rest, s)

theorem Stores.readAll {L : Layout φ} {ls : List (LineSpec φ)} {rs : List (RunSpec φ)} {y : Rat}
    (h : Stores L ls rs y) {k : Nat} {r : RunSpec φ} (hk : (allRuns ls ++ rs)[k]? = some r) {j : Nat} {g : GlyphSpec}
    (hg : r.glyphs[j]? = some g) :
    L.glyphs[glyphCount ((allRuns ls ++ rs).take k) + j]? = some g.id ∧
      L.charIdx[glyphCount ((allRuns ls ++ rs).take k) + j]? = some g.char ∧
      L.pos[2 * (glyphCount ((allRuns ls ++ rs).take k) + k) + 2 * j]? = some g.x ∧
      L.pos[2 * (glyphCount ((allRuns ls ++ rs).take k) + k) + 2 * j + 1]? = some g.y := by
  have hj := getElem?_lt hg
  have hp := posOf_get hk j (by omega)
  have hx : r.xs[j]? = some g.x := by
    rw [RunSpec.xs, List.getElem?_append_left (by simpa using hj), List.getElem?_map, hg]; rfl
  have hy : r.ys[j]? = some g.y := by
    rw [RunSpec.ys, List.getElem?_append_left (by simpa using hj), List.getElem?_map, hg]; rfl
  refine ⟨?_, ?_, ?_, ?_⟩
  · rw [h.glyphs, glyphs_get (fun g => g.id) hk j hj, hg]; rfl
  · rw [h.charIdx, glyphs_get (fun g => g.char) hk j hj, hg]; rfl
  · rw [h.pos]; exact hp.1.trans hx
  · rw [h.pos]; exact hp.2.trans hy

theorem drawGlyphs_eq {L : Layout φ} {ls : List (LineSpec φ)} {rs : List (RunSpec φ)} {y : Rat}
    (h : Stores L ls rs y) {k : Nat} {r : RunSpec φ} (hk : (allRuns ls ++ rs)[k]? = some r)
    (f : FmtView κ σ) (visible : σ → Bool) (m : FontMetrics) (font : φ) (lineX lineY : Rat) (j : Nat)
    (hj : j ≤ r.glyphs.length) (s : DecoState κ) :
    drawGlyphs L f visible m font lineX lineY (glyphCount ((allRuns ls ++ rs).take k) + r.glyphs.length)
      (glyphCount ((allRuns ls ++ rs).take k) + j) (2 * (glyphCount ((allRuns ls ++ rs).take k) + k) + 2 * j) s =
    (drawList f visible m font lineX lineY (r.glyphs.drop j) s).map fun p =>
      (p.1, 2 * (glyphCount ((allRuns ls ++ rs).take k) + k) + 2 * r.glyphs.length, p.2) := by
  induction hn : r.glyphs.length - j generalizing j s with
  | zero =>
    have : j = r.glyphs.length := by omega
    subst this
    unfold drawGlyphs
    simp [drawList]
  | succ n ih =>
    have hlt : j < r.glyphs.length := by omega
    have hg := List.getElem?_eq_getElem hlt
    obtain ⟨e1, e2, e3, e4⟩ := h.readAll hk hg
    unfold drawGlyphs
    rw [if_pos (by omega), e1, e2, e3, e4, List.drop_eq_getElem_cons hlt]
    simp only [drawList]
    cases hd : drawGlyph f visible m font lineX lineY r.glyphs[j].id r.glyphs[j].char r.glyphs[j].x r.glyphs[j].y s with
    | none => rfl
    | some p =>
      obtain ⟨calls, s'⟩ := p
      have := ih (j + 1) (by omega) s' (by omega)
      rw [show glyphCount ((allRuns ls ++ rs).take k) + j + 1 = glyphCount ((allRuns ls ++ rs).take k) + (j + 1) by omega,
        show 2 * (glyphCount ((allRuns ls ++ rs).take k) + k) + 2 * j + 2 =
          2 * (glyphCount ((allRuns ls ++ rs).take k) + k) + 2 * (j + 1) by omega]
      simp only [this]
      cases drawList f visible m font lineX lineY (r.glyphs.drop (j + 1)) s' with
      | none => rfl
      | some q => rfl

/-- A call that is not a decoration. -/
def DrawCall.isMain : DrawCall φ κ σ → Bool
  | .rect .. => false
  | _ => true

/-- The decorations of a kind. -/
def DrawCall.deco (strike : Bool) : DrawCall φ κ σ → Option (Rat × Rat × Rat × Rat × κ)
  | .rect k x y w h c => if k = strike then some (x, y, w, h, c) else none
  | _ => none

/-- What is drawn for a glyph: the outline if it is visible, then the glyph. -/
def glyphCalls (visible : σ → Bool) (col : Nat → κ) (stk : Nat → σ) (font : φ) (lineX lineY : Rat) (g : GlyphSpec) :
    List (DrawCall φ κ σ) :=
  (if visible (stk g.char) then [.stroke font g.id (lineX + g.x) (lineY + g.y) (stk g.char)] else []) ++
    [.glyph font g.id (lineX + g.x) (lineY + g.y) (col g.char)]

/-- Position and thickness of a decoration. -/
def FontMetrics.place (m : FontMetrics) (strike : Bool) : Rat × Rat :=
  if strike then (m.strikePos, m.strikeThickness) else (m.underlinePos, m.underlineThickness)

/-- A piece as a rectangle. -/
def Piece.rect (m : FontMetrics) (strike : Bool) (lineX lineY : Rat) (p : Piece κ) : Rat × Rat × Rat × Rat × κ :=
  (lineX + p.lo, lineY + (m.place strike).1, p.hi - p.lo, (m.place strike).2 + 1 / 2, p.color)

/-- Glyphs as the decoration machine sees them. -/
def decoGlyphs (flag : Nat → Bool) (col : Nat → κ) (gs : List GlyphSpec) : List (DecoGlyph κ) :=
  gs.map fun g => ⟨g.x, flag g.char, col g.char⟩

theorem deco_decoRect (s k : Bool) (m : FontMetrics) (lineX lineY a b : Rat) (c : κ) :
    DrawCall.deco s (decoRect k m lineX lineY a b c : DrawCall φ κ σ) =
      if k = s then some (Piece.rect m s lineX lineY ⟨a, b, c⟩) else none := by
  cases s <;> cases k <;> simp [decoRect, DrawCall.deco, Piece.rect, FontMetrics.place]

theorem isMain_decoRect (k : Bool) (m : FontMetrics) (lineX lineY a b : Rat) (c : κ) :
    (decoRect k m lineX lineY a b c : DrawCall φ κ σ).isMain = false := by
  cases k <;> simp [decoRect, DrawCall.isMain]

theorem glyphCalls_deco (visible : σ → Bool) (col : Nat → κ) (stk : Nat → σ) (font : φ) (lineX lineY : Rat)
    (g : GlyphSpec) (s : Bool) : (glyphCalls visible col stk font lineX lineY g).filterMap (DrawCall.deco s) = [] := by
  unfold glyphCalls
  split <;> simp [DrawCall.deco]

theorem glyphCalls_main (visible : σ → Bool) (col : Nat → κ) (stk : Nat → σ) (font : φ) (lineX lineY : Rat)
    (g : GlyphSpec) : (glyphCalls visible col stk font lineX lineY g).filter DrawCall.isMain =
      glyphCalls visible col stk font lineX lineY g := by
  unfold glyphCalls
  split <;> simp [DrawCall.isMain]

/-- The result of the glyph loop and the end of the run. -/
theorem drawList_spec {d : Fmt κ σ} (hd : d.Proper) {col : Nat → κ} {stk : Nat → σ} {str und : Nat → Bool}
    (hm : d.Means col stk str und) (visible : σ → Bool) (m : FontMetrics) (font : φ) (lineX lineY endX : Rat)
    (gs : List GlyphSpec) : ∀ {s : DecoState κ}, s.it.InRange d →
    ∃ calls s' last, drawList d.view visible m font lineX lineY gs s = some (calls, s') ∧
      finishRun (φ := φ) (σ := σ) m lineX lineY (some endX) s' = some last ∧
      (calls ++ last).filter DrawCall.isMain = gs.flatMap (glyphCalls visible col stk font lineX lineY) ∧
      (calls ++ last).filterMap (DrawCall.deco true) =
        (pieces endX s.strikeStart s.it.strike s.it.color (decoGlyphs str col gs)).map
          (Piece.rect m true lineX lineY) ∧
      (calls ++ last).filterMap (DrawCall.deco false) =
        (pieces endX s.underlineStart s.it.underline s.it.color (decoGlyphs und col gs)).map
          (Piece.rect m false lineX lineY) := by
  induction gs with
  | nil =>
    intro s hi
    refine ⟨[], s, (if s.it.strike then [decoRect true m lineX lineY s.strikeStart endX s.it.color] else []) ++
      (if s.it.underline then [decoRect false m lineX lineY s.underlineStart endX s.it.color] else []), rfl, ?_, ?_, ?_, ?_⟩
    · unfold finishRun endRect
      cases s.it.strike <;> cases s.it.underline <;> rfl
    all_goals
      cases s.it.strike <;> cases s.it.underline <;>
        simp [deco_decoRect, isMain_decoRect, pieces, decoGlyphs]
  | cons g gs ih =>
    intro s hi
    obtain ⟨it', h1, h2, h3, h4⟩ := advanceTo_spec hd hi g.char
    have hc : it'.color = col g.char := Option.some.inj (h3.color.trans (hm.color _))
    have hs : it'.strike = str g.char := Option.some.inj (h3.strike.trans (hm.strike _))
    have hu : it'.underline = und g.char := Option.some.inj (h3.underline.trans (hm.underline _))
    have hst : it'.strokeState d.view = some (stk g.char) := h3.stroke.trans (hm.stroke _)
    obtain ⟨ev1, ev2, ev3, ev4⟩ := hasEvent_eq it'.strike s.it.strike it'.underline s.it.underline
      (decide (it'.color ≠ s.it.color))
    generalize hs1 : (⟨it', if it'.strike && (!s.it.strike || decide (it'.color ≠ s.it.color)) then g.x else s.strikeStart,
      if it'.underline && (!s.it.underline || decide (it'.color ≠ s.it.color)) then g.x else s.underlineStart⟩ :
        DecoState κ) = s1
    have hin : s1.it.InRange d := by rw [← hs1]; exact h2
    obtain ⟨calls, s', last, e1, e2, e3, e4, e5⟩ := ih hin
    have hg : ∃ U K, drawGlyph (φ := φ) d.view visible m font lineX lineY g.id g.char g.x g.y s =
        some (glyphCalls visible col stk font lineX lineY g ++ U ++ K, s1) ∧
        U.filter DrawCall.isMain = [] ∧ K.filter DrawCall.isMain = [] ∧
        U.filterMap (DrawCall.deco true) = [] ∧ K.filterMap (DrawCall.deco false) = [] ∧
        K.filterMap (DrawCall.deco true) = (if ((!it'.strike && s.it.strike) ||
          (it'.strike && decide (it'.color ≠ s.it.color))) then
            [(⟨s.strikeStart, g.x, s.it.color⟩ : Piece κ)] else []).map (Piece.rect m true lineX lineY) ∧
        U.filterMap (DrawCall.deco false) = (if ((!it'.underline && s.it.underline) ||
          (it'.underline && decide (it'.color ≠ s.it.color))) then
            [(⟨s.underlineStart, g.x, s.it.color⟩ : Piece κ)] else []).map (Piece.rect m false lineX lineY) := by
      unfold drawGlyph endRect
      simp only [h1, hst, ev1, ev2, ev3, ev4, h4, Option.bind_eq_bind, Option.bind_some, Option.map_some]
      by_cases c1 : ((!it'.underline && s.it.underline) || (it'.underline && decide (it'.color ≠ s.it.color))) = true
      · by_cases c2 : ((!it'.strike && s.it.strike) || (it'.strike && decide (it'.color ≠ s.it.color))) = true
        · rw [if_pos c1, if_pos c2, if_pos c1, if_pos c2]
          refine ⟨[decoRect false m lineX lineY s.underlineStart g.x s.it.color],
            [decoRect true m lineX lineY s.strikeStart g.x s.it.color], ?_, ?_, ?_, ?_, ?_, ?_, ?_⟩
          · simp only [Option.bind_some, hs1]
            unfold glyphCalls
            rw [hc]
          all_goals simp [deco_decoRect, isMain_decoRect]
        · rw [if_pos c1, if_neg c2, if_pos c1, if_neg c2]
          refine ⟨[decoRect false m lineX lineY s.underlineStart g.x s.it.color], [], ?_, ?_, ?_, ?_, ?_, ?_, ?_⟩
          · simp only [Option.bind_some, hs1]
            unfold glyphCalls
            rw [hc]
          all_goals simp [deco_decoRect, isMain_decoRect]
      · by_cases c2 : ((!it'.strike && s.it.strike) || (it'.strike && decide (it'.color ≠ s.it.color))) = true
        · rw [if_neg c1, if_pos c2, if_neg c1, if_pos c2]
          refine ⟨[], [decoRect true m lineX lineY s.strikeStart g.x s.it.color], ?_, ?_, ?_, ?_, ?_, ?_, ?_⟩
          · simp only [Option.bind_some, hs1]
            unfold glyphCalls
            rw [hc]
          all_goals simp [deco_decoRect, isMain_decoRect]
        · rw [if_neg c1, if_neg c2, if_neg c1, if_neg c2]
          refine ⟨[], [], ?_, ?_, ?_, ?_, ?_, ?_, ?_⟩
          · simp only [Option.bind_some, hs1]
            unfold glyphCalls
            rw [hc]
          all_goals simp
    obtain ⟨U, K, g1, g2, g3, g4, g5, g6, g7⟩ := hg
    refine ⟨glyphCalls visible col stk font lineX lineY g ++ U ++ K ++ calls, s', last, ?_, e2, ?_, ?_, ?_⟩
    · simp only [drawList, g1, e1]
    · rw [List.append_assoc, List.filter_append, e3, List.filter_append, List.filter_append, g2, g3, glyphCalls_main]
      simp
    · rw [List.append_assoc, List.filterMap_append, e4, List.filterMap_append, List.filterMap_append, g4, g6, glyphCalls_deco]
      rw [← hs1]
      simp only [decoGlyphs, List.map_cons, pieces, hc, hs, List.map_append, List.nil_append]
    · rw [List.append_assoc, List.filterMap_append, e5, List.filterMap_append, List.filterMap_append, g5, g7, glyphCalls_deco]
      rw [← hs1]
      simp only [decoGlyphs, List.map_cons, pieces, hc, hu, List.map_append, List.nil_append, List.append_nil]

end RichText
namespace RichText
open Spec
variable {φ κ σ : Type}

theorem placedRuns_runs (W : Rat) (al : XAlignment) (ls : List (LineSpec φ)) : ∀ y,
    (placedRuns W al y ls).map (·.2.2) = allRuns ls := by
  induction ls with
  | nil => intro y; rfl
  | cons l t ih => intro y; simp [placedRuns, allRuns, ih, Function.comp_def]

theorem placedRuns_length (W : Rat) (al : XAlignment) (ls : List (LineSpec φ)) (y : Rat) :
    (placedRuns W al y ls).length = (allRuns ls).length := by
  rw [← placedRuns_runs W al ls y, List.length_map]

/-- The calls of `for_each_run`. -/
theorem forEachRunOver_eq {L : Layout φ} {ls : List (LineSpec φ)} {rs : List (RunSpec φ)} {y : Rat}
    (h : Stores L ls rs y) (W : Rat) (al : XAlignment) {lc : List (Nat × Rat × Rat)} (hlen : lc.length = ls.length)
    (hlc : ∀ i l, ls[i]? = some l → lc[i]? =
        some (i, alignedX W l.width al, y + ((ls.take i).map (·.height)).sum + l.ascent)) (n : Nat) :
    ∀ i, ls.length - i = n → i ≤ ls.length →
    ∃ calls, L.forEachRunOver (allRuns (ls.take i)).length (lc.drop i) = some calls ∧
      calls.map (fun c => (c.2.2.1, c.2.2.2)) =
        (placedRuns W al (y + ((ls.take i).map (·.height)).sum) (ls.drop i)).map (fun p => (p.1, p.2.1)) ∧
      ∀ k c, calls[k]? = some c → c.2.1 = (allRuns (ls.take i)).length + k ∧
        ∃ l, ls[c.1]? = some l ∧ (allRuns (ls.take c.1)).length ≤ c.2.1 ∧
          c.2.1 < (allRuns (ls.take c.1)).length + l.runs.length := by
  induction n with
  | zero =>
    intro i hi hle
    have : i = ls.length := by omega
    subst this
    refine ⟨[], ?_, ?_, by simp⟩
    · rw [← hlen, List.drop_length]; rfl
    · simp [placedRuns]
  | succ n ih =>
    intro i hi hle
    have hlt : i < ls.length := by omega
    have hl := List.getElem?_eq_getElem hlt
    generalize ls[i] = l at hl
    have hc := hlc i l hl
    have hltc : i < lc.length := by omega
    rw [List.drop_eq_getElem_cons hltc]
    rw [List.getElem?_eq_getElem hltc] at hc
    rw [Option.some.inj hc]
    obtain ⟨calls, e1, e2, e3⟩ := ih (i + 1) (by omega) (by omega)
    have hsucc := allRuns_take_succ hl
    have hlen2 : (allRuns (ls.take (i + 1))).length = (allRuns (ls.take i)).length + l.runs.length := by
      rw [hsucc, List.length_append]
    have hmax : max (allRuns (ls.take i)).length (allRuns (ls.take (i + 1))).length = (allRuns (ls.take (i + 1))).length := by
      rw [hlen2]; omega
    refine ⟨Layout.runCalls i (alignedX W l.width al) (y + ((ls.take i).map (·.height)).sum + l.ascent)
      (allRuns (ls.take i)).length (allRuns (ls.take (i + 1))).length ++ calls, ?_, ?_, ?_⟩
    · simp only [Layout.forEachRunOver]
      rw [h.lines i l hl]
      simp only [hmax, e1]
    · rw [List.map_append, e2, show ls.drop i = l :: ls.drop (i + 1) by
        rw [List.drop_eq_getElem_cons hlt]
        rw [List.getElem?_eq_getElem hlt] at hl
        rw [Option.some.inj hl]]
      simp only [placedRuns, List.map_append]
      congr 1
      · simp only [Layout.runCalls, List.map_map, hlen2, Nat.add_sub_cancel_left, Function.comp_def]
        rw [List.map_const', List.map_const', List.length_range']
      · congr 2
        rw [List.take_add_one, hl]
        simp only [Option.toList_some, List.map_append, List.map_cons, List.map_nil, List.sum_append, List.sum_cons,
          List.sum_nil]
        ring
    · intro k c hk
      have hrl : (Layout.runCalls i (alignedX W l.width al) (y + ((ls.take i).map (·.height)).sum + l.ascent)
          (allRuns (ls.take i)).length (allRuns (ls.take (i + 1))).length).length = l.runs.length := by
        simp [Layout.runCalls, hlen2]
      rcases Nat.lt_or_ge k l.runs.length with h1 | h1
      · rw [List.getElem?_append_left (by omega)] at hk
        simp only [Layout.runCalls, List.getElem?_map, hlen2, Nat.add_sub_cancel_left] at hk
        rw [List.getElem?_range' h1] at hk
        simp only [Option.map_some, Option.some.injEq] at hk
        subst hk
        refine ⟨by simp, l, hl, ?_, ?_⟩
        · simp
        · simp; omega
      · rw [List.getElem?_append_right (by omega), hrl] at hk
        obtain ⟨f1, f2⟩ := e3 _ c hk
        refine ⟨?_, f2⟩
        rw [f1, hlen2]; omega

theorem forEachRun_eq {L : Layout φ} {ls : List (LineSpec φ)} {rs : List (RunSpec φ)} {y : Rat}
    (h : Stores L ls rs y) (W : Rat) (al : XAlignment) :
    ∃ calls, L.forEachRun W al = some calls ∧
      calls.map (fun c => (c.2.2.1, c.2.2.2)) = (placedRuns W al y ls).map (fun p => (p.1, p.2.1)) ∧
      ∀ k c, calls[k]? = some c → c.2.1 = k ∧
        ∃ l, ls[c.1]? = some l ∧ (allRuns (ls.take c.1)).length ≤ k ∧
          k < (allRuns (ls.take c.1)).length + l.runs.length := by
  obtain ⟨lc, h1, h2, h3⟩ := C20_for_each_line h W al
  obtain ⟨calls, e1, e2, e3⟩ := forEachRunOver_eq h W al h2 h3 _ 0 rfl (Nat.zero_le _)
  refine ⟨calls, ?_, ?_, ?_⟩
  · unfold Layout.forEachRun
    rw [h1]
    simpa [allRuns] using e1
  · simpa using e2
  · intro k c hk
    obtain ⟨f1, f2⟩ := e3 k c hk
    have f1' : c.2.1 = k := by simpa [allRuns] using f1
    rw [f1'] at f2
    exact ⟨f1', f2⟩

/-- The colour the iterator starts with, and the chunk of calls of a run. -/
structure RunDrawn (visible : σ → Bool) (metrics : φ → FontMetrics) (col : Nat → κ) (stk : Nat → σ)
    (str und : Nat → Bool) [DecidableEq κ] (c : Nat × Nat × Rat × Rat) (r : RunSpec φ)
    (chunk : List (DrawCall φ κ σ)) : Prop where
  head : ∃ rest, chunk = .run c.1 c.2.1 :: rest
  main : chunk.filter DrawCall.isMain =
    .run c.1 c.2.1 :: r.glyphs.flatMap (glyphCalls visible col stk r.font c.2.2.1 c.2.2.2)
  strike : ∃ c0, chunk.filterMap (DrawCall.deco true) =
    (pieces r.endX (r.xAt 0) false c0 (decoGlyphs str col r.glyphs)).map
      (Piece.rect (metrics r.font) true c.2.2.1 c.2.2.2)
  underline : ∃ c0, chunk.filterMap (DrawCall.deco false) =
    (pieces r.endX (r.xAt 0) false c0 (decoGlyphs und col r.glyphs)).map
      (Piece.rect (metrics r.font) false c.2.2.1 c.2.2.2)

/-- Where the iterator of a run is constructed. -/
def RunSpec.fmtStart (r : RunSpec φ) : Nat := if r.rtl then r.charEnd else r.charStart

variable [DecidableEq κ]

theorem drawRun_spec {L : Layout φ} {ls : List (LineSpec φ)} {y : Rat} (h : Stores L ls [] y)
    {d : Fmt κ σ} (hd : d.Proper) {n : Nat} (he : d.EndsAt n)
    {col : Nat → κ} {stk : Nat → σ} {str und : Nat → Bool} (hm : d.Means col stk str und) (visible : σ → Bool)
    (metrics : φ → FontMetrics) {c : Nat × Nat × Rat × Rat} {r : RunSpec φ} (hr : (allRuns ls)[c.2.1]? = some r)
    (hn : r.fmtStart < n) :
    ∃ chunk, drawRun L d.view visible metrics c (glyphCount ((allRuns ls).take c.2.1),
        2 * (glyphCount ((allRuns ls).take c.2.1) + c.2.1)) =
      some (chunk, glyphCount ((allRuns ls).take (c.2.1 + 1)),
        2 * (glyphCount ((allRuns ls).take (c.2.1 + 1)) + (c.2.1 + 1))) ∧
      RunDrawn visible metrics col stk str und c r chunk := by
  have hk : (allRuns ls ++ ([] : List (RunSpec φ)))[c.2.1]? = some r := by rw [List.append_nil]; exact hr
  have hsucc : glyphCount ((allRuns ls).take (c.2.1 + 1)) = glyphCount ((allRuns ls).take c.2.1) + r.glyphs.length :=
    glyphCount_take_succ hr
  obtain ⟨f, e1, e2, e3, e4, e5, e6⟩ := h.read hk
  have hf : f = glyphCount ((allRuns ls).take c.2.1) := by
    have := h.firstGlyph hk
    rw [e1, List.append_nil] at this
    exact Option.some.inj this
  subst hf
  obtain ⟨it, m1, m2, m3, m4, m5⟩ := make_spec hd he hn
  have hstart := e5 0 (Nat.zero_le _)
  rw [Nat.mul_zero, Nat.add_zero] at hstart
  have hend := e5 r.glyphs.length (Nat.le_refl _)
  have hxe : r.xAt r.glyphs.length = r.endX := by unfold RunSpec.xAt RunSpec.xs; simp
  rw [hxe] at hend
  obtain ⟨calls, s', last, q1, q2, q3, q4, q5⟩ := drawList_spec hd hm visible (metrics r.font) r.font c.2.2.1 c.2.2.2
    r.endX r.glyphs (s := ⟨it, r.xAt 0, r.xAt 0⟩) m2
  have hdg := drawGlyphs_eq h hk d.view visible (metrics r.font) r.font c.2.2.1 c.2.2.2 0 (Nat.zero_le _)
    ⟨it, r.xAt 0, r.xAt 0⟩
  simp only [List.append_nil, Nat.add_zero, Nat.mul_zero, List.drop_zero, q1, Option.map_some] at hdg
  refine ⟨.run c.1 c.2.1 :: (calls ++ last), ?_, ⟨_, rfl⟩, ?_, ?_, ?_⟩
  · unfold drawRun
    unfold RunSpec.fmtStart at m1
    simp only [e3, Option.bind_eq_bind, Option.bind_some, m1, hstart, hdg, hend, q2, hsucc]
    refine congrArg some (Prod.ext rfl (Prod.ext ?_ ?_))
    · simp only; omega
    · simp only; omega
  · rw [List.filter_cons_of_pos rfl, q3]
  · refine ⟨it.color, ?_⟩
    rw [List.filterMap_cons_none rfl, q4]
    simp only [m4]
  · refine ⟨it.color, ?_⟩
    rw [List.filterMap_cons_none rfl, q5]
    simp only [m5]

theorem drawRuns_spec {L : Layout φ} {ls : List (LineSpec φ)} {y : Rat} (h : Stores L ls [] y)
    {d : Fmt κ σ} (hd : d.Proper) {n : Nat} (he : d.EndsAt n)
    {col : Nat → κ} {stk : Nat → σ} {str und : Nat → Bool} (hm : d.Means col stk str und) (visible : σ → Bool)
    (metrics : φ → FontMetrics) (hn : ∀ r ∈ allRuns ls, r.fmtStart < n) (calls : List (Nat × Nat × Rat × Rat)) :
    ∀ k, (∀ j c, calls[j]? = some c → c.2.1 = k + j) → calls.length = (allRuns ls).length - k →
    ∃ chunks : List (List (DrawCall φ κ σ)), drawRuns L d.view visible metrics calls (glyphCount ((allRuns ls).take k),
        2 * (glyphCount ((allRuns ls).take k) + k)) = some chunks.flatten ∧ chunks.length = calls.length ∧
      ∀ j c r chunk, calls[j]? = some c → (allRuns ls)[k + j]? = some r → chunks[j]? = some chunk →
        RunDrawn visible metrics col stk str und c r chunk := by
  induction calls with
  | nil => intro k _ _; exact ⟨[], rfl, rfl, by simp⟩
  | cons c cs ih =>
    intro k hidx hlen
    have hk : c.2.1 = k := by simpa using hidx 0 c (by simp)
    have hlt : k < (allRuns ls).length := by simp at hlen; omega
    have hr := List.getElem?_eq_getElem hlt
    obtain ⟨chunk, e1, e2⟩ := drawRun_spec h hd he hm visible metrics (c := c) (r := (allRuns ls)[k])
      (by rw [hk]; exact hr) (hn _ (List.getElem_mem hlt))
    rw [hk] at e1
    obtain ⟨chunks, f1, f2, f3⟩ := ih (k + 1) (by
      intro j c' hc'
      have := hidx (j + 1) c' (by simpa using hc')
      omega) (by simp at hlen; omega)
    refine ⟨chunk :: chunks, ?_, by simp [f2], ?_⟩
    · simp only [drawRuns, e1, f1, List.flatten_cons]
    · intro j c' r' ch hc' hr' hch
      cases j with
      | zero =>
        simp at hc' hch
        subst hc' hch
        rw [Nat.add_zero, hr] at hr'
        cases hr'
        exact e2
      | succ j =>
        exact f3 j c' r' ch (by simpa using hc') (by rw [show k + 1 + j = k + (j + 1) by omega]; exact hr')
          (by simpa using hch)

theorem drawRuns_none {L : Layout φ} {ls : List (LineSpec φ)} {y : Rat} (h : Stores L ls [] y)
    {d : Fmt κ σ} (hd : d.Proper) {n : Nat} (he : d.EndsAt n)
    {col : Nat → κ} {stk : Nat → σ} {str und : Nat → Bool} (hm : d.Means col stk str und) (visible : σ → Bool)
    (metrics : φ → FontMetrics) (calls : List (Nat × Nat × Rat × Rat)) :
    ∀ k, (∀ j c, calls[j]? = some c → c.2.1 = k + j) → calls.length = (allRuns ls).length - k →
    (∃ (j : Nat) (r : RunSpec φ), k ≤ j ∧ (allRuns ls)[j]? = some r ∧ n ≤ r.fmtStart) →
    drawRuns L d.view visible metrics calls (glyphCount ((allRuns ls).take k),
        2 * (glyphCount ((allRuns ls).take k) + k)) = none := by
  induction calls with
  | nil =>
    intro k _ hlen ⟨j, r, hj, hr, _⟩
    have := getElem?_lt hr
    simp at hlen
    omega
  | cons c cs ih =>
    intro k hidx hlen ⟨j, r', hj, hr', hbad⟩
    have hk : c.2.1 = k := by simpa using hidx 0 c (by simp)
    have hlt : k < (allRuns ls).length := by simp at hlen; omega
    have hr := List.getElem?_eq_getElem hlt
    generalize (allRuns ls)[k] = r at hr
    rcases Nat.lt_or_ge r.fmtStart n with h1 | h1
    · obtain ⟨chunk, e1, e2⟩ := drawRun_spec h hd he hm visible metrics (c := c) (r := r) (by rw [hk]; exact hr) h1
      rw [hk] at e1
      have hjk : j ≠ k := by
        rintro rfl
        rw [hr] at hr'
        cases hr'
        omega
      have := ih (k + 1) (by
        intro j c' hc'
        have := hidx (j + 1) c' (by simpa using hc')
        omega) (by simp at hlen; omega) ⟨j, r', by omega, hr', hbad⟩
      simp only [drawRuns, e1, this]
    · have hkk : (allRuns ls ++ ([] : List (RunSpec φ)))[k]? = some r := by rw [List.append_nil]; exact hr
      have : drawRun L d.view visible metrics c (glyphCount ((allRuns ls).take k),
          2 * (glyphCount ((allRuns ls).take k) + k)) = none := by
        have hmk := make_past_end hd he h1
        unfold RunSpec.fmtStart at hmk
        unfold drawRun
        rw [hk, h.runs k r hkk]
        simp only [Option.bind_eq_bind, Option.bind_some, hmk, Option.bind_none]
      simp only [drawRuns, this]

end RichText
