import Verif.Model.DrawSelection
import Verif.Props.Draw
import Verif.Props.Offsets
import Verif.Props.UIContainer
/-! Selected text as it is drawn (C98). -/
namespace RichText
open Spec
variable {φ κ σ : Type}

/-- A run that has a part between `a` and `b`. -/
def Touches (a b : Nat) (r : RunSpec φ) : Prop := r.charStart < b ∧ a < r.charEnd

instance (a b : Nat) (r : RunSpec φ) : Decidable (Touches a b r) := inferInstanceAs (Decidable (_ ∧ _))

/-- A rectangle as it must be drawn: in one piece, or cut at the ends of the clip range. -/
def RectPainted (white : κ) (x y width height : Rat) (tex : TexRect) (color : κ) (ps : List (Quad κ)) :
    Option (Rat × Rat) → Prop
  | none => ps = [⟨x, y, width, height, tex, color⟩]
  | some clip => 0 < width → Tiles white x y width height tex color clip ps

/-- What a call must draw. -/
def Painted (p : Painter φ κ σ) (posX posY : Rat) (clip : Option (Rat × Rat)) (ps : List (Quad κ)) : DrawCall φ κ σ → Prop
  | .run _ _ => ps = []
  | .stroke f g x y s => ps = [⟨posX + x + (p.stroke f g s).offX, posY + y + (p.stroke f g s).offY, (p.stroke f g s).width,
      (p.stroke f g s).height, (p.stroke f g s).tex, p.strokeColor s⟩]
  | .glyph f g x y c => RectPainted p.white (posX + x + (p.glyph f g).offX) (posY + y + (p.glyph f g).offY) (p.glyph f g).width
      (p.glyph f g).height (p.glyph f g).tex (if (p.glyph f g).hasColor then p.white else c) ps clip
  | .rect _ x y w h c => RectPainted p.white (posX + x) (posY + y) w h unitTex c ps clip

/-- The rectangle behind the part of a run from `u` to `v` of its line. -/
def backQuad (blue : κ) (posX posY x base u v : Rat) (l : LineSpec φ) : Quad κ :=
  ⟨posX + x + u, posY + base - l.ascent, v - u, l.height, unitTex, blue⟩

theorem paintCall_painted (p : Painter φ κ σ) (posX posY : Rat) (clip : Option (Rat × Rat)) (hc : ∀ c, clip = some c → c.1 ≤ c.2)
    (call : DrawCall φ κ σ) : Painted p posX posY clip (paintCall p posX posY clip call) call := by
  have key : ∀ x y w h tex (c : κ), RectPainted p.white x y w h tex c (emitRect p.white x y w h tex c clip) clip := by
    intro x y w h tex c
    cases clip with
    | none => rfl
    | some clip => exact fun hw => C57_tiles p.white x y w h tex c clip hw (hc clip rfl)
  cases call with
  | run _ _ => rfl
  | stroke f g x y s => rfl
  | glyph f g x y c => exact key _ _ _ _ _ _
  | rect k x y w h c => exact key _ _ _ _ _ _

theorem contains_eq {L : Layout φ} {ls : List (LineSpec φ)} {y : Rat} (h : Stores L ls [] y) {k : Nat} {r : RunSpec φ}
    (hr : (allRuns ls)[k]? = some r) (a b : Nat) : L.runContainsCharRange k a b = some (decide (Touches a b r)) := by
  have := h.runs k r (by rw [List.append_nil]; exact hr)
  unfold Layout.runContainsCharRange
  rw [this]
  simp only [Option.map_some, Option.some.injEq]
  rw [Bool.eq_iff_iff]
  rw [decide_eq_true_iff]
  simp [Touches]

/-- The hypotheses about the runs of a layout. -/
structure RunsOk (L : Layout φ) (ls : List (LineSpec φ)) : Prop where
  size : L.pos.length < 4294967296
  runs : ∀ r ∈ allRuns ls, (LtrRun r ∨ RtlRun r) ∧ r.charEnd < 4294967296

theorem RunsOk.range {L : Layout φ} {ls : List (LineSpec φ)} (ho : RunsOk L ls) {y : Rat} (h : Stores L ls [] y)
    {k : Nat} {r : RunSpec φ} (hr : (allRuns ls)[k]? = some r) {a b : Nat} (hab : a ≤ b) :
    ∃ u v, L.positionRange k a b = some (u, v) ∧ u ≤ v := by
  have hm := ho.runs r (List.mem_of_getElem? hr)
  obtain ⟨u, v, e, e', _⟩ := C25_ordered (L := L) (k := k)
    ⟨⟨ls, [], y, h, by rw [List.append_nil]; exact hr⟩, ho.size, hm.2⟩ hm.1 a b hab
  exact ⟨u, v, e, e'⟩

theorem placed_run {ls : List (LineSpec φ)} {W y : Rat} {al : XAlignment} {k : Nat} {p : Rat × Rat × RunSpec φ}
    (hp : (placedRuns W al y ls)[k]? = some p) : (allRuns ls)[k]? = some p.2.2 := by
  rw [← placedRuns_runs W al ls y, List.getElem?_map, hp]; rfl

theorem highlightRuns_spec {L : Layout φ} {ls : List (LineSpec φ)} {y : Rat} (h : Stores L ls [] y) (ho : RunsOk L ls)
    (blue : κ) (posX posY : Rat) {a b : Nat} (hab : a ≤ b) : ∀ (calls : List (Nat × Nat × Rat × Rat)),
    (∀ c ∈ calls, ∃ l r, ls[c.1]? = some l ∧ (allRuns ls)[c.2.1]? = some r) →
    ∃ out : List (List (Quad κ)), highlightRuns L blue posX posY a b calls = some out.flatten ∧ out.length = calls.length ∧
      ∀ (j : Nat) c l r, calls[j]? = some c → ls[c.1]? = some l → (allRuns ls)[c.2.1]? = some r →
        ∃ u v, L.positionRange c.2.1 a b = some (u, v) ∧ u ≤ v ∧
          out[j]? = some (if Touches a b r then [backQuad blue posX posY c.2.2.1 c.2.2.2 u v l] else [])
  | [], _ => ⟨[], rfl, rfl, by simp⟩
  | c :: cs, hc => by
    obtain ⟨out, e1, e2, e3⟩ := highlightRuns_spec h ho blue posX posY hab cs (fun c' hc' => hc c' (List.mem_cons_of_mem _ hc'))
    obtain ⟨l, r, hl, hr⟩ := hc c (List.mem_cons_self)
    obtain ⟨u, v, h1, h2⟩ := ho.range h hr hab
    have hq : highlightRun L blue posX posY a b c =
        some (if Touches a b r then [backQuad blue posX posY c.2.2.1 c.2.2.2 u v l] else []) := by
      unfold highlightRun
      rw [contains_eq h hr]
      by_cases ht : Touches a b r
      · simp only [Option.bind_eq_bind, Option.bind_some, ht, decide_true, if_true, h1, h.lines _ l hl, C20_line_height h _ l hl, backQuad]
      · simp only [Option.bind_eq_bind, Option.bind_some, ht, decide_false, Bool.false_eq_true, if_false]
    refine ⟨(if Touches a b r then [backQuad blue posX posY c.2.2.1 c.2.2.2 u v l] else []) :: out, ?_, by simp [e2], ?_⟩
    · rw [highlightRuns, hq, e1, List.flatten_cons]
      rfl
    · intro j c' l' r' hj hl' hr'
      cases j with
      | zero =>
        simp only [List.getElem?_cons_zero, Option.some.injEq] at hj ⊢
        subst hj
        rw [hl] at hl'; rw [hr] at hr'
        cases hl'; cases hr'
        exact ⟨u, v, h1, h2, rfl⟩
      | succ j => exact e3 j c' l' r' hj hl' hr'

/-- C98: the rectangles of the selection.  One for each run that has a selected part, behind
exactly the part between the ends of the selection, as high as the line. -/
theorem C98_highlight {L : Layout φ} {ls : List (LineSpec φ)} {y : Rat} (h : Stores L ls [] y) (ho : RunsOk L ls)
    (blue : κ) (posX posY W : Rat) (al : XAlignment) {a b : Nat} (hab : a ≤ b) :
    ∃ back : List (List (Quad κ)), highlights L blue posX posY W al (some (a, b)) = some back.flatten ∧
      back.length = (placedRuns W al y ls).length ∧
      ∀ (k : Nat) (x base : Rat) (r : RunSpec φ), (placedRuns W al y ls)[k]? = some (x, base, r) →
        ∃ m l u v, RunOfLine ls k m ∧ ls[m]? = some l ∧ L.positionRange k a b = some (u, v) ∧ u ≤ v ∧
          back[k]? = some (if Touches a b r then [backQuad blue posX posY x base u v l] else []) := by
  obtain ⟨calls, e1, e2, e3⟩ := forEachRun_eq h W al
  have hlen : calls.length = (placedRuns W al y ls).length := by
    have := congrArg List.length e2
    simpa using this
  obtain ⟨out, f1, f2, f3⟩ := highlightRuns_spec h ho blue posX posY hab calls (by
    intro c hc
    obtain ⟨j, hj⟩ := List.mem_iff_getElem?.1 hc
    obtain ⟨g1, l, g2, _⟩ := e3 j c hj
    have hlt : j < (placedRuns W al y ls).length := hlen ▸ getElem?_lt hj
    exact ⟨l, _, g2, by rw [g1]; exact placed_run (List.getElem?_eq_getElem hlt)⟩)
  refine ⟨out, ?_, f2.trans hlen, ?_⟩
  · unfold highlights
    rw [e1]
    exact f1
  · intro k x base r hp
    have hk : k < calls.length := by rw [hlen]; exact getElem?_lt hp
    have hc := List.getElem?_eq_getElem hk
    generalize calls[k] = c at hc
    obtain ⟨g1, l, g2, g3, g4⟩ := e3 k c hc
    have hxy : (c.2.2.1, c.2.2.2) = (x, base) := by
      have := congrArg (·[k]?) e2
      simp only [List.getElem?_map, hc, hp, Option.map_some, Option.some.injEq] at this
      exact this
    have hr := placed_run hp
    obtain ⟨u, v, q1, q2, q3⟩ := f3 k c l r hc g2 (by rw [g1]; exact hr)
    simp only [Prod.mk.injEq] at hxy
    rw [hxy.1, hxy.2] at q3
    rw [g1] at q1
    exact ⟨c.1, l, u, v, ⟨l, k - (allRuns (ls.take c.1)).length, g2, by omega, by omega⟩, g2, q1, q2, q3⟩

theorem paintCalls_tail (L : Layout φ) (p : Painter φ κ σ) (posX posY : Rat) (sel : Option (Nat × Nat)) (clip : Option (Rat × Rat)) :
    ∀ (cs rest : List (DrawCall φ κ σ)), (∀ c ∈ cs, ∀ m k, c ≠ .run m k) →
    paintCalls L p posX posY sel clip (cs ++ rest) =
      (paintCalls L p posX posY sel clip rest).map ((cs.map (paintCall p posX posY clip)).flatten ++ ·)
  | [], rest, _ => by
    simp only [List.nil_append, List.map_nil, List.flatten_nil]
    cases paintCalls L p posX posY sel clip rest <;> rfl
  | c :: cs, rest, hc => by
    rw [List.cons_append, paintCalls]
    have hclip : nextClip L posX sel clip c = some clip := by
      cases c with
      | run m k => exact absurd rfl (hc _ List.mem_cons_self m k)
      | _ => rfl
    have hrest := paintCalls_tail L p posX posY sel clip cs rest (fun c' h' => hc c' (List.mem_cons_of_mem _ h'))
    simp only [Option.bind_eq_bind] at *
    rw [hclip, Option.bind_some, hrest]
    cases paintCalls L p posX posY sel clip rest with
    | none => rfl
    | some q => simp only [Option.map_some, Option.bind_some, List.map_cons, List.flatten_cons, List.append_assoc]

theorem paintChunks_spec {L : Layout φ} (p : Painter φ κ σ) (posX posY : Rat) (sel : Option (Nat × Nat)) :
    ∀ (chunks : List (List (DrawCall φ κ σ))) (clips : List (Option (Rat × Rat))) (clip : Option (Rat × Rat)),
    clips.length = chunks.length →
    (∀ (j : Nat) chunk cl, chunks[j]? = some chunk → clips[j]? = some cl → ∃ m k rest, chunk = .run m k :: rest ∧
      clipOf L posX sel k = some cl ∧ ∀ c ∈ rest, ∀ m k, c ≠ .run m k) →
    ∃ front : List (List (List (Quad κ))), paintCalls L p posX posY sel clip chunks.flatten = some front.flatten.flatten ∧
      front.length = chunks.length ∧
      ∀ (j : Nat) chunk cl, chunks[j]? = some chunk → clips[j]? = some cl → front[j]? = some (chunk.map (paintCall p posX posY cl))
  | [], clips, clip, _, _ => ⟨[], rfl, rfl, by simp⟩
  | chunk :: chunks, [], clip, hlen, _ => by simp at hlen
  | chunk :: chunks, cl :: clips, clip, hlen, hall => by
    obtain ⟨m, k, rest, rfl, hcl, hrest⟩ := hall 0 chunk cl rfl rfl
    obtain ⟨front, e1, e2, e3⟩ := paintChunks_spec p posX posY sel chunks clips cl (by simpa using hlen)
      (fun j chunk' cl' h1 h2 => hall (j + 1) chunk' cl' h1 h2)
    refine ⟨(DrawCall.run m k :: rest).map (paintCall p posX posY cl) :: front, ?_, by simp [e2], ?_⟩
    · rw [List.flatten_cons, List.cons_append, paintCalls]
      simp only [nextClip, hcl, Option.bind_eq_bind, Option.bind_some]
      rw [paintCalls_tail L p posX posY sel cl rest _ hrest, e1]
      simp only [Option.map_some, Option.bind_some, List.map_cons, List.flatten_cons, List.cons_append, List.flatten_append, paintCall, List.nil_append]
    · intro j chunk' cl' h1 h2
      cases j with
      | zero =>
        simp only [List.getElem?_cons_zero, Option.some.injEq] at h1 h2 ⊢
        subst h1 h2
        rfl
      | succ j => exact e3 j chunk' cl' h1 h2

theorem drawn_tail [DecidableEq κ] {visible : σ → Bool} {metrics : φ → FontMetrics} {col : Nat → κ} {stk : Nat → σ} {str und : Nat → Bool}
    {c : Nat × Nat × Rat × Rat} {r : RunSpec φ} {chunk : List (DrawCall φ κ σ)}
    (h : RunDrawn visible metrics col stk str und c r chunk) : ∃ rest, chunk = .run c.1 c.2.1 :: rest ∧ ∀ q ∈ rest, ∀ m k, q ≠ .run m k := by
  obtain ⟨rest, rfl⟩ := h.head
  refine ⟨rest, rfl, ?_⟩
  rintro q hq m k rfl
  have hm := h.main
  rw [List.filter_cons_of_pos rfl] at hm
  have hmem : DrawCall.run m k ∈ rest.filter DrawCall.isMain := List.mem_filter.mpr ⟨hq, rfl⟩
  rw [List.cons.inj hm |>.2] at hmem
  obtain ⟨g, _, hg⟩ := List.mem_flatMap.mp hmem
  unfold glyphCalls at hg
  split at hg <;> simp at hg

variable [DecidableEq κ]

/-- C98: the text with a selection.  Behind the text are the rectangles of `C98_highlight`;
then come, run by run, the rectangles of the calls of C15 and C16; those of a run with a
selected part, other than outlines, are white inside of the clip range, which is the range
of the rectangle behind, but without the start of the line. -/
theorem C98_text {L : Layout φ} {ls : List (LineSpec φ)} {y : Rat} (h : Stores L ls [] y) (ho : RunsOk L ls)
    {d : Fmt κ σ} (hd : d.Proper) {n : Nat} (he : d.EndsAt n) (visible : σ → Bool) (metrics : φ → FontMetrics)
    (p : Painter φ κ σ) (posX posY W : Rat) (al : XAlignment) (s t : Nat)
    (hn : ∀ r ∈ allRuns ls, (if r.rtl then r.charEnd else r.charStart) < n) :
    ∃ (back : List (List (Quad κ))) (chunks : List (List (DrawCall φ κ σ))) (front : List (List (List (Quad κ)))),
      paintText L d.view visible metrics p posX posY W al (some s) t = some (back.flatten ++ front.flatten.flatten) ∧
      drawText L d.view visible metrics W al = some chunks.flatten ∧
      back.length = (placedRuns W al y ls).length ∧ front.length = (placedRuns W al y ls).length ∧
      ∀ (k : Nat) (x base : Rat) (r : RunSpec φ), (placedRuns W al y ls)[k]? = some (x, base, r) →
        ∃ m l u v chunk parts, RunOfLine ls k m ∧ ls[m]? = some l ∧ L.positionRange k (min s t) (max s t) = some (u, v) ∧ u ≤ v ∧
          back[k]? = some (if Touches (min s t) (max s t) r then [backQuad p.blue posX posY x base u v l] else []) ∧
          chunks[k]? = some chunk ∧ front[k]? = some parts ∧ parts.length = chunk.length ∧
          ∀ (j : Nat) call ps, chunk[j]? = some call → parts[j]? = some ps →
            Painted p posX posY (if Touches (min s t) (max s t) r then some (u + posX, v + posX) else none) ps call := by
  obtain ⟨col, stk, str, und, hm⟩ := hd.means
  have hab : min s t ≤ max s t := le_trans (min_le_left _ _) (le_max_left _ _)
  obtain ⟨back, b1, b2, b3⟩ := C98_highlight h ho p.blue posX posY W al hab
  obtain ⟨chunks, c1, c2, c3⟩ := drawText_spec h hd he hm visible metrics W al hn
  have hsel : orderedSelection (some s) t = some (min s t, max s t) := by
    simp only [orderedSelection, Option.map_some]
    split
    · rename_i hgt
      rw [min_eq_right hgt.le, max_eq_left hgt.le]
    · rename_i hgt
      rw [min_eq_left (not_lt.mp hgt), max_eq_right (not_lt.mp hgt)]
  let clip : Nat → RunSpec φ → Option (Rat × Rat) := fun k r =>
    if Touches (min s t) (max s t) r then (L.positionRange k (min s t) (max s t)).map fun q => (q.1 + posX, q.2 + posX) else none
  have hclip : ∀ (k : Nat) r, (allRuns ls)[k]? = some r → clipOf L posX (some (min s t, max s t)) k = some (clip k r) := by
    intro k r hr
    obtain ⟨u, v, e, _⟩ := ho.range h hr hab
    unfold clipOf
    simp only [contains_eq h hr, Option.bind_eq_bind, Option.bind_some, clip, e, Option.map_some]
    by_cases ht : Touches (min s t) (max s t) r <;> simp [ht]
  obtain ⟨front, f1, f2, f3⟩ := paintChunks_spec (L := L) p posX posY (some (min s t, max s t)) chunks
    ((placedRuns W al y ls).mapIdx fun k q => clip k q.2.2) none (by simp [c2]) (by
      intro j chunk cl h1 h2
      rw [List.getElem?_mapIdx] at h2
      obtain ⟨q, hq, rfl⟩ := Option.map_eq_some_iff.mp h2
      obtain ⟨m, _, hdr⟩ := c3 j q chunk hq h1
      obtain ⟨rest, e1, e2⟩ := drawn_tail hdr
      exact ⟨_, _, rest, e1, hclip _ _ (placed_run hq), e2⟩)
  refine ⟨back, chunks, front, ?_, c1, b2, f2.trans c2, ?_⟩
  · unfold paintText
    simp only [hsel, b1, c1, f1, Option.bind_eq_bind, Option.bind_some]
  · intro k x base r hp
    obtain ⟨m, l, u, v, q1, q2, q3, q4, q5⟩ := b3 k x base r hp
    have hlt : k < chunks.length := by rw [c2]; exact getElem?_lt hp
    have hch := List.getElem?_eq_getElem hlt
    have hfr := f3 k _ (clip k r) hch (by rw [List.getElem?_mapIdx, hp]; rfl)
    refine ⟨m, l, u, v, _, _, q1, q2, q3, q4, q5, hch, hfr, by simp, ?_⟩
    intro j call ps h1 h2
    rw [List.getElem?_map, h1, Option.map_some, Option.some.injEq] at h2
    subst h2
    have hcl : clip k r = if Touches (min s t) (max s t) r then some (u + posX, v + posX) else none := by
      simp only [clip, q3, Option.map_some]
    rw [hcl]
    refine paintCall_painted p posX posY _ ?_ call
    intro c hc
    split at hc
    · cases hc
      simpa using q4
    · exact absurd hc (by simp)

/-- C98: without a selection nothing is white, except what is white anyway. -/
theorem C98_no_selection {L : Layout φ} {ls : List (LineSpec φ)} {y : Rat} (h : Stores L ls [] y)
    {d : Fmt κ σ} (hd : d.Proper) {n : Nat} (he : d.EndsAt n) (visible : σ → Bool) (metrics : φ → FontMetrics)
    (p : Painter φ κ σ) (posX posY W : Rat) (al : XAlignment) (t : Nat)
    (hn : ∀ r ∈ allRuns ls, (if r.rtl then r.charEnd else r.charStart) < n) :
    ∃ (calls : List (DrawCall φ κ σ)) (front : List (List (Quad κ))), drawText L d.view visible metrics W al = some calls ∧
      paintText L d.view visible metrics p posX posY W al none t = some front.flatten ∧ front.length = calls.length ∧
      ∀ (j : Nat) call ps, calls[j]? = some call → front[j]? = some ps → Painted p posX posY none ps call := by
  obtain ⟨col, stk, str, und, hm⟩ := hd.means
  obtain ⟨chunks, c1, c2, c3⟩ := drawText_spec h hd he hm visible metrics W al hn
  have key : ∀ calls : List (DrawCall φ κ σ), paintCalls L p posX posY none none calls = some (calls.map (paintCall p posX posY none)).flatten := by
    intro calls
    induction calls with
    | nil => rfl
    | cons c cs ih =>
      rw [paintCalls]
      have : nextClip L posX none none c = some none := by cases c <;> rfl
      simp only [Option.bind_eq_bind] at *
      rw [this, Option.bind_some, ih]
      rfl
  refine ⟨chunks.flatten, chunks.flatten.map (paintCall p posX posY none), c1, ?_, List.length_map .., ?_⟩
  · unfold paintText
    simp only [orderedSelection, Option.map_none, highlights, c1, key, Option.bind_eq_bind, Option.bind_some, List.nil_append]
  · intro j call ps h1 h2
    rw [List.getElem?_map, h1, Option.map_some, Option.some.injEq] at h2
    subst h2
    exact paintCall_painted p posX posY none (by simp) call

/-- C98: on a line that starts at the left edge of the text area, glyphs are white exactly
on the rectangle behind the selection, up to less than a pixel. -/
theorem C98_white_partial {L : Layout φ} {ls : List (LineSpec φ)} {y : Rat} (h : Stores L ls [] y) (ho : RunsOk L ls)
    {d : Fmt κ σ} (hd : d.Proper) {n : Nat} (he : d.EndsAt n) (visible : σ → Bool) (metrics : φ → FontMetrics)
    (p : Painter φ κ σ) (posX posY W : Rat) (al : XAlignment) (s t : Nat)
    (hn : ∀ r ∈ allRuns ls, (if r.rtl then r.charEnd else r.charStart) < n) :
    ∃ (back : List (List (Quad κ))) (chunks : List (List (DrawCall φ κ σ))) (front : List (List (List (Quad κ)))),
      paintText L d.view visible metrics p posX posY W al (some s) t = some (back.flatten ++ front.flatten.flatten) ∧
      drawText L d.view visible metrics W al = some chunks.flatten ∧
      ∀ (k : Nat) (base : Rat) (r : RunSpec φ), (placedRuns W al y ls)[k]? = some (0, base, r) →
        ∃ behind chunk parts, back[k]? = some behind ∧ chunks[k]? = some chunk ∧ front[k]? = some parts ∧
          ∀ (j : Nat) f g gx gy c ps, chunk[j]? = some (.glyph f g gx gy c) → parts[j]? = some ps →
            0 < (p.glyph f g).width → (p.glyph f g).hasColor = false → c ≠ p.white → ∀ q ∈ ps,
              (q.color = p.white → ∃ b ∈ behind, b.x - 1 < q.x ∧ q.x + q.width < b.x + b.width + 1) ∧
              (q.color ≠ p.white → q.color = c ∧ ∀ b ∈ behind, q.x + q.width ≤ b.x ∨ b.x + b.width ≤ q.x) := by
  obtain ⟨back, chunks, front, e1, e2, e3, e4, e5⟩ := C98_text h ho hd he visible metrics p posX posY W al s t hn
  refine ⟨back, chunks, front, e1, e2, ?_⟩
  intro k base r hp
  obtain ⟨m, l, u, v, chunk, parts, q1, q2, q3, q4, q5, q6, q7, q8, q9⟩ := e5 k 0 base r hp
  refine ⟨_, chunk, parts, q5, q6, q7, ?_⟩
  intro j f g gx gy c ps h1 h2 hw hcol hne q hq
  have hpt := q9 j _ ps h1 h2
  simp only [Painted, hcol, Bool.false_eq_true, if_false] at hpt
  by_cases ht : Touches (min s t) (max s t) r
  · simp only [ht, if_true, RectPainted] at hpt
    have htile := hpt hw
    simp only [ht, if_true, List.mem_singleton, forall_eq, exists_eq_left, backQuad]
    constructor
    · intro hc
      obtain ⟨a1, a2⟩ := htile.lit hne q hq hc
      simp only at a1 a2
      constructor <;> linarith
    · intro hc
      have hcc : q.color = c := (htile.colors q hq).resolve_left hc
      refine ⟨hcc, ?_⟩
      rcases htile.unlit hne q hq hcc with a1 | a1 <;> simp only at a1
      · left; linarith
      · right; linarith
  · simp only [ht, if_false, RectPainted] at hpt
    subst hpt
    simp only [List.mem_singleton] at hq
    subst hq
    simp only [ht, if_false, List.not_mem_nil, false_and, exists_false, false_imp_iff, implies_true, and_true, imp_false]
    exact hne

/-! ### Lines that start elsewhere -/

/-- Two letters 10 pixels wide on a line. -/
def twoLetters : Option (Layout Nat) := execLayout {} [.run 0 [⟨8, 0, 0, 0⟩, ⟨7, 1, 10, 0⟩] 20 0 0 2 false, .line 10 8]

/-- Black text without decorations. -/
def plainFmt : Fmt Nat Nat := ⟨[(3, 0)], [(3, 0)], [(3, false)], [(3, false)]⟩

/-- Images as wide as the letters; black is 0, white 1, the colour of the selection 2. -/
def boxPainter : Painter Nat Nat Nat :=
  ⟨fun _ _ => ⟨0, -8, 10, 10, unitTex, false⟩, fun _ _ _ => ⟨0, 0, 0, 0, unitTex, false⟩, id, 1, 2⟩

/-- What is drawn for the selection from `s` to `t`: places and colours. -/
def paintTwo (W : Rat) (al : XAlignment) (s t : Nat) : Option (List (Rat × Rat × Nat)) :=
  (twoLetters.bind fun L => paintText L plainFmt.view (fun _ => false) (fun _ => ⟨0, 0, 0, 0⟩) boxPainter 0 0 W al (some s) t).map
    fun qs => qs.map fun q => (q.x, q.x + q.width, q.color)

/-- With the second letter selected, the first is black and the second white. -/
example : paintTwo 30 .left 2 1 = some [(10, 20, 2), (0, 10, 0), (10, 20, 1)] := by decide +kernel

theorem twoLetters_ok : ∃ L ls, twoLetters = some L ∧ Stores L ls [] 0 ∧ RunsOk L ls ∧ plainFmt.Proper ∧ plainFmt.EndsAt 3 ∧
    (∀ r ∈ allRuns ls, (if r.rtl then r.charEnd else r.charStart) < 3) ∧
    placedRuns 30 .left 0 ls = [(0, 8, ⟨0, [⟨8, 0, 0, 0⟩, ⟨7, 1, 10, 0⟩], 20, 0, 0, 2, 0, false⟩)] := by
  obtain ⟨L, e, hs⟩ := C19_stores (φ := Nat) [.run 0 [⟨8, 0, 0, 0⟩, ⟨7, 1, 10, 0⟩] 20 0 0 2 false, .line 10 8] _ rfl
  have hpos : L.pos.length = 6 := by
    have e' : twoLetters.map (fun L => L.pos.length) = some 6 := by decide +kernel
    rw [show twoLetters = some L from e] at e'
    simpa using e'
  refine ⟨L, _, e, hs, ⟨by rw [hpos]; norm_num, ?_⟩, ?_, ⟨rfl, rfl, rfl, rfl⟩, ?_, ?_⟩
  · intro r hr
    simp [allRuns] at hr
    subst hr
    refine ⟨.inl ⟨rfl, ?_, ?_, by simp, by simp, ?_⟩, by norm_num⟩
    · intro i g h hg hh
      rcases i with _ | _ | i <;> simp at hg hh
      subst hg hh
      simp
    · intro g hg
      simp at hg
      subst hg
      rfl
    · intro i a b ha hb
      rcases i with _ | _ | _ | i <;> simp [RunSpec.xs] at ha hb <;> subst ha hb <;> norm_num
  · refine ⟨?_, ?_, ?_, ?_, ?_, ?_⟩
    all_goals (simp [SortedLimits, plainFmt])
  · simp [allRuns]
  · simp [placedRuns, alignedX]

/-- C98 is violated for other alignments: of centred text, the half of the selected letter is
black on blue, and the half of the other one is white. -/
theorem C98_white_violated : paintTwo 30 .center 2 1 =
    some [(15, 25, 2), (5, 10, 0), (10, 15, 1), (20, 25, 0), (15, 20, 1)] := by decide +kernel

/-- C98 is violated for other alignments: of text on the right, nothing selected is white. -/
theorem C98_right_violated : paintTwo 100 .right 0 2 = some [(80, 100, 2), (80, 90, 0), (90, 100, 0)] := by decide +kernel

/-- C98 is violated by an empty selection: behind the first letter, 6.6 pixels wide with an image
of 7 pixels, the last 0.4 pixels of the image are white. -/
theorem C98_empty_violated :
    ((execLayout {} [.run 0 [⟨8, 0, 0, 0⟩, ⟨7, 1, 33 / 5, 0⟩] (66 / 5) 0 0 2 false, .line 10 8]).bind fun L =>
      paintText L plainFmt.view (fun _ => false) (fun _ => ⟨0, 0, 0, 0⟩)
        ⟨fun _ _ => ⟨0, -8, 7, 10, unitTex, false⟩, fun _ _ _ => ⟨0, 0, 0, 0, unitTex, false⟩, id, 1, 2⟩ 0 0 30 .left (some 1) 1).map
      (fun qs => qs.map fun q => (q.x, q.width, q.color)) =
    some [(33 / 5, 0, 2), (0, 33 / 5, 0), (33 / 5, 2 / 5, 1), (33 / 5, 7, 0)] := by decide +kernel

omit [DecidableEq κ] in
/-- C98, text without formatting: one rectangle for each glyph, in order. -/
theorem C98_plain {L : Layout φ} {ls : List (LineSpec φ)} {y : Rat} (h : Stores L ls [] y) (p : Painter φ κ σ)
    (posX posY W : Rat) (al : XAlignment) (color : κ) :
    paintPlain L p posX posY W al color = some ((placedRuns W al y ls).flatMap fun q => q.2.2.glyphs.map fun g =>
      ⟨posX + (q.1 + g.x) + (p.glyph q.2.2.font g.id).offX, posY + (q.2.1 + g.y) + (p.glyph q.2.2.font g.id).offY,
        (p.glyph q.2.2.font g.id).width, (p.glyph q.2.2.font g.id).height, (p.glyph q.2.2.font g.id).tex,
        if (p.glyph q.2.2.font g.id).hasColor then p.white else color⟩) := by
  unfold paintPlain
  rw [C16_plain h W al, Option.map_some, List.flatMap_assoc]
  refine congrArg some (List.flatMap_congr fun q _ => ?_)
  rw [List.flatMap_map]
  simp only [emitRect, ← List.map_eq_flatMap]

end RichText
