import Verif.Proof.Drawn
/-!
C117: what is drawn for a marked-up text.
-/
namespace RichText
open Spec
variable {β φ : Type _}

/-- C117 (partial: for texts that can be drawn).  From markup to what is drawn, through the parser, the run iterators, the
layout builder and the drawing: every document of the grammar is parsed and laid out, whatever the layout held before.
Drawing it is defined if and only if every left-to-right run starts, and every right-to-left run ends, before the end of
the text (C14 shows that this can fail).  If it is, then what HarfBuzz returned for the parts of the paragraphs
(`C117_parts`) is drawn, each glyph exactly once, in a font that compares equal to the one it was shaped with (`key` is
anything such fonts have in common, face and size for instance), in the colour that the tags around its character give,
with the outline they give if that can be seen, and nothing else is drawn as a glyph or outline. -/
theorem C117_document_partial {F : Type} [DecidableEq (Color F)] (env : Env F) (text : List UInt8) (font : Font) (color : Color F) (stroke : StrokeState F)
    (hf : ProperFont font) (o : List (UInt8 × Style F)) (hdoc : Document env (baseStyle font color stroke) text o) (hne : o ≠ [])
    (l : TextLibs φ) (limit k : Nat) (hl : l.Contract limit k) (hlt : o.length < limit) (hlim : limit ≤ 2147483648)
    {δ : Type} (key : φ → δ) (hkey : ∀ t s n f g, (l.env t s n).same f g = true → key f = key g)
    (L : Layout φ) (yAlign : YAlignment) (W H : Rat) (al : XAlignment) (visible : StrokeState F → Bool) (metrics : φ → FontMetrics) :
    ∃ runs L', parseInlineFormatting env text font color stroke = .ok (o.map (·.1), runs) ∧
      buildLayout L (l.paragraphs (o.map (·.1)) runs) o.length yAlign H = some L' ∧
      ((drawText L' runs.drawView visible metrics W al).isSome = true ↔
        ∀ r ∈ L'.runs, (if r.rtl then r.charEnd else r.charStart) < o.length) ∧
      ∀ out, drawText L' runs.drawView visible metrics W al = some out →
        ∃ qss, List.Forall₂ Paragraph.Parts (l.paragraphs (o.map (·.1)) runs) qss ∧
          (out.filterMap (DrawCall.label key)).Perm ((textOutput key (l.paragraphs (o.map (·.1)) runs) qss).flatMap fun g =>
            ((o[g.2.2]?).map fun x => drawnFor x.2 visible g.1 g.2.1).getD []) ∧
          ∀ g ∈ textOutput key (l.paragraphs (o.map (·.1)) runs) qss, g.2.2 < o.length := by
  obtain ⟨runs, h1, h2⟩ := C10_documents env text font color stroke hf o hdoc
  have hfit := C07_runs_fit env text font color stroke hf _ _ h1
  have hlen : (o.map (·.1)).length = o.length := List.length_map ..
  obtain ⟨hP, hPl, -⟩ := C91_paragraphs l limit k hl (o.map (·.1)) (by simpa using hne) (by rw [hlen]; exact hlt) runs hfit
  rw [hlen] at hP hfit
  obtain ⟨L', ls, rs, b1, b2, b3, b4, b5⟩ := build_glyphs L _ _ hP yAlign H
  obtain ⟨d1, d2, d3⟩ := FormattingRuns.fmt_proper hfit (by omega)
  refine ⟨runs, L', h1, b1, ?_, ?_⟩
  · rw [← d3, C14_defined_iff_partial b2 d1 d2, b2.run_iff]
  · intro out hout
    rw [← d3] at hout
    have hn := (C14_defined_iff_partial b2 d1 d2 visible metrics W al).1 (by rw [hout]; rfl)
    obtain ⟨qss, q1, q2, q3⟩ := b5 key (by
      intro p hp
      obtain ⟨pre, q, post, -, -, -, e, -⟩ := TextLibs.layOut_mem _ _ _ hp
      rw [e]
      exact hkey _ _ _)
    obtain ⟨col, stk, str, und, hm⟩ := d1.means
    obtain ⟨out', o1, o2⟩ := drawn_labels b2 d1 d2 hm visible metrics W al hn key
    rw [hout] at o1; cases o1
    refine ⟨qss, q1, ?_, q3⟩
    rw [o2]
    refine (q2.flatMap_right _).trans (List.Perm.of_eq ?_)
    apply List.flatMap_congr
    intro g hg
    have hc := q3 g hg
    rw [List.getElem?_eq_getElem hc, Option.map_some, Option.getD_some]
    have ec : col g.2.2 = o[g.2.2].2.color := by
      have := hm.color g.2.2
      have e := h2.2.1 g.2.2 (by simpa using hc)
      rw [List.getElem_map] at e
      exact Option.some.inj (this.symm.trans (hfit.2.1.value e))
    have es : stk g.2.2 = o[g.2.2].2.stroke := by
      have := hm.stroke g.2.2
      have e := h2.2.2.1 g.2.2 (by simpa using hc)
      rw [List.getElem_map] at e
      exact Option.some.inj (this.symm.trans (hfit.2.2.1.value e))
    rw [ec, es]
    rfl


/-- C117: the parts that are shaped at once divide the text of a paragraph; all characters of a part have, from the tags
around them, the font, small capitals, subscript and superscript that it is shaped with, and its level. -/
theorem C117_parts {F : Type} (env : Env F) (text : List UInt8) (font : Font) (color : Color F) (stroke : StrokeState F)
    (hf : ProperFont font) (o : List (UInt8 × Style F)) (hdoc : Document env (baseStyle font color stroke) text o) (hne : o ≠ [])
    (l : TextLibs φ) (limit k : Nat) (hl : l.Contract limit k) (hlt : o.length < limit) :
    ∃ runs, parseInlineFormatting env text font color stroke = .ok (o.map (·.1), runs) ∧
      ∀ p ∈ l.paragraphs (o.map (·.1)) runs, 0 < p.length - p.separator → ∀ qs, p.Parts qs →
        Consecutive (p.env.line.start + (p.length - p.separator)) p.env.line.start (qs.map fun q => (q.first, q.stop)) ∧
        ∀ q ∈ qs, ∀ i, q.first ≤ i → i < q.stop → ∃ h : i < o.length,
          q.args.font = o[i].2.font ∧ q.args.smallcaps = o[i].2.flag .smallcaps ∧
          q.args.subscript = o[i].2.flag .subscript ∧ q.args.superscript = o[i].2.flag .superscript ∧
          (l.levels (o.map (·.1)) p.env.line.start (p.length - p.separator))[i - p.env.line.start]? = some q.args.level := by
  obtain ⟨runs, h1, -, h3⟩ := document_call env text font color stroke hf o hdoc l limit k hl hlt hne
  refine ⟨runs, h1, ?_⟩
  intro p hp h0 qs hq
  obtain ⟨s, hs, hn, hle, hOK, hcall⟩ := h3 p hp h0
  unfold Paragraph.Parts at hq
  rw [if_pos h0] at hq
  subst hs
  have hc := hOK.calls
  rw [hn] at hc
  have hcov := hq.covers hOK.contract hc (by omega)
  refine ⟨hcov, ?_⟩
  intro q hm i hi hi'
  obtain ⟨a, b⟩ := (hq.spec hOK.contract).1 q hm
  obtain ⟨lim, hfind⟩ := b i hi hi'
  have hst := (hcov.mem _ (List.mem_map_of_mem hm)).2.2
  simp only at hst
  have hio : i < o.length := by omega
  obtain ⟨lim', v, k1, k2, k3, k4, k5, k6, -⟩ := hcall i hio (by omega) (by omega)
  rw [hfind] at k1
  cases k1
  exact ⟨hio, k2, k3, k4, k5, k6⟩

/-- C117: left-to-right text without a separator at its end can always be drawn, so all its glyphs are drawn as C117 says. -/
theorem C117_ltr {F : Type} [DecidableEq (Color F)] (env : Env F) (text : List UInt8) (font : Font) (color : Color F) (stroke : StrokeState F)
    (hf : ProperFont font) (o : List (UInt8 × Style F)) (hdoc : Document env (baseStyle font color stroke) text o) (hne : o ≠ [])
    (l : TextLibs φ) (limit k : Nat) (hl : l.Contract limit k) (hlt : o.length < limit) (hlim : limit ≤ 2147483648)
    (hltr : ∀ s n, l.HasText (o.map (·.1)) s n → (l.env (o.map (·.1)) s n).Ltr)
    (hsep : ∀ b, (l.bounds (o.map (·.1))).getLast? = some b → b.2 = 0)
    {δ : Type} (key : φ → δ) (hkey : ∀ t s n f g, (l.env t s n).same f g = true → key f = key g)
    (L : Layout φ) (yAlign : YAlignment) (W H : Rat) (al : XAlignment) (visible : StrokeState F → Bool) (metrics : φ → FontMetrics) :
    ∃ runs L' out, parseInlineFormatting env text font color stroke = .ok (o.map (·.1), runs) ∧
      buildLayout L (l.paragraphs (o.map (·.1)) runs) o.length yAlign H = some L' ∧
      drawText L' runs.drawView visible metrics W al = some out ∧
      ∃ qss, List.Forall₂ Paragraph.Parts (l.paragraphs (o.map (·.1)) runs) qss ∧
        (out.filterMap (DrawCall.label key)).Perm ((textOutput key (l.paragraphs (o.map (·.1)) runs) qss).flatMap fun g =>
          ((o[g.2.2]?).map fun x => drawnFor x.2 visible g.1 g.2.1).getD []) ∧
        ∀ g ∈ textOutput key (l.paragraphs (o.map (·.1)) runs) qss, g.2.2 < o.length := by
  obtain ⟨runs, L', h1, h2, h3, h4⟩ := C117_document_partial env text font color stroke hf o hdoc hne l limit k hl hlt hlim
    key hkey L yAlign W H al visible metrics
  have hfit := C07_runs_fit env text font color stroke hf _ _ h1
  have hlen : (o.map (·.1)).length = o.length := List.length_map ..
  obtain ⟨hP, hPl, -⟩ := C91_paragraphs l limit k hl (o.map (·.1)) (by simpa using hne) (by rw [hlen]; exact hlt) runs hfit
  rw [hlen] at hP
  obtain ⟨L2, body, y, b1, b2, b3, b4, b5, b6⟩ := build_spec L _ _ hP hPl yAlign H
  rw [h2] at b1; cases b1
  have hp := b6 (by
    intro p hp h0
    obtain ⟨pre, q, post, e0, e1, e2, e3, -, -, -, bpre, b, bpost, g1, g2, g3, g4⟩ := TextLibs.layOut_mem _ _ _ hp
    rw [e3]
    refine hltr _ _ ⟨by omega, bpre, b, bpost, g1, by rw [g2]; omega, by rw [g3, g4]⟩)
  have hfin : finalLines (l.paragraphs (o.map (·.1)) runs) o.length = [] := by
    have hmap : ∀ (bs : List (Nat × Nat)) (start : Nat) (css : List (List (ParaCall RunValue Int))),
        (l.layOut (o.map (·.1)) runs.font bs start css).map (·.separator) = bs.map (·.2) := by
      intro bs
      induction bs with
      | nil => intro _ _; rfl
      | cons b t ih => intro start css; simp only [TextLibs.layOut, List.map_cons, ih]
    unfold finalLines
    cases hg : (l.paragraphs (o.map (·.1)) runs).getLast? with
    | none => rfl
    | some p =>
      have h0 : ((l.bounds (o.map (·.1))).map (·.2)).getLast? = some p.separator := by
        rw [← hmap (l.bounds (o.map (·.1))) 0 _, List.getLast?_map]
        exact congrArg (Option.map (·.separator)) hg
      rw [List.getLast?_map] at h0
      obtain ⟨b, hb, hb'⟩ := Option.map_eq_some_iff.1 h0
      have := hsep b hb
      simp only
      rw [if_neg (by omega)]
  rw [hfin, List.append_nil] at b2
  have hd := h3.2 (by
    rw [b2.run_iff]
    intro r hr
    rw [hp.ltr r hr]
    have := (hp.cons.mem _ (List.mem_map_of_mem hr)).2
    simp only [RunSpec.range] at this
    simp only [Bool.false_eq_true, if_false]
    omega)
  obtain ⟨out, hout⟩ := Option.isSome_iff_exists.1 hd
  exact ⟨runs, L', out, h1, h2, hout, h4 out hout⟩

/-- C117: the formatting that a document is drawn with is what C13-C17 ask for (run lists that are in order and end with the
text), and gives every character the colour, outline, strikethrough and underline of the tags around it.  So what C15 and
C17 say on decorations holds for documents. -/
theorem C117_formatting {F : Type} (env : Env F) (text : List UInt8) (font : Font) (color : Color F) (stroke : StrokeState F)
    (hf : ProperFont font) (o : List (UInt8 × Style F)) (hdoc : Document env (baseStyle font color stroke) text o)
    (hlim : o.length < 2147483648) :
    ∃ runs, ∃ d : Fmt (Color F) (StrokeState F), parseInlineFormatting env text font color stroke = .ok (o.map (·.1), runs) ∧
      runs.drawView = d.view ∧ d.Proper ∧ d.EndsAt o.length ∧ ∀ (c : Nat) (h : c < o.length),
        valueAt d.color c = some o[c].2.color ∧ valueAt d.stroke c = some o[c].2.stroke ∧
        valueAt d.strike c = some (o[c].2.flag .strikethrough) ∧ valueAt d.underline c = some (o[c].2.flag .underline) := by
  obtain ⟨runs, h1, h2⟩ := C10_documents env text font color stroke hf o hdoc
  have hfit := C07_runs_fit env text font color stroke hf _ _ h1
  rw [List.length_map] at hfit
  obtain ⟨d1, d2, d3⟩ := FormattingRuns.fmt_proper hfit hlim
  refine ⟨runs, runs.fmt, h1, d3.symm, d1, d2, ?_⟩
  intro c h
  have key : ∀ {α : Type} {r : ValueRuns α} {f : UInt8 × Style F → α}, RunsFit r o.length → ShowsValues r (o.map f) →
      valueAt (r.limits.zip r.values) c = some (f o[c]) := by
    intro α r f hr hs
    have := hs c (by simpa using h)
    rw [List.getElem_map, hr.holds.shows.getValue hr.sorted.1] at this
    exact this
  exact ⟨key hfit.2.1 h2.2.1, key hfit.2.2.1 h2.2.2.1, key (hfit.2.2.2 _) (h2.2.2.2 _), key (hfit.2.2.2 _) (h2.2.2.2 _)⟩

/-! ### A text with all of it -/

/-- Parse, lay out and draw a text with the toy libraries. -/
def drawToy (text : Bytes) (visible : StrokeState Nat → Bool) : Option (Option (List (DrawCall SingleScriptFont (Color Nat) (StrokeState Nat)))) :=
  (parseInlineFormatting toyEnv text toyFont toyColor toyStroke).toOption.bind fun r =>
    (buildLayout {} (plainLibs.paragraphs r.1 r.2) r.1.length .top 50).map fun L' =>
      drawText L' r.2.drawView visible (fun _ => ⟨1, 1, 1, 1⟩) 100 .left

/-- The hypotheses of C117 for "ab\nc", where "b" is in another face and colour: a document, libraries that meet the
contracts, text from left to right and no separator at the end. -/
example : ∃ o, Document toyEnv (baseStyle toyFont toyColor toyStroke) b!"a<font face=\"Sans\" color=\"#FF0010\">b</font>\nc" o ∧
    o.length = 4 ∧ plainLibs.Contract 100 1 ∧ (∀ s n, plainLibs.HasText (o.map (·.1)) s n → (plainLibs.env (o.map (·.1)) s n).Ltr) ∧
    (∀ b, (plainLibs.bounds (o.map (·.1))).getLast? = some b → b.2 = 0) ∧
    ∀ t s n f g, (plainLibs.env t s n).same f g = true → (f.face.handle, f.size) = (g.face.handle, g.size) := by
  refine ⟨[(c!"a", baseStyle toyFont toyColor toyStroke),
     (c!"b", { baseStyle toyFont toyColor toyStroke with font := Font.make 1 3 .normal 16, color := ⟨255, 0, 16, 255⟩ }),
     (10, baseStyle toyFont toyColor toyStroke), (c!"c", baseStyle toyFont toyColor toyStroke)], ?_, rfl,
    plainLibs_contract _, ?_, by decide, ?_⟩
  · refine ⟨_, .inl rfl, .char _ (by decide) (by decide) ?_⟩
    refine .tag (op := b!"<font face=\"Sans\" color=\"#FF0010\">") (inner := b!"b") (m := b!"\nc")
      (oi := [_]) (o := [_, _])
      (Tag.font b!" face=\"Sans\" color=\"#FF0010\"" _
      (.cons (a := b!" ") .space (.cons (a := b!"face=\"Sans\"") (.face b!"Sans" ?_ ?_ ?_)
        (.cons (a := b!" ") .space (.cons (m := []) (.color b!"#FF0010" _
          (.hex _ _ _ _ _ _ 15 15 0 0 1 0 (by decide) (by decide) (by decide) (by decide)
      (by decide) (by decide))) .nil))))) ?_ ?_
    · unfold Quoted; decide
    · decide
    · decide
    · exact .char _ (by decide) (by decide) (.nil _)
    · exact .char _ (by decide) (by decide) (.char _ (by decide) (by decide) (.nil _))
  · intro s n _ a b h1 h2 h3
    exact ⟨⟨rfl, by simp [BidiRun.range]; omega, show a + (b - a) = b by omega⟩, by simp [plainLibs, plainEnv]⟩
  · intro t s n f g h
    have h : SingleScriptFont.same f g = true := h
    simp only [SingleScriptFont.same, Bool.and_eq_true, beq_iff_eq] at h
    rw [h.1.1.1, h.2]

/-- What is drawn for it: two glyphs in the first face, one in the second face and in its colour (amount of red). -/
example : (drawToy b!"a<font face=\"Sans\" color=\"#FF0010\">b</font>\nc" (fun _ => false)).map
      (fun r => r.map fun out => (out.filterMap DrawCall.glyph?).map fun g => (g.1.face.handle.toNat, g.2.1, g.2.2.2.2.r)) =
    some (some [(0, 100, 0), (1, 101, 255), (0, 103, 0)]) := by
  decide +kernel

/-- C117 fails for a text with a separator at its end: it is parsed and laid out, but drawing it reads a run behind the
last one. -/
theorem C117_violated : ∃ o runs L', Document toyEnv (baseStyle toyFont toyColor toyStroke) b!"a\n" o ∧ plainLibs.Contract 100 1 ∧
    parseInlineFormatting toyEnv b!"a\n" toyFont toyColor toyStroke = .ok (o.map (·.1), runs) ∧
    buildLayout {} (plainLibs.paragraphs (o.map (·.1)) runs) o.length .top 50 = some L' ∧
    drawText L' runs.drawView (fun _ => true) (fun _ => ⟨1, 1, 1, 1⟩) 100 .left = none := by
  have hdoc : Document toyEnv (baseStyle toyFont toyColor toyStroke) b!"a\n"
      [(c!"a", baseStyle toyFont toyColor toyStroke), (10, baseStyle toyFont toyColor toyStroke)] :=
    ⟨_, .inl rfl, .char _ (by decide) (by decide) (.char _ (by decide) (by decide) (.nil _))⟩
  obtain ⟨runs, L', h1, h2, -⟩ := C117_document_partial toyEnv _ toyFont toyColor toyStroke ⟨0, 3, .normal, 16, by decide, rfl⟩ _ hdoc
    (by simp) plainLibs 100 1 (plainLibs_contract _) (by decide) (by decide) (fun _ => ()) (fun _ _ _ _ _ _ => rfl) {} .top 100 50
    .left (fun _ => true) (fun _ => ⟨1, 1, 1, 1⟩)
  refine ⟨_, runs, L', hdoc, plainLibs_contract _, h1, h2, ?_⟩
  have h3 : drawToy b!"a\n" (fun _ => true) = some none := by decide +kernel
  unfold drawToy at h3
  rw [h1] at h3
  simp only [Except.toOption, Option.bind_some] at h3
  rw [show (List.map (fun x : UInt8 × Style Nat => x.1) [(c!"a", baseStyle toyFont toyColor toyStroke), (10, baseStyle toyFont toyColor toyStroke)]).length = 2 from rfl] at h3
  rw [show [(c!"a", baseStyle toyFont toyColor toyStroke), (10, baseStyle toyFont toyColor toyStroke)].length = 2 from rfl] at h2
  rw [h2] at h3
  exact Option.some.inj h3

end RichText
