import Verif.Props.RichTyping
import Verif.Props.Drawn
import Verif.Props.Rendered
/-!
C143: from the keys pressed to the glyphs drawn.
-/
namespace RichText
open Spec
variable {F β φ : Type}

/-- What is drawn for a document that a text box shows. -/
theorem App.Contract.drawn [DecidableEq (Color F)] {a : App F β φ} {n : Nat} (ha : a.Contract n) {text : Bytes} {o : List (UInt8 × Style F)}
    {runs : FormattingRuns F} (hp : parseInlineFormatting a.parser text a.font a.color a.stroke = .ok (o.map (·.1), runs))
    (hst : ShowsStyles runs o) (hne : o ≠ []) (hlen : o.length < a.limit) {L : Layout φ}
    (hL : buildLayout {} (a.paragraphs (o.map (·.1)) runs) o.length a.yAlign a.height = some L)
    {δ : Type} (key : φ → δ) (hkey : ∀ p ∈ a.paragraphs (o.map (·.1)) runs, ∀ f g, p.env.same f g = true → key f = key g)
    (visible : StrokeState F → Bool) (metrics : φ → FontMetrics) :
    ((drawText L runs.drawView visible metrics a.width a.align).isSome = true ↔
      ∀ r ∈ L.runs, (if r.rtl then r.charEnd else r.charStart) < o.length) ∧
    ∀ out, drawText L runs.drawView visible metrics a.width a.align = some out →
      ∃ qss, List.Forall₂ Paragraph.Parts (a.paragraphs (o.map (·.1)) runs) qss ∧
        (out.filterMap (DrawCall.label key)).Perm ((textOutput key (a.paragraphs (o.map (·.1)) runs) qss).flatMap fun g =>
          ((o[g.2.2]?).map fun x => drawnFor x.2 visible g.1 g.2.1).getD []) ∧
        ∀ g ∈ textOutput key (a.paragraphs (o.map (·.1)) runs) qss, g.2.2 < o.length := by
  have hfit := C07_runs_fit a.parser text a.font a.color a.stroke ha.font _ _ hp
  have hl : (o.map (·.1)).length = o.length := List.length_map ..
  obtain ⟨hP, -, -⟩ := ha.paragraphs (o.map (·.1)) runs (by simpa using hne) (by rw [hl]; exact hlen) hfit
  rw [hl] at hP hfit
  obtain ⟨L', ls, rs, b1, b2, b3, b4, b5⟩ := build_glyphs ({} : Layout φ) _ _ hP a.yAlign a.height
  rw [hL] at b1
  cases b1
  obtain ⟨-, l1, -⟩ := ha.limit
  obtain ⟨d1, d2, d3⟩ := FormattingRuns.fmt_proper hfit (by omega)
  refine ⟨?_, ?_⟩
  · rw [← d3, C14_defined_iff_partial b2 d1 d2, b2.run_iff]
  · intro out hout
    rw [← d3] at hout
    have hn := (C14_defined_iff_partial b2 d1 d2 visible metrics a.width a.align).1 (by rw [hout]; rfl)
    obtain ⟨qss, q1, q2, q3⟩ := b5 key hkey
    obtain ⟨col, stk, str, und, hm⟩ := d1.means
    obtain ⟨out', o1, o2⟩ := drawn_labels b2 d1 d2 hm visible metrics a.width a.align hn key
    rw [hout] at o1; cases o1
    refine ⟨qss, q1, ?_, q3⟩
    rw [o2]
    refine (q2.flatMap_right _).trans (List.Perm.of_eq ?_)
    apply List.flatMap_congr
    intro g hg
    have hc := q3 g hg
    rw [List.getElem?_eq_getElem hc, Option.map_some, Option.getD_some]
    have ec : col g.2.2 = o[g.2.2].2.color := by
      have := hm.color g.2.2
      have e := hst.2.1 g.2.2 (by simpa using hc)
      rw [List.getElem_map] at e
      exact Option.some.inj (this.symm.trans (hfit.2.1.value e))
    have es : stk g.2.2 = o[g.2.2].2.stroke := by
      have := hm.stroke g.2.2
      have e := hst.2.2.1 g.2.2 (by simpa using hc)
      rw [List.getElem_map] at e
      exact Option.some.inj (this.symm.trans (hfit.2.2.1.value e))
    rw [ec, es]
    rfl

/-- C143: characters are typed into a box of rich text, anywhere in its source, and the box is left.  If the source is a document then, the
box shows what the document shows; drawing it is defined exactly if every run is looked up inside the text (see C14), and if it is, then what
HarfBuzz returned for the parts of the paragraphs is drawn, each glyph once, in the colour and with the outline of the tags around its
character. -/
theorem C143_typed [DecidableEq (Color F)] (a : App F β φ) (n : Nat) (ha : a.Contract n) (s : TextBox φ) (hs : TextBox.Editing a.box s)
    (hr : s.rich = true) (cs : List Nat) (hlen : s.text.length + 4 * cs.length < a.limit) (o : List (UInt8 × Style F)) (hne : o ≠ [])
    (hd : Document a.parser (baseStyle a.font a.color a.stroke)
      (s.text.take s.cursor.1 ++ cs.flatMap TextBox.utf8Encode ++ s.text.drop s.cursor.1) o)
    {δ : Type} (key : φ → δ) (hkey : ∀ t runs, ∀ p ∈ a.paragraphs t runs, ∀ f g, p.env.same f g = true → key f = key g)
    (visible : StrokeState F → Bool) (metrics : φ → FontMetrics) :
    ∃ s' runs, TextBox.run a.box s (cs.map .char ++ [.blur]) = some s' ∧ s'.ctrl = o.map (·.1) ∧
      a.formatted true s'.text = .ok (s'.ctrl, runs) ∧
      ((drawText s'.layout runs.drawView visible metrics a.width a.align).isSome = true ↔
        ∀ r ∈ s'.layout.runs, (if r.rtl then r.charEnd else r.charStart) < o.length) ∧
      ∀ out, drawText s'.layout runs.drawView visible metrics a.width a.align = some out →
        ∃ qss, List.Forall₂ Paragraph.Parts (a.paragraphs s'.ctrl runs) qss ∧
          (out.filterMap (DrawCall.label key)).Perm ((textOutput key (a.paragraphs s'.ctrl runs) qss).flatMap fun g =>
            ((o[g.2.2]?).map fun x => drawnFor x.2 visible g.1 g.2.1).getD []) ∧
          ∀ g ∈ textOutput key (a.paragraphs s'.ctrl runs) qss, g.2.2 < o.length := by
  obtain ⟨s1, r1, r2, r3, r4⟩ := TextBox.Editing.types (C89_good a n ha) cs hs hlen
  rw [← r4] at hd
  obtain ⟨runs, e1, e2⟩ := C10_documents a.parser s1.text a.font a.color a.stroke ha.font o hd
  obtain ⟨s2, b1, b2, b3, b4⟩ := r2.leave ha (r3.trans hr) e1
  have hl : (o.map (·.1)).length = o.length := List.length_map ..
  have hL := b4 (by simpa using hne)
  rw [hl] at hL
  have hlim : o.length < a.limit := by
    have h1 := C77_length _ _ _ _ _ ha.font _ e1
    have h2 : s1.text.length < a.limit := r2.sound.small
    simp only [hl] at h1
    omega
  refine ⟨s2, runs, by rw [TextBox.run_append, r1]; exact b1, b2, ?_, ?_⟩
  · rw [b3, b2]; exact e1
  · rw [b2]
    exact ha.drawn e1 e2 hne hlim hL key (hkey _ _) visible metrics

/-- C143: the same after any history.  A box was given a text and then any inputs.  If it shows rich text (it is not being edited) and its source is
a document, then with the layout and the formatting it has kept is drawn what HarfBuzz returned, each glyph once, in the style of its tags. -/
theorem C143_history [DecidableEq (Color F)] (a : App F β φ) (n : Nat) (ha : a.Contract n) {s0 s s' : TextBox φ} {f0 f f' : FormattingRuns F}
    (hset : a.recalcF s0 f0 = some (f, s)) (is : List TextBox.Input) (hrun : a.runF s is f = some (f', s')) (hrich : s'.showsRich = true)
    (hlen : s'.text.length < a.limit) (o : List (UInt8 × Style F)) (hne : o ≠ [])
    (hd : Document a.parser (baseStyle a.font a.color a.stroke) s'.text o)
    {δ : Type} (key : φ → δ) (hkey : ∀ t runs, ∀ p ∈ a.paragraphs t runs, ∀ f g, p.env.same f g = true → key f = key g)
    (visible : StrokeState F → Bool) (metrics : φ → FontMetrics) :
    s'.ctrl = o.map (·.1) ∧
    ((drawText s'.layout f'.drawView visible metrics a.width a.align).isSome = true ↔
      ∀ r ∈ s'.layout.runs, (if r.rtl then r.charEnd else r.charStart) < o.length) ∧
    ∀ out, drawText s'.layout f'.drawView visible metrics a.width a.align = some out →
      ∃ qss, List.Forall₂ Paragraph.Parts (a.paragraphs s'.ctrl f') qss ∧
        (out.filterMap (DrawCall.label key)).Perm ((textOutput key (a.paragraphs s'.ctrl f') qss).flatMap fun g =>
          ((o[g.2.2]?).map fun x => drawnFor x.2 visible g.1 g.2.1).getD []) ∧
        ∀ g ∈ textOutput key (a.paragraphs s'.ctrl f') qss, g.2.2 < o.length := by
  have hs := App.C141_shows a hset is hrun
  obtain ⟨runs, e1, e2⟩ := C10_documents a.parser s'.text a.font a.color a.stroke ha.font o hd
  have hc := hs.content
  rw [hrich] at hc
  have hc : parseInlineFormatting a.parser s'.text a.font a.color a.stroke = .ok (s'.ctrl, f') := hc
  rw [e1] at hc
  have h0 : o.map (·.1) = s'.ctrl ∧ runs = f' := by injection hc with hc; exact Prod.mk.inj hc
  obtain ⟨h1, rfl⟩ := h0
  have hl : (o.map (·.1)).length = o.length := List.length_map ..
  have hL := hs.layout (by rw [← h1]; simpa using hne)
  rw [← h1, hl] at hL
  have hlim : o.length < a.limit := by
    have h1 := C77_length _ _ _ _ _ ha.font _ e1
    simp only [hl] at h1
    omega
  rw [← h1]
  exact ⟨rfl, ha.drawn e1 e2 hne hlim hL key (hkey _ _) visible metrics⟩

/-! The hypotheses are met: in the box of C140, with `<u>a</u>z` being edited and the cursor behind the `a`, a `b` in another colour is typed. -/

def redB : Bytes := b!"<font color=\"#FF0010\">b</font>"

example : TextBox.Editing demoApp.box editingBox ∧ editingBox.rich = true ∧ editingBox.text.length + 4 * (redB.map (·.toNat)).length < demoApp.limit :=
  ⟨editingBox_editing, rfl, by decide +kernel⟩

example : Document demoApp.parser (baseStyle demoApp.font demoApp.color demoApp.stroke)
    (editingBox.text.take editingBox.cursor.1 ++ (redB.map (·.toNat)).flatMap TextBox.utf8Encode ++ editingBox.text.drop editingBox.cursor.1)
    [(c!"a", (baseStyle toyFont toyColor toyStroke).on .underline),
     (c!"b", { (baseStyle toyFont toyColor toyStroke).on .underline with color := ⟨255, 0, 16, 255⟩ }),
     (c!"z", baseStyle toyFont toyColor toyStroke)] := by
  have e : (redB.map (·.toNat)).flatMap TextBox.utf8Encode = redB := by decide +kernel
  rw [e]
  refine ⟨_, .inl rfl, .tag (op := b!"<u>") (inner := b!"a<font color=\"#FF0010\">b</font>") (m := b!"z") (oi := [_, _]) (o := [_]) .u
    (.char c!"a" (by decide) (by decide) (.tag (op := b!"<font color=\"#FF0010\">") (inner := b!"b") (m := []) (oi := [_]) (o := [])
      (Tag.font b!" color=\"#FF0010\"" _ (.cons (a := b!" ") .space (.cons (m := []) (.color b!"#FF0010" _
        (.hex _ _ _ _ _ _ 15 15 0 0 1 0 (by decide) (by decide) (by decide) (by decide) (by decide) (by decide))) .nil)))
      (.char c!"b" (by decide) (by decide) (.nil _)) (.nil _)))
    (.char c!"z" (by decide) (by decide) (.nil _))⟩

/-- What is drawn then: `abz`, the `b` in its colour (amounts of red and blue). -/
example : (TextBox.run demoApp.box editingBox ((redB.map (·.toNat)).map .char ++ [.blur])).bind (fun s =>
    (demoApp.formatted true s.text).toOption.bind fun r => (drawText s.layout r.2.drawView (fun _ => false) (fun _ => ⟨1, 1, 1, 1⟩)
      demoApp.width demoApp.align).map fun out => (s.ctrl, (out.filterMap DrawCall.glyph?).map fun g => (g.2.1, g.2.2.2.2.r, g.2.2.2.2.b))) =
    some (b!"abz", [(100, 0, 0), (101, 255, 16), (102, 0, 0)]) := by
  decide +kernel

/-- The hypotheses of `C143_history`: markup typed into an empty box of rich text, edited with the pointer and left. -/
example : ((demoApp.recalcF { rich := true } App.noFormat).bind fun r => demoApp.runF r.2 ([.focus] ++ (b!"<u>ab</u>".map fun c => TextBox.Input.char c.toNat) ++
      [.press 4 2 false 0, .release, .char 120, .blur]) r.1).map (fun r => (r.2.text, r.2.ctrl, r.2.showsRich, r.2.layout.glyphs.length)) =
    some (b!"<u>axb</u>", b!"axb", true, 3) := by decide +kernel

end RichText
