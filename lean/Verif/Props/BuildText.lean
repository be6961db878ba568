import Verif.Proof.BuildTextAll
import Verif.Props.Drawn
import Verif.Props.ParagraphFonts
/-!
C122: all of `build_layout_info` as a thread runs it.
-/
namespace RichText
open Spec
namespace BuildLibs

/-- **C122, text.**  In any thread whose blanks were measured at sizes above zero, whatever fonts it has used before, a text is laid
out, and as the properties of the builder say (C31, C37, C67, C91, C117): the layout is that of libraries that keep their contracts.
With these, each piece of text is shaped by HarfBuzz with the file and at the size of the font that `get_sub_font` gives in a fresh
thread, and has the ascent and descent of that file at that size; only tabs get a blank that depends on the thread.  Missing: faces
that cannot be loaded (`C120_unloadable_violated`), small caps whose capitals have another length (C74), vertical text, and threads
that measured a blank at size zero (`C122_blank_violated`). -/
theorem C122_text_partial {F : Type} (b : BuildLibs) (starts : Bytes → Nat → Nat → Nat → Prop) (limit k : Nat)
    (hb : b.Proper starts limit k) (text : Bytes) (hne : text ≠ []) (hlt : text.length < limit) (runs : FormattingRuns F)
    (hfit : AllRunsFit runs text.length) (hs : b.Serves starts k text runs) (L : Layout SingleScriptFont) (yAlign : YAlignment)
    (H : Rat) (t : FontThread) (ht : FontRun b.lib b.reg t) (hbl : Blanks b.lib t) :
    ∃ t' L' space, b.buildTextT L text runs yAlign H t = some (t', L') ∧ FontRun b.lib b.reg t' ∧ Blanks b.lib t' ∧
      (∀ h o, t'.cache.lookup h = some o → o.spaceAdvance = space h) ∧ (b.libs starts k space).Contract limit k ∧
      buildLayout L ((b.libs starts k space).paragraphs text runs) text.length yAlign H = some L' ∧
      ∀ q ∈ b.plan text runs, 0 < q.length - q.separator → ∀ lim v, (lim, v) ∈ q.calls → ∀ i, q.start ≤ i → i < lim →
        ∃ u out new file eff gs, getSubFont b.lib b.reg .init v.font (b.chars text i lim) i lim v.script v.smallcaps v.subscript
            v.superscript = some (u, out, new) ∧ b.reg.Loads b.lib out.face file ∧
          effectiveSize v.font.size.toNat out.syntheticSmallCaps (v.subscript || v.superscript) = some eff ∧ 0 < eff ∧
          shapeGlyphs (fun _ => b.hb file eff true) ⟨text, q.start, q.length - q.separator, b.upper⟩ out (i - q.start) (new - i) v.script
            (v.level % 2 == 1) b.vertical = some gs ∧
          ((b.libs starts k space).env text q.start (q.length - q.separator)).subFont v i lim = (out, new) ∧
          ((b.libs starts k space).env text q.start (q.length - q.separator)).shape out v i new = gs ∧
          ((b.libs starts k space).env text q.start (q.length - q.separator)).metrics out =
            b.fontMetrics file eff (v.subscript || v.superscript) := by
  obtain ⟨t', L', h1, h2, h3⟩ := buildTextT_spec hb hne hlt hfit hs L yAlign H ht hbl
  obtain ⟨space, c1, c2⟩ := hb.space h2.run (h2.blanks hbl)
  refine ⟨t', L', space, h1, h2.run, h2.blanks hbl, c1, hb.contract c2.pos, h3 space c1 c2, ?_⟩
  intro q hq h0 lim v hm i hi hlt'
  have hp := hs.proper q hq h0
  obtain ⟨u, out, new, file, eff, gs, g1, g2, g3, g4, g5, g6, _⟩ := hp.run hm hlt' hi space
  obtain ⟨_, _, a3, a4, _⟩ := hp.args _ hm
  obtain ⟨e, he, hpos⟩ := effective_pos a3 a4 out.syntheticSmallCaps (v.subscript || v.superscript)
  have hee : eff = e := Option.some.inj (g3.symm.trans he)
  subst hee
  obtain ⟨c1', c2', c3', c4', c5', c6', c7', c8', _⟩ := C45_carries _ _ _ _ _ _ _ _ _ _ _ _ _ _ g1
  refine ⟨u, out, new, file, eff, gs, g1, g2, g3, hpos, g4, g5, ?_, ?_⟩
  · obtain ⟨e, he', hsp⟩ := c2.eq _ _ g2
    have fine := hs.fine q hq h0 lim v hm i hi hlt' u out new file g1 g2 e he'
    rw [← hsp] at fine
    have g6' : (if OrderedClusters (v.level % 2 == 1) (new - i) ((b.para text q.start (q.length - q.separator)).glyphs out v i new) then
        (b.para text q.start (q.length - q.separator)).glyphs out v i new else []) = gs := g6
    rw [if_pos fine.ordered] at g6'
    simp only [libs, env]
    rw [if_pos fine, g6']
  · show b.metricsOf out = _
    rw [metricsOf_good g2 (eff := eff) (by
      show effectiveSize out.size.toNat out.syntheticSmallCaps (out.syntheticSubscript || out.syntheticSuperscript) = some eff
      rw [c1', c7', c8']; exact g3), c7', c8']

/-- **C122, history.**  In text without tabs the layout does not depend on what the thread has done before. -/
theorem C122_history_partial {F : Type} (b : BuildLibs) (starts : Bytes → Nat → Nat → Nat → Prop) (limit k : Nat)
    (hb : b.Proper starts limit k) (text : Bytes) (hne : text ≠ []) (hlt : text.length < limit) (runs : FormattingRuns F)
    (hfit : AllRunsFit runs text.length) (hs : b.Serves starts k text runs) (L : Layout SingleScriptFont) (yAlign : YAlignment)
    (H : Rat) (hno : ∀ i : Nat, text[i]? ≠ some 9) (t u : FontThread) (ht : FontRun b.lib b.reg t) (hbt : Blanks b.lib t)
    (hu : FontRun b.lib b.reg u) (hbu : Blanks b.lib u) :
    ∃ t' u' L', b.buildTextT L text runs yAlign H t = some (t', L') ∧ b.buildTextT L text runs yAlign H u = some (u', L') := by
  obtain ⟨t', L', h1, h2, h3⟩ := buildTextT_spec hb hne hlt hfit hs L yAlign H ht hbt
  obtain ⟨u', M', k1, k2, k3⟩ := buildTextT_spec hb hne hlt hfit hs L yAlign H hu hbu
  obtain ⟨x, c1, c2⟩ := hb.space h2.run (h2.blanks hbt)
  obtain ⟨y, d1, d2⟩ := hb.space k2.run (k2.blanks hbu)
  have e1 := h3 x c1 c2
  have e2 := k3 y d1 d2
  unfold buildLayout at e1 e2
  rw [libs_paragraphs] at e1 e2
  rw [paragraphsOps_tabless hno c2 d2 _ _ _ (hs.planOK hb hne hlt hfit)] at e1
  rw [e1] at e2
  cases e2
  exact ⟨t', u', L', h1, k1⟩

/-- **C122, document.**  From markup to what is drawn, in any thread: the glyphs drawn, with their fonts and styles, are those of
HarfBuzz for the characters of the document, each in the style the markup gives its character (C117), for the fonts of the registry.
Missing as for `C122_text_partial` and `C117_document_partial`. -/
theorem C122_document_partial {F : Type} [DecidableEq (Color F)] (b : BuildLibs) (starts : Bytes → Nat → Nat → Nat → Prop)
    (limit k : Nat) (hb : b.Proper starts limit k) (hlim : limit ≤ 2147483648) (env : Env F) (text : List UInt8) (font : Font)
    (color : Color F) (stroke : StrokeState F) (hf : ProperFont font) (o : List (UInt8 × Style F))
    (hdoc : Document env (baseStyle font color stroke) text o) (hne : o ≠ []) (hlt : o.length < limit)
    (hs : ∀ runs, parseInlineFormatting env text font color stroke = .ok (o.map (·.1), runs) → b.Serves starts k (o.map (·.1)) runs)
    {δ : Type} (key : SingleScriptFont → δ) (hkey : ∀ f g, SingleScriptFont.same f g = true → key f = key g)
    (L : Layout SingleScriptFont) (yAlign : YAlignment) (W H : Rat) (al : XAlignment) (visible : StrokeState F → Bool)
    (metrics : SingleScriptFont → FontMetrics) (t : FontThread) (ht : FontRun b.lib b.reg t) (hbl : Blanks b.lib t) :
    ∃ runs t' L' space, parseInlineFormatting env text font color stroke = .ok (o.map (·.1), runs) ∧
      b.buildTextT L (o.map (·.1)) runs yAlign H t = some (t', L') ∧ FontRun b.lib b.reg t' ∧
      (b.libs starts k space).Contract limit k ∧
      ((drawText L' runs.drawView visible metrics W al).isSome = true ↔
        ∀ r ∈ L'.runs, (if r.rtl then r.charEnd else r.charStart) < o.length) ∧
      ∀ out, drawText L' runs.drawView visible metrics W al = some out →
        ∃ qss, List.Forall₂ Paragraph.Parts ((b.libs starts k space).paragraphs (o.map (·.1)) runs) qss ∧
          (out.filterMap (DrawCall.label key)).Perm
            ((textOutput key ((b.libs starts k space).paragraphs (o.map (·.1)) runs) qss).flatMap fun g =>
              ((o[g.2.2]?).map fun x => drawnFor x.2 visible g.1 g.2.1).getD []) ∧
          ∀ g ∈ textOutput key ((b.libs starts k space).paragraphs (o.map (·.1)) runs) qss, g.2.2 < o.length := by
  have hlen : (o.map (·.1)).length = o.length := List.length_map ..
  obtain ⟨runs, h1, _⟩ := C10_documents env text font color stroke hf o hdoc
  have hfit := C07_runs_fit env text font color stroke hf _ _ h1
  obtain ⟨t', L', space, g1, g2, _, _, g3, g4, _⟩ := C122_text_partial b starts limit k hb (o.map (·.1)) (by simpa using hne)
    (by rw [hlen]; exact hlt) runs hfit (hs runs h1) L yAlign H t ht hbl
  obtain ⟨runs', L'', k1, k2, k3, k4⟩ := C117_document_partial env text font color stroke hf o hdoc hne (b.libs starts k space) limit k g3
    hlt hlim key (fun _ _ _ f g h => hkey f g h) L yAlign W H al visible metrics
  rw [h1] at k1; cases k1
  rw [hlen] at g4
  rw [g4] at k2; cases k2
  exact ⟨runs, t', L', space, h1, g1, g2, g3, k3, k4⟩

/-! ### A text -/

/-- The characters of a text of single bytes. -/
def byteChars (t : Bytes) (x y : Nat) : List (Nat × Nat) := (List.range (y - x)).map fun i => (1, (t.getD (x + i) 0).toNat)

/-- One glyph per character. -/
def charGlyphs (file height : Nat) (scaled : Bool) (b : HbBuffer) : List HbGlyph :=
  let gs := b.text.map fun x => (⟨1000 * file + height, x.2, if scaled then 64 else 128, 0, 0, 0⟩ : HbGlyph)
  if b.direction = .ltr ∨ b.direction = .ttb then (if gs.Pairwise (fun g h => g.cluster ≤ h.cluster) then gs else [])
  else if gs.reverse.Pairwise (fun g h => h.cluster ≤ g.cluster) then gs.reverse else []

/-- Lines are broken anywhere. -/
def demoBuild (tabPixels : Bool) : BuildLibs where
  lib := demoLib
  reg := demoRegistry
  sized _ height := ⟨0, height, height * 48, -(height * 16 : Int)⟩
  hb file height scaled b _ := charGlyphs file height scaled b
  upper _ s := (s, [])
  chars := byteChars
  bounds t := lineBounds t 0
  levels _ _ n := List.replicate n 0
  script t s n := ⟨n, fun i => ((t[s + i]?.getD 0).toNat : Int), fun i => i + 1, fun _ => 2⟩
  next _ _ _ i := i + 1
  hangs t s _ i := t[s + i]? == some 32
  preceding _ _ n i := (min i n : Nat)
  bidi _ _ _ x y := [⟨x, y - x, 0⟩]
  area := 200
  tabWidth := 128
  tabPixels := tabPixels
  vertical := false

theorem charGlyphs_shapes (file eff : Nat) : HbShapes fun _ b _ => charGlyphs file eff true b := by
  refine ⟨?_, ?_, ?_⟩
  · intro f b fs g hg
    have : g ∈ b.text.map fun x => (⟨1000 * file + eff, x.2, 64, 0, 0, 0⟩ : HbGlyph) := by
      unfold charGlyphs at hg
      simp only [if_true] at hg
      split at hg
      · split at hg
        · exact hg
        · cases hg
      · split at hg
        · exact List.mem_reverse.1 hg
        · cases hg
    obtain ⟨x, hx, rfl⟩ := List.mem_map.1 this
    exact ⟨x, hx, rfl⟩
  · intro f b fs hd
    unfold charGlyphs
    simp only [if_true]
    rw [if_pos hd]
    split
    · assumption
    · exact .nil
  · intro f b fs hd
    unfold charGlyphs
    simp only [if_true]
    rw [if_neg (by rcases hd with h | h <;> rw [h] <;> decide)]
    split
    · assumption
    · exact .nil

theorem byteChars_ok (t : Bytes) (x y : Nat) : nativeLength (byteChars t x y) = y - x ∧ ∀ c ∈ byteChars t x y, 0 < c.1 := by
  refine ⟨by simp [byteChars, nativeLength, Function.comp_def], ?_⟩
  intro c hc
  obtain ⟨i, _, rfl⟩ := List.mem_map.1 hc
  exact Nat.one_pos

theorem demoBuild_proper (tabPixels : Bool) (limit : Nat) : (demoBuild tabPixels).Proper (fun _ _ _ _ => True) limit 1 where
  ran := ParagraphFonts.demoHistory
  fits := demoRegistry_fits
  blank face file hl eff he := by
    obtain ⟨fd, h1, h2, _⟩ := hl
    have h : ∀ fd ∈ demoRegistry.faces, fd.file ≠ some 0 := by decide +kernel
    have h0 := h fd (List.mem_of_getElem? h1)
    have hf : file ≠ 0 := fun e => h0 (by rw [h2, e])
    show (0 : Int) < ((file * eff * 16 : Nat) : Int)
    have : 0 < file * eff := Nat.mul_pos (by omega) he
    omega
  bounds t _ _ := by
    have := lineBounds_ok t 0 0
    rw [Nat.zero_add] at this
    exact this
  levels t s n _ _ := List.length_replicate ..
  bidi t s n _ _ x y h1 h2 h3 := ⟨Partition.single (by simp [BidiRun.range]; omega) h2, fun _ _ => .inr trivial⟩
  script t s n _ _ := ⟨rfl, by intro i hi; exact ⟨Nat.lt_succ_self _, hi⟩⟩
  chars t x y _ := byteChars_ok t x y
  next t s n _ _ i hi := ⟨Nat.lt_succ_self _, hi⟩
  breaks t s n _ _ i := ⟨by show ((min i n : Nat) : Int) ≤ n; omega, fun _ _ => trivial⟩
  horizontal := rfl
  tabs := by cases tabPixels <;> decide
  glyphs := by decide

/-- "ab\tc", an empty line, "def" and a final line feed, from the tab on in size 20. -/
def demoBuildText : Bytes := b!"ab\tc\n\ndef\n"

def demoBuildRuns : FormattingRuns Nat where
  font := ⟨[demoFont, { demoFont with size := 20 }], [2, 10]⟩
  color := ⟨[toyColor], [10]⟩
  stroke := ⟨[toyStroke], [10]⟩
  flags _ := ⟨[false], [10]⟩

def demoBuildArgs (size : BitVec 32) : ShapeArgs := ⟨{ demoFont with size := size }, 2, 0, false, false, false⟩

theorem demoBuild_plan (px : Bool) : (demoBuild px).plan demoBuildText demoBuildRuns =
    [⟨0, 5, 1, [(2, demoBuildArgs 16), (4, demoBuildArgs 20)]⟩, ⟨5, 1, 1, []⟩, ⟨6, 4, 1, [(9, demoBuildArgs 20)]⟩] := by
  cases px <;> decide +kernel

/-- One glyph per character, 64 wide. -/
theorem fine_bytes {starts : Nat → Prop} {isTab : Nat → Bool} {space : Int} (hs : 0 < space) {a b : Nat} {gs : List HbGlyph}
    (h : gs.map (fun g => (g.cluster, g.xAdvance, g.xOffset)) = (List.range (b - a)).map fun i => (i, (64 : Int), (0 : Int))) :
    FineGlyphs starts isTab space 1 false a b gs := by
  have hlen : gs.length = b - a := by simpa using congrArg List.length h
  have hget : ∀ (i : Nat) g, gs[i]? = some g → g.cluster = i ∧ g.xAdvance = 64 ∧ g.xOffset = 0 ∧ i < b - a := by
    intro i g hg
    have hi : i < b - a := by
      have := (List.getElem?_eq_some_iff.1 hg).1
      omega
    have := congrArg (·[i]?) h
    simp only [List.getElem?_map, hg, Option.map_some, List.getElem?_range hi, Option.some.injEq, Prod.mk.injEq] at this
    exact ⟨this.1, this.2.1, this.2.2, hi⟩
  have hmem : ∀ g ∈ gs, ∃ i : Nat, gs[i]? = some g := fun g hg => List.mem_iff_getElem?.1 hg
  refine ⟨⟨?_, ?_⟩, ?_, by omega, ?_, ?_, ?_⟩
  · intro g hg
    obtain ⟨i, hi⟩ := hmem g hg
    obtain ⟨h1, _, _, h4⟩ := hget i g hi
    omega
  · simp only [Bool.false_eq_true, if_false]
    rw [List.pairwise_iff_getElem]
    intro i j hi hj hij
    have h1 := (hget i gs[i] (List.getElem?_eq_getElem hi)).1
    have h2 := (hget j gs[j] (List.getElem?_eq_getElem hj)).1
    omega
  · intro c h1 h2 _
    have hlt : c - a < gs.length := by omega
    refine ⟨gs[c - a], List.getElem_mem hlt, ?_⟩
    have := (hget (c - a) _ (List.getElem?_eq_getElem hlt)).1
    omega
  · intro i g g' hg hg'
    obtain ⟨_, h2, h3, _⟩ := hget i g hg
    obtain ⟨_, _, h4, _⟩ := hget (i + 1) g' hg'
    rw [h2, h3, h4]
    split <;> omega
  · intro g hg
    obtain ⟨i, hi⟩ := hmem g (List.mem_of_getLast? hg)
    obtain ⟨_, h2, h3, _⟩ := hget i g hi
    rw [h2, h3]
    split <;> omega
  · intro i g hg _
    obtain ⟨_, _, h3, _⟩ := hget i g hg
    rw [h3]
    cases h : gs[i + 1]? with
    | none => simpa using hs
    | some g' =>
      obtain ⟨_, _, h4, _⟩ := hget (i + 1) g' h
      simp only [Option.map_some, Option.getD_some, h4]
      omega

/-- The glyphs for the rest of a run of the example. -/
def demoBuildFine (q : ParaPlan) (c : Nat × ShapeArgs) (i : Nat) : Bool :=
  match getSubFont demoLib demoRegistry .init c.2.font (byteChars demoBuildText i c.1) i c.1 c.2.script c.2.smallcaps c.2.subscript
      c.2.superscript with
  | none => true
  | some (_, out, new) =>
    decide ((((demoBuild false).para demoBuildText q.start (q.length - q.separator)).glyphs out c.2 i new).map
      (fun g => (g.cluster, g.xAdvance, g.xOffset)) = (List.range (new - i)).map fun i => (i, (64 : Int), (0 : Int)))

theorem demoBuild_serves (px : Bool) : (demoBuild px).Serves (fun _ _ _ _ => True) 1 demoBuildText demoBuildRuns where
  proper := by
    rw [demoBuild_plan]
    intro q hq h0
    have hargs : ∀ c ∈ q.calls, c.1 ≤ q.start + (q.length - q.separator) ∧ (c.2 = demoBuildArgs 16 ∨ c.2 = demoBuildArgs 20) := by
      revert q
      decide +kernel
    have hin : q.start + (q.length - q.separator) ≤ demoBuildText.length := by
      clear hargs
      revert q
      decide +kernel
    refine ⟨ParagraphFonts.demoHistory, demoRegistry_fits, hin, fun c hc => (hargs c hc).1, fun a b _ => byteChars_ok _ a b,
      charGlyphs_shapes, ?_, ?_, ?_⟩
    · intro c hc
      obtain ⟨g, hg, hgi⟩ := Option.map_eq_some_iff.1
        (show demoRegistry.families[demoFont.face.getFamily.toNat]?.map (·.initialized) = some true by decide +kernel)
      have h : demoFont.face.getWeight.toNat < 9 ∧ (0 : Int) ≤ 2 ∧ (2 : Int).toNat < demoLib.codeLimit := by decide
      rcases (hargs c hc).2 with e | e <;> rw [e]
      · exact ⟨⟨g, hg, hgi⟩, h.1, by decide, by decide, h.2⟩
      · exact ⟨⟨g, hg, hgi⟩, h.1, by decide, by decide, h.2⟩
    · intro c hc base hb
      have : demoRegistry.fontForScript demoFont.face.getFamily demoFont.face.getWeight.toNat demoFont.face.getStyle 2 =
        some ⟨1#16, 3#4, .normal⟩ := by decide +kernel
      have hb' : some base = some ⟨1#16, 3#4, .normal⟩ := by
        rw [← this, ← hb]
        rcases (hargs c hc).2 with e | e <;> rw [e] <;> rfl
      cases hb'
      have h : demoRegistry.faces[1]? = some ⟨"Sans", some 1⟩ := by decide +kernel
      exact ⟨1, ⟨"Sans", some 1⟩, h, rfl, rfl, rfl⟩
    · intro c hc t' offset limit out new h hsy
      obtain ⟨_, _, _, _, _, _, _, _, h9⟩ := C45_carries _ _ _ _ _ _ _ _ _ _ _ _ _ _ h
      rcases (hargs c hc).2 with e | e <;> rw [e] at h9 <;> exact absurd (h9 hsy) (by decide)
  fine := by
    rw [demoBuild_plan]
    intro q hq h0 lim v hm i hi hlt u out new file hg hl eff he
    have hsp := (demoBuild_proper px 0).blank _ _ hl eff he
    have hv : (v.level % 2 == 1) = false := by
      clear hsp hl hg hlt hi h0
      have : ∀ q ∈ [(⟨0, 5, 1, [(2, demoBuildArgs 16), (4, demoBuildArgs 20)]⟩ : ParaPlan), ⟨5, 1, 1, []⟩,
        ⟨6, 4, 1, [(9, demoBuildArgs 20)]⟩], ∀ c ∈ q.calls, (c.2.level % 2 == 1) = false := by decide +kernel
      exact this q hq _ hm
    have hc : ∀ q ∈ [(⟨0, 5, 1, [(2, demoBuildArgs 16), (4, demoBuildArgs 20)]⟩ : ParaPlan), ⟨5, 1, 1, []⟩,
        ⟨6, 4, 1, [(9, demoBuildArgs 20)]⟩], ∀ c ∈ q.calls, ∀ i ∈ List.range c.1, q.start ≤ i → demoBuildFine q c i = true := by
      decide +kernel
    have hf := hc q hq _ hm i (List.mem_range.2 hlt) hi
    rw [hv]
    refine fine_bytes hsp ?_
    unfold demoBuildFine at hf
    have hg' : getSubFont demoLib demoRegistry .init v.font (byteChars demoBuildText i lim) i lim v.script v.smallcaps v.subscript
      v.superscript = some (u, out, new) := hg
    simp only [hg'] at hf
    exact of_decide_eq_true hf
  default := by
    intro f hf
    have h : ∀ f ∈ demoBuildRuns.font.values, 2 ≤ f.size.toNat ∧ f.size.toNat < 2 ^ 20 ∧
        demoRegistry.faceOf f.face.getFamily f.face.getWeight.toNat f.face.getStyle = some ⟨1#16, 3#4, .normal⟩ := by decide +kernel
    obtain ⟨h1, h2, h3⟩ := h f hf
    have h4 : demoRegistry.faces[1]? = some ⟨"Sans", some 1⟩ := by decide +kernel
    exact ⟨h1, h2, _, 1, h3, ⟨"Sans", some 1⟩, h4, rfl, rfl, rfl⟩

theorem demoBuild_fit : AllRunsFit demoBuildRuns demoBuildText.length := by
  have h : ∀ n, n = 10 → AllRunsFit demoBuildRuns n := by
    rintro n rfl
    refine ⟨?_, ?_, ?_, fun k => by cases k <;> refine ⟨by decide, by decide, by decide, by decide, by decide⟩⟩ <;>
      refine ⟨by decide, by decide, by decide, by decide, by decide⟩
  exact h _ (by decide +kernel)

/-- A fresh thread has measured nothing. -/
theorem blanks_init (lib : FontLib) : Blanks lib .init := fun h o ho => by cases ho

/-- The hypotheses of the theorems are met. -/
example (L : Layout SingleScriptFont) (yAlign : YAlignment) (H : Rat) (px : Bool) :
    ∃ t' L', (demoBuild px).buildTextT L demoBuildText demoBuildRuns yAlign H .init = some (t', L') := by
  obtain ⟨t', L', _, h, _⟩ := C122_text_partial (demoBuild px) (fun _ _ _ _ => True) 1000000 1 (demoBuild_proper px _) demoBuildText
    (by decide) (by decide +kernel) demoBuildRuns demoBuild_fit (demoBuild_serves px) L yAlign H .init (.start demoRegistry_steps)
    (blanks_init _)
  exact ⟨t', L', h⟩

/-- "ab" and the tab in the first line, then "c", the empty line, "def", and the line after the last line feed. -/
example : ((demoBuild true).buildTextT {} demoBuildText demoBuildRuns .top 0 .init).map
    (fun x => (x.2.runs.map fun r => (r.font.size, r.charStart, r.charEnd), x.2.lines.length)) =
    some ([(16, 0, 2), (20, 2, 3), (20, 3, 4), (20, 5, 5), (20, 6, 9), (20, 10, 10)], 5) := by decide +kernel

/-! ### Violations -/

/-- A thread that used a face first in small capitals of size 1 has measured its blank at size 0 (C47).  If tabs are as wide as a
number of blanks, laying out any later text with a tab in that face divides by zero. -/
theorem C122_blank_violated : ∃ (b : BuildLibs) (text : Bytes) (runs : FormattingRuns Nat) (t : FontThread),
    b.Proper (fun _ _ _ _ => True) 1000000 1 ∧ text ≠ [] ∧ text.length < 1000000 ∧ AllRunsFit runs text.length ∧
    b.Serves (fun _ _ _ _ => True) 1 text runs ∧ FontRun b.lib b.reg t ∧
    (∃ t' x, b.buildTextT {} text runs .top 0 .init = some (t', x)) ∧ b.buildTextT {} text runs .top 0 t = none := by
  have h : (do
      let x ← getFontData demoLib demoRegistry .init { demoRequest with size := 1, smallCaps := true }
      return ((demoBuild false).buildTextT {} demoBuildText demoBuildRuns .top 0 x.1).isNone) = some true := by decide +kernel
  cases hx : getFontData demoLib demoRegistry .init { demoRequest with size := 1, smallCaps := true } with
  | none => rw [hx] at h; cases h
  | some x =>
    rw [hx] at h
    obtain ⟨t', L', _, h', _⟩ := C122_text_partial (demoBuild false) (fun _ _ _ _ => True) 1000000 1 (demoBuild_proper false _)
      demoBuildText (by decide) (by decide +kernel) demoBuildRuns demoBuild_fit (demoBuild_serves false) {} .top 0 .init
      (.start demoRegistry_steps) (blanks_init _)
    exact ⟨demoBuild false, demoBuildText, demoBuildRuns, x.1, demoBuild_proper false _, by decide, by decide +kernel, demoBuild_fit,
      demoBuild_serves false, .fontData (.start demoRegistry_steps) hx, ⟨t', L', h'⟩, Option.isNone_iff_eq_none.1 (Option.some.inj h)⟩

end BuildLibs
end RichText
