import Verif.Proof.ParagraphShape
import Verif.Props.VisualRuns
import Verif.Props.FontData
/-!
C120: shaping a paragraph with the fonts of the registry.
-/
namespace RichText
namespace ParagraphFonts

/-! ### A concrete paragraph -/

/-- The characters of a text whose bytes 2 to 4 are one ideograph, all others letters. -/
def demoChars (a b : Nat) : List (Nat × Nat) :=
  if a ≤ 2 ∧ 5 ≤ b then List.replicate (2 - a) (1, 0x61) ++ (3, 0x4e00) :: List.replicate (b - 5) (1, 0x61)
  else List.replicate (b - a) (1, 0x61)

/-- HarfBuzz makes one glyph of all of a run, numbered by the file and the size, and twice as wide if the font has no scale. -/
def demoParagraph (mem : List UInt8) (chars : Nat → Nat → List (Nat × Nat)) : ParagraphFonts where
  lib := demoLib
  reg := demoRegistry
  text := ⟨mem, 0, mem.length, fun _ s => (s, [])⟩
  chars := chars
  hb file height scaled b _ :=
    (b.text.head?.map fun x => ⟨1000 * file + height, x.2, b.text.length * (if scaled then 64 else 128), 0, 0, 0⟩).toList
  vertical := false

def demoCalls (n : Nat) : List (Nat × ShapeArgs) := [(n, ⟨demoFont, 1, 0, false, false, false⟩)]

theorem demoHistory : ∃ hist, Registry.Ran demoLib hist demoRegistry ∧ ∀ x ∈ hist, x.1.faces ≠ some [] := by
  obtain ⟨⟨r1, e1⟩, h1⟩ := Option.isSome_iff_exists.1 (show (Registry.init.register demoLib demoSans).isSome = true by decide +kernel)
  have h2 : r1.register demoLib demoCjk = some (demoRegistry, .none) := by
    have h : (Registry.init.register demoLib demoSans).bind (fun x => x.1.register demoLib demoCjk) =
        some (demoRegistry, .none) := by decide +kernel
    rw [h1] at h
    exact h
  refine ⟨_, .register (.register .start h1) h2, ?_⟩
  intro x hx
  simp only [List.nil_append, List.cons_append, List.mem_cons, List.not_mem_nil, or_false] at hx
  rcases hx with rfl | rfl <;> simp [demoSans, demoCjk]

theorem demoHb (mem : List UInt8) (chars : Nat → Nat → List (Nat × Nat)) (file eff : Nat) :
    HbShapes fun _ => (demoParagraph mem chars).hb file eff true := by
  refine ⟨?_, ?_, ?_⟩
  · intro f b fs g hg
    cases h : b.text with
    | nil => simp [demoParagraph, h] at hg
    | cons x t =>
      simp [demoParagraph, h] at hg
      exact ⟨x, List.mem_cons_self .., by rw [hg]⟩
  all_goals
    intro f b fs _
    cases h : b.text <;> simp [demoParagraph, h]

/-- The hypotheses of the theorems are met. -/
theorem demoProper (mem : List UInt8) (chars : Nat → Nat → List (Nat × Nat))
    (hc : ∀ a b, a < b → nativeLength (chars a b) = b - a ∧ ∀ x ∈ chars a b, 0 < x.1) :
    (demoParagraph mem chars).Proper (demoCalls mem.length) where
  ran := demoHistory
  fits := demoRegistry_fits
  inside := by simp [demoParagraph]
  limits := by simp [demoParagraph, demoCalls]
  chars := hc
  hb := demoHb mem chars
  args := by
    intro c hc
    simp only [demoCalls, List.mem_cons, List.not_mem_nil, or_false] at hc
    subst hc
    obtain ⟨g, hg, hgi⟩ := Option.map_eq_some_iff.1
      (show demoRegistry.families[demoFont.face.getFamily.toNat]?.map (·.initialized) = some true by decide +kernel)
    have h : demoFont.face.getWeight.toNat < 9 ∧ 2 ≤ demoFont.size.toNat ∧ demoFont.size.toNat < 2 ^ 20 ∧ (0 : Int) ≤ 1 ∧
      (1 : Int).toNat < demoLib.codeLimit := by decide
    exact ⟨⟨g, hg, hgi⟩, h⟩
  loads := by
    intro c hc base hb
    simp only [demoCalls, List.mem_cons, List.not_mem_nil, or_false] at hc
    subst hc
    have : demoRegistry.fontForScript demoFont.face.getFamily demoFont.face.getWeight.toNat demoFont.face.getStyle 1 =
      some ⟨1#16, 3#4, .normal⟩ := by decide +kernel
    have hb' := this.symm.trans hb
    cases hb'
    have h : demoRegistry.faces[1]? = some ⟨"Sans", some 1⟩ := by decide +kernel
    exact ⟨1, ⟨"Sans", some 1⟩, h, rfl, rfl, rfl⟩
  caps := by
    intro c hc t' offset limit out new h hs
    simp only [demoCalls, List.mem_cons, List.not_mem_nil, or_false] at hc
    subst hc
    obtain ⟨_, _, _, _, _, _, _, _, h9⟩ := C45_carries _ _ _ _ _ _ _ _ _ _ _ _ _ _ h
    exact absurd (h9 hs) (by simp)

theorem demoChars_ok (a b : Nat) (h : a < b) : nativeLength (demoChars a b) = b - a ∧ ∀ x ∈ demoChars a b, 0 < x.1 := by
  unfold demoChars
  split
  · refine ⟨by simp [nativeLength]; omega, ?_⟩
    intro x hx
    simp only [List.mem_append, List.mem_cons, List.mem_replicate] at hx
    rcases hx with ⟨_, rfl⟩ | rfl | ⟨_, rfl⟩ <;> decide
  · refine ⟨by simp [nativeLength], ?_⟩
    intro x hx
    rw [(List.mem_replicate.1 hx).2]
    decide

/-- "ab一c": two runs of the first font around one of the fallback. -/
def demoIdeograph : ParagraphFonts := demoParagraph [0x61, 0x62, 0xe4, 0xb8, 0x80, 0x63] demoChars

example : demoIdeograph.Proper (demoCalls 6) := demoProper _ _ demoChars_ok

example : (demoIdeograph.shape (demoCalls 6) 0 .init {}).map (fun x => (x.2.1, x.2.2.glyphs, x.2.2.charIdx, x.2.2.widths)) =
    some (6, [1016, 3016, 1016], [0, 2, 5], [128, 192, 64]) := by decide +kernel

/-! ### The theorems -/

/-- **C120, shaping.**  In any thread, whatever fonts it has used before, the calls for a paragraph are all made and shape it as
`ParagraphFonts.env` says, which keeps the contracts that the properties of the builder ask for (C31, C37, C67, C91, C117, C118): at
each place the font is the one `get_sub_font` gives in a fresh thread, HarfBuzz is asked with the file of its face, at its size and
with a scale, and tabs get the blank of that file.  Missing: faces that cannot be loaded (`C120_unloadable_violated`), small caps
whose capitals have another length (C74). -/
theorem C120_shaping_partial (p : ParagraphFonts) (calls : List (Nat × ShapeArgs)) (hp : p.Proper calls) (t : FontThread)
    (ht : FontRun p.lib p.reg t) (offset : Nat) (hs : p.text.start ≤ offset) :
    ∃ t' off b space, p.shape calls offset t {} = some (t', off, b) ∧ FontRun p.lib p.reg t' ∧
      (∀ h o, t'.cache.lookup h = some o → o.spaceAdvance = space h) ∧
      (p.env space).Contract ∧ shapeCalls (p.env space) calls offset {} = some (off, b) ∧
      ∀ limit v, (limit, v) ∈ calls → ∀ i, p.text.start ≤ i → i < limit →
        ∃ u' out new file eff gs, getSubFont p.lib p.reg .init v.font (p.chars i limit) i limit v.script v.smallcaps v.subscript
            v.superscript = some (u', out, new) ∧ p.reg.Loads p.lib out.face file ∧
          effectiveSize v.font.size.toNat out.syntheticSmallCaps (v.subscript || v.superscript) = some eff ∧
          shapeGlyphs (fun _ => p.hb file eff true) p.text out (i - p.text.start) (new - i) v.script (v.level % 2 == 1)
            p.vertical = some gs ∧
          (p.env space).subFont v i limit = (out, new) ∧ (p.env space).shape out v i new = gs ∧
          (p.env space).spaceGlyph out = p.lib.spaceGlyph file := by
  obtain ⟨t', off, b, h1, h2, _, _, h4⟩ := shape_spec hp calls offset t {} (fun _ h => h) ht hs
  refine ⟨t', off, b, fun h => ((t'.cache.lookup h).map (·.spaceAdvance)).getD 0, h1, h2, ?_, hp.contract _, h4 _ ?_, ?_⟩
  · intro h o ho; simp only [ho]; rfl
  · intro h o ho; simp only [ho]; rfl
  · intro limit v hm i hi hlt
    exact hp.run hm hlt hi _

/-- **C120, text.**  The same for all paragraphs of a text, one after the other in one thread: all are shaped as one family of
environments says, with one advance of the blank for each face. -/
theorem C120_text_partial (lib : FontLib) (reg : Registry) (ps : List (ParagraphFonts × List (Nat × ShapeArgs))) (t : FontThread)
    (h : ∀ x ∈ ps, x.1.Proper x.2 ∧ x.1.lib = lib ∧ x.1.reg = reg) (ht : FontRun lib reg t) :
    ∃ t' xs space, shapeAll ps t = some (t', xs) ∧ FontRun lib reg t' ∧ (∀ x ∈ ps, (x.1.env space).Contract) ∧
      List.Forall₂ (fun x y => shapeCalls (x.1.env space) x.2 x.1.text.start {} = some y) ps xs := by
  obtain ⟨t', xs, h1, h2, _, h4⟩ := shapeAll_spec ps t h ht
  refine ⟨t', xs, fun h => ((t'.cache.lookup h).map (·.spaceAdvance)).getD 0, h1, h2, fun x hx => (h x hx).1.contract _, h4 _ ?_⟩
  intro h o ho; simp only [ho]; rfl

/-- **C120, paragraph.**  With line breaks and bidi runs as the properties of the builder ask for, the paragraph as shaped is that of
an environment for which they hold. -/
theorem C120_paragraph_partial (p : ParagraphFonts) (calls : List (Nat × ShapeArgs)) (hp : p.Proper calls) (t : FontThread)
    (ht : FontRun p.lib p.reg t) (line : LineEnv) (bidi : Nat → Nat → List BidiRun) (metrics : SingleScriptFont → Metrics)
    (hstart : line.start = p.text.start) (hlen : line.length = p.text.length) (hpos : 0 < p.text.length)
    (hcalls : CallsTo (p.text.start + p.text.length) calls) (hbr : line.BreaksInside) (hdec : line.Decodes)
    (htab : (∀ c, line.isTab c = false) ∨ (line.tabPixels = true ∧ line.tabWidth ≠ 0))
    (hbidi : ∀ s e, line.start ≤ s → s < e → e ≤ line.start + line.length → Partition BidiRun.range s e (bidi s e)) :
    ∃ t' off b, ∃ e : ParaEnv ShapeArgs SingleScriptFont, p.shape calls p.text.start t {} = some (t', off, b) ∧ e.line = line ∧
      e.bidi = bidi ∧ e.metrics = metrics ∧ (∃ space, e.toShapeEnv = p.env space) ∧ e.OK calls ∧
      shapeParagraph e calls = some b.finish ∧ ShapedOK p.text.start (p.text.start + p.text.length) b.finish := by
  obtain ⟨t', off, b, space, h1, _, _, h4, h5, _⟩ := C120_shaping_partial p calls hp t ht p.text.start (Nat.le_refl _)
  have hok : ParaEnv.OK (⟨p.env space, line, bidi, metrics⟩ : ParaEnv ShapeArgs SingleScriptFont) calls := by
    refine ⟨by rw [hlen]; exact hpos, h4, ?_, hbr, hdec, ?_, hbidi⟩
    · simp only [hstart, hlen]; exact hcalls
    · rcases htab with h | h
      · exact .inl h
      · exact .inr (.inl h)
  have hsp : shapeParagraph (⟨p.env space, line, bidi, metrics⟩ : ParaEnv ShapeArgs SingleScriptFont) calls = some b.finish := by
    unfold shapeParagraph
    simp only [hstart]
    rw [h5]; rfl
  refine ⟨t', off, b, ⟨p.env space, line, bidi, metrics⟩, h1, rfl, rfl, rfl, ⟨space, rfl⟩, hok, hsp, ?_⟩
  obtain ⟨b', _, _, _, _, _, g1, g2, _⟩ := C31_paragraph _ _ hok 0
  rw [hsp] at g1; cases g1
  simp only [hstart, hlen] at g2
  exact g2

/-- **C120, history.**  What a thread has done before does not matter for the glyphs, their characters, their secondary positions and
the fonts of the runs, nor, in text without tabs, for the widths. -/
theorem C120_history_partial (p : ParagraphFonts) (calls : List (Nat × ShapeArgs)) (hp : p.Proper calls) (t u : FontThread)
    (ht : FontRun p.lib p.reg t) (hu : FontRun p.lib p.reg u) (offset : Nat) (hs : p.text.start ≤ offset) :
    ∃ t' u' off b c, p.shape calls offset t {} = some (t', off, b) ∧ p.shape calls offset u {} = some (u', off, c) ∧
      c.glyphs = b.glyphs ∧ c.charIdx = b.charIdx ∧ c.secondary = b.secondary ∧ c.cursor = b.cursor ∧ c.runs = b.runs ∧
      ((∀ i : Nat, p.text.mem[i]? ≠ some 9) → c = b) := by
  obtain ⟨t', off, b, x, h1, _, _, _, h5, _⟩ := C120_shaping_partial p calls hp t ht offset hs
  obtain ⟨u', off', c, y, k1, _, _, _, k5, _⟩ := C120_shaping_partial p calls hp u hu offset hs
  obtain ⟨c', g1, g2, g3, g4, g5, g6⟩ := shapeCalls_alike (y := y) calls offset {} {} _ ⟨rfl, rfl, rfl, rfl, rfl⟩ h5
  rw [k5] at g1; cases g1
  refine ⟨t', u', _, b, c, h1, k1, g2, g3, g4, g5, g6, ?_⟩
  intro hno
  have := shapeCalls_tabless (p := p) (fun i => by unfold isTab; simpa using hno i) x y calls offset {}
  rw [h5, k5] at this
  cases this
  rfl

/-- **C120, scale.**  HarfBuzz never shapes with a font it has not been told the scale of (C79): what it would do with one does not
matter. -/
theorem C120_scaled_partial (p : ParagraphFonts) (calls : List (Nat × ShapeArgs)) (hp : p.Proper calls) (t : FontThread)
    (ht : FontRun p.lib p.reg t) (offset : Nat) (hs : p.text.start ≤ offset)
    (hb : Nat → Nat → Bool → HbBuffer → List HbFeature → List HbGlyph) (h : ∀ file eff, hb file eff true = p.hb file eff true) :
    ∃ x, p.shape calls offset t {} = some x ∧ ({ p with hb := hb } : ParagraphFonts).shape calls offset t {} = some x := by
  obtain ⟨t', off, b, h1, _, _, h3, _⟩ := shape_spec hp calls offset t {} (fun _ h => h) ht hs
  exact ⟨_, h1, h3 hb h⟩

/-- In the example a font without a scale would give other widths. -/
example : demoIdeograph.hb 1 16 false ⟨1, .ltr, true, true, [], [(0x61, 0)], []⟩ [] ≠
    demoIdeograph.hb 1 16 true ⟨1, .ltr, true, true, [], [(0x61, 0)], []⟩ [] := by decide +kernel

/-! ### Violations -/

/-- A tab and a letter. -/
def demoTab : ParagraphFonts := demoParagraph [0x09, 0x61] fun a b => List.replicate (b - a) (1, 0x61)

/-- With tabs the widths depend on what the thread has done before (C48): here whether the font has been used at twice the size. -/
theorem C120_tabs_violated : ∃ (p : ParagraphFonts) (calls : List (Nat × ShapeArgs)) (t u t' u' : FontThread) (off off' : Nat)
    (b c : Shaped SingleScriptFont), p.Proper calls ∧ FontRun p.lib p.reg t ∧ FontRun p.lib p.reg u ∧
    p.shape calls p.text.start t {} = some (t', off, b) ∧ p.shape calls p.text.start u {} = some (u', off', c) ∧
    b.widths ≠ c.widths := by
  have h : (do
      let x ← getFontData demoLib demoRegistry .init { demoRequest with size := 32 }
      let y ← demoTab.shape (demoCalls 2) 0 .init {}
      let z ← demoTab.shape (demoCalls 2) 0 x.1 {}
      return decide (y.2.2.widths ≠ z.2.2.widths)) = some true := by decide +kernel
  cases hx : getFontData demoLib demoRegistry .init { demoRequest with size := 32 } with
  | none => rw [hx] at h; cases h
  | some x =>
    rw [hx] at h
    cases hy : demoTab.shape (demoCalls 2) 0 .init {} with
    | none => rw [hy] at h; cases h
    | some y =>
      simp only [hy, Option.bind_eq_bind, Option.bind_some] at h
      cases hz : demoTab.shape (demoCalls 2) 0 x.1 {} with
      | none => rw [hz] at h; cases h
      | some z =>
        rw [hz] at h
        refine ⟨demoTab, demoCalls 2, .init, x.1, y.1, z.1, y.2.1, z.2.1, y.2.2, z.2.2, demoProper _ _ ?_, .start demoRegistry_steps,
          .fontData (.start demoRegistry_steps) hx, hy, hz, of_decide_eq_true (Option.some.inj h)⟩
        intro a b hab
        refine ⟨by simp [nativeLength], ?_⟩
        intro x hx
        rw [(List.mem_replicate.1 hx).2]
        decide

/-- Whenever `get_sub_font` gives a face that cannot be loaded, `hb_shape` is called without a font. -/
theorem C120_unloadable (p : ParagraphFonts) (v : ShapeArgs) (limit offset : Nat) (t t' : FontThread) (ht : FontRun p.lib p.reg t)
    (b : Shaped SingleScriptFont) (hlt : offset < limit) (out : SingleScriptFont) (new : Nat)
    (h : getSubFont p.lib p.reg t v.font (p.chars offset limit) offset limit v.script v.smallcaps v.subscript v.superscript =
      some (t', out, new)) (hl : ¬ ∃ file, p.reg.Loads p.lib out.face file) :
    p.loop v limit offset t b = none := by
  have ht' : FontRun p.lib p.reg t' := .subFont ht h
  unfold loop
  rw [if_pos hlt, h]
  simp only
  split
  · have : p.shapeRun out v offset new t' b = none := by
      unfold shapeRun
      cases hg : getFontData p.lib p.reg t' out.request with
      | none => rfl
      | some x =>
        obtain ⟨t2, d⟩ := x
        cases d with
        | none => rfl
        | some d =>
          obtain ⟨_, g1, _⟩ := getFontData_spec ht'.cache hg
          obtain ⟨o, eff, _, _, _, _, _, k6⟩ := g1 d rfl
          exact absurd ⟨_, k6⟩ hl
    rw [this]
  · rfl

/-- The same text in a family whose file is missing. -/
def demoMissing : ParagraphFonts := { demoIdeograph with reg := demoRegistry2 }

/-- A registered family whose file is missing: text in it crashes the program, although the registry gives a font for it. -/
theorem C120_unloadable_violated : ∃ (p : ParagraphFonts) (v : ShapeArgs) (limit : Nat) (t' t'' : FontThread) (out : SingleScriptFont)
    (new : Nat), p.reg.Reached p.lib ∧ p.reg.Fits ∧ p.reg.IsInit v.font.face.getFamily ∧
    getSubFont p.lib p.reg .init v.font (p.chars 0 limit) 0 limit v.script false false false = some (t', out, new) ∧
    getFontData p.lib p.reg t' out.request = some (t'', none) ∧ p.shape [(limit, v)] 0 .init {} = none := by
  have h : (do
      let x ← getSubFont demoLib demoRegistry2 .init demoFont2 (demoChars 0 6) 0 6 1 false false false
      let y ← getFontData demoLib demoRegistry2 x.1 x.2.1.request
      return y.2.isNone) = some true := by decide +kernel
  have hs : (demoMissing.shape [(6, ⟨demoFont2, 1, 0, false, false, false⟩)] 0 .init {}).isNone = true := by decide +kernel
  obtain ⟨g, hg, hgi⟩ := Option.map_eq_some_iff.1
    (show demoRegistry2.families[demoFont2.face.getFamily.toNat]?.map (·.initialized) = some true by decide +kernel)
  cases hx : getSubFont demoLib demoRegistry2 .init demoFont2 (demoChars 0 6) 0 6 1 false false false with
  | none => rw [hx] at h; cases h
  | some x =>
    rw [hx] at h
    cases hy : getFontData demoLib demoRegistry2 x.1 x.2.1.request with
    | none => simp [hy] at h
    | some y =>
      simp only [Option.bind_eq_bind, Option.bind_some, hy] at h
      obtain ⟨t', out, new⟩ := x
      obtain ⟨t'', d⟩ := y
      have hd : d = none := Option.isNone_iff_eq_none.1 (Option.some.inj h)
      subst hd
      exact ⟨demoMissing, ⟨demoFont2, 1, 0, false, false, false⟩, 6, t', t'', out, new, demoRegistry2_steps,
        by unfold Registry.Fits; decide +kernel, ⟨g, hg, hgi⟩, hx, hy, Option.isNone_iff_eq_none.1 hs⟩

end ParagraphFonts

end RichText
