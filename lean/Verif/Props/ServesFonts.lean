import Verif.Proof.PlanCalls
import Verif.Props.BuildText
/-!
C122: which texts and fonts the theorems apply to.
-/
namespace RichText
open Spec
namespace BuildLibs

/-- **C122, arguments.**  Each piece of text is shaped with a font, flags and a level that the text has, in a paragraph, and with the
script of a character of the same paragraph, or Common. -/
theorem C122_arguments {F : Type} (b : BuildLibs) (starts : Bytes → Nat → Nat → Nat → Prop) (limit k : Nat)
    (hb : b.Proper starts limit k) (text : Bytes) (hne : text ≠ []) (hlt : text.length < limit) (runs : FormattingRuns F)
    (hfit : AllRunsFit runs text.length) (q : ParaPlan) (hq : q ∈ b.plan text runs) (h0 : 0 < q.length - q.separator)
    (c : Nat × ShapeArgs) (hc : c ∈ q.calls) :
    q.start + (q.length - q.separator) ≤ text.length ∧ c.1 ≤ q.start + (q.length - q.separator) ∧ c.2.font ∈ runs.font.values ∧
    c.2.smallcaps ∈ (runs.flags .smallcaps).values ∧ c.2.subscript ∈ (runs.flags .subscript).values ∧
    c.2.superscript ∈ (runs.flags .superscript).values ∧ c.2.level ∈ b.levels text q.start (q.length - q.separator) ∧
    (c.2.script = 0 ∨ ∃ p, (b.script text q.start (q.length - q.separator)).Position p ∧ p < q.length - q.separator ∧
      1 < (b.script text q.start (q.length - q.separator)).script ((b.script text q.start (q.length - q.separator)).cp p) ∧
      (b.script text q.start (q.length - q.separator)).script ((b.script text q.start (q.length - q.separator)).cp p) = c.2.script) := by
  obtain ⟨_, h2, h3⟩ := plan_from hb hne hlt hfit q hq h0
  have h := h3 c hc
  exact ⟨h2, h.limit, h.font, h.smallcaps, h.subscript, h.superscript, h.level, h.script⟩

/-- **C122, fonts.**  So every text without small caps whose fonts have loadable faces for all scripts is served. -/
theorem C122_fonts {F : Type} (b : BuildLibs) (starts : Bytes → Nat → Nat → Nat → Prop) (limit k : Nat) (hb : b.Proper starts limit k)
    (hsh : b.Shapes starts limit k) (text : Bytes) (hne : text ≠ []) (hlt : text.length < limit) (runs : FormattingRuns F)
    (hfit : AllRunsFit runs text.length) (hfont : ∀ f ∈ runs.font.values, b.FontServes f)
    (hsc : ∀ x ∈ (runs.flags .smallcaps).values, x = false) : b.Serves starts k text runs := by
  have key := plan_from hb hne hlt hfit
  have proper : ∀ q ∈ b.plan text runs, 0 < q.length - q.separator → (b.para text q.start (q.length - q.separator)).Proper q.calls := by
    intro q hq h0
    obtain ⟨h1, h2, h3⟩ := key q hq h0
    have hscr : ∀ c ∈ q.calls, 0 ≤ c.2.script ∧ c.2.script.toNat < b.lib.codeLimit := by
      intro c hc
      rcases (h3 c hc).script with h | ⟨p, _, _, p3, p4⟩
      · rw [h]; exact ⟨by decide, hsh.common⟩
      · have := hsh.scripts text _ _ ((b.script text q.start (q.length - q.separator)).cp p) hlt h1
        omega
    refine ⟨hb.ran, hb.fits, h2, fun c hc => (h3 c hc).limit, hb.chars text, hsh.hb, ?_, ?_, ?_⟩
    · intro c hc
      have f := hfont _ (h3 c hc).font
      exact ⟨f.init, f.weight, f.size.1, f.size.2, hscr c hc⟩
    · intro c hc base hbase
      obtain ⟨s1, s2⟩ := hscr c hc
      refine (hfont _ (h3 c hc).font).faces c.2.script.toNat s2 base ?_
      rw [Int.toNat_of_nonneg s1]
      exact hbase
    · intro c hc t' offset lim out new h hsy
      obtain ⟨_, _, _, _, _, _, _, _, h9⟩ := C45_carries _ _ _ _ _ _ _ _ _ _ _ _ _ _ h
      have := hsc _ (h3 c hc).smallcaps
      rw [h9 hsy] at this
      cases this
  refine ⟨proper, ?_, ?_⟩
  · intro q hq h0 lim v hm i hi hlt' u out new file hg hl size hsize
    obtain ⟨h1, h2, h3⟩ := key q hq h0
    have hp := proper q hq h0
    obtain ⟨u', out', new', file', eff, gs, g1, g2, g3, g4, g5, g6, g7⟩ := hp.run hm hlt' hi (fun _ => 1)
    have g1' : getSubFont b.lib b.reg .init v.font (b.chars text i lim) i lim v.script v.smallcaps v.subscript v.superscript =
      some (u', out', new') := g1
    rw [hg] at g1'
    cases g1'
    have hadv := (hp.contract fun _ => 1).subFont v i lim hlt'
    rw [g5] at hadv
    simp only at hadv
    obtain ⟨c1, _, _, _, _, _, c7, c8, c9⟩ := C45_carries _ _ _ _ _ _ _ _ _ _ _ _ _ _ hg
    obtain ⟨_, _, a3, a4, _⟩ := hp.args _ hm
    obtain ⟨e, he, hpos⟩ := effective_pos a3 a4 out.syntheticSmallCaps (v.subscript || v.superscript)
    refine hsh.fine text _ _ hlt h1 out v i new file e (h3 _ hm).level ?_ hl ?_ hpos hi hadv.1 (Nat.le_trans hadv.2 (h3 _ hm).limit) size hsize
    · have := hsc _ (h3 _ hm).smallcaps
      simp only at this
      cases hs : out.syntheticSmallCaps with
      | false => rfl
      | true => rw [c9 hs] at this; cases this
    · show effectiveSize out.size.toNat out.syntheticSmallCaps (out.syntheticSubscript || out.syntheticSuperscript) = some e
      rw [c1, c7, c8]
      exact he
  · intro font hf
    have f := hfont font hf
    exact ⟨f.size.1, f.size.2, f.default⟩

/-! ### Any text -/

theorem charGlyphs_plain (file eff : Nat) (script : Int) (bot eot : Bool) (a b c : List UInt8) :
    (charGlyphs file eff true ⟨script, .ltr, bot, eot, a, b.zip (List.range b.length), c⟩).map
      (fun g => (g.cluster, g.xAdvance, g.xOffset)) = (List.range b.length).map fun i => (i, (64 : Int), (0 : Int)) := by
  have hm : ((b.zip (List.range b.length)).map fun x => (⟨1000 * file + eff, x.2, 64, 0, 0, 0⟩ : HbGlyph)) =
      (List.range b.length).map fun i => (⟨1000 * file + eff, i, 64, 0, 0, 0⟩ : HbGlyph) := by
    have : (fun x : UInt8 × Nat => (⟨1000 * file + eff, x.2, 64, 0, 0, 0⟩ : HbGlyph)) =
        (fun i => (⟨1000 * file + eff, i, 64, 0, 0, 0⟩ : HbGlyph)) ∘ Prod.snd := rfl
    rw [this, ← List.map_map, List.map_snd_zip (by simp)]
  unfold charGlyphs
  simp only [if_true]
  rw [if_pos (Or.inl trivial), hm, if_pos]
  · rw [List.map_map]; rfl
  · rw [List.pairwise_map]
    exact List.pairwise_lt_range.imp fun h => Nat.le_of_lt h

theorem demoBuild_shapes (px : Bool) (limit : Nat) : (demoBuild px).Shapes (fun _ _ _ _ => True) limit 1 where
  common := show 0 < 4 by decide
  scripts _ _ _ _ _ _ := show (2 : Int) < (4 : Nat) by decide
  hb := charGlyphs_shapes
  fine t s n hlt ht f v i new file eff hlev hsy hl he hpos hi hin hnew size hsize := by
    have hle : s + n ≤ t.length := by
      obtain ⟨h0, pre, x, post, h1, rfl, rfl⟩ := ht
      have hb : Bounds t.length 0 (pre ++ x :: post) := by
        rw [← h1]
        have := lineBounds_ok t 0 0
        rw [Nat.zero_add] at this
        exact this
      have key : ∀ (pre : List (Nat × Nat)) (off : Nat), Bounds t.length off (pre ++ x :: post) →
          off + (pre.map (·.1)).sum + x.1 ≤ t.length := by
        intro pre
        induction pre with
        | nil => intro off h; have := h.2.2.2.le; simp only [List.map_nil, List.sum_nil]; omega
        | cons y pre ih => intro off h; have := ih _ h.2.2.2; simp only [List.map_cons, List.sum_cons]; omega
      have := key pre 0 hb
      omega
    have hv : v.level = 0 := (List.mem_replicate.1 hlev).2
    rw [hv]
    refine fine_bytes ((demoBuild_proper px 0).blank _ _ hl size hsize) ?_
    have hfile : ((demoBuild px).para t s n).file f = some file := by
      obtain ⟨fd, h1, h2, _⟩ := hl
      show (demoRegistry.faces[f.face.handle.toNat]?).bind (·.file) = some file
      have h1' : demoRegistry.faces[f.face.handle.toNat]? = some fd := h1
      rw [h1', Option.bind_some, h2]
    unfold ParagraphFonts.glyphs
    simp only [hfile, he, hv]
    obtain ⟨pre, a, m, c, post, e1, e2, e3, e4, e5⟩ : ∃ pre a m c post, t = pre ++ (a ++ m ++ c) ++ post ∧ s = pre.length ∧
        i - s = a.length ∧ new - i = m.length ∧ n = (a ++ m ++ c).length := by
      refine ⟨t.take s, (t.drop s).take (i - s), (t.drop i).take (new - i), (t.drop new).take (s + n - new), t.drop (s + n), ?_, ?_, ?_,
        ?_, ?_⟩
      · have d : ∀ x y, x ≤ y → t.drop x = (t.drop x).take (y - x) ++ t.drop y := by
          intro x y h
          have := List.take_append_drop (y - x) (t.drop x)
          rw [List.drop_drop, Nat.add_sub_cancel' h] at this
          exact this.symm
        have h1 := d s i hi
        have h2 := d i new (Nat.le_of_lt hin)
        have h3 := d new (s + n) hnew
        conv_lhs => rw [← List.take_append_drop s t, h1, h2, h3]
        simp only [List.append_assoc]
      · rw [List.length_take]; omega
      · rw [List.length_take, List.length_drop]; omega
      · rw [List.length_take, List.length_drop]; omega
      · simp only [List.length_append, List.length_take, List.length_drop]; omega
    have e6 : ((demoBuild px).para t s n).text = ⟨pre ++ (a ++ m ++ c) ++ post, pre.length, (a ++ m ++ c).length, fun _ s => (s, [])⟩ := by
      rw [← e1, ← e2, ← e5]; rfl
    have e7 : i - ((demoBuild px).para t s n).text.start = a.length := e3
    rw [e7, e4, e6]
    unfold shapeGlyphs
    rw [shapeRequest_plain _ _ _ _ _ _ _ _ _ _ hsy, Option.bind_some]
    simp only [hsy]
    exact charGlyphs_plain file eff v.script _ _ a m c

theorem demoFont_serves (px : Bool) (size : BitVec 32) (hs : 2 ≤ size.toNat ∧ size.toNat < 2 ^ 20) :
    (demoBuild px).FontServes { demoFont with size := size } where
  init := by
    obtain ⟨g, hg, hgi⟩ := Option.map_eq_some_iff.1
      (show demoRegistry.families[demoFont.face.getFamily.toNat]?.map (·.initialized) = some true by decide +kernel)
    exact ⟨g, hg, hgi⟩
  weight := show demoFont.face.getWeight.toNat < 9 by decide
  size := hs
  faces script hlt base hb := by
    have h : ∀ s < 4, (demoRegistry.fontForScript demoFont.face.getFamily demoFont.face.getWeight.toNat demoFont.face.getStyle
        ((s : Nat) : Int)).all (fun base => (demoRegistry.faces[base.handle.toNat]?).any fun fd => fd.file.isSome) = true := by
      decide +kernel
    have h1 := h script hlt
    have hb' : demoRegistry.fontForScript demoFont.face.getFamily demoFont.face.getWeight.toNat demoFont.face.getStyle
      ((script : Nat) : Int) = some base := hb
    rw [hb'] at h1
    simp only [Option.all_some, Option.any_eq_true] at h1
    obtain ⟨fd, h2, h3⟩ := h1
    obtain ⟨file, h4⟩ := Option.isSome_iff_exists.1 h3
    exact ⟨file, fd, h2, h4, rfl, rfl⟩
  default := by
    have h3 : demoRegistry.faceOf demoFont.face.getFamily demoFont.face.getWeight.toNat demoFont.face.getStyle =
      some ⟨1#16, 3#4, .normal⟩ := by decide +kernel
    have h4 : demoRegistry.faces[1]? = some ⟨"Sans", some 1⟩ := by decide +kernel
    exact ⟨_, 1, h3, ⟨"Sans", some 1⟩, h4, rfl, rfl, rfl⟩

/-- The hypotheses are met by every text in the font at sizes in range. -/
example (px : Bool) (text : Bytes) (hne : text ≠ []) (limit : Nat) (hlt : text.length < limit) (size : BitVec 32)
    (hs : 2 ≤ size.toNat ∧ size.toNat < 2 ^ 20) :
    (demoBuild px).Serves (fun _ _ _ _ => True) 1 text (makeDefaultRuns text { demoFont with size := size } toyColor toyStroke).2 :=
  C122_fonts _ _ limit 1 (demoBuild_proper px _) (demoBuild_shapes px _) text hne hlt _
    ⟨runsFit_single _ _, runsFit_single _ _, runsFit_single _ _, fun _ => runsFit_single _ _⟩
    (fun f hf => by rw [List.mem_singleton.1 hf]; exact demoFont_serves px size hs) (fun x hx => List.mem_singleton.1 hx)

/-- Two sizes, a tab, an empty line: the arguments are those of the text. -/
example (px : Bool) (c : Nat × ShapeArgs) (hc : c ∈ [(2, demoBuildArgs 16), (4, demoBuildArgs 20)]) :
    c.1 ≤ 4 ∧ c.2.font ∈ demoBuildRuns.font.values := by
  obtain ⟨_, h2, h3, _⟩ := C122_arguments (demoBuild px) _ 1000 1 (demoBuild_proper px _) demoBuildText (by decide) (by decide +kernel)
    demoBuildRuns demoBuild_fit ⟨0, 5, 1, [(2, demoBuildArgs 16), (4, demoBuildArgs 20)]⟩ (by rw [demoBuild_plan]; simp) (by decide) c hc
  exact ⟨h2, h3⟩

end BuildLibs
end RichText
