import Verif.Model.ShapeRequest
import Verif.Model.FontRegistry
import Verif.Proof.Drawn
import Verif.Props.SmallCaps
/-!
C118: what HarfBuzz is asked to shape.
-/
namespace RichText
open List

/-- A feature is on for a cluster (HarfBuzz: the last feature with the tag that covers the cluster decides;
here all have value 1). -/
def FeatureOn (fs : List HbFeature) (tag : List UInt8) (cluster : Nat) : Prop :=
  ∃ f ∈ fs, f.tag = tag ∧ f.value = 1 ∧ f.start ≤ cluster ∧ cluster < f.stop

theorem maybeAdd_on (fs : List HbFeature) (tag tag' : List UInt8) (count : Nat) (needs synth : Bool) (i : Nat) (hi : i < count) :
    FeatureOn (maybeAddTagRuns fs tag count needs synth) tag' i ↔
      FeatureOn fs tag' i ∨ (tag' = tag ∧ needs = true ∧ synth = false) := by
  unfold maybeAddTagRuns
  cases needs <;> cases synth <;> simp [FeatureOn, or_and_right, exists_or, hi, eq_comm]

theorem features_on (font : SingleScriptFont) (count i : Nat) (hi : i < count) (tag : List UInt8) :
    FeatureOn (shapeFeatures font count) tag i ↔
      (tag = b!"smcp" ∧ font.smallcaps = true ∧ font.syntheticSmallCaps = false) ∨
      (tag = b!"subs" ∧ font.subscript = true ∧ font.syntheticSubscript = false) ∨
      (tag = b!"sups" ∧ font.superscript = true ∧ font.syntheticSuperscript = false) := by
  unfold shapeFeatures
  rw [maybeAdd_on _ _ _ _ _ _ _ hi, maybeAdd_on _ _ _ _ _ _ _ hi, maybeAdd_on _ _ _ _ _ _ _ hi]
  simp only [FeatureOn, List.not_mem_nil, false_and, exists_false, false_or, or_assoc]

theorem shapeRequest_plain (pre a b c post : List UInt8) (upper : Int → List UInt8 → List UInt8 × List Edit)
    (font : SingleScriptFont) (script : Int) (reversed vertical : Bool) (h : font.syntheticSmallCaps = false) :
    shapeRequest ⟨pre ++ (a ++ b ++ c) ++ post, pre.length, (a ++ b ++ c).length, upper⟩ font a.length b.length script
        reversed vertical =
      some (⟨script, shapeDirection vertical reversed, decide (a.length = 0), decide (c.length = 0), a,
        b.zip (List.range b.length), c⟩, shapeFeatures font b.length) := by
  have e1 : (List.drop pre.length (pre ++ (a ++ b ++ c) ++ post)).take (a ++ b ++ c).length = a ++ b ++ c := by
    rw [List.append_assoc pre, List.drop_left, List.take_left]
  have e2 : (List.drop (pre.length + a.length) (pre ++ (a ++ b ++ c) ++ post)).take ((a ++ b ++ c).length - a.length) = b ++ c := by
    have : pre ++ (a ++ b ++ c) ++ post = (pre ++ a) ++ ((b ++ c) ++ post) := by simp
    rw [this, show pre.length + a.length = (pre ++ a).length by simp, List.drop_left,
      show (a ++ b ++ c).length - a.length = (b ++ c).length by simp, List.take_left]
  unfold shapeRequest
  simp only [h, Bool.false_eq_true, ↓reduceIte]
  unfold HbBuffer.addUtf8
  rw [if_pos (by simp only [List.length_append]; omega)]
  simp only [Option.bind_some]
  rw [if_pos (by simp only [List.length_append]; omega)]
  simp only [e1, e2]
  have e3 : decide (a.length + b.length = (a ++ (b ++ c)).length) = decide (c.length = 0) := by
    simp only [List.length_append]; rw [decide_eq_decide]; omega
  have e4 : (if decide (0 < a.length) = true then a else []) = a := by
    by_cases ha : a = [] <;> simp [ha, List.length_pos_iff]
  simp only [e3, List.take_zero, List.drop_zero, Nat.zero_add, List.nil_append, List.zip_nil_left,
    List.isEmpty_nil, Bool.true_and, List.take_left, List.drop_left, List.append_assoc, Option.map_some,
    Nat.lt_irrefl, decide_false, Bool.and_false, Bool.false_eq_true, ↓reduceIte, e4, ← List.range_eq_range']

/-- **C118, text.**  Without synthesised small caps: if the paragraph is `a ++ b ++ c` and the run is `b`, HarfBuzz
gets `b` with indices from 0 on as clusters, `a` as the text before and `c` as the text behind; it is told that the
text begins or ends there just if the paragraph does.  Nothing is read outside of the paragraph, whatever is around
it. -/
theorem C118_text (pre a b c post : List UInt8) (upper : Int → List UInt8 → List UInt8 × List Edit) (font : SingleScriptFont)
    (script : Int) (reversed vertical : Bool) (h : font.syntheticSmallCaps = false) :
    ∃ r, shapeRequest ⟨pre ++ (a ++ b ++ c) ++ post, pre.length, (a ++ b ++ c).length, upper⟩ font a.length b.length script
        reversed vertical = some r ∧
      r.1.text.map (·.1) = b ∧ r.1.text.map (·.2) = List.range b.length ∧ r.1.before = a ∧ r.1.after = c ∧
      (r.1.bot = true ↔ a = []) ∧ (r.1.eot = true ↔ c = []) ∧ r.1.script = script ∧
      (r.1.direction = if vertical then (if reversed then .btt else .ttb) else (if reversed then .rtl else .ltr)) := by
  refine ⟨_, shapeRequest_plain pre a b c post upper font script reversed vertical h, ?_, ?_, rfl, rfl, ?_, ?_, rfl, rfl⟩
  · rw [List.map_fst_zip]; simp
  · rw [List.map_snd_zip]; simp
  · simp
  · simp

/-- Capital letters: what a run with synthesised small caps is shaped as. -/
theorem shapeRequest_synthetic (pre a b c post : List UInt8) (upper : Int → List UInt8 → List UInt8 × List Edit)
    (font : SingleScriptFont) (script : Int) (reversed vertical : Bool) (h : font.syntheticSmallCaps = true) :
    shapeRequest ⟨pre ++ (a ++ b ++ c) ++ post, pre.length, (a ++ b ++ c).length, upper⟩ font a.length b.length script
        reversed vertical =
      some (⟨script, shapeDirection vertical reversed, decide (a.length = 0), decide (c.length = 0), [],
        (upper script b).1.zip (List.range (upper script b).1.length), []⟩, shapeFeatures font (upper script b).1.length) := by
  have e2 : (List.drop (pre.length + a.length) (pre ++ (a ++ b ++ c) ++ post)).take b.length = b := by
    have : pre ++ (a ++ b ++ c) ++ post = (pre ++ a) ++ (b ++ (c ++ post)) := by simp
    rw [this, show pre.length + a.length = (pre ++ a).length by simp, List.drop_left, List.take_left]
  unfold shapeRequest
  simp only [h, ↓reduceIte, e2]
  unfold HbBuffer.addUtf8
  rw [if_neg (by simp only [List.length_append]; omega), if_pos (by omega)]
  have e3 : decide (a.length + b.length = (a ++ b ++ c).length) = decide (c.length = 0) := by
    simp only [List.length_append]; rw [decide_eq_decide]; omega
  simp only [e3, List.drop_zero, Nat.zero_add, List.nil_append, List.isEmpty_nil, Bool.true_and, Option.map_some,
    Nat.lt_irrefl, decide_false, Bool.false_eq_true, ↓reduceIte, ← List.range_eq_range', List.take_length, List.drop_length]

/-- **C118, features.**  For every character of the buffer, the feature for small caps, subscript or superscript
is on just if the font asks for it and it is not made up otherwise; no other feature is. -/
theorem C118_features (pre a b c post : List UInt8) (upper : Int → List UInt8 → List UInt8 × List Edit)
    (font : SingleScriptFont) (script : Int) (reversed vertical : Bool) :
    ∃ r, shapeRequest ⟨pre ++ (a ++ b ++ c) ++ post, pre.length, (a ++ b ++ c).length, upper⟩ font a.length b.length script
        reversed vertical = some r ∧
      ∀ x ∈ r.1.text, ∀ tag, FeatureOn r.2 tag x.2 ↔
        (tag = b!"smcp" ∧ font.smallcaps = true ∧ font.syntheticSmallCaps = false) ∨
        (tag = b!"subs" ∧ font.subscript = true ∧ font.syntheticSubscript = false) ∨
        (tag = b!"sups" ∧ font.superscript = true ∧ font.syntheticSuperscript = false) := by
  by_cases h : font.syntheticSmallCaps = true
  · refine ⟨_, shapeRequest_synthetic pre a b c post upper font script reversed vertical h, ?_⟩
    intro x hx tag
    exact features_on font _ _ (List.mem_range.1 (List.of_mem_zip hx).2) tag
  · refine ⟨_, shapeRequest_plain pre a b c post upper font script reversed vertical (by simpa using h), ?_⟩
    intro x hx tag
    exact features_on font _ _ (List.mem_range.1 (List.of_mem_zip hx).2) tag

/-- HarfBuzz's side: every cluster of the output is one of the input, in the order of the direction. -/
structure HbShapes (hb : SingleScriptFont → HbBuffer → List HbFeature → List HbGlyph) : Prop where
  cluster : ∀ f b fs, ∀ g ∈ hb f b fs, ∃ x ∈ b.text, x.2 = g.cluster
  forward : ∀ f b fs, b.direction = .ltr ∨ b.direction = .ttb → (hb f b fs).Pairwise (fun g h => g.cluster ≤ h.cluster)
  backward : ∀ f b fs, b.direction = .rtl ∨ b.direction = .btt → (hb f b fs).Pairwise (fun g h => h.cluster ≤ g.cluster)

/-- **C118, glyphs.**  If HarfBuzz keeps clusters, the builder gets glyphs that belong to bytes of the run, in order of
the direction: what the properties of the builder ask of shaping (C31).  Missing, as C74: small caps whose capitals have
another length. -/
theorem C118_glyphs_partial (pre a b c post : List UInt8) (upper : Int → List UInt8 → List UInt8 × List Edit)
    (font : SingleScriptFont) (script : Int) (reversed vertical : Bool)
    (hb : SingleScriptFont → HbBuffer → List HbFeature → List HbGlyph) (hok : HbShapes hb)
    (hup : font.syntheticSmallCaps = true → ∃ l, b.map UInt8.toNat = lowerText l ∧
      (upper script b).1.map UInt8.toNat = upperText l ∧ Records l (upper script b).2 ∧ (∀ p ∈ l, p.WellFormed) ∧
      SameLength l ∧ (upperText l).length ≤ 2 ^ 31) :
    ∃ gs, shapeGlyphs hb ⟨pre ++ (a ++ b ++ c) ++ post, pre.length, (a ++ b ++ c).length, upper⟩ font a.length b.length
        script reversed vertical = some gs ∧
      (∀ g ∈ gs, g.cluster < b.length) ∧
      (reversed = false → gs.Pairwise (fun g h => g.cluster ≤ h.cluster)) ∧
      (reversed = true → gs.Pairwise (fun g h => h.cluster ≤ g.cluster)) := by
  have hd : (reversed = false → shapeDirection vertical reversed = .ltr ∨ shapeDirection vertical reversed = .ttb) ∧
      (reversed = true → shapeDirection vertical reversed = .rtl ∨ shapeDirection vertical reversed = .btt) := by
    cases vertical <;> cases reversed <;> simp [shapeDirection]
  by_cases h : font.syntheticSmallCaps = true
  · obtain ⟨l, h1, h2, h3, h4, h5, h6⟩ := hup h
    have hu : (upper script b).1.length = (upperText l).length := by rw [← h2]; simp
    have e2 : (List.drop (pre.length + a.length) (pre ++ (a ++ b ++ c) ++ post)) = b ++ (c ++ post) := by
      have : pre ++ (a ++ b ++ c) ++ post = (pre ++ a) ++ (b ++ (c ++ post)) := by simp
      rw [this, show pre.length + a.length = (pre ++ a).length by simp, List.drop_left]
    obtain ⟨gs', g1, -, g3, g4, g5⟩ := C74_run_partial l _ ((c ++ post).map UInt8.toNat)
      (hb font ⟨script, shapeDirection vertical reversed, decide (a.length = 0), decide (c.length = 0), [],
        (upper script b).1.zip (List.range (upper script b).1.length), []⟩ (shapeFeatures font (upper script b).1.length))
      h3 h4 h5 (fun g hg => by
        obtain ⟨x, hx, hx'⟩ := hok.cluster _ _ _ g hg
        rw [← hx', ← hu]
        exact List.mem_range.1 (List.of_mem_zip hx).2) h6
    refine ⟨gs', ?_, fun g hg => by rw [← List.length_map (f := UInt8.toNat) (as := b), h1]; exact g3 g hg, ?_, ?_⟩
    · unfold shapeGlyphs
      rw [shapeRequest_synthetic pre a b c post upper font script reversed vertical h]
      simp only [Option.bind_some, h, ↓reduceIte, e2, List.take_left]
      rw [List.map_append, h1]
      exact g1
    · exact fun hr => g4 (hok.forward _ _ _ (hd.1 hr))
    · exact fun hr => g5 (hok.backward _ _ _ (hd.2 hr))
  · refine ⟨hb font ⟨script, shapeDirection vertical reversed, decide (a.length = 0), decide (c.length = 0), a,
        b.zip (List.range b.length), c⟩ (shapeFeatures font b.length), ?_, ?_, fun hr => hok.forward _ _ _ (hd.1 hr),
      fun hr => hok.backward _ _ _ (hd.2 hr)⟩
    · unfold shapeGlyphs
      rw [shapeRequest_plain pre a b c post upper font script reversed vertical (by simpa using h)]
      simp only [Option.bind_some, h, Bool.false_eq_true, ↓reduceIte]
    · intro g hg
      obtain ⟨x, hx, hx'⟩ := hok.cluster _ _ _ g hg
      rw [← hx']
      exact List.mem_range.1 (List.of_mem_zip hx).2

/-- Requests for the parts of a paragraph, in order. -/
def requests (t : ShapeText) (vertical : Bool) (qs : List (Sub ShapeArgs SingleScriptFont)) :
    List (Option (HbBuffer × List HbFeature)) :=
  qs.map fun q => shapeRequest t q.font (q.first - t.start) (q.stop - q.first) q.args.script (q.args.level % 2 == 1) vertical

/-- **C118, paragraph.**  All parts of a paragraph together: HarfBuzz gets every byte of it once, each part with all of
the paragraph around it.  Missing: synthesised small caps, see below. -/
theorem C118_paragraph_partial {e : ShapeEnv ShapeArgs SingleScriptFont} (hC : e.Contract) {calls : List (Nat × ShapeArgs)}
    {qs : List (Sub ShapeArgs SingleScriptFont)} (pre para post : List UInt8)
    (upper : Int → List UInt8 → List UInt8 × List Edit) (hs : Subs e calls pre.length qs)
    (hc : CallsTo (pre.length + para.length) calls) (hsynth : ∀ q ∈ qs, q.font.syntheticSmallCaps = false) (vertical : Bool) :
    ∃ rs : List (HbBuffer × List HbFeature), requests ⟨pre ++ para ++ post, pre.length, para.length, upper⟩ vertical qs = rs.map some ∧
      rs.flatMap (fun r => r.1.text.map (·.1)) = para ∧
      ∀ r ∈ rs, r.1.before ++ r.1.text.map (·.1) ++ r.1.after = para ∧ (r.1.bot = true ↔ r.1.before = []) ∧
        (r.1.eot = true ↔ r.1.after = []) := by
  have key : ∀ (qs : List (Sub ShapeArgs SingleScriptFont)) (a b : List UInt8), para = a ++ b →
      (∀ q ∈ qs, q.font.syntheticSmallCaps = false) →
      Consecutive (pre.length + para.length) (pre.length + a.length) (qs.map fun q => (q.first, q.stop)) →
      ∃ rs : List (HbBuffer × List HbFeature), requests ⟨pre ++ para ++ post, pre.length, para.length, upper⟩ vertical qs = rs.map some ∧
        rs.flatMap (fun r => r.1.text.map (·.1)) = b ∧
        ∀ r ∈ rs, r.1.before ++ r.1.text.map (·.1) ++ r.1.after = para ∧ (r.1.bot = true ↔ r.1.before = []) ∧
          (r.1.eot = true ↔ r.1.after = []) := by
    intro qs
    induction qs with
    | nil =>
      intro a b hab _ hcon
      simp only [List.map_nil, Consecutive] at hcon
      have : b = [] := by
        apply List.eq_nil_of_length_eq_zero
        rw [hab, List.length_append] at hcon; omega
      exact ⟨[], rfl, this.symm, by simp⟩
    | cons q t ih =>
      intro a b hab hsy hcon
      simp only [List.map_cons, Consecutive] at hcon
      obtain ⟨h1, h2, h3⟩ := hcon
      have hle := h3.le
      have hpl : para.length = a.length + b.length := by rw [hab, List.length_append]
      have hd : (b.take (q.stop - q.first)).length = q.stop - q.first := by rw [List.length_take]; omega
      obtain ⟨rs, i1, i2, i3⟩ := ih (a ++ b.take (q.stop - q.first)) (b.drop (q.stop - q.first))
        (by rw [List.append_assoc, List.take_append_drop]; exact hab) (fun x hx => hsy x (List.mem_cons_of_mem _ hx))
        (by rw [List.length_append, hd]; convert h3 using 2; omega)
      have hp : para = a ++ b.take (q.stop - q.first) ++ b.drop (q.stop - q.first) := by
        rw [List.append_assoc, List.take_append_drop]; exact hab
      obtain ⟨r, r1, r2, r3, r4, r5, r6, r7, -⟩ := C118_text pre a (b.take (q.stop - q.first)) (b.drop (q.stop - q.first)) post
        upper q.font q.args.script (q.args.level % 2 == 1) vertical (hsy q (List.mem_cons_self ..))
      rw [← hp, hd] at r1
      refine ⟨r :: rs, ?_, ?_, ?_⟩
      · rw [List.map_cons, ← i1, ← r1, requests, List.map_cons]
        have : q.first - pre.length = a.length := by omega
        simp only [this]
        rfl
      · rw [List.flatMap_cons, i2, r2, List.take_append_drop]
      · intro x hx
        rcases List.mem_cons.1 hx with rfl | hx
        · refine ⟨by rw [r2, r4, r5]; exact hp.symm, by rw [r6, r4], by rw [r7, r5]⟩
        · exact i3 x hx
  exact key qs [] para rfl hsynth (hs.covers hC hc (by omega))

/-- What a case run starts with. -/
theorem caseRunLimit_upper (lib : FontLib) (offset limit : Nat) (cs : List (Nat × Nat)) : ∀ (idx : Nat) (u : Bool),
    (caseRunLimit lib offset limit cs idx u true).2 = u ∧
    (caseRunLimit lib offset limit cs idx u false).2 =
      ((cs.find? fun x => !lib.combining x.2).map fun x => !lib.changesUpper x.2).getD u := by
  induction cs with
  | nil => intro idx u; simp [caseRunLimit]
  | cons x t ih =>
    intro idx u
    obtain ⟨w, c⟩ := x
    unfold caseRunLimit
    by_cases h : lib.combining c = true
    · simp only [h, ↓reduceIte, List.find?_cons, Bool.not_true]
      exact ih _ _
    · simp only [Bool.not_eq_true] at h
      simp only [h, Bool.false_eq_true, ↓reduceIte, List.find?_cons, Bool.not_false, Option.map_some, Option.getD_some,
        ne_eq, not_true_eq_false]
      refine ⟨?_, (ih _ _).1⟩
      split
      · rfl
      · exact (ih _ _).1

theorem getSubFont_flags {lib : FontLib} {r : Registry} {t t' : FontThread} {font : Font} {cs : List (Nat × Nat)}
    {offset limit : Nat} {script : Int} {sc sub sup : Bool} {out : SingleScriptFont} {new : Nat}
    (h : getSubFont lib r t font cs offset limit script sc sub sup = some (t', out, new)) :
    out.smallcaps = sc ∧ out.subscript = sub ∧ out.superscript = sup ∧ out.syntheticSubscript = sub ∧
    out.syntheticSuperscript = sup ∧
    out.syntheticSmallCaps = (sc && ((cs.find? fun x => !lib.combining x.2).map fun x => lib.changesUpper x.2).getD false) := by
  have hu : ∀ l u, (if sc = true then ((caseRunLimit lib offset limit cs 0 true false).1,
      !(caseRunLimit lib offset limit cs 0 true false).2) else (limit, false)) = (l, u) →
      u = (sc && ((cs.find? fun x => !lib.combining x.2).map fun x => lib.changesUpper x.2).getD false) := by
    intro l u hlu
    cases sc
    · simp only [Bool.false_eq_true, ↓reduceIte, Prod.mk.injEq] at hlu
      rw [← hlu.2]; rfl
    · simp only [↓reduceIte, Prod.mk.injEq] at hlu
      rw [← hlu.2, (caseRunLimit_upper lib offset limit cs 0 true).2]
      cases cs.find? (fun x => !lib.combining x.2) <;> simp
  unfold getSubFont at h
  simp only at h
  split at h
  · cases h
  · split at h
    · cases h
    · split at h
      · cases h
      · split at h
        · obtain ⟨-, rfl, -⟩ := by simpa using h
          exact ⟨rfl, rfl, rfl, rfl, rfl, hu _ _ rfl⟩
        · split at h
          all_goals
            obtain ⟨-, rfl, -⟩ := by simpa using h
            exact ⟨rfl, rfl, rfl, rfl, rfl, hu _ _ rfl⟩

/-- **C118, fonts of the registry.**  For the fonts the registry answers with: the features for subscript and
superscript are never on, as these are always made up; text marked as small caps is either turned into capitals, if
its first character (combining marks aside) is a small letter, or shaped with the feature for small caps, never both. -/
theorem C118_registry (lib : FontLib) (r : Registry) (t t' : FontThread) (font : Font) (cs : List (Nat × Nat))
    (offset limit : Nat) (script : Int) (sc sub sup : Bool) (out : SingleScriptFont) (new count : Nat)
    (h : getSubFont lib r t font cs offset limit script sc sub sup = some (t', out, new)) :
    (out.syntheticSmallCaps = true ↔
      sc = true ∧ ∃ x, cs.find? (fun x => !lib.combining x.2) = some x ∧ lib.changesUpper x.2 = true) ∧
    ∀ i, i < count → ∀ tag, FeatureOn (shapeFeatures out count) tag i ↔
      tag = b!"smcp" ∧ sc = true ∧ out.syntheticSmallCaps = false := by
  obtain ⟨h1, h2, h3, h4, h5, h6⟩ := getSubFont_flags h
  constructor
  · rw [h6]
    cases cs.find? (fun x => !lib.combining x.2) <;> simp
  · intro i hi tag
    rw [features_on out count i hi tag, h1, h2, h3, h4, h5]
    cases sub <;> cases sup <;> simp

/-- **C118 fails for synthesised small caps.**  HarfBuzz is told nothing of the text around the run, although there is
some, and that the paragraph neither begins nor ends there. -/
theorem C118_context_violated (pre a b c post : List UInt8) (upper : Int → List UInt8 → List UInt8 × List Edit)
    (font : SingleScriptFont) (script : Int) (reversed vertical : Bool) (h : font.syntheticSmallCaps = true) (ha : a ≠ [])
    (hc : c ≠ []) :
    ∃ r, shapeRequest ⟨pre ++ (a ++ b ++ c) ++ post, pre.length, (a ++ b ++ c).length, upper⟩ font a.length b.length script
        reversed vertical = some r ∧ r.1.text.map (·.1) = (upper script b).1 ∧ r.1.before = [] ∧ r.1.after = [] ∧
      r.1.bot = false ∧ r.1.eot = false := by
  refine ⟨_, shapeRequest_synthetic pre a b c post upper font script reversed vertical h, ?_, rfl, rfl, ?_, ?_⟩
  · rw [List.map_fst_zip]; simp
  · simpa using ha
  · simpa using hc

/-- Capitals of "b" are "B". -/
def toyUpper (_ : Int) (l : List UInt8) : List UInt8 × List Edit :=
  (l.map fun b => if 97 ≤ b ∧ b ≤ 122 then b - 32 else b, l.map fun _ => ⟨1, 1⟩)

def toyShapeFont (smallcaps synthetic : Bool) : SingleScriptFont :=
  { face := ⟨0#16, 3#4, .normal⟩, size := 16, weight := 3, style := .normal, smallcaps := smallcaps, syntheticSmallCaps := synthetic,
    subscript := true, syntheticSubscript := true }

/-- "x\nabcd\ny", the run "bc" of the paragraph "abcd". -/
example : shapeRequest ⟨b!"x\nabcd\ny", 2, 4, toyUpper⟩ (toyShapeFont true false) 1 2 25 true false =
    some (⟨25, .rtl, false, false, b!"a", [(98, 0), (99, 1)], b!"d"⟩, [⟨b!"smcp", 1, 0, 2⟩]) := by decide +kernel

example : shapeRequest ⟨b!"x\nabcd\ny", 2, 4, toyUpper⟩ (toyShapeFont true true) 1 2 25 true false =
    some (⟨25, .rtl, false, false, [], [(66, 0), (67, 1)], []⟩, []) := by decide +kernel

/-- The condition of `C118_glyphs_partial` for "bc". -/
example : ∃ l, b!"bc".map UInt8.toNat = lowerText l ∧ (toyUpper 25 b!"bc").1.map UInt8.toNat = upperText l ∧
    Records l (toyUpper 25 b!"bc").2 ∧ (∀ p ∈ l, p.WellFormed) ∧ SameLength l ∧ (upperText l).length ≤ 2 ^ 31 := by
  refine ⟨[⟨[98], [66]⟩, ⟨[99], [67]⟩], by decide, by decide +kernel, .change _ (.change _ .nil), ?_, ?_, by decide⟩
  · intro p hp
    simp only [List.mem_cons, List.not_mem_nil, or_false] at hp
    rcases hp with rfl | rfl
    · exact ⟨'b', by decide⟩
    · exact ⟨'c', by decide⟩
  · intro p hp
    simp only [List.mem_cons, List.not_mem_nil, or_false] at hp
    rcases hp with rfl | rfl <;> rfl

/-- A HarfBuzz that draws one ligature of all characters. -/
def toyHb (_ : SingleScriptFont) (b : HbBuffer) (_ : List HbFeature) : List HbGlyph :=
  (b.text.head?.map fun x => ⟨7, x.2, 64, 0, 0, 0⟩).toList

example : HbShapes toyHb := by
  refine ⟨?_, ?_, ?_⟩
  · intro f b fs g hg
    cases h : b.text with
    | nil => simp [toyHb, h] at hg
    | cons x t =>
      simp [toyHb, h] at hg
      exact ⟨x, List.mem_cons_self .., by rw [hg]⟩
  all_goals
    intro f b fs _
    cases h : b.text <;> simp [toyHb, h]

example : shapeGlyphs toyHb ⟨b!"x\nabcd\ny", 2, 4, toyUpper⟩ (toyShapeFont true true) 1 2 25 true false =
    some [⟨7, 0, 64, 0, 0, 0⟩] := by decide +kernel

def toyArgs (level : Nat) : ShapeArgs := ⟨⟨FontFace.make 0 0 .normal, 16⟩, 25, level, true, true, false⟩

/-- Fonts change at index 4. -/
def toyShapeEnv : ShapeEnv ShapeArgs SingleScriptFont where
  subFont _ offset limit := (toyShapeFont (decide (offset < 4)) false, if offset < 4 ∧ 4 ≤ limit then 4 else limit)
  shape _ _ _ _ := []
  reversed v := v.level % 2 == 1
  same f g := f.same g
  isTab _ := false
  spaceAdvance _ := 0
  spaceGlyph _ := 0
  vertical := false

/-- The hypotheses of `C118_paragraph_partial`, for two calls and three parts. -/
example : ∃ qs, toyShapeEnv.Contract ∧ Subs toyShapeEnv [(5, toyArgs 0), (6, toyArgs 1)] 2 qs ∧
    CallsTo 6 [(5, toyArgs 0), (6, toyArgs 1)] ∧ (∀ q ∈ qs, q.font.syntheticSmallCaps = false) ∧
    requests ⟨b!"x\nabcd\ny", 2, 4, toyUpper⟩ false qs =
      [some (⟨25, .ltr, true, false, [], [(97, 0), (98, 1)], b!"cd"⟩, [⟨b!"smcp", 1, 0, 2⟩]),
        some (⟨25, .ltr, false, false, b!"ab", [(99, 0)], b!"d"⟩, []),
        some (⟨25, .rtl, false, true, b!"abc", [(100, 0)], []⟩, [])] := by
  refine ⟨[⟨toyShapeFont true false, toyArgs 0, 2, 4⟩, ⟨toyShapeFont false false, toyArgs 0, 4, 5⟩,
    ⟨toyShapeFont false false, toyArgs 1, 5, 6⟩], ⟨?_, ?_, ?_⟩, ?_, ⟨by decide, rfl⟩, by decide, by decide +kernel⟩
  · intro v offset limit h
    simp only [toyShapeEnv]
    split <;> omega
  · intro f v a b _ g hg; cases hg
  · intro f v a b _; split <;> exact List.Pairwise.nil
  · exact Subs.sub (by decide) (Subs.sub (by decide) (Subs.next (by decide) (Subs.sub (by decide) (Subs.next (by decide)
      (Subs.nil _)))))

end RichText
