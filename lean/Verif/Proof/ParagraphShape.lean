import Verif.Proof.ParagraphFonts
import Verif.Spec.ParagraphFonts
/-!
Shaping with the fonts of the registry is shaping in `ParagraphFonts.env`.
-/
namespace RichText

theorem effective_pos {size : Nat} (h : 2 ≤ size) (h' : size < 2 ^ 20) (sc sub : Bool) :
    ∃ eff, effectiveSize size sc sub = some eff ∧ 0 < eff := by
  cases sc <;> cases sub
  · exact ⟨_, effective_plain (by omega), by omega⟩
  · exact ⟨_, effective_subSuper h', by omega⟩
  · exact ⟨_, effective_smallCaps h', by omega⟩
  · exact ⟨_, effective_both h', by omega⟩

variable {p : ParagraphFonts} {calls : List (Nat × ShapeArgs)}

namespace ParagraphFonts

theorem init_cache (lib : FontLib) (r : Registry) : CacheOK lib r .init := fun _ h => by cases h

theorem Proper.reached (hp : p.Proper calls) : p.reg.Reached p.lib := by
  obtain ⟨hist, hr, _⟩ := hp.ran
  exact hr.reached

theorem env_ordered (p : ParagraphFonts) (space : BitVec 16 → Int) (f : SingleScriptFont) (v : ShapeArgs) (a b : Nat) :
    OrderedClusters (v.level % 2 == 1) (b - a) ((p.env space).shape f v a b) := by
  simp only [env]
  split
  · rename_i h; exact h
  · refine ⟨fun g hg => (by cases hg), ?_⟩
    split <;> exact List.Pairwise.nil

theorem drop_slice {α : Type} (l : List α) {i j : Nat} (h : i ≤ j) : l.drop i = (l.drop i).take (j - i) ++ l.drop j := by
  conv => lhs; rw [← List.take_append_drop (j - i) (l.drop i)]
  rw [List.drop_drop, Nat.add_sub_cancel' h]

/-- The environment keeps the contracts. -/
theorem Proper.contract (hp : p.Proper calls) (space : BitVec 16 → Int) : (p.env space).Contract where
  subFont := by
    intro v offset limit hlt
    obtain ⟨hn, hw⟩ := hp.chars offset limit hlt
    simp only [env]
    cases hg : getSubFont p.lib p.reg .init v.font (p.chars offset limit) offset limit v.script v.smallcaps v.subscript v.superscript with
    | none => exact ⟨hlt, Nat.le_refl _⟩
    | some x =>
      obtain ⟨t', out, new⟩ := x
      have hne : p.chars offset limit ≠ [] := by
        intro he
        rw [he] at hn
        simp only [nativeLength, List.map_nil, List.sum_nil] at hn
        omega
      have hl : limit = offset + nativeLength (p.chars offset limit) := by omega
      rw [hl] at hg
      conv at hg => lhs; arg 5; rw [← hl]
      obtain ⟨h1, h2, _⟩ := C45_advances p.lib p.reg .init t' v.font _ offset v.script v.smallcaps v.subscript v.superscript out new
        (.start hp.reached) hp.fits hne hw hg
      exact ⟨h1, by simp only; omega⟩
  cluster := fun f v a b _ => (env_ordered p space f v a b).1
  order := fun f v a b _ => (env_ordered p space f v a b).2

/-- What HarfBuzz is asked for a run and what it answers. -/
theorem run_glyphs (hp : p.Proper calls) {v : ShapeArgs} {font : SingleScriptFont} {file : Nat} (hl : p.reg.Loads p.lib font.face file)
    {eff : Nat} (he : font.request.effective = some eff) {first stop : Nat} (h1 : p.text.start ≤ first) (h2 : first ≤ stop)
    (h3 : stop ≤ p.text.start + p.text.length)
    (hcaps : font.syntheticSmallCaps = true →
      ∃ l, ((p.text.mem.drop first).take (stop - first)).map UInt8.toNat = lowerText l ∧
        (p.text.upper v.script ((p.text.mem.drop first).take (stop - first))).1.map UInt8.toNat = upperText l ∧
        Records l (p.text.upper v.script ((p.text.mem.drop first).take (stop - first))).2 ∧ (∀ q ∈ l, q.WellFormed) ∧
        SameLength l ∧ (upperText l).length ≤ 2 ^ 31) :
    ∃ gs, shapeGlyphs (fun _ => p.hb file eff true) p.text font (first - p.text.start) (stop - first) v.script (v.level % 2 == 1)
        p.vertical = some gs ∧ p.file font = some file ∧ p.glyphs font v first stop = gs ∧
      OrderedClusters (v.level % 2 == 1) (stop - first) gs := by
  have hpf : p.file font = some file := by
    obtain ⟨fd, hfd, hff, _⟩ := hl
    unfold ParagraphFonts.file
    rw [hfd]; exact hff
  generalize hA : (p.text.mem.drop p.text.start).take (first - p.text.start) = A at *
  generalize hB : (p.text.mem.drop first).take (stop - first) = B at *
  generalize hC : (p.text.mem.drop stop).take (p.text.start + p.text.length - stop) = C at *
  have hin := hp.inside
  have hmem : p.text.mem = p.text.mem.take p.text.start ++ (A ++ B ++ C) ++ p.text.mem.drop (p.text.start + p.text.length) := by
    conv => lhs; rw [← List.take_append_drop p.text.start p.text.mem, drop_slice p.text.mem h1, drop_slice p.text.mem h2,
      drop_slice p.text.mem h3, hA, hB, hC]
    simp only [List.append_assoc]
  have lA : A.length = first - p.text.start := by rw [← hA, List.length_take, List.length_drop]; omega
  have lB : B.length = stop - first := by rw [← hB, List.length_take, List.length_drop]; omega
  have lC : C.length = p.text.start + p.text.length - stop := by rw [← hC, List.length_take, List.length_drop]; omega
  have lP : (p.text.mem.take p.text.start).length = p.text.start := by rw [List.length_take]; omega
  obtain ⟨gs, s1, s2, s3, s4⟩ := C118_glyphs_partial (p.text.mem.take p.text.start) A B C
    (p.text.mem.drop (p.text.start + p.text.length)) p.text.upper font v.script (v.level % 2 == 1) p.vertical
    (fun _ => p.hb file eff true) (hp.hb file eff) hcaps
  rw [← hmem, lP, lA, lB, show (A ++ B ++ C).length = p.text.length by simp only [List.length_append]; omega] at s1
  have hgl : p.glyphs font v first stop = gs := by
    unfold ParagraphFonts.glyphs
    rw [hpf, he]
    simp only
    rw [s1]; rfl
  have hord : OrderedClusters (v.level % 2 == 1) (stop - first) gs := by
    refine ⟨fun g hg => by rw [← lB]; exact s2 g hg, ?_⟩
    split
    · rename_i h; exact s4 h
    · rename_i h; exact s3 (by simpa using h)
  exact ⟨gs, s1, hpf, hgl, hord⟩

/-- One run: its face has been loaded before, at whatever size. -/
theorem shapeRun_spec (hp : p.Proper calls) {v : ShapeArgs} {t : FontThread} (ht : FontRun p.lib p.reg t) {font : SingleScriptFont}
    (hc : Cached t font.face) {file : Nat} (hl : p.reg.Loads p.lib font.face file) {eff : Nat} (he : font.request.effective = some eff)
    (hpos : 0 < eff) {first stop : Nat} (h1 : p.text.start ≤ first) (h2 : first ≤ stop) (h3 : stop ≤ p.text.start + p.text.length)
    (hcaps : font.syntheticSmallCaps = true →
      ∃ l, ((p.text.mem.drop first).take (stop - first)).map UInt8.toNat = lowerText l ∧
        (p.text.upper v.script ((p.text.mem.drop first).take (stop - first))).1.map UInt8.toNat = upperText l ∧
        Records l (p.text.upper v.script ((p.text.mem.drop first).take (stop - first))).2 ∧ (∀ q ∈ l, q.WellFormed) ∧
        SameLength l ∧ (upperText l).length ≤ 2 ^ 31)
    (b : Shaped SingleScriptFont) :
    ∃ t' b', p.shapeRun font v first stop t b = some (t', b') ∧ FontRun p.lib p.reg t' ∧ CacheKeeps t t' ∧
      (∀ hb : Nat → Nat → Bool → HbBuffer → List HbFeature → List HbGlyph, (∀ file eff, hb file eff true = p.hb file eff true) →
        ({ p with hb := hb } : ParagraphFonts).shapeRun font v first stop t b = some (t', b')) ∧
      ∀ space, (∀ h o, t'.cache.lookup h = some o → o.spaceAdvance = space h) →
        b' = b.addShaped ((p.env space).shape font v first stop) first ((p.env space).reversed v) (p.env space).vertical
          (p.env space).isTab ((p.env space).spaceAdvance font) ((p.env space).spaceGlyph font) := by
  have hlt : font.request.face.handle.toNat < p.reg.faces.length := by
    obtain ⟨fd, hfd, _⟩ := hl
    exact (List.getElem?_eq_some_iff.1 hfd).1
  obtain ⟨⟨t', res⟩, hg⟩ := getFontData_total (lib := p.lib) (t := t) (q := font.request) (by rw [he]; simp) hlt
  obtain ⟨_, g1, g2⟩ := getFontData_spec ht.cache hg
  cases res with
  | none => exact absurd hl (g2 rfl _)
  | some d =>
    obtain ⟨o, eff', k1, k2, k3, k4, k5, k6⟩ := g1 d rfl
    rw [he] at k1; cases k1
    have hfile : d.file = file := loads_unique k6 hl
    have hkey : d.key = font.face.handle := by rw [k4]; rfl
    have ho : t'.cache.lookup d.key = some o := by rw [hkey]; exact k2
    have hsc : (t.cache.lookup d.key).isSome = true := by
      obtain ⟨o', ho'⟩ := hc
      rw [hkey, ho']; rfl
    obtain ⟨gs, s1, hpf, hgl, hord⟩ := run_glyphs hp hl he h1 h2 h3 hcaps
    refine ⟨t', b.addShaped gs first (v.level % 2 == 1) p.vertical p.isTab d.spaceAdvance d.spaceGlyph, ?_, .fontData ht hg,
      (getFontData_keeps hg).1, ?_, ?_⟩
    · unfold shapeRun
      rw [hg]
      simp only
      rw [ho]
      simp only
      rw [hsc, hfile, k5 hpos, s1]
    · intro hb hhb
      unfold shapeRun
      simp only
      rw [hg]
      simp only
      rw [ho]
      simp only
      rw [hsc, hfile, k5 hpos, hhb, s1]
      rfl
    · intro space hsp
      have e1 : (p.env space).shape font v first stop = gs := by
        simp only [env, hgl]
        rw [if_pos hord]
      have e2 : (p.env space).spaceAdvance font = d.spaceAdvance := by
        show space font.face.handle = _
        have := hsp _ _ k2
        rw [k4]
        exact this.symm
      have e3 : (p.env space).spaceGlyph font = d.spaceGlyph := by
        simp only [env, hpf]
        obtain ⟨_, _, _, h, _⟩ := k3.data
        rw [← hfile, k4]
        exact h.symm
      rw [e1, e2, e3]
      rfl

theorem Proper.chars_ne (hp : p.Proper calls) {a b : Nat} (h : a < b) : p.chars a b ≠ [] := by
  intro he
  have hn := (hp.chars a b h).1
  rw [he] at hn
  simp only [nativeLength, List.map_nil, List.sum_nil] at hn
  omega

/-- The loop of one call. -/
theorem loop_spec (hp : p.Proper calls) {limit : Nat} {v : ShapeArgs} (hm : (limit, v) ∈ calls) (n : Nat) :
    ∀ (offset : Nat) (t : FontThread) (b : Shaped SingleScriptFont), limit - offset = n → FontRun p.lib p.reg t →
      p.text.start ≤ offset →
      ∃ t' off' b', p.loop v limit offset t b = some (t', off', b') ∧ FontRun p.lib p.reg t' ∧ CacheKeeps t t' ∧ offset ≤ off' ∧
        (∀ hb : Nat → Nat → Bool → HbBuffer → List HbFeature → List HbGlyph, (∀ file eff, hb file eff true = p.hb file eff true) →
          ({ p with hb := hb } : ParagraphFonts).loop v limit offset t b = some (t', off', b')) ∧
        ∀ space, (∀ h o, t'.cache.lookup h = some o → o.spaceAdvance = space h) →
          subFontLoop (p.env space) v limit offset b = some (off', b') := by
  induction n using Nat.strongRecOn with
  | _ n ih =>
    intro offset t b hn ht hs
    by_cases hlt : offset < limit
    · obtain ⟨hist, hran, hne⟩ := hp.ran
      obtain ⟨a1, a2, a3, a4, a5, a6⟩ := hp.args _ hm
      have hlim := hp.limits _ hm
      obtain ⟨hcl, hcw⟩ := hp.chars offset limit hlt
      have hcne := hp.chars_ne hlt
      obtain ⟨⟨t1, out, new⟩, hg⟩ := C45_defined p.lib hist p.reg hran hp.fits hne t v.font (p.chars offset limit) offset limit v.script
        v.smallcaps v.subscript v.superscript a1 a2 (by simp only at a4; omega) a5 a6
      obtain ⟨u', hu⟩ := getSubFont_same ht.cache (init_cache p.lib p.reg) hg
      have henv : ∀ space, (p.env space).subFont v offset limit = (out, new) := by
        intro space
        simp only [env]
        rw [hu]
      have hadv := (hp.contract fun _ => 0).subFont v offset limit hlt
      rw [henv] at hadv
      simp only at hadv
      obtain ⟨k1, k2⟩ := getSubFont_keeps hg
      obtain ⟨hc, file, hl⟩ := k2 (fun base hb => by
        obtain ⟨file, hf⟩ := hp.loads _ hm base hb
        exact ⟨loads_valid hp.reached hp.fits hf, file, hf⟩) ht.cache hcne
      obtain ⟨c1, _⟩ := C45_carries _ _ _ _ _ _ _ _ _ _ _ _ _ _ hg
      obtain ⟨eff, he, hpos⟩ := effective_pos (size := out.size.toNat) (by rw [c1]; exact a3) (by rw [c1]; exact a4)
        out.syntheticSmallCaps (out.syntheticSubscript || out.syntheticSuperscript)
      obtain ⟨t2, b2, s1, s2, s3, s5, s4⟩ := shapeRun_spec hp (v := v) (.subFont ht hg) hc hl he hpos hs (Nat.le_of_lt hadv.1)
        (Nat.le_trans hadv.2 hlim) (hp.caps _ hm u' offset limit out new hu) b
      obtain ⟨t3, off3, b3, r1, r2, r3, r4, r6, r5⟩ := ih (limit - new) (by omega) new t2 (b2.addRun SingleScriptFont.same out new) rfl s2
        (by omega)
      refine ⟨t3, off3, b3, ?_, r2, (k1.trans s3).trans r3, by omega, ?_, ?_⟩
      · unfold loop
        rw [if_pos hlt, hg]
        simp only
        rw [if_pos hadv.1, s1]
        exact r1
      · intro hb hhb
        unfold loop
        simp only
        rw [if_pos hlt, hg]
        simp only
        rw [if_pos hadv.1, s5 hb hhb]
        exact r6 hb hhb
      · intro space hsp
        unfold subFontLoop
        rw [if_pos hlt, henv]
        simp only
        rw [if_pos hadv.1]
        have hb2 := s4 space (fun h o ho => by
          obtain ⟨o', h', e'⟩ := r3 h o ho
          rw [← e']; exact hsp _ _ h')
        have := r5 space hsp
        rw [hb2] at this
        exact this
    · refine ⟨t, offset, b, ?_, ht, .refl _, Nat.le_refl _, ?_, ?_⟩
      · unfold loop; rw [if_neg hlt]
      · intro hb _; unfold loop; rw [if_neg hlt]
      · intro space _
        unfold subFontLoop; rw [if_neg hlt]

/-- All the calls. -/
theorem shape_spec (hp : p.Proper calls) : ∀ (cs : List (Nat × ShapeArgs)) (offset : Nat) (t : FontThread)
    (b : Shaped SingleScriptFont), (∀ c ∈ cs, c ∈ calls) → FontRun p.lib p.reg t → p.text.start ≤ offset →
    ∃ t' off' b', p.shape cs offset t b = some (t', off', b') ∧ FontRun p.lib p.reg t' ∧ CacheKeeps t t' ∧
      (∀ hb : Nat → Nat → Bool → HbBuffer → List HbFeature → List HbGlyph, (∀ file eff, hb file eff true = p.hb file eff true) →
        ({ p with hb := hb } : ParagraphFonts).shape cs offset t b = some (t', off', b')) ∧
      ∀ space, (∀ h o, t'.cache.lookup h = some o → o.spaceAdvance = space h) →
        shapeCalls (p.env space) cs offset b = some (off', b') := by
  intro cs
  induction cs with
  | nil => intro offset t b _ ht _; exact ⟨t, offset, b, rfl, ht, .refl _, fun _ _ => rfl, fun _ _ => rfl⟩
  | cons c cs ih =>
    intro offset t b hsub ht hs
    obtain ⟨limit, v⟩ := c
    obtain ⟨t1, off1, b1, q1, q2, q3, q4, q6, q5⟩ := loop_spec hp (hsub _ List.mem_cons_self) _ offset t b rfl ht hs
    obtain ⟨t2, off2, b2, r1, r2, r3, r5, r4⟩ := ih off1 t1 b1 (fun c hc => hsub c (List.mem_cons_of_mem _ hc)) q2 (by omega)
    refine ⟨t2, off2, b2, ?_, r2, q3.trans r3, ?_, ?_⟩
    · unfold shape
      rw [q1]; exact r1
    · intro hb hhb
      unfold shape
      rw [q6 hb hhb]; exact r5 hb hhb
    · intro space hsp
      unfold shapeCalls
      rw [q5 space (fun h o ho => by
        obtain ⟨o', h', e'⟩ := r3 h o ho
        rw [← e']; exact hsp _ _ h')]
      exact r4 space hsp

/-- What is shaped at each place. -/
theorem Proper.run (hp : p.Proper calls) {limit : Nat} {v : ShapeArgs} (hm : (limit, v) ∈ calls) {offset : Nat} (hlt : offset < limit)
    (hs : p.text.start ≤ offset) (space : BitVec 16 → Int) :
    ∃ u' out new file eff gs, getSubFont p.lib p.reg .init v.font (p.chars offset limit) offset limit v.script v.smallcaps v.subscript
        v.superscript = some (u', out, new) ∧ p.reg.Loads p.lib out.face file ∧
      effectiveSize v.font.size.toNat out.syntheticSmallCaps (v.subscript || v.superscript) = some eff ∧
      shapeGlyphs (fun _ => p.hb file eff true) p.text out (offset - p.text.start) (new - offset) v.script (v.level % 2 == 1)
        p.vertical = some gs ∧
      (p.env space).subFont v offset limit = (out, new) ∧ (p.env space).shape out v offset new = gs ∧
      (p.env space).spaceGlyph out = p.lib.spaceGlyph file := by
  obtain ⟨hist, hran, hne⟩ := hp.ran
  obtain ⟨a1, a2, a3, a4, a5, a6⟩ := hp.args _ hm
  have hlim := hp.limits _ hm
  obtain ⟨⟨u', out, new⟩, hu⟩ := C45_defined p.lib hist p.reg hran hp.fits hne .init v.font (p.chars offset limit) offset limit v.script
    v.smallcaps v.subscript v.superscript a1 a2 (by simp only at a4; omega) a5 a6
  have henv : (p.env space).subFont v offset limit = (out, new) := by
    simp only [env]
    rw [hu]
  have hadv := (hp.contract space).subFont v offset limit hlt
  rw [henv] at hadv
  simp only at hadv
  obtain ⟨_, file, hl⟩ := (getSubFont_keeps hu).2 (fun base hb => by
    obtain ⟨file, hf⟩ := hp.loads _ hm base hb
    exact ⟨loads_valid hp.reached hp.fits hf, file, hf⟩) (init_cache _ _) (hp.chars_ne hlt)
  obtain ⟨c1, _, _, _, _, _, c7, c8, _⟩ := C45_carries _ _ _ _ _ _ _ _ _ _ _ _ _ _ hu
  obtain ⟨eff, he, hpos⟩ := effective_pos (size := out.size.toNat) (by rw [c1]; exact a3) (by rw [c1]; exact a4)
    out.syntheticSmallCaps (out.syntheticSubscript || out.syntheticSuperscript)
  obtain ⟨gs, s1, s2, s3, s4⟩ := run_glyphs hp hl he hs (Nat.le_of_lt hadv.1) (Nat.le_trans hadv.2 hlim)
    (hp.caps _ hm u' offset limit out new hu)
  refine ⟨u', out, new, file, eff, gs, hu, hl, ?_, s1, henv, ?_, ?_⟩
  · rw [← c1, ← c7, ← c8]; exact he
  · simp only [env, s3]
    rw [if_pos s4]
  · simp only [env, s2]

/-- All paragraphs. -/
theorem shapeAll_spec {lib : FontLib} {reg : Registry} : ∀ (ps : List (ParagraphFonts × List (Nat × ShapeArgs))) (t : FontThread),
    (∀ x ∈ ps, x.1.Proper x.2 ∧ x.1.lib = lib ∧ x.1.reg = reg) → FontRun lib reg t →
    ∃ t' xs, shapeAll ps t = some (t', xs) ∧ FontRun lib reg t' ∧ CacheKeeps t t' ∧
      ∀ space, (∀ h o, t'.cache.lookup h = some o → o.spaceAdvance = space h) →
        List.Forall₂ (fun x y => shapeCalls (x.1.env space) x.2 x.1.text.start {} = some y) ps xs := by
  intro ps
  induction ps with
  | nil => intro t _ ht; exact ⟨t, [], rfl, ht, .refl _, fun _ _ => .nil⟩
  | cons x ps ih =>
    intro t hps ht
    obtain ⟨p, calls⟩ := x
    obtain ⟨hp, e1, e2⟩ := hps _ List.mem_cons_self
    simp only at hp e1 e2
    obtain ⟨t1, off1, b1, q1, q2, q3, _, q5⟩ := shape_spec hp calls p.text.start t {} (fun _ h => h) (by rw [e1, e2]; exact ht)
      (Nat.le_refl _)
    rw [e1, e2] at q2
    obtain ⟨t2, xs, r1, r2, r3, r4⟩ := ih t1 (fun x hx => hps x (List.mem_cons_of_mem _ hx)) q2
    refine ⟨t2, (off1, b1) :: xs, ?_, r2, q3.trans r3, ?_⟩
    · unfold shapeAll
      rw [q1]
      simp only
      rw [r1]
    · intro space hsp
      refine .cons (q5 space (fun h o ho => ?_)) (r4 space hsp)
      obtain ⟨o', h', e'⟩ := r3 h o ho
      rw [← e']; exact hsp _ _ h'

/-! ### The advance of blanks matters for the widths only -/

/-- Equal but for the widths. -/
def Alike {φ : Type _} (b b' : Shaped φ) : Prop :=
  b'.glyphs = b.glyphs ∧ b'.charIdx = b.charIdx ∧ b'.secondary = b.secondary ∧ b'.cursor = b.cursor ∧ b'.runs = b.runs

theorem addShaped_alike {φ : Type _} {b b' : Shaped φ} (h : Alike b b') (gs : List HbGlyph) (start : Nat) (reversed vertical : Bool)
    (isTab : Nat → Bool) (x y : Int) (blank : Nat) :
    Alike (b.addShaped gs start reversed vertical isTab x blank) (b'.addShaped gs start reversed vertical isTab y blank) := by
  obtain ⟨h1, h2, h3, h4, h5⟩ := h
  have e1 : (gs.map fun g => replaceTab x blank (isTab (g.cluster + start)) g).map (·.glyph) =
      (gs.map fun g => replaceTab y blank (isTab (g.cluster + start)) g).map (·.glyph) := by
    rw [List.map_map, List.map_map]
    refine List.map_congr_left fun g _ => ?_
    simp only [Function.comp, replaceTab]
    split <;> rfl
  have e2 : (gs.map fun g => replaceTab x blank (isTab (g.cluster + start)) g).map (·.cluster + start) =
      (gs.map fun g => replaceTab y blank (isTab (g.cluster + start)) g).map (·.cluster + start) := by
    rw [List.map_map, List.map_map]
    refine List.map_congr_left fun g _ => ?_
    simp only [Function.comp, replaceTab]
    split <;> rfl
  refine ⟨?_, ?_, ?_, ?_, h5⟩
  · simp only [Shaped.addShaped]; rw [h1, e1]
  · simp only [Shaped.addShaped]; rw [h2, e2]
  · simp only [Shaped.addShaped]; rw [h3, h4]
  · simp only [Shaped.addShaped]; rw [h4]

theorem addRun_alike {φ : Type _} {b b' : Shaped φ} (h : Alike b b') (same : φ → φ → Bool) (font : φ) (e : Nat) :
    Alike (b.addRun same font e) (b'.addRun same font e) := by
  obtain ⟨h1, h2, h3, h4, h5⟩ := h
  unfold Shaped.addRun
  rw [h5, h1]
  split
  · exact ⟨rfl, h2, h3, h4, rfl⟩
  · split <;> exact ⟨rfl, h2, h3, h4, rfl⟩

theorem subFontLoop_alike {p : ParagraphFonts} {x y : BitVec 16 → Int} {v : ShapeArgs} {limit : Nat} (n : Nat) :
    ∀ (offset : Nat) (b b' : Shaped SingleScriptFont) (r : Nat × Shaped SingleScriptFont), limit - offset = n → Alike b b' →
      subFontLoop (p.env x) v limit offset b = some r →
      ∃ c, subFontLoop (p.env y) v limit offset b' = some (r.1, c) ∧ Alike r.2 c := by
  induction n using Nat.strongRecOn with
  | _ n ih =>
    intro offset b b' r hn ha h
    unfold subFontLoop at h ⊢
    by_cases hlt : offset < limit
    · rw [if_pos hlt] at h ⊢
      have hs : (p.env y).subFont v offset limit = (p.env x).subFont v offset limit := rfl
      rw [hs]
      by_cases h2 : offset < ((p.env x).subFont v offset limit).2
      · rw [if_pos h2] at h ⊢
        exact ih _ (by omega) _ _ _ r rfl (addRun_alike (addShaped_alike ha _ _ _ _ _ _ _ _) _ _ _) h
      · rw [if_neg h2] at h; cases h
    · rw [if_neg hlt] at h ⊢
      cases h
      exact ⟨b', rfl, ha⟩

theorem shapeCalls_alike {p : ParagraphFonts} {x y : BitVec 16 → Int} : ∀ (cs : List (Nat × ShapeArgs)) (offset : Nat)
    (b b' : Shaped SingleScriptFont) (r : Nat × Shaped SingleScriptFont), Alike b b' →
    shapeCalls (p.env x) cs offset b = some r → ∃ c, shapeCalls (p.env y) cs offset b' = some (r.1, c) ∧ Alike r.2 c := by
  intro cs
  induction cs with
  | nil => intro offset b b' r ha h; cases h; exact ⟨b', rfl, ha⟩
  | cons c cs ih =>
    intro offset b b' r ha h
    obtain ⟨limit, v⟩ := c
    unfold shapeCalls at h ⊢
    cases hl : subFontLoop (p.env x) v limit offset b with
    | none => rw [hl] at h; cases h
    | some q =>
      rw [hl] at h
      obtain ⟨c, h1, h2⟩ := subFontLoop_alike (y := y) _ offset b b' q rfl ha hl
      rw [h1]
      exact ih q.1 q.2 c r h2 h

/-- Without tabs it does not matter at all. -/
theorem addShaped_tabless {φ : Type _} (b : Shaped φ) (gs : List HbGlyph) (start : Nat) (reversed vertical : Bool)
    {isTab : Nat → Bool} (h : ∀ i, isTab i = false) (x y : Int) (blank : Nat) :
    b.addShaped gs start reversed vertical isTab x blank = b.addShaped gs start reversed vertical isTab y blank := by
  have e : ∀ g, replaceTab x blank (isTab (g.cluster + start)) g = replaceTab y blank (isTab (g.cluster + start)) g := by
    intro g; rw [h]; rfl
  simp only [Shaped.addShaped, e]

theorem subFontLoop_tabless {p : ParagraphFonts} (h : ∀ i, p.isTab i = false) (x y : BitVec 16 → Int) {v : ShapeArgs} {limit : Nat}
    (n : Nat) : ∀ (offset : Nat) (b : Shaped SingleScriptFont), limit - offset = n →
      subFontLoop (p.env x) v limit offset b = subFontLoop (p.env y) v limit offset b := by
  induction n using Nat.strongRecOn with
  | _ n ih =>
    intro offset b hn
    unfold subFontLoop
    by_cases hlt : offset < limit
    · rw [if_pos hlt, if_pos hlt]
      have hs : (p.env y).subFont v offset limit = (p.env x).subFont v offset limit := rfl
      rw [hs]
      by_cases h2 : offset < ((p.env x).subFont v offset limit).2
      · rw [if_pos h2, if_pos h2, ih _ (by omega) _ _ rfl]
        congr 1
        exact congrArg (fun z => Shaped.addRun _ z _ _) (addShaped_tabless b _ _ _ _ h _ _ _)
      · rw [if_neg h2, if_neg h2]
    · rw [if_neg hlt, if_neg hlt]

theorem shapeCalls_tabless {p : ParagraphFonts} (h : ∀ i, p.isTab i = false) (x y : BitVec 16 → Int) :
    ∀ (cs : List (Nat × ShapeArgs)) (offset : Nat) (b : Shaped SingleScriptFont),
      shapeCalls (p.env x) cs offset b = shapeCalls (p.env y) cs offset b := by
  intro cs
  induction cs with
  | nil => intro offset b; rfl
  | cons c cs ih =>
    intro offset b
    unfold shapeCalls
    rw [subFontLoop_tabless h x y _ offset b rfl]
    split
    · rfl
    · exact ih _ _

end ParagraphFonts

end RichText
