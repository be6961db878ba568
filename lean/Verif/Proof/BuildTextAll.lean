import Verif.Proof.BuildTextRun
import Verif.Props.TextRuns
/-!
The whole text.
-/
namespace RichText
open Spec

theorem RunsFit.getValue {α : Type _} {r : ValueRuns α} {n : Nat} (h : RunsFit r n) {i : Nat} (hi : i < n) :
    ∃ x ∈ r.values, r.view.getValue (i : Int) = some x := by
  rw [h.holds.shows.getValue h.sorted.1]
  obtain ⟨_, _, he, _⟩ := h.sorted
  cases hv : valueAt (r.limits.zip r.values) (i : Int) with
  | none =>
    exfalso
    unfold valueAt at hv
    rw [Option.map_eq_none_iff, List.find?_eq_none] at hv
    unfold endOf at he
    obtain ⟨p, hp, e⟩ := Option.map_eq_some_iff.1 he
    have := hv p (List.mem_of_getLast? hp)
    simp only [decide_eq_true_eq] at this
    omega
  | some x =>
    refine ⟨x, ?_, rfl⟩
    unfold valueAt at hv
    obtain ⟨p, hp, rfl⟩ := Option.map_eq_some_iff.1 hv
    exact (List.of_mem_zip (List.mem_of_find?_eq_some hp)).2

namespace BuildLibs
variable {b : BuildLibs} {starts : Bytes → Nat → Nat → Nat → Prop} {limit k : Nat}

/-- The answers at the places of the calls are as they may be. -/
def FineCalls (b : BuildLibs) (starts : Bytes → Nat → Nat → Nat → Prop) (k : Nat) (text : Bytes) (s n : Nat)
    (calls : List (Nat × ShapeArgs)) : Prop :=
  ∀ limit v, (limit, v) ∈ calls → ∀ i, s ≤ i → i < limit →
    ∀ u out new file, getSubFont b.lib b.reg .init v.font (b.chars text i limit) i limit v.script v.smallcaps v.subscript v.superscript =
      some (u, out, new) → b.reg.Loads b.lib out.face file → ∀ eff, 0 < eff →
    FineGlyphs (starts text s n) (b.para text s n).isTab (b.lib.advance file eff (b.lib.spaceGlyph file)) k (v.level % 2 == 1) i new
      ((b.para text s n).glyphs out v i new)

/-- With the calls of a paragraph the environment does what the registry and HarfBuzz do. -/
theorem env_calls {text : Bytes} {s n : Nat} {calls : List (Nat × ShapeArgs)} (hp : (b.para text s n).Proper calls)
    (hf : FineCalls b starts k text s n calls) {space : BitVec 16 → Int} (hb : BlankOf b space) :
    shapeCalls (b.env starts k space text s n).toShapeEnv calls s {} = shapeCalls ((b.para text s n).env space) calls s {} := by
  refine shapeCalls_shape (e := (b.para text s n).env space) (start := s) calls ?_ s {} (Nat.le_refl _)
  intro lim v hm i hi hlt
  obtain ⟨u, out, new, file, eff, gs, h1, h2, _, _, h3, _⟩ := hp.run hm hlt hi space
  rw [h3]
  simp only
  obtain ⟨e, he, hs⟩ := hb.eq _ _ h2
  have fine := hf lim v hm i hi hlt u out new file h1 h2 e he
  rw [← hs] at fine
  rw [if_pos fine]
  show _ = if OrderedClusters _ _ _ then _ else _
  rw [if_pos fine.ordered]

theorem env_fonts {text : Bytes} {s n : Nat} {calls : List (Nat × ShapeArgs)} (hp : (b.para text s n).Proper calls)
    {space : BitVec 16 → Int} {r : Nat × Shaped SingleScriptFont}
    (h : shapeCalls ((b.para text s n).env space) calls s {} = some r) : ∀ q ∈ r.2.runs, FontGood b q.font := by
  refine shapeCalls_fonts (e := (b.para text s n).env space) (start := s) calls ?_ s {} r (Nat.le_refl _) (fun q hq => by cases hq) h
  intro lim v hm i hi hlt
  obtain ⟨u, out, new, file, eff, gs, h1, h2, _, _, h3, _⟩ := hp.run hm hlt hi space
  rw [h3]
  obtain ⟨c1, _⟩ := C45_carries _ _ _ _ _ _ _ _ _ _ _ _ _ _ h1
  obtain ⟨_, _, a3, a4, _⟩ := hp.args _ hm
  obtain ⟨e, he, hpos⟩ := effective_pos (size := out.size.toNat) (by rw [c1]; exact a3) (by rw [c1]; exact a4)
    out.syntheticSmallCaps (out.syntheticSubscript || out.syntheticSuperscript)
  exact ⟨file, e, h2, he, hpos⟩

theorem linesOps_same {text : Bytes} {s n : Nat} {sp space : BitVec 16 → Int} {sh : Shaped SingleScriptFont} : ∀ (ls : List BrokenLine),
    linesOps (b.env starts k space text s n) sh ls = linesOps (b.env starts k sp text s n) sh ls
  | [] => rfl
  | l :: ls => by
    unfold linesOps
    rw [linesOps_same ls]
    rfl

/-- Without tabs the blanks do not matter. -/
theorem buildParagraph_tabless {text : Bytes} {s n : Nat} {calls : List (Nat × ShapeArgs)} (hp : (b.para text s n).Proper calls)
    (hf : FineCalls b starts k text s n calls) (hno : ∀ i : Nat, text[i]? ≠ some 9) {x y : BitVec 16 → Int} (hx : BlankOf b x)
    (hy : BlankOf b y) (rc : Nat) :
    buildParagraph (b.env starts k x text s n) calls rc = buildParagraph (b.env starts k y text s n) calls rc := by
  have hs : shapeParagraph (b.env starts k x text s n) calls = shapeParagraph (b.env starts k y text s n) calls := by
    unfold shapeParagraph
    rw [show (b.env starts k x text s n).line.start = s from rfl, show (b.env starts k y text s n).line.start = s from rfl,
      env_calls hp hf hx, env_calls hp hf hy,
      ParagraphFonts.shapeCalls_tabless (fun i => by
        show (text[i]? == some 9) = false
        simpa using hno i) x y]
  unfold buildParagraph
  rw [hs]
  cases shapeParagraph (b.env starts k y text s n) calls with
  | none => rfl
  | some sh =>
    rw [Option.bind_some, Option.bind_some]
    congr 1
    funext ls
    rw [linesOps_same (sp := y)]

/-- A paragraph. -/
theorem buildParagraphT_spec (hb : b.Proper starts limit k) {text : Bytes} {s n : Nat} {calls : List (Nat × ShapeArgs)}
    (hp : (b.para text s n).Proper calls) (hf : FineCalls b starts k text s n calls)
    (hok : ∀ space : BitVec 16 → Int, (∀ h, 0 < space h) → (b.env starts k space text s n).OK calls) (rc : Nat) {t : FontThread}
    (ht : FontRun b.lib b.reg t) (hbl : Blanks b.lib t) :
    ∃ t' r, b.buildParagraphT text s n calls rc t = some (t', r) ∧ Goes b t t' ∧
      ∀ space, Consistent t' space → BlankOf b space → buildParagraph (b.env starts k space text s n) calls rc = some r := by
  obtain ⟨t1, off, sh, h1, h2, h3, _, h4⟩ := ParagraphFonts.shape_spec hp calls s t {} (fun _ h => h) ht (Nat.le_refl _)
  have hbl1 : Blanks b.lib t1 := shape_blanks (p := b.para text s n) calls s t t1 {} _ (fun c hc => by
    obtain ⟨_, _, a3, a4, _⟩ := hp.args c hc; exact ⟨a3, a4⟩) hbl h1
  have shaped : ∀ space, Consistent t1 space → BlankOf b space → shapeParagraph (b.env starts k space text s n) calls = some sh.finish := by
    intro space hc hsp
    unfold shapeParagraph
    rw [show (b.env starts k space text s n).line.start = s from rfl, env_calls hp hf hsp, h4 space hc]
    rfl
  obtain ⟨sp, c1, c2⟩ := hb.space h2 hbl1
  have hfonts : ∀ q ∈ sh.finish.runs, FontGood b q.font := env_fonts hp (h4 sp c1)
  obtain ⟨b', ls, ops, ps, idx, hi, g1, g2, g3, g4, g5, g6, g7⟩ := C31_paragraph _ _ (hok sp c2.pos) rc
  rw [shaped sp c1 c2] at g1; cases g1
  have hsp := shaped sp c1 c2
  have g5' := g5
  unfold buildParagraph at g5'
  rw [hsp, Option.bind_some, g3, Option.bind_some] at g5'
  obtain ⟨x, x1, x2⟩ := Option.map_eq_some_iff.1 g5'
  obtain ⟨t2, j1, j2⟩ := linesOpsT_spec hfonts ls t1 x h2 x1
  have go : Goes b t t2 := (⟨h2, h3, fun _ => hbl1⟩ : Goes b t t1).trans j2
  refine ⟨t2, (x.1, (highest x.2 rc (0, -2147483648)).1, rc + x.2.length), ?_, go, ?_⟩
  · unfold buildParagraphT
    rw [h1]
    simp only
    have g3' : paragraphLines (b.line text s n) sh.finish.charIdx sh.finish.widths = some ls := g3
    rw [g3', Option.bind_some, j1]
    rfl
  · intro space hc hsp'
    unfold buildParagraph
    rw [shaped space (hc.before j2.keeps) hsp', Option.bind_some]
    have g3' : paragraphLines (b.env starts k space text s n).line sh.finish.charIdx sh.finish.widths = some ls := g3
    have x1' : linesOps (b.env starts k space text s n) sh.finish ls = some x := by
      rw [← x1]
      exact linesOps_same ls
    rw [g3', Option.bind_some, x1']
    rfl

theorem emptyLineT_spec {font : ValueRuns Font} {count : Nat} (hfit : RunsFit font count)
    (hdef : ∀ f ∈ font.values, 2 ≤ f.size.toNat ∧ f.size.toNat < 2 ^ 20 ∧
      ∃ face file, b.reg.faceOf f.face.getFamily f.face.getWeight.toNat f.face.getStyle = some face ∧ b.reg.Loads b.lib face file)
    {start : Nat} (hs : start < count) {t : FontThread} (ht : FontRun b.lib b.reg t) :
    ∃ t', b.emptyLineT font start t = some (t',
        (b.defaultFont ((font.view.getValue start).getD ⟨FontFace.make 0 0 .normal, 0⟩)).getD noFont,
        b.metricsOf ((b.defaultFont ((font.view.getValue start).getD ⟨FontFace.make 0 0 .normal, 0⟩)).getD noFont)) ∧ Goes b t t' := by
  obtain ⟨f, hf, hv⟩ := hfit.getValue hs
  obtain ⟨h1, h2, face, file, h3, h4⟩ := hdef f hf
  obtain ⟨eff, he, hpos⟩ := effective_pos h1 h2 false (false || false)
  have hd : b.defaultFont f = some { face := face, size := f.size, weight := f.face.getWeight.truncate 4, style := f.face.getStyle } := by
    unfold defaultFont
    rw [h3]; rfl
  obtain ⟨t', k1, k2⟩ := readMetrics_spec (b := b) (q := plainRequest f face) h4 he hpos ht
  refine ⟨t', ?_, k2⟩
  unfold emptyLineT
  rw [hv]
  simp only [Option.getD_some]
  rw [hd]
  simp only [Option.getD_some]
  rw [k1, Option.map_some]
  rw [metricsOf_good (f := { face := face, size := f.size, weight := f.face.getWeight.truncate 4, style := f.face.getStyle }) h4 he]
  rfl

/-- A paragraph as the pure builder takes it. -/
noncomputable def toPara (b : BuildLibs) (starts : Bytes → Nat → Nat → Nat → Prop) (k : Nat) (space : BitVec 16 → Int) (text : Bytes)
    (font : ValueRuns Font) (q : ParaPlan) : Paragraph ShapeArgs SingleScriptFont :=
  let f := (font.view.getValue q.start).getD ⟨FontFace.make 0 0 .normal, 0⟩
  ⟨q.length, q.separator, b.env starts k space text q.start (q.length - q.separator), q.calls, (b.defaultFont f).getD noFont,
    b.metricsOf ((b.defaultFont f).getD noFont)⟩

/-- The paragraphs follow each other and those with text can be laid out. -/
def PlanOK (b : BuildLibs) (starts : Bytes → Nat → Nat → Nat → Prop) (k : Nat) (text : Bytes) (count : Nat) : Nat → List ParaPlan → Prop
  | _, [] => True
  | off, q :: qs => q.start = off ∧ off < count ∧
    (0 < q.length - q.separator → (b.para text off (q.length - q.separator)).Proper q.calls ∧
      FineCalls b starts k text off (q.length - q.separator) q.calls ∧
      ∀ space : BitVec 16 → Int, (∀ h, 0 < space h) → (b.env starts k space text off (q.length - q.separator)).OK q.calls) ∧
    PlanOK b starts k text count (off + q.length) qs

theorem paragraphsOpsT_spec (hb : b.Proper starts limit k) {text : Bytes} {font : ValueRuns Font} {count : Nat} (hfit : RunsFit font count)
    (hdef : ∀ f ∈ font.values, 2 ≤ f.size.toNat ∧ f.size.toNat < 2 ^ 20 ∧
      ∃ face file, b.reg.faceOf f.face.getFamily f.face.getWeight.toNat f.face.getStyle = some face ∧ b.reg.Loads b.lib face file) :
    ∀ (qs : List ParaPlan) (off rc : Nat) (t : FontThread), PlanOK b starts k text count off qs → FontRun b.lib b.reg t →
      Blanks b.lib t →
      ∃ t' ops, b.paragraphsOpsT text font count qs rc t = some (t', ops) ∧ Goes b t t' ∧
        ∀ space, Consistent t' space → BlankOf b space →
          paragraphsOps count (qs.map (b.toPara starts k space text font)) off rc = some ops := by
  intro qs
  induction qs with
  | nil => intro off rc t _ ht _; exact ⟨t, [], rfl, .refl ht, fun _ _ _ => rfl⟩
  | cons q qs ih =>
    intro off rc t hq ht hbl
    obtain ⟨rfl, q2, q3, q4⟩ := hq
    -- the paragraph
    have hA : ∃ t1 r, b.paragraphOpsT text font q rc t = some (t1, r) ∧ Goes b t t1 ∧
        ∀ space, Consistent t1 space → BlankOf b space → paragraphOps (b.toPara starts k space text font q) q.start rc = some r := by
      by_cases h0 : 0 < q.length - q.separator
      · obtain ⟨p1, p2, p3⟩ := q3 h0
        obtain ⟨t1, r, k1, k2, k3⟩ := buildParagraphT_spec hb p1 p2 p3 rc ht hbl
        refine ⟨t1, r, ?_, k2, ?_⟩
        · unfold paragraphOpsT; rw [if_pos h0]; exact k1
        · intro space hc hs
          unfold paragraphOps
          rw [show (b.toPara starts k space text font q).length = q.length from rfl,
            show (b.toPara starts k space text font q).separator = q.separator from rfl, if_pos h0]
          exact k3 space hc hs
      · obtain ⟨t1, k1, k2⟩ := emptyLineT_spec (b := b) hfit hdef q2 ht
        refine ⟨t1, ([.emptyLine ((b.defaultFont ((font.view.getValue q.start).getD ⟨FontFace.make 0 0 .normal, 0⟩)).getD noFont) q.start
          ((b.metricsOf ((b.defaultFont ((font.view.getValue q.start).getD ⟨FontFace.make 0 0 .normal, 0⟩)).getD noFont)).ascent -
            (b.metricsOf ((b.defaultFont ((font.view.getValue q.start).getD ⟨FontFace.make 0 0 .normal, 0⟩)).getD noFont)).descent)
          (b.metricsOf ((b.defaultFont ((font.view.getValue q.start).getD ⟨FontFace.make 0 0 .normal, 0⟩)).getD noFont)).ascent],
          rc, rc + 1), ?_, k2, ?_⟩
        · unfold paragraphOpsT; rw [if_neg h0, k1]; rfl
        · intro space hc hs
          unfold paragraphOps
          rw [show (b.toPara starts k space text font q).length = q.length from rfl,
            show (b.toPara starts k space text font q).separator = q.separator from rfl, if_neg h0]
          rfl
    obtain ⟨t1, r, a1, a2, a3⟩ := hA
    have hF : ∃ t2 fin, b.finalLineT font q count r.2.2 t1 = some (t2, fin) ∧ Goes b t1 t2 ∧
        ∀ space, finalLine (b.toPara starts k space text font q) q.start count r.2.2 = fin := by
      by_cases h0 : q.start + q.length = count ∧ q.separator > 0
      · obtain ⟨t2, k1, k2⟩ := emptyLineT_spec (b := b) hfit hdef q2 a2.run
        refine ⟨t2, [.emptyLine ((b.defaultFont ((font.view.getValue q.start).getD ⟨FontFace.make 0 0 .normal, 0⟩)).getD noFont) (q.start + q.length)
          ((b.metricsOf ((b.defaultFont ((font.view.getValue q.start).getD ⟨FontFace.make 0 0 .normal, 0⟩)).getD noFont)).ascent -
            (b.metricsOf ((b.defaultFont ((font.view.getValue q.start).getD ⟨FontFace.make 0 0 .normal, 0⟩)).getD noFont)).descent)
          (b.metricsOf ((b.defaultFont ((font.view.getValue q.start).getD ⟨FontFace.make 0 0 .normal, 0⟩)).getD noFont)).ascent, .setOffset r.2.2 0],
          ?_, k2, ?_⟩
        · unfold finalLineT; rw [if_pos h0, k1]; rfl
        · intro space
          unfold finalLine
          rw [show (b.toPara starts k space text font q).length = q.length from rfl,
            show (b.toPara starts k space text font q).separator = q.separator from rfl, if_pos h0]
          rfl
      · refine ⟨t1, [], ?_, .refl a2.run, ?_⟩
        · unfold finalLineT; rw [if_neg h0]
        · intro space
          unfold finalLine
          rw [show (b.toPara starts k space text font q).length = q.length from rfl,
            show (b.toPara starts k space text font q).separator = q.separator from rfl, if_neg h0]
    obtain ⟨t2, fin, f1, f2, f3⟩ := hF
    obtain ⟨t3, ops, r1, r2, r3⟩ := ih (q.start + q.length) (if fin.isEmpty then r.2.2 else r.2.2 + 1) t2 q4 f2.run
      (f2.blanks (a2.blanks hbl))
    refine ⟨t3, r.1 ++ [.setOffset r.2.1 q.separator] ++ fin ++ ops, ?_, (a2.trans f2).trans r2, ?_⟩
    · unfold paragraphsOpsT
      rw [a1]
      simp only
      rw [f1]
      simp only
      rw [r1]
      rfl
    · intro space hc hs
      rw [List.map_cons]
      unfold paragraphsOps
      rw [a3 space (hc.before (f2.keeps.trans r2.keeps)) hs]
      simp only
      rw [f3, show (b.toPara starts k space text font q).length = q.length from rfl, r3 space hc hs]
      rfl

theorem paragraphsOps_tabless {text : Bytes} {font : ValueRuns Font} {count : Nat} (hno : ∀ i : Nat, text[i]? ≠ some 9)
    {x y : BitVec 16 → Int} (hx : BlankOf b x) (hy : BlankOf b y) : ∀ (qs : List ParaPlan) (off rc : Nat),
    PlanOK b starts k text count off qs →
      paragraphsOps count (qs.map (b.toPara starts k x text font)) off rc =
        paragraphsOps count (qs.map (b.toPara starts k y text font)) off rc
  | [], _, _, _ => rfl
  | q :: qs, off, rc, h => by
    obtain ⟨rfl, _, q3, q4⟩ := h
    rw [List.map_cons, List.map_cons]
    unfold paragraphsOps
    have e : paragraphOps (b.toPara starts k x text font q) q.start rc = paragraphOps (b.toPara starts k y text font q) q.start rc := by
      unfold paragraphOps
      rw [show (b.toPara starts k x text font q).length = q.length from rfl, show (b.toPara starts k y text font q).length = q.length from rfl,
        show (b.toPara starts k x text font q).separator = q.separator from rfl,
        show (b.toPara starts k y text font q).separator = q.separator from rfl]
      by_cases h0 : q.length - q.separator > 0
      · rw [if_pos h0, if_pos h0]
        obtain ⟨p1, p2, _⟩ := q3 h0
        exact buildParagraph_tabless p1 p2 hno hx hy rc
      · rw [if_neg h0, if_neg h0]
        rfl
    rw [e]
    cases paragraphOps (b.toPara starts k y text font q) q.start rc with
    | none => rfl
    | some r =>
      have e' : finalLine (b.toPara starts k x text font q) q.start count r.2.2 =
        finalLine (b.toPara starts k y text font q) q.start count r.2.2 := rfl
      simp only [e', show (b.toPara starts k x text font q).length = q.length from rfl,
        show (b.toPara starts k y text font q).length = q.length from rfl,
        show (b.toPara starts k x text font q).separator = q.separator from rfl,
        show (b.toPara starts k y text font q).separator = q.separator from rfl]
      rw [paragraphsOps_tabless hno hx hy qs _ _ q4]

/-! ### The paragraphs of a text -/

theorem libs_spans (space : BitVec 16 → Int) (text : Bytes) : ∀ (bs : List (Nat × Nat)) (start : Nat),
    (b.libs starts k space).spans text bs start = b.spans text bs start
  | [], _ => rfl
  | x :: bs, start => by
    unfold TextLibs.spans BuildLibs.spans
    rw [libs_spans space text bs]
    rfl

theorem libs_layOut (space : BitVec 16 → Int) (text : Bytes) (font : ValueRuns Font) : ∀ (bs : List (Nat × Nat)) (start : Nat)
    (cs : List (List (ParaCall RunValue Int))),
    (b.libs starts k space).layOut text font bs start cs = (plans bs start cs).map (b.toPara starts k space text font)
  | [], _, _ => rfl
  | x :: bs, start, cs => by
    unfold TextLibs.layOut plans
    rw [libs_layOut space text font bs, List.map_cons]
    rfl

/-- The paragraphs are the same. -/
theorem libs_paragraphs {F : Type _} (space : BitVec 16 → Int) (text : Bytes) (runs : FormattingRuns F) :
    (b.libs starts k space).paragraphs text runs = (b.plan text runs).map (b.toPara starts k space text runs.font) := by
  unfold TextLibs.paragraphs plan
  rw [libs_layOut, libs_spans]
  rfl

theorem Paragraphs.upTo {β φ : Type _} {count : Nat} : ∀ (ps : List (Paragraph β φ)) (off : Nat), Paragraphs count off ps → off ≤ count
  | [], _, h => Nat.le_of_eq h
  | p :: ps, off, h => by
    have := Paragraphs.upTo ps _ h.2.2.2.2
    omega

theorem planOK_of {text : Bytes} {font : ValueRuns Font} : ∀ (bs : List (Nat × Nat)) (off : Nat) (cs : List (List (ParaCall RunValue Int))),
    (∀ space : BitVec 16 → Int, (∀ h, 0 < space h) →
      Paragraphs text.length off ((plans bs off cs).map (b.toPara starts k space text font))) →
    (∀ q ∈ plans bs off cs, 0 < q.length - q.separator → (b.para text q.start (q.length - q.separator)).Proper q.calls ∧
      FineCalls b starts k text q.start (q.length - q.separator) q.calls) →
    PlanOK b starts k text text.length off (plans bs off cs)
  | [], _, _, _, _ => trivial
  | x :: bs, off, cs, h, hs => by
    unfold plans
    refine ⟨rfl, ?_, ?_, ?_⟩
    · have := h (fun _ => 1) (fun _ => by decide)
      unfold plans at this
      have h1 := this.2.1
      have h2 := Paragraphs.upTo _ _ this.2.2.2.2
      have e : (b.toPara starts k (fun _ => 1) text font ⟨off, x.1, x.2, (cs.headD []).filterMap ParaCall.args⟩).length = x.1 := rfl
      rw [e] at h1 h2
      omega
    · intro h0
      obtain ⟨p1, p2⟩ := hs ⟨off, x.1, x.2, (cs.headD []).filterMap ParaCall.args⟩ (by unfold plans; exact List.mem_cons_self) h0
      refine ⟨p1, p2, ?_⟩
      intro space hsp
      have := h space hsp
      unfold plans at this
      exact (this.2.2.2.1 h0).1
    · refine planOK_of (font := font) bs (off + x.1) cs.tail ?_ ?_
      · intro space hsp
        have := h space hsp
        unfold plans at this
        exact this.2.2.2.2
      · intro q hq
        exact hs q (by unfold plans; exact List.mem_cons_of_mem _ hq)

theorem Serves.planOK {F : Type _} (hb : b.Proper starts limit k) {text : Bytes} (hne : text ≠ []) (hlt : text.length < limit)
    {runs : FormattingRuns F} (hfit : AllRunsFit runs text.length) (hs : b.Serves starts k text runs) :
    PlanOK b starts k text text.length 0 (b.plan text runs) := by
  refine planOK_of (font := runs.font) _ _ _ ?_ ?_
  · intro space hpos
    have := (C91_paragraphs _ limit k (hb.contract hpos) text hne hlt runs hfit).1
    rw [libs_paragraphs] at this
    exact this
  · intro q hq h0
    exact ⟨hs.proper q hq h0, hs.fine q hq h0⟩

/-- All of a text. -/
theorem buildTextT_spec {F : Type _} (hb : b.Proper starts limit k) {text : Bytes} (hne : text ≠ []) (hlt : text.length < limit)
    {runs : FormattingRuns F} (hfit : AllRunsFit runs text.length) (hs : b.Serves starts k text runs) (L : Layout SingleScriptFont)
    (yAlign : YAlignment) (H : Rat) {t : FontThread} (ht : FontRun b.lib b.reg t) (hbl : Blanks b.lib t) :
    ∃ t' L', b.buildTextT L text runs yAlign H t = some (t', L') ∧ Goes b t t' ∧
      ∀ space, Consistent t' space → BlankOf b space →
        buildLayout L ((b.libs starts k space).paragraphs text runs) text.length yAlign H = some L' := by
  have hok := hs.planOK hb hne hlt hfit
  obtain ⟨t', ops, h1, h2, h3⟩ := paragraphsOpsT_spec hb (text := text) (count := text.length) hfit.1 hs.default (b.plan text runs) 0 0 t
    hok ht hbl
  obtain ⟨sp, c1, c2⟩ := hb.space h2.run (h2.blanks hbl)
  have hP := (C91_paragraphs _ limit k (hb.contract (space := sp) c2.pos) text hne hlt runs hfit).1
  obtain ⟨L', ls, rs, b1, _⟩ := build_glyphs L _ _ hP yAlign H
  have b1' := b1
  unfold buildLayout at b1'
  rw [libs_paragraphs, h3 sp c1 c2, Option.bind_some] at b1'
  refine ⟨t', L', ?_, h2, ?_⟩
  · unfold buildTextT
    rw [h1, Option.bind_some]
    obtain ⟨L1, l1, l2⟩ := Option.map_eq_some_iff.1 b1'
    simp only [l1, Option.map_some, l2]
  · intro space hc hsp
    unfold buildLayout
    rw [libs_paragraphs, h3 space hc hsp, Option.bind_some]
    exact b1'

end BuildLibs

end RichText
