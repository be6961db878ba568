import Verif.Proof.RefRuns
import Verif.Props.TextRuns
import Verif.Props.RefBuilder
import Verif.Props.ParagraphFonts
/-!
C121: the runs of the earlier builder (test/build_layout_info_utf8.cpp:112-190, 275-323), and whether they are those of the
layout builder.
-/
namespace RichText
open Spec
variable {φ : Type _}

/-! ## C121 -/

/-- The answers of the font registry that the earlier builder gets. -/
theorem RefOut.answers {get : SubFontFn φ} (hg : ∀ k i l, i < l → i < (askFor get k i l).2 ∧ (askFor get k i l).2 ≤ l)
    {total start n : Nat} {fonts : ValueRuns Font} {smallcaps subscript superscript : Option (ValueRuns Bool)}
    {levels : List Nat} {scripts : List (Int × Int)} {rc : List (Nat × SubKey)} {w : List (φ × Nat)} {fc : List (Nat × (φ × Nat × Int))}
    (o : RefOut get (fonts.limits.zip fonts.values) (flagList smallcaps total) (flagList subscript total) (flagList superscript total)
        levels scripts start n rc w fc) :
    Answers get (Asked total start n fonts smallcaps subscript superscript scripts) n 0 w := by
  have key : ∀ i k l, covering rc i = some (l, k) → i < n → KeyAt total start fonts smallcaps subscript superscript scripts i k := by
    intro i k l hk hi
    obtain ⟨k', l', hk', c1, c2, c3, c4, c5⟩ := o.cover i hi
    rw [hk] at hk'
    cases hk'
    exact ⟨c1, c2, c3, c4, c5⟩
  have : ∀ {off : Nat} {v : List (φ × Nat)},
      Walk (fun i r => ∃ k l, (covering rc i).map (fun c => (c.2, c.1)) = some (k, l) ∧ r = askFor get k i l) n off v → off ≤ n →
      Answers get (Asked total start n fonts smallcaps subscript superscript scripts) n off v := by
    intro off v hv
    induction hv with
    | @done off h => intro h'; obtain rfl : off = n := by omega
                     exact .done
    | @step off r rest hlt hs _ ih =>
      intro _
      obtain ⟨k, l, hk, rfl⟩ := hs
      obtain ⟨d, hd, e1⟩ := Option.map_eq_some_iff.1 hk
      cases e1
      obtain ⟨p1, p2, p3⟩ := covering_least o.sorted hd
      have hln := getLast_le o.sorted o.last _ p2
      obtain ⟨g1, g2⟩ := hg d.2 off d.1 p1
      refine .step ⟨p1, hln, ?_, ?_, ?_⟩ (ih (by omega))
      · intro i hi1 hi2
        exact key i _ d.1 (covering_const o.sorted hd hi1 hi2) (by omega)
      · unfold KeyEnds
        rcases (o.limit d.1).1 ⟨_, p2, rfl⟩ with ⟨_, _, h | h | h | h⟩ | h | h
        · exact .inl h
        · exact .inr (.inl h)
        · exact .inr (.inr (.inl h))
        · exact .inr (.inr (.inr (.inl h)))
        · exact .inr (.inr (.inr (.inr (.inl h))))
        · exact .inr (.inr (.inr (.inr (.inr h))))
      · intro m hm1 hm2 hm
        have : ∃ c ∈ rc, c.1 = m := by
          refine (o.limit m).2 ?_
          rcases hm with h | h | h | h | h | h
          · exact .inl ⟨by omega, by omega, .inl h⟩
          · exact .inl ⟨by omega, by omega, .inr (.inl h)⟩
          · exact .inl ⟨by omega, by omega, .inr (.inr (.inl h))⟩
          · exact .inl ⟨by omega, by omega, .inr (.inr (.inr h))⟩
          · exact .inr (.inl h)
          · exact .inr (.inr h)
        obtain ⟨c, hc, rfl⟩ := this
        have := p3 c hc hm1
        omega
  exact this o.walk (Nat.zero_le _)

/-- C121: the logical runs of the earlier builder.  They end at the end of the paragraph, where the answer of the font registry
ends and where the level changes, nowhere else; the run that covers a byte (the first one that ends behind it) has its level, the
script of its script run and the font of the answer that covers it.  The font registry is asked about as much text as has the same
font, script and flags, from the end of the answer before. -/
theorem C121_runs (get : SubFontFn φ) (hg : ∀ k i l, i < l → i < (askFor get k i l).2 ∧ (askFor get k i l).2 ≤ l)
    (total start n : Nat) (fonts : ValueRuns Font) (smallcaps subscript superscript : Option (ValueRuns Bool))
    (levels : List Nat) (t : ScriptText) (h : RefIn total start n fonts smallcaps subscript superscript levels t) :
    ∃ rs logical w, ScriptRunIter.init.all t n = some rs ∧
      refLogicalRuns get levels t start n fonts smallcaps subscript superscript = some logical ∧
      Answers get (Asked total start n fonts smallcaps subscript superscript (rs.map fun r => ((r.limit : Int), r.script))) n 0 w ∧
      logical.Pairwise (fun a b => a.stop < b.stop) ∧ logical.getLast?.map (·.stop) = some n ∧
      (∀ s, (∃ r ∈ logical, r.stop = s) ↔ (∃ r ∈ w, r.2 = s) ∨ Change levels n s) ∧
      ∀ i, i < n → ∃ r, logical.find? (fun r => decide (i < r.stop)) = some r ∧ levels[i]? = some r.level ∧
        valueAt (rs.map fun r => ((r.limit : Int), r.script)) (i : Int) = some r.script ∧
        (w.find? fun r => decide (i < r.2)).map (·.1) = some r.font := by
  obtain ⟨rs, rc, w, fc, h1, h2, o⟩ := refLogicalRuns_spec hg h
  refine ⟨rs, _, w, h1, h2, o.answers hg, ?_, ?_, ?_, ?_⟩
  · rw [List.pairwise_map]; exact o.strict
  · rw [List.getLast?_map, Option.map_map]; exact o.stop
  · intro s
    rw [← o.ends]
    constructor
    · rintro ⟨r, hr, rfl⟩
      obtain ⟨c, hc, rfl⟩ := List.mem_map.1 hr
      exact ⟨c, hc, rfl⟩
    · rintro ⟨c, hc, rfl⟩
      exact ⟨_, List.mem_map_of_mem hc, rfl⟩
  · intro i hi
    obtain ⟨x, l, lev, s, r1, r2, r3, r4⟩ := o.right i hi
    unfold covering at r1
    refine ⟨⟨x, lev, s, l⟩, ?_, r3, r4, r2⟩
    rw [List.find?_map, Function.comp_def, r1]; rfl

/-- The sources of the run iterators of the layout builder. -/
theorem textSrcs_iters {total : Nat} {fonts : ValueRuns Font} {smallcaps subscript superscript : Option (ValueRuns Bool)}
    (hf : RunsFit fonts total) (h1 : ∀ r, smallcaps = some r → RunsFit r total) (h2 : ∀ r, subscript = some r → RunsFit r total)
    (h3 : ∀ r, superscript = some r → RunsFit r total) :
    startIters fonts smallcaps subscript superscript total =
      (textSrcs fonts smallcaps subscript superscript total).map fun s => Src.iter (s, 0) := by
  have : ∀ (x : Option (ValueRuns Bool)), (∀ r, x = some r → RunsFit r total) → flagIter x total = Src.iter (flagSrc x total, 0) := by
    intro x hx
    cases x with
    | none => rfl
    | some r => exact ((hx r rfl).iter RunValue.flag).symm
  simp only [startIters, textSrcs, List.map_cons, List.map_nil, this _ h1, this _ h2, this _ h3]
  congr 1
  exact (hf.iter RunValue.font).symm

theorem textSrcs_fit {total : Nat} {fonts : ValueRuns Font} {smallcaps subscript superscript : Option (ValueRuns Bool)}
    (hf : RunsFit fonts total) (h1 : ∀ r, smallcaps = some r → RunsFit r total) (h2 : ∀ r, subscript = some r → RunsFit r total)
    (h3 : ∀ r, superscript = some r → RunsFit r total) (s : Src RunValue) (hs : s ∈ textSrcs fonts smallcaps subscript superscript total) :
    SortedLimits s.runs ∧ (∀ x ∈ s.runs, 0 ≤ x.1) ∧ endOf s.runs = some (total : Int) := by
  have : ∀ (x : Option (ValueRuns Bool)), (∀ r, x = some r → RunsFit r total) → SortedLimits (flagSrc x total).runs ∧
      (∀ y ∈ (flagSrc x total).runs, 0 ≤ y.1) ∧ endOf (flagSrc x total).runs = some (total : Int) := by
    intro x hx
    cases x with
    | none =>
      refine ⟨List.pairwise_singleton _ _, ?_, rfl⟩
      intro y hy
      rw [show (flagSrc none total).runs = [((total : Int), RunValue.flag false)] from rfl, List.mem_singleton] at hy
      subst hy; simp only; omega
    | some r =>
      obtain ⟨a, b, c, _⟩ := (hx r rfl).src RunValue.flag
      exact ⟨a, b, c⟩
  simp only [textSrcs, List.mem_cons, List.not_mem_nil, or_false] at hs
  rcases hs with rfl | rfl | rfl | rfl
  · obtain ⟨a, b, c, _⟩ := hf.src RunValue.font
    exact ⟨a, b, c⟩
  · exact this _ h1
  · exact this _ h2
  · exact this _ h3

/-- C121: the runs of both builders.  A paragraph (not with several scripts behind the first paragraph, C35) for which the font
registry answers the same for its text as for the text up to a change of level and from there on: the logical runs that the earlier
builder finds are the parts that the layout builder shapes, with their fonts, levels and scripts. -/
theorem C121_same_runs_partial (get : SubFontFn φ) (hg : ∀ k i l, i < l → i < (askFor get k i l).2 ∧ (askFor get k i l).2 ≤ l)
    (total : Nat) (fonts : ValueRuns Font) (smallcaps subscript superscript : Option (ValueRuns Bool))
    (hf : RunsFit fonts total) (h1 : ∀ r, smallcaps = some r → RunsFit r total) (h2 : ∀ r, subscript = some r → RunsFit r total)
    (h3 : ∀ r, superscript = some r → RunsFit r total) (pre : List (Span Int)) (p : Span Int) (post : List (Span Int))
    (hsp : Spans total 0 (pre ++ p :: post)) (htext : p.separator < p.length) (t : ScriptText) (ht : t.Forward)
    (hlen : t.len = p.length - p.separator) (rs : List ScriptRun) (hrs : ScriptRunIter.init.all t (p.length - p.separator) = some rs)
    (hscr : p.scripts = rs.map fun r => ((r.limit : Int), r.script)) (hh : offsetAfter pre = 0 ∨ rs.length = 1)
    (e : ShapeEnv ShapeArgs φ) (hsub : ∀ a i l, i < l → l ≤ p.length - p.separator →
      e.subFont a (offsetAfter pre + i) (offsetAfter pre + l) =
        ((askFor get (ShapeArgs.key a) i l).1, offsetAfter pre + (askFor get (ShapeArgs.key a) i l).2))
    (hcut : ∀ k m, Change p.levels (p.length - p.separator) m → CutAt (askFor get k) m) :
    ∃ css fin calls, textCalls (total + 1) 0 (pre ++ p :: post) 0 (startIters fonts smallcaps subscript superscript total) = (css, fin) ∧
      css[pre.length]? = some calls ∧ ∀ qs, Subs e (calls.filterMap ParaCall.args) (offsetAfter pre) qs →
        refLogicalRuns get p.levels t (offsetAfter pre) (p.length - p.separator) fonts smallcaps subscript superscript =
          some (qs.map fun q => ⟨q.font, q.args.level, q.args.script, q.stop - offsetAfter pre⟩) := by
  have hst : RunsAt (textSrcs fonts smallcaps subscript superscript total) 0
      ((textSrcs fonts smallcaps subscript superscript total).map fun s => (s, 0)) := by
    refine ⟨by simp [Function.comp_def], ?_, ?_⟩
    · intro q hq
      obtain ⟨s, hs, rfl⟩ := List.mem_map.1 hq
      have h0 : 0 < s.runs.length := by
        have := (textSrcs_fit hf h1 h2 h3 s hs).2.2
        cases hr : s.runs with
        | nil => rw [hr] at this; cases this
        | cons => simp
      cases s <;> exact h0
    · intro q hq j hj hjq
      obtain ⟨s, hs, rfl⟩ := List.mem_map.1 hq
      cases s <;> exact absurd hjq (Nat.not_lt_zero _)
  obtain ⟨css, fin, g1, g2, -⟩ := textCalls_spec (total + 1) (0 : Int) (fun s hs => (textSrcs_fit hf h1 h2 h3 s hs).1)
    (fun s hs => (textSrcs_fit hf h1 h2 h3 s hs).2.1) (fun s hs => (textSrcs_fit hf h1 h2 h3 s hs).2.2) (Nat.lt_succ_self _) _ 0 0 _
    hsp hst (by simp)
  rw [List.map_map] at g1
  obtain ⟨calls, k1, -, k3⟩ := g2.get
  have k3 := k3 htext
  rw [Nat.zero_add, hscr] at k3
  refine ⟨css, fin, calls, by rw [textSrcs_iters hf h1 h2 h3]; exact g1, k1, ?_⟩
  intro qs hqs
  have hle := Spans.le _ _ hsp
  have hlv : p.levels.length = p.length - p.separator := by
    have : ∀ (pre : List (Span Int)) (off : Nat), Spans total off (pre ++ p :: post) → p.levels.length = p.length - p.separator := by
      intro pre
      induction pre with
      | nil => intro off h; exact (h.2.2.1 htext).1
      | cons a b ih => intro off h; exact ih _ h.2.2.2
    exact this pre 0 hsp
  refine refLogicalRuns_same hg ⟨by omega, ?_, hf, h1, h2, h3, by omega, ht, hlen⟩ hrs hh k3 hsub hcut hqs
  simp only [offsetAfter, List.map_append, List.map_cons, List.sum_append, List.sum_cons] at hle ⊢
  omega

/-! ### The layout -/

/-- Pieces that are shaped to the same glyphs. -/
def SameShape (e : ParaEnv ShapeArgs φ) (a b : RefPiece ShapeArgs φ) : Prop :=
  a.font = b.font ∧ a.stop = b.stop ∧ e.reversed a.args = e.reversed b.args ∧
    ∀ i j, e.shape a.font a.args i j = e.shape b.font b.args i j

theorem refShape_congr {e : ParaEnv ShapeArgs φ} : ∀ (as bs : List (RefPiece ShapeArgs φ)), List.Forall₂ (SameShape e) as bs →
    ∀ off b, refShape e as off b = refShape e bs off b
  | [], [], _, off, b => rfl
  | x :: xs, y :: ys, .cons ⟨h1, h2, h3, h4⟩ ht, off, b => by
    unfold refShape
    have : b.add e off x = b.add e off y := by
      unfold RefShaped.add
      simp only [h4]
      simp only [h3, h1, h2]
    rw [this, h2]
    congr 1
    funext z
    exact refShape_congr xs ys ht _ _

theorem refParagraphs_congr {count : Nat} : ∀ (ps ps' : List (RefPara ShapeArgs φ)),
    List.Forall₂ (fun p p' => p.length = p'.length ∧ p.separator = p'.separator ∧ p.defaultFont = p'.defaultFont ∧
      p.defaultMetrics = p'.defaultMetrics ∧
      (0 < p.length - p.separator → p.env = p'.env ∧ List.Forall₂ (SameShape p.env) p.pieces p'.pieces)) ps ps' →
    ∀ off n, refParagraphs count ps off n = refParagraphs count ps' off n
  | [], [], _, off, n => rfl
  | p :: ps, q :: ps', .cons ⟨h1, h2, h3, h4, h5⟩ ht, off, n => by
    unfold refParagraphs
    rw [← h1, ← h2, ← h3, ← h4]
    have : (if p.length - p.separator > 0 then refParagraph p.env p.pieces n
        else some ([.emptyLine p.defaultFont off (p.defaultMetrics.ascent - p.defaultMetrics.descent)
          p.defaultMetrics.ascent], n, n + 1)) =
      (if p.length - p.separator > 0 then refParagraph q.env q.pieces n
        else some ([.emptyLine p.defaultFont off (p.defaultMetrics.ascent - p.defaultMetrics.descent)
          p.defaultMetrics.ascent], n, n + 1)) := by
      by_cases h0 : p.length - p.separator > 0
      · rw [if_pos h0, if_pos h0]
        obtain ⟨e1, e2⟩ := h5 h0
        unfold refParagraph
        rw [← e1, refShape_congr _ _ e2]
      · rw [if_neg h0, if_neg h0]
    rw [this]
    cases (if p.length - p.separator > 0 then refParagraph q.env q.pieces n
        else some ([.emptyLine p.defaultFont off (p.defaultMetrics.ascent - p.defaultMetrics.descent)
          p.defaultMetrics.ascent], n, n + 1)) with
    | none => rfl
    | some r => simp only; rw [refParagraphs_congr ps ps' ht]

/-- What the libraries have to do with each other for the builders to find the same runs in the `n` bytes of text from `s` on. -/
structure SameLibs (l : TextLibs φ) (get : SubFontFn φ) (text : Bytes) (s n : Nat) : Prop where
  progress : ∀ k i j, i < j → i < (askFor get k i j).2 ∧ (askFor get k i j).2 ≤ j
  subFont : ∀ a i j, i < j → j ≤ n → (l.env text s n).subFont a (s + i) (s + j) =
    ((askFor get (ShapeArgs.key a) i j).1, s + (askFor get (ShapeArgs.key a) i j).2)
  cut : ∀ k m, Change (l.levels text s n) n m → CutAt (askFor get k) m
  scripts : s = 0 ∨ (l.scripts text s n).length = 1
  shape : ∀ f v v' i j, v.level = v'.level → v.script = v'.script →
    (l.env text s n).reversed v = (l.env text s n).reversed v' ∧ (l.env text s n).shape f v i j = (l.env text s n).shape f v' i j

theorem refTextParas_same {F : Type _} {l : TextLibs φ} {limit k : Nat} (hl : l.Contract limit k) {t : Bytes} (hlt : t.length < limit)
    {runs : FormattingRuns F} (hfit : AllRunsFit runs t.length) {get : Nat → Nat → SubFontFn φ}
    (hsame : ∀ s n, l.HasText t s n → SameLibs l (get s n) t s n) :
    ∀ (bs pre : List (Nat × Nat)) (css : List (List (ParaCall RunValue Int))), l.bounds t = pre ++ bs →
      Bounds t.length (pre.map (·.1)).sum bs → (∀ b, bs.getLast? = some b → b.2 = 0) →
      Called (formatSrcs runs) (pre.map (·.1)).sum (l.spans t bs (pre.map (·.1)).sum) css →
      (∀ q ∈ l.layOut t runs.font bs (pre.map (·.1)).sum css, 0 < q.length - q.separator →
        ∀ qs, Subs q.env.toShapeEnv q.calls q.env.line.start qs → Comparable q.env qs) →
      ∃ ps' ps'', refTextParas l get t runs.font (some (runs.flags .smallcaps)) (some (runs.flags .subscript))
          (some (runs.flags .superscript)) bs (pre.map (·.1)).sum = some ps' ∧
        List.Forall₂ SamePara (l.layOut t runs.font bs (pre.map (·.1)).sum css) ps'' ∧
        List.Forall₂ (fun p p' => p.length = p'.length ∧ p.separator = p'.separator ∧ p.defaultFont = p'.defaultFont ∧
          p.defaultMetrics = p'.defaultMetrics ∧
          (0 < p.length - p.separator → p.env = p'.env ∧ List.Forall₂ (SameShape p.env) p.pieces p'.pieces)) ps' ps''
  | [], pre, css, _, _, _, _, _ => by
    have : ∀ n, l.layOut t runs.font [] n css = [] := fun n => by cases css <;> rfl
    rw [this]
    exact ⟨[], [], rfl, .nil, .nil⟩
  | b :: bs, pre, css, hpre, ⟨h1, h2, h3, h4⟩, hlast, ⟨c, cs', hc, hc1, hc2, hc3⟩, hcomp => by
    subst hc
    have ih := refTextParas_same hl hlt hfit hsame bs (pre ++ [b]) cs' (by rw [hpre]; simp)
    simp only [List.map_append, List.map_cons, List.map_nil, List.sum_append, List.sum_cons, List.sum_nil, Nat.add_zero] at ih
    obtain ⟨ps', ps'', i1, i2, i3⟩ := ih h4 (by
      intro x hx
      refine hlast x ?_
      cases bs with
      | nil => cases hx
      | cons y ys => simpa [List.getLast?_cons] using hx) hc3 (fun q hq => hcomp q (List.mem_cons_of_mem _ hq))
    generalize hs : (pre.map (·.1)).sum = s at *
    have hbounds : s + b.1 ≤ t.length := by
      have : ∀ (bs : List (Nat × Nat)) (o : Nat), Bounds t.length o bs → o ≤ t.length := by
        intro bs
        induction bs with
        | nil => intro o h; exact Nat.le_of_eq h
        | cons x xs ih => intro o h; have := ih _ h.2.2.2; omega
      exact this bs _ h4
    have hsep : (if s + b.1 = t.length then 0 else b.2) = b.2 := by
      by_cases hb : s + b.1 = t.length
      · rw [if_pos hb]
        cases bs with
        | nil => exact (hlast b rfl).symm
        | cons x xs =>
          have : ∀ (bs : List (Nat × Nat)) (o : Nat), Bounds t.length o bs → o ≤ t.length := by
            intro bs
            induction bs with
            | nil => intro o h; exact Nat.le_of_eq h
            | cons x xs ih => intro o h; have := ih _ h.2.2.2; omega
          have := this _ _ h4.2.2.2
          have := h4.2.1
          omega
      · rw [if_neg hb]
    have hfont : (if s = t.length then (t.length : Int) - 1 else (s : Int)) = s := by rw [if_neg (by omega)]
    unfold refTextParas
    rw [hsep, hfont]
    simp only
    by_cases h0 : b.1 - b.2 > 0
    · rw [if_pos h0]
      have ht : l.HasText t s (b.1 - b.2) := ⟨h0, pre, b, bs, hpre, hs.symm, rfl⟩
      obtain ⟨hs1, hs2, hs3, hs4, hs5⟩ := hsame _ _ ht
      obtain ⟨e1, e2, e3, -⟩ := hl.env t _ _ hlt ht
      obtain ⟨c1, c2⟩ := hl.script t _ _ hlt ht
      have hlv := hl.levels t _ _ hlt ht
      obtain ⟨rs, g1, g2⟩ := C36_script_runs_partition _ c2
      have g3 := g1 (b.1 - b.2) (by omega)
      have hsc : l.scripts t s (b.1 - b.2) = rs.map fun r => ((r.limit : Int), r.script) := by
        unfold TextLibs.scripts
        rw [g3]; rfl
      have hc1 := hc1 (by simp only; omega)
      simp only at hc1
      have hok := e3 _ hc1.callsTo
      obtain ⟨qs, hqs⟩ := Subs.exists hok.contract (c.filterMap ParaCall.args) s
      rw [hsc] at hc1 hs4
      rw [List.length_map] at hs4
      have hrl := refLogicalRuns_same hs1 (total := t.length) ⟨h0, by omega, hfit.1, (fun r hr => by cases hr; exact hfit.2.2.2 _),
        (fun r hr => by cases hr; exact hfit.2.2.2 _), (fun r hr => by cases hr; exact hfit.2.2.2 _), by omega, c2, c1⟩ g3 hs4
        (smallcaps := some (runs.flags .smallcaps)) (subscript := some (runs.flags .subscript))
        (superscript := some (runs.flags .superscript)) hc1 hs2 hs3 hqs
      rw [hrl, i1]
      refine ⟨_, ⟨b.1, b.2, l.env t s (b.1 - b.2), qs.map (Sub.ref s), _, _⟩ :: ps'', rfl, .cons ⟨rfl, rfl, rfl, rfl, ?_⟩ i2,
        .cons ⟨rfl, rfl, rfl, rfl, ?_⟩ i3⟩
      · intro _
        simp only
        rw [e1]
        refine ⟨trivial, qs, hqs, ?_, rfl⟩
        exact hcomp _ List.mem_cons_self h0 qs (by simp only; rw [e1]; exact hqs)
      · intro _
        refine ⟨rfl, ?_⟩
        simp only [List.map_map]
        rw [List.forall₂_map_left_iff, List.forall₂_map_right_iff]
        refine List.forall₂_same.2 ?_
        intro q _
        obtain ⟨k1, -⟩ := hs5 q.font ⟨⟨FontFace.make 0 0 .normal, 0⟩, q.args.script, q.args.level, false, false, false⟩ q.args 0 0 rfl rfl
        exact ⟨rfl, rfl, k1, fun i j =>
          (hs5 q.font ⟨⟨FontFace.make 0 0 .normal, 0⟩, q.args.script, q.args.level, false, false, false⟩ q.args i j rfl rfl).2⟩
    · rw [if_neg h0, i1]
      exact ⟨_, ⟨b.1, b.2, l.env t s (b.1 - b.2), [], _, _⟩ :: ps'', rfl,
        .cons ⟨rfl, rfl, rfl, rfl, fun h => absurd h h0⟩ i2, .cons ⟨rfl, rfl, rfl, rfl, fun h => absurd h h0⟩ i3⟩

/-- C121 with C102: both builders from the text on.  With the libraries and runs of formatting the same, the last paragraph without
a separator, paragraphs for which the builders agree (`Comparable`, C102), the script runs of C35 and a font registry whose answers
do not depend on where levels change, no glyph moved up or down: the earlier builder, with the runs it finds itself, gives the layout
of the layout builder. -/
theorem C121_same_layout_partial {F : Type _} (l : TextLibs φ) (limit k : Nat) (hl : l.Contract limit k) (t : Bytes) (hne : t ≠ [])
    (hlt : t.length < limit) (runs : FormattingRuns F) (hfit : AllRunsFit runs t.length) (get : Nat → Nat → SubFontFn φ)
    (hsame : ∀ s n, l.HasText t s n → SameLibs l (get s n) t s n) (hlast : ∀ b, (l.bounds t).getLast? = some b → b.2 = 0)
    (hcomp : ∀ q ∈ l.paragraphs t runs, 0 < q.length - q.separator →
      ∀ qs, Subs q.env.toShapeEnv q.calls q.env.line.start qs → Comparable q.env qs)
    (hz : ∀ q ∈ l.paragraphs t runs, q.env.toShapeEnv.Level) (L : Layout φ) (yAlign : YAlignment) (areaHeight : Rat) :
    ∃ ps L', refTextParas l get t runs.font (some (runs.flags .smallcaps)) (some (runs.flags .subscript))
        (some (runs.flags .superscript)) (l.bounds t) 0 = some ps ∧
      buildLayout L (l.paragraphs t runs) t.length yAlign areaHeight = some L' ∧
      refLayout L ps t.length yAlign areaHeight = some L' := by
  have hb := hl.bounds t hne hlt
  have hsp := TextLibs.Contract.spans hl hlt (l.bounds t) [] rfl hb
  simp only [List.map_nil, List.sum_nil] at hsp
  obtain ⟨css, fin, h1, h2⟩ := hfit.called _ (0 : Int) hsp
  have hP := (C91_paragraphs l limit k hl t hne hlt runs hfit).1
  have hps : l.paragraphs t runs = l.layOut t runs.font (l.bounds t) 0 css := by
    unfold TextLibs.paragraphs
    rw [h1]
  have hlastP : ∀ p, (l.paragraphs t runs).getLast? = some p → p.separator = 0 := by
    intro p hp
    rw [hps] at hp
    have : ∀ (bs : List (Nat × Nat)) (start : Nat) (css : List (List (ParaCall RunValue Int))),
        (l.layOut t runs.font bs start css).getLast?.map (·.separator) = bs.getLast?.map (·.2) := by
      intro bs
      induction bs with
      | nil => intro start css; cases css <;> rfl
      | cons b bs ih =>
        intro start css
        have := ih (start + b.1) css.tail
        cases bs with
        | nil => cases css <;> rfl
        | cons x xs =>
          rw [show l.layOut t runs.font (b :: x :: xs) start css = _ :: l.layOut t runs.font (x :: xs) (start + b.1) css.tail from rfl]
          rw [show l.layOut t runs.font (x :: xs) (start + b.1) css.tail = _ :: l.layOut t runs.font xs (start + b.1 + x.1) css.tail.tail from rfl] at this ⊢
          rw [List.getLast?_cons_cons, List.getLast?_cons_cons]
          exact this
    have := this (l.bounds t) 0 css
    rw [hp, Option.map_some] at this
    obtain ⟨b, hb1, hb2⟩ := Option.map_eq_some_iff.1 this.symm
    rw [← hb2]; exact hlast b hb1
  obtain ⟨ps', ps'', i1, i2, i3⟩ := refTextParas_same hl hlt hfit hsame (l.bounds t) [] css rfl hb hlast h2
    (by intro q hq; exact hcomp q (by rw [hps]; exact hq))
  rw [show (([] : List (Nat × Nat)).map (·.1)).sum = 0 from rfl, ← hps] at i2
  obtain ⟨L', k1, k2⟩ := C102_layout_partial hP hlastP i2 hz L yAlign areaHeight
  refine ⟨ps', L', i1, k1, ?_⟩
  rw [← k2]
  unfold refLayout
  rw [refParagraphs_congr _ _ i3]

/-! ### Concrete cases -/

/-- A font registry that answers for three bytes at most; fonts are numbers made of size, script and small capitals. -/
def threeGet : SubFontFn Nat := fun f s a _ _ i l => (f.size.toNat + 100 * s.toNat + (if a then 1000 else 0), min l (i + 3))

/-- "a (βγ) c" behind two bytes: the font changes in the brackets, small capitals start before, the level changes behind the
first of both letters. -/
theorem threeGet_in : RefIn 12 2 10 ⟨[toyFont, { toyFont with size := 20 }], [7, 12]⟩ (some ⟨[false, true], [4, 12]⟩) none none
    [0, 0, 0, 0, 0, 1, 1, 1, 1, 1] demoScriptText where
  pos := by decide
  inside := by decide
  fonts := by unfold RunsFit; decide
  smallcaps := by rintro r ⟨⟩; unfold RunsFit; decide
  subscript := by rintro r ⟨⟩
  superscript := by rintro r ⟨⟩
  levels := by decide
  forward := demoScriptText_forward
  length := by decide +kernel

example : (∀ k i l, i < l → i < (askFor threeGet k i l).2 ∧ (askFor threeGet k i l).2 ≤ l) ∧
    refLogicalRuns threeGet [0, 0, 0, 0, 0, 1, 1, 1, 1, 1] demoScriptText 2 10 ⟨[toyFont, { toyFont with size := 20 }], [7, 12]⟩
      (some ⟨[false, true], [4, 12]⟩) none none =
    some [⟨2516, 0, 25, 2⟩, ⟨3516, 0, 25, 3⟩, ⟨2416, 0, 14, 5⟩, ⟨2420, 1, 14, 7⟩, ⟨3520, 1, 25, 10⟩] := by
  refine ⟨?_, by decide +kernel⟩
  intro k i l h
  simp only [askFor, threeGet]
  omega

theorem Subs.unique {β : Type _} {e : ShapeEnv β φ} {calls : List (Nat × β)} {off : Nat} {qs : List (Sub β φ)} (h : Subs e calls off qs) :
    ∀ {qs'}, Subs e calls off qs' → qs' = qs := by
  induction h with
  | nil => intro qs' h'; cases h'; rfl
  | next hle _ ih =>
    intro qs' h'
    cases h' with
    | next _ h' => exact ih h'
    | sub hlt _ => omega
  | sub hlt _ ih =>
    intro qs' h'
    cases h' with
    | next hle _ => omega
    | sub _ h' => rw [ih h']

/-- `plainLibs` with sizes for fonts. -/
def sizeEnv (start length : Nat) : ParaEnv ShapeArgs Nat :=
  { subFont := fun v _ limit => (v.font.size.toNat, limit)
    shape := fun _ _ a b => (List.range (b - a)).map fun i => ⟨100 + a + i, i, 64, 0, 0, 0⟩
    reversed := fun _ => false
    same := (· == ·)
    isTab := fun _ => false
    spaceAdvance := fun _ => 64
    spaceGlyph := fun _ => 0
    vertical := false
    line := (demoEnv start length fun _ _ => []).line
    bidi := fun s t => [⟨s, t - s, 0⟩]
    metrics := fun _ => ⟨10, -(2 : Rat)⟩ }

def sizeLibs : TextLibs Nat where
  bounds t := lineBounds t 0
  levels _ _ n := List.replicate n 0
  script t s n := ⟨n, fun i => ((t[s + i]?.getD 0).toNat : Int), fun i => i + 1, fun _ => 25⟩
  env _ := sizeEnv
  defaultFont f := f.size.toNat
  metrics _ := ⟨8, -2⟩

theorem sizeLibs_contract (limit : Nat) : sizeLibs.Contract limit 1 := by
  have h := plainLibs_contract limit
  refine ⟨h.bounds, h.levels, h.script, ?_⟩
  intro t s n hlt ht
  obtain ⟨e1, e2, e3, e4, ⟨starts, e5⟩, e6⟩ := h.env t s n hlt ht
  have z : SingleScriptFont := ⟨{}, 0, 3#4, .normal, false, false, false, false, false, false⟩
  refine ⟨e1, e2, ?_, ⟨e4.1, fun f v => e4.2 z v, fun f v => e4.3 z v, .inl fun _ => rfl⟩, ⟨starts, fun f v => e5.1 z v, e5.2, e5.3⟩,
    fun f v => e6 z v⟩
  intro calls hc
  have k := e3 calls hc
  exact ⟨k.1, ⟨fun v o l h => ⟨h, Nat.le_refl _⟩, fun f v a b => k.contract.cluster z v a b, fun f v a b => k.contract.order z v a b⟩,
    k.3, k.4, k.5, .inl fun _ => rfl, k.7⟩

/-- The text "ab\nc", the first letter in another size. -/
def sizeRuns : FormattingRuns Nat :=
  ⟨⟨[toyFont, { toyFont with size := 20 }], [1, 4]⟩, ⟨[toyColor], [4]⟩, ⟨[toyStroke], [4]⟩, fun _ => ⟨[false], [4]⟩⟩

def sizeGet (_ _ : Nat) : SubFontFn Nat := fun f _ _ _ _ _ l => (f.size.toNat, l)

theorem sizeLibs_texts {s n : Nat} (h : sizeLibs.HasText b!"ab\nc" s n) : (s, n) = (0, 2) ∨ (s, n) = (3, 1) := by
  obtain ⟨h0, pre, b, post, hb, rfl, rfl⟩ := h
  rw [show sizeLibs.bounds b!"ab\nc" = [(3, 1), (1, 0)] by decide +kernel] at hb
  rcases pre with _ | ⟨a, pre⟩
  · cases hb; exact .inl rfl
  · rcases pre with _ | ⟨a', pre⟩
    · cases hb; exact .inr rfl
    · have := congrArg List.length hb
      simp at this

def sizeArgs (size : Nat) : ShapeArgs := ⟨{ toyFont with size := size }, 25, 0, false, false, false⟩

theorem sizeLibs_paragraphs : ∃ f g m m', sizeLibs.paragraphs b!"ab\nc" sizeRuns =
    [⟨3, 1, sizeEnv 0 2, [(1, sizeArgs 16), (2, sizeArgs 20)], f, m⟩, ⟨1, 0, sizeEnv 3 1, [(4, sizeArgs 20)], g, m'⟩] := by
  have hcss : (textCalls (b!"ab\nc".length + 1) 0 (sizeLibs.spans b!"ab\nc" (sizeLibs.bounds b!"ab\nc") 0) 0
      (startIters sizeRuns.font (some (sizeRuns.flags .smallcaps)) (some (sizeRuns.flags .subscript))
        (some (sizeRuns.flags .superscript)) b!"ab\nc".length)).1.map (fun c => c.filterMap ParaCall.args) =
      [[(1, sizeArgs 16), (2, sizeArgs 20)], [(4, sizeArgs 20)]] := by decide +kernel
  unfold TextLibs.paragraphs
  generalize (textCalls _ _ _ _ _ : List (List (ParaCall RunValue Int)) × TextEnd RunValue).1 = css at hcss ⊢
  rcases css with _ | ⟨c, _ | ⟨d, _ | ⟨e, t⟩⟩⟩
  · cases hcss
  · simp at hcss
  · simp only [List.map_cons, List.map_nil, List.cons.injEq, and_true] at hcss
    rw [show sizeLibs.bounds b!"ab\nc" = [(3, 1), (1, 0)] by decide +kernel]
    simp only [TextLibs.layOut, List.headD_cons, List.tail_cons, hcss.1, hcss.2]
    exact ⟨_, _, _, _, rfl⟩
  · simp at hcss

theorem sizeEnv_comparable {start length : Nat} {qs : List (Sub ShapeArgs Nat)}
    (h : ∀ q ∈ qs, ∀ q' ∈ qs, q.stop = q'.first → q.font ≠ q'.font) : Comparable (sizeEnv start length) qs where
  horizontal := rfl
  noTabs := fun _ => rfl
  noTabs' := fun _ => rfl
  same := fun f g => by simp [sizeEnv]
  flat := by
    intro f v a b g hg
    obtain ⟨i, _, rfl⟩ := List.mem_map.1 hg
    rfl
  glyphs := by
    intro f v a b _ hr
    cases hr
  direction := by
    intro s t _ _ _ r hr q _ _ _
    simp only [sizeEnv, List.mem_cons, List.not_mem_nil, or_false] at hr
    subst hr; rfl
  fonts := fun s t _ _ _ r _ q hq q' hq' he _ _ => h q hq q' hq' he

/-- The hypotheses of `C121_same_layout_partial`. -/
example : ∃ ps L', refTextParas sizeLibs sizeGet b!"ab\nc" sizeRuns.font (some (sizeRuns.flags .smallcaps))
      (some (sizeRuns.flags .subscript)) (some (sizeRuns.flags .superscript)) (sizeLibs.bounds b!"ab\nc") 0 = some ps ∧
    buildLayout {} (sizeLibs.paragraphs b!"ab\nc" sizeRuns) 4 .top 100 = some L' ∧ refLayout {} ps 4 .top 100 = some L' := by
  refine C121_same_layout_partial sizeLibs 1000 1 (sizeLibs_contract _) b!"ab\nc" (by decide) (by decide) sizeRuns ?_ sizeGet ?_ ?_ ?_ ?_
    {} .top 100
  · refine ⟨by unfold RunsFit; decide, by unfold RunsFit; decide, by unfold RunsFit; decide, fun k => ?_⟩
    show RunsFit (⟨[false], [4]⟩ : ValueRuns Bool) 4
    unfold RunsFit; decide
  · intro s n h
    refine ⟨fun k i j h => ⟨h, Nat.le_refl _⟩, fun a i j _ _ => rfl, ?_, ?_, fun f v v' i j _ _ => ⟨rfl, rfl⟩⟩
    · intro k m _ a l h1 h2
      refine ⟨fun h => ?_, fun _ => ⟨rfl, rfl⟩⟩
      simp only [askFor, sizeGet] at h
      omega
    · rcases sizeLibs_texts h with h | h <;> cases h <;> decide +kernel
  · intro b hb
    rw [show sizeLibs.bounds b!"ab\nc" = [(3, 1), (1, 0)] by decide +kernel] at hb
    cases hb; rfl
  · intro q hq h0 qs hqs
    obtain ⟨_, _, _, _, hps⟩ := sizeLibs_paragraphs
    rw [hps] at hq
    simp only [List.mem_cons, List.not_mem_nil, or_false] at hq
    rcases hq with rfl | rfl
    · have hqs : Subs (sizeEnv 0 2).toShapeEnv [(1, sizeArgs 16), (2, sizeArgs 20)] 0 qs := hqs
      have : qs = [⟨16, sizeArgs 16, 0, 1⟩, ⟨20, sizeArgs 20, 1, 2⟩] := Subs.unique
        (Subs.sub (by decide) (Subs.next (by decide) (Subs.sub (by decide) (Subs.next (by decide) (Subs.nil _))))) hqs
      subst this
      exact sizeEnv_comparable (by decide)
    · have hqs : Subs (sizeEnv 3 1).toShapeEnv [(4, sizeArgs 20)] 3 qs := hqs
      have : qs = [⟨20, sizeArgs 20, 3, 4⟩] := Subs.unique (Subs.sub (by decide) (Subs.next (by decide) (Subs.nil _))) hqs
      subst this
      exact sizeEnv_comparable (by decide)
  · intro q hq f v a b g hg
    obtain ⟨_, _, _, _, hps⟩ := sizeLibs_paragraphs
    rw [hps] at hq
    simp only [List.mem_cons, List.not_mem_nil, or_false] at hq
    rcases hq with rfl | rfl <;> (obtain ⟨i, _, rfl⟩ := List.mem_map.1 hg; rfl)

/-- The hypotheses of `C121_same_runs_partial`, with two levels: "abc" behind a separator, its "c" to be read to the left; the runs are
cut where the level changes. -/
example : ∃ css fin calls, textCalls 5 (0 : Int) [⟨1, 1, [], []⟩, ⟨3, 0, [0, 0, 1], [(3, 25)]⟩] 0
      (startIters ⟨[toyFont, { toyFont with size := 20 }], [2, 4]⟩ none none none 4) = (css, fin) ∧
    css[1]? = some calls ∧ ∀ qs, Subs (sizeEnv 1 3).toShapeEnv (calls.filterMap ParaCall.args) 1 qs →
      refLogicalRuns (sizeGet 1 3) [0, 0, 1] (textOf ['a', 'b', 'c']) 1 3 ⟨[toyFont, { toyFont with size := 20 }], [2, 4]⟩ none none none =
        some (qs.map fun q => ⟨q.font, q.args.level, q.args.script, q.stop - 1⟩) :=
  C121_same_runs_partial (sizeGet 1 3) (fun k i l h => ⟨h, Nat.le_refl _⟩) 4 ⟨[toyFont, { toyFont with size := 20 }], [2, 4]⟩ none none none
    (by unfold RunsFit; decide)
    (by rintro r ⟨⟩) (by rintro r ⟨⟩) (by rintro r ⟨⟩) [⟨1, 1, [], []⟩] ⟨3, 0, [0, 0, 1], [(3, 25)]⟩ []
    ⟨by decide, by decide, fun h => absurd h (by decide), by decide, by decide, fun _ => ⟨rfl, by decide, by decide, rfl⟩, rfl⟩ (by decide)
    (textOf ['a', 'b', 'c']) (by unfold ScriptText.Forward; decide +kernel) (by decide +kernel) [⟨0, 3, 25⟩] (by decide +kernel) rfl
    (.inr rfl) (sizeEnv 1 3).toShapeEnv (fun a i l _ _ => rfl) (by
      intro k m _ a l h1 h2
      refine ⟨fun h => ?_, fun _ => ⟨rfl, rfl⟩⟩
      simp only [askFor, sizeGet] at h
      omega)

example : refLogicalRuns (sizeGet 1 3) [0, 0, 1] (textOf ['a', 'b', 'c']) 1 3 ⟨[toyFont, { toyFont with size := 20 }], [2, 4]⟩ none none none =
    some [⟨16, 0, 25, 1⟩, ⟨20, 0, 25, 2⟩, ⟨20, 1, 25, 3⟩] := by decide +kernel

/-! ### The fonts at changes of level -/

/-- `get_sub_font` of a registry on the characters of a paragraph, as the earlier builder asks it. -/
def registryGet (p : ParagraphFonts) : SubFontFn SingleScriptFont := fun f s a b c i l =>
  ((getSubFont p.lib p.reg .init f (p.chars i l) i l s a b c).map (·.2)).getD
    (⟨{}, 0, 3#4, .normal, false, false, false, false, false, false⟩, l)

/-- A fallback that has all characters. -/
def arabicLib : FontLib := { demoLib with hasGlyph := fun f c => if f = 3 then true else decide (c < 0x400) }

def arabicRegistry : Registry := (registerAll arabicLib [demoSans, demoCjk] .init).getD .init

/-- An Arabic letter of two bytes and a digit. -/
def arabicParagraph : ParagraphFonts where
  lib := arabicLib
  reg := arabicRegistry
  text := ⟨[0xd8, 0xa7, 0x31], 0, 3, fun _ s => (s, [])⟩
  chars a b := (if a = 0 ∧ 2 ≤ b then [(2, 0x627)] else []) ++ (if a ≤ 2 ∧ 3 ≤ b then [(1, 0x31)] else [])
  hb file height scaled b _ :=
    (b.text.head?.map fun x => ⟨1000 * file + height, x.2, b.text.length * (if scaled then 64 else 128), 0, 0, 0⟩).toList
  vertical := false

/-- The letter is Arabic, the digit common. -/
def arabicText : ScriptText where
  len := 3
  cp i := if i = 0 then 0x627 else if i = 2 then 0x31 else -1
  fwd i := if i = 0 then 2 else i + 1
  script c := if c = 0x627 then 2 else 0

/-- C121 violated: an Arabic letter that only a fallback has, then a digit that both fonts have; one script, levels 1 and 2.  The
earlier builder asks for the font of both at once and draws the digit with the fallback, too; the layout builder asks again where
the level changes and draws it with the base font. -/
theorem C121_fonts_violated : ∃ (p : ParagraphFonts) (t : ScriptText) (levels : List Nat) (fonts : ValueRuns Font)
    (scripts : List (Int × Int)) (rs : List ScriptRun) (calls : List (ParaCall RunValue Int)) (base fallback : SingleScriptFont),
    p.reg.Reached p.lib ∧ p.reg.Fits ∧ RefIn 3 0 3 fonts none none none levels t ∧ ScriptRunIter.init.all t 3 = some rs ∧
      scripts = rs.map (fun r => ((r.limit : Int), r.script)) ∧ Spans 3 0 [⟨3, 0, levels, scripts⟩] ∧
      (textCalls 4 0 [⟨3, 0, levels, scripts⟩] 0 (startIters fonts none none none 3)).1 = [calls] ∧
      refLogicalRuns (registryGet p) levels t 0 3 fonts none none none = some [⟨fallback, 1, 2, 2⟩, ⟨fallback, 2, 2, 3⟩] ∧
      (p.shape (calls.filterMap ParaCall.args) 0 .init {}).map (fun x => x.2.2.runs.map fun r => (r.font, r.charEnd)) =
        some [(fallback, 2), (base, 3)] ∧ SingleScriptFont.same base fallback = false := by
  refine ⟨arabicParagraph, arabicText, [1, 1, 2], ⟨[demoFont], [3]⟩, [(3, 2)], [⟨0, 3, 2⟩],
    [⟨2, [.font demoFont, .flag false, .flag false, .flag false], 2, 1⟩, ⟨3, [.font demoFont, .flag false, .flag false, .flag false], 2, 2⟩],
    ⟨⟨1, 3, .normal⟩, 16, 3, .normal, false, false, false, false, false, false⟩,
    ⟨⟨2, 2, .normal⟩, 16, 3, .normal, false, false, false, false, false, false⟩, ?_, ?_, ?_, ?_, ?_, ?_, ?_, ?_, ?_, ?_⟩
  · exact registerAll_steps arabicLib [demoSans, demoCjk] .init .init arabicRegistry (.refl _) (by decide +kernel)
  · show arabicRegistry.Fits
    unfold Registry.Fits; decide +kernel
  · exact ⟨by decide, by decide, by unfold RunsFit; decide, by rintro r ⟨⟩, by rintro r ⟨⟩, by rintro r ⟨⟩, by decide,
      by unfold ScriptText.Forward; decide +kernel, rfl⟩
  · decide +kernel
  · rfl
  · exact ⟨by decide, by decide, fun _ => ⟨rfl, by decide, by decide, rfl⟩, rfl⟩
  · decide +kernel
  · decide +kernel
  · decide +kernel
  · decide +kernel

end RichText
