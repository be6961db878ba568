import Verif.Spec.LxBuilder
import Verif.Spec.IcuBuilder
import Verif.Proof.Paragraph
/-!
Proofs about Model/LxBuilder.
-/
namespace RichText
variable {φ : Type _}

/-- The paragraphs: each but the last one ends with a separator, the last one with the text; for each level LayoutEx answers. -/
def LxParas (chars : List Nat) : List (LxPara φ) → Nat → Prop
  | [], _ => False
  | p :: t, off =>
    p.separator ≤ p.length ∧
    (0 < p.length - p.separator → ∀ level, LxText chars off (p.length - p.separator) (p.layout level).2) ∧
    (if t = [] then p.separator = 0 ∧ off + p.length = chars.length else 0 < p.separator ∧ LxParas chars t (off + p.length))

theorem Separator16.pos {sep rest : List Nat} (h : Separator16 sep rest) : 0 < sep.length := by
  cases h <;> simp

theorem lxParas_of {chars : List Nat} : ∀ {s : List Nat} {l : List (Nat × Nat)}, Segments16 s l →
    ∀ (ps : List (LxPara φ)) (off : Nat), ps.map (fun p => (p.length, p.separator)) = l → off + s.length = chars.length →
    LxAnswers chars ps off → LxParas chars ps off
  | _, _, .last _, [p], off, hm, hl, ha => by
    simp only [List.map_cons, List.map_nil, List.cons.injEq, Prod.mk.injEq, and_true] at hm
    exact ⟨by omega, ha.1, by rw [if_pos rfl]; exact ⟨hm.2, by omega⟩⟩
  | _, _, .last _, [], _, hm, _, _ => by simp at hm
  | _, _, .last _, _ :: _ :: _, _, hm, _, _ => by simp at hm
  | _, _, .cons _ _ _, [], _, hm, _, _ => by simp at hm
  | _, _, .cons (a := a) (sep := sep) (rest := rest) h1 h2 h3, p :: t, off, hm, hl, ha => by
    simp only [List.map_cons, List.cons.injEq, Prod.mk.injEq] at hm
    have := h2.pos
    have ht : t ≠ [] := by
      rintro rfl
      cases h3 <;> simp at hm
    refine ⟨by omega, ha.1, ?_⟩
    rw [if_neg ht]
    refine ⟨by omega, lxParas_of h3 t _ hm.2 ?_ ha.2⟩
    simp only [List.length_append] at hl
    omega

theorem lxGlyphs_spec (off : Nat) : ∀ (gs : List Nat) (ps : List (Rat × Rat)) (cs : List Nat),
    gs.length ≤ ps.length → gs.length ≤ cs.length →
    lxGlyphs off gs ps cs = some (((gs.zip (ps.zip cs)).filter fun g => g.1 ≠ 0xFFFF).map fun g =>
      (⟨g.1, g.2.2 + off, g.2.1.1, g.2.1.2⟩ : GlyphSpec))
  | [], _, _, _, _ => by simp [lxGlyphs]
  | g :: gs, [], _, h, _ => by simp at h
  | g :: gs, _ :: _, [], _, h => by simp at h
  | g :: gs, p :: ps, c :: cs, h1, h2 => by
    simp only [List.length_cons] at h1 h2
    rw [lxGlyphs, lxGlyphs_spec off gs ps cs (by omega) (by omega), Option.map_some]
    by_cases hg : g = 0xFFFF
    · simp [hg]
    · simp [hg]

theorem lxRun_spec {chars : List Nat} {off : Nat} {r : LxRun φ} {x : Nat × Nat} (h : r.Covers chars off x) :
    ∃ q : RunSpec φ, r.Recorded chars off q ∧ (q.charStart, q.charEnd) = x ∧ q.charEndOffset = 0 ∧
      lxRun chars off r = some (.run q.font q.glyphs q.endX q.endY q.charStart q.charEnd q.rtl, ⟨0, x.1, x.2, r.rtl⟩) := by
  obtain ⟨c, hc, hx1⟩ := h.first
  obtain ⟨c', u, hc', hu, hx2⟩ := h.last
  have hn : r.glyphs.length ≠ 0 := by
    intro h0; exact h.glyphs (List.eq_nil_of_length_eq_zero h0)
  have hp : r.positions[r.glyphs.length]? = r.positions.getLast? := by
    rw [List.getLast?_eq_getElem?, h.positions]; rfl
  have hp' : ∃ p, r.positions.getLast? = some p := by
    rw [← hp]
    exact ⟨_, List.getElem?_eq_getElem (by rw [h.positions]; omega)⟩
  obtain ⟨p, hp'⟩ := hp'
  have hz : r.charMap[r.glyphs.length - 1]? = r.charMap.getLast? := by
    rw [List.getLast?_eq_getElem?, h.charMap]
  have ha : r.charMap[0]? = r.charMap.head? := by rw [List.head?_eq_getElem?]
  refine ⟨⟨r.font, _, p.1, p.2, x.1, x.2, 0, r.rtl⟩, ⟨rfl, rfl, rfl, hp', h⟩, rfl, rfl, ?_⟩
  unfold lxRun
  rw [lxGlyphs_spec off _ _ _ (by rw [h.positions]; omega) (by rw [h.charMap]), hp, hp', if_neg hn, hz, ha]
  cases hr : r.rtl with
  | true =>
    rw [hr] at hc hc'
    simp only [if_true] at hc hc'
    simp only [hc, hc', if_true, lxForward, hu, Option.map_some]
    rw [show (if 0xD800 ≤ u ∧ u < 0xDC00 then c' + off + 2 else c' + off + 1) = x.2 by rw [hx2]; split <;> split <;> omega, hx1]
  | false =>
    rw [hr] at hc hc'
    simp only [Bool.false_eq_true, if_false] at hc hc'
    simp only [hc, hc', Bool.false_eq_true, if_false, lxForward, hu, Option.map_some]
    rw [show (if 0xD800 ≤ u ∧ u < 0xDC00 then c' + off + 2 else c' + off + 1) = x.2 by rw [hx2]; split <;> split <;> omega, hx1]

/-- Ranges of the pieces of the model, whose end is the one behind. -/
def lxRange (p : VisualPiece) : Nat × Nat := (p.first, p.last)

/-- A run and the piece of it. -/
def LxPiece (p : VisualPiece) (q : RunSpec φ) : Prop := (p.first, p.last) = q.range ∧ q.charEndOffset = 0

theorem lxRuns_spec {chars : List Nat} {off : Nat} : ∀ {l : List (LxRun φ)} {rg : List (Nat × Nat)},
    List.Forall₂ (LxRun.Covers chars off) l rg →
    ∃ (ops : List (LayoutOp φ)) (ps : List VisualPiece) (qs : List (RunSpec φ)), lxRuns chars off l = some (ops, ps) ∧
      ps.map lxRange = rg ∧ List.Forall₂ LxPiece ps qs ∧ List.Forall₂ (LxRun.Recorded chars off) l qs ∧
      ∀ d : Draft φ, d.steps ops = some { d with open_ := d.open_ ++ qs }
  | _, _, .nil => ⟨[], [], [], rfl, rfl, .nil, .nil, fun d => by simp [Draft.steps]⟩
  | _, _, .cons h t => by
    obtain ⟨ops, ps, qs, h1, h2, h3, h4, h5⟩ := lxRuns_spec t
    obtain ⟨q, a1, a2, a3, a4⟩ := lxRun_spec h
    refine ⟨_, _, q :: qs, by rw [lxRuns, a4, h1], ?_, .cons ⟨?_, a3⟩ h3, .cons a1 h4, ?_⟩
    · rw [List.map_cons, h2]; rfl
    · simp only [RunSpec.range, a3, Nat.add_zero, a2]
    · intro d
      simp only [Draft.steps, Draft.step, h5, List.append_assoc, List.cons_append, List.nil_append]
      have : (⟨q.font, q.glyphs, q.endX, q.endY, q.charStart, q.charEnd, 0, q.rtl⟩ : RunSpec φ) = q := by
        rw [← a3]
      rw [this]

theorem lxTruncate_lt (q : Rat) (h : 0 ≤ q) : ((lxTruncate q : Int) : Rat) ≤ q ∧ q < ((lxTruncate q : Int) : Rat) + 1 := by
  have hn : 0 ≤ q.num := Rat.num_nonneg.2 h
  have hd : (0 : Int) < q.den := by exact_mod_cast q.den_pos
  have e : lxTruncate q = q.floor := by
    unfold lxTruncate
    rw [Rat.floor_def, Int.tdiv_eq_ediv_of_nonneg hn]
  rw [e]
  exact ⟨Rat.floor_le _, by have := Rat.lt_floor_add_one q; push_cast at this; exact this⟩

theorem lxTruncate_nonpos (q : Rat) (h : q < 0) : lxTruncate q ≤ 0 := by
  unfold lxTruncate
  have hn : q.num ≤ 0 := (Rat.num_neg.2 h).le
  have : (q.num.tdiv q.den) = -((-q.num).tdiv q.den) := by rw [Int.neg_tdiv, neg_neg]
  rw [this]
  have := Int.tdiv_nonneg (a := -q.num) (b := q.den) (by omega) (by exact_mod_cast q.den_pos.le)
  omega

theorem lxMax_spec (f : φ → Rat) : ∀ (l : List (LxRun φ)) (m : Int), 0 ≤ m →
    m ≤ lxMax (fun x => lxTruncate (f x)) l m ∧
    (∀ r ∈ l, f r.font < (lxMax (fun x => lxTruncate (f x)) l m : Rat) + 1) ∧
    (lxMax (fun x => lxTruncate (f x)) l m = m ∨
      ∃ r ∈ l, ((lxMax (fun x => lxTruncate (f x)) l m : Int) : Rat) ≤ f r.font)
  | [], m, _ => ⟨Int.le_refl _, by simp, Or.inl rfl⟩
  | r :: t, m, hm => by
    rw [lxMax]
    have hlt : f r.font < (lxTruncate (f r.font) : Rat) + 1 ∨ f r.font < 0 := by
      by_cases h : 0 ≤ f r.font
      · exact Or.inl (lxTruncate_lt _ h).2
      · exact Or.inr (not_le.1 h)
    by_cases hg : lxTruncate (f r.font) > m
    · rw [if_pos hg]
      obtain ⟨h1, h2, h3⟩ := lxMax_spec f t (lxTruncate (f r.font)) (by omega)
      have h0 : 0 ≤ f r.font := by
        by_contra h
        have := lxTruncate_nonpos _ (not_le.1 h)
        omega
      refine ⟨by omega, ?_, ?_⟩
      · intro s hs
        rcases List.mem_cons.1 hs with rfl | hs
        · have a := (lxTruncate_lt _ h0).2
          have b : ((lxTruncate (f s.font) : Int) : Rat) ≤ (lxMax (fun x => lxTruncate (f x)) t (lxTruncate (f s.font)) : Int) := by
            exact_mod_cast h1
          linarith
        · exact h2 s hs
      · rcases h3 with h3 | ⟨s, hs, h3⟩
        · refine Or.inr ⟨r, List.mem_cons_self .., ?_⟩
          rw [h3]; exact (lxTruncate_lt _ h0).1
        · exact Or.inr ⟨s, List.mem_cons_of_mem _ hs, h3⟩
    · rw [if_neg hg]
      obtain ⟨h1, h2, h3⟩ := lxMax_spec f t m hm
      refine ⟨h1, ?_, ?_⟩
      · intro s hs
        rcases List.mem_cons.1 hs with rfl | hs
        · have b : ((m : Int) : Rat) ≤ (lxMax (fun x => lxTruncate (f x)) t m : Int) := by exact_mod_cast h1
          have c : ((lxTruncate (f s.font) : Int) : Rat) ≤ (m : Rat) := by exact_mod_cast (by omega : lxTruncate (f s.font) ≤ m)
          have d : (0 : Rat) ≤ (m : Rat) := by exact_mod_cast hm
          rcases hlt with a | a <;> linarith
        · exact h2 s hs
      · rcases h3 with h3 | ⟨s, hs, h3⟩
        · exact Or.inl h3
        · exact Or.inr ⟨s, List.mem_cons_of_mem _ hs, h3⟩

theorem lxMax_floor (f : φ → Rat) (l : List (LxRun φ)) : FloorMax f l (lxMax (fun x => lxTruncate (f x)) l 0) := lxMax_spec f l 0 (Int.le_refl _)

theorem lxLines_spec {chars : List Nat} (metrics : φ → Metrics) {off : Nat} : ∀ {ls : List (List (LxRun φ))}
    {rg : List (List (Nat × Nat))},
    List.Forall₂ (fun l r => l ≠ [] ∧ List.Forall₂ (LxRun.Covers chars off) l r) ls rg →
    ∃ (ops : List (LayoutOp φ)) (ps : List VisualPiece) (new : List (LineSpec φ)),
      lxLines chars metrics off ls = some (ops, ps) ∧ ps.map lxRange = rg.flatten ∧
      List.Forall₂ LxPiece ps (allRuns new) ∧ List.Forall₂ (LxRecorded chars metrics off) ls new ∧
      ∀ d : Draft φ, d.open_ = [] → d.steps ops = some { d with lines := d.lines ++ new }
  | _, _, .nil => ⟨[], [], [], rfl, rfl, .nil, .nil, fun d _ => by simp [Draft.steps]⟩
  | _, _, .cons (a := l) (b := r) h t => by
    obtain ⟨ops', ps', new, g1, g2, g3, g4, g5⟩ := lxLines_spec metrics t
    obtain ⟨ops, ps, qs, h1, h2, h3, h4, h5⟩ := lxRuns_spec h.2
    have hne : qs ≠ [] := by
      rintro rfl
      cases h4
      exact h.1 rfl
    refine ⟨_, _, ⟨qs, _, _⟩ :: new, by rw [lxLines, lxLine, h1, g1, Option.map_some], ?_, ?_,
      .cons ⟨h4, _, _, lxMax_floor _ l, lxMax_floor _ l, rfl, rfl⟩ g4, ?_⟩
    · rw [List.map_append, h2, g2, List.flatten_cons]
    · have e : ∀ h a, allRuns ((⟨qs, h, a⟩ : LineSpec φ) :: new) = qs ++ allRuns new := fun _ _ => by simp [allRuns]
      rw [e]
      exact List.rel_append h3 g3
    · intro d hd
      rw [steps_append, steps_append, h5]
      simp only [Option.bind_some, Draft.steps, Draft.step, hd, List.nil_append, List.isEmpty_iff, hne, if_false]
      rw [g5 _ rfl]
      simp only [List.append_assoc, List.cons_append, List.nil_append, Int.cast_add]
      rfl

theorem setOffsetAt_forall₂ {α : Type _} {R : α → RunSpec φ → Prop} (hR : ∀ a q o, R a q → R a { q with charEndOffset := o })
    (o : Nat) : ∀ {l : List α} {qs : List (RunSpec φ)} (j : Nat), List.Forall₂ R l qs → List.Forall₂ R l (setOffsetAt o j qs)
  | _, _, 0, .nil => .nil
  | _, _, _ + 1, .nil => .nil
  | _, _, 0, .cons h t => .cons (hR _ _ _ h) t
  | _, _, j + 1, .cons h t => .cons h (setOffsetAt_forall₂ hR o j t)

theorem setOffsetLines_forall₂ {α : Type _} {R : α → LineSpec φ → Prop}
    (hR : ∀ a q o j, R a q → R a { q with runs := setOffsetAt o j q.runs }) (o : Nat) :
    ∀ {l : List α} {qs : List (LineSpec φ)} (j : Nat), List.Forall₂ R l qs → List.Forall₂ R l (setOffsetLines o j qs)
  | _, _, _, .nil => .nil
  | _, _, j, .cons h t => by
    rw [setOffsetLines]
    split
    · exact .cons (hR _ _ _ _ h) t
    · exact .cons h (setOffsetLines_forall₂ hR o _ t)

theorem LxRecorded.setOffset {chars : List Nat} {metrics : φ → Metrics} {off : Nat} {a : List (LxRun φ)} {q : LineSpec φ}
    (o j : Nat) (h : LxRecorded chars metrics off a q) :
    LxRecorded chars metrics off a { q with runs := setOffsetAt o j q.runs } :=
  ⟨setOffsetAt_forall₂ (fun _ _ _ h => h) o j h.1, h.2⟩

/-- What is recorded of one paragraph. -/
def LxStored1 (chars : List Nat) (metrics : φ → Metrics) (p : LxPara φ) (off level : Nat) (a : List (LineSpec φ)) : Prop :=
  if 0 < p.length - p.separator then List.Forall₂ (LxRecorded chars metrics off) (p.layout level).2 a
  else ∃ sep, a = [⟨[⟨p.defaultFont, [], 0, 0, off, off, sep, false⟩],
    p.defaultMetrics.ascent - p.defaultMetrics.descent, p.defaultMetrics.ascent⟩]

theorem lxParagraph_spec {chars : List Nat} (metrics : φ → Metrics) {p : LxPara φ} {off level : Nat}
    (hok : 0 < p.length - p.separator → LxText chars off (p.length - p.separator) (p.layout level).2) (runCount : Nat) :
    ∃ ops hi new, lxParagraph chars metrics p off runCount level = some (ops, hi, runCount + (allRuns new).length) ∧
      LxStored1 chars metrics p off level new ∧
      (0 < p.length - p.separator → Partition RunSpec.range off (off + (p.length - p.separator)) (allRuns new)) ∧
      (¬ 0 < p.length - p.separator → allRuns new = [.empty p.defaultFont off]) ∧
      (∀ d : Draft φ, d.open_ = [] → d.steps ops = some { d with lines := d.lines ++ new }) ∧
      ∃ j r, hi = runCount + j ∧ (allRuns new)[j]? = some r ∧ r.charEndOffset = 0 ∧
        r.range.2 = off + (p.length - p.separator) := by
  unfold lxParagraph LxStored1
  by_cases h0 : p.length - p.separator > 0
  · rw [if_pos h0]
    obtain ⟨rg, h1, h2⟩ := hok h0
    obtain ⟨ops, ps, new, g1, g2, g3, g4, g5⟩ := lxLines_spec metrics h1
    have hpart : Partition lxRange off (off + (p.length - p.separator)) ps := h2.congr (by rw [g2, List.map_id])
    have hmap := forall₂_map_eq (f := lxRange) (g := RunSpec.range) (fun p r h => h.1) g3
    have hpart' : Partition RunSpec.range off (off + (p.length - p.separator)) (allRuns new) := hpart.congr hmap
    obtain ⟨j, q, hj, hhi, _, hmax⟩ := (highest_spec ps runCount (0, -2147483648)).resolve_left (by
      rintro ⟨_, hle⟩
      obtain ⟨q, hq, _⟩ := hpart.find (c := off) (Nat.le_refl _) (by omega)
      have := hle q hq
      simp only at this
      omega)
    obtain ⟨r, hr, a1, a2⟩ := forall₂_get g3 j q hj
    have hlen : ps.length = (allRuns new).length := g3.length_eq
    refine ⟨ops, runCount + j, new, ?_, ?_, fun _ => hpart', fun h => absurd h0 h, g5, j, r, rfl, hr, a2, ?_⟩
    · simp only [g1, Option.map_some, hhi, hlen]
    · rw [if_pos h0]; exact g4
    · obtain ⟨z, hz, z1, z2⟩ := hpart.find (c := off + (p.length - p.separator) - 1) (by omega) (by omega)
      have := hmax z hz
      have hq := (hpart.mem q (List.mem_of_getElem? hj)).2.2
      rw [← a1]
      simp only [lxRange] at *
      omega
  · rw [if_neg h0]
    refine ⟨_, runCount, [⟨[.empty p.defaultFont off], p.defaultMetrics.ascent - p.defaultMetrics.descent,
      p.defaultMetrics.ascent⟩], rfl, ?_, fun h => absurd h h0, fun _ => by simp [allRuns], ?_,
      0, .empty p.defaultFont off, rfl, by simp [allRuns], rfl, ?_⟩
    · rw [if_neg h0]; exact ⟨0, rfl⟩
    · intro d hd
      simp [Draft.steps, Draft.step, hd]
    · simp only [RunSpec.range, RunSpec.empty]; omega

/-- The paragraph with its separator. -/
theorem lxParagraph_separator {chars : List Nat} {metrics : φ → Metrics} {p : LxPara φ} {off level : Nat}
    {new : List (LineSpec φ)} (hsep : p.separator ≤ p.length) (hs : 0 < p.separator) (runCount : Nat)
    (h1 : LxStored1 chars metrics p off level new)
    (h2 : 0 < p.length - p.separator → Partition RunSpec.range off (off + (p.length - p.separator)) (allRuns new))
    (h3 : ¬ 0 < p.length - p.separator → allRuns new = [.empty p.defaultFont off]) {ops : List (LayoutOp φ)}
    (h4 : ∀ d : Draft φ, d.open_ = [] → d.steps ops = some { d with lines := d.lines ++ new }) {j : Nat} {r : RunSpec φ}
    (h5 : (allRuns new)[j]? = some r) (h6 : r.charEndOffset = 0) (h7 : r.range.2 = off + (p.length - p.separator)) :
    LxStored1 chars metrics p off level (setOffsetLines p.separator j new) ∧
    Partition RunSpec.range off (off + p.length) (allRuns (setOffsetLines p.separator j new)) ∧
    ∀ d : Draft φ, d.open_ = [] → (allRuns d.lines).length = runCount →
      d.steps (ops ++ [.setOffset (runCount + j) p.separator]) =
        some { d with lines := d.lines ++ setOffsetLines p.separator j new } := by
  have hjl : j < (allRuns new).length := (List.getElem?_eq_some_iff.1 h5).1
  refine ⟨?_, ?_, ?_⟩
  · unfold LxStored1 at h1 ⊢
    by_cases h0 : 0 < p.length - p.separator
    · rw [if_pos h0] at h1 ⊢
      exact setOffsetLines_forall₂ (fun _ _ o j h => h.setOffset o j) _ j h1
    · rw [if_neg h0] at h1 ⊢
      obtain ⟨sep, rfl⟩ := h1
      have : j = 0 := by simp [allRuns] at hjl; exact hjl
      subst this
      exact ⟨p.separator, by simp [setOffsetLines, setOffsetAt]⟩
  · rw [setOffsetLines_allRuns]
    by_cases h0 : 0 < p.length - p.separator
    · have hp := h2 h0
      obtain ⟨A, B, e1, e2⟩ := setOffsetAt_split p.separator j (allRuns new) r h5
      rw [e2]
      rw [e1] at hp
      refine hp.extend h7 (fun _ _ => rfl) ?_ (by omega)
      simp only [RunSpec.range] at h7 ⊢
      rw [h6] at h7
      congr 1
      omega
    · rw [h3 h0] at hjl ⊢
      have : j = 0 := by simpa using hjl
      subst this
      simp only [setOffsetAt]
      refine Partition.single ?_ (by omega)
      simp only [RunSpec.range, RunSpec.empty]
      congr 1
      omega
  · intro d hd hc
    rw [steps_append, h4 d hd]
    simp only [Option.bind_some, Draft.steps, Draft.step, allRuns_append, List.length_append]
    rw [if_pos (by omega), setOffsetLines_append_right _ _ _ _ (by omega), hc]
    simp

/-- The level asked for paragraph `i`. -/
def lxLevel (ps : List (LxPara φ)) (level i : Nat) : Nat := (ps.take i).foldl (fun l p => p.next l) level

/-- The run of an empty last paragraph. -/
def lxFinal (ps : List (LxPara φ)) (count : Nat) : List (RunSpec φ) :=
  match ps.getLast? with
  | some p => if p.length = 0 then [.empty p.defaultFont count] else []
  | none => []

theorem lxParagraphs_spec {chars : List Nat} (metrics : φ → Metrics) : ∀ (ps : List (LxPara φ)) (off runCount level : Nat),
    LxParas chars ps off →
    ∃ ops new rs, lxParagraphs chars metrics ps off runCount level = some ops ∧
      LxStored chars metrics ps off (lxLevel ps level) new ∧
      allRuns new = rs ++ lxFinal ps chars.length ∧ Partition RunSpec.range off chars.length rs ∧
      ∀ d : Draft φ, d.open_ = [] → (allRuns d.lines).length = runCount →
        d.steps ops = some { d with lines := d.lines ++ new }
  | [], _, _, _, h => h.elim
  | p :: t, off, runCount, level, h => by
    obtain ⟨h1, h2, h3⟩ := h
    obtain ⟨ops, hi, new, g1, g2, g3, g4, g5, j, r, g6, g7, g8, g9⟩ :=
      lxParagraph_spec metrics (p := p) (off := off) (level := level) (fun h => h2 h level) runCount
    unfold lxParagraphs
    rw [g1]
    simp only
    cases t with
    | nil =>
      rw [if_pos rfl] at h3
      refine ⟨ops, new, if p.length = 0 then [] else allRuns new, rfl, ?_, ?_, ?_, fun d hd _ => g5 d hd⟩
      · exact ⟨new, [], (List.append_nil _).symm, g2, rfl⟩
      · simp only [lxFinal, List.getLast?_singleton]
        by_cases h0 : p.length = 0
        · rw [if_pos h0, if_pos h0, g4 (by omega), ← h3.2, h0]; rfl
        · rw [if_neg h0, if_neg h0, List.append_nil]
      · by_cases h0 : p.length = 0
        · rw [if_pos h0, ← h3.2, h0]; exact Partition.nil _
        · rw [if_neg h0, ← h3.2]
          have := g3 (by omega)
          rwa [h3.1] at this
    | cons q t =>
      rw [if_neg (by simp)] at h3
      obtain ⟨k1, k2, k3⟩ := lxParagraph_separator h1 h3.1 runCount g2 g3 g4 g5 g7 g8 g9
      obtain ⟨ops', new', rs, m1, m2, m3, m4, m5⟩ := lxParagraphs_spec metrics (q :: t) (off + p.length)
        (runCount + (allRuns new).length) (p.next level) h3.2
      simp only [List.isEmpty_cons, Bool.false_eq_true, if_false]
      rw [m1, Option.map_some]
      refine ⟨_, setOffsetLines p.separator j new ++ new', allRuns (setOffsetLines p.separator j new) ++ rs, rfl,
        ⟨_, _, rfl, k1, m2⟩, ?_, k2.append m4, ?_⟩
      · rw [allRuns_append, m3, List.append_assoc]; rfl
      · intro d hd hc
        rw [steps_append, g6, k3 d hd hc]
        simp only [Option.bind_some]
        rw [m5 { d with lines := d.lines ++ setOffsetLines p.separator j new } hd
          (by simp only [allRuns_append, List.length_append, hc, setOffsetLines_runs_length])]
        simp

end RichText
