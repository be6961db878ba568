import Verif.Proof.TextRuns
import Verif.Props.App
import Verif.Props.VisualRuns
import Verif.Props.ScriptRun
import Verif.Props.FontRegistry
/-!
Properties C90 and C91: the runs of a whole text, and the text box with them.
-/
namespace RichText
open Spec
variable {α σ F φ : Type _}

/-! ## C90 -/

theorem Called.length {srcs : List (Src α)} : ∀ (ps : List (Span σ)) (start : Nat) (css : List (List (ParaCall α σ))),
    Called srcs start ps css → css.length = ps.length
  | [], _, _, h => by rw [show _ = [] from h]; rfl
  | p :: t, start, css, ⟨c, cs', h1, _, _, h4⟩ => by
    rw [h1, List.length_cons, List.length_cons, Called.length t _ _ h4]

theorem Called.get {srcs : List (Src α)} : ∀ (pre : List (Span σ)) (start : Nat) (p : Span σ) (post : List (Span σ))
    (css : List (List (ParaCall α σ))), Called srcs start (pre ++ p :: post) css →
    ∃ calls, css[pre.length]? = some calls ∧ (p.separator = p.length → calls = []) ∧
      (p.separator < p.length → ParaCalls ((start + offsetAfter pre + (p.length - p.separator) : Nat) : Int)
        ((start + offsetAfter pre : Nat) : Int) ((start + offsetAfter pre : Nat) : Int) srcs p.scripts p.levels calls)
  | [], start, p, post, css, ⟨c, cs', h1, h2, h3, h4⟩ => ⟨c, by rw [h1]; rfl, h3, h2⟩
  | q :: pre, start, p, post, css, ⟨c, cs', h1, h2, h3, h4⟩ => by
    obtain ⟨calls, g1, g2, g3⟩ := Called.get pre (start + q.length) p post cs' h4
    refine ⟨calls, by rw [h1]; exact g1, g2, ?_⟩
    have : start + offsetAfter (q :: pre) = start + q.length + offsetAfter pre := by
      simp only [offsetAfter, List.map_cons, List.sum_cons]; omega
    rw [this]
    exact g3

/-- C90: the walk over the paragraphs of a text with the run iterators, which go on from one
paragraph to the next.  It reaches every paragraph; for one with text the limits of the calls
ascend to its end, and the call that covers a byte (the first one with a limit beyond it) has
the values that the run lists give the byte, and its level; the script as far as C35 has it.
The walk ends normally if the text ends with a separator, otherwise with a read out of range
(C05). -/
theorem C90_runs_partial (srcs : List (Src α)) (ps : List (Span σ)) (count fuel : Nat) (d : σ)
    (hsp : Spans count 0 ps) (hsorted : ∀ s ∈ srcs, SortedLimits s.runs) (hnn : ∀ s ∈ srcs, ∀ r ∈ s.runs, 0 ≤ r.1)
    (hend : ∀ s ∈ srcs, endOf s.runs = some (count : Int)) (hfuel : count < fuel) :
    ∃ css fin, textCalls fuel d ps 0 (srcs.map fun s => Src.iter (s, 0)) = (css, fin) ∧ css.length = ps.length ∧
      ((∀ p, ps.getLast? = some p → 0 < p.separator) → ∃ its, fin = .done its) ∧
      ((∃ p, ps.getLast? = some p ∧ p.separator = 0) → (∃ adds, Src.list adds ∈ srcs) → fin = .outOfRange) ∧
      ∀ pre p post, ps = pre ++ p :: post →
        ∃ calls, css[pre.length]? = some calls ∧ (p.separator = p.length → calls = []) ∧
          (p.separator < p.length →
            CallsTo (offsetAfter pre + (p.length - p.separator)) (calls.map fun c => (c.limit.toNat, c)) ∧
            ∀ i, offsetAfter pre ≤ i → i < offsetAfter pre + (p.length - p.separator) →
              ∃ call, calls.find? (fun c => decide ((i : Int) < c.limit)) = some call ∧
                List.Forall₂ (fun (s : Src α) x => valueAt s.runs i = some x) srcs call.values ∧
                p.levels[i - offsetAfter pre]? = some call.level ∧
                (offsetAfter pre = 0 ∨ p.scripts.length = 1 →
                  valueAt p.scripts ((i - offsetAfter pre : Nat) : Int) = some call.script)) := by
  have hst : RunsAt srcs 0 (srcs.map fun s => (s, 0)) := by
    refine ⟨by simp [Function.comp_def], ?_, ?_⟩
    · intro q hq
      obtain ⟨s, hs, rfl⟩ := List.mem_map.1 hq
      have h0 : 0 < s.runs.length := by
        have := hend s hs
        cases hr : s.runs with
        | nil => rw [hr] at this; cases this
        | cons => simp
      cases s <;> exact h0
    · intro q hq j hj hjq
      obtain ⟨s, hs, rfl⟩ := List.mem_map.1 hq
      cases s <;> exact absurd hjq (Nat.not_lt_zero _)
  obtain ⟨css, fin, h1, h2, h3⟩ := textCalls_spec fuel d hsorted hnn hend hfuel ps 0 0 _ hsp hst (by simp)
  rw [List.map_map] at h1
  refine ⟨css, fin, h1, h2.length, h3.done, h3.out, ?_⟩
  intro pre p post hps
  subst hps
  obtain ⟨calls, g1, g2, g3⟩ := h2.get
  refine ⟨calls, g1, g2, ?_⟩
  intro hlt
  have k3 := g3 hlt
  rw [Nat.zero_add] at k3
  refine ⟨⟨?_, ?_⟩, ?_⟩
  · rw [List.pairwise_map]
    exact k3.sorted.imp fun h => by omega
  · have := k3.last
    rw [List.getLast?_map, Option.map_map]
    cases hl : calls.getLast? with
    | none => rw [hl] at this; cases this
    | some c =>
      rw [hl] at this
      simp only [Option.map_some, Option.some.injEq] at this
      simp only [Option.map_some, Function.comp, this, Int.toNat_natCast]
  · intro i hi1 hi2
    obtain ⟨call, g1, g2⟩ := k3.right i (by omega) (by omega)
    refine ⟨call, g1, g2.values, ?_, ?_⟩
    · rw [← g2.level]; congr 1; omega
    · intro hh
      rw [← g2.script (by omega)]; congr 1; omega

/-- The run list as a source of run values. -/
def srcOf {β : Type _} (f : α → β) (r : ValueRuns α) : Src β := .list ((r.limits.zip r.values).map fun p => (p.1, f p.2))

theorem RunsFit.holds {r : ValueRuns α} {n : Nat} (h : RunsFit r n) : r.Holds (r.limits.zip r.values) :=
  ⟨(List.map_fst_zip (by rw [h.2.1])).symm, (List.map_snd_zip (by rw [h.2.1])).symm⟩

theorem RunsFit.iter {β : Type _} {r : ValueRuns α} {n : Nat} (h : RunsFit r n) (f : α → β) :
    Src.iter (srcOf f r, 0) = .runs (r.view.map f) 0 := by
  have h1 := ValueRuns.holds_ofAdds ((r.limits.zip r.values).map fun p => (p.1, f p.2))
  have h2 := h.holds
  unfold srcOf Src.iter
  simp only [RunIter.runs.injEq, and_true]
  have ext : ∀ v w : RunView β, v.count = w.count → v.limit = w.limit → v.value = w.value → v = w := by
    rintro ⟨a, b, c⟩ ⟨_, _, _⟩ rfl rfl rfl; rfl
  refine ext _ _ ?_ ?_ ?_
  · rw [h1.count]
    show _ = r.view.count
    rw [h2.count, List.length_map]
  · funext i
    rw [h1.limit]
    show _ = r.view.limit i
    rw [h2.limit, List.getElem?_map, Option.map_map]; rfl
  · funext i
    rw [h1.value]
    show _ = (r.view.value i).map f
    rw [h2.value, List.getElem?_map, Option.map_map, Option.map_map]; rfl

theorem RunsFit.src {β : Type _} {r : ValueRuns α} {n : Nat} (h : RunsFit r n) (f : α → β) :
    SortedLimits (srcOf f r).runs ∧ (∀ x ∈ (srcOf f r).runs, 0 ≤ x.1) ∧ endOf (srcOf f r).runs = some (n : Int) ∧
      ∀ i x, r.view.getValue i = some x → valueAt (srcOf f r).runs i = some (f x) := by
  have h2 := h.holds
  have hs : SortedLimits (r.limits.zip r.values) := by
    unfold SortedLimits
    rw [← List.pairwise_map (f := Prod.fst) (R := (· ≤ ·)), ← h2.1]
    exact h.2.2.1
  refine ⟨?_, ?_, ?_, ?_⟩
  · unfold srcOf Src.runs SortedLimits
    rw [List.pairwise_map]
    exact hs
  · intro x hx
    obtain ⟨q, hq, rfl⟩ := List.mem_map.1 hx
    exact h.2.2.2.1 _ (List.of_mem_zip hq).1
  · unfold srcOf Src.runs endOf
    rw [List.getLast?_map, Option.map_map]
    have := h.2.2.2.2
    rw [h2.1, List.getLast?_map] at this
    exact this
  · intro i x hx
    rw [h2.shows.getValue hs] at hx
    unfold valueAt at hx ⊢
    unfold srcOf Src.runs
    rw [List.find?_map, Option.map_map]
    obtain ⟨q, hq, rfl⟩ := Option.map_eq_some_iff.1 hx
    rw [show ((fun r : Int × β => decide (i < r.1)) ∘ fun p : Int × α => (p.1, f p.2)) = fun p => decide (i < p.1) from rfl, hq]
    rfl

/-- The four sources of the iterators over formatting. -/
def formatSrcs (runs : FormattingRuns F) : List (Src RunValue) :=
  [srcOf .font runs.font, srcOf .flag (runs.flags .smallcaps), srcOf .flag (runs.flags .subscript),
    srcOf .flag (runs.flags .superscript)]

theorem AllRunsFit.iters {runs : FormattingRuns F} {n : Nat} (h : AllRunsFit runs n) (count : Nat) :
    startIters runs.font (some (runs.flags .smallcaps)) (some (runs.flags .subscript)) (some (runs.flags .superscript)) count =
      (formatSrcs runs).map fun s => Src.iter (s, 0) := by
  simp only [formatSrcs, List.map_cons, List.map_nil, h.1.iter, (h.2.2.2 _).iter]
  rfl

theorem AllRunsFit.srcs {runs : FormattingRuns F} {n : Nat} (h : AllRunsFit runs n) (s : Src RunValue) (hs : s ∈ formatSrcs runs) :
    SortedLimits s.runs ∧ (∀ x ∈ s.runs, 0 ≤ x.1) ∧ endOf s.runs = some (n : Int) := by
  simp only [formatSrcs, List.mem_cons, List.not_mem_nil, or_false] at hs
  rcases hs with rfl | rfl | rfl | rfl
  · exact ⟨(h.1.src _).1, (h.1.src _).2.1, (h.1.src _).2.2.1⟩
  all_goals exact ⟨((h.2.2.2 _).src _).1, ((h.2.2.2 _).src _).2.1, ((h.2.2.2 _).src _).2.2.1⟩

/-- C90, for the markup: every document of the grammar is parsed to its content, and the walk over
its paragraphs shapes every byte of their text in a call with the font, small capitals, subscript
and superscript that the tags around the byte give it. -/
theorem C90_document (env : Env F) (text : List UInt8) (font : Font) (color : Color F) (stroke : StrokeState F)
    (hf : ProperFont font) (o : List (UInt8 × Style F)) (hdoc : Document env (baseStyle font color stroke) text o)
    (ps : List (Span σ)) (hsp : Spans o.length 0 ps) (fuel : Nat) (hfuel : o.length < fuel) (d : σ) :
    ∃ runs css fin, parseInlineFormatting env text font color stroke = .ok (o.map (·.1), runs) ∧
      textCalls fuel d ps 0 (startIters runs.font (some (runs.flags .smallcaps)) (some (runs.flags .subscript))
        (some (runs.flags .superscript)) o.length) = (css, fin) ∧ css.length = ps.length ∧
      ∀ pre p post, ps = pre ++ p :: post → ∃ calls, css[pre.length]? = some calls ∧
        ∀ i (h : i < o.length), offsetAfter pre ≤ i → i < offsetAfter pre + (p.length - p.separator) →
          ∃ call, calls.find? (fun c => decide ((i : Int) < c.limit)) = some call ∧
            call.values = [.font o[i].2.font, .flag (o[i].2.flag .smallcaps), .flag (o[i].2.flag .subscript),
              .flag (o[i].2.flag .superscript)] ∧
            p.levels[i - offsetAfter pre]? = some call.level ∧
            (offsetAfter pre = 0 ∨ p.scripts.length = 1 →
              valueAt p.scripts ((i - offsetAfter pre : Nat) : Int) = some call.script) := by
  obtain ⟨runs, h1, h2⟩ := C10_documents env text font color stroke hf o hdoc
  have hfit := C07_runs_fit env text font color stroke hf _ _ h1
  rw [List.length_map] at hfit
  obtain ⟨css, fin, k1, k2, -, -, k3⟩ := C90_runs_partial (formatSrcs runs) ps o.length fuel d hsp
    (fun s hs => (hfit.srcs s hs).1) (fun s hs => (hfit.srcs s hs).2.1) (fun s hs => (hfit.srcs s hs).2.2) hfuel
  refine ⟨runs, css, fin, h1, by rw [hfit.iters]; exact k1, k2, ?_⟩
  intro pre p post hps
  obtain ⟨calls, g1, g2, g3⟩ := k3 pre p post hps
  refine ⟨calls, g1, ?_⟩
  intro i hi hi1 hi2
  obtain ⟨-, g4⟩ := g3 (by omega)
  obtain ⟨call, c1, c2, c3, c4⟩ := g4 i hi1 hi2
  refine ⟨call, c1, ?_, c3, c4⟩
  have e1 := h2.1 i (by simpa using hi)
  have e2 := fun k => h2.2.2.2 k i (by simpa using hi)
  simp only [List.getElem_map] at e1 e2
  generalize call.values = vs at c2
  simp only [formatSrcs, List.forall₂_cons_left_iff, List.forall₂_nil_left_iff] at c2
  obtain ⟨a, _, a1, ⟨b, _, b1, ⟨c, _, c1, ⟨e, _, d1, rfl, rfl⟩, rfl⟩, rfl⟩, rfl⟩ := c2
  rw [(hfit.1.src _).2.2.2 _ _ e1] at a1
  rw [((hfit.2.2.2 _).src _).2.2.2 _ _ (e2 _)] at b1 c1 d1
  cases a1; cases b1; cases c1; cases d1
  rfl

/-! ## C91 -/

theorem args_some {runs : FormattingRuns F} (c : ParaCall RunValue Int)
    (h : List.Forall₂ (fun (s : Src RunValue) x => x ∈ s.runs.map (·.2)) (formatSrcs runs) c.values) :
    ∃ a, c.args = some (c.limit.toNat, a) := by
  have hm : ∀ {γ : Type} (f : γ → RunValue) (r : ValueRuns γ) (x : RunValue), x ∈ (srcOf f r).runs.map (·.2) → ∃ y, x = f y := by
    intro γ f r x hx
    simp only [srcOf, Src.runs, List.map_map, List.mem_map, Function.comp] at hx
    obtain ⟨q, -, rfl⟩ := hx
    exact ⟨_, rfl⟩
  obtain ⟨l, vs, sc, lv⟩ := c
  simp only [formatSrcs, List.forall₂_cons_left_iff, List.forall₂_nil_left_iff] at h
  obtain ⟨a, _, a1, ⟨b, _, b1, ⟨c, _, c1, ⟨e, _, d1, rfl, rfl⟩, rfl⟩, rfl⟩, rfl⟩ := h
  obtain ⟨_, rfl⟩ := hm _ _ _ a1
  obtain ⟨_, rfl⟩ := hm _ _ _ b1
  obtain ⟨_, rfl⟩ := hm _ _ _ c1
  obtain ⟨_, rfl⟩ := hm _ _ _ d1
  exact ⟨_, rfl⟩

/-- All calls are passed on, none is lost. -/
theorem ParaCalls.args {runs : FormattingRuns F} {e start c : Int} {scripts : List (Int × Int)} {levels : List Nat}
    {calls : List (ParaCall RunValue Int)} (h : ParaCalls e start c (formatSrcs runs) scripts levels calls) :
    (calls.filterMap ParaCall.args).map (·.1) = calls.map fun c => c.limit.toNat := by
  have hv := h.values
  clear h
  induction calls with
  | nil => rfl
  | cons a t ih =>
    obtain ⟨x, hx⟩ := args_some a (hv a (List.mem_cons_self ..))
    rw [List.filterMap_cons_some hx, List.map_cons, List.map_cons, ih fun c hc => hv c (List.mem_cons_of_mem _ hc)]

theorem ParaCalls.callsTo {runs : FormattingRuns F} {e start : Nat} {c : Int} {scripts : List (Int × Int)} {levels : List Nat}
    {calls : List (ParaCall RunValue Int)} (h : ParaCalls (e : Int) start c (formatSrcs runs) scripts levels calls) :
    CallsTo e (calls.filterMap ParaCall.args) := by
  have ha := h.args
  refine ⟨?_, ?_⟩
  · have : ((calls.filterMap ParaCall.args).map (·.1)).Pairwise (· ≤ ·) := by
      rw [ha, List.pairwise_map]
      exact h.sorted.imp fun h => by omega
    exact List.pairwise_map.1 this
  · rw [← List.getLast?_map, ha, List.getLast?_map]
    have := h.last
    cases hl : calls.getLast? with
    | none => rw [hl] at this; cases this
    | some x =>
      rw [hl] at this
      simp only [Option.map_some, Option.some.injEq] at this ⊢
      omega

theorem ScriptRuns.ascend {e : Nat} : ∀ (rs : List ScriptRun) (s : Nat), ScriptRuns e s rs →
    (rs.map fun r => ((r.limit : Int), r.script)).Pairwise (fun a b => a.1 < b.1) ∧
      (∀ x ∈ rs.map fun r => ((r.limit : Int), r.script), (s : Int) < x.1) ∧
      (rs ≠ [] → endOf (rs.map fun r => ((r.limit : Int), r.script)) = some (e : Int)) ∧ (rs = [] → s = e)
  | [], s, h => ⟨.nil, by simp, by simp, fun _ => h⟩
  | r :: t, s, ⟨h1, h2, h3⟩ => by
    obtain ⟨g1, g2, g3, g4⟩ := ScriptRuns.ascend t _ h3
    refine ⟨?_, ?_, ?_, by simp⟩
    · rw [List.map_cons, List.pairwise_cons]
      exact ⟨fun x hx => g2 x hx, g1⟩
    · intro x hx
      rw [List.map_cons, List.mem_cons] at hx
      rcases hx with rfl | hx
      · simp only; omega
      · have := g2 x hx; omega
    · intro _
      cases t with
      | nil => rw [← g4 rfl]; rfl
      | cons a b =>
        have := g3 (by simp)
        simpa [endOf, List.getLast?_cons] using this

theorem TextLibs.Contract.spans {l : TextLibs φ} {limit k : Nat} (h : l.Contract limit k) {t : Bytes} (hlt : t.length < limit) :
    ∀ (bs : List (Nat × Nat)) (pre : List (Nat × Nat)), l.bounds t = pre ++ bs →
      Bounds t.length (pre.map (·.1)).sum bs → Spans t.length (pre.map (·.1)).sum (l.spans t bs (pre.map (·.1)).sum)
  | [], _, _, hb => hb
  | b :: bs, pre, hpre, ⟨h1, h2, _, h4⟩ => by
    refine ⟨h1, h2, ?_, ?_⟩
    · intro hs
      simp only at hs ⊢
      have ht : l.HasText t (pre.map (·.1)).sum (b.1 - b.2) := ⟨by omega, pre, b, bs, hpre, rfl, rfl⟩
      obtain ⟨e1, e2⟩ := h.script t _ _ hlt ht
      obtain ⟨rs, g1, g2⟩ := C36_script_runs_partition _ e2
      have g3 := g1 (b.1 - b.2) (by omega)
      obtain ⟨k1, k2, k3, k4⟩ := ScriptRuns.ascend _ _ g2
      have hsc : l.scripts t (pre.map (·.1)).sum (b.1 - b.2) = rs.map fun r => ((r.limit : Int), r.script) := by
        unfold TextLibs.scripts
        rw [g3]; rfl
      rw [hsc]
      refine ⟨h.levels t _ _ hlt ht, k1, k2, ?_⟩
      rw [k3 (by intro h0; have := k4 h0; omega), e1]
    · have := TextLibs.Contract.spans h hlt bs (pre ++ [b]) (by rw [hpre]; simp)
      simp only [List.map_append, List.map_cons, List.map_nil, List.sum_append, List.sum_cons, List.sum_nil, Nat.add_zero] at this
      exact this h4

theorem TextLibs.Contract.layOut {l : TextLibs φ} {limit k : Nat} (h : l.Contract limit k) {t : Bytes} (hlt : t.length < limit)
    {runs : FormattingRuns F} :
    ∀ (bs : List (Nat × Nat)) (pre : List (Nat × Nat)) (css : List (List (ParaCall RunValue Int))), l.bounds t = pre ++ bs →
      Bounds t.length (pre.map (·.1)).sum bs →
      Called (formatSrcs runs) (pre.map (·.1)).sum (l.spans t bs (pre.map (·.1)).sum) css →
      Paragraphs t.length (pre.map (·.1)).sum (l.layOut t runs.font bs (pre.map (·.1)).sum css) ∧
        Placed (l.layOut t runs.font bs (pre.map (·.1)).sum css) ∧ Thin k (l.layOut t runs.font bs (pre.map (·.1)).sum css)
  | [], _, css, _, hb, _ => by
    have : ∀ n, l.layOut t runs.font [] n css = [] := fun n => by cases css <;> rfl
    rw [this]
    exact ⟨hb, (fun p hp => by cases hp), (fun p hp => by cases hp)⟩
  | b :: bs, pre, css, hpre, ⟨h1, h2, h3, h4⟩, ⟨c, cs', hc, hc1, hc2, hc3⟩ => by
    subst hc
    have ih := TextLibs.Contract.layOut h hlt (runs := runs) bs (pre ++ [b]) cs' (by rw [hpre]; simp)
    simp only [List.map_append, List.map_cons, List.map_nil, List.sum_append, List.sum_cons, List.sum_nil, Nat.add_zero] at ih
    obtain ⟨i1, i2, i3⟩ := ih h4 hc3
    have he : 0 < b.1 - b.2 → _ := fun h0 => h.env t _ _ hlt ⟨h0, pre, b, bs, hpre, rfl, rfl⟩
    refine ⟨⟨h1, h2, ?_, ?_, i1⟩, ?_, ?_⟩
    · intro hne
      refine h3 ?_
      rintro rfl
      exact hne rfl
    · intro h0
      simp only at h0
      obtain ⟨e1, e2, e3, -⟩ := he h0
      have hc1 := hc1 (by simp only; omega)
      simp only at hc1
      exact ⟨e3 _ hc1.callsTo, e1, e2⟩
    · intro p hp h0
      rcases List.mem_cons.1 hp with rfl | hp
      · obtain ⟨-, -, -, e4, e5, -⟩ := he h0
        exact ⟨e4, e5⟩
      · exact i2 p hp h0
    · intro p hp h0
      rcases List.mem_cons.1 hp with rfl | hp
      · exact (he h0).2.2.2.2.2
      · exact i3 p hp h0

theorem AllRunsFit.called {runs : FormattingRuns F} {n : Nat} (hfit : AllRunsFit runs n) (ps : List (Span σ)) (d : σ)
    (hsp : Spans n 0 ps) : ∃ css fin, textCalls (n + 1) d ps 0 (startIters runs.font (some (runs.flags .smallcaps))
      (some (runs.flags .subscript)) (some (runs.flags .superscript)) n) = (css, fin) ∧ Called (formatSrcs runs) 0 ps css := by
  have hst : RunsAt (formatSrcs runs) 0 ((formatSrcs runs).map fun s => (s, 0)) := by
    refine ⟨by simp [Function.comp_def], ?_, ?_⟩
    · intro q hq
      obtain ⟨s, hs, rfl⟩ := List.mem_map.1 hq
      have h0 : 0 < s.runs.length := by
        have := (hfit.srcs s hs).2.2
        cases hr : s.runs with
        | nil => rw [hr] at this; cases this
        | cons => simp
      cases s <;> exact h0
    · intro q hq j hj hjq
      obtain ⟨s, hs, rfl⟩ := List.mem_map.1 hq
      cases s <;> exact absurd hjq (Nat.not_lt_zero _)
  obtain ⟨css, fin, h1, h2, -⟩ := textCalls_spec (n + 1) d (fun s hs => (hfit.srcs s hs).1)
    (fun s hs => (hfit.srcs s hs).2.1) (fun s hs => (hfit.srcs s hs).2.2) (Nat.lt_succ_self _) _ 0 0 _ hsp hst (by simp)
  rw [List.map_map] at h1
  exact ⟨css, fin, by rw [hfit.iters]; exact h1, h2⟩

/-- C91: the paragraphs that `build_layout_info` goes through, with the runs it makes of scripts,
levels and formatting, are what laying them out asks for (C30-C33, C72, C88), given only the
contracts of the libraries. -/
theorem C91_paragraphs (l : TextLibs φ) (limit k : Nat) (h : l.Contract limit k) (t : Bytes) (hne : t ≠ [])
    (hlt : t.length < limit) (runs : FormattingRuns F) (hfit : AllRunsFit runs t.length) :
    Paragraphs t.length 0 (l.paragraphs t runs) ∧ Placed (l.paragraphs t runs) ∧ Thin k (l.paragraphs t runs) := by
  have hb := h.bounds t hne hlt
  have hsp := TextLibs.Contract.spans h hlt (l.bounds t) [] rfl hb
  simp only [List.map_nil, List.sum_nil] at hsp
  obtain ⟨css, fin, h1, h2⟩ := hfit.called _ (0 : Int) hsp
  unfold TextLibs.paragraphs
  rw [h1]
  exact TextLibs.Contract.layOut h hlt (l.bounds t) [] css rfl hb h2

/-- C91: so the text box over the parser, the run iterators and the builder meets `App.Contract`,
given only the contracts of the libraries and sizes. -/
theorem C91_contract (a : App F ShapeArgs φ) (l : TextLibs φ) (k : Nat) (hl : l.Contract a.limit k)
    (hps : a.paragraphs = l.paragraphs) (hfont : ProperFont a.font) (hsize : ∀ t, (a.breaks t).size = t.length)
    (hbreaks : ∀ t, ∃ B, Breaks (a.breaks t) B) (hspaces : ∀ t c, isLineBreak c = true → (a.breaks t).space c = true)
    (hlim : 0 < a.limit ∧ a.limit ≤ 2147483647 ∧ 2 * (k + 1) * a.limit ≤ 4294967296) : a.Contract k where
  font := hfont
  size := hsize
  breaks := hbreaks
  spaces := hspaces
  paragraphs := fun t runs hne hlt hfit => by rw [hps]; exact C91_paragraphs l a.limit k hl t hne hlt runs hfit
  limit := hlim

/-- C91: every history of allowed inputs to a new box is defined, and cursor and selection stay
inside the text (C52), for the program made of the text box, the parser, the run iterators, the
script runs and the layout builder. -/
theorem C91_inside_partial (a : App F ShapeArgs φ) (l : TextLibs φ) (k : Nat) (hl : l.Contract a.limit k)
    (hps : a.paragraphs = l.paragraphs) (hfont : ProperFont a.font) (hsize : ∀ t, (a.breaks t).size = t.length)
    (hbreaks : ∀ t, ∃ B, Breaks (a.breaks t) B) (hspaces : ∀ t c, isLineBreak c = true → (a.breaks t).space c = true)
    (hlim : 0 < a.limit ∧ a.limit ≤ 2147483647 ∧ 2 * (k + 1) * a.limit ≤ 4294967296) (is : List TextBox.Input)
    (hall : ∀ pre i post s', is = pre ++ i :: post → TextBox.run a.box {} pre = some s' → TextBox.Allowed a.box s' i) :
    ∃ s', TextBox.run a.box {} is = some s' ∧ s'.cursor.1 ≤ s'.text.length ∧ ∀ c, s'.sel = some c → c.1 ≤ s'.text.length :=
  C89_inside_partial a k (C91_contract a l k hl hps hfont hsize hbreaks hspaces hlim) is hall

theorem Paragraphs.mem {count : Nat} {q : Paragraph ShapeArgs φ} : ∀ (ps : List (Paragraph ShapeArgs φ)) (offset : Nat),
    Paragraphs count offset ps → q ∈ ps → 0 < q.length - q.separator → q.env.OK q.calls
  | p :: t, offset, ⟨_, _, _, h4, h5⟩, hq, h0 => by
    rcases List.mem_cons.1 hq with rfl | hq
    · exact (h4 h0).1
    · exact Paragraphs.mem t _ h5 hq h0

theorem TextLibs.layOut_mem {l : TextLibs φ} {t : Bytes} {font : ValueRuns Font} {q : Paragraph ShapeArgs φ} :
    ∀ (bs : List (Nat × Nat)) (start : Nat) (css : List (List (ParaCall RunValue Int))), q ∈ l.layOut t font bs start css →
      ∃ pre p post, l.spans t bs start = pre ++ p :: post ∧ q.length = p.length ∧ q.separator = p.separator ∧
        q.env = l.env t (start + offsetAfter pre) (p.length - p.separator) ∧
        p.levels = l.levels t (start + offsetAfter pre) (p.length - p.separator) ∧
        p.scripts = l.scripts t (start + offsetAfter pre) (p.length - p.separator) ∧
        q.calls = ((css[pre.length]?).getD []).filterMap ParaCall.args ∧
        ∃ bpre b bpost, bs = bpre ++ b :: bpost ∧ offsetAfter pre = (bpre.map (·.1)).sum ∧ p.length = b.1 ∧ p.separator = b.2
  | [], _, _, h => by cases h
  | b :: bs, start, css, h => by
    rcases List.mem_cons.1 h with rfl | h
    · refine ⟨[], _, _, rfl, rfl, rfl, rfl, rfl, rfl, ?_, [], b, bs, rfl, rfl, rfl, rfl⟩
      cases css <;> rfl
    · obtain ⟨pre, p, post, h1, h2, h3, h4, h5, h5', h6, bpre, b', bpost, h7, h8, h9, h10⟩ :=
        TextLibs.layOut_mem bs (start + b.1) css.tail h
      refine ⟨⟨b.1, b.2, l.levels t start (b.1 - b.2), l.scripts t start (b.1 - b.2)⟩ :: pre, p, post, by
        rw [show l.spans t (b :: bs) start = _ :: l.spans t bs (start + b.1) from rfl, h1]; rfl, h2, h3, ?_, ?_, ?_, ?_,
        b :: bpre, b', bpost, by
        rw [h7]; rfl, by
        simp only [offsetAfter, List.map_cons, List.sum_cons] at h8 ⊢; rw [h8], h9, h10⟩
      · rw [h4]; simp only [offsetAfter, List.map_cons, List.sum_cons, Nat.add_assoc]
      · rw [h5]; simp only [offsetAfter, List.map_cons, List.sum_cons, Nat.add_assoc]
      · rw [h5']; simp only [offsetAfter, List.map_cons, List.sum_cons, Nat.add_assoc]
      · rw [h6, List.length_cons]; cases css <;> rfl

theorem filterMap_find {γ δ : Type _} (f : γ → Option (Nat × δ)) (g : γ → Int) (i : Nat) :
    ∀ (l : List γ), (∀ x ∈ l, ∃ y, f x = some ((g x).toNat, y)) → ∀ (c : γ), l.find? (fun x => decide ((i : Int) < g x)) = some c →
      ∃ y, f c = some ((g c).toNat, y) ∧ (l.filterMap f).find? (fun x => decide (i < x.1)) = some ((g c).toNat, y)
  | [], _, _, h => by cases h
  | a :: t, hl, c, h => by
    obtain ⟨y, hy⟩ := hl a (List.mem_cons_self ..)
    rw [List.filterMap_cons_some hy]
    by_cases hi : (i : Int) < g a
    · rw [List.find?_cons_of_pos (by simpa using hi)] at h
      cases h
      exact ⟨y, hy, List.find?_cons_of_pos (by simp only [decide_eq_true_eq]; omega)⟩
    · rw [List.find?_cons_of_neg (by simpa using hi)] at h
      rw [List.find?_cons_of_neg (by simp only [decide_eq_true_eq]; omega)]
      exact filterMap_find f g i t (fun x hx => hl x (List.mem_cons_of_mem _ hx)) c h

/-- The values a paragraph of a document is shaped with: the call that covers byte `i` carries
the formatting of its tags and its level. -/
theorem document_call (env : Env F) (text : List UInt8) (font : Font) (color : Color F) (stroke : StrokeState F)
    (hf : ProperFont font) (o : List (UInt8 × Style F)) (hdoc : Document env (baseStyle font color stroke) text o)
    (l : TextLibs φ) (limit k : Nat) (hl : l.Contract limit k) (hlt : o.length < limit) (hne : o ≠ []) :
    ∃ runs, parseInlineFormatting env text font color stroke = .ok (o.map (·.1), runs) ∧ AllRunsFit runs o.length ∧
      ∀ q ∈ l.paragraphs (o.map (·.1)) runs, 0 < q.length - q.separator →
        ∃ s, q.env.line.start = s ∧ q.env.line.length = q.length - q.separator ∧ s + (q.length - q.separator) ≤ o.length ∧
          q.env.OK q.calls ∧
          ∀ i (h : i < o.length), s ≤ i → i < s + (q.length - q.separator) →
            ∃ lim v, q.calls.find? (fun c => decide (i < c.1)) = some (lim, v) ∧ v.font = o[i].2.font ∧
              v.smallcaps = o[i].2.flag .smallcaps ∧ v.subscript = o[i].2.flag .subscript ∧
              v.superscript = o[i].2.flag .superscript ∧
              (l.levels (o.map (·.1)) s (q.length - q.separator))[i - s]? = some v.level ∧
              (s = 0 ∨ (l.scripts (o.map (·.1)) s (q.length - q.separator)).length = 1 →
                valueAt (l.scripts (o.map (·.1)) s (q.length - q.separator)) ((i - s : Nat) : Int) = some v.script) := by
  have hlen : (o.map (·.1)).length = o.length := List.length_map ..
  have hb := hl.bounds (o.map (·.1)) (by simpa using hne) (by rw [hlen]; exact hlt)
  have hsp := TextLibs.Contract.spans hl (t := o.map (·.1)) (by rw [hlen]; exact hlt) _ [] rfl hb
  simp only [List.map_nil, List.sum_nil, hlen] at hsp
  obtain ⟨runs, css, fin, h1, h2, h3, h4⟩ := C90_document env text font color stroke hf o hdoc _ hsp (o.length + 1)
    (Nat.lt_succ_self _) 0
  have hfit := C07_runs_fit env text font color stroke hf _ _ h1
  rw [hlen] at hfit
  refine ⟨runs, h1, hfit, ?_⟩
  intro q hq hpos
  have hq' := hq
  unfold TextLibs.paragraphs at hq
  rw [hlen, h2] at hq
  obtain ⟨pre, p, post, g1, g2, g3, g4, g5, g5', g6, bpre, b, bpost, b1, b2, b3, b4⟩ := TextLibs.layOut_mem _ _ _ hq
  rw [Nat.zero_add] at g4 g5 g5'
  obtain ⟨calls, k1, k2⟩ := h4 pre p post g1
  rw [k1, Option.getD_some] at g6
  obtain ⟨css', fin', e1, e2⟩ := hfit.called _ (0 : Int) hsp
  rw [h2] at e1
  cases e1
  rw [g1] at e2
  obtain ⟨calls', e3, -, e4⟩ := e2.get
  rw [k1] at e3
  cases e3
  have e4 := e4 (by omega)
  have ht : l.HasText (o.map (·.1)) (offsetAfter pre) (p.length - p.separator) :=
    ⟨by omega, bpre, b, bpost, b1, b2, by rw [b3, b4]⟩
  obtain ⟨d1, d2, -⟩ := hl.env (o.map (·.1)) _ _ (by rw [hlen]; exact hlt) ht
  have hP := (C91_paragraphs l limit k hl (o.map (·.1)) (by simpa using hne) (by rw [hlen]; exact hlt) runs
    (by rw [hlen]; exact hfit)).1
  have hle := Spans.le _ _ hsp
  rw [g1] at hle
  simp only [offsetAfter, List.map_append, List.map_cons, List.sum_append, List.sum_cons] at hle
  rw [g2, g3]
  refine ⟨offsetAfter pre, by rw [g4, d1], by rw [g4, d2], by simp only [offsetAfter]; omega, hP.mem _ _ hq' hpos, ?_⟩
  intro i hi hi1 hi2
  obtain ⟨call, c1, c2, c3, c4⟩ := k2 i hi hi1 hi2
  obtain ⟨v, v1, v2⟩ := filterMap_find ParaCall.args (·.limit) i calls (fun x hx => args_some x (e4.values x hx)) call c1
  refine ⟨_, v, by rw [g6]; exact v2, ?_⟩
  unfold ParaCall.args at v1
  rw [c2] at v1
  simp only [Option.some.injEq, Prod.mk.injEq, true_and] at v1
  subst v1
  exact ⟨rfl, rfl, rfl, rfl, by rw [← g5]; exact c3, by rw [← g5']; exact c4⟩

/-- C91, for the markup: in the runs laid out for a document, every byte has the face and the size
of the font that the registry gives for the font, small capitals, subscript and superscript of the
tags around the byte and for its level (and script, as far as C35 has it), at a position at or
before the byte from where this font covers it.  Missing: weight, style and
flags of the font, which C34 shows to be false. -/
theorem C91_fonts_partial (env : Env F) (text : List UInt8) (font : Font) (color : Color F) (stroke : StrokeState F)
    (hf : ProperFont font) (o : List (UInt8 × Style F)) (hdoc : Document env (baseStyle font color stroke) text o)
    (l : TextLibs SingleScriptFont) (hsame : ∀ t s n, (l.env t s n).same = SingleScriptFont.same) (limit k : Nat)
    (hl : l.Contract limit k) (hlt : o.length < limit) (hne : o ≠ []) :
    ∃ runs, parseInlineFormatting env text font color stroke = .ok (o.map (·.1), runs) ∧
      ∀ q ∈ l.paragraphs (o.map (·.1)) runs, 0 < q.length - q.separator → ∀ runCount,
        ∃ r, buildParagraph q.env q.calls runCount = some r ∧
          ∀ f gs ex ey cs ce rtl, LayoutOp.run f gs ex ey cs ce rtl ∈ r.1 → ∀ c, cs ≤ c → c < ce →
            ∃ (h : c < o.length) (v : ShapeArgs) (first lim : Nat), (lim, v) ∈ q.calls ∧ v.font = o[c].2.font ∧
              v.smallcaps = o[c].2.flag .smallcaps ∧ v.subscript = o[c].2.flag .subscript ∧
              v.superscript = o[c].2.flag .superscript ∧
              (l.levels (o.map (·.1)) q.env.line.start (q.length - q.separator))[c - q.env.line.start]? = some v.level ∧
              (q.env.line.start = 0 ∨ (l.scripts (o.map (·.1)) q.env.line.start (q.length - q.separator)).length = 1 →
                valueAt (l.scripts (o.map (·.1)) q.env.line.start (q.length - q.separator))
                  ((c - q.env.line.start : Nat) : Int) = some v.script) ∧ first ≤ c ∧ c < lim ∧ c < (q.env.subFont v first lim).2 ∧
              f.face = (q.env.subFont v first lim).1.face ∧ f.size = (q.env.subFont v first lim).1.size := by
  obtain ⟨runs, h1, h2, h3⟩ := document_call env text font color stroke hf o hdoc l limit k hl hlt hne
  refine ⟨runs, h1, ?_⟩
  intro q hq h0 runCount
  obtain ⟨s, s1, s2, s3, s4, s5⟩ := h3 q hq h0
  have hqs : q.env.same = SingleScriptFont.same := by
    obtain ⟨_, _, _, _, _, _, g4, _⟩ := TextLibs.layOut_mem _ _ _ hq
    rw [g4]; exact hsame _ _ _
  obtain ⟨r, qs, r1, r2, r3, r4⟩ := C34_face_size_partial q.env hqs q.calls s4 runCount
  refine ⟨r, r1, ?_⟩
  intro f gs ex ey cs ce rtl hop c hc1 hc2
  obtain ⟨p, p1, p2, p3, p4, p5⟩ := r4 f gs ex ey cs ce rtl hop c hc1 hc2
  obtain ⟨before, lim, v, after, b1, b2, b3, b4⟩ := r3 p p1
  have hin := r2.mem _ (List.mem_map_of_mem p1)
  have hsub := s4.contract.subFont v p.first lim b3
  rw [b4] at hsub
  simp only [FontPiece.range] at hin
  have hc : c < o.length := by omega
  obtain ⟨lim', v', v1, v2, v3, v4, v5, v6, v7⟩ := s5 c hc (by omega) (by omega)
  have hfind : q.calls.find? (fun x => decide (c < x.1)) = some (lim, v) := by
    rw [b1, List.find?_append, List.find?_eq_none.2, Option.none_or, List.find?_cons_of_pos]
    · simp only [decide_eq_true_eq]; omega
    · intro x hx
      have := b2 x hx
      simp only [decide_eq_true_eq]; omega
  rw [hfind] at v1
  cases v1
  refine ⟨hc, v, p.first, lim, by rw [b1]; simp, v2, v3, v4, v5, by rw [s1]; exact v6, by rw [s1]; exact v7, p2, by omega, ?_, ?_, ?_⟩
  · rw [b4]; exact p3
  · rw [b4]; exact p4
  · rw [b4]; exact p5

/-- C91: with the registry's `get_sub_font` (C45) for the fonts, the size is the one the tags give. -/
theorem C91_size (env : Env F) (text : List UInt8) (font : Font) (color : Color F) (stroke : StrokeState F)
    (hf : ProperFont font) (o : List (UInt8 × Style F)) (hdoc : Document env (baseStyle font color stroke) text o)
    (l : TextLibs SingleScriptFont) (hsame : ∀ t s n, (l.env t s n).same = SingleScriptFont.same) (limit k : Nat)
    (hl : l.Contract limit k) (hlt : o.length < limit) (hne : o ≠ []) (lib : FontLib) (reg : Registry)
    (hreg : ∀ runs, parseInlineFormatting env text font color stroke = .ok (o.map (·.1), runs) →
      ∀ q ∈ l.paragraphs (o.map (·.1)) runs, ∀ x ∈ q.calls, ∀ first < x.1, ∃ th th' cs,
        getSubFont lib reg th x.2.font cs first x.1 x.2.script x.2.smallcaps x.2.subscript x.2.superscript =
          some (th', q.env.subFont x.2 first x.1)) :
    ∃ runs, parseInlineFormatting env text font color stroke = .ok (o.map (·.1), runs) ∧
      ∀ q ∈ l.paragraphs (o.map (·.1)) runs, 0 < q.length - q.separator → ∀ runCount,
        ∃ r, buildParagraph q.env q.calls runCount = some r ∧
          ∀ f gs ex ey cs ce rtl, LayoutOp.run f gs ex ey cs ce rtl ∈ r.1 → ∀ c, cs ≤ c → c < ce →
            ∃ (h : c < o.length), f.size = o[c].2.font.size := by
  obtain ⟨runs, h1, h2⟩ := C91_fonts_partial env text font color stroke hf o hdoc l hsame limit k hl hlt hne
  refine ⟨runs, h1, ?_⟩
  intro q hq h0 rc
  obtain ⟨r, r1, r2⟩ := h2 q hq h0 rc
  refine ⟨r, r1, ?_⟩
  intro f gs ex ey cs ce rtl hop c hc1 hc2
  obtain ⟨h, v, first, lim, v0, v1, -, -, -, -, -, v3, v4, -, -, v2⟩ := r2 f gs ex ey cs ce rtl hop c hc1 hc2
  refine ⟨h, ?_⟩
  have hfl : first < lim := by
    omega
  obtain ⟨_, _, _, hg⟩ := hreg runs h1 q hq (lim, v) v0 first hfl
  rw [v2, (C45_carries _ _ _ _ _ _ _ _ _ _ _ _ _ _ hg).1, v1]

/-! ### A text with all of it -/

/-- Lines end at a line feed. -/
def lineBounds : Bytes → Nat → List (Nat × Nat)
  | [], 0 => []
  | [], n + 1 => [(n + 1, 0)]
  | c :: t, n => if c = 10 then (n + 1, 1) :: lineBounds t 0 else lineBounds t (n + 1)

theorem lineBounds_ok : ∀ (t : Bytes) (n offset : Nat), Bounds (offset + n + t.length) offset (lineBounds t n)
  | [], 0, offset => rfl
  | [], n + 1, offset => ⟨by simp, by simp, by simp, rfl⟩
  | c :: t, n, offset => by
    unfold lineBounds
    split
    · refine ⟨by simp, by simp, by simp, ?_⟩
      have := lineBounds_ok t 0 (offset + (n + 1))
      rw [show offset + n + (c :: t).length = offset + (n + 1) + 0 + t.length by simp only [List.length_cons]; omega]
      exact this
    · have := lineBounds_ok t (n + 1) offset
      rw [show offset + n + (c :: t).length = offset + (n + 1) + t.length by simp only [List.length_cons]; omega]
      exact this

/-- Paragraph text of one glyph per byte, left to right, in the fonts asked for. -/
def plainEnv (start length : Nat) : ParaEnv ShapeArgs SingleScriptFont where
  subFont := fun v _ limit =>
    (⟨⟨v.font.face.getFamily, 3#4, .normal⟩, v.font.size, 3#4, .normal, v.subscript, v.superscript, v.smallcaps,
      v.subscript, v.superscript, false⟩, limit)
  shape := fun _ _ a b => (List.range (b - a)).map fun i => ⟨100 + a + i, i, 64, 0, 0, 0⟩
  reversed := fun _ => false
  same := SingleScriptFont.same
  isTab := fun _ => false
  spaceAdvance := fun _ => 64
  spaceGlyph := fun _ => 0
  vertical := false
  line := (demoEnv start length fun _ _ => []).line
  bidi := fun s t => [⟨s, t - s, 0⟩]
  metrics := fun _ => ⟨10, -(2 : Rat)⟩

def plainLibs : TextLibs SingleScriptFont where
  bounds t := lineBounds t 0
  levels _ _ n := List.replicate n 0
  script t s n := ⟨n, fun i => ((t[s + i]?.getD 0).toNat : Int), fun i => i + 1, fun _ => 25⟩
  env _ := plainEnv
  defaultFont f := ⟨⟨f.face.getFamily, 3#4, .normal⟩, f.size, 3#4, .normal, false, false, false, false, false, false⟩
  metrics _ := ⟨8, -2⟩

theorem plainLibs_contract (limit : Nat) : plainLibs.Contract limit 1 where
  bounds t _ _ := by
    have := lineBounds_ok t 0 0
    rw [Nat.zero_add] at this
    exact this
  levels t s n _ _ := List.length_replicate ..
  script t s n _ _ := ⟨rfl, by intro i hi; exact ⟨Nat.lt_succ_self _, hi⟩⟩
  env t s n _ ht := by
    have hd := demoEnv_ok s n (fun s t => [⟨s, t - s, 0⟩]) [(s + n, (0, false))] ht.1 ⟨by simp, rfl⟩
      (fun s t h1 h2 h3 => Partition.single (by simp [BidiRun.range]; omega) h2)
    have hp := demoEnv_placed s n (fun s t => [⟨s, t - s, 0⟩])
    refine ⟨rfl, rfl, ?_, ?_, ?_, ?_⟩
    · intro calls hc
      refine ⟨ht.1, ⟨?_, ?_, ?_⟩, hc, hd.breaks, hd.decodes, Or.inl fun _ => rfl, hd.bidi⟩
      · intro v o l h; exact ⟨h, Nat.le_refl _⟩
      · intro f v a b hab g hg
        exact hd.contract.cluster 0 (0, false) a b hab g hg
      · intro f v a b hab
        exact hd.contract.order 0 (0, false) a b hab
    · exact ⟨rfl, fun f v a b => hp.1.step 0 (0, false) a b, fun f v a b => hp.1.last 0 (0, false) a b, .inl fun _ => rfl⟩
    · refine ⟨fun _ => True, ?_, fun _ _ _ => trivial, fun _ _ _ _ _ _ _ => .inr trivial⟩
      intro f v a b c h1 h2 _
      exact ⟨⟨100 + a + (c - a), c - a, 64, 0, 0, 0⟩, List.mem_map.2 ⟨c - a, List.mem_range.2 (by omega), rfl⟩, by simp only; omega⟩
    · intro f v a b hab
      simp [plainLibs, plainEnv]

def plainApp : App Nat ShapeArgs SingleScriptFont where
  parser := toyEnv
  font := toyFont
  color := toyColor
  stroke := toyStroke
  breaks t := asciiEnv (t.map UInt8.toNat)
  paragraphs := plainLibs.paragraphs
  width := 100
  height := 50
  align := .left
  yAlign := .top
  emptyHeight := 10
  limit := 1000000000

/-- The hypotheses of C91. -/
theorem plainApp_contract : plainApp.Contract 1 :=
  C91_contract plainApp plainLibs 1 (plainLibs_contract _) rfl ⟨0, 3, .normal, 16, by decide, rfl⟩ monoEnv_good.size
    monoEnv_good.breaks monoEnv_good.spaces (by decide)

/-- The walk over "ab\ncd", in another font from the "b" on, the "d" raised: the runs do not end
with the lines. -/
example :
    let its := startIters ⟨[toyFont, { toyFont with size := 20 }], [1, 5]⟩ none none
      (some ⟨[false, true], [4, 5]⟩) 5
    (textCalls 6 (0 : Int) (plainLibs.spans b!"ab\ncd" [(3, 1), (2, 0)] 0) 0 its).1.map (fun cs => cs.map fun c => (c.limit, c.values)) =
      [[(1, [.font toyFont, .flag false, .flag false, .flag false]),
        (2, [.font { toyFont with size := 20 }, .flag false, .flag false, .flag false])],
       [(4, [.font { toyFont with size := 20 }, .flag false, .flag false, .flag false]),
        (5, [.font { toyFont with size := 20 }, .flag false, .flag false, .flag true])]] := by decide +kernel

/-- It ends with a read out of range; with a line feed at the end of the text it does not. -/
example : (textCalls 6 (0 : Int) (plainLibs.spans b!"ab\ncd" [(3, 1), (2, 0)] 0) 0
      (startIters ⟨[toyFont], [5]⟩ none none none 5)).2 matches .outOfRange := by decide +kernel

example : (textCalls 7 (0 : Int) (plainLibs.spans b!"ab\ncd\n" [(3, 1), (3, 1)] 0) 0
      (startIters ⟨[toyFont], [6]⟩ none none none 6)).2 matches .done _ := by decide +kernel

/-- A document of two lines in two fonts, laid out: "ab\nc" with "b\nc" in another face and size. -/
example : (TextBox.run plainApp.box { rich := true } ([.focus] ++
    (b!"a<font face=\"Sans\" size=\"20\">b\nc</font>".map fun c => TextBox.Input.char c.toNat) ++ [.blur])).map
      (fun s => (s.ctrl, s.layout.runs.map fun r => (r.font.face.handle, r.font.size, r.charStart, r.charEnd))) =
    some (b!"ab\nc", [(0, 16, 0, 1), (1, 20, 1, 2), (1, 20, 3, 4)]) := by decide +kernel

/-- The same with fonts from the registry of C40-C45 (asked without looking at the characters). -/
def regLibs : TextLibs SingleScriptFont :=
  { plainLibs with
    script := fun t s n => ⟨n, fun i => ((t[s + i]?.getD 0).toNat : Int), fun i => i + 1, fun _ => 1⟩
    env := fun _ s n =>
      { plainEnv s n with
        subFont := fun v _ lim => ((getSubFont demoLib demoRegistry .init v.font [] 0 lim v.script v.smallcaps v.subscript
          v.superscript).map (·.2)).getD (⟨{}, 0, 3#4, .normal, false, false, false, false, false, false⟩, lim) } }

theorem getSubFont_nil (font : Font) (first lim : Nat) (script : Int) (sc sub sup : Bool) :
    getSubFont demoLib demoRegistry .init font [] first lim script sc sub sup =
      getSubFont demoLib demoRegistry .init font [] 0 lim script sc sub sup ∧
    ∀ x, getSubFont demoLib demoRegistry .init font [] 0 lim script sc sub sup = some x → x.2.2 = lim := by
  unfold getSubFont
  constructor
  · cases sc <;> rfl
  · intro x h
    simp only [caseRunLimit, firstDrawable] at h
    cases hb : demoRegistry.fontForScript font.face.getFamily font.face.getWeight.toNat font.face.getStyle script with
    | none => rw [hb] at h; cases h
    | some base =>
      rw [hb] at h
      cases hf : demoRegistry.families[font.face.getFamily.toNat]? with
      | none => rw [hf] at h; cases h
      | some f =>
        rw [hf] at h
        cases sc <;> (cases h; rfl)

theorem regLibs_contract (limit : Nat) : regLibs.Contract limit 1 := by
  have h := plainLibs_contract limit
  refine ⟨h.bounds, h.levels, h.script, ?_⟩
  intro t s n hlt ht
  obtain ⟨e1, e2, e3, e4, e5, e6⟩ := h.env t s n hlt ht
  refine ⟨e1, e2, ?_, ⟨e4.1, e4.2, e4.3, e4.4⟩, ?_, e6⟩
  · intro calls hc
    have k := e3 calls hc
    refine ⟨k.1, ⟨?_, fun f v a b => k.contract.cluster f v a b, fun f v a b => k.contract.order f v a b⟩, k.3, k.4, k.5, k.6, k.7⟩
    intro v o l hol
    simp only [regLibs]
    cases hg : getSubFont demoLib demoRegistry .init v.font [] 0 l v.script v.smallcaps v.subscript v.superscript with
    | none => exact ⟨hol, Nat.le_refl _⟩
    | some x =>
      have := (getSubFont_nil v.font 0 l v.script v.smallcaps v.subscript v.superscript).2 x hg
      simp only [Option.map_some, Option.getD_some, this]
      exact ⟨hol, Nat.le_refl _⟩
  · obtain ⟨starts, k⟩ := e5
    exact ⟨starts, k.1, k.2, k.3⟩

/-- The hypotheses of `C91_size`: "a", then "b" in size 20. -/
example : ∃ o runs, Document toyEnv (baseStyle toyFont toyColor toyStroke) b!"a<font size=\"20\">b</font>" o ∧ o.length = 2 ∧
    parseInlineFormatting toyEnv b!"a<font size=\"20\">b</font>" toyFont toyColor toyStroke = .ok (o.map (·.1), runs) ∧
    ∀ q ∈ regLibs.paragraphs (o.map (·.1)) runs, ∀ x ∈ q.calls, ∀ first < x.1, ∃ th th' cs,
      getSubFont demoLib demoRegistry th x.2.font cs first x.1 x.2.script x.2.smallcaps x.2.subscript x.2.superscript =
        some (th', q.env.subFont x.2 first x.1) := by
  have hdoc : Document toyEnv (baseStyle toyFont toyColor toyStroke) b!"a<font size=\"20\">b</font>"
      [(c!"a", baseStyle toyFont toyColor toyStroke),
       (c!"b", { baseStyle toyFont toyColor toyStroke with font := Font.make 0 3 .normal 20 })] := by
    refine ⟨_, .inl rfl, .char _ (by decide) (by decide) ?_⟩
    refine .tag (op := b!"<font size=\"20\">") (inner := b!"b") (m := []) (oi := [_]) (o := [])
      (Tag.font b!" size=\"20\"" _ (.cons (a := b!" ") .space (.cons (m := []) (.size b!"20" 20 ?_ ?_) .nil))) ?_ (.nil _)
    · unfold Quoted; decide
    · exact ⟨b!"20", [], rfl, by decide, by unfold Digit; decide, by simp, by decide, by decide⟩
    · exact .char _ (by decide) (by decide) (.nil _)
  obtain ⟨runs, h1, -⟩ := C10_documents toyEnv _ toyFont toyColor toyStroke ⟨0, 3, .normal, 16, by decide, rfl⟩ _ hdoc
  refine ⟨_, runs, hdoc, rfl, h1, ?_⟩
  have h2 : ∀ q ∈ regLibs.paragraphs b!"ab" runs, ∀ x ∈ q.calls, (getSubFont demoLib demoRegistry .init x.2.font [] 0 x.1 x.2.script x.2.smallcaps x.2.subscript x.2.superscript).isSome = true := by
    have h3 : (parseInlineFormatting toyEnv b!"a<font size=\"20\">b</font>" toyFont toyColor toyStroke).toOption.map
      (fun r => (regLibs.paragraphs b!"ab" r.2).all fun q => q.calls.all fun x => (getSubFont demoLib demoRegistry .init x.2.font
        [] 0 x.1 x.2.script x.2.smallcaps x.2.subscript x.2.superscript).isSome) = some true := by decide +kernel
    rw [h1] at h3
    simp only [Except.toOption, Option.map_some, Option.some.injEq, List.all_eq_true] at h3
    exact h3
  intro q hq x hx first _
  obtain ⟨y, hy⟩ := Option.isSome_iff_exists.1 (h2 q hq x hx)
  refine ⟨.init, y.1, [], ?_⟩
  rw [(getSubFont_nil ..).1, hy]
  obtain ⟨_, _, _, _, _, _, g4, _⟩ := TextLibs.layOut_mem _ _ _ hq
  rw [g4]
  simp only [regLibs, hy, Option.map_some, Option.getD_some]

end RichText
