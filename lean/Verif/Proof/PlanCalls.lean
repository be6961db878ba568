import Verif.Proof.BuildTextAll
/-!
Where the arguments of the calls of `iterate_run_intersections` come from: each is a value of the runs, a level of the paragraph, a
script of a character in it or Common.
-/
namespace RichText

section
variable {α σ : Type _}

theorem LevelsIter.skip_mem (s : List Nat) : ∀ (t : List Nat) (l : Nat) (i : Int), l ∈ s → (∀ x ∈ t, x ∈ s) →
    (LevelsIter.skip t l i).last ∈ s ∧ ∀ x ∈ (LevelsIter.skip t l i).rest, x ∈ s
  | [], _, _, h, _ => ⟨h, by simp [LevelsIter.skip]⟩
  | x :: t, l, i, h, ht => by
    unfold LevelsIter.skip
    split
    · exact skip_mem s t l (i + 1) h fun y hy => ht y (List.mem_cons_of_mem _ hy)
    · exact ⟨h, ht⟩

theorem LevelsIter.advanceTo_mem (s : List Nat) (index : Int) : ∀ (n : Nat) (it : LevelsIter), it.rest.length = n → it.last ∈ s →
    (∀ x ∈ it.rest, x ∈ s) → (it.advanceTo index).last ∈ s ∧ ∀ x ∈ (it.advanceTo index).rest, x ∈ s := by
  intro n
  induction n using Nat.strongRecOn with
  | ind n ih =>
    rintro ⟨rest, l, i⟩ hn h1 h2
    cases rest with
    | nil => unfold LevelsIter.advanceTo; exact ⟨h1, h2⟩
    | cons x t =>
      unfold LevelsIter.advanceTo
      split
      · obtain ⟨g1, g2⟩ := LevelsIter.skip_mem s t x (i + 1) (h2 x List.mem_cons_self) fun y hy => h2 y (List.mem_cons_of_mem _ hy)
        have hle := LevelsIter.skip_rest_le t x (i + 1)
        simp only [List.length_cons] at hn
        exact ih _ (by omega) _ rfl g1 g2
      · exact ⟨h1, h2⟩

theorem ScriptIter.advanceTo_mem (P : σ → Prop) (index : Int) {it : ScriptIter σ} (h1 : P it.value) (h2 : ∀ q ∈ it.rest, P q.2) :
    P (it.advanceTo index).value ∧ ∀ q ∈ (it.advanceTo index).rest, P q.2 := by
  unfold ScriptIter.advanceTo
  split
  · unfold ScriptIter.next
    split
    · exact ⟨h1, h2⟩
    · rename_i l s t ht
      rw [ht] at h2
      exact ⟨h2 _ List.mem_cons_self, fun q hq => h2 q (List.mem_cons_of_mem _ hq)⟩
  · exact ⟨h1, h2⟩

theorem iteratePara_mem (P : σ → Prop) (lv : List Nat) (e : Int) : ∀ (fuel : Nat) (m : Int) (its : ParaIters α σ), P its.script.value →
    (∀ q ∈ its.script.rest, P q.2) → its.levels.last ∈ lv → (∀ x ∈ its.levels.rest, x ∈ lv) →
    ∀ call ∈ (iteratePara e fuel m its).1, P call.script ∧ call.level ∈ lv := by
  intro fuel
  induction fuel with
  | zero =>
    intro m its _ _ _ _
    unfold iteratePara
    split <;> simp
  | succ fuel ih =>
    intro m its h1 h2 h3 h4
    unfold iteratePara
    by_cases hm : m < e
    · rw [if_pos hm]
      simp only
      split
      · split
        · intro call hc
          simp only [List.mem_singleton] at hc
          subst hc
          exact ⟨h1, h3⟩
        · rename_i m' xs _ _ _ runs' _
          obtain ⟨g1, g2⟩ := ScriptIter.advanceTo_mem P m' h1 h2
          obtain ⟨g3, g4⟩ := LevelsIter.advanceTo_mem lv m' _ _ rfl h3 h4
          intro call hc
          rcases List.mem_cons.1 hc with rfl | hc
          · exact ⟨h1, h3⟩
          · exact ih m' ⟨runs', its.script.advanceTo m', its.levels.advanceTo m'⟩ g1 g2 g3 g4 call hc
      · simp
    · rw [if_neg hm]
      simp

/-- Scripts and levels of the calls for each paragraph. -/
def Stem (d : σ) : List (Span σ) → List (List (ParaCall α σ)) → Prop
  | _, [] => True
  | [], _ :: _ => False
  | p :: t, c :: cs => (∀ call ∈ c, (call.script = d ∨ ∃ q ∈ p.scripts, q.2 = call.script) ∧ call.level ∈ p.levels) ∧ Stem d t cs

theorem textCalls_stem (fuel : Nat) (d : σ) : ∀ (ps : List (Span σ)) (start : Nat) (its : List (RunIter α)),
    Stem d ps (textCalls fuel d ps start its).1
  | [], _, _ => trivial
  | p :: t, start, its => by
    unfold textCalls
    by_cases h0 : p.length - p.separator > 0
    · rw [if_pos h0]
      split
      · trivial
      · rename_i lv hlv
        have hl : lv.last ∈ p.levels ∧ ∀ x ∈ lv.rest, x ∈ p.levels := by
          unfold LevelsIter.init at hlv
          split at hlv
          · cases hlv
          · rename_i x r hx
            cases hlv
            rw [hx]
            exact LevelsIter.skip_mem _ _ _ _ List.mem_cons_self fun _ h => h
        have hs : (fun s => s = d ∨ ∃ q ∈ p.scripts, q.2 = s) (ScriptIter.init p.scripts d start).value ∧
            ∀ q ∈ (ScriptIter.init p.scripts d start).rest, (fun s => s = d ∨ ∃ q ∈ p.scripts, q.2 = s) q.2 := by
          unfold ScriptIter.init
          cases hsc : p.scripts with
          | nil => exact ⟨.inl rfl, by simp⟩
          | cons a r =>
            exact ⟨.inr ⟨a, List.mem_cons_self, rfl⟩, fun q hq => .inr ⟨q, List.mem_cons_of_mem _ hq, rfl⟩⟩
        have hc := iteratePara_mem (α := α) (fun s => s = d ∨ ∃ q ∈ p.scripts, q.2 = s) p.levels
          ((start + (p.length - p.separator) : Nat) : Int) fuel start ⟨its, ScriptIter.init p.scripts d start, lv⟩ hs.1 hs.2 hl.1 hl.2
        split
        · rename_i calls its' heq
          rw [heq] at hc
          exact ⟨hc, textCalls_stem fuel d t _ _⟩
        · rename_i calls heq
          rw [heq] at hc
          exact ⟨hc, by cases t <;> trivial⟩
        · rename_i calls heq
          rw [heq] at hc
          exact ⟨hc, by cases t <;> trivial⟩
    · rw [if_neg h0]
      exact ⟨by simp, textCalls_stem fuel d t _ _⟩

end

namespace BuildLibs
variable {b : BuildLibs} {starts : Bytes → Nat → Nat → Nat → Prop} {limit k : Nat}

/-- The arguments of a call on a paragraph. -/
structure CallFrom {F : Type _} (b : BuildLibs) (text : Bytes) (runs : FormattingRuns F) (start n : Nat) (c : Nat × ShapeArgs) :
    Prop where
  limit : c.1 ≤ start + n
  font : c.2.font ∈ runs.font.values
  smallcaps : c.2.smallcaps ∈ (runs.flags .smallcaps).values
  subscript : c.2.subscript ∈ (runs.flags .subscript).values
  superscript : c.2.superscript ∈ (runs.flags .superscript).values
  level : c.2.level ∈ b.levels text start n
  script : c.2.script = 0 ∨ ∃ p, (b.script text start n).Position p ∧ p < n ∧
    1 < (b.script text start n).script ((b.script text start n).cp p) ∧
    (b.script text start n).script ((b.script text start n).cp p) = c.2.script

theorem mem_srcOf {γ : Type} {f : γ → RunValue} {r : ValueRuns γ} {x : RunValue} (hx : x ∈ (srcOf f r).runs.map (·.2)) :
    ∃ y ∈ r.values, x = f y := by
  simp only [srcOf, Src.runs, List.map_map, List.mem_map, Function.comp] at hx
  obtain ⟨q, hq, rfl⟩ := hx
  exact ⟨q.2, (List.of_mem_zip hq).2, rfl⟩

theorem _root_.RichText.Bounds.le {count : Nat} : ∀ {bs : List (Nat × Nat)} {offset : Nat}, Bounds count offset bs → offset ≤ count
  | [], _, h => Nat.le_of_eq h
  | _ :: _, _, ⟨_, _, _, h⟩ => by have := h.le; omega

theorem _root_.RichText.ScriptRuns.limit_le {e : Nat} : ∀ {rs : List ScriptRun} {s : Nat}, ScriptRuns e s rs → ∀ r ∈ rs, r.limit ≤ e
  | [], _, _, r, hr => by cases hr
  | a :: t, s, ⟨h1, h2, h3⟩, r, hr => by
    have hle : ∀ {rs : List ScriptRun} {s : Nat}, ScriptRuns e s rs → s ≤ e := by
      intro rs
      induction rs with
      | nil => intro s h; exact Nat.le_of_eq h
      | cons a t ih => intro s ⟨g1, g2, g3⟩; have := ih g3; omega
    rcases List.mem_cons.1 hr with rfl | hr
    · exact hle h3
    · exact h3.limit_le r hr

theorem _root_.RichText.ParaCalls.upper {α σ : Type _} {e start c : Int} {srcs : List (Src α)} {scripts : List (Int × σ)}
    {levels : List Nat} {calls : List (ParaCall α σ)} (h : ParaCalls e start c srcs scripts levels calls) :
    ∀ call ∈ calls, call.limit ≤ e := by
  have h1 := h.sorted
  have h2 := h.last
  clear h
  induction calls with
  | nil => simp
  | cons a t ih =>
    obtain ⟨g1, g2⟩ := List.pairwise_cons.1 h1
    intro call hc
    cases t with
    | nil =>
      simp only [List.getLast?_singleton, Option.map_some, Option.some.injEq] at h2
      rw [List.mem_singleton.1 hc, h2]
    | cons y r =>
      have h3 := ih g2 (by rw [List.getLast?_cons_cons] at h2; exact h2)
      rcases List.mem_cons.1 hc with rfl | hc
      · have := g1 y List.mem_cons_self
        have := h3 y List.mem_cons_self
        omega
      · exact h3 call hc

theorem plans_from {F : Type _} (hb : b.Proper starts limit k) {text : Bytes} (hlt : text.length < limit) {runs : FormattingRuns F} :
    ∀ (bs : List (Nat × Nat)) (pre : List (Nat × Nat)) (css : List (List (ParaCall RunValue Int))), b.bounds text = pre ++ bs →
      Bounds text.length (pre.map (·.1)).sum bs →
      Called (formatSrcs runs) (pre.map (·.1)).sum (b.spans text bs (pre.map (·.1)).sum) css →
      Stem (0 : Int) (b.spans text bs (pre.map (·.1)).sum) css →
      ∀ q ∈ plans bs (pre.map (·.1)).sum css, 0 < q.length - q.separator →
        b.HasText text q.start (q.length - q.separator) ∧ q.start + (q.length - q.separator) ≤ text.length ∧
        ∀ c ∈ q.calls, CallFrom b text runs q.start (q.length - q.separator) c
  | [], _, _, _, _, _, _ => by intro q hq; cases hq
  | x :: bs, pre, css, hpre, hbs, ⟨c, cs', hc, hc1, hc2, hc3⟩, hst => by
    subst hc
    obtain ⟨h1, h2, h3, h4⟩ := hbs
    intro q hq h0
    rcases List.mem_cons.1 hq with rfl | hq
    · simp only [List.headD_cons] at h0 ⊢
      have ht : b.HasText text (pre.map (·.1)).sum (x.1 - x.2) := ⟨h0, pre, x, bs, hpre, rfl, rfl⟩
      have hle : (pre.map (·.1)).sum + x.1 ≤ text.length := by
        have := h4.le
        omega
      refine ⟨ht, by omega, ?_⟩
      intro a ha
      obtain ⟨call, hcall, hargs⟩ := List.mem_filterMap.1 ha
      have hp := hc1 (by simp only; omega)
      simp only at hp
      have hv := hp.values call hcall
      obtain ⟨s1, s2⟩ := hst.1 call hcall
      have hlim : call.limit ≤ (((pre.map (·.1)).sum + (x.1 - x.2) : Nat) : Int) := hp.upper call hcall
      obtain ⟨l, vs, sc, lv⟩ := call
      simp only [formatSrcs, List.forall₂_cons_left_iff, List.forall₂_nil_left_iff] at hv
      obtain ⟨a0, _, a1, ⟨b0, _, b1, ⟨c0, _, c1, ⟨e0, _, d1, rfl, rfl⟩, rfl⟩, rfl⟩, rfl⟩ := hv
      obtain ⟨f, f1, rfl⟩ := mem_srcOf a1
      obtain ⟨g, g1, rfl⟩ := mem_srcOf b1
      obtain ⟨h, h1', rfl⟩ := mem_srcOf c1
      obtain ⟨j, j1, rfl⟩ := mem_srcOf d1
      have ha' : a = (l.toNat, ⟨f, sc, lv, g, h, j⟩) := (Option.some.inj hargs).symm
      subst ha'
      simp only at hlim s1 s2
      refine ⟨by simp only; omega, f1, g1, h1', j1, s2, ?_⟩
      rcases s1 with s1 | ⟨q, q1, q2⟩
      · exact .inl s1
      · obtain ⟨e1, e2⟩ := hb.script text _ _ hlt ht
        obtain ⟨rs, r1, r2⟩ := C36_script_runs_partition _ e2
        rw [e1] at r1
        rw [r1 _ (Nat.le_refl _), Option.getD_some] at q1
        obtain ⟨r, hr, rfl⟩ := List.mem_map.1 q1
        rcases C37_origin _ e2 _ rs (r1 _ (Nat.le_refl _)) r hr with h5 | ⟨p, p1, p2, p3, p4⟩
        · left; rw [← q2]; exact h5
        · right
          have := r2.limit_le r hr
          rw [e1] at this
          exact ⟨p, p1, by omega, p3, p4.trans q2⟩
    · have ih := plans_from hb hlt (runs := runs) bs (pre ++ [x]) cs' (by rw [hpre]; simp)
      simp only [List.map_append, List.map_cons, List.map_nil, List.sum_append, List.sum_cons, List.sum_nil, Nat.add_zero] at ih
      exact ih h4 hc3 hst.2 q hq h0

/-- The calls for a text. -/
theorem plan_from {F : Type _} (hb : b.Proper starts limit k) {text : Bytes} (hne : text ≠ []) (hlt : text.length < limit)
    {runs : FormattingRuns F} (hfit : AllRunsFit runs text.length) : ∀ q ∈ b.plan text runs, 0 < q.length - q.separator →
      b.HasText text q.start (q.length - q.separator) ∧ q.start + (q.length - q.separator) ≤ text.length ∧
      ∀ c ∈ q.calls, CallFrom b text runs q.start (q.length - q.separator) c := by
  have hbd := hb.bounds text hne hlt
  have hsp : Spans text.length 0 (b.spans text (b.bounds text) 0) := by
    have := TextLibs.Contract.spans (hb.contract (space := fun _ => 1) fun _ => by decide) hlt (b.bounds text) [] rfl hbd
    rw [libs_spans] at this
    exact this
  obtain ⟨css, fin, h1, h2⟩ := hfit.called _ (0 : Int) hsp
  have h3 := textCalls_stem (text.length + 1) (0 : Int) (b.spans text (b.bounds text) 0) 0
    (startIters runs.font (some (runs.flags .smallcaps)) (some (runs.flags .subscript)) (some (runs.flags .superscript)) text.length)
  unfold plan
  rw [h1] at h3 ⊢
  exact plans_from hb hlt (b.bounds text) [] css rfl hbd h2 h3

end BuildLibs
end RichText
