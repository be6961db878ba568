import Verif.Proof.LineSteps
import Verif.Props.LineBreak
import Mathlib.Tactic.Ring
/-!
C137: how much work it is to break a paragraph into lines.
-/
namespace RichText

/-- First glyph of the `j`-th line, or the number of glyphs. -/
def firstOf (n : Nat) (l : List LineSteps) (j : Nat) : Nat := match l[j]? with | some s => s.first | none => n

theorem firstOf_le {n : Nat} {l : List LineSteps} (h : ∀ s ∈ l, s.first ≤ s.overflow ∧ s.overflow ≤ n) (j : Nat) : firstOf n l j ≤ n := by
  unfold firstOf
  cases hx : l[j]? with
  | none => exact Nat.le_refl _
  | some s => have := h s (List.mem_of_getElem? hx); simp only; omega

theorem sum_overflow3 {n : Nat} : ∀ (l : List LineSteps), (∀ s ∈ l, s.first ≤ s.overflow ∧ s.overflow ≤ n) →
    (∀ (i : Nat) (s s' : LineSteps), l[i]? = some s → l[i + 3]? = some s' → s.overflow ≤ s'.first) →
    (l.map fun s => s.overflow - s.first).sum ≤ (n - firstOf n l 0) + (n - firstOf n l 1) + (n - firstOf n l 2)
  | [], _, _ => by simp
  | s :: t, h, hn => by
    have ih := sum_overflow3 t (fun s hs => h s (by simp [hs])) (fun i a b ha hb => hn (i + 1) a b (by simpa using ha) (by simpa using hb))
    have h1 : s.overflow ≤ firstOf n t 2 := by
      unfold firstOf
      cases hx : t[2]? with
      | none => exact (h s (by simp)).2
      | some s' => exact hn 0 s s' rfl (by simpa using hx)
    have h2 := firstOf_le (l := t) (fun x hx => h x (List.mem_cons_of_mem _ hx)) 2
    have h3 := h s (by simp)
    have e0 : firstOf n (s :: t) 0 = s.first := rfl
    have e1 : firstOf n (s :: t) 1 = firstOf n t 0 := rfl
    have e2 : firstOf n (s :: t) 2 = firstOf n t 1 := rfl
    rw [List.map_cons, List.sum_cons, e0, e1, e2]
    omega

theorem sum_overflow2 {n : Nat} : ∀ (l : List LineSteps), (∀ s ∈ l, s.first ≤ s.overflow ∧ s.overflow ≤ n) →
    (∀ (i : Nat) (s s' : LineSteps), l[i]? = some s → l[i + 2]? = some s' → s.overflow ≤ s'.first) →
    (l.map fun s => s.overflow - s.first).sum ≤ (n - firstOf n l 0) + (n - firstOf n l 1)
  | [], _, _ => by simp
  | s :: t, h, hn => by
    have ih := sum_overflow2 t (fun s hs => h s (by simp [hs])) (fun i a b ha hb => hn (i + 1) a b (by simpa using ha) (by simpa using hb))
    have h1 : s.overflow ≤ firstOf n t 1 := by
      unfold firstOf
      cases hx : t[1]? with
      | none => exact (h s (by simp)).2
      | some s' => exact hn 0 s s' rfl (by simpa using hx)
    have h2 := firstOf_le (l := t) (fun x hx => h x (List.mem_cons_of_mem _ hx)) 1
    have h3 := h s (by simp)
    have e0 : firstOf n (s :: t) 0 = s.first := rfl
    have e1 : firstOf n (s :: t) 1 = firstOf n t 0 := rfl
    rw [List.map_cons, List.sum_cons, e0, e1]
    omega

theorem sum_force {n : Nat} : ∀ (l : List LineSteps), (∀ s ∈ l, s.first ≤ s.force ∧ s.done ≤ n) →
    (∀ (i : Nat) (s s' : LineSteps), l[i]? = some s → l[i + 1]? = some s' → s.done ≤ s.force + 1 ∨ s.done ≤ s'.first + 1) →
    (∀ (i : Nat) (s s' : LineSteps), l[i]? = some s → l[i + 1]? = some s' → s.first ≤ s'.first) → (∀ s ∈ l, s.first ≤ n) →
    (l.map fun s => s.done - s.force).sum ≤ (n - firstOf n l 0) + l.length
  | [], _, _, _, _ => by simp
  | s :: t, h, hn, hm, hf => by
    have ih := sum_force t (fun s hs => h s (by simp [hs])) (fun i a b ha hb => hn (i + 1) a b (by simpa using ha) (by simpa using hb))
      (fun i a b ha hb => hm (i + 1) a b (by simpa using ha) (by simpa using hb)) (fun s hs => hf s (by simp [hs]))
    have h1 : (s.done ≤ s.force + 1 ∨ s.done ≤ firstOf n t 0 + 1) ∧ s.first ≤ firstOf n t 0 ∧ firstOf n t 0 ≤ n := by
      unfold firstOf
      cases hx : t[0]? with
      | none => exact ⟨Or.inr (by have := (h s (by simp)).2; simp only; omega), hf s (by simp), Nat.le_refl _⟩
      | some s' => exact ⟨hn 0 s s' rfl (by simpa using hx), hm 0 s s' rfl (by simpa using hx), hf s' (by simp [List.mem_of_getElem? hx])⟩
    have h3 := h s (by simp)
    have e0 : firstOf n (s :: t) 0 = s.first := rfl
    rw [List.map_cons, List.sum_cons, e0, List.length_cons]
    omega

theorem sum_step : ∀ (l : List LineSteps), (∀ s ∈ l, s.force ≤ s.overflow + 1) →
    (l.map fun s => s.done - s.overflow).sum ≤ (l.map fun s => s.done - s.force).sum + l.length
  | [], _ => by simp
  | s :: t, h => by
    have ih := sum_step t (fun s hs => h s (by simp [hs]))
    have := h s (by simp)
    rw [List.map_cons, List.sum_cons, List.map_cons, List.sum_cons, List.length_cons]
    omega

theorem sum_hanging {E : Nat} {R : BrokenLine → LineSteps → Prop} (hone : ∀ l s, R l s → l.first < E → s.found - s.search ≤ l.stop - l.first) :
    ∀ {ls : List BrokenLine} {ss : List LineSteps} {p : Nat}, List.Forall₂ R ls ss → Consecutive E p (lineRanges ls) →
      (ss.map fun s => s.found - s.search).sum + p ≤ E
  | _, _, p, .nil, hc => by
    have : p = E := hc
    simp [this]
  | l :: t, s :: ss, p, .cons h1 h2, hc => by
    have ih := sum_hanging hone h2 hc.2.2
    have h4 : l.first = p := hc.1
    have h5 : l.first < l.stop := hc.2.1
    have h6 : (ss.map fun s => s.found - s.search).sum + l.stop ≤ E := ih
    have h3 := hone _ _ h1 (by omega)
    rw [List.map_cons, List.sum_cons]
    omega

theorem consecutive_next {E : Nat} : ∀ {ls : List BrokenLine} {p i : Nat} {l l' : BrokenLine}, Consecutive E p (lineRanges ls) →
    ls[i]? = some l → ls[i + 1]? = some l' → l'.first = l.stop
  | [], _, _, _, _, _, h, _ => by simp at h
  | a :: t, p, 0, l, l', hc, h, h' => by
    simp only [List.getElem?_cons_zero, Option.some.injEq] at h
    subst h
    cases t with
    | nil => simp at h'
    | cons b t =>
      simp only [Nat.zero_add, List.getElem?_cons_succ, List.getElem?_cons_zero, Option.some.injEq] at h'
      subst h'
      exact hc.2.2.1
  | a :: t, p, i + 1, l, l', hc, h, h' => consecutive_next (ls := t) hc.2.2 (by simpa using h) (by simpa using h')

theorem forall₂_at {α β : Type} {R : α → β → Prop} : ∀ {as : List α} {bs : List β}, List.Forall₂ R as bs → ∀ (i : Nat) (b : β), bs[i]? = some b →
    ∃ a, as[i]? = some a ∧ R a b
  | _, _, .nil, i, b, h => by simp at h
  | _, _, .cons h1 h2, 0, b, h => by
    simp only [List.getElem?_cons_zero, Option.some.injEq] at h
    subst h
    exact ⟨_, rfl, h1⟩
  | _, _, .cons h1 h2, i + 1, b, h => forall₂_at h2 i b (by simpa using h)

/-! ## C137 -/

/-- C137: breaking a paragraph into lines takes time proportional to its length: the loop that adds up widths looks at glyphs at most three
times as often as there are (twice if each cluster has one glyph) and once more in each line, the loop that forces a break
at most once for each glyph and once in each line, and the one behind it, which places the tabs, at most once more in each line. -/
theorem C137_steps (e : LineEnv) (charIdx : List Nat) (widths : List Int)
    (isStart isBreak : Nat → Prop) (hc : e.Codepoints isStart) (hb : e.Breaks isBreak)
    (hin : ∀ c ∈ charIdx, e.start ≤ c ∧ c < e.start + e.length ∧ isStart (c - e.start))
    (hs : charIdx.Pairwise (· ≤ ·)) (ht : e.TabsForward charIdx widths) (ho : e.TabsOnce isStart isBreak charIdx)
    (hw : ∀ w ∈ widths, 0 ≤ w) (hlen : widths.length = charIdx.length)
    (lines : List BrokenLine) (h : breakLines e charIdx e.length e.start widths = some lines) :
    ∃ steps, allSteps e charIdx e.length e.start widths = some steps ∧ steps.length = lines.length ∧
      (steps.map fun s => s.overflow - s.first).sum ≤ 3 * charIdx.length ∧
      (charIdx.Pairwise (· < ·) → (steps.map fun s => s.overflow - s.first).sum ≤ 2 * charIdx.length) ∧
      (steps.map fun s => s.done - s.force).sum ≤ charIdx.length + lines.length ∧
      (steps.map fun s => s.done - s.overflow).sum ≤ charIdx.length + 2 * lines.length := by
  have hgood := onward_of hw ht
  have hbi : e.BreaksInside := by
    intro i
    rcases hb.preceding i with ⟨h1, _⟩ | ⟨b, h1, h2, _⟩
    · omega
    · have := hb.inside b h2; omega
  have hcons := (breakLines_consecutive hbi (fun c hc => ⟨(hin c hc).1, (hin c hc).2.1⟩) _ _ _ _ (by omega) h).1
  obtain ⟨steps, s1, s2⟩ := allSteps_facts hc hb hin hs ho hgood hlen _ _ _ (Nat.le_refl _) (fun _ _ _ _ _ => rfl) h
  have hget := fun (i : Nat) (s : LineSteps) (hx : steps[i]? = some s) => forall₂_at s2 i s hx
  have hall : ∀ s ∈ steps, ∃ l, StepFacts e charIdx widths isBreak l s := by
    intro s hs
    obtain ⟨i, hi, rfl⟩ := List.mem_iff_getElem.1 hs
    obtain ⟨l, -, hl⟩ := hget i _ (List.getElem?_eq_getElem hi)
    exact ⟨l, hl⟩
  have hbd : ∀ s ∈ steps, s.first ≤ s.overflow ∧ s.overflow ≤ charIdx.length := by
    intro s hs
    obtain ⟨l, hl⟩ := hall s hs
    have := hl.lo; have := hl.mid; have := hl.hi; have := hl.len
    omega
  have hprev : ∀ (i : Nat) (s : LineSteps), steps[i + 1]? = some s → ∃ s', steps[i]? = some s' := by
    intro i s hx
    have := (List.getElem?_eq_some_iff.1 hx).1
    exact ⟨_, List.getElem?_eq_getElem (show i < steps.length by omega)⟩
  have hchain : ∀ (i : Nat) (a b : LineSteps), steps[i]? = some a → steps[i + 1]? = some b → ∃ la lb, lb.first = la.stop ∧
      lines[i]? = some la ∧ lines[i + 1]? = some lb ∧ StepFacts e charIdx widths isBreak la a ∧ StepFacts e charIdx widths isBreak lb b := by
    intro i a b ha hb
    obtain ⟨la, l1, f1⟩ := hget i a ha
    obtain ⟨lb, l2, f2⟩ := hget (i + 1) b hb
    exact ⟨la, lb, consecutive_next hcons l1 l2, l1, l2, f1, f2⟩
  have hthree : ∀ (i : Nat) (s s' : LineSteps), steps[i]? = some s → steps[i + 3]? = some s' → s.overflow ≤ s'.first := by
    intro i s s' hx hx'
    obtain ⟨b, hb'⟩ := hprev (i + 2) s' hx'
    obtain ⟨a, ha⟩ := hprev (i + 1) b hb'
    obtain ⟨l0, l1, e1, -, g1, f0, f1⟩ := hchain i s a hx ha
    obtain ⟨l1', l2, e2, g1', g2, -, f2⟩ := hchain (i + 1) a b ha hb'
    obtain ⟨l2', l3, e3, g2', g3, -, f3⟩ := hchain (i + 2) b s' hb' hx'
    rw [g1] at g1'; cases g1'
    rw [g2] at g2'; cases g2'
    refine f3.le_first (hbd s (List.mem_of_getElem? hx)).2 fun k c hk hck => ?_
    have h1 := (f0.reach hin hs hgood f1 e1 k c hk hck).1
    have h2 := f2.lt
    omega
  have htwo : charIdx.Pairwise (· < ·) → ∀ (i : Nat) (s s' : LineSteps), steps[i]? = some s → steps[i + 2]? = some s' → s.overflow ≤ s'.first := by
    intro hp i s s' hx hx'
    obtain ⟨a, ha⟩ := hprev (i + 1) s' hx'
    obtain ⟨l0, l1, e1, -, g1, f0, f1⟩ := hchain i s a hx ha
    obtain ⟨l1', l2, e2, g1', g2, -, f2⟩ := hchain (i + 1) a s' ha hx'
    rw [g1] at g1'; cases g1'
    refine f2.le_first (hbd s (List.mem_of_getElem? hx)).2 fun k c hk hck => ?_
    have h1 := (f0.reach hin hs hgood f1 e1 k c hk hck).2 hp
    omega
  have hforce : (steps.map fun s => s.done - s.force).sum ≤ charIdx.length + lines.length := by
    have := sum_force (n := charIdx.length) steps
      (fun s hs => by
        obtain ⟨l, hl⟩ := hall s hs
        have := hl.lo; have := hl.mid; have := hl.len
        omega)
      (fun i s s' hx hx' => by
        obtain ⟨l0, l1, e1, -, -, f0, f1⟩ := hchain i s s' hx hx'
        rcases f0.done with hd | hd
        · exact Or.inl hd
        · right
          have := f1.le_first (m := s.done - 1) (by have := f0.len; omega) fun k c hk hck => by
            rw [e1]; exact hd k c (by omega) hck
          omega)
      (fun i s s' hx hx' => by
        obtain ⟨l0, l1, e1, -, -, f0, f1⟩ := hchain i s s' hx hx'
        exact f0.first_mono f1 (by have := f0.lt; omega))
      (fun s hs => by have := hbd s hs; omega)
    rw [← s2.length_eq] at this
    omega
  refine ⟨steps, s1, s2.length_eq.symm, ?_, ?_, hforce, ?_⟩
  · have := sum_overflow3 steps hbd hthree
    omega
  · intro hp
    have := sum_overflow2 steps hbd (htwo hp)
    omega
  · have := sum_step steps (fun s hs => by
      obtain ⟨l, hl⟩ := hall s hs
      exact hl.step)
    rw [← s2.length_eq] at this
    omega

/-- C137: between white space and control characters and what follows them there is an opportunity to break: the loop that lets them hang
looks at each byte of the paragraph at most once, over all lines. -/
theorem C137_hanging_partial (e : LineEnv) (charIdx : List Nat) (widths : List Int)
    (isStart isBreak : Nat → Prop) (hc : e.Codepoints isStart) (hb : e.Breaks isBreak)
    (hbs : ∀ b, isBreak b → isStart b ∨ b = e.length)
    (hh : ∀ c q, isStart c → isStart q → c < q → q < e.length → (∀ k, isStart k → c ≤ k → k < q → e.hangs k = true) →
      e.hangs q = false → isBreak q)
    (hin : ∀ c ∈ charIdx, e.start ≤ c ∧ c < e.start + e.length ∧ isStart (c - e.start))
    (hs : charIdx.Pairwise (· ≤ ·)) (ht : e.TabsForward charIdx widths) (ho : e.TabsOnce isStart isBreak charIdx)
    (hw : ∀ w ∈ widths, 0 ≤ w) (hlen : widths.length = charIdx.length)
    (lines : List BrokenLine) (h : breakLines e charIdx e.length e.start widths = some lines) :
    ∃ steps, allSteps e charIdx e.length e.start widths = some steps ∧ steps.length = lines.length ∧
      (steps.map fun s => s.found - s.search).sum ≤ e.length := by
  have hgood := onward_of hw ht
  have hbi : e.BreaksInside := by
    intro i
    rcases hb.preceding i with ⟨h1, _⟩ | ⟨b, h1, h2, _⟩
    · omega
    · have := hb.inside b h2; omega
  have hcons := (breakLines_consecutive hbi (fun c hc => ⟨(hin c hc).1, (hin c hc).2.1⟩) _ _ _ _ (by omega) h).1
  obtain ⟨steps, s1, s2⟩ := allSteps_facts hc hb hin hs ho hgood hlen _ _ _ (Nat.le_refl _) (fun _ _ _ _ _ => rfl) h
  refine ⟨steps, s1, s2.length_eq.symm, ?_⟩
  have hone : ∀ l s, StepFacts e charIdx widths isBreak l s → l.first < e.start + e.length → s.found - s.search ≤ l.stop - l.first := by
    intro l s hl hx
    rcases Nat.lt_or_ge s.search s.found with hlt | hge
    · have hsearch := hl.search
      have hfrom := (breakFrom_bounds (e := e) (ci := charIdx) (fun c hc => ⟨(hin c hc).1, (hin c hc).2.1⟩) s.force)
      have hstart : isStart s.search ∨ e.length ≤ s.search := by
        rw [hsearch]; unfold breakFrom
        cases hx : charIdx[s.force]? with
        | none => right; simp only; omega
        | some c => exact Or.inl (hin c (List.mem_of_getElem? hx)).2.2
      have hfirst : l.first < e.start + e.length → l.first ≤ e.start + s.search := by
        intro hlf
        rw [hsearch]; unfold breakFrom
        cases hx : charIdx[s.force]? with
        | none => simp only; omega
        | some c =>
          have h1 := mt (hl.front _ _ hx).1 (by have := hl.lo; have := hl.mid; omega)
          simp only; omega
      obtain ⟨q, q1, q2, q3, q4, q5, q6⟩ := skipHanging_spec hc _ _ rfl (by omega : s.search ≤ e.length) hstart
      have hq := hl.found
      rw [q1] at hq; cases hq
      obtain ⟨p, p1, p2⟩ := hl.exact
      have hlast : p = s.found := by
        rcases q6 with ⟨r1, j, r2, r3⟩ | ⟨r1, r2⟩
        · rw [r3] at p1; cases p1
          rcases hb.preceding j with ⟨t1, t2⟩ | ⟨b, t1, t2, t3, t4⟩
          · have := t2 _ hb.last; omega
          · have := t4 _ hb.last r2
            have := hb.inside _ t2
            omega
        · rw [r2] at p1; cases p1
          rcases q5 with r | ⟨-, w1, w2⟩
          · omega
          have hstart' : isStart s.search := by rcases hstart with hx | hx; exact hx; omega
          have hbq := hh s.search s.found hstart' w1 hlt r1 q4 w2
          have hnx := (hc.next _ w1 r1)
          rcases hb.preceding (e.next s.found) with ⟨t1, t2⟩ | ⟨b, t1, t2, t3, t4⟩
          · have := t2 _ hbq; omega
          · have := t4 _ hbq hnx.1
            rcases hbs b t2 with hx | hx
            · rcases Nat.lt_or_ge s.found b with hy | hy
              · have := hc.gap _ _ w1 r1 hx hy
                omega
              · omega
            · omega
      have hlt2 := hl.lt
      have hfin := hl.inside
      have := hfirst hx
      have := p2 (by omega)
      omega
    · omega
  have := sum_hanging hone s2 hcons
  omega

/-- "ab cd" (`sampleLine`) meets what C137 supposes, and there is an opportunity behind its blank. -/
example : (sampleLine 128).Codepoints (· < 5) ∧ (sampleLine 128).Breaks (fun b => b = 0 ∨ b = 3 ∨ b = 5) ∧
    (∀ b, (b = 0 ∨ b = 3 ∨ b = 5) → b < 5 ∨ b = (sampleLine 128).length) ∧
    (∀ c q, c < 5 → q < 5 → c < q → q < (sampleLine 128).length → (∀ k, k < 5 → c ≤ k → k < q → (sampleLine 128).hangs k = true) →
      (sampleLine 128).hangs q = false → (q = 0 ∨ q = 3 ∨ q = 5)) ∧
    (∀ c ∈ [10, 11, 12, 13, 14], (sampleLine 128).start ≤ c ∧ c < (sampleLine 128).start + (sampleLine 128).length ∧ c - (sampleLine 128).start < 5) ∧
    (sampleLine 128).TabsForward [10, 11, 12, 13, 14] [64, 64, 64, 64, 64] ∧
    (sampleLine 128).TabsOnce (· < 5) (fun b => b = 0 ∨ b = 3 ∨ b = 5) [10, 11, 12, 13, 14] := by
  refine ⟨⟨fun i _ h => ⟨Nat.lt_succ_self i, h, fun h => h⟩, fun i j _ _ _ h => h⟩, ⟨?_, Or.inr (Or.inr rfl), fun i => ?_⟩, ?_, ?_, by decide,
    Or.inl fun _ => rfl, fun h => by cases h⟩
  · rintro i (rfl | rfl | rfl) <;> decide
  · show ((if i ≤ 0 then (-1 : Int) else if i ≤ 3 then 0 else if i ≤ 5 then 3 else 5) = -1 ∧ _) ∨
      ∃ b : Nat, (if i ≤ 0 then (-1 : Int) else if i ≤ 3 then 0 else if i ≤ 5 then 3 else 5) = b ∧ _
    by_cases h1 : i ≤ 0
    · exact Or.inl ⟨by rw [if_pos h1], fun b _ => by omega⟩
    by_cases h2 : i ≤ 3
    · exact Or.inr ⟨0, by rw [if_neg h1, if_pos h2]; rfl, by simp, by omega, by rintro b (rfl | rfl | rfl) _ <;> omega⟩
    by_cases h3 : i ≤ 5
    · exact Or.inr ⟨3, by rw [if_neg h1, if_neg h2, if_pos h3]; rfl, by simp, by omega, by rintro b (rfl | rfl | rfl) _ <;> omega⟩
    · exact Or.inr ⟨5, by rw [if_neg h1, if_neg h2, if_neg h3]; rfl, by simp, by omega, by rintro b (rfl | rfl | rfl) _ <;> omega⟩
  · rintro b (rfl | rfl | rfl) <;> decide
  · intro c q hc hq hcq _ hk _
    have h1 : ∀ k, k < 5 → c ≤ k → k < q → k = 2 := fun k a b d => by
      have : (k == 2) = true := hk k a b d
      simpa using this
    have := h1 c hc (Nat.le_refl _) hcq
    have := h1 (q - 1) (by omega) (by omega) (by omega)
    omega

/-- In an area of two glyphs the two lines of "ab cd" look at two glyphs each; the first lets the blank hang. -/
example : allSteps (sampleLine 128) [10, 11, 12, 13, 14] 5 10 [64, 64, 64, 64, 64] = some [⟨0, 2, 2, 2, 2, 3⟩, ⟨3, 5, 5, 5, 5, 5⟩] := by
  decide +kernel

/-- `n` control characters without an opportunity to break between them (they are of the class of combining marks), each as wide as the area,
and a letter. -/
def controlsEnv (n : Nat) : LineEnv where
  start := 0
  length := n + 1
  area := 64
  tabWidth := 64
  tabPixels := false
  isTab := fun _ => false
  next := fun i => i + 1
  hangs := fun i => decide (i < n)
  preceding := fun i => if n + 1 < i then ((n + 1 : Nat) : Int) else if 0 < i then 0 else -1

theorem controls_codepoints (n : Nat) : (controlsEnv n).Codepoints (· < n + 1) :=
  ⟨fun i _ h => ⟨Nat.lt_succ_self i, h, fun h => h⟩, fun i j _ _ _ h => h⟩

theorem controls_breaks (n : Nat) : (controlsEnv n).Breaks (fun b => b = 0 ∨ b = n + 1) := by
  refine ⟨?_, Or.inr rfl, ?_⟩
  · rintro i (rfl | rfl)
    · exact Nat.zero_le _
    · exact Nat.le_refl _
  · intro i
    show ((if n + 1 < i then ((n + 1 : Nat) : Int) else if 0 < i then 0 else -1) = -1 ∧ _) ∨
      ∃ b : Nat, (if n + 1 < i then ((n + 1 : Nat) : Int) else if 0 < i then 0 else -1) = b ∧ _
    by_cases h1 : n + 1 < i
    · right
      exact ⟨n + 1, by rw [if_pos h1], Or.inr rfl, h1, by rintro b (rfl | rfl) _ <;> omega⟩
    · by_cases h2 : 0 < i
      · right
        exact ⟨0, by rw [if_neg h1, if_pos h2]; rfl, Or.inl rfl, h2, by rintro b (rfl | rfl) _ <;> omega⟩
      · left
        exact ⟨by rw [if_neg h1, if_neg h2], by intro b _; omega⟩

theorem range_get {m k : Nat} (h : k < m) : (List.range m)[k]? = some k := by
  rw [List.getElem?_range h]

theorem controls_tab {n i : Nat} (h : i < n + 1) (soFar : Int) :
    tabAdjust (controlsEnv n) (List.range (n + 1)) (List.replicate (n + 1) 64) i soFar = some (64, List.replicate (n + 1) 64) := by
  unfold tabAdjust
  rw [range_get h, List.getElem?_replicate, if_pos h]
  rfl

theorem controls_search {n p : Nat} (h : p ≤ n) :
    binarySearch (fun i => ((List.range (n + 1))[i]?).map (fun c => decide (c < p))) 0 (List.range (n + 1)).length = some p := by
  obtain ⟨g, hg, hgl, hgs⟩ := search_spec (ci := List.range (n + 1)) (List.pairwise_lt_range.imp Nat.le_of_lt) p
  have h1 := mt (hgs p p (range_get (by omega))).2 (by omega)
  rw [hg]
  rcases Nat.lt_or_ge g p with h2 | h2
  · have := (hgs g g (range_get (by omega))).1 h2; omega
  · congr 1; omega

theorem controls_fit {n p : Nat} (h : p ≤ n) : fitLine (controlsEnv n) (List.range (n + 1)) p 0 (List.replicate (n + 1) 64) =
    some ⟨p + 1, 64, List.replicate (n + 1) 64⟩ := by
  rw [fitLine, if_pos (by rw [List.length_range]; omega), controls_tab (by omega)]
  simp only
  rw [if_neg (by show ¬ (0 : Int) + 64 > 64; omega), fitLine]
  by_cases h2 : p + 1 < (List.range (n + 1)).length
  · rw [if_pos h2, controls_tab (by rw [List.length_range] at h2; exact h2)]
    simp only
    rw [if_pos (by show (0 : Int) + 64 + 64 > 64; omega)]
    rfl
  · rw [if_neg h2]; rfl

theorem controls_skip {n p : Nat} (h : p < n) : skipHanging (controlsEnv n) (p + 1) = some n ∧
    findPreviousLineBreak (controlsEnv n) (p + 1) = some 0 := by
  obtain ⟨q, q1, q2, q3, q4, q5, q6⟩ := skipHanging_spec (controls_codepoints n) _ (p + 1) rfl
    (by show p + 1 ≤ n + 1; omega) (Or.inl (by omega))
  have hq : q = n := by
    rcases Nat.lt_or_ge q n with hx | hx
    · rcases q5 with h5 | ⟨-, -, h5⟩
      · have : q = n + 1 := h5
        omega
      · have : decide (q < n) = false := h5
        simp only [decide_eq_false_iff_not] at this
        omega
    · rcases Nat.lt_or_ge n q with hy | hy
      · have : decide (n < n) = true := q4 n (by show n < n + 1; omega) (by omega) hy
        simp at this
      · omega
  subst hq
  refine ⟨q1, ?_⟩
  rcases q6 with ⟨h6, -⟩ | ⟨-, h6⟩
  · have : q = q + 1 := h6
    omega
  · rw [h6]
    show some (if q + 1 < q + 1 then ((q + 1 : Nat) : Int) else if 0 < q + 1 then 0 else -1) = some 0
    rw [if_neg (by omega), if_pos (by omega)]

theorem controls_from {n p : Nat} (h : p < n) : breakFrom (controlsEnv n) (List.range (n + 1)) (p + 1) - (controlsEnv n).start = p + 1 := by
  unfold breakFrom
  rw [range_get (by omega)]
  rfl

theorem controls_force {n p : Nat} (h : p < n) : forceBreak (List.range (n + 1)) p 0 (p + 1) = (((p + 1 : Nat) : Int), p + 2) := by
  rw [forceBreak.eq_def, if_pos (by omega)]
  split
  · rename_i hx; rw [range_get (by omega)] at hx; cases hx
  · rename_i c hx
    rw [range_get (by omega)] at hx; cases hx
    rw [forceBreak.eq_def, if_neg (by omega)]

/-- Each line takes one control character and looks at all that follow. -/
theorem controls_line {n p : Nat} (h : p < n) :
    lineSteps (controlsEnv n) (List.range (n + 1)) p (List.replicate (n + 1) 64) = some ⟨p, p + 1, p + 1, p + 2, p + 1, n⟩ ∧
    breakLine (controlsEnv n) (List.range (n + 1)) p (List.replicate (n + 1) 64) = some ⟨p, p + 1, List.replicate (n + 1) 64⟩ := by
  obtain ⟨k1, k2⟩ := controls_skip h
  have hf : forceGlyph (List.range (n + 1)).length ⟨p + 1, 64, List.replicate (n + 1) 64⟩ = p + 1 := by
    unfold forceGlyph; rw [if_neg (by simp)]
  have hfb : forceBreak (List.range (n + 1)) p (0 + ((controlsEnv n).start : Int)) (p + 1) = (((p + 1 : Nat) : Int), p + 2) := controls_force h
  constructor
  · unfold lineSteps
    rw [controls_search (by omega), Option.bind_some, controls_fit (by omega), Option.bind_some]
    simp only
    rw [hf, controls_from h, k1, k2, Option.bind_some, Option.map_some, hfb]
  · unfold breakLine
    rw [controls_search (by omega), Option.bind_some, controls_fit (by omega), Option.bind_some]
    simp only
    rw [hf, controls_from h, k2, Option.bind_some, hfb]
    simp only
    rw [show p + 2 - (p + 1) = 1 by omega, adjustTabs, controls_tab (by omega)]
    simp only
    rw [adjustTabs]
    unfold lastBreak
    rw [if_neg (by simp only; omega)]
    rfl

theorem controls_last (n : Nat) :
    lineSteps (controlsEnv n) (List.range (n + 1)) n (List.replicate (n + 1) 64) = some ⟨n, n + 1, n + 1, n + 1, n + 1, n + 1⟩ ∧
    breakLine (controlsEnv n) (List.range (n + 1)) n (List.replicate (n + 1) 64) = some ⟨n, n + 1, List.replicate (n + 1) 64⟩ := by
  have hf : forceGlyph (List.range (n + 1)).length ⟨n + 1, 64, List.replicate (n + 1) 64⟩ = n + 1 := by
    unfold forceGlyph; rw [if_neg (by simp)]
  have hfrom : breakFrom (controlsEnv n) (List.range (n + 1)) (n + 1) - (controlsEnv n).start = n + 1 := by
    unfold breakFrom
    rw [List.getElem?_eq_none (by rw [List.length_range])]
    show 0 + (n + 1) - 0 = n + 1
    omega
  have hk1 : skipHanging (controlsEnv n) (n + 1) = some (n + 1) := by
    rw [skipHanging, if_neg (by show ¬ n + 1 < n + 1; omega)]
  have hk2 : findPreviousLineBreak (controlsEnv n) (n + 1) = some ((n + 1 : Nat) : Int) := by
    rw [findPreviousLineBreak, if_neg (by show ¬ n + 1 < n + 1; omega)]
    show some (if n + 1 < n + 1 + 1 then ((n + 1 : Nat) : Int) else if 0 < n + 1 + 1 then 0 else -1) = _
    rw [if_pos (by omega)]
  have hfb : forceBreak (List.range (n + 1)) n (((n + 1 : Nat) : Int) + ((controlsEnv n).start : Int)) (n + 1) = (((n + 1 : Nat) : Int), n + 1) := by
    show forceBreak (List.range (n + 1)) n (((n + 1 : Nat) : Int)) (n + 1) = _
    rw [forceBreak.eq_def, if_neg (by omega)]
  constructor
  · unfold lineSteps
    rw [controls_search (by omega), Option.bind_some, controls_fit (by omega), Option.bind_some]
    simp only
    rw [hf, hfrom, hk1, hk2, Option.bind_some, Option.map_some, hfb]
  · unfold breakLine
    rw [controls_search (by omega), Option.bind_some, controls_fit (by omega), Option.bind_some]
    simp only
    rw [hf, hfrom, hk2, Option.bind_some, hfb]
    simp only
    rw [show n + 1 - (n + 1) = 0 by omega, adjustTabs]
    unfold lastBreak
    rw [if_neg (by simp only; omega)]
    rfl

theorem controls_all (n : Nat) : ∀ d p fuel, p + d = n → d < fuel → ∃ steps lines,
    allSteps (controlsEnv n) (List.range (n + 1)) fuel p (List.replicate (n + 1) 64) = some steps ∧
    breakLines (controlsEnv n) (List.range (n + 1)) fuel p (List.replicate (n + 1) 64) = some lines ∧
    2 * (steps.map fun s => s.found - s.search).sum = d * (d - 1) := by
  intro d
  induction d with
  | zero =>
    intro p fuel hp hf
    obtain ⟨fuel, rfl⟩ : ∃ f, fuel = f + 1 := ⟨fuel - 1, by omega⟩
    obtain rfl : p = n := by omega
    obtain ⟨h1, h2⟩ := controls_last p
    refine ⟨[⟨p, p + 1, p + 1, p + 1, p + 1, p + 1⟩], [⟨p, p + 1, List.replicate (p + 1) 64⟩], ?_, ?_, by simp⟩
    · rw [allSteps, if_pos (by show p < 0 + (p + 1); omega), h1, h2]
      simp only
      rw [allSteps.eq_def]
      simp only
      rw [if_neg (by show ¬ p + 1 < 0 + (p + 1); omega)]
      rfl
    · rw [breakLines, if_pos (by show p < 0 + (p + 1); omega), h2]
      simp only
      rw [breakLines.eq_def]
      simp only
      rw [if_neg (by show ¬ p + 1 < 0 + (p + 1); omega)]
      rfl
  | succ d ih =>
    intro p fuel hp hf
    obtain ⟨fuel, rfl⟩ : ∃ f, fuel = f + 1 := ⟨fuel - 1, by omega⟩
    obtain ⟨steps, lines, i1, i2, i3⟩ := ih (p + 1) fuel (by omega) (by omega)
    obtain ⟨h1, h2⟩ := controls_line (show p < n by omega)
    refine ⟨⟨p, p + 1, p + 1, p + 2, p + 1, n⟩ :: steps, ⟨p, p + 1, List.replicate (n + 1) 64⟩ :: lines, ?_, ?_, ?_⟩
    · rw [allSteps, if_pos (by show p < 0 + (n + 1); omega), h1, h2]
      simp only
      rw [i1]
      rfl
    · rw [breakLines, if_pos (by show p < 0 + (n + 1); omega), h2]
      simp only
      rw [i2]
      rfl
    · rw [List.map_cons, List.sum_cons]
      simp only
      rw [Nat.mul_add, i3, show n - (p + 1) = d by omega]
      cases d with
      | zero => rfl
      | succ d => simp only [Nat.add_sub_cancel]; ring

/-- C137 fails for the loop that lets white space and control characters hang: for each `n` there is a paragraph of `n + 1` bytes, meeting
all that C137 supposes, for which that loop runs `n * (n - 1) / 2` times. -/
theorem C137_quadratic_violated (n : Nat) : ∃ (e : LineEnv) (charIdx : List Nat) (widths : List Int) (isStart isBreak : Nat → Prop),
    e.length = n + 1 ∧ charIdx.length = n + 1 ∧ charIdx.Pairwise (· < ·) ∧ e.Codepoints isStart ∧ e.Breaks isBreak ∧
    (∀ c ∈ charIdx, e.start ≤ c ∧ c < e.start + e.length ∧ isStart (c - e.start)) ∧ e.TabsForward charIdx widths ∧
    e.TabsOnce isStart isBreak charIdx ∧ (∀ w ∈ widths, 0 ≤ w) ∧ widths.length = charIdx.length ∧
    ∃ steps lines, allSteps e charIdx e.length e.start widths = some steps ∧ breakLines e charIdx e.length e.start widths = some lines ∧
      2 * (steps.map fun s => s.found - s.search).sum = n * (n - 1) := by
  refine ⟨controlsEnv n, List.range (n + 1), List.replicate (n + 1) 64, _, _, rfl, List.length_range, List.pairwise_lt_range,
    controls_codepoints n, controls_breaks n, ?_, ?_, ?_, ?_, by simp, controls_all n n 0 (n + 1) (by omega) (by omega)⟩
  · intro c hc
    have : c < n + 1 := List.mem_range.1 hc
    exact ⟨Nat.zero_le _, (by show c < 0 + (n + 1); omega), (by show c - 0 < n + 1; omega)⟩
  · exact Or.inl fun _ => rfl
  · intro _
    exact ⟨(fun c _ h => by cases h), fun _ _ _ _ _ _ => rfl⟩
  · intro w hw
    rw [List.eq_of_mem_replicate hw]
    decide

end RichText
