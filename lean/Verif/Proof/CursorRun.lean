import Verif.Proof.Layout
/-! The loop of `get_run_containing_cursor` in terms of the stored lines. -/
namespace RichText
variable {φ : Type _}

/-- Run `k` belongs to line `m`. -/
def OnLine (ls : List (LineSpec φ)) (k m : Nat) : Prop :=
  (allRuns (ls.take m)).length ≤ k ∧ k < (allRuns (ls.take (m + 1))).length

/-- Run `k` is the last one of its line but not the last of all. -/
def EndsLine (ls : List (LineSpec φ)) (k : Nat) : Prop :=
  k + 1 < (allRuns ls).length ∧ ∃ m, m < ls.length ∧ k + 1 = (allRuns (ls.take (m + 1))).length

/-- Last position of a run, separator included. -/
def RunSpec.stop (r : RunSpec φ) : Nat := r.charEnd + r.charEndOffset

/-- The run gives its start position to the run before. -/
def usesPrev (prev : Option (RunSpec φ)) (r : RunSpec φ) (a : Affinity) : Bool :=
  prev.any fun p => Layout.preferPrevRun false false p.rtl r.rtl a

/-- The run gives its end position to the run after; `b`: it ends a line. -/
def usesNext (next : Option (RunSpec φ)) (r : RunSpec φ) (b : Bool) (a : Affinity) : Bool :=
  next.any fun n => !Layout.preferPrevRun b (b && r.charEndOffset == 0) r.rtl n.rtl a

/-- The run before number `i`. -/
def prevRun (rs : List (RunSpec φ)) (i : Nat) : Option (RunSpec φ) := if i = 0 then none else rs[i - 1]?

/-- The run claims the position. -/
def Claims (rs : List (RunSpec φ)) (i : Nat) (r : RunSpec φ) (b : Bool) (c : Nat) (a : Affinity) : Prop :=
  r.charStart ≤ c ∧ c ≤ r.stop ∧ ¬ (c = r.charStart ∧ usesPrev (prevRun rs i) r a = true) ∧
    ¬ (c = r.stop ∧ usesNext rs[i + 1]? r b a = true)

open Classical in
/-- one iteration -/
theorem runContainingFrom_step {L : Layout φ} {ls : List (LineSpec φ)} {y : Rat} (h : Stores L ls [] y)
    (hne : ∀ l ∈ ls, l.runs ≠ []) (c : Nat) (a : Affinity) (i line : Nat) (r : RunSpec φ)
    (hr : (allRuns ls)[i]? = some r)
    (hl : (allRuns (ls.take line)).length ≤ i) (hl2 : i ≤ (allRuns (ls.take (line + 1))).length)
    (hl3 : line < ls.length) :
    ∃ line', OnLine ls i line' ∧ line' < ls.length ∧ L.runContainingFrom c a i line =
      if Claims (allRuns ls) i r (decide (EndsLine ls i)) c a then some (i, line')
      else L.runContainingFrom c a (i + 1) line' := by
  have hrun := h.runs i r (by simpa using hr)
  have hcount : L.runs.length = (allRuns ls).length := by simpa using h.runCount
  have hi : i < (allRuns ls).length := by
    rcases Nat.lt_or_ge i (allRuns ls).length with h1 | h1
    · exact h1
    · rw [List.getElem?_eq_none h1] at hr; cases hr
  obtain ⟨l0, hl0⟩ : ∃ l0, ls[line]? = some l0 := ⟨_, List.getElem?_eq_getElem hl3⟩
  have hL0 := h.lines line l0 hl0
  -- the line after the adjustment
  obtain ⟨line', l', hline', hl', hon, hlt'⟩ : ∃ line' l',
      (if i = (allRuns (ls.take (line + 1))).length then line + 1 else line) = line' ∧ ls[line']? = some l' ∧
      OnLine ls i line' ∧ line' < ls.length := by
    by_cases hc : i = (allRuns (ls.take (line + 1))).length
    · have hlt : line + 1 < ls.length := by
        by_contra hge
        rw [List.take_of_length_le (by omega)] at hc
        omega
      refine ⟨line + 1, _, by rw [if_pos hc], List.getElem?_eq_getElem hlt, ⟨by omega, ?_⟩, hlt⟩
      have := allRuns_take_succ (List.getElem?_eq_getElem hlt)
      rw [this, List.length_append]
      have := List.length_pos_iff.2 (hne _ (List.getElem_mem hlt))
      omega
    · exact ⟨line, l0, by rw [if_neg hc], hl0, ⟨hl, by omega⟩, hl3⟩
  have hL' := h.lines line' l' hl'
  refine ⟨line', hon, hlt', ?_⟩
  have hafter : decide (i = (allRuns (ls.take (line' + 1))).length) = false := by
    have := hon.2
    simp; omega
  have hbefore : (decide (i + 1 < L.runs.length) && decide (i + 1 = (allRuns (ls.take (line' + 1))).length)) =
      decide (EndsLine ls i) := by
    rw [hcount, ← Bool.decide_and, decide_eq_decide]
    constructor
    · rintro ⟨h1, h2⟩
      exact ⟨h1, line', hlt', h2⟩
    · rintro ⟨h1, m, h2, h3⟩
      refine ⟨h1, ?_⟩
      have ho := hon
      rcases Nat.lt_trichotomy m line' with h4 | h4 | h4
      · have := allRuns_take_mono ls (i := m + 1) (j := line') (by omega)
        have := ho.1
        omega
      · rw [← h4]; exact h3
      · have h5 := allRuns_take_mono ls (i := line' + 1) (j := m) (by omega)
        have h6 := allRuns_take_succ (List.getElem?_eq_getElem h2)
        have h7 := List.length_pos_iff.2 (hne _ (List.getElem_mem h2))
        rw [h6, List.length_append] at h3
        have := ho.2
        omega
  have hprev : ∀ (f : VisualRun φ → Bool) (g : RunSpec φ → Bool)
      (_ : ∀ s n, f ⟨s.font, n, s.charStart, s.charEnd, s.charEndOffset, s.rtl⟩ = g s),
      (if i = 0 then none else L.runs[i - 1]?).any f = (prevRun (allRuns ls) i).any g := by
    intro f g hfg
    unfold prevRun
    by_cases h0 : i = 0
    · simp [h0]
    · rw [if_neg h0, if_neg h0]
      have hlt : i - 1 < (allRuns ls).length := by omega
      have e := List.getElem?_eq_getElem hlt
      rw [h.runs (i - 1) _ (by rw [List.append_nil]; exact e), e, Option.any_some, Option.any_some]
      exact hfg _ _
  have hnext : ∀ (f : VisualRun φ → Bool) (g : RunSpec φ → Bool)
      (_ : ∀ s n, f ⟨s.font, n, s.charStart, s.charEnd, s.charEndOffset, s.rtl⟩ = g s),
      (L.runs[i + 1]?).any f = ((allRuns ls)[i + 1]?).any g := by
    intro f g hfg
    rcases Nat.lt_or_ge (i + 1) (allRuns ls).length with hlt | hge
    · have e := List.getElem?_eq_getElem hlt
      rw [h.runs (i + 1) _ (by rw [List.append_nil]; exact e), e, Option.any_some, Option.any_some]
      exact hfg _ _
    · rw [List.getElem?_eq_none (by omega), List.getElem?_eq_none hge, Option.any_none, Option.any_none]
  rw [Layout.runContainingFrom, if_pos (by omega), hL0]
  simp only
  rw [hline', hL', hrun]
  simp only
  rw [hafter, hbefore]
  simp only [Bool.false_and]
  have e1 := hprev (fun p => Layout.preferPrevRun false false p.rtl r.rtl a)
      (fun p => Layout.preferPrevRun false false p.rtl r.rtl a) (fun _ _ => rfl)
  have e2 := hnext (fun n => !Layout.preferPrevRun (decide (EndsLine ls i))
        (decide (EndsLine ls i) && r.charEndOffset == 0) r.rtl n.rtl a)
      (fun n => !Layout.preferPrevRun (decide (EndsLine ls i))
        (decide (EndsLine ls i) && r.charEndOffset == 0) r.rtl n.rtl a) (fun _ _ => rfl)
  rw [e1, e2]
  refine if_congr ?_ rfl rfl
  unfold Claims usesPrev usesNext RunSpec.stop
  simp only [Bool.and_eq_true, decide_eq_true_eq, Bool.not_eq_true', Bool.and_eq_false_iff,
    decide_eq_false_iff_not, not_and, Bool.not_eq_true]
  constructor
  · rintro ⟨⟨⟨h1, h2⟩, h3⟩, h4⟩
    exact ⟨h1, h2, fun e => h3.resolve_left (fun n => n e), fun e => h4.resolve_left (fun n => n e)⟩
  · rintro ⟨h1, h2, h3, h4⟩
    refine ⟨⟨⟨h1, h2⟩, ?_⟩, ?_⟩
    · by_cases e : c = r.charStart
      · exact .inr (h3 e)
      · exact .inl e
    · by_cases e : c = r.charEnd + r.charEndOffset
      · exact .inr (h4 e)
      · exact .inl e

open Classical in
/-- The loop returns the first claiming run at or after `i`, or the last run. -/
theorem runContainingFrom_spec {L : Layout φ} {ls : List (LineSpec φ)} {y : Rat} (h : Stores L ls [] y)
    (hne : ∀ l ∈ ls, l.runs ≠ []) (c : Nat) (a : Affinity) (n : Nat) : ∀ (i line : Nat),
    (allRuns ls).length - i = n → i < (allRuns ls).length →
    (allRuns (ls.take line)).length ≤ i → i ≤ (allRuns (ls.take (line + 1))).length → line < ls.length →
    ∃ k m, L.runContainingFrom c a i line = some (k, m) ∧ i ≤ k ∧ OnLine ls k m ∧ m < ls.length ∧
      k < (allRuns ls).length ∧
      ((∃ r, (allRuns ls)[k]? = some r ∧ Claims (allRuns ls) k r (decide (EndsLine ls k)) c a) ∨
        (k + 1 = (allRuns ls).length ∧
          ∀ j r, i ≤ j → (allRuns ls)[j]? = some r →
            ¬ Claims (allRuns ls) j r (decide (EndsLine ls j)) c a)) ∧
      (∀ j r, i ≤ j → j < k → (allRuns ls)[j]? = some r →
        ¬ Claims (allRuns ls) j r (decide (EndsLine ls j)) c a) := by
  induction n with
  | zero => intro i line hn hi; omega
  | succ n ih =>
    intro i line hn hi h1 h2 h3
    have hr := List.getElem?_eq_getElem hi
    obtain ⟨line', hon, hlt, hstep⟩ := runContainingFrom_step h hne c a i line _ hr h1 h2 h3
    rw [hstep]
    by_cases hc : Claims (allRuns ls) i (allRuns ls)[i] (decide (EndsLine ls i)) c a
    · rw [if_pos hc]
      exact ⟨i, line', rfl, Nat.le_refl _, hon, hlt, hi, .inl ⟨_, hr, hc⟩, fun j r hj hk => by omega⟩
    · rw [if_neg hc]
      rcases Nat.lt_or_ge (i + 1) (allRuns ls).length with hi1 | hi1
      · obtain ⟨k, m, e, hk, hon', hm, hlen, hcl, hno⟩ :=
          ih (i + 1) line' (by omega) hi1 (by have := hon.1; omega) (by have := hon.2; omega) hlt
        refine ⟨k, m, e, by omega, hon', hm, hlen, ?_, ?_⟩
        · rcases hcl with hcl | ⟨hk1, hno'⟩
          · exact .inl hcl
          · refine .inr ⟨hk1, ?_⟩
            intro j r hj hjr
            rcases Nat.lt_or_ge i j with hij | hij
            · exact hno' j r (by omega) hjr
            · have : j = i := by omega
              subst this
              rw [hr] at hjr; cases hjr
              exact hc
        · intro j r hj hjk hjr
          rcases Nat.lt_or_ge i j with hij | hij
          · exact hno j r (by omega) hjk hjr
          · have : j = i := by omega
            subst this
            rw [hr] at hjr; cases hjr
            exact hc
      · have hcount : L.runs.length = (allRuns ls).length := by simpa using h.runCount
        refine ⟨i, line', ?_, Nat.le_refl _, hon, hlt, hi, .inr ⟨by omega, ?_⟩, fun j r hj hk => by omega⟩
        · rw [Layout.runContainingFrom, if_neg (by omega), hcount]
          congr 2
          omega
        · intro j r hj hjr
          have hj' : j < (allRuns ls).length := by
            rcases Nat.lt_or_ge j (allRuns ls).length with h1 | h1
            · exact h1
            · rw [List.getElem?_eq_none h1] at hjr; cases hjr
          have : j = i := by omega
          subst this
          rw [hr] at hjr; cases hjr
          exact hc

theorem onLine_unique {ls : List (LineSpec φ)} {k m m' : Nat} (h : OnLine ls k m) (h' : OnLine ls k m') :
    m = m' := by
  rcases Nat.lt_trichotomy m m' with h1 | h1 | h1
  · have := allRuns_take_mono ls (i := m + 1) (j := m') (by omega)
    have := h.2; have := h'.1; omega
  · exact h1
  · have := allRuns_take_mono ls (i := m' + 1) (j := m) (by omega)
    have := h'.2; have := h.1; omega

end RichText
