import Verif.Proof.CursorRun
import Verif.Props.Layout
/-!
C22 and C23: from cursor positions to runs and lines, Home and End.
-/
namespace RichText
variable {φ : Type _}

/-- The position lies in the run, its separator included. -/
def RunSpec.Has (r : RunSpec φ) (c : Nat) : Prop := r.charStart ≤ c ∧ c ≤ r.charEnd + r.charEndOffset

/-- Run number `k` of the text is a run of line number `m`. -/
def RunOfLine (ls : List (LineSpec φ)) (k m : Nat) : Prop :=
  ∃ l j, ls[m]? = some l ∧ j < l.runs.length ∧ k = (allRuns (ls.take m)).length + j

theorem onLine_iff {ls : List (LineSpec φ)} {k m : Nat} (hm : m < ls.length) :
    OnLine ls k m ↔ RunOfLine ls k m := by
  have hl := List.getElem?_eq_getElem hm
  unfold OnLine RunOfLine
  rw [allRuns_take_succ hl, List.length_append]
  constructor
  · rintro ⟨h1, h2⟩
    exact ⟨_, k - (allRuns (ls.take m)).length, hl, by omega, by omega⟩
  · rintro ⟨l, j, h1, h2, h3⟩
    rw [hl] at h1; cases h1
    omega

theorem allRuns_pos {ls : List (LineSpec φ)} (hne : ∀ l ∈ ls, l.runs ≠ []) (h : ls ≠ []) :
    0 < (allRuns ls).length := by
  obtain ⟨l, t, rfl⟩ := List.exists_cons_of_ne_nil h
  have := List.length_pos_iff.2 (hne l (by simp))
  simp [allRuns]
  omega

open Classical in
theorem runContaining_spec {L : Layout φ} {ls : List (LineSpec φ)} {y : Rat} (h : Stores L ls [] y)
    (hne : ∀ l ∈ ls, l.runs ≠ []) (hls : ls ≠ []) (c : Nat) (a : Affinity) :
    ∃ k m, L.runContaining c a = some (k, m) ∧ 0 ≤ k ∧ OnLine ls k m ∧ m < ls.length ∧
      k < (allRuns ls).length ∧
      ((∃ r, (allRuns ls)[k]? = some r ∧ Claims (allRuns ls) k r (decide (EndsLine ls k)) c a) ∨
        (k + 1 = (allRuns ls).length ∧
          ∀ j r, 0 ≤ j → (allRuns ls)[j]? = some r →
            ¬ Claims (allRuns ls) j r (decide (EndsLine ls j)) c a)) ∧
      (∀ j r, 0 ≤ j → j < k → (allRuns ls)[j]? = some r →
        ¬ Claims (allRuns ls) j r (decide (EndsLine ls j)) c a) :=
  runContainingFrom_spec h hne c a _ 0 0 rfl (allRuns_pos hne hls) (by simp [allRuns]) (Nat.zero_le _)
    (List.length_pos_iff.2 hls)

/-! ### C22 -/

/-- C22 is false as stated: a right-to-left line made of two runs (say, with a
change of font in the middle), `[5, 10)` at the left and `[0, 5)` at the right.
At the end of the text the cursor resolves to the run `[0, 5)`. -/
theorem C22_rtl_violated : ∃ (L : Layout Nat) (ls : List (LineSpec Nat)), Stores L ls [] 0 ∧
    (allRuns ls).map (fun r => (r.charStart, r.charEnd, r.charEndOffset, r.rtl)) =
      [(5, 10, 0, true), (0, 5, 0, true)] ∧
    L.runContaining 10 .default = some (1, 0) ∧ L.runContaining 10 .opposite = some (1, 0) := by
  have h0 : Draft.steps {} [.run 0 [] 4 0 5 10 true, .run 1 [] 8 0 0 5 true, .line 10 8] =
      some (⟨[⟨[⟨0, [], 4, 0, 5, 10, 0, true⟩, ⟨1, [], 8, 0, 0, 5, 0, true⟩], 10, 8⟩], [], 0⟩ : Draft Nat) := rfl
  obtain ⟨L, hL, hs⟩ := C19_stores _ _ h0
  refine ⟨L, _, hs, rfl, ?_⟩
  have e := Option.some.inj hL
  rw [← e]
  constructor <;> decide +kernel

/-- C22 is false as stated, within a text too: a right-to-left paragraph
`[0, 6)` with a separator, followed by left-to-right paragraphs.  The start of
the second paragraph resolves to the last run of the text. -/
theorem C22_direction_violated : ∃ (L : Layout Nat) (ls : List (LineSpec Nat)), Stores L ls [] 0 ∧
    (allRuns ls).map (fun r => (r.charStart, r.charEnd, r.charEndOffset, r.rtl)) =
      [(0, 6, 1, true), (7, 10, 1, false), (11, 15, 0, false)] ∧
    L.runContaining 7 .default = some (2, 2) := by
  have h0 : Draft.steps {} [.run 0 [] 4 0 0 6 true, .line 10 8, .setOffset 0 1, .run 0 [] 8 0 7 10 false, .line 10 8,
      .setOffset 1 1, .run 0 [] 8 0 11 15 false, .line 10 8] =
      some (⟨[⟨[⟨0, [], 4, 0, 0, 6, 1, true⟩], 10, 8⟩, ⟨[⟨0, [], 8, 0, 7, 10, 1, false⟩], 10, 8⟩,
        ⟨[⟨0, [], 8, 0, 11, 15, 0, false⟩], 10, 8⟩], [], 0⟩ : Draft Nat) := rfl
  obtain ⟨L, hL, hs⟩ := C19_stores _ _ h0
  refine ⟨L, _, hs, rfl, ?_⟩
  have e := Option.some.inj hL
  rw [← e]
  decide +kernel

/-- C22, second half, without restriction: some run of the text is returned and
the line number is the line of that run. -/
theorem C22_line_number {L : Layout φ} {ls : List (LineSpec φ)} {y : Rat} (h : Stores L ls [] y)
    (hne : ∀ l ∈ ls, l.runs ≠ []) (hls : ls ≠ []) (c : Nat) (a : Affinity) :
    ∃ k m, L.runContaining c a = some (k, m) ∧ k < (allRuns ls).length ∧ RunOfLine ls k m := by
  obtain ⟨k, m, h1, _, h3, h4, h5, _⟩ := runContaining_spec h hne hls c a
  exact ⟨k, m, h1, h5, (onLine_iff h4).1 h3⟩

/-- C22 (partial: positions strictly inside a run).  In every layout, whatever
the directions. -/
theorem C22_inside_partial {L : Layout φ} {ls : List (LineSpec φ)} {y : Rat} (h : Stores L ls [] y)
    (hne : ∀ l ∈ ls, l.runs ≠ []) (c : Nat) (a : Affinity)
    (hin : ∃ r ∈ allRuns ls, r.charStart < c ∧ c < r.charEnd + r.charEndOffset) :
    ∃ k m r, L.runContaining c a = some (k, m) ∧ (allRuns ls)[k]? = some r ∧ r.Has c ∧ RunOfLine ls k m := by
  obtain ⟨s, hs, h1, h2⟩ := hin
  have hls : ls ≠ [] := by rintro rfl; simp [allRuns] at hs
  obtain ⟨k, m, e1, _, e3, e4, e5, e6, _⟩ := runContaining_spec h hne hls c a
  rcases e6 with ⟨r, hr, hc⟩ | ⟨_, hno⟩
  · exact ⟨k, m, r, e1, hr, ⟨hc.1, hc.2.1⟩, (onLine_iff e4).1 e3⟩
  · obtain ⟨j, hj⟩ := List.mem_iff_getElem?.1 hs
    exfalso
    refine hno j s (Nat.zero_le _) hj ⟨by omega, by unfold RunSpec.stop; omega, ?_, ?_⟩
    · rintro ⟨h3, _⟩; omega
    · rintro ⟨h3, _⟩; unfold RunSpec.stop at h3; omega

/-- The runs follow each other in logical order in the vector. -/
def Contiguous (rs : List (RunSpec φ)) : Prop :=
  ∀ i r s, rs[i]? = some r → rs[i + 1]? = some s → s.charStart = r.charEnd + r.charEndOffset

/-- The direction does not change from the end of a line to the next line. -/
def SameAcrossLines (ls : List (LineSpec φ)) : Prop :=
  ∀ i r s, EndsLine ls i → (allRuns ls)[i]? = some r → (allRuns ls)[i + 1]? = some s → r.rtl = s.rtl

open Classical in
/-- At a boundary of contiguous runs at most one of them gives the position
away. -/
theorem boundary_one {ls : List (LineSpec φ)} (hdir : SameAcrossLines ls) {i : Nat} {r s : RunSpec φ}
    (hr : (allRuns ls)[i]? = some r) (hs : (allRuns ls)[i + 1]? = some s) (a : Affinity)
    (hn : usesNext (allRuns ls)[i + 1]? r (decide (EndsLine ls i)) a = true) :
    usesPrev (prevRun (allRuns ls) (i + 1)) s a = false := by
  unfold usesNext at hn
  unfold usesPrev prevRun
  rw [hs, Option.any_some] at hn
  rw [if_neg (by omega), Nat.add_sub_cancel, hr, Option.any_some]
  unfold Layout.preferPrevRun at *
  by_cases he : EndsLine ls i
  · have := hdir i r s he hr hs
    cases h1 : r.rtl <;> cases h2 : s.rtl <;> simp_all
  · rw [decide_eq_false he] at hn
    cases h1 : r.rtl <;> cases h2 : s.rtl <;> cases a <;> simp_all

open Classical in
/-- From a run that contains the position and does not give its start away the
search ends in a run that contains the position. -/
theorem claims_from {ls : List (LineSpec φ)} (hcont : Contiguous (allRuns ls)) (hdir : SameAcrossLines ls)
    (c : Nat) (a : Affinity) (hstop : ∀ r ∈ allRuns ls, r.charStart ≤ r.charEnd + r.charEndOffset) (n : Nat) :
    ∀ i r, (allRuns ls).length - i = n → (allRuns ls)[i]? = some r → r.Has c →
      ¬ (c = r.charStart ∧ usesPrev (prevRun (allRuns ls) i) r a = true) →
      ∃ j s, i ≤ j ∧ (allRuns ls)[j]? = some s ∧ Claims (allRuns ls) j s (decide (EndsLine ls j)) c a := by
  induction n with
  | zero =>
    intro i r hn hr
    rw [List.getElem?_eq_none (by omega)] at hr; cases hr
  | succ n ih =>
    intro i r hn hr hh hp
    by_cases hc : c = r.stop ∧ usesNext (allRuns ls)[i + 1]? r (decide (EndsLine ls i)) a = true
    · obtain ⟨hc1, hc2⟩ := hc
      cases hs : (allRuns ls)[i + 1]? with
      | none => rw [hs] at hc2; simp [usesNext] at hc2
      | some s =>
        have h1 := hcont i r s hr hs
        have h2 := hstop s (List.mem_of_getElem? hs)
        unfold RunSpec.stop at hc1
        obtain ⟨j, t, h3, h4⟩ := ih (i + 1) s (by omega) hs ⟨by omega, by omega⟩ (by
          rintro ⟨_, h4⟩
          rw [boundary_one hdir hr hs a hc2] at h4
          cases h4)
        exact ⟨j, t, by omega, h4⟩
    · exact ⟨i, r, Nat.le_refl _, hr, hh.1, hh.2, hp, hc⟩

theorem getElem?_lt {α : Type _} {l : List α} {i : Nat} {x : α} (h : l[i]? = some x) : i < l.length := by
  rcases Nat.lt_or_ge i l.length with h1 | h1
  · exact h1
  · rw [List.getElem?_eq_none h1] at h; cases h

/-- the runs up to one whose end is reached -/
theorem least_reaching {rs : List (RunSpec φ)} {c : Nat} (hex : ∃ (i : Nat) (r : RunSpec φ), rs[i]? = some r ∧ c ≤ r.charEnd + r.charEndOffset) :
    ∃ (i : Nat) (r : RunSpec φ), rs[i]? = some r ∧ c ≤ r.charEnd + r.charEndOffset ∧
      ∀ (j : Nat) (s : RunSpec φ), j < i → rs[j]? = some s → s.charEnd + s.charEndOffset < c := by
  induction rs with
  | nil => obtain ⟨i, r, h, _⟩ := hex; simp at h
  | cons q t ih =>
    by_cases hq : c ≤ q.charEnd + q.charEndOffset
    · exact ⟨0, q, rfl, hq, fun j s hj => by omega⟩
    · obtain ⟨i, r, h1, h2⟩ := hex
      cases i with
      | zero => simp at h1; subst h1; exact absurd h2 hq
      | succ i =>
        obtain ⟨k, s, h3, h4, h5⟩ := ih ⟨i, r, by simpa using h1, h2⟩
        refine ⟨k + 1, s, by simpa using h3, h4, ?_⟩
        intro j u hj hu
        cases j with
        | zero => simp at hu; subst hu; omega
        | succ j => exact h5 j u (by omega) (by simpa using hu)

/-- C22 (partial: runs stored in logical order, no change of direction at a line
end).  Left-to-right text with embedded right-to-left words satisfies this, as
does right-to-left text with one run per line.  Every position from the start of
the first to the end of the last run resolves to a run that contains it. -/
theorem C22_contiguous_partial {L : Layout φ} {ls : List (LineSpec φ)} {y : Rat} (h : Stores L ls [] y)
    (hne : ∀ l ∈ ls, l.runs ≠ []) (hcont : Contiguous (allRuns ls)) (hdir : SameAcrossLines ls)
    (hstop : ∀ r ∈ allRuns ls, r.charStart ≤ r.charEnd + r.charEndOffset) (c : Nat) (a : Affinity)
    (hlo : ∃ r, (allRuns ls)[0]? = some r ∧ r.charStart ≤ c)
    (hhi : ∃ r ∈ allRuns ls, c ≤ r.charEnd + r.charEndOffset) :
    ∃ k m r, L.runContaining c a = some (k, m) ∧ (allRuns ls)[k]? = some r ∧ r.Has c ∧ RunOfLine ls k m := by
  classical
  obtain ⟨q, hq, hqc⟩ := hlo
  have hls : ls ≠ [] := by rintro rfl; simp [allRuns] at hq
  obtain ⟨k, m, e1, _, e3, e4, e5, e6, _⟩ := runContaining_spec h hne hls c a
  rcases e6 with ⟨r, hr, hc⟩ | ⟨_, hno⟩
  · exact ⟨k, m, r, e1, hr, ⟨hc.1, hc.2.1⟩, (onLine_iff e4).1 e3⟩
  · exfalso
    obtain ⟨s, hs, hsc⟩ := hhi
    obtain ⟨j, hj⟩ := List.mem_iff_getElem?.1 hs
    obtain ⟨i, r, h1, h2, h3⟩ := least_reaching ⟨j, s, hj, hsc⟩
    have : r.charStart ≤ c ∧ ¬ (c = r.charStart ∧ usesPrev (prevRun (allRuns ls) i) r a = true) := by
      cases i with
      | zero =>
        rw [hq] at h1; cases h1
        refine ⟨hqc, ?_⟩
        rintro ⟨_, h4⟩
        simp [usesPrev, prevRun] at h4
      | succ i =>
        have hi := getElem?_lt h1
        have hp := List.getElem?_eq_getElem (show i < (allRuns ls).length by omega)
        have h4 := hcont i _ r hp h1
        have h5 := h3 i _ (by omega) hp
        exact ⟨by omega, by rintro ⟨h6, _⟩; omega⟩
    obtain ⟨k', s', _, h6, h7⟩ := claims_from hcont hdir c a hstop _ i r rfl h1 ⟨this.1, h2⟩ this.2
    exact hno k' s' (Nat.zero_le _) h6 h7

/-- Example: a line `ab`, a right-to-left word, `cd` and a soft break, a second
line. -/
def sampleText : List (LayoutOp Nat) :=
  [.run 0 [] 4 0 0 5 false, .run 0 [] 8 0 5 10 true, .run 0 [] 9 0 10 15 false, .line 10 8,
   .run 0 [] 8 0 15 20 false, .line 10 8]

def sampleLines : List (LineSpec Nat) :=
  [⟨[⟨0, [], 4, 0, 0, 5, 0, false⟩, ⟨0, [], 8, 0, 5, 10, 0, true⟩, ⟨0, [], 9, 0, 10, 15, 0, false⟩], 10, 8⟩,
    ⟨[⟨0, [], 8, 0, 15, 20, 0, false⟩], 10, 8⟩]

theorem sampleText_draft : Draft.steps {} sampleText = some (⟨sampleLines, [], 0⟩ : Draft Nat) := rfl

example : ∃ L, execLayout {} sampleText = some L ∧ L.runContaining 10 .default = some (1, 0) ∧
    L.runContaining 10 .opposite = some (2, 0) ∧ L.runContaining 15 .opposite = some (2, 0) ∧
    L.runContaining 15 .default = some (3, 1) := by
  refine ⟨_, rfl, ?_, ?_, ?_, ?_⟩ <;> decide +kernel

example : Contiguous (allRuns sampleLines) ∧ SameAcrossLines sampleLines ∧
    (∀ r ∈ allRuns sampleLines, r.charStart ≤ r.charEnd + r.charEndOffset) := by
  refine ⟨?_, ?_, by decide⟩
  · intro i r s h1 h2
    have := getElem?_lt h2
    have : i < 3 := by simp [allRuns, sampleLines] at this; omega
    rcases i with _ | _ | _ | i <;> simp [allRuns, sampleLines] at h1 h2 <;> (try subst h1) <;>
      (try subst h2) <;> simp_all
  · rintro i r s ⟨h0, m, hm, h3⟩ h1 h2
    have : m < 2 := hm
    rcases m with _ | _ | m
    · have : i = 2 := by simp [allRuns, sampleLines] at h3; omega
      subst this
      simp [allRuns, sampleLines] at h1 h2
      subst h1 h2
      rfl
    · simp [allRuns, sampleLines] at h3 h0
      omega
    · omega

/-! ### C23 -/

/-- Run `k` of the text, if it is in the given line, as a run of that line. -/
theorem runOfLine_mem {ls : List (LineSpec φ)} {k m : Nat} {l : LineSpec φ} (hl : ls[m]? = some l)
    (hk : (allRuns (ls.take m)).length ≤ k) (hk2 : k < (allRuns (ls.take (m + 1))).length) :
    ∃ r, (allRuns ls)[k]? = some r ∧ l.runs[k - (allRuns (ls.take m)).length]? = some r := by
  rw [allRuns_take_succ hl, List.length_append] at hk2
  have e : allRuns ls = allRuns (ls.take (m + 1)) ++ allRuns (ls.drop (m + 1)) := by
    unfold allRuns
    rw [← List.flatMap_append, List.take_append_drop]
  have hlt : k - (allRuns (ls.take m)).length < l.runs.length := by omega
  refine ⟨_, ?_, List.getElem?_eq_getElem hlt⟩
  rw [e, allRuns_take_succ hl, List.append_assoc, List.getElem?_append_right hk,
    List.getElem?_append_left hlt, List.getElem?_eq_getElem hlt]

theorem lowestRun_spec {L : Layout φ} {ls : List (LineSpec φ)} {y : Rat} (h : Stores L ls [] y) (stop n : Nat)
    (hstop : stop ≤ (allRuns ls).length) : ∀ best i, stop - i = n → best < i → i ≤ stop →
    ∃ k r, L.lowestRun best i stop = some k ∧ (k = best ∨ i ≤ k) ∧ k < stop ∧ (allRuns ls)[k]? = some r ∧
      ∀ j s, j = best ∨ (i ≤ j ∧ j < stop) → (allRuns ls)[j]? = some s → r.charEnd ≤ s.charEnd := by
  induction n with
  | zero =>
    intro best i hn hb hi
    refine ⟨best, _, ?_, .inl rfl, by omega, List.getElem?_eq_getElem (by omega), ?_⟩
    · rw [Layout.lowestRun, if_neg (by omega)]
    · rintro j s (rfl | hj) hs
      · rw [List.getElem?_eq_getElem (by omega)] at hs; cases hs; exact Nat.le_refl _
      · omega
  | succ n ih =>
    intro best i hn hb hi
    have e1 := List.getElem?_eq_getElem (show i < (allRuns ls).length by omega)
    have e2 := List.getElem?_eq_getElem (show best < (allRuns ls).length by omega)
    rw [Layout.lowestRun, if_pos (by omega), h.runs i _ (by rw [List.append_nil]; exact e1),
      h.runs best _ (by rw [List.append_nil]; exact e2)]
    simp only
    by_cases hc : (allRuns ls)[i].charEnd < (allRuns ls)[best].charEnd
    · rw [if_pos hc]
      obtain ⟨k, r, h1, h2, h3, h4, h5⟩ := ih i (i + 1) (by omega) (by omega) (by omega)
      refine ⟨k, r, h1, by omega, h3, h4, ?_⟩
      rintro j s (rfl | hj) hs
      · rw [e2] at hs; cases hs
        have := h5 i _ (.inl rfl) e1
        omega
      · by_cases hji : j = i
        · exact h5 j s (.inl hji) hs
        · exact h5 j s (.inr (by omega)) hs
    · rw [if_neg hc]
      obtain ⟨k, r, h1, h2, h3, h4, h5⟩ := ih best (i + 1) (by omega) (by omega) (by omega)
      refine ⟨k, r, h1, by omega, h3, h4, ?_⟩
      rintro j s (rfl | hj) hs
      · exact h5 j s (.inl rfl) hs
      · by_cases hji : j = i
        · subst hji
          rw [e1] at hs; cases hs
          have := h5 best _ (.inl rfl) e2
          omega
        · exact h5 j s (.inr (by omega)) hs

theorem highestRun_spec {L : Layout φ} {ls : List (LineSpec φ)} {y : Rat} (h : Stores L ls [] y) (stop n : Nat)
    (hstop : stop ≤ (allRuns ls).length) : ∀ best i, stop - i = n → best < i → i ≤ stop →
    ∃ k r, L.highestRun best i stop = some k ∧ (k = best ∨ i ≤ k) ∧ k < stop ∧ (allRuns ls)[k]? = some r ∧
      ∀ j s, j = best ∨ (i ≤ j ∧ j < stop) → (allRuns ls)[j]? = some s → s.charEnd ≤ r.charEnd := by
  induction n with
  | zero =>
    intro best i hn hb hi
    refine ⟨best, _, ?_, .inl rfl, by omega, List.getElem?_eq_getElem (by omega), ?_⟩
    · rw [Layout.highestRun, if_neg (by omega)]
    · rintro j s (rfl | hj) hs
      · rw [List.getElem?_eq_getElem (by omega)] at hs; cases hs; exact Nat.le_refl _
      · omega
  | succ n ih =>
    intro best i hn hb hi
    have e1 := List.getElem?_eq_getElem (show i < (allRuns ls).length by omega)
    have e2 := List.getElem?_eq_getElem (show best < (allRuns ls).length by omega)
    rw [Layout.highestRun, if_pos (by omega), h.runs i _ (by rw [List.append_nil]; exact e1),
      h.runs best _ (by rw [List.append_nil]; exact e2)]
    simp only
    by_cases hc : (allRuns ls)[best].charEnd < (allRuns ls)[i].charEnd
    · rw [if_pos hc]
      obtain ⟨k, r, h1, h2, h3, h4, h5⟩ := ih i (i + 1) (by omega) (by omega) (by omega)
      refine ⟨k, r, h1, by omega, h3, h4, ?_⟩
      rintro j s (rfl | hj) hs
      · rw [e2] at hs; cases hs
        have := h5 i _ (.inl rfl) e1
        omega
      · by_cases hji : j = i
        · exact h5 j s (.inl hji) hs
        · exact h5 j s (.inr (by omega)) hs
    · rw [if_neg hc]
      obtain ⟨k, r, h1, h2, h3, h4, h5⟩ := ih best (i + 1) (by omega) (by omega) (by omega)
      refine ⟨k, r, h1, by omega, h3, h4, ?_⟩
      rintro j s (rfl | hj) hs
      · exact h5 j s (.inl rfl) hs
      · by_cases hji : j = i
        · subst hji
          rw [e1] at hs; cases hs
          have := h5 best _ (.inl rfl) e2
          omega
        · exact h5 j s (.inr (by omega)) hs

theorem firstRunIndex_eq {L : Layout φ} {ls : List (LineSpec φ)} {rs : List (RunSpec φ)} {y : Rat}
    (h : Stores L ls rs y) {m : Nat} (hm : m < ls.length) :
    L.firstRunIndex m = some (allRuns (ls.take m)).length := by
  unfold Layout.firstRunIndex
  cases m with
  | zero => simp [allRuns]
  | succ m =>
    rw [if_neg (by omega), Nat.add_sub_cancel, h.lines m _ (List.getElem?_eq_getElem (by omega))]
    rfl

/-- The run found by `get_line_start_position`. -/
theorem lineStart_spec {L : Layout φ} {ls : List (LineSpec φ)} {y : Rat} (h : Stores L ls [] y)
    (hne : ∀ l ∈ ls, l.runs ≠ []) {m : Nat} {l : LineSpec φ} (hl : ls[m]? = some l) :
    ∃ k r, OnLine ls k m ∧ (allRuns ls)[k]? = some r ∧ r ∈ l.runs ∧
      L.lineStart m = some (if r.rtl then r.charEnd else r.charStart, .default) ∧
      (∀ s ∈ l.runs, r.charEnd ≤ s.charEnd) := by
  have hm := getElem?_lt hl
  have h1 := allRuns_take_succ hl
  have h2 := List.length_pos_iff.2 (hne l (List.mem_of_getElem? hl))
  have h3 := allRuns_take_le ls (m + 1)
  have h4 : (allRuns (ls.take (m + 1))).length = (allRuns (ls.take m)).length + l.runs.length := by
    rw [h1, List.length_append]
  obtain ⟨k, r, e1, e2, e3, e4, e5⟩ := lowestRun_spec h (allRuns (ls.take (m + 1))).length _ h3
    (allRuns (ls.take m)).length ((allRuns (ls.take m)).length + 1) rfl (by omega) (by omega)
  have hon : OnLine ls k m := ⟨by omega, e3⟩
  obtain ⟨r', f1, f2⟩ := runOfLine_mem hl hon.1 hon.2
  rw [e4] at f1; cases f1
  refine ⟨k, r, hon, e4, List.mem_of_getElem? f2, ?_, ?_⟩
  · unfold Layout.lineStart
    rw [if_neg (by
      have := h.lineCount
      cases hL : L.lines with
      | nil => rw [hL] at this; simp at this; omega
      | cons _ _ => simp), firstRunIndex_eq h hm, h.lines m l hl]
    simp only
    rw [e1]
    simp only
    rw [h.runs k r (by rw [List.append_nil]; exact e4)]
    rfl
  · intro s hs
    obtain ⟨j, hj⟩ := List.mem_iff_getElem?.1 hs
    have hjl := getElem?_lt hj
    obtain ⟨s', g1, g2⟩ := runOfLine_mem (k := (allRuns (ls.take m)).length + j) hl (by omega) (by omega)
    rw [Nat.add_sub_cancel_left, hj] at g2; cases g2
    exact e5 _ s (by omega) g1

/-- The run found by `get_line_end_position`. -/
theorem lineEnd_spec {L : Layout φ} {ls : List (LineSpec φ)} {y : Rat} (h : Stores L ls [] y)
    (hne : ∀ l ∈ ls, l.runs ≠ []) {m : Nat} {l : LineSpec φ} (hl : ls[m]? = some l) :
    ∃ k r, OnLine ls k m ∧ (allRuns ls)[k]? = some r ∧ r ∈ l.runs ∧
      L.lineEnd m = some (if r.rtl then r.charStart else r.charEnd,
        if k = (allRuns (ls.take (m + 1))).length - 1 ∧ r.charEndOffset = 0 then .opposite else .default) ∧
      (∀ s ∈ l.runs, s.charEnd ≤ r.charEnd) := by
  have hm := getElem?_lt hl
  have h1 := allRuns_take_succ hl
  have h2 := List.length_pos_iff.2 (hne l (List.mem_of_getElem? hl))
  have h3 := allRuns_take_le ls (m + 1)
  have h4 : (allRuns (ls.take (m + 1))).length = (allRuns (ls.take m)).length + l.runs.length := by
    rw [h1, List.length_append]
  obtain ⟨k, r, e1, e2, e3, e4, e5⟩ := highestRun_spec h (allRuns (ls.take (m + 1))).length _ h3
    (allRuns (ls.take m)).length ((allRuns (ls.take m)).length + 1) rfl (by omega) (by omega)
  have hon : OnLine ls k m := ⟨by omega, e3⟩
  obtain ⟨r', f1, f2⟩ := runOfLine_mem hl hon.1 hon.2
  rw [e4] at f1; cases f1
  refine ⟨k, r, hon, e4, List.mem_of_getElem? f2, ?_, ?_⟩
  · unfold Layout.lineEnd
    rw [if_neg (by
      have := h.lineCount
      cases hL : L.lines with
      | nil => rw [hL] at this; simp at this; omega
      | cons _ _ => simp), firstRunIndex_eq h hm, h.lines m l hl]
    simp only
    rw [e1]
    simp only
    rw [h.runs k r (by rw [List.append_nil]; exact e4)]
    rfl
  · intro s hs
    obtain ⟨j, hj⟩ := List.mem_iff_getElem?.1 hs
    have hjl := getElem?_lt hj
    obtain ⟨s', g1, g2⟩ := runOfLine_mem (k := (allRuns (ls.take m)).length + j) hl (by omega) (by omega)
    rw [Nat.add_sub_cancel_left, hj] at g2; cases g2
    exact e5 _ s (by omega) g1

/-- C23 is false as stated: two soft-wrapped right-to-left lines `[0, 6)` and
`[6, 12)`.  Home on the first line is position 6 with default affinity, which
resolves to the second line. -/
theorem C23_rtl_home_violated : ∃ (L : Layout Nat) (ls : List (LineSpec Nat)), Stores L ls [] 0 ∧
    ls.map (fun l => l.runs.map fun r => (r.charStart, r.charEnd, r.charEndOffset, r.rtl)) =
      [[(0, 6, 0, true)], [(6, 12, 0, true)]] ∧
    L.lineStart 0 = some (6, .default) ∧ L.runContaining 6 .default = some (1, 1) := by
  have h0 : Draft.steps {} [.run 0 [] 4 0 0 6 true, .line 10 8, .run 0 [] 8 0 6 12 true, .line 10 8] =
      some (⟨[⟨[⟨0, [], 4, 0, 0, 6, 0, true⟩], 10, 8⟩, ⟨[⟨0, [], 8, 0, 6, 12, 0, true⟩], 10, 8⟩], [], 0⟩ :
        Draft Nat) := rfl
  obtain ⟨L, hL, hs⟩ := C19_stores _ _ h0
  refine ⟨L, _, hs, rfl, ?_⟩
  have e := Option.some.inj hL
  rw [← e]
  constructor <;> decide +kernel

/-- C23, first claim, without restriction: the positions are the start or the
end of a run of that line. -/
theorem C23_in_line {L : Layout φ} {ls : List (LineSpec φ)} {y : Rat} (h : Stores L ls [] y)
    (hne : ∀ l ∈ ls, l.runs ≠ []) (m : Nat) (l : LineSpec φ) (hl : ls[m]? = some l) :
    (∃ p a, L.lineStart m = some (p, a) ∧ ∃ r ∈ l.runs, p = r.charStart ∨ p = r.charEnd) ∧
    (∃ p a, L.lineEnd m = some (p, a) ∧ ∃ r ∈ l.runs, p = r.charStart ∨ p = r.charEnd) := by
  obtain ⟨_, r, _, _, h1, h2, _⟩ := lineStart_spec h hne hl
  obtain ⟨_, s, _, _, g1, g2, _⟩ := lineEnd_spec h hne hl
  refine ⟨⟨_, _, h2, r, h1, ?_⟩, ⟨_, _, g2, s, g1, ?_⟩⟩
  · split
    · exact .inr rfl
    · exact .inl rfl
  · split
    · exact .inl rfl
    · exact .inr rfl

/-- C23, third claim, without further restriction: in a line of left-to-right
runs with disjoint non-empty ranges (or a single run) the positions are the
lowest start and the highest end. -/
theorem C23_ltr_bounds {L : Layout φ} {ls : List (LineSpec φ)} {y : Rat} (h : Stores L ls [] y)
    (hne : ∀ l ∈ ls, l.runs ≠ []) (m : Nat) (l : LineSpec φ) (hl : ls[m]? = some l)
    (hltr : ∀ r ∈ l.runs, r.rtl = false)
    (hdis : ∀ r ∈ l.runs, ∀ s ∈ l.runs, r = s ∨ r.charEnd ≤ s.charStart ∨ s.charEnd ≤ r.charStart)
    (hpos : (∃ r, l.runs = [r]) ∨ ∀ r ∈ l.runs, r.charStart < r.charEnd) :
    (∃ p a, L.lineStart m = some (p, a) ∧ (∀ r ∈ l.runs, p ≤ r.charStart) ∧ ∃ r ∈ l.runs, p = r.charStart) ∧
    (∃ p a, L.lineEnd m = some (p, a) ∧ (∀ r ∈ l.runs, r.charEnd ≤ p) ∧ ∃ r ∈ l.runs, p = r.charEnd) := by
  obtain ⟨_, r, _, _, h1, h2, h3⟩ := lineStart_spec h hne hl
  obtain ⟨_, s, _, _, g1, g2, g3⟩ := lineEnd_spec h hne hl
  rw [hltr r h1] at h2
  rw [hltr s g1] at g2
  simp only [Bool.false_eq_true, if_false] at h2 g2
  refine ⟨⟨_, _, h2, ?_, r, h1, rfl⟩, ⟨_, _, g2, g3, s, g1, rfl⟩⟩
  intro t ht
  rcases hpos with ⟨q, hq⟩ | hpos
  · rw [hq] at h1 ht
    simp at h1 ht
    rw [h1, ht]
  · have e1 := hpos r h1
    have e2 := hpos t ht
    have e3 := h3 t ht
    rcases hdis r h1 t ht with e4 | e4 | e4
    · rw [e4]
    · omega
    · omega

/-- Left-to-right text as `LayoutBuilder` stores it: runs in logical order,
separators only where a line has content before or is empty, no run without
characters except the empty line after a final separator. -/
structure LtrText (ls : List (LineSpec φ)) : Prop where
  /-- left to right -/
  ltr : ∀ r ∈ allRuns ls, r.rtl = false
  /-- in logical order -/
  cont : Contiguous (allRuns ls)
  /-- a run is not reversed -/
  le : ∀ r ∈ allRuns ls, r.charStart ≤ r.charEnd
  /-- every run but the last has a character or a separator -/
  pos : ∀ i r, (allRuns ls)[i]? = some r → i + 1 < (allRuns ls).length →
    r.charStart < r.charEnd + r.charEndOffset
  /-- an empty last run follows a separator -/
  last : ∀ i r s, (allRuns ls)[i]? = some r → (allRuns ls)[i + 1]? = some s →
    s.charStart = s.charEnd + s.charEndOffset → 0 < r.charEndOffset
  /-- runs that share a line have characters -/
  shared : ∀ l ∈ ls, ∀ r ∈ l.runs, r.charStart < r.charEnd ∨ l.runs = [r]

theorem contiguous_le {rs : List (RunSpec φ)} (hc : Contiguous rs)
    (hle : ∀ r ∈ rs, r.charStart ≤ r.charEnd) {i j : Nat} (hij : i < j) {r s : RunSpec φ}
    (hr : rs[i]? = some r) (hs : rs[j]? = some s) : r.charEnd + r.charEndOffset ≤ s.charStart := by
  induction j generalizing s with
  | zero => omega
  | succ j ih =>
    have hp := List.getElem?_eq_getElem (show j < rs.length by have := getElem?_lt hs; omega)
    have h1 := hc j _ s hp hs
    rcases Nat.lt_or_ge i j with h2 | h2
    · have h3 := ih h2 hp
      have h4 := hle _ (List.mem_of_getElem? hp)
      omega
    · have : i = j := by omega
      subst this
      rw [hr] at hp; cases hp
      omega

open Classical in
/-- In left-to-right text a run claims the positions from its start to before
its end, and its end unless the next run takes it. -/
theorem ltr_claims {ls : List (LineSpec φ)} (ht : LtrText ls) {i : Nat} {r : RunSpec φ}
    (hr : (allRuns ls)[i]? = some r) (c : Nat) (a : Affinity) :
    Claims (allRuns ls) i r (decide (EndsLine ls i)) c a ↔
      r.charStart ≤ c ∧ (c < r.charEnd + r.charEndOffset ∨ (c = r.charEnd + r.charEndOffset ∧
        (i + 1 = (allRuns ls).length ∨ (EndsLine ls i ∧ r.charEndOffset = 0 ∧ a = .opposite)))) := by
  have hr0 := ht.ltr r (List.mem_of_getElem? hr)
  have hlt := getElem?_lt hr
  have h1 : usesPrev (prevRun (allRuns ls) i) r a = false := by
    unfold usesPrev prevRun
    cases i with
    | zero => simp
    | succ i =>
      have e := List.getElem?_eq_getElem (show i < (allRuns ls).length by omega)
      rw [if_neg (by omega), Nat.add_sub_cancel, e, Option.any_some]
      have := ht.ltr _ (List.mem_of_getElem? e)
      simp [Layout.preferPrevRun, this, hr0]
  have h2 : usesNext (allRuns ls)[i + 1]? r (decide (EndsLine ls i)) a = true ↔
      i + 1 < (allRuns ls).length ∧ ¬ (EndsLine ls i ∧ r.charEndOffset = 0 ∧ a = .opposite) := by
    unfold usesNext
    cases e : (allRuns ls)[i + 1]? with
    | none =>
      have := List.getElem?_eq_none_iff.1 e
      simp; omega
    | some s =>
      have := ht.ltr _ (List.mem_of_getElem? e)
      have := getElem?_lt e
      simp [Layout.preferPrevRun, *]
      tauto
  unfold Claims RunSpec.stop
  rw [h1, h2]
  by_cases e : i + 1 = (allRuns ls).length
  · simp [e]
    omega
  · have : i + 1 < (allRuns ls).length := by omega
    simp only [this, e, true_and, false_or]
    by_cases q : EndsLine ls i ∧ r.charEndOffset = 0 ∧ a = .opposite
    · simp only [q]; simp; omega
    · simp only [q]; simp; omega

open Classical in
/-- If run `k` claims the position and no run before does, it is the result. -/
theorem resolves {L : Layout φ} {ls : List (LineSpec φ)} {y : Rat} (h : Stores L ls [] y)
    (hne : ∀ l ∈ ls, l.runs ≠ []) {c : Nat} {a : Affinity} {k m : Nat} {r : RunSpec φ} (hon : OnLine ls k m)
    (hm : m < ls.length)
    (hr : (allRuns ls)[k]? = some r) (hc : Claims (allRuns ls) k r (decide (EndsLine ls k)) c a)
    (hbefore : ∀ j s, j < k → (allRuns ls)[j]? = some s →
      ¬ Claims (allRuns ls) j s (decide (EndsLine ls j)) c a) :
    L.runContaining c a = some (k, m) := by
  have hls : ls ≠ [] := by rintro rfl; simp at hm
  obtain ⟨k', m', e1, _, e3, e4, e5, e6, e7⟩ := runContaining_spec h hne hls c a
  have : k' = k := by
    rcases Nat.lt_trichotomy k' k with h1 | h1 | h1
    · exfalso
      rcases e6 with ⟨s, hs, hcs⟩ | ⟨_, hno⟩
      · exact hbefore k' s h1 hs hcs
      · exact hno k r (Nat.zero_le _) hr hc
    · exact h1
    · exact absurd hc (e7 k r (Nat.zero_le _) h1 hr)
  subst this
  rw [e1, onLine_unique e3 hon]

/-- C23 (partial: left-to-right text).  Home and End resolve to the line they
were asked for. -/
theorem C23_resolve_partial {L : Layout φ} {ls : List (LineSpec φ)} {y : Rat} (h : Stores L ls [] y)
    (hne : ∀ l ∈ ls, l.runs ≠ []) (ht : LtrText ls) (m : Nat) (hm : m < ls.length) :
    (∃ p a k, L.lineStart m = some (p, a) ∧ L.runContaining p a = some (k, m)) ∧
    (∃ p a k, L.lineEnd m = some (p, a) ∧ L.runContaining p a = some (k, m)) := by
  classical
  have hl := List.getElem?_eq_getElem hm
  constructor
  · obtain ⟨k, r, hon, hr, h1, h2, h3⟩ := lineStart_spec h hne hl
    have hrl := ht.ltr r (List.mem_of_getElem? hr)
    rw [hrl] at h2
    refine ⟨_, _, k, h2, resolves h hne hon hm hr ?_ ?_⟩
    · rw [ltr_claims ht hr]
      refine ⟨Nat.le_refl _, ?_⟩
      simp only [Bool.false_eq_true, if_false]
      have e1 := ht.le r (List.mem_of_getElem? hr)
      by_cases e2 : k + 1 = (allRuns ls).length
      · simp only [e2]; simp; omega
      · left
        exact ht.pos k r hr (by have := getElem?_lt hr; omega)
    · intro j s hj hs
      rw [ltr_claims ht hs]
      simp only [Bool.false_eq_true, if_false]
      have := contiguous_le ht.cont ht.le hj hs hr
      have := getElem?_lt hr
      rintro ⟨_, h4 | ⟨_, h4 | ⟨_, _, h4⟩⟩⟩
      · omega
      · omega
      · cases h4
  · obtain ⟨k, r, hon, hr, h1, h2, h3⟩ := lineEnd_spec h hne hl
    have hrl := ht.ltr r (List.mem_of_getElem? hr)
    rw [hrl] at h2
    have hsucc := allRuns_take_succ hl
    have hlen : (allRuns (ls.take (m + 1))).length = (allRuns (ls.take m)).length + ls[m].runs.length := by
      rw [hsucc, List.length_append]
    -- the highest run is the last of the line
    have hlast : k = (allRuns (ls.take (m + 1))).length - 1 := by
      by_contra hc
      have hk2 := hon.2
      have hk1 := hon.1
      obtain ⟨s, f1, f2⟩ := runOfLine_mem (k := (allRuns (ls.take (m + 1))).length - 1) hl (by omega) (by omega)
      have f3 := contiguous_le ht.cont ht.le (show k < (allRuns (ls.take (m + 1))).length - 1 by omega) hr f1
      have f4 := h3 s (List.mem_of_getElem? f2)
      rcases ht.shared _ (List.mem_of_getElem? hl) s (List.mem_of_getElem? f2) with f5 | f5
      · omega
      · rw [f5] at hlen
        simp at hlen
        omega
    have hends : EndsLine ls k ∨ k + 1 = (allRuns ls).length := by
      have := getElem?_lt hr
      by_cases e : k + 1 = (allRuns ls).length
      · exact .inr e
      · have := hon.2
        exact .inl ⟨by omega, m, hm, by omega⟩
    refine ⟨_, _, k, h2, resolves h hne hon hm hr ?_ ?_⟩
    · rw [ltr_claims ht hr]
      simp only [Bool.false_eq_true, if_false]
      refine ⟨ht.le r (List.mem_of_getElem? hr), ?_⟩
      by_cases e0 : r.charEndOffset = 0
      · rw [if_pos ⟨hlast, e0⟩]
        right
        refine ⟨by omega, ?_⟩
        rcases hends with e | e
        · exact .inr ⟨e, e0, rfl⟩
        · exact .inl e
      · left; omega
    · intro j s hj hs
      rw [ltr_claims ht hs]
      simp only [Bool.false_eq_true, if_false]
      have hk := getElem?_lt hr
      have e1 := contiguous_le ht.cont ht.le hj hs hr
      have e2 := ht.le r (List.mem_of_getElem? hr)
      rintro ⟨_, h4 | ⟨h4, h5 | ⟨_, h6, h7⟩⟩⟩
      · omega
      · omega
      · -- run `k` would be empty, directly after a soft break
        have e0 : r.charEndOffset = 0 := by
          by_contra hc
          rw [if_neg (by tauto)] at h7
          cases h7
        have hj1 : j + 1 = k := by
          by_contra hc
          have hq := List.getElem?_eq_getElem (show j + 1 < (allRuns ls).length by omega)
          have e3 := contiguous_le ht.cont ht.le (show j + 1 < k by omega) hq hr
          have e4 := ht.cont j s _ hs hq
          have e5 := ht.pos (j + 1) _ hq (by omega)
          omega
        subst hj1
        have := ht.last j s r hs hr (by omega)
        omega

/-- Example: a soft-wrapped paragraph of three runs, one with a separator, and the
empty line after it. -/
def sampleLtr : List (LineSpec Nat) :=
  [⟨[⟨0, [], 4, 0, 0, 5, 0, false⟩, ⟨1, [], 8, 0, 5, 10, 0, false⟩], 10, 8⟩,
    ⟨[⟨0, [], 8, 0, 10, 14, 1, false⟩], 10, 8⟩, ⟨[.empty 0 15], 10, 8⟩]

theorem sampleLtr_text : LtrText sampleLtr := by
  have e : allRuns sampleLtr = [⟨0, [], 4, 0, 0, 5, 0, false⟩, ⟨1, [], 8, 0, 5, 10, 0, false⟩,
    ⟨0, [], 8, 0, 10, 14, 1, false⟩, .empty 0 15] := rfl
  refine ⟨by decide, ?_, by decide, ?_, ?_, by decide⟩
  · intro i r s h1 h2
    have := getElem?_lt h2
    rw [e] at h1 h2 this
    simp at this
    rcases i with _ | _ | _ | i
    · simp at h1 h2; subst h1 h2; rfl
    · simp at h1 h2; subst h1 h2; rfl
    · simp at h1 h2; subst h1 h2; rfl
    · omega
  · intro i r h1 h2
    rw [e] at h1 h2
    simp at h2
    rcases i with _ | _ | _ | i
    · simp at h1; subst h1; decide
    · simp at h1; subst h1; decide
    · simp at h1; subst h1; decide
    · omega
  · intro i r s h1 h2 h3
    have := getElem?_lt h2
    rw [e] at h1 h2 this
    simp at this
    rcases i with _ | _ | _ | i
    · simp at h1 h2; subst h1 h2; simp at h3
    · simp at h1 h2; subst h1 h2; simp at h3
    · simp at h1 h2; subst h1 h2; decide
    · omega

example : ∃ L, Stores L sampleLtr [] 0 ∧ L.lineEnd 0 = some (10, .opposite) ∧
    L.runContaining 10 .opposite = some (1, 0) ∧ L.lineStart 1 = some (10, .default) ∧
    L.runContaining 10 .default = some (2, 1) ∧ L.lineEnd 1 = some (14, .default) ∧
    L.lineEnd 2 = some (15, .opposite) := by
  have h0 : Draft.steps {} [.run 0 [] 4 0 0 5 false, .run 1 [] 8 0 5 10 false, .line 10 8, .run 0 [] 8 0 10 14 false,
      .setOffset 2 1, .line 10 8, .emptyLine 0 15 10 8] = some (⟨sampleLtr, [], 0⟩ : Draft Nat) := rfl
  obtain ⟨L, hL, hs⟩ := C19_stores _ _ h0
  refine ⟨L, hs, ?_⟩
  have e := Option.some.inj hL
  rw [← e]
  refine ⟨?_, ?_, ?_, ?_, ?_, ?_⟩ <;> decide +kernel

end RichText
