import Verif.Model.Draw
import Verif.Proof.ValueRuns
import Verif.Proof.BoolRuns
import Mathlib.Tactic.ByContra
/-!
The formatting iterator reads the run of the current character.
-/
namespace RichText
open Spec
variable {α : Type _}

/-- The value of index `c`, or of the last run past the end. -/
def Spec.valueOrLast (runs : List (Int × α)) (c : Int) : Option α :=
  (valueAt runs c).or (runs.getLast?.map (·.2))

theorem advanceUp_spec {v : RunView α} {runs : List (Int × α)} (h : v.Shows runs) (c : Nat) (i : Nat)
    (hi : i < runs.length) : ∃ j, advanceUp v c i = some j ∧ i ≤ j ∧ j < runs.length ∧
      (∀ k p, i ≤ k → k < j → runs[k]? = some p → p.1 ≤ (c : Int)) ∧
      (∀ p, j + 1 < runs.length → runs[j]? = some p → (c : Int) < p.1) := by
  induction hn : runs.length - i generalizing i with
  | zero => omega
  | succ n ih =>
    unfold advanceUp
    rw [h.count]
    by_cases h1 : i + 1 < runs.length
    · have hg := List.getElem?_eq_getElem hi
      rw [if_pos h1, h.limit, hg]
      simp only [Option.map_some]
      by_cases h2 : runs[i].1 ≤ (c : Int)
      · rw [if_pos h2]
        obtain ⟨j, e1, e2, e3, e4, e5⟩ := ih (i + 1) h1 (by omega)
        refine ⟨j, e1, by omega, e3, ?_, e5⟩
        intro k p hk hkj hp
        by_cases hki : k = i
        · subst hki; rw [hg] at hp; cases hp; exact h2
        · exact e4 k p (by omega) hkj hp
      · rw [if_neg h2]
        refine ⟨i, rfl, Nat.le_refl _, hi, fun k p _ _ => by omega, ?_⟩
        intro p _ hp
        rw [hg] at hp; cases hp; omega
    · rw [if_neg h1]
      exact ⟨i, rfl, Nat.le_refl _, hi, fun k p _ _ => by omega, fun p h2 => absurd h2 h1⟩

theorem advanceDown_spec {v : RunView α} {runs : List (Int × α)} (h : v.Shows runs) (c : Nat) (j : Nat)
    (hj : j ≤ runs.length) : ∃ r, advanceDown v c j = some r ∧ r ≤ j ∧
      (∀ k p, r ≤ k → k < j → runs[k]? = some p → (c : Int) < p.1) ∧
      (∀ p, 0 < r → runs[r - 1]? = some p → p.1 ≤ (c : Int)) := by
  induction j with
  | zero => exact ⟨0, rfl, Nat.le_refl _, fun k p _ _ => by omega, fun p h => by omega⟩
  | succ j ih =>
    have hg := List.getElem?_eq_getElem (show j < runs.length by omega)
    unfold advanceDown
    rw [h.limit, hg]
    simp only [Option.map_some]
    by_cases h2 : (c : Int) < runs[j].1
    · rw [if_pos h2]
      obtain ⟨r, e1, e2, e3, e4⟩ := ih (by omega)
      refine ⟨r, e1, by omega, ?_, e4⟩
      intro k p hk hkj hp
      by_cases hkj' : k = j
      · subst hkj'; rw [hg] at hp; cases hp; exact h2
      · exact e3 k p hk (by omega) hp
    · rw [if_neg h2]
      refine ⟨j + 1, rfl, Nat.le_refl _, fun k p _ _ => by omega, ?_⟩
      intro p _ hp
      rw [Nat.add_sub_cancel, hg] at hp; cases hp; omega

/-- `advance_run` finds the run of the character, or the last one. -/
theorem advanceRun_spec {v : RunView α} {runs : List (Int × α)} (h : v.Shows runs) (hs : SortedLimits runs)
    (c i : Nat) (hi : i < runs.length) :
    ∃ j, advanceRun v i c = some j ∧ j < runs.length ∧ v.value j = valueOrLast runs c ∧ ∃ x, v.value j = some x := by
  obtain ⟨j, e1, e2, e3, e4, e5⟩ := advanceUp_spec h c i hi
  obtain ⟨r, f1, f2, f3, f4⟩ := advanceDown_spec h c j (by omega)
  have hr : r < runs.length := by omega
  refine ⟨r, by unfold advanceRun; rw [e1]; exact f1, hr, ?_, ?_⟩
  · rw [h.value, List.getElem?_eq_getElem hr]
    -- runs before `r` end at or before `c`
    have hlo : ∀ k (hk : k < runs.length), k < r → runs[k].1 ≤ (c : Int) := by
      intro k hk hkr
      have h1 := f4 _ (by omega) (List.getElem?_eq_getElem (show r - 1 < runs.length by omega))
      by_cases hkr' : k = r - 1
      · subst hkr'; exact h1
      · have := List.pairwise_iff_getElem.1 hs k (r - 1) hk (by omega) (by omega)
        omega
    by_cases hlast : (c : Int) < runs[r].1
    · have := find?_eq_of_split (runs := runs) (i := c) (r := r) hlo (fun _ => hlast)
      unfold valueOrLast valueAt
      rw [this, List.getElem?_eq_getElem hr]
      rfl
    · -- only possible at the last run
      have hrj : r = j := by
        by_contra hne
        exact hlast (f3 r _ (Nat.le_refl _) (by omega) (List.getElem?_eq_getElem hr))
      have hrn : r + 1 = runs.length := by
        by_contra hne
        have h2 : j + 1 < runs.length := by omega
        have := e5 _ h2 (List.getElem?_eq_getElem (show j < runs.length by omega))
        simp only [← hrj] at this
        exact hlast this
      have hnone : (runs.find? fun p => decide ((c : Int) < p.1)) = none := by
        rw [find?_eq_of_split (runs := runs) (i := c) (r := runs.length) ?_ (fun hj => by omega)]
        · simp
        · intro k hk _
          by_cases hkr : k = r
          · subst hkr; omega
          · exact hlo k hk (by omega)
      unfold valueOrLast valueAt
      rw [hnone, List.getLast?_eq_getElem?]
      simp only [Option.map_none, Option.none_or]
      rw [show runs.length - 1 = r by omega, List.getElem?_eq_getElem hr]
  · exact ⟨_, by rw [h.value, List.getElem?_eq_getElem hr]; rfl⟩

variable {κ σ : Type}

/-- Four run lists that a formatting shows. -/
structure Fmt (κ σ : Type) where
  color : List (Int × κ)
  stroke : List (Int × σ)
  strike : List (Int × Bool)
  underline : List (Int × Bool)

/-- The view of the containers filled with the four run lists. -/
def Fmt.view (d : Fmt κ σ) : FmtView κ σ where
  color := (ValueRuns.ofAdds d.color).view
  stroke := (ValueRuns.ofAdds d.stroke).view
  strike := (BoolRuns.ofAdds d.strike).view
  underline := (BoolRuns.ofAdds d.underline).view

/-- The run lists are sorted and not empty and the limits of the packed ones
fit. -/
structure Fmt.Proper (d : Fmt κ σ) : Prop where
  color : SortedLimits d.color ∧ d.color ≠ []
  stroke : SortedLimits d.stroke ∧ d.stroke ≠ []
  strike : SortedLimits d.strike ∧ d.strike ≠ []
  underline : SortedLimits d.underline ∧ d.underline ≠ []
  strikeSize : ∀ p ∈ d.strike, 0 ≤ p.1 ∧ p.1 < 2147483648
  underlineSize : ∀ p ∈ d.underline, 0 ≤ p.1 ∧ p.1 < 2147483648

/-- All run lists end at `n`. -/
structure Fmt.EndsAt (d : Fmt κ σ) (n : Nat) : Prop where
  color : endOf d.color = some (n : Int)
  stroke : endOf d.stroke = some (n : Int)
  strike : endOf d.strike = some (n : Int)
  underline : endOf d.underline = some (n : Int)

/-- The run indices of an iterator are those of runs. -/
structure FmtIter.InRange (it : FmtIter κ) (d : Fmt κ σ) : Prop where
  color : it.colorRun < d.color.length
  stroke : it.strokeRun < d.stroke.length
  strike : it.strikeRun < d.strike.length
  underline : it.underlineRun < d.underline.length

/-- What an iterator shows after `advance_to(c)`. -/
structure FmtIter.ShowsAt (f : FmtView κ σ) (it : FmtIter κ) (d : Fmt κ σ) (c : Nat) : Prop where
  color : some it.color = valueOrLast d.color c
  stroke : it.strokeState f = valueOrLast d.stroke c
  strokeDefined : ∃ s, it.strokeState f = some s
  strike : some it.strike = valueOrLast d.strike c
  underline : some it.underline = valueOrLast d.underline c

theorem advanceTo_spec [DecidableEq κ] {d : Fmt κ σ} (hd : d.Proper) {it : FmtIter κ} (hi : it.InRange d) (c : Nat) :
    ∃ it', it.advanceTo d.view c =
        some (FmtIter.eventOf it'.strike it.strike it'.underline it.underline (decide (it'.color ≠ it.color)), it') ∧
      it'.InRange d ∧ it'.ShowsAt d.view d c ∧ it'.prevColor = some it.color := by
  obtain ⟨j1, a1, b1, c1, x1, d1⟩ := advanceRun_spec (ValueRuns.holds_ofAdds d.color).shows hd.color.1 c _ hi.color
  obtain ⟨j2, a2, b2, c2, x2, d2⟩ := advanceRun_spec (ValueRuns.holds_ofAdds d.stroke).shows hd.stroke.1 c _ hi.stroke
  obtain ⟨j3, a3, b3, c3, x3, d3⟩ := advanceRun_spec (BoolRuns.shows_ofAdds d.strike hd.strikeSize) hd.strike.1 c _ hi.strike
  obtain ⟨j4, a4, b4, c4, x4, d4⟩ :=
    advanceRun_spec (BoolRuns.shows_ofAdds d.underline hd.underlineSize) hd.underline.1 c _ hi.underline
  refine ⟨⟨j1, j2, j3, j4, x1, some it.color, x3, x4⟩, ?_, ⟨b1, b2, b3, b4⟩, ?_, rfl⟩
  · unfold FmtIter.advanceTo
    simp only [Fmt.view, a1, a2, a3, a4, d1, d3, d4, Option.bind_eq_bind, Option.bind_some]
  · refine ⟨?_, ?_, ⟨x2, d2⟩, ?_, ?_⟩
    · rw [← c1, d1]
    · exact c2
    · rw [← c3, d3]
    · rw [← c4, d4]

theorem make_spec {d : Fmt κ σ} (hd : d.Proper) {n : Nat} (he : d.EndsAt n) {c : Nat} (hc : c < n) :
    ∃ it, FmtIter.make d.view c = some it ∧ it.InRange d ∧ some it.color = valueAt d.color c ∧
      it.strike = false ∧ it.underline = false := by
  have key : ∀ {β : Type} {v : RunView β} {runs : List (Int × β)}, v.Shows runs → SortedLimits runs →
      endOf runs = some (n : Int) → ∃ r, v.getRunContainingIndex c = some r ∧ r < runs.length ∧
        v.value r = valueAt runs c := by
    intro β v runs h hs hend
    obtain ⟨r, h1, h2, h3, h4⟩ := h.getRunContainingIndex hs c
    have hne : 0 < runs.length := by
      cases runs with
      | nil => simp [endOf] at hend
      | cons _ _ => simp
    refine ⟨r, h1, ?_, ?_⟩
    · rcases Nat.lt_or_ge r runs.length with h5 | h5
      · exact h5
      · exfalso
        have h6 := h3 (runs.length - 1) (by omega) (by omega)
        unfold endOf at hend
        rw [List.getLast?_eq_getElem?, List.getElem?_eq_getElem (by omega)] at hend
        simp at hend
        omega
    · have := h.getValue hs (c : Int)
      unfold RunView.getValue at this
      rw [h1] at this
      exact this
  obtain ⟨r1, a1, b1, c1⟩ := key (ValueRuns.holds_ofAdds d.color).shows hd.color.1 he.color
  obtain ⟨r2, a2, b2, _⟩ := key (ValueRuns.holds_ofAdds d.stroke).shows hd.stroke.1 he.stroke
  obtain ⟨r3, a3, b3, _⟩ := key (BoolRuns.shows_ofAdds d.strike hd.strikeSize) hd.strike.1 he.strike
  obtain ⟨r4, a4, b4, _⟩ := key (BoolRuns.shows_ofAdds d.underline hd.underlineSize) hd.underline.1 he.underline
  have hx : (ValueRuns.ofAdds d.color).view.value r1 = some (d.color[r1].2) := by
    rw [(ValueRuns.holds_ofAdds d.color).shows.value, List.getElem?_eq_getElem b1]; rfl
  refine ⟨⟨r1, r2, r3, r4, d.color[r1].2, none, false, false⟩, ?_, ⟨b1, b2, b3, b4⟩, ?_, rfl, rfl⟩
  · unfold FmtIter.make
    simp only [Fmt.view, a1, a2, a3, a4, hx, Option.bind_eq_bind, Option.bind_some]
  · simp only
    rw [← c1, hx]

/-- At or past the end the constructor reads a run that does not exist. -/
theorem make_past_end {d : Fmt κ σ} (hd : d.Proper) {n : Nat} (he : d.EndsAt n) {c : Nat} (hc : n ≤ c) :
    FmtIter.make d.view c = none := by
  obtain ⟨r, h1, h2, h3, h4⟩ := (ValueRuns.holds_ofAdds d.color).shows.getRunContainingIndex hd.color.1 c
  have hne := List.length_pos_iff.2 hd.color.2
  have hr : r = d.color.length := by
    rcases Nat.lt_or_ge r d.color.length with h5 | h5
    · exfalso
      have h6 := h4 (d.color.length - 1) (by omega) (by omega)
      have h7 := he.color
      unfold endOf at h7
      rw [List.getLast?_eq_getElem?, List.getElem?_eq_getElem (by omega)] at h7
      simp at h7
      omega
    · omega
  have hv : (ValueRuns.ofAdds d.color).view.value r = none := by
    rw [(ValueRuns.holds_ofAdds d.color).shows.value, hr]; simp
  unfold FmtIter.make
  simp only [Fmt.view, h1, Option.bind_eq_bind, Option.bind_some, hv, Option.bind_none]
  cases (ValueRuns.ofAdds d.stroke).view.getRunContainingIndex c with
  | none => rfl
  | some _ =>
    cases (BoolRuns.ofAdds d.strike).view.getRunContainingIndex c with
    | none => rfl
    | some _ => cases (BoolRuns.ofAdds d.underline).view.getRunContainingIndex c <;> rfl

theorem advances_spec [DecidableEq κ] {d : Fmt κ σ} (hd : d.Proper) (cs : List Nat) {it : FmtIter κ}
    (hi : it.InRange d) : ∃ it', it.advances d.view cs = some it' ∧ it'.InRange d ∧
      ∀ c, cs.getLast? = some c → it'.ShowsAt d.view d c := by
  induction cs generalizing it with
  | nil => exact ⟨it, rfl, hi, by simp⟩
  | cons c cs ih =>
    obtain ⟨it1, h1, h2, h3, _⟩ := advanceTo_spec hd hi c
    obtain ⟨it2, h4, h5, h6⟩ := ih h2
    refine ⟨it2, by unfold FmtIter.advances; rw [h1]; exact h4, h5, ?_⟩
    intro e he
    cases cs with
    | nil =>
      simp only [FmtIter.advances, Option.some.injEq] at h4
      simp at he
      subst h4 he
      exact h3
    | cons c' cs => exact h6 e (by simpa [List.getLast?_cons_cons] using he)

end RichText
