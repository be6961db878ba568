import Verif.Model.ValueRuns
import Verif.Spec.Runs
import Verif.Proof.BinarySearch
namespace RichText
open Spec

namespace ValueRuns
variable {α : Type _}

/-- A container holds exactly the given `(limit, value)` pairs. -/
def Holds (r : ValueRuns α) (runs : List (Int × α)) : Prop :=
  r.limits = runs.map (·.1) ∧ r.values = runs.map (·.2)

theorem holds_add {r : ValueRuns α} {runs} (h : r.Holds runs) (l : Int) (x : α) :
    (r.add l x).Holds (runs ++ [(l, x)]) := by
  simp [Holds, add, h.1, h.2]

theorem holds_foldl (adds : List (Int × α)) : ∀ {r : ValueRuns α} {runs}, r.Holds runs →
    (adds.foldl (fun r p => r.add p.1 p.2) r).Holds (runs ++ adds) := by
  induction adds with
  | nil => intro r runs h; simpa using h
  | cons p t ih =>
    intro r runs h
    have := ih (holds_add h p.1 p.2)
    simpa using this

theorem holds_ofAdds (adds : List (Int × α)) : (ofAdds adds).Holds adds := by
  have := holds_foldl adds (r := ({} : ValueRuns α)) (runs := []) (by simp [Holds])
  simpa [ofAdds] using this

theorem Holds.count {r : ValueRuns α} {runs} (h : r.Holds runs) : r.view.count = runs.length := by
  simp [view, h.1]

theorem Holds.limit {r : ValueRuns α} {runs} (h : r.Holds runs) (i : Nat) :
    r.view.limit i = runs[i]?.map (·.1) := by
  simp [view, h.1]

theorem Holds.value {r : ValueRuns α} {runs} (h : r.Holds runs) (i : Nat) :
    r.view.value i = runs[i]?.map (·.2) := by
  simp [view, h.2]

theorem Holds.getLimit {r : ValueRuns α} {runs} (h : r.Holds runs) :
    r.getLimit = endOf runs := by
  simp [ValueRuns.getLimit, endOf, h.1]

end ValueRuns

/-- A view shows exactly the given runs. -/
structure RunView.Shows {α : Type _} (v : RunView α) (runs : List (Int × α)) : Prop where
  count : v.count = runs.length
  limit : ∀ i, v.limit i = runs[i]?.map (·.1)
  value : ∀ i, v.value i = runs[i]?.map (·.2)

theorem ValueRuns.Holds.shows {α : Type _} {r : ValueRuns α} {runs} (h : r.Holds runs) :
    r.view.Shows runs := ⟨h.count, h.limit, h.value⟩

/-- In a sorted run list, `find?` is the run at the first index past `i`. -/
theorem find?_eq_of_split {α : Type _} {runs : List (Int × α)} {i : Int} {r : Nat}
    (h1 : ∀ j (hj : j < runs.length), j < r → runs[j].1 ≤ i)
    (h2 : ∀ (hj : r < runs.length), i < runs[r].1) :
    (runs.find? fun p => decide (i < p.1)) = runs[r]? := by
  induction runs generalizing r with
  | nil => simp
  | cons p t ih =>
    cases r with
    | zero =>
      have := h2 (by simp)
      simp only [List.getElem_cons_zero] at this
      simp [this]
    | succ r =>
      have h0 := h1 0 (by simp) (by omega)
      simp only [List.getElem_cons_zero] at h0
      rw [List.find?_cons_of_neg (by simp; omega)]
      rw [ih (r := r)]
      · simp
      · intro j hj hjr
        have := h1 (j + 1) (by simp; omega) (by omega)
        simpa using this
      · intro hj
        have := h2 (by simp; omega)
        simpa using this

theorem RunView.Shows.getRunContainingIndex {α : Type _} {v : RunView α} {runs}
    (h : v.Shows runs) (hs : SortedLimits runs) (i : Int) :
    ∃ r, v.getRunContainingIndex i = some r ∧ r ≤ runs.length ∧
      (∀ j (hj : j < runs.length), j < r → runs[j].1 ≤ i) ∧
      (∀ j (hj : j < runs.length), r ≤ j → i < runs[j].1) := by
  let p : Nat → Bool := fun j => decide ((runs[j]?.map (·.1)).getD 0 ≤ i)
  have hget : ∀ j (hj : j < runs.length), p j = decide (runs[j].1 ≤ i) := by
    intro j hj; simp [p, hj]
  obtain ⟨r, hr, _, hle, hlo, hhi⟩ := binarySearch_spec
    (fun j => (v.limit j).map fun l => decide (l ≤ i)) p v.count 0
    (by
      intro j _ hj
      have hj' : j < runs.length := by rw [h.count] at hj; omega
      simp [h.limit, hget j hj', hj'])
    (by
      intro a b _ hab hb hpb
      have hb' : b < runs.length := by rw [h.count] at hb; omega
      have ha' : a < runs.length := by omega
      rw [hget b hb'] at hpb
      rw [hget a ha']
      by_cases hEq : a = b
      · subst hEq; exact hpb
      · have := List.pairwise_iff_getElem.1 hs a b ha' hb' (by omega)
        simp only [decide_eq_true_eq] at *
        omega)
  rw [h.count] at hle hhi
  refine ⟨r, hr, by omega, ?_, ?_⟩
  · intro j hj hjr
    have := hlo j (by omega) hjr
    rw [hget j hj] at this
    simpa using this
  · intro j hj hjr
    have := hhi j hjr (by omega)
    rw [hget j hj] at this
    simpa using this

theorem RunView.Shows.getValue {α : Type _} {v : RunView α} {runs}
    (h : v.Shows runs) (hs : SortedLimits runs) (i : Int) :
    v.getValue i = valueAt runs i := by
  obtain ⟨r, hr, hle, h1, h2⟩ := h.getRunContainingIndex hs i
  unfold RunView.getValue valueAt
  rw [hr, find?_eq_of_split (r := r) h1 (fun hj => h2 r hj (Nat.le_refl _))]
  exact h.value r

end RichText
