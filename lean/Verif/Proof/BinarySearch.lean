import Verif.Model.BinarySearch
namespace RichText

/-- A binary search whose condition is defined on the searched range ends
inside the range. -/
theorem binarySearch_range (cond : Nat → Option Bool) (p : Nat → Bool) :
    ∀ (count first : Nat),
      (∀ i, first ≤ i → i < first + count → cond i = some (p i)) →
      ∃ r, binarySearch cond first count = some r ∧ first ≤ r ∧ r ≤ first + count := by
  intro count
  induction count using Nat.strongRecOn with
  | ind count ih =>
    intro first hc
    rw [binarySearch]
    by_cases h0 : count = 0
    · exact ⟨first, by simp [h0], by omega, by omega⟩
    · have hmid := hc (first + count / 2) (by omega) (by omega)
      simp only [h0, if_false, hmid]
      cases hp : p (first + count / 2) with
      | true =>
        obtain ⟨r, h1, h2, h3⟩ := ih (count - (count / 2 + 1)) (by omega) (first + count / 2 + 1)
          (fun i hi hi' => hc i (by omega) (by omega))
        exact ⟨r, h1, by omega, by omega⟩
      | false =>
        obtain ⟨r, h1, h2, h3⟩ := ih (count / 2) (by omega) first
          (fun i hi hi' => hc i (by omega) (by omega))
        exact ⟨r, h1, by omega, by omega⟩

/-- With a condition that never switches back from false to true, the result is
the first index at which it is false. -/
theorem binarySearch_spec (cond : Nat → Option Bool) (p : Nat → Bool) :
    ∀ (count first : Nat),
      (∀ i, first ≤ i → i < first + count → cond i = some (p i)) →
      (∀ i j, first ≤ i → i ≤ j → j < first + count → p j = true → p i = true) →
      ∃ r, binarySearch cond first count = some r ∧ first ≤ r ∧ r ≤ first + count ∧
        (∀ i, first ≤ i → i < r → p i = true) ∧
        (∀ i, r ≤ i → i < first + count → p i = false) := by
  intro count
  induction count using Nat.strongRecOn with
  | ind count ih =>
    intro first hc mono
    rw [binarySearch]
    by_cases h0 : count = 0
    · exact ⟨first, by simp [h0], by omega, by omega, fun i _ _ => by omega, fun i _ _ => by omega⟩
    · have hmid := hc (first + count / 2) (by omega) (by omega)
      simp only [h0, if_false, hmid]
      cases hp : p (first + count / 2) with
      | true =>
        obtain ⟨r, h1, h2, h3, h4, h5⟩ := ih (count - (count / 2 + 1)) (by omega)
          (first + count / 2 + 1) (fun i hi hi' => hc i (by omega) (by omega))
          (fun i j hi hij hj => mono i j (by omega) hij (by omega))
        refine ⟨r, h1, by omega, by omega, fun i hi hi' => ?_, fun i hi hi' => h5 i hi (by omega)⟩
        by_cases hle : i ≤ first + count / 2
        · exact mono i (first + count / 2) hi hle (by omega) hp
        · exact h4 i (by omega) hi'
      | false =>
        obtain ⟨r, h1, h2, h3, h4, h5⟩ := ih (count / 2) (by omega) first
          (fun i hi hi' => hc i (by omega) (by omega))
          (fun i j hi hij hj => mono i j (by omega) hij (by omega))
        refine ⟨r, h1, h2, by omega, h4, fun i hi hi' => ?_⟩
        by_cases hle : i < first + count / 2
        · exact h5 i hi hle
        · cases hpi : p i with
          | false => rfl
          | true => rw [mono (first + count / 2) i (by omega) (by omega) hi' hpi] at hp; cases hp

end RichText
