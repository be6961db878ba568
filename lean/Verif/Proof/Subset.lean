import Verif.Proof.ValueRuns
namespace RichText
open Spec

variable {α : Type _}

/-- List version of the emitting loop. -/
def emitList (offset length : Int) : List (Int × α) → List (Int × α)
  | [] => []
  | (l, x) :: t => if l - offset < length then (l - offset, x) :: emitList offset length t
    else [(length, x)]

theorem skipRuns_eq {v : RunView α} {runs} (h : v.Shows runs) (offset : Int) (i : Nat)
    (hi : i ≤ runs.length) :
    ∃ j, v.skipRuns offset i = some j ∧ i ≤ j ∧ j ≤ runs.length ∧
      (∀ k (hk : k < runs.length), i ≤ k → k < j → runs[k].1 ≤ offset) ∧
      (∀ (hk : j < runs.length), offset < runs[j].1) := by
  induction hn : runs.length - i generalizing i with
  | zero =>
    have : i = runs.length := by omega
    subst this
    refine ⟨runs.length, ?_, by omega, by omega, fun k hk h1 h2 => by omega, fun hk => by omega⟩
    rw [RunView.skipRuns]
    simp [h.count]
  | succ n ih =>
    have hlt : i < runs.length := by omega
    rw [RunView.skipRuns]
    simp only [h.count, hlt, if_true, h.limit, List.getElem?_eq_getElem hlt, Option.map_some]
    by_cases hle : runs[i].1 ≤ offset
    · obtain ⟨j, h1, h2, h3, h4, h5⟩ := ih (i + 1) (by omega) (by omega)
      refine ⟨j, by simp [hle, h1], by omega, h3, ?_, h5⟩
      intro k hk hik hkj
      by_cases hEq : k = i
      · subst hEq; exact hle
      · exact h4 k hk (by omega) hkj
    · exact ⟨i, by simp [hle], by omega, hi, fun k hk h1 h2 => by omega, fun hk => by omega⟩

theorem emitRuns_eq {v : RunView α} {runs} (h : v.Shows runs) (offset length : Int) (i : Nat)
    (hi : i ≤ runs.length) :
    v.emitRuns offset length i = some (emitList offset length (runs.drop i)) := by
  induction hn : runs.length - i generalizing i with
  | zero =>
    have : i = runs.length := by omega
    subst this
    rw [RunView.emitRuns]
    simp [h.count, emitList]
  | succ n ih =>
    have hlt : i < runs.length := by omega
    rw [RunView.emitRuns, List.drop_eq_getElem_cons hlt]
    simp only [h.count, hlt, if_true, h.limit, h.value, List.getElem?_eq_getElem hlt,
      Option.map_some, emitList, ih (i + 1) (by omega) (by omega)]
    split <;> rfl

theorem valueAt_emitList (offset length : Int) (runs : List (Int × α)) (k : Int) (hk : k < length)
    : valueAt (emitList offset length runs) k = valueAt runs (offset + k) := by
  induction runs with
  | nil => rfl
  | cons p t ih =>
    obtain ⟨l, x⟩ := p
    simp only [emitList]
    by_cases h : l - offset < length
    · simp only [h, if_true]
      simp only [valueAt, List.find?_cons] at *
      by_cases hkl : k < l - offset
      · have : offset + k < l := by omega
        simp [hkl, this]
      · have : ¬ offset + k < l := by omega
        simp [hkl, this, ih]
    · have : offset + k < l := by omega
      simp [h, valueAt, hk, this]

theorem emitList_sorted (offset length : Int) (runs : List (Int × α)) (hs : SortedLimits runs) :
    SortedLimits (emitList offset length runs) ∧
    (∀ p ∈ emitList offset length runs, p.1 ≤ length) ∧
    (∀ b, (∀ p ∈ runs, b ≤ p.1 - offset) → b ≤ length → ∀ p ∈ emitList offset length runs, b ≤ p.1) := by
  induction runs with
  | nil => simp [emitList, SortedLimits]
  | cons p t ih =>
    obtain ⟨l, x⟩ := p
    have hs' := List.pairwise_cons.1 hs
    obtain ⟨i1, i2, i3⟩ := ih hs'.2
    simp only [emitList]
    by_cases h : l - offset < length
    · simp only [h, if_true]
      refine ⟨?_, ?_, ?_⟩
      · refine List.pairwise_cons.2 ⟨fun p hp => ?_, i1⟩
        exact i3 (l - offset) (fun q hq => by have := hs'.1 q hq; simp at this; omega) (by omega) p hp
      · intro p hp
        rcases List.mem_cons.1 hp with rfl | hp
        · simp; omega
        · exact i2 p hp
      · intro b hb hbl p hp
        rcases List.mem_cons.1 hp with rfl | hp
        · exact hb (l, x) (by simp)
        · exact i3 b (fun q hq => hb q (by simp [hq])) hbl p hp
    · simp only [h, if_false]
      refine ⟨by simp [SortedLimits], by simp, ?_⟩
      intro b _ hbl p hp
      simp at hp; subst hp; exact hbl

theorem endOf_emitList (offset length : Int) (runs : List (Int × α))
    (h : ∃ p ∈ runs, length ≤ p.1 - offset) :
    endOf (emitList offset length runs) = some length := by
  induction runs with
  | nil => simp at h
  | cons p t ih =>
    obtain ⟨l, x⟩ := p
    simp only [emitList]
    by_cases hl : l - offset < length
    · simp only [hl, if_true]
      have : ∃ p ∈ t, length ≤ p.1 - offset := by
        obtain ⟨q, hq, hql⟩ := h
        rcases List.mem_cons.1 hq with rfl | hq
        · simp at hql; omega
        · exact ⟨q, hq, hql⟩
      have := ih this
      unfold endOf at *
      cases hE : emitList offset length t with
      | nil => simp [hE] at this
      | cons a b => simpa [hE, List.getLast?_cons] using this
    · simp [hl, endOf]

theorem valueAt_drop (runs : List (Int × α)) (j : Nat) (i : Int)
    (h : ∀ k (hk : k < runs.length), k < j → runs[k].1 ≤ i) :
    valueAt (runs.drop j) i = valueAt runs i := by
  induction runs generalizing j with
  | nil => simp
  | cons p t ih =>
    cases j with
    | zero => rfl
    | succ j =>
      have h0 := h 0 (by simp) (by omega)
      simp only [List.getElem_cons_zero] at h0
      rw [List.drop_succ_cons, ih j (fun k hk hkj => by
        have := h (k + 1) (by simp; omega) (by omega)
        simpa using this)]
      unfold valueAt
      rw [List.find?_cons_of_neg (by simp; omega)]

end RichText
