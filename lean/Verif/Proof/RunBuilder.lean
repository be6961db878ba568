import Verif.Proof.Intersections
namespace RichText
open Spec

variable {α : Type _}

theorem valueAt_append (R S : List (Int × α)) (i : Int) :
    valueAt (R ++ S) i = (valueAt R i).or (valueAt S i) := by
  unfold valueAt
  rw [List.find?_append]
  cases List.find? (fun r => decide (i < r.1)) R <;> simp

theorem valueAt_none_of_le (R : List (Int × α)) (i : Int) (h : ∀ p ∈ R, p.1 ≤ i) :
    valueAt R i = none := by
  unfold valueAt
  rw [List.find?_eq_none.2]
  · rfl
  · intro p hp; have := h p hp; simp; omega

/-- The builder has produced runs for a prefix of `styles`; the rest of `styles` has the
value on top of the stack. -/
structure RunBuilder.Tracks (b : RunBuilder α) (styles stack : List α) : Prop where
  stack_eq : b.stack = stack
  runs : ∃ R, b.runs.Holds R ∧ SortedLimits R ∧ (∀ p ∈ R, 0 ≤ p.1) ∧
    ∃ c : Nat, c ≤ styles.length ∧ ((R = [] ∧ c = 0) ∨ endOf R = some (c : Int)) ∧
      (∀ i : Nat, i < c → valueAt R (i : Int) = styles[i]?) ∧
      (∀ i : Nat, c ≤ i → i < styles.length → styles[i]? = stack.head?)

namespace RunBuilder

theorem tracks_init (x : α) : (RunBuilder.init x).Tracks [] [x] :=
  ⟨rfl, [], by simp [init, ValueRuns.Holds], by simp [SortedLimits], by simp, 0, by simp⟩

theorem Tracks.emit {b : RunBuilder α} {styles stack : List α} {x : α} (h : b.Tracks styles (x :: stack)) :
    b.Tracks (styles ++ [x]) (x :: stack) := by
  obtain ⟨h1, R, h2, h3, hn, c, h4, h5, h6, h7⟩ := h
  refine ⟨h1, R, h2, h3, hn, c, by simp; omega, h5, ?_, ?_⟩
  · intro i hi; rw [h6 i hi, List.getElem?_append_left (by omega)]
  · intro i hci hi
    by_cases hlt : i < styles.length
    · rw [List.getElem?_append_left hlt]; exact h7 i hci hlt
    · simp at hi
      have : i = styles.length := by omega
      subst this; simp

theorem Tracks.emitMany {b : RunBuilder α} {styles stack : List α} {x : α}
    (h : b.Tracks styles (x :: stack)) (n : Nat) :
    b.Tracks (styles ++ List.replicate n x) (x :: stack) := by
  induction n with
  | zero => simpa using h
  | succ n ih =>
    rw [List.replicate_succ', ← List.append_assoc]
    exact ih.emit

/-- adding a run up to the current position -/
theorem add_covers {r : ValueRuns α} {styles : List α} {x : α} {R : List (Int × α)} {c : Nat}
    (h2 : r.Holds R) (h3 : SortedLimits R) (hn : ∀ p ∈ R, 0 ≤ p.1) (h4 : c ≤ styles.length)
    (h5 : (R = [] ∧ c = 0) ∨ endOf R = some (c : Int))
    (h6 : ∀ i : Nat, i < c → valueAt R (i : Int) = styles[i]?)
    (h7 : ∀ i : Nat, c ≤ i → i < styles.length → styles[i]? = some x) :
    ∃ R', (r.add (styles.length : Int) x).Holds R' ∧ SortedLimits R' ∧ (∀ p ∈ R', 0 ≤ p.1) ∧
      endOf R' = some (styles.length : Int) ∧
      (∀ i : Nat, i < styles.length → valueAt R' (i : Int) = styles[i]?) := by
  have hle : ∀ p ∈ R, p.1 ≤ (c : Int) := by
    rcases h5 with ⟨rfl, _⟩ | h5
    · simp
    · intro p hp
      obtain ⟨j, hj, rfl⟩ := List.mem_iff_getElem.1 hp
      exact le_endOf h3 h5 j hj
  refine ⟨R ++ [((styles.length : Int), x)], ValueRuns.holds_add h2 _ _, ?_, ?_, by simp [endOf], ?_⟩
  · unfold SortedLimits
    rw [List.pairwise_append]
    refine ⟨h3, by simp, ?_⟩
    intro p hp q hq
    simp at hq; subst hq
    have := hle p hp
    simp; omega
  · intro p hp
    rcases List.mem_append.1 hp with hp | hp
    · exact hn p hp
    · rw [List.mem_singleton] at hp; subst hp; simp
  · intro i hi
    rw [valueAt_append]
    by_cases hic : i < c
    · rw [h6 i hic]
      have hlt : i < styles.length := by omega
      simp [List.getElem?_eq_getElem hlt]
    · rw [valueAt_none_of_le R i (fun p hp => by have := hle p hp; omega), h7 i (by omega) hi]
      simp [valueAt, hi]

theorem Tracks.push {b : RunBuilder α} {styles stack : List α} {x : α} (y : α)
    (h : b.Tracks styles (x :: stack)) :
    ∃ b', b.push (styles.length : Int) y = some b' ∧ b'.Tracks styles (y :: x :: stack) := by
  obtain ⟨h1, R, h2, h3, hn, c, h4, h5, h6, h7⟩ := h
  refine ⟨⟨b.runs.add styles.length x, y :: x :: stack⟩, by simp [RunBuilder.push, h1], rfl, ?_⟩
  obtain ⟨R', g1, g2, gn, g3, g4⟩ := add_covers h2 h3 hn h4 h5 h6 (by simpa using h7)
  exact ⟨R', g1, g2, gn, styles.length, Nat.le_refl _, Or.inr g3, g4, fun i h1 h2 => by omega⟩

/-- after a `pop` everything is covered -/
theorem Tracks.pop' {b : RunBuilder α} {styles stack : List α} {x : α}
    (h : b.Tracks styles (x :: stack)) :
    ∃ b', b.pop (styles.length : Int) = some b' ∧ b'.Tracks styles stack ∧
      ∃ R, b'.runs.Holds R ∧ SortedLimits R ∧ (∀ p ∈ R, 0 ≤ p.1) ∧ endOf R = some (styles.length : Int) ∧
        ∀ i : Nat, i < styles.length → valueAt R (i : Int) = styles[i]? := by
  obtain ⟨h1, R, h2, h3, hn, c, h4, h5, h6, h7⟩ := h
  obtain ⟨R', g1, g2, gn, g3, g4⟩ := add_covers h2 h3 hn h4 h5 h6 (by simpa using h7)
  have hadd : (⟨b.runs.add styles.length x, stack⟩ : RunBuilder α).Tracks styles stack :=
    ⟨rfl, R', g1, g2, gn, styles.length, Nat.le_refl _, Or.inr g3, g4, fun i h1 h2 => by omega⟩
  have hgl := h2.getLimit
  rcases h5 with ⟨rfl, rfl⟩ | h5
  · refine ⟨_, ?_, hadd, R', g1, g2, gn, g3, g4⟩
    simp [RunBuilder.pop, h1, hgl, endOf]
  · by_cases hlt : c < styles.length
    · refine ⟨_, ?_, hadd, R', g1, g2, gn, g3, g4⟩
      simp [RunBuilder.pop, h1, hgl, h5, hlt]
    · have hc : c = styles.length := by omega
      subst hc
      refine ⟨⟨b.runs, stack⟩, by simp [RunBuilder.pop, h1, hgl, h5],
        ⟨rfl, R, h2, h3, hn, styles.length, Nat.le_refl _, Or.inr h5, h6, fun i h1 h2 => by omega⟩,
        R, h2, h3, hn, h5, h6⟩

theorem Tracks.current {b : RunBuilder α} {styles stack : List α} (h : b.Tracks styles stack) :
    b.current = stack.head? := by simp [RunBuilder.current, h.stack_eq]

/-- How the parser drives a builder over a text with nested regions: `push` where a region
starts, `pop` where it ends (src/formatting.cpp:190-420). -/
def drive : Doc α → Nat × RunBuilder α → Option (Nat × RunBuilder α)
  | .done, s => some s
  | .text n rest, (pos, b) => drive rest (pos + n, b)
  | .region x inner rest, (pos, b) =>
    match b.push pos x with
    | none => none
    | some b1 =>
      match drive inner (pos, b1) with
      | none => none
      | some (pos2, b2) =>
        match b2.pop pos2 with
        | none => none
        | some b3 => drive rest (pos2, b3)

theorem drive_tracks (d : Doc α) : ∀ {b : RunBuilder α} {styles stack : List α} {x : α},
    b.Tracks styles (x :: stack) →
    ∃ b', drive d (styles.length, b) = some ((styles ++ d.values x).length, b') ∧
      b'.Tracks (styles ++ d.values x) (x :: stack) := by
  induction d with
  | done => intro b styles stack x h; exact ⟨b, by simp [drive, Doc.values], by simpa [Doc.values] using h⟩
  | text n rest ih =>
    intro b styles stack x h
    obtain ⟨b', h1, h2⟩ := ih (h.emitMany n)
    refine ⟨b', ?_, by simpa [Doc.values, List.append_assoc] using h2⟩
    simp only [drive, Doc.values]
    simpa [List.append_assoc, Nat.add_assoc] using h1
  | region y inner rest ih1 ih2 =>
    intro b styles stack x h
    obtain ⟨b1, e1, t1⟩ := h.push y
    obtain ⟨b2, e2, t2⟩ := ih1 t1
    obtain ⟨b3, e3, t3, _⟩ := t2.pop'
    obtain ⟨b4, e4, t4⟩ := ih2 t3
    refine ⟨b4, ?_, by simpa [Doc.values, List.append_assoc] using t4⟩
    simp only [drive, e1, e2, e3]
    rw [e4]
    simp [Doc.values, List.append_assoc]

end RunBuilder
end RichText
