import Verif.Proof.Edit
/-!
C135: an edit changes the lines of the paragraphs edited.
-/
namespace RichText
variable {β φ : Type _}

/-- C135: an edit of the paragraphs `mid` leaves the lines of the paragraphs in front of them as they are, and those of the paragraphs behind
them but for the numbers of their characters: as if nothing else had been laid out anew. -/
theorem C135_edit (pre mid mid' post post' : List (Paragraph β φ)) (count count' d : Nat) (h : Paragraphs count 0 (pre ++ (mid ++ post)))
    (h' : Paragraphs count' 0 (pre ++ (mid' ++ post'))) (hlen : totalLength mid' = totalLength mid + d)
    (hm : List.Forall₂ (Paragraph.Moved d) post post') (hpost : post ≠ []) (L L' : Layout φ) (yAlign : YAlignment) (H : Rat) :
    ∃ L1 L2 a b b' c y y', buildLayout L (pre ++ (mid ++ post)) count yAlign H = some L1 ∧
      buildLayout L' (pre ++ (mid' ++ post')) count' yAlign H = some L2 ∧
      Stores L1 (a ++ b ++ c) [] y ∧ Stores L2 (a ++ b' ++ c.map (·.moved d)) [] y' ∧
      Partition RunSpec.range 0 (totalLength pre) (allRuns a) ∧
      Partition RunSpec.range (totalLength pre) (totalLength pre + totalLength mid) (allRuns b) ∧
      Partition RunSpec.range (totalLength pre) (totalLength pre + totalLength mid') (allRuns b') ∧
      ∀ r ∈ allRuns c, totalLength pre + totalLength mid ≤ r.charStart := by
  obtain ⟨a0, a, a1, a2⟩ := paragraphs_front pre (mid ++ post) 0 h
  obtain ⟨a0', -⟩ := paragraphs_front pre (mid' ++ post') 0 h'
  rw [Nat.zero_add] at a0 a0' a1
  obtain ⟨b0, b, b1, b2⟩ := paragraphs_front mid post _ a0
  obtain ⟨b0', b', b1', b2'⟩ := paragraphs_front mid' post' _ a0'
  obtain ⟨c, c1, c2⟩ := paragraphs_back post _ b0
  have hpost' : post' ≠ [] := by
    intro h0
    subst h0
    cases hm
    exact hpost rfl
  have hlt := b0.le.2 hpost
  have hlt' := b0'.le.2 hpost'
  have total : ∀ {ps ps' : List (Paragraph β φ)}, List.Forall₂ (Paragraph.Moved d) ps ps' → totalLength ps' = totalLength ps := by
    intro ps ps' hf
    induction hf with
    | nil => rfl
    | cons h1 _ ih => simp only [totalLength, List.map_cons, List.sum_cons, h1.length] at ih ⊢; rw [ih]
  have hcount : count' = count + d := by
    have e : ∀ {n o : Nat} {ps : List (Paragraph β φ)}, Paragraphs n o ps → n = o + totalLength ps := by
      intro n o ps hp
      induction ps generalizing o with
      | nil => exact hp.symm
      | cons p t ih =>
        have := ih hp.2.2.2.2
        simp only [totalLength, List.map_cons, List.sum_cons] at this ⊢
        omega
    have e1 := e b0
    have e2 := e b0'
    have e3 := total hm
    omega
  obtain ⟨oa, p1, p2⟩ := a2 0 pre (moved_refl pre) count 0 (by omega)
  obtain ⟨ob, p3, p4⟩ := b2 0 mid (moved_refl mid) count (0 + (allRuns a).length) (by omega)
  obtain ⟨oc, p5, p6⟩ := c2 0 post (moved_refl post) (0 + (allRuns a).length + (allRuns b).length)
  obtain ⟨oa', q1, q2⟩ := a2 0 pre (moved_refl pre) count' 0 (by omega)
  obtain ⟨ob', q3, q4⟩ := b2' 0 mid' (moved_refl mid') count' (0 + (allRuns a).length) (by omega)
  obtain ⟨oc', q5, q6⟩ := c2 d post' hm (0 + (allRuns a).length + (allRuns b').length)
  simp only [Nat.add_zero, Nat.zero_add, moved_zero] at p1 p2 p3 p4 p5 p6 q1 q2 q3 q4 q5 q6
  have r1 := p1 _ _ (p3 _ _ p5)
  have hpos : totalLength pre + totalLength mid + d = totalLength pre + totalLength mid' := by omega
  rw [hpos, ← hcount] at q5
  have r2 := q1 _ _ (q3 _ _ q5)
  obtain ⟨L1, y1, s1, s2⟩ := build_of_ops L r1 (ls := a ++ b ++ c) (fun y => by
    rw [steps_append, p2 _ rfl rfl, Option.bind_some, steps_append, p4 _ rfl (by simp), Option.bind_some, p6 _ rfl (by simp [allRuns_append])]
    simp) yAlign H
  obtain ⟨L2, y2, s3, s4⟩ := build_of_ops L' r2 (ls := a ++ b' ++ c.map (·.moved d)) (fun y => by
    rw [steps_append, q2 _ rfl rfl, Option.bind_some, steps_append, q4 _ rfl (by simp), Option.bind_some, q6 _ rfl (by simp [allRuns_append])]
    simp) yAlign H
  exact ⟨L1, L2, a, b, b', c, y1, y2, s1, s3, s2, s4, a1, b1, b1', c1⟩

/-- C135: the same for an edit of the last paragraphs. -/
theorem C135_edit_last (pre mid mid' : List (Paragraph β φ)) (count count' : Nat) (h : Paragraphs count 0 (pre ++ mid))
    (h' : Paragraphs count' 0 (pre ++ mid')) (hmid : mid ≠ []) (hmid' : mid' ≠ []) (L L' : Layout φ) (yAlign : YAlignment) (H : Rat) :
    ∃ L1 L2 a b b' y y', buildLayout L (pre ++ mid) count yAlign H = some L1 ∧ buildLayout L' (pre ++ mid') count' yAlign H = some L2 ∧
      Stores L1 (a ++ b) [] y ∧ Stores L2 (a ++ b') [] y' ∧ Partition RunSpec.range 0 (totalLength pre) (allRuns a) ∧
      (∀ r ∈ allRuns b, totalLength pre ≤ r.charStart) ∧ ∀ r ∈ allRuns b', totalLength pre ≤ r.charStart := by
  obtain ⟨a0, a, a1, a2⟩ := paragraphs_front pre mid 0 h
  obtain ⟨a0', -⟩ := paragraphs_front pre mid' 0 h'
  rw [Nat.zero_add] at a0 a0' a1
  have hlt := a0.le.2 hmid
  have hlt' := a0'.le.2 hmid'
  obtain ⟨b, b1, b2⟩ := paragraphs_back mid _ a0
  obtain ⟨b', b1', b2'⟩ := paragraphs_back mid' _ a0'
  obtain ⟨oa, p1, p2⟩ := a2 0 pre (moved_refl pre) count 0 (by omega)
  obtain ⟨ob, p3, p4⟩ := b2 0 mid (moved_refl mid) (0 + (allRuns a).length)
  obtain ⟨oa', q1, q2⟩ := a2 0 pre (moved_refl pre) count' 0 (by omega)
  obtain ⟨ob', q3, q4⟩ := b2' 0 mid' (moved_refl mid') (0 + (allRuns a).length)
  simp only [Nat.add_zero, Nat.zero_add, moved_zero] at p1 p2 p3 p4 q1 q2 q3 q4
  obtain ⟨L1, y1, s1, s2⟩ := build_of_ops L (p1 _ _ p3) (ls := a ++ b) (fun y => by
    rw [steps_append, p2 _ rfl rfl, Option.bind_some, p4 _ rfl (by simp)]
    simp) yAlign H
  obtain ⟨L2, y2, s3, s4⟩ := build_of_ops L' (q1 _ _ q3) (ls := a ++ b') (fun y => by
    rw [steps_append, q2 _ rfl rfl, Option.bind_some, q4 _ rfl (by simp)]
    simp) yAlign H
  exact ⟨L1, L2, a, b, b', y1, y2, s1, s3, s2, s4, a1, b1, b1'⟩

/-! ### A concrete case -/

/-- A paragraph of `length` letters from `start` on in an area two letters wide. -/
def lettersEnv (start length : Nat) : ParaEnv (Nat × Bool) Nat :=
  { demoEnv start length (fun s t => [⟨s, t - s, 0⟩]) with
    shape := fun _ v a b => revIf v.2 ((List.range (b - a)).map fun i => ⟨100 + (a - start) + i, i, 64, 0, 0, 0⟩)
    line := { (demoEnv start length fun _ _ => []).line with area := 128 } }

theorem lettersEnv_ok (start length : Nat) (hl : 0 < length) : (lettersEnv start length).OK [(start + length, (0, false))] := by
  refine ⟨hl, ⟨?_, ?_, ?_⟩, ⟨by simp, rfl⟩, ?_, ?_, Or.inl fun _ => rfl, ?_⟩
  · intro v o l h; exact ⟨h, Nat.le_refl _⟩
  · intro f v a b hab g hg
    simp only [lettersEnv] at hg
    rw [mem_revIf] at hg
    obtain ⟨i, hi, rfl⟩ := List.mem_map.1 hg
    exact List.mem_range.1 hi
  · intro f v a b hab
    have : ((List.range (b - a)).map fun i => (⟨100 + (a - start) + i, i, 64, 0, 0, 0⟩ : HbGlyph)).Pairwise (fun g h => g.cluster ≤ h.cluster) := by
      rw [List.pairwise_map]
      exact List.pairwise_lt_range.imp fun h => Nat.le_of_lt h
    obtain ⟨v1, v2⟩ := v
    cases v2
    · exact this
    · exact List.pairwise_reverse.2 this
  · intro i; simp only [lettersEnv, demoEnv]; split <;> omega
  · intro i hi; simp only [lettersEnv, demoEnv] at hi ⊢; omega
  · intro s t h1 h2 h3
    exact Partition.single (by simp [BidiRun.range]; omega) h2

theorem lettersEnv_moved (start length d : Nat) : (lettersEnv start length).Moved d (lettersEnv (start + d) length) := by
  refine ⟨rfl, rfl, rfl, rfl, rfl, fun _ _ => rfl, rfl, rfl, rfl, fun _ _ _ _ => rfl, ?_, rfl, rfl, fun _ _ => rfl, rfl, rfl, rfl, ?_, rfl⟩
  · intro f v a b ha
    simp only [lettersEnv]
    have e1 : b + d - (a + d) = b - a := by omega
    have e2 : a + d - (start + d) = a - start := by omega
    rw [e1, e2]
  · intro s t _
    simp only [lettersEnv, demoEnv, List.map_cons, List.map_nil]
    have e1 : t + d - (s + d) = t - s := by omega
    rw [e1]

/-- The paragraph with its separator. -/
def lettersPara (start length sep : Nat) : Paragraph (Nat × Bool) Nat :=
  ⟨length + sep, sep, lettersEnv start length, [(start + length, (0, false))], 0, ⟨10, -2⟩⟩

theorem lettersPara_moved (start length sep d : Nat) : (lettersPara start length sep).Moved d (lettersPara (start + d) length sep) := by
  refine ⟨rfl, rfl, rfl, rfl, fun _ => ⟨lettersEnv_moved start length d, ?_⟩⟩
  show [(start + d + length, ((0 : Nat), false))] = [(start + length + d, (0, false))]
  rw [Nat.add_right_comm]

/-- "ab\n", "cdefg" and "hi\n": a letter is typed in the first paragraph, which then takes two lines. -/
example : Paragraphs 11 0 ([] ++ ([lettersPara 0 2 1] ++ [lettersPara 3 5 1, lettersPara 9 2 0])) ∧
    Paragraphs 12 0 ([] ++ ([lettersPara 0 3 1] ++ [lettersPara 4 5 1, lettersPara 10 2 0])) ∧
    totalLength [lettersPara 0 3 1] = totalLength [lettersPara 0 2 1] + 1 ∧
    List.Forall₂ (Paragraph.Moved 1) [lettersPara 3 5 1, lettersPara 9 2 0] [lettersPara 4 5 1, lettersPara 10 2 0] := by
  refine ⟨?_, ?_, rfl, .cons (lettersPara_moved 3 5 1 1) (.cons (lettersPara_moved 9 2 0 1) .nil)⟩
  · exact ⟨by decide, by decide, fun _ => by decide, fun _ => ⟨lettersEnv_ok 0 2 (by decide), rfl, rfl⟩,
      by decide, by decide, fun _ => by decide, fun _ => ⟨lettersEnv_ok 3 5 (by decide), rfl, rfl⟩,
      by decide, by decide, fun h => absurd rfl h, fun _ => ⟨lettersEnv_ok 9 2 (by decide), rfl, rfl⟩, rfl⟩
  · exact ⟨by decide, by decide, fun _ => by decide, fun _ => ⟨lettersEnv_ok 0 3 (by decide), rfl, rfl⟩,
      by decide, by decide, fun _ => by decide, fun _ => ⟨lettersEnv_ok 4 5 (by decide), rfl, rfl⟩,
      by decide, by decide, fun h => absurd rfl h, fun _ => ⟨lettersEnv_ok 10 2 (by decide), rfl, rfl⟩, rfl⟩

example : (buildLayout {} [lettersPara 0 2 1, lettersPara 3 5 1, lettersPara 9 2 0] 11 .top 100).map (fun L => L.runs.map fun r => (r.charStart, r.charEnd)) =
      some [(0, 2), (3, 5), (5, 7), (7, 8), (9, 11)] ∧
    (buildLayout {} [lettersPara 0 3 1, lettersPara 4 5 1, lettersPara 10 2 0] 12 .top 100).map (fun L => L.runs.map fun r => (r.charStart, r.charEnd)) =
      some [(0, 2), (2, 3), (4, 6), (6, 8), (8, 9), (10, 12)] := by
  constructor <;> decide +kernel

end RichText
