import Verif.Spec.RefRuns
import Verif.Proof.ParaIter
import Verif.Proof.Intersections
import Verif.Proof.ScriptRun
import Verif.Spec.RefBuilder
/-! Lemmas on the runs of the earlier builder (Model/RefRuns.lean). -/
namespace RichText
open Spec
variable {α β γ φ : Type _}

/-! ### Run lists -/

theorem wrap_ofAdds (f : α → β) (adds : List (Int × α)) :
    (ValueRuns.ofAdds adds).wrap f = ValueRuns.ofAdds (adds.map fun q => (q.1, f q.2)) := by
  have h1 := ValueRuns.holds_ofAdds adds
  have h2 := ValueRuns.holds_ofAdds (adds.map fun q => (q.1, f q.2))
  obtain ⟨a1, a2⟩ := h1
  obtain ⟨b1, b2⟩ := h2
  cases e : ValueRuns.ofAdds (adds.map fun q => (q.1, f q.2)) with
  | mk values limits =>
    rw [e] at b1 b2
    simp only at b1 b2
    unfold ValueRuns.wrap
    rw [b1, b2, a1, a2]
    simp [Function.comp_def]

theorem ofAdds_add (adds : List (Int × α)) (l : Int) (x : α) :
    (ValueRuns.ofAdds adds).add l x = ValueRuns.ofAdds (adds ++ [(l, x)]) := by
  unfold ValueRuns.ofAdds
  rw [List.foldl_append]; rfl

theorem valueAt_map (f : α → β) (adds : List (Int × α)) (i : Int) :
    valueAt (adds.map fun q => (q.1, f q.2)) i = (valueAt adds i).map f := by
  unfold valueAt
  rw [List.find?_map]
  simp only [Option.map_map]
  rfl

theorem endsAt_map (f : α → β) (adds : List (Int × α)) (l : Int) :
    EndsAt (adds.map fun q => (q.1, f q.2)) l ↔ EndsAt adds l := by
  unfold EndsAt
  constructor
  · rintro ⟨q, hq, rfl⟩
    obtain ⟨p, hp, rfl⟩ := List.mem_map.1 hq
    exact ⟨p, hp, rfl⟩
  · rintro ⟨q, hq, rfl⟩
    exact ⟨_, List.mem_map.2 ⟨q, hq, rfl⟩, rfl⟩

theorem endOf_map (f : α → β) (adds : List (Int × α)) :
    endOf (adds.map fun q => (q.1, f q.2)) = endOf adds := by
  unfold endOf
  rw [List.getLast?_map, Option.map_map]; rfl

theorem sorted_map (f : α → β) {adds : List (Int × α)} (h : SortedLimits adds) :
    SortedLimits (adds.map fun q => (q.1, f q.2)) := List.pairwise_map.2 h

/-- Limits ascend. -/
def StrictLimits (runs : List (Int × α)) : Prop := runs.Pairwise fun a b => a.1 < b.1

theorem StrictLimits.sorted {runs : List (Int × α)} (h : StrictLimits runs) : SortedLimits runs :=
  h.imp fun h => Int.le_of_lt h

theorem strict_map (f : α → β) {adds : List (Int × α)} (h : StrictLimits adds) :
    StrictLimits (adds.map fun q => (q.1, f q.2)) := List.pairwise_map.2 h

theorem valueAt_append_ite (a b : List (Int × α)) (i : Int) :
    valueAt (a ++ b) i = if (∃ q ∈ a, i < q.1) then valueAt a i else valueAt b i := by
  classical
  unfold valueAt
  rw [List.find?_append]
  cases h : a.find? (fun r => decide (i < r.1)) with
  | none =>
    rw [if_neg]
    · rfl
    · rintro ⟨q, hq, hlt⟩
      have := List.find?_eq_none.1 h q hq
      simp at this; omega
  | some q =>
    rw [if_pos]
    · rfl
    · exact ⟨q, List.mem_of_find?_eq_some h, by simpa using List.find?_some h⟩

/-! ### Intersections: the types of the values, and ascending limits -/

theorem intersectLoop_values (e : Int) : ∀ (fuel : Nat) (lo : Int) (st : IState α) (calls : List (Int × List α)),
    IInv e st → intersectLoop e fuel lo st.conc = some calls →
    ∀ c ∈ calls, List.Forall₂ (fun p x => x ∈ p.1.map (·.2)) st c.2 := by
  intro fuel
  induction fuel with
  | zero =>
    intro lo st calls h hc c hcc
    unfold intersectLoop at hc
    split at hc
    · cases hc
    · cases hc; cases hcc
  | succ fuel ih =>
    intro lo st calls h hc c hcc
    obtain ⟨m, hm, hmin, p0, hp0, q0, hq0, hq0m⟩ := findNextMinLimit_spec st h.ne h.range
    obtain ⟨xs, hxs, hvals⟩ := values_spec st h.range
    have hadv := advance_spec st m h.range
    unfold intersectLoop at hc
    by_cases hlo : lo < e
    · rw [if_pos hlo] at hc
      simp only [hm, hxs, hadv] at hc
      cases hr : intersectLoop e fuel m (st.adv m).conc with
      | none => rw [hr] at hc; cases hc
      | some rest =>
        rw [hr] at hc
        cases hc
        rcases List.mem_cons.1 hcc with rfl | hcc
        · refine forall₂_imp_mem hvals ?_
          intro p hp x hx
          have hlt := h.range p hp
          rw [List.getElem?_eq_getElem hlt, Option.map_some] at hx
          exact List.mem_map.2 ⟨_, List.getElem_mem hlt, Option.some.inj hx⟩
        · by_cases hlt : m < e
          · have := ih m (st.adv m) rest (h.adv hlt) hr c hcc
            unfold IState.adv at this
            exact (List.forall₂_map_left_iff (R := fun (p : List (Int × α) × Nat) x => x ∈ p.1.map (·.2))).1 this
          · unfold intersectLoop at hr
            rw [if_neg hlt] at hr
            cases hr; cases hcc
    · rw [if_neg hlo] at hc
      cases hc; cases hcc

theorem intersectLoop_strict (e : Int) : ∀ (fuel : Nat) (lo : Int) (st : IState α) (calls : List (Int × List α)),
    IInv e st → (∀ p ∈ st, StrictLimits p.1) → intersectLoop e fuel lo st.conc = some calls → StrictLimits calls := by
  intro fuel
  induction fuel with
  | zero =>
    intro lo st calls h hs hc
    unfold intersectLoop at hc
    split at hc
    · cases hc
    · cases hc; exact .nil
  | succ fuel ih =>
    intro lo st calls h hs hc
    obtain ⟨m, hm, hmin, p0, hp0, q0, hq0, hq0m⟩ := findNextMinLimit_spec st h.ne h.range
    obtain ⟨xs, hxs, hvals⟩ := values_spec st h.range
    have hadv := advance_spec st m h.range
    unfold intersectLoop at hc
    by_cases hlo : lo < e
    · rw [if_pos hlo] at hc
      simp only [hm, hxs, hadv] at hc
      cases hr : intersectLoop e fuel m (st.adv m).conc with
      | none => rw [hr] at hc; cases hc
      | some rest =>
        rw [hr] at hc
        cases hc
        by_cases hlt : m < e
        · refine List.pairwise_cons.2 ⟨?_, ih m (st.adv m) rest (h.adv hlt) ?_ hr⟩
          · intro c hc
            obtain ⟨p, hp, q, hq, e1⟩ := (intersectLoop_limits e fuel m (st.adv m) rest (h.adv hlt) hlt hr c.1).1 ⟨c, hc, rfl⟩
            obtain ⟨p', hp', rfl⟩ := List.mem_map.1 hp
            have hlt' := h.range p' hp'
            have hge := hmin p' hp' _ (List.getElem?_eq_getElem hlt')
            simp only [List.getElem?_eq_getElem hlt', Option.map_some, Option.getD_some] at hq
            obtain ⟨k, hk, rfl⟩ := List.mem_iff_getElem.1 hq
            rw [List.getElem_drop] at e1
            simp only
            have hst := List.pairwise_iff_getElem.1 (hs p' hp')
            split at hk
            · rename_i hle
              simp only [hle, if_true] at e1
              rw [List.length_drop] at hk
              have := hst p'.2 (p'.2 + 1 + k) hlt' (by omega) (by omega)
              omega
            · rename_i hle
              simp only [hle, if_false] at e1
              rw [List.length_drop] at hk
              rcases Nat.eq_zero_or_pos k with rfl | hk0
              · simp only [Nat.add_zero] at e1; omega
              · have := hst p'.2 (p'.2 + k) hlt' (by omega) (by omega)
                omega
          · intro p hp
            obtain ⟨p', hp', rfl⟩ := List.mem_map.1 hp
            exact hs p' hp'
        · unfold intersectLoop at hr
          rw [if_neg hlt] at hr
          cases hr; exact List.pairwise_singleton _ _
    · rw [if_neg hlo] at hc
      cases hc; exact .nil

theorem iterateRunIntersections_more (runs : List (List (Int × α))) (e : Int) (calls : List (Int × List α))
    (hne : runs ≠ []) (hs : ∀ r ∈ runs, SortedLimits r) (he : ∀ r ∈ runs, endOf r = some e)
    (hc : iterateRunIntersections (runs.map ValueRuns.ofAdds) = some calls) :
    (∀ c ∈ calls, List.Forall₂ (fun r x => x ∈ r.map (·.2)) runs c.2) ∧
      ((∀ r ∈ runs, StrictLimits r) → StrictLimits calls) := by
  let st : IState α := runs.map fun r => (r, 0)
  have hinv : IInv e st := by
    refine ⟨by simpa [st] using hne, ?_, ?_, ?_⟩
    · intro p hp; obtain ⟨r, hr, rfl⟩ := List.mem_map.1 hp; exact hs r hr
    · intro p hp; obtain ⟨r, hr, rfl⟩ := List.mem_map.1 hp; exact he r hr
    · intro p hp; obtain ⟨r, hr, rfl⟩ := List.mem_map.1 hp; exact endOf_ne (he r hr)
  have hmax : maxOfLimits ((runs.map ValueRuns.ofAdds).map ValueRuns.getLimit) = some e := by
    apply maxOfLimits_const _ _ (by simpa using hne)
    intro x hx
    simp only [List.map_map, List.mem_map, Function.comp] at hx
    obtain ⟨r, hr, rfl⟩ := hx
    rw [(ValueRuns.holds_ofAdds r).getLimit, he r hr]
  unfold iterateRunIntersections at hc
  rw [hmax] at hc
  simp only at hc
  have hcc : ((runs.map ValueRuns.ofAdds).map fun r => (r.view, 0)) = st.conc := by
    simp [IState.conc, st, List.map_map, Function.comp_def]
  rw [hcc] at hc
  constructor
  · intro c h
    have := intersectLoop_values e _ 0 st calls hinv hc c h
    exact (List.forall₂_map_left_iff (R := fun (p : List (Int × α) × Nat) x => x ∈ p.1.map (·.2))).1 this
  · intro hst
    refine intersectLoop_strict e _ 0 st calls hinv ?_ hc
    intro p hp
    obtain ⟨r, hr, rfl⟩ := List.mem_map.1 hp
    exact hst r hr

/-! ### The run lists of a paragraph -/

theorem levelLoop_spec {levels : List Nat} {n : Nat} (hn : n ≤ levels.length) : ∀ (m i last : Nat) (adds : List (Int × Nat)),
    n - i = m → 0 < i → i ≤ n → StrictLimits adds → (∀ q ∈ adds, q.1 < i) → levels[i - 1]? = some last →
    (∀ l, EndsAt adds l ↔ ∃ k : Nat, l = k ∧ Change levels n k ∧ k < i) →
    (∀ j : Nat, j < i → valueAt (adds ++ [((i : Int), last)]) j = levels[j]?) →
    ∃ adds', levelLoop levels n i last (ValueRuns.ofAdds adds) = some (ValueRuns.ofAdds adds') ∧ StrictLimits adds' ∧
      endOf adds' = some (n : Int) ∧ (∀ l, EndsAt adds' l ↔ (∃ k : Nat, l = k ∧ Change levels n k) ∨ l = n) ∧
      ∀ j : Nat, j < n → valueAt adds' j = levels[j]? := by
  intro m
  induction m with
  | zero =>
    intro i last adds hm hi hin hs hb hl hc hv
    obtain rfl : i = n := by omega
    unfold levelLoop
    rw [if_neg (by omega), ofAdds_add]
    refine ⟨_, rfl, ?_, by simp [endOf], ?_, hv⟩
    · refine List.pairwise_append.2 ⟨hs, List.pairwise_singleton _ _, ?_⟩
      intro a ha b hb'
      rw [List.mem_singleton] at hb'; subst hb'
      exact hb a ha
    · intro l
      constructor
      · rintro ⟨q, hq, rfl⟩
        rcases List.mem_append.1 hq with hq | hq
        · obtain ⟨k, h1, h2, _⟩ := (hc q.1).1 ⟨q, hq, rfl⟩
          exact .inl ⟨k, h1, h2⟩
        · rw [List.mem_singleton] at hq; subst hq; exact .inr rfl
      · rintro (⟨k, h1, h2⟩ | rfl)
        · obtain ⟨q, hq, e1⟩ := (hc l).2 ⟨k, h1, h2, h2.2.1⟩
          exact ⟨q, List.mem_append_left _ hq, e1⟩
        · exact ⟨_, List.mem_append_right _ (List.mem_singleton.2 rfl), rfl⟩
  | succ m ih =>
    intro i last adds hm hi hin hs hb hl hc hv
    have hlt : i < levels.length := by omega
    unfold levelLoop
    rw [if_pos (by omega), List.getElem?_eq_getElem hlt]
    simp only
    have hvi : ∀ (A : List (Int × Nat)) (x : Nat), (∀ q ∈ A, q.1 ≤ i) → valueAt (A ++ [(((i + 1 : Nat) : Int), x)]) (i : Int) = some x := by
      intro A x hA
      rw [valueAt_append_ite, if_neg]
      · simp [valueAt]; omega
      · rintro ⟨q, hq, hlt⟩; have := hA q hq; omega
    by_cases hne : levels[i] ≠ last
    · rw [if_pos hne, ofAdds_add]
      refine ih (i + 1) levels[i] (adds ++ [((i : Int), last)]) (by omega) (by omega) (by omega) ?_ ?_ ?_ ?_ ?_
      · refine List.pairwise_append.2 ⟨hs, List.pairwise_singleton _ _, ?_⟩
        intro a ha b hb'
        rw [List.mem_singleton] at hb'; subst hb'
        exact hb a ha
      · intro q hq
        rcases List.mem_append.1 hq with hq | hq
        · have := hb q hq; omega
        · rw [List.mem_singleton] at hq; subst hq; simp only; omega
      · rw [Nat.add_sub_cancel, List.getElem?_eq_getElem hlt]
      · intro l
        constructor
        · rintro ⟨q, hq, rfl⟩
          rcases List.mem_append.1 hq with hq | hq
          · obtain ⟨k, h1, h2, h3⟩ := (hc q.1).1 ⟨q, hq, rfl⟩
            exact ⟨k, h1, h2, by omega⟩
          · rw [List.mem_singleton] at hq; subst hq
            refine ⟨i, rfl, ⟨hi, by omega, ?_⟩, by omega⟩
            rw [List.getElem?_eq_getElem hlt, hl]
            exact fun h => hne (Option.some.inj h)
        · rintro ⟨k, h1, h2, h3⟩
          rcases Nat.lt_or_ge k i with hk | hk
          · obtain ⟨q, hq, e1⟩ := (hc l).2 ⟨k, h1, h2, hk⟩
            exact ⟨q, List.mem_append_left _ hq, e1⟩
          · exact ⟨_, List.mem_append_right _ (List.mem_singleton.2 rfl), by simp only; omega⟩
      · intro j hj
        rcases Nat.lt_or_ge j i with hk | hk
        · rw [← hv j hk, valueAt_append_ite, if_pos ⟨_, List.mem_append_right _ (List.mem_singleton.2 rfl), by simp only; omega⟩]
        · obtain rfl : j = i := by omega
          rw [hvi _ _ ?_, List.getElem?_eq_getElem hlt]
          intro q hq
          rcases List.mem_append.1 hq with hq | hq
          · have := hb q hq; omega
          · rw [List.mem_singleton] at hq; subst hq; simp
    · rw [if_neg hne]
      have hne : levels[i] = last := Classical.not_not.1 hne
      refine ih (i + 1) last adds (by omega) (by omega) (by omega) hs ?_ ?_ ?_ ?_
      · intro q hq; have := hb q hq; omega
      · rw [Nat.add_sub_cancel, List.getElem?_eq_getElem hlt, hne]
      · intro l
        rw [hc l]
        constructor
        · rintro ⟨k, h1, h2, h3⟩; exact ⟨k, h1, h2, by omega⟩
        · rintro ⟨k, h1, h2, h3⟩
          refine ⟨k, h1, h2, ?_⟩
          rcases Nat.lt_or_ge k i with hk | hk
          · exact hk
          · obtain rfl : k = i := by omega
            exfalso
            refine h2.2.2 ?_
            rw [List.getElem?_eq_getElem hlt, hl, hne]
      · intro j hj
        rcases Nat.lt_or_ge j i with hk | hk
        · rw [← hv j hk, valueAt_append_ite, valueAt_append_ite]
          by_cases hq : ∃ q ∈ adds, (j : Int) < q.1
          · rw [if_pos hq, if_pos hq]
          · rw [if_neg hq, if_neg hq]
            simp only [valueAt, List.find?_cons]
            rw [decide_eq_true (by omega : (j : Int) < ((i + 1 : Nat) : Int)), decide_eq_true (by omega : (j : Int) < (i : Int))]
            rfl
        · obtain rfl : j = i := by omega
          rw [hvi _ _ fun q hq => Int.le_of_lt (hb q hq), List.getElem?_eq_getElem hlt, hne]

theorem computeLevels_spec {levels : List Nat} {n : Nat} (hn : n ≤ levels.length) (h0 : 0 < n) :
    ∃ adds, computeLevels levels n = some (ValueRuns.ofAdds adds) ∧ StrictLimits adds ∧
      endOf adds = some (n : Int) ∧ (∀ l, EndsAt adds l ↔ (∃ k : Nat, l = k ∧ Change levels n k) ∨ l = n) ∧
      ∀ j : Nat, j < n → valueAt adds j = levels[j]? := by
  unfold computeLevels
  have hlt : 0 < levels.length := by omega
  rw [List.getElem?_eq_getElem hlt]
  refine levelLoop_spec hn (n - 1) 1 levels[0] [] rfl (by omega) (by omega) .nil (fun q hq => by cases hq)
    (List.getElem?_eq_getElem hlt) ?_ ?_
  · intro l
    constructor
    · rintro ⟨q, hq, _⟩; cases hq
    · rintro ⟨k, _, h2, h3⟩; have := h2.1; omega
  · intro j hj
    obtain rfl : j = 0 := by omega
    rw [List.getElem?_eq_getElem hlt]; rfl

/-- The runs of a part of a text, relative to it. -/
structure Part (runs : List (Int × α)) (start n : Nat) (adds : List (Int × α)) : Prop where
  sorted : SortedLimits adds
  ends : endOf adds = some (n : Int)
  value : ∀ k : Nat, k < n → valueAt adds k = valueAt runs ((start + k : Nat) : Int)
  limit : ∀ l, EndsAt adds l ↔ (0 < l ∧ l < n ∧ EndsAt runs (start + l)) ∨ l = n

theorem mem_emitList (offset length : Int) : ∀ (runs : List (Int × α)), SortedLimits runs → (∃ p ∈ runs, length ≤ p.1 - offset) →
    ∀ l, EndsAt (emitList offset length runs) l ↔ (l < length ∧ EndsAt runs (offset + l)) ∨ l = length
  | [], _, h, l => by obtain ⟨p, hp, _⟩ := h; cases hp
  | (a, x) :: t, hs, h, l => by
    obtain ⟨h1, h2⟩ := List.pairwise_cons.1 hs
    unfold emitList
    by_cases hlt : a - offset < length
    · rw [if_pos hlt]
      have ih := mem_emitList offset length t h2 (by
        obtain ⟨p, hp, hle⟩ := h
        rcases List.mem_cons.1 hp with rfl | hp
        · simp only at hle; omega
        · exact ⟨p, hp, hle⟩) l
      constructor
      · rintro ⟨q, hq, rfl⟩
        rcases List.mem_cons.1 hq with rfl | hq
        · exact .inl ⟨hlt, _, List.mem_cons_self, by simp only; omega⟩
        · rcases ih.1 ⟨q, hq, rfl⟩ with ⟨g1, p, hp, g2⟩ | g
          · exact .inl ⟨g1, p, List.mem_cons_of_mem _ hp, g2⟩
          · exact .inr g
      · rintro (⟨g1, p, hp, g2⟩ | rfl)
        · rcases List.mem_cons.1 hp with rfl | hp
          · exact ⟨_, List.mem_cons_self, by simp only at g2 ⊢; omega⟩
          · obtain ⟨q, hq, e1⟩ := ih.2 (.inl ⟨g1, p, hp, g2⟩)
            exact ⟨q, List.mem_cons_of_mem _ hq, e1⟩
        · obtain ⟨q, hq, e1⟩ := ih.2 (.inr rfl)
          exact ⟨q, List.mem_cons_of_mem _ hq, e1⟩
    · rw [if_neg hlt]
      constructor
      · rintro ⟨q, hq, rfl⟩
        rw [List.mem_singleton] at hq; subst hq; exact .inr rfl
      · rintro (⟨g1, p, hp, g2⟩ | rfl)
        · rcases List.mem_cons.1 hp with rfl | hp
          · simp only at g2; omega
          · have := h1 p hp; simp only at this; omega
        · exact ⟨_, List.mem_singleton.2 rfl, rfl⟩

theorem getRunsSubset_part (runs : List (Int × α)) (hs : SortedLimits runs) (start n : Nat) (e : Int) (h0 : 0 < n)
    (he : endOf runs = some e) (hin : ((start + n : Nat) : Int) ≤ e) :
    ∃ adds, (ValueRuns.ofAdds runs).getRunsSubset start n {} = some (ValueRuns.ofAdds adds) ∧ Part runs start n adds := by
  have hH := ValueRuns.holds_ofAdds runs
  obtain ⟨j, h1, _, h3, h4, h4'⟩ := skipRuns_eq hH.shows (start : Int) 0 (by omega)
  have h5 := emitRuns_eq hH.shows (start : Int) (n : Int) j h3
  have hcalls : (ValueRuns.ofAdds runs).view.forEachRunInRange start n
      = some (emitList start n (runs.drop j)) := by
    simp [RunView.forEachRunInRange, h1, h5]
  have hsd : SortedLimits (runs.drop j) := List.Pairwise.sublist (List.drop_sublist _ _) hs
  have hne := endOf_ne he
  have hl := endOf_getElem he (by omega)
  have hj : j < runs.length := by
    by_cases hj : j < runs.length
    · exact hj
    · have := h4 (runs.length - 1) (by omega) (by omega) (by omega)
      omega
  have hex : ∃ p ∈ runs.drop j, (n : Int) ≤ p.1 - start := by
    refine ⟨runs[runs.length - 1], ?_, by omega⟩
    rw [List.mem_iff_getElem]
    exact ⟨runs.length - 1 - j, by simp; omega, by simp; congr 1; omega⟩
  have hgt : ∀ q ∈ runs.drop j, (start : Int) < q.1 := by
    intro q hq
    rw [List.drop_eq_getElem_cons hj] at hsd hq
    have h6 := h4' hj
    rcases List.mem_cons.1 hq with rfl | hq
    · exact h6
    · have := (List.pairwise_cons.1 hsd).1 q hq; omega
  refine ⟨emitList start n (runs.drop j), ?_, ?_, ?_, ?_, ?_⟩
  · rw [ValueRuns.getRunsSubset, hcalls]; rfl
  · exact (emitList_sorted _ _ _ hsd).1
  · exact endOf_emitList _ _ _ hex
  · intro k hk
    rw [valueAt_emitList _ _ _ _ (by omega), Int.natCast_add]
    exact valueAt_drop runs j _ fun k' hk' hk'j => by
      have := h4 k' hk' (by omega) hk'j
      omega
  · intro l
    rw [mem_emitList _ _ _ hsd hex]
    constructor
    · rintro (⟨g1, q, hq, g2⟩ | g)
      · exact .inl ⟨by have := hgt q hq; omega, g1, q, List.mem_of_mem_drop hq, g2⟩
      · exact .inr g
    · rintro (⟨g0, g1, q, hq, g2⟩ | g)
      · refine .inl ⟨g1, q, ?_, g2⟩
        obtain ⟨i, hi, rfl⟩ := List.mem_iff_getElem.1 hq
        rcases Nat.lt_or_ge i j with hij | hij
        · have := h4 i hi (by omega) hij; omega
        · rw [List.mem_iff_getElem]
          exact ⟨i - j, by simp; omega, by simp; congr 1; omega⟩
      · exact .inr g

/-! ### Walks -/

/-- From `off` on, step by step, up to `stop`. -/
inductive Walk (Step : Nat → β × Nat → Prop) (stop : Nat) : Nat → List (β × Nat) → Prop
  | done {off : Nat} : stop ≤ off → Walk Step stop off []
  | step {off : Nat} {r : β × Nat} {rest : List (β × Nat)} : off < stop → Step off r → Walk Step stop r.2 rest →
      Walk Step stop off (r :: rest)

/-- The value at `i` of a list of values with their ends. -/
def valueOf (w : List (β × Nat)) (i : Nat) : Option β := (w.find? fun r => decide (i < r.2)).map (·.1)

theorem Walk.ascend {Step : Nat → β × Nat → Prop} {stop : Nat} (hp : ∀ i r, i < stop → Step i r → i < r.2) {off : Nat}
    {w : List (β × Nat)} (h : Walk Step stop off w) : (∀ r ∈ w, off < r.2) ∧ w.Pairwise fun a b => a.2 < b.2 := by
  induction h with
  | done => exact ⟨(fun r hr => by cases hr), .nil⟩
  | @step off r rest hlt hs _ ih =>
    have h1 := hp off r hlt hs
    refine ⟨?_, List.pairwise_cons.2 ⟨ih.1, ih.2⟩⟩
    intro x hx
    rcases List.mem_cons.1 hx with rfl | hx
    · exact h1
    · have := ih.1 x hx; omega

/-- What covers a position: the first with a limit beyond it. -/
def covering (calls : List (Nat × α)) (i : Nat) : Option (Nat × α) := calls.find? fun c => decide (i < c.1)

theorem covering_append {pre calls : List (Nat × α)} {i : Nat} (h : ∀ c ∈ pre, c.1 ≤ i) :
    covering (pre ++ calls) i = covering calls i := by
  unfold covering
  rw [List.find?_append, List.find?_eq_none.2 (fun c hc => by have := h c hc; simp; omega)]
  rfl

theorem covering_cons {c : Nat × α} {calls : List (Nat × α)} {i : Nat} (h : i < c.1) : covering (c :: calls) i = some c := by
  unfold covering
  rw [List.find?_cons_of_pos (by simpa using h)]

theorem covering_const {calls : List (Nat × α)} (hs : calls.Pairwise fun a b => a.1 ≤ b.1) {i j : Nat} {c : Nat × α}
    (h : covering calls i = some c) (hij : i ≤ j) (hj : j < c.1) : covering calls j = some c := by
  unfold covering at h ⊢
  obtain ⟨h1, as, bs, rfl, h3⟩ := List.find?_eq_some_iff_append.1 h
  rw [List.find?_append, List.find?_eq_none.2, List.find?_cons_of_pos (by simpa using hj)]
  · rfl
  · intro x hx
    have := h3 x hx
    simp at this ⊢
    omega

theorem covering_least {calls : List (Nat × α)} (hs : calls.Pairwise fun a b => a.1 ≤ b.1) {i : Nat} {c : Nat × α}
    (h : covering calls i = some c) : i < c.1 ∧ c ∈ calls ∧ ∀ x ∈ calls, i < x.1 → c.1 ≤ x.1 := by
  unfold covering at h
  obtain ⟨h1, as, bs, rfl, h3⟩ := List.find?_eq_some_iff_append.1 h
  refine ⟨by simpa using h1, by simp, ?_⟩
  intro x hx hix
  rcases List.mem_append.1 hx with hx | hx
  · have := h3 x hx; simp at this; omega
  · rcases List.mem_cons.1 hx with rfl | hx
    · exact Nat.le_refl _
    · exact (List.pairwise_cons.1 (List.pairwise_append.1 hs).2.1).1 x hx

/-- A list with ascending limits is a walk over what covers the positions. -/
theorem walk_covering {all : List (Nat × α)} {n : Nat} (hlast : all.getLast?.map (·.1) = some n) :
    ∀ (calls pre : List (Nat × α)) (off : Nat), all = pre ++ calls → (∀ c ∈ pre, c.1 ≤ off) →
      (calls.Pairwise fun a b => a.1 < b.1) → (∀ c ∈ calls, off < c.1) → (∀ c ∈ calls, c.1 ≤ n) → 
      Walk (fun i r => covering all i = some (r.2, r.1)) n off (calls.map fun c => (c.2, c.1))
  | [], pre, off, h, hpre, _, _, _ => by
    refine .done ?_
    rw [List.append_nil] at h
    subst h
    cases hl : all.getLast? with
    | none => rw [hl] at hlast; cases hlast
    | some c =>
      rw [hl] at hlast
      have := hpre c (List.mem_of_getLast? hl)
      simp at hlast; omega
  | c :: t, pre, off, h, hpre, hs, hgt, hle => by
    obtain ⟨h1, h2⟩ := List.pairwise_cons.1 hs
    have h3 := hgt c List.mem_cons_self
    have h4 := hle c List.mem_cons_self
    refine .step (by omega) ?_ ?_
    · rw [h, covering_append hpre, covering_cons h3]
    · refine walk_covering hlast t (pre ++ [c]) c.1 (by rw [h]; simp) ?_ h2 (fun x hx => h1 x hx)
        (fun x hx => hle x (List.mem_cons_of_mem _ hx))
      intro x hx
      rcases List.mem_append.1 hx with hx | hx
      · have := hpre x hx; omega
      · rw [List.mem_singleton] at hx; subst hx; exact Nat.le_refl _

/-! ### The two ways to find the runs -/

theorem walks_agree {κ κ' : Type _} {get : κ → Nat → Nat → φ × Nat} {n : Nat} {Rc : Nat → Option (κ × Nat)}
    {Nc : Nat → Option (κ' × Nat)} {key : κ' → κ} {Fc : Nat → Option ((φ × β) × Nat)} {info : κ' → β} {info' : Nat → β}
    {Chg : Nat → Prop}
    (hR : ∀ i, i < n → ∃ k l, Rc i = some (k, l) ∧ i < l ∧ l ≤ n)
    (hconst : ∀ i j k l, Rc i = some (k, l) → i ≤ j → j < l → Rc j = some (k, l))
    (hget : ∀ k i l, i < l → i < (get k i l).2 ∧ (get k i l).2 ≤ l)
    (hN : ∀ i k l, i < n → Rc i = some (k, l) → ∃ k' l', Nc i = some (k', l') ∧ key k' = k ∧ info k' = info' i ∧ i < l' ∧ l' ≤ l ∧
      (l' = l ∨ Chg l') ∧ ∀ c, Chg c → i < c → l' ≤ c)
    (hcut : ∀ k m, Chg m → CutAt (get k) m) {w0 : List (φ × Nat)}
    (h0 : Walk (fun i r => ∃ k l, Rc i = some (k, l) ∧ r = get k i l) n 0 w0)
    (hF : ∀ i, i < n → ∃ x l, Fc i = some ((x, info' i), l) ∧ valueOf w0 i = some x ∧ i < l ∧ ((∃ r ∈ w0, r.2 = l) ∨ Chg l) ∧
      (∀ r ∈ w0, i < r.2 → l ≤ r.2) ∧ ∀ c, Chg c → i < c → l ≤ c) :
    ∀ {off : Nat} {wf : List ((φ × β) × Nat)} {wn : List ((φ × κ') × Nat)},
      Walk (fun i r => Fc i = some r) n off wf →
      Walk (fun i r => ∃ k l, Nc i = some (k, l) ∧ r = (((get (key k) i l).1, k), (get (key k) i l).2)) n off wn →
      (off < n → ∃ pre f b post, w0 = pre ++ (f, b) :: post ∧ (∀ r ∈ pre, r.2 ≤ off) ∧ off < b ∧
        (∃ k l, Rc off = some (k, l) ∧ (f, b) = get k off l) ∧
        Walk (fun i r => ∃ k l, Rc i = some (k, l) ∧ r = get k i l) n b post) →
      wf = wn.map fun r => ((r.1.1, info r.1.2), r.2) := by
  have hasc := h0.ascend (fun i r hi hs => by
    obtain ⟨k, l, hk, rfl⟩ := hs
    obtain ⟨k', l', hk', h1, _⟩ := hR i hi
    rw [hk] at hk'; cases hk'
    exact (hget k i l h1).1)
  intro off wf wn hwf
  induction hwf generalizing wn with
  | @done off hge =>
    intro hwn _
    cases hwn with
    | done => rfl
    | step hlt => omega
  | @step off rf restf hlt hsf hwf ih =>
    intro hwn hinv
    cases hwn with
    | done => omega
    | @step _ rn restn _ hsn hwn =>
      obtain ⟨k', l', hNc, rfl⟩ := hsn
      obtain ⟨pre, f, b, post, hw, hpre, hb, ⟨k, l, hRc, hg⟩, hpost⟩ := hinv hlt
      obtain ⟨k'', l'', hNc', hkey, hinfo, hil, hle, hor, hmin⟩ := hN off k l hlt hRc
      rw [hNc] at hNc'
      cases hNc'
      rw [hkey] at hwn ⊢
      obtain ⟨x, lf, hFc, hx, hilf, hlf, hlf1, hlf2⟩ := hF off hlt
      rw [hFc] at hsf
      cases hsf
      obtain ⟨k2, l2, hRc2, hol, hln⟩ := hR off hlt
      rw [hRc] at hRc2
      cases hRc2
      obtain ⟨g1, g2⟩ := hget k off l hol
      have hxf : x = f := by
        unfold valueOf at hx
        rw [hw, List.find?_append, List.find?_eq_none.2 (fun r hr => by have := hpre r hr; simp; omega),
          Option.none_or, List.find?_cons_of_pos (by simpa using hb)] at hx
        exact (Option.some.inj hx).symm
      subst hxf
      have hbmem : (x, b) ∈ w0 := by rw [hw]; simp
      have hstop : ∀ r ∈ w0, off < r.2 → b ≤ r.2 := by
        intro r hr hor
        rw [hw] at hr hasc
        rcases List.mem_append.1 hr with hr | hr
        · have := hpre r hr; omega
        · rcases List.mem_cons.1 hr with rfl | hr
          · exact Nat.le_refl _
          · have := (List.pairwise_cons.1 (List.pairwise_append.1 hasc.2).2.1).1 r hr
            simp only at this; omega
      have hgb : (get k off l).2 = b := by rw [← hg]
      have hgx : (get k off l).1 = x := by rw [← hg]
      have hbl : b ≤ l := by omega
      -- the invariant behind the segment
      have hnext : ∀ (p : Nat), p = b → p < n → ∃ pre f b post, w0 = pre ++ (f, b) :: post ∧ (∀ r ∈ pre, r.2 ≤ p) ∧ p < b ∧
          (∃ k l, Rc p = some (k, l) ∧ (f, b) = get k p l) ∧
          Walk (fun i r => ∃ k l, Rc i = some (k, l) ∧ r = get k i l) n b post := by
        rintro p rfl hpn
        cases hpost with
        | done => omega
        | @step _ r2 rest2 _ hs2 hw2 =>
          obtain ⟨f2, b2⟩ := r2
          obtain ⟨k3, l3, h31, h32⟩ := hs2
          obtain ⟨k4, l4, h41, h42, _⟩ := hR p hpn
          rw [h31] at h41; cases h41
          have h5 := (hget k3 p l3 h42).1
          rw [← h32] at h5
          refine ⟨pre ++ [(x, p)], f2, b2, rest2, by rw [hw]; simp, ?_, h5, ⟨k3, l3, h31, h32⟩, hw2⟩
          intro r hr
          rcases List.mem_append.1 hr with hr | hr
          · have := hpre r hr; omega
          · rw [List.mem_singleton] at hr; subst hr; exact Nat.le_refl _
      by_cases hcase : (l' = l) ∨ b ≤ l'
      · -- the answer is the same
        have hgl : get k off l' = get k off l := by
          rcases Nat.eq_or_lt_of_le hle with rfl | hlt'
          · rfl
          · have hc : Chg l' := by rcases hor with rfl | hor; · omega
                                   · exact hor
            refine (hcut k l' hc off l hil hlt').1 ?_
            rcases hcase with rfl | hcase
            · omega
            · omega
        rw [hgl, hgb] at hwn
        rw [hgl, hgb, hgx]
        have hlfb : lf = b := by
          have h1 := hlf1 _ hbmem hb
          simp only at h1
          rcases hlf with ⟨r, hr, rfl⟩ | hc
          · have := hstop r hr hilf; omega
          · have h2 := hmin lf hc hilf
            rcases hcase with rfl | hcase
            · omega
            · omega
        subst hlfb
        rw [List.map_cons]
        simp only [hinfo]
        rw [ih hwn (hnext _ rfl)]
      · -- cut at a change of level
        have hlt' : l' < l := by omega
        have hc : Chg l' := by rcases hor with rfl | hor; · omega
                               · exact hor
        obtain ⟨c1, c2⟩ := (hcut k l' hc off l hil hlt').2 (by omega)
        rw [c1] at hwn
        rw [c1, hgx]
        simp only at hwn ⊢
        have hlfb : lf = l' := by
          have h1 := hlf2 l' hc hil
          rcases hlf with ⟨r, hr, rfl⟩ | hcc
          · have := hstop r hr hilf; omega
          · have := hmin lf hcc hilf; omega
        subst hlfb
        rw [List.map_cons]
        simp only [hinfo]
        rw [ih hwn ?_]
        intro _
        refine ⟨pre, x, b, post, hw, fun r hr => ?_, by simp only; omega, ⟨k, l, hconst off lf k l hRc (by omega) hlt', ?_⟩, hpost⟩
        · have := hpre r hr; simp only; omega
        · simp only; rw [c2]; exact hg

/-! ### The calls with their arguments -/

def SubKey.values (k : SubKey) : List (RefValue φ) :=
  [.font k.font, .script k.script, .flag k.smallcaps, .flag k.subscript, .flag k.superscript]

def enc {κ : Type _} (vals : κ → List α) (c : Nat × κ) : Int × List α := ((c.1 : Int), vals c.2)

theorem exists_enc {κ : Type _} (vals : κ → List α) : ∀ (calls : List (Int × List α)), (∀ c ∈ calls, 0 ≤ c.1) →
    (∀ c ∈ calls, ∃ k, c.2 = vals k) → ∃ rc : List (Nat × κ), calls = rc.map (enc vals)
  | [], _, _ => ⟨[], rfl⟩
  | c :: t, h1, h2 => by
    obtain ⟨rc, rfl⟩ := exists_enc vals t (fun c hc => h1 c (List.mem_cons_of_mem _ hc)) (fun c hc => h2 c (List.mem_cons_of_mem _ hc))
    obtain ⟨k, hk⟩ := h2 c List.mem_cons_self
    have := h1 c List.mem_cons_self
    refine ⟨(c.1.toNat, k) :: rc, ?_⟩
    rw [List.map_cons]
    congr 1
    unfold enc
    rw [← hk]
    ext1
    · simp only; omega
    · rfl

theorem covering_enc {κ : Type _} (vals : κ → List α) (rc : List (Nat × κ)) (i : Nat) :
    valueAt (rc.map (enc vals)) i = (covering rc i).map fun c => vals c.2 := by
  unfold valueAt covering
  rw [List.find?_map]
  simp only [Option.map_map]
  have : (fun r : Int × List α => decide ((i : Int) < r.1)) ∘ enc vals = fun c : Nat × κ => decide (i < c.1) := by
    funext c; simp [enc]
  rw [this]; rfl

theorem sorted_enc {κ : Type _} {vals : κ → List α} {rc : List (Nat × κ)} (h : SortedLimits (rc.map (enc vals))) :
    rc.Pairwise fun a b => a.1 ≤ b.1 := (List.pairwise_map.1 h).imp fun h => by simpa [enc] using h

theorem strict_enc {κ : Type _} {vals : κ → List α} {rc : List (Nat × κ)} (h : StrictLimits (rc.map (enc vals))) :
    rc.Pairwise fun a b => a.1 < b.1 := (List.pairwise_map.1 h).imp fun h => by simpa [enc] using h

theorem endOf_enc {κ : Type _} {vals : κ → List α} {rc : List (Nat × κ)} {n : Nat} (h : endOf (rc.map (enc vals)) = some (n : Int)) :
    rc.getLast?.map (·.1) = some n := by
  unfold endOf at h
  rw [List.getLast?_map, Option.map_map] at h
  cases hl : rc.getLast? with
  | none => rw [hl] at h; cases h
  | some c =>
    rw [hl] at h
    simp only [Option.map_some, Function.comp, enc, Option.some.injEq] at h
    simp only [Option.map_some]; congr 1; omega

theorem endsAt_enc {κ : Type _} (vals : κ → List α) (rc : List (Nat × κ)) (l : Nat) :
    EndsAt (rc.map (enc vals)) (l : Int) ↔ ∃ c ∈ rc, c.1 = l := by
  unfold EndsAt
  constructor
  · rintro ⟨q, hq, e⟩
    obtain ⟨c, hc, rfl⟩ := List.mem_map.1 hq
    exact ⟨c, hc, by simp only [enc] at e; omega⟩
  · rintro ⟨c, hc, rfl⟩
    exact ⟨_, List.mem_map.2 ⟨c, hc, rfl⟩, rfl⟩

theorem getLast_le {rc : List (Nat × α)} {n : Nat} (hs : rc.Pairwise fun a b => a.1 ≤ b.1) (h : rc.getLast?.map (·.1) = some n) :
    ∀ c ∈ rc, c.1 ≤ n := by
  intro c hc
  cases hl : rc.getLast? with
  | none => rw [hl] at h; cases h
  | some d =>
    rw [hl] at h
    simp at h
    obtain ⟨ys, rfl⟩ := List.getLast?_eq_some_iff.1 hl
    rcases List.mem_append.1 hc with hc | hc
    · have := (List.pairwise_append.1 hs).2.2 c hc d (by simp)
      omega
    · rw [List.mem_singleton] at hc; subst hc; omega

/-! ### The fonts -/

theorem refSubLoop_spec {g : Nat → Nat → φ × Nat} (hg : ∀ i l, i < l → i < (g i l).2 ∧ (g i l).2 ≤ l)
    {Step : Nat → φ × Nat → Prop} {n limit : Nat} (hn : limit ≤ n) : ∀ (m off : Nat) (adds : List (Int × φ)), limit - off = m →
    (∀ i, off ≤ i → i < limit → Step i (g i limit)) →
    ∃ o w, refSubLoop g limit off (ValueRuns.ofAdds adds) =
        some (o, ValueRuns.ofAdds (adds ++ w.map fun r : φ × Nat => ((r.2 : Int), r.1))) ∧
      limit ≤ o ∧ off ≤ o ∧ ∀ rest, Walk Step n o rest → Walk Step n off (w ++ rest) := by
  intro m
  induction m using Nat.strongRecOn with
  | ind m ih =>
    intro off adds hm hs
    unfold refSubLoop
    by_cases hlt : off < limit
    · obtain ⟨g1, g2⟩ := hg off limit hlt
      rw [if_pos hlt, if_pos g1, ofAdds_add]
      obtain ⟨o, w, h1, h2, h3, h4⟩ := ih (limit - (g off limit).2) (by omega) (g off limit).2
        (adds ++ [(((g off limit).2 : Int), (g off limit).1)]) rfl (fun i hi1 hi2 => hs i (by omega) hi2)
      refine ⟨o, g off limit :: w, ?_, h2, by omega, ?_⟩
      · rw [h1]; simp
      · intro rest hr
        exact .step (by omega) (hs off (Nat.le_refl _) hlt) (h4 rest hr)
    · rw [if_neg hlt]
      exact ⟨off, [], by simp, by omega, Nat.le_refl _, fun rest hr => hr⟩

theorem refSubCalls_spec {get : SubFontFn φ} (hg : ∀ k i l, i < l → i < (askFor get k i l).2 ∧ (askFor get k i l).2 ≤ l)
    {all : List (Nat × SubKey)} {n : Nat} (hs : all.Pairwise fun a b => a.1 ≤ b.1) (hlast : all.getLast?.map (·.1) = some n) :
    ∀ (calls pre : List (Nat × SubKey)) (off : Nat) (adds : List (Int × φ)), all = pre ++ calls → (∀ c ∈ pre, c.1 ≤ off) →
    ∃ w, refSubCalls get (calls.map (enc SubKey.values)) off (ValueRuns.ofAdds adds) =
        some (ValueRuns.ofAdds (adds ++ w.map fun r : φ × Nat => ((r.2 : Int), r.1))) ∧
      Walk (fun i r => ∃ k l, (covering all i).map (fun c => (c.2, c.1)) = some (k, l) ∧ r = askFor get k i l) n off w
  | [], pre, off, adds, h, hpre => by
    refine ⟨[], by simp [refSubCalls], .done ?_⟩
    rw [List.append_nil] at h
    subst h
    cases hl : all.getLast? with
    | none => rw [hl] at hlast; cases hlast
    | some c =>
      rw [hl] at hlast
      have := hpre c (List.mem_of_getLast? hl)
      simp at hlast; omega
  | c :: t, pre, off, adds, h, hpre => by
    have hcn := getLast_le hs hlast c (by rw [h]; simp)
    obtain ⟨o, w1, h1, h2, h3, h4⟩ := refSubLoop_spec (g := askFor get c.2)
      (Step := fun i r => ∃ k l, (covering all i).map (fun c => (c.2, c.1)) = some (k, l) ∧ r = askFor get k i l) (hg c.2) hcn
      _ off adds rfl (by
        intro i hi1 hi2
        refine ⟨c.2, c.1, ?_, rfl⟩
        rw [h, covering_append fun x hx => by have := hpre x hx; omega, covering_cons hi2]
        rfl)
    obtain ⟨w2, h5, h6⟩ := refSubCalls_spec hg hs hlast t (pre ++ [c]) o (adds ++ w1.map fun r : φ × Nat => ((r.2 : Int), r.1))
      (by rw [h]; simp) (by
        intro x hx
        rcases List.mem_append.1 hx with hx | hx
        · have := hpre x hx; omega
        · rw [List.mem_singleton] at hx; subst hx; exact h2)
    refine ⟨w1 ++ w2, ?_, h4 _ h6⟩
    show (match refSubLoop (askFor get c.2) (c.1 : Int).toNat off (ValueRuns.ofAdds adds) with
      | none => none
      | some (o, r) => refSubCalls get (t.map (enc SubKey.values)) o r) = _
    rw [Int.toNat_natCast, h1]
    simp only
    rw [h5]
    simp

/-- The walk stops at every limit. -/
theorem Walk.limits {get : SubFontFn φ} (hg : ∀ k i l, i < l → i < (askFor get k i l).2 ∧ (askFor get k i l).2 ≤ l)
    {all : List (Nat × SubKey)} {n : Nat} (hs : all.Pairwise fun a b => a.1 ≤ b.1) {off : Nat} {w : List (φ × Nat)}
    (h : Walk (fun i r => ∃ k l, (covering all i).map (fun c => (c.2, c.1)) = some (k, l) ∧ r = askFor get k i l) n off w) :
    ∀ c ∈ all, off < c.1 → c.1 ≤ n → ∃ r ∈ w, r.2 = c.1 := by
  induction h with
  | done hge => intro c _ h1 h2; omega
  | @step off r rest hlt hst _ ih =>
    intro c hc h1 h2
    obtain ⟨k, l, hk, rfl⟩ := hst
    obtain ⟨d, hd, e1⟩ := Option.map_eq_some_iff.1 hk
    cases e1
    obtain ⟨g1, g2, g3⟩ := covering_least hs hd
    obtain ⟨a1, a2⟩ := hg d.2 off d.1 g1
    have := g3 c hc h1
    rcases Nat.lt_or_ge (askFor get d.2 off d.1).2 c.1 with hlt' | hge
    · obtain ⟨x, hx, e⟩ := ih c hc hlt' h2
      exact ⟨x, List.mem_cons_of_mem _ hx, e⟩
    · exact ⟨_, List.mem_cons_self, by omega⟩

/-- What the runs are: the calls for fonts, the fonts, the logical runs. -/
structure RefOut (get : SubFontFn φ) (fl : List (Int × Font)) (f1 f2 f3 : List (Int × Bool)) (levels : List Nat)
    (scripts : List (Int × Int)) (start n : Nat) (rc : List (Nat × SubKey)) (w : List (φ × Nat))
    (fc : List (Nat × (φ × Nat × Int))) : Prop where
  sorted : rc.Pairwise fun a b => a.1 ≤ b.1
  last : rc.getLast?.map (·.1) = some n
  cover : ∀ i, i < n → ∃ k l, covering rc i = some (l, k) ∧ valueAt fl ((start + i : Nat) : Int) = some k.font ∧
    valueAt scripts (i : Int) = some k.script ∧ valueAt f1 ((start + i : Nat) : Int) = some k.smallcaps ∧
    valueAt f2 ((start + i : Nat) : Int) = some k.subscript ∧ valueAt f3 ((start + i : Nat) : Int) = some k.superscript
  limit : ∀ l : Nat, (∃ c ∈ rc, c.1 = l) ↔ (0 < l ∧ l < n ∧ (EndsAt fl ((start + l : Nat) : Int) ∨ EndsAt f1 ((start + l : Nat) : Int) ∨
    EndsAt f2 ((start + l : Nat) : Int) ∨ EndsAt f3 ((start + l : Nat) : Int))) ∨ EndsAt scripts (l : Int) ∨ l = n
  walk : Walk (fun i r => ∃ k l, (covering rc i).map (fun c => (c.2, c.1)) = some (k, l) ∧ r = askFor get k i l) n 0 w
  strict : fc.Pairwise fun a b => a.1 < b.1
  stop : fc.getLast?.map (·.1) = some n
  right : ∀ i, i < n → ∃ x l lev s, covering fc i = some (l, (x, lev, s)) ∧ valueOf w i = some x ∧ levels[i]? = some lev ∧
    valueAt scripts (i : Int) = some s
  ends : ∀ l : Nat, (∃ c ∈ fc, c.1 = l) ↔ (∃ r ∈ w, r.2 = l) ∨ Change levels n l

theorem RunsFit.ofAdds {r : ValueRuns α} {n : Nat} (h : RunsFit r n) : r = ValueRuns.ofAdds (r.limits.zip r.values) := by
  have h1 := ValueRuns.holds_ofAdds (r.limits.zip r.values)
  obtain ⟨a1, a2⟩ := h1
  rw [List.map_fst_zip (Nat.le_of_eq h.2.1.symm)] at a1
  rw [List.map_snd_zip (Nat.le_of_eq h.2.1)] at a2
  cases r with
  | mk values limits =>
    cases e : ValueRuns.ofAdds (limits.zip values) with
    | mk v l => rw [e] at a1 a2; simp only at a1 a2; rw [a1, a2]

theorem RunsFit.zip_sorted {r : ValueRuns α} {n : Nat} (h : RunsFit r n) : SortedLimits (r.limits.zip r.values) := by
  have := h.2.2.1
  rw [← List.map_fst_zip (l₁ := r.limits) (l₂ := r.values) (Nat.le_of_eq h.2.1.symm)] at this
  exact List.pairwise_map.1 this

theorem RunsFit.zip_end {r : ValueRuns α} {n : Nat} (h : RunsFit r n) : endOf (r.limits.zip r.values) = some (n : Int) := by
  have := h.2.2.2.2
  rw [← List.map_fst_zip (l₁ := r.limits) (l₂ := r.values) (Nat.le_of_eq h.2.1.symm), List.getLast?_map] at this
  exact this

theorem RunsFit.part {r : ValueRuns α} {total start n : Nat} (h : RunsFit r total) (h0 : 0 < n) (hin : start + n ≤ total) :
    ∃ adds, r.getRunsSubset start n {} = some (ValueRuns.ofAdds adds) ∧ Part (r.limits.zip r.values) start n adds := by
  have := getRunsSubset_part (r.limits.zip r.values) h.zip_sorted start n (total : Int) h0 h.zip_end (by omega)
  rw [← h.ofAdds] at this
  exact this

theorem flagSubset_part {runs : Option (ValueRuns Bool)} {total start n : Nat} (h : ∀ r, runs = some r → RunsFit r total)
    (h0 : 0 < n) (hin : start + n ≤ total) {fonts : ValueRuns Font} (hf : fonts.getLimit = some (n : Int)) :
    ∃ adds, flagSubset runs start n fonts = some (ValueRuns.ofAdds adds) ∧ Part (flagList runs total) start n adds := by
  cases runs with
  | none =>
    refine ⟨[((n : Int), false)], by simp [flagSubset, hf]; rfl, ?_, rfl, ?_, ?_⟩
    · exact List.pairwise_singleton _ _
    · intro k hk
      simp only [valueAt, flagList, List.find?_cons]
      rw [decide_eq_true (by omega : (k : Int) < (n : Int)), decide_eq_true (by omega : ((start + k : Nat) : Int) < (total : Int))]
      rfl
    · intro l
      constructor
      · rintro ⟨q, hq, rfl⟩; rw [List.mem_singleton] at hq; subst hq; exact .inr rfl
      · rintro (⟨g0, g1, q, hq, g2⟩ | rfl)
        · simp only [flagList, List.mem_singleton] at hq; subst hq; simp only at g2; omega
        · exact ⟨_, List.mem_singleton.2 rfl, rfl⟩
  | some r => exact (h r rfl).part h0 hin

theorem ScriptRuns.adds : ∀ (rs : List ScriptRun) (n i : Nat), ScriptRuns n i rs → i < n →
    StrictLimits (rs.map fun r => ((r.limit : Int), r.script)) ∧
    endOf (rs.map fun r => ((r.limit : Int), r.script)) = some (n : Int) ∧
    ∀ q ∈ rs.map fun r => ((r.limit : Int), r.script), (i : Int) < q.1
  | [], n, i, h, hi => by have : i = n := h; omega
  | r :: t, n, i, h, hi => by
    obtain ⟨h1, h2, h3⟩ := h
    by_cases hl : r.limit < n
    · obtain ⟨g1, g2, g3⟩ := ScriptRuns.adds t n r.limit h3 hl
      refine ⟨?_, ?_, ?_⟩
      · exact List.pairwise_cons.2 ⟨fun q hq => g3 q hq, g1⟩
      · unfold endOf at g2 ⊢
        rw [List.map_cons]
        cases ht : t.map (fun r : ScriptRun => ((r.limit : Int), r.script)) with
        | nil => rw [ht] at g2; cases g2
        | cons a b => rw [ht] at g2; simpa [List.getLast?_cons] using g2
      · intro q hq
        rcases List.mem_cons.1 hq with rfl | hq
        · simp only; omega
        · have := g3 q hq; omega
    · cases t with
      | nil =>
        have : r.limit = n := h3
        refine ⟨List.pairwise_singleton _ _, by simp [endOf, this], ?_⟩
        intro q hq
        simp only [List.map_cons, List.map_nil, List.mem_singleton] at hq
        subst hq; simp only; omega
      | cons a b =>
        exfalso
        have : ∀ (l : List ScriptRun) (i : Nat), ScriptRuns n i l → i ≤ n := by
          intro l
          induction l with
          | nil => intro i h; exact Nat.le_of_eq h
          | cons x y ih => intro i h; obtain ⟨p1, p2, p3⟩ := h; have := ih _ p3; omega
        obtain ⟨p1, p2, p3⟩ := h3
        have := this _ _ p3
        omega

/-- The values at an index, in order. -/
theorem forall₂_five {R : List (Int × α) → α → Prop} {a b c d e : List (Int × α)} {xs : List α}
    (h : List.Forall₂ R [a, b, c, d, e] xs) : ∃ x1 x2 x3 x4 x5, xs = [x1, x2, x3, x4, x5] ∧ R a x1 ∧ R b x2 ∧ R c x3 ∧ R d x4 ∧ R e x5 := by
  cases h with
  | cons h1 h => cases h with
    | cons h2 h => cases h with
      | cons h3 h => cases h with
        | cons h4 h => cases h with
          | cons h5 h => cases h; exact ⟨_, _, _, _, _, rfl, h1, h2, h3, h4, h5⟩

theorem forall₂_four {R : List (Int × α) → α → Prop} {a b c d : List (Int × α)} {xs : List α}
    (h : List.Forall₂ R [a, b, c, d] xs) : ∃ x1 x2 x3 x4, xs = [x1, x2, x3, x4] ∧ R a x1 ∧ R b x2 ∧ R c x3 ∧ R d x4 := by
  cases h with
  | cons h1 h => cases h with
    | cons h2 h => cases h with
      | cons h3 h => cases h with
        | cons h4 h => cases h; exact ⟨_, _, _, _, rfl, h1, h2, h3, h4⟩

theorem mem_wrapped {f : α → β} {adds : List (Int × α)} {y : β} (h : y ∈ (adds.map fun q => (q.1, f q.2)).map (·.2)) :
    ∃ x, y = f x := by
  obtain ⟨q, hq, rfl⟩ := List.mem_map.1 h
  obtain ⟨p, _, rfl⟩ := List.mem_map.1 hq
  exact ⟨_, rfl⟩

/-- The arguments of the functor of `build_sub_paragraph`. -/
def runValues (k : φ × Nat × Int) : List (RefValue φ) := [.sub k.1, .level k.2.1, .script k.2.2, .locale]

theorem computeScripts_spec {t : ScriptText} {n : Nat} (hf : t.Forward) (hl : t.len = n) (h0 : 0 < n) :
    ∃ rs, ScriptRunIter.init.all t n = some rs ∧
      computeScripts t n = some (ValueRuns.ofAdds (rs.map fun r => ((r.limit : Int), r.script))) ∧
      StrictLimits (rs.map fun r => ((r.limit : Int), r.script)) ∧
      endOf (rs.map fun r => ((r.limit : Int), r.script)) = some (n : Int) ∧
      ∀ q ∈ rs.map fun r => ((r.limit : Int), r.script), 0 < q.1 := by
  obtain ⟨rs, h1, _, h3⟩ := all_spec hf _ n .init [] rfl (by rw [hl]; exact Nat.sub_le _ _) (Nat.zero_le _) Rep.init
  refine ⟨rs, h1, by unfold computeScripts; rw [h1]; rfl, ?_⟩
  rw [hl] at h3
  exact ScriptRuns.adds rs n 0 h3 h0

theorem refLogicalRuns_spec {get : SubFontFn φ} (hg : ∀ k i l, i < l → i < (askFor get k i l).2 ∧ (askFor get k i l).2 ≤ l)
    {total start n : Nat} {fonts : ValueRuns Font} {smallcaps subscript superscript : Option (ValueRuns Bool)}
    {levels : List Nat} {t : ScriptText} (h : RefIn total start n fonts smallcaps subscript superscript levels t) :
    ∃ rs rc w fc, ScriptRunIter.init.all t n = some rs ∧
      refLogicalRuns get levels t start n fonts smallcaps subscript superscript =
        some (fc.map fun c => ⟨c.2.1, c.2.2.1, c.2.2.2, c.1⟩) ∧
      RefOut get (fonts.limits.zip fonts.values) (flagList smallcaps total) (flagList subscript total) (flagList superscript total)
        levels (rs.map fun r => ((r.limit : Int), r.script)) start n rc w fc := by
  obtain ⟨fl, f1, f2⟩ := h.fonts.part h.pos h.inside
  have hfl : (ValueRuns.ofAdds fl).getLimit = some (n : Int) := by rw [(ValueRuns.holds_ofAdds fl).getLimit]; exact f2.ends
  obtain ⟨a, a1, a2⟩ := flagSubset_part h.smallcaps h.pos h.inside hfl
  obtain ⟨b, b1, b2⟩ := flagSubset_part h.subscript h.pos h.inside hfl
  obtain ⟨c, c1, c2⟩ := flagSubset_part h.superscript h.pos h.inside hfl
  obtain ⟨lv, l1, l2, l3, l4, l5⟩ := computeLevels_spec h.levels h.pos
  obtain ⟨rs, s0, s1, s2, s3, s4⟩ := computeScripts_spec h.forward h.length h.pos
  generalize hsc : (rs.map fun r => ((r.limit : Int), r.script)) = sc at s1 s2 s3 s4 ⊢
  have hnp : (0 : Int) < n := by have := h.pos; omega
  -- the calls for fonts
  let L : List (List (Int × RefValue φ)) := [fl.map fun q => (q.1, .font q.2), sc.map fun q => (q.1, .script q.2),
    a.map fun q => (q.1, .flag q.2), b.map fun q => (q.1, .flag q.2), c.map fun q => (q.1, .flag q.2)]
  have hLs : ∀ r ∈ L, SortedLimits r := by
    intro r hr
    simp only [L, List.mem_cons, List.not_mem_nil, or_false] at hr
    rcases hr with rfl | rfl | rfl | rfl | rfl
    · exact sorted_map _ f2.sorted
    · exact sorted_map _ s2.sorted
    · exact sorted_map _ a2.sorted
    · exact sorted_map _ b2.sorted
    · exact sorted_map _ c2.sorted
  have hLe : ∀ r ∈ L, endOf r = some (n : Int) := by
    intro r hr
    simp only [L, List.mem_cons, List.not_mem_nil, or_false] at hr
    rcases hr with rfl | rfl | rfl | rfl | rfl
    · rw [endOf_map]; exact f2.ends
    · rw [endOf_map]; exact s3
    · rw [endOf_map]; exact a2.ends
    · rw [endOf_map]; exact b2.ends
    · rw [endOf_map]; exact c2.ends
  obtain ⟨calls, k1, k2, k3, k4, k5⟩ := iterateRunIntersections_spec L (n : Int) (by simp [L]) hLs hLe hnp
  obtain ⟨m1, _⟩ := iterateRunIntersections_more L (n : Int) calls (by simp [L]) hLs hLe k1
  have k5' : ∀ l, EndsAt calls l ↔ EndsAt fl l ∨ EndsAt sc l ∨ EndsAt a l ∨ EndsAt b l ∨ EndsAt c l := by
    intro l
    rw [show EndsAt calls l ↔ _ from k5 l]
    simp only [L, List.mem_cons, List.not_mem_nil, or_false, exists_eq_or_imp, exists_eq_left]
    rw [← endsAt_map (RefValue.font (φ := φ)) fl, ← endsAt_map (RefValue.script (φ := φ)) sc, ← endsAt_map (RefValue.flag (φ := φ)) a,
      ← endsAt_map (RefValue.flag (φ := φ)) b, ← endsAt_map (RefValue.flag (φ := φ)) c]
    rfl
  have hpos : ∀ l, EndsAt calls l → 0 < l := by
    intro l hl
    rcases (k5' l).1 hl with g | g | g | g | g
    · rcases (f2.limit l).1 g with g | g <;> omega
    · obtain ⟨q, hq, rfl⟩ := g; exact s4 q hq
    · rcases (a2.limit l).1 g with g | g <;> omega
    · rcases (b2.limit l).1 g with g | g <;> omega
    · rcases (c2.limit l).1 g with g | g <;> omega
  obtain ⟨rc, hrc⟩ := exists_enc (SubKey.values (φ := φ)) calls (fun c hc => Int.le_of_lt (hpos c.1 ⟨c, hc, rfl⟩)) (by
    intro cl hc
    obtain ⟨x1, x2, x3, x4, x5, e, g1, g2, g3, g4, g5⟩ := forall₂_five (m1 cl hc)
    obtain ⟨y1, rfl⟩ := mem_wrapped g1
    obtain ⟨y2, rfl⟩ := mem_wrapped g2
    obtain ⟨y3, rfl⟩ := mem_wrapped g3
    obtain ⟨y4, rfl⟩ := mem_wrapped g4
    obtain ⟨y5, rfl⟩ := mem_wrapped g5
    exact ⟨⟨y1, y2, y3, y4, y5⟩, e⟩)
  subst hrc
  have hrs := sorted_enc k2
  have hrl := endOf_enc k3
  obtain ⟨w, w1, w2⟩ := refSubCalls_spec hg hrs hrl rc [] 0 [] rfl (fun x hx => by cases hx)
  have hasc := w2.ascend (fun i r _ hs => by
    obtain ⟨k, l, hk, rfl⟩ := hs
    obtain ⟨d, hd, e1⟩ := Option.map_eq_some_iff.1 hk
    cases e1
    exact (hg _ i _ (covering_least hrs hd).1).1)
  -- the logical runs
  let wa : List (Int × φ) := w.map fun r => ((r.2 : Int), r.1)
  have hlim := w2.limits hg hrs
  have hcl : ∀ (l : Nat), EndsAt (rc.map (enc (SubKey.values (φ := φ)))) (l : Int) → ∃ r ∈ w, r.2 = l := by
    intro l hl
    have hp := hpos _ hl
    obtain ⟨d, hd, rfl⟩ := (endsAt_enc _ rc l).1 hl
    exact hlim d hd (by omega) (getLast_le hrs hrl d hd)
  have hwn : ∃ r ∈ w, r.2 = n := hcl n ((k5' n).2 (.inl ((f2.limit n).2 (.inr rfl))))
  have hwle : ∀ r ∈ w, r.2 ≤ n := by
    have : ∀ {off : Nat} {w : List (φ × Nat)}, Walk (fun i r => ∃ k l, (covering rc i).map (fun c => (c.2, c.1)) = some (k, l) ∧
        r = askFor get k i l) n off w → ∀ r ∈ w, r.2 ≤ n := by
      intro off w hw
      induction hw with
      | done => intro r hr; cases hr
      | step hlt hs _ ih =>
        intro r hr
        rcases List.mem_cons.1 hr with rfl | hr
        · obtain ⟨k, l, hk, rfl⟩ := hs
          obtain ⟨d, hd, e1⟩ := Option.map_eq_some_iff.1 hk
          cases e1
          obtain ⟨p1, p2, _⟩ := covering_least hrs hd
          have := getLast_le hrs hrl d p2
          have := (hg d.2 _ _ p1).2
          omega
        · exact ih r hr
    exact this w2
  have was : StrictLimits wa := List.pairwise_map.2 (hasc.2.imp fun h => by simpa using h)
  have wae : endOf wa = some (n : Int) := by
    obtain ⟨r, hr, hrn⟩ := hwn
    have hne : w ≠ [] := by rintro rfl; cases hr
    have h1 := List.getLast?_eq_some_getLast hne
    simp only [endOf, wa, List.getLast?_map, h1, Option.map_some]
    obtain ⟨ys, hys⟩ := List.getLast?_eq_some_iff.1 h1
    have h2 := hwle _ (List.getLast_mem hne)
    rw [hys] at hr
    rcases List.mem_append.1 hr with hr | hr
    · rw [hys] at hasc
      have := (List.pairwise_append.1 hasc.2).2.2 r hr _ (List.mem_singleton.2 rfl)
      omega
    · rw [List.mem_singleton] at hr
      rw [← hr]; congr 1; omega
  have wav : ∀ i : Nat, valueAt wa i = valueOf w i := by
    intro i
    simp only [valueAt, valueOf, wa, List.find?_map, Option.map_map]
    have : (fun r : Int × φ => decide ((i : Int) < r.1)) ∘ (fun r : φ × Nat => ((r.2 : Int), r.1)) = fun c : φ × Nat => decide (i < c.2) := by
      funext c; simp
    rw [this]; rfl
  have wal : ∀ l : Nat, EndsAt wa l ↔ ∃ r ∈ w, r.2 = l := by
    intro l
    constructor
    · rintro ⟨q, hq, e⟩
      obtain ⟨r, hr, rfl⟩ := List.mem_map.1 hq
      exact ⟨r, hr, by simp only at e; omega⟩
    · rintro ⟨r, hr, rfl⟩
      exact ⟨_, List.mem_map.2 ⟨r, hr, rfl⟩, rfl⟩
  let M : List (List (Int × RefValue φ)) := [wa.map fun q => (q.1, .sub q.2), lv.map fun q => (q.1, .level q.2),
    sc.map fun q => (q.1, .script q.2), [((n : Int), ())].map fun q => (q.1, .locale)]
  have hMst : ∀ r ∈ M, StrictLimits r := by
    intro r hr
    simp only [M, List.mem_cons, List.not_mem_nil, or_false] at hr
    rcases hr with rfl | rfl | rfl | rfl
    · exact strict_map _ was
    · exact strict_map _ l2
    · exact strict_map _ s2
    · exact List.pairwise_singleton _ _
  have hMe : ∀ r ∈ M, endOf r = some (n : Int) := by
    intro r hr
    simp only [M, List.mem_cons, List.not_mem_nil, or_false] at hr
    rcases hr with rfl | rfl | rfl | rfl
    · rw [endOf_map]; exact wae
    · rw [endOf_map]; exact l3
    · rw [endOf_map]; exact s3
    · rfl
  obtain ⟨calls', i1, i2, i3, i4, i5⟩ := iterateRunIntersections_spec M (n : Int) (by simp [M]) (fun r hr => (hMst r hr).sorted) hMe hnp
  obtain ⟨n1, n2⟩ := iterateRunIntersections_more M (n : Int) calls' (by simp [M]) (fun r hr => (hMst r hr).sorted) hMe i1
  have i5' : ∀ l, EndsAt calls' l ↔ EndsAt wa l ∨ EndsAt lv l ∨ EndsAt sc l ∨ l = n := by
    intro l
    rw [show EndsAt calls' l ↔ _ from i5 l]
    simp only [M, List.mem_cons, List.not_mem_nil, or_false, exists_eq_or_imp, exists_eq_left]
    rw [← endsAt_map (RefValue.sub (φ := φ)) wa, ← endsAt_map (RefValue.level (φ := φ)) lv, ← endsAt_map (RefValue.script (φ := φ)) sc]
    unfold EndsAt
    simp only [List.map_cons, List.map_nil, List.mem_singleton, exists_eq_left]
    rw [eq_comm (a := (n : Int))]
  have hpos' : ∀ l, EndsAt calls' l → 0 < l := by
    intro l hl
    rcases (i5' l).1 hl with g | g | g | g
    · obtain ⟨q, hq, rfl⟩ := g
      obtain ⟨r, hr, rfl⟩ := List.mem_map.1 hq
      have := hasc.1 r hr
      simp only; omega
    · rcases (l4 l).1 g with ⟨k, rfl, g, _⟩ | g <;> omega
    · obtain ⟨q, hq, rfl⟩ := g; exact s4 q hq
    · omega
  obtain ⟨fc, hfc⟩ := exists_enc (runValues (φ := φ)) calls' (fun c hc => Int.le_of_lt (hpos' c.1 ⟨c, hc, rfl⟩)) (by
    intro cl hc
    obtain ⟨x1, x2, x3, x4, e, g1, g2, g3, g4⟩ := forall₂_four (n1 cl hc)
    obtain ⟨y1, rfl⟩ := mem_wrapped g1
    obtain ⟨y2, rfl⟩ := mem_wrapped g2
    obtain ⟨y3, rfl⟩ := mem_wrapped g3
    obtain ⟨y4, rfl⟩ := mem_wrapped (f := fun _ : Unit => RefValue.locale (φ := φ)) g4
    exact ⟨(y1, y2, y3), e⟩)
  subst hfc
  refine ⟨rs, rc, w, fc, s0, ?_, ?_⟩
  · unfold refLogicalRuns
    rw [f1]
    simp only [Option.bind_eq_bind, Option.bind_some, l1, s1, a1, b1, c1]
    have hsub : computeSubFonts get (ValueRuns.ofAdds fl) (ValueRuns.ofAdds sc) (ValueRuns.ofAdds a) (ValueRuns.ofAdds b)
        (ValueRuns.ofAdds c) = some (ValueRuns.ofAdds wa) := by
      unfold computeSubFonts
      simp only [wrap_ofAdds]
      have : iterateRunIntersections [ValueRuns.ofAdds (fl.map fun q => (q.1, RefValue.font (φ := φ) q.2)),
          ValueRuns.ofAdds (sc.map fun q => (q.1, .script q.2)), ValueRuns.ofAdds (a.map fun q => (q.1, .flag q.2)),
          ValueRuns.ofAdds (b.map fun q => (q.1, .flag q.2)), ValueRuns.ofAdds (c.map fun q => (q.1, .flag q.2))] =
          some (rc.map (enc SubKey.values)) := k1
      rw [this]
      simp only
      exact w1
    rw [hsub]
    simp only [Option.bind_some, wrap_ofAdds]
    have : iterateRunIntersections [ValueRuns.ofAdds (wa.map fun q => (q.1, RefValue.sub (φ := φ) q.2)),
        ValueRuns.ofAdds (lv.map fun q => (q.1, .level q.2)), ValueRuns.ofAdds (sc.map fun q => (q.1, .script q.2)),
        ValueRuns.single .locale (n : Int)] = some (fc.map (enc runValues)) := i1
    rw [this]
    simp only [Option.bind_some]
    clear * -
    induction fc with
    | nil => rfl
    | cons x y ih =>
      rw [List.map_cons, List.mapM_cons, ih]
      simp only [enc, runValues, refLogicalOf, Int.toNat_natCast]
      rfl
  · rw [hsc]
    refine ⟨hrs, hrl, ?_, ?_, w2, strict_enc (n2 hMst), endOf_enc i3, ?_, ?_⟩
    · intro i hi
      obtain ⟨xs, x1, x2⟩ := k4 i (by omega)
      rw [covering_enc] at x1
      obtain ⟨⟨l, k⟩, hk, rfl⟩ := Option.map_eq_some_iff.1 x1
      obtain ⟨y1, y2, y3, y4, y5, e, g1, g2, g3, g4, g5⟩ := forall₂_five x2
      simp only [SubKey.values, List.cons.injEq, and_true] at e
      obtain ⟨rfl, rfl, rfl, rfl, rfl⟩ := e
      rw [valueAt_map] at g1 g2 g3 g4 g5
      obtain ⟨z1, q1, e1⟩ := Option.map_eq_some_iff.1 g1
      obtain ⟨z2, q2, e2⟩ := Option.map_eq_some_iff.1 g2
      obtain ⟨z3, q3, e3⟩ := Option.map_eq_some_iff.1 g3
      obtain ⟨z4, q4, e4⟩ := Option.map_eq_some_iff.1 g4
      obtain ⟨z5, q5, e5⟩ := Option.map_eq_some_iff.1 g5
      injection e1 with e1; injection e2 with e2; injection e3 with e3; injection e4 with e4; injection e5 with e5
      subst e1 e2 e3 e4 e5
      exact ⟨k, l, hk, by rw [← f2.value i hi]; exact q1, q2, by rw [← a2.value i hi]; exact q3,
        by rw [← b2.value i hi]; exact q4, by rw [← c2.value i hi]; exact q5⟩
    · intro l
      rw [← endsAt_enc (SubKey.values (φ := φ)), k5', f2.limit, a2.limit, b2.limit, c2.limit]
      have : ((start + l : Nat) : Int) = (start : Int) + (l : Int) := by omega
      rw [this]
      constructor
      · rintro ((⟨g0, g1, g2⟩ | g) | g | (⟨g0, g1, g2⟩ | g) | (⟨g0, g1, g2⟩ | g) | (⟨g0, g1, g2⟩ | g))
        · exact .inl ⟨by omega, by omega, .inl g2⟩
        · exact .inr (.inr (by omega))
        · exact .inr (.inl g)
        · exact .inl ⟨by omega, by omega, .inr (.inl g2)⟩
        · exact .inr (.inr (by omega))
        · exact .inl ⟨by omega, by omega, .inr (.inr (.inl g2))⟩
        · exact .inr (.inr (by omega))
        · exact .inl ⟨by omega, by omega, .inr (.inr (.inr g2))⟩
        · exact .inr (.inr (by omega))
      · rintro (⟨g0, g1, g2 | g2 | g2 | g2⟩ | g | g)
        · exact .inl (.inl ⟨by omega, by omega, g2⟩)
        · exact .inr (.inr (.inl (.inl ⟨by omega, by omega, g2⟩)))
        · exact .inr (.inr (.inr (.inl (.inl ⟨by omega, by omega, g2⟩))))
        · exact .inr (.inr (.inr (.inr (.inl ⟨by omega, by omega, g2⟩))))
        · exact .inr (.inl g)
        · exact .inl (.inr (by omega))
    · intro i hi
      obtain ⟨xs, x1, x2⟩ := i4 i (by omega)
      rw [covering_enc] at x1
      obtain ⟨⟨l, k⟩, hk, rfl⟩ := Option.map_eq_some_iff.1 x1
      obtain ⟨y1, y2, y3, y4, e, g1, g2, g3, g4⟩ := forall₂_four x2
      simp only [runValues, List.cons.injEq, and_true] at e
      obtain ⟨rfl, rfl, rfl, rfl⟩ := e
      rw [valueAt_map] at g1 g2 g3
      obtain ⟨z1, q1, e1⟩ := Option.map_eq_some_iff.1 g1
      obtain ⟨z2, q2, e2⟩ := Option.map_eq_some_iff.1 g2
      obtain ⟨z3, q3, e3⟩ := Option.map_eq_some_iff.1 g3
      injection e1 with e1; injection e2 with e2; injection e3 with e3
      obtain ⟨k1', k2', k3'⟩ := k
      simp only at e1 e2 e3
      subst e1 e2 e3
      exact ⟨z1, l, z2, z3, hk, by rw [← wav]; exact q1, by rw [← l5 i hi]; exact q2, q3⟩
    · intro l
      rw [← endsAt_enc (runValues (φ := φ)), i5', wal, l4]
      constructor
      · rintro (g | (⟨k, g1, g2⟩ | g) | g | g)
        · exact .inl g
        · obtain rfl : l = k := by omega
          exact .inr g2
        · obtain rfl : l = n := by omega
          exact .inl hwn
        · exact .inl (hcl l ((k5' l).2 (.inr (.inl g))))
        · obtain rfl : l = n := by omega
          exact .inl hwn
      · rintro (g | g)
        · exact .inl g
        · exact .inr (.inl (.inl ⟨l, rfl, g⟩))

/-! ### The calls of the layout builder -/

/-- The run iterators of the layout builder, as sources. -/
def flagSrc (runs : Option (ValueRuns Bool)) (total : Nat) : Src RunValue :=
  match runs with
  | none => .const total (.flag false)
  | some r => .list ((r.limits.zip r.values).map fun p => (p.1, .flag p.2))

theorem flagSrc_runs (runs : Option (ValueRuns Bool)) (total : Nat) :
    (flagSrc runs total).runs = (flagList runs total).map fun p => (p.1, RunValue.flag p.2) := by
  cases runs <;> rfl

def textSrcs (fonts : ValueRuns Font) (smallcaps subscript superscript : Option (ValueRuns Bool)) (total : Nat) : List (Src RunValue) :=
  [.list ((fonts.limits.zip fonts.values).map fun p => (p.1, .font p.2)), flagSrc smallcaps total, flagSrc subscript total,
    flagSrc superscript total]

theorem forall₂_srcs {R : Src RunValue → RunValue → Prop} {a b c d : Src RunValue} {xs : List RunValue}
    (h : List.Forall₂ R [a, b, c, d] xs) : ∃ x1 x2 x3 x4, xs = [x1, x2, x3, x4] ∧ R a x1 ∧ R b x2 ∧ R c x3 ∧ R d x4 := by
  cases h with
  | cons h1 h => cases h with
    | cons h2 h => cases h with
      | cons h3 h => cases h with
        | cons h4 h => cases h; exact ⟨_, _, _, _, rfl, h1, h2, h3, h4⟩

theorem args_textSrcs {fonts : ValueRuns Font} {smallcaps subscript superscript : Option (ValueRuns Bool)} {total : Nat}
    (c : ParaCall RunValue Int)
    (h : List.Forall₂ (fun (s : Src RunValue) x => x ∈ s.runs.map (·.2)) (textSrcs fonts smallcaps subscript superscript total) c.values) :
    ∃ f x y z, c.values = [.font f, .flag x, .flag y, .flag z] ∧ c.args = some (c.limit.toNat, ⟨f, c.script, c.level, x, y, z⟩) := by
  obtain ⟨x1, x2, x3, x4, e, g1, g2, g3, g4⟩ := forall₂_srcs h
  rw [flagSrc_runs] at g2 g3 g4
  obtain ⟨f, rfl⟩ := mem_wrapped g1
  obtain ⟨x, rfl⟩ := mem_wrapped g2
  obtain ⟨y, rfl⟩ := mem_wrapped g3
  obtain ⟨z, rfl⟩ := mem_wrapped g4
  exact ⟨f, x, y, z, e, by unfold ParaCall.args; rw [e]⟩

theorem covering_filterMap : ∀ (calls : List (ParaCall RunValue Int)),
    (∀ c ∈ calls, ∃ x, c.args = some (c.limit.toNat, x)) → ∀ (i : Nat),
    covering (calls.filterMap ParaCall.args) i = (calls.find? fun c => decide ((i : Int) < c.limit)).bind ParaCall.args
  | [], _, i => rfl
  | c :: t, h, i => by
    obtain ⟨x, hx⟩ := h c List.mem_cons_self
    rw [List.filterMap_cons_some hx]
    have ih := covering_filterMap t (fun c hc => h c (List.mem_cons_of_mem _ hc)) i
    by_cases hlt : (i : Int) < c.limit
    · rw [covering_cons (by simp only; omega), List.find?_cons_of_pos (by simpa using hlt), Option.bind_some, hx]
    · rw [List.find?_cons_of_neg (by simpa using hlt), ← ih]
      unfold covering
      rw [List.find?_cons_of_neg (by simp only [decide_eq_true_eq]; omega)]

/-- From the parts that the layout builder shapes to a walk. -/
theorem Subs.walk {e : ShapeEnv ShapeArgs φ} {get : SubFontFn φ} {start n : Nat}
    (hsub : ∀ a i l, i < l → l ≤ n → e.subFont a (start + i) (start + l) =
      ((askFor get (ShapeArgs.key a) i l).1, start + (askFor get (ShapeArgs.key a) i l).2))
    (hg : ∀ k i l, i < l → i < (askFor get k i l).2 ∧ (askFor get k i l).2 ≤ l)
    {all : List (Nat × ShapeArgs)} (hlast : all.getLast?.map (·.1) = some (start + n)) (hle : ∀ c ∈ all, c.1 ≤ start + n)
    {calls : List (Nat × ShapeArgs)} {off : Nat} {qs : List (Sub ShapeArgs φ)} (h : Subs e calls off qs) :
    start ≤ off → ∀ pre, all = pre ++ calls → (∀ c ∈ pre, c.1 ≤ off) →
      Walk (fun i r => ∃ k l, (covering all (start + i)).map (fun c => (c.2, c.1 - start)) = some (k, l) ∧
        r = (((askFor get (ShapeArgs.key k) i l).1, k), (askFor get (ShapeArgs.key k) i l).2)) n (off - start)
        (qs.map fun q => ((q.font, q.args), q.stop - start)) := by
  induction h with
  | nil off =>
    intro h0 pre hall hpre
    rw [List.append_nil] at hall
    subst hall
    refine .done ?_
    cases hl : all.getLast? with
    | none => rw [hl] at hlast; cases hlast
    | some c =>
      rw [hl] at hlast
      have := hpre c (List.mem_of_getLast? hl)
      simp at hlast; omega
  | @next limit v calls off qs hle' _ ih =>
    intro h0 pre hall hpre
    refine ih h0 (pre ++ [(limit, v)]) (by rw [hall]; simp) ?_
    intro x hx
    rcases List.mem_append.1 hx with hx | hx
    · exact hpre x hx
    · rw [List.mem_singleton] at hx; subst hx; exact hle'
  | @sub limit v calls off qs hlt _ ih =>
    intro h0 pre hall hpre
    have hlim := hle (limit, v) (by rw [hall]; simp)
    have h1 := hsub v (off - start) (limit - start) (by omega) (by simp only at hlim; omega)
    rw [show start + (off - start) = off by omega, show start + (limit - start) = limit by omega] at h1
    obtain ⟨g1, g2⟩ := hg (ShapeArgs.key v) (off - start) (limit - start) (by omega)
    rw [List.map_cons]
    refine .step (by simp only at hlim; omega) ⟨v, limit - start, ?_, ?_⟩ ?_
    · rw [show start + (off - start) = off by omega, hall, covering_append hpre, covering_cons hlt]; rfl
    · rw [h1]; simp
    · simp only
      refine ih (by rw [h1]; simp only; omega) pre hall ?_
      intro x hx
      have := hpre x hx
      rw [h1]; simp only; omega

theorem refLogicalRuns_same {get : SubFontFn φ} (hg : ∀ k i l, i < l → i < (askFor get k i l).2 ∧ (askFor get k i l).2 ≤ l)
    {total start n : Nat} {fonts : ValueRuns Font} {smallcaps subscript superscript : Option (ValueRuns Bool)}
    {levels : List Nat} {t : ScriptText} (h : RefIn total start n fonts smallcaps subscript superscript levels t)
    {rs : List ScriptRun} (hrs : ScriptRunIter.init.all t n = some rs) (hh : start = 0 ∨ rs.length = 1)
    {calls : List (ParaCall RunValue Int)}
    (hc : ParaCalls ((start + n : Nat) : Int) start start (textSrcs fonts smallcaps subscript superscript total)
      (rs.map fun r => ((r.limit : Int), r.script)) levels calls)
    {e : ShapeEnv ShapeArgs φ}
    (hsub : ∀ a i l, i < l → l ≤ n → e.subFont a (start + i) (start + l) =
      ((askFor get (ShapeArgs.key a) i l).1, start + (askFor get (ShapeArgs.key a) i l).2))
    (hcut : ∀ k m, Change levels n m → CutAt (askFor get k) m)
    {qs : List (Sub ShapeArgs φ)} (hqs : Subs e (calls.filterMap ParaCall.args) start qs) :
    refLogicalRuns get levels t start n fonts smallcaps subscript superscript =
      some (qs.map fun q => ⟨q.font, q.args.level, q.args.script, q.stop - start⟩) := by
  obtain ⟨rs', rc, w, fc, hrs', hres, o⟩ := refLogicalRuns_spec hg h
  rw [hrs] at hrs'
  cases hrs'
  rw [hres]
  generalize hsc : (rs.map fun r => ((r.limit : Int), r.script)) = sc at hc o
  have hh' : (start : Int) = 0 ∨ sc.length = 1 := by
    rw [← hsc, List.length_map]
    rcases hh with rfl | hh
    · exact .inl rfl
    · exact .inr hh
  have htyped := fun c hc' => args_textSrcs c (hc.values c hc')
  have hcov := covering_filterMap calls (fun c hc' => by obtain ⟨f, x, y, z, _, h2⟩ := htyped c hc'; exact ⟨_, h2⟩)
  have hmemargs : ∀ {x : Nat × ShapeArgs}, x ∈ calls.filterMap ParaCall.args → ∃ c ∈ calls, x.1 = c.limit.toNat := by
    intro x hx
    obtain ⟨c, hc', he⟩ := List.mem_filterMap.1 hx
    obtain ⟨f, a, y, z, _, h2⟩ := htyped c hc'
    rw [h2] at he; cases he
    exact ⟨c, hc', rfl⟩
  have hlastmem : ∀ c ∈ calls, c.limit ≤ ((start + n : Nat) : Int) := by
    intro c hc'
    have hl := hc.last
    cases hl' : calls.getLast? with
    | none => rw [hl'] at hl; cases hl
    | some d =>
      rw [hl'] at hl
      simp at hl
      obtain ⟨ys, hys⟩ := List.getLast?_eq_some_iff.1 hl'
      have hso := hc.sorted
      rw [hys] at hso hc'
      rcases List.mem_append.1 hc' with hc' | hc'
      · have := (List.pairwise_append.1 hso).2.2 c hc' d (by simp)
        omega
      · rw [List.mem_singleton] at hc'; subst hc'; omega
  have hleall : ∀ x ∈ calls.filterMap ParaCall.args, x.1 ≤ start + n := by
    intro x hx
    obtain ⟨c, hc', e1⟩ := hmemargs hx
    have := hlastmem c hc'
    omega
  have hlastall : (calls.filterMap ParaCall.args).getLast?.map (·.1) = some (start + n) := by
    have : (calls.filterMap ParaCall.args).map (·.1) = calls.map fun c => c.limit.toNat := by
      have hv := htyped
      clear * - hv
      induction calls with
      | nil => rfl
      | cons a t ih =>
        obtain ⟨f, x, y, z, _, h2⟩ := hv a List.mem_cons_self
        rw [List.filterMap_cons_some h2, List.map_cons, List.map_cons, ih fun c hc => hv c (List.mem_cons_of_mem _ hc)]
    rw [← List.getLast?_map, this, List.getLast?_map]
    have := hc.last
    cases hl : calls.getLast? with
    | none => rw [hl] at this; cases this
    | some x =>
      rw [hl] at this
      simp only [Option.map_some, Option.some.injEq] at this ⊢
      omega
  -- the call that covers an index
  have hcall : ∀ i, i < n → ∃ call a, call ∈ calls ∧ calls.find? (fun c => decide (((start + i : Nat) : Int) < c.limit)) = some call ∧
      call.args = some (call.limit.toNat, a) ∧ ((start + i : Nat) : Int) < call.limit ∧ call.limit ≤ ((start + n : Nat) : Int) ∧
      (∀ c ∈ calls, ((start + i : Nat) : Int) < c.limit → call.limit ≤ c.limit) ∧
      valueAt (fonts.limits.zip fonts.values) ((start + i : Nat) : Int) = some a.font ∧
      valueAt (flagList smallcaps total) ((start + i : Nat) : Int) = some a.smallcaps ∧
      valueAt (flagList subscript total) ((start + i : Nat) : Int) = some a.subscript ∧
      valueAt (flagList superscript total) ((start + i : Nat) : Int) = some a.superscript ∧
      levels[i]? = some a.level ∧ valueAt sc (i : Int) = some a.script := by
    intro i hi
    obtain ⟨call, g1, g2⟩ := hc.right ((start + i : Nat) : Int) (by omega) (by omega)
    have hmem := List.mem_of_find?_eq_some g1
    obtain ⟨f, x, y, z, v1, v2⟩ := htyped call hmem
    obtain ⟨x1, x2, x3, x4, e1, q1, q2, q3, q4⟩ := forall₂_srcs g2.values
    rw [v1] at e1
    simp only [List.cons.injEq, and_true] at e1
    obtain ⟨rfl, rfl, rfl, rfl⟩ := e1
    have hval : ∀ {γ : Type} {F : γ → RunValue} (_ : ∀ a b, F a = F b → a = b) {l : List (Int × γ)} {v : γ} {j : Int},
        valueAt (l.map fun p => (p.1, F p.2)) j = some (F v) → valueAt l j = some v := by
      intro γ F hF l v j hv
      rw [valueAt_map] at hv
      obtain ⟨u, hu, e⟩ := Option.map_eq_some_iff.1 hv
      rw [hu, hF _ _ e]
    rw [flagSrc_runs] at q2 q3 q4
    refine ⟨call, _, hmem, g1, v2, by simpa using List.find?_some g1, hlastmem call hmem, ?_, ?_, ?_, ?_, ?_, ?_, ?_⟩
    · intro c hc' hlt
      obtain ⟨_, as, bs, e2, h3⟩ := List.find?_eq_some_iff_append.1 g1
      have hso := hc.sorted
      rw [e2] at hc' hso
      rcases List.mem_append.1 hc' with hc' | hc'
      · have := h3 c hc'; simp at this; omega
      · rcases List.mem_cons.1 hc' with rfl | hc'
        · exact Int.le_refl _
        · exact Int.le_of_lt ((List.pairwise_cons.1 (List.pairwise_append.1 hso).2.1).1 c hc')
    · exact hval (fun a b h => by injection h) q1
    · exact hval (fun a b h => by injection h) q2
    · exact hval (fun a b h => by injection h) q3
    · exact hval (fun a b h => by injection h) q4
    · rw [← g2.level]; congr 1; omega
    · rw [← g2.script hh']; congr 1; omega
  -- walks
  have wf := walk_covering o.stop fc [] 0 rfl (fun c hc => by cases hc) o.strict (by
    intro c hc
    have := o.ends c.1
    rcases this.1 ⟨c, hc, rfl⟩ with ⟨r, hr, e1⟩ | g
    · have := (o.walk.ascend (fun i r _ hs => by
        obtain ⟨k, l, hk, rfl⟩ := hs
        obtain ⟨d, hd, e1⟩ := Option.map_eq_some_iff.1 hk
        cases e1
        exact (hg _ i _ (covering_least o.sorted hd).1).1)).1 r hr
      omega
    · exact g.1) (getLast_le (o.strict.imp fun h => Nat.le_of_lt h) o.stop)
  have wn := hqs.walk hsub hg hlastall hleall (Nat.le_refl _) [] rfl (fun c hc => by cases hc)
  rw [Nat.sub_self] at wn
  let info' : Nat → Nat × Int := fun i => ((levels[i]?).getD 0, (valueAt sc (i : Int)).getD 0)
  have hRn : ∀ i, i < n → ∃ k l, (covering rc i).map (fun c => (c.2, c.1)) = some (k, l) ∧ i < l ∧ l ≤ n := by
    intro i hi
    obtain ⟨k, l, hk, _⟩ := o.cover i hi
    obtain ⟨p1, p2, _⟩ := covering_least o.sorted hk
    exact ⟨k, l, by rw [hk]; rfl, p1, getLast_le o.sorted o.last _ p2⟩
  have main := walks_agree (get := askFor get) (n := n) (Rc := fun i => (covering rc i).map fun c => (c.2, c.1))
    (Nc := fun i => (covering (calls.filterMap ParaCall.args) (start + i)).map fun c => (c.2, c.1 - start)) (key := ShapeArgs.key)
    (Fc := fun i => (covering fc i).map fun c => ((c.2.1, c.2.2), c.1)) (info := fun a => (a.level, a.script)) (info' := info')
    (Chg := Change levels n) (w0 := w) hRn ?_ hg ?_ hcut o.walk ?_ (off := 0)
    (wf := fc.map fun c => ((c.2.1, c.2.2), c.1)) (wn := qs.map fun q => ((q.font, q.args), q.stop - start)) ?_ wn ?_
  · congr 1
    have h2 := congrArg (List.map fun r : (φ × Nat × Int) × Nat => (⟨r.1.1, r.1.2.1, r.1.2.2, r.2⟩ : RefLogical φ)) main
    simp only [List.map_map, Function.comp_def] at h2
    exact h2
  · intro i j k l hk hij hjl
    obtain ⟨d, hd, e1⟩ := Option.map_eq_some_iff.1 hk
    cases e1
    rw [covering_const o.sorted hd hij hjl]; rfl
  · intro i k l hi hk
    obtain ⟨d, hd, e1⟩ := Option.map_eq_some_iff.1 hk
    cases e1
    obtain ⟨p1, p2, p3⟩ := covering_least o.sorted hd
    obtain ⟨k', l', hk', c1, c2, c3, c4, c5⟩ := o.cover i hi
    rw [hd] at hk'
    cases hk'
    obtain ⟨call, a, hmem, g1, g2, g3, g4, g5, v1, v2, v3, v4, v5, v6⟩ := hcall i hi
    simp only at p1 p2 p3
    have hl'n : l' ≤ n := getLast_le o.sorted o.last _ p2
    have hle' : call.limit ≤ ((start + l' : Nat) : Int) := by
      rcases (o.limit l').1 ⟨_, p2, rfl⟩ with ⟨b1, b2, b3⟩ | b | b
      · have : ∃ s ∈ textSrcs fonts smallcaps subscript superscript total, ∃ q ∈ s.runs, q.1 = ((start + l' : Nat) : Int) := by
          rcases b3 with b | b | b | b
          · obtain ⟨q, hq, e1⟩ := (endsAt_map RunValue.font _ _).2 b
            exact ⟨_, List.mem_cons_self, q, hq, e1⟩
          · obtain ⟨q, hq, e1⟩ := (endsAt_map RunValue.flag _ _).2 b
            exact ⟨flagSrc smallcaps total, by simp [textSrcs], q, by rw [flagSrc_runs]; exact hq, e1⟩
          · obtain ⟨q, hq, e1⟩ := (endsAt_map RunValue.flag _ _).2 b
            exact ⟨flagSrc subscript total, by simp [textSrcs], q, by rw [flagSrc_runs]; exact hq, e1⟩
          · obtain ⟨q, hq, e1⟩ := (endsAt_map RunValue.flag _ _).2 b
            exact ⟨flagSrc superscript total, by simp [textSrcs], q, by rw [flagSrc_runs]; exact hq, e1⟩
        obtain ⟨s, hs, q, hq, e1⟩ := this
        obtain ⟨c', hc', e2⟩ := hc.runs s hs q hq (by omega) (by omega)
        have := g5 c' hc' (by omega)
        omega
      · obtain ⟨q, hq, e1⟩ := b
        obtain ⟨c', hc', e2⟩ := hc.scripts hh' q hq (by omega) (by omega)
        have := g5 c' hc' (by omega)
        omega
      · subst b; exact g4
    refine ⟨a, call.limit.toNat - start, ?_, ?_, ?_, by omega, by simp only; omega, ?_, ?_⟩
    · simp only [hcov]
      rw [g1, Option.bind_some, g2]; rfl
    · rw [v1] at c1; rw [v2] at c3; rw [v3] at c4; rw [v4] at c5; rw [v6] at c2
      unfold ShapeArgs.key
      rw [Option.some.inj c1, Option.some.inj c2, Option.some.inj c3, Option.some.inj c4, Option.some.inj c5]
    · simp only [info', v5, v6, Option.getD_some]
    · simp only
      have key : ∀ (x : Nat), call.limit = ((start + x : Nat) : Int) → (∃ c ∈ rc, c.1 = x) → x = l' := by
        rintro x hx ⟨c, hc', rfl⟩
        have := p3 c hc' (by omega)
        omega
      have hx : call.limit = ((start + (call.limit.toNat - start) : Nat) : Int) := by omega
      by_cases hend : call.limit = ((start + n : Nat) : Int)
      · left; omega
      · rcases hc.limit call hmem (by omega) with ⟨s, hs, q, hq, e1⟩ | ⟨q, hq, e1⟩ | b | b
        · left
          refine key _ hx ((o.limit _).2 (.inl ⟨by omega, by omega, ?_⟩))
          rw [← hx, ← e1]
          simp only [textSrcs, List.mem_cons, List.not_mem_nil, or_false] at hs
          rcases hs with rfl | rfl | rfl | rfl
          · exact .inl ((endsAt_map RunValue.font _ _).1 ⟨q, hq, rfl⟩)
          · rw [flagSrc_runs] at hq; exact .inr (.inl ((endsAt_map RunValue.flag _ _).1 ⟨q, hq, rfl⟩))
          · rw [flagSrc_runs] at hq; exact .inr (.inr (.inl ((endsAt_map RunValue.flag _ _).1 ⟨q, hq, rfl⟩)))
          · rw [flagSrc_runs] at hq; exact .inr (.inr (.inr ((endsAt_map RunValue.flag _ _).1 ⟨q, hq, rfl⟩)))
        · left
          exact key _ hx ((o.limit _).2 (.inr (.inl ⟨q, hq, by omega⟩)))
        · right
          refine ⟨by omega, by omega, ?_⟩
          unfold LevelChange at b
          rw [show (call.limit - start).toNat = call.limit.toNat - start by omega] at b
          exact b
        · exact absurd b hend
    · intro c hch hic
      rcases Nat.lt_or_ge c (call.limit.toNat - start) with hlt | hge
      · exfalso
        have hfind : ∀ j, i ≤ j → j ≤ c → levels[j]? = some a.level := by
          intro j hj1 hj2
          obtain ⟨call', a', m1, m2, m3, m4, m5, m6, _, _, _, _, m7, _⟩ := hcall j (by have := hch.2.1; omega)
          have e1 : call' = call := by
            have h1 := m6 call hmem (by omega)
            have h2 := g5 call' m1 (by omega)
            have h3 : call'.limit = call.limit := by omega
            have hso := hc.sorted
            by_contra hne
            have : call' ≠ call := hne
            obtain ⟨p, hp, rfl⟩ := List.mem_iff_getElem.1 m1
            obtain ⟨q, hq, rfl⟩ := List.mem_iff_getElem.1 hmem
            have hpq : p ≠ q := by rintro rfl; exact this rfl
            rcases Nat.lt_or_gt_of_ne hpq with h4 | h4
            · have := List.pairwise_iff_getElem.1 hso p q hp hq h4; omega
            · have := List.pairwise_iff_getElem.1 hso q p hq hp h4; omega
          subst e1
          rw [g2] at m3
          cases m3
          exact m7
        refine hch.2.2 ?_
        rw [hfind c (by omega) (Nat.le_refl _), hfind (c - 1) (by omega) (by omega)]
      · exact hge
  · intro i hi
    obtain ⟨x, l, lev, s, r1, r2, r3, r4⟩ := o.right i hi
    have hst : fc.Pairwise fun a b => a.1 ≤ b.1 := o.strict.imp fun h => Nat.le_of_lt h
    obtain ⟨p1, p2, p3⟩ := covering_least hst r1
    refine ⟨x, l, ?_, r2, p1, (o.ends l).1 ⟨_, p2, rfl⟩, ?_, ?_⟩
    · rw [r1]; simp only [Option.map_some, info', r3, r4, Option.getD_some]
    · intro r hr hir
      obtain ⟨c, hc', e1⟩ := (o.ends r.2).2 (.inl ⟨r, hr, rfl⟩)
      have := p3 c hc' (by omega)
      simp only at this; omega
    · intro c hch hic
      obtain ⟨c', hc', e1⟩ := (o.ends c).2 (.inr hch)
      have := p3 c' hc' (by omega)
      simp only at this; omega
  · have : ∀ {off : Nat} {v : List ((φ × Nat × Int) × Nat)}, Walk (fun i r => covering fc i = some (r.2, r.1)) n off v →
        Walk (fun i r => (covering fc i).map (fun c => ((c.2.1, c.2.2), c.1)) = some r) n off v := by
      intro off v hv
      induction hv with
      | done h => exact .done h
      | step h1 h2 _ ih => exact .step h1 (by rw [h2]; rfl) ih
    exact this wf
  · intro h0
    have hw := o.walk
    cases hw with
    | done => omega
    | @step _ r rest _ hs hrest =>
      obtain ⟨k, l, hk, rfl⟩ := hs
      obtain ⟨k', l', hk', p1, _⟩ := hRn 0 h0
      rw [hk] at hk'
      cases hk'
      exact ⟨[], (askFor get k 0 l).1, (askFor get k 0 l).2, rest, rfl, (fun r hr => by cases hr), (hg k 0 l p1).1,
        ⟨k, l, hk, rfl⟩, hrest⟩

end RichText
