import Verif.Proof.BoolRuns
import Verif.Proof.Subset
import Verif.Proof.Intersections
import Verif.Proof.RunIter
import Verif.Proof.RunBuilder
/-!
Properties C01 - C06: run containers (`src/value_runs.hpp`), intersections
(`src/value_run_utils.hpp`), run iterators (`src/value_runs_iterator.hpp`) and
the run builder (`src/value_run_builder.hpp`).
-/
namespace RichText
open Spec

variable {α : Type _}

/-! ## C01 -/

/-- `get_value(i)` is the value of the first run whose limit exceeds `i`; at or
past the end there is no such run and the access is out of range. -/
theorem C01_get_value (adds : List (Int × α)) (hs : SortedLimits adds) (i : Int) :
    (ValueRuns.ofAdds adds).view.getValue i = valueAt adds i :=
  (ValueRuns.holds_ofAdds adds).shows.getValue hs i

/-- Below `get_limit()` the lookup always succeeds. -/
theorem C01_get_value_defined (adds : List (Int × α)) (hs : SortedLimits adds) (i e : Int)
    (he : (ValueRuns.ofAdds adds).getLimit = some e) (hi : i < e) :
    ∃ x, (ValueRuns.ofAdds adds).view.getValue i = some x ∧
      ∃ l, (l, x) ∈ adds ∧ i < l := by
  rw [(ValueRuns.holds_ofAdds adds).getLimit] at he
  rw [C01_get_value adds hs]
  unfold valueAt
  have hne := endOf_ne he
  have hl := endOf_getElem he (by omega)
  cases hf : adds.find? (fun r => decide (i < r.1)) with
  | none =>
    have := List.find?_eq_none.1 hf _ (List.getElem_mem (by omega : adds.length - 1 < adds.length))
    simp at this; omega
  | some p =>
    have h1 := List.find?_some hf
    exact ⟨p.2, rfl, p.1, List.mem_of_find?_eq_some hf, by simpa using h1⟩

/-- `get_run_containing_index` never reads a run that does not exist, returns
the number of the first run whose limit exceeds the index, and the run count
when there is none. -/
theorem C01_run_index (adds : List (Int × α)) (hs : SortedLimits adds) (i : Int) :
    ∃ r, (ValueRuns.ofAdds adds).view.getRunContainingIndex i = some r ∧ r ≤ adds.length ∧
      (∀ j (hj : j < adds.length), j < r → adds[j].1 ≤ i) ∧
      (∀ j (hj : j < adds.length), r ≤ j → i < adds[j].1) :=
  (ValueRuns.holds_ofAdds adds).shows.getRunContainingIndex hs i

theorem C01_past_end (adds : List (Int × α)) (hs : SortedLimits adds) (i e : Int)
    (he : (ValueRuns.ofAdds adds).getLimit = some e) (hi : e ≤ i) :
    (ValueRuns.ofAdds adds).view.getRunContainingIndex i
      = some (ValueRuns.ofAdds adds).view.count := by
  obtain ⟨r, h1, h2, _, h4⟩ := C01_run_index adds hs i
  rw [h1, (ValueRuns.holds_ofAdds adds).count]
  rw [(ValueRuns.holds_ofAdds adds).getLimit] at he
  by_cases hr : r = adds.length
  · rw [hr]
  · have h := h4 r (by omega) (Nat.le_refl _)
    have := le_endOf hs he r (by omega)
    omega

/-- Three runs, one of them empty (limit 3 twice). -/
example : SortedLimits [((3 : Int), 'a'), (3, 'b'), (7, 'c')] := by
  unfold SortedLimits; decide
example : (ValueRuns.ofAdds [((3 : Int), 'a'), (3, 'b'), (7, 'c')]).view.getValue 3 = some 'c' := by
  decide +kernel

/-! ## C02 -/

/-- A packed boolean container answers every query of the view (`get_run_count`,
`get_run_limit`, `get_run_value`, hence also `get_value`,
`get_run_containing_index` and `for_each_run_in_range`, which only use those)
exactly as the generic container, and so does `get_limit`. -/
theorem C02_packed_bool (adds : List (Int × Bool))
    (h : ∀ p ∈ adds, 0 ≤ p.1 ∧ p.1 < 2147483648) :
    (BoolRuns.ofAdds adds).view = (ValueRuns.ofAdds adds).view ∧
    (BoolRuns.ofAdds adds).getLimit = (ValueRuns.ofAdds adds).getLimit := by
  refine ⟨(BoolRuns.shows_ofAdds adds h).ext (ValueRuns.holds_ofAdds adds).shows, ?_⟩
  rw [(ValueRuns.holds_ofAdds adds).getLimit]
  unfold BoolRuns.getLimit endOf
  rw [BoolRuns.words_ofAdds, List.getLast?_map]
  cases hl : adds.getLast? with
  | none => rfl
  | some p =>
    have := h p (List.mem_of_getLast? hl)
    simp [BoolRuns.wordLimit_encode _ _ this.1 this.2]

/-- What is read back is what was stored. -/
theorem C02_read_back (adds : List (Int × Bool))
    (h : ∀ p ∈ adds, 0 ≤ p.1 ∧ p.1 < 2147483648) (i : Nat) :
    (BoolRuns.ofAdds adds).view.limit i = adds[i]?.map (·.1) ∧
    (BoolRuns.ofAdds adds).view.value i = adds[i]?.map (·.2) ∧
    (BoolRuns.ofAdds adds).view.count = adds.length :=
  let s := BoolRuns.shows_ofAdds adds h
  ⟨s.limit i, s.value i, s.count⟩

example : ∀ p ∈ [((0 : Int), true), (2147483647, false), (2147483647, true)],
    0 ≤ p.1 ∧ p.1 < 2147483648 := by decide

/-! ## C03 -/

/-- `get_runs_subset` into an empty container. -/
theorem C03_subset (adds : List (Int × α)) (hs : SortedLimits adds) (offset length e : Int)
    (hlen : 0 < length) (he : (ValueRuns.ofAdds adds).getLimit = some e)
    (hin : offset + length ≤ e) :
    ∃ out, (ValueRuns.ofAdds adds).getRunsSubset offset length {} = some out ∧
      out.getLimit = some length ∧
      ∀ k, 0 ≤ k → k < length →
        out.view.getValue k = (ValueRuns.ofAdds adds).view.getValue (offset + k) ∧
        (out.view.getValue k).isSome := by
  have hH := ValueRuns.holds_ofAdds adds
  have he' := he
  rw [hH.getLimit] at he'
  obtain ⟨j, h1, _, h3, h4, _⟩ := skipRuns_eq hH.shows offset 0 (by omega)
  have h5 := emitRuns_eq hH.shows offset length j h3
  have hcalls : (ValueRuns.ofAdds adds).view.forEachRunInRange offset length
      = some (emitList offset length (adds.drop j)) := by
    simp [RunView.forEachRunInRange, h1, h5]
  have hout := ValueRuns.holds_ofAdds (emitList offset length (adds.drop j))
  have hsd : SortedLimits (adds.drop j) := List.Pairwise.sublist (List.drop_sublist _ _) hs
  have hsorted := (emitList_sorted offset length (adds.drop j) hsd).1
  refine ⟨ValueRuns.ofAdds (emitList offset length (adds.drop j)), ?_, ?_, ?_⟩
  · rw [ValueRuns.getRunsSubset, hcalls]; rfl
  · rw [hout.getLimit]
    apply endOf_emitList
    have hne := endOf_ne he'
    have hl := endOf_getElem he' (by omega)
    have hj : j < adds.length := by
      by_cases hj : j < adds.length
      · exact hj
      · have := h4 (adds.length - 1) (by omega) (by omega) (by omega)
        omega
    refine ⟨adds[adds.length - 1], ?_, by omega⟩
    rw [List.mem_iff_getElem]
    exact ⟨adds.length - 1 - j, by simp; omega, by simp; congr 1; omega⟩
  · intro k hk0 hk
    have heq : (ValueRuns.ofAdds (emitList offset length (adds.drop j))).view.getValue k
        = (ValueRuns.ofAdds adds).view.getValue (offset + k) := by
      rw [C01_get_value _ hsorted, C01_get_value _ hs, valueAt_emitList _ _ _ _ hk]
      exact valueAt_drop adds j (offset + k) fun k' hk' hk'j => by
        have := h4 k' hk' (by omega) hk'j
        omega
    refine ⟨heq, ?_⟩
    obtain ⟨x, hx, _⟩ := C01_get_value_defined adds hs (offset + k) e he (by omega)
    rw [heq, hx]; rfl

example : (ValueRuns.ofAdds [((3 : Int), 'a'), (5, 'b'), (9, 'c')]).getRunsSubset 2 5 {}
    = some (ValueRuns.ofAdds [(1, 'a'), (3, 'b'), (5, 'c')]) := by decide +kernel

/-! ## C04 -/

/-- `iterate_run_intersections` over any number of containers ending together:
it terminates without reading a run that does not exist (`some`), the segments
have non-decreasing limits and end at the common end, and the segment covering
`i` carries the value of every container at `i`, in order.  Segments end where a
run ends, and every run ends at the end of a segment. -/
theorem C04_intersections (runs : List (List (Int × α))) (e : Int)
    (hne : runs ≠ []) (hs : ∀ r ∈ runs, SortedLimits r)
    (he : ∀ r ∈ runs, (ValueRuns.ofAdds r).getLimit = some e) (hpos : 0 < e) :
    ∃ calls, iterateRunIntersections (runs.map ValueRuns.ofAdds) = some calls ∧
      SortedLimits calls ∧ endOf calls = some e ∧
      (∀ i, i < e → ∃ xs, valueAt calls i = some xs ∧
        List.Forall₂ (fun r x => (ValueRuns.ofAdds r).view.getValue i = some x) runs xs) ∧
      ∀ l, (∃ c ∈ calls, c.1 = l) ↔ ∃ r ∈ runs, ∃ q ∈ r, q.1 = l := by
  obtain ⟨calls, h1, h2, h3, h4, h5⟩ := iterateRunIntersections_spec runs e hne hs
    (fun r hr => by rw [← (ValueRuns.holds_ofAdds r).getLimit]; exact he r hr) hpos
  refine ⟨calls, h1, h2, h3, fun i hi => ?_, h5⟩
  obtain ⟨xs, hx1, hx2⟩ := h4 i hi
  exact ⟨xs, hx1, forall₂_imp_mem hx2 fun r hr x hx => by rw [C01_get_value r (hs r hr)]; exact hx⟩

/-- With an empty text nothing is reported. -/
theorem C04_empty (runs : List (List (Int × α))) (hne : runs ≠ [])
    (he : ∀ r ∈ runs, (ValueRuns.ofAdds r).getLimit = some 0) :
    iterateRunIntersections (runs.map ValueRuns.ofAdds) = some [] := by
  have : maxOfLimits ((runs.map ValueRuns.ofAdds).map ValueRuns.getLimit) = some 0 := by
    apply maxOfLimits_const _ _ (by simpa using hne)
    intro x hx
    simp only [List.map_map, List.mem_map, Function.comp] at hx
    obtain ⟨r, hr, rfl⟩ := hx
    exact he r hr
  unfold iterateRunIntersections
  rw [this]
  simp only
  unfold intersectLoop
  simp

example : iterateRunIntersections
    [ValueRuns.ofAdds [((0 : Int), 1), (4, 2), (6, 3)], ValueRuns.ofAdds [(2, 7), (6, 8)]]
    = some [(0, [1, 7]), (2, [2, 7]), (4, [2, 8]), (6, [3, 8])] := by decide +kernel

/-! ## C05 -/

/-- `advance_to` from run `i` reads only existing runs exactly when some run
from `i` on ends after the index; it then stops at the first such run. -/
theorem C05_advance_exact (adds : List (Int × α)) (index : Int) (i j : Nat) :
    RunIter.advanceRuns (ValueRuns.ofAdds adds).view index i = some j ↔
      ∃ hj : j < adds.length, i ≤ j ∧ index < adds[j].1 ∧
        ∀ k (hk : k < adds.length), i ≤ k → k < j → adds[k].1 ≤ index :=
  advanceRuns_some (ValueRuns.holds_ofAdds adds).shows index i j

/-- An advanced iterator shows the value covering the index. -/
theorem C05_advance_value (adds : List (Int × α)) (index : Int) (i : Nat) (it : RunIter α)
    (hb : ∀ k (hk : k < adds.length), k < i → adds[k].1 ≤ index)
    (h : (Src.iter (.list adds, i)).advanceTo index = some it) :
    it.getValue = valueAt adds index ∧ ∃ l, it.getLimit = some l ∧ index < l := by
  simp only [Src.iter, RunIter.advanceTo] at h
  cases hj : RunIter.advanceRuns (ValueRuns.ofAdds adds).view index i with
  | none => simp [hj] at h
  | some j =>
    rw [hj] at h
    simp only [Option.map_some, Option.some.injEq] at h
    subst h
    obtain ⟨hjl, hij, hgt, hall⟩ := (C05_advance_exact adds index i j).1 hj
    have hv := valueAt_of_index adds j index adds[j].2 hjl rfl (fun k hk hkj => by
      by_cases hki : k < i
      · exact hb k hk hki
      · exact hall k hk (by omega) hkj) hgt
    refine ⟨?_, adds[j].1, ?_, hgt⟩
    · rw [hv]; simp [RunIter.getValue, value_ofAdds, hjl]
    · simp [RunIter.getLimit, limit_ofAdds, hjl]

/-- VIOLATION.  Whenever the loop is run up to `maxLimit` and one of the run
lists ends there (as every run list does for the last paragraph of a text), it
cannot end normally, whatever the lists, the starting runs and the number of
iterations allowed. -/
theorem C05_advance_past_end_violated (maxLimit minLimit : Int) (fuel : Nat)
    (its : List (RunIter α)) (hlt : minLimit < maxLimit)
    (adds : List (Int × α)) (i : Nat) (hs : SortedLimits adds)
    (he : endOf adds = some maxLimit) (hmem : Src.iter (.list adds, i) ∈ its) :
    ∀ its', (iterateIterators maxLimit fuel minLimit its).final ≠ .done its' :=
  iterateIterators_none maxLimit fuel minLimit its hlt
    ⟨adds, i, hs, fun p hp => by
      obtain ⟨j, hj, rfl⟩ := List.mem_iff_getElem.1 hp
      exact le_endOf hs he j hj, hmem⟩

/-- VIOLATION, precisely: for run lists that reach `maxLimit`, one of them
ending there, the loop does make all its calls and then the last `advance_to`
reads a run that does not exist. -/
theorem C05_out_of_range_violated (maxLimit minLimit : Int) (st : SState α)
    (hlt : minLimit < maxLimit)
    (hs : ∀ p ∈ st, SortedLimits p.1.runs)
    (he : ∀ p ∈ st, ∃ e, endOf p.1.runs = some e ∧ maxLimit ≤ e)
    (hr : ∀ p ∈ st, Src.idx p < p.1.runs.length)
    (hx : ∃ p ∈ st, ∃ adds, p.1 = .list adds ∧ endOf adds = some maxLimit) :
    ∃ fuel calls, iterateIterators maxLimit fuel minLimit (st.map Src.iter)
      = ⟨calls, .outOfRange⟩ ∧ ∃ e, endOf calls = some e ∧ maxLimit ≤ e := by
  obtain ⟨p, hp, adds, hpa, hpe⟩ := hx
  have hne : st ≠ [] := by rintro rfl; simp at hp
  obtain ⟨calls, fin, h1, _, _, h4, _, _, h7⟩ := iterateIterators_spec maxLimit (iterWork st)
    minLimit st ⟨hne, hs, he, hr⟩ (Nat.le_refl _) hlt
  have hs' : SortedLimits adds := by have := hs p hp; rw [hpa] at this; exact this
  have hno := C05_advance_past_end_violated maxLimit minLimit (iterWork st) (st.map Src.iter) hlt
    adds p.2 hs' hpe (List.mem_map.2 ⟨p, hp, by rw [← hpa]⟩)
  rw [h1] at hno
  refine ⟨iterWork st, calls, ?_, h4⟩
  rw [h1]
  cases fin with
  | outOfFuel => exact absurd rfl h7
  | outOfRange => rfl
  | done its => exact absurd rfl (hno its)

/-- One concrete text of five characters with a single font run. -/
example : (∀ p ∈ ([(.list [((5 : Int), 'f')], 0), (.const 5 'n', 0)] : SState Char),
      SortedLimits p.1.runs ∧ Src.idx p < p.1.runs.length ∧ endOf p.1.runs = some 5) ∧
    ∀ its', (iterateIterators 5 100 0 [Src.iter (.list [((5 : Int), 'f')], 0),
      Src.iter (.const 5 'n', 0)]).final ≠ .done its' :=
  ⟨by simp [SortedLimits, Src.runs, Src.idx, endOf],
   C05_advance_past_end_violated 5 0 100 _ (by omega) [((5 : Int), 'f')] 0
    (by simp [SortedLimits]) rfl (by simp)⟩

/-- What remains true.  For iterators whose runs reach `maxLimit` and that have
not passed `minLimit`, all callbacks are made with existing runs: they have
non-decreasing limits, reach `maxLimit`, and for each index in
`[minLimit, maxLimit)` the first callback past it carries the value of every
source at that index.  If moreover some source has a limit exactly at `maxLimit`
(as paragraph-local iterators have) and every run list goes beyond `maxLimit`
(any paragraph but the last), the whole call is defined. Missing for the full
property: the case where a run list ends at `maxLimit`, which is the violation
above. -/
theorem C05_iterators_partial (maxLimit minLimit : Int) (st : SState α)
    (hlt : minLimit < maxLimit) (hne : st ≠ [])
    (hs : ∀ p ∈ st, SortedLimits p.1.runs)
    (he : ∀ p ∈ st, ∃ e, endOf p.1.runs = some e ∧ maxLimit ≤ e)
    (hr : ∀ p ∈ st, Src.idx p < p.1.runs.length)
    (hb : ∀ p ∈ st, ∀ j (hj : j < p.1.runs.length), j < Src.idx p → p.1.runs[j].1 ≤ minLimit) :
    ∃ fuel calls fin, iterateIterators maxLimit fuel minLimit (st.map Src.iter) = ⟨calls, fin⟩ ∧
      SortedLimits calls ∧
      (∀ i, minLimit ≤ i → i < maxLimit → ∃ xs, valueAt calls i = some xs ∧
        List.Forall₂ (fun p x => valueAt p.1.runs i = some x) st xs) ∧
      (∃ e, endOf calls = some e ∧ maxLimit ≤ e) ∧
      ((∃ p ∈ st, ∃ q ∈ p.1.runs, q.1 = maxLimit) → endOf calls = some maxLimit ∧
        ((∀ p ∈ st, (∃ r, p.1 = .list r) → ∃ e, endOf p.1.runs = some e ∧ maxLimit < e) →
          ∃ its, fin = .done its)) := by
  obtain ⟨calls, fin, h1, h2, _, h4, h5, h6, _⟩ := iterateIterators_spec maxLimit (iterWork st)
    minLimit st ⟨hne, hs, he, hr⟩ (Nat.le_refl _) hlt
  refine ⟨iterWork st, calls, fin, h1, h2, ?_, h4, ?_⟩
  · intro i h1 h2
    exact h5 i h2 fun p hp j hj hji => by have := hb p hp j hj hji; omega
  · rintro ⟨p, hp, q, hq, hqe⟩
    obtain ⟨j, hj, rfl⟩ := List.mem_iff_getElem.1 hq
    refine h6 ⟨p, hp, j, hj, ?_, hqe⟩
    by_cases hjl : j < Src.idx p
    · have := hb p hp j hj hjl; omega
    · omega

/-- Two run lists going beyond the paragraph end 4, and one paragraph-local one. -/
example :
    (iterateIterators 4 10 0 ([(.list [((0 : Int), 'x'), (2, 'a'), (6, 'b')], 0),
      (.list [(9, 'c')], 0), (.const 4 'd', 0)].map Src.iter)).calls
      = [(0, ['x', 'c', 'd']), (2, ['a', 'c', 'd']), (4, ['b', 'c', 'd'])] := by decide +kernel

/-! ## C06 -/

/-- Driving the builder over any text with nested regions and a final `pop`
gives runs with the innermost value of every unit of text. -/
theorem C06_builder (base : α) (d : Doc α) :
    ∃ b b', RunBuilder.drive d (0, RunBuilder.init base) = some ((d.values base).length, b) ∧
      b.pop ((d.values base).length : Int) = some b' ∧ b'.stack = [] ∧
      b'.runs.getLimit = some ((d.values base).length : Int) ∧
      ∀ i : Nat, i < (d.values base).length →
        b'.runs.view.getValue (i : Int) = (d.values base)[i]? := by
  obtain ⟨b, h1, h2⟩ := RunBuilder.drive_tracks d (RunBuilder.tracks_init base)
  simp only [List.nil_append, List.length_nil] at h1 h2
  obtain ⟨b', h3, h4, R, h5, h6, _, h7, h8⟩ := h2.pop'
  refine ⟨b, b', h1, h3, h4.stack_eq, by rw [h5.getLimit, h7], fun i hi => ?_⟩
  rw [h5.shows.getValue h6, h8 i hi]

/-- `ab<1><2></2>cd</1><3>e</3>`: an empty region and two that share an edge. -/
example : (Doc.text 2 (.region 1 (.region 2 .done (.text 2 .done)) (.region 3 (.text 1 .done) .done))).values 0
    = [0, 0, 1, 1, 3] := by decide
example : ((RunBuilder.drive (Doc.text 2 (.region 1 (.region 2 .done (.text 2 .done))
    (.region 3 (.text 1 .done) .done))) (0, RunBuilder.init 0)).bind fun s => s.2.pop s.1).map
      (fun b => (b.runs.limits, b.runs.values))
    = some ([2, 2, 4, 4, 5], [0, 1, 1, 0, 3]) := by decide +kernel

end RichText
