import Verif.Proof.Intersections
import Verif.Spec.RunIter
namespace RichText
open Spec

variable {α : Type _}

theorem advanceRuns_some {v : RunView α} {runs} (h : v.Shows runs) (index : Int) (i j : Nat) :
    RunIter.advanceRuns v index i = some j ↔
      ∃ hj : j < runs.length, i ≤ j ∧ index < runs[j].1 ∧
        ∀ k (hk : k < runs.length), i ≤ k → k < j → runs[k].1 ≤ index := by
  induction hn : runs.length - i generalizing i with
  | zero =>
    rw [RunIter.advanceRuns, if_neg (by rw [h.count]; omega)]
    constructor
    · intro hc; simp at hc
    · rintro ⟨hj, hij, _⟩; omega
  | succ n ih =>
    have hlt : i < runs.length := by omega
    rw [RunIter.advanceRuns, if_pos (by rw [h.count]; omega)]
    simp only [h.limit, List.getElem?_eq_getElem hlt, Option.map_some]
    by_cases hle : runs[i].1 ≤ index
    · simp only [hle, if_true]
      rw [ih (i + 1) (by omega)]
      constructor
      · rintro ⟨hj, h1, h2, h3⟩
        refine ⟨hj, by omega, h2, ?_⟩
        intro k hk hik hkj
        by_cases hEq : k = i
        · subst hEq; exact hle
        · exact h3 k hk (by omega) hkj
      · rintro ⟨hj, h1, h2, h3⟩
        have : i ≠ j := by rintro rfl; omega
        exact ⟨hj, by omega, h2, fun k hk hik hkj => h3 k hk (by omega) hkj⟩
    · simp only [hle, if_false, Option.some.injEq]
      constructor
      · rintro rfl
        exact ⟨hlt, by omega, by omega, fun k hk h1 h2 => by omega⟩
      · rintro ⟨hj, h1, h2, h3⟩
        by_cases hEq : i = j
        · exact hEq
        · have := h3 i hlt (by omega) (by omega); omega

theorem advanceRuns_none {v : RunView α} {runs} (h : v.Shows runs) (index : Int) (i : Nat) :
    RunIter.advanceRuns v index i = none ↔
      ∀ k (hk : k < runs.length), i ≤ k → runs[k].1 ≤ index := by
  induction hn : runs.length - i generalizing i with
  | zero =>
    rw [RunIter.advanceRuns, if_neg (by rw [h.count]; omega)]
    simp only [true_iff]
    intro k hk hik; omega
  | succ n ih =>
    have hlt : i < runs.length := by omega
    rw [RunIter.advanceRuns, if_pos (by rw [h.count]; omega)]
    simp only [h.limit, List.getElem?_eq_getElem hlt, Option.map_some]
    by_cases hle : runs[i].1 ≤ index
    · simp only [hle, if_true]
      rw [ih (i + 1) (by omega)]
      constructor
      · intro hh k hk hik
        by_cases hEq : k = i
        · subst hEq; exact hle
        · exact hh k hk (by omega)
      · intro hh k hk hik; exact hh k hk (by omega)
    · simp only [hle, if_false, reduceCtorEq, false_iff]
      intro hh
      exact hle (hh i hlt (by omega))

theorem Src.getLimit_iter (p : Src α × Nat) :
    (Src.iter p).getLimit = (p.1.runs[Src.idx p]?).map (·.1) := by
  obtain ⟨s, i⟩ := p
  cases s <;> simp [Src.iter, Src.runs, Src.idx, RunIter.getLimit, limit_ofAdds]

theorem Src.getValue_iter (p : Src α × Nat) :
    (Src.iter p).getValue = (p.1.runs[Src.idx p]?).map (·.2) := by
  obtain ⟨s, i⟩ := p
  cases s <;> simp [Src.iter, Src.runs, Src.idx, RunIter.getValue, value_ofAdds]

theorem minOfLimits_spec (l : List (Option Int)) (hne : l ≠ []) (h : ∀ x ∈ l, x.isSome) :
    ∃ m, minOfLimits l = some m ∧ (∀ x ∈ l, ∀ y, x = some y → m ≤ y) ∧ some m ∈ l := by
  induction l with
  | nil => simp at hne
  | cons a t ih =>
    obtain ⟨y, rfl⟩ := Option.isSome_iff_exists.1 (h a (by simp))
    cases t with
    | nil => exact ⟨y, rfl, by simp, by simp⟩
    | cons b t =>
      obtain ⟨m, h1, h2, h3⟩ := ih (by simp) (fun x hx => h x (List.mem_cons_of_mem _ hx))
      refine ⟨min y m, ?_, ?_, ?_⟩
      · simp only [minOfLimits] at h1 ⊢; rw [h1]
      · intro x hx z hz
        rcases List.mem_cons.1 hx with rfl | hx
        · cases hz; omega
        · have := h2 x hx z hz; omega
      · by_cases hle : y ≤ m
        · rw [Int.min_eq_left hle]; simp
        · rw [Int.min_eq_right (by omega)]; exact List.mem_cons_of_mem _ h3

theorem allSome_forall₂ {β : Type _} (l : List (Option β)) (h : ∀ x ∈ l, x.isSome) :
    ∃ xs, allSome l = some xs ∧ l = xs.map some := by
  induction l with
  | nil => exact ⟨[], rfl, rfl⟩
  | cons a t ih =>
    obtain ⟨y, rfl⟩ := Option.isSome_iff_exists.1 (h a (by simp))
    obtain ⟨xs, h1, h2⟩ := ih (fun x hx => h x (List.mem_cons_of_mem _ hx))
    exact ⟨y :: xs, by simp [allSome, h1], by simp [h2]⟩

theorem allSome_eq_some {β : Type _} (l : List (Option β)) (xs : List β) (h : allSome l = some xs) :
    l = xs.map some := by
  induction l generalizing xs with
  | nil => simp [allSome] at h; subst h; rfl
  | cons a t ih =>
    cases a with
    | none => simp [allSome] at h
    | some y =>
      simp only [allSome] at h
      cases ht : allSome t with
      | none => simp [ht] at h
      | some ys => simp [ht] at h; subst h; simp [ih ys ht]

theorem allSome_none {β : Type _} (l : List (Option β)) (h : none ∈ l) : allSome l = none := by
  cases hl : allSome l with
  | none => rfl
  | some xs =>
    have := allSome_eq_some l xs hl
    rw [this] at h
    simp at h

/-- If a run iterator's runs end at or before `maxLimit`, the loop always ends in an
out-of-range read. -/
theorem iterateIterators_none (maxLimit : Int) (fuel : Nat) : ∀ (minLimit : Int)
    (its : List (RunIter α)), minLimit < maxLimit →
    (∃ r i, SortedLimits r ∧ (∀ p ∈ r, p.1 ≤ maxLimit) ∧
      RunIter.runs (ValueRuns.ofAdds r).view i ∈ its) →
    ∀ its', (iterateIterators maxLimit fuel minLimit its).final ≠ .done its' := by
  induction fuel with
  | zero => intro m its h _ _; unfold iterateIterators; simp [h]
  | succ fuel ih =>
    intro m its hlt hr its2
    obtain ⟨r, i, hs, hle, hmem⟩ := hr
    unfold iterateIterators
    rw [if_pos hlt]
    cases hmin : minOfLimits (its.map RunIter.getLimit) with
    | none => simp
    | some m' =>
      cases hv : allSome (its.map RunIter.getValue) with
      | none => simp
      | some xs =>
        simp only
        cases ha : allSome (its.map fun it => it.advanceTo m') with
        | none => simp
        | some its' =>
          simp only
          have hmap := allSome_eq_some _ _ ha
          have hin : (RunIter.runs (ValueRuns.ofAdds r).view i).advanceTo m' ∈ its'.map some := by
            rw [← hmap]; exact List.mem_map.2 ⟨_, hmem, rfl⟩
          obtain ⟨it', hit', hitEq⟩ := List.mem_map.1 hin
          simp only [RunIter.advanceTo] at hitEq
          cases hj : RunIter.advanceRuns (ValueRuns.ofAdds r).view m' i with
          | none => rw [hj] at hitEq; simp at hitEq
          | some j =>
            rw [hj] at hitEq
            simp only [Option.map_some, Option.some.injEq] at hitEq
            subst hitEq
            obtain ⟨hjl, _, hgt, _⟩ :=
              (advanceRuns_some (ValueRuns.holds_ofAdds r).shows m' i j).1 hj
            have := hle _ (List.getElem_mem hjl)
            exact ih m' its' (by omega) ⟨r, j, hs, hle, hit'⟩ its2

/-- Invariant: every iterator stands on an existing run, runs reach `maxLimit`. -/
structure SInv (e : Int) (st : SState α) : Prop where
  ne : st ≠ []
  sorted : ∀ p ∈ st, SortedLimits p.1.runs
  ends : ∀ p ∈ st, ∃ e', endOf p.1.runs = some e' ∧ e ≤ e'
  range : ∀ p ∈ st, Src.idx p < p.1.runs.length

def iterWork (st : SState α) : Nat := (st.map fun p => p.1.runs.length - Src.idx p).sum

/-- the state an iterator advances to -/
def Src.adv (m : Int) (p : Src α × Nat) : Src α × Nat :=
  match p with
  | (.list r, i) => (.list r, (RunIter.advanceRuns (ValueRuns.ofAdds r).view m i).getD 0)
  | (.const l x, i) => (.const l x, i)

theorem Src.adv_fst (m : Int) (p : Src α × Nat) : (Src.adv m p).1 = p.1 := by
  obtain ⟨s, i⟩ := p; cases s <;> rfl

/-- Advancing to `m` works as long as the runs end after `m`. -/
theorem Src.adv_spec (m : Int) (p : Src α × Nat) (hs : SortedLimits p.1.runs) (e' : Int)
    (he : endOf p.1.runs = some e') (hr : Src.idx p < p.1.runs.length)
    (hlt : m < e') :
    (Src.iter p).advanceTo m = some (Src.iter (Src.adv m p)) ∧
      Src.idx p ≤ Src.idx (Src.adv m p) ∧
      ∃ hr' : Src.idx (Src.adv m p) < p.1.runs.length,
        m < p.1.runs[Src.idx (Src.adv m p)].1 ∧
        (∀ j (hj : j < p.1.runs.length), Src.idx p ≤ j → j < Src.idx (Src.adv m p) →
          p.1.runs[j].1 ≤ m) := by
  obtain ⟨s, i⟩ := p
  cases s with
  | const l x =>
    simp only [Src.iter, Src.adv, RunIter.advanceTo, Src.idx, Src.runs] at *
    simp [endOf] at he
    exact ⟨trivial, Nat.le_refl _, by simp, by simp; omega, fun j hj _ h => by omega⟩
  | list r =>
    have hsh := (ValueRuns.holds_ofAdds r).shows
    simp only [Src.idx, Src.runs] at hs he hr
    cases hj : RunIter.advanceRuns (ValueRuns.ofAdds r).view m i with
    | none =>
      exfalso
      have h0 := endOf_getElem he (by omega)
      have := (advanceRuns_none hsh m i).1 hj (r.length - 1) (by omega) (by omega)
      omega
    | some j =>
      obtain ⟨h1, h2, h3, h4⟩ := (advanceRuns_some hsh m i j).1 hj
      have hadv : Src.adv m (.list r, i) = (.list r, j) := by simp [Src.adv, hj]
      rw [hadv]
      exact ⟨by simp [Src.iter, RunIter.advanceTo, hj], h2, h1, h3, h4⟩

theorem allSome_map_some {β γ : Type _} (l : List β) (f : β → Option γ) (g : β → γ)
    (h : ∀ x ∈ l, f x = some (g x)) : allSome (l.map f) = some (l.map g) := by
  induction l with
  | nil => rfl
  | cons a t ih =>
    rw [List.map_cons, h a (by simp), allSome, ih (fun x hx => h x (List.mem_cons_of_mem _ hx))]
    rfl

theorem iterWork_adv_le (m : Int) (st : SState α)
    (h : ∀ p ∈ st, Src.idx p ≤ Src.idx (Src.adv m p)) : iterWork (st.map (Src.adv m)) ≤ iterWork st := by
  induction st with
  | nil => simp
  | cons p t ih =>
    have h1 := h p (by simp)
    have h2 := ih (fun q hq => h q (List.mem_cons_of_mem _ hq))
    simp only [iterWork, List.map_cons, List.sum_cons, Src.adv_fst] at h2 ⊢
    omega

theorem iterWork_adv_lt (m : Int) (st : SState α)
    (h : ∀ p ∈ st, Src.idx p ≤ Src.idx (Src.adv m p))
    (h' : ∃ p ∈ st, Src.idx p < p.1.runs.length ∧ Src.idx p < Src.idx (Src.adv m p)) :
    iterWork (st.map (Src.adv m)) < iterWork st := by
  induction st with
  | nil => simp at h'
  | cons p t ih =>
    have h1 := h p (by simp)
    have h2 := iterWork_adv_le m t (fun q hq => h q (List.mem_cons_of_mem _ hq))
    obtain ⟨q, hq, hq1, hq2⟩ := h'
    rcases List.mem_cons.1 hq with rfl | hq
    · simp only [iterWork, List.map_cons, List.sum_cons, Src.adv_fst] at h2 ⊢
      omega
    · have h3 := ih (fun q hq => h q (List.mem_cons_of_mem _ hq)) ⟨q, hq, hq1, hq2⟩
      simp only [iterWork, List.map_cons, List.sum_cons, Src.adv_fst] at h3 ⊢
      omega

theorem iterateIterators_spec (e : Int) (fuel : Nat) : ∀ (m : Int) (st : SState α),
    SInv e st → iterWork st ≤ fuel → m < e →
    ∃ calls fin, iterateIterators e fuel m (st.map Src.iter) = ⟨calls, fin⟩ ∧
      SortedLimits calls ∧
      (∀ B, (∀ p ∈ st, ∀ (hr : Src.idx p < p.1.runs.length), B ≤ p.1.runs[Src.idx p].1) →
        ∀ c ∈ calls, B ≤ c.1) ∧
      (∃ e', endOf calls = some e' ∧ e ≤ e') ∧
      (∀ i, i < e →
        (∀ p ∈ st, ∀ j (hj : j < p.1.runs.length), j < Src.idx p → p.1.runs[j].1 ≤ i) →
        ∃ xs, valueAt calls i = some xs ∧
          List.Forall₂ (fun p x => valueAt p.1.runs i = some x) st xs) ∧
      ((∃ p ∈ st, ∃ j, ∃ hj : j < p.1.runs.length, Src.idx p ≤ j ∧ p.1.runs[j].1 = e) → endOf calls = some e ∧
        ((∀ p ∈ st, (∃ r, p.1 = .list r) → ∃ e', endOf p.1.runs = some e' ∧ e < e') →
          ∃ its, fin = .done its)) ∧ fin ≠ .outOfFuel := by
  induction fuel with
  | zero =>
    intro m st h hw hlt
    exfalso
    obtain ⟨p, hp⟩ := List.exists_mem_of_ne_nil _ h.ne
    have := h.range p hp
    have : p.1.runs.length - Src.idx p ≤ iterWork st :=
      nat_le_sum_of_mem (List.mem_map.2 ⟨p, hp, rfl⟩)
    omega
  | succ fuel ih =>
    intro m st h hw hlt
    have hlim : ∀ p ∈ st, ∀ (hr : Src.idx p < p.1.runs.length),
        (Src.iter p).getLimit = some (p.1.runs[Src.idx p].1) := by
      intro p hp hr; simp [Src.getLimit_iter, hr]
    obtain ⟨m', hm1, hm2, hm3⟩ := minOfLimits_spec ((st.map Src.iter).map RunIter.getLimit)
      (by simpa using h.ne)
      (by
        intro x hx
        simp only [List.map_map, List.mem_map, Function.comp] at hx
        obtain ⟨p, hp, rfl⟩ := hx
        rw [hlim p hp (h.range p hp)]; rfl)
    have hmin : ∀ p ∈ st, ∀ (hr : Src.idx p < p.1.runs.length), m' ≤ p.1.runs[Src.idx p].1 := by
      intro p hp hr
      exact hm2 _ (by
        simp only [List.map_map, List.mem_map, Function.comp]
        exact ⟨p, hp, rfl⟩) _ (hlim p hp hr)
    obtain ⟨p0, hp0, hp0m⟩ : ∃ p ∈ st, ∃ (hr : Src.idx p < p.1.runs.length),
        p.1.runs[Src.idx p].1 = m' := by
      simp only [List.map_map, List.mem_map, Function.comp] at hm3
      obtain ⟨p, hp, hpm⟩ := hm3
      refine ⟨p, hp, h.range p hp, ?_⟩
      rw [hlim p hp (h.range p hp)] at hpm
      simpa using hpm
    obtain ⟨hr0, hp0m⟩ := hp0m
    obtain ⟨xs, hx1, hx2⟩ := allSome_forall₂ ((st.map Src.iter).map RunIter.getValue)
      (by
        intro x hx
        simp only [List.map_map, List.mem_map, Function.comp] at hx
        obtain ⟨p, hp, rfl⟩ := hx
        have := h.range p hp
        rw [Src.getValue_iter]
        simp [this])
    have hF : ∀ (l : SState α) (ys : List α), (l.map Src.iter).map RunIter.getValue = ys.map some →
        List.Forall₂ (fun p x => (p.1.runs[Src.idx p]?).map (·.2) = some x) l ys := by
      intro l
      induction l with
      | nil => intro ys hy; cases ys with
        | nil => exact .nil
        | cons => simp at hy
      | cons p t iht => intro ys hy; cases ys with
        | nil => simp at hy
        | cons y ys =>
          simp only [List.map_cons, List.cons.injEq] at hy
          exact .cons (by rw [← Src.getValue_iter, hy.1]) (iht ys hy.2)
    have hvals := hF st xs hx2
    have hcur : ∀ i, i < m' →
        (∀ p ∈ st, ∀ j (hj : j < p.1.runs.length), j < Src.idx p → p.1.runs[j].1 ≤ i) →
        List.Forall₂ (fun p x => valueAt p.1.runs i = some x) st xs := by
      intro i him hi
      refine forall₂_imp_mem hvals ?_
      intro p hp x hx
      have hr := h.range p hp
      rw [List.getElem?_eq_getElem hr, Option.map_some] at hx
      have := hmin p hp hr
      exact valueAt_of_index _ (Src.idx p) i x hr (by simpa using hx)
        (hi p hp) (by omega)
    -- if some run limit is exactly `e`, no call goes past it
    have hexact : (∃ p ∈ st, ∃ j, ∃ hj : j < p.1.runs.length, Src.idx p ≤ j ∧ p.1.runs[j].1 = e) → m' ≤ e := by
      rintro ⟨p, hp, j, hj, hij, rfl⟩
      have hr := h.range p hp
      have h1 := hmin p hp hr
      by_cases hEq : Src.idx p = j
      · subst hEq; exact h1
      · have := List.pairwise_iff_getElem.1 (h.sorted p hp) (Src.idx p) j hr hj (by omega)
        omega
    unfold iterateIterators
    rw [if_pos hlt]
    simp only [hm1, hx1]
    have hmapadv : (∀ p ∈ st, (Src.iter p).advanceTo m' = some (Src.iter (Src.adv m' p))) →
        allSome ((st.map Src.iter).map fun it => it.advanceTo m')
          = some ((st.map (Src.adv m')).map Src.iter) := by
      intro hall
      rw [List.map_map, List.map_map]
      exact allSome_map_some st _ _ hall
    by_cases hlt' : m' < e
    · have hstep : ∀ p ∈ st,
          (Src.iter p).advanceTo m' = some (Src.iter (Src.adv m' p)) ∧
          Src.idx p ≤ Src.idx (Src.adv m' p) ∧
          ∃ hr' : Src.idx (Src.adv m' p) < p.1.runs.length,
            m' < p.1.runs[Src.idx (Src.adv m' p)].1 ∧
            (∀ j (hj : j < p.1.runs.length), Src.idx p ≤ j → j < Src.idx (Src.adv m' p) →
              p.1.runs[j].1 ≤ m') := by
        intro p hp
        obtain ⟨e', he', hle'⟩ := h.ends p hp
        exact Src.adv_spec m' p (h.sorted p hp) e' he' (h.range p hp) (by omega)
      rw [hmapadv fun p hp => (hstep p hp).1]
      simp only
      obtain ⟨calls, fin, h1, h2, h3, h4, h5, h6, h7⟩ := ih m' (st.map (Src.adv m'))
        (by
          refine ⟨by simpa using h.ne, ?_, ?_, ?_⟩
          · intro p hp; obtain ⟨q, hq, rfl⟩ := List.mem_map.1 hp
            rw [Src.adv_fst]; exact h.sorted q hq
          · intro p hp; obtain ⟨q, hq, rfl⟩ := List.mem_map.1 hp
            rw [Src.adv_fst]; exact h.ends q hq
          · intro p hp; obtain ⟨q, hq, rfl⟩ := List.mem_map.1 hp
            rw [Src.adv_fst]; exact (hstep q hq).2.2.1)
        (by
          have := iterWork_adv_lt m' st (fun p hp => (hstep p hp).2.1) ⟨p0, hp0, hr0, by
            have h1 := (hstep p0 hp0).2.1
            obtain ⟨hr', h2, _⟩ := (hstep p0 hp0).2.2
            by_cases hEq : Src.idx p0 = Src.idx (Src.adv m' p0)
            · simp only [← hEq] at h2; omega
            · omega⟩
          omega) hlt'
      rw [h1]
      refine ⟨(m', xs) :: calls, fin, rfl, ?_, ?_, ?_, ?_, ?_, h7⟩
      · refine List.pairwise_cons.2 ⟨fun c hc => ?_, h2⟩
        refine h3 m' ?_ c hc
        intro p hp; obtain ⟨q, hq, rfl⟩ := List.mem_map.1 hp
        simp only [Src.adv_fst]
        intro hr
        have := (hstep q hq).2.2.2.1
        omega
      · intro B hB c hc
        have hBm : B ≤ m' := by have := hB p0 hp0 hr0; omega
        rcases List.mem_cons.1 hc with rfl | hc
        · exact hBm
        · refine h3 B ?_ c hc
          intro p hp; obtain ⟨q, hq, rfl⟩ := List.mem_map.1 hp
          simp only [Src.adv_fst]
          intro hr
          have := (hstep q hq).2.2.2.1
          omega
      · obtain ⟨e', he', hle⟩ := h4
        refine ⟨e', ?_, hle⟩
        unfold endOf at he' ⊢
        cases calls with
        | nil => simp at he'
        | cons a b => simpa [List.getLast?_cons] using he'
      · intro i hie hi
        by_cases him : i < m'
        · exact ⟨xs, by simp [valueAt, him], hcur i him hi⟩
        · obtain ⟨ys, hy1, hy2⟩ := h5 i hie (by
            intro p hp; obtain ⟨q, hq, rfl⟩ := List.mem_map.1 hp
            simp only [Src.adv_fst]
            intro j hj hjq
            by_cases hjb : j < Src.idx q
            · exact hi q hq j hj hjb
            · have := (hstep q hq).2.2.2.2 j hj (by omega) hjq
              omega)
          refine ⟨ys, ?_, ?_⟩
          · unfold valueAt at hy1 ⊢
            rw [List.find?_cons_of_neg (by simp; omega)]
            exact hy1
          · have := List.forall₂_map_left_iff.1 hy2
            simpa only [Src.adv_fst] using this
      · rintro ⟨p, hp, j, hj, hij, hje⟩
        obtain ⟨g1, g2⟩ := h6 ⟨Src.adv m' p, List.mem_map.2 ⟨p, hp, rfl⟩, j, by rwa [Src.adv_fst], by
          by_cases hlt2 : j < Src.idx (Src.adv m' p)
          · have := (hstep p hp).2.2.2.2 j hj hij hlt2
            omega
          · omega, by simpa only [Src.adv_fst] using hje⟩
        refine ⟨?_, fun hends => g2 ?_⟩
        · unfold endOf at g1 ⊢
          cases calls with
          | nil => simp at g1
          | cons a b => simpa [List.getLast?_cons] using g1
        · intro p hp; obtain ⟨q, hq, rfl⟩ := List.mem_map.1 hp
          rw [Src.adv_fst]; exact hends q hq
    · have hend : ∀ its : List (RunIter α), iterateIterators e fuel m' its = ⟨[], .done its⟩ := by
        intro its; unfold iterateIterators; simp [hlt']
      have hrest : ∀ fin : IterEnd α,
          ((∃ p ∈ st, ∃ j, ∃ hj : j < p.1.runs.length, Src.idx p ≤ j ∧ p.1.runs[j].1 = e) →
            ((∀ p ∈ st, (∃ r, p.1 = .list r) → ∃ e', endOf p.1.runs = some e' ∧ e < e') →
              ∃ its, fin = .done its)) →
          fin ≠ .outOfFuel → ∃ calls fin', (⟨[(m', xs)], fin⟩ : IterOutcome α) = ⟨calls, fin'⟩ ∧
            SortedLimits calls ∧
            (∀ B, (∀ p ∈ st, ∀ (hr : Src.idx p < p.1.runs.length), B ≤ p.1.runs[Src.idx p].1) →
              ∀ c ∈ calls, B ≤ c.1) ∧
            (∃ e', endOf calls = some e' ∧ e ≤ e') ∧
            (∀ i, i < e →
              (∀ p ∈ st, ∀ j (hj : j < p.1.runs.length), j < Src.idx p → p.1.runs[j].1 ≤ i) →
              ∃ xs, valueAt calls i = some xs ∧
                List.Forall₂ (fun p x => valueAt p.1.runs i = some x) st xs) ∧
            ((∃ p ∈ st, ∃ j, ∃ hj : j < p.1.runs.length, Src.idx p ≤ j ∧ p.1.runs[j].1 = e) → endOf calls = some e ∧
              ((∀ p ∈ st, (∃ r, p.1 = .list r) → ∃ e', endOf p.1.runs = some e' ∧ e < e') →
                ∃ its, fin' = .done its)) ∧ fin' ≠ .outOfFuel := by
        intro fin hfin hff
        refine ⟨[(m', xs)], fin, rfl, by simp [SortedLimits], ?_,
          ⟨m', by simp [endOf], by omega⟩, ?_, ?_, hff⟩
        · intro B hB c hc
          have := hB p0 hp0 hr0
          simp at hc; subst hc; simp; omega
        · intro i hie hi
          have him : i < m' := by omega
          exact ⟨xs, by simp [valueAt, him], hcur i him hi⟩
        · intro hx
          have := hexact hx
          exact ⟨by simp [endOf]; omega, hfin hx⟩
      cases ha : allSome ((st.map Src.iter).map fun it => it.advanceTo m') with
      | none =>
        refine hrest .outOfRange ?_ (by simp)
        intro hx hends
        exfalso
        have hme : m' = e := by have := hexact hx; omega
        have : ∀ p ∈ st, (Src.iter p).advanceTo m' = some (Src.iter (Src.adv m' p)) := by
          intro p hp
          by_cases hl : ∃ r, p.1 = .list r
          · obtain ⟨e', he', hle'⟩ := hends p hp hl
            exact (Src.adv_spec m' p (h.sorted p hp) e' he' (h.range p hp) (by omega)).1
          · obtain ⟨s, i⟩ := p
            cases s with
            | list r => exact absurd ⟨r, rfl⟩ hl
            | const l x => rfl
        rw [hmapadv this] at ha
        simp at ha
      | some its' =>
        simp only [hend]
        exact hrest (.done its') (fun _ _ => ⟨_, rfl⟩) (by simp)

end RichText
