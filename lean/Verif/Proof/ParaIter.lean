import Verif.Proof.RunIter
import Verif.Model.LayoutBuilder
/-! Lemmas on the iteration over the runs of a paragraph (Model/LayoutBuilder.lean). -/
namespace RichText
open Spec

variable {α σ : Type _}

/-! ### Levels -/

/-- The iterator has passed `k` levels of the paragraph; those from `c` on have
the value shown. -/
structure LevelsAt (levels : List Nat) (start : Int) (c : Int) (it : LevelsIter) : Prop where
  intro ::
  h : ∃ k : Nat, k ≤ levels.length ∧ it.rest = levels.drop k ∧ it.index = start + k ∧
    (∀ j : Nat, c ≤ start + j → j < k → levels[j]? = some it.last) ∧ (k < levels.length → levels[k]? ≠ some it.last)

theorem LevelsIter.skip_spec (levels : List Nat) (start : Int) (x : Nat) : ∀ (n k : Nat), levels.length - k = n →
    k ≤ levels.length →
    ∃ k', k ≤ k' ∧ k' ≤ levels.length ∧ LevelsIter.skip (levels.drop k) x (start + k) = ⟨levels.drop k', x, start + k'⟩ ∧
      (∀ j, k ≤ j → j < k' → levels[j]? = some x) ∧ (k' < levels.length → levels[k']? ≠ some x) := by
  intro n
  induction n with
  | zero =>
    intro k hn hk
    obtain rfl : k = levels.length := by omega
    refine ⟨levels.length, Nat.le_refl _, Nat.le_refl _, ?_, fun j h1 h2 => by omega, fun h => by omega⟩
    rw [List.drop_length]; rfl
  | succ n ih =>
    intro k hn hk
    have hlt : k < levels.length := by omega
    rw [List.drop_eq_getElem_cons hlt]
    unfold LevelsIter.skip
    by_cases hx : levels[k] = x
    · rw [if_pos hx]
      obtain ⟨k', h1, h2, h3, h4, h5⟩ := ih (k + 1) (by omega) (by omega)
      refine ⟨k', by omega, h2, ?_, ?_, h5⟩
      · rw [← h3]; congr 1; push_cast; omega
      · intro j hj1 hj2
        rcases Nat.lt_or_ge k j with h | h
        · exact h4 j h hj2
        · obtain rfl : j = k := by omega
          rw [List.getElem?_eq_getElem hlt, hx]
    · rw [if_neg hx]
      refine ⟨k, Nat.le_refl _, hk, by rw [List.drop_eq_getElem_cons hlt], fun j h1 h2 => by omega, ?_⟩
      intro _ h
      rw [List.getElem?_eq_getElem hlt] at h
      exact hx (by simpa using h)

theorem LevelsIter.init_spec {levels : List Nat} (hne : levels ≠ []) (start : Int) :
    ∃ it, LevelsIter.init levels start = some it ∧ LevelsAt levels start start it ∧ start < it.index ∧
      it.index ≤ start + levels.length := by
  cases levels with
  | nil => exact absurd rfl hne
  | cons x t =>
    obtain ⟨k', h1, h2, h3, h4, h5⟩ := LevelsIter.skip_spec (x :: t) start x _ 0 rfl (Nat.zero_le _)
    have h3' : LevelsIter.skip (x :: t) x start = ⟨(x :: t).drop k', x, start + k'⟩ := by simpa using h3
    refine ⟨_, rfl, ⟨k', h2, by rw [h3'], by rw [h3'], ?_, ?_⟩, ?_, ?_⟩
    · intro j _ hj
      rw [h3']
      exact h4 j (Nat.zero_le _) hj
    · rw [h3']; exact h5
    · rw [h3']
      have : k' ≠ 0 := by
        rintro rfl
        exact h5 (by simp) rfl
      simp only; omega
    · rw [h3']; simp only; omega

theorem LevelsIter.advanceTo_spec {levels : List Nat} {start : Int} (m : Int) (hm : m < start + levels.length) :
    ∀ (n : Nat) (it : LevelsIter) (c : Int), it.rest.length = n → LevelsAt levels start c it →
      LevelsAt levels start (max c m) (it.advanceTo m) ∧ m < (it.advanceTo m).index ∧
        (it.advanceTo m).index ≤ start + levels.length := by
  intro n
  induction n using Nat.strongRecOn with
  | ind n ih =>
    rintro ⟨rest, last, index⟩ c hn ⟨k, h1, h2, h3, h4, h5⟩
    simp only at h2 h3 h4 h5 hn
    cases rest with
    | nil =>
      have hk : k = levels.length := by
        have := congrArg List.length h2
        simp at this; omega
      unfold LevelsIter.advanceTo
      exact ⟨⟨k, h1, h2, h3, fun j hj => h4 j (by omega), h5⟩, by simp only; omega, by simp only; omega⟩
    | cons x t =>
      unfold LevelsIter.advanceTo
      by_cases hle : index ≤ m
      · simp only [if_pos hle]
        have hlt : k < levels.length := by
          rcases Nat.lt_or_ge k levels.length with h | h
          · exact h
          · rw [List.drop_of_length_le h] at h2; cases h2
        rw [List.drop_eq_getElem_cons hlt] at h2
        obtain ⟨k', g1, g2, g3, g4, g5⟩ := LevelsIter.skip_spec levels start x _ (k + 1) rfl hlt
        have hx : levels[k]? = some x := by
          rw [List.getElem?_eq_getElem hlt, (List.cons.inj h2).1]
        have hskip : LevelsIter.skip t x (index + 1) = ⟨levels.drop k', x, start + k'⟩ := by
          rw [← g3]
          rw [(List.cons.inj h2).2, h3]; congr 1; push_cast; omega
        have hlen : (LevelsIter.skip t x (index + 1)).rest.length < n := by
          rw [hskip]
          simp at hn
          have := congrArg List.length h2
          simp at this ⊢
          omega
        obtain ⟨a1, a2, a3⟩ := ih _ hlen (LevelsIter.skip t x (index + 1)) (max c m) rfl (by
          rw [hskip]
          refine ⟨k', g2, rfl, rfl, ?_, g5⟩
          intro j hj1 hj2
          simp only
          rcases Nat.lt_or_ge k j with h | h
          · exact g4 j h hj2
          · obtain rfl : j = k := by omega
            exact hx)
        exact ⟨by simpa using a1, a2, a3⟩
      · simp only [if_neg hle]
        exact ⟨⟨k, h1, h2, h3, fun j hj => h4 j (by omega), h5⟩, by omega, by omega⟩

theorem LevelsAt.value {levels : List Nat} {start c : Int} {it : LevelsIter} (h : LevelsAt levels start c it)
    (j : Nat) (h1 : c ≤ start + j) (h2 : start + j < it.index) : levels[j]? = some it.last := by
  obtain ⟨k, _, _, h3, h4, _⟩ := h.h
  exact h4 j h1 (by omega)

/-- Another level starts at `l`. -/
def LevelChange (levels : List Nat) (start l : Int) : Prop :=
  levels[(l - start).toNat]? ≠ levels[(l - start).toNat - 1]?

theorem LevelsAt.change {levels : List Nat} {start c : Int} {it : LevelsIter} (h : LevelsAt levels start c it) (h0 : start ≤ c)
    (h1 : c < it.index) (h2 : it.index < start + levels.length) : LevelChange levels start it.index := by
  obtain ⟨k, _, _, h3, h4, h5⟩ := h.h
  unfold LevelChange
  rw [show (it.index - start).toNat = k by omega, h4 (k - 1) (by omega) (by omega)]
  exact h5 (by omega)

/-! ### Scripts -/

/-- The iterator stands on a run of the list; if the paragraph starts at 0 or has
only one script run, the runs before it end at or before `c`. -/
structure ScriptAt (scripts : List (Int × σ)) (start c : Int) (it : ScriptIter σ) : Prop where
  intro ::
  at_ : it.paragraphStart = start
  h : ∃ pre, scripts = pre ++ (it.limit, it.value) :: it.rest ∧
    (start = 0 ∨ scripts.length = 1 → ∀ p ∈ pre, p.1 + start ≤ c)

theorem ScriptIter.advanceTo_spec {scripts : List (Int × σ)} {start len : Int} (hs : scripts.Pairwise (fun a b => a.1 < b.1))
    (he : endOf scripts = some len) {c : Int} {it : ScriptIter σ} (h : ScriptAt scripts start c it) (hst : 0 ≤ start)
    {m : Int} (hm : m ≤ it.getLimit) (hlt : m < start + len) :
    ScriptAt scripts start (max c m) (it.advanceTo m) ∧ m < (it.advanceTo m).getLimit := by
  obtain ⟨h1, pre, h2, h3⟩ := h
  obtain ⟨rest, limit, value, ps⟩ := it
  simp only [ScriptIter.getLimit] at *
  subst h1
  unfold ScriptIter.advanceTo
  simp only
  by_cases hle : limit ≤ m
  · rw [if_pos hle]
    unfold ScriptIter.next
    cases rest with
    | nil =>
      refine ⟨⟨rfl, pre, h2, fun hh p hp => by have := h3 hh p hp; omega⟩, ?_⟩
      rw [h2] at he
      simp [endOf] at he
      simp only; omega
    | cons q t =>
      obtain ⟨l, s⟩ := q
      refine ⟨⟨rfl, pre ++ [(limit, value)], by rw [h2]; simp, ?_⟩, ?_⟩
      · intro hh p hp
        rcases List.mem_append.1 hp with hp | hp
        · have := h3 hh p hp; omega
        · rw [List.mem_singleton] at hp; subst hp
          rcases hh with rfl | hh
          · simp only; omega
          · rw [h2] at hh; simp at hh; omega
      · rw [h2] at hs
        have := (List.pairwise_append.1 hs).2.1
        rw [List.pairwise_cons] at this
        have := this.1 (l, s) (List.mem_cons_self ..)
        simp only at this ⊢
        omega
  · rw [if_neg hle]
    refine ⟨⟨rfl, pre, h2, fun hh p hp => by have := h3 hh p hp; omega⟩, ?_⟩
    simp only; omega

theorem ScriptAt.value {scripts : List (Int × σ)} {start c : Int} {it : ScriptIter σ} (h : ScriptAt scripts start c it)
    (hh : start = 0 ∨ scripts.length = 1) {i : Int} (h1 : c ≤ i) (h2 : i < it.getLimit) :
    valueAt scripts (i - start) = some it.value := by
  obtain ⟨hs, pre, h3, h4⟩ := h
  rw [h3]
  unfold valueAt
  have hnone : pre.find? (fun r => decide (i - start < r.1)) = none := by
    rw [List.find?_eq_none]
    intro p hp
    have := h4 hh p hp
    simp; omega
  rw [List.find?_append, hnone]
  simp only [ScriptIter.getLimit, hs] at h2
  rw [Option.none_or, List.find?_cons_of_pos (by simp only [decide_eq_true_eq]; omega)]
  rfl

theorem ScriptIter.init_spec {scripts : List (Int × σ)} (hne : scripts ≠ []) (d : σ) (start : Int) :
    ScriptAt scripts start start (ScriptIter.init scripts d start) := by
  cases scripts with
  | nil => exact absurd rfl hne
  | cons q t => exact ⟨rfl, [], rfl, by simp⟩

/-! ### The iteration -/

/-- What is known before a call. -/
structure ParaInv (e start : Int) (srcs : List (Src α)) (scripts : List (Int × σ)) (levels : List Nat) (c : Int)
    (its : ParaIters α σ) (st : SState α) : Prop where
  runs : its.runs = st.map Src.iter
  srcs : st.map (·.1) = srcs
  sorted : ∀ p ∈ st, SortedLimits p.1.runs
  ends : ∀ p ∈ st, ∃ e', endOf p.1.runs = some e' ∧ e ≤ e'
  range : ∀ p ∈ st, Src.idx p < p.1.runs.length
  before : ∀ p ∈ st, ∀ j (hj : j < p.1.runs.length), j < Src.idx p → p.1.runs[j].1 ≤ c
  script : ScriptAt scripts start c its.script
  levels : LevelsAt levels start c its.levels
  levelsEnd : its.levels.index ≤ e

/-- All limits are after `m`. -/
def ParaIters.Fresh (m : Int) (its : ParaIters α σ) : Prop :=
  (∀ it ∈ its.runs, ∀ l, it.getLimit = some l → m < l) ∧ m < its.script.getLimit ∧ m < its.levels.index

/-- Values shown by a call at index `i`. -/
structure ParaCall.Right (start : Int) (srcs : List (Src α)) (scripts : List (Int × σ)) (levels : List Nat) (i : Int)
    (call : ParaCall α σ) : Prop where
  values : List.Forall₂ (fun (s : Src α) x => valueAt s.runs i = some x) srcs call.values
  level : levels[(i - start).toNat]? = some call.level
  script : start = 0 ∨ scripts.length = 1 → valueAt scripts (i - start) = some call.script

/-- Something ends at `l`: a run, a script run, the levels, or the paragraph. -/
def LimitOf (e start : Int) (srcs : List (Src α)) (scripts : List (Int × σ)) (levels : List Nat) (l : Int) : Prop :=
  (∃ s ∈ srcs, ∃ q ∈ s.runs, q.1 = l) ∨ (∃ q ∈ scripts, q.1 + start = l) ∨ LevelChange levels start l ∨ l = e

theorem ParaInv.step {e start : Int} {srcs : List (Src α)} {scripts : List (Int × σ)} {levels : List Nat}
    (he : e = start + levels.length) (hs : scripts.Pairwise (fun a b => a.1 < b.1))
    (hse : endOf scripts = some (levels.length : Int)) (hst : 0 ≤ start)
    {c : Int} {its : ParaIters α σ} {st : SState α} (h : ParaInv e start srcs scripts levels c its st) (hc : start ≤ c) :
    ∃ m xs, minOfLimits (its.runs.map RunIter.getLimit ++ [some its.script.getLimit, some its.levels.index]) = some m ∧
      allSome (its.runs.map RunIter.getValue) = some xs ∧ m ≤ e ∧
      List.Forall₂ (fun (s : Src α) x => x ∈ s.runs.map (·.2)) srcs xs ∧
      (∀ m0, its.Fresh m0 → m0 < m) ∧
      (∀ i, c ≤ i → i < m → ParaCall.Right start srcs scripts levels i ⟨m, xs, its.script.value, its.levels.last⟩) ∧
      (c < m → LimitOf e start srcs scripts levels m) ∧
      (∀ s ∈ srcs, ∀ q ∈ s.runs, c < q.1 → m ≤ q.1) ∧
      (start = 0 ∨ scripts.length = 1 → ∀ q ∈ scripts, c < q.1 + start → m ≤ q.1 + start) ∧
      (m < e → ∃ st', allSome (its.runs.map fun it => it.advanceTo m) = some (st'.map Src.iter) ∧
        ParaInv e start srcs scripts levels (max c m)
          ⟨st'.map Src.iter, its.script.advanceTo m, its.levels.advanceTo m⟩ st' ∧
        (⟨st'.map Src.iter, its.script.advanceTo m, its.levels.advanceTo m⟩ : ParaIters α σ).Fresh m) := by
  have hlim : ∀ p ∈ st, ∀ (hr : Src.idx p < p.1.runs.length),
      (Src.iter p).getLimit = some (p.1.runs[Src.idx p].1) := by
    intro p hp hr; simp [Src.getLimit_iter, hr]
  obtain ⟨m, hm1, hm2, hm3⟩ := minOfLimits_spec (its.runs.map RunIter.getLimit ++
      [some its.script.getLimit, some its.levels.index]) (by simp) (by
    intro x hx
    rw [h.runs] at hx
    simp only [List.map_map, List.mem_append, List.mem_map, Function.comp] at hx
    rcases hx with ⟨p, hp, rfl⟩ | hx
    · rw [hlim p hp (h.range p hp)]; rfl
    · simp at hx; rcases hx with rfl | rfl <;> rfl)
  have hmin : ∀ p ∈ st, ∀ (hr : Src.idx p < p.1.runs.length), m ≤ p.1.runs[Src.idx p].1 := by
    intro p hp hr
    exact hm2 _ (by
      rw [h.runs]
      simp only [List.map_map, List.mem_append, List.mem_map, Function.comp]
      exact Or.inl ⟨p, hp, rfl⟩) _ (hlim p hp hr)
  have hms : m ≤ its.script.getLimit := hm2 _ (by simp) _ rfl
  have hml : m ≤ its.levels.index := hm2 (some its.levels.index) (by simp) _ rfl
  obtain ⟨xs, hx1, hx2⟩ := allSome_forall₂ (its.runs.map RunIter.getValue) (by
    intro x hx
    rw [h.runs] at hx
    simp only [List.map_map, List.mem_map, Function.comp] at hx
    obtain ⟨p, hp, rfl⟩ := hx
    have := h.range p hp
    rw [Src.getValue_iter]
    simp [this])
  have hme : m ≤ e := by have := h.levelsEnd; omega
  have hF : ∀ (l : SState α) (ys : List α), (l.map Src.iter).map RunIter.getValue = ys.map some →
      List.Forall₂ (fun p x => (p.1.runs[Src.idx p]?).map (·.2) = some x) l ys := by
    intro l
    induction l with
    | nil => intro ys hy; cases ys with
      | nil => exact .nil
      | cons => simp at hy
    | cons p t iht => intro ys hy; cases ys with
      | nil => simp at hy
      | cons y ys =>
        simp only [List.map_cons, List.cons.injEq] at hy
        exact .cons (by rw [← Src.getValue_iter, hy.1]) (iht ys hy.2)
  rw [h.runs] at hx2
  have hvals := hF st xs hx2
  refine ⟨m, xs, hm1, hx1, hme, ?_, ?_, ?_, ?_, ?_, ?_, ?_⟩
  · rw [← h.srcs]
    refine List.forall₂_map_left_iff.2 (hvals.imp ?_)
    intro p x hx
    obtain ⟨q, hq, rfl⟩ := Option.map_eq_some_iff.1 hx
    exact List.mem_map_of_mem (List.mem_of_getElem? hq)
  · intro m0 ⟨hf1, hf2, hf3⟩
    rcases List.mem_append.1 hm3 with hm3 | hm3
    · obtain ⟨it, hit, hitm⟩ := List.mem_map.1 hm3
      exact hf1 it hit m hitm
    · simp at hm3
      rcases hm3 with rfl | rfl
      · exact hf2
      · exact hf3
  · intro i hci him
    refine ⟨?_, ?_, ?_⟩
    · have : List.Forall₂ (fun (p : Src α × Nat) x => valueAt p.1.runs i = some x) st xs := by
        refine forall₂_imp_mem hvals ?_
        intro p hp x hx
        have hr := h.range p hp
        rw [List.getElem?_eq_getElem hr, Option.map_some] at hx
        have := hmin p hp hr
        exact valueAt_of_index _ (Src.idx p) i x hr (by simpa using hx)
          (fun j hj hjl => by have := h.before p hp j hj hjl; omega) (by omega)
      rw [← h.srcs]
      exact List.forall₂_map_left_iff.2 this
    · exact h.levels.value (i - start).toNat (by omega) (by omega)
    · intro hh
      exact h.script.value hh hci (by omega)
  · intro hcm
    rcases List.mem_append.1 hm3 with hm3 | hm3
    · obtain ⟨it, hit, hitm⟩ := List.mem_map.1 hm3
      rw [h.runs] at hit
      obtain ⟨p, hp, rfl⟩ := List.mem_map.1 hit
      rw [hlim p hp (h.range p hp)] at hitm
      exact .inl ⟨p.1, by rw [← h.srcs]; exact List.mem_map_of_mem hp, _, List.getElem_mem (h.range p hp), Option.some.inj hitm⟩
    · simp at hm3
      rcases hm3 with rfl | rfl
      · obtain ⟨h1, pre, h2, -⟩ := h.script
        exact .inr (.inl ⟨(its.script.limit, its.script.value), by rw [h2]; simp, by unfold ScriptIter.getLimit; rw [h1]⟩)
      · rcases Int.lt_or_le its.levels.index e with hl | hl
        · exact .inr (.inr (.inl (h.levels.change hc hcm (by omega))))
        · exact .inr (.inr (.inr (by omega)))
  · intro s hs' q hq hcq
    rw [← h.srcs] at hs'
    obtain ⟨p, hp, rfl⟩ := List.mem_map.1 hs'
    obtain ⟨j, hj, rfl⟩ := List.mem_iff_getElem.1 hq
    have h1 := hmin p hp (h.range p hp)
    rcases Nat.lt_or_ge j (Src.idx p) with hji | hji
    · have := h.before p hp j hj hji; omega
    · rcases Nat.eq_or_lt_of_le hji with rfl | hji
      · exact h1
      · have := List.pairwise_iff_getElem.1 (h.sorted p hp) _ _ (h.range p hp) hj hji
        omega
  · intro hh q hq hcq
    obtain ⟨h1, pre, h2, h3⟩ := h.script
    unfold ScriptIter.getLimit at hms
    rw [h1] at hms
    rw [h2] at hq
    rcases List.mem_append.1 hq with hq | hq
    · have := h3 hh q hq; omega
    · rcases List.mem_cons.1 hq with rfl | hq
      · exact hms
      · rw [h2] at hs
        have := (List.pairwise_cons.1 (List.pairwise_append.1 hs).2.1).1 q hq
        simp only at this
        omega
  · intro hlt
    have hstep : ∀ p ∈ st,
        (Src.iter p).advanceTo m = some (Src.iter (Src.adv m p)) ∧
        Src.idx p ≤ Src.idx (Src.adv m p) ∧
        ∃ hr' : Src.idx (Src.adv m p) < p.1.runs.length,
          m < p.1.runs[Src.idx (Src.adv m p)].1 ∧
          (∀ j (hj : j < p.1.runs.length), Src.idx p ≤ j → j < Src.idx (Src.adv m p) →
            p.1.runs[j].1 ≤ m) := by
      intro p hp
      obtain ⟨e', he', hle'⟩ := h.ends p hp
      exact Src.adv_spec m p (h.sorted p hp) e' he' (h.range p hp) (by omega)
    obtain ⟨s1, s2⟩ := ScriptIter.advanceTo_spec hs hse h.script hst hms (by omega)
    obtain ⟨l1, l2, l3⟩ := LevelsIter.advanceTo_spec (start := start) m (by omega) _ its.levels c rfl h.levels
    refine ⟨st.map (Src.adv m), ?_, ?_, ?_⟩
    · rw [h.runs, List.map_map, List.map_map]
      exact allSome_map_some st _ _ fun p hp => (hstep p hp).1
    · refine ⟨rfl, ?_, ?_, ?_, ?_, ?_, s1, l1, by rw [he]; exact l3⟩
      · rw [← h.srcs, List.map_map]
        exact List.map_congr_left fun p _ => Src.adv_fst m p
      · intro p hp; obtain ⟨q, hq, rfl⟩ := List.mem_map.1 hp
        rw [Src.adv_fst]; exact h.sorted q hq
      · intro p hp; obtain ⟨q, hq, rfl⟩ := List.mem_map.1 hp
        rw [Src.adv_fst]; exact h.ends q hq
      · intro p hp; obtain ⟨q, hq, rfl⟩ := List.mem_map.1 hp
        rw [Src.adv_fst]; exact (hstep q hq).2.2.1
      · intro p hp; obtain ⟨q, hq, rfl⟩ := List.mem_map.1 hp
        simp only [Src.adv_fst]
        intro j hj hjq
        by_cases hjb : j < Src.idx q
        · have := h.before q hq j hj hjb; omega
        · have := (hstep q hq).2.2.2.2 j hj (by omega) hjq; omega
    · refine ⟨?_, s2, l2⟩
      intro it hit l hl
      simp only [List.map_map, List.mem_map, Function.comp] at hit
      obtain ⟨q, hq, rfl⟩ := hit
      obtain ⟨hr', hgt, _⟩ := (hstep q hq).2.2
      rw [Src.getLimit_iter] at hl
      simp only [Src.adv_fst, List.getElem?_eq_getElem hr', Option.map_some, Option.some.injEq] at hl
      omega

/-- What a list of calls shows. -/
structure ParaCalls (e start c : Int) (srcs : List (Src α)) (scripts : List (Int × σ)) (levels : List Nat)
    (calls : List (ParaCall α σ)) : Prop where
  sorted : calls.Pairwise (fun a b => a.limit < b.limit)
  values : ∀ call ∈ calls, List.Forall₂ (fun (s : Src α) x => x ∈ s.runs.map (·.2)) srcs call.values
  last : calls.getLast?.map (·.limit) = some e
  right : ∀ i, c ≤ i → i < e → ∃ call, calls.find? (fun call => decide (i < call.limit)) = some call ∧
    call.Right start srcs scripts levels i
  limit : ∀ call ∈ calls, c < call.limit → LimitOf e start srcs scripts levels call.limit
  runs : ∀ s ∈ srcs, ∀ q ∈ s.runs, c < q.1 → q.1 ≤ e → ∃ call ∈ calls, call.limit = q.1
  scripts : start = 0 ∨ scripts.length = 1 → ∀ q ∈ scripts, c < q.1 + start → q.1 + start ≤ e →
    ∃ call ∈ calls, call.limit = q.1 + start

/-- A call at the front. -/
theorem ParaCalls.front {e start c m : Int} {srcs : List (Src α)} {scripts : List (Int × σ)} {levels : List Nat}
    {calls : List (ParaCall α σ)} (h : ParaCalls e start (max c m) srcs scripts levels calls)
    {call : ParaCall α σ} (hl : call.limit = m) (hm : ∀ x ∈ calls, m < x.limit)
    (hv : List.Forall₂ (fun (s : Src α) x => x ∈ s.runs.map (·.2)) srcs call.values)
    (h5 : ∀ i, c ≤ i → i < m → call.Right start srcs scripts levels i)
    (h6 : c < m → LimitOf e start srcs scripts levels m)
    (h7 : ∀ s ∈ srcs, ∀ q ∈ s.runs, c < q.1 → m ≤ q.1)
    (h8 : start = 0 ∨ scripts.length = 1 → ∀ q ∈ scripts, c < q.1 + start → m ≤ q.1 + start) :
    ParaCalls e start c srcs scripts levels (call :: calls) := by
  subst hl
  refine ⟨List.pairwise_cons.2 ⟨hm, h.sorted⟩, ?_, ?_, ?_, ?_, ?_, ?_⟩
  · intro x hx
    rcases List.mem_cons.1 hx with rfl | hx
    · exact hv
    · exact h.values x hx
  · have := h.last
    cases calls with
    | nil => simp at this
    | cons a b => simpa [List.getLast?_cons] using this
  · intro i hi1 hi2
    by_cases him : i < call.limit
    · exact ⟨_, by rw [List.find?_cons_of_pos (by simpa using him)], h5 i hi1 him⟩
    · obtain ⟨x, hf1, hf2⟩ := h.right i (by omega) hi2
      exact ⟨x, by rw [List.find?_cons_of_neg (by simpa using him)]; exact hf1, hf2⟩
  · intro x hx hcx
    rcases List.mem_cons.1 hx with rfl | hx
    · exact h6 hcx
    · exact h.limit x hx (by have := hm x hx; omega)
  · intro s hs q hq hcq hqe
    have := h7 s hs q hq hcq
    rcases Int.lt_or_le call.limit q.1 with hlt | hle
    · obtain ⟨x, hx, e1⟩ := h.runs s hs q hq (by omega) hqe
      exact ⟨x, List.mem_cons_of_mem _ hx, e1⟩
    · exact ⟨call, List.mem_cons_self, by omega⟩
  · intro hh q hq hcq hqe
    have := h8 hh q hq hcq
    rcases Int.lt_or_le call.limit (q.1 + start) with hlt | hle
    · obtain ⟨x, hx, e1⟩ := h.scripts hh q hq (by omega) hqe
      exact ⟨x, List.mem_cons_of_mem _ hx, e1⟩
    · exact ⟨call, List.mem_cons_self, by omega⟩

/-- The last call. -/
theorem ParaCalls.single {e start c : Int} {srcs : List (Src α)} {scripts : List (Int × σ)} {levels : List Nat}
    {call : ParaCall α σ} (hl : call.limit = e)
    (hv : List.Forall₂ (fun (s : Src α) x => x ∈ s.runs.map (·.2)) srcs call.values)
    (h5 : ∀ i, c ≤ i → i < e → call.Right start srcs scripts levels i)
    (h7 : ∀ s ∈ srcs, ∀ q ∈ s.runs, c < q.1 → e ≤ q.1)
    (h8 : start = 0 ∨ scripts.length = 1 → ∀ q ∈ scripts, c < q.1 + start → e ≤ q.1 + start) :
    ParaCalls e start c srcs scripts levels [call] := by
  subst hl
  refine ⟨List.pairwise_singleton _ _, ?_, rfl, ?_, ?_, ?_, ?_⟩
  · intro x hx; rw [List.mem_singleton] at hx; subst hx; exact hv
  · intro i hi1 hi2
    exact ⟨_, by rw [List.find?_cons_of_pos (by simpa using hi2)], h5 i hi1 hi2⟩
  · intro x hx _; rw [List.mem_singleton] at hx; subst hx; exact .inr (.inr (.inr rfl))
  · intro s hs q hq hcq hqe
    exact ⟨call, List.mem_singleton.2 rfl, by have := h7 s hs q hq hcq; omega⟩
  · intro hh q hq hcq hqe
    exact ⟨call, List.mem_singleton.2 rfl, by have := h8 hh q hq hcq; omega⟩

/-- The run iterators over `srcs` stand on runs; the runs before those end at or before `c`. -/
structure RunsAt (srcs : List (Src α)) (c : Int) (st : SState α) : Prop where
  srcs : st.map (·.1) = srcs
  range : ∀ p ∈ st, Src.idx p < p.1.runs.length
  before : ∀ p ∈ st, ∀ j (hj : j < p.1.runs.length), j < Src.idx p → p.1.runs[j].1 ≤ c

/-- How the iteration over a paragraph ends: normally if all runs go on behind it; in a read
out of range if a list of runs ends with it. -/
structure ParaFin (e : Int) (srcs : List (Src α)) (fin : ParaEnd α σ) : Prop where
  fuel : fin ≠ .outOfFuel
  done : (∀ s ∈ srcs, ∃ e', endOf s.runs = some e' ∧ e < e') →
    ∃ its st, fin = .done its ∧ its.runs = st.map Src.iter ∧ RunsAt srcs e st
  out : (∃ s ∈ srcs, ∃ adds, s = .list adds ∧ endOf adds = some e) → fin = .outOfRange

theorem ParaInv.fin {e start : Int} {srcs : List (Src α)} {scripts : List (Int × σ)} {levels : List Nat}
    {c : Int} {its : ParaIters α σ} {st : SState α} (h : ParaInv e start srcs scripts levels c its st) (hc : c ≤ e)
    (fuel : Nat) :
    ∃ fin, ParaFin e srcs fin ∧
      (match allSome (its.runs.map fun it => it.advanceTo e) with
        | none => (([], .outOfRange) : List (ParaCall α σ) × ParaEnd α σ)
        | some runs' => iteratePara e fuel e ⟨runs', its.script.advanceTo e, its.levels.advanceTo e⟩) = ([], fin) := by
  have hend : ∀ its' : ParaIters α σ, iteratePara e fuel e its' = ([], .done its') := by
    intro its'; unfold iteratePara; simp
  simp only [hend]
  have hout : (∃ s ∈ srcs, ∃ adds, s = .list adds ∧ endOf adds = some e) →
      allSome (its.runs.map fun it => it.advanceTo e) = none := by
    rintro ⟨s, hs, adds, rfl, he⟩
    rw [← h.srcs] at hs
    obtain ⟨⟨s, i⟩, hp, rfl⟩ := List.mem_map.1 hs
    refine allSome_none _ ?_
    rw [h.runs, List.map_map]
    refine List.mem_map.2 ⟨_, hp, ?_⟩
    have hso := h.sorted _ hp
    simp only [Src.runs] at hso
    show ((RunIter.advanceRuns (ValueRuns.ofAdds adds).view e i).map _) = none
    rw [(advanceRuns_none (ValueRuns.holds_ofAdds adds).shows e i).2 fun k hk _ => le_endOf hso he k hk]
    rfl
  have hdone : (∀ s ∈ srcs, ∃ e', endOf s.runs = some e' ∧ e < e') →
      allSome (its.runs.map fun it => it.advanceTo e) = some ((st.map (Src.adv e)).map Src.iter) ∧
        RunsAt srcs e (st.map (Src.adv e)) := by
    intro hall
    have hstep : ∀ p ∈ st,
        (Src.iter p).advanceTo e = some (Src.iter (Src.adv e p)) ∧
        Src.idx p ≤ Src.idx (Src.adv e p) ∧
        ∃ hr' : Src.idx (Src.adv e p) < p.1.runs.length,
          e < p.1.runs[Src.idx (Src.adv e p)].1 ∧
          (∀ j (hj : j < p.1.runs.length), Src.idx p ≤ j → j < Src.idx (Src.adv e p) →
            p.1.runs[j].1 ≤ e) := by
      intro p hp
      obtain ⟨e', he', hlt⟩ := hall p.1 (by rw [← h.srcs]; exact List.mem_map_of_mem hp)
      exact Src.adv_spec e p (h.sorted p hp) e' he' (h.range p hp) hlt
    refine ⟨?_, ?_, ?_, ?_⟩
    · rw [h.runs, List.map_map, List.map_map]
      exact allSome_map_some st _ _ fun p hp => (hstep p hp).1
    · rw [← h.srcs, List.map_map]
      exact List.map_congr_left fun p _ => Src.adv_fst e p
    · intro p hp; obtain ⟨q, hq, rfl⟩ := List.mem_map.1 hp
      rw [Src.adv_fst]; exact (hstep q hq).2.2.1
    · intro p hp; obtain ⟨q, hq, rfl⟩ := List.mem_map.1 hp
      simp only [Src.adv_fst]
      intro j hj hjq
      by_cases hjb : j < Src.idx q
      · have := h.before q hq j hj hjb; omega
      · exact (hstep q hq).2.2.2.2 j hj (by omega) hjq
  cases ha : allSome (its.runs.map fun it => it.advanceTo e) with
  | none =>
    refine ⟨.outOfRange, ⟨by simp, ?_, fun _ => rfl⟩, rfl⟩
    intro hall
    rw [(hdone hall).1] at ha
    cases ha
  | some runs' =>
    refine ⟨.done _, ⟨by simp, ?_, ?_⟩, rfl⟩
    · intro hall
      obtain ⟨h1, h2⟩ := hdone hall
      rw [h1] at ha
      cases ha
      exact ⟨_, _, rfl, rfl, h2⟩
    · intro ho
      rw [hout ho] at ha
      cases ha

theorem iteratePara_aux {e start : Int} {srcs : List (Src α)} {scripts : List (Int × σ)} {levels : List Nat}
    (he : e = start + levels.length) (hs : scripts.Pairwise (fun a b => a.1 < b.1))
    (hse : endOf scripts = some (levels.length : Int)) (hst : 0 ≤ start) (fuel : Nat) :
    ∀ (m0 c : Int) (its : ParaIters α σ) (st : SState α), ParaInv e start srcs scripts levels c its st → start ≤ c →
      c ≤ e → m0 < e → its.Fresh m0 → (e - m0).toNat ≤ fuel →
      ∃ calls fin, iteratePara e fuel m0 its = (calls, fin) ∧ ParaFin e srcs fin ∧
        ParaCalls e start c srcs scripts levels calls ∧ ∀ call ∈ calls, m0 < call.limit := by
  induction fuel with
  | zero => intro m0 c its st h hc hce hlt hf hfu; omega
  | succ fuel ih =>
    intro m0 c its st h hc hce hlt hf hfu
    obtain ⟨m, xs, h1, h2, h3, hv, h4, h5, l1, l2, l3, h6⟩ := h.step he hs hse hst hc
    have hgt := h4 m0 hf
    unfold iteratePara
    rw [if_pos hlt]
    simp only [h1, h2]
    by_cases hme : m < e
    · obtain ⟨st', g1, g2, g3⟩ := h6 hme
      simp only [g1]
      obtain ⟨calls, fin, k1, k2, k3, k4⟩ := ih m (max c m) _ st' g2 (by omega) (by omega) hme g3 (by omega)
      rw [k1]
      refine ⟨_, fin, rfl, k2, k3.front rfl k4 hv h5 l1 l2 l3, ?_⟩
      · intro call hcall
        rcases List.mem_cons.1 hcall with rfl | hcall
        · exact hgt
        · have := k4 call hcall; omega
    · obtain rfl : m = e := by omega
      obtain ⟨fin, f1, f2⟩ := h.fin hce fuel
      have hpc : ParaCalls m start c srcs scripts levels
          [(⟨m, xs, its.script.value, its.levels.last⟩ : ParaCall α σ)] := by
        exact .single rfl hv h5 l2 l3
      have hall : ∀ call ∈ [(⟨m, xs, its.script.value, its.levels.last⟩ : ParaCall α σ)], m0 < call.limit := by
        intro call hcall
        rw [List.mem_singleton] at hcall; subst hcall; exact hgt
      refine ⟨_, fin, ?_, f1, hpc, hall⟩
      cases hadv : allSome (its.runs.map fun it => it.advanceTo m) with
      | none => rw [hadv] at f2; simp only at f2 ⊢; rw [← (Prod.mk.inj f2).2]
      | some runs' => rw [hadv] at f2; simp only at f2 ⊢; rw [f2]

theorem iteratePara_fuel {e start : Int} {srcs : List (Src α)} {scripts : List (Int × σ)} {levels : List Nat}
    (he : e = start + levels.length) (hs : scripts.Pairwise (fun a b => a.1 < b.1))
    (hse : endOf scripts = some (levels.length : Int)) (hst : 0 ≤ start) (hlt : start < e)
    {its : ParaIters α σ} {st : SState α} (h : ParaInv e start srcs scripts levels start its st) (fuel : Nat)
    (hfu : ∀ m, minOfLimits (its.runs.map RunIter.getLimit ++ [some its.script.getLimit, some its.levels.index]) = some m →
      (e - m).toNat + 1 ≤ fuel) :
    ∃ calls fin, iteratePara e fuel start its = (calls, fin) ∧ ParaFin e srcs fin ∧
      ParaCalls e start start srcs scripts levels calls := by
  obtain ⟨m, xs, h1, h2, h3, hv, h4, h5, l1, l2, l3, h6⟩ := h.step he hs hse hst (Int.le_refl _)
  have hfu := hfu m h1
  obtain ⟨fuel, rfl⟩ : ∃ k, fuel = k + 1 := ⟨fuel - 1, by omega⟩
  by_cases hme : m < e
  · obtain ⟨st', g1, g2, g3⟩ := h6 hme
    obtain ⟨calls, fin, k1, k2, k3, k4⟩ := iteratePara_aux he hs hse hst fuel m (max start m) _ st' g2
      (by omega) (by omega) hme g3 (by omega)
    refine ⟨⟨m, xs, its.script.value, its.levels.last⟩ :: calls, fin, ?_, k2, k3.front rfl k4 hv h5 l1 l2 l3⟩
    · unfold iteratePara
      rw [if_pos hlt]
      simp only [h1, h2, g1, k1]
  · obtain rfl : m = e := by omega
    obtain ⟨fin, f1, f2⟩ := h.fin (Int.le_of_lt hlt) fuel
    have hpc : ParaCalls m start start srcs scripts levels
        [(⟨m, xs, its.script.value, its.levels.last⟩ : ParaCall α σ)] := by
      exact .single rfl hv h5 l2 l3
    refine ⟨[⟨m, xs, its.script.value, its.levels.last⟩], fin, ?_, f1, hpc⟩
    unfold iteratePara
    rw [if_pos hlt]
    simp only [h1, h2]
    cases hadv : allSome (its.runs.map fun it => it.advanceTo m) with
    | none => rw [hadv] at f2; simp only at f2 ⊢; rw [← (Prod.mk.inj f2).2]
    | some runs' => rw [hadv] at f2; simp only at f2 ⊢; rw [f2]

theorem iteratePara_spec {e start : Int} {srcs : List (Src α)} {scripts : List (Int × σ)} {levels : List Nat}
    (he : e = start + levels.length) (hs : scripts.Pairwise (fun a b => a.1 < b.1))
    (hse : endOf scripts = some (levels.length : Int)) (hst : 0 ≤ start) (hlt : start < e)
    {its : ParaIters α σ} {st : SState α} (h : ParaInv e start srcs scripts levels start its st) :
    ∃ fuel calls fin, iteratePara e fuel start its = (calls, fin) ∧ fin ≠ .outOfFuel ∧
      ParaCalls e start start srcs scripts levels calls := by
  obtain ⟨m, xs, h1, -⟩ := h.step he hs hse hst (Int.le_refl _)
  obtain ⟨calls, fin, k1, k2, k3⟩ := iteratePara_fuel he hs hse hst hlt h ((e - m).toNat + 1) (by
    intro m' hm'
    rw [h1] at hm'
    cases hm'
    exact Nat.le_refl _)
  exact ⟨_, calls, fin, k1, k2.fuel, k3⟩

end RichText
