import Verif.Spec.TextRuns
import Verif.Proof.ParaIter
/-! Lemmas on the walk over the runs of a text (Model/TextRuns.lean). -/
namespace RichText
open Spec
variable {α σ : Type _}

/-- The calls of each paragraph. -/
def Called (srcs : List (Src α)) : Nat → List (Span σ) → List (List (ParaCall α σ)) → Prop
  | _, [], cs => cs = []
  | start, p :: t, cs => ∃ c cs', cs = c :: cs' ∧
    (p.separator < p.length → ParaCalls ((start + (p.length - p.separator) : Nat) : Int) start start srcs p.scripts p.levels c) ∧
    (p.separator = p.length → c = []) ∧ Called srcs (start + p.length) t cs'

theorem Spans.le {count : Nat} : ∀ (ps : List (Span σ)) (offset : Nat), Spans count offset ps →
    offset + offsetAfter ps = count
  | [], _, h => by simpa [offsetAfter, Spans] using h
  | p :: t, offset, h => by
    have := Spans.le t _ h.2.2.2
    simp only [offsetAfter, List.map_cons, List.sum_cons] at this ⊢
    omega

/-- How the walk ends. -/
structure TextFin (srcs : List (Src α)) (ps : List (Span σ)) (fin : TextEnd α) : Prop where
  fuel : fin ≠ .outOfFuel
  done : (∀ p, ps.getLast? = some p → 0 < p.separator) → ∃ its, fin = .done its
  out : (∃ p, ps.getLast? = some p ∧ p.separator = 0) → (∃ adds, Src.list adds ∈ srcs) → fin = .outOfRange

theorem minOfLimits_mem : ∀ (l : List (Option Int)) (m : Int), minOfLimits l = some m → some m ∈ l
  | [], m, h => by cases h
  | [a], m, h => by simp only [minOfLimits] at h; simp [h]
  | a :: b :: t, m, h => by
    unfold minOfLimits at h
    cases a with
    | none => simp at h
    | some x =>
      cases h2 : minOfLimits (b :: t) with
      | none => simp [h2] at h
      | some y =>
        have := minOfLimits_mem (b :: t) y h2
        simp only [h2, Option.some.injEq] at h
        subst h
        rcases Int.le_total x y with hxy | hxy
        · rw [Int.min_eq_left hxy]; simp
        · rw [Int.min_eq_right hxy]; exact List.mem_cons_of_mem _ this

theorem textCalls_spec (fuel : Nat) (d : σ) {count : Nat} {srcs : List (Src α)}
    (hsorted : ∀ s ∈ srcs, SortedLimits s.runs) (hnn : ∀ s ∈ srcs, ∀ r ∈ s.runs, 0 ≤ r.1)
    (hend : ∀ s ∈ srcs, endOf s.runs = some (count : Int)) (hfuel : count < fuel) :
    ∀ (ps : List (Span σ)) (start : Nat) (c : Int) (st : SState α), Spans count start ps → RunsAt srcs c st → c ≤ start →
      ∃ css fin, textCalls fuel d ps start (st.map Src.iter) = (css, fin) ∧ Called srcs start ps css ∧ TextFin srcs ps fin := by
  intro ps
  induction ps with
  | nil =>
    intro start c st _ _ _
    exact ⟨[], .done _, rfl, rfl, by simp, fun _ => ⟨_, rfl⟩, by simp⟩
  | cons p t ih =>
    intro start c st hsp hst hc
    have hle := Spans.le _ _ hsp
    obtain ⟨h1, h2, h3, h4⟩ := hsp
    have hle' := Spans.le _ _ h4
    have hlast : t ≠ [] → (p :: t).getLast? = t.getLast? := by
      intro ht
      cases t with
      | nil => exact absurd rfl ht
      | cons a b => simp [List.getLast?_cons]
    have htail : t = [] ∨ start + p.length < count := by
      cases t with
      | nil => exact .inl rfl
      | cons q t =>
        right
        have := h4.2.1
        simp only [offsetAfter, List.map_cons, List.sum_cons] at hle'
        omega
    unfold textCalls
    by_cases htx : p.length - p.separator > 0
    · rw [if_pos htx]
      obtain ⟨l1, l2, l3, l4⟩ := h3 (by omega)
      obtain ⟨lv, e1, e2, e3, e4⟩ := LevelsIter.init_spec (levels := p.levels) (by intro h; rw [h] at l1; simp at l1; omega) (start : Int)
      rw [e1]
      simp only
      have hmem : ∀ q ∈ st, q.1 ∈ srcs := fun q hq => by rw [← hst.srcs]; exact List.mem_map_of_mem hq
      have hsne : p.scripts ≠ [] := by intro h; rw [h] at l4; cases l4
      have hinv : ParaInv ((start + (p.length - p.separator) : Nat) : Int) start srcs p.scripts p.levels start
          ⟨st.map Src.iter, ScriptIter.init p.scripts d start, lv⟩ st :=
        ⟨rfl, hst.srcs, fun q hq => hsorted _ (hmem q hq), fun q hq => ⟨_, hend _ (hmem q hq), by omega⟩, hst.range,
          fun q hq j hj hjq => by have := hst.before q hq j hj hjq; omega,
          ScriptIter.init_spec hsne d start, e2, by simp only; omega⟩
      obtain ⟨calls, fin, k1, k2, k3⟩ := iteratePara_fuel (by omega) l2 (by rw [l4]; congr 1; omega) (by omega) (by omega) hinv fuel (by
        intro m hm
        have hm0 : 0 ≤ m := by
          rcases List.mem_append.1 (minOfLimits_mem _ _ hm) with h | h
          · obtain ⟨it, hit, hl⟩ := List.mem_map.1 h
            obtain ⟨q, hq, rfl⟩ := List.mem_map.1 hit
            have hr := hst.range q hq
            rw [Src.getLimit_iter, List.getElem?_eq_getElem hr, Option.map_some, Option.some.injEq] at hl
            rw [← hl]
            exact hnn _ (hmem q hq) _ (List.getElem_mem hr)
          · simp only [List.mem_cons, Option.some.injEq, List.not_mem_nil, or_false] at h
            rcases h with rfl | rfl
            · cases hs : p.scripts with
              | nil => exact absurd hs hsne
              | cons a b =>
                have := l3 a (by rw [hs]; simp)
                simp only [ScriptIter.init, ScriptIter.getLimit]
                omega
            · omega
        omega)
      rw [k1]
      rcases htail with rfl | hlt
      · cases hfin : fin with
        | outOfFuel => exact absurd hfin k2.fuel
        | outOfRange =>
          subst hfin
          refine ⟨[calls], .outOfRange, rfl, ⟨calls, [], rfl, fun _ => k3, fun h => by omega, rfl⟩, by simp, ?_, fun _ _ => rfl⟩
          intro hp
          have := hp p rfl
          simp only [offsetAfter, List.map_nil, List.sum_nil] at hle'
          obtain ⟨its, st', hd, _⟩ := k2.done fun s hs => ⟨_, hend s hs, by omega⟩
          cases hd
        | done its' =>
          subst hfin
          refine ⟨[calls], .done its'.runs, rfl, ⟨calls, [], rfl, fun _ => k3, fun h => by omega, rfl⟩, by simp, fun _ => ⟨_, rfl⟩, ?_⟩
          rintro ⟨q, hq, h0⟩ ⟨adds, ha⟩
          obtain rfl : p = q := by simpa using hq
          simp only [offsetAfter, List.map_nil, List.sum_nil] at hle'
          have := k2.out ⟨_, ha, adds, rfl, by
            have := hend _ ha
            simp only [Src.runs] at this
            rw [this]; congr 1; omega⟩
          cases this
      · obtain ⟨its', st', rfl, g1, g2⟩ := k2.done fun s hs => ⟨_, hend s hs, by omega⟩
        obtain ⟨css, fin', m1, m2, m3⟩ := ih (start + p.length) _ st' h4 g2 (by omega)
        have ht : t ≠ [] := by
          rintro rfl
          simp only [offsetAfter, List.map_nil, List.sum_nil] at hle'
          omega
        refine ⟨calls :: css, fin', ?_, ⟨calls, css, rfl, fun _ => k3, fun h => by omega, m2⟩, m3.fuel, ?_, ?_⟩
        · simp only [g1, m1]
        · rw [hlast ht]; exact m3.done
        · rw [hlast ht]; exact m3.out
    · rw [if_neg htx]
      obtain ⟨css, fin', m1, m2, m3⟩ := ih (start + p.length) c st h4 hst (by omega)
      refine ⟨[] :: css, fin', by rw [m1], ⟨[], css, rfl, fun h => by omega, fun _ => rfl, m2⟩, m3.fuel, ?_, ?_⟩
      · intro hp
        by_cases ht : t = []
        · subst ht; exact m3.done (by simp)
        · rw [hlast ht] at hp; exact m3.done hp
      · rintro ⟨q, hq, h0⟩
        by_cases ht : t = []
        · subst ht; obtain rfl : p = q := by simpa using hq
          omega
        · rw [hlast ht] at hq; exact m3.out ⟨q, hq, h0⟩

end RichText
