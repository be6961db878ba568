import Verif.Model.LineSteps
import Verif.Props.Widen
/-! Lemmas about the number of steps of line breaking. -/
namespace RichText

/-- What is known of an iteration. -/
structure StepFacts (e : LineEnv) (ci : List Nat) (ws : List Int) (isBreak : Nat → Prop) (l : BrokenLine) (s : LineSteps) : Prop where
  front : ∀ (k c : Nat), ci[k]? = some c → (c < l.first ↔ k < s.first)
  lo : s.first ≤ s.overflow
  mid : s.overflow ≤ s.force
  step : s.force ≤ s.overflow + 1
  hi : s.force ≤ s.done
  len : s.done ≤ ci.length
  fit : ∀ k, s.first < k → k ≤ s.overflow → e.linePos ci ws s.first k ≤ e.area
  over : s.overflow < ci.length → e.area < e.linePos ci ws s.first (s.overflow + 1)
  lt : l.first < l.stop
  inside : e.start ≤ l.first
  stop : (∃ b, l.stop = e.start + b ∧ isBreak b ∧ ∀ b', isBreak b' → l.stop < e.start + b' → s.search < b') ∨
    ∀ (k c : Nat), k < s.force → ci[k]? = some c → c ≤ l.stop ∧ (ci.Pairwise (· < ·) → c < l.stop)
  done : s.done ≤ s.force + 1 ∨ ∀ (k c : Nat), k + 1 < s.done → ci[k]? = some c → c < l.stop
  search : s.search = breakFrom e ci s.force - e.start
  found : skipHanging e s.search = some s.found
  exact : (∃ p, findPreviousLineBreak e s.search = some p ∧ ((l.first : Int) < p + e.start → (l.stop : Int) = p + e.start))

theorem skipHanging_spec {e : LineEnv} {isStart : Nat → Prop} (hc : e.Codepoints isStart) (n : Nat) :
    ∀ i, e.length - i = n → i ≤ e.length → (isStart i ∨ e.length ≤ i) → ∃ q, skipHanging e i = some q ∧ i ≤ q ∧ q ≤ e.length ∧
      (∀ c, isStart c → i ≤ c → c < q → e.hangs c = true) ∧ (q = e.length ∨ (q < e.length ∧ isStart q ∧ e.hangs q = false)) ∧
      ((q = e.length ∧ ∃ j, e.length < j ∧ findPreviousLineBreak e i = some (e.preceding j)) ∨
        (q < e.length ∧ findPreviousLineBreak e i = some (e.preceding (e.next q)))) := by
  induction n using Nat.strongRecOn with
  | ind n ih =>
    intro i hn hle hi
    rw [skipHanging, findPreviousLineBreak]
    by_cases hlt : i < e.length
    · have hs : isStart i := by rcases hi with h | h; exact h; omega
      obtain ⟨n1, n2, n3⟩ := hc.next i hs hlt
      rw [if_pos hlt, if_pos hlt, if_pos n1, if_pos n1]
      by_cases hh : e.hangs i = true
      · rw [if_pos hh, if_pos hh]
        obtain ⟨q, a1, a2, a3, a4, a5, a6⟩ := ih (e.length - e.next i) (by omega) (e.next i) rfl n2
          (by rcases Nat.lt_or_ge (e.next i) e.length with h | h; exact Or.inl (n3 h); exact Or.inr h)
        refine ⟨q, a1, by omega, a3, fun c hcs h1 h2 => ?_, a5, a6⟩
        rcases Nat.lt_or_ge i c with hx | hx
        · exact a4 c hcs (hc.gap i c hs hlt hcs hx) h2
        · obtain rfl : c = i := by omega
          exact hh
      · rw [if_neg hh, if_neg hh]
        exact ⟨i, rfl, Nat.le_refl _, hle, (fun c _ _ _ => by omega), Or.inr ⟨hlt, hs, by simpa using hh⟩, Or.inr ⟨hlt, rfl⟩⟩
    · rw [if_neg hlt, if_neg hlt]
      exact ⟨i, rfl, Nat.le_refl _, hle, (fun c _ _ _ => by omega), Or.inl (by omega), Or.inl ⟨by omega, i + 1, by omega, rfl⟩⟩

section
variable {e : LineEnv} {ci : List Nat} {ws0 : List Int} {isStart isBreak : Nat → Prop}

theorem stepFacts (hc : e.Codepoints isStart) (hb : e.Breaks isBreak)
    (hin : ∀ c ∈ ci, e.start ≤ c ∧ c < e.start + e.length ∧ isStart (c - e.start))
    (hs : ci.Pairwise (· ≤ ·)) (hgood : ∀ x ∈ ci.zip ws0, e.Onward x) (hlen : ws0.length = ci.length)
    {p : Nat} {ws : List Int} (hp : e.start ≤ p) (hpe : p < e.start + e.length) {l : BrokenLine} (h : breakLine e ci p ws = some l)
    (hag : ∀ (k c : Nat), p ≤ c → ci[k]? = some c → e.isTab c = false ∨ e.tabPixels = false → ws[k]? = ws0[k]?) :
    ∃ s, lineSteps e ci p ws = some s ∧ StepFacts e ci ws0 isBreak l s := by
  obtain ⟨it⟩ := breakLine_iteration h
  obtain ⟨g, hg, hgl, hgs⟩ := search_spec hs p
  rw [it.search] at hg; cases hg
  have hfs := fitLine_spec _ _ _ _ rfl hgl it.fit
  obtain ⟨hfsf, hfit, hover⟩ := hfs.positions hlen (fun k c hk hck => hag k c (by have := hgs k c hck; omega) hck) hgood
  obtain ⟨hm1, hm2⟩ := forceGlyph_bounds hfs.hi
  have hbi : e.BreaksInside := by
    intro i
    rcases hb.preceding i with ⟨h1, _⟩ | ⟨b, h1, h2, _⟩
    · omega
    · have := hb.inside b h2; omega
  have hbd := breakLine_bounds hbi (fun c hc => ⟨(hin c hc).1, (hin c hc).2.1⟩) hpe h
  have hfrom : isStart (breakFrom e ci (forceGlyph ci.length it.f) - e.start) ∨
      e.length ≤ breakFrom e ci (forceGlyph ci.length it.f) - e.start := by
    unfold breakFrom
    cases hx : ci[forceGlyph ci.length it.f]? with
    | none => right; simp only; omega
    | some c => exact Or.inl (hin c (List.mem_of_getElem? hx)).2.2
  have hfl : breakFrom e ci (forceGlyph ci.length it.f) - e.start ≤ e.length := by
    have := (breakFrom_bounds (e := e) (ci := ci) (fun c hc => ⟨(hin c hc).1, (hin c hc).2.1⟩) (forceGlyph ci.length it.f)).2
    omega
  obtain ⟨q, hq, -⟩ := skipHanging_spec hc _ _ rfl hfl hfrom
  obtain ⟨hlater, hkind⟩ := prev_facts hc hb hfrom it.prev
  obtain ⟨f1, f2, f3, f4⟩ := forceBreak_spec ci p _ (it.p + e.start) (forceGlyph ci.length it.f) rfl hm2
  have hstop := it.stop
  have hfirst := it.first
  refine ⟨⟨it.g, it.f.glyph, forceGlyph ci.length it.f, (forceBreak ci p (it.p + e.start) (forceGlyph ci.length it.f)).2,
    breakFrom e ci (forceGlyph ci.length it.f) - e.start, q⟩, ?_, ?_⟩
  · unfold lineSteps
    rw [it.search, Option.bind_some, it.fit, Option.bind_some]
    simp only
    rw [hq, Option.bind_some, it.prev]
    rfl
  · have hsorted : ∀ {k j c d : Nat}, ci[k]? = some c → ci[j]? = some d → k ≤ j → c ≤ d := fun hk hj hkj => sorted_le hs hk hj hkj
    have hstrict : ci.Pairwise (· < ·) → ∀ {k j c d : Nat}, ci[k]? = some c → ci[j]? = some d → k < j → c < d := by
      intro hp k j c d hk hj hkj
      obtain ⟨a1, rfl⟩ := List.getElem?_eq_some_iff.1 hk
      obtain ⟨a2, rfl⟩ := List.getElem?_eq_some_iff.1 hj
      exact List.pairwise_iff_getElem.1 hp k j a1 a2 hkj
    refine ⟨by rw [hfirst]; exact hgs, hfs.lo, hm1, (by unfold forceGlyph; split <;> simp only <;> omega), f1, f2, hfit, hover, by rw [hfirst]; exact hbd.2.1, by rw [hfirst]; exact hp, ?_, ?_, rfl, hq,
      it.p, it.prev, ?_⟩
    · rcases Int.lt_or_le (p : Int) (it.p + e.start) with hx | hx
      · left
        have hst : (l.stop : Int) = it.p + e.start := by
          rw [hstop, f3 hx]; unfold lastBreak; simp only; rw [if_neg (by omega)]; omega
        rcases hkind with hk | ⟨b, hk, hbb⟩
        · omega
        · exact ⟨b, by omega, hbb, fun b' hb' hlt => hlater b' hb' (by omega)⟩
      · right
        intro k c hk hck
        have hk : k < forceGlyph ci.length it.f := hk
        rcases f4 hx with ⟨a1, a2, a3⟩ | ⟨j, d, a1, a2, a3, a4, a5⟩
        · have hst : l.stop = e.start + e.length := by
            rw [hstop]; unfold lastBreak; rw [if_pos ⟨a1, a2⟩]; omega
          have := hin c (List.mem_of_getElem? hck)
          exact ⟨by omega, fun _ => by omega⟩
        · have hst : l.stop = d := by
            rw [hstop, a4]; unfold lastBreak; simp only; rw [if_neg (by omega)]; omega
          exact ⟨by rw [hst]; exact hsorted hck a2 (by omega), fun hp => by rw [hst]; exact hstrict hp hck a2 (by omega)⟩
    · rcases Int.lt_or_le (p : Int) (it.p + e.start) with hx | hx
      · left; rw [f3 hx]; simp only; omega
      · rcases f4 hx with ⟨a1, a2, a3⟩ | ⟨j, d, a1, a2, a3, a4, a5⟩
        · right
          intro k c hk hck
          have hst : l.stop = e.start + e.length := by
            rw [hstop]; unfold lastBreak; rw [if_pos ⟨a1, a2⟩]; omega
          have := hin c (List.mem_of_getElem? hck)
          omega
        · have hst : l.stop = d := by
            rw [hstop, a4]; unfold lastBreak; simp only; rw [if_neg (by omega)]; omega
          rw [a4]
          simp only
          rcases Nat.lt_or_ge (forceGlyph ci.length it.f) j with hj | hj
          · right
            intro k c hk hck
            have hfc := List.getElem?_eq_getElem (show forceGlyph ci.length it.f < ci.length by
              have := (List.getElem?_eq_some_iff.1 a2).1; omega)
            rcases Nat.lt_or_ge k (forceGlyph ci.length it.f) with hkf | hkf
            · have h1 := a5 _ _ (Nat.le_refl _) hj hfc
              have h2 := hsorted hck hfc (by omega)
              omega
            · have := a5 k c hkf (by omega) hck
              omega
          · left; omega
    · intro hx
      rw [hfirst] at hx
      rw [hstop, f3 hx]; unfold lastBreak; simp only; rw [if_neg (by omega)]; omega

theorem allSteps_facts (hc : e.Codepoints isStart) (hb : e.Breaks isBreak)
    (hin : ∀ c ∈ ci, e.start ≤ c ∧ c < e.start + e.length ∧ isStart (c - e.start))
    (hs : ci.Pairwise (· ≤ ·)) (ho : e.TabsOnce isStart isBreak ci) (hgood : ∀ x ∈ ci.zip ws0, e.Onward x) (hlen : ws0.length = ci.length) :
    ∀ (fuel p : Nat) (ws : List Int) {lines : List BrokenLine}, e.start ≤ p →
      (∀ (k c : Nat), p ≤ c → ci[k]? = some c → e.isTab c = false ∨ e.tabPixels = false → ws[k]? = ws0[k]?) →
      breakLines e ci fuel p ws = some lines →
      ∃ steps, allSteps e ci fuel p ws = some steps ∧ List.Forall₂ (StepFacts e ci ws0 isBreak) lines steps := by
  intro fuel
  induction fuel with
  | zero =>
    intro p ws lines hp hag h
    rw [breakLines] at h
    rw [allSteps]
    by_cases hlt : p < e.start + e.length
    · rw [if_pos hlt] at h; cases h
    · rw [if_neg hlt] at h ⊢
      cases h
      exact ⟨[], rfl, .nil⟩
  | succ fuel ih =>
    intro p ws lines hp hag h
    rw [breakLines] at h
    rw [allSteps]
    by_cases hlt : p < e.start + e.length
    · rw [if_pos hlt] at h ⊢
      cases hbl : breakLine e ci p ws with
      | none => rw [hbl] at h; cases h
      | some l =>
        rw [hbl] at h
        simp only [Option.map_eq_some_iff] at h
        obtain ⟨rest, h1, rfl⟩ := h
        obtain ⟨s, s1, s2⟩ := stepFacts hc hb hin hs hgood hlen hp hlt hbl hag
        have hlt' := s2.lt
        have hfi : l.first = p := (breakLine_iteration hbl).elim fun it => it.first
        obtain ⟨steps, t1, t2⟩ := ih l.stop l.widths (by omega) (breakLine_agrees hc hb hin hs ho hp hlt hbl hag) h1
        rw [s1]
        simp only
        rw [t1]
        exact ⟨_, rfl, .cons s2 t2⟩
    · rw [if_neg hlt] at h ⊢
      cases h
      exact ⟨[], rfl, .nil⟩

/-- A line that begins later overflows no earlier. -/
theorem StepFacts.overflow_mono (hgood : ∀ x ∈ ci.zip ws0, e.Onward x) {l l' : BrokenLine} {s s' : LineSteps} (h : StepFacts e ci ws0 isBreak l s)
    (h' : StepFacts e ci ws0 isBreak l' s') (hf : s.first ≤ s'.first) : s.overflow ≤ s'.overflow := by
  rcases Nat.lt_or_ge s'.overflow s.overflow with hlt | hge
  · have h1 := h'.over (by have := h.mid; have := h.hi; have := h.len; omega)
    have h2 := h.fit (s'.overflow + 1) (by have := h'.lo; omega) (by omega)
    have h3 := linePos_anti hgood (k := s'.overflow + 1) hf
    omega
  · exact hge

theorem StepFacts.first_mono {l l' : BrokenLine} {s s' : LineSteps} (h : StepFacts e ci ws0 isBreak l s) (h' : StepFacts e ci ws0 isBreak l' s')
    (hl : l.first ≤ l'.first) : s.first ≤ s'.first := by
  rcases Nat.lt_or_ge s'.first s.first with hlt | hge
  · have hk := List.getElem?_eq_getElem (show s'.first < ci.length by
      have := h.lo; have := h.mid; have := h.hi; have := h.len; omega)
    have h1 := (h.front _ _ hk).2 hlt
    have h2 := (h'.front _ _ hk).1 (by omega)
    omega
  · exact hge

/-- Glyphs of characters before a line are in front of its first glyph. -/
theorem StepFacts.le_first {l : BrokenLine} {s : LineSteps} (h : StepFacts e ci ws0 isBreak l s) {m : Nat} (hm : m ≤ ci.length)
    (hk : ∀ (k c : Nat), k < m → ci[k]? = some c → c < l.first) : m ≤ s.first := by
  rcases Nat.lt_or_ge s.first m with hlt | hge
  · have hx := List.getElem?_eq_getElem (show s.first < ci.length by omega)
    have := (h.front _ _ hx).1 (hk _ _ hlt hx)
    omega
  · exact hge

/-- The line behind the next one reaches over the glyphs that were looked at. -/
theorem StepFacts.reach (hin : ∀ c ∈ ci, e.start ≤ c ∧ c < e.start + e.length ∧ isStart (c - e.start)) (hs : ci.Pairwise (· ≤ ·))
    (hgood : ∀ x ∈ ci.zip ws0, e.Onward x) {l l' : BrokenLine} {s s' : LineSteps} (h : StepFacts e ci ws0 isBreak l s)
    (h' : StepFacts e ci ws0 isBreak l' s') (hl : l'.first = l.stop) (k c : Nat) (hk : k < s.overflow) (hck : ci[k]? = some c) :
    c ≤ l'.stop ∧ (ci.Pairwise (· < ·) → c < l'.stop) := by
  have hlt := h.lt
  have hlt' := h'.lt
  have hm := h.mid
  rcases h.stop with ⟨b, -, -, hb⟩ | hst
  · rcases h'.stop with ⟨b', hb', hbb', -⟩ | hst'
    · have h1 := hb b' hbb' (by omega)
      have h2 : c ≤ e.start + s.search := by
        rw [h.search]
        unfold breakFrom
        cases hx : ci[s.force]? with
        | none =>
          have := hin c (List.mem_of_getElem? hck)
          simp only; omega
        | some d =>
          have := hin d (List.mem_of_getElem? hx)
          have := sorted_le hs hck hx (by omega)
          simp only; omega
      exact ⟨by omega, fun _ => by omega⟩
    · have h1 := h.overflow_mono hgood h' (h.first_mono h' (by omega))
      have := h'.mid
      exact hst' k c (by omega) hck
  · have := (hst k c (by omega) hck).1
    exact ⟨by omega, fun _ => by omega⟩

end
end RichText
