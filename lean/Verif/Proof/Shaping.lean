import Verif.Proof.VisualRuns
/-! Lemmas on shaping a paragraph (Model/LayoutBuilder.lean). -/
namespace RichText
variable {β φ : Type _}

/-! ### Logical runs grow at the end -/

theorem runStart_append {s : Nat} {runs t t' : List (LogicalRun φ)} {k : Nat} (hk : k ≤ runs.length) :
    runStart s (runs ++ t) k = runStart s (runs ++ t') k := by
  cases k with
  | zero => rfl
  | succ k => simp only [runStart]; rw [List.getElem?_append_left (by omega), List.getElem?_append_left (by omega)]

theorem runFirstGlyph_append {runs t t' : List (LogicalRun φ)} {k : Nat} (hk : k ≤ runs.length) :
    runFirstGlyph (runs ++ t) k = runFirstGlyph (runs ++ t') k := by
  cases k with
  | zero => rfl
  | succ k => simp only [runFirstGlyph]; rw [List.getElem?_append_left (by omega), List.getElem?_append_left (by omega)]

theorem getElem?_snoc {α : Type _} {l : List α} {a b : α} {k : Nat} (h : (l ++ [a])[k]? = some b) :
    (k < l.length ∧ l[k]? = some b) ∨ (k = l.length ∧ b = a) := by
  rcases Nat.lt_or_ge k l.length with hk | hk
  · rw [List.getElem?_append_left hk] at h; exact Or.inl ⟨hk, h⟩
  · rw [List.getElem?_append_right hk] at h
    obtain ⟨h1, h2⟩ := List.getElem?_eq_some_iff.1 h
    simp only [List.length_singleton] at h1
    have : k = l.length := by omega
    subst this
    simp at h2
    exact Or.inr ⟨rfl, h2.symm⟩

/-- `LogicalRuns` with the last run singled out. -/
theorem LogicalRuns.snoc_iff {s e n : Nat} {runs : List (LogicalRun φ)} {r : LogicalRun φ} :
    LogicalRuns s e n (runs ++ [r]) ↔
      r.charEnd = e ∧ r.glyphEnd = n ∧ runStart s (runs ++ [r]) runs.length < e ∧
      runFirstGlyph (runs ++ [r]) runs.length ≤ n ∧
      (∀ (k : Nat) (q : LogicalRun φ), runs[k]? = some q → runStart s (runs ++ [r]) k < q.charEnd) ∧
      (∀ (k : Nat) (q : LogicalRun φ), runs[k]? = some q → runFirstGlyph (runs ++ [r]) k ≤ q.glyphEnd) := by
  constructor
  · intro h
    have h1 := h.lastChar
    have h2 := h.lastGlyph
    simp only [List.getLast?_append, List.getLast?_singleton, Option.some_or, Option.map_some,
      Option.some.injEq] at h1 h2
    have hl : (runs ++ [r])[runs.length]? = some r := by simp
    refine ⟨h1, h2, by rw [← h1]; exact h.chars _ r hl, by rw [← h2]; exact h.glyphs _ r hl, ?_, ?_⟩
    · intro k q hq
      exact h.chars k q (by rw [List.getElem?_append_left (List.getElem?_eq_some_iff.1 hq).1]; exact hq)
    · intro k q hq
      exact h.glyphs k q (by rw [List.getElem?_append_left (List.getElem?_eq_some_iff.1 hq).1]; exact hq)
  · rintro ⟨h1, h2, h3, h4, h5, h6⟩
    refine ⟨by simp, ?_, by simp [h1], ?_, by simp [h2]⟩
    · intro k q hq
      rcases getElem?_snoc hq with ⟨_, hq⟩ | ⟨rfl, rfl⟩
      · exact h5 k q hq
      · rw [h1]; exact h3
    · intro k q hq
      rcases getElem?_snoc hq with ⟨_, hq⟩ | ⟨rfl, rfl⟩
      · exact h6 k q hq
      · rw [h2]; exact h4

theorem LogicalRuns.single {s e n : Nat} (f : φ) (h : s < e) : LogicalRuns s e n [⟨f, e, n⟩] := by
  have := (LogicalRuns.snoc_iff (s := s) (e := e) (n := n) (runs := []) (r := ⟨f, e, n⟩)).2
    ⟨rfl, rfl, h, Nat.zero_le _, by simp, by simp⟩
  simpa using this

theorem LogicalRuns.merge {s e n e' n' : Nat} {runs : List (LogicalRun φ)} {r : LogicalRun φ} (f : φ)
    (h : LogicalRuns s e n (runs ++ [r])) (he : e < e') (hn : n ≤ n') :
    LogicalRuns s e' n' (runs ++ [⟨f, e', n'⟩]) := by
  obtain ⟨h1, h2, h3, h4, h5, h6⟩ := LogicalRuns.snoc_iff.1 h
  refine LogicalRuns.snoc_iff.2 ⟨rfl, rfl, ?_, ?_, ?_, ?_⟩
  · rw [runStart_append (t' := [r]) (Nat.le_refl _)]; omega
  · rw [runFirstGlyph_append (t' := [r]) (Nat.le_refl _)]; omega
  · intro k q hq
    rw [runStart_append (t' := [r]) (Nat.le_of_lt (List.getElem?_eq_some_iff.1 hq).1)]; exact h5 k q hq
  · intro k q hq
    rw [runFirstGlyph_append (t' := [r]) (Nat.le_of_lt (List.getElem?_eq_some_iff.1 hq).1)]; exact h6 k q hq

theorem runStart_end {s e n : Nat} {runs t : List (LogicalRun φ)} (h : LogicalRuns s e n runs) :
    runStart s (runs ++ t) runs.length = e ∧ runFirstGlyph (runs ++ t) runs.length = n := by
  obtain ⟨r, h1, h2, h3⟩ := h.last
  have hpos := h.length_pos
  obtain ⟨m, hm⟩ : ∃ m, runs.length = m + 1 := ⟨runs.length - 1, by omega⟩
  rw [hm] at h1 ⊢
  rw [show m + 1 - 1 = m by omega] at h1
  constructor
  · show (((runs ++ t)[m]?).map (·.charEnd)).getD s = e
    rw [List.getElem?_append_left (by omega), h1]; exact h2
  · show (((runs ++ t)[m]?).map (·.glyphEnd)).getD 0 = n
    rw [List.getElem?_append_left (by omega), h1]; exact h3

theorem LogicalRuns.push {s e n e' n' : Nat} {runs : List (LogicalRun φ)} (f : φ)
    (h : LogicalRuns s e n runs) (he : e < e') (hn : n ≤ n') :
    LogicalRuns s e' n' (runs ++ [⟨f, e', n'⟩]) := by
  obtain ⟨h1, h2⟩ := runStart_end (t := [⟨f, e', n'⟩]) h
  refine LogicalRuns.snoc_iff.2 ⟨rfl, rfl, by omega, by omega, ?_, ?_⟩
  · intro k q hq
    have := h.chars k q hq
    rw [runStart_append (t' := []) (Nat.le_of_lt (List.getElem?_eq_some_iff.1 hq).1), List.append_nil]; exact this
  · intro k q hq
    have := h.glyphs k q hq
    rw [runFirstGlyph_append (t' := []) (Nat.le_of_lt (List.getElem?_eq_some_iff.1 hq).1), List.append_nil]; exact this

/-! ### The state while shaping -/

/-- A paragraph shaped from `s` up to `e`. -/
structure Shaping (s e : Nat) (b : Shaped φ) : Prop where
  charIdx : b.charIdx.length = b.glyphs.length
  widths : b.widths.length = b.glyphs.length
  secondary : b.secondary.length = b.glyphs.length
  sorted : b.charIdx.Pairwise (· ≤ ·)
  below : ∀ c ∈ b.charIdx, c < e
  runs : (e = s ∧ b.runs = [] ∧ b.glyphs = []) ∨ LogicalRuns s e b.glyphs.length b.runs
  inside : ∀ (k : Nat) (r : LogicalRun φ) (i c : Nat), b.runs[k]? = some r → runFirstGlyph b.runs k ≤ i → i < r.glyphEnd →
    b.charIdx[i]? = some c → runStart s b.runs k ≤ c ∧ c < r.charEnd

theorem revIf_length {α : Type _} (r : Bool) (l : List α) : (revIf r l).length = l.length := by
  unfold revIf; split <;> simp

theorem glyphWidths_length (v : Bool) : ∀ hb : List HbGlyph, (glyphWidths v hb).length = hb.length
  | [] => rfl
  | [_] => rfl
  | g :: h :: t => by simp [glyphWidths, glyphWidths_length v (h :: t)]

theorem secondaryPositions_length (v : Bool) : ∀ (c : Int) (hb : List HbGlyph),
    (secondaryPositions v c hb).1.length = hb.length
  | _, [] => rfl
  | c, g :: t => by simp [secondaryPositions, secondaryPositions_length v _ t]

/-- The glyph data after one more run, before the logical runs are updated. -/
theorem addShaped_spec {s e e' : Nat} {b : Shaped φ} (h : Shaping s e b) {hb : List HbGlyph} {rev vert : Bool}
    {isTab : Nat → Bool} {sa : Int} {sg : Nat} (hc : ∀ g ∈ hb, g.cluster < e' - e) (hee : e < e')
    (ho : if rev then hb.Pairwise (fun g h => h.cluster ≤ g.cluster) else hb.Pairwise (fun g h => g.cluster ≤ h.cluster)) :
    let b' := b.addShaped hb e rev vert isTab sa sg
    b'.charIdx.length = b'.glyphs.length ∧ b'.widths.length = b'.glyphs.length ∧
      b'.secondary.length = b'.glyphs.length ∧ b'.charIdx.Pairwise (· ≤ ·) ∧
      b.glyphs.length ≤ b'.glyphs.length ∧ b'.runs = b.runs ∧
      (∀ i : Nat, i < b.glyphs.length → b'.charIdx[i]? = b.charIdx[i]?) ∧
      (∀ i c : Nat, b.glyphs.length ≤ i → b'.charIdx[i]? = some c → e ≤ c ∧ c < e') := by
  intro b'
  have hcl : ∀ g, (replaceTab sa sg (isTab (g.cluster + e)) g).cluster = g.cluster := by
    intro g; unfold replaceTab; split <;> rfl
  have hmap : (hb.map fun g => replaceTab sa sg (isTab (g.cluster + e)) g).map (·.cluster + e)
      = hb.map (·.cluster + e) := by
    rw [List.map_map]
    apply List.map_congr_left
    intro g _
    simp [hcl]
  have hci : b'.charIdx = b.charIdx ++ revIf rev (hb.map (·.cluster + e)) := by
    simp only [b', Shaped.addShaped, hmap]
  have hlen := h.charIdx
  have hmem : ∀ c ∈ revIf rev (hb.map (·.cluster + e)), e ≤ c ∧ c < e' := by
    intro c hcm
    rw [(revIf_perm _ _).mem_iff] at hcm
    obtain ⟨g, hg, rfl⟩ := List.mem_map.1 hcm
    have := hc g hg; omega
  refine ⟨?_, ?_, ?_, ?_, ?_, rfl, ?_, ?_⟩
  · simp [b', Shaped.addShaped, revIf_length, hlen]
  · simp [b', Shaped.addShaped, revIf_length, glyphWidths_length, h.widths]
  · simp [b', Shaped.addShaped, revIf_length, secondaryPositions_length, h.secondary]
  · rw [hci, List.pairwise_append]
    refine ⟨h.sorted, ?_, ?_⟩
    · unfold revIf
      cases rev with
      | true =>
        simp only [if_true] at ho ⊢
        rw [List.pairwise_reverse, List.pairwise_map]
        exact ho.imp fun h => by omega
      | false =>
        simp only [Bool.false_eq_true, if_false] at ho ⊢
        rw [List.pairwise_map]
        exact ho.imp fun h => by omega
    · intro c hcm c' hcm'
      have := h.below c hcm
      have := (hmem c' hcm').1
      omega
  · simp [b', Shaped.addShaped]
  · intro i hi
    rw [hci, List.getElem?_append_left (by omega)]
  · intro i c hi hic
    rw [hci, List.getElem?_append_right (by omega)] at hic
    exact hmem c (List.mem_of_getElem? hic)

/-- How the logical runs change: a new one, or the last one is extended. -/
theorem addRun_cases (same : φ → φ → Bool) (b : Shaped φ) (f : φ) (ce : Nat) :
    ((b.addRun same f ce) = { b with runs := b.runs ++ [⟨f, ce, b.glyphs.length⟩] } ∧
      (∀ q, b.runs.getLast? = some q → same q.font f = false)) ∨
    ∃ init r, b.runs = init ++ [r] ∧ same r.font f = true ∧
      b.addRun same f ce = { b with runs := init ++ [⟨r.font, ce, b.glyphs.length⟩] } := by
  unfold Shaped.addRun
  cases h : b.runs.getLast? with
  | none => exact Or.inl ⟨rfl, fun q hq => by cases hq⟩
  | some r =>
    simp only
    by_cases hs : same r.font f = true
    · rw [if_pos hs]
      obtain ⟨init, hi⟩ := List.getLast?_eq_some_iff.1 h
      refine Or.inr ⟨init, r, hi, hs, by rw [hi]; simp⟩
    · rw [if_neg hs]
      exact Or.inl ⟨rfl, fun q hq => by cases hq; simpa using hs⟩

theorem addSubRun_spec {e : ShapeEnv β φ} (hC : e.Contract) {s off : Nat} {b : Shaped φ} (h : Shaping s off b)
    (v : β) (r : φ × Nat) (hr : off < r.2) : Shaping s r.2 (b.addSubRun e v off r) := by
  obtain ⟨a1, a2, a3, a4, a5, a6, a7, a8⟩ := addShaped_spec (e' := r.2) h (hb := e.shape r.1 v off r.2)
    (rev := e.reversed v) (vert := e.vertical) (isTab := e.isTab) (sa := e.spaceAdvance r.1) (sg := e.spaceGlyph r.1)
    (hC.cluster r.1 v off r.2 hr) hr (hC.order r.1 v off r.2 hr)
  unfold Shaped.addSubRun
  obtain ⟨b', hb'⟩ : ∃ b', b' = b.addShaped (e.shape r.1 v off r.2) off (e.reversed v) e.vertical e.isTab
    (e.spaceAdvance r.1) (e.spaceGlyph r.1) := ⟨_, rfl⟩
  rw [← hb'] at a1 a2 a3 a4 a5 a6 a7 a8 ⊢
  have hbelow : ∀ c ∈ b'.charIdx, c < r.2 := by
    intro c hcm
    obtain ⟨i, hi⟩ := List.mem_iff_getElem?.1 hcm
    rcases Nat.lt_or_ge i b.glyphs.length with hlt | hge
    · rw [a7 i hlt] at hi
      have := h.below c (List.mem_of_getElem? hi); omega
    · exact (a8 i c hge hi).2
  rcases addRun_cases e.same b' r.1 r.2 with ⟨heq, _⟩ | ⟨init, q, hq, _, heq⟩
  · rw [heq]
    refine ⟨a1, a2, a3, a4, hbelow, Or.inr ?_, ?_⟩
    · rw [a6]
      rcases h.runs with ⟨h1, h2, h3⟩ | h1
      · rw [h2]; exact LogicalRuns.single _ (by omega)
      · exact h1.push _ hr a5
    · intro k q i c hq hi1 hi2 hic
      simp only at hq hi1 hi2 hic ⊢
      rw [a6] at hq hi1 ⊢
      rcases getElem?_snoc hq with ⟨hk, hq⟩ | ⟨rfl, rfl⟩
      · rw [runFirstGlyph_append (t' := []) (by omega), List.append_nil] at hi1
        rw [runStart_append (t' := []) (by omega), List.append_nil]
        have hil : i < b.glyphs.length := by
          rcases h.runs with ⟨_, h2, _⟩ | h1
          · rw [h2] at hq; simp at hq
          · have := (h1.le_last hq).2; omega
        rw [a7 i hil] at hic
        exact h.inside k q i c hq hi1 hi2 hic
      · have hst : runStart s (b.runs ++ [⟨r.1, r.2, b'.glyphs.length⟩]) b.runs.length = off ∧
            runFirstGlyph (b.runs ++ [⟨r.1, r.2, b'.glyphs.length⟩]) b.runs.length = b.glyphs.length := by
          rcases h.runs with ⟨h1, h2, h3⟩ | h1
          · rw [h2, h3, h1]; exact ⟨rfl, rfl⟩
          · exact runStart_end h1
        rw [hst.1]
        rw [hst.2] at hi1
        exact a8 i c hi1 hic
  · rw [heq]
    have hbr : b.runs = init ++ [q] := by rw [← a6, hq]
    have hL : LogicalRuns s off b.glyphs.length (init ++ [q]) := by
      rcases h.runs with ⟨_, h2, _⟩ | h1
      · rw [h2] at hbr; simp at hbr
      · rw [← hbr]; exact h1
    refine ⟨a1, a2, a3, a4, hbelow, Or.inr (hL.merge _ hr a5), ?_⟩
    intro k q' i c hq' hi1 hi2 hic
    simp only at hq' hi1 hi2 hic ⊢
    rcases getElem?_snoc hq' with ⟨hk, hq'⟩ | ⟨rfl, rfl⟩
    · rw [runFirstGlyph_append (t' := [q]) (by omega), ← hbr] at hi1
      rw [runStart_append (t' := [q]) (by omega), ← hbr]
      have hq2 : b.runs[k]? = some q' := by rw [hbr, List.getElem?_append_left hk]; exact hq'
      have hil : i < b.glyphs.length := by
        rw [← hbr] at hL
        have := (hL.le_last hq2).2; omega
      rw [a7 i hil] at hic
      exact h.inside k q' i c hq2 hi1 hi2 hic
    · rw [runFirstGlyph_append (t' := [q]) (Nat.le_refl _)] at hi1
      rw [runStart_append (t' := [q]) (Nat.le_refl _)]
      have hql : (init ++ [q])[init.length]? = some q := by simp
      rcases Nat.lt_or_ge i b.glyphs.length with hlt | hge
      · rw [a7 i hlt] at hic
        obtain ⟨x1, x2, _⟩ := LogicalRuns.snoc_iff.1 hL
        have := h.inside init.length q i c (by rw [hbr]; exact hql) (by rw [hbr]; exact hi1) (by omega) hic
        rw [hbr] at this
        simp only
        omega
      · have := a8 i c hge hic
        obtain ⟨x1, x2, x3, _⟩ := LogicalRuns.snoc_iff.1 hL
        simp only
        omega

/-! ### Fonts of the logical runs -/

/-- Each logical run consists of pieces whose fonts are linked by `same`, the
first one being the font of the run. -/
inductive Grouped (same : φ → φ → Bool) : List (FontPiece φ) → List (LogicalRun φ) → Prop
  | nil : Grouped same [] []
  | push {qs runs} (q : FontPiece φ) (n : Nat) : Grouped same qs runs → Grouped same (qs ++ [q]) (runs ++ [⟨q.font, q.stop, n⟩])
  | merge {qs init r} (q : FontPiece φ) (n : Nat) : Grouped same qs (init ++ [r]) → same r.font q.font = true →
      Grouped same (qs ++ [q]) (init ++ [⟨r.font, q.stop, n⟩])

theorem addSubRun_grouped {e : ShapeEnv β φ} {off : Nat} {b : Shaped φ} {qs : List (FontPiece φ)}
    (h : Grouped e.same qs b.runs) (v : β) (r : φ × Nat) :
    Grouped e.same (qs ++ [⟨r.1, off, r.2⟩]) (b.addSubRun e v off r).runs := by
  unfold Shaped.addSubRun
  rcases addRun_cases e.same (b.addShaped (e.shape r.1 v off r.2) off (e.reversed v) e.vertical e.isTab
    (e.spaceAdvance r.1) (e.spaceGlyph r.1)) r.1 r.2 with ⟨heq, _⟩ | ⟨init, q, hq, hs, heq⟩
  · rw [heq]
    exact Grouped.push ⟨r.1, off, r.2⟩ _ h
  · rw [heq]
    have hq' : b.runs = init ++ [q] := hq
    rw [hq'] at h
    exact Grouped.merge ⟨r.1, off, r.2⟩ _ h hs

/-- What is known while the calls are processed. -/
structure ShapeState (e : ShapeEnv β φ) (calls : List (Nat × β)) (s off : Nat) (b : Shaped φ)
    (qs : List (FontPiece φ)) : Prop where
  shaping : Shaping s off b
  grouped : Grouped e.same qs b.runs
  consecutive : Consecutive off s (qs.map FontPiece.range)
  resolved : ∀ q ∈ qs, q.Resolved e calls

theorem subFontLoop_spec {e : ShapeEnv β φ} (hC : e.Contract) {calls : List (Nat × β)} {s limit : Nat} {v : β}
    {before after : List (Nat × β)} (hcalls : calls = before ++ (limit, v) :: after) (n : Nat) :
    ∀ (off : Nat) (b : Shaped φ) (qs : List (FontPiece φ)), limit - off = n → (∀ c ∈ before, c.1 ≤ off) →
      ShapeState e calls s off b qs →
      ∃ off' b' qs', subFontLoop e v limit off b = some (off', b') ∧ off' = max off limit ∧
        ShapeState e calls s off' b' qs' := by
  induction n using Nat.strongRecOn with
  | ind n ih =>
    intro off b qs hn hbef h
    unfold subFontLoop
    by_cases hlt : off < limit
    · obtain ⟨h1, h2⟩ := hC.subFont v off limit hlt
      rw [if_pos hlt, if_pos h1]
      obtain ⟨off', b', qs', a1, a2, a3⟩ := ih (limit - (e.subFont v off limit).2) (by omega) _
        (b.addSubRun e v off (e.subFont v off limit))
        (qs ++ [⟨(e.subFont v off limit).1, off, (e.subFont v off limit).2⟩]) rfl
        (fun c hc => by have := hbef c hc; omega)
        ⟨addSubRun_spec hC h.shaping v _ h1, addSubRun_grouped h.grouped v _, by
          rw [List.map_append]
          exact h.consecutive.append ⟨rfl, h1, rfl⟩, by
          intro q hq
          rcases List.mem_append.1 hq with hq | hq
          · exact h.resolved q hq
          · rw [List.mem_singleton] at hq; subst hq
            exact ⟨before, limit, v, after, hcalls, hbef, hlt, rfl⟩⟩
      exact ⟨off', b', qs', a1, by omega, a3⟩
    · rw [if_neg hlt]
      exact ⟨off, b, qs, rfl, by omega, h⟩

theorem shapeCalls_spec {e : ShapeEnv β φ} (hC : e.Contract) {calls : List (Nat × β)} {s : Nat} :
    ∀ (after before : List (Nat × β)) (off : Nat) (b : Shaped φ) (qs : List (FontPiece φ)),
      calls = before ++ after → (∀ c ∈ before, c.1 ≤ off) → ShapeState e calls s off b qs →
      ∃ off' b' qs', shapeCalls e after off b = some (off', b') ∧ off ≤ off' ∧ (∀ c ∈ calls, c.1 ≤ off') ∧
        (∀ m, off ≤ m → (∀ c ∈ calls, c.1 ≤ m) → off' ≤ m) ∧ ShapeState e calls s off' b' qs'
  | [], before, off, b, qs, hc, hbef, h =>
    ⟨off, b, qs, rfl, Nat.le_refl _, by rw [hc, List.append_nil]; exact hbef, fun m hm _ => hm, h⟩
  | (limit, v) :: after, before, off, b, qs, hc, hbef, h => by
    obtain ⟨off1, b1, qs1, a1, a2, a3⟩ := subFontLoop_spec hC hc _ off b qs rfl hbef h
    obtain ⟨off', b', qs', c1, c2, c3, c4, c5⟩ := shapeCalls_spec hC after (before ++ [(limit, v)]) off1 b1 qs1
      (by rw [hc]; simp) (by
        intro c hcm
        rcases List.mem_append.1 hcm with hcm | hcm
        · have := hbef c hcm; omega
        · rw [List.mem_singleton] at hcm; subst hcm; simp only; omega) a3
    refine ⟨off', b', qs', ?_, by omega, c3, ?_, c5⟩
    · unfold shapeCalls
      rw [a1]; exact c1
    · intro m hm hall
      have := hall (limit, v) (by rw [hc]; simp)
      exact c4 m (by simp only at this; omega) hall

theorem shaping_init (s : Nat) : Shaping s s ({} : Shaped φ) :=
  ⟨rfl, rfl, rfl, List.Pairwise.nil, by simp, Or.inl ⟨rfl, rfl, rfl⟩, by simp⟩

/-- The shaped paragraph. -/
theorem shapeParagraph_spec {e : ParaEnv β φ} (hC : e.toShapeEnv.Contract) {calls : List (Nat × β)} {stop : Nat}
    (hcalls : CallsTo stop calls) (hs : e.line.start < stop) :
    ∃ b qs, shapeParagraph e calls = some b ∧ ShapedOK e.line.start stop b ∧
      Grouped e.same qs b.runs ∧ Consecutive stop e.line.start (qs.map FontPiece.range) ∧
      ∀ q ∈ qs, q.Resolved e.toShapeEnv calls := by
  obtain ⟨off', b', qs', h1, h2, h3, h4, h5⟩ := shapeCalls_spec hC calls [] e.line.start ({} : Shaped φ) []
    rfl (by simp) ⟨shaping_init _, Grouped.nil, rfl, by simp⟩
  have hle : ∀ c ∈ calls, c.1 ≤ stop := by
    intro c hc
    cases hgl : calls.getLast? with
    | none => rw [List.getLast?_eq_none_iff] at hgl; rw [hgl] at hc; cases hc
    | some x =>
      obtain ⟨init, hi⟩ := List.getLast?_eq_some_iff.1 hgl
      have hx : x.1 = stop := by have := hcalls.last; rw [hgl] at this; simpa using this
      have hp := hcalls.sorted
      rw [hi] at hc hp
      rcases List.mem_append.1 hc with hc | hc
      · have := (List.pairwise_append.1 hp).2.2 c hc x (by simp); omega
      · rw [List.mem_singleton] at hc; rw [hc]; omega
  have hoff : off' = stop := by
    have a := h4 stop (by omega) hle
    have b : stop ≤ off' := by
      cases hgl : calls.getLast? with
      | none => have := hcalls.last; rw [hgl] at this; simp at this
      | some x =>
        have hx : x.1 = stop := by have := hcalls.last; rw [hgl] at this; simpa using this
        have := h3 x (List.mem_of_getLast? hgl); omega
    omega
  rw [hoff] at h5 h1
  have hr : LogicalRuns e.line.start stop b'.glyphs.length b'.runs := by
    rcases h5.shaping.runs with ⟨a, _, _⟩ | a
    · omega
    · exact a
  refine ⟨b'.finish, qs', by unfold shapeParagraph; rw [h1]; rfl, ?_, h5.grouped, h5.consecutive, h5.resolved⟩
  exact ⟨h5.shaping.charIdx, h5.shaping.widths, by simp [Shaped.finish, h5.shaping.secondary], h5.shaping.sorted,
    hr, h5.shaping.inside⟩

end RichText
