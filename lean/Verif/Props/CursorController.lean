import Verif.Spec.CursorController
/-!
C50, C51: moving the cursor by characters and words.
-/
namespace RichText

/-! ## C50: characters -/

/-- C50: `next_character` goes to the next boundary, with the default affinity, and
stays where it is only when there is none. -/
theorem C50_next {b : BreakEnv} {B : Nat → Prop} (h : Breaks b B) (cursor : Cursor) :
    (∃ q, NextIn B cursor.1 q ∧ b.nextCharacter cursor = (q, .default)) ∨
      (b.size ≤ cursor.1 ∧ b.nextCharacter cursor = cursor) := by
  unfold BreakEnv.nextCharacter
  cases hf : b.follow cursor.1 with
  | none =>
    refine Or.inr ⟨?_, rfl⟩
    apply Nat.le_of_not_lt
    intro hlt
    exact h.follow_done _ _ hf hlt h.last
  | some q =>
    have := h.follow_next _ _ hf
    exact Or.inl ⟨q, ⟨this.2.1, this.1, this.2.2⟩, rfl⟩

/-- C50: `prev_character` goes to the greatest boundary before the cursor, with the
default affinity, and stays where it is only at the start of the text. -/
theorem C50_prev {b : BreakEnv} {B : Nat → Prop} (h : Breaks b B) (cursor : Cursor) :
    (∃ q, B q ∧ q < cursor.1 ∧ (∀ m, B m → m < cursor.1 → m ≤ q) ∧ b.prevCharacter cursor = (q, .default)) ∨
      (cursor.1 = 0 ∧ b.prevCharacter cursor = cursor) := by
  unfold BreakEnv.prevCharacter
  cases hf : b.precede cursor.1 with
  | none =>
    refine Or.inr ⟨?_, rfl⟩
    apply Nat.eq_zero_of_not_pos
    intro hlt
    exact h.precede_done _ _ hf hlt h.first
  | some q =>
    have := h.precede_prev _ _ hf
    exact Or.inl ⟨q, this.2.1, this.1, this.2.2, rfl⟩

/-- C50: a cursor inside the text stays inside it. -/
theorem C50_inside {b : BreakEnv} {B : Nat → Prop} (h : Breaks b B) {cursor : Cursor} (hc : cursor.1 ≤ b.size) :
    (b.nextCharacter cursor).1 ≤ b.size ∧ (b.prevCharacter cursor).1 ≤ b.size := by
  constructor
  · rcases C50_next h cursor with ⟨q, hq, e⟩ | ⟨-, e⟩
    · rw [e]; exact h.inside _ hq.1
    · rw [e]; exact hc
  · rcases C50_prev h cursor with ⟨q, hq, -, -, e⟩ | ⟨-, e⟩
    · rw [e]; exact h.inside _ hq
    · rw [e]; exact hc

/-- C50: from a boundary before the end, going forward and back returns. -/
theorem C50_there_and_back {b : BreakEnv} {B : Nat → Prop} (h : Breaks b B) {cursor : Cursor} (hb : B cursor.1)
    (he : cursor.1 < b.size) : b.prevCharacter (b.nextCharacter cursor) = (cursor.1, .default) := by
  rcases C50_next h cursor with ⟨q, hq, e⟩ | ⟨hle, -⟩
  · rw [e]
    rcases C50_prev h (q, Affinity.default) with ⟨r, hr, hrq, hmax, e'⟩ | ⟨h0, -⟩
    · rw [e']
      have h1 := hmax _ hb hq.2.1
      have h2 : r ≤ cursor.1 := by
        apply Nat.le_of_not_lt
        intro hlt
        have := hq.2.2 r hr hlt
        simp only at hrq; omega
      congr 1; omega
    · have := hq.2.1; simp only at h0; omega
  · omega

/-- C50: from a boundary behind the start, going back and forward returns. -/
theorem C50_back_and_there {b : BreakEnv} {B : Nat → Prop} (h : Breaks b B) {cursor : Cursor} (hb : B cursor.1)
    (he : 0 < cursor.1) : b.nextCharacter (b.prevCharacter cursor) = (cursor.1, .default) := by
  rcases C50_prev h cursor with ⟨q, hq, hlt, hmax, e⟩ | ⟨h0, -⟩
  · rw [e]
    rcases C50_next h (q, Affinity.default) with ⟨r, hr, e'⟩ | ⟨hle, -⟩
    · rw [e']
      have h1 := hr.2.2 _ hb hlt
      have h2 : cursor.1 ≤ r := by
        apply Nat.le_of_not_lt
        intro hlt'
        have := hmax r hr.1 hlt'
        have := hr.2.1
        simp only at this; omega
      congr 1; omega
    · have := h.inside _ hb; simp only at hle; omega
  · omega

/-! ## C51: words -/

theorem isLineBreak_iff (c : Int) : isLineBreak c = true ↔ (c = 10 ∨ c = 13 ∨ c = 0x2028 ∨ c = 0x2029) := by
  simp [isLineBreak, or_assoc]

theorem lineBreakAt_iff {b : BreakEnv} {k : Nat} {c : Int} (h : b.char k = some c) :
    LineBreakAt b k ↔ isLineBreak c = true := by
  rw [isLineBreak_iff]
  constructor
  · rintro ⟨c', h', e⟩; rw [h] at h'; cases h'; exact e
  · intro e; exact ⟨c, h, e⟩

theorem spaceAt_iff {b : BreakEnv} {k : Nat} {c : Int} (h : b.char k = some c) : SpaceAt b k ↔ b.space c = true := by
  constructor
  · rintro ⟨c', h', e⟩; rw [h] at h'; cases h'; exact e
  · intro e; exact ⟨c, h, e⟩

theorem nextWordLoop_spec {b : BreakEnv} {B : Nat → Prop} (h : Breaks b B) (cursor : Cursor) :
    ∀ (fuel : Nat) (cur : Cursor) (ls : Bool), cursor.1 ≤ cur.1 → cur.1 ≤ b.size → (cur = cursor ∨ cur.2 = .default ∧ B cur.1 ∧ cursor.1 < cur.1) →
      (ls = true ↔ SpaceAt b cur.1) → (∀ q, WordStop b B cursor.1 q → cur.1 < q) → b.size - cur.1 < fuel →
      ∃ q, b.nextWordLoop fuel cur ls = some q ∧
        ((WordStop b B cursor.1 q.1 ∧ q.2 = .default ∧ ∀ m, WordStop b B cursor.1 m → q.1 ≤ m) ∨
          ((∀ m, ¬ WordStop b B cursor.1 m) ∧ ((q = (b.size, .default) ∧ cursor.1 < b.size) ∨ (q = cursor ∧ cursor.1 = b.size)))) := by
  intro fuel
  induction fuel with
  | zero => intro cur ls _ _ _ _ _ hf; omega
  | succ fuel ih =>
    intro cur ls hle hsz hcur hls hno hf
    rw [BreakEnv.nextWordLoop]
    cases hfo : b.follow cur.1 with
    | none =>
      have hend : cur.1 = b.size := by
        apply Nat.le_antisymm hsz
        apply Nat.le_of_not_lt
        intro hlt
        exact h.follow_done _ _ hfo hlt h.last
      refine ⟨cur, rfl, Or.inr ⟨?_, ?_⟩⟩
      · intro m hm
        have h1 := hno m hm
        have h2 := h.inside m hm.1
        omega
      · rcases hcur with rfl | ⟨ha, hb, hlt⟩
        · exact Or.inr ⟨rfl, hend⟩
        · refine Or.inl ⟨?_, by omega⟩
          obtain ⟨c1, c2⟩ := cur
          simp only at ha hend
          rw [ha, hend]
    | some next =>
      have hn := h.follow_next _ _ hfo
      have hnsz := h.inside _ hn.2.1
      cases hch : b.char next with
      | none => exact absurd hch (h.char _ hnsz)
      | some c =>
        simp only [hch]
        have hsp := spaceAt_iff hch
        have hlb := lineBreakAt_iff hch
        have hnext : NextIn B cur.1 next := ⟨hn.2.1, hn.1, hn.2.2⟩
        have hfrom : cur.1 = cursor.1 ∨ B cur.1 ∧ cursor.1 < cur.1 := by
          rcases hcur with rfl | ⟨-, hb⟩
          · exact Or.inl rfl
          · exact Or.inr hb
        -- a stop at `next` is the condition of the loop
        have hstop : WordStop b B cursor.1 next ↔ ((!b.space c && ls) || isLineBreak c) = true := by
          simp only [Bool.or_eq_true, Bool.and_eq_true, Bool.not_eq_true']
          constructor
          · rintro ⟨-, -, hl | ⟨hns, r, hr, hrn, hrs⟩⟩
            · exact Or.inr (hlb.1 hl)
            · refine Or.inl ⟨?_, ?_⟩
              · cases hh : b.space c
                · rfl
                · exact absurd (hsp.2 hh) hns
              · -- `r` is `cur`
                have hrc : r = cur.1 := by
                  apply Nat.le_antisymm
                  · apply Nat.le_of_not_lt
                    intro hlt
                    rcases hr with rfl | hr
                    · omega
                    · have := hn.2.2 r hr.1 hlt
                      have := hrn.2.1; omega
                  · apply Nat.le_of_not_lt
                    intro hlt
                    rcases hfrom with he | hb
                    · rcases hr with rfl | hr <;> omega
                    · have := hrn.2.2 _ hb.1 hlt
                      omega
                rw [hls, ← hrc]; exact hrs
          · rintro (⟨hs, hl⟩ | hl)
            · refine ⟨hn.2.1, by omega, Or.inr ⟨?_, cur.1, hfrom, hnext, hls.1 hl⟩⟩
              intro hh; rw [hsp.1 hh] at hs; cases hs
            · exact ⟨hn.2.1, by omega, Or.inl (hlb.2 hl)⟩
        by_cases hcond : ((!b.space c && ls) || isLineBreak c) = true
        · rw [if_pos hcond]
          refine ⟨_, rfl, Or.inl ⟨hstop.2 hcond, rfl, ?_⟩⟩
          intro m hm
          exact hn.2.2 m hm.1 (hno m hm)
        · rw [if_neg hcond]
          refine ih (next, .default) (b.space c) (by simp only; omega) hnsz (Or.inr ⟨rfl, hn.2.1, by simp only; omega⟩) hsp.symm ?_ (by simp only; omega)
          intro q hq
          have h1 := hn.2.2 q hq.1 (hno q hq)
          rcases Nat.lt_or_ge next q with hlt | hge
          · exact hlt
          · obtain rfl : next = q := by omega
            exact absurd (hstop.1 hq) hcond

/-- C51: `next_word` ends, at the first stop behind the cursor: a line break, or
something not white space behind white space.  Without a stop it goes to the end of
the text; at the end it stays. -/
theorem C51_next_word {b : BreakEnv} {B : Nat → Prop} (h : Breaks b B) {cursor : Cursor} (hc : cursor.1 ≤ b.size) :
    ∃ q, b.nextWord cursor = some q ∧
      ((WordStop b B cursor.1 q.1 ∧ q.2 = .default ∧ ∀ m, WordStop b B cursor.1 m → q.1 ≤ m) ∨
        ((∀ m, ¬ WordStop b B cursor.1 m) ∧ ((q = (b.size, .default) ∧ cursor.1 < b.size) ∨ (q = cursor ∧ cursor.1 = b.size)))) := by
  unfold BreakEnv.nextWord
  cases hch : b.char cursor.1 with
  | none => exact absurd hch (h.char _ hc)
  | some c =>
    exact nextWordLoop_spec h cursor (b.size + 1) cursor (b.space c) (Nat.le_refl _) hc (Or.inl rfl) (spaceAt_iff hch).symm
      (fun q hq => hq.2.1) (by omega)

theorem prevWordLoop_spec {b : BreakEnv} {B : Nat → Prop} (h : Breaks b B) (hlbs : ∀ c, isLineBreak c = true → b.space c = true)
    (cursor : Cursor) :
    ∀ (fuel : Nat) (cur : Cursor) (ls : Bool), (cur = cursor ∧ ls = true ∨ cur.2 = .default ∧ B cur.1 ∧ cur.1 < cursor.1 ∧ (ls = true ↔ SpaceAt b cur.1)) →
      (ls = true → ∀ q, WordStart b B cursor.1 q → q < cur.1) → (ls = false → ∀ q, WordStart b B cursor.1 q → q ≤ cur.1) → cur.1 < fuel →
      ∃ q, b.prevWordLoop fuel cur ls = some q ∧
        ((WordStart b B cursor.1 q.1 ∧ q.2 = .default ∧ ∀ m, WordStart b B cursor.1 m → m ≤ q.1) ∨
          ((∀ m, ¬ WordStart b B cursor.1 m) ∧ ((q = (0, .default) ∧ 0 < cursor.1) ∨ (q = cursor ∧ cursor.1 = 0)))) := by
  intro fuel
  induction fuel with
  | zero => intro cur ls _ _ _ hf; omega
  | succ fuel ih =>
    intro cur ls hcur hno hno' hf
    rw [BreakEnv.prevWordLoop]
    cases hfo : b.precede cur.1 with
    | none =>
      have h0 : cur.1 = 0 := by
        apply Nat.eq_zero_of_not_pos
        intro hlt
        exact h.precede_done _ _ hfo hlt h.first
      refine ⟨cur, rfl, ?_⟩
      rcases hcur with ⟨rfl, hls⟩ | ⟨ha, hb, hlt, hls⟩
      · refine Or.inr ⟨?_, Or.inr ⟨rfl, h0⟩⟩
        intro m hm
        have := hno hls m hm
        omega
      · cases ls with
        | true =>
          refine Or.inr ⟨?_, Or.inl ⟨?_, by omega⟩⟩
          · intro m hm
            have := hno rfl m hm
            omega
          · obtain ⟨c1, c2⟩ := cur
            simp only at ha h0
            rw [ha, h0]
        | false =>
          have hns : ¬ SpaceAt b cur.1 := by
            intro hh; have := hls.2 hh; cases this
          exact Or.inl ⟨⟨hb, hlt, Or.inr ⟨hns, Or.inl h0⟩⟩, ha, hno' rfl⟩
    | some prev =>
      have hn := h.precede_prev _ _ hfo
      have hnsz := h.inside _ hn.2.1
      cases hch : b.char prev with
      | none => exact absurd hch (h.char _ hnsz)
      | some c =>
        simp only [hch]
        have hsp := spaceAt_iff hch
        have hlb := lineBreakAt_iff hch
        have hle : cur.1 ≤ cursor.1 := by
          rcases hcur with ⟨rfl, -⟩ | ⟨-, -, hlt, -⟩ <;> omega
        by_cases hcond : (b.space c && !ls) = true
        · rw [if_pos hcond]
          simp only [Bool.and_eq_true, Bool.not_eq_true'] at hcond
          obtain ⟨hsc, hl⟩ := hcond
          subst hl
          rcases hcur with ⟨-, hl⟩ | ⟨ha, hb, hlt, hls⟩
          · cases hl
          refine ⟨cur, rfl, Or.inl ⟨⟨hb, hlt, Or.inr ⟨?_, Or.inr ⟨prev, hn.2.1, ⟨hb, hn.1, ?_⟩, hsp.2 hsc⟩⟩⟩, ha, hno' rfl⟩⟩
          · intro hh; have := hls.2 hh; cases this
          · intro m hm hlt'
            apply Nat.le_of_not_lt
            intro hh
            have := hn.2.2 m hm hh
            omega
        · rw [if_neg hcond]
          by_cases hbr : isLineBreak c = true
          · rw [if_pos hbr]
            have hl : ls = true := by
              have := hlbs c hbr
              cases ls with
              | true => rfl
              | false => simp [this] at hcond
            refine ⟨_, rfl, Or.inl ⟨⟨hn.2.1, by simp only; omega, Or.inl (hlb.2 hbr)⟩, rfl, ?_⟩⟩
            intro m hm
            exact hn.2.2 m hm.1 (hno hl m hm)
          · rw [if_neg hbr]
            refine ih (prev, .default) (b.space c) (Or.inr ⟨rfl, hn.2.1, by simp only; omega, hsp.symm⟩) ?_ ?_ (by simp only; omega)
            all_goals
              intro hs q hq
              have hqc : q < cur.1 := by
                cases ls with
                | true => exact hno rfl q hq
                | false =>
                  have hle' := hno' rfl q hq
                  rcases Nat.lt_or_ge q cur.1 with hlt | hge
                  · exact hlt
                  exfalso
                  obtain rfl : q = cur.1 := by omega
                  have hnsc : b.space c = false := by
                    cases hh : b.space c
                    · rfl
                    · simp [hh] at hcond
                  rcases hcur with ⟨-, hl⟩ | ⟨ha, hb, hlt, hls⟩
                  · cases hl
                  have hns : ¬ SpaceAt b cur.1 := by
                    intro hh; have := hls.2 hh; cases this
                  rcases hq.2.2 with hl | ⟨-, h0 | ⟨r, hr, hrn, hrs⟩⟩
                  · obtain ⟨c', hc', e⟩ := hl
                    exact hns ⟨c', hc', hlbs c' ((isLineBreak_iff c').2 e)⟩
                  · have := hn.1; omega
                  · have h1 := hn.2.2 r hr hrn.2.1
                    have h2 : r = prev := by
                      apply Nat.le_antisymm h1
                      apply Nat.le_of_not_lt
                      intro hlt'
                      have := hrn.2.2 prev hn.2.1 hlt'
                      have := hn.1; omega
                    rw [h2] at hrs
                    rw [hsp.1 hrs] at hnsc
                    cases hnsc
              have hqp : q ≤ prev := hn.2.2 q hq.1 hqc
            · -- white space without a line break is no stop
              rcases Nat.lt_or_ge q prev with hlt | hge
              · exact hlt
              exfalso
              obtain rfl : q = prev := by omega
              rcases hq.2.2 with hl | ⟨hns, -⟩
              · exact hbr (hlb.1 hl)
              · exact hns (hsp.2 hs)
            · exact hqp

/-- C51: `prev_word` ends, at the last stop before the cursor: a line break, or the
start of a word.  With only white space before the cursor it goes to the start of
the text; at the start it stays.  (Line breaks are white space to ICU.) -/
theorem C51_prev_word {b : BreakEnv} {B : Nat → Prop} (h : Breaks b B) (hlbs : ∀ c, isLineBreak c = true → b.space c = true)
    (cursor : Cursor) :
    ∃ q, b.prevWord cursor = some q ∧
      ((WordStart b B cursor.1 q.1 ∧ q.2 = .default ∧ ∀ m, WordStart b B cursor.1 m → m ≤ q.1) ∨
        ((∀ m, ¬ WordStart b B cursor.1 m) ∧ ((q = (0, .default) ∧ 0 < cursor.1) ∨ (q = cursor ∧ cursor.1 = 0)))) :=
  prevWordLoop_spec h hlbs cursor (cursor.1 + 1) cursor true (Or.inl ⟨rfl, rfl⟩) (fun _ q hq => hq.2.1) (fun hl => by cases hl) (by omega)

/-- C51: neither moves the wrong way, and both stay inside the text. -/
theorem C51_direction {b : BreakEnv} {B : Nat → Prop} (h : Breaks b B) (hlbs : ∀ c, isLineBreak c = true → b.space c = true)
    {cursor : Cursor} (hc : cursor.1 ≤ b.size) :
    ∃ n p, b.nextWord cursor = some n ∧ b.prevWord cursor = some p ∧ p.1 ≤ cursor.1 ∧ cursor.1 ≤ n.1 ∧ n.1 ≤ b.size ∧
      (cursor.1 < b.size → cursor.1 < n.1) ∧ (0 < cursor.1 → p.1 < cursor.1) := by
  obtain ⟨n, hn, hn'⟩ := C51_next_word h hc
  obtain ⟨p, hp, hp'⟩ := C51_prev_word h hlbs cursor
  have h1 : p.1 ≤ cursor.1 ∧ (0 < cursor.1 → p.1 < cursor.1) := by
    rcases hp' with ⟨hs, -, -⟩ | ⟨-, ⟨rfl, h0⟩ | ⟨rfl, h0⟩⟩
    · have := hs.2.1; omega
    · exact ⟨Nat.zero_le _, fun h => h⟩
    · exact ⟨Nat.le_refl _, fun h => by omega⟩
  have h2 : cursor.1 ≤ n.1 ∧ n.1 ≤ b.size ∧ (cursor.1 < b.size → cursor.1 < n.1) := by
    rcases hn' with ⟨hs, -, -⟩ | ⟨-, ⟨rfl, h0⟩ | ⟨rfl, h0⟩⟩
    · have := hs.2.1; have := h.inside _ hs.1; omega
    · exact ⟨hc, Nat.le_refl _, fun h => h⟩
    · exact ⟨Nat.le_refl _, hc, fun h => by omega⟩
  exact ⟨n, p, hn, hp, h1.1, h2.1, h2.2.1, h2.2.2, h1.2⟩

/-! ### Concrete cases -/

/-- The text of ASCII characters, every position a boundary. -/
def asciiEnv (text : List Nat) : BreakEnv where
  size := text.length
  follow k := if k < text.length then some (k + 1) else none
  precede k := if k = 0 then none else some (min (k - 1) text.length)
  char k := if k < text.length then (text[k]?).map Int.ofNat else if k = text.length then some 0 else none
  space c := c == 32 || c == 9 || c == 10 || c == 13 || c == 0x2028 || c == 0x2029

theorem asciiEnv_breaks (text : List Nat) :
    Breaks (asciiEnv text) (fun k => k ≤ text.length) where
  first := Nat.zero_le _
  last := Nat.le_refl _
  inside := fun _ h => h
  follow_next := by
    intro k n hf
    simp only [asciiEnv] at hf
    split at hf
    · cases hf; exact ⟨by omega, by omega, fun m _ hm => by omega⟩
    · cases hf
  follow_done := by
    intro k m hf hlt
    simp only [asciiEnv] at hf
    split at hf
    · cases hf
    · omega
  precede_prev := by
    intro k n hf
    simp only [asciiEnv] at hf
    split at hf
    · cases hf
    · cases hf; exact ⟨by omega, by omega, fun m hm hm' => by omega⟩
  precede_done := by
    intro k m hf hlt
    simp only [asciiEnv] at hf
    split at hf
    · omega
    · cases hf
  char := by
    intro k hk
    simp only [asciiEnv] at hk ⊢
    split
    · rename_i hlt
      rw [List.getElem?_eq_getElem hlt]; simp
    · rw [if_pos (by omega)]; simp

theorem asciiEnv_space (text : List Nat) : ∀ c, isLineBreak c = true → (asciiEnv text).space c = true := by
  intro c hc
  rw [isLineBreak_iff] at hc
  rcases hc with rfl | rfl | rfl | rfl <;> rfl

/-- "ab  cd" LF "e": forward from 1, 4 and 6, back from 6, 4, 7 and 8. -/
example : ((asciiEnv [97, 98, 32, 32, 99, 100, 10, 101]).nextWord (1, .default), (asciiEnv [97, 98, 32, 32, 99, 100, 10, 101]).nextWord (4, .default),
    (asciiEnv [97, 98, 32, 32, 99, 100, 10, 101]).nextWord (6, .default)) =
    (some (4, .default), some (6, .default), some (7, .default)) := by decide +kernel
example : ((asciiEnv [97, 98, 32, 32, 99, 100, 10, 101]).prevWord (6, .default), (asciiEnv [97, 98, 32, 32, 99, 100, 10, 101]).prevWord (4, .default),
    (asciiEnv [97, 98, 32, 32, 99, 100, 10, 101]).prevWord (7, .default), (asciiEnv [97, 98, 32, 32, 99, 100, 10, 101]).prevWord (8, .default)) =
    (some (4, .default), some (0, .default), some (6, .default), some (7, .default)) := by decide +kernel

end RichText
