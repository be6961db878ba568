import Verif.Spec.Utf8
/-!
Proofs about valid UTF-8.
-/
namespace RichText

theorem ValidUtf8.nil : ValidUtf8 [] := ⟨[], rfl⟩

theorem encode_append (a b : List Char) : encode (a ++ b) = encode a ++ encode b := by simp [encode]

theorem ValidUtf8.append {a b : List UInt8} (ha : ValidUtf8 a) (hb : ValidUtf8 b) : ValidUtf8 (a ++ b) := by
  obtain ⟨x, rfl⟩ := ha
  obtain ⟨y, rfl⟩ := hb
  exact ⟨x ++ y, (encode_append x y).symm⟩

/-- A character is one ASCII byte, or has no ASCII bytes. -/
theorem encodeChar_cases (c : Char) :
    (∃ b : UInt8, b < 0x80 ∧ String.utf8EncodeChar c = [b]) ∨ ∀ b ∈ String.utf8EncodeChar c, 0x80 ≤ b := by
  have hmax : c.val.toNat < 1114112 := by
    have := c.valid
    simp only [UInt32.isValidChar, Nat.isValidChar] at this
    omega
  unfold String.utf8EncodeChar
  generalize c.val.toNat = n at hmax
  have key : ∀ k : Nat, 128 ≤ k → k < 256 → (0x80 : UInt8) ≤ UInt8.ofNat k := by
    intro k h1 h2
    rw [UInt8.le_iff_toNat_le, UInt8.toNat_ofNat_of_lt' h2]
    exact h1
  simp only
  split
  · rename_i h
    left
    refine ⟨_, ?_, rfl⟩
    rw [UInt8.lt_iff_toNat_lt]
    have e : (UInt8.ofNat n).toNat = n := UInt8.toNat_ofNat_of_lt' (by simp only [UInt8.size]; omega)
    have e2 : (0x80 : UInt8).toNat = 128 := rfl
    first | rw [e, e2]; omega | (change (UInt8.ofNat n).toNat < _; rw [e, e2]; omega)
  · right
    split
    · intro b hb
      simp only [List.mem_cons, List.not_mem_nil, or_false] at hb
      rcases hb with rfl | rfl <;> exact key _ (by omega) (by omega)
    · split
      · intro b hb
        simp only [List.mem_cons, List.not_mem_nil, or_false] at hb
        rcases hb with rfl | rfl | rfl <;> exact key _ (by omega) (by omega)
      · intro b hb
        simp only [List.mem_cons, List.not_mem_nil, or_false] at hb
        rcases hb with rfl | rfl | rfl | rfl <;> exact key _ (by omega) (by omega)

/-- Valid text can be cut at an ASCII byte. -/
theorem ValidUtf8.split {x y : List UInt8} {b : UInt8} (hb : b < 0x80) (h : ValidUtf8 (x ++ b :: y)) :
    ValidUtf8 x ∧ ValidUtf8 y := by
  obtain ⟨cs, h⟩ := h
  induction cs generalizing x with
  | nil => simp [encode] at h
  | cons c t ih =>
    have h : x ++ b :: y = String.utf8EncodeChar c ++ encode t := h
    rcases List.append_eq_append_iff.1 h with ⟨z, h1, h2⟩ | ⟨z, h1, h2⟩
    · cases z with
      | nil =>
        rw [List.append_nil] at h1
        rw [List.nil_append] at h2
        have := ih (x := []) h2
        exact ⟨⟨[c], by simp [encode, h1]⟩, this.2⟩
      | cons d z =>
        simp only [List.cons_append, List.cons.injEq] at h2
        obtain ⟨rfl, h2⟩ := h2
        rcases encodeChar_cases c with ⟨b', _, hc⟩ | hc
        · rw [hc] at h1
          have hl := congrArg List.length h1
          simp only [List.length_append, List.length_cons, List.length_nil] at hl
          have hx : x = [] := List.length_eq_zero_iff.1 (by omega)
          have hz : z = [] := List.length_eq_zero_iff.1 (by omega)
          subst hx; subst hz
          exact ⟨.nil, ⟨t, by simpa using h2⟩⟩
        · have := hc b (by rw [h1]; simp)
          exact absurd hb (by rw [UInt8.not_lt]; exact this)
    · have := ih (x := z) h2.symm
      refine ⟨?_, this.2⟩
      rw [h1]
      exact ValidUtf8.append ⟨[c], by simp [encode]⟩ this.1

/-- The byte 0xFF is not part of UTF-8. -/
theorem encodeChar_ne_ff (c : Char) : ∀ b ∈ String.utf8EncodeChar c, b ≠ 0xFF := by
  have hmax : c.val.toNat < 1114112 := by
    have := c.valid
    simp only [UInt32.isValidChar, Nat.isValidChar] at this
    omega
  unfold String.utf8EncodeChar
  generalize c.val.toNat = n at hmax
  have key : ∀ k : Nat, k < 255 → UInt8.ofNat k ≠ (0xFF : UInt8) := by
    intro k h2 h
    have := congrArg UInt8.toNat h
    rw [UInt8.toNat_ofNat_of_lt' (by simp only [UInt8.size]; omega)] at this
    have e2 : (0xFF : UInt8).toNat = 255 := rfl
    omega
  intro b hb
  simp only at hb
  split at hb
  · simp only [List.mem_cons, List.not_mem_nil, or_false] at hb
    rcases hb with rfl; exact key _ (by omega)
  · split at hb
    · simp only [List.mem_cons, List.not_mem_nil, or_false] at hb
      rcases hb with rfl | rfl <;> exact key _ (by omega)
    · split at hb
      · simp only [List.mem_cons, List.not_mem_nil, or_false] at hb
        rcases hb with rfl | rfl | rfl <;> exact key _ (by omega)
      · simp only [List.mem_cons, List.not_mem_nil, or_false] at hb
        rcases hb with rfl | rfl | rfl | rfl <;> exact key _ (by omega)

/-- A character is one byte that is not a trail byte, and trail bytes. -/
theorem encodeChar_shape (c : Char) :
    ∃ b t, String.utf8EncodeChar c = b :: t ∧ ¬ isTrailByte b ∧ ∀ x ∈ t, isTrailByte x := by
  have hmax : c.val.toNat < 1114112 := by
    have := c.valid
    simp only [UInt32.isValidChar, Nat.isValidChar] at this
    omega
  unfold String.utf8EncodeChar
  generalize c.val.toNat = n at hmax
  have lo : ∀ k : Nat, k < 128 → ¬ isTrailByte (UInt8.ofNat k) := by
    intro k h1 h
    have := UInt8.le_iff_toNat_le.1 h.1
    rw [UInt8.toNat_ofNat_of_lt' (by simp only [UInt8.size]; omega)] at this
    have e2 : (0x80 : UInt8).toNat = 128 := rfl
    omega
  have hi : ∀ k : Nat, 192 ≤ k → k < 256 → ¬ isTrailByte (UInt8.ofNat k) := by
    intro k h0 h1 h
    have := UInt8.lt_iff_toNat_lt.1 h.2
    rw [UInt8.toNat_ofNat_of_lt' (by simp only [UInt8.size]; omega)] at this
    have e2 : (0xC0 : UInt8).toNat = 192 := rfl
    omega
  have tr : ∀ k : Nat, 128 ≤ k → k < 192 → isTrailByte (UInt8.ofNat k) := by
    intro k h0 h1
    constructor
    · rw [UInt8.le_iff_toNat_le, UInt8.toNat_ofNat_of_lt' (by simp only [UInt8.size]; omega)]
      exact h0
    · rw [UInt8.lt_iff_toNat_lt, UInt8.toNat_ofNat_of_lt' (by simp only [UInt8.size]; omega)]
      exact h1
  simp only
  split
  · exact ⟨_, [], rfl, lo _ (by omega), by simp⟩
  · split
    · refine ⟨_, _, rfl, hi _ (by omega) (by omega), ?_⟩
      intro x hx
      simp only [List.mem_cons, List.not_mem_nil, or_false] at hx
      rcases hx with rfl; exact tr _ (by omega) (by omega)
    · split
      · refine ⟨_, _, rfl, hi _ (by omega) (by omega), ?_⟩
        intro x hx
        simp only [List.mem_cons, List.not_mem_nil, or_false] at hx
        rcases hx with rfl | rfl <;> exact tr _ (by omega) (by omega)
      · refine ⟨_, _, rfl, hi _ (by omega) (by omega), ?_⟩
        intro x hx
        simp only [List.mem_cons, List.not_mem_nil, or_false] at hx
        rcases hx with rfl | rfl | rfl <;> exact tr _ (by omega) (by omega)

theorem ValidUtf8.head_not_trail {b : UInt8} {l : List UInt8} (h : ValidUtf8 (b :: l)) : ¬ isTrailByte b := by
  obtain ⟨cs, h⟩ := h
  cases cs with
  | nil => cases h
  | cons c t =>
    have h : b :: l = String.utf8EncodeChar c ++ encode t := h
    obtain ⟨x, tl, he, hx, _⟩ := encodeChar_shape c
    rw [he] at h
    cases h
    exact hx

/-- Valid text can be cut before every byte that is not a trail byte. -/
theorem ValidUtf8.cut {x y : List UInt8} (h : ValidUtf8 (x ++ y)) (hy : ∀ b l, y = b :: l → ¬ isTrailByte b) :
    ValidUtf8 x ∧ ValidUtf8 y := by
  obtain ⟨cs, h⟩ := h
  induction cs generalizing x with
  | nil =>
    have : x = [] ∧ y = [] := by simpa [encode] using h
    obtain ⟨rfl, rfl⟩ := this
    exact ⟨.nil, .nil⟩
  | cons c t ih =>
    have h : x ++ y = String.utf8EncodeChar c ++ encode t := h
    obtain ⟨b, tl, he, hb, htl⟩ := encodeChar_shape c
    rcases List.append_eq_append_iff.1 h with ⟨z, h1, h2⟩ | ⟨z, h1, h2⟩
    · cases z with
      | nil =>
        rw [List.append_nil] at h1
        rw [List.nil_append] at h2
        exact ⟨⟨[c], by simp [encode, h1]⟩, ⟨t, h2⟩⟩
      | cons d z =>
        cases x with
        | nil => exact ⟨.nil, ⟨c :: t, by simpa [encode] using h⟩⟩
        | cons e x =>
          rw [he] at h1
          simp only [List.cons_append, List.cons.injEq] at h1
          exact absurd (htl d (by rw [h1.2]; simp)) (hy d _ h2)
    · have := ih (x := z) h2.symm
      refine ⟨?_, this.2⟩
      rw [h1]
      exact ValidUtf8.append ⟨[c], by simp [encode]⟩ this.1

end RichText
