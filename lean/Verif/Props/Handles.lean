import Verif.Model.Handles
/-!
Properties C17 (cursor positions) and C18 (font handles).
-/
namespace RichText

/-! ## C17 -/

private theorem positionMask_bit (i : Nat) (hi : i < 32) :
    CursorPosition.positionMask.getLsbD i = decide (i < 31) := by
  have : ∀ i : Fin 32, CursorPosition.positionMask.getLsbD i.1 = decide (i.1 < 31) := by decide
  exact this ⟨i, hi⟩

private theorem affinityMask_bit (i : Nat) (hi : i < 32) :
    CursorPosition.affinityMask.getLsbD i = decide (i = 31) := by
  have : ∀ i : Fin 32, CursorPosition.affinityMask.getLsbD i.1 = decide (i.1 = 31) := by decide
  exact this ⟨i, hi⟩

private theorem shift31 (w : BitVec 32) : (w >>> 31 = 0#32) ↔ w.getLsbD 31 = false := by
  constructor
  · intro h
    have := congrArg (fun v => v.getLsbD 0) h
    simpa [BitVec.getLsbD_ushiftRight] using this
  · intro h
    apply BitVec.eq_of_getLsbD_eq
    intro i hi
    rw [BitVec.getLsbD_ushiftRight]
    cases i with
    | zero => simpa using h
    | succ i => rw [BitVec.getLsbD_of_ge _ _ (by omega)]; simp

/-- The affinity a cursor has is its top bit. -/
private theorem getAffinity_eq (c : CursorPosition) :
    c.getAffinity = if c.data.getLsbD 31 then .opposite else .default := by
  unfold CursorPosition.getAffinity
  by_cases h : c.data.getLsbD 31
  · rw [if_neg (by rw [shift31]; simp [h]), if_pos h]
  · rw [if_pos (by rw [shift31]; simpa using h), if_neg h]

private theorem and_mask_toInt (w : BitVec 32) : (w &&& CursorPosition.positionMask).toInt
    = ((w.toNat % 2147483648 : Nat) : Int) := by
  have hm : CursorPosition.positionMask.toNat = 2 ^ 31 - 1 := by decide
  have : (w &&& CursorPosition.positionMask).toNat = w.toNat % 2147483648 := by
    rw [BitVec.toNat_and, hm, Nat.and_two_pow_sub_one_eq_mod]
  rw [BitVec.toInt_eq_toNat_of_lt (by rw [this]; omega), this]

/-- `set_position` then `get_position`; the affinity is untouched. -/
theorem C17_set_position (c : CursorPosition) (pos : Int) (h0 : 0 ≤ pos) (h1 : pos < 2147483648) :
    (c.setPosition pos).getPosition = pos ∧
    (c.setPosition pos).getAffinity = c.getAffinity := by
  obtain ⟨n, rfl⟩ := Int.eq_ofNat_of_zero_le h0
  have hn : n < 2147483648 := by omega
  have h31 : (BitVec.ofNat 32 n).getLsbD 31 = false := by
    rw [BitVec.getLsbD_ofNat, Nat.testBit_lt_two_pow (by omega)]; simp
  constructor
  · have key : (c.setPosition n).data &&& CursorPosition.positionMask = BitVec.ofNat 32 n := by
      apply BitVec.eq_of_getLsbD_eq
      intro i hi
      simp only [CursorPosition.setPosition, BitVec.ofInt_natCast, BitVec.getLsbD_and,
        BitVec.getLsbD_or, positionMask_bit i hi, affinityMask_bit i hi]
      by_cases hi31 : i = 31
      · subst hi31; rw [h31]; simp
      · have : i < 31 := by omega
        simp [this, hi31]
    unfold CursorPosition.getPosition
    rw [key, BitVec.toInt_eq_toNat_of_lt (by rw [BitVec.toNat_ofNat]; omega), BitVec.toNat_ofNat]
    omega
  · rw [getAffinity_eq, getAffinity_eq]
    have : (c.setPosition n).data.getLsbD 31 = c.data.getLsbD 31 := by
      simp only [CursorPosition.setPosition, BitVec.ofInt_natCast, BitVec.getLsbD_and,
        BitVec.getLsbD_or, positionMask_bit 31 (by omega), affinityMask_bit 31 (by omega)]
      simp
    rw [this]

/-- `set_affinity` then `get_affinity`; the position is untouched. -/
theorem C17_set_affinity (c : CursorPosition) (a : Affinity) :
    (c.setAffinity a).getAffinity = a ∧ (c.setAffinity a).getPosition = c.getPosition := by
  constructor
  · rw [getAffinity_eq]
    cases a with
    | default =>
      simp only [CursorPosition.setAffinity, BitVec.getLsbD_and, positionMask_bit 31 (by omega)]
      simp
    | opposite =>
      simp only [CursorPosition.setAffinity, BitVec.getLsbD_or]
      have : (1#32 <<< 31).getLsbD 31 = true := by decide
      simp [this]
  · unfold CursorPosition.getPosition
    congr 1
    apply BitVec.eq_of_getLsbD_eq
    intro i hi
    cases a with
    | default =>
      simp only [CursorPosition.setAffinity, BitVec.getLsbD_and, positionMask_bit i hi]
      simp
    | opposite =>
      have := affinityMask_bit i hi
      unfold CursorPosition.affinityMask at this
      simp only [CursorPosition.setAffinity, BitVec.getLsbD_and, BitVec.getLsbD_or,
        positionMask_bit i hi, this]
      by_cases hi31 : i < 31
      · have : i ≠ 31 := by omega
        simp [this]
      · simp [hi31]

/-- The position read is always a valid non-negative `int32_t`. -/
theorem C17_position_range (c : CursorPosition) :
    0 ≤ c.getPosition ∧ c.getPosition < 2147483648 := by
  unfold CursorPosition.getPosition
  rw [and_mask_toInt]
  omega

/-- A position below 2^31-1 is never the invalid cursor, and the only invalid
cursor is the one of `set_invalid`. -/
theorem C17_valid (c : CursorPosition) :
    (c.getPosition < 2147483647 → c.isValid = true) ∧ (c.setInvalid).isValid = false ∧
    (c.isValid = false → c.getPosition = 2147483647 ∧ c.getAffinity = .opposite) := by
  have hi : (⟨CursorPosition.invalidValue⟩ : CursorPosition).getPosition = 2147483647 ∧
      (⟨CursorPosition.invalidValue⟩ : CursorPosition).getAffinity = .opposite := by decide
  refine ⟨?_, by simp [CursorPosition.setInvalid, CursorPosition.isValid], ?_⟩
  · intro h
    unfold CursorPosition.isValid
    rw [bne_iff_ne]
    intro hd
    have : c = ⟨CursorPosition.invalidValue⟩ := by cases c; simpa using hd
    rw [this, hi.1] at h
    omega
  · intro h
    unfold CursorPosition.isValid at h
    have hd : c.data = CursorPosition.invalidValue := by simpa using h
    have : c = ⟨CursorPosition.invalidValue⟩ := by cases c; simpa using hd
    rw [this]; exact hi

/-- Two cursors are equal exactly when position and affinity agree. -/
theorem C17_eq_iff (c d : CursorPosition) :
    c = d ↔ c.getPosition = d.getPosition ∧ c.getAffinity = d.getAffinity := by
  constructor
  · rintro rfl; exact ⟨rfl, rfl⟩
  · rintro ⟨hp, ha⟩
    cases c with | mk x =>
    cases d with | mk y =>
    congr 1
    unfold CursorPosition.getPosition at hp
    rw [and_mask_toInt, and_mask_toInt] at hp
    rw [getAffinity_eq, getAffinity_eq] at ha
    simp only [Int.natCast_inj] at hp ha
    have hb : x.getLsbD 31 = y.getLsbD 31 := by
      cases hx : x.getLsbD 31 <;> cases hy : y.getLsbD 31 <;> rw [hx, hy] at ha <;> simp_all
    apply BitVec.eq_of_getLsbD_eq
    intro i hi
    by_cases h31 : i = 31
    · subst h31; exact hb
    · have hx : (x.toNat % 2 ^ 31).testBit i = (y.toNat % 2 ^ 31).testBit i := by
        have : (2 : Nat) ^ 31 = 2147483648 := by decide
        rw [this, hp]
      rw [Nat.testBit_mod_two_pow, Nat.testBit_mod_two_pow] at hx
      have hlt : i < 31 := by omega
      simpa [hlt, BitVec.testBit_toNat] using hx

example : ((⟨0#32⟩ : CursorPosition).setAffinity .opposite |>.setPosition 2147483646).isValid = true := by
  decide

/-! ## C18 -/

/-- The getters return the family, weight and style the face was made of. -/
theorem C18_face_getters (family : FamilyHandle) (weight : BitVec 8) (style : FontStyle)
    (hw : weight.toNat < 16) :
    (FontFace.make family weight style).getFamily = family ∧
    (FontFace.make family weight style).getWeight = weight ∧
    (FontFace.make family weight style).getStyle = style := by
  have hwb : ∀ j, 4 ≤ j → weight.getLsbD j = false := by
    intro j hj
    rw [← BitVec.testBit_toNat]
    apply Nat.testBit_lt_two_pow
    have : 2 ^ 4 ≤ 2 ^ j := Nat.pow_le_pow_right (by omega) hj
    omega
  have hst : ∀ j, 1 ≤ j → style.toBits.getLsbD j = false := by
    intro j hj
    cases style with
    | normal => simp [FontStyle.toBits]
    | italic =>
      simp only [FontStyle.toBits]
      rw [BitVec.getLsbD_one]; simp; omega
  refine ⟨?_, ?_, ?_⟩
  · apply BitVec.eq_of_getLsbD_eq
    intro i hi
    simp only [FontFace.getFamily, FontFace.make, BitVec.truncate_eq_setWidth,
      BitVec.getLsbD_setWidth, BitVec.getLsbD_ushiftRight, BitVec.getLsbD_or, BitVec.getLsbD_shiftLeft]
    rw [hwb (16 + i - 1) (by omega), hst (16 + i) (by omega)]
    have h1 : 16 + i < 32 := by omega
    have h2 : ¬ (16 + i < 16) := by omega
    simp [hi, h1, h2]
    omega
  · apply BitVec.eq_of_getLsbD_eq
    intro i hi
    simp only [FontFace.getWeight, FontFace.make, BitVec.truncate_eq_setWidth,
      BitVec.getLsbD_setWidth, BitVec.getLsbD_and, BitVec.getLsbD_ushiftRight, BitVec.getLsbD_or,
      BitVec.getLsbD_shiftLeft]
    rw [hst (1 + i) (by omega)]
    have hF : (0xF#32).getLsbD i = decide (i < 4) := by
      have : ∀ i : Fin 8, (0xF#32).getLsbD i.1 = decide (i.1 < 4) := by decide
      exact this ⟨i, hi⟩
    rw [hF]
    have h1 : 1 + i < 32 := by omega
    have h2 : 1 + i < 16 := by omega
    have h3 : 1 + i - 1 = i := by omega
    by_cases h4 : i < 4
    · simp [hi, h1, h2, h3, h4]; omega
    · simp [h4]; exact hwb i (by omega)
  · have h0 : (FontFace.make family weight style).handle &&& 1#32 = style.toBits := by
      apply BitVec.eq_of_getLsbD_eq
      intro i hi
      simp only [FontFace.make, BitVec.getLsbD_and, BitVec.getLsbD_or, BitVec.getLsbD_shiftLeft]
      by_cases hi0 : i = 0
      · subst hi0; simp [BitVec.getLsbD_one]
      · rw [hst i (by omega), BitVec.getLsbD_one]; simp [hi0]
    unfold FontFace.getStyle
    rw [h0]
    cases style <;> decide

/-- Distinct triples give distinct faces. -/
theorem C18_face_injective (f f' : FamilyHandle) (w w' : BitVec 8) (s s' : FontStyle)
    (hw : w.toNat < 16) (hw' : w'.toNat < 16) (h : FontFace.make f w s = FontFace.make f' w' s') :
    f = f' ∧ w = w' ∧ s = s' := by
  obtain ⟨a, b, c⟩ := C18_face_getters f w s hw
  obtain ⟨a', b', c'⟩ := C18_face_getters f' w' s' hw'
  rw [h] at a b c
  exact ⟨a.symm.trans a', b.symm.trans b', c.symm.trans c'⟩

/-- A face is valid exactly when its family is (is not `0xFFFF`). -/
theorem C18_face_valid (f : FamilyHandle) (w : BitVec 8) (s : FontStyle) (hw : w.toNat < 16) :
    (FontFace.make f w s).valid = true ↔ f ≠ 0xFFFF#16 := by
  unfold FontFace.valid FamilyHandle.valid
  rw [(C18_face_getters f w s hw).1, bne_iff_ne]
  have : invalidFamily = 0xFFFF#16 := by decide
  rw [this]

/-- `Font` keeps the size next to the face; the default face is invalid. -/
theorem C18_font (f : FamilyHandle) (w : BitVec 8) (s : FontStyle) (size : BitVec 32)
    (hw : w.toNat < 16) :
    (Font.make f w s size).face.getFamily = f ∧ (Font.make f w s size).face.getWeight = w ∧
    (Font.make f w s size).face.getStyle = s ∧ (Font.make f w s size).size = size ∧
    FontFace.invalid.valid = false :=
  ⟨(C18_face_getters f w s hw).1, (C18_face_getters f w s hw).2.1, (C18_face_getters f w s hw).2.2,
    rfl, by decide⟩

example : (FontFace.make 0xFFFE#16 8#8 .italic).valid = true ∧ (8#8).toNat < 16 := by decide

end RichText
