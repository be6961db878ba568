import Verif.Spec.SmallCaps
import Verif.Proof.Utf8
/-!
Proofs about mapping clusters of upper case text back.
-/
namespace RichText

theorem lowerText_append (a b : List Cased) : lowerText (a ++ b) = lowerText a ++ lowerText b := by
  simp [lowerText]

theorem upperText_append (a b : List Cased) : upperText (a ++ b) = upperText a ++ upperText b := by
  simp [upperText]

theorem SameLength.length {l : List Cased} (h : SameLength l) : (upperText l).length = (lowerText l).length := by
  induction l with
  | nil => rfl
  | cons p t ih =>
    have h1 := h p (by simp)
    have h2 := ih fun q hq => h q (by simp [hq])
    simp only [upperText, lowerText, List.flatMap_cons, List.length_append] at h2 ⊢
    omega

/-- Index of the first byte of the character that contains byte `i`. -/
def leadOf : List Cased → Nat → Nat
  | [], _ => 0
  | p :: t, i => if i < p.lower.length then 0 else p.lower.length + leadOf t (i - p.lower.length)

theorem origin_eq_leadOf {l r : List Cased} (h : SameLength l) {i : Nat} (hi : i < (lowerText l).length) :
    origin (l ++ r) i = leadOf (l ++ r) i := by
  induction l generalizing i with
  | nil => simp [lowerText] at hi
  | cons p t ih =>
    have h1 := h p (by simp)
    simp only [List.cons_append, origin, leadOf, h1]
    split
    · rfl
    · rw [ih (fun q hq => h q (by simp [hq]))]
      simp only [lowerText, List.flatMap_cons, List.length_append] at hi ⊢
      omega

theorem leadOf_lt {l : List Cased} {i : Nat} (hi : i < (lowerText l).length) : leadOf l i ≤ i := by
  induction l generalizing i with
  | nil => simp [lowerText] at hi
  | cons p t ih =>
    simp only [leadOf]
    split
    · omega
    · have := @ih (i - p.lower.length) (by
        simp only [lowerText, List.flatMap_cons, List.length_append] at hi ⊢; omega)
      omega

theorem backToLead_trail {text : List Nat} {a : Nat} {b : Nat} (hb : text[a]? = some b) (hl : isTrail b = false)
    (k : Nat) (ht : ∀ j, a < j → j ≤ a + k → ∃ x, text[j]? = some x ∧ isTrail x = true) :
    backToLead text (a + k) = some a := by
  induction k with
  | zero =>
    rcases a with _ | a
    · simp [backToLead, hb]
    · simp [backToLead, hb, hl]
  | succ k ih =>
    obtain ⟨x, hx, hx2⟩ := ht (a + (k + 1)) (by omega) (by omega)
    have : backToLead text (a + k + 1) = backToLead text (a + k) := by
      rw [backToLead]
      have : text[a + k + 1]? = some x := hx
      rw [this]; simp [hx2]
    rw [← Nat.add_assoc, this]
    exact ih fun j h1 h2 => ht j h1 (by omega)

theorem isTrail_toNat (b : UInt8) : isTrail b.toNat = true ↔ isTrailByte b := by
  unfold isTrail isTrailByte
  rw [UInt8.le_iff_toNat_le, UInt8.lt_iff_toNat_lt, Bool.and_eq_true, decide_eq_true_eq, decide_eq_true_eq]
  rfl

/-- A character is a byte that is no trail byte, followed by trail bytes. -/
theorem Cased.WellFormed.shape {p : Cased} (h : p.WellFormed) :
    ∃ b t, p.lower = b :: t ∧ isTrail b = false ∧ ∀ x ∈ t, isTrail x = true := by
  obtain ⟨c, hc⟩ := h
  obtain ⟨b, t, h1, h2, h3⟩ := encodeChar_shape c
  rw [h1] at hc
  refine ⟨b.toNat, t.map UInt8.toNat, hc, ?_, ?_⟩
  · rw [Bool.eq_false_iff, ne_eq, isTrail_toNat]; exact h2
  · intro x hx
    obtain ⟨y, hy, rfl⟩ := List.mem_map.1 hx
    rw [isTrail_toNat]; exact h3 y hy

theorem backToLead_leadOf {l : List Cased} (hw : ∀ p ∈ l, p.WellFormed) (pre rest : List Nat) {i : Nat}
    (hi : i < (lowerText l).length) :
    backToLead (pre ++ lowerText l ++ rest) (pre.length + i) = some (pre.length + leadOf l i) := by
  induction l generalizing pre i with
  | nil => simp [lowerText] at hi
  | cons p t ih =>
    simp only [leadOf]
    split
    · rename_i h
      obtain ⟨b, tl, h1, h2, h3⟩ := (hw p (by simp)).shape
      rw [Nat.add_zero]
      apply backToLead_trail (b := b)
      · simp [lowerText, h1]
      · exact h2
      · intro j hj1 hj2
        obtain ⟨m, rfl⟩ : ∃ m, j = pre.length + (m + 1) := ⟨j - pre.length - 1, by omega⟩
        rw [h1] at h; simp only [List.length_cons] at h
        have hm : m < tl.length := by omega
        refine ⟨tl[m], ?_, h3 _ (List.getElem_mem _)⟩
        simp only [lowerText, List.flatMap_cons, h1, List.append_assoc]
        rw [List.getElem?_append_right (by omega)]
        rw [show pre.length + (m + 1) - pre.length = m + 1 by omega]
        simp [List.getElem?_append_left hm, List.getElem?_eq_getElem hm]
    · rename_i h
      have := ih (fun q hq => hw q (by simp [hq])) (pre ++ p.lower) (i := i - p.lower.length) (by
        simp only [lowerText, List.flatMap_cons, List.length_append] at hi ⊢; omega)
      rw [show pre.length + i = (pre ++ p.lower).length + (i - p.lower.length) by simp; omega]
      rw [show pre ++ lowerText (p :: t) ++ rest = pre ++ p.lower ++ lowerText t ++ rest by
        simp [lowerText]]
      rw [this]
      simp; omega

/-- A source index in characters of unchanged length is found in a span that was not moved. -/
theorem findSource_same {l : List Cased} {es : List Edit} (hr : Records l es) {a b : List Cased} (hl : l = a ++ b)
    (ha : SameLength a) (s : Nat) {i : Nat} (h1 : s ≤ i) (h2 : i < s + (lowerText a).length) :
    ∃ s', findSource es s s i = some (s', s') ∧ s' ≤ i := by
  induction hr generalizing a s with
  | nil =>
    rw [eq_comm, List.append_eq_nil_iff] at hl
    simp [hl.1, lowerText] at h2; omega
  | @change p l es _ ih =>
    cases a with
    | nil => simp [lowerText] at h2; omega
    | cons q a =>
      simp only [List.cons_append, List.cons.injEq] at hl
      obtain ⟨rfl, rfl⟩ := hl
      simp only [findSource]
      split
      · exact ⟨s, rfl, h1⟩
      · have h3 := ha p (by simp)
        simp only [h3]
        simp only [lowerText, List.flatMap_cons, List.length_append] at h2
        exact ih rfl (fun q hq => ha q (by simp [hq])) _ (by omega) (by simp only [lowerText]; omega)
  | @keep qs l es hq _ ih =>
    simp only [findSource]
    split
    · exact ⟨s, rfl, h1⟩
    · rename_i h
      have hsame : SameLength qs := fun p hp => by rw [hq p hp]
      rw [hsame.length]
      have h3 : ∃ c, a = qs ++ c := by
        rcases List.append_eq_append_iff.1 hl with ⟨c, rfl, _⟩ | ⟨c, rfl, _⟩
        · exact ⟨c, rfl⟩
        · rw [lowerText_append, List.length_append] at h; omega
      obtain ⟨c, rfl⟩ := h3
      rw [List.append_assoc, List.append_cancel_left_eq] at hl
      rw [lowerText_append, List.length_append] at h2
      exact ih hl (fun q hq => ha q (by simp [hq])) _ (by omega) (by omega)

theorem remapCharIndex_same {a b : List Cased} {es : List Edit} (hr : Records (a ++ b) es) (ha : SameLength a)
    (hw : ∀ p ∈ a ++ b, p.WellFormed) (rest : List Nat) {i : Nat} (hi : i < (upperText a).length)
    (h32 : i < 4294967296) :
    remapCharIndex (lowerText (a ++ b) ++ rest) es i = some (origin (a ++ b) i) := by
  rw [ha.length] at hi
  obtain ⟨s, h1, h2⟩ := findSource_same hr rfl ha 0 (Nat.zero_le _) (by omega : i < 0 + _)
  have h3 : asUInt32 ((s : Int) + ((i : Int) - s)) = i := by
    unfold asUInt32
    rw [show (s : Int) + ((i : Int) - s) = i by omega]
    omega
  simp only [remapCharIndex, h1, h3]
  have := backToLead_leadOf hw [] rest (i := i) (by rw [lowerText_append, List.length_append]; omega)
  simp only [List.nil_append, List.length_nil, Nat.zero_add] at this
  rw [this, origin_eq_leadOf ha hi]

theorem findSource_past {l : List Cased} {es : List Edit} (hr : Records l es) (s d i : Nat)
    (hi : s + (lowerText l).length ≤ i) : findSource es s d i = none := by
  induction hr generalizing s d with
  | nil => rfl
  | @change p l es _ ih =>
    simp only [lowerText, List.flatMap_cons, List.length_append] at hi
    simp only [findSource]
    rw [if_neg (by omega)]
    exact ih _ _ (by simp only [lowerText]; omega)
  | @keep qs l es hq _ ih =>
    rw [lowerText_append, List.length_append] at hi
    simp only [findSource]
    rw [if_neg (by omega)]
    exact ih _ _ (by omega)

theorem remapCharIndices_spec {text : List Nat} {es : List Edit} {f : Nat → Nat} {gs : List HbGlyph}
    (h : ∀ g ∈ gs, remapCharIndex text es g.cluster = some (f g.cluster)) :
    remapCharIndices text es gs = some (gs.map fun g => { g with cluster := f g.cluster }) := by
  induction gs with
  | nil => rfl
  | cons g t ih =>
    simp only [remapCharIndices, h g (by simp), ih fun x hx => h x (by simp [hx]), List.map_cons]

theorem origin_mono (l : List Cased) {i j : Nat} (h : i ≤ j) (hj : j < (upperText l).length) :
    origin l i ≤ origin l j := by
  induction l generalizing i j with
  | nil => simp [upperText] at hj
  | cons p t ih =>
    simp only [upperText, List.flatMap_cons, List.length_append] at hj
    simp only [origin]
    split
    · omega
    · rw [if_neg (by omega)]
      have := @ih (i - p.upper.length) (j - p.upper.length) (by omega) (by simp only [upperText]; omega)
      omega

theorem origin_lt (l : List Cased) (hw : ∀ p ∈ l, p.WellFormed) {i : Nat} (hi : i < (upperText l).length) :
    origin l i < (lowerText l).length := by
  induction l generalizing i with
  | nil => simp [upperText] at hi
  | cons p t ih =>
    simp only [upperText, List.flatMap_cons, List.length_append] at hi
    simp only [origin, lowerText, List.flatMap_cons, List.length_append]
    obtain ⟨b, tl, h1, _⟩ := (hw p (by simp)).shape
    split
    · rw [h1]; simp; omega
    · have := @ih (fun q hq => hw q (by simp [hq])) (i - p.upper.length) (by simp only [upperText]; omega)
      simp only [lowerText] at this
      omega

end RichText
