import Verif.Model.UtfConversion
import Verif.Spec.Utf16
import Verif.Proof.Utf8
import Verif.Proof.Layout
/-! Proofs about the conversion of indices and layouts from UTF-16 to UTF-8. -/
namespace RichText

theorem encode16_append (a b : List Char) : encode16 (a ++ b) = encode16 a ++ encode16 b := by simp [encode16]

theorem char_bounds (c : Char) : c.val.toNat < 0xD800 ∨ (0xDFFF < c.val.toNat ∧ c.val.toNat < 0x110000) := by
  have := c.valid
  simp only [UInt32.isValidChar, Nat.isValidChar] at this
  exact this

/-- `U16_FWD_1` moves over one character. -/
theorem u16Fwd_char (a : List Nat) (c : Char) (b : List Nat) :
    u16Fwd (a ++ (encodeChar16 c ++ b)) a.length = some (a.length + (encodeChar16 c).length) := by
  have hc := char_bounds c
  unfold encodeChar16
  split
  · rename_i h
    have e : (a ++ ([c.val.toNat] ++ b))[a.length]? = some c.val.toNat := by simp
    unfold u16Fwd
    rw [e]
    simp only [List.length_singleton]
    rw [if_neg (by omega)]
  · rename_i h
    have e : (a ++ ([0xD800 + (c.val.toNat - 0x10000) / 0x400, 0xDC00 + (c.val.toNat - 0x10000) % 0x400] ++ b))[a.length]? =
        some (0xD800 + (c.val.toNat - 0x10000) / 0x400) := by simp
    have e2 : (a ++ ([0xD800 + (c.val.toNat - 0x10000) / 0x400, 0xDC00 + (c.val.toNat - 0x10000) % 0x400] ++ b))[a.length + 1]? =
        some (0xDC00 + (c.val.toNat - 0x10000) % 0x400) := by
      rw [List.getElem?_append_right (by omega), Nat.add_sub_cancel_left]; rfl
    unfold u16Fwd
    rw [e, e2]
    simp only [List.length_append, List.length_cons, List.length_nil]
    rw [if_pos (by omega), if_pos (by omega)]

theorem get_behind {α : Type _} (a l b : List α) (i : Nat) (h : i < l.length) :
    (a ++ (l ++ b))[a.length + i]? = l[i]? := by
  rw [List.getElem?_append_right (by omega), Nat.add_sub_cancel_left, List.getElem?_append_left h]

theorem byte_le (k n : Nat) (hk : k < 256) (hn : n < 256) : UInt8.ofNat n ≤ UInt8.ofNat k ↔ n ≤ k := by
  rw [UInt8.le_iff_toNat_le, UInt8.toNat_ofNat_of_lt' hk, UInt8.toNat_ofNat_of_lt' hn]

theorem byte_lt (k n : Nat) (hk : k < 256) (hn : n < 256) : UInt8.ofNat n < UInt8.ofNat k ↔ n < k := by
  rw [UInt8.lt_iff_toNat_lt, UInt8.toNat_ofNat_of_lt' hk, UInt8.toNat_ofNat_of_lt' hn]

theorem byte_eq (k n : Nat) (hk : k < 256) (hn : n < 256) : UInt8.ofNat n = UInt8.ofNat k ↔ n = k := by
  constructor
  · intro h
    have := congrArg UInt8.toNat h
    rwa [UInt8.toNat_ofNat_of_lt' hk, UInt8.toNat_ofNat_of_lt' hn] at this
  · rintro rfl; rfl

theorem isTrail8_ofNat (k : Nat) (h : k < 256) : isTrail8 (UInt8.ofNat k) = decide (0x80 ≤ k ∧ k < 0xC0) := by
  unfold isTrail8
  have h1 : ((0x80 : UInt8) ≤ UInt8.ofNat k) ↔ 0x80 ≤ k := byte_le k 0x80 h (by decide)
  have h2 : (UInt8.ofNat k < (0xC0 : UInt8)) ↔ k < 0xC0 := byte_lt 0xC0 k (by decide) h
  simp only [h1, h2, Bool.decide_and]

theorem validLead3_ofNat (k t : Nat) (h : k < 256) (ht : t < 256) : validLead3 (UInt8.ofNat k) (UInt8.ofNat t) =
    decide (if k = 0xE0 then 0xA0 ≤ t ∧ t < 0xC0 else if k = 0xED then 0x80 ≤ t ∧ t < 0xA0 else 0x80 ≤ t ∧ t < 0xC0) := by
  unfold validLead3
  have h1 : (UInt8.ofNat k = (0xE0 : UInt8)) ↔ k = 0xE0 := byte_eq 0xE0 k (by decide) h
  have h2 : (UInt8.ofNat k = (0xED : UInt8)) ↔ k = 0xED := byte_eq 0xED k (by decide) h
  have h3 : ((0xA0 : UInt8) ≤ UInt8.ofNat t) ↔ 0xA0 ≤ t := byte_le t 0xA0 ht (by decide)
  have h4 : (UInt8.ofNat t < (0xC0 : UInt8)) ↔ t < 0xC0 := byte_lt 0xC0 t (by decide) ht
  have h5 : ((0x80 : UInt8) ≤ UInt8.ofNat t) ↔ 0x80 ≤ t := byte_le t 0x80 ht (by decide)
  have h6 : (UInt8.ofNat t < (0xA0 : UInt8)) ↔ t < 0xA0 := byte_lt 0xA0 t (by decide) ht
  rw [isTrail8_ofNat t ht]
  by_cases c1 : k = 0xE0
  · rw [if_pos (h1.2 c1)]; simp only [h3, h4, if_pos c1, Bool.decide_and]
  · rw [if_neg (fun h => c1 (h1.1 h))]
    by_cases c2 : k = 0xED
    · rw [if_pos (h2.2 c2)]; simp only [h5, h6, if_neg c1, if_pos c2, Bool.decide_and]
    · rw [if_neg (fun h => c2 (h2.1 h))]; simp only [if_neg c1, if_neg c2]

theorem validLead4_ofNat (k t : Nat) (h : k < 256) (ht : t < 256) : validLead4 (UInt8.ofNat k) (UInt8.ofNat t) =
    decide (if k = 0xF0 then 0x90 ≤ t ∧ t < 0xC0 else if k = 0xF4 then 0x80 ≤ t ∧ t < 0x90 else 0x80 ≤ t ∧ t < 0xC0) := by
  unfold validLead4
  have h1 : (UInt8.ofNat k = (0xF0 : UInt8)) ↔ k = 0xF0 := byte_eq 0xF0 k (by decide) h
  have h2 : (UInt8.ofNat k = (0xF4 : UInt8)) ↔ k = 0xF4 := byte_eq 0xF4 k (by decide) h
  have h3 : ((0x90 : UInt8) ≤ UInt8.ofNat t) ↔ 0x90 ≤ t := byte_le t 0x90 ht (by decide)
  have h4 : (UInt8.ofNat t < (0xC0 : UInt8)) ↔ t < 0xC0 := byte_lt 0xC0 t (by decide) ht
  have h5 : ((0x80 : UInt8) ≤ UInt8.ofNat t) ↔ 0x80 ≤ t := byte_le t 0x80 ht (by decide)
  have h6 : (UInt8.ofNat t < (0x90 : UInt8)) ↔ t < 0x90 := byte_lt 0x90 t (by decide) ht
  rw [isTrail8_ofNat t ht]
  by_cases c1 : k = 0xF0
  · rw [if_pos (h1.2 c1)]; simp only [h3, h4, if_pos c1, Bool.decide_and]
  · rw [if_neg (fun h => c1 (h1.1 h))]
    by_cases c2 : k = 0xF4
    · rw [if_pos (h2.2 c2)]; simp only [h5, h6, if_neg c1, if_pos c2, Bool.decide_and]
    · rw [if_neg (fun h => c2 (h2.1 h))]; simp only [if_neg c1, if_neg c2]

/-- One step of `nextTrail8` onto a trail byte. -/
theorem nextTrail8_trail {s : List UInt8} {i k : Nat} (h : s[i + 1]? = some (UInt8.ofNat k)) (h1 : 0x80 ≤ k) (h2 : k < 0xC0) :
    nextTrail8 s i = some (true, i + 1) := by
  have hl : i + 1 < s.length := by
    rcases Nat.lt_or_ge (i + 1) s.length with h3 | h3
    · exact h3
    · rw [List.getElem?_eq_none h3] at h; cases h
  unfold nextTrail8
  rw [if_pos (by omega), h]
  simp only [Option.map_some, isTrail8_ofNat k (by omega)]
  rw [decide_eq_true ⟨h1, h2⟩]

/-- `U8_FWD_1` moves over one character. -/
theorem u8Fwd_char (a : List UInt8) (c : Char) (b : List UInt8) :
    u8Fwd (a ++ (String.utf8EncodeChar c ++ b)) a.length = some (a.length + (String.utf8EncodeChar c).length) := by
  have hc := char_bounds c
  unfold String.utf8EncodeChar
  simp only
  generalize c.val.toNat = n at hc
  have g : ∀ (l : List UInt8) (i : Nat), i < l.length → (a ++ (l ++ b))[a.length + i]? = l[i]? := fun l i h => get_behind a l b i h
  split
  · rename_i h
    have e := g [UInt8.ofNat n] 0 (by simp)
    unfold u8Fwd
    rw [Nat.add_zero a.length] at e
    rw [e]
    have h1 : ((0xC2 : UInt8) ≤ UInt8.ofNat n) ↔ 0xC2 ≤ n := byte_le n 0xC2 (by omega) (by decide)
    simp only [List.getElem?_cons_zero, h1, List.length_singleton]
    rw [if_neg (by omega)]
  · split
    · rename_i h h'
      have e := g [UInt8.ofNat (n / 64 % 32 + 192), UInt8.ofNat (n % 64 + 128)] 0 (by simp)
      have e1 := g [UInt8.ofNat (n / 64 % 32 + 192), UInt8.ofNat (n % 64 + 128)] 1 (by simp)
      unfold u8Fwd
      rw [Nat.add_zero a.length] at e
      rw [e, e1]
      have h1 : ((0xC2 : UInt8) ≤ UInt8.ofNat (n / 64 % 32 + 192)) ↔ 0xC2 ≤ n / 64 % 32 + 192 :=
        byte_le _ 0xC2 (by omega) (by decide)
      have h2 : (UInt8.ofNat (n / 64 % 32 + 192) ≤ (0xF4 : UInt8)) ↔ n / 64 % 32 + 192 ≤ 0xF4 :=
        byte_le 0xF4 _ (by decide) (by omega)
      have h3 : ((0xE0 : UInt8) ≤ UInt8.ofNat (n / 64 % 32 + 192)) ↔ 0xE0 ≤ n / 64 % 32 + 192 :=
        byte_le _ 0xE0 (by omega) (by decide)
      have h4 : (UInt8.ofNat (n / 64 % 32 + 192) < (0xE0 : UInt8)) ↔ n / 64 % 32 + 192 < 0xE0 :=
        byte_lt 0xE0 _ (by decide) (by omega)
      simp only [List.getElem?_cons_zero, List.getElem?_cons_succ, h1, h2, h3, h4, List.length_append, List.length_cons,
        List.length_nil, isTrail8_ofNat _ (show n % 64 + 128 < 256 by omega)]
      rw [if_pos (by omega), if_neg (by omega), if_pos (by omega), if_pos (by simp; omega)]
    · split
      · rename_i h h' h''
        have e := g [UInt8.ofNat (n / 4096 % 16 + 224), UInt8.ofNat (n / 64 % 64 + 128), UInt8.ofNat (n % 64 + 128)] 0 (by simp)
        have e1 := g [UInt8.ofNat (n / 4096 % 16 + 224), UInt8.ofNat (n / 64 % 64 + 128), UInt8.ofNat (n % 64 + 128)] 1 (by simp)
        have e2 := g [UInt8.ofNat (n / 4096 % 16 + 224), UInt8.ofNat (n / 64 % 64 + 128), UInt8.ofNat (n % 64 + 128)] 2 (by simp)
        have t2 := nextTrail8_trail (i := a.length + 1) (k := n % 64 + 128) e2 (by omega) (by omega)
        unfold u8Fwd
        rw [Nat.add_zero a.length] at e
        rw [e, e1, t2]
        have h1 : ((0xC2 : UInt8) ≤ UInt8.ofNat (n / 4096 % 16 + 224)) ↔ 0xC2 ≤ n / 4096 % 16 + 224 :=
          byte_le _ 0xC2 (by omega) (by decide)
        have h2 : (UInt8.ofNat (n / 4096 % 16 + 224) ≤ (0xF4 : UInt8)) ↔ n / 4096 % 16 + 224 ≤ 0xF4 :=
          byte_le 0xF4 _ (by decide) (by omega)
        have h3 : ((0xE0 : UInt8) ≤ UInt8.ofNat (n / 4096 % 16 + 224)) ↔ 0xE0 ≤ n / 4096 % 16 + 224 :=
          byte_le _ 0xE0 (by omega) (by decide)
        have h4 : (UInt8.ofNat (n / 4096 % 16 + 224) < (0xF0 : UInt8)) ↔ n / 4096 % 16 + 224 < 0xF0 :=
          byte_lt 0xF0 _ (by decide) (by omega)
        simp only [List.getElem?_cons_zero, List.getElem?_cons_succ, h1, h2, h3, h4, List.length_append, List.length_cons,
          List.length_nil, validLead3_ofNat _ _ (show n / 4096 % 16 + 224 < 256 by omega) (show n / 64 % 64 + 128 < 256 by omega)]
        rw [if_pos (by omega), if_pos (by omega), if_pos]
        · rfl
        · apply decide_eq_true
          split
          · omega
          · split <;> omega
      · rename_i h h' h''
        have e := g [UInt8.ofNat (n / 262144 % 8 + 240), UInt8.ofNat (n / 4096 % 64 + 128), UInt8.ofNat (n / 64 % 64 + 128),
          UInt8.ofNat (n % 64 + 128)] 0 (by simp)
        have e1 := g [UInt8.ofNat (n / 262144 % 8 + 240), UInt8.ofNat (n / 4096 % 64 + 128), UInt8.ofNat (n / 64 % 64 + 128),
          UInt8.ofNat (n % 64 + 128)] 1 (by simp)
        have e2 := g [UInt8.ofNat (n / 262144 % 8 + 240), UInt8.ofNat (n / 4096 % 64 + 128), UInt8.ofNat (n / 64 % 64 + 128),
          UInt8.ofNat (n % 64 + 128)] 2 (by simp)
        have e3 := g [UInt8.ofNat (n / 262144 % 8 + 240), UInt8.ofNat (n / 4096 % 64 + 128), UInt8.ofNat (n / 64 % 64 + 128),
          UInt8.ofNat (n % 64 + 128)] 3 (by simp)
        have t2 := nextTrail8_trail (i := a.length + 1) (k := n / 64 % 64 + 128) e2 (by omega) (by omega)
        have t3 := nextTrail8_trail (i := a.length + 1 + 1) (k := n % 64 + 128) e3 (by omega) (by omega)
        unfold u8Fwd
        rw [Nat.add_zero a.length] at e
        rw [e, e1, t2]
        have h1 : ((0xC2 : UInt8) ≤ UInt8.ofNat (n / 262144 % 8 + 240)) ↔ 0xC2 ≤ n / 262144 % 8 + 240 :=
          byte_le _ 0xC2 (by omega) (by decide)
        have h2 : (UInt8.ofNat (n / 262144 % 8 + 240) ≤ (0xF4 : UInt8)) ↔ n / 262144 % 8 + 240 ≤ 0xF4 :=
          byte_le 0xF4 _ (by decide) (by omega)
        have h3 : ((0xE0 : UInt8) ≤ UInt8.ofNat (n / 262144 % 8 + 240)) ↔ 0xE0 ≤ n / 262144 % 8 + 240 :=
          byte_le _ 0xE0 (by omega) (by decide)
        have h4 : (UInt8.ofNat (n / 262144 % 8 + 240) < (0xF0 : UInt8)) ↔ n / 262144 % 8 + 240 < 0xF0 :=
          byte_lt 0xF0 _ (by decide) (by omega)
        have h5 : (UInt8.ofNat (n / 262144 % 8 + 240) < (0xE0 : UInt8)) ↔ n / 262144 % 8 + 240 < 0xE0 :=
          byte_lt 0xE0 _ (by decide) (by omega)
        simp only [List.getElem?_cons_zero, List.getElem?_cons_succ, h1, h2, h3, h4, h5, List.length_append, List.length_cons,
          List.length_nil, validLead4_ofNat _ _ (show n / 262144 % 8 + 240 < 256 by omega) (show n / 4096 % 64 + 128 < 256 by omega)]
        rw [if_pos (by omega), if_neg (by omega), if_neg (by omega), if_pos]
        · simp only [Option.bind_some, if_true, t3, Option.map_some]
        · apply decide_eq_true
          split
          · omega
          · split <;> omega

/-! ### The loop -/

theorem encode16_snoc_length (a : List Char) (c : Char) : (encode16 a).length < (encode16 (a ++ [c])).length := by
  rw [encode16_append, List.length_append]
  have : 0 < (encode16 [c]).length := by
    simp only [encode16, List.flatMap_cons, List.flatMap_nil, List.append_nil, encodeChar16]
    split <;> simp
  omega

theorem encode_snoc_length (a : List Char) (c : Char) : (encode a).length < (encode (a ++ [c])).length := by
  rw [encode_append, List.length_append]
  have : 0 < (encode [c]).length := by
    obtain ⟨b, t, h, -⟩ := encodeChar_shape c
    simp only [encode, List.flatMap_cons, List.flatMap_nil, List.append_nil, h, List.length_cons]
    omega
  omega

theorem u16Fwd_text (a : List Char) (c : Char) (b : List Char) :
    u16Fwd (encode16 (a ++ c :: b)) (encode16 a).length = some (encode16 (a ++ [c])).length := by
  have e : encode16 (a ++ c :: b) = encode16 a ++ (encodeChar16 c ++ encode16 b) := by simp [encode16]
  have e' : (encode16 (a ++ [c])).length = (encode16 a).length + (encodeChar16 c).length := by simp [encode16]
  rw [e, e']
  exact u16Fwd_char _ _ _

theorem u8Fwd_text (a : List Char) (c : Char) (b : List Char) :
    u8Fwd (encode (a ++ c :: b)) (encode a).length = some (encode (a ++ [c])).length := by
  have e : encode (a ++ c :: b) = encode a ++ (String.utf8EncodeChar c ++ encode b) := by simp [encode]
  have e' : (encode (a ++ [c])).length = (encode a).length + (String.utf8EncodeChar c).length := by simp [encode]
  rw [e, e']
  exact u8Fwd_char _ _ _

theorem u16Fwd_end (s : List Nat) : u16Fwd s s.length = none := by
  unfold u16Fwd
  rw [List.getElem?_eq_none (Nat.le_refl _)]

theorem u8Fwd_end (s : List UInt8) : u8Fwd s s.length = none := by
  unfold u8Fwd
  rw [List.getElem?_eq_none (Nat.le_refl _)]

section Walk
variable {f g : Nat → Option Nat} {m k : List Char → Nat} {text : List Char}

theorem walk_mono (hm : ∀ a c, m a < m (a ++ [c])) (a t : List Char) : m a ≤ m (a ++ t) := by
  induction t generalizing a with
  | nil => rw [List.append_nil]
  | cons c t ih =>
    have := ih (a ++ [c])
    rw [List.append_assoc] at this
    exact Nat.le_trans (Nat.le_of_lt (hm a c)) this

/-- The loop stops at the first character boundary that is not before the target. -/
theorem walk_to (hf : ∀ a c b, text = a ++ c :: b → f (m a) = some (m (a ++ [c])))
    (hg : ∀ a c b, text = a ++ c :: b → g (k a) = some (k (a ++ [c]))) (hm : ∀ a c, m a < m (a ++ [c])) {target : Nat}
    (mid : List Char) : ∀ (a b : List Char) (n : Nat), text = a ++ (mid ++ b) → target ≤ m (a ++ mid) →
      (mid ≠ [] → m (a ++ mid.dropLast) < target) → target - m a ≤ n →
      walkBoth f g target n (m a) (k a) = some (m (a ++ mid), k (a ++ mid)) := by
  induction mid with
  | nil =>
    intro a b n ht h1 _ _
    rw [List.append_nil] at h1 ⊢
    cases n with
    | zero => rfl
    | succ n => rw [walkBoth, if_neg (by omega)]
  | cons c t ih =>
    intro a b n ht h1 h2 h3
    have h2 := h2 (by simp)
    have hlt : m a < target := Nat.lt_of_le_of_lt (walk_mono hm a _) h2
    cases n with
    | zero => omega
    | succ n =>
      rw [walkBoth, if_pos hlt, hf a c (t ++ b) ht, hg a c (t ++ b) ht]
      have hstep := hm a c
      have e : a ++ c :: t = (a ++ [c]) ++ t := by simp
      simp only
      rw [e] at h1 ⊢
      apply ih (a ++ [c]) b n (by rw [ht]; simp) h1 _ (by omega)
      intro hne
      rw [List.dropLast_cons_of_ne_nil hne] at h2
      simpa using h2

/-- Behind the end of the text, the loop reads outside of it. -/
theorem walk_out (hf : ∀ a c b, text = a ++ c :: b → f (m a) = some (m (a ++ [c])))
    (hg : ∀ a c b, text = a ++ c :: b → g (k a) = some (k (a ++ [c]))) (hm : ∀ a c, m a < m (a ++ [c]))
    (hend : f (m text) = none) {target : Nat} (ht : m text < target) (b : List Char) :
    ∀ (a : List Char) (n : Nat), text = a ++ b → target - m a ≤ n → walkBoth f g target n (m a) (k a) = none := by
  induction b with
  | nil =>
    intro a n hab hn
    rw [List.append_nil] at hab
    subst hab
    cases n with
    | zero => omega
    | succ n => rw [walkBoth, if_pos ht, hend]
  | cons c t ih =>
    intro a n hab hn
    have hlt : m a < target := by
      have := walk_mono hm a (c :: t)
      rw [← hab] at this
      omega
    have hstep := hm a c
    cases n with
    | zero => omega
    | succ n =>
      rw [walkBoth, if_pos hlt, hf a c t hab, hg a c t hab]
      exact ih (a ++ [c]) n (by rw [hab]; simp) (by omega)

end Walk

theorem utf16IndexFrom_to (a mid b : List Char) (target : Nat) (h1 : target ≤ (encode16 (a ++ mid)).length)
    (h2 : mid ≠ [] → (encode16 (a ++ mid.dropLast)).length < target) :
    utf16IndexFrom (encode16 (a ++ (mid ++ b))) (encode (a ++ (mid ++ b))) target (encode16 a).length (encode a).length =
      some ((encode16 (a ++ mid)).length, (encode (a ++ mid)).length) :=
  walk_to (text := a ++ (mid ++ b)) (m := fun l => (encode16 l).length) (k := fun l => (encode l).length)
    (fun a' c b' h => by rw [h]; exact u16Fwd_text a' c b') (fun a' c b' h => by rw [h]; exact u8Fwd_text a' c b')
    encode16_snoc_length mid a b _ rfl h1 h2 (Nat.le_refl _)

theorem utf8IndexFrom_to (a mid b : List Char) (target : Nat) (h1 : target ≤ (encode (a ++ mid)).length)
    (h2 : mid ≠ [] → (encode (a ++ mid.dropLast)).length < target) :
    utf8IndexFrom (encode (a ++ (mid ++ b))) (encode16 (a ++ (mid ++ b))) target (encode a).length (encode16 a).length =
      some ((encode (a ++ mid)).length, (encode16 (a ++ mid)).length) :=
  walk_to (text := a ++ (mid ++ b)) (m := fun l => (encode l).length) (k := fun l => (encode16 l).length)
    (fun a' c b' h => by rw [h]; exact u8Fwd_text a' c b') (fun a' c b' h => by rw [h]; exact u16Fwd_text a' c b')
    encode_snoc_length mid a b _ rfl h1 h2 (Nat.le_refl _)

theorem dropLast_shorter16 {a : List Char} (h : a ≠ []) : (encode16 a.dropLast).length < (encode16 a).length := by
  conv => rhs; rw [← List.dropLast_append_getLast h]
  exact encode16_snoc_length _ _

theorem dropLast_shorter {a : List Char} (h : a ≠ []) : (encode a.dropLast).length < (encode a).length := by
  conv => rhs; rw [← List.dropLast_append_getLast h]
  exact encode_snoc_length _ _

theorem utf16Index_same {text : List Char} {p q : Nat} (h : SamePlace text p q) :
    utf16IndexToUtf8 (encode16 text) (encode text) p = some q := by
  obtain ⟨a, b, rfl, rfl, rfl⟩ := h
  have := utf16IndexFrom_to [] a b (encode16 a).length (Nat.le_refl _) fun h => dropLast_shorter16 h
  simp only [List.nil_append] at this
  unfold utf16IndexToUtf8
  rw [show (0 : Nat) = (encode16 []).length from rfl]
  rw [show utf16IndexFrom (encode16 (a ++ b)) (encode (a ++ b)) (encode16 a).length (encode16 []).length (encode16 []).length =
    _ from this]
  rfl

/-! ### Layouts -/

variable {φ : Type _}

theorem copyPositions_eq (src : Layout φ) (n : Nat) : ∀ (i : Nat) (dst : Layout φ) (rest : List Rat),
    src.pos.drop i = rest → rest.length ≤ n → rest.length % 2 = 0 →
    src.copyPositions n i dst = some { dst with pos := dst.pos ++ rest } := by
  induction n with
  | zero =>
    intro i dst rest hr hn _
    have : rest = [] := List.length_eq_zero_iff.1 (by omega)
    subst this
    simp [Layout.copyPositions]
  | succ n ih =>
    intro i dst rest hr hn h2
    unfold Layout.copyPositions
    match rest, hr, hn, h2 with
    | [], hr, _, _ =>
      have : src.pos.length ≤ i := List.drop_eq_nil_iff.1 hr
      rw [if_neg (by omega)]
      simp
    | [_], _, _, h2 => simp at h2
    | x :: y :: rest, hr, hn, h2 =>
      have h0 : src.pos[i]? = some x := by
        have := congrArg (·[0]?) hr
        simpa [List.getElem?_drop] using this
      have h1 : src.pos[i + 1]? = some y := by
        have := congrArg (·[1]?) hr
        simpa [List.getElem?_drop] using this
      have hlt : i < src.pos.length := by
        rcases Nat.lt_or_ge i src.pos.length with h | h
        · exact h
        · rw [List.getElem?_eq_none h] at h0; cases h0
      have hd : src.pos.drop (i + 2) = rest := by
        rw [← List.drop_drop, hr]; rfl
      rw [if_pos hlt, h0, h1]
      simp only
      rw [ih (i + 2) _ rest hd (by simp at hn; omega) (by simp at h2; omega)]
      simp [Layout.appendGlyphPosition]

theorem convertCharIndices_eq (src : Layout φ) (s : List Nat) (d : List UInt8) (rest : List Nat) :
    ∀ (rest' : List Nat) (i : Nat) (dst : Layout φ), src.charIdx.drop i = rest →
      List.Forall₂ (fun p q => utf16IndexToUtf8 s d p = some q) rest rest' →
      src.convertCharIndices s d rest.length i dst = some { dst with charIdx := dst.charIdx ++ rest' } := by
  induction rest with
  | nil =>
    intro rest' i dst _ hf
    cases hf
    simp [Layout.convertCharIndices]
  | cons p rest ih =>
    intro rest' i dst hr hf
    cases hf with
    | cons hpq hf =>
      rename_i q rest'
      have h0 : src.charIdx[i]? = some p := by
        have := congrArg (·[0]?) hr
        simpa [List.getElem?_drop] using this
      have hd : src.charIdx.drop (i + 1) = rest := by
        rw [← List.drop_drop, hr]; rfl
      rw [List.length_cons, Layout.convertCharIndices, h0]
      simp only [hpq]
      rw [ih rest' (i + 1) _ hd hf]
      simp [Layout.appendCharIndex]

theorem copyGlyphs_eq (src : Layout φ) (gs : List Nat) : ∀ (i : Nat) (dst : Layout φ),
    (∀ j, j < gs.length → src.glyphs[i + j]? = gs[j]?) →
    src.copyGlyphs gs.length i dst = some { dst with glyphs := dst.glyphs ++ gs } := by
  induction gs with
  | nil => intro i dst _; simp [Layout.copyGlyphs]
  | cons g gs ih =>
    intro i dst h
    have h0 := h 0 (by simp)
    rw [Nat.add_zero] at h0
    rw [List.length_cons, Layout.copyGlyphs, h0]
    simp only [List.getElem?_cons_zero]
    rw [ih (i + 1) _ fun j hj => by
      have := h (j + 1) (by simpa using hj)
      rw [show i + 1 + j = i + (j + 1) by omega, this]; rfl]
    simp [Layout.appendGlyph]

/-- `dst` is the converted layout up to some run or line, but all characters and positions are there already. -/
def Ahead (dst D : Layout φ) (chars : List Nat) (pos : List Rat) : Prop :=
  dst = { D with charIdx := chars, pos := pos } ∧ D.pos <+: pos

theorem appendLine_ahead {D D' : Layout φ} {pos : List Rat} (chars : List Nat) (hp : D.pos <+: pos) {h a : Rat}
    (hD : D.appendLine h a = some D') :
    ({ D with charIdx := chars, pos := pos } : Layout φ).appendLine h a = some { D' with charIdx := chars, pos := pos } ∧
      D'.pos = D.pos := by
  unfold Layout.appendLine at hD ⊢
  simp only at hD ⊢
  cases hr : D.runs.getLast? with
  | none => rw [hr] at hD; cases hD
  | some r =>
    rw [hr] at hD
    simp only at hD ⊢
    cases hw : D.pos[2 * (r.glyphEnd + (D.runs.length - 1))]? with
    | none => rw [hw] at hD; cases hD
    | some w =>
      rw [hw] at hD
      simp only [Option.some.injEq] at hD
      have hlt : 2 * (r.glyphEnd + (D.runs.length - 1)) < D.pos.length := by
        rcases Nat.lt_or_ge (2 * (r.glyphEnd + (D.runs.length - 1))) D.pos.length with h | h
        · exact h
        · rw [List.getElem?_eq_none h] at hw; cases hw
      obtain ⟨t, rfl⟩ := hp
      rw [List.getElem?_append_left hlt, hw]
      subst hD
      exact ⟨rfl, rfl⟩

/-- One run. -/
theorem convertRun_ahead {text : List Char} {src : Layout φ} {ls : List (LineSpec φ)} {y : Rat} (h : Stores src ls [] y)
    {k : Nat} {r r' : RunSpec φ} (hk : (allRuns ls)[k]? = some r) (hr : SameRun text r r') {dst D : Layout φ}
    {ls' : List (LineSpec φ)} {rs' : List (RunSpec φ)} {y' : Rat} {chars : List Nat} {pos : List Rat}
    (hD : Stores D ls' rs' y') (hA : Ahead dst D chars pos) (hlen : (allRuns ls' ++ rs').length = k)
    (hpos : posOf (allRuns ls' ++ (rs' ++ [r'])) <+: pos) :
    ∃ dst' D', src.convertRun (encode16 text) (encode text) k dst = some dst' ∧ Stores D' ls' (rs' ++ [r']) y' ∧
      Ahead dst' D' chars pos := by
  have hk0 : (allRuns ls ++ [])[k]? = some r := by rw [List.append_nil]; exact hk
  have hrun := h.runs k r hk0
  have hfirst := h.firstGlyph hk0
  simp only [List.append_nil] at hrun hfirst
  have hcount : glyphCount ((allRuns ls).take (k + 1)) = glyphCount ((allRuns ls).take k) + r.glyphs.length :=
    glyphCount_take_succ hk
  have hids : r'.glyphs.map (·.id) = r.glyphs.map (·.id) := by
    have := hr.glyphs
    generalize r.glyphs = a at this
    generalize r'.glyphs = b at this
    induction this with
    | nil => rfl
    | cons h1 _ ih => simp [h1.id, ih]
  have hcopy := copyGlyphs_eq src (r.glyphs.map (·.id)) (glyphCount ((allRuns ls).take k)) dst fun j hj => by
    rw [h.glyphs, List.append_nil, glyphs_get (·.id) hk j (by simpa using hj), List.getElem?_map]
  rw [List.length_map] at hcopy
  obtain ⟨hdst, hpre⟩ := hA
  have hstore := hD.addRun r'
  refine ⟨_, _, ?_, hstore, rfl, ?_⟩
  · unfold Layout.convertRun
    rw [hrun, hfirst]
    simp only
    rw [show glyphCount ((allRuns ls).take (k + 1)) - glyphCount ((allRuns ls).take k) = r.glyphs.length by omega, hcopy]
    simp only [Option.bind_some, utf16Index_same hr.separator, utf16Index_same hr.charEnd, utf16Index_same hr.charStart]
    have hoff : u32 (((r'.charEnd + r'.charEndOffset : Nat) : Int) - (r'.charEnd : Int)) % 256 = r'.charEndOffset := by
      have hb := hr.byte
      unfold u32
      rw [show (((r'.charEnd + r'.charEndOffset : Nat) : Int) - (r'.charEnd : Int)) = (r'.charEndOffset : Int) by push_cast; ring]
      omega
    rw [hoff]
    have hl : D.runs.length = k := by rw [hD.runCount, hlen]
    subst hdst
    simp only [Layout.appendRun, Layout.setRunCharEndOffset]
    rw [List.getElem?_append_right (by omega), hl, Nat.sub_self]
    simp only [List.getElem?_cons_zero, Option.some.injEq, Layout.mk.injEq, and_true, true_and]
    rw [List.set_append_right _ _ (by omega), hl, Nat.sub_self, List.set_cons_zero, hids, hr.font, hr.rtl]
    exact ⟨rfl, rfl⟩
  · rw [hD.pos] at hpre ⊢
    refine List.IsPrefix.trans ?_ hpos
    simp [posOf]

/-- The runs of a line. -/
theorem convertLineRuns_ahead {text : List Char} {src : Layout φ} {ls : List (LineSpec φ)} {y : Rat} (h : Stores src ls [] y)
    {ls' : List (LineSpec φ)} {y' : Rat} {chars : List Nat} {pos : List Rat} {todo todo' : List (RunSpec φ)}
    (hsame : List.Forall₂ (SameRun text) todo todo') : ∀ (k : Nat) (dst D : Layout φ) (rs' : List (RunSpec φ)),
      (∀ j r, todo[j]? = some r → (allRuns ls)[k + j]? = some r) → Stores D ls' rs' y' → Ahead dst D chars pos →
      (allRuns ls' ++ rs').length = k → posOf (allRuns ls' ++ (rs' ++ todo')) <+: pos →
      ∃ dst' D', src.convertLineRuns (encode16 text) (encode text) todo.length k dst = some dst' ∧
        Stores D' ls' (rs' ++ todo') y' ∧ Ahead dst' D' chars pos := by
  induction hsame with
  | nil =>
    intro k dst D rs' _ hD hA _ _
    exact ⟨dst, D, rfl, by rw [List.append_nil]; exact hD, hA⟩
  | @cons r r' todo todo' hr hrest ih =>
    intro k dst D rs' htodo hD hA hlen hpos
    have hk := htodo 0 r rfl
    rw [Nat.add_zero] at hk
    obtain ⟨d1, D1, e1, hD1, hA1⟩ := convertRun_ahead h hk hr hD hA hlen
      (List.IsPrefix.trans (by
        simp only [posOf, List.flatMap_append, List.flatMap_cons, List.flatMap_nil, List.append_nil]
        refine ⟨todo'.flatMap fun r => r.glyphs.flatMap (fun g => [g.x, g.y]) ++ [r.endX, r.endY], ?_⟩
        simp) hpos)
    obtain ⟨d2, D2, e2, hD2, hA2⟩ := ih (k + 1) d1 D1 (rs' ++ [r']) (fun j r hj => by
        have := htodo (j + 1) r hj
        rwa [show k + 1 + j = k + (j + 1) by omega]) hD1 hA1 (by simp at hlen ⊢; omega) (by simpa using hpos)
    refine ⟨d2, D2, ?_, by simpa using hD2, hA2⟩
    rw [List.length_cons, Layout.convertLineRuns, e1]
    exact e2

theorem Stores.lineHeight_eq {L : Layout φ} {ls : List (LineSpec φ)} {rs : List (RunSpec φ)} {y : Rat} (h : Stores L ls rs y)
    {i : Nat} {l : LineSpec φ} (hi : ls[i]? = some l) : L.lineHeight i = some l.height := by
  have h1 := h.lines i l hi
  have hs := totalHeight_take_succ hi
  unfold Layout.lineHeight
  cases i with
  | zero =>
    rw [if_pos rfl, h1]
    simp only [Option.map_some, hs]
    simp [totalHeight]
  | succ i =>
    rw [if_neg (by omega), h1, Nat.add_sub_cancel]
    have hlt : i < ls.length := by
      rcases Nat.lt_or_ge (i + 1) ls.length with h2 | h2
      · omega
      · rw [List.getElem?_eq_none h2] at hi; cases hi
    rw [h.lines i _ (List.getElem?_eq_getElem hlt)]
    simp only [hs, Option.some.injEq]
    ring

theorem sameLines_runs {text : List Char} {ls ls' : List (LineSpec φ)} (h : List.Forall₂ (SameLine text) ls ls') :
    List.Forall₂ (SameRun text) (allRuns ls) (allRuns ls') := by
  induction h with
  | nil => exact .nil
  | @cons l l' ls ls' h1 _ ih =>
    rw [show allRuns (l :: ls) = l.runs ++ allRuns ls from rfl, show allRuns (l' :: ls') = l'.runs ++ allRuns ls' from rfl]
    exact List.rel_append h1.runs ih

/-- The lines. -/
theorem convertRuns_ahead {text : List Char} {src : Layout φ} {ls ls' : List (LineSpec φ)} {y y' : Rat} (h : Stores src ls [] y)
    {chars : List Nat} {todo todo' : List (LineSpec φ)} (hsame : List.Forall₂ (SameLine text) todo todo') :
    ∀ (done done' : List (LineSpec φ)) (dst D : Layout φ), ls = done ++ todo → ls' = done' ++ todo' →
      List.Forall₂ (SameLine text) done done' → (∀ l ∈ todo, l.runs ≠ []) → Stores D done' [] y' →
      Ahead dst D chars (posOf (allRuns ls')) →
      ∃ dst' D', src.convertRuns (encode16 text) (encode text) todo.length done.length (allRuns done).length dst = some dst' ∧
        Stores D' ls' [] y' ∧ Ahead dst' D' chars (posOf (allRuns ls')) := by
  induction hsame with
  | nil =>
    intro done done' dst D h1 h2 _ _ hD hA
    rw [List.append_nil] at h2
    exact ⟨dst, D, rfl, by rw [h2]; exact hD, hA⟩
  | @cons l l' todo todo' hl hrest ih =>
    intro done done' dst D h1 h2 hdone hne hD hA
    have hi : ls[done.length]? = some l := by rw [h1]; simp
    have hline := h.lines _ _ hi
    have hheight := h.lineHeight_eq hi
    have htake : ls.take (done.length + 1) = done ++ [l] := by
      rw [h1, List.take_length_add_append]; rfl
    rw [htake, allRuns_append, allRuns_single, List.length_append] at hline
    have hlen : (allRuns done').length = (allRuns done).length := (sameLines_runs hdone).length_eq.symm
    obtain ⟨d1, D1, e1, hD1, hA1⟩ := convertLineRuns_ahead h hl.runs (allRuns done).length dst D []
      (fun j r hj => by
        have hj' : j < l.runs.length := by
          rcases Nat.lt_or_ge j l.runs.length with h | h
          · exact h
          · rw [List.getElem?_eq_none h] at hj; cases hj
        rw [h1, allRuns_append, List.getElem?_append_right (by omega), Nat.add_sub_cancel_left,
          show allRuns (l :: todo) = l.runs ++ allRuns todo from rfl, List.getElem?_append_left hj', hj]) hD hA
      (by rw [List.append_nil, hlen])
      (by
        rw [h2, allRuns_append, show allRuns (l' :: todo') = l'.runs ++ allRuns todo' from rfl, List.nil_append]
        simp only [posOf, List.flatMap_append, ← List.append_assoc]
        exact List.prefix_append _ _)
    rw [List.nil_append] at hD1
    have hne' : l'.runs ≠ [] := by
      intro h0
      have := hl.runs
      rw [h0] at this
      exact hne l (by simp) (List.forall₂_nil_right_iff.1 this)
    obtain ⟨D2, e2, hD2⟩ := appendLine_stores hD1 hne' l.height l.ascent
    have e3 := appendLine_ahead chars hA1.2 e2
    rw [← hA1.1] at e3
    obtain ⟨d3, D3, e4, hD3, hA3⟩ := ih (done ++ [l]) (done' ++ [⟨l'.runs, l.height, l.ascent⟩]) _ D2 (by rw [h1]; simp)
      (by
        rw [h2]
        have : l' = ⟨l'.runs, l.height, l.ascent⟩ := by rw [← hl.height, ← hl.ascent]
        conv => lhs; rw [this]
        simp)
      (List.rel_append hdone (.cons ⟨hl.runs, rfl, rfl⟩ .nil)) (fun l hl => hne l (by simp [hl])) hD2
      ⟨rfl, by rw [e3.2]; exact hA1.2⟩
    refine ⟨d3, D3, ?_, hD3, hA3⟩
    rw [List.length_cons, Layout.convertRuns, hline, hheight]
    simp only
    rw [Nat.add_sub_cancel_left, e1, Option.bind_some, e3.1, Option.bind_some, Nat.max_eq_right (by omega)]
    rw [allRuns_append, allRuns_single, List.length_append, List.length_append] at e4
    exact e4

theorem sameRuns_chars {text : List Char} {rs rs' : List (RunSpec φ)} (h : List.Forall₂ (SameRun text) rs rs') :
    List.Forall₂ (SamePlace text) ((rs.flatMap (·.glyphs)).map (·.char)) ((rs'.flatMap (·.glyphs)).map (·.char)) := by
  induction h with
  | nil => exact .nil
  | @cons r r' rs rs' h1 _ ih =>
    simp only [List.flatMap_cons, List.map_append]
    refine List.rel_append ?_ ih
    have := h1.glyphs
    rw [List.forall₂_map_left_iff, List.forall₂_map_right_iff]
    exact this.imp fun _ _ h => h.char

theorem sameRuns_pos {text : List Char} {rs rs' : List (RunSpec φ)} (h : List.Forall₂ (SameRun text) rs rs') :
    posOf rs' = posOf rs := by
  induction h with
  | nil => rfl
  | @cons r r' rs rs' h1 _ ih =>
    simp only [posOf, List.flatMap_cons] at ih ⊢
    rw [ih, h1.endX, h1.endY]
    congr 2
    have := h1.glyphs
    generalize r.glyphs = a at this
    generalize r'.glyphs = b at this
    induction this with
    | nil => rfl
    | cons h2 _ ih => simp [h2.x, h2.y, ih]

/-- The whole layout. -/
theorem convertToUtf8_stores {text : List Char} {src : Layout φ} {ls ls' : List (LineSpec φ)} {y : Rat} (h : Stores src ls [] y)
    (hne : ∀ l ∈ ls, l.runs ≠ []) (hsame : List.Forall₂ (SameLine text) ls ls') (result : Layout φ) :
    ∃ dst, src.convertToUtf8 (encode16 text) (encode text) result = some dst ∧ Stores dst ls' [] y := by
  have hruns := sameLines_runs hsame
  have hsp : src.pos = posOf (allRuns ls') := by rw [sameRuns_pos hruns, h.pos, List.append_nil]
  have e1 := copyPositions_eq src src.pos.length 0 result.clear src.pos (by simp) (Nat.le_refl _) (by
    rw [h.pos_length]; omega)
  have hchars := sameRuns_chars hruns
  have hsc : src.charIdx = ((allRuns ls).flatMap (·.glyphs)).map (·.char) := by rw [h.charIdx, List.append_nil]
  have e2 := convertCharIndices_eq src (encode16 text) (encode text) _ _ 0
    { result.clear with pos := result.clear.pos ++ src.pos } (by simpa using hsc) (hchars.imp fun _ _ h => utf16Index_same h)
  have hlen : src.glyphs.length = (((allRuns ls).flatMap (·.glyphs)).map (·.char)).length := by
    rw [h.glyphs, List.append_nil]; simp
  rw [← hlen] at e2
  have hD : Stores result.clear ([] : List (LineSpec φ)) [] result.startY :=
    ⟨rfl, rfl, rfl, rfl, by simp [allRuns], rfl, by simp, rfl⟩
  obtain ⟨dst, D, e3, hD3, hA⟩ := convertRuns_ahead (ls' := ls') h hsame [] [] _ _ rfl rfl .nil hne hD
    (chars := ((allRuns ls').flatMap (·.glyphs)).map (·.char)) ⟨rfl, by simp [Layout.clear]⟩
  refine ⟨dst.setTextStartY src.startY, ?_, ?_⟩
  · clear hA hD3
    unfold Layout.convertToUtf8
    rw [e1, Option.bind_some, e2, Option.bind_some]
    rw [h.lineCount]
    rw [← hsp] at e3
    exact congrArg (Option.map fun d => d.setTextStartY src.startY) e3
  · obtain ⟨rfl, -⟩ := hA
    have hc := hD3.charIdx
    have hp := hD3.pos
    rw [List.append_nil] at hc hp
    exact ⟨hD3.glyphs, by simp [Layout.setTextStartY], by simp [Layout.setTextStartY], hD3.runCount, hD3.runs, hD3.lineCount,
      hD3.lines, h.startY⟩

end RichText
