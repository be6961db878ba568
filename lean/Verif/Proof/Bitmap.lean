import Verif.Spec.Bitmap
/-!
Proofs about drawing into a bitmap.
-/
namespace RichText

theorem asUInt32_nat {n : Nat} (h : n < 4294967296) : asUInt32 (n : Int) = n := by unfold asUInt32; omega

/-- Which places of a row-major array are in a part of a row. -/
theorem row_iff {W a m c px py : Nat} (hm : a + m ≤ W) (hx : px < W) :
    (c * W + a ≤ py * W + px ∧ py * W + px < c * W + a + m) ↔ (py = c ∧ a ≤ px ∧ px < a + m) := by
  constructor
  · rintro ⟨h1, h2⟩
    have : py = c := by
      rcases Nat.lt_trichotomy py c with h | h | h
      · have := Nat.mul_le_mul_right W (show py + 1 ≤ c from h)
        rw [Nat.succ_mul] at this; omega
      · exact h
      · have := Nat.mul_le_mul_right W (show c + 1 ≤ py from h)
        rw [Nat.succ_mul] at this; omega
    subst this
    omega
  · rintro ⟨rfl, h1, h2⟩; omega

theorem place_lt {W H px py : Nat} (hx : px < W) (hy : py < H) : py * W + px < W * H := by
  have := Nat.mul_le_mul_right W (show py + 1 ≤ H from hy)
  rw [Nat.succ_mul, Nat.mul_comm H W] at this
  omega

theorem writeAt_spec {data vals : List Nat} {p : Nat} (h : vals = [] ∨ p + vals.length ≤ data.length) :
    ∃ d, writeAt data p vals = some d ∧ d.length = data.length ∧
      ∀ j, d[j]? = if p ≤ j ∧ j < p + vals.length then vals[j - p]? else data[j]? := by
  unfold writeAt
  by_cases h0 : vals = []
  · subst h0
    refine ⟨data, by simp, rfl, fun j => ?_⟩
    rw [if_neg (by simp)]
  · have h := h.resolve_left h0
    rw [if_neg h0, if_pos h]
    refine ⟨_, rfl, by simp; omega, fun j => ?_⟩
    by_cases hj : j < p
    · rw [List.append_assoc, List.getElem?_append_left (by simp; omega), if_neg (by omega), List.getElem?_take_of_lt hj]
    · by_cases hj2 : j < p + vals.length
      · rw [if_pos ⟨by omega, hj2⟩, List.append_assoc, List.getElem?_append_right (by simp; omega)]
        rw [List.getElem?_append_left (by simp; omega)]
        congr 1
        simp; omega
      · rw [if_neg (by omega), List.getElem?_append_right (by simp; omega), List.getElem?_drop]
        congr 1
        simp; omega

/-- Rows of the same width drawn one below the other. -/
theorem fillRows_spec {W H v : Nat} {x w : Nat} (hx : x + w ≤ W) {n y : Nat} (hn : w = 0 ∨ y + n ≤ H) {data : List Nat}
    (hd : data.length = W * H) :
    ∃ d, fillRows w W v n (y * W + x) data = some d ∧ d.length = W * H ∧
      ∀ px py, px < W → py < H → d[py * W + px]? =
        if y ≤ py ∧ py < y + n ∧ x ≤ px ∧ px < x + w then some v else data[py * W + px]? := by
  induction n generalizing y data with
  | zero => exact ⟨data, rfl, hd, fun px py _ _ => by rw [if_neg (by omega)]⟩
  | succ n ih =>
    obtain ⟨d, h1, h2, h3⟩ := writeAt_spec (data := data) (vals := List.replicate w v) (p := y * W + x) (by
      rcases hn with rfl | hn
      · exact .inl rfl
      · right
        rw [List.length_replicate, hd]
        have := Nat.mul_le_mul_right W (show y + 1 ≤ H by omega)
        rw [Nat.succ_mul, Nat.mul_comm H W] at this
        omega)
    obtain ⟨d', h4, h5, h6⟩ := ih (y := y + 1) (by omega) (data := d) (by omega)
    refine ⟨d', ?_, h5, ?_⟩
    · simp only [fillRows, h1, Option.bind_some]
      rw [show y * W + x + W = (y + 1) * W + x by rw [Nat.succ_mul]; omega]
      exact h4
    · intro px py hpx hpy
      rw [h6 px py hpx hpy, h3]
      simp only [List.length_replicate, row_iff hx hpx]
      by_cases hrow : py = y
      · subst hrow
        rw [if_neg (by omega)]
        by_cases hc : x ≤ px ∧ px < x + w
        · rw [if_pos ⟨rfl, hc⟩, if_pos (by omega), List.getElem?_replicate, if_pos (by omega)]
        · rw [if_neg (by omega), if_neg (by omega)]
      · rw [if_neg (c := py = y ∧ _) (by omega)]
        congr 1
        simp only [eq_iff_iff]
        omega

theorem copyRows_spec {W H x w sw sh : Nat} (hx : x + w ≤ W) (hw : w ≤ sw) {src : List Nat} (hs : src.length = sw * sh)
    {n y k : Nat} (hn : w = 0 ∨ (y + n ≤ H ∧ k + n ≤ sh)) {data : List Nat} (hd : data.length = W * H) :
    ∃ d, copyRows src w sw W n (y * W + x) (k * sw) data = some d ∧ d.length = W * H ∧
      ∀ px py, px < W → py < H → d[py * W + px]? =
        if y ≤ py ∧ py < y + n ∧ x ≤ px ∧ px < x + w then src[(k + (py - y)) * sw + (px - x)]? else data[py * W + px]? := by
  induction n generalizing y k data with
  | zero => exact ⟨data, rfl, hd, fun px py _ _ => by rw [if_neg (by omega)]⟩
  | succ n ih =>
    have hq : w = 0 ∨ k * sw + w ≤ src.length := by
      rcases hn with h | ⟨_, h⟩
      · exact .inl h
      · right
        have := Nat.mul_le_mul_right sw (show k + 1 ≤ sh by omega)
        rw [Nat.succ_mul, Nat.mul_comm sh sw] at this
        omega
    have hlen : ((src.drop (k * sw)).take w).length = w := by
      rw [List.length_take, List.length_drop]; omega
    obtain ⟨d, h1, h2, h3⟩ := writeAt_spec (data := data) (vals := (src.drop (k * sw)).take w) (p := y * W + x) (by
      rcases hn with rfl | ⟨hn, _⟩
      · exact .inl (by simp)
      · right
        rw [hlen, hd]
        have := Nat.mul_le_mul_right W (show y + 1 ≤ H by omega)
        rw [Nat.succ_mul, Nat.mul_comm H W] at this
        omega)
    obtain ⟨d', h4, h5, h6⟩ := ih (y := y + 1) (k := k + 1) (by omega) (data := d) (by omega)
    refine ⟨d', ?_, h5, ?_⟩
    · simp only [copyRows, copyAt, if_pos hq, h1, Option.bind_some]
      rw [show y * W + x + W = (y + 1) * W + x by rw [Nat.succ_mul]; omega,
        show k * sw + sw = (k + 1) * sw by rw [Nat.succ_mul]]
      exact h4
    · intro px py hpx hpy
      rw [h6 px py hpx hpy, h3]
      simp only [hlen, row_iff hx hpx]
      by_cases hrow : py = y
      · subst hrow
        rw [if_neg (by omega)]
        by_cases hc : x ≤ px ∧ px < x + w
        · rw [if_pos ⟨rfl, hc⟩, if_pos (by omega), List.getElem?_take_of_lt (by omega), List.getElem?_drop]
          congr 1
          rw [Nat.sub_self, Nat.add_zero]; omega
        · rw [if_neg (by omega), if_neg (by omega)]
      · rw [if_neg (c := py = y ∧ _) (by omega)]
        by_cases hc : y + 1 ≤ py ∧ py < y + 1 + n ∧ x ≤ px ∧ px < x + w
        · rw [if_pos hc, if_pos (by omega)]
          rw [show k + 1 + (py - (y + 1)) = k + (py - y) by omega]
        · rw [if_neg hc, if_neg (by omega)]

theorem Bitmap.OK.pixel_eq {b : Bitmap} {px py : Nat} (hx : px < b.width) (hy : py < b.height) :
    b.pixel px py = b.data[py * b.width + px]? := if_pos ⟨hx, hy⟩

theorem Bitmap.fillRect_spec {b : Bitmap} (hb : b.OK) {x y : Nat} {w h v : Nat} (hx : x ≤ b.width)
    (hy : y + h < 4294967296) :
    ∃ b', b.fillRect x y w h v = some b' ∧ Drawn b b' x y w h fun _ _ => some v := by
  have hb' := hb
  obtain ⟨h1, h2, h3, h4⟩ := hb
  have e1 : (max 0 (x : Int)).toNat = x := by omega
  have e2 : (max 0 (y : Int)).toNat = y := by omega
  have e3 : asUInt32 ((b.width : Int) - x) = b.width - x := by
    rw [show (b.width : Int) - x = ((b.width - x : Nat) : Int) by omega]; exact asUInt32_nat (by omega)
  have e4 : asUInt32 ((y : Int) + h) = y + h := by
    rw [show (y : Int) + h = ((y + h : Nat) : Int) by omega]; exact asUInt32_nat hy
  unfold Bitmap.fillRect
  simp only [e1, e2, e3, e4]
  by_cases hH : b.height ≤ y
  · rw [show min (y + h) b.height - y = 0 by omega]
    refine ⟨b, rfl, rfl, rfl, hb', ?_⟩
    intro px py hpx hpy
    rw [if_neg (by unfold InRect; omega)]
  · have e5 : asUInt32 ((y : Int) * b.width + x) = y * b.width + x := by
      rw [show (y : Int) * b.width + x = ((y * b.width + x : Nat) : Int) by push_cast; rfl]
      have := Nat.mul_le_mul_right b.width (show y + 1 ≤ b.height by omega)
      rw [Nat.succ_mul, Nat.mul_comm b.height] at this
      exact asUInt32_nat (by omega)
    rw [e5]
    obtain ⟨d, h5, h6, h7⟩ := fillRows_spec (W := b.width) (H := b.height) (v := v) (x := x) (w := min w (b.width - x))
      (by omega) (n := min (y + h) b.height - y) (y := y) (by omega) h1
    rw [h5]
    refine ⟨{ b with data := d }, rfl, rfl, rfl, ⟨h6, h2, h3, h4⟩, ?_⟩
    intro px py hpx hpy
    rw [Bitmap.OK.pixel_eq (b := { b with data := d }) hpx hpy, Bitmap.OK.pixel_eq hpx hpy]
    rw [h7 px py hpx hpy]
    congr 1
    simp only [eq_iff_iff, InRect]
    omega

theorem Bitmap.blit_spec {b src : Bitmap} (hb : b.OK) (hs : src.OK) {x y : Nat} (hx : x ≤ b.width)
    (hy : y + src.height < 4294967296) :
    ∃ b', b.blit src x y = some b' ∧
      Drawn b b' x y src.width src.height fun px py => src.pixel (px - x) (py - y) := by
  have hb' := hb
  obtain ⟨h1, h2, h3, h4⟩ := hb
  have e1 : (max 0 (x : Int)).toNat = x := by omega
  have e2 : (max 0 (y : Int)).toNat = y := by omega
  have e3 : asUInt32 ((b.width : Int) - x) = b.width - x := by
    rw [show (b.width : Int) - x = ((b.width - x : Nat) : Int) by omega]; exact asUInt32_nat (by omega)
  have e4 : asUInt32 ((y : Int) + src.height) = y + src.height := by
    rw [show (y : Int) + src.height = ((y + src.height : Nat) : Int) by omega]; exact asUInt32_nat hy
  unfold Bitmap.blit
  simp only [e1, e2, e3, e4]
  by_cases hH : b.height ≤ y
  · rw [show min (y + src.height) b.height - y = 0 by omega]
    refine ⟨b, rfl, rfl, rfl, hb', ?_⟩
    intro px py hpx hpy
    rw [if_neg (by unfold InRect; omega)]
  · have e5 : asUInt32 ((y : Int) * b.width + x) = y * b.width + x := by
      rw [show (y : Int) * b.width + x = ((y * b.width + x : Nat) : Int) by push_cast; rfl]
      have := Nat.mul_le_mul_right b.width (show y + 1 ≤ b.height by omega)
      rw [Nat.succ_mul, Nat.mul_comm b.height] at this
      exact asUInt32_nat (by omega)
    rw [e5]
    obtain ⟨d, h5, h6, h7⟩ := copyRows_spec (W := b.width) (H := b.height) (x := x) (w := min src.width (b.width - x))
      (sw := src.width) (sh := src.height) (by omega) (by omega) hs.length
      (n := min (y + src.height) b.height - y) (y := y) (k := 0) (by omega) h1
    rw [Nat.zero_mul] at h5
    rw [h5]
    refine ⟨{ b with data := d }, rfl, rfl, rfl, ⟨h6, h2, h3, h4⟩, ?_⟩
    intro px py hpx hpy
    rw [Bitmap.OK.pixel_eq (b := { b with data := d }) hpx hpy, Bitmap.OK.pixel_eq hpx hpy]
    rw [h7 px py hpx hpy]
    by_cases hc : InRect x y src.width src.height px py
    · have hc' := hc
      simp only [InRect] at hc'
      rw [if_pos hc, if_pos (by omega), Bitmap.OK.pixel_eq (b := src) (by omega) (by omega), Nat.zero_add]
    · have hc' := hc
      simp only [InRect] at hc'
      rw [if_neg hc, if_neg (by omega)]

/-! ### Blending -/

variable {op : Nat → Nat → Option Nat}

theorem pixelAt_nat {data : List Nat} {W x y : Nat} (h : y * W + x < 4294967296) (hx : x < 4294967296) (hy : y < 4294967296) :
    pixelAt data W x y = data[y * W + x]? := by
  unfold pixelAt
  rw [asUInt32_nat hx, asUInt32_nat hy]
  rw [show (((y : Nat) : Int) * (W : Int) + ((x : Nat) : Int)) = ((y * W + x : Nat) : Int) by push_cast; rfl, asUInt32_nat h]

theorem setPixelAt_nat {data : List Nat} {W x y v : Nat} (h : y * W + x < data.length) (hl : data.length < 4294967296)
    (hx : x < 4294967296) (hy : y < 4294967296) :
    setPixelAt data W x y v = some (data.set (y * W + x) v) := by
  unfold setPixelAt
  rw [asUInt32_nat hx, asUInt32_nat hy]
  rw [show (((y : Nat) : Int) * (W : Int) + ((x : Nat) : Int)) = ((y * W + x : Nat) : Int) by push_cast; rfl,
    asUInt32_nat (by omega), if_pos h]

theorem blendCols_spec (hop : ∀ s t, (op s t).isSome) {src : Bitmap} (hs : src.OK) {W H : Nat} (hsize : W * H < 2 ^ 31)
    (hW : W < 2 ^ 31) (hH : H < 2 ^ 31)
    {x y : Int} {c q : Nat} (hc : c < H) (hq : q < src.height) (hcq : (c : Int) - y = q) {n a p : Nat}
    (hap : (a : Int) - x = p) (ha : a + n ≤ W) (hp : p + n ≤ src.width) {data : List Nat} (hd : data.length = W * H) :
    ∃ d, blendCols op src W x y c n a data = some d ∧ d.length = W * H ∧
      ∀ px py, px < W → py < H → d[py * W + px]? =
        if py = c ∧ a ≤ px ∧ px < a + n then
          (src.pixel (p + (px - a)) q).bind fun s => (data[py * W + px]?).bind fun t => op s t
        else data[py * W + px]? := by
  induction n generalizing a p data with
  | zero => exact ⟨data, rfl, hd, fun px py _ _ => by rw [if_neg (by omega)]⟩
  | succ n ih =>
    have hlt := place_lt (show a < W by omega) hc
    have hlt2 := place_lt (show p < src.width by omega) hq
    have h2 := hs.size
    have h3 := hs.length
    have h4 := hs.width
    have h5 := hs.height
    simp only [blendCols, hap, hcq]
    rw [pixelAt_nat (by omega) (by omega) (by omega), pixelAt_nat (by omega) (by omega) (by omega)]
    obtain ⟨s, hs1⟩ : ∃ s, src.data[q * src.width + p]? = some s := ⟨_, List.getElem?_eq_getElem (by omega)⟩
    obtain ⟨t, ht1⟩ : ∃ t, data[c * W + a]? = some t := ⟨_, List.getElem?_eq_getElem (by omega)⟩
    obtain ⟨v, hv⟩ := Option.isSome_iff_exists.1 (hop s t)
    rw [hs1, ht1]
    simp only [Option.bind_some, hv]
    rw [setPixelAt_nat (by omega) (by omega) (by omega) (by omega), Option.bind_some]
    obtain ⟨d, h6, h7, h8⟩ := ih (a := a + 1) (p := p + 1) (by push_cast; omega) (by omega) (by omega)
      (data := data.set (c * W + a) v) (by simpa using hd)
    refine ⟨d, ?_, h7, ?_⟩
    · rw [show ((a : Int) + 1) = ((a + 1 : Nat) : Int) by push_cast; rfl]; exact h6
    · intro px py hpx hpy
      rw [h8 px py hpx hpy]
      have hiff := row_iff (W := W) (a := a) (m := 1) (c := c) (px := px) (py := py) (by omega) hpx
      by_cases he : py = c ∧ px = a
      · obtain ⟨rfl, rfl⟩ := he
        rw [if_neg (by omega), if_pos (by omega), List.getElem?_set_self (by omega)]
        rw [Nat.sub_self, Nat.add_zero, Bitmap.OK.pixel_eq (by omega) hq, hs1, ht1]
        simp [hv]
      · have hne : c * W + a ≠ py * W + px := by
          intro h
          have := hiff.1 (by omega)
          omega
        rw [List.getElem?_set_ne hne]
        by_cases hin : py = c ∧ a + 1 ≤ px ∧ px < a + 1 + n
        · rw [if_pos hin, if_pos (by omega)]
          rw [show p + 1 + (px - (a + 1)) = p + (px - a) by omega]
        · rw [if_neg hin, if_neg (by omega)]

theorem blendRows_spec (hop : ∀ s t, (op s t).isSome) {src : Bitmap} (hs : src.OK) {W H : Nat} (hsize : W * H < 2 ^ 31)
    (hW : W < 2 ^ 31) (hH : H < 2 ^ 31)
    {x y : Int} {m a p : Nat} (hap : (a : Int) - x = p) (ha : m = 0 ∨ a + m ≤ W) (hp : m = 0 ∨ p + m ≤ src.width)
    {n c q : Nat} (hcq : (c : Int) - y = q) (hc : n = 0 ∨ c + n ≤ H) (hq : n = 0 ∨ q + n ≤ src.height)
    {data : List Nat} (hd : data.length = W * H) :
    ∃ d, blendRows op src W x y a m n c data = some d ∧ d.length = W * H ∧
      ∀ px py, px < W → py < H → d[py * W + px]? =
        if c ≤ py ∧ py < c + n ∧ a ≤ px ∧ px < a + m then
          (src.pixel (p + (px - a)) (q + (py - c))).bind fun s => (data[py * W + px]?).bind fun t => op s t
        else data[py * W + px]? := by
  induction n generalizing c q data with
  | zero => exact ⟨data, rfl, hd, fun px py _ _ => by rw [if_neg (by omega)]⟩
  | succ n ih =>
    have hrow : ∃ d, blendCols op src W x y c m a data = some d ∧ d.length = W * H ∧
      ∀ px py, px < W → py < H → d[py * W + px]? =
        if py = c ∧ a ≤ px ∧ px < a + m then
          (src.pixel (p + (px - a)) q).bind fun s => (data[py * W + px]?).bind fun t => op s t
        else data[py * W + px]? := by
      rcases Nat.eq_zero_or_pos m with rfl | hm
      · exact ⟨data, rfl, hd, fun px py _ _ => by rw [if_neg (by omega)]⟩
      · exact blendCols_spec hop hs hsize hW hH (by omega) (by omega) hcq hap (by omega) (by omega) hd
    obtain ⟨d, h1, h2, h3⟩ := hrow
    obtain ⟨d', h4, h5, h6⟩ := ih (c := c + 1) (q := q + 1) (by push_cast; omega) (by omega) (by omega) (data := d) h2
    refine ⟨d', ?_, h5, ?_⟩
    · simp only [blendRows, h1, Option.bind_some]
      rw [show ((c : Int) + 1) = ((c + 1 : Nat) : Int) by push_cast; rfl]; exact h4
    · intro px py hpx hpy
      rw [h6 px py hpx hpy]
      by_cases hin : c + 1 ≤ py ∧ py < c + 1 + n ∧ a ≤ px ∧ px < a + m
      · rw [if_pos hin, if_pos (by omega), h3 px py hpx hpy, if_neg (by omega)]
        rw [show q + 1 + (py - (c + 1)) = q + (py - c) by omega]
      · rw [if_neg hin, h3 px py hpx hpy]
        by_cases hin2 : py = c ∧ a ≤ px ∧ px < a + m
        · obtain ⟨rfl, hin2⟩ := hin2
          rw [if_pos ⟨rfl, hin2⟩, if_pos (by omega), Nat.sub_self, Nat.add_zero]
        · rw [if_neg hin2, if_neg (by omega)]

theorem Bitmap.blitAlpha_spec (hop : ∀ s t, (op s t).isSome) {b src : Bitmap} (hb : b.OK) (hs : src.OK) {x y : Int}
    (hx : -2 ^ 31 ≤ x) (hx2 : x + src.width < 2 ^ 31) (hy : -2 ^ 31 ≤ y) (hy2 : y + src.height < 2 ^ 31) :
    ∃ b', b.blitAlpha op src x y = some b' ∧ Drawn b b' x y src.width src.height fun px py =>
      (src.pixel ((px : Int) - x).toNat ((py : Int) - y).toNat).bind fun s => (b.pixel px py).bind fun t => op s t := by
  obtain ⟨h1, h2, h3, h4⟩ := hb
  have s3 := hs.width
  have s4 := hs.height
  unfold Bitmap.blitAlpha
  have c1 : toInt32 src.width = src.width := if_pos (by omega)
  have c2 : toInt32 src.height = src.height := if_pos (by omega)
  have c3 : toInt32 b.width = b.width := if_pos (by omega)
  have c4 : toInt32 b.height = b.height := if_pos (by omega)
  have c5 : addInt32 x src.width = some (x + src.width) := if_pos (by omega)
  have c6 : addInt32 y src.height = some (y + src.height) := if_pos (by omega)
  simp only [c1, c2, c3, c4, c5, c6, Option.bind_some]
  obtain ⟨a, ha⟩ : ∃ a : Nat, max 0 x = a := ⟨(max 0 x).toNat, by omega⟩
  obtain ⟨c, hc⟩ : ∃ a : Nat, max 0 y = a := ⟨(max 0 y).toNat, by omega⟩
  rw [ha, hc]
  obtain ⟨d, h5, h6, h7⟩ := blendRows_spec hop hs h2 h3 h4 (x := x) (y := y) (a := a) (c := c) (p := (a - x).toNat)
    (q := (c - y).toNat) (m := (min (x + src.width) b.width - a).toNat) (n := (min (y + src.height) b.height - c).toNat)
    (by omega) (by omega) (by omega) (by omega) (by omega) (by omega) h1
  rw [h5]
  refine ⟨{ b with data := d }, rfl, rfl, rfl, ⟨h6, h2, h3, h4⟩, ?_⟩
  intro px py hpx hpy
  rw [Bitmap.OK.pixel_eq (b := { b with data := d }) hpx hpy, Bitmap.OK.pixel_eq hpx hpy]
  rw [h7 px py hpx hpy]
  by_cases hin : InRect x y src.width src.height px py
  · have hin' := hin
    simp only [InRect] at hin'
    rw [if_pos hin, if_pos (by omega)]
    rw [show (a - x).toNat + (px - a) = (px - x).toNat by omega, show (c - y).toNat + (py - c) = (py - y).toNat by omega]
  · have hin' := hin
    simp only [InRect] at hin'
    rw [if_neg hin, if_neg (by omega)]

end RichText
