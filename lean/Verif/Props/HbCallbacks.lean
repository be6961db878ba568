import Verif.Model.HbCallbacks
import Mathlib.Tactic.Linarith
import Mathlib.Tactic.NormNum
import Mathlib.Tactic.Ring
import Mathlib.Algebra.Order.Field.Rat
/-!
C101: what the font tells HarfBuzz.
-/
namespace RichText

/-- C101.  Text is mapped to the same glyphs whether HarfBuzz asks for many at once or for each character. -/
theorem C101_text (F : FtFont) : ∀ (fuel : Nat) (us : List Nat), us.length < fuel → F.mapText fuel us = us.map F.nominalGlyph
  | 0, us, h => by omega
  | fuel + 1, us, h => by
    have key : ∀ us : List Nat, (F.nominalGlyphs us).map some = (us.take (F.nominalGlyphs us).length).map F.nominalGlyph := by
      intro us
      induction us with
      | nil => rfl
      | cons u us ih =>
        rw [FtFont.nominalGlyphs]
        split
        · rename_i hg
          rw [List.map_cons, ih, List.length_cons, List.take_succ_cons, List.map_cons]
          congr 1
          unfold FtFont.nominalGlyph
          simp [hg]
        · rfl
    unfold FtFont.mapText
    simp only
    rw [key us]
    cases hd : us.drop (F.nominalGlyphs us).length with
    | nil =>
      simp only [List.append_nil]
      conv => rhs; rw [← List.take_append_drop (F.nominalGlyphs us).length us, hd, List.append_nil]
    | cons u rest =>
      simp only
      have hlen := congrArg List.length hd
      rw [List.length_drop, List.length_cons] at hlen
      rw [C101_text F fuel rest (by omega)]
      conv => rhs; rw [← List.take_append_drop (F.nominalGlyphs us).length us, hd, List.map_append, List.map_cons]

/-- C101.  A font has a character exactly if one of these gives a glyph: the character map, or for symbol fonts the private use
character that stands for it; that glyph is used, never glyph 0. -/
theorem C101_codepoint (F : FtFont) (u : Nat) :
    (F.hasCodepoint u = true ↔ F.mapCodepoint u ≠ 0) ∧
    (F.charIndex u ≠ 0 → F.mapCodepoint u = F.charIndex u) ∧
    (F.charIndex u = 0 → F.symbol = false → F.mapCodepoint u = 0) ∧
    (F.charIndex u = 0 → F.symbol = true → F.page = .none → u < 256 → F.mapCodepoint u = F.charIndex (0xF000 + u)) ∧
    (F.charIndex u = 0 → F.page = .none → 256 ≤ u → F.mapCodepoint u = 0) := by
  have hz : ∀ g, F.nominalGlyph u = some g → g ≠ 0 := by
    intro g hg
    unfold FtFont.nominalGlyph at hg
    split at hg
    · rename_i h; cases hg; exact h
    · split at hg
      · split at hg
        · rename_i h; cases hg; exact h
        · cases hg
      · cases hg
  refine ⟨?_, ?_, ?_, ?_, ?_⟩
  · unfold FtFont.hasCodepoint FtFont.mapCodepoint
    cases h : F.nominalGlyph u with
    | none => simp
    | some g => simpa using hz g h
  · intro h
    unfold FtFont.mapCodepoint FtFont.nominalGlyph
    simp [h]
  · intro h hs
    unfold FtFont.mapCodepoint FtFont.nominalGlyph
    simp [h, hs]
  · intro h hs hp hu
    have e : F.symbolGlyph u = F.charIndex (0xF000 + u) := by
      unfold FtFont.symbolGlyph
      rw [hp]
      exact if_pos (by omega)
    unfold FtFont.mapCodepoint FtFont.nominalGlyph
    simp only [h, hs, e, ne_eq, not_true_eq_false, if_false, if_true]
    by_cases h2 : F.charIndex (0xF000 + u) = 0
    · simp [h2]
    · simp [h2]
  · intro h hp hu
    have e : F.symbolGlyph u = 0 := by
      unfold FtFont.symbolGlyph
      rw [hp]
      exact if_neg (by omega)
    unfold FtFont.mapCodepoint FtFont.nominalGlyph
    simp [h, e]

/-- FreeType finds the first glyph of a name. -/
structure FtFont.NamesOk (F : FtFont) : Prop where
  found : ∀ s g, F.nameIndex s = g → g ≠ 0 → F.glyphName g = some s
  all : ∀ s g, F.glyphName g = some s → F.nameIndex s ≤ g ∧ F.glyphName (F.nameIndex s) = some s

/-- The name that is asked for. -/
def askedName (name : List UInt8) (len : Int) : List UInt8 := if len < 0 then name else name.take len.toNat

/-- C101 (partial: names of at most 127 bytes that are no beginnings of the name of glyph 0, and not empty).  The glyph that is
found has the name that was asked for; a name that some glyph has is found. -/
theorem C101_name_partial (F : FtFont) (hF : F.NamesOk) (name : List UInt8) (len : Int)
    (hlen : (askedName name len).length ≤ 127)
    (h0 : ∀ s, F.glyphName 0 = some s → askedName name len <+: s → askedName name len = s) (h0' : askedName name len ≠ []) :
    (∀ g, F.glyphFromName name len = some g → F.glyphName g = some (askedName name len)) ∧
    (∀ g, F.glyphName g = some (askedName name len) → ∃ g', F.glyphFromName name len = some g') := by
  generalize hs : askedName name len = s at *
  unfold askedName at hs
  have hn : (if len < 0 then name else name.take (min len 127).toNat) = s := by
    split at hs
    · rename_i h; rw [if_pos h]; exact hs
    · rename_i h
      rw [if_neg h]
      by_cases hb : len ≤ 127
      · rw [min_eq_left hb]; exact hs
      · rw [min_eq_right (by omega)]
        rw [← hs] at hlen ⊢
        rw [List.length_take] at hlen
        rw [List.take_of_length_le (by omega), List.take_of_length_le (by omega)]
  unfold FtFont.glyphFromName
  simp only [hn]
  -- comparing with the name of glyph 0
  have hsame : F.isGlyph0 name len (min len 127).toNat = true ↔ F.glyphName 0 = some s := by
    unfold FtFont.isGlyph0 FtFont.nameBuffer
    cases hg : F.glyphName 0 with
    | none =>
      simp only [Bool.false_and, Bool.false_eq_true, if_false, List.take_nil, reduceCtorEq, iff_false]
      split at hn
      · rename_i h
        rw [if_pos h, decide_eq_true_iff, hn]
        exact fun e => h0' e.symm
      · rename_i h
        rw [if_neg h, decide_eq_true_iff, hn]
        exact fun e => h0' e.symm
    | some t =>
      have hpre : ∀ n, t.take n = s → t = s := by
        intro n e
        exact (h0 t hg ⟨t.drop n, by rw [← e, List.take_append_drop]⟩).symm
      simp only [Bool.true_and, decide_eq_true_eq, Option.some.injEq]
      split at hn
      · rename_i h
        rw [if_pos h, decide_eq_true_iff, hn]
        exact ⟨hpre 127, fun e => by rw [e]; exact List.take_of_length_le hlen⟩
      · rename_i h
        rw [if_neg h, if_neg h, decide_eq_true_iff, hn, List.take_take]
        refine ⟨hpre _, fun e => ?_⟩
        rw [e]
        refine List.take_of_length_le ?_
        have : s.length ≤ (min len 127).toNat := by rw [← hn]; exact List.length_take_le _ _
        omega
  by_cases hi : F.nameIndex s = 0
  · rw [if_neg (by simpa using hi)]
    constructor
    · intro g hg
      split at hg
      · rename_i h
        cases hg
        exact hsame.1 h
      · cases hg
    · intro g hg
      have := (hF.all s g hg).2
      rw [hi] at this
      exact ⟨0, by rw [if_pos (hsame.2 this)]⟩
  · rw [if_pos hi]
    constructor
    · intro g hg
      cases hg
      exact hF.found s _ rfl hi
    · intro g _
      exact ⟨_, rfl⟩

/-- A font with the glyphs `.notdef` and `a`. -/
def twoNames : FtFont where
  charIndex u := if u = 97 then 1 else 0
  symbol := false
  page := .none
  simpMap _ := 0
  tradMap _ := 0
  nameIndex s := if s = [97] then 1 else 0
  glyphName g := if g = 0 then some [46, 110, 111, 116, 100, 101, 102] else if g = 1 then some [97] else none

theorem twoNames_ok : twoNames.NamesOk := by
  refine ⟨?_, ?_⟩
  · intro s g h hg
    unfold twoNames at h ⊢
    simp only at h ⊢
    split at h
    · rename_i e; subst e; subst h; rfl
    · exact absurd h.symm hg
  · intro s g h
    unfold twoNames at h ⊢
    simp only at h ⊢
    split at h
    · rename_i e; subst e; cases h; exact ⟨by decide, by decide⟩
    · split at h
      · rename_i e; subst e; cases h; exact ⟨by decide, by decide⟩
      · cases h

/-- Example: a name of the font, a name it does not have. -/
example : twoNames.NamesOk ∧ twoNames.glyphFromName [97, 98] 1 = some 1 ∧ twoNames.glyphFromName [98] (-1) = none ∧
    twoNames.glyphFromName [46, 110, 111, 116, 100, 101, 102] (-1) = some 0 := ⟨twoNames_ok, by decide, by decide, by decide⟩

/-- C101 is violated: a dot, or a name without letters, is taken for the name of glyph 0. -/
theorem C101_prefix_violated : twoNames.glyphFromName [46] 1 = some 0 ∧ twoNames.glyphFromName [] 0 = some 0 ∧
    (∀ g, twoNames.glyphName g ≠ some [46]) ∧ (∀ g, twoNames.glyphName g ≠ some []) := by
  refine ⟨by decide, by decide, ?_, ?_⟩ <;>
  · intro g
    unfold twoNames
    simp only
    split
    · decide
    · split
      · decide
      · exact fun h => by cases h

/-- C101 is violated: only the first 127 bytes of a name are looked at. -/
theorem C101_long_violated (a : UInt8) : ∃ F : FtFont, F.NamesOk ∧
    F.glyphFromName (List.replicate 127 97 ++ [a]) 128 = some 1 ∧ F.glyphName 1 = some (List.replicate 127 97) ∧
    ∀ g, F.glyphName g ≠ some (List.replicate 127 97 ++ [a]) := by
  refine ⟨⟨fun _ => 0, false, .none, id, id, fun s => if s = List.replicate 127 97 then 1 else 0,
    fun g => if g = 1 then some (List.replicate 127 97) else none⟩, ⟨?_, ?_⟩, ?_, by simp, ?_⟩
  · intro s g h hg
    simp only at h ⊢
    split at h
    · rename_i e; rw [e, ← h]; simp
    · exact absurd h.symm hg
  · intro s g h
    simp only at h ⊢
    split at h
    · rename_i e; cases h; simp [e]
    · cases h
  · have e : (List.replicate 127 (97 : UInt8) ++ [a]).take (min (128 : Int) 127).toNat = List.replicate 127 97 := by
      rw [show (min (128 : Int) 127).toNat = 127 by decide, List.take_append_of_le_length (by simp), List.take_of_length_le (by simp)]
    unfold FtFont.glyphFromName
    simp only [e, show ¬ (128 : Int) < 0 by decide, if_false, if_true]
    simp
  · intro g
    simp only
    split
    · intro h
      have := congrArg List.length (Option.some.inj h)
      simp at this
    · exact fun h => by cases h

/-- C101.  Without slant the extents are those of the glyph; y upwards, so the height is negative. -/
theorem C101_extents (m : GlyphMetrics) : glyphExtents m 0 = ⟨m.bearingX, m.bearingY, m.width, -m.height⟩ := by
  unfold glyphExtents
  simp only [ne_eq, not_true_eq_false, if_false, Int.floor_intCast]
  have h1 : ⌈(m.bearingX : Rat) + (m.width : Rat)⌉ = m.bearingX + m.width := by
    rw [← Int.cast_add, Int.ceil_intCast]
  have h2 : ⌈(m.bearingY : Rat) + -(m.height : Rat)⌉ = m.bearingY + -m.height := by
    rw [← Int.cast_neg, ← Int.cast_add, Int.ceil_intCast]
  rw [h1, h2]
  simp

/-- C101.  With a slant, every point of the glyph is inside of the extents, which are less than two units wider than necessary. -/
theorem C101_slant (m : GlyphMetrics) (slant : Rat) (hh : 0 ≤ m.height) :
    (∀ x y : Rat, (m.bearingX : Rat) ≤ x → x ≤ m.bearingX + m.width → (m.bearingY : Rat) - m.height ≤ y → y ≤ m.bearingY →
      ((glyphExtents m slant).xBearing : Rat) ≤ x + slant * y ∧
      x + slant * y ≤ (glyphExtents m slant).xBearing + (glyphExtents m slant).width ∧
      ((glyphExtents m slant).yBearing + (glyphExtents m slant).height : Rat) ≤ y ∧ y ≤ (glyphExtents m slant).yBearing) ∧
    ((glyphExtents m slant).width : Rat) < m.width + |slant| * m.height + 2 := by
  have e : glyphExtents m slant = ⟨⌊(m.bearingX : Rat) + min (m.bearingY * slant) ((m.bearingY - m.height) * slant)⌋, m.bearingY,
      ⌈(m.bearingX : Rat) + m.width + max (m.bearingY * slant) ((m.bearingY - m.height) * slant)⌉ -
        ⌊(m.bearingX : Rat) + min (m.bearingY * slant) ((m.bearingY - m.height) * slant)⌋, -m.height⟩ := by
    unfold glyphExtents
    have h2 : ⌈(m.bearingY : Rat) - (m.height : Rat)⌉ - m.bearingY = -m.height := by
      rw [← Int.cast_sub, Int.ceil_intCast]
      ring
    by_cases h : slant = 0
    · simp only [h, ne_eq, not_true_eq_false, if_false, mul_zero, min_self, max_self, add_zero, Int.floor_intCast,
        ← sub_eq_add_neg, h2]
    · simp only [ne_eq, h, not_false_eq_true, if_true, Int.floor_intCast, ← sub_eq_add_neg, h2]
  rw [e]
  simp only
  generalize hlo : min ((m.bearingY : Rat) * slant) ((m.bearingY - m.height) * slant) = lo
  generalize hhi : max ((m.bearingY : Rat) * slant) ((m.bearingY - m.height) * slant) = hi
  have hhq : (0 : Rat) ≤ m.height := by exact_mod_cast hh
  have f1 := Int.floor_le ((m.bearingX : Rat) + lo)
  have f2 := Int.le_ceil ((m.bearingX : Rat) + m.width + hi)
  have f3 := Int.lt_floor_add_one ((m.bearingX : Rat) + lo)
  have f4 := Int.ceil_lt_add_one ((m.bearingX : Rat) + m.width + hi)
  push_cast
  constructor
  · intro x y h1 h2 h3 h4
    have b1 : lo ≤ slant * y ∧ slant * y ≤ hi := by
      rcases le_total 0 slant with hs | hs
      · have g1 := mul_le_mul_of_nonneg_left h3 hs
        have g2 := mul_le_mul_of_nonneg_left h4 hs
        have g3 := min_le_right ((m.bearingY : Rat) * slant) ((m.bearingY - m.height) * slant)
        have g4 := le_max_left ((m.bearingY : Rat) * slant) ((m.bearingY - m.height) * slant)
        constructor <;> nlinarith
      · have g1 := mul_le_mul_of_nonpos_left h3 hs
        have g2 := mul_le_mul_of_nonpos_left h4 hs
        have g3 := min_le_left ((m.bearingY : Rat) * slant) ((m.bearingY - m.height) * slant)
        have g4 := le_max_right ((m.bearingY : Rat) * slant) ((m.bearingY - m.height) * slant)
        constructor <;> nlinarith
    exact ⟨by linarith, by linarith, by linarith, h4⟩
  · have b2 : hi - lo = |slant| * m.height := by
      rcases le_total 0 slant with hs | hs
      · rw [abs_of_nonneg hs, ← hlo, ← hhi, max_eq_left (by nlinarith), min_eq_right (by nlinarith)]
        ring
      · rw [abs_of_nonpos hs, ← hlo, ← hhi, max_eq_right (by nlinarith), min_eq_left (by nlinarith)]
        ring
    linarith

/-- C101.  A point of the outline, or none. -/
theorem C101_contour (outline : Option (List (Int × Int))) (i : Nat) (p : Int × Int) :
    contourPoint outline i = some p ↔ ∃ points, outline = some points ∧ points[i]? = some p := by
  unfold contourPoint
  cases outline with
  | none => simp
  | some points =>
    simp only [Option.some.injEq, exists_eq_left']
    split
    · rename_i h
      rw [List.getElem?_eq_none (by omega)]
    · rfl

end RichText
