import Verif.Spec.BuildText
import Verif.Proof.ParagraphShape
/-!
Lemmas for C122.
-/
namespace RichText

/-! ### Plain glyphs -/

theorem byteGlyphs_mem {reversed : Bool} {n : Nat} {g : HbGlyph} (h : g ∈ byteGlyphs reversed n) :
    g.cluster < n ∧ g.xOffset = 0 ∧ g.xAdvance = 64 := by
  obtain ⟨i, hi, rfl⟩ := List.mem_map.1 h
  rw [List.mem_range] at hi
  refine ⟨?_, rfl, rfl⟩
  simp only
  split <;> omega

theorem byteGlyphs_fine {starts : Nat → Prop} {isTab : Nat → Bool} {space : Int} {k : Nat} {reversed : Bool} {a b : Nat}
    (hs : 0 < space) (hk : 0 < k) : FineGlyphs starts isTab space k reversed a b (byteGlyphs reversed (b - a)) where
  ordered := by
    refine ⟨fun g hg => (byteGlyphs_mem hg).1, ?_⟩
    unfold byteGlyphs
    cases reversed with
    | true =>
      simp only [↓reduceIte]
      rw [List.pairwise_map]
      exact List.pairwise_lt_range.imp (by intro i j h; simp only; omega)
    | false =>
      simp only [Bool.false_eq_true, ↓reduceIte]
      rw [List.pairwise_map]
      exact List.pairwise_lt_range.imp (by intro i j h; simp only; omega)
  starts := by
    intro c h1 h2 _
    refine ⟨⟨0, if reversed then b - a - 1 - (if reversed then b - a - 1 - (c - a) else c - a) else c - a, 64, 0, 0, 0⟩, ?_, ?_⟩
    · unfold byteGlyphs
      refine List.mem_map.2 ⟨if reversed then b - a - 1 - (c - a) else c - a, ?_, ?_⟩
      · rw [List.mem_range]; split <;> omega
      · cases reversed <;> rfl
    · cases reversed <;> simp only [↓reduceIte, Bool.false_eq_true] <;> omega
  thin := by
    unfold byteGlyphs
    rw [List.length_map, List.length_range]
    exact Nat.le_mul_of_pos_left _ hk
  step := by
    intro i g h hg hh
    obtain ⟨_, g1, g2⟩ := byteGlyphs_mem (List.mem_of_getElem? hg)
    obtain ⟨_, h1, h2⟩ := byteGlyphs_mem (List.mem_of_getElem? hh)
    rw [g1, g2, h1]
    split <;> omega
  last := by
    intro g hg
    obtain ⟨_, g1, g2⟩ := byteGlyphs_mem (List.mem_of_getLast? hg)
    rw [g1, g2]
    split <;> omega
  tabs := by
    intro i g hg _
    obtain ⟨_, g1, g2⟩ := byteGlyphs_mem (List.mem_of_getElem? hg)
    rw [g1]
    cases hh : (byteGlyphs reversed (b - a))[i + 1]? with
    | none => simpa using hs
    | some h =>
      obtain ⟨_, h1, _⟩ := byteGlyphs_mem (List.mem_of_getElem? hh)
      simp [h1, hs]

namespace BuildLibs
variable {b : BuildLibs} {starts : Bytes → Nat → Nat → Nat → Prop} {limit k : Nat} {space : BitVec 16 → Int}

/-- All answers of the environment are as they may be. -/
theorem env_fine (hs : ∀ h, 0 < space h) (hk : 0 < k) (t : Bytes) (s n : Nat) (f : SingleScriptFont) (v : ShapeArgs) (x y : Nat) :
    FineGlyphs (starts t s n) (b.para t s n).isTab (space f.face.handle) k (v.level % 2 == 1) x y
      ((b.env starts k space t s n).shape f v x y) := by
  simp only [env]
  split
  · rename_i h; exact h
  · exact byteGlyphs_fine (hs _) hk

theorem Proper.subFont (hp : b.Proper starts limit k) (t : Bytes) (s n : Nat) (v : ShapeArgs) (offset lim : Nat) (hlt : offset < lim) :
    offset < ((b.env starts k space t s n).subFont v offset lim).2 ∧ ((b.env starts k space t s n).subFont v offset lim).2 ≤ lim := by
  obtain ⟨hist, hr, _⟩ := hp.ran
  obtain ⟨hn, hw⟩ := hp.chars t offset lim hlt
  simp only [env, ParagraphFonts.env, para]
  cases hg : getSubFont b.lib b.reg .init v.font (b.chars t offset lim) offset lim v.script v.smallcaps v.subscript v.superscript with
  | none => exact ⟨hlt, Nat.le_refl _⟩
  | some x =>
    obtain ⟨t', out, new⟩ := x
    have hne : b.chars t offset lim ≠ [] := by
      intro he
      rw [he] at hn
      simp only [nativeLength, List.map_nil, List.sum_nil] at hn
      omega
    have hl : lim = offset + nativeLength (b.chars t offset lim) := by omega
    rw [hl] at hg
    conv at hg => lhs; arg 5; rw [← hl]
    obtain ⟨h1, h2, _⟩ := C45_advances b.lib b.reg .init t' v.font _ offset v.script v.smallcaps v.subscript v.superscript out new
      (.start hr.reached) hp.fits hne hw hg
    exact ⟨h1, by simp only; omega⟩

/-- The libraries keep the contracts. -/
theorem Proper.contract (hp : b.Proper starts limit k) (hs : ∀ h, 0 < space h) : (b.libs starts k space).Contract limit k where
  bounds := hp.bounds
  levels := hp.levels
  script := hp.script
  env := by
    intro t s n hlt ht
    have hfine := env_fine (b := b) (starts := starts) hs hp.glyphs t s n
    have htabs : (b.env starts k space t s n).TabsScaled ∨ (b.tabPixels = true ∧ 0 < b.tabWidth) := by
      have := hp.tabs
      split at this
      · exact .inr ⟨by assumption, this⟩
      · rename_i hpx
        have hpx' : b.tabPixels = false := by simpa using hpx
        refine .inl ⟨hpx', this, ?_⟩
        intro f v x y hxy i g hg htab
        have := (hfine f v x y).tabs i g hg htab
        have hv : (b.env starts k space t s n).vertical = false := hp.horizontal
        unfold ParaEnv.width ParaEnv.advance
        rw [hv]
        simp only [Bool.false_eq_true, ↓reduceIte]
        have e : (b.env starts k space t s n).isTab (g.cluster + x) = true := htab
        rw [if_pos e]
        exact this
    refine ⟨rfl, rfl, ?_, ?_, ⟨starts t s n, ?_⟩, ?_⟩
    · intro calls hc
      refine ⟨ht.1, ⟨hp.subFont t s n, fun f v x y _ => (hfine f v x y).ordered.1, fun f v x y _ => (hfine f v x y).ordered.2⟩,
        hc, fun i => (hp.breaks t s n hlt ht i).1, fun i hi => hp.next t s n hlt ht i hi, ?_, ?_⟩
      · rcases htabs with h | ⟨h1, h2⟩
        · exact .inr (.inr h)
        · exact .inr (.inl ⟨h1, by show b.tabWidth ≠ 0; omega⟩)
      · intro x y h1 h2 h3
        exact (hp.bidi t s n hlt ht x y h1 h2 h3).1
    · refine ⟨hp.horizontal, fun f v x y _ => (hfine f v x y).step, fun f v x y _ => (hfine f v x y).last, ?_⟩
      rcases htabs with h | h
      · exact .inr (.inr h)
      · exact .inr (.inl h)
    · refine ⟨fun f v x y c => (hfine f v x y).starts c, fun j y hj => (hp.breaks t s n hlt ht j).2 y hj, ?_⟩
      intro x y h1 h2 h3
      exact (hp.bidi t s n hlt ht x y h1 h2 h3).2
    · exact fun f v x y _ => (hfine f v x y).thin

end BuildLibs

end RichText
