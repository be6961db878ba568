import Verif.Props.Formatting
import Verif.Proof.Utf8
/-!
C77: the text shown for markup is the source without its tags.
-/
namespace RichText
open Spec
variable {F : Type _}

/-! ### C77 -/

theorem content_sublist {env : Env F} {st : Style F} {m : List UInt8} {o : List (UInt8 × Style F)}
    (h : Content env st m o) : (o.map (·.1)).Sublist m := by
  induction h with
  | nil => exact List.Sublist.refl _
  | char c _ _ _ ih => exact ih.cons_cons c
  | comment body _ _ ih => exact ih.trans (List.sublist_append_right _ _)
  | uc _ ih => exact ih.trans (List.sublist_append_right _ _)
  | uppercase _ ih => exact ih.trans (List.sublist_append_right _ _)
  | tag ht _ _ ih1 ih2 =>
    rw [List.map_append]
    refine List.Sublist.append (List.Sublist.trans ih1 ?_) ih2
    simp only [List.append_assoc]
    exact (List.sublist_append_left _ _).trans (List.sublist_append_right _ _)

theorem tag_shape {env : Env F} {st st' : Style F} {op close : List UInt8} (h : Tag env st op st' close) :
    ∃ a, op = c!"<" :: a ++ [c!">"] := by
  cases h with
  | s => exact ⟨b!"s", rfl⟩
  | u => exact ⟨b!"u", rfl⟩
  | sc => exact ⟨b!"sc", rfl⟩
  | smallcaps => exact ⟨b!"smallcaps", rfl⟩
  | sub => exact ⟨b!"sub", rfl⟩
  | super => exact ⟨b!"super", rfl⟩
  | i => exact ⟨b!"i", rfl⟩
  | font a => exact ⟨b!"font" ++ a, by simp⟩
  | stroke a => exact ⟨b!"stroke" ++ a, by simp⟩

theorem content_utf8 {env : Env F} {st : Style F} {m : List UInt8} {o : List (UInt8 × Style F)}
    (h : Content env st m o) : ∀ p, ValidUtf8 (p ++ m) → ValidUtf8 (p ++ o.map (·.1)) := by
  have lt : (c!"<" : UInt8) < 0x80 := by decide
  have gt : (c!">" : UInt8) < 0x80 := by decide
  induction h with
  | nil => intro p h; exact h
  | @char _ m o c _ _ _ ih =>
    intro p h
    have := ih (p ++ [c]) (by simpa using h)
    simpa using this
  | @comment _ m o body _ _ ih =>
    intro p h
    have h1 : ValidUtf8 (p ++ c!"<" :: ((b!"!--" ++ body ++ b!"--") ++ c!">" :: m)) := by simpa using h
    obtain ⟨h2, h3⟩ := h1.split lt
    obtain ⟨_, h4⟩ := h3.split gt
    exact h2.append (by simpa using ih [] (by simpa using h4))
  | @uc _ m o _ ih =>
    intro p h
    have h1 : ValidUtf8 (p ++ c!"<" :: (b!"uc" ++ c!">" :: m)) := by simpa using h
    obtain ⟨h2, h3⟩ := h1.split lt
    obtain ⟨_, h4⟩ := h3.split gt
    exact h2.append (by simpa using ih [] (by simpa using h4))
  | @uppercase _ m o _ ih =>
    intro p h
    have h1 : ValidUtf8 (p ++ c!"<" :: (b!"uppercase" ++ c!">" :: m)) := by simpa using h
    obtain ⟨h2, h3⟩ := h1.split lt
    obtain ⟨_, h4⟩ := h3.split gt
    exact h2.append (by simpa using ih [] (by simpa using h4))
  | @tag _ _ op close inner m oi o ht _ _ ih1 ih2 =>
    intro p h
    obtain ⟨a, rfl⟩ := tag_shape ht
    have h1 : ValidUtf8 (p ++ c!"<" :: (a ++ c!">" :: (inner ++ c!"<" :: ((c!"/" :: close) ++ c!">" :: m)))) := by
      simpa using h
    obtain ⟨h2, h3⟩ := h1.split lt
    obtain ⟨_, h4⟩ := h3.split gt
    obtain ⟨h5, h6⟩ := h4.split lt
    obtain ⟨_, h7⟩ := h6.split gt
    rw [List.map_append]
    exact h2.append ((by simpa using ih1 [] (by simpa using h5) : ValidUtf8 _).append
      (by simpa using ih2 [] (by simpa using h7)))

/-- The text shown is the source with bytes left out: none is added, changed or moved. -/
theorem C77_sublist (env : Env F) (text : List UInt8) (font : Font) (color : Color F) (stroke : StrokeState F)
    (hf : ProperFont font) (r : List UInt8 × FormattingRuns F)
    (h : parseInlineFormatting env text font color stroke = .ok r) : r.1.Sublist text := by
  by_cases hne : r = verbatim text font color stroke
  · rw [hne]; exact List.Sublist.refl _
  · obtain ⟨o, ⟨m, hm, hc⟩, h1, _⟩ := C11_only_documents env text font color stroke hf r h hne
    rw [h1]
    refine (content_sublist hc).trans ?_
    rcases hm with rfl | ⟨junk, rfl⟩
    · exact List.Sublist.refl _
    · exact List.sublist_append_left _ _

/-- So it is never longer. -/
theorem C77_length (env : Env F) (text : List UInt8) (font : Font) (color : Color F) (stroke : StrokeState F)
    (hf : ProperFont font) (r : List UInt8 × FormattingRuns F)
    (h : parseInlineFormatting env text font color stroke = .ok r) : r.1.length ≤ text.length :=
  (C77_sublist env text font color stroke hf r h).length_le

/-- No character is torn apart: the text shown for valid UTF-8 is valid UTF-8. -/
theorem C77_utf8 (env : Env F) (text : List UInt8) (font : Font) (color : Color F) (stroke : StrokeState F)
    (hf : ProperFont font) (r : List UInt8 × FormattingRuns F)
    (h : parseInlineFormatting env text font color stroke = .ok r) (hu : ValidUtf8 text) : ValidUtf8 r.1 := by
  by_cases hne : r = verbatim text font color stroke
  · rw [hne]; exact hu
  · have hff : ∀ c ∈ text, c ≠ 0xFF := by
      obtain ⟨cs, rfl⟩ := hu
      intro c hc
      obtain ⟨x, _, hx⟩ := List.mem_flatMap.1 hc
      exact encodeChar_ne_ff x c hx
    obtain ⟨o, ⟨m, hm, hc⟩, h1, _⟩ := C11_only_documents env text font color stroke hf r h hne
    rcases hm with rfl | ⟨junk, rfl⟩
    · rw [h1]
      simpa using content_utf8 hc [] (by simpa using hu)
    · exact absurd rfl (hff 0xFF (by simp))

/-! ### An example -/

section Examples
/-- Nested tags round a two-byte character. -/
example : ValidUtf8 (b!"a<u><s>" ++ [0xC3, 0xA9] ++ b!"</s></u>b") := ⟨"a<u><s>é</s></u>b".toList, by decide +kernel⟩

example : (parseInlineFormatting toyEnv (b!"a<u><s>" ++ [0xC3, 0xA9] ++ b!"</s></u>b") toyFont toyColor
    toyStroke).toOption.map (·.1) = some (b!"a" ++ [0xC3, 0xA9] ++ b!"b") := by decide +kernel

/-- The second half of that character is not valid. -/
example : ¬ ValidUtf8 [0xA9] := fun h => absurd h.head_not_trail (by decide)

end Examples

end RichText
