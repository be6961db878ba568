import Verif.Proof.SmallCaps
import Verif.Props.VisualRuns
/-!
C74: glyphs of synthesised small caps belong to the characters they come from.
-/
namespace RichText

/-! ### C74 -/

/-- A glyph of the upper case text is mapped to the start of the character it comes from, if no
character up to there (the part `a` of the text `a ++ b`) changes its length in upper case.  Missing:
all other glyphs, for which it is false (below). -/
theorem C74_origin_partial (a b : List Cased) (es : List Edit) (rest : List Nat) (i : Nat)
    (hr : Records (a ++ b) es) (hw : ∀ p ∈ a ++ b, p.WellFormed) (hsame : SameLength a)
    (hi : i < (upperText a).length) (h32 : i < 2 ^ 31) :
    remapCharIndex (lowerText (a ++ b) ++ rest) es i = some (origin (a ++ b) i) :=
  remapCharIndex_same hr hsame hw rest hi (by omega)

/-- If no character changes its length, all glyphs are mapped to the characters they come from, and
what HarfBuzz guarantees for the upper case text holds for the text: clusters are in the run and
keep their order. -/
theorem C74_run_partial (l : List Cased) (es : List Edit) (rest : List Nat) (gs : List HbGlyph)
    (hr : Records l es) (hw : ∀ p ∈ l, p.WellFormed) (hsame : SameLength l)
    (hin : ∀ g ∈ gs, g.cluster < (upperText l).length) (h32 : (upperText l).length ≤ 2 ^ 31) :
    ∃ gs', remapCharIndices (lowerText l ++ rest) es gs = some gs' ∧
      gs' = gs.map (fun g => { g with cluster := origin l g.cluster }) ∧
      (∀ g ∈ gs', g.cluster < (lowerText l).length) ∧
      (gs.Pairwise (fun g h => g.cluster ≤ h.cluster) → gs'.Pairwise (fun g h => g.cluster ≤ h.cluster)) ∧
      (gs.Pairwise (fun g h => h.cluster ≤ g.cluster) → gs'.Pairwise (fun g h => h.cluster ≤ g.cluster)) := by
  have h1 : ∀ g ∈ gs, remapCharIndex (lowerText l ++ rest) es g.cluster = some (origin l g.cluster) := by
    intro g hg
    have := remapCharIndex_same (a := l) (b := []) (by simpa using hr) hsame (by simpa using hw) rest
      (hin g hg) (by have := hin g hg; omega)
    simpa using this
  refine ⟨_, remapCharIndices_spec h1, rfl, ?_, ?_, ?_⟩
  · intro g hg
    obtain ⟨g', hg', rfl⟩ := List.mem_map.1 hg
    exact origin_lt l hw (hin g' hg')
  · intro h
    rw [List.pairwise_map]
    exact h.imp_of_mem fun hg hh hle => origin_mono l hle (hin _ hh)
  · intro h
    rw [List.pairwise_map]
    exact h.imp_of_mem fun hg hh hle => origin_mono l hle (hin _ hg)

/-- "aßc" becomes "ASSC" -/
def sharpS : List Cased := [⟨[0x61], [0x41]⟩, ⟨[0xC3, 0x9F], [0x53, 0x53]⟩, ⟨[0x63], [0x43]⟩]

theorem sharpS_ok : Records sharpS [⟨1, 1⟩, ⟨2, 2⟩, ⟨1, 1⟩] ∧ (∀ p ∈ sharpS, p.WellFormed) ∧ SameLength sharpS := by
  refine ⟨.change _ (.change _ (.change _ .nil)), ?_, ?_⟩
  · intro p hp
    simp only [sharpS, List.mem_cons, List.not_mem_nil, or_false] at hp
    rcases hp with rfl | rfl | rfl
    · exact ⟨'a', by decide⟩
    · exact ⟨'ß', by decide⟩
    · exact ⟨'c', by decide⟩
  · intro p hp
    simp only [sharpS, List.mem_cons, List.not_mem_nil, or_false] at hp
    rcases hp with rfl | rfl | rfl <;> rfl

example : (upperText sharpS).length = 4 ∧ (List.range 4).map (origin sharpS) = [0, 1, 1, 3] ∧
    (List.range 4).map (remapCharIndex (lowerText sharpS) [⟨1, 1⟩, ⟨2, 2⟩, ⟨1, 1⟩]) =
      [some 0, some 1, some 1, some 3] := by decide +kernel

/-- Whenever the upper case text is longer, the glyphs at its end (behind the length of the text)
keep their index in the upper case text, which is behind the end of the run. -/
theorem C74_longer_violated (l : List Cased) (es : List Edit) (rest : List Nat) (hr : Records l es)
    (hlong : (lowerText l).length < (upperText l).length) :
    ∀ i, (lowerText l).length ≤ i → i < (upperText l).length →
      remapCharIndex (lowerText l ++ rest) es i = some i ∧ ¬ i < (lowerText l).length := by
  intro i h1 _
  refine ⟨?_, by omega⟩
  simp only [remapCharIndex, findSource_past hr 0 0 i (by omega)]

/-- U+0250 (turned a) becomes U+2C6F, which is one byte longer. -/
def turnedA : Cased := ⟨[0xC9, 0x90], [0xE2, 0xB1, 0xAF]⟩

example : Records [turnedA, ⟨[0x61], [0x41]⟩, ⟨[0x62], [0x42]⟩] [⟨2, 3⟩, ⟨1, 1⟩, ⟨1, 1⟩] ∧
    (lowerText [turnedA, ⟨[0x61], [0x41]⟩, ⟨[0x62], [0x42]⟩]).length <
      (upperText [turnedA, ⟨[0x61], [0x41]⟩, ⟨[0x62], [0x42]⟩]).length :=
  ⟨.change _ (.change _ (.change _ .nil)), by decide⟩

/-- U+0131 (dotless i), "a": the glyph of "A" is mapped to the dotless i. -/
theorem C74_shorter_violated : ∃ (l : List Cased) (es : List Edit) (i c : Nat), Records l es ∧
    (∀ p ∈ l, p.WellFormed) ∧ i < (upperText l).length ∧ remapCharIndex (lowerText l) es i = some c ∧
    origin l i = 2 ∧ c = 0 := by
  refine ⟨[⟨[0xC4, 0xB1], [0x49]⟩, ⟨[0x61], [0x41]⟩], [⟨2, 1⟩, ⟨1, 1⟩], 1, 0, .change _ (.change _ .nil), ?_,
    by decide, by decide +kernel, by decide, rfl⟩
  intro p hp
  simp only [List.mem_cons, List.not_mem_nil, or_false] at hp
  rcases hp with rfl | rfl
  · exact ⟨'ı', by decide⟩
  · exact ⟨'a', by decide⟩

/-- Four times U+0390 (iota with dialytika and tonos, three characters in upper case): a read at
index 2^32 - 6, whatever text of less than 4 GB follows. -/
theorem C74_undefined_violated : ∃ (l : List Cased) (es : List Edit) (i : Nat), Records l es ∧
    (∀ p ∈ l, p.WellFormed) ∧ i < (upperText l).length ∧
    ∀ rest : List Nat, (lowerText l ++ rest).length ≤ 2 ^ 31 → remapCharIndex (lowerText l ++ rest) es i = none := by
  have hrec : Records (List.replicate 4 (⟨[0xCE, 0x90], [0xCE, 0x99, 0xCC, 0x88, 0xCC, 0x81]⟩ : Cased))
      (List.replicate 4 ⟨2, 6⟩) := .change _ (.change _ (.change _ (.change _ .nil)))
  refine ⟨_, _, 6, hrec, ?_, by decide, ?_⟩
  · intro p hp
    rw [List.eq_of_mem_replicate hp]
    exact ⟨'ΐ', by decide⟩
  · intro rest hlen
    have h1 : findSource (List.replicate 4 ⟨2, 6⟩) 0 0 6 = some (6, 18) := by decide
    have h2 : asUInt32 (((6 : Nat) : Int) + (((6 : Nat) : Int) - ((18 : Nat) : Int))) = 4294967289 + 1 := by decide
    simp only [remapCharIndex, h1, h2]
    rw [backToLead, List.getElem?_eq_none (by omega)]

/-- The run of `turnedA`, "a", "b" as a paragraph: HarfBuzz's glyphs of the upper case text with
their clusters mapped back. -/
def smallCapsEnv : ParaEnv (Nat × Bool) Nat :=
  { demoEnv 0 4 fun s t => [⟨s, t - s, 0⟩] with
    shape := fun _ _ _ _ =>
      (remapCharIndices (lowerText [turnedA, ⟨[0x61], [0x41]⟩, ⟨[0x62], [0x42]⟩]) [⟨2, 3⟩, ⟨1, 1⟩, ⟨1, 1⟩]
        [⟨7, 0, 64, 0, 0, 0⟩, ⟨8, 3, 64, 0, 0, 0⟩, ⟨9, 4, 64, 0, 0, 0⟩]).getD [] }

/-- The glyph of the last character of that paragraph is missing in the layout. -/
theorem C74_lost_violated : (smallCapsEnv.shape 0 (0, false) 0 4).map (·.glyph) = [7, 8, 9] ∧
    buildParagraph smallCapsEnv [(4, (0, false))] 0 =
      some ([.run 0 [⟨7, 0, 0, 0⟩, ⟨8, 2, 1, 0⟩] 2 0 0 4 false, .line 12 10], (0, 1)) := by decide +kernel

end RichText
