import Verif.Spec.Characters
import Verif.Proof.Utf8
import Verif.Proof.TextBox
/-!
Proofs about characters in a text box.
-/
namespace RichText
variable {φ : Type _}

/-! ### Boundaries -/

theorem CharBoundary.zero {t : Bytes} (h : ValidUtf8 t) : CharBoundary t 0 := ⟨Nat.zero_le _, .nil, h⟩

theorem CharBoundary.full {t : Bytes} (h : ValidUtf8 t) : CharBoundary t t.length :=
  ⟨Nat.le_refl _, by rw [List.take_length]; exact h, by rw [List.drop_length]; exact .nil⟩

/-- Removing whole characters. -/
theorem CharBoundary.remove {t : Bytes} {a b : Nat} (ha : CharBoundary t a) (hb : CharBoundary t b) :
    ValidUtf8 (t.take a ++ t.drop b) ∧ CharBoundary (t.take a ++ t.drop b) a := by
  have hl : (t.take a).length = a := by rw [List.length_take]; have := ha.inside; omega
  refine ⟨ha.before.append hb.behind, ?_, ?_, ?_⟩
  · rw [List.length_append]; omega
  · rw [List.take_append_of_le_length (by omega), List.take_of_length_le (by omega)]; exact ha.before
  · rw [List.drop_append_of_le_length (by omega), List.drop_of_length_le (by omega)]; exact hb.behind

/-- Inserting whole characters. -/
theorem CharBoundary.insert {t ins : Bytes} {a : Nat} (ha : CharBoundary t a) (hi : ValidUtf8 ins) :
    ValidUtf8 (t.take a ++ ins ++ t.drop a) ∧ CharBoundary (t.take a ++ ins ++ t.drop a) (a + ins.length) := by
  have hl : (t.take a).length = a := by rw [List.length_take]; have := ha.inside; omega
  have hl2 : (t.take a ++ ins).length = a + ins.length := by rw [List.length_append, hl]
  have hv := ha.before.append hi
  refine ⟨hv.append ha.behind, ?_, ?_, ?_⟩
  · rw [List.length_append]; omega
  · rw [List.take_append_of_le_length (by omega), List.take_of_length_le (by omega)]; exact hv
  · rw [List.drop_append_of_le_length (by omega), List.drop_of_length_le (by omega)]; exact ha.behind

/-- What is between two boundaries. -/
theorem CharBoundary.between {t : Bytes} {a b : Nat} (ha : CharBoundary t a) (hb : CharBoundary t b) (hab : a ≤ b) :
    ValidUtf8 ((t.drop a).take (b - a)) := by
  have h1 : ValidUtf8 ((t.drop a).take (b - a) ++ t.drop b) := by
    have e : t.drop b = (t.drop a).drop (b - a) := by rw [List.drop_drop]; congr 1; omega
    rw [e, List.take_append_drop]
    exact ha.behind
  refine (h1.cut ?_).1
  intro c l hc
  have := hb.behind
  rw [hc] at this
  exact this.head_not_trail

/-- Valid text ends before a NUL. -/
theorem ValidUtf8.takeWhile_nul {t : Bytes} (h : ValidUtf8 t) : ValidUtf8 (t.takeWhile (· ≠ 0)) := by
  have e := List.takeWhile_append_dropWhile (p := fun x : UInt8 => decide (x ≠ 0)) (l := t)
  cases hd : t.dropWhile (fun x : UInt8 => decide (x ≠ 0)) with
  | nil =>
    rw [hd, List.append_nil] at e
    rw [e]; exact h
  | cons b l =>
    have hb : ¬ decide (b ≠ 0) = true := by
      have := List.head_dropWhile_not (fun x : UInt8 => decide (x ≠ 0)) (l := t) (by rw [hd]; simp)
      simp only [hd, List.head_cons] at this
      simpa using this
    have hb0 : b = 0 := by simpa using hb
    rw [hd] at e
    rw [← e] at h
    exact (h.split (by rw [hb0]; decide)).1

/-- `U8_APPEND_UNSAFE` is UTF-8 for all characters. -/
theorem utf8Encode_valid {c : Nat} (h : c.isValidChar) : ValidUtf8 (TextBox.utf8Encode c) := by
  refine ⟨[Char.ofNat c], ?_⟩
  have hv : (Char.ofNat c).val.toNat = c := by
    have : Char.ofNat c = Char.ofNatAux c h := by unfold Char.ofNat; rw [dif_pos h]
    rw [this]; rfl
  have hc : c < 1114112 := by simp only [Nat.isValidChar] at h; omega
  have o1 : ∀ k < 32, k ||| 0xC0 = k + 0xC0 := by decide
  have o2 : ∀ k < 64, k ||| 0x80 = k + 0x80 := by decide
  have o3 : ∀ k < 16, k ||| 0xE0 = k + 0xE0 := by decide
  have o4 : ∀ k < 8, k ||| 0xF0 = k + 0xF0 := by decide
  simp only [encode, List.flatMap_cons, List.flatMap_nil, List.append_nil]
  unfold TextBox.utf8Encode String.utf8EncodeChar
  simp only [hv]
  have m : ∀ k, k % 64 < 64 := fun k => Nat.mod_lt _ (by decide)
  split
  · rfl
  · split
    · rw [o1 _ (by omega), o2 _ (m _), Nat.mod_eq_of_lt (show c / 64 < 32 by omega)]
    · split
      · rw [o3 _ (by omega), o2 _ (m _), o2 _ (m _), Nat.mod_eq_of_lt (show c / 4096 < 16 by omega)]
      · rw [o4 _ (by omega), o2 _ (m _), o2 _ (m _), o2 _ (m _), Nat.mod_eq_of_lt (show c / 262144 < 8 by omega)]

/-! ### Hit testing -/

/-- What a click selects: the start or the end of a run, the start of a cluster, or a
boundary of the break iterator. -/
theorem findClosest_at {L : Layout φ} {ls : List (LineSpec φ)} {y : Rat} (h : Stores L ls [] y)
    (hne : ∀ l ∈ ls, l.runs ≠ []) (hsize : L.pos.length < 4294967296) {m : Nat} {l : LineSpec φ}
    (hl : ls[m]? = some l) (hp : ProperLine l) (W : Rat) (al : XAlignment) {follow : Layout.Following} {B : Nat → Prop}
    (hf : FollowsBoundaries follow B) {P : Nat → Prop} (hB : ∀ k, B k → P k)
    (hr : ∀ r ∈ l.runs, P r.charStart ∧ P r.charEnd ∧ ∀ g ∈ r.glyphs, P g.char) (cx : Rat) :
    ∃ p a, L.findClosest W al follow m cx = some (p, a) ∧ P p := by
  have hpick : ∀ {sc ec x f p}, Picked follow sc ec x f p → P sc → P p := by
    intro sc ec x f p hk hsc
    obtain ⟨a, -, -, h1, h2, -⟩ := hk.near
    have ha : P a := by
      rcases h1 with rfl | ⟨c, -, hc⟩
      · exact hsc
      · exact hB _ (hf.next _ _ hc).2.1
    rcases h2 with ⟨rfl, -⟩ | ⟨h2, -⟩
    · exact ha
    · exact hB _ (hf.next _ _ h2).2.1
  have hchar : ∀ r ∈ l.runs, ∀ i, P (r.charAt i) := by
    intro r hm i
    obtain ⟨-, h2, h3⟩ := hr r hm
    unfold RunSpec.charAt
    cases hg : r.glyphs[i]? with
    | none => simpa [hg] using h2
    | some g => simpa [hg] using h3 g (List.mem_of_getElem? hg)
  obtain ⟨j, c1, c2, c3, c4, c5⟩ := findClosest_run h hne hsize hl hp W al follow cx
  by_cases hj : j = l.runs.length
  · obtain ⟨r, e1, e2⟩ := c4 hj
    have hm := List.mem_of_getElem? e1
    refine ⟨_, _, e2, ?_⟩
    split
    · exact (hr r hm).1
    · exact (hr r hm).2.1
  · have hj' : j < l.runs.length := by omega
    have hrr := List.getElem?_eq_getElem hj'
    have hmem := List.mem_of_getElem? hrr
    generalize l.runs[j] = r at hrr hmem
    have hsucc : (allRuns (ls.take (m + 1))).length = (allRuns (ls.take m)).length + l.runs.length := by
      rw [allRuns_take_succ hl, List.length_append]
    obtain ⟨r', g1, g2⟩ := runOfLine_mem (k := (allRuns (ls.take m)).length + j) hl (by omega) (by omega)
    rw [Nat.add_sub_cancel_left, hrr] at g2
    cases g2
    have htot := allRuns_take_le ls (m + 1)
    have hx := c3 r hrr
    rw [c5 hj']
    rcases hp.runs r hmem with hlr | hrt
    · obtain ⟨i, p, a, d1, d2, d3, d4, d5, _⟩ := findInRun_ltr h hsize (by rw [List.append_nil]; exact g1) hlr
        (hp.size r hmem) (show (allRuns (ls.take m)).length ≤ (allRuns (ls.take m)).length + j by omega)
        (show (allRuns (ls.take m)).length + j < (allRuns (ls.take (m + 1))).length by omega)
        (by rw [List.append_nil]; exact htot) hf hx
      refine ⟨p, a, d4, ?_⟩
      rcases d5 with ⟨_, rfl⟩ | ⟨h0, _, rfl⟩ | ⟨h0, h1, h2⟩
      · exact (hr r hmem).1
      · exact hchar r hmem _
      · exact hpick h2 (hchar r hmem _)
    · obtain ⟨i, p, a, d1, d2, d3, d4, d5⟩ := findInRun_rtl h hsize (by rw [List.append_nil]; exact g1) hrt
        (hp.size r hmem) (show (allRuns (ls.take m)).length ≤ (allRuns (ls.take m)).length + j by omega)
        (show (allRuns (ls.take m)).length + j < (allRuns (ls.take (m + 1))).length by omega)
        (by rw [List.append_nil]; exact htot) hf hx
      refine ⟨p, a, d4, ?_⟩
      rcases d5 with ⟨_, rfl⟩ | ⟨h0, _, rfl⟩ | ⟨h0, h1, h2⟩
      · exact (hr r hmem).2.1
      · exact hchar r hmem _
      · exact hpick h2 (hchar r hmem _)

end RichText
