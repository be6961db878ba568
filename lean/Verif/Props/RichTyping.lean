import Verif.Props.MarkupEdit
import Verif.Props.TakeBack
import Verif.Props.App
/-!
C140: what is typed into the source of a rich text is shown where it was typed, when the box is left.
-/
namespace RichText
open Spec

variable {F β φ : Type _}

/-- The bytes a typed character is stored as are ordinary ones, unless it is `<`. -/
theorem utf8Encode_ordinary {c : Nat} (h1 : c ≠ 60) (h2 : c ≤ 0x10FFFF) : ∀ b ∈ TextBox.utf8Encode c, b ≠ c!"<" ∧ b ≠ 0xFF := by
  have k1 : ∀ x < 128, x ≠ 60 → UInt8.ofNat x ≠ c!"<" ∧ UInt8.ofNat x ≠ 0xFF := by decide
  have k2 : ∀ x < 32, UInt8.ofNat (x ||| 0xC0) ≠ c!"<" ∧ UInt8.ofNat (x ||| 0xC0) ≠ 0xFF := by decide
  have k3 : ∀ x < 16, UInt8.ofNat (x ||| 0xE0) ≠ c!"<" ∧ UInt8.ofNat (x ||| 0xE0) ≠ 0xFF := by decide
  have k4 : ∀ x < 5, UInt8.ofNat (x ||| 0xF0) ≠ c!"<" ∧ UInt8.ofNat (x ||| 0xF0) ≠ 0xFF := by decide
  have k5 : ∀ x < 64, UInt8.ofNat (x ||| 0x80) ≠ c!"<" ∧ UInt8.ofNat (x ||| 0x80) ≠ 0xFF := by decide
  unfold TextBox.utf8Encode
  split
  · intro b hb
    rw [List.mem_singleton.1 hb]
    exact k1 c (by omega) h1
  · split
    · intro b hb
      simp only [List.mem_cons, List.not_mem_nil, or_false] at hb
      rcases hb with rfl | rfl
      · exact k2 _ (by omega)
      · exact k5 _ (by omega)
    · split
      · intro b hb
        simp only [List.mem_cons, List.not_mem_nil, or_false] at hb
        rcases hb with rfl | rfl | rfl
        · exact k3 _ (by omega)
        · exact k5 _ (by omega)
        · exact k5 _ (by omega)
      · intro b hb
        simp only [List.mem_cons, List.not_mem_nil, or_false] at hb
        rcases hb with rfl | rfl | rfl | rfl
        · exact k4 _ (by omega)
        · exact k5 _ (by omega)
        · exact k5 _ (by omega)
        · exact k5 _ (by omega)

namespace TextBox

/-- Typing several characters. -/
theorem Editing.types {e : BoxEnv φ} (hg : e.Good) : ∀ (cs : List Nat) {s : TextBox φ}, Editing e s →
    s.text.length + 4 * cs.length < e.limit → ∃ s', run e s (cs.map .char) = some s' ∧ Editing e s' ∧ s'.rich = s.rich ∧
      s'.text = s.text.take s.cursor.1 ++ cs.flatMap utf8Encode ++ s.text.drop s.cursor.1
  | [], s, h, _ => ⟨s, rfl, h, rfl, by simp⟩
  | c :: cs, s, h, hl => by
    rw [List.length_cons] at hl
    obtain ⟨s1, h1, h2, h3, h4, -⟩ := h.type hg c (by omega)
    have hrich : s1.rich = s.rich := by
      have h5 := h1
      simp only [handle, h.focused, h.editable, Bool.and_self, if_true, insertTyped, removeHighlighted, h.sel] at h5
      rw [insertText_fields h5]
    have hc := h.cursor
    have hlen := utf8Encode_length c
    obtain ⟨s2, g1, g2, g3, g4⟩ := Editing.types hg cs h2 (by rw [h3, typedInto_length c hc]; omega)
    refine ⟨s2, ?_, g2, g3.trans hrich, ?_⟩
    · rw [List.map_cons]
      show (match handle e s (.char c) with | none => none | some s => run e s (cs.map .char)) = _
      rw [h1]
      exact g1
    · rw [g4, h3, h4]
      have hl2 : (s.text.take s.cursor.1 ++ utf8Encode c).length = s.cursor.1 + (utf8Encode c).length := by
        rw [List.length_append, List.length_take]; omega
      unfold typedInto
      rw [List.take_left' hl2, List.drop_left' hl2, List.flatMap_cons]
      simp

/-- Leaving a box of rich text. -/
theorem Editing.leave {a : App F β φ} {n : Nat} (ha : a.Contract n) {s : TextBox φ} (h : Editing a.box s) (hr : s.rich = true)
    {r : Bytes × FormattingRuns F} (hp : parseInlineFormatting a.parser s.text a.font a.color a.stroke = .ok r) :
    ∃ s', run a.box s [.blur] = some s' ∧ s'.ctrl = r.1 ∧ s'.text = s.text ∧
      (r.1 ≠ [] → buildLayout {} (a.paragraphs r.1 r.2) r.1.length a.yAlign a.height = some s'.layout) := by
  have hg := C89_good a n ha
  obtain ⟨s', b1, -⟩ := blur_valid hg h.sound
  have hfm : a.formatted true s.text = .ok r := hp
  have hsh : a.shownAs true s.text = r := by unfold App.shownAs; rw [hfm]
  have hrun : run a.box s [.blur] = some s' := by
    show (match handle a.box s .blur with | none => none | some s => some s) = _
    rw [show handle a.box s .blur = TextBox.blur a.box s from rfl, b1]
  have hb := b1
  unfold TextBox.blur at hb
  rw [if_pos h.focused] at hb
  unfold TextBox.recalc at hb
  simp only [TextBox.showsRich, Bool.false_eq_true, if_false, hr, if_true] at hb
  by_cases hne : (a.shownAs true s.text).1 = []
  · rw [if_pos (show a.box.content s.text = [] from hne)] at hb
    have hb := Option.some.inj hb
    refine ⟨s', hrun, ?_, by rw [← hb], fun h => absurd (by rw [← hsh]; exact hne) h⟩
    rw [← hb]
    show (a.shownAs true s.text).1 = _
    rw [hsh]
  · rw [if_neg (show ¬ a.box.content s.text = [] from hne)] at hb
    split at hb
    · cases hb
    · have hb := Option.some.inj hb
      refine ⟨s', hrun, ?_, by rw [← hb], fun _ => ?_⟩
      · rw [← hb]
        show (a.shownAs true s.text).1 = _
        rw [hsh]
      · have := (ha.built true hne h.sound.small {}).1
        rw [hsh] at this
        rw [← hb]
        exact this

theorem Editing.back_rich {e : BoxEnv φ} {s s' : TextBox φ} (hs : Editing e s) (h : handle e s (.backspace false) = some s') : s'.rich = s.rich := by
  simp only [handle, hs.focused, if_true, key, TextBox.backspace, hs.sel, Option.isSome_none, Bool.false_eq_true, if_false] at h
  split at h
  · split at h
    · cases h
    · rename_i s1 hs1
      simp only [TextBox.prevCharacter] at hs1
      have h4 := (removeText_fields h).2
      have e1 : s'.rich = s1.rich := by rw [h4]
      have f1 : s1.rich = s.rich := by rw [(setCursor_fields hs1).1]
      rw [e1, f1]
  · cases h; rfl

end TextBox

open TextBox

/-! ## C140 -/

/-- C140: in a box of rich text whose source is a document, with the cursor in the source in front of or behind a byte that is shown, any
characters other than `<` are typed and the box is left.  Then it shows what it showed before with these characters in that place, in the
formatting of that byte, and the layout it has is the one built for that. -/
theorem C140_typed (a : App F β φ) (n : Nat) (ha : a.Contract n) (s : TextBox φ) (hs : Editing a.box s) (hr : s.rich = true)
    (o : List (UInt8 × Style F)) (hd : Document a.parser (baseStyle a.font a.color a.stroke) s.text o) :
    ∃ ps : List Nat, ps.length = o.length ∧ ps.Pairwise (· < ·) ∧
      ∀ (i p : Nat) (b : UInt8) (st : Style F), ps[i]? = some p → o[i]? = some (b, st) → s.text[p]? = some b ∧
        ∀ j, j = i ∧ s.cursor.1 = p ∨ j = i + 1 ∧ s.cursor.1 = p + 1 →
        ∀ cs : List Nat, (∀ c ∈ cs, c ≠ 60 ∧ c ≤ 0x10FFFF) → s.text.length + 4 * cs.length < a.limit →
          ∃ s' runs, run a.box s (cs.map .char ++ [.blur]) = some s' ∧
            s'.ctrl = (o.take j).map (·.1) ++ cs.flatMap utf8Encode ++ (o.drop j).map (·.1) ∧
            a.formatted true s'.text = .ok (s'.ctrl, runs) ∧
            ShowsStyles runs (o.take j ++ (cs.flatMap utf8Encode).map (fun c => (c, st)) ++ o.drop j) ∧
            buildLayout {} (a.paragraphs s'.ctrl runs) s'.ctrl.length a.yAlign a.height = some s'.layout := by
  obtain ⟨ps, h1, h2, h3⟩ := C139_type_delete a.parser s.text a.font a.color a.stroke ha.font o hd
  refine ⟨ps, h1, h2, fun i p b st hp ho => ⟨(h3 i p b st hp ho).1, fun j hj cs hcs hl => ?_⟩⟩
  obtain ⟨g1, g2, -⟩ := h3 i p b st hp ho
  have hg := C89_good a n ha
  obtain ⟨s1, r1, r2, r3, r4⟩ := Editing.types hg cs hs hl
  have hord : ∀ c ∈ cs.flatMap utf8Encode, c ≠ c!"<" ∧ c ≠ 0xFF := by
    intro c hc
    obtain ⟨d, hd, hc⟩ := List.mem_flatMap.1 hc
    exact utf8Encode_ordinary (hcs d hd).1 (hcs d hd).2 c hc
  obtain ⟨runs, e1, e2⟩ : ∃ runs, parseInlineFormatting a.parser s1.text a.font a.color a.stroke =
      .ok ((o.take j).map (·.1) ++ cs.flatMap utf8Encode ++ (o.drop j).map (·.1), runs) ∧
      ShowsStyles runs (o.take j ++ (cs.flatMap utf8Encode).map (fun c => (c, st)) ++ o.drop j) := by
    rcases hj with ⟨rfl, hc⟩ | ⟨rfl, hc⟩
    · rw [r4, hc]; exact (g2 _ hord).1
    · rw [r4, hc]; exact (g2 _ hord).2
  have hi : i < o.length := (List.getElem?_eq_some_iff.1 ho).1
  obtain ⟨s2, b1, b2, b3, b4⟩ := r2.leave ha (r3.trans hr) e1
  refine ⟨s2, runs, ?_, b2, ?_, e2, ?_⟩
  · rw [TextBox.run_append, r1, Option.bind_some, b1]
  · rw [b2, b3]; exact e1
  · rw [b2]
    refine b4 fun h0 => ?_
    have h0 := congrArg List.length h0
    simp only [List.length_append, List.length_map, List.length_take, List.length_drop, List.length_nil] at h0
    omega

/-- Taking out a stretch. -/
theorem without_stretch {α : Type _} (t : List α) {q c : Nat} (h : q ≤ c) (hc : c ≤ t.length) :
    without (fun n => decide (q ≤ n) && decide (n < c)) t = t.take q ++ t.drop c := by
  have e : t = t.take q ++ ((t.drop q).take (c - q) ++ t.drop c) := by
    rw [show t.drop c = (t.drop q).drop (c - q) by rw [List.drop_drop]; congr 1; omega, List.take_append_drop, List.take_append_drop]
  have l1 : (t.take q).length = q := by rw [List.length_take]; omega
  have l2 : ((t.drop q).take (c - q)).length = c - q := by rw [List.length_take, List.length_drop]; omega
  have all : ∀ (l : List α) (D : Nat → Bool), (∀ p < l.length, D p = true) → without D l = [] := by
    intro l
    induction l with
    | nil => intro D _; rfl
    | cons x l ih =>
      intro D hD
      rw [without, if_pos (hD 0 (by simp))]
      exact ih _ fun p hp => hD (p + 1) (by simpa using hp)
  conv => lhs; rw [e]
  rw [without_append, without_append, without_none (t.take q), all, without_none (t.drop c)]
  · rfl
  · intro p _
    rw [l1, l2]
    simp only [Bool.and_eq_false_iff, decide_eq_false_iff_not]
    omega
  · intro p hp
    rw [l2] at hp
    rw [l1]
    simp only [Bool.and_eq_true, decide_eq_true_eq]
    omega
  · intro p hp
    rw [l1] at hp
    simp only [Bool.and_eq_false_iff, decide_eq_false_iff_not]
    omega

/-- C140 (partial: the character, as ICU sees it in the source, is one that is shown).  Backspace, and the box is left: it shows what it showed
before without this character. -/
theorem C140_backspace_partial (a : App F β φ) (n : Nat) (ha : a.Contract n) (s : TextBox φ) (hs : Editing a.box s) (hr : s.rich = true)
    (o : List (UInt8 × Style F)) (hd : Document a.parser (baseStyle a.font a.color a.stroke) s.text o) :
    ∃ ps : List Nat, ps.length = o.length ∧ ps.Pairwise (· < ·) ∧ ps.map (s.text[·]?) = o.map (some ·.1) ∧
      ∀ (B : Nat → Prop) (q : Nat), Breaks (a.breaks s.text) B → B q → q < s.cursor.1 → (∀ m, B m → m < s.cursor.1 → m ≤ q) →
        (∀ m, q ≤ m → m < s.cursor.1 → m ∈ ps) →
        ∃ s' runs, run a.box s [.backspace false, .blur] = some s' ∧
          s'.ctrl = (stays (fun n => decide (q ≤ n) && decide (n < s.cursor.1)) ps o).map (·.1) ∧
          a.formatted true s'.text = .ok (s'.ctrl, runs) ∧
          ShowsStyles runs (stays (fun n => decide (q ≤ n) && decide (n < s.cursor.1)) ps o) ∧
          (s'.ctrl ≠ [] → buildLayout {} (a.paragraphs s'.ctrl runs) s'.ctrl.length a.yAlign a.height = some s'.layout) := by
  obtain ⟨ps, h1, h2, h3, h4⟩ := C139_delete a.parser s.text a.font a.color a.stroke ha.font o hd
  refine ⟨ps, h1, h2, h3, fun B q hB hq hqc hlast hshown => ?_⟩
  have hg := C89_good a n ha
  obtain ⟨s1, r1, r2, -⟩ := hs.back hg false
  obtain ⟨q', g1, g2, -, -, g3, g4, -⟩ := C53_backspace hs.focused hs.sel hs.ctrl (show Breaks (a.box.breaks s.text) B from hB) (by omega) false
    (hg.spaces _) r1
  obtain rfl : q' = q := Nat.le_antisymm (hlast q' g3 g1) (g4 rfl q hq hqc)
  have hrich : s1.rich = true := by rw [hs.back_rich r1, hr]
  obtain ⟨runs, e1, e2⟩ := h4 (fun n => decide (q' ≤ n) && decide (n < s.cursor.1)) fun p hp => by
    simp only [Bool.and_eq_true, decide_eq_true_eq] at hp
    exact hshown p hp.1 hp.2
  rw [without_stretch _ (by omega) hs.cursor, ← g2] at e1
  obtain ⟨s2, b1, b2, b3, b4⟩ := r2.leave ha hrich e1
  refine ⟨s2, runs, ?_, b2, ?_, e2, fun hne => ?_⟩
  · rw [show [Input.backspace false, .blur] = [.backspace false] ++ [.blur] from rfl, TextBox.run_append]
    simp only [run, r1, Option.bind_some]
    exact b1
  · rw [b2, b3]; exact e1
  · rw [b2] at hne ⊢
    exact b4 hne

/-! The hypotheses are met: the program of C89 with `<u>a</u>z` being edited and the cursor behind the `a`; then `b` and `é` are typed and the box
is left. -/

def editingBox : TextBox Nat where
  rich := true
  focused := true
  text := editMarkup
  cursor := (4, .default)
  ctrl := editMarkup
  layout := demoApp.box.layout false editMarkup

theorem editingBox_editing : Editing demoApp.box editingBox where
  sound := ⟨fun _ _ => rfl, by decide +kernel, by decide +kernel, by decide +kernel, (fun c h => by cases h), fun _ => ⟨rfl, by decide +kernel⟩⟩
  focused := rfl
  editable := rfl
  sel := rfl

example : Document demoApp.parser (baseStyle demoApp.font demoApp.color demoApp.stroke) editingBox.text
    [(c!"a", (baseStyle toyFont toyColor toyStroke).on .underline), (c!"z", baseStyle toyFont toyColor toyStroke)] :=
  ⟨_, Or.inl rfl, .tag .u (.char c!"a" (by decide) (by decide) (.nil _)) (.char c!"z" (by decide) (by decide) (.nil _))⟩

example : (run demoApp.box editingBox [.char 98, .char 233, .blur]).map (fun s => (s.text, s.ctrl, s.layout.glyphs.length)) =
    some (b!"<u>ab" ++ ([0xC3, 0xA9] ++ b!"</u>z"), b!"ab" ++ ([0xC3, 0xA9] ++ b!"z"), 5) := by decide +kernel

/-- The program of C89 with whole characters and accents. -/
def marksApp : App Nat (Nat × Bool) Nat := { demoApp with breaks := marksEnv }

theorem marksApp_contract : marksApp.Contract 1 where
  font := demoApp_contract.font
  size := marksBox_good.size
  breaks := marksBox_good.breaks
  spaces := marksBox_good.spaces
  paragraphs := demoApp_contract.paragraphs
  limit := demoApp_contract.limit

/-- Backspace behind the shown é of `<u>é</u>`, typed in. -/
example : (run marksApp.box { rich := true } ([.focus] ++ (b!"<u>xy").map (fun c => Input.char c.toNat) ++ [.char 233, .backspace false] ++
    (b!"</u>").map (fun c => Input.char c.toNat) ++ [.blur])).map (fun s => (s.text, s.ctrl)) = some (b!"<u>xy</u>", b!"xy") := by decide +kernel

/-- C140 is false as stated: a combining accent at the start of underlined text is one character with the `>` of the tag in front of it, as ICU
sees the source.  So Backspace, which removes this character, leaves no document and all the source is shown. -/
theorem C140_accent_violated : ∃ (a : App Nat (Nat × Bool) Nat) (n : Nat), a.Contract n ∧
    (run a.box { rich := true } ([.focus] ++ (b!"<u>").map (fun c => Input.char c.toNat) ++ [.char 769] ++
      (b!"a</u>").map (fun c => Input.char c.toNat) ++ [.blur])).map (·.ctrl) = some ([0xCC, 0x81] ++ b!"a") ∧
    (run a.box { rich := true } ([.focus] ++ (b!"<u>").map (fun c => Input.char c.toNat) ++ [.char 769, .backspace false] ++
      (b!"a</u>").map (fun c => Input.char c.toNat) ++ [.blur])).map (·.ctrl) = some b!"<ua</u>" :=
  ⟨marksApp, 1, marksApp_contract, by decide +kernel, by decide +kernel⟩

end RichText
