import Verif.Spec.App
import Verif.Proof.Size
import Verif.Props.Built
import Verif.Props.Markup
import Verif.Props.TextBox
/-!
Properties C88 and C89: the size of layouts, and the text box on top of the parser and
the layout builder.
-/
namespace RichText
open Spec
variable {F β φ : Type _}

/-! ## C88 -/

/-- C88: with at most `k` glyphs per byte the layout built for a text of `count` bytes has
at most `k * count` glyphs and `count + 1` runs, and two numbers for each of them. -/
theorem C88_size (L : Layout φ) (ps : List (Paragraph β φ)) (count : Nat) (h : Paragraphs count 0 ps) (k : Nat)
    (hk : Thin k ps) (yAlign : YAlignment) (H : Rat) :
    ∃ L', buildLayout L ps count yAlign H = some L' ∧ L'.glyphs.length ≤ k * count ∧ L'.runs.length ≤ count + 1 ∧
      L'.pos.length = 2 * (L'.glyphs.length + L'.runs.length) := by
  obtain ⟨L', cov, extra, h1, h2, h3, h4, h5⟩ := C32_coverage L ps count h yAlign H
  refine ⟨L', h1, ?_, ?_, ?_⟩
  · unfold buildLayout at h1
    cases ho : paragraphsOps count ps 0 0 with
    | none => rw [ho] at h1; cases h1
    | some ops =>
      rw [ho, Option.bind_some, Option.map_eq_some_iff] at h1
      obtain ⟨L1, e1, rfl⟩ := h1
      have e2 := execLayout_glyphs (show execLayout L.clear ops = some L1 from e1)
      have e3 := (paragraphsOps_glyphs h hk ho).2
      have e4 : L.clear.glyphs.length = 0 := rfl
      show L1.glyphs.length ≤ _
      rw [Nat.sub_zero] at e3
      omega
  · rw [h2, List.length_append]
    have e1 := h3.length_le
    by_cases hl : ∃ p, ps.getLast? = some p ∧ 0 < p.separator
    · obtain ⟨r, rfl, -⟩ := h4 hl
      simp only [List.length_singleton]
      omega
    · have := h5 (fun p hp => Nat.eq_zero_of_not_pos fun h0 => hl ⟨p, hp, h0⟩)
      rw [this, List.length_nil]
      omega
  · obtain ⟨ops, new, rs, g1, g2, g3, g4⟩ := paragraphsOps_spec ps 0 0 h
    have hclear : Stores L.clear ([] : List (LineSpec φ)) [] L.startY := by
      refine ⟨rfl, rfl, rfl, rfl, ?_, rfl, ?_, rfl⟩ <;> intro i r hr <;> simp [allRuns] at hr
    obtain ⟨L1, g5, g6⟩ := steps_stores ops (L := L.clear) (d := ⟨[], [], L.startY⟩) hclear (g4 _ rfl rfl)
    have : L' = L1.alignY H yAlign := by
      unfold buildLayout at h1
      have e : execLayout L (.clear :: ops) = some L1 := g5
      rw [g1, Option.bind_some, e] at h1
      exact (Option.some.inj h1).symm
    subst this
    show L1.pos.length = 2 * (L1.glyphs.length + L1.runs.length)
    rw [g6.pos, g6.glyphs, g6.runCount]
    simp only [List.nil_append, List.append_nil]
    generalize allRuns new = l
    induction l with
    | nil => rfl
    | cons r t ih =>
      simp only [List.flatMap_cons, List.map_append, List.length_append, List.length_cons, List.length_map,
        List.length_nil] at ih ⊢
      have : (r.glyphs.flatMap fun g => [g.x, g.y]).length = 2 * r.glyphs.length := by
        induction r.glyphs with
        | nil => rfl
        | cons a b ih => simp only [List.flatMap_cons, List.length_append, ih, List.length_cons, List.length_nil]; omega
      omega

/-- So positions are counted in 32 bits for texts that are short enough. -/
theorem C88_fits (L : Layout φ) (ps : List (Paragraph β φ)) (count : Nat) (h : Paragraphs count 0 ps) (k : Nat)
    (hk : Thin k ps) (hs : 2 * (k + 1) * (count + 1) < 4294967296) (yAlign : YAlignment) (H : Rat) :
    ∃ L', buildLayout L ps count yAlign H = some L' ∧ L'.pos.length < 4294967296 := by
  obtain ⟨L', h1, h2, h3, h4⟩ := C88_size L ps count h k hk yAlign H
  refine ⟨L', h1, ?_⟩
  have e : 2 * (k + 1) * (count + 1) = 2 * (k * count) + 2 * k + 2 * count + 2 := by ring
  omega

/-! ## C89 -/

/-- The layout built does not depend on the one overwritten. -/
theorem buildLayout_fresh (L L2 : Layout φ) (ps : List (Paragraph β φ)) (count : Nat) (yAlign : YAlignment) (H : Rat) :
    buildLayout L ps count yAlign H = buildLayout L2 ps count yAlign H := by
  unfold buildLayout
  cases paragraphsOps count ps 0 0 with
  | none => rfl
  | some ops =>
    rw [Option.bind_some, Option.bind_some]
    have key : ∀ L : Layout φ, (execLayout L (.clear :: ops)).map (fun L' => L'.alignY H yAlign) =
        (execLayout ({} : Layout φ) ops).map (fun L' => L'.alignY H yAlign) := by
      intro L
      obtain ⟨z, hz⟩ := execLayout_startY ops L.startY ({} : Layout φ)
      have : execLayout L (.clear :: ops) = execLayout (({} : Layout φ).setTextStartY L.startY) ops := rfl
      rw [this, hz, Option.map_map]
      rfl
    rw [key, key]

theorem App.Contract.shownAs {a : App F β φ} {k : Nat} (h : a.Contract k) (rich : Bool) (t : Bytes) :
    AllRunsFit (a.shownAs rich t).2 (a.shownAs rich t).1.length ∧ (a.shownAs rich t).1.length ≤ t.length ∧
      (rich = false → (a.shownAs rich t).1 = t) := by
  have hd : AllRunsFit (makeDefaultRuns t a.font a.color a.stroke).2 t.length :=
    ⟨runsFit_single _ _, runsFit_single _ _, runsFit_single _ _, fun _ => runsFit_single _ _⟩
  unfold App.shownAs App.formatted
  cases rich with
  | false => exact ⟨hd, Nat.le_refl _, fun _ => rfl⟩
  | true =>
    simp only [if_true]
    cases hp : parseInlineFormatting a.parser t a.font a.color a.stroke with
    | error e => exact ⟨hd, Nat.le_refl _, fun h => by cases h⟩
    | ok r =>
      exact ⟨C07_runs_fit _ _ _ _ _ h.font r.1 r.2 hp, C77_length _ _ _ _ _ h.font r hp, fun h => by cases h⟩

/-- The builder is defined on every text the box shows. -/
theorem App.Contract.built {a : App F β φ} {k : Nat} (h : a.Contract k) (rich : Bool) {t : Bytes}
    (hne : (a.shownAs rich t).1 ≠ []) (hs : t.length < a.limit) (L : Layout φ) :
    buildLayout L (a.paragraphs (a.shownAs rich t).1 (a.shownAs rich t).2) (a.shownAs rich t).1.length a.yAlign a.height =
      some (a.box.layout rich t) ∧ LaidOut (a.box.layout rich t) (a.shownAs rich t).1.length := by
  obtain ⟨h1, h2, -⟩ := h.shownAs rich t
  have hlt := Nat.lt_of_le_of_lt h2 hs
  obtain ⟨p1, p2, p3⟩ := h.paragraphs _ _ hne hlt h1
  obtain ⟨l0, l1, l2⟩ := h.limit
  have hps : a.paragraphs (a.shownAs rich t).1 (a.shownAs rich t).2 ≠ [] := by
    intro h0
    rw [h0] at p1
    have p1 : 0 = (a.shownAs rich t).1.length := p1
    exact hne (List.eq_nil_of_length_eq_zero p1.symm)
  obtain ⟨L', e1, e2⟩ := C72_laid_out ({} : Layout φ) _ _ p1 p2 hps (by omega) a.yAlign a.height
  obtain ⟨L'', g1, g2, g3, g4⟩ := C88_size ({} : Layout φ) _ _ p1 k p3 a.yAlign a.height
  rw [e1] at g1
  cases g1
  have hbox : a.box.layout rich t = L' := by
    show (buildLayout {} _ _ _ _).getD {} = L'
    rw [e1]; rfl
  rw [buildLayout_fresh L {}, hbox]
  refine ⟨e1, e2 ?_⟩
  generalize (a.shownAs rich t).1.length = n at *
  have : 2 * (k + 1) * (n + 1) ≤ 2 * (k + 1) * a.limit := Nat.mul_le_mul_left _ hlt
  have e : 2 * (k + 1) * (n + 1) = 2 * (k * n) + 2 * k + 2 * n + 2 := by ring
  by_cases hk : k = 0
  · subst hk; omega
  · omega

/-- C89: the parser and the builder give the text box what its theorems (C52-C54, C64, C65)
ask for. -/
theorem C89_good (a : App F β φ) (k : Nat) (h : a.Contract k) : a.box.Good where
  limit := ⟨h.limit.1, h.limit.2.1⟩
  size := h.size
  breaks := h.breaks
  spaces := h.spaces
  layout := fun t hne hs => by
    have e := (h.shownAs false t).2.2 rfl
    have := (h.built false (by rw [e]; exact hne) hs {}).2
    rw [e] at this
    exact this
  content := fun t => (h.shownAs true t).2.1
  rich := fun t hne hs => (h.built true hne hs {}).2

/-- C89: `recalc_text` with the parser and the builder, whatever layout is overwritten, is the
`recalc_text` of the text box's model, unless a buffer of the parser is overrun (C12). -/
theorem C89_recalc (a : App F β φ) (k : Nat) (h : a.Contract k) (s : TextBox φ) (hs : s.text.length < a.limit)
    (hsafe : s.showsRich = true → Safe a.parser s.text) : a.recalc s = TextBox.recalc a.box s := by
  have hf : a.formatted s.showsRich s.text = .ok (a.shownAs s.showsRich s.text) := by
    unfold App.shownAs
    cases hp : a.formatted s.showsRich s.text with
    | ok r => rfl
    | error e =>
      unfold App.formatted at hp
      split at hp
      · rename_i hr
        cases e with
        | fuel => exact absurd hp (C07_returns _ _ _ _ _ h.font).1
        | stack => exact absurd hp (C07_returns _ _ _ _ _ h.font).2
        | overrun => exact absurd hp (C12_no_overrun_partial _ _ _ _ _ h.font (hsafe hr))
      · cases hp
  have htext : (if s.showsRich = true then a.box.content s.text else s.text) = (a.shownAs s.showsRich s.text).1 := by
    cases hr : s.showsRich with
    | true => rfl
    | false => exact ((h.shownAs false s.text).2.2 rfl).symm
  unfold App.recalc TextBox.recalc
  rw [hf]
  simp only [htext]
  by_cases hne : (a.shownAs s.showsRich s.text).1 = []
  · rw [if_pos hne, if_pos hne]; rfl
  · rw [if_neg hne, if_neg hne, (h.built s.showsRich hne hs s.layout).1, Option.bind_some]
    show Option.map _ _ = _
    cases hc : (a.box.layout s.showsRich s.text).cursorPixelPos a.width a.align s.cursor.1 s.cursor.2 with
    | none => simp only [Option.map_none]; rw [show a.box.width = a.width from rfl, show a.box.align = a.align from rfl, hc]
    | some info =>
      simp only [Option.map_some]; rw [show a.box.width = a.width from rfl, show a.box.align = a.align from rfl, hc]

/-- C89: so, with only the libraries assumed, every history of allowed inputs to a new box is
defined, and cursor and selection stay inside the text (as C52, for the whole program). -/
theorem C89_inside_partial (a : App F β φ) (k : Nat) (h : a.Contract k) (is : List TextBox.Input)
    (hall : ∀ pre i post s', is = pre ++ i :: post → TextBox.run a.box {} pre = some s' → TextBox.Allowed a.box s' i) :
    ∃ s', TextBox.run a.box {} is = some s' ∧ s'.cursor.1 ≤ s'.text.length ∧ ∀ c, s'.sel = some c → c.1 ≤ s'.text.length := by
  obtain ⟨s', h1, -, h2, h3⟩ := C52_inside_partial (C89_good a k h) is (s := {}) (.inl (sound_new (C89_good a k h))) hall
  exact ⟨s', h1, h2, h3⟩

/-- Text of one paragraph, left to right, one glyph per byte. -/
def demoApp : App Nat (Nat × Bool) Nat where
  parser := toyEnv
  font := toyFont
  color := toyColor
  stroke := toyStroke
  breaks t := asciiEnv (t.map UInt8.toNat)
  paragraphs t _ := [⟨t.length, 0, demoEnv 0 t.length fun s t => [⟨s, t - s, 0⟩], [(t.length, (0, false))], 5, ⟨8, -2⟩⟩]
  width := 100
  height := 50
  align := .left
  yAlign := .top
  emptyHeight := 10
  limit := 1000000000

theorem demoApp_contract : demoApp.Contract 1 where
  font := ⟨0, 3, .normal, 16, by decide, rfl⟩
  size := monoEnv_good.size
  breaks := monoEnv_good.breaks
  spaces := monoEnv_good.spaces
  paragraphs := fun t runs hne _ _ => by
    have hlen := List.length_pos_iff.2 hne
    refine ⟨⟨Nat.zero_le _, hlen, fun h => absurd rfl h, fun _ => ⟨demoEnv_ok 0 t.length _ _ hlen ⟨by simp, by simp⟩ ?_, rfl, rfl⟩, by
      show 0 + t.length = t.length; omega⟩, ?_, ?_⟩
    · intro s e h1 h2 h3
      exact Partition.single (by simp [BidiRun.range]; omega) h2
    · intro p hp _
      simp only [demoApp, List.mem_singleton] at hp
      subst hp
      exact demoEnv_placed ..
    · intro p hp _ f v a b hab
      simp only [demoApp, List.mem_singleton] at hp
      subst hp
      simp only [demoEnv, revIf]
      split <;> simp
  limit := by decide

/-- Typing `<u>xy</u>` into a box of rich text and leaving it shows "xy", laid out by the builder. -/
example : (TextBox.run demoApp.box { rich := true } ([.focus] ++ (b!"<u>xy</u>".map fun c => TextBox.Input.char c.toNat) ++ [.blur])).map
    (fun s => (s.ctrl, s.layout.glyphs)) = some (b!"xy", [100, 101]) := by decide +kernel

end RichText
