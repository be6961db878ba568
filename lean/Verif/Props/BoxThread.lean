import Verif.Proof.BoxThreadRun
/-!
C123: the text box of the sample in a thread with fonts.
-/
namespace RichText
open Spec BuildLibs
namespace ThreadApp
variable {F : Type}

/-- **C123, box.**  A text box is made in any thread whose blanks were measured at sizes above zero, whatever fonts it has used before,
gets a text, and then any inputs as C52 admits them: everything is defined, the thread stays as it was asked to be, and for some
advances of the blanks, which are those that the thread knows now, the box is in the state that the text box of C52-C54, C64, C65 and
C91 is in after the same inputs, with libraries that keep their contracts; so cursor and selection are inside the text.  Missing:
markup with faces that cannot be loaded or small caps that change their length (`Served`), and the inputs
that C52 leaves out. -/
theorem C123_box_partial (a : ThreadApp F) (starts : Bytes → Nat → Nat → Nat → Prop) (k : Nat) (h : a.Contract starts k)
    (rich multiLine editable : Bool) (text : Bytes) (hlt : text.length < a.limit) (hrich : rich = true → a.Served starts k text)
    (is : List TextBox.Input) (t : FontThread) (ht : FontRun a.libs.lib a.libs.reg t) (hbl : Blanks a.libs.lib t)
    (hall : ∀ t0 s0, TextBox.setTextT a.recalc { rich := rich, multiLine := multiLine, editable := editable } text t = some (t0, s0) →
      ∀ pre i post t' s', is = pre ++ i :: post → a.run s0 pre t0 = some (t', s') → a.Admitted starts k s' i) :
    ∃ t0 s0 t' s' space,
      TextBox.setTextT a.recalc { rich := rich, multiLine := multiLine, editable := editable } text t = some (t0, s0) ∧
      a.run s0 is t0 = some (t', s') ∧ FontRun a.libs.lib a.libs.reg t' ∧ Blanks a.libs.lib t' ∧
      (∀ h o, t'.cache.lookup h = some o → o.spaceAdvance = space h) ∧ (a.pure starts k space).Contract k ∧
      TextBox.setText (a.pure starts k space).box { rich := rich, multiLine := multiLine, editable := editable } text = some s0 ∧
      TextBox.run (a.pure starts k space).box s0 is = some s' ∧
      s'.cursor.1 ≤ s'.text.length ∧ ∀ c, s'.sel = some c → c.1 ≤ s'.text.length := by
  have hv : ∀ x, BlankOf a.libs x → ∃ s0, TextBox.recalc (a.pure starts k x).box
      { rich := rich, multiLine := multiLine, editable := editable, text := text } = some s0 ∧
      TextBox.Valid (a.pure starts k x).box s0 := by
    intro x hx
    by_cases hm : rich = true ∧ editable = true
    · obtain ⟨s0, h1, h2, h3⟩ := TextBox.recalc_shows (h.good hx)
        (s := { rich := rich, multiLine := multiLine, editable := editable, text := text }) hlt
      refine ⟨s0, h1, .inr ⟨?_, h2.small, ?_, ?_⟩⟩
      · rw [h3]; exact ⟨hm.1, hm.2, rfl⟩
      · rw [h3]; exact Nat.zero_le _
      · rw [h3]; intro c hc; cases hc
    · obtain ⟨s0, h1, h2, _⟩ := TextBox.recalc_sound (h.good hx)
        (s := { rich := rich, multiLine := multiLine, editable := editable, text := text })
        (fun e1 e2 => absurd ⟨e1, e2⟩ hm) hlt (Nat.zero_le _) (fun c hc => by cases hc)
      exact ⟨s0, h1, .inl h2⟩
  have hg : ∀ x, (TextBox.pureRec (TextBox.guarded (a.pure starts k x).box (a.Served starts k))
      { rich := rich, multiLine := multiLine, editable := editable, text := text } : Call Unit _) =
      .lift (TextBox.recalc (a.pure starts k x).box { rich := rich, multiLine := multiLine, editable := editable, text := text }) := by
    intro x
    unfold TextBox.pureRec
    rw [TextBox.guarded_pos (s := { rich := rich, multiLine := multiLine, editable := editable, text := text }) hlt (fun hs => hrich hs)]
  obtain ⟨t0, s0, h1, h2, h3⟩ := h.recalc { rich := rich, multiLine := multiLine, editable := editable, text := text } t ⟨ht, hbl⟩
    (fun x hx => by
      obtain ⟨s0, e, _⟩ := hv x hx.2
      exact ⟨s0, by simp only [hg, e]; rfl⟩)
  have h3' : ∀ x, (guessing a.libs).cons t0 x → TextBox.recalc (a.pure starts k x).box
      { rich := rich, multiLine := multiLine, editable := editable, text := text } = some s0 ∧
      TextBox.Valid (a.pure starts k x).box s0 := by
    intro x hx
    have := h3 x hx
    simp only [hg] at this
    obtain ⟨s1, e1, e2⟩ := hv x hx.2
    rw [e1] at this ⊢
    cases this
    exact ⟨rfl, e2⟩
  have hok : (guessing a.libs).ok t0 := (guessing a.libs).keep _ _ ⟨ht, hbl⟩ h2
  obtain ⟨t', s', g1, g2, g3⟩ := h.run is hok (fun x hx => (h3' x hx).2) (hall t0 s0 h1)
  obtain ⟨hok1, hok2⟩ := (guessing a.libs).keep _ _ hok g2
  obtain ⟨x, hx⟩ := h.some t' ⟨hok1, hok2⟩
  obtain ⟨e1, e2⟩ := g3 x hx
  obtain ⟨c1, c2⟩ := e2.cursor (h.good hx.2)
  exact ⟨t0, s0, t', s', x, h1, g1, hok1, hok2, hx.1, h.pure hx.2, (h3' x ((guessing a.libs).before _ _ _ g2 hx)).1, e1, c1, c2⟩

/-- **C123, transcription.**  With a `recalc_text` that does not use the thread, the handlers in a thread are those of the text box
(C52). -/
theorem C123_transcription (e : BoxEnv SingleScriptFont) (is : List TextBox.Input) (s : TextBox SingleScriptFont) (t : FontThread) :
    TextBox.runT e (TextBox.pureRec (TextBox.recalc e)) s is t = (TextBox.run e s is).map fun s' => (t, s') := by
  rw [TextBox.runT_pure]
  rfl

/-! ### A text box -/

/-- A box in the font `demoFont`. -/
def demoThreadApp : ThreadApp Nat where
  libs := demoBuild true
  parser := toyEnv
  font := demoFont
  color := toyColor
  stroke := toyStroke
  breaks t := asciiEnv (t.map UInt8.toNat)
  width := 100
  height := 50
  align := .left
  yAlign := .top
  limit := 1000000000

theorem demoThreadApp_contract : demoThreadApp.Contract (fun _ _ _ _ => True) 1 where
  libs := demoBuild_proper true _
  shapes := demoBuild_shapes true _
  size := monoEnv_good.size
  breaks := monoEnv_good.breaks
  spaces := monoEnv_good.spaces
  limit := by decide
  font := ⟨0, 3, .normal, 16, by decide, rfl⟩
  serves := demoFont_serves true 16 (by decide)

/-- Focus, typing, moving, a selection to the left, deleting it, leaving the box. -/
def demoInputs : List TextBox.Input := [.focus, .char 0x61, .char 0x62, .char 0x63, .left false false, .left true false, .backspace false, .blur]

/-- The inputs are admitted one after the other. -/
def demoCheck (s : TextBox SingleScriptFont) (t : FontThread) (is : List TextBox.Input) : Bool :=
  (List.range is.length).all fun n =>
    match is[n]?, demoThreadApp.run s (is.take n) t with
    | some i, some (_, s') => decide ((s'.shown demoThreadApp.moving ≠ [] ∨ i.moves = false) ∧
        (i.edits = true → s'.editable = true ∨ s'.rich = false) ∧ (match i with | .paste => false | _ => true) = true ∧
        s'.text.length + s'.growth i < demoThreadApp.limit) && !s'.rich
    | _, _ => true

theorem demoCheck_admitted {s : TextBox SingleScriptFont} {t : FontThread} {is : List TextBox.Input} (h : demoCheck s t is = true) :
    ∀ pre i post t' s', is = pre ++ i :: post → demoThreadApp.run s pre t = some (t', s') →
      demoThreadApp.Admitted (fun _ _ _ _ => True) 1 s' i := by
  intro pre i post t' s' he hr
  have h1 := List.all_eq_true.1 h pre.length (by rw [he]; simp)
  have h2 : is[pre.length]? = some i := by rw [he]; simp
  have h3 : is.take pre.length = pre := by rw [he]; simp
  rw [h2, h3, hr] at h1
  simp only [Bool.and_eq_true, decide_eq_true_eq, Bool.not_eq_true'] at h1
  obtain ⟨⟨g1, g2, g3, g4⟩, g5⟩ := h1
  refine ⟨⟨g1, g2, fun e => (by rw [e] at g3; cases g3), g4⟩, fun _ e => ?_⟩
  rw [g5] at e; cases e

/-- The hypotheses are met. -/
example : ∃ t0 s0 t' s', TextBox.setTextT demoThreadApp.recalc {} b!"a\tb" .init = some (t0, s0) ∧
    demoThreadApp.run s0 demoInputs t0 = some (t', s') := by
  obtain ⟨t0, s0, t', s', _, h1, h2, _⟩ := C123_box_partial demoThreadApp (fun _ _ _ _ => True) 1 demoThreadApp_contract false true true
    b!"a\tb" (by decide) (by intro h; cases h) demoInputs .init (.start demoRegistry_steps) (blanks_init _) (by
      intro t0 s0 h
      apply demoCheck_admitted
      have hc : (match TextBox.setTextT demoThreadApp.recalc {} b!"a\tb" .init with
        | some (t0, s0) => demoCheck s0 t0 demoInputs
        | none => true) = true := by decide +kernel
      have h' : TextBox.setTextT demoThreadApp.recalc {} b!"a\tb" .init = some (t0, s0) := h
      rw [h'] at hc
      exact hc)
  exact ⟨t0, s0, t', s', h1, h2⟩

/-- "ac" and the text from before, two lines. -/
example : ((TextBox.setTextT demoThreadApp.recalc {} b!"a\tb" .init).bind fun x => demoThreadApp.run x.2 demoInputs x.1).map
    (fun x => (x.2.text, x.2.cursor.1, x.2.layout.lines.length)) = some (b!"aca\tb", 1, 2) := by decide +kernel

/-- Markup with another size, shown and served. -/
def demoMarkup : Bytes := b!"a<font size=\"20\">x</font>b"

example : demoThreadApp.Served (fun _ _ _ _ => True) 1 demoMarkup := by
  intro hne
  obtain ⟨x, hx⟩ := demoThreadApp_contract.some .init ⟨.start demoRegistry_steps, blanks_init _⟩
  obtain ⟨h1, h2, _⟩ := (demoThreadApp_contract.pure hx.2).shownAs true demoMarkup
  refine C122_fonts _ _ 1000000000 1 (demoBuild_proper true _) (demoBuild_shapes true _) _ hne
    (Nat.lt_of_le_of_lt h2 (by decide +kernel)) _ h1 ?_ ?_
  · intro f hf
    have h : ∀ f ∈ ((demoThreadApp.app (fun _ _ => []) 0).shownAs true demoMarkup).2.font.values, f.face = demoFont.face ∧
        2 ≤ f.size.toNat ∧ f.size.toNat < 2 ^ 20 := by decide +kernel
    obtain ⟨g1, g2⟩ := h f hf
    obtain ⟨face, size⟩ := f
    simp only at g1 g2
    subst g1
    exact demoFont_serves true size g2
  · have h : ∀ x ∈ (((demoThreadApp.app (fun _ _ => []) 0).shownAs true demoMarkup).2.flags .smallcaps).values, x = false := by
      decide +kernel
    exact h

end ThreadApp
end RichText
