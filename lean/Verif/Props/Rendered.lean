import Verif.Model.Render
import Verif.Props.App
import Verif.Props.Drawn
import Verif.Props.DrawSelection
/-!
C141: what a text box shows is a matter of its text, not of its history.
-/
namespace RichText
open Spec

namespace TextBox
variable {φ σ : Type}

/-- A fact about a box and what `recalc_text` keeps, that `recalc_text` brings about and that the other statements of the handlers leave alone. -/
structure Refreshed (e : BoxEnv φ) (rec : Recalc φ σ) (P : σ → TextBox φ → Prop) : Prop where
  recalc : ∀ s f f' s', rec s f = some (f', s') → P f' s'
  move : ∀ f s c b s', P f s → setCursor e s c b = some s' → P f s'
  drag : ∀ f s d, P f s → P f { s with drag := d }
  clip : ∀ f s c, P f s → P f { s with clip := c }

variable {e : BoxEnv φ} {rec : Recalc φ σ} {P : σ → TextBox φ → Prop}

theorem lift_some {α : Type} {x : Option α} {f f' : σ} {a : α} (h : (Call.lift x : Call σ α) f = some (f', a)) : f' = f ∧ x = some a := by
  cases x with
  | none => cases h
  | some b => cases h; exact ⟨rfl, rfl⟩

theorem bind_some {α β : Type} {m : Call σ α} {g : α → Call σ β} {f f' : σ} {b : β} (h : (m.bind g) f = some (f', b)) :
    ∃ f1 a, m f = some (f1, a) ∧ g a f1 = some (f', b) := by
  unfold Call.bind at h
  split at h
  · cases h
  · rename_i f1 a hm
    exact ⟨f1, a, hm, h⟩

namespace Refreshed

theorem setText (h : Refreshed e rec P) {s s' : TextBox φ} {t : Bytes} {f f' : σ} (hr : setTextT rec s t f = some (f', s')) : P f' s' :=
  h.recalc _ _ _ _ hr

theorem removeText (h : Refreshed e rec P) {s s' : TextBox φ} {a b : Nat} {f f' : σ} (hr : removeTextT rec s a b f = some (f', s')) : P f' s' := by
  unfold removeTextT at hr
  split at hr
  · exact h.setText hr
  · cases (lift_some hr).2

theorem removeHighlighted (h : Refreshed e rec P) {s s' : TextBox φ} {f f' : σ} (hs : P f s) (hr : removeHighlightedT rec s f = some (f', s')) :
    P f' s' := by
  unfold removeHighlightedT at hr
  cases hsel : s.sel with
  | none =>
    rw [hsel] at hr
    obtain ⟨rfl, hx⟩ := lift_some hr
    cases hx; exact hs
  | some c =>
    rw [hsel] at hr
    simp only at hr
    split at hr
    · obtain ⟨rfl, hx⟩ := lift_some hr
      cases hx; exact hs
    · split at hr
      · exact h.removeText hr
      · exact h.removeText hr

theorem insertText (h : Refreshed e rec P) {s s' : TextBox φ} {t : Bytes} {a : Nat} {f f' : σ} (hr : insertTextT rec s t a f = some (f', s')) :
    P f' s' := by
  unfold insertTextT at hr
  split at hr <;> exact h.setText hr

theorem insertTyped (h : Refreshed e rec P) {s s' : TextBox φ} {c : Nat} {f f' : σ} (hr : insertTypedT rec s c f = some (f', s')) : P f' s' := by
  obtain ⟨f1, s1, -, h2⟩ := bind_some hr
  exact h.insertText h2

/-- Movements. -/
theorem nextCharacter (h : Refreshed e rec P) {s s' : TextBox φ} {b : Bool} {f : σ} (hs : P f s) (hr : TextBox.nextCharacter e s b = some s') : P f s' :=
  h.move _ _ _ _ _ hs hr

theorem prevCharacter (h : Refreshed e rec P) {s s' : TextBox φ} {b : Bool} {f : σ} (hs : P f s) (hr : TextBox.prevCharacter e s b = some s') : P f s' :=
  h.move _ _ _ _ _ hs hr

theorem nextWord (h : Refreshed e rec P) {s s' : TextBox φ} {b : Bool} {f : σ} (hs : P f s) (hr : TextBox.nextWord e s b = some s') : P f s' := by
  unfold TextBox.nextWord at hr
  split at hr
  · cases hr
  · exact h.move _ _ _ _ _ hs hr

theorem prevWord (h : Refreshed e rec P) {s s' : TextBox φ} {b : Bool} {f : σ} (hs : P f s) (hr : TextBox.prevWord e s b = some s') : P f s' := by
  unfold TextBox.prevWord at hr
  split at hr
  · cases hr
  · exact h.move _ _ _ _ _ hs hr

theorem nextLine (h : Refreshed e rec P) {s s' : TextBox φ} {b : Bool} {f : σ} (hs : P f s) (hr : TextBox.nextLine e s b = some s') : P f s' := by
  unfold TextBox.nextLine at hr
  split at hr
  · split at hr
    · cases hr
    · exact h.move _ _ _ _ _ hs hr
  · exact h.move _ _ _ _ _ hs hr

theorem prevLine (h : Refreshed e rec P) {s s' : TextBox φ} {b : Bool} {f : σ} (hs : P f s) (hr : TextBox.prevLine e s b = some s') : P f s' := by
  unfold TextBox.prevLine at hr
  split at hr
  · split at hr
    · cases hr
    · exact h.move _ _ _ _ _ hs hr
  · exact h.move _ _ _ _ _ hs hr

theorem lineStart (h : Refreshed e rec P) {s s' : TextBox φ} {b : Bool} {f : σ} (hs : P f s) (hr : TextBox.lineStart e s b = some s') : P f s' := by
  unfold TextBox.lineStart at hr
  split at hr
  · cases hr
  · exact h.move _ _ _ _ _ hs hr

theorem lineEnd (h : Refreshed e rec P) {s s' : TextBox φ} {b : Bool} {f : σ} (hs : P f s) (hr : TextBox.lineEnd e s b = some s') : P f s' := by
  unfold TextBox.lineEnd at hr
  split at hr
  · cases hr
  · exact h.move _ _ _ _ _ hs hr

theorem textStart (h : Refreshed e rec P) {s s' : TextBox φ} {b : Bool} {f : σ} (hs : P f s) (hr : TextBox.textStart e s b = some s') : P f s' :=
  h.move _ _ _ _ _ hs hr

theorem textEnd (h : Refreshed e rec P) {s s' : TextBox φ} {b : Bool} {f : σ} (hs : P f s) (hr : TextBox.textEnd e s b = some s') : P f s' :=
  h.move _ _ _ _ _ hs hr

theorem toMouse (h : Refreshed e rec P) {s s' : TextBox φ} {x y : Rat} {b : Bool} {f : σ} (hs : P f s) (hr : TextBox.toMouse e s x y b = some s') :
    P f s' := by
  unfold TextBox.toMouse at hr
  split at hr
  · cases hr
  · exact h.move _ _ _ _ _ hs hr

theorem selectBetween {f : σ} {a b : TextBox φ → Bool → Option (TextBox φ)} (ha : ∀ s c s', P f s → a s c = some s' → P f s')
    (hb : ∀ s c s', P f s → b s c = some s' → P f s') {s s' : TextBox φ} (hs : P f s) (hr : TextBox.selectBetween a b s = some s') : P f s' := by
  unfold TextBox.selectBetween at hr
  split at hr
  · cases hr
  · rename_i s1 h1
    exact hb _ _ _ (ha _ _ _ hs h1) hr

theorem clickSelect (h : Refreshed e rec P) {s s' : TextBox φ} {n : Nat} {f : σ} (hs : P f s) (hr : TextBox.clickSelect e s n = some s') : P f s' := by
  unfold TextBox.clickSelect at hr
  split at hr
  · exact selectBetween (fun _ _ _ => h.prevWord) (fun _ _ _ => h.nextWord) hs hr
  · exact selectBetween (fun _ _ _ => h.lineStart) (fun _ _ _ => h.lineEnd) hs hr
  · exact selectBetween (fun _ _ _ => h.textStart) (fun _ _ _ => h.textEnd) hs hr
  · cases hr; exact hs

theorem copy (h : Refreshed e rec P) {s s' : TextBox φ} {f : σ} (hs : P f s) (hr : TextBox.copy s = some s') : P f s' := by
  unfold TextBox.copy at hr
  split at hr
  · cases hr; exact hs
  · simp only at hr
    split at hr
    · cases hr; exact hs
    · split at hr
      · cases hr; exact h.clip _ _ _ hs
      · cases hr

theorem backspace (h : Refreshed e rec P) {s s' : TextBox φ} {b : Bool} {f f' : σ} (hs : P f s) (hr : backspaceT e rec s b f = some (f', s')) :
    P f' s' := by
  unfold backspaceT at hr
  split at hr
  · exact h.removeHighlighted hs hr
  · split at hr
    · obtain ⟨f1, s1, -, h2⟩ := bind_some hr
      exact h.removeText h2
    · obtain ⟨rfl, hx⟩ := lift_some hr
      cases hx; exact hs

theorem delete (h : Refreshed e rec P) {s s' : TextBox φ} {b : Bool} {f f' : σ} (hs : P f s) (hr : deleteT e rec s b f = some (f', s')) :
    P f' s' := by
  unfold deleteT at hr
  split at hr
  · exact h.removeHighlighted hs hr
  · split at hr
    · obtain ⟨f1, s1, -, h2⟩ := bind_some hr
      exact h.removeText h2
    · obtain ⟨rfl, hx⟩ := lift_some hr
      cases hx; exact hs

theorem blur (h : Refreshed e rec P) {s s' : TextBox φ} {f f' : σ} (hs : P f s) (hr : blurT rec s f = some (f', s')) : P f' s' := by
  unfold blurT at hr
  split at hr
  · exact h.recalc _ _ _ _ hr
  · obtain ⟨rfl, hx⟩ := lift_some hr
    cases hx; exact hs

theorem focus (h : Refreshed e rec P) {s s' : TextBox φ} {f f' : σ} (hs : P f s) (hr : focusT rec s f = some (f', s')) : P f' s' := by
  unfold focusT at hr
  split at hr
  · obtain ⟨rfl, hx⟩ := lift_some hr
    cases hx; exact hs
  · exact h.recalc _ _ _ _ hr

theorem enter (h : Refreshed e rec P) {s s' : TextBox φ} {f f' : σ} (hs : P f s) (hr : enterT rec s f = some (f', s')) : P f' s' := by
  unfold enterT at hr
  split at hr
  · obtain ⟨f1, s1, -, h2⟩ := bind_some hr
    exact h.insertTyped h2
  · exact h.blur hs hr

theorem cut (h : Refreshed e rec P) {s s' : TextBox φ} {f f' : σ} (hs : P f s) (hr : cutT rec s f = some (f', s')) : P f' s' := by
  unfold cutT at hr
  split at hr
  · obtain ⟨rfl, hx⟩ := lift_some hr
    cases hx; exact hs
  · obtain ⟨f1, s1, h1, h2⟩ := bind_some hr
    obtain ⟨rfl, hx⟩ := lift_some h1
    exact h.removeHighlighted (h.copy hs hx) h2

theorem paste (h : Refreshed e rec P) {s s' : TextBox φ} {f f' : σ} (hs : P f s) (hr : pasteT rec s f = some (f', s')) : P f' s' := by
  unfold pasteT at hr
  split at hr
  · obtain ⟨rfl, hx⟩ := lift_some hr
    cases hx; exact hs
  · obtain ⟨f1, s1, -, h2⟩ := bind_some hr
    obtain ⟨f2, t, -, h3⟩ := bind_some h2
    exact h.insertText h3

theorem press (h : Refreshed e rec P) {s s' : TextBox φ} {x y : Rat} {b : Bool} {n : Nat} {f f' : σ} (hs : P f s)
    (hr : pressT e rec s x y b n f = some (f', s')) : P f' s' := by
  unfold pressT at hr
  split at hr
  · obtain ⟨rfl, hx⟩ := lift_some hr
    obtain ⟨s1, h1, h2⟩ := Option.bind_eq_some_iff.1 hx
    obtain ⟨s2, h3, rfl⟩ := Option.map_eq_some_iff.1 h2
    exact h.drag _ _ _ (h.clickSelect (h.toMouse hs h1) h3)
  · obtain ⟨f1, s1, h1, h2⟩ := bind_some hr
    obtain ⟨f2, s2, h3, h4⟩ := bind_some h2
    obtain ⟨rfl, hx⟩ := lift_some h3
    exact h.focus (h.drag _ _ _ (h.toMouse (h.recalc _ _ _ _ h1) hx)) h4

theorem moves (h : Refreshed e rec P) {s s' : TextBox φ} {i : Input} {f : σ} (hs : P f s) (hi : (i matches .backspace _ | .delete _ | .enter | .tab | .cut | .paste) = false)
    (hr : key e s i = some s') : P f s' := by
  cases i with
  | up b => exact h.prevLine hs hr
  | down b => exact h.nextLine hs hr
  | left b c =>
    simp only [key] at hr
    split at hr
    · exact h.prevWord hs hr
    · exact h.prevCharacter hs hr
  | right b c =>
    simp only [key] at hr
    split at hr
    · exact h.nextWord hs hr
    · exact h.nextCharacter hs hr
  | home b c =>
    simp only [key] at hr
    split at hr
    · exact h.textStart hs hr
    · exact h.lineStart hs hr
  | «end» b c =>
    simp only [key] at hr
    split at hr
    · exact h.textEnd hs hr
    · exact h.lineEnd hs hr
  | copy => exact h.copy hs hr
  | selectAll => exact selectBetween (fun _ _ _ => h.textStart) (fun _ _ _ => h.textEnd) hs hr
  | backspace | delete | enter | tab | cut | paste => simp at hi
  | char | press | move | release | focus | blur => simp only [key] at hr; cases hr; exact hs

theorem handle (h : Refreshed e rec P) {s s' : TextBox φ} {i : Input} {f f' : σ} (hs : P f s) (hr : handleT e rec s i f = some (f', s')) : P f' s' := by
  have same : ∀ {x : Option (TextBox φ)}, x = some s → (Call.lift x : Call σ _) f = some (f', s') → P f' s' := by
    intro x hx hr
    obtain ⟨rfl, hy⟩ := lift_some hr
    rw [hx] at hy
    cases hy; exact hs
  have keyed : ∀ i, (if s.focused then keyT e rec s i else .lift (some s)) f = some (f', s') → P f' s' := by
    intro i hr
    split at hr
    · cases i with
      | backspace b => exact h.backspace hs hr
      | delete b => exact h.delete hs hr
      | enter => exact h.enter hs hr
      | tab => exact h.insertTyped hr
      | cut => exact h.cut hs hr
      | paste => exact h.paste hs hr
      | _ =>
        obtain ⟨rfl, hx⟩ := lift_some hr
        exact h.moves hs rfl hx
    · exact same rfl hr
  cases i with
  | press x y b n => exact h.press hs hr
  | release =>
    obtain ⟨rfl, hx⟩ := lift_some hr
    split at hx
    · cases hx; exact h.drag _ _ _ hs
    · cases hx; exact hs
  | move x y =>
    simp only [handleT] at hr
    split at hr
    · obtain ⟨rfl, hx⟩ := lift_some hr
      exact h.toMouse hs hx
    · exact same rfl hr
  | char c =>
    simp only [handleT] at hr
    split at hr
    · exact h.insertTyped hr
    · exact same rfl hr
  | focus => exact h.focus hs hr
  | blur => exact h.blur hs hr
  | _ => exact keyed _ hr

theorem run (h : Refreshed e rec P) : ∀ (is : List Input) {s s' : TextBox φ} {f f' : σ}, P f s → runT e rec s is f = some (f', s') → P f' s'
  | [], s, s', f, f', hs, hr => by
    obtain ⟨rfl, hx⟩ := lift_some hr
    cases hx; exact hs
  | i :: is, s, s', f, f', hs, hr => by
    obtain ⟨f1, s1, h1, h2⟩ := bind_some hr
    exact run h is (h.handle hs h1) h2

end Refreshed
end TextBox

namespace App
variable {F β φ : Type}

/-- What a box shows, by its text, how it is read and the cursor: the content, the formatting, the layout and the place of the caret.
(The parser, `make_default_formatting_runs`, `build_layout_info` from nothing and `get_cursor_pixel_pos`.) -/
structure Shows (a : App F β φ) (f : FormattingRuns F) (s : TextBox φ) : Prop where
  content : a.formatted s.showsRich s.text = .ok (s.ctrl, f)
  layout : s.ctrl ≠ [] → buildLayout {} (a.paragraphs s.ctrl f) s.ctrl.length a.yAlign a.height = some s.layout
  caret : s.ctrl ≠ [] → s.layout.cursorPixelPos a.width a.align s.cursor.1 s.cursor.2 = some s.info

theorem shows_refreshed (a : App F β φ) : TextBox.Refreshed a.box a.recalcF a.Shows where
  recalc s f f' s' h := by
    unfold recalcF at h
    cases hf : a.formatted s.showsRich s.text with
    | error e => rw [hf] at h; cases h
    | ok r =>
      rw [hf] at h
      obtain ⟨s1, h1, h2⟩ := Option.map_eq_some_iff.1 h
      cases h2
      unfold recalc at h1
      rw [hf] at h1
      simp only at h1
      split at h1
      · rename_i hr
        cases h1
        exact ⟨hf, fun h => absurd hr h, fun h => absurd hr h⟩
      · obtain ⟨L, hL, h3⟩ := Option.bind_eq_some_iff.1 h1
        obtain ⟨info, hi, rfl⟩ := Option.map_eq_some_iff.1 h3
        exact ⟨hf, fun _ => by rw [← hL]; exact buildLayout_fresh _ _ _ _ _ _, fun _ => hi⟩
  move f s c b s' h hr := by
    unfold TextBox.setCursor at hr
    simp only at hr
    split at hr
    · cases hr
    · rename_i info hi
      cases hr
      exact ⟨h.content, h.layout, fun _ => hi⟩
  drag f s d h := ⟨h.content, h.layout, h.caret⟩
  clip f s c h := ⟨h.content, h.layout, h.caret⟩

/-- C141: after any setter (each ends in `recalc_text`) and any inputs, what the box keeps is what a new box with the same text, read the
same way, would keep. -/
theorem C141_shows (a : App F β φ) {s0 s s' : TextBox φ} {f0 f f' : FormattingRuns F} (hset : a.recalcF s0 f0 = some (f, s))
    (is : List TextBox.Input) (hrun : a.runF s is f = some (f', s')) : a.Shows f' s' :=
  (shows_refreshed a).run is ((shows_refreshed a).recalc _ _ _ _ hset) hrun

variable [DecidableEq (Color F)]

/-- C141: so two boxes with the same text, selection and state of the caret draw the same frame, whatever happened to them before,
as long as there is something to show. -/
theorem C141_same (a : App F β φ) {f g : FormattingRuns F} {s t : TextBox φ} (hs : a.Shows f s) (ht : a.Shows g t) (htext : s.text = t.text)
    (hrich : s.showsRich = t.showsRich) (hcur : s.cursor = t.cursor) (hsel : s.sel = t.sel) (hfoc : s.focused = t.focused)
    (hflash : s.flash = t.flash) : s.ctrl = t.ctrl ∧ f = g ∧ (s.ctrl ≠ [] → s.layout = t.layout ∧ s.info = t.info ∧
      ∀ p black visible metrics x y, a.render p black visible metrics x y f s = a.render p black visible metrics x y g t) := by
  have h1 := hs.content
  rw [htext, hrich, ht.content] at h1
  have h0 : t.ctrl = s.ctrl ∧ g = f := by injection h1 with h1; exact Prod.mk.inj h1
  obtain ⟨hc, rfl⟩ := h0
  refine ⟨hc.symm, rfl, fun hne => ?_⟩
  have h2 := hs.layout hne
  rw [← hc, ht.layout (hc ▸ hne)] at h2
  have h2 := Option.some.inj h2
  have h3 := hs.caret hne
  rw [← h2, hcur, ht.caret (hc ▸ hne)] at h3
  have h3 := Option.some.inj h3
  refine ⟨h2.symm, h3.symm, fun p black visible metrics x y => ?_⟩
  unfold render TextBox.caretShown
  rw [h2, h3, hcur, hsel, hfoc, hflash]

omit [DecidableEq (Color F)] in
theorem Shows.fit {a : App F β φ} {k : Nat} (h : a.Contract k) {f : FormattingRuns F} {s : TextBox φ} (hs : a.Shows f s) :
    AllRunsFit f s.ctrl.length ∧ s.ctrl.length ≤ s.text.length := by
  have h1 := h.shownAs s.showsRich s.text
  unfold App.shownAs at h1
  rw [hs.content] at h1
  exact ⟨h1.1, h1.2.1⟩

omit [DecidableEq (Color F)] in
/-- The layout of a text that is not empty has runs. -/
theorem Shows.stores {a : App F β φ} {k : Nat} (h : a.Contract k) {f : FormattingRuns F} {s : TextBox φ} (hs : a.Shows f s)
    (hlen : s.text.length < a.limit) (hne : s.ctrl ≠ []) : ∃ ls y, Stores s.layout ls [] y ∧ allRuns ls ≠ [] := by
  obtain ⟨h1, h2⟩ := hs.fit h
  obtain ⟨p1, -, -⟩ := h.paragraphs _ _ hne (by omega) h1
  obtain ⟨L', ls, rs, e1, e2, e3, e4, -⟩ := build_glyphs ({} : Layout φ) _ _ p1 a.yAlign a.height
  rw [hs.layout hne] at e1
  cases e1
  refine ⟨ls, _, e2, fun h0 => ?_⟩
  rw [h0] at e3
  have := List.append_eq_nil_iff.1 e3.symm
  rw [this.1] at e4
  have h5 := List.length_pos_iff.2 hne
  obtain ⟨l', h6, h7⟩ := e4
  rw [List.perm_nil.1 h6] at h7
  have h8 : 0 = s.ctrl.length := h7
  omega

/-- C141: the text of a frame is drawn without an invalid access exactly if every run of the layout is looked up inside the text
(see C14 for the runs that are not). -/
theorem C141_frame_partial (a : App F β φ) {k : Nat} (h : a.Contract k) {f : FormattingRuns F} {s : TextBox φ} (hs : a.Shows f s)
    (hlen : s.text.length < a.limit) (hne : s.ctrl ≠ []) (visible : StrokeState F → Bool) (metrics : φ → FontMetrics) :
    (drawText s.layout f.drawView visible metrics a.width a.align).isSome = true ↔
      ∀ r ∈ s.layout.runs, (if r.rtl then r.charEnd else r.charStart) < s.ctrl.length := by
  obtain ⟨h1, h2⟩ := hs.fit h
  obtain ⟨ls, y, e1, -⟩ := hs.stores h hlen hne
  obtain ⟨-, l1, -⟩ := h.limit
  obtain ⟨d1, d2, d3⟩ := FormattingRuns.fmt_proper h1 (by omega)
  rw [← d3, C14_defined_iff_partial e1 d1 d2, e1.run_iff]

/-- C141: the frame of a box without a selection: what is painted for the calls of C15 and C16, then, if the box has the focus and the caret
has blinked an even number of times, a rectangle of width one where `get_cursor_pixel_pos` puts the cursor. -/
theorem C141_drawn (a : App F β φ) {k : Nat} (h : a.Contract k) {f : FormattingRuns F} {s : TextBox φ} (hs : a.Shows f s)
    (hlen : s.text.length < a.limit) (hne : s.ctrl ≠ []) (hsel : s.sel = none)
    (hin : ∀ r ∈ s.layout.runs, (if r.rtl then r.charEnd else r.charStart) < s.ctrl.length)
    (p : Painter φ (Color F) (StrokeState F)) (black : Color F) (visible : StrokeState F → Bool) (metrics : φ → FontMetrics) (x y : Rat) :
    ∃ calls, ∃ front : List (List (Quad (Color F))), ∃ i, drawText s.layout f.drawView visible metrics a.width a.align = some calls ∧
      s.layout.cursorPixelPos a.width a.align s.cursor.1 s.cursor.2 = some i ∧
      (s.focused = true ∧ s.flash % 2 = 0 → a.render p black visible metrics x y f s =
        some (front.flatten ++ [⟨x + i.x, y + i.y, 1, i.height, ⟨0, 0, 1, 1⟩, black⟩])) ∧
      (¬(s.focused = true ∧ s.flash % 2 = 0) → a.render p black visible metrics x y f s = some front.flatten) ∧
      front.length = calls.length ∧
      ∀ (j : Nat) call ps, calls[j]? = some call → front[j]? = some ps → Painted p x y none ps call := by
  obtain ⟨h1, h2⟩ := hs.fit h
  obtain ⟨ls, z, e1, -⟩ := hs.stores h hlen hne
  obtain ⟨-, l1, -⟩ := h.limit
  obtain ⟨d1, d2, d3⟩ := FormattingRuns.fmt_proper h1 (by omega)
  obtain ⟨calls, front, c1, c2, c3, c4⟩ := C98_no_selection e1 d1 d2 visible metrics p x y a.width a.align s.cursor.1
    ((e1.run_iff _).1 hin)
  rw [d3] at c1 c2
  have hcs : s.caretShown = true ↔ s.focused = true ∧ s.flash % 2 = 0 := by
    unfold TextBox.caretShown
    rw [Bool.and_eq_true, decide_eq_true_iff, Nat.and_one_is_mod]
  refine ⟨calls, front, s.info, c1, hs.caret hne, fun hc => ?_, fun hc => ?_, c3, c4⟩
  · unfold render
    rw [hsel, Option.map_none, c2, hcs.2 hc]
    rfl
  · unfold render
    rw [hsel, Option.map_none, c2, Bool.eq_false_iff.2 fun h => hc (hcs.1 h)]
    simp

/-- Without text nothing of a layout that has runs can be drawn. -/
theorem Shows.empty {a : App F β φ} {k : Nat} (h : a.Contract k) {f : FormattingRuns F} {s : TextBox φ} (hs : a.Shows f s)
    (hnil : s.ctrl = []) {ls : List (LineSpec φ)} {y : Rat} (hL : Stores s.layout ls [] y) (hne : allRuns ls ≠ [])
    (p : Painter φ (Color F) (StrokeState F)) (black : Color F) (visible : StrokeState F → Bool) (metrics : φ → FontMetrics) (x y : Rat) :
    a.render p black visible metrics x y f s = none := by
  obtain ⟨h1, -⟩ := hs.fit h
  rw [hnil] at h1
  obtain ⟨d1, d2, d3⟩ := FormattingRuns.fmt_proper h1 (by decide)
  have hno : drawText s.layout f.drawView visible metrics a.width a.align = none := by
    rw [← Option.not_isSome_iff_eq_none, ← d3, C14_defined_iff_partial hL d1 d2]
    intro hall
    obtain ⟨r, hr⟩ := List.exists_mem_of_ne_nil _ hne
    exact Nat.not_lt_zero _ (hall r hr)
  unfold render paintText
  rw [hno]
  cases highlights s.layout p.blue x y a.width a.align (orderedSelection (s.sel.map (·.1)) s.cursor.1) <;> rfl

omit [DecidableEq (Color F)] in
/-- `recalc_text` without anything to show keeps the layout. -/
theorem recalcF_empty {a : App F β φ} {s s' : TextBox φ} {f f' : FormattingRuns F} (h : a.recalcF s f = some (f', s')) (hnil : s'.ctrl = []) :
    s'.layout = s.layout := by
  unfold recalcF at h
  cases hf : a.formatted s.showsRich s.text with
  | error e => rw [hf] at h; cases h
  | ok r =>
    rw [hf] at h
    obtain ⟨s1, h1, h2⟩ := Option.map_eq_some_iff.1 h
    cases h2
    unfold recalc at h1
    rw [hf] at h1
    simp only at h1
    split at h1
    · cases h1; rfl
    · rename_i hr
      obtain ⟨L, hL, h3⟩ := Option.bind_eq_some_iff.1 h1
      obtain ⟨info, hi, rfl⟩ := Option.map_eq_some_iff.1 h3
      exact absurd hnil hr

omit [DecidableEq (Color F)] in
theorem removeText_empty {a : App F β φ} {s s' : TextBox φ} {i j : Nat} {f f' : FormattingRuns F}
    (h : TextBox.removeTextT a.recalcF s i j f = some (f', s')) (hnil : s'.ctrl = []) : s'.layout = s.layout := by
  unfold TextBox.removeTextT at h
  split at h
  · have := recalcF_empty h hnil; exact this
  · cases (TextBox.lift_some h).2

omit [DecidableEq (Color F)] in
theorem removeHighlighted_empty {a : App F β φ} {s s' : TextBox φ} {f f' : FormattingRuns F}
    (h : TextBox.removeHighlightedT a.recalcF s f = some (f', s')) (hnil : s'.ctrl = []) : s'.layout = s.layout := by
  unfold TextBox.removeHighlightedT at h
  cases hsel : s.sel with
  | none =>
    rw [hsel] at h
    obtain ⟨rfl, hx⟩ := TextBox.lift_some h
    cases hx; rfl
  | some c =>
    rw [hsel] at h
    simp only at h
    split at h
    · obtain ⟨rfl, hx⟩ := TextBox.lift_some h
      cases hx; rfl
    · split at h
      · have := removeText_empty h hnil; exact this
      · have := removeText_empty h hnil; exact this

theorem setCursor_layout {e : BoxEnv φ} {s s' : TextBox φ} {c : Cursor} {b : Bool} (h : TextBox.setCursor e s c b = some s') :
    s'.layout = s.layout := by
  unfold TextBox.setCursor at h
  simp only at h
  split at h
  · cases h
  · cases h; rfl

theorem wordOrCharacter_layout {e : BoxEnv φ} {s s' : TextBox φ} {b : Bool} :
    ((if b then TextBox.prevWord e s false else TextBox.prevCharacter e s false) = some s' → s'.layout = s.layout) ∧
    ((if b then TextBox.nextWord e s false else TextBox.nextCharacter e s false) = some s' → s'.layout = s.layout) := by
  constructor <;> intro h <;> split at h
  · unfold TextBox.prevWord at h
    split at h
    · cases h
    · exact setCursor_layout h
  · exact setCursor_layout h
  · unfold TextBox.nextWord at h
    split at h
    · cases h
    · exact setCursor_layout h
  · exact setCursor_layout h

/-- The inputs that take text away, or change how it is read, and do nothing else. -/
def Empties : TextBox.Input → Prop
  | .backspace _ | .delete _ | .cut | .blur | .focus => True
  | _ => False

omit [DecidableEq (Color F)] in
theorem empties_layout {a : App F β φ} {s s' : TextBox φ} {i : TextBox.Input} {f f' : FormattingRuns F} (hi : Empties i)
    (h : TextBox.handleT a.box a.recalcF s i f = some (f', s')) (hnil : s'.ctrl = []) : s'.layout = s.layout := by
  have same : (Call.lift (some s) : Call (FormattingRuns F) _) f = some (f', s') → s'.layout = s.layout := by
    intro h
    obtain ⟨rfl, hx⟩ := TextBox.lift_some h
    cases hx; rfl
  cases i with
  | backspace b =>
    simp only [TextBox.handleT] at h
    split at h
    · simp only [TextBox.keyT, TextBox.backspaceT] at h
      split at h
      · exact removeHighlighted_empty h hnil
      · split at h
        · obtain ⟨f1, s1, h1, h2⟩ := TextBox.bind_some h
          rw [removeText_empty h2 hnil]
          exact wordOrCharacter_layout.1 (TextBox.lift_some h1).2
        · exact same h
    · exact same h
  | delete b =>
    simp only [TextBox.handleT] at h
    split at h
    · simp only [TextBox.keyT, TextBox.deleteT] at h
      split at h
      · exact removeHighlighted_empty h hnil
      · split at h
        · obtain ⟨f1, s1, h1, h2⟩ := TextBox.bind_some h
          have h3 := removeText_empty h2 hnil
          have h4 : s'.layout = s1.layout := h3
          exact h4.trans (wordOrCharacter_layout.2 (TextBox.lift_some h1).2)
        · exact same h
    · exact same h
  | cut =>
    simp only [TextBox.handleT] at h
    split at h
    · simp only [TextBox.keyT, TextBox.cutT] at h
      split at h
      · exact same h
      · obtain ⟨f1, s1, h1, h2⟩ := TextBox.bind_some h
        rw [removeHighlighted_empty h2 hnil]
        have hc := (TextBox.lift_some h1).2
        unfold TextBox.copy at hc
        split at hc
        · cases hc; rfl
        · simp only at hc
          split at hc
          · cases hc; rfl
          · split at hc
            · cases hc; rfl
            · cases hc
    · exact same h
  | blur =>
    simp only [TextBox.handleT, TextBox.blurT] at h
    split at h
    · have := recalcF_empty h hnil; exact this
    · exact same h
  | focus =>
    simp only [TextBox.handleT, TextBox.focusT] at h
    split at h
    · exact same h
    · have := recalcF_empty h hnil; exact this
  | _ => exact hi.elim

/-- C141, violated: once the last character is taken away, or a box of rich text that holds nothing but tags is left, the next frame is
undefined: the box draws the layout it had with the formatting of the empty text. -/
theorem C141_emptied_violated (a : App F β φ) {k : Nat} (h : a.Contract k) {s0 s s' s'' : TextBox φ} {f0 f f' f'' : FormattingRuns F}
    (hset : a.recalcF s0 f0 = some (f, s)) (is : List TextBox.Input) (hrun : a.runF s is f = some (f', s'))
    (hlen : s'.text.length < a.limit) (hne : s'.ctrl ≠ []) {i : TextBox.Input} (hi : Empties i)
    (hin : a.runF s' [i] f' = some (f'', s'')) (hnil : s''.ctrl = [])
    (p : Painter φ (Color F) (StrokeState F)) (black : Color F) (visible : StrokeState F → Bool) (metrics : φ → FontMetrics) (x y : Rat) :
    a.render p black visible metrics x y f'' s'' = none := by
  have hs' := C141_shows a hset is hrun
  have hs'' := (shows_refreshed a).run [i] hs' hin
  obtain ⟨ls, z, e1, e2⟩ := hs'.stores h hlen hne
  obtain ⟨f1, s1, h1, h2⟩ := TextBox.bind_some hin
  obtain ⟨rfl, hx⟩ := TextBox.lift_some h2
  cases hx
  have hL := empties_layout hi h1 hnil
  rw [← hL] at e1
  exact hs''.empty h hnil e1 e2 p black visible metrics x y

/-- The formatting of a new box. -/
def noFormat : FormattingRuns Nat := (makeDefaultRuns [] toyFont toyColor toyStroke).2

example : ((demoApp.recalcF { focused := true } noFormat).map fun r => (r.2.ctrl, r.1.color.limits)) = some ([], [0]) := by decide +kernel

/-- Typing an `a` and deleting it again. -/
example : ((demoApp.runF { focused := true } [.char 97] noFormat).map fun r => (r.2.ctrl, r.2.layout.glyphs.length)) = some ([97], 1) ∧
    ((demoApp.runF { focused := true } [.char 97, .home false false, .delete false] noFormat).map fun r =>
      (r.2.ctrl, r.2.layout.glyphs.length)) = some ([], 1) := by decide +kernel

/-- The box with the `a` meets the hypotheses of `C141_drawn`. -/
example : ((demoApp.runF { focused := true } [.char 97] noFormat).map fun r =>
    (r.2.sel, r.2.text.length, decide (∀ r' ∈ r.2.layout.runs, (if r'.rtl then r'.charEnd else r'.charStart) < r.2.ctrl.length))) =
      some (none, 1, true) := by decide +kernel

/-- Leaving a box of rich text that holds only tags. -/
example : ((demoApp.runF { rich := true } ([.focus] ++ (b!"<u></u>".map fun c => TextBox.Input.char c.toNat)) noFormat).map fun r =>
      (r.2.ctrl, r.2.layout.glyphs.length)) = some (b!"<u></u>", 7) ∧
    ((demoApp.runF { rich := true } ([.focus] ++ (b!"<u></u>".map fun c => TextBox.Input.char c.toNat) ++ [.blur]) noFormat).map fun r =>
      (r.2.ctrl, r.2.layout.glyphs.length)) = some ([], 7) := by decide +kernel

/-- The frame after typing `a` and the frame after deleting it. -/
example : ((demoApp.runF { focused := true } [.char 97] noFormat).bind fun r =>
      (drawText r.2.layout r.1.drawView (fun _ => false) (fun _ => ⟨0, 0, 0, 0⟩) 100 .left).map List.length) = some 2 ∧
    ((demoApp.runF { focused := true } [.char 97, .home false false, .delete false] noFormat).map fun r =>
      (drawText r.2.layout r.1.drawView (fun _ => false) (fun _ => ⟨0, 0, 0, 0⟩) 100 .left).isSome) = some false := by decide +kernel

end App

end RichText
