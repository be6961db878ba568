import Verif.Proof.BoxGuard
import Verif.Proof.BuildTextAll
import Verif.Props.TextRuns
import Verif.Props.ServesFonts
import Verif.Spec.BoxThread
/-!
The text box in a thread does what the text box without one does.
-/
namespace RichText
open Spec BuildLibs
namespace ThreadApp
variable {F : Type} {a : ThreadApp F} {starts : Bytes → Nat → Nat → Nat → Prop} {k : Nat}

/-- Threads with fonts; what is guessed are the advances of blanks. -/
def guessing (b : BuildLibs) : TextBox.Guessing FontThread (BitVec 16 → Int) where
  ok t := FontRun b.lib b.reg t ∧ Blanks b.lib t
  goes := Goes b
  cons t x := Consistent t x ∧ BlankOf b x
  refl _ h := .refl h.1
  trans _ _ _ := Goes.trans
  keep _ _ h g := ⟨g.run, g.blanks h.2⟩
  before _ _ _ g h := ⟨h.1.before g.keeps, h.2⟩

theorem Contract.some (h : a.Contract starts k) : (guessing a.libs).Some := fun _ ht => h.libs.space ht.1 ht.2

theorem Contract.pure (h : a.Contract starts k) {x : BitVec 16 → Int} (hx : BlankOf a.libs x) : (a.pure starts k x).Contract k :=
  C91_contract _ (a.libs.libs starts k x) k (h.libs.contract hx.pos) rfl h.font h.size h.breaks h.spaces h.limit

theorem Contract.good (h : a.Contract starts k) {x : BitVec 16 → Int} (hx : BlankOf a.libs x) : (a.pure starts k x).box.Good :=
  C89_good _ k (h.pure hx)

/-- Text without markup. -/
theorem Contract.plain (h : a.Contract starts k) (text : Bytes) (hne : text ≠ []) (hlt : text.length < a.limit) :
    a.libs.Serves starts k text (makeDefaultRuns text a.font a.color a.stroke).2 :=
  C122_fonts a.libs starts a.limit k h.libs h.shapes text hne hlt _
    ⟨runsFit_single _ _, runsFit_single _ _, runsFit_single _ _, fun _ => runsFit_single _ _⟩
    (fun f hf => by rw [List.mem_singleton.1 hf]; exact h.serves) (fun x hx => List.mem_singleton.1 hx)

theorem Contract.emptyHeight (h : a.Contract starts k) {t : FontThread} (ht : FontRun a.libs.lib a.libs.reg t) (x : BitVec 16 → Int) :
    ∃ t', a.emptyHeight t = .some (t', (a.pure starts k x).emptyHeight) ∧ Goes a.libs t t' := by
  obtain ⟨face, file, h3, h4⟩ := h.serves.default
  obtain ⟨eff, he, hpos⟩ := effective_pos h.serves.size.1 h.serves.size.2 false (false || false)
  have hd : a.libs.defaultFont a.font =
      Option.some { face := face, size := a.font.size, weight := a.font.face.getWeight.truncate 4, style := a.font.face.getStyle } := by
    unfold defaultFont
    rw [h3]; rfl
  obtain ⟨t', k1, k2⟩ := readMetrics_spec (b := a.libs) (q := plainRequest a.font face) h4 he hpos ht
  refine ⟨t', ?_, k2⟩
  unfold ThreadApp.emptyHeight
  rw [h3]
  simp only
  rw [k1, Option.map_some]
  have hm : (a.libs.libs starts k x).metrics a.font = a.libs.fontMetrics file eff false := by
    show a.libs.metricsOf ((a.libs.defaultFont a.font).getD noFont) = _
    rw [hd, Option.getD_some, metricsOf_good (f := { face := face, size := a.font.size, weight := a.font.face.getWeight.truncate 4, style := a.font.face.getStyle }) h4 he]
    rfl
  show Option.some (t', _) = Option.some (t', ((a.libs.libs starts k x).metrics a.font).ascent - ((a.libs.libs starts k x).metrics a.font).descent)
  rw [hm]
  rfl

/-- `recalc_text` in a thread. -/
theorem Contract.recalc (h : a.Contract starts k) (s : TextBox SingleScriptFont) :
    TextBox.Sim (guessing a.libs) (a.recalc s)
      fun x => TextBox.pureRec (TextBox.guarded (a.pure starts k x).box (a.Served starts k)) s := by
  intro t ht hdef
  obtain ⟨x0, hx0⟩ := h.some t ht
  have hguard : s.text.length < a.limit ∧ (s.showsRich = true → a.Served starts k s.text) := by
    obtain ⟨b, hb⟩ := hdef x0 hx0
    by_contra hn
    have : TextBox.guarded (a.pure starts k x0).box (a.Served starts k) s = none := if_neg hn
    simp only [TextBox.pureRec, this, Call.lift, Option.map_none] at hb
    cases hb
  have hpure : ∀ x, TextBox.pureRec (TextBox.guarded (a.pure starts k x).box (a.Served starts k)) s =
      (Call.lift (TextBox.recalc (a.pure starts k x).box s) : Call Unit _) := by
    intro x
    unfold TextBox.pureRec
    rw [TextBox.guarded_pos hguard.1 hguard.2]
  have htext : ∀ x, (if s.showsRich = true then (a.pure starts k x).box.content s.text else s.text) =
      ((a.app (fun _ _ => []) 0).shownAs s.showsRich s.text).1 := by
    intro x
    cases hr : s.showsRich with
    | true => rfl
    | false => rfl
  have hfit : AllRunsFit ((a.app (fun _ _ => []) 0).shownAs s.showsRich s.text).2
      ((a.app (fun _ _ => []) 0).shownAs s.showsRich s.text).1.length ∧
      ((a.app (fun _ _ => []) 0).shownAs s.showsRich s.text).1.length ≤ s.text.length ∧ _ :=
    (h.pure hx0.2).shownAs s.showsRich s.text
  simp only [hpure] at hdef ⊢
  unfold ThreadApp.recalc
  simp only
  by_cases hne : ((a.app (fun _ _ => []) 0).shownAs s.showsRich s.text).1 = []
  · obtain ⟨t', e1, e2⟩ := h.emptyHeight ht.1 x0
    refine ⟨t', _, by rw [if_pos hne, e1, Option.map_some], e2, ?_⟩
    intro x hx
    unfold TextBox.recalc
    simp only [htext, if_pos hne]
    rfl
  · have hserves : a.libs.Serves starts k ((a.app (fun _ _ => []) 0).shownAs s.showsRich s.text).1
        ((a.app (fun _ _ => []) 0).shownAs s.showsRich s.text).2 := by
      cases hr : s.showsRich with
      | true => exact hguard.2 hr (by rw [hr] at hne; exact hne)
      | false =>
        rw [hr] at hne
        exact h.plain s.text hne hguard.1
    obtain ⟨t', L', b1, b2, b3⟩ := buildTextT_spec h.libs hne (Nat.lt_of_le_of_lt hfit.2.1 hguard.1) hfit.1 hserves s.layout a.yAlign a.height
      ht.1 ht.2
    have hlay : ∀ x, (guessing a.libs).cons t' x → (a.pure starts k x).box.layout s.showsRich s.text = L' := by
      intro x hx
      have := ((h.pure hx.2).built s.showsRich hne hguard.1 s.layout).1
      have e := b3 x hx.1 hx.2
      exact (Option.some.inj (e.symm.trans this)).symm
    have hpx : ∀ x, (guessing a.libs).cons t' x → TextBox.recalc (a.pure starts k x).box s =
        (L'.cursorPixelPos a.width a.align s.cursor.1 s.cursor.2).map fun info =>
          { s with ctrl := ((a.app (fun _ _ => []) 0).shownAs s.showsRich s.text).1, layout := L', info := info } := by
      intro x hx
      unfold TextBox.recalc
      simp only [htext, if_neg hne, hlay x hx]
      show (match L'.cursorPixelPos a.width a.align s.cursor.1 s.cursor.2 with | none => none | Option.some info => _) = _
      cases L'.cursorPixelPos a.width a.align s.cursor.1 s.cursor.2 <;> rfl
    obtain ⟨x1, hx1⟩ := h.some t' ⟨b2.run, b2.blanks ht.2⟩
    obtain ⟨s', hs'⟩ := hdef x1 ((guessing a.libs).before _ _ _ b2 hx1)
    rw [hpx x1 hx1] at hs'
    cases hc : L'.cursorPixelPos a.width a.align s.cursor.1 s.cursor.2 with
    | none => rw [hc] at hs'; cases hs'
    | some info =>
      refine ⟨t', { s with ctrl := ((a.app (fun _ _ => []) 0).shownAs s.showsRich s.text).1, layout := L', info := info }, by
        rw [if_neg hne, b1]; simp only [hc, Option.map_some], b2, ?_⟩
      intro x hx
      rw [hpx x hx, hc]
      rfl

/-- One input. -/
theorem Contract.handle (h : a.Contract starts k) {s : TextBox SingleScriptFont} {i : TextBox.Input} (hi : a.Admitted starts k s i)
    {t : FontThread} (ht : (guessing a.libs).ok t) (hv : ∀ x, (guessing a.libs).cons t x → TextBox.Valid (a.pure starts k x).box s) :
    ∃ t' s', TextBox.handleT a.moving a.recalc s i t = Option.some (t', s') ∧ Goes a.libs t t' ∧
      ∀ x, (guessing a.libs).cons t' x → TextBox.handle (a.pure starts k x).box s i = Option.some s' ∧
        TextBox.Valid (a.pure starts k x).box s' := by
  have hsame : ∀ x, TextBox.SameMoves a.moving (a.pure starts k x).box := fun x => ⟨rfl, rfl, rfl⟩
  have hp : ∀ x, (guessing a.libs).cons t x →
      (TextBox.handleT a.moving (TextBox.pureRec (TextBox.guarded (a.pure starts k x).box (a.Served starts k))) s i : Call Unit _) =
        .lift (TextBox.handle (a.pure starts k x).box s i) := fun x hx => by
    rw [TextBox.handleT_same (hsame x)]
    exact TextBox.handleT_guarded (h.good hx.2) (hv x hx) hi.1 hi.2
  obtain ⟨t', s', h1, h2, h3⟩ := TextBox.handleT_sim a.moving h.some h.recalc s i t ht fun x hx => by
    simp only [hp x hx]
    obtain ⟨s', e1, _⟩ := TextBox.handle_valid (h.good hx.2) (hv x hx) hi.1
    exact ⟨s', by rw [e1]; rfl⟩
  refine ⟨t', s', h1, h2, ?_⟩
  intro x hx
  have hx0 := (guessing a.libs).before _ _ _ h2 hx
  have := h3 x hx
  simp only [hp x hx0] at this
  obtain ⟨s'', e1, e2⟩ := TextBox.handle_valid (h.good hx0.2) (hv x hx0) (show TextBox.Allowed (a.pure starts k x).box s i from hi.1)
  rw [e1] at this ⊢
  cases this
  exact ⟨rfl, e2⟩

/-- Sequences of inputs. -/
theorem Contract.run (h : a.Contract starts k) : ∀ (is : List TextBox.Input) {s : TextBox SingleScriptFont} {t : FontThread},
    (guessing a.libs).ok t → (∀ x, (guessing a.libs).cons t x → TextBox.Valid (a.pure starts k x).box s) →
    (∀ pre i post t' s', is = pre ++ i :: post → a.run s pre t = Option.some (t', s') → a.Admitted starts k s' i) →
    ∃ t' s', a.run s is t = Option.some (t', s') ∧ Goes a.libs t t' ∧
      ∀ x, (guessing a.libs).cons t' x → TextBox.run (a.pure starts k x).box s is = Option.some s' ∧
        TextBox.Valid (a.pure starts k x).box s'
  | [], s, t, ht, hv, _ => ⟨t, s, rfl, .refl ht.1, fun x hx => ⟨rfl, hv x hx⟩⟩
  | i :: is, s, t, ht, hv, hall => by
    obtain ⟨t1, s1, h1, h2, h3⟩ := h.handle (hall [] i is t s rfl rfl) ht hv
    have hrun : ∀ js, a.run s (i :: js) t = a.run s1 js t1 := by
      intro js
      show (TextBox.handleT a.moving a.recalc s i).bind _ t = _
      unfold Call.bind
      rw [h1]
      rfl
    obtain ⟨t2, s2, g1, g2, g3⟩ := Contract.run h is ((guessing a.libs).keep _ _ ht h2) (fun x hx => (h3 x hx).2)
      (fun pre j post t' s' he hr => hall (i :: pre) j post t' s' (by rw [he]; rfl) (by rw [hrun]; exact hr))
    refine ⟨t2, s2, by rw [hrun]; exact g1, h2.trans g2, ?_⟩
    intro x hx
    obtain ⟨e1, e2⟩ := g3 x hx
    refine ⟨?_, e2⟩
    unfold TextBox.run
    rw [(h3 x ((guessing a.libs).before _ _ _ g2 hx)).1]
    exact e1

end ThreadApp
end RichText
