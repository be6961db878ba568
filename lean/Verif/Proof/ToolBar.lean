import Verif.Model.ToolBar
import Mathlib.Tactic.Linarith
import Mathlib.Tactic.Ring
/-! Lemmas for the tool bar and the window (C96, C97). -/
namespace RichText

namespace TextBox
variable {φ : Type _}

/-- Neither dragging nor the focus change, or dragging ends. -/
def Keeps (s s' : TextBox φ) : Prop := (s'.drag = s.drag ∧ s'.focused = s.focused) ∨ s'.drag = false

theorem Keeps.refl (s : TextBox φ) : Keeps s s := .inl ⟨rfl, rfl⟩

theorem Keeps.trans {s t u : TextBox φ} (h : Keeps s t) (h' : Keeps t u) : Keeps s u := by
  rcases h' with h' | h'
  · rcases h with h | h
    · exact .inl ⟨h'.1.trans h.1, h'.2.trans h.2⟩
    · exact .inr (h'.1.trans h)
  · exact .inr h'

theorem keeps_recalc {e : BoxEnv φ} {s s' : TextBox φ} (h : recalc e s = some s') : s'.drag = s.drag ∧ s'.focused = s.focused := by
  unfold recalc at h
  simp only at h
  generalize (if s.showsRich = true then e.content s.text else s.text) = t at h
  split at h
  · simp only [Option.some.injEq] at h; subst h; exact ⟨rfl, rfl⟩
  · split at h
    · exact absurd h (by simp)
    · simp only [Option.some.injEq] at h; subst h; exact ⟨rfl, rfl⟩

theorem keeps_setCursor {e : BoxEnv φ} {s s' : TextBox φ} {pos : Cursor} {b : Bool} (h : setCursor e s pos b = some s') :
    s'.drag = s.drag ∧ s'.focused = s.focused := by
  unfold setCursor at h
  simp only at h
  split at h
  · exact absurd h (by simp)
  · simp only [Option.some.injEq] at h; subst h; exact ⟨rfl, rfl⟩

theorem keeps_match {s s' : TextBox φ} {e : BoxEnv φ} {o : Option Cursor} {b : Bool}
    (h : (match o with | none => none | some c => setCursor e s c b) = some s') : s'.drag = s.drag ∧ s'.focused = s.focused := by
  split at h
  · exact absurd h (by simp)
  · exact keeps_setCursor h

theorem keeps_nextLine {e : BoxEnv φ} {s s' : TextBox φ} {b : Bool} (h : nextLine e s b = some s') : s'.drag = s.drag ∧ s'.focused = s.focused := by
  unfold nextLine at h
  split at h
  · exact keeps_match h
  · exact keeps_setCursor h

theorem keeps_prevLine {e : BoxEnv φ} {s s' : TextBox φ} {b : Bool} (h : prevLine e s b = some s') : s'.drag = s.drag ∧ s'.focused = s.focused := by
  unfold prevLine at h
  split at h
  · exact keeps_match h
  · exact keeps_setCursor h

theorem keeps_removeText {e : BoxEnv φ} {s s' : TextBox φ} {a b : Nat} (h : removeText e s a b = some s') : s'.drag = s.drag ∧ s'.focused = s.focused := by
  unfold removeText setText at h
  split at h
  · have := keeps_recalc h; exact this
  · exact absurd h (by simp)

theorem keeps_removeHighlighted {e : BoxEnv φ} {s s' : TextBox φ} (h : removeHighlighted e s = some s') :
    s'.drag = s.drag ∧ s'.focused = s.focused := by
  unfold removeHighlighted at h
  split at h
  · simp only [Option.some.injEq] at h; subst h; exact ⟨rfl, rfl⟩
  · split at h
    · simp only [Option.some.injEq] at h; subst h; exact ⟨rfl, rfl⟩
    · split at h
      · have := keeps_removeText h; exact this
      · have := keeps_removeText h; exact this

theorem keeps_insertText {e : BoxEnv φ} {s s' : TextBox φ} {t : Bytes} {n : Nat} (h : insertText e s t n = some s') :
    s'.drag = s.drag ∧ s'.focused = s.focused := by
  unfold insertText setText at h
  simp only at h
  split at h
  · have := keeps_recalc h; exact this
  · have := keeps_recalc h; exact this

theorem keeps_insertTyped {e : BoxEnv φ} {s s' : TextBox φ} {c : Nat} (h : insertTyped e s c = some s') :
    s'.drag = s.drag ∧ s'.focused = s.focused := by
  unfold insertTyped at h
  split at h
  · exact absurd h (by simp)
  · rename_i h1
    exact ⟨(keeps_insertText h).1.trans (keeps_removeHighlighted h1).1, (keeps_insertText h).2.trans (keeps_removeHighlighted h1).2⟩

theorem keeps_backspace {e : BoxEnv φ} {s s' : TextBox φ} {c : Bool} (h : backspace e s c = some s') :
    s'.drag = s.drag ∧ s'.focused = s.focused := by
  unfold backspace at h
  split at h
  · exact keeps_removeHighlighted h
  · split at h
    · split at h
      · exact absurd h (by simp)
      · rename_i s1 h1
        have : s1.drag = s.drag ∧ s1.focused = s.focused := by
          split at h1
          · exact keeps_match h1
          · exact keeps_setCursor h1
        exact ⟨(keeps_removeText h).1.trans this.1, (keeps_removeText h).2.trans this.2⟩
    · simp only [Option.some.injEq] at h; subst h; exact ⟨rfl, rfl⟩

theorem keeps_delete {e : BoxEnv φ} {s s' : TextBox φ} {c : Bool} (h : delete e s c = some s') :
    s'.drag = s.drag ∧ s'.focused = s.focused := by
  unfold delete at h
  split at h
  · exact keeps_removeHighlighted h
  · split at h
    · split at h
      · exact absurd h (by simp)
      · rename_i s1 h1
        have : s1.drag = s.drag ∧ s1.focused = s.focused := by
          split at h1
          · exact keeps_match h1
          · exact keeps_setCursor h1
        exact ⟨(keeps_removeText h).1.trans this.1, (keeps_removeText h).2.trans this.2⟩
    · simp only [Option.some.injEq] at h; subst h; exact ⟨rfl, rfl⟩

theorem keeps_copy {s s' : TextBox φ} (h : copy s = some s') : s'.drag = s.drag ∧ s'.focused = s.focused := by
  unfold copy at h
  split at h
  · simp only [Option.some.injEq] at h; subst h; exact ⟨rfl, rfl⟩
  · simp only at h
    split at h
    · simp only [Option.some.injEq] at h; subst h; exact ⟨rfl, rfl⟩
    · split at h
      · simp only [Option.some.injEq] at h; subst h; exact ⟨rfl, rfl⟩
      · exact absurd h (by simp)

theorem keeps_cut {e : BoxEnv φ} {s s' : TextBox φ} (h : cut e s = some s') : s'.drag = s.drag ∧ s'.focused = s.focused := by
  unfold cut at h
  split at h
  · simp only [Option.some.injEq] at h; subst h; exact ⟨rfl, rfl⟩
  · split at h
    · exact absurd h (by simp)
    · rename_i h1
      exact ⟨(keeps_removeHighlighted h).1.trans (keeps_copy h1).1, (keeps_removeHighlighted h).2.trans (keeps_copy h1).2⟩

theorem keeps_paste {e : BoxEnv φ} {s s' : TextBox φ} (h : paste e s = some s') : s'.drag = s.drag ∧ s'.focused = s.focused := by
  unfold paste at h
  split at h
  · simp only [Option.some.injEq] at h; subst h; exact ⟨rfl, rfl⟩
  · split at h
    · exact absurd h (by simp)
    · rename_i h1
      split at h
      · exact absurd h (by simp)
      · exact ⟨(keeps_insertText h).1.trans (keeps_removeHighlighted h1).1, (keeps_insertText h).2.trans (keeps_removeHighlighted h1).2⟩

theorem keeps_blur {e : BoxEnv φ} {s s' : TextBox φ} (h : blur e s = some s') :
    (s.focused = true → s'.drag = false ∧ s'.focused = false) ∧ (s.focused = false → s' = s) := by
  unfold blur at h
  split at h
  · rename_i hf
    exact ⟨fun _ => keeps_recalc h, fun h => absurd hf (by simp [h])⟩
  · rename_i hf
    simp only [Option.some.injEq] at h
    exact ⟨fun h => absurd h hf, fun _ => h.symm⟩

theorem keeps_blur' {e : BoxEnv φ} {s s' : TextBox φ} (h : blur e s = some s') : Keeps s s' := by
  have := keeps_blur h
  by_cases hf : s.focused = true
  · exact .inr (this.1 hf).1
  · rw [Bool.not_eq_true] at hf
    rw [this.2 hf]
    exact .refl _

theorem keeps_enter {e : BoxEnv φ} {s s' : TextBox φ} (h : enter e s = some s') : Keeps s s' := by
  unfold enter at h
  split at h
  · split at h
    · exact absurd h (by simp)
    · rename_i h1
      exact .trans (.inl (keeps_removeHighlighted h1)) (.inl (keeps_insertTyped h))
  · exact keeps_blur' h

theorem keeps_between {s s' : TextBox φ} {f g : TextBox φ → Bool → Option (TextBox φ)}
    (hf : ∀ s s' b, f s b = some s' → s'.drag = s.drag ∧ s'.focused = s.focused)
    (hg : ∀ s s' b, g s b = some s' → s'.drag = s.drag ∧ s'.focused = s.focused)
    (h : selectBetween f g s = some s') : s'.drag = s.drag ∧ s'.focused = s.focused := by
  unfold selectBetween at h
  split at h
  · exact absurd h (by simp)
  · rename_i h1
    exact ⟨(hg _ _ _ h).1.trans (hf _ _ _ h1).1, (hg _ _ _ h).2.trans (hf _ _ _ h1).2⟩

theorem keeps_clickSelect {e : BoxEnv φ} {s s' : TextBox φ} {n : Nat} (h : clickSelect e s n = some s') :
    s'.drag = s.drag ∧ s'.focused = s.focused := by
  unfold clickSelect at h
  split at h
  · exact keeps_between (fun _ _ _ h => keeps_match h) (fun _ _ _ h => keeps_match h) h
  · exact keeps_between (fun _ _ _ h => keeps_match h) (fun _ _ _ h => keeps_match h) h
  · exact keeps_between (fun _ _ _ h => keeps_setCursor h) (fun _ _ _ h => keeps_setCursor h) h
  · simp only [Option.some.injEq] at h; subst h; exact ⟨rfl, rfl⟩

theorem keeps_key {e : BoxEnv φ} {s s' : TextBox φ} {i : Input} (h : key e s i = some s') : Keeps s s' := by
  unfold key at h
  split at h
  case h_1 => exact .inl (keeps_prevLine h)
  case h_2 => exact .inl (keeps_nextLine h)
  case h_3 => split at h; exacts [.inl (keeps_match h), .inl (keeps_setCursor h)]
  case h_4 => split at h; exacts [.inl (keeps_match h), .inl (keeps_setCursor h)]
  case h_5 => split at h; exacts [.inl (keeps_setCursor h), .inl (keeps_match h)]
  case h_6 => split at h; exacts [.inl (keeps_setCursor h), .inl (keeps_match h)]
  case h_7 => exact .inl (keeps_backspace h)
  case h_8 => exact .inl (keeps_delete h)
  case h_9 => exact keeps_enter h
  case h_10 => exact .inl (keeps_insertTyped h)
  case h_11 => exact .inl (keeps_cut h)
  case h_12 => exact .inl (keeps_copy h)
  case h_13 => exact .inl (keeps_paste h)
  case h_14 => exact .inl (keeps_between (fun _ _ _ h => keeps_setCursor h) (fun _ _ _ h => keeps_setCursor h) h)
  case h_15 => simp only [Option.some.injEq] at h; subst h; exact .refl _

theorem keeps_focus {e : BoxEnv φ} {s s' : TextBox φ} (h : focus e s = some s') : s'.drag = s.drag ∧ s'.focused = true := by
  unfold focus at h
  split at h
  · rename_i hf
    simp only [Option.some.injEq] at h; subst h; exact ⟨rfl, hf⟩
  · have := keeps_recalc h; exact this

theorem press_drags {e : BoxEnv φ} {s s' : TextBox φ} {x y : Rat} {b : Bool} {n : Nat} (h : press e s x y b n = some s') :
    s'.drag = true ∧ s'.focused = true := by
  unfold press at h
  split at h
  · rename_i hf
    split at h
    · exact absurd h (by simp)
    · rename_i h1
      split at h
      · exact absurd h (by simp)
      · rename_i h2
        simp only [Option.some.injEq] at h; subst h
        exact ⟨rfl, (keeps_clickSelect h2).2.trans ((keeps_match h1).2.trans hf)⟩
  · split at h
    · exact absurd h (by simp)
    · split at h
      · exact absurd h (by simp)
      · exact ⟨(keeps_focus h).1, (keeps_focus h).2⟩

/-- Only a press starts dragging. -/
theorem handle_keeps {e : BoxEnv φ} {s s' : TextBox φ} {i : Input} (h : handle e s i = some s')
    (hi : ∀ x y b n, i ≠ .press x y b n) (hd : s.drag = true → s.focused = true) :
    (s'.drag = true → s.drag = true ∧ s'.focused = true) ∧ (i = .release → s'.drag = false) ∧ (i = .blur → s'.drag = false) := by
  have hk : Keeps s s' → (s'.drag = true → s.drag = true ∧ s'.focused = true) := by
    rintro (hk | hk) h'
    · rw [hk.1] at h'
      exact ⟨h', hk.2.trans (hd h')⟩
    · exact absurd h' (by simp [hk])
  unfold handle at h
  split at h
  · exact absurd rfl (hi _ _ _ _)
  · simp only [Option.some.injEq] at h
    have hno : s'.drag = false := by
      subst h
      split
      · rfl
      · rename_i hf
        rcases Bool.eq_false_or_eq_true s.drag with hs | hs
        · exact absurd (hd hs) hf
        · exact hs
    exact ⟨fun h' => absurd h' (by simp [hno]), fun _ => hno, by simp⟩
  · refine ⟨hk ?_, by simp, by simp⟩
    split at h
    · exact .inl (keeps_match h)
    · simp only [Option.some.injEq] at h; subst h; exact .refl _
  · refine ⟨hk ?_, by simp, by simp⟩
    split at h
    · exact .inl (keeps_insertTyped h)
    · simp only [Option.some.injEq] at h; subst h; exact .refl _
  · have := keeps_focus h
    exact ⟨fun h' => ⟨this.1 ▸ h', this.2⟩, by simp, by simp⟩
  · refine ⟨hk (keeps_blur' h), by simp, fun _ => ?_⟩
    have := keeps_blur h
    by_cases hf : s.focused = true
    · exact (this.1 hf).1
    · rw [this.2 (by simpa using hf)]
      rcases Bool.eq_false_or_eq_true s.drag with hs | hs
      · exact absurd (hd hs) hf
      · exact hs
  · rename_i h2 _ _ _ h6
    refine ⟨hk ?_, fun hr => absurd hr (by simpa using h2), fun hr => absurd hr (by simpa using h6)⟩
    split at h
    · exact keeps_key h
    · simp only [Option.some.injEq] at h; subst h; exact .refl _

end TextBox

/-! ### The tool bar -/

theorem mouseInside_iff (x y w h mx my : Rat) : mouseInside x y w h mx my = true ↔ x ≤ mx ∧ y ≤ my ∧ mx - x ≤ w ∧ my - y ≤ h := by
  simp [mouseInside, and_assoc]

theorem lastWhere_some {α : Type _} {p : α → Bool} : ∀ {l : List α} {n : Nat}, lastWhere p l = some n → ∃ a, l[n]? = some a ∧ p a = true
  | [], n, h => by simp [lastWhere] at h
  | a :: as, n, h => by
    rw [lastWhere] at h
    split at h
    · rename_i m hm
      simp only [Option.some.injEq] at h; subst h
      obtain ⟨b, h1, h2⟩ := lastWhere_some hm
      exact ⟨b, by simpa using h1, h2⟩
    · split at h
      · rename_i hp
        simp only [Option.some.injEq] at h; subst h
        exact ⟨a, rfl, hp⟩
      · exact absurd h (by simp)

theorem lastWhere_none {α : Type _} {p : α → Bool} : ∀ {l : List α}, lastWhere p l = none → ∀ a ∈ l, p a = false
  | [], _, a, ha => by simp at ha
  | b :: as, h, a, ha => by
    rw [lastWhere] at h
    split at h
    · exact absurd h (by simp)
    · rename_i hn
      split at h
      · exact absurd h (by simp)
      · rename_i hb
        rcases List.mem_cons.mp ha with rfl | ha
        · simpa using hb
        · exact lastWhere_none hn a ha

namespace ToolBar

/-- What the search for the part under the mouse finds. -/
theorem hitFrom_spec (left : Bool) (mx my : Rat) : ∀ (ms : List BarMenu) (k : Nat),
    (∀ j, hitFrom left mx my k ms = some (.title j) → ∃ i m, j = k + i ∧ ms[i]? = some m ∧ left = true ∧ m.inside mx my = true) ∧
    (∀ j l, hitFrom left mx my k ms = some (.item j l) → ∃ i m it, j = k + i ∧ ms[i]? = some m ∧ m.trayVisible = true ∧
      m.items[l]? = some it ∧ it.inside m.x mx my = true) ∧
    (hitFrom left mx my k ms = none → ∀ m ∈ ms, (left = true → m.inside mx my = false) ∧
      (m.trayVisible = true → ∀ it ∈ m.items, it.inside m.x mx my = false))
  | [], k => by simp [hitFrom]
  | m :: ms, k => by
    obtain ⟨h1, h2, h3⟩ := hitFrom_spec left mx my ms (k + 1)
    rw [hitFrom]
    split
    · rename_i p hp
      rw [hp] at h1 h2
      refine ⟨fun j hj => ?_, fun j l hj => ?_, fun h => absurd h (by simp)⟩
      · obtain ⟨i, m', e1, e2, e3⟩ := h1 j hj
        exact ⟨i + 1, m', by omega, by simpa using e2, e3⟩
      · obtain ⟨i, m', it, e1, e2, e3⟩ := h2 j l hj
        exact ⟨i + 1, m', it, by omega, by simpa using e2, e3⟩
    · rename_i hn
      have hrest := h3 hn
      unfold hitMenu
      split
      · rename_i j hj
        refine ⟨fun j' h => absurd h (by simp), fun j' l h => ?_, fun h => absurd h (by simp)⟩
        simp only [Option.some.injEq, BarPart.item.injEq] at h
        obtain ⟨rfl, rfl⟩ := h
        split at hj
        · rename_i hv
          obtain ⟨it, e1, e2⟩ := lastWhere_some hj
          exact ⟨0, m, it, rfl, rfl, hv, e1, e2⟩
        · exact absurd hj (by simp)
      · rename_i hj
        have hitems : m.trayVisible = true → ∀ it ∈ m.items, it.inside m.x mx my = false := by
          intro hv
          rw [if_pos hv] at hj
          exact lastWhere_none hj
        split
        · rename_i hm
          rw [Bool.and_eq_true] at hm
          refine ⟨fun j' h => ?_, fun j' l h => absurd h (by simp), fun h => absurd h (by simp)⟩
          simp only [Option.some.injEq, BarPart.title.injEq] at h
          exact ⟨0, m, h.symm, rfl, hm⟩
        · rename_i hm
          refine ⟨fun j' h => absurd h (by simp), fun j' l h => absurd h (by simp), fun _ m' hm' => ?_⟩
          rcases List.mem_cons.mp hm' with rfl | hm'
          · refine ⟨fun hl => ?_, hitems⟩
            rw [hl, Bool.true_and] at hm
            simpa using hm
          · exact hrest m' hm'

theorem hit_title {b : ToolBar} {l : Bool} {mx my : Rat} {k : Nat} (h : b.hit l mx my = some (.title k)) :
    ∃ m, b.menus[k]? = some m ∧ l = true ∧ m.inside mx my = true := by
  obtain ⟨i, m, e1, e2, e3⟩ := (hitFrom_spec l mx my b.menus 0).1 k h
  rw [Nat.zero_add] at e1
  subst e1
  exact ⟨m, e2, e3⟩

theorem hit_item {b : ToolBar} {l : Bool} {mx my : Rat} {k j : Nat} (h : b.hit l mx my = some (.item k j)) :
    ∃ m it, b.menus[k]? = some m ∧ m.trayVisible = true ∧ m.items[j]? = some it ∧ it.inside m.x mx my = true := by
  obtain ⟨i, m, it, e1, e2, e3⟩ := (hitFrom_spec l mx my b.menus 0).2.1 k j h
  rw [Nat.zero_add] at e1
  subst e1
  exact ⟨m, it, e2, e3⟩

theorem hit_none {b : ToolBar} {l : Bool} {mx my : Rat} (h : b.hit l mx my = none) : ∀ m ∈ b.menus,
    (l = true → m.inside mx my = false) ∧ (m.trayVisible = true → ∀ it ∈ m.items, it.inside m.x mx my = false) :=
  (hitFrom_spec l mx my b.menus 0).2.2 h

end ToolBar
end RichText
