import Verif.Model.UIContainer
import Verif.Props.UIObject
import Mathlib.Tactic.Linarith
import Mathlib.Tactic.Ring
import Mathlib.Tactic.FieldSimp
/-! Clipped rectangles, focus, clicks and mouse presses (C57, C58, C69-C71). -/
namespace RichText

/-! ### C57 -/

/-- What the pieces of a rectangle must be. -/
structure Tiles {κ : Type} (white : κ) (x y width height : Rat) (tex : TexRect) (color : κ) (clip : Rat × Rat) (l : List (Quad κ)) : Prop where
  /-- Every piece is a vertical strip inside the rectangle. -/
  strip : ∀ q ∈ l, x ≤ q.x ∧ 0 ≤ q.width ∧ q.x + q.width ≤ x + width ∧ q.y = y ∧ q.height = height
  /-- The pieces do not overlap. -/
  apart : l.Pairwise fun q r => q.x + q.width ≤ r.x ∨ r.x + r.width ≤ q.x
  /-- Every point of the rectangle is in a piece. -/
  cover : ∀ s, x ≤ s → s < x + width → ∃ q ∈ l, q.x ≤ s ∧ s < q.x + q.width
  /-- The texture coordinates are those of the strip. -/
  texture : ∀ q ∈ l, q.tex.u = tex.u + tex.uw * ((q.x - x) / width) ∧ q.tex.uw = tex.uw * (q.width / width) ∧ q.tex.v = tex.v ∧ q.tex.vh = tex.vh
  /-- Each piece has one of the two colours. -/
  colors : ∀ q ∈ l, q.color = white ∨ q.color = color
  /-- A white piece is inside the clip range, up to less than one pixel. -/
  lit : color ≠ white → ∀ q ∈ l, q.color = white → clip.1 - 1 < q.x ∧ q.x + q.width < clip.2 + 1
  /-- A piece in the original colour is outside the clip range. -/
  unlit : color ≠ white → ∀ q ∈ l, q.color = color → q.x + q.width ≤ clip.1 ∨ clip.2 ≤ q.x

/-- C57: the pieces of a clipped rectangle tile it. -/
theorem C57_tiles {κ : Type} (white : κ) (x y width height : Rat) (tex : TexRect) (color : κ) (clip : Rat × Rat) (hw : 0 < width) (hc : clip.1 ≤ clip.2) :
    Tiles white x y width height tex color clip (emitRect white x y width height tex color (some clip)) := by
  obtain ⟨a, b⟩ := clip
  simp only at hc
  have hw' : width ≠ 0 := ne_of_gt hw
  have hdiv : tex.uw * (width / width) = tex.uw := by rw [div_self hw', mul_one]
  have h0 : tex.u + tex.uw * ((x - x) / width) = tex.u := by simp
  simp only [emitRect]
  split
  · rename_i h
    refine ⟨?_, ?_, ?_, ?_, ?_, ?_, ?_⟩ <;> simp only [List.mem_singleton, forall_eq, exists_eq_left, List.pairwise_cons, List.not_mem_nil, false_imp_iff, implies_true, List.Pairwise.nil, and_true]
    · exact ⟨le_refl _, hw.le, le_refl _⟩
    · exact fun s h1 h2 => ⟨h1, h2⟩
    · exact ⟨h0.symm, hdiv.symm⟩
    · exact .inr trivial
    · intro hne he; exact absurd he hne
    · intro _
      rcases h with h | h
      · exact fun _ => .inr h
      · exact fun _ => .inl h
  · rename_i h
    rw [not_or] at h
    obtain ⟨hxb, hxa⟩ := h
    have hxb : x < b := lt_of_not_ge hxb
    have hxa : a < x + width := lt_of_not_ge hxa
    by_cases h1 : a ≥ x + 1 ∧ a < x + width <;> by_cases h2 : b > x ∧ b + 1 ≤ x + width
    · simp only [h1, h2, and_self, if_true]
      refine ⟨?_, ?_, ?_, ?_, ?_, ?_, ?_⟩ <;> simp only [List.cons_append, List.nil_append, List.mem_cons, List.not_mem_nil, or_false, forall_eq_or_imp, forall_eq, List.pairwise_cons,
        false_imp_iff, implies_true, List.Pairwise.nil, and_true, exists_eq_or_imp, exists_eq_left]
      · refine ⟨⟨?_, ?_, ?_⟩, ⟨?_, ?_, ?_⟩, ?_, ?_, ?_⟩ <;> linarith
      · refine ⟨⟨.inl ?_, .inl ?_⟩, .inr ?_⟩ <;> linarith
      · intro s s1 s2
        by_cases hs1 : s < a
        · left; constructor <;> linarith
        · by_cases hs2 : s < b
          · right; right; constructor <;> linarith
          · right; left; constructor <;> linarith
      · refine ⟨⟨?_, ?_⟩, ⟨?_, ?_⟩, ?_, ?_⟩ <;> field_simp <;> ring
      · exact ⟨.inr trivial, .inr trivial, .inl trivial⟩
      · intro hne
        refine ⟨fun e => absurd e hne, fun e => absurd e hne, fun _ => ⟨?_, ?_⟩⟩ <;> linarith
      · intro hne
        refine ⟨fun _ => .inl ?_, fun _ => .inr ?_, fun e => absurd e.symm hne⟩ <;> linarith
    · have hb : x + width < b + 1 := by
        by_contra hb
        exact h2 ⟨hxb, le_of_not_gt hb⟩
      simp only [h1, h2, and_self, if_true, if_false]
      refine ⟨?_, ?_, ?_, ?_, ?_, ?_, ?_⟩ <;> simp only [List.cons_append, List.nil_append, List.append_nil, List.mem_cons, List.not_mem_nil, or_false, forall_eq_or_imp, forall_eq,
        List.pairwise_cons, false_imp_iff, implies_true, List.Pairwise.nil, and_true, exists_eq_or_imp, exists_eq_left]
      · refine ⟨⟨?_, ?_, ?_⟩, ?_, ?_, ?_⟩ <;> linarith
      · refine .inl ?_; linarith
      · intro s s1 s2
        by_cases hs1 : s < a
        · left; constructor <;> linarith
        · right; constructor <;> linarith
      · refine ⟨⟨?_, ?_⟩, ?_, ?_⟩ <;> field_simp <;> ring
      · exact ⟨.inr trivial, .inl trivial⟩
      · intro hne
        refine ⟨fun e => absurd e hne, fun _ => ⟨?_, ?_⟩⟩ <;> linarith
      · intro hne
        refine ⟨fun _ => .inl ?_, fun e => absurd e.symm hne⟩
        linarith
    · have ha : a < x + 1 := by
        by_contra ha
        exact h1 ⟨le_of_not_gt ha, hxa⟩
      simp only [h1, h2, and_self, if_true, if_false]
      refine ⟨?_, ?_, ?_, ?_, ?_, ?_, ?_⟩ <;> simp only [List.cons_append, List.nil_append, List.append_nil, List.mem_cons, List.not_mem_nil, or_false, forall_eq_or_imp, forall_eq,
        List.pairwise_cons, false_imp_iff, implies_true, List.Pairwise.nil, and_true, exists_eq_or_imp, exists_eq_left]
      · refine ⟨⟨?_, ?_, ?_⟩, ?_, ?_, ?_⟩ <;> linarith
      · refine .inr ?_; linarith
      · intro s s1 s2
        by_cases hs2 : s < b
        · right; constructor <;> linarith
        · left; constructor <;> linarith
      · refine ⟨⟨?_, ?_⟩, ?_, ?_⟩ <;> field_simp <;> ring
      · exact ⟨.inr trivial, .inl trivial⟩
      · intro hne
        refine ⟨fun e => absurd e hne, fun _ => ⟨?_, ?_⟩⟩ <;> linarith
      · intro hne
        refine ⟨fun _ => .inr ?_, fun e => absurd e.symm hne⟩
        linarith
    · have ha : a < x + 1 := by
        by_contra ha
        exact h1 ⟨le_of_not_gt ha, hxa⟩
      have hb : x + width < b + 1 := by
        by_contra hb
        exact h2 ⟨hxb, le_of_not_gt hb⟩
      simp only [h1, h2, if_false]
      refine ⟨?_, ?_, ?_, ?_, ?_, ?_, ?_⟩ <;> simp only [List.cons_append, List.nil_append, List.append_nil, List.mem_cons, List.not_mem_nil, or_false, forall_eq_or_imp, forall_eq,
        List.pairwise_cons, false_imp_iff, implies_true, List.Pairwise.nil, and_true, exists_eq_or_imp, exists_eq_left]
      · exact ⟨le_refl _, hw.le, le_refl _⟩
      · exact fun s h1 h2 => ⟨h1, h2⟩
      · exact ⟨h0.symm, hdiv.symm⟩
      · exact .inl trivial
      · intro _ _; constructor <;> linarith
      · intro hne e; exact absurd e.symm hne

/-- A rectangle from 10 to 30 with a clip range from 15 to 20: three pieces. -/
example : (emitRect "white" 10 0 20 5 ⟨0, 0, 1, 1⟩ "black" (some (15, 20))).map (fun q => (q.x, q.width, q.tex.u, q.color)) =
    [(10, 5, 0, "black"), (20, 10, 1 / 2, "black"), (15, 5, 1 / 4, "white")] := by decide +kernel

/-! ### C58 -/

namespace Focus
variable {π : Type}

/-- Handlers that make no calls, as those of all objects of the program:
only `TextBox` has any, sample/text_box.cpp:171-179. -/
def quiet : Nat → List FocusCall := fun _ => []

/-- The states reached by focusing and releasing, while objects are created and
destroyed. -/
inductive Reached : Focus π → Prop
  | start : Reached { alive := fun _ => false, flag := fun _ => false }
  | call {s s' : Focus π} {n : Nat} {c : FocusCall} : Reached s → (∀ i, c = .focus i → s.alive i = true) → call quiet quiet n c s = some s' → Reached s'
  | click [DecidableEq π] {s : Focus π} (pos : π) (time : Rat) : Reached s → Reached (s.click pos time)
  | create {s : Focus π} (i : Nat) : Reached s → s.alive i = false → (∀ b, (i, b) ∉ s.log) → s.focused ≠ some i →
      Reached { s with alive := fun j => if j = i then true else s.alive j, flag := fun j => if j = i then false else s.flag j }
  | destroy {s : Focus π} (i : Nat) : Reached s → Reached { s with alive := fun j => if j = i then false else s.alive j }

/-- `true, false, true, …`. -/
def alternating : Nat → List Bool
  | 0 => []
  | n + 1 => alternating n ++ [n % 2 == 0]

/-- What holds in all these states. -/
structure OK (s : Focus π) : Prop where
  only : ∀ i, s.alive i = true → (s.flag i = true ↔ s.focused = some i)
  log : ∀ i, s.alive i = true → ∃ k, ((s.log.filter (·.1 = i)).map (·.2) = alternating k) ∧ (k % 2 = 1 ↔ s.flag i = true)

theorem release_eq {s : Focus π} (n : Nat) : call quiet quiet (n + 1) .release s = some (match s.current with
    | some o => { s with flag := fun j => if j = o then false else s.flag j, log := s.log ++ [(o, false)], focused := none, clicks := 0, lastPos := none }
    | none => { s with focused := none, clicks := 0, lastPos := none }) := by
  rw [call]
  cases s.current <;> rfl

theorem current_some {s : Focus π} {i : Nat} : s.current = some i ↔ s.focused = some i ∧ s.alive i = true := by
  unfold current
  cases s.focused with
  | none => simp
  | some j =>
    simp only [Option.filter_some, Option.some.injEq]
    split
    · rename_i h
      constructor
      · intro e; cases e; exact ⟨rfl, h⟩
      · intro e; rw [e.1]
    · rename_i h
      simp only [reduceCtorEq, false_iff, not_and]
      rintro rfl; exact h

theorem release_ok {s : Focus π} (h : OK s) : ∃ v : Focus π, (∀ n, call quiet quiet (n + 1) .release s = some v) ∧ OK v ∧ v.alive = s.alive ∧ v.focused = none := by
  refine ⟨_, fun n => release_eq n, ?_⟩
  cases hc : s.current with
  | none =>
    refine ⟨⟨?_, h.log⟩, rfl, rfl⟩
    intro i hi
    simp only [reduceCtorEq, iff_false]
    intro hf
    have : s.current = some i := current_some.2 ⟨(h.only i hi).1 hf, hi⟩
    rw [hc] at this
    cases this
  | some o =>
    obtain ⟨h1, h2⟩ := current_some.1 hc
    refine ⟨⟨?_, ?_⟩, rfl, rfl⟩
    · intro i hi
      simp only [reduceCtorEq, iff_false]
      split
      · simp
      · rename_i hio
        intro hf
        have := (h.only i hi).1 hf
        rw [h1] at this
        exact hio (Option.some.inj this).symm
    · intro i hi
      obtain ⟨k, hk, hf⟩ := h.log i hi
      by_cases hio : i = o
      · subst hio
        have hflag : s.flag i = true := (h.only i hi).2 h1
        have hodd := hf.2 hflag
        refine ⟨k + 1, ?_, ?_⟩
        · simp only [List.filter_append, List.map_append, hk, alternating]
          simp; omega
        · simp; omega
      · refine ⟨k, ?_, ?_⟩
        · simp only [List.filter_append, List.map_append, hk]
          simp; exact fun e => absurd e.symm hio
        · simp only [if_neg hio]; exact hf

theorem call_ok {s : Focus π} (h : OK s) (c : FocusCall) (hc : ∀ i, c = .focus i → s.alive i = true) :
    ∃ v : Focus π, (∀ n, call quiet quiet (n + 2) c s = some v) ∧ (∀ n w, call quiet quiet n c s = some w → w = v) ∧ OK v ∧
      v.focused = (match c with | .focus i => some i | .release => none) ∧ v.alive = s.alive := by
  obtain ⟨r, hr, hok, hal, hfo⟩ := release_ok h
  cases c with
  | release =>
    refine ⟨r, fun n => hr (n + 1), ?_, hok, hfo, hal⟩
    intro n w hw
    cases n with
    | zero => cases hw
    | succ n => rw [hr n] at hw; exact (Option.some.inj hw).symm
  | focus i =>
    have hi := hc i rfl
    by_cases hcur : s.current = some i
    · refine ⟨s, fun n => by rw [call, if_pos hcur], ?_, h, (current_some.1 hcur).1, rfl⟩
      intro n w hw
      cases n with
      | zero => cases hw
      | succ n => rw [call, if_pos hcur] at hw; exact (Option.some.inj hw).symm
    · have heq : ∀ n, call quiet quiet (n + 2) (.focus i) s =
          some { r with focused := some i, flag := fun j => if j = i then true else r.flag j, log := r.log ++ [(i, true)] } := by
        intro n
        rw [call, if_neg hcur, hr n]
        rfl
      refine ⟨_, heq, ?_, ⟨?_, ?_⟩, rfl, hal⟩
      · intro n w hw
        match n, hw with
        | 0, hw => cases hw
        | 1, hw => rw [call, if_neg hcur, call] at hw; cases hw
        | n + 2, hw => rw [heq n] at hw; exact (Option.some.inj hw).symm
      · intro j hj
        by_cases hji : j = i
        · simp [hji]
        · simp only [if_neg hji, Option.some.injEq]
          constructor
          · intro hf
            have := (hok.only j hj).1 hf
            rw [hfo] at this
            cases this
          · intro e; exact absurd e.symm hji
      · intro j hj
        obtain ⟨k, hk, hf⟩ := hok.log j hj
        by_cases hji : j = i
        · subst hji
          have hflag : ¬ r.flag j = true := by
            intro hf
            have := (hok.only j hj).1 hf
            rw [hfo] at this
            cases this
          have heven : k % 2 = 0 := by
            have : ¬ k % 2 = 1 := fun e => hflag (hf.1 e)
            omega
          refine ⟨k + 1, ?_, ?_⟩
          · simp only [List.filter_append, List.map_append, hk, alternating]
            simp [heven]
          · simp; omega
        · refine ⟨k, ?_, ?_⟩
          · simp only [List.filter_append, List.map_append, hk]
            simp; exact fun e => absurd e.symm hji
          · simp only [if_neg hji]; exact hf

theorem reached_ok {s : Focus π} (h : Reached s) : OK s := by
  induction h with
  | start => exact ⟨by simp, by simp⟩
  | call _ hc hs ih =>
    obtain ⟨v, _, h2, h3, _⟩ := call_ok ih _ hc
    rw [h2 _ _ hs]
    exact h3
  | click pos time _ ih => exact ⟨ih.only, ih.log⟩
  | @create s i _ hd hl hf ih =>
    constructor
    · intro j hj
      by_cases hji : j = i
      · subst hji
        simp only [if_true, Bool.false_eq_true, false_iff]
        exact hf
      · simp only [if_neg hji] at hj ⊢
        exact ih.only j hj
    · intro j hj
      by_cases hji : j = i
      · subst hji
        refine ⟨0, ?_, by simp⟩
        simp only [alternating, List.map_eq_nil_iff, List.filter_eq_nil_iff]
        rintro ⟨a, b⟩ hm
        simp only [decide_eq_true_eq]
        rintro rfl
        exact hl b hm
      · simp only [if_neg hji] at hj ⊢
        exact ih.log j hj
  | @destroy s i _ ih =>
    constructor
    · intro j hj
      by_cases hji : j = i
      · simp [hji] at hj
      · simp only [if_neg hji] at hj
        exact ih.only j hj
    · intro j hj
      by_cases hji : j = i
      · simp [hji] at hj
      · simp only [if_neg hji] at hj
        exact ih.log j hj

end Focus

open Focus in
/-- C58: an object reports `is_focused` exactly if the container has it recorded; so at most
one does. -/
theorem C58_one {π : Type} {s : Focus π} (h : Reached s) {i : Nat} (hi : s.alive i = true) : s.flag i = true ↔ s.current = some i := by
  rw [current_some, (reached_ok h).only i hi]
  simp [hi]

open Focus in
/-- C58: the focus goes where it is asked to go, and the call comes to an end. -/
theorem C58_focus {π : Type} {s : Focus π} (h : Reached s) {i : Nat} (hi : s.alive i = true) :
    ∃ v : Focus π, (∀ n ≥ 2, call quiet quiet n (.focus i) s = some v) ∧ v.flag i = true ∧ v.current = some i := by
  obtain ⟨v, h1, _, h3, h4, h5⟩ := call_ok (reached_ok h) (.focus i) (by rintro j ⟨⟩; exact hi)
  have hv : v.alive i = true := by rw [h5]; exact hi
  refine ⟨v, ?_, (h3.only i hv).2 h4, current_some.2 ⟨h4, hv⟩⟩
  intro n hn
  obtain ⟨n, rfl⟩ := Nat.exists_eq_add_of_le' hn
  exact h1 n

open Focus in
/-- C58: the notifications of an object alternate, beginning with `handle_focused`; the last
one is `handle_focused` exactly if the object has the focus. -/
theorem C58_notifications {π : Type} {s : Focus π} (h : Reached s) {i : Nat} (hi : s.alive i = true) :
    ∃ k, (s.log.filter (·.1 = i)).map (·.2) = (List.range k).map (fun j => j % 2 == 0) ∧ (k % 2 = 1 ↔ s.flag i = true) := by
  obtain ⟨k, h1, h2⟩ := (reached_ok h).log i hi
  refine ⟨k, ?_, h2⟩
  rw [h1]
  clear h1 h2
  induction k with
  | zero => rfl
  | succ k ih => rw [alternating, ih, List.range_succ, List.map_append]; rfl

theorem foldl_none {σ τ : Type} (f : τ → σ → Option σ) (l : List τ) : l.foldl (fun (s : Option σ) c => s.bind (f c)) none = none := by
  induction l with
  | nil => rfl
  | cons a r ih => exact ih

open Focus in
/-- What C58 depends on: if `handle_focus_lost` of the focused object asked the container to
release the focus or to give it to another object, the call would never come to an end,
because the object is still recorded. -/
theorem C58_reentrant {π : Type} (gained lost : Nat → List FocusCall) {o : Nat} {c : FocusCall} {r : List FocusCall} (hl : lost o = c :: r) (hc : c ≠ .focus o) :
    ∀ (n : Nat) (s : Focus π), s.current = some o → call gained lost n .release s = none := by
  intro n
  induction n using Nat.strongRecOn with
  | ind n ih =>
    intro s hs
    cases n with
    | zero => rfl
    | succ n =>
      rw [call, hs]
      simp only [hl, List.foldl_cons, Option.bind_some]
      have hs' : current { s with flag := fun j => if j = o then false else s.flag j, log := s.log ++ [(o, false)] } = some o := hs
      have hnone : call gained lost n c { s with flag := fun j => if j = o then false else s.flag j, log := s.log ++ [(o, false)] } = none := by
        cases c with
        | release => exact ih n (by omega) _ hs'
        | focus j =>
          cases n with
          | zero => rfl
          | succ n =>
            have hjo : ¬ current { s with flag := fun j => if j = o then false else s.flag j, log := s.log ++ [(o, false)] } = some j := by
              rw [hs']
              rintro ⟨⟩
              exact hc rfl
            rw [call, if_neg hjo, ih n (by omega) _ hs']
            rfl
      rw [hnone, foldl_none]
      rfl

/-- Object 0 gets the focus, then object 1. -/
example : ∃ s : Focus Nat, Focus.Reached s ∧ s.current = some 1 ∧ s.log = [(0, true), (0, false), (1, true)] := by
  have h0 : Focus.Reached (π := Nat) _ := .start
  have h1 := Focus.Reached.create 0 h0 rfl (by simp) (by simp)
  have h2 := Focus.Reached.create 1 h1 (by simp) (by simp) (by simp)
  have h3 := Focus.Reached.call (n := 2) (c := .focus 0) h2 (by rintro i ⟨⟩; rfl) rfl
  have h4 := Focus.Reached.call (n := 2) (c := .focus 1) h3 (by rintro i ⟨⟩; rfl) rfl
  exact ⟨_, h4, rfl, rfl⟩

/-! ### C70 -/

/-- A mouse press on a text box: where the cursor goes, and when. -/
structure Press (π : Type) where
  box : Nat
  pos : π
  time : Rat

/-- A press on a text box, sample/text_box.cpp:18-53 with
`UIContainer::handle_mouse_button`, sample/ui_container.cpp:251-278: a box that has the
focus counts the click, another one gets the focus. -/
def Focus.press {π : Type} [DecidableEq π] (s : Focus π) (p : Press π) : Option (Focus π) :=
  if s.flag p.box then some (s.click p.pos p.time) else Focus.call Focus.quiet Focus.quiet 2 (.focus p.box) s

/-- How many of the latest clicks follow one another at the same place within half a second
each; the latest click comes first. -/
def quickClicks {π : Type} [DecidableEq π] : List (π × Rat) → Nat
  | [] => 0
  | [_] => 0
  | (p, t) :: (p', t') :: r => if p' = p ∧ t - t' ≤ 1 / 2 then quickClicks ((p', t') :: r) + 1 else 0

open Focus in
/-- Clicks in a box that has the focus, from the time it got it: `l` are the clicks, the
latest first. -/
inductive Clicked {π : Type} [DecidableEq π] (i : Nat) : Focus π → List (π × Rat) → Prop
  | focus {s s' : Focus π} (p : Press π) : Reached s → p.box = i → s.alive i = true → s.flag i = false → s.press p = some s' → Clicked i s' []
  | press {s s' : Focus π} {l : List (π × Rat)} (p : Press π) : Clicked i s l → p.box = i → s.press p = some s' → Clicked i s' ((p.pos, p.time) :: l)

theorem clicked_state {π : Type} [DecidableEq π] {i : Nat} {s : Focus π} {l : List (π × Rat)} (h : Clicked i s l) :
    s.flag i = true ∧ s.clicks = quickClicks l ∧ s.lastPos = (l.head?).map (·.1) ∧ ∀ e, l.head? = some e → s.lastTime = e.2 := by
  induction h with
  | @focus s s' p hr hp ha hf hs =>
    subst hp
    rw [Focus.press, if_neg (by simp [hf])] at hs
    have hcur : ¬ s.current = some p.box := fun e => by rw [← C58_one hr ha, hf] at e; cases e
    rw [Focus.call, if_neg hcur, Focus.release_eq, Option.bind_some] at hs
    cases hs
    refine ⟨by simp, ?_, ?_, by simp⟩
    · cases s.current <;> rfl
    · cases s.current <;> rfl
  | @press s s' l p _ hp hs ih =>
    subst hp
    obtain ⟨h1, h2, h3, h4⟩ := ih
    rw [Focus.press, if_pos h1] at hs
    cases hs
    refine ⟨h1, ?_, rfl, ?_⟩
    · cases l with
      | nil =>
        have h3' : s.lastPos = none := h3
        simp [Focus.click, quickClicks, h3']
      | cons e r =>
        obtain ⟨a, b⟩ := e
        have h3' : s.lastPos = some a := h3
        have h4' : s.lastTime = b := h4 _ rfl
        simp only [Focus.click, quickClicks, h3', h4', h2, Option.some.injEq]
    · rintro e ⟨⟩; rfl

/-- C70 (partial: the press that gives the box the focus is not counted): the click count is
the number of latest clicks that follow one another at the same place within half a second
each. -/
theorem C70_clicks_partial {π : Type} [DecidableEq π] {i : Nat} {s : Focus π} {l : List (π × Rat)} (h : Clicked i s l) : s.clicks = quickClicks l :=
  (clicked_state h).2.1

/-- C70 is violated: the first press on a box without focus is not counted, so that a double
click on it counts as a single click, in every state. -/
theorem C70_first_violated {π : Type} [DecidableEq π] {s s1 s2 : Focus π} (h : Focus.Reached s) (i : Nat) (ha : s.alive i = true) (hf : s.flag i = false) (pos : π) (time time' : Rat)
    (h1 : s.press ⟨i, pos, time⟩ = some s1) (h2 : s1.press ⟨i, pos, time'⟩ = some s2) : s2.clicks = 0 :=
  C70_clicks_partial (l := [(pos, time')]) (.press ⟨i, pos, time'⟩ (.focus ⟨i, pos, time⟩ h rfl ha hf h1) rfl h2)

/-- Three presses on box 0 at the same place, the last two within half a second: the count
is 1. -/
example : ∃ s : Focus Nat, Clicked 0 s [(7, 2), (7, 17 / 10)] ∧ s.clicks = 1 := by
  have h0 := Focus.Reached.create (π := Nat) 0 .start rfl (by simp) (by simp)
  have h1 := Clicked.focus (i := 0) ⟨0, 7, 1⟩ h0 rfl rfl rfl rfl
  have h2 := Clicked.press ⟨0, 7, 17 / 10⟩ h1 rfl rfl
  have h3 := Clicked.press ⟨0, 7, 2⟩ h2 rfl rfl
  exact ⟨_, h3, by rw [C70_clicks_partial h3]; decide +kernel⟩

/-! ### C69 -/

namespace Ui
variable {α : Type}

theorem visible_step {u : Ui α} {t : Attached} {i : Nat} (h : Rep u t none) (hi : i ∈ u.alive) (n : Nat) : u.visibleFrom (n + 1) i =
    if (u.obj i).visible then (match t.parent i with | none => some true | some p => u.visibleFrom n p) else some false := by
  rw [visibleFrom, h.parent i hi (by simp)]
  cases (u.obj i).visible <;> rfl

/-- The walks below an object whose visibility is `b`: `l` are all objects below it, in the
order of `for_each_descendant`. -/
def WalkOK (u : Ui α) (c : Nat) : Prop := ∀ M b, (∀ n ≥ M, u.visibleFrom n c = some b) → ∃ N l vis, (∀ n ≥ N, u.descendants n (u.obj c).first = some l) ∧
  (∀ e ∈ l, ∀ n ≥ N, u.visibleFrom n e = some (vis e)) ∧ (b = true → ∀ n ≥ N, u.drawn n (u.obj c).first = some (l.filter vis)) ∧ (b = false → ∀ e ∈ l, vis e = false) ∧
  ∀ (f : Nat → Option Bool) g, (∀ e ∈ l, f e = some (g e)) → ∀ n ≥ N, u.bottomUp f n (u.obj c).last = some (l.reverse.find? g)

theorem descendants_list {u : Ui α} (below : Nat → List Nat) {N : Nat} : ∀ {l : List Nat} {w}, u.Seg w l none → (∀ c ∈ l, ∀ n ≥ N, u.descendants n (u.obj c).first = some (below c)) →
    ∀ n ≥ N + l.length + 1, u.descendants n l.head? = some (l.flatMap fun c => c :: below c)
  | [], _, _, _, n + 1, _ => rfl
  | c :: r, _, hs, h, n + 1, hn => by
    simp only [List.length_cons] at hn
    obtain ⟨_, h2, h3⟩ := hs
    rw [List.head?_cons, descendants, h c (by simp) n (by omega), Option.bind_some, h2, Option.or_none,
      descendants_list below h3 (fun d hd => h d (by simp [hd])) n (by omega)]
    simp

theorem drawn_list {u : Ui α} (below : Nat → List Nat) {N : Nat} : ∀ {l : List Nat} {w}, u.Seg w l none →
    (∀ c ∈ l, (u.obj c).visible = true → ∀ n ≥ N, u.drawn n (u.obj c).first = some (below c)) →
    ∀ n ≥ N + l.length + 1, u.drawn n l.head? = some (l.flatMap fun c => if (u.obj c).visible then c :: below c else [])
  | [], _, _, _, n + 1, _ => rfl
  | c :: r, _, hs, h, n + 1, hn => by
    simp only [List.length_cons] at hn
    obtain ⟨_, h2, h3⟩ := hs
    rw [List.head?_cons, drawn, h2, Option.or_none, drawn_list below h3 (fun d hd => h d (by simp [hd])) n (by omega), List.flatMap_cons]
    cases hv : (u.obj c).visible with
    | false => simp
    | true => simp [h c (by simp) hv n (by omega)]

theorem bottomUp_list {u : Ui α} (f : Nat → Option Bool) (g : Nat → Bool) (below : Nat → List Nat) {N : Nat} : ∀ {k : Nat} {l : List Nat} {e w : Option Nat}, l.length = k → u.Seg none l e → u.lock w = l.getLast? →
    (∀ c ∈ l, f c = some (g c)) → (∀ c ∈ l, ∀ n ≥ N, u.bottomUp f n (u.obj c).last = some ((below c).reverse.find? g)) →
    ∀ n ≥ N + l.length + 1, u.bottomUp f n w = some ((l.flatMap fun c => c :: below c).reverse.find? g)
  | k, l, e, w, hk, hs, hw, hf, hb, 0, hn => by omega
  | k, l, e, w, hk, hs, hw, hf, hb, n + 1, hn => by
    rw [bottomUp, hw]
    rcases List.eq_nil_or_concat l with rfl | ⟨l', a, rfl⟩
    · rfl
    · rw [List.concat_eq_append] at *
      simp only [List.length_append, List.length_singleton] at hn hk
      rw [Seg.append] at hs
      have h1 : u.lock (u.obj a).prev = l'.getLast? := by rw [hs.2.1]; simp
      simp only [List.getLast?_append, List.getLast?_singleton, Option.some_or]
      rw [hb a (by simp) n (by omega), Option.bind_some, hf a (by simp), Option.bind_some,
        bottomUp_list f g below (k := l'.length) rfl hs.1 h1 (fun c hc => hf c (by simp [hc])) (fun c hc => hb c (by simp [hc])) n (by omega)]
      simp only [List.flatMap_append, List.flatMap_cons, List.flatMap_nil, List.append_nil, List.reverse_append, List.reverse_cons, List.append_assoc, List.find?_append]
      cases (below a).reverse.find? g with
      | some x => rfl
      | none => cases hg : g a <;> simp [hg]

theorem walk_ok {u : Ui α} {t : Attached} (h : Rep u t none) : ∀ c, c ∈ u.alive → WalkOK u c := by
  intro c
  induction h.acyc c with
  | intro c _ ih =>
    intro hc M b hM
    -- each child
    have hkid : ∀ d ∈ t.kids c, ∃ N l vis, (∀ n ≥ N, u.descendants n (u.obj d).first = some l) ∧
        (∀ e ∈ d :: l, ∀ n ≥ N, u.visibleFrom n e = some (vis e)) ∧ (b = true → vis d = (u.obj d).visible) ∧
        (vis d = true → ∀ n ≥ N, u.drawn n (u.obj d).first = some (l.filter vis)) ∧
        (vis d = false → ∀ e ∈ l, vis e = false) ∧ (b = false → vis d = false) ∧
        ∀ (f : Nat → Option Bool) g, (∀ e ∈ d :: l, f e = some (g e)) → ∀ n ≥ N, u.bottomUp f n (u.obj d).last = some (l.reverse.find? g) := by
      intro d hd
      have hm := Attached.mem_kids.1 hd
      have hda := (h.known _ _ hm).1
      have hpar : t.parent d = some c := (Attached.parent_eq h.nodup).2 hm
      have hvd : ∀ n ≥ M + 1, u.visibleFrom n d = some ((u.obj d).visible && b) := by
        intro n hn
        obtain ⟨n, rfl⟩ := Nat.exists_eq_add_of_le' (show 1 ≤ n by omega)
        rw [visible_step h hda, hpar]
        simp only
        rw [hM n (by omega)]
        cases (u.obj d).visible <;> simp
      obtain ⟨N, l, vis, w1, w2, w3, w4, w5⟩ := ih d hm hda (M + 1) _ hvd
      refine ⟨max N (M + 1), l, fun e => if e = d then (u.obj d).visible && b else vis e, ?_, ?_, ?_, ?_, ?_, ?_, ?_⟩
      · intro n hn; exact w1 n (by omega)
      · intro e he n hn
        by_cases hed : e = d
        · subst hed; simp only [if_true]; exact hvd n (by omega)
        · simp only [if_neg hed]
          exact w2 e ((List.mem_cons.1 he).resolve_left hed) n (by omega)
      · intro hb; simp [hb]
      · intro hv n hn
        simp only [if_true] at hv
        rw [w3 hv n (by omega)]
        congr 1
        apply List.filter_congr
        intro e he
        by_cases hed : e = d
        · subst hed
          simp only [if_true]
          have e1 := w2 e he (max N (M + 1)) (by omega)
          rw [hvd _ (by omega)] at e1
          exact (Option.some.inj e1).symm
        · simp [hed]
      · intro hv e he
        simp only [if_true] at hv
        by_cases hed : e = d
        · simp only [if_pos hed]; exact hv
        · simp only [if_neg hed]
          exact w4 hv e he
      · intro hb; simp [hb]
      · intro f g hfg n hn
        exact w5 f g (fun e he => hfg e (by simp [he])) n (by omega)
    -- all of them
    have : ∃ (N : Nat) (below : Nat → List Nat) (vis : Nat → Bool), ∀ d ∈ t.kids c, (∀ n ≥ N, u.descendants n (u.obj d).first = some (below d)) ∧
        (∀ e ∈ d :: below d, ∀ n ≥ N, u.visibleFrom n e = some (vis e)) ∧ (b = true → vis d = (u.obj d).visible) ∧
        (vis d = true → ∀ n ≥ N, u.drawn n (u.obj d).first = some ((below d).filter vis)) ∧
        (vis d = false → ∀ e ∈ below d, vis e = false) ∧ (b = false → vis d = false) ∧
        ∀ (f : Nat → Option Bool) g, (∀ e ∈ d :: below d, f e = some (g e)) → ∀ n ≥ N, u.bottomUp f n (u.obj d).last = some ((below d).reverse.find? g) := by
      clear ih
      -- visibility, from one bound on
      have hbound : ∀ l : List Nat, (∀ d ∈ l, d ∈ t.kids c) → ∃ N : Nat, ∀ d ∈ l, ∃ m vis, (∀ n ≥ N, u.descendants n (u.obj d).first = some m) ∧
          (∀ e ∈ d :: m, ∀ n ≥ N, u.visibleFrom n e = some (vis e)) ∧ (b = true → vis d = (u.obj d).visible) ∧
          (vis d = true → ∀ n ≥ N, u.drawn n (u.obj d).first = some (m.filter vis)) ∧
          (vis d = false → ∀ e ∈ m, vis e = false) ∧ (b = false → vis d = false) ∧
          ∀ (f : Nat → Option Bool) g, (∀ e ∈ d :: m, f e = some (g e)) → ∀ n ≥ N, u.bottomUp f n (u.obj d).last = some (m.reverse.find? g) := by
        intro l
        induction l with
        | nil => intro _; exact ⟨0, by simp⟩
        | cons d r ihr =>
          intro hl
          obtain ⟨N1, h1⟩ := ihr fun x hx => hl x (by simp [hx])
          obtain ⟨N2, m2, v2, a1, a2, a3, a4, a5, a6, a7⟩ := hkid d (hl d (by simp))
          refine ⟨max N1 N2, ?_⟩
          intro x hx
          rcases List.mem_cons.1 hx with rfl | hx
          · exact ⟨m2, v2, fun n hn => a1 n (by omega), fun e he n hn => a2 e he n (by omega), a3, fun hv n hn => a4 hv n (by omega), a5, a6,
              fun f g hfg n hn => a7 f g hfg n (by omega)⟩
          · obtain ⟨m1, v1, b1, b2, b3, b4, b5, b6, b7⟩ := h1 x hx
            exact ⟨m1, v1, fun n hn => b1 n (by omega), fun e he n hn => b2 e he n (by omega), b3, fun hv n hn => b4 hv n (by omega), b5, b6,
              fun f g hfg n hn => b7 f g hfg n (by omega)⟩
      obtain ⟨N, hN⟩ := hbound (t.kids c) fun d hd => hd
      refine ⟨N, fun d => (u.descendants N (u.obj d).first).getD [], fun e => (u.visibleFrom N e).getD false, ?_⟩
      intro d hd
      obtain ⟨m, vis, b1, b2, b3, b4, b5, b6, b7⟩ := hN d hd
      have hm : (u.descendants N (u.obj d).first).getD [] = m := by rw [b1 N (by omega)]; rfl
      have hv : ∀ e ∈ d :: m, (u.visibleFrom N e).getD false = vis e := fun e he => by rw [b2 e he N (by omega)]; rfl
      simp only [hm]
      have hvd := hv d (by simp)
      refine ⟨b1, fun e he n hn => by rw [hv e he]; exact b2 e he n hn, by rw [hvd]; exact b3, ?_, ?_, by rw [hvd]; exact b6, b7⟩
      · rw [hvd]
        intro h1 n hn
        rw [b4 h1 n hn]
        congr 1
        exact List.filter_congr fun e he => (hv e (by simp [he])).symm
      · rw [hvd]
        intro h1 e he
        rw [hv e (by simp [he])]
        exact b5 h1 e he
    obtain ⟨N, below, vis, hd⟩ := this
    refine ⟨N + (t.kids c).length + 1, (t.kids c).flatMap fun d => d :: below d, vis, ?_, ?_, ?_, ?_, ?_⟩
    · rw [h.first c hc]
      exact descendants_list below (h.seg c hc) fun d hdk => (hd d hdk).1
    · intro e he n hn
      rw [List.mem_flatMap] at he
      obtain ⟨d, hdk, he⟩ := he
      exact (hd d hdk).2.1 e he n (by omega)
    · intro hb n hn
      rw [h.first c hc, drawn_list (fun d => (below d).filter vis) (N := N) (h.seg c hc) ?_ n hn]
      · congr 1
        rw [List.filter_flatMap]
        apply List.flatMap_congr
        intro d hdk
        obtain ⟨_, _, h3, _, h5, _⟩ := hd d hdk
        rw [← h3 hb]
        cases hv : vis d with
        | true => simp [hv]
        | false =>
          simp only [Bool.false_eq_true, if_false, List.filter_cons, hv]
          rw [eq_comm, List.filter_eq_nil_iff]
          intro e he
          simp [h5 hv e he]
      · intro d hdk hv
        obtain ⟨_, _, h3, h4, _⟩ := hd d hdk
        exact h4 (by rw [h3 hb, hv])
    · intro hb e he
      rw [List.mem_flatMap] at he
      obtain ⟨d, hdk, he⟩ := he
      obtain ⟨_, _, _, _, h5, h6, _⟩ := hd d hdk
      rcases List.mem_cons.1 he with rfl | he
      · exact h6 hb
      · exact h5 (h6 hb) e he
    · intro f g hfg n hn
      refine bottomUp_list f g below rfl (h.seg c hc) (h.last c hc) ?_ ?_ n hn
      · intro d hdk
        exact hfg d (List.mem_flatMap.2 ⟨d, hdk, by simp⟩)
      · intro d hdk
        exact (hd d hdk).2.2.2.2.2.2 f g fun e he => hfg e (List.mem_flatMap.2 ⟨d, hdk, he⟩)

theorem visible_mono {u : Ui α} {b : Bool} : ∀ {m n i : Nat}, m ≤ n → u.visibleFrom m i = some b → u.visibleFrom n i = some b
  | 0, _, _, _, h => by simp [visibleFrom] at h
  | m + 1, 0, _, hmn, _ => by omega
  | m + 1, n + 1, i, hmn, h => by
    rw [visibleFrom] at h ⊢
    split at h
    · rename_i hv; rw [if_pos hv]; exact h
    · rename_i hv
      rw [if_neg hv]
      split at h
      · exact h
      · exact visible_mono (by omega) h

/-- The objects below `c` in painting order: each child, in the order they were attached,
followed by the objects below it; objects that are not `shown` are left out with
everything below them. -/
inductive Painted (t : Attached) (shown : Nat → Bool) : Nat → List Nat → Prop
  | mk {c} (below : Nat → List Nat) : (∀ d ∈ t.kids c, shown d = true → Painted t shown d (below d)) →
      Painted t shown c ((t.kids c).flatMap fun d => if shown d then d :: below d else [])

theorem painted {u : Ui α} {t : Attached} (h : Rep u t none) : ∀ c, c ∈ u.alive →
    ∃ N l, Painted t (fun i => (u.obj i).visible) c l ∧ ∀ n ≥ N, u.drawn n (u.obj c).first = some l := by
  intro c
  induction h.acyc c with
  | intro c _ ih =>
    intro hc
    have hbound : ∀ l : List Nat, (∀ d ∈ l, d ∈ t.kids c) → ∃ N : Nat, ∀ d ∈ l, ∃ m, Painted t (fun i => (u.obj i).visible) d m ∧ ∀ n ≥ N, u.drawn n (u.obj d).first = some m := by
      intro l
      induction l with
      | nil => intro _; exact ⟨0, by simp⟩
      | cons d r ihr =>
        intro hl
        obtain ⟨N1, h1⟩ := ihr fun x hx => hl x (by simp [hx])
        have hm := Attached.mem_kids.1 (hl d (by simp))
        obtain ⟨N2, m2, a1, a2⟩ := ih d hm (h.known _ _ hm).1
        refine ⟨max N1 N2, fun x hx => ?_⟩
        rcases List.mem_cons.1 hx with rfl | hx
        · exact ⟨m2, a1, fun n hn => a2 n (by omega)⟩
        · obtain ⟨m1, b1, b2⟩ := h1 x hx
          exact ⟨m1, b1, fun n hn => b2 n (by omega)⟩
    obtain ⟨N, hN⟩ := hbound _ fun d hd => hd
    have hN' : ∀ d ∈ t.kids c, Painted t (fun i => (u.obj i).visible) d ((u.drawn N (u.obj d).first).getD []) ∧
        ∀ n ≥ N, u.drawn n (u.obj d).first = some ((u.drawn N (u.obj d).first).getD []) := by
      intro d hd
      obtain ⟨m, m1, m2⟩ := hN d hd
      rw [m2 N (by omega)]
      exact ⟨m1, m2⟩
    refine ⟨N + (t.kids c).length + 1, _, .mk _ fun d hd _ => (hN' d hd).1, ?_⟩
    rw [h.first c hc]
    exact drawn_list _ (h.seg c hc) fun d hd _ => (hN' d hd).2

end Ui

section
variable {α : Type} [Add α]
open Ui

/-- C69 (partial: clean histories, see C56; a container that is visible itself; handlers
that do not change the tree before they take the press): the objects are drawn parents
first and in the order in which they were attached, hidden ones left out with all below
them; and a mouse press goes to the object drawn last of those that take it, to none
exactly if none of the drawn objects takes it. -/
theorem C69_press_partial {u : Ui α} {t : Attached} (h : Clean u t) {c : Nat} (hc : c ∈ u.alive) {m : Nat} (hv : u.visibleFrom m c = some true) :
    ∃ N d, Painted t (fun i => (u.obj i).visible) c d ∧ ∀ n ≥ N, u.drawn n (u.obj c).first = some d ∧
      ∀ takes, u.pressed takes n c = some (d.reverse.find? takes) := by
  have hr := (clean_inv h).rep
  obtain ⟨N, l, vis, _, w2, w3, _, w5⟩ := walk_ok hr c hc m true fun n hn => visible_mono hn hv
  obtain ⟨N', d, hp, hd⟩ := painted hr c hc
  have hdl : d = l.filter vis := Option.some.inj ((hd (max N N') (by omega)).symm.trans (w3 rfl _ (by omega)))
  refine ⟨max N N', d, hp, fun n hn => ⟨hd n (by omega), fun takes => ?_⟩⟩
  rw [pressed, w5 _ (fun e => vis e && takes e) ?_ n (by omega), hdl]
  · congr 1
    rw [← List.filter_reverse, List.find?_filter]
    congr 1
    funext a
    cases vis a <;> cases takes a <;> rfl
  · intro e he
    rw [w2 e he n (by omega)]
    rfl

/-- C69: a hidden container is drawn but takes no presses, in every clean state. -/
theorem C69_hidden_violated {u : Ui α} {t : Attached} (h : Clean u t) {c : Nat} (hc : c ∈ u.alive) (hv : (u.obj c).visible = false) :
    ∃ N d, Painted t (fun i => (u.obj i).visible) c d ∧ ∀ n ≥ N, u.drawn n (u.obj c).first = some d ∧ ∀ takes, u.pressed takes n c = some none := by
  have hr := (clean_inv h).rep
  obtain ⟨N, l, vis, _, w2, _, w4, w5⟩ := walk_ok hr c hc 1 false fun n hn => by
    obtain ⟨n, rfl⟩ := Nat.exists_eq_add_of_le' hn
    rw [visibleFrom, hv]; rfl
  obtain ⟨N', d, hp, hd⟩ := painted hr c hc
  refine ⟨max N N', d, hp, fun n hn => ⟨hd n (by omega), fun takes => ?_⟩⟩
  rw [pressed, w5 _ (fun _ => false) ?_ n (by omega)]
  · congr 1
    simp
  · intro e he
    rw [w2 e he n (by omega), w4 rfl e he]
    rfl

/-- Four objects: 1 and 2 on the container 0, 3 on 1; 2 is hidden.  Drawn are 1 and 3; the
press goes to 3 if 3 takes it. -/
example : ∃ (u : Ui Int), uiMoves uiFour [(1, some 0), (2, some 0), (3, some 1)] = some u ∧
    ∃ v, u.setVisible 2 false = some v ∧ v.drawn 9 (v.obj 0).first = some [1, 3] ∧ v.pressed (fun _ => true) 9 0 = some (some 3) ∧
      v.pressed (· ≠ 3) 9 0 = some (some 1) ∧ v.visibleFrom 9 0 = some true :=
  ⟨_, rfl, _, rfl, by decide +kernel, by decide +kernel, by decide +kernel, by decide +kernel⟩

end

/-! ### C71 -/

/-- The last notification of an object. -/
def lastNote (log : List (Nat × Bool)) (i : Nat) : Option Bool := ((log.filter (·.1 = i)).getLast?).map (·.2)

/-- The states reached by mouse moves: `alive` are the objects that still exist, `under` is
the object last found under the mouse. -/
inductive Hover.Moved : Hover → (Nat → Bool) → Option Nat → Prop
  | start (alive) : Moved {} alive none
  | destroy {h alive under} (i : Nat) : Moved h alive under → Moved h (fun j => alive j && j != i) under
  | move {h alive under} (under') : Moved h alive under → (∀ i, under' = some i → alive i = true) → Moved (h.move alive under') alive under'

theorem lastNote_append (log : List (Nat × Bool)) (k : Nat) (b : Bool) (i : Nat) :
    lastNote (log ++ [(k, b)]) i = if k = i then some b else lastNote log i := by
  unfold lastNote
  rw [List.filter_append]
  by_cases hk : k = i <;> simp [hk]

theorem Hover.moved_last {h : Hover} {alive : Nat → Bool} {under : Option Nat} (hm : h.Moved alive under) :
    (∀ i, under = some i → h.hovered = some i) ∧ ∀ i, alive i = true →
      (lastNote h.log i = some true ↔ under = some i) ∧ (h.hovered ≠ some i → lastNote h.log i ≠ some true) := by
  induction hm with
  | start alive => exact ⟨by simp, fun i _ => by simp [lastNote]⟩
  | destroy k _ ih => exact ⟨ih.1, fun i hi => ih.2 i (by simp at hi; exact hi.1)⟩
  | @move h alive under under' _ ha ih =>
    obtain ⟨h1, h2⟩ := ih
    -- after the leave notification only the object under the mouse can have been entered last
    have hgl : ∀ i, alive i = true → under' ≠ some i → lastNote (h.leave alive under').log i ≠ some true := by
        intro i hi hu
        unfold Hover.leave
        split
        · rename_i l hl
          rw [Option.filter_eq_some_iff] at hl
          split
          · simp only [lastNote_append]
            split
            · simp
            · rename_i hli
              exact (h2 i hi).2 (by rw [hl.1]; simpa using hli)
          · rename_i hul
            refine (h2 i hi).2 ?_
            rw [hl.1]
            intro e
            rw [Classical.not_not] at hul
            exact hu (hul.trans e)
        · rename_i hl
          refine (h2 i hi).2 ?_
          intro e
          rw [e, Option.filter_some, if_pos hi] at hl
          exact absurd hl (by simp)
    unfold Hover.move
    cases under' with
    | none =>
      refine ⟨by simp, fun i hi => ⟨?_, fun _ => hgl i hi (by simp)⟩⟩
      have := hgl i hi (by simp)
      simp [this]
    | some k =>
      refine ⟨fun i hi => hi, fun i hi => ?_⟩
      simp only [lastNote_append, Option.some.injEq]
      by_cases hk : k = i
      · simp [hk]
      · have := hgl i hi (by simpa using hk)
        simp [hk, this]

/-- C71 (partial: the notifications may be repeated): after every history of mouse moves and
destroyed objects, the last notification of an object is that the mouse has entered
it exactly if it is the object found under the mouse. -/
theorem C71_hover_partial {h : Hover} {alive : Nat → Bool} {under : Option Nat} (hm : h.Moved alive under) {i : Nat} (hi : alive i = true) :
    lastNote h.log i = some true ↔ under = some i := ((Hover.moved_last hm).2 i hi).1

/-- Every move inside an object notifies it of the mouse entering, and every move outside of
all objects notifies the last one of the mouse leaving: enter, leave and enter again never
alternate unless each lasts one move. -/
theorem C71_repeated_violated (h : Hover) {alive : Nat → Bool} {i : Nat} (hi : alive i = true) (k : Nat) :
    (((Hover.move · alive (some i))^[k + 1] h).log = (h.move alive (some i)).log ++ List.replicate k (i, true)) ∧
    ((Hover.move · alive none)^[k] (h.move alive (some i))).log = (h.move alive (some i)).log ++ List.replicate k (i, false) := by
  have hh : (h.move alive (some i)).hovered = some i := rfl
  generalize hg : h.move alive (some i) = g at *
  constructor
  · rw [Function.iterate_succ_apply]
    simp only [hg]
    have : ∀ k : Nat, ((Hover.move · alive (some i))^[k] g) = { hovered := some i, log := g.log ++ List.replicate k (i, true) } := by
      intro k
      induction k with
      | zero => cases g; simp at hh ⊢; exact hh
      | succ k ih => rw [Function.iterate_succ_apply', ih]; simp [Hover.move, Hover.leave, Option.filter_some, hi, List.replicate_succ']
    rw [this]
  · have : ∀ k : Nat, ((Hover.move · alive none)^[k] g) = { hovered := some i, log := g.log ++ List.replicate k (i, false) } := by
      intro k
      induction k with
      | zero => cases g; simp at hh ⊢; exact hh
      | succ k ih => rw [Function.iterate_succ_apply', ih]; simp [Hover.move, Hover.leave, Option.filter_some, hi, List.replicate_succ']
    rw [this]

/-- From 0 to 1, then outside: 0 entered and left, 1 entered and left. -/
example : ∃ h : Hover, h.Moved (fun _ => true) none ∧ h.log = [(0, true), (0, false), (1, true), (1, false)] :=
  ⟨_, .move none (.move (some 1) (.move (some 0) (.start _) (by simp)) (by simp)) (by simp), rfl⟩

end RichText
