import Verif.Proof.FmtIter
import Mathlib.Tactic.Linarith
import Mathlib.Algebra.Order.Field.Rat
/-!
The decoration machine on a list of glyphs: the pieces it emits.
-/
namespace RichText
variable {κ : Type} [DecidableEq κ]

/-- A glyph as the machine sees it: position, flag, colour. -/
structure DecoGlyph (κ : Type) where
  x : Rat
  on : Bool
  color : κ

/-- A piece of decoration. -/
structure Piece (κ : Type) where
  lo : Rat
  hi : Rat
  color : κ

/-- `t` is inside the piece. -/
def Piece.covers (t : Rat) (p : Piece κ) : Bool := decide (p.lo < t) && decide (t < p.hi)

/-- The pieces emitted from state `start, was, c0` on. -/
def pieces (endX : Rat) : Rat → Bool → κ → List (DecoGlyph κ) → List (Piece κ)
  | start, was, c0, [] => if was then [⟨start, endX, c0⟩] else []
  | start, was, c0, g :: t =>
    (if (!g.on && was) || (g.on && decide (g.color ≠ c0)) then [⟨start, g.x, c0⟩] else [])
      ++ pieces endX (if g.on && (!was || decide (g.color ≠ c0)) then g.x else start) g.on g.color t

/-- Positions in order. -/
def MonoX (endX : Rat) : Rat → List (DecoGlyph κ) → Prop
  | x, [] => x ≤ endX
  | x, g :: t => x ≤ g.x ∧ MonoX endX g.x t

/-- The decoration never begins together with a change of colour. -/
def NoJump : Bool → κ → List (DecoGlyph κ) → Prop
  | _, _, [] => True
  | was, c0, g :: t => (g.on = true → was = false → g.color = c0) ∧ NoJump g.on g.color t

/-- The first position. -/
def firstX (endX : Rat) : List (DecoGlyph κ) → Rat
  | [] => endX
  | g :: _ => g.x

theorem MonoX.first {endX x : Rat} {gs : List (DecoGlyph κ)} (h : MonoX endX x gs) : x ≤ firstX endX gs := by
  cases gs with
  | nil => exact h
  | cons g t => exact h.1

theorem MonoX.weaken {endX x y : Rat} {gs : List (DecoGlyph κ)} (h : MonoX endX x gs) (hy : y ≤ x) :
    MonoX endX y gs := by
  cases gs with
  | nil => exact le_trans hy h
  | cons g t => exact ⟨le_trans hy h.1, h.2⟩

theorem pieces_lo {endX : Rat} (gs : List (DecoGlyph κ)) : ∀ {start : Rat} {was : Bool} {c0 : κ},
    MonoX endX start gs → NoJump was c0 gs → ∀ p ∈ pieces endX start was c0 gs,
      (if was then start else firstX endX gs) ≤ p.lo := by
  induction gs with
  | nil =>
    intro start was c0 hm _ p hp
    cases was with
    | false => simp [pieces] at hp
    | true => simp [pieces] at hp; subst hp; simp
  | cons g t ih =>
    intro start was c0 hm hn p hp
    obtain ⟨hx, hm⟩ := hm
    obtain ⟨hj, hn⟩ := hn
    unfold pieces at hp
    rw [List.mem_append] at hp
    have hfx := hm.first
    rcases hp with hp | hp
    · cases was with
      | false =>
        cases hon : g.on with
        | false => simp [hon] at hp
        | true => simp [hon, hj hon rfl] at hp
      | true =>
        split at hp
        · simp at hp; subst hp; simp
        · simp at hp
    · cases hon : g.on with
      | false =>
        rw [hon] at hp hn
        have := ih (start := start) (hm.weaken hx) hn p (by simpa using hp)
        simp only [Bool.false_eq_true, if_false] at this
        split
        · linarith
        · simp only [firstX]; linarith
      | true =>
        rw [hon] at hp hn
        cases was with
        | false =>
          have := ih (start := g.x) hm hn p (by simpa using hp)
          simp only [if_true] at this
          simpa [firstX] using this
        | true =>
          by_cases hc : g.color = c0
          · have := ih (start := start) (hm.weaken hx) hn p (by simpa [hc] using hp)
            simpa using this
          · have := ih (start := g.x) hm hn p (by simpa [hc] using hp)
            simp only [if_true] at this ⊢
            linarith

theorem filter_none {t : Rat} {l : List (Piece κ)} (h : ∀ p ∈ l, t ≤ p.lo) : l.filter (Piece.covers t) = [] := by
  rw [List.filter_eq_nil_iff]
  intro p hp
  have := h p hp
  simp only [Piece.covers, Bool.and_eq_true, decide_eq_true_eq, not_and]
  intro h1; linarith

/-- Between two glyphs' positions exactly the right pieces. -/
theorem pieces_exact {endX : Rat} (gs : List (DecoGlyph κ)) : ∀ {start : Rat} {was : Bool} {c0 : κ},
    MonoX endX start gs → NoJump was c0 gs →
      (∀ t, start < t → t < firstX endX gs →
        ((pieces endX start was c0 gs).filter (Piece.covers t)).map (·.color) = if was then [c0] else []) ∧
      (∀ (i : Nat) (g : DecoGlyph κ) (x' t : Rat), gs[i]? = some g → (gs.map (·.x) ++ [endX])[i + 1]? = some x' →
        g.x < t → t < x' →
        ((pieces endX start was c0 gs).filter (Piece.covers t)).map (·.color) = if g.on then [g.color] else []) := by
  induction gs with
  | nil =>
    intro start was c0 _ _
    refine ⟨?_, by simp⟩
    intro t h1 h2
    cases was with
    | false => simp [pieces]
    | true =>
      have : Piece.covers t (⟨start, endX, c0⟩ : Piece κ) = true := by
        simp only [Piece.covers, Bool.and_eq_true, decide_eq_true_eq]; exact ⟨h1, h2⟩
      simp [pieces, this]
  | cons g gs ih =>
    intro start was c0 hm0 hn0
    obtain ⟨hx, hm⟩ := id hm0
    obtain ⟨hj, hn⟩ := id hn0
    have hfx := hm.first
    generalize hst : (if g.on && (!was || decide (g.color ≠ c0)) then g.x else start) = st
    have hstx : st ≤ g.x := by rw [← hst]; split <;> linarith
    have hms : MonoX endX st gs := hm.weaken hstx
    obtain ⟨ih1, ih2⟩ := ih (start := st) hms hn
    -- a piece that ends here does not cover later points
    have hpast : ∀ t, g.x < t → (((if (!g.on && was) || (g.on && decide (g.color ≠ c0)) then [⟨start, g.x, c0⟩] else [])
        : List (Piece κ)).filter (Piece.covers t)) = [] := by
      intro t ht
      split
      · have : Piece.covers t (⟨start, g.x, c0⟩ : Piece κ) = false := by
          simp only [Piece.covers, Bool.and_eq_false_iff, decide_eq_false_iff_not, not_lt]
          right; linarith
        simp [this]
      · rfl
    refine ⟨?_, ?_⟩
    · intro t h1 h2
      simp only [firstX] at h2
      unfold pieces
      rw [hst, List.filter_append, List.map_append]
      have hlo := pieces_lo gs hms hn
      cases was with
      | false =>
        have hempty : ((!g.on && false) || (g.on && decide (g.color ≠ c0))) = false := by
          cases hon : g.on with
          | false => rfl
          | true => simp [hj hon rfl]
        rw [hempty, filter_none (l := pieces endX st g.on g.color gs) (by
          intro p hp
          have := hlo p hp
          cases hon : g.on with
          | false => rw [hon] at this; simp only [Bool.false_eq_true, if_false] at this; linarith
          | true =>
            rw [hon] at this hst
            simp at hst
            simp only [if_true] at this
            linarith)]
        simp
      | true =>
        have hcov : Piece.covers t (⟨start, g.x, c0⟩ : Piece κ) = true := by
          simp only [Piece.covers, Bool.and_eq_true, decide_eq_true_eq]; exact ⟨h1, h2⟩
        by_cases hend : ((!g.on && true) || (g.on && decide (g.color ≠ c0))) = true
        · rw [hend, filter_none (l := pieces endX st g.on g.color gs) (by
            intro p hp
            have := hlo p hp
            cases hon : g.on with
            | false => rw [hon] at this; simp only [Bool.false_eq_true, if_false] at this; linarith
            | true =>
              rw [hon] at this hst hend
              simp at hend
              simp [hend] at hst
              simp only [if_true] at this
              linarith)]
          simp [hcov]
        · simp only [Bool.not_eq_true] at hend
          rw [hend]
          have hon : g.on = true := by
            cases h : g.on with
            | false => simp [h] at hend
            | true => rfl
          have hc : g.color = c0 := by simpa [hon] using hend
          have hs : st = start := by rw [← hst]; simp [hon, hc]
          have := ih1 t (by rw [hs]; exact h1) (by linarith)
          rw [this, hon, hc]; simp
    · intro i g' x' t hg hx' h1 h2
      unfold pieces
      rw [hst, List.filter_append, List.map_append]
      cases i with
      | zero =>
        simp only [List.getElem?_cons_zero, Option.some.injEq] at hg
        subst hg
        rw [hpast t h1]
        have hf : firstX endX gs = x' := by
          cases gs with
          | nil => simpa [firstX] using hx'
          | cons a b => simpa [firstX] using hx'
        have := ih1 t (by linarith) (by rw [hf]; exact h2)
        simpa using this
      | succ i =>
        simp only [List.getElem?_cons_succ] at hg
        have hx2 : (gs.map (·.x) ++ [endX])[i + 1]? = some x' := by simpa using hx'
        have hge : g.x ≤ g'.x := by
          have : ∀ (l : List (DecoGlyph κ)) (x : Rat) (i : Nat), MonoX endX x l → l[i]? = some g' → x ≤ g'.x := by
            intro l
            induction l with
            | nil => intro x i _ h; simp at h
            | cons a b ihl =>
              intro x i hmx h
              cases i with
              | zero => simp at h; subst h; exact hmx.1
              | succ i => exact le_trans hmx.1 (ihl a.x i hmx.2 (by simpa using h))
          exact this gs g.x i hm hg
        rw [hpast t (by linarith)]
        have := ih2 i g' x' t hg hx2 h1 h2
        simpa using this

/-- Without the condition every decorated glyph still lies under a piece of its
own colour. -/
theorem pieces_cover {endX : Rat} (gs : List (DecoGlyph κ)) : ∀ {start : Rat} {was : Bool} {c0 : κ},
    MonoX endX start gs →
      (∀ t, was = true → start < t → t < firstX endX gs →
        ∃ p ∈ pieces endX start was c0 gs, p.covers t = true ∧ p.color = c0) ∧
      (∀ (i : Nat) (g : DecoGlyph κ) (x' t : Rat), gs[i]? = some g → (gs.map (·.x) ++ [endX])[i + 1]? = some x' →
        g.on = true → g.x < t → t < x' →
        ∃ p ∈ pieces endX start was c0 gs, p.covers t = true ∧ p.color = g.color) := by
  induction gs with
  | nil =>
    intro start was c0 _
    refine ⟨?_, by simp⟩
    intro t hw h1 h2
    subst hw
    refine ⟨⟨start, endX, c0⟩, by simp [pieces], ?_, rfl⟩
    simp only [Piece.covers, Bool.and_eq_true, decide_eq_true_eq]; exact ⟨h1, h2⟩
  | cons g gs ih =>
    intro start was c0 hm0
    obtain ⟨hx, hm⟩ := id hm0
    have hfx := hm.first
    generalize hst : (if g.on && (!was || decide (g.color ≠ c0)) then g.x else start) = st
    have hstx : st ≤ g.x := by rw [← hst]; split <;> linarith
    have hms : MonoX endX st gs := hm.weaken hstx
    obtain ⟨ih1, ih2⟩ := ih (start := st) (was := g.on) (c0 := g.color) hms
    refine ⟨?_, ?_⟩
    · intro t hw h1 h2
      subst hw
      simp only [firstX] at h2
      by_cases hend : ((!g.on && true) || (g.on && decide (g.color ≠ c0))) = true
      · refine ⟨⟨start, g.x, c0⟩, ?_, ?_, rfl⟩
        · unfold pieces; rw [if_pos hend]; simp
        · simp only [Piece.covers, Bool.and_eq_true, decide_eq_true_eq]; exact ⟨h1, h2⟩
      · simp only [Bool.not_eq_true] at hend
        have hon : g.on = true := by
          cases h : g.on with
          | false => simp [h] at hend
          | true => rfl
        have hc : g.color = c0 := by simpa [hon] using hend
        have hs : st = start := by rw [← hst]; simp [hon, hc]
        obtain ⟨p, hp, hp2, hp3⟩ := ih1 t hon (by rw [hs]; exact h1) (by linarith)
        refine ⟨p, ?_, hp2, by rw [hp3, hc]⟩
        unfold pieces; rw [hst]; exact List.mem_append_right _ hp
    · intro i g' x' t hg hx' hon h1 h2
      cases i with
      | zero =>
        simp only [List.getElem?_cons_zero, Option.some.injEq] at hg
        subst hg
        have hf : firstX endX gs = x' := by
          cases gs with
          | nil => simpa [firstX] using hx'
          | cons a b => simpa [firstX] using hx'
        obtain ⟨p, hp, hp2, hp3⟩ := ih1 t hon (by linarith) (by rw [hf]; exact h2)
        refine ⟨p, ?_, hp2, hp3⟩
        unfold pieces; rw [hst]; exact List.mem_append_right _ hp
      | succ i =>
        simp only [List.getElem?_cons_succ] at hg
        obtain ⟨p, hp, hp2, hp3⟩ := ih2 i g' x' t hg (by simpa using hx') hon h1 h2
        refine ⟨p, ?_, hp2, hp3⟩
        unfold pieces; rw [hst]; exact List.mem_append_right _ hp

/-- The first glyph may change the colour: the piece that is emitted then is
empty. -/
theorem pieces_exact_first {endX : Rat} {g : DecoGlyph κ} {gs : List (DecoGlyph κ)} (c0 : κ)
    (hm : MonoX endX g.x (g :: gs)) (hn : NoJump g.on g.color gs) (i : Nat) (g' : DecoGlyph κ) (x' t : Rat)
    (hg : (g :: gs)[i]? = some g') (hx' : ((g :: gs).map (·.x) ++ [endX])[i + 1]? = some x') (h1 : g'.x < t)
    (h2 : t < x') :
    ((pieces endX g.x false c0 (g :: gs)).filter (Piece.covers t)).map (·.color) =
      if g'.on then [g'.color] else [] := by
  have hcmp : (pieces endX g.x false c0 (g :: gs)).filter (Piece.covers t) =
      (pieces endX g.x false g.color (g :: gs)).filter (Piece.covers t) := by
    unfold pieces
    rw [List.filter_append, List.filter_append]
    have hz : ∀ (c : κ) (b : Bool), (if b then [(⟨g.x, g.x, c⟩ : Piece κ)] else []).filter (Piece.covers t) = [] := by
      intro c b
      cases b with
      | false => rfl
      | true =>
        have : Piece.covers t (⟨g.x, g.x, c⟩ : Piece κ) = false := by
          simp only [Piece.covers, Bool.and_eq_false_iff, decide_eq_false_iff_not, not_lt]
          rcases le_total t g.x with h | h
          · exact .inl h
          · exact .inr h
        simp [this]
    rw [hz, hz]
    simp
  rw [hcmp]
  exact (pieces_exact (g :: gs) (start := g.x) (was := false) (c0 := g.color) hm ⟨fun _ _ => rfl, hn⟩).2 i g' x' t hg hx' h1 h2

end RichText
