import Verif.Model.BoxThread
import Verif.Props.TextBox
/-!
The text box with a `recalc_text` that changes the thread: nothing else is different from Verif/Model/TextBox.lean, and what holds for
`recalc_text` holds for all handlers.
-/
namespace RichText
namespace TextBox
variable {φ σ τ X : Type}

/-! ### Nothing else is different -/

/-- `recalc_text` without a thread. -/
def pureRec (r : TextBox φ → Option (TextBox φ)) : Recalc φ σ := fun s => .lift (r s)

theorem Call.lift_bind {α β : Type} (x : Option α) (f : α → Option β) :
    ((Call.lift x : Call σ α).bind fun a => Call.lift (f a)) = Call.lift (x.bind f) := by
  funext t
  cases x <;> rfl

theorem setTextT_pure (e : BoxEnv φ) (s : TextBox φ) (text : Bytes) :
    (setTextT (pureRec (recalc e)) s text : Call σ _) = .lift (setText e s text) := rfl

theorem removeTextT_pure (e : BoxEnv φ) (s : TextBox φ) (a b : Nat) :
    (removeTextT (pureRec (recalc e)) s a b : Call σ _) = .lift (removeText e s a b) := by
  unfold removeTextT removeText
  split <;> rfl

theorem removeHighlightedT_pure (e : BoxEnv φ) (s : TextBox φ) :
    (removeHighlightedT (pureRec (recalc e)) s : Call σ _) = .lift (removeHighlighted e s) := by
  unfold removeHighlightedT removeHighlighted
  cases s.sel with
  | none => rfl
  | some start =>
    simp only [removeTextT_pure]
    split
    · rfl
    · split <;> rfl

theorem insertTextT_pure (e : BoxEnv φ) (s : TextBox φ) (ins : Bytes) (start : Nat) :
    (insertTextT (pureRec (recalc e)) s ins start : Call σ _) = .lift (insertText e s ins start) := by
  unfold insertTextT insertText
  simp only [setTextT_pure]
  split <;> rfl

theorem insertTypedT_pure (e : BoxEnv φ) (s : TextBox φ) (c : Nat) :
    (insertTypedT (pureRec (recalc e)) s c : Call σ _) = .lift (insertTyped e s c) := by
  unfold insertTypedT insertTyped
  simp only [removeHighlightedT_pure, insertTextT_pure, Call.lift_bind]
  cases removeHighlighted e s <;> rfl

theorem backspaceT_pure (e : BoxEnv φ) (s : TextBox φ) (ctrl : Bool) :
    (backspaceT e (pureRec (recalc e)) s ctrl : Call σ _) = .lift (TextBox.backspace e s ctrl) := by
  unfold backspaceT TextBox.backspace
  simp only [removeHighlightedT_pure, removeTextT_pure, Call.lift_bind]
  split
  · rfl
  · split
    · generalize (if ctrl = true then prevWord e s false else prevCharacter e s false) = o
      cases o <;> rfl
    · rfl

theorem deleteT_pure (e : BoxEnv φ) (s : TextBox φ) (ctrl : Bool) :
    (deleteT e (pureRec (recalc e)) s ctrl : Call σ _) = .lift (TextBox.delete e s ctrl) := by
  unfold deleteT TextBox.delete
  simp only [removeHighlightedT_pure, removeTextT_pure, Call.lift_bind]
  split
  · rfl
  · split
    · generalize (if ctrl = true then nextWord e s false else nextCharacter e s false) = o
      cases o <;> rfl
    · rfl

theorem blurT_pure (e : BoxEnv φ) (s : TextBox φ) : (blurT (pureRec (recalc e)) s : Call σ _) = .lift (TextBox.blur e s) := by
  unfold blurT TextBox.blur
  split <;> rfl

theorem focusT_pure (e : BoxEnv φ) (s : TextBox φ) : (focusT (pureRec (recalc e)) s : Call σ _) = .lift (TextBox.focus e s) := by
  unfold focusT TextBox.focus
  split <;> rfl

theorem enterT_pure (e : BoxEnv φ) (s : TextBox φ) : (enterT (pureRec (recalc e)) s : Call σ _) = .lift (TextBox.enter e s) := by
  unfold enterT TextBox.enter
  simp only [removeHighlightedT_pure, insertTypedT_pure, blurT_pure, Call.lift_bind]
  split
  · cases removeHighlighted e s <;> rfl
  · rfl

theorem cutT_pure (e : BoxEnv φ) (s : TextBox φ) : (cutT (pureRec (recalc e)) s : Call σ _) = .lift (TextBox.cut e s) := by
  unfold cutT TextBox.cut
  simp only [removeHighlightedT_pure, Call.lift_bind]
  split
  · rfl
  · cases TextBox.copy s <;> rfl

theorem pasteT_pure (e : BoxEnv φ) (s : TextBox φ) : (pasteT (pureRec (recalc e)) s : Call σ _) = .lift (TextBox.paste e s) := by
  unfold pasteT TextBox.paste
  simp only [removeHighlightedT_pure, insertTextT_pure, Call.lift_bind]
  split
  · rfl
  · cases removeHighlighted e s with
    | none => rfl
    | some s1 =>
      simp only [Option.bind_some]
      cases s1.clip <;> rfl

theorem pressT_pure (e : BoxEnv φ) (s : TextBox φ) (x y : Rat) (shift : Bool) (clicks : Nat) :
    (pressT e (pureRec (recalc e)) s x y shift clicks : Call σ _) = .lift (TextBox.press e s x y shift clicks) := by
  unfold pressT TextBox.press
  simp only [focusT_pure, Call.lift_bind]
  split
  · cases toMouse e s x y shift with
    | none => rfl
    | some s1 =>
      simp only [Option.bind_some]
      cases clickSelect e s1 clicks <;> rfl
  · rw [show (pureRec (recalc e) s : Call σ _) = .lift (recalc e s) from rfl, Call.lift_bind]
    cases recalc e s with
    | none => rfl
    | some s1 =>
      simp only [Option.bind_some]
      cases toMouse e s1 x y shift <;> rfl

theorem keyT_pure (e : BoxEnv φ) (s : TextBox φ) (i : Input) :
    (keyT e (pureRec (recalc e)) s i : Call σ _) = .lift (key e s i) := by
  cases i <;> simp only [keyT, key, backspaceT_pure, deleteT_pure, enterT_pure, insertTypedT_pure, cutT_pure, pasteT_pure]

/-- With the `recalc_text` of Verif/Model/TextBox.lean the handlers are those of Verif/Model/TextBox.lean. -/
theorem handleT_pure (e : BoxEnv φ) (s : TextBox φ) (i : Input) :
    (handleT e (pureRec (recalc e)) s i : Call σ _) = .lift (handle e s i) := by
  cases i <;> simp only [handleT, handle, keyT_pure, pressT_pure, insertTypedT_pure, focusT_pure, blurT_pure] <;> first | rfl | (split <;> rfl)

/-- So are sequences of inputs. -/
theorem runT_pure (e : BoxEnv φ) : ∀ (is : List Input) (s : TextBox φ),
    (runT e (pureRec (recalc e)) s is : Call σ _) = .lift (run e s is)
  | [], _ => rfl
  | i :: is, s => by
    unfold runT run
    simp only [handleT_pure, runT_pure e is, Call.lift_bind]
    cases handle e s i <;> rfl

/-! ### Moving the cursor lays nothing out -/

/-- The environments differ in layouts and contents only. -/
structure SameMoves (e e' : BoxEnv φ) : Prop where
  breaks : e.breaks = e'.breaks
  width : e.width = e'.width
  align : e.align = e'.align

variable {e e' : BoxEnv φ}

theorem setCursor_same (h : SameMoves e e') (s : TextBox φ) (c : Cursor) (b : Bool) : setCursor e s c b = setCursor e' s c b := by
  unfold setCursor; rw [h.width, h.align]

theorem handleT_same (h : SameMoves e e') (rec : Recalc φ σ) (s : TextBox φ) (i : Input) : handleT e rec s i = handleT e' rec s i := by
  have c := setCursor_same h
  have nc : nextCharacter e = nextCharacter e' := by funext s b; simp only [nextCharacter, c, h.breaks]
  have pc : prevCharacter e = prevCharacter e' := by funext s b; simp only [prevCharacter, c, h.breaks]
  have nw : nextWord e = nextWord e' := by funext s b; simp only [nextWord, c, h.breaks]
  have pw : prevWord e = prevWord e' := by funext s b; simp only [prevWord, c, h.breaks]
  have nl : nextLine e = nextLine e' := by funext s b; simp only [nextLine, c, h.breaks, h.width, h.align]
  have pl : prevLine e = prevLine e' := by funext s b; simp only [prevLine, c, h.breaks, h.width, h.align]
  have ls : lineStart e = lineStart e' := by funext s b; simp only [lineStart, c]
  have le : lineEnd e = lineEnd e' := by funext s b; simp only [lineEnd, c]
  have ts : textStart e = textStart e' := by funext s b; simp only [textStart, c]
  have te : textEnd e = textEnd e' := by funext s b; simp only [textEnd, c]
  have tm : toMouse e = toMouse e' := by funext s x y b; simp only [toMouse, c, h.breaks, h.width, h.align]
  have cs : clickSelect e = clickSelect e' := by funext s n; simp only [clickSelect, pw, nw, ls, le, ts, te]
  cases i <;> simp only [handleT, keyT, key, pressT, backspaceT, deleteT, nc, pc, nw, pw, nl, pl, ls, le, ts, te, tm, cs]

/-! ### Simulation -/

/-- How threads go on, and what may be guessed about them: `X` is what a thread does not know yet. -/
structure Guessing (σ X : Type) where
  ok : σ → Prop
  goes : σ → σ → Prop
  cons : σ → X → Prop
  refl : ∀ t, ok t → goes t t
  trans : ∀ t u w, goes t u → goes u w → goes t w
  keep : ∀ t u, ok t → goes t u → ok u
  before : ∀ t u x, goes t u → cons u x → cons t x

/-- A call in a thread does what the call without a thread does for every guess that stays right, if that is defined for every guess. -/
def Sim (G : Guessing σ X) {α : Type} (m : Call σ α) (p : X → Call Unit α) : Prop :=
  ∀ t, G.ok t → (∀ x, G.cons t x → ∃ a, p x () = some ((), a)) →
    ∃ t' a, m t = some (t', a) ∧ G.goes t t' ∧ ∀ x, G.cons t' x → p x () = some ((), a)

/-- There is a guess. -/
def Guessing.Some (G : Guessing σ X) : Prop := ∀ t, G.ok t → ∃ x, G.cons t x

variable {G : Guessing σ X}

theorem Sim.lift (hG : G.Some) {α : Type} (x : Option α) : Sim G (.lift x) fun _ => .lift x := by
  intro t ht h
  obtain ⟨y, hy⟩ := hG t ht
  obtain ⟨a, ha⟩ := h y hy
  cases x with
  | none => cases ha
  | some b => exact ⟨t, b, rfl, G.refl t ht, fun _ _ => rfl⟩

theorem Sim.bind {α β : Type} {m : Call σ α} {p : X → Call Unit α} {f : α → Call σ β} {q : α → X → Call Unit β} (hm : Sim G m p)
    (hf : ∀ a, Sim G (f a) (q a)) : Sim G (m.bind f) fun x => (p x).bind fun a => q a x := by
  intro t ht h
  simp only [Call.bind] at h ⊢
  obtain ⟨t', a, h1, h2, h3⟩ := hm t ht fun x hx => by
    obtain ⟨b, hb⟩ := h x hx
    cases hp : p x () with
    | none => rw [hp] at hb; cases hb
    | some a => exact ⟨a.2, rfl⟩
  obtain ⟨t'', b, g1, g2, g3⟩ := hf a t' (G.keep _ _ ht h2) fun x hx => by
    obtain ⟨b, hb⟩ := h x (G.before _ _ _ h2 hx)
    rw [h3 x hx] at hb
    exact ⟨b, hb⟩
  refine ⟨t'', b, ?_, G.trans _ _ _ h2 g2, fun x hx => ?_⟩
  · rw [h1]; exact g1
  · rw [h3 x (G.before _ _ _ g2 hx)]; exact g3 x hx

theorem Sim.ite {α : Type} {c : Prop} [Decidable c] {m n : Call σ α} {p q : X → Call Unit α} (h1 : Sim G m p) (h2 : Sim G n q) :
    Sim G (if c then m else n) fun x => if c then p x else q x := by
  by_cases h : c
  · simp only [if_pos h]; exact h1
  · simp only [if_neg h]; exact h2

variable {rec : Recalc φ σ} {r : X → TextBox φ → Option (TextBox φ)}

theorem removeTextT_sim (hG : G.Some) (hr : ∀ s, Sim G (rec s) fun x => pureRec (r x) s) (s : TextBox φ) (a b : Nat) :
    Sim G (removeTextT rec s a b) fun x => removeTextT (pureRec (r x)) s a b :=
  .ite (hr _) (.lift hG _)

theorem removeHighlightedT_sim (hG : G.Some) (hr : ∀ s, Sim G (rec s) fun x => pureRec (r x) s) (s : TextBox φ) :
    Sim G (removeHighlightedT rec s) fun x => removeHighlightedT (pureRec (r x)) s := by
  unfold removeHighlightedT
  cases s.sel with
  | none => exact .lift hG _
  | some start => exact .ite (.lift hG _) (.ite (removeTextT_sim hG hr _ _ _) (removeTextT_sim hG hr _ _ _))

theorem insertTextT_sim (hr : ∀ s, Sim G (rec s) fun x => pureRec (r x) s) (s : TextBox φ) (ins : Bytes) (start : Nat) :
    Sim G (insertTextT rec s ins start) fun x => insertTextT (pureRec (r x)) s ins start :=
  .ite (hr _) (hr _)

theorem insertTypedT_sim (hG : G.Some) (hr : ∀ s, Sim G (rec s) fun x => pureRec (r x) s) (s : TextBox φ) (c : Nat) :
    Sim G (insertTypedT rec s c) fun x => insertTypedT (pureRec (r x)) s c :=
  .bind (removeHighlightedT_sim hG hr s) fun _ => insertTextT_sim hr _ _ _

theorem blurT_sim (hG : G.Some) (hr : ∀ s, Sim G (rec s) fun x => pureRec (r x) s) (s : TextBox φ) :
    Sim G (blurT rec s) fun x => blurT (pureRec (r x)) s :=
  .ite (hr _) (.lift hG _)

theorem focusT_sim (hG : G.Some) (hr : ∀ s, Sim G (rec s) fun x => pureRec (r x) s) (s : TextBox φ) :
    Sim G (focusT rec s) fun x => focusT (pureRec (r x)) s :=
  .ite (.lift hG _) (hr _)

/-- What holds for `recalc_text` holds for the handlers. -/
theorem handleT_sim (e : BoxEnv φ) (hG : G.Some) (hr : ∀ s, Sim G (rec s) fun x => pureRec (r x) s) (s : TextBox φ) (i : Input) :
    Sim G (handleT e rec s i) fun x => handleT e (pureRec (r x)) s i := by
  have hrem := removeHighlightedT_sim hG hr
  have hty := insertTypedT_sim hG hr
  cases i with
  | press x y shift clicks =>
    exact .ite (.lift hG _) (.bind (hr _) fun _ => .bind (.lift hG _) fun _ => focusT_sim hG hr _)
  | release => exact .lift hG _
  | move x y => exact .ite (.lift hG _) (.lift hG _)
  | char c => exact .ite (hty _ _) (.lift hG _)
  | focus => exact focusT_sim hG hr _
  | blur => exact blurT_sim hG hr _
  | backspace ctrl =>
    exact .ite (.ite (hrem _) (.ite (.bind (.lift hG _) fun _ => removeTextT_sim hG hr _ _ _) (.lift hG _))) (.lift hG _)
  | delete ctrl =>
    exact .ite (.ite (hrem _) (.ite (.bind (.lift hG _) fun _ => removeTextT_sim hG hr _ _ _) (.lift hG _))) (.lift hG _)
  | enter => exact .ite (.ite (.bind (hrem _) fun _ => hty _ _) (blurT_sim hG hr _)) (.lift hG _)
  | tab => exact .ite (hty _ _) (.lift hG _)
  | cut => exact .ite (.ite (.lift hG _) (.bind (.lift hG _) fun _ => hrem _)) (.lift hG _)
  | paste => exact .ite (.ite (.lift hG _) (.bind (hrem _) fun _ => .bind (.lift hG _) fun _ => insertTextT_sim hr _ _ _)) (.lift hG _)
  | _ => exact .ite (.lift hG _) (.lift hG _)

end TextBox
end RichText
