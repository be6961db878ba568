import Verif.Spec.Size
import Verif.Proof.Built
import Verif.Props.VisualRuns
/-! Lemmas on the size of layouts. -/
namespace RichText
variable {β φ : Type _}

/-- Number of glyphs a call appends. -/
def LayoutOp.glyphs : LayoutOp φ → Nat
  | .run _ gs _ _ _ _ _ => gs.length
  | _ => 0

def opsGlyphs (ops : List (LayoutOp φ)) : Nat := (ops.map LayoutOp.glyphs).sum

@[simp] theorem opsGlyphs_nil : opsGlyphs ([] : List (LayoutOp φ)) = 0 := rfl
@[simp] theorem opsGlyphs_cons (a : LayoutOp φ) (l : List (LayoutOp φ)) : opsGlyphs (a :: l) = a.glyphs + opsGlyphs l := by
  simp [opsGlyphs]
@[simp] theorem opsGlyphs_append (a b : List (LayoutOp φ)) : opsGlyphs (a ++ b) = opsGlyphs a + opsGlyphs b := by
  simp [opsGlyphs]

theorem exec_glyphs {op : LayoutOp φ} {L L' : Layout φ} (h : op.exec L = some L') :
    L'.glyphs.length ≤ L.glyphs.length + op.glyphs := by
  cases op with
  | run f gs x y s e rtl =>
    simp only [LayoutOp.exec, Option.some.injEq] at h
    subst h
    show (gs.foldl _ L).glyphs.length ≤ _
    rw [foldl_glyphs]
    simp [LayoutOp.glyphs]
  | line a b =>
    simp only [LayoutOp.exec, Layout.appendLine] at h
    split at h
    · cases h
    · split at h
      · cases h
      · cases h; exact Nat.le_add_right _ _
  | emptyLine f c a b => cases h; exact Nat.le_add_right _ _
  | setOffset i o =>
    simp only [LayoutOp.exec, Layout.setRunCharEndOffset] at h
    split at h
    · cases h
    · cases h; exact Nat.le_add_right _ _
  | startY y => cases h; exact Nat.le_add_right _ _
  | clear => cases h; exact Nat.zero_le _

theorem execLayout_glyphs : ∀ {ops : List (LayoutOp φ)} {L L' : Layout φ}, execLayout L ops = some L' →
    L'.glyphs.length ≤ L.glyphs.length + opsGlyphs ops
  | [], L, L', h => by cases h; simp
  | op :: ops, L, L', h => by
    rw [execLayout] at h
    cases ho : op.exec L with
    | none => rw [ho] at h; cases h
    | some L1 =>
      rw [ho] at h
      have h1 := exec_glyphs ho
      have h2 := execLayout_glyphs h
      simp only [opsGlyphs_cons]
      omega

/-! ### Shaping -/

theorem addSubRun_glyphs (b : Shaped φ) (e : ShapeEnv β φ) (v : β) (off : Nat) (r : φ × Nat) :
    (b.addSubRun e v off r).glyphs.length = b.glyphs.length + (e.shape r.1 v off r.2).length := by
  have hr : ∀ (s : φ → φ → Bool) (b : Shaped φ) f c, (b.addRun s f c).glyphs = b.glyphs := by
    intro s b f c
    unfold Shaped.addRun
    split
    · rfl
    · split <;> rfl
  unfold Shaped.addSubRun
  rw [hr]
  simp only [Shaped.addShaped, List.length_append, revIf]
  split <;> simp

theorem shapeParagraph_thin {e : ParaEnv β φ} {calls : List (Nat × β)} (h : e.OK calls) {k : Nat} (hk : e.Thin k)
    {b : Shaped φ} (hb : shapeParagraph e calls = some b) : b.glyphs.length ≤ k * e.line.length := by
  unfold shapeParagraph at hb
  simp only [Option.map_eq_some_iff] at hb
  obtain ⟨x, hx, rfl⟩ := hb
  have hP := shapeCalls_ind (P := fun off b => e.line.start ≤ off ∧ Shaping e.line.start off b ∧
      b.glyphs.length ≤ k * (off - e.line.start)) ?_
    calls _ _ x hx ⟨Nat.le_refl _, shaping_init _, Nat.zero_le _⟩
  · obtain ⟨-, h2, h3⟩ := hP
    obtain ⟨b', qs, g1, g2, -⟩ := shapeParagraph_spec h.contract h.calls (by have := h.nonempty; omega)
    have hx1 : x.1 = e.line.start + e.line.length := by
      unfold shapeParagraph at g1
      rw [hx] at g1
      cases g1
      have hl := g2.runs.lastChar
      rcases h2.runs with ⟨_, a, _⟩ | a
      · have : x.2.runs = [] := a
        simp [Shaped.finish, this] at hl
      · have := a.lastChar
        simp only [Shaped.finish] at hl
        rw [hl] at this
        simpa using this.symm
    rw [hx1, Nat.add_sub_cancel_left] at h3
    exact h3
  · intro off b v r ⟨p1, p2, p3⟩ hr
    refine ⟨by omega, addSubRun_spec h.contract p2 v r hr, ?_⟩
    rw [addSubRun_glyphs]
    have := hk r.1 v off r.2 hr
    have : k * (r.2 - e.line.start) = k * (off - e.line.start) + k * (r.2 - off) := by
      rw [← Nat.mul_add]; congr 1; omega
    omega

theorem RunOps.glyphs {b : Shaped φ} {ws : List Int} {v : Bool} : ∀ {before : List Nat} {ps : List VisualPiece} {idx : List (List Nat)}
    {ops : List (LayoutOp φ)}, RunOps b ws v before ps idx ops → opsGlyphs ops = idx.flatten.length
  | _, [], [], [], _ => rfl
  | _, p :: ps, i :: is, op :: ops, h => by
    obtain ⟨_, ⟨r, gs, s, _, h2, h3, _⟩, h4⟩ := h
    have := RunOps.glyphs h4
    subst h2
    simp [LayoutOp.glyphs, this, h3]

theorem LinesOps.glyphs {e : ParaEnv β φ} {b : Shaped φ} : ∀ {ls : List BrokenLine} {ps : List (List VisualPiece)}
    {idx : List (List (List Nat))} {ops : List (LayoutOp φ)}, LinesOps e b ls ps idx ops →
    opsGlyphs ops = idx.flatten.flatten.length
  | [], [], [], ops, h => by cases h; rfl
  | l :: ls, p :: ps, i :: is, ops, h => by
    obtain ⟨o, o', rfl, h1, h2⟩ := h
    have := LinesOps.glyphs h2
    obtain ⟨runs, m, _, rfl, h3⟩ := h1.ops
    simp [RunOps.glyphs h3, this, LayoutOp.glyphs]

theorem paragraphOps_glyphs {p : Paragraph β φ} {offset : Nat} {k : Nat}
    (h : 0 < p.length - p.separator → p.env.OK p.calls ∧ p.env.line.start = offset ∧
      p.env.line.length = p.length - p.separator) (hk : 0 < p.length - p.separator → p.env.Thin k) {n : Nat}
    {r : List (LayoutOp φ) × Nat × Nat} (hr : paragraphOps p offset n = some r) : opsGlyphs r.1 ≤ k * p.length := by
  unfold paragraphOps at hr
  split at hr
  · rename_i hp
    obtain ⟨h1, -, h3⟩ := h hp
    obtain ⟨b, ls, ops, ps, idx, hi, e1, e2, e3, e4, e5, e6, e7⟩ := C31_paragraph p.env p.calls h1 n
    rw [e5] at hr
    cases hr
    have := shapeParagraph_thin h1 (hk hp) e1
    have h8 := e7.length_eq
    rw [List.length_range] at h8
    simp only
    rw [e6.glyphs, h8]
    refine Nat.le_trans this (Nat.mul_le_mul_left _ ?_)
    rw [h3]; omega
  · cases hr
    simp [LayoutOp.glyphs]

theorem finalLine_glyphs (p : Paragraph β φ) (o c r : Nat) : opsGlyphs (finalLine p o c r) = 0 := by
  unfold finalLine
  split <;> rfl

theorem paragraphsOps_glyphs {count k : Nat} : ∀ {ps : List (Paragraph β φ)} {offset n : Nat} {ops : List (LayoutOp φ)},
    Paragraphs count offset ps → Thin k ps → paragraphsOps count ps offset n = some ops →
    offset ≤ count ∧ opsGlyphs ops ≤ k * (count - offset)
  | [], offset, n, ops, h, _, ho => by
    have h : offset = count := h
    subst h
    cases ho
    simp
  | p :: t, offset, n, ops, h, hk, ho => by
    obtain ⟨h1, h2, h3, h4, h5⟩ := h
    unfold paragraphsOps at ho
    cases hp : paragraphOps p offset n with
    | none => rw [hp] at ho; cases ho
    | some r =>
      rw [hp] at ho
      simp only [Option.map_eq_some_iff] at ho
      obtain ⟨rest, hrest, rfl⟩ := ho
      obtain ⟨i1, i2⟩ := paragraphsOps_glyphs h5 (fun q hq => hk q (List.mem_cons_of_mem _ hq)) hrest
      have := paragraphOps_glyphs h4 (hk p (List.mem_cons_self ..)) hp
      refine ⟨by omega, ?_⟩
      simp only [opsGlyphs_append, finalLine_glyphs, opsGlyphs_cons, opsGlyphs_nil, LayoutOp.glyphs]
      have : k * (count - offset) = k * p.length + k * (count - (offset + p.length)) := by
        rw [← Nat.mul_add]; congr 1; omega
      omega

/-! ### The text start is only written -/

theorem foldl_startY (y : Rat) (gs : List GlyphSpec) (L : Layout φ) :
    gs.foldl (fun L g => ((L.appendGlyph g.id).appendCharIndex g.char).appendGlyphPosition g.x g.y) (L.setTextStartY y) =
      (gs.foldl (fun L g => ((L.appendGlyph g.id).appendCharIndex g.char).appendGlyphPosition g.x g.y) L).setTextStartY y := by
  induction gs generalizing L with
  | nil => rfl
  | cons g t ih =>
    rw [List.foldl_cons, List.foldl_cons, ← ih]
    rfl

theorem exec_startY (y : Rat) (op : LayoutOp φ) (L : Layout φ) :
    ∃ z, op.exec (L.setTextStartY y) = (op.exec L).map (·.setTextStartY z) := by
  cases op with
  | run f gs ex ey s e rtl =>
    refine ⟨y, ?_⟩
    simp only [LayoutOp.exec]
    rw [foldl_startY]
    rfl
  | line a b =>
    refine ⟨y, ?_⟩
    simp only [LayoutOp.exec, Layout.appendLine, Layout.setTextStartY]
    split
    · rfl
    · split <;> rfl
  | emptyLine f c a b => exact ⟨y, rfl⟩
  | setOffset i o =>
    refine ⟨y, ?_⟩
    simp only [LayoutOp.exec, Layout.setRunCharEndOffset, Layout.setTextStartY]
    split <;> rfl
  | startY z => exact ⟨z, rfl⟩
  | clear => exact ⟨y, rfl⟩

theorem execLayout_startY : ∀ (ops : List (LayoutOp φ)) (y : Rat) (L : Layout φ),
    ∃ z, execLayout (L.setTextStartY y) ops = (execLayout L ops).map (·.setTextStartY z)
  | [], y, L => ⟨y, rfl⟩
  | op :: ops, y, L => by
    obtain ⟨z, hz⟩ := exec_startY y op L
    rw [execLayout, execLayout, hz]
    cases op.exec L with
    | none => exact ⟨0, rfl⟩
    | some L1 => exact execLayout_startY ops z L1

theorem Consecutive.length_le {e : Nat} : ∀ {s : Nat} {l : List (Nat × Nat)}, Consecutive e s l → s + l.length ≤ e
  | s, [], h => by cases h; simp
  | s, x :: t, h => by
    obtain ⟨h1, h2, h3⟩ := h
    have := Consecutive.length_le h3
    simp only [List.length_cons]
    omega

theorem Partition.length_le {α : Type _} {range : α → Nat × Nat} {s e : Nat} {l : List α} (h : Partition range s e l) :
    s + l.length ≤ e := by
  obtain ⟨l', h1, h2⟩ := h
  have := h2.length_le
  rw [List.length_map, h1.length_eq] at this
  exact this

end RichText
