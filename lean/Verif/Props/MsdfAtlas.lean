import Verif.Spec.MsdfAtlas
import Verif.Props.TextAtlas
import Mathlib.Tactic.Linarith
import Mathlib.Tactic.FieldSimp
import Mathlib.Tactic.Ring
/-!
The atlas of distance fields (`sample/msdf_text_atlas.cpp`): C85 (the shape has
the contours of the outline), C86 (the bitmap has room for the shape and points
are where they should be), C87 (answers are those for the font asked).

Outlines, fonts and msdfgen's bounds are arbitrary.
-/
namespace RichText

/-! ### C85 -/

theorem traces_exists : ∀ (ss : List OutlineSegment) (p : OutlinePoint), ∃ es, Traces p ss es := by
  intro ss
  induction ss with
  | nil => intro p; exact ⟨[], .done⟩
  | cons s ss ih =>
    intro p
    cases s with
    | line q =>
      obtain ⟨es, h⟩ := ih q
      by_cases hpq : p = q
      · subst hpq; exact ⟨es, .stay h⟩
      · exact ⟨_, .line hpq h⟩
    | conic c q => obtain ⟨es, h⟩ := ih q; exact ⟨_, .conic h⟩
    | cubic c₁ c₂ q => obtain ⟨es, h⟩ := ih q; exact ⟨_, .cubic h⟩

theorem addEdge_spec {c : OutlineContext} {pre : List (List MsdfEdge)} {last : List MsdfEdge} (hc : c.current = true)
    (hl : c.contours = pre ++ [last]) (e : MsdfEdge) (q : OutlinePoint) :
    c.addEdge e q = some ⟨q, pre ++ [last ++ [e]], true⟩ := by
  unfold OutlineContext.addEdge
  rw [if_pos hc, hl]
  simp [hc]

/-- The segments of a contour go to the last contour of the shape. -/
theorem segments_spec {p : OutlinePoint} {ss : List OutlineSegment} {es : List MsdfEdge} (h : Traces p ss es) :
    ∀ (c : OutlineContext) (pre : List (List MsdfEdge)) (last : List MsdfEdge), c.current = true → c.position = p →
      c.contours = pre ++ [last] →
      ∃ c', OutlineContext.segments ss c = some c' ∧ c'.current = true ∧ c'.contours = pre ++ [last ++ es] := by
  induction h with
  | done => intro c pre last h1 _ h3; exact ⟨c, rfl, h1, by rw [h3, List.append_nil]⟩
  | stay _ ih =>
    intro c pre last h1 h2 h3
    unfold OutlineContext.segments OutlineContext.segment
    simp only
    rw [if_neg (by rw [h2]; simp)]
    exact ih c pre last h1 h2 h3
  | line hne _ ih =>
    intro c pre last h1 h2 h3
    unfold OutlineContext.segments OutlineContext.segment
    simp only
    rw [if_pos (by rw [h2]; exact fun e => hne e.symm), addEdge_spec h1 h3, h2]
    obtain ⟨c', i1, i2, i3⟩ := ih ⟨_, _, true⟩ pre _ rfl rfl rfl
    exact ⟨c', i1, i2, by rw [i3, List.append_assoc]; rfl⟩
  | conic _ ih =>
    intro c pre last h1 h2 h3
    unfold OutlineContext.segments OutlineContext.segment
    simp only
    rw [addEdge_spec h1 h3, h2]
    obtain ⟨c', i1, i2, i3⟩ := ih ⟨_, _, true⟩ pre _ rfl rfl rfl
    exact ⟨c', i1, i2, by rw [i3, List.append_assoc]; rfl⟩
  | cubic _ ih =>
    intro c pre last h1 h2 h3
    unfold OutlineContext.segments OutlineContext.segment
    simp only
    rw [addEdge_spec h1 h3, h2]
    obtain ⟨c', i1, i2, i3⟩ := ih ⟨_, _, true⟩ pre _ rfl rfl rfl
    exact ⟨c', i1, i2, by rw [i3, List.append_assoc]; rfl⟩

/-- All contours behind one with edges go to that one. -/
theorem decompose_spec {outline : List OutlineContour} {ess : List (List MsdfEdge)} (h : OutlineEdges outline ess) :
    ∀ (c : OutlineContext) (pre : List (List MsdfEdge)) (last : List MsdfEdge), c.current = true → c.contours = pre ++ [last] →
      (∀ x ∈ pre, x = []) →
      ∃ c' pre', OutlineContext.decompose outline c = some c' ∧ c'.current = true ∧ c'.contours = pre' ++ [last ++ ess.flatten] ∧
        ∀ x ∈ pre', x = [] := by
  induction h with
  | nil => intro c pre last h1 h2 h3; exact ⟨c, pre, rfl, h1, by simpa using h2, h3⟩
  | @cons k es ks ess hk _ ih =>
    intro c pre last h1 h2 h3
    unfold OutlineContext.decompose
    by_cases hl : last = []
    · have hm : c.moveTo k.start = ⟨k.start, c.contours ++ [[]], true⟩ := by
        unfold OutlineContext.moveTo OutlineContext.lastEmpty
        rw [if_pos (by rw [h2, hl]; simp)]
      rw [hm]
      obtain ⟨c', i1, i2, i3⟩ := segments_spec hk ⟨k.start, c.contours ++ [[]], true⟩ c.contours [] rfl rfl rfl
      rw [i1]
      obtain ⟨c'', pre', j1, j2, j3, j4⟩ := ih c' c.contours ([] ++ es) i2 i3 (by
        intro x hx
        rw [h2, List.mem_append] at hx
        rcases hx with hx | hx
        · exact h3 x hx
        · rw [List.mem_singleton.1 hx, hl])
      refine ⟨c'', pre', j1, j2, ?_, j4⟩
      rw [j3, hl, List.nil_append, List.nil_append, List.flatten_cons]
    · have hm : c.moveTo k.start = { c with position := k.start } := by
        unfold OutlineContext.moveTo OutlineContext.lastEmpty
        rw [if_neg (by rw [h1, h2]; simpa using hl)]
      rw [hm]
      obtain ⟨c', i1, i2, i3⟩ := segments_spec hk { c with position := k.start } pre last h1 rfl h2
      rw [i1]
      obtain ⟨c'', pre', j1, j2, j3, j4⟩ := ih c' pre (last ++ es) i2 i3 h3
      exact ⟨c'', pre', j1, j2, by rw [j3, List.append_assoc, List.flatten_cons], j4⟩

/-- C85, what the code does.  Every edge of the outline is in the shape, in order,
but all edges are in one contour. -/
theorem C85_merged (outline : List OutlineContour) :
    ∃ ess shape, OutlineEdges outline ess ∧ outlineShape outline = some shape ∧ shape.flatten = ess.flatten ∧
      shape.filter (· ≠ []) = if ess.flatten = [] then [] else [ess.flatten] := by
  have hex : ∃ ess, OutlineEdges outline ess := by
    induction outline with
    | nil => exact ⟨[], .nil⟩
    | cons k ks ih =>
      obtain ⟨ess, h⟩ := ih
      obtain ⟨es, h'⟩ := traces_exists k.segments k.start
      exact ⟨es :: ess, .cons h' h⟩
  obtain ⟨ess, hess⟩ := hex
  have hfl : ∀ (pre : List (List MsdfEdge)), (∀ x ∈ pre, x = []) → pre.flatten = [] ∧ pre.filter (· ≠ []) = [] := by
    intro pre h
    constructor
    · rw [List.flatten_eq_nil_iff]; exact h
    · rw [List.filter_eq_nil_iff]
      intro x hx
      simp [h x hx]
  have hs : ∃ shape, outlineShape outline = some shape ∧ (shape = [] ∧ ess.flatten = [] ∨
      ∃ pre, (∀ x ∈ pre, x = []) ∧ (shape = pre ∧ ess.flatten = [] ∨ shape = pre ++ [ess.flatten] ∧ ess.flatten ≠ [])) := by
    unfold outlineShape
    cases hess with
    | nil => exact ⟨[], rfl, .inl ⟨rfl, rfl⟩⟩
    | @cons k es ks ess hk hks =>
      unfold OutlineContext.decompose
      have hm : OutlineContext.moveTo {} k.start = ⟨k.start, [[]], true⟩ := rfl
      rw [hm]
      obtain ⟨c', i1, i2, i3⟩ := segments_spec hk ⟨k.start, [[]], true⟩ [] [] rfl rfl rfl
      rw [i1, Option.bind_some]
      obtain ⟨c'', pre', j1, j2, j3, j4⟩ := decompose_spec hks c' [] ([] ++ es) i2 i3 (by simp)
      rw [j1]
      simp only [List.nil_append] at j3
      by_cases he : (es :: ess).flatten = []
      · refine ⟨pre', ?_, .inr ⟨pre', j4, .inl ⟨rfl, he⟩⟩⟩
        rw [List.flatten_cons] at he
        rw [he] at j3
        simp [OutlineContext.lastEmpty, j3]
      · refine ⟨pre' ++ [(es :: ess).flatten], ?_, .inr ⟨pre', j4, .inr ⟨rfl, he⟩⟩⟩
        rw [List.flatten_cons] at he
        have he' : ¬ (es = [] ∧ ∀ l ∈ ess, l = []) := by
          intro ⟨h1, h2⟩
          exact he (by rw [h1, List.nil_append, List.flatten_eq_nil_iff]; exact h2)
        simp [OutlineContext.lastEmpty, j3, he']
  obtain ⟨shape, h1, h2⟩ := hs
  refine ⟨ess, shape, hess, h1, ?_⟩
  rcases h2 with ⟨rfl, h⟩ | ⟨pre, hp, ⟨rfl, h⟩ | ⟨rfl, h⟩⟩
  · rw [h]; exact ⟨rfl, rfl⟩
  · rw [h]; exact ⟨(hfl _ hp).1, (hfl _ hp).2⟩
  · rw [if_neg h, List.flatten_append, List.filter_append, (hfl _ hp).1, (hfl _ hp).2]
    refine ⟨by simp, ?_⟩
    rw [List.nil_append, List.filter_cons_of_pos (by simpa using h)]
    rfl

theorem traces_det {p : OutlinePoint} {ss : List OutlineSegment} {es es' : List MsdfEdge} (h : Traces p ss es) (h' : Traces p ss es') :
    es = es' := by
  induction h generalizing es' with
  | done => cases h'; rfl
  | stay _ ih =>
    cases h' with
    | stay h => exact ih h
    | line hne _ => exact absurd rfl hne
  | line hne _ ih =>
    cases h' with
    | stay h => exact absurd rfl hne
    | line _ h => rw [ih h]
  | conic _ ih => cases h' with | conic h => rw [ih h]
  | cubic _ ih => cases h' with | cubic h => rw [ih h]

theorem outlineEdges_det {outline : List OutlineContour} {ess ess' : List (List MsdfEdge)} (h : OutlineEdges outline ess)
    (h' : OutlineEdges outline ess') : ess = ess' := by
  induction h generalizing ess' with
  | nil => cases h'; rfl
  | cons h1 _ ih =>
    cases h' with
    | cons h1' h2' => rw [traces_det h1 h1', ih h2']

/-- The letter O, made of two triangles. -/
def demoO : List OutlineContour :=
  [⟨(0, 0), [.line (400, 0), .conic (300, 800) (0, 0)]⟩, ⟨(100, 100), [.line (200, 400), .line (300, 100), .line (100, 100)]⟩]

/-- Its edges. -/
def demoOEdges : List (List MsdfEdge) :=
  [[.linear (0, 0) (400, 0), .quadratic (400, 0) (300, 800) (0, 0)],
    [.linear (100, 100) (200, 400), .linear (200, 400) (300, 100), .linear (300, 100) (100, 100)]]

theorem demoO_edges : OutlineEdges demoO demoOEdges :=
  .cons (.line (by decide) (.conic .done)) (.cons (.line (by decide) (.line (by decide) (.line (by decide) .done))) .nil)

/-- C85, full claim: the contours of the shape (those with edges) are the contours
of the outline.  Violated by every outline with two contours: the test in
`msdf_move_to` is the wrong way round, so a contour is only added if the one
before has no edges. -/
theorem C85_contours_violated : ¬ ∀ (outline : List OutlineContour) (ess shape : List (List MsdfEdge)), OutlineEdges outline ess →
    outlineShape outline = some shape → shape.filter (· ≠ []) = ess.filter (· ≠ []) := by
  intro h
  have := h demoO demoOEdges [demoOEdges.flatten] demoO_edges (by decide +kernel)
  exact absurd this (by decide +kernel)

/-- C85, the part that holds: outlines with one contour. -/
theorem C85_contours_partial (outline : List OutlineContour) (ess shape : List (List MsdfEdge)) (h : OutlineEdges outline ess)
    (hs : outlineShape outline = some shape) (h1 : (ess.filter (· ≠ [])).length ≤ 1) :
    shape.filter (· ≠ []) = ess.filter (· ≠ []) := by
  obtain ⟨ess', shape', a1, a2, -, a4⟩ := C85_merged outline
  rw [hs] at a2
  cases a2
  cases outlineEdges_det h a1
  rw [a4]
  have hf : ess.flatten = (ess.filter (· ≠ [])).flatten := by
    clear h hs h1 a1 a4
    induction ess with
    | nil => rfl
    | cons e ess ih =>
      by_cases he : e = []
      · rw [List.filter_cons_of_neg (by simpa using he), List.flatten_cons, he, List.nil_append, ih]
      · rw [List.filter_cons_of_pos (by simpa using he), List.flatten_cons, List.flatten_cons, ih]
  match hm : ess.filter (· ≠ []), h1 with
  | [], _ => rw [hf, hm]; rfl
  | [x], _ =>
    have hx : x ∈ ess.filter (· ≠ []) := by rw [hm]; exact List.mem_singleton_self x
    have hx := (List.mem_filter.1 hx).2
    rw [hf, hm]
    rw [if_neg (by simpa using hx)]
    simp

/-- A shape of one contour between two points. -/
example : outlineShape [⟨(5, 5), []⟩, ⟨(0, 0), [.line (400, 0), .line (400, 0), .conic (300, 800) (0, 0)]⟩, ⟨(7, 7), [.line (7, 7)]⟩] =
    some [[], [.linear (0, 0) (400, 0), .quadratic (400, 0) (300, 800) (0, 0)]] := by decide +kernel

/-! ### C86 -/

theorem truncRat_spec {q : Rat} (h : 0 ≤ q) : (truncRat q : Rat) ≤ q ∧ q < truncRat q + 1 := by
  unfold truncRat
  have hn : 0 ≤ q.num := Rat.num_nonneg.2 h
  rw [Int.tdiv_eq_ediv_of_nonneg hn]
  have hd : (0 : Rat) < q.den := by exact_mod_cast q.den_pos
  have e : q = q.num / q.den := (Rat.num_div_den q).symm
  have h1 : q.num = q.den * (q.num / q.den) + q.num % q.den := (Int.mul_ediv_add_emod _ _).symm
  have h2 : 0 ≤ q.num % q.den := Int.emod_nonneg _ (by exact_mod_cast q.den_nz)
  have h3 : q.num % q.den < q.den := Int.emod_lt_of_pos _ (by exact_mod_cast q.den_pos)
  generalize hm : q.num / (q.den : Int) = m at *
  generalize hr : q.num % (q.den : Int) = r at *
  have h1' : (q.num : Rat) = q.den * m + r := by rw [h1]; push_cast; ring
  have h2' : (0 : Rat) ≤ r := by exact_mod_cast h2
  have h3' : (r : Rat) < q.den := by exact_mod_cast h3
  have e' : q * q.den = q.num := Rat.mul_den_eq_num q
  constructor
  · by_contra hc
    push Not at hc
    nlinarith
  · by_contra hc
    push Not at hc
    nlinarith

theorem frame_parts {B : ShapeBounds} {upem : Nat} {f : MsdfFrame} (hf : msdfFrame B upem = some f) :
    f.scale = 32 / upem ∧
    f.width = truncRat (32 / upem * (B.r + 1 / 2 * (2 * upem / 32) - (B.l - 1 / 2 * (2 * upem / 32))) + 1) + 1 ∧
    f.height = truncRat (32 / upem * (B.t + 1 / 2 * (2 * upem / 32) - (B.b - 1 / 2 * (2 * upem / 32))) + 1) + 1 := by
  unfold msdfFrame at hf
  obtain ⟨cw, h1, hf⟩ := Option.bind_eq_some_iff.1 hf
  obtain ⟨ch, h2, hf⟩ := Option.bind_eq_some_iff.1 hf
  unfold doubleToInt32 at h1 h2
  split at h1
  · split at h2
    · split at hf
      · cases h1; cases h2; cases hf; exact ⟨rfl, rfl, rfl⟩
      · cases hf
    · cases h2
  · cases h1

/-- The width is between one and two pixels more than the shape and a pixel on
either side. -/
theorem frame_width {x0 x1 : Rat} {upem : Nat} (hu : 0 < upem) (h : x0 ≤ x1) {n : Int}
    (hn : n = truncRat (32 / upem * (x1 + 1 / 2 * (2 * upem / 32) - (x0 - 1 / 2 * (2 * upem / 32))) + 1) + 1) :
    (32 / upem * (x1 - x0) + 2) + 1 < (n : Rat) ∧ (n : Rat) ≤ (32 / upem * (x1 - x0) + 2) + 2 := by
  have hu' : (0 : Rat) < upem := by exact_mod_cast hu
  have e : (32 : Rat) / upem * (x1 + 1 / 2 * (2 * upem / 32) - (x0 - 1 / 2 * (2 * upem / 32))) = 32 / upem * (x1 - x0) + 2 := by
    field_simp; ring
  rw [e] at hn
  have h0 : (0 : Rat) ≤ 32 / upem * (x1 - x0) := by
    apply mul_nonneg
    · exact (div_pos (by norm_num) hu').le
    · linarith
  obtain ⟨t1, t2⟩ := truncRat_spec (q := 32 / upem * (x1 - x0) + 2 + 1) (by linarith)
  rw [hn]
  push_cast
  constructor <;> linarith

/-- C86.  Every point within the bounds of the shape is projected into the bitmap,
more than one and a half and at the left and bottom at most two pixels from the
edge. -/
theorem C86_room (B : ShapeBounds) (upem : Nat) (hu : 0 < upem) (hx : B.l ≤ B.r) (hy : B.b ≤ B.t) (f : MsdfFrame)
    (hf : msdfFrame B upem = some f) :
    (∀ x, B.l ≤ x → x ≤ B.r → 3 / 2 < f.scale * (x + f.tx) ∧ f.scale * (x + f.tx) < f.width - 3 / 2) ∧
    (∀ y, B.b ≤ y → y ≤ B.t → 3 / 2 < f.scale * (y + f.ty) ∧ f.scale * (y + f.ty) < f.height - 3 / 2) ∧
    f.scale * (B.l + f.tx) ≤ 2 ∧ f.scale * (B.b + f.ty) ≤ 2 := by
  have hu' : (0 : Rat) < upem := by exact_mod_cast hu
  obtain ⟨h1, h2, h3⟩ := frame_parts hf
  obtain ⟨w1, w2⟩ := frame_width hu hx h2
  obtain ⟨v1, v2⟩ := frame_width hu hy h3
  have htx : f.scale * f.tx = -(32 / upem * B.l) + 1 + 1 / 2 * (f.width - (32 / upem * (B.r - B.l) + 2)) := by
    unfold msdfFrame at hf
    obtain ⟨cw, _, hf⟩ := Option.bind_eq_some_iff.1 hf
    obtain ⟨ch, _, hf⟩ := Option.bind_eq_some_iff.1 hf
    split at hf
    · cases hf; field_simp; ring
    · cases hf
  have hty : f.scale * f.ty = -(32 / upem * B.b) + 1 + 1 / 2 * (f.height - (32 / upem * (B.t - B.b) + 2)) := by
    unfold msdfFrame at hf
    obtain ⟨cw, _, hf⟩ := Option.bind_eq_some_iff.1 hf
    obtain ⟨ch, _, hf⟩ := Option.bind_eq_some_iff.1 hf
    split at hf
    · cases hf; field_simp; ring
    · cases hf
  have hs : (0 : Rat) < 32 / upem := div_pos (by norm_num) hu'
  refine ⟨fun x a b => ?_, fun y a b => ?_, ?_, ?_⟩
  · rw [mul_add, htx, h1]
    have m1 := mul_le_mul_of_nonneg_left a hs.le
    have m2 := mul_le_mul_of_nonneg_left b hs.le
    constructor <;> linarith
  · rw [mul_add, hty, h1]
    have m1 := mul_le_mul_of_nonneg_left a hs.le
    have m2 := mul_le_mul_of_nonneg_left b hs.le
    constructor <;> linarith
  · rw [mul_add, htx, h1]; linarith
  · rw [mul_add, hty, h1]; linarith

/-- C86.  Drawn at offset and size of the answer for a font of `ppem` pixels per
em, every point of the shape is `ppem / upem` pixels from the pen for every unit;
up is negative.  (The bitmap is upside down, as its first row is the top.) -/
theorem C86_placed (B : ShapeBounds) (upem ppemX ppemY : Nat) (hu : 0 < upem) (f : MsdfFrame) (hf : msdfFrame B upem = some f) (x y : Rat) :
    f.offsetX * (ppemX / 32) + f.scale * (x + f.tx) * (ppemX / 32) = x * (ppemX / upem) ∧
    f.offsetY * (ppemY / 32) + (f.height - f.scale * (y + f.ty)) * (ppemY / 32) = -y * (ppemY / upem) := by
  have hu' : (0 : Rat) < upem := by exact_mod_cast hu
  unfold msdfFrame at hf
  obtain ⟨cw, _, hf⟩ := Option.bind_eq_some_iff.1 hf
  obtain ⟨ch, _, hf⟩ := Option.bind_eq_some_iff.1 hf
  split at hf
  · cases hf
    constructor
    · field_simp; ring
    · field_simp; ring
  · cases hf

/-- C86.  The bitmap can be made if the shape is less than 2^20 pixels (at 32
pixels per em) wide and high. -/
theorem C86_defined (B : ShapeBounds) (upem : Nat) (hu : 0 < upem) (hx : B.l ≤ B.r) (hy : B.b ≤ B.t)
    (hw : 32 / upem * (B.r - B.l) < 2 ^ 20) (hh : 32 / upem * (B.t - B.b) < 2 ^ 20) : ∃ f, msdfFrame B upem = some f := by
  have hu' : (0 : Rat) < upem := by exact_mod_cast hu
  have key : ∀ x0 x1 : Rat, x0 ≤ x1 → 32 / upem * (x1 - x0) < 2 ^ 20 →
      -2147483648 ≤ truncRat (32 / upem * (x1 + 1 / 2 * (2 * upem / 32) - (x0 - 1 / 2 * (2 * upem / 32))) + 1) ∧
      truncRat (32 / upem * (x1 + 1 / 2 * (2 * upem / 32) - (x0 - 1 / 2 * (2 * upem / 32))) + 1) + 1 < 2147483648 := by
    intro x0 x1 h1 h2
    obtain ⟨a, b⟩ := frame_width hu h1 rfl
    have h0 : (0 : Rat) ≤ 32 / upem * (x1 - x0) := by
      apply mul_nonneg
      · exact (div_pos (by norm_num) hu').le
      · linarith
    constructor
    · have : (-2147483648 : Rat) ≤ (truncRat (32 / upem * (x1 + 1 / 2 * (2 * upem / 32) - (x0 - 1 / 2 * (2 * upem / 32))) + 1) : Int) := by
        push_cast at a
        linarith
      exact_mod_cast this
    · have : ((truncRat (32 / upem * (x1 + 1 / 2 * (2 * upem / 32) - (x0 - 1 / 2 * (2 * upem / 32))) + 1) + 1 : Int) : Rat) < 2147483648 := by
        norm_num at h2
        linarith
      exact_mod_cast this
  obtain ⟨a1, a2⟩ := key _ _ hx hw
  obtain ⟨b1, b2⟩ := key _ _ hy hh
  unfold msdfFrame
  simp only
  unfold doubleToInt32
  rw [if_pos ⟨a1, by omega⟩, if_pos ⟨b1, by omega⟩]
  simp only [Option.bind_some]
  rw [if_pos ⟨a2, b2⟩]
  exact ⟨_, rfl⟩

/-- A glyph of 500 by 700 of 1000 units. -/
example : (msdfFrame ⟨0, 0, 500, 700⟩ 1000).map (fun f => (f.width, f.height, f.offsetX, f.offsetY)) = some (20, 26, -2, -121 / 5) := by
  decide +kernel

/-! ### C87 -/

/-- The key under which a request is remembered. -/
def AtlasRequest.msdfOwner : AtlasRequest → MsdfGlyphKey ⊕ StrokeKey
  | .glyph f g => .inl ⟨g, f.face.handle⟩
  | .stroke f g t j => .inr ⟨f.size.toNat, g, f.face.handle, t, j⟩

/-- The entry of a key. -/
def MsdfAtlas.entry (a : MsdfAtlas) : MsdfGlyphKey ⊕ StrokeKey → Option GlyphInfo
  | .inl k => a.glyphs k
  | .inr k => a.strokes k

/-- The scales applied to an answer. -/
def MsdfEnv.scales (env : MsdfEnv) : AtlasRequest → Rat × Rat
  | .glyph f _ => (env.ppemX f / 32, env.ppemY f / 32)
  | .stroke .. => (1, 1)

/-- The bitmap of a request. -/
def MsdfEnv.raster (env : MsdfEnv) (r : AtlasRequest) : Option Raster := loadMsdf env (env.outline r) (env.upem r.font)

theorem msdf_cached {env : MsdfEnv} {a : MsdfAtlas} {r : AtlasRequest} {info : GlyphInfo} (he : a.entry r.msdfOwner = some info) :
    a.get env r = (cachedMsdf a.pages (env.scales r).1 (env.scales r).2 info).map fun ans => (a, ans) := by
  cases r with
  | glyph f g =>
    simp only [MsdfAtlas.get, MsdfAtlas.getGlyph]
    rw [show a.glyphs ⟨g, f.face.handle⟩ = some info from he]
    rfl
  | stroke f g t j =>
    simp only [MsdfAtlas.get, MsdfAtlas.getStroke]
    rw [show a.strokes ⟨f.size.toNat, g, f.face.handle, t, j⟩ = some info from he]
    rfl

theorem msdf_fresh {env : MsdfEnv} {a : MsdfAtlas} {r : AtlasRequest} {ra : Raster} {pages : List AtlasPage} {info : GlyphInfo}
    (he : a.entry r.msdfOwner = none) (hr : env.raster r = some ra) (hh : handleMsdf a.pages ra = some (pages, info)) :
    ∃ a', a.get env r = some (a', info.scaled (env.scales r).1 (env.scales r).2 false) ∧ a'.pages = pages ∧
      ∀ k, a'.entry k = if k = r.msdfOwner then some info else a.entry k := by
  cases r with
  | glyph f g =>
    simp only [MsdfAtlas.get, MsdfAtlas.getGlyph]
    rw [show a.glyphs ⟨g, f.face.handle⟩ = none from he]
    simp only
    rw [show loadMsdf env (env.glyph f g) (env.upem f) = some ra from hr, Option.bind_some, hh]
    refine ⟨_, rfl, rfl, fun k => ?_⟩
    cases k with
    | inl k => simp only [MsdfAtlas.entry, AtlasRequest.msdfOwner, Sum.inl.injEq]
    | inr k => simp [MsdfAtlas.entry, AtlasRequest.msdfOwner]
  | stroke f g t j =>
    simp only [MsdfAtlas.get, MsdfAtlas.getStroke]
    rw [show a.strokes ⟨f.size.toNat, g, f.face.handle, t, j⟩ = none from he]
    simp only
    rw [show loadMsdf env (env.stroke f g t j) (env.upem f) = some ra from hr, Option.bind_some, hh]
    refine ⟨_, rfl, rfl, fun k => ?_⟩
    cases k with
    | inl k => simp [MsdfAtlas.entry, AtlasRequest.msdfOwner]
    | inr k => simp only [MsdfAtlas.entry, AtlasRequest.msdfOwner, Sum.inr.injEq]

/-- The state after the bitmaps `hist` were uploaded. -/
structure MsdfOK (env : MsdfEnv) (a : MsdfAtlas) (hist : List (Upload × Place)) : Prop where
  packed : Packed 2 a.pages hist
  entries : ∀ k info, a.entry k = some info → ∃ r ra i, AtlasRequest.msdfOwner r = k ∧ env.raster r = some ra ∧ ra.hasColor = false ∧
    Remembers ra info hist i

theorem loadMsdf_gray {env : MsdfEnv} {o : List OutlineContour} {upem : Nat} {ra : Raster} (h : loadMsdf env o upem = some ra) :
    ra.hasColor = false := by
  unfold loadMsdf at h
  obtain ⟨shape, _, h⟩ := Option.bind_eq_some_iff.1 h
  split at h
  · cases h; rfl
  · obtain ⟨f, _, rfl⟩ := Option.map_eq_some_iff.1 h
    rfl

theorem handleMsdf_spec {pages : List AtlasPage} {hist : List (Upload × Place)} (h : Packed 2 pages hist) (ra : Raster)
    (hw : ra.width ≤ 2048) (hh : ra.height ≤ 2048) :
    ∃ pages' info ext, handleMsdf pages ra = some (pages', info) ∧ Packed 2 pages' (hist ++ ext) ∧
      Remembers ra info (hist ++ ext) hist.length := by
  unfold handleMsdf
  split
  · rename_i hpos
    obtain ⟨pages', q, h1, h2⟩ := uploadGlyph_packed (pad := 2) (by decide) h ⟨ra.width, ra.height, ra.hasColor⟩ hw hh
    simp only at h1
    rw [h1]
    refine ⟨pages', _, _, rfl, h2, ⟨rfl, rfl, rfl, rfl, ?_, ?_⟩⟩
    · simp only [reduceCtorEq, false_iff]
      omega
    · intro p hp
      cases hp
      simp
  · rename_i hpos
    refine ⟨pages, _, [], rfl, by rw [List.append_nil]; exact h, ⟨rfl, rfl, rfl, rfl, ?_, ?_⟩⟩
    · simp only [true_iff]
      omega
    · intro p hp; cases hp

theorem cachedMsdf_spec {pages : List AtlasPage} {hist : List (Upload × Place)} (hp : Packed 2 pages hist) {ra : Raster}
    {info : GlyphInfo} {i : Nat} (hr : Remembers ra info hist i) (hg : ra.hasColor = false) (sx sy : Rat) :
    cachedMsdf pages sx sy info = if info.place = none then none else some (info.scaled sx sy false) := by
  unfold cachedMsdf
  cases hpl : info.place with
  | none => rfl
  | some pl =>
    obtain ⟨-, -, -, p, h4, h5, -⟩ := hp.held _ _ (List.mem_of_getElem? (hr.2.2.2.2.2 pl hpl))
    rw [Option.bind_some, h4, if_neg (by simp), Option.map_some, h5, hg]

/-- One request. -/
theorem msdf_get {env : MsdfEnv} {a a' : MsdfAtlas} {hist : List (Upload × Place)} (hs : env.Small) (h : MsdfOK env a hist)
    {r : AtlasRequest} {ans : MsdfAnswer} (hg : a.get env r = some (a', ans)) :
    ∃ ext info r' ra i, MsdfOK env a' (hist ++ ext) ∧ r'.msdfOwner = r.msdfOwner ∧ a'.entry r.msdfOwner = some info ∧
      (a.entry r.msdfOwner = none → r' = r) ∧
      env.raster r' = some ra ∧ Remembers ra info (hist ++ ext) i ∧ ans = info.scaled (env.scales r).1 (env.scales r).2 false := by
  cases he : a.entry r.msdfOwner with
  | some info =>
    obtain ⟨r', ra, i, h1, h2, h3, h4⟩ := h.entries _ info he
    rw [msdf_cached he, cachedMsdf_spec h.packed h4 h3] at hg
    split at hg
    · cases hg
    · cases hg
      exact ⟨[], info, r', ra, i, by simpa using h, h1, he, (by intro hn; cases hn), h2, by simpa using h4, rfl⟩
  | none =>
    obtain ⟨ra, r1, r2, r3⟩ := hs r
    obtain ⟨pages, info, ext, q1, q2, q3⟩ := handleMsdf_spec h.packed ra r2 r3
    obtain ⟨a'', g1, g2, g3⟩ := msdf_fresh he r1 q1
    rw [g1] at hg
    cases hg
    refine ⟨ext, info, r, ra, hist.length, ⟨by rw [g2]; exact q2, ?_⟩, rfl, by rw [g3, if_pos rfl], fun _ => rfl, r1, q3, rfl⟩
    intro k' info' hk'
    rw [g3] at hk'
    split at hk'
    · rename_i hkk
      cases hk'
      exact ⟨r, ra, _, hkk.symm, r1, loadMsdf_gray r1, q3⟩
    · obtain ⟨r', ra', i, a1, a2, a3, a4⟩ := h.entries k' info' hk'
      exact ⟨r', ra', i, a1, a2, a3, a4.append ext⟩

theorem MsdfRun.ok {env : MsdfEnv} {a : MsdfAtlas} (hs : env.Small) (h : MsdfRun env a) : ∃ hist, MsdfOK env a hist := by
  induction h with
  | start => exact ⟨[], packed_nil 2, fun k info h => by cases k <;> cases h⟩
  | step _ hg ih =>
    obtain ⟨hist, h⟩ := ih
    obtain ⟨ext, -, -, -, -, h1, -⟩ := msdf_get hs h hg
    exact ⟨_, h1⟩

/-- A request gets the right answer if the bitmap is that of every request with the
same key and the scales are right. -/
theorem msdf_answered {env : MsdfEnv} (hs : env.Small) {a : MsdfAtlas} (hrun : MsdfRun env a) {r : AtlasRequest}
    (hkey : ∀ r', r'.msdfOwner = r.msdfOwner → env.raster r' = env.raster r)
    (hsc : env.scales r = ((env.ppemX r.font : Rat) / 32, (env.ppemY r.font : Rat) / 32)) (baseline : SingleScriptFont → Rat)
    (hb : baseline r.font = 0) :
    (∀ a' ans, a.get env r = some (a', ans) → MsdfAnswered env baseline r ans) ∧
    ((∃ ra, env.raster r = some ra ∧ 0 < ra.width ∧ 0 < ra.height) → ∃ x, a.get env r = some x) := by
  obtain ⟨hist, h⟩ := hrun.ok hs
  constructor
  · intro a' ans hg
    obtain ⟨ext, info, r', ra, i, h1, h2, -, -, h5, h6, rfl⟩ := msdf_get hs h hg
    rw [hkey r' h2] at h5
    refine ⟨ra, h5, ?_⟩
    obtain ⟨m1, m2, m3, m4, m5, m6⟩ := h6
    rw [hsc]
    simp only [GlyphInfo.scaled, hb, m1, m2, m3, m4]
    refine ⟨trivial, trivial, trivial, by rw [Rat.add_zero], trivial, m5, fun p hp => ?_⟩
    obtain ⟨a1, a2, a3, -⟩ := h1.packed.held _ _ (List.mem_of_getElem? (m6 p hp))
    exact ⟨a1, a2, a3⟩
  · rintro ⟨ra, hra, hw, hh⟩
    cases he : a.entry r.msdfOwner with
    | some info =>
      obtain ⟨r', ra', i, a1, a2, a3, a4⟩ := h.entries _ info he
      rw [hkey r' a1, hra] at a2
      cases a2
      rw [msdf_cached he, cachedMsdf_spec h.packed a4 a3, if_neg]
      · exact ⟨_, rfl⟩
      · intro hn
        have := a4.2.2.2.2.1.1 hn
        omega
    | none =>
      obtain ⟨ra', r1, r2, r3⟩ := hs r
      obtain ⟨pages, info, ext, q1, -⟩ := handleMsdf_spec h.packed ra' r2 r3
      obtain ⟨a'', g1, -⟩ := msdf_fresh he r1 q1
      exact ⟨_, g1⟩

/-- C87 for glyphs, the part that holds: after every history, the answer is that for
the font and glyph asked, scaled to the size of the font, and it is defined unless
the bitmap is empty; if the outline depends on the face only (no weight or style
is made up) and the font is not raised or lowered.  See `C87_style_violated`,
`C87_empty_violated` and `C87_baseline_violated`. -/
theorem C87_glyph_partial (env : MsdfEnv) (hs : env.Small) (baseline : SingleScriptFont → Rat)
    (hkey : ∀ (f f' : SingleScriptFont) (g : Nat), f.face.handle = f'.face.handle → env.glyph f g = env.glyph f' g ∧ env.upem f = env.upem f')
    (a : MsdfAtlas) (hrun : MsdfRun env a) (f : SingleScriptFont) (g : Nat) (hb : baseline f = 0) :
    (∀ a' ans, a.getGlyph env f g = some (a', ans) → MsdfAnswered env baseline (.glyph f g) ans) ∧
    ((∃ ra, loadMsdf env (env.glyph f g) (env.upem f) = some ra ∧ 0 < ra.width ∧ 0 < ra.height) → ∃ x, a.getGlyph env f g = some x) := by
  refine msdf_answered (r := .glyph f g) hs hrun ?_ rfl baseline hb
  intro r' hr'
  cases r' with
  | glyph f' g' =>
    simp only [AtlasRequest.msdfOwner, Sum.inl.injEq, MsdfGlyphKey.mk.injEq] at hr'
    obtain ⟨rfl, h⟩ := hr'
    obtain ⟨h1, h2⟩ := hkey f' f g' h
    simp only [MsdfEnv.raster, MsdfEnv.outline, AtlasRequest.font, h1, h2]
  | stroke => cases hr'

/-- C87 for strokes, the part that holds: at 32 pixels per em, and if the outline
depends on face and size only. -/
theorem C87_stroke_partial (env : MsdfEnv) (hs : env.Small) (baseline : SingleScriptFont → Rat)
    (hkey : ∀ (f f' : SingleScriptFont) (g t j : Nat), f.face.handle = f'.face.handle → f.size.toNat = f'.size.toNat →
      env.stroke f g t j = env.stroke f' g t j ∧ env.upem f = env.upem f')
    (a : MsdfAtlas) (hrun : MsdfRun env a) (f : SingleScriptFont) (g t j : Nat) (hb : baseline f = 0)
    (h32 : env.ppemX f = 32 ∧ env.ppemY f = 32) :
    (∀ a' ans, a.getStroke env f g t j = some (a', ans) → MsdfAnswered env baseline (.stroke f g t j) ans) ∧
    ((∃ ra, loadMsdf env (env.stroke f g t j) (env.upem f) = some ra ∧ 0 < ra.width ∧ 0 < ra.height) →
      ∃ x, a.getStroke env f g t j = some x) := by
  refine msdf_answered (r := .stroke f g t j) hs hrun ?_ ?_ baseline hb
  · intro r' hr'
    cases r' with
    | glyph => cases hr'
    | stroke f' g' t' j' =>
      simp only [AtlasRequest.msdfOwner, Sum.inr.injEq, StrokeKey.mk.injEq] at hr'
      obtain ⟨h0, rfl, h, rfl, rfl⟩ := hr'
      obtain ⟨h1, h2⟩ := hkey f' f g' t' j' h h0
      simp only [MsdfEnv.raster, MsdfEnv.outline, AtlasRequest.font, h1, h2]
  · simp only [MsdfEnv.scales, AtlasRequest.font, h32.1, h32.2]
    norm_num

/-- C87 is violated by glyphs whose weight or style is made up: after any history,
once the outline of one font is in the atlas, every font of the same face gets
it, and the answer is wrong if the width of its own bitmap is different. -/
theorem C87_style_violated (env : MsdfEnv) (hs : env.Small) (a a' : MsdfAtlas) (hrun : MsdfRun env a) (f f' : SingleScriptFont) (g : Nat)
    (ans : MsdfAnswer) (baseline : SingleScriptFont → Rat) (h : a.getGlyph env f g = some (a', ans))
    (hok : MsdfAnswered env baseline (.glyph f g) ans) (hp : ans.place ≠ none) (hface : f'.face.handle = f.face.handle)
    (hppem : env.ppemX f' ≠ 0 ∧ env.ppemX f ≠ 0) (ra ra' : Raster) (hra : loadMsdf env (env.glyph f g) (env.upem f) = some ra)
    (hra' : loadMsdf env (env.glyph f' g) (env.upem f') = some ra') (hdiff : ra.width ≠ ra'.width) :
    ∃ ans', a'.getGlyph env f' g = some (a', ans') ∧ ans'.place = ans.place ∧ ¬ MsdfAnswered env baseline (.glyph f' g) ans' := by
  obtain ⟨hist, hok'⟩ := hrun.ok hs
  obtain ⟨ext, info, r', ra0, i, h1, h2, h3, -, h5, h6, he⟩ := msdf_get hs hok' (r := .glyph f g) h
  have ho : (AtlasRequest.glyph f' g).msdfOwner = (AtlasRequest.glyph f g).msdfOwner := by
    simp only [AtlasRequest.msdfOwner, hface]
  have hpl : info.place ≠ none := by rw [he] at hp; exact hp
  have he' : a'.entry (AtlasRequest.glyph f' g).msdfOwner = some info := by rw [ho]; exact h3
  refine ⟨info.scaled (env.ppemX f' / 32) (env.ppemY f' / 32) false, ?_, by rw [he]; rfl, ?_⟩
  · have := msdf_cached (env := env) he'
    rw [cachedMsdf_spec h1.packed h6 (loadMsdf_gray h5), if_neg hpl] at this
    exact this
  · rintro ⟨x, hx, hw, -⟩
    simp only [MsdfEnv.outline, AtlasRequest.font] at hx hw
    rw [hra'] at hx
    cases hx
    obtain ⟨y, hy, hw', -⟩ := hok
    simp only [MsdfEnv.outline, AtlasRequest.font] at hy hw'
    rw [hra] at hy
    cases hy
    rw [he] at hw'
    simp only [GlyphInfo.scaled, MsdfEnv.scales] at hw hw'
    have p1 : (env.ppemX f : Rat) / 32 ≠ 0 := by
      have : (env.ppemX f : Rat) ≠ 0 := by exact_mod_cast hppem.2
      exact div_ne_zero this (by norm_num)
    have p2 : (env.ppemX f' : Rat) / 32 ≠ 0 := by
      have : (env.ppemX f' : Rat) ≠ 0 := by exact_mod_cast hppem.1
      exact div_ne_zero this (by norm_num)
    have e1 := mul_right_cancel₀ p2 hw
    have e2 := mul_right_cancel₀ p1 hw'
    rw [e2] at e1
    exact hdiff (by exact_mod_cast e1)

/-- C87 is violated by blank glyphs: after any history, the second request is
undefined. -/
theorem C87_empty_violated (env : MsdfEnv) (hs : env.Small) (a a' : MsdfAtlas) (hrun : MsdfRun env a) (r : AtlasRequest) (ans : MsdfAnswer)
    (h : a.get env r = some (a', ans)) (he : ans.place = none) : a'.get env r = none := by
  obtain ⟨hist, hok⟩ := hrun.ok hs
  obtain ⟨ext, info, r', ra, i, h1, h2, h3, -, h5, h6, rfl⟩ := msdf_get hs hok h
  rw [msdf_cached h3, cachedMsdf_spec h1.packed h6 (loadMsdf_gray h5), if_pos (show info.place = none from he)]
  rfl

/-- C87 is violated by raised and lowered text: no answer is moved to the
baseline. -/
theorem C87_baseline_violated (env : MsdfEnv) (hs : env.Small) (a a' : MsdfAtlas) (hrun : MsdfRun env a) (f : SingleScriptFont) (g : Nat)
    (ans : MsdfAnswer) (baseline : SingleScriptFont → Rat)
    (hkey : ∀ (f f' : SingleScriptFont) (g : Nat), f.face.handle = f'.face.handle → env.glyph f g = env.glyph f' g ∧ env.upem f = env.upem f')
    (h : a.getGlyph env f g = some (a', ans)) (hb : baseline f ≠ 0) : ¬ MsdfAnswered env baseline (.glyph f g) ans := by
  intro hc
  obtain ⟨ra, h1, _, _, _, h2, _⟩ := (C87_glyph_partial env hs (fun _ => 0) hkey a hrun f g rfl).1 a' ans h
  obtain ⟨ra', h1', _, _, _, h2', _⟩ := hc
  rw [h1] at h1'
  cases h1'
  rw [h2] at h2'
  simp only [AtlasRequest.font] at h2'
  exact hb (by linarith)

/-- C87 is violated by strokes at any other size: they stay as large as at 32
pixels per em. -/
theorem C87_stroke_violated (env : MsdfEnv) (hs : env.Small) (baseline : SingleScriptFont → Rat) (f : SingleScriptFont) (g t j : Nat)
    (ra : Raster) (hra : loadMsdf env (env.stroke f g t j) (env.upem f) = some ra) (hpos : 0 < ra.width) (h32 : env.ppemX f ≠ 32) :
    ∃ a' ans, MsdfAtlas.getStroke env {} f g t j = some (a', ans) ∧ ¬ MsdfAnswered env baseline (.stroke f g t j) ans := by
  obtain ⟨ra', r1, r2, r3⟩ := hs (.stroke f g t j)
  obtain ⟨pages, info, ext, q1, q2, q3⟩ := handleMsdf_spec (packed_nil 2) ra' r2 r3
  obtain ⟨a'', g1, -⟩ := msdf_fresh (a := {}) (r := .stroke f g t j) rfl r1 q1
  refine ⟨a'', _, g1, ?_⟩
  rintro ⟨x, hx, hw, -⟩
  rw [show loadMsdf env (env.outline (.stroke f g t j)) (env.upem (AtlasRequest.stroke f g t j).font) = some ra from hra] at hx r1
  cases hx
  cases r1
  simp only [GlyphInfo.scaled, MsdfEnv.scales, q3.1, AtlasRequest.font] at hw
  have hp : (0 : Rat) < ra.width := by exact_mod_cast hpos
  have e : (1 : Rat) = env.ppemX f / 32 := mul_left_cancel₀ hp.ne' hw
  have e2 : (env.ppemX f : Rat) = 32 := by linarith
  exact h32 (by exact_mod_cast e2)

/-- Fonts for the examples: glyph 0 is blank, glyph 1 an O, which is wider in
italics; 1000 units per em. -/
def msdfEnv : MsdfEnv where
  glyph f g := if g = 0 then [] else if f.style = .italic then ⟨(500, 0), [.line (600, 0), .line (500, 0)]⟩ :: demoO else demoO
  stroke _ g _ _ := if g = 0 then [] else demoO
  bounds s := if s.flatten.length = 5 then ⟨0, 0, 400, 400⟩ else ⟨0, 0, 600, 400⟩
  upem _ := 1000
  ppemX f := f.size.toNat
  ppemY f := f.size.toNat

theorem msdfEnv_small : msdfEnv.Small := by
  intro r
  have h0 : loadMsdf msdfEnv [] 1000 = some ⟨0, 0, 0, 0, false⟩ := rfl
  have h1 : ∃ ra, loadMsdf msdfEnv demoO 1000 = some ra ∧ ra.width ≤ 2048 ∧ ra.height ≤ 2048 :=
    ⟨⟨16, 16, -8 / 5, -72 / 5, false⟩, by decide +kernel, by decide, by decide⟩
  have h2 : ∃ ra, loadMsdf msdfEnv (⟨(500, 0), [.line (600, 0), .line (500, 0)]⟩ :: demoO) 1000 = some ra ∧ ra.width ≤ 2048 ∧
      ra.height ≤ 2048 :=
    ⟨⟨23, 16, -19 / 10, -72 / 5, false⟩, by decide +kernel, by decide, by decide⟩
  cases r with
  | glyph f g =>
    simp only [MsdfEnv.outline, AtlasRequest.font, msdfEnv] at h1 h2 ⊢
    split
    · exact ⟨_, h0, by decide, by decide⟩
    · split
      · exact h2
      · exact h1
  | stroke f g t j =>
    simp only [MsdfEnv.outline, AtlasRequest.font, msdfEnv] at h1 ⊢
    split
    · exact ⟨_, h0, by decide, by decide⟩
    · exact h1

/-- A history meeting the hypotheses of `C87_glyph_partial` and
`C87_style_violated`: the italic O gets the 16 pixels of the upright one instead
of its own 23, at the right scale (the font has 16 pixels per em). -/
example : ((MsdfAtlas.get msdfEnv {} (.glyph (atlasFont .normal) 1)).bind fun x =>
    (x.1.get msdfEnv (.glyph (atlasFont .italic) 1)).map fun y => ((x.2.place, x.2.width), (y.2.place, y.2.width))) =
    some ((some ⟨0, 0, 0, 16, 16⟩, 8), (some ⟨0, 0, 0, 16, 16⟩, 8)) := by decide +kernel

/-- A history meeting the hypotheses of `C87_empty_violated`. -/
example : ((MsdfAtlas.get msdfEnv {} (.glyph (atlasFont .normal) 0)).map fun x =>
    (x.2.place, (x.1.get msdfEnv (.glyph (atlasFont .normal) 0)).isNone)) = some (none, true) := by decide +kernel

/-- `C87_stroke_violated` applies to every font of 16 pixels. -/
example : ∃ a' ans, MsdfAtlas.getStroke msdfEnv {} (atlasFont .normal) 1 2 0 = some (a', ans) ∧
    ¬ MsdfAnswered msdfEnv (fun _ => 0) (.stroke (atlasFont .normal) 1 2 0) ans :=
  C87_stroke_violated msdfEnv msdfEnv_small _ _ 1 2 0 ⟨16, 16, -8 / 5, -72 / 5, false⟩ (by decide +kernel) (by decide) (by decide +kernel)

end RichText
