import Verif.Proof.FaceMetrics
/-!
C106: how high a line is for the size of its font.  C107: whether raised and
lowered text stays in its line.  C108: where underlines and strikethroughs are.
-/
namespace RichText

/-- Noto Sans Regular, as in fonts/. -/
def notoSans : FaceUnits := ⟨1000, 1069, -293, -125, 50, 322, 50⟩

/-- A size of it. -/
def noto (size : Nat) : SizedFont := ⟨notoSans, size, false, false, false⟩
/-- Superscript. -/
def notoSuper (size : Nat) : SizedFont := ⟨notoSans, size, false, false, true⟩
/-- Subscript. -/
def notoSub (size : Nat) : SizedFont := ⟨notoSans, size, false, true, false⟩

theorem notoSans_usual : notoSans.Usual := by
  constructor <;> decide

/-! ### C106 -/

/-- C106: a line in one font, not raised or lowered, is a whole number of pixels
high: the font size or one more.  Synthetic small caps count with the size they
are drawn at. -/
theorem C106_height_partial (f : SizedFont) (m : SizeMetrics) (hf : f.face.Usual) (hs : f.size < 65536)
    (hsub : f.subscript = false) (hsup : f.superscript = false) (hm : f.metrics = some m) :
    f.lineHeight m = ((if f.smallCaps then f.size * 8 / 10 else f.size : Nat) : Rat) ∨
    f.lineHeight m = ((if f.smallCaps then f.size * 8 / 10 else f.size : Nat) : Rat) + 1 := by
  have hss : f.subSuper = false := by simp [SizedFont.subSuper, hsub, hsup]
  obtain ⟨e, a, d, A, D, he, hle, h, ⟨ha1, ha2⟩, hd1, hd2⟩ := SizedFont.sized hf hs hm
  have hsz : (if f.smallCaps then f.size * 8 / 10 else f.size) = e := by
    cases hc : f.smallCaps <;> rw [hc, hss] at he
    · rw [effective_plain (by omega)] at he; cases he; rfl
    · rw [effective_smallCaps (by omega)] at he; cases he; rfl
  rw [hsz]
  unfold SizedFont.lineHeight SizedFont.lineMetrics
  simp only [SizedFont.ascent_plain h hss (abs_le.2 ⟨by omega, by omega⟩), SizedFont.descent_plain h hss (abs_le.2 ⟨by omega, by omega⟩)]
  obtain ⟨b1, b2⟩ := h.height
  have : a - d = e ∨ a - d = e + 1 := by omega
  rcases this with h | h
  · left; exact_mod_cast h
  · right; exact_mod_cast h

/-- C106: it is the font size if the ascender of the font, scaled exactly, is a
whole number of pixels. -/
theorem C106_exact (f : SizedFont) (m : SizeMetrics) (hf : f.face.Usual) (hs : f.size < 65536)
    (hc : f.smallCaps = false) (hsub : f.subscript = false) (hsup : f.superscript = false) (hm : f.metrics = some m)
    (hx : (f.face.ascender - f.face.descender) ∣ f.size * f.face.ascender) :
    f.lineHeight m = f.size := by
  have hss : f.subSuper = false := by simp [SizedFont.subSuper, hsub, hsup]
  obtain ⟨e, a, d, A, D, he, hle, h, ⟨ha1, ha2⟩, hd1, hd2⟩ := SizedFont.sized hf hs hm
  rw [hc, hss, effective_plain (by omega)] at he
  cases he
  unfold SizedFont.lineHeight SizedFont.lineMetrics
  simp only [SizedFont.ascent_plain h hss (abs_le.2 ⟨by omega, by omega⟩), SizedFont.descent_plain h hss (abs_le.2 ⟨by omega, by omega⟩)]
  obtain ⟨n, hn⟩ := hx
  have := h.height_exact hf (n := n) (by rw [hn]; unfold FaceUnits.extent; ring)
  exact_mod_cast this

/-- C106 does not hold in general: a line is one pixel higher than the font size
whenever the ascender of the font, scaled exactly, is not within 7/256 of a
pixel of a whole number of pixels. -/
theorem C106_height_violated (f : SizedFont) (m : SizeMetrics) (hf : f.face.Usual) (hs : f.size < 65536)
    (hc : f.smallCaps = false) (hsub : f.subscript = false) (hsup : f.superscript = false) (hm : f.metrics = some m)
    (hx : ∀ n : Int, (7 / 256 : Rat) < |(f.size * f.face.ascender : Rat) / (f.face.ascender - f.face.descender) - n|) :
    f.lineHeight m = f.size + 1 := by
  have hp := C106_height_partial f m hf hs hsub hsup hm
  rw [hc] at hp
  rcases hp with hp | hp
  · exfalso
    have hss : f.subSuper = false := by simp [SizedFont.subSuper, hsub, hsup]
    obtain ⟨e, a, d, A, D, he, hle, h, ⟨ha1, ha2⟩, hd1, hd2⟩ := SizedFont.sized hf hs hm
    rw [hc, hss, effective_plain (by omega)] at he
    cases he
    unfold SizedFont.lineHeight SizedFont.lineMetrics at hp
    simp only [SizedFont.ascent_plain h hss (abs_le.2 ⟨by omega, by omega⟩), SizedFont.descent_plain h hss (abs_le.2 ⟨by omega, by omega⟩)] at hp
    obtain ⟨n, hn⟩ := h.height_near hf (by exact_mod_cast hp)
    have hpos : (0 : Rat) < f.face.ascender - f.face.descender := by exact_mod_cast hf.height
    have := hx n
    have e1 : (f.size * f.face.ascender : Rat) / (f.face.ascender - f.face.descender) - n
        = (f.size * f.face.ascender - n * (f.face.ascender - f.face.descender)) / (f.face.ascender - f.face.descender) := by field_simp
    rw [e1, abs_div, abs_of_pos hpos, lt_div_iff₀ hpos] at this
    have hn' : (256 : Rat) * |(f.size * f.face.ascender : Rat) - n * (f.face.ascender - f.face.descender)|
        ≤ 7 * (f.face.ascender - f.face.descender) := by
      have := (Int.cast_le (R := Rat)).2 hn
      unfold FaceUnits.extent at this
      push_cast at this
      exact this
    linarith
  · exact hp

/-- Noto Sans at 48, the font of the tests: 49 pixels.  At 1362, the height of
the font in units: exactly that. -/
example : ((noto 48).metrics.map (noto 48).lineHeight) = some 49 ∧ ((noto 48).metrics.map (noto 48).lineMetrics) = some ⟨38, -11⟩ ∧
    ((noto 1362).metrics.map (noto 1362).lineHeight) = some 1362 := by decide +kernel

/-- The hypothesis of `C106_height_violated` for it. -/
example (n : Int) : (7 / 256 : Rat) < |((noto 48).size * (noto 48).face.ascender : Rat) / ((noto 48).face.ascender - (noto 48).face.descender) - n| := by
  have : (((noto 48).size * (noto 48).face.ascender : Rat) / ((noto 48).face.ascender - (noto 48).face.descender)) = 8552 / 227 := by
    norm_num [noto, notoSans]
  rw [this, lt_abs]
  rcases le_or_gt n 37 with h | h
  · left
    have : (n : Rat) ≤ 37 := by exact_mod_cast h
    linarith
  · right
    have : (38 : Rat) ≤ n := by exact_mod_cast h
    linarith

/-- C106: raised and lowered text counts with its own size scaled back; a line of
it is within one and a half pixels of the font size. -/
theorem C106_raised_partial (f : SizedFont) (m : SizeMetrics) (hf : f.face.Usual) (hs : f.size < 65536)
    (hc : f.smallCaps = false) (hr : f.subscript = true ∨ f.superscript = true) (hm : f.metrics = some m) :
    |f.lineHeight m - f.size| ≤ 3 / 2 := by
  have hss : f.subSuper = true := by rcases hr with h | h <;> simp [SizedFont.subSuper, h]
  obtain ⟨e, a, d, A, D, he, hle, h, ⟨ha1, ha2⟩, hd1, hd2⟩ := SizedFont.sized hf hs hm
  rw [hc, hss, effective_subSuper (by omega)] at he
  have hb1 := abs_le.1 (SizedFont.ascent_raised h hss (abs_le.2 ⟨by omega, by omega⟩))
  have hb2 := abs_le.1 (SizedFont.descent_raised h hss (abs_le.2 ⟨by omega, by omega⟩))
  obtain ⟨b1, b2⟩ := h.height
  have he' : f.size * 7 / 10 = e := by simpa using he
  have q1 : (10 : Rat) * e ≤ 7 * f.size := by exact_mod_cast (show 10 * e ≤ 7 * f.size by omega)
  have q2 : (7 : Rat) * f.size ≤ 10 * e + 9 := by exact_mod_cast (show 7 * f.size ≤ 10 * e + 9 by omega)
  have q3 : (e : Rat) ≤ a - d := by exact_mod_cast b1
  have q4 : (a - d : Rat) ≤ e + 1 := by exact_mod_cast b2
  have q5 : (f.size : Rat) < 65536 := by exact_mod_cast hs
  unfold SizedFont.lineHeight SizedFont.lineMetrics
  rw [abs_le]
  simp only
  constructor <;> linarith [hb1.1, hb1.2, hb2.1, hb2.2]

/-- C106 does not hold for raised text: in Noto Sans a superscript line is higher
than a plain line at size 10 and lower at size 48, and a superscript in a plain
line moves the lines below by part of a pixel. -/
theorem C106_raised_violated :
    ((noto 10).metrics.map (noto 10).lineHeight) = some 11 ∧
    (∃ x, ((notoSuper 10).metrics.map (notoSuper 10).lineHeight) = some x ∧ 57 / 5 < x) ∧
    ((noto 48).metrics.map (noto 48).lineHeight) = some 49 ∧
    (∃ x, ((notoSuper 48).metrics.map (notoSuper 48).lineHeight) = some x ∧ x < 243 / 5) ∧
    (∃ M, maxMetrics [⟨noto 10, 1, 1⟩, ⟨notoSuper 10, 2, 2⟩]
        (fun f : SizedFont => (f.metrics.map f.lineMetrics).getD ⟨0, 0⟩) [⟨0, 0, 0, false⟩, ⟨1, 1, 1, false⟩] ⟨0, 0⟩ = some M ∧
        23 / 2 < M.ascent - M.descent ∧ M.ascent - M.descent < 12) := by
  refine ⟨by decide +kernel, ⟨_, rfl, by decide +kernel⟩, by decide +kernel, ⟨_, rfl, by decide +kernel⟩, ⟨_, rfl, ?_, ?_⟩⟩ <;>
    decide +kernel

/-- C106: the lines of the layout.  A line all of whose runs are in one font is
as high as that font says, with the ascent of the font. -/
theorem C106_line {β : Type _} (e : ParaEnv β SizedFont) (b : Shaped SizedFont) (l : BrokenLine) (ops : List (LayoutOp SizedFont))
    (ps : List VisualPiece) (hl : lineOps e b l = some (ops, ps)) (hne : ps ≠ [])
    (f : SizedFont) (m : SizeMetrics) (hf : f.face.Usual) (hs : f.size < 65536) (hm : f.metrics = some m)
    (hem : e.metrics f = f.lineMetrics m) (hall : ∀ p ∈ ps, ∀ r, b.runs[p.run]? = some r → r.font = f) :
    ∃ before, ops = before ++ [.line (f.lineHeight m) (f.getAscent m)] := by
  unfold lineOps at hl
  cases h1 : linePieces b.runs (e.bidi l.first l.stop) with
  | none => rw [h1] at hl; cases hl
  | some ps' =>
    rw [h1] at hl
    simp only [Option.bind_some] at hl
    cases h2 : visualRuns b l.widths e.vertical ps' 0 with
    | none => rw [h2] at hl; cases hl
    | some o =>
      rw [h2] at hl
      simp only [Option.bind_some] at hl
      cases h3 : maxMetrics b.runs e.metrics ps' ⟨0, 0⟩ with
      | none => rw [h3] at hl; cases hl
      | some M =>
        rw [h3] at hl
        simp only [Option.map_some, Option.some.injEq, Prod.mk.injEq] at hl
        obtain ⟨rfl, rfl⟩ := hl
        refine ⟨o, ?_⟩
        obtain ⟨⟨m1, m2⟩, m3, m4, m5⟩ := maxMetrics_spec ps' ⟨0, 0⟩ M h3
        obtain ⟨n1, n2⟩ := SizedFont.lineMetrics_sign hf hs hm
        have hex : ∃ p ∈ ps', ∃ r, b.runs[p.run]? = some r := by
          cases ps' with
          | nil => exact absurd rfl hne
          | cons p t =>
            refine ⟨p, List.mem_cons_self .., ?_⟩
            unfold maxMetrics at h3
            cases hr : b.runs[p.run]? with
            | none => rw [hr] at h3; cases h3
            | some r => exact ⟨r, rfl⟩
        obtain ⟨p, hp, r, hr⟩ := hex
        have k := m3 p hp r hr
        rw [hall p hp r hr, hem] at k
        have ha : M.ascent = f.getAscent m := by
          rcases m4 with m4 | ⟨q, hq, r', hr', m4⟩
          · rw [m4] at k ⊢
            exact le_antisymm n1 k.1
          · rw [m4, hall q hq r' hr', hem]; rfl
        have hd : M.descent = f.getDescent m := by
          rcases m5 with m5 | ⟨q, hq, r', hr', m5⟩
          · rw [m5] at k ⊢
            exact le_antisymm k.2 n2
          · rw [m5, hall q hq r' hr', hem]; rfl
        rw [ha, hd]; rfl

/-! ### C107 -/

/-- C107 does not hold: superscript text alone in its line reaches above the
line, in every usual face at every size. -/
theorem C107_superscript_violated (f : SizedFont) (m : SizeMetrics) (hf : f.face.Usual) (h0 : 0 < f.size) (hs : f.size < 65536)
    (hsub : f.subscript = false) (hsup : f.superscript = true) (hm : f.metrics = some m) :
    (f.lineMetrics m).ascent + f.size * (3 / 100) < f.top m := by
  have hss : f.subSuper = true := by simp [SizedFont.subSuper, hsup]
  obtain ⟨e, a, d, A, D, he, hle, h, ⟨ha1, ha2⟩, hd1, hd2⟩ := SizedFont.sized hf hs hm
  have he' : 10 * e ≤ 7 * f.size := by
    cases hc : f.smallCaps <;> rw [hc, hss] at he
    · rw [effective_subSuper (by omega)] at he; cases he; omega
    · rw [effective_both (by omega)] at he; cases he; omega
  have hb1 := abs_le.1 (SizedFont.ascent_raised h hss (abs_le.2 ⟨by omega, by omega⟩))
  have hb2 := abs_le.1 (SizedFont.offset_superscript hsup hsub hs)
  have q1 : (10 : Rat) * e ≤ 7 * f.size := by exact_mod_cast he'
  have q2 : (a : Rat) ≤ e := by exact_mod_cast ha2
  have q3 : (1 : Rat) ≤ f.size := by exact_mod_cast h0
  have q5 : (f.size : Rat) < 65536 := by exact_mod_cast hs
  unfold SizedFont.top SizedFont.lineMetrics
  rw [h.ascender]
  unfold SizedFont.superscriptRatio at hb2
  push_cast
  linarith [hb1.1, hb1.2, hb2.1, hb2.2]

/-- C107 does not hold in mixed text either: next to plain text of the same face
and size, superscript text reaches above the line at every size from 52. -/
theorem C107_mixed_violated (f g : SizedFont) (m n : SizeMetrics) (hf : f.face.Usual) (h0 : 52 ≤ f.size) (hs : f.size < 65536)
    (hc : f.smallCaps = false) (hsub : f.subscript = false) (hsup : f.superscript = true) (hm : f.metrics = some m)
    (hg : g = { f with superscript := false }) (hn : g.metrics = some n) :
    (g.lineMetrics n).ascent < f.top m ∧ (f.lineMetrics m).ascent < f.top m := by
  refine ⟨?_, by
    have := C107_superscript_violated f m hf (by omega) hs hsub hsup hm
    have : (0 : Rat) ≤ f.size := Nat.cast_nonneg _
    linarith⟩
  have hss : f.subSuper = true := by simp [SizedFont.subSuper, hsup]
  have hgs : g.subSuper = false := by simp [SizedFont.subSuper, hg, hsub]
  obtain ⟨e, a, d, A, D, he, hle, h, ⟨ha1, ha2⟩, hd1, hd2⟩ := SizedFont.sized hf hs hm
  rw [hc, hss, effective_subSuper (by omega)] at he
  have he' : f.size * 7 / 10 = e := by simpa using he
  have hgf : g.face = f.face := by rw [hg]
  have hgz : g.size = f.size := by rw [hg]
  obtain ⟨e', a', d', A', D', ge, gle, k, ⟨ka1, ka2⟩, kd1, kd2⟩ := SizedFont.sized (f := g) (by rw [hgf]; exact hf) (by rw [hgz]; exact hs) hn
  rw [show g.smallCaps = false by rw [hg]; exact hc, hgs, effective_plain (by omega)] at ge
  have ge' : f.size = e' := by rw [← hgz]; simpa using ge
  have hb2 := abs_le.1 (SizedFont.offset_superscript hsup hsub hs)
  have hp : 0 < f.face.extent := hf.height
  -- the ascenders, exactly
  have u := (h.asc_bound hf).1
  have v := (k.asc_bound (by rw [hgf]; exact hf)).2
  rw [hgf] at v
  have w : f.face.ascender ≤ f.face.extent := by unfold FaceUnits.extent; have := hf.descender; omega
  have key : (a' : Rat) - a ≤ 3 / 10 * f.size + 9 / 10 + 258 / 256 := by
    have hpr : (0 : Rat) < f.face.extent := by exact_mod_cast hp
    have u' : -(3 * (f.face.extent : Rat)) ≤ 256 * (f.face.extent * a - e * f.face.ascender) := by exact_mod_cast u
    have v' : 256 * ((f.face.extent : Rat) * a' - e' * f.face.ascender) ≤ 255 * f.face.extent := by exact_mod_cast v
    have q1 : ((e' : Rat) - e) ≤ 3 / 10 * f.size + 9 / 10 := by
      have : (10 * (e' : Int) - 10 * e) ≤ 3 * f.size + 9 := by omega
      have : (10 * (e' : Rat) - 10 * e) ≤ 3 * f.size + 9 := by exact_mod_cast this
      linarith
    have q0 : (0 : Rat) ≤ (e' : Rat) - e := by
      have : (e : Rat) ≤ e' := by exact_mod_cast (show e ≤ e' by omega)
      linarith
    have w' : (f.face.ascender : Rat) ≤ f.face.extent := by exact_mod_cast w
    have w0 : (0 : Rat) ≤ f.face.ascender := by exact_mod_cast hf.ascender.1
    have r1 : ((e' : Rat) - e) * f.face.ascender ≤ (3 / 10 * f.size + 9 / 10) * f.face.extent :=
      mul_le_mul q1 w' w0 (by linarith)
    have : (f.face.extent : Rat) * (a' - a) ≤ f.face.extent * (3 / 10 * f.size + 9 / 10 + 258 / 256) := by linarith
    exact le_of_mul_le_mul_left this hpr
  have q3 : (52 : Rat) ≤ f.size := by exact_mod_cast h0
  have q5 : (f.size : Rat) < 65536 := by exact_mod_cast hs
  unfold SizedFont.top SizedFont.lineMetrics
  rw [h.ascender, SizedFont.ascent_plain k hgs (abs_le.2 ⟨by omega, by omega⟩)]
  unfold SizedFont.superscriptRatio at hb2
  push_cast
  linarith [hb2.1, hb2.2]

/-- C107 does not hold for subscript text: alone in its line it reaches below the
line, at every size from 9, if the descender is at most half of the height of the
face. -/
theorem C107_subscript_violated (f : SizedFont) (m : SizeMetrics) (hf : f.face.Usual) (h0 : 9 ≤ f.size) (hs : f.size < 65536)
    (hsub : f.subscript = true) (hsup : f.superscript = false) (hm : f.metrics = some m)
    (hd : -f.face.descender ≤ f.face.ascender) :
    -(f.lineMetrics m).descent < f.bottom m := by
  have hss : f.subSuper = true := by simp [SizedFont.subSuper, hsub]
  obtain ⟨e, a, d, A, D, he, hle, h, ⟨ha1, ha2⟩, hd1, hd2⟩ := SizedFont.sized hf hs hm
  have he' : 10 * e ≤ 7 * f.size := by
    cases hc : f.smallCaps <;> rw [hc, hss] at he
    · rw [effective_subSuper (by omega)] at he; cases he; omega
    · rw [effective_both (by omega)] at he; cases he; omega
  have hb1 := abs_le.1 (SizedFont.descent_raised h hss (abs_le.2 ⟨by omega, by omega⟩))
  have hb2 := abs_le.1 (SizedFont.offset_subscript hsup hsub hs)
  have hp : 0 < f.face.extent := hf.height
  have u := (h.desc_bound hf).1
  have q1 : (10 : Rat) * e ≤ 7 * f.size := by exact_mod_cast he'
  have q2 : -(d : Rat) ≤ e / 2 + 255 / 256 := by
    have hpr : (0 : Rat) < f.face.extent := by exact_mod_cast hp
    have u' : -(255 * (f.face.extent : Rat)) ≤ 256 * (f.face.extent * d - e * f.face.descender) := by exact_mod_cast u
    have w : 2 * -f.face.descender ≤ f.face.extent := by unfold FaceUnits.extent; omega
    have w' : 2 * -(f.face.descender : Rat) ≤ f.face.extent := by exact_mod_cast w
    have r1 := mul_le_mul_of_nonneg_left w' (Nat.cast_nonneg (α := Rat) e)
    have : (f.face.extent : Rat) * -d ≤ f.face.extent * (e / 2 + 255 / 256) := by linarith
    exact le_of_mul_le_mul_left this hpr
  have q3 : (9 : Rat) ≤ f.size := by exact_mod_cast h0
  have q5 : (f.size : Rat) < 65536 := by exact_mod_cast hs
  unfold SizedFont.bottom SizedFont.lineMetrics
  rw [h.descender]
  unfold SizedFont.subscriptRatio at hb2
  push_cast
  linarith [hb1.1, hb1.2, hb2.1, hb2.2]

/-- C107: what holds.  A point of an outline, raised with its text, stays below
the top of a line with plain text of the same face and size if it is low enough
in the face: at most 10/7 of the ascender less 36/70 of the height. -/
theorem C107_outline_partial (f g : SizedFont) (m n : SizeMetrics) (hf : f.face.Usual) (h0 : 2 ≤ f.size) (hs : f.size < 65536)
    (hc : f.smallCaps = false) (hsub : f.subscript = false) (hsup : f.superscript = true) (hm : f.metrics = some m)
    (hg : g = { f with superscript := false }) (hn : g.metrics = some n)
    (y : Int) (hy0 : 0 ≤ y) (hy : 70 * y ≤ 100 * f.face.ascender - 36 * (f.face.ascender - f.face.descender)) :
    (ftMulFix y m.yScale : Rat) / 64 - f.baselineOffset ≤ (g.lineMetrics n).ascent := by
  have hss : f.subSuper = true := by simp [SizedFont.subSuper, hsup]
  have hgs : g.subSuper = false := by simp [SizedFont.subSuper, hg, hsub]
  obtain ⟨e, a, d, A, D, he, hle, h, ⟨ha1, ha2⟩, hd1, hd2⟩ := SizedFont.sized hf hs hm
  rw [hc, hss, effective_subSuper (by omega)] at he
  have he' : f.size * 7 / 10 = e := by simpa using he
  have hgf : g.face = f.face := by rw [hg]
  have hgz : g.size = f.size := by rw [hg]
  obtain ⟨e', a', d', A', D', ge, gle, k, ⟨ka1, ka2⟩, kd1, kd2⟩ := SizedFont.sized (f := g) (by rw [hgf]; exact hf) (by rw [hgz]; exact hs) hn
  rw [show g.smallCaps = false by rw [hg]; exact hc, hgs, effective_plain (by omega)] at ge
  have ge' : f.size = e' := by rw [← hgz]; simpa using ge
  have hb2 := abs_le.1 (SizedFont.offset_superscript hsup hsub hs)
  have hp : 0 < f.face.extent := hf.height
  have v := (k.asc_bound (by rw [hgf]; exact hf)).1
  rw [hgf] at v
  have hyu : y ≤ 32768 := by have := hf.ascender; have := hf.descender; omega
  have u := (scaled_bound (u := y) hp h.scale ⟨by omega, hyu⟩).1
  unfold SizedFont.lineMetrics
  rw [SizedFont.ascent_plain k hgs (abs_le.2 ⟨by omega, by omega⟩)]
  have hpr : (0 : Rat) < f.face.extent := by exact_mod_cast hp
  have q3 : (2 : Rat) ≤ f.size := by exact_mod_cast h0
  have q5 : (f.size : Rat) < 65536 := by exact_mod_cast hs
  have u' : 4 * ((f.face.extent : Rat) * ftMulFix y m.yScale - 64 * (e * y)) ≤ 3 * f.face.extent := by exact_mod_cast u
  have v' : -(3 * (f.face.extent : Rat)) ≤ 256 * (f.face.extent * a' - e' * f.face.ascender) := by exact_mod_cast v
  have hy' : 70 * (y : Rat) ≤ 100 * f.face.ascender - 36 * f.face.extent := by
    have : 70 * y ≤ 100 * f.face.ascender - 36 * f.face.extent := hy
    exact_mod_cast this
  have q1 : (10 : Rat) * e ≤ 7 * f.size := by exact_mod_cast (show 10 * e ≤ 7 * f.size by omega)
  have q2 : (e' : Rat) = f.size := by rw [ge']
  have hy0' : (0 : Rat) ≤ y := by exact_mod_cast hy0
  have r1 := mul_le_mul_of_nonneg_right q1 hy0'
  have r2 := mul_le_mul_of_nonneg_left hy' (Nat.cast_nonneg (α := Rat) f.size)
  have r3 := mul_le_mul_of_nonneg_right q3 hpr.le
  rw [q2] at v'
  have key : (ftMulFix y m.yScale : Rat) / 64 + 36 / 100 * f.size - 3 / 128 ≤ a' := by
    have : (f.face.extent : Rat) * ((ftMulFix y m.yScale : Rat) / 64 + 36 / 100 * f.size - 3 / 128) ≤ f.face.extent * a' := by linarith
    exact le_of_mul_le_mul_left this hpr
  unfold SizedFont.superscriptRatio at hb2
  linarith [hb2.1, hb2.2]

/-- Noto Sans at 48: the line is 38 pixels above the baseline, superscript text
reaches to more than 42; a subscript 48 reaches 17.6 below, its line 11.4. -/
example : ((noto 48).metrics.map (noto 48).lineMetrics) = some ⟨38, -11⟩ ∧
    (∃ x, ((notoSuper 48).metrics.map (notoSuper 48).top) = some x ∧ 42 < x) ∧
    (∃ x y, ((notoSub 48).metrics.map (notoSub 48).bottom) = some x ∧ ((notoSub 48).metrics.map (notoSub 48).getDescent) = some y ∧
      17 < x ∧ -12 < y) := by
  refine ⟨by decide +kernel, ⟨_, rfl, by decide +kernel⟩, ⟨_, _, rfl, rfl, by decide +kernel, by decide +kernel⟩⟩

/-- Capitals of Noto Sans, 714 units high, stay in the line. -/
example : 70 * (714 : Int) ≤ 100 * notoSans.ascender - 36 * (notoSans.ascender - notoSans.descender) := by decide

/-! ### C108 -/

/-- C108: what holds.  Underline and strikethrough are put where the face says,
scaled to the size the text is drawn at, to about half a pixel; the error is that
of the number of pixels per em, which is rounded to an integer. -/
theorem C108_position_partial (f : SizedFont) (m : SizeMetrics) (hf : f.face.Usual) (hs : f.size < 65536) (hm : f.metrics = some m)
    (e : Nat) (he : effectiveSize f.size f.smallCaps f.subSuper = some e) :
    (|f.face.underlinePos| ≤ f.face.upem →
      |(f.drawMetrics m).underlinePos + (e * f.face.underlinePos : Rat) / (f.face.ascender - f.face.descender)| ≤ 17 / 32) ∧
    (|f.face.underlineThickness| ≤ f.face.upem →
      |(f.drawMetrics m).underlineThickness - (e * f.face.underlineThickness : Rat) / (f.face.ascender - f.face.descender)| ≤ 17 / 32) ∧
    (|f.face.strikeoutPos| ≤ f.face.upem →
      |(f.drawMetrics m).strikePos + (e * f.face.strikeoutPos : Rat) / (f.face.ascender - f.face.descender)| ≤ 17 / 32) ∧
    (|f.face.strikeoutSize| ≤ f.face.upem →
      |(f.drawMetrics m).strikeThickness - (e * f.face.strikeoutSize : Rat) / (f.face.ascender - f.face.descender)| ≤ 17 / 32) := by
  obtain ⟨e', a, d, A, D, he', hle, h, -, -⟩ := SizedFont.sized hf hs hm
  rw [he] at he'
  cases he'
  have key := fun u hu => SizedFont.decoration_bound hf h (u := u) hu
  have hx : (f.face.extent : Rat) = f.face.ascender - f.face.descender := by unfold FaceUnits.extent; push_cast; rfl
  rw [hx] at key
  refine ⟨fun hu => ?_, fun hu => ?_, fun hu => ?_, fun hu => ?_⟩
  · have := key (-f.face.underlinePos) (by rwa [abs_neg])
    push_cast at this
    rw [mul_neg, neg_div, sub_neg_eq_add] at this
    simpa [SizedFont.drawMetrics, SizedFont.getUnderlinePosition] using this
  · exact key _ hu
  · have := key (-f.face.strikeoutPos) (by rwa [abs_neg])
    push_cast at this
    rw [mul_neg, neg_div, sub_neg_eq_add] at this
    simpa [SizedFont.drawMetrics, SizedFont.getStrikethroughPosition] using this
  · exact key _ hu

/-- C108 does not hold for underlines: FreeType gives the position of the middle
of the stroke, and `draw_text` puts the top of the rectangle there.  Once the
stroke is two pixels wide, the middle of the rectangle is too low. -/
theorem C108_underline_violated (f : SizedFont) (m : SizeMetrics) (hf : f.face.Usual) (hs : f.size < 65536) (hm : f.metrics = some m)
    (e : Nat) (he : effectiveSize f.size f.smallCaps f.subSuper = some e)
    (hp : |f.face.underlinePos| ≤ f.face.upem) (ht : f.face.underlineThickness ≤ f.face.upem)
    (hw : 2 * (f.face.ascender - f.face.descender) ≤ e * f.face.underlineThickness) :
    -((e * f.face.underlinePos : Rat) / (f.face.ascender - f.face.descender)) + 2 / 5 <
      (f.drawMetrics m).underlinePos + ((f.drawMetrics m).underlineThickness + 1 / 2) / 2 := by
  have hh : (0 : Rat) < f.face.ascender - f.face.descender := by exact_mod_cast hf.height
  have ht0 : 0 ≤ f.face.underlineThickness := by
    by_contra hc
    have := hf.height
    have : (e : Int) * f.face.underlineThickness ≤ 0 := mul_nonpos_of_nonneg_of_nonpos (by omega) (by omega)
    omega
  obtain ⟨h1, h2, -, -⟩ := C108_position_partial f m hf hs hm e he
  have h1 := abs_le.1 (h1 hp)
  have h2 := abs_le.1 (h2 (by rw [abs_of_nonneg ht0]; exact ht))
  have hw' : (2 : Rat) ≤ (e * f.face.underlineThickness : Rat) / (f.face.ascender - f.face.descender) := by
    rw [le_div_iff₀ hh]
    exact_mod_cast hw
  linarith [h1.1, h2.1]

/-- C108 does not hold for superscript text: its glyphs are raised, its
strikethrough is not, and lies below the baseline of the text it strikes. -/
theorem C108_strikethrough_violated (f : SizedFont) (m : SizeMetrics) (hf : f.face.Usual) (h0 : 9 ≤ f.size) (hs : f.size < 65536)
    (hsub : f.subscript = false) (hsup : f.superscript = true) (hm : f.metrics = some m)
    (h1 : 0 ≤ f.face.strikeoutPos ∧ f.face.strikeoutPos ≤ f.face.upem)
    (h2 : 5 * f.face.strikeoutPos ≤ 2 * (f.face.ascender - f.face.descender)) :
    f.baselineOffset < (f.drawMetrics m).strikePos := by
  have hss : f.subSuper = true := by simp [SizedFont.subSuper, hsup]
  obtain ⟨e, a, d, A, D, he, hle, h, -, -⟩ := SizedFont.sized hf hs hm
  have he' : 10 * e ≤ 7 * f.size := by
    cases hc : f.smallCaps <;> rw [hc, hss] at he
    · rw [effective_subSuper (by omega)] at he; cases he; omega
    · rw [effective_both (by omega)] at he; cases he; omega
  obtain ⟨-, -, h3, -⟩ := C108_position_partial f m hf hs hm e he
  have h3 := abs_le.1 (h3 (by rw [abs_of_nonneg h1.1]; exact h1.2))
  have hb2 := abs_le.1 (SizedFont.offset_superscript hsup hsub hs)
  have hh : (0 : Rat) < f.face.ascender - f.face.descender := by exact_mod_cast hf.height
  have q1 : (10 : Rat) * e ≤ 7 * f.size := by exact_mod_cast he'
  have q2 : (e * f.face.strikeoutPos : Rat) / (f.face.ascender - f.face.descender) ≤ 2 / 5 * e := by
    rw [div_le_iff₀ hh]
    have : 5 * (f.face.strikeoutPos : Rat) ≤ 2 * (f.face.ascender - f.face.descender) := by exact_mod_cast h2
    have := mul_le_mul_of_nonneg_left this (Nat.cast_nonneg (α := Rat) e)
    linarith
  have q3 : (9 : Rat) ≤ f.size := by exact_mod_cast h0
  have q5 : (f.size : Rat) < 65536 := by exact_mod_cast hs
  unfold SizedFont.superscriptRatio at hb2
  linarith [h3.1, hb2.2]

/-- Noto Sans at 96, with an underline of four pixels; superscript at 48: baseline raised by 16 pixels,
strikethrough less than 9 pixels above the baseline of the line. -/
example : 2 * (notoSans.ascender - notoSans.descender) ≤ (96 : Nat) * notoSans.underlineThickness ∧
    5 * notoSans.strikeoutPos ≤ 2 * (notoSans.ascender - notoSans.descender) ∧
    (notoSuper 48).baselineOffset < -16 ∧
    (∃ x, (notoSuper 48).metrics.map (notoSuper 48).getStrikethroughPosition = some x ∧ -9 < x) := by
  refine ⟨by decide, by decide, by decide +kernel, ⟨_, rfl, by decide +kernel⟩⟩

end RichText
