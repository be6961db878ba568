import Verif.Proof.RefBuilder
/-! Lemmas on the visual runs of the builder of the regression test (Model/RefBuilder.lean). -/
namespace RichText
variable {β φ : Type _}

/-! ### Glyphs -/

/-- Positions from `j` on belong to the glyphs `idx`. -/
def Follows (b : Shaped φ) (rb : RefShaped φ) : List Nat → Nat → Prop
  | [], _ => True
  | i :: t, j => (∃ a a' c c', rb.positions[j]? = some (a, c) ∧ rb.positions[j + 1]? = some (a', c') ∧
      b.widths[i]? = some (a' - a) ∧ b.secondary[i]? = some c) ∧ Follows b rb t (j + 1)

/-- The same glyphs at the same places. -/
theorem Follows.emit {b : Shaped φ} {rb : RefShaped φ} (hg : rb.glyphs = b.glyphs) (hc : rb.charIdx = b.charIdx) :
    ∀ (idx : List Nat) (j : Nat) (w : Int) (p0 : Int × Int), Follows b rb idx j →
      (∀ i ∈ idx, i < b.glyphs.length ∧ i < b.charIdx.length) → rb.positions[j]? = some p0 →
      ∃ gs p1, rb.positions[j + idx.length]? = some p1 ∧
        emitGlyphs b b.widths false idx w = some (gs, w - p0.1 + p1.1) ∧ refEmit rb (w - p0.1) idx j = some gs
  | [], j, w, p0, _, _, h0 => ⟨[], p0, h0, by simp [emitGlyphs], rfl⟩
  | i :: t, j, w, p0, h, hi, h0 => by
    obtain ⟨⟨a, a', c, c', h1, h2, h3, h4⟩, ht⟩ := h
    obtain ⟨i1, i2⟩ := hi i (List.mem_cons_self ..)
    rw [h1] at h0
    simp only [Option.some.injEq] at h0
    subst h0
    obtain ⟨gs, p1, k1, k2, k3⟩ := Follows.emit hg hc t (j + 1) (w + (a' - a)) (a', c') ht
      (fun i hi' => hi i (List.mem_cons_of_mem _ hi')) h2
    have e1 : b.glyphs[i]? = some b.glyphs[i] := List.getElem?_eq_getElem i1
    have e2 : b.charIdx[i]? = some b.charIdx[i] := List.getElem?_eq_getElem i2
    simp only at k2 k3
    rw [show w + (a' - a) - a' = w - a by omega] at k2 k3
    refine ⟨⟨b.glyphs[i], b.charIdx[i], (w : Rat) / 64, (c : Rat) / 64⟩ :: gs, p1, ?_, ?_, ?_⟩
    · rw [← k1, List.length_cons]; congr 1; omega
    · rw [emitGlyphs, e1, e2, h4, h3]
      simp only [k2, Option.map_some, placeAt, Bool.false_eq_true, if_false]
    · rw [refEmit, hg, hc, e1, e2, h1]
      simp only [k3, Option.map_some]
      rw [show a + (w - a) = w by omega]

theorem follows_range {b : Shaped φ} {rb : RefShaped φ} : ∀ (n vf j : Nat),
    (∀ m, m < n → ∃ a a' c c', rb.positions[j + m]? = some (a, c) ∧ rb.positions[j + m + 1]? = some (a', c') ∧
      b.widths[vf + m]? = some (a' - a) ∧ b.secondary[vf + m]? = some c) →
    Follows b rb (List.range' vf n) j
  | 0, _, _, _ => trivial
  | n + 1, vf, j, h => by
    rw [List.range'_succ]
    refine ⟨by simpa using h 0 (by omega), follows_range n (vf + 1) (j + 1) ?_⟩
    intro m hm
    have := h (m + 1) (by omega)
    rwa [show j + (m + 1) = j + 1 + m by omega, show vf + (m + 1) = vf + 1 + m by omega] at this

theorem follows_reverse {b : Shaped φ} {rb : RefShaped φ} : ∀ (n vf j : Nat),
    (∀ m, m < n → ∃ a a' c c', rb.positions[j + m]? = some (a, c) ∧ rb.positions[j + m + 1]? = some (a', c') ∧
      b.widths[vf + (n - 1 - m)]? = some (a' - a) ∧ b.secondary[vf + (n - 1 - m)]? = some c) →
    Follows b rb (List.range' vf n).reverse j
  | 0, _, _, _ => trivial
  | n + 1, vf, j, h => by
    rw [List.range'_concat, List.reverse_append]
    refine ⟨?_, follows_reverse n vf (j + 1) ?_⟩
    · have := h 0 (by omega)
      simpa using this
    · intro m hm
      have := h (m + 1) (by omega)
      rwa [show j + (m + 1) = j + 1 + m by omega, show n + 1 - 1 - (m + 1) = n - 1 - m by omega] at this

/-! ### One visual run -/

theorem Sim.shapedOK {e : ParaEnv β φ} {s off : Nat} {qs : List (Sub β φ)} {b u : Shaped φ} {rb : RefShaped φ}
    (h : Sim e s off qs b u rb) (hlt : s < off) : ShapedOK s off b.finish ∧ ShapedOK s off u.finish := by
  constructor
  · refine ⟨h.shaping.charIdx, h.shaping.widths, ?_, h.shaping.sorted, h.shaping.runs.resolve_left (by omega), h.shaping.inside⟩
    simp [Shaped.finish, h.shaping.secondary]
  · refine ⟨h.shapingU.charIdx, h.shapingU.widths, ?_, h.shapingU.sorted, h.shapingU.runs.resolve_left (by omega),
      h.shapingU.inside⟩
    simp [Shaped.finish, h.shapingU.secondary]

theorem logicalFirst_abs (runs : List (RefRun φ)) (s k : Nat) :
    logicalFirstGlyph (runs.map (·.toLogicalRun)) k = logicalFirstGlyph (runs.map (RefRun.abs s)) k := by
  cases k with
  | zero => rfl
  | succ k =>
    simp only [logicalFirstGlyph, List.getElem?_map]
    cases runs[k]? <;> rfl

theorem logicalFirst_eq {runs : List (LogicalRun φ)} {k : Nat} {r : LogicalRun φ} (h : runs[k]? = some r) :
    logicalFirstGlyph runs k = some (runFirstGlyph runs k) := by
  cases k with
  | zero => rfl
  | succ k =>
    have := (List.getElem?_eq_some_iff.1 h).1
    have e1 := List.getElem?_eq_getElem (show k < runs.length by omega)
    simp [logicalFirstGlyph, runFirstGlyph, e1]

/-- The glyphs of a visual run are glyphs of its logical run. -/
theorem pieceGlyphs_bounds {s e : Nat} {b : Shaped φ} (h : ShapedOK s e b) {p : VisualPiece} {vf vl : Nat}
    {r : LogicalRun φ} (hr : b.runs[p.run]? = some r) (hp : pieceGlyphs b p = some (vf, vl)) :
    runFirstGlyph b.runs p.run ≤ vf ∧ vf ≤ vl ∧ vl ≤ r.glyphEnd := by
  have h1 := h.runs.glyphs _ r hr
  have h2 := (h.runs.le_last hr).2
  unfold pieceGlyphs at hp
  rw [logicalFirst_eq hr, hr] at hp
  simp only at hp
  obtain ⟨g, g1, g2, g3, _⟩ := search_part h.sorted (fun c => decide (c < p.first))
    (by intro c c' hcc hc; simp only [decide_eq_true_eq] at *; omega)
    (first := runFirstGlyph b.runs p.run) (count := r.glyphEnd - runFirstGlyph b.runs p.run) (by rw [h.charIdx]; omega)
  rw [g1] at hp
  simp only [Option.bind_some] at hp
  obtain ⟨g', k1, k2, k3, _⟩ := search_part h.sorted (fun c => decide (c ≤ p.last))
    (by intro c c' hcc hc; simp only [decide_eq_true_eq] at *; omega)
    (first := g) (count := r.glyphEnd - g) (by rw [h.charIdx]; omega)
  rw [k1] at hp
  simp only [Option.map_some, Option.some.injEq, Prod.mk.injEq] at hp
  omega

/-- `P` over merged, `p` over unmerged logical runs are the same visual run. -/
structure PieceMatch (s : Nat) (b u : Shaped φ) (rb : RefShaped φ) (P p : VisualPiece) : Prop where
  first : P.first = p.first
  last : P.last = p.last
  rtl : P.rtl = p.rtl
  inside : P.Inside s b.runs
  insideU : p.Inside s u.runs
  run : ∃ r : RefRun φ, rb.runs[p.run]? = some r ∧ r.rtl = p.rtl ∧
    ∀ R : LogicalRun φ, b.runs[P.run]? = some R → R.font = r.font

theorem range'_of_iff {a n a' n' : Nat} (h : ∀ i, (a ≤ i ∧ i < a + n) ↔ (a' ≤ i ∧ i < a' + n')) :
    List.range' a n = List.range' a' n' := by
  rcases Nat.eq_zero_or_pos n with rfl | hn
  · rcases Nat.eq_zero_or_pos n' with rfl | hn'
    · rfl
    · have := h a'; omega
  · have h1 := h a
    have h2 := h (a + n - 1)
    have h3 := h a'
    have h4 := h (a' + n' - 1)
    obtain rfl : a = a' := by omega
    obtain rfl : n = n' := by omega
    rfl

/-- No vertical offsets anywhere. -/
def FlatData (b : Shaped φ) (rb : RefShaped φ) : Prop :=
  (∀ c ∈ b.secondary, c = 0) ∧ ∀ p ∈ rb.positions, p.2 = 0

theorem Sim.visualRun {e : ParaEnv β φ} {s off : Nat} {qs : List (Sub β φ)} {b u : Shaped φ} {rb : RefShaped φ}
    (h : Sim e s off qs b u rb) (hlt : s < off) {P p : VisualPiece} (hm : PieceMatch s b u rb P p) (w : Int) :
    ∃ op op' w', visualRun b.finish b.finish.widths false P w = some (op, w') ∧ refRun rb p w = some (op', w') ∧
      op.flatEnd = op'.flatEnd ∧ (FlatData b rb → op = op') := by
  obtain ⟨ok, okU⟩ := h.shapedOK hlt
  obtain ⟨r, hr, hrr, hfont⟩ := hm.run
  have hur : u.runs[p.run]? = some (r.abs s) := by rw [h.runs, List.getElem?_map, hr]; rfl
  obtain ⟨vf, vl, a1, a2, a3, a4⟩ := pieceGlyphs_spec okU (p := p) hm.insideU
  obtain ⟨vf', vl', b1, b2, b3, b4⟩ := pieceGlyphs_spec ok (p := P) hm.inside
  obtain ⟨c1, c2, c3⟩ := pieceGlyphs_bounds okU (r := r.abs s) hur a1
  have hhas : ∀ i, u.finish.Has p i ↔ b.finish.Has P i := by
    intro i
    unfold Shaped.Has
    rw [hm.first, hm.last]
    simp only [Shaped.finish, h.charIdx]
  have hrange : List.range' vf' (vl' - vf') = List.range' vf (vl - vf) := by
    apply range'_of_iff
    intro i
    have := a4 i
    have := b4 i
    have := hhas i
    rw [show vf' + (vl' - vf') = vl' by omega, show vf + (vl - vf) = vl by omega, ← a4, ← b4, hhas]
  have hge : (r.abs s).glyphEnd = r.glyphEnd := rfl
  have hlf : logicalFirstGlyph (rb.runs.map (·.toLogicalRun)) p.run = some (runFirstGlyph u.runs p.run) := by
    rw [logicalFirst_abs rb.runs s, ← h.runs, logicalFirst_eq hur]
  have hrg : RichText.refGlyphs rb p = some (vf, vl) := by
    rw [← a1]
    unfold RichText.refGlyphs pieceGlyphs
    rw [hlf, hr]
    have e1 : logicalFirstGlyph u.finish.runs p.run = some (runFirstGlyph u.runs p.run) := logicalFirst_eq hur
    have e2 : u.finish.runs[p.run]? = some (r.abs s) := hur
    have e3 : u.finish.charIdx = rb.charIdx := by rw [h.refCharIdx, ← h.charIdx]; rfl
    rw [e1, e2]
    simp only [e3]
    rfl
  have hf : runFirstGlyph u.finish.runs p.run = runFirstGlyph u.runs p.run := rfl
  rw [hf] at c1
  obtain ⟨lf, hlfe⟩ : ∃ lf, lf = runFirstGlyph u.runs p.run := ⟨_, rfl⟩
  have hpl := h.placed p.run r hr
  rw [← hlfe] at hlf c1 hpl
  have hgl : r.glyphEnd ≤ b.glyphs.length := by
    have := (okU.runs.le_last (i := p.run) (r := r.abs s) hur).2
    have e1 : u.finish.glyphs = b.glyphs := h.glyphs
    rw [e1] at this
    exact this
  have hkl : p.run < rb.runs.length := (List.getElem?_eq_some_iff.1 hr).1
  have hfp : (if p.run = 0 then 0 else lf + p.run) = lf + p.run := by
    split
    · rename_i h0
      rw [h0] at hlfe ⊢
      simp only [runFirstGlyph] at hlfe
      omega
    · rfl
  -- the positions
  obtain ⟨first, hfirst⟩ : ∃ first, first = if r.rtl then lf + (r.glyphEnd - vl) else vf := ⟨_, rfl⟩
  obtain ⟨last, hlast⟩ : ∃ last, last = if r.rtl then r.glyphEnd - (vf - lf) else vl := ⟨_, rfl⟩
  have hll : lf ≤ first ∧ first ≤ last ∧ last ≤ r.glyphEnd ∧ last - first = vl - vf := by
    rw [hge] at c3
    rw [hfirst, hlast]
    split <;> omega
  obtain ⟨d1, d2, d3, d4⟩ := hll
  have hcount := h.count
  rw [h.refGlyphs] at hcount
  have e0 : rb.positions[lf + p.run + (first - lf)]? = some (rb.positions[lf + p.run + (first - lf)]'(by omega)) :=
    List.getElem?_eq_getElem (by omega)
  obtain ⟨p0, hp0⟩ : ∃ p0, rb.positions[lf + p.run + (first - lf)]? = some p0 := ⟨_, e0⟩
  have hfollow : Follows b.finish rb (revIf r.rtl (List.range' vf (vl - vf))) (lf + p.run + (first - lf)) := by
    have hsec : ∀ (i : Nat) (c : Int), b.secondary[i]? = some c → b.finish.secondary[i]? = some c := by
      intro i c hc
      show (b.secondary ++ [b.cursor])[i]? = some c
      rw [List.getElem?_append_left (List.getElem?_eq_some_iff.1 hc).1]; exact hc
    rw [hge] at c3
    cases hrt : r.rtl with
    | false =>
      rw [hrt] at hfirst
      simp only [Bool.false_eq_true, if_false] at hfirst
      apply follows_range
      intro m hm'
      obtain ⟨a, a', c, c', k1, k2, k3, k4⟩ := hpl (vf - lf + m) (by omega)
      rw [hrt] at k3 k4
      simp only [Bool.false_eq_true, if_false] at k3 k4
      refine ⟨a, a', c, c', ?_, ?_, ?_, ?_⟩
      · rw [← k1, hfirst]; congr 1; omega
      · rw [← k2, hfirst]; congr 1; omega
      · rw [← k3, show lf + (vf - lf + m) = vf + m by omega]; rfl
      · apply hsec; rw [← k4]; congr 1; omega
    | true =>
      rw [hrt] at hfirst
      simp only [if_true] at hfirst
      apply follows_reverse
      intro m hm'
      obtain ⟨a, a', c, c', k1, k2, k3, k4⟩ := hpl (r.glyphEnd - vl + m) (by omega)
      rw [hrt] at k3 k4
      simp only [if_true] at k3 k4
      refine ⟨a, a', c, c', ?_, ?_, ?_, ?_⟩
      · rw [← k1, hfirst]; congr 1; omega
      · rw [← k2, hfirst]; congr 1; omega
      · rw [← k3, show r.glyphEnd - 1 - (r.glyphEnd - vl + m) = vf + (vl - vf - 1 - m) by omega]; rfl
      · apply hsec; rw [← k4]; congr 1; omega
  have hbounds : ∀ i ∈ revIf r.rtl (List.range' vf (vl - vf)), i < b.finish.glyphs.length ∧ i < b.finish.charIdx.length := by
    intro i hi
    have hi' := (revIf_perm _ _).mem_iff.1 hi
    rw [List.mem_range'_1] at hi'
    rw [ok.charIdx]
    have : b.finish.glyphs = b.glyphs := rfl
    rw [hge] at c3
    rw [this]
    omega
  obtain ⟨gs, p1, g1, g2, g3⟩ := Follows.emit (b := b.finish) h.refGlyphs h.refCharIdx
    _ _ w p0 hfollow hbounds hp0
  rw [revIf_length, List.length_range', show lf + p.run + (first - lf) + (vl - vf) = lf + p.run + (last - lf) by omega] at g1
  have hPR : P.rtl = r.rtl := by rw [hm.rtl, hrr]
  obtain ⟨_, _, R, hR, _⟩ := hm.inside
  have hsecd : b.finish.secondary[vl']? = some (b.finish.secondary[vl']'(by rw [ok.secondary]; omega)) :=
    List.getElem?_eq_getElem (by rw [ok.secondary]; omega)
  obtain ⟨sec, hsec⟩ : ∃ sec, b.finish.secondary[vl']? = some sec := ⟨_, hsecd⟩
  refine ⟨.run R.font gs (((p1.1 + (w - p0.1) : Int) : Rat) / 64) ((sec : Rat) / 64) p.first (p.last + 1) r.rtl,
    .run r.font gs (((p1.1 + (w - p0.1) : Int) : Rat) / 64) ((p1.2 : Rat) / 64) p.first (p.last + 1) r.rtl,
    w - p0.1 + p1.1, ?_, ?_, ?_, ?_⟩
  · unfold RichText.visualRun
    have hR' : b.finish.runs[P.run]? = some R := hR
    rw [b1, hR']
    simp only
    rw [hrange, hPR, g2, hsec]
    simp only [placeAt, Bool.false_eq_true, if_false, hm.first, hm.last]
    rw [show p1.1 + (w - p0.1) = w - p0.1 + p1.1 by omega]
  · unfold refRun
    rw [hlf, hrg, hr]
    simp only
    rw [hfp, ← hfirst, ← hlast, hp0, g1]
    simp only [g3, Option.map_some]
  · simp only [LayoutOp.flatEnd]
    rw [hfont R hR]
  · intro hz
    have z1 : sec = 0 := by
      have := List.mem_of_getElem? hsec
      simp only [Shaped.finish, List.mem_append, List.mem_singleton] at this
      rcases this with this | this
      · exact hz.1 _ this
      · rw [this]; exact h.cursor
    have z2 : p1.2 = 0 := hz.2 _ (List.mem_of_getElem? g1)
    rw [hfont R hR, z1, z2]

/-! ### One line -/

theorem Sim.visualRuns {e : ParaEnv β φ} {s off : Nat} {qs : List (Sub β φ)} {b u : Shaped φ} {rb : RefShaped φ}
    (h : Sim e s off qs b u rb) (hlt : s < off) {Ps ps : List VisualPiece}
    (hm : List.Forall₂ (PieceMatch s b u rb) Ps ps) : ∀ w : Int,
    ∃ ops ops', visualRuns b.finish b.finish.widths false Ps w = some ops ∧ refRuns rb ps w = some ops' ∧
      ops.map LayoutOp.flatEnd = ops'.map LayoutOp.flatEnd ∧ (FlatData b rb → ops = ops') := by
  induction hm with
  | nil => exact fun w => ⟨[], [], rfl, rfl, rfl, fun _ => rfl⟩
  | @cons P p Ps ps hp ht ih =>
    intro w
    obtain ⟨op, op', w', h1, h2, h3, h4⟩ := h.visualRun hlt hp w
    obtain ⟨ops, ops', k1, k2, k3, k4⟩ := ih w'
    refine ⟨op :: ops, op' :: ops', ?_, ?_, ?_, ?_⟩
    · rw [RichText.visualRuns, h1]; simp only [k1, Option.map_some]
    · rw [refRuns, h2]; simp only [k2, Option.map_some]
    · rw [List.map_cons, List.map_cons, h3, k3]
    · intro hz; rw [h4 hz, k4 hz]

theorem maxMetrics_match {s : Nat} {b u : Shaped φ} {rb : RefShaped φ} (metrics : φ → Metrics) {Ps ps : List VisualPiece}
    (hm : List.Forall₂ (PieceMatch s b u rb) Ps ps) : ∀ m : Metrics,
    maxMetrics b.runs metrics Ps m = maxMetrics (rb.runs.map (·.toLogicalRun)) metrics ps m := by
  induction hm with
  | nil => exact fun m => rfl
  | @cons P p Ps ps hp ht ih =>
    intro m
    obtain ⟨r, hr, _, hfont⟩ := hp.run
    obtain ⟨_, _, R, hR, _⟩ := hp.inside
    rw [maxMetrics, maxMetrics, hR, List.getElem?_map, hr]
    simp only [Option.map_some, hfont R hR]
    exact ih _

theorem highest_match {s : Nat} {b u : Shaped φ} {rb : RefShaped φ} {Ps ps : List VisualPiece}
    (hm : List.Forall₂ (PieceMatch s b u rb) Ps ps) : ∀ (n : Nat) (x : Nat × Int), highest Ps n x = highest ps n x := by
  induction hm with
  | nil => exact fun n x => rfl
  | @cons P p Ps ps hp ht ih =>
    intro n x
    rw [highest, highest, hp.last]
    exact ih _ _

theorem Consecutive.index {e : Nat} : ∀ {l : List (Nat × Nat)} {s k : Nat} {x : Nat × Nat}, Consecutive e s l →
    l[k]? = some x → (k = 0 ∧ x.1 = s) ∨ ∃ m y, k = m + 1 ∧ l[m]? = some y ∧ x.1 = y.2
  | [], _, _, _, _, h => by simp at h
  | a :: t, s, 0, x, hc, h => by
    simp only [List.getElem?_cons_zero, Option.some.injEq] at h
    subst h
    exact Or.inl ⟨rfl, hc.1⟩
  | a :: t, s, k + 1, x, hc, h => by
    rw [List.getElem?_cons_succ] at h
    rcases Consecutive.index hc.2.2 h with ⟨rfl, h1⟩ | ⟨m, y, rfl, h1, h2⟩
    · exact Or.inr ⟨0, a, rfl, rfl, h1⟩
    · exact Or.inr ⟨m + 1, y, rfl, by rw [List.getElem?_cons_succ]; exact h1, h2⟩

/-- The logical run `k` is the part `k`. -/
theorem Sim.sub {e : ParaEnv β φ} {s off : Nat} {qs : List (Sub β φ)} {b u : Shaped φ} {rb : RefShaped φ}
    (h : Sim e s off qs b u rb) {k : Nat} {R : LogicalRun φ} (hk : u.runs[k]? = some R) :
    ∃ (r : RefRun φ) (q : Sub β φ), rb.runs[k]? = some r ∧ R = r.abs s ∧ qs[k]? = some q ∧ r.font = q.font ∧
      R.charEnd = q.stop ∧ r.rtl = e.reversed q.args ∧ runStart s u.runs k = q.first := by
  have key : ∀ (k : Nat) (R : LogicalRun φ), u.runs[k]? = some R → ∃ (r : RefRun φ) (q : Sub β φ), rb.runs[k]? = some r ∧
      R = r.abs s ∧ qs[k]? = some q ∧ r.font = q.font ∧ R.charEnd = q.stop ∧ r.rtl = e.reversed q.args := by
    intro k R hk
    rw [h.runs, List.getElem?_map] at hk
    cases hr : rb.runs[k]? with
    | none => rw [hr] at hk; cases hk
    | some r =>
      rw [hr] at hk
      simp only [Option.map_some, Option.some.injEq] at hk
      have hp := congrArg (fun l => l[k]?) h.pieces
      simp only [List.getElem?_map, hr, Option.map_some] at hp
      cases hq : qs[k]? with
      | none => rw [hq] at hp; cases hp
      | some q =>
        rw [hq] at hp
        simp only [Option.map_some, Option.some.injEq, Prod.mk.injEq] at hp
        have hmem := h.consecutive.mem q.piece.range (List.mem_map_of_mem (List.mem_map_of_mem (List.mem_of_getElem? hq)))
        simp only [FontPiece.range, Sub.piece] at hmem
        refine ⟨r, q, rfl, hk.symm, rfl, hp.1, ?_, hp.2.2⟩
        rw [← hk]
        simp only [RefRun.abs]
        omega
  obtain ⟨r, q, h1, h2, h3, h4, h5, h6⟩ := key k R hk
  refine ⟨r, q, h1, h2, h3, h4, h5, h6, ?_⟩
  have hq' : ((qs.map Sub.piece).map FontPiece.range)[k]? = some (q.first, q.stop) := by
    rw [List.getElem?_map, List.getElem?_map, h3]; rfl
  rcases h.consecutive.index hq' with ⟨rfl, h7⟩ | ⟨m, y, rfl, h7, h8⟩
  · exact h7.symm
  · have hml : m < u.runs.length := by have := (List.getElem?_eq_some_iff.1 hk).1; omega
    have e1 := List.getElem?_eq_getElem hml
    obtain ⟨_, q1, _, _, k3, _, k5, _⟩ := key m _ e1
    rw [List.getElem?_map, List.getElem?_map, k3] at h7
    simp only [Option.map_some, Option.some.injEq] at h7
    simp only [runStart, e1, Option.map_some, Option.getD_some, k5]
    rw [← h7] at h8
    exact h8.symm

theorem forall₂_of_map_eq {α γ δ : Type _} {f : α → δ} {g : γ → δ} {R : α → γ → Prop} : ∀ {l : List α} {l' : List γ},
    l.map f = l'.map g → (∀ a ∈ l, ∀ c ∈ l', f a = g c → R a c) → List.Forall₂ R l l'
  | [], [], _, _ => List.Forall₂.nil
  | [], _ :: _, h, _ => by cases h
  | _ :: _, [], h, _ => by cases h
  | a :: t, c :: t', h, hR => by
    rw [List.map_cons, List.map_cons, List.cons.injEq] at h
    exact List.Forall₂.cons (hR a (List.mem_cons_self ..) c (List.mem_cons_self ..) h.1)
      (forall₂_of_map_eq h.2 fun a ha c hc => hR a (List.mem_cons_of_mem _ ha) c (List.mem_cons_of_mem _ hc))

theorem revIf_map_inj {α γ δ : Type _} {f : α → δ} {g : γ → δ} (r : Bool) {l : List α} {l' : List γ}
    (h : (revIf r l).map f = (revIf r l').map g) : l.map f = l'.map g := by
  cases r with
  | false => exact h
  | true =>
    simp only [revIf, if_true, List.map_reverse] at h
    exact List.reverse_injective h

theorem forall₂_flatMap {α γ δ : Type _} {R : γ → δ → Prop} {f : α → List γ} {g : α → List δ} : ∀ {l : List α},
    (∀ a ∈ l, List.Forall₂ R (f a) (g a)) → List.Forall₂ R (l.flatMap f) (l.flatMap g)
  | [], _ => List.Forall₂.nil
  | a :: t, h => by
    rw [List.flatMap_cons, List.flatMap_cons]
    exact List.rel_append (h a (List.mem_cons_self ..)) (forall₂_flatMap fun a ha => h a (List.mem_cons_of_mem _ ha))

/-- The pieces of a line. -/
theorem Sim.pieces_match {e : ParaEnv β φ} {s off : Nat} {qs : List (Sub β φ)} {b u : Shaped φ} {rb : RefShaped φ}
    (h : Sim e s off qs b u rb) (hes : e.line.start = s) (hlt : s < off) (hoff : off = e.line.start + e.line.length)
    (hq : Comparable e qs) {l : Nat × Nat} (hl1 : s ≤ l.1) (hl2 : l.1 < l.2) (hl3 : l.2 ≤ off)
    (hb : Partition BidiRun.range l.1 l.2 (e.bidi l.1 l.2)) :
    ∃ Ps ps, linePieces b.runs (e.bidi l.1 l.2) = some Ps ∧ refPieces rb s (e.bidi l.1 l.2) = some ps ∧
      List.Forall₂ (PieceMatch s b u rb) Ps ps := by
  obtain ⟨ok, okU⟩ := h.shapedOK hlt
  have hR : LogicalRuns s off b.glyphs.length b.runs := ok.runs
  have hRU : LogicalRuns s off u.glyphs.length u.runs := okU.runs
  have hsame : ∀ f g, e.same f g = true → f = g := fun f g hfg => (hq.same f g).1 hfg
  obtain ⟨f, f1, f2, _⟩ := linePieces_spec hR hl1 hl3 hb
  obtain ⟨g, g1, g2, _⟩ := linePieces_spec hRU hl1 hl3 hb
  have hbm := hb.mem
  have hpos : ∀ r ∈ rb.runs, 0 < r.charEnd := by
    intro r hr
    obtain ⟨k, hk⟩ := List.mem_iff_getElem?.1 hr
    have : u.runs[k]? = some (r.abs s) := by rw [h.runs, List.getElem?_map, hk]; rfl
    have := hRU.start_lt this
    simp only [RefRun.abs] at this
    omega
  have hdir : ∀ r ∈ e.bidi l.1 l.2, ∀ p ∈ g r, ∃ x : RefRun φ, rb.runs[p.run]? = some x ∧ x.rtl = p.rtl ∧
      ∃ q ∈ qs, x.font = q.font ∧ q.first ≤ p.first ∧ p.first < q.stop := by
    intro r hr p hp
    obtain ⟨_, k2, k3⟩ := g1 r hr
    obtain ⟨k4, k5, k6, R, k7, k8⟩ := k3 p hp
    obtain ⟨x, q, j1, j2, j3, j4, j5, j6, j7⟩ := h.sub k7
    have hpm := k2.mem p.range (List.mem_map_of_mem ((revIf_perm _ _).mem_iff.2 hp))
    simp only [VisualPiece.range] at hpm
    refine ⟨x, j1, ?_, q, List.mem_of_getElem? j3, j4, by omega, by omega⟩
    rw [j6, k4]
    exact hq.direction l.1 l.2 (by omega) hl2 (by omega) r hr q (List.mem_of_getElem? j3) (by omega) (by omega)
  have href : refPieces rb s (e.bidi l.1 l.2) = some ((e.bidi l.1 l.2).flatMap g) := by
    rw [h.runs, linePieces_shift hpos _ (fun r hr => by
      have := hbm r hr; simp only [BidiRun.range] at this; omega)] at g2
    unfold refPieces
    cases hlp : linePieces (rb.runs.map (·.toLogicalRun)) ((e.bidi l.1 l.2).map fun r => { r with offset := r.offset - s }) with
    | none => rw [hlp] at g2; cases g2
    | some ts =>
      rw [hlp] at g2
      simp only [Option.map_some, Option.some.injEq] at g2 ⊢
      rw [← g2]
      apply List.map_congr_left
      intro p hp
      have hmem : p.shift s ∈ (e.bidi l.1 l.2).flatMap g := by rw [← g2]; exact List.mem_map_of_mem hp
      obtain ⟨r, hr, hpr⟩ := List.mem_flatMap.1 hmem
      obtain ⟨x, j1, j2, _⟩ := hdir r hr _ hpr
      simp only [VisualPiece.shift] at j1 j2 ⊢
      rw [j1]
      simp [j2]
  refine ⟨_, _, f2, href, ?_⟩
  apply forall₂_flatMap
  intro r hr
  obtain ⟨m1, m2, m3⟩ := hbm r hr
  simp only [BidiRun.range] at m1 m2 m3
  obtain ⟨p1, p2, p3⟩ := f1 r hr
  obtain ⟨q1, q2, q3⟩ := g1 r hr
  have hranges : (revIf r.rtl (f r)).map VisualPiece.range = (revIf r.rtl (g r)).map VisualPiece.range := by
    apply Consecutive.unique p2 q2
    intro x hx1 hx2
    rw [bidi_starts hR (by omega) (by omega) (by omega) p1 x hx1 hx2,
      bidi_starts hRU (by omega) (by omega) (by omega) q1 x hx1 hx2]
    constructor
    · rintro ⟨R, hRm, rfl⟩
      obtain ⟨q, hq1, hq2⟩ := h.grouped.end_mem R hRm
      obtain ⟨q0, hq0, rfl⟩ := List.mem_map.1 hq1
      obtain ⟨k, hk⟩ := List.mem_iff_getElem?.1 hq0
      have hlen : u.runs.length = qs.length := by
        have := congrArg List.length h.pieces
        rw [List.length_map, List.length_map] at this
        rw [h.runs, List.length_map, this]
      have hkl : k < u.runs.length := by rw [hlen]; exact (List.getElem?_eq_some_iff.1 hk).1
      obtain ⟨_, q', _, _, j3, _, j5, _⟩ := h.sub (List.getElem?_eq_getElem hkl)
      rw [hk] at j3
      simp only [Option.some.injEq] at j3
      subst j3
      exact ⟨_, List.getElem_mem hkl, by rw [j5, hq2]; rfl⟩
    · rintro ⟨R, hRm, rfl⟩
      obtain ⟨k, hk⟩ := List.mem_iff_getElem?.1 hRm
      obtain ⟨_, q, _, _, j3, _, j5, _⟩ := h.sub hk
      obtain ⟨k', R', hk', i1, i2⟩ := hRU.find (x := R.charEnd) (by omega) (by omega)
      obtain ⟨_, q', _, _, j3', _, _, _, j7'⟩ := h.sub hk'
      have hst : runStart s u.runs k' = R.charEnd := by
        rcases hRU.no_end_inside hk' hRm with h9 | h9 <;> omega
      have hx : q.stop = q'.first := by omega
      have hne := hq.fonts l.1 l.2 (by omega) hl2 (by omega) r hr q (List.mem_of_getElem? j3) q'
        (List.mem_of_getElem? j3') hx (by omega) (by omega)
      obtain ⟨R2, y1, y2⟩ := h.grouped.end_of_ne hsame h.consecutive hR (q := q.piece) (q' := q'.piece)
        (List.mem_map_of_mem (List.mem_of_getElem? j3)) (List.mem_map_of_mem (List.mem_of_getElem? j3')) hx hne
      exact ⟨R2, y1, by rw [y2, j5]; rfl⟩
  refine forall₂_of_map_eq (revIf_map_inj _ hranges) ?_
  intro P hP p hp hPp
  simp only [VisualPiece.range, Prod.mk.injEq] at hPp
  obtain ⟨P1, P2⟩ := p3 P hP
  obtain ⟨q4, q5⟩ := q3 p hp
  obtain ⟨x, x1, x2, q, x3, x4, x5, x6⟩ := hdir r hr p hp
  refine ⟨hPp.1, by omega, by rw [P1, q4], P2, q5, x, x1, x2, ?_⟩
  intro R hRk
  obtain ⟨z1, z2, R', z3, z4⟩ := P2
  rw [hRk] at z3
  simp only [Option.some.injEq] at z3
  subst z3
  rw [x4]
  exact (h.grouped.font h.consecutive P.run R hRk q.piece (List.mem_map_of_mem x3) p.first x5 x6 (by omega) (by omega)).elim
    id (hsame _ _)

/-! ### All lines -/

theorem Sim.lines {e : ParaEnv β φ} {s off : Nat} {qs : List (Sub β φ)} {b u : Shaped φ} {rb : RefShaped φ}
    (h : Sim e s off qs b u rb) (hes : e.line.start = s) (hlt : s < off) (hoff : off = e.line.start + e.line.length)
    (hq : Comparable e qs)
    (hb : ∀ s t, e.line.start ≤ s → s < t → t ≤ e.line.start + e.line.length → Partition BidiRun.range s t (e.bidi s t)) :
    ∀ ls : List (Nat × Nat), (∀ l ∈ ls, s ≤ l.1 ∧ l.1 < l.2 ∧ l.2 ≤ off) →
    ∃ ops ops' Ps ps, linesOps e b.finish (ls.map fun l => ⟨l.1, l.2, b.finish.widths⟩) = some (ops, Ps) ∧
      refLinesOps e rb ls = some (ops', ps) ∧ List.Forall₂ (PieceMatch s b u rb) Ps ps ∧
      ops.map LayoutOp.flatEnd = ops'.map LayoutOp.flatEnd ∧ (FlatData b rb → ops = ops')
  | [], _ => ⟨[], [], [], [], rfl, rfl, List.Forall₂.nil, rfl, fun _ => rfl⟩
  | l :: t, hl => by
    obtain ⟨l1, l2, l3⟩ := hl l (List.mem_cons_self ..)
    obtain ⟨ops, ops', Ps, ps, h1, h2, h3, h4, h5⟩ := h.lines hes hlt hoff hq hb t fun l hl' => hl l (List.mem_cons_of_mem _ hl')
    obtain ⟨Qs, qs', k1, k2, k3⟩ := h.pieces_match hes hlt hoff hq l1 l2 l3 (hb _ _ (by omega) l2 (by omega))
    obtain ⟨o, o', j1, j2, j3, j4⟩ := h.visualRuns hlt k3 0
    obtain ⟨m, hm⟩ := maxMetrics_defined (s := s) (runs := b.runs) e.metrics Qs ⟨0, 0⟩ (by
      intro P hP
      obtain ⟨i, hi⟩ := List.mem_iff_getElem?.1 hP
      obtain ⟨_, _, hR⟩ := forall₂_get k3 i P hi
      exact hR.inside)
    have hm' := hm
    rw [maxMetrics_match e.metrics k3] at hm'
    refine ⟨o ++ [.line (m.ascent - m.descent) m.ascent] ++ ops, o' ++ [.line (m.ascent - m.descent) m.ascent] ++ ops',
      Qs ++ Ps, qs' ++ ps, ?_, ?_, List.rel_append k3 h3, ?_, ?_⟩
    · have hline : lineOps e b.finish ⟨l.1, l.2, b.finish.widths⟩ =
          some (o ++ [.line (m.ascent - m.descent) m.ascent], Qs) := by
        unfold lineOps
        have e1 : b.finish.runs = b.runs := rfl
        simp only [e1, k1, Option.bind_some, hq.horizontal, j1, hm, Option.map_some]
      rw [List.map_cons, linesOps, hline, h1]
    · have hline : refLineOps e rb l = some (o' ++ [.line (m.ascent - m.descent) m.ascent], qs') := by
        unfold refLineOps
        rw [hes]
        simp only [k2, Option.bind_some, j2, hm', Option.map_some]
      rw [refLinesOps, hline, h2]
    · simp only [List.map_append, j3, h4]
    · intro hz; rw [j4 hz, h5 hz]

/-! ### Paragraphs -/

theorem refParagraph_spec {e : ParaEnv β φ} {calls : List (Nat × β)} (h : e.OK calls) {qs : List (Sub β φ)}
    (hs : Subs e.toShapeEnv calls e.line.start qs) (hq : Comparable e qs) (n : Nat) :
    ∃ ops ops' hi m, buildParagraph e calls n = some (ops, hi, m) ∧
      refParagraph e (qs.map (Sub.ref e.line.start)) n = some (ops', hi, m) ∧
      ops.map LayoutOp.flatEnd = ops'.map LayoutOp.flatEnd ∧ (e.toShapeEnv.Level → ops = ops') := by
  have hne := h.nonempty
  obtain ⟨off, b, u, rb, h1, h2, hsim⟩ := Sim.run h.contract hq.horizontal hq.noTabs hq.flat hq.glyphs hs
    (Nat.le_refl _) (Sim.init e e.line.start)
  rw [Nat.sub_self] at h2
  rw [List.nil_append] at hsim
  obtain ⟨B, _, g1, g2, _⟩ := shapeParagraph_spec h.contract h.calls (by omega)
  have hB : shapeParagraph e calls = some b.finish := by unfold shapeParagraph; rw [h1]; rfl
  rw [hB] at g1
  simp only [Option.some.injEq] at g1
  subst g1
  have hoff : off = e.line.start + e.line.length := by
    rcases hsim.shaping.runs with ⟨_, hr, _⟩ | hr
    · exact absurd hr g2.runs.nonempty
    · have r1 := hr.lastChar
      have r2 : b.runs.getLast?.map (·.charEnd) = some (e.line.start + e.line.length) := g2.runs.lastChar
      rw [r1] at r2
      exact Option.some.inj r2
  have hlen : b.finish.widths.length = b.finish.charIdx.length := by rw [g2.widths, g2.charIdx]
  have hin : e.line.Inside b.finish.charIdx := by
    intro c hc
    obtain ⟨i, hi⟩ := List.mem_iff_getElem?.1 hc
    exact g2.char_inside hi
  obtain ⟨ls, hls⟩ := paragraphLines_defined h.breaks h.decodes hin hlen (Or.inl fun c _ => hq.noTabs' c)
  have hcons := paragraphLines_consecutive h.breaks hin hne hls
  have hls' := hls
  rw [paragraphLines_ref h.decodes hq.noTabs' hlen] at hls'
  simp only [Option.map_eq_some_iff] at hls'
  obtain ⟨rl, hrl, rfl⟩ := hls'
  have hranges : lineRanges (rl.map fun l => (⟨l.1, l.2, b.finish.widths⟩ : BrokenLine)) = rl := by
    unfold lineRanges
    rw [List.map_map]
    conv_rhs => rw [← List.map_id rl]
    rfl
  rw [hranges] at hcons
  obtain ⟨ops, ops', Ps, ps, k1, k2, k3, k4, k5⟩ := hsim.lines rfl (by omega) hoff hq h.bidi rl (by
    intro l hl
    have := hcons.mem l hl
    omega)
  refine ⟨ops, ops', (highest Ps n (0, -2147483648)).1, n + Ps.length, ?_, ?_, k4, fun hz => k5 (hsim.level hz)⟩
  · unfold buildParagraph
    rw [hB]
    simp only [Option.bind_some, hls, k1, Option.map_some]
  · unfold refParagraph
    rw [h2]
    have e1 : rb.charIdx = b.finish.charIdx := hsim.refCharIdx
    have e2 : rb.widths = b.finish.widths := hsim.refWidths
    simp only [Option.bind_some]
    rw [e1, e2, hrl]
    simp only [Option.bind_some, k2, Option.map_some]
    rw [highest_match k3, k3.length_eq]

/-! ### The whole text -/

theorem refParagraphs_spec {count : Nat} : ∀ {ps : List (Paragraph β φ)} {ps' : List (RefPara β φ)} {offset : Nat},
    Paragraphs count offset ps → (∀ p, ps.getLast? = some p → p.separator = 0) → List.Forall₂ SamePara ps ps' → ∀ n,
    ∃ ops ops', paragraphsOps count ps offset n = some ops ∧ refParagraphs count ps' offset n = some ops' ∧
      ops.map LayoutOp.flatEnd = ops'.map LayoutOp.flatEnd ∧ ((∀ p ∈ ps, p.env.toShapeEnv.Level) → ops = ops')
  | [], _, _, _, _, .nil, _ => ⟨[], [], rfl, rfl, rfl, fun _ => rfl⟩
  | p :: t, p' :: t', offset, hp, hlast, .cons hs ht, n => by
    obtain ⟨a1, a2, a3, a4, a5⟩ := hp
    have hlast' : ∀ p, t.getLast? = some p → p.separator = 0 := by
      intro x hx
      apply hlast
      cases t with
      | nil => cases hx
      | cons y t => rw [List.getLast?_cons_cons]; exact hx
    have hpara : ∃ ops ops' hi m, paragraphOps p offset n = some (ops, hi, m) ∧
        (if p'.length - p'.separator > 0 then refParagraph p'.env p'.pieces n
          else some ([.emptyLine p'.defaultFont offset (p'.defaultMetrics.ascent - p'.defaultMetrics.descent)
            p'.defaultMetrics.ascent], n, n + 1)) = some (ops', hi, m) ∧
        ops.map LayoutOp.flatEnd = ops'.map LayoutOp.flatEnd ∧ (p.env.toShapeEnv.Level → ops = ops') := by
      unfold paragraphOps
      rw [hs.length, hs.separator]
      by_cases h0 : p.length - p.separator > 0
      · rw [if_pos h0, if_pos h0]
        obtain ⟨he, qs, q1, q2, q3⟩ := hs.env h0
        rw [he, q3]
        exact refParagraph_spec (a4 h0).1 q1 q2 n
      · rw [if_neg h0, if_neg h0, hs.font, hs.metrics]
        exact ⟨_, _, _, _, rfl, rfl, rfl, fun _ => rfl⟩
    obtain ⟨ops, ops', hi, m, h1, h2, h3, h4⟩ := hpara
    have hfin : finalLine p offset count m = [] := by
      unfold finalLine
      rw [if_neg]
      rintro ⟨b1, b2⟩
      cases t with
      | nil => have := hlast p rfl; omega
      | cons y t => have := (Paragraphs.le a5).2 (by simp); omega
    have hsep : (if offset + p'.length = count then 0 else p'.separator) = p.separator := by
      rw [hs.length, hs.separator]
      split
      · cases t with
        | nil => exact (hlast p rfl).symm
        | cons y t => have := (Paragraphs.le a5).2 (by simp); omega
      · rfl
    obtain ⟨rest, rest', k1, k2, k3, k4⟩ := refParagraphs_spec a5 hlast' ht m
    refine ⟨ops ++ [.setOffset hi p.separator] ++ [] ++ rest, ops' ++ [.setOffset hi p.separator] ++ rest', ?_, ?_, ?_, ?_⟩
    · rw [paragraphsOps, h1]
      simp only [hfin, List.isEmpty_nil, if_true, k1, Option.map_some]
    · rw [refParagraphs, h2]
      rw [hs.length] at hsep ⊢
      simp only [k2, Option.map_some, hsep]
    · simp only [List.map_append, h3, k3, List.append_nil]
    · intro hz
      rw [h4 (hz p (List.mem_cons_self ..)), k4 fun p hp => hz p (List.mem_cons_of_mem _ hp), List.append_nil]

end RichText
