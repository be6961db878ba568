import Verif.Props.Widen
import Mathlib.Tactic.Linarith
import Mathlib.Tactic.Ring
/-!
C131, the height of a text: with one line height it is no higher in a wider area.
-/
namespace RichText

variable {β φ : Type}

/-- What the call adds to the height of the layout. -/
def LayoutOp.addsHeight : LayoutOp φ → Rat
  | .line h _ => h
  | .emptyLine _ _ h _ => h
  | _ => 0

theorem nextDescent_sum (L : Layout φ) (h : Rat) : L.nextDescent h = L.textHeight + h := by
  unfold Layout.nextDescent Layout.textHeight
  cases L.lines.getLast? with
  | none => exact (Rat.zero_add h).symm
  | some l => rfl

theorem exec_height {op : LayoutOp φ} {L L' : Layout φ} (h : op.exec L = some L') (hc : op ≠ .clear) :
    L'.textHeight = L.textHeight + op.addsHeight := by
  cases op with
  | run font gs ex ey s e rtl =>
    cases h
    have hl : (List.foldl (fun L g => ((L.appendGlyph g.id).appendCharIndex g.char).appendGlyphPosition g.x g.y) L gs).lines = L.lines :=
      foldGlyphs_lines gs L
    show (match (List.foldl _ L gs).lines.getLast? with | none => (0 : Rat) | some l => l.totalDescent) = L.textHeight + 0
    rw [hl, Rat.add_zero]
    rfl
  | line hh a =>
    simp only [LayoutOp.exec, Layout.appendLine] at h
    split at h
    · cases h
    · split at h
      · cases h
      · cases h
        simp only [Layout.textHeight, List.getLast?_concat]
        exact nextDescent_sum L hh
  | emptyLine f c hh a =>
    cases h
    simp only [Layout.textHeight, Layout.appendEmptyLine, List.getLast?_concat]
    exact nextDescent_sum L hh
  | setOffset i o =>
    simp only [LayoutOp.exec, Layout.setRunCharEndOffset] at h
    split at h
    · cases h
    · cases h; exact (Rat.add_zero _).symm
  | startY y => cases h; exact (Rat.add_zero _).symm
  | clear => exact absurd rfl hc

/-- The height of a layout made of lines of one height. -/
theorem execLayout_height {H : Rat} : ∀ {ops : List (LayoutOp φ)} {L L' : Layout φ}, execLayout L ops = some L' →
    (∀ op ∈ ops, op ≠ .clear ∧ op.addsHeight = if op.addsLine then H else 0) →
    L'.textHeight = L.textHeight + (ops.countP (·.addsLine) : Nat) * H
  | [], L, L', h, _ => by cases h; simp
  | op :: t, L, L', h, hc => by
    unfold execLayout at h
    split at h
    · cases h
    · rename_i L1 h1
      obtain ⟨hc1, hc2⟩ := hc op List.mem_cons_self
      rw [execLayout_height h fun o ho => hc o (List.mem_cons_of_mem _ ho), exec_height h1 hc1, hc2, List.countP_cons]
      split
      · push_cast
        ring
      · simp

/-- All fonts of a shaped paragraph have these metrics, with the base line between top and bottom. -/
structure Paragraph.SameMetrics (m : Metrics) (p : Paragraph β φ) : Prop where
  runs : ∀ b, shapeParagraph p.env p.calls = some b → ∀ r ∈ b.runs, p.env.metrics r.font = m
  default : p.defaultMetrics = m
  ascent : 0 ≤ m.ascent
  descent : m.descent ≤ 0

theorem metricsOf_same {runs : List (LogicalRun φ)} {metrics : φ → Metrics} {m m' : Metrics} {s : Nat} {ps : List VisualPiece}
    (hr : ∀ r ∈ runs, metrics r.font = m) (ha : 0 ≤ m.ascent) (hd : m.descent ≤ 0) (hne : ps ≠ [])
    (hin : ∀ p ∈ ps, p.Inside s runs) (h : MetricsOf runs metrics ps m') : m' = m := by
  obtain ⟨p, hp⟩ := List.exists_mem_of_ne_nil _ hne
  obtain ⟨_, _, r, hr1, _⟩ := hin p hp
  have hall : ∀ q ∈ ps, ∀ r : LogicalRun φ, runs[q.run]? = some r → metrics r.font = m :=
    fun q _ r hq => hr r (List.mem_of_getElem? hq)
  obtain ⟨⟨h0, h0'⟩, h1, h2, h3⟩ := h
  have hb := h1 p hp r hr1
  rw [hall p hp r hr1] at hb
  obtain ⟨ma, md⟩ := m'
  simp only at h0 h0' h2 h3 hb
  have e1 : ma = m.ascent := by
    rcases h2 with h2 | ⟨q, hq, r', hq', h2⟩
    · exact le_antisymm (by rw [h2]; exact ha) hb.1
    · rw [h2, hall q hq r' hq']
  have e2 : md = m.descent := by
    rcases h3 with h3 | ⟨q, hq, r', hq', h3⟩
    · exact le_antisymm hb.2 (by rw [h3]; exact hd)
    · rw [h3, hall q hq r' hq']
  rw [e1, e2]

theorem runOps_noLine {b : Shaped φ} {ws : List Int} {v : Bool} : ∀ {before : List Nat} {ps : List VisualPiece}
    {idx : List (List Nat)} {ops : List (LayoutOp φ)}, RunOps b ws v before ps idx ops →
    ∀ op ∈ ops, op ≠ .clear ∧ op.addsHeight = 0 ∧ op.addsLine = false
  | _, [], [], [], _ => by simp
  | _, p :: ps, i :: is, op :: ops, h => by
    obtain ⟨_, h1, h2⟩ := h
    intro o ho
    rcases List.mem_cons.1 ho with rfl | ho
    · obtain ⟨r, gs, s, _, rfl, _⟩ := h1.op
      exact ⟨by simp, rfl, rfl⟩
    · exact runOps_noLine h2 o ho

theorem linesOps_height {e : ParaEnv β φ} {b : Shaped φ} {m : Metrics} (hr : ∀ r ∈ b.runs, e.metrics r.font = m) (ha : 0 ≤ m.ascent)
    (hd : m.descent ≤ 0) : ∀ {ls : List BrokenLine} {ps : List (List VisualPiece)} {idx : List (List (List Nat))}
    {ops : List (LayoutOp φ)}, (∀ l ∈ ls, l.first < l.stop) → LinesOps e b ls ps idx ops →
    ∀ op ∈ ops, op ≠ .clear ∧ op.addsHeight = if op.addsLine then m.ascent - m.descent else 0
  | [], [], [], _, _, h => by
    cases h
    simp
  | l :: ls, p :: ps, i :: is, ops, hl, h => by
    obtain ⟨o, o', rfl, h1, h2⟩ := h
    obtain ⟨runs, m', hm, rfl, hru⟩ := h1.ops
    have hne : p ≠ [] := by
      obtain ⟨q, hq, _⟩ := h1.partition.find (Nat.le_refl _) (hl l List.mem_cons_self)
      exact List.ne_nil_of_mem hq
    have := metricsOf_same hr ha hd hne h1.inside hm
    subst this
    intro op hop
    simp only [List.append_assoc, List.mem_append, List.mem_singleton] at hop
    rcases hop with hop | rfl | hop
    · obtain ⟨g1, g2, g3⟩ := runOps_noLine hru op hop
      rw [g2, g3]
      exact ⟨g1, rfl⟩
    · exact ⟨by simp, rfl⟩
    · exact linesOps_height hr ha hd (fun l hlm => hl l (List.mem_cons_of_mem _ hlm)) h2 op hop

theorem buildParagraph_height {e : ParaEnv β φ} {calls : List (Nat × β)} (h : e.OK calls) {m : Metrics}
    (hm : ∀ b, shapeParagraph e calls = some b → ∀ r ∈ b.runs, e.metrics r.font = m) (ha : 0 ≤ m.ascent)
    (hd : m.descent ≤ 0) {rc : Nat} {r : List (LayoutOp φ) × Nat × Nat} (hr : buildParagraph e calls rc = some r) :
    ∀ op ∈ r.1, op ≠ .clear ∧ op.addsHeight = if op.addsLine then m.ascent - m.descent else 0 := by
  obtain ⟨b, qs, hsh, h2, _⟩ := shapeParagraph_spec h.contract h.calls (by have := h.nonempty; omega)
  have hin : ∀ c ∈ b.charIdx, e.line.start ≤ c ∧ c < e.line.start + e.line.length := by
    intro c hcm
    obtain ⟨i, hi⟩ := List.getElem?_of_mem hcm
    exact h2.char_inside hi
  have hlen : b.widths.length = b.charIdx.length := by rw [h2.widths, h2.charIdx]
  obtain ⟨lines, hl⟩ := C28_defined e.line b.charIdx b.widths h.breaks h.decodes hin hlen
    (h.tabs.imp (fun h' c _ => h' c) fun h' => h'.imp id fun h' => shapeParagraph_scaled h' hsh)
  have hcons := C28_partition e.line b.charIdx b.widths h.breaks hin h.nonempty lines hl
  have hlw : ∀ l ∈ lines, l.widths.length = b.glyphs.length :=
    fun l hlm => by rw [paragraphLines_widths h.breaks hin hl l hlm, h2.widths]
  have hrange := fun l (hlm : l ∈ lines) => parts_ge hcons (l.first, l.stop) (List.mem_map.mpr ⟨l, hlm, rfl⟩)
  obtain ⟨ops, ps, idx, g1, g2, _⟩ := linesOps_spec (e := e) h2 lines e.line.start (Nat.le_refl _) hcons hlw fun l hlm => by
    have := hrange l hlm
    exact h.bidi _ _ this.1 this.2.1 this.2.2
  unfold buildParagraph at hr
  rw [hsh, Option.bind_some, hl, Option.bind_some, g1] at hr
  cases hr
  exact linesOps_height (hm b hsh) ha hd (fun l hlm => (hrange l hlm).2.1) g2

theorem paragraphsOps_height {count : Nat} {m : Metrics} : ∀ {ps : List (Paragraph β φ)} {offset rc : Nat} {ops : List (LayoutOp φ)},
    (∀ p ∈ ps, p.SameMetrics m ∧ (0 < p.length - p.separator → p.env.OK p.calls)) →
    paragraphsOps count ps offset rc = some ops →
    ∀ op ∈ ops, op ≠ .clear ∧ op.addsHeight = if op.addsLine then m.ascent - m.descent else 0
  | [], _, _, _, _, h => by cases h; simp
  | p :: t, offset, rc, ops, hp, h => by
    unfold paragraphsOps at h
    obtain ⟨hm, hok⟩ := hp p List.mem_cons_self
    split at h
    · cases h
    · rename_i r hr
      simp only [Option.map_eq_some_iff] at h
      obtain ⟨rest, hrest, rfl⟩ := h
      intro op hop
      simp only [List.append_assoc, List.mem_append, List.mem_singleton] at hop
      rcases hop with hop | rfl | hop | hop
      · unfold paragraphOps at hr
        split at hr
        · rename_i hl
          exact buildParagraph_height (hok hl) hm.runs hm.ascent hm.descent hr op hop
        · cases hr
          cases List.mem_singleton.1 hop
          exact ⟨by simp, by rw [← hm.default]; rfl⟩
      · exact ⟨by simp, rfl⟩
      · unfold finalLine at hop
        split at hop
        · simp only [List.mem_cons, List.not_mem_nil, or_false] at hop
          rcases hop with rfl | rfl
          · exact ⟨by simp, by rw [← hm.default]; rfl⟩
          · exact ⟨by simp, rfl⟩
        · simp at hop
      · exact paragraphsOps_height (fun q hq => hp q (List.mem_cons_of_mem _ hq)) hrest op hop

/-- A text whose fonts all have the same ascent and descent is no higher in a wider area: its height is that of a line for each line. -/
theorem C131_height (L L0 : Layout φ) (ps : List (Paragraph β φ)) (count : Nat) (yAlign : YAlignment) (H : Rat) (area : Int)
    (m : Metrics) (hs : ∀ p ∈ ps, p.SameMetrics m)
    (hp : ∀ p ∈ ps, 0 < p.length - p.separator → p.Wraps ∧ p.env.line.area ≤ area) (L1 L2 : Layout φ)
    (h1 : buildLayout L ps count yAlign H = some L1)
    (h2 : buildLayout L0 (ps.map (·.withArea area)) count yAlign H = some L2) :
    L2.textHeight ≤ L1.textHeight ∧ L1.textHeight = L1.lines.length * (m.ascent - m.descent) ∧
      L2.textHeight = L2.lines.length * (m.ascent - m.descent) := by
  have hlines := C131_text L L0 ps count yAlign H area hp L1 L2 h1 h2
  unfold buildLayout at h1 h2
  simp only [Option.bind_eq_some_iff, Option.map_eq_some_iff] at h1 h2
  obtain ⟨ops, ho, M, hM, rfl⟩ := h1
  obtain ⟨ops', ho', M', hM', rfl⟩ := h2
  have hM : execLayout L.clear ops = some M := hM
  have hM' : execLayout L0.clear ops' = some M' := hM'
  have g1 := execLayout_height hM (paragraphsOps_height (fun p hpm => ⟨hs p hpm, fun hl => (hp p hpm hl).1.ok⟩) ho)
  have g2 := execLayout_height hM' (paragraphsOps_height (m := m) (by
    intro p hpm
    obtain ⟨q, hq, rfl⟩ := List.mem_map.1 hpm
    have hq1 := hs q hq
    refine ⟨⟨hq1.runs, hq1.default, hq1.ascent, hq1.descent⟩, fun hl => ?_⟩
    have h := (hp q hq hl).1.ok
    exact ⟨h.nonempty, h.contract, h.calls, h.breaks, h.decodes, h.tabs, h.bidi⟩) ho')
  have k1 := execLayout_lines hM (paragraphsOps_kind ho)
  have k2 := execLayout_lines hM' (paragraphsOps_kind ho')
  have e1 : M.textHeight = M.lines.length * (m.ascent - m.descent) := by
    rw [g1, k1]
    show (0 : Rat) + _ = ((0 + _ : Nat) : Rat) * _
    simp
  have e2 : M'.textHeight = M'.lines.length * (m.ascent - m.descent) := by
    rw [g2, k2]
    show (0 : Rat) + _ = ((0 + _ : Nat) : Rat) * _
    simp
  refine ⟨?_, e1, e2⟩
  show M'.textHeight ≤ M.textHeight
  rw [e1, e2]
  have hle : M'.lines.length ≤ M.lines.length := hlines
  by_cases hpe : ps = []
  · subst hpe
    cases ho; cases ho'
    cases hM; cases hM'
    exact le_refl _
  · obtain ⟨p, hpm⟩ := List.exists_mem_of_ne_nil _ hpe
    have hq := hs p hpm
    have h0 : 0 ≤ m.ascent - m.descent := by have := hq.ascent; have := hq.descent; linarith
    exact mul_le_mul_of_nonneg_right (by exact_mod_cast hle) h0

/-- The text of `C131_text`'s example is in one font, and less high in a wider area. -/
example : (∀ p ∈ widenDemo.map (fun p => { p with defaultMetrics := ⟨10, -2⟩ }), p.SameMetrics ⟨10, -2⟩) ∧
    [128, 192, 384].map (fun a => (buildLayout {} (widenDemo.map (fun p => ({ p with defaultMetrics := ⟨10, -2⟩ }).withArea a)) 9 .top 50).map
      (·.textHeight)) = [some 48, some 36, some 24] := by
  refine ⟨?_, by decide +kernel⟩
  have hrun : ∀ b, shapeParagraph tightEnv [(9, (0, false))] = some b → ∀ r ∈ b.runs, tightEnv.metrics r.font = ⟨10, -2⟩ := by
    intro b hb
    have h : (shapeParagraph tightEnv [(9, (0, false))]).map (fun b => b.runs.map (·.font)) = some [0] := by decide +kernel
    rw [hb] at h
    simp only [Option.map_some, Option.some.injEq] at h
    intro r hr
    have := List.mem_map_of_mem (f := fun r : LogicalRun Nat => r.font) hr
    rw [h] at this
    rw [List.mem_singleton.1 this]
    decide +kernel
  have hnil : ∀ b, shapeParagraph tightEnv [] = some b → ∀ r ∈ b.runs, tightEnv.metrics r.font = ⟨10, -2⟩ := by
    intro b hb
    have h : (shapeParagraph tightEnv []).map (fun b => b.runs.map (·.font)) = some [] := by decide +kernel
    rw [hb] at h
    simp only [Option.map_some, Option.some.injEq, List.map_eq_nil_iff] at h
    rw [h]
    simp
  intro p hp
  simp only [widenDemo, List.map_cons, List.map_nil, List.mem_cons, List.not_mem_nil, or_false] at hp
  rcases hp with rfl | rfl
  · exact ⟨hnil, rfl, by decide +kernel, by decide +kernel⟩
  · exact ⟨hrun, rfl, by decide +kernel, by decide +kernel⟩

theorem tightEnv_ok_of {calls : List (Nat × (Nat × Bool))} (hc : CallsTo 9 calls) : tightEnv.OK calls := by
  have h := demoEnv_ok 3 6 (fun s t => [⟨s, t - s, 0⟩]) calls (by omega) hc fun s t h1 h2 h3 =>
    Partition.single (by simp [BidiRun.range]; omega) h2
  exact ⟨h.nonempty, h.contract, h.calls, h.breaks, h.decodes, Or.inl fun _ => rfl, h.bidi⟩

/-- A text in two sizes may be higher in a wider area: two small, two large and two small characters take three lines in an area of two
pixels, of which one is high, and two lines in an area of three pixels, both high. -/
theorem C131_height_violated : ∃ (p : Paragraph (Nat × Bool) Nat) (W W' : Rat), p.Wraps ∧ 1 ≤ W ∧ W < W' ∧
    (buildLayout {} [p.withArea (truncRat (W * 64))] 6 .top 50).map (·.textHeight) = some 76 ∧
    (buildLayout {} [p.withArea (truncRat (W' * 64))] 6 .top 50).map (·.textHeight) = some 104 := by
  have hw := tightEnv_wraps 6 0 5 ⟨10, 4⟩
  refine ⟨⟨6, 0, tightEnv, [(5, (0, false)), (7, (40, false)), (9, (0, false))], 5, ⟨10, 4⟩⟩, 2, 3,
    ⟨tightEnv_ok_of ⟨by decide, rfl⟩, hw.forward, hw.clusters, ?_, hw.area⟩, by decide +kernel, by decide +kernel,
    by decide +kernel, by decide +kernel⟩
  obtain ⟨hF, starts, hK⟩ := demoEnv_placed 3 6 (fun s t => [⟨s, t - s, 0⟩])
  refine ⟨fun _ => True, (· ≤ 6), ⟨fun i _ hi => ⟨Nat.lt_succ_self _, hi, fun _ => trivial⟩, fun i j _ _ _ h => h⟩,
    ⟨fun i hi => hi, Nat.le_refl _, fun i => ?_⟩, fun _ _ => ⟨fun _ _ => trivial,
      fun h => absurd h (show ¬ tightEnv.line.tabPixels = false by decide)⟩⟩
  have he : tightEnv.line.preceding i = if i ≤ 6 then (i : Int) - 1 else 6 := rfl
  show _ ∨ _
  rw [he]
  by_cases hi : i ≤ 6
  · rw [if_pos hi]
    by_cases h0 : i = 0
    · exact Or.inl ⟨by omega, fun b _ => by omega⟩
    · exact Or.inr ⟨i - 1, by omega, by show i - 1 ≤ 6; omega, by omega, fun b _ hb => by omega⟩
  · rw [if_neg hi]
    exact Or.inr ⟨6, rfl, Nat.le_refl _, by omega, fun b hb _ => hb⟩

end RichText
