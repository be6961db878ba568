import Verif.Spec.Paragraph
import Verif.Proof.Shaping
import Verif.Proof.Layout
import Mathlib.Data.List.Forall2
/-! Lemmas on laying out paragraphs (Model/LayoutBuilder.lean). -/
namespace RichText
variable {β φ : Type _}

/-! ### Partitions -/

theorem Partition.nil {α : Type _} {range : α → Nat × Nat} (s : Nat) : Partition range s s [] :=
  ⟨[], List.Perm.nil, rfl⟩

theorem Partition.append {α : Type _} {range : α → Nat × Nat} {s m e : Nat} {l l' : List α}
    (h : Partition range s m l) (h' : Partition range m e l') : Partition range s e (l ++ l') := by
  obtain ⟨a, h1, h2⟩ := h
  obtain ⟨b, h3, h4⟩ := h'
  refine ⟨a ++ b, h1.append h3, ?_⟩
  rw [List.map_append]
  exact h2.append h4

theorem Partition.single {α : Type _} {range : α → Nat × Nat} {s e : Nat} {a : α} (h : range a = (s, e)) (hlt : s < e) :
    Partition range s e [a] := by
  refine ⟨[a], List.Perm.refl _, ?_⟩
  simp only [List.map_cons, List.map_nil, h]
  exact ⟨rfl, hlt, rfl⟩

theorem Partition.mem {α : Type _} {range : α → Nat × Nat} {s e : Nat} {l : List α} (h : Partition range s e l) :
    ∀ a ∈ l, s ≤ (range a).1 ∧ (range a).1 < (range a).2 ∧ (range a).2 ≤ e := by
  obtain ⟨l', h1, h2⟩ := h
  intro a ha
  exact h2.mem _ (List.mem_map_of_mem (h1.mem_iff.2 ha))

theorem Consecutive.find {e s : Nat} {α : Type _} {range : α → Nat × Nat} {l : List α}
    (h : Consecutive e s (l.map range)) {c : Nat} (h1 : s ≤ c) (h2 : c < e) :
    ∃ a ∈ l, (range a).1 ≤ c ∧ c < (range a).2 := by
  induction l generalizing s with
  | nil => simp only [List.map_nil, Consecutive] at h; omega
  | cons a t ih =>
    have e1 : (range a).1 = s := h.1
    rcases Nat.lt_or_ge c (range a).2 with hc | hc
    · exact ⟨a, List.mem_cons_self .., by omega, hc⟩
    · obtain ⟨x, hx, hx'⟩ := ih h.2.2 hc
      exact ⟨x, List.mem_cons_of_mem _ hx, hx'⟩

theorem Partition.find {α : Type _} {range : α → Nat × Nat} {s e : Nat} {l : List α} (h : Partition range s e l)
    {c : Nat} (h1 : s ≤ c) (h2 : c < e) : ∃ a ∈ l, (range a).1 ≤ c ∧ c < (range a).2 := by
  obtain ⟨l', hp, hc⟩ := h
  obtain ⟨a, ha, hx⟩ := hc.find h1 h2
  exact ⟨a, hp.mem_iff.1 ha, hx⟩

theorem Partition.congr {α γ : Type _} {range : α → Nat × Nat} {range' : γ → Nat × Nat} {s e : Nat} :
    ∀ {l : List α} {l' : List γ}, l.map range = l'.map range' → Partition range s e l → Partition range' s e l' := by
  intro l l' hm ⟨a, hp, hc⟩
  have : (a.map range).Perm (l'.map range') := by rw [← hm]; exact hp.map range
  obtain ⟨c, hc1, hc2⟩ : ∃ c : List γ, c.Perm l' ∧ c.map range' = a.map range := by
    clear hc hp hm
    induction a generalizing l' with
    | nil =>
      have := this.symm.eq_nil
      rw [List.map_eq_nil_iff] at this
      exact ⟨[], by rw [this], rfl⟩
    | cons x t ih =>
      have hx : range x ∈ l'.map range' := this.mem_iff.1 (List.mem_cons_self ..)
      obtain ⟨y, hy, hxy⟩ := List.mem_map.1 hx
      obtain ⟨u, v, rfl⟩ := List.append_of_mem hy
      have h2 : (t.map range).Perm ((u ++ v).map range') := by
        simp only [List.map_cons, List.map_append, ← hxy] at this ⊢
        exact (List.perm_cons _).1 (this.trans List.perm_middle)
      obtain ⟨c, h3, h4⟩ := ih h2
      exact ⟨y :: c, ((List.perm_cons y).2 h3).trans List.perm_middle.symm, by simp [h4, hxy]⟩
  exact ⟨c, hc1, by rw [hc2]; exact hc⟩

/-- Ranges of a partition are disjoint. -/
theorem Partition.disjoint {α : Type _} {range : α → Nat × Nat} {s e : Nat} {l : List α} (h : Partition range s e l) :
    l.Pairwise fun a b => ∀ c, (range a).1 ≤ c → c < (range a).2 → (range b).1 ≤ c → c < (range b).2 → False := by
  obtain ⟨l', hp, hc⟩ := h
  have : l'.Pairwise fun a b => ∀ c, (range a).1 ≤ c → c < (range a).2 → (range b).1 ≤ c → c < (range b).2 → False := by
    clear hp
    induction l' generalizing s with
    | nil => exact List.Pairwise.nil
    | cons a t ih =>
      refine List.Pairwise.cons ?_ (ih hc.2.2)
      intro b hb c _ h2 h3 _
      have := (Consecutive.mem hc.2.2 _ (List.mem_map_of_mem hb)).1
      omega
  exact this.perm hp fun h c a b d e => h c d e a b

/-! ### Lines -/

theorem maxMetrics_spec {runs : List (LogicalRun φ)} {metrics : φ → Metrics} :
    ∀ (ps : List VisualPiece) (m m' : Metrics), maxMetrics runs metrics ps m = some m' →
      (m'.descent ≤ m.descent ∧ m.ascent ≤ m'.ascent) ∧
      (∀ p ∈ ps, ∀ r : LogicalRun φ, runs[p.run]? = some r →
        (metrics r.font).ascent ≤ m'.ascent ∧ m'.descent ≤ (metrics r.font).descent) ∧
      (m'.ascent = m.ascent ∨ ∃ p ∈ ps, ∃ r : LogicalRun φ, runs[p.run]? = some r ∧ m'.ascent = (metrics r.font).ascent) ∧
      (m'.descent = m.descent ∨ ∃ p ∈ ps, ∃ r : LogicalRun φ, runs[p.run]? = some r ∧ m'.descent = (metrics r.font).descent)
  | [], m, m', h => by
    cases h
    exact ⟨⟨Rat.le_refl, Rat.le_refl⟩, by simp, Or.inl rfl, Or.inl rfl⟩
  | p :: t, m, m', h => by
    unfold maxMetrics at h
    cases hr : runs[p.run]? with
    | none => rw [hr] at h; cases h
    | some r =>
      rw [hr] at h
      simp only at h
      obtain ⟨⟨h1, h2⟩, h3, h4, h5⟩ := maxMetrics_spec t _ m' h
      simp only at h1 h2 h4 h5
      refine ⟨⟨?_, ?_⟩, ?_, ?_, ?_⟩
      · split at h1 <;> grind
      · split at h2 <;> grind
      · intro q hq r' hr'
        rcases List.mem_cons.1 hq with rfl | hq
        · rw [hr] at hr'; cases hr'
          constructor
          · split at h2 <;> grind
          · split at h1 <;> grind
        · exact h3 q hq r' hr'
      · rcases h4 with h4 | ⟨q, hq, r', hr', h4⟩
        · split at h4
          · exact Or.inr ⟨p, List.mem_cons_self .., r, hr, h4⟩
          · exact Or.inl h4
        · exact Or.inr ⟨q, List.mem_cons_of_mem _ hq, r', hr', h4⟩
      · rcases h5 with h5 | ⟨q, hq, r', hr', h5⟩
        · split at h5
          · exact Or.inr ⟨p, List.mem_cons_self .., r, hr, h5⟩
          · exact Or.inl h5
        · exact Or.inr ⟨q, List.mem_cons_of_mem _ hq, r', hr', h5⟩

/-- The lines of a paragraph. -/
theorem linesOps_spec {e : ParaEnv β φ} {b : Shaped φ} {stop : Nat} (h : ShapedOK e.line.start stop b) :
    ∀ (ls : List BrokenLine) (s : Nat), e.line.start ≤ s → Consecutive stop s (lineRanges ls) →
      (∀ l ∈ ls, l.widths.length = b.glyphs.length) →
      (∀ l ∈ ls, Partition BidiRun.range l.first l.stop (e.bidi l.first l.stop)) →
      ∃ ops ps idx, linesOps e b ls = some (ops, ps.flatten) ∧ LinesOps e b ls ps idx ops ∧
        Partition VisualPiece.range s stop ps.flatten
  | [], s, _, hc, _, _ => by
    simp only [lineRanges, List.map_nil, Consecutive] at hc
    subst hc
    exact ⟨[], [], [], rfl, rfl, Partition.nil _⟩
  | l :: t, s, hs, hc, hw, hb => by
    obtain ⟨hc1, hc2, hc3⟩ := hc
    have hc1 : l.first = s := hc1
    have hle : l.stop ≤ stop := Consecutive.le hc3
    obtain ⟨ops, ps, idx, m, h1, h2, h3, h4, h5, h6⟩ := lineOps_spec (e := e) h (l := l) (hw l (List.mem_cons_self ..))
      (by omega) hle (hb l (List.mem_cons_self ..))
    obtain ⟨ops', ps', idx', g1, g2, g3⟩ := linesOps_spec h t l.stop (by omega) hc3
      (fun l hl => hw l (List.mem_cons_of_mem _ hl)) (fun l hl => hb l (List.mem_cons_of_mem _ hl))
    obtain ⟨m1, m2, m3, m4⟩ := maxMetrics_spec ps ⟨0, 0⟩ m h2
    refine ⟨_, ps :: ps', idx :: idx', ?_, ⟨_, _, rfl, ⟨h4, h5, ops, m, ⟨m1, m2, m3, m4⟩, rfl, h6⟩, g2⟩, ?_⟩
    · unfold linesOps
      simp only [h1, g1, List.flatten_cons]
    · rw [List.flatten_cons]
      rw [hc1] at h4
      exact h4.append g3

/-- Glyphs of the pieces. -/
def ListsAll (b : Shaped φ) : List VisualPiece → List (List Nat) → Prop
  | [], [] => True
  | p :: ps, i :: is => b.Lists p i ∧ ListsAll b ps is
  | _, _ => False

theorem ListsAll.append {b : Shaped φ} : ∀ {ps : List VisualPiece} {is : List (List Nat)} {ps' : List VisualPiece}
    {is' : List (List Nat)}, ListsAll b ps is → ListsAll b ps' is' → ListsAll b (ps ++ ps') (is ++ is')
  | [], [], _, _, _, h => h
  | _ :: _, _ :: _, _, _, h, h' => ⟨h.1, h.2.append h'⟩

theorem RunOps.lists {b : Shaped φ} {ws : List Int} {v : Bool} : ∀ {before : List Nat} {ps : List VisualPiece}
    {idx : List (List Nat)} {ops : List (LayoutOp φ)}, RunOps b ws v before ps idx ops → ListsAll b ps idx
  | _, [], [], [], _ => trivial
  | _, _ :: _, _ :: _, _ :: _, h => ⟨h.1, RunOps.lists h.2.2⟩

theorem LinesOps.lists {e : ParaEnv β φ} {b : Shaped φ} : ∀ {ls : List BrokenLine} {ps : List (List VisualPiece)}
    {idx : List (List (List Nat))} {ops : List (LayoutOp φ)}, LinesOps e b ls ps idx ops →
    ListsAll b ps.flatten idx.flatten
  | [], [], [], _, _ => trivial
  | _ :: _, _ :: _, _ :: _, _, h => by
    obtain ⟨o, o', _, h1, h2⟩ := h
    obtain ⟨_, _, _, _, h3⟩ := h1.ops
    rw [List.flatten_cons, List.flatten_cons]
    exact (RunOps.lists h3).append (LinesOps.lists h2)

theorem ListsAll.mem {b : Shaped φ} : ∀ {ps : List VisualPiece} {is : List (List Nat)}, ListsAll b ps is →
    ∀ i, i ∈ is.flatten ↔ ∃ p ∈ ps, b.Has p i
  | [], [], _, i => by simp
  | p :: ps, l :: is, h, i => by
    rw [List.flatten_cons, List.mem_append, h.1.mem, ListsAll.mem h.2 i]
    simp

theorem ListsAll.nodup {b : Shaped φ} : ∀ {ps : List VisualPiece} {is : List (List Nat)}, ListsAll b ps is →
    ps.Pairwise (fun p q => ∀ c, p.range.1 ≤ c → c < p.range.2 → q.range.1 ≤ c → c < q.range.2 → False) →
    is.flatten.Nodup
  | [], [], _, _ => List.nodup_nil
  | p :: ps, l :: is, h, hd => by
    rw [List.pairwise_cons] at hd
    rw [List.flatten_cons, List.nodup_append]
    refine ⟨?_, ListsAll.nodup h.2 hd.2, ?_⟩
    · have := h.1.order
      split at this
      · exact this.imp fun h => by omega
      · exact this.imp fun h => by omega
    · rintro i hi j hj rfl
      obtain ⟨c, h1, h2, h3⟩ := (h.1.mem i).1 hi
      obtain ⟨q, hq, c', g1, g2, g3⟩ := (ListsAll.mem h.2 i).1 hj
      rw [h1] at g1; cases g1
      exact hd.1 q hq c h2 (by simp only [VisualPiece.range]; omega) g2 (by simp only [VisualPiece.range]; omega)

theorem LogicalRuns.start_lt {s e n : Nat} {runs : List (LogicalRun φ)} (h : LogicalRuns s e n runs)
    {k : Nat} {r : LogicalRun φ} (hk : runs[k]? = some r) : s < r.charEnd := by
  have hpos := h.length_pos
  have h0 := List.getElem?_eq_getElem hpos
  have := h.chars 0 _ h0
  have := h.chars_le (Nat.zero_le k) h0 hk
  simp only [runStart] at *
  omega

theorem LogicalRuns.start_le {s e n : Nat} {runs : List (LogicalRun φ)} (h : LogicalRuns s e n runs) (k : Nat) :
    s ≤ runStart s runs k := by
  cases k with
  | zero => exact Nat.le_refl _
  | succ k =>
    simp only [runStart]
    cases hk : runs[k]? with
    | none => simp
    | some q => exact Nat.le_of_lt (h.start_lt hk)

theorem ShapedOK.char_inside {s e : Nat} {b : Shaped φ} (h : ShapedOK s e b) {i c : Nat} (hi : b.charIdx[i]? = some c) :
    s ≤ c ∧ c < e := by
  have hlt : i < b.glyphs.length := by
    have := (List.getElem?_eq_some_iff.1 hi).1; rw [h.charIdx] at this; exact this
  obtain ⟨k, r, h1, h2, h3⟩ := glyph_run h hlt
  obtain ⟨h4, h5⟩ := h.inside k r i c h1 h2 h3 hi
  have := (h.runs.le_last h1).1
  have hst := h.runs.start_le k
  omega

/-- The glyphs of all visual runs are all glyphs. -/
theorem ListsAll.perm {s e : Nat} {b : Shaped φ} (h : ShapedOK s e b) {ps : List VisualPiece} {is : List (List Nat)}
    (hl : ListsAll b ps is) (hp : Partition VisualPiece.range s e ps) :
    is.flatten.Perm (List.range b.glyphs.length) := by
  rw [List.perm_ext_iff_of_nodup (hl.nodup hp.disjoint) List.nodup_range]
  intro i
  rw [hl.mem, List.mem_range]
  constructor
  · rintro ⟨p, _, c, hc, _⟩
    have := (List.getElem?_eq_some_iff.1 hc).1; rw [h.charIdx] at this; exact this
  · intro hi
    rw [← h.charIdx] at hi
    have hc := List.getElem?_eq_getElem hi
    obtain ⟨h1, h2⟩ := h.char_inside hc
    obtain ⟨p, hp, h3, h4⟩ := hp.find h1 h2
    exact ⟨p, hp, _, hc, h3, by simp only [VisualPiece.range] at h4; omega⟩

/-! ### A paragraph -/

theorem subFontLoop_ind {e : ShapeEnv β φ} {P : Nat → Shaped φ → Prop}
    (hstep : ∀ off b v r, P off b → off < r.2 → P r.2 (b.addSubRun e v off r)) {v : β} {limit : Nat} (n : Nat) :
    ∀ (off : Nat) (b : Shaped φ) (x : Nat × Shaped φ), limit - off = n → subFontLoop e v limit off b = some x →
      P off b → P x.1 x.2 := by
  induction n using Nat.strongRecOn with
  | ind n ih =>
    intro off b x hn h hp
    unfold subFontLoop at h
    split at h
    · split at h
      · exact ih _ (by omega) _ _ x rfl h (hstep off b v _ hp (by assumption))
      · cases h
    · cases h; exact hp

theorem shapeCalls_ind {e : ShapeEnv β φ} {P : Nat → Shaped φ → Prop}
    (hstep : ∀ off b v r, P off b → off < r.2 → P r.2 (b.addSubRun e v off r)) :
    ∀ (calls : List (Nat × β)) (off : Nat) (b : Shaped φ) (x : Nat × Shaped φ), shapeCalls e calls off b = some x →
      P off b → P x.1 x.2
  | [], off, b, x, h, hp => by cases h; exact hp
  | (limit, v) :: t, off, b, x, h, hp => by
    unfold shapeCalls at h
    cases hl : subFontLoop e v limit off b with
    | none => rw [hl] at h; cases h
    | some y =>
      rw [hl] at h
      exact shapeCalls_ind hstep t _ _ x h (subFontLoop_ind hstep _ _ _ y rfl hl hp)

theorem glyphWidths_get (e : ParaEnv β φ) (f : φ) (a : Nat) : ∀ (l : List HbGlyph) (i : Nat),
    (glyphWidths e.vertical (l.map fun g => replaceTab (e.spaceAdvance f) (e.spaceGlyph f) (e.isTab (g.cluster + a)) g))[i]? =
      (l[i]?).map fun g => e.width f a g l[i + 1]?
  | [], i => by simp [glyphWidths]
  | [g], 0 => by
    cases hv : e.vertical <;> cases ht : e.isTab (g.cluster + a) <;>
      simp [glyphWidths, HbGlyph.advPrimary, HbGlyph.offPrimary, ParaEnv.width, ParaEnv.advance, hv, ht, replaceTab]
  | [g], i + 1 => by simp [glyphWidths]
  | g :: h :: t, 0 => by
    cases hv : e.vertical <;> cases ht : e.isTab (g.cluster + a) <;> cases ht' : e.isTab (h.cluster + a) <;>
      simp [glyphWidths, HbGlyph.advPrimary, HbGlyph.offPrimary, ParaEnv.width, ParaEnv.advance, hv, ht, ht', replaceTab] <;> omega
  | g :: h :: t, i + 1 => by
    have := glyphWidths_get e f a (h :: t) i
    simp only [List.map_cons, glyphWidths, List.getElem?_cons_succ] at this ⊢
    exact this

theorem addSubRun_data (e : ShapeEnv β φ) (b : Shaped φ) (v : β) (off : Nat) (r : φ × Nat) :
    (b.addSubRun e v off r).charIdx = b.charIdx ++ revIf (e.reversed v) ((e.shape r.1 v off r.2).map (·.cluster + off)) ∧
    (b.addSubRun e v off r).widths = b.widths ++ revIf (e.reversed v) (glyphWidths e.vertical
      ((e.shape r.1 v off r.2).map fun g => replaceTab (e.spaceAdvance r.1) (e.spaceGlyph r.1) (e.isTab (g.cluster + off)) g)) := by
  have hcl : ∀ g, (replaceTab (e.spaceAdvance r.1) (e.spaceGlyph r.1) (e.isTab (g.cluster + off)) g).cluster = g.cluster := by
    intro g; unfold replaceTab; split <;> rfl
  unfold Shaped.addSubRun
  rcases addRun_cases e.same (b.addShaped (e.shape r.1 v off r.2) off (e.reversed v) e.vertical e.isTab
    (e.spaceAdvance r.1) (e.spaceGlyph r.1)) r.1 r.2 with ⟨heq, _⟩ | ⟨init, q, hq, _, heq⟩ <;>
  · rw [heq]
    refine ⟨?_, rfl⟩
    simp only [Shaped.addShaped, List.map_map]
    congr 2
    apply List.map_congr_left
    intro g _
    simp [hcl]

theorem shapeParagraph_scaled {e : ParaEnv β φ} (ht : e.TabsScaled) {calls : List (Nat × β)} {b : Shaped φ}
    (hb : shapeParagraph e calls = some b) : e.line.TabsScaled b.charIdx b.widths := by
  obtain ⟨h1, h2, h3⟩ := ht
  refine ⟨h1, h2, ?_⟩
  unfold shapeParagraph at hb
  simp only [Option.map_eq_some_iff] at hb
  obtain ⟨x, hx, rfl⟩ := hb
  refine (shapeCalls_ind (P := fun _ b => b.widths.length = b.charIdx.length ∧ ∀ (i c : Nat) (w : Int),
    b.charIdx[i]? = some c → e.line.isTab c = true → b.widths[i]? = some w → 0 < w) ?_ calls _ _ x hx ⟨rfl, by simp⟩).2
  rintro off b v r ⟨hl, hp⟩ hr
  obtain ⟨hc, hw⟩ := addSubRun_data e.toShapeEnv b v off r
  rw [hc, hw]
  refine ⟨by simp [hl, revIf_length, glyphWidths_length], ?_⟩
  intro i c w hci hb' hwi
  rcases Nat.lt_or_ge i b.charIdx.length with hi | hi
  · rw [List.getElem?_append_left hi] at hci
    rw [List.getElem?_append_left (by omega)] at hwi
    exact hp i c w hci hb' hwi
  · rw [List.getElem?_append_right hi] at hci
    rw [List.getElem?_append_right (by omega), hl] at hwi
    generalize i - b.charIdx.length = k at hci hwi
    have key : ∀ k : Nat, ((e.shape r.1 v off r.2).map (·.cluster + off))[k]? = some c →
        (glyphWidths e.vertical ((e.shape r.1 v off r.2).map fun g =>
          replaceTab (e.spaceAdvance r.1) (e.spaceGlyph r.1) (e.isTab (g.cluster + off)) g))[k]? = some w → 0 < w := by
      intro k hk hk'
      rw [glyphWidths_get] at hk'
      rw [List.getElem?_map] at hk
      obtain ⟨g, hg, rfl⟩ := Option.map_eq_some_iff.1 hk
      rw [hg] at hk'
      cases hk'
      exact h3 r.1 v off r.2 hr k g hg hb'
    unfold revIf at hci hwi
    split at hci
    · rename_i hrev
      rw [if_pos hrev] at hwi
      have hk : k < (e.shape r.1 v off r.2).length := by
        have := (List.getElem?_eq_some_iff.1 hci).1; simpa using this
      rw [List.getElem?_reverse (by simpa using hk)] at hci
      rw [List.getElem?_reverse (by simpa [glyphWidths_length] using hk)] at hwi
      rw [List.length_map] at hci
      rw [glyphWidths_length, List.length_map] at hwi
      exact key _ hci hwi
    · rename_i hrev
      rw [if_neg hrev] at hwi
      exact key _ hci hwi

theorem paragraphLines_widths {e : LineEnv} (hb : e.BreaksInside) {ci : List Nat} (hin : e.Inside ci)
    {ws : List Int} {ls : List BrokenLine} (h : paragraphLines e ci ws = some ls) :
    ∀ l ∈ ls, l.widths.length = ws.length := by
  unfold paragraphLines at h
  split at h
  · simp only [Option.map_eq_some_iff] at h
    obtain ⟨ws', h1, rfl⟩ := h
    have := applyTabs_spec _ 0 0 ws rfl (Nat.zero_le _) h1
    intro l hl
    rw [List.mem_singleton] at hl
    subst hl
    exact this.len
  · exact (breakLines_consecutive hb hin _ _ _ _ (by omega) h).2

theorem paragraphLines_consecutive {e : LineEnv} (hb : e.BreaksInside) {ci : List Nat} (hin : e.Inside ci)
    (hl : 0 < e.length) {ws : List Int} {ls : List BrokenLine} (h : paragraphLines e ci ws = some ls) :
    Consecutive (e.start + e.length) e.start (lineRanges ls) := by
  unfold paragraphLines at h
  split at h
  · simp only [Option.map_eq_some_iff] at h
    obtain ⟨ws, _, rfl⟩ := h
    exact ⟨rfl, by simp only; omega, rfl⟩
  · exact (breakLines_consecutive hb hin _ _ _ _ (by omega) h).1

theorem paragraphLines_defined {e : LineEnv} (hb : e.BreaksInside) (hd : e.Decodes) {ci : List Nat} (hin : e.Inside ci)
    {ws : List Int} (hl : ws.length = ci.length) (ht : e.TabsDefined ci ws) : ∃ ls, paragraphLines e ci ws = some ls := by
  unfold paragraphLines
  split
  · obtain ⟨ws, hws⟩ := applyTabs_defined _ 0 0 ws ht rfl hl
    exact ⟨_, by rw [hws]; rfl⟩
  · exact breakLines_defined hb hd hin _ _ _ ht hl (by omega)

theorem paragraph_spec {e : ParaEnv β φ} {calls : List (Nat × β)} (h : e.OK calls) :
    ∃ b qs ls ops ps idx, shapeParagraph e calls = some b ∧ ShapedOK e.line.start (e.line.start + e.line.length) b ∧
      Grouped e.same qs b.runs ∧ Consecutive (e.line.start + e.line.length) e.line.start (qs.map FontPiece.range) ∧
      (∀ q ∈ qs, q.Resolved e.toShapeEnv calls) ∧
      paragraphLines e.line b.charIdx b.widths = some ls ∧
      Consecutive (e.line.start + e.line.length) e.line.start (lineRanges ls) ∧
      linesOps e b ls = some (ops, ps.flatten) ∧ LinesOps e b ls ps idx ops ∧
      Partition VisualPiece.range e.line.start (e.line.start + e.line.length) ps.flatten := by
  obtain ⟨b, qs, h1, h2, h3, h4, h5⟩ := shapeParagraph_spec h.contract h.calls (by have := h.nonempty; omega)
  have hin : e.line.Inside b.charIdx := by
    intro c hc
    obtain ⟨i, hi⟩ := List.mem_iff_getElem?.1 hc
    exact h2.char_inside hi
  have ht : e.line.TabsDefined b.charIdx b.widths :=
    h.tabs.imp (fun h c _ => h c) fun h' => h'.imp id fun h' => shapeParagraph_scaled h' h1
  obtain ⟨ls, hls⟩ := paragraphLines_defined h.breaks h.decodes hin (ws := b.widths) (by rw [h2.widths, h2.charIdx]) ht
  have hcons := paragraphLines_consecutive h.breaks hin h.nonempty hls
  have hwid := paragraphLines_widths h.breaks hin hls
  obtain ⟨ops, ps, idx, g1, g2, g3⟩ := linesOps_spec h2 ls _ (Nat.le_refl _) hcons
    (fun l hl => by rw [hwid l hl, h2.widths])
    (fun l hl => by
      obtain ⟨a1, a2, a3⟩ := hcons.mem _ (List.mem_map_of_mem (f := fun l : BrokenLine => (l.first, l.stop)) hl)
      exact h.bidi _ _ a1 a2 a3)
  exact ⟨b, qs, ls, ops, ps, idx, h1, h2, h3, h4, h5, hls, hcons, g1, g2, g3⟩

/-! ### What the calls for a paragraph build -/

theorem steps_append : ∀ (d : Draft φ) (a b : List (LayoutOp φ)), d.steps (a ++ b) = (d.steps a).bind (·.steps b)
  | _, [], _ => rfl
  | d, op :: a, b => by
    simp only [List.cons_append, Draft.steps]
    cases d.step op with
    | none => rfl
    | some d => exact steps_append d a b

/-- A run as made for a visual run. -/
def RunSpec.Of (b : Shaped φ) (p : VisualPiece) (r : RunSpec φ) : Prop :=
  r.charStart = p.first ∧ r.charEnd = p.last + 1 ∧ r.charEndOffset = 0 ∧ r.rtl = p.rtl ∧
    ∃ q : LogicalRun φ, b.runs[p.run]? = some q ∧ r.font = q.font

theorem RunOps.steps {b : Shaped φ} {ws : List Int} {v : Bool} : ∀ {before : List Nat} {ps : List VisualPiece}
    {idx : List (List Nat)} {ops : List (LayoutOp φ)}, RunOps b ws v before ps idx ops →
    ∃ rs : List (RunSpec φ), List.Forall₂ (RunSpec.Of b) ps rs ∧
      ∀ d : Draft φ, d.steps ops = some { d with open_ := d.open_ ++ rs }
  | _, [], [], [], _ => ⟨[], List.Forall₂.nil, fun d => by simp [Draft.steps]⟩
  | _, p :: ps, i :: is, op :: ops, h => by
    obtain ⟨rs, h1, h2⟩ := RunOps.steps h.2.2
    obtain ⟨r, gs, s, a1, a2, _⟩ := h.2.1.op
    obtain ⟨ex, ey, a2⟩ : ∃ ex ey, op = .run r.font gs ex ey p.first (p.last + 1) p.rtl := ⟨_, _, a2⟩
    refine ⟨⟨r.font, gs, ex, ey, p.first, p.last + 1, 0, p.rtl⟩ :: rs,
      List.Forall₂.cons ⟨rfl, rfl, rfl, rfl, r, a1, rfl⟩ h1, ?_⟩
    intro d
    rw [a2]
    simp only [Draft.steps, Draft.step, h2, List.append_assoc, List.cons_append, List.nil_append]

theorem Partition.ne_nil {α : Type _} {range : α → Nat × Nat} {s e : Nat} {l : List α} (h : Partition range s e l)
    (hlt : s < e) : l ≠ [] := by
  rintro rfl
  obtain ⟨a, ha, _⟩ := h.find (c := s) (Nat.le_refl _) hlt
  cases ha

theorem LinesOps.steps {e : ParaEnv β φ} {b : Shaped φ} : ∀ {ls : List BrokenLine} {ps : List (List VisualPiece)}
    {idx : List (List (List Nat))} {ops : List (LayoutOp φ)}, LinesOps e b ls ps idx ops →
    (∀ l ∈ ls, l.first < l.stop) →
    ∃ new : List (LineSpec φ), List.Forall₂ (fun p (l : LineSpec φ) => List.Forall₂ (RunSpec.Of b) p l.runs) ps new ∧
      ∀ d : Draft φ, d.open_ = [] → d.steps ops = some { d with lines := d.lines ++ new }
  | [], [], [], ops, h, _ => by
    have h : ops = [] := h
    subst h
    exact ⟨[], List.Forall₂.nil, fun d _ => by simp [Draft.steps]⟩
  | l :: ls, p :: ps, i :: is, ops, h, hlt => by
    obtain ⟨o, o', rfl, h1, h2⟩ := h
    obtain ⟨rops, m, _, rfl, h3⟩ := h1.ops
    obtain ⟨rs, g1, g2⟩ := RunOps.steps h3
    obtain ⟨new, k1, k2⟩ := LinesOps.steps h2 fun l hl => hlt l (List.mem_cons_of_mem _ hl)
    refine ⟨⟨rs, m.ascent - m.descent, m.ascent⟩ :: new, List.Forall₂.cons g1 k1, ?_⟩
    intro d hd
    have hne : rs ≠ [] := by
      rintro rfl
      cases g1
      exact h1.partition.ne_nil (hlt l (List.mem_cons_self ..)) rfl
    rw [steps_append, steps_append, g2]
    simp only [Option.bind_some, Draft.steps, Draft.step, hd, List.nil_append, List.isEmpty_iff, hne, if_false]
    rw [k2 _ rfl]
    simp

theorem forall₂_flatten {α γ : Type _} {R : α → γ → Prop} : ∀ {ps : List (List α)} {new : List (LineSpec φ)}
    {f : LineSpec φ → List γ}, List.Forall₂ (fun p l => List.Forall₂ R p (f l)) ps new →
    List.Forall₂ R ps.flatten (new.flatMap f)
  | _, _, _, .nil => List.Forall₂.nil
  | _, _, _, .cons h t => by
    rw [List.flatten_cons, List.flatMap_cons]
    exact List.rel_append h (forall₂_flatten t)

/-- The run that ends last. -/
theorem highest_spec : ∀ (ps : List VisualPiece) (count : Nat) (h : Nat × Int),
    (highest ps count h = h ∧ ∀ p ∈ ps, (p.last : Int) ≤ h.2) ∨
    ∃ (j : Nat) (p : VisualPiece), ps[j]? = some p ∧ highest ps count h = (count + j, (p.last : Int)) ∧ h.2 < p.last ∧
      ∀ q ∈ ps, q.last ≤ p.last
  | [], _, _ => Or.inl ⟨rfl, by simp⟩
  | p :: t, count, h => by
    unfold highest
    by_cases hp : (p.last : Int) > h.2
    · rw [if_pos hp]
      rcases highest_spec t (count + 1) (count, (p.last : Int)) with ⟨h1, h2⟩ | ⟨j, q, h1, h2, h3, h4⟩
      · refine Or.inr ⟨0, p, rfl, h1, hp, ?_⟩
        intro q hq
        rcases List.mem_cons.1 hq with rfl | hq
        · exact Nat.le_refl _
        · have := h2 q hq; simp only at this; omega
      · simp only at h3
        refine Or.inr ⟨j + 1, q, h1, by rw [h2]; congr 1; omega, by omega, ?_⟩
        intro q' hq'
        rcases List.mem_cons.1 hq' with rfl | hq'
        · omega
        · exact h4 q' hq'
    · rw [if_neg hp]
      rcases highest_spec t (count + 1) h with ⟨h1, h2⟩ | ⟨j, q, h1, h2, h3, h4⟩
      · refine Or.inl ⟨h1, ?_⟩
        intro q hq
        rcases List.mem_cons.1 hq with rfl | hq
        · omega
        · exact h2 q hq
      · refine Or.inr ⟨j + 1, q, h1, by rw [h2]; congr 1; omega, h3, ?_⟩
        intro q' hq'
        rcases List.mem_cons.1 hq' with rfl | hq'
        · omega
        · exact h4 q' hq'

/-- Extending the range that ends at `e`. -/
theorem Partition.extend {α : Type _} {range range' : α → Nat × Nat} {s e e' : Nat} {A B : List α} {a a' : α}
    (h : Partition range s e (A ++ a :: B)) (ha : (range a).2 = e) (hA : ∀ x ∈ A ++ B, range' x = range x)
    (ha' : range' a' = ((range a).1, e')) (hle : e ≤ e') : Partition range' s e' (A ++ a' :: B) := by
  obtain ⟨l', hp, hc⟩ := h
  have hmem : a ∈ l' := hp.mem_iff.2 (by simp)
  have key : ∀ (l : List α) (s : Nat), Consecutive e s (l.map range) → a ∈ l →
      ∃ C, l = C ++ [a] ∧ Consecutive (range a).1 s (C.map range) := by
    intro l
    induction l with
    | nil => intro s _ h; cases h
    | cons x t ih =>
      intro s hc hm
      have h1 : (range x).1 = s := hc.1
      rcases List.mem_cons.1 hm with rfl | hm
      · refine ⟨[], ?_, by simp only [List.map_nil, Consecutive]; omega⟩
        have := hc.2.2
        cases t with
        | nil => rfl
        | cons y t =>
          have h2 := this.2.1
          have h3 : (range y).1 = (range a).2 := this.1
          have h4 : (range y).2 ≤ e := this.2.2.le
          omega
      · obtain ⟨C, rfl, hC⟩ := ih _ hc.2.2 hm
        exact ⟨x :: C, rfl, hc.1, hc.2.1, hC⟩
  obtain ⟨C, rfl, hC⟩ := key l' s hc hmem
  have hperm : C.Perm (A ++ B) := by
    have : (a :: C).Perm (a :: (A ++ B)) :=
      (List.perm_append_singleton a C).symm.trans (hp.trans List.perm_middle)
    exact (List.perm_cons a).1 this
  refine ⟨C ++ [a'], ?_, ?_⟩
  · exact (List.perm_append_singleton a' C).trans (((List.perm_cons a').2 hperm).trans List.perm_middle.symm)
  · rw [List.map_append]
    have hCe : C.map range' = C.map range := List.map_congr_left fun x hx => hA x (hperm.mem_iff.1 hx)
    rw [hCe]
    refine hC.append ?_
    have : (range a).1 < (range a).2 := (hc.mem _ (List.mem_map_of_mem hmem)).2.1
    simp only [List.map_cons, List.map_nil, ha']
    exact ⟨rfl, by omega, rfl⟩

theorem setOffsetAt_split (o : Nat) : ∀ (j : Nat) (rs : List (RunSpec φ)) (r : RunSpec φ), rs[j]? = some r →
    ∃ A B, rs = A ++ r :: B ∧ setOffsetAt o j rs = A ++ { r with charEndOffset := o } :: B
  | _, [], _, h => by simp at h
  | 0, x :: t, r, h => by simp at h; subst h; exact ⟨[], t, rfl, rfl⟩
  | j + 1, x :: t, r, h => by
    obtain ⟨A, B, h1, h2⟩ := setOffsetAt_split o j t r (by simpa using h)
    exact ⟨x :: A, B, by rw [h1]; rfl, by simp [setOffsetAt, h2]⟩

theorem forall₂_get {α γ : Type _} {R : α → γ → Prop} : ∀ {l : List α} {l' : List γ}, List.Forall₂ R l l' →
    ∀ (i : Nat) (a : α), l[i]? = some a → ∃ c, l'[i]? = some c ∧ R a c
  | _, _, .nil, i, a, h => by simp at h
  | _, _, .cons hr ht, 0, a, h => by simp at h; subst h; exact ⟨_, rfl, hr⟩
  | _, _, .cons hr ht, i + 1, a, h => by simpa using forall₂_get ht i a (by simpa using h)

theorem forall₂_map_eq {α γ δ : Type _} {R : α → γ → Prop} {f : α → δ} {g : γ → δ} (h : ∀ a c, R a c → f a = g c) :
    ∀ {l : List α} {l' : List γ}, List.Forall₂ R l l' → l.map f = l'.map g
  | _, _, .nil => rfl
  | _, _, .cons hr ht => by rw [List.map_cons, List.map_cons, h _ _ hr, forall₂_map_eq h ht]

theorem setOffsetLines_append_right (o i : Nat) (a b : List (LineSpec φ)) (h : (allRuns a).length ≤ i) :
    setOffsetLines o i (a ++ b) = a ++ setOffsetLines o (i - (allRuns a).length) b := by
  induction a generalizing i with
  | nil => simp [allRuns]
  | cons l t ih =>
    have e : allRuns (l :: t) = l.runs ++ allRuns t := by simp [allRuns]
    rw [e, List.length_append] at h
    rw [List.cons_append, setOffsetLines, if_neg (by omega), ih _ (by omega), e, List.length_append, Nat.sub_sub]
    rfl

/-- One paragraph: the runs appended, the last one extended by the separator. -/
theorem paragraphOps_spec {p : Paragraph β φ} {offset : Nat} (hsep : p.separator ≤ p.length) (hlen : 0 < p.length)
    (hok : 0 < p.length - p.separator → p.env.OK p.calls ∧ p.env.line.start = offset ∧
      p.env.line.length = p.length - p.separator) (runCount : Nat) :
    ∃ ops hi new, paragraphOps p offset runCount = some (ops, hi, runCount + (allRuns new).length) ∧
      Partition RunSpec.range offset (offset + p.length) (allRuns new) ∧
      ∀ d : Draft φ, d.open_ = [] → (allRuns d.lines).length = runCount →
        d.steps (ops ++ [.setOffset hi p.separator]) = some { d with lines := d.lines ++ new } := by
  unfold paragraphOps
  by_cases h0 : p.length - p.separator > 0
  · rw [if_pos h0]
    obtain ⟨hOK, hst, hle⟩ := hok h0
    obtain ⟨b, qs, ls, ops, ps, idx, h1, h2, _, _, _, h3, h4, h5, h6, h7⟩ := paragraph_spec hOK
    rw [hst, hle] at h7 h4
    have hlt : ∀ l ∈ ls, l.first < l.stop := fun l hl =>
      (h4.mem _ (List.mem_map_of_mem (f := fun l : BrokenLine => (l.first, l.stop)) hl)).2.1
    obtain ⟨new, g1, g2⟩ := LinesOps.steps h6 hlt
    have g3 : List.Forall₂ (RunSpec.Of b) ps.flatten (allRuns new) := forall₂_flatten g1
    have hmap := forall₂_map_eq (f := VisualPiece.range) (g := RunSpec.range)
      (fun p r h => by obtain ⟨a1, a2, a3, _⟩ := h; simp [VisualPiece.range, RunSpec.range, a1, a2, a3]) g3
    have hpart : Partition RunSpec.range offset (offset + (p.length - p.separator)) (allRuns new) := h7.congr hmap
    obtain ⟨j, q, hj, hhi, _, hmax⟩ := (highest_spec ps.flatten runCount (0, -2147483648)).resolve_left (by
      rintro ⟨_, hle⟩
      obtain ⟨q, hq, _⟩ := h7.find (c := offset) (Nat.le_refl _) (by omega)
      have := hle q hq
      simp only at this
      omega)
    obtain ⟨r, hr, a1, a2, a3, _⟩ := forall₂_get g3 j q hj
    have hqe : r.range.2 = offset + (p.length - p.separator) := by
      obtain ⟨z, hz, z1, z2⟩ := h7.find (c := offset + (p.length - p.separator) - 1) (by omega) (by omega)
      have := hmax z hz
      have hq := (h7.mem q (List.mem_of_getElem? hj)).2.2
      simp only [VisualPiece.range, RunSpec.range] at *
      omega
    have hlen' : ps.flatten.length = (allRuns new).length := g3.length_eq
    refine ⟨ops, runCount + j, setOffsetLines p.separator j new, ?_, ?_, ?_⟩
    · unfold buildParagraph
      simp only [h1, h3, h5, Option.bind_some, Option.map_some, hhi, setOffsetLines_runs_length, hlen']
    · rw [setOffsetLines_allRuns]
      obtain ⟨A, B, e1, e2⟩ := setOffsetAt_split p.separator j (allRuns new) r hr
      rw [e2]
      rw [e1] at hpart
      refine hpart.extend hqe (fun _ _ => rfl) ?_ (by omega)
      simp only [RunSpec.range] at hqe ⊢
      rw [a3] at hqe
      congr 1
      omega
    · intro d hd hc
      rw [steps_append, g2 d hd]
      have hjl : j < (allRuns new).length := by rw [← hlen']; exact (List.getElem?_eq_some_iff.1 hj).1
      simp only [Option.bind_some, Draft.steps, Draft.step, allRuns_append, List.length_append]
      rw [if_pos (by omega), setOffsetLines_append_right _ _ _ _ (by omega), hc]
      simp
  · rw [if_neg h0]
    refine ⟨_, runCount, [⟨[{ RunSpec.empty p.defaultFont offset with charEndOffset := p.separator }],
      p.defaultMetrics.ascent - p.defaultMetrics.descent, p.defaultMetrics.ascent⟩], rfl, ?_, ?_⟩
    · refine Partition.single ?_ (by omega)
      simp only [RunSpec.range, RunSpec.empty]
      congr 1; omega
    · intro d hd hc
      simp only [List.cons_append, List.nil_append, Draft.steps, Draft.step, hd, List.isEmpty_nil, if_true,
        allRuns_append, List.length_append]
      rw [if_pos (by rw [hc]; simp [allRuns]), setOffsetLines_append_right _ _ _ _ (by omega), hc]
      simp [setOffsetLines, setOffsetAt]

/-- The empty run behind a final separator. -/
def finalRuns (ps : List (Paragraph β φ)) (count : Nat) : List (RunSpec φ) :=
  match ps.getLast? with
  | some p => if 0 < p.separator then [.empty p.defaultFont count] else []
  | none => []

theorem Paragraphs.le {count : Nat} : ∀ {ps : List (Paragraph β φ)} {offset : Nat}, Paragraphs count offset ps →
    offset ≤ count ∧ (ps ≠ [] → offset < count)
  | [], _, h => ⟨Nat.le_of_eq h, fun h => absurd rfl h⟩
  | p :: t, _, h => by
    have := (Paragraphs.le h.2.2.2.2).1
    have := h.2.1
    exact ⟨by omega, fun _ => by omega⟩

theorem paragraphsOps_spec {count : Nat} : ∀ (ps : List (Paragraph β φ)) (offset runCount : Nat),
    Paragraphs count offset ps →
    ∃ ops new rs, paragraphsOps count ps offset runCount = some ops ∧
      allRuns new = rs ++ finalRuns ps count ∧ Partition RunSpec.range offset count rs ∧
      ∀ d : Draft φ, d.open_ = [] → (allRuns d.lines).length = runCount →
        d.steps ops = some { d with lines := d.lines ++ new }
  | [], offset, runCount, h => by
    have h : offset = count := h
    subst h
    exact ⟨[], [], [], rfl, rfl, Partition.nil _, fun d _ _ => by simp [Draft.steps]⟩
  | p :: t, offset, runCount, h => by
    obtain ⟨h1, h2, h3, h4, h5⟩ := h
    obtain ⟨ops, hi, new, g1, g2, g3⟩ := paragraphOps_spec (offset := offset) h1 h2 h4 runCount
    unfold paragraphsOps
    rw [g1]
    simp only
    cases t with
    | cons q t =>
      have hlt := h5.le.2 (by simp)
      have hfin : finalLine p offset count (runCount + (allRuns new).length) = [] := by
        unfold finalLine; rw [if_neg (by omega)]
      obtain ⟨ops', new', rs, k1, k2, k3, k4⟩ := paragraphsOps_spec (q :: t) (offset + p.length)
        (runCount + (allRuns new).length) h5
      rw [hfin]
      simp only [List.isEmpty_nil, if_true, k1, Option.map_some, List.append_nil]
      refine ⟨_, new ++ new', allRuns new ++ rs, rfl, ?_, g2.append k3, ?_⟩
      · rw [allRuns_append, k2, List.append_assoc]; rfl
      · intro d hd hc
        rw [steps_append, g3 d hd hc]
        simp only [Option.bind_some]
        rw [k4 { d with lines := d.lines ++ new } hd (by simp only [allRuns_append, List.length_append, hc])]
        simp
    | nil =>
      have h5 : offset + p.length = count := h5
      simp only [paragraphsOps, Option.map_some, List.append_nil]
      by_cases hs : 0 < p.separator
      · have hfin : finalLine p offset count (runCount + (allRuns new).length) =
          [.emptyLine p.defaultFont (offset + p.length) (p.defaultMetrics.ascent - p.defaultMetrics.descent)
            p.defaultMetrics.ascent, .setOffset (runCount + (allRuns new).length) 0] := by
          unfold finalLine; rw [if_pos ⟨h5, hs⟩]
        refine ⟨_, new ++ [⟨[.empty p.defaultFont count], p.defaultMetrics.ascent - p.defaultMetrics.descent,
          p.defaultMetrics.ascent⟩], allRuns new, rfl, ?_, by rw [← h5]; exact g2, ?_⟩
        · rw [allRuns_append]
          simp [finalRuns, hs, allRuns]
        · intro d hd hc
          rw [hfin, steps_append, g3 d hd hc]
          simp only [Option.bind_some, Draft.steps, Draft.step, hd, List.isEmpty_nil, if_true, allRuns_append,
            List.length_append, h5]
          rw [if_pos (by rw [hc]; simp [allRuns]), setOffsetLines_append_right _ _ _ _ (by
            simp only [allRuns_append, List.length_append]; omega)]
          simp only [allRuns_append, List.length_append, hc, Nat.sub_self]
          simp [setOffsetLines, setOffsetAt, RunSpec.empty]
      · have hfin : finalLine p offset count (runCount + (allRuns new).length) = [] := by
          unfold finalLine; rw [if_neg (by omega)]
        rw [hfin]
        refine ⟨_, new, allRuns new, rfl, ?_, by rw [← h5]; exact g2, ?_⟩
        · simp [finalRuns, hs]
        · intro d hd hc
          rw [List.append_nil]
          exact g3 d hd hc

end RichText

namespace RichText
variable {β φ : Type _}

/-! ### Fonts -/

theorem Consecutive.snoc {e s : Nat} {x : Nat × Nat} : ∀ {l : List (Nat × Nat)}, Consecutive e s (l ++ [x]) →
    Consecutive x.1 s l ∧ x.1 < x.2 ∧ x.2 = e
  | [], h => ⟨h.1.symm, h.2.1, h.2.2⟩
  | _ :: _, h => by
    obtain ⟨h1, h2, h3⟩ := h
    obtain ⟨g1, g2⟩ := Consecutive.snoc h3
    exact ⟨⟨h1, h2, g1⟩, g2⟩

theorem Grouped.ends {same : φ → φ → Bool} {qs : List (FontPiece φ)} {runs : List (LogicalRun φ)}
    (h : Grouped same qs runs) : runs.getLast?.map (·.charEnd) = qs.getLast?.map (·.stop) := by
  cases h <;> simp

theorem Grouped.nil_iff {same : φ → φ → Bool} {qs : List (FontPiece φ)} {runs : List (LogicalRun φ)}
    (h : Grouped same qs runs) : runs = [] → qs = [] := by
  cases h <;> simp

theorem Grouped.last {same : φ → φ → Bool} {qs : List (FontPiece φ)} {init : List (LogicalRun φ)} {r : LogicalRun φ}
    (h : Grouped same qs (init ++ [r])) {m s : Nat} (hc : Consecutive m s (qs.map FontPiece.range)) : r.charEnd = m := by
  have hends := h.ends
  cases hql : qs.getLast? with
  | none => rw [hql] at hends; simp at hends
  | some x =>
    rw [hql] at hends
    obtain ⟨l, rfl⟩ := List.getLast?_eq_some_iff.1 hql
    rw [List.map_append] at hc
    have := (Consecutive.snoc hc).2.2
    simp at hends
    simp only [FontPiece.range] at this
    omega

theorem Grouped.sorted {same : φ → φ → Bool} {s : Nat} {qs : List (FontPiece φ)} {runs : List (LogicalRun φ)}
    (h : Grouped same qs runs) : ∀ {e : Nat}, Consecutive e s (qs.map FontPiece.range) →
    runs.Pairwise (fun a b => a.charEnd < b.charEnd) := by
  induction h with
  | nil => intro e _; exact List.Pairwise.nil
  | @push qs runs q n hg ih =>
    intro e hc
    rw [List.map_append] at hc
    obtain ⟨hc1, hc2, hc3⟩ := Consecutive.snoc hc
    simp only [FontPiece.range] at hc1 hc2 hc3
    have hp := ih hc1
    refine List.pairwise_append.2 ⟨hp, List.pairwise_singleton _ _, ?_⟩
    intro a ha b hb
    rw [List.mem_singleton] at hb; subst hb
    simp only
    rcases List.eq_nil_or_concat runs with rfl | ⟨init, r', rfl⟩
    · cases ha
    · rw [List.concat_eq_append] at *
      have h1 := hg.last hc1
      rcases List.mem_append.1 ha with ha | ha
      · have := (List.pairwise_append.1 hp).2.2 a ha r' (by simp); omega
      · rw [List.mem_singleton] at ha; subst ha; omega
  | @merge qs init r0 q n hg hs ih =>
    intro e hc
    rw [List.map_append] at hc
    obtain ⟨hc1, hc2, hc3⟩ := Consecutive.snoc hc
    simp only [FontPiece.range] at hc1 hc2 hc3
    have hp := ih hc1
    have h1 := hg.last hc1
    refine List.pairwise_append.2 ⟨(List.pairwise_append.1 hp).1, List.pairwise_singleton _ _, ?_⟩
    intro a ha b hb
    rw [List.mem_singleton] at hb; subst hb
    have := (List.pairwise_append.1 hp).2.2 a ha r0 (by simp)
    simp only; omega

/-- The font of a logical run is that of a piece. -/
theorem Grouped.font_mem {same : φ → φ → Bool} {qs : List (FontPiece φ)} {runs : List (LogicalRun φ)}
    (h : Grouped same qs runs) : ∀ r ∈ runs, ∃ q ∈ qs, r.font = q.font := by
  induction h with
  | nil => intro r hr; cases hr
  | @push qs runs q n hg ih =>
    intro r hr
    rcases List.mem_append.1 hr with hr | hr
    · obtain ⟨q', hq', he⟩ := ih r hr
      exact ⟨q', List.mem_append_left _ hq', he⟩
    · rw [List.mem_singleton] at hr; subst hr
      exact ⟨q, by simp, rfl⟩
  | @merge qs init r0 q n hg hs ih =>
    intro r hr
    rcases List.mem_append.1 hr with hr | hr
    · obtain ⟨q', hq', he⟩ := ih r (List.mem_append_left _ hr)
      exact ⟨q', List.mem_append_left _ hq', he⟩
    · rw [List.mem_singleton] at hr; subst hr
      obtain ⟨q', hq', he⟩ := ih r0 (by simp)
      exact ⟨q', List.mem_append_left _ hq', he⟩

/-- The font of a logical run is that of its pieces up to `same`. -/
theorem Grouped.font {same : φ → φ → Bool} {s : Nat} {qs : List (FontPiece φ)} {runs : List (LogicalRun φ)}
    (h : Grouped same qs runs) : ∀ {e : Nat}, Consecutive e s (qs.map FontPiece.range) →
    ∀ (k : Nat) (r : LogicalRun φ), runs[k]? = some r → ∀ q ∈ qs, ∀ c, q.first ≤ c → c < q.stop →
      runStart s runs k ≤ c → c < r.charEnd → r.font = q.font ∨ same r.font q.font = true := by
  induction h with
  | nil => intro e _ k r hk; simp at hk
  | @push qs runs q n hg ih =>
    intro e hc k r hk q' hq' c c1 c2 c3 c4
    rw [List.map_append] at hc
    obtain ⟨hc1, hc2, hc3⟩ := Consecutive.snoc hc
    simp only [FontPiece.range] at hc1 hc2 hc3
    have hp1 := hg.sorted hc1
    have hold : ∀ q' ∈ qs, q'.stop ≤ q.first := fun q' hq' =>
      (hc1.mem _ (List.mem_map_of_mem hq')).2.2
    rcases getElem?_snoc hk with ⟨hkl, hk'⟩ | ⟨rfl, rfl⟩
    · rw [runStart_append (t' := []) (by omega), List.append_nil] at c3
      rcases List.mem_append.1 hq' with hq' | hq'
      · exact ih hc1 k r hk' q' hq' c c1 c2 c3 c4
      · rw [List.mem_singleton] at hq'; subst hq'
        exfalso
        rcases List.eq_nil_or_concat runs with rfl | ⟨init, r', rfl⟩
        · simp at hk'
        · rw [List.concat_eq_append] at *
          have h1 := hg.last hc1
          rcases getElem?_snoc hk' with ⟨_, hk2⟩ | ⟨_, rfl⟩
          · have := (List.pairwise_append.1 hp1).2.2 r (List.mem_of_getElem? hk2) r' (by simp)
            omega
          · omega
    · rcases List.mem_append.1 hq' with hq' | hq'
      · exfalso
        rcases List.eq_nil_or_concat runs with rfl | ⟨init, r', rfl⟩
        · rw [hg.nil_iff rfl] at hq'; cases hq'
        · rw [List.concat_eq_append] at *
          have h1 := hg.last hc1
          have : runStart s ((init ++ [r']) ++ [⟨q.font, q.stop, n⟩]) (init ++ [r']).length = q.first := by
            rw [List.length_append]
            simp [runStart, h1]
          have := hold q' hq'
          omega
      · rw [List.mem_singleton] at hq'; subst hq'
        exact Or.inl rfl
  | @merge qs init r0 q n hg hs ih =>
    intro e hc k r hk q' hq' c c1 c2 c3 c4
    rw [List.map_append] at hc
    obtain ⟨hc1, hc2, hc3⟩ := Consecutive.snoc hc
    simp only [FontPiece.range] at hc1 hc2 hc3
    have hp1 := hg.sorted hc1
    have h1 := hg.last hc1
    have hold : ∀ q' ∈ qs, q'.stop ≤ q.first := fun q' hq' =>
      (hc1.mem _ (List.mem_map_of_mem hq')).2.2
    rcases getElem?_snoc hk with ⟨hkl, hk'⟩ | ⟨rfl, rfl⟩
    · rw [runStart_append (t' := [r0]) (by omega)] at c3
      rcases List.mem_append.1 hq' with hq' | hq'
      · exact ih hc1 k r (by rw [List.getElem?_append_left hkl]; exact hk') q' hq' c c1 c2 c3 c4
      · rw [List.mem_singleton] at hq'; subst hq'
        have := (List.pairwise_append.1 hp1).2.2 r (List.mem_of_getElem? hk') r0 (by simp)
        omega
    · rw [runStart_append (t' := [r0]) (Nat.le_refl _)] at c3
      rcases List.mem_append.1 hq' with hq' | hq'
      · have := hold q' hq'
        exact ih hc1 init.length r0 (by simp) q' hq' c c1 c2 c3 (by omega)
      · rw [List.mem_singleton] at hq'; subst hq'
        exact Or.inr hs

/-- Which piece an op of a paragraph comes from. -/
theorem RunOps.mem {b : Shaped φ} {ws : List Int} {v : Bool} : ∀ {before : List Nat} {ps : List VisualPiece}
    {idx : List (List Nat)} {ops : List (LayoutOp φ)}, RunOps b ws v before ps idx ops →
    ∀ op ∈ ops, ∃ p ∈ ps, ∃ (r : LogicalRun φ) (gs : List GlyphSpec) (ex ey : Rat), b.runs[p.run]? = some r ∧
      op = .run r.font gs ex ey p.first (p.last + 1) p.rtl
  | _, [], [], [], _ => by simp
  | _, p :: ps, i :: is, op :: ops, h => by
    intro o ho
    rcases List.mem_cons.1 ho with rfl | ho
    · obtain ⟨r, gs, s, a1, a2, _⟩ := h.2.1.op
      exact ⟨p, List.mem_cons_self .., r, gs, _, _, a1, a2⟩
    · obtain ⟨p, hp, hx⟩ := RunOps.mem h.2.2 o ho
      exact ⟨p, List.mem_cons_of_mem _ hp, hx⟩

theorem LinesOps.mem {e : ParaEnv β φ} {b : Shaped φ} : ∀ {ls : List BrokenLine} {ps : List (List VisualPiece)}
    {idx : List (List (List Nat))} {ops : List (LayoutOp φ)}, LinesOps e b ls ps idx ops →
    ∀ op ∈ ops, (∃ h a, op = .line h a) ∨ ∃ p : VisualPiece, p.Inside e.line.start b.runs ∧
      ∃ (r : LogicalRun φ) (gs : List GlyphSpec) (ex ey : Rat), b.runs[p.run]? = some r ∧
      op = .run r.font gs ex ey p.first (p.last + 1) p.rtl
  | [], [], [], ops, h => by
    have h : ops = [] := h
    subst h; simp
  | l :: ls, p :: ps, i :: is, ops, h => by
    obtain ⟨o, o', rfl, h1, h2⟩ := h
    obtain ⟨rops, m, _, rfl, h3⟩ := h1.ops
    intro op hop
    rcases List.mem_append.1 hop with hop | hop
    · rcases List.mem_append.1 hop with hop | hop
      · obtain ⟨p', hp', hx⟩ := RunOps.mem h3 op hop
        exact Or.inr ⟨p', h1.inside p' hp', hx⟩
      · rw [List.mem_singleton] at hop
        exact Or.inl ⟨_, _, hop⟩
    · exact LinesOps.mem h2 op hop

end RichText
