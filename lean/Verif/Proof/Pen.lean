import Verif.Proof.Built
import Verif.Spec.Pen
import Mathlib.Data.List.Sort
/-!
Positions of the glyphs of one shaped run.
-/
namespace RichText
variable {β φ : Type _}

/-- Sum of the advances along the line. -/
def penAlong (d : Bool) (hb : List HbGlyph) (i : Nat) : Int := ((hb.take i).map (·.advPrimary d)).sum

/-- Sum of the advances across the line. -/
def penAcross (d : Bool) (hb : List HbGlyph) (i : Nat) : Int := ((hb.take i).map (·.advSecondary d)).sum

theorem glyphWidths_take (d : Bool) : ∀ (l : List HbGlyph) (i : Nat) (g h : HbGlyph), l[0]? = some g → l[i]? = some h →
    ((glyphWidths d l).take i).sum = (penAlong d l i + h.offPrimary d - g.offPrimary d) * (if d then -1 else 1)
  | [], _, _, _, hg, _ => by simp at hg
  | x :: t, 0, g, h, hg, hh => by
    simp at hg hh; subst hg; subst hh
    simp [penAlong]
  | [x], i + 1, g, h, _, hh => by simp at hh
  | x :: y :: t, i + 1, g, h, hg, hh => by
    simp at hg; subst hg
    have ih := glyphWidths_take d (y :: t) i y h rfl (by simpa using hh)
    simp only [glyphWidths, List.take_succ_cons, List.sum_cons, ih]
    simp only [penAlong, List.take_succ_cons, List.map_cons, List.sum_cons]
    ring

theorem glyphWidths_sum (d : Bool) : ∀ (l : List HbGlyph) (g : HbGlyph), l[0]? = some g →
    (glyphWidths d l).sum = (penAlong d l l.length - g.offPrimary d) * (if d then -1 else 1)
  | [], _, hg => by simp at hg
  | [x], g, hg => by
    simp at hg; subst hg
    simp [glyphWidths, penAlong]
  | x :: y :: t, g, hg => by
    simp at hg; subst hg
    have ih := glyphWidths_sum d (y :: t) y rfl
    simp only [glyphWidths, List.sum_cons, ih]
    simp only [penAlong, List.length_cons, List.take_succ_cons, List.map_cons, List.sum_cons]
    ring

theorem secondaryPositions_get (d : Bool) : ∀ (l : List HbGlyph) (c : Int) (i : Nat) (g : HbGlyph), l[i]? = some g →
    (secondaryPositions d c l).1[i]? = some (c + penAcross d l i + g.offSecondary d)
  | [], _, _, _, h => by simp at h
  | x :: t, c, 0, g, h => by
    simp at h; subst h
    simp [secondaryPositions, penAcross]
  | x :: t, c, i + 1, g, h => by
    have ih := secondaryPositions_get d t (c + x.advSecondary d) i g (by simpa using h)
    simp only [secondaryPositions, List.getElem?_cons_succ, ih]
    simp [penAcross]
    omega

theorem revIf_range_get (r : Bool) {α : Type _} (X : List α) {j i : Nat}
    (h : (revIf r (List.range X.length))[j]? = some i) : (revIf r X)[i]? = X[j]? := by
  cases r with
  | false =>
    simp only [revIf, Bool.false_eq_true, if_false] at h ⊢
    have := List.getElem?_range (n := X.length) (i := j)
    by_cases hj : j < X.length
    · rw [List.getElem?_range hj] at h
      cases h; rfl
    · rw [List.getElem?_eq_none (by simp; omega)] at h
      cases h
  | true =>
    simp only [revIf, if_true] at h ⊢
    by_cases hj : j < X.length
    · rw [List.getElem?_reverse (by simpa using hj)] at h
      simp only [List.length_range] at h
      rw [List.getElem?_range (by omega)] at h
      cases h
      rw [List.getElem?_reverse (by omega)]
      congr 1
      omega
    · rw [List.getElem?_eq_none (by simp; omega)] at h
      cases h

theorem sumAt_revIf (r : Bool) (W : List Int) (j : Nat) :
    sumAt (revIf r W) ((revIf r (List.range W.length)).take j) = (W.take j).sum := by
  have : (revIf r (List.range W.length)).map (fun i => (revIf r W).getD i 0) = W := by
    apply List.ext_getElem?
    intro i
    rw [List.getElem?_map]
    cases h : (revIf r (List.range W.length))[i]? with
    | none =>
      rw [List.getElem?_eq_none_iff, revIf_length, List.length_range] at h
      rw [List.getElem?_eq_none (by omega)]
      rfl
    | some k =>
      have hk := revIf_range_get r W h
      have hi : i < W.length := by
        have := (List.getElem?_eq_some_iff.1 h).1
        rwa [revIf_length, List.length_range] at this
      rw [List.getElem?_eq_getElem hi] at hk
      simp [hk, List.getElem?_eq_getElem hi]
  unfold sumAt
  rw [List.map_take, this]

theorem sorted_eq_range {idx : List Nat} {n : Nat} (hm : ∀ i, i ∈ idx ↔ i < n) (h : idx.Pairwise (· < ·)) :
    idx = List.range n := by
  have hnd : idx.Nodup := h.imp fun h => Nat.ne_of_lt h
  have hp : idx.Perm (List.range n) := (List.perm_ext_iff_of_nodup hnd List.nodup_range).2 (by simpa using hm)
  exact hp.eq_of_pairwise (fun a b _ _ h1 h2 => absurd h1 (by omega)) h List.pairwise_lt_range

theorem revIf_eq_range {idx : List Nat} {n : Nat} (r : Bool) (hm : ∀ i, i ∈ idx ↔ i < n)
    (h : if r then idx.Pairwise (· > ·) else idx.Pairwise (· < ·)) : idx = revIf r (List.range n) := by
  cases r with
  | false => exact sorted_eq_range hm h
  | true =>
    have := sorted_eq_range (idx := idx.reverse) (n := n) (by simpa using hm) (List.pairwise_reverse.2 h)
    simp only [revIf, if_true]
    rw [← this, List.reverse_reverse]

theorem applyTabs_none {e : LineEnv} (h : ∀ c, e.isTab c = false) {ci : List Nat} {ws : List Int}
    (hl : ws.length = ci.length) : ∀ (n i : Nat) (s : Int), ci.length - i = n → applyTabs e ci i s ws = some ws
  | 0, i, s, hn => by
    unfold applyTabs
    rw [if_neg (by omega)]
  | n + 1, i, s, hn => by
    unfold applyTabs
    rw [if_pos (by omega)]
    have h1 := List.getElem?_eq_getElem (l := ws) (i := i) (by omega)
    have h2 := List.getElem?_eq_getElem (l := ci) (i := i) (by omega)
    have : tabAdjust e ci ws i s = some (ws[i]'(by omega), ws) := by
      unfold tabAdjust
      rw [h1, h2]
      simp [h]
    rw [this]
    exact applyTabs_none h hl n (i + 1) _ (by omega)

theorem oneRun_spec {e : ParaEnv β φ} {v : β} {f : φ} (hone : e.OneRun v f)
    (h : e.OK [(e.line.start + e.line.length, v)]) (runCount : Nat) {first : HbGlyph}
    (hfirst : (e.shape f v e.line.start (e.line.start + e.line.length))[0]? = some first) :
    ∃ gs ex ey s height ascent hi total,
      buildParagraph e [(e.line.start + e.line.length, v)] runCount =
        some ([.run f gs ex ey e.line.start (e.line.start + e.line.length) (e.reversed v), .line height ascent], hi, total) ∧
      gs.length = (e.shape f v e.line.start (e.line.start + e.line.length)).length ∧
      ex = (placeAt e.vertical ((penAlong e.vertical (e.shape f v e.line.start (e.line.start + e.line.length))
        (e.shape f v e.line.start (e.line.start + e.line.length)).length - first.offPrimary e.vertical) *
          (if e.vertical then -1 else 1)) s).1 ∧
      ey = (placeAt e.vertical ((penAlong e.vertical (e.shape f v e.line.start (e.line.start + e.line.length))
        (e.shape f v e.line.start (e.line.start + e.line.length)).length - first.offPrimary e.vertical) *
          (if e.vertical then -1 else 1)) s).2 ∧
      ∀ (i : Nat) (g : HbGlyph), (e.shape f v e.line.start (e.line.start + e.line.length))[i]? = some g →
        ∃ q, q = placeAt e.vertical ((penAlong e.vertical (e.shape f v e.line.start (e.line.start + e.line.length)) i +
            g.offPrimary e.vertical - first.offPrimary e.vertical) * (if e.vertical then -1 else 1))
          (penAcross e.vertical (e.shape f v e.line.start (e.line.start + e.line.length)) i + g.offSecondary e.vertical) ∧
        gs[i]? = some ⟨g.glyph, e.line.start + g.cluster, q.1, q.2⟩ := by
  have hpos := h.nonempty
  generalize hst : e.line.start = start at *
  generalize hsp : start + e.line.length = stop at *
  generalize hhb : e.shape f v start stop = hb at *
  generalize hd : e.vertical = d at *
  obtain ⟨b, qs, h1, h2, _⟩ := shapeParagraph_spec (e := e) h.contract h.calls (by omega)
  rw [hst] at h2
  -- the shaped paragraph
  have hloop : ∀ b0 : Shaped φ, subFontLoop e.toShapeEnv v stop start b0 =
      some (stop, b0.addSubRun e.toShapeEnv v start (f, stop)) := by
    intro b0
    have hf : e.subFont v start stop = (f, stop) := by
      have := hone.font; rw [hst, hsp] at this; exact this
    unfold subFontLoop
    rw [if_pos (by omega), hf]
    simp only
    rw [if_pos (by omega)]
    unfold subFontLoop
    rw [if_neg (by omega)]
  have hnt : hb.map (fun g => replaceTab (e.spaceAdvance f) (e.spaceGlyph f) (e.isTab (g.cluster + start)) g) = hb := by
    conv_rhs => rw [← List.map_id hb]
    apply List.map_congr_left
    intro g _
    simp [replaceTab, hone.noTab]
  have hb' : b = (({} : Shaped φ).addSubRun e.toShapeEnv v start (f, stop)).finish := by
    unfold shapeParagraph at h1
    rw [hst] at h1
    simp only [shapeCalls, hloop, Option.map_some, Option.some.injEq] at h1
    exact h1.symm
  have hrun : b.runs = [⟨f, stop, hb.length⟩] := by
    rw [hb']
    simp [Shaped.finish, Shaped.addSubRun, Shaped.addRun, Shaped.addShaped, hhb, revIf_length]
  have hgl : b.glyphs = revIf (e.reversed v) (hb.map (·.glyph)) := by
    rw [hb']
    simp only [Shaped.finish, Shaped.addSubRun, Shaped.addRun, Shaped.addShaped, hhb, hnt]
    simp
  have hci : b.charIdx = revIf (e.reversed v) (hb.map (·.cluster + start)) := by
    rw [hb']
    simp only [Shaped.finish, Shaped.addSubRun, Shaped.addRun, Shaped.addShaped, hhb, hnt]
    simp
  have hwi : b.widths = revIf (e.reversed v) (glyphWidths d hb) := by
    rw [hb']
    simp only [Shaped.finish, Shaped.addSubRun, Shaped.addRun, Shaped.addShaped, hhb, hnt, hd]
    simp
  have hse : ∃ c, b.secondary = revIf (e.reversed v) (secondaryPositions d 0 hb).1 ++ [c] := by
    rw [hb']
    refine ⟨(secondaryPositions d 0 hb).2, ?_⟩
    simp only [Shaped.finish, Shaped.addSubRun, Shaped.addRun, Shaped.addShaped, hhb, hd]
    simp
  have hn : b.glyphs.length = hb.length := by rw [hgl, revIf_length, List.length_map]
  -- its only line
  have hls : paragraphLines e.line b.charIdx b.widths = some [⟨start, stop, b.widths⟩] := by
    unfold paragraphLines
    rw [if_pos hone.noBreak, applyTabs_none hone.noTab' (by rw [h2.widths, h2.charIdx]) _ 0 0 rfl, hst, hsp]
    rfl
  obtain ⟨level, hlv, hbd⟩ := hone.bidi
  rw [hst, hsp] at hbd
  obtain ⟨ops, ps, idx, m, k1, k2, k3, k4, k5, k6⟩ := lineOps_spec (e := e) h2 (l := ⟨start, stop, b.widths⟩) h2.widths
    (Nat.le_refl _) (Nat.le_of_eq hsp.symm) (by
      have := h.bidi start stop (by omega) (by omega) (by omega)
      exact this)
  have hps : ps = [⟨0, start, stop - 1, e.reversed v⟩] := by
    simp only at k3
    rw [hbd, hrun] at k3
    have hbs : ∀ c, c < stop → binarySearch (fun i => ([⟨f, stop, hb.length⟩] : List (LogicalRun φ))[i]?.map
        fun q => decide (q.charEnd ≤ c)) 0 1 = some 0 := by
      intro c hc
      unfold binarySearch
      simp only [Nat.one_ne_zero, if_false, Nat.reduceDiv, Nat.add_zero, List.getElem?_cons_zero, Option.map_some,
        show ¬ stop ≤ c by omega, decide_false]
      unfold binarySearch
      rfl
    cases hrv : e.reversed v with
    | false =>
      rw [hrv] at hlv
      simp only [linePieces, bidiPieces, hlv, Bool.false_eq_true, if_false, if_true, List.length_singleton, hbs start (by omega), Option.bind_some] at k3
      unfold ltrPieces at k3
      simp only [List.getElem?_cons_zero] at k3
      rw [if_pos (by omega)] at k3
      simp at k3
      rw [← k3]
      congr 2
      omega
    | true =>
      rw [hrv] at hlv
      have : ¬ level % 2 = 0 := by simp at hlv; omega
      simp only [linePieces, bidiPieces, this, if_false, List.length_singleton, hbs (start + e.line.length - 1) (by omega), Option.bind_some] at k3
      simp only [rtlPieces, List.getElem?_cons_zero, List.append_nil, Option.some.injEq] at k3
      rw [← k3]
      congr 2
      omega
  subst hps
  rw [hd] at k6
  obtain ⟨ix, op, rfl, rfl, l1, r, gs, s, r1, r2, r3, _, r4⟩ : ∃ ix op, idx = [ix] ∧ ops = [op] ∧
      b.Lists ⟨0, start, stop - 1, e.reversed v⟩ ix ∧ RunOp b b.widths d ⟨0, start, stop - 1, e.reversed v⟩ [] ix op := by
    match idx, ops, k6 with
    | [ix], [op], ⟨l1, l2, _⟩ => exact ⟨ix, op, rfl, rfl, l1, l2⟩
    | _ :: _ :: _, [_], ⟨_, _, h⟩ => exact h.elim
    | _ :: _ :: _, _ :: _ :: _, ⟨_, _, h⟩ => exact h.elim
  simp only at l1 r1 r2
  rw [hrun] at r1
  simp at r1
  subst r1
  have hix : ix = revIf (e.reversed v) (List.range hb.length) := by
    refine revIf_eq_range _ (fun i => ?_) l1.order
    rw [l1.mem]
    constructor
    · rintro ⟨c, hc, _⟩
      have := (List.getElem?_eq_some_iff.1 hc).1
      rw [h2.charIdx, hn] at this
      exact this
    · intro hi
      have hc := List.getElem?_eq_getElem (l := b.charIdx) (i := i) (by rw [h2.charIdx, hn]; exact hi)
      have := h2.char_inside hc
      exact ⟨_, hc, by simp only; omega, by simp only; omega⟩
  have hwl : (glyphWidths d hb).length = hb.length := glyphWidths_length d hb
  have hsum : ∀ j, sumAt b.widths (ix.take j) = ((glyphWidths d hb).take j).sum := by
    intro j
    rw [hix, hwi, ← hwl]
    exact sumAt_revIf _ _ _
  have hend : sumAt b.widths ix = (penAlong d hb hb.length - first.offPrimary d) * (if d then -1 else 1) := by
    have := hsum ix.length
    have hl : ix.length = (glyphWidths d hb).length := by rw [hix, revIf_length, List.length_range, hwl]
    rw [List.take_length, hl, List.take_length] at this
    rw [this, glyphWidths_sum d hb first hfirst]
  have hbuild : buildParagraph e [(stop, v)] runCount = some ([op, .line (m.ascent - m.descent) m.ascent],
      (highest [⟨0, start, stop - 1, e.reversed v⟩] runCount (0, -2147483648)).1, runCount + 1) := by
    unfold buildParagraph
    simp only [h1, hls, Option.bind_some, linesOps, k1, Option.map_some]
    rfl
  refine ⟨gs, (placeAt d (sumAt b.widths ix) s).1, (placeAt d (sumAt b.widths ix) s).2, s, m.ascent - m.descent, m.ascent,
    (highest [⟨0, start, stop - 1, e.reversed v⟩] runCount (0, -2147483648)).1, runCount + 1, ?_, ?_, ?_, ?_, ?_⟩
  · rw [hbuild, r2]
    simp only [List.nil_append]
    rw [show stop - 1 + 1 = stop by omega]
  · rw [r3, hix, revIf_length, List.length_range]
  · rw [hend]
  · rw [hend]
  · intro i g hg
    have hi : i < hb.length := (List.getElem?_eq_some_iff.1 hg).1
    obtain ⟨k, hk⟩ : ∃ k, ix[i]? = some k := by
      refine ⟨_, List.getElem?_eq_getElem ?_⟩
      rw [hix, revIf_length, List.length_range]; exact hi
    obtain ⟨id, c, t, t1, t2, t3, t4⟩ := r4 i k hk
    have hk' := hk
    rw [hix] at hk'
    have q1 : id = g.glyph := by
      have := revIf_range_get (e.reversed v) (hb.map (·.glyph)) (j := i) (i := k) (by rwa [List.length_map])
      rw [← hgl, t1, List.getElem?_map, hg] at this
      simpa using this
    have q2 : c = g.cluster + start := by
      have := revIf_range_get (e.reversed v) (hb.map (·.cluster + start)) (j := i) (i := k) (by rwa [List.length_map])
      rw [← hci, t2, List.getElem?_map, hg] at this
      simpa using this
    have q3 : t = penAcross d hb i + g.offSecondary d := by
      obtain ⟨c', hc'⟩ := hse
      have hlen : (secondaryPositions d 0 hb).1.length = hb.length := secondaryPositions_length d 0 hb
      have := revIf_range_get (e.reversed v) (secondaryPositions d 0 hb).1 (j := i) (i := k) (by rwa [hlen])
      rw [secondaryPositions_get d hb 0 i g hg] at this
      rw [hc', List.getElem?_append_left (List.getElem?_eq_some_iff.1 this).1, this] at t3
      simp at t3
      omega
    refine ⟨_, rfl, ?_⟩
    rw [t4]
    simp only [List.nil_append, hsum, glyphWidths_take d hb i first g hfirst hg]
    rw [q1, q2, q3, Nat.add_comm]

end RichText
