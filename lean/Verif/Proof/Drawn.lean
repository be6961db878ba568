import Verif.Spec.Drawn
import Verif.Proof.Size
import Verif.Props.Draw
import Verif.Props.TextRuns
/-! Lemmas on what is drawn for a marked-up text. -/
namespace RichText
open Spec
variable {β φ δ : Type _}

/-! ### Shaping -/

/-- Font of each glyph. -/
def glyphFonts (key : φ → δ) : Nat → List (LogicalRun φ) → List δ
  | _, [] => []
  | lo, r :: t => List.replicate (r.glyphEnd - lo) (key r.font) ++ glyphFonts key r.glyphEnd t

theorem glyphFonts_snoc (key : φ → δ) (r : LogicalRun φ) : ∀ (lo : Nat) (rs : List (LogicalRun φ)),
    glyphFonts key lo (rs ++ [r]) = glyphFonts key lo rs ++
      List.replicate (r.glyphEnd - (rs.getLast?.map (·.glyphEnd)).getD lo) (key r.font)
  | lo, [] => by simp [glyphFonts]
  | lo, a :: t => by
    rw [List.cons_append, glyphFonts, glyphFonts_snoc key r, glyphFonts, List.append_assoc]
    cases t with
    | nil => rfl
    | cons b t => simp [List.getLast?_cons]

/-- Fonts, numbers and characters of all glyphs of a paragraph. -/
def Shaped.labels (key : φ → δ) (b : Shaped φ) : List (δ × Nat × Nat) :=
  (glyphFonts key 0 b.runs).zip (b.glyphs.zip b.charIdx)

/-- What is known while shaping. -/
structure Labelled (key : φ → δ) (s off : Nat) (b : Shaped φ) (out : List (δ × Nat × Nat)) : Prop where
  shaping : Shaping s off b
  fonts : (glyphFonts key 0 b.runs).length = b.glyphs.length
  labels : (b.labels key).Perm out

theorem revIf_zip {γ : Type _} (r : Bool) : ∀ {a : List δ} {b : List γ}, a.length = b.length →
    (revIf r a).zip (revIf r b) = revIf r (a.zip b) := by
  intro a b h
  cases r
  · rfl
  · simp only [revIf, if_true, List.zip]
    exact (List.reverse_zipWith h).symm

theorem addSubRun_labels {e : ShapeEnv β φ} (hC : e.Contract) (key : φ → δ) (hkey : ∀ f g, e.same f g = true → key f = key g)
    {s off : Nat} {b : Shaped φ} {out : List (δ × Nat × Nat)} (h : Labelled key s off b out) (v : β) (r : φ × Nat) (hr : off < r.2) :
    Labelled key s r.2 (b.addSubRun e v off r) (out ++ e.output key [⟨r.1, v, off, r.2⟩]) := by
  have hsh := addSubRun_spec hC h.shaping v r hr
  have hlast : (b.runs.getLast?.map (·.glyphEnd)).getD 0 = b.glyphs.length := by
    rcases h.shaping.runs with ⟨_, a, c⟩ | a
    · rw [a]; simp [c]
    · rw [a.lastGlyph]; rfl
  obtain ⟨hci, -⟩ := addSubRun_data e b v off r
  have hgl : (b.addSubRun e v off r).glyphs = b.glyphs ++ revIf (e.reversed v) ((e.shape r.1 v off r.2).map fun g =>
      if e.isTab (off + g.cluster) = true then e.spaceGlyph r.1 else g.glyph) := by
    have hg : ∀ (sm : φ → φ → Bool) (b : Shaped φ) f c, (b.addRun sm f c).glyphs = b.glyphs := by
      intro sm b f c
      unfold Shaped.addRun
      split
      · rfl
      · split <;> rfl
    unfold Shaped.addSubRun
    rw [hg]
    simp only [Shaped.addShaped, List.map_map]
    congr 2
    apply List.map_congr_left
    intro g _
    simp only [Function.comp, replaceTab]
    rw [Nat.add_comm off]
    split <;> rfl
  have hfo : glyphFonts key 0 (b.addSubRun e v off r).runs =
      glyphFonts key 0 b.runs ++ List.replicate (e.shape r.1 v off r.2).length (key r.1) := by
    have hn := addSubRun_glyphs b e v off r
    unfold Shaped.addSubRun at hn ⊢
    generalize hb' : b.addShaped (e.shape r.1 v off r.2) off (e.reversed v) e.vertical e.isTab
      (e.spaceAdvance r.1) (e.spaceGlyph r.1) = b' at hn ⊢
    have hbr : b'.runs = b.runs := by rw [← hb']; rfl
    have hbn : b'.glyphs.length = b.glyphs.length + (e.shape r.1 v off r.2).length := by
      rw [← hb']; simp only [Shaped.addShaped, List.length_append, revIf]; split <;> simp
    rcases addRun_cases e.same b' r.1 r.2 with ⟨heq, _⟩ | ⟨init, q, hq, hs, heq⟩
    · rw [heq]
      simp only [hbr]
      rw [glyphFonts_snoc, hlast]
      simp only [hbn, Nat.add_sub_cancel_left]
    · rw [heq]
      rw [hbr] at hq
      simp only
      rw [glyphFonts_snoc, hq, glyphFonts_snoc, List.append_assoc, ← hkey _ _ hs, List.replicate_append_replicate]
      have hq2 : q.glyphEnd = b.glyphs.length := by rw [hq] at hlast; simpa using hlast
      have hle : (init.getLast?.map (·.glyphEnd)).getD 0 ≤ q.glyphEnd := by
        rcases h.shaping.runs with ⟨_, a, _⟩ | a
        · rw [hq] at a; simp at a
        · have h1 := a.glyphs init.length q (by rw [hq]; simp)
          cases hi : init.length with
          | zero => rw [List.length_eq_zero_iff] at hi; rw [hi]; simp
          | succ k =>
            rw [hi] at h1
            have : (b.runs)[k]? = init.getLast? := by
              rw [hq, List.getElem?_append_left (by omega), List.getLast?_eq_getElem?, hi]; rfl
            simp only [runFirstGlyph, this] at h1
            exact h1
      simp only [hbn]
      congr 2
      omega
  refine ⟨hsh, ?_, ?_⟩
  · rw [hfo, List.length_append, List.length_replicate, h.fonts, addSubRun_glyphs]
  · unfold Shaped.labels
    rw [hfo, hgl, hci, List.zip_append (by rw [h.shaping.charIdx]),
      List.zip_append (by rw [h.fonts, List.length_zip, h.shaping.charIdx, Nat.min_self])]
    refine h.labels.append ?_
    rw [revIf_zip _ (by simp)]
    have hz : ∀ l : List HbGlyph, (List.replicate l.length (key r.1)).zip (revIf (e.reversed v)
        ((l.map fun g => if e.isTab (off + g.cluster) = true then e.spaceGlyph r.1 else g.glyph).zip (l.map (·.cluster + off)))) =
        revIf (e.reversed v) (l.map fun g => (key r.1, (if e.isTab (off + g.cluster) = true then e.spaceGlyph r.1 else g.glyph),
          off + g.cluster)) := by
      intro l
      have : List.replicate l.length (key r.1) = revIf (e.reversed v) (List.replicate l.length (key r.1)) := by
        unfold revIf; split <;> simp
      rw [this, revIf_zip _ (by simp)]
      congr 1
      induction l with
      | nil => rfl
      | cons a t ih =>
        simp only [List.length_cons, List.replicate_succ, List.map_cons, List.zip_cons_cons]
        rw [ih (by unfold revIf; split <;> simp), Nat.add_comm off a.cluster]
    rw [hz]
    refine (revIf_perm _ _).trans ?_
    simp [ShapeEnv.output]

theorem shapeCalls_labels {e : ShapeEnv β φ} (hC : e.Contract) (key : φ → δ) (hkey : ∀ f g, e.same f g = true → key f = key g)
    {s : Nat} {calls : List (Nat × β)} {off : Nat} {qs : List (Sub β φ)} (h : Subs e calls off qs) :
    ∀ {b : Shaped φ} {out : List (δ × Nat × Nat)} {x : Nat × Shaped φ}, Labelled key s off b out →
      shapeCalls e calls off b = some x → Labelled key s x.1 x.2 (out ++ e.output key qs) := by
  induction h with
  | nil off =>
    intro b out x h hx
    cases hx
    simpa [ShapeEnv.output] using h
  | @next limit v calls off qs hle hs ih =>
    intro b out x h hx
    rw [shapeCalls, subFontLoop, if_neg (by omega)] at hx
    exact ih h hx
  | @sub limit v calls off qs hlt hs ih =>
    intro b out x h hx
    obtain ⟨g1, g2⟩ := hC.subFont v off limit hlt
    rw [shapeCalls, subFontLoop, if_pos hlt, if_pos g1] at hx
    have h' := addSubRun_labels hC key hkey h v (e.subFont v off limit) g1
    have := ih h' (by rw [shapeCalls]; exact hx)
    rw [List.append_assoc] at this
    have he : ∀ q : Sub β φ, e.output key [q] ++ e.output key qs = e.output key (q :: qs) := by
      intro q; simp [ShapeEnv.output]
    rw [he] at this
    exact this

theorem Subs.exists {e : ShapeEnv β φ} (hC : e.Contract) : ∀ (calls : List (Nat × β)) (off : Nat), ∃ qs, Subs e calls off qs
  | [], off => ⟨[], .nil off⟩
  | (limit, v) :: t, off => by
    induction hn : limit - off using Nat.strongRecOn generalizing off with
    | ind n ih =>
      by_cases hlt : off < limit
      · obtain ⟨g1, g2⟩ := hC.subFont v off limit hlt
        obtain ⟨qs, hq⟩ := ih _ (by omega) (e.subFont v off limit).2 rfl
        exact ⟨_, .sub hlt hq⟩
      · obtain ⟨qs, hq⟩ := Subs.exists hC t off
        exact ⟨qs, .next (by omega) hq⟩

theorem shapeParagraph_labels {e : ParaEnv β φ} {calls : List (Nat × β)} (h : e.OK calls) (key : φ → δ)
    (hkey : ∀ f g, e.same f g = true → key f = key g) {qs : List (Sub β φ)} (hs : Subs e.toShapeEnv calls e.line.start qs)
    {b : Shaped φ} (hb : shapeParagraph e calls = some b) :
    (glyphFonts key 0 b.runs).length = b.glyphs.length ∧ (b.labels key).Perm (e.output key qs) := by
  unfold shapeParagraph at hb
  simp only [Option.map_eq_some_iff] at hb
  obtain ⟨x, hx, rfl⟩ := hb
  have := shapeCalls_labels h.contract key hkey hs (s := e.line.start) (out := []) ⟨shaping_init _, rfl, by simp [Shaped.labels]⟩ hx
  refine ⟨this.fonts, ?_⟩
  have h2 := this.labels
  rw [List.nil_append] at h2
  exact h2

/-- The font of a glyph is that of its logical run. -/
theorem glyphFonts_get (key : φ → δ) : ∀ (lo : Nat) (rs : List (LogicalRun φ)),
    (∀ (k : Nat) (r : LogicalRun φ), rs[k]? = some r → (if k = 0 then lo else runFirstGlyph rs k) ≤ r.glyphEnd) →
    ∀ (k : Nat) (r : LogicalRun φ) (i : Nat), rs[k]? = some r → (if k = 0 then lo else runFirstGlyph rs k) ≤ i → i < r.glyphEnd →
      lo ≤ i ∧ (glyphFonts key lo rs)[i - lo]? = some (key r.font)
  | lo, [], _, k, r, i, h, _, _ => by simp at h
  | lo, a :: t, hm, 0, r, i, h, hlo, hi => by
    simp only [List.getElem?_cons_zero, Option.some.injEq] at h
    subst h
    simp only [if_true] at hlo
    refine ⟨hlo, ?_⟩
    rw [glyphFonts, List.getElem?_append_left (by simp; omega), List.getElem?_replicate, if_pos (by omega)]
  | lo, a :: t, hm, k + 1, r, i, h, hlo, hi => by
    have h0 := hm 0 a rfl
    simp only [if_true] at h0
    have hst : ∀ j, (if j + 1 = 0 then lo else runFirstGlyph (a :: t) (j + 1)) =
        if j = 0 then a.glyphEnd else runFirstGlyph t j := by
      intro j
      rw [if_neg (by omega)]
      cases j with
      | zero => rfl
      | succ j =>
        rw [if_neg (by omega)]
        simp [runFirstGlyph]
    obtain ⟨g1, g2⟩ := glyphFonts_get key a.glyphEnd t (by
      intro j q hq
      rw [← hst]
      exact hm (j + 1) q (by simpa using hq)) k r i (by simpa using h) (by rw [← hst]; exact hlo) hi
    refine ⟨by omega, ?_⟩
    rw [glyphFonts, List.getElem?_append_right (by simp; omega), List.length_replicate,
      show i - lo - (a.glyphEnd - lo) = i - a.glyphEnd by omega]
    exact g2

theorem RunOp.label {b : Shaped φ} {s e : Nat} (hb : ShapedOK s e b) (key : φ → δ) {p : VisualPiece}
    (hp : p.Inside s b.runs) {r : LogicalRun φ} (hr : b.runs[p.run]? = some r) {i : Nat} (hi : b.Has p i) :
    (glyphFonts key 0 b.runs)[i]? = some (key r.font) := by
  obtain ⟨c, hc, h1, h2⟩ := hi
  have hlt : i < b.glyphs.length := by
    have := (List.getElem?_eq_some_iff.1 hc).1
    rw [hb.charIdx] at this; exact this
  obtain ⟨k, q, hk, hk1, hk2⟩ := glyph_run hb hlt
  have hin := hb.inside k q i c hk hk1 hk2 hc
  obtain ⟨-, p2, r', hr', p3⟩ := hp
  rw [hr] at hr'; cases hr'
  have hkp : k = p.run := by
    have hmono : ∀ (x y : Nat) (a : LogicalRun φ), b.runs[x]? = some a → x < y → y < b.runs.length → a.charEnd ≤ runStart s b.runs y := by
      intro x y a hx hxy hy
      cases y with
      | zero => omega
      | succ y =>
        have hyy := List.getElem?_eq_getElem (show y < b.runs.length by omega)
        simp only [runStart, hyy, Option.map_some, Option.getD_some]
        exact hb.runs.chars_le (by omega) hx hyy
    have hk' := (List.getElem?_eq_some_iff.1 hk).1
    have hp' := (List.getElem?_eq_some_iff.1 hr).1
    rcases Nat.lt_trichotomy k p.run with hlt | heq | hgt
    · have := hmono _ _ _ hk hlt hp'; omega
    · exact heq
    · have := hmono _ _ _ hr hgt hk'; omega
  subst hkp
  rw [hk] at hr; cases hr
  have hz : ∀ k, (if k = 0 then 0 else runFirstGlyph b.runs k) = runFirstGlyph b.runs k := by
    intro k; split
    · rename_i h; subst h; rfl
    · rfl
  exact (glyphFonts_get key 0 b.runs (fun k r hr => by rw [hz]; exact hb.runs.glyphs k r hr) _ _ i hk
    (by rw [hz]; exact hk1) hk2).2

/-- Font, number and character of each glyph that the calls append. -/
def opsLabels (key : φ → δ) (ops : List (LayoutOp φ)) : List (δ × Nat × Nat) :=
  ops.flatMap fun
    | .run f gs _ _ _ _ _ => gs.map fun g => (key f, g.id, g.char)
    | _ => []

theorem opsLabels_append (key : φ → δ) (a b : List (LayoutOp φ)) : opsLabels key (a ++ b) = opsLabels key a ++ opsLabels key b := by
  simp [opsLabels]

theorem RunOps.labels {b : Shaped φ} {s e : Nat} (hb : ShapedOK s e b) (key : φ → δ)
    (hf : (glyphFonts key 0 b.runs).length = b.glyphs.length) {ws : List Int} {v : Bool} :
    ∀ {before : List Nat} {ps : List VisualPiece} {idx : List (List Nat)} {ops : List (LayoutOp φ)},
      (∀ p ∈ ps, p.Inside s b.runs) → RunOps b ws v before ps idx ops →
      (opsLabels key ops).map some = idx.flatten.map fun i => (b.labels key)[i]?
  | _, [], [], [], _, _ => rfl
  | _, p :: ps, i :: is, op :: ops, hin, h => by
    obtain ⟨h0, ⟨r, gs, sx, h1, h2, h3, _, h5⟩, h4⟩ := h
    have ih := RunOps.labels hb key hf (fun p hp => hin p (List.mem_cons_of_mem _ hp)) h4
    rw [show op :: ops = [op] ++ ops from rfl, opsLabels_append, List.map_append, ih, List.flatten_cons, List.map_append]
    congr 1
    subst h2
    simp only [opsLabels, List.flatMap_cons, List.flatMap_nil, List.append_nil, List.map_map]
    apply List.ext_getElem?
    intro j
    rw [List.getElem?_map, List.getElem?_map]
    cases hj : i[j]? with
    | none =>
      rw [List.getElem?_eq_none (by rw [List.getElem?_eq_none_iff] at hj; omega)]; rfl
    | some k =>
      obtain ⟨g, c, sy, a1, a2, a3, a4⟩ := h5 j k hj
      rw [a4]
      have hk := RunOp.label hb key (hin p (List.mem_cons_self ..)) h1 ((h0.mem k).1 (List.mem_of_getElem? hj))
      have : (b.labels key)[k]? = some (key r.font, g, c) := by
        unfold Shaped.labels
        rw [List.getElem?_zip_eq_some]
        refine ⟨hk, ?_⟩
        rw [List.getElem?_zip_eq_some]
        exact ⟨a1, a2⟩
      simp [this]

theorem LinesOps.labels {e : ParaEnv β φ} {b : Shaped φ} {stop : Nat} (hb : ShapedOK e.line.start stop b) (key : φ → δ)
    (hf : (glyphFonts key 0 b.runs).length = b.glyphs.length) : ∀ {ls : List BrokenLine} {ps : List (List VisualPiece)}
    {idx : List (List (List Nat))} {ops : List (LayoutOp φ)}, LinesOps e b ls ps idx ops →
    (opsLabels key ops).map some = idx.flatten.flatten.map fun i => (b.labels key)[i]?
  | [], [], [], ops, h => by cases h; rfl
  | l :: ls, p :: ps, i :: is, ops, h => by
    obtain ⟨o, o', rfl, h1, h2⟩ := h
    have ih := LinesOps.labels hb key hf h2
    obtain ⟨runs, m, _, rfl, h3⟩ := h1.ops
    rw [opsLabels_append, opsLabels_append, List.map_append, List.map_append, ih, RunOps.labels hb key hf h1.inside h3]
    simp [opsLabels]

theorem paragraphOps_labels {p : Paragraph β φ} {offset : Nat} (key : φ → δ)
    (hkey : ∀ f g, p.env.same f g = true → key f = key g)
    (h : 0 < p.length - p.separator → p.env.OK p.calls ∧ p.env.line.start = offset ∧
      p.env.line.length = p.length - p.separator) {qs : List (Sub β φ)} (hq : p.Parts qs) {n : Nat}
    {r : List (LayoutOp φ) × Nat × Nat} (hr : paragraphOps p offset n = some r) :
    (opsLabels key r.1).Perm (p.env.output key qs) ∧ ∀ x ∈ p.env.output key qs, x.2.2 < offset + p.length := by
  unfold paragraphOps at hr
  unfold Paragraph.Parts at hq
  split at hr
  · rename_i hp
    rw [if_pos hp] at hq
    obtain ⟨h1, h2, h3⟩ := h hp
    obtain ⟨b, ls, ops, ps, idx, hi, e1, e2, e3, e4, e5, e6, e7⟩ := C31_paragraph p.env p.calls h1 n
    rw [e5] at hr
    cases hr
    obtain ⟨f1, f2⟩ := shapeParagraph_labels h1 key hkey hq e1
    have hl := e6.labels e2 key f1
    refine ⟨List.Perm.trans ?_ f2, ?_⟩
    rotate_left
    · intro x hx
      have hx := f2.mem_iff.2 hx
      have hm := (List.of_mem_zip (List.of_mem_zip hx).2).2
      obtain ⟨i, hi⟩ := List.mem_iff_getElem?.1 hm
      have h9 := (e2.char_inside hi).2
      have h10 : x.2.2 < p.env.line.start + p.env.line.length := h9
      omega
    have hlen : (b.labels key).length = b.glyphs.length := by
      unfold Shaped.labels
      rw [List.length_zip, List.length_zip, f1, e2.charIdx, Nat.min_self, Nat.min_self]
    have : ((opsLabels key ops).map some).Perm ((b.labels key).map some) := by
      rw [hl]
      refine (e7.map _).trans ?_
      rw [← hlen]
      apply List.Perm.of_eq
      apply List.ext_getElem?
      intro j
      rw [List.getElem?_map, List.getElem?_map]
      rcases Nat.lt_or_ge j (b.labels key).length with hj | hj
      · rw [List.getElem?_range hj, List.getElem?_eq_getElem hj]; simp [hj]
      · rw [List.getElem?_eq_none (by simpa using hj), List.getElem?_eq_none hj]; rfl
    have h' := this.filterMap id
    simpa [List.filterMap_map, Function.comp_def] using h'
  · cases hr
    rename_i hp
    rw [if_neg hp] at hq
    subst hq
    simp [opsLabels, ShapeEnv.output]

/-! ### Texts -/

theorem RunOps.noClear {b : Shaped φ} {ws : List Int} {v : Bool} : ∀ {before : List Nat} {ps : List VisualPiece} {idx : List (List Nat)}
    {ops : List (LayoutOp φ)}, RunOps b ws v before ps idx ops → LayoutOp.clear ∉ ops
  | _, [], [], [], _ => by simp
  | _, p :: ps, i :: is, op :: ops, h => by
    obtain ⟨_, ⟨r, gs, s, _, h2, h3, _⟩, h4⟩ := h
    have := RunOps.noClear h4
    subst h2
    simp [this]

theorem LinesOps.noClear {e : ParaEnv β φ} {b : Shaped φ} : ∀ {ls : List BrokenLine} {ps : List (List VisualPiece)}
    {idx : List (List (List Nat))} {ops : List (LayoutOp φ)}, LinesOps e b ls ps idx ops → LayoutOp.clear ∉ ops
  | [], [], [], ops, h => by cases h; simp
  | l :: ls, p :: ps, i :: is, ops, h => by
    obtain ⟨o, o', rfl, h1, h2⟩ := h
    have := LinesOps.noClear h2
    obtain ⟨runs, m, _, rfl, h3⟩ := h1.ops
    simp [RunOps.noClear h3, this]

theorem paragraphsOps_labels {count : Nat} (key : φ → δ) : ∀ {ps : List (Paragraph β φ)} {offset n : Nat} {ops : List (LayoutOp φ)},
    Paragraphs count offset ps → (∀ p ∈ ps, ∀ f g, p.env.same f g = true → key f = key g) →
    paragraphsOps count ps offset n = some ops → ∃ qss, List.Forall₂ Paragraph.Parts ps qss ∧ LayoutOp.clear ∉ ops ∧
      (opsLabels key ops).Perm (textOutput key ps qss) ∧ ∀ x ∈ textOutput key ps qss, x.2.2 < count
  | [], offset, n, ops, h, _, ho => by
    cases ho
    exact ⟨[], .nil, by simp, by simp [opsLabels, textOutput], by simp [textOutput]⟩
  | p :: t, offset, n, ops, h, hk, ho => by
    obtain ⟨h1, h2, h3, h4, h5⟩ := h
    unfold paragraphsOps at ho
    cases hp : paragraphOps p offset n with
    | none => rw [hp] at ho; cases ho
    | some r =>
      rw [hp] at ho
      simp only [Option.map_eq_some_iff] at ho
      obtain ⟨rest, hrest, rfl⟩ := ho
      obtain ⟨qss, i1, i0, i2, i3⟩ := paragraphsOps_labels key h5 (fun q hq => hk q (List.mem_cons_of_mem _ hq)) hrest
      obtain ⟨qs, hqs⟩ : ∃ qs, p.Parts qs := by
        unfold Paragraph.Parts
        split
        · rename_i h0
          exact Subs.exists (h4 h0).1.contract _ _
        · exact ⟨[], rfl⟩
      have hc : LayoutOp.clear ∉ r.1 := by
        unfold paragraphOps at hp
        split at hp
        · rename_i h0
          obtain ⟨b, ls, ops, ps, idx, hi, e1, e2, e3, e4, e5, e6, e7⟩ := C31_paragraph p.env p.calls (h4 h0).1 n
          rw [e5] at hp; cases hp
          exact e6.noClear
        · cases hp; simp
      obtain ⟨this, hlt⟩ := paragraphOps_labels key (hk p (List.mem_cons_self ..)) h4 hqs hp
      refine ⟨qs :: qss, .cons hqs i1, ?_, ?_, ?_⟩
      · have hf : LayoutOp.clear ∉ finalLine p offset count r.2.2 := by unfold finalLine; split <;> simp
        simp [hc, hf, i0]
      · have hf : opsLabels key (finalLine p offset count r.2.2) = [] := by unfold finalLine; split <;> rfl
        rw [opsLabels_append, opsLabels_append, opsLabels_append, hf, textOutput]
        have ho : opsLabels key [LayoutOp.setOffset r.2.1 p.separator] = [] := rfl
        rw [ho, List.append_nil, List.append_nil]
        exact this.append i2
      · intro x hx
        have hle := h5.le.1
        rcases List.mem_append.1 hx with hx | hx
        · have := hlt x hx; omega
        · exact i3 x hx

theorem runsGlyphs_append (key : φ → δ) (a b : List (RunSpec φ)) : runsGlyphs key (a ++ b) = runsGlyphs key a ++ runsGlyphs key b := by
  simp [runsGlyphs]

theorem runsGlyphs_setOffsetAt (key : φ → δ) (o : Nat) : ∀ (i : Nat) (rs : List (RunSpec φ)),
    runsGlyphs key (setOffsetAt o i rs) = runsGlyphs key rs
  | _, [] => by simp [setOffsetAt]
  | 0, r :: t => rfl
  | i + 1, r :: t => by
    have := runsGlyphs_setOffsetAt key o i t
    simp only [setOffsetAt, runsGlyphs, List.flatMap_cons] at this ⊢
    rw [this]

theorem allRuns_cons (l : LineSpec φ) (t : List (LineSpec φ)) : allRuns (l :: t) = l.runs ++ allRuns t := by
  simp [allRuns]

theorem runsGlyphs_setOffsetLines (key : φ → δ) (o : Nat) : ∀ (i : Nat) (ls : List (LineSpec φ)),
    runsGlyphs key (allRuns (setOffsetLines o i ls)) = runsGlyphs key (allRuns ls)
  | _, [] => by simp [setOffsetLines]
  | i, l :: t => by
    rw [setOffsetLines]
    split
    · rw [allRuns_cons, allRuns_cons, runsGlyphs_append, runsGlyphs_append, runsGlyphs_setOffsetAt]
    · rw [allRuns_cons, allRuns_cons, runsGlyphs_append, runsGlyphs_append, runsGlyphs_setOffsetLines key o _ t]

theorem step_labels (key : φ → δ) {d d' : Draft φ} {op : LayoutOp φ} (hc : op ≠ .clear) (h : d.step op = some d') :
    runsGlyphs key (allRuns d'.lines ++ d'.open_) = runsGlyphs key (allRuns d.lines ++ d.open_) ++ opsLabels key [op] := by
  cases op with
  | run f gs ex ey s e rtl =>
    cases h
    simp [runsGlyphs, opsLabels]
  | line a b =>
    simp only [Draft.step] at h
    split at h
    · cases h
    · cases h
      simp [runsGlyphs, opsLabels, allRuns]
  | emptyLine f c a b =>
    simp only [Draft.step] at h
    split at h
    · rename_i h0
      cases h
      rw [List.isEmpty_iff] at h0
      simp [runsGlyphs, opsLabels, allRuns, h0, RunSpec.empty]
    · cases h
  | setOffset i o =>
    simp only [Draft.step] at h
    have ho : opsLabels key [LayoutOp.setOffset i o] = ([] : List (δ × Nat × Nat)) := rfl
    rw [ho, List.append_nil]
    split at h
    · cases h
      simp only [runsGlyphs_append, runsGlyphs_setOffsetLines]
    · split at h
      · cases h
        simp only [runsGlyphs_append, runsGlyphs_setOffsetAt]
      · cases h
  | startY y =>
    cases h
    simp [runsGlyphs, opsLabels]
  | clear => exact absurd rfl hc

theorem steps_labels (key : φ → δ) : ∀ {ops : List (LayoutOp φ)} {d d' : Draft φ}, LayoutOp.clear ∉ ops → d.steps ops = some d' →
    runsGlyphs key (allRuns d'.lines ++ d'.open_) = runsGlyphs key (allRuns d.lines ++ d.open_) ++ opsLabels key ops
  | [], d, d', _, h => by cases h; simp [opsLabels]
  | op :: ops, d, d', hc, h => by
    rw [Draft.steps] at h
    cases ho : d.step op with
    | none => rw [ho] at h; cases h
    | some d1 =>
      rw [ho] at h
      simp only [List.mem_cons, not_or] at hc
      rw [steps_labels key hc.2 h, step_labels key (fun h => hc.1 h.symm) ho, List.append_assoc, ← opsLabels_append]
      rfl

/-- The layout of a text holds every glyph that HarfBuzz returned, once. -/
theorem build_glyphs (L : Layout φ) (ps : List (Paragraph β φ)) (count : Nat) (h : Paragraphs count 0 ps)
    (yAlign : YAlignment) (H : Rat) :
    ∃ L' ls rs, buildLayout L ps count yAlign H = some L' ∧ Stores L' ls [] L'.startY ∧
      allRuns ls = rs ++ finalRuns ps count ∧ Partition RunSpec.range 0 count rs ∧
      ∀ {δ : Type} (key : φ → δ), (∀ p ∈ ps, ∀ f g, p.env.same f g = true → key f = key g) →
        ∃ qss, List.Forall₂ Paragraph.Parts ps qss ∧ (runsGlyphs key (allRuns ls)).Perm (textOutput key ps qss) ∧
          ∀ x ∈ textOutput key ps qss, x.2.2 < count := by
  obtain ⟨ops, new, rs, h1, h2, h3, h4⟩ := paragraphsOps_spec ps 0 0 h
  have hclear : Stores L.clear ([] : List (LineSpec φ)) [] L.startY := by
    refine ⟨rfl, rfl, rfl, rfl, ?_, rfl, ?_, rfl⟩ <;> intro i r hr <;> simp [allRuns] at hr
  obtain ⟨L1, h5, h6⟩ := steps_stores ops (L := L.clear) (d := ⟨[], [], L.startY⟩) hclear (h4 _ rfl rfl)
  have hbuild : buildLayout L ps count yAlign H = some (L1.alignY H yAlign) := by
    unfold buildLayout
    rw [h1, Option.bind_some]
    have : execLayout L (.clear :: ops) = some L1 := h5
    rw [this]; rfl
  simp only [List.nil_append] at h6
  refine ⟨_, new, rs, hbuild, ?_, h2, h3, ?_⟩
  · unfold Layout.alignY
    exact { h6 with startY := rfl }
  · intro δ key hkey
    obtain ⟨qss, q1, q2, q3, q4⟩ := paragraphsOps_labels key h hkey h1
    refine ⟨qss, q1, ?_, q4⟩
    have := steps_labels key q2 (h4 ⟨[], [], 0⟩ rfl rfl)
    simp only [List.nil_append, List.append_nil] at this
    rw [this]
    simpa [runsGlyphs, allRuns] using q3

/-! ### Drawing -/

theorem drawn_labels {κ σ : Type} [DecidableEq κ] {L : Layout φ} {ls : List (LineSpec φ)} {y : Rat} (h : Stores L ls [] y)
    {d : Fmt κ σ} (hd : d.Proper) {n : Nat} (he : d.EndsAt n)
    {col : Nat → κ} {stk : Nat → σ} {str und : Nat → Bool} (hm : d.Means col stk str und) (visible : σ → Bool)
    (metrics : φ → FontMetrics) (W : Rat) (al : XAlignment)
    (hn : ∀ r ∈ allRuns ls, (if r.rtl then r.charEnd else r.charStart) < n) (key : φ → δ) :
    ∃ out, drawText L d.view visible metrics W al = some out ∧
      out.filterMap (DrawCall.label key) = (runsGlyphs key (allRuns ls)).flatMap fun g =>
        (if visible (stk g.2.2) then [(g.1, g.2.1, .inr (stk g.2.2))] else []) ++ [(g.1, g.2.1, .inl (col g.2.2))] := by
  obtain ⟨chunks, e1, e2, e3⟩ := C16_draw_order h hd he hm visible metrics W al hn
  refine ⟨_, e1, ?_⟩
  have hf : ∀ l : List (DrawCall φ κ σ), (l.filter DrawCall.isMain).filterMap (DrawCall.label key) = l.filterMap (DrawCall.label key) := by
    intro l
    induction l with
    | nil => rfl
    | cons a t ih => cases a <;> simp [List.filter_cons, List.filterMap_cons, DrawCall.isMain, DrawCall.label, ih]
  rw [List.filterMap_flatten, ← placedRuns_runs W al ls y, runsGlyphs, List.flatMap_map, List.flatMap_assoc]
  apply flatten_eq_flatMap
  · simpa using e2
  · intro k p b hp hb
    rw [List.getElem?_map] at hb
    cases hch : chunks[k]? with
    | none => rw [hch] at hb; cases hb
    | some chunk =>
      rw [hch] at hb
      cases hb
      obtain ⟨m, _, hmain⟩ := e3 k p.1 p.2.1 p.2.2 chunk hp hch
      rw [← hf, hmain, List.filterMap_cons_none rfl, List.filterMap_flatMap, List.flatMap_map]
      congr 1
      funext g
      split <;> rfl

/-- The run lists of a formatting. -/
def FormattingRuns.fmt {F : Type} (f : FormattingRuns F) : Fmt (Color F) (StrokeState F) where
  color := f.color.limits.zip f.color.values
  stroke := f.stroke.limits.zip f.stroke.values
  strike := (f.flags .strikethrough).limits.zip (f.flags .strikethrough).values
  underline := (f.flags .underline).limits.zip (f.flags .underline).values

theorem RunsFit.sorted {α : Type _} {r : ValueRuns α} {n : Nat} (h : RunsFit r n) :
    SortedLimits (r.limits.zip r.values) ∧ r.limits.zip r.values ≠ [] ∧ endOf (r.limits.zip r.values) = some (n : Int) ∧
      ∀ p ∈ r.limits.zip r.values, 0 ≤ p.1 ∧ p.1 ≤ (n : Int) := by
  have h2 := h.holds
  have hs : SortedLimits (r.limits.zip r.values) := by
    unfold SortedLimits
    rw [← List.pairwise_map (f := Prod.fst) (R := (· ≤ ·)), ← h2.1]
    exact h.2.2.1
  have he : endOf (r.limits.zip r.values) = some (n : Int) := by
    unfold endOf
    have := h.2.2.2.2
    rw [h2.1, List.getLast?_map] at this
    exact this
  refine ⟨hs, List.length_pos_iff.1 (endOf_ne he), he, ?_⟩
  intro p hp
  refine ⟨h.2.2.2.1 _ (List.of_mem_zip hp).1, ?_⟩
  obtain ⟨q, hq, hqn⟩ := Option.map_eq_some_iff.1 he
  obtain ⟨init, hi⟩ := List.getLast?_eq_some_iff.1 hq
  rw [hi] at hp hs
  rcases List.mem_append.1 hp with hp | hp
  · have := (List.pairwise_append.1 hs).2.2 p hp q (by simp); omega
  · rw [List.mem_singleton] at hp; subst hp; omega

theorem FormattingRuns.fmt_proper {F : Type} {f : FormattingRuns F} {n : Nat} (h : AllRunsFit f n) (hn : n < 2147483648) :
    f.fmt.Proper ∧ f.fmt.EndsAt n ∧ f.fmt.view = f.drawView := by
  obtain ⟨-, h1, h2, h3⟩ := h
  have b : ∀ k, ∀ p ∈ (f.flags k).limits.zip (f.flags k).values, 0 ≤ p.1 ∧ p.1 < 2147483648 := by
    intro k p hp
    have := (h3 k).sorted.2.2.2 p hp
    omega
  refine ⟨⟨⟨h1.sorted.1, h1.sorted.2.1⟩, ⟨h2.sorted.1, h2.sorted.2.1⟩, ⟨(h3 _).sorted.1, (h3 _).sorted.2.1⟩,
    ⟨(h3 _).sorted.1, (h3 _).sorted.2.1⟩, b _, b _⟩,
    ⟨h1.sorted.2.2.1, h2.sorted.2.2.1, (h3 _).sorted.2.2.1, (h3 _).sorted.2.2.1⟩, ?_⟩
  unfold Fmt.view FormattingRuns.drawView FormattingRuns.fmt
  congr 1
  · exact (ValueRuns.holds_ofAdds _).shows.ext h1.holds.shows
  · exact (ValueRuns.holds_ofAdds _).shows.ext h2.holds.shows
  · exact (BoolRuns.shows_ofAdds _ (b _)).ext (h3 _).holds.shows
  · exact (BoolRuns.shows_ofAdds _ (b _)).ext (h3 _).holds.shows

theorem RunsFit.value {α : Type _} {r : ValueRuns α} {n : Nat} (h : RunsFit r n) {c : Nat} {x : α} (hx : r.view.getValue (c : Int) = some x) :
    valueOrLast (r.limits.zip r.values) c = some x := by
  rw [h.holds.shows.getValue h.sorted.1] at hx
  unfold valueOrLast
  rw [hx]; rfl

theorem Stores.run_iff {L : Layout φ} {ls : List (LineSpec φ)} {y : Rat} (h : Stores L ls [] y) (n : Nat) :
    (∀ r ∈ L.runs, (if r.rtl then r.charEnd else r.charStart) < n) ↔
      ∀ r ∈ allRuns ls, (if r.rtl then r.charEnd else r.charStart) < n := by
  have hr := h.runs
  have hc := h.runCount
  rw [List.append_nil] at hr hc
  constructor
  · intro hh r hm
    obtain ⟨i, hi⟩ := List.mem_iff_getElem?.1 hm
    exact hh _ (List.mem_of_getElem? (hr i r hi))
  · intro hh r hm
    obtain ⟨i, hi⟩ := List.mem_iff_getElem?.1 hm
    have hlt := (List.getElem?_eq_some_iff.1 hi).1
    rw [hc] at hlt
    have he := List.getElem?_eq_getElem hlt
    have := hr i _ he
    rw [hi] at this
    cases this
    exact hh _ (List.mem_of_getElem? he)

/-! ### Parts -/

theorem Subs.spec {e : ShapeEnv β φ} (hC : e.Contract) {calls : List (Nat × β)} {off : Nat} {qs : List (Sub β φ)}
    (h : Subs e calls off qs) :
    (∀ q ∈ qs, off ≤ q.first ∧ ∀ i, q.first ≤ i → i < q.stop → ∃ lim, calls.find? (fun c => decide (i < c.1)) = some (lim, q.args)) ∧
    ∃ fin, Consecutive fin off (qs.map fun q => (q.first, q.stop)) ∧ (∀ c ∈ calls, c.1 ≤ fin) ∧ (fin = off ∨ ∃ c ∈ calls, fin ≤ c.1) := by
  induction h with
  | nil off => exact ⟨by simp, off, rfl, by simp, .inl rfl⟩
  | @next limit v calls off qs hle hs ih =>
    obtain ⟨h1, fin, h2, h3, h4⟩ := ih
    refine ⟨?_, fin, h2, ?_, ?_⟩
    · intro q hq
      obtain ⟨a, b⟩ := h1 q hq
      refine ⟨a, fun i hi hi' => ?_⟩
      rw [List.find?_cons_of_neg (by simp only [decide_eq_true_eq]; omega)]
      exact b i hi hi'
    · intro c hc
      rcases List.mem_cons.1 hc with rfl | hc
      · have := h2.le; simp only; omega
      · exact h3 c hc
    · rcases h4 with h4 | ⟨c, hc, h4⟩
      · exact .inl h4
      · exact .inr ⟨c, List.mem_cons_of_mem _ hc, h4⟩
  | @sub limit v calls off qs hlt hs ih =>
    obtain ⟨g1, g2⟩ := hC.subFont v off limit hlt
    obtain ⟨h1, fin, h2, h3, h4⟩ := ih
    refine ⟨?_, fin, ?_, h3, ?_⟩
    · intro q hq
      rcases List.mem_cons.1 hq with rfl | hq
      · refine ⟨Nat.le_refl _, fun i hi hi' => ⟨limit, ?_⟩⟩
        rw [List.find?_cons_of_pos (by simp only [decide_eq_true_eq] at *; omega)]
      · obtain ⟨a, b⟩ := h1 q hq
        exact ⟨by omega, b⟩
    · exact ⟨rfl, g1, h2⟩
    · rcases h4 with h4 | h4
      · exact .inr ⟨_, List.mem_cons_self .., by simp only; omega⟩
      · exact .inr h4

theorem Subs.covers {e : ShapeEnv β φ} (hC : e.Contract) {calls : List (Nat × β)} {off stop : Nat} {qs : List (Sub β φ)}
    (h : Subs e calls off qs) (hc : CallsTo stop calls) (ho : off ≤ stop) :
    Consecutive stop off (qs.map fun q => (q.first, q.stop)) := by
  obtain ⟨-, fin, h2, h3, h4⟩ := h.spec hC
  have hle : ∀ c ∈ calls, c.1 ≤ stop := by
    intro c hm
    cases hgl : calls.getLast? with
    | none => rw [List.getLast?_eq_none_iff] at hgl; rw [hgl] at hm; cases hm
    | some x =>
      obtain ⟨init, hi⟩ := List.getLast?_eq_some_iff.1 hgl
      have hx : x.1 = stop := by have := hc.last; rw [hgl] at this; simpa using this
      have hp := hc.sorted
      rw [hi] at hm hp
      rcases List.mem_append.1 hm with hm | hm
      · have := (List.pairwise_append.1 hp).2.2 c hm x (by simp); omega
      · rw [List.mem_singleton] at hm; rw [hm]; omega
  have hge : stop ≤ fin := by
    cases hgl : calls.getLast? with
    | none => have := hc.last; rw [hgl] at this; simp at this
    | some x =>
      have hx : x.1 = stop := by have := hc.last; rw [hgl] at this; simpa using this
      have := h3 x (List.mem_of_getLast? hgl); omega
  have : fin = stop := by
    rcases h4 with h4 | ⟨c, hm, h4⟩
    · omega
    · have := hle c hm; omega
  rw [← this]; exact h2

end RichText
