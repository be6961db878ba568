import Verif.Spec.Strokes
/-! Proofs about the objects of FreeType. -/
namespace RichText
namespace FtHeap

theorem WF.of_live {s s' : FtHeap} (h : s.WF) (hl : s'.live = s.live) (hn : s'.next = s.next) : s'.WF :=
  ⟨by rw [hl]; exact h.nodup, fun o ho => by rw [hn]; exact h.given o (hl ▸ ho)⟩

theorem WF.alloc {s : FtHeap} (h : s.WF) (k : FtKind) : (s.alloc k).2.WF := by
  refine ⟨?_, ?_⟩
  · show (List.map (·.id) (⟨s.next, k⟩ :: s.live)).Nodup
    rw [List.map_cons, List.nodup_cons]
    refine ⟨fun hm => ?_, h.nodup⟩
    obtain ⟨o, ho, he⟩ := List.mem_map.1 hm
    have := h.given o ho
    simp only at he
    omega
  · intro o ho
    rcases List.mem_cons.1 ho with rfl | ho
    · exact Nat.lt_succ_self _
    · exact Nat.lt_succ_of_lt (h.given o ho)

theorem WF.free {s s' : FtHeap} {p : Option FtObj} (h : s.WF) (hf : s.free p = some s') : s'.WF := by
  unfold FtHeap.free at hf
  cases p with
  | none => cases hf
  | some o =>
    simp only [Option.bind_some] at hf
    split at hf
    · simp only [Option.some.injEq] at hf
      subst hf
      exact ⟨h.nodup.sublist (List.Sublist.map _ List.erase_sublist), fun x hx => h.given x (List.mem_of_mem_erase hx)⟩
    · cases hf

theorem free_perm {s : FtHeap} {o : FtObj} {l : List FtObj} (hp : s.live.Perm (o :: l)) :
    ∃ s', s.free (some o) = some s' ∧ s'.live.Perm l := by
  have hm : o ∈ s.live := hp.mem_iff.2 List.mem_cons_self
  refine ⟨{ s with live := s.live.erase o }, by simp [FtHeap.free, hm], ?_⟩
  have := hp.erase o
  rwa [List.erase_cons_head] at this

theorem fresh {s : FtHeap} (h : s.WF) (n : Nat) (k : FtKind) (hn : s.next ≤ n) : (⟨n, k⟩ : FtObj) ∉ s.live := by
  intro hm
  have := h.given _ hm
  simp only at this
  omega

@[simp] theorem load_live (lib : StrokeLib) (s : FtHeap) (a g : Nat) : (s.load lib a g).live = s.live := rfl
@[simp] theorem load_next (lib : StrokeLib) (s : FtHeap) (a g : Nat) : (s.load lib a g).next = s.next := rfl
@[simp] theorem rewrite_live (s : FtHeap) (a : Nat) : (s.rewrite a).live = s.live := rfl
@[simp] theorem rewrite_next (s : FtHeap) (a : Nat) : (s.rewrite a).next = s.next := rfl
@[simp] theorem synth_live (s : FtHeap) (a : Nat) (y : Bool) : (applySynthetics s a y).live = s.live := by
  cases y <;> rfl
@[simp] theorem synth_next (s : FtHeap) (a : Nat) (y : Bool) : (applySynthetics s a y).next = s.next := by
  cases y <;> rfl
theorem load_glyph (lib : StrokeLib) (s : FtHeap) (a g : Nat) :
    ((s.load lib a g).slot a).glyph = if lib.loads a g then some g else none := by
  simp [load]
theorem touch_iff {s : FtHeap} {p : Option FtObj} {k : FtKind} {o : FtObj} :
    s.touch p k = some o ↔ p = some o ∧ o ∈ s.live ∧ o.kind = k := by
  unfold touch
  cases p with
  | none => simp
  | some q =>
    simp only [Option.bind_some]
    split
    · rename_i h
      constructor
      · rintro ⟨⟩; exact ⟨rfl, h⟩
      · rintro ⟨h', _⟩; exact h'
    · rename_i h
      constructor
      · rintro ⟨⟩
      · rintro ⟨⟨⟩, h'⟩; exact absurd h' h

end FtHeap

/-- The state in which the stroke has been drawn. -/
theorem strokeBitmap_some {lib : StrokeLib} {y : Bool} {a g t : Nat} {s : FtHeap} (hs : s.WF)
    (h : (DrawRequest.stroke a g t y).Possible lib) :
    ∃ st b s', strokeBitmap lib y a g t s = some (st, some b, s') ∧ s'.WF ∧
      ∃ g0 : FtObj, g0.kind = .outlineGlyph ∧ s'.live = b :: st :: g0 :: s.live := by
  obtain ⟨h1, h2, h3⟩ := h
  have e1 : (s.load lib a g).getGlyph a = (some ⟨s.next, .outlineGlyph⟩, ((s.load lib a g).alloc .outlineGlyph).2) := by
    unfold FtHeap.getGlyph
    rw [FtHeap.load_glyph, h1]
    rfl
  have wf0 : (s.load lib a g).WF := hs.of_live rfl rfl
  have wf1 := wf0.alloc .outlineGlyph
  have wf2 := wf1.alloc .stroker
  have wf3 := wf2.alloc .outlineGlyph
  have wf4 : (applySynthetics (((((s.load lib a g).alloc .outlineGlyph).2.alloc .stroker).2.alloc .outlineGlyph).2) a y).WF :=
    wf3.of_live (FtHeap.synth_live _ _ _) (FtHeap.synth_next _ _ _)
  have wf5 := wf4.alloc .bitmapGlyph
  refine ⟨⟨s.next + 1, .stroker⟩, ⟨s.next + 3, .bitmapGlyph⟩,
    { ((applySynthetics (((((s.load lib a g).alloc .outlineGlyph).2.alloc .stroker).2.alloc .outlineGlyph).2) a y).alloc .bitmapGlyph).2 with
      live := ⟨s.next + 3, .bitmapGlyph⟩ :: ⟨s.next + 1, .stroker⟩ :: ⟨s.next, .outlineGlyph⟩ :: s.live }, ?_, ?_, ⟨s.next, .outlineGlyph⟩, rfl, ?_⟩
  · unfold strokeBitmap
    simp only [e1, h2, h3]
    simp [FtHeap.touch, FtHeap.alloc, FtHeap.strokeGlyph, FtHeap.toBitmap, FtHeap.free]
  · refine ⟨?_, ?_⟩
    · refine (wf5.nodup.sublist (l₁ := _) ?_)
      refine List.Sublist.map _ ?_
      simp only [FtHeap.alloc, FtHeap.synth_live, FtHeap.synth_next, FtHeap.load_live, FtHeap.load_next]
      exact List.Sublist.cons_cons _ (List.Sublist.cons _ (List.Sublist.refl _))
    · intro o ho
      refine wf5.given o ?_
      simp only [FtHeap.alloc, FtHeap.synth_live, FtHeap.synth_next, FtHeap.load_live, FtHeap.load_next]
      simp only [List.mem_cons] at ho ⊢
      rcases ho with h | h | h
      · exact Or.inl h
      · exact Or.inr (Or.inr (Or.inl h))
      · exact Or.inr (Or.inr (Or.inr h))
  · rfl

theorem strokeBitmap_none {lib : StrokeLib} {y : Bool} {a g t : Nat} {s : FtHeap}
    (h : ¬ (DrawRequest.stroke a g t y).Possible lib) : strokeBitmap lib y a g t s = none := by
  unfold DrawRequest.Possible at h
  cases h1 : lib.loads a g with
  | false =>
    have e1 : (s.load lib a g).getGlyph a = (none, s.load lib a g) := by
      unfold FtHeap.getGlyph
      rw [FtHeap.load_glyph, h1]
      rfl
    unfold strokeBitmap
    simp [e1, FtHeap.touch]
  | true =>
    have e1 : (s.load lib a g).getGlyph a = (some ⟨s.next, .outlineGlyph⟩, ((s.load lib a g).alloc .outlineGlyph).2) := by
      unfold FtHeap.getGlyph
      rw [FtHeap.load_glyph, h1]
      rfl
    cases h2 : lib.strokes a g t with
    | false =>
      unfold strokeBitmap
      simp [e1, h2, FtHeap.touch, FtHeap.alloc, FtHeap.strokeGlyph]
    | true =>
      cases h3 : lib.renders a g t with
      | false =>
        unfold strokeBitmap
        simp [e1, h2, h3, FtHeap.touch, FtHeap.alloc, FtHeap.strokeGlyph, FtHeap.toBitmap]
      | true => exact absurd ⟨h1, h2, h3⟩ h

theorem strokeOutline_some {lib : StrokeLib} {y : Bool} {a g t : Nat} {s : FtHeap} (hs : s.WF)
    (h : (DrawRequest.strokeCurve a g t y).Possible lib) :
    ∃ rc ps st c s', strokeOutline lib y a g t s = some ((rc, ps), st, some c, s') ∧ s'.WF ∧
      rc.kind = .record ∧ c.kind = .outlineGlyph ∧
      ∃ g0 : FtObj, g0.kind = .outlineGlyph ∧ s'.live = ps :: rc :: c :: st :: g0 :: s.live := by
  obtain ⟨h1, h2⟩ := h
  have e1 : (s.load lib a g).getGlyph a = (some ⟨s.next, .outlineGlyph⟩, ((s.load lib a g).alloc .outlineGlyph).2) := by
    unfold FtHeap.getGlyph
    rw [FtHeap.load_glyph, h1]
    rfl
  have wf0 : (s.load lib a g).WF := hs.of_live rfl rfl
  have wf := ((((wf0.alloc .outlineGlyph).alloc .stroker).alloc .outlineGlyph).alloc .record).alloc .points
  refine ⟨⟨s.next + 3, .record⟩, ⟨s.next + 4, .points⟩, ⟨s.next + 1, .stroker⟩, ⟨s.next + 2, .outlineGlyph⟩, _, ?_,
    wf.of_live (FtHeap.synth_live _ a y) (FtHeap.synth_next _ a y), rfl, rfl, ⟨s.next, .outlineGlyph⟩, rfl, ?_⟩
  · unfold strokeOutline
    simp only [e1, h2]
    simp [FtHeap.touch, FtHeap.alloc, FtHeap.strokeGlyph]
  · simp [FtHeap.alloc]

theorem strokeOutline_none {lib : StrokeLib} {y : Bool} {a g t : Nat} {s : FtHeap}
    (h : ¬ (DrawRequest.strokeCurve a g t y).Possible lib) : strokeOutline lib y a g t s = none := by
  unfold DrawRequest.Possible at h
  cases h1 : lib.loads a g with
  | false =>
    have e1 : (s.load lib a g).getGlyph a = (none, s.load lib a g) := by
      unfold FtHeap.getGlyph
      rw [FtHeap.load_glyph, h1]
      rfl
    unfold strokeOutline
    simp [e1, FtHeap.touch]
  | true =>
    have e1 : (s.load lib a g).getGlyph a = (some ⟨s.next, .outlineGlyph⟩, ((s.load lib a g).alloc .outlineGlyph).2) := by
      unfold FtHeap.getGlyph
      rw [FtHeap.load_glyph, h1]
      rfl
    cases h2 : lib.strokes a g t with
    | false =>
      unfold strokeOutline
      simp [e1, h2, FtHeap.touch, FtHeap.alloc, FtHeap.strokeGlyph]
    | true => exact absurd ⟨h1, h2⟩ h

theorem perm_front2 {α : Type _} (l : List α) (a b c : α) (t : List α) :
    (l ++ a :: b :: c :: t).Perm (b :: a :: (l ++ c :: t)) := by
  have h1 : (l ++ a :: b :: c :: t).Perm (a :: (l ++ b :: c :: t)) := List.perm_middle
  have h2 : (l ++ b :: c :: t).Perm (b :: (l ++ c :: t)) := List.perm_middle
  exact h1.trans ((h2.cons a).trans (List.Perm.swap _ _ _))

/-- A stroke as a bitmap leaves one glyph more than its functor. -/
theorem rasterizeStroke_leaves {lib : StrokeLib} {y : Bool} {a g t n : Nat} {f : FtUse} (hf : f.Leaves n)
    (h : (DrawRequest.stroke a g t y).Possible lib) {s : FtHeap} (hs : s.WF) :
    ∃ s' l, rasterizeStroke lib y a g t f s = some s' ∧ s.Adds s' l ∧ l.length = n + 1 ∧ ∀ o ∈ l, o.kind = .outlineGlyph := by
  obtain ⟨st, b, s1, e1, w1, g0, hg, hl⟩ := strokeBitmap_some hs h
  obtain ⟨s2, l, e2, ⟨w2, p2⟩, hn, hk⟩ := hf s1 (.obj b) w1 (by simp [FtData.There, hl])
  rw [hl] at p2
  obtain ⟨s3, e3, p3⟩ := FtHeap.free_perm (p2.trans (perm_front2 l b st g0 s.live))
  obtain ⟨s4, e4, p4⟩ := FtHeap.free_perm p3
  refine ⟨s4, l ++ [g0], ?_, ⟨(w2.free e3).free e4, by simpa using p4⟩, by simp [hn], ?_⟩
  · unfold rasterizeStroke strokeBitmapFinish
    simp [e1, e2, e3, e4]
  · intro o ho
    rcases List.mem_append.1 ho with ho | ho
    · exact hk o ho
    · rw [List.mem_singleton.1 ho]; exact hg

theorem perm_front4 {α : Type _} (l : List α) (a b c d e : α) (t : List α) :
    (l ++ a :: b :: c :: d :: e :: t).Perm (a :: d :: c :: b :: (l ++ e :: t)) := by
  have h1 : (l ++ a :: b :: c :: d :: e :: t).Perm (a :: (l ++ b :: c :: d :: e :: t)) := List.perm_middle
  have h2 : (l ++ b :: c :: d :: e :: t).Perm (c :: b :: (l ++ d :: e :: t)) := perm_front2 l b c d (e :: t)
  have h3 : (l ++ d :: e :: t).Perm (d :: (l ++ e :: t)) := List.perm_middle
  refine h1.trans ((h2.trans ?_).cons a)
  refine (((h3.cons b).trans (List.Perm.swap _ _ _)).cons c).trans ?_
  exact List.Perm.swap _ _ _

/-- So does a stroke as a curve. -/
theorem loadStrokeCurve_leaves {lib : StrokeLib} {y : Bool} {a g t n : Nat} {f : FtUse} (hf : f.Leaves n)
    (h : (DrawRequest.strokeCurve a g t y).Possible lib) {s : FtHeap} (hs : s.WF) :
    ∃ s' l, loadStrokeCurve lib y a g t f s = some s' ∧ s.Adds s' l ∧ l.length = n + 1 ∧ ∀ o ∈ l, o.kind = .outlineGlyph := by
  obtain ⟨rc, ps, st, c, s1, e1, w1, hr, hc, g0, hg, hl⟩ := strokeOutline_some hs h
  obtain ⟨s2, l, e2, ⟨w2, p2⟩, hn, hk⟩ := hf s1 (.obj ps) w1 (by simp [FtData.There, hl])
  rw [hl] at p2
  have t1 : s2.touch (some c) .outlineGlyph = some c :=
    FtHeap.touch_iff.2 ⟨rfl, p2.mem_iff.2 (by simp), hc⟩
  have t2 : s2.touch (some rc) .record = some rc :=
    FtHeap.touch_iff.2 ⟨rfl, p2.mem_iff.2 (by simp), hr⟩
  obtain ⟨s3, e3, p3⟩ := FtHeap.free_perm (p2.trans (perm_front4 l ps rc c st g0 s.live))
  obtain ⟨s4, e4, p4⟩ := FtHeap.free_perm p3
  obtain ⟨s5, e5, p5⟩ := FtHeap.free_perm p4
  obtain ⟨s6, e6, p6⟩ := FtHeap.free_perm p5
  refine ⟨s6, l ++ [g0], ?_, ⟨(((w2.free e3).free e4).free e5).free e6, by simpa using p6⟩, by simp [hn], ?_⟩
  · unfold loadStrokeCurve strokeOutlineFinish
    simp [e1, e2, t1, t2, e3, e4, e5, e6]
  · intro o ho
    rcases List.mem_append.1 ho with ho | ho
    · exact hk o ho
    · rw [List.mem_singleton.1 ho]; exact hg

/-- Glyphs leave what their functor leaves. -/
theorem slot_leaves {f : FtUse} {n : Nat} (hf : f.Leaves n) {s s1 : FtHeap} (hs : s.WF) (hl : s1.live = s.live)
    (hn : s1.next = s.next) (a : Nat) :
    ∃ s' l, f s1 (.slot a (s1.slot a).stamp) = some s' ∧ s.Adds s' l ∧ l.length = n ∧ ∀ o ∈ l, o.kind = .outlineGlyph := by
  obtain ⟨s', l, h1, ⟨h2, h3⟩, h4⟩ := hf s1 (.slot a (s1.slot a).stamp) (hs.of_live hl hn) (by simp [FtData.There])
  exact ⟨s', l, h1, ⟨h2, hl ▸ h3⟩, h4⟩

theorem run_leaves {lib : StrokeLib} {f : FtUse} {n : Nat} (hf : f.Leaves n) (r : DrawRequest) (h : r.Possible lib)
    {s : FtHeap} (hs : s.WF) :
    ∃ s' l, r.run lib f s = some s' ∧ s.Adds s' l ∧ l.length = n + (if r.isStroke then 1 else 0) ∧
      ∀ o ∈ l, o.kind = .outlineGlyph := by
  cases r with
  | glyph a g y => exact slot_leaves hf hs (by simp) (by simp) a
  | curve a g y => exact slot_leaves hf hs (by simp) (by simp) a
  | stroke a g t y => exact rasterizeStroke_leaves hf h hs
  | strokeCurve a g t y => exact loadStrokeCurve_leaves hf h hs

theorem run_none {lib : StrokeLib} {f : FtUse} (r : DrawRequest) (h : ¬ r.Possible lib) (s : FtHeap) : r.run lib f s = none := by
  cases r with
  | glyph a g y => exact absurd trivial h
  | curve a g y => exact absurd trivial h
  | stroke a g t y => simp [DrawRequest.run, rasterizeStroke, strokeBitmap_none h]
  | strokeCurve a g t y => simp [DrawRequest.run, loadStrokeCurve, strokeOutline_none h]

theorem readData_iff (s s' : FtHeap) (d : FtData) : readData s d = some s' ↔ s' = s ∧ d.There s := by
  unfold readData
  cases d <;> simp only [FtHeap.readable, FtData.There, beq_iff_eq, decide_eq_true_eq, Option.ite_none_right_eq_some, Option.some.injEq] <;>
    exact ⟨fun h => ⟨h.2.symm, h.1⟩, fun h => ⟨h.2, h.1.symm⟩⟩

theorem readData_leaves : FtUse.Leaves readData 0 := by
  intro s d hs hd
  exact ⟨s, [], (readData_iff _ _ _).2 ⟨rfl, hd⟩, ⟨hs, List.Perm.refl _⟩, rfl, by simp⟩

theorem FtHeap.free_slot {s s' : FtHeap} {p : Option FtObj} (h : s.free p = some s') : s'.slot = s.slot := by
  unfold FtHeap.free at h
  cases p with
  | none => cases h
  | some o =>
    simp only [Option.bind_some] at h
    split at h
    · cases h; rfl
    · cases h

theorem FtHeap.getGlyph_slot (s : FtHeap) (a : Nat) : (s.getGlyph a).2.slot = s.slot := by
  unfold FtHeap.getGlyph
  split <;> rfl

theorem FtHeap.strokeGlyph_slot {s : FtHeap} {ok d : Bool} {g st : Option FtObj} {r : Option FtObj × FtHeap}
    (h : s.strokeGlyph ok d g st = some r) : r.2.slot = s.slot := by
  unfold FtHeap.strokeGlyph at h
  simp only [Option.bind_eq_some_iff] at h
  obtain ⟨x, _, y, _, h⟩ := h
  cases ok <;> cases d <;> simp only at h
  · cases h; rfl
  · cases h; rfl
  · cases h; rfl
  · obtain ⟨s', h1, rfl⟩ := Option.map_eq_some_iff.1 h
    exact (FtHeap.free_slot h1).trans rfl

theorem FtHeap.toBitmap_slot {s : FtHeap} {ok d : Bool} {g : Option FtObj} {r : Option FtObj × FtHeap}
    (h : s.toBitmap ok d g = some r) : r.2.slot = s.slot := by
  unfold FtHeap.toBitmap at h
  simp only [Option.bind_eq_some_iff] at h
  obtain ⟨x, _, h⟩ := h
  cases ok <;> cases d <;> simp only at h
  · cases h; rfl
  · cases h; rfl
  · cases h; rfl
  · obtain ⟨s', h1, rfl⟩ := Option.map_eq_some_iff.1 h
    exact (FtHeap.free_slot h1).trans rfl

theorem load_stamp (lib : StrokeLib) (s : FtHeap) (a g : Nat) : ((s.load lib a g).slot a).stamp = (s.slot a).stamp + 1 := by
  simp [FtHeap.load]

theorem synth_stamp (s : FtHeap) (a : Nat) (y : Bool) : (s.slot a).stamp ≤ ((applySynthetics s a y).slot a).stamp := by
  cases y <;> simp [applySynthetics, FtHeap.rewrite]

/-- Every request writes to the slot of its face. -/
theorem run_stamp {lib : StrokeLib} (r : DrawRequest) {s s' : FtHeap} (h : r.run lib readData s = some s') :
    (s.slot r.face).stamp < (s'.slot r.face).stamp := by
  cases r with
  | glyph a g y =>
    simp only [DrawRequest.run, rasterizeGlyph, readData_iff] at h
    obtain ⟨rfl, _⟩ := h
    have h1 := load_stamp lib s a g
    have h2 := synth_stamp (s.load lib a g) a y
    simp only [FtHeap.rewrite, DrawRequest.face, if_true]
    omega
  | curve a g y =>
    simp only [DrawRequest.run, loadCurve, readData_iff] at h
    obtain ⟨rfl, _⟩ := h
    have h1 := load_stamp lib s a g
    have h2 := synth_stamp (s.load lib a g) a y
    simp only [DrawRequest.face]
    omega
  | stroke a g t y =>
    simp only [DrawRequest.run, rasterizeStroke, strokeBitmap, strokeBitmapFinish, readData_iff, Option.bind_eq_some_iff,
      Option.map_eq_some_iff] at h
    obtain ⟨_, ⟨_, _, q, hq, _, _, b, hb, _, _, rfl⟩, o, _, s3, ⟨rfl, _⟩, s4, h4, h5⟩ := h
    have h1 := load_stamp lib s a g
    have h2 := synth_stamp q.2 a y
    rw [FtHeap.free_slot h5, FtHeap.free_slot h4]
    simp only [DrawRequest.face]
    rw [FtHeap.toBitmap_slot hb]
    rw [FtHeap.strokeGlyph_slot hq] at h2
    simp only [FtHeap.alloc, FtHeap.getGlyph_slot] at h2
    omega
  | strokeCurve a g t y =>
    simp only [DrawRequest.run, loadStrokeCurve, strokeOutline, strokeOutlineFinish, readData_iff, Option.bind_eq_some_iff,
      Option.map_eq_some_iff] at h
    obtain ⟨_, ⟨_, _, q, hq, _, _, rfl⟩, s3, ⟨rfl, _⟩, _, _, _, _, s4, h4, s5, h5, s6, h6, h7⟩ := h
    have h1 := load_stamp lib s a g
    have h2 := synth_stamp ((q.2.alloc .record).2.alloc .points).2 a y
    rw [FtHeap.free_slot h7, FtHeap.free_slot h6, FtHeap.free_slot h5, FtHeap.free_slot h4]
    simp only [DrawRequest.face]
    have h3 : ((q.2.alloc .record).2.alloc .points).2.slot = q.2.slot := rfl
    rw [h3, FtHeap.strokeGlyph_slot hq] at h2
    simp only [FtHeap.alloc, FtHeap.getGlyph_slot] at h2
    simp only [FtHeap.alloc] at *
    omega

theorem runRequests_leaves {lib : StrokeLib} : ∀ (l : List DrawRequest) (s : FtHeap), s.WF → (∀ r ∈ l, r.Possible lib) →
    ∃ s' k, runRequests lib l s = some s' ∧ s.Adds s' k ∧ k.length = l.countP (·.isStroke) ∧ ∀ o ∈ k, o.kind = .outlineGlyph
  | [], s, hs, _ => ⟨s, [], rfl, ⟨hs, List.Perm.refl _⟩, rfl, by simp⟩
  | r :: t, s, hs, h => by
    obtain ⟨s1, l1, e1, ⟨w1, p1⟩, n1, k1⟩ := run_leaves readData_leaves r (h r List.mem_cons_self) hs
    obtain ⟨s2, l2, e2, ⟨w2, p2⟩, n2, k2⟩ := runRequests_leaves t s1 w1 fun r hr => h r (List.mem_cons_of_mem _ hr)
    refine ⟨s2, l2 ++ l1, by simp [runRequests, e1, e2], ⟨w2, ?_⟩, ?_, ?_⟩
    · rw [List.append_assoc]
      exact p2.trans (List.Perm.append_left _ p1)
    · rw [List.length_append, n1, n2, List.countP_cons]
      omega
    · intro o ho
      rcases List.mem_append.1 ho with ho | ho
      · exact k2 o ho
      · exact k1 o ho

theorem runRequests_defined {lib : StrokeLib} : ∀ (l : List DrawRequest) (s s' : FtHeap), runRequests lib l s = some s' →
    ∀ r ∈ l, r.Possible lib
  | r :: t, s, s', h, q, hq => by
    simp only [runRequests, Option.bind_eq_some_iff] at h
    obtain ⟨s1, h1, h2⟩ := h
    rcases List.mem_cons.1 hq with rfl | hq
    · refine Classical.byContradiction fun hn => ?_
      rw [run_none _ hn] at h1
      cases h1
    · exact runRequests_defined t s1 s' h2 q hq

end RichText
