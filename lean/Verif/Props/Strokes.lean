import Verif.Proof.Strokes
/-!
C105: the objects of FreeType used to draw a glyph or the stroke around it.
-/
namespace RichText

/-- C105, what holds: if FreeType can do what a request needs, every object used exists and has the right type, the data
exists while the functor runs, nothing is given back twice; whatever the functor itself does with FreeType, as long as it
is defined and leaves only glyphs.  Missing: without `Possible` (`C105_failure_violated`); a stroke leaves one glyph behind
(`C105_leak_violated`). -/
theorem C105_request_partial (lib : StrokeLib) (r : DrawRequest) (hr : r.Possible lib) {f : FtUse} {n : Nat} (hf : f.Leaves n)
    {s : FtHeap} (hs : s.WF) :
    ∃ s' l, r.run lib f s = some s' ∧ s'.WF ∧ s'.live.Perm (l ++ s.live) ∧ (∀ o ∈ l, o.kind = .outlineGlyph) ∧
      l.length = n + (if r.isStroke then 1 else 0) := by
  obtain ⟨s', l, h1, ⟨h2, h3⟩, h4, h5⟩ := run_leaves hf r hr hs
  exact ⟨s', l, h1, h2, h3, h5, h4⟩

/-- C105: glyphs that are not stroked leave nothing and never go wrong, whether they load or not. -/
theorem C105_glyph (lib : StrokeLib) (face glyph : Nat) (y : Bool) {s : FtHeap} (hs : s.WF) :
    (∃ s', rasterizeGlyph lib y face glyph readData s = some s' ∧ s'.live.Perm s.live) ∧
    (∃ s', loadCurve lib y face glyph readData s = some s' ∧ s'.live.Perm s.live) := by
  constructor
  · obtain ⟨s', l, h1, ⟨_, h3⟩, h4, _⟩ := run_leaves (lib := lib) readData_leaves (.glyph face glyph y) trivial hs
    cases List.length_eq_zero_iff.1 h4
    exact ⟨s', h1, h3⟩
  · obtain ⟨s', l, h1, ⟨_, h3⟩, h4, _⟩ := run_leaves (lib := lib) readData_leaves (.curve face glyph y) trivial hs
    cases List.length_eq_zero_iff.1 h4
    exact ⟨s', h1, h3⟩

/-- C105: a history of requests of the atlases is defined exactly if FreeType can do what each needs. -/
theorem C105_defined_iff (lib : StrokeLib) (l : List DrawRequest) {s : FtHeap} (hs : s.WF) :
    (∃ s', runRequests lib l s = some s') ↔ ∀ r ∈ l, r.Possible lib := by
  constructor
  · rintro ⟨s', h⟩
    exact runRequests_defined l s s' h
  · intro h
    obtain ⟨s', _, h1, _⟩ := runRequests_leaves l s hs h
    exact ⟨s', h1⟩

/-- C105, false: strokes are not given back completely.  After every history of requests there are as many glyphs more as
strokes were drawn: `FT_Glyph_Stroke` is told not to give back the glyph, whose only pointer it overwrites. -/
theorem C105_leak_violated (lib : StrokeLib) (l : List DrawRequest) {s s' : FtHeap} (hs : s.WF)
    (h : runRequests lib l s = some s') :
    s'.live.length = s.live.length + l.countP (·.isStroke) ∧
    s'.live.countP (fun o => o.kind = .outlineGlyph) =
      s.live.countP (fun o => o.kind = .outlineGlyph) + l.countP (·.isStroke) := by
  obtain ⟨s1, k, h1, ⟨_, h3⟩, h4, h5⟩ := runRequests_leaves l s hs (runRequests_defined l s s' h)
  rw [h] at h1
  cases h1
  constructor
  · rw [h3.length_eq, List.length_append, h4, Nat.add_comm]
  · rw [h3.countP_eq, List.countP_append, List.countP_eq_length.2 (by simpa using h5), h4, Nat.add_comm]

/-- C105, false: the results of FreeType are not looked at.  The stroke of a glyph that does not load (as those of bitmap
fonts, which are loaded without their bitmaps), or cannot be made, or rendered, is undefined in every state, whatever the
functor. -/
theorem C105_failure_violated (lib : StrokeLib) (face glyph thickness : Nat) (y : Bool) (f : FtUse) (s : FtHeap) :
    (lib.loads face glyph = false ∨ lib.strokes face glyph thickness = false ∨ lib.renders face glyph thickness = false →
      rasterizeStroke lib y face glyph thickness f s = none) ∧
    (lib.loads face glyph = false ∨ lib.strokes face glyph thickness = false →
      loadStrokeCurve lib y face glyph thickness f s = none) := by
  constructor
  · intro h
    refine run_none (f := f) (.stroke face glyph thickness y) ?_ s
    rintro ⟨h1, h2, h3⟩
    rcases h with h | h | h
    · rw [h1] at h; cases h
    · rw [h2] at h; cases h
    · rw [h3] at h; cases h
  · intro h
    refine run_none (f := f) (.strokeCurve face glyph thickness y) ?_ s
    rintro ⟨h1, h2⟩
    rcases h with h | h
    · rw [h1] at h; cases h
    · rw [h2] at h; cases h

/-- C105: what the functor of the atlases needs is that its data is there: the slot not written to since, or the object not
given back. -/
theorem C105_read (s s' : FtHeap) :
    (∀ face stamp, readData s (.slot face stamp) = some s' ↔ s' = s ∧ (s.slot face).stamp = stamp) ∧
    (∀ o, readData s (.obj o) = some s' ↔ s' = s ∧ o ∈ s.live) :=
  ⟨fun _ _ => readData_iff _ _ _, fun _ => readData_iff _ _ _⟩

/-- A functor that makes another request before it reads its data. -/
def drawsFirst (lib : StrokeLib) (r : DrawRequest) : FtUse := fun s d =>
  (r.run lib readData s).bind fun s => readData s d

/-- C105, false: "only valid for the duration of the call" (src/font_data.hpp:83-87): the data of a glyph is in the face and
is overwritten if the functor makes another request for the same face, whichever; the data of a stroke is not. -/
theorem C105_nested_violated (lib : StrokeLib) (r : DrawRequest) (g t : Nat) (y : Bool) {s : FtHeap} (hs : s.WF) :
    rasterizeGlyph lib y r.face g (drawsFirst lib r) s = none ∧ loadCurve lib y r.face g (drawsFirst lib r) s = none ∧
    ((DrawRequest.stroke r.face g t y).Possible lib → r.Possible lib →
      (∃ s', rasterizeStroke lib y r.face g t (drawsFirst lib r) s = some s') ∧
      ∃ s', loadStrokeCurve lib y r.face g t (drawsFirst lib r) s = some s') := by
  have key : ∀ s1 : FtHeap, drawsFirst lib r s1 (.slot r.face (s1.slot r.face).stamp) = none := by
    intro s1
    unfold drawsFirst
    cases h : r.run lib readData s1 with
    | none => rfl
    | some s2 =>
      have h1 := run_stamp r h
      have h2 : ∀ s', readData s2 (.slot r.face (s1.slot r.face).stamp) ≠ some s' := fun s' h2 => by
        have := ((readData_iff _ _ _).1 h2).2
        simp only [FtData.There] at this
        omega
      cases h3 : readData s2 (.slot r.face (s1.slot r.face).stamp) with
      | none => simp [h3]
      | some s' => exact absurd h3 (h2 s')
  refine ⟨key _, key _, fun h hr => ⟨?_, ?_⟩⟩
  · obtain ⟨st, b, s1, e1, w1, g0, hg, hl⟩ := strokeBitmap_some hs h
    obtain ⟨s2, l, e2, ⟨w2, p2⟩, h4, _⟩ := run_leaves (lib := lib) readData_leaves r hr w1
    have hb : b ∈ s2.live := p2.mem_iff.2 (by simp [hl])
    rw [hl] at p2
    obtain ⟨s3, e4, p3⟩ := FtHeap.free_perm (p2.trans (perm_front2 l b st g0 s.live))
    obtain ⟨s4, e5, p4⟩ := FtHeap.free_perm p3
    refine ⟨s4, ?_⟩
    have e3 : readData s2 (.obj b) = some s2 := (readData_iff _ _ _).2 ⟨rfl, hb⟩
    unfold rasterizeStroke strokeBitmapFinish drawsFirst
    simp [e1, e2, e3, e4, e5]
  · obtain ⟨rc, ps, st, c, s1, e1, w1, hr', hc, g0, hg, hl⟩ := strokeOutline_some (y := y) hs (t := t) (g := g) (a := r.face) ⟨h.1, h.2.1⟩
    obtain ⟨s2, l, e2, ⟨w2, p2⟩, h4, _⟩ := run_leaves (lib := lib) readData_leaves r hr w1
    have hb : ps ∈ s2.live := p2.mem_iff.2 (by simp [hl])
    rw [hl] at p2
    have t1 : s2.touch (some c) .outlineGlyph = some c := FtHeap.touch_iff.2 ⟨rfl, p2.mem_iff.2 (by simp), hc⟩
    have t2 : s2.touch (some rc) .record = some rc := FtHeap.touch_iff.2 ⟨rfl, p2.mem_iff.2 (by simp), hr'⟩
    obtain ⟨s3, f3, p3⟩ := FtHeap.free_perm (p2.trans (perm_front4 l ps rc c st g0 s.live))
    obtain ⟨s4, f4, p4⟩ := FtHeap.free_perm p3
    obtain ⟨s5, f5, p5⟩ := FtHeap.free_perm p4
    obtain ⟨s6, f6, p6⟩ := FtHeap.free_perm p5
    refine ⟨s6, ?_⟩
    have e3 : readData s2 (.obj ps) = some s2 := (readData_iff _ _ _).2 ⟨rfl, hb⟩
    unfold loadStrokeCurve strokeOutlineFinish drawsFirst
    simp [e1, e2, e3, t1, t2, f3, f4, f5, f6]

/-! ### Examples -/

/-- A face whose glyphs 1 to 9 load and can be stroked up to 20 thick. -/
def sampleFt : StrokeLib where
  loads := fun _ g => decide (0 < g ∧ g < 10)
  strokes := fun _ _ t => decide (t ≤ 20)
  renders := fun _ _ _ => true

/-- Nothing drawn yet. -/
def emptyFt : FtHeap := ⟨[], 0, fun _ => ⟨0, none⟩⟩

theorem emptyFt_wf : emptyFt.WF := ⟨by simp [emptyFt], by simp [emptyFt]⟩

/-- A glyph, its stroke twice, a curve and its stroke: three glyphs are left. -/
example : ∃ s', runRequests sampleFt [.glyph 0 3 false, .stroke 0 3 2 false, .stroke 0 3 2 true, .curve 0 4 true, .strokeCurve 0 4 1 false]
    emptyFt = some s' ∧ s'.live.length = 3 := by
  have hp : ∀ r ∈ [DrawRequest.glyph 0 3 false, .stroke 0 3 2 false, .stroke 0 3 2 true, .curve 0 4 true, .strokeCurve 0 4 1 false],
      r.Possible sampleFt := by
    intro r hr
    simp only [List.mem_cons, List.not_mem_nil, or_false] at hr
    rcases hr with rfl | rfl | rfl | rfl | rfl <;> simp [DrawRequest.Possible, sampleFt]
  obtain ⟨s', h⟩ := (C105_defined_iff sampleFt _ emptyFt_wf).2 hp
  exact ⟨s', h, (C105_leak_violated sampleFt _ emptyFt_wf h).1⟩

/-- The stroke of a glyph that does not load. -/
example : runRequests sampleFt [.glyph 0 12 false] emptyFt ≠ none ∧ runRequests sampleFt [.stroke 0 12 2 false] emptyFt = none := by
  constructor
  · obtain ⟨s', h⟩ := (C105_defined_iff sampleFt [.glyph 0 12 false] emptyFt_wf).2 (by simp [DrawRequest.Possible])
    simp [h]
  · exact congrArg (Option.bind · _) ((C105_failure_violated sampleFt 0 12 2 false readData emptyFt).1 (Or.inl (by decide)))

/-- A functor that itself draws a stroke, inside of another stroke. -/
example : FtUse.Leaves (fun s _ => rasterizeStroke sampleFt false 0 5 1 readData s) 1 := fun _ _ hs _ =>
  rasterizeStroke_leaves readData_leaves (y := false) (by simp [DrawRequest.Possible, sampleFt]) hs

end RichText
