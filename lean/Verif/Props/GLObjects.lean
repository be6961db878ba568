import Verif.Proof.GLObjects
/-!
C112: OpenGL's objects have one owner each, are deleted once, and none is left behind by a program that does not compile.
-/
namespace RichText
open GLObjects

/-- C112, compilation: deletes nothing twice and uses nothing that is gone; a program is made exactly if both shaders compile and it
links; otherwise every object is as it was (only names have been used up).  If it is made, it and its two shaders are
all there is new, and the shaders have been deleted and go with it. -/
theorem C112_compile (g : GLObjects) (hg : g.Valid) (vertexOk fragmentOk linkOk : Bool) :
    ∃ p g', g.tryCompileProgram vertexOk fragmentOk linkOk = some (p, g') ∧
      g'.arrays = g.arrays ∧ g'.textures = g.textures ∧ g'.current = g.current ∧ g.next ≤ g'.next ∧
      (p ≠ 0 ↔ vertexOk = true ∧ fragmentOk = true ∧ linkOk = true) ∧
      (p = 0 → g'.programs = g.programs ∧ g'.shaders = g.shaders ∧ g'.attached = g.attached ∧ g'.flagged = g.flagged) ∧
      (p ≠ 0 → p ∉ g.programs ∧ g'.programs = p :: g.programs ∧
        ∃ v f, v ≠ f ∧ v ∉ g.shaders ∧ f ∉ g.shaders ∧ g'.shaders = f :: v :: g.shaders ∧ g'.flagged = f :: v :: g.flagged ∧
          g'.attached = (p, f) :: (p, v) :: g.attached) := by
  rw [tryCompileProgram_eq hg]
  cases hr : (vertexOk && fragmentOk && linkOk)
  · refine ⟨_, _, rfl, rfl, rfl, rfl, ?_, ?_, fun _ => ⟨rfl, rfl, rfl, rfl⟩, fun h => absurd rfl h⟩
    · cases vertexOk <;> cases fragmentOk <;> simp
    · constructor
      · exact fun h => absurd rfl h
      · rintro ⟨rfl, rfl, rfl⟩
        cases hr
  · refine ⟨_, _, rfl, rfl, rfl, rfl, Nat.le_add_right _ 3, ?_, fun h => absurd h (Nat.succ_ne_zero _), fun _ => ⟨?_, rfl, ?_⟩⟩
    · simp only [Bool.and_eq_true] at hr
      exact ⟨fun _ => ⟨hr.1.1, hr.1.2, hr.2⟩, fun _ => Nat.succ_ne_zero _⟩
    · intro hm
      have := hg.programs _ hm
      omega
    · refine ⟨g.next, g.next + 1, by omega, ?_, ?_, rfl, rfl, rfl⟩
      · intro hm
        have := hg.shaders _ hm
        omega
      · intro hm
        have := hg.shaders _ hm
        omega

/-- C112, while frames run: whichever programs could be made, whatever is bound and however many pages are made, nothing
fails, and the objects are exactly those the pipelines and the atlases hold, each held once. -/
theorem C112_running (results : PipelineIndex → Bool × Bool × Bool) (l : List GLOwners.Step) :
    ∃ o, ((GLOwners.initPipelines results {}).bind fun o => (o.newImage false).bind (GLOwners.steps l)) = some o ∧
      (∀ h, h ∈ o.gl.arrays ↔ h ≠ 0 ∧ ∃ i, (o.pipes i).vao = h) ∧
      (∀ h, h ∈ o.gl.textures ↔ h ≠ 0 ∧ (h ∈ o.images ∨ h ∈ o.msdfImages)) ∧
      ((o.images ++ o.msdfImages).filter (· ≠ 0)).Nodup ∧
      (∀ h, h ∈ o.gl.programs ↔ h ≠ 0 ∧ ∃ i, (o.pipes i).program = h) ∧
      (∀ i j, (o.pipes i).vao = (o.pipes j).vao → (o.pipes i).vao ≠ 0 → i = j) ∧
      (∀ i j, (o.pipes i).program = (o.pipes j).program → (o.pipes i).program ≠ 0 → i = j) ∧
      ∀ s, s ∈ o.gl.shaders ↔ ∃ p ∈ o.gl.programs, (p, s) ∈ o.gl.attached := by
  obtain ⟨o1, e1, h1, c1⟩ := GLOwners.initPipelines_clean results
  obtain ⟨o2, e2, h2⟩ := GLOwners.newImage_holds o1 false h1
  obtain ⟨o3, e3, h3⟩ := GLOwners.steps_holds l o2 h2
  have c3 := GLOwners.steps_clean l h2 (GLOwners.newImage_clean c1 e2) e3
  refine ⟨o3, by simp only [e1, e2, e3, Option.bind_some], ?_, ?_, ?_, ?_, ?_, ?_, ?_⟩
  · exact fun x => (h3.arrays x).trans (GLOwners.vaos_iff o3 x)
  · intro x
    rw [h3.textures x]
    simp only [List.mem_filter, List.mem_append, decide_eq_true_eq]
    exact And.comm
  · exact h3.texturesNodup
  · intro x
    rw [h3.programs x, GLOwners.progs_iff]
    constructor
    · rintro (h | ⟨h, h'⟩)
      · exact h
      · rcases h3.current with h0 | h0
        · have := (h3.flaggedBelow _ h').1
          omega
        · rw [← h] at h0
          exact absurd h' (c3 x h0)
    · exact .inl
  · exact fun i j h h0 => GLOwners.nodup3_inj (fun i => (o3.pipes i).vao) h3.arraysNodup i j h h0
  · exact fun i j h h0 => GLOwners.nodup3_inj (fun i => (o3.pipes i).program) h3.programsNodup i j h h0
  · intro s
    rw [h3.shaders s]
    exact ⟨fun ⟨p, hp⟩ => ⟨p, h3.attached p s hp, hp⟩, fun ⟨p, _, hp⟩ => ⟨p, hp⟩⟩

/-- C112, at the end of `main`, before `glfwTerminate` destroys the context: nothing has been deleted twice or used after it was
deleted; arrays and textures are all gone, and of programs and shaders only those of the program that is still in use, which
is deleted and goes with the context.  The owners hold nothing, so that their destructors (the pipelines are global) do not call
OpenGL after the context has gone. -/
theorem C112_main (results : PipelineIndex → Bool × Bool × Bool) (l : List GLOwners.Step) :
    ∃ o, GLOwners.main results l = some o ∧ o.gl.arrays = [] ∧ o.gl.textures = [] ∧
      (∀ p ∈ o.gl.programs, p = o.gl.current ∧ p ∈ o.gl.flagged) ∧
      (∀ s ∈ o.gl.shaders, s ∈ o.gl.flagged ∧ (o.gl.current, s) ∈ o.gl.attached) ∧
      (∀ i, (o.pipes i).vao = 0 ∧ (o.pipes i).program = 0) ∧ o.images = [] ∧ o.msdfImages = [] := by
  obtain ⟨o1, e1, h1⟩ := GLOwners.initPipelines_holds results {} GLOwners.holds_start
  obtain ⟨o2, e2, h2⟩ := GLOwners.newImage_holds o1 false h1
  obtain ⟨o3, e3, h3⟩ := GLOwners.steps_holds l o2 h2
  obtain ⟨o4, e4, h4, i4, m4⟩ := GLOwners.deleteAtlases_holds o3 h3
  obtain ⟨o5, e5, h5, p5, i5, m5⟩ := GLOwners.deinitPipelines_holds o4 h4
  refine ⟨o5, by simp only [GLOwners.main, e1, e2, e3, e4, e5, Option.bind_some], ?_⟩
  simp only [GLOwners.Holds, GLOwners.vaos, GLOwners.progs, p5, i5, m5, i4, m4] at h5
  have hp : ∀ p ∈ o5.gl.programs, p = o5.gl.current ∧ p ∈ o5.gl.flagged := by
    intro p hm
    rcases (h5.programs p).1 hm with h | h
    · simp at h
    · exact h
  refine ⟨?_, ?_, hp, ?_, fun i => ⟨by rw [p5], by rw [p5]⟩, by rw [i5, i4], by rw [m5, m4]⟩
  · refine List.eq_nil_iff_forall_not_mem.2 fun x hx => ?_
    have := (h5.arrays x).1 hx
    simp at this
  · refine List.eq_nil_iff_forall_not_mem.2 fun x hx => ?_
    have := (h5.textures x).1 hx
    simp at this
  · intro s hs
    obtain ⟨p, h⟩ := (h5.shaders s).1 hs
    exact ⟨h5.deleted s hs, (hp p (h5.attached p s h)).1 ▸ h⟩

/-! ### Examples -/

/-- All programs compile, two are used and three pages made. -/
example : ((GLOwners.main (fun _ => (true, true, true)) [.bind .rect, .page false, .bind .msdf, .page true, .page false]).map
    fun o => (o.gl.arrays, o.gl.textures, o.gl.programs, o.gl.shaders)) = some ([], [], [8], [7, 6]) := by decide +kernel

/-- The fragment shader of one does not compile, the other does not link. -/
example : ((GLOwners.main (fun i => if i = .msdf then (true, false, true) else (true, true, i != .rect))
    [.bind .rect, .page false, .bind .outline, .page true]).map
    fun o => (o.gl.arrays, o.gl.textures, o.gl.programs, o.gl.shaders)) = some ([], [], [11], [10, 9]) := by decide +kernel

/-- A valid state with a program in use: `C112_compile` applies. -/
example : GLObjects.Valid { programs := [3], shaders := [2, 1], attached := [(3, 2), (3, 1)], flagged := [2, 1], current := 3, next := 4 } :=
  ⟨by decide, by simp, by simp, by simp, by
    simp only [List.mem_cons, Prod.mk.injEq, List.not_mem_nil, or_false]
    rintro p s (⟨rfl, rfl⟩ | ⟨rfl, rfl⟩) <;> simp, by simp, by decide⟩

end RichText
