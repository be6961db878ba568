import Verif.Props.FontRegistry
/-!
Properties C47-C49 and C63: font data, the registry lock, font sizes.
-/
namespace RichText

/-! ### C47 -/

/-- A request of the example: Sans, 16 pixels. -/
def demoRequest : FontRequest := ⟨⟨1#16, 3#4, .normal⟩, 16, 3#8, .normal, false, false, false⟩

/-- C47 for effective sizes that are not zero: the face the font data refers to is
made from the file of the requested face and set to the effective size.  Missing:
effective size 0, see `C47_violated`. -/
theorem C47_requested_size_partial (lib : FontLib) (r : Registry) (t t' : FontThread) (q : FontRequest) (d : FontDataInfo) (eff : Nat)
    (hrun : FontRun lib r t) (h : getFontData lib r t q = some (t', some d)) (heff : q.effective = some eff) (hpos : 0 < eff) :
    d.key = q.face.handle ∧ r.Loads lib q.face d.file ∧
    ∃ o, t'.cache.lookup d.key = some o ∧ o.file = d.file ∧ o.height = eff := by
  obtain ⟨_, h1, _⟩ := getFontData_spec hrun.cache h
  obtain ⟨o, eff', k1, k2, k3, rfl, k5, k6⟩ := h1 d rfl
  rw [heff] at k1
  cases k1
  exact ⟨rfl, k6, o, k2, rfl, k5 hpos⟩

/-- Size 16, then 32, then 16 again. -/
example : (do
    let x ← getFontData demoLib demoRegistry .init demoRequest
    let y ← getFontData demoLib demoRegistry x.1 { demoRequest with size := 32 }
    let z ← getFontData demoLib demoRegistry y.1 demoRequest
    return [x, y, z].map fun x => (x.1.cache.lookup 1#16).map (·.height)) = some [some 16, some 32, some 16] := by decide +kernel

/-- C47 fails for effective size 0: the cache entry starts with size 0, so the
face is not resized.  Here size 16, then small capitals of size 1. -/
theorem C47_violated : ∃ (lib : FontLib) (r : Registry) (t t' : FontThread) (q : FontRequest) (d : FontDataInfo) (eff : Nat)
    (o : FontOwner), FontRun lib r t ∧ getFontData lib r t q = some (t', some d) ∧ q.effective = some eff ∧
    t'.cache.lookup d.key = some o ∧ o.height ≠ eff := by
  have h : (do
      let x ← getFontData demoLib demoRegistry .init demoRequest
      let y ← getFontData demoLib demoRegistry x.1 { demoRequest with size := 1, smallCaps := true }
      let d ← y.2
      let o ← y.1.cache.lookup d.key
      return o.height) = some 16 := by decide +kernel
  cases hx : getFontData demoLib demoRegistry .init demoRequest with
  | none => rw [hx] at h; cases h
  | some x =>
    rw [hx] at h
    cases hy : getFontData demoLib demoRegistry x.1 { demoRequest with size := 1, smallCaps := true } with
    | none => simp [hy] at h
    | some y =>
      obtain ⟨t', d⟩ := y
      cases d with
      | none => simp [hy] at h
      | some d =>
        cases ho : t'.cache.lookup d.key with
        | none => simp [hy, ho] at h
        | some o =>
          simp only [hy, ho, Option.bind_eq_bind, Option.bind_some, pure, Option.some.injEq] at h
          exact ⟨demoLib, demoRegistry, x.1, t', _, d, 0, o, .fontData (.start demoRegistry_steps) hx, hy, by decide +kernel, ho,
            by rw [h]; decide⟩

/-! ### C48 -/

/-- C48 for everything but the advance of the blank: whatever was asked before, on
whichever threads, two requests for the same face both succeed or both fail and
give the same data.  Missing: `spaceAdvance`, see `C48_violated`; it is that of
the request only if the face is loaded by this request. -/
theorem C48_history_independent_partial (lib : FontLib) (r r2 : Registry) (t t' t2 t2' : FontThread) (q : FontRequest)
    (d d2 : Option FontDataInfo) (hrun : FontRun lib r t) (hrun2 : FontRun lib r2 t2)
    (hface : r2.faces[q.face.handle.toNat]? = r.faces[q.face.handle.toNat]?)
    (h : getFontData lib r t q = some (t', d)) (h2 : getFontData lib r2 t2 q = some (t2', d2)) :
    d.map (fun d => { d with spaceAdvance := 0 }) = d2.map (fun d => { d with spaceAdvance := 0 }) ∧
    (t.cache.lookup q.face.handle = none → ∀ x eff, d = some x → q.effective = some eff →
      x.spaceAdvance = lib.advance x.file eff x.spaceGlyph) := by
  obtain ⟨_, a1, a2⟩ := getFontData_spec hrun.cache h
  obtain ⟨_, b1, b2⟩ := getFontData_spec hrun2.cache h2
  have hl : ∀ file, r.Loads lib q.face file ↔ r2.Loads lib q.face file := by
    intro file; unfold Registry.Loads; rw [hface]
  have huniq : ∀ f1 f2, r.Loads lib q.face f1 → r.Loads lib q.face f2 → f1 = f2 := by
    rintro f1 f2 ⟨x, x1, x2, _⟩ ⟨y, y1, y2, _⟩
    rw [x1] at y1; cases y1
    rw [x2] at y2; exact Option.some.inj y2
  constructor
  · cases d with
    | none =>
      cases d2 with
      | none => rfl
      | some y =>
        obtain ⟨_, _, _, _, _, _, _, k⟩ := b1 y rfl
        exact absurd ((hl _).2 k) (a2 rfl _)
    | some x =>
      obtain ⟨o, e, _, _, ho, rfl, _, k⟩ := a1 x rfl
      cases d2 with
      | none => exact absurd ((hl _).1 k) (b2 rfl _)
      | some y =>
        obtain ⟨o2, e2, _, _, ho2, rfl, _, k2⟩ := b1 y rfl
        have hfile : o.file = o2.file := huniq _ _ k ((hl _).2 k2)
        obtain ⟨_, m1, m2, m3, _⟩ := ho.data
        obtain ⟨_, n1, n2, n3, _⟩ := ho2.data
        simp only [Option.map_some, Option.some.injEq, FontOwner.data, FontDataInfo.mk.injEq, and_true, true_and]
        refine ⟨hfile, ?_, ?_, ?_⟩
        · rw [m1, n1, hfile]; rfl
        · rw [m2, n2, hfile]; rfl
        · rw [m3, n3, hfile]; rfl
  · intro hnc x eff hx he
    subst hx
    unfold getFontData at h
    rw [he, hnc] at h
    simp only at h
    split at h
    · cases h
    · split at h
      · cases h
      · split at h
        · cases h; rfl
        · cases h

/-- C48 fails: the advance of the blank, which determines the width of tabs
(src/layout_builder.cpp:453), is that of the size the face was first loaded with
on the thread. -/
theorem C48_violated : ∃ (lib : FontLib) (r : Registry) (t t' t2 t2' : FontThread) (q : FontRequest) (d d2 : FontDataInfo),
    FontRun lib r t ∧ FontRun lib r t2 ∧ getFontData lib r t q = some (t', some d) ∧
    getFontData lib r t2 q = some (t2', some d2) ∧ d.spaceAdvance ≠ d2.spaceAdvance := by
  have h : (do
      let x ← getFontData demoLib demoRegistry .init { demoRequest with size := 32 }
      let y ← getFontData demoLib demoRegistry x.1 demoRequest
      let d ← y.2
      let z ← getFontData demoLib demoRegistry .init demoRequest
      let d2 ← z.2
      return (d.spaceAdvance, d2.spaceAdvance)) = some (512, 256) := by decide +kernel
  cases hx : getFontData demoLib demoRegistry .init { demoRequest with size := 32 } with
  | none => rw [hx] at h; cases h
  | some x =>
    rw [hx] at h
    cases hy : getFontData demoLib demoRegistry x.1 demoRequest with
    | none => simp [hy] at h
    | some y =>
      obtain ⟨t', d⟩ := y
      cases d with
      | none => simp [hy] at h
      | some d =>
        cases hz : getFontData demoLib demoRegistry .init demoRequest with
        | none => simp [hy, hz] at h
        | some z =>
          obtain ⟨t2', d2⟩ := z
          cases d2 with
          | none => simp [hy, hz] at h
          | some d2 =>
            simp only [hy, hz, Option.bind_eq_bind, Option.bind_some, pure, Option.some.injEq, Prod.mk.injEq] at h
            exact ⟨demoLib, demoRegistry, x.1, t', .init, t2', demoRequest, d, d2, .fontData (.start demoRegistry_steps) hx,
              .start demoRegistry_steps, hy, hz, by rw [h.1, h.2]; decide⟩

/-! ### C49 -/

/-- The lock operations of the first `get_sub_font` of a thread for "A". -/
def demoLocks : List LockOp :=
  ((getSubFont demoLib demoRegistry .init demoFont [(1, 0x41)] 0 1 1 false false false).map fun x => x.1.locks).getD []

/-- C49 fails: `get_sub_font` holds the lock while it asks for font data, which
acquires it again if the face is not in the thread's cache. -/
theorem C49_violated : ∃ (lib : FontLib) (r : Registry) (font : Font) (cs : List (Nat × Nat)) (script : Int) (t' : FontThread)
    (x : SingleScriptFont × Nat), r.Reached lib ∧ r.Fits ∧
    getSubFont lib r .init font cs 0 (nativeLength cs) script false false false = some (t', x) ∧
    t'.locks = [.lockShared, .lockShared, .unlockShared, .unlockShared] ∧ ¬ NotNested t'.locks := by
  have h : (getSubFont demoLib demoRegistry .init demoFont [(1, 0x41)] 0 1 1 false false false).map (fun x => x.1.locks) =
      some [.lockShared, .lockShared, .unlockShared, .unlockShared] := by decide +kernel
  obtain ⟨⟨t', x⟩, h1, h2⟩ := Option.map_eq_some_iff.1 h
  simp only at h2
  exact ⟨demoLib, demoRegistry, demoFont, [(1, 0x41)], 1, t', x, demoRegistry_steps, demoRegistry_fits, h1, h2, by rw [h2]; decide⟩

/-- C49: the deadlock.  One thread looks for a font, another registers a family:
after the first has acquired the lock and the second has asked for it, nobody can
go on, although neither is done. -/
theorem C49_violated_deadlock : ∃ ts, LockSteps (lockStart [demoLocks, registerLocks]) ts ∧ (∀ t ∈ ts, t.rest ≠ []) ∧
    ¬ ∃ ts', LockStep ts ts' := by
  have hd : demoLocks = [.lockShared, .lockShared, .unlockShared, .unlockShared] := by decide +kernel
  rw [hd]
  refine ⟨[⟨⟨1, false⟩, false, [.lockShared, .unlockShared, .unlockShared]⟩, ⟨⟨0, false⟩, true, [.lock, .unlock]⟩],
    .step (.step (.refl _) (.lockShared (i := 0) rfl (by decide))) (.announce (i := 1) rfl), by decide, ?_⟩
  have two : ∀ {P : LockThread → Prop} {a b : LockThread} {i : Nat} {t : LockThread}, [a, b][i]? = some t → (a = t → P t) →
      (b = t → P t) → P t := by
    intro P a b i t h ha hb
    match i, h with
    | 0, h => exact ha (by simpa using h)
    | 1, h => exact hb (by simpa using h)
  rintro ⟨ts', hs⟩
  cases hs with
  | lockShared hi hall => exact absurd (hall _ (by simp : LockThread.mk ⟨0, false⟩ true [.lock, .unlock] ∈ _)) (by decide)
  | announce hi => exact two (P := fun _ => False) hi (fun h => by cases h) (fun h => by cases h)
  | lock hi hall =>
    exact absurd (hall _ (by simp : LockThread.mk ⟨1, false⟩ false [.lockShared, .unlockShared, .unlockShared] ∈ _)) (by decide)
  | unlockShared hi => exact two (P := fun _ => False) hi (fun h => by cases h) (fun h => by cases h)
  | unlock hi => exact two (P := fun _ => False) hi (fun h => by cases h) (fun h => by cases h)

/-- What a thread may do with the lock: everything but looking for fonts with
faces that are not in its cache. -/
inductive SafeLocks (lib : FontLib) : Registry → FontThread → Prop
  | start {r : Registry} : SafeLocks lib r .init
  | registry {r r' : Registry} {t : FontThread} : SafeLocks lib r t → SafeLocks lib r' t
  | lookup {r : Registry} {t : FontThread} : SafeLocks lib r t → SafeLocks lib r (t.log lookupLocks)
  | register {r : Registry} {t : FontThread} : SafeLocks lib r t → SafeLocks lib r (t.log registerLocks)
  | fontData {r : Registry} {t t' : FontThread} {q : FontRequest} {d : Option FontDataInfo} : SafeLocks lib r t →
      getFontData lib r t q = some (t', d) → SafeLocks lib r t'
  | subFont {r : Registry} {t t' : FontThread} {font : Font} {cs : List (Nat × Nat)} {offset limit : Nat} {script : Int}
      {sc sub sup : Bool} {x : SingleScriptFont × Nat} {base : FaceDataHandle} {f : FamilyData} : SafeLocks lib r t →
      r.fontForScript font.face.getFamily font.face.getWeight.toNat font.face.getStyle script = some base →
      r.families[font.face.getFamily.toNat]? = some f → (∃ o, t.cache.lookup base.handle = some o) →
      (∀ h ∈ f.fallback, ∀ g, r.FallbackFace font h g → ∃ o, t.cache.lookup g.handle = some o) →
      getSubFont lib r t font cs offset limit script sc sub sup = some (t', x) → SafeLocks lib r t'

theorem run_append (a b : List LockOp) (h : Hold) : Hold.run h (a ++ b) = (Hold.run h a).bind fun h => Hold.run h b := by
  induction a generalizing h with
  | nil => rfl
  | cons x a ih =>
    cases x <;> simp only [List.cons_append, Hold.run] <;> split <;> simp [ih]

theorem NotNested.append {a b : List LockOp} (ha : NotNested a) (hb : NotNested b) : NotNested (a ++ b) := by
  unfold NotNested at *
  rw [run_append, ha]; exact hb

/-- C49, first half, for threads that look for fonts only with faces in their
cache: the lock is never acquired while held, over any history.  Missing: other
calls of `get_sub_font`, see `C49_violated`. -/
theorem C49_not_nested_partial (lib : FontLib) (r : Registry) (t : FontThread) (h : SafeLocks lib r t) : NotNested t.locks := by
  induction h with
  | start => decide
  | registry _ ih => exact ih
  | lookup _ ih => exact ih.append (by decide)
  | register _ ih => exact ih.append (by decide)
  | fontData _ hg ih =>
    rcases getFontData_locks hg with e | e
    · rw [e]; exact ih
    · rw [e]; exact ih.append (by decide)
  | subFont _ hb hf hc hall hg ih =>
    rw [getSubFont_cached hb hf hc hall hg]
    exact ih.append (by decide)

/-- C49, second half: any number of threads that never acquire the lock while
holding it do not deadlock; some thread can go on until all are done, and every
run ends. -/
theorem C49_no_deadlock_partial (programs : List (List LockOp)) (h : ∀ p ∈ programs, NotNested p) (ts : List LockThread)
    (hs : LockSteps (lockStart programs) ts) :
    ((∃ t ∈ ts, t.rest ≠ []) → ∃ ts', LockStep ts ts') ∧
    ∃ done, LockSteps ts done ∧ ∀ t ∈ done, t.rest = [] := by
  have hok := (locksOK_start h).steps hs
  refine ⟨hok.progress, ?_⟩
  clear hs
  induction hn : lockWork ts using Nat.strongRecOn generalizing ts with
  | _ n ih =>
    by_cases hun : ∃ t ∈ ts, t.rest ≠ []
    · obtain ⟨ts', hst⟩ := hok.progress hun
      obtain ⟨done, d1, d2⟩ := ih (lockWork ts') (by rw [← hn]; exact lockStep_work hst) ts' (hok.step hst) rfl
      refine ⟨done, ?_, d2⟩
      clear ih d2 hn hok hun
      induction d1 with
      | refl => exact .step (.refl _) hst
      | step _ hs ih => exact .step ih hs
    · refine ⟨ts, .refl _, fun t ht => ?_⟩
      apply Classical.byContradiction
      intro hne
      exact hun ⟨t, ht, hne⟩

/-- C49: no run of the lock operations goes on for ever, nested or not. -/
theorem C49_runs_end_partial (ts : Nat → List LockThread) : ¬ ∀ n, LockStep (ts n) (ts (n + 1)) := by
  intro h
  have : ∀ n, lockWork (ts n) + n ≤ lockWork (ts 0) := by
    intro n
    induction n with
    | zero => simp
    | succ n ih => have := lockStep_work (h n); omega
  have := this (lockWork (ts 0) + 1)
  omega

/-- Once the faces are in the cache the same call does not nest. -/
example : (do
    let x ← getSubFont demoLib demoRegistry .init demoFont [(3, 0x4e00)] 0 3 1 false false false
    let y ← getSubFont demoLib demoRegistry { x.1 with locks := [] } demoFont [(3, 0x4e00), (1, 0x41)] 0 4 1 false false false
    return y.1.locks) = some [.lockShared, .unlockShared] := by decide +kernel

/-! ### C63 -/

/-- C63.  The effective size of a font is the base size, times 8/10 for small
capitals, times 7/10 for sub- and superscript, rounded down, in spite of the
`float` arithmetic. -/
theorem C63_effective_size (base : Nat) (hb : base < 2 ^ 20) (smallCaps subSuper : Bool) :
    effectiveSize base smallCaps subSuper =
      some (base * (if smallCaps then 8 else 10) * (if subSuper then 7 else 10) / 100) := by
  cases smallCaps <;> cases subSuper
  · rw [effective_plain (by omega)]
    simp only [Bool.false_eq_true, if_false]
    congr 1; omega
  · rw [effective_subSuper hb]
    simp only [Bool.false_eq_true, if_false, if_true]
    congr 1; omega
  · rw [effective_smallCaps hb]
    simp only [Bool.false_eq_true, if_false, if_true]
    congr 1; omega
  · rw [effective_both hb]
    simp only [if_true]
    congr 1; omega

/-- C63.  Of all sizes a `uint32_t` can hold only the last 128, unscaled, are
undefined. -/
theorem C63_undefined_sizes (base : Nat) (hb : base < 2 ^ 32) (smallCaps subSuper : Bool) :
    effectiveSize base smallCaps subSuper = none ↔ smallCaps = false ∧ subSuper = false ∧ 2 ^ 32 - 128 ≤ base := by
  by_cases hs : (smallCaps || subSuper) = true
  · obtain ⟨n, hn⟩ := effective_scaled_some hb smallCaps subSuper hs
    constructor
    · intro h; rw [hn] at h; cases h
    · rintro ⟨rfl, rfl, _⟩; cases hs
  · have h1 : smallCaps = false := by cases smallCaps <;> simp_all
    have h2 : subSuper = false := by cases subSuper <;> simp_all
    subst h1; subst h2
    rw [effective_plain_none hb]
    simp

example : effectiveSize 10 false true = some 7 ∧ effectiveSize 17 true false = some 13 ∧ effectiveSize 25 true true = some 14 ∧
    effectiveSize 4294967168 false false = none ∧ effectiveSize 4294967167 false false = some 4294967040 := by decide +kernel

end RichText
