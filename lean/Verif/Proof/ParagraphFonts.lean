import Verif.Model.ParagraphFonts
import Verif.Props.FontRegistry
/-!
What the cache of a thread does to the choice of fonts: nothing.
-/
namespace RichText

variable {lib : FontLib} {r : Registry}

theorem loads_unique {face : FaceDataHandle} {a b : Nat} (h : r.Loads lib face a) (h' : r.Loads lib face b) : a = b := by
  obtain ⟨x, x1, x2, _⟩ := h
  obtain ⟨y, y1, y2, _⟩ := h'
  rw [x1] at y1; cases y1
  rw [x2] at y2; cases y2; rfl

theorem getFontData_args {t : FontThread} {q : FontRequest} {x : FontThread × Option FontDataInfo} (hc : CacheOK lib r t)
    (h : getFontData lib r t q = some x) : q.effective ≠ none ∧ q.face.handle.toNat < r.faces.length := by
  unfold getFontData at h
  split at h
  · cases h
  · rename_i he
    refine ⟨by rw [he]; simp, ?_⟩
    split at h
    · rename_i o ho
      obtain ⟨fd, h1, _⟩ := (hc _ (lookup_mem ho)).loads
      exact (List.getElem?_eq_some_iff.1 h1).1
    · split at h
      · cases h
      · rename_i fd h1
        exact (List.getElem?_eq_some_iff.1 h1).1

/-- Two threads get data of the same file. -/
theorem getFontData_same {t t' u : FontThread} {q : FontRequest} {res : Option FontDataInfo} (hc : CacheOK lib r t)
    (hu : CacheOK lib r u) (h : getFontData lib r t q = some (t', res)) :
    ∃ u' res', getFontData lib r u q = some (u', res') ∧ CacheOK lib r u' ∧ res'.map (·.file) = res.map (·.file) := by
  obtain ⟨h1, h2⟩ := getFontData_args hc h
  obtain ⟨⟨u', res'⟩, h'⟩ := getFontData_total (lib := lib) (t := u) h1 h2
  obtain ⟨_, a1, a2⟩ := getFontData_spec hc h
  obtain ⟨b0, b1, b2⟩ := getFontData_spec hu h'
  refine ⟨u', res', h', b0, ?_⟩
  cases res with
  | none =>
    cases res' with
    | none => rfl
    | some d =>
      obtain ⟨o, eff, _, _, _, _, _, hl⟩ := b1 d rfl
      exact absurd hl (a2 rfl _)
  | some d =>
    obtain ⟨o, eff, _, _, _, _, _, hl⟩ := a1 d rfl
    cases res' with
    | none => exact absurd hl (b2 rfl _)
    | some d' =>
      obtain ⟨o', eff', _, _, _, _, _, hl'⟩ := b1 d' rfl
      simp only [Option.map_some]
      rw [loads_unique hl' hl]

theorem has_file {d d' : FontDataInfo} (h : d.file = d'.file) (c : Nat) : d.has lib c = d'.has lib c := by
  unfold FontDataInfo.has; rw [h]

theorem findFallback_same {font : Font} {c : Nat} : ∀ (hs : List FamilyHandle) (t t' u : FontThread)
    (res : Option (FaceDataHandle × FontDataInfo)), CacheOK lib r t → CacheOK lib r u →
    findFallback lib r font c hs t = some (t', res) →
    ∃ u' res', findFallback lib r font c hs u = some (u', res') ∧ CacheOK lib r u' ∧
      res'.map (fun x => (x.1, x.2.file)) = res.map (fun x => (x.1, x.2.file)) := by
  intro hs
  induction hs with
  | nil => intro t t' u res _ hu h; cases h; exact ⟨u, none, rfl, hu, rfl⟩
  | cons hd hs ih =>
    intro t t' u res ht hu h
    unfold findFallback at h ⊢
    cases hf : r.families[hd.toNat]? with
    | none => rw [hf] at h; cases h
    | some f =>
      rw [hf] at h
      simp only at h ⊢
      split at h
      · rename_i hinit
        rw [if_pos hinit]
        cases hface : f.face font.face.getWeight.toNat font.face.getStyle with
        | none => rw [hface] at h; cases h
        | some face =>
          rw [hface] at h
          simp only at h ⊢
          cases hg : getFontData lib r t (plainRequest font face) with
          | none => rw [hg] at h; cases h
          | some x =>
            obtain ⟨t1, res1⟩ := x
            obtain ⟨u1, res2, g1, g2, g3⟩ := getFontData_same ht hu hg
            have ht1 := (getFontData_spec ht hg).1
            rw [hg] at h
            rw [g1]
            cases res1 with
            | none =>
              cases res2 with
              | none => exact ih t1 t' u1 res ht1 g2 h
              | some d => cases g3
            | some d =>
              cases res2 with
              | none => cases g3
              | some d2 =>
                simp only [Option.map_some, Option.some.injEq] at g3
                simp only at h ⊢
                rw [has_file g3]
                split at h
                · rename_i hh
                  cases h
                  rw [if_pos hh]
                  exact ⟨_, _, rfl, g2, by simp [g3]⟩
                · rename_i hh
                  rw [if_neg hh]
                  exact ih t1 t' u1 res ht1 g2 h
      · rename_i hinit
        rw [if_neg hinit]
        exact ih t t' u res ht hu h

theorem findCompatible_same {font : Font} {c : Nat} {base : FaceDataHandle} {hs : List FamilyHandle} {t t' u : FontThread}
    {res : Option (FaceDataHandle × FontDataInfo)} (ht : CacheOK lib r t) (hu : CacheOK lib r u)
    (h : findCompatible lib r font c base hs t = some (t', res)) :
    ∃ u' res', findCompatible lib r font c base hs u = some (u', res') ∧ CacheOK lib r u' ∧
      res'.map (fun x => (x.1, x.2.file)) = res.map (fun x => (x.1, x.2.file)) := by
  unfold findCompatible at h ⊢
  split at h
  · rename_i hv
    rw [if_pos hv]
    cases hg : getFontData lib r t (plainRequest font base) with
    | none => rw [hg] at h; cases h
    | some x =>
      obtain ⟨t1, res1⟩ := x
      obtain ⟨u1, res2, g1, g2, g3⟩ := getFontData_same ht hu hg
      have ht1 := (getFontData_spec ht hg).1
      rw [hg] at h
      rw [g1]
      cases res1 with
      | none =>
        cases res2 with
        | none => cases h; exact ⟨_, _, rfl, g2, rfl⟩
        | some d => cases g3
      | some d =>
        cases res2 with
        | none => cases g3
        | some d2 =>
          simp only [Option.map_some, Option.some.injEq] at g3
          simp only at h ⊢
          rw [has_file g3]
          split at h
          · rename_i hh
            cases h
            rw [if_pos hh]
            exact ⟨_, _, rfl, g2, by simp [g3]⟩
          · rename_i hh
            rw [if_neg hh]
            exact findFallback_same hs t1 t' u1 res ht1 g2 h
  · rename_i hv
    rw [if_neg hv]
    cases h
    exact ⟨u, none, rfl, hu, rfl⟩

theorem firstDrawable_same {font : Font} {base : FaceDataHandle} {hs : List FamilyHandle} :
    ∀ (cs : List (Nat × Nat)) (idx : Nat) (t t' u : FontThread) (res : Option (List (Nat × Nat) × Nat × FaceDataHandle × FontDataInfo)),
    CacheOK lib r t → CacheOK lib r u → firstDrawable lib r font base hs cs idx t = some (t', res) →
    ∃ u' res', firstDrawable lib r font base hs cs idx u = some (u', res') ∧ CacheOK lib r u' ∧
      res'.map (fun x => (x.1, x.2.1, x.2.2.1, x.2.2.2.file)) = res.map (fun x => (x.1, x.2.1, x.2.2.1, x.2.2.2.file)) := by
  intro cs
  induction cs with
  | nil => intro idx t t' u res _ hu h; cases h; exact ⟨u, none, rfl, hu, rfl⟩
  | cons x cs ih =>
    intro idx t t' u res ht hu h
    unfold firstDrawable at h ⊢
    cases hg : findCompatible lib r font x.2 base hs t with
    | none => rw [hg] at h; cases h
    | some y =>
      obtain ⟨t1, res1⟩ := y
      obtain ⟨u1, res2, g1, g2, g3⟩ := findCompatible_same ht hu hg
      have ht1 := (findCompatible_spec ht hg).1
      rw [hg] at h
      rw [g1]
      cases res1 with
      | none =>
        cases res2 with
        | none => exact ih _ t1 t' u1 res ht1 g2 h
        | some d => cases g3
      | some d =>
        cases res2 with
        | none => cases g3
        | some d2 =>
          cases h
          simp only [Option.map_some, Option.some.injEq, Prod.mk.injEq] at g3
          exact ⟨_, _, rfl, g2, by simp [g3]⟩

theorem firstMissing_file {d d' : FontDataInfo} (h : d.file = d'.file) : ∀ (cs : List (Nat × Nat)) (idx : Nat),
    firstMissing lib d cs idx = firstMissing lib d' cs idx := by
  intro cs
  induction cs with
  | nil => intro idx; rfl
  | cons x cs ih => intro idx; unfold firstMissing; rw [has_file h, ih]

/-- Two threads get the same sub-font. -/
theorem getSubFont_same {t t' u : FontThread} {font : Font} {cs : List (Nat × Nat)} {offset limit : Nat} {script : Int}
    {sc sub sup : Bool} {x : SingleScriptFont × Nat} (ht : CacheOK lib r t) (hu : CacheOK lib r u)
    (h : getSubFont lib r t font cs offset limit script sc sub sup = some (t', x)) :
    ∃ u', getSubFont lib r u font cs offset limit script sc sub sup = some (u', x) := by
  unfold getSubFont at h ⊢
  simp only at h ⊢
  cases hb : r.fontForScript font.face.getFamily font.face.getWeight.toNat font.face.getStyle script with
  | none => rw [hb] at h; cases h
  | some base =>
    rw [hb] at h
    simp only at h ⊢
    cases hf : r.families[font.face.getFamily.toNat]? with
    | none => rw [hf] at h; cases h
    | some f =>
      rw [hf] at h
      simp only at h ⊢
      have ht1 : CacheOK lib r (t.log [.lockShared]) := ht
      have hu1 : CacheOK lib r (u.log [.lockShared]) := hu
      cases hd : firstDrawable lib r font base f.fallback cs 0 (t.log [.lockShared]) with
      | none => rw [hd] at h; cases h
      | some y =>
        obtain ⟨t1, res⟩ := y
        obtain ⟨u1, res', g1, g2, g3⟩ := firstDrawable_same cs 0 _ _ _ _ ht1 hu1 hd
        rw [hd] at h
        rw [g1]
        cases res with
        | none =>
          cases res' with
          | none => cases h; exact ⟨_, rfl⟩
          | some z => cases g3
        | some z =>
          cases res' with
          | none => cases g3
          | some z' =>
            obtain ⟨a, b, face, d⟩ := z
            obtain ⟨a', b', face', d'⟩ := z'
            simp only [Option.map_some, Option.some.injEq, Prod.mk.injEq] at g3
            obtain ⟨rfl, rfl, rfl, g3⟩ := g3
            simp only at h ⊢
            rw [firstMissing_file g3]
            cases hm : firstMissing lib d a' b' with
            | some i => rw [hm] at h; cases h; exact ⟨_, rfl⟩
            | none => rw [hm] at h; cases h; exact ⟨_, rfl⟩

/-! ### The cache keeps what it has -/

/-- Entries stay, with their advance of the blank. -/
def CacheKeeps (t t' : FontThread) : Prop := ∀ h o, t.cache.lookup h = some o → ∃ o', t'.cache.lookup h = some o' ∧ o'.spaceAdvance = o.spaceAdvance

theorem CacheKeeps.refl (t : FontThread) : CacheKeeps t t := fun _ o h => ⟨o, h, rfl⟩

theorem CacheKeeps.trans {a b c : FontThread} (h : CacheKeeps a b) (h' : CacheKeeps b c) : CacheKeeps a c := by
  intro k o ho
  obtain ⟨o1, h1, e1⟩ := h k o ho
  obtain ⟨o2, h2, e2⟩ := h' k o1 h1
  exact ⟨o2, h2, e2.trans e1⟩

theorem resize_space (o : FontOwner) (eff : Nat) : (o.resize eff).spaceAdvance = o.spaceAdvance := by
  unfold FontOwner.resize; split <;> rfl

theorem getFontData_keeps {t t' : FontThread} {q : FontRequest} {res : Option FontDataInfo} (h : getFontData lib r t q = some (t', res)) :
    CacheKeeps t t' ∧ (res ≠ none → Cached t' q.face) := by
  unfold getFontData at h
  split at h
  · cases h
  · rename_i eff he
    split at h
    · rename_i o ho
      cases h
      refine ⟨?_, fun _ => ⟨_, setKey_lookup ho⟩⟩
      intro k o' hk
      by_cases hkk : k = q.face.handle
      · subst hkk
        rw [ho] at hk; cases hk
        exact ⟨_, setKey_lookup ho, resize_space _ _⟩
      · exact ⟨o', by simp only; rw [setKey_lookup_ne hkk]; exact hk, rfl⟩
    · rename_i hl
      split at h
      · cases h
      · split at h
        · cases h; exact ⟨.refl _, fun h => absurd rfl h⟩
        · split at h
          · cases h
            refine ⟨?_, fun _ => ⟨_, by simp only; rw [List.lookup_append, hl]; simp; rfl⟩⟩
            intro k o hk
            exact ⟨o, by simp only; rw [List.lookup_append, hk]; rfl, rfl⟩
          · cases h; exact ⟨.refl _, fun h => absurd rfl h⟩

theorem CacheKeeps.cached {t t' : FontThread} (h : CacheKeeps t t') {face : FaceDataHandle} (hc : Cached t face) : Cached t' face := by
  obtain ⟨o, ho⟩ := hc
  obtain ⟨o', h', _⟩ := h _ _ ho
  exact ⟨o', h'⟩

theorem findFallback_keeps {font : Font} {c : Nat} : ∀ (hs : List FamilyHandle) (t t' : FontThread)
    (res : Option (FaceDataHandle × FontDataInfo)), findFallback lib r font c hs t = some (t', res) →
    CacheKeeps t t' ∧ ∀ x, res = some x → Cached t' x.1 := by
  intro hs
  induction hs with
  | nil => intro t t' res h; cases h; exact ⟨.refl _, fun x h => by cases h⟩
  | cons hd hs ih =>
    intro t t' res h
    unfold findFallback at h
    split at h
    · cases h
    · split at h
      · split at h
        · cases h
        · split at h
          · cases h
          · rename_i hg
            obtain ⟨i1, i2⟩ := ih _ _ _ h
            exact ⟨(getFontData_keeps hg).1.trans i1, i2⟩
          · rename_i hg
            split at h
            · cases h
              exact ⟨(getFontData_keeps hg).1, fun x hx => by cases hx; exact (getFontData_keeps hg).2 (by simp)⟩
            · obtain ⟨i1, i2⟩ := ih _ _ _ h
              exact ⟨(getFontData_keeps hg).1.trans i1, i2⟩
      · exact ih _ _ _ h

theorem findCompatible_keeps {font : Font} {c : Nat} {base : FaceDataHandle} {hs : List FamilyHandle} {t t' : FontThread}
    {res : Option (FaceDataHandle × FontDataInfo)} (h : findCompatible lib r font c base hs t = some (t', res)) :
    CacheKeeps t t' ∧ ∀ x, res = some x → Cached t' x.1 := by
  unfold findCompatible at h
  split at h
  · split at h
    · cases h
    · rename_i hg
      cases h
      exact ⟨(getFontData_keeps hg).1, fun x h => by cases h⟩
    · rename_i hg
      split at h
      · cases h
        exact ⟨(getFontData_keeps hg).1, fun x hx => by cases hx; exact (getFontData_keeps hg).2 (by simp)⟩
      · obtain ⟨i1, i2⟩ := findFallback_keeps _ _ _ _ h
        exact ⟨(getFontData_keeps hg).1.trans i1, i2⟩
  · cases h; exact ⟨.refl _, fun x h => by cases h⟩

/-- The base face is loaded as soon as there is a character. -/
theorem findCompatible_base {font : Font} {c : Nat} {base : FaceDataHandle} {hs : List FamilyHandle} {t t' : FontThread}
    {res : Option (FaceDataHandle × FontDataInfo)} (hc : CacheOK lib r t) (hv : base.valid = true) {file : Nat}
    (hl : r.Loads lib base file) (h : findCompatible lib r font c base hs t = some (t', res)) : Cached t' base := by
  unfold findCompatible at h
  rw [if_pos hv] at h
  split at h
  · cases h
  · rename_i hg
    exact absurd hl ((getFontData_spec hc hg).2.2 rfl file)
  · rename_i hg
    have hk := (getFontData_keeps hg).2 (by simp)
    split at h
    · cases h; exact hk
    · exact (findFallback_keeps _ _ _ _ h).1.cached hk

theorem firstDrawable_keeps {font : Font} {base : FaceDataHandle} {hs : List FamilyHandle} :
    ∀ (cs : List (Nat × Nat)) (idx : Nat) (t t' : FontThread) (res : Option (List (Nat × Nat) × Nat × FaceDataHandle × FontDataInfo)),
    firstDrawable lib r font base hs cs idx t = some (t', res) →
    CacheKeeps t t' ∧ ∀ x, res = some x → Cached t' x.2.2.1 := by
  intro cs
  induction cs with
  | nil => intro idx t t' res h; cases h; exact ⟨.refl _, fun x h => by cases h⟩
  | cons x cs ih =>
    intro idx t t' res h
    unfold firstDrawable at h
    split at h
    · cases h
    · rename_i hg
      cases h
      obtain ⟨g1, g2⟩ := findCompatible_keeps hg
      exact ⟨g1, fun y hy => by cases hy; exact g2 _ rfl⟩
    · rename_i hg
      obtain ⟨i1, i2⟩ := ih _ _ _ _ h
      exact ⟨(findCompatible_keeps hg).1.trans i1, i2⟩

/-- The font of `get_sub_font` has been loaded. -/
theorem getSubFont_keeps {t t' : FontThread} {font : Font} {cs : List (Nat × Nat)} {offset limit : Nat} {script : Int}
    {sc sub sup : Bool} {x : SingleScriptFont × Nat} (h : getSubFont lib r t font cs offset limit script sc sub sup = some (t', x)) :
    CacheKeeps t t' ∧ ((∀ base, r.fontForScript font.face.getFamily font.face.getWeight.toNat font.face.getStyle script = some base →
      base.valid = true ∧ ∃ file, r.Loads lib base file) → CacheOK lib r t → cs ≠ [] →
      Cached t' x.1.face ∧ ∃ file, r.Loads lib x.1.face file) := by
  unfold getSubFont at h
  simp only at h
  split at h
  · cases h
  · rename_i base hb
    split at h
    · cases h
    · rename_i f hf
      split at h
      · cases h
      · rename_i t1 found hd
        have h1 : CacheKeeps t (t.log [.lockShared]) := fun _ o h => ⟨o, h, rfl⟩
        have h2 : CacheKeeps t1 (t1.log [.unlockShared]) := fun _ o h => ⟨o, h, rfl⟩
        obtain ⟨k1, k2⟩ := firstDrawable_keeps _ _ _ _ _ hd
        have hk := (h1.trans k1).trans h2
        split at h
        · cases h
          refine ⟨hk, ?_⟩
          intro hbase hc hne
          obtain ⟨hv, file, hl⟩ := hbase base hb
          refine ⟨?_, file, hl⟩
          have hc1 : CacheOK lib r (t.log [.lockShared]) := hc
          cases cs with
          | nil => exact absurd rfl hne
          | cons y ys =>
            unfold firstDrawable at hd
            split at hd
            · cases hd
            · cases hd
            · rename_i t2 hg
              obtain ⟨o, ho⟩ := (firstDrawable_keeps _ _ _ _ _ hd).1.cached (findCompatible_base hc1 hv hl hg)
              exact ⟨o, ho⟩
        · rename_i rest idx face d
          have key : CacheOK lib r t → Cached (t1.log [.unlockShared]) face ∧ ∃ file, r.Loads lib face file := by
            intro hc
            have hc1 : CacheOK lib r (t.log [.lockShared]) := hc
            obtain ⟨_, d2, _⟩ := firstDrawable_spec cs 0 _ _ _ hc1 hd
            obtain ⟨_, _, _, _, _, hl, _⟩ := d2 _ _ _ _ rfl
            obtain ⟨o, ho⟩ := k2 _ rfl
            exact ⟨⟨o, ho⟩, _, hl⟩
          split at h
          · cases h; exact ⟨hk, fun _ hc _ => key hc⟩
          · cases h; exact ⟨hk, fun _ hc _ => key hc⟩

end RichText
