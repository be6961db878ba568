import Verif.Spec.FontRegistry
import Verif.Proof.FontRegistry
import Verif.Proof.FontSize
/-! Proofs about the font cache, the choice of fonts and the registry lock. -/
namespace RichText
variable {lib : FontLib}

/-! ### The cache -/

/-- A cache entry: its face can be loaded, its data are those of the file, its
size is that of the FreeType face or still zero. -/
structure OwnerOK (lib : FontLib) (r : Registry) (k : BitVec 16) (o : FontOwner) : Prop where
  loads : ∃ fd, r.faces[k.toNat]? = some fd ∧ fd.file = some o.file ∧ lib.newFace o.file = true ∧ lib.hbCreate o.file = true
  size : o.size = 0 ∨ o.size = o.height
  data : ∃ eff, o.strikePos = (loadOwner lib o.file eff).strikePos ∧ o.strikeThick = (loadOwner lib o.file eff).strikeThick ∧
    o.spaceGlyph = (loadOwner lib o.file eff).spaceGlyph ∧ o.spaceAdvance = (loadOwner lib o.file eff).spaceAdvance

/-- All entries are in order. -/
def CacheOK (lib : FontLib) (r : Registry) (t : FontThread) : Prop := ∀ x ∈ t.cache, OwnerOK lib r x.1 x.2

theorem lookup_mem {α β : Type} [DecidableEq α] {l : List (α × β)} {a : α} {b : β} (h : l.lookup a = some b) : (a, b) ∈ l := by
  induction l with
  | nil => simp at h
  | cons x l ih =>
    rw [List.lookup_cons] at h
    split at h
    · rename_i he
      cases h
      have : a = x.1 := by simpa using he
      subst this
      exact List.mem_cons_self
    · exact List.mem_cons_of_mem _ (ih h)

theorem OwnerOK.resize {r : Registry} {k : BitVec 16} {o : FontOwner} (h : OwnerOK lib r k o) (eff : Nat) :
    OwnerOK lib r k (o.resize eff) := by
  unfold FontOwner.resize
  split
  · exact h
  · exact ⟨h.loads, .inr rfl, h.data⟩

theorem resize_file (o : FontOwner) (eff : Nat) : (o.resize eff).file = o.file := by
  unfold FontOwner.resize; split <;> rfl

theorem OwnerOK.load {r : Registry} {k : BitVec 16} {fd : FaceData} {file : Nat} (h : r.faces[k.toNat]? = some fd)
    (hf : fd.file = some file) (hl : (lib.newFace file && lib.hbCreate file) = true) (eff : Nat) :
    OwnerOK lib r k (loadOwner lib file eff) := by
  rw [Bool.and_eq_true] at hl
  exact ⟨⟨fd, h, hf, hl.1, hl.2⟩, .inl rfl, eff, rfl, rfl, rfl, rfl⟩

theorem setKey_lookup {k : BitVec 16} {o o' : FontOwner} : ∀ {c : List (BitVec 16 × FontOwner)}, c.lookup k = some o' →
    (setKey k o c).lookup k = some o := by
  intro c
  induction c with
  | nil => intro h; simp at h
  | cons x c ih =>
    intro h
    rw [List.lookup_cons] at h
    unfold setKey
    rw [List.map_cons, List.lookup_cons]
    by_cases hx : x.1 = k
    · simp [hx]
    · rw [if_neg hx]
      have hb : (k == x.1) = false := by simp; exact fun he => hx he.symm
      rw [hb] at h ⊢
      exact ih h

/-- `get_font_data` on a proper cache. -/
theorem getFontData_spec {r : Registry} {t t' : FontThread} {q : FontRequest} {res : Option FontDataInfo} (hc : CacheOK lib r t)
    (h : getFontData lib r t q = some (t', res)) :
    CacheOK lib r t' ∧
    (∀ d, res = some d → ∃ o eff, q.effective = some eff ∧ t'.cache.lookup q.face.handle = some o ∧ OwnerOK lib r q.face.handle o ∧
      d = o.data q ∧ (0 < eff → o.height = eff) ∧ r.Loads lib q.face d.file) ∧
    (res = none → ∀ file, ¬ r.Loads lib q.face file) := by
  unfold getFontData at h
  cases he : q.effective with
  | none => rw [he] at h; cases h
  | some eff =>
    rw [he] at h
    simp only at h
    cases hl : t.cache.lookup q.face.handle with
    | some o =>
      rw [hl] at h
      cases h
      have ho := hc _ (lookup_mem hl)
      have hr := ho.resize eff
      refine ⟨?_, ?_, fun h => (by cases h)⟩
      · intro x hx
        obtain ⟨y, hy, rfl⟩ := List.mem_map.1 hx
        split
        · exact hr
        · exact hc y hy
      · intro d hd
        cases hd
        refine ⟨o.resize eff, eff, rfl, setKey_lookup hl, hr, rfl, ?_, hr.loads⟩
        intro hpos
        unfold FontOwner.resize
        split
        · rename_i hs
          have h1 : o.size = 0 ∨ o.size = o.height := ho.size
          omega
        · rfl
    | none =>
      rw [hl] at h
      simp only at h
      cases hfd : r.faces[q.face.handle.toNat]? with
      | none => rw [hfd] at h; cases h
      | some fd =>
        rw [hfd] at h
        simp only at h
        cases hfile : fd.file with
        | none =>
          rw [hfile] at h
          cases h
          refine ⟨hc, fun d hd => (by cases hd), fun _ file hload => ?_⟩
          obtain ⟨fd', h1, h2, _⟩ := hload
          rw [hfd] at h1; cases h1
          rw [hfile] at h2; cases h2
        | some file =>
          rw [hfile] at h
          simp only at h
          split at h
          · rename_i hok
            cases h
            have hown := OwnerOK.load hfd hfile hok eff
            refine ⟨?_, ?_, fun h => (by cases h)⟩
            · intro x hx
              rcases List.mem_append.1 hx with hx | hx
              · exact hc x hx
              · simp only [List.mem_singleton] at hx; subst hx; exact hown
            · intro d hd
              cases hd
              refine ⟨_, eff, rfl, ?_, hown, rfl, fun _ => rfl, hown.loads⟩
              simp only
              rw [List.lookup_append, hl]
              simp
          · rename_i hok
            cases h
            refine ⟨hc, fun d hd => (by cases hd), fun _ f2 hload => ?_⟩
            obtain ⟨fd', h1, h2, h3, h4⟩ := hload
            rw [hfd] at h1; cases h1
            rw [hfile] at h2; cases h2
            rw [h3, h4] at hok
            exact hok rfl

theorem has_draws {r : Registry} {face : FaceDataHandle} {d : FontDataInfo} (h : r.Loads lib face d.file) (c : Nat) :
    d.has lib c = true ↔ r.Draws lib face c := by
  constructor
  · intro hd; exact ⟨d.file, h, hd⟩
  · rintro ⟨file, ⟨fd, h1, h2, _⟩, hg⟩
    obtain ⟨fd', h3, h4, _⟩ := h
    rw [h1] at h3; cases h3
    rw [h2] at h4
    have := Option.some.inj h4
    subst this
    exact hg

/-! ### Choice of faces -/

theorem findFallback_spec {r : Registry} {font : Font} {c : Nat} : ∀ (hs : List FamilyHandle) (t t' : FontThread)
    (res : Option (FaceDataHandle × FontDataInfo)), CacheOK lib r t → findFallback lib r font c hs t = some (t', res) →
    CacheOK lib r t' ∧
    (∀ face d, res = some (face, d) → r.Loads lib face d.file ∧ ∃ pre h post, hs = pre ++ h :: post ∧ r.FallbackFace font h face ∧
      r.Draws lib face c ∧ ∀ g ∈ pre, ∀ gf, r.FallbackFace font g gf → ¬ r.Draws lib gf c) ∧
    (res = none → ∀ g ∈ hs, ∀ gf, r.FallbackFace font g gf → ¬ r.Draws lib gf c) := by
  intro hs
  induction hs with
  | nil =>
    intro t t' res hc h
    cases h
    exact ⟨hc, fun _ _ h => (by cases h), fun _ g hg => (by cases hg)⟩
  | cons hd hs ih =>
    intro t t' res hc h
    -- skipping `hd` is right if it cannot draw the character
    have skip : ∀ t1, CacheOK lib r t1 → findFallback lib r font c hs t1 = some (t', res) →
        (∀ gf, r.FallbackFace font hd gf → ¬ r.Draws lib gf c) →
        CacheOK lib r t' ∧
        (∀ face d, res = some (face, d) → r.Loads lib face d.file ∧ ∃ pre h post, hd :: hs = pre ++ h :: post ∧
          r.FallbackFace font h face ∧ r.Draws lib face c ∧ ∀ g ∈ pre, ∀ gf, r.FallbackFace font g gf → ¬ r.Draws lib gf c) ∧
        (res = none → ∀ g ∈ hd :: hs, ∀ gf, r.FallbackFace font g gf → ¬ r.Draws lib gf c) := by
      intro t1 hc1 h1 hno
      obtain ⟨i1, i2, i3⟩ := ih t1 t' res hc1 h1
      refine ⟨i1, ?_, ?_⟩
      · intro face d he
        obtain ⟨k1, pre, g, post, k2, k3, k4, k5⟩ := i2 face d he
        refine ⟨k1, hd :: pre, g, post, by rw [k2]; rfl, k3, k4, ?_⟩
        intro g' hg'
        rcases List.mem_cons.1 hg' with rfl | hg'
        · exact hno
        · exact k5 g' hg'
      · intro he g hg
        rcases List.mem_cons.1 hg with rfl | hg
        · exact hno
        · exact i3 he g hg
    unfold findFallback at h
    cases hf : r.families[hd.toNat]? with
    | none => rw [hf] at h; cases h
    | some f =>
      rw [hf] at h
      simp only at h
      split at h
      · rename_i hinit
        cases hface : f.face font.face.getWeight.toNat font.face.getStyle with
        | none => rw [hface] at h; cases h
        | some face =>
          rw [hface] at h
          simp only at h
          have hff : r.FallbackFace font hd face := by
            refine ⟨⟨f, hf, hinit⟩, ?_⟩
            unfold Registry.faceOf
            rw [hf]; exact hface
          have huniq : ∀ gf, r.FallbackFace font hd gf → gf = face := by
            intro gf hgf
            have h1 := hgf.2
            rw [hff.2] at h1
            exact (Option.some.inj h1).symm
          cases hg : getFontData lib r t (plainRequest font face) with
          | none => rw [hg] at h; cases h
          | some x =>
            obtain ⟨t1, res1⟩ := x
            obtain ⟨g1, g2, g3⟩ := getFontData_spec hc hg
            cases res1 with
            | none =>
              rw [hg] at h
              simp only at h
              refine skip t1 g1 h ?_
              intro gf hgf
              rw [huniq gf hgf]
              rintro ⟨file, hload, _⟩
              exact g3 rfl file hload
            | some d =>
              rw [hg] at h
              simp only at h
              obtain ⟨o, eff, _, _, _, _, _, hload⟩ := g2 d rfl
              split at h
              · rename_i hhas
                cases h
                refine ⟨g1, ?_, fun h => (by cases h)⟩
                intro face' d' he
                cases he
                refine ⟨hload, [], hd, hs, rfl, hff, (has_draws hload c).1 hhas, fun g hg => (by cases hg)⟩
              · rename_i hhas
                refine skip t1 g1 h ?_
                intro gf hgf
                rw [huniq gf hgf]
                intro hdr
                exact hhas ((has_draws hload c).2 hdr)
      · rename_i hinit
        refine skip t hc h ?_
        rintro gf ⟨⟨f', hf', hi'⟩, _⟩
        rw [hf] at hf'; cases hf'
        exact absurd hi' hinit

theorem findCompatible_spec {r : Registry} {font : Font} {c : Nat} {base : FaceDataHandle} {fallback : List FamilyHandle}
    {t t' : FontThread} {res : Option (FaceDataHandle × FontDataInfo)} (hc : CacheOK lib r t)
    (h : findCompatible lib r font c base fallback t = some (t', res)) :
    CacheOK lib r t' ∧
    (∀ face d, res = some (face, d) → r.Loads lib face d.file ∧ r.Chosen lib font base fallback c face) ∧
    (res = none → base.valid = true → (∃ file, r.Loads lib base file) → r.NoFace lib font base fallback c) := by
  unfold findCompatible at h
  split at h
  · rename_i hv
    cases hg : getFontData lib r t (plainRequest font base) with
    | none => rw [hg] at h; cases h
    | some x =>
      obtain ⟨t1, res1⟩ := x
      obtain ⟨g1, g2, g3⟩ := getFontData_spec hc hg
      cases res1 with
      | none =>
        rw [hg] at h
        cases h
        refine ⟨g1, fun _ _ h => (by cases h), ?_⟩
        rintro _ _ ⟨file, hload⟩
        exact absurd hload (g3 rfl file)
      | some d =>
        rw [hg] at h
        simp only at h
        obtain ⟨o, eff, _, _, _, _, _, hload⟩ := g2 d rfl
        split at h
        · rename_i hhas
          cases h
          refine ⟨g1, ?_, fun h => (by cases h)⟩
          intro face d' he
          cases he
          exact ⟨hload, .inl ⟨rfl, (has_draws hload c).1 hhas⟩⟩
        · rename_i hhas
          have hno : ¬ r.Draws lib base c := fun hd => hhas ((has_draws hload c).2 hd)
          obtain ⟨i1, i2, i3⟩ := findFallback_spec fallback t1 t' res g1 h
          refine ⟨i1, ?_, fun he _ _ => ⟨hno, i3 he⟩⟩
          intro face d' he
          obtain ⟨k1, k2⟩ := i2 face d' he
          exact ⟨k1, .inr ⟨hno, k2⟩⟩
  · rename_i hv
    cases h
    exact ⟨hc, fun _ _ h => (by cases h), fun _ hb => absurd hb hv⟩

theorem Registry.Chosen.draws {r : Registry} {font : Font} {base face : FaceDataHandle} {fallback : List FamilyHandle} {c : Nat}
    (h : r.Chosen lib font base fallback c face) : r.Draws lib face c := by
  rcases h with ⟨rfl, h⟩ | ⟨_, _, _, _, _, _, h, _⟩ <;> exact h

theorem firstDrawable_spec {r : Registry} {font : Font} {base : FaceDataHandle} {fallback : List FamilyHandle} :
    ∀ (cs : List (Nat × Nat)) (idx : Nat) (t t' : FontThread) (res : Option (List (Nat × Nat) × Nat × FaceDataHandle × FontDataInfo)),
    CacheOK lib r t → firstDrawable lib r font base fallback cs idx t = some (t', res) →
    CacheOK lib r t' ∧
    (∀ rest i face d, res = some (rest, i, face, d) → ∃ pre w c, cs = pre ++ (w, c) :: rest ∧ i = idx + nativeLength pre + w ∧
      r.Loads lib face d.file ∧ r.Chosen lib font base fallback c face ∧
      (base.valid = true → (∃ file, r.Loads lib base file) → ∀ x ∈ pre, r.NoFace lib font base fallback x.2)) ∧
    (res = none → base.valid = true → (∃ file, r.Loads lib base file) → ∀ x ∈ cs, r.NoFace lib font base fallback x.2) := by
  intro cs
  induction cs with
  | nil =>
    intro idx t t' res hc h
    cases h
    exact ⟨hc, fun _ _ _ _ h => (by cases h), fun _ _ _ x hx => (by cases hx)⟩
  | cons x cs ih =>
    obtain ⟨w, c⟩ := x
    intro idx t t' res hc h
    unfold firstDrawable at h
    cases hg : findCompatible lib r font c base fallback t with
    | none => rw [hg] at h; cases h
    | some y =>
      obtain ⟨t1, res1⟩ := y
      obtain ⟨g1, g2, g3⟩ := findCompatible_spec hc hg
      rw [hg] at h
      cases res1 with
      | some z =>
        obtain ⟨face, d⟩ := z
        cases h
        refine ⟨g1, ?_, fun h => (by cases h)⟩
        intro rest i face' d' he
        cases he
        obtain ⟨k1, k2⟩ := g2 face d rfl
        exact ⟨[], w, c, rfl, by simp [nativeLength], k1, k2, fun _ _ x hx => (by cases hx)⟩
      | none =>
        simp only at h
        obtain ⟨i1, i2, i3⟩ := ih (idx + w) t1 t' res g1 h
        refine ⟨i1, ?_, ?_⟩
        · intro rest i face d he
          obtain ⟨pre, w', c', k1, k2, k3, k4, k5⟩ := i2 rest i face d he
          refine ⟨(w, c) :: pre, w', c', by rw [k1]; rfl, by simp [nativeLength] at k2 ⊢; omega, k3, k4, ?_⟩
          intro hv hl x hx
          rcases List.mem_cons.1 hx with rfl | hx
          · exact g3 rfl hv hl
          · exact k5 hv hl x hx
        · intro he hv hl x hx
          rcases List.mem_cons.1 hx with rfl | hx
          · exact g3 rfl hv hl
          · exact i3 he hv hl x hx

theorem firstMissing_spec (d : FontDataInfo) : ∀ (cs : List (Nat × Nat)) (idx : Nat),
    (∀ i, firstMissing lib d cs idx = some i → ∃ pre w c rest, cs = pre ++ (w, c) :: rest ∧ i = idx + nativeLength pre ∧
      (∀ x ∈ pre, d.has lib x.2 = true) ∧ d.has lib c = false) ∧
    (firstMissing lib d cs idx = none → ∀ x ∈ cs, d.has lib x.2 = true) := by
  intro cs
  induction cs with
  | nil => intro idx; exact ⟨fun i h => (by cases h), fun _ x hx => (by cases hx)⟩
  | cons x cs ih =>
    obtain ⟨w, c⟩ := x
    intro idx
    unfold firstMissing
    split
    · rename_i hh
      obtain ⟨i1, i2⟩ := ih (idx + w)
      refine ⟨?_, ?_⟩
      · intro i hi
        obtain ⟨pre, w', c', rest, k1, k2, k3, k4⟩ := i1 i hi
        refine ⟨(w, c) :: pre, w', c', rest, by rw [k1]; rfl, by simp [nativeLength] at k2 ⊢; omega, ?_, k4⟩
        intro x hx
        rcases List.mem_cons.1 hx with rfl | hx
        · exact hh
        · exact k3 x hx
      · intro hn x hx
        rcases List.mem_cons.1 hx with rfl | hx
        · exact hh
        · exact i2 hn x hx
    · rename_i hh
      refine ⟨?_, fun h => (by cases h)⟩
      intro i hi
      cases hi
      exact ⟨[], w, c, cs, rfl, by simp [nativeLength], fun x hx => (by cases hx), by simpa using hh⟩

/-- The casing limit: the characters before it agree. -/
theorem caseRunLimit_spec (offset limit : Nat) : ∀ (cs : List (Nat × Nat)) (idx : Nat) (upper known : Bool),
    limit = offset + idx + nativeLength cs →
    ∃ pre rest, cs = pre ++ rest ∧ (caseRunLimit lib offset limit cs idx upper known).1 = offset + idx + nativeLength pre ∧
      (∀ x ∈ pre, lib.combining x.2 = false → (!lib.changesUpper x.2) = (caseRunLimit lib offset limit cs idx upper known).2) ∧
      (known = true → (caseRunLimit lib offset limit cs idx upper known).2 = upper) ∧
      (known = false → cs ≠ [] → pre ≠ []) := by
  intro cs
  induction cs with
  | nil =>
    intro idx upper known hl
    exact ⟨[], [], rfl, by unfold caseRunLimit; simpa [nativeLength] using hl, fun x hx => (by cases hx), fun _ => rfl,
      fun _ h => absurd rfl h⟩
  | cons x cs ih =>
    obtain ⟨w, c⟩ := x
    intro idx upper known hl
    have hl' : limit = offset + (idx + w) + nativeLength cs := by simp [nativeLength] at hl ⊢; omega
    unfold caseRunLimit
    split
    · rename_i hcomb
      obtain ⟨pre, rest, k1, k2, k3, k4, k5⟩ := ih (idx + w) upper known hl'
      refine ⟨(w, c) :: pre, rest, by rw [k1]; rfl, by rw [k2]; simp [nativeLength]; omega, ?_, k4, fun _ _ => (by simp)⟩
      intro x hx hnc
      rcases List.mem_cons.1 hx with rfl | hx
      · rw [hcomb] at hnc; cases hnc
      · exact k3 x hx hnc
    · rename_i hcomb
      simp only
      cases known with
      | true =>
        simp only [if_true]
        split
        · refine ⟨[], (w, c) :: cs, rfl, by simp [nativeLength], fun x hx => (by cases hx), fun _ => rfl, fun h => (by cases h)⟩
        · rename_i hne
          obtain ⟨pre, rest, k1, k2, k3, k4, k5⟩ := ih (idx + w) upper true hl'
          refine ⟨(w, c) :: pre, rest, by rw [k1]; rfl, by rw [k2]; simp [nativeLength]; omega, ?_, fun _ => k4 rfl, fun h => (by cases h)⟩
          intro x hx hnc
          rcases List.mem_cons.1 hx with rfl | hx
          · rw [k4 rfl]; exact (Classical.not_not.1 hne).symm
          · exact k3 x hx hnc
      | false =>
        have hne : ¬ (!lib.changesUpper c) ≠ (!lib.changesUpper c) := fun h => h rfl
        simp only [Bool.false_eq_true, if_false]
        rw [if_neg hne]
        obtain ⟨pre, rest, k1, k2, k3, k4, k5⟩ := ih (idx + w) (!lib.changesUpper c) true hl'
        refine ⟨(w, c) :: pre, rest, by rw [k1]; rfl, by rw [k2]; simp [nativeLength]; omega, ?_, fun h => (by cases h), fun _ _ => (by simp)⟩
        intro x hx hnc
        rcases List.mem_cons.1 hx with rfl | hx
        · rw [k4 rfl]
        · exact k3 x hx hnc

/-! ### `get_sub_font` -/

/-- The limit used: that of the casing run for small caps. -/
def caseLimit (lib : FontLib) (offset limit : Nat) (cs : List (Nat × Nat)) (sc : Bool) : Nat × Bool :=
  if sc then
    let (l, upper) := caseRunLimit lib offset limit cs 0 true false
    (l, !upper)
  else (limit, false)

theorem caseLimit_spec {offset limit : Nat} {cs : List (Nat × Nat)} (hlim : limit = offset + nativeLength cs) (sc : Bool) :
    ∃ pre rest, cs = pre ++ rest ∧ (caseLimit lib offset limit cs sc).1 = offset + nativeLength pre ∧ (cs ≠ [] → pre ≠ []) ∧
      (sc = true → ∀ x ∈ pre, lib.combining x.2 = false → lib.changesUpper x.2 = (caseLimit lib offset limit cs sc).2) := by
  unfold caseLimit
  cases sc with
  | false => exact ⟨cs, [], by simp, hlim, id, fun h => (by cases h)⟩
  | true =>
    obtain ⟨pre, rest, k1, k2, k3, k4, k5⟩ := caseRunLimit_spec (lib := lib) offset limit cs 0 true false hlim
    refine ⟨pre, rest, k1, k2, k5 rfl, ?_⟩
    intro _ x hx hnc
    have := k3 x hx hnc
    simp only [if_true]
    rw [← this]; simp

/-- What `get_sub_font` does. -/
theorem getSubFont_spec {r : Registry} {t t' : FontThread} {font : Font} {cs : List (Nat × Nat)} {offset limit : Nat} {script : Int}
    {sc sub sup : Bool} {out : SingleScriptFont} {new : Nat} (hc : CacheOK lib r t) (hlim : limit = offset + nativeLength cs)
    (h : getSubFont lib r t font cs offset limit script sc sub sup = some (t', out, new)) :
    CacheOK lib r t' ∧ out.syntheticSmallCaps = (caseLimit lib offset limit cs sc).2 ∧
      ∃ base f, r.fontForScript font.face.getFamily font.face.getWeight.toNat font.face.getStyle script = some base ∧
      r.families[font.face.getFamily.toNat]? = some f ∧
      ∃ seg rest, cs = seg ++ rest ∧ new = offset + nativeLength seg ∧ (cs ≠ [] → seg ≠ []) ∧
        ((out.face = base ∧ new = (caseLimit lib offset limit cs sc).1 ∧
            (base.valid = true → (∃ file, r.Loads lib base file) → ∀ x ∈ cs, r.NoFace lib font base f.fallback x.2)) ∨
         (∃ pre w c post, cs = pre ++ (w, c) :: post ∧ r.Chosen lib font base f.fallback c out.face ∧
            (base.valid = true → (∃ file, r.Loads lib base file) → ∀ x ∈ pre, r.NoFace lib font base f.fallback x.2) ∧
            (∀ x ∈ seg.drop pre.length, r.Draws lib out.face x.2) ∧
            ((new = (caseLimit lib offset limit cs sc).1 ∧ ∀ x ∈ post, r.Draws lib out.face x.2) ∨
              pre.length < seg.length ∧ ∃ w' c' rest', rest = (w', c') :: rest' ∧ ¬ r.Draws lib out.face c'))) := by
  obtain ⟨cpre, crest, c1, c2, c3, _⟩ := caseLimit_spec (lib := lib) hlim sc
  unfold getSubFont at h
  rw [show (if sc = true then (match caseRunLimit lib offset limit cs 0 true false with | (l, upper) => (l, !upper)) else (limit, false)) =
    caseLimit lib offset limit cs sc from rfl] at h
  generalize hcl : caseLimit lib offset limit cs sc = cl at h c2
  obtain ⟨cl, synth⟩ := cl
  simp only at h c2
  cases hb : r.fontForScript font.face.getFamily font.face.getWeight.toNat font.face.getStyle script with
  | none => rw [hb] at h; cases h
  | some base =>
    rw [hb] at h
    simp only at h
    cases hf : r.families[font.face.getFamily.toNat]? with
    | none => rw [hf] at h; cases h
    | some f =>
      rw [hf] at h
      simp only at h
      cases hd : firstDrawable lib r font base f.fallback cs 0 (t.log [.lockShared]) with
      | none => rw [hd] at h; cases h
      | some x =>
        obtain ⟨t1, found⟩ := x
        rw [hd] at h
        simp only at h
        have hc1 : CacheOK lib r (t.log [.lockShared]) := hc
        obtain ⟨d1, d2, d3⟩ := firstDrawable_spec cs 0 _ t1 found hc1 hd
        cases found with
        | none =>
          cases h
          exact ⟨d1, rfl, base, f, rfl, rfl, cpre, crest, c1, c2, c3, .inl ⟨rfl, rfl, d3 rfl⟩⟩
        | some y =>
          obtain ⟨rest0, i, face, d⟩ := y
          obtain ⟨pre, w, c, p1, p2, p3, p4, p5⟩ := d2 rest0 i face d rfl
          simp only at h
          obtain ⟨m1, m2⟩ := firstMissing_spec (lib := lib) d rest0 i
          cases hm : firstMissing lib d rest0 i with
          | some j =>
            rw [hm] at h
            cases h
            obtain ⟨mid, w', c', rest', n1, n2, n3, n4⟩ := m1 j hm
            refine ⟨d1, rfl, base, f, rfl, rfl, pre ++ (w, c) :: mid, (w', c') :: rest', by rw [p1, n1]; simp, ?_,
              fun _ => (by simp), .inr ⟨pre, w, c, rest0, p1, p4, p5, ?_, .inr ⟨(by simp), w', c', rest', rfl, ?_⟩⟩⟩
            · rw [n2, p2]; simp [nativeLength]; omega
            · rw [List.drop_left]
              intro x hx
              rcases List.mem_cons.1 hx with rfl | hx
              · exact p4.draws
              · exact (has_draws p3 _).1 (n3 x hx)
            · intro hdr
              rw [(has_draws p3 _).2 hdr] at n4
              cases n4
          | none =>
            rw [hm] at h
            cases h
            have hpost : ∀ x ∈ rest0, r.Draws lib face x.2 := fun x hx => (has_draws p3 _).1 (m2 hm x hx)
            refine ⟨d1, rfl, base, f, rfl, rfl, cpre, crest, c1, c2, c3, .inr ⟨pre, w, c, rest0, p1, p4, p5, ?_, .inl ⟨rfl, hpost⟩⟩⟩
            intro x hx
            have hx2 : x ∈ cs.drop pre.length := by
              rw [c1, List.drop_append]
              exact List.mem_append_left _ hx
            rw [p1, List.drop_left] at hx2
            rcases List.mem_cons.1 hx2 with rfl | hx2
            · exact p4.draws
            · exact hpost x hx2

/-- Caches stay in order. -/
theorem CacheOK.grow {r r' : Registry} {t : FontThread} (h : CacheOK lib r t) (he : Extends r r') : CacheOK lib r' t := by
  intro x hx
  obtain ⟨⟨fd, h1, h2, h3⟩, h4, h5⟩ := h x hx
  obtain ⟨_, _, a, ha⟩ := he
  exact ⟨⟨fd, by rw [ha, List.getElem?_append_left (List.getElem?_eq_some_iff.1 h1).1]; exact h1, h2, h3⟩, h4, h5⟩

theorem getSubFont_cache {r : Registry} {t t' : FontThread} {font : Font} {cs : List (Nat × Nat)} {offset limit : Nat} {script : Int}
    {sc sub sup : Bool} {x : SingleScriptFont × Nat} (hc : CacheOK lib r t)
    (h : getSubFont lib r t font cs offset limit script sc sub sup = some (t', x)) : CacheOK lib r t' := by
  unfold getSubFont at h
  simp only at h
  split at h
  · cases h
  · split at h
    · cases h
    · split at h
      · cases h
      · rename_i hd
        have hc1 : CacheOK lib r (t.log [.lockShared]) := hc
        obtain ⟨d1, _⟩ := firstDrawable_spec cs 0 _ _ _ hc1 hd
        split at h
        · cases h; exact d1
        · split at h
          · cases h; exact d1
          · cases h; exact d1

theorem FontRun.cache {r : Registry} {t : FontThread} (h : FontRun lib r t) : CacheOK lib r t := by
  induction h with
  | start => intro x hx; cases hx
  | register _ hr ih => exact ih.grow (extends_register hr)
  | fontData _ hg ih => exact (getFontData_spec ih hg).1
  | subFont _ hg ih => exact getSubFont_cache ih hg

theorem FontRun.reached {r : Registry} {t : FontThread} (h : FontRun lib r t) : r.Reached lib := by
  induction h with
  | start h => exact h
  | register _ hr ih => exact .register ih hr
  | fontData _ _ ih => exact ih
  | subFont _ _ ih => exact ih

/-! ### The base face -/

theorem hasScript_iff {r : Registry} {h : FamilyHandle} {f : FamilyData} {script : Int} {b : Bool} (hf : r.families[h.toNat]? = some f)
    (hb : f.hasScript script = some b) : r.HasScript h script ↔ b = true := by
  unfold FamilyData.hasScript at hb
  split at hb
  · rename_i h0
    constructor
    · rintro ⟨f', h1, h2, h3⟩
      rw [hf] at h1; cases h1
      rw [hb] at h3
      exact Option.some.inj h3
    · rintro rfl
      exact ⟨f, hf, h0, hb⟩
  · cases hb

theorem linkedFor_spec {r : Registry} {script : Int} : ∀ (ls : List FamilyHandle) (res : Option FamilyHandle),
    r.linkedFor script ls = some res →
    (∀ src, res = some src → ∃ pre post, ls = pre ++ src :: post ∧ r.IsInit src ∧ r.HasScript src script ∧
      ∀ l ∈ pre, ¬ (r.IsInit l ∧ r.HasScript l script)) ∧
    (res = none → ∀ l ∈ ls, ¬ (r.IsInit l ∧ r.HasScript l script)) := by
  intro ls
  induction ls with
  | nil => intro res h; cases h; exact ⟨fun _ h => (by cases h), fun _ l hl => (by cases hl)⟩
  | cons l ls ih =>
    intro res h
    have skip : r.linkedFor script ls = some res → ¬ (r.IsInit l ∧ r.HasScript l script) →
        (∀ src, res = some src → ∃ pre post, l :: ls = pre ++ src :: post ∧ r.IsInit src ∧ r.HasScript src script ∧
          ∀ l ∈ pre, ¬ (r.IsInit l ∧ r.HasScript l script)) ∧
        (res = none → ∀ x ∈ l :: ls, ¬ (r.IsInit x ∧ r.HasScript x script)) := by
      intro h1 hno
      obtain ⟨i1, i2⟩ := ih res h1
      refine ⟨?_, ?_⟩
      · intro src hs
        obtain ⟨pre, post, k1, k2, k3, k4⟩ := i1 src hs
        refine ⟨l :: pre, post, by rw [k1]; rfl, k2, k3, ?_⟩
        intro x hx
        rcases List.mem_cons.1 hx with rfl | hx
        · exact hno
        · exact k4 x hx
      · intro hn x hx
        rcases List.mem_cons.1 hx with rfl | hx
        · exact hno
        · exact i2 hn x hx
    unfold Registry.linkedFor at h
    cases hf : r.families[l.toNat]? with
    | none => rw [hf] at h; cases h
    | some f =>
      rw [hf] at h
      simp only at h
      split at h
      · rename_i hinit
        cases hb : f.hasScript script with
        | none => rw [hb] at h; cases h
        | some b =>
          rw [hb] at h
          cases b with
          | true =>
            cases h
            refine ⟨?_, fun h => (by cases h)⟩
            intro src hs
            cases hs
            exact ⟨[], ls, rfl, ⟨f, hf, hinit⟩, (hasScript_iff hf hb).2 rfl, fun x hx => (by cases hx)⟩
          | false =>
            refine skip h ?_
            rintro ⟨_, hs⟩
            cases (hasScript_iff hf hb).1 hs
      · rename_i hinit
        refine skip h ?_
        rintro ⟨⟨f', h1, h2⟩, _⟩
        rw [hf] at h1; cases h1
        exact hinit h2

theorem fontForScript_spec {r : Registry} {h : FamilyHandle} {w : Nat} {s : FontStyle} {script : Int} {face : FaceDataHandle}
    (hr : r.fontForScript h w s script = some face) : ∃ f src, r.families[h.toNat]? = some f ∧ r.ScriptFamily h script f.linked src ∧
      r.faceOf src w s = some face := by
  unfold Registry.fontForScript at hr
  cases hf : r.families[h.toNat]? with
  | none => rw [hf] at hr; cases hr
  | some f =>
    rw [hf] at hr
    simp only at hr
    cases hb : f.hasScript script with
    | none => rw [hb] at hr; cases hr
    | some b =>
      rw [hb] at hr
      cases b with
      | true => exact ⟨f, h, rfl, .inl ⟨(hasScript_iff hf hb).2 rfl, rfl⟩, hr⟩
      | false =>
        have hno : ¬ r.HasScript h script := fun hs => by cases (hasScript_iff hf hb).1 hs
        simp only at hr
        cases hl : r.linkedFor script f.linked with
        | none => rw [hl] at hr; cases hr
        | some res =>
          rw [hl] at hr
          obtain ⟨i1, i2⟩ := linkedFor_spec f.linked res hl
          cases res with
          | none => exact ⟨f, h, rfl, .inr (.inr ⟨hno, i2 rfl, rfl⟩), hr⟩
          | some l => exact ⟨f, l, rfl, .inr (.inl ⟨hno, i1 l rfl⟩), hr⟩

/-! ### No undefined behaviour -/

/-- All initialised families have all faces. -/
def Registry.Complete (r : Registry) : Prop := ∀ (i : Nat) (f : FamilyData), r.families[i]? = some f → f.initialized = true →
  ∀ w < 9, ∀ s, ∃ face, f.face w s = some face ∧ face.valid = true ∧ face.handle.toNat < r.faces.length

theorem getFontData_total {r : Registry} {t : FontThread} {q : FontRequest} (he : q.effective ≠ none)
    (hf : q.face.handle.toNat < r.faces.length) : ∃ x, getFontData lib r t q = some x := by
  unfold getFontData
  cases h : q.effective with
  | none => exact absurd h he
  | some eff =>
    simp only
    cases t.cache.lookup q.face.handle with
    | some o => exact ⟨_, rfl⟩
    | none =>
      simp only
      rw [List.getElem?_eq_getElem hf]
      simp only
      cases r.faces[q.face.handle.toNat].file with
      | none => exact ⟨_, rfl⟩
      | some file =>
        simp only
        split
        · exact ⟨_, rfl⟩
        · exact ⟨_, rfl⟩

theorem findFallback_total {r : Registry} {font : Font} {c : Nat} (hcomp : r.Complete) (hw : font.face.getWeight.toNat < 9)
    (he : effectiveSize font.size.toNat false false ≠ none) : ∀ (hs : List FamilyHandle) (t : FontThread),
    (∀ h ∈ hs, h.toNat < r.families.length) → ∃ x, findFallback lib r font c hs t = some x := by
  intro hs
  induction hs with
  | nil => intro t _; exact ⟨_, rfl⟩
  | cons h hs ih =>
    intro t hh
    have hlt := hh h List.mem_cons_self
    have hrest : ∀ x ∈ hs, x.toNat < r.families.length := fun x hx => hh x (List.mem_cons_of_mem _ hx)
    unfold findFallback
    cases hf : r.families[h.toNat]? with
    | none => rw [List.getElem?_eq_getElem hlt] at hf; cases hf
    | some f =>
      simp only
      split
      · rename_i hinit
        obtain ⟨face, k1, k2, k3⟩ := hcomp _ f hf hinit _ hw font.face.getStyle
        rw [k1]
        simp only
        obtain ⟨⟨t1, res⟩, hx⟩ := getFontData_total (lib := lib) (r := r) (t := t) (q := plainRequest font face) he k3
        rw [hx]
        cases res with
        | none => exact ih t1 hrest
        | some d =>
          simp only
          split
          · exact ⟨_, rfl⟩
          · exact ih t1 hrest
      · exact ih t hrest

theorem firstDrawable_total {r : Registry} {font : Font} {base : FaceDataHandle} {fallback : List FamilyHandle} (hcomp : r.Complete)
    (hw : font.face.getWeight.toNat < 9) (he : effectiveSize font.size.toNat false false ≠ none)
    (hbase : base.handle.toNat < r.faces.length) (hfb : ∀ h ∈ fallback, h.toNat < r.families.length) :
    ∀ (cs : List (Nat × Nat)) (idx : Nat) (t : FontThread), ∃ x, firstDrawable lib r font base fallback cs idx t = some x := by
  intro cs
  induction cs with
  | nil => intro idx t; exact ⟨_, rfl⟩
  | cons x cs ih =>
    obtain ⟨w, c⟩ := x
    intro idx t
    have hcompat : ∃ x, findCompatible lib r font c base fallback t = some x := by
      unfold findCompatible
      split
      · obtain ⟨⟨t1, res⟩, hx⟩ := getFontData_total (lib := lib) (r := r) (t := t) (q := plainRequest font base) he hbase
        rw [hx]
        cases res with
        | none => exact ⟨_, rfl⟩
        | some d =>
          simp only
          split
          · exact ⟨_, rfl⟩
          · exact findFallback_total hcomp hw he fallback t1 hfb
      · exact ⟨_, rfl⟩
    obtain ⟨⟨t1, res⟩, hx⟩ := hcompat
    unfold firstDrawable
    rw [hx]
    cases res with
    | some z => exact ⟨_, rfl⟩
    | none => exact ih _ t1

theorem hasScript_total {f : FamilyData} {script : Int} (h0 : 0 ≤ script) (h1 : script.toNat < f.scripts.length) :
    ∃ b, f.hasScript script = some b := by
  unfold FamilyData.hasScript
  rw [if_pos h0]
  exact ⟨_, List.getElem?_eq_getElem h1⟩

theorem linkedFor_total {r : Registry} (hi : RegInv lib r) {script : Int} (h0 : 0 ≤ script) (h1 : script.toNat < lib.codeLimit) :
    ∀ (ls : List FamilyHandle), (∀ h ∈ ls, h.toNat < r.families.length) → ∃ x, r.linkedFor script ls = some x := by
  intro ls
  induction ls with
  | nil => intro _; exact ⟨_, rfl⟩
  | cons l ls ih =>
    intro hh
    have hlt := hh l List.mem_cons_self
    have hrest := ih fun x hx => hh x (List.mem_cons_of_mem _ hx)
    unfold Registry.linkedFor
    cases hf : r.families[l.toNat]? with
    | none => rw [List.getElem?_eq_getElem hlt] at hf; cases hf
    | some f =>
      simp only
      split
      · obtain ⟨b, hb⟩ := hasScript_total (f := f) h0 (by rw [(hi.fam _ f hf).scripts]; exact h1)
        rw [hb]
        cases b
        · exact hrest
        · exact ⟨_, rfl⟩
      · exact hrest

theorem faceOf_complete {r : Registry} (hcomp : r.Complete) {h : FamilyHandle} (hi : r.IsInit h) {w : Nat} (hw : w < 9) (s : FontStyle) :
    ∃ face, r.faceOf h w s = some face ∧ face.handle.toNat < r.faces.length := by
  obtain ⟨f, hf, hinit⟩ := hi
  obtain ⟨face, k1, _, k3⟩ := hcomp _ f hf hinit w hw s
  refine ⟨face, ?_, k3⟩
  unfold Registry.faceOf
  rw [hf]; exact k1

theorem getSubFont_total {r : Registry} {t : FontThread} {font : Font} {cs : List (Nat × Nat)} {offset limit : Nat} {script : Int}
    {sc sub sup : Bool} (hi : RegInv lib r) (hcomp : r.Complete) (hfam : r.IsInit font.face.getFamily)
    (hw : font.face.getWeight.toNat < 9) (he : effectiveSize font.size.toNat false false ≠ none) (h0 : 0 ≤ script)
    (h1 : script.toNat < lib.codeLimit) : ∃ x, getSubFont lib r t font cs offset limit script sc sub sup = some x := by
  obtain ⟨f, hf, hinit⟩ := hfam
  have hfok := hi.fam _ f hf
  have hin : ∀ hs : List FamilyHandle, (∀ h ∈ hs, ∃ n, r.familyNames.lookup n = some h) → ∀ h ∈ hs, h.toNat < r.families.length := by
    intro hs hall h hh
    obtain ⟨n, hn⟩ := hall h hh
    exact handle_lt hi.named hi.length hn
  have hbase : ∃ base, r.fontForScript font.face.getFamily font.face.getWeight.toNat font.face.getStyle script = some base ∧
      base.handle.toNat < r.faces.length := by
    have hself := faceOf_complete hcomp ⟨f, hf, hinit⟩ hw font.face.getStyle
    unfold Registry.fontForScript
    rw [hf]
    simp only
    obtain ⟨b, hb⟩ := hasScript_total (f := f) h0 (by rw [hfok.scripts]; exact h1)
    rw [hb]
    cases b with
    | true => exact hself
    | false =>
      simp only
      obtain ⟨res, hres⟩ := linkedFor_total hi h0 h1 f.linked (hin _ hfok.linked)
      rw [hres]
      cases res with
      | none => exact hself
      | some l =>
        obtain ⟨pre, post, _, k, _⟩ := (linkedFor_spec _ _ hres).1 l rfl
        exact faceOf_complete hcomp k hw font.face.getStyle
  obtain ⟨base, hb, hbl⟩ := hbase
  obtain ⟨⟨t1, found⟩, hfd⟩ := firstDrawable_total (lib := lib) hcomp hw he hbl (hin _ hfok.fallback) cs 0 (t.log [.lockShared])
  unfold getSubFont
  simp only
  rw [hb]
  simp only
  rw [hf]
  simp only
  rw [hfd]
  cases found with
  | none => exact ⟨_, rfl⟩
  | some y =>
    simp only
    split
    · exact ⟨_, rfl⟩
    · exact ⟨_, rfl⟩

/-! ### Locks -/

/-- Threads that run without nesting. -/
def LocksOK (ts : List LockThread) : Prop := ∀ t ∈ ts, Hold.run t.hold t.rest = some ⟨0, false⟩ ∧
  (t.waiting = true → t.hold = ⟨0, false⟩ ∧ ∃ ops, t.rest = .lock :: ops)

theorem LocksOK.set {ts : List LockThread} (h : LocksOK ts) (i : Nat) {t : LockThread} (ht : Hold.run t.hold t.rest = some ⟨0, false⟩)
    (hw : t.waiting = true → t.hold = ⟨0, false⟩ ∧ ∃ ops, t.rest = .lock :: ops) : LocksOK (ts.set i t) := by
  intro x hx
  rcases List.mem_or_eq_of_mem_set hx with hx | rfl
  · exact h x hx
  · exact ⟨ht, hw⟩

theorem LocksOK.step {a b : List LockThread} (h : LocksOK a) (hs : LockStep a b) : LocksOK b := by
  cases hs with
  | lockShared hi _ =>
    have h1 := (h _ (List.mem_of_getElem? hi)).1
    simp only [Hold.run] at h1
    split at h1
    · rename_i hh
      subst hh
      exact h.set _ h1 (fun hw => by cases hw)
    · cases h1
  | announce hi =>
    have h1 := (h _ (List.mem_of_getElem? hi)).1
    refine h.set _ h1 fun _ => ?_
    simp only [Hold.run] at h1
    split at h1
    · rename_i hh; exact ⟨hh, _, rfl⟩
    · cases h1
  | lock hi _ =>
    have h1 := (h _ (List.mem_of_getElem? hi)).1
    simp only [Hold.run] at h1
    split at h1
    · rename_i hh
      subst hh
      exact h.set _ h1 (fun hw => by cases hw)
    · cases h1
  | unlockShared hi =>
    have h1 := (h _ (List.mem_of_getElem? hi)).1
    simp only [Hold.run] at h1
    split at h1
    · rename_i hh
      subst hh
      exact h.set _ h1 (fun hw => by cases hw)
    · cases h1
  | unlock hi =>
    have h1 := (h _ (List.mem_of_getElem? hi)).1
    simp only [Hold.run] at h1
    split at h1
    · rename_i hh
      subst hh
      exact h.set _ h1 (fun hw => by cases hw)
    · cases h1

theorem LocksOK.steps {a b : List LockThread} (h : LocksOK a) (hs : LockSteps a b) : LocksOK b := by
  induction hs with
  | refl => exact h
  | step _ hs ih => exact ih.step hs

theorem locksOK_start {ps : List (List LockOp)} (h : ∀ p ∈ ps, NotNested p) : LocksOK (lockStart ps) := by
  intro t ht
  obtain ⟨p, hp, rfl⟩ := List.mem_map.1 ht
  exact ⟨h p hp, fun hw => by cases hw⟩

/-- Somebody can go on. -/
theorem LocksOK.progress {ts : List LockThread} (h : LocksOK ts) (hun : ∃ t ∈ ts, t.rest ≠ []) : ∃ ts', LockStep ts ts' := by
  by_cases hheld : ∃ t ∈ ts, t.hold ≠ ⟨0, false⟩
  · obtain ⟨t, ht, hne⟩ := hheld
    obtain ⟨i, hi⟩ := List.getElem?_of_mem ht
    obtain ⟨h1, h2⟩ := h t ht
    obtain ⟨hold, waiting, rest⟩ := t
    have hw : waiting = false := by
      cases waiting with
      | false => rfl
      | true => exact absurd (h2 rfl).1 hne
    subst hw
    cases rest with
    | nil => simp only [Hold.run, Option.some.injEq] at h1; exact absurd h1 hne
    | cons op ops =>
      cases op with
      | lockShared => simp only [Hold.run] at h1; rw [if_neg hne] at h1; cases h1
      | lock => simp only [Hold.run] at h1; rw [if_neg hne] at h1; cases h1
      | unlockShared => exact ⟨_, .unlockShared hi⟩
      | unlock => exact ⟨_, .unlock hi⟩
  · have hfree : ∀ t ∈ ts, t.hold = ⟨0, false⟩ := fun t ht => Classical.byContradiction fun hc => hheld ⟨t, ht, hc⟩
    by_cases hwait : ∃ t ∈ ts, t.waiting = true
    · obtain ⟨t, ht, hw⟩ := hwait
      obtain ⟨i, hi⟩ := List.getElem?_of_mem ht
      obtain ⟨ops, ho⟩ := ((h t ht).2 hw).2
      obtain ⟨hold, waiting, rest⟩ := t
      simp only at hw ho
      subst hw ho
      exact ⟨_, .lock hi hfree⟩
    · obtain ⟨t, ht, hne⟩ := hun
      obtain ⟨i, hi⟩ := List.getElem?_of_mem ht
      have hw : ∀ t ∈ ts, t.waiting = false := by
        intro t ht
        cases hx : t.waiting with
        | false => rfl
        | true => exact absurd ⟨t, ht, hx⟩ hwait
      have h1 := (h t ht).1
      have hf := hfree t ht
      have hwt := hw t ht
      obtain ⟨hold, waiting, rest⟩ := t
      simp only at hf hwt h1 hne
      subst hf hwt
      cases rest with
      | nil => exact absurd rfl hne
      | cons op ops =>
        cases op with
        | lockShared => exact ⟨_, .lockShared hi fun t ht => ⟨by rw [hfree t ht], hw t ht⟩⟩
        | lock => exact ⟨_, .announce hi⟩
        | unlockShared => simp [Hold.run] at h1
        | unlock => simp [Hold.run] at h1

/-- Every step makes this smaller. -/
def lockWork (ts : List LockThread) : Nat := (ts.map fun t => 2 * t.rest.length + if t.waiting then 0 else 1).sum

theorem sum_set {α : Type} (f : α → Nat) : ∀ (l : List α) (i : Nat) (a b : α), l[i]? = some a → f b < f a →
    ((l.set i b).map f).sum < (l.map f).sum := by
  intro l
  induction l with
  | nil => intro i a b h; simp at h
  | cons x l ih =>
    intro i a b h hlt
    cases i with
    | zero => simp at h; subst h; simp; omega
    | succ i =>
      have := ih i a b (by simpa using h) hlt
      simp only [List.set_cons_succ, List.map_cons, List.sum_cons]
      omega

theorem lockStep_work {a b : List LockThread} (h : LockStep a b) : lockWork b < lockWork a := by
  unfold lockWork
  cases h with
  | lockShared hi _ => exact sum_set _ _ _ _ _ hi (by simp)
  | announce hi => exact sum_set _ _ _ _ _ hi (by simp)
  | lock hi _ => exact sum_set _ _ _ _ _ hi (by simp; omega)
  | unlockShared hi => exact sum_set _ _ _ _ _ hi (by simp)
  | unlock hi => exact sum_set _ _ _ _ _ hi (by simp)

/-! Locks of the registry's functions. -/

/-- The face has been loaded by the thread. -/
def Cached (t : FontThread) (face : FaceDataHandle) : Prop := ∃ o, t.cache.lookup face.handle = some o

theorem setKey_lookup_ne {k k' : BitVec 16} {o : FontOwner} (hne : k' ≠ k) : ∀ (c : List (BitVec 16 × FontOwner)),
    (setKey k o c).lookup k' = c.lookup k' := by
  intro c
  induction c with
  | nil => rfl
  | cons x c ih =>
    unfold setKey at ih ⊢
    rw [List.map_cons, List.lookup_cons, List.lookup_cons]
    by_cases hx : x.1 = k
    · rw [if_pos hx]
      have h1 : (k' == k) = false := by simp [hne]
      have h2 : (k' == x.1) = false := by simp [hx, hne]
      simp only [h1, h2]
      exact ih
    · rw [if_neg hx]
      split
      · rfl
      · exact ih

theorem getFontData_cached {r : Registry} {t t' : FontThread} {q : FontRequest} {res : Option FontDataInfo} (hc : Cached t q.face)
    (h : getFontData lib r t q = some (t', res)) : t'.locks = t.locks ∧ ∀ f, Cached t f → Cached t' f := by
  obtain ⟨o, ho⟩ := hc
  unfold getFontData at h
  split at h
  · cases h
  · rw [ho] at h
    cases h
    refine ⟨rfl, ?_⟩
    rintro f ⟨o', ho'⟩
    by_cases he : f.handle = q.face.handle
    · exact ⟨_, by simp only; rw [he]; exact setKey_lookup ho⟩
    · exact ⟨o', by simp only; rw [setKey_lookup_ne he]; exact ho'⟩

theorem getFontData_locks {r : Registry} {t t' : FontThread} {q : FontRequest} {res : Option FontDataInfo}
    (h : getFontData lib r t q = some (t', res)) : t'.locks = t.locks ∨ t'.locks = t.locks ++ [.lockShared, .unlockShared] := by
  unfold getFontData at h
  split at h
  · cases h
  · split at h
    · cases h; exact .inl rfl
    · split at h
      · cases h
      · split at h
        · cases h; exact .inr rfl
        · split at h
          · cases h; exact .inr rfl
          · cases h; exact .inr rfl

theorem findFallback_cached {r : Registry} {font : Font} {c : Nat} : ∀ (hs : List FamilyHandle) (t t' : FontThread)
    (res : Option (FaceDataHandle × FontDataInfo)), (∀ h ∈ hs, ∀ f, r.FallbackFace font h f → Cached t f) →
    findFallback lib r font c hs t = some (t', res) → t'.locks = t.locks ∧ ∀ f, Cached t f → Cached t' f := by
  intro hs
  induction hs with
  | nil => intro t t' res _ h; cases h; exact ⟨rfl, fun _ h => h⟩
  | cons hd hs ih =>
    intro t t' res hall h
    have hrest : ∀ h ∈ hs, ∀ f, r.FallbackFace font h f → Cached t f := fun h hh => hall h (List.mem_cons_of_mem _ hh)
    unfold findFallback at h
    split at h
    · cases h
    · rename_i f hf
      split at h
      · rename_i hinit
        split at h
        · cases h
        · rename_i face hface
          have hff : r.FallbackFace font hd face := by
            refine ⟨⟨f, hf, hinit⟩, ?_⟩
            unfold Registry.faceOf
            rw [hf]; exact hface
          have hcd := hall hd List.mem_cons_self face hff
          split at h
          · cases h
          · rename_i t1 hg
            obtain ⟨g1, g2⟩ := getFontData_cached hcd hg
            obtain ⟨i1, i2⟩ := ih t1 t' res (fun h hh f hff => g2 f (hrest h hh f hff)) h
            exact ⟨i1.trans g1, fun f hf => i2 f (g2 f hf)⟩
          · rename_i t1 d hg
            obtain ⟨g1, g2⟩ := getFontData_cached hcd hg
            split at h
            · cases h; exact ⟨g1, g2⟩
            · obtain ⟨i1, i2⟩ := ih t1 t' res (fun h hh f hff => g2 f (hrest h hh f hff)) h
              exact ⟨i1.trans g1, fun f hf => i2 f (g2 f hf)⟩
      · exact ih t t' res hrest h

theorem findCompatible_cached {r : Registry} {font : Font} {c : Nat} {base : FaceDataHandle} {hs : List FamilyHandle} {t t' : FontThread}
    {res : Option (FaceDataHandle × FontDataInfo)} (hb : Cached t base) (hall : ∀ h ∈ hs, ∀ f, r.FallbackFace font h f → Cached t f)
    (h : findCompatible lib r font c base hs t = some (t', res)) : t'.locks = t.locks ∧ ∀ f, Cached t f → Cached t' f := by
  unfold findCompatible at h
  split at h
  · split at h
    · cases h
    · rename_i t1 hg
      cases h
      exact getFontData_cached (q := plainRequest font base) hb hg
    · rename_i t1 d hg
      obtain ⟨g1, g2⟩ := getFontData_cached (q := plainRequest font base) hb hg
      split at h
      · cases h; exact ⟨g1, g2⟩
      · obtain ⟨i1, i2⟩ := findFallback_cached hs t1 t' res (fun h hh f hff => g2 f (hall h hh f hff)) h
        exact ⟨i1.trans g1, fun f hf => i2 f (g2 f hf)⟩
  · cases h; exact ⟨rfl, fun _ h => h⟩

theorem firstDrawable_cached {r : Registry} {font : Font} {base : FaceDataHandle} {hs : List FamilyHandle} :
    ∀ (cs : List (Nat × Nat)) (idx : Nat) (t t' : FontThread) (res : Option (List (Nat × Nat) × Nat × FaceDataHandle × FontDataInfo)),
    Cached t base → (∀ h ∈ hs, ∀ f, r.FallbackFace font h f → Cached t f) →
    firstDrawable lib r font base hs cs idx t = some (t', res) → t'.locks = t.locks := by
  intro cs
  induction cs with
  | nil => intro idx t t' res _ _ h; cases h; rfl
  | cons x cs ih =>
    intro idx t t' res hb hall h
    unfold firstDrawable at h
    split at h
    · cases h
    · rename_i t1 face d hg
      cases h
      exact (findCompatible_cached hb hall hg).1
    · rename_i t1 hg
      obtain ⟨g1, g2⟩ := findCompatible_cached hb hall hg
      exact (ih _ t1 t' res (g2 _ hb) (fun h hh f hff => g2 f (hall h hh f hff)) h).trans g1

theorem getSubFont_cached {r : Registry} {t t' : FontThread} {font : Font} {cs : List (Nat × Nat)} {offset limit : Nat} {script : Int}
    {sc sub sup : Bool} {x : SingleScriptFont × Nat} {base : FaceDataHandle} {f : FamilyData}
    (hbase : r.fontForScript font.face.getFamily font.face.getWeight.toNat font.face.getStyle script = some base)
    (hfam : r.families[font.face.getFamily.toNat]? = some f) (hb : Cached t base)
    (hall : ∀ h ∈ f.fallback, ∀ g, r.FallbackFace font h g → Cached t g)
    (h : getSubFont lib r t font cs offset limit script sc sub sup = some (t', x)) :
    t'.locks = t.locks ++ [.lockShared, .unlockShared] := by
  unfold getSubFont at h
  simp only at h
  rw [hbase] at h
  simp only at h
  rw [hfam] at h
  simp only at h
  split at h
  · cases h
  · rename_i t1 found hd
    have hl := firstDrawable_cached cs 0 (t.log [.lockShared]) t1 found hb hall hd
    have hlog : (t1.log [.unlockShared]).locks = t.locks ++ [.lockShared, .unlockShared] := by
      show t1.locks ++ _ = _
      rw [hl]
      show (t.locks ++ [.lockShared]) ++ [.unlockShared] = _
      rw [List.append_assoc]; rfl
    split at h
    · cases h; exact hlog
    · split at h
      · cases h; exact hlog
      · cases h; exact hlog

end RichText
