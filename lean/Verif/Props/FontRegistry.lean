import Verif.Spec.FontRegistry
import Verif.Proof.FontRegistry
import Verif.Proof.FontThread
/-!
The font registry (`src/font_registry.cpp`): C40 to C49, C63.

The libraries (`FontLib`) are arbitrary.  `Registry.Fits` says that there are at
most 65535 families and faces, which is what 16-bit handles can tell apart.
-/
namespace RichText

/-! ### A concrete registry -/

/-- Four scripts; three font files. -/
def demoLib : FontLib where
  codeLimit := 4
  mapFile u := if u = "sans.ttf" then some 1 else if u = "bold.ttf" then some 2 else if u = "cjk.ttf" then some 3 else none
  newFace _ := true
  hbCreate _ := true
  os2 f := if f = 1 then some (250, 50) else none
  spaceGlyph f := 2 + f
  advance f h _ := (f * h * 16 : Nat)
  hasGlyph f c := if f = 3 then decide (0x4e00 ≤ c) else decide (c < 0x400)
  combining c := decide (0x300 ≤ c ∧ c < 0x370)
  changesUpper c := decide (0x61 ≤ c ∧ c ≤ 0x7a)

/-- Bold and Regular; scripts 1 and 2. -/
def demoSans : FamilyInfo where
  name := "Sans"
  scripts := [1, 2]
  linked := ["CJK"]
  fallback := ["Emoji", "CJK"]
  faces := some [⟨"Sans-Bold", "bold.ttf", 6#4, .normal⟩, ⟨"Sans", "sans.ttf", 3#4, .normal⟩]

/-- One face; all scripts. -/
def demoCjk : FamilyInfo where
  name := "CJK"
  faces := some [⟨"CJK-Light", "cjk.ttf", 2#4, .normal⟩]

/-- Without faces. -/
def demoEmpty : FamilyInfo where
  name := "Other"
  linked := ["More"]
  faces := none

/-- Registrations one after the other. -/
def registerAll (lib : FontLib) : List FamilyInfo → Registry → Option Registry
  | [], r => some r
  | i :: is, r =>
    match r.register lib i with
    | none => none
    | some (r, _) => registerAll lib is r

theorem registerAll_steps (lib : FontLib) : ∀ (is : List FamilyInfo) (r0 r r' : Registry), Registry.Steps lib r0 r →
    registerAll lib is r = some r' → Registry.Steps lib r0 r' := by
  intro is
  induction is with
  | nil => intro r0 r r' h h'; cases h'; exact h
  | cons i is ih =>
    intro r0 r r' h h'
    unfold registerAll at h'
    split at h'
    · cases h'
    · rename_i r1 e he
      exact ih r0 r1 r' (.register h he) h'

/-- Both families registered. -/
def demoRegistry : Registry := (registerAll demoLib [demoSans, demoCjk] .init).getD .init

theorem demoRegistry_steps : demoRegistry.Reached demoLib :=
  registerAll_steps demoLib [demoSans, demoCjk] .init .init demoRegistry (.refl _) (by decide +kernel)

theorem demoRegistry_fits : demoRegistry.Fits := by unfold Registry.Fits; decide +kernel

/-! ### C40 -/

/-- C40, first half.  A family handle never changes. -/
theorem C40_handles_stable (lib : FontLib) (r r' : Registry) (hs : Registry.Steps lib r r') (n : String)
    (hv : FamilyHandle.valid (r.getFamily n) = true) : r'.getFamily n = r.getFamily n := by
  obtain ⟨⟨a, ha⟩, _⟩ := hs.extends
  unfold Registry.getFamily at hv ⊢
  cases hl : r.familyNames.lookup n with
  | none => rw [hl] at hv; exact absurd hv (by decide)
  | some x => rw [ha, lookup_append_some hl]

/-- C40, second half.  No other name ever gets it. -/
theorem C40_handles_unique (lib : FontLib) (r r' : Registry) (h0 : r.Reached lib) (hs : Registry.Steps lib r r') (hf : r'.Fits)
    (n n' : String) (hv : FamilyHandle.valid (r.getFamily n) = true) (he : r'.getFamily n' = r.getFamily n) : n' = n := by
  have hi := hs.inv (h0.inv (hs.extends.fits hf)) hf
  have hv' : FamilyHandle.valid (r'.getFamily n') = true := by rw [he]; exact hv
  rw [← C40_handles_stable lib r r' hs n hv] at he hv
  obtain ⟨x, hx⟩ := (valid_iff_lookup hi hf n).1 hv
  obtain ⟨y, hy⟩ := (valid_iff_lookup hi hf n').1 hv'
  rw [getFamily_of_lookup hx, getFamily_of_lookup hy] at he
  subst he
  exact handle_inj hi.named hf.1 hy hx

/-- The registered families have the handles 0 and 1; later registrations keep
them. -/
example : demoRegistry.getFamily "Sans" = 0#16 ∧ demoRegistry.getFamily "CJK" = 1#16 ∧ demoRegistry.getFamily "Emoji" = 2#16 ∧
    (registerAll demoLib [demoEmpty] demoRegistry).map (·.getFamily "CJK") = some 1#16 := by decide +kernel

/-! ### C41 -/

/-- C41.  After a registration with faces, and ever after, every weight and style
has a face: the one supplied for it (the last, should there be several), else the
one supplied as Regular/Normal, else the first.  Weight, style and file are the
supplied ones if the face's name is new. -/
theorem C41_every_slot_has_a_face (lib : FontLib) (r r' r'' : Registry) (info : FamilyInfo) (is : List FaceInfo) (h0 : r.Reached lib)
    (h : r.register lib info = some (r', .none)) (hfaces : info.faces = some is) (hne : is ≠ []) (hs : Registry.Steps lib r' r'')
    (hf : r''.Fits) (w : Nat) (hw : w < 9) (s : FontStyle) :
    ∃ i f, (suppliedFace is w s = some i ∨ suppliedFace is w s = none ∧ standInFace is = some i) ∧
      r''.faceOf (r''.getFamily info.name) w s = some f ∧ r''.FaceNamed f i.name ∧
      (i.New is r → f.sourceWeight = i.weight ∧ f.sourceStyle = i.style ∧
        r''.faces[f.handle.toNat]? = some ⟨i.name, lib.mapFile i.uri⟩) := by
  have hf' := hs.extends.fits hf
  have hi := h0.inv ((extends_register h).fits hf')
  have hi' := register_inv hi h hf'
  rcases register_spec hi h hf'.1 with ⟨e1, _⟩ | ⟨bits, hd, hb, hl, hfam, ⟨e1, _⟩ | ⟨_, is', hst⟩⟩
  · cases e1
  · cases e1
  obtain rfl : is = is' := by have := hst.faceInfo; rw [hfaces] at this; exact Option.some.inj this
  obtain ⟨l, d, v1, v2, v3, v4⟩ := hst.view_self hi hf'.1 hl
  have v4 := v4 hf'.2
  have hv2 := hs.view hi' hf v1
  obtain ⟨_, ⟨ext2, hext2⟩, ext, hext⟩ := hs.extends
  -- the face `i` resolves to a handle with all that is claimed
  have hface : ∀ i ∈ is, r''.FaceNamed (r'.handleOf i) i.name ∧ (r'.handleOf i).valid = true ∧
      (i.New is r → (r'.handleOf i).sourceWeight = i.weight ∧ (r'.handleOf i).sourceStyle = i.style ∧
        r''.faces[(r'.handleOf i).handle.toNat]? = some ⟨i.name, lib.mapFile i.uri⟩) := by
    intro i hi1
    obtain ⟨x, hx⟩ := hst.known i hi1
    have hho : r'.handleOf i = x := by unfold Registry.handleOf; rw [hx]; rfl
    obtain ⟨n1, fd, n2, n3⟩ := hst.faces.valid hf'.2 hx
    rw [hho]
    have keep : ∀ (j : Nat) fd, r'.faces[j]? = some fd → r''.faces[j]? = some fd := by
      intro j fd hj
      rw [hext, List.getElem?_append_left (List.getElem?_eq_some_iff.1 hj).1]; exact hj
    refine ⟨⟨n1, fd, keep _ _ n2, n3⟩, n1, fun hnew => ?_⟩
    have htab := register_table h
    rw [hfaces] at htab
    simp only at htab
    have hlen : (is.foldl (faceStep lib) r.faceTable).1.length ≤ 65535 := by
      rw [← htab]
      show r'.faces.length ≤ _
      rw [← hst.faces.length]; exact hf'.2
    obtain ⟨y, y1, y2, y3, y4⟩ := faceSteps_new is r.faceTable i hi1 hnew.2 (hi.faces.no_name hnew.1) hlen
    rw [← htab] at y1 y4
    have hxy : x = y := by
      have h1 : r'.faceNames.lookup i.name = some y := y1
      rw [hx] at h1; exact Option.some.inj h1
    subst hxy
    exact ⟨y2, y3, keep _ _ y4⟩
  have hslot : r''.faceOf (r''.getFamily info.name) w s = (slot l w s.index).map fun h => if h.valid then h else d := by
    rw [view_face hv2]
    exact slot_fill l d w s.index
  cases hsup : suppliedFace is w s with
  | some i =>
    have him := (supplied_mem hsup).1
    obtain ⟨q1, q2, q3⟩ := hface i him
    refine ⟨i, r'.handleOf i, .inl rfl, ?_, q1, q3⟩
    rw [hslot, v3, hsup]
    simp [q2]
  | none =>
    obtain ⟨i, hst1, him, hdi⟩ : ∃ i, standInFace is = some i ∧ i ∈ is ∧ d = r'.handleOf i := by
      unfold standInFace
      rw [v4]
      cases h3 : suppliedFace is 3 .normal with
      | some i => exact ⟨i, rfl, (supplied_mem h3).1, rfl⟩
      | none =>
        cases is with
        | nil => exact absurd rfl hne
        | cons i is => exact ⟨i, rfl, by simp, rfl⟩
    obtain ⟨q1, q2, q3⟩ := hface i him
    refine ⟨i, r'.handleOf i, .inr ⟨rfl, hst1⟩, ?_, q1, q3⟩
    have hslot0 : slot l w s.index = some {} := by
      rw [v3, hsup]
      unfold slot FamilyData.empty
      simp only
      rw [List.getElem?_replicate, if_pos hw]
      simp only
      rw [List.getElem?_replicate, if_pos (style_lt s)]
    rw [hslot, hslot0, ← hdi]
    show some (if FaceDataHandle.valid {} = true then {} else d) = some d
    rw [if_neg (by decide)]

/-- Bold is the bold face, everything else Regular; the family with only a light
face uses it for everything. -/
example : (Registry.init.register demoLib demoSans).map (·.2) = some .none ∧
    demoRegistry.faceOf (demoRegistry.getFamily "Sans") 6 .normal = some ⟨0#16, 6#4, .normal⟩ ∧
    demoRegistry.faceOf (demoRegistry.getFamily "Sans") 6 .italic = some ⟨1#16, 3#4, .normal⟩ ∧
    demoRegistry.faceOf (demoRegistry.getFamily "Sans") 0 .normal = some ⟨1#16, 3#4, .normal⟩ ∧
    demoRegistry.faceOf (demoRegistry.getFamily "CJK") 8 .italic = some ⟨2#16, 2#4, .normal⟩ ∧
    demoRegistry.faces[1]? = some ⟨"Sans", some 1⟩ := by decide +kernel

/-! ### C42 -/

/-- C42.  A registration turned down as a duplicate changes nothing. -/
theorem C42_duplicates_change_nothing (lib : FontLib) (r r' : Registry) (info : FamilyInfo) (h0 : r.Reached lib) (hf : r'.Fits)
    (h : r.register lib info = some (r', .alreadyLoaded)) : r' = r := by
  rcases register_spec (h0.inv ((extends_register h).fits hf)) h hf.1 with ⟨_, h1, _⟩ | ⟨_, _, _, _, _, ⟨e1, _⟩ | ⟨e1, _⟩⟩
  · exact h1
  · cases e1
  · cases e1

/-- C42.  A registration without faces changes no family and no face, and every
later registration, in particular one of the same name, answers as if it had not
been tried and leads to the same families and faces. -/
theorem C42_no_faces_changes_nothing (lib : FontLib) (r r' : Registry) (info : FamilyInfo) (h0 : r.Reached lib) (hf : r'.Fits)
    (h : r.register lib info = some (r', .noFaces)) :
    (∀ n, r'.view n = r.view n) ∧ r'.faces = r.faces ∧
    ∀ info2 r2 e, r.register lib info2 = some (r2, e) → r2.Fits → ∃ r2' e', r'.register lib info2 = some (r2', e') ∧
      (r2'.Fits → e' = e ∧ (∀ n, r2'.view n = r2.view n) ∧ r2'.faces = r2.faces) := by
  have hi := h0.inv ((extends_register h).fits hf)
  have hi' := register_inv hi h hf
  have ht : r'.faceTable = r.faceTable := by
    have := register_table h
    simpa using this
  have hv : ∀ n, r'.view n = r.view n := by
    intro n
    rcases register_spec hi h hf.1 with ⟨e1, _⟩ | ⟨_, _, _, _, _, ⟨_, _, h1⟩ | ⟨e1, _⟩⟩
    · cases e1
    · obtain ⟨a, g1, g2, _, _⟩ := addNames_spec (lib := lib) info.names r hi.named hi.length
      subst h1
      exact view_grow hi g1 g2 hf.1 n
    · cases e1
  refine ⟨hv, congrArg Prod.fst ht, ?_⟩
  intro info2 r2 e h2 hf2
  have hex : ∃ r2' e', r'.register lib info2 = some (r2', e') := by
    rcases register_spec hi h2 hf2.1 with ⟨_, _, hd, f, k1, k2, k3⟩ | ⟨bits, _, hb, _, _, hcase⟩
    · have hview := (view_init hi k1 k2).2 k3
      rw [← hv] at hview
      cases hl : r'.familyNames.lookup info2.name with
      | none =>
        exfalso; apply hview; unfold Registry.view; rw [hl]
      | some x =>
        unfold Registry.register Registry.getOrAddFamily
        rw [hl]
        simp only
        have hlt := handle_lt hi'.named hi'.length hl
        obtain ⟨f', hf'⟩ : ∃ f, r'.families[x.toNat]? = some f := ⟨_, List.getElem?_eq_getElem hlt⟩
        rw [hf']
        simp only
        rw [if_pos ((view_init hi' hl hf').1 hview)]
        exact ⟨_, _, rfl⟩
    · refine register_total hi' hb ?_
      intro is his
      rcases hcase with ⟨_, h1, _⟩ | ⟨_, is', hst⟩
      · rw [h1] at his; cases his
      · rw [hst.faceInfo] at his; cases his; exact hst.weights
  obtain ⟨r2', e', h2'⟩ := hex
  refine ⟨r2', e', h2', fun hf2' => ?_⟩
  obtain ⟨k1, k2, k3⟩ := register_congr hi hi' hv ht h2 h2' hf2 hf2'
  exact ⟨k1, k2, congrArg Prod.fst k3⟩

/-- C42, generally.  An initialised family never changes. -/
theorem C42_initialised_families_never_change (lib : FontLib) (r r' : Registry) (h0 : r.Reached lib) (hs : Registry.Steps lib r r')
    (hf : r'.Fits) (n : String) (v : FamilyView) (hv : r.view n = some v) : r'.view n = some v :=
  hs.view (h0.inv (hs.extends.fits hf)) hf hv

/-- Registering again, registering without faces. -/
example : (demoRegistry.register demoLib demoSans).map (·.2) = some .alreadyLoaded ∧
    (demoRegistry.register demoLib demoEmpty).map (·.2) = some .noFaces := by decide +kernel

/-- Registering after a registration without faces. -/
def demoLater : Option Registry := registerAll demoLib [demoEmpty, { demoEmpty with faces := demoCjk.faces }] demoRegistry

example : demoLater.bind (·.view "Other") = some ⟨List.replicate 9 (List.replicate 2 ⟨2#16, 2#4, .normal⟩), [some "More"], [],
    List.replicate 4 true⟩ := by decide +kernel
example : demoLater.bind (·.view "More") = none ∧
    (demoLater.bind (·.view "Sans")).map (·.fallback) = some [some "Emoji", some "CJK"] := by decide +kernel

/-! ### C43 -/

/-- C43 fails: a family that is only named as a linked or fallback family has a
valid handle, although it has not been registered. -/
theorem C43_violated : ∃ (lib : FontLib) (r : Registry) (n : String), r.Reached lib ∧ r.Fits ∧
    FamilyHandle.valid (r.getFamily n) = true ∧ r.view n = none :=
  ⟨demoLib, demoRegistry, "Emoji", demoRegistry_steps, demoRegistry_fits, by decide +kernel, by decide +kernel⟩

/-- C43, what holds instead: exactly the names mentioned in the history have
valid handles; all initialised families are among them.  Missing: the others are
initialised. -/
theorem C43_valid_iff_mentioned_partial (lib : FontLib) (hist : List (FamilyInfo × RegistryError)) (r : Registry)
    (h : Registry.Ran lib hist r) (hf : r.Fits) (n : String) :
    (FamilyHandle.valid (r.getFamily n) = true ↔ Mentions hist n) ∧
    (r.view n ≠ none → FamilyHandle.valid (r.getFamily n) = true) := by
  have hi := h.reached.inv hf
  refine ⟨(valid_iff_lookup hi hf n).trans (h.mentions hf n), fun hv => (valid_iff_lookup hi hf n).2 ?_⟩
  cases hl : r.familyNames.lookup n with
  | some x => exact ⟨x, rfl⟩
  | none => exact absurd (by unfold Registry.view; rw [hl]) hv

/-- "Emoji" is mentioned, "More" is not. -/
example : FamilyHandle.valid (demoRegistry.getFamily "Emoji") = true ∧
    FamilyHandle.valid (demoRegistry.getFamily "More") = false := by decide +kernel

/-- The concrete registry has a history. -/
example : ∃ hist, Registry.Ran demoLib hist demoRegistry := by
  have h : ∀ r0 r, Registry.Steps demoLib r0 r → (∃ hist, Registry.Ran demoLib hist r0) → ∃ hist, Registry.Ran demoLib hist r := by
    intro r0 r h h0
    induction h with
    | refl => exact h0
    | register _ hr ih => obtain ⟨hist, hh⟩ := ih; exact ⟨_, .register hh hr⟩
  exact h _ _ demoRegistry_steps ⟨_, .start⟩

/-! ### C44 -/

/-- C44, first half.  The base face is that of the family if it has the script,
else of the first initialised linked family that has it, else of the family. -/
theorem C44_base_face (r : Registry) (h : FamilyHandle) (w : Nat) (s : FontStyle) (script : Int) (base : FaceDataHandle)
    (hr : r.fontForScript h w s script = some base) :
    ∃ f src, r.families[h.toNat]? = some f ∧ r.ScriptFamily h script f.linked src ∧ r.faceOf src w s = some base :=
  fontForScript_spec hr

/-- A loadable face has a valid handle. -/
theorem loads_valid {lib : FontLib} {r : Registry} (h0 : r.Reached lib) (hf : r.Fits) {face : FaceDataHandle} {file : Nat}
    (h : r.Loads lib face file) : face.valid = true := by
  obtain ⟨fd, h1, _⟩ := h
  have hl := (List.getElem?_eq_some_iff.1 h1).1
  have := (h0.inv hf).faces.length
  have := hf.2
  unfold FaceDataHandle.valid
  simp only [bne_iff_ne, ne_eq]
  intro hc
  have : face.handle.toNat = 65535 := by rw [hc]; rfl
  omega

/-- C44, second half, if the base face can be loaded: `get_sub_font` uses the
face chosen for the first character any face has (the base face if it has it,
else that of the first initialised fallback that has it), and the base face if no
face has any of the characters.  Missing: base faces whose file cannot be
loaded, see `C44_violated`. -/
theorem C44_face_order_partial (lib : FontLib) (r : Registry) (t t' : FontThread) (font : Font) (cs : List (Nat × Nat))
    (offset : Nat) (script : Int) (sc sub sup : Bool) (out : SingleScriptFont) (new : Nat) (base : FaceDataHandle) (f : FamilyData)
    (hrun : FontRun lib r t) (hfit : r.Fits)
    (h : getSubFont lib r t font cs offset (offset + nativeLength cs) script sc sub sup = some (t', out, new))
    (hbase : r.fontForScript font.face.getFamily font.face.getWeight.toNat font.face.getStyle script = some base)
    (hfam : r.families[font.face.getFamily.toNat]? = some f) (hload : ∃ file, r.Loads lib base file) :
    (∃ pre w c post, cs = pre ++ (w, c) :: post ∧ (∀ x ∈ pre, r.NoFace lib font base f.fallback x.2) ∧
      r.Chosen lib font base f.fallback c out.face) ∨
    (out.face = base ∧ ∀ x ∈ cs, r.NoFace lib font base f.fallback x.2) := by
  obtain ⟨_, _, base', f', b1, b2, seg, rest, s1, s2, s3, hcase⟩ := getSubFont_spec hrun.cache rfl h
  rw [hbase] at b1; cases b1
  rw [hfam] at b2; cases b2
  have hv : base.valid = true := by
    obtain ⟨file, hl⟩ := hload
    exact loads_valid hrun.reached hfit hl
  rcases hcase with ⟨h1, _, h3⟩ | ⟨pre, w, c, post, h1, h2, h3, _⟩
  · exact .inr ⟨h1, h3 hv hload⟩
  · exact .inl ⟨pre, w, c, post, h1, h3 hv hload, h2⟩

/-- The Sans font of the example. -/
def demoFont : Font := .make 0#16 3#8 .normal 16#32

/-- Latin text is drawn by Sans, Han text in script 1 by the fallback, in script 3
by the linked family. -/
example : ((getSubFont demoLib demoRegistry .init demoFont [(1, 0x41), (1, 0x42), (3, 0x4e00)] 0 5 1 false false false).map
      fun x => (x.2.1.face, x.2.2)) = some (⟨1#16, 3#4, .normal⟩, 2) ∧
    ((getSubFont demoLib demoRegistry .init demoFont [(3, 0x4e00), (1, 0x42)] 2 6 1 false false false).map
      fun x => (x.2.1.face, x.2.2)) = some (⟨2#16, 2#4, .normal⟩, 5) ∧
    demoRegistry.fontForScript 0#16 3 .normal 1 = some ⟨1#16, 3#4, .normal⟩ ∧
    demoRegistry.fontForScript 0#16 3 .normal 3 = some ⟨2#16, 2#4, .normal⟩ := by decide +kernel

/-- A family whose file cannot be mapped, with a fallback. -/
def demoBroken : FamilyInfo where
  name := "Broken"
  fallback := ["CJK"]
  faces := some [⟨"Broken", "missing.ttf", 3#4, .normal⟩]

/-- The example with it. -/
def demoRegistry2 : Registry := (registerAll demoLib [demoCjk, demoBroken] .init).getD .init

theorem demoRegistry2_steps : demoRegistry2.Reached demoLib :=
  registerAll_steps demoLib [demoCjk, demoBroken] .init .init demoRegistry2 (.refl _) (by decide +kernel)

/-- The broken font. -/
def demoFont2 : Font := .make 1#16 3#8 .normal 16#32

/-- C44 fails if the base face cannot be loaded: no fallback is tried.  Here the
fallback has the character, but the base face is used. -/
theorem C44_violated : ∃ (lib : FontLib) (r : Registry) (t t' : FontThread) (font : Font) (c : Nat) (script : Int)
    (out : SingleScriptFont) (new : Nat) (base face : FaceDataHandle) (f : FamilyData), FontRun lib r t ∧ r.Fits ∧
    getSubFont lib r t font [(3, c)] 0 3 script false false false = some (t', out, new) ∧
    r.fontForScript font.face.getFamily font.face.getWeight.toNat font.face.getStyle script = some base ∧
    r.families[font.face.getFamily.toNat]? = some f ∧ r.Chosen lib font base f.fallback c face ∧ out.face ≠ face := by
  have h : (getSubFont demoLib demoRegistry2 .init demoFont2 [(3, 0x4e00)] 0 3 1 false false false).map (fun x => x.2.1.face) =
      some ⟨1#16, 3#4, .normal⟩ := by decide +kernel
  obtain ⟨⟨t', out, new⟩, h1, h2⟩ := Option.map_eq_some_iff.1 h
  have hb : demoRegistry2.faces[1]? = some ⟨"Broken", none⟩ := by decide +kernel
  have hc : demoRegistry2.faces[0]? = some ⟨"CJK-Light", some 3⟩ := by decide +kernel
  obtain ⟨f, hf, hfb⟩ := Option.map_eq_some_iff.1
    (show demoRegistry2.families[demoFont2.face.getFamily.toNat]?.map (·.fallback) = some [0#16] by decide +kernel)
  obtain ⟨g, hg, hgi⟩ := Option.map_eq_some_iff.1
    (show demoRegistry2.families[0]?.map (·.initialized) = some true by decide +kernel)
  refine ⟨demoLib, demoRegistry2, .init, t', demoFont2, 0x4e00, 1, out, new, ⟨1#16, 3#4, .normal⟩, ⟨0#16, 2#4, .normal⟩, f,
    .start demoRegistry2_steps, by unfold Registry.Fits; decide +kernel, h1, by decide +kernel, hf, .inr ⟨?_, ?_⟩, ?_⟩
  · rintro ⟨file, ⟨fd, k1, k2, _⟩, _⟩
    have : some fd = some ⟨"Broken", none⟩ := k1.symm.trans hb
    cases this
    cases k2
  · rw [hfb]
    exact ⟨[], 0#16, [], rfl, ⟨⟨g, hg, hgi⟩, by decide +kernel⟩, ⟨3, ⟨_, hc, rfl, rfl, rfl⟩, by decide⟩, fun _ h => by cases h⟩
  · simp only at h2
    rw [h2]
    decide

/-! ### C45 -/

/-- Every initialised family was initialised by a registration of the history. -/
theorem ran_initialised {lib : FontLib} {hist : List (FamilyInfo × RegistryError)} {r : Registry} (h : Registry.Ran lib hist r)
    (hf : r.Fits) {n : String} (hv : r.view n ≠ none) : ∃ (r1 r2 : Registry) (info : FamilyInfo) (is : List FaceInfo), r1.Reached lib ∧
      r1.register lib info = some (r2, .none) ∧ info.name = n ∧ (info, RegistryError.none) ∈ hist ∧ info.faces = some is ∧
      Registry.Steps lib r2 r := by
  induction h with
  | start => exact absurd rfl hv
  | @register hist r r' info e hr hreg ih =>
    have hf0 := (extends_register hreg).fits hf
    have hi := hr.reached.inv hf0
    have hold : r.view n ≠ none → ∃ (r1 r2 : Registry) (info' : FamilyInfo) (is : List FaceInfo), r1.Reached lib ∧ r1.register lib info' = some (r2, .none) ∧ info'.name = n ∧
        (info', RegistryError.none) ∈ hist ++ [(info, e)] ∧ info'.faces = some is ∧ Registry.Steps lib r2 r' := by
      intro hv0
      obtain ⟨r1, r2, i, is, k1, k2, k3, k4, k5, k6⟩ := ih hf0 hv0
      exact ⟨r1, r2, i, is, k1, k2, k3, List.mem_append_left _ k4, k5, .register k6 hreg⟩
    rcases register_spec hi hreg hf.1 with ⟨_, rfl, _⟩ | ⟨bits, hd, hb, hl, _, ⟨_, _, rfl⟩ | ⟨rfl, is, hs⟩⟩
    · exact hold hv
    · obtain ⟨a, g1, g2, _, _⟩ := addNames_spec (lib := lib) info.names r hi.named hi.length
      exact hold (by rw [← view_grow hi g1 g2 hf.1 n]; exact hv)
    · by_cases hn : n = info.name
      · exact ⟨r, r', info, is, hr.reached, hreg, hn.symm, by simp, hs.faceInfo, .refl _⟩
      · exact hold (by rw [← hs.view_other hi hf.1 hl hn]; exact hv)

/-- If no registration gave an empty array of faces, all slots are filled. -/
theorem ran_complete {lib : FontLib} {hist : List (FamilyInfo × RegistryError)} {r : Registry} (h : Registry.Ran lib hist r)
    (hf : r.Fits) (hne : ∀ x ∈ hist, x.1.faces ≠ some []) : r.Complete := by
  have hi := h.reached.inv hf
  intro i f hfi hinit w hw s
  have hlt : i < r.familyNames.length := by rw [hi.length]; exact (List.getElem?_eq_some_iff.1 hfi).1
  obtain ⟨x, hx⟩ : ∃ x, r.familyNames[i]? = some x := ⟨_, List.getElem?_eq_getElem hlt⟩
  have hlook : r.familyNames.lookup x.1 = some x.2 := (lookup_iff_get hi.named.nodup _ _).2 ⟨i, hx⟩
  have hnat : x.2.toNat = i := by rw [hi.named.handle i _ hx]; exact toNat_ofNat16 (by have := hf.1; omega)
  have hview := (view_init hi hlook (by rw [hnat]; exact hfi)).2 hinit
  obtain ⟨r1, r2, info, is, k1, k2, k3, k4, k5, k6⟩ := ran_initialised h hf hview
  have his : is ≠ [] := fun hc => hne _ k4 (by rw [← hc]; exact k5)
  obtain ⟨j, face, _, m1, ⟨m2, fd, m3, _⟩, _⟩ := C41_every_slot_has_a_face lib r1 r2 r info is k1 k2 k5 his k6 hf w hw s
  rw [k3, getFamily_of_lookup hlook] at m1
  unfold Registry.faceOf at m1
  rw [hnat, hfi] at m1
  exact ⟨face, m1, m2, (List.getElem?_eq_some_iff.1 m3).1⟩

/-- C45: no undefined behaviour.  For an initialised family, a weight and a size
in range and a script ICU knows, if no family was registered with an empty array
of faces. -/
theorem C45_defined (lib : FontLib) (hist : List (FamilyInfo × RegistryError)) (r : Registry) (hr : Registry.Ran lib hist r)
    (hf : r.Fits) (hne : ∀ x ∈ hist, x.1.faces ≠ some []) (t : FontThread) (font : Font) (cs : List (Nat × Nat)) (offset limit : Nat)
    (script : Int) (sc sub sup : Bool) (hfam : r.IsInit font.face.getFamily) (hw : font.face.getWeight.toNat < 9)
    (hsize : font.size.toNat < 2 ^ 32 - 128) (h0 : 0 ≤ script) (h1 : script.toNat < lib.codeLimit) :
    ∃ x, getSubFont lib r t font cs offset limit script sc sub sup = some x := by
  refine getSubFont_total (hr.reached.inv hf) (ran_complete hr hf hne) hfam hw ?_ h0 h1
  intro hc
  have := (effective_plain_none (b := font.size.toNat) (by omega)).1 hc
  omega

/-- The hypotheses are met by the example. -/
example : demoRegistry.IsInit demoFont.face.getFamily ∧ demoFont.face.getWeight.toNat < 9 ∧
    demoFont.size.toNat < 2 ^ 32 - 128 := by
  obtain ⟨g, hg, hgi⟩ := Option.map_eq_some_iff.1
    (show demoRegistry.families[demoFont.face.getFamily.toNat]?.map (·.initialized) = some true by decide +kernel)
  exact ⟨⟨g, hg, hgi⟩, by decide, by decide⟩

/-- Without the condition on the registrations the face table may be read out of
range: a fallback family registered with an empty array. -/
example : let reg := (registerAll demoLib [{ demoCjk with name := "Emoji", faces := some [] }, demoSans] .init).getD .init
    (getSubFont demoLib reg .init (.make 1#16 3#8 .normal 16#32) [(3, 0x4e00)] 0 3 1 false false false).isNone = true := by
  decide +kernel

/-- C45.  A call moves the offset forward, not past the limit, to a character
boundary; from the first character that any face has on all characters of the
segment can be drawn by the chosen face. -/
theorem C45_advances (lib : FontLib) (r : Registry) (t t' : FontThread) (font : Font) (cs : List (Nat × Nat)) (offset : Nat)
    (script : Int) (sc sub sup : Bool) (out : SingleScriptFont) (new : Nat) (hrun : FontRun lib r t) (hfit : r.Fits)
    (hne : cs ≠ []) (hw : ∀ x ∈ cs, 0 < x.1)
    (h : getSubFont lib r t font cs offset (offset + nativeLength cs) script sc sub sup = some (t', out, new)) :
    offset < new ∧ new ≤ offset + nativeLength cs ∧
    ∃ skipped drawn rest, cs = skipped ++ drawn ++ rest ∧ new = offset + nativeLength (skipped ++ drawn) ∧
      (∀ x ∈ drawn, r.Draws lib out.face x.2) ∧
      ∀ base f, r.fontForScript font.face.getFamily font.face.getWeight.toNat font.face.getStyle script = some base →
        r.families[font.face.getFamily.toNat]? = some f → (∃ file, r.Loads lib base file) →
        ∀ x ∈ skipped, r.NoFace lib font base f.fallback x.2 := by
  obtain ⟨_, _, base, f, b1, b2, seg, rest, s1, s2, s3, hcase⟩ := getSubFont_spec hrun.cache rfl h
  have hpos : 0 < nativeLength seg := by
    cases seg with
    | nil => exact absurd rfl (s3 hne)
    | cons x seg =>
      have := hw x (by rw [s1]; simp)
      simp only [nativeLength, List.map_cons, List.sum_cons]
      omega
  have hle : nativeLength seg ≤ nativeLength cs := by rw [s1]; simp [nativeLength]
  refine ⟨by omega, by omega, ?_⟩
  rcases hcase with ⟨_, _, h3⟩ | ⟨pre, w, c, post, h1, _, h3, h4, _⟩
  · refine ⟨seg, [], rest, by simpa using s1, by simpa using s2, fun x hx => (by cases hx), ?_⟩
    intro base' f' e1 e2 hl x hx
    rw [b1] at e1; cases e1
    rw [b2] at e2; cases e2
    obtain ⟨file, hl'⟩ := hl
    exact h3 (loads_valid hrun.reached hfit hl') ⟨file, hl'⟩ x (by rw [s1]; exact List.mem_append_left _ hx)
  · refine ⟨seg.take pre.length, seg.drop pre.length, rest, by rw [List.take_append_drop]; exact s1,
      by rw [List.take_append_drop]; exact s2, h4, ?_⟩
    intro base' f' e1 e2 hl x hx
    rw [b1] at e1; cases e1
    rw [b2] at e2; cases e2
    obtain ⟨file, hl'⟩ := hl
    refine h3 (loads_valid hrun.reached hfit hl') ⟨file, hl'⟩ x ?_
    have : seg.take pre.length <+: pre := by
      have e : cs.take pre.length = pre := by rw [h1, List.take_left]
      have e2 : cs.take pre.length = seg.take pre.length ++ rest.take (pre.length - seg.length) := by rw [s1, List.take_append]
      exact ⟨_, e2.symm.trans e⟩
    exact this.subset hx

/-- C45: splitting a run into sub-fonts ends and gives non-empty segments that
make up the run. -/
theorem C45_splits (lib : FontLib) (hist : List (FamilyInfo × RegistryError)) (r : Registry) (hr : Registry.Ran lib hist r)
    (hf : r.Fits) (hne : ∀ x ∈ hist, x.1.faces ≠ some []) (font : Font) (script : Int) (sc sub sup : Bool)
    (hfam : r.IsInit font.face.getFamily) (hw : font.face.getWeight.toNat < 9) (hsize : font.size.toNat < 2 ^ 32 - 128)
    (h0 : 0 ≤ script) (h1 : script.toNat < lib.codeLimit) (t : FontThread) (hrun : FontRun lib r t) (offset : Nat)
    (cs : List (Nat × Nat)) :
    ∃ segs, SubFonts lib r font script sc sub sup t offset cs segs ∧ (segs.map (·.2)).flatten = cs ∧ ∀ x ∈ segs, x.2 ≠ [] := by
  induction hn : cs.length using Nat.strongRecOn generalizing cs t offset with
  | _ n ih =>
    by_cases hcs : cs = []
    · subst hcs
      exact ⟨[], .done, rfl, fun x hx => by cases hx⟩
    · obtain ⟨⟨t', out, new⟩, hg⟩ := C45_defined lib hist r hr hf hne t font cs offset (offset + nativeLength cs) script sc sub sup
        hfam hw hsize h0 h1
      obtain ⟨_, _, base, f, b1, b2, seg, rest, s1, s2, s3, _⟩ := getSubFont_spec hrun.cache rfl hg
      have hseg := s3 hcs
      have hlen : rest.length < n := by
        rw [← hn, s1, List.length_append]
        have := List.length_pos_iff.2 hseg
        omega
      obtain ⟨segs, k1, k2, k3⟩ := ih rest.length hlen t' (.subFont hrun hg) new rest rfl
      refine ⟨(out, seg) :: segs, .next hcs hg s1 s2 k1, ?_, ?_⟩
      · rw [List.map_cons, List.flatten_cons, k2, s1]
      · intro x hx
        rcases List.mem_cons.1 hx with rfl | hx
        · exact hseg
        · exact k3 x hx

/-- Undrawable characters at the front belong to the segment, and characters the
chosen font has are kept even if the family's own font has them too. -/
example : ((getSubFont demoLib demoRegistry .init demoFont [(2, 0x500), (3, 0x4e00), (3, 0x4e01), (1, 0x41)] 7 16 1 false false
    false).map fun x => (x.2.1.face, x.2.2)) = some (⟨2#16, 2#4, .normal⟩, 15) := by decide +kernel

/-- C45: besides the face, the font given for a segment is what was asked for: the
size, weight and style of the font, and the position flags; the code emulates
both positions. -/
theorem C45_carries (lib : FontLib) (r : Registry) (t t' : FontThread) (font : Font) (cs : List (Nat × Nat)) (offset limit : Nat)
    (script : Int) (sc sub sup : Bool) (out : SingleScriptFont) (new : Nat)
    (h : getSubFont lib r t font cs offset limit script sc sub sup = some (t', out, new)) :
    out.size = font.size ∧ out.weight = font.face.getWeight.truncate 4 ∧ out.style = font.face.getStyle ∧
    out.smallcaps = sc ∧ out.subscript = sub ∧ out.superscript = sup ∧ out.syntheticSubscript = sub ∧
    out.syntheticSuperscript = sup ∧ (out.syntheticSmallCaps = true → sc = true) := by
  unfold getSubFont at h
  have hs : (if sc = true then (match caseRunLimit lib offset limit cs 0 true false with | (l, upper) => (l, !upper)) else (limit, false)).2
      = true → sc = true := by
    cases sc <;> simp
  generalize (if sc = true then (match caseRunLimit lib offset limit cs 0 true false with | (l, upper) => (l, !upper))
    else (limit, false)) = cl at h hs
  obtain ⟨cl, synth⟩ := cl
  simp only at h hs
  cases hb : r.fontForScript font.face.getFamily font.face.getWeight.toNat font.face.getStyle script with
  | none => rw [hb] at h; cases h
  | some base =>
    rw [hb] at h
    simp only at h
    cases hf : r.families[font.face.getFamily.toNat]? with
    | none => rw [hf] at h; cases h
    | some f =>
      rw [hf] at h
      simp only at h
      generalize firstDrawable lib r font base f.fallback cs 0 (t.log [.lockShared]) = fd at h
      cases fd with
      | none => cases h
      | some x =>
        obtain ⟨t1, found⟩ := x
        cases found with
        | none => cases h; exact ⟨rfl, rfl, rfl, rfl, rfl, rfl, rfl, rfl, hs⟩
        | some y =>
          obtain ⟨rest, idx, face, d⟩ := y
          simp only at h
          generalize firstMissing lib d rest idx = fm at h
          cases fm <;> (cases h; exact ⟨rfl, rfl, rfl, rfl, rfl, rfl, rfl, rfl, hs⟩)

/-- A subscript, and a superscript with small capitals, on the example. -/
example : ((getSubFont demoLib demoRegistry .init demoFont [(1, 0x61), (1, 0x42)] 0 2 1 false true false).map
      fun x => (x.2.1.subscript, x.2.1.superscript, x.2.1.smallcaps)) = some (true, false, false) ∧
    ((getSubFont demoLib demoRegistry .init demoFont [(1, 0x61), (1, 0x42)] 0 2 1 true false true).map
      fun x => (x.2.1.syntheticSubscript, x.2.1.syntheticSuperscript, x.2.1.syntheticSmallCaps)) = some (false, true, true) := by
  decide +kernel

/-! ### C46 -/

/-- C46 fails: the search for characters the font lacks runs past the end of the
case run.  "aB" before a Han character is one segment. -/
theorem C46_violated : ∃ (lib : FontLib) (r : Registry) (t t' : FontThread) (font : Font) (cs seg rest : List (Nat × Nat))
    (script : Int) (out : SingleScriptFont), FontRun lib r t ∧ r.Fits ∧ cs = seg ++ rest ∧
    getSubFont lib r t font cs 0 (nativeLength cs) script true false false = some (t', out, nativeLength seg) ∧
    ∃ x ∈ seg, ∃ y ∈ seg, lib.combining x.2 = false ∧ lib.combining y.2 = false ∧ lib.changesUpper x.2 ≠ lib.changesUpper y.2 := by
  have h : (getSubFont demoLib demoRegistry .init demoFont [(1, 0x61), (1, 0x42), (3, 0x4e00)] 0 5 1 true false false).map
      (fun x => x.2.2) = some 2 := by decide +kernel
  obtain ⟨⟨t', out, new⟩, h1, h2⟩ := Option.map_eq_some_iff.1 h
  simp only at h2
  subst h2
  exact ⟨demoLib, demoRegistry, .init, t', demoFont, _, [(1, 0x61), (1, 0x42)], [(3, 0x4e00)], 1, out,
    .start demoRegistry_steps, demoRegistry_fits, rfl, h1, (1, 0x61), by simp, (1, 0x42), by simp, by decide, by decide, by decide⟩

theorem prefix_unique {cs a b a' b' : List (Nat × Nat)} (hw : ∀ x ∈ cs, 0 < x.1) (h : cs = a ++ b) (h' : cs = a' ++ b')
    (hl : nativeLength a = nativeLength a') : a = a' ∧ b = b' := by
  rcases List.append_eq_append_iff.1 (h.symm.trans h') with ⟨d, e1, e2⟩ | ⟨d, e1, e2⟩
  all_goals
    have : nativeLength d = 0 := by rw [e1] at hl; simp [nativeLength] at hl ⊢; omega
    cases d with
    | nil => simp only [List.append_nil, List.nil_append] at e1 e2; subst e1 e2; exact ⟨rfl, rfl⟩
    | cons y d =>
      have := hw y (by rw [h]; simp [e1, e2])
      simp [nativeLength] at *
      omega

/-- C46 unless the segment is ended by a character the chosen face lacks although
it has one of the segment: all characters of the segment that are not combining
marks agree with the `syntheticSmallCaps` flag of the font.  Missing: the other
segments, see `C46_violated`. -/
theorem C46_case_runs_partial (lib : FontLib) (r : Registry) (t t' : FontThread) (font : Font) (cs seg rest : List (Nat × Nat))
    (offset : Nat) (script : Int) (sub sup : Bool) (out : SingleScriptFont) (hrun : FontRun lib r t) (hw : ∀ x ∈ cs, 0 < x.1)
    (h : getSubFont lib r t font cs offset (offset + nativeLength cs) script true sub sup =
      some (t', out, offset + nativeLength seg)) (hseg : cs = seg ++ rest)
    (hdraw : ∀ x ∈ seg, r.Draws lib out.face x.2 → ∀ y post, rest = y :: post → r.Draws lib out.face y.2) :
    ∀ x ∈ seg, lib.combining x.2 = false → lib.changesUpper x.2 = out.syntheticSmallCaps := by
  obtain ⟨_, hsyn, base, f, b1, b2, seg', rest', s1, s2, s3, hcase⟩ := getSubFont_spec hrun.cache rfl h
  obtain ⟨rfl, rfl⟩ := prefix_unique hw hseg s1 (by omega)
  obtain ⟨cpre, crest, c1, c2, c3, c4⟩ := caseLimit_spec (lib := lib) (offset := offset) (cs := cs) rfl true
  have hlim : offset + nativeLength seg = (caseLimit lib offset (offset + nativeLength cs) cs true).1 := by
    rcases hcase with ⟨_, h2, _⟩ | ⟨pre, w, c, post, p1, p2, p3, p4, ⟨h2, _⟩ | ⟨hl, w', c', rest'', e1, e2⟩⟩
    · exact h2
    · exact h2
    · exfalso
      refine e2 (hdraw (w, c) ?_ p2.draws (w', c') rest'' e1)
      have h1 : cs[pre.length]? = some (w, c) := by rw [p1]; simp
      rw [hseg, List.getElem?_append_left hl] at h1
      exact List.mem_of_getElem? h1
  obtain ⟨rfl, -⟩ := prefix_unique hw hseg c1 (by omega)
  intro x hx hc
  rw [hsyn, ← c4 rfl x hx hc]

/-- Two case runs; a combining mark belongs to the run of its base character. -/
example : ((getSubFont demoLib demoRegistry .init demoFont [(1, 0x61), (2, 0x300), (1, 0x62), (1, 0x42)] 0 5 1 true false false).map
      fun x => (x.2.1.syntheticSmallCaps, x.2.2)) = some (true, 4) ∧
    ((getSubFont demoLib demoRegistry .init demoFont [(1, 0x61), (1, 0x62), (1, 0x42)] 0 3 1 true false false).map
      fun x => (x.2.1.syntheticSmallCaps, x.2.2)) = some (true, 2) ∧
    ((getSubFont demoLib demoRegistry .init demoFont [(1, 0x42)] 2 3 1 true false false).map
      fun x => (x.2.1.syntheticSmallCaps, x.2.2)) = some (false, 3) := by decide +kernel

end RichText
