import Verif.Model.FontRegistry
/-!
Notions for stating what the font registry does: histories of registrations, the
registry as its user sees it (families by name), the face a weight and style
should get, coverage of text by fonts, use of locks.
-/
namespace RichText

/-- The registry changes only by registrations (`get_family` and all other
functions leave it as it is): `r'` is reached from `r`. -/
inductive Registry.Steps (lib : FontLib) : Registry → Registry → Prop
  | refl (r : Registry) : Registry.Steps lib r r
  | register {r r1 r2 : Registry} {info : FamilyInfo} {e : RegistryError} : Registry.Steps lib r r1 →
      r1.register lib info = some (r2, e) → Registry.Steps lib r r2

/-- States reached from program start. -/
def Registry.Reached (lib : FontLib) (r : Registry) : Prop := Registry.Steps lib .init r

/-- A family as seen from outside: the faces, the names of linked and fallback
families, the scripts. -/
structure FamilyView where
  lookup : List (List FaceDataHandle)
  linked : List (Option String)
  fallback : List (Option String)
  scripts : List Bool
deriving Repr, DecidableEq

/-- The name that has a handle. -/
def Registry.nameOf (r : Registry) (h : FamilyHandle) : Option String := (r.familyNames.find? fun x => x.2 == h).map (·.1)

/-- The initialised family of a name. -/
def Registry.view (r : Registry) (n : String) : Option FamilyView :=
  match r.familyNames.lookup n with
  | none => none
  | some h =>
    match r.families[h.toNat]? with
    | none => none
    | some f => if f.initialized then some ⟨f.lookup, f.linked.map r.nameOf, f.fallback.map r.nameOf, f.scripts⟩ else none

/-- The face given for a weight and style: the last one, should there be
several. -/
def suppliedFace (faces : List FaceInfo) (weight : Nat) (style : FontStyle) : Option FaceInfo :=
  (faces.filter fun i => i.weight.toNat = weight ∧ i.style = style).getLast?

/-- The face that stands in for missing ones: Regular/Normal (weight 3) if given,
else the first. -/
def standInFace (faces : List FaceInfo) : Option FaceInfo :=
  match suppliedFace faces 3 .normal with
  | some i => some i
  | none => faces.head?

/-- The handle is valid and names the face `n`. -/
def Registry.FaceNamed (r : Registry) (h : FaceDataHandle) (n : String) : Prop :=
  h.valid = true ∧ ∃ fd, r.faces[h.handle.toNat]? = some fd ∧ fd.name = n

/-- The registry has room: handles are 16 bits wide and all ones is the invalid
handle. -/
def Registry.Fits (r : Registry) : Prop := r.familyNames.length ≤ 65535 ∧ r.faceNames.length ≤ 65535

/-- A history from program start: the registrations and their answers. -/
inductive Registry.Ran (lib : FontLib) : List (FamilyInfo × RegistryError) → Registry → Prop
  | start : Registry.Ran lib [] .init
  | register {hist : List (FamilyInfo × RegistryError)} {r r' : Registry} {info : FamilyInfo} {e : RegistryError} :
      Registry.Ran lib hist r → r.register lib info = some (r', e) → Registry.Ran lib (hist ++ [(info, e)]) r'

/-- A history mentions a name: it was registered, or it is a linked or fallback
family of a registration that was not turned down as a duplicate. -/
def Mentions (hist : List (FamilyInfo × RegistryError)) (n : String) : Prop :=
  ∃ x ∈ hist, n = x.1.name ∨ (x.2 ≠ .alreadyLoaded ∧ (n ∈ x.1.linked ∨ n ∈ x.1.fallback))

/-- A face no earlier registration has the name of; the names in its own
registration differ. -/
def FaceInfo.New (i : FaceInfo) (faces : List FaceInfo) (r : Registry) : Prop :=
  (∀ fd ∈ r.faces, fd.name ≠ i.name) ∧ (faces.map (·.name)).Nodup

/-! ### Fonts and threads -/

/-- The face can be loaded; it uses `file`. -/
def Registry.Loads (lib : FontLib) (r : Registry) (face : FaceDataHandle) (file : Nat) : Prop :=
  ∃ fd, r.faces[face.handle.toNat]? = some fd ∧ fd.file = some file ∧ lib.newFace file = true ∧ lib.hbCreate file = true

/-- The face can be loaded and has the character. -/
def Registry.Draws (lib : FontLib) (r : Registry) (face : FaceDataHandle) (c : Nat) : Prop :=
  ∃ file, r.Loads lib face file ∧ lib.hasGlyph file c = true

/-- What one thread can see: the registry changes by anybody's registrations, the
thread asks for font data and sub-fonts. -/
inductive FontRun (lib : FontLib) : Registry → FontThread → Prop
  | start {r : Registry} : r.Reached lib → FontRun lib r .init
  | register {r r' : Registry} {t : FontThread} {info : FamilyInfo} {e : RegistryError} : FontRun lib r t →
      r.register lib info = some (r', e) → FontRun lib r' t
  | fontData {r : Registry} {t t' : FontThread} {q : FontRequest} {d : Option FontDataInfo} : FontRun lib r t →
      getFontData lib r t q = some (t', d) → FontRun lib r t'
  | subFont {r : Registry} {t t' : FontThread} {font : Font} {cs : List (Nat × Nat)} {offset limit : Nat} {script : Int}
      {sc sub sup : Bool} {x : SingleScriptFont × Nat} : FontRun lib r t →
      getSubFont lib r t font cs offset limit script sc sub sup = some (t', x) → FontRun lib r t'

/-- The family has the script. -/
def Registry.HasScript (r : Registry) (h : FamilyHandle) (script : Int) : Prop :=
  ∃ f, r.families[h.toNat]? = some f ∧ 0 ≤ script ∧ f.scripts[script.toNat]? = some true

/-- The family is initialised. -/
def Registry.IsInit (r : Registry) (h : FamilyHandle) : Prop := ∃ f, r.families[h.toNat]? = some f ∧ f.initialized = true

/-- `src` is the family whose face is used for a script: the family itself if it
has the script, else the first initialised linked family that has it, else the
family itself. -/
def Registry.ScriptFamily (r : Registry) (h : FamilyHandle) (script : Int) (linked : List FamilyHandle) (src : FamilyHandle) : Prop :=
  (r.HasScript h script ∧ src = h) ∨
  (¬ r.HasScript h script ∧ ∃ pre post, linked = pre ++ src :: post ∧ r.IsInit src ∧ r.HasScript src script ∧
    ∀ l ∈ pre, ¬ (r.IsInit l ∧ r.HasScript l script)) ∨
  (¬ r.HasScript h script ∧ (∀ l ∈ linked, ¬ (r.IsInit l ∧ r.HasScript l script)) ∧ src = h)

/-- The face of an initialised fallback family for a font's weight and style. -/
def Registry.FallbackFace (r : Registry) (font : Font) (h : FamilyHandle) (face : FaceDataHandle) : Prop :=
  r.IsInit h ∧ r.faceOf h font.face.getWeight.toNat font.face.getStyle = some face

/-- The face for a character: the base face if it has it, else the first
initialised fallback that has it. -/
def Registry.Chosen (lib : FontLib) (r : Registry) (font : Font) (base : FaceDataHandle) (fallback : List FamilyHandle) (c : Nat)
    (face : FaceDataHandle) : Prop :=
  (face = base ∧ r.Draws lib base c) ∨
  (¬ r.Draws lib base c ∧ ∃ pre h post, fallback = pre ++ h :: post ∧ r.FallbackFace font h face ∧ r.Draws lib face c ∧
    ∀ g ∈ pre, ∀ gf, r.FallbackFace font g gf → ¬ r.Draws lib gf c)

/-- No face has the character. -/
def Registry.NoFace (lib : FontLib) (r : Registry) (font : Font) (base : FaceDataHandle) (fallback : List FamilyHandle) (c : Nat) : Prop :=
  ¬ r.Draws lib base c ∧ ∀ g ∈ fallback, ∀ gf, r.FallbackFace font g gf → ¬ r.Draws lib gf c

/-- Bytes of a text given as characters with their widths. -/
def nativeLength (cs : List (Nat × Nat)) : Nat := (cs.map (·.1)).sum

/-- Splitting a run into sub-fonts as the layout builder does
(src/layout_builder.cpp:262-282): fonts with the characters they are used for. -/
inductive SubFonts (lib : FontLib) (r : Registry) (font : Font) (script : Int) (sc sub sup : Bool) : FontThread → Nat →
    List (Nat × Nat) → List (SingleScriptFont × List (Nat × Nat)) → Prop
  | done {t : FontThread} {offset : Nat} : SubFonts lib r font script sc sub sup t offset [] []
  | next {t t' : FontThread} {offset new : Nat} {cs seg rest : List (Nat × Nat)} {out : SingleScriptFont}
      {segs : List (SingleScriptFont × List (Nat × Nat))} : cs ≠ [] →
      getSubFont lib r t font cs offset (offset + nativeLength cs) script sc sub sup = some (t', out, new) →
      cs = seg ++ rest → new = offset + nativeLength seg → SubFonts lib r font script sc sub sup t' new rest segs →
      SubFonts lib r font script sc sub sup t offset cs ((out, seg) :: segs)

/-! ### Locks -/

/-- How often a thread holds the lock shared, and whether exclusively. -/
structure Hold where
  shared : Nat
  excl : Bool
deriving Repr, DecidableEq

/-- Operations of a thread that starts with `h`, if it never acquires the lock
while holding it and releases what it holds. -/
def Hold.run : Hold → List LockOp → Option Hold
  | h, [] => some h
  | h, .lockShared :: ops => if h = ⟨0, false⟩ then Hold.run ⟨1, false⟩ ops else none
  | h, .lock :: ops => if h = ⟨0, false⟩ then Hold.run ⟨0, true⟩ ops else none
  | h, .unlockShared :: ops => if h = ⟨1, false⟩ then Hold.run ⟨0, false⟩ ops else none
  | h, .unlock :: ops => if h = ⟨0, true⟩ then Hold.run ⟨0, false⟩ ops else none

/-- The lock is never acquired while held, and free in the end. -/
def NotNested (ops : List LockOp) : Prop := Hold.run ⟨0, false⟩ ops = some ⟨0, false⟩

instance (ops : List LockOp) : Decidable (NotNested ops) := inferInstanceAs (Decidable (_ = _))

/-- A thread: what it holds, whether it waits for exclusive ownership, and what it
will do. -/
structure LockThread where
  hold : Hold
  waiting : Bool
  rest : List LockOp
deriving Repr, DecidableEq

/-- A step of thread `i` on a writer-preferring `shared_mutex`: a reader waits as
long as another thread holds or wants the lock exclusively, a writer announces
itself and waits until nobody holds the lock. -/
inductive LockStep : List LockThread → List LockThread → Prop
  | lockShared {ts : List LockThread} {i : Nat} {h : Hold} {ops : List LockOp} : ts[i]? = some ⟨h, false, .lockShared :: ops⟩ →
      (∀ t ∈ ts, t.hold.excl = false ∧ t.waiting = false) →
      LockStep ts (ts.set i ⟨⟨h.shared + 1, h.excl⟩, false, ops⟩)
  | announce {ts : List LockThread} {i : Nat} {h : Hold} {ops : List LockOp} : ts[i]? = some ⟨h, false, .lock :: ops⟩ →
      LockStep ts (ts.set i ⟨h, true, .lock :: ops⟩)
  | lock {ts : List LockThread} {i : Nat} {h : Hold} {ops : List LockOp} : ts[i]? = some ⟨h, true, .lock :: ops⟩ →
      (∀ t ∈ ts, t.hold = ⟨0, false⟩) → LockStep ts (ts.set i ⟨⟨h.shared, true⟩, false, ops⟩)
  | unlockShared {ts : List LockThread} {i : Nat} {h : Hold} {ops : List LockOp} : ts[i]? = some ⟨h, false, .unlockShared :: ops⟩ →
      LockStep ts (ts.set i ⟨⟨h.shared - 1, h.excl⟩, false, ops⟩)
  | unlock {ts : List LockThread} {i : Nat} {h : Hold} {ops : List LockOp} : ts[i]? = some ⟨h, false, .unlock :: ops⟩ →
      LockStep ts (ts.set i ⟨⟨h.shared, false⟩, false, ops⟩)

/-- Several steps. -/
inductive LockSteps : List LockThread → List LockThread → Prop
  | refl (ts : List LockThread) : LockSteps ts ts
  | step {a b c : List LockThread} : LockSteps a b → LockStep b c → LockSteps a c

/-- Threads about to run their operations. -/
def lockStart (programs : List (List LockOp)) : List LockThread := programs.map fun ops => ⟨⟨0, false⟩, false, ops⟩

end RichText
