import Verif.Model.FontRegistry
/-!
The functions of `src/font_registry.cpp` as they run in several threads: each access to a global variable and each operation on
`g_mutex` is a step of its own, and steps of different threads come in any order the mutex allows.

* `Act` is the code of a thread between two returns to the scheduler; the caches (`t_fontContext`) are thread local and so part of
  the continuations.
* Families, faces and their names are one value (`Registry`); every access reads or writes some part of it.  The loops over linked
  and fallback families read one element at a time.
* Filling in the default face (src/font_registry.cpp:377-383) is one write instead of 18.
* `lock_shared` succeeds while no thread holds the mutex exclusively, `lock` while no thread holds it at all.  Mutexes that refuse
  more often (to prefer writers) only have fewer executions.
* Asserted conditions are evaluated only by `fontDataChecked` (debug build).
-/
namespace RichText

/-- What a thread still has to do. -/
inductive Act (α : Type) where
  /-- the thread has returned -/
  | done (a : α)
  /-- undefined behaviour -/
  | fault
  /-- an operation on `g_mutex` -/
  | op (o : LockOp) (k : Act α)
  /-- reads a global variable -/
  | read (k : Registry → Act α)
  /-- writes a global variable -/
  | write (f : Registry → Registry) (k : Act α)

namespace Act

/-- One after the other. -/
def bind {α β : Type} : Act α → (α → Act β) → Act β
  | done a, g => g a
  | fault, _ => fault
  | op o k, g => op o (k.bind g)
  | read k, g => read fun r => (k r).bind g
  | write f k, g => write f (k.bind g)

end Act

/-! ### The functions -/

/-- `get_family`, src/font_registry.cpp:203-211. -/
def getFamilyAct (name : String) : Act FamilyHandle :=
  .op .lockShared (.read fun r => .op .unlockShared (.done (r.getFamily name)))

/-- `get_face_data_handle`, src/font_registry.cpp:217-221. -/
def getFaceAct (h : FamilyHandle) (weight : Nat) (style : FontStyle) : Act FaceDataHandle :=
  .op .lockShared (.read fun r =>
    match r.faceOf h weight style with
    | none => .fault
    | some f => .op .unlockShared (.done f))

/-- `get_font_data` behind `g_faces[face.handle]`, src/font_registry.cpp:279-315. -/
def openFace (lib : FontLib) (t : FontThread) (q : FontRequest) (eff : Nat) (fd : FaceData) : FontThread × Option FontDataInfo :=
  match fd.file with
  | none => (t.log [.lockShared, .unlockShared], none)
  | some file =>
    if lib.newFace file && lib.hbCreate file then
      ({ cache := t.cache ++ [(q.face.handle, loadOwner lib file eff)],
         locks := t.locks ++ [.lockShared, .unlockShared] }, some ((loadOwner lib file eff).data q))
    else (t.log [.lockShared, .unlockShared], none)

/-- `get_font_data`, src/font_registry.cpp:249-315. -/
def fontDataAct (lib : FontLib) (t : FontThread) (q : FontRequest) : Act (FontThread × Option FontDataInfo) :=
  match q.effective with
  | none => .fault
  | some eff =>
    match t.cache.lookup q.face.handle with
    | some o => .done ({ t with cache := setKey q.face.handle (o.resize eff) t.cache }, some ((o.resize eff).data q))
    | none =>
      .op .lockShared (.read fun r =>
        match r.faces[q.face.handle.toNat]? with
        | none => .fault
        | some fd => .op .unlockShared (.done (openFace lib t q eff fd)))

/-- The loop over linked families of `get_font_for_script`, src/font_registry.cpp:585-591: `n` families are left, the next is
number `i`. -/
def linkedAct (h : FamilyHandle) (script : Int) : Nat → Nat → Act (Option FamilyHandle)
  | 0, _ => .done none
  | n + 1, i => .read fun r =>
    match (r.families[h.toNat]?).bind fun f => f.linked[i]? with
    | none => .fault
    | some l => .read fun r =>
      match r.families[l.toNat]? with
      | none => .fault
      | some f =>
        if f.initialized then .read fun r =>
          match (r.families[l.toNat]?).bind fun f => f.hasScript script with
          | none => .fault
          | some true => .done (some l)
          | some false => linkedAct h script n (i + 1)
        else linkedAct h script n (i + 1)

/-- `family_get_face_data_handle`, src/font_registry.cpp:427-429. -/
def faceOfAct (h : FamilyHandle) (weight : Nat) (style : FontStyle) : Act FaceDataHandle :=
  .read fun r =>
    match r.faceOf h weight style with
    | none => .fault
    | some f => .done f

/-- `get_font_for_script`, src/font_registry.cpp:579-595. -/
def fontForScriptAct (h : FamilyHandle) (weight : Nat) (style : FontStyle) (script : Int) : Act FaceDataHandle :=
  .read fun r =>
    match (r.families[h.toNat]?).bind fun f => f.hasScript script with
    | none => .fault
    | some true => faceOfAct h weight style
    | some false => .read fun r =>
      match r.families[h.toNat]? with
      | none => .fault
      | some f =>
        (linkedAct h script f.linked.length 0).bind fun l =>
          match l with
          | none => faceOfAct h weight style
          | some l => faceOfAct l weight style

/-- The loop over fallback families of `find_compatible_font`, src/font_registry.cpp:613-629; `h` is the family whose fallback
families these are. -/
def fallbackAct (lib : FontLib) (font : Font) (c : Nat) (h : FamilyHandle) : Nat → Nat → FontThread →
    Act (FontThread × Option (FaceDataHandle × FontDataInfo))
  | 0, _, t => .done (t, none)
  | n + 1, i, t => .read fun r =>
    match (r.families[h.toNat]?).bind fun f => f.fallback[i]? with
    | none => .fault
    | some l => .read fun r =>
      match r.families[l.toNat]? with
      | none => .fault
      | some f =>
        if f.initialized then
          (faceOfAct l font.face.getWeight.toNat font.face.getStyle).bind fun face =>
          (fontDataAct lib t (plainRequest font face)).bind fun x =>
            match x.2 with
            | none => fallbackAct lib font c h n (i + 1) x.1
            | some d => if d.has lib c then .done (x.1, some (face, d)) else fallbackAct lib font c h n (i + 1) x.1
        else fallbackAct lib font c h n (i + 1) t

/-- `find_compatible_font`, src/font_registry.cpp:597-632. -/
def findCompatibleAct (lib : FontLib) (font : Font) (c : Nat) (base : FaceDataHandle) (h : FamilyHandle) (t : FontThread) :
    Act (FontThread × Option (FaceDataHandle × FontDataInfo)) :=
  if base.valid then
    (fontDataAct lib t (plainRequest font base)).bind fun x =>
      match x.2 with
      | none => .done (x.1, none)
      | some d =>
        if d.has lib c then .done (x.1, some (base, d))
        else .read fun r =>
          match r.families[h.toNat]? with
          | none => .fault
          | some f => fallbackAct lib font c h f.fallback.length 0 x.1
  else .done (t, none)

/-- The first loop of `get_sub_font`, src/font_registry.cpp:499-510. -/
def firstDrawableAct (lib : FontLib) (font : Font) (base : FaceDataHandle) (h : FamilyHandle) :
    List (Nat × Nat) → Nat → FontThread → Act (FontThread × Option (List (Nat × Nat) × Nat × FaceDataHandle × FontDataInfo))
  | [], _, t => .done (t, none)
  | (w, c) :: cs, idx, t =>
    (findCompatibleAct lib font c base h t).bind fun x =>
      match x.2 with
      | some y => .done (x.1, some (cs, idx + w, y.1, y.2))
      | none => firstDrawableAct lib font base h cs (idx + w) x.1

/-- The arguments of `get_sub_font`, see `getSubFont`. -/
structure SubFontCall where
  font : Font
  text : List (Nat × Nat)
  offset : Nat
  limit : Nat
  script : Int
  smallcaps : Bool
  subscript : Bool
  superscript : Bool

/-- The result of `get_sub_font` without the mutex, src/font_registry.cpp:472-548. -/
def subFontBody (lib : FontLib) (t : FontThread) (a : SubFontCall) : Act (FontThread × SingleScriptFont × Nat) :=
  let lim :=
    if a.smallcaps then
      let (l, upper) := caseRunLimit lib a.offset a.limit a.text 0 true false
      (l, !upper)
    else (a.limit, false)
  (fontForScriptAct a.font.face.getFamily a.font.face.getWeight.toNat a.font.face.getStyle a.script).bind fun base =>
  .read fun r =>
    match r.families[a.font.face.getFamily.toNat]? with
    | none => .fault
    | some _ =>
      (firstDrawableAct lib a.font base a.font.face.getFamily a.text 0 t).bind fun x =>
        let result : SingleScriptFont :=
          { face := base, size := a.font.size, weight := a.font.face.getWeight.truncate 4, style := a.font.face.getStyle,
            subscript := a.subscript, superscript := a.superscript, smallcaps := a.smallcaps,
            syntheticSubscript := a.subscript, syntheticSuperscript := a.superscript, syntheticSmallCaps := lim.2 }
        match x.2 with
        | none => .done (x.1, result, lim.1)
        | some (rest, idx, face, d) =>
          match firstMissing lib d rest idx with
          | some i => .done (x.1, { result with face := face }, a.offset + i)
          | none => .done (x.1, { result with face := face }, lim.1)

/-- `get_sub_font`, src/font_registry.cpp:468-548. -/
def subFontAct (lib : FontLib) (t : FontThread) (a : SubFontCall) : Act (FontThread × SingleScriptFont × Nat) :=
  .op .lockShared ((subFontBody lib (t.log [.lockShared]) a).bind fun x =>
    .op .unlockShared (.done (x.1.log [.unlockShared], x.2)))

/-- `get_or_add_family`, src/font_registry.cpp:550-560. -/
def getOrAddFamilyAct (lib : FontLib) (name : String) : Act FamilyHandle :=
  .read fun r =>
    match r.familyNames.lookup name with
    | some h => .done h
    | none => .read fun r =>
      let h := BitVec.ofNat 16 r.families.length
      .write (fun r => { r with familyNames := r.familyNames ++ [(name, h)] })
        (.write (fun r => { r with families := r.families ++ [.empty lib] }) (.done h))

/-- `get_or_add_face`, src/font_registry.cpp:562-577. -/
def getOrAddFaceAct (lib : FontLib) (info : FaceInfo) : Act FaceDataHandle :=
  .read fun r =>
    match r.faceNames.lookup info.name with
    | some h => .done h
    | none => .read fun r =>
      let h : FaceDataHandle := ⟨BitVec.ofNat 16 r.faces.length, info.weight, info.style⟩
      .write (fun r => { r with faceNames := r.faceNames ++ [(info.name, h)] })
        (.write (fun r => { r with faces := r.faces ++ [⟨info.name, lib.mapFile info.uri⟩] }) (.done h))

/-- A write to a family. -/
def modifyAct (h : FamilyHandle) (g : FamilyData → FamilyData) : Act Unit :=
  .read fun r =>
    match r.families[h.toNat]? with
    | none => .fault
    | some _ => .write (fun r => (r.modify h g).getD r) (.done ())

/-- The script bits, src/font_registry.cpp:327-330: `set` throws if the code is out of range. -/
def setScriptsAct (h : FamilyHandle) : List Int → Act Unit
  | [] => .done ()
  | c :: cs => .read fun r =>
    match r.families[h.toNat]? with
    | none => .fault
    | some f =>
      if 0 ≤ c ∧ c.toNat < f.scripts.length then
        (modifyAct h fun f => { f with scripts := f.scripts.set c.toNat true }).bind fun _ => setScriptsAct h cs
      else .fault

/-- src/font_registry.cpp:326-334. -/
def scriptBitsAct (h : FamilyHandle) : List Int → Act Unit
  | [] => modifyAct h fun f => { f with scripts := f.scripts.map fun _ => true }
  | c :: cs => setScriptsAct h (c :: cs)

/-- The loop over linked families, src/font_registry.cpp:339-342. -/
def addLinkedAct (lib : FontLib) (h : FamilyHandle) : List String → Act Unit
  | [] => .done ()
  | n :: ns =>
    (getOrAddFamilyAct lib n).bind fun l =>
    (modifyAct h fun f => { f with linked := f.linked ++ [l] }).bind fun _ => addLinkedAct lib h ns

/-- The loop over fallback families, src/font_registry.cpp:347-350. -/
def addFallbackAct (lib : FontLib) (h : FamilyHandle) : List String → Act Unit
  | [] => .done ()
  | n :: ns =>
    (getOrAddFamilyAct lib n).bind fun l =>
    (modifyAct h fun f => { f with fallback := f.fallback ++ [l] }).bind fun _ => addFallbackAct lib h ns

/-- The loop over faces, src/font_registry.cpp:362-374: the default face. -/
def addFacesAct (lib : FontLib) (h : FamilyHandle) : List FaceInfo → FaceDataHandle → Act FaceDataHandle
  | [], dflt => .done dflt
  | i :: is, dflt =>
    (getOrAddFaceAct lib i).bind fun face =>
    .read fun r =>
      match r.families[h.toNat]? with
      | none => .fault
      | some f =>
        if i.weight.toNat < f.lookup.length then
          (modifyAct h fun f => { f with lookup := Registry.setSlot f.lookup i.weight.toNat i.style.index face }).bind fun _ =>
          addFacesAct lib h is
            (if face.valid && (!dflt.valid || (i.weight == 3#4 && i.style == .normal)) then face else dflt)
        else .fault

/-- The end of `register_family`, src/font_registry.cpp:352-386. -/
def registerFacesAct (lib : FontLib) (h : FamilyHandle) : Option (List FaceInfo) → Act RegistryError
  | none =>
    (modifyAct h fun f => { f with scripts := f.scripts.map fun _ => false }).bind fun _ =>
    (modifyAct h fun f => { f with linked := [] }).bind fun _ =>
    (modifyAct h fun f => { f with fallback := [] }).bind fun _ => .done .noFaces
  | some is =>
    (addFacesAct lib h is {}).bind fun dflt =>
    (modifyAct h fun f => { f with lookup := Registry.fillDefault f.lookup dflt }).bind fun _ =>
    (modifyAct h fun f => { f with initialized := true }).bind fun _ => .done .none

/-- `register_family` without the mutex, src/font_registry.cpp:320-386. -/
def registerBody (lib : FontLib) (info : FamilyInfo) : Act RegistryError :=
  (getOrAddFamilyAct lib info.name).bind fun h =>
  .read fun r =>
    match r.families[h.toNat]? with
    | none => .fault
    | some f =>
      if f.initialized then .done .alreadyLoaded
      else
        (scriptBitsAct h info.scripts).bind fun _ =>
        (addLinkedAct lib h info.linked).bind fun _ =>
        (addFallbackAct lib h info.fallback).bind fun _ => registerFacesAct lib h info.faces

/-- `register_family`, src/font_registry.cpp:317-387. -/
def registerAct (lib : FontLib) (info : FamilyInfo) : Act RegistryError :=
  .op .lock ((registerBody lib info).bind fun e => .op .unlock (.done e))

/-- `get_font_data(Font)` in a debug build, src/font_registry.cpp:236-242: the assertion reads `g_familyData`. -/
def fontDataChecked (lib : FontLib) (t : FontThread) (font : Font) : Act (FontThread × Option FontDataInfo) :=
  .read fun r =>
    match r.families[font.face.getFamily.toNat]? with
    | none => .fault
    | some f =>
      if f.initialized then
        (getFaceAct font.face.getFamily font.face.getWeight.toNat font.face.getStyle).bind fun face =>
          fontDataAct lib t (plainRequest font face)
      else .fault

/-! ### Programs -/

/-- A program of one thread: calls of the registry with whatever it does between them. -/
inductive Prog (α : Type) where
  | done (a : α)
  | getFamily (name : String) (k : FamilyHandle → Prog α)
  | getFace (h : FamilyHandle) (weight : Nat) (style : FontStyle) (k : FaceDataHandle → Prog α)
  | getData (q : FontRequest) (k : Option FontDataInfo → Prog α)
  | getSubFont (a : SubFontCall) (k : SingleScriptFont × Nat → Prog α)
  | register (info : FamilyInfo) (k : RegistryError → Prog α)

/-- The steps of a program whose thread has the given cache. -/
def Prog.act {α : Type} (lib : FontLib) : Prog α → FontThread → Act α
  | .done a, _ => .done a
  | .getFamily n k, t => (getFamilyAct n).bind fun h => (k h).act lib t
  | .getFace h w s k, t => (getFaceAct h w s).bind fun f => (k f).act lib t
  | .getData q k, t => (fontDataAct lib t q).bind fun x => (k x.2).act lib x.1
  | .getSubFont a k, t => (subFontAct lib t a).bind fun x => (k x.2).act lib x.1
  | .register i k, t => (registerAct lib i).bind fun e => (k e).act lib t

/-- `get_default_single_script_font`, src/font_registry.cpp:223-234 (release build). -/
def Prog.defaultFont {α : Type} (font : Font) (k : SingleScriptFont → Prog α) : Prog α :=
  .getFace font.face.getFamily font.face.getWeight.toNat font.face.getStyle fun face =>
    k { face := face, size := font.size, weight := font.face.getWeight.truncate 4, style := font.face.getStyle }

/-- `get_font_data(Font)`, src/font_registry.cpp:236-242 (release build). -/
def Prog.fontData {α : Type} (font : Font) (k : Option FontDataInfo → Prog α) : Prog α :=
  .getFace font.face.getFamily font.face.getWeight.toNat font.face.getStyle fun face => .getData (plainRequest font face) k

/-! ### Several threads -/

/-- What a thread holds of the mutex; `shared n` is `n + 1` times. -/
inductive LockHeld where
  | none
  | shared (n : Nat)
  | exclusive
deriving Repr, DecidableEq

/-- After an operation on the mutex; `none` if it must not be called then.  (By the standard a second `lock_shared` of one thread
is undefined as well, see C49; here it counts.) -/
def LockHeld.after : LockHeld → LockOp → Option LockHeld
  | .none, .lockShared => some (.shared 0)
  | .shared n, .lockShared => some (.shared (n + 1))
  | .shared 0, .unlockShared => some .none
  | .shared (n + 1), .unlockShared => some (.shared n)
  | .none, .lock => some .exclusive
  | .exclusive, .unlock => some .none
  | _, _ => Option.none

/-- The global variables and the threads: what each still has to do and what it holds. -/
structure Conc (α : Type) where
  registry : Registry
  threads : List (Act α × LockHeld)

namespace Conc
variable {α : Type}

/-- Whether the mutex lets the operation of a thread through. -/
def Admits (c : Conc α) : LockOp → Prop
  | .lockShared => ∀ x ∈ c.threads, x.2 ≠ .exclusive
  | .lock => ∀ x ∈ c.threads, x.2 = .none
  | _ => True

/-- One step of thread `i`. -/
inductive Step (c : Conc α) (i : Nat) : Conc α → Prop
  | op {o : LockOp} {k : Act α} {h h' : LockHeld} : c.threads[i]? = some (.op o k, h) → h.after o = some h' → c.Admits o →
      Step c i { c with threads := c.threads.set i (k, h') }
  | misuse {o : LockOp} {k : Act α} {h : LockHeld} : c.threads[i]? = some (.op o k, h) → h.after o = none →
      Step c i { c with threads := c.threads.set i (.fault, h) }
  | read {k : Registry → Act α} {h : LockHeld} : c.threads[i]? = some (.read k, h) →
      Step c i { c with threads := c.threads.set i (k c.registry, h) }
  | write {f : Registry → Registry} {k : Act α} {h : LockHeld} : c.threads[i]? = some (.write f k, h) →
      Step c i { registry := f c.registry, threads := c.threads.set i (k, h) }

/-- Any number of steps. -/
inductive Reach (c : Conc α) : Conc α → Prop
  | refl : Reach c c
  | step {c' c'' : Conc α} {i : Nat} : Reach c c' → Step c' i c'' → Reach c c''

/-- A data race: two threads are about to access the registry, one of them to write. -/
def Race (c : Conc α) : Prop :=
  ∃ (i j : Nat) (f : Registry → Registry) (k b : Act α) (g h : LockHeld), i ≠ j ∧ c.threads[i]? = some (.write f k, g) ∧
    c.threads[j]? = some (b, h) ∧ ((∃ k', b = .read k') ∨ ∃ f' k', b = .write f' k')

/-- Programs before their first step. -/
def start (lib : FontLib) (r : Registry) (ps : List (Prog α)) : Conc α :=
  ⟨r, ps.map fun p => (p.act lib .init, .none)⟩

end Conc

/-- One call after the other: a registry, and for each thread what it has still to call and its cache. -/
structure Serial (α : Type) where
  registry : Registry
  threads : List (Prog α × FontThread)

namespace Serial
variable {α : Type}

/-- The next call of a program, as a whole; `none` is undefined behaviour. -/
def call (lib : FontLib) (r : Registry) : Prog α → FontThread → Option (Prog α × FontThread × Registry)
  | .done a, t => some (.done a, t, r)
  | .getFamily n k, t => some (k (r.getFamily n), t, r)
  | .getFace h w s k, t => (r.faceOf h w s).map fun f => (k f, t, r)
  | .getData q k, t => (getFontData lib r t q).map fun x => (k x.2, x.1, r)
  | .getSubFont a k, t =>
    (getSubFont lib r t a.font a.text a.offset a.limit a.script a.smallcaps a.subscript a.superscript).map fun x =>
      (k x.2, x.1, r)
  | .register i k, t => (r.register lib i).map fun x => (k x.2, t, x.1)

/-- Thread `i` makes its next call. -/
inductive Step (lib : FontLib) (s : Serial α) (i : Nat) : Serial α → Prop
  | call {p p' : Prog α} {t t' : FontThread} {r' : Registry} : s.threads[i]? = some (p, t) →
      call lib s.registry p t = some (p', t', r') → Step lib s i ⟨r', s.threads.set i (p', t')⟩

/-- Any number of calls. -/
inductive Reach (lib : FontLib) (s : Serial α) : Serial α → Prop
  | refl : Reach lib s s
  | step {s' s'' : Serial α} {i : Nat} : Reach lib s s' → Step lib s' i s'' → Reach lib s s''

/-- Before the first call. -/
def start (r : Registry) (ps : List (Prog α)) : Serial α := ⟨r, ps.map fun p => (p, .init)⟩

/-- No call is undefined in whatever order they are made. -/
def Defined (lib : FontLib) (s : Serial α) : Prop :=
  ∀ s', Reach lib s s' → ∀ (i : Nat) (p : Prog α) (t : FontThread), s'.threads[i]? = some (p, t) → (call lib s'.registry p t).isSome

end Serial

end RichText
