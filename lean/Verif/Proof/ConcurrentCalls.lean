import Verif.Proof.Concurrent
/-!
Each function of the registry is one critical section and does what its sequential model does (C119).
-/
namespace RichText
open Act

theorem inner_fontData (lib : FontLib) (t : FontThread) (q : FontRequest) (n : Nat) : Inner (.shared n) (fontDataAct lib t q) := by
  unfold fontDataAct
  split
  · exact .fault
  · split
    · exact .done _
    · refine ⟨?_, ?_⟩
      · intro β g r x r' hr
        simp only [Act.run] at hr
        simp only [Act.bind, Act.rest, LockHeld.after]
        cases hfd : r.faces[q.face.handle.toNat]? with
        | none => rw [hfd] at hr; cases hr
        | some fd =>
          rw [hfd] at hr
          cases hr
          cases n <;> rfl
      · refine ⟨.shared (n + 1), rfl, fun h => LockHeld.noConfusion h, fun r => ?_⟩
        show Act.Body _ _ (match r.faces[q.face.handle.toNat]? with | none => _ | some fd => _)
        split
        · trivial
        · exact ⟨.shared n, by cases n <;> rfl, rfl⟩

theorem run_fontData (lib : FontLib) (t : FontThread) (q : FontRequest) (r : Registry) :
    (fontDataAct lib t q).run r = (getFontData lib r t q).map (·, r) := by
  unfold fontDataAct getFontData
  cases q.effective with
  | none => rfl
  | some eff =>
    simp only
    cases t.cache.lookup q.face.handle with
    | some o => rfl
    | none =>
      simp only [Act.run]
      cases r.faces[q.face.handle.toNat]? with
      | none => rfl
      | some fd =>
        simp only [Act.run, openFace]
        cases fd.file with
        | none => rfl
        | some file => simp only; split <;> rfl

theorem inner_linked (h : FamilyHandle) (script : Int) (m : Nat) : ∀ n i, Inner (.shared m) (linkedAct h script n i)
  | 0, _ => .done _
  | n + 1, i => by
    unfold linkedAct
    refine .read (fun h => by cases h) fun r => ?_
    split
    · exact .fault
    · refine .read (fun h => by cases h) fun r => ?_
      split
      · exact .fault
      · split
        · refine .read (fun h => by cases h) fun r => ?_
          split
          · exact .fault
          · exact .done _
          · exact inner_linked h script m n (i + 1)
        · exact inner_linked h script m n (i + 1)

theorem run_linked (h : FamilyHandle) (script : Int) (r : Registry) (f : FamilyData) (hf : r.families[h.toNat]? = some f) :
    ∀ n i, f.linked.length = i + n →
      (linkedAct h script n i).run r = (r.linkedFor script (f.linked.drop i)).map (·, r)
  | 0, i, hl => by
    rw [List.drop_eq_nil_of_le (by omega)]
    rfl
  | n + 1, i, hl => by
    have hi : i < f.linked.length := by omega
    rw [List.drop_eq_getElem_cons hi]
    unfold linkedAct Registry.linkedFor
    simp only [Act.run, hf, Option.bind_some, List.getElem?_eq_getElem hi]
    cases hg : r.families[(f.linked[i]).toNat]? with
    | none => rfl
    | some g =>
      simp only
      split
      · simp only [Act.run, hg, Option.bind_some]
        cases g.hasScript script with
        | none => rfl
        | some b =>
          cases b with
          | true => rfl
          | false => exact run_linked h script r f hf n (i + 1) (by omega)
      · exact run_linked h script r f hf n (i + 1) (by omega)

theorem inner_faceOf (h : FamilyHandle) (w : Nat) (s : FontStyle) (n : Nat) : Inner (.shared n) (faceOfAct h w s) := by
  refine .read (fun h => by cases h) fun r => ?_
  split
  · exact .fault
  · exact .done _

theorem run_faceOf (h : FamilyHandle) (w : Nat) (s : FontStyle) (r : Registry) :
    (faceOfAct h w s).run r = (r.faceOf h w s).map (·, r) := by
  unfold faceOfAct
  simp only [Act.run]
  cases r.faceOf h w s <;> rfl

theorem inner_fontForScript (h : FamilyHandle) (w : Nat) (s : FontStyle) (script : Int) (n : Nat) :
    Inner (.shared n) (fontForScriptAct h w s script) := by
  refine .read (fun h => by cases h) fun r => ?_
  split
  · exact .fault
  · exact inner_faceOf ..
  · refine .read (fun h => by cases h) fun r => ?_
    split
    · exact .fault
    · refine .bind (inner_linked ..) fun l => ?_
      split <;> exact inner_faceOf ..

theorem run_fontForScript (h : FamilyHandle) (w : Nat) (s : FontStyle) (script : Int) (r : Registry) :
    (fontForScriptAct h w s script).run r = (r.fontForScript h w s script).map (·, r) := by
  unfold fontForScriptAct Registry.fontForScript
  simp only [Act.run]
  cases hf : r.families[h.toNat]? with
  | none => rfl
  | some f =>
    simp only [Option.bind_some]
    cases f.hasScript script with
    | none => rfl
    | some b =>
      cases b with
      | true => exact run_faceOf ..
      | false =>
        simp only [Act.run, hf]
        rw [run_bind, run_linked h script r f hf _ 0 (by omega), List.drop_zero]
        cases r.linkedFor script f.linked with
        | none => rfl
        | some l =>
          cases l with
          | none => exact run_faceOf ..
          | some l => exact run_faceOf ..

theorem inner_fallback (lib : FontLib) (font : Font) (c : Nat) (h : FamilyHandle) (m : Nat) : ∀ n i t,
    Inner (.shared m) (fallbackAct lib font c h n i t)
  | 0, _, _ => .done _
  | n + 1, i, t => by
    unfold fallbackAct
    refine .read (fun h => by cases h) fun r => ?_
    split
    · exact .fault
    · refine .read (fun h => by cases h) fun r => ?_
      split
      · exact .fault
      · split
        · refine .bind (inner_faceOf ..) fun face => .bind (inner_fontData ..) fun x => ?_
          split
          · exact inner_fallback lib font c h m n (i + 1) _
          · split
            · exact .done _
            · exact inner_fallback lib font c h m n (i + 1) _
        · exact inner_fallback lib font c h m n (i + 1) _

theorem run_fallback (lib : FontLib) (font : Font) (c : Nat) (h : FamilyHandle) (r : Registry) (f : FamilyData)
    (hf : r.families[h.toNat]? = some f) : ∀ n i t, f.fallback.length = i + n →
      (fallbackAct lib font c h n i t).run r = (findFallback lib r font c (f.fallback.drop i) t).map (·, r)
  | 0, i, t, hl => by
    rw [List.drop_eq_nil_of_le (by omega)]
    rfl
  | n + 1, i, t, hl => by
    have hi : i < f.fallback.length := by omega
    rw [List.drop_eq_getElem_cons hi]
    unfold fallbackAct findFallback
    simp only [Act.run, hf, Option.bind_some, List.getElem?_eq_getElem hi]
    cases hg : r.families[(f.fallback[i]).toNat]? with
    | none => rfl
    | some g =>
      simp only
      split
      · rw [run_bind, run_faceOf]
        simp only [Registry.faceOf, hg]
        cases g.face font.face.getWeight.toNat font.face.getStyle with
        | none => rfl
        | some face =>
          simp only [Option.map_some, Option.bind_some]
          rw [run_bind, run_fontData]
          cases getFontData lib r t (plainRequest font face) with
          | none => rfl
          | some x =>
            obtain ⟨t', d⟩ := x
            cases d with
            | none => exact run_fallback lib font c h r f hf n (i + 1) _ (by omega)
            | some d =>
              simp only [Option.map_some, Option.bind_some]
              split
              · rfl
              · exact run_fallback lib font c h r f hf n (i + 1) _ (by omega)
      · exact run_fallback lib font c h r f hf n (i + 1) _ (by omega)

theorem inner_findCompatible (lib : FontLib) (font : Font) (c : Nat) (base : FaceDataHandle) (h : FamilyHandle) (t : FontThread)
    (n : Nat) : Inner (.shared n) (findCompatibleAct lib font c base h t) := by
  unfold findCompatibleAct
  split
  · refine .bind (inner_fontData ..) fun x => ?_
    split
    · exact .done _
    · split
      · exact .done _
      · refine .read (fun h => by cases h) fun r => ?_
        split
        · exact .fault
        · exact inner_fallback ..
  · exact .done _

theorem run_findCompatible (lib : FontLib) (font : Font) (c : Nat) (base : FaceDataHandle) (h : FamilyHandle) (t : FontThread)
    (r : Registry) (f : FamilyData) (hf : r.families[h.toNat]? = some f) :
    (findCompatibleAct lib font c base h t).run r = (findCompatible lib r font c base f.fallback t).map (·, r) := by
  unfold findCompatibleAct findCompatible
  split
  · rw [run_bind, run_fontData]
    cases getFontData lib r t (plainRequest font base) with
    | none => rfl
    | some x =>
      obtain ⟨t', d⟩ := x
      cases d with
      | none => rfl
      | some d =>
        simp only [Option.map_some, Option.bind_some]
        split
        · rfl
        · simp only [Act.run, hf]
          rw [run_fallback lib font c h r f hf _ 0 _ (by omega), List.drop_zero]
  · rfl

theorem inner_firstDrawable (lib : FontLib) (font : Font) (base : FaceDataHandle) (h : FamilyHandle) (n : Nat) : ∀ cs idx t,
    Inner (.shared n) (firstDrawableAct lib font base h cs idx t)
  | [], _, _ => .done _
  | (w, c) :: cs, idx, t => by
    unfold firstDrawableAct
    refine .bind (inner_findCompatible ..) fun x => ?_
    split
    · exact .done _
    · exact inner_firstDrawable lib font base h n cs _ _

theorem run_firstDrawable (lib : FontLib) (font : Font) (base : FaceDataHandle) (h : FamilyHandle)
    (r : Registry) (f : FamilyData) (hf : r.families[h.toNat]? = some f) : ∀ cs idx t,
    (firstDrawableAct lib font base h cs idx t).run r = (firstDrawable lib r font base f.fallback cs idx t).map (·, r)
  | [], _, _ => rfl
  | (w, c) :: cs, idx, t => by
    unfold firstDrawableAct firstDrawable
    rw [run_bind, run_findCompatible _ _ _ _ _ _ _ f hf]
    cases findCompatible lib r font c base f.fallback t with
    | none => rfl
    | some x =>
      obtain ⟨t', y⟩ := x
      cases y with
      | none => exact run_firstDrawable lib font base h r f hf cs _ _
      | some y => rfl

theorem inner_subFont (lib : FontLib) (t : FontThread) (a : SubFontCall) (n : Nat) : Inner (.shared n) (subFontBody lib t a) := by
  unfold subFontBody
  refine .bind (inner_fontForScript ..) fun base => .read (fun h => by cases h) fun r => ?_
  split
  · exact .fault
  · refine .bind (inner_firstDrawable ..) fun x => ?_
    simp only
    split
    · exact .done _
    · split <;> exact .done _

theorem run_subFont (lib : FontLib) (t : FontThread) (a : SubFontCall) (r : Registry) :
    ((subFontBody lib (t.log [.lockShared]) a).run r).map (fun x => (x.1.1.log [.unlockShared], x.1.2)) =
      getSubFont lib r t a.font a.text a.offset a.limit a.script a.smallcaps a.subscript a.superscript ∧
    ∀ x, (subFontBody lib (t.log [.lockShared]) a).run r = some x → x.2 = r := by
  unfold subFontBody getSubFont
  simp only
  rw [run_bind, run_fontForScript]
  cases r.fontForScript a.font.face.getFamily a.font.face.getWeight.toNat a.font.face.getStyle a.script with
  | none => exact ⟨rfl, fun x hx => by cases hx⟩
  | some base =>
    simp only [Option.map_some, Option.bind_some, Act.run]
    cases hf : r.families[a.font.face.getFamily.toNat]? with
    | none => exact ⟨rfl, fun x hx => by cases hx⟩
    | some f =>
      simp only
      rw [run_bind, run_firstDrawable _ _ _ _ _ f hf]
      cases firstDrawable lib r a.font base f.fallback a.text 0 (t.log [.lockShared]) with
      | none => exact ⟨rfl, fun x hx => by cases hx⟩
      | some y =>
        obtain ⟨t', found⟩ := y
        cases found with
        | none => exact ⟨rfl, fun x hx => by cases hx; rfl⟩
        | some z =>
          obtain ⟨rst, idx, face, d⟩ := z
          simp only [Option.map_some, Option.bind_some]
          cases firstMissing lib d rst idx with
          | none => exact ⟨rfl, fun x hx => by cases hx; rfl⟩
          | some i => exact ⟨rfl, fun x hx => by cases hx; rfl⟩

/-! ### Registration -/

theorem inner_getOrAddFamily (lib : FontLib) (name : String) : Inner .exclusive (getOrAddFamilyAct lib name) := by
  refine .read (fun h => by cases h) fun r => ?_
  split
  · exact .done _
  · exact .read (fun h => by cases h) fun r => .write (.write (.done _))

theorem run_getOrAddFamily (lib : FontLib) (name : String) (r : Registry) :
    (getOrAddFamilyAct lib name).run r = some ((r.getOrAddFamily lib name).2, (r.getOrAddFamily lib name).1) := by
  unfold getOrAddFamilyAct Registry.getOrAddFamily
  simp only [Act.run]
  cases r.familyNames.lookup name <;> rfl

theorem inner_getOrAddFace (lib : FontLib) (info : FaceInfo) : Inner .exclusive (getOrAddFaceAct lib info) := by
  refine .read (fun h => by cases h) fun r => ?_
  split
  · exact .done _
  · exact .read (fun h => by cases h) fun r => .write (.write (.done _))

theorem run_getOrAddFace (lib : FontLib) (info : FaceInfo) (r : Registry) :
    (getOrAddFaceAct lib info).run r = some ((r.getOrAddFace lib info).2, (r.getOrAddFace lib info).1) := by
  unfold getOrAddFaceAct Registry.getOrAddFace
  simp only [Act.run]
  cases r.faceNames.lookup info.name <;> rfl

theorem inner_modify (h : FamilyHandle) (g : FamilyData → FamilyData) : Inner .exclusive (modifyAct h g) := by
  refine .read (fun h => by cases h) fun r => ?_
  split
  · exact .fault
  · exact .write (.done _)

theorem run_modify (h : FamilyHandle) (g : FamilyData → FamilyData) (r : Registry) :
    (modifyAct h g).run r = (r.modify h g).map ((), ·) := by
  unfold modifyAct Registry.modify
  simp only [Act.run]
  cases hf : r.families[h.toNat]? with
  | none => rfl
  | some f => simp only [Act.run, hf, Option.getD_some, Option.map_some]

theorem modify_some {r : Registry} {h : FamilyHandle} {f : FamilyData} (hf : r.families[h.toNat]? = some f)
    (g : FamilyData → FamilyData) :
    r.modify h g = some { r with families := r.families.set h.toNat (g f) } ∧
    ({ r with families := r.families.set h.toNat (g f) } : Registry).families[h.toNat]? = some (g f) := by
  refine ⟨by simp only [Registry.modify, hf], ?_⟩
  exact List.getElem?_set_self (get_lt hf)

theorem modify_modify (r : Registry) (h : FamilyHandle) (g g' : FamilyData → FamilyData) :
    ((r.modify h g).bind fun r => r.modify h g') = r.modify h fun f => g' (g f) := by
  cases hf : r.families[h.toNat]? with
  | none => simp only [Registry.modify, hf, Option.bind_none]
  | some f =>
    rw [(modify_some hf g).1, Option.bind_some, (modify_some (modify_some hf g).2 g').1, (modify_some hf _).1, List.set_set]

theorem inner_setScripts (h : FamilyHandle) : ∀ cs, Inner .exclusive (setScriptsAct h cs)
  | [] => .done _
  | c :: cs => by
    unfold setScriptsAct
    refine .read (fun h => by cases h) fun r => ?_
    split
    · exact .fault
    · split
      · exact .bind (inner_modify ..) fun _ => inner_setScripts h cs
      · exact .fault

theorem run_setScripts (h : FamilyHandle) : ∀ (cs : List Int) (r : Registry) (f : FamilyData), r.families[h.toNat]? = some f →
    (setScriptsAct h cs).run r =
      (Registry.setScripts cs f.scripts).bind fun b => (r.modify h fun f => { f with scripts := b }).map ((), ·)
  | [], r, f, hf => by
    rw [Registry.setScripts, Option.bind_some, (modify_some hf _).1, setScriptsAct, Act.run, Option.map_some]
    congr 2
    have : r.families.set h.toNat f = r.families := by
      apply List.ext_getElem?
      intro j
      rw [List.getElem?_set]
      split
      · rename_i e; subst e; rw [hf, if_pos (get_lt hf)]
      · rfl
    show r = { r with families := r.families.set h.toNat f }
    rw [this]
  | c :: cs, r, f, hf => by
    unfold setScriptsAct
    rw [Registry.setScripts]
    simp only [Act.run, hf]
    split
    · have m := modify_some hf fun f => { f with scripts := f.scripts.set c.toNat true }
      rw [run_bind, run_modify, m.1]
      simp only [Option.map_some, Option.bind_some]
      rw [run_setScripts h cs _ _ m.2]
      cases Registry.setScripts cs (f.scripts.set c.toNat true) with
      | none => rfl
      | some b =>
        simp only [Option.bind_some]
        have m' := modify_some m.2 fun f => { f with scripts := b }
        rw [m'.1, (modify_some hf _).1]
        simp only [List.set_set, Option.map_some]
    · rfl

theorem inner_scriptBits (h : FamilyHandle) (cs : List Int) : Inner .exclusive (scriptBitsAct h cs) := by
  cases cs with
  | nil => exact inner_modify ..
  | cons c cs => exact inner_setScripts ..

theorem run_scriptBits (h : FamilyHandle) (cs : List Int) (r : Registry) (f : FamilyData) (hf : r.families[h.toNat]? = some f) :
    (scriptBitsAct h cs).run r =
      (Registry.scriptBits cs f.scripts).bind fun b => (r.modify h fun f => { f with scripts := b }).map ((), ·) := by
  cases cs with
  | nil => rw [scriptBitsAct, run_modify, (modify_some hf _).1, Registry.scriptBits, Option.bind_some, (modify_some hf _).1]
  | cons c cs => exact run_setScripts h (c :: cs) r f hf

theorem inner_addLinked (lib : FontLib) (h : FamilyHandle) : ∀ ns, Inner .exclusive (addLinkedAct lib h ns)
  | [] => .done _
  | n :: ns => .bind (inner_getOrAddFamily ..) fun _ => .bind (inner_modify ..) fun _ => inner_addLinked lib h ns

theorem run_addLinked (lib : FontLib) (h : FamilyHandle) : ∀ ns r,
    (addLinkedAct lib h ns).run r = (Registry.addLinked lib h ns r).map ((), ·)
  | [], r => rfl
  | n :: ns, r => by
    unfold addLinkedAct Registry.addLinked
    rw [run_bind, run_getOrAddFamily]
    simp only [Option.bind_some]
    rw [run_bind, run_modify]
    cases Registry.modify _ h _ with
    | none => rfl
    | some r' => exact run_addLinked lib h ns r'

theorem inner_addFallback (lib : FontLib) (h : FamilyHandle) : ∀ ns, Inner .exclusive (addFallbackAct lib h ns)
  | [] => .done _
  | n :: ns => .bind (inner_getOrAddFamily ..) fun _ => .bind (inner_modify ..) fun _ => inner_addFallback lib h ns

theorem run_addFallback (lib : FontLib) (h : FamilyHandle) : ∀ ns r,
    (addFallbackAct lib h ns).run r = (Registry.addFallback lib h ns r).map ((), ·)
  | [], r => rfl
  | n :: ns, r => by
    unfold addFallbackAct Registry.addFallback
    rw [run_bind, run_getOrAddFamily]
    simp only [Option.bind_some]
    rw [run_bind, run_modify]
    cases Registry.modify _ h _ with
    | none => rfl
    | some r' => exact run_addFallback lib h ns r'

theorem inner_addFaces (lib : FontLib) (h : FamilyHandle) : ∀ is d, Inner .exclusive (addFacesAct lib h is d)
  | [], _ => .done _
  | i :: is, d => by
    unfold addFacesAct
    refine .bind (inner_getOrAddFace ..) fun face => .read (fun h => by cases h) fun r => ?_
    split
    · exact .fault
    · split
      · exact .bind (inner_modify ..) fun _ => inner_addFaces lib h is _
      · exact .fault

theorem getOrAddFace_families (r : Registry) (lib : FontLib) (i : FaceInfo) : (r.getOrAddFace lib i).1.families = r.families := by
  unfold Registry.getOrAddFace
  split <;> rfl

/-- Adding a face does not depend on the families. -/
theorem getOrAddFace_set (r : Registry) (lib : FontLib) (i : FaceInfo) (fs : List FamilyData) :
    ({ r with families := fs } : Registry).getOrAddFace lib i =
      ({ (r.getOrAddFace lib i).1 with families := fs }, (r.getOrAddFace lib i).2) := by
  unfold Registry.getOrAddFace
  simp only
  split <;> rfl

theorem addFaces_families (lib : FontLib) : ∀ (is : List FaceInfo) (r r' : Registry) (l l' : List (List FaceDataHandle))
    (d d' : FaceDataHandle), Registry.addFaces lib is r l d = some (r', l', d') → r'.families = r.families
  | [], r, r', l, l', d, d', h => by
    rw [Registry.addFaces] at h
    cases h
    rfl
  | i :: is, r, r', l, l', d, d', h => by
    rw [Registry.addFaces] at h
    split at h
    · exact (addFaces_families lib is _ _ _ _ _ _ h).trans (getOrAddFace_families r lib i)
    · cases h

theorem addFaces_set (lib : FontLib) (fs : List FamilyData) : ∀ (is : List FaceInfo) (r : Registry)
    (l : List (List FaceDataHandle)) (d : FaceDataHandle),
    Registry.addFaces lib is { r with families := fs } l d =
      (Registry.addFaces lib is r l d).map fun x => ({ x.1 with families := fs }, x.2)
  | [], r, l, d => rfl
  | i :: is, r, l, d => by
    rw [Registry.addFaces, Registry.addFaces]
    split
    · rw [getOrAddFace_set]
      exact addFaces_set lib fs is _ _ _
    · rfl

theorem set_same {α : Type} {l : List α} {i : Nat} {x : α} (h : l[i]? = some x) : l.set i x = l := by
  apply List.ext_getElem?
  intro j
  rw [List.getElem?_set]
  split
  · rename_i e; subst e; rw [h, if_pos (get_lt h)]
  · rfl

theorem run_addFaces (lib : FontLib) (h : FamilyHandle) : ∀ (is : List FaceInfo) (d : FaceDataHandle) (r : Registry)
    (f : FamilyData), r.families[h.toNat]? = some f →
    (addFacesAct lib h is d).run r = (Registry.addFaces lib is r f.lookup d).map fun x =>
      (x.2.2, { x.1 with families := x.1.families.set h.toNat { f with lookup := x.2.1 } })
  | [], d, r, f, hf => by
    rw [addFacesAct, Act.run, Registry.addFaces, Option.map_some]
    show some (d, r) = some (d, { r with families := r.families.set h.toNat f })
    rw [set_same hf]
  | i :: is, d, r, f, hf => by
    unfold addFacesAct
    rw [run_bind, run_getOrAddFace, Registry.addFaces]
    simp only [Option.bind_some, Act.run]
    have hf' : (r.getOrAddFace lib i).1.families[h.toNat]? = some f := by rw [getOrAddFace_families]; exact hf
    rw [hf']
    simp only
    split
    · have m := modify_some hf' fun f =>
        { f with lookup := Registry.setSlot f.lookup i.weight.toNat i.style.index (r.getOrAddFace lib i).2 }
      rw [run_bind, run_modify, m.1]
      simp only [Option.map_some, Option.bind_some]
      rw [run_addFaces lib h is _ _ _ m.2]
      rw [addFaces_set]
      simp only
      cases hx : Registry.addFaces lib is (r.getOrAddFace lib i).1
        (Registry.setSlot f.lookup i.weight.toNat i.style.index (r.getOrAddFace lib i).2)
        (if (r.getOrAddFace lib i).2.valid && (!d.valid || (i.weight == 3#4 && i.style == .normal)) then
          (r.getOrAddFace lib i).2 else d) with
      | none => rfl
      | some x =>
        obtain ⟨r', l', d'⟩ := x
        simp only [Option.map_some, List.set_set]
        rw [addFaces_families lib is _ _ _ _ _ _ hx]
    · rfl

theorem inner_registerFaces (lib : FontLib) (h : FamilyHandle) (faces : Option (List FaceInfo)) :
    Inner .exclusive (registerFacesAct lib h faces) := by
  cases faces with
  | none =>
    exact .bind (inner_modify ..) fun _ => .bind (inner_modify ..) fun _ => .bind (inner_modify ..) fun _ => .done _
  | some is => exact .bind (inner_addFaces ..) fun _ => .bind (inner_modify ..) fun _ => .bind (inner_modify ..) fun _ => .done _

theorem run_registerFaces (lib : FontLib) (h : FamilyHandle) (faces : Option (List FaceInfo)) (r : Registry) (f : FamilyData)
    (hf : r.families[h.toNat]? = some f) :
    (registerFacesAct lib h faces).run r = (Registry.registerFaces lib h faces r).map fun x => (x.2, x.1) := by
  cases faces with
  | none =>
    have m1 := modify_some hf fun f => { f with scripts := f.scripts.map fun _ => false }
    have m2 := modify_some m1.2 fun f => { f with linked := [] }
    have m3 := modify_some m2.2 fun f => { f with fallback := [] }
    rw [registerFacesAct, run_bind, run_modify, m1.1]
    simp only [Option.map_some, Option.bind_some]
    rw [run_bind, run_modify, m2.1]
    simp only [Option.map_some, Option.bind_some]
    rw [run_bind, run_modify, m3.1]
    simp only [Option.map_some, Option.bind_some]
    rw [Registry.registerFaces, (modify_some hf _).1]
    simp only [Act.run, List.set_set, Option.map_some]
  | some is =>
    rw [registerFacesAct, run_bind, run_addFaces lib h is _ r f hf, Registry.registerFaces]
    simp only [hf]
    cases hx : Registry.addFaces lib is r f.lookup {} with
    | none => rfl
    | some x =>
      obtain ⟨r', l', d'⟩ := x
      have hfam := addFaces_families lib is _ _ _ _ _ _ hx
      have hf' : r'.families[h.toNat]? = some f := by rw [hfam]; exact hf
      simp only [Option.map_some, Option.bind_some]
      have h2 : ({ r' with families := r'.families.set h.toNat { f with lookup := l' } } : Registry).families[h.toNat]? =
        some { f with lookup := l' } := List.getElem?_set_self (get_lt hf')
      have m1 := modify_some h2 fun f => { f with lookup := Registry.fillDefault f.lookup d' }
      have m2 := modify_some m1.2 fun f => { f with initialized := true }
      rw [run_bind, run_modify, m1.1]
      simp only [Option.map_some, Option.bind_some]
      rw [run_bind, run_modify, m2.1]
      simp only [Option.map_some, Option.bind_some]
      rw [(modify_some hf' _).1]
      simp only [Act.run, List.set_set, Option.map_some]

theorem inner_register (lib : FontLib) (info : FamilyInfo) : Inner .exclusive (registerBody lib info) := by
  unfold registerBody
  refine .bind (inner_getOrAddFamily ..) fun h => .read (fun h => by cases h) fun r => ?_
  split
  · exact .fault
  · split
    · exact .done _
    · exact .bind (inner_scriptBits ..) fun _ => .bind (inner_addLinked ..) fun _ => .bind (inner_addFallback ..) fun _ =>
        inner_registerFaces ..

theorem families_grow (lib : FontLib) (r : Registry) (n : String) (h : FamilyHandle) (f : FamilyData)
    (hf : r.families[h.toNat]? = some f) : (r.getOrAddFamily lib n).1.families[h.toNat]? = some f := by
  unfold Registry.getOrAddFamily
  split
  · exact hf
  · simp only
    rw [List.getElem?_append_left (get_lt hf)]
    exact hf

theorem addLinked_some (lib : FontLib) (h : FamilyHandle) : ∀ ns (r r' : Registry), (∃ f, r.families[h.toNat]? = some f) →
    Registry.addLinked lib h ns r = some r' → ∃ f, r'.families[h.toNat]? = some f
  | [], r, r', hf, e => by cases e; exact hf
  | n :: ns, r, r', ⟨f, hf⟩, e => by
    have m := modify_some (families_grow lib r n h f hf) fun f => { f with linked := f.linked ++ [(r.getOrAddFamily lib n).2] }
    rw [Registry.addLinked] at e
    simp only [m.1] at e
    exact addLinked_some lib h ns _ r' ⟨_, m.2⟩ e

theorem addFallback_some (lib : FontLib) (h : FamilyHandle) : ∀ ns (r r' : Registry), (∃ f, r.families[h.toNat]? = some f) →
    Registry.addFallback lib h ns r = some r' → ∃ f, r'.families[h.toNat]? = some f
  | [], r, r', hf, e => by cases e; exact hf
  | n :: ns, r, r', ⟨f, hf⟩, e => by
    have m := modify_some (families_grow lib r n h f hf) fun f => { f with fallback := f.fallback ++ [(r.getOrAddFamily lib n).2] }
    rw [Registry.addFallback] at e
    simp only [m.1] at e
    exact addFallback_some lib h ns _ r' ⟨_, m.2⟩ e

theorem run_register (lib : FontLib) (info : FamilyInfo) (r : Registry) :
    (registerBody lib info).run r = (r.register lib info).map fun x => (x.2, x.1) := by
  unfold registerBody Registry.register
  rw [run_bind, run_getOrAddFamily]
  simp only [Option.bind_some, Act.run]
  cases hf : (r.getOrAddFamily lib info.name).1.families[(r.getOrAddFamily lib info.name).2.toNat]? with
  | none => rfl
  | some f =>
    simp only
    split
    · rfl
    · rw [run_bind, run_scriptBits _ _ _ f hf, Registry.registerNew]
      cases Registry.scriptBits info.scripts f.scripts with
      | none => rfl
      | some b =>
        have m := modify_some hf fun f => { f with scripts := b }
        simp only [Option.bind_some, m.1, Option.map_some]
        rw [run_bind, run_addLinked]
        cases hl : Registry.addLinked lib (r.getOrAddFamily lib info.name).2 info.linked _ with
        | none => rfl
        | some r1 =>
          have g1 := addLinked_some lib _ _ _ _ ⟨_, m.2⟩ hl
          simp only [Option.map_some, Option.bind_some]
          rw [run_bind, run_addFallback]
          cases hb : Registry.addFallback lib (r.getOrAddFamily lib info.name).2 info.fallback r1 with
          | none => rfl
          | some r2 =>
            obtain ⟨f2, hf2⟩ := addFallback_some lib _ _ _ _ g1 hb
            simp only [Option.map_some, Option.bind_some]
            exact run_registerFaces lib _ _ _ f2 hf2

end RichText
