import Verif.Spec.FontRegistry
/-! Lemmas on the font registry: names, handles, registration. -/
namespace RichText

/-! ### Association lists -/

theorem lookup_iff_get {α β : Type} [DecidableEq α] {l : List (α × β)} (hn : (l.map (·.1)).Nodup) (a : α) (b : β) :
    l.lookup a = some b ↔ ∃ i : Nat, l[i]? = some (a, b) := by
  induction l with
  | nil => simp
  | cons x l ih =>
    obtain ⟨c, d⟩ := x
    simp only [List.map_cons, List.nodup_cons, List.mem_map, not_exists, not_and] at hn
    rw [List.lookup_cons]
    by_cases h : a = c
    · subst h
      simp only [beq_self_eq_true]
      constructor
      · intro h; cases h; exact ⟨0, rfl⟩
      · rintro ⟨i, hi⟩
        cases i with
        | zero => simp at hi; rw [hi]
        | succ i =>
          simp at hi
          exact absurd rfl (hn.1 _ (List.mem_of_getElem? hi))
    · rw [show (a == c) = false by simpa using h]
      simp only
      rw [ih hn.2]
      constructor
      · rintro ⟨i, hi⟩; exact ⟨i + 1, by simpa using hi⟩
      · rintro ⟨i, hi⟩
        cases i with
        | zero => simp at hi; exact absurd hi.1.symm h
        | succ i => exact ⟨i, by simpa using hi⟩

theorem lookup_none_iff {α β : Type} [DecidableEq α] {l : List (α × β)} (a : α) :
    l.lookup a = none ↔ a ∉ l.map (·.1) := by
  induction l with
  | nil => simp
  | cons x l ih =>
    rw [List.lookup_cons]
    by_cases h : a = x.1
    · simp [h]
    · rw [show (a == x.1) = false by simpa using h]
      simp only [ih, List.map_cons, List.mem_cons, not_or]
      exact ⟨fun h2 => ⟨h, h2⟩, fun h2 => h2.2⟩

theorem lookup_append_some {α β : Type} [DecidableEq α] {l l' : List (α × β)} {a : α} {b : β} (h : l.lookup a = some b) :
    (l ++ l').lookup a = some b := by
  rw [List.lookup_append, h]; rfl

theorem toNat_ofNat16 {i : Nat} (h : i < 65536) : (BitVec.ofNat 16 i).toNat = i := by
  rw [BitVec.toNat_ofNat]; exact Nat.mod_eq_of_lt h

/-! ### Family names -/

/-- The names are distinct and the handles are their positions. -/
structure Named (names : List (String × FamilyHandle)) : Prop where
  nodup : (names.map (·.1)).Nodup
  handle : ∀ (i : Nat) (x : String × FamilyHandle), names[i]? = some x → x.2 = BitVec.ofNat 16 i

theorem Named.nil : Named [] := ⟨List.nodup_nil, fun i x h => by simp at h⟩

theorem Named.append {names : List (String × FamilyHandle)} (h : Named names) {n : String} (hn : names.lookup n = none) :
    Named (names ++ [(n, BitVec.ofNat 16 names.length)]) := by
  refine ⟨?_, ?_⟩
  · rw [List.map_append, List.nodup_append]
    refine ⟨h.nodup, by simp, ?_⟩
    intro a ha b hb
    simp at hb
    subst hb
    rw [lookup_none_iff] at hn
    intro hab; subst hab; exact hn ha
  · intro i x hi
    rw [List.getElem?_append] at hi
    split at hi
    · exact h.handle i x hi
    · rename_i hlt
      have : i - names.length = 0 := by
        have := (List.getElem?_eq_some_iff.1 hi).1
        simp at this; omega
      rw [this] at hi
      simp at hi
      rw [← hi, show i = names.length by omega]

/-- The registry grew by new names only. -/
structure Grown (lib : FontLib) (r r' : Registry) (a : List (String × FamilyHandle)) : Prop where
  names : r'.familyNames = r.familyNames ++ a
  families : r'.families = r.families ++ List.replicate a.length (.empty lib)
  faces : r'.faces = r.faces
  faceNames : r'.faceNames = r.faceNames

theorem Grown.refl (lib : FontLib) (r : Registry) : Grown lib r r [] := ⟨by simp, by simp, rfl, rfl⟩

theorem Grown.trans {lib : FontLib} {r r' r'' : Registry} {a b : List (String × FamilyHandle)} (h : Grown lib r r' a)
    (h' : Grown lib r' r'' b) : Grown lib r r'' (a ++ b) :=
  ⟨by rw [h'.names, h.names, List.append_assoc], by rw [h'.families, h.families, List.append_assoc, List.length_append,
      List.replicate_append_replicate], by rw [h'.faces, h.faces], by rw [h'.faceNames, h.faceNames]⟩

namespace Registry

/-- The registry after `get_or_add_family`. -/
def addName (lib : FontLib) (r : Registry) (n : String) : Registry := (r.getOrAddFamily lib n).1

/-- The registry after several. -/
def addNames (lib : FontLib) (r : Registry) (ns : List String) : Registry := ns.foldl (addName lib) r

/-- Change the family at a position. -/
def modifyAt (r : Registry) (i : Nat) (g : FamilyData → FamilyData) : Registry := { r with families := r.families.modify i g }

end Registry

variable {lib : FontLib}

theorem getOrAdd_spec (r : Registry) (hn : Named r.familyNames) (hl : r.familyNames.length = r.families.length) (n : String) :
    ∃ a, Grown lib r (r.addName lib n) a ∧ Named (r.addName lib n).familyNames ∧
      (r.addName lib n).familyNames.lookup n = some (r.getOrAddFamily lib n).2 ∧ (∀ x ∈ a, x.1 = n) := by
  unfold Registry.addName Registry.getOrAddFamily
  cases h : r.familyNames.lookup n with
  | some h' => exact ⟨[], Grown.refl lib r, hn, h, fun x hx => by cases hx⟩
  | none =>
    refine ⟨[(n, BitVec.ofNat 16 r.families.length)], ⟨rfl, rfl, rfl, rfl⟩, ?_, ?_, by simp⟩
    · rw [← hl]; exact hn.append h
    · simp only
      rw [List.lookup_append, h]
      simp

theorem Grown.length {r r' : Registry} {a : List (String × FamilyHandle)} (h : Grown lib r r' a)
    (hl : r.familyNames.length = r.families.length) : r'.familyNames.length = r'.families.length := by
  rw [h.names, h.families]; simp [hl]

theorem addNames_spec : ∀ (ns : List String) (r : Registry), Named r.familyNames → r.familyNames.length = r.families.length →
    ∃ a, Grown lib r (r.addNames lib ns) a ∧ Named (r.addNames lib ns).familyNames ∧
      (∀ n ∈ ns, ∃ h, (r.addNames lib ns).familyNames.lookup n = some h) ∧ (∀ x ∈ a, x.1 ∈ ns) := by
  intro ns
  induction ns with
  | nil => intro r hn hl; exact ⟨[], Grown.refl lib r, hn, fun n h => (by cases h), fun x h => (by cases h)⟩
  | cons n ns ih =>
    intro r hn hl
    obtain ⟨a, h1, h2, h3, h4⟩ := getOrAdd_spec (lib := lib) r hn hl n
    obtain ⟨b, g1, g2, g3, g4⟩ := ih (r.addName lib n) h2 (h1.length hl)
    refine ⟨a ++ b, h1.trans g1, g2, ?_, ?_⟩
    · intro m hm
      rcases List.mem_cons.1 hm with rfl | hm
      · refine ⟨(r.getOrAddFamily lib m).2, ?_⟩
        show (Registry.addNames lib (r.addName lib m) ns).familyNames.lookup m = _
        rw [g1.names]
        exact lookup_append_some h3
      · exact g3 m hm
    · intro x hx
      rcases List.mem_append.1 hx with hx | hx
      · rw [h4 x hx]; exact List.mem_cons_self
      · exact List.mem_cons_of_mem _ (g4 x hx)

theorem modify_append {α : Type} (l l' : List α) (i : Nat) (g : α → α) (h : i < l.length) :
    l.modify i g ++ l' = (l ++ l').modify i g := by
  apply List.ext_getElem?
  intro j
  rw [List.getElem?_append, List.getElem?_modify, List.getElem?_modify, List.length_modify, List.getElem?_append]
  by_cases hj : j < l.length
  · simp [hj]
  · simp only [hj, if_false]
    have : i ≠ j := by omega
    simp [this]

theorem getOrAdd_modifyAt (r : Registry) (n : String) (i : Nat) (g : FamilyData → FamilyData) (h : i < r.families.length) :
    (r.modifyAt i g).getOrAddFamily lib n = ((r.addName lib n).modifyAt i g, (r.getOrAddFamily lib n).2) := by
  unfold Registry.addName Registry.getOrAddFamily Registry.modifyAt
  cases h' : r.familyNames.lookup n with
  | some x => simp only [h']
  | none => simp only [h', List.length_modify, modify_append _ _ _ _ h]

theorem addName_modifyAt (r : Registry) (n : String) (i : Nat) (g : FamilyData → FamilyData) (h : i < r.families.length) :
    (r.modifyAt i g).addName lib n = (r.addName lib n).modifyAt i g := by
  unfold Registry.addName
  rw [getOrAdd_modifyAt r n i g h]
  rfl

theorem addName_length (r : Registry) (n : String) : r.families.length ≤ (r.addName lib n).families.length := by
  unfold Registry.addName Registry.getOrAddFamily
  split <;> simp

theorem addNames_modifyAt : ∀ (ns : List String) (r : Registry) (i : Nat) (g : FamilyData → FamilyData), i < r.families.length →
    (r.modifyAt i g).addNames lib ns = (r.addNames lib ns).modifyAt i g := by
  intro ns
  induction ns with
  | nil => intro r i g _; rfl
  | cons n ns ih =>
    intro r i g h
    show Registry.addNames lib ((r.modifyAt i g).addName lib n) ns = (Registry.addNames lib (r.addName lib n) ns).modifyAt i g
    rw [addName_modifyAt r n i g h, ih _ i g (Nat.lt_of_lt_of_le h (addName_length r n))]

theorem modify_eq (r : Registry) (h : FamilyHandle) (g : FamilyData → FamilyData) (hl : h.toNat < r.families.length) :
    r.modify h g = some (r.modifyAt h.toNat g) := by
  unfold Registry.modify Registry.modifyAt
  rw [List.getElem?_eq_getElem hl]
  simp only [Option.some.injEq, Registry.mk.injEq, and_true, true_and]
  apply List.ext_getElem?
  intro j
  rw [List.getElem?_set, List.getElem?_modify]
  split
  · rename_i he; subst he; simp [hl]
  · simp

theorem modifyAt_modifyAt (r : Registry) (i : Nat) (g g' : FamilyData → FamilyData) :
    (r.modifyAt i g).modifyAt i g' = r.modifyAt i fun f => g' (g f) := by
  unfold Registry.modifyAt
  simp only [Registry.mk.injEq, and_true, true_and]
  apply List.ext_getElem?
  intro j
  simp only [List.getElem?_modify]
  split
  · simp [Function.comp_def]
  · simp

theorem getFamily_modifyAt (r : Registry) (i : Nat) (g : FamilyData → FamilyData) (n : String) :
    (r.modifyAt i g).getFamily n = r.getFamily n := rfl

theorem getFamily_of_lookup {r : Registry} {n : String} {h : FamilyHandle} (hl : r.familyNames.lookup n = some h) :
    r.getFamily n = h := by
  unfold Registry.getFamily; rw [hl]

theorem addLinked_spec (h : FamilyHandle) : ∀ (ns : List String) (r : Registry), Named r.familyNames →
    r.familyNames.length = r.families.length → h.toNat < r.families.length →
    Registry.addLinked lib h ns r = some ((r.addNames lib ns).modifyAt h.toNat fun f =>
      { f with linked := f.linked ++ ns.map (r.addNames lib ns).getFamily }) := by
  intro ns
  induction ns with
  | nil =>
    intro r _ _ hh
    unfold Registry.addLinked Registry.modifyAt
    simp only [List.map_nil, List.append_nil]
    rw [show (fun f : FamilyData => { f with linked := f.linked }) = id from rfl, List.modify_id]
    rfl
  | cons n ns ih =>
    intro r hn hl hh
    obtain ⟨a, h1, h2, h3, h4⟩ := getOrAdd_spec (lib := lib) r hn hl n
    have hh' : h.toNat < (r.addName lib n).families.length := Nat.lt_of_lt_of_le hh (addName_length r n)
    unfold Registry.addLinked
    simp only
    rw [show (r.getOrAddFamily lib n).1 = r.addName lib n from rfl, modify_eq _ _ _ hh']
    simp only
    rw [ih ((r.addName lib n).modifyAt h.toNat _) h2 (by simpa [Registry.modifyAt] using h1.length hl) (by simpa [Registry.modifyAt] using hh'), addNames_modifyAt _ _ _ _ hh',
      modifyAt_modifyAt]
    obtain ⟨b, g1, g2, g3, g4⟩ := addNames_spec (lib := lib) ns (r.addName lib n) h2 (h1.length hl)
    have hg : (r.addNames lib (n :: ns)).getFamily n = (r.getOrAddFamily lib n).2 := by
      apply getFamily_of_lookup
      show (Registry.addNames lib (r.addName lib n) ns).familyNames.lookup n = _
      rw [g1.names]
      exact lookup_append_some h3
    rw [List.map_cons, hg]
    simp only [List.append_assoc, List.singleton_append]
    rfl

theorem addFallback_spec (h : FamilyHandle) : ∀ (ns : List String) (r : Registry), Named r.familyNames →
    r.familyNames.length = r.families.length → h.toNat < r.families.length →
    Registry.addFallback lib h ns r = some ((r.addNames lib ns).modifyAt h.toNat fun f =>
      { f with fallback := f.fallback ++ ns.map (r.addNames lib ns).getFamily }) := by
  intro ns
  induction ns with
  | nil =>
    intro r _ _ hh
    unfold Registry.addFallback Registry.modifyAt
    simp only [List.map_nil, List.append_nil]
    rw [show (fun f : FamilyData => { f with fallback := f.fallback }) = id from rfl, List.modify_id]
    rfl
  | cons n ns ih =>
    intro r hn hl hh
    obtain ⟨a, h1, h2, h3, h4⟩ := getOrAdd_spec (lib := lib) r hn hl n
    have hh' : h.toNat < (r.addName lib n).families.length := Nat.lt_of_lt_of_le hh (addName_length r n)
    unfold Registry.addFallback
    simp only
    rw [show (r.getOrAddFamily lib n).1 = r.addName lib n from rfl, modify_eq _ _ _ hh']
    simp only
    rw [ih ((r.addName lib n).modifyAt h.toNat _) h2 (by simpa [Registry.modifyAt] using h1.length hl) (by simpa [Registry.modifyAt] using hh'), addNames_modifyAt _ _ _ _ hh',
      modifyAt_modifyAt]
    obtain ⟨b, g1, g2, g3, g4⟩ := addNames_spec (lib := lib) ns (r.addName lib n) h2 (h1.length hl)
    have hg : (r.addNames lib (n :: ns)).getFamily n = (r.getOrAddFamily lib n).2 := by
      apply getFamily_of_lookup
      show (Registry.addNames lib (r.addName lib n) ns).familyNames.lookup n = _
      rw [g1.names]
      exact lookup_append_some h3
    rw [List.map_cons, hg]
    simp only [List.append_assoc, List.singleton_append]
    rfl

/-! ### Faces -/

/-- Names of faces are distinct; the handle of a name is its position, where the
face has that name. -/
structure FacesOK (r : Registry) : Prop where
  nodup : (r.faceNames.map (·.1)).Nodup
  length : r.faceNames.length = r.faces.length
  entry : ∀ (i : Nat) (x : String × FaceDataHandle), r.faceNames[i]? = some x →
    x.2.handle = BitVec.ofNat 16 i ∧ ∃ fd, r.faces[i]? = some fd ∧ fd.name = x.1

/-- The registry grew by new faces only. -/
structure FaceGrown (r r' : Registry) : Prop where
  families : r'.families = r.families
  familyNames : r'.familyNames = r.familyNames
  faces : ∃ a, r'.faces = r.faces ++ a
  faceNames : ∃ a, r'.faceNames = r.faceNames ++ a

theorem FaceGrown.refl (r : Registry) : FaceGrown r r := ⟨rfl, rfl, ⟨[], by simp⟩, ⟨[], by simp⟩⟩

theorem FaceGrown.trans {r r' r'' : Registry} (h : FaceGrown r r') (h' : FaceGrown r' r'') : FaceGrown r r'' := by
  obtain ⟨a, ha⟩ := h.faces
  obtain ⟨b, hb⟩ := h'.faces
  obtain ⟨c, hc⟩ := h.faceNames
  obtain ⟨d, hd⟩ := h'.faceNames
  exact ⟨h'.families.trans h.families, h'.familyNames.trans h.familyNames, ⟨a ++ b, by rw [hb, ha, List.append_assoc]⟩,
    ⟨c ++ d, by rw [hd, hc, List.append_assoc]⟩⟩

/-- The handle a face has. -/
def Registry.handleOf (r : Registry) (i : FaceInfo) : FaceDataHandle := (r.faceNames.lookup i.name).getD {}

theorem getOrAddFace_spec (r : Registry) (h : FacesOK r) (i : FaceInfo) :
    FacesOK (r.getOrAddFace lib i).1 ∧ FaceGrown r (r.getOrAddFace lib i).1 ∧
      (r.getOrAddFace lib i).1.faceNames.lookup i.name = some (r.getOrAddFace lib i).2 ∧
      (r.faceNames.lookup i.name = none → (r.getOrAddFace lib i).2.sourceWeight = i.weight ∧
        (r.getOrAddFace lib i).2.sourceStyle = i.style ∧
        (r.getOrAddFace lib i).1.faces = r.faces ++ [⟨i.name, lib.mapFile i.uri⟩] ∧
        (r.getOrAddFace lib i).2.handle = BitVec.ofNat 16 r.faces.length) := by
  unfold Registry.getOrAddFace
  cases hl : r.faceNames.lookup i.name with
  | some x => exact ⟨h, FaceGrown.refl r, hl, fun h => by cases h⟩
  | none =>
    simp only
    refine ⟨⟨?_, by simp [h.length], ?_⟩, ⟨rfl, rfl, ⟨_, rfl⟩, ⟨_, rfl⟩⟩, ?_, fun _ => by simp⟩
    · rw [List.map_append, List.nodup_append]
      refine ⟨h.nodup, by simp, ?_⟩
      intro a ha b hb
      simp at hb
      subst hb
      rw [lookup_none_iff] at hl
      intro hab; subst hab; exact hl ha
    · intro j x hj
      rw [List.getElem?_append] at hj
      split at hj
      · rename_i hlt
        obtain ⟨e1, fd, e2, e3⟩ := h.entry j x hj
        exact ⟨e1, fd, by rw [List.getElem?_append_left (h.length ▸ hlt)]; exact e2, e3⟩
      · rename_i hlt
        have hj0 : j - r.faceNames.length = 0 := by
          have := (List.getElem?_eq_some_iff.1 hj).1
          simp at this; omega
        rw [hj0] at hj
        simp at hj
        subst hj
        have he : j = r.faces.length := by have := h.length; omega
        subst he
        exact ⟨rfl, ⟨i.name, lib.mapFile i.uri⟩, by simp, rfl⟩
    · rw [List.lookup_append, hl]
      simp

theorem FaceGrown.lookup {r r' : Registry} (h : FaceGrown r r') {n : String} {x : FaceDataHandle}
    (hl : r.faceNames.lookup n = some x) : r'.faceNames.lookup n = some x := by
  obtain ⟨a, ha⟩ := h.faceNames
  rw [ha]; exact lookup_append_some hl

theorem FacesOK.valid {r : Registry} (h : FacesOK r) (hf : r.faceNames.length ≤ 65535) {n : String} {x : FaceDataHandle}
    (hl : r.faceNames.lookup n = some x) : r.FaceNamed x n := by
  obtain ⟨i, hi⟩ := (lookup_iff_get h.nodup n x).1 hl
  obtain ⟨e1, fd, e2, e3⟩ := h.entry i _ hi
  simp only at e1 e3
  have hlt := (List.getElem?_eq_some_iff.1 hi).1
  have ht : x.handle.toNat = i := by rw [e1]; exact toNat_ofNat16 (by omega)
  refine ⟨?_, fd, by rw [ht]; exact e2, e3⟩
  unfold FaceDataHandle.valid
  simp only [bne_iff_ne, ne_eq]
  intro hc
  have : x.handle.toNat = 65535 := by rw [hc]; rfl
  omega

/-! The table of faces. -/

/-- Nine rows of two. -/
def Shape (l : List (List FaceDataHandle)) : Prop := l.length = 9 ∧ ∀ row ∈ l, row.length = 2

/-- An entry of the table. -/
def slot (l : List (List FaceDataHandle)) (w s : Nat) : Option FaceDataHandle :=
  match l[w]? with
  | none => none
  | some row => row[s]?

theorem style_lt (s : FontStyle) : s.index < 2 := by cases s <;> decide

theorem style_inj {s s' : FontStyle} (h : s.index = s'.index) : s = s' := by cases s <;> cases s' <;> simp_all [FontStyle.index]

theorem setSlot_shape {l : List (List FaceDataHandle)} (h : Shape l) (w s : Nat) (x : FaceDataHandle) :
    Shape (Registry.setSlot l w s x) := by
  unfold Registry.setSlot
  split
  · exact h
  · rename_i row hrow
    refine ⟨by simp [h.1], ?_⟩
    intro r' hr'
    rcases List.mem_or_eq_of_mem_set hr' with hr' | rfl
    · exact h.2 r' hr'
    · rw [List.length_set]; exact h.2 row (List.mem_of_getElem? hrow)

theorem setSlot_slot {l : List (List FaceDataHandle)} (h : Shape l) {w s : Nat} (hw : w < 9) (hs : s < 2) (x : FaceDataHandle)
    (w' s' : Nat) : slot (Registry.setSlot l w s x) w' s' = if w = w' ∧ s = s' then some x else slot l w' s' := by
  have hw2 : w < l.length := by rw [h.1]; exact hw
  unfold Registry.setSlot
  rw [List.getElem?_eq_getElem hw2]
  simp only
  unfold slot
  rw [List.getElem?_set]
  by_cases hww : w = w'
  · subst hww
    simp only [hw2, if_true, true_and]
    rw [List.getElem?_set, List.getElem?_eq_getElem hw2]
    have hs2 : s < l[w].length := by rw [h.2 _ (List.getElem_mem hw2)]; exact hs
    by_cases hss : s = s'
    · subst hss; simp [hs2]
    · simp [hss]
  · simp [hww]

theorem slot_fill (l : List (List FaceDataHandle)) (d : FaceDataHandle) (w s : Nat) :
    slot (Registry.fillDefault l d) w s = (slot l w s).map fun h => if h.valid then h else d := by
  unfold slot Registry.fillDefault
  rw [List.getElem?_map]
  cases l[w]? with
  | none => rfl
  | some row => simp

theorem fill_shape {l : List (List FaceDataHandle)} (h : Shape l) (d : FaceDataHandle) : Shape (Registry.fillDefault l d) := by
  refine ⟨by simp [Registry.fillDefault, h.1], ?_⟩
  intro row hrow
  unfold Registry.fillDefault at hrow
  obtain ⟨row', h1, rfl⟩ := List.mem_map.1 hrow
  simp [h.2 _ h1]

theorem slot_isSome {l : List (List FaceDataHandle)} (h : Shape l) {w s : Nat} (hw : w < 9) (hs : s < 2) :
    ∃ x, slot l w s = some x := by
  have hw2 : w < l.length := by rw [h.1]; exact hw
  have hs2 : s < l[w].length := by rw [h.2 _ (List.getElem_mem hw2)]; exact hs
  unfold slot
  rw [List.getElem?_eq_getElem hw2]
  exact ⟨_, List.getElem?_eq_getElem hs2⟩

theorem supplied_cons (i : FaceInfo) (is : List FaceInfo) (w : Nat) (s : FontStyle) :
    suppliedFace (i :: is) w s = match suppliedFace is w s with
      | some j => some j
      | none => if i.weight.toNat = w ∧ i.style = s then some i else none := by
  unfold suppliedFace
  by_cases h : i.weight.toNat = w ∧ i.style = s
  · rw [List.filter_cons_of_pos (by simpa using h)]
    cases h2 : (is.filter fun i => i.weight.toNat = w ∧ i.style = s) with
    | nil => simp [h]
    | cons a l =>
      rw [List.getLast?_cons_cons]
      cases h3 : (a :: l).getLast? with
      | none => simp at h3
      | some b => rfl
  · rw [List.filter_cons_of_neg (by simpa using h), if_neg h]
    cases (is.filter fun i => i.weight.toNat = w ∧ i.style = s).getLast? <;> rfl

theorem supplied_mem {is : List FaceInfo} {w : Nat} {s : FontStyle} {i : FaceInfo} (h : suppliedFace is w s = some i) :
    i ∈ is ∧ i.weight.toNat = w ∧ i.style = s := by
  unfold suppliedFace at h
  have := List.mem_of_getLast? h
  simpa using this

theorem addFaces_spec : ∀ (is : List FaceInfo) (r : Registry) (l : List (List FaceDataHandle)) (d : FaceDataHandle),
    FacesOK r → Shape l → (∀ i ∈ is, i.weight.toNat < 9) →
    ∃ r' l' d', Registry.addFaces lib is r l d = some (r', l', d') ∧ FaceGrown r r' ∧ FacesOK r' ∧
      (∀ i ∈ is, ∃ h, r'.faceNames.lookup i.name = some h) ∧ Shape l' ∧
      (∀ w (s : FontStyle), slot l' w s.index = match suppliedFace is w s with
        | some i => some (r'.handleOf i)
        | none => slot l w s.index) ∧
      (r'.faceNames.length ≤ 65535 → d' = match suppliedFace is 3 .normal with
        | some i => r'.handleOf i
        | none => if d.valid then d else match is.head? with
          | some i => r'.handleOf i
          | none => d) := by
  intro is
  induction is with
  | nil =>
    intro r l d hr hl _
    refine ⟨r, l, d, rfl, FaceGrown.refl r, hr, fun i h => (by cases h), hl, fun w s => rfl, fun _ => ?_⟩
    simp [suppliedFace]
  | cons i is ih =>
    intro r l d hr hl hw
    obtain ⟨f1, f2, f3, f4⟩ := getOrAddFace_spec (lib := lib) r hr i
    have hwi := hw i List.mem_cons_self
    unfold Registry.addFaces
    rw [if_pos (by rw [hl.1]; exact hwi)]
    simp only
    obtain ⟨r', l', d', g1, g2, g3, g4, g5, g6, g7⟩ := ih (r.getOrAddFace lib i).1
      (Registry.setSlot l i.weight.toNat i.style.index (r.getOrAddFace lib i).2)
      (if (r.getOrAddFace lib i).2.valid && (!d.valid || (i.weight == 3#4 && i.style == .normal)) then (r.getOrAddFace lib i).2
        else d) f1 (setSlot_shape hl _ _ _) (fun j hj => hw j (List.mem_cons_of_mem _ hj))
    have hh : r'.faceNames.lookup i.name = some (r.getOrAddFace lib i).2 := g2.lookup f3
    have hi : r'.handleOf i = (r.getOrAddFace lib i).2 := by unfold Registry.handleOf; rw [hh]; rfl
    refine ⟨r', l', d', g1, f2.trans g2, g3, ?_, g5, ?_, ?_⟩
    · intro j hj
      rcases List.mem_cons.1 hj with rfl | hj
      · exact ⟨_, hh⟩
      · exact g4 j hj
    · intro w s
      rw [g6 w s, supplied_cons]
      cases suppliedFace is w s with
      | some j => rfl
      | none =>
        simp only
        rw [setSlot_slot hl hwi (style_lt _)]
        by_cases hws : i.weight.toNat = w ∧ i.style = s
        · rw [if_pos ⟨hws.1, by rw [hws.2]⟩, if_pos hws]
          simp only [hi]
        · rw [if_neg (fun h => hws ⟨h.1, style_inj h.2⟩), if_neg hws]
    · intro hlen
      have hv : (r.getOrAddFace lib i).2.valid = true := (g3.valid hlen hh).1
      rw [g7 hlen, supplied_cons]
      cases suppliedFace is 3 .normal with
      | some j => rfl
      | none =>
        simp only [hv, Bool.true_and]
        by_cases hreg : i.weight.toNat = 3 ∧ i.style = .normal
        · have h3 : i.weight = 3#4 := BitVec.eq_of_toNat_eq (by simpa using hreg.1)
          rw [if_pos hreg]
          simp [h3, hreg.2, hv, hi]
        · have h3 : (i.weight == 3#4 && i.style == .normal) = false := by
            rw [Bool.and_eq_false_iff]
            by_cases h : i.weight.toNat = 3
            · right
              simp only [beq_eq_false_iff_ne, ne_eq]
              exact fun h' => hreg ⟨h, h'⟩
            · left
              simp only [beq_eq_false_iff_ne, ne_eq]
              intro h'
              apply h
              rw [h']; rfl
          rw [if_neg hreg]
          simp only [h3, Bool.or_false]
          cases hd : d.valid with
          | true => simp [hd]
          | false => simp [hv, hi]

theorem addFaces_weights : ∀ (is : List FaceInfo) (r : Registry) (l : List (List FaceDataHandle)) (d : FaceDataHandle)
    (x : Registry × List (List FaceDataHandle) × FaceDataHandle), Shape l → Registry.addFaces lib is r l d = some x →
    ∀ i ∈ is, i.weight.toNat < 9 := by
  intro is
  induction is with
  | nil => intro r l d x _ _ i hi; cases hi
  | cons i is ih =>
    intro r l d x hl h j hj
    unfold Registry.addFaces at h
    split at h
    · rename_i hlt
      rw [hl.1] at hlt
      rcases List.mem_cons.1 hj with rfl | hj
      · exact hlt
      · exact ih _ _ _ _ (setSlot_shape hl _ _ _) h j hj
    · cases h

/-! ### Registration -/

/-- What holds of every family. -/
structure FamOK (lib : FontLib) (r : Registry) (f : FamilyData) : Prop where
  shape : Shape f.lookup
  scripts : f.scripts.length = lib.codeLimit
  fresh : f.initialized = false → f = .empty lib
  linked : ∀ h ∈ f.linked, ∃ n, r.familyNames.lookup n = some h
  fallback : ∀ h ∈ f.fallback, ∃ n, r.familyNames.lookup n = some h

/-- What holds of every state with room. -/
structure RegInv (lib : FontLib) (r : Registry) : Prop where
  named : Named r.familyNames
  length : r.familyNames.length = r.families.length
  faces : FacesOK r
  fam : ∀ (i : Nat) (f : FamilyData), r.families[i]? = some f → FamOK lib r f

theorem empty_shape (lib : FontLib) : Shape (FamilyData.empty lib).lookup := by
  refine ⟨rfl, ?_⟩
  intro row hrow
  rw [(List.mem_replicate.1 hrow).2]
  rfl

theorem FamOK.empty (lib : FontLib) (r : Registry) : FamOK lib r (.empty lib) :=
  ⟨empty_shape lib, by simp [FamilyData.empty], fun _ => rfl, fun h hh => (by simp [FamilyData.empty] at hh),
    fun h hh => (by simp [FamilyData.empty] at hh)⟩

theorem FamOK.grow {r r' : Registry} {f : FamilyData} (h : FamOK lib r f)
    (hn : ∀ n x, r.familyNames.lookup n = some x → r'.familyNames.lookup n = some x) : FamOK lib r' f :=
  ⟨h.shape, h.scripts, h.fresh, fun x hx => by obtain ⟨n, hn'⟩ := h.linked x hx; exact ⟨n, hn _ _ hn'⟩,
    fun x hx => by obtain ⟨n, hn'⟩ := h.fallback x hx; exact ⟨n, hn _ _ hn'⟩⟩

theorem Grown.lookup {r r' : Registry} {a : List (String × FamilyHandle)} (h : Grown lib r r' a) {n : String} {x : FamilyHandle}
    (hl : r.familyNames.lookup n = some x) : r'.familyNames.lookup n = some x := by
  rw [h.names]; exact lookup_append_some hl

theorem RegInv.grow {r r' : Registry} {a : List (String × FamilyHandle)} (h : RegInv lib r) (hg : Grown lib r r' a)
    (hn : Named r'.familyNames) : RegInv lib r' := by
  refine ⟨hn, hg.length h.length, ⟨by rw [hg.faceNames]; exact h.faces.nodup, by rw [hg.faceNames, hg.faces]; exact h.faces.length,
    by rw [hg.faceNames, hg.faces]; exact h.faces.entry⟩, ?_⟩
  intro i f hf
  rw [hg.families, List.getElem?_append] at hf
  split at hf
  · exact (h.fam i f hf).grow fun n x hx => hg.lookup hx
  · have := List.mem_of_getElem? hf
    rw [(List.mem_replicate.1 this).2]
    exact .empty lib r'

theorem RegInv.init (lib : FontLib) : RegInv lib .init :=
  ⟨Named.nil, rfl, ⟨List.nodup_nil, rfl, fun i x h => by simp [Registry.init] at h⟩, fun i f h => by simp [Registry.init] at h⟩

theorem handle_lt {r : Registry} (h : Named r.familyNames) (hl : r.familyNames.length = r.families.length) {n : String}
    {x : FamilyHandle} (hx : r.familyNames.lookup n = some x) : x.toNat < r.families.length := by
  obtain ⟨i, hi⟩ := (lookup_iff_get h.nodup n x).1 hx
  have h1 := h.handle i _ hi
  simp only at h1
  have h2 := (List.getElem?_eq_some_iff.1 hi).1
  rw [h1, BitVec.toNat_ofNat]
  have := Nat.mod_le i (2 ^ 16)
  omega

theorem handle_index {r : Registry} (h : Named r.familyNames) (hf : r.familyNames.length ≤ 65535) {n : String}
    {x : FamilyHandle} (hx : r.familyNames.lookup n = some x) : r.familyNames[x.toNat]? = some (n, x) := by
  obtain ⟨i, hi⟩ := (lookup_iff_get h.nodup n x).1 hx
  have h1 := h.handle i _ hi
  simp only at h1
  have h2 := (List.getElem?_eq_some_iff.1 hi).1
  have h3 : x.toNat = i := by rw [h1]; exact toNat_ofNat16 (by omega)
  rw [h3]; exact hi

theorem setScripts_length' : ∀ (codes : List Int) (s s' : List Bool), Registry.setScripts codes s = some s' → s'.length = s.length := by
  intro codes
  induction codes with
  | nil => intro s s' h; cases h; rfl
  | cons c codes ih =>
    intro s s' h
    unfold Registry.setScripts at h
    split at h
    · rw [ih _ _ h, List.length_set]
    · cases h

theorem scriptBits_length {codes : List Int} {s s' : List Bool} (h : Registry.scriptBits codes s = some s') : s'.length = s.length := by
  unfold Registry.scriptBits at h
  split at h
  · cases h; simp
  · exact setScripts_length' _ _ _ h

theorem addNames_append (r : Registry) (a b : List String) : r.addNames lib (a ++ b) = (r.addNames lib a).addNames lib b := by
  unfold Registry.addNames; rw [List.foldl_append]

theorem getFamily_grow {r r' : Registry} {a : List (String × FamilyHandle)} (hg : Grown lib r r' a) {n : String} {x : FamilyHandle}
    (hx : r.familyNames.lookup n = some x) : r.getFamily n = r'.getFamily n := by
  rw [getFamily_of_lookup hx, getFamily_of_lookup (hg.lookup hx)]

/-- The names mentioned by a registration. -/
def FamilyInfo.names (info : FamilyInfo) : List String := info.name :: (info.linked ++ info.fallback)

/-- What a successful registration stores. -/
structure Stored (lib : FontLib) (r r' : Registry) (info : FamilyInfo) (h : FamilyHandle) (bits : List Bool) (is : List FaceInfo) : Prop where
  faceInfo : info.faces = some is
  weights : ∀ i ∈ is, i.weight.toNat < 9
  names : r'.familyNames = (r.addNames lib info.names).familyNames
  grownFaces : ∃ a, r'.faces = r.faces ++ a
  grownNames : ∃ a, r'.faceNames = r.faceNames ++ a
  faces : FacesOK r'
  known : ∀ i ∈ is, ∃ x, r'.faceNames.lookup i.name = some x
  family : ∃ l d, r'.families = (r.addNames lib info.names).families.set h.toNat ⟨Registry.fillDefault l d,
      info.linked.map (r.addNames lib info.names).getFamily, info.fallback.map (r.addNames lib info.names).getFamily, bits, true⟩ ∧
    Shape l ∧
    (∀ w (s : FontStyle), slot l w s.index = match suppliedFace is w s with
        | some i => some (r'.handleOf i)
        | none => slot (FamilyData.empty lib).lookup w s.index) ∧
    (r'.faceNames.length ≤ 65535 → d = match suppliedFace is 3 .normal with
        | some i => r'.handleOf i
        | none => match is.head? with
          | some i => r'.handleOf i
          | none => {})

theorem register_spec {r r' : Registry} {info : FamilyInfo} {e : RegistryError} (hi : RegInv lib r)
    (h : r.register lib info = some (r', e)) (hfit : r'.familyNames.length ≤ 65535) :
    (e = .alreadyLoaded ∧ r' = r ∧ ∃ hd f, r.familyNames.lookup info.name = some hd ∧ r.families[hd.toNat]? = some f ∧
      f.initialized = true) ∨
    ∃ bits hd, Registry.scriptBits info.scripts (List.replicate lib.codeLimit false) = some bits ∧
      (r.addNames lib info.names).familyNames.lookup info.name = some hd ∧
      (r.addNames lib info.names).families[hd.toNat]? = some (.empty lib) ∧
      ((e = .noFaces ∧ info.faces = none ∧ r' = r.addNames lib info.names) ∨
       (e = .none ∧ ∃ is, Stored lib r r' info hd bits is)) := by
  obtain ⟨a, g1, g2, g3, _⟩ := getOrAdd_spec (lib := lib) r hi.named hi.length info.name
  have hi0 := hi.grow g1 g2
  have hlen0 := hi0.length
  unfold Registry.register at h
  simp only at h
  rw [show (r.getOrAddFamily lib info.name).1 = r.addName lib info.name from rfl] at h
  generalize hr0 : r.addName lib info.name = r0 at g1 g2 g3 hi0 hlen0 h
  generalize hhd : (r.getOrAddFamily lib info.name).2 = hd at g3 h
  have hlt := handle_lt g2 hlen0 g3
  rw [List.getElem?_eq_getElem hlt] at h
  simp only at h
  have hf : r0.families[hd.toNat]? = some r0.families[hd.toNat] := List.getElem?_eq_getElem hlt
  generalize r0.families[hd.toNat] = f at hf h
  split at h
  · rename_i hinit
    cases h
    left
    have hnone : ∀ x, r.familyNames.lookup info.name = some x → r' = r := by
      intro x hx
      rw [← hr0]
      unfold Registry.addName Registry.getOrAddFamily
      rw [hx]
    cases hl : r.familyNames.lookup info.name with
    | some x =>
      have := hnone x hl
      subst this
      rw [hl] at g3; cases g3
      exact ⟨rfl, rfl, hd, f, rfl, hf, hinit⟩
    | none =>
      exfalso
      have h1 : r'.families = r.families ++ [.empty lib] := by
        rw [← hr0]; unfold Registry.addName Registry.getOrAddFamily; rw [hl]
      have h2 : hd = BitVec.ofNat 16 r.families.length := by
        rw [← hhd]; unfold Registry.getOrAddFamily; rw [hl]
      have h3 : hd.toNat = r.families.length := by
        rw [h2]; apply toNat_ofNat16
        rw [hlen0, h1] at hfit; simp at hfit; omega
      rw [h1, h3] at hf
      simp at hf
      subst hf
      simp [FamilyData.empty] at hinit
  · rename_i hinit
    right
    have hfe : f = .empty lib := (hi0.fam _ f hf).fresh (by simpa using hinit)
    subst hfe
    unfold Registry.registerNew at h
    cases hb : Registry.scriptBits info.scripts (FamilyData.empty lib).scripts with
    | none => rw [hb] at h; cases h
    | some bits =>
      rw [hb] at h
      simp only [modify_eq _ _ _ hlt] at h
      obtain ⟨b, l1, l2, l3, _⟩ := addNames_spec (lib := lib) info.linked r0 g2 hlen0
      have hlt1 : hd.toNat < (r0.addNames lib info.linked).families.length := by rw [l1.families]; simp; omega
      have hlen1 := l1.length hlen0
      rw [addLinked_spec hd info.linked (r0.modifyAt hd.toNat _) g2 (by simpa [Registry.modifyAt] using hlen0)
        (by simpa [Registry.modifyAt] using hlt), addNames_modifyAt _ _ _ _ hlt, modifyAt_modifyAt] at h
      simp only at h
      obtain ⟨c, m1, m2, m3, _⟩ := addNames_spec (lib := lib) info.fallback (r0.addNames lib info.linked) l2 hlen1
      rw [addFallback_spec hd info.fallback ((r0.addNames lib info.linked).modifyAt hd.toNat _) l2
        (by simpa [Registry.modifyAt] using hlen1) (by simpa [Registry.modifyAt] using hlt1), addNames_modifyAt _ _ _ _ hlt1,
        modifyAt_modifyAt] at h
      simp only at h
      have hr2 : r.addNames lib info.names = (r0.addNames lib info.linked).addNames lib info.fallback := by
        rw [← addNames_append, ← hr0]; rfl
      have hlink : info.linked.map ((r0.addNames lib info.linked).modifyAt hd.toNat fun f => { f with scripts := bits }).getFamily =
          info.linked.map (r.addNames lib info.names).getFamily := by
        apply List.map_congr_left
        intro n hn
        obtain ⟨x, hx⟩ := l3 n hn
        rw [getFamily_modifyAt, hr2, getFamily_grow m1 hx]
      have hfb : ∀ g : FamilyData → FamilyData,
          info.fallback.map (((r0.addNames lib info.linked).addNames lib info.fallback).modifyAt hd.toNat g).getFamily =
          info.fallback.map (r.addNames lib info.names).getFamily := by
        intro g
        rw [hr2]; rfl
      rw [hlink, hfb] at h
      have hg02 : Grown lib r0 (r.addNames lib info.names) (b ++ c) := by rw [hr2]; exact l1.trans m1
      have hn2 : Named (r.addNames lib info.names).familyNames := by rw [hr2]; exact m2
      rw [← hr2] at h
      have hi2 := hi0.grow hg02 hn2
      have hlk2 := hg02.lookup g3
      have hfam2 : (r.addNames lib info.names).families[hd.toNat]? = some (.empty lib) := by
        rw [hg02.families, List.getElem?_append_left hlt]; exact hf
      have hgr : Grown lib r (r.addNames lib info.names) (a ++ (b ++ c)) := g1.trans hg02
      generalize hR : r.addNames lib info.names = r2 at h hg02 hn2 hi2 hlk2 hfam2 hgr
      have hlt2 : hd.toNat < r2.families.length := (List.getElem?_eq_some_iff.1 hfam2).1
      refine ⟨bits, hd, hb, hlk2, hfam2, ?_⟩
      unfold Registry.registerFaces at h
      cases hfaces : info.faces with
      | none =>
        rw [hfaces] at h
        simp only at h
        rw [modify_eq _ _ _ (by simpa [Registry.modifyAt] using hlt2), modifyAt_modifyAt] at h
        simp only [Option.map_some, Option.some.injEq, Prod.mk.injEq] at h
        left
        refine ⟨h.2.symm, rfl, ?_⟩
        rw [← h.1]
        have hbl := scriptBits_length hb
        unfold Registry.modifyAt
        have : r2.families.modify hd.toNat (fun f => { f with linked := [], fallback := [], scripts := bits.map fun _ => false }) =
            r2.families := by
          apply List.ext_getElem?
          intro j
          rw [List.getElem?_modify]
          by_cases hj : hd.toNat = j
          · subst hj
            rw [hfam2]
            simp only [if_true, Option.map_eq_map, Option.map_some]
            congr 1
            simp only [FamilyData.empty, FamilyData.mk.injEq, true_and, and_true]
            rw [List.map_const', hbl]
            simp [FamilyData.empty]
          · simp [hj]
        simp only [this]
      | some is =>
        rw [hfaces] at h
        simp only at h
        right
        have hget : (r2.modifyAt hd.toNat fun f => FamilyData.mk f.lookup (f.linked ++ info.linked.map r2.getFamily)
              (f.fallback ++ info.fallback.map r2.getFamily) bits f.initialized).families[hd.toNat]? =
            some ⟨(FamilyData.empty lib).lookup, info.linked.map r2.getFamily, info.fallback.map r2.getFamily, bits, false⟩ := by
          unfold Registry.modifyAt
          simp only
          rw [List.getElem?_modify, hfam2]
          simp [FamilyData.empty]
        rw [hget] at h
        simp only at h
        generalize hR2 : (r2.modifyAt hd.toNat fun f => FamilyData.mk f.lookup (f.linked ++ info.linked.map r2.getFamily)
              (f.fallback ++ info.fallback.map r2.getFamily) bits f.initialized) = r3 at h hget
        have hfok : FacesOK r3 := by rw [← hR2]; exact ⟨hi2.faces.nodup, hi2.faces.length, hi2.faces.entry⟩
        cases hadd : Registry.addFaces lib is r3 (FamilyData.empty lib).lookup {} with
        | none => rw [hadd] at h; cases h
        | some x =>
          obtain ⟨r4, l, d⟩ := x
          have hw := addFaces_weights is r3 _ _ _ (empty_shape lib) hadd
          obtain ⟨r', l', d', p1, p2, p3, p4, p5, p6, p7⟩ := addFaces_spec (lib := lib) is r3 (FamilyData.empty lib).lookup {} hfok
            (empty_shape lib) hw
          rw [hadd] at p1 h
          cases p1
          simp only at h
          have hlt4 : hd.toNat < r4.families.length := by
            rw [p2.families, ← hR2]; simpa [Registry.modifyAt] using hlt2
          rw [modify_eq _ _ _ hlt4] at h
          simp only [Option.map_some, Option.some.injEq, Prod.mk.injEq] at h
          refine ⟨h.2.symm, is, ?_⟩
          obtain ⟨fa, hfa⟩ := p2.faces
          obtain ⟨na, hna⟩ := p2.faceNames
          rw [← h.1]
          refine ⟨hfaces, hw, ?_, ⟨fa, ?_⟩, ⟨na, ?_⟩, ⟨p3.nodup, p3.length, p3.entry⟩, p4, l, d, ?_, p5, p6, ?_⟩
          · show r4.familyNames = _
            rw [p2.familyNames, ← hR2, hR]; rfl
          · show r4.faces = _
            rw [hfa, ← hR2]
            show r2.faces ++ fa = _
            rw [hgr.faces]
          · show r4.faceNames = _
            rw [hna, ← hR2]
            show r2.faceNames ++ na = _
            rw [hgr.faceNames]
          · show r4.families.modify hd.toNat _ = _
            rw [hR, p2.families]
            apply List.ext_getElem?
            intro j
            rw [List.getElem?_modify, List.getElem?_set]
            by_cases hj : hd.toNat = j
            · subst hj
              rw [hget]
              simp [hlt2]
            · simp only [hj, if_false]
              rw [← hR2]
              unfold Registry.modifyAt
              simp only
              rw [List.getElem?_modify]
              simp [hj]
          · intro hl
            have := p7 hl
            rw [this]
            have hv : FaceDataHandle.valid {} = false := by decide
            rw [hv]
            rfl

/-! ### Growth over any history -/

/-- Names are only added. -/
def Extends (r r' : Registry) : Prop :=
  (∃ a, r'.familyNames = r.familyNames ++ a) ∧ (∃ a, r'.faceNames = r.faceNames ++ a) ∧ ∃ a, r'.faces = r.faces ++ a

theorem Extends.refl (r : Registry) : Extends r r := ⟨⟨[], by simp⟩, ⟨[], by simp⟩, ⟨[], by simp⟩⟩

theorem Extends.trans {r r' r'' : Registry} (h : Extends r r') (h' : Extends r' r'') : Extends r r'' := by
  obtain ⟨⟨a, ha⟩, ⟨b, hb⟩, ⟨c, hc⟩⟩ := h
  obtain ⟨⟨a', ha'⟩, ⟨b', hb'⟩, ⟨c', hc'⟩⟩ := h'
  exact ⟨⟨a ++ a', by rw [ha', ha, List.append_assoc]⟩, ⟨b ++ b', by rw [hb', hb, List.append_assoc]⟩,
    ⟨c ++ c', by rw [hc', hc, List.append_assoc]⟩⟩

theorem extends_getOrAdd (r : Registry) (n : String) : Extends r (r.getOrAddFamily lib n).1 := by
  unfold Registry.getOrAddFamily
  split
  · exact .refl r
  · exact ⟨⟨_, rfl⟩, ⟨[], by simp⟩, ⟨[], by simp⟩⟩

theorem extends_modify {r r' : Registry} {h : FamilyHandle} {g : FamilyData → FamilyData} (hm : r.modify h g = some r') :
    Extends r r' := by
  unfold Registry.modify at hm
  split at hm
  · cases hm
  · cases hm; exact ⟨⟨[], by simp⟩, ⟨[], by simp⟩, ⟨[], by simp⟩⟩

theorem extends_addLinked (h : FamilyHandle) : ∀ (ns : List String) (r r' : Registry), Registry.addLinked lib h ns r = some r' →
    Extends r r' := by
  intro ns
  induction ns with
  | nil => intro r r' hr; cases hr; exact .refl r
  | cons n ns ih =>
    intro r r' hr
    unfold Registry.addLinked at hr
    simp only at hr
    split at hr
    · cases hr
    · rename_i hm
      exact (extends_getOrAdd r n).trans ((extends_modify hm).trans (ih _ _ hr))

theorem extends_addFallback (h : FamilyHandle) : ∀ (ns : List String) (r r' : Registry), Registry.addFallback lib h ns r = some r' →
    Extends r r' := by
  intro ns
  induction ns with
  | nil => intro r r' hr; cases hr; exact .refl r
  | cons n ns ih =>
    intro r r' hr
    unfold Registry.addFallback at hr
    simp only at hr
    split at hr
    · cases hr
    · rename_i hm
      exact (extends_getOrAdd r n).trans ((extends_modify hm).trans (ih _ _ hr))

theorem extends_addFaces : ∀ (is : List FaceInfo) (r : Registry) (l : List (List FaceDataHandle)) (d : FaceDataHandle)
    (r' : Registry) (x : List (List FaceDataHandle) × FaceDataHandle), Registry.addFaces lib is r l d = some (r', x) → Extends r r' := by
  intro is
  induction is with
  | nil => intro r l d r' x h; cases h; exact .refl r
  | cons i is ih =>
    intro r l d r' x h
    unfold Registry.addFaces at h
    split at h
    · refine Extends.trans ?_ (ih _ _ _ _ _ h)
      split
      · exact .refl r
      · exact ⟨⟨[], by simp⟩, ⟨_, rfl⟩, ⟨_, rfl⟩⟩
    · cases h

theorem extends_register {r r' : Registry} {info : FamilyInfo} {e : RegistryError} (h : r.register lib info = some (r', e)) :
    Extends r r' := by
  unfold Registry.register at h
  simp only at h
  refine (extends_getOrAdd (lib := lib) r info.name).trans ?_
  split at h
  · cases h
  · split at h
    · cases h; exact .refl _
    · unfold Registry.registerNew at h
      split at h
      · cases h
      · split at h
        · cases h
        · rename_i h1
          refine (extends_modify h1).trans ?_
          split at h
          · cases h
          · rename_i h2
            refine (extends_addLinked _ _ _ _ h2).trans ?_
            split at h
            · cases h
            · rename_i h3
              refine (extends_addFallback _ _ _ _ h3).trans ?_
              unfold Registry.registerFaces at h
              split at h
              · cases h4 : Registry.modify _ _ _ with
                | none => rw [h4] at h; cases h
                | some r5 => rw [h4] at h; cases h; exact extends_modify h4
              · split at h
                · cases h
                · split at h
                  · cases h
                  · rename_i h4
                    refine (extends_addFaces _ _ _ _ _ _ h4).trans ?_
                    cases h5 : Registry.modify _ _ _ with
                    | none => rw [h5] at h; cases h
                    | some r5 => rw [h5] at h; cases h; exact extends_modify h5

theorem Registry.Steps.extends {r r' : Registry} (h : Registry.Steps lib r r') : Extends r r' := by
  induction h with
  | refl => exact .refl _
  | register _ hr ih => exact ih.trans (extends_register hr)

theorem Extends.fits {r r' : Registry} (h : Extends r r') (hf : r'.Fits) : r.Fits := by
  obtain ⟨⟨a, ha⟩, ⟨b, hb⟩, _⟩ := h
  obtain ⟨h1, h2⟩ := hf
  rw [ha, List.length_append] at h1
  rw [hb, List.length_append] at h2
  exact ⟨by omega, by omega⟩

/-! ### The invariant -/

theorem Stored.inv {r r' : Registry} {info : FamilyInfo} {h : FamilyHandle} {bits : List Bool} {is : List FaceInfo}
    (hi : RegInv lib r) (hb : Registry.scriptBits info.scripts (List.replicate lib.codeLimit false) = some bits)
    (hs : Stored lib r r' info h bits is) : RegInv lib r' := by
  obtain ⟨a, g1, g2, g3, _⟩ := addNames_spec (lib := lib) info.names r hi.named hi.length
  have hi2 := hi.grow g1 g2
  obtain ⟨l, d, f1, f2, _, _⟩ := hs.family
  refine ⟨by rw [hs.names]; exact g2, by rw [hs.names, f1, List.length_set]; exact hi2.length, hs.faces, ?_⟩
  have hknown : ∀ ns : List String, (∀ n ∈ ns, n ∈ info.names) → ∀ x ∈ ns.map (r.addNames lib info.names).getFamily,
      ∃ n, r'.familyNames.lookup n = some x := by
    intro ns hns x hx
    obtain ⟨n, hn, rfl⟩ := List.mem_map.1 hx
    obtain ⟨y, hy⟩ := g3 n (hns n hn)
    exact ⟨n, by rw [hs.names, getFamily_of_lookup hy]; exact hy⟩
  intro i f hf
  rw [f1, List.getElem?_set] at hf
  split at hf
  · split at hf
    · cases hf
      refine ⟨fill_shape f2 d, by rw [scriptBits_length hb]; simp, (fun h => by cases h), ?_, ?_⟩
      · exact hknown _ fun n hn => by unfold FamilyInfo.names; simp [hn]
      · exact hknown _ fun n hn => by unfold FamilyInfo.names; simp [hn]
    · cases hf
  · exact (hi2.fam i f hf).grow fun n x hx => by rw [hs.names]; exact hx

theorem register_inv {r r' : Registry} {info : FamilyInfo} {e : RegistryError} (hi : RegInv lib r)
    (h : r.register lib info = some (r', e)) (hf : r'.Fits) : RegInv lib r' := by
  rcases register_spec hi h hf.1 with ⟨_, rfl, _⟩ | ⟨bits, hd, hb, _, _, ⟨_, _, rfl⟩ | ⟨_, is, hs⟩⟩
  · exact hi
  · obtain ⟨a, g1, g2, _, _⟩ := addNames_spec (lib := lib) info.names r hi.named hi.length
    exact hi.grow g1 g2
  · exact hs.inv hi hb

theorem Registry.Steps.inv {r r' : Registry} (h : Registry.Steps lib r r') (hi : RegInv lib r) (hf : r'.Fits) : RegInv lib r' := by
  induction h with
  | refl => exact hi
  | register _ hr ih => exact register_inv (ih ((extends_register hr).fits hf)) hr hf

theorem Registry.Reached.inv {r : Registry} (h : r.Reached lib) (hf : r.Fits) : RegInv lib r :=
  Registry.Steps.inv h (RegInv.init lib) hf

/-! ### The view by names -/

theorem find_first {α : Type} (p : α → Bool) : ∀ (l : List α) (i : Nat) (y : α), l[i]? = some y → p y = true →
    (∀ j, j < i → ∀ z, l[j]? = some z → p z = false) → l.find? p = some y := by
  intro l
  induction l with
  | nil => intro i y h; simp at h
  | cons a l ih =>
    intro i y h hp hq
    cases i with
    | zero => simp at h; subst h; rw [List.find?_cons_of_pos hp]
    | succ i =>
      have h0 := hq 0 (by omega) a rfl
      rw [List.find?_cons_of_neg (by simp [h0])]
      refine ih i y (by simpa using h) hp ?_
      intro j hj z hz
      exact hq (j + 1) (by omega) z (by simpa using hz)

theorem nameOf_lookup {r : Registry} (hn : Named r.familyNames) (hf : r.familyNames.length ≤ 65535) {n : String} {x : FamilyHandle}
    (hl : r.familyNames.lookup n = some x) : r.nameOf x = some n := by
  unfold Registry.nameOf
  have hi := handle_index hn hf hl
  rw [find_first _ _ _ _ hi (by simp)]
  · rfl
  · intro j hj z hz
    have := hn.handle j z hz
    simp only [beq_eq_false_iff_ne, ne_eq]
    intro h
    have hj' := (List.getElem?_eq_some_iff.1 hz).1
    have h2 : z.2.toNat = j := by rw [this]; exact toNat_ofNat16 (by omega)
    rw [h] at h2; omega

theorem handle_inj {r : Registry} (hn : Named r.familyNames) (hf : r.familyNames.length ≤ 65535) {n n' : String} {x : FamilyHandle}
    (hl : r.familyNames.lookup n = some x) (hl' : r.familyNames.lookup n' = some x) : n = n' := by
  have h1 := nameOf_lookup hn hf hl
  rw [nameOf_lookup hn hf hl'] at h1
  exact (Option.some.inj h1).symm

theorem handle_valid {r : Registry} (hn : Named r.familyNames) (hf : r.familyNames.length ≤ 65535) {n : String} {x : FamilyHandle}
    (hl : r.familyNames.lookup n = some x) : FamilyHandle.valid x = true := by
  have hi := handle_index hn hf hl
  have h2 := (List.getElem?_eq_some_iff.1 hi).1
  unfold FamilyHandle.valid invalidFamily
  simp only [bne_iff_ne, ne_eq]
  intro h
  have : x.toNat = 65535 := by rw [h]; rfl
  omega

/-- A family looks the same in a registry with more names. -/
theorem view_grow {r r' : Registry} {a : List (String × FamilyHandle)} (hi : RegInv lib r) (hg : Grown lib r r' a)
    (hn : Named r'.familyNames) (hf : r'.familyNames.length ≤ 65535) (n : String) : r'.view n = r.view n := by
  have hfr : r.familyNames.length ≤ 65535 := by rw [hg.names, List.length_append] at hf; omega
  have hname : ∀ x, (∃ m, r.familyNames.lookup m = some x) → r'.nameOf x = r.nameOf x := by
    rintro x ⟨m, hm⟩
    rw [nameOf_lookup hi.named hfr hm, nameOf_lookup hn hf (hg.lookup hm)]
  unfold Registry.view
  cases hl : r.familyNames.lookup n with
  | some h =>
    rw [hg.lookup hl]
    simp only
    have hlt := handle_lt hi.named hi.length hl
    rw [hg.families, List.getElem?_append_left hlt, List.getElem?_eq_getElem hlt]
    have hfam := hi.fam _ _ (List.getElem?_eq_getElem hlt)
    simp only
    split
    · congr 2
      · exact List.map_congr_left fun x hx => hname x (hfam.linked x hx)
      · exact List.map_congr_left fun x hx => hname x (hfam.fallback x hx)
    · rfl
  | none =>
    cases hl' : r'.familyNames.lookup n with
    | none => rfl
    | some h =>
      simp only
      have hidx := handle_index hn hf hl'
      have hge : r.familyNames.length ≤ h.toNat := by
        rcases Nat.lt_or_ge h.toNat r.familyNames.length with hlt | hge
        · rw [hg.names, List.getElem?_append_left hlt] at hidx
          rw [(lookup_iff_get hi.named.nodup n h).2 ⟨_, hidx⟩] at hl
          cases hl
        · exact hge
      have hlt := handle_lt hn (hg.length hi.length) hl'
      obtain ⟨f, hfe⟩ : ∃ f, r'.families[h.toNat]? = some f := ⟨_, List.getElem?_eq_getElem hlt⟩
      have h1 := hfe
      rw [hg.families, List.getElem?_append_right (by rw [← hi.length]; exact hge)] at h1
      have h2 := (List.mem_replicate.1 (List.mem_of_getElem? h1)).2
      rw [hfe, h2]
      rfl

/-- A registration changes the view of its own name only. -/
theorem Stored.view_other {r r' : Registry} {info : FamilyInfo} {h : FamilyHandle} {bits : List Bool} {is : List FaceInfo}
    (hi : RegInv lib r) (hs : Stored lib r r' info h bits is) (hf : r'.familyNames.length ≤ 65535)
    (hl : (r.addNames lib info.names).familyNames.lookup info.name = some h) {n : String} (hne : n ≠ info.name) :
    r'.view n = r.view n := by
  obtain ⟨a, g1, g2, g3, _⟩ := addNames_spec (lib := lib) info.names r hi.named hi.length
  rw [hs.names] at hf
  rw [← view_grow hi g1 g2 hf n]
  have hno : r'.nameOf = (r.addNames lib info.names).nameOf := by
    funext x; unfold Registry.nameOf; rw [hs.names]
  unfold Registry.view
  rw [hs.names, hno]
  cases hn : (r.addNames lib info.names).familyNames.lookup n with
  | none => rfl
  | some x =>
    simp only
    obtain ⟨l, d, f1, _⟩ := hs.family
    have hxh : h.toNat ≠ x.toNat := by
      intro he
      have := BitVec.eq_of_toNat_eq he
      subst this
      exact hne (handle_inj g2 hf hn hl)
    rw [f1, List.getElem?_set_ne hxh]

theorem Stored.view_self {r r' : Registry} {info : FamilyInfo} {h : FamilyHandle} {bits : List Bool} {is : List FaceInfo}
    (hi : RegInv lib r) (hs : Stored lib r r' info h bits is) (hf : r'.familyNames.length ≤ 65535)
    (hl : (r.addNames lib info.names).familyNames.lookup info.name = some h) : ∃ l d,
    r'.view info.name = some ⟨Registry.fillDefault l d, info.linked.map some, info.fallback.map some, bits⟩ ∧ Shape l ∧
    (∀ w (s : FontStyle), slot l w s.index = match suppliedFace is w s with
        | some i => some (r'.handleOf i)
        | none => slot (FamilyData.empty lib).lookup w s.index) ∧
    (r'.faceNames.length ≤ 65535 → d = match suppliedFace is 3 .normal with
        | some i => r'.handleOf i
        | none => match is.head? with
          | some i => r'.handleOf i
          | none => {}) := by
  obtain ⟨a, g1, g2, g3, _⟩ := addNames_spec (lib := lib) info.names r hi.named hi.length
  have hi2 := hi.grow g1 g2
  obtain ⟨l, d, f1, f2, f3, f4⟩ := hs.family
  refine ⟨l, d, ?_, f2, f3, f4⟩
  have hf2 := hf
  rw [hs.names] at hf2
  have hno : r'.nameOf = (r.addNames lib info.names).nameOf := by
    funext x; unfold Registry.nameOf; rw [hs.names]
  have hmap : ∀ ns : List String, (∀ n ∈ ns, n ∈ info.names) →
      (ns.map (r.addNames lib info.names).getFamily).map r'.nameOf = ns.map some := by
    intro ns hns
    rw [List.map_map]
    apply List.map_congr_left
    intro n hn
    obtain ⟨y, hy⟩ := g3 n (hns n hn)
    simp only [Function.comp_apply]
    rw [getFamily_of_lookup hy, hno]
    exact nameOf_lookup g2 hf2 hy
  unfold Registry.view
  rw [hs.names, hl]
  simp only
  rw [f1, List.getElem?_set_self (handle_lt g2 hi2.length hl)]
  simp only [if_true]
  rw [hmap _ fun n hn => by unfold FamilyInfo.names; simp [hn], hmap _ fun n hn => by unfold FamilyInfo.names; simp [hn]]

/-! ### The table of faces -/

/-- `get_or_add_face` on the table of faces alone. -/
def faceStep (lib : FontLib) (t : List FaceData × List (String × FaceDataHandle)) (i : FaceInfo) :
    List FaceData × List (String × FaceDataHandle) :=
  match t.2.lookup i.name with
  | some _ => t
  | none => (t.1 ++ [⟨i.name, lib.mapFile i.uri⟩], t.2 ++ [(i.name, ⟨BitVec.ofNat 16 t.1.length, i.weight, i.style⟩)])

/-- The table of faces. -/
def Registry.faceTable (r : Registry) : List FaceData × List (String × FaceDataHandle) := (r.faces, r.faceNames)

theorem getOrAddFace_table (r : Registry) (i : FaceInfo) : (r.getOrAddFace lib i).1.faceTable = faceStep lib r.faceTable i := by
  unfold Registry.getOrAddFace faceStep Registry.faceTable
  cases r.faceNames.lookup i.name <;> rfl

theorem addFaces_table : ∀ (is : List FaceInfo) (r : Registry) (l : List (List FaceDataHandle)) (d : FaceDataHandle)
    (r' : Registry) (x : List (List FaceDataHandle) × FaceDataHandle), Registry.addFaces lib is r l d = some (r', x) →
    r'.faceTable = is.foldl (faceStep lib) r.faceTable := by
  intro is
  induction is with
  | nil => intro r l d r' x h; cases h; rfl
  | cons i is ih =>
    intro r l d r' x h
    unfold Registry.addFaces at h
    split at h
    · rw [List.foldl_cons, ← getOrAddFace_table]
      exact ih _ _ _ _ _ h
    · cases h

theorem getOrAdd_table (r : Registry) (n : String) : (r.getOrAddFamily lib n).1.faceTable = r.faceTable := by
  unfold Registry.getOrAddFamily
  cases r.familyNames.lookup n <;> rfl

theorem modify_table {r r' : Registry} {h : FamilyHandle} {g : FamilyData → FamilyData} (hm : r.modify h g = some r') :
    r'.faceTable = r.faceTable := by
  unfold Registry.modify at hm
  split at hm
  · cases hm
  · cases hm; rfl

theorem addLinked_table (h : FamilyHandle) : ∀ (ns : List String) (r r' : Registry), Registry.addLinked lib h ns r = some r' →
    r'.faceTable = r.faceTable := by
  intro ns
  induction ns with
  | nil => intro r r' hr; cases hr; rfl
  | cons n ns ih =>
    intro r r' hr
    unfold Registry.addLinked at hr
    simp only at hr
    split at hr
    · cases hr
    · rename_i hm
      rw [ih _ _ hr, modify_table hm, getOrAdd_table]

theorem addFallback_table (h : FamilyHandle) : ∀ (ns : List String) (r r' : Registry), Registry.addFallback lib h ns r = some r' →
    r'.faceTable = r.faceTable := by
  intro ns
  induction ns with
  | nil => intro r r' hr; cases hr; rfl
  | cons n ns ih =>
    intro r r' hr
    unfold Registry.addFallback at hr
    simp only at hr
    split at hr
    · cases hr
    · rename_i hm
      rw [ih _ _ hr, modify_table hm, getOrAdd_table]

/-- A registration enters its faces, if it succeeds. -/
theorem register_table {r r' : Registry} {info : FamilyInfo} {e : RegistryError} (h : r.register lib info = some (r', e)) :
    r'.faceTable = match e, info.faces with
      | .none, some is => is.foldl (faceStep lib) r.faceTable
      | _, _ => r.faceTable := by
  unfold Registry.register at h
  simp only at h
  rw [← getOrAdd_table (lib := lib) r info.name]
  split at h
  · cases h
  · split at h
    · cases h; rfl
    · unfold Registry.registerNew at h
      split at h
      · cases h
      · split at h
        · cases h
        · rename_i h1
          rw [← modify_table h1]
          split at h
          · cases h
          · rename_i h2
            rw [← addLinked_table _ _ _ _ h2]
            split at h
            · cases h
            · rename_i h3
              rw [← addFallback_table _ _ _ _ h3]
              unfold Registry.registerFaces at h
              split at h
              · cases h4 : Registry.modify _ _ _ with
                | none => rw [h4] at h; cases h
                | some r5 => rw [h4] at h; cases h; exact modify_table h4
              · rename_i hfaces
                split at h
                · cases h
                · split at h
                  · cases h
                  · rename_i h4
                    have h4' := addFaces_table _ _ _ _ _ _ h4
                    cases h5 : Registry.modify _ _ _ with
                    | none => rw [h5] at h; cases h
                    | some r5 =>
                      rw [h5] at h; cases h
                      rw [hfaces]
                      simp only
                      rw [← h4']; exact modify_table h5

/-- A registration with proper script codes and weights does something. -/
theorem register_total {r : Registry} {info : FamilyInfo} {bits : List Bool} (hi : RegInv lib r)
    (hb : Registry.scriptBits info.scripts (List.replicate lib.codeLimit false) = some bits)
    (hw : ∀ is, info.faces = some is → ∀ i ∈ is, i.weight.toNat < 9) : ∃ r' e, r.register lib info = some (r', e) := by
  obtain ⟨a, g1, g2, g3, _⟩ := getOrAdd_spec (lib := lib) r hi.named hi.length info.name
  have hi0 := hi.grow g1 g2
  have hlen0 := hi0.length
  unfold Registry.register
  simp only
  rw [show (r.getOrAddFamily lib info.name).1 = r.addName lib info.name from rfl]
  generalize hr0 : r.addName lib info.name = r0 at g1 g2 g3 hi0 hlen0
  generalize hhd : (r.getOrAddFamily lib info.name).2 = hd at g3
  have hlt := handle_lt g2 hlen0 g3
  obtain ⟨f, hf⟩ : ∃ f, r0.families[hd.toNat]? = some f := ⟨_, List.getElem?_eq_getElem hlt⟩
  rw [hf]
  simp only
  split
  · exact ⟨_, _, rfl⟩
  · rename_i hinit
    have hfe : f = .empty lib := (hi0.fam _ f hf).fresh (by simpa using hinit)
    subst hfe
    unfold Registry.registerNew
    have hb' : Registry.scriptBits info.scripts (FamilyData.empty lib).scripts = some bits := hb
    rw [hb']
    simp only [modify_eq _ _ _ hlt]
    obtain ⟨b, l1, l2, l3, _⟩ := addNames_spec (lib := lib) info.linked r0 g2 hlen0
    have hlt1 : hd.toNat < (r0.addNames lib info.linked).families.length := by rw [l1.families]; simp; omega
    have hlen1 := l1.length hlen0
    rw [addLinked_spec hd info.linked (r0.modifyAt hd.toNat _) g2 (by simpa [Registry.modifyAt] using hlen0)
      (by simpa [Registry.modifyAt] using hlt), addNames_modifyAt _ _ _ _ hlt, modifyAt_modifyAt]
    simp only
    obtain ⟨c, m1, m2, m3, _⟩ := addNames_spec (lib := lib) info.fallback (r0.addNames lib info.linked) l2 hlen1
    rw [addFallback_spec hd info.fallback ((r0.addNames lib info.linked).modifyAt hd.toNat _) l2
      (by simpa [Registry.modifyAt] using hlen1) (by simpa [Registry.modifyAt] using hlt1), addNames_modifyAt _ _ _ _ hlt1,
      modifyAt_modifyAt]
    simp only
    have hfam2 : ((r0.addNames lib info.linked).addNames lib info.fallback).families[hd.toNat]? = some (.empty lib) := by
      rw [m1.families, List.getElem?_append_left hlt1, l1.families, List.getElem?_append_left hlt]; exact hf
    have hi2 := (hi0.grow l1 l2).grow m1 m2
    generalize (r0.addNames lib info.linked).addNames lib info.fallback = r2 at hfam2 hi2
    have hlt2 : hd.toNat < r2.families.length := (List.getElem?_eq_some_iff.1 hfam2).1
    unfold Registry.registerFaces
    cases hfaces : info.faces with
    | none =>
      simp only
      rw [modify_eq _ _ _ (by simpa [Registry.modifyAt] using hlt2)]
      exact ⟨_, _, rfl⟩
    | some is =>
      simp only
      generalize hg : (fun f : FamilyData => _) = g
      have hget : (r2.modifyAt hd.toNat g).families[hd.toNat]? = some (g (.empty lib)) := by
        unfold Registry.modifyAt
        simp only
        rw [List.getElem?_modify, hfam2]
        simp
      rw [hget]
      simp only
      have hsh : Shape (g (.empty lib)).lookup := by rw [← hg]; exact empty_shape lib
      have hfok : FacesOK (r2.modifyAt hd.toNat g) := ⟨hi2.faces.nodup, hi2.faces.length, hi2.faces.entry⟩
      obtain ⟨r', l', d', p1, p2, _⟩ := addFaces_spec (lib := lib) is _ (g (.empty lib)).lookup {} hfok hsh (hw is hfaces)
      rw [p1]
      simp only
      rw [modify_eq _ _ _ (by rw [p2.families]; simpa [Registry.modifyAt] using hlt2)]
      exact ⟨_, _, rfl⟩

theorem view_init {r : Registry} (hi : RegInv lib r) {n : String} {hd : FamilyHandle} {f : FamilyData}
    (hl : r.familyNames.lookup n = some hd) (hf : r.families[hd.toNat]? = some f) : r.view n ≠ none ↔ f.initialized = true := by
  unfold Registry.view
  rw [hl]
  simp only
  rw [hf]
  simp only
  split <;> simp_all

theorem shape_ext {l l' : List (List FaceDataHandle)} (h : Shape l) (h' : Shape l')
    (he : ∀ w (s : FontStyle), slot l w s.index = slot l' w s.index) : l = l' := by
  apply List.ext_getElem
  · rw [h.1, h'.1]
  · intro w h1 h2
    have r1 := h.2 _ (List.getElem_mem h1)
    have r2 := h'.2 _ (List.getElem_mem h2)
    apply List.ext_getElem
    · rw [r1, r2]
    · intro s h3 h4
      have hs : s = 0 ∨ s = 1 := by omega
      have := he w (if s = 0 then .normal else .italic)
      have hidx : (if s = 0 then FontStyle.normal else FontStyle.italic).index = s := by
        rcases hs with rfl | rfl <;> rfl
      rw [hidx] at this
      unfold slot at this
      rw [List.getElem?_eq_getElem h1, List.getElem?_eq_getElem h2] at this
      simp only at this
      rw [List.getElem?_eq_getElem h3, List.getElem?_eq_getElem h4] at this
      exact Option.some.inj this

/-- What a registration does depends on the views and the faces alone. -/
theorem register_congr {r r0 r' r0' : Registry} {info : FamilyInfo} {e e0 : RegistryError} (hi : RegInv lib r) (hi0 : RegInv lib r0)
    (hv : ∀ n, r0.view n = r.view n) (ht : r0.faceTable = r.faceTable)
    (h : r.register lib info = some (r', e)) (h0 : r0.register lib info = some (r0', e0)) (hf : r'.Fits) (hf0 : r0'.Fits) :
    e0 = e ∧ (∀ n, r0'.view n = r'.view n) ∧ r0'.faceTable = r'.faceTable := by
  have fresh : ∀ {q : Registry} {hd : FamilyHandle}, RegInv lib q → (q.addNames lib info.names).familyNames.length ≤ 65535 →
      (q.addNames lib info.names).familyNames.lookup info.name = some hd →
      (q.addNames lib info.names).families[hd.toNat]? = some (.empty lib) → q.view info.name = none := by
    intro q hd hq hfq hl hfam
    obtain ⟨a, g1, g2, _, _⟩ := addNames_spec (lib := lib) info.names q hq.named hq.length
    rw [← view_grow hq g1 g2 hfq]
    apply Classical.byContradiction
    intro hne
    have := (view_init (hq.grow g1 g2) hl hfam).1 hne
    simp [FamilyData.empty] at this
  have nview : ∀ {q : Registry}, RegInv lib q → (q.addNames lib info.names).familyNames.length ≤ 65535 →
      ∀ n, (q.addNames lib info.names).view n = q.view n := by
    intro q hq hfq n
    obtain ⟨a, g1, g2, _, _⟩ := addNames_spec (lib := lib) info.names q hq.named hq.length
    exact view_grow hq g1 g2 hfq n
  have ntab : ∀ (q : Registry), RegInv lib q → (q.addNames lib info.names).faceTable = q.faceTable := by
    intro q hq
    obtain ⟨a, g1, _⟩ := addNames_spec (lib := lib) info.names q hq.named hq.length
    unfold Registry.faceTable; rw [g1.faces, g1.faceNames]
  have t1 := register_table h
  have t0 := register_table h0
  rcases register_spec hi h hf.1 with ⟨e1, q1, hd, f, k1, k2, k3⟩ | ⟨bits, hd, hb, hl, hfam, hcase⟩
  · subst q1
    rcases register_spec hi0 h0 hf0.1 with ⟨e2, q2, _⟩ | ⟨bits0, hd0, hb0, hl0, hfam0, hcase0⟩
    · subst q2; exact ⟨e2.trans e1.symm, hv, ht⟩
    · exfalso
      have hfa : (r0.addNames lib info.names).familyNames.length ≤ 65535 := by
        rcases hcase0 with ⟨_, _, q⟩ | ⟨_, is, hs⟩
        · rw [← q]; exact hf0.1
        · rw [← hs.names]; exact hf0.1
      have := fresh hi0 hfa hl0 hfam0
      rw [hv] at this
      exact (view_init hi k1 k2).2 k3 this
  · have hfa : (r.addNames lib info.names).familyNames.length ≤ 65535 := by
      rcases hcase with ⟨_, _, q⟩ | ⟨_, is, hs⟩
      · rw [← q]; exact hf.1
      · rw [← hs.names]; exact hf.1
    have hnone := fresh hi hfa hl hfam
    rcases register_spec hi0 h0 hf0.1 with ⟨e2, q2, hd0, f0, k1, k2, k3⟩ | ⟨bits0, hd0, hb0, hl0, hfam0, hcase0⟩
    · exfalso
      rw [← hv] at hnone
      exact (view_init hi0 k1 k2).2 k3 hnone
    · have hfa0 : (r0.addNames lib info.names).familyNames.length ≤ 65535 := by
        rcases hcase0 with ⟨_, _, q⟩ | ⟨_, is, hs⟩
        · rw [← q]; exact hf0.1
        · rw [← hs.names]; exact hf0.1
      rw [hb] at hb0; cases hb0
      rcases hcase with ⟨e1, fa1, q1⟩ | ⟨e1, is, hs⟩
      · rcases hcase0 with ⟨e2, fa2, q2⟩ | ⟨e2, is0, hs0⟩
        · subst q1 q2
          refine ⟨e2.trans e1.symm, fun n => ?_, ?_⟩
          · rw [nview hi0 hfa0, nview hi hfa, hv]
          · rw [ntab _ hi0, ntab _ hi, ht]
        · rw [hs0.faceInfo] at fa1; cases fa1
      · rcases hcase0 with ⟨e2, fa2, q2⟩ | ⟨e2, is0, hs0⟩
        · rw [hs.faceInfo] at fa2; cases fa2
        · have : is0 = is := by have := hs0.faceInfo; rw [hs.faceInfo] at this; exact (Option.some.inj this).symm
          subst this
          subst e1 e2
          rw [hs.faceInfo] at t1 t0
          simp only at t1 t0
          have htab : r0'.faceTable = r'.faceTable := by rw [t1, t0, ht]
          refine ⟨rfl, fun n => ?_, htab⟩
          by_cases hn : n = info.name
          · subst hn
            obtain ⟨l, d, v1, v2, v3, v4⟩ := hs.view_self hi hf.1 hl
            obtain ⟨l0, d0, w1, w2, w3, w4⟩ := hs0.view_self hi0 hf0.1 hl0
            have hho : r0'.handleOf = r'.handleOf := by
              funext i; unfold Registry.handleOf
              have : r0'.faceNames = r'.faceNames := congrArg Prod.snd htab
              rw [this]
            have hll : l0 = l := shape_ext w2 v2 fun w s => by rw [w3, v3, hho]
            have hdd : d0 = d := by rw [w4 hf0.2, v4 hf.2, hho]
            rw [w1, v1, hll, hdd]
          · rw [hs0.view_other hi0 hf0.1 hl0 hn, hs.view_other hi hf.1 hl hn, hv]

theorem register_view {r r' : Registry} {info : FamilyInfo} {e : RegistryError} (hi : RegInv lib r)
    (h : r.register lib info = some (r', e)) (hf : r'.Fits) {n : String} {v : FamilyView} (hv : r.view n = some v) :
    r'.view n = some v := by
  rcases register_spec hi h hf.1 with ⟨_, rfl, _⟩ | ⟨bits, hd, hb, hl, hfam, hcase⟩
  · exact hv
  · obtain ⟨a, g1, g2, _, _⟩ := addNames_spec (lib := lib) info.names r hi.named hi.length
    rcases hcase with ⟨_, _, rfl⟩ | ⟨_, is, hs⟩
    · rw [view_grow hi g1 g2 hf.1]; exact hv
    · have hf2 : (r.addNames lib info.names).familyNames.length ≤ 65535 := by rw [← hs.names]; exact hf.1
      rw [hs.view_other hi hf.1 hl]
      · exact hv
      · rintro rfl
        rw [← view_grow hi g1 g2 hf2] at hv
        have := (view_init (hi.grow g1 g2) hl hfam).1 (by rw [hv]; simp)
        simp [FamilyData.empty] at this

theorem Registry.Steps.view {r r' : Registry} (h : Registry.Steps lib r r') (hi : RegInv lib r) (hf : r'.Fits)
    {n : String} {v : FamilyView} (hv : r.view n = some v) : r'.view n = some v := by
  induction h with
  | refl => exact hv
  | register hs hr ih =>
    have hf1 := (extends_register hr).fits hf
    exact register_view (hs.inv hi hf1) hr hf (ih hf1)

theorem view_face {r : Registry} {n : String} {v : FamilyView} (h : r.view n = some v) (w : Nat) (s : FontStyle) :
    r.faceOf (r.getFamily n) w s = slot v.lookup w s.index := by
  unfold Registry.view at h
  cases hl : r.familyNames.lookup n with
  | none => rw [hl] at h; cases h
  | some hd =>
    rw [hl] at h
    simp only at h
    rw [getFamily_of_lookup hl]
    unfold Registry.faceOf
    split at h
    · cases h
    · rename_i hf
      rw [hf]
      split at h
      · cases h; rfl
      · cases h

theorem FacesOK.no_name {r : Registry} (h : FacesOK r) {n : String} (hn : ∀ fd ∈ r.faces, fd.name ≠ n) :
    r.faceNames.lookup n = none := by
  rw [lookup_none_iff]
  intro hm
  obtain ⟨x, hx, rfl⟩ := List.mem_map.1 hm
  obtain ⟨i, hi⟩ := List.getElem?_of_mem hx
  obtain ⟨_, fd, h1, h2⟩ := h.entry i x hi
  exact hn fd (List.mem_of_getElem? h1) h2

theorem faceStep_grow (t : List FaceData × List (String × FaceDataHandle)) (i : FaceInfo) :
    (∃ a, (faceStep lib t i).1 = t.1 ++ a) ∧ ∃ a, (faceStep lib t i).2 = t.2 ++ a := by
  unfold faceStep
  split
  · exact ⟨⟨[], by simp⟩, ⟨[], by simp⟩⟩
  · exact ⟨⟨_, rfl⟩, ⟨_, rfl⟩⟩

theorem faceSteps_grow : ∀ (is : List FaceInfo) (t : List FaceData × List (String × FaceDataHandle)),
    (∃ a, (is.foldl (faceStep lib) t).1 = t.1 ++ a) ∧ ∃ a, (is.foldl (faceStep lib) t).2 = t.2 ++ a := by
  intro is
  induction is with
  | nil => intro t; exact ⟨⟨[], by simp⟩, ⟨[], by simp⟩⟩
  | cons i is ih =>
    intro t
    obtain ⟨⟨a, ha⟩, ⟨b, hb⟩⟩ := ih (faceStep lib t i)
    obtain ⟨⟨a', ha'⟩, ⟨b', hb'⟩⟩ := faceStep_grow (lib := lib) t i
    exact ⟨⟨a' ++ a, by rw [List.foldl_cons, ha, ha', List.append_assoc]⟩,
      ⟨b' ++ b, by rw [List.foldl_cons, hb, hb', List.append_assoc]⟩⟩

/-- A new face gets a new handle with its weight, style and file. -/
theorem faceSteps_new : ∀ (is : List FaceInfo) (t : List FaceData × List (String × FaceDataHandle)) (i : FaceInfo), i ∈ is →
    (is.map (·.name)).Nodup → t.2.lookup i.name = none →
    (is.foldl (faceStep lib) t).1.length ≤ 65535 →
    ∃ h : FaceDataHandle, (is.foldl (faceStep lib) t).2.lookup i.name = some h ∧ h.sourceWeight = i.weight ∧ h.sourceStyle = i.style ∧
      (is.foldl (faceStep lib) t).1[h.handle.toNat]? = some ⟨i.name, lib.mapFile i.uri⟩ := by
  intro is
  induction is with
  | nil => intro t i h; cases h
  | cons j is ih =>
    intro t i hi hd hl hlen
    rw [List.map_cons, List.nodup_cons] at hd
    rw [List.foldl_cons] at hlen ⊢
    rcases List.mem_cons.1 hi with rfl | hi
    · obtain ⟨⟨a, ha⟩, ⟨b, hb⟩⟩ := faceSteps_grow (lib := lib) is (faceStep lib t i)
      have hs : faceStep lib t i = (t.1 ++ [⟨i.name, lib.mapFile i.uri⟩], t.2 ++ [(i.name, ⟨BitVec.ofNat 16 t.1.length, i.weight, i.style⟩)]) := by
        unfold faceStep; rw [hl]
      rw [hs] at ha hb hlen ⊢
      have hlt : t.1.length < 65536 := by
        rw [ha] at hlen; simp at hlen; omega
      refine ⟨⟨BitVec.ofNat 16 t.1.length, i.weight, i.style⟩, ?_, rfl, rfl, ?_⟩
      · rw [hb]
        apply lookup_append_some
        rw [List.lookup_append, hl]
        simp
      · rw [ha]
        simp only
        rw [toNat_ofNat16 hlt]
        simp
    · refine ih _ i hi hd.2 ?_ hlen
      unfold faceStep
      split
      · exact hl
      · simp only
        rw [List.lookup_append, hl]
        have hne : i.name ≠ j.name := by
          intro he
          exact hd.1 (he ▸ List.mem_map_of_mem hi)
        have hb : (i.name == j.name) = false := by simp [hne]
        simp [List.lookup, hb]

theorem addNames_lookup {r : Registry} (hi : RegInv lib r) (ns : List String) (n : String) :
    (∃ h, (r.addNames lib ns).familyNames.lookup n = some h) ↔ n ∈ ns ∨ ∃ h, r.familyNames.lookup n = some h := by
  obtain ⟨a, g1, g2, g3, g4⟩ := addNames_spec (lib := lib) ns r hi.named hi.length
  constructor
  · rintro ⟨h, hh⟩
    rw [g1.names, List.lookup_append] at hh
    cases hl : r.familyNames.lookup n with
    | some x => exact .inr ⟨x, rfl⟩
    | none =>
      left
      rw [hl] at hh
      simp only [Option.none_or] at hh
      have hne : a.lookup n ≠ none := by rw [hh]; simp
      rw [ne_eq, lookup_none_iff] at hne
      obtain ⟨x, hx, rfl⟩ := List.mem_map.1 (Classical.not_not.1 hne)
      exact g4 x hx
  · rintro (h | ⟨h, hh⟩)
    · exact g3 n h
    · exact ⟨h, g1.lookup hh⟩

theorem Registry.Ran.reached {hist : List (FamilyInfo × RegistryError)} {r : Registry} (h : Registry.Ran lib hist r) :
    r.Reached lib := by
  induction h with
  | start => exact .refl _
  | register _ hr ih => exact .register ih hr

theorem Registry.Ran.mentions {hist : List (FamilyInfo × RegistryError)} {r : Registry} (h : Registry.Ran lib hist r)
    (hf : r.Fits) (n : String) : (∃ x, r.familyNames.lookup n = some x) ↔ Mentions hist n := by
  induction h with
  | start =>
    constructor
    · rintro ⟨x, hx⟩; simp [Registry.init] at hx
    · rintro ⟨x, hx, _⟩; cases hx
  | @register hist r r' info e hran hr ih =>
    have hf1 := (extends_register hr).fits hf
    have hi := hran.reached.inv hf1
    have ih := ih hf1
    have hm : Mentions (hist ++ [(info, e)]) n ↔ Mentions hist n ∨
        (n = info.name ∨ (e ≠ .alreadyLoaded ∧ (n ∈ info.linked ∨ n ∈ info.fallback))) := by
      unfold Mentions
      constructor
      · rintro ⟨x, hx, hx2⟩
        rcases List.mem_append.1 hx with hx | hx
        · exact .inl ⟨x, hx, hx2⟩
        · simp only [List.mem_singleton] at hx; subst hx; exact .inr hx2
      · rintro (⟨x, hx, hx2⟩ | hx)
        · exact ⟨x, List.mem_append_left _ hx, hx2⟩
        · exact ⟨(info, e), by simp, hx⟩
    rw [hm, ← ih]
    have hnames : n ∈ info.names ↔ n = info.name ∨ (n ∈ info.linked ∨ n ∈ info.fallback) := by
      unfold FamilyInfo.names; simp
    rcases register_spec hi hr hf.1 with ⟨rfl, rfl, hd, f, k1, _⟩ | ⟨bits, hd, hb, hl, hfam, hcase⟩
    · constructor
      · intro h; exact .inl h
      · rintro (h | rfl | ⟨h, _⟩)
        · exact h
        · exact ⟨hd, k1⟩
        · exact absurd rfl h
    · have key := addNames_lookup hi info.names n
      rcases hcase with ⟨rfl, _, rfl⟩ | ⟨rfl, is, hs⟩
      · rw [key, hnames]
        constructor
        · rintro ((h | h) | h)
          · exact .inr (.inl h)
          · exact .inr (.inr ⟨by simp, h⟩)
          · exact .inl h
        · rintro (h | h | ⟨_, h⟩)
          · exact .inr h
          · exact .inl (.inl h)
          · exact .inl (.inr h)
      · rw [hs.names, key, hnames]
        constructor
        · rintro ((h | h) | h)
          · exact .inr (.inl h)
          · exact .inr (.inr ⟨by simp, h⟩)
          · exact .inl h
        · rintro (h | h | ⟨_, h⟩)
          · exact .inr h
          · exact .inl (.inl h)
          · exact .inl (.inr h)

theorem valid_iff_lookup {r : Registry} (hi : RegInv lib r) (hf : r.Fits) (n : String) :
    FamilyHandle.valid (r.getFamily n) = true ↔ ∃ x, r.familyNames.lookup n = some x := by
  constructor
  · intro h
    cases hl : r.familyNames.lookup n with
    | some x => exact ⟨x, rfl⟩
    | none =>
      unfold Registry.getFamily at h
      rw [hl] at h
      exact absurd h (by decide)
  · rintro ⟨x, hx⟩
    rw [getFamily_of_lookup hx]
    exact handle_valid hi.named hf.1 hx

end RichText
