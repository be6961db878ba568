import Verif.Spec.Concurrent
import Verif.Props.FontRegistry
/-!
Safe programs never meet undefined behaviour when calls are made one after the other.
-/
namespace RichText

variable {α : Type} {lib : FontLib}

theorem Registry.Steps.trans {a b c : Registry} (h : Registry.Steps lib a b) (h' : Registry.Steps lib b c) : Registry.Steps lib a c := by
  induction h' with
  | refl => exact h
  | register _ hr ih => exact .register ih hr

theorem Registry.Later.trans {a b c : Registry} (h : a.Later lib b) (h' : b.Later lib c) : a.Later lib c := ⟨h.1.trans h'.1, h'.2⟩

/-- Initialised families have names. -/
theorem isInit_name {r : Registry} (hi : RegInv lib r) (hf : r.Fits) {h : FamilyHandle} (hh : r.IsInit h) :
    ∃ n, r.familyNames.lookup n = some h ∧ r.view n ≠ none := by
  obtain ⟨f, hfi, hinit⟩ := hh
  have hlt : h.toNat < r.familyNames.length := by rw [hi.length]; exact (List.getElem?_eq_some_iff.1 hfi).1
  obtain ⟨x, hx⟩ : ∃ x, r.familyNames[h.toNat]? = some x := ⟨_, List.getElem?_eq_getElem hlt⟩
  have hlook : r.familyNames.lookup x.1 = some x.2 := (lookup_iff_get hi.named.nodup _ _).2 ⟨_, hx⟩
  have hnat : x.2.toNat = h.toNat := by rw [hi.named.handle _ _ hx]; exact toNat_ofNat16 (by have := hf.1; omega)
  have he : x.2 = h := BitVec.eq_of_toNat_eq hnat
  rw [he] at hlook
  exact ⟨_, hlook, (view_init hi hlook hfi).2 hinit⟩

theorem isInit_of_view {r : Registry} (hi : RegInv lib r) {n : String} {h : FamilyHandle} (hl : r.familyNames.lookup n = some h)
    (hv : r.view n ≠ none) : r.IsInit h := by
  have hlt := handle_lt hi.named hi.length hl
  exact ⟨_, List.getElem?_eq_getElem hlt, (view_init hi hl (List.getElem?_eq_getElem hlt)).1 hv⟩

theorem extends_lookup {r r' : Registry} (he : Extends r r') {n : String} {h : FamilyHandle} (hl : r.familyNames.lookup n = some h) :
    r'.familyNames.lookup n = some h := by
  obtain ⟨⟨a, ha⟩, _⟩ := he
  rw [ha, List.lookup_append, hl]; rfl

/-- An initialised family stays one. -/
theorem later_isInit {r r' : Registry} (hr : r.Reached lib) (h : r.Later lib r') {x : FamilyHandle} (hx : r.IsInit x) : r'.IsInit x := by
  have hf := h.1.extends.fits h.2
  have hi := hr.inv hf
  obtain ⟨n, hl, hv⟩ := isInit_name hi hf hx
  obtain ⟨v, hv⟩ := Option.ne_none_iff_exists'.1 hv
  exact isInit_of_view (h.1.inv hi h.2) (extends_lookup h.1.extends hl) (by rw [h.1.view hi h.2 hv]; simp)

/-- The handle of an initialised family stays. -/
theorem later_getFamily {r r' : Registry} (hr : r.Reached lib) (h : r.Later lib r') {n : String} (hx : r.IsInit (r.getFamily n)) :
    r'.getFamily n = r.getFamily n := by
  have hf := h.1.extends.fits h.2
  have hi := hr.inv hf
  cases hl : r.familyNames.lookup n with
  | some x => rw [getFamily_of_lookup hl, getFamily_of_lookup (extends_lookup h.1.extends hl)]
  | none =>
    obtain ⟨f, hfi, _⟩ := hx
    have hlt := (List.getElem?_eq_some_iff.1 hfi).1
    have : r.getFamily n = invalidFamily := by unfold Registry.getFamily; rw [hl]
    rw [this, ← hi.length] at hlt
    have := hf.1
    have e : invalidFamily.toNat = 65535 := rfl
    omega

theorem later_faces {r r' : Registry} (h : r.Later lib r') : r.faces.length ≤ r'.faces.length := by
  obtain ⟨_, _, a, ha⟩ := h.1.extends
  rw [ha, List.length_append]; omega

/-- What is safe stays safe. -/
theorem Prog.Safe.later {p : Prog α} {r r' : Registry} (hr : r.Reached lib) (h : p.Safe lib r) (hl : r.Later lib r') : p.Safe lib r' := by
  have hfl := later_faces hl
  cases p with
  | done => trivial
  | getFamily n k => exact fun r'' h'' => h r'' (hl.trans h'')
  | getFace x w s k => exact ⟨later_isInit hr hl h.1, h.2.1, fun r'' f h'' => h.2.2 r'' f (hl.trans h'')⟩
  | getData q k => exact ⟨Nat.lt_of_lt_of_le h.1 hfl, h.2.1, fun r'' d h'' => h.2.2 r'' d (hl.trans h'')⟩
  | getSubFont a k =>
    obtain ⟨h1, h2, h3, h4, h5, h6⟩ := h
    exact ⟨later_isInit hr hl h1, h2, h3, h4, h5, fun r'' x h'' => h6 r'' x (hl.trans h'')⟩
  | register i k => exact ⟨h.1, h.2.1, fun r'' e h'' => h.2.2 r'' e (hl.trans h'')⟩

/-! ### The answers -/

theorem setScripts_total : ∀ (codes : List Int) (s : List Bool), (∀ c ∈ codes, 0 ≤ c ∧ c.toNat < s.length) →
    ∃ b, Registry.setScripts codes s = some b := by
  intro codes
  induction codes with
  | nil => intro s _; exact ⟨_, rfl⟩
  | cons c cs ih =>
    intro s h
    obtain ⟨h1, h2⟩ := h c List.mem_cons_self
    unfold Registry.setScripts
    rw [if_pos ⟨h1, h2⟩]
    exact ih _ fun d hd => by rw [List.length_set]; exact h d (List.mem_cons_of_mem _ hd)

theorem scriptBits_total {codes : List Int} {s : List Bool} (h : ∀ c ∈ codes, 0 ≤ c ∧ c.toNat < s.length) :
    ∃ b, Registry.scriptBits codes s = some b := by
  unfold Registry.scriptBits
  split
  · exact ⟨_, rfl⟩
  · exact setScripts_total _ _ h

/-- A registration that did not miss the faces leaves the family initialised. -/
theorem register_isInit {r r' : Registry} {info : FamilyInfo} {e : RegistryError} (hi : RegInv lib r)
    (h : r.register lib info = some (r', e)) (hf : r'.Fits) (he : e ≠ .noFaces) : r'.IsInit (r'.getFamily info.name) := by
  rcases register_spec hi h hf.1 with ⟨_, rfl, hd, f, h1, h2, h3⟩ | ⟨bits, hd, _, h1, h2, ⟨h3, _⟩ | ⟨_, is, hs⟩⟩
  · rw [getFamily_of_lookup h1]; exact ⟨f, h2, h3⟩
  · exact absurd h3 he
  · rw [getFamily_of_lookup (r := r') (by rw [hs.names]; exact h1)]
    obtain ⟨l, d, hfam, _⟩ := hs.family
    refine ⟨_, by rw [hfam, List.getElem?_set_self (List.getElem?_eq_some_iff.1 h2).1], rfl⟩

theorem faceOf_range {r : Registry} (hcomp : r.Complete) {h : FamilyHandle} (hi : r.IsInit h) {w : Nat} (hw : w < 9) {s : FontStyle}
    {face : FaceDataHandle} (hf : r.faceOf h w s = some face) : face.handle.toNat < r.faces.length := by
  obtain ⟨g, h1, h2⟩ := faceOf_complete hcomp hi hw s
  rw [h1] at hf; cases hf; exact h2

/-- The face of a sub-font is one of the registry. -/
theorem getSubFont_face {r : Registry} {t t' : FontThread} {font : Font} {cs : List (Nat × Nat)} {offset limit : Nat} {script : Int}
    {sc sub sup : Bool} {x : SingleScriptFont × Nat} (hcomp : r.Complete) (hc : CacheOK lib r t) (hfam : r.IsInit font.face.getFamily)
    (hw : font.face.getWeight.toNat < 9) (h : getSubFont lib r t font cs offset limit script sc sub sup = some (t', x)) :
    x.1.face.handle.toNat < r.faces.length := by
  unfold getSubFont at h
  simp only at h
  split at h
  · cases h
  · rename_i base hb
    have hbase : base.handle.toNat < r.faces.length := by
      obtain ⟨f, src, _, h2, h3⟩ := fontForScript_spec hb
      refine faceOf_range hcomp ?_ hw h3
      rcases h2 with ⟨_, rfl⟩ | ⟨_, pre, post, _, h4, _⟩ | ⟨_, _, rfl⟩
      · exact hfam
      · exact h4
      · exact hfam
    split at h
    · cases h
    · split at h
      · cases h
      · rename_i hd
        have hc1 : CacheOK lib r (t.log [.lockShared]) := hc
        obtain ⟨_, d2, _⟩ := firstDrawable_spec cs 0 _ _ _ hc1 hd
        split at h
        · cases h; exact hbase
        · rename_i rest i face d
          obtain ⟨_, _, _, _, _, ⟨fd, hl, _⟩, _⟩ := d2 _ _ _ _ rfl
          have := (List.getElem?_eq_some_iff.1 hl).1
          split at h
          · cases h; exact this
          · cases h; exact this

/-! ### The invariant -/

/-- The registry has a history without empty arrays of faces, and all threads are safe from here on. -/
structure SafeState (lib : FontLib) (s : Serial α) : Prop where
  ran : ∃ hist, Registry.Ran lib hist s.registry ∧ ∀ x ∈ hist, x.1.faces ≠ some []
  threads : ∀ (i : Nat) (p : Prog α) (t : FontThread), s.threads[i]? = some (p, t) → p.Safe lib s.registry ∧ CacheOK lib s.registry t

theorem SafeState.defined {s : Serial α} (h : SafeState lib s) (hf : s.registry.Fits) {i : Nat} {p : Prog α} {t : FontThread}
    (hi : s.threads[i]? = some (p, t)) : (Serial.call lib s.registry p t).isSome := by
  obtain ⟨hist, hr, hne⟩ := h.ran
  have hinv := hr.reached.inv hf
  have hcomp := ran_complete hr hf hne
  obtain ⟨hs, _⟩ := h.threads _ _ _ hi
  cases p with
  | done => rfl
  | getFamily => rfl
  | getFace x w s k =>
    obtain ⟨f, hf, _⟩ := faceOf_complete hcomp hs.1 hs.2.1 s
    rw [Serial.call, hf]; rfl
  | getData q k =>
    obtain ⟨y, hy⟩ := getFontData_total (lib := lib) (t := t) hs.2.1 hs.1
    rw [Serial.call, hy]; rfl
  | getSubFont a k =>
    obtain ⟨h1, h2, h3, h4, h5, _⟩ := hs
    obtain ⟨y, hy⟩ := C45_defined lib hist _ hr hf hne t a.font a.text a.offset a.limit a.script a.smallcaps a.subscript a.superscript
      h1 h2 h3 h4 h5
    rw [Serial.call, hy]; rfl
  | register info k =>
    obtain ⟨b, hb⟩ := scriptBits_total (codes := info.scripts) (s := List.replicate lib.codeLimit false) (by
      rw [List.length_replicate]; exact hs.1)
    obtain ⟨r', e, he⟩ := register_total hinv hb fun is h x hx => (hs.2.1 is h).2 x hx
    rw [Serial.call, he]; rfl

theorem SafeState.step {s s' : Serial α} {i : Nat} (h : SafeState lib s) (hstep : Serial.Step lib s i s') (hf : s'.registry.Fits) :
    SafeState lib s' := by
  obtain ⟨hist, hr, hne⟩ := h.ran
  cases hstep with
  | @call p p' t t' r' hi hc =>
    obtain ⟨hs, hcache⟩ := h.threads _ _ _ hi
    have same : r' = s.registry → p'.Safe lib s.registry → CacheOK lib s.registry t' →
        SafeState lib (⟨r', s.threads.set i (p', t')⟩ : Serial α) := by
      rintro rfl h1 h2
      refine ⟨⟨hist, hr, hne⟩, ?_⟩
      intro j q u hj
      simp only at hj
      rw [List.getElem?_set] at hj
      split at hj
      · split at hj
        · cases hj; exact ⟨h1, h2⟩
        · cases hj
      · exact h.threads _ _ _ hj
    have now : ∀ {a : Registry}, a.Fits → a.Later lib a := fun h => ⟨.refl _, h⟩
    cases p with
    | done a => cases hc; exact same rfl hs hcache
    | getFamily n k => cases hc; exact same rfl (hs _ (now hf)) hcache
    | getFace x w st k =>
      obtain ⟨f, h1, e⟩ := Option.map_eq_some_iff.1 hc
      cases e
      exact same rfl (hs.2.2 _ _ (now hf) h1 (faceOf_range (ran_complete hr hf hne) hs.1 hs.2.1 h1)) hcache
    | getData q k =>
      obtain ⟨y, h1, e⟩ := Option.map_eq_some_iff.1 hc
      cases e
      exact same rfl (hs.2.2 _ _ (now hf)) (getFontData_spec hcache h1).1
    | getSubFont a k =>
      obtain ⟨y, h1, e⟩ := Option.map_eq_some_iff.1 hc
      cases e
      obtain ⟨g1, g2, _, _, _, g6⟩ := hs
      exact same rfl (g6 _ _ (now hf) (getSubFont_face (ran_complete hr hf hne) hcache g1 g2 h1)) (getSubFont_cache hcache h1)
    | register info k =>
      obtain ⟨y, h1, e⟩ := Option.map_eq_some_iff.1 hc
      cases e
      have hlater : s.registry.Later lib y.1 := ⟨.register (.refl _) h1, hf⟩
      have hinv := hr.reached.inv (hlater.1.extends.fits hf)
      refine ⟨⟨_, .register hr h1, ?_⟩, ?_⟩
      · intro x hx
        rcases List.mem_append.1 hx with hx | hx
        · exact hne x hx
        · cases List.mem_singleton.1 hx
          intro hc
          exact (hs.2.1 [] hc).1 rfl
      · intro j q u hj
        simp only at hj ⊢
        rw [List.getElem?_set] at hj
        split at hj
        · split at hj
          · cases hj
            exact ⟨hs.2.2 _ _ hlater (register_isInit hinv h1 hf), hcache.grow (extends_register h1)⟩
          · cases hj
        · obtain ⟨g1, g2⟩ := h.threads _ _ _ hj
          exact ⟨g1.later hr.reached hlater, g2.grow (extends_register h1)⟩

end RichText
