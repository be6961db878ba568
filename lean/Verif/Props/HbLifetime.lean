import Verif.Model.HbLifetime
import Mathlib.Data.List.Nodup
import Mathlib.Data.List.Perm.Basic
/-!
C100: every object behind a font is used only while it exists and freed once.
-/
namespace RichText

/-- A font in use. -/
def HbObj.live : HbObj := ⟨true, 1, 2, 1, true⟩

/-- What is left of a font. -/
def HbObj.left : HbObj := ⟨false, 1, 1, 0, false⟩

/-- Invariant of a thread: each cached owner has objects of its own, all of them in use. -/
structure FontHeap.Ok (h : FontHeap) : Prop where
  lib : h.lib = true
  live : ∀ o ∈ h.objs, o = HbObj.live
  owners : ∀ e ∈ h.cache, ∃ n, e.2 = ⟨some n, some n⟩
  ids : (h.cache.map fun e => e.2.ft).Perm ((List.range h.objs.length).map some)
  keys : (h.cache.map (·.1)).Nodup

theorem FontHeap.init_ok : FontHeap.init.Ok :=
  ⟨rfl, by simp [init], by simp [init], by simp [init], by simp [init]⟩

theorem FontHeap.use_live {h : FontHeap} {n : Nat} (hn : h.objs[n]? = some HbObj.live) : h.on n HbObj.use = some h := by
  unfold on
  rw [hn]
  have : HbObj.use .live = some .live := by decide
  simp only [Option.bind_some, this, Option.map_some]
  have hs : h.objs.set n HbObj.live = h.objs := by
    apply List.ext_getElem?
    intro i
    rw [List.getElem?_set]
    split
    · rename_i e; subst e
      split
      · exact hn.symm
      · rename_i hl
        rw [List.getElem?_eq_none (by omega)]
    · rfl
  rw [hs]

/-- A call keeps the invariant. -/
theorem FontHeap.getFont_ok {h : FontHeap} (ho : h.Ok) (handle : Nat) (opens : Bool) :
    ∃ h', h.getFont handle opens = some h' ∧ h'.Ok := by
  unfold getFont
  rw [if_pos ho.lib]
  cases hf : h.cache.find? (·.1 = handle) with
  | some e =>
    have he := List.mem_of_find?_eq_some hf
    obtain ⟨n, hn⟩ := ho.owners e he
    have hm : some n ∈ (List.range h.objs.length).map some :=
      ho.ids.subset (List.mem_map.2 ⟨e, he, by rw [hn]⟩)
    have hl : n < h.objs.length := by simpa using hm
    have hg := List.getElem?_eq_getElem hl
    have hlive := ho.live _ (List.getElem_mem hl)
    rw [hlive] at hg
    obtain ⟨k, w⟩ := e
    simp only at hn
    subst hn
    exact ⟨h, use_live hg, ho⟩
  | none =>
    cases opens with
    | false => exact ⟨h, rfl, ho⟩
    | true =>
      have hc : HbObj.harfbuzzFontCreate .opened = some .live := by decide
      simp only [if_true, hc, Option.bind_some]
      simp only [emplace, moveOwner, destroyOwner, Option.bind_some]
      refine ⟨_, use_live (by simp), ?_⟩
      refine ⟨ho.lib, ?_, ?_, ?_, ?_⟩
      · intro o hm
        simp only [List.mem_append, List.mem_singleton] at hm
        rcases hm with hm | hm
        · exact ho.live o hm
        · exact hm
      · intro e hm
        simp only [List.mem_cons] at hm
        rcases hm with rfl | hm
        · exact ⟨_, rfl⟩
        · exact ho.owners e hm
      · simp only [List.map_cons, List.length_append, List.length_singleton, List.range_succ, List.map_append, List.map_nil]
        exact (List.Perm.cons _ ho.ids).trans (List.perm_append_singleton _ _).symm
      · simp only [List.map_cons, List.nodup_cons]
        refine ⟨?_, ho.keys⟩
        intro hm
        obtain ⟨e, he, hk⟩ := List.mem_map.1 hm
        have := List.find?_eq_none.1 hf e he
        simp [hk] at this

theorem FontHeap.gets_ok : ∀ (calls : List (Nat × Bool)) {h : FontHeap}, h.Ok → ∃ h', h.gets calls = some h' ∧ h'.Ok
  | [], h, ho => ⟨h, rfl, ho⟩
  | (handle, opens) :: rest, h, ho => by
    obtain ⟨h1, e1, o1⟩ := getFont_ok ho handle opens
    obtain ⟨h2, e2, o2⟩ := gets_ok rest o1
    exact ⟨h2, by rw [gets, e1]; exact e2, o2⟩

/-- Destroying owners of fonts in use. -/
theorem FontHeap.destroyOwners_eq : ∀ (ns : List Nat) (h : FontHeap), h.lib = true → ns.Nodup →
    (∀ n ∈ ns, h.objs[n]? = some HbObj.live) →
    ∃ h', h.destroyOwners (ns.map fun n => ⟨some n, some n⟩) = some h' ∧ h'.lib = true ∧ h'.objs.length = h.objs.length ∧
      ∀ i, h'.objs[i]? = if i ∈ ns then some HbObj.left else h.objs[i]? := by
  intro ns
  induction ns with
  | nil => intro h hl _ _; exact ⟨h, rfl, hl, rfl, by simp⟩
  | cons n ns ih =>
    intro h hl hnd hlive
    have hn := hlive n (by simp)
    have hlen : n < h.objs.length := (List.getElem?_eq_some_iff.1 hn).1
    have step : h.destroyOwner ⟨some n, some n⟩ = some { h with objs := h.objs.set n HbObj.left } := by
      unfold destroyOwner doneFace on
      simp only [hl, if_true, hn, Option.bind_some, show HbObj.live.ft = true from rfl, Option.map_some,
        List.getElem?_set_self hlen, List.set_set]
      rfl
    rw [List.nodup_cons] at hnd
    obtain ⟨h', e1, e2, e3, e4⟩ := ih { h with objs := h.objs.set n HbObj.left } hl hnd.2 (by
      intro m hm
      have hne : n ≠ m := by rintro rfl; exact hnd.1 hm
      simp only [List.getElem?_set_ne hne]
      exact hlive m (by simp [hm]))
    refine ⟨h', ?_, e2, by simpa using e3, ?_⟩
    · rw [List.map_cons, destroyOwners, step]
      exact e1
    · intro i
      rw [e4 i]
      simp only [List.mem_cons]
      by_cases hi : i = n
      · subst hi
        simp [hnd.1, List.getElem?_set_self hlen]
      · simp only [hi, false_or, List.getElem?_set_ne (Ne.symm hi)]

/-- The end of a thread. -/
theorem FontHeap.exit_eq {h : FontHeap} (ho : h.Ok) {order : List (Nat × LiveOwner)} (hp : order.Perm h.cache) :
    h.exit order = some ⟨List.replicate h.objs.length HbObj.left, [], false⟩ := by
  have hown : ∀ e ∈ order, ∃ n, e.2 = ⟨some n, some n⟩ := fun e he => ho.owners e (hp.subset he)
  obtain ⟨ns, hns⟩ : ∃ ns : List Nat, order.map (·.2) = ns.map fun n => ⟨some n, some n⟩ := by
    clear hp
    induction order with
    | nil => exact ⟨[], rfl⟩
    | cons e es ih =>
      obtain ⟨n, hn⟩ := hown e (by simp)
      obtain ⟨ns, hns⟩ := ih (fun e he => hown e (by simp [he]))
      exact ⟨n :: ns, by rw [List.map_cons, List.map_cons, hn, hns]⟩
  have hperm : (ns.map some).Perm ((List.range h.objs.length).map some) := by
    have h1 : ns.map some = order.map fun e => e.2.ft := by
      have := congrArg (List.map LiveOwner.ft) hns
      rw [List.map_map, List.map_map] at this
      exact this.symm
    rw [h1]
    exact (hp.map _).trans ho.ids
  have hmem : ∀ n, n ∈ ns ↔ n < h.objs.length := by
    intro n
    have := hperm.mem_iff (a := some n)
    simpa using this
  have hnd : ns.Nodup := by
    have h1 : ((List.range h.objs.length).map some).Nodup :=
      List.nodup_range.map (fun _ _ h => Option.some.inj h)
    exact (hperm.nodup_iff.2 h1).of_map _
  obtain ⟨h', e1, e2, e3, e4⟩ := destroyOwners_eq ns h ho.lib hnd (by
    intro n hn
    have hl := (hmem n).1 hn
    rw [List.getElem?_eq_getElem hl, ho.live _ (List.getElem_mem hl)])
  unfold exit
  rw [hns, e1, Option.map_some]
  have : h'.objs = List.replicate h.objs.length HbObj.left := by
    apply List.ext_getElem?
    intro i
    rw [e4 i, List.getElem?_replicate]
    simp only [hmem]
    split
    · rfl
    · rw [List.getElem?_eq_none (by omega)]
  rw [this]

/-- C100 (partial: HarfBuzz faces and blobs excepted).  Whatever fonts a thread asks for, in whatever order the cache is emptied
when the thread ends: nothing is used or freed after it was freed, there is one set of objects for each font of the cache and all of
them are usable, and in the end every FreeType face is closed (before the library), every HarfBuzz font and the data of its
callbacks are freed. -/
theorem C100_freed_once_partial (calls : List (Nat × Bool)) : ∃ h, FontHeap.init.gets calls = some h ∧
    (∀ e ∈ h.cache, ∃ n o, e.2 = ⟨some n, some n⟩ ∧ h.objs[n]? = some o ∧ o.usable = true) ∧
    (h.cache.map (·.1)).Nodup ∧ h.objs.length = h.cache.length ∧
    ∀ order, order.Perm h.cache → ∃ h', h.exit order = some h' ∧ h'.objs.length = h.objs.length ∧
      ∀ o ∈ h'.objs, o.ft = false ∧ o.font = 0 ∧ o.impl = false := by
  obtain ⟨h, e1, ho⟩ := FontHeap.gets_ok calls FontHeap.init_ok
  refine ⟨h, e1, ?_, ho.keys, ?_, ?_⟩
  · intro e he
    obtain ⟨n, hn⟩ := ho.owners e he
    have hm : some n ∈ (List.range h.objs.length).map some := ho.ids.subset (List.mem_map.2 ⟨e, he, by rw [hn]⟩)
    have hl : n < h.objs.length := by simpa using hm
    refine ⟨n, _, hn, List.getElem?_eq_getElem hl, ?_⟩
    rw [ho.live _ (List.getElem_mem hl)]
    decide
  · have := ho.ids.length_eq
    simpa using this.symm
  · intro order hp
    refine ⟨_, FontHeap.exit_eq ho hp, by simp, ?_⟩
    intro o hm
    rw [List.eq_of_mem_replicate hm]
    exact ⟨rfl, rfl, rfl⟩

/-- C100 is violated: a HarfBuzz face and its blob stay for each font a thread has used. -/
theorem C100_leak_violated (calls : List (Nat × Bool)) : ∃ h, FontHeap.init.gets calls = some h ∧
    ∀ order, order.Perm h.cache → ∃ h', h.exit order = some h' ∧ h'.objs.length = h.cache.length ∧
      ∀ o ∈ h'.objs, o.face = 1 ∧ o.blob = 1 := by
  obtain ⟨h, e1, ho⟩ := FontHeap.gets_ok calls FontHeap.init_ok
  refine ⟨h, e1, fun order hp => ⟨_, FontHeap.exit_eq ho hp, ?_, ?_⟩⟩
  · have := ho.ids.length_eq
    simpa using this.symm
  · intro o hm
    rw [List.eq_of_mem_replicate hm]
    exact ⟨rfl, rfl⟩

/-- Example: two fonts, one of them used again, and a file that is no font. -/
example : (FontHeap.init.gets [(3, true), (5, true), (3, true), (9, false)]).bind (fun h => h.exit h.cache) =
    some ⟨[⟨false, 1, 1, 0, false⟩, ⟨false, 1, 1, 0, false⟩], [], false⟩ := by decide +kernel

end RichText
