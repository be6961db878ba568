import Verif.Spec.FileMapping
namespace RichText
variable {ρ : Type}

theorem release_perm {r : Res} {os rest : Os} (h : os.Perm (r :: rest)) :
    ∃ os', Os.release r os = some os' ∧ os'.Perm rest := by
  unfold Os.release
  have hm : r ∈ os := h.symm.subset (List.mem_cons_self ..)
  refine ⟨_, if_pos hm, ?_⟩
  have := h.erase r
  rwa [List.erase_cons_head] at this

theorem move_destroy (f : FileFuncs ρ) (o : FaceObj) (os : Os) : (o.move.2).destroy f os = some os := rfl

theorem relocate_eq (f : FileFuncs ρ) : ∀ (l : List FaceObj) (os : Os), relocate f l os = some (l, os)
  | [], _ => rfl
  | o :: t, os => by
    unfold relocate
    simp only [move_destroy, Option.bind_some, relocate_eq f t os, Option.map_some]
    rfl

theorem emplaceBack_spec (f : FileFuncs ρ) (c : Nat) (o : FaceObj) (v : FaceVec) (os : Os) :
    ∃ v', v.emplaceBack f c o os = some (v', os) ∧ v'.objs = v.objs ++ [o] := by
  unfold FaceVec.emplaceBack
  split
  · exact ⟨_, rfl, rfl⟩
  · rw [relocate_eq]
    exact ⟨_, rfl, rfl⟩

/-- The faces and the resources: those of the mappings, those lost, those there were. -/
structure Owned (f : FileFuncs ρ) (owns : FileMapping → List Res) (os0 lost : Os) (s : FaceStore ρ) : Prop where
  funcs : s.funcs = f
  from_map : ∀ o ∈ s.faces.objs, o.mapping.mapping.isSome = true → ∃ r os, (f.map r os).2 = o.mapping
  perm : s.os.Perm ((s.faces.objs.flatMap fun o => ownedBy owns o.mapping) ++ (lost ++ os0))

theorem owned_start (f : FileFuncs ρ) (owns : FileMapping → List Res) (os : Os) :
    Owned f owns os [] (FaceStore.start f os) := ⟨rfl, by simp [FaceStore.start], by simp [FaceStore.start]⟩

theorem owned_run {f : FileFuncs ρ} {owns : FileMapping → List Res} {lost : ρ → List Res} (hf : f.Owns owns lost) {os0 : Os} :
    ∀ (l : List (String × ρ × Nat)) (acc : Os) (s : FaceStore ρ), Owned f owns os0 acc s →
      ∃ s' ms, FaceStore.run (adds l) s = some s' ∧ s'.faces.objs = s.faces.objs ++ ms ∧
        Owned f owns os0 (acc ++ (answers s.names l).flatMap lost) s'
  | [], acc, s, h => ⟨s, [], rfl, by simp, by simpa [answers] using h⟩
  | (n, r, c) :: t, acc, s, h => by
    by_cases hn : n ∈ s.names
    · obtain ⟨s', ms, h1, h2, h3⟩ := owned_run hf t acc s h
      refine ⟨s', ms, ?_, h2, ?_⟩
      · show (FaceStore.step s (.add n r c)).bind _ = _
        simp only [FaceStore.step, if_pos hn, Option.bind_some]
        exact h1
      · simp only [answers, if_pos hn]; exact h3
    · obtain ⟨v', e1, e2⟩ := emplaceBack_spec s.funcs c ⟨n, (s.funcs.map r s.os).2⟩ s.faces (s.funcs.map r s.os).1
      have hstep : s.step (.add n r c) = some { s with names := n :: s.names, faces := v', os := (s.funcs.map r s.os).1 } := by
        simp only [FaceStore.step, if_neg hn, e1, Option.map_some]
      have hmap := hf.map r s.os
      rw [h.funcs] at e2
      have ho : Owned f owns os0 (acc ++ lost r) { s with names := n :: s.names, faces := v', os := (f.map r s.os).1 } := by
        refine ⟨h.funcs, ?_, ?_⟩
        · intro o hm hs
          simp only [e2, List.mem_append, List.mem_singleton] at hm
          rcases hm with hm | rfl
          · exact h.from_map o hm hs
          · exact ⟨r, s.os, rfl⟩
        · simp only [e2, List.flatMap_append, List.flatMap_cons, List.flatMap_nil, List.append_nil]
          refine List.perm_iff_count.2 fun a => ?_
          have k1 := hmap.count_eq a
          have k2 := h.perm.count_eq a
          simp only [List.count_append] at k1 k2 ⊢
          omega
      obtain ⟨s', ms, h1, h2, h3⟩ := owned_run hf t _ _ ho
      refine ⟨s', ⟨n, (f.map r s.os).2⟩ :: ms, ?_, ?_, ?_⟩
      · show (FaceStore.step s (.add n r c)).bind _ = _
        rw [hstep, Option.bind_some]
        simp only [h.funcs] at h1 ⊢
        exact h1
      · rw [h2]; simp only [e2, List.append_assoc, List.singleton_append]
      · simp only [answers, if_neg hn, List.flatMap_cons, ← List.append_assoc]
        exact h3

theorem destroyAll_spec {f : FileFuncs ρ} {owns : FileMapping → List Res} {lost : ρ → List Res} (hf : f.Owns owns lost) :
    ∀ (l : List FaceObj) (os rest : Os), (∀ o ∈ l, o.mapping.mapping.isSome = true → ∃ r os, (f.map r os).2 = o.mapping) →
      os.Perm ((l.flatMap fun o => ownedBy owns o.mapping) ++ rest) →
      ∃ os', destroyAll f l os = some os' ∧ os'.Perm rest
  | [], os, rest, _, h => ⟨os, rfl, by simpa using h⟩
  | o :: t, os, rest, hm, h => by
    unfold destroyAll FaceObj.destroy
    rw [List.flatMap_cons, List.append_assoc] at h
    by_cases hs : o.mapping.mapping.isSome = true
    · obtain ⟨r, os0, he⟩ := hm o (List.mem_cons_self ..) hs
      have hu := hf.unmap r os0 (by rw [he]; exact hs) os _ (by rw [he]; simpa only [ownedBy, hs, if_true] using h)
      obtain ⟨os', u1, u2⟩ := hu
      rw [he] at u1
      rw [if_pos hs, u1, Option.bind_some]
      exact destroyAll_spec hf t os' rest (fun o ho => hm o (List.mem_cons_of_mem _ ho)) u2
    · rw [if_neg hs, Option.bind_some]
      refine destroyAll_spec hf t os rest (fun o ho => hm o (List.mem_cons_of_mem _ ho)) ?_
      simpa only [ownedBy, if_neg hs, List.nil_append] using h

end RichText
