import Verif.Proof.FileMapping
/-!
Property C92: font files stay mapped while their faces are registered, and are given back
exactly once.
-/
namespace RichText
variable {ρ : Type}

/-- A mapping on Linux: the memory and the file descriptor. -/
def linuxOwns (m : FileMapping) : List Res :=
  .view (m.mapping.getD 0) m.size :: (match m.handle with | .fd fd => [.file fd] | _ => [])

/-- A mapping on Windows: the memory, the two handles and the block that holds them. -/
def windowsOwns (m : FileMapping) : List Res :=
  .view (m.mapping.getD 0) m.size :: (match m.handle with | .data d f s => [.section s, .file f, .block d] | _ => [])

/-- A mapping elsewhere: a block of memory. -/
def portableOwns (m : FileMapping) : List Res := [.block (m.mapping.getD 0)]

/-- Linux: what `open` gave is lost if `fstat` or `mmap` fails. -/
theorem linux_owns : linux.Owns linuxOwns LinuxReply.lost where
  map r os := by
    rcases r with ⟨_ | fd, _ | size, _ | a⟩ <;>
      simp [linux, linuxMap, LinuxReply.lost, ownedBy, FileMapping.none, linuxOwns]
  unmap r os0 h os rest hp := by
    rcases r with ⟨_ | fd, _ | size, _ | a⟩ <;> simp [linux, linuxMap, FileMapping.none] at h
    simp only [linux, linuxMap, linuxUnmap, linuxOwns, Option.getD_some, List.cons_append, List.nil_append] at hp ⊢
    obtain ⟨o1, e1, e2⟩ := release_perm hp
    obtain ⟨o2, e3, e4⟩ := release_perm e2
    exact ⟨o2, by rw [e1, Option.bind_some, e3], e4⟩

theorem closeSection_cons (s : Nat) (os : Os) : closeSection (some s) (.section s :: os) = os := by
  simp [closeSection, Os.release]

theorem windows_owns : windows.Owns windowsOwns fun _ => [] where
  map r os := by
    refine List.perm_iff_count.2 fun x => ?_
    rcases r with ⟨_ | f, _ | s, _ | a, size, d⟩ <;>
      simp [windows, windowsMap, ownedBy, FileMapping.none, windowsOwns, closeSection, Os.release, List.count_cons]
    omega
  unmap r os0 h os rest hp := by
    rcases r with ⟨_ | f, _ | s, _ | a, size, d⟩ <;> simp [windows, windowsMap, FileMapping.none] at h
    simp only [windows, windowsMap, windowsUnmap, windowsOwns, Option.getD_some, List.cons_append, List.nil_append] at hp ⊢
    obtain ⟨o1, e1, e2⟩ := release_perm hp
    obtain ⟨o2, e3, e4⟩ := release_perm e2
    obtain ⟨o3, e5, e6⟩ := release_perm e4
    obtain ⟨o4, e7, e8⟩ := release_perm e6
    exact ⟨o4, by rw [e1, Option.bind_some, e3, Option.bind_some, e5, Option.bind_some, e7], e8⟩

theorem portable_owns : portable.Owns portableOwns fun _ => [] where
  map r os := by
    rcases r with ⟨_ | f, size, _ | a⟩ <;>
      simp [portable, portableMap, ownedBy, FileMapping.none, portableOwns, Os.release]
  unmap r os0 h os rest hp := by
    rcases r with ⟨_ | f, size, _ | a⟩ <;> simp [portable, portableMap, FileMapping.none] at h
    simp only [portable, portableMap, portableUnmap, portableOwns, Option.getD_some, List.cons_append, List.nil_append] at hp ⊢
    exact release_perm hp

/-- C92, in general: with functions that own what they map, registering any faces, with whatever
reallocations of the vector, and the end of the program are defined, nothing is given back twice,
and at the end there is in use what was in use before and what mapping has lost. -/
theorem C92_released (f : FileFuncs ρ) (owns : FileMapping → List Res) (lost : ρ → List Res) (hf : f.Owns owns lost)
    (os : Os) (l : List (String × ρ × Nat)) :
    ∃ s os', FaceStore.run (adds l) (FaceStore.start f os) = some s ∧ s.exit = some os' ∧
      os'.Perm ((answers [] l).flatMap lost ++ os) := by
  obtain ⟨s, ms, h1, h2, h3⟩ := owned_run hf l [] _ (owned_start f owns os)
  obtain ⟨os', e1, e2⟩ := destroyAll_spec hf s.faces.objs s.os _ h3.from_map h3.perm
  refine ⟨s, os', h1, ?_, by simpa [FaceStore.start] using e2⟩
  unfold FaceStore.exit
  rw [h3.funcs]; exact e1

/-- C92: while faces are registered, the mappings of those that are there stay as they are,
with all their resources: pointers into them stay valid until the end of the program. -/
theorem C92_alive (f : FileFuncs ρ) (owns : FileMapping → List Res) (lost : ρ → List Res) (hf : f.Owns owns lost)
    (os : Os) (l l' : List (String × ρ × Nat)) :
    ∃ s s' more, FaceStore.run (adds l) (FaceStore.start f os) = some s ∧ FaceStore.run (adds l') s = some s' ∧
      s'.faces.objs = s.faces.objs ++ more ∧
      ∀ o ∈ s'.faces.objs, o.mapping.mapping.isSome = true → ∀ r ∈ owns o.mapping, r ∈ s'.os := by
  obtain ⟨s, ms, h1, h2, h3⟩ := owned_run hf l [] _ (owned_start f owns os)
  obtain ⟨s', ms', k1, k2, k3⟩ := owned_run hf l' _ _ h3
  refine ⟨s, s', ms', h1, k1, k2, ?_⟩
  intro o ho hs r hr
  refine k3.perm.symm.subset (List.mem_append_left _ (List.mem_flatMap.2 ⟨o, ho, ?_⟩))
  simpa only [ownedBy, hs, if_true] using hr

theorem flatMap_nil_fun {α β : Type} : ∀ (l : List α), l.flatMap (fun _ => ([] : List β)) = []
  | [] => rfl
  | _ :: t => flatMap_nil_fun t

/-- C92 on Windows and on platforms other than Linux and Windows: nothing is lost. -/
theorem C92_windows (os : Os) (l : List (String × WindowsReply × Nat)) :
    ∃ s os', FaceStore.run (adds l) (FaceStore.start windows os) = some s ∧ s.exit = some os' ∧ os'.Perm os := by
  obtain ⟨s, os', h1, h2, h3⟩ := C92_released windows _ _ windows_owns os l
  rw [flatMap_nil_fun] at h3
  exact ⟨s, os', h1, h2, h3⟩

theorem C92_portable (os : Os) (l : List (String × PortableReply × Nat)) :
    ∃ s os', FaceStore.run (adds l) (FaceStore.start portable os) = some s ∧ s.exit = some os' ∧ os'.Perm os := by
  obtain ⟨s, os', h1, h2, h3⟩ := C92_released portable _ _ portable_owns os l
  rw [flatMap_nil_fun] at h3
  exact ⟨s, os', h1, h2, h3⟩

theorem flatMap_lost : ∀ (l : List LinuxReply), (∀ r ∈ l, r.fd.isSome → r.size.isSome ∧ r.address.isSome) →
    l.flatMap LinuxReply.lost = []
  | [], _ => rfl
  | r :: t, h => by
    rw [List.flatMap_cons, flatMap_lost t fun r hr => h r (List.mem_cons_of_mem _ hr), List.append_nil]
    have := h r (List.mem_cons_self ..)
    unfold LinuxReply.lost
    cases hf : r.fd with
    | none => rfl
    | some fd => rw [hf] at this; exact if_pos (this rfl)

/-- C92 on Linux.  Full claim: at the end the resources are those from before.  Missing: files
that can be opened and then not be mapped, see `C92_leak_violated`. -/
theorem C92_linux_partial (os : Os) (l : List (String × LinuxReply × Nat))
    (h : ∀ r ∈ answers [] l, r.fd.isSome → r.size.isSome ∧ r.address.isSome) :
    ∃ s os', FaceStore.run (adds l) (FaceStore.start linux os) = some s ∧ s.exit = some os' ∧ os'.Perm os := by
  obtain ⟨s, os', h1, h2, h3⟩ := C92_released linux _ _ linux_owns os l
  rw [flatMap_lost _ h] at h3
  exact ⟨s, os', h1, h2, h3⟩

theorem answers_leak : ∀ (files : List (String × Nat)) (names : List String), (files.map Prod.fst).Nodup →
    (∀ x ∈ files, x.1 ∉ names) →
    answers names (files.map fun x => (x.1, (⟨some x.2, some 0, none⟩ : LinuxReply), 1)) =
      files.map fun x => ⟨some x.2, some 0, none⟩
  | [], _, _, _ => rfl
  | x :: t, names, hn, hd => by
    rw [List.map_cons, List.nodup_cons] at hn
    simp only [List.map_cons, answers, if_neg (hd x (List.mem_cons_self ..))]
    rw [answers_leak t (x.1 :: names) hn.2]
    intro y hy hm
    rcases List.mem_cons.1 hm with he | hm
    · exact hn.1 (he ▸ List.mem_map_of_mem hy)
    · exact hd y (List.mem_cons_of_mem _ hy) hm

theorem lost_leak : ∀ (files : List (String × Nat)),
    (files.map fun x => (⟨some x.2, some 0, none⟩ : LinuxReply)).flatMap LinuxReply.lost = files.map fun x => .file x.2
  | [] => rfl
  | x :: t => by
    rw [List.map_cons, List.map_cons, List.flatMap_cons, lost_leak t]; rfl

/-- What the claim lacks: a file that can be opened but not mapped, like every empty file
(`mmap` with length 0 fails), leaves its descriptor open for good.  The descriptors of all the
empty files a program registers are still open at its end. -/
theorem C92_leak_violated (os : Os) (files : List (String × Nat)) (hn : (files.map Prod.fst).Nodup) :
    ∃ s os', FaceStore.run (adds (files.map fun x => (x.1, ⟨some x.2, some 0, none⟩, 1))) (FaceStore.start linux os) = some s ∧
      s.exit = some os' ∧ os'.Perm (files.map (fun x => .file x.2) ++ os) := by
  obtain ⟨s, os', h1, h2, h3⟩ := C92_released linux _ _ linux_owns os (files.map fun x => (x.1, ⟨some x.2, some 0, none⟩, 1))
  rw [answers_leak files [] hn (by simp), lost_leak] at h3
  exact ⟨s, os', h1, h2, h3⟩

/-- Two fonts, the second one registered twice, in a vector that grows each time, and a file that
is not there. -/
def demoAdds : List (String × LinuxReply × Nat) :=
  [("Sans", ⟨some 3, some 100, some 4096⟩, 1), ("Serif", ⟨some 4, some 200, some 8192⟩, 2),
   ("Serif", ⟨some 5, some 200, some 12288⟩, 4), ("Mono", ⟨none, none, none⟩, 4)]

example : (∀ r ∈ answers [] demoAdds, r.fd.isSome → r.size.isSome ∧ r.address.isSome) ∧
    (FaceStore.run (adds demoAdds) (FaceStore.start linux [.file 0])).map (fun s => (s.os, s.exit)) =
      some ([.view 8192 200, .file 4, .view 4096 100, .file 3, .file 0], some [.file 0]) := by decide +kernel

/-- Functions that read a file into memory, as a program may set them. -/
def readFuncs : FileFuncs LinuxReply where
  map r os := match r.address with
    | none => (os, .none)
    | some a => (.block a :: os, ⟨some a, r.size.getD 0, .null⟩)
  unmap m os := os.release (.block (m.mapping.getD 0))

theorem readFuncs_owns : readFuncs.Owns portableOwns fun _ => [] where
  map r os := by
    rcases r with ⟨fd, size, _ | a⟩ <;> simp [readFuncs, ownedBy, FileMapping.none, portableOwns]
  unmap r os0 h os rest hp := by
    rcases r with ⟨fd, size, _ | a⟩ <;> simp [readFuncs, FileMapping.none] at h
    exact release_perm hp

/-- C92: `set_file_mapping_functions` before the first face is fine. -/
theorem C92_functions_partial (f g : FileFuncs ρ) (owns : FileMapping → List Res) (lost : ρ → List Res) (hf : f.Owns owns lost)
    (os : Os) (l : List (String × ρ × Nat)) :
    ∃ s os', FaceStore.run (.setFuncs f :: adds l) (FaceStore.start g os) = some s ∧ s.exit = some os' ∧
      os'.Perm ((answers [] l).flatMap lost ++ os) :=
  C92_released f owns lost hf os l

/-- C92: set later, a mapping is given back with functions that did not make it.  Both pairs of
functions are correct; the program ends with `free` on mapped memory. -/
theorem C92_functions_violated :
    ∃ s, linux.Owns linuxOwns LinuxReply.lost ∧ readFuncs.Owns portableOwns (fun _ => []) ∧
      FaceStore.run [.add "Sans" ⟨some 3, some 100, some 4096⟩ 1, .setFuncs readFuncs] (FaceStore.start linux []) = some s ∧
      s.exit = none :=
  ⟨_, linux_owns, readFuncs_owns, rfl, by decide +kernel⟩

end RichText
