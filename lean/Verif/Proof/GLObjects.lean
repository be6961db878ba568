import Verif.Model.GLObjects
/-! Proofs about the life times of OpenGL's objects. -/
namespace RichText

/-- The objects are those of the owners, and perhaps a deleted program that is still in use; shaders are only those of
programs, and deleted. -/
structure GLObjects.Owned (g : GLObjects) (A P T : List Nat) : Prop where
  arrays : ∀ h, h ∈ g.arrays ↔ h ∈ A
  textures : ∀ h, h ∈ g.textures ↔ h ∈ T
  programs : ∀ p, p ∈ g.programs ↔ p ∈ P ∨ (p = g.current ∧ p ∈ g.flagged)
  kept : ∀ p ∈ P, p ∉ g.flagged
  shaders : ∀ s, s ∈ g.shaders ↔ ∃ p, (p, s) ∈ g.attached
  attached : ∀ p s, (p, s) ∈ g.attached → p ∈ g.programs
  deleted : ∀ s ∈ g.shaders, s ∈ g.flagged
  current : g.current = 0 ∨ g.current ∈ g.programs
  arraysNodup : A.Nodup
  programsNodup : P.Nodup
  texturesNodup : T.Nodup
  pos : 0 < g.next
  arraysBelow : ∀ h ∈ A, 0 < h ∧ h < g.next
  texturesBelow : ∀ h ∈ T, 0 < h ∧ h < g.next
  programsBelow : ∀ p ∈ g.programs, 0 < p ∧ p < g.next
  shadersBelow : ∀ s ∈ g.shaders, 0 < s ∧ s < g.next
  flaggedBelow : ∀ s ∈ g.flagged, 0 < s ∧ s < g.next
  apart : ∀ s ∈ g.shaders, s ∉ g.programs

namespace GLObjects
variable {g : GLObjects} {A P T : List Nat}

theorem Owned.start : Owned {} [] [] [] := by
  constructor <;> simp

theorem Owned.createArray (h : g.Owned A P T) : (g.createArray.2).Owned (g.createArray.1 :: A) P T ∧ g.createArray.1 ≠ 0 := by
  refine ⟨?_, (Nat.pos_iff_ne_zero.1 h.pos)⟩
  constructor
  all_goals try simp only [GLObjects.createArray]
  · intro x; simp [h.arrays]
  · exact h.textures
  · exact h.programs
  · exact h.kept
  · exact h.shaders
  · exact h.attached
  · exact h.deleted
  · exact h.current
  · refine List.nodup_cons.2 ⟨fun hm => ?_, h.arraysNodup⟩
    exact absurd (h.arraysBelow _ hm).2 (Nat.lt_irrefl _)
  · exact h.programsNodup
  · exact h.texturesNodup
  · omega
  · intro x hx
    rcases List.mem_cons.1 hx with rfl | hx
    · exact ⟨h.pos, Nat.lt_succ_self _⟩
    · have := h.arraysBelow x hx; omega
  · intro x hx; have := h.texturesBelow x hx; omega
  · intro x hx; have := h.programsBelow x hx; omega
  · intro x hx; have := h.shadersBelow x hx; omega
  · intro x hx; have := h.flaggedBelow x hx; omega
  · exact h.apart

theorem Owned.createTexture (h : g.Owned A P T) : (g.createTexture.2).Owned A P (g.createTexture.1 :: T) ∧ g.createTexture.1 ≠ 0 := by
  refine ⟨?_, (Nat.pos_iff_ne_zero.1 h.pos)⟩
  constructor
  all_goals try simp only [GLObjects.createTexture]
  · exact h.arrays
  · intro x; simp [h.textures]
  · exact h.programs
  · exact h.kept
  · exact h.shaders
  · exact h.attached
  · exact h.deleted
  · exact h.current
  · exact h.arraysNodup
  · exact h.programsNodup
  · refine List.nodup_cons.2 ⟨fun hm => ?_, h.texturesNodup⟩
    exact absurd (h.texturesBelow _ hm).2 (Nat.lt_irrefl _)
  · omega
  · intro x hx; have := h.arraysBelow x hx; omega
  · intro x hx
    rcases List.mem_cons.1 hx with rfl | hx
    · exact ⟨h.pos, Nat.lt_succ_self _⟩
    · have := h.texturesBelow x hx; omega
  · intro x hx; have := h.programsBelow x hx; omega
  · intro x hx; have := h.shadersBelow x hx; omega
  · intro x hx; have := h.flaggedBelow x hx; omega
  · exact h.apart

theorem Owned.deleteArray {a : Nat} (h : g.Owned (a :: A) P T) : ∃ g', g.deleteArray a = some g' ∧ g'.Owned A P T := by
  have hn := List.nodup_cons.1 h.arraysNodup
  refine ⟨_, if_pos ((h.arrays a).2 List.mem_cons_self), ?_⟩
  constructor
  case arrays =>
    intro x
    simp only [List.mem_filter, h.arrays, List.mem_cons, decide_eq_true_eq]
    constructor
    · rintro ⟨rfl | hx, hne⟩
      · exact absurd rfl hne
      · exact hx
    · intro hx
      exact ⟨.inr hx, fun he => hn.1 (he ▸ hx)⟩
  case arraysNodup => exact hn.2
  case arraysBelow => exact fun x hx => h.arraysBelow x (List.mem_cons_of_mem _ hx)
  case textures => exact h.textures
  case programs => exact h.programs
  case kept => exact h.kept
  case shaders => exact h.shaders
  case attached => exact h.attached
  case deleted => exact h.deleted
  case current => exact h.current
  case programsNodup => exact h.programsNodup
  case texturesNodup => exact h.texturesNodup
  case pos => exact h.pos
  case texturesBelow => exact h.texturesBelow
  case programsBelow => exact h.programsBelow
  case shadersBelow => exact h.shadersBelow
  case flaggedBelow => exact h.flaggedBelow
  case apart => exact h.apart

theorem Owned.deleteTexture {a : Nat} (h : g.Owned A P (a :: T)) : ∃ g', g.deleteTexture a = some g' ∧ g'.Owned A P T := by
  have hn := List.nodup_cons.1 h.texturesNodup
  refine ⟨_, if_pos ((h.textures a).2 List.mem_cons_self), ?_⟩
  constructor
  case textures =>
    intro x
    simp only [List.mem_filter, h.textures, List.mem_cons, decide_eq_true_eq]
    constructor
    · rintro ⟨rfl | hx, hne⟩
      · exact absurd rfl hne
      · exact hx
    · intro hx
      exact ⟨.inr hx, fun he => hn.1 (he ▸ hx)⟩
  case texturesNodup => exact hn.2
  case texturesBelow => exact fun x hx => h.texturesBelow x (List.mem_cons_of_mem _ hx)
  case arrays => exact h.arrays
  case programs => exact h.programs
  case kept => exact h.kept
  case shaders => exact h.shaders
  case attached => exact h.attached
  case deleted => exact h.deleted
  case current => exact h.current
  case programsNodup => exact h.programsNodup
  case arraysNodup => exact h.arraysNodup
  case pos => exact h.pos
  case arraysBelow => exact h.arraysBelow
  case programsBelow => exact h.programsBelow
  case shadersBelow => exact h.shadersBelow
  case flaggedBelow => exact h.flaggedBelow
  case apart => exact h.apart

/-- A program that is not in use, or no longer, goes. -/
theorem Owned.remove {p : Nat} {Q : List Nat} (h : g.Owned A P T) (hQ : ∀ x, x ∈ Q ↔ x ∈ P ∧ x ≠ p) (hn : Q.Nodup) (c : Nat)
    (hc : (c = g.current ∧ c ≠ p) ∨ (p = g.current ∧ p ∈ g.flagged ∧ (c = 0 ∨ c ∈ Q))) :
    ({ g.removeProgram p with current := c } : GLObjects).Owned A Q T := by
  have hprog : ∀ x, x ∈ g.programs.filter (· ≠ p) ↔ x ∈ Q ∨ (x = c ∧ x ∈ g.flagged) := by
    intro x
    simp only [List.mem_filter, h.programs, decide_eq_true_eq, hQ]
    rcases hc with ⟨hc, hcp⟩ | ⟨hc, hf, hcQ⟩
    · constructor
      · rintro ⟨h1 | h1, h2⟩
        · exact .inl ⟨h1, h2⟩
        · exact .inr ⟨h1.1.trans hc.symm, h1.2⟩
      · rintro (⟨h1, h2⟩ | ⟨h1, h2⟩)
        · exact ⟨.inl h1, h2⟩
        · exact ⟨.inr ⟨h1.trans hc, h2⟩, h1 ▸ hcp⟩
    · constructor
      · rintro ⟨h1 | h1, h2⟩
        · exact .inl ⟨h1, h2⟩
        · exact absurd (h1.1.trans hc.symm) h2
      · rintro (⟨h1, h2⟩ | ⟨h1, h2⟩)
        · exact ⟨.inl h1, h2⟩
        · exfalso
          rcases hcQ with h0 | h0
          · have := (h.flaggedBelow x h2).1
            omega
          · rw [← h1] at h0
            exact h.kept x ((hQ x).1 h0).1 h2
  have hsh : ∀ x, x ∈ (g.removeProgram p).shaders ↔ ∃ q, (q, x) ∈ (g.removeProgram p).attached := by
    intro x
    simp only [GLObjects.removeProgram, List.mem_filter, decide_eq_true_eq]
    constructor
    · rintro ⟨h1, h2 | ⟨⟨q, y⟩, h2, h3, h4⟩⟩
      · exact absurd (h.deleted x h1) h2
      · simp only at h3 h4
        exact ⟨q, h4 ▸ h2, h3⟩
    · rintro ⟨q, h1, h2⟩
      exact ⟨(h.shaders x).2 ⟨q, h1⟩, .inr ⟨_, h1, h2, rfl⟩⟩
  constructor
  case programs => exact hprog
  case shaders => exact hsh
  case kept => exact fun x hx => h.kept x ((hQ x).1 hx).1
  case attached =>
    intro q s hs
    simp only [GLObjects.removeProgram, List.mem_filter, decide_eq_true_eq] at hs ⊢
    exact ⟨h.attached q s hs.1, hs.2⟩
  case deleted => exact fun s hs => h.deleted s (List.mem_filter.1 hs).1
  case current =>
    show c = 0 ∨ c ∈ g.programs.filter (· ≠ p)
    rcases hc with ⟨hc, hcp⟩ | ⟨hc, hf, hcQ⟩
    · rcases h.current with h0 | h0
      · exact .inl (hc.trans h0)
      · exact .inr (List.mem_filter.2 ⟨hc ▸ h0, by simpa using hcp⟩)
    · rcases hcQ with h0 | h0
      · exact .inl h0
      · exact .inr ((hprog c).2 (.inl h0))
  case programsNodup => exact hn
  case arrays => exact h.arrays
  case textures => exact h.textures
  case arraysNodup => exact h.arraysNodup
  case texturesNodup => exact h.texturesNodup
  case pos => exact h.pos
  case arraysBelow => exact h.arraysBelow
  case texturesBelow => exact h.texturesBelow
  case programsBelow => exact fun x hx => h.programsBelow x (List.mem_filter.1 hx).1
  case shadersBelow => exact fun x hx => h.shadersBelow x (List.mem_filter.1 hx).1
  case flaggedBelow => exact h.flaggedBelow
  case apart => exact fun s hs hp => h.apart s (List.mem_filter.1 hs).1 (List.mem_filter.1 hp).1

theorem Owned.deleteProgram {p : Nat} (h : g.Owned A (p :: P) T) : ∃ g', g.deleteProgram p = some g' ∧ g'.Owned A P T := by
  have hn := List.nodup_cons.1 h.programsNodup
  have hm : p ∈ g.programs := (h.programs p).2 (.inl List.mem_cons_self)
  have hf := h.kept p List.mem_cons_self
  simp only [GLObjects.deleteProgram, hm, hf, not_false_eq_true, and_self, if_true]
  by_cases hc : g.current = p
  · rw [if_pos hc]
    refine ⟨_, rfl, ?_⟩
    constructor
    case programs =>
      intro x
      simp only [h.programs, List.mem_cons]
      constructor
      · rintro ((rfl | hx) | ⟨h1, h2⟩)
        · exact .inr ⟨hc.symm, .inl rfl⟩
        · exact .inl hx
        · exact .inr ⟨h1, .inr h2⟩
      · rintro (hx | ⟨h1, h2 | h2⟩)
        · exact .inl (.inr hx)
        · exact .inl (.inl h2)
        · exact .inr ⟨h1, h2⟩
    case kept =>
      intro x hx
      simp only [List.mem_cons, not_or]
      exact ⟨fun he => hn.1 (he ▸ hx), h.kept x (List.mem_cons_of_mem _ hx)⟩
    case deleted => exact fun s hs => List.mem_cons_of_mem _ (h.deleted s hs)
    case programsNodup => exact hn.2
    case flaggedBelow =>
      intro x hx
      rcases List.mem_cons.1 hx with rfl | hx
      · exact h.programsBelow _ hm
      · exact h.flaggedBelow x hx
    case arrays => exact h.arrays
    case textures => exact h.textures
    case shaders => exact h.shaders
    case attached => exact h.attached
    case current => exact h.current
    case arraysNodup => exact h.arraysNodup
    case texturesNodup => exact h.texturesNodup
    case pos => exact h.pos
    case arraysBelow => exact h.arraysBelow
    case texturesBelow => exact h.texturesBelow
    case programsBelow => exact h.programsBelow
    case shadersBelow => exact h.shadersBelow
    case apart => exact h.apart
  · rw [if_neg hc]
    refine ⟨_, rfl, h.remove (p := p) (Q := P) ?_ hn.2 g.current (.inl ⟨rfl, hc⟩)⟩
    intro x
    simp only [List.mem_cons]
    constructor
    · intro hx; exact ⟨.inr hx, fun he => hn.1 (he ▸ hx)⟩
    · rintro ⟨rfl | hx, hne⟩
      · exact absurd rfl hne
      · exact hx

theorem Owned.useProgram {p : Nat} (h : g.Owned A P T) (hp : p = 0 ∨ p ∈ P) : ∃ g', g.useProgram p = some g' ∧ g'.Owned A P T := by
  have hp' : p = 0 ∨ p ∈ g.programs := hp.imp id fun h1 => (h.programs p).2 (.inl h1)
  simp only [GLObjects.useProgram]
  rw [if_pos hp']
  by_cases hc : g.current ≠ p ∧ g.current ∈ g.flagged
  · rw [if_pos hc]
    refine ⟨_, rfl, h.remove (Q := P) ?_ h.programsNodup p (.inr ⟨rfl, hc.2, hp⟩)⟩
    intro x
    constructor
    · intro hx; exact ⟨hx, fun he => h.kept x hx (he ▸ hc.2)⟩
    · exact fun hx => hx.1
  · rw [if_neg hc]
    refine ⟨_, rfl, ?_⟩
    have key : ∀ x, (x = g.current ∧ x ∈ g.flagged) ↔ (x = p ∧ x ∈ g.flagged) := by
      intro x
      constructor
      · rintro ⟨rfl, h2⟩
        by_cases he : g.current = p
        · exact ⟨he, h2⟩
        · exact absurd ⟨he, h2⟩ hc
      · rintro ⟨rfl, h2⟩
        by_cases he : g.current = x
        · exact ⟨he.symm, h2⟩
        · rcases hp with h0 | h0
          · have := (h.flaggedBelow x h2).1
            omega
          · exact absurd h2 (h.kept x h0)
    constructor
    case programs => intro x; rw [h.programs, key]
    case current => exact hp'
    case kept => exact h.kept
    case deleted => exact h.deleted
    case programsNodup => exact h.programsNodup
    case flaggedBelow => exact h.flaggedBelow
    case arrays => exact h.arrays
    case textures => exact h.textures
    case shaders => exact h.shaders
    case attached => exact h.attached
    case arraysNodup => exact h.arraysNodup
    case texturesNodup => exact h.texturesNodup
    case pos => exact h.pos
    case arraysBelow => exact h.arraysBelow
    case texturesBelow => exact h.texturesBelow
    case programsBelow => exact h.programsBelow
    case shadersBelow => exact h.shadersBelow
    case apart => exact h.apart

/-- What OpenGL guarantees: names are given once, shaders are attached to programs, and a deleted shader exists only while it
is attached. -/
structure Valid (g : GLObjects) : Prop where
  pos : 0 < g.next
  programs : ∀ p ∈ g.programs, p < g.next
  shaders : ∀ s ∈ g.shaders, s < g.next
  flagged : ∀ s ∈ g.flagged, s < g.next
  attached : ∀ p s, (p, s) ∈ g.attached → p ∈ g.programs ∧ s ∈ g.shaders
  deleted : ∀ s ∈ g.shaders, s ∈ g.flagged → ∃ p, (p, s) ∈ g.attached
  current : g.current < g.next

theorem Owned.valid (h : g.Owned A P T) : g.Valid :=
  ⟨h.pos, fun p hp => (h.programsBelow p hp).2, fun s hs => (h.shadersBelow s hs).2, fun s hs => (h.flaggedBelow s hs).2,
   fun p s hs => ⟨h.attached p s hs, (h.shaders s).2 ⟨p, hs⟩⟩, fun s hs _ => (h.shaders s).1 hs,
   h.current.elim (fun h0 => h0 ▸ h.pos) fun h0 => (h.programsBelow _ h0).2⟩

/-- With both shaders and the program. -/
def withProgram (g : GLObjects) : GLObjects :=
  { g with
    shaders := (g.next + 1) :: g.next :: g.shaders
    programs := (g.next + 2) :: g.programs
    attached := (g.next + 2, g.next + 1) :: (g.next + 2, g.next) :: g.attached
    flagged := (g.next + 1) :: g.next :: g.flagged
    next := g.next + 3 }

theorem filter_ne_of_not_mem {l : List Nat} {x : Nat} (h : x ∉ l) : l.filter (· ≠ x) = l := by
  rw [List.filter_eq_self]
  intro a ha
  simp only [ne_eq, decide_not, Bool.not_eq_true', decide_eq_false_iff_not]
  exact fun he => h (he ▸ ha)

theorem deleteShader_free {s : Nat} (hs : s ∈ g.shaders) (hf : s ∉ g.flagged) (ha : ∀ a ∈ g.attached, a.2 ≠ s) :
    g.deleteShader s = some { g with shaders := g.shaders.filter (· ≠ s) } := by
  have : g.attached.any (·.2 = s) = false := by
    simp only [List.any_eq_false, decide_eq_true_eq]; exact ha
  simp only [deleteShader]
  rw [if_pos ⟨hs, hf⟩, this]
  rfl

theorem deleteShader_held {s p : Nat} (hs : s ∈ g.shaders) (hf : s ∉ g.flagged) (ha : (p, s) ∈ g.attached) :
    g.deleteShader s = some { g with flagged := s :: g.flagged } := by
  have : g.attached.any (·.2 = s) = true := by
    simp only [List.any_eq_true, decide_eq_true_eq]; exact ⟨_, ha, rfl⟩
  simp only [deleteShader]
  rw [if_pos ⟨hs, hf⟩, this]
  rfl

theorem filter_cons_ne {l : List Nat} {x : Nat} (h : x ∉ l) : (x :: l).filter (· ≠ x) = l := by
  rw [List.filter_cons_of_neg (by simp), filter_ne_of_not_mem h]

theorem attach_twice {p v f : Nat} (hp : p ∈ g.programs) (hv : v ∈ g.shaders) (hf : f ∈ g.shaders) (k : GLObjects → Option (Nat × GLObjects)) :
    ((g.attachShader p v).bind fun g => (g.attachShader p f).bind k) =
      k { g with attached := (p, f) :: (p, v) :: g.attached } := by
  simp only [attachShader]
  rw [if_pos ⟨hp, hv⟩, Option.bind_some]
  simp only
  rw [if_pos ⟨hp, hf⟩, Option.bind_some]

theorem tryCompileProgram_eq (h : g.Valid) (vo fo lo : Bool) :
    g.tryCompileProgram vo fo lo =
      if vo && fo && lo then some (g.next + 2, g.withProgram)
      else some (0, { g with next := if vo then (if fo then g.next + 3 else g.next + 2) else g.next + 1 }) := by
  have hs : ∀ k, g.next + k ∉ g.shaders := fun k hm => by have := h.shaders _ hm; omega
  have hf : ∀ k, g.next + k ∉ g.flagged := fun k hm => by have := h.flagged _ hm; omega
  have hp : ∀ k, g.next + k ∉ g.programs := fun k hm => by have := h.programs _ hm; omega
  have ha : ∀ k, ∀ a ∈ g.attached, a.2 ≠ g.next + k := fun k a hm he => hs k (he ▸ (h.attached a.1 a.2 hm).2)
  have hb : ∀ k, ∀ a ∈ g.attached, a.1 ≠ g.next + k := fun k a hm he => hp k (he ▸ (h.attached a.1 a.2 hm).1)
  have hs0 : g.next ∉ g.shaders := hs 0
  have hf0 : g.next ∉ g.flagged := hf 0
  have ha0 : ∀ a ∈ g.attached, a.2 ≠ g.next := ha 0
  have hn : g.next ≠ 0 := Nat.pos_iff_ne_zero.1 h.pos
  have hn1 : g.next + 1 ≠ 0 := by omega
  have hs1 : g.next + 1 ∉ g.next :: g.shaders := by
    simp only [List.mem_cons, not_or]; exact ⟨by omega, hs 1⟩
  cases vo
  · simp only [tryCompileProgram, tryCompileShader, createShader, Bool.false_eq_true, if_false]
    rw [deleteShader_free (g := { g with shaders := g.next :: g.shaders, next := g.next + 1 }) List.mem_cons_self hf0 ha0]
    simp only [filter_cons_ne hs0]
    rfl
  cases fo
  · simp only [tryCompileProgram, tryCompileShader, createShader, Bool.false_eq_true, if_false, if_true, Option.bind_some]
    rw [if_neg hn, deleteShader_free (g := { g with shaders := (g.next + 1) :: g.next :: g.shaders, next := g.next + 1 + 1 })
      List.mem_cons_self (hf 1) (ha 1)]
    simp only [Option.map_some, Option.bind_some, if_true, filter_cons_ne hs1]
    rw [deleteShader_free (g := { g with shaders := g.next :: g.shaders, next := g.next + 1 + 1 }) List.mem_cons_self hf0 ha0]
    simp only [filter_cons_ne hs0]
    rfl
  have e : g.tryCompileProgram true true lo =
      ((if lo then some (g.next + 2, ({ g with
          shaders := (g.next + 1) :: g.next :: g.shaders
          programs := (g.next + 2) :: g.programs
          attached := (g.next + 2, g.next + 1) :: (g.next + 2, g.next) :: g.attached
          next := g.next + 3 } : GLObjects))
        else (({ g with
          shaders := (g.next + 1) :: g.next :: g.shaders
          programs := (g.next + 2) :: g.programs
          attached := (g.next + 2, g.next + 1) :: (g.next + 2, g.next) :: g.attached
          next := g.next + 3 } : GLObjects).deleteProgram (g.next + 2)).map fun g => (0, g)).bind fun (p, g') =>
      (g'.deleteShader g.next).bind fun g' => (g'.deleteShader (g.next + 1)).map fun g => (p, g)) := by
    simp only [tryCompileProgram, tryCompileShader, createShader, createProgram, if_true, Option.bind_some]
    rw [if_neg hn, if_neg hn1]
    rw [attach_twice List.mem_cons_self (by simp) (by simp)]
  rw [e]
  cases lo
  · have hd : ({ g with
          shaders := (g.next + 1) :: g.next :: g.shaders
          programs := (g.next + 2) :: g.programs
          attached := (g.next + 2, g.next + 1) :: (g.next + 2, g.next) :: g.attached
          next := g.next + 3 } : GLObjects).deleteProgram (g.next + 2) =
        some { g with shaders := (g.next + 1) :: g.next :: g.shaders, next := g.next + 3 } := by
      simp only [deleteProgram]
      rw [if_pos ⟨List.mem_cons_self, hf 2⟩, if_neg (by have := h.current; omega)]
      simp only [removeProgram]
      rw [filter_cons_ne (hp 2)]
      congr 2
      · rw [List.filter_eq_self]
        intro s hm
        simp only [decide_eq_true_eq]
        by_cases hfl : s ∈ g.flagged
        · have hm' : s ∈ g.shaders := by
            simp only [List.mem_cons] at hm
            rcases hm with rfl | rfl | hm
            · exact absurd hfl (hf 1)
            · exact absurd hfl hf0
            · exact hm
          obtain ⟨q, hq⟩ := h.deleted s hm' hfl
          exact .inr ⟨(q, s), by simp [hq], hb 2 _ hq, rfl⟩
        · exact .inl hfl
      · rw [List.filter_cons_of_neg (by simp), List.filter_cons_of_neg (by simp), List.filter_eq_self]
        intro a hm
        simpa using hb 2 a hm
    rw [hd]
    simp only [Bool.false_eq_true, if_false, Option.map_some, Option.bind_some]
    rw [deleteShader_free (g := { g with shaders := (g.next + 1) :: g.next :: g.shaders, next := g.next + 3 }) (by simp) hf0 ha0,
      Option.bind_some]
    have ef : ((g.next + 1) :: g.next :: g.shaders).filter (· ≠ g.next) = (g.next + 1) :: g.shaders := by
      rw [List.filter_cons_of_pos (by simp), filter_cons_ne hs0]
    simp only [ef]
    rw [deleteShader_free (g := { g with shaders := (g.next + 1) :: g.shaders, next := g.next + 3 }) List.mem_cons_self (hf 1) (ha 1)]
    simp only [filter_cons_ne (hs 1)]
    rfl
  · simp only [if_true, Option.bind_some]
    rw [deleteShader_held (p := g.next + 2) (g := { g with
          shaders := (g.next + 1) :: g.next :: g.shaders
          programs := (g.next + 2) :: g.programs
          attached := (g.next + 2, g.next + 1) :: (g.next + 2, g.next) :: g.attached
          next := g.next + 3 }) (by simp) hf0 (by simp), Option.bind_some,
      deleteShader_held (p := g.next + 2) (g := { g with
          shaders := (g.next + 1) :: g.next :: g.shaders
          programs := (g.next + 2) :: g.programs
          attached := (g.next + 2, g.next + 1) :: (g.next + 2, g.next) :: g.attached
          flagged := g.next :: g.flagged
          next := g.next + 3 }) (by simp) (by
        simp only [List.mem_cons, not_or]; exact ⟨by omega, hf 1⟩) (by simp)]
    rfl

theorem Owned.later (h : g.Owned A P T) {n : Nat} (hn : g.next ≤ n) : ({ g with next := n } : GLObjects).Owned A P T := by
  constructor
  case arrays => exact h.arrays
  case textures => exact h.textures
  case programs => exact h.programs
  case kept => exact h.kept
  case shaders => exact h.shaders
  case attached => exact h.attached
  case deleted => exact h.deleted
  case current => exact h.current
  case arraysNodup => exact h.arraysNodup
  case programsNodup => exact h.programsNodup
  case texturesNodup => exact h.texturesNodup
  case pos => exact Nat.lt_of_lt_of_le h.pos hn
  case arraysBelow => exact fun x hx => (h.arraysBelow x hx).imp id fun h1 => Nat.lt_of_lt_of_le h1 hn
  case texturesBelow => exact fun x hx => (h.texturesBelow x hx).imp id fun h1 => Nat.lt_of_lt_of_le h1 hn
  case programsBelow => exact fun x hx => (h.programsBelow x hx).imp id fun h1 => Nat.lt_of_lt_of_le h1 hn
  case shadersBelow => exact fun x hx => (h.shadersBelow x hx).imp id fun h1 => Nat.lt_of_lt_of_le h1 hn
  case flaggedBelow => exact fun x hx => (h.flaggedBelow x hx).imp id fun h1 => Nat.lt_of_lt_of_le h1 hn
  case apart => exact h.apart

theorem Owned.withProgram (h : g.Owned A P T) : g.withProgram.Owned A ((g.next + 2) :: P) T := by
  have hs : ∀ k, g.next + k ∉ g.shaders := fun k hm => by have := (h.shadersBelow _ hm).2; omega
  have hf : ∀ k, g.next + k ∉ g.flagged := fun k hm => by have := (h.flaggedBelow _ hm).2; omega
  have hp : ∀ k, g.next + k ∉ g.programs := fun k hm => by have := (h.programsBelow _ hm).2; omega
  have hc : g.current < g.next := h.valid.current
  constructor
  case arrays => exact h.arrays
  case textures => exact h.textures
  case programs =>
    intro x
    simp only [GLObjects.withProgram, List.mem_cons, h.programs]
    constructor
    · rintro (h1 | h1 | ⟨h1, h2⟩)
      · exact .inl (.inl h1)
      · exact .inl (.inr h1)
      · exact .inr ⟨h1, .inr (.inr h2)⟩
    · rintro ((h1 | h1) | ⟨h1, h2 | h2 | h2⟩)
      · exact .inl h1
      · exact .inr (.inl h1)
      · omega
      · omega
      · exact .inr (.inr ⟨h1, h2⟩)
  case kept =>
    intro x hx
    simp only [GLObjects.withProgram, List.mem_cons, not_or]
    rcases List.mem_cons.1 hx with rfl | hx
    · exact ⟨by omega, by omega, hf 2⟩
    · have := (h.programsBelow x ((h.programs x).2 (.inl hx))).2
      exact ⟨by omega, by omega, h.kept x hx⟩
  case shaders =>
    intro x
    simp only [GLObjects.withProgram, List.mem_cons, h.shaders, Prod.mk.injEq]
    constructor
    · rintro (h1 | h1 | ⟨p, h1⟩)
      · exact ⟨_, .inl ⟨rfl, h1⟩⟩
      · exact ⟨_, .inr (.inl ⟨rfl, h1⟩)⟩
      · exact ⟨p, .inr (.inr h1)⟩
    · rintro ⟨p, ⟨_, h1⟩ | ⟨_, h1⟩ | h1⟩
      · exact .inl h1
      · exact .inr (.inl h1)
      · exact .inr (.inr ⟨p, h1⟩)
  case attached =>
    intro p s hm
    simp only [GLObjects.withProgram, List.mem_cons, Prod.mk.injEq] at hm ⊢
    rcases hm with ⟨h1, _⟩ | ⟨h1, _⟩ | h1
    · exact .inl h1
    · exact .inl h1
    · exact .inr (h.attached p s h1)
  case deleted =>
    intro s hm
    simp only [GLObjects.withProgram, List.mem_cons] at hm ⊢
    exact hm.imp id (Or.imp id (h.deleted s))
  case current => exact h.current.imp id (List.mem_cons_of_mem _)
  case arraysNodup => exact h.arraysNodup
  case programsNodup =>
    exact List.nodup_cons.2 ⟨fun hm => hp 2 ((h.programs _).2 (.inl hm)), h.programsNodup⟩
  case texturesNodup => exact h.texturesNodup
  case pos => exact Nat.succ_pos _
  case arraysBelow => intro x hx; have := h.arraysBelow x hx; simp only [GLObjects.withProgram]; omega
  case texturesBelow => intro x hx; have := h.texturesBelow x hx; simp only [GLObjects.withProgram]; omega
  case programsBelow =>
    intro x hx
    simp only [GLObjects.withProgram, List.mem_cons] at hx ⊢
    rcases hx with rfl | hx
    · omega
    · have := h.programsBelow x hx; omega
  case shadersBelow =>
    intro x hx
    have := h.pos
    simp only [GLObjects.withProgram, List.mem_cons] at hx ⊢
    rcases hx with rfl | rfl | hx
    · omega
    · omega
    · have := h.shadersBelow x hx; omega
  case flaggedBelow =>
    intro x hx
    have := h.pos
    simp only [GLObjects.withProgram, List.mem_cons] at hx ⊢
    rcases hx with rfl | rfl | hx
    · omega
    · omega
    · have := h.flaggedBelow x hx; omega
  case apart =>
    intro x hx
    simp only [GLObjects.withProgram, List.mem_cons, not_or] at hx ⊢
    rcases hx with rfl | rfl | hx
    · exact ⟨by omega, hp 1⟩
    · exact ⟨by omega, hp 0⟩
    · exact ⟨fun he => hs 2 (he ▸ hx), h.apart x hx⟩

theorem Owned.perm (h : g.Owned A P T) {A' P' T' : List Nat} (ha : A.Perm A') (hp : P.Perm P') (ht : T.Perm T') :
    g.Owned A' P' T' where
  arrays x := (h.arrays x).trans ha.mem_iff
  textures x := (h.textures x).trans ht.mem_iff
  programs x := (h.programs x).trans (or_congr hp.mem_iff Iff.rfl)
  kept x hx := h.kept x (hp.mem_iff.2 hx)
  shaders := h.shaders
  attached := h.attached
  deleted := h.deleted
  current := h.current
  arraysNodup := ha.nodup_iff.1 h.arraysNodup
  programsNodup := hp.nodup_iff.1 h.programsNodup
  texturesNodup := ht.nodup_iff.1 h.texturesNodup
  pos := h.pos
  arraysBelow x hx := h.arraysBelow x (ha.mem_iff.2 hx)
  texturesBelow x hx := h.texturesBelow x (ht.mem_iff.2 hx)
  programsBelow := h.programsBelow
  shadersBelow := h.shadersBelow
  flaggedBelow := h.flaggedBelow
  apart := h.apart

/-- Of the owners' names, those that are not 0. -/
def OwnedBy (g : GLObjects) (A P T : List Nat) : Prop := g.Owned (A.filter (· ≠ 0)) (P.filter (· ≠ 0)) (T.filter (· ≠ 0))

theorem OwnedBy.perm (h : g.OwnedBy A P T) {A' P' T' : List Nat} (ha : A.Perm A') (hp : P.Perm P') (ht : T.Perm T') :
    g.OwnedBy A' P' T' := Owned.perm h (ha.filter _) (hp.filter _) (ht.filter _)

theorem filter_zero (l : List Nat) : (0 :: l).filter (· ≠ 0) = l.filter (· ≠ 0) := List.filter_cons_of_neg (by simp)

theorem filter_ne_zero {x : Nat} (h : x ≠ 0) (l : List Nat) : (x :: l).filter (· ≠ 0) = x :: l.filter (· ≠ 0) :=
  List.filter_cons_of_pos (by simpa using h)

end GLObjects
open GLObjects
variable {g : GLObjects} {A P T : List Nat}

theorem PipeOwner.make_owned (r : Bool × Bool × Bool) (h : g.OwnedBy A P T) :
    ∃ p g', PipeOwner.make r g = some (p, g') ∧ g'.OwnedBy (p.vao :: A) (p.program :: P) T := by
  obtain ⟨h1, h0⟩ := h.createArray
  simp only [PipeOwner.make]
  rw [tryCompileProgram_eq h1.valid]
  cases hr : (r.1 && r.2.1 && r.2.2)
  · refine ⟨_, _, rfl, ?_⟩
    simp only [OwnedBy]
    rw [filter_zero, filter_ne_zero h0]
    exact h1.later (by cases r.1 <;> cases r.2.1 <;> simp)
  · refine ⟨_, _, rfl, ?_⟩
    simp only [OwnedBy]
    rw [filter_ne_zero (x := g.createArray.1) h0, filter_ne_zero (x := g.createArray.2.next + 2) (by omega)]
    exact h1.withProgram

theorem PipeOwner.destroy_owned (p : PipeOwner) (h : g.OwnedBy (p.vao :: A) (p.program :: P) T) :
    ∃ g', p.destroy g = some g' ∧ g'.OwnedBy A P T := by
  have step1 : ∃ g', (if p.vao ≠ 0 then g.deleteArray p.vao else some g) = some g' ∧ g'.OwnedBy A (p.program :: P) T := by
    by_cases hv : p.vao = 0
    · refine ⟨g, by simp [hv], ?_⟩
      simpa only [OwnedBy, hv, filter_zero] using h
    · rw [if_pos hv]
      simp only [OwnedBy, filter_ne_zero hv] at h
      exact h.deleteArray
  obtain ⟨g1, e1, h1⟩ := step1
  simp only [PipeOwner.destroy]
  rw [e1, Option.bind_some]
  by_cases hv : p.program = 0
  · refine ⟨g1, by simp [hv], ?_⟩
    simpa only [OwnedBy, hv, filter_zero] using h1
  · rw [if_pos hv]
    simp only [OwnedBy, filter_ne_zero hv] at h1
    exact h1.deleteProgram

theorem destroyImage_owned {x : Nat} (h : g.OwnedBy A P (x :: T)) : ∃ g', destroyImage x g = some g' ∧ g'.OwnedBy A P T := by
  simp only [destroyImage]
  by_cases hv : x = 0
  · refine ⟨g, by simp [hv], ?_⟩
    simpa only [OwnedBy, hv, filter_zero] using h
  · rw [if_pos hv]
    simp only [OwnedBy, filter_ne_zero hv] at h
    exact h.deleteTexture

namespace GLOwners

/-- The arrays of the pipelines. -/
def vaos (o : GLOwners) : List Nat := [(o.pipes .rect).vao, (o.pipes .msdf).vao, (o.pipes .outline).vao]

/-- Their programs. -/
def progs (o : GLOwners) : List Nat := [(o.pipes .rect).program, (o.pipes .msdf).program, (o.pipes .outline).program]

/-- The objects are those of the owners. -/
def Holds (o : GLOwners) : Prop := o.gl.OwnedBy o.vaos o.progs (o.images ++ o.msdfImages)

theorem holds_start : Holds {} := Owned.start

theorem perm_swap3 (i : PipelineIndex) (f h : PipelineIndex → Nat) (x : Nat) (hi : h i = x) (hk : ∀ k, k ≠ i → h k = f k) :
    (x :: [f .rect, f .msdf, f .outline]).Perm (f i :: [h .rect, h .msdf, h .outline]) := by
  cases i
  · rw [hi, hk .msdf (by simp), hk .outline (by simp)]
    exact List.Perm.swap _ _ _
  · rw [hi, hk .rect (by simp), hk .outline (by simp)]
    exact (List.Perm.cons x (List.Perm.swap _ _ _)).trans ((List.Perm.swap _ _ _).trans (List.Perm.cons _ (List.Perm.swap _ _ _)))
  · rw [hi, hk .rect (by simp), hk .msdf (by simp)]
    have e1 : [x, f .rect, f .msdf, f .outline].Perm (f .outline :: [x, f .rect, f .msdf]) :=
      List.perm_append_comm (l₁ := [x, f .rect, f .msdf]) (l₂ := [f .outline])
    exact e1.trans (List.Perm.cons _ (List.perm_append_comm (l₁ := [x]) (l₂ := [f .rect, f .msdf])))

theorem assignPipe_holds (o : GLOwners) (i : PipelineIndex) (p : PipeOwner)
    (h : o.gl.OwnedBy (p.vao :: o.vaos) (p.program :: o.progs) (o.images ++ o.msdfImages)) :
    ∃ o', o.assignPipe i p = some o' ∧ o'.Holds ∧ o'.pipes = (fun k => if k = i then p else o.pipes k) ∧
      o'.images = o.images ∧ o'.msdfImages = o.msdfImages := by
  have h1 := h.perm
    (perm_swap3 i (fun k => (o.pipes k).vao) (fun k => (if k = i then p else o.pipes k).vao) p.vao (by simp)
      (fun k hk => by simp [hk]))
    (perm_swap3 i (fun k => (o.pipes k).program) (fun k => (if k = i then p else o.pipes k).program) p.program (by simp)
      (fun k hk => by simp [hk]))
    (List.Perm.refl _)
  obtain ⟨g', e, h2⟩ := PipeOwner.destroy_owned ⟨(o.pipes i).vao, (o.pipes i).program⟩ h1
  refine ⟨{ o with pipes := fun k => if k = i then p else o.pipes k, gl := g' }, ?_, h2, rfl, rfl, rfl⟩
  simp only [assignPipe, PipeOwner.moveAssign]
  rw [e]
  rfl

theorem initPipe_holds (o : GLOwners) (i : PipelineIndex) (r : Bool × Bool × Bool) (h : o.Holds) :
    ∃ o', o.initPipe i r = some o' ∧ o'.Holds := by
  obtain ⟨p, g', e, h1⟩ := PipeOwner.make_owned r h
  obtain ⟨o', e', h2, _⟩ := assignPipe_holds { o with gl := g' } i p h1
  exact ⟨o', by simp only [initPipe, e, Option.bind_some, e'], h2⟩

theorem initPipelines_holds (r : PipelineIndex → Bool × Bool × Bool) (o : GLOwners) (h : o.Holds) :
    ∃ o', initPipelines r o = some o' ∧ o'.Holds := by
  obtain ⟨o1, e1, h1⟩ := initPipe_holds o .rect (r .rect) h
  obtain ⟨o2, e2, h2⟩ := initPipe_holds o1 .msdf (r .msdf) h1
  obtain ⟨o3, e3, h3⟩ := initPipe_holds o2 .outline (r .outline) h2
  exact ⟨o3, by simp only [initPipelines, e1, e2, e3, Option.bind_some], h3⟩

theorem clear_holds (o : GLOwners) (i : PipelineIndex) (h : o.Holds) :
    ∃ o', o.assignPipe i {} = some o' ∧ o'.Holds ∧ o'.pipes = (fun k => if k = i then {} else o.pipes k) ∧
      o'.images = o.images ∧ o'.msdfImages = o.msdfImages := by
  apply assignPipe_holds
  simp only [OwnedBy, filter_zero]
  exact h

theorem deinitPipelines_holds (o : GLOwners) (h : o.Holds) :
    ∃ o', o.deinitPipelines = some o' ∧ o'.Holds ∧ (∀ k, o'.pipes k = {}) ∧ o'.images = o.images ∧ o'.msdfImages = o.msdfImages := by
  obtain ⟨o1, e1, h1, p1, i1, m1⟩ := clear_holds o .rect h
  obtain ⟨o2, e2, h2, p2, i2, m2⟩ := clear_holds o1 .msdf h1
  obtain ⟨o3, e3, h3, p3, i3, m3⟩ := clear_holds o2 .outline h2
  refine ⟨o3, by simp only [deinitPipelines, e1, e2, e3, Option.bind_some], h3, ?_, by rw [i3, i2, i1], by rw [m3, m2, m1]⟩
  intro k
  rw [p3, p2, p1]
  cases k <;> rfl

theorem newImage_holds (o : GLOwners) (b : Bool) (h : o.Holds) : ∃ o', o.newImage b = some o' ∧ o'.Holds := by
  obtain ⟨h1, h0⟩ := h.createTexture
  rw [← filter_ne_zero h0] at h1
  have h2 : o.gl.createTexture.2.OwnedBy o.vaos o.progs (o.gl.createTexture.1 :: (o.images ++ o.msdfImages)) := h1
  cases b
  · refine ⟨_, rfl, ?_⟩
    refine h2.perm (List.Perm.refl _) (List.Perm.refl _) ?_
    show (_ :: (o.images ++ o.msdfImages)).Perm ((o.images ++ [_]) ++ o.msdfImages)
    rw [List.append_assoc]
    exact List.perm_middle.symm
  · refine ⟨_, rfl, ?_⟩
    refine h2.perm (List.Perm.refl _) (List.Perm.refl _) ?_
    show (_ :: (o.images ++ o.msdfImages)).Perm (o.images ++ (o.msdfImages ++ [_]))
    rw [← List.append_assoc]
    exact (List.perm_append_singleton _ _).symm

theorem step_holds (o : GLOwners) (x : Step) (h : o.Holds) : ∃ o', o.step x = some o' ∧ o'.Holds := by
  cases x with
  | page b => exact newImage_holds o b h
  | bind i =>
    have hp : (o.pipes i).program = 0 ∨ (o.pipes i).program ∈ o.progs.filter (· ≠ 0) := by
      by_cases h0 : (o.pipes i).program = 0
      · exact .inl h0
      · refine .inr (List.mem_filter.2 ⟨?_, by simpa using h0⟩)
        cases i <;> simp [progs]
    obtain ⟨g', e, h1⟩ := Owned.useProgram h hp
    exact ⟨{ o with gl := g' }, by simp only [step, e, Option.map_some], h1⟩

theorem steps_holds (l : List Step) (o : GLOwners) (h : o.Holds) : ∃ o', steps l o = some o' ∧ o'.Holds := by
  induction l generalizing o with
  | nil => exact ⟨o, rfl, h⟩
  | cons x t ih =>
    obtain ⟨o1, e1, h1⟩ := step_holds o x h
    obtain ⟨o2, e2, h2⟩ := ih o1 h1
    exact ⟨o2, by simp only [steps, e1, Option.bind_some, e2], h2⟩

theorem destroyImages_owned (l : List Nat) {g : GLObjects} {A P T : List Nat} (h : g.OwnedBy A P (l ++ T)) :
    ∃ g', destroyImages l g = some g' ∧ g'.OwnedBy A P T := by
  induction l generalizing g with
  | nil => exact ⟨g, rfl, h⟩
  | cons x t ih =>
    obtain ⟨g1, e1, h1⟩ := destroyImage_owned h
    obtain ⟨g2, e2, h2⟩ := ih h1
    exact ⟨g2, by simp only [destroyImages, e1, Option.bind_some, e2], h2⟩

theorem deleteAtlases_holds (o : GLOwners) (h : o.Holds) :
    ∃ o', o.deleteAtlases = some o' ∧ o'.Holds ∧ o'.images = [] ∧ o'.msdfImages = [] := by
  have h0 := OwnedBy.perm h (List.Perm.refl _) (List.Perm.refl _) List.perm_append_comm
  obtain ⟨g1, e1, h1⟩ := destroyImages_owned o.msdfImages h0
  rw [← List.append_nil o.images] at h1
  obtain ⟨g2, e2, h2⟩ := destroyImages_owned o.images h1
  exact ⟨{ o with images := [], msdfImages := [], gl := g2 }, by simp only [deleteAtlases, e1, e2, Option.bind_some, Option.map_some],
    h2, rfl, rfl⟩

/-- No program is deleted. -/
def Clean (g : GLObjects) : Prop := ∀ p ∈ g.programs, p ∉ g.flagged

theorem make_clean {r : Bool × Bool × Bool} {g g' : GLObjects} {A P T : List Nat} {p : PipeOwner} (h : g.OwnedBy A P T)
    (hc : Clean g) (e : PipeOwner.make r g = some (p, g')) : Clean g' := by
  have h1 := h.createArray.1
  simp only [PipeOwner.make] at e
  rw [tryCompileProgram_eq h1.valid] at e
  cases hr : (r.1 && r.2.1 && r.2.2)
  · rw [hr] at e
    simp only [Bool.false_eq_true, if_false, Option.map_some, Option.some.injEq, Prod.mk.injEq] at e
    rw [← e.2]
    exact hc
  · rw [hr] at e
    simp only [if_true, Option.map_some, Option.some.injEq, Prod.mk.injEq] at e
    rw [← e.2]
    intro q hq
    simp only [withProgram, List.mem_cons, not_or, createArray] at hq ⊢
    rcases hq with rfl | hq
    · refine ⟨by omega, by omega, fun hm => ?_⟩
      have := (h.flaggedBelow _ hm).2
      omega
    · have := (h.programsBelow _ hq).2
      exact ⟨by omega, by omega, hc q hq⟩

theorem assign_clean {o o' : GLOwners} {i : PipelineIndex} {p : PipeOwner} (h0 : (o.pipes i).program = 0) (hc : Clean o.gl)
    (e : o.assignPipe i p = some o') : Clean o'.gl := by
  simp only [assignPipe, PipeOwner.moveAssign, PipeOwner.destroy, h0, ne_eq, not_true_eq_false, if_false,
    Option.map_eq_some_iff, Option.bind_eq_some_iff, Option.some.injEq] at e
  obtain ⟨g2, ⟨g1, e1, rfl⟩, rfl⟩ := e
  split at e1
  · simp only [deleteArray] at e1
    split at e1
    · cases e1
      exact hc
    · cases e1
  · cases e1
    exact hc

theorem initPipe_clean (o : GLOwners) (i : PipelineIndex) (r : Bool × Bool × Bool) (h : o.Holds) (hc : Clean o.gl)
    (h0 : (o.pipes i).program = 0) :
    ∃ o', o.initPipe i r = some o' ∧ o'.Holds ∧ Clean o'.gl ∧ ∀ k, k ≠ i → o'.pipes k = o.pipes k := by
  obtain ⟨p, g', e, h1⟩ := PipeOwner.make_owned r h
  obtain ⟨o', e', h2, hp, _⟩ := assignPipe_holds { o with gl := g' } i p h1
  refine ⟨o', by simp only [initPipe, e, Option.bind_some, e'], h2, ?_, fun k hk => by rw [hp]; simp [hk]⟩
  exact assign_clean (o := { o with gl := g' }) h0 (make_clean h hc e) e'

theorem initPipelines_clean (r : PipelineIndex → Bool × Bool × Bool) :
    ∃ o', initPipelines r {} = some o' ∧ o'.Holds ∧ Clean o'.gl := by
  obtain ⟨o1, e1, h1, c1, p1⟩ := initPipe_clean {} .rect (r .rect) holds_start (by intro p hp; cases hp) rfl
  obtain ⟨o2, e2, h2, c2, p2⟩ := initPipe_clean o1 .msdf (r .msdf) h1 c1 (by rw [p1 _ (by simp)])
  obtain ⟨o3, e3, h3, c3, _⟩ := initPipe_clean o2 .outline (r .outline) h2 c2 (by rw [p2 _ (by simp), p1 _ (by simp)])
  exact ⟨o3, by simp only [initPipelines, e1, e2, e3, Option.bind_some], h3, c3⟩

theorem newImage_clean {o o' : GLOwners} {b : Bool} (hc : Clean o.gl) (e : o.newImage b = some o') : Clean o'.gl := by
  cases b <;> cases e <;> exact hc

theorem steps_clean (l : List Step) {o o' : GLOwners} (h : o.Holds) (hc : Clean o.gl) (e : steps l o = some o') : Clean o'.gl := by
  induction l generalizing o with
  | nil => cases e; exact hc
  | cons x t ih =>
    obtain ⟨o1, e1, h1⟩ := step_holds o x h
    simp only [steps, e1, Option.bind_some] at e
    refine ih h1 ?_ e
    cases x with
    | page b => exact newImage_clean hc e1
    | bind i =>
      simp only [step, Option.map_eq_some_iff] at e1
      obtain ⟨g', e1, rfl⟩ := e1
      simp only [useProgram] at e1
      split at e1
      · split at e1
        · rename_i hf
          rcases h.current with h0 | h0
          · have := (h.flaggedBelow _ hf.2).1
            omega
          · exact absurd hf.2 (hc _ h0)
        · cases e1
          exact hc
      · cases e1

theorem vaos_iff (o : GLOwners) (x : Nat) : x ∈ o.vaos.filter (· ≠ 0) ↔ x ≠ 0 ∧ ∃ i, (o.pipes i).vao = x := by
  simp only [List.mem_filter, vaos, List.mem_cons, List.not_mem_nil, or_false, decide_eq_true_eq]
  constructor
  · rintro ⟨h | h | h, h0⟩
    · exact ⟨h0, _, h.symm⟩
    · exact ⟨h0, _, h.symm⟩
    · exact ⟨h0, _, h.symm⟩
  · rintro ⟨h0, i, rfl⟩
    refine ⟨?_, h0⟩
    cases i <;> simp

theorem progs_iff (o : GLOwners) (x : Nat) : x ∈ o.progs.filter (· ≠ 0) ↔ x ≠ 0 ∧ ∃ i, (o.pipes i).program = x := by
  simp only [List.mem_filter, progs, List.mem_cons, List.not_mem_nil, or_false, decide_eq_true_eq]
  constructor
  · rintro ⟨h | h | h, h0⟩
    · exact ⟨h0, _, h.symm⟩
    · exact ⟨h0, _, h.symm⟩
    · exact ⟨h0, _, h.symm⟩
  · rintro ⟨h0, i, rfl⟩
    refine ⟨?_, h0⟩
    cases i <;> simp

theorem nodup3_inj (f : PipelineIndex → Nat) (h : ([f .rect, f .msdf, f .outline].filter (· ≠ 0)).Nodup) (i j : PipelineIndex)
    (e : f i = f j) (h0 : f i ≠ 0) : i = j := by
  have h0' : f j ≠ 0 := e ▸ h0
  cases i <;> cases j <;> first | rfl | skip
  all_goals
    exfalso
    by_cases h1 : f .rect = 0 <;> by_cases h2 : f .msdf = 0 <;> by_cases h3 : f .outline = 0 <;>
      simp_all

end GLOwners

end RichText
