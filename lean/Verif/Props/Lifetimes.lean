import Verif.Model.Lifetimes
import Mathlib.Data.List.Perm.Basic
import Mathlib.Data.List.Nodup
/-!
C103: library objects and text that is only referred to live long enough, and are given back.
-/
namespace RichText.Life

/-! ## Statement -/

/-- What the author of a program knows of its objects: which exist, and which of them have all their library
objects (`some false`: another object was constructed from it, or a library failed). -/
abbrev Track := Nat → Option Bool

/-- The program keeps to the rules of C++: it constructs objects under new names, and otherwise refers to
objects that exist; it does not use objects that have lost their library objects.  `none` otherwise. -/
def Track.step (c : Cls) (t : Track) : PoolOp → Option Track
  | .make o ok => if t o = none then some (fun x => if x = o then some ((List.range c.ptrs).all ok) else t x) else none
  | .moveConstruct o p =>
    if t o = none ∧ t p ≠ none then
      some (fun x => if x = o then t p else if x = p then some (decide (c.ptrs = 0)) else t x)
    else none
  | .moveAssign o p =>
    if t o ≠ none ∧ t p ≠ none then some (fun x => if x = o then t p else if x = p then t o else t x) else none
  | .use o => if t o = some true then some t else none
  | .destroy o => if t o ≠ none then some (fun x => if x = o then none else t x) else none

def Track.run (c : Cls) : Track → List PoolOp → Option Track
  | t, [] => some t
  | t, op :: ops => (t.step c op).bind fun t => t.run c ops

def PoolOp.isMoveConstruct : PoolOp → Bool
  | .moveConstruct _ _ => true
  | _ => false

/-! ## Proof -/

/-- Member `k` of object `o` is the library object `i`. -/
def Pool.Holds (c : Cls) (s : Pool) (o k : Nat) (i : Nat × Nat) : Prop :=
  k < c.ptrs ∧ ∃ a, s.objs o = some a ∧ a.ptr k = .obj i

structure Pool.Inv (c : Cls) (s : Pool) (t : Track) : Prop where
  names : ∀ o, s.objs o = none ↔ t o = none
  value : ∀ o a k, s.objs o = some a → k < c.ptrs → a.ptr k ≠ .garbage
  whole : ∀ o a k, s.objs o = some a → t o = some true → k < c.ptrs → a.ptr k ≠ .null
  live : ∀ o k i, s.Holds c o k i → i ∈ s.made ∧ i ∉ s.freed
  own : ∀ o k o' k' i, s.Holds c o k i → s.Holds c o' k' i → o = o' ∧ k = k'
  held : ∀ i ∈ s.made, i ∉ s.freed → ∃ o k, s.Holds c o k i
  once : s.freed.Nodup
  freed : ∀ i ∈ s.freed, i ∈ s.made
  made : s.made.Nodup
  old : ∀ i ∈ s.made, i.1 < s.calls

theorem Pool.Inv.make {c : Cls} {s : Pool} {t : Track} (h : s.Inv c t) {o : Nat} {ok : Nat → Bool} (ho : t o = none) :
    (s.make c o ok).Inv c (fun x => if x = o then some ((List.range c.ptrs).all ok) else t x) := by
  have hold : ∀ k i, ¬ s.Holds c o k i := by
    rintro k i ⟨_, a, ha, _⟩
    rw [(h.names o).2 ho] at ha; cases ha
  have hh : ∀ x k i, (s.make c o ok).Holds c x k i ↔
      (x = o ∧ k < c.ptrs ∧ ok k = true ∧ i = (s.calls, k)) ∨ (x ≠ o ∧ s.Holds c x k i) := by
    intro x k i
    by_cases hx : x = o
    · subst hx
      simp only [Holds, Pool.make, if_true, Option.some.injEq, exists_eq_left', makePtr, true_and, ne_eq, not_true, false_and,
        or_false]
      constructor
      · rintro ⟨h1, h2⟩
        split at h2
        · rename_i h3; cases h2; exact ⟨h1, h3, rfl⟩
        · cases h2
      · rintro ⟨h1, h2, h3⟩
        rw [if_pos h2, h3]; exact ⟨h1, rfl⟩
    · simp [Holds, Pool.make, hx]
  have hmade : ∀ i, i ∈ (s.make c o ok).made ↔ (i.1 = s.calls ∧ i.2 < c.ptrs ∧ ok i.2 = true) ∨ i ∈ s.made := by
    rintro ⟨j, k⟩
    simp only [Pool.make, List.mem_append, List.mem_map, List.mem_filter, List.mem_range, Prod.mk.injEq]
    constructor
    · rintro (⟨k', ⟨h1, h2⟩, rfl, rfl⟩ | h1)
      · exact .inl ⟨rfl, h1, h2⟩
      · exact .inr h1
    · rintro (⟨rfl, h1, h2⟩ | h1)
      · exact .inl ⟨k, ⟨h1, h2⟩, rfl, rfl⟩
      · exact .inr h1
  refine ⟨?_, ?_, ?_, ?_, ?_, ?_, h.once, ?_, ?_, ?_⟩
  · intro x
    by_cases hx : x = o
    · simp [Pool.make, hx]
    · simpa [Pool.make, hx] using h.names x
  · intro x a k ha hk
    by_cases hx : x = o
    · simp only [Pool.make, hx, if_true, Option.some.injEq] at ha
      subst ha
      simp only [makePtr]; split <;> simp
    · simp only [Pool.make, hx, if_false] at ha
      exact h.value x a k ha hk
  · intro x a k ha ht hk
    by_cases hx : x = o
    · simp only [Pool.make, hx, if_true, Option.some.injEq] at ha ht
      subst ha
      have := List.all_eq_true.1 ht k (List.mem_range.2 hk)
      simp [makePtr, this]
    · simp only [Pool.make, hx, if_false] at ha ht
      exact h.whole x a k ha ht hk
  · intro x k i hi
    rw [hmade]
    rcases (hh _ _ _).1 hi with ⟨_, h1, h2, rfl⟩ | ⟨_, h1⟩
    · refine ⟨.inl ⟨rfl, h1, h2⟩, fun hf => ?_⟩
      exact absurd (h.old _ (h.freed _ hf)) (Nat.lt_irrefl _)
    · exact ⟨.inr (h.live _ _ _ h1).1, (h.live _ _ _ h1).2⟩
  · intro x k x' k' i h1 h2
    rcases (hh _ _ _).1 h1 with ⟨e1, _, _, e2⟩ | ⟨_, g1⟩ <;> rcases (hh _ _ _).1 h2 with ⟨e3, _, _, e4⟩ | ⟨_, g2⟩
    · exact ⟨e1.trans e3.symm, (Prod.mk.inj (e2.symm.trans e4)).2⟩
    · exact absurd (h.old _ (h.live _ _ _ g2).1) (by rw [e2]; exact Nat.lt_irrefl _)
    · exact absurd (h.old _ (h.live _ _ _ g1).1) (by rw [e4]; exact Nat.lt_irrefl _)
    · exact h.own _ _ _ _ _ g1 g2
  · intro i hi hf
    rcases (hmade i).1 hi with ⟨h1, h2, h3⟩ | h1
    · exact ⟨o, i.2, (hh _ _ _).2 (.inl ⟨rfl, h2, h3, Prod.ext h1 rfl⟩)⟩
    · obtain ⟨x, k, hx⟩ := h.held i h1 hf
      refine ⟨x, k, (hh _ _ _).2 (.inr ⟨?_, hx⟩)⟩
      rintro rfl; exact hold _ _ hx
  · intro i hi
    exact (hmade i).2 (.inr (h.freed i hi))
  · refine List.nodup_append.2 ⟨?_, h.made, ?_⟩
    · refine List.Nodup.map (fun a b hab => (Prod.mk.inj hab).2) (List.nodup_range.filter _)
    · intro i hi j hj hij
      subst hij
      obtain ⟨k, _, rfl⟩ := List.mem_map.1 hi
      exact absurd (h.old _ hj) (Nat.lt_irrefl _)
  · intro i hi
    rcases (hmade i).1 hi with ⟨h1, _⟩ | h1
    · simp only [Pool.make]; omega
    · exact Nat.lt_succ_of_lt (h.old _ h1)

theorem Pool.swap_inv {c : Cls} (hc : c.int = false) {s : Pool} {t : Track} (h : s.Inv c t) {o p : Nat} (ho : t o ≠ none)
    (hp : t p ≠ none) :
    ∃ s', s.swap c o p = some s' ∧ s'.Inv c (fun x => if x = o then t p else if x = p then t o else t x) := by
  obtain ⟨a, ha⟩ := Option.ne_none_iff_exists'.1 (mt (h.names o).1 ho)
  obtain ⟨b, hb⟩ := Option.ne_none_iff_exists'.1 (mt (h.names p).1 hp)
  have hr : ∀ x a, s.objs x = some a → c.readable a = true := by
    intro x a ha
    simp only [Cls.readable, hc, Bool.not_false, Bool.true_or, Bool.and_true, List.all_eq_true, List.mem_range, bne_iff_ne]
    exact fun k hk => h.value x a k ha hk
  refine ⟨_, by simp only [Pool.swap, ha, hb, hr o a ha, hr p b hb, Bool.and_self, if_true]; rfl, ?_⟩
  -- the renaming
  have ren : ∃ f : Nat → Nat, (∀ x, f (f x) = x) ∧
      ∀ x, (if x = o then some b else if x = p then some a else s.objs x) = s.objs (f x) ∧
        (if x = o then t p else if x = p then t o else t x) = t (f x) := by
    refine ⟨fun x => if x = o then p else if x = p then o else x, ?_, ?_⟩
    · intro x
      by_cases h1 : x = o
      · subst h1
        by_cases h2 : p = x <;> simp [h2]
      · by_cases h2 : x = p
        · subst h2; simp
        · simp [h1, h2]
    · intro x
      by_cases h1 : x = o
      · simp [h1, hb]
      · by_cases h2 : x = p
        · subst h2; simp [h1, ha]
        · simp [h1, h2]
  obtain ⟨f, hf, hren⟩ := ren
  have hh : ∀ x k i, Pool.Holds c { s with objs := fun x => if x = o then some b else if x = p then some a else s.objs x } x k i
      ↔ s.Holds c (f x) k i := by
    intro x k i
    simp only [Holds, (hren x).1]
  refine ⟨?_, ?_, ?_, ?_, ?_, ?_, h.once, h.freed, h.made, h.old⟩
  · intro x
    simp only [(hren x).1, (hren x).2]
    exact h.names _
  · intro x a' k ha' hk
    simp only [(hren x).1] at ha'
    exact h.value _ a' k ha' hk
  · intro x a' k ha' ht hk
    simp only [(hren x).1] at ha'
    simp only [(hren x).2] at ht
    exact h.whole _ a' k ha' ht hk
  · intro x k i hi
    exact h.live _ _ _ ((hh _ _ _).1 hi)
  · intro x k x' k' i h1 h2
    obtain ⟨h3, h4⟩ := h.own _ _ _ _ _ ((hh _ _ _).1 h1) ((hh _ _ _).1 h2)
    refine ⟨?_, h4⟩
    rw [← hf x, h3, hf]
  · intro i hi hfr
    obtain ⟨x, k, hx⟩ := h.held i hi hfr
    refine ⟨f x, k, (hh _ _ _).2 ?_⟩
    rwa [hf]

theorem freePtrs_inv {c : Cls} {s : Pool} {t : Track} (h : s.Inv c t) {o : Nat} {a : Obj} (ha : s.objs o = some a) :
    ∀ n ≤ c.ptrs, ∃ s', freePtrs a n s = some s' ∧ s'.objs = s.objs ∧ s'.made = s.made ∧ s'.calls = s.calls ∧
      s'.freed.Nodup ∧ ∀ i, i ∈ s'.freed ↔ i ∈ s.freed ∨ ∃ k < n, a.ptr k = .obj i
  | 0, _ => ⟨s, rfl, rfl, rfl, rfl, h.once, fun i => by simp⟩
  | n + 1, hn => by
    obtain ⟨s', h1, h2, h3, h4, h5, h6⟩ := freePtrs_inv h ha n (by omega)
    simp only [freePtrs, h1, Option.bind_some]
    cases hp : a.ptr n with
    | garbage => exact absurd hp (h.value o a n ha (by omega))
    | null =>
      refine ⟨s', rfl, h2, h3, h4, h5, fun i => ?_⟩
      rw [h6]
      constructor
      · rintro (h | ⟨k, hk, h⟩)
        · exact .inl h
        · exact .inr ⟨k, by omega, h⟩
      · rintro (h | ⟨k, hk, h⟩)
        · exact .inl h
        · refine .inr ⟨k, ?_, h⟩
          rcases Nat.lt_succ_iff_lt_or_eq.1 hk with h' | rfl
          · exact h'
          · rw [hp] at h; cases h
    | obj i =>
      have hh : s.Holds c o n i := ⟨by omega, a, ha, hp⟩
      have hnot : i ∉ s'.freed := by
        rw [h6]
        rintro (hi | ⟨k, hk, hi⟩)
        · exact (h.live _ _ _ hh).2 hi
        · have := (h.own _ _ _ _ _ hh ⟨by omega, a, ha, hi⟩).2
          omega
      refine ⟨{ s' with freed := i :: s'.freed }, ?_, h2, h3, h4, List.nodup_cons.2 ⟨hnot, h5⟩, fun j => ?_⟩
      · simp only [freePtr]
        rw [if_pos ⟨h3 ▸ (h.live _ _ _ hh).1, hnot⟩]
      · simp only [List.mem_cons, h6]
        constructor
        · rintro (rfl | h | ⟨k, hk, h⟩)
          · exact .inr ⟨n, by omega, hp⟩
          · exact .inl h
          · exact .inr ⟨k, by omega, h⟩
        · rintro (h | ⟨k, hk, h⟩)
          · exact .inr (.inl h)
          · rcases Nat.lt_succ_iff_lt_or_eq.1 hk with h' | rfl
            · exact .inr (.inr ⟨k, h', h⟩)
            · rw [hp] at h; cases h; exact .inl rfl

theorem Pool.step_inv {c : Cls} (hc : c.int = false) {s : Pool} {t t' : Track} (h : s.Inv c t) {op : PoolOp}
    (hm : c.init = true ∨ op.isMoveConstruct = false) (ht : t.step c op = some t') :
    ∃ s', s.step c op = some s' ∧ s'.Inv c t' := by
  cases op with
  | make o ok =>
    simp only [Track.step, Option.ite_none_right_eq_some, Option.some.injEq] at ht
    obtain ⟨ho, rfl⟩ := ht
    exact ⟨_, rfl, h.make ho⟩
  | moveConstruct o p =>
    simp only [Track.step, Option.ite_none_right_eq_some, Option.some.injEq] at ht
    obtain ⟨⟨ho, hp⟩, rfl⟩ := ht
    have hi : c.init = true := by simpa [PoolOp.isMoveConstruct] using hm
    have hop : p ≠ o := by rintro rfl; exact hp ho
    have hso := (h.names o).2 ho
    have hh : ∀ x k i, Pool.Holds c { s with objs := fun x => if x = o then some c.fresh else s.objs x } x k i ↔ s.Holds c x k i := by
      intro x k i
      by_cases hx : x = o
      · subst hx
        simp only [Holds, if_true, Option.some.injEq, exists_eq_left', Cls.fresh, hi, hso]
        simp
      · simp [Holds, hx]
    have hinv : Pool.Inv c { s with objs := fun x => if x = o then some c.fresh else s.objs x }
        (fun x => if x = o then some (decide (c.ptrs = 0)) else t x) := by
      refine ⟨?_, ?_, ?_, ?_, ?_, ?_, h.once, h.freed, h.made, h.old⟩
      · intro x
        by_cases hx : x = o
        · simp [hx]
        · simpa [hx] using h.names x
      · intro x a k ha hk
        by_cases hx : x = o
        · simp only [hx, if_true, Option.some.injEq] at ha
          subst ha; simp [Cls.fresh, hi]
        · simp only [hx, if_false] at ha
          exact h.value x a k ha hk
      · intro x a k ha htx hk
        by_cases hx : x = o
        · simp only [hx, if_true, Option.some.injEq, decide_eq_true_eq] at htx
          omega
        · simp only [hx, if_false] at ha htx
          exact h.whole x a k ha htx hk
      · exact fun x k i hi => h.live _ _ _ ((hh _ _ _).1 hi)
      · exact fun x k x' k' i h1 h2 => h.own _ _ _ _ _ ((hh _ _ _).1 h1) ((hh _ _ _).1 h2)
      · intro i hi hf
        obtain ⟨x, k, hx⟩ := h.held i hi hf
        exact ⟨x, k, (hh _ _ _).2 hx⟩
    obtain ⟨s', h1, h2⟩ := Pool.swap_inv hc hinv (o := o) (p := p) (by simp) (by simp [hop, hp])
    refine ⟨s', h1, ?_⟩
    convert h2 using 2 with x
    by_cases hx : x = o
    · simp [hx, hop]
    · by_cases hx' : x = p
      · simp [hx', hop]
      · simp [hx, hx']
  | moveAssign o p =>
    simp only [Track.step, Option.ite_none_right_eq_some, Option.some.injEq] at ht
    obtain ⟨⟨ho, hp⟩, rfl⟩ := ht
    exact Pool.swap_inv hc h ho hp
  | use o =>
    simp only [Track.step, Option.ite_none_right_eq_some, Option.some.injEq] at ht
    obtain ⟨ho, rfl⟩ := ht
    obtain ⟨a, ha⟩ := Option.ne_none_iff_exists'.1 (mt (h.names o).1 (by simp [ho]))
    have hall : (List.range c.ptrs).all (fun k => s.deref (a.ptr k)) = true := by
      rw [List.all_eq_true]
      intro k hk
      have hk := List.mem_range.1 hk
      cases hp : a.ptr k with
      | garbage => exact absurd hp (h.value o a k ha hk)
      | null => exact absurd hp (h.whole o a k ha ho hk)
      | obj i => exact decide_eq_true (h.live o k i ⟨hk, a, ha, hp⟩)
    refine ⟨{ s with objs := fun x => if x = o then some { a with set := true } else s.objs x },
      by simp only [Pool.step, ha, hall, if_true], ?_⟩
    have hh : ∀ x k i, Pool.Holds c { s with objs := fun x => if x = o then some { a with set := true } else s.objs x } x k i
        ↔ s.Holds c x k i := by
      intro x k i
      by_cases hx : x = o
      · subst hx; simp [Holds, ha]
      · simp [Holds, hx]
    refine ⟨?_, ?_, ?_, ?_, ?_, ?_, h.once, h.freed, h.made, h.old⟩
    · intro x
      by_cases hx : x = o
      · simp [hx, ho]
      · simpa [hx] using h.names x
    · intro x b k hb hk
      by_cases hx : x = o
      · simp only [hx, if_true, Option.some.injEq] at hb
        subst hb; exact h.value o a k ha hk
      · simp only [hx, if_false] at hb
        exact h.value x b k hb hk
    · intro x b k hb htx hk
      by_cases hx : x = o
      · simp only [hx, if_true, Option.some.injEq] at hb
        subst hb; exact h.whole o a k ha ho hk
      · simp only [hx, if_false] at hb
        exact h.whole x b k hb htx hk
    · exact fun x k i hi => h.live _ _ _ ((hh _ _ _).1 hi)
    · exact fun x k x' k' i h1 h2 => h.own _ _ _ _ _ ((hh _ _ _).1 h1) ((hh _ _ _).1 h2)
    · intro i hi hf
      obtain ⟨x, k, hx⟩ := h.held i hi hf
      exact ⟨x, k, (hh _ _ _).2 hx⟩
  | destroy o =>
    simp only [Track.step, Option.ite_none_right_eq_some, Option.some.injEq] at ht
    obtain ⟨ho, rfl⟩ := ht
    obtain ⟨a, ha⟩ := Option.ne_none_iff_exists'.1 (mt (h.names o).1 ho)
    obtain ⟨s', h1, h2, h3, h4, h5, h6⟩ := freePtrs_inv h ha c.ptrs (Nat.le_refl _)
    refine ⟨_, by simp only [Pool.step, ha, h1, Option.map_some]; rfl, ?_⟩
    have hh : ∀ x k i, Pool.Holds c { s' with objs := fun x => if x = o then none else s'.objs x } x k i ↔
        x ≠ o ∧ s.Holds c x k i := by
      intro x k i
      by_cases hx : x = o
      · subst hx; simp [Holds]
      · simp [Holds, hx, h2]
    refine ⟨?_, ?_, ?_, ?_, ?_, ?_, h5, ?_, h3 ▸ h.made, ?_⟩
    · intro x
      by_cases hx : x = o
      · simp [hx]
      · simpa [hx, h2] using h.names x
    · intro x b k hb hk
      by_cases hx : x = o
      · simp [hx] at hb
      · simp only [hx, if_false, h2] at hb
        exact h.value x b k hb hk
    · intro x b k hb htx hk
      by_cases hx : x = o
      · simp [hx] at hb
      · simp only [hx, if_false, h2] at hb htx
        exact h.whole x b k hb htx hk
    · intro x k i hi
      obtain ⟨hx, hi⟩ := (hh _ _ _).1 hi
      refine ⟨h3 ▸ (h.live _ _ _ hi).1, fun hf => ?_⟩
      rcases (h6 i).1 hf with hf | ⟨k', hk', hf⟩
      · exact (h.live _ _ _ hi).2 hf
      · exact hx (h.own _ _ _ _ _ hi ⟨hk', a, ha, hf⟩).1
    · exact fun x k x' k' i h1 h2 => h.own _ _ _ _ _ ((hh _ _ _).1 h1).2 ((hh _ _ _).1 h2).2
    · intro i hi hf
      rw [h6] at hf
      obtain ⟨x, k, hx⟩ := h.held i (h3 ▸ hi) (fun hf' => hf (.inl hf'))
      refine ⟨x, k, (hh _ _ _).2 ⟨?_, hx⟩⟩
      rintro rfl
      obtain ⟨hk, b, hb, hbk⟩ := hx
      rw [ha] at hb; cases hb
      exact hf (.inr ⟨k, hk, hbk⟩)
    · intro i hi
      show i ∈ s'.made
      rw [h3]
      rcases (h6 i).1 hi with hf | ⟨k, hk, hf⟩
      · exact h.freed i hf
      · exact (h.live o k i ⟨hk, a, ha, hf⟩).1
    · intro i hi
      show i.1 < s'.calls
      rw [h4]; exact h.old i (h3 ▸ hi)

theorem Pool.run_inv {c : Cls} (hc : c.int = false) : ∀ {ops : List PoolOp} {s : Pool} {t t' : Track}, s.Inv c t →
    (c.init = true ∨ ∀ op ∈ ops, op.isMoveConstruct = false) → t.run c ops = some t' →
    ∃ s', s.run c ops = some s' ∧ s'.Inv c t'
  | [], s, t, t', h, _, ht => by cases ht; exact ⟨s, rfl, h⟩
  | op :: ops, s, t, t', h, hm, ht => by
    obtain ⟨t1, h1, h2⟩ := Option.bind_eq_some_iff.1 ht
    obtain ⟨s1, h3, h4⟩ := Pool.step_inv hc h (hm.imp id fun h => h op (List.mem_cons_self ..)) h1
    obtain ⟨s', h5, h6⟩ := Pool.run_inv hc h4 (hm.imp id fun h o ho => h o (List.mem_cons_of_mem _ ho)) h2
    exact ⟨s', by simp only [Pool.run, h3, Option.bind_some]; exact h5, h6⟩

theorem Pool.inv_init (c : Cls) : ({} : Pool).Inv c (fun _ => none) := by
  refine ⟨fun o => by simp, ?_, ?_, ?_, ?_, ?_, List.nodup_nil, ?_, List.nodup_nil, ?_⟩
  · intro o a k h; simp at h
  · intro o a k h; simp at h
  · rintro o k i ⟨_, a, h, _⟩; simp at h
  · rintro o k o' k' i ⟨_, a, h, _⟩; simp at h
  · intro i hi; simp at hi
  · intro i hi; simp at hi
  · intro i hi; simp at hi

theorem pool_spec {c : Cls} (hc : c.int = false) {ops : List PoolOp}
    (hm : c.init = true ∨ ∀ op ∈ ops, op.isMoveConstruct = false) {t : Track}
    (ht : Track.run c (fun _ => none) ops = some t) :
    ∃ s, Pool.run c {} ops = some s ∧ s.freed.Nodup ∧ (∀ i ∈ s.freed, i ∈ s.made) ∧
      ((∀ o, t o = none) → s.freed.Perm s.made) := by
  obtain ⟨s, h1, h⟩ := Pool.run_inv hc (Pool.inv_init c) hm ht
  refine ⟨s, h1, h.once, h.freed, fun hd => ?_⟩
  refine (List.perm_ext_iff_of_nodup h.once h.made).2 fun i => ⟨h.freed i, fun hi => ?_⟩
  by_contra hf
  obtain ⟨o, k, _, a, ha, _⟩ := h.held i hi hf
  rw [(h.names o).2 (hd o)] at ha; cases ha

/-! ## C103 -/

/-- Layout builders, without the integer `m_cursor`: in every program that keeps to the rules, every operation is
defined, line break iterators and buffers are freed at most once, and when all builders are gone, all
of them have been freed. -/
theorem C103_builder_partial {ops : List PoolOp} {t : Track} (ht : Track.run builderPtrs (fun _ => none) ops = some t) :
    ∃ s, Pool.run builderPtrs {} ops = some s ∧ s.freed.Nodup ∧ (∀ i ∈ s.freed, i ∈ s.made) ∧
      ((∀ o, t o = none) → s.freed.Perm s.made) :=
  pool_spec rfl (.inl rfl) ht

/-- Cursor controllers: the same for programs that construct none from another. -/
theorem C103_controller_partial {ops : List PoolOp} (hm : ∀ op ∈ ops, op.isMoveConstruct = false) {t : Track}
    (ht : Track.run controller (fun _ => none) ops = some t) :
    ∃ s, Pool.run controller {} ops = some s ∧ s.freed.Nodup ∧ (∀ i ∈ s.freed, i ∈ s.made) ∧
      ((∀ o, t o = none) → s.freed.Perm s.made) :=
  pool_spec rfl (.inr hm) ht

/-- Three builders; the first is moved into the third, the second assigned to it, all used and destroyed. -/
def demoPool : List PoolOp :=
  [.make 0 fun _ => true, .make 1 fun _ => true, .use 0, .moveConstruct 2 0, .use 2, .moveAssign 2 1, .use 2, .use 1,
    .destroy 0, .destroy 2, .destroy 1]

example : (Track.run builderPtrs (fun _ => none) demoPool).isSome = true ∧
    (Track.run builderPtrs (fun _ => none) demoPool).map (fun t => (t 0, t 1, t 2)) = some (none, none, none) := by
  decide +kernel

/-- The buffers and iterators are freed. -/
example : (Pool.run builderPtrs {} demoPool).map (·.freed) = some [(0, 1), (0, 0), (1, 1), (1, 0)] := by decide +kernel

example : (Track.run controller (fun _ => none) [.make 0 fun _ => true, .make 1 fun _ => true, .moveAssign 0 1, .use 0,
    .destroy 0, .destroy 1]).isSome = true ∧
    (Pool.run controller {} [.make 0 fun _ => true, .make 1 fun _ => true, .moveAssign 0 1, .use 0, .destroy 0,
      .destroy 1]).map (·.freed) = some [(0, 0), (1, 0)] := by decide +kernel

/-- Constructing a cursor controller from another is always undefined: the pointer it swaps has no
value. -/
theorem C103_controller_move_violated (s : Pool) (o p : Nat) : s.step controller (.moveConstruct o p) = none := by
  simp only [Pool.step, Pool.swap, if_true]
  split
  · rename_i a b ha hb
    rw [if_neg]
    intro h
    cases ha
    rw [Bool.and_eq_true] at h
    exact absurd h.1 (by decide +kernel)
  · rfl

/-- So is, read strictly, constructing a layout builder from another: `m_cursor` has no value. -/
theorem C103_builder_move_violated (s : Pool) (o p : Nat) : s.step builder (.moveConstruct o p) = none := by
  simp only [Pool.step, Pool.swap, if_true]
  split
  · rename_i a b ha hb
    rw [if_neg]
    intro h
    cases ha
    rw [Bool.and_eq_true] at h
    exact absurd h.1 (by decide +kernel)
  · rfl

/-! ### Building a layout -/

theorem Libs.run_append (s : Libs) (a b : List LibCall) : s.run (a ++ b) = (s.run a).bind fun s => s.run b := by
  induction a generalizing s with
  | nil => rfl
  | cons c t ih =>
    simp only [List.cons_append, Libs.run]
    cases s.step c with
    | none => rfl
    | some s => simp only [Option.bind_some, ih]

theorem run_subFonts (s : Libs) (n : Nat) :
    s.run (List.replicate n subFontCalls).flatten = some { s with texts := s.texts + n } := by
  induction n generalizing s with
  | zero => rfl
  | succ n ih =>
    rw [List.replicate_succ, List.flatten_cons, Libs.run_append]
    simp only [subFontCalls, Libs.run, Libs.step, Option.bind_some]
    rw [show List.replicate n [LibCall.openText] = List.replicate n subFontCalls from rfl, ih]
    simp only [Option.some.injEq, Libs.mk.injEq, true_and, and_true]
    omega

theorem run_line (s : Libs) (h : 0 < s.paragraphs) : s.run lineCalls = some s := by
  obtain ⟨a, p, l, t, i⟩ := s
  have hp : p ≠ 0 := Nat.pos_iff_ne_zero.1 h
  simp [lineCalls, Libs.run, Libs.step, Libs.count, Libs.set, hp]

theorem run_lines (s : Libs) (h : 0 < s.paragraphs) (hi : s.iterator = true) (n : Nat) :
    s.run (List.replicate n ([LibCall.breaks, .use .paragraph] ++ lineCalls)).flatten = some s := by
  induction n with
  | zero => rfl
  | succ n ih =>
    rw [List.replicate_succ, List.flatten_cons, Libs.run_append, Libs.run_append]
    have hp : s.paragraphs ≠ 0 := Nat.pos_iff_ne_zero.1 h
    have : s.run [LibCall.breaks, .use .paragraph] = some s := by
      simp [Libs.run, Libs.step, Libs.count, hi, hp]
    rw [this, Option.bind_some, run_line s h, Option.bind_some, ih]

/-- Texts opened for a paragraph. -/
def opened (wraps : Bool) (p : ParaCalls) : Nat := if p.text then p.subFonts + (if wraps then 1 else 0) else 0

theorem run_build (wraps : Bool) (p : ParaCalls) (s : Libs) (h : 0 < s.paragraphs) :
    ∃ i, s.run (buildCalls wraps p) =
      some { s with texts := s.texts + p.subFonts + (if wraps then 1 else 0), iterator := i } := by
  have hp : s.paragraphs ≠ 0 := Nat.pos_iff_ne_zero.1 h
  have h1 : ∀ s : Libs, s.paragraphs ≠ 0 → s.run [LibCall.use .paragraph] = some s := by
    intro s hp
    simp [Libs.run, Libs.step, Libs.count, hp]
  unfold buildCalls
  rw [Libs.run_append, Libs.run_append, h1 s hp, Option.bind_some, run_subFonts, Option.bind_some]
  cases wraps with
  | false =>
    refine ⟨s.iterator, ?_⟩
    simp only [Bool.false_eq_true, if_false]
    rw [Libs.run_append, h1 { s with texts := s.texts + p.subFonts } hp, Option.bind_some,
      run_line { s with texts := s.texts + p.subFonts } h]
    rfl
  | true =>
    refine ⟨true, ?_⟩
    simp only [if_true]
    rw [Libs.run_append]
    have : Libs.run { s with texts := s.texts + p.subFonts } [.openText, .setText] =
        some { s with texts := s.texts + p.subFonts + 1, iterator := true } := by
      simp [Libs.run, Libs.step]
    rw [this, Option.bind_some, run_lines { s with texts := s.texts + p.subFonts + 1, iterator := true } h rfl]

theorem run_paras (wraps : Bool) : ∀ (ps : List ParaCalls) (s : Libs), 0 < s.algorithms →
    ∃ i, s.run (ps.map (paraCalls wraps)).flatten =
      some { s with texts := s.texts + (ps.map (opened wraps)).sum, iterator := i }
  | [], s, _ => ⟨s.iterator, rfl⟩
  | p :: t, s, h => by
    have ha : s.algorithms ≠ 0 := Nat.pos_iff_ne_zero.1 h
    have hone : ∃ i, s.run (paraCalls wraps p) = some { s with texts := s.texts + opened wraps p, iterator := i } := by
      unfold paraCalls opened
      cases p.text with
      | false =>
        refine ⟨s.iterator, ?_⟩
        simp [Libs.run, Libs.step, Libs.count, ha]
      | true =>
        simp only [if_true]
        have h1 : s.run [LibCall.use .algorithm, LibCall.use .algorithm, .create .paragraph] =
            some { s with paragraphs := s.paragraphs + 1 } := by
          simp [Libs.run, Libs.step, Libs.count, ha, Libs.set]
        obtain ⟨i, hi⟩ := run_build wraps p { s with paragraphs := s.paragraphs + 1 } (Nat.succ_pos _)
        refine ⟨i, ?_⟩
        rw [show LibCall.use .algorithm :: ([LibCall.use .algorithm, .create .paragraph] ++ buildCalls wraps p ++
            [.release .paragraph]) = [LibCall.use .algorithm, LibCall.use .algorithm, .create .paragraph] ++
            (buildCalls wraps p ++ [.release .paragraph]) by simp, Libs.run_append, h1, Option.bind_some, Libs.run_append, hi]
        simp [Libs.run, Libs.step, Libs.count, Libs.set, Nat.add_assoc]
    obtain ⟨i, hi⟩ := hone
    obtain ⟨j, hj⟩ := run_paras wraps t { s with texts := s.texts + opened wraps p, iterator := i } h
    refine ⟨j, ?_⟩
    rw [List.map_cons, List.flatten_cons, Libs.run_append, hi, Option.bind_some, hj]
    simp [Nat.add_assoc]

theorem run_layout (wraps : Bool) (ps : List ParaCalls) (s : Libs) :
    ∃ i, s.run (layoutCalls wraps ps) = some { s with texts := s.texts + (ps.map (opened wraps)).sum, iterator := i } := by
  obtain ⟨i, hi⟩ := run_paras wraps ps { s with algorithms := s.algorithms + 1 } (Nat.succ_pos _)
  refine ⟨i, ?_⟩
  unfold layoutCalls
  rw [Libs.run_append, Libs.run_append]
  have : s.run [LibCall.create .algorithm] = some { s with algorithms := s.algorithms + 1 } := rfl
  rw [this, Option.bind_some, hi]
  simp [Libs.run, Libs.step, Libs.count, Libs.set]

/-- Whatever the text and however often layouts have been built before: objects of SheenBidi and the text of the
iterator are used only while they exist, and afterwards there are as many objects of SheenBidi as before. -/
theorem C103_build_partial (wraps : Bool) (ps : List ParaCalls) (s : Libs) :
    ∃ s', s.run (layoutCalls wraps ps) = some s' ∧ s'.algorithms = s.algorithms ∧ s'.paragraphs = s.paragraphs ∧
      s'.lines = s.lines := by
  obtain ⟨i, hi⟩ := run_layout wraps ps s
  exact ⟨_, hi, rfl, rfl, rfl⟩

example : Libs.run {} (layoutCalls true [⟨true, 2, 3⟩, ⟨false, 0, 0⟩, ⟨true, 1, 1⟩]) = some ⟨0, 0, 0, 5, true⟩ := by
  decide +kernel

/-- But texts opened for ICU are never closed: one for each question for a font and one for each paragraph that is broken
into lines stay open, each time a layout is built. -/
theorem C103_text_leak_violated (wraps : Bool) (ps : List ParaCalls) (s : Libs) :
    (s.run (layoutCalls wraps ps)).map (·.texts) =
      some (s.texts + (ps.map fun p => if p.text then p.subFonts + (if wraps then 1 else 0) else 0).sum) := by
  obtain ⟨i, hi⟩ := run_layout wraps ps s
  rw [hi]; rfl

/-! ### The text of the controller -/

/-- The text is not set without a font after it was shown with one, and the controller is not asked before:
`font` and `shown` at the start. -/
def WithFont : Bool → Bool → List BoxCall → Prop
  | _, _, [] => True
  | font, shown, .setText _ :: t => (shown = true → font = true) ∧ WithFont font (shown || font) t
  | _, shown, .setFont valid _ :: t => WithFont valid (shown || valid) t
  | font, shown, .recalc _ :: t => WithFont font (shown || font) t
  | font, shown, .move :: t => shown = true ∧ WithFont font shown t

/-- The controller refers to text that exists. -/
structure BoxText.Inv (s : BoxText) (shown : Bool) : Prop where
  given : shown = true ↔ s.view.isSome = true
  current : ∀ rich n, s.view = some (rich, n) → n = if rich then s.content else s.text

theorem BoxText.Inv.recalc {s : BoxText} {shown : Bool} (h : s.Inv shown) (rich : Bool) :
    (s.recalc rich).Inv (shown || s.font) := by
  unfold BoxText.recalc
  cases hf : s.font with
  | false => simpa using h
  | true =>
    simp only [if_true]
    refine ⟨by simp, fun r n hv => ?_⟩
    simp only [Option.some.injEq, Prod.mk.injEq] at hv
    obtain ⟨rfl, rfl⟩ := hv
    cases rich <;> rfl

theorem boxText_run : ∀ (ops : List BoxCall) {s : BoxText} {shown : Bool}, s.Inv shown → WithFont s.font shown ops →
    ∃ s', s.run ops = some s' ∧ ∀ rich n, s'.view = some (rich, n) → n = if rich then s'.content else s'.text
  | [], s, _, h, _ => ⟨s, rfl, h.current⟩
  | op :: t, s, shown, h, hw => by
    have font_recalc : ∀ (s : BoxText) r, (s.recalc r).font = s.font := by
      intro s r; unfold BoxText.recalc; split <;> rfl
    cases op with
    | setText rich =>
      simp only [BoxText.run, BoxText.step, Option.bind_some]
      obtain ⟨h1, h2⟩ := hw
      refine boxText_run t (shown := shown || s.font) ?_ (by rw [font_recalc]; exact h2)
      cases hf : s.font with
      | true =>
        unfold BoxText.recalc
        simp only [hf, if_true]
        refine ⟨by simp, fun r n hv => ?_⟩
        simp only [Option.some.injEq, Prod.mk.injEq] at hv
        obtain ⟨rfl, rfl⟩ := hv
        cases rich <;> rfl
      | false =>
        have hs : shown = false := by
          cases hsh : shown with
          | false => rfl
          | true => exact absurd (h1 hsh) (by simp [hf])
        unfold BoxText.recalc
        simp only [hf, hs, Bool.false_eq_true, if_false]
        have hv : s.view = none := by
          cases hv : s.view with
          | none => rfl
          | some v => exact absurd (h.given.2 (by simp [hv])) (by simp [hs])
        exact ⟨by simp [hv], fun r n hv' => by simp [hv] at hv'⟩
    | setFont valid rich =>
      simp only [BoxText.run, BoxText.step, Option.bind_some]
      refine boxText_run t (shown := shown || valid) ?_ (by rw [font_recalc]; exact hw)
      exact BoxText.Inv.recalc (s := { s with font := valid }) ⟨h.given, h.current⟩ rich
    | recalc rich =>
      simp only [BoxText.run, BoxText.step, Option.bind_some]
      exact boxText_run t (h.recalc rich) (by rw [font_recalc]; exact hw)
    | move =>
      obtain ⟨h1, h2⟩ := hw
      obtain ⟨v, hv⟩ := Option.isSome_iff_exists.1 (h.given.1 h1)
      have hstep : s.step .move = some s := by
        obtain ⟨r, n⟩ := v
        simp only [BoxText.step, hv]
        rw [if_pos (h.current r n hv)]
      simp only [BoxText.run, hstep, Option.bind_some]
      exact boxText_run t h h2

/-- The text that the cursor controller of a text box reads exists, if the text is not set without a font after it was
shown with one. -/
theorem C103_view_partial {ops : List BoxCall} (h : WithFont false false ops) :
    ∃ s, BoxText.run {} ops = some s ∧ ∀ rich n, s.view = some (rich, n) → n = if rich then s.content else s.text :=
  boxText_run ops (s := {}) ⟨by simp, fun r n hv => by simp at hv⟩ h

example : WithFont false false [.setText false, .setFont true true, .move, .setText false, .move, .setFont false false, .move,
    .setFont true false, .setText true, .move] := by simp [WithFont]

/-- Otherwise not: a text set after the font was taken away frees the text that the controller refers to. -/
theorem C103_view_violated :
    BoxText.run {} [.setFont true false, .setText false, .setFont false false, .setText false] ≠ none ∧
    BoxText.run {} [.setFont true false, .setText false, .setFont false false, .setText false, .move] = none := by
  decide +kernel

end RichText.Life
