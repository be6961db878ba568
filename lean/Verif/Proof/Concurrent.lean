import Verif.Model.Concurrent
/-!
Critical sections as a whole (C119).
-/
namespace RichText

namespace Act
variable {α β γ : Type}

/-- The result if no other thread runs. -/
def run : Act α → Registry → Option (α × Registry)
  | done a, r => some (a, r)
  | fault, _ => none
  | op _ k, r => k.run r
  | read k, r => (k r).run r
  | write f k, r => k.run (f r)

/-- What is left when the thread has given back the mutex, and the registry then, if no other thread runs. -/
def rest : LockHeld → Act α → Registry → Act α × Registry
  | _, done a, r => (done a, r)
  | _, fault, r => (fault, r)
  | h, op o k, r =>
    match h.after o with
    | none => (fault, r)
    | some .none => (k, r)
    | some h' => k.rest h' r
  | h, read k, r => (k r).rest h r
  | h, write f k, r => k.rest h (f r)

/-- Variables are read while the mutex is held and written while it is held exclusively; it is held as `e` at the end. -/
def Body (e : LockHeld) : LockHeld → Act α → Prop
  | h, done _ => h = e
  | _, fault => True
  | h, op o k => ∃ h', h.after o = some h' ∧ k.Body e h'
  | h, read k => h ≠ .none ∧ ∀ r, (k r).Body e h
  | h, write _ k => h = .exclusive ∧ k.Body e h

theorem Body.bind {h e e' : LockHeld} {g : α → Act β} (hg : ∀ x, (g x).Body e' e) : ∀ {a : Act α}, a.Body e h → (a.bind g).Body e' h := by
  intro a
  induction a generalizing h with
  | done x => intro ha; cases ha; exact hg x
  | fault => intro _; trivial
  | op o k ih => rintro ⟨h', h1, h2⟩; exact ⟨h', h1, ih h2⟩
  | read k ih => rintro ⟨h1, h2⟩; exact ⟨h1, fun r => ih r (h2 r)⟩
  | write f k ih => rintro ⟨h1, h2⟩; exact ⟨h1, ih h2⟩

theorem run_bind (g : α → Act β) : ∀ (a : Act α) (r : Registry), (a.bind g).run r = (a.run r).bind fun x => (g x.1).run x.2 := by
  intro a
  induction a with
  | done x => intro r; rfl
  | fault => intro r; rfl
  | op o k ih => intro r; exact ih r
  | read k ih => intro r; exact ih r r
  | write f k ih => intro r; exact ih (f r)

theorem bind_assoc (g : α → Act β) (g' : β → Act γ) : ∀ a : Act α, (a.bind g).bind g' = a.bind fun x => (g x).bind g' := by
  intro a
  induction a with
  | done x => rfl
  | fault => rfl
  | op o k ih => exact congrArg (op o) ih
  | read k ih => exact congrArg read (funext fun r => ih r)
  | write f k ih => exact congrArg (write f) ih

/-- Part of a section: keeps the mutex. -/
def Flat (h : LockHeld) (a : Act α) : Prop :=
  ∀ {β : Type} (g : α → Act β) (r : Registry) (x : α) (r' : Registry), a.run r = some (x, r') →
    (a.bind g).rest h r = (g x).rest h r'

theorem Flat.done {h : LockHeld} (x : α) : Flat h (done x) := by
  intro β g r x' r' hr
  cases hr
  rfl

theorem Flat.fault {h : LockHeld} : Flat h (fault : Act α) := by
  intro β g r x' r' hr
  cases hr

theorem Flat.read {h : LockHeld} {k : Registry → Act α} (hk : ∀ r, Flat h (k r)) : Flat h (read k) := by
  intro β g r x' r' hr
  exact hk r g r x' r' hr

theorem Flat.write {h : LockHeld} {f : Registry → Registry} {k : Act α} (hk : Flat h k) : Flat h (write f k) := by
  intro β g r x' r' hr
  exact hk g (f r) x' r' hr

theorem Flat.bind {h : LockHeld} {a : Act α} {g : α → Act β} (ha : Flat h a) (hg : ∀ x, Flat h (g x)) : Flat h (a.bind g) := by
  intro γ g' r x' r' hr
  rw [run_bind] at hr
  cases hx : a.run r with
  | none => rw [hx] at hr; cases hr
  | some x =>
    rw [hx] at hr
    rw [bind_assoc, ha _ r x.1 x.2 hx]
    exact hg x.1 g' x.2 x' r' hr

/-- Both. -/
def Inner (h : LockHeld) (a : Act α) : Prop := a.Flat h ∧ a.Body h h

theorem Inner.done {h : LockHeld} (x : α) : Inner h (Act.done x) := ⟨Flat.done x, rfl⟩
theorem Inner.fault {h : LockHeld} : Inner h (Act.fault : Act α) := ⟨Flat.fault, trivial⟩
theorem Inner.read {h : LockHeld} {k : Registry → Act α} (hh : h ≠ .none) (hk : ∀ r, Inner h (k r)) : Inner h (Act.read k) :=
  ⟨Flat.read fun r => (hk r).1, hh, fun r => (hk r).2⟩
theorem Inner.write {f : Registry → Registry} {k : Act α} (hk : Inner .exclusive k) : Inner .exclusive (Act.write f k) :=
  ⟨Flat.write hk.1, rfl, hk.2⟩
theorem Inner.bind {h : LockHeld} {a : Act α} {g : α → Act β} (ha : Inner h a) (hg : ∀ x, Inner h (g x)) : Inner h (a.bind g) :=
  ⟨Flat.bind ha.1 fun x => (hg x).1, Body.bind (fun x => (hg x).2) ha.2⟩

/-- Readers change nothing. -/
theorem rest_shared : ∀ (a : Act α) (n : Nat) (r : Registry), a.Body .none (.shared n) → (a.rest (.shared n) r).2 = r := by
  intro a
  induction a with
  | done x => intro n r h; cases h
  | fault => intro n r _; rfl
  | op o k ih =>
    rintro n r ⟨h', h1, h2⟩
    cases o with
    | lockShared => cases h1; exact ih _ _ h2
    | unlockShared => cases n with
      | zero => rfl
      | succ n => cases h1; exact ih _ _ h2
    | lock => cases n <;> exact absurd h1 (by simp [LockHeld.after])
    | unlock => cases n <;> exact absurd h1 (by simp [LockHeld.after])
  | read k ih => rintro n r ⟨_, h2⟩; exact ih r n r (h2 r)
  | write f k ih => rintro n r ⟨h1, _⟩; cases h1

end Act

/-! ### Whole sections -/

/-- A registry, and what each thread still has to do. -/
structure Sections (α : Type) where
  registry : Registry
  threads : List (Act α)

namespace Sections
variable {α : Type}

/-- Thread `i` takes the mutex and runs until it has given it back. -/
inductive Step (s : Sections α) (i : Nat) : Sections α → Prop
  | mk {o : LockOp} {k : Act α} {h : LockHeld} : s.threads[i]? = some (.op o k) → LockHeld.none.after o = some h → h ≠ .none →
      Step s i ⟨(k.rest h s.registry).2, s.threads.set i (k.rest h s.registry).1⟩

/-- Any number of steps. -/
inductive Reach (s : Sections α) : Sections α → Prop
  | refl : Reach s s
  | step {s' s'' : Sections α} {i : Nat} : Reach s s' → Step s' i s'' → Reach s s''

theorem Reach.trans {a b c : Sections α} (h1 : Reach a b) (h2 : Reach b c) : Reach a c := by
  induction h2 with
  | refl => exact h1
  | step _ hs ih => exact .step ih hs

end Sections

/-- The threads that hold the mutex exclusively are alone; the others stand at the end of their sections. -/
structure SimSections {α : Type} (c : Conc α) (s : Sections α) : Prop where
  ok : ∀ (i : Nat) (a : Act α) (h : LockHeld), c.threads[i]? = some (a, h) → a.Body .none h
  out : ∀ (i : Nat) (a : Act α), c.threads[i]? = some (a, LockHeld.none) → s.threads[i]? = some a
  inside : ∀ (i : Nat) (a : Act α) (h : LockHeld), c.threads[i]? = some (a, h) → h ≠ .none →
    s.threads[i]? = some (a.rest h c.registry).1 ∧ (a.rest h c.registry).2 = s.registry
  alone : ∀ (i j : Nat) (a b : Act α) (h : LockHeld), i ≠ j → c.threads[i]? = some (a, LockHeld.exclusive) → c.threads[j]? = some (b, h) → h = .none
  registry : (∀ (i : Nat) (a : Act α), c.threads[i]? ≠ some (a, LockHeld.exclusive)) → c.registry = s.registry
  length : c.threads.length = s.threads.length

theorem set_get {α : Type} {l : List α} {i j : Nat} {x y : α} (h : (l.set i x)[j]? = some y) :
    (i = j ∧ x = y ∧ i < l.length) ∨ (i ≠ j ∧ l[j]? = some y) := by
  rw [List.getElem?_set] at h
  split at h
  · rename_i e
    split at h
    · cases h; exact .inl ⟨e, rfl, by assumption⟩
    · cases h
  · rename_i e; exact .inr ⟨e, h⟩

theorem get_lt {α : Type} {l : List α} {i : Nat} {x : α} (h : l[i]? = some x) : i < l.length := by
  rcases List.getElem?_eq_some_iff.1 h with ⟨h, _⟩
  exact h

theorem SimSections.step {α : Type} {c c' : Conc α} {s : Sections α} {i : Nat} (h : SimSections c s) (hs : c.Step i c') :
    ∃ s', Sections.Reach s s' ∧ SimSections c' s' := by
  cases hs with
  | @op o k hd hd' hi ha hadm =>
    have hb := h.ok _ _ _ hi
    obtain ⟨h2, e2, hk⟩ := hb
    rw [ha] at e2
    cases e2
    have hil := get_lt hi
    by_cases hn : hd = .none
    · subst hn
      have hn' : hd' ≠ .none := by
        cases o <;> cases ha <;> exact fun h => by cases h
      have noex : ∀ (j : Nat) (a : Act α), c.threads[j]? ≠ some (a, LockHeld.exclusive) := by
        intro j a hj
        have hm : (a, LockHeld.exclusive) ∈ c.threads := List.mem_of_getElem? hj
        cases o with
        | lockShared => exact hadm _ hm rfl
        | lock => exact absurd (hadm _ hm) (by simp)
        | unlockShared => cases ha
        | unlock => cases ha
      have hr := h.registry noex
      refine ⟨_, .step .refl (.mk (h.out _ _ hi) ha hn'), ?_⟩
      rw [← hr]
      have oth : ∀ (j : Nat) (b : Act α) (hh : LockHeld), i ≠ j → c.threads[j]? = some (b, hh) → hh ≠ .none → ∃ n m, hh = .shared n ∧ hd' = .shared m := by
        intro j b hh hij hj hne
        have hm : (b, hh) ∈ c.threads := List.mem_of_getElem? hj
        cases o with
        | lockShared =>
          cases ha
          cases hh with
          | none => exact absurd rfl hne
          | shared n => exact ⟨n, 0, rfl, rfl⟩
          | exclusive => exact absurd hj (noex _ _)
        | lock => exact absurd (hadm _ hm) hne
        | unlockShared => cases ha
        | unlock => cases ha
      refine ⟨?_, ?_, ?_, ?_, ?_, ?_⟩
      · intro j a hh hj
        rcases set_get hj with ⟨rfl, e, _⟩ | ⟨_, hj⟩
        · cases e; exact hk
        · exact h.ok _ _ _ hj
      · intro j a hj
        rcases set_get hj with ⟨rfl, e, _⟩ | ⟨hij, hj⟩
        · cases e; exact absurd rfl hn'
        · simp only [List.getElem?_set_ne hij]
          exact h.out _ _ hj
      · intro j a hh hj hne
        rcases set_get hj with ⟨rfl, e, _⟩ | ⟨hij, hj'⟩
        · cases e
          refine ⟨?_, rfl⟩
          simp only
          rw [List.getElem?_set_self (by rw [← h.length]; exact hil)]
        · obtain ⟨n, m, rfl, rfl⟩ := oth _ _ _ hij hj' hne
          simp only [List.getElem?_set_ne hij]
          refine ⟨(h.inside _ _ _ hj' hne).1, ?_⟩
          rw [Act.rest_shared _ _ _ (h.ok _ _ _ hj'), Act.rest_shared _ _ _ hk]
      · intro p q a b hh hpq hp hq
        rcases set_get hp with ⟨rfl, e, _⟩ | ⟨_, hp⟩
        · cases e
          rcases set_get hq with ⟨rfl, e, _⟩ | ⟨_, hq⟩
          · exact absurd rfl hpq
          · refine Decidable.byContradiction fun hne => ?_
            obtain ⟨_, _, _, e⟩ := oth _ _ _ hpq hq hne
            cases e
        · exact absurd hp (noex _ _)
      · intro hno
        simp only
        cases hd' with
        | none => exact absurd rfl hn'
        | shared m => exact (Act.rest_shared _ _ _ hk).symm
        | exclusive => exact absurd (List.getElem?_set_self hil) (hno i k)
      · simp only [List.length_set]
        exact h.length
    · obtain ⟨e1, e2⟩ := h.inside _ _ _ hi hn
      refine ⟨s, .refl, ?_⟩
      have hup : ∀ hh', hd' = hh' → hh' ≠ .none → (Act.op o k).rest hd c.registry = k.rest hh' c.registry := by
        rintro hh' rfl hne
        rw [Act.rest, ha]
        cases hd' with
        | none => exact absurd rfl hne
        | shared m => rfl
        | exclusive => rfl
      have hdn : hd' = .none → (Act.op o k).rest hd c.registry = (k, c.registry) := by
        rintro rfl
        rw [Act.rest, ha]
      have hex : hd' = .exclusive → False := by
        rintro rfl
        cases hd with
        | none => exact hn rfl
        | shared n => cases o <;> cases n <;> cases ha
        | exclusive => cases o <;> cases ha
      refine ⟨?_, ?_, ?_, ?_, ?_, ?_⟩
      · intro j a hh hj
        rcases set_get hj with ⟨rfl, e, _⟩ | ⟨_, hj⟩
        · cases e; exact hk
        · exact h.ok _ _ _ hj
      · intro j a hj
        rcases set_get hj with ⟨rfl, e, _⟩ | ⟨hij, hj⟩
        · cases e
          rw [hdn rfl] at e1
          exact e1
        · exact h.out _ _ hj
      · intro j a hh hj hne
        rcases set_get hj with ⟨rfl, e, _⟩ | ⟨hij, hj⟩
        · cases e
          rw [hup _ rfl hne] at e1 e2
          exact ⟨e1, e2⟩
        · exact h.inside _ _ _ hj hne
      · intro p q a b hh hpq hp hq
        rcases set_get hp with ⟨rfl, e, _⟩ | ⟨_, hp⟩
        · cases e
          exact (hex rfl).elim
        · rcases set_get hq with ⟨rfl, e, _⟩ | ⟨_, hq⟩
          · cases e
            exact absurd (h.alone _ _ _ _ _ hpq hp hi) hn
          · exact h.alone _ _ _ _ _ hpq hp hq
      · intro hno
        simp only
        by_cases hx : ∃ (j : Nat) (a : Act α), c.threads[j]? = some (a, LockHeld.exclusive)
        · obtain ⟨j, a, hj⟩ := hx
          by_cases hij : i = j
          · subst hij
            rw [hi] at hj
            cases hj
            cases hd' with
            | none => rw [hdn rfl] at e2; exact e2
            | shared m => cases o <;> cases ha
            | exclusive => exact (hex rfl).elim
          · exact absurd (by rw [List.getElem?_set_ne hij]; exact hj) (hno j a)
        · exact h.registry fun j a hj => hx ⟨j, a, hj⟩
      · simp only [List.length_set]
        exact h.length
  | @misuse o k hd hi ha =>
    obtain ⟨h2, e2, _⟩ := h.ok _ _ _ hi
    rw [ha] at e2
    cases e2
  | @read k hd hi =>
    obtain ⟨hn, hk⟩ := h.ok _ _ _ hi
    obtain ⟨e1, e2⟩ := h.inside _ _ _ hi hn
    refine ⟨s, .refl, ?_, ?_, ?_, ?_, ?_, ?_⟩
    · intro j a hh hj
      rcases set_get hj with ⟨rfl, e, _⟩ | ⟨_, hj⟩
      · cases e; exact hk _
      · exact h.ok _ _ _ hj
    · intro j a hj
      rcases set_get hj with ⟨rfl, e, _⟩ | ⟨hij, hj⟩
      · cases e; exact absurd rfl hn
      · exact h.out _ _ hj
    · intro j a hh hj hne
      rcases set_get hj with ⟨rfl, e, _⟩ | ⟨hij, hj⟩
      · cases e; exact ⟨e1, e2⟩
      · exact h.inside _ _ _ hj hne
    · intro p q a b hh hpq hp hq
      rcases set_get hp with ⟨rfl, e, _⟩ | ⟨_, hp⟩
      · cases e
        rcases set_get hq with ⟨rfl, e, _⟩ | ⟨_, hq⟩
        · exact absurd rfl hpq
        · exact h.alone _ _ _ _ _ hpq hi hq
      · rcases set_get hq with ⟨rfl, e, _⟩ | ⟨_, hq⟩
        · cases e
          exact absurd (h.alone _ _ _ _ _ hpq hp hi) hn
        · exact h.alone _ _ _ _ _ hpq hp hq
    · intro hno
      refine h.registry fun j a hj => ?_
      by_cases hij : i = j
      · subst hij
        rw [hi] at hj
        cases hj
        exact hno i _ (List.getElem?_set_self (get_lt hi))
      · exact hno j a (by simp only [List.getElem?_set_ne hij]; exact hj)
    · simp only [List.length_set]
      exact h.length
  | @write f k hd hi =>
    obtain ⟨rfl, hk⟩ := h.ok _ _ _ hi
    have hn : LockHeld.exclusive ≠ .none := fun h => by cases h
    obtain ⟨e1, e2⟩ := h.inside _ _ _ hi hn
    refine ⟨s, .refl, ?_, ?_, ?_, ?_, ?_, ?_⟩
    · intro j a hh hj
      rcases set_get hj with ⟨rfl, e, _⟩ | ⟨_, hj⟩
      · cases e; exact hk
      · exact h.ok _ _ _ hj
    · intro j a hj
      rcases set_get hj with ⟨rfl, e, _⟩ | ⟨hij, hj⟩
      · cases e
      · exact h.out _ _ hj
    · intro j a hh hj hne
      rcases set_get hj with ⟨rfl, e, _⟩ | ⟨hij, hj⟩
      · cases e; exact ⟨e1, e2⟩
      · exact absurd (h.alone _ _ _ _ _ hij hi hj) hne
    · intro p q a b hh hpq hp hq
      rcases set_get hp with ⟨rfl, e, _⟩ | ⟨hip, hp⟩
      · cases e
        rcases set_get hq with ⟨rfl, e, _⟩ | ⟨_, hq⟩
        · exact absurd rfl hpq
        · exact h.alone _ _ _ _ _ hpq hi hq
      · exact absurd (h.alone _ _ _ _ _ hip hi hp) hn
    · intro hno
      exact absurd (List.getElem?_set_self (get_lt hi)) (hno i k)
    · simp only [List.length_set]
      exact h.length

end RichText
