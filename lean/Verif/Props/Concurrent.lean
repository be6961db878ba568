import Verif.Proof.ConcurrentSerial
import Verif.Proof.ConcurrentSafe
import Verif.Props.FontData
/-!
The registry in several threads (C119).
-/
namespace RichText

variable {α : Type}

/-- C119, no data races: whatever programs the threads run, when one is about to write to the registry no other is about to read or
write it. -/
theorem C119_race_free (lib : FontLib) (r : Registry) (ps : List (Prog α)) (c : Conc α) (hr : (Conc.start lib r ps).Reach c) :
    ¬ c.Race := by
  obtain ⟨s, _, h⟩ := (sim_start lib r ps).reach hr
  rintro ⟨i, j, f, k, b, g, hh, hij, hi, hj, hb⟩
  obtain ⟨rfl, _⟩ := h.ok _ _ _ hi
  have hn := h.alone _ _ _ _ _ hij hi hj
  subst hn
  have hk := h.ok _ _ _ hj
  rcases hb with ⟨k', rfl⟩ | ⟨f', k', rfl⟩
  · exact hk.1 rfl
  · cases hk.1

/-- The mutex excludes: a thread that holds it exclusively is the only one that holds it. -/
theorem C119_exclusive (lib : FontLib) (r : Registry) (ps : List (Prog α)) (c : Conc α) (hr : (Conc.start lib r ps).Reach c)
    (i j : Nat) (a b : Act α) (h : LockHeld) (hij : i ≠ j) (hi : c.threads[i]? = some (a, .exclusive))
    (hj : c.threads[j]? = some (b, h)) : h = .none := by
  obtain ⟨s, _, hs⟩ := (sim_start lib r ps).reach hr
  exact hs.alone _ _ _ _ _ hij hi hj

/-- A state of the threads is what is left after whole calls made one after the other: no thread has undefined behaviour, threads that
do not hold the mutex go on with the programs that are left, finished threads have the same results, and while nobody registers a
family the registry is the same. -/
structure Conc.Agrees (lib : FontLib) (c : Conc α) (s : Serial α) : Prop where
  length : c.threads.length = s.threads.length
  defined : ∀ (i : Nat) (a : Act α) (h : LockHeld), c.threads[i]? = some (a, h) → a ≠ .fault
  outside : ∀ (i : Nat) (a : Act α), c.threads[i]? = some (a, LockHeld.none) → ∃ p t, s.threads[i]? = some (p, t) ∧ p.act lib t = a
  results : ∀ (i : Nat) (x : α) (h : LockHeld), c.threads[i]? = some (.done x, h) → ∃ t, s.threads[i]? = some (.done x, t)
  registry : (∀ (i : Nat) (a : Act α), c.threads[i]? ≠ some (a, LockHeld.exclusive)) → c.registry = s.registry

theorem serial_length {lib : FontLib} {s s' : Serial α} (h : Serial.Reach lib s s') : s'.threads.length = s.threads.length := by
  induction h with
  | refl => rfl
  | step _ hs ih => cases hs; simp only [List.length_set]; exact ih

theorem agrees {lib : FontLib} {c : Conc α} {s : Sections α} {q : Serial α} (h : SimSections c s) (hl : Lin lib s q) (hd : q.Defined lib)
    (hlen : c.threads.length = q.threads.length) : c.Agrees lib q := by
  have get : ∀ (i : Nat) (a : Act α) (h : LockHeld), c.threads[i]? = some (a, h) → ∃ b, s.threads[i]? = some b ∧
      (h = .none → b = a) ∧ (h ≠ .none → b = (a.rest h c.registry).1) := by
    intro i a hh hi
    by_cases hn : hh = .none
    · subst hn; exact ⟨a, h.out _ _ hi, fun _ => rfl, fun h => absurd rfl h⟩
    · exact ⟨_, (h.inside _ _ _ hi hn).1, fun e => absurd e hn, fun _ => rfl⟩
  refine ⟨hlen, ?_, ?_, ?_, fun hn => (h.registry hn).trans hl.registry⟩
  · rintro i a hh hi rfl
    obtain ⟨b, hb, e1, e2⟩ := get _ _ _ hi
    obtain ⟨p, t, g1, g2, _⟩ := hl.threads _ _ hb
    refine act_not_fault lib p q i t hd g1 (g2.trans ?_)
    by_cases hn : hh = .none
    · exact e1 hn
    · exact e2 hn
  · intro i a hi
    obtain ⟨p, t, g1, g2, _⟩ := hl.threads _ _ (h.out _ _ hi)
    exact ⟨p, t, g1, g2⟩
  · intro i x hh hi
    obtain rfl : hh = .none := h.ok _ _ _ hi
    obtain ⟨p, t, g1, g2, g3⟩ := hl.threads _ _ (h.out _ _ hi)
    cases g3 x rfl
    exact ⟨t, g1⟩

/-- C119, linearizability: if the calls of the programs are defined in every order of whole calls, then every execution of the threads
is such an order.  It can be read off as the execution goes on: a later state agrees with a continuation of the same order. -/
theorem C119_linearizable (lib : FontLib) (r : Registry) (ps : List (Prog α)) (hd : (Serial.start r ps).Defined lib)
    (c1 c2 : Conc α) (h1 : (Conc.start lib r ps).Reach c1) (h2 : c1.Reach c2) :
    ∃ s1 s2, Serial.Reach lib (Serial.start r ps) s1 ∧ Serial.Reach lib s1 s2 ∧ c1.Agrees lib s1 ∧ c2.Agrees lib s2 := by
  obtain ⟨a1, r1, m1⟩ := (sim_start lib r ps).reach h1
  obtain ⟨s1, q1, l1⟩ := (lin_start lib r ps).reach hd r1
  have d1 := hd.reach q1
  obtain ⟨a2, r2, m2⟩ := m1.reach h2
  obtain ⟨s2, q2, l2⟩ := l1.reach d1 r2
  have len : ∀ {c : Conc α}, (Conc.start lib r ps).Reach c → c.threads.length = ps.length := by
    intro c hc
    induction hc with
    | refl => simp [Conc.start]
    | step _ hs ih => cases hs <;> simpa only [List.length_set] using ih
  have len2 : c2.threads.length = c1.threads.length := by
    clear m2 r2
    induction h2 with
    | refl => rfl
    | step _ hs ih => cases hs <;> simpa only [List.length_set] using ih
  have lens : (Serial.start r ps).threads.length = ps.length := by simp [Serial.start]
  refine ⟨s1, s2, q1, q2, agrees m1 l1 d1 ?_, agrees m2 l2 (d1.reach q2) ?_⟩
  · rw [len h1, serial_length q1, lens]
  · rw [len2, len h1, serial_length q2, serial_length q1, lens]

/-! ### Executions end -/

/-- C119, nobody waits for ever, if the mutex lets readers in whenever nobody holds it exclusively (otherwise see
`C49_violated_deadlock`): while a thread is not finished, some thread can go on. -/
theorem C119_progress (lib : FontLib) (r : Registry) (ps : List (Prog α)) (hd : (Serial.start r ps).Defined lib)
    (c : Conc α) (hr : (Conc.start lib r ps).Reach c) (i : Nat) (a : Act α) (h : LockHeld) (hi : c.threads[i]? = some (a, h))
    (ha : ∀ x, a ≠ .done x) : ∃ j c', c.Step j c' := by
  obtain ⟨s1, _, _, _, ag, _⟩ := C119_linearizable lib r ps hd c c hr .refl
  obtain ⟨s, _, hs⟩ := (sim_start lib r ps).reach hr
  by_cases hex : ∃ (j : Nat) (b : Act α), c.threads[j]? = some (b, LockHeld.exclusive)
  · obtain ⟨j, b, hj⟩ := hex
    have hb := hs.ok _ _ _ hj
    cases b with
    | done x => cases hb
    | fault => exact absurd rfl (ag.defined _ _ _ hj)
    | read k => exact ⟨j, _, .read hj⟩
    | write f k => exact ⟨j, _, .write hj⟩
    | op o k =>
      obtain ⟨h', e, _⟩ := hb
      refine ⟨j, _, .op hj e ?_⟩
      cases o <;> first | trivial | cases e
  · by_cases hsh : ∃ (j : Nat) (b : Act α) (g : LockHeld), c.threads[j]? = some (b, g) ∧ g ≠ .none
    · obtain ⟨j, b, g, hj, hg⟩ := hsh
      have hb := hs.ok _ _ _ hj
      cases b with
      | done x => exact absurd hb hg
      | fault => exact absurd rfl (ag.defined _ _ _ hj)
      | read k => exact ⟨j, _, .read hj⟩
      | write f k => exact ⟨j, _, .write hj⟩
      | op o k =>
        obtain ⟨h', e, _⟩ := hb
        refine ⟨j, _, .op hj e ?_⟩
        cases o with
        | lockShared =>
          intro x hx hx'
          obtain ⟨m, hm⟩ := List.getElem?_of_mem hx
          exact hex ⟨m, x.1, by rw [hm, ← hx']⟩
        | lock => cases g <;> first | exact absurd rfl hg | cases e
        | unlockShared => trivial
        | unlock => trivial
    · have all : ∀ x ∈ c.threads, x.2 = LockHeld.none := by
        intro x hx
        obtain ⟨m, hm⟩ := List.getElem?_of_mem hx
        exact Decidable.byContradiction fun hne => hsh ⟨m, x.1, x.2, hm, hne⟩
      obtain rfl : h = .none := all _ (List.mem_of_getElem? hi)
      have hb := hs.ok _ _ _ hi
      cases a with
      | done x => exact absurd rfl (ha x)
      | fault => exact absurd rfl (ag.defined _ _ _ hi)
      | read k => exact absurd rfl hb.1
      | write f k => cases hb.1
      | op o k =>
        obtain ⟨h', e, _⟩ := hb
        refine ⟨i, _, .op hi e ?_⟩
        cases o with
        | lockShared => intro x hx e; rw [all x hx] at e; cases e
        | lock => exact all
        | unlockShared => trivial
        | unlock => trivial

/-- One thread goes on. -/
inductive Act.Next : Act α → Act α → Prop
  | op {o : LockOp} {k : Act α} : Next k (.op o k)
  | misuse {o : LockOp} {k : Act α} : Next .fault (.op o k)
  | read {k : Registry → Act α} {r : Registry} : Next (k r) (.read k)
  | write {f : Registry → Registry} {k : Act α} : Next k (.write f k)

theorem Act.next_wf (a : Act α) : Acc Act.Next a := by
  have hf : Acc Act.Next (.fault : Act α) := ⟨_, fun b h => by cases h⟩
  induction a with
  | done x => exact ⟨_, fun b h => by cases h⟩
  | fault => exact hf
  | op o k ih => refine ⟨_, fun b h => ?_⟩; cases h; exacts [ih, hf]
  | read k ih => refine ⟨_, fun b h => ?_⟩; cases h; exact ih _
  | write f k ih => refine ⟨_, fun b h => ?_⟩; cases h; exact ih

/-- One of the threads goes on. -/
def NextOf (l' l : List (Act α × LockHeld)) : Prop :=
  ∃ (i : Nat) (a b : Act α) (g h : LockHeld), l[i]? = some (a, g) ∧ Act.Next b a ∧ l' = l.set i (b, h)

theorem nextOf_wf (l : List (Act α × LockHeld)) : Acc NextOf l := by
  induction l with
  | nil => exact ⟨_, fun l' ⟨i, a, b, g, h, e, _⟩ => by cases e⟩
  | cons x xs ih =>
    obtain ⟨a, g⟩ := x
    have ha := Act.next_wf a
    induction ha generalizing g xs with
    | intro a _ iha =>
      induction ih generalizing g with
      | intro xs hxs ihx =>
        refine ⟨_, ?_⟩
        rintro l' ⟨i, a', b, g', h, e, hn, rfl⟩
        cases i with
        | zero => cases e; exact iha b hn _ ⟨_, hxs⟩ h
        | succ i => exact ihx _ ⟨i, a', b, g', h, e, hn, rfl⟩ g

theorem step_nextOf {c c' : Conc α} {i : Nat} (h : c.Step i c') : NextOf c'.threads c.threads := by
  cases h with
  | op h1 _ _ => exact ⟨_, _, _, _, _, h1, .op, rfl⟩
  | misuse h1 _ => exact ⟨_, _, _, _, _, h1, .misuse, rfl⟩
  | read h1 => exact ⟨_, _, _, _, _, h1, .read, rfl⟩
  | write h1 => exact ⟨_, _, _, _, _, h1, .write, rfl⟩

/-- C119, every execution ends: there is no infinite one. -/
theorem C119_terminates (f : Nat → Conc α) : ¬ ∀ n, ∃ i, (f n).Step i (f (n + 1)) := by
  intro h
  have : ∀ l, Acc (NextOf (α := α)) l → ∀ n, (f n).threads = l → False := by
    intro l hl
    induction hl with
    | intro l _ ih =>
      rintro n rfl
      obtain ⟨i, hi⟩ := h n
      exact ih _ (step_nextOf hi) (n + 1) rfl
  exact this _ (nextOf_wf _) 0 rfl

/-- C119, together: from every state that is reached the threads can only go on until all are finished, with the registry and the
results of whole calls made one after the other. -/
theorem C119_finish (lib : FontLib) (r : Registry) (ps : List (Prog α)) (hd : (Serial.start r ps).Defined lib)
    (c : Conc α) (hr : (Conc.start lib r ps).Reach c) (hend : ¬ ∃ i c', c.Step i c') :
    ∃ s, Serial.Reach lib (Serial.start r ps) s ∧ s.registry = c.registry ∧ s.threads.length = ps.length ∧
      ∀ i, i < ps.length → ∃ x t h, c.threads[i]? = some (.done x, h) ∧ s.threads[i]? = some (.done x, t) := by
  obtain ⟨s, _, q, _, ag, _⟩ := C119_linearizable lib r ps hd c c hr .refl
  have hlen : s.threads.length = ps.length := by rw [serial_length q]; simp [Serial.start]
  have all : ∀ (i : Nat) (a : Act α) (h : LockHeld), c.threads[i]? = some (a, h) → ∃ x, a = .done x := by
    intro i a h hi
    cases a with
    | done x => exact ⟨x, rfl⟩
    | fault => exact absurd (C119_progress lib r ps hd c hr i _ h hi (by intro x e; cases e)) hend
    | op o k => exact absurd (C119_progress lib r ps hd c hr i _ h hi (by intro x e; cases e)) hend
    | read k => exact absurd (C119_progress lib r ps hd c hr i _ h hi (by intro x e; cases e)) hend
    | write f k => exact absurd (C119_progress lib r ps hd c hr i _ h hi (by intro x e; cases e)) hend
  obtain ⟨m, _, hs⟩ := (sim_start lib r ps).reach hr
  refine ⟨s, q, ?_, hlen, ?_⟩
  · refine (ag.registry fun i a hi => ?_).symm
    obtain ⟨x, rfl⟩ := all _ _ _ hi
    cases hs.ok _ _ _ hi
  · intro i hi
    rw [← hlen, ← ag.length] at hi
    obtain ⟨⟨a, h⟩, hx⟩ : ∃ y, c.threads[i]? = some y := ⟨_, List.getElem?_eq_getElem hi⟩
    obtain ⟨x, rfl⟩ := all _ _ _ hx
    obtain ⟨t, ht⟩ := ag.results _ _ _ hx
    exact ⟨x, t, h, hx, ht⟩

/-! ### Example -/

/-- Only Sans is registered. -/
def concRegistry : Registry := (registerAll demoLib [demoSans] .init).getD .init

/-- One thread registers the family that Sans falls back to, another asks which font draws a Han character and a Latin letter. -/
def concCall : SubFontCall := ⟨demoFont, [(3, 0x4e00), (1, 0x41)], 0, 4, 1, false, false, false⟩
def concPrograms : List (Prog Nat) := [.register demoCjk fun _ => .done 0, .getSubFont concCall fun x => .done x.2]

/-- The calls in both orders. -/
def concAfter : Registry := ((concRegistry.register demoLib demoCjk).map (·.1)).getD concRegistry
def concResult (r : Registry) : Option Nat :=
  (getSubFont demoLib r .init concCall.font concCall.text concCall.offset concCall.limit concCall.script concCall.smallcaps
    concCall.subscript concCall.superscript).map fun x => x.2.2

theorem conc_results : concResult concRegistry = some 4 ∧ concResult concAfter = some 3 ∧
    (concRegistry.register demoLib demoCjk).isSome := by decide +kernel

theorem conc_serial (s : Serial Nat) (hs : Serial.Reach demoLib (.start concRegistry concPrograms) s) :
    ∃ p0 p1 t0 t1, s.threads = [(p0, t0), (p1, t1)] ∧
      (p0 = .register demoCjk (fun _ => .done 0) ∧ s.registry = concRegistry ∨ p0 = .done 0 ∧ s.registry = concAfter) ∧
      (p1 = .getSubFont concCall (fun x => .done x.2) ∧ t1 = .init ∨ p1 = .done 3 ∨ p1 = .done 4) := by
  induction hs with
  | refl => exact ⟨_, _, _, _, rfl, .inl ⟨rfl, rfl⟩, .inl ⟨rfl, rfl⟩⟩
  | @step s' s'' i _ hs ih =>
    obtain ⟨p0, p1, t0, t1, e, h0, h1⟩ := ih
    cases hs with
    | @call p p' t t' r' hi hc =>
      rw [e] at hi ⊢
      match i, hi with
      | 0, hi =>
        cases hi
        rcases h0 with ⟨rfl, hr⟩ | ⟨rfl, hr⟩
        · rw [hr, Serial.call] at hc
          obtain ⟨x, hx, e⟩ := Option.map_eq_some_iff.1 hc
          cases e
          exact ⟨_, _, _, _, rfl, .inr ⟨rfl, by rw [concAfter, hx]; rfl⟩, h1⟩
        · cases hc
          exact ⟨_, _, _, _, rfl, .inr ⟨rfl, hr⟩, h1⟩
      | 1, hi =>
        cases hi
        rcases h1 with ⟨rfl, rfl⟩ | rfl | rfl
        · rw [Serial.call] at hc
          obtain ⟨x, hx, e⟩ := Option.map_eq_some_iff.1 hc
          cases e
          have hres : concResult s'.registry = some x.2.2 := by rw [concResult, hx]; rfl
          have hreg : s'.registry = concRegistry ∨ s'.registry = concAfter := h0.imp (·.2) (·.2)
          refine ⟨_, _, _, _, rfl, h0, .inr ?_⟩
          rcases hreg with hr | hr
          · rw [hr, conc_results.1] at hres
            exact .inr (congrArg Prog.done (Option.some.inj hres).symm)
          · rw [hr, conc_results.2.1] at hres
            exact .inl (congrArg Prog.done (Option.some.inj hres).symm)
        · cases hc; exact ⟨_, _, _, _, rfl, h0, .inr (.inl rfl)⟩
        · cases hc; exact ⟨_, _, _, _, rfl, h0, .inr (.inr rfl)⟩

theorem conc_defined : (Serial.start concRegistry concPrograms).Defined demoLib := by
  intro s hs i p t hi
  obtain ⟨p0, p1, t0, t1, e, h0, h1⟩ := conc_serial s hs
  rw [e] at hi
  match i, hi with
  | 0, hi =>
    cases hi
    rcases h0 with ⟨rfl, hr⟩ | ⟨rfl, hr⟩
    · rw [Serial.call, hr, Option.isSome_map]
      exact conc_results.2.2
    · rfl
  | 1, hi =>
    cases hi
    rcases h1 with ⟨rfl, rfl⟩ | rfl | rfl
    · rw [Serial.call, Option.isSome_map]
      rcases h0 with ⟨rfl, hr⟩ | ⟨rfl, hr⟩
      · have := conc_results.1
        rw [hr]
        rw [concResult, Option.map_eq_some_iff] at this
        obtain ⟨x, hx, _⟩ := this
        rw [hx]; rfl
      · have := conc_results.2.1
        rw [hr]
        rw [concResult, Option.map_eq_some_iff] at this
        obtain ⟨x, hx, _⟩ := this
        rw [hx]; rfl
    · rfl
    · rfl

/-- However the steps of the two threads come, the second gets 3 (the fallback family was there) or 4 (it was not), and the family is
registered in the end. -/
example (c : Conc Nat) (hr : (Conc.start demoLib concRegistry concPrograms).Reach c) (hend : ¬ ∃ i c', c.Step i c') :
    c.registry = concAfter ∧ ∃ h, c.threads[1]? = some (.done 3, h) ∨ c.threads[1]? = some (.done 4, h) := by
  obtain ⟨s, q, e, _, g⟩ := C119_finish _ _ _ conc_defined c hr hend
  obtain ⟨p0, p1, t0, t1, es, h0, h1⟩ := conc_serial s q
  obtain ⟨x, t, h, g1, g2⟩ := g 0 (by decide)
  obtain ⟨x', t', h', g1', g2'⟩ := g 1 (by decide)
  rw [es] at g2 g2'
  cases g2
  cases g2'
  refine ⟨?_, h', ?_⟩
  · rcases h0 with ⟨h0, _⟩ | ⟨_, h0⟩
    · cases h0
    · rw [← e]; exact h0
  · rcases h1 with ⟨h1, _⟩ | h1 | h1
    · cases h1
    · cases h1; exact .inl g1'
    · cases h1; exact .inr g1'

/-! ### Safe programs -/

/-- C119, no undefined behaviour in whatever order: programs that call the functions with the arguments these ask for, relying only on
the answers of their own calls before, are defined in every order of whole calls.  The registry has any history in which no family
came with an empty array of faces, and its handles have room. -/
theorem C119_safe_defined (lib : FontLib) (hist : List (FamilyInfo × RegistryError)) (r : Registry) (hr : Registry.Ran lib hist r)
    (hne : ∀ x ∈ hist, x.1.faces ≠ some []) (ps : List (Prog α)) (hs : ∀ p ∈ ps, p.Safe lib r)
    (hfit : ∀ s, Serial.Reach lib (Serial.start r ps) s → s.registry.Fits) : (Serial.start r ps).Defined lib := by
  have hinv : ∀ s, Serial.Reach lib (Serial.start r ps) s → SafeState lib s := by
    intro s h
    induction h with
    | refl =>
      refine ⟨⟨hist, hr, hne⟩, ?_⟩
      intro i p t hi
      obtain ⟨q, hq, e⟩ := List.mem_map.1 (List.mem_of_getElem? hi)
      cases e
      exact ⟨hs _ hq, fun x hx => by cases hx⟩
    | step h1 h2 ih => exact ih.step h2 (hfit _ (.step h1 h2))
  exact fun s h i p t hi => (hinv s h).defined (hfit s h) hi

/-- C119, for safe programs: no execution has undefined behaviour, and each one that cannot go on has finished all programs, with the
results and the registry of whole calls made one after the other. -/
theorem C119_safe_programs (lib : FontLib) (hist : List (FamilyInfo × RegistryError)) (r : Registry) (hr : Registry.Ran lib hist r)
    (hne : ∀ x ∈ hist, x.1.faces ≠ some []) (ps : List (Prog α)) (hs : ∀ p ∈ ps, p.Safe lib r)
    (hfit : ∀ s, Serial.Reach lib (Serial.start r ps) s → s.registry.Fits) (c : Conc α) (hc : (Conc.start lib r ps).Reach c) :
    (∀ (i : Nat) (h : LockHeld), c.threads[i]? ≠ some (.fault, h)) ∧
    ((¬ ∃ i c', c.Step i c') → ∃ s, Serial.Reach lib (Serial.start r ps) s ∧ s.registry = c.registry ∧
      s.threads.length = ps.length ∧
      ∀ i, i < ps.length → ∃ x t h, c.threads[i]? = some (.done x, h) ∧ s.threads[i]? = some (.done x, t)) := by
  have hd := C119_safe_defined lib hist r hr hne ps hs hfit
  refine ⟨?_, C119_finish lib r ps hd c hc⟩
  intro i h hi
  obtain ⟨_, _, _, _, ag, _⟩ := C119_linearizable lib r ps hd c c hc .refl
  exact ag.defined _ _ _ hi rfl

/-- A program that registers a family and loads a face of it; another that asks for the family and loads a face if there is one. -/
def safePrograms : List (Prog Bool) :=
  [.register demoCjk fun e => if e = .noFaces then .done false else .getFamily "CJK" fun h => .getFace h 3 .normal fun f =>
      .getData { face := f, size := 12, weight := 3#8, style := .normal } fun d => .done d.isSome,
   .getFamily "Sans" fun h => .getFace h 6 .italic fun f =>
      .getData { face := f, size := 20, weight := 6#8, style := .italic, smallCaps := true } fun d => .register demoCjk fun _ => .done d.isSome]

example : (∀ p ∈ safePrograms, p.Safe demoLib concRegistry) ∧ Registry.Ran demoLib [(demoSans, .none)] concRegistry ∧
    demoSans.faces ≠ some [] := by
  have ran : Registry.Ran demoLib [(demoSans, .none)] concRegistry :=
    Registry.Ran.register (hist := []) .start (by decide +kernel)
  have init : concRegistry.IsInit (concRegistry.getFamily "Sans") := by
    refine ⟨((concRegistry.families)[(concRegistry.getFamily "Sans").toNat]?).getD (.empty demoLib), ?_⟩
    decide +kernel
  have size12 : effectiveSize 12 false (false || false) ≠ none := by decide +kernel
  have size20 : effectiveSize 20 true (false || false) ≠ none := by decide +kernel
  refine ⟨?_, ran, by decide⟩
  intro p hp
  rcases List.mem_cons.1 hp with rfl | hp
  · refine ⟨by decide +kernel, by decide +kernel, ?_⟩
    intro r' e hl he
    have reach' : r'.Reached demoLib := Registry.Steps.trans ran.reached hl.1
    by_cases hne : e = .noFaces
    · subst hne; trivial
    · simp only
      rw [if_neg hne]
      intro r2 hl2
      have i1 := he hne
      have i2 : r2.IsInit (r2.getFamily "CJK") := by
        rw [later_getFamily reach' hl2 (n := "CJK") i1]; exact later_isInit reach' hl2 i1
      exact ⟨i2, by decide, fun r3 f _ _ hf => ⟨hf, size12, fun _ _ _ => trivial⟩⟩
  · rcases List.mem_cons.1 hp with rfl | hp
    · intro r' hl
      rw [later_getFamily ran.reached hl init]
      refine ⟨later_isInit ran.reached hl init, by decide, fun r3 f _ _ hf => ⟨hf, size20, fun _ _ _ => ?_⟩⟩
      exact ⟨by decide +kernel, by decide +kernel, fun _ _ _ _ => trivial⟩
    · cases hp

/-! ### Debug builds -/

/-- The registration of a family that is not known comes to write. -/
theorem register_writes (lib : FontLib) (info : FamilyInfo) (g : RegistryError → Act Unit) (r : Registry)
    (hn : r.familyNames.lookup info.name = none) (a : Act Unit) : ∃ f k,
    Conc.Reach ⟨r, [(a, .none), ((registerAct lib info).bind g, .none)]⟩ ⟨r, [(a, .none), (.write f k, .exclusive)]⟩ := by
  have h1 : Conc.Reach ⟨r, [(a, .none), ((registerAct lib info).bind g, .none)]⟩ ⟨r, [(a, .none),
      (((registerBody lib info).bind fun e => .op .unlock (.done e)).bind g, .exclusive)]⟩ := by
    refine .step .refl (.op (i := 1) rfl rfl ?_)
    intro x hx
    rcases List.mem_cons.1 hx with rfl | hx
    · rfl
    · rcases List.mem_cons.1 hx with rfl | hx
      · rfl
      · cases hx
  have e : ∃ k1, ((registerBody lib info).bind fun e => .op .unlock (.done e)).bind g = .read k1 ∧
      ∃ k2, k1 r = .read k2 ∧ ∃ f k, k2 r = .write f k := by
    refine ⟨_, rfl, ?_⟩
    simp only [hn]
    exact ⟨_, rfl, _, _, rfl⟩
  obtain ⟨k1, e1, k2, e2, f, k, e3⟩ := e
  rw [e1] at h1
  have h2 := Conc.Reach.step h1 (.read (i := 1) rfl)
  simp only [List.set, e2] at h2
  have h3 := Conc.Reach.step h2 (.read (i := 1) rfl)
  simp only [List.set, e3] at h3
  exact ⟨f, k, h3⟩

/-- C119 fails in debug builds: the assertion of `get_font_data(Font)` reads `g_familyData` without the mutex, so it races with the
registration of a family. -/
theorem C119_assert_violated : ∃ (lib : FontLib) (r : Registry) (font : Font) (info : FamilyInfo) (c : Conc Unit), r.Reached lib ∧
    Conc.Reach ⟨r, [((fontDataChecked lib .init font).bind fun _ => .done (), .none),
      ((registerAct lib info).bind fun _ => .done (), .none)]⟩ c ∧ c.Race := by
  obtain ⟨f, k, h⟩ := register_writes demoLib demoEmpty (fun _ => .done ()) demoRegistry (by decide +kernel)
    ((fontDataChecked demoLib .init demoFont).bind fun _ => .done ())
  exact ⟨demoLib, demoRegistry, demoFont, demoEmpty, _, demoRegistry_steps, h,
    1, 0, f, k, _, .exclusive, .none, by decide, rfl, rfl, .inl ⟨_, rfl⟩⟩

end RichText
