import Verif.Proof.ConcurrentCalls
/-!
Whole sections are whole calls (C119).
-/
namespace RichText
open Act

variable {α : Type}

/-! ### Every access is guarded -/

theorem body_fontData (lib : FontLib) (t : FontThread) (q : FontRequest) : (fontDataAct lib t q).Body .none .none := by
  unfold fontDataAct
  split
  · trivial
  · split
    · rfl
    · refine ⟨.shared 0, rfl, fun h => LockHeld.noConfusion h, fun r => ?_⟩
      show Act.Body _ _ (match r.faces[q.face.handle.toNat]? with | none => _ | some fd => _)
      split
      · trivial
      · exact ⟨.none, rfl, rfl⟩

theorem body_prog (lib : FontLib) : ∀ (p : Prog α) (t : FontThread), (p.act lib t).Body .none .none := by
  intro p
  induction p with
  | done a => intro t; rfl
  | getFamily n k ih =>
    intro t
    refine Body.bind (fun x => ih x t) ?_
    exact ⟨.shared 0, rfl, fun h => LockHeld.noConfusion h, fun r => ⟨.none, rfl, rfl⟩⟩
  | getFace h w s k ih =>
    intro t
    refine Body.bind (fun x => ih x t) ?_
    refine ⟨.shared 0, rfl, fun h => LockHeld.noConfusion h, fun r => ?_⟩
    show Act.Body _ _ (match r.faceOf h w s with | none => _ | some f => _)
    split
    · trivial
    · exact ⟨.none, rfl, rfl⟩
  | getData q k ih => intro t; exact Body.bind (fun x => ih _ _) (body_fontData ..)
  | getSubFont a k ih =>
    intro t
    refine Body.bind (fun x => ih _ _) ⟨.shared 0, rfl, Body.bind (fun x => ?_) (inner_subFont ..).2⟩
    exact ⟨.none, rfl, rfl⟩
  | register i k ih =>
    intro t
    refine Body.bind (fun x => ih _ _) ⟨.exclusive, rfl, Body.bind (fun x => ?_) (inner_register ..).2⟩
    exact ⟨.none, rfl, rfl⟩

/-! ### Sections and calls -/

namespace Serial

theorem Reach.trans {lib : FontLib} {a b c : Serial α} (h1 : Reach lib a b) (h2 : Reach lib b c) : Reach lib a c := by
  induction h2 with
  | refl => exact h1
  | step _ hs ih => exact .step ih hs

theorem Defined.reach {lib : FontLib} {a b : Serial α} (h : Defined lib a) (hr : Reach lib a b) : Defined lib b :=
  fun s' hs => h s' (hr.trans hs)

/-- What the next call of a thread yields. -/
theorem Defined.next {lib : FontLib} {s : Serial α} (hd : Defined lib s) {i : Nat} {p : Prog α} {t : FontThread}
    (hi : s.threads[i]? = some (p, t)) : ∃ p' t' r', call lib s.registry p t = some (p', t', r') ∧
      Reach lib s ⟨r', s.threads.set i (p', t')⟩ := by
  obtain ⟨⟨p', t', r'⟩, h⟩ := Option.isSome_iff_exists.1 (hd s .refl i p t hi)
  exact ⟨p', t', r', h, .step .refl (.call hi h)⟩

end Serial

/-- What a program goes on with after calls that need no section. -/
theorem settle (lib : FontLib) : ∀ (p : Prog α) (s : Serial α) (i : Nat) (t : FontThread), s.Defined lib →
    s.threads[i]? = some (p, t) → ∃ p' t', Serial.Reach lib s ⟨s.registry, s.threads.set i (p', t')⟩ ∧
      p'.act lib t' = p.act lib t ∧ ∀ x, p.act lib t = .done x → p' = .done x := by
  intro p
  induction p with
  | done a =>
    intro s i t hd hi
    refine ⟨.done a, t, ?_, rfl, fun x h => ?_⟩
    · rw [set_same hi]; exact .refl
    · cases h; rfl
  | getFamily n k ih =>
    intro s i t hd hi
    refine ⟨_, t, ?_, rfl, fun x h => by cases h⟩
    rw [set_same hi]; exact .refl
  | getFace h w st k ih =>
    intro s i t hd hi
    refine ⟨_, t, ?_, rfl, fun x h => by cases h⟩
    rw [set_same hi]; exact .refl
  | getSubFont a k ih =>
    intro s i t hd hi
    refine ⟨_, t, ?_, rfl, fun x h => by cases h⟩
    rw [set_same hi]; exact .refl
  | register a k ih =>
    intro s i t hd hi
    refine ⟨_, t, ?_, rfl, fun x h => by cases h⟩
    rw [set_same hi]; exact .refl
  | getData q k ih =>
    intro s i t hd hi
    cases he : q.effective with
    | none =>
      refine ⟨_, t, ?_, rfl, fun x h => ?_⟩
      · rw [set_same hi]; exact .refl
      · rw [Prog.act, fontDataAct, he] at h; cases h
    | some eff =>
      cases hc : t.cache.lookup q.face.handle with
      | none =>
        refine ⟨_, t, ?_, rfl, fun x h => ?_⟩
        · rw [set_same hi]; exact .refl
        · rw [Prog.act, fontDataAct, he] at h
          simp only [hc] at h
          cases h
      | some o =>
        obtain ⟨p', t', r', hn, hr⟩ := hd.next hi
        have hg : getFontData lib s.registry t q =
            some ({ t with cache := setKey q.face.handle (o.resize eff) t.cache }, some ((o.resize eff).data q)) := by
          rw [getFontData, he]
          simp only [hc]
        have ha : (Prog.getData q k).act lib t =
            (k (some ((o.resize eff).data q))).act lib { t with cache := setKey q.face.handle (o.resize eff) t.cache } := by
          rw [Prog.act, fontDataAct, he]
          simp only [hc]
          rfl
        rw [Serial.call, hg] at hn
        cases hn
        have hl := get_lt hi
        obtain ⟨p', t', h1, h2, h3⟩ := ih _ _ i _ (hd.reach hr) (List.getElem?_set_self hl)
        refine ⟨p', t', ?_, ?_, ?_⟩
        · rw [List.set_set] at h1
          exact hr.trans h1
        · rw [ha]; exact h2
        · rw [ha]; exact h3

/-- One section is one call, after calls that need none. -/
theorem section_call (lib : FontLib) : ∀ (p : Prog α) (s : Serial α) (i : Nat) (t : FontThread), s.Defined lib →
    s.threads[i]? = some (p, t) → ∀ (o : LockOp) (a : Act α) (h : LockHeld), p.act lib t = .op o a → LockHeld.none.after o = some h →
    ∃ p' t', Serial.Reach lib s ⟨(a.rest h s.registry).2, s.threads.set i (p', t')⟩ ∧
      p'.act lib t' = (a.rest h s.registry).1 := by
  intro p
  induction p with
  | done x => intro s i t hd hi o a h ha ho; cases ha
  | getFamily n k ih =>
    intro s i t hd hi o a h ha ho
    obtain ⟨p', t', r', hn, hr⟩ := hd.next hi
    cases hn
    cases ha
    cases ho
    exact ⟨_, _, hr, rfl⟩
  | getFace fh w st k ih =>
    intro s i t hd hi o a h ha ho
    obtain ⟨p', t', r', hn, hr⟩ := hd.next hi
    rw [Serial.call] at hn
    cases hf : s.registry.faceOf fh w st with
    | none => rw [hf] at hn; cases hn
    | some f =>
      rw [hf] at hn
      cases hn
      cases ha
      cases ho
      have e : Act.rest (.shared 0) (Act.bind (Act.read fun r => match r.faceOf fh w st with
          | none => .fault | some f => .op .unlockShared (.done f)) fun f => (k f).act lib t) s.registry =
          ((k f).act lib t, s.registry) := by
        simp only [Act.bind, Act.rest, hf]
        rfl
      refine ⟨k f, t, ?_, ?_⟩
      · exact Eq.subst (motive := fun x => Serial.Reach lib s ⟨x.2, s.threads.set i (k f, t)⟩) e.symm hr
      · exact (congrArg Prod.fst e).symm
  | getData q k ih =>
    intro s i t hd hi o a h ha ho
    obtain ⟨p', t', r', hn, hr⟩ := hd.next hi
    rw [Serial.call] at hn
    cases he : q.effective with
    | none => rw [Prog.act, fontDataAct, he] at ha; cases ha
    | some eff =>
      cases hc : t.cache.lookup q.face.handle with
      | some w =>
        have hg : getFontData lib s.registry t q =
            some ({ t with cache := setKey q.face.handle (w.resize eff) t.cache }, some ((w.resize eff).data q)) := by
          rw [getFontData, he]
          simp only [hc]
        have he' : (Prog.getData q k).act lib t =
            (k (some ((w.resize eff).data q))).act lib { t with cache := setKey q.face.handle (w.resize eff) t.cache } := by
          rw [Prog.act, fontDataAct, he]
          simp only [hc]
          rfl
        rw [hg] at hn
        cases hn
        rw [he'] at ha
        obtain ⟨p', t', h1, h2⟩ := ih _ _ i _ (hd.reach hr) (List.getElem?_set_self (get_lt hi)) o a h ha ho
        refine ⟨p', t', ?_, h2⟩
        rw [List.set_set] at h1
        exact hr.trans h1
      | none =>
        rw [Prog.act, fontDataAct, he] at ha
        simp only [hc] at ha
        cases ha
        cases ho
        have hx := run_fontData lib t q s.registry
        rw [fontDataAct, he] at hx
        simp only [hc, Act.run] at hx
        cases hf : s.registry.faces[q.face.handle.toNat]? with
        | none =>
          rw [hf] at hx
          cases hg : getFontData lib s.registry t q with
          | none => rw [hg] at hn; cases hn
          | some x => rw [hg] at hx; cases hx
        | some fd =>
          rw [hf] at hx
          cases hg : getFontData lib s.registry t q with
          | none => rw [hg] at hn; cases hn
          | some x =>
            rw [hg] at hx hn
            simp only [Act.run, Option.map_some, Option.some.injEq, Prod.mk.injEq, and_true] at hx
            cases hn
            have e : Act.rest (.shared 0) (Act.bind (Act.read fun r => match r.faces[q.face.handle.toNat]? with
                | none => .fault | some fd => .op .unlockShared (.done (openFace lib t q eff fd)))
                fun x => (k x.2).act lib x.1) s.registry = ((k x.2).act lib x.1, s.registry) := by
              simp only [Act.bind, Act.rest, hf, hx]
              rfl
            refine ⟨k x.2, x.1, ?_, ?_⟩
            · exact Eq.subst (motive := fun y => Serial.Reach lib s ⟨y.2, s.threads.set i (k x.2, x.1)⟩) e.symm hr
            · exact (congrArg Prod.fst e).symm
  | getSubFont q k ih =>
    intro s i t hd hi o a h ha ho
    obtain ⟨p', t', r', hn, hr⟩ := hd.next hi
    rw [Serial.call] at hn
    obtain ⟨e1, e2⟩ := run_subFont lib t q s.registry
    cases hx : (subFontBody lib (t.log [.lockShared]) q).run s.registry with
    | none =>
      rw [hx] at e1
      rw [← e1] at hn
      cases hn
    | some x =>
      obtain ⟨x, r1⟩ := x
      cases e2 _ hx
      rw [hx] at e1
      rw [← e1] at hn
      cases hn
      cases ha
      cases ho
      have e := (inner_subFont lib (t.log [.lockShared]) q 0).1
        (fun x => (Act.op .unlockShared (.done (x.1.log [.unlockShared], x.2))).bind fun x => (k x.2).act lib x.1) _ _ _ hx
      rw [bind_assoc, e]
      exact ⟨_, _, hr, rfl⟩
  | register info k ih =>
    intro s i t hd hi o a h ha ho
    obtain ⟨p', t', r', hn, hr⟩ := hd.next hi
    rw [Serial.call] at hn
    have e1 := run_register lib info s.registry
    cases hx : s.registry.register lib info with
    | none => rw [hx] at hn; cases hn
    | some x =>
      rw [hx] at hn e1
      cases hn
      cases ha
      cases ho
      have e := (inner_register lib info).1
        (fun x => (Act.op .unlock (.done x)).bind fun x => (k x).act lib t) _ _ _ e1
      rw [bind_assoc, e]
      exact ⟨_, _, hr, rfl⟩

/-- A program whose calls are defined does not begin with undefined behaviour. -/
theorem act_not_fault (lib : FontLib) : ∀ (p : Prog α) (s : Serial α) (i : Nat) (t : FontThread), s.Defined lib →
    s.threads[i]? = some (p, t) → p.act lib t ≠ .fault := by
  intro p
  induction p with
  | done x => intro s i t hd hi h; cases h
  | getFamily n k ih => intro s i t hd hi h; cases h
  | getFace fh w st k ih => intro s i t hd hi h; cases h
  | getSubFont q k ih => intro s i t hd hi h; cases h
  | register info k ih => intro s i t hd hi h; cases h
  | getData q k ih =>
    intro s i t hd hi h
    obtain ⟨p', t', r', hn, hr⟩ := hd.next hi
    rw [Serial.call] at hn
    cases he : q.effective with
    | none => rw [getFontData, he] at hn; cases hn
    | some eff =>
      rw [Prog.act, fontDataAct, he] at h
      cases hc : t.cache.lookup q.face.handle with
      | none => simp only [hc] at h; cases h
      | some w =>
        simp only [hc] at h
        rw [getFontData, he] at hn
        simp only [hc] at hn
        cases hn
        exact ih _ _ i _ (hd.reach hr) (List.getElem?_set_self (get_lt hi)) h

/-- The registry and what each thread goes on with are the same. -/
structure Lin (lib : FontLib) (c : Sections α) (s : Serial α) : Prop where
  registry : c.registry = s.registry
  threads : ∀ (i : Nat) (a : Act α), c.threads[i]? = some a → ∃ p t, s.threads[i]? = some (p, t) ∧ p.act lib t = a ∧
    ∀ x, a = .done x → p = .done x

theorem Lin.step {lib : FontLib} {c c' : Sections α} {s : Serial α} {i : Nat} (h : Lin lib c s) (hd : s.Defined lib)
    (hs : c.Step i c') : ∃ s', Serial.Reach lib s s' ∧ Lin lib c' s' := by
  cases hs with
  | @mk o k hh hi ha hn =>
    obtain ⟨p, t, h1, h2, h3⟩ := h.threads _ _ hi
    obtain ⟨p1, t1, g1, g2⟩ := section_call lib p s i t hd h1 o k hh h2 ha
    have hl := get_lt h1
    obtain ⟨p2, t2, f1, f2, f3⟩ := settle lib p1 _ i t1 (hd.reach g1) (List.getElem?_set_self hl)
    rw [List.set_set] at f1
    refine ⟨_, g1.trans f1, by rw [h.registry], ?_⟩
    intro j a hj
    rcases set_get hj with ⟨rfl, e, _⟩ | ⟨hij, hj'⟩
    · subst e
      refine ⟨p2, t2, List.getElem?_set_self hl, ?_, ?_⟩
      · rw [f2, g2, h.registry]
      · intro x hx
        refine f3 x ?_
        rw [g2, ← h.registry]
        exact hx
    · simp only [List.getElem?_set_ne hij]
      exact h.threads _ _ hj'

theorem Lin.reach {lib : FontLib} {c c' : Sections α} {s : Serial α} (h : Lin lib c s) (hd : s.Defined lib)
    (hr : c.Reach c') : ∃ s', Serial.Reach lib s s' ∧ Lin lib c' s' := by
  induction hr with
  | refl => exact ⟨s, .refl, h⟩
  | step _ hs ih =>
    obtain ⟨s1, h1, h2⟩ := ih
    obtain ⟨s2, h3, h4⟩ := h2.step (hd.reach h1) hs
    exact ⟨s2, h1.trans h3, h4⟩

theorem SimSections.reach {c c' : Conc α} {s : Sections α} (h : SimSections c s) (hr : c.Reach c') : ∃ s', s.Reach s' ∧ SimSections c' s' := by
  induction hr with
  | refl => exact ⟨s, .refl, h⟩
  | step _ hs ih =>
    obtain ⟨s1, h1, h2⟩ := ih
    obtain ⟨s2, h3, h4⟩ := h2.step hs
    exact ⟨s2, h1.trans h3, h4⟩

theorem sim_start (lib : FontLib) (r : Registry) (ps : List (Prog α)) :
    SimSections (Conc.start lib r ps) ⟨r, ps.map fun p => p.act lib .init⟩ := by
  have get : ∀ (i : Nat) (a : Act α) (h : LockHeld), (Conc.start lib r ps).threads[i]? = some (a, h) →
      h = .none ∧ ∃ p, ps[i]? = some p ∧ a = p.act lib .init := by
    intro i a h hi
    simp only [Conc.start, List.getElem?_map] at hi
    cases hp : ps[i]? with
    | none => rw [hp] at hi; cases hi
    | some p => rw [hp] at hi; cases hi; exact ⟨rfl, p, rfl, rfl⟩
  refine ⟨?_, ?_, ?_, ?_, fun _ => rfl, by simp [Conc.start]⟩
  · intro i a h hi
    obtain ⟨rfl, p, _, rfl⟩ := get _ _ _ hi
    exact body_prog lib p _
  · intro i a hi
    obtain ⟨_, p, hp, rfl⟩ := get _ _ _ hi
    simp only [List.getElem?_map, hp, Option.map_some]
  · intro i a h hi hn
    exact absurd (get _ _ _ hi).1 hn
  · intro i j a b h hij hi hj
    exact (get _ _ _ hj).1

theorem lin_start (lib : FontLib) (r : Registry) (ps : List (Prog α)) :
    Lin lib ⟨r, ps.map fun p => p.act lib .init⟩ (Serial.start r ps) := by
  refine ⟨rfl, ?_⟩
  intro i a hi
  simp only [List.getElem?_map] at hi
  cases hp : ps[i]? with
  | none => rw [hp] at hi; cases hi
  | some p =>
    rw [hp] at hi
    cases hi
    refine ⟨p, .init, by simp [Serial.start, hp], rfl, ?_⟩
    intro x hx
    cases p with
    | done a => cases hx; rfl
    | getFamily n k => cases hx
    | getFace h w s k => cases hx
    | getSubFont a k => cases hx
    | register i k => cases hx
    | getData q k =>
      replace hx : (Prog.getData q k).act lib .init = .done x := hx
      rw [Prog.act, fontDataAct] at hx
      cases he : q.effective with
      | none => rw [he] at hx; cases hx
      | some eff => rw [he] at hx; cases hx

end RichText
