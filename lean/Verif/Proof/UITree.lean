import Verif.Proof.UIObject
/-! Recalculation of absolute positions, and the states of clean histories. -/
namespace RichText

namespace Ui
variable {α : Type}

/-- Only absolute positions and the log differ. -/
structure Same (u v : Ui α) : Prop where
  alive : v.alive = u.alive
  held : v.held = u.held
  count : v.count = u.count
  obj : ∀ j, v.obj j = { u.obj j with abs := (v.obj j).abs }

theorem Same.refl (u : Ui α) : Same u u := ⟨rfl, rfl, rfl, fun _ => rfl⟩

theorem Same.trans {u v w : Ui α} (h : Same u v) (h' : Same v w) : Same u w :=
  ⟨h'.alive.trans h.alive, h'.held.trans h.held, h'.count.trans h.count, fun j => by rw [h'.obj j, h.obj j]⟩

theorem Same.links {u v : Ui α} (h : Same u v) (j : Nat) : (v.obj j).parent = (u.obj j).parent ∧ (v.obj j).first = (u.obj j).first ∧
    (v.obj j).next = (u.obj j).next ∧ (v.obj j).prev = (u.obj j).prev ∧ (v.obj j).last = (u.obj j).last ∧ (v.obj j).pos = (u.obj j).pos ∧
    (v.obj j).visible = (u.obj j).visible := by
  rw [h.obj j]; simp

theorem Rep.same {u v : Ui α} {t : Attached} {x : Option Nat} (h : Rep u t x) (hs : Same u v) : Rep v t x := by
  refine ⟨h.nodup, ?_, ?_, ?_, ?_, ?_, ?_, ?_, h.acyc⟩
  · rw [hs.alive]; exact h.known
  · rw [hs.alive, hs.count]
    intro i hi
    rw [(hs.links i).1, (hs.links i).2.2.2.1, (hs.links i).2.2.2.2.1]
    exact h.below i hi
  · rw [hs.alive]; intro i hi hx; rw [lock_alive hs.alive, (hs.links i).1]; exact h.parent i hi hx
  · rw [hs.alive]; intro i hi; rw [(hs.links i).2.1]; exact h.first i hi
  · rw [hs.alive]; intro i hi; rw [lock_alive hs.alive, (hs.links i).2.2.2.2.1]; exact h.last i hi
  · rw [hs.alive]; intro i hi; exact (h.seg i hi).congr hs.alive fun a _ => ⟨(hs.links a).2.2.2.1, (hs.links a).2.2.1⟩
  · rw [hs.alive, hs.held]; intro i hi hp; rw [(hs.links i).2.2.1]; exact h.free i hi hp

end Ui

/-- Below an object, or the object itself. -/
def Attached.Under (t : Attached) (e a : Nat) : Prop := ∃ k, t.ancestor k e = some a

theorem Attached.Under.refl (t : Attached) (a : Nat) : t.Under a a := ⟨0, rfl⟩

theorem Attached.under_iff {t : Attached} (hn : (t.map Prod.fst).Nodup) {e a : Nat} : t.Under e a ↔ e = a ∨ ∃ c ∈ t.kids a, t.Under e c := by
  constructor
  · rintro ⟨k, hk⟩
    cases k with
    | zero => exact .inl (Option.some.inj hk)
    | succ k =>
      rw [Attached.ancestor, Option.bind_eq_some_iff] at hk
      obtain ⟨c, h1, h2⟩ := hk
      exact .inr ⟨c, Attached.mem_kids.2 ((Attached.parent_eq hn).1 h2), k, h1⟩
  · rintro (rfl | ⟨c, hc, k, hk⟩)
    · exact .refl t e
    · refine ⟨k + 1, ?_⟩
      rw [Attached.ancestor, hk, Option.bind_some]
      exact (Attached.parent_eq hn).2 (Attached.mem_kids.1 hc)

theorem Attached.under_parent {t : Attached} {e a p : Nat} (hp : t.parent e = some p) (h : t.Under p a) : t.Under e a := by
  obtain ⟨k, hk⟩ := h
  refine ⟨k + 1, ?_⟩
  have : ∀ k, t.ancestor (k + 1) e = t.ancestor k p := by
    intro k
    induction k with
    | zero => simpa only [Attached.ancestor, Option.bind_some] using hp
    | succ k ih => rw [Attached.ancestor, ih, Attached.ancestor]
  rw [this, hk]

/-- An acyclic tree: nothing is below itself. -/
theorem Attached.ancestor_ne {t : Attached} (hn : (t.map Prod.fst).Nodup) (hw : ∀ i, Acc (fun c p => (c, p) ∈ t) i) (a k : Nat) :
    t.ancestor (k + 1) a ≠ some a := by
  have key : ∀ a, Acc (fun c p => (c, p) ∈ t) a → ∀ k, t.ancestor (k + 1) a ≠ some a := by
    intro a ha
    induction ha with
    | intro x _ ih =>
      intro k hk
      rw [Attached.ancestor, Option.bind_eq_some_iff] at hk
      obtain ⟨c, h1, h2⟩ := hk
      -- the child on the way down
      refine ih c ((Attached.parent_eq hn).1 h2) k ?_
      have : ∀ k, t.ancestor (k + 1) c = t.ancestor k x := by
        intro k
        induction k with
        | zero => simpa only [Attached.ancestor, Option.bind_some] using h2
        | succ k ih => rw [Attached.ancestor, ih, Attached.ancestor]
      rw [this, h1]
  exact key a (hw a) k

/-- How often an object `k` levels below is recalculated. -/
def recalcs : Nat → Nat
  | 0 => 1
  | k + 1 => 2 ^ k

namespace Ui
variable {α : Type} [Add α]

/-- The absolute position is that given by the parent. -/
def Placed (u : Ui α) (i : Nat) : Prop := (u.obj i).abs = u.place i

/-- What a recalculation of the objects in `S` does: their positions become right, nothing
else changes. -/
structure Fixed (u v : Ui α) (S : Nat → Prop) (L : List Nat) : Prop where
  same : Same u v
  out : ∀ e, ¬ S e → (v.obj e).abs = (u.obj e).abs
  placed : ∀ e ∈ u.alive, S e → v.Placed e
  log : v.log = u.log ++ L

theorem place_eq {u v : Ui α} (h : Same u v) {e : Nat} (hp : ∀ p, u.lock (u.obj e).parent = some p → (v.obj p).abs = (u.obj p).abs) :
    v.place e = u.place e := by
  unfold place
  rw [lock_alive h.alive, (h.links e).1, (h.links e).2.2.2.2.2.1]
  cases hl : u.lock (u.obj e).parent with
  | none => rfl
  | some p => simp only [hp p hl]

/-- Two recalculations, the second of which cannot spoil the first. -/
theorem Fixed.comp {u v w : Ui α} {S T : Nat → Prop} {L M : List Nat} (h : Fixed u v S L) (h' : Fixed v w T M)
    (hT : ∀ e ∈ u.alive, ∀ p, u.lock (u.obj e).parent = some p → T p → T e) : Fixed u w (fun e => S e ∨ T e) (L ++ M) := by
  refine ⟨h.same.trans h'.same, ?_, ?_, by rw [h'.log, h.log, List.append_assoc]⟩
  · intro e he
    rw [h'.out e (fun x => he (.inr x)), h.out e (fun x => he (.inl x))]
  · intro e ha he
    by_cases hTe : T e
    · exact h'.placed e (by rw [h.same.alive]; exact ha) hTe
    · have hS : S e := he.resolve_right hTe
      have h1 := h.placed e ha hS
      unfold Placed at h1 ⊢
      rw [h'.out e hTe, h1]
      symm
      apply place_eq h'.same
      intro p hp
      apply h'.out
      intro hTp
      rw [lock_alive h.same.alive, (h.same.links e).1] at hp
      exact hTe (hT e ha p hp hTp)

theorem Fixed.set {u v : Ui α} {S T : Nat → Prop} {L : List Nat} (h : Fixed u v S L) (hST : ∀ e, S e ↔ T e) : Fixed u v T L :=
  ⟨h.same, fun e he => h.out e (fun x => he ((hST e).1 x)), fun e ha he => h.placed e ha ((hST e).2 he), h.log⟩

theorem closed {u : Ui α} {t : Attached} (h : Rep u t none) {c e p : Nat} (he : e ∈ u.alive) (hp : u.lock (u.obj e).parent = some p) (hu : t.Under p c) :
    t.Under e c := by
  rw [h.parent e he (by simp)] at hp
  exact Attached.under_parent hp hu

end Ui

namespace Attached

theorem ancestor_add {t : Attached} (a b e : Nat) : t.ancestor (a + b) e = (t.ancestor a e).bind (t.ancestor b) := by
  induction b with
  | zero => cases h : t.ancestor a e <;> simp [ancestor, h]
  | succ b ih =>
    rw [← Nat.add_assoc, ancestor, ih]
    cases t.ancestor a e <;> simp [ancestor]

theorem ancestor_parent {t : Attached} {c p : Nat} (h : t.parent c = some p) (k : Nat) : t.ancestor (k + 1) c = t.ancestor k p := by
  rw [Nat.add_comm, ancestor_add, ancestor, ancestor, Option.bind_some, h, Option.bind_some]

/-- Nothing is below two different children of an object. -/
theorem sibling {t : Attached} (hn : (t.map Prod.fst).Nodup) (hw : ∀ i, Acc (fun c p => (c, p) ∈ t) i) {p c c' e : Nat} (hc : c ∈ t.kids p) (hc' : c' ∈ t.kids p)
    (h : t.Under e c) (h' : t.Under e c') : c = c' := by
  have key : ∀ c c' k k', c ∈ t.kids p → c' ∈ t.kids p → t.ancestor k e = some c → t.ancestor k' e = some c' → k ≤ k' → c = c' := by
    intro c c' k k' hc hc' hk hk' hle
    obtain ⟨d, rfl⟩ := Nat.exists_eq_add_of_le hle
    rw [ancestor_add, hk, Option.bind_some] at hk'
    cases d with
    | zero => exact Option.some.inj hk'
    | succ d =>
      rw [ancestor_parent ((parent_eq hn).2 (mem_kids.1 hc))] at hk'
      exfalso
      apply ancestor_ne hn hw p d
      rw [ancestor, hk', Option.bind_some]
      exact (parent_eq hn).2 (mem_kids.1 hc')
  obtain ⟨k, hk⟩ := h
  obtain ⟨k', hk'⟩ := h'
  rcases Nat.le_total k k' with h | h
  · exact key c c' k k' hc hc' hk hk' h
  · exact (key c' c k' k hc' hc hk' hk h).symm

end Attached

namespace Ui
variable {α : Type} [Add α]

/-- A recalculation of an object. -/
def RecalcOK (α : Type) [Add α] (t : Attached) (c : Nat) : Prop := ∃ N L, (∀ e k, t.ancestor k e = some c → L.count e = recalcs k) ∧ (∀ e, ¬ t.Under e c → L.count e = 0) ∧
  ∀ u : Ui α, Rep u t none → c ∈ u.alive → ∃ u', Fixed u u' (t.Under · c) L ∧ ∀ n ≥ N, recalc n u c = some u'

/-- A recalculation of everything below some siblings. -/
def EachOK (α : Type) [Add α] (t : Attached) (l : List Nat) : Prop := ∃ N L, (∀ c ∈ l, ∀ e k, t.ancestor k e = some c → L.count e = 2 ^ k) ∧
  (∀ e, (∀ c ∈ l, ¬ t.Under e c) → L.count e = 0) ∧
  ∀ u : Ui α, Rep u t none → (∀ c ∈ l, c ∈ u.alive) → ∀ w, u.Seg w l none →
    ∃ u', Fixed u u' (fun e => ∃ c ∈ l, t.Under e c) L ∧ ∀ m ≥ N, ∀ n ≥ N, eachDescendant (recalc m) n u l.head? = some u'

theorem each_ok {t : Attached} (hn : (t.map Prod.fst).Nodup) (hw : ∀ i, Acc (fun c p => (c, p) ∈ t) i) {p : Nat} :
    ∀ {l : List Nat}, l.Nodup → (∀ c ∈ l, c ∈ t.kids p ∧ RecalcOK α t c ∧ EachOK α t (t.kids c)) → EachOK α t l
  | [], _, _ => by
    refine ⟨1, [], by simp, by simp, ?_⟩
    intro u _ _ w _
    refine ⟨u, ⟨.refl u, fun _ _ => rfl, by simp, by simp⟩, ?_⟩
    intro m _ n hn
    obtain ⟨n, rfl⟩ := Nat.exists_eq_add_of_le' hn
    rfl
  | c :: r, hnd, h => by
    obtain ⟨hck, ⟨N1, L1, a1, b1, r1⟩, ⟨N2, L2, a2, b2, r2⟩⟩ := h c (by simp)
    obtain ⟨N3, L3, a3, b3, r3⟩ := each_ok hn hw (List.nodup_cons.1 hnd).2 (fun c' hc' => h c' (by simp [hc']))
    refine ⟨max N1 (max N2 N3) + 1, L1 ++ L2 ++ L3, ?_, ?_, ?_⟩
    · intro c' hc' e k hk
      rw [List.count_append, List.count_append]
      rcases List.mem_cons.1 hc' with rfl | hc'
      · have h3 : L3.count e = 0 := by
          apply b3
          intro d hd hu
          have := Attached.sibling hn hw hck (h d (by simp [hd])).1 ⟨k, hk⟩ hu
          exact (List.nodup_cons.1 hnd).1 (this ▸ hd)
        rw [a1 e k hk, h3]
        cases k with
        | zero =>
          have hec := Option.some.inj hk
          subst hec
          have h2 : L2.count e = 0 := by
            apply b2
            intro d hd ⟨j, hj⟩
            apply Attached.ancestor_ne hn hw e j
            rw [Attached.ancestor, hj, Option.bind_some]
            exact (Attached.parent_eq hn).2 (Attached.mem_kids.1 hd)
          rw [h2]; rfl
        | succ k =>
          rw [Attached.ancestor, Option.bind_eq_some_iff] at hk
          obtain ⟨d, h1, h2⟩ := hk
          rw [a2 d (Attached.mem_kids.2 ((Attached.parent_eq hn).1 h2)) e k h1, recalcs, Nat.pow_succ]
          omega
      · have hnot : ¬ t.Under e c := by
          intro hu
          have := Attached.sibling hn hw hck (h c' (by simp [hc'])).1 hu ⟨k, hk⟩
          exact (List.nodup_cons.1 hnd).1 (this ▸ hc')
        rw [b1 e hnot, a3 c' hc' e k hk, b2 e]
        · omega
        · intro d hd hu
          exact hnot ((Attached.under_iff hn).2 (.inr ⟨d, hd, hu⟩))
    · intro e he
      rw [List.count_append, List.count_append, b1 e (he c (by simp)), b3 e (fun d hd => he d (by simp [hd])), b2 e]
      intro d hd hu
      exact he c (by simp) ((Attached.under_iff hn).2 (.inr ⟨d, hd, hu⟩))
    · intro u hu hal w hs
      obtain ⟨u1, f1, e1⟩ := r1 u hu (hal c (by simp))
      have hu1 := hu.same f1.same
      have hc1 : c ∈ u1.alive := by rw [f1.same.alive]; exact hal c (by simp)
      have hka : ∀ d ∈ t.kids c, d ∈ u1.alive := fun d hd => (hu1.known _ _ (Attached.mem_kids.1 hd)).1
      obtain ⟨u2, f2, e2⟩ := r2 u1 hu1 hka none (hu1.seg c hc1)
      have f12 := f1.comp f2 (by
        rintro e he q hq ⟨d, hd, hu'⟩
        exact ⟨d, hd, closed hu he hq hu'⟩)
      have hu2 := hu.same f12.same
      obtain ⟨hs1, hs2, hs3⟩ := hs
      have hs' : u2.Seg (some c) r none := hs3.congr f12.same.alive fun a _ => ⟨(f12.same.links a).2.2.2.1, (f12.same.links a).2.2.1⟩
      obtain ⟨u3, f3, e3⟩ := r3 u2 hu2 (fun d hd => by rw [f12.same.alive]; exact hal d (by simp [hd])) _ hs'
      refine ⟨u3, ?_, ?_⟩
      · have := f12.comp f3 (by
          rintro e he q hq ⟨d, hd, hu'⟩
          exact ⟨d, hd, closed hu he hq hu'⟩)
        apply this.set
        intro e
        simp only [List.mem_cons, exists_eq_or_imp]
        constructor
        · rintro ((h | ⟨d, hd, h⟩) | h)
          · exact .inl h
          · exact .inl ((Attached.under_iff hn).2 (.inr ⟨d, hd, h⟩))
          · exact .inr h
        · rintro (h | h)
          · exact .inl (.inl h)
          · exact .inr h
      · intro m hm n hn'
        obtain ⟨n, rfl⟩ := Nat.exists_eq_add_of_le' (show 1 ≤ n by omega)
        rw [List.head?_cons, eachDescendant, e1 m (by omega), Option.bind_some, hu1.first c hc1, e2 m (by omega) n (by omega), Option.bind_some,
          (f12.same.links c).2.2.1, hs2, Option.or_none, e3 m (by omega) n (by omega)]

theorem recalc_ok {t : Attached} (hn : (t.map Prod.fst).Nodup) (hw : ∀ i, Acc (fun c p => (c, p) ∈ t) i) (i : Nat) : RecalcOK α t i ∧ EachOK α t (t.kids i) := by
  have key : ∀ i, Acc (fun c p => (c, p) ∈ t) i → RecalcOK α t i ∧ EachOK α t (t.kids i) := by
    intro i hi
    induction hi with
    | intro i _ ih =>
      have hE : EachOK α t (t.kids i) := each_ok hn hw (p := i) (Attached.kids_nodup hn i) fun c hc => ⟨hc, ih c (Attached.mem_kids.1 hc)⟩
      refine ⟨?_, hE⟩
      obtain ⟨N, L, a, b, r⟩ := hE
      refine ⟨N + 1, i :: L, ?_, ?_, ?_⟩
      · intro e k hk
        cases k with
        | zero =>
          have hec := Option.some.inj hk
          subst hec
          rw [List.count_cons_self, b e, recalcs]
          intro d hd ⟨j, hj⟩
          apply Attached.ancestor_ne hn hw e j
          rw [Attached.ancestor, hj, Option.bind_some]
          exact (Attached.parent_eq hn).2 (Attached.mem_kids.1 hd)
        | succ k =>
          rw [List.count_cons_of_ne]
          · rw [Attached.ancestor, Option.bind_eq_some_iff] at hk
            obtain ⟨d, h1, h2⟩ := hk
            exact a d (Attached.mem_kids.2 ((Attached.parent_eq hn).1 h2)) e k h1
          · rintro rfl
            exact Attached.ancestor_ne hn hw _ k hk
      · intro e he
        rw [List.count_cons_of_ne]
        · exact b e fun d hd hu => he ((Attached.under_iff hn).2 (.inr ⟨d, hd, hu⟩))
        · rintro rfl; exact he (.refl t _)
      · intro u hu hia
        have f0 : Fixed u { u.modify i (fun o => { o with abs := u.place i }) with log := u.log ++ [i] } (· = i) [i] := by
          have hs : Same u { u.modify i (fun o => { o with abs := u.place i }) with log := u.log ++ [i] } := by
            refine ⟨rfl, rfl, rfl, ?_⟩
            intro j
            simp only [modify_obj]
            split <;> simp
          refine ⟨hs, ?_, ?_, rfl⟩
          · intro e he
            simp only [modify_ne _ _ he]
          · rintro e _ rfl
            unfold Placed
            rw [place_eq hs]
            · simp only [modify_self]
            · intro p hp
              have hpe : p ≠ e := by
                rintro rfl
                rw [hu.parent p hia (by simp)] at hp
                apply Attached.ancestor_ne hn hw p 0
                simpa only [Attached.ancestor, Option.bind_some] using hp
              simp only [modify_ne _ _ hpe]
        generalize hu1 : ({ u.modify i (fun o => { o with abs := u.place i }) with log := u.log ++ [i] } : Ui α) = u1 at f0
        have hr1 := hu.same f0.same
        have hi1 : i ∈ u1.alive := by rw [f0.same.alive]; exact hia
        obtain ⟨u2, f2, e2⟩ := r u1 hr1 (fun d hd => (hr1.known _ _ (Attached.mem_kids.1 hd)).1) none (hr1.seg i hi1)
        refine ⟨u2, ?_, ?_⟩
        · have := f0.comp f2 (by
            rintro e he q hq ⟨d, hd, hu'⟩
            exact ⟨d, hd, closed hu he hq hu'⟩)
          exact this.set fun e => (Attached.under_iff hn).symm
        · intro n hn'
          obtain ⟨n, rfl⟩ := Nat.exists_eq_add_of_le' (show 1 ≤ n by omega)
          have hrec : recalc (n + 1) u i = eachDescendant (recalc n) (n + 1) u1 (u1.obj i).first := by rw [← hu1, recalc]
          rw [hrec, hr1.first i hi1, e2 n (by omega) (n + 1) (by omega)]
  exact key i (hw i)

end Ui

end RichText
