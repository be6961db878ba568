import Verif.Spec.UIObject
/-! Invariants of the tree of UI objects. -/
namespace RichText

namespace Attached

theorem mem_kids {t : Attached} {c p : Nat} : c ∈ t.kids p ↔ (c, p) ∈ t := by
  simp [kids]

theorem parent_eq {t : Attached} (hn : (t.map Prod.fst).Nodup) {c p : Nat} : t.parent c = some p ↔ (c, p) ∈ t := by
  induction t with
  | nil => simp [parent]
  | cons e t ih =>
    obtain ⟨a, b⟩ := e
    simp only [List.map_cons, List.nodup_cons] at hn
    by_cases h : a = c
    · subst h
      simp only [parent, List.find?_cons_of_pos, decide_true, Option.map_some, Option.some.injEq, List.mem_cons, Prod.mk.injEq, true_and]
      constructor
      · intro h; exact .inl h.symm
      · rintro (h | h)
        · exact h.symm
        · exact absurd (List.mem_map.2 ⟨_, h, rfl⟩) hn.1
    · have := ih hn.2
      simp only [parent] at this ⊢
      rw [List.find?_cons_of_neg (by simpa using h), this, List.mem_cons]
      constructor
      · exact .inr
      · rintro (h' | h')
        · exact absurd (congrArg Prod.fst h').symm h
        · exact h'

theorem parent_none {t : Attached} {c : Nat} : t.parent c = none ↔ ∀ p, (c, p) ∉ t := by
  simp only [parent, Option.map_eq_none_iff, List.find?_eq_none, decide_eq_true_eq]
  constructor
  · intro h p hm; exact h _ hm rfl
  · rintro h ⟨a, b⟩ hm rfl; exact h b hm

theorem kids_nodup {t : Attached} (hn : (t.map Prod.fst).Nodup) (p : Nat) : (t.kids p).Nodup :=
  hn.sublist (List.Sublist.map _ List.filter_sublist)

theorem move_nodup {t : Attached} (hn : (t.map Prod.fst).Nodup) (i : Nat) (new : Option Nat) : ((t.move i new).map Prod.fst).Nodup := by
  have h1 : ((t.filter (·.1 ≠ i)).map Prod.fst).Nodup := hn.sublist (List.Sublist.map _ List.filter_sublist)
  cases new with
  | none => simpa [move] using h1
  | some q =>
    simp only [move, Option.map_some, Option.toList_some, List.map_append, List.map_cons, List.map_nil]
    rw [List.nodup_append]
    refine ⟨h1, by simp, ?_⟩
    intro a ha b hb
    simp at ha hb
    obtain ⟨_, h⟩ := ha
    rw [hb]; exact h

theorem mem_move {t : Attached} {i : Nat} {new : Option Nat} {c p : Nat} :
    (c, p) ∈ t.move i new ↔ (c ≠ i ∧ (c, p) ∈ t) ∨ (c = i ∧ new = some p) := by
  cases new with
  | none => simp [move, and_comm]
  | some q =>
    simp only [move, ne_eq, decide_not, Option.map_some, Option.toList_some, List.mem_append, List.mem_filter, Bool.not_eq_eq_eq_not,
      Bool.not_true, decide_eq_false_iff_not, List.mem_cons, Prod.mk.injEq, List.not_mem_nil, or_false, Option.some.injEq]
    constructor
    · rintro (h | h)
      · exact .inl ⟨h.2, h.1⟩
      · exact .inr ⟨h.1, h.2.symm⟩
    · rintro (h | h)
      · exact .inl ⟨h.2, h.1⟩
      · exact .inr ⟨h.1, h.2.symm⟩

theorem parent_move {t : Attached} (hn : (t.map Prod.fst).Nodup) {i : Nat} {new : Option Nat} (c : Nat) :
    (t.move i new).parent c = if c = i then new else t.parent c := by
  apply Option.ext
  intro p
  rw [parent_eq (move_nodup hn i new), mem_move]
  by_cases h : c = i
  · simp [h]
  · simp [h, parent_eq hn]

theorem kids_move {t : Attached} {i : Nat} {new : Option Nat} (p : Nat) :
    (t.move i new).kids p = (t.kids p).filter (· ≠ i) ++ (if new = some p then [i] else []) := by
  have h1 : kids (t.filter (·.1 ≠ i)) p = (t.kids p).filter (· ≠ i) := by
    simp only [kids, List.filter_map, List.filter_filter]
    congr 1
    apply List.filter_congr
    intro x _
    simp [Bool.and_comm]
  have h2 : ∀ a b : Attached, kids (a ++ b) p = kids a p ++ kids b p := by intro a b; simp [kids]
  rw [move, h2, h1]
  congr 1
  cases new with
  | none => simp [kids]
  | some q => by_cases h : q = p <;> simp [kids, h]

end Attached

namespace Ui
variable {α : Type}

@[simp] theorem modify_alive (u : Ui α) (i f) : (u.modify i f).alive = u.alive := rfl
@[simp] theorem modify_held (u : Ui α) (i f) : (u.modify i f).held = u.held := rfl
@[simp] theorem modify_count (u : Ui α) (i f) : (u.modify i f).count = u.count := rfl
@[simp] theorem modify_lock (u : Ui α) (i f w) : (u.modify i f).lock w = u.lock w := rfl
theorem modify_obj (u : Ui α) (i f) (j : Nat) : (u.modify i f).obj j = if j = i then f (u.obj j) else u.obj j := rfl
theorem modify_self (u : Ui α) (i f) : (u.modify i f).obj i = f (u.obj i) := if_pos rfl
theorem modify_ne (u : Ui α) {i : Nat} (f) {j : Nat} (h : j ≠ i) : (u.modify i f).obj j = u.obj j := if_neg h

theorem lock_some {u : Ui α} {w : Option Nat} {j : Nat} : u.lock w = some j ↔ w = some j ∧ j ∈ u.alive := by
  cases w with
  | none => simp [lock]
  | some x =>
    simp only [lock, Option.filter_some, Option.some.injEq]
    split
    · rename_i h
      simp at h ⊢
      intro h'; rw [← h']; exact h
    · rename_i h
      simp at h ⊢
      intro h'; rw [← h']; exact h

/-- Nothing is destroyed if everything is owned. -/
theorem collect_id {u : Ui α} (pins : List Nat) (h : ∀ i ∈ u.alive, u.owned i = true) : u.collect pins = u := by
  unfold collect
  cases u.alive.length with
  | zero => rfl
  | succ n =>
    have : (u.alive.find? fun i => !u.owned i && !pins.contains i) = none := by
      rw [List.find?_eq_none]
      intro x hx
      simp [h x hx]
    unfold sweep
    rw [this]

theorem owned_iff {u : Ui α} {i : Nat} :
    u.owned i = true ↔ u.held i = true ∨ ∃ p ∈ u.alive, (u.obj p).first = some i ∨ (u.obj p).next = some i := by
  simp [owned]

/-- A part of a child list: the first has `w` before it, the last has `e` behind it. -/
def Seg (u : Ui α) : Option Nat → List Nat → Option Nat → Prop
  | _, [], _ => True
  | w, a :: r, e => u.lock (u.obj a).prev = w ∧ (u.obj a).next = r.head?.or e ∧ Seg u (some a) r e

theorem Seg.congr {u u' : Ui α} (ha : u'.alive = u.alive) {l : List Nat} {e : Option Nat}
    (h : ∀ a ∈ l, (u'.obj a).prev = (u.obj a).prev ∧ (u'.obj a).next = (u.obj a).next) : ∀ {w}, Seg u w l e → Seg u' w l e := by
  induction l with
  | nil => intro w _; trivial
  | cons a r ih =>
    intro w hs
    obtain ⟨h1, h2, h3⟩ := hs
    have := h a (by simp)
    refine ⟨?_, ?_, ih (fun x hx => h x (by simp [hx])) h3⟩
    · rw [this.1, ← h1]; unfold lock; rw [ha]
    · rw [this.2, h2]

theorem Seg.append {u : Ui α} {l m : List Nat} {e : Option Nat} : ∀ {w}, Seg u w (l ++ m) e ↔ Seg u w l (m.head?.or e) ∧ Seg u (l.getLast?.or w) m e := by
  induction l with
  | nil => intro w; simp [Seg]
  | cons a r ih =>
    intro w
    simp only [List.cons_append, Seg, ih, List.head?_append, Option.or_assoc, and_assoc]
    cases r with
    | nil => simp
    | cons b s => simp [List.getLast?_cons]

/-- The pointers represent the attachments; the parent of `x` is exempt. -/
structure Rep (u : Ui α) (t : Attached) (x : Option Nat) : Prop where
  nodup : (t.map Prod.fst).Nodup
  known : ∀ c p, (c, p) ∈ t → c ∈ u.alive ∧ p ∈ u.alive
  below : ∀ i ∈ u.alive, i < u.count ∧ (∀ j, (u.obj i).parent = some j → j < u.count) ∧ (∀ j, (u.obj i).prev = some j → j < u.count) ∧
    (∀ j, (u.obj i).last = some j → j < u.count)
  parent : ∀ i ∈ u.alive, some i ≠ x → u.lock (u.obj i).parent = t.parent i
  first : ∀ p ∈ u.alive, (u.obj p).first = (t.kids p).head?
  last : ∀ p ∈ u.alive, u.lock (u.obj p).last = (t.kids p).getLast?
  seg : ∀ p ∈ u.alive, u.Seg none (t.kids p) none
  free : ∀ i ∈ u.alive, t.parent i = none → (u.obj i).next = none ∧ u.held i = true
  acyc : ∀ i, Acc (fun c p => (c, p) ∈ t) i

theorem Seg.prev_next {u : Ui α} {e : Option Nat} {c : Nat} : ∀ {l : List Nat} {w}, Seg u w l e → c ∈ l → l.head? ≠ some c →
    ∃ a ∈ l, (u.obj a).next = some c
  | [], _, _, h, _ => by simp at h
  | [a], _, _, h, h' => by simp at h h'; exact absurd h.symm h'
  | a :: b :: r, w, hs, h, h' => by
    simp only [Seg] at hs
    by_cases hb : b = c
    · subst hb
      exact ⟨a, by simp, by rw [hs.2.1]; rfl⟩
    · have hne : c ≠ a := by intro e; simp [e] at h'
      obtain ⟨a', ha', hn⟩ := Seg.prev_next (l := b :: r) (w := some a) hs.2.2 (by simpa [hne] using h) (by simpa using hb)
      exact ⟨a', by simp at ha' ⊢; exact .inr ha', hn⟩

theorem Rep.owned {u : Ui α} {t : Attached} {x : Option Nat} (h : Rep u t x) {i : Nat} (hi : i ∈ u.alive) : u.owned i = true := by
  rw [owned_iff]
  cases hp : t.parent i with
  | none => exact .inl (h.free i hi hp).2
  | some p =>
    rw [Attached.parent_eq h.nodup] at hp
    have hpa := (h.known _ _ hp).2
    have hk : i ∈ t.kids p := Attached.mem_kids.2 hp
    right
    by_cases hf : (t.kids p).head? = some i
    · exact ⟨p, hpa, .inl (by rw [h.first p hpa, hf])⟩
    · obtain ⟨a, ha, hn⟩ := (h.seg p hpa).prev_next hk hf
      exact ⟨a, (h.known _ _ (Attached.mem_kids.1 ha)).1, .inr hn⟩

/-- Objects stay owned by a pointer that is not overwritten. -/
theorem owned_modify {u : Ui α} {i : Nat} (q : Nat) (f : UiObj α → UiObj α) (h : u.owned i = true)
    (hf : u.held i = true ∨ ((u.obj q).first = some i → (f (u.obj q)).first = some i) ∧ ((u.obj q).next = some i → (f (u.obj q)).next = some i)) :
    (u.modify q f).owned i = true := by
  rw [owned_iff] at h ⊢
  rcases h with h | ⟨p, hp, h⟩
  · exact .inl h
  · rcases hf with hf | hf
    · exact .inl hf
    · right
      refine ⟨p, hp, ?_⟩
      by_cases hpq : p = q
      · subst hpq
        rw [modify_self]
        exact h.imp hf.1 hf.2
      · rw [modify_ne _ _ hpq]; exact h

theorem lock_alive {u u' : Ui α} (h : u'.alive = u.alive) (w : Option Nat) : u'.lock w = u.lock w := by unfold lock; rw [h]

/-- Changing the parent pointer of an object. -/
theorem Rep.setParent {u : Ui α} {t : Attached} (h : Rep u t none) {i : Nat} {new : Option Nat} (hq : ∀ q, new = some q → q ∈ u.alive) :
    Rep (u.modify i fun o => { o with parent := new }) t (some i) := by
  have hne : ∀ j, (((u.modify i fun o => { o with parent := new }).obj j).first = (u.obj j).first ∧
      ((u.modify i fun o => { o with parent := new }).obj j).next = (u.obj j).next ∧
      ((u.modify i fun o => { o with parent := new }).obj j).prev = (u.obj j).prev ∧
      ((u.modify i fun o => { o with parent := new }).obj j).last = (u.obj j).last) := by
    intro j; rw [modify_obj]; split <;> simp
  refine ⟨h.nodup, h.known, ?_, ?_, ?_, ?_, ?_, ?_, h.acyc⟩
  · intro j hj
    obtain ⟨h1, h2, h3, h4⟩ := h.below j hj
    refine ⟨h1, ?_, by rw [(hne j).2.2.1]; exact h3, by rw [(hne j).2.2.2]; exact h4⟩
    intro k hk
    rw [modify_obj] at hk
    split at hk
    · exact (h.below k (hq k hk)).1
    · exact h2 k hk
  · intro j hj hji
    rw [modify_lock, modify_ne _ _ (by rintro rfl; exact hji rfl)]
    exact h.parent j hj (by simp)
  · intro p hp; rw [(hne p).1]; exact h.first p hp
  · intro p hp; rw [modify_lock, (hne p).2.2.2]; exact h.last p hp
  · intro p hp; exact Seg.congr (u := u) (u' := u.modify i fun o => { o with parent := new }) rfl (fun a _ => ⟨(hne a).2.2.1, (hne a).2.1⟩) (h.seg p hp)
  · intro j hj hp; rw [(hne j).2.1]; exact h.free j hj hp

theorem acc_filter {t : Attached} {f : Nat × Nat → Bool} {i : Nat} (h : Acc (fun c p => (c, p) ∈ t) i) : Acc (fun c p => (c, p) ∈ t.filter f) i := by
  induction h with
  | intro x _ ih => exact ⟨x, fun y hy => ih y (List.mem_filter.1 hy).1⟩

/-- Taking an only child out of its parent's list. -/
theorem Rep.unlink {u : Ui α} {t : Attached} {i p : Nat} (h : Rep u t (some i)) (hp : t.parent i = some p) (hk : t.kids p = [i])
    (hh : u.held i = true) : Rep (u.unlink i (some p)) (t.move i none) (some i) ∧ (u.unlink i (some p)).alive = u.alive ∧
      (u.unlink i (some p)).held = u.held ∧ (u.unlink i (some p)).count = u.count ∧
      ((u.unlink i (some p)).obj i).parent = (u.obj i).parent := by
  have hm := (Attached.parent_eq h.nodup).1 hp
  obtain ⟨hia, hpa⟩ := h.known _ _ hm
  have hf : (u.obj p).first = some i := by rw [h.first p hpa, hk]; rfl
  have hs := h.seg p hpa
  rw [hk] at hs
  simp only [Seg, List.head?_nil, Option.none_or, and_true] at hs
  have hl := h.last p hpa
  rw [hk, List.getLast?_singleton] at hl
  have hl' : u.lock (u.obj p).last = some i := hl
  have hpi : p ≠ i := by
    rintro rfl
    have := h.acyc p
    exact (this.rec (motive := fun y _ => y = p → False) (fun x _ ih e => by subst e; exact ih x hm rfl)) rfl
  have hid : (u.modify p fun o => { o with first := none }).collect [p] = u.modify p fun o => { o with first := none } := by
    apply collect_id
    intro j hj
    apply owned_modify _ _ (h.owned hj)
    by_cases hji : j = i
    · exact .inl (hji ▸ hh)
    · right
      refine ⟨fun e => ?_, fun e => e⟩
      rw [hf] at e
      exact absurd (Option.some.inj e).symm hji
  have hu : u.unlink i (some p) = (u.modify p fun o => { o with first := none }).modify p fun o => { o with last := none } := by
    simp only [Ui.unlink]
    rw [if_pos hf, hs.2, hid, modify_lock, modify_self]
    rw [if_pos hl', modify_ne _ _ hpi.symm, hs.2]
  rw [hu]
  have hobj : ∀ j, j ≠ p → ((u.modify p fun o => { o with first := none }).modify p fun o => { o with last := none }).obj j = u.obj j := by
    intro j hj; rw [modify_ne _ _ hj, modify_ne _ _ hj]
  have hp' : ((u.modify p fun o => { o with first := none }).modify p fun o => { o with last := none }).obj p =
      { u.obj p with first := none, last := none } := by rw [modify_self, modify_self]
  have hnp : ∀ j, ((((u.modify p fun o => { o with first := none }).modify p fun o => { o with last := none }).obj j).next = (u.obj j).next ∧
      (((u.modify p fun o => { o with first := none }).modify p fun o => { o with last := none }).obj j).prev = (u.obj j).prev) ∧
      (((u.modify p fun o => { o with first := none }).modify p fun o => { o with last := none }).obj j).parent = (u.obj j).parent := by
    intro j
    by_cases hj : j = p
    · subst hj; rw [hp']; simp
    · rw [hobj j hj]; simp
  generalize hv : ((u.modify p fun o => { o with first := none }).modify p fun o => { o with last := none }) = v at *
  have hva : v.alive = u.alive := by rw [← hv]; rfl
  have hvh : v.held = u.held := by rw [← hv]; rfl
  have hvc : v.count = u.count := by rw [← hv]; rfl
  have hkids : ∀ r, (t.move i none).kids r = (t.kids r).filter (· ≠ i) := by intro r; rw [Attached.kids_move]; simp
  have hkids' : ∀ r, r ≠ p → (t.move i none).kids r = t.kids r := by
    intro r hr
    rw [hkids, List.filter_eq_self]
    intro a ha
    simp only [ne_eq, decide_not, Bool.not_eq_eq_eq_not, Bool.not_true, decide_eq_false_iff_not]
    rintro rfl
    have := (Attached.parent_eq h.nodup).2 (Attached.mem_kids.1 ha)
    rw [hp] at this
    exact hr (Option.some.inj this).symm
  have hkp : (t.move i none).kids p = [] := by rw [hkids, hk]; simp
  refine ⟨⟨Attached.move_nodup h.nodup _ _, ?_, ?_, ?_, ?_, ?_, ?_, ?_, ?_⟩, hva, hvh, hvc, (hnp i).2⟩
  · intro c r hm
    rw [Attached.mem_move] at hm
    simp at hm
    rw [hva]
    exact h.known c r hm.2
  · intro j hj
    rw [hva] at hj
    rw [hvc, (hnp j).2, (hnp j).1.2]
    obtain ⟨h1, h2, h3, h4⟩ := h.below j hj
    refine ⟨h1, h2, h3, ?_⟩
    intro k hk2
    by_cases hjp : j = p
    · rw [hjp, hp'] at hk2; cases hk2
    · rw [hobj j hjp] at hk2; exact h4 k hk2
  · intro j hj hji
    rw [hva] at hj
    rw [lock_alive hva, (hnp j).2, h.parent j hj hji, Attached.parent_move h.nodup, if_neg (by rintro rfl; exact hji rfl)]
  · intro r hr
    rw [hva] at hr
    by_cases hrp : r = p
    · subst hrp; rw [hp', hkp]; rfl
    · rw [hobj r hrp, hkids' r hrp]; exact h.first r hr
  · intro r hr
    rw [hva] at hr
    by_cases hrp : r = p
    · subst hrp; rw [hp', hkp]; rfl
    · rw [lock_alive hva, hobj r hrp, hkids' r hrp]; exact h.last r hr
  · intro r hr
    rw [hva] at hr
    by_cases hrp : r = p
    · subst hrp; rw [hkp]; trivial
    · rw [hkids' r hrp]; exact (h.seg r hr).congr hva (fun a _ => ⟨(hnp a).1.2, (hnp a).1.1⟩)
  · intro j hj hpn
    rw [hva] at hj
    rw [(hnp j).1.1, hvh]
    rw [Attached.parent_move h.nodup] at hpn
    split at hpn
    · rename_i e
      subst e
      exact ⟨hs.2, hh⟩
    · exact h.free j hj hpn
  · intro j
    have := acc_filter (f := (·.1 ≠ i)) (h.acyc j)
    simpa [Attached.move] using this

/-- Acyclic after attaching. -/
theorem acc_move {t : Attached} (hn : (t.map Prod.fst).Nodup) {i q : Nat} (h : ∀ j, Acc (fun c p => (c, p) ∈ t) j) (hq : ∀ k, t.ancestor k q ≠ some i) (hpar : t.parent i = none) :
    ∀ j, Acc (fun c p => (c, p) ∈ t.move i (some q)) j := by
  have key : ∀ j, Acc (fun c p => (c, p) ∈ t) j → (∃ k, t.ancestor k j = some i) → Acc (fun c p => (c, p) ∈ t.move i (some q)) j := by
    intro j hj
    induction hj with
    | intro x _ ih =>
      rintro ⟨k, hk⟩
      refine ⟨x, fun y hy => ?_⟩
      rw [Attached.mem_move] at hy
      rcases hy with ⟨_, hy⟩ | ⟨_, hy⟩
      · apply ih y hy
        refine ⟨k + 1, ?_⟩
        have hanc : ∀ k, t.ancestor (k + 1) y = t.ancestor k x := by
          intro k
          induction k with
          | zero => simp only [Attached.ancestor, Option.bind_some]; exact (Attached.parent_eq hn).2 hy
          | succ k ih => rw [Attached.ancestor, ih, Attached.ancestor]
        rw [hanc, hk]
      · cases hy
        exact absurd hk (hq k)
  intro j
  induction h j with
  | intro x _ ih =>
    refine ⟨x, fun y hy => ?_⟩
    rw [Attached.mem_move] at hy
    rcases hy with ⟨_, hy⟩ | ⟨rfl, hy⟩
    · exact ih y hy
    · exact key _ (h _) ⟨0, rfl⟩

/-- Attaching an object without parent. -/
theorem Rep.link {u : Ui α} {t : Attached} {i q : Nat} (pins : List Nat) (h : Rep u t (some i)) (hp : t.parent i = none) (hia : i ∈ u.alive) (hqa : q ∈ u.alive)
    (hpar : (u.obj i).parent = some q) (hq : ∀ k, t.ancestor k q ≠ some i) :
    Rep (u.link pins i (some q)) (t.move i (some q)) none ∧ (u.link pins i (some q)).alive = u.alive ∧
      (u.link pins i (some q)).held = u.held ∧ (u.link pins i (some q)).count = u.count := by
  have hqi : q ≠ i := by rintro rfl; exact hq 0 rfl
  obtain ⟨hin, hih⟩ := h.free i hia hp
  have hnot : ∀ p, i ∉ t.kids p := by
    intro p hm
    exact Attached.parent_none.1 hp p (Attached.mem_kids.1 hm)
  have hkids : ∀ r, (t.move i (some q)).kids r = t.kids r ++ if r = q then [i] else [] := by
    intro r
    rw [Attached.kids_move, List.filter_eq_self.2]
    · simp [eq_comm]
    · intro a ha
      simp only [ne_eq, decide_not, Bool.not_eq_eq_eq_not, Bool.not_true, decide_eq_false_iff_not]
      rintro rfl
      exact hnot r ha
  -- the state after the call: what each object looks like
  obtain ⟨v, hv, hva, hvh, hvc, hvpar, hvprev, hvnext, hvfirst, hvlast⟩ : ∃ v, u.link pins i (some q) = v ∧ v.alive = u.alive ∧ v.held = u.held ∧ v.count = u.count ∧
      (∀ j, (v.obj j).parent = (u.obj j).parent) ∧ (∀ j, (v.obj j).prev = if j = i then (u.obj q).last else (u.obj j).prev) ∧
      (∀ j, (v.obj j).next = if (t.kids q).getLast? = some j then some i else (u.obj j).next) ∧
      (∀ j, (v.obj j).first = if j = q ∧ (t.kids q) = [] then some i else (u.obj j).first) ∧
      (∀ j, (v.obj j).last = if j = q then some i else (u.obj j).last) := by
    refine ⟨_, rfl, ?_⟩
    have hlast := h.last q hqa
    simp only [Ui.link]
    rw [modify_lock, modify_ne _ _ hqi, hlast]
    have howned1 : ∀ j ∈ u.alive, (u.modify i fun o => { o with prev := (u.obj q).last }).owned j = true := by
      intro j hj
      exact owned_modify _ _ (h.owned hj) (.inr ⟨fun e => e, fun e => e⟩)
    cases hl : (t.kids q).getLast? with
    | some l =>
      have hlq : l ∈ t.kids q := List.mem_of_getLast? hl
      have hli : l ≠ i := by rintro rfl; exact hnot q hlq
      have hne : t.kids q ≠ [] := by intro e; rw [e] at hlq; simp at hlq
      have hln : (u.obj l).next = none := by
        have hs := h.seg q hqa
        obtain ⟨l', hl'⟩ := List.getLast?_eq_some_iff.1 hl
        rw [hl', Seg.append] at hs
        exact hs.2.2.1
      simp only
      rw [collect_id]
      · refine ⟨rfl, rfl, rfl, ?_, ?_, ?_, ?_, ?_⟩
        all_goals intro j
        all_goals simp only [modify_obj]
        all_goals try simp only [Option.some.injEq, @eq_comm _ l j]
        all_goals by_cases h1 : j = q <;> by_cases h2 : j = l <;> by_cases h3 : j = i
        all_goals simp_all
      · intro j hj
        apply owned_modify _ _ (howned1 j hj)
        right
        refine ⟨fun e => e, fun e => ?_⟩
        rw [modify_ne _ _ hli, hln] at e
        cases e
    | none =>
      have hne : t.kids q = [] := by simpa using hl
      have hfq : (u.obj q).first = none := by rw [h.first q hqa, hne]; rfl
      simp only
      rw [collect_id]
      · refine ⟨rfl, rfl, rfl, ?_, ?_, ?_, ?_, ?_⟩
        all_goals intro j
        all_goals simp only [modify_obj]
        all_goals by_cases h1 : j = q <;> by_cases h3 : j = i <;> simp [h1, h3, hne]
        all_goals simp_all
      · intro j hj
        apply owned_modify _ _ (howned1 j hj)
        right
        refine ⟨fun e => ?_, fun e => e⟩
        rw [modify_ne _ _ hqi, hfq] at e
        cases e
  rw [hv]
  refine ⟨⟨Attached.move_nodup h.nodup _ _, ?_, ?_, ?_, ?_, ?_, ?_, ?_, ?_⟩, hva, hvh, hvc⟩
  · intro c r hm
    rw [Attached.mem_move] at hm
    rw [hva]
    rcases hm with hm | ⟨rfl, hm⟩
    · exact h.known c r hm.2
    · cases hm; exact ⟨hia, hqa⟩
  · intro j hj
    rw [hva] at hj
    rw [hvc, hvpar, hvprev, hvlast]
    obtain ⟨h1, h2, h3, h4⟩ := h.below j hj
    refine ⟨h1, h2, ?_, ?_⟩
    · split
      · exact (h.below q hqa).2.2.2
      · exact h3
    · split
      · intro k hk; cases hk; exact (h.below i hia).1
      · exact h4
  · intro j hj _
    rw [hva] at hj
    rw [lock_alive hva, hvpar, Attached.parent_move h.nodup]
    split
    · rename_i e
      subst e
      rw [hpar, lock_some]
      exact ⟨rfl, hqa⟩
    · rename_i e
      exact h.parent j hj (by simpa using e)
  · intro r hr
    rw [hva] at hr
    rw [hvfirst, hkids]
    by_cases hrq : r = q
    · subst hrq
      simp only [true_and, if_true, List.head?_append, List.head?_cons]
      split
      · rename_i e; rw [e]; rfl
      · rename_i e
        rw [h.first r hr]
        cases hk : t.kids r with
        | nil => exact absurd hk e
        | cons a l => rfl
    · simp [hrq, h.first r hr]
  · intro r hr
    rw [hva] at hr
    rw [lock_alive hva, hvlast, hkids]
    by_cases hrq : r = q
    · subst hrq
      simp only [if_true, List.getLast?_append, List.getLast?_singleton, Option.some_or]
      rw [lock_some]; exact ⟨rfl, hia⟩
    · simp [hrq, h.last r hr]
  · intro r hr
    rw [hva] at hr
    rw [hkids]
    by_cases hrq : r = q
    · subst hrq
      rw [if_pos rfl, Seg.append]
      have hs := h.seg r hr
      refine ⟨?_, ?_, ?_, trivial⟩
      · rcases List.eq_nil_or_concat (t.kids r) with e | ⟨l', b, e⟩
        · rw [e]; trivial
        · rw [List.concat_eq_append] at e
          rw [e, Seg.append] at hs ⊢
          have hnd := Attached.kids_nodup h.nodup r
          rw [e, List.nodup_append] at hnd
          have hgl : (t.kids r).getLast? = some b := by rw [e]; simp
          have hbk : b ∈ t.kids r := by rw [e]; simp
          have hbi : b ≠ i := by rintro rfl; exact hnot r hbk
          refine ⟨hs.1.congr hva ?_, ?_, ?_, trivial⟩
          · intro a ha
            have hai : a ≠ i := by rintro rfl; exact hnot r (by rw [e]; simp [ha])
            have hab : a ≠ b := hnd.2.2 a ha b (by simp)
            rw [hvprev, if_neg hai, hvnext, hgl, if_neg (by simpa using hab.symm)]
            exact ⟨rfl, rfl⟩
          · rw [lock_alive hva, hvprev, if_neg hbi]; exact hs.2.1
          · rw [hvnext, if_pos hgl]; rfl
      · rw [lock_alive hva, hvprev, if_pos rfl, h.last r hr]; simp
      · rw [hvnext, if_neg, hin]
        · rfl
        · intro e; exact hnot r (List.mem_of_getLast? e)
    · rw [if_neg hrq, List.append_nil]
      apply (h.seg r hr).congr hva
      intro a ha
      have hai : a ≠ i := by rintro rfl; exact hnot r ha
      rw [hvprev, if_neg hai, hvnext, if_neg]
      · exact ⟨rfl, rfl⟩
      · intro e
        have h1 := (Attached.parent_eq h.nodup).2 (Attached.mem_kids.1 (List.mem_of_getLast? e))
        have h2 := (Attached.parent_eq h.nodup).2 (Attached.mem_kids.1 ha)
        rw [h1] at h2
        exact hrq (Option.some.inj h2).symm
  · intro j hj hpn
    rw [hva] at hj
    rw [Attached.parent_move h.nodup] at hpn
    split at hpn
    · cases hpn
    · rw [hvnext, hvh]
      obtain ⟨h1, h2⟩ := h.free j hj hpn
      refine ⟨?_, h2⟩
      rw [if_neg, h1]
      intro e
      exact Attached.parent_none.1 hpn q (Attached.mem_kids.1 (List.mem_of_getLast? e))
  · exact acc_move h.nodup h.acyc hq hp

end Ui

end RichText
