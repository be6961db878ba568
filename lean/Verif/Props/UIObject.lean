import Verif.Proof.UITree
/-! The tree of UI objects (C56, C68). -/
namespace RichText

namespace Ui
variable {α : Type}

theorem Seg.walk {u : Ui α} : ∀ {l : List Nat} {w} {n : Nat}, u.Seg w l none → l.length < n → u.walk n l.head? = some l
  | [], _, n + 1, _, _ => rfl
  | a :: r, _, n + 1, hs, hn => by
    obtain ⟨_, h2, h3⟩ := hs
    rw [List.head?_cons, Ui.walk, h2, Option.or_none, h3.walk (by simpa using hn)]
    rfl

theorem Seg.walkBack {u : Ui α} : ∀ {n : Nat} {l : List Nat} {e w : Option Nat}, u.Seg none l e → u.lock w = l.getLast? → l.length < n →
    u.walkBack n w = some l.reverse
  | n + 1, l, e, w, hs, hw, hn => by
    rw [Ui.walkBack, hw]
    rcases List.eq_nil_or_concat l with rfl | ⟨l', a, rfl⟩
    · rfl
    · rw [List.concat_eq_append] at hs hn ⊢
      rw [Seg.append] at hs
      simp only [List.length_append, List.length_singleton] at hn
      have h1 : u.lock (u.obj a).prev = l'.getLast? := by rw [hs.2.1]; simp
      simp only [List.getLast?_append, List.getLast?_singleton, Option.some_or]
      rw [hs.1.walkBack h1 (by omega)]
      simp

/-- The same list in a state with the same pointers. -/
theorem Seg.mono {u u' : Ui α} {l : List Nat} {e : Option Nat}
    (h : ∀ a ∈ l, u'.lock (u'.obj a).prev = u.lock (u.obj a).prev ∧ (u'.obj a).next = (u.obj a).next) : ∀ {w}, Seg u w l e → Seg u' w l e := by
  induction l with
  | nil => intro w _; trivial
  | cons a r ih =>
    intro w hs
    obtain ⟨h1, h2, h3⟩ := hs
    have := h a (by simp)
    exact ⟨this.1.trans h1, this.2.trans h2, ih (fun x hx => h x (by simp [hx])) h3⟩

theorem sweep_obj (pins : List Nat) : ∀ (n : Nat) (u : Ui α), (sweep pins n u).obj = u.obj
  | 0, _ => rfl
  | n + 1, u => by
    rw [sweep]
    split
    · rfl
    · rw [sweep_obj]

theorem collect_obj (pins : List Nat) (u : Ui α) : (u.collect pins).obj = u.obj := sweep_obj _ _ _

theorem unlink_abs (u : Ui α) (i : Nat) (old : Option Nat) (j : Nat) : ((u.unlink i old).obj j).abs = (u.obj j).abs ∧ ((u.unlink i old).obj j).pos = (u.obj j).pos := by
  have hm : ∀ (v : Ui α) (q : Nat) (f : UiObj α → UiObj α), (∀ o, (f o).abs = o.abs ∧ (f o).pos = o.pos) → ((v.modify q f).obj j).abs = (v.obj j).abs ∧ ((v.modify q f).obj j).pos = (v.obj j).pos := by
    intro v q f hf; rw [modify_obj]; split <;> simp [hf]
  cases old with
  | none => exact ⟨rfl, rfl⟩
  | some p =>
    simp only [Ui.unlink]
    generalize hv : (if (u.obj p).first = some i then (u.modify p fun o => { o with first := (u.obj i).next }).collect [p]
      else
        match u.lock (u.obj i).prev with
        | some q => ((u.modify q fun o => { o with next := (u.obj i).next }).collect [p, q]).collect [p]
        | none => u) = v
    have h1 : (v.obj j).abs = (u.obj j).abs ∧ (v.obj j).pos = (u.obj j).pos := by
      rw [← hv]
      split
      · rw [collect_obj]; exact hm _ _ _ fun o => ⟨rfl, rfl⟩
      · split
        · rw [collect_obj, collect_obj]; exact hm _ _ _ fun o => ⟨rfl, rfl⟩
        · exact ⟨rfl, rfl⟩
    split
    · have := hm v p (fun o => { o with last := (v.obj i).next }) fun o => ⟨rfl, rfl⟩
      exact ⟨this.1.trans h1.1, this.2.trans h1.2⟩
    · exact h1

theorem link_abs (u : Ui α) (pins : List Nat) (i : Nat) (new : Option Nat) (j : Nat) : ((u.link pins i new).obj j).abs = (u.obj j).abs ∧ ((u.link pins i new).obj j).pos = (u.obj j).pos := by
  have hm : ∀ (v : Ui α) (q : Nat) (f : UiObj α → UiObj α), (∀ o, (f o).abs = o.abs ∧ (f o).pos = o.pos) → ((v.modify q f).obj j).abs = (v.obj j).abs ∧ ((v.modify q f).obj j).pos = (v.obj j).pos := by
    intro v q f hf; rw [modify_obj]; split <;> simp [hf]
  cases new with
  | none => exact ⟨rfl, rfl⟩
  | some q =>
    simp only [Ui.link]
    have h0 := hm u i (fun o => { o with prev := (u.obj q).last }) fun o => ⟨rfl, rfl⟩
    generalize (u.modify i fun o => { o with prev := (u.obj q).last }) = v at *
    split
    all_goals
      refine ⟨((hm _ _ _ ?_).1.trans ?_).trans h0.1, ((hm _ _ _ ?_).2.trans ?_).trans h0.2⟩
      · exact fun o => ⟨rfl, rfl⟩
      · rw [collect_obj]; refine (hm _ _ _ ?_).1; exact fun o => ⟨rfl, rfl⟩
      · exact fun o => ⟨rfl, rfl⟩
      · rw [collect_obj]; refine (hm _ _ _ ?_).2; exact fun o => ⟨rfl, rfl⟩

section
variable [Add α]

omit [Add α] in
theorem each_mono {f g : Ui α → Nat → Option (Ui α)} (hfg : ∀ u c v, f u c = some v → g u c = some v) :
    ∀ {n m : Nat} {u : Ui α} {w : Option Nat} {v : Ui α}, n ≤ m → eachDescendant f n u w = some v → eachDescendant g m u w = some v
  | 0, _, _, _, _, _, h => by cases h
  | n + 1, m, u, w, v, hm, h => by
    obtain ⟨m, rfl⟩ := Nat.exists_eq_add_of_le' (show 1 ≤ m by omega)
    cases w with
    | none => exact h
    | some c =>
      rw [eachDescendant] at h ⊢
      simp only [Option.bind_eq_some_iff] at h ⊢
      obtain ⟨u1, h1, u2, h2, h3⟩ := h
      exact ⟨u1, hfg _ _ _ h1, u2, each_mono hfg (by omega) h2, each_mono hfg (by omega) h3⟩

theorem recalc_mono : ∀ {n m : Nat} {u : Ui α} {i : Nat} {v : Ui α}, n ≤ m → recalc n u i = some v → recalc m u i = some v
  | 0, _, _, _, _, _, h => by cases h
  | n + 1, m, u, i, v, hm, h => by
    obtain ⟨m, rfl⟩ := Nat.exists_eq_add_of_le' (show 1 ≤ m by omega)
    rw [recalc] at h ⊢
    exact each_mono (fun _ _ _ h' => recalc_mono (by omega) h') hm h

/-- What holds in the states of clean histories. -/
structure Inv (u : Ui α) (t : Attached) : Prop where
  rep : Rep u t none
  placed : ∀ i ∈ u.alive, u.Placed i

/-- A recalculation of `i`, when everything that is not below `i` is placed. -/
theorem recalc_inv {u : Ui α} {t : Attached} {i : Nat} (hr : Rep u t none) (hia : i ∈ u.alive) (hp : ∀ e ∈ u.alive, ¬ t.Under e i → u.Placed e) :
    ∃ u' L, Inv u' t ∧ Same u u' ∧ (∀ e k, t.ancestor k e = some i → L.count e = recalcs k) ∧ u'.log = u.log ++ L ∧
      (∃ N, ∀ n ≥ N, recalc n u i = some u') ∧ ∀ n v, recalc n u i = some v → v = u' := by
  obtain ⟨N, L, a, _, r⟩ := (recalc_ok (α := α) hr.nodup hr.acyc i).1
  obtain ⟨u', f, e⟩ := r u hr hia
  refine ⟨u', L, ⟨hr.same f.same, ?_⟩, f.same, a, f.log, ⟨N, e⟩, ?_⟩
  · intro j hj
    rw [f.same.alive] at hj
    by_cases hu : t.Under j i
    · exact f.placed j hj hu
    · have h1 := hp j hj hu
      unfold Placed at h1 ⊢
      rw [f.out j hu, h1]
      symm
      apply place_eq f.same
      intro p hp
      apply f.out
      intro hup
      exact hu (closed hr hj hp hup)
  · intro n v hv
    have h1 := recalc_mono (Nat.le_max_left n N) hv
    rw [e _ (Nat.le_max_right n N)] at h1
    exact (Option.some.inj h1).symm

theorem move_none {t : Attached} {i : Nat} (h : t.parent i = none) : t.move i none = t := by
  simp only [Attached.move, Option.map_none, Option.toList_none, List.append_nil, List.filter_eq_self]
  rintro ⟨a, b⟩ hm
  simp only [ne_eq, decide_not, Bool.not_eq_eq_eq_not, Bool.not_true, decide_eq_false_iff_not]
  rintro rfl
  exact Attached.parent_none.1 h b hm

theorem move_move (t : Attached) (i : Nat) (new : Option Nat) : (t.move i none).move i new = t.move i new := by
  simp [Attached.move, List.filter_filter]

theorem ancestor_move {t : Attached} (hn : (t.map Prod.fst).Nodup) {i q : Nat} (hq : ∀ k, t.ancestor k q ≠ some i) (k : Nat) :
    (t.move i none).ancestor k q = t.ancestor k q := by
  induction k with
  | zero => rfl
  | succ k ih =>
    rw [Attached.ancestor, ih, Attached.ancestor]
    cases h : t.ancestor k q with
    | none => rfl
    | some a =>
      rw [Option.bind_some, Option.bind_some, Attached.parent_move hn, if_neg]
      rintro rfl
      exact hq k h

/-- The pointers after a clean move, before absolute positions are recalculated. -/
theorem relink {u : Ui α} {t : Attached} (h : Rep u t none) {i : Nat} {new : Option Nat} (hi : i ∈ u.alive) (hqa : ∀ q, new = some q → q ∈ u.alive)
    (hne : new ≠ t.parent i) (hq : ∀ q k, new = some q → t.ancestor k q ≠ some i) (hk : ∀ p, t.parent i = some p → t.kids p = [i]) (hh : u.held i = true) :
    ∃ v, Rep v (t.move i new) none ∧ v.alive = u.alive ∧ (∀ j, (v.obj j).abs = (u.obj j).abs ∧ (v.obj j).pos = (u.obj j).pos) ∧
      ∀ n, u.setParent n i new = (recalc n v i).map (collect []) := by
  have hlock : u.lock (u.obj i).parent = t.parent i := h.parent i hi (by simp)
  have h0 := h.setParent (i := i) (new := new) hqa
  have hobj0 : ∀ j, ((u.modify i fun o => { o with parent := new }).obj j).abs = (u.obj j).abs ∧ ((u.modify i fun o => { o with parent := new }).obj j).pos = (u.obj j).pos := by
    intro j; rw [modify_obj]; split <;> simp
  have hpar0 : ((u.modify i fun o => { o with parent := new }).obj i).parent = new := by rw [modify_self]
  -- the old parent
  obtain ⟨v1, hv1, h1, ha1, hh1, hpar1, hobj1⟩ : ∃ v1, (u.modify i fun o => { o with parent := new }).unlink i (t.parent i) = v1 ∧ Rep v1 (t.move i none) (some i) ∧ v1.alive = u.alive ∧
      v1.held = u.held ∧ (v1.obj i).parent = new ∧ ∀ j, (v1.obj j).abs = (u.obj j).abs ∧ (v1.obj j).pos = (u.obj j).pos := by
    refine ⟨_, rfl, ?_⟩
    cases hp : t.parent i with
    | none =>
      rw [move_none hp]
      exact ⟨h0, rfl, rfl, hpar0, hobj0⟩
    | some p =>
      obtain ⟨a, b, c, _, d⟩ := h0.unlink hp (hk p hp) hh
      refine ⟨a, b, c, by rw [d, hpar0], fun j => ?_⟩
      have := unlink_abs (u.modify i fun o => { o with parent := new }) i (some p) j
      exact ⟨this.1.trans (hobj0 j).1, this.2.trans (hobj0 j).2⟩
  have hpn : (t.move i none).parent i = none := by rw [Attached.parent_move h.nodup, if_pos rfl]
  have hset : ∀ n, u.setParent n i new = (recalc n (v1.link (t.parent i).toList i new) i).map (collect []) := by
    intro n
    have hc : ¬ (i ∉ u.alive ∨ ∃ q, new = some q ∧ q ∉ u.alive) := by
      rintro (h' | ⟨q, h', h''⟩)
      · exact h' hi
      · exact h'' (hqa q h')
    have hni : new ≠ some i := fun e => hq i 0 e rfl
    rw [Ui.setParent, if_neg hc]
    simp only
    rw [hlock, if_neg (not_or.2 ⟨hne, hni⟩), hv1, ha1, if_neg hc]
  cases new with
  | none =>
    refine ⟨v1, ?_, ha1, hobj1, hset⟩
    refine ⟨h1.nodup, h1.known, h1.below, ?_, h1.first, h1.last, h1.seg, h1.free, h1.acyc⟩
    intro j hj _
    by_cases hji : j = i
    · subst hji; rw [hpar1, hpn]; rfl
    · exact h1.parent j hj (by simpa using hji)
  | some q =>
    have hqn : ∀ k, (t.move i none).ancestor k q ≠ some i := by
      intro k
      rw [ancestor_move h.nodup (fun k => hq q k rfl)]
      exact hq q k rfl
    obtain ⟨h2, ha2, _, _⟩ := h1.link (t.parent i).toList hpn (by rw [ha1]; exact hi) (by rw [ha1]; exact hqa q rfl) hpar1 hqn
    rw [move_move] at h2
    refine ⟨_, h2, ha2.trans ha1, fun j => ?_, hset⟩
    have := link_abs v1 (t.parent i).toList i (some q) j
    exact ⟨this.1.trans (hobj1 j).1, this.2.trans (hobj1 j).2⟩

/-- A clean move. -/
theorem move_inv {u : Ui α} {t : Attached} (h : Inv u t) {i : Nat} {new : Option Nat} (hi : i ∈ u.alive) (hqa : ∀ q, new = some q → q ∈ u.alive)
    (hne : new ≠ t.parent i) (hq : ∀ q k, new = some q → t.ancestor k q ≠ some i) (hk : ∀ p, t.parent i = some p → t.kids p = [i]) (hh : u.held i = true) :
    ∃ u', Inv u' (t.move i new) ∧ (∃ N, ∀ n ≥ N, u.setParent n i new = some u') ∧ ∀ n v, u.setParent n i new = some v → v = u' := by
  obtain ⟨v, hr, ha, hobj, hset⟩ := relink h.rep hi hqa hne hq hk hh
  obtain ⟨u', L, hinv, _, _, _, ⟨N, hN⟩, huniq⟩ := recalc_inv hr (by rw [ha]; exact hi) (by
    intro e he hu
    rw [ha] at he
    have h1 := h.placed e he
    have hei : e ≠ i := by rintro rfl; exact hu (.refl _ _)
    unfold Placed at h1 ⊢
    rw [(hobj e).1, h1]
    unfold place
    rw [hr.parent e (by rw [ha]; exact he) (by simp), h.rep.parent e he (by simp), Attached.parent_move h.rep.nodup, if_neg hei]
    cases t.parent e with
    | none => exact (hobj e).2.symm
    | some p => simp only [(hobj p).1, (hobj e).2])
  have hcol : u'.collect [] = u' := collect_id _ fun j hj => hinv.rep.owned hj
  refine ⟨u', hinv, ⟨N, fun n hn => ?_⟩, fun n w hw => ?_⟩
  · rw [hset, hN n hn, Option.map_some, hcol]
  · rw [hset, Option.map_eq_some_iff] at hw
    obtain ⟨a, h1, h2⟩ := hw
    rw [← h2, huniq n a h1, hcol]

theorem clean_inv {u : Ui α} {t : Attached} (h : Clean u t) : Inv u t := by
  induction h with
  | start obj =>
    refine ⟨⟨by simp, by simp, by simp, by simp, by simp, by simp, by simp, by simp, ?_⟩, by simp⟩
    intro i
    exact ⟨i, fun y hy => by simp at hy⟩
  | @create u t pos _ ih =>
    have hr := ih.rep
    have hkn : ∀ c p, (c, p) ∈ t → c ≠ u.count ∧ p ≠ u.count := by
      intro c p hm
      have := hr.known c p hm
      have h1 := (hr.below c this.1).1
      have h2 := (hr.below p this.2).1
      omega
    have hlock : ∀ w : Option Nat, (∀ j, w = some j → j < u.count) → (u.create pos).lock w = u.lock w := by
      intro w hw
      cases w with
      | none => rfl
      | some j =>
        have := hw j rfl
        have : j ≠ u.count := by omega
        simp [lock, create, Option.filter_some, this]
    have hold : ∀ j ∈ u.alive, (u.create pos).obj j = u.obj j := by
      intro j hj
      have := (hr.below j hj).1
      exact if_neg (by omega)
    have hnew : (u.create pos).obj u.count = { pos := pos, abs := pos } := if_pos rfl
    have hal : ∀ j, j ∈ (u.create pos).alive ↔ j ∈ u.alive ∨ j = u.count := by intro j; simp [create]
    have hkc : t.kids u.count = [] := by
      rw [List.eq_nil_iff_forall_not_mem]
      intro c hc
      exact (hkn c _ (Attached.mem_kids.1 hc)).2 rfl
    have hpc : t.parent u.count = none := Attached.parent_none.2 fun p hm => (hkn _ p hm).1 rfl
    refine ⟨⟨hr.nodup, ?_, ?_, ?_, ?_, ?_, ?_, ?_, hr.acyc⟩, ?_⟩
    · intro c p hm
      rw [hal, hal]
      exact ⟨.inl (hr.known c p hm).1, .inl (hr.known c p hm).2⟩
    · intro j hj
      have hc : (u.create pos).count = u.count + 1 := rfl
      rw [hc]
      rcases (hal j).1 hj with hj | rfl
      · rw [hold j hj]
        obtain ⟨h1, h2, h3, h4⟩ := hr.below j hj
        exact ⟨by omega, fun k hk => by have := h2 k hk; omega, fun k hk => by have := h3 k hk; omega, fun k hk => by have := h4 k hk; omega⟩
      · rw [hnew]
        exact ⟨by omega, by simp, by simp, by simp⟩
    · intro j hj _
      rcases (hal j).1 hj with hj | rfl
      · rw [hold j hj, hlock _ (hr.below j hj).2.1]
        exact hr.parent j hj (by simp)
      · rw [hnew, hpc]; rfl
    · intro j hj
      rcases (hal j).1 hj with hj | rfl
      · rw [hold j hj]; exact hr.first j hj
      · rw [hnew, hkc]; rfl
    · intro j hj
      rcases (hal j).1 hj with hj | rfl
      · rw [hold j hj, hlock _ (hr.below j hj).2.2.2]; exact hr.last j hj
      · rw [hnew, hkc]; rfl
    · intro j hj
      rcases (hal j).1 hj with hj | rfl
      · refine (hr.seg j hj).mono fun a ha => ?_
        have haa := (hr.known _ _ (Attached.mem_kids.1 ha)).1
        rw [hold a haa, hlock _ (hr.below a haa).2.2.1]
        exact ⟨rfl, rfl⟩
      · rw [hkc]; trivial
    · intro j hj hp
      rcases (hal j).1 hj with hj | rfl
      · rw [hold j hj]
        obtain ⟨h1, h2⟩ := hr.free j hj hp
        refine ⟨h1, ?_⟩
        simp only [create]
        split
        · rfl
        · exact h2
      · rw [hnew]
        exact ⟨rfl, if_pos rfl⟩
    · intro j hj
      rcases (hal j).1 hj with hj | rfl
      · have h1 := ih.placed j hj
        unfold Placed place at h1 ⊢
        rw [hold j hj, hlock _ (hr.below j hj).2.1, h1]
        cases hp : u.lock (u.obj j).parent with
        | none => rfl
        | some p =>
          simp only
          rw [hold p (lock_some.1 hp).2]
      · unfold Placed place
        rw [hnew]; rfl
  | @drop u t i p _ hi hp ih =>
    have hr := ih.rep
    have hr' : Rep { u with held := fun j => if j = i then false else u.held j } t none := by
      refine ⟨hr.nodup, hr.known, hr.below, hr.parent, hr.first, hr.last, ?_, ?_, hr.acyc⟩
      · intro q hq
        refine Seg.mono ?_ (hr.seg q hq)
        exact fun _ _ => ⟨rfl, rfl⟩
      · intro j hj hpn
        have hji : j ≠ i := by rintro rfl; rw [hp] at hpn; cases hpn
        simp only [if_neg hji]
        exact hr.free j hj hpn
    have : u.drop i = { u with held := fun j => if j = i then false else u.held j } := collect_id _ fun j hj => hr'.owned hj
    rw [this]
    exact ⟨hr', ih.placed⟩
  | @«show» u t i v u' _ hs ih =>
    unfold setVisible at hs
    split at hs
    · cases hs
    · cases hs
      have hr := ih.rep
      have hl : ∀ j, ((u.modify i fun o => { o with visible := v }).obj j).parent = (u.obj j).parent ∧ ((u.modify i fun o => { o with visible := v }).obj j).first = (u.obj j).first ∧
          ((u.modify i fun o => { o with visible := v }).obj j).next = (u.obj j).next ∧ ((u.modify i fun o => { o with visible := v }).obj j).prev = (u.obj j).prev ∧
          ((u.modify i fun o => { o with visible := v }).obj j).last = (u.obj j).last ∧ ((u.modify i fun o => { o with visible := v }).obj j).pos = (u.obj j).pos ∧
          ((u.modify i fun o => { o with visible := v }).obj j).abs = (u.obj j).abs := by
        intro j; rw [modify_obj]; split <;> simp
      refine ⟨⟨hr.nodup, hr.known, ?_, ?_, ?_, ?_, ?_, ?_, hr.acyc⟩, ?_⟩
      · intro j hj; rw [(hl j).1, (hl j).2.2.2.1, (hl j).2.2.2.2.1]; exact hr.below j hj
      · intro j hj hx; rw [modify_lock, (hl j).1]; exact hr.parent j hj hx
      · intro j hj; rw [(hl j).2.1]; exact hr.first j hj
      · intro j hj; rw [modify_lock, (hl j).2.2.2.2.1]; exact hr.last j hj
      · intro j hj
        refine (hr.seg j hj).mono fun a _ => ⟨?_, (hl a).2.2.1⟩
        rw [modify_lock, (hl a).2.2.2.1]
      · intro j hj hp; rw [(hl j).2.2.1]; exact hr.free j hj hp
      · intro j hj
        have h1 := ih.placed j hj
        unfold Placed place at h1 ⊢
        rw [modify_lock, (hl j).1, (hl j).2.2.2.2.2.2, h1, (hl j).2.2.2.2.2.1]
        cases u.lock (u.obj j).parent with
        | none => rfl
        | some p => simp only [(hl p).2.2.2.2.2.2]
  | @position u t n i pos u' _ hs ih =>
    unfold setPosition at hs
    split at hs
    · cases hs
    · rename_i hi
      have hi : i ∈ u.alive := Classical.not_not.1 hi
      have hr := ih.rep
      have hl : ∀ j, ((u.modify i fun o => { o with pos := pos }).obj j).parent = (u.obj j).parent ∧ ((u.modify i fun o => { o with pos := pos }).obj j).first = (u.obj j).first ∧
          ((u.modify i fun o => { o with pos := pos }).obj j).next = (u.obj j).next ∧ ((u.modify i fun o => { o with pos := pos }).obj j).prev = (u.obj j).prev ∧
          ((u.modify i fun o => { o with pos := pos }).obj j).last = (u.obj j).last ∧ ((u.modify i fun o => { o with pos := pos }).obj j).abs = (u.obj j).abs := by
        intro j; rw [modify_obj]; split <;> simp
      have hr' : Rep (u.modify i fun o => { o with pos := pos }) t none := by
        refine ⟨hr.nodup, hr.known, ?_, ?_, ?_, ?_, ?_, ?_, hr.acyc⟩
        · intro j hj; rw [(hl j).1, (hl j).2.2.2.1, (hl j).2.2.2.2.1]; exact hr.below j hj
        · intro j hj hx; rw [modify_lock, (hl j).1]; exact hr.parent j hj hx
        · intro j hj; rw [(hl j).2.1]; exact hr.first j hj
        · intro j hj; rw [modify_lock, (hl j).2.2.2.2.1]; exact hr.last j hj
        · intro j hj
          refine (hr.seg j hj).mono fun a _ => ⟨?_, (hl a).2.2.1⟩
          rw [modify_lock, (hl a).2.2.2.1]
        · intro j hj hp; rw [(hl j).2.2.1]; exact hr.free j hj hp
      obtain ⟨u'', L, hinv, _, _, _, _, huniq⟩ := recalc_inv (i := i) hr' hi (by
        intro e he hu
        have h1 := ih.placed e he
        have hei : e ≠ i := by rintro rfl; exact hu (.refl _ _)
        unfold Placed place at h1 ⊢
        rw [modify_lock, (hl e).1, (hl e).2.2.2.2.2, h1, modify_ne _ _ hei]
        cases u.lock (u.obj e).parent with
        | none => rfl
        | some p => simp only [(hl p).2.2.2.2.2])
      rw [huniq n u' hs]
      exact hinv
  | @same u t n i new u' _ hnew hs ih =>
    unfold setParent at hs
    split at hs
    · cases hs
    · rename_i hc
      have hi : i ∈ u.alive := Classical.not_not.1 fun h => hc (.inl h)
      simp only at hs
      rw [ih.rep.parent i hi (by simp), if_pos hnew] at hs
      cases hs
      exact ih
  | @move u t n i new u' _ hne hq hk hh hs ih =>
    have hc : ¬ (i ∉ u.alive ∨ ∃ q, new = some q ∧ q ∉ u.alive) := by
      intro hc
      rw [setParent, if_pos hc] at hs
      cases hs
    obtain ⟨u'', hinv, _, huniq⟩ := move_inv ih (Classical.not_not.1 fun h => hc (.inl h))
      (fun q e => Classical.not_not.1 fun h => hc (.inr ⟨q, e, h⟩)) hne hq hk hh
    rw [huniq n u' hs]
    exact hinv

end

end Ui

section
variable {α : Type} [Add α]
open Ui

/-- C56 (partial: clean histories only): `for_each_child` visits exactly the children, in the
order they were attached, and `for_each_child_reverse` visits them backwards. -/
theorem C56_children_partial {u : Ui α} {t : Attached} (h : Clean u t) {p n : Nat} (hp : p ∈ u.alive) (hn : (t.kids p).length < n) :
    u.children n p = some (t.kids p) ∧ u.childrenBack n p = some (t.kids p).reverse := by
  have hr := (clean_inv h).rep
  refine ⟨?_, (hr.seg p hp).walkBack (hr.last p hp) hn⟩
  rw [children, hr.first p hp]
  exact (hr.seg p hp).walk hn

/-- C56 (partial: clean histories only): `get_parent` is the object it was attached to last. -/
theorem C56_parent_partial {u : Ui α} {t : Attached} (h : Clean u t) {i : Nat} (hi : i ∈ u.alive) : u.lock (u.obj i).parent = t.parent i :=
  (clean_inv h).rep.parent i hi (by simp)

/-- C56 (partial): after a clean history the next clean move is defined and comes to an end. -/
theorem C56_defined_partial {u : Ui α} {t : Attached} (h : Clean u t) {i : Nat} {new : Option Nat} (hi : i ∈ u.alive) (hqa : ∀ q, new = some q → q ∈ u.alive)
    (hq : ∀ q k, new = some q → t.ancestor k q ≠ some i) (hk : ∀ p, t.parent i = some p → t.kids p = [i]) (hh : u.held i = true) :
    ∃ u' N, ∀ n ≥ N, u.setParent n i new = some u' := by
  by_cases hne : new = t.parent i
  · refine ⟨u, 0, fun n _ => ?_⟩
    have hc : ¬ (i ∉ u.alive ∨ ∃ q, new = some q ∧ q ∉ u.alive) := by
      rintro (h' | ⟨q, h', h''⟩)
      · exact h' hi
      · exact h'' (hqa q h')
    rw [Ui.setParent, if_neg hc]
    simp only
    rw [C56_parent_partial h hi, if_pos (.inl hne)]
  · obtain ⟨u', _, ⟨N, hN⟩, _⟩ := move_inv (clean_inv h) hi hqa hne hq hk hh
    exact ⟨u', N, hN⟩

/-- C68 (partial: clean histories only): the absolute position of an object is its position
relative to the absolute position of its parent. -/
theorem C68_absolute_partial {u : Ui α} {t : Attached} (h : Clean u t) {i : Nat} (hi : i ∈ u.alive) :
    (∀ p, t.parent i = some p → (u.obj i).abs = ((u.obj p).abs.1 + (u.obj i).pos.1, (u.obj p).abs.2 + (u.obj i).pos.2)) ∧
      (t.parent i = none → (u.obj i).abs = (u.obj i).pos) := by
  have h1 := (clean_inv h).placed i hi
  unfold Placed place at h1
  rw [C56_parent_partial h hi] at h1
  constructor
  · intro p hp; rw [hp] at h1; exact h1
  · intro hp; rw [hp] at h1; exact h1

/-- C68 is violated in the cost: moving an object recalculates a descendant `k + 1` levels
below 2^k times, in every tree. -/
theorem C68_cost_violated {u : Ui α} {t : Attached} (h : Clean u t) {i : Nat} (hi : i ∈ u.alive) (pos : α × α) :
    ∃ u' L N, (∀ n ≥ N, u.setPosition n i pos = some u') ∧ u'.log = u.log ++ L ∧ ∀ e k, t.ancestor (k + 1) e = some i → L.count e = 2 ^ k := by
  have hr := (clean_inv h).rep
  have hl : ∀ j, ((u.modify i fun o => { o with pos := pos }).obj j).parent = (u.obj j).parent ∧ ((u.modify i fun o => { o with pos := pos }).obj j).first = (u.obj j).first ∧
      ((u.modify i fun o => { o with pos := pos }).obj j).next = (u.obj j).next ∧ ((u.modify i fun o => { o with pos := pos }).obj j).prev = (u.obj j).prev ∧
      ((u.modify i fun o => { o with pos := pos }).obj j).last = (u.obj j).last := by
    intro j; rw [modify_obj]; split <;> simp
  have hr' : Rep (u.modify i fun o => { o with pos := pos }) t none := by
    refine ⟨hr.nodup, hr.known, ?_, ?_, ?_, ?_, ?_, ?_, hr.acyc⟩
    · intro j hj; rw [(hl j).1, (hl j).2.2.2.1, (hl j).2.2.2.2]; exact hr.below j hj
    · intro j hj hx; rw [modify_lock, (hl j).1]; exact hr.parent j hj hx
    · intro j hj; rw [(hl j).2.1]; exact hr.first j hj
    · intro j hj; rw [modify_lock, (hl j).2.2.2.2]; exact hr.last j hj
    · intro j hj
      refine (hr.seg j hj).mono fun a _ => ⟨?_, (hl a).2.2.1⟩
      rw [modify_lock, (hl a).2.2.2.1]
    · intro j hj hp; rw [(hl j).2.2.1]; exact hr.free j hj hp
  obtain ⟨N, L, a, _, r⟩ := (recalc_ok (α := α) hr.nodup hr.acyc i).1
  obtain ⟨u', f, e⟩ := r _ hr' hi
  refine ⟨u', L, N, fun n hn => ?_, f.log, fun e k hk => a e (k + 1) hk⟩
  rw [setPosition, if_neg (not_not_intro hi), e n hn]

/-- Recalculating a cycle of first children never ends. -/
theorem recalc_cycle (S : Nat → Prop) : ∀ (n : Nat) (u : Ui α), (∀ j, S j → ∃ c, S c ∧ (u.obj j).first = some c) → ∀ i, S i → recalc n u i = none
  | 0, _, _, _, _ => rfl
  | n + 1, u, h, i, hi => by
    rw [recalc]
    have h' : ∀ j, S j → ∃ c, S c ∧ ((u.modify i fun o => { o with abs := u.place i }).obj j).first = some c := by
      intro j hj
      obtain ⟨c, h1, h2⟩ := h j hj
      refine ⟨c, h1, ?_⟩
      rw [modify_obj]
      split <;> exact h2
    obtain ⟨c, hc, hf⟩ := h' i hi
    simp only
    rw [hf, eachDescendant, recalc_cycle S n { u.modify i (fun o => { o with abs := u.place i }) with log := u.log ++ [i] } h' c hc]
    rfl

end

/-! ### What goes wrong -/

/-- Four objects. -/
def uiFour : Ui Int :=
  let u : Ui Int := { obj := fun _ => { pos := (0, 0), abs := (0, 0) } }
  (((u.create (1, 0)).create (2, 0)).create (3, 0)).create (4, 0)

/-- Move several objects, one after the other. -/
def uiMoves (u : Ui Int) : List (Nat × Option Nat) → Option (Ui Int)
  | [] => some u
  | (i, new) :: r => (u.setParent 20 i new).bind fun u => uiMoves u r

/-- C56 is violated: an object that is moved takes its next siblings with it; here object 2
is visited as a child of 3 although its parent is 0. -/
theorem C56_siblings_violated : ∃ u, uiMoves uiFour [(1, some 0), (2, some 0), (1, some 3)] = some u ∧ u.children 9 3 = some [1, 2] ∧
    u.children 9 0 = some [2] ∧ u.lock (u.obj 2).parent = some 0 := by
  refine ⟨_, rfl, ?_⟩
  decide +kernel

/-- C56 is violated: after the last child was detached, the next one attached replaces all
others; here 1 is not visited although its parent is 0. -/
theorem C56_last_violated : ∃ u, uiMoves uiFour [(1, some 0), (2, some 0), (2, none), (3, some 0)] = some u ∧ u.children 9 0 = some [3] ∧
    u.lock (u.obj 1).parent = some 0 := by
  refine ⟨_, rfl, ?_⟩
  decide +kernel

/-- C56 is violated: if nobody else holds it, the replaced child is destroyed. -/
theorem C56_destroyed_violated : ∃ u v, uiMoves uiFour [(1, some 0), (2, some 0), (2, none)] = some u ∧ (u.drop 1).children 9 0 = some [1] ∧
    uiMoves (u.drop 1) [(3, some 0)] = some v ∧ v.alive = [0, 2, 3] := by
  refine ⟨_, _, rfl, ?_, rfl, ?_⟩ <;> decide +kernel

/-- C56 is violated: `for_each_child_reverse` still visits an object that was detached. -/
theorem C56_reverse_violated : ∃ u, uiMoves uiFour [(1, some 0), (2, some 0), (3, some 0), (2, none)] = some u ∧ u.children 9 0 = some [1, 3] ∧
    u.childrenBack 9 0 = some [3, 2, 1] ∧ u.lock (u.obj 2).parent = none := by
  refine ⟨_, rfl, ?_⟩
  decide +kernel

/-- One child, held by its parent only. -/
def uiChild : Ui Int := ((uiMoves uiFour [(1, some 0)]).getD uiFour).drop 1

/-- C56 is violated: an object that only its parent holds is destroyed while it is being
detached or moved, and used afterwards. -/
theorem C56_dangling_violated (n : Nat) (new : Option Nat) (h0 : new ≠ some 0) (h1 : new ≠ some 1) :
    1 ∈ uiChild.alive ∧ uiChild.children 9 0 = some [1] ∧ uiChild.setParent n 1 new = none := by
  refine ⟨by decide +kernel, by decide +kernel, ?_⟩
  have hp : uiChild.lock (uiChild.obj 1).parent = some 0 := by decide +kernel
  have hd : ((uiChild.modify 1 fun o => { o with parent := new }).unlink 1 (some 0)).alive = [0, 2, 3] := by rfl
  rw [Ui.setParent]
  split
  · rfl
  · simp only
    rw [hp, if_neg (not_or.2 ⟨h0, h1⟩), if_pos (.inl (by rw [hd]; decide))]

/-- C56 is violated: attaching an object below itself never comes to an end. -/
theorem C56_cycle_violated : ∃ u, uiMoves uiFour [(1, some 0)] = some u ∧ ∀ n, u.setParent n 0 (some 1) = none := by
  refine ⟨_, Option.eq_some_of_isSome (by decide +kernel), ?_⟩
  intro n
  generalize hv : Option.get _ _ = v
  have hv' : uiMoves uiFour [(1, some 0)] = some v := by rw [← hv]; simp
  have hv2 : v = (uiMoves uiFour [(1, some 0)]).getD uiFour := by rw [hv']; rfl
  subst hv2
  rw [Ui.setParent, if_neg (by decide +kernel)]
  simp only
  rw [if_neg (by decide +kernel), if_neg (by decide +kernel), recalc_cycle (fun j => j = 0 ∨ j = 1)]
  · rfl
  · rintro j (rfl | rfl)
    · exact ⟨1, .inr rfl, by decide +kernel⟩
    · exact ⟨0, .inl rfl, by decide +kernel⟩
  · exact .inl rfl

theorem ancestor_mem {t : Attached} (S : List Nat) (hc : ∀ s ∈ S, ∀ p, t.parent s = some p → p ∈ S) {q a : Nat} (hq : q ∈ S) :
    ∀ k, t.ancestor k q = some a → a ∈ S := by
  intro k
  induction k generalizing a with
  | zero => intro h; rw [← Option.some.inj h]; exact hq
  | succ k ih =>
    intro h
    rw [Attached.ancestor, Option.bind_eq_some_iff] at h
    obtain ⟨c, h1, h2⟩ := h
    exact hc c (ih h1) a h2

/-- A clean history: 1 and 2 become children of 0, 3 of 2, and 3 is then moved to 1. -/
example : ∃ (u : Ui Int) (t : Attached), Ui.Clean u t ∧ t.kids 0 = [1, 2] ∧ t.kids 1 = [3] ∧ 3 ∈ u.alive ∧ (u.obj 3).abs = (7, 0) := by
  have hm : ∀ {u : Ui Int} {t : Attached} {i q : Nat} (S : List Nat), Ui.Clean u t → some q ≠ t.parent i → q ∈ S → (∀ s ∈ S, t.parent s = none ∨ ∃ p ∈ S, t.parent s = some p) → i ∉ S →
      (t.parent i = none ∨ ∃ p, t.parent i = some p ∧ t.kids p = [i]) → u.held i = true → (u.setParent 20 i (some q)).isSome →
      Ui.Clean ((u.setParent 20 i (some q)).getD u) (t.move i (some q)) := by
    intro u t i q S h hne hq hS hi hk hh hs
    have hs' : u.setParent 20 i (some q) = some ((u.setParent 20 i (some q)).getD u) := by
      cases h : u.setParent 20 i (some q) with
      | none => rw [h] at hs; cases hs
      | some v => rfl
    refine .move h hne ?_ ?_ hh hs'
    · rintro q' k ⟨⟩ e
      refine hi (ancestor_mem S ?_ hq k e)
      intro s hs p hp
      rcases hS s hs with h | ⟨p', h1, h2⟩
      · rw [h] at hp; cases hp
      · rw [h2] at hp; cases hp; exact h1
    · intro p hp
      rcases hk with h | ⟨p', h1, h2⟩
      · rw [h] at hp; cases hp
      · rw [h1] at hp; cases hp; exact h2
  have h0 : Ui.Clean uiFour [] := .create _ (.create _ (.create _ (.create _ (.start _))))
  have h1 := hm (i := 1) (q := 0) [0] h0 (by decide) (by decide) (by decide) (by decide) (by decide) (by decide +kernel) (by decide +kernel)
  have h2 := hm (i := 2) (q := 0) [0] h1 (by decide) (by decide) (by decide) (by decide) (.inl (by decide)) (by decide +kernel) (by decide +kernel)
  have h3 := hm (i := 3) (q := 2) [2, 0] h2 (by decide) (by decide) (by decide) (by decide) (.inl (by decide)) (by decide +kernel) (by decide +kernel)
  have h4 := hm (i := 3) (q := 1) [1, 0] h3 (by decide) (by decide) (by decide) (by decide) (.inr ⟨2, by decide, by decide⟩) (by decide +kernel) (by decide +kernel)
  exact ⟨_, _, h4, by decide, by decide, by decide +kernel, by decide +kernel⟩

end RichText
