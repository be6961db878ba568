import Verif.Props.Writable
/-!
C139: editing the source of a document beside what is shown edits what is shown.
-/
namespace RichText
open Spec

variable {F : Type _}

/-- What is known of a byte that is shown: the byte of the source it is, at a place of the source `ps` has for it, and that any markup put
in its place is shown in its place, in its formatting. -/
def Replaceable (env : Env F) (st : Style F) (m : List UInt8) (o : List (UInt8 × Style F)) (ps : List Nat) : Prop :=
  ∀ oa b st' ob, o = oa ++ (b, st') :: ob → ∃ u v, m = u ++ b :: v ∧ ps[oa.length]? = some u.length ∧
    ∀ x ox, Content env st' x ox → Content env st (u ++ x ++ v) (oa ++ ox ++ ob)

theorem Replaceable.prefix {env : Env F} {st : Style F} {m : List UInt8} {o : List (UInt8 × Style F)} {ps : List Nat} (a : List UInt8)
    (hc : ∀ m o, Content env st m o → Content env st (a ++ m) o) (h : Replaceable env st m o ps) :
    Replaceable env st (a ++ m) o (ps.map (a.length + ·)) := by
  intro oa b st' ob ho
  obtain ⟨u, v, h1, h2, h3⟩ := h oa b st' ob ho
  refine ⟨a ++ u, v, by rw [h1]; simp, by rw [List.getElem?_map, h2]; simp, fun x ox hx => ?_⟩
  have := hc _ _ (h3 x ox hx)
  simpa using this

theorem pairwise_shift {ps : List Nat} (k : Nat) (h : ps.Pairwise (· < ·)) : (ps.map (k + ·)).Pairwise (· < ·) := by
  rw [List.pairwise_map]
  exact h.imp fun h => by omega

theorem content_places {env : Env F} {st : Style F} {m : List UInt8} {o : List (UInt8 × Style F)} (h : Content env st m o) :
    ∃ ps : List Nat, ps.length = o.length ∧ ps.Pairwise (· < ·) ∧ (∀ p ∈ ps, p < m.length) ∧ Replaceable env st m o ps := by
  induction h with
  | nil st => exact ⟨[], rfl, List.Pairwise.nil, by simp, fun oa b st' ob h => by simp at h⟩
  | @char st m o c hc hf h ih =>
    obtain ⟨ps, h1, h2, h3, h4⟩ := ih
    refine ⟨0 :: ps.map (1 + ·), by simp [h1], ?_, ?_, ?_⟩
    · rw [List.pairwise_cons]
      refine ⟨fun p hp => ?_, pairwise_shift 1 h2⟩
      obtain ⟨q, -, rfl⟩ := List.mem_map.1 hp
      omega
    · intro p hp
      rw [List.length_cons]
      rcases List.mem_cons.1 hp with rfl | hp
      · omega
      · obtain ⟨q, hq, rfl⟩ := List.mem_map.1 hp
        have := h3 q hq
        omega
    · intro oa b st' ob ho
      cases oa with
      | nil =>
        simp only [List.nil_append, List.cons.injEq, Prod.mk.injEq] at ho
        obtain ⟨⟨rfl, rfl⟩, rfl⟩ := ho
        exact ⟨[], m, rfl, rfl, fun x ox hx => by simpa using content_append hx h⟩
      | cons y oa =>
        simp only [List.cons_append, List.cons.injEq] at ho
        obtain ⟨rfl, ho⟩ := ho
        obtain ⟨u, v, g1, g2, g3⟩ := h4 oa b st' ob ho
        exact ⟨c :: u, v, by rw [g1]; rfl, by
          rw [List.length_cons, List.getElem?_cons_succ, List.getElem?_map, g2, Option.map_some, List.length_cons, Nat.add_comm],
          fun x ox hx => .char c hc hf (g3 x ox hx)⟩
  | comment body hb h ih =>
    obtain ⟨ps, h1, h2, h3, h4⟩ := ih
    refine ⟨_, by rw [List.length_map, h1], pairwise_shift _ h2, ?_, h4.prefix _ fun _ _ h => .comment body hb h⟩
    intro p hp
    obtain ⟨q, hq, rfl⟩ := List.mem_map.1 hp
    have := h3 q hq
    simp only [List.length_append]
    omega
  | uc h ih =>
    obtain ⟨ps, h1, h2, h3, h4⟩ := ih
    refine ⟨_, by rw [List.length_map, h1], pairwise_shift _ h2, ?_, h4.prefix _ fun _ _ h => .uc h⟩
    intro p hp
    obtain ⟨q, hq, rfl⟩ := List.mem_map.1 hp
    have := h3 q hq
    rw [List.length_append]
    omega
  | uppercase h ih =>
    obtain ⟨ps, h1, h2, h3, h4⟩ := ih
    refine ⟨_, by rw [List.length_map, h1], pairwise_shift _ h2, ?_, h4.prefix _ fun _ _ h => .uppercase h⟩
    intro p hp
    obtain ⟨q, hq, rfl⟩ := List.mem_map.1 hp
    have := h3 q hq
    rw [List.length_append]
    omega
  | @tag st st' op close inner m oi o ht hi h ih1 ih2 =>
    obtain ⟨ps, h1, h2, h3, h4⟩ := ih1
    obtain ⟨qs, k1, k2, k3, k4⟩ := ih2
    refine ⟨ps.map (op.length + ·) ++ qs.map ((op ++ inner ++ b!"</" ++ close ++ b!">").length + ·), by simp [h1, k1], ?_, ?_, ?_⟩
    · rw [List.pairwise_append]
      refine ⟨pairwise_shift _ h2, pairwise_shift _ k2, ?_⟩
      intro a ha b hb
      obtain ⟨p, hp, rfl⟩ := List.mem_map.1 ha
      obtain ⟨q, hq, rfl⟩ := List.mem_map.1 hb
      have := h3 p hp
      simp only [List.length_append]
      omega
    · intro p hp
      rcases List.mem_append.1 hp with hp | hp
      · obtain ⟨q, hq, rfl⟩ := List.mem_map.1 hp
        have := h3 q hq
        simp only [List.length_append]
        omega
      · obtain ⟨q, hq, rfl⟩ := List.mem_map.1 hp
        have := k3 q hq
        simp only [List.length_append]
        omega
    · intro oa b st'' ob ho
      rcases List.append_eq_append_iff.1 ho with ⟨a', e1, e2⟩ | ⟨c', e1, e2⟩
      · -- behind the tag
        obtain ⟨u, v, g1, g2, g3⟩ := k4 a' b st'' ob e2
        refine ⟨op ++ inner ++ b!"</" ++ close ++ b!">" ++ u, v, by rw [g1]; simp, ?_, fun x ox hx => ?_⟩
        · rw [e1, List.getElem?_append_right (by rw [List.length_map, h1, List.length_append]; omega), List.length_map, h1,
            show (oi ++ a').length - oi.length = a'.length by rw [List.length_append]; omega, List.getElem?_map, g2, Option.map_some,
            ← List.length_append]
        · have := Content.tag ht hi (g3 x ox hx)
          rw [e1]
          simpa using this
      · cases c' with
        | nil =>
          simp only [List.append_nil] at e1
          simp only [List.nil_append] at e2
          obtain ⟨u, v, g1, g2, g3⟩ := k4 [] b st'' ob e2.symm
          refine ⟨op ++ inner ++ b!"</" ++ close ++ b!">" ++ u, v, by rw [g1]; simp, ?_, fun x ox hx => ?_⟩
          · rw [← e1, List.getElem?_append_right (by rw [List.length_map, h1]), List.length_map, h1, Nat.sub_self,
              List.getElem?_map]
            rw [List.length_nil] at g2
            rw [g2, Option.map_some, ← List.length_append]
          · have := Content.tag ht hi (g3 x ox hx)
            rw [← e1]
            simpa using this
        | cons y c' =>
          simp only [List.cons_append, List.cons.injEq] at e2
          obtain ⟨rfl, e2⟩ := e2
          obtain ⟨u, v, g1, g2, g3⟩ := h4 oa b st'' c' e1
          refine ⟨op ++ u, v ++ b!"</" ++ close ++ b!">" ++ m, by rw [g1]; simp, ?_, fun x ox hx => ?_⟩
          · rw [List.getElem?_append_left, List.getElem?_map, g2, Option.map_some, List.length_append]
            rw [List.length_map, h1, e1, List.length_append, List.length_cons]; omega
          · have := Content.tag ht (g3 x ox hx) h
            rw [e2]
            simpa using this

/-! ### Deleting -/

/-- A list without the elements at some places. -/
def without {α : Type _} : (Nat → Bool) → List α → List α
  | _, [] => []
  | D, c :: m => if D 0 then without (fun n => D (n + 1)) m else c :: without (fun n => D (n + 1)) m

theorem without_append {α : Type _} : ∀ (a b : List α) (D : Nat → Bool),
    without D (a ++ b) = without D a ++ without (fun n => D (a.length + n)) b
  | [], b, D => by simp [without]
  | c :: a, b, D => by
    rw [List.cons_append, without, without, without_append a b]
    simp only [List.length_cons, show ∀ n, a.length + 1 + n = a.length + n + 1 from fun n => by omega]
    split <;> rfl

theorem without_none {α : Type _} : ∀ (a : List α) (D : Nat → Bool), (∀ p < a.length, D p = false) → without D a = a
  | [], _, _ => rfl
  | c :: a, D, h => by
    rw [without, h 0 (by simp), without_none a _ fun p hp => h (p + 1) (by simpa using hp)]
    rfl

theorem without_congr {α : Type _} : ∀ (a : List α) (D E : Nat → Bool), (∀ p < a.length, D p = E p) → without D a = without E a
  | [], _, _, _ => rfl
  | c :: a, D, E, h => by
    rw [without, without, h 0 (by simp), without_congr a _ _ fun p hp => h (p + 1) (by simpa using hp)]

/-- What is left of what is shown. -/
def stays {F : Type _} (D : Nat → Bool) (ps : List Nat) (o : List (UInt8 × Style F)) : List (UInt8 × Style F) :=
  ((ps.zip o).filter fun x => !D x.1).map (·.2)

theorem stays_shift (D : Nat → Bool) (k : Nat) (ps : List Nat) (o : List (UInt8 × Style F)) :
    stays D (ps.map (k + ·)) o = stays (fun n => D (k + n)) ps o := by
  unfold stays
  rw [List.zip_map_left, List.filter_map, List.map_map]
  rfl

theorem stays_append (D : Nat → Bool) {ps : List Nat} {o : List (UInt8 × Style F)} (h : ps.length = o.length) (qs : List Nat)
    (o' : List (UInt8 × Style F)) : stays D (ps ++ qs) (o ++ o') = stays D ps o ++ stays D qs o' := by
  unfold stays
  rw [List.zip_append h, List.filter_append, List.map_append]

theorem stays_congr (D E : Nat → Bool) (ps : List Nat) (o : List (UInt8 × Style F)) (h : ∀ p ∈ ps, D p = E p) : stays D ps o = stays E ps o := by
  unfold stays
  rw [List.filter_congr]
  intro x hx
  rw [h _ (List.of_mem_zip hx).1]

theorem content_deletes {env : Env F} {st : Style F} {m : List UInt8} {o : List (UInt8 × Style F)} (h : Content env st m o) :
    ∃ ps : List Nat, ps.length = o.length ∧ ps.Pairwise (· < ·) ∧ ps.map (m[·]?) = o.map (some ·.1) ∧
      ∀ D : Nat → Bool, (∀ p, D p = true → p ∈ ps) → Content env st (without D m) (stays D ps o) := by
  have pre : ∀ {st : Style F} {m : List UInt8} {o : List (UInt8 × Style F)} (a : List UInt8), (∀ m o, Content env st m o → Content env st (a ++ m) o) →
      (∃ ps : List Nat, ps.length = o.length ∧ ps.Pairwise (· < ·) ∧ ps.map (m[·]?) = o.map (some ·.1) ∧
        ∀ D : Nat → Bool, (∀ p, D p = true → p ∈ ps) → Content env st (without D m) (stays D ps o)) →
      ∃ ps : List Nat, ps.length = o.length ∧ ps.Pairwise (· < ·) ∧ ps.map ((a ++ m)[·]?) = o.map (some ·.1) ∧
        ∀ D : Nat → Bool, (∀ p, D p = true → p ∈ ps) → Content env st (without D (a ++ m)) (stays D ps o) := by
    rintro st m o a hc ⟨ps, h1, h2, h3, h4⟩
    refine ⟨ps.map (a.length + ·), by rw [List.length_map, h1], pairwise_shift _ h2, ?_, fun D hD => ?_⟩
    · rw [List.map_map, ← h3]
      apply List.map_congr_left
      intro p _
      show (a ++ m)[a.length + p]? = m[p]?
      rw [List.getElem?_append_right (by omega), Nat.add_sub_cancel_left]
    · rw [without_append, stays_shift, without_none a D]
      · refine hc _ _ (h4 _ fun p hp => ?_)
        obtain ⟨q, hq, hq'⟩ := List.mem_map.1 (hD _ hp)
        rwa [← Nat.add_left_cancel hq']
      · intro p hp
        rw [Bool.eq_false_iff]
        intro hd
        obtain ⟨q, -, hq⟩ := List.mem_map.1 (hD p hd)
        omega
  induction h with
  | nil st => exact ⟨[], rfl, List.Pairwise.nil, rfl, fun D _ => .nil st⟩
  | @char st m o c hc hf h ih =>
    obtain ⟨ps, h1, h2, h3, h4⟩ := ih
    refine ⟨0 :: ps.map (1 + ·), by simp [h1], ?_, ?_, fun D hD => ?_⟩
    · rw [List.pairwise_cons]
      refine ⟨fun p hp => ?_, pairwise_shift 1 h2⟩
      obtain ⟨q, -, rfl⟩ := List.mem_map.1 hp
      omega
    · rw [List.map_cons, List.map_cons, List.map_map, ← h3]
      congr 1
      apply List.map_congr_left
      intro p _
      simp [Nat.add_comm 1]
    · have h5 : Content env st (without (fun n => D (n + 1)) m) (stays (fun n => D (n + 1)) ps o) := by
        refine h4 _ fun p hp => ?_
        rcases List.mem_cons.1 (hD _ hp) with h | h
        · omega
        · obtain ⟨q, hq, hq'⟩ := List.mem_map.1 h
          obtain rfl : q = p := by omega
          exact hq
      have h6 : stays D (0 :: ps.map (1 + ·)) ((c, st) :: o) =
          if D 0 then stays (fun n => D (n + 1)) ps o else (c, st) :: stays (fun n => D (n + 1)) ps o := by
        have := stays_shift D 1 ps o
        simp only [Nat.add_comm 1] at this
        rw [← this]
        unfold stays
        rw [List.zip_cons_cons, List.filter_cons]
        simp only [Nat.add_comm 1]
        cases D 0 <;> rfl
      rw [h6, without]
      split
      · exact h5
      · exact .char c hc hf h5
  | comment body hb h ih => exact pre _ (fun _ _ h => .comment body hb h) ih
  | uc h ih => exact pre _ (fun _ _ h => .uc h) ih
  | uppercase h ih => exact pre _ (fun _ _ h => .uppercase h) ih
  | @tag st st' op close inner m oi o ht hi h ih1 ih2 =>
    obtain ⟨ps, h1, h2, h3, h4⟩ := ih1
    obtain ⟨qs, k1, k2, k3, k4⟩ := ih2
    have hps : ∀ p ∈ ps, p < inner.length := by
      intro p hp
      have : inner[p]? ∈ oi.map (some ·.1) := by rw [← h3]; exact List.mem_map.2 ⟨p, hp, rfl⟩
      obtain ⟨x, -, hx⟩ := List.mem_map.1 this
      exact (List.getElem?_eq_some_iff.1 hx.symm).1
    have hlen : (op ++ inner ++ b!"</" ++ close ++ b!">").length = op.length + inner.length + (2 + close.length + 1) := by
      simp only [List.length_append, List.length_cons, List.length_nil]; omega
    refine ⟨ps.map (op.length + ·) ++ qs.map ((op ++ inner ++ b!"</" ++ close ++ b!">").length + ·), by simp [h1, k1], ?_, ?_, fun D hD => ?_⟩
    · rw [List.pairwise_append]
      refine ⟨pairwise_shift _ h2, pairwise_shift _ k2, ?_⟩
      intro a ha b hb
      obtain ⟨p, hp, rfl⟩ := List.mem_map.1 ha
      obtain ⟨q, hq, rfl⟩ := List.mem_map.1 hb
      have := hps p hp
      omega
    · rw [List.map_append, List.map_append, List.map_map, List.map_map, ← h3, ← k3]
      congr 1
      · apply List.map_congr_left
        intro p hp
        have := hps p hp
        show (op ++ inner ++ b!"</" ++ close ++ b!">" ++ m)[op.length + p]? = inner[p]?
        rw [show op ++ inner ++ b!"</" ++ close ++ b!">" ++ m = op ++ (inner ++ (b!"</" ++ close ++ b!">" ++ m)) by simp,
          List.getElem?_append_right (by omega), Nat.add_sub_cancel_left, List.getElem?_append_left this]
      · apply List.map_congr_left
        intro p hp
        show (op ++ inner ++ b!"</" ++ close ++ b!">" ++ m)[(op ++ inner ++ b!"</" ++ close ++ b!">").length + p]? = m[p]?
        rw [List.getElem?_append_right (by omega), Nat.add_sub_cancel_left]
    · have hmem : ∀ n, D n = true → (∃ p ∈ ps, n = op.length + p) ∨
          ∃ q ∈ qs, n = (op ++ inner ++ b!"</" ++ close ++ b!">").length + q := by
        intro n hn
        rcases List.mem_append.1 (hD n hn) with h | h
        · obtain ⟨q, hq, hq'⟩ := List.mem_map.1 h
          exact Or.inl ⟨q, hq, hq'.symm⟩
        · obtain ⟨q, hq, hq'⟩ := List.mem_map.1 h
          exact Or.inr ⟨q, hq, hq'.symm⟩
      have c1 := h4 (fun n => if n < inner.length then D (op.length + n) else false) fun p hp => by
        split at hp
        · rcases hmem _ hp with ⟨q, hq, e⟩ | ⟨q, hq, e⟩
          · rwa [Nat.add_left_cancel e]
          · omega
        · cases hp
      have c2 := k4 (fun n => D ((op ++ inner ++ b!"</" ++ close ++ b!">").length + n)) fun p hp => by
        rcases hmem _ hp with ⟨q, hq, e⟩ | ⟨q, hq, e⟩
        · have := hps q hq; omega
        · rwa [Nat.add_left_cancel e]
      have c3 := Content.tag ht c1 c2
      rw [stays_append D (by rw [List.length_map, h1]), stays_shift, stays_shift]
      rw [stays_congr _ (fun n => D (op.length + n)) ps oi fun p hp => by simp [hps p hp],
        without_congr inner _ (fun n => D (op.length + n)) fun p hp => by simp [hp]] at c3
      have e1 : without D op = op := without_none _ _ fun n hn => by
        rw [Bool.eq_false_iff]
        intro hd
        rcases hmem n hd with ⟨q, -, e⟩ | ⟨q, -, e⟩ <;> omega
      have e2 : without (fun n => D ((op ++ inner).length + n)) (b!"</" ++ close ++ b!">") = b!"</" ++ close ++ b!">" :=
        without_none _ _ fun n hn => by
          have hl : (b!"</" ++ close ++ b!">").length = 2 + close.length + 1 := by
            simp only [List.length_append, List.length_cons, List.length_nil]
          rw [Bool.eq_false_iff]
          intro hd
          rw [List.length_append] at hd
          rcases hmem _ hd with ⟨q, hq, e⟩ | ⟨q, -, e⟩
          · have := hps q hq; omega
          · omega
      have e3 : op ++ inner ++ b!"</" ++ close ++ b!">" ++ m = op ++ inner ++ (b!"</" ++ close ++ b!">") ++ m := by simp
      have e4 : (op ++ inner ++ b!"</" ++ close ++ b!">").length = (op ++ inner ++ (b!"</" ++ close ++ b!">")).length := by simp
      rw [e3, without_append, without_append (op ++ inner), without_append op, e1, e2, ← e4]
      simpa using c3

/-! ## C139 -/

/-- C139: the bytes that are shown are bytes of the source, in order; and whatever markup is put in the place of one of them is shown in its
place, inside the formatting it has, while everything else is shown as before. -/
theorem C139_replace (env : Env F) (text : List UInt8) (font : Font) (color : Color F) (stroke : StrokeState F) (hf : ProperFont font)
    (o : List (UInt8 × Style F)) (h : Document env (baseStyle font color stroke) text o) :
    ∃ ps : List Nat, ps.length = o.length ∧ ps.Pairwise (· < ·) ∧
      ∀ (i p : Nat) (b : UInt8) (st : Style F), ps[i]? = some p → o[i]? = some (b, st) → text[p]? = some b ∧
        ∀ x ox, Content env st x ox → ∃ runs,
          parseInlineFormatting env (text.take p ++ x ++ text.drop (p + 1)) font color stroke =
            .ok ((o.take i ++ ox ++ o.drop (i + 1)).map (·.1), runs) ∧
          ShowsStyles runs (o.take i ++ ox ++ o.drop (i + 1)) := by
  obtain ⟨m, hm, hc⟩ := h
  obtain ⟨ps, h1, h2, h3, h4⟩ := content_places hc
  refine ⟨ps, h1, h2, fun i p b st hp ho => ?_⟩
  obtain ⟨hi, ho'⟩ := List.getElem?_eq_some_iff.1 ho
  have hsplit : o = o.take i ++ (b, st) :: o.drop (i + 1) := by
    rw [← ho', List.getElem_cons_drop, List.take_append_drop]
  obtain ⟨u, v, g1, g2, g3⟩ := h4 _ _ _ _ hsplit
  rw [List.length_take, Nat.min_eq_left (by omega), hp] at g2
  obtain rfl : p = u.length := Option.some.inj g2
  obtain ⟨t, ht, ht'⟩ : ∃ t, text = u ++ b :: (v ++ t) ∧ (t = [] ∨ ∃ junk, t = 0xFF :: junk) := by
    rcases hm with rfl | ⟨junk, rfl⟩
    · exact ⟨[], by rw [g1]; simp, Or.inl rfl⟩
    · exact ⟨0xFF :: junk, by rw [g1]; simp, Or.inr ⟨junk, rfl⟩⟩
  refine ⟨by rw [ht]; simp, fun x ox hx => ?_⟩
  have he : text.take u.length ++ x ++ text.drop (u.length + 1) = u ++ x ++ v ++ t := by
    rw [ht, List.take_left, ← List.drop_drop, List.drop_left]
    simp
  rw [he]
  apply C10_documents env _ font color stroke hf
  refine ⟨u ++ x ++ v, ?_, g3 x ox hx⟩
  rcases ht' with rfl | ⟨junk, rfl⟩
  · exact Or.inl (by simp)
  · exact Or.inr ⟨junk, rfl⟩

/-- C139: characters typed in front of a shown character, or behind it, get its formatting, and nothing else changes; and a shown character
that is deleted from the source is deleted from what is shown. -/
theorem C139_type_delete (env : Env F) (text : List UInt8) (font : Font) (color : Color F) (stroke : StrokeState F) (hf : ProperFont font)
    (o : List (UInt8 × Style F)) (h : Document env (baseStyle font color stroke) text o) :
    ∃ ps : List Nat, ps.length = o.length ∧ ps.Pairwise (· < ·) ∧
      ∀ (i p : Nat) (b : UInt8) (st : Style F), ps[i]? = some p → o[i]? = some (b, st) → text[p]? = some b ∧
        (∀ l : List UInt8, (∀ c ∈ l, c ≠ c!"<" ∧ c ≠ 0xFF) →
          (∃ runs, parseInlineFormatting env (text.take p ++ l ++ text.drop p) font color stroke =
              .ok ((o.take i).map (·.1) ++ l ++ (o.drop i).map (·.1), runs) ∧
            ShowsStyles runs (o.take i ++ l.map (fun c => (c, st)) ++ o.drop i)) ∧
          ∃ runs, parseInlineFormatting env (text.take (p + 1) ++ l ++ text.drop (p + 1)) font color stroke =
              .ok ((o.take (i + 1)).map (·.1) ++ l ++ (o.drop (i + 1)).map (·.1), runs) ∧
            ShowsStyles runs (o.take (i + 1) ++ l.map (fun c => (c, st)) ++ o.drop (i + 1))) ∧
        ∃ runs, parseInlineFormatting env (text.take p ++ text.drop (p + 1)) font color stroke =
            .ok ((o.take i ++ o.drop (i + 1)).map (·.1), runs) ∧ ShowsStyles runs (o.take i ++ o.drop (i + 1)) := by
  obtain ⟨ps, h1, h2, h3⟩ := C139_replace env text font color stroke hf o h
  refine ⟨ps, h1, h2, fun i p b st hp ho => ?_⟩
  obtain ⟨g1, g2⟩ := h3 i p b st hp ho
  obtain ⟨hi, ho'⟩ := List.getElem?_eq_some_iff.1 ho
  obtain ⟨hp1, hp2⟩ := List.getElem?_eq_some_iff.1 g1
  have hb := (C138_documents env font color stroke hf o).1 ⟨text, h⟩ _ (List.mem_of_getElem? ho)
  have ed : text.drop p = b :: text.drop (p + 1) := by rw [← hp2, List.getElem_cons_drop]
  have et : text.take (p + 1) = text.take p ++ [b] := by rw [← hp2, List.take_append_getElem]
  have od : o.drop i = (b, st) :: o.drop (i + 1) := by rw [← ho', List.getElem_cons_drop]
  have ot : o.take (i + 1) = o.take i ++ [(b, st)] := by rw [← ho', List.take_append_getElem]
  have hmap : ∀ l : List UInt8, (l.map fun c => (c, st)).map (·.1) = l := fun l => by
    rw [List.map_map]; exact List.map_id _
  refine ⟨g1, fun l hl => ⟨?_, ?_⟩, ?_⟩
  · obtain ⟨runs, r1, r2⟩ := g2 (l ++ [b]) _ (content_append (plain_content st l hl) (.char b hb.1 hb.2.1 (.nil _)))
    refine ⟨runs, ?_, ?_⟩
    · rw [ed, od]
      simpa [hmap] using r1
    · rw [od]
      simpa using r2
  · obtain ⟨runs, r1, r2⟩ := g2 ([b] ++ l) _ (content_append (.char b hb.1 hb.2.1 (.nil _)) (plain_content st l hl))
    refine ⟨runs, ?_, ?_⟩
    · rw [et, ot]
      simpa [hmap] using r1
    · rw [ot]
      simpa using r2
  · obtain ⟨runs, r1, r2⟩ := g2 [] [] (.nil _)
    exact ⟨runs, by simpa using r1, by simpa using r2⟩

/-- C139: any of the bytes that are shown can be deleted from the source, and what is shown is what is left of it. -/
theorem C139_delete (env : Env F) (text : List UInt8) (font : Font) (color : Color F) (stroke : StrokeState F) (hf : ProperFont font)
    (o : List (UInt8 × Style F)) (h : Document env (baseStyle font color stroke) text o) :
    ∃ ps : List Nat, ps.length = o.length ∧ ps.Pairwise (· < ·) ∧ ps.map (text[·]?) = o.map (some ·.1) ∧
      ∀ D : Nat → Bool, (∀ p, D p = true → p ∈ ps) → ∃ runs,
        parseInlineFormatting env (without D text) font color stroke = .ok ((stays D ps o).map (·.1), runs) ∧
        ShowsStyles runs (stays D ps o) := by
  obtain ⟨m, hm, hc⟩ := h
  obtain ⟨ps, h1, h2, h3, h4⟩ := content_deletes hc
  have hps : ∀ p ∈ ps, p < m.length := by
    intro p hp
    have : m[p]? ∈ o.map (some ·.1) := by rw [← h3]; exact List.mem_map.2 ⟨p, hp, rfl⟩
    obtain ⟨x, -, hx⟩ := List.mem_map.1 this
    exact (List.getElem?_eq_some_iff.1 hx.symm).1
  obtain ⟨t, rfl, ht'⟩ : ∃ t, text = m ++ t ∧ (t = [] ∨ ∃ junk, t = 0xFF :: junk) := by
    rcases hm with rfl | ⟨junk, rfl⟩
    · exact ⟨[], by simp, Or.inl rfl⟩
    · exact ⟨0xFF :: junk, rfl, Or.inr ⟨junk, rfl⟩⟩
  refine ⟨ps, h1, h2, ?_, fun D hD => ?_⟩
  · rw [← h3]
    apply List.map_congr_left
    intro p hp
    rw [List.getElem?_append_left (hps p hp)]
  · apply C10_documents env _ font color stroke hf
    rw [without_append, without_none t]
    · refine ⟨without D m, ?_, h4 D hD⟩
      rcases ht' with rfl | ⟨junk, rfl⟩
      · exact Or.inl (by simp)
      · exact Or.inr ⟨junk, rfl⟩
    · intro n _
      rw [Bool.eq_false_iff]
      intro hd
      have := hps _ (hD _ hd)
      omega

/-- What is not true: that an ordinary character can be typed anywhere.  Typed inside a tag it may leave no document, and then all the tags
are shown, unformatted. -/
theorem C139_inside_tag_violated : ∃ (text : List UInt8) (o : List (UInt8 × Style Nat)) (p : Nat) (c : UInt8),
    Document toyEnv (baseStyle toyFont toyColor toyStroke) text o ∧ c ≠ c!"<" ∧ c ≠ 0xFF ∧ p < text.length ∧
    (∀ x ∈ o, x.2.flag .underline = true) ∧
    (parseInlineFormatting toyEnv (text.take p ++ [c] ++ text.drop p) toyFont toyColor toyStroke).toOption.map
      (fun r => (r.1, (r.2.flags .underline).values)) = some (text.take p ++ [c] ++ text.drop p, [false]) :=
  ⟨b!"<u>a</u>", _, 1, c!"y", ⟨_, Or.inl rfl, .tag .u (.char c!"a" (by decide) (by decide) (.nil _)) (.nil _)⟩, by decide, by decide,
    by decide, by decide, by decide +kernel⟩

/-! A document meeting the hypotheses, and the parser at work on what becomes of it: `bc` typed behind the `a` is underlined, the `a` replaced by
`<i>x</i>` is underlined as well (the first run is empty). -/

def editMarkup : List UInt8 := b!"<u>a</u>z"

example : Document toyEnv (baseStyle toyFont toyColor toyStroke) editMarkup
    [(c!"a", (baseStyle toyFont toyColor toyStroke).on .underline), (c!"z", baseStyle toyFont toyColor toyStroke)] :=
  ⟨_, Or.inl rfl, .tag .u (.char c!"a" (by decide) (by decide) (.nil _)) (.char c!"z" (by decide) (by decide) (.nil _))⟩

example : (parseInlineFormatting toyEnv (editMarkup.take 4 ++ b!"bc" ++ editMarkup.drop 4) toyFont toyColor toyStroke).toOption.map
    (fun r => (r.1, r.2.flags .underline)) = some (b!"abcz", ⟨[false, true, false], [0, 3, 4]⟩) := by decide +kernel

example : (parseInlineFormatting toyEnv (editMarkup.take 3 ++ b!"<i>x</i>" ++ editMarkup.drop 4) toyFont toyColor toyStroke).toOption.map
    (fun r => (r.1, r.2.flags .underline)) = some (b!"xz", ⟨[false, true, false], [0, 1, 2]⟩) := by decide +kernel

end RichText
