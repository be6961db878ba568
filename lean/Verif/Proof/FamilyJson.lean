import Verif.Spec.FamilyJson
/-! Proofs about family descriptions in JSON (C84). -/
namespace RichText

theorem getStr_eq {v : Option Json} {s : String} : Json.getStr v = some s ↔ v = some (.str s) := by
  unfold Json.getStr
  constructor
  · intro h; split at h
    · cases h; rfl
    · cases h
  · rintro rfl; rfl

theorem getArr_eq {v : Option Json} {vs : List Json} : Json.getArr v = some vs ↔ v = some (.arr vs) := by
  unfold Json.getArr
  constructor
  · intro h; split at h
    · cases h; rfl
    · cases h
  · rintro rfl; rfl

theorem getObj_eq {v : Option Json} {fs : List (String × Json)} : Json.getObj v = some fs ↔ v = some (.obj fs) := by
  unfold Json.getObj
  constructor
  · intro h; split at h
    · cases h; rfl
    · cases h
  · rintro rfl; rfl

theorem getInt_eq {v : Option Json} {n : Int} : Json.getInt v = some n ↔
    v = some (.int n) ∧ -9223372036854775808 ≤ n ∧ n < 9223372036854775808 := by
  unfold Json.getInt
  constructor
  · intro h; split at h
    · split at h
      · rename_i hr; cases h; exact ⟨rfl, hr⟩
      · cases h
    · cases h
  · rintro ⟨rfl, h⟩
    simp only
    rw [if_pos h]

theorem getArr_none {v : Option Json} : Json.getArr v = none ↔ ¬ ∃ vs, v = some (.arr vs) := by
  constructor
  · rintro h ⟨vs, rfl⟩; cases h
  · intro h
    cases hv : Json.getArr v with
    | none => rfl
    | some vs => exact absurd ⟨vs, getArr_eq.1 hv⟩ h

/-! ### Names and faces -/

theorem jsonNames_eq : ∀ (vs : List Json) (names : List String), jsonNames vs = some names ↔ vs = names.map .str := by
  intro vs
  induction vs with
  | nil =>
    intro names
    unfold jsonNames
    cases names with
    | nil => simp
    | cons a as => simp
  | cons v vs ih =>
    intro names
    unfold jsonNames
    cases hv : Json.getStr (some v) with
    | none =>
      simp only [false_iff, reduceCtorEq]
      intro h
      cases names with
      | nil => cases h
      | cons a as =>
        simp only [List.map_cons, List.cons.injEq] at h
        rw [h.1] at hv
        cases hv
    | some s =>
      have hs := getStr_eq.1 hv
      simp only [Option.some.injEq] at hs
      subst hs
      simp only [Option.map_eq_some_iff]
      constructor
      · rintro ⟨l, h1, rfl⟩
        rw [(ih l).1 h1]
        rfl
      · intro h
        cases names with
        | nil => cases h
        | cons a as =>
          simp only [List.map_cons, List.cons.injEq, Json.str.injEq] at h
          exact ⟨as, (ih as).2 h.2, by rw [h.1]⟩

theorem jsonFamilies_eq (fs : List (String × Json)) (field : String) (names : List String) :
    jsonFamilies fs field = some names ↔ ListsNames fs field names := by
  unfold jsonFamilies ListsNames Json.field
  cases h : Json.getArr (fs.lookup field) with
  | none =>
    have h' := getArr_none.1 h
    simp only [Option.some.injEq]
    constructor
    · rintro rfl; exact .inr ⟨h', rfl⟩
    · rintro (h1 | ⟨_, h1⟩)
      · exact absurd ⟨_, h1⟩ h'
      · exact h1.symm
  | some vs =>
    have h' := getArr_eq.1 h
    simp only [jsonNames_eq]
    constructor
    · rintro rfl; exact .inl h'
    · rintro (h1 | ⟨h1, _⟩)
      · rw [h'] at h1
        simpa using h1
      · exact absurd ⟨_, h'⟩ h1

theorem jsonFace_eq (v : Json) (i : FaceInfo) : jsonFace v = some i ↔ DescribesFace v i := by
  constructor
  · intro h
    unfold jsonFace at h
    split at h
    · cases h
    rename_i fs hfs
    split at h
    · cases h
    rename_i name hname
    split at h
    · cases h
    rename_i uri huri
    split at h
    · cases h
    rename_i w hw
    split at h
    · cases h
    rename_i hrange
    split at h
    · cases h
    rename_i style hstyle
    split at h
    · cases h
    rename_i hst
    simp only [Option.some.injEq] at h
    subst h
    have hfs := getObj_eq.1 hfs
    simp only [Option.some.injEq] at hfs
    have hname := getStr_eq.1 hname
    have huri := getStr_eq.1 huri
    have hstyle := getStr_eq.1 hstyle
    obtain ⟨hw, _⟩ := getInt_eq.1 hw
    have hk : ∃ k : Nat, k < 9 ∧ w = 100 * (k + 1) := by
      rw [not_or, not_or] at hrange
      obtain ⟨r1, r2, r3⟩ := hrange
      rw [ne_eq, Decidable.not_not, Int.tmod_eq_emod_of_nonneg (by omega)] at r3
      exact ⟨((w - 100) / 100).toNat, by omega, by omega⟩
    obtain ⟨k, hk9, rfl⟩ := hk
    have hd : ((100 * ((k : Int) + 1) - 100).tdiv 100) = (k : Int) := by
      rw [Int.tdiv_eq_ediv_of_nonneg (by omega)]; omega
    have hb : (BitVec.ofInt 4 ((100 * ((k : Int) + 1) - 100).tdiv 100)).toNat = k := by
      rw [hd, BitVec.ofInt_natCast, BitVec.toNat_ofNat]
      omega
    refine ⟨by simp only [hb]; exact hk9, fs, hfs, hname, huri, ?_, ?_⟩
    · simp only [hb]; exact hw
    · simp only
      unfold Json.field at hstyle
      rw [hstyle]
      split
      · rename_i he; rw [he]; rfl
      · rename_i he
        have : style = "normal" := by
          rcases Decidable.em (style = "normal") with h | h
          · exact h
          · exact absurd ⟨h, he⟩ hst
        rw [this]; rfl
  · rintro ⟨hw, fs, rfl, h1, h2, h3, h4⟩
    obtain ⟨name, uri, weight, style⟩ := i
    simp only at hw h1 h2 h3 h4
    unfold jsonFace Json.field
    simp only [Json.getObj, Json.getStr, h1, h2, h3, h4]
    rw [getInt_eq.2 ⟨rfl, by omega, by omega⟩]
    simp only
    have hd : ((100 * ((weight.toNat : Int) + 1) - 100).tdiv 100) = (weight.toNat : Int) := by
      rw [Int.tdiv_eq_ediv_of_nonneg (by omega)]; omega
    rw [if_neg, hd, BitVec.ofInt_natCast, BitVec.ofNat_toNat, BitVec.setWidth_eq]
    · cases style <;> simp [FontStyle.word]
    · rw [Int.tmod_eq_emod_of_nonneg (by omega)]
      omega

theorem jsonFaces_eq : ∀ (vs : List Json) (faces : List FaceInfo), jsonFaces vs = some faces ↔ List.Forall₂ DescribesFace vs faces := by
  intro vs
  induction vs with
  | nil =>
    intro faces
    unfold jsonFaces
    cases faces with
    | nil => simp
    | cons a as => simp
  | cons v vs ih =>
    intro faces
    unfold jsonFaces
    cases hv : jsonFace v with
    | none =>
      simp only [false_iff, reduceCtorEq]
      intro h
      cases h with
      | cons h1 _ => rw [(jsonFace_eq _ _).2 h1] at hv; cases hv
    | some f =>
      simp only [Option.map_eq_some_iff]
      constructor
      · rintro ⟨l, h1, rfl⟩
        exact .cons ((jsonFace_eq _ _).1 hv) ((ih l).1 h1)
      · intro h
        cases h with
        | cons h1 h2 =>
          rw [(jsonFace_eq _ _).2 h1] at hv
          cases hv
          exact ⟨_, (ih _).2 h2, rfl⟩

/-! ### Scripts -/

theorem mem_setCodes {bits : List Bool} {c : Int} : c ∈ setCodes bits ↔ 0 ≤ c ∧ bits[c.toNat]? = some true := by
  unfold setCodes
  rw [List.mem_filterMap]
  constructor
  · rintro ⟨i, _, h⟩
    split at h
    · rename_i hb
      cases h
      exact ⟨by omega, by simpa using hb⟩
    · cases h
  · rintro ⟨h0, h⟩
    refine ⟨c.toNat, ?_, ?_⟩
    · rw [List.mem_range]; exact (List.getElem?_eq_some_iff.1 h).1
    · rw [if_pos h]; simp only [Option.some.injEq]; omega

theorem setCodes_sorted (bits : List Bool) : (setCodes bits).Pairwise (· < ·) := by
  unfold setCodes
  rw [List.pairwise_filterMap]
  refine List.pairwise_lt_range.imp ?_
  intro a b hab x hx y hy
  split at hx
  · split at hy
    · cases hx; cases hy; omega
    · cases hy
  · cases hx

/-- The loop over scripts: it ends well exactly if each value means a script, and
then sets the bits of those. -/
theorem jsonScripts_some {limit : Nat} (hl : limit ≤ 2 ^ 63) {scriptOf : String → ScriptCode} : ∀ (vs : List Json) (bits : List Bool),
    bits.length = limit →
    (∀ bits', jsonScripts scriptOf vs bits = some (some bits') →
      bits'.length = limit ∧ (∀ v ∈ vs, ∃ c : Int, 0 ≤ c ∧ c < limit ∧ MeansScript scriptOf v c) ∧
      ∀ i : Nat, bits'[i]? = some true ↔ bits[i]? = some true ∨ ∃ v ∈ vs, MeansScript scriptOf v i) ∧
    ((∀ v ∈ vs, ∃ c : Int, 0 ≤ c ∧ c < limit ∧ MeansScript scriptOf v c) → ∃ bits', jsonScripts scriptOf vs bits = some (some bits')) := by
  intro vs
  induction vs with
  | nil =>
    intro bits hb
    unfold jsonScripts
    refine ⟨fun bits' h => ?_, fun _ => ⟨bits, rfl⟩⟩
    cases h
    exact ⟨hb, by simp, by simp⟩
  | cons v vs ih =>
    intro bits hb
    -- what happens after the bit `c` of the value `v` is set
    have step : ∀ c : Int, 0 ≤ c → c < limit → (∀ d, MeansScript scriptOf v d ↔ d = c) →
        (∀ bits', jsonScripts scriptOf vs (bits.set c.toNat true) = some (some bits') →
          bits'.length = limit ∧ (∀ u ∈ v :: vs, ∃ c : Int, 0 ≤ c ∧ c < limit ∧ MeansScript scriptOf u c) ∧
          ∀ i : Nat, bits'[i]? = some true ↔ bits[i]? = some true ∨ ∃ u ∈ v :: vs, MeansScript scriptOf u i) ∧
        ((∀ u ∈ v :: vs, ∃ c : Int, 0 ≤ c ∧ c < limit ∧ MeansScript scriptOf u c) →
          ∃ bits', jsonScripts scriptOf vs (bits.set c.toNat true) = some (some bits')) := by
      intro c h0 h1 hm
      obtain ⟨i1, i2⟩ := ih (bits.set c.toNat true) (by rw [List.length_set]; exact hb)
      refine ⟨fun bits' h => ?_, fun h => i2 fun v' hv' => h v' (List.mem_cons_of_mem _ hv')⟩
      obtain ⟨a1, a2, a3⟩ := i1 bits' h
      refine ⟨a1, ?_, fun i => ?_⟩
      · intro v' hv'
        rcases List.mem_cons.1 hv' with he | hv'
        · rw [he]; exact ⟨c, h0, h1, (hm c).2 rfl⟩
        · exact a2 v' hv'
      · rw [a3, List.getElem?_set]
        constructor
        · rintro (h2 | ⟨v', hv', h2⟩)
          · split at h2
            · right
              refine ⟨v, List.mem_cons_self .., (hm _).2 ?_⟩
              omega
            · exact .inl h2
          · exact .inr ⟨v', List.mem_cons_of_mem _ hv', h2⟩
        · rintro (h2 | ⟨v', hv', h2⟩)
          · left
            split
            · rename_i he
              rw [if_pos (by omega)]
            · exact h2
          · rcases List.mem_cons.1 hv' with he | hv'
            · left
              rw [he] at h2
              have := (hm _).1 h2
              rw [if_pos (by omega), if_pos (by omega)]
            · exact .inr ⟨v', hv', h2⟩
    have fail : ∀ x : Option (Option (List Bool)), (∀ b, x ≠ some (some b)) →
        (¬ ∃ c : Int, 0 ≤ c ∧ c < limit ∧ MeansScript scriptOf v c) →
        (∀ bits', x = some (some bits') →
          bits'.length = limit ∧ (∀ u ∈ v :: vs, ∃ c : Int, 0 ≤ c ∧ c < limit ∧ MeansScript scriptOf u c) ∧
          ∀ i : Nat, bits'[i]? = some true ↔ bits[i]? = some true ∨ ∃ u ∈ v :: vs, MeansScript scriptOf u i) ∧
        ((∀ u ∈ v :: vs, ∃ c : Int, 0 ≤ c ∧ c < limit ∧ MeansScript scriptOf u c) → ∃ bits', x = some (some bits')) := by
      intro x hx hv
      exact ⟨fun b h => absurd h (hx b), fun h => absurd (h v (List.mem_cons_self ..)) hv⟩
    unfold jsonScripts
    cases hn : Json.getInt (some v) with
    | some n =>
      obtain ⟨hv, _⟩ := getInt_eq.1 hn
      simp only [Option.some.injEq] at hv
      subst hv
      have hm : ∀ d, MeansScript scriptOf (.int n) d ↔ d = n := by
        intro d
        unfold MeansScript
        constructor
        · rintro (h | ⟨s, h, _⟩)
          · cases h; rfl
          · cases h
        · rintro rfl; exact .inl rfl
      simp only [hb]
      split
      · refine fail _ (by simp) ?_
        rintro ⟨c, _, h1, h2⟩
        rw [hm] at h2
        omega
      · split
        · exact step n (by omega) (by omega) hm
        · refine fail _ (by simp) ?_
          rintro ⟨c, h1, _, h2⟩
          rw [hm] at h2
          omega
    | none =>
      cases hs : Json.getStr (some v) with
      | some s =>
        have hv := getStr_eq.1 hs
        simp only [Option.some.injEq] at hv
        subst hv
        have hm : ∀ d, MeansScript scriptOf (.str s) d ↔ scriptOf s = .code d := by
          intro d
          unfold MeansScript
          constructor
          · rintro (h | ⟨s', h, h'⟩)
            · cases h
            · cases h; exact h'
          · intro h; exact .inr ⟨s, rfl, h⟩
        cases hc : scriptOf s with
        | failure =>
          simp only [hc]
          refine fail _ (by simp) ?_
          rintro ⟨c, _, _, h2⟩
          rw [hm, hc] at h2
          cases h2
        | nothing =>
          simp only [hc]
          refine fail _ (by simp) ?_
          rintro ⟨c, _, _, h2⟩
          rw [hm, hc] at h2
          cases h2
        | code c =>
          have hm' : ∀ d, MeansScript scriptOf (.str s) d ↔ d = c := by
            intro d
            rw [hm, hc, ScriptCode.code.injEq]
            exact eq_comm
          simp only [hb, hc]
          split
          · rename_i hr; exact step c hr.1 hr.2 hm'
          · rename_i hr
            refine fail _ (by simp) ?_
            rintro ⟨d, h1, h2, h3⟩
            rw [hm'] at h3
            subst h3
            exact hr ⟨h1, h2⟩
      | none =>
        refine fail _ (by simp) ?_
        rintro ⟨c, h0, h1, h2 | ⟨s, h2, _⟩⟩
        · subst h2
          rw [getInt_eq.2 ⟨rfl, by omega, by omega⟩] at hn
          cases hn
        · subst h2
          cases hs

/-- The loop over scripts is defined on sane lists. -/
theorem jsonScripts_defined {scriptOf : String → ScriptCode} : ∀ (vs : List Json) (bits : List Bool),
    (∀ v ∈ vs, (∀ n, v = .int n → 0 ≤ n) ∧
      ∀ s, v = .str s → scriptOf s = .failure ∨ ∃ c : Int, 0 ≤ c ∧ c < bits.length ∧ scriptOf s = .code c) →
    ∃ x, jsonScripts scriptOf vs bits = some x := by
  intro vs
  induction vs with
  | nil => intro bits _; exact ⟨_, rfl⟩
  | cons v vs ih =>
    intro bits h
    obtain ⟨h1, h2⟩ := h v (List.mem_cons_self ..)
    have next : ∀ k, ∃ x, jsonScripts scriptOf vs (bits.set k true) = some x := fun k =>
      ih _ fun v' hv' => by
        rw [List.length_set]; exact h v' (List.mem_cons_of_mem _ hv')
    unfold jsonScripts
    cases hn : Json.getInt (some v) with
    | some n =>
      obtain ⟨hv, _⟩ := getInt_eq.1 hn
      simp only [Option.some.injEq] at hv
      simp only
      split
      · exact ⟨_, rfl⟩
      · rw [if_pos (h1 n hv)]; exact next _
    | none =>
      cases hs : Json.getStr (some v) with
      | some s =>
        have hv := getStr_eq.1 hs
        simp only [Option.some.injEq] at hv
        rcases h2 s hv with hc | ⟨c, c1, c2, hc⟩
        · simp only [hc]; exact ⟨_, rfl⟩
        · simp only [hc]; rw [if_pos ⟨c1, c2⟩]; exact next _
      | none => exact ⟨_, rfl⟩

end RichText
