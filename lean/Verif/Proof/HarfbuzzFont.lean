import Verif.Spec.HarfbuzzFont
import Verif.Proof.FontSize
import Verif.Proof.FontThread
/-! Proofs about advances and scales (C79, C80). -/
namespace RichText

/-! ### Floats -/

theorem floatInt_small {n : Int} (h : n.natAbs < 2 ^ 24) : floatInt n = n := by
  unfold floatInt
  rw [ofNat_small h]
  simp only [Int.toNat_zero, Nat.pow_zero, Nat.mul_one]
  exact Int.sign_mul_natAbs n

theorem floatInt_near {n : Int} (h : n.natAbs < 2 ^ 31) : (floatInt n - n).natAbs ≤ 64 := by
  obtain ⟨q, L, h1, h2, h3, h4⟩ := ofNat_shape (b := n.natAbs) (by omega)
  unfold floatInt
  rw [h1]
  simp only [Int.toNat_natCast]
  have hn := Int.sign_mul_natAbs n
  have key : ((q * 2 ^ L : Nat) : Int) - n.natAbs ≤ 64 ∧ -64 ≤ ((q * 2 ^ L : Nat) : Int) - n.natAbs := by
    rcases h4 with ⟨rfl, rfl, _⟩ | ⟨hq, h5, h6⟩
    · simp
    · have hL : L ≤ 7 := by
        rcases Nat.lt_or_ge 7 L with hc | hc
        · exfalso
          have : 2 ^ 8 ≤ 2 ^ L := Nat.pow_le_pow_right (by decide) hc
          omega
        · exact hc
      have hT : 2 ^ L ≤ 2 ^ 7 := Nat.pow_le_pow_right (by decide) hL
      have hb := roundShift_bounds n.natAbs L
      rw [← hq] at hb
      generalize q * 2 ^ L = z at *
      constructor <;> omega
  generalize ((q * 2 ^ L : Nat) : Int) = z at *
  rcases Int.lt_trichotomy n 0 with h0 | h0 | h0
  · rw [Int.sign_eq_neg_one_of_neg h0] at hn ⊢; omega
  · subst h0; simp
  · rw [Int.sign_eq_one_of_pos h0] at hn ⊢; omega

theorem scaleSign_cases (s : Int) : scaleSign s = 1 ∨ scaleSign s = -1 := by
  unfold scaleSign; split
  · exact .inr rfl
  · exact .inl rfl

theorem hAdvance_range {s v a : Int} (h : hAdvance s v = some a) : -2147483648 ≤ a ∧ a < 2147483648 := by
  unfold hAdvance floatToInt at h
  split at h
  · simp only [Option.map_some, Option.some.injEq] at h
    rename_i hr
    omega
  · simp at h

theorem toInt_ofInt_toNat {a : Int} (h : -2147483648 ≤ a ∧ a < 2147483648) :
    BitVec.toInt (BitVec.ofNat 32 (BitVec.ofInt 32 a).toNat) = a := by
  rw [BitVec.ofNat_toNat, BitVec.setWidth_eq, BitVec.toInt_ofInt]
  exact Int.bmod_eq_of_le (by omega) (by omega)

/-! ### The advance cache -/

variable {κ : Type} {C : AdvCache κ} {F : FreeType}

/-- What the cache has is what would be computed. -/
def HbFont.Fresh (C : AdvCache κ) (F : FreeType) (file : Nat) (height : Option Nat) (h : HbFont κ) : Prop :=
  ∀ g w, C.get h.cache g = some w → ∃ a, hAdvance h.scaleX (F.advance file height g) = some a ∧ w = (BitVec.ofInt 32 a).toNat

theorem markChanged_fresh (hC : C.Sound) (file : Nat) (h1 h2 : Option Nat) :
    (markChanged C F file h1).Fresh C F file h2 := by
  intro g w h
  unfold markChanged at h
  rw [hC.clear] at h
  cases h

theorem hAdvances_spec (hC : C.Sound) (file : Nat) (height : Option Nat) : ∀ (gs : List Nat) (h : HbFont κ),
    h.Fresh C F file height →
    (hAdvances C F file height gs h).map (·.1) = gs.mapM (fun g => hAdvance h.scaleX (F.advance file height g)) ∧
    ∀ as h', hAdvances C F file height gs h = some (as, h') →
      h'.Fresh C F file height ∧ h'.scaleX = h.scaleX ∧ h'.scaleY = h.scaleY := by
  intro gs
  induction gs with
  | nil =>
    intro h hf
    refine ⟨rfl, fun as h' he => ?_⟩
    unfold hAdvances at he
    cases he
    exact ⟨hf, rfl, rfl⟩
  | cons g gs ih =>
    intro h hf
    unfold hAdvances
    rw [List.mapM_cons]
    cases hg : C.get h.cache g with
    | some cv =>
      obtain ⟨a, ha, hw⟩ := hf g cv hg
      obtain ⟨i1, i2⟩ := ih h hf
      have hr := hAdvance_range ha
      simp only
      rw [ha, hw, toInt_ofInt_toNat hr]
      constructor
      · cases hh : hAdvances C F file height gs h with
        | none => rw [hh] at i1; simp only [Option.map_none] at i1; simp [← i1]
        | some r => rw [hh] at i1; simp only [Option.map_some] at i1; simp [← i1]
      · intro as h' he
        cases hh : hAdvances C F file height gs h with
        | none => rw [hh] at he; cases he
        | some r =>
          rw [hh] at he
          simp only [Option.map_some, Option.some.injEq, Prod.mk.injEq] at he
          rw [← he.2]
          exact i2 r.1 r.2 hh
    | none =>
      simp only
      cases ha : hAdvance h.scaleX (F.advance file height g) with
      | none => simp
      | some v =>
        simp only
        have hf' : HbFont.Fresh C F file height { h with cache := C.set h.cache g (BitVec.ofInt 32 v).toNat } := by
          intro g' w hw
          rcases hC.set _ _ _ _ _ hw with ⟨rfl, rfl⟩ | hw
          · exact ⟨v, ha, rfl⟩
          · exact hf g' w hw
        obtain ⟨i1, i2⟩ := ih _ hf'
        constructor
        · cases hh : hAdvances C F file height gs { h with cache := C.set h.cache g (BitVec.ofInt 32 v).toNat } with
          | none => rw [hh] at i1; simp only [Option.map_none] at i1; simp [← i1]
          | some r => rw [hh] at i1; simp only [Option.map_some] at i1; simp [← i1]
        · intro as h' he
          cases hh : hAdvances C F file height gs { h with cache := C.set h.cache g (BitVec.ofInt 32 v).toNat } with
          | none => rw [hh] at he; cases he
          | some r =>
            rw [hh] at he
            simp only [Option.map_some, Option.some.injEq, Prod.mk.injEq] at he
            rw [← he.2]
            exact i2 r.1 r.2 hh

/-- The word stored for a key has all its bits if they fit. -/
theorem hbCache_sound : hbCache.Sound where
  clear k := by
    unfold hbCache
    simp only [List.getD_eq_getElem?_getD]
    rw [if_pos]
    left
    rw [List.getElem?_replicate]
    split <;> rfl
  set c k v k' w h := by
    unfold hbCache at h ⊢
    simp only [List.getD_eq_getElem?_getD] at h ⊢
    split at h
    · rename_i hkv
      rw [List.getElem?_set] at h
      split at h
      · rename_i hm
        split at h
        · simp only [Option.getD_some] at h
          split at h
          · cases h
          · rename_i hn
            simp only [Option.some.injEq] at h
            rw [not_or] at hn
            obtain ⟨_, h2⟩ := hn
            left
            have e1 : (k / 256 * 2 ^ 24 + v) / 2 ^ 24 = k / 256 := by omega
            have e2 : (k / 256 * 2 ^ 24 + v) % 2 ^ 24 = v := by omega
            rw [e1, ne_eq, Decidable.not_not] at h2
            rw [e2] at h
            exact ⟨by omega, h.symm⟩
        · rename_i hl
          simp only [Option.getD_none] at h
          split at h
          · cases h
          · rename_i hn
            exact absurd (.inl trivial) hn
      · exact .inr h
    · exact .inr h

/-! ### Threads -/

theorem lookup_hbSetKey (k k' : BitVec 16) (o : HbOwner κ) : ∀ c : List (BitVec 16 × HbOwner κ),
    (hbSetKey k o c).lookup k' = if k' = k then (c.lookup k).map fun _ => o else c.lookup k' := by
  intro c
  induction c with
  | nil => simp [hbSetKey]
  | cons x c ih =>
    obtain ⟨y, v⟩ := x
    unfold hbSetKey at ih ⊢
    rw [List.map_cons]
    by_cases hy : y = k
    · subst hy
      simp only [if_true]
      by_cases hk : k' = y
      · subst hk; simp
      · have hb : (k' == y) = false := by simpa using hk
        rw [if_neg hk] at ih ⊢
        rw [List.lookup_cons, hb, List.lookup_cons, hb]
        exact ih
    · simp only [if_neg hy]
      by_cases hk : k' = y
      · subst hk; simp [hy]
      · have hb : (k' == y) = false := by simpa using hk
        have hb2 : (k == y) = false := by simpa using fun h => hy h.symm
        have e1 : List.lookup k ((y, v) :: c) = List.lookup k c := by rw [List.lookup_cons, hb2]
        have e2 : List.lookup k' ((y, v) :: c) = List.lookup k' c := by rw [List.lookup_cons, hb]
        rw [e1, e2, List.lookup_cons, hb]
        exact ih

theorem lookup_plain (k : BitVec 16) : ∀ c : List (BitVec 16 × HbOwner κ),
    (c.map fun x => (x.1, x.2.ft)).lookup k = (c.lookup k).map (·.ft) := by
  intro c
  induction c with
  | nil => rfl
  | cons x c ih =>
    obtain ⟨y, v⟩ := x
    rw [List.map_cons, List.lookup_cons, List.lookup_cons]
    cases k == y
    · exact ih
    · rfl

theorem lookup_snoc (k k' : BitVec 16) (o : HbOwner κ) (c : List (BitVec 16 × HbOwner κ)) :
    (c ++ [(k, o)]).lookup k' = (c.lookup k').or (if k' = k then some o else none) := by
  induction c with
  | nil =>
    rw [List.nil_append, List.lookup_cons]
    by_cases h : k' = k
    · simp [h]
    · have hb : (k' == k) = false := by simpa using h
      rw [hb, if_neg h]; rfl
  | cons x c ih =>
    obtain ⟨y, v⟩ := x
    rw [List.cons_append, List.lookup_cons, List.lookup_cons]
    cases k' == y
    · exact ih
    · rfl

/-- Invariant of a cache entry. -/
structure HbOwner.Ok (C : AdvCache κ) (F : FreeType) (o : HbOwner κ) : Prop where
  fresh : o.hb.Fresh C F o.ft.file (some o.ft.height)
  sized : o.ft.size ≠ 0 → o.ft.height = o.ft.size ∧ o.Scaled F

theorem hbScale_em (scale upem : Nat) : EmSize scale upem (hbScale scale upem) := by
  intro h
  unfold hbScale
  generalize scale * upem = v at *
  rw [BitVec.toInt_eq_toNat_of_lt]
  · rw [BitVec.toNat_ofNat]
    omega
  · rw [BitVec.toNat_ofNat]
    omega

theorem HbOwner.Ok.resize (hC : C.Sound) {o : HbOwner κ} (h : o.Ok C F) (n : Nat) : (o.resize C F n).Ok C F := by
  unfold HbOwner.resize
  split
  · exact h
  · exact ⟨markChanged_fresh hC _ _ _, fun _ => ⟨rfl, hbScale_em _ _, hbScale_em _ _⟩⟩

theorem hbLoad_ok (hC : C.Sound) {lib : FontLib} {file eff : Nat} {o : HbOwner κ} (h : hbLoad C F lib file eff = some o) :
    o.Ok C F := by
  unfold hbLoad at h
  split at h
  · rename_i a hb he
    cases h
    obtain ⟨h1, _⟩ := (hAdvances_spec hC file (some eff) _ _ (markChanged_fresh hC file none (some eff))).2 _ _ he
    exact ⟨h1, fun h => absurd rfl h⟩
  · cases h

theorem HbRun.ok (hC : C.Sound) {lib : FontLib} {r : Registry} {t : HbThread κ} (h : HbRun C F lib r t) :
    ∀ k o, t.cache.lookup k = some o → o.Ok C F := by
  induction h with
  | start _ => intro k o h; cases h
  | register _ _ ih => exact ih
  | @fontData r t t' q d _ he ih =>
    intro k o hk
    unfold hbGetFontData at he
    split at he
    · cases he
    rename_i eff heff
    split at he
    · rename_i o1 ho1
      cases he
      rw [lookup_hbSetKey] at hk
      split at hk
      · rw [ho1] at hk
        cases hk
        exact (ih _ _ ho1).resize hC _
      · exact ih _ _ hk
    · split at he
      · cases he
      split at he
      · cases he; exact ih _ _ hk
      · split at he
        · cases hl : hbLoad C F lib _ eff with
          | none => rw [hl] at he; cases he
          | some o1 =>
            rw [hl] at he
            cases he
            rw [lookup_snoc] at hk
            cases hc : t.cache.lookup k with
            | some o2 => rw [hc] at hk; cases hk; exact ih _ _ hc
            | none =>
              rw [hc, Option.none_or] at hk
              split at hk
              · cases hk; exact hbLoad_ok hC hl
              · cases hk
        · cases he; exact ih _ _ hk
  | @advances r t t' k1 gs as _ he ih =>
    intro k o hk
    unfold HbThread.advances at he
    split at he
    · cases he
    rename_i o1 ho1
    cases hl : hAdvances C F o1.ft.file (some o1.ft.height) gs o1.hb with
    | none => rw [hl] at he; cases he
    | some x =>
      rw [hl] at he
      cases he
      rw [lookup_hbSetKey] at hk
      split at hk
      · rw [ho1] at hk
        cases hk
        have ho := ih _ _ ho1
        obtain ⟨a1, a2, a3⟩ := (hAdvances_spec hC _ _ gs o1.hb ho.fresh).2 _ _ hl
        refine ⟨a1, fun hs => ?_⟩
        obtain ⟨b1, b2, b3⟩ := ho.sized hs
        exact ⟨b1, by rw [a2]; exact b2, by rw [a3]; exact b3⟩
      · exact ih _ _ hk

theorem plain_setKey (k : BitVec 16) (o : HbOwner κ) (c : List (BitVec 16 × HbOwner κ)) :
    (hbSetKey k o c).map (fun x => (x.1, x.2.ft)) = setKey k o.ft (c.map fun x => (x.1, x.2.ft)) := by
  unfold hbSetKey setKey
  rw [List.map_map, List.map_map]
  apply List.map_congr_left
  intro x _
  simp only [Function.comp_apply]
  split <;> rfl

theorem resize_plain (o : HbOwner κ) (n : Nat) : (o.resize C F n).ft = o.ft.resize n := by
  unfold HbOwner.resize FontOwner.resize
  split <;> rfl

end RichText
