import Verif.Proof.Lex
import Verif.Props.Handles
/-! Attribute lists of `<font>` and `<stroke>`. -/
namespace RichText
open Spec

variable {F : Type _}

/-! ### faults -/

theorem Spec.Safe.suffix {env : Env F} {t l : List UInt8} (h : t <:+ l) (hs : Safe env l) :
    Safe env t :=
  ⟨fun v hv => hs.1 v (hv.trans h.isInfix), fun hp u d hi => hs.2 hp u d (hi.trans h.isInfix)⟩

theorem rgbChannel_fault (past : Option UInt8) (stop : UInt8) (l : List UInt8) :
    ∀ (buf : List UInt8) (e : Fault), rgbChannel past stop buf l = .error e → buf.length ≤ 3 →
    e = .overrun ∧ past = none ∧ ∃ d t, Digits d ∧ l = d ++ t ∧ buf.length + d.length = 3 := by
  induction l with
  | nil => intro buf e h; simp [rgbChannel] at h
  | cons c t ih =>
    intro buf e h hb
    simp only [rgbChannel] at h
    split at h
    · rename_i hc
      simp only [Bool.and_eq_true, decide_eq_true_eq] at hc
      obtain ⟨h1, h2, d, u, h3, h4, h5⟩ := ih _ _ h (by simp; omega)
      refine ⟨h1, h2, c :: d, u, ?_, by simp [h4], by simp at h5 ⊢; omega⟩
      intro x hx
      rcases List.mem_cons.1 hx with rfl | hx
      · exact hc.1
      · exact h3 x hx
    · split at h
      · split at h
        · rename_i e' hv
          simp at h; subst h
          unfold rgbValue at hv
          split at hv
          · simp at hv
          · split at hv
            · simp at hv
              exact ⟨hv.symm, rfl, [], c :: t, by simp [Digits], rfl, by simp; omega⟩
            · simp at hv
        · simp at h
      · simp at h

/-- bytes that can precede a channel inside `rgb(` -/
def ChanBytes (u : List UInt8) : Prop :=
  ∀ c ∈ u, (c = 32 ∨ c = 9 ∨ c = 13 ∨ c = 10) ∨ (48 ≤ c ∧ c ≤ 57) ∨ c = c!","

theorem ChanBytes.append {u v : List UInt8} (hu : ChanBytes u) (hv : ChanBytes v) :
    ChanBytes (u ++ v) := fun c hc => (List.mem_append.1 hc).elim (hu c) (hv c)

theorem chanBytes_spaces {s : List UInt8} (h : Spaces s) : ChanBytes s := fun c hc => .inl (h c hc)

theorem chanBytes_digits {s : List UInt8} (h : Digits s) : ChanBytes s :=
  fun c hc => .inr (.inl ((isDigit_iff c).1 (h c hc)))

theorem chanBytes_comma : ChanBytes [c!","] := fun c hc => .inr (.inr (by simpa using hc))

theorem parseColor_fault (env : Env F) (l : List UInt8) (e : Fault)
    (h : parseColor env.past l = .error e) : e = .overrun ∧ ¬ Safe env l := by
  cases l with
  | nil =>
    have h1 : ¬ (sentinel = c!"#") := by decide
    have h2 : ¬ (sentinel = c!"r") := by decide
    simp [parseColor, nextChar, h1, h2] at h
  | cons c l =>
    simp only [parseColor, nextChar] at h
    by_cases h1 : c = c!"#"
    · simp [h1] at h
    · simp only [h1, if_false] at h
      by_cases h2 : c = c!"r"
      · simp only [h2, if_true, parseColorRgb] at h
        subst h2
        by_cases hw : (consumeWord b!"gb(" l).err
        · simp [hw] at h
        · simp only [hw, Bool.false_eq_true, if_false] at h
          have ew := consumeWord_inv (w := b!"gb(") (by decide) (l := l) (by simpa using hw)
          generalize (consumeWord b!"gb(" l).rest = l0 at h ew
          have key : ∀ u d t, l0 = u ++ d ++ t → ChanBytes u → Digits d → env.past = none →
              d.length = 3 → ¬ Safe env (c!"r" :: l) := by
            intro u d t hl hu hd hp h3 hs
            have := hs.2 hp u d ⟨[], t, by rw [ew, hl]; simp⟩ hu
              (fun c hc => (isDigit_iff c).1 (hd c hc))
            omega
          obtain ⟨s1, hs1, es1, hh1⟩ := skipSpace_spec l0
          split at h
          · rename_i e' hr
            simp at h; subst h
            obtain ⟨a, b, d, t, hd, hl, h3⟩ := rgbChannel_fault _ _ _ _ _ hr (by simp)
            refine ⟨a, key s1 d t (by rw [es1, hl]; simp) (chanBytes_spaces hs1) hd b (by simpa using h3)⟩
          · rename_i r1 hr1
            by_cases hr1e : r1.err
            · simp [hr1e] at h
            · simp only [hr1e, Bool.false_eq_true, if_false] at h
              obtain ⟨d1, t1, hd1, ht1, hl1, hx1, hv1⟩ := rgbChannel_inv _ _ _ _ _ hr1
                (by simpa using hr1e) (by simp)
              obtain ⟨s2, hs2, es2, hh2⟩ := skipSpace_spec r1.rest
              have c1 : ChanBytes (s1 ++ d1 ++ t1 ++ [c!","] ++ s2) :=
                ((((chanBytes_spaces hs1).append (chanBytes_digits hd1)).append
                  (chanBytes_spaces ht1)).append chanBytes_comma).append (chanBytes_spaces hs2)
              split at h
              · rename_i e' hr
                simp at h; subst h
                obtain ⟨a, b, d, t, hd, hl, h3⟩ := rgbChannel_fault _ _ _ _ _ hr (by simp)
                exact ⟨a, key _ d t (by rw [es1, hx1, es2, hl]; simp) c1 hd b (by simpa using h3)⟩
              · rename_i r2 hr2
                by_cases hr2e : r2.err
                · simp [hr2e] at h
                · simp only [hr2e, Bool.false_eq_true, if_false] at h
                  obtain ⟨d2, t2, hd2, ht2, hl2, hx2, hv2⟩ := rgbChannel_inv _ _ _ _ _ hr2
                    (by simpa using hr2e) (by simp)
                  obtain ⟨s3, hs3, es3, hh3⟩ := skipSpace_spec r2.rest
                  have c2 : ChanBytes (s1 ++ d1 ++ t1 ++ [c!","] ++ s2 ++ d2 ++ t2 ++ [c!","] ++ s3) :=
                    (((c1.append (chanBytes_digits hd2)).append
                      (chanBytes_spaces ht2)).append chanBytes_comma).append (chanBytes_spaces hs3)
                  split at h
                  · rename_i e' hr
                    simp at h; subst h
                    obtain ⟨a, b, d, t, hd, hl, h3⟩ := rgbChannel_fault _ _ _ _ _ hr (by simp)
                    exact ⟨a, key _ d t (by rw [es1, hx1, es2, hx2, es3, hl]; simp) c2 hd b
                      (by simpa using h3)⟩
                  · split at h <;> simp at h
      · simp [h2] at h

theorem parseAttrColor_fault (env : Env F) (name l : List UInt8) (e : Fault)
    (h : parseAttrColor env name l = .error e) : e = .overrun ∧ ¬ Safe env l := by
  simp only [parseAttrColor] at h
  split at h
  · simp at h
  · split at h
    · rename_i e' hc
      simp at h; subst h
      obtain ⟨a, b⟩ := parseColor_fault env _ _ hc
      exact ⟨a, fun hs => b (hs.suffix (consumeWord_suffix name l))⟩
    · split at h
      · simp at h
      · split at h <;> simp at h

theorem parseAttrWeight_fault (env : Env F) (t : List UInt8) (e : Fault)
    (h : parseAttrWeight b!"eight=\"" t = .error e) : e = .overrun ∧ ¬ Safe env (c!"w" :: t) := by
  simp only [parseAttrWeight] at h
  split at h
  · rename_i hl
    simp at h
    refine ⟨h.symm, fun hs => ?_⟩
    cases herr : (parseAttr b!"eight=\"" t).err with
    | true => rw [parseAttr_err _ _ herr] at hl; simp at hl
    | false =>
      obtain ⟨hq, ht⟩ := parseAttr_inv (name := b!"eight=\"") (by decide) herr
      have := hs.1 _ ⟨[], (parseAttr b!"eight=\"" t).rest, by conv => rhs; rw [ht]
                                                              simp⟩ hq
      omega
  · simp at h

/-! ### fonts -/

/-- A font whose handle has no bits outside the fields. -/
def Canon (f : Font) : Prop :=
  Font.make f.face.getFamily f.face.getWeight f.face.getStyle f.size = f

theorem getWeight_lt (f : FontFace) : f.getWeight.toNat < 16 := by
  unfold FontFace.getWeight
  simp only [BitVec.truncate_eq_setWidth, BitVec.toNat_setWidth, BitVec.toNat_and]
  have : (f.handle >>> 1).toNat &&& (15#32).toNat ≤ 15 := Nat.and_le_right
  exact Nat.lt_of_le_of_lt (Nat.mod_le _ _) (by omega)

theorem canon_make (fam : FamilyHandle) (w : BitVec 8) (hw : w.toNat < 16) (st : FontStyle)
    (z : BitVec 32) : Canon (Font.make fam w st z) := by
  obtain ⟨h1, h2, h3⟩ := C18_face_getters fam w st hw
  show Font.make (FontFace.make fam w st).getFamily (FontFace.make fam w st).getWeight
    (FontFace.make fam w st).getStyle z = _
  rw [h1, h2, h3]

theorem weightValue_lt {v : List UInt8} {w : BitVec 8} (h : weightValue v = some w) : w.toNat < 16 := by
  unfold weightValue at h
  split at h
  · split at h
    · rename_i hn
      simp at h
      rw [← h, BitVec.toNat_ofNat]
      have : (‹Nat› / 100 - 1) < 16 := by omega
      exact Nat.lt_of_le_of_lt (Nat.mod_le _ _) this
    · simp at h
  · rw [Option.map_eq_some_iff] at h
    obtain ⟨p, hp, rfl⟩ := h
    have := List.mem_of_find?_eq_some hp
    revert this
    revert p
    intro p _ hm
    simp only [weightNames, List.mem_cons, List.not_mem_nil, or_false] at hm
    rcases hm with rfl | rfl | rfl | rfl | rfl | rfl | rfl | rfl | rfl <;> decide

/-- effect of a set of attributes -/
def FontAttrs.eff (a : FontAttrs F) (p : Font × Color F) : Font × Color F :=
  (a.apply p.1, if a.colorChange then a.color else p.2)

theorem eff_default (c : Color F) (p : Font × Color F) (h : Canon p.1) :
    ({ color := c } : FontAttrs F).eff p = p := by
  have : FamilyHandle.valid invalidFamily = false := by decide
  simp only [FontAttrs.eff, FontAttrs.apply, this, Bool.false_eq_true, if_false]
  exact Prod.ext h rfl

theorem apply_weight_lt (a : FontAttrs F) (h : a.weight.toNat < 16) (f : Font) :
    (if a.weightChange then a.weight else f.face.getWeight).toNat < 16 := by
  split
  · exact h
  · exact getWeight_lt _

theorem apply_getters (a : FontAttrs F) (h : a.weight.toNat < 16) (f : Font) :
    (a.apply f).face.getFamily = (if FamilyHandle.valid a.family then a.family else f.face.getFamily) ∧
    (a.apply f).face.getWeight = (if a.weightChange then a.weight else f.face.getWeight) ∧
    (a.apply f).face.getStyle = f.face.getStyle ∧
    (a.apply f).size = (if a.sizeChange then a.size else f.size) := by
  obtain ⟨h1, h2, h3⟩ := C18_face_getters
    (if FamilyHandle.valid a.family then a.family else f.face.getFamily)
    (if a.weightChange then a.weight else f.face.getWeight) f.face.getStyle (apply_weight_lt a h f)
  exact ⟨h1, h2, h3, rfl⟩

theorem apply_canon (a : FontAttrs F) (h : a.weight.toNat < 16) (f : Font) : Canon (a.apply f) :=
  canon_make _ _ (apply_weight_lt a h f) _ _

theorem apply_of_not_changes (a : FontAttrs F) (f : Font) (hf : Canon f) (h : a.changes f = false) :
    a.apply f = f := by
  simp only [FontAttrs.changes, Bool.or_eq_false_iff, Bool.and_eq_false_iff, bne_eq_false_iff_eq] at h
  obtain ⟨⟨h1, h2⟩, h3⟩ := h
  unfold FontAttrs.apply
  have e1 : (if FamilyHandle.valid a.family then a.family else f.face.getFamily) = f.face.getFamily := by
    rcases h1 with h1 | h1
    · simp [h1]
    · simp [h1]
  have e2 : (if a.sizeChange then a.size else f.size) = f.size := by
    rcases h2 with h | h <;> simp [h]
  have e3 : (if a.weightChange then a.weight else f.face.getWeight) = f.face.getWeight := by
    rcases h3 with h | h <;> simp [h]
  rw [e1, e2, e3]; exact hf

theorem eff_color (a : FontAttrs F) (c : Color F) (p : Font × Color F) :
    ({ a with color := c, colorChange := true } : FontAttrs F).eff p = ((a.eff p).1, c) := rfl

theorem eff_face (a : FontAttrs F) (h : a.weight.toNat < 16) (fam : FamilyHandle)
    (hf : FamilyHandle.valid fam = true) (p : Font × Color F) :
    ({ a with family := fam } : FontAttrs F).eff p =
      (Font.make fam (a.eff p).1.face.getWeight (a.eff p).1.face.getStyle (a.eff p).1.size, (a.eff p).2) := by
  obtain ⟨h1, h2, h3, h4⟩ := apply_getters a h p.1
  simp only [FontAttrs.eff]
  rw [h2, h3, h4]
  simp [FontAttrs.apply, hf]

theorem eff_size (a : FontAttrs F) (z : BitVec 32) (p : Font × Color F) :
    ({ a with size := z, sizeChange := true } : FontAttrs F).eff p =
      (⟨(a.eff p).1.face, z⟩, (a.eff p).2) := rfl

theorem eff_weight (a : FontAttrs F) (h : a.weight.toNat < 16) (w : BitVec 8) (p : Font × Color F) :
    ({ a with weight := w, weightChange := true } : FontAttrs F).eff p =
      (Font.make (a.eff p).1.face.getFamily w (a.eff p).1.face.getStyle (a.eff p).1.size, (a.eff p).2) := by
  obtain ⟨h1, h2, h3, h4⟩ := apply_getters a h p.1
  simp only [FontAttrs.eff]
  rw [h1, h3, h4]
  simp [FontAttrs.apply]

theorem suffix_lt {n : Nat} {t l : List UInt8} {c : UInt8} (h : t <:+ l) (hl : (c :: l).length < n + 1) :
    t.length < n := by
  have := h.length_le
  simp at hl; omega

theorem valid_iff (f : FamilyHandle) : FamilyHandle.valid f = true ↔ f ≠ 0xFFFF#16 := by
  unfold FamilyHandle.valid invalidFamily
  simp

theorem parseFontAttrs_sound (env : Env F) : ∀ (n : Nat) (a : FontAttrs F) (err : Bool) (l : List UInt8),
    l.length < n → a.weight.toNat < 16 →
    (∃ q, parseFontAttrs env n a err l = .ok q ∧ q.rest <:+ l ∧ q.val.weight.toNat < 16 ∧
      (q.err = false → err = false ∧ ∃ m f, l = m ++ c!">" :: q.rest ∧ FontAttrList env m f ∧
        ∀ p, q.val.eff p = f (a.eff p))) ∨
    (parseFontAttrs env n a err l = .error .overrun ∧ ¬ Safe env l) := by
  intro n
  induction n with
  | zero => intro a err l h; omega
  | succ n ih =>
    intro a err l hl hw
    cases l with
    | nil =>
      left
      have h1 : ¬ (sentinel = c!"c") := by decide
      have h2 : ¬ (sentinel = c!"f") := by decide
      have h3 : ¬ (sentinel = c!"s") := by decide
      have h4 : ¬ (sentinel = c!"w") := by decide
      have h5 : ¬ (sentinel = c!" ") := by decide
      have h6 : ¬ (sentinel = c!">") := by decide
      refine ⟨⟨a, true, []⟩, ?_, List.suffix_rfl, hw, by simp⟩
      simp only [parseFontAttrs, nextChar, h1, h2, h3, h4, h5, h6, if_false]
    | cons c t =>
      -- continuing after one attribute
      have step : ∀ (b : FontAttrs F) (e : Bool) (t' : List UInt8), t' <:+ t → b.weight.toNat < 16 →
          (e = false → err = false ∧ ∃ x g, c :: t = x ++ t' ∧ FontAttr env x g ∧ ∀ p, b.eff p = g (a.eff p)) →
          (∃ q, parseFontAttrs env n b e t' = .ok q ∧ q.rest <:+ (c :: t) ∧ q.val.weight.toNat < 16 ∧
            (q.err = false → err = false ∧ ∃ m f, c :: t = m ++ c!">" :: q.rest ∧ FontAttrList env m f ∧
              ∀ p, q.val.eff p = f (a.eff p))) ∨
          (parseFontAttrs env n b e t' = .error .overrun ∧ ¬ Safe env (c :: t)) := by
        intro b e t' hs hb hx
        rcases ih b e t' (suffix_lt hs hl) hb with ⟨q, h1, h2, h3, h4⟩ | ⟨h1, h2⟩
        · left
          refine ⟨q, h1, (h2.trans hs).trans (List.suffix_cons c t), h3, fun hq => ?_⟩
          obtain ⟨he, m, f, hm, hF, hp⟩ := h4 hq
          obtain ⟨herr, x, g, hx1, hx2, hx3⟩ := hx he
          refine ⟨herr, x ++ m, f ∘ g, by rw [hx1, hm]; simp, .cons hx2 hF, fun p => ?_⟩
          rw [hp, hx3]; rfl
        · right
          exact ⟨h1, fun h => h2 (h.suffix (hs.trans (List.suffix_cons c t)))⟩
      simp only [parseFontAttrs, nextChar]
      by_cases hc : c = c!"c"
      · simp only [hc, if_true]
        rw [hc] at step
        cases hq : parseAttrColor env b!"olor=\"" t with
        | error e =>
          right
          obtain ⟨h1, h2⟩ := parseAttrColor_fault env _ _ _ hq
          exact ⟨by simp [h1], fun h => h2 (h.suffix (List.suffix_cons _ t))⟩
        | ok r =>
          simp only []
          refine step _ _ _ (parseAttrColor_suffix _ _ _ _ hq) hw ?_
          intro he
          simp only [Bool.or_eq_false_iff] at he
          obtain ⟨txt, col, h1, h2, h3⟩ := parseAttrColor_inv env (by decide) _ _ hq he.2
          refine ⟨he.1, _, _, ?_, .color txt col h2, fun p => ?_⟩
          · rw [h1]; simp
          · rw [h3]; exact eff_color a _ p
      · simp only [hc, if_false]
        by_cases hf : c = c!"f"
        · simp only [hf, if_true]
          rw [hf] at step
          refine step _ _ _ (parseFontFace_suffix _ _ _) ?_ ?_
          · unfold parseFontFace; simp only []; split <;> exact hw
          · intro he
            simp only [Bool.or_eq_false_iff] at he
            obtain ⟨he1, he2⟩ := he
            unfold parseFontFace at he2 ⊢
            simp only [] at he2 ⊢
            by_cases hv : (parseAttr b!"ace=\"" t).val.isEmpty
            · simp [hv] at he2
            · simp only [hv, Bool.false_eq_true, if_false, Bool.or_eq_false_iff, Bool.not_eq_false'] at he2 ⊢
              obtain ⟨g1, g2⟩ := parseAttr_inv (name := b!"ace=\"") (by decide) he2.1
              refine ⟨he1, _, _, ?_, .face _ g1 (by simpa using hv) ((valid_iff _).1 he2.2),
                fun p => eff_face a hw _ he2.2 p⟩
              conv => lhs; rw [g2]
              simp
        · simp only [hf, if_false]
          by_cases hs : c = c!"s"
          · simp only [hs, if_true]
            rw [hs] at step
            refine step _ _ _ (parseAttr_suffix _ _) hw ?_
            intro he
            simp only [Bool.or_eq_false_iff, Option.isNone_eq_false_iff] at he
            obtain ⟨⟨he1, he2⟩, he3⟩ := he
            obtain ⟨z, hz⟩ := Option.isSome_iff_exists.1 he3
            obtain ⟨g1, g2⟩ := parseAttr_inv (name := b!"ize=\"") (by decide) he2
            refine ⟨he1, _, _, ?_, .size _ z g1 ((fromChars_iff _ _ _).1 hz), fun p => ?_⟩
            · conv => lhs; rw [g2]
              simp
            · rw [hz]; exact eff_size a _ p
          · simp only [hs, if_false]
            by_cases hww : c = c!"w"
            · simp only [hww, if_true]
              rw [hww] at step
              cases hq : parseAttrWeight b!"eight=\"" t with
              | error e =>
                right
                obtain ⟨h1, h2⟩ := parseAttrWeight_fault env _ _ hq
                exact ⟨by simp [h1], h2⟩
              | ok r =>
                simp only []
                have hsuf := parseAttrWeight_suffix _ _ _ hq
                simp only [parseAttrWeight] at hq
                split at hq
                · simp at hq
                · simp only [Except.ok.injEq] at hq
                  subst hq
                  refine step _ _ _ hsuf ?_ ?_
                  · simp only []
                    cases hwv : weightValue (parseAttr b!"eight=\"" t).val with
                    | none => exact hw
                    | some w => exact weightValue_lt hwv
                  · intro he
                    simp only [Bool.or_eq_false_iff, Option.isNone_eq_false_iff, decide_eq_false_iff_not] at he
                    obtain ⟨he1, ⟨he2, he3⟩, he4⟩ := he
                    obtain ⟨w, hwv⟩ := Option.isSome_iff_exists.1 he4
                    obtain ⟨g1, g2⟩ := parseAttr_inv (name := b!"eight=\"") (by decide) he2
                    refine ⟨he1, _, _, ?_, .weight _ w g1 (by omega) ((weightValue_iff _ _).1 hwv), fun p => ?_⟩
                    · conv => lhs; rw [g2]
                      simp
                    · simp only [hwv]; exact eff_weight a hw _ p
            · simp only [hww, if_false]
              by_cases hsp : c = c!" "
              · simp only [hsp, if_true]
                rw [hsp] at step
                exact step _ _ _ List.suffix_rfl hw
                  (fun he => ⟨he, [c!" "], id, rfl, .space, fun p => rfl⟩)
              · simp only [hsp, if_false]
                by_cases hg : c = c!">"
                · simp only [hg, if_true]
                  exact .inl ⟨_, rfl, List.suffix_cons _ t, hw, fun he => ⟨he, [], id, rfl, .nil, fun p => rfl⟩⟩
                · simp only [hg, if_false]
                  exact .inl ⟨_, rfl, List.suffix_cons c t, hw, by simp⟩

theorem parseFontAttrs_complete (env : Env F) {m : List UInt8} {f : Font × Color F → Font × Color F}
    (h : FontAttrList env m f) : ∀ (n : Nat) (a : FontAttrs F) (t : List UInt8),
    (m ++ c!">" :: t).length < n → a.weight.toNat < 16 →
    ∃ b, parseFontAttrs env n a false (m ++ c!">" :: t) = .ok ⟨b, false, t⟩ ∧ b.weight.toNat < 16 ∧
      ∀ p, b.eff p = f (a.eff p) := by
  induction h with
  | nil =>
    intro n a t hn hw
    obtain ⟨n, rfl⟩ : ∃ k, n = k + 1 := ⟨n - 1, by omega⟩
    refine ⟨a, ?_, hw, fun p => rfl⟩
    simp [parseFontAttrs, nextChar]
  | @cons x m f g hx hm ih =>
    intro n a t hn hw
    obtain ⟨n, rfl⟩ : ∃ k, n = k + 1 := ⟨n - 1, by omega⟩
    have hlen : ∀ (y : List UInt8), 0 < x.length → (m ++ c!">" :: t).length < n := by
      intro _ hx; simp at hn ⊢; omega
    have fin : ∀ a', a'.weight.toNat < 16 → (∀ p, a'.eff p = f (a.eff p)) → 0 < x.length →
        parseFontAttrs env (n + 1) a false (x ++ m ++ c!">" :: t) =
          parseFontAttrs env n a' false (m ++ c!">" :: t) →
        ∃ b, parseFontAttrs env (n + 1) a false (x ++ m ++ c!">" :: t) = .ok ⟨b, false, t⟩ ∧
          b.weight.toNat < 16 ∧ ∀ p, b.eff p = (g ∘ f) (a.eff p) := by
      intro a' hw' he hx0 hstep
      obtain ⟨b, h1, h2, h3⟩ := ih n a' t (hlen [] hx0) hw'
      exact ⟨b, by rw [hstep, h1], h2, fun p => by rw [h3, he]; rfl⟩
    cases hx with
    | space =>
      refine fin a hw (fun p => rfl) (by simp) ?_
      simp [parseFontAttrs, nextChar]
    | color txt c hc =>
      refine fin { a with color := c, colorChange := true } hw (eff_color a c) (by simp) ?_
      have := parseAttrColor_ok env b!"olor=\"" txt (m ++ c!">" :: t) c hc
      simp only [List.cons_append, List.nil_append, List.append_assoc] at this ⊢
      simp [parseFontAttrs, nextChar, this]
    | face v hv hne hf =>
      refine fin { a with family := env.getFamily v } hw (eff_face a hw _ ((valid_iff _).2 hf)) (by simp) ?_
      have := parseAttr_ok b!"ace=\"" v (m ++ c!">" :: t) hv
      simp only [List.cons_append, List.nil_append, List.append_assoc] at this ⊢
      have hv' : v.isEmpty = false := by cases v with | nil => exact absurd rfl hne | cons => rfl
      simp [parseFontAttrs, nextChar, parseFontFace, this, hv', (valid_iff _).2 hf]
    | size v z hv hz =>
      rw [← fromChars_iff] at hz
      refine fin { a with size := BitVec.ofNat 32 z, sizeChange := true } hw (eff_size a _) (by simp) ?_
      have := parseAttr_ok b!"ize=\"" v (m ++ c!">" :: t) hv
      simp only [List.cons_append, List.nil_append, List.append_assoc] at this ⊢
      simp [parseFontAttrs, nextChar, this, hz]
    | weight v w hv hl hwv =>
      rw [← weightValue_iff] at hwv
      refine fin { a with weight := w, weightChange := true } (weightValue_lt hwv) (eff_weight a hw w)
        (by simp) ?_
      have := parseAttr_ok b!"eight=\"" v (m ++ c!">" :: t) hv
      simp only [List.cons_append, List.nil_append, List.append_assoc] at this ⊢
      have h16 : ¬ (16 < v.length) := by omega
      have h16' : ¬ (16 ≤ v.length) := by omega
      simp [parseFontAttrs, nextChar, parseAttrWeight, this, hwv, h16, h16']

/-! ### strokes -/

theorem parseJoins_ok (s : StrokeState F) (v t : List UInt8) (j : StrokeType)
    (h : v = b!"round" ∧ j = .round ∨ v = b!"bevel" ∧ j = .bevel ∨ v = b!"miter" ∧ j = .miter) :
    parseJoins s (b!"oins=\"" ++ v ++ c!"\"" :: t) = ⟨{ s with joins := j }, false, t⟩ := by
  have hq : Quoted v := by
    rcases h with ⟨rfl, _⟩ | ⟨rfl, _⟩ | ⟨rfl, _⟩ <;> (unfold Quoted; decide)
  have := scanQuote_ok v t hq
  rw [List.append_assoc]
  unfold parseJoins
  rw [consumeWord_ok]
  simp only [this]
  rcases h with ⟨rfl, rfl⟩ | ⟨rfl, rfl⟩ | ⟨rfl, rfl⟩ <;> simp

theorem parseJoins_inv (s : StrokeState F) (l : List UInt8) (h : (parseJoins s l).err = false) :
    ∃ v j, (v = b!"round" ∧ j = .round ∨ v = b!"bevel" ∧ j = .bevel ∨ v = b!"miter" ∧ j = .miter) ∧
      l = b!"oins=\"" ++ v ++ c!"\"" :: (parseJoins s l).rest ∧
      (parseJoins s l).val = { s with joins := j } := by
  simp only [parseJoins] at h ⊢
  by_cases h1 : (consumeWord b!"oins=\"" l).err
  · simp [h1] at h
  · simp only [h1, Bool.false_eq_true, if_false] at h ⊢
    have e1 := consumeWord_inv (w := b!"oins=\"") (by decide) (l := l) (by simpa using h1)
    by_cases h2 : (scanQuote (consumeWord b!"oins=\"" l).rest).err
    · simp [h2] at h
    · simp only [h2, Bool.false_eq_true, if_false] at h ⊢
      obtain ⟨_, e2⟩ := scanQuote_inv (consumeWord b!"oins=\"" l).rest (by simpa using h2)
      have e3 : l = b!"oins=\"" ++ (scanQuote (consumeWord b!"oins=\"" l).rest).val ++
          c!"\"" :: (scanQuote (consumeWord b!"oins=\"" l).rest).rest := by
        conv => lhs; rw [e1, e2]
        simp
      by_cases c1 : (scanQuote (consumeWord b!"oins=\"" l).rest).val = b!"round"
      · simp only [c1, if_true]
        exact ⟨_, _, .inl ⟨rfl, rfl⟩, by conv => lhs; rw [e3, c1], rfl⟩
      · simp only [c1, if_false] at h ⊢
        by_cases c2 : (scanQuote (consumeWord b!"oins=\"" l).rest).val = b!"bevel"
        · simp only [c2, if_true]
          exact ⟨_, _, .inr (.inl ⟨rfl, rfl⟩), by conv => lhs; rw [e3, c2], rfl⟩
        · simp only [c2, if_false] at h ⊢
          by_cases c3 : (scanQuote (consumeWord b!"oins=\"" l).rest).val = b!"miter"
          · simp only [c3, if_true]
            exact ⟨_, _, .inr (.inr ⟨rfl, rfl⟩), by conv => lhs; rw [e3, c3], rfl⟩
          · simp [c3] at h

theorem parseStrokeAttrs_sound (env : Env F) : ∀ (n : Nat) (a : StrokeState F) (err : Bool)
    (l : List UInt8), l.length < n →
    (∃ q, parseStrokeAttrs env n a err l = .ok q ∧ q.rest <:+ l ∧
      (q.err = false → err = false ∧ ∃ m f, l = m ++ c!">" :: q.rest ∧ StrokeAttrList env m f ∧
        q.val = f a)) ∨
    (parseStrokeAttrs env n a err l = .error .overrun ∧ ¬ Safe env l) := by
  intro n
  induction n with
  | zero => intro a err l h; omega
  | succ n ih =>
    intro a err l hl
    cases l with
    | nil =>
      left
      have h1 : ¬ (sentinel = c!"c") := by decide
      have h2 : ¬ (sentinel = c!"j") := by decide
      have h3 : ¬ (sentinel = c!"t") := by decide
      have h5 : ¬ (sentinel = c!" ") := by decide
      have h6 : ¬ (sentinel = c!">") := by decide
      refine ⟨⟨a, true, []⟩, ?_, List.suffix_rfl, by simp⟩
      simp only [parseStrokeAttrs, nextChar, h1, h2, h3, h5, h6, if_false]
    | cons c t =>
      have step : ∀ (b : StrokeState F) (e : Bool) (t' : List UInt8), t' <:+ t →
          (e = false → err = false ∧ ∃ x g, c :: t = x ++ t' ∧ StrokeAttr env x g ∧ b = g a) →
          (∃ q, parseStrokeAttrs env n b e t' = .ok q ∧ q.rest <:+ (c :: t) ∧
            (q.err = false → err = false ∧ ∃ m f, c :: t = m ++ c!">" :: q.rest ∧ StrokeAttrList env m f ∧
              q.val = f a)) ∨
          (parseStrokeAttrs env n b e t' = .error .overrun ∧ ¬ Safe env (c :: t)) := by
        intro b e t' hs hx
        rcases ih b e t' (suffix_lt hs hl) with ⟨q, h1, h2, h4⟩ | ⟨h1, h2⟩
        · left
          refine ⟨q, h1, (h2.trans hs).trans (List.suffix_cons c t), fun hq => ?_⟩
          obtain ⟨he, m, f, hm, hF, hp⟩ := h4 hq
          obtain ⟨herr, x, g, hx1, hx2, hx3⟩ := hx he
          refine ⟨herr, x ++ m, f ∘ g, by rw [hx1, hm]; simp, .cons hx2 hF, ?_⟩
          rw [hp, hx3]; rfl
        · right
          exact ⟨h1, fun h => h2 (h.suffix (hs.trans (List.suffix_cons c t)))⟩
      have hnc : nextChar (c :: t) = (c, t) := rfl
      simp only [parseStrokeAttrs, hnc]
      by_cases hc : c = c!"c"
      · simp only [hc, if_true]
        rw [hc] at step
        cases hq : parseAttrColor env b!"olor=\"" t with
        | error e =>
          right
          obtain ⟨h1, h2⟩ := parseAttrColor_fault env _ _ _ hq
          exact ⟨by simp [h1], fun h => h2 (h.suffix (List.suffix_cons _ t))⟩
        | ok r =>
          simp only []
          refine step _ _ _ (parseAttrColor_suffix _ _ _ _ hq) ?_
          intro he
          simp only [Bool.or_eq_false_iff] at he
          obtain ⟨txt, col, h1, h2, h3⟩ := parseAttrColor_inv env (by decide) _ _ hq he.2
          refine ⟨he.1, _, _, ?_, .color txt col h2, ?_⟩
          · rw [h1]; simp
          · rw [h3]; rfl
      · simp only [hc, if_false]
        by_cases hj : c = c!"j"
        · simp only [hj, if_true]
          rw [hj] at step
          refine step _ _ _ (parseJoins_suffix _ _) ?_
          intro he
          simp only [Bool.or_eq_false_iff] at he
          obtain ⟨v, j, h1, h2, h3⟩ := parseJoins_inv a t he.2
          refine ⟨he.1, c!"j" :: (b!"oins=\"" ++ v ++ [c!"\""]), fun s => { s with joins := j }, ?_, ?_, h3⟩
          · conv => lhs; rw [h2]
            simp
          · rcases h1 with ⟨rfl, rfl⟩ | ⟨rfl, rfl⟩ | ⟨rfl, rfl⟩
            · exact .joinsRound
            · exact .joinsBevel
            · exact .joinsMiter
        · simp only [hj, if_false]
          by_cases ht : c = c!"t"
          · simp only [ht, if_true]
            rw [ht] at step
            have hu := nextChar_suffix t
            have hd : (nextChar t).1 ≠ sentinel → t = (nextChar t).1 :: (nextChar t).2 := nextChar_lt t
            generalize (nextChar t).1 = d at hd ⊢
            generalize (nextChar t).2 = u at hd hu ⊢
            by_cases hh : d = c!"h"
            · simp only [hh, if_true]
              rw [hh] at hd
              have ht' := hd (by decide)
              refine step _ _ _ ((parseAttr_suffix _ _).trans hu) ?_
              intro he
              simp only [Bool.or_eq_false_iff, Option.isNone_eq_false_iff] at he
              obtain ⟨⟨he1, he2⟩, he3⟩ := he
              obtain ⟨z, hz⟩ := Option.isSome_iff_exists.1 he3
              obtain ⟨g1, g2⟩ := parseAttr_inv (name := b!"ickness=\"") (by decide) he2
              refine ⟨he1, _, _, ?_, .thickness _ z g1 ((fromChars_iff _ _ _).1 hz), ?_⟩
              · conv => lhs; rw [ht', g2]
                simp
              · rw [hz]; rfl
            · simp only [hh, if_false]
              by_cases hr : d = c!"r"
              · simp only [hr, if_true]
                rw [hr] at hd
                have ht' := hd (by decide)
                refine step _ _ _ ((parseAttr_suffix _ _).trans hu) ?_
                intro he
                simp only [Bool.or_eq_false_iff, Option.isNone_eq_false_iff] at he
                obtain ⟨⟨he1, he2⟩, he3⟩ := he
                obtain ⟨z, hz⟩ := Option.isSome_iff_exists.1 he3
                obtain ⟨g1, g2⟩ := parseAttr_inv (name := b!"ansparency=\"") (by decide) he2
                refine ⟨he1, _, _, ?_, .transparency _ z g1 hz, ?_⟩
                · conv => lhs; rw [ht', g2]
                  simp
                · rw [hz]; rfl
              · simp only [hr, if_false]
                exact step _ _ _ hu (by simp)
          · simp only [ht, if_false]
            by_cases hsp : c = c!" "
            · simp only [hsp, if_true]
              rw [hsp] at step
              exact step _ _ _ List.suffix_rfl
                (fun he => ⟨he, [c!" "], id, rfl, .space, rfl⟩)
            · simp only [hsp, if_false]
              by_cases hg : c = c!">"
              · simp only [hg, if_true]
                exact .inl ⟨_, rfl, List.suffix_cons _ t, fun he => ⟨he, [], id, rfl, .nil, rfl⟩⟩
              · simp only [hg, if_false]
                exact .inl ⟨_, rfl, List.suffix_cons c t, by simp⟩

theorem parseStrokeAttrs_complete (env : Env F) {m : List UInt8} {f : StrokeState F → StrokeState F}
    (h : StrokeAttrList env m f) : ∀ (n : Nat) (a : StrokeState F) (t : List UInt8),
    (m ++ c!">" :: t).length < n →
    parseStrokeAttrs env n a false (m ++ c!">" :: t) = .ok ⟨f a, false, t⟩ := by
  induction h with
  | nil =>
    intro n a t hn
    obtain ⟨n, rfl⟩ : ∃ k, n = k + 1 := ⟨n - 1, by omega⟩
    simp [parseStrokeAttrs, nextChar]
  | @cons x m f g hx hm ih =>
    intro n a t hn
    obtain ⟨n, rfl⟩ : ∃ k, n = k + 1 := ⟨n - 1, by omega⟩
    have fin : 0 < x.length →
        parseStrokeAttrs env (n + 1) a false (x ++ m ++ c!">" :: t) =
          parseStrokeAttrs env n (f a) false (m ++ c!">" :: t) →
        parseStrokeAttrs env (n + 1) a false (x ++ m ++ c!">" :: t) = .ok ⟨(g ∘ f) a, false, t⟩ := by
      intro hx0 hstep
      rw [hstep, ih n (f a) t (by simp at hn ⊢; omega)]; rfl
    cases hx with
    | space =>
      refine fin (by simp) ?_
      simp [parseStrokeAttrs, nextChar]
    | color txt c hc =>
      refine fin (by simp) ?_
      have := parseAttrColor_ok env b!"olor=\"" txt (m ++ c!">" :: t) c hc
      simp only [List.cons_append, List.nil_append, List.append_assoc] at this ⊢
      simp [parseStrokeAttrs, nextChar, this]
    | joinsRound =>
      refine fin (by simp) ?_
      have := parseJoins_ok a b!"round" (m ++ c!">" :: t) .round (by simp)
      simp only [List.cons_append, List.nil_append, List.append_assoc] at this ⊢
      simp [parseStrokeAttrs, nextChar, this]
    | joinsBevel =>
      refine fin (by simp) ?_
      have := parseJoins_ok a b!"bevel" (m ++ c!">" :: t) .bevel (by simp)
      simp only [List.cons_append, List.nil_append, List.append_assoc] at this ⊢
      simp [parseStrokeAttrs, nextChar, this]
    | joinsMiter =>
      refine fin (by simp) ?_
      have := parseJoins_ok a b!"miter" (m ++ c!">" :: t) .miter (by simp)
      simp only [List.cons_append, List.nil_append, List.append_assoc] at this ⊢
      simp [parseStrokeAttrs, nextChar, this]
    | thickness v z hv hz =>
      rw [← fromChars_iff] at hz
      refine fin (by simp) ?_
      have := parseAttr_ok b!"ickness=\"" v (m ++ c!">" :: t) hv
      simp only [List.cons_append, List.nil_append, List.append_assoc] at this ⊢
      simp [parseStrokeAttrs, nextChar, this, hz]
    | transparency v z hv hz =>
      refine fin (by simp) ?_
      have := parseAttr_ok b!"ansparency=\"" v (m ++ c!">" :: t) hv
      simp only [List.cons_append, List.nil_append, List.append_assoc] at this ⊢
      simp [parseStrokeAttrs, nextChar, this, hz]

end RichText
