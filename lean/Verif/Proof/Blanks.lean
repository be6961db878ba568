import Verif.Proof.BuildText
/-!
Fonts of sizes above zero are measured at sizes above zero.
-/
namespace RichText
namespace BuildLibs
variable {lib : FontLib} {r : Registry}

theorem lookup_append_one {α : Type} (l : List (BitVec 16 × α)) (k h : BitVec 16) (x o : α)
    (e : (l ++ [(k, x)]).lookup h = some o) : l.lookup h = some o ∨ o = x := by
  induction l with
  | nil =>
    rw [List.nil_append, List.lookup_cons] at e
    split at e
    · exact .inr (Option.some.inj e).symm
    · cases e
  | cons y l ih =>
    rw [List.cons_append, List.lookup_cons] at e
    rw [List.lookup_cons]
    split at e
    · exact .inl e
    · exact ih e

theorem getFontData_blanks {t t' : FontThread} {q : FontRequest} {res : Option FontDataInfo} (ht : Blanks lib t)
    (hq : ∀ eff, q.effective = some eff → 0 < eff) (h : getFontData lib r t q = some (t', res)) : Blanks lib t' := by
  unfold getFontData at h
  split at h
  · cases h
  · rename_i eff he
    split at h
    · rename_i o ho
      cases h
      intro k x hx
      simp only at hx
      by_cases hk : k = q.face.handle
      · subst hk
        rw [setKey_lookup ho] at hx
        cases hx
        obtain ⟨e, h1, h2⟩ := ht _ _ ho
        exact ⟨e, h1, by rw [resize_space, resize_file]; exact h2⟩
      · rw [setKey_lookup_ne hk] at hx
        exact ht _ _ hx
    · split at h
      · cases h
      · split at h
        · cases h; exact ht
        · split at h
          · cases h
            intro k x hx
            simp only at hx
            rcases lookup_append_one _ _ _ _ _ hx with h1 | h1
            · exact ht _ _ h1
            · subst h1
              exact ⟨eff, hq _ he, rfl⟩
          · cases h; exact ht

theorem plain_effective {font : Font} (h : 2 ≤ font.size.toNat) (h' : font.size.toNat < 2 ^ 20) (face : FaceDataHandle) (eff : Nat)
    (he : (plainRequest font face).effective = some eff) : 0 < eff := by
  obtain ⟨e, h1, h2⟩ := effective_pos h h' false (false || false)
  have : (plainRequest font face).effective = effectiveSize font.size.toNat false (false || false) := rfl
  rw [this, h1] at he
  cases he
  exact h2

theorem findFallback_blanks {font : Font} (hs1 : 2 ≤ font.size.toNat) (hs2 : font.size.toNat < 2 ^ 20) {c : Nat} :
    ∀ (hs : List FamilyHandle) (t t' : FontThread) (res : Option (FaceDataHandle × FontDataInfo)), Blanks lib t →
    findFallback lib r font c hs t = some (t', res) → Blanks lib t' := by
  intro hs
  induction hs with
  | nil => intro t t' res ht h; cases h; exact ht
  | cons hd hs ih =>
    intro t t' res ht h
    unfold findFallback at h
    split at h
    · cases h
    · split at h
      · split at h
        · cases h
        · split at h
          · cases h
          · rename_i hg
            exact ih _ _ _ (getFontData_blanks ht (plain_effective hs1 hs2 _) hg) h
          · rename_i hg
            have := getFontData_blanks ht (plain_effective hs1 hs2 _) hg
            split at h
            · cases h; exact this
            · exact ih _ _ _ this h
      · exact ih _ _ _ ht h

theorem findCompatible_blanks {font : Font} (hs1 : 2 ≤ font.size.toNat) (hs2 : font.size.toNat < 2 ^ 20) {c : Nat}
    {base : FaceDataHandle} {hs : List FamilyHandle} {t t' : FontThread} {res : Option (FaceDataHandle × FontDataInfo)}
    (ht : Blanks lib t) (h : findCompatible lib r font c base hs t = some (t', res)) : Blanks lib t' := by
  unfold findCompatible at h
  split at h
  · split at h
    · cases h
    · rename_i hg
      cases h
      exact getFontData_blanks ht (plain_effective hs1 hs2 _) hg
    · rename_i hg
      have := getFontData_blanks ht (plain_effective hs1 hs2 _) hg
      split at h
      · cases h; exact this
      · exact findFallback_blanks hs1 hs2 _ _ _ _ this h
  · cases h; exact ht

theorem firstDrawable_blanks {font : Font} (hs1 : 2 ≤ font.size.toNat) (hs2 : font.size.toNat < 2 ^ 20)
    {base : FaceDataHandle} {hs : List FamilyHandle} :
    ∀ (cs : List (Nat × Nat)) (idx : Nat) (t t' : FontThread) (res : Option (List (Nat × Nat) × Nat × FaceDataHandle × FontDataInfo)),
    Blanks lib t → firstDrawable lib r font base hs cs idx t = some (t', res) → Blanks lib t' := by
  intro cs
  induction cs with
  | nil => intro idx t t' res ht h; cases h; exact ht
  | cons x cs ih =>
    intro idx t t' res ht h
    unfold firstDrawable at h
    split at h
    · cases h
    · rename_i hg
      cases h
      exact findCompatible_blanks hs1 hs2 ht hg
    · rename_i hg
      exact ih _ _ _ _ (findCompatible_blanks hs1 hs2 ht hg) h

theorem getSubFont_blanks {font : Font} (hs1 : 2 ≤ font.size.toNat) (hs2 : font.size.toNat < 2 ^ 20) {t t' : FontThread}
    {cs : List (Nat × Nat)} {offset limit : Nat} {script : Int} {sc sub sup : Bool} {x : SingleScriptFont × Nat} (ht : Blanks lib t)
    (h : getSubFont lib r t font cs offset limit script sc sub sup = some (t', x)) : Blanks lib t' := by
  unfold getSubFont at h
  simp only at h
  split at h
  · cases h
  · split at h
    · cases h
    · split at h
      · cases h
      · rename_i t1 found hd
        have h1 : Blanks lib (t.log [.lockShared]) := ht
        have h2 : Blanks lib t1 := firstDrawable_blanks hs1 hs2 _ _ _ _ _ h1 hd
        have h3 : Blanks lib (t1.log [.unlockShared]) := h2
        split at h
        · cases h; exact h3
        · split at h
          · cases h; exact h3
          · cases h; exact h3

theorem shapeRun_blanks {p : ParagraphFonts} {font : SingleScriptFont} (h1 : 2 ≤ font.size.toNat) (h2 : font.size.toNat < 2 ^ 20)
    {v : ShapeArgs} {first stop : Nat} {t t' : FontThread} {s s' : Shaped SingleScriptFont} (ht : Blanks p.lib t)
    (h : p.shapeRun font v first stop t s = some (t', s')) : Blanks p.lib t' := by
  unfold ParagraphFonts.shapeRun at h
  split at h
  · cases h
  · cases h
  · rename_i hg
    have := getFontData_blanks ht (fun eff he => by
      obtain ⟨e, k1, k2⟩ := effective_pos h1 h2 font.syntheticSmallCaps (font.syntheticSubscript || font.syntheticSuperscript)
      have hh : font.request.effective = effectiveSize font.size.toNat font.syntheticSmallCaps
        (font.syntheticSubscript || font.syntheticSuperscript) := rfl
      rw [hh, k1] at he
      cases he
      exact k2) hg
    split at h
    · cases h
    · split at h
      · cases h
      · cases h; exact this

theorem loop_blanks {p : ParagraphFonts} {v : ShapeArgs} (h1 : 2 ≤ v.font.size.toNat) (h2 : v.font.size.toNat < 2 ^ 20) {limit : Nat}
    (n : Nat) : ∀ (offset : Nat) (t t' : FontThread) (s : Shaped SingleScriptFont) (x : Nat × Shaped SingleScriptFont),
    limit - offset = n → Blanks p.lib t → p.loop v limit offset t s = some (t', x) → Blanks p.lib t' := by
  induction n using Nat.strongRecOn with
  | _ n ih =>
    intro offset t t' s x hn ht h
    unfold ParagraphFonts.loop at h
    split at h
    · split at h
      · cases h
      · rename_i hg
        split at h
        · split at h
          · cases h
          · rename_i hr
            obtain ⟨c1, _⟩ := C45_carries _ _ _ _ _ _ _ _ _ _ _ _ _ _ hg
            exact ih _ (by omega) _ _ _ _ _ rfl
              (shapeRun_blanks (by rw [c1]; exact h1) (by rw [c1]; exact h2) (getSubFont_blanks h1 h2 ht hg) hr) h
        · cases h
    · cases h; exact ht

theorem shape_blanks {p : ParagraphFonts} : ∀ (cs : List (Nat × ShapeArgs)) (offset : Nat) (t t' : FontThread)
    (s : Shaped SingleScriptFont) (x : Nat × Shaped SingleScriptFont),
    (∀ c ∈ cs, 2 ≤ c.2.font.size.toNat ∧ c.2.font.size.toNat < 2 ^ 20) → Blanks p.lib t → p.shape cs offset t s = some (t', x) →
    Blanks p.lib t' := by
  intro cs
  induction cs with
  | nil => intro offset t t' s x _ ht h; cases h; exact ht
  | cons c cs ih =>
    intro offset t t' s x hc ht h
    obtain ⟨limit, v⟩ := c
    unfold ParagraphFonts.shape at h
    split at h
    · cases h
    · rename_i hl
      obtain ⟨a1, a2⟩ := hc _ List.mem_cons_self
      exact ih _ _ _ _ _ (fun c h => hc c (List.mem_cons_of_mem _ h)) (loop_blanks a1 a2 _ _ _ _ _ _ rfl ht hl) h

end BuildLibs

end RichText
