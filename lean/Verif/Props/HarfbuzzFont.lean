import Verif.Proof.HarfbuzzFont
import Verif.Props.FontRegistry
/-!
What HarfBuzz is told about a font (`src/harfbuzz_font.cpp`,
`src/font_registry.cpp`): C79 (advances and scale belong to the size that is set)
and C80 (advances are rounded correctly).

FreeType and the advance cache are arbitrary; the cache may forget, but not make
up values.
-/
namespace RichText

variable {κ : Type}

/-! ### A concrete case -/

/-- Faces of 1000 units per em without scale until a size is set.  An advance is
half the size, in 65536ths of a pixel, and a little more for later glyphs. -/
def demoFreeType : FreeType where
  upem _ := 1000
  xScale _ h := h.getD 0 * 4194
  yScale _ h := h.getD 0 * 4194
  advance _ h g := (h.getD 0 * 32768 + g * 100 : Nat)

/-- The regular face at a size. -/
def demoAsk (size : Nat) : FontRequest := ⟨⟨1#16, 3#4, .normal⟩, size, 3#8, .normal, false, false, false⟩

/-- Ask for the face at some sizes. -/
def askAll (C : AdvCache κ) (F : FreeType) (lib : FontLib) (r : Registry) : List Nat → HbThread κ → Option (HbThread κ)
  | [], t => some t
  | n :: ns, t => (hbGetFontData C F lib r t (demoAsk n)).bind fun x => askAll C F lib r ns x.1

theorem askAll_run {C : AdvCache κ} {F : FreeType} {lib : FontLib} {r : Registry} : ∀ (ns : List Nat) (t t' : HbThread κ),
    HbRun C F lib r t → askAll C F lib r ns t = some t' → HbRun C F lib r t' := by
  intro ns
  induction ns with
  | nil => intro t t' h he; cases he; exact h
  | cons n ns ih =>
    intro t t' h he
    unfold askAll at he
    cases hg : hbGetFontData C F lib r t (demoAsk n) with
    | none => rw [hg] at he; cases he
    | some x => rw [hg] at he; exact ih _ _ (.fontData (d := x.2) h hg) he

/-- The thread that has asked for the face at some sizes. -/
def demoHb (ns : List Nat) : HbThread (List Nat) := (askAll hbCache demoFreeType demoLib demoRegistry ns .init).getD .init

theorem demoHb_run (ns : List Nat) : HbRun hbCache demoFreeType demoLib demoRegistry (demoHb ns) := by
  unfold demoHb
  cases h : askAll hbCache demoFreeType demoLib demoRegistry ns .init with
  | none => exact .start demoRegistry_steps
  | some t => exact askAll_run ns _ _ (.start demoRegistry_steps) h

/-! ### C79 -/

/-- The model with HarfBuzz fonts does what the model of C47 and C48 does. -/
theorem C79_refines (C : AdvCache κ) (F : FreeType) (lib : FontLib)
    (hA : ∀ file eff a, hAdvances C F file (some eff) [lib.spaceGlyph file] (markChanged C F file none) = some a →
      a.1 = [lib.advance file eff (lib.spaceGlyph file)])
    (r : Registry) (t t' : HbThread κ) (q : FontRequest) (d : Option FontDataInfo)
    (h : hbGetFontData C F lib r t q = some (t', d)) : getFontData lib r t.plain q = some (t'.plain, d) := by
  unfold hbGetFontData at h
  unfold getFontData
  split at h
  · cases h
  rename_i eff heff
  rw [heff]
  simp only
  unfold HbThread.plain
  rw [lookup_plain]
  split at h
  · rename_i o ho
    cases h
    rw [ho]
    simp only [Option.map_some]
    rw [plain_setKey, resize_plain]
  · rename_i ho
    rw [ho]
    simp only [Option.map_none]
    split at h
    · cases h
    rename_i fd hfd
    rw [hfd]
    simp only
    split at h
    · rename_i hfile
      cases h
      rw [hfile]
      rfl
    · rename_i file hfile
      rw [hfile]
      simp only
      split at h
      · rename_i hl
        rw [if_pos hl]
        cases hld : hbLoad C F lib file eff with
        | none => rw [hld] at h; cases h
        | some o =>
          rw [hld] at h
          cases h
          have ho : o.ft = loadOwner lib file eff := by
            unfold hbLoad at hld
            split at hld
            · rename_i a hb he
              cases hld
              have := hA _ _ _ he
              simp only [List.cons.injEq, and_true] at this
              simp only [this]
              rfl
            · cases hld
          simp [ho]
      · rename_i hl
        rw [if_neg hl]
        cases h
        rfl

/-- C79, first part.  In every history, the advances of a list of glyphs are
those FreeType has at the size the face is set to now, whatever was asked before
and at whatever size. -/
theorem C79_advances (C : AdvCache κ) (F : FreeType) (lib : FontLib) (hC : C.Sound) (r : Registry) (t : HbThread κ)
    (hr : HbRun C F lib r t) (k : BitVec 16) (o : HbOwner κ) (ho : t.cache.lookup k = some o) (gs : List Nat) :
    (t.advances C F k gs).map (·.2) =
      gs.mapM fun g => hAdvance o.hb.scaleX (F.advance o.ft.file (some o.ft.height) g) := by
  rw [← (hAdvances_spec hC o.ft.file (some o.ft.height) gs o.hb (hr.ok hC k o ho).fresh).1]
  unfold HbThread.advances
  rw [ho]
  simp only [Option.map_map]
  rfl

/-- Full claim: after every request HarfBuzz has the scale of the size that is
set.  Violated: the HarfBuzz font is made before the size is set, so after the
first request it has the scale of a face without size, which scales all kerning
and all offsets to nothing. -/
theorem C79_scale_violated : ¬ ∀ (C : AdvCache (List Nat)) (F : FreeType) (lib : FontLib), C.Sound →
    ∀ (r : Registry) (t t' : HbThread (List Nat)) (q : FontRequest) (d : Option FontDataInfo) (o : HbOwner (List Nat)),
      HbRun C F lib r t → hbGetFontData C F lib r t q = some (t', d) → t'.cache.lookup q.face.handle = some o → o.Scaled F := by
  intro h
  have hg : ∃ x, hbGetFontData hbCache demoFreeType demoLib demoRegistry .init (demoAsk 16) = some x ∧
      (x.1.cache.lookup (demoAsk 16).face.handle).map (fun o => (o.hb.scaleX, o.ft.file, o.ft.height)) = some (0, 1, 16) :=
    by decide +kernel
  obtain ⟨x, hx, hl⟩ := hg
  cases ho : x.1.cache.lookup (demoAsk 16).face.handle with
  | none => rw [ho] at hl; cases hl
  | some o =>
    rw [ho] at hl
    simp only [Option.map_some, Option.some.injEq, Prod.mk.injEq] at hl
    have hs := (h hbCache demoFreeType demoLib hbCache_sound demoRegistry .init x.1 (demoAsk 16) x.2 o
      (.start demoRegistry_steps) hx ho).1
    rw [hl.1, hl.2.1, hl.2.2] at hs
    exact absurd (hs (by decide +kernel)) (by decide +kernel)

/-- C79, the part of the second claim that holds: from the second request for a
face on, unless the effective size is 0.  (The layout builder asks for every face
twice, once for the characters it has and once for shaping.) -/
theorem C79_scale_partial (C : AdvCache κ) (F : FreeType) (lib : FontLib) (hC : C.Sound) (r : Registry) (t : HbThread κ)
    (hr : HbRun C F lib r t) (q : FontRequest) (o : HbOwner κ) (ho : t.cache.lookup q.face.handle = some o)
    (eff : Nat) (he : q.effective = some eff) (h0 : eff ≠ 0) :
    ∃ t' d o', hbGetFontData C F lib r t q = some (t', some d) ∧ t'.cache.lookup q.face.handle = some o' ∧
      o'.ft.file = o.ft.file ∧ o'.ft.height = eff ∧ o'.Scaled F := by
  have hok := hr.ok hC _ _ ho
  unfold hbGetFontData
  rw [he]
  simp only [ho]
  refine ⟨_, _, o.resize C F eff, rfl, ?_, ?_⟩
  · rw [lookup_hbSetKey, if_pos rfl, ho]; rfl
  · unfold HbOwner.resize
    split
    · rename_i hs
      obtain ⟨h1, h2⟩ := hok.sized (by omega)
      exact ⟨rfl, h1.trans hs, h2⟩
    · exact ⟨rfl, rfl, hbScale_em _ _, hbScale_em _ _⟩

/-- The cache of HarfBuzz meets the contract. -/
example : hbCache.Sound := hbCache_sound

/-- Asked for at 16, 16 and 32 pixels, the face has the scale of 32 pixels. -/
example : ((demoHb [16, 16, 32]).cache.lookup 1#16).map (fun o => (o.hb.scaleX, o.ft.height)) = some (2048, 32) ∧
    ((demoHb [16, 16]).cache.lookup 1#16).map (fun o => (o.hb.scaleX, o.ft.height)) = some (1024, 16) := by decide +kernel

/-- Glyph 5 twice and glyph 261, which shares its place in the cache, at 16 and
then at 32 pixels. -/
example : ((demoHb [16]).advances hbCache demoFreeType 1#16 [5, 261, 5]).bind (fun x =>
      (hbGetFontData hbCache demoFreeType demoLib demoRegistry x.1 (demoAsk 32)).bind fun y =>
        (y.1.advances hbCache demoFreeType 1#16 [5, 261]).map fun z => (x.2, z.2)) =
    some ([512, 537, 512], [1024, 1049]) := by decide +kernel

/-! ### C80 -/

/-- C80, full claim: a horizontal advance is FreeType's advance rounded to the
nearest 64th of a pixel.  Violated for wide glyphs: the sum is computed in `float`,
and 256 pixels and 511/65536 round up. -/
theorem C80_rounding_violated : ¬ ∀ (scale v : Int), 0 ≤ scale → 0 ≤ v → v < 2 ^ 30 →
    ∃ a, hAdvance scale v = some a ∧ RoundedAdvance v a := by
  intro h
  obtain ⟨a, h1, h2⟩ := h 1024 16777727 (by decide) (by decide) (by decide)
  have h3 : hAdvance 1024 16777727 = some 16385 := by decide +kernel
  rw [h3] at h1
  cases h1
  unfold RoundedAdvance at h2
  omega

/-- C80, the part that holds.  Below 256 pixels. -/
theorem C80_rounding_partial (scale v : Int) (hs : 0 ≤ scale) (hv : v.natAbs < 2 ^ 24 - 512) :
    ∃ a, hAdvance scale v = some a ∧ RoundedAdvance v.natAbs a := by
  unfold hAdvance
  have h1 : scaleSign scale = 1 := by unfold scaleSign; rw [if_neg (by omega)]
  rw [h1, Int.mul_one, floatInt_small (n := (v.natAbs : Int)) (by omega), floatInt_small (by omega)]
  unfold floatToInt RoundedAdvance
  rw [if_pos (by omega), Option.map_some]
  exact ⟨_, rfl, by omega, by omega⟩

/-- C80.  Up to the greatest advance that `int` can hold the result is less than
one 64th (and in fact 10/16 of one) off, whatever the sign of the scale. -/
theorem C80_near (scale v : Int) (hv : v.natAbs ≤ 2 ^ 31 - 1024) :
    ∃ a, hAdvance scale v = some a ∧ (1024 * a - scaleSign scale * v.natAbs).natAbs ≤ 640 := by
  unfold hAdvance
  have h1 := floatInt_near (n := (v.natAbs : Int)) (by omega)
  generalize hx : floatInt (v.natAbs : Int) = x at *
  have h2 : (x * scaleSign scale + 512).natAbs < 2 ^ 31 := by
    rcases scaleSign_cases scale with h | h <;> rw [h] <;> omega
  have h3 := floatInt_near h2
  generalize hy : floatInt (x * scaleSign scale + 512) = y at *
  unfold floatToInt
  rcases scaleSign_cases scale with h | h
  · rw [h] at h3 ⊢
    rw [if_pos (by omega), Option.map_some]
    exact ⟨_, rfl, by omega⟩
  · rw [h] at h3 ⊢
    rw [if_pos (by omega), Option.map_some]
    exact ⟨_, rfl, by omega⟩

/-- C80 for vertical advances, which point down: below 256 pixels the result is
the negative of FreeType's, rounded to the nearest. -/
theorem C80_vertical (scale v : Int) (hs : 0 ≤ scale) (hv : v.natAbs < 2 ^ 24) :
    ∃ a, vAdvance scale v = some a ∧ RoundedAdvance (-v) a := by
  unfold vAdvance
  have h1 : scaleSign scale = 1 := by unfold scaleSign; rw [if_neg (by omega)]
  rw [h1, Int.one_mul, floatInt_small hv]
  unfold floatToInt RoundedAdvance
  rw [if_pos (by omega), Option.map_some]
  exact ⟨_, rfl, by omega, by omega⟩

/-- C79 and C80 together: in every history, all advances below 256 pixels are
FreeType's at the size that is set, rounded to the nearest 64th of a pixel. -/
theorem C80_advances_partial (C : AdvCache κ) (F : FreeType) (lib : FontLib) (hC : C.Sound) (r : Registry) (t : HbThread κ)
    (hr : HbRun C F lib r t) (k : BitVec 16) (o : HbOwner κ) (ho : t.cache.lookup k = some o) (hs : 0 ≤ o.hb.scaleX) (gs : List Nat)
    (hv : ∀ g ∈ gs, (F.advance o.ft.file (some o.ft.height) g).natAbs < 2 ^ 24 - 512) :
    ∃ t' as, t.advances C F k gs = some (t', as) ∧
      List.Forall₂ (fun g a => RoundedAdvance (F.advance o.ft.file (some o.ft.height) g).natAbs a) gs as := by
  have h := C79_advances C F lib hC r t hr k o ho gs
  have h2 : ∃ as, (gs.mapM fun g => hAdvance o.hb.scaleX (F.advance o.ft.file (some o.ft.height) g)) = some as ∧
      List.Forall₂ (fun g a => RoundedAdvance (F.advance o.ft.file (some o.ft.height) g).natAbs a) gs as := by
    clear h
    induction gs with
    | nil => exact ⟨[], rfl, .nil⟩
    | cons g gs ih =>
      obtain ⟨as, i1, i2⟩ := ih fun g' hg' => hv g' (List.mem_cons_of_mem _ hg')
      obtain ⟨a, a1, a2⟩ := C80_rounding_partial o.hb.scaleX _ hs (hv g (List.mem_cons_self ..))
      refine ⟨a :: as, ?_, .cons a2 i2⟩
      rw [List.mapM_cons, a1, i1]
      rfl
  obtain ⟨as, e1, e2⟩ := h2
  rw [e1] at h
  cases ha : t.advances C F k gs with
  | none => rw [ha] at h; cases h
  | some x =>
    rw [ha] at h
    cases h
    exact ⟨x.1, x.2, rfl, e2⟩

example : hAdvance 1024 524800 = some 513 ∧ hAdvance 1024 524799 = some 512 ∧ hAdvance 1024 (-524800) = some 513 ∧
    vAdvance 1024 524800 = some (-512) := by decide +kernel

end RichText
