import Verif.Props.Markup
import Mathlib.Tactic.IntervalCases
/-!
C138: which formatted texts can be written as markup.
-/
namespace RichText
open Spec

variable {F : Type _}

/-! ## Which formattings can be written -/

namespace Spec

/-- Three channels from 0 to 255. -/
def RgbChannels (env : Env F) (r g b : F) : Prop :=
  ∃ n1 n2 n3, n1 < 256 ∧ n2 < 256 ∧ n3 < 256 ∧ r = env.channel n1 ∧ g = env.channel n2 ∧ b = env.channel n3

/-- Fonts that can be written inside the font `f0`, with names for which `ok` holds: the family is that of `f0` or has a name that can stand in quotes, the weight is that of
`f0` or one of the nine, the style is that of `f0` or italic, the size is anything. -/
def WritableFont (env : Env F) (ok : List UInt8 → Prop) (f0 f : Font) : Prop :=
  ∃ (fam : FamilyHandle) (w : BitVec 8) (s : FontStyle) (z : BitVec 32), f = Font.make fam w s z ∧
    (fam = f0.face.getFamily ∨ (fam ≠ 0xFFFF#16 ∧ ∃ v, v ≠ [] ∧ Quoted v ∧ ok v ∧ env.getFamily v = fam)) ∧
    (w = f0.face.getWeight ∨ w.toNat < 9) ∧ (s = f0.face.getStyle ∨ s = .italic)

/-- Colours that can be written: opaque ones. -/
def WritableColor (env : Env F) (c0 c : Color F) : Prop := c = c0 ∨ (RgbChannels env c.r c.g c.b ∧ c.a = env.one)

/-- Outlines that can be written: any colour, opacity that can be read from a numeral, thickness up to 255, one of
the three kinds of joins. -/
def WritableStroke (env : Env F) (ok : List UInt8 → Prop) (s0 s : StrokeState F) : Prop :=
  s = s0 ∨ (((s.color.r = env.zero ∧ s.color.g = env.zero ∧ s.color.b = env.zero) ∨ RgbChannels env s.color.r s.color.g s.color.b) ∧
    (s.color.a = env.one ∨ ∃ v x, Quoted v ∧ ok v ∧ env.fromChars v = some x ∧ s.color.a = env.oneMinus x) ∧ s.thickness ≤ 255 ∧ s.joins ≠ .none)

/-- Formattings that can be written inside the formatting `st0`, with attributes for which `ok` holds: flags can be turned on only. -/
structure Writable (env : Env F) (ok : List UInt8 → Prop) (st0 st : Style F) : Prop where
  font : WritableFont env ok st0.font st.font
  color : WritableColor env st0.color st.color
  stroke : WritableStroke env ok st0.stroke st.stroke
  flag : ∀ k, st0.flag k = true → st.flag k = true

end Spec

/-! ## Nothing else can be written -/

theorem proper_make {f : Font} (h : ProperFont f) : f = Font.make f.face.getFamily f.face.getWeight f.face.getStyle f.size ∧
    f.face.getWeight.toNat < 16 := by
  obtain ⟨fam, w, s, z, hw, rfl⟩ := h
  obtain ⟨h1, h2, h3, h4, -⟩ := C18_font fam w s z hw
  rw [h1, h2, h3, h4]
  exact ⟨rfl, hw⟩

theorem Spec.WritableFont.getters {env : Env F} {ok : List UInt8 → Prop} {f0 f : Font} (h0 : ProperFont f0) (h : WritableFont env ok f0 f) :
    ∃ fam w s z, f = Font.make fam w s z ∧ f.face.getFamily = fam ∧ f.face.getWeight = w ∧ f.face.getStyle = s ∧ f.size = z ∧
    (fam = f0.face.getFamily ∨ (fam ≠ 0xFFFF#16 ∧ ∃ v, v ≠ [] ∧ Quoted v ∧ ok v ∧ env.getFamily v = fam)) ∧
    (w = f0.face.getWeight ∨ w.toNat < 9) ∧ (s = f0.face.getStyle ∨ s = .italic) := by
  obtain ⟨fam, w, s, z, rfl, h1, h2, h3⟩ := h
  have hw : w.toNat < 16 := by
    rcases h2 with rfl | h2
    · exact (proper_make h0).2
    · omega
  obtain ⟨g1, g2, g3, g4, -⟩ := C18_font fam w s z hw
  exact ⟨fam, w, s, z, rfl, g1, g2, g3, g4, h1, h2, h3⟩

theorem colorText_writable {env : Env F} {t : List UInt8} {c : Color F} (h : ColorText env t c) :
    RgbChannels env c.r c.g c.b ∧ c.a = env.one := by
  have hch : ∀ d n, ChannelValue env d n → n < 256 := by
    rintro d n ⟨⟨h1, -⟩, h2, h3⟩
    rcases Nat.lt_or_ge d.length 3 with hx | hx
    · rw [h2 hx]; split <;> omega
    · obtain ⟨b, -, hb⟩ := h3 (by omega)
      rw [hb]; split <;> split <;> omega
  cases h with
  | hex d1 d2 d3 d4 d5 d6 n1 n2 n3 n4 n5 n6 h1 h2 h3 h4 h5 h6 =>
    have := h1.1; have := h2.1; have := h3.1; have := h4.1; have := h5.1; have := h6.1
    exact ⟨⟨_, _, _, by omega, by omega, by omega, rfl, rfl, rfl⟩, rfl⟩
  | rgb s1 d1 t1 s2 d2 t2 s3 d3 t3 n1 n2 n3 hs1 ht1 hs2 ht2 hs3 ht3 h1 h2 h3 =>
    exact ⟨⟨_, _, _, hch _ _ h1, hch _ _ h2, hch _ _ h3, rfl, rfl, rfl⟩, rfl⟩

theorem weightText_lt {v : List UInt8} {w : BitVec 8} (h : WeightText v w) : w.toNat < 9 := by
  rcases h with ⟨k, h1, h2, -, rfl⟩ | ⟨-, k, u, t, name, hk, -, -, -, -, rfl⟩
  · rw [BitVec.toNat_ofNat]; omega
  · rw [BitVec.toNat_ofNat]; omega

theorem fontAttr_writable {env : Env F} {f0 : Font} {c0 : Color F} (h0 : ProperFont f0) {a : List UInt8} {f : Font × Color F → Font × Color F}
    (h : FontAttr env a f) (p : Font × Color F) (h1 : WritableFont env (fun _ => True) f0 p.1) (h2 : WritableColor env c0 p.2) :
    WritableFont env (fun _ => True) f0 (f p).1 ∧ WritableColor env c0 (f p).2 := by
  obtain ⟨fam, w, s, z, e, g1, g2, g3, g4, k1, k2, k3⟩ := h1.getters h0
  cases h with
  | space => exact ⟨h1, h2⟩
  | color t c h => exact ⟨h1, Or.inr (colorText_writable h)⟩
  | face v hv hne hf => exact ⟨⟨_, _, _, _, rfl, Or.inr ⟨hf, v, hne, hv, trivial, rfl⟩, by rw [g2]; exact k2, by rw [g3]; exact k3⟩, h2⟩
  | size v n hv hn => exact ⟨⟨fam, w, s, BitVec.ofNat 32 n, by show (⟨p.1.face, BitVec.ofNat 32 n⟩ : Font) = _; rw [e]; rfl, k1, k2, k3⟩, h2⟩
  | weight v w' hv hl hw => exact ⟨⟨_, _, _, _, rfl, by rw [g1]; exact k1, Or.inr (weightText_lt hw), by rw [g3]; exact k3⟩, h2⟩

theorem fontAttrs_writable {env : Env F} {f0 : Font} {c0 : Color F} (h0 : ProperFont f0) {a : List UInt8} {f : Font × Color F → Font × Color F}
    (h : FontAttrList env a f) : ∀ (p : Font × Color F), WritableFont env (fun _ => True) f0 p.1 → WritableColor env c0 p.2 →
    WritableFont env (fun _ => True) f0 (f p).1 ∧ WritableColor env c0 (f p).2 := by
  induction h with
  | nil => exact fun p h1 h2 => ⟨h1, h2⟩
  | cons ha hm ih =>
    intro p h1 h2
    obtain ⟨a1, a2⟩ := fontAttr_writable h0 ha p h1 h2
    exact ih _ a1 a2

/-- What is inside `<stroke>`. -/
def StrokeInside (env : Env F) (s : StrokeState F) : Prop :=
  ((s.color.r = env.zero ∧ s.color.g = env.zero ∧ s.color.b = env.zero) ∨ RgbChannels env s.color.r s.color.g s.color.b) ∧
    (s.color.a = env.one ∨ ∃ v x, Quoted v ∧ True ∧ env.fromChars v = some x ∧ s.color.a = env.oneMinus x) ∧ s.thickness ≤ 255 ∧ s.joins ≠ .none

theorem strokeAttr_inside {env : Env F} {a : List UInt8} {f : StrokeState F → StrokeState F} (h : StrokeAttr env a f) (s : StrokeState F)
    (hs : StrokeInside env s) : StrokeInside env (f s) := by
  obtain ⟨h1, h2, h3, h4⟩ := hs
  cases h with
  | space => exact ⟨h1, h2, h3, h4⟩
  | color t c h => exact ⟨Or.inr (colorText_writable h).1, h2, h3, h4⟩
  | joinsRound => exact ⟨h1, h2, h3, StrokeType.noConfusion⟩
  | joinsBevel => exact ⟨h1, h2, h3, StrokeType.noConfusion⟩
  | joinsMiter => exact ⟨h1, h2, h3, StrokeType.noConfusion⟩
  | thickness v n hv hn =>
    obtain ⟨d, t, -, -, -, -, -, hn⟩ := hn
    exact ⟨h1, h2, hn, h4⟩
  | transparency v x hv hx => exact ⟨h1, Or.inr ⟨v, x, hv, trivial, hx, rfl⟩, h3, h4⟩

theorem strokeAttrs_inside {env : Env F} {a : List UInt8} {f : StrokeState F → StrokeState F} (h : StrokeAttrList env a f) :
    ∀ (s : StrokeState F), StrokeInside env s → StrokeInside env (f s) := by
  induction h with
  | nil => exact fun s h => h
  | cons ha hm ih => exact fun s h => ih _ (strokeAttr_inside ha s h)

theorem tag_writable {env : Env F} {st0 st st' : Style F} (h0 : ProperFont st0.font) {op close : List UInt8} (h : Tag env st op st' close)
    (hw : Writable env (fun _ => True) st0 st) : Writable env (fun _ => True) st0 st' := by
  have hon : ∀ k, Writable env (fun _ => True) st0 (st.on k) := fun k => ⟨hw.font, hw.color, hw.stroke, fun j hj => by
    show (if j = k then true else st.flag j) = true
    split
    · rfl
    · exact hw.flag j hj⟩
  cases h with
  | s => exact hon _
  | u => exact hon _
  | sc => exact hon _
  | smallcaps => exact hon _
  | sub => exact hon _
  | super => exact hon _
  | i =>
    obtain ⟨fam, w, s, z, e, g1, g2, g3, g4, k1, k2, k3⟩ := hw.font.getters h0
    exact ⟨⟨_, _, _, _, rfl, by rw [g1]; exact k1, by rw [g2]; exact k2, Or.inr rfl⟩, hw.color, hw.stroke, hw.flag⟩
  | font a f h =>
    obtain ⟨a1, a2⟩ := fontAttrs_writable h0 h (st.font, st.color) hw.font hw.color
    exact ⟨a1, a2, hw.stroke, hw.flag⟩
  | stroke a f h =>
    exact ⟨hw.font, hw.color, Or.inr (strokeAttrs_inside h _ ⟨Or.inl ⟨rfl, rfl, rfl⟩, Or.inl rfl, Nat.le_of_ble_eq_true rfl, StrokeType.noConfusion⟩), hw.flag⟩

theorem content_writable {env : Env F} {st0 : Style F} (h0 : ProperFont st0.font) {st : Style F} {m : List UInt8} {o : List (UInt8 × Style F)}
    (h : Content env st m o) (hw : Writable env (fun _ => True) st0 st) : ∀ x ∈ o, x.1 ≠ c!"<" ∧ x.1 ≠ 0xFF ∧ Writable env (fun _ => True) st0 x.2 := by
  induction h with
  | nil => intro x hx; simp at hx
  | char c hc hf h ih =>
    intro x hx
    rcases List.mem_cons.1 hx with rfl | hx
    · exact ⟨hc, hf, hw⟩
    · exact ih hw x hx
  | comment body hb h ih => exact ih hw
  | uc h ih => exact ih hw
  | uppercase h ih => exact ih hw
  | tag ht hi h ih1 ih2 =>
    intro x hx
    rcases List.mem_append.1 hx with hx | hx
    · exact ih1 (tag_writable h0 ht hw) x hx
    · exact ih2 hw x hx

/-! ## All of it can be written -/

/-- A set of texts that has all of ASCII in it, and with two texts both together. -/
structure Texts (ok : List UInt8 → Prop) : Prop where
  ascii : ∀ a, (∀ c ∈ a, c < 0x80) → ok a
  append : ∀ a b, ok a → ok b → ok (a ++ b)

/-- Content in the formatting `st'` can be written inside `st`. -/
def Reaches (env : Env F) (ok : List UInt8 → Prop) (st st' : Style F) : Prop :=
  ∃ pre post, ok pre ∧ ok post ∧ ∀ inner oi, Content env st' inner oi → Content env st (pre ++ inner ++ post) oi

variable {ok : List UInt8 → Prop}

theorem Reaches.refl {env : Env F} (hok : Texts ok) (st : Style F) : Reaches env ok st st :=
  ⟨[], [], hok.ascii [] (by simp), hok.ascii [] (by simp), fun inner _ h => by simpa using h⟩

theorem Reaches.trans {env : Env F} (hok : Texts ok) {a b c : Style F} (h1 : Reaches env ok a b) (h2 : Reaches env ok b c) :
    Reaches env ok a c := by
  obtain ⟨p1, q1, o1, o2, h1⟩ := h1
  obtain ⟨p2, q2, o3, o4, h2⟩ := h2
  refine ⟨p1 ++ p2, q2 ++ q1, hok.append _ _ o1 o3, hok.append _ _ o4 o2, fun inner oi h => ?_⟩
  have := h1 _ _ (h2 inner oi h)
  simpa using this

theorem Reaches.tag {env : Env F} {st st' : Style F} {op close : List UInt8} (h : Tag env st op st' close) (ho : ok op)
    (hc : ok (b!"</" ++ close ++ b!">")) : Reaches env ok st st' :=
  ⟨op, _, ho, hc, fun inner oi hi => by simpa using Content.tag h hi (Content.nil st)⟩

theorem Reaches.fontAttr {env : Env F} (hok : Texts ok) {st : Style F} {a : List UInt8} {f : Font × Color F → Font × Color F} (h : FontAttr env a f)
    (ha : ok a) : Reaches env ok st { st with font := (f (st.font, st.color)).1, color := (f (st.font, st.color)).2 } :=
  Reaches.tag (Tag.font (b!" " ++ (a ++ [])) ((id ∘ f) ∘ id) (.cons .space (.cons h .nil)))
    (hok.append _ _ (hok.append _ _ (hok.ascii _ (by decide)) (hok.append _ _ (hok.ascii _ (by decide)) (hok.append _ _ ha (hok.ascii [] (by decide)))))
      (hok.ascii _ (by decide))) (hok.ascii _ (by decide))

theorem Texts.attr (hok : Texts ok) (name : List UInt8) (hn : ∀ c ∈ name, c < 0x80) {v : List UInt8} (hv : ok v) : ok (name ++ v ++ b!"\"") :=
  hok.append _ _ (hok.append _ _ (hok.ascii _ hn) hv) (hok.ascii _ (by decide))

/-- Outlines `s'` from outlines `s` by attributes. -/
def StrokeReaches (env : Env F) (ok : List UInt8 → Prop) (s s' : StrokeState F) : Prop := ∃ a f, ok a ∧ StrokeAttrList env a f ∧ f s = s'

theorem strokeAttrs_append {env : Env F} {a b : List UInt8} {f g : StrokeState F → StrokeState F} (h1 : StrokeAttrList env a f)
    (h2 : StrokeAttrList env b g) : StrokeAttrList env (a ++ b) (g ∘ f) := by
  induction h1 with
  | nil => exact h2
  | cons ha hm ih => rw [List.append_assoc, ← Function.comp_assoc]; exact .cons ha ih

theorem StrokeReaches.refl {env : Env F} (hok : Texts ok) (s : StrokeState F) : StrokeReaches env ok s s :=
  ⟨_, _, hok.ascii [] (by simp), .nil, rfl⟩

theorem StrokeReaches.trans {env : Env F} (hok : Texts ok) {s s' s'' : StrokeState F} (h1 : StrokeReaches env ok s s')
    (h2 : StrokeReaches env ok s' s'') : StrokeReaches env ok s s'' := by
  obtain ⟨a, f, o1, h1, rfl⟩ := h1
  obtain ⟨b, g, o2, h2, rfl⟩ := h2
  exact ⟨_, _, hok.append _ _ o1 o2, strokeAttrs_append h1 h2, rfl⟩

theorem StrokeReaches.attr {env : Env F} (hok : Texts ok) {a : List UInt8} {f : StrokeState F → StrokeState F} (h : StrokeAttr env a f) (ha : ok a)
    (s : StrokeState F) : StrokeReaches env ok s (f s) :=
  ⟨b!" " ++ (a ++ []), _, hok.append _ _ (hok.ascii _ (by decide)) (hok.append _ _ ha (hok.ascii [] (by decide))), .cons .space (.cons h .nil), rfl⟩

/-- A numeral for `n`. -/
def numeral (n : Nat) : List UInt8 := if n < 10 then [UInt8.ofNat (48 + n)] else numeral (n / 10) ++ [UInt8.ofNat (48 + n % 10)]
termination_by n
decreasing_by omega

theorem number_snoc (a : List UInt8) (c : UInt8) : number (a ++ [c]) = number a * 10 + (c.toNat - 48) := by
  induction a with
  | nil => simp [number]
  | cons x t ih =>
    rw [List.cons_append, number, number, ih, List.length_append, List.length_singleton, Nat.pow_succ, Nat.add_mul, Nat.mul_assoc]
    omega

theorem digit_ofNat {n : Nat} (h : n < 10) : Digit (UInt8.ofNat (48 + n)) ∧ (UInt8.ofNat (48 + n)).toNat - 48 = n := by
  have : (UInt8.ofNat (48 + n)).toNat = 48 + n := by rw [UInt8.toNat_ofNat']; omega
  refine ⟨⟨?_, ?_⟩, by omega⟩
  · rw [UInt8.le_iff_toNat_le, this]; simp
  · rw [UInt8.le_iff_toNat_le, this]; simp; omega

theorem numeral_spec (n : Nat) : numeral n ≠ [] ∧ (∀ c ∈ numeral n, Digit c) ∧ number (numeral n) = n := by
  induction n using Nat.strongRecOn with
  | ind n ih =>
    rw [numeral]
    by_cases h : n < 10
    · rw [if_pos h]
      obtain ⟨h1, h2⟩ := digit_ofNat h
      refine ⟨by simp, ?_, ?_⟩
      · intro c hc
        rw [List.mem_singleton.1 hc]
        exact h1
      · simp only [number, List.length_nil, Nat.pow_zero, Nat.mul_one, Nat.add_zero]
        exact h2
    · rw [if_neg h]
      obtain ⟨-, i2, i3⟩ := ih (n / 10) (by omega)
      obtain ⟨h1, h2⟩ := digit_ofNat (n := n % 10) (by omega)
      refine ⟨by simp, ?_, ?_⟩
      · intro c hc
        rcases List.mem_append.1 hc with hc | hc
        · exact i2 c hc
        · rw [List.mem_singleton.1 hc]; exact h1
      · rw [number_snoc, i3, h2]; omega

theorem numeral_ascii (n : Nat) : ∀ c ∈ numeral n, c < 0x80 := fun c hc =>
  UInt8.lt_of_le_of_lt ((numeral_spec n).2.1 c hc).2 (by decide)

theorem numeral_quoted (n : Nat) : Quoted (numeral n) := by
  intro c hc
  obtain ⟨h1, h2⟩ := (numeral_spec n).2.1 c hc
  constructor
  · rintro rfl; exact absurd h1 (by decide)
  · rintro rfl; exact absurd h2 (by decide)

theorem numeral_starts {n max : Nat} (h : n ≤ max) : StartsWithNumber max (numeral n) n := by
  obtain ⟨h1, h2, h3⟩ := numeral_spec n
  exact ⟨numeral n, [], by simp, h1, h2, (fun c u h => by cases h), h3.symm, h⟩

theorem hex_exists {n : Nat} (h : n < 16) : ∃ c, HexDigit c n ∧ c < 0x80 :=
  ⟨_, ⟨h, Or.inl (List.getElem?_eq_getElem (show n < (b!"0123456789abcdef").length from h))⟩,
    (by decide : ∀ c ∈ (b!"0123456789abcdef"), c < 0x80) _ (List.getElem_mem _)⟩

theorem colorText_exists {env : Env F} {r g b : F} (h : RgbChannels env r g b) : ∃ t, ColorText env t ⟨r, g, b, env.one⟩ ∧ ∀ c ∈ t, c < 0x80 := by
  obtain ⟨n1, n2, n3, h1, h2, h3, rfl, rfl, rfl⟩ := h
  obtain ⟨c1, e1, a1⟩ := hex_exists (n := n1 / 16) (by omega)
  obtain ⟨c2, e2, a2⟩ := hex_exists (n := n1 % 16) (by omega)
  obtain ⟨c3, e3, a3⟩ := hex_exists (n := n2 / 16) (by omega)
  obtain ⟨c4, e4, a4⟩ := hex_exists (n := n2 % 16) (by omega)
  obtain ⟨c5, e5, a5⟩ := hex_exists (n := n3 / 16) (by omega)
  obtain ⟨c6, e6, a6⟩ := hex_exists (n := n3 % 16) (by omega)
  have := ColorText.hex (env := env) _ _ _ _ _ _ _ _ _ _ _ _ e1 e2 e3 e4 e5 e6
  rw [Nat.div_add_mod, Nat.div_add_mod, Nat.div_add_mod] at this
  refine ⟨_, this, fun c hc => ?_⟩
  simp only [List.mem_cons, List.not_mem_nil, or_false] at hc
  rcases hc with rfl | rfl | rfl | rfl | rfl | rfl | rfl
  · decide
  all_goals assumption

theorem weight_exists {w : BitVec 8} (h : w.toNat < 9) : ∃ v, Quoted v ∧ v.length < 16 ∧ WeightText v w ∧ ∀ c ∈ v, c < 0x80 := by
  refine ⟨numeral (100 * (w.toNat + 1)), numeral_quoted _, ?_, Or.inl ⟨w.toNat + 1, by omega, by omega, numeral_starts (by omega), ?_⟩, numeral_ascii _⟩
  · generalize w.toNat = k at h
    rw [numeral, if_neg (by omega), numeral, if_neg (by omega), numeral, if_pos (by omega)]
    simp
  · rw [Nat.add_sub_cancel, BitVec.ofNat_toNat, BitVec.setWidth_eq]

theorem reaches_flags {env : Env F} (hok : Texts ok) (flag : Flag → Bool) (st : Style F) (h : ∀ k, st.flag k = true → flag k = true) :
    Reaches env ok st { st with flag := flag } := by
  have hon : ∀ k, ∀ st : Style F, Reaches env ok st (st.on k) := by
    intro k st
    cases k with
    | strikethrough => exact .tag .s (hok.ascii _ (by decide)) (hok.ascii _ (by decide))
    | underline => exact .tag .u (hok.ascii _ (by decide)) (hok.ascii _ (by decide))
    | smallcaps => exact .tag .sc (hok.ascii _ (by decide)) (hok.ascii _ (by decide))
    | subscript => exact .tag .sub (hok.ascii _ (by decide)) (hok.ascii _ (by decide))
    | superscript => exact .tag .super (hok.ascii _ (by decide)) (hok.ascii _ (by decide))
  have hstep : ∀ k, ∀ st : Style F, (∀ k, st.flag k = true → flag k = true) → Reaches env ok st { st with flag := fun j => if j = k then flag j else st.flag j } := by
    intro k st hs
    cases hk : flag k with
    | true =>
      have e : ({ st with flag := fun j => if j = k then flag j else st.flag j } : Style F) = st.on k := by
        unfold Style.on
        congr 1
        funext j
        split
        · rename_i e; rw [e, hk]
        · rfl
      rw [e]
      exact hon k st
    | false =>
      have e : ({ st with flag := fun j => if j = k then flag j else st.flag j } : Style F) = st := by
        have : (fun j => if j = k then flag j else st.flag j) = st.flag := by
          funext j
          split
          · rename_i e
            rw [e, hk]
            cases hx : st.flag k with
            | true => have := hs k hx; rw [hk] at this; exact this
            | false => rfl
          · rfl
        rw [this]
      rw [e]
      exact Reaches.refl hok st
  have hnext : ∀ k, ∀ g : Flag → Bool, (∀ j, g j = true → flag j = true) → ∀ j, (if j = k then flag j else g j) = true → flag j = true := by
    intro k g hg j hj
    split at hj
    · exact hj
    · exact hg j hj
  have n1 := hnext .strikethrough _ h
  have n2 := hnext .underline _ n1
  have n3 := hnext .smallcaps _ n2
  have n4 := hnext .subscript _ n3
  have s1 := hstep .strikethrough st h
  have s2 := hstep .underline { st with flag := _ } n1
  have s3 := hstep .smallcaps { st with flag := _ } n2
  have s4 := hstep .subscript { st with flag := _ } n3
  have s5 := hstep .superscript { st with flag := _ } n4
  have e := (((s1.trans hok s2).trans hok s3).trans hok s4).trans hok s5
  refine cast ?_ e
  congr 2
  funext j
  cases j <;> rfl

theorem reaches_font {env : Env F} (hok : Texts ok) (st : Style F) (h0 : ProperFont st.font) (f : Font) (h : WritableFont env ok st.font f) :
    Reaches env ok st { st with font := f } := by
  obtain ⟨fam, w, s, z, rfl, h1, h2, h3⟩ := h
  obtain ⟨e0, hw0⟩ := proper_make h0
  have hw : w.toNat < 16 := by
    rcases h2 with rfl | h2
    · exact hw0
    · omega
  have s1 : Reaches env ok st { st with font := Font.make st.font.face.getFamily st.font.face.getWeight s st.font.size } := by
    rcases h3 with rfl | rfl
    · rw [← e0]; exact Reaches.refl hok st
    · exact Reaches.tag .i (hok.ascii _ (by decide)) (hok.ascii _ (by decide))
  have s2 : Reaches env ok { st with font := Font.make st.font.face.getFamily st.font.face.getWeight s st.font.size }
      { st with font := Font.make fam st.font.face.getWeight s st.font.size } := by
    obtain ⟨g1, g2, g3, g4, -⟩ := C18_font st.font.face.getFamily st.font.face.getWeight s st.font.size hw0
    rcases h1 with rfl | ⟨hne, v, hv1, hv2, hv3, rfl⟩
    · exact Reaches.refl hok _
    · have := Reaches.fontAttr hok (st := { st with font := Font.make st.font.face.getFamily st.font.face.getWeight s st.font.size })
        (FontAttr.face (env := env) v hv2 hv1 hne) (hok.attr _ (by decide) hv3)
      simp only [g2, g3, g4] at this
      exact this
  have s3 : Reaches env ok { st with font := Font.make fam st.font.face.getWeight s st.font.size }
      { st with font := Font.make fam w s st.font.size } := by
    obtain ⟨g1, g2, g3, g4, -⟩ := C18_font fam st.font.face.getWeight s st.font.size hw0
    rcases h2 with rfl | h2
    · exact Reaches.refl hok _
    · obtain ⟨v, v1, v2, v3, v4⟩ := weight_exists h2
      have := Reaches.fontAttr hok (st := { st with font := Font.make fam st.font.face.getWeight s st.font.size })
        (FontAttr.weight (env := env) v w v1 v2 v3) (hok.attr _ (by decide) (hok.ascii _ v4))
      simp only [g1, g3, g4] at this
      exact this
  have s4 : Reaches env ok { st with font := Font.make fam w s st.font.size } { st with font := Font.make fam w s z } := by
    have := Reaches.fontAttr hok (st := { st with font := Font.make fam w s st.font.size })
      (FontAttr.size (env := env) (numeral z.toNat) z.toNat (numeral_quoted _) (numeral_starts (by have := z.isLt; omega)))
      (hok.attr _ (by decide) (hok.ascii _ (numeral_ascii _)))
    simp only [BitVec.ofNat_toNat, BitVec.setWidth_eq] at this
    exact this
  exact ((s1.trans hok s2).trans hok s3).trans hok s4

theorem reaches_color {env : Env F} (hok : Texts ok) (st : Style F) (c : Color F) (h : WritableColor env st.color c) : Reaches env ok st { st with color := c } := by
  rcases h with rfl | ⟨h1, h2⟩
  · exact Reaches.refl hok st
  · obtain ⟨t, ht, hta⟩ := colorText_exists h1
    have e : c = ⟨c.r, c.g, c.b, env.one⟩ := by rw [← h2]
    rw [← e] at ht
    exact Reaches.fontAttr hok (FontAttr.color (env := env) t c ht) (hok.attr _ (by decide) (hok.ascii _ hta))

theorem reaches_stroke {env : Env F} (hok : Texts ok) (st : Style F) (s : StrokeState F) (h : WritableStroke env ok st.stroke s) :
    Reaches env ok st { st with stroke := s } := by
  rcases h with rfl | ⟨h1, h2, h3, h4⟩
  · exact Reaches.refl hok st
  · obtain ⟨⟨r, g, b, a⟩, t, j⟩ := s
    simp only at h1 h2 h3 h4
    have s1 : StrokeReaches env ok ⟨⟨env.zero, env.zero, env.zero, env.one⟩, 1, .round⟩ ⟨⟨r, g, b, env.one⟩, 1, .round⟩ := by
      rcases h1 with ⟨rfl, rfl, rfl⟩ | h1
      · exact StrokeReaches.refl hok _
      · obtain ⟨u, hu, hua⟩ := colorText_exists h1
        exact StrokeReaches.attr hok (.color u _ hu) (hok.attr _ (by decide) (hok.ascii _ hua)) _
    have s2 : StrokeReaches env ok ⟨⟨r, g, b, env.one⟩, 1, .round⟩ ⟨⟨r, g, b, a⟩, 1, .round⟩ := by
      rcases h2 with rfl | ⟨v, x, hv, hva, hx, rfl⟩
      · exact StrokeReaches.refl hok _
      · exact StrokeReaches.attr hok (.transparency v x hv hx) (hok.attr _ (by decide) hva) _
    have s3 : StrokeReaches env ok ⟨⟨r, g, b, a⟩, 1, .round⟩ ⟨⟨r, g, b, a⟩, t, .round⟩ :=
      StrokeReaches.attr hok (.thickness (numeral t) t (numeral_quoted t) (numeral_starts h3)) (hok.attr _ (by decide) (hok.ascii _ (numeral_ascii _))) _
    have s4 : StrokeReaches env ok ⟨⟨r, g, b, a⟩, t, .round⟩ ⟨⟨r, g, b, a⟩, t, j⟩ := by
      cases j with
      | none => exact absurd rfl h4
      | round => exact StrokeReaches.attr hok .joinsRound (hok.ascii _ (by decide)) _
      | bevel => exact StrokeReaches.attr hok .joinsBevel (hok.ascii _ (by decide)) _
      | miter => exact StrokeReaches.attr hok .joinsMiter (hok.ascii _ (by decide)) _
    obtain ⟨x, f, hxo, hx, hf⟩ := ((s1.trans hok s2).trans hok s3).trans hok s4
    have := Reaches.tag (Tag.stroke (env := env) (st := st) x f hx)
      (hok.append _ _ (hok.append _ _ (hok.ascii _ (by decide)) hxo) (hok.ascii _ (by decide))) (hok.ascii _ (by decide))
    rw [hf] at this
    exact this

theorem reaches_writable {env : Env F} (hok : Texts ok) (st st' : Style F) (h0 : ProperFont st.font) (h : Writable env ok st st') : Reaches env ok st st' :=
  (((reaches_font hok st h0 st'.font h.font).trans hok (reaches_color hok _ st'.color h.color)).trans hok (reaches_stroke hok _ st'.stroke h.stroke)).trans hok
    (reaches_flags hok st'.flag _ h.flag)

theorem content_append {env : Env F} {st : Style F} {a b : List UInt8} {oa ob : List (UInt8 × Style F)} (h1 : Content env st a oa)
    (h2 : Content env st b ob) : Content env st (a ++ b) (oa ++ ob) := by
  induction h1 with
  | nil => exact h2
  | char c hc hf h ih => exact .char c hc hf (ih h2)
  | comment body hb h ih => rw [List.append_assoc]; exact .comment body hb (ih h2)
  | uc h ih => rw [List.append_assoc]; exact .uc (ih h2)
  | uppercase h ih => rw [List.append_assoc]; exact .uppercase (ih h2)
  | tag ht hi h ih1 ih2 => rw [List.append_assoc, List.append_assoc _ _ ob]; exact .tag ht hi (ih2 h2)

theorem plain_content {env : Env F} (st : Style F) : ∀ (l : List UInt8), (∀ c ∈ l, c ≠ c!"<" ∧ c ≠ 0xFF) → Content env st l (l.map fun b => (b, st))
  | [], _ => .nil _
  | c :: t, h => .char c (h c (by simp)).1 (h c (by simp)).2 (plain_content st t fun x hx => h x (by simp [hx]))

/-- Texts in groups of one formatting can be written. -/
theorem groups_written {env : Env F} (hok : Texts ok) (st : Style F) (h0 : ProperFont st.font) : ∀ (gs : List (List UInt8 × Style F)),
    (∀ g ∈ gs, ok g.1 ∧ (∀ c ∈ g.1, c ≠ c!"<" ∧ c ≠ 0xFF) ∧ Writable env ok st g.2) →
    ∃ m, ok m ∧ Content env st m (gs.flatMap fun g => g.1.map fun b => (b, g.2))
  | [], _ => ⟨[], hok.ascii [] (by simp), .nil _⟩
  | g :: t, h => by
    obtain ⟨m, o1, hm⟩ := groups_written hok st h0 t fun y hy => h y (List.mem_cons_of_mem _ hy)
    obtain ⟨h1, h2, h3⟩ := h g (by simp)
    obtain ⟨pre, post, p1, p2, p3⟩ := reaches_writable hok _ _ h0 h3
    refine ⟨_, hok.append _ _ (hok.append _ _ (hok.append _ _ p1 h1) p2) o1, content_append (p3 _ _ (plain_content g.2 g.1 h2)) hm⟩

theorem encodeChar_ascii {n : Nat} (h : n < 128) : String.utf8EncodeChar (Char.ofNat n) = [UInt8.ofNat n] := by
  have hv : n.isValidChar := Or.inl (by omega)
  have e : (Char.ofNat n).val.toNat = n := by
    unfold Char.ofNat
    rw [dif_pos hv]
    rfl
  unfold String.utf8EncodeChar
  simp only [e]
  rw [if_pos (by omega)]

theorem encodeChar_angle (c : Char) (h : c!"<" ∈ String.utf8EncodeChar c) : c = '<' := by
  rcases encodeChar_cases c with ⟨b, -, hb⟩ | hb
  · rw [hb, List.mem_singleton] at h
    subst h
    have hx : (c.val.toNat ≤ 0x7f) := by
      by_contra hgt
      unfold String.utf8EncodeChar at hb
      simp only [if_neg hgt] at hb
      split at hb
      · simp at hb
      · split at hb <;> simp at hb
    unfold String.utf8EncodeChar at hb
    simp only [if_pos hx, List.cons.injEq, and_true] at hb
    have h2 : c.val.toNat = 60 := by
      have := congrArg UInt8.toNat hb
      rw [UInt8.toNat_ofNat'] at this
      have h3 : (60 : UInt8).toNat = 60 := rfl
      omega
    apply Char.ext
    apply UInt32.toNat_inj.1
    rw [h2]
    rfl
  · exact absurd (hb _ h) (by decide)

theorem utf8_texts : Texts ValidUtf8 where
  ascii a h := ⟨a.map fun c => Char.ofNat c.toNat, by
    unfold encode
    rw [List.flatMap_map]
    induction a with
    | nil => rfl
    | cons c t ih =>
      have hc : c.toNat < 128 := by have := h c (by simp); rwa [UInt8.lt_iff_toNat_lt] at this
      rw [List.flatMap_cons, ← ih fun x hx => h x (by simp [hx]), encodeChar_ascii hc]
      simp⟩
  append _ _ := ValidUtf8.append

/-! ## C138 -/

/-- C138: exactly those formatted texts can be written as markup whose bytes are neither `<` nor 0xFF and whose formattings are writable. -/
theorem C138_documents (env : Env F) (font : Font) (color : Color F) (stroke : StrokeState F) (hf : ProperFont font) (o : List (UInt8 × Style F)) :
    (∃ text, Document env (baseStyle font color stroke) text o) ↔
      ∀ x ∈ o, x.1 ≠ c!"<" ∧ x.1 ≠ 0xFF ∧ Writable env (fun _ => True) (baseStyle font color stroke) x.2 := by
  constructor
  · rintro ⟨text, m, -, h⟩
    refine content_writable (st0 := baseStyle font color stroke) hf h ⟨?_, Or.inl rfl, Or.inl rfl, fun k h => h⟩
    exact ⟨_, _, _, _, (proper_make hf).1, Or.inl rfl, Or.inl rfl, Or.inl rfl⟩
  · intro h
    obtain ⟨m, -, hm⟩ := groups_written (ok := fun _ => True) ⟨fun _ _ => trivial, fun _ _ _ _ => trivial⟩ (baseStyle font color stroke) hf
      (o.map fun x => ([x.1], x.2)) (fun g hg => by
        obtain ⟨x, hx, rfl⟩ := List.mem_map.1 hg
        obtain ⟨h1, h2, h3⟩ := h x hx
        exact ⟨trivial, (fun c hc => by rw [List.mem_singleton.1 hc]; exact ⟨h1, h2⟩), h3⟩)
    refine ⟨m, m, Or.inl rfl, ?_⟩
    simpa [List.flatMap_map, List.flatMap_pure_eq_map] using hm

/-- C138: each of them is what the parser shows for some markup. -/
theorem C138_written (env : Env F) (font : Font) (color : Color F) (stroke : StrokeState F) (hf : ProperFont font) (o : List (UInt8 × Style F))
    (h : ∀ x ∈ o, x.1 ≠ c!"<" ∧ x.1 ≠ 0xFF ∧ Writable env (fun _ => True) (baseStyle font color stroke) x.2) :
    ∃ text runs, parseInlineFormatting env text font color stroke = .ok (o.map (·.1), runs) ∧ ShowsStyles runs o := by
  obtain ⟨text, ht⟩ := (C138_documents env font color stroke hf o).2 h
  obtain ⟨runs, h1, h2⟩ := C10_documents env text font color stroke hf o ht
  exact ⟨text, runs, h1, h2⟩

/-- C138: and nothing else is, but for texts that are shown verbatim. -/
theorem C138_only (env : Env F) (text : List UInt8) (font : Font) (color : Color F) (stroke : StrokeState F) (hf : ProperFont font)
    (r : List UInt8 × FormattingRuns F) (h : parseInlineFormatting env text font color stroke = .ok r)
    (hne : r ≠ verbatim text font color stroke) :
    ∃ o, r.1 = o.map (·.1) ∧ ShowsStyles r.2 o ∧ ∀ x ∈ o, x.1 ≠ c!"<" ∧ x.1 ≠ 0xFF ∧ Writable env (fun _ => True) (baseStyle font color stroke) x.2 := by
  obtain ⟨o, h1, h2, h3⟩ := C11_only_documents env text font color stroke hf r h hne
  exact ⟨o, h2, h3, (C138_documents env font color stroke hf o).1 ⟨text, h1⟩⟩

/-- C138 fails for texts with `<`: there is no markup for it, so where it is shown nothing is formatted, and all tags are shown as well. -/
theorem C138_angle_violated (env : Env F) (text : List UInt8) (font : Font) (color : Color F) (stroke : StrokeState F) (hf : ProperFont font)
    (r : List UInt8 × FormattingRuns F) (h : parseInlineFormatting env text font color stroke = .ok r) (hlt : c!"<" ∈ r.1) :
    r = verbatim text font color stroke := by
  by_cases hne : r = verbatim text font color stroke
  · exact hne
  · obtain ⟨o, h1, -, h3⟩ := C138_only env text font color stroke hf r h hne
    rw [h1] at hlt
    obtain ⟨x, hx, hx'⟩ := List.mem_map.1 hlt
    exact absurd hx' (h3 x hx).1

/-- C138: if whole characters are formatted, and the names of families and the numerals for opacities are UTF-8, so is the markup. -/
theorem C138_utf8 (env : Env F) (font : Font) (color : Color F) (stroke : StrokeState F) (hf : ProperFont font) (cs : List (Char × Style F))
    (h : ∀ x ∈ cs, x.1 ≠ '<' ∧ Writable env ValidUtf8 (baseStyle font color stroke) x.2) :
    ∃ text runs, ValidUtf8 text ∧ parseInlineFormatting env text font color stroke = .ok (encode (cs.map (·.1)), runs) ∧
      ShowsStyles runs (cs.flatMap fun x => (String.utf8EncodeChar x.1).map fun b => (b, x.2)) := by
  obtain ⟨m, h1, h2⟩ := groups_written (ok := ValidUtf8) utf8_texts (baseStyle font color stroke) hf
    (cs.map fun x => (String.utf8EncodeChar x.1, x.2)) (fun g hg => by
      obtain ⟨x, hx, rfl⟩ := List.mem_map.1 hg
      refine ⟨⟨[x.1], by simp [encode]⟩, fun b hb => ⟨?_, encodeChar_ne_ff _ _ hb⟩, (h x hx).2⟩
      rintro rfl
      exact (h x hx).1 (encodeChar_angle _ hb))
  obtain ⟨runs, p1, p2⟩ := C10_documents env m font color stroke hf _ ⟨m, Or.inl rfl, h2⟩
  refine ⟨m, runs, h1, ?_, ?_⟩
  · rw [p1]
    have : ∀ cs : List (Char × Style F), ((cs.map fun x => (String.utf8EncodeChar x.1, x.2)).flatMap fun g => g.1.map fun b => (b, g.2)).map (·.1) =
        encode (cs.map (·.1)) := by
      intro cs
      unfold encode
      induction cs with
      | nil => rfl
      | cons x t ih =>
        rw [List.map_cons, List.flatMap_cons, List.map_append, ih, List.map_cons, List.flatMap_cons, List.map_map]
        congr 1
        exact List.map_id _
    rw [this]
  · simpa [List.flatMap_map] using p2

/-- Two bytes, one in the family "Sans", heavy, italic, red, outlined in half transparent blue and underlined, can be written... -/
example : ∀ x ∈ [(c!"a", baseStyle toyFont toyColor toyStroke),
      (c!"b", (⟨Font.make 1 8 .italic 99, ⟨255, 0, 0, 255⟩, ⟨⟨0, 0, 255, 128⟩, 7, .miter⟩, fun k => k == .underline⟩ : Style Nat))],
    x.1 ≠ c!"<" ∧ x.1 ≠ 0xFF ∧ Writable toyEnv ValidUtf8 (baseStyle toyFont toyColor toyStroke) x.2 := by
  intro x hx
  simp only [List.mem_cons, List.not_mem_nil, or_false] at hx
  rcases hx with rfl | rfl
  · exact ⟨by decide, by decide, ⟨0, 3, .normal, 16, rfl, Or.inl (by decide), Or.inl (by decide), Or.inl (by decide)⟩, Or.inl rfl, Or.inl rfl, fun k h => h⟩
  · refine ⟨(by decide : (98 : UInt8) ≠ 60), (by decide : (98 : UInt8) ≠ 255),
      ⟨1, 8, .italic, 99, rfl, Or.inr ⟨by decide, b!"Sans", by decide, ?_, utf8_texts.ascii _ (by decide), by decide⟩, Or.inr (by decide), Or.inr rfl⟩,
      Or.inr ⟨⟨255, 0, 0, by decide, by decide, by decide, rfl, rfl, rfl⟩, rfl⟩,
      Or.inr ⟨Or.inr ⟨0, 0, 255, by decide, by decide, by decide, rfl, rfl, rfl⟩, Or.inr ⟨b!"127", 127, ?_, utf8_texts.ascii _ (by decide), by decide, rfl⟩,
        (by show 7 ≤ 255; omega), StrokeType.noConfusion⟩, fun k h => by cases h⟩
    · unfold Quoted; decide
    · unfold Quoted; decide

/-- ...for instance like this (the run of the font between `<i>` and `<font>` is empty). -/
def toyMarkup : List UInt8 := b!"a<u><i><font face=\"Sans\" weight=\"900\" size=\"99\" color=\"#FF0000\">" ++
  (b!"<stroke color=\"#0000FF\" transparency=\"127\" thickness=\"7\" joins=\"miter\">b</stroke></font></i></u>")

example : (parseInlineFormatting toyEnv toyMarkup toyFont toyColor toyStroke).toOption.map (fun r => (r.1, r.2.font)) =
    some (b!"ab", ⟨[toyFont, Font.make 0 3 .italic 16, Font.make 1 8 .italic 99], [1, 1, 2]⟩) := by decide +kernel

example : (parseInlineFormatting toyEnv toyMarkup toyFont toyColor toyStroke).toOption.map (fun r => (r.2.color, r.2.stroke)) =
    some (⟨[toyColor, ⟨255, 0, 0, 255⟩], [1, 2]⟩, ⟨[toyStroke, ⟨⟨0, 0, 255, 128⟩, 7, .miter⟩], [1, 2]⟩) := by decide +kernel

/-- A weight of 50 (beyond the nine) and a text that is not opaque cannot be written. -/
example : ¬ WritableFont toyEnv (fun _ => True) toyFont (Font.make 0 12 .normal 16) ∧ ¬ WritableColor toyEnv toyColor ⟨0, 0, 0, 100⟩ := by
  constructor
  · rintro ⟨fam, w, s, z, h, -, h2, -⟩
    have h3 : w.toNat < 16 := by
      rcases h2 with rfl | h2
      · decide
      · omega
    have h4 := (C18_face_injective _ _ _ _ _ _ (by decide) h3 (congrArg Font.face h)).2.1
    subst h4
    revert h2
    decide
  · rintro (h | ⟨-, h⟩)
    · exact absurd h (by decide)
    · exact absurd h (by decide)

end RichText
