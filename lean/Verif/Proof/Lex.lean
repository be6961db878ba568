import Verif.Spec.Markup
import Mathlib.Data.List.TakeWhile
import Mathlib.Tactic.Linarith
/-! Reading functions of the markup parser: what they accept and leave. -/
namespace RichText
open Spec

/-! ### suffixes -/

theorem nextChar_suffix (l : List UInt8) : (nextChar l).2 <:+ l := by
  cases l with
  | nil => exact List.suffix_rfl
  | cons c t => exact List.suffix_cons c t

theorem consumeChar_suffix (c : UInt8) (l : List UInt8) : (consumeChar c l).rest <:+ l := by
  cases l with
  | nil => exact List.suffix_rfl
  | cons d t => exact List.suffix_cons d t

theorem consumeWord_suffix (w : List UInt8) : ∀ l, (consumeWord w l).rest <:+ l := by
  induction w with
  | nil => intro l; exact List.suffix_rfl
  | cons c w ih =>
    intro l
    simp only [consumeWord]
    split
    · exact consumeChar_suffix c l
    · exact (ih _).trans (consumeChar_suffix c l)

theorem commentBody_suffix (l : List UInt8) : (commentBody l).rest <:+ l := by
  induction l with
  | nil => exact List.suffix_rfl
  | cons c t ih =>
    simp only [commentBody]
    split
    · exact List.suffix_cons c t
    · split
      · split
        · exact (consumeChar_suffix _ _).trans (List.suffix_cons c t)
        · exact ((consumeChar_suffix _ _).trans (consumeChar_suffix _ _)).trans (List.suffix_cons c t)
      · exact ih.trans (List.suffix_cons c t)

theorem parseComment_suffix (l : List UInt8) : (parseComment l).rest <:+ l := by
  simp only [parseComment]
  split
  · exact consumeChar_suffix _ _
  · split
    · exact (consumeChar_suffix _ _).trans (consumeChar_suffix _ _)
    · exact (commentBody_suffix _).trans ((consumeChar_suffix _ _).trans (consumeChar_suffix _ _))

theorem scanQuote_suffix (l : List UInt8) : (scanQuote l).rest <:+ l := by
  induction l with
  | nil => exact List.suffix_rfl
  | cons c t ih =>
    simp only [scanQuote]
    split
    · exact List.suffix_cons c t
    · split
      · exact List.suffix_cons c t
      · exact ih.trans (List.suffix_cons c t)

theorem parseAttr_suffix (name l : List UInt8) : (parseAttr name l).rest <:+ l := by
  simp only [parseAttr]
  split
  · exact consumeWord_suffix _ _
  · exact (scanQuote_suffix _).trans (consumeWord_suffix _ _)

theorem parseColorHex_suffix (n : Nat) : ∀ acc l, (parseColorHex n acc l).rest <:+ l := by
  induction n with
  | zero => intro acc l; exact List.suffix_rfl
  | succ n ih =>
    intro acc l
    simp only [parseColorHex]
    split
    · exact (ih _ _).trans (nextChar_suffix l)
    · exact nextChar_suffix l

theorem skipSpace_suffix (l : List UInt8) : skipSpace l <:+ l := by
  induction l with
  | nil => exact List.suffix_rfl
  | cons c t ih =>
    simp only [skipSpace]
    split
    · exact ih.trans (List.suffix_cons c t)
    · exact List.suffix_rfl

theorem skipToStop_suffix (stop : UInt8) (l : List UInt8) : (skipToStop stop l).rest <:+ l := by
  induction l with
  | nil => exact List.suffix_rfl
  | cons c t ih =>
    simp only [skipToStop]
    split
    · exact List.suffix_cons c t
    · split
      · exact ih.trans (List.suffix_cons c t)
      · exact List.suffix_cons c t

theorem rgbChannel_suffix (past : Option UInt8) (stop : UInt8) (l : List UInt8) : ∀ buf r,
    rgbChannel past stop buf l = .ok r → r.rest <:+ l := by
  induction l with
  | nil => intro buf r h; simp [rgbChannel] at h; subst h; exact List.suffix_rfl
  | cons c t ih =>
    intro buf r h
    simp only [rgbChannel] at h
    split at h
    · exact (ih _ _ h).trans (List.suffix_cons c t)
    · split at h
      · split at h
        · simp at h
        · simp at h; subst h; exact skipToStop_suffix stop (c :: t)
      · simp at h; subst h; exact List.suffix_cons c t

theorem parseColorRgb_suffix (past : Option UInt8) (l : List UInt8) (r)
    (h : parseColorRgb past l = .ok r) : r.rest <:+ l := by
  simp only [parseColorRgb] at h
  have h0 := consumeWord_suffix b!"gb(" l
  split at h
  · simp at h; subst h; exact h0
  · split at h
    · simp at h
    · rename_i r1 hr1
      have h1 := (rgbChannel_suffix _ _ _ _ _ hr1).trans ((skipSpace_suffix _).trans h0)
      split at h
      · simp at h; subst h; exact h1
      · split at h
        · simp at h
        · rename_i r2 hr2
          have h2 := (rgbChannel_suffix _ _ _ _ _ hr2).trans ((skipSpace_suffix _).trans h1)
          split at h
          · simp at h; subst h; exact h2
          · split at h
            · simp at h
            · rename_i r3 hr3
              have h3 := (rgbChannel_suffix _ _ _ _ _ hr3).trans ((skipSpace_suffix _).trans h2)
              split at h <;> (simp at h; subst h; exact h3)

theorem parseColor_suffix (past : Option UInt8) (l : List UInt8) (r)
    (h : parseColor past l = .ok r) : r.rest <:+ l := by
  simp only [parseColor] at h
  split at h
  · simp at h; subst h; exact (parseColorHex_suffix _ _ _).trans (nextChar_suffix l)
  · split at h
    · exact (parseColorRgb_suffix _ _ _ h).trans (nextChar_suffix l)
    · simp at h; subst h; exact nextChar_suffix l

variable {F : Type _}

theorem parseAttrColor_suffix (env : Env F) (name l : List UInt8) (r)
    (h : parseAttrColor env name l = .ok r) : r.rest <:+ l := by
  simp only [parseAttrColor] at h
  have h0 := consumeWord_suffix name l
  split at h
  · simp at h; subst h; exact h0
  · split at h
    · simp at h
    · rename_i r1 hr1
      have h1 := (parseColor_suffix _ _ _ hr1).trans h0
      split at h
      · simp at h; subst h; exact h1
      · have h2 := (consumeChar_suffix c!"\"" r1.rest).trans h1
        split at h <;> (simp at h; subst h; exact h2)

theorem parseAttrWeight_suffix (name l : List UInt8) (r)
    (h : parseAttrWeight name l = .ok r) : r.rest <:+ l := by
  simp only [parseAttrWeight] at h
  split at h
  · simp at h
  · simp at h; subst h; exact parseAttr_suffix name l

theorem parseFontFace_suffix (env : Env F) (a : FontAttrs F) (l : List UInt8) :
    (parseFontFace env a l).rest <:+ l := by
  simp only [parseFontFace]
  split <;> exact parseAttr_suffix _ l

theorem parseJoins_suffix (s : StrokeState F) (l : List UInt8) : (parseJoins s l).rest <:+ l := by
  simp only [parseJoins]
  have h0 := consumeWord_suffix b!"oins=\"" l
  have h1 := (scanQuote_suffix _).trans h0
  split
  · exact h0
  · split
    · exact h1
    · split
      · exact h1
      · split
        · exact h1
        · split <;> exact h1

theorem nextChar_lt (l : List UInt8) (h : (nextChar l).1 ≠ sentinel) :
    l = (nextChar l).1 :: (nextChar l).2 := by
  cases l with
  | nil => exact absurd rfl h
  | cons c t => rfl

/-! ### words -/

theorem consumeChar_ok (c : UInt8) (t : List UInt8) : consumeChar c (c :: t) = ⟨(), false, t⟩ := by
  simp [consumeChar, nextChar]

theorem consumeChar_inv {c : UInt8} (hc : c ≠ 0xFF) {l : List UInt8}
    (h : (consumeChar c l).err = false) : l = c :: (consumeChar c l).rest := by
  cases l with
  | nil => simp [consumeChar, nextChar, sentinel] at h; exact absurd h.symm hc
  | cons d t =>
    simp [consumeChar, nextChar] at h
    subst h; rfl

theorem consumeWord_ok (w t : List UInt8) : consumeWord w (w ++ t) = ⟨(), false, t⟩ := by
  induction w with
  | nil => rfl
  | cons c w ih => simp [consumeWord, consumeChar_ok, ih]

theorem consumeWord_inv {w : List UInt8} (hw : ∀ c ∈ w, c ≠ 0xFF) : ∀ {l : List UInt8},
    (consumeWord w l).err = false → l = w ++ (consumeWord w l).rest := by
  induction w with
  | nil => intro l _; rfl
  | cons c w ih =>
    intro l h
    simp only [consumeWord] at h ⊢
    split at h
    · rename_i h1; rw [h1] at h; simp at h
    · rename_i h1
      simp only [h1, if_neg, Bool.false_eq_true, if_false, ite_false]
      have h2 := consumeChar_inv (hw c (by simp)) (l := l) (by simpa using h1)
      have h3 := ih (fun d hd => hw d (by simp [hd])) h
      rw [List.cons_append, ← h3]
      exact h2

/-! ### comments -/

theorem commentBody_ok (body t : List UInt8) (hb : ∀ c ∈ body, c ≠ c!"-" ∧ c ≠ 0xFF) :
    commentBody (body ++ b!"-->" ++ t) = ⟨(), false, t⟩ := by
  induction body with
  | nil => simp [commentBody, consumeChar, nextChar, sentinel]
  | cons c b ih =>
    have hc := hb c (by simp)
    have := ih (fun d hd => hb d (by simp [hd]))
    simp only [List.cons_append, commentBody, sentinel, hc.1, hc.2, if_false]
    exact this

theorem commentBody_inv (l : List UInt8) (h : (commentBody l).err = false) :
    ∃ body, (∀ c ∈ body, c ≠ c!"-" ∧ c ≠ 0xFF) ∧ l = body ++ b!"-->" ++ (commentBody l).rest := by
  induction l with
  | nil => simp [commentBody] at h
  | cons c t ih =>
    simp only [commentBody] at h ⊢
    by_cases h1 : c = sentinel
    · simp [h1] at h
    · simp only [h1, if_false] at h ⊢
      by_cases h2 : c = c!"-"
      · simp only [h2, if_true] at h ⊢
        by_cases h3 : (consumeChar c!"-" t).err
        · simp [h3] at h
        · simp only [h3, Bool.false_eq_true, if_false] at h ⊢
          have e1 := consumeChar_inv (c := c!"-") (by decide) (l := t) (by simpa using h3)
          have e2 := consumeChar_inv (c := c!">") (by decide) h
          refine ⟨[], by simp, ?_⟩
          conv => lhs; rw [e1, e2]
          rfl
      · simp only [h2, if_false] at h ⊢
        obtain ⟨body, hb, e⟩ := ih h
        refine ⟨c :: body, ?_, ?_⟩
        · intro d hd
          rcases List.mem_cons.1 hd with rfl | hd
          · exact ⟨h2, h1⟩
          · exact hb d hd
        · simp only [List.cons_append]; rw [← e]

theorem parseComment_ok (body t : List UInt8) (hb : ∀ c ∈ body, c ≠ c!"-" ∧ c ≠ 0xFF) :
    parseComment (b!"--" ++ body ++ b!"-->" ++ t) = ⟨(), false, t⟩ := by
  have := commentBody_ok body t hb
  simp only [List.append_assoc, List.cons_append, List.nil_append] at this ⊢
  simp [parseComment, consumeChar_ok, this]

theorem parseComment_inv (l : List UInt8) (h : (parseComment l).err = false) :
    ∃ body, (∀ c ∈ body, c ≠ c!"-" ∧ c ≠ 0xFF) ∧
      l = b!"--" ++ body ++ b!"-->" ++ (parseComment l).rest := by
  simp only [parseComment] at h ⊢
  by_cases h1 : (consumeChar c!"-" l).err
  · simp [h1] at h
  · simp only [h1, Bool.false_eq_true, if_false] at h ⊢
    have e1 := consumeChar_inv (c := c!"-") (by decide) (l := l) (by simpa using h1)
    by_cases h2 : (consumeChar c!"-" (consumeChar c!"-" l).rest).err
    · simp [h2] at h
    · simp only [h2, Bool.false_eq_true, if_false] at h ⊢
      have e2 := consumeChar_inv (c := c!"-") (by decide) (l := (consumeChar c!"-" l).rest)
        (by simpa using h2)
      obtain ⟨body, hb, e3⟩ := commentBody_inv _ h
      refine ⟨body, hb, ?_⟩
      conv => lhs; rw [e1, e2, e3]
      simp

/-! ### attribute values -/

theorem scanQuote_ok (v t : List UInt8) (hv : Quoted v) :
    scanQuote (v ++ c!"\"" :: t) = ⟨v, false, t⟩ := by
  induction v with
  | nil => simp [scanQuote]
  | cons c v ih =>
    have hc := hv c (by simp)
    have := ih (fun d hd => hv d (by simp [hd]))
    simp only [List.cons_append, scanQuote, hc.1, hc.2, sentinel, if_false, this]
    simp

theorem scanQuote_inv (l : List UInt8) (h : (scanQuote l).err = false) :
    Quoted (scanQuote l).val ∧ l = (scanQuote l).val ++ c!"\"" :: (scanQuote l).rest := by
  induction l with
  | nil => simp [scanQuote] at h
  | cons c t ih =>
    simp only [scanQuote] at h ⊢
    by_cases h1 : c = c!"\""
    · simp [h1, Quoted]
    · simp only [h1, if_false] at h ⊢
      by_cases h2 : c = sentinel
      · simp [h2] at h
      · simp only [h2, if_false] at h ⊢
        obtain ⟨a, b⟩ := ih h
        rw [h]
        simp only [Bool.false_eq_true, if_false]
        refine ⟨?_, by rw [List.cons_append, ← b]⟩
        intro d hd
        rcases List.mem_cons.1 hd with rfl | hd
        · exact ⟨h1, h2⟩
        · exact a d hd

theorem scanQuote_err (l : List UInt8) (h : (scanQuote l).err = true) : (scanQuote l).val = [] := by
  induction l with
  | nil => simp [scanQuote]
  | cons c t ih =>
    simp only [scanQuote] at h ⊢
    by_cases h1 : c = c!"\""
    · simp [h1]
    · simp only [h1, if_false] at h ⊢
      by_cases h2 : c = sentinel
      · simp [h2]
      · simp only [h2, if_false] at h ⊢
        simp [h]

theorem parseAttr_ok (name v t : List UInt8) (hv : Quoted v) :
    parseAttr name (name ++ v ++ c!"\"" :: t) = ⟨v, false, t⟩ := by
  simp [parseAttr, List.append_assoc, consumeWord_ok, scanQuote_ok v t hv]

theorem parseAttr_inv {name : List UInt8} (hn : ∀ c ∈ name, c ≠ 0xFF) {l : List UInt8}
    (h : (parseAttr name l).err = false) :
    Quoted (parseAttr name l).val ∧
      l = name ++ (parseAttr name l).val ++ c!"\"" :: (parseAttr name l).rest := by
  simp only [parseAttr] at h ⊢
  by_cases h1 : (consumeWord name l).err
  · simp [h1] at h
  · simp only [h1, Bool.false_eq_true, if_false] at h ⊢
    have e1 := consumeWord_inv hn (l := l) (by simpa using h1)
    obtain ⟨a, b⟩ := scanQuote_inv _ h
    refine ⟨a, ?_⟩
    conv => lhs; rw [e1, b]
    simp

theorem parseAttr_err (name l : List UInt8) (h : (parseAttr name l).err = true) :
    (parseAttr name l).val = [] := by
  simp only [parseAttr] at h ⊢
  by_cases h1 : (consumeWord name l).err
  · simp [h1]
  · simp only [h1, Bool.false_eq_true, if_false] at h ⊢
    exact scanQuote_err _ h

/-! ### colours -/

theorem hexDigit_lt {c : UInt8} {n : Nat} (h : hexDigit c = some n) : n < 16 := by
  unfold hexDigit at h
  split at h
  · rename_i h1
    simp at h h1
    have : c.toNat ≤ 57 := h1.2
    omega
  · split at h
    · rename_i h1
      simp at h h1
      have : c.toNat ≤ 70 := h1.2
      omega
    · split at h
      · rename_i h1
        simp at h h1
        have : c.toNat ≤ 102 := h1.2
        omega
      · simp at h

theorem hexDigit_iff_aux : ∀ i : Fin 256, ∀ n : Fin 17, (hexDigit (UInt8.ofNat i) = some n.1) ↔
    (n.1 < 16 ∧ (b!"0123456789abcdef"[n.1]? = some (UInt8.ofNat i) ∨
      b!"0123456789ABCDEF"[n.1]? = some (UInt8.ofNat i))) := by decide +kernel

theorem hexDigit_iff (c : UInt8) (n : Nat) : hexDigit c = some n ↔ HexDigit c n := by
  have hc : UInt8.ofNat c.toNat = c := by simp
  have hlt : c.toNat < 256 := c.toNat_lt
  constructor
  · intro h
    have hn := hexDigit_lt h
    have := (hexDigit_iff_aux ⟨c.toNat, hlt⟩ ⟨n, by omega⟩)
    simp only [hc] at this
    exact this.1 h
  · intro h
    have hn := h.1
    have := (hexDigit_iff_aux ⟨c.toNat, hlt⟩ ⟨n, by omega⟩)
    simp only [hc] at this
    exact this.2 h

theorem hexDigit_sentinel : hexDigit sentinel = none := by decide

theorem parseColorHex_step (n acc : Nat) (l : List UInt8)
    (h : (parseColorHex (n + 1) acc l).err = false) :
    ∃ d v t, l = d :: t ∧ hexDigit d = some v ∧
      parseColorHex (n + 1) acc l = parseColorHex n (16 * acc + v) t := by
  cases l with
  | nil => simp [parseColorHex, nextChar, hexDigit_sentinel] at h
  | cons d t =>
    simp only [parseColorHex, nextChar] at h ⊢
    cases hd : hexDigit d with
    | none => simp [hd] at h
    | some v => exact ⟨d, v, t, rfl, hd, rfl⟩

theorem skipSpace_spec (l : List UInt8) :
    ∃ s, Spaces s ∧ l = s ++ skipSpace l ∧ ∀ c t, skipSpace l = c :: t → isSpace c = false := by
  induction l with
  | nil => exact ⟨[], by simp [Spaces], rfl, by simp [skipSpace]⟩
  | cons c t ih =>
    simp only [skipSpace]
    by_cases h : isSpace c
    · obtain ⟨s, h1, h2, h3⟩ := ih
      simp only [h, if_true]
      refine ⟨c :: s, ?_, by rw [List.cons_append, ← h2], h3⟩
      intro d hd
      rcases List.mem_cons.1 hd with rfl | hd
      · simp [isSpace] at h; tauto
      · exact h1 d hd
    · refine ⟨[], by simp [Spaces], by simp [h], ?_⟩
      intro d t' hd
      simp [h] at hd
      rw [← hd.1]; simpa using h

theorem isSpace_of_mem {s : List UInt8} (hs : Spaces s) {c : UInt8} (hc : c ∈ s) : isSpace c = true := by
  have := hs c hc
  simp [isSpace]; tauto

theorem skipSpace_ok (s l : List UInt8) (hs : Spaces s) (hl : ∀ c t, l = c :: t → isSpace c = false) :
    skipSpace (s ++ l) = l := by
  induction s with
  | nil =>
    cases l with
    | nil => rfl
    | cons c t => simp [skipSpace, hl c t rfl]
  | cons c s ih =>
    have := isSpace_of_mem hs (c := c) (by simp)
    simp only [List.cons_append, skipSpace, this, if_true]
    exact ih (fun d hd => hs d (by simp [hd]))

theorem skipToStop_ok (stop : UInt8) (hst : isSpace stop = false) (s t : List UInt8) (hs : Spaces s) :
    skipToStop stop (s ++ stop :: t) = ⟨(), false, t⟩ := by
  induction s with
  | nil => simp [skipToStop]
  | cons c s ih =>
    have hc := isSpace_of_mem hs (c := c) (by simp)
    have hne : c ≠ stop := by rintro rfl; rw [hc] at hst; simp at hst
    simp only [List.cons_append, skipToStop, hne, if_false, hc, if_true]
    exact ih (fun d hd => hs d (by simp [hd]))

theorem skipToStop_inv (stop : UInt8) (l : List UInt8) (h : (skipToStop stop l).err = false) :
    ∃ s, Spaces s ∧ l = s ++ stop :: (skipToStop stop l).rest := by
  induction l with
  | nil => simp [skipToStop] at h
  | cons c t ih =>
    simp only [skipToStop] at h ⊢
    by_cases h1 : c = stop
    · exact ⟨[], by simp [Spaces], by simp [h1]⟩
    · simp only [h1, if_false] at h ⊢
      by_cases h2 : isSpace c
      · simp only [h2, if_true] at h ⊢
        obtain ⟨s, a, b⟩ := ih h
        refine ⟨c :: s, ?_, by rw [List.cons_append, ← b]⟩
        intro d hd
        rcases List.mem_cons.1 hd with rfl | hd
        · simp [isSpace] at h2; tauto
        · exact a d hd
      · simp [h2] at h

def Digits (d : List UInt8) : Prop := ∀ c ∈ d, isDigit c = true

theorem rgbChannel_ok (past : Option UInt8) (stop : UInt8) (h1 : isDigit stop = false)
    (h2 : isSpace stop = false) (d s t : List UInt8) (hs : Spaces s) (hd : Digits d)
    : ∀ (buf : List UInt8) (v : Nat), buf.length + d.length ≤ 3 → rgbValue past (buf ++ d) = .ok v →
    rgbChannel past stop buf (d ++ s ++ stop :: t) = .ok ⟨v, false, t⟩ := by
  induction d with
  | nil =>
    intro buf v hl hv
    simp only [List.nil_append, List.append_nil] at hv ⊢
    cases s with
    | nil =>
      simp only [List.nil_append, rgbChannel, h1, Bool.false_and, Bool.false_eq_true, if_false,
        beq_self_eq_true, Bool.or_true, if_true, hv]
      simp [skipToStop]
    | cons c s =>
      have hc := isSpace_of_mem hs (c := c) (by simp)
      have hnd : isDigit c = false := by
        rcases hs c (by simp) with rfl | rfl | rfl | rfl <;> decide
      have := skipToStop_ok stop h2 (c :: s) t hs
      simp only [List.cons_append] at this ⊢
      simp only [rgbChannel, hnd, Bool.false_and, Bool.false_eq_true, if_false, hc, Bool.true_or,
        if_true, hv, this]
  | cons c d ih =>
    intro buf v hl hv
    have hc := hd c (by simp)
    have hl' : buf.length < 3 := by simp at hl; omega
    simp only [List.cons_append, rgbChannel, hc, hl', decide_true, Bool.and_self, if_true]
    exact ih (fun e he => hd e (by simp [he])) (buf ++ [c]) v (by simp at hl ⊢; omega) (by simpa using hv)

theorem rgbChannel_inv (past : Option UInt8) (stop : UInt8) (l : List UInt8) :
    ∀ (buf : List UInt8) (r : Lex Nat), rgbChannel past stop buf l = .ok r → r.err = false →
    buf.length ≤ 3 →
    ∃ d s, Digits d ∧ Spaces s ∧ buf.length + d.length ≤ 3 ∧ l = d ++ s ++ stop :: r.rest ∧
      rgbValue past (buf ++ d) = .ok r.val := by
  induction l with
  | nil => intro buf r h he; simp [rgbChannel] at h; subst h; simp at he
  | cons c t ih =>
    intro buf r h he hb
    simp only [rgbChannel] at h
    split at h
    · rename_i hc
      simp only [Bool.and_eq_true, decide_eq_true_eq] at hc
      obtain ⟨d, s, h1, h2, h3, h4, h5⟩ := ih _ _ h he (by simp; omega)
      refine ⟨c :: d, s, ?_, h2, by simp at h3 ⊢; omega, by simp [h4], by simpa using h5⟩
      intro e hE
      rcases List.mem_cons.1 hE with rfl | hE
      · exact hc.1
      · exact h1 e hE
    · split at h
      · split at h
        · simp at h
        · rename_i v hv
          simp at h; subst h
          obtain ⟨s, h1, h2⟩ := skipToStop_inv stop (c :: t) he
          exact ⟨[], s, by simp [Digits], h1, by simpa using hb, by simpa using h2, by simpa using hv⟩
      · simp at h; subst h; simp at he

theorem isDigit_iff (c : UInt8) : isDigit c = true ↔ 48 ≤ c ∧ c ≤ 57 := by simp [isDigit]

theorem decimal_foldl (l : List UInt8) : ∀ a : Nat,
    l.foldl (fun n c => 10 * n + (c.toNat - 48)) a = a * 10 ^ l.length + number l := by
  induction l with
  | nil => intro a; simp [number]
  | cons c t ih =>
    intro a
    rw [List.foldl_cons, ih, number, List.length_cons, Nat.pow_succ, Nat.add_mul]
    have : 10 * a * 10 ^ t.length = a * (10 ^ t.length * 10) := by
      rw [Nat.mul_comm 10 a, Nat.mul_assoc, Nat.mul_comm 10]
    omega

theorem decimal_eq (l : List UInt8) : decimal l = number l := by
  rw [decimal, decimal_foldl]; omega

theorem takeWhile_digits {d : List UInt8} (h : Digits d) : d.takeWhile isDigit = d := by
  induction d with
  | nil => rfl
  | cons c d ih =>
    rw [List.takeWhile_cons, if_pos (h c (by simp)), ih (fun e he => h e (by simp [he]))]

theorem takeWhile_split {d t : List UInt8} (hd : Digits d) (ht : ∀ c u, t = c :: u → ¬ Digit c) :
    (d ++ t).takeWhile isDigit = d := by
  induction d with
  | nil =>
    cases t with
    | nil => rfl
    | cons c u =>
      have : isDigit c = false := by
        cases h : isDigit c with
        | false => rfl
        | true => exact absurd ((isDigit_iff c).1 h) (ht c u rfl)
      simp [this]
  | cons c d ih =>
    rw [List.cons_append, List.takeWhile_cons, if_pos (hd c (by simp)),
      ih (fun e he => hd e (by simp [he]))]

theorem fromChars_iff (max : Nat) (v : List UInt8) (n : Nat) :
    fromCharsUnsigned max v = some n ↔ StartsWithNumber max v n := by
  unfold fromCharsUnsigned
  constructor
  · intro h
    by_cases h1 : (v.takeWhile isDigit).isEmpty = true
    · simp [h1] at h
    · simp only [h1, Bool.false_eq_true, if_false] at h
      split at h
      · rename_i h2
        simp only [Option.some.injEq] at h
        refine ⟨v.takeWhile isDigit, v.dropWhile isDigit, (List.takeWhile_append_dropWhile).symm,
          by simpa using h1, ?_, ?_, ?_, ?_⟩
        · intro c hc
          have := List.mem_takeWhile_imp hc
          exact (isDigit_iff c).1 this
        · intro c u hu hd
          have := List.head?_dropWhile_not isDigit v
          rw [hu] at this
          simp at this
          rw [(isDigit_iff c).2 hd] at this
          simp at this
        · rw [← h, decimal_eq]
        · omega
      · simp at h
  · rintro ⟨d, t, rfl, h1, h2, h3, rfl, h5⟩
    have hd : Digits d := fun c hc => (isDigit_iff c).2 (h2 c hc)
    simp only [takeWhile_split hd h3, decimal_eq, h5, if_true]
    cases d with
    | nil => exact absurd rfl h1
    | cons => rfl

theorem StartsWithNumber.inj {max : Nat} {v : List UInt8} {n m : Nat}
    (h : StartsWithNumber max v n) (h' : StartsWithNumber max v m) : n = m := by
  rw [← fromChars_iff] at h h'
  rw [h] at h'
  exact Option.some.inj h'

theorem lowerByte_iff_aux : ∀ i j : Fin 256,
    (((UInt8.ofNat i = UInt8.ofNat j ∧ ¬ (65 ≤ UInt8.ofNat i ∧ UInt8.ofNat i ≤ 90)) ∨
      (65 ≤ UInt8.ofNat i ∧ UInt8.ofNat i ≤ 90 ∧ (UInt8.ofNat j).toNat = (UInt8.ofNat i).toNat + 32)))
    ↔ UInt8.ofNat j = lowerByte (UInt8.ofNat i) := by decide +kernel

theorem lowerByte_iff (c d : UInt8) : Lower c d ↔ d = lowerByte c := by
  have := lowerByte_iff_aux ⟨c.toNat, c.toNat_lt⟩ ⟨d.toNat, d.toNat_lt⟩
  simpa [Lower] using this

theorem lowerByte_zero : ∀ c : UInt8, lowerByte c = 0 → c = 0 := by
  have : ∀ i : Fin 256, lowerByte (UInt8.ofNat i) = 0 → UInt8.ofNat i = 0 := by decide +kernel
  intro c
  have := this ⟨c.toNat, c.toNat_lt⟩
  simpa using this

theorem forall₂_lower (u name : List UInt8) :
    List.Forall₂ Lower u name ↔ name = u.map lowerByte := by
  induction u generalizing name with
  | nil => cases name <;> simp
  | cons c u ih =>
    cases name with
    | nil => simp
    | cons d name => simp [ih, lowerByte_iff]

theorem takeWhile_lower (v : List UInt8) : ∃ u t, v = u ++ t ∧ (t = [] ∨ ∃ t', t = 0 :: t') ∧
    (v.map lowerByte).takeWhile (· != 0) = u.map lowerByte := by
  induction v with
  | nil => exact ⟨[], [], rfl, .inl rfl, rfl⟩
  | cons c v ih =>
    obtain ⟨u, t, h1, h2, h3⟩ := ih
    by_cases hc : lowerByte c = 0
    · refine ⟨[], c :: v, rfl, .inr ⟨v, by rw [lowerByte_zero c hc]⟩, ?_⟩
      simp [hc]
    · refine ⟨c :: u, t, by rw [h1]; rfl, h2, ?_⟩
      simp [hc, h3]

theorem names_nonzero {k : Nat} {name : List UInt8} (h : weights[k]? = some name) :
    ∀ c ∈ name, c ≠ 0 := by
  have : ∀ n ∈ weights, ∀ c ∈ n, c ≠ 0 := by decide
  exact this name (List.mem_of_getElem? h)

theorem takeWhile_lower_of {u t name : List UInt8} (ht : t = [] ∨ ∃ t', t = 0 :: t')
    (hn : name = u.map lowerByte) (hz : ∀ c ∈ name, c ≠ 0) :
    ((u ++ t).map lowerByte).takeWhile (· != 0) = name := by
  subst hn
  have h0 : (t.map lowerByte).takeWhile (· != 0) = [] := by
    rcases ht with rfl | ⟨t', rfl⟩
    · rfl
    · have : lowerByte 0 = 0 := by decide
      simp [this]
  rw [List.map_append, List.takeWhile_append_of_pos, h0, List.append_nil]
  intro c hc
  simpa using hz c hc

theorem weightNames_find (l : List UInt8) (w : BitVec 8) :
    ((weightNames.find? fun p => p.1 == l).map (·.2) = some w) ↔
      ∃ k, k < 9 ∧ weights[k]? = some l ∧ w = BitVec.ofNat 8 k := by
  constructor
  · intro h
    simp only [Option.map_eq_some_iff] at h
    obtain ⟨p, hp, rfl⟩ := h
    have hm := List.mem_of_find?_eq_some hp
    have he := List.find?_some hp
    simp only [beq_iff_eq] at he
    subst he
    have : ∀ p ∈ weightNames, ∃ k : Fin 9, weights[k.1]? = some p.1 ∧ p.2 = BitVec.ofNat 8 k := by
      decide
    obtain ⟨k, h1, h2⟩ := this p hm
    exact ⟨k, k.2, h1, h2⟩
  · rintro ⟨k, hk, hw, rfl⟩
    have : ∀ k : Fin 9, ∀ n, weights[k.1]? = some n →
        ((weightNames.find? fun p => p.1 == n).map (·.2) = some (BitVec.ofNat 8 k)) := by
      intro k n hn
      have hn' : n = (weights[k.1]?).getD [] := by rw [hn]; rfl
      subst hn'
      clear hn
      revert k
      decide
    exact this ⟨k, hk⟩ l hw

theorem weightValue_iff (v : List UInt8) (w : BitVec 8) : weightValue v = some w ↔ WeightText v w := by
  unfold weightValue
  cases hf : fromCharsUnsigned 4294967295 v with
  | some n =>
    have hs := (fromChars_iff _ _ _).1 hf
    simp only
    constructor
    · intro h
      split at h
      · rename_i hc
        simp only [Option.some.injEq] at h
        refine .inl ⟨n / 100, by omega, by omega, ?_, h.symm⟩
        have : 100 * (n / 100) = n := by omega
        rw [this]; exact hs
      · simp at h
    · rintro (⟨k, h1, h2, h3, rfl⟩ | ⟨h, -⟩)
      · have := StartsWithNumber.inj hs h3
        subst this
        rw [if_pos (by omega)]
        have : 100 * k / 100 - 1 = k - 1 := by omega
        rw [this]
      · exact absurd ⟨n, hs⟩ h
  | none =>
    simp only
    have hno : ¬ ∃ n, StartsWithNumber 4294967295 v n := by
      rintro ⟨n, hn⟩
      rw [← fromChars_iff, hf] at hn
      cases hn
    rw [weightNames_find]
    constructor
    · rintro ⟨k, hk, hw, rfl⟩
      obtain ⟨u, t, h1, h2, h3⟩ := takeWhile_lower v
      refine .inr ⟨hno, k, u, t, _, hk, hw, h1, h2, ?_, rfl⟩
      rw [forall₂_lower, h3]
    · rintro (⟨k, -, -, h3, -⟩ | ⟨-, k, u, t, name, hk, hn, rfl, ht, hu, rfl⟩)
      · exact absurd ⟨_, h3⟩ hno
      · refine ⟨k, hk, ?_, rfl⟩
        rw [takeWhile_lower_of ht ((forall₂_lower _ _).1 hu) (names_nonzero hn)]
        exact hn

theorem fromChars_getD {d : List UInt8} (h : Digits d) :
    (fromCharsUnsigned 255 d).getD 0 = if number d ≤ 255 then number d else 0 := by
  unfold fromCharsUnsigned
  simp only [takeWhile_digits h, decimal_eq]
  cases d with
  | nil => simp [number]
  | cons c d => simp only [List.isEmpty_cons, Bool.false_eq_true, if_false]; split <;> rfl

theorem fromChars_getD_append {d : List UInt8} (h : Digits d) (hne : d ≠ []) (b : UInt8) :
    (fromCharsUnsigned 255 (d ++ [b])).getD 0 =
      if 48 ≤ b ∧ b ≤ 57 then (if number (d ++ [b]) ≤ 255 then number (d ++ [b]) else 0)
      else (if number d ≤ 255 then number d else 0) := by
  by_cases hb : isDigit b = true
  · rw [if_pos ((isDigit_iff b).1 hb)]
    apply fromChars_getD
    intro c hc
    rcases List.mem_append.1 hc with hc | hc
    · exact h c hc
    · simp at hc; subst hc; exact hb
  · rw [if_neg (fun hh => hb ((isDigit_iff b).2 hh))]
    unfold fromCharsUnsigned
    have : (d ++ [b]).takeWhile isDigit = d := by
      rw [List.takeWhile_append, takeWhile_digits h]
      simp [hb]
    simp only [this, decimal_eq]
    cases d with
    | nil => exact absurd rfl hne
    | cons c d => simp only [List.isEmpty_cons, Bool.false_eq_true, if_false]; split <;> rfl

theorem rgbValue_iff (env : Env F) (d : List UInt8) (hl : d.length ≤ 3) (hd : Digits d) (n : Nat) :
    rgbValue env.past d = .ok n ↔ ChannelValue env d n := by
  have hsn : ShortNumber d := ⟨hl, fun c hc => (isDigit_iff c).1 (hd c hc)⟩
  unfold rgbValue ChannelValue
  by_cases h3 : d.length < 3
  · simp only [h3, if_true, Except.ok.injEq, fromChars_getD hd]
    constructor
    · intro h; exact ⟨hsn, fun _ => h.symm, fun h => by omega⟩
    · intro h; exact (h.2.1 trivial).symm
  · have h3' : d.length = 3 := by omega
    have hne : d ≠ [] := by rintro rfl; simp at h3'
    simp only [h3, if_false]
    constructor
    · intro h
      refine ⟨hsn, fun h => h.elim, fun _ => ?_⟩
      cases hp : env.past with
      | none => rw [hp] at h; simp at h
      | some b =>
        rw [hp] at h
        simp only [Except.ok.injEq] at h
        rw [fromChars_getD_append hd hne] at h
        exact ⟨b, rfl, h.symm⟩
    · rintro ⟨_, _, h⟩
      obtain ⟨b, hb, hn⟩ := h h3'
      rw [hb]
      simp only [Except.ok.injEq]
      rw [fromChars_getD_append hd hne, hn]

theorem channelValue_le {env : Env F} {d : List UInt8} {n : Nat} (h : ChannelValue env d n) : n ≤ 255 := by
  obtain ⟨⟨hl, _⟩, h1, h2⟩ := h
  by_cases h3 : d.length < 3
  · rw [h1 h3]; split <;> omega
  · obtain ⟨b, _, hn⟩ := h2 (by omega)
    rw [hn]; split <;> split <;> omega

theorem channelValue_digits {env : Env F} {d : List UInt8} {n : Nat} (h : ChannelValue env d n) :
    Digits d := fun c hc => (isDigit_iff c).2 (h.1.2 c hc)

theorem ofRgb_eq (fl : Floats F) (r g b : Nat) (hr : r ≤ 255) (hg : g ≤ 255) (hb : b ≤ 255) :
    fl.ofRgb (r * 65536 + g * 256 + b) = ⟨fl.channel r, fl.channel g, fl.channel b, fl.one⟩ := by
  unfold Floats.ofRgb
  have h1 : (r * 65536 + g * 256 + b) / 65536 = r := by omega
  have h2 : (r * 65536 + g * 256 + b) / 256 % 256 = g := by omega
  have h3 : (r * 65536 + g * 256 + b) % 256 = b := by omega
  rw [h1, h2, h3]

/-- head of `d ++ s ++ stop :: t` after the leading spaces is not a space -/
theorem channel_head {d s t : List UInt8} {stop : UInt8} (hst : isSpace stop = false) (hd : Digits d)
    (he : d = [] → s = []) : ∀ c u, d ++ s ++ stop :: t = c :: u → isSpace c = false := by
  intro c u h
  cases d with
  | nil =>
    rw [he rfl] at h
    simp at h; rw [← h.1]; exact hst
  | cons e d =>
    simp at h
    have := hd e (by simp)
    rw [← h.1]
    rw [isDigit_iff] at this
    have h1 : 48 ≤ e.toNat := this.1
    simp [isSpace]
    refine ⟨⟨⟨?_, ?_⟩, ?_⟩, ?_⟩ <;> (rintro rfl; revert h1; decide)

theorem channel_empty {d s t l : List UInt8} {stop : UInt8} (h : l = d ++ s ++ stop :: t)
    (hs : Spaces s) (hh : ∀ c u, l = c :: u → isSpace c = false) : d = [] → s = [] := by
  rintro rfl
  cases s with
  | nil => rfl
  | cons c s =>
    have h1 := hh c (s ++ stop :: t) (by simpa using h)
    rw [isSpace_of_mem hs (by simp)] at h1
    simp at h1

theorem parseColor_ok (env : Env F) (txt t : List UInt8) (c : Color F) (h : ColorText env txt c) :
    ∃ n, parseColor env.past (txt ++ t) = .ok ⟨n, false, t⟩ ∧ env.ofRgb n = c := by
  cases h with
  | hex d1 d2 d3 d4 d5 d6 n1 n2 n3 n4 n5 n6 h1 h2 h3 h4 h5 h6 =>
    rw [← hexDigit_iff] at h1 h2 h3 h4 h5 h6
    refine ⟨(16 * n1 + n2) * 65536 + (16 * n3 + n4) * 256 + (16 * n5 + n6), ?_, ?_⟩
    · simp [parseColor, nextChar, parseColorHex, h1, h2, h3, h4, h5, h6]; omega
    · have := hexDigit_lt h1; have := hexDigit_lt h2; have := hexDigit_lt h3
      have := hexDigit_lt h4; have := hexDigit_lt h5; have := hexDigit_lt h6
      exact ofRgb_eq _ _ _ _ (by omega) (by omega) (by omega)
  | rgb s1 d1 t1 s2 d2 t2 s3 d3 t3 n1 n2 n3 hs1 ht1 hs2 ht2 hs3 ht3 h1 h2 h3 e1 e2 e3 =>
    refine ⟨n1 * 65536 + n2 * 256 + n3, ?_, ofRgb_eq _ _ _ _ (channelValue_le h1)
      (channelValue_le h2) (channelValue_le h3)⟩
    have v1 := (rgbValue_iff env d1 h1.1.1 (channelValue_digits h1) n1).2 h1
    have v2 := (rgbValue_iff env d2 h2.1.1 (channelValue_digits h2) n2).2 h2
    have v3 := (rgbValue_iff env d3 h3.1.1 (channelValue_digits h3) n3).2 h3
    have hcomma : isSpace c!"," = false := by decide
    have hparen : isSpace c!")" = false := by decide
    have hcomma' : isDigit c!"," = false := by decide
    have hparen' : isDigit c!")" = false := by decide
    have htxt : (b!"rgb(" ++ s1 ++ d1 ++ t1 ++ b!"," ++ s2 ++ d2 ++ t2 ++ b!"," ++ s3 ++ d3 ++ t3
          ++ b!")") ++ t = c!"r" :: (b!"gb(" ++ (s1 ++ (d1 ++ t1 ++ c!"," :: (s2 ++ (d2 ++ t2 ++ c!"," ::
            (s3 ++ (d3 ++ t3 ++ c!")" :: t))))))) := by simp
    rw [htxt]
    have hne : ¬ (c!"r" = c!"#") := by decide
    simp only [parseColor, nextChar, hne, if_false, if_true, parseColorRgb, consumeWord_ok,
      Bool.false_eq_true]
    rw [skipSpace_ok s1 _ hs1 (channel_head hcomma (channelValue_digits h1) e1),
      rgbChannel_ok _ _ hcomma' hcomma d1 t1 _ ht1 (channelValue_digits h1) [] n1
        (by simpa using h1.1.1) (by simpa using v1)]
    simp only [Bool.false_eq_true, if_false]
    rw [skipSpace_ok s2 _ hs2 (channel_head hcomma (channelValue_digits h2) e2),
      rgbChannel_ok _ _ hcomma' hcomma d2 t2 _ ht2 (channelValue_digits h2) [] n2
        (by simpa using h2.1.1) (by simpa using v2)]
    simp only [Bool.false_eq_true, if_false]
    rw [skipSpace_ok s3 _ hs3 (channel_head hparen (channelValue_digits h3) e3),
      rgbChannel_ok _ _ hparen' hparen d3 t3 _ ht3 (channelValue_digits h3) [] n3
        (by simpa using h3.1.1) (by simpa using v3)]
    simp

theorem parseColor_inv (env : Env F) (l : List UInt8) (r : Lex Nat)
    (h : parseColor env.past l = .ok r) (he : r.err = false) :
    ∃ txt, l = txt ++ r.rest ∧ ColorText env txt (env.ofRgb r.val) := by
  cases l with
  | nil =>
    have h1 : ¬ (sentinel = c!"#") := by decide
    have h2 : ¬ (sentinel = c!"r") := by decide
    simp [parseColor, nextChar, h1, h2] at h; subst h; simp at he
  | cons c l =>
    simp only [parseColor, nextChar] at h
    by_cases h1 : c = c!"#"
    · simp only [h1, if_true, Except.ok.injEq] at h
      subst h
      obtain ⟨d1, v1, l1, e1, x1, q1⟩ := parseColorHex_step 5 _ _ he
      rw [q1] at he
      obtain ⟨d2, v2, l2, e2, x2, q2⟩ := parseColorHex_step 4 _ _ he
      rw [q2] at he
      obtain ⟨d3, v3, l3, e3, x3, q3⟩ := parseColorHex_step 3 _ _ he
      rw [q3] at he
      obtain ⟨d4, v4, l4, e4, x4, q4⟩ := parseColorHex_step 2 _ _ he
      rw [q4] at he
      obtain ⟨d5, v5, l5, e5, x5, q5⟩ := parseColorHex_step 1 _ _ he
      rw [q5] at he
      obtain ⟨d6, v6, l6, e6, x6, q6⟩ := parseColorHex_step 0 _ _ he
      rw [q1, q2, q3, q4, q5, q6]
      refine ⟨c!"#" :: [d1, d2, d3, d4, d5, d6], ?_, ?_⟩
      · simp [parseColorHex, h1, e1, e2, e3, e4, e5, e6]
      · have := hexDigit_lt x1; have := hexDigit_lt x2; have := hexDigit_lt x3
        have := hexDigit_lt x4; have := hexDigit_lt x5; have := hexDigit_lt x6
        have hval : (parseColorHex 0 (16 * (16 * (16 * (16 * (16 * (16 * 0 + v1) + v2) + v3) + v4) + v5) + v6) l6).val
            = (16 * v1 + v2) * 65536 + (16 * v3 + v4) * 256 + (16 * v5 + v6) := by
          simp [parseColorHex]; omega
        rw [hval, ofRgb_eq _ _ _ _ (by omega) (by omega) (by omega)]
        rw [hexDigit_iff] at x1 x2 x3 x4 x5 x6
        exact .hex _ _ _ _ _ _ _ _ _ _ _ _ x1 x2 x3 x4 x5 x6
    · simp only [h1, if_false] at h
      by_cases h2 : c = c!"r"
      · simp only [h2, if_true, parseColorRgb] at h
        by_cases hw : (consumeWord b!"gb(" l).err
        · simp [hw] at h; subst h; simp at he
        · simp only [hw, Bool.false_eq_true, if_false] at h
          have ew := consumeWord_inv (w := b!"gb(") (by decide) (l := l) (by simpa using hw)
          generalize (consumeWord b!"gb(" l).rest = l0 at h ew
          obtain ⟨s1, hs1, es1, hh1⟩ := skipSpace_spec l0
          split at h
          · simp at h
          · rename_i r1 hr1
            by_cases hr1e : r1.err
            · simp [hr1e] at h; subst h; simp at he
            · simp only [hr1e, Bool.false_eq_true, if_false] at h
              obtain ⟨d1, t1, hd1, ht1, hl1, hx1, hv1⟩ := rgbChannel_inv _ _ _ _ _ hr1
                (by simpa using hr1e) (by simp)
              obtain ⟨s2, hs2, es2, hh2⟩ := skipSpace_spec r1.rest
              split at h
              · simp at h
              · rename_i r2 hr2
                by_cases hr2e : r2.err
                · simp [hr2e] at h; subst h; simp at he
                · simp only [hr2e, Bool.false_eq_true, if_false] at h
                  obtain ⟨d2, t2, hd2, ht2, hl2, hx2, hv2⟩ := rgbChannel_inv _ _ _ _ _ hr2
                    (by simpa using hr2e) (by simp)
                  obtain ⟨s3, hs3, es3, hh3⟩ := skipSpace_spec r2.rest
                  split at h
                  · simp at h
                  · rename_i r3 hr3
                    by_cases hr3e : r3.err
                    · simp [hr3e] at h; subst h; simp at he
                    · simp only [hr3e, Bool.false_eq_true, if_false, Except.ok.injEq] at h
                      obtain ⟨d3, t3, hd3, ht3, hl3, hx3, hv3⟩ := rgbChannel_inv _ _ _ _ _ hr3
                        (by simpa using hr3e) (by simp)
                      subst h
                      simp only [List.nil_append] at hv1 hv2 hv3
                      simp only [List.length_nil, Nat.zero_add] at hl1 hl2 hl3
                      have c1 := (rgbValue_iff env d1 hl1 hd1 _).1 hv1
                      have c2 := (rgbValue_iff env d2 hl2 hd2 _).1 hv2
                      have c3 := (rgbValue_iff env d3 hl3 hd3 _).1 hv3
                      refine ⟨b!"rgb(" ++ s1 ++ d1 ++ t1 ++ b!"," ++ s2 ++ d2 ++ t2 ++ b!"," ++ s3 ++ d3 ++ t3
                        ++ b!")", ?_, ?_⟩
                      · rw [h2, ew, es1, hx1, es2, hx2, es3, hx3]; simp
                      · rw [ofRgb_eq _ _ _ _ (channelValue_le c1) (channelValue_le c2)
                          (channelValue_le c3)]
                        exact .rgb s1 d1 t1 s2 d2 t2 s3 d3 t3 _ _ _ hs1 ht1 hs2 ht2 hs3 ht3 c1 c2 c3
                          (channel_empty hx1 ht1 hh1) (channel_empty hx2 ht2 hh2)
                          (channel_empty hx3 ht3 hh3)
      · simp [h2] at h; subst h; simp at he

theorem parseAttrColor_ok (env : Env F) (name txt t : List UInt8) (c : Color F)
    (h : ColorText env txt c) :
    parseAttrColor env name (name ++ txt ++ c!"\"" :: t) = .ok ⟨some c, false, t⟩ := by
  obtain ⟨n, h1, h2⟩ := parseColor_ok env txt (c!"\"" :: t) c h
  simp [parseAttrColor, List.append_assoc, consumeWord_ok, h1, consumeChar_ok, h2]

theorem parseAttrColor_inv (env : Env F) {name : List UInt8} (hn : ∀ c ∈ name, c ≠ 0xFF)
    (l : List UInt8) (r) (h : parseAttrColor env name l = .ok r) (he : r.err = false) :
    ∃ txt c, l = name ++ txt ++ c!"\"" :: r.rest ∧ ColorText env txt c ∧ r.val = some c := by
  simp only [parseAttrColor] at h
  by_cases h1 : (consumeWord name l).err
  · simp [h1] at h; subst h; simp at he
  · simp only [h1, Bool.false_eq_true, if_false] at h
    have e1 := consumeWord_inv hn (l := l) (by simpa using h1)
    split at h
    · simp at h
    · rename_i r1 hr1
      by_cases h2 : r1.err
      · simp [h2] at h; subst h; simp at he
      · simp only [h2, Bool.false_eq_true, if_false] at h
        obtain ⟨txt, ht, hc⟩ := parseColor_inv env _ _ hr1 (by simpa using h2)
        by_cases h3 : (consumeChar c!"\"" r1.rest).err
        · simp [h3] at h; subst h; simp at he
        · simp only [h3, Bool.false_eq_true, if_false, Except.ok.injEq] at h
          have e3 := consumeChar_inv (c := c!"\"") (by decide) (l := r1.rest) (by simpa using h3)
          subst h
          refine ⟨txt, _, ?_, hc, rfl⟩
          conv => lhs; rw [e1, ht, e3]
          simp

end RichText
