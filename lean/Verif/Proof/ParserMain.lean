import Verif.Proof.Parser
/-! The markup parser: tags, content, the whole text. -/
namespace RichText
open Spec

variable {F : Type _} {s s1 : PState F} {outs o : List (UInt8 × Style F)} {st st' : Style F}
  {kt kt' : Tails F} {env : Env F} {content : ContentFn F} {n : Nat}

/-! ### `<su...` -/

theorem parseSuTag_sound (hg : Good env content n) {r0 : List UInt8} (h : Inv s outs st kt)
    (hc : Canon st.font) (hr0 : r0 = b!"<su" ++ s.rest) (hn : s.rest.length < n) :
    TagOut env r0 s.error outs st kt (parseSuTag content s) := by
  have hsuf0 : s.rest <:+ r0 := by rw [hr0]; exact List.suffix_append _ _
  have hl0 : s.rest.length < r0.length := by rw [hr0]; simp; omega
  have hu := nextChar_suffix s.rest
  have hd := nextChar_lt s.rest
  simp only [parseSuTag]
  generalize (nextChar s.rest).1 = c at hd ⊢
  generalize (nextChar s.rest).2 = t at hd hu ⊢
  have hul := hu.length_le
  by_cases hb : c = c!"b"
  · simp only [hb, if_true]
    rw [hb] at hd
    have e0 := hd (by decide)
    have hsuf := consumeChar_suffix c!">" t
    have hle := hsuf.length_le
    by_cases he : (consumeChar c!">" t).err
    · simp only [he, if_true]
      exact tagOut_err (h.reread _ _) ((hsuf.trans hu).trans hsuf0) (by simp only []; omega) (by simp)
    · simp only [he, Bool.false_eq_true, if_false, Bool.or_false]
      have e1 := consumeChar_inv (c := c!">") (by decide) (l := t) (by simpa using he)
      refine boolTag_sound hg (name := b!"sub") .subscript (by decide) (h.reread _ _) hc
        ((hsuf.trans hu).trans hsuf0) (by simp only []; omega) (by simp only []; omega)
        (fun e => ⟨e, _, ?_, .sub⟩)
      rw [hr0, e0]; conv => lhs; rw [e1]
      simp
  · simp only [hb, if_false]
    by_cases hp : c = c!"p"
    · simp only [hp, if_true]
      rw [hp] at hd
      have e0 := hd (by decide)
      have hsuf := consumeWord_suffix b!"er>" t
      have hle := hsuf.length_le
      by_cases he : (consumeWord b!"er>" t).err
      · simp only [he, if_true]
        exact tagOut_err (h.reread _ _) ((hsuf.trans hu).trans hsuf0) (by simp only []; omega) (by simp)
      · simp only [he, Bool.false_eq_true, if_false, Bool.or_false]
        have e1 := consumeWord_inv (w := b!"er>") (by decide) (l := t) (by simpa using he)
        refine boolTag_sound hg (name := b!"super") .superscript (by decide) (h.reread _ _) hc
          ((hsuf.trans hu).trans hsuf0) (by simp only []; omega) (by simp only []; omega)
          (fun e => ⟨e, _, ?_, .super⟩)
        rw [hr0, e0]; conv => lhs; rw [e1]
        simp
    · simp only [hp, if_false]
      exact tagOut_err (h.reread _ _) (hu.trans hsuf0) (by simp only []; omega) rfl

/-! ### small caps -/

theorem parseSmallcaps_sound (hg : Good env content n) {r0 pre : List UInt8} (name : List UInt8)
    (hname : ∀ c ∈ name, c ≠ 0xFF) (hlen : 2 ≤ (name ++ b!">").length) (h : Inv s outs st kt)
    (hc : Canon st.font) (hs : s.rest <:+ r0) (hl : s.rest.length < r0.length) (hn : s.rest.length < n)
    (hr0 : r0 = pre ++ s.rest)
    (ht : Tag env st (pre ++ (name ++ b!">").drop 2) (st.on .smallcaps) name) :
    TagOut env r0 s.error outs st kt (parseSmallcaps content (name ++ b!">") s) := by
  have hsuf := consumeWord_suffix ((name ++ b!">").drop 2) s.rest
  have hle := hsuf.length_le
  simp only [parseSmallcaps]
  by_cases he : (consumeWord ((name ++ b!">").drop 2) s.rest).err
  · simp only [he, if_true]
    exact tagOut_err (h.reread _ _) (hsuf.trans hs) (by simp only []; omega) (by simp)
  · simp only [he, Bool.false_eq_true, if_false, Bool.or_false]
    have e1 := consumeWord_inv (w := (name ++ b!">").drop 2) (by
      intro c hc
      rcases List.mem_append.1 (List.mem_of_mem_drop hc) with hc | hc
      · exact hname c hc
      · simp at hc; subst hc; decide) (l := s.rest) (by simpa using he)
    refine boolTag_sound hg .smallcaps hname (h.reread _ _) hc
      (hsuf.trans hs) (by simp only []; omega) (by simp only []; omega)
      (fun e => ⟨e, _, ?_, ht⟩)
    rw [hr0]; conv => lhs; rw [e1]
    simp only [List.append_assoc]

/-! ### `<s...` -/

theorem parseSTag_sound (hg : Good env content n) {r0 : List UInt8} (h : Inv s outs st kt)
    (hc : Canon st.font) (hr0 : r0 = b!"<s" ++ s.rest) (hn : s.rest.length < n) :
    TagOut env r0 s.error outs st kt (parseSTag env content s) := by
  have hsuf0 : s.rest <:+ r0 := by rw [hr0]; exact List.suffix_append _ _
  have hl0 : s.rest.length < r0.length := by rw [hr0]; simp; omega
  have hu := nextChar_suffix s.rest
  have hd := nextChar_lt s.rest
  simp only [parseSTag]
  generalize (nextChar s.rest).1 = c at hd ⊢
  generalize (nextChar s.rest).2 = t at hd hu ⊢
  have hul := hu.length_le
  have h' := h.rerest t
  by_cases h1 : c = c!">"
  · simp only [h1, if_true]
    rw [h1] at hd
    have e0 := hd (by decide)
    exact boolTag_sound hg (name := b!"s") .strikethrough (by decide) h' hc
        (hu.trans hsuf0) (by simp only []; omega) (by simp only []; omega)
        (fun e => ⟨e, _, by rw [hr0, e0]; rfl, .s⟩)
  · simp only [h1, if_false]
    by_cases h2 : c = c!"c"
    · simp only [h2, if_true]
      rw [h2] at hd
      have e0 := hd (by decide)
      exact parseSmallcaps_sound hg b!"sc" (pre := b!"<sc") (by decide) (by decide) h' hc
        (hu.trans hsuf0) (by simp only []; omega) (by simp only []; omega) (by rw [hr0, e0]; rfl) .sc
    · simp only [h2, if_false]
      by_cases h3 : c = c!"m"
      · simp only [h3, if_true]
        rw [h3] at hd
        have e0 := hd (by decide)
        exact parseSmallcaps_sound hg b!"smallcaps" (pre := b!"<sm") (by decide) (by decide) h' hc
          (hu.trans hsuf0) (by simp only []; omega) (by simp only []; omega) (by rw [hr0, e0]; rfl) .smallcaps
      · simp only [h3, if_false]
        by_cases h4 : c = c!"t"
        · simp only [h4, if_true]
          rw [h4] at hd
          have e0 := hd (by decide)
          exact parseStroke_sound hg h' hc (by rw [hr0, e0]; rfl) (by simp only []; omega)
        · simp only [h4, if_false]
          by_cases h5 : c = c!"u"
          · simp only [h5, if_true]
            rw [h5] at hd
            have e0 := hd (by decide)
            exact parseSuTag_sound hg h' hc (by rw [hr0, e0]; rfl) (by simp only []; omega)
          · simp only [h5, if_false]
            exact tagOut_err (h.reread _ _) (hu.trans hsuf0) (by simp only []; omega) rfl

/-! ### `<u...` -/

theorem parseUTag_sound (hg : Good env content n) {r0 : List UInt8} (h : Inv s outs st kt)
    (hc : Canon st.font) (hr0 : r0 = b!"<u" ++ s.rest) (hn : s.rest.length < n) :
    TagOut env r0 s.error outs st kt (parseUTag content s) := by
  have hsuf0 : s.rest <:+ r0 := by rw [hr0]; exact List.suffix_append _ _
  have hl0 : s.rest.length < r0.length := by rw [hr0]; simp; omega
  have hu := nextChar_suffix s.rest
  have hd := nextChar_lt s.rest
  simp only [parseUTag]
  generalize (nextChar s.rest).1 = c at hd ⊢
  generalize (nextChar s.rest).2 = t at hd hu ⊢
  have hul := hu.length_le
  by_cases h1 : c = c!">"
  · simp only [h1, if_true]
    rw [h1] at hd
    have e0 := hd (by decide)
    exact boolTag_sound hg (name := b!"u") .underline (by decide) (h.rerest t) hc
        (hu.trans hsuf0) (by simp only []; omega) (by simp only []; omega)
        (fun e => ⟨e, _, by rw [hr0, e0]; rfl, .u⟩)
  · simp only [h1, if_false]
    by_cases h2 : c = c!"c"
    · simp only [h2, if_true]
      rw [h2] at hd
      have e0 := hd (by decide)
      have hsuf := consumeChar_suffix c!">" t
      have hle := hsuf.length_le
      refine tagOut_void (m := b!"<uc>") (h.reread _ _) ((hsuf.trans hu).trans hsuf0)
        (by simp only []; omega) ?_
      intro e
      simp only [Bool.or_eq_false_iff] at e
      have e1 := consumeChar_inv (c := c!">") (by decide) (l := t) e.2
      refine ⟨e.1, ?_, fun m2 o2 h => .uc h⟩
      rw [hr0, e0]; conv => lhs; rw [e1]
      simp
    · simp only [h2, if_false]
      by_cases h3 : c = c!"p"
      · simp only [h3, if_true]
        rw [h3] at hd
        have e0 := hd (by decide)
        have hsuf := consumeWord_suffix b!"percase>" t
        have hle := hsuf.length_le
        refine tagOut_void (m := b!"<uppercase>") (h.reread _ _) ((hsuf.trans hu).trans hsuf0)
          (by simp only []; omega) ?_
        intro e
        simp only [Bool.or_eq_false_iff] at e
        have e1 := consumeWord_inv (w := b!"percase>") (by decide) (l := t) e.2
        refine ⟨e.1, ?_, fun m2 o2 h => .uppercase h⟩
        rw [hr0, e0]; conv => lhs; rw [e1]
        simp
      · simp only [h3, if_false]
        exact tagOut_err (h.reread _ _) (hu.trans hsuf0) (by simp only []; omega) rfl

/-! ### after `<` -/

/-- Outcome of `parse_open_bracket`. -/
def OpenOut (env : Env F) (close r0 : List UInt8) (e0 : Bool) (outs : List (UInt8 × Style F))
    (st : Style F) (kt : Tails F) (res : Except Fault (PState F × Bool)) : Prop :=
  (∃ s', res = .ok (s', true) ∧ Inv s' outs st kt ∧ s'.rest <:+ r0 ∧ s'.rest.length < r0.length ∧
    (s'.error = false → e0 = false ∧ close ≠ [] ∧ r0 = b!"</" ++ close ++ s'.rest)) ∨
  (∃ s' o, res = .ok (s', false) ∧ Inv s' (outs ++ o) st kt ∧ s'.rest <:+ r0 ∧
    s'.rest.length < r0.length ∧
    (s'.error = false → e0 = false ∧ ∃ m, r0 = m ++ s'.rest ∧ Item env st m o)) ∨
  (res = .error .overrun ∧ ¬ Safe env r0)

theorem TagOut.toOpen {close r0 : List UInt8} {e0 : Bool} {res : Except Fault (PState F)}
    (h : TagOut env r0 e0 outs st kt res) :
    OpenOut env close r0 e0 outs st kt (res.map (·, false)) := by
  rcases h with ⟨s', o, h1, h2⟩ | ⟨h1, h2⟩
  · exact .inr (.inl ⟨s', o, by rw [h1]; rfl, h2⟩)
  · exact .inr (.inr ⟨by rw [h1]; rfl, h2⟩)

theorem parseOpenBracket_sound (hg : Good env content n) {r0 close : List UInt8}
    (hclose : ∀ c ∈ close, c ≠ 0xFF) (h : Inv s outs st kt)
    (hc : Canon st.font) (hr0 : r0 = b!"<" ++ s.rest) (hn : s.rest.length < n) :
    OpenOut env close r0 s.error outs st kt (parseOpenBracket env content close s) := by
  have hsuf0 : s.rest <:+ r0 := by rw [hr0]; exact List.suffix_append _ _
  have hl0 : s.rest.length < r0.length := by rw [hr0]; simp
  have hu := nextChar_suffix s.rest
  have hd := nextChar_lt s.rest
  simp only [parseOpenBracket]
  generalize (nextChar s.rest).1 = c at hd ⊢
  generalize (nextChar s.rest).2 = t at hd hu ⊢
  have hul := hu.length_le
  have h' := h.rerest t
  by_cases h1 : c = c!"!"
  · simp only [h1, if_true]
    rw [h1] at hd
    have e0 := hd (by decide)
    have hsuf := parseComment_suffix t
    have hle := hsuf.length_le
    refine .inr (.inl ⟨_, [], rfl, by simpa using h.reread _ _, (hsuf.trans hu).trans hsuf0,
      by simp only []; omega, fun e => ?_⟩)
    simp only [Bool.or_eq_false_iff] at e
    obtain ⟨body, hb, e1⟩ := parseComment_inv t e.2
    refine ⟨e.1, b!"<!--" ++ body ++ b!"-->", ?_, fun m2 o2 h => .comment body hb h⟩
    rw [hr0, e0]; conv => lhs; rw [e1]
    simp
  · simp only [h1, if_false]
    by_cases h2 : c = c!"/"
    · simp only [h2, if_true]
      rw [h2] at hd
      have e0 := hd (by decide)
      cases hcl : close.isEmpty with
      | true =>
        simp only [if_true]
        exact .inl ⟨_, rfl, h.reread _ _, hu.trans hsuf0, by simp only []; omega, by simp⟩
      | false =>
        simp only [Bool.false_eq_true, if_false]
        have hsuf := consumeWord_suffix close t
        have hle := hsuf.length_le
        refine .inl ⟨_, rfl, h.reread _ _, (hsuf.trans hu).trans hsuf0, by simp only []; omega,
          fun e => ?_⟩
        simp only [Bool.or_eq_false_iff] at e
        have e1 := consumeWord_inv hclose (l := t) e.2
        refine ⟨e.1, by rintro rfl; simp at hcl, ?_⟩
        rw [hr0, e0]; conv => lhs; rw [e1]
        simp
    · simp only [h2, if_false]
      by_cases h3 : c = c!"f"
      · simp only [h3, if_true]
        rw [h3] at hd
        have e0 := hd (by decide)
        exact (parseFont_sound hg h' hc (by rw [hr0, e0]; rfl) (by simp only []; omega)).toOpen
      · simp only [h3, if_false]
        by_cases h4 : c = c!"i"
        · simp only [h4, if_true]
          rw [h4] at hd
          have e0 := hd (by decide)
          exact (parseItalic_sound hg h' hc (by rw [hr0, e0]; rfl) (by simp only []; omega)).toOpen
        · simp only [h4, if_false]
          by_cases h5 : c = c!"s"
          · simp only [h5, if_true]
            rw [h5] at hd
            have e0 := hd (by decide)
            exact (parseSTag_sound hg h' hc (by rw [hr0, e0]; rfl) (by simp only []; omega)).toOpen
          · simp only [h5, if_false]
            by_cases h6 : c = c!"u"
            · simp only [h6, if_true]
              rw [h6] at hd
              have e0 := hd (by decide)
              exact (parseUTag_sound hg h' hc (by rw [hr0, e0]; rfl) (by simp only []; omega)).toOpen
            · simp only [h6, if_false]
              exact .inl ⟨_, rfl, h.reread _ _, hu.trans hsuf0, by simp only []; omega, by simp⟩

/-! ### one iteration of `parse_content` -/

/-- One iteration: end of the text, return, one piece of markup, or an overrun. -/
theorem parseContent_step (hg : Good env (parseContent env n) n) {close : List UInt8}
    (hclose : ∀ c ∈ close, c ≠ 0xFF) (h : Inv s outs st kt) (hc : Canon st.font)
    (hn : s.rest.length < n + 1) :
    (∃ t, (s.rest = [] ∧ t = [] ∨ s.rest = 0xFF :: t) ∧ parseContent env (n + 1) close s =
      if close.isEmpty then finalizeRuns { s with rest := t } else .ok { s with rest := t, error := true }) ∨
    (∃ s', parseContent env (n + 1) close s = .ok s' ∧ Inv s' outs st kt ∧ s'.rest <:+ s.rest ∧
      (s'.error = false → s.error = false ∧ close ≠ [] ∧ s.rest = b!"</" ++ close ++ s'.rest)) ∨
    (∃ s' o, parseContent env (n + 1) close s = (if s'.error then .ok s' else parseContent env n close s') ∧
      Inv s' (outs ++ o) st kt ∧ s'.rest <:+ s.rest ∧ s'.rest.length < n ∧
      (s'.error = false → s.error = false ∧ ∃ m, s.rest = m ++ s'.rest ∧ Item env st m o)) ∨
    (parseContent env (n + 1) close s = .error .overrun ∧ ¬ Safe env s.rest) := by
  cases hr : s.rest with
  | nil =>
    left
    refine ⟨[], .inl ⟨rfl, rfl⟩, ?_⟩
    simp only [parseContent, hr, nextChar, if_true]
  | cons c t =>
    rw [hr] at hn
    simp only [List.length_cons] at hn
    by_cases h1 : c = 0xFF
    · left
      refine ⟨t, .inr (by rw [h1]), ?_⟩
      simp only [parseContent, hr, nextChar, h1, sentinel, if_true]
    · right
      have hnc : nextChar (c :: t) = (c, t) := rfl
      by_cases h2 : c = c!"<"
      · have := parseOpenBracket_sound hg (r0 := c :: t) (s := { s with rest := t }) hclose
          (h.rerest t) hc (by rw [h2]; rfl) (by simp only []; omega)
        have h2' : ¬ (c!"<" = sentinel) := by decide
        have hpc : parseContent env (n + 1) close s =
            match parseOpenBracket env (parseContent env n) close { s with rest := t } with
            | .error e => .error e
            | .ok (s, true) => .ok s
            | .ok (s, false) => if s.error then .ok s else parseContent env n close s := by
          simp only [parseContent, hr, hnc, h2, h2', if_false, if_true]
          rfl
        rw [hpc]
        rcases this with ⟨s', g1, g2, g3, g4, g5⟩ | ⟨s', o, g1, g2, g3, g4, g5⟩ | ⟨g1, g2⟩
        · left
          exact ⟨s', by rw [g1], g2, g3, g5⟩
        · right; left
          refine ⟨s', o, by rw [g1], g2, g3, ?_, g5⟩
          simp at g4; omega
        · right; right
          exact ⟨by rw [g1], g2⟩
      · right; left
        refine ⟨{ s with rest := t, out := s.out ++ [c] }, [(c, st)], ?_, (h.rerest t).emit c,
          List.suffix_cons c t, by simp only []; omega, fun e => ⟨e, [c], rfl, fun m2 o2 h => .char c h2 h1 h⟩⟩
        have h1' : ¬ (c = sentinel) := h1
        simp only [parseContent, hr, hnc, h1', h2, if_false]

theorem good_parseContent (env : Env F) : ∀ n, Good env (parseContent env n) n := by
  intro n
  induction n with
  | zero => intro close s outs st kt _ _ _ _ h; omega
  | succ n ih =>
    intro close s outs st kt hne hclose h hc hn
    have hemp : close.isEmpty = false := by cases close with | nil => exact absurd rfl hne | cons => rfl
    rcases parseContent_step ih hclose h hc hn with
      ⟨t, ht, g1⟩ | ⟨s', g1, g2, g3, g4⟩ | ⟨s', o, g1, g2, g3, g4, g5⟩ | g
    · left
      rw [hemp] at g1
      refine ⟨_, [], by rw [g1]; rfl, by simpa using h.reread _ _, ?_, by simp⟩
      rcases ht with ⟨h1, rfl⟩ | h1
      · rw [h1]; exact List.suffix_rfl
      · rw [h1]; exact List.suffix_cons _ _
    · left
      refine ⟨s', [], g1, by simpa using g2, g3, fun e => ?_⟩
      obtain ⟨e0, _, e1⟩ := g4 e
      exact ⟨e0, [], by simpa using e1, .nil st⟩
    · cases he : s'.error with
      | true =>
        left
        rw [he] at g1
        exact ⟨s', o, by rw [g1]; rfl, g2, g3, by simp [he]⟩
      | false =>
        rw [he] at g1
        simp only [Bool.false_eq_true, if_false] at g1
        obtain ⟨e0, m, em, hm⟩ := g5 he
        rcases ih close s' (outs ++ o) st kt hne hclose g2 hc g4 with
          ⟨s2, o2, k1, k2, k3, k4⟩ | ⟨k1, k2⟩
        · left
          refine ⟨s2, o ++ o2, by rw [g1, k1], by rw [← List.append_assoc]; exact k2, k3.trans g3,
            fun e => ?_⟩
          obtain ⟨_, m2, em2, hm2⟩ := k4 e
          exact ⟨e0, m ++ m2, by rw [em, em2]; simp, hm m2 o2 hm2⟩
        · right
          exact ⟨by rw [g1, k1], fun hs => k2 (hs.suffix g3)⟩
    · exact .inr g

/-! ### well-formed text is accepted -/

theorem open_complete (hg : Good2 env content n) {op name inner tail close : List UInt8}
    (ht : Tag env st op st' name) (h : Inv s outs st kt) (hc : Canon st.font) (hn : s.rest.length < n)
    (he : s.error = false) (hr : b!"<" ++ s.rest = op ++ (inner ++ b!"</" ++ name ++ b!">" ++ tail))
    (hm : Content env st' inner o) :
    ∃ s', parseOpenBracket env content close s = .ok (s', false) ∧ Inv s' (outs ++ o) st kt ∧
      s'.rest = tail ∧ s'.error = false := by
  have fin : ∀ {res : Except Fault (PState F)},
      (∃ s', res = .ok s' ∧ Inv s' (outs ++ o) st kt ∧ s'.rest = tail ∧ s'.error = false) →
      ∃ s', res.map (·, false) = .ok (s', false) ∧ Inv s' (outs ++ o) st kt ∧ s'.rest = tail ∧
        s'.error = false := by
    rintro res ⟨s', h1, h2⟩
    exact ⟨s', by rw [h1]; rfl, h2⟩
  cases ht with
  | s =>
    have hr' : s.rest = c!"s" :: c!">" :: (inner ++ b!"</" ++ b!"s" ++ b!">" ++ tail) := by
      simpa using hr
    rw [hr'] at hn
    simp only [parseOpenBracket, hr', nextChar]
    refine fin ?_
    simp only [parseSTag, nextChar, if_true]
    exact boolTag_complete hg (name := b!"s") .strikethrough (h.rerest _) hc
      (by simp at hn ⊢; omega) he rfl hm
  | u =>
    have hr' : s.rest = c!"u" :: c!">" :: (inner ++ b!"</" ++ b!"u" ++ b!">" ++ tail) := by
      simpa using hr
    rw [hr'] at hn
    simp only [parseOpenBracket, hr', nextChar]
    refine fin ?_
    simp only [parseUTag, nextChar, if_true]
    exact boolTag_complete hg (name := b!"u") .underline (h.rerest _) hc
      (by simp at hn ⊢; omega) he rfl hm
  | sc =>
    have hr' : s.rest = c!"s" :: c!"c" :: (b!">" ++ (inner ++ b!"</" ++ b!"sc" ++ b!">" ++ tail)) := by
      simpa using hr
    rw [hr'] at hn
    simp only [parseOpenBracket, hr', nextChar]
    refine fin ?_
    have hne : ¬ (c!"c" = c!">") := by decide
    simp only [parseSTag, nextChar, hne, if_true, if_false, parseSmallcaps, List.drop_succ_cons, List.drop_zero,
      consumeWord_ok, Bool.or_false, Bool.false_eq_true]
    exact boolTag_complete hg (name := b!"sc") .smallcaps (h.reread _ _) hc
      (by simp at hn ⊢; omega) he rfl hm
  | smallcaps =>
    have hr' : s.rest = c!"s" :: c!"m" ::
        (b!"allcaps>" ++ (inner ++ b!"</" ++ b!"smallcaps" ++ b!">" ++ tail)) := by
      simpa using hr
    rw [hr'] at hn
    simp only [parseOpenBracket, hr', nextChar]
    refine fin ?_
    have hne : ¬ (c!"m" = c!">") := by decide
    have hne2 : ¬ (c!"m" = c!"c") := by decide
    simp only [parseSTag, nextChar, hne, hne2, if_true, if_false, parseSmallcaps, List.drop_succ_cons,
      List.drop_zero, consumeWord_ok, Bool.or_false, Bool.false_eq_true]
    exact boolTag_complete hg (name := b!"smallcaps") .smallcaps (h.reread _ _) hc
      (by simp at hn ⊢; omega) he rfl hm
  | sub =>
    have hr' : s.rest = c!"s" :: c!"u" :: c!"b" :: c!">" ::
        (inner ++ b!"</" ++ b!"sub" ++ b!">" ++ tail) := by
      simpa using hr
    rw [hr'] at hn
    simp only [parseOpenBracket, hr', nextChar]
    refine fin ?_
    have h1 : ¬ (c!"u" = c!">") := by decide
    have h2 : ¬ (c!"u" = c!"c") := by decide
    have h3 : ¬ (c!"u" = c!"m") := by decide
    have h4 : ¬ (c!"u" = c!"t") := by decide
    simp only [parseSTag, nextChar, h1, h2, h3, h4, if_true, if_false, parseSuTag, consumeChar_ok,
      Bool.or_false, Bool.false_eq_true]
    exact boolTag_complete hg (name := b!"sub") .subscript (h.reread _ _) hc
      (by simp at hn ⊢; omega) he rfl hm
  | super =>
    have hr' : s.rest = c!"s" :: c!"u" :: c!"p" ::
        (b!"er>" ++ (inner ++ b!"</" ++ b!"super" ++ b!">" ++ tail)) := by
      simpa using hr
    rw [hr'] at hn
    simp only [parseOpenBracket, hr', nextChar]
    refine fin ?_
    have h1 : ¬ (c!"u" = c!">") := by decide
    have h2 : ¬ (c!"u" = c!"c") := by decide
    have h3 : ¬ (c!"u" = c!"m") := by decide
    have h4 : ¬ (c!"u" = c!"t") := by decide
    have h5 : ¬ (c!"p" = c!"b") := by decide
    simp only [parseSTag, nextChar, h1, h2, h3, h4, h5, if_true, if_false, parseSuTag, consumeWord_ok,
      Bool.or_false, Bool.false_eq_true]
    exact boolTag_complete hg (name := b!"super") .superscript (h.reread _ _) hc
      (by simp at hn ⊢; omega) he rfl hm
  | i =>
    have hr' : s.rest = c!"i" :: (b!">" ++ (inner ++ b!"</" ++ b!"i" ++ b!">" ++ tail)) := by
      simpa using hr
    rw [hr'] at hn
    simp only [parseOpenBracket, hr', nextChar]
    refine fin ?_
    exact parseItalic_complete hg (h.rerest _) hc (by simp at hn ⊢; omega) he rfl hm
  | font a f ha =>
    have hr' : s.rest = c!"f" ::
        (b!"ont" ++ (a ++ c!">" :: (inner ++ b!"</" ++ b!"font" ++ b!">" ++ tail))) := by
      simpa using hr
    rw [hr'] at hn
    simp only [parseOpenBracket, hr', nextChar]
    refine fin ?_
    exact parseFont_complete hg (h.rerest _) hc (by simp at hn ⊢; omega) he rfl ha hm
  | stroke a f ha =>
    have hr' : s.rest = c!"s" :: c!"t" ::
        (b!"roke" ++ (a ++ c!">" :: (inner ++ b!"</" ++ b!"stroke" ++ b!">" ++ tail))) := by
      simpa using hr
    rw [hr'] at hn
    simp only [parseOpenBracket, hr', nextChar]
    refine fin ?_
    have h1 : ¬ (c!"t" = c!">") := by decide
    have h2 : ¬ (c!"t" = c!"c") := by decide
    have h3 : ¬ (c!"t" = c!"m") := by decide
    simp only [parseSTag, nextChar, h1, h2, h3, if_true, if_false]
    exact parseStroke_complete hg (h.rerest _) hc (by simp at hn ⊢; omega) he rfl ha hm

/-- One iteration on text that starts with a piece of markup (or a plain byte). -/
theorem parseContent_step2 (hg : Good2 env (parseContent env n) n) {close m tail : List UInt8}
    {o : List (UInt8 × Style F)} (hm : Content env st m o) (hne : m ≠ [])
    (h : Inv s outs st kt) (hc : Canon st.font)
    (he : s.error = false) (hr : s.rest = m ++ tail) (hn : s.rest.length < n + 1) :
    ∃ s' o1 m2 o2, parseContent env (n + 1) close s = parseContent env n close s' ∧
      Inv s' (outs ++ o1) st kt ∧ s'.error = false ∧ s'.rest = m2 ++ tail ∧ Content env st m2 o2 ∧
      o = o1 ++ o2 ∧ s'.rest.length < n ∧ m2.length < m.length := by
  have hlt : ¬ (c!"<" = sentinel) := by decide
  -- after a bracket
  have bracket : ∀ (t : List UInt8) (s' : PState F) (o1 : List (UInt8 × Style F)), s.rest = c!"<" :: t →
      parseOpenBracket env (parseContent env n) close { s with rest := t } = .ok (s', false) →
      s'.error = false → parseContent env (n + 1) close s = parseContent env n close s' := by
    intro t s' o1 ht h1 h2
    have hnc : nextChar (c!"<" :: t) = (c!"<", t) := rfl
    simp only [parseContent, ht, hnc, hlt, if_false, if_true, h1, h2, Bool.false_eq_true]
  cases hm with
  | nil => exact absurd rfl hne
  | @char _ m' o' c h1 h2 hm' =>
    refine ⟨{ s with rest := m' ++ tail, out := s.out ++ [c] }, [(c, st)], m', o', ?_,
      (h.rerest (m' ++ tail)).emit c, he, rfl, hm', rfl, ?_, by simp⟩
    · have hnc : nextChar (c :: (m' ++ tail)) = (c, m' ++ tail) := rfl
      have h2' : ¬ (c = sentinel) := h2
      simp only [parseContent, hr, List.cons_append, hnc, h2', h1, if_false, he, Bool.false_eq_true]
    · rw [hr] at hn; simp at hn ⊢; omega
  | @comment _ m' _ body hb hm' =>
    have hr' : s.rest = c!"<" :: (c!"!" :: (b!"--" ++ body ++ b!"-->" ++ (m' ++ tail))) := by
      rw [hr]; simp
    refine ⟨{ s with rest := m' ++ tail }, [], m', o, ?_, by simpa using h.rerest _, he, rfl, hm', rfl,
      ?_, by simp; omega⟩
    · refine bracket _ _ [] hr' ?_ he
      simp only [parseOpenBracket, nextChar, if_true, parseComment_ok body _ hb, Bool.or_false]
    · rw [hr] at hn; simp at hn ⊢; omega
  | @uc _ m' _ hm' =>
    have hr' : s.rest = c!"<" :: (c!"u" :: c!"c" :: c!">" :: (m' ++ tail)) := by
      rw [hr]; simp
    refine ⟨{ s with rest := m' ++ tail }, [], m', o, ?_, by simpa using h.rerest _, he, rfl, hm', rfl,
      ?_, by simp; omega⟩
    · refine bracket _ _ [] hr' ?_ he
      simp [parseOpenBracket, nextChar, parseUTag, consumeChar_ok, Except.map]
    · rw [hr] at hn; simp at hn ⊢; omega
  | @uppercase _ m' _ hm' =>
    have hr' : s.rest = c!"<" :: (c!"u" :: c!"p" :: (b!"percase>" ++ (m' ++ tail))) := by
      rw [hr]; simp
    refine ⟨{ s with rest := m' ++ tail }, [], m', o, ?_, by simpa using h.rerest _, he, rfl, hm', rfl,
      ?_, by simp; omega⟩
    · refine bracket _ _ [] hr' ?_ he
      have h1 : ¬ (c!"p" = c!">") := by decide
      have h2 : ¬ (c!"p" = c!"c") := by decide
      have h3 : ¬ (c!"u" = c!"!") := by decide
      have h4 : ¬ (c!"u" = c!"/") := by decide
      have h5 : ¬ (c!"u" = c!"f") := by decide
      have h6 : ¬ (c!"u" = c!"i") := by decide
      have h7 : ¬ (c!"u" = c!"s") := by decide
      simp only [parseOpenBracket, nextChar, h3, h4, h5, h6, h7, if_false, if_true, parseUTag, h1, h2,
        consumeWord_ok, Except.map, Bool.or_false]
    · rw [hr] at hn; simp at hn ⊢; omega
  | @tag _ st' op name inner m' oi o' ht hi hm' =>
    have hop : ∃ op', op = c!"<" :: op' := by cases ht <;> exact ⟨_, rfl⟩
    obtain ⟨op', rfl⟩ := hop
    have hr' : s.rest = c!"<" :: (op' ++ (inner ++ b!"</" ++ name ++ b!">" ++ (m' ++ tail))) := by
      rw [hr]; simp
    have hn2 : (op' ++ (inner ++ b!"</" ++ name ++ b!">" ++ (m' ++ tail))).length < n := by
      rw [hr'] at hn; simp only [List.length_cons] at hn; omega
    obtain ⟨s', k1, k2, k3, k4⟩ := open_complete (close := close) hg ht
      (h.rerest (op' ++ (inner ++ b!"</" ++ name ++ b!">" ++ (m' ++ tail)))) hc hn2 he rfl hi
    refine ⟨s', oi, m', o', bracket _ _ [] hr' k1 k4, k2, k4, k3, hm', rfl, ?_, ?_⟩
    · rw [k3]; simp at hn2 ⊢; omega
    · simp; omega

theorem content_nil {m : List UInt8} (h : Content env st m o) (hm : m = []) : o = [] := by
  cases h with
  | nil => rfl
  | char => simp at hm
  | comment => simp at hm
  | uc => simp at hm
  | uppercase => simp at hm
  | tag => simp at hm

theorem good2_parseContent (env : Env F) : ∀ n, Good2 env (parseContent env n) n := by
  intro n
  induction n with
  | zero => intro close s outs st kt m o tail _ _ _ _ _ _ h; omega
  | succ n ih =>
    intro close s outs st kt m o tail hne h he hc hr hm hn
    by_cases hmn : m = []
    · subst hmn
      obtain rfl := content_nil hm rfl
      have hr' : s.rest = c!"<" :: c!"/" :: (close ++ tail) := by rw [hr]; simp
      have hemp : close.isEmpty = false := by
        cases close with | nil => exact absurd rfl hne | cons => rfl
      refine ⟨{ s with rest := tail }, ?_, by simpa using h.rerest _, rfl, he⟩
      have hlt : ¬ (c!"<" = sentinel) := by decide
      have h1 : ¬ (c!"/" = c!"!") := by decide
      simp only [parseContent, hr', nextChar, hlt, if_false, if_true, parseOpenBracket, h1, hemp,
        Bool.false_eq_true, consumeWord_ok, Bool.or_false]
    · obtain ⟨s', o1, m2, o2, k1, k2, k3, k4, k5, k6, k7, _⟩ := parseContent_step2 (close := close)
        (tail := b!"</" ++ close ++ tail) ih hm hmn h hc he (by rw [hr]; simp) hn
      obtain ⟨s2, g1, g2, g3, g4⟩ := ih close s' (outs ++ o1) st kt m2 o2 tail hne k2 k3 hc
        (by rw [k4]; simp) k5 k7
      exact ⟨s2, by rw [k1, g1], by rw [k6, ← List.append_assoc]; exact g2, g3, g4⟩

/-! ### the whole text -/

/-- A finished run list gives exactly the values `vs`. -/
def Covers {α : Type _} (r : ValueRuns α) (vs : List α) : Prop :=
  ∃ R, r.Holds R ∧ SortedLimits R ∧ (∀ p ∈ R, 0 ≤ p.1) ∧ endOf R = some (vs.length : Int) ∧
    ∀ i : Nat, i < vs.length → valueAt R (i : Int) = vs[i]?

/-- The finished state. -/
structure Final (s : PState F) (outs : List (UInt8 × Style F)) : Prop where
  out : s.out = outs.map (·.1)
  font : Covers s.font.runs (outs.map (·.2.font))
  color : Covers s.color.runs (outs.map (·.2.color))
  stroke : Covers s.stroke.runs (outs.map (·.2.stroke))
  flag : ∀ k, Covers (s.flags k).runs (outs.map (·.2.flag k))

theorem finalPop_spec {α : Type _} {b : RunBuilder α} {styles k : List α} {x : α} {len : Int}
    (hl : len = (styles.length : Int)) (h : b.Tracks styles (x :: k)) :
    ∃ b', finalPop b len = .ok b' ∧ Covers b'.runs styles := by
  obtain ⟨b', h1, _, h3⟩ := h.pop'
  exact ⟨b', by rw [finalPop, hl, h1]; rfl, h3⟩

theorem finalizeRuns_spec (h : Inv s outs st kt) :
    ∃ s', finalizeRuns s = .ok s' ∧ s'.error = s.error ∧ Final s' outs := by
  have hsz := h.size
  obtain ⟨f, f1, f2⟩ := finalPop_spec (len := s.size) (by simp [hsz]) h.font
  obtain ⟨c, c1, c2⟩ := finalPop_spec (len := s.size) (by simp [hsz]) h.color
  obtain ⟨k, k1, k2⟩ := finalPop_spec (len := s.size) (by simp [hsz]) h.stroke
  obtain ⟨b1, p1, q1⟩ := finalPop_spec (len := s.size) (by simp [hsz]) (h.flag .strikethrough)
  obtain ⟨b2, p2, q2⟩ := finalPop_spec (len := s.size) (by simp [hsz]) (h.flag .underline)
  obtain ⟨b3, p3, q3⟩ := finalPop_spec (len := s.size) (by simp [hsz]) (h.flag .smallcaps)
  obtain ⟨b4, p4, q4⟩ := finalPop_spec (len := s.size) (by simp [hsz]) (h.flag .subscript)
  obtain ⟨b5, p5, q5⟩ := finalPop_spec (len := s.size) (by simp [hsz]) (h.flag .superscript)
  let fl : Flag → RunBuilder Bool := fun
    | .strikethrough => b1
    | .underline => b2
    | .smallcaps => b3
    | .subscript => b4
    | .superscript => b5
  refine ⟨{ s with font := f, color := c, stroke := k, flags := fl },
    by rw [finalizeRuns, f1, c1, k1, p1, p2, p3, p4, p5]
       simp only [Except.ok.injEq, PState.mk.injEq, true_and]
       funext j; cases j <;> rfl, rfl, h.out, f2, c2, k2, ?_⟩
  intro j
  cases j
  · exact q1
  · exact q2
  · exact q3
  · exact q4
  · exact q5

theorem top_sound (env : Env F) : ∀ (n : Nat) (s : PState F) (outs : List (UInt8 × Style F))
    (st : Style F) (kt : Tails F), Inv s outs st kt → Canon st.font → s.rest.length < n →
    (∃ s' o, parseContent env n [] s = .ok s' ∧ s'.error = true ∧ Inv s' o st kt) ∨
    (∃ s' o m, parseContent env n [] s = .ok s' ∧ s'.error = s.error ∧ Final s' (outs ++ o) ∧
      (s.rest = m ∨ ∃ junk, s.rest = m ++ 0xFF :: junk) ∧ Content env st m o) ∨
    (parseContent env n [] s = .error .overrun ∧ ¬ Safe env s.rest) := by
  intro n
  induction n with
  | zero => intro s outs st kt _ _ h; omega
  | succ n ih =>
    intro s outs st kt h hc hn
    rcases parseContent_step (close := []) (good_parseContent env n) (by simp) h hc hn with
      ⟨t, ht, g1⟩ | ⟨s', g1, g2, g3, g4⟩ | ⟨s', o, g1, g2, g3, g4, g5⟩ | g
    · right; left
      obtain ⟨s', f1, f2, f3⟩ := finalizeRuns_spec (h.rerest t)
      simp only [List.isEmpty_nil, if_true] at g1
      refine ⟨s', [], [], by rw [g1, f1], f2, by simpa using f3, ?_, .nil st⟩
      rcases ht with ⟨h1, _⟩ | h1
      · exact .inl h1
      · exact .inr ⟨t, h1⟩
    · left
      refine ⟨s', outs, g1, ?_, g2⟩
      cases he : s'.error with
      | true => rfl
      | false => exact absurd rfl (g4 he).2.1
    · cases he : s'.error with
      | true =>
        left
        rw [he] at g1
        exact ⟨s', outs ++ o, by rw [g1]; rfl, he, g2⟩
      | false =>
        rw [he] at g1
        simp only [Bool.false_eq_true, if_false] at g1
        obtain ⟨e0, m, em, hm⟩ := g5 he
        rcases ih s' (outs ++ o) st kt g2 hc g4 with
          ⟨s2, o2, k1, k2, k3⟩ | ⟨s2, o2, m2, k1, k2, k3, k4, k5⟩ | ⟨k1, k2⟩
        · left
          exact ⟨s2, o2, by rw [g1, k1], k2, k3⟩
        · right; left
          refine ⟨s2, o ++ o2, m ++ m2, by rw [g1, k1], by rw [k2, he, e0], by rw [← List.append_assoc]; exact k3,
            ?_, hm m2 o2 k5⟩
          rcases k4 with k4 | ⟨junk, k4⟩
          · exact .inl (by rw [em, k4])
          · exact .inr ⟨junk, by rw [em, k4]; simp⟩
        · right; right
          exact ⟨by rw [g1, k1], fun hs => k2 (hs.suffix g3)⟩
    · exact .inr (.inr g)

theorem top_complete (env : Env F) : ∀ (n : Nat) (s : PState F) (outs : List (UInt8 × Style F))
    (st : Style F) (kt : Tails F) (m tail : List UInt8) (o : List (UInt8 × Style F)),
    Inv s outs st kt → Canon st.font → s.error = false → s.rest = m ++ tail →
    (tail = [] ∨ ∃ junk, tail = 0xFF :: junk) → Content env st m o → s.rest.length < n →
    ∃ s', parseContent env n [] s = .ok s' ∧ s'.error = false ∧ Final s' (outs ++ o) := by
  intro n
  induction n with
  | zero => intro s outs st kt m tail o _ _ _ _ _ _ h; omega
  | succ n ih =>
    intro s outs st kt m tail o h hc he hr htail hm hn
    by_cases hmn : m = []
    · subst hmn
      obtain rfl := content_nil hm rfl
      have key : ∃ t, parseContent env (n + 1) [] s = finalizeRuns { s with rest := t } := by
        rcases htail with rfl | ⟨junk, rfl⟩
        · refine ⟨[], ?_⟩
          simp only [List.append_nil] at hr
          simp only [parseContent, hr, nextChar, if_true, List.isEmpty_nil]
        · refine ⟨junk, ?_⟩
          simp only [List.nil_append] at hr
          simp only [parseContent, hr, nextChar, sentinel, if_true, List.isEmpty_nil]
      obtain ⟨t, hk⟩ := key
      obtain ⟨s', f1, f2, f3⟩ := finalizeRuns_spec (h.rerest t)
      exact ⟨s', by rw [hk, f1], by rw [f2]; exact he, by simpa using f3⟩
    · obtain ⟨s', o1, m2, o2, k1, k2, k3, k4, k5, k6, k7, _⟩ := parseContent_step2 (close := [])
        (tail := tail) (good2_parseContent env n) hm hmn h hc he hr hn
      obtain ⟨s2, g1, g2, g3⟩ := ih s' (outs ++ o1) st kt m2 tail o2 k2 hc k3 k4 htail k5 k7
      exact ⟨s2, by rw [k1, g1], g2, by rw [k6, ← List.append_assoc]; exact g3⟩

end RichText
