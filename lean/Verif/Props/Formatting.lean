import Verif.Proof.ParserMain
/-!
Properties C07 - C12: the inline markup parser, `src/formatting.cpp`.

The markup language is `Spec.Content` / `Spec.Document` (Verif/Spec/Markup.lean).
-/
namespace RichText
open Spec

variable {F : Type _}

/-- `get_value` gives byte `i` the value `vs[i]`. -/
def ShowsValues {α : Type _} (r : ValueRuns α) (vs : List α) : Prop :=
  ∀ (i : Nat) (h : i < vs.length), r.view.getValue (i : Int) = some vs[i]

/-- All eight run lists show the formatting of `o`. -/
def ShowsStyles (r : FormattingRuns F) (o : List (UInt8 × Style F)) : Prop :=
  ShowsValues r.font (o.map (·.2.font)) ∧ ShowsValues r.color (o.map (·.2.color)) ∧
    ShowsValues r.stroke (o.map (·.2.stroke)) ∧
    ∀ k, ShowsValues (r.flags k) (o.map (·.2.flag k))

/-- The text itself, unformatted: one run per list. -/
def verbatim (text : List UInt8) (font : Font) (color : Color F) (stroke : StrokeState F) :
    List UInt8 × FormattingRuns F :=
  (text, ⟨⟨[font], [text.length]⟩, ⟨[color], [text.length]⟩, ⟨[stroke], [text.length]⟩,
    fun _ => ⟨[false], [text.length]⟩⟩)

theorem Covers.fits {α : Type _} {r : ValueRuns α} {vs : List α} (h : Covers r vs) :
    RunsFit r vs.length := by
  obtain ⟨R, ⟨h1, h1'⟩, h2, hn, h3, _⟩ := h
  have hne := endOf_ne h3
  refine ⟨by rw [h1]; intro h; simp at h; simp [h] at hne, by rw [h1, h1']; simp, ?_, ?_, ?_⟩
  · rw [h1, List.pairwise_map]; exact h2
  · intro l hl; rw [h1] at hl; obtain ⟨p, hp, rfl⟩ := List.mem_map.1 hl; exact hn p hp
  · rw [h1, List.getLast?_map]; exact h3

theorem Covers.shows {α : Type _} {r : ValueRuns α} {vs : List α} (h : Covers r vs) :
    ShowsValues r vs := by
  obtain ⟨R, h1, h2, _, _, h4⟩ := h
  intro i hi
  rw [h1.shows.getValue h2, h4 i hi, List.getElem?_eq_getElem hi]

theorem runsFit_single {α : Type _} (x : α) (n : Nat) : RunsFit (⟨[x], [(n : Int)]⟩ : ValueRuns α) n := by
  simp [RunsFit]

theorem canon_proper {f : Font} (h : ProperFont f) : Canon f := by
  obtain ⟨fam, w, st, z, hw, rfl⟩ := h
  exact canon_make fam w hw st z

theorem inv_init (text : List UInt8) (font : Font) (color : Color F) (stroke : StrokeState F) :
    Inv (PState.init text font color stroke) [] (baseStyle font color stroke) ⟨[], [], [], fun _ => []⟩ :=
  ⟨rfl, RunBuilder.tracks_init _, RunBuilder.tracks_init _, RunBuilder.tracks_init _,
    fun _ => RunBuilder.tracks_init _⟩

/-- The three outcomes of a parse. -/
theorem parse_cases (env : Env F) (text : List UInt8) (font : Font) (color : Color F)
    (stroke : StrokeState F) (hf : ProperFont font) :
    parseInlineFormatting env text font color stroke = .ok (verbatim text font color stroke) ∨
    (∃ o runs, parseInlineFormatting env text font color stroke = .ok (o.map (·.1), runs) ∧
      Document env (baseStyle font color stroke) text o ∧ AllRunsFit runs o.length ∧
      ShowsStyles runs o) ∨
    (parseInlineFormatting env text font color stroke = .error .overrun ∧ ¬ Safe env text) := by
  unfold parseInlineFormatting
  rcases top_sound env (text.length + 1) _ [] _ _ (inv_init text font color stroke) (canon_proper hf)
    (by simp [PState.init]) with ⟨s', o, h1, h2, h3⟩ | ⟨s', o, m, h1, h2, h3, h4, h5⟩ | ⟨h1, h2⟩
  · left
    rw [h1]
    have e1 : s'.font.base = some font := by rw [RunBuilder.base, h3.font.stack_eq]; rfl
    have e2 : s'.color.base = some color := by rw [RunBuilder.base, h3.color.stack_eq]; rfl
    have e3 : s'.stroke.base = some stroke := by rw [RunBuilder.base, h3.stroke.stack_eq]; rfl
    simp only [PState.getResult, h2, if_true, e1, e2, e3]
    rfl
  · right; left
    have h2' : s'.error = false := h2
    simp only [List.nil_append] at h3
    refine ⟨o, ⟨s'.font.runs, s'.color.runs, s'.stroke.runs, fun k => (s'.flags k).runs⟩, ?_,
      ⟨m, h4, h5⟩, ?_, ?_⟩
    · rw [h1]
      simp only [PState.getResult, h2', Bool.false_eq_true, if_false, h3.out]
    · refine ⟨?_, ?_, ?_, fun k => ?_⟩
      · simpa using h3.font.fits
      · simpa using h3.color.fits
      · simpa using h3.stroke.fits
      · simpa using (h3.flag k).fits
    · exact ⟨h3.font.shows, h3.color.shows, h3.stroke.shows, fun k => (h3.flag k).shows⟩
  · right; right
    exact ⟨by rw [h1], h2⟩

/-! ## C07 -/

/-- The parser always comes back (the bound on the number of iterations is never
reached) and never takes the top of an empty stack. -/
theorem C07_returns (env : Env F) (text : List UInt8) (font : Font) (color : Color F)
    (stroke : StrokeState F) (hf : ProperFont font) :
    parseInlineFormatting env text font color stroke ≠ .error .fuel ∧
    parseInlineFormatting env text font color stroke ≠ .error .stack := by
  rcases parse_cases env text font color stroke hf with h | ⟨o, runs, h, _⟩ | ⟨h, _⟩ <;> rw [h] <;> simp

/-- Whenever the parse has a result, all eight run lists cover exactly the
content text. -/
theorem C07_runs_fit (env : Env F) (text : List UInt8) (font : Font) (color : Color F)
    (stroke : StrokeState F) (hf : ProperFont font) (out : List UInt8) (runs : FormattingRuns F)
    (h : parseInlineFormatting env text font color stroke = .ok (out, runs)) :
    AllRunsFit runs out.length := by
  rcases parse_cases env text font color stroke hf with h' | ⟨o, runs', h', _, h2, _⟩ | ⟨h', _⟩
  · rw [h'] at h
    simp only [verbatim, Except.ok.injEq, Prod.mk.injEq] at h
    obtain ⟨rfl, rfl⟩ := h
    exact ⟨runsFit_single _ _, runsFit_single _ _, runsFit_single _ _, fun _ => runsFit_single _ _⟩
  · rw [h'] at h
    simp only [Except.ok.injEq, Prod.mk.injEq] at h
    obtain ⟨rfl, rfl⟩ := h
    simpa using h2
  · rw [h'] at h; simp at h

/-! ## C08 -/

/-- Text that is no document comes back verbatim and unformatted.  Missing from
the full property: texts on which the parser overruns a buffer (`Safe` fails,
see C12), where the behaviour is undefined. -/
theorem C08_fallback_partial (env : Env F) (text : List UInt8) (font : Font) (color : Color F)
    (stroke : StrokeState F) (hf : ProperFont font) (hs : Safe env text)
    (hno : ¬ ∃ o, Document env (baseStyle font color stroke) text o) :
    parseInlineFormatting env text font color stroke = .ok (verbatim text font color stroke) := by
  rcases parse_cases env text font color stroke hf with h | ⟨o, runs, _, h, _⟩ | ⟨_, h⟩
  · exact h
  · exact absurd ⟨o, h⟩ hno
  · exact absurd hs h

/-! ## C09 -/

theorem plain_loop (env : Env F) (text : List UInt8) :
    (∀ c ∈ text, c ≠ c!"<" ∧ c ≠ 0xFF) → ∀ (n : Nat) (s : PState F), s.rest = text → text.length < n →
    s.error = false →
    parseContent env n [] s = finalizeRuns { s with rest := [], out := s.out ++ text } := by
  induction text with
  | nil =>
    intro _ n s hr hn he
    obtain ⟨n, rfl⟩ : ∃ k, n = k + 1 := ⟨n - 1, by simp at hn; omega⟩
    simp [parseContent, hr, nextChar]
  | cons c t ih =>
    intro hp n s hr hn he
    obtain ⟨n, rfl⟩ : ∃ k, n = k + 1 := ⟨n - 1, by simp at hn; omega⟩
    have h1 := (hp c (by simp)).1
    have h2 : ¬ (c = sentinel) := (hp c (by simp)).2
    have hnc : nextChar (c :: t) = (c, t) := rfl
    simp only [parseContent, hr, hnc, h1, h2, if_false, he, Bool.false_eq_true]
    rw [ih (fun d hd => hp d (by simp [hd])) n
      { rest := t, out := s.out ++ [c], error := false, font := s.font, color := s.color,
        stroke := s.stroke, flags := s.flags } rfl (by simp at hn; omega) rfl]
    simp

/-- Plain text parses to itself, unformatted. -/
theorem C09_plain (env : Env F) (text : List UInt8) (font : Font) (color : Color F)
    (stroke : StrokeState F) (hp : ∀ c ∈ text, c ≠ c!"<" ∧ c ≠ 0xFF) :
    parseInlineFormatting env text font color stroke = .ok (verbatim text font color stroke) := by
  unfold parseInlineFormatting
  rw [plain_loop env text hp (text.length + 1) (PState.init text font color stroke) rfl (by omega) rfl]
  simp only [finalizeRuns, finalPop, RunBuilder.pop, PState.init, RunBuilder.init, ValueRuns.getLimit,
    List.getLast?_nil, onStack, PState.size, PState.getResult, verbatim, ValueRuns.add, List.nil_append,
    Bool.false_eq_true, if_false, Except.ok.injEq, Prod.mk.injEq, FormattingRuns.mk.injEq, true_and]
  funext k; cases k <;> rfl

/-! ## C10 -/

/-- Every document of the grammar gets exactly its content, and every byte of it
exactly the formatting the grammar gives it. -/
theorem C10_documents (env : Env F) (text : List UInt8) (font : Font) (color : Color F)
    (stroke : StrokeState F) (hf : ProperFont font) (o : List (UInt8 × Style F))
    (h : Document env (baseStyle font color stroke) text o) :
    ∃ runs, parseInlineFormatting env text font color stroke = .ok (o.map (·.1), runs) ∧
      ShowsStyles runs o := by
  obtain ⟨m, hm, hc⟩ := h
  have htail : ∃ tail, text = m ++ tail ∧ (tail = [] ∨ ∃ junk, tail = 0xFF :: junk) := by
    rcases hm with rfl | ⟨junk, rfl⟩
    · exact ⟨[], by simp, .inl rfl⟩
    · exact ⟨_, rfl, .inr ⟨junk, rfl⟩⟩
  obtain ⟨tail, ht, ht2⟩ := htail
  obtain ⟨s', h1, h2, h3⟩ := top_complete env (text.length + 1) _ [] _ _ m tail o
    (inv_init text font color stroke) (canon_proper hf) rfl ht ht2 hc (by simp [PState.init])
  simp only [List.nil_append] at h3
  refine ⟨⟨s'.font.runs, s'.color.runs, s'.stroke.runs, fun k => (s'.flags k).runs⟩, ?_,
    h3.font.shows, h3.color.shows, h3.stroke.shows, fun k => (h3.flag k).shows⟩
  unfold parseInlineFormatting
  rw [h1]
  simp only [PState.getResult, h2, Bool.false_eq_true, if_false, h3.out]

theorem shows_unique {α : Type _} {g : UInt8 × Style F → α} {r : ValueRuns α}
    {o o' : List (UInt8 × Style F)} (i : Nat) (hi : i < o.length) (hi' : i < o'.length)
    (a : ShowsValues r (o.map g)) (b : ShowsValues r (o'.map g)) : g o[i] = g o'[i] := by
  have a := a i (by simpa using hi)
  have b := b i (by simpa using hi')
  rw [a] at b
  simpa using b

/-- A document stands for one content only, so the grammar determines the
formatting of every byte. -/
theorem C10_unambiguous (env : Env F) (text : List UInt8) (font : Font) (color : Color F)
    (stroke : StrokeState F) (hf : ProperFont font) (o o' : List (UInt8 × Style F))
    (h : Document env (baseStyle font color stroke) text o)
    (h' : Document env (baseStyle font color stroke) text o') : o = o' := by
  obtain ⟨r, h1, h2⟩ := C10_documents env text font color stroke hf o h
  obtain ⟨r', h1', h2'⟩ := C10_documents env text font color stroke hf o' h'
  rw [h1] at h1'
  simp only [Except.ok.injEq, Prod.mk.injEq] at h1'
  obtain ⟨e1, rfl⟩ := h1'
  have hl : o.length = o'.length := by simpa using congrArg List.length e1
  apply List.ext_getElem hl
  intro i hi hi'
  have e0 : o[i].1 = o'[i].1 := by
    have : (o.map (·.1))[i]'(by simpa using hi) = (o'.map (·.1))[i]'(by simpa using hi') := by
      simp only [e1]
    simpa using this
  have ef := shows_unique i hi hi' h2.1 h2'.1
  have ec := shows_unique i hi hi' h2.2.1 h2'.2.1
  have es := shows_unique i hi hi' h2.2.2.1 h2'.2.2.1
  have eg := fun k => shows_unique i hi hi' (h2.2.2.2 k) (h2'.2.2.2 k)
  refine Prod.ext e0 ?_
  cases ho : o[i].2 with
  | mk f c k g =>
    cases ho' : o'[i].2 with
    | mk f' c' k' g' =>
      simp only [ho, ho'] at ef ec es eg
      subst ef ec es
      obtain rfl : g = g' := funext eg
      rfl

/-! ## C11 -/

/-- What is not returned verbatim is a document, and the result is its content. -/
theorem C11_only_documents (env : Env F) (text : List UInt8) (font : Font) (color : Color F)
    (stroke : StrokeState F) (hf : ProperFont font) (r : List UInt8 × FormattingRuns F)
    (h : parseInlineFormatting env text font color stroke = .ok r)
    (hne : r ≠ verbatim text font color stroke) :
    ∃ o, Document env (baseStyle font color stroke) text o ∧ r.1 = o.map (·.1) ∧ ShowsStyles r.2 o := by
  rcases parse_cases env text font color stroke hf with h' | ⟨o, runs, h', h1, _, h3⟩ | ⟨h', _⟩
  · rw [h'] at h; simp at h; exact absurd h.symm hne
  · rw [h'] at h; simp at h; subst h; exact ⟨o, h1, rfl, h3⟩
  · rw [h'] at h; simp at h

/-- Without the byte 0xFF the whole text is well-formed markup. -/
theorem C11_well_formed (env : Env F) (text : List UInt8) (font : Font) (color : Color F)
    (stroke : StrokeState F) (hf : ProperFont font) (r : List UInt8 × FormattingRuns F)
    (hff : ∀ c ∈ text, c ≠ 0xFF)
    (h : parseInlineFormatting env text font color stroke = .ok r)
    (hne : r ≠ verbatim text font color stroke) :
    ∃ o, Content env (baseStyle font color stroke) text o := by
  obtain ⟨o, ⟨m, hm, hc⟩, _⟩ := C11_only_documents env text font color stroke hf r h hne
  rcases hm with rfl | ⟨junk, rfl⟩
  · exact ⟨o, hc⟩
  · exact absurd rfl (hff 0xFF (by simp))

/-! ## C12 -/

/-- A weight of 17 bytes is copied into a buffer of 16 bytes. -/
theorem C12_weight_buffer_violated (env : Env F) (font : Font) (color : Color F)
    (stroke : StrokeState F) :
    parseInlineFormatting env b!"<font weight=\"extraordinarybold\">x</font>" font color stroke
      = .error .overrun := rfl

/-- A colour channel of three digits makes the parser read a fourth byte of a
buffer of three. -/
theorem C12_number_buffer_violated (env : Env F) (hp : env.past = none) (font : Font) (color : Color F)
    (stroke : StrokeState F) :
    parseInlineFormatting env b!"<font color=\"rgb(255, 0, 0)\">x</font>" font color stroke
      = .error .overrun := by
  obtain ⟨fl, gf, past⟩ := env
  obtain rfl : past = none := hp
  rfl

/-- Without weights of more than 16 bytes and channels of three digits no buffer
is overrun. -/
theorem C12_no_overrun_partial (env : Env F) (text : List UInt8) (font : Font) (color : Color F)
    (stroke : StrokeState F) (hf : ProperFont font) (hs : Safe env text) :
    parseInlineFormatting env text font color stroke ≠ .error .overrun := by
  rcases parse_cases env text font color stroke hf with h | ⟨o, runs, h, _⟩ | ⟨_, h⟩
  · rw [h]; simp
  · rw [h]; simp
  · exact absurd hs h

/-! ## Examples -/

section Examples

/-- A small environment: whole numbers instead of floats, one font family. -/
def toyEnv : Env Nat where
  zero := 0
  one := 255
  channel n := n
  oneMinus n := 255 - n
  fromChars l := fromCharsUnsigned 255 l
  getFamily l := if l = b!"Sans" then 1 else 0xFFFF
  past := some 0

def toyFont : Font := Font.make 0 3 .normal 16
def toyColor : Color Nat := ⟨0, 0, 0, 255⟩
def toyStroke : StrokeState Nat := ⟨⟨0, 0, 0, 255⟩, 0, .none⟩

example : ProperFont toyFont := ⟨0, 3, .normal, 16, by decide, rfl⟩

/-- A document with nested tags, attributes and a comment. -/
example : Document toyEnv (baseStyle toyFont toyColor toyStroke)
    b!"a<u>b<font face=\"Sans\" color=\"#FF0010\">c</font></u><!--x-->"
    [(c!"a", baseStyle toyFont toyColor toyStroke),
     (c!"b", (baseStyle toyFont toyColor toyStroke).on .underline),
     (c!"c", { (baseStyle toyFont toyColor toyStroke).on .underline with
        font := Font.make 1 3 .normal 16, color := ⟨255, 0, 16, 255⟩ })] := by
  refine ⟨_, .inl rfl, .char _ (by decide) (by decide) ?_⟩
  refine .tag (inner := b!"b<font face=\"Sans\" color=\"#FF0010\">c</font>")
    (m := b!"<!--x-->") (oi := [_, _]) (o := []) .u ?_ ?_
  · refine .char _ (by decide) (by decide) ?_
    refine .tag (op := b!"<font face=\"Sans\" color=\"#FF0010\">") (inner := b!"c") (m := [])
      (oi := [_]) (o := [])
      (Tag.font b!" face=\"Sans\" color=\"#FF0010\"" _
      (.cons (a := b!" ") .space (.cons (a := b!"face=\"Sans\"") (.face b!"Sans" ?_ ?_ ?_)
        (.cons (a := b!" ") .space (.cons (m := []) (.color b!"#FF0010" _
          (.hex _ _ _ _ _ _ 15 15 0 0 1 0 (by decide) (by decide) (by decide) (by decide)
      (by decide) (by decide))) .nil))))) ?_ (.nil _)
    · unfold Quoted; decide
    · decide
    · decide
    · exact .char _ (by decide) (by decide) (.nil _)
  · exact .comment b!"x" (by decide) (.nil _)

theorem content_no_bracket {env : Env F} {st : Style F} {m : List UInt8} {o : List (UInt8 × Style F)}
    (h : Content env st m o) : ∀ p ∈ o, p.1 ≠ c!"<" := by
  induction h with
  | nil => simp
  | char c hc _ _ ih => intro p hp; rcases List.mem_cons.1 hp with rfl | hp; exacts [hc, ih p hp]
  | comment _ _ _ ih => exact ih
  | uc _ ih => exact ih
  | uppercase _ ih => exact ih
  | tag _ _ _ ih1 ih2 => intro p hp; rcases List.mem_append.1 hp with hp | hp; exacts [ih1 p hp, ih2 p hp]

/-- The hypotheses of C08: `<b>` is no document and safe. -/
example : Safe toyEnv b!"<b>" ∧
    ¬ ∃ o, Document toyEnv (baseStyle toyFont toyColor toyStroke) b!"<b>" o := by
  refine ⟨⟨fun v hv _ => ?_, fun h => by simp [toyEnv] at h⟩, ?_⟩
  · have := hv.length_le; simp at this
  · rintro ⟨o, h⟩
    obtain ⟨r, h1, _⟩ := C10_documents toyEnv _ toyFont toyColor toyStroke ⟨0, 3, .normal, 16, by decide, rfl⟩ o h
    have h2 : (parseInlineFormatting toyEnv b!"<b>" toyFont toyColor toyStroke).toOption.map (·.1) =
      some b!"<b>" := by decide +kernel
    rw [h1] at h2
    simp only [Except.toOption, Option.map_some, Option.some.injEq] at h2
    obtain ⟨m, _, hc⟩ := h
    have h3 : c!"<" ∈ o.map (·.1) := by rw [h2]; simp
    obtain ⟨p, hp, hp'⟩ := List.mem_map.1 h3
    exact content_no_bracket hc p hp hp'

/-- The parser at work on it. -/
example : (parseInlineFormatting toyEnv
    b!"a<u>b<font face=\"Sans\" color=\"#FF0010\">c</font></u><!--x-->" toyFont toyColor toyStroke).toOption.map
      (fun r => (r.1, r.2.font.limits, (r.2.flags .underline).limits, (r.2.flags .underline).values)) =
    some (b!"abc", [2, 3], [1, 3], [false, true]) := by decide +kernel

/-- Not a document: the closing tag has the wrong name. -/
example : (parseInlineFormatting toyEnv b!"a<u>b</s>" toyFont toyColor toyStroke).toOption.map (·.1) =
    some b!"a<u>b</s>" := by decide +kernel

end Examples

end RichText
