import Verif.Proof.FontAttrs
import Verif.Proof.RunBuilder
/-! The markup parser: its state follows the grammar `Spec.Content`. -/
namespace RichText
open Spec

variable {F : Type _}

/-- The stacks below their top. -/
structure Tails (F : Type _) where
  font : List Font
  color : List (Color F)
  stroke : List (StrokeState F)
  flag : Flag → List Bool

/-- The state has produced `outs` and is inside formatting `st`. -/
structure Inv (s : PState F) (outs : List (UInt8 × Style F)) (st : Style F) (kt : Tails F) : Prop where
  out : s.out = outs.map (·.1)
  font : s.font.Tracks (outs.map (·.2.font)) (st.font :: kt.font)
  color : s.color.Tracks (outs.map (·.2.color)) (st.color :: kt.color)
  stroke : s.stroke.Tracks (outs.map (·.2.stroke)) (st.stroke :: kt.stroke)
  flag : ∀ k, (s.flags k).Tracks (outs.map (·.2.flag k)) (st.flag k :: kt.flag k)

/-- `m` is a complete piece of markup that stands for `o`. -/
def Item (env : Env F) (st : Style F) (m : List UInt8) (o : List (UInt8 × Style F)) : Prop :=
  ∀ m2 o2, Content env st m2 o2 → Content env st (m ++ m2) (o ++ o2)

variable {s s1 : PState F} {outs o : List (UInt8 × Style F)} {st st' : Style F} {kt kt' : Tails F}
  {env : Env F} {content : ContentFn F} {n : Nat}

theorem Inv.size (h : Inv s outs st kt) : s.size = (outs.length : Int) := by
  simp [PState.size, h.out]

theorem Inv.reread (h : Inv s outs st kt) (r : List UInt8) (e : Bool) :
    Inv { s with rest := r, error := e } outs st kt := ⟨h.out, h.font, h.color, h.stroke, h.flag⟩

theorem Inv.rerest (h : Inv s outs st kt) (r : List UInt8) :
    Inv { s with rest := r } outs st kt := ⟨h.out, h.font, h.color, h.stroke, h.flag⟩

theorem Inv.emit (h : Inv s outs st kt) (c : UInt8) :
    Inv { s with out := s.out ++ [c] } (outs ++ [(c, st)]) st kt := by
  refine ⟨by simp [h.out], ?_, ?_, ?_, fun k => ?_⟩
  · simpa using h.font.emit
  · simpa using h.color.emit
  · simpa using h.stroke.emit
  · simpa using (h.flag k).emit

/-! ### single builders -/

theorem push_tracks {α : Type _} {b : RunBuilder α} {styles k : List α} {x : α} {len : Int}
    (hl : len = (styles.length : Int)) (y : α) (h : b.Tracks styles (x :: k)) :
    ∃ b', onStack (b.push len y) = .ok b' ∧ b'.Tracks styles (y :: x :: k) := by
  obtain ⟨b', h1, h2⟩ := h.push y
  exact ⟨b', by rw [hl, h1]; rfl, h2⟩

theorem pop_tracks {α : Type _} {b : RunBuilder α} {styles k : List α} {x : α} {len : Int}
    (hl : len = (styles.length : Int)) (h : b.Tracks styles (x :: k)) :
    ∃ b', onStack (b.pop len) = .ok b' ∧ b'.Tracks styles k := by
  obtain ⟨b', h1, h2, _⟩ := h.pop'
  exact ⟨b', by rw [hl, h1]; rfl, h2⟩

theorem pushIf_tracks {α : Type _} {b : RunBuilder α} {styles k : List α} {x : α} {len : Int}
    (hl : len = (styles.length : Int)) (c : Bool) (y : α) (h : b.Tracks styles (x :: k)) :
    ∃ b', pushIf c b len y = .ok b' ∧
      b'.Tracks styles ((if c then y else x) :: (if c then x :: k else k)) := by
  cases c with
  | false => exact ⟨b, rfl, h⟩
  | true => exact push_tracks hl y h

theorem popIf_tracks {α : Type _} {b : RunBuilder α} {styles k : List α} {x y : α} {len : Int}
    (hl : len = (styles.length : Int)) (c : Bool)
    (h : b.Tracks styles ((if c then y else x) :: (if c then x :: k else k))) :
    ∃ b', popIf c b len = .ok b' ∧ b'.Tracks styles (x :: k) := by
  cases c with
  | false => exact ⟨b, rfl, h⟩
  | true => exact pop_tracks hl h

theorem onStack_current {α : Type _} {b : RunBuilder α} {styles k : List α} {x : α}
    (h : b.Tracks styles (x :: k)) : onStack b.current = .ok x := by
  rw [h.current]; rfl

/-- one more entry on the stack of a flag -/
def Tails.pushFlag (kt : Tails F) (k : Flag) (x : Bool) : Tails F :=
  { kt with flag := fun j => if j = k then x :: kt.flag j else kt.flag j }

theorem Inv.pushFlag (h : Inv s outs st kt) (k : Flag) :
    ∃ b, onStack ((s.flags k).push s.size true) = .ok b ∧
      Inv { s with flags := setFlag s.flags k b } outs (st.on k) (kt.pushFlag k (st.flag k)) := by
  obtain ⟨b, h1, h2⟩ := push_tracks (len := s.size) (by simp [h.size]) true (h.flag k)
  refine ⟨b, h1, h.out, h.font, h.color, h.stroke, fun j => ?_⟩
  by_cases hj : j = k
  · subst hj; simpa [setFlag, Style.on, Tails.pushFlag] using h2
  · simpa [setFlag, Style.on, Tails.pushFlag, hj] using h.flag j

theorem Inv.popFlag (k : Flag) (h : Inv s outs (st.on k) (kt.pushFlag k (st.flag k))) :
    ∃ b, onStack ((s.flags k).pop s.size) = .ok b ∧
      Inv { s with flags := setFlag s.flags k b } outs st kt := by
  obtain ⟨b, h1, h2⟩ := pop_tracks (len := s.size) (by simp [h.size]) (h.flag k)
  refine ⟨b, h1, h.out, h.font, h.color, h.stroke, fun j => ?_⟩
  by_cases hj : j = k
  · subst hj; simpa [setFlag, Style.on, Tails.pushFlag] using h2
  · have := h.flag j
    simpa [setFlag, Style.on, Tails.pushFlag, hj] using this

/-! ### what a nested call and a tag do -/

/-- A call for the content of a tag, with `n` bounding the text left. -/
def Good (env : Env F) (content : ContentFn F) (n : Nat) : Prop :=
  ∀ (close : List UInt8) (s : PState F) (outs : List (UInt8 × Style F)) (st : Style F) (kt : Tails F),
    close ≠ [] → (∀ c ∈ close, c ≠ 0xFF) → Inv s outs st kt → Canon st.font → s.rest.length < n →
    (∃ s' o, content close s = .ok s' ∧ Inv s' (outs ++ o) st kt ∧ s'.rest <:+ s.rest ∧
      (s'.error = false → s.error = false ∧
        ∃ m, s.rest = m ++ b!"</" ++ close ++ s'.rest ∧ Content env st m o)) ∨
    (content close s = .error .overrun ∧ ¬ Safe env s.rest)

/-- The same for text known to be well formed. -/
def Good2 (env : Env F) (content : ContentFn F) (n : Nat) : Prop :=
  ∀ (close : List UInt8) (s : PState F) (outs : List (UInt8 × Style F)) (st : Style F) (kt : Tails F)
    (m : List UInt8) (o : List (UInt8 × Style F)) (tail : List UInt8),
    close ≠ [] → Inv s outs st kt → s.error = false → Canon st.font →
    s.rest = m ++ b!"</" ++ close ++ tail → Content env st m o → s.rest.length < n →
    ∃ s', content close s = .ok s' ∧ Inv s' (outs ++ o) st kt ∧ s'.rest = tail ∧ s'.error = false

/-- Outcome of reading a tag from text `r0` with error flag `e0` before. -/
def TagOut (env : Env F) (r0 : List UInt8) (e0 : Bool) (outs : List (UInt8 × Style F)) (st : Style F)
    (kt : Tails F) (res : Except Fault (PState F)) : Prop :=
  (∃ s' o, res = .ok s' ∧ Inv s' (outs ++ o) st kt ∧ s'.rest <:+ r0 ∧ s'.rest.length < r0.length ∧
    (s'.error = false → e0 = false ∧ ∃ m, r0 = m ++ s'.rest ∧ Item env st m o)) ∨
  (res = .error .overrun ∧ ¬ Safe env r0)

theorem tagOut_err {r0 : List UInt8} {e0 : Bool} (h : Inv s outs st kt) (h1 : s.rest <:+ r0)
    (h2 : s.rest.length < r0.length) (he : s.error = true) : TagOut env r0 e0 outs st kt (.ok s) :=
  .inl ⟨s, [], rfl, by simpa using h, h1, h2, by simp [he]⟩

theorem tagOut_void {r0 m : List UInt8} {e0 : Bool} (h : Inv s outs st kt) (h1 : s.rest <:+ r0)
    (h2 : s.rest.length < r0.length)
    (he : s.error = false → e0 = false ∧ r0 = m ++ s.rest ∧ Item env st m []) :
    TagOut env r0 e0 outs st kt (.ok s) :=
  .inl ⟨s, [], rfl, by simpa using h, h1, h2, fun h => ⟨(he h).1, m, (he h).2⟩⟩

theorem nested (hg : Good env content n) {r0 name : List UInt8} {e0 : Bool}
    (hname : ∀ c ∈ name, c ≠ 0xFF) (h : Inv s1 outs st' kt') (hc : Canon st'.font)
    (hs : s1.rest <:+ r0) (hl : s1.rest.length < r0.length) (hn : s1.rest.length < n)
    (ht : s1.error = false → e0 = false ∧ ∃ op, r0 = op ++ s1.rest ∧ Tag env st op st' name)
    (k : PState F → Except Fault (PState F))
    (hk : ∀ s2 o, Inv s2 (outs ++ o) st' kt' →
      ∃ s3, k s2 = .ok s3 ∧ Inv s3 (outs ++ o) st kt ∧ s3.rest = s2.rest ∧ s3.error = s2.error)
    (res : Except Fault (PState F))
    (h1 : ∀ s2, content (name ++ b!">") s1 = .ok s2 → res = k s2)
    (h2 : ∀ e, content (name ++ b!">") s1 = .error e → res = .error e) :
    TagOut env r0 e0 outs st kt res := by
  rcases hg (name ++ b!">") s1 outs st' kt' (by simp) (by
      intro c hc
      rcases List.mem_append.1 hc with hc | hc
      · exact hname c hc
      · simp at hc; subst hc; decide) h hc hn with ⟨s2, o, g1, g2, g3, g4⟩ | ⟨g1, g2⟩
  · left
    obtain ⟨s3, k1, k2, k3, k4⟩ := hk s2 o g2
    refine ⟨s3, o, by rw [h1 s2 g1, k1], k2, by rw [k3]; exact g3.trans hs, ?_, ?_⟩
    · rw [k3]; have := g3.length_le; omega
    · intro he
      rw [k4] at he
      obtain ⟨e1, m, em, hm⟩ := g4 he
      obtain ⟨e0', op, eop, htag⟩ := ht e1
      refine ⟨e0', op ++ m ++ b!"</" ++ name ++ b!">", by rw [eop, em, k3]; simp, ?_⟩
      intro m2 o2 hc2
      exact .tag htag hm hc2
  · right
    exact ⟨h2 _ g1, fun hsafe => g2 (hsafe.suffix hs)⟩

theorem nested2 (hg : Good2 env content n) {name inner tail : List UInt8}
    (h : Inv s1 outs st' kt') (hc : Canon st'.font) (hn : s1.rest.length < n) (he : s1.error = false)
    (hr : s1.rest = inner ++ b!"</" ++ name ++ b!">" ++ tail) (hm : Content env st' inner o)
    (k : PState F → Except Fault (PState F))
    (hk : ∀ s2 o, Inv s2 (outs ++ o) st' kt' →
      ∃ s3, k s2 = .ok s3 ∧ Inv s3 (outs ++ o) st kt ∧ s3.rest = s2.rest ∧ s3.error = s2.error)
    (res : Except Fault (PState F))
    (h1 : ∀ s2, content (name ++ b!">") s1 = .ok s2 → res = k s2) :
    ∃ s', res = .ok s' ∧ Inv s' (outs ++ o) st kt ∧ s'.rest = tail ∧ s'.error = false := by
  obtain ⟨s2, g1, g2, g3, g4⟩ := hg (name ++ b!">") s1 outs st' kt' inner o tail (by simp) h he hc
    (by rw [hr]; simp) hm hn
  obtain ⟨s3, k1, k2, k3, k4⟩ := hk s2 o g2
  exact ⟨s3, by rw [h1 s2 g1, k1], k2, by rw [k3, g3], by rw [k4, g4]⟩

/-! ### boolean tags -/

/-- what `parse_bool_tag` does after the content -/
def popFlagK (k : Flag) (s : PState F) : Except Fault (PState F) :=
  match onStack ((s.flags k).pop s.size) with
  | .error e => .error e
  | .ok b => .ok { s with flags := setFlag s.flags k b }

theorem popFlagK_spec (k : Flag) (s2 : PState F) (o : List (UInt8 × Style F))
    (h : Inv s2 (outs ++ o) (st.on k) (kt.pushFlag k (st.flag k))) :
    ∃ s3, popFlagK k s2 = .ok s3 ∧ Inv s3 (outs ++ o) st kt ∧ s3.rest = s2.rest ∧
      s3.error = s2.error := by
  obtain ⟨b, h1, h2⟩ := h.popFlag k
  exact ⟨_, by rw [popFlagK, h1], h2, rfl, rfl⟩

theorem boolTag_sound (hg : Good env content n) {r0 name : List UInt8} {e0 : Bool} (k : Flag)
    (hname : ∀ c ∈ name, c ≠ 0xFF) (h : Inv s outs st kt) (hc : Canon st.font)
    (hs : s.rest <:+ r0) (hl : s.rest.length < r0.length) (hn : s.rest.length < n)
    (ht : s.error = false → e0 = false ∧ ∃ op, r0 = op ++ s.rest ∧ Tag env st op (st.on k) name) :
    TagOut env r0 e0 outs st kt (parseBoolTag content k (name ++ b!">") s) := by
  obtain ⟨b, h1, h2⟩ := h.pushFlag k
  refine nested hg (s1 := { s with flags := setFlag s.flags k b }) hname h2 hc hs hl hn ht
    (popFlagK k) (fun s2 o => popFlagK_spec k s2 o) _ ?_ ?_
  · intro s2 hs2; simp only [parseBoolTag, h1, hs2, popFlagK]; rfl
  · intro e he; simp only [parseBoolTag, h1, he]

theorem boolTag_complete (hg : Good2 env content n) {name inner tail : List UInt8} (k : Flag)
    (h : Inv s outs st kt) (hc : Canon st.font) (hn : s.rest.length < n) (he : s.error = false)
    (hr : s.rest = inner ++ b!"</" ++ name ++ b!">" ++ tail) (hm : Content env (st.on k) inner o) :
    ∃ s', parseBoolTag content k (name ++ b!">") s = .ok s' ∧ Inv s' (outs ++ o) st kt ∧
      s'.rest = tail ∧ s'.error = false := by
  obtain ⟨b, h1, h2⟩ := h.pushFlag k
  refine nested2 hg (s1 := { s with flags := setFlag s.flags k b }) h2 hc hn he hr hm
    (popFlagK k) (fun s2 o => popFlagK_spec k s2 o) _ ?_
  intro s2 hs2; simp only [parseBoolTag, h1, hs2, popFlagK]; rfl

/-! ### italic -/

/-- what `parse_italic` does after the content -/
def popFontK (s : PState F) : Except Fault (PState F) :=
  match onStack (s.font.pop s.size) with
  | .error e => .error e
  | .ok b => .ok { s with font := b }

theorem Inv.pushFont (h : Inv s outs st kt) (f : Font) :
    ∃ b, onStack (s.font.push s.size f) = .ok b ∧
      Inv { s with font := b } outs { st with font := f } { kt with font := st.font :: kt.font } := by
  obtain ⟨b, h1, h2⟩ := push_tracks (len := s.size) (by simp [h.size]) f h.font
  exact ⟨b, h1, h.out, h2, h.color, h.stroke, h.flag⟩

theorem popFontK_spec (f : Font) (s2 : PState F) (o : List (UInt8 × Style F))
    (h : Inv s2 (outs ++ o) { st with font := f } { kt with font := st.font :: kt.font }) :
    ∃ s3, popFontK s2 = .ok s3 ∧ Inv s3 (outs ++ o) st kt ∧ s3.rest = s2.rest ∧
      s3.error = s2.error := by
  obtain ⟨b, h1, h2⟩ := pop_tracks (len := s2.size) (by simp [h.size]) h.font
  exact ⟨{ s2 with font := b }, by rw [popFontK, h1], ⟨h.out, h2, h.color, h.stroke, h.flag⟩, rfl, rfl⟩

/-- formatting inside `<i>` -/
def italicStyle (st : Style F) : Style F :=
  { st with font := Font.make st.font.face.getFamily st.font.face.getWeight .italic st.font.size }

theorem canon_italic (f : Font) :
    Canon (Font.make f.face.getFamily f.face.getWeight .italic f.size) :=
  canon_make _ _ (getWeight_lt _) _ _

theorem italic_same {f : Font} (hc : Canon f) (h : ¬ f.face.getStyle ≠ .italic) :
    Font.make f.face.getFamily f.face.getWeight .italic f.size = f := by
  have h' : f.face.getStyle = .italic := by simpa using h
  rw [← h']; exact hc

theorem parseItalic_sound (hg : Good env content n) {r0 : List UInt8} (h : Inv s outs st kt)
    (hc : Canon st.font) (hr0 : r0 = b!"<i" ++ s.rest) (hn : s.rest.length < n) :
    TagOut env r0 s.error outs st kt (parseItalic content s) := by
  have hsuf := consumeChar_suffix c!">" s.rest
  have hsuf0 : s.rest <:+ r0 := by rw [hr0]; exact List.suffix_append _ _
  have hl0 : s.rest.length < r0.length := by rw [hr0]; simp; omega
  have hle := hsuf.length_le
  simp only [parseItalic]
  by_cases he : (consumeChar c!">" s.rest).err
  · simp only [he, if_true]
    exact tagOut_err (h.reread _ _) (hsuf.trans hsuf0) (by simp only []; omega) (by simp)
  · simp only [he, Bool.false_eq_true, if_false, Bool.or_false]
    have e1 := consumeChar_inv (c := c!">") (by decide) (l := s.rest) (by simpa using he)
    have h' := h.reread (consumeChar c!">" s.rest).rest s.error
    rw [onStack_current (by exact h.font)]
    simp only []
    have hop : r0 = b!"<i>" ++ (consumeChar c!">" s.rest).rest := by
      rw [hr0]; conv => lhs; rw [e1]
      simp
    by_cases hi : st.font.face.getStyle ≠ .italic
    · simp only [hi, if_true, ne_eq, not_false_eq_true]
      obtain ⟨b, h1, h2⟩ := h'.pushFont
        (Font.make st.font.face.getFamily st.font.face.getWeight .italic st.font.size)
      refine nested hg (name := b!"i") (by decide) h2 (canon_italic _) (hsuf.trans hsuf0)
        (by simp only []; omega) (by simp only []; omega) (fun e => ⟨e, _, hop, .i⟩)
        popFontK (fun s2 o => popFontK_spec _ s2 o) _ ?_ ?_
      · intro s2 hs2
        simp only [PState.size] at h1
        simp only [PState.size, h1]
        simp only [List.cons_append, List.nil_append] at hs2
        rw [hs2]; rfl
      · intro e he
        simp only [PState.size] at h1
        simp only [PState.size, h1]
        simp only [List.cons_append, List.nil_append] at he
        rw [he]
    · simp only [hi, if_false]
      have hst : italicStyle st = st := by rw [italicStyle, italic_same hc hi]
      have htag : Tag env st b!"<i>" (italicStyle st) b!"i" := .i
      rw [hst] at htag
      refine nested hg (name := b!"i") (by decide) h' hc (hsuf.trans hsuf0)
        (by simp only []; omega) (by simp only []; omega)
        (fun e => ⟨e, _, hop, htag⟩)
        .ok (fun s2 o hs => ⟨s2, rfl, hs, rfl, rfl⟩) _ ?_ ?_
      · intro s2 hs2; exact hs2
      · intro s2 hs2; exact hs2

theorem parseItalic_complete (hg : Good2 env content n) {inner tail : List UInt8} (h : Inv s outs st kt)
    (hc : Canon st.font) (hn : s.rest.length < n) (he : s.error = false)
    (hr : s.rest = b!">" ++ (inner ++ b!"</" ++ b!"i" ++ b!">" ++ tail))
    (hm : Content env (italicStyle st) inner o) :
    ∃ s', parseItalic content s = .ok s' ∧ Inv s' (outs ++ o) st kt ∧
      s'.rest = tail ∧ s'.error = false := by
  have hlen : (inner ++ b!"</" ++ b!"i" ++ b!">" ++ tail).length < n := by
    rw [hr] at hn; simp at hn ⊢; omega
  have hcc : consumeChar c!">" s.rest = ⟨(), false, inner ++ b!"</" ++ b!"i" ++ b!">" ++ tail⟩ := by
    rw [hr]; exact consumeChar_ok _ _
  simp only [parseItalic, hcc, Bool.false_eq_true, if_false, Bool.or_false]
  have h' := h.reread (inner ++ b!"</" ++ b!"i" ++ b!">" ++ tail) s.error
  rw [onStack_current (by exact h.font)]
  simp only []
  by_cases hi : st.font.face.getStyle ≠ .italic
  · simp only [hi, if_true, ne_eq, not_false_eq_true]
    obtain ⟨b, h1, h2⟩ := h'.pushFont
      (Font.make st.font.face.getFamily st.font.face.getWeight .italic st.font.size)
    refine nested2 hg (name := b!"i") h2 (canon_italic _) hlen he rfl hm
      popFontK (fun s2 o => popFontK_spec _ s2 o) _ ?_
    intro s2 hs2
    simp only [PState.size] at h1
    simp only [PState.size, h1]
    simp only [List.cons_append, List.nil_append] at hs2
    rw [hs2]; rfl
  · simp only [hi, if_false]
    have hst : italicStyle st = st := by rw [italicStyle, italic_same hc hi]
    rw [hst] at hm
    refine nested2 hg (name := b!"i") h' hc hlen he rfl hm
      .ok (fun s2 o hs => ⟨s2, rfl, hs, rfl, rfl⟩) _ ?_
    intro s2 hs2; exact hs2

/-! ### font -/

/-- what `parse_font` does after the content -/
def popFontColorK (ch cc : Bool) (s : PState F) : Except Fault (PState F) :=
  match popIf ch s.font s.size with
  | .error e => .error e
  | .ok fb =>
    match popIf cc s.color s.size with
    | .error e => .error e
    | .ok cb => .ok { s with font := fb, color := cb }

/-- formatting inside `<font>` as the code computes it -/
def fontStyle (st : Style F) (ch cc : Bool) (f : Font) (c : Color F) : Style F :=
  { st with font := if ch then f else st.font, color := if cc then c else st.color }

/-- the stacks inside `<font>` -/
def fontTails (kt : Tails F) (st : Style F) (ch cc : Bool) : Tails F :=
  { kt with
    font := if ch then st.font :: kt.font else kt.font
    color := if cc then st.color :: kt.color else kt.color }

theorem Inv.pushFontColor (h : Inv s outs st kt) (ch cc : Bool) (f : Font) (c : Color F) :
    ∃ fb cb, pushIf ch s.font s.size f = .ok fb ∧ pushIf cc s.color s.size c = .ok cb ∧
      Inv { s with font := fb, color := cb } outs (fontStyle st ch cc f c) (fontTails kt st ch cc) := by
  obtain ⟨fb, h1, h2⟩ := pushIf_tracks (len := s.size) (by simp [h.size]) ch f h.font
  obtain ⟨cb, h3, h4⟩ := pushIf_tracks (len := s.size) (by simp [h.size]) cc c h.color
  exact ⟨fb, cb, h1, h3, h.out, h2, h4, h.stroke, h.flag⟩

theorem popFontColorK_spec (ch cc : Bool) (f : Font) (c : Color F) (s2 : PState F)
    (o : List (UInt8 × Style F))
    (h : Inv s2 (outs ++ o) (fontStyle st ch cc f c) (fontTails kt st ch cc)) :
    ∃ s3, popFontColorK ch cc s2 = .ok s3 ∧ Inv s3 (outs ++ o) st kt ∧ s3.rest = s2.rest ∧
      s3.error = s2.error := by
  obtain ⟨fb, h1, h2⟩ := popIf_tracks (len := s2.size) (by simp [h.size]) ch h.font
  obtain ⟨cb, h3, h4⟩ := popIf_tracks (len := s2.size) (by simp [h.size]) cc h.color
  exact ⟨{ s2 with font := fb, color := cb }, by rw [popFontColorK, h1]; simp only [h3], ⟨h.out, h2, h4, h.stroke, h.flag⟩, rfl, rfl⟩

theorem fontStyle_eq (hc : Canon st.font) (a : FontAttrs F) (f : Font × Color F → Font × Color F)
    (c0 : Color F) (hp : ∀ p, a.eff p = f (({ color := c0 } : FontAttrs F).eff p)) :
    fontStyle st (a.changes st.font) a.colorChange (a.apply st.font) a.color =
      { st with font := (f (st.font, st.color)).1, color := (f (st.font, st.color)).2 } := by
  have h0 := eff_default c0 (st.font, st.color) hc
  have h1 := hp (st.font, st.color)
  rw [h0] at h1
  rw [← h1]
  unfold fontStyle FontAttrs.eff
  cases hch : a.changes st.font with
  | true => rfl
  | false => simp [apply_of_not_changes a st.font hc hch]

theorem fontStyle_canon (hc : Canon st.font) (a : FontAttrs F) (hw : a.weight.toNat < 16) :
    Canon (fontStyle st (a.changes st.font) a.colorChange (a.apply st.font) a.color).font := by
  unfold fontStyle
  cases a.changes st.font with
  | true => exact apply_canon a hw _
  | false => exact hc

theorem parseFont_sound (hg : Good env content n) {r0 : List UInt8} (h : Inv s outs st kt)
    (hc : Canon st.font) (hr0 : r0 = b!"<f" ++ s.rest) (hn : s.rest.length < n) :
    TagOut env r0 s.error outs st kt (parseFont env content s) := by
  have hsuf := consumeWord_suffix b!"ont" s.rest
  have hsuf0 : s.rest <:+ r0 := by rw [hr0]; exact List.suffix_append _ _
  have hl0 : s.rest.length < r0.length := by rw [hr0]; simp; omega
  have hle := hsuf.length_le
  simp only [parseFont]
  by_cases he : (consumeWord b!"ont" s.rest).err
  · simp only [he, if_true]
    exact tagOut_err (h.reread _ _) (hsuf.trans hsuf0) (by simp only []; omega) rfl
  · simp only [he, Bool.false_eq_true, if_false]
    have e1 := consumeWord_inv (w := b!"ont") (by decide) (l := s.rest) (by simpa using he)
    generalize (consumeWord b!"ont" s.rest).rest = l at e1 hsuf hle
    rcases parseFontAttrs_sound env (l.length + 1)
        { color := ⟨env.zero, env.zero, env.zero, env.zero⟩ } s.error l (by omega) (by show (3#8).toNat < 16; decide) with
      ⟨q, h1, h2, h3, h4⟩ | ⟨h1, h2⟩
    · simp only [h1]
      rw [onStack_current (by exact h.font)]
      simp only []
      have hle2 := h2.length_le
      obtain ⟨fb, cb, g1, g2, g3⟩ := (h.reread q.rest q.err).pushFontColor
        (q.val.changes st.font) q.val.colorChange (q.val.apply st.font) q.val.color
      simp only [PState.size] at g1 g2
      simp only [PState.size, g1, g2]
      refine nested hg (name := b!"font") (by decide) g3 (fontStyle_canon hc _ h3)
        ((h2.trans hsuf).trans hsuf0) (by simp only []; omega) (by simp only []; omega) ?_
        (popFontColorK (q.val.changes st.font) q.val.colorChange)
        (fun s2 o => popFontColorK_spec _ _ _ _ s2 o) _ ?_ ?_
      · intro e
        obtain ⟨e0, m, f, em, hm, hp⟩ := h4 e
        refine ⟨e0, b!"<font" ++ m ++ b!">", ?_, ?_⟩
        · rw [hr0, e1, em]; simp
        · rw [fontStyle_eq hc _ f _ hp]
          exact .font m f hm
      · intro s2 hs2
        simp only [List.cons_append, List.nil_append] at hs2
        rw [hs2]; rfl
      · intro e he
        simp only [List.cons_append, List.nil_append] at he
        rw [he]
    · right
      simp only [h1]
      exact ⟨trivial, fun hsafe => h2 (hsafe.suffix (hsuf.trans hsuf0))⟩

theorem parseFont_complete (hg : Good2 env content n) {a inner tail : List UInt8}
    {f : Font × Color F → Font × Color F} (h : Inv s outs st kt)
    (hc : Canon st.font) (hn : s.rest.length < n) (he : s.error = false)
    (hr : s.rest = b!"ont" ++ (a ++ c!">" :: (inner ++ b!"</" ++ b!"font" ++ b!">" ++ tail)))
    (ha : FontAttrList env a f)
    (hm : Content env { st with font := (f (st.font, st.color)).1, color := (f (st.font, st.color)).2 }
      inner o) :
    ∃ s', parseFont env content s = .ok s' ∧ Inv s' (outs ++ o) st kt ∧
      s'.rest = tail ∧ s'.error = false := by
  have hlen : (inner ++ b!"</" ++ b!"font" ++ b!">" ++ tail).length < n := by
    rw [hr] at hn; simp at hn ⊢; omega
  have hcc : consumeWord b!"ont" s.rest =
      ⟨(), false, a ++ c!">" :: (inner ++ b!"</" ++ b!"font" ++ b!">" ++ tail)⟩ := by
    rw [hr]; exact consumeWord_ok _ _
  obtain ⟨b, h1, h2, h3⟩ := parseFontAttrs_complete env ha
    ((a ++ c!">" :: (inner ++ b!"</" ++ b!"font" ++ b!">" ++ tail)).length + 1)
    { color := ⟨env.zero, env.zero, env.zero, env.zero⟩ }
    (inner ++ b!"</" ++ b!"font" ++ b!">" ++ tail) (by omega) (by show (3#8).toNat < 16; decide)
  simp only [parseFont, hcc, Bool.false_eq_true, if_false, he, h1]
  rw [onStack_current (by exact h.font)]
  simp only []
  obtain ⟨fb, cb, g1, g2, g3⟩ := (h.reread (inner ++ b!"</" ++ b!"font" ++ b!">" ++ tail) false).pushFontColor
    (b.changes st.font) b.colorChange (b.apply st.font) b.color
  simp only [PState.size] at g1 g2
  simp only [PState.size, g1, g2]
  rw [← fontStyle_eq hc b f _ h3] at hm
  refine nested2 hg (name := b!"font") g3 (fontStyle_canon hc _ h2) hlen rfl rfl hm
    (popFontColorK (b.changes st.font) b.colorChange)
    (fun s2 o => popFontColorK_spec _ _ _ _ s2 o) _ ?_
  intro s2 hs2
  simp only [List.cons_append, List.nil_append] at hs2
  rw [hs2]; rfl

/-! ### stroke -/

/-- what `parse_stroke` does after the content -/
def popStrokeK (s : PState F) : Except Fault (PState F) :=
  match onStack (s.stroke.pop s.size) with
  | .error e => .error e
  | .ok b => .ok { s with stroke := b }

theorem Inv.pushStroke (h : Inv s outs st kt) (x : StrokeState F) :
    ∃ b, onStack (s.stroke.push s.size x) = .ok b ∧
      Inv { s with stroke := b } outs { st with stroke := x } { kt with stroke := st.stroke :: kt.stroke } := by
  obtain ⟨b, h1, h2⟩ := push_tracks (len := s.size) (by simp [h.size]) x h.stroke
  exact ⟨b, h1, h.out, h.font, h.color, h2, h.flag⟩

theorem popStrokeK_spec (x : StrokeState F) (s2 : PState F) (o : List (UInt8 × Style F))
    (h : Inv s2 (outs ++ o) { st with stroke := x } { kt with stroke := st.stroke :: kt.stroke }) :
    ∃ s3, popStrokeK s2 = .ok s3 ∧ Inv s3 (outs ++ o) st kt ∧ s3.rest = s2.rest ∧
      s3.error = s2.error := by
  obtain ⟨b, h1, h2⟩ := pop_tracks (len := s2.size) (by simp [h.size]) h.stroke
  exact ⟨{ s2 with stroke := b }, by rw [popStrokeK, h1], ⟨h.out, h.font, h.color, h2, h.flag⟩, rfl, rfl⟩

theorem parseStroke_sound (hg : Good env content n) {r0 : List UInt8} (h : Inv s outs st kt)
    (hc : Canon st.font) (hr0 : r0 = b!"<st" ++ s.rest) (hn : s.rest.length < n) :
    TagOut env r0 s.error outs st kt (parseStroke env content s) := by
  have hsuf := consumeWord_suffix b!"roke" s.rest
  have hsuf0 : s.rest <:+ r0 := by rw [hr0]; exact List.suffix_append _ _
  have hl0 : s.rest.length < r0.length := by rw [hr0]; simp; omega
  have hle := hsuf.length_le
  simp only [parseStroke]
  by_cases he : (consumeWord b!"roke" s.rest).err
  · simp only [he, if_true]
    exact tagOut_err (h.reread _ _) (hsuf.trans hsuf0) (by simp only []; omega) rfl
  · simp only [he, Bool.false_eq_true, if_false]
    have e1 := consumeWord_inv (w := b!"roke") (by decide) (l := s.rest) (by simpa using he)
    generalize (consumeWord b!"roke" s.rest).rest = l at e1 hsuf hle
    rcases parseStrokeAttrs_sound env (l.length + 1) env.defaultStroke s.error l (by omega) with
      ⟨q, h1, h2, h4⟩ | ⟨h1, h2⟩
    · simp only [h1]
      have hle2 := h2.length_le
      obtain ⟨b, g1, g3⟩ := (h.reread q.rest q.err).pushStroke q.val
      simp only [PState.size] at g1
      simp only [PState.size, g1]
      refine nested hg (name := b!"stroke") (by decide) g3 hc
        ((h2.trans hsuf).trans hsuf0) (by simp only []; omega) (by simp only []; omega) ?_
        popStrokeK (fun s2 o => popStrokeK_spec _ s2 o) _ ?_ ?_
      · intro e
        obtain ⟨e0, m, f, em, hm, hp⟩ := h4 e
        refine ⟨e0, b!"<stroke" ++ m ++ b!">", ?_, ?_⟩
        · rw [hr0, e1, em]; simp
        · rw [hp]
          exact .stroke m f hm
      · intro s2 hs2
        simp only [List.cons_append, List.nil_append] at hs2
        rw [hs2]; rfl
      · intro e he
        simp only [List.cons_append, List.nil_append] at he
        rw [he]
    · right
      simp only [h1]
      exact ⟨trivial, fun hsafe => h2 (hsafe.suffix (hsuf.trans hsuf0))⟩

theorem parseStroke_complete (hg : Good2 env content n) {a inner tail : List UInt8}
    {f : StrokeState F → StrokeState F} (h : Inv s outs st kt)
    (hc : Canon st.font) (hn : s.rest.length < n) (he : s.error = false)
    (hr : s.rest = b!"roke" ++ (a ++ c!">" :: (inner ++ b!"</" ++ b!"stroke" ++ b!">" ++ tail)))
    (ha : StrokeAttrList env a f)
    (hm : Content env { st with stroke := f ⟨⟨env.zero, env.zero, env.zero, env.one⟩, 1, .round⟩ }
      inner o) :
    ∃ s', parseStroke env content s = .ok s' ∧ Inv s' (outs ++ o) st kt ∧
      s'.rest = tail ∧ s'.error = false := by
  have hlen : (inner ++ b!"</" ++ b!"stroke" ++ b!">" ++ tail).length < n := by
    rw [hr] at hn; simp at hn ⊢; omega
  have hcc : consumeWord b!"roke" s.rest =
      ⟨(), false, a ++ c!">" :: (inner ++ b!"</" ++ b!"stroke" ++ b!">" ++ tail)⟩ := by
    rw [hr]; exact consumeWord_ok _ _
  have h1 := parseStrokeAttrs_complete env ha
    ((a ++ c!">" :: (inner ++ b!"</" ++ b!"stroke" ++ b!">" ++ tail)).length + 1)
    env.defaultStroke (inner ++ b!"</" ++ b!"stroke" ++ b!">" ++ tail) (by omega)
  simp only [parseStroke, hcc, Bool.false_eq_true, if_false, he, h1]
  obtain ⟨b, g1, g3⟩ := (h.reread (inner ++ b!"</" ++ b!"stroke" ++ b!">" ++ tail) false).pushStroke
    (f env.defaultStroke)
  simp only [PState.size] at g1
  simp only [PState.size, g1]
  refine nested2 hg (name := b!"stroke") g3 hc hlen rfl rfl hm
    popStrokeK (fun s2 o => popStrokeK_spec _ s2 o) _ ?_
  intro s2 hs2
  simp only [List.cons_append, List.nil_append] at hs2
  rw [hs2]; rfl

end RichText
