import Verif.Props.TextBoxNav
import Verif.Props.Built
/-!
C134: Up, Down, Home and End take the caret from line to line.
-/
namespace RichText
variable {β φ : Type}

/-- A text box with the focus that shows left-to-right text in the lines `ls`, with its caret where the layout has the cursor; `B` are the
grapheme boundaries of the text. -/
structure TextBox.ShowsLines (e : BoxEnv φ) (s : TextBox φ) (ls : List (LineSpec φ)) (B : Nat → Prop) : Prop where
  focused : s.focused = true
  stores : ∃ y, Stores s.layout ls [] y
  lines : ls ≠ []
  /-- every line has a run -/
  ne : ∀ l ∈ ls, l.runs ≠ []
  /-- size of the vectors -/
  size : s.layout.pos.length < 4294967296
  /-- directions and positions in the text -/
  ltr : LtrText ls
  /-- an empty run follows a separator -/
  empty : ∀ i r t, (allRuns ls)[i]? = some r → (allRuns ls)[i + 1]? = some t → t.charStart = t.charEnd → 0 < r.charEndOffset
  /-- lines as the layout builder makes them -/
  proper : ∀ l ∈ ls, ProperLine l
  follow : FollowsBoundaries (e.breaks s.ctrl).follow B
  /-- grapheme clusters do not reach over the end of a run -/
  ends : ∀ r ∈ allRuns ls, B r.charEnd
  caret : s.layout.cursorPixelPos e.width e.align s.cursor.1 s.cursor.2 = some s.info

/-- Keys that move the caret by lines. -/
def TextBox.Input.byLine : TextBox.Input → Prop
  | .up _ => True
  | .down _ => True
  | .home _ ctrl => ctrl = false
  | .end _ ctrl => ctrl = false
  | _ => False

/-- The line of the caret behind a key, of `n` lines: one up or down if there is one, else the same. -/
def TextBox.Input.lineAfter (n : Nat) (line : Nat) : TextBox.Input → Nat
  | .up _ => line - 1
  | .down _ => if line + 1 < n then line + 1 else line
  | _ => line

/-- The line of a resolved position. -/
theorem pixelPos_line {L : Layout φ} {W : Rat} {al : XAlignment} {p : Nat} {a : Affinity} {i : Layout.CursorInfo} {k m : Nat}
    (hi : L.cursorPixelPos W al p a = some i) (hr : L.runContaining p a = some (k, m)) : i.line = m := by
  unfold Layout.cursorPixelPos at hi
  rw [hr] at hi
  simp only at hi
  repeat' split at hi
  all_goals first | (cases hi; done) | (cases hi; rfl)

/-- A cursor set to a position of line `m`. -/
theorem TextBox.ShowsLines.set {e : BoxEnv φ} {s : TextBox φ} {ls : List (LineSpec φ)} {B : Nat → Prop} (h : s.ShowsLines e ls B) {c : Cursor} {k m : Nat}
    (hc : s.layout.runContaining c.1 c.2 = some (k, m)) (shift : Bool) :
    ∃ s', setCursor e s c shift = some s' ∧ s'.ShowsLines e ls B ∧ s'.layout = s.layout ∧ s'.text = s.text ∧ s'.info.line = m := by
  obtain ⟨y, hy⟩ := h.stores
  obtain ⟨i, hi, _⟩ := cursorPixelPos_total hy h.ne h.lines h.size e.width e.align c.1 c.2
  refine ⟨{ s with sel := if shift then (match s.sel with | none => some s.cursor | some c => some c) else none, cursor := c, info := i, timer := 0, flash := 0 }, ?_,
    ⟨h.focused, ⟨y, hy⟩, h.lines, h.ne, h.size, h.ltr, h.empty, h.proper, h.follow, h.ends, hi⟩, rfl, rfl, pixelPos_line hi hc⟩
  unfold setCursor
  rw [hi]
  rfl

theorem TextBox.ShowsLines.step {e : BoxEnv φ} {s : TextBox φ} {ls : List (LineSpec φ)} {B : Nat → Prop} (h : s.ShowsLines e ls B) {i : TextBox.Input}
    (hi : i.byLine) : ∃ s', handle e s i = some s' ∧ s'.ShowsLines e ls B ∧ s'.layout = s.layout ∧ s'.text = s.text ∧
      s'.info.line = i.lineAfter s.layout.lines.length s.info.line := by
  obtain ⟨y, hy⟩ := h.stores
  have hcount := hy.lineCount
  have hpos : 0 < ls.length := List.length_pos_iff.2 h.lines
  have hline : s.info.line < s.layout.lines.length := by
    obtain ⟨j, hj, hlt⟩ := cursorPixelPos_total hy h.ne h.lines h.size e.width e.align s.cursor.1 s.cursor.2
    rw [h.caret] at hj
    cases hj
    exact hlt
  have hstay : ∃ k, s.layout.runContaining s.cursor.1 s.cursor.2 = some (k, s.info.line) := by
    obtain ⟨k, m, h1, _⟩ := C22_line_number hy h.ne h.lines s.cursor.1 s.cursor.2
    exact ⟨k, by rw [h1, pixelPos_line h.caret h1]⟩
  have hclose : ∀ m < s.layout.lines.length, ∀ x, ∃ c k, (e.breaks s.ctrl).closestInLine s.layout e.width e.align m x = some c ∧
      s.layout.runContaining c.1 c.2 = some (k, m) := by
    intro m hm x
    have hm' : m < ls.length := by omega
    have hl := List.getElem?_eq_getElem hm'
    have hmem := List.mem_of_getElem? hl
    obtain ⟨p, a, k, h1, h2, _⟩ := click_resolves hy h.ne h.size h.ltr h.empty m _ hl (h.proper _ hmem) e.width e.align _ B h.follow
      (fun r hr => h.ends r (List.mem_flatMap.2 ⟨_, hmem, hr⟩)) x
    exact ⟨(p, a), k, h1, h2⟩
  obtain ⟨k0, hk0⟩ := hstay
  cases i with
  | up shift =>
    simp only [handle, h.focused, if_true, key, prevLine, Input.lineAfter]
    by_cases h0 : s.info.line > 0
    · rw [if_pos h0]
      obtain ⟨c, k, h1, h2⟩ := hclose (s.info.line - 1) (by omega) s.info.x
      rw [h1]
      exact h.set h2 shift
    · rw [if_neg h0]
      have : s.info.line - 1 = s.info.line := by omega
      rw [this]
      exact h.set hk0 shift
  | down shift =>
    simp only [handle, h.focused, if_true, key, nextLine, Input.lineAfter]
    by_cases h0 : s.info.line + 1 < s.layout.lines.length
    · rw [if_pos (by omega), if_pos h0]
      obtain ⟨c, k, h1, h2⟩ := hclose (s.info.line + 1) h0 s.info.x
      rw [h1]
      exact h.set h2 shift
    · rw [if_neg (by omega), if_neg h0]
      exact h.set hk0 shift
  | home shift ctrl =>
    have hc : ctrl = false := hi
    subst hc
    obtain ⟨⟨p, a, k, h1, h2⟩, _⟩ := C23_resolve_partial hy h.ne h.ltr s.info.line (by omega)
    simp only [handle, h.focused, if_true, key, lineStart, Bool.false_eq_true, if_false, h1]
    exact h.set (c := (p, a)) h2 shift
  | «end» shift ctrl =>
    have hc : ctrl = false := hi
    subst hc
    obtain ⟨_, p, a, k, h1, h2⟩ := C23_resolve_partial hy h.ne h.ltr s.info.line (by omega)
    simp only [handle, h.focused, if_true, key, lineEnd, Bool.false_eq_true, if_false, h1]
    exact h.set (c := (p, a)) h2 shift
  | _ => exact absurd hi id

/-- C134 (partial: left-to-right text).  Whatever sequence of Up, Down, Home and End is pressed, with or without Shift: the text stays, and the
caret is on the line the keys stand for. -/
theorem C134_walk_partial {e : BoxEnv φ} {ls : List (LineSpec φ)} {B : Nat → Prop} : ∀ (is : List TextBox.Input) {s : TextBox φ},
    s.ShowsLines e ls B → (∀ i ∈ is, i.byLine) → ∃ s', TextBox.run e s is = some s' ∧ s'.ShowsLines e ls B ∧ s'.layout = s.layout ∧
      s'.text = s.text ∧ s'.info.line = is.foldl (TextBox.Input.lineAfter s.layout.lines.length) s.info.line
  | [], s, h, _ => ⟨s, rfl, h, rfl, rfl, rfl⟩
  | i :: is, s, h, hi => by
    obtain ⟨s1, e1, h1, l1, t1, n1⟩ := h.step (hi i List.mem_cons_self)
    obtain ⟨s2, e2, h2, l2, t2, n2⟩ := C134_walk_partial is h1 (fun j hj => hi j (List.mem_cons_of_mem _ hj))
    refine ⟨s2, ?_, h2, l2.trans l1, t2.trans t1, ?_⟩
    · rw [TextBox.run, e1]
      exact e2
    · rw [n2, l1, n1]
      rfl

theorem lineAfter_down (n : Nat) (shift : Bool) : ∀ (k l : Nat), l < n →
    (List.replicate k (TextBox.Input.down shift)).foldl (TextBox.Input.lineAfter n) l = min (l + k) (n - 1)
  | 0, l, h => by
    show l = _
    omega
  | k + 1, l, h => by
    rw [List.replicate_succ, List.foldl_cons]
    show List.foldl _ (if l + 1 < n then l + 1 else l) _ = _
    split
    · rw [lineAfter_down n shift k _ (by omega)]
      omega
    · rw [lineAfter_down n shift k _ (by omega)]
      omega

theorem lineAfter_up (n : Nat) (shift : Bool) : ∀ (k l : Nat),
    (List.replicate k (TextBox.Input.up shift)).foldl (TextBox.Input.lineAfter n) l = l - k
  | 0, l => rfl
  | k + 1, l => by
    rw [List.replicate_succ, List.foldl_cons]
    show List.foldl _ (l - 1) _ = _
    rw [lineAfter_up n shift k]
    omega

/-- C134: every line is reached from every other by pressing Down or Up as often as it is lines away, and Up takes back what Down did. -/
theorem C134_reach_partial {e : BoxEnv φ} {ls : List (LineSpec φ)} {B : Nat → Prop} {s : TextBox φ} (h : s.ShowsLines e ls B) (shift : Bool) (k : Nat) :
    (∃ s', TextBox.run e s (List.replicate k (.down shift)) = some s' ∧ s'.info.line = min (s.info.line + k) (s.layout.lines.length - 1)) ∧
    (∃ s', TextBox.run e s (List.replicate k (.up shift)) = some s' ∧ s'.info.line = s.info.line - k) ∧
    (s.info.line + k < s.layout.lines.length →
      ∃ s', TextBox.run e s (List.replicate k (.down shift) ++ List.replicate k (.up shift)) = some s' ∧ s'.info.line = s.info.line) := by
  obtain ⟨y, hy⟩ := h.stores
  have hline : s.info.line < s.layout.lines.length := by
    obtain ⟨j, hj, hlt⟩ := cursorPixelPos_total hy h.ne h.lines h.size e.width e.align s.cursor.1 s.cursor.2
    rw [h.caret] at hj
    cases hj
    exact hlt
  have hd : ∀ i ∈ List.replicate k (TextBox.Input.down shift), i.byLine := fun i hi => by
    rw [List.eq_of_mem_replicate hi]; trivial
  have hu : ∀ i ∈ List.replicate k (TextBox.Input.up shift), i.byLine := fun i hi => by
    rw [List.eq_of_mem_replicate hi]; trivial
  refine ⟨?_, ?_, fun hk => ?_⟩
  · obtain ⟨s', e1, _, _, _, n1⟩ := C134_walk_partial _ h hd
    exact ⟨s', e1, by rw [n1, lineAfter_down _ _ _ _ hline]⟩
  · obtain ⟨s', e1, _, _, _, n1⟩ := C134_walk_partial _ h hu
    exact ⟨s', e1, by rw [n1, lineAfter_up]⟩
  · obtain ⟨s', e1, _, _, _, n1⟩ := C134_walk_partial (List.replicate k (.down shift) ++ List.replicate k (.up shift)) h (by
      intro i hi
      rcases List.mem_append.1 hi with hi | hi
      · exact hd i hi
      · exact hu i hi)
    refine ⟨s', e1, ?_⟩
    rw [n1, List.foldl_append, lineAfter_down _ _ _ _ hline, lineAfter_up]
    omega

/-- C134: a text box that shows what the layout builder made of left-to-right text, its caret where the layout has the cursor, is such a text
box, if grapheme clusters do not reach over the ends of runs. -/
theorem C134_built (L : Layout φ) (ps : List (Paragraph β φ)) (count : Nat) (h : Paragraphs count 0 ps) (hP : Placed ps) (hps : ps ≠ [])
    (hL : ∀ p ∈ ps, 0 < p.length - p.separator → p.env.Ltr) (hcount : count < 2147483648) (yAlign : YAlignment) (H : Rat) :
    ∃ L', buildLayout L ps count yAlign H = some L' ∧ (L'.pos.length < 4294967296 → ∀ (e : BoxEnv φ) (s : TextBox φ) (B : Nat → Prop),
      s.layout = L' → s.focused = true → FollowsBoundaries (e.breaks s.ctrl).follow B → (∀ r ∈ L'.runs, B r.charEnd) →
      L'.cursorPixelPos e.width e.align s.cursor.1 s.cursor.2 = some s.info → ∃ ls, s.ShowsLines e ls B) := by
  obtain ⟨L', body, y, h1, h2, h3, h4, h5, h6⟩ := build_spec L ps count h hP yAlign H
  refine ⟨L', h1, fun hsize e s B hs hfoc hf hB hc => ⟨_, hfoc, ⟨y, by rw [hs]; exact h2⟩, ?_, fun l hl => (h3 l hl).nonempty, by rw [hs]; exact hsize,
    (h6 hL).text_of.1, (h6 hL).text_of.2, fun l hl => ?_, hf, ?_, by rw [hs]; exact hc⟩⟩
  · intro h0
    exact h4 hps (List.append_eq_nil_iff.1 h0).1
  · have hr : ∀ r ∈ l.runs, r.charEnd ≤ count := fun r hr => h5 r (List.mem_flatMap.2 ⟨l, hl, hr⟩)
    exact ⟨(h3 l hl).runs, (h3 l hl).abut, fun r hr' => Nat.lt_of_le_of_lt (hr r hr') hcount⟩
  · intro r hr
    obtain ⟨i, hi⟩ := List.mem_iff_getElem?.1 hr
    have := h2.runs i r (by rw [List.append_nil]; exact hi)
    exact hB _ (List.mem_of_getElem? this)

/-! ### Where it ends, and a concrete case -/

/-- Text of three letters. -/
def walkEnv : BoxEnv Nat where
  breaks _ := asciiEnv [97, 98, 99]
  content t := t
  layout _ _ := {}
  width := 100
  align := .left
  emptyHeight := 10

/-- The layout of `ab` and `c` in two lines. -/
def walkLayout : Layout Nat :=
  (execLayout {} [.run 0 [⟨1, 0, 0, 0⟩, ⟨2, 1, 5, 0⟩] 9 0 0 2 false, .line 10 8, .run 0 [⟨3, 2, 0, 0⟩] 4 0 2 3 false, .line 10 8]).getD {}

/-- The caret at the end of the first line. -/
def walkBox : TextBox Nat where
  text := []
  focused := true
  layout := walkLayout
  cursor := (2, .opposite)
  info := ⟨9, 0, 10, 0⟩

theorem walkBox_shows : walkBox.ShowsLines walkEnv wrapLines (fun b => b ≤ 3) := by
  have h0 : Draft.steps {} [.run 0 [⟨1, 0, 0, 0⟩, ⟨2, 1, 5, 0⟩] 9 0 0 2 false, .line 10 8,
      .run 0 [⟨3, 2, 0, 0⟩] 4 0 2 3 false, .line 10 8] = some (⟨wrapLines, [], 0⟩ : Draft Nat) := rfl
  obtain ⟨L, hL, hs⟩ := C19_stores _ _ h0
  have hw : walkBox.layout = L := by
    show walkLayout = L
    unfold walkLayout
    rw [hL]
    rfl
  refine ⟨rfl, ⟨0, by rw [hw]; exact hs⟩, by decide, by decide, by decide +kernel, wrapLines_ok.1, wrapLines_ok.2.2, wrapLines_ok.2.1, ?_, by decide, by decide +kernel⟩
  exact succ_follows 3 (by omega)

/-- Down and Up from the end of the first line: back on the line, but behind the first letter. -/
theorem C134_column_violated : ∃ (e : BoxEnv Nat) (s : TextBox Nat) (ls : List (LineSpec Nat)) (B : Nat → Prop), s.ShowsLines e ls B ∧
    s.cursor = (2, .opposite) ∧ (TextBox.run e s [.down false, .up false]).map (fun s => (s.cursor, s.info.line)) = some ((1, .default), 0) :=
  ⟨walkEnv, walkBox, wrapLines, _, walkBox_shows, rfl, by decide +kernel⟩

/-- Two lines of right-to-left text, the first with a wide letter at its end, the caret at the start of the second. -/
def stuckBox : TextBox Nat where
  focused := true
  layout := (execLayout {} [.run 0 [⟨1, 1, 0, 0⟩, ⟨2, 0, 20, 0⟩] 30 0 0 2 true, .line 10 8, .run 0 [⟨3, 2, 0, 0⟩] 5 0 2 3 true, .line 10 8]).getD {}
  cursor := (2, .default)
  info := ⟨5, 10, 10, 1⟩

/-- C134 is false for right-to-left text: the caret is at the start of the second of two lines, and however often Up is pressed, it stays there. -/
theorem C134_rtl_violated : ∃ (e : BoxEnv Nat) (s : TextBox Nat) (ls : List (LineSpec Nat)), Stores s.layout ls [] 0 ∧
    ls.map (fun l => l.runs.map fun r => (r.charStart, r.charEnd, r.charEndOffset, r.rtl)) = [[(0, 2, 0, true)], [(2, 3, 0, true)]] ∧
    (∀ l ∈ ls, ProperLine l) ∧ FollowsBoundaries (e.breaks s.ctrl).follow (fun b => b ≤ 3) ∧ s.focused = true ∧
    s.layout.cursorPixelPos e.width e.align s.cursor.1 s.cursor.2 = some s.info ∧ s.info.line = 1 ∧
    ∀ k, TextBox.run e s (List.replicate k (.up false)) = some s := by
  have h0 : Draft.steps {} [.run 0 [⟨1, 1, 0, 0⟩, ⟨2, 0, 20, 0⟩] 30 0 0 2 true, .line 10 8,
      .run 0 [⟨3, 2, 0, 0⟩] 5 0 2 3 true, .line 10 8] =
      some (⟨[⟨[⟨0, [⟨1, 1, 0, 0⟩, ⟨2, 0, 20, 0⟩], 30, 0, 0, 2, 0, true⟩], 10, 8⟩,
        ⟨[⟨0, [⟨3, 2, 0, 0⟩], 5, 0, 2, 3, 0, true⟩], 10, 8⟩], [], 0⟩ : Draft Nat) := rfl
  obtain ⟨L, hL, hs⟩ := C19_stores _ _ h0
  have hw : stuckBox.layout = L := by
    unfold stuckBox
    dsimp only
    rw [hL]
    rfl
  refine ⟨walkEnv, stuckBox, _, by rw [hw]; exact hs, rfl, ?_, succ_follows 3 (by omega), rfl, by decide +kernel, rfl, ?_⟩
  · have ab : ∀ (q : RunSpec Nat) (i : Nat) (r s : RunSpec Nat), [q][i]? = some r → [q][i + 1]? = some s → s.xs[0]? = some r.endX := by
      intro q i r s _ h2
      simp at h2
    intro l hl
    simp only [List.mem_cons, List.not_mem_nil, or_false] at hl
    rcases hl with rfl | rfl
    · refine ⟨?_, ab _, by decide⟩
      intro r hr
      simp only [List.mem_cons, List.not_mem_nil, or_false] at hr
      subst hr
      right
      refine ⟨rfl, ?_, ?_, ?_, by decide, pairs_mono ?_⟩
      · intro i g h h1 h2
        have := getElem?_lt h2
        simp at this
        obtain rfl : i = 0 := by omega
        simp at h1 h2; subst h1 h2; decide
      · intro g hg; simp at hg; subst hg; rfl
      · intro h; simp at h
      · simp [RunSpec.xs]; norm_num
    · refine ⟨?_, ab _, by decide⟩
      intro r hr
      simp only [List.mem_cons, List.not_mem_nil, or_false] at hr
      subst hr
      right
      refine ⟨rfl, ?_, ?_, ?_, by decide, pairs_mono ?_⟩
      · intro i g h h1 h2
        simp at h2
      · intro g hg; simp at hg; subst hg; rfl
      · intro h; simp at h
      · simp [RunSpec.xs]
  · have h1 : TextBox.handle walkEnv stuckBox (.up false) = some stuckBox := by
      have e1 : (walkEnv.breaks stuckBox.ctrl).closestInLine stuckBox.layout walkEnv.width walkEnv.align (stuckBox.info.line - 1) stuckBox.info.x =
        some (2, .default) := by decide +kernel
      have e2 : stuckBox.layout.cursorPixelPos walkEnv.width walkEnv.align 2 .default = some ⟨5, 10, 10, 1⟩ := by decide +kernel
      simp only [TextBox.handle, show stuckBox.focused = true from rfl, if_true, TextBox.key, TextBox.prevLine, if_pos (show stuckBox.info.line > 0 by decide), e1, TextBox.setCursor, e2]
      rfl
    intro k
    induction k with
    | zero => rfl
    | succ k ih =>
      rw [List.replicate_succ, TextBox.run, h1]
      exact ih

end RichText
