import Verif.Spec.ScriptRun
import Verif.Proof.ScriptRun
/-!
Script runs (`src/script_run_iterator.cpp`): C36, C37, C38, C39, C61, C62.

`ScriptText.Forward` is the contract of ICU's `U8_FWD_1`.  Scripts are arbitrary
functions of the code point.
-/
namespace RichText

/-! ### Concrete texts -/

/-- The character at a byte offset. -/
def charAt : List Char → Nat → Option Char
  | [], _ => none
  | c :: _, 0 => some c
  | c :: cs, i + 1 => if i + 1 < c.utf8Size then none else charAt cs (i + 1 - c.utf8Size)

/-- Latin is 25, Greek 14, Han 17; everything else Common. -/
def demoScript (c : Int) : Int :=
  if (0x41 ≤ c ∧ c ≤ 0x5a) ∨ (0x61 ≤ c ∧ c ≤ 0x7a) then 25
  else if 0x370 ≤ c ∧ c ≤ 0x3ff then 14
  else if 0x4e00 ≤ c ∧ c ≤ 0x9fff then 17
  else 0

/-- Characters in UTF-8. -/
def textOf (cs : List Char) : ScriptText where
  len := (cs.map Char.utf8Size).sum
  cp i := match charAt cs i with
    | some c => c.toNat
    | none => -1
  fwd i := match charAt cs i with
    | some c => i + c.utf8Size
    | none => i + 1
  script := demoScript

/-- Latin, Greek in brackets, Latin. -/
def demoScriptText : ScriptText := textOf ['a', ' ', '(', 'β', 'γ', ')', ' ', 'c']

/-- A bracket opened in a Latin run closed after Greek. -/
def demoBrackets : ScriptText := textOf ['《', 'a', 'b', ' ', 'α', 'β', '》', ' ', 'z']

/-- Latin, an ill-formed byte at 1, two Greek letters. -/
def demoMalformed : ScriptText where
  len := 6
  cp i := if i = 0 then 0x61 else if i = 2 ∨ i = 4 then 0x3b1 else -1
  fwd i := if i = 2 ∨ i = 4 then i + 2 else i + 1
  script := demoScript

/-- 40 opening brackets, then 40 closing ones. -/
def demoDeep : ScriptText where
  len := 80
  cp i := if i < 40 then 0x28 else 0x29
  fwd i := i + 1
  script := demoScript

theorem demoScriptText_forward : demoScriptText.Forward := by
  unfold ScriptText.Forward; decide +kernel

theorem demoBrackets_forward : demoBrackets.Forward := by
  unfold ScriptText.Forward; decide +kernel

theorem demoMalformed_forward : demoMalformed.Forward := by
  unfold ScriptText.Forward; decide +kernel

theorem demoDeep_forward : demoDeep.Forward := by
  unfold ScriptText.Forward; decide +kernel

/-! ### C36 -/

/-- C36.  `next` is called until it returns false: whatever the text and the
scripts, this takes at most as many runs as there are bytes, and the runs follow
each other from 0 to the end of the text, none of them empty. -/
theorem C36_script_runs_partition (t : ScriptText) (hf : t.Forward) :
    ∃ rs, (∀ fuel, t.len ≤ fuel → ScriptRunIter.init.all t fuel = some rs) ∧ ScriptRuns t.len 0 rs := by
  obtain ⟨rs, h1, h2, h3⟩ := all_spec hf _ t.len .init [] rfl (Nat.le_refl _) (Nat.zero_le _) Rep.init
  refine ⟨rs, ?_, h3⟩
  intro fuel hfu
  obtain ⟨rs', g1, g2, _⟩ := all_spec hf _ fuel .init [] rfl hfu (Nat.zero_le _) Rep.init
  rw [g1, h2.unique g2]

/-- Three runs; the brackets belong to the run they were opened in. -/
example : ScriptRunIter.init.all demoScriptText 10 = some [⟨0, 3, 25⟩, ⟨3, 7, 14⟩, ⟨7, 10, 25⟩] := by decide +kernel

example : ∃ rs, (∀ fuel, 10 ≤ fuel → ScriptRunIter.init.all demoScriptText fuel = some rs) ∧ ScriptRuns 10 0 rs :=
  C36_script_runs_partition demoScriptText demoScriptText_forward

/-! ### C37 -/

/-- C37.  Every character in a run that is not a closing bracket is Common,
Inherited or of the run's script, provided there is no ill-formed byte in the run
up to it; and the run's script is Common or a real one, so that a run reported as
Common has no other character of a real script. -/
theorem C37_one_script_partial (t : ScriptText) (hf : t.Forward) (fuel : Nat) (rs : List ScriptRun)
    (h : ScriptRunIter.init.all t fuel = some rs) (r : ScriptRun) (hr : r ∈ rs) :
    (r.script = 0 ∨ r.script > 1) ∧
    ∀ p, t.Position p → r.start ≤ p → p < r.limit →
      (∀ q, t.Position q → r.start ≤ q → q ≤ p → 0 ≤ t.cp q ∧ t.cp q ≤ 0x10ffff) → (∀ k, ¬ Closes (t.cp p) k) →
      t.script (t.cp p) ≤ 1 ∨ t.script (t.cp p) = r.script := by
  obtain ⟨l, l', h1, h2, h3⟩ := (all_runs hf h).1.mem hf (Nat.zero_le _) .zero r hr
  refine ⟨h3.real (Or.inl rfl), ?_⟩
  intro p hp p1 p2 hw hc
  refine h3.scripts hf rfl (Nat.le_of_lt h1) h2 p hp p1 p2 hw ?_
  rcases pair_cases (t.cp p) with ⟨k, _, hk⟩ | ⟨k, hk, _⟩ | ⟨hk, _⟩
  · right; omega
  · exact absurd hk (hc k)
  · left; exact hk

/-- C37, ill-formed text.  What happens otherwise: a run with an ill-formed byte
goes on to the end of the text or to a closing bracket, whatever the scripts. -/
theorem C37_malformed (t : ScriptText) (hf : t.Forward) (fuel : Nat) (rs : List ScriptRun)
    (h : ScriptRunIter.init.all t fuel = some rs) (r : ScriptRun) (hr : r ∈ rs) (q : Nat) (hq : t.Position q) (q1 : r.start ≤ q)
    (q2 : q < r.limit) (hi : ¬ (0 ≤ t.cp q ∧ t.cp q ≤ 0x10ffff)) : r.limit = t.len ∨ ∃ k, Closes (t.cp r.limit) k := by
  obtain ⟨l, l', h1, h2, h3⟩ := (all_runs hf h).1.mem hf (Nat.zero_le _) .zero r hr
  rcases Nat.lt_or_ge r.limit t.len with hlt | hge
  · right
    have := h3.malformed hf h2 (Nat.le_of_lt h1) (Or.inr ⟨q, hq, q1, q2, hi⟩) hlt
    rcases pair_cases (t.cp r.limit) with ⟨k, _, hk⟩ | ⟨k, hk, _⟩ | ⟨hk, _⟩
    · exact absurd (Or.inr (by omega)) this
    · exact ⟨k, hk⟩
    · exact absurd (Or.inl hk) this
  · left
    have := (h3.range hf (Nat.le_of_lt h1)).2
    omega

/-- C37, where the script comes from.  A run is reported as Common or with the
script of a character in front of its end: of one of the run, or of an earlier one
whose brackets the run closes. -/
theorem C37_origin (t : ScriptText) (hf : t.Forward) (fuel : Nat) (rs : List ScriptRun)
    (h : ScriptRunIter.init.all t fuel = some rs) (r : ScriptRun) (hr : r ∈ rs) :
    r.script = 0 ∨ ∃ p, t.Position p ∧ p < r.limit ∧ 1 < t.script (t.cp p) ∧ t.script (t.cp p) = r.script :=
  (all_runs hf h).1.origin hf (Nat.zero_le _) .zero (by simp) r hr

/-- The closing bracket of the last run was opened in the Latin run. -/
example : ScriptRunIter.init.all demoBrackets 20 = some [⟨0, 6, 25⟩, ⟨6, 10, 14⟩, ⟨10, 15, 25⟩] := by decide +kernel

/-- VIOLATION.  The error code of `uscript_getScript` is never reset within a
call of `next`: behind an ill-formed byte every character counts as having no
script.  Latin, an ill-formed byte, two Greek letters: one run, reported as Latin. -/
theorem C37_violated : ∃ (t : ScriptText) (rs : List ScriptRun) (r : ScriptRun) (p : Nat),
    t.Forward ∧ (∀ fuel, t.len ≤ fuel → ScriptRunIter.init.all t fuel = some rs) ∧ r ∈ rs ∧ t.Position p ∧
    r.start ≤ p ∧ p < r.limit ∧ (∀ k, ¬ Closes (t.cp p) k) ∧ t.script (t.cp p) > 1 ∧ t.script (t.cp p) ≠ r.script := by
  obtain ⟨rs, h1, _⟩ := C36_script_runs_partition demoMalformed demoMalformed_forward
  have h2 : ScriptRunIter.init.all demoMalformed 6 = some [⟨0, 6, 25⟩] := by decide +kernel
  rw [h1 6 (by decide)] at h2
  cases h2
  refine ⟨demoMalformed, _, ⟨0, 6, 25⟩, 4, demoMalformed_forward, h1, by simp,
    .fwd (i := 2) (.fwd (i := 1) (.fwd (i := 0) .zero (by decide)) (by decide)) (by decide), by decide, by decide, ?_, by decide +kernel, by decide +kernel⟩
  intro k hk
  have h3 := (closes_iff _ _).1 hk
  have h4 := getPairIndex_eq (demoMalformed.cp 4)
  have h5 : getPairIndex (demoMalformed.cp 4) = some (-1) := by decide +kernel
  rw [h5, h3] at h4
  have := Option.some.inj h4
  omega

/-- The example text is well-formed. -/
theorem demoScriptText_wellFormed : demoScriptText.WellFormed := by
  intro i hp hi
  have h1 : ∀ i < demoScriptText.len, demoScriptText.cp i ≠ -1 → 0 ≤ demoScriptText.cp i ∧ demoScriptText.cp i ≤ 0x10ffff := by
    decide +kernel
  have h2 : ∀ j < demoScriptText.len, demoScriptText.cp j ≠ -1 → demoScriptText.fwd j < demoScriptText.len →
      demoScriptText.cp (demoScriptText.fwd j) ≠ -1 := by decide +kernel
  refine h1 i hi ?_
  induction hp with
  | zero => decide +kernel
  | @fwd j _ hl ih => exact h2 j hl (ih hl) hi

/-- β in the second run of the example. -/
example : (∀ k, ¬ Closes (demoScriptText.cp 3) k) →
    demoScriptText.script (demoScriptText.cp 3) ≤ 1 ∨ demoScriptText.script (demoScriptText.cp 3) = 14 :=
  (C37_one_script_partial _ demoScriptText_forward 10 [⟨0, 3, 25⟩, ⟨3, 7, 14⟩, ⟨7, 10, 25⟩]
    (by decide +kernel) ⟨3, 7, 14⟩ (by simp)).2 3
    (.fwd (i := 2) (.fwd (i := 1) (.fwd (i := 0) .zero (by decide +kernel)) (by decide +kernel)) (by decide +kernel))
    (by decide) (by decide) fun q hq _ h => demoScriptText_wellFormed q hq (Nat.lt_of_le_of_lt h (by decide +kernel))

/-- The letter before the ill-formed byte of the other example, and the end of the run. -/
example : (t : ScriptRun) → t = ⟨0, 6, 25⟩ → t.limit = demoMalformed.len ∨ ∃ k, Closes (demoMalformed.cp t.limit) k := by
  rintro _ rfl
  exact C37_malformed demoMalformed demoMalformed_forward 6 [⟨0, 6, 25⟩] (by decide +kernel) ⟨0, 6, 25⟩ (by simp) 1
    (.fwd (i := 0) .zero (by decide)) (by decide) (by decide) (by decide +kernel)

/-! ### C38 -/

/-- States of the iterator reached by calls of `next`. -/
inductive ScriptReached (t : ScriptText) : ScriptRunIter → Prop
  | init : ScriptReached t .init
  | next {it it' : ScriptRunIter} {r : ScriptRun} : ScriptReached t it → it.next t = some (some (r, it')) → ScriptReached t it'

/-- C38.  In every state reached, `next` reads and writes only entries 0 to 31 of
the bracket stack (and reads only entries written before) and returns; between
calls the stack pointer is the top entry, or -1 if the stack is empty. -/
theorem C38_bracket_stack_in_range (t : ScriptText) (hf : t.Forward) (it : ScriptRunIter) (h : ScriptReached t it) :
    (∃ res, it.next t = some res) ∧ it.limit ≤ t.len ∧ it.stack.entries.length = 32 ∧
    0 ≤ it.stack.pushCount ∧ it.stack.pushCount ≤ 32 ∧
    (it.stack.pushCount = 0 → it.stack.sp = -1) ∧
    (0 < it.stack.pushCount → 0 ≤ it.stack.sp ∧ it.stack.sp < 32 ∧ ∃ e, it.stack.read it.stack.sp = some e) := by
  have key : ∃ l, Rep it.stack l ∧ it.limit ≤ t.len := by
    induction h with
    | init => exact ⟨[], Rep.init, Nat.zero_le _⟩
    | next _ hn ih =>
      obtain ⟨l, hl, hle⟩ := ih
      exact next_rep hf hl hle hn
  obtain ⟨l, hl, hle⟩ := key
  refine ⟨next_total hf hl, hle, ?_⟩
  exact hl.facts

/-- Forty nested brackets: the stack forgets the first eight. -/
example : (ScriptRunIter.init.next demoDeep).map (·.map (·.1)) = some (some ⟨0, 80, 0⟩) := by decide +kernel

/-- After the first run of the example one bracket is open. -/
example : ∃ it, ScriptReached demoBrackets it ∧ it.limit = 6 ∧ it.stack.pushCount = 1 ∧ it.stack.sp = 0 := by
  cases h : ScriptRunIter.init.next demoBrackets with
  | none =>
    have : (ScriptRunIter.init.next demoBrackets).isSome = true := by decide +kernel
    rw [h] at this; cases this
  | some o =>
    have h2 : (ScriptRunIter.init.next demoBrackets).map (·.map fun x => (x.2.limit, x.2.stack.pushCount, x.2.stack.sp)) =
        some (some (6, 1, 0)) := by decide +kernel
    rw [h] at h2
    cases o with
    | none => cases h2
    | some x =>
      simp at h2
      exact ⟨x.2, .next .init (r := x.1) h, h2⟩

/-! ### C39 -/

/-- C39.  `get_pair_index` is twice the number of the pair for an opening
character, one more for the closing character, and -1 for every other value. -/
theorem C39_pair_index (ch : Int) :
    (∀ k, Opens ch k → getPairIndex ch = some ((2 * k : Nat) : Int)) ∧
    (∀ k, Closes ch k → getPairIndex ch = some ((2 * k + 1 : Nat) : Int)) ∧
    ((∀ k, ¬ Opens ch k ∧ ¬ Closes ch k) → getPairIndex ch = some (-1)) := by
  rw [getPairIndex_eq]
  refine ⟨fun k hk => by rw [(opens_iff _ _).1 hk], fun k hk => by rw [(closes_iff _ _).1 hk], fun h => ?_⟩
  rcases pair_cases ch with ⟨k, hk, _⟩ | ⟨k, hk, _⟩ | ⟨hk, _⟩
  · exact absurd hk (h k).1
  · exact absurd hk (h k).2
  · rw [hk]

/-- The index is the one in the table, whichever of the 34 it is. -/
theorem C39_table (ch : Int) (i : Nat) : getPairIndex ch = some (i : Int) ↔ pairedChars[i]? = some ch := by
  rw [getPairIndex_eq, ← pairOf_iff]
  simp

example : Opens 0x300e 11 ∧ getPairIndex 0x300e = some 22 :=
  ⟨⟨('『', '』'), rfl, rfl⟩, (C39_pair_index 0x300e).1 11 ⟨('『', '』'), rfl, rfl⟩⟩

/-! ### C61 -/

/-- C61.  If the opening brackets are Common or Inherited (they are Common in
Unicode), a bracket that closes one of the 32 latest open brackets is in a run of
the same script as the bracket it closes, wherever both are. -/
theorem C61_matched_brackets (t : ScriptText) (hf : t.Forward)
    (ho : ∀ i k, i < t.len → Opens (t.cp i) k → t.script (t.cp i) ≤ 1) (fuel : Nat) (rs : List ScriptRun)
    (h : ScriptRunIter.init.all t fuel = some rs) (q p : Nat) (hm : t.Matches q p) (r r' : ScriptRun) (hr : r ∈ rs) (hr' : r' ∈ rs)
    (hp : r.start ≤ p ∧ p < r.limit) (hq : r'.start ≤ q ∧ q < r'.limit) : r'.script = r.script := by
  refine (all_runs hf h).1.matched hf ho (done := []) (o := []) (o1 := []) (Nat.zero_le _) .zero (Or.inl rfl)
    ⟨rfl, fun j e x h1 => by simp at h1, fun _ j x h1 => by simp at h1⟩ (fun d hd => by cases hd) (fun d hd => by cases hd)
    r hr p hp.1 hp.2 q hm r' (by simpa using hr') hq.1 hq.2

/-- In the example the bracket opened at 0 in the first run (Latin) is closed at
10, behind Greek: the third run starts there and is Latin. -/
example : demoBrackets.Matches 0 10 ∧
    ScriptRunIter.init.all demoBrackets 15 = some [⟨0, 6, 25⟩, ⟨6, 10, 14⟩, ⟨10, 15, 25⟩] := by
  have hno : ∀ i, getPairIndex (demoBrackets.cp i) = some (-1) → ∀ k, ¬ Opens (demoBrackets.cp i) k ∧ ¬ Closes (demoBrackets.cp i) k := by
    intro i hi k
    rw [getPairIndex_eq] at hi
    have hi := Option.some.inj hi
    rw [opens_iff, closes_iff, hi]
    omega
  refine ⟨⟨[(9, 0)], 9, ?_, by decide +kernel, ⟨('《', '》'), rfl, by decide +kernel⟩, rfl⟩, by decide +kernel⟩
  exact .other (i := 8) (.other (i := 6) (.other (i := 5) (.other (i := 4) (.other (i := 3)
    (.opening (i := 0) (k := 9) .zero (by decide +kernel) ⟨('《', '》'), rfl, by decide +kernel⟩)
    (by decide +kernel) (hno 3 (by decide +kernel))) (by decide +kernel) (hno 4 (by decide +kernel)))
    (by decide +kernel) (hno 5 (by decide +kernel))) (by decide +kernel) (hno 6 (by decide +kernel)))
    (by decide +kernel) (hno 8 (by decide +kernel))

/-- The opening brackets of the example are Common. -/
example : ∀ i k, i < demoBrackets.len → Opens (demoBrackets.cp i) k → demoBrackets.script (demoBrackets.cp i) ≤ 1 := by
  intro i k hi hk
  have h1 : ∀ i < demoBrackets.len, demoBrackets.script (demoBrackets.cp i) ≤ 1 ∨ getPairIndex (demoBrackets.cp i) = some (-1) := by
    decide +kernel
  rcases h1 i hi with h | h
  · exact h
  · rw [getPairIndex_eq, (opens_iff _ _).1 hk] at h
    have := Option.some.inj h
    omega

/-! ### C62 -/

/-- C62.  Runs are as long as possible: in every text a run that ends
before the end of the text has a real script, and the character behind it,
unless it is a closing bracket, has another real script. -/
theorem C62_runs_maximal (t : ScriptText) (hf : t.Forward) (fuel : Nat) (rs : List ScriptRun)
    (h : ScriptRunIter.init.all t fuel = some rs) (r : ScriptRun) (hr : r ∈ rs) (he : r.limit < t.len) :
    r.script > 1 ∧ ((∀ k, ¬ Closes (t.cp r.limit) k) → t.script (t.cp r.limit) > 1 ∧ t.script (t.cp r.limit) ≠ r.script) := by
  obtain ⟨l, l', h1, h2, h3⟩ := (all_runs hf h).1.mem hf (Nat.zero_le _) .zero r hr
  refine ⟨h3.broke he, fun hc => h3.boundary he ?_⟩
  rcases pair_cases (t.cp r.limit) with ⟨k, _, hk⟩ | ⟨k, hk, _⟩ | ⟨hk, _⟩
  · right; omega
  · exact absurd hk (hc k)
  · left; exact hk

/-- The first run of the example ends before β. -/
example : ScriptRunIter.init.all demoScriptText 10 = some [⟨0, 3, 25⟩, ⟨3, 7, 14⟩, ⟨7, 10, 25⟩] ∧
    demoScriptText.cp 3 = 0x3b2 ∧ demoScriptText.script (demoScriptText.cp 3) = 14 := by decide +kernel

end RichText
