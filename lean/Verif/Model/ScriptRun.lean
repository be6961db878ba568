/-!
Model of `src/script_run_iterator.cpp` / `src/script_run_iterator.hpp`.

* `none` is undefined behaviour (an index outside the bracket stack or the table
  of paired characters, a read of a stack entry never written) or a loop that
  never ends.
* `int32_t` values are unbounded integers; where the macros mix them with
  `size_t`, the conversion modulo 2^64 is made explicit.
* ICU is a parameter: `U8_GET`, `U8_FWD_1` and the script property.
-/
namespace RichText

/-! ### Paired characters -/

/-- `pairedChars`, src/script_run_iterator.cpp:32-50. -/
def pairedChars : List Int :=
  [0x0028, 0x0029, 0x003c, 0x003e, 0x005b, 0x005d, 0x007b, 0x007d, 0x00ab, 0x00bb, 0x2018, 0x2019, 0x201c, 0x201d,
   0x2039, 0x203a, 0x3008, 0x3009, 0x300a, 0x300b, 0x300c, 0x300d, 0x300e, 0x300f, 0x3010, 0x3011, 0x3014, 0x3015,
   0x3016, 0x3017, 0x3018, 0x3019, 0x301a, 0x301b]

/-- One test of `high_bit`: `if (value >= 1 << k) { value >>= k; bit += k; }`. -/
def highBitStep (k : Nat) (vb : Int × Int) : Int × Int :=
  if vb.1 ≥ 2 ^ k then (vb.1 / 2 ^ k, vb.2 + k) else vb

/-- `high_bit`, src/script_run_iterator.cpp:173-206. -/
def highBit (value : Int) : Int :=
  if value ≤ 0 then -32
  else (highBitStep 1 (highBitStep 2 (highBitStep 4 (highBitStep 8 (highBitStep 16 (value, 0)))))).2

/-- The loop of `get_pair_index`, src/script_run_iterator.cpp:220-226. -/
def pairLoop (ch : Int) (probe pairIndex : Nat) : Option Nat :=
  if probe > 1 then
    match pairedChars[pairIndex + probe / 2]? with
    | none => none
    | some c => pairLoop ch (probe / 2) (if ch ≥ c then pairIndex + probe / 2 else pairIndex)
  else some pairIndex
termination_by probe
decreasing_by omega

/-- `get_pair_index`, src/script_run_iterator.cpp:208-233. -/
def getPairIndex (ch : Int) : Option Int :=
  let power := 2 ^ (highBit pairedChars.length).toNat
  let extra := pairedChars.length - power
  match pairedChars[extra]? with
  | none => none
  | some c =>
    match pairLoop ch power (if ch ≥ c then extra else 0) with
    | none => none
    | some i =>
      match pairedChars[i]? with
      | none => none
      | some d => some (if d ≠ ch then -1 else i)

/-! ### The bracket stack -/

/-- Conversion to `size_t`. -/
def toSize (x : Int) : Int := x % 2 ^ 64

/-- `PAREN_STACK_DEPTH`, src/script_run_iterator.hpp:34. -/
def parenStackDepth : Int := 32

/-- `LIMIT_INC`, src/script_run_iterator.cpp:22: the comparison is unsigned. -/
def limitInc (sp : Int) : Int := if toSize sp < parenStackDepth then sp + 1 else parenStackDepth

/-- `INC`, src/script_run_iterator.cpp:21-23. -/
def incIndex (sp count : Int) : Int := toSize (sp + count) % parenStackDepth

/-- `DEC`, src/script_run_iterator.cpp:21, 25. -/
def decIndex (sp count : Int) : Int := toSize (sp + parenStackDepth - count) % parenStackDepth

/-- `ParenStackEntry`, src/script_run_iterator.hpp:36-39. -/
structure ParenEntry where
  pairIndex : Int
  script : Int
deriving Repr, DecidableEq

/-- The members `m_parenStack` (entries never written are `none`), `m_parenSP`,
`m_pushCount`, `m_fixupCount`, src/script_run_iterator.hpp:44-47. -/
structure ParenStack where
  entries : List (Option ParenEntry)
  sp : Int
  pushCount : Int
  fixupCount : Int
deriving Repr, DecidableEq

namespace ParenStack

/-- Initial values, src/script_run_iterator.cpp:56-62. -/
def init : ParenStack := ⟨List.replicate parenStackDepth.toNat none, -1, 0, 0⟩

/-- Read an entry: it must exist and have been written. -/
def read (s : ParenStack) (i : Int) : Option ParenEntry :=
  if 0 ≤ i then (s.entries[i.toNat]?).join else none

/-- Write an entry: it must exist. -/
def write (s : ParenStack) (i : Int) (e : Option ParenEntry) : Option ParenStack :=
  if 0 ≤ i ∧ i.toNat < s.entries.length then some { s with entries := s.entries.set i.toNat e } else none

/-- `push`, src/script_run_iterator.cpp:135-142. -/
def push (s : ParenStack) (pairIndex script : Int) : Option ParenStack :=
  ({ s with pushCount := limitInc s.pushCount, fixupCount := limitInc s.fixupCount,
            sp := incIndex s.sp 1 }).write (incIndex s.sp 1) (some ⟨pairIndex, script⟩)

/-- `pop`, src/script_run_iterator.cpp:144-162. -/
def pop (s : ParenStack) : ParenStack :=
  if s.pushCount ≤ 0 then s
  else
    { s with fixupCount := if s.fixupCount > 0 then s.fixupCount - 1 else s.fixupCount
             pushCount := s.pushCount - 1
             sp := if s.pushCount - 1 ≤ 0 then -1 else decIndex s.sp 1 }

/-- The loop of `fixup`, src/script_run_iterator.cpp:167-170, `n` times.  Only the
script of an entry is written, so an entry not written before stays unusable. -/
def fixupLoop (script : Int) : Nat → Int → ParenStack → Option ParenStack
  | 0, _, s => some s
  | n + 1, i, s =>
    match s.write (incIndex i 1) ((s.read (incIndex i 1)).map fun e => { e with script := script }) with
    | none => none
    | some s => fixupLoop script n (incIndex i 1) s

/-- `fixup`, src/script_run_iterator.cpp:164-171.  `m_fixupCount-- > 0` leaves -1
behind, or one less if it was negative. -/
def fixup (s : ParenStack) (script : Int) : Option ParenStack :=
  (fixupLoop script s.fixupCount.toNat (decIndex s.sp s.fixupCount) s).map fun s' =>
    { s' with fixupCount := if s.fixupCount > 0 then -1 else s.fixupCount - 1 }

theorem pop_lt {s : ParenStack} (h : s.pushCount > 0) : s.pop.pushCount.toNat < s.pushCount.toNat := by
  unfold pop
  rw [if_neg (by omega)]
  simp only
  omega

/-- `while (m_pushCount > 0 && m_parenStack[m_parenSP].pairIndex != pi) pop();`,
src/script_run_iterator.cpp:98-100. -/
def popUntil (s : ParenStack) (pi : Int) : Option ParenStack :=
  if h : s.pushCount > 0 then
    match s.read s.sp with
    | none => none
    | some e => if e.pairIndex ≠ pi then s.pop.popUntil pi else some s
  else some s
termination_by s.pushCount.toNat
decreasing_by exact pop_lt h

/-- Paired character handling, src/script_run_iterator.cpp:90-106: the stack and
the script used for the character. -/
def bracket (s : ParenStack) (pairIndex sc scriptCode : Int) : Option (ParenStack × Int) :=
  if pairIndex ≥ 0 then
    if pairIndex % 2 = 0 then (s.push pairIndex scriptCode).map fun s => (s, sc)
    else
      match s.popUntil (pairIndex - 1) with
      | none => none
      | some s => if s.pushCount > 0 then (s.read s.sp).map fun e => (s, e.script) else some (s, sc)
  else some (s, sc)

/-- The update of the run's script, src/script_run_iterator.cpp:109-112: stack and
script. -/
def adopt (s : ParenStack) (sc scriptCode : Int) : Option (ParenStack × Int) :=
  if scriptCode ≤ 1 ∧ sc > 1 then (s.fixup sc).map fun s => (s, sc) else some (s, scriptCode)

/-- What happens when the character belongs to the run,
src/script_run_iterator.cpp:109-120. -/
def accept (s : ParenStack) (pairIndex sc scriptCode : Int) : Option (ParenStack × Int) :=
  (s.adopt sc scriptCode).map fun r => (if pairIndex ≥ 0 ∧ pairIndex % 2 ≠ 0 then r.1.pop else r.1, r.2)

end ParenStack

/-- `script_is_same`, src/script_run_iterator.cpp:235-237 (`USCRIPT_INHERITED` is
1, `USCRIPT_COMMON` 0, `USCRIPT_INVALID_CODE` -1). -/
def scriptIsSame (a b : Int) : Bool := a ≤ 1 || b ≤ 1 || a == b

/-! ### The iterator -/

/-- The text and ICU: length in bytes, `U8_GET` (negative for ill-formed text),
`U8_FWD_1`, and the script property of a code point. -/
structure ScriptText where
  len : Nat
  cp : Nat → Int
  fwd : Nat → Nat
  script : Int → Int

/-- `uscript_getScript` (ICU): an error is set by a value that is no code point;
once it is set the result is `USCRIPT_INVALID_CODE`. -/
def ScriptText.getScript (t : ScriptText) (ch : Int) (err : Bool) : Int × Bool :=
  if err then (-1, true)
  else if 0 ≤ ch ∧ ch ≤ 0x10ffff then (t.script ch, false)
  else (-1, true)

/-- Outcome of one character: the run ends before it, or it belongs to the run
(stack, script code and error code afterwards). -/
inductive ScriptStep where
  | stop (s : ParenStack)
  | go (s : ParenStack) (code : Int) (err : Bool)
deriving Repr, DecidableEq

/-- The loop body, src/script_run_iterator.cpp:78-125. -/
def ScriptText.step (t : ScriptText) (i : Nat) (s : ParenStack) (code : Int) (err : Bool) : Option ScriptStep :=
  match getPairIndex (t.cp i) with
  | none => none
  | some pi =>
    match s.bracket pi (t.getScript (t.cp i) err).1 code with
    | none => none
    | some (s, sc) =>
      if scriptIsSame code sc then (s.accept pi sc code).map fun r => .go r.1 r.2 (t.getScript (t.cp i) err).2
      else some (.stop s)

/-- The loop, src/script_run_iterator.cpp:77-128: limit, stack and script. -/
def ScriptText.run (t : ScriptText) (i : Nat) (s : ParenStack) (code : Int) (err : Bool) : Option (Nat × ParenStack × Int) :=
  if i < t.len then
    match t.step i s code err with
    | none => none
    | some (.stop s) => some (i, s, code)
    | some (.go s code err) => if i < t.fwd i then t.run (t.fwd i) s code err else none
  else some (i, s, code)
termination_by t.len - i

/-- The object: `m_scriptLimit` and the stack. -/
structure ScriptRunIter where
  limit : Nat
  stack : ParenStack
deriving Repr, DecidableEq

/-- A run: start, limit, script. -/
structure ScriptRun where
  start : Nat
  limit : Nat
  script : Int
deriving Repr, DecidableEq

/-- Constructor, src/script_run_iterator.cpp:56-62. -/
def ScriptRunIter.init : ScriptRunIter := ⟨0, .init⟩

/-- `next`, src/script_run_iterator.cpp:64-133: the outer option is undefined
behaviour, the inner one the returned bool. -/
def ScriptRunIter.next (t : ScriptText) (it : ScriptRunIter) : Option (Option (ScriptRun × ScriptRunIter)) :=
  if it.limit ≥ t.len then some none
  else
    match t.run it.limit { it.stack with fixupCount := 0 } 0 false with
    | none => none
    | some (limit, s, code) => some (some (⟨it.limit, limit, code⟩, ⟨limit, s⟩))

/-- Calls of `next` until it returns false, at most `fuel` of them that return
true: the runs. -/
def ScriptRunIter.all (t : ScriptText) : Nat → ScriptRunIter → Option (List ScriptRun)
  | fuel, it =>
    match it.next t with
    | none => none
    | some none => some []
    | some (some (r, it)) =>
      match fuel with
      | 0 => none
      | fuel + 1 => (all t fuel it).map (r :: ·)

end RichText
