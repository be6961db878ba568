import Verif.Model.FileRead
import Verif.Props.FamilyJson
import Mathlib.Tactic.Ring
/-!
C116: files are read whole, and whole documents reach the JSON parser.
-/
namespace RichText

/-- A file that can be read as a whole: `ftell` tells how many bytes there are, and there is memory for them. -/
structure Readable (alloc : Nat → Bool) (r : ReadReply) : Prop where
  opened : ∃ h, r.file = some h
  tell : r.tell = r.bytes.length
  size : r.bytes.length < 2 ^ 63
  room : alloc r.bytes.length = true

/-- A file of which all is known is returned byte by byte, a missing file as no bytes; the file is closed. -/
theorem C116_read_partial (alloc : Nat → Bool) (r : ReadReply) (os : Os) :
    (Readable alloc r → fileReadBytes alloc r os = (os, some r.bytes)) ∧
    (r.file = none → fileReadBytes alloc r os = (os, some [])) := by
  constructor
  · rintro ⟨⟨h, h1⟩, h2, h3, h4⟩
    have e : (r.tell % 2 ^ 64).toNat = r.bytes.length := by
      rw [h2]; omega
    unfold fileReadBytes
    rw [h1]
    simp only [e, h4, if_true, List.erase_cons_head, List.take_length, Nat.sub_self, List.replicate_zero, List.append_nil]
  · intro h
    unfold fileReadBytes
    rw [h]

/-- Files whose size cannot be told (pipes, terminals, sockets: `ftell` fails) end in an exception and stay open, whatever they
contain; of a file that is shorter than told (an error of the disk, or somebody shortens it) the rest is made of zero bytes; of one
that grows the rest is missing. -/
theorem C116_read_violated :
    (∀ (alloc : Nat → Bool) (h : Nat) (bytes : List UInt8) (os : Os), alloc (2 ^ 64 - 1) = false →
      fileReadBytes alloc ⟨some h, -1, bytes⟩ os = (.file h :: os, none)) ∧
    (∀ (alloc : Nat → Bool) (h k : Nat) (bytes : List UInt8) (os : Os), bytes.length + k < 2 ^ 63 → alloc (bytes.length + k) = true →
      fileReadBytes alloc ⟨some h, bytes.length + k, bytes⟩ os = (os, some (bytes ++ List.replicate k 0))) ∧
    (∀ (alloc : Nat → Bool) (h k : Nat) (bytes : List UInt8) (os : Os), k ≤ bytes.length → k < 2 ^ 63 → alloc k = true →
      fileReadBytes alloc ⟨some h, k, bytes⟩ os = (os, some (bytes.take k))) := by
  refine ⟨?_, ?_, ?_⟩
  · intro alloc h bytes os ha
    unfold fileReadBytes
    simp only [show ((-1 : Int) % 2 ^ 64).toNat = 2 ^ 64 - 1 by decide, ha, Bool.false_eq_true, if_false]
  · intro alloc h k bytes os hk ha
    have e : (((bytes.length : Int) + k) % 2 ^ 64).toNat = bytes.length + k := by omega
    unfold fileReadBytes
    simp only [e, ha, if_true, List.erase_cons_head, Nat.add_sub_cancel_left]
    rw [List.take_of_length_le (by omega)]
  · intro alloc h k bytes os h1 h2 ha
    have e : ((k : Int) % 2 ^ 64).toNat = k := by omega
    unfold fileReadBytes
    simp only [e, ha, if_true, List.erase_cons_head, Nat.sub_eq_zero_of_le h1, List.replicate_zero, List.append_nil]

/-- A disk that fails after two of four bytes. -/
example : fileReadBytes (fun n => n < 1000) ⟨some 3, 4, [0x7B, 0x7D]⟩ [.file 9] = ([.file 9], some [0x7B, 0x7D, 0, 0]) := by
  decide +kernel
example : fileReadBytes (fun n => n < 1000) ⟨some 3, -1, [0x7B, 0x7D]⟩ [] = ([.file 3], none) := by decide +kernel

theorem zeroLength_append {a b : List UInt8} (ha : 0 ∉ a) (start : Nat) (pre : List UInt8) (hp : pre.length = start) :
    zeroLength (pre ++ (a ++ 0 :: b)) start = some a.length := by
  unfold zeroLength
  rw [← hp, List.drop_left, List.findIdx?_append]
  have : a.findIdx? (fun x => decide (x = 0)) = none := by
    rw [List.findIdx?_eq_none_iff]
    intro x hx
    simp only [decide_eq_false_iff_not]
    rintro rfl
    exact ha hx
  rw [this]
  simp [List.findIdx?_cons]

theorem zeroLength_none {pre a : List UInt8} (ha : 0 ∉ a) : zeroLength (pre ++ a) pre.length = none := by
  unfold zeroLength
  rw [List.drop_left, List.findIdx?_eq_none_iff]
  intro x hx
  simp only [decide_eq_false_iff_not]
  rintro rfl
  exact ha hx

variable {D : Type}

/-- What the parser gets of a file: all up to the first zero byte, with enough memory behind it. -/
theorem jsonOfBytes_zero (parse : List UInt8 → Option D) (a b : List UInt8) (ha : 0 ∉ a) (hs : (a ++ 0 :: b).length < 2 ^ 63) :
    jsonOfBytes parse (a ++ 0 :: b) = some (parse a) := by
  unfold jsonOfBytes jsonOfData
  have h := zeroLength_append (b := b ++ List.replicate jsonPadding 0) ha 0 [] rfl
  rw [List.nil_append] at h
  rw [show a ++ 0 :: b ++ List.replicate jsonPadding 0 = a ++ 0 :: (b ++ List.replicate jsonPadding 0) by simp, h]
  simp only [List.length_append, List.length_cons, List.length_replicate] at hs ⊢
  have hp : jsonPadding = 64 := rfl
  rw [if_neg (by push_cast; omega), if_pos (by omega)]
  simp

/-- Every document without zero bytes that is in a readable file reaches the parser as it is, and memory outside is not read; the
family it describes is registered as C84 says. -/
theorem C116_file_partial (parse : List UInt8 → Option D) (bytes : List UInt8) (hz : 0 ∉ bytes) (hs : bytes.length < 2 ^ 62) :
    jsonOfBytes parse bytes = some (parse bytes) := by
  unfold jsonOfBytes jsonOfData
  have e : bytes ++ List.replicate jsonPadding 0 = bytes ++ 0 :: List.replicate 63 0 := rfl
  have h := zeroLength_append (b := List.replicate 63 0) hz 0 [] rfl
  rw [List.nil_append] at h
  rw [e, h]
  simp only [List.length_append, List.length_cons, List.length_replicate]
  have hp : jsonPadding = 64 := rfl
  rw [if_neg (by push_cast; omega), if_pos (by omega)]
  simp

theorem C116_family_partial (r : Registry) (lib : FontLib) (scriptOf : String → ScriptCode) (parse : List UInt8 → Option Json)
    (alloc : Nat → Bool) (reply : ReadReply) (os : Os) (hr : Readable alloc reply) (hz : 0 ∉ reply.bytes)
    (hs : reply.bytes.length < 2 ^ 62) :
    r.registerJsonFile lib scriptOf parse alloc reply os = (os, r.registerJson lib scriptOf (parse reply.bytes)) := by
  unfold Registry.registerJsonFile
  rw [(C116_read_partial alloc reply os).1 hr]
  simp only [C116_file_partial parse _ hz hs, Option.bind_some]

/-- A small parser: `{}` and nothing else. -/
def braces (t : List UInt8) : Option Json := if t = [0x7B, 0x7D] then some (.obj []) else none

example : (jsonOfBytes braces [0x7B, 0x7D]).isSome ∧ (jsonOfBytes braces [0x7B, 0x7D]).bind (fun d => d.map fun _ => ()) = some () := by
  decide +kernel

example : Readable (fun n => n < 1000) ⟨some 3, 2, [0x7B, 0x7D]⟩ := ⟨⟨3, rfl⟩, rfl, by decide, by decide⟩

/-- What is behind a zero byte in a file is not looked at: files that are no JSON count as the document in front of it.  This is so
for every parser and every document. -/
theorem C116_zero_violated (parse : List UInt8 → Option D) (a b : List UInt8) (ha : 0 ∉ a) (hs : (a ++ 0 :: b).length < 2 ^ 63) :
    jsonOfBytes parse (a ++ 0 :: b) = some (parse a) := jsonOfBytes_zero parse a b ha hs

/-- With the file that was cut short above, the family of the first half is registered. -/
theorem C116_short_violated (r : Registry) (lib : FontLib) (scriptOf : String → ScriptCode) (parse : List UInt8 → Option Json)
    (alloc : Nat → Bool) (h k : Nat) (bytes : List UInt8) (os : Os) (hk : 0 < k) (hs : bytes.length + k < 2 ^ 62)
    (ha : alloc (bytes.length + k) = true) (hz : 0 ∉ bytes) :
    r.registerJsonFile lib scriptOf parse alloc ⟨some h, bytes.length + k, bytes⟩ os =
      (os, r.registerJson lib scriptOf (parse bytes)) := by
  unfold Registry.registerJsonFile
  rw [C116_read_violated.2.1 alloc h k bytes os (by omega) ha]
  obtain ⟨k, rfl⟩ : ∃ j, k = j + 1 := ⟨k - 1, by omega⟩
  simp only [List.replicate_succ]
  rw [jsonOfBytes_zero parse bytes _ hz (by simp; omega)]
  rfl

/-! ### Documents in memory -/

/-- Documents given as the interface says (64 bytes behind the text, part of the view) reach the parser as they are if the first of
these bytes is zero and the text contains no zero. -/
theorem C116_data_partial (parse : List UInt8 → Option D) (pre text pad post : List UInt8) (hz : 0 ∉ text)
    (hp : pad.length = jsonPadding) (h0 : pad.head? = some 0) (hs : text.length < 2 ^ 62) :
    jsonOfData parse (pre ++ (text ++ (pad ++ post))) pre.length (text.length + jsonPadding) = some (parse text) := by
  obtain ⟨t, rfl⟩ : ∃ t, pad = 0 :: t := by
    cases pad with
    | nil => cases h0
    | cons x t => cases h0; exact ⟨t, rfl⟩
  unfold jsonOfData
  have h := zeroLength_append (b := t ++ post) hz pre.length pre rfl
  rw [show pre ++ (text ++ (0 :: t ++ post)) = pre ++ (text ++ 0 :: (t ++ post)) by simp, h]
  have hj : jsonPadding = 64 := rfl
  simp only [List.length_append, List.length_cons] at hp ⊢
  rw [if_neg (by push_cast; omega), if_pos (by omega), List.drop_left]
  simp

/-- The interface does not ask for zeros.  With other bytes as padding, memory behind the view is read: always undefined if no zero
follows, and if one follows, the parser gets the text with the padding and all that is behind it, and the size of the view does not
stop it (the padding left is negative and wraps around). -/
theorem C116_data_violated :
    (∀ (parse : List UInt8 → Option D) (pre text pad : List UInt8), 0 ∉ text → 0 ∉ pad → pad.length = jsonPadding →
      jsonOfData parse (pre ++ (text ++ pad)) pre.length (text.length + jsonPadding) = none) ∧
    (∀ (parse : List UInt8 → Option D) (pre text pad behind rest : List UInt8), 0 ∉ text → 0 ∉ pad → 0 ∉ behind → behind ≠ [] →
      pad.length = jsonPadding → 63 ≤ rest.length → (text ++ (pad ++ behind)).length < 2 ^ 62 →
      jsonOfData parse (pre ++ (text ++ (pad ++ (behind ++ 0 :: rest)))) pre.length (text.length + jsonPadding) =
        some (parse (text ++ (pad ++ behind)))) ∧
    ∀ (parse : List UInt8 → Option D) (pre text pad rest : List UInt8), 0 ∉ text → 0 ∉ pad → pad.length = jsonPadding →
      jsonOfData parse (pre ++ (text ++ (pad ++ 0 :: rest))) pre.length (text.length + jsonPadding) = some none := by
  have hj : jsonPadding = 64 := rfl
  refine ⟨?_, ?_, ?_⟩
  · intro parse pre text pad h1 h2 _
    unfold jsonOfData
    rw [zeroLength_none (by simp [h1, h2])]
  · intro parse pre text pad behind rest h1 h2 h3 hne hp hr hs
    unfold jsonOfData
    have h := zeroLength_append (a := text ++ (pad ++ behind)) (b := rest) (by simp [h1, h2, h3]) pre.length pre rfl
    rw [show pre ++ (text ++ (pad ++ (behind ++ 0 :: rest))) = pre ++ (text ++ (pad ++ behind) ++ 0 :: rest) by simp, h]
    have hb : 0 < behind.length := List.length_pos_iff.2 hne
    simp only [List.length_append, List.length_cons] at hs ⊢
    rw [if_neg (by push_cast; omega), if_pos (by omega), List.drop_left]
    rw [show text.length + (pad.length + behind.length) = (text ++ (pad ++ behind)).length by simp, List.take_left]
  · intro parse pre text pad rest h1 h2 hp
    unfold jsonOfData
    have h := zeroLength_append (a := text ++ pad) (b := rest) (by simp [h1, h2]) pre.length pre rfl
    rw [show pre ++ (text ++ (pad ++ 0 :: rest)) = pre ++ (text ++ pad ++ 0 :: rest) by simp, h]
    simp only [List.length_append]
    rw [if_pos (by push_cast; omega)]

/-- `{}` with 64 blanks behind it: with a zero behind them refused, in front of other text read with it. -/
example : jsonOfData (fun t => some t) ([0x7B, 0x7D] ++ List.replicate 64 0x20 ++ [0]) 0 66 = some none ∧
    jsonOfData (fun t => some t.length) ([0x7B, 0x7D] ++ List.replicate 64 0x20 ++ [0x7B] ++ List.replicate 64 0) 0 66 = some (some 67) ∧
    jsonOfData (fun t => some t) ([0x7B, 0x7D] ++ List.replicate 64 0x20) 0 66 = none := by decide +kernel

end RichText
