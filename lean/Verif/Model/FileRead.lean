import Verif.Model.FileMapping
import Verif.Model.FamilyJson
/-!
Model of `src/file_read_bytes.hpp` and of how the bytes reach the JSON parser, src/font_registry_json.cpp:27-36.

* The C library by what it answers for one file (`ReadReply`); `fseek` may fail, then `ftell` tells the old position.
* simdjson: `parse` is what it makes of a text (`none` is an error).  `padded_string_view sv(fileData.data(), fileData.size())` takes
  the constructor from a `std::string_view` and a capacity, and the `std::string_view` is made from a `const char*`: it ends in front
  of the first zero byte.  `iterate` refuses a text whose padding, `capacity - length` as `size_t`, is below `SIMDJSON_PADDING`,
  and may read that many bytes behind the text.
-/
namespace RichText

/-- What the C library answers for a file: `fopen` (`none` is a null pointer), `ftell` at the end (-1 is an error), and the bytes
that `fread` gets, if there is room for them. -/
structure ReadReply where
  file : Option Nat
  tell : Int
  bytes : List UInt8
deriving Repr, DecidableEq

/-- `file_read_bytes`, src/file_read_bytes.hpp:8-24, and what is open afterwards; `alloc` tells which sizes a vector can have.
`none` is the exception of the vector, which leaves the file open. -/
def fileReadBytes (alloc : Nat → Bool) (r : ReadReply) (os : Os) : Os × Option (List UInt8) :=
  match r.file with
  | none => (os, some [])
  | some h =>
    let size := (r.tell % 2 ^ 64).toNat
    if alloc size then
      ((Res.file h :: os).erase (.file h), some (r.bytes.take size ++ List.replicate (size - r.bytes.length) 0))
    else (Res.file h :: os, none)

/-- `SIMDJSON_PADDING`. -/
def jsonPadding : Nat := 64

/-- `strlen` of what begins at `start` in the memory of the program; `none` if no zero byte follows. -/
def zeroLength (mem : List UInt8) (start : Nat) : Option Nat := (mem.drop start).findIdx? (· = 0)

/-- The document in `register_family_from_json_data`, src/font_registry_json.cpp:34-36, for the view of `len` bytes at `start` of
`mem`.  The outer `none` is undefined behaviour, the inner one an error. -/
def jsonOfData {D : Type} (parse : List UInt8 → Option D) (mem : List UInt8) (start len : Nat) : Option (Option D) :=
  match zeroLength mem start with
  | none => none
  | some n =>
    if (((len : Int) - n) % 2 ^ 64).toNat < jsonPadding then some none
    else if start + n + jsonPadding ≤ mem.length then some (parse ((mem.drop start).take n))
    else none

/-- The document in `register_family_from_json_file`, src/font_registry_json.cpp:27-31; the vector is memory of its own. -/
def jsonOfBytes {D : Type} (parse : List UInt8 → Option D) (bytes : List UInt8) : Option (Option D) :=
  jsonOfData parse (bytes ++ List.replicate jsonPadding 0) 0 (bytes.length + jsonPadding)

/-- `register_family_from_json_file`, src/font_registry_json.cpp:27-31, and what is open afterwards; `none` is undefined behaviour or
an exception. -/
def Registry.registerJsonFile (r : Registry) (lib : FontLib) (scriptOf : String → ScriptCode) (parse : List UInt8 → Option Json)
    (alloc : Nat → Bool) (reply : ReadReply) (os : Os) : Os × Option (Registry × RegistryError) :=
  match fileReadBytes alloc reply os with
  | (os, none) => (os, none)
  | (os, some bytes) => (os, (jsonOfBytes parse bytes).bind fun doc => r.registerJson lib scriptOf doc)

end RichText
