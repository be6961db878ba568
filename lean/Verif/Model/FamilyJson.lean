import Verif.Model.FontRegistry
/-!
Model of `src/font_registry_json.cpp`: font families described in JSON.

* simdjson is not modelled: a document is the tree of its values, or `none` if it
  cannot be parsed.  Names in an object are taken to be distinct (the first one is
  looked up; simdjson searches on from the last field found).  Conversions fail
  exactly if the value has another type; a number is an integer or not, and 64-bit
  integers are converted.
* ICU's `uscript_getCode` is a parameter with three answers: a failure, a code, or
  no code without a failure (names it does not know).
* The data of an empty vector is a null pointer (as in the usual libraries).
* The outer `none` is undefined behaviour or an exception, the inner one
  `INVALID_JSON`.
-/
namespace RichText

/-- A JSON value. -/
inductive Json where
  | null
  | bool (b : Bool)
  | int (n : Int)
  | real
  | str (s : String)
  | arr (vs : List Json)
  | obj (fields : List (String × Json))

/-- The answers of `uscript_getCode` for a capacity of one. -/
inductive ScriptCode where
  | failure
  | code (c : Int)
  | nothing
deriving Repr, DecidableEq

/-- The value of a field. -/
def Json.field (fields : List (String × Json)) (name : String) : Option Json := fields.lookup name

/-- `get(string_view)` of a field or value that may be missing. -/
def Json.getStr : Option Json → Option String
  | some (.str s) => some s
  | _ => none

/-- `get(int64_t)`. -/
def Json.getInt : Option Json → Option Int
  | some (.int n) => if -9223372036854775808 ≤ n ∧ n < 9223372036854775808 then some n else none
  | _ => none

/-- `get(array)`. -/
def Json.getArr : Option Json → Option (List Json)
  | some (.arr vs) => some vs
  | _ => none

/-- `get(object)`. -/
def Json.getObj : Option Json → Option (List (String × Json))
  | some (.obj fs) => some fs
  | _ => none

/-- The loop over scripts, src/font_registry_json.cpp:56-81, on the bits of
`availableScripts`.  Negative numbers pass the check; converting them to an index
throws. -/
def jsonScripts (scriptOf : String → ScriptCode) : List Json → List Bool → Option (Option (List Bool))
  | [], bits => some (some bits)
  | v :: vs, bits =>
    match Json.getInt (some v) with
    | some n =>
      if n ≥ bits.length then some none
      else if 0 ≤ n then jsonScripts scriptOf vs (bits.set n.toNat true) else none
    | none =>
      match Json.getStr (some v) with
      | some s =>
        match scriptOf s with
        | .failure => some none
        | .code c => if 0 ≤ c ∧ c < bits.length then jsonScripts scriptOf vs (bits.set c.toNat true) else none
        | .nothing => none
      | none => some none

/-- The loops over linked and fallback families,
src/font_registry_json.cpp:86-93, 98-105. -/
def jsonNames : List Json → Option (List String)
  | [] => some []
  | v :: vs =>
    match Json.getStr (some v) with
    | none => none
    | some s => (jsonNames vs).map (s :: ·)

/-- Linked or fallback families: none if there is no array,
src/font_registry_json.cpp:84-106. -/
def jsonFamilies (fields : List (String × Json)) (name : String) : Option (List String) :=
  match Json.getArr (Json.field fields name) with
  | none => some []
  | some vs => jsonNames vs

/-- One face, src/font_registry_json.cpp:114-150. -/
def jsonFace (v : Json) : Option FaceInfo :=
  match Json.getObj (some v) with
  | none => none
  | some fs =>
    match Json.getStr (Json.field fs "name") with
    | none => none
    | some name =>
      match Json.getStr (Json.field fs "uri") with
      | none => none
      | some uri =>
        match Json.getInt (Json.field fs "weight") with
        | none => none
        | some w =>
          if w < 100 ∨ w > 900 ∨ w.tmod 100 ≠ 0 then none
          else
            match Json.getStr (Json.field fs "style") with
            | none => none
            | some style =>
              if style ≠ "normal" ∧ style ≠ "italic" then none
              else some ⟨name, uri, BitVec.ofInt 4 ((w - 100).tdiv 100), if style = "italic" then .italic else .normal⟩

/-- The loop over faces, src/font_registry_json.cpp:113-151. -/
def jsonFaces : List Json → Option (List FaceInfo)
  | [] => some []
  | v :: vs =>
    match jsonFace v with
    | none => none
    | some f => (jsonFaces vs).map (f :: ·)

/-- The codes whose bit is set, in order, src/font_registry_json.cpp:155-161. -/
def setCodes (bits : List Bool) : List Int :=
  (List.range bits.length).filterMap fun (i : Nat) => if bits[i]? = some true then some (i : Int) else none

/-- The scripts of the family, src/font_registry_json.cpp:48-82, 153-161: none if
there is no array. -/
def jsonScriptCodes (limit : Nat) (scriptOf : String → ScriptCode) (fields : List (String × Json)) : Option (Option (List Int)) :=
  match Json.getArr (Json.field fields "scripts") with
  | none => some (some [])
  | some vs => (jsonScripts scriptOf vs (List.replicate limit false)).map fun b => b.map setCodes

/-- `register_family_from_json_data` up to the registration,
src/font_registry_json.cpp:33-173. -/
def jsonFamily (limit : Nat) (scriptOf : String → ScriptCode) (doc : Option Json) : Option (Option FamilyInfo) :=
  match Json.getObj doc with
  | none => some none
  | some root =>
    match Json.getStr (Json.field root "name") with
    | none => some none
    | some name =>
      match jsonScriptCodes limit scriptOf root with
      | none => none
      | some none => some none
      | some (some codes) =>
        match jsonFamilies root "linked_families" with
        | none => some none
        | some linked =>
          match jsonFamilies root "fallback_families" with
          | none => some none
          | some fallback =>
            match Json.getArr (Json.field root "faces") with
            | none => some none
            | some vs =>
              match jsonFaces vs with
              | none => some none
              | some faces => some (some ⟨name, codes, linked, fallback, if faces = [] then none else some faces⟩)

/-- `register_family_from_json_data`, src/font_registry_json.cpp:33-176. -/
def Registry.registerJson (r : Registry) (lib : FontLib) (scriptOf : String → ScriptCode) (doc : Option Json) :
    Option (Registry × RegistryError) :=
  match jsonFamily lib.codeLimit scriptOf doc with
  | none => none
  | some none => some (r, .invalidJson)
  | some (some info) => r.register lib info

/-- `register_families_from_path`, src/font_registry_json.cpp:14-25, for the
documents of the directory in the order in which it lists them. -/
def Registry.registerAllJson (lib : FontLib) (scriptOf : String → ScriptCode) : List (Option Json) → Registry →
    Option (Registry × RegistryError)
  | [], r => some (r, .none)
  | d :: ds, r =>
    match r.registerJson lib scriptOf d with
    | none => none
    | some (r, .none) => registerAllJson lib scriptOf ds r
    | some (r, e) => some (r, e)

end RichText
