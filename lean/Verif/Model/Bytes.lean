/-!
Byte strings.  Text is a list of bytes, as in `std::string`.  `b!"..."` is the
list of the bytes of an ASCII literal and `c!"x"` one byte, both expanded to
numerals when the file is read.
-/
namespace RichText

open Lean in
macro:max "b!" s:str : term => do
  let elems := s.getString.toList.map fun c => Syntax.mkNumLit (toString c.toNat)
  let arr := elems.toArray
  `(([ $[$arr],* ] : List UInt8))

open Lean in
macro:max "c!" s:str : term => do
  match s.getString.toList with
  | [c] =>
    let n := Syntax.mkNumLit (toString c.toNat)
    `(($n : UInt8))
  | _ => Macro.throwError "c! needs one character"

example : b!"<a>" = [60, 97, 62] := rfl
example : c!"\"" = 34 := rfl

end RichText
