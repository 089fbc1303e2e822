/-
Text of the schema compiler. Schema text and identifiers are lists of characters, so that the parser can be
followed character by character.
-/
namespace Butte

/-- A piece of text (`&str`, `Cow<str>`, `String` in butte-build). -/
abbrev Str := List Char

open Lean in
/-- `c!"abc"` is the text `['a', 'b', 'c']`. -/
macro:max "c!" s:str : term => do
  let cs := s.getString.toList.map fun c => Syntax.mkCharLit c
  `(([$(cs.toArray),*] : Str))

end Butte
