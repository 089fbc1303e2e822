import Verif.Parse.Grammar
/-
An environment that knows ASCII only, to run the grammar on concrete texts.
-/
namespace Butte.Parse

/-- Part of a path after the last `/`. -/
def lastPart (p : Str) : Str := (p.reverse.takeWhile (· != '/')).reverse

/-- `Path::file_stem` for simple names: without the last extension. -/
def simpleStem (p : Str) : Option Str :=
  let n := lastPart p
  if n = [] ∨ n = c!".." ∨ n = c!"." then none
  else
    let s := ((n.reverse.dropWhile (· != '.')).drop 1).reverse
    some (if s = [] then n else s)

/-- Characters beyond ASCII are not letters. -/
@[instance_reducible] def asciiEnv : Env where
  alphabetic c := c.isAlpha
  numeric c := c.isDigit
  word c := c.isAlphanum || c == '_'
  hexf64 _ := none
  fileStem := simpleStem
  alphabetic_ascii _ _ := rfl
  numeric_ascii _ _ := rfl
  word_ascii _ _ := rfl

end Butte.Parse
