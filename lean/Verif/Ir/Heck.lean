import Verif.Ir.Str
/-
Case conversion of the `heck` 0.3 crate (`to_snake_case`, `to_shouty_snake_case`) on ASCII identifiers. `heck` is a
dependency, not part of /repo; this follows its published algorithm (`heck::transform`): a word ends before an
underscore, between a lower-case and an upper-case letter, and before the last of several capitals that is
followed by a lower-case letter.
-/
namespace Butte.Heck

/-- `heck::transform`'s `WordMode`. -/
inductive WordMode where
  | boundary | lower | upper
deriving DecidableEq, Repr

/-- `heck::transform`: split an identifier into words. `acc` is the current word, reversed. -/
def words : Str → Str → WordMode → List Str
  | [], _, _ => []
  | c :: rest, acc, mode =>
    if c = '_' then
      -- skipped when it starts a word; inside a word it cannot occur (the word ended before it)
      words rest acc mode
    else match rest with
      | [] => [(c :: acc).reverse]
      | next :: _ =>
        let nextMode := if c.isLower then .lower else if c.isUpper then .upper else mode
        if next = '_' || (nextMode = .lower && next.isUpper) then
          (c :: acc).reverse :: words rest [] .boundary
        else if mode = .upper && c.isUpper && next.isLower then
          acc.reverse :: words rest [c] .boundary
        else words rest (c :: acc) nextMode

/-- Join words with underscores. -/
def joinWords : List Str → Str
  | [] => []
  | [w] => w
  | w :: ws => w ++ '_' :: joinWords ws

/-- `to_snake_case`. -/
def snake (s : Str) : Str := joinWords ((words s [] .boundary).map (·.map Char.toLower))

/-- `to_shouty_snake_case`. -/
def shouty (s : Str) : Str := joinWords ((words s [] .boundary).map (·.map Char.toUpper))

end Butte.Heck
