import Verif.Ir.Str
/-
The parser combinators of nom 5.1 used by butte-build/src/ast/parser.rs, on lists of characters. Only the
`complete` variants are used and no rule produces `Err::Failure`, so a parser either fails with `Err::Error` (`none`;
the error position and kind are dropped, nothing in butte-build looks at them) or returns the remaining input and a
value. nom itself is not part of /repo: the definitions follow its published source.
-/
namespace Butte.Parse

/-- `IResult<&str, O>` of a parser, as a function of its input. -/
abbrev P (α : Type) := Str → Option (Str × α)

variable {α β γ : Type}

/-- `nom::combinator::map`. -/
def map (p : P α) (f : α → β) : P β := fun i =>
  match p i with
  | none => none
  | some (r, a) => some (r, f a)

/-- `nom::combinator::map_res`. An error of the function becomes `Err::Error`. -/
def mapRes (p : P α) (f : α → Option β) : P β := fun i =>
  match p i with
  | none => none
  | some (r, a) => match f a with
    | none => none
    | some b => some (r, b)

/-- `nom::combinator::value`. -/
def value (b : β) (p : P α) : P β := map p (fun _ => b)

/-- `nom::combinator::opt`. -/
def opt (p : P α) : P (Option α) := fun i =>
  match p i with
  | none => some (i, none)
  | some (r, a) => some (r, some a)

/-- `nom::combinator::not`. -/
def pnot (p : P α) : P Unit := fun i =>
  match p i with
  | none => some (i, ())
  | some _ => none

/-- `nom::combinator::recognize`: the consumed part of the input. -/
def recognize (p : P α) : P Str := fun i =>
  match p i with
  | none => none
  | some (r, _) => some (r, i.take (i.length - r.length))

/-- `nom::branch::alt` of two parsers; longer tuples are nested. -/
def alt (p q : P α) : P α := fun i =>
  match p i with
  | none => q i
  | some x => some x

/-- `nom::sequence::tuple` of two parsers; longer tuples are nested. -/
def pair (p : P α) (q : P β) : P (α × β) := fun i =>
  match p i with
  | none => none
  | some (r, a) => match q r with
    | none => none
    | some (r', b) => some (r', (a, b))

/-- `nom::sequence::preceded`. -/
def preceded (p : P α) (q : P β) : P β := map (pair p q) (·.2)

/-- `nom::sequence::terminated`. -/
def terminated (p : P α) (q : P β) : P α := map (pair p q) (·.1)

/-- `nom::sequence::delimited`. -/
def delimited (p : P α) (q : P β) (s : P γ) : P β := preceded p (terminated q s)

/-- `nom::sequence::separated_pair`. -/
def separatedPair (p : P α) (s : P γ) (q : P β) : P (α × β) := pair p (preceded s q)

/-- An item followed by the result of the rest of a loop. -/
def push (a : α) : Option (Str × List α) → Option (Str × List α)
  | none => none
  | some (r, as) => some (r, a :: as)

/-- The loop of `nom::multi::many0` (and of `many1` after its first item): it ends at the first error and fails when
an item consumes nothing. The first argument bounds the number of rounds. -/
def manyGo (p : P α) : Nat → P (List α)
  | 0, _ => none
  | n + 1, i => match p i with
    | none => some (i, [])
    | some (r, a) =>
      if r = i then none
      else push a (manyGo p n r)

/-- `nom::multi::many0`. Every round but the last consumes something, so `length + 1` rounds are enough (see
`manyGo_enough`). -/
def many0 (p : P α) : P (List α) := fun i => manyGo p (i.length + 1) i

/-- `nom::multi::many1`. -/
def many1 (p : P α) : P (List α) := fun i =>
  match p i with
  | none => none
  | some (r, a) => push a (many0 p r)

/-- The loop of `nom::multi::separated_list` after the first item: a separator that is not followed by an item is
given back. -/
def sepGo (s : P β) (p : P α) : Nat → P (List α)
  | 0, _ => none
  | n + 1, i => match s i with
    | none => some (i, [])
    | some (r, _) =>
      if r = i then none
      else match p r with
        | none => some (i, [])
        | some (r', a) =>
          if r' = i then none
          else push a (sepGo s p n r')

/-- `nom::multi::separated_nonempty_list`. -/
def sepList1 (s : P β) (p : P α) : P (List α) := fun i =>
  match p i with
  | none => none
  | some (r, a) =>
    if r = i then none
    else push a (sepGo s p (r.length + 1) r)

/-- `nom::multi::separated_list`. -/
def sepList0 (s : P β) (p : P α) : P (List α) := fun i =>
  match p i with
  | none => some (i, [])
  | some _ => sepList1 s p i

/-- `nom::character::complete::char`, `one_of` and `none_of`: one character that satisfies a condition. -/
def satisfy (f : Char → Bool) : P Char
  | [] => none
  | c :: cs => if f c then some (cs, c) else none

/-- `nom::character::complete::char`. -/
def char (c : Char) : P Char := satisfy (· == c)

/-- `nom::character::complete::one_of`. -/
def oneOf (l : Str) : P Char := satisfy (fun c => l.contains c)

/-- `nom::character::complete::none_of`. -/
def noneOf (l : Str) : P Char := satisfy (fun c => !l.contains c)

/-- `nom::bytes::complete::tag`. -/
def tag (t : Str) : P Str := fun i =>
  if t.isPrefixOf i then some (i.drop t.length, t) else none

/-- `nom::bytes::complete::take_while`. -/
def takeWhile (f : Char → Bool) : P Str := fun i => some (i.dropWhile f, i.takeWhile f)

/-- `nom::bytes::complete::take_while1` (of `digit1`, `hex_digit1`, `multispace1`). -/
def takeWhile1 (f : Char → Bool) : P Str := fun i =>
  match i.takeWhile f with
  | [] => none
  | _ :: _ => some (i.dropWhile f, i.takeWhile f)

/-- `nom::bytes::complete::take`: a number of characters. -/
def take (n : Nat) : P Str := fun i =>
  if n ≤ i.length then some (i.drop n, i.take n) else none

/-- `nom::character::complete::{digit0, digit1}`: the decimal digits. -/
def isDigit (c : Char) : Bool := c.isDigit

/-- `char::is_digit(16)`, of `nom::character::complete::{hex_digit0, hex_digit1}`. -/
def isHexDigit (c : Char) : Bool :=
  c.isDigit || (decide ('a' ≤ c) && decide (c ≤ 'f')) || (decide ('A' ≤ c) && decide (c ≤ 'F'))

/-- The characters of `nom::character::complete::multispace1`. -/
def isSpace (c : Char) : Bool := c == ' ' || c == '\t' || c == '\r' || c == '\n'

def digit0 : P Str := takeWhile isDigit
def digit1 : P Str := takeWhile1 isDigit
def hexDigit0 : P Str := takeWhile isHexDigit
def hexDigit1 : P Str := takeWhile1 isHexDigit
def multispace1 : P Str := takeWhile1 isSpace

/-- End of a line. -/
def isEol (c : Char) : Bool := c == '\r' || c == '\n'

/-- `nom::character::complete::not_line_ending`: everything up to `\n`, `\r\n` or the end of the input; a `\r` that is
not followed by `\n` is an error. -/
def notLineEnding : P Str := fun i =>
  match i.dropWhile (fun c => !isEol c) with
  | '\r' :: '\n' :: r => some ('\r' :: '\n' :: r, i.takeWhile (fun c => !isEol c))
  | '\r' :: _ => none
  | r => some (r, i.takeWhile (fun c => !isEol c))

/-- `nom::character::complete::line_ending`. -/
def lineEnding : P Str
  | '\n' :: r => some (r, ['\n'])
  | '\r' :: '\n' :: r => some (r, ['\r', '\n'])
  | _ => none

/-- The loop of `nom::bytes::complete::escaped` with a one-character escape: what is left after it, or `none` for an
error inside an escape sequence. -/
def escapedGo (normal : Char → Bool) (ctl : Char) (esc : Char → Bool) : Str → Option Str
  | [] => some []
  | [c] => if normal c then some [] else if c = ctl then none else some [c]
  | c :: d :: cs =>
    if normal c then escapedGo normal ctl esc (d :: cs)
    else if c = ctl then
      if esc d then escapedGo normal ctl esc cs else none
    else some (c :: d :: cs)

/-- `nom::bytes::complete::escaped`. -/
def escaped (normal : Char → Bool) (ctl : Char) (esc : Char → Bool) : P Str := fun i =>
  match escapedGo normal ctl esc i with
  | none => none
  | some r => some (r, i.take (i.length - r.length))

end Butte.Parse
