import Verif.Gen.Display
import Verif.Src.Tokens
import Verif.Parse.Grammar
/-
From the text of a Rust source file to tokens, after chapters "Whitespace" and "Tokens" of the Rust reference: names, lifetimes,
numbers, strings and signs as far as generated code has them. A text with anything else (comments, other characters outside
strings, characters, raw strings, exponents, signs that are not in `Punct`) is refused.
-/
namespace Butte.Src
open Parse (digitsVal)

/-- What the lexer makes of a piece of text. A number is kept as it is written. -/
inductive Lexeme where
  | ident (s : Str)
  | punct (p : Punct)
  | life (s : Str)
  /-- digits, digits after the point, suffix -/
  | num (ip : Str) (fp : Option Str) (suffix : Str)
  | str (s : Str)
  | opn (d : Delim)
  | cls (d : Delim)
deriving DecidableEq, Repr

namespace Lex

/-- `Pattern_White_Space` -/
def isSpace (c : Char) : Bool :=
  [9, 10, 11, 12, 13, 32, 0x85, 0x200E, 0x200F, 0x2028, 0x2029].contains c.toNat

/-- The first character of a name (of those in ASCII). -/
def startChar (c : Char) : Bool := c.isAlpha || c == '_'

/-- The text does not go on with such a character. -/
def ends (p : Char → Bool) : Str → Bool
  | [] => true
  | c :: _ => !p c

/-- After a name: `r"`, `b'`, `r#` and so on are other tokens. -/
def afterWord (s : Str) : Bool := ends (fun c => c == '"' || c == '\'' || c == '#') s

/-- Hexadecimal digits up to a closing brace, and their value. -/
def hexEscape : Nat → Str → Option (Nat × Str)
  | _, [] => none
  | n, c :: cs =>
    if c = '}' then some (n, cs)
    else if c.isDigit || ('a' ≤ c ∧ c ≤ 'f') || ('A' ≤ c ∧ c ≤ 'F') then hexEscape (n * 16 + Parse.digitVal c) cs
    else none

/-- The inside of a string, and what is after it. -/
def string : Nat → Str → Option (Str × Str)
  | 0, _ => none
  | _ + 1, [] => none
  | n + 1, c :: cs =>
    if c = '"' then some ([], cs)
    else if c = '\r' then none
    else if c = '\\' then
      match cs with
      | 'n' :: cs => (string n cs).map fun x => ('\n' :: x.1, x.2)
      | 'r' :: cs => (string n cs).map fun x => ('\r' :: x.1, x.2)
      | 't' :: cs => (string n cs).map fun x => ('\t' :: x.1, x.2)
      | '0' :: cs => (string n cs).map fun x => (Char.ofNat 0 :: x.1, x.2)
      | '\\' :: cs => (string n cs).map fun x => ('\\' :: x.1, x.2)
      | '"' :: cs => (string n cs).map fun x => ('"' :: x.1, x.2)
      | '\'' :: cs => (string n cs).map fun x => ('\'' :: x.1, x.2)
      | 'u' :: '{' :: cs => do
        let (v, r) ← hexEscape 0 cs
        -- one to six digits
        if v.isValidChar && 2 ≤ cs.length - r.length && cs.length - r.length ≤ 7 then (string n r).map fun x => (Char.ofNat v :: x.1, x.2) else none
      | _ => none
    else (string n cs).map fun x => (c :: x.1, x.2)

/-- A sign, the longest that fits. `>>` is two tokens: that is how the parser takes it apart where types end. -/
def sign : Str → Option (Punct × Str)
  | '#' :: cs => some (.hash, cs)
  | ',' :: cs => some (.comma, cs)
  | ';' :: cs => some (.semi, cs)
  | '?' :: cs => some (.question, cs)
  | ':' :: ':' :: cs => some (.colon2, cs)
  | ':' :: cs => some (.colon, cs)
  | '-' :: '>' :: cs => some (.arrow, cs)
  | '-' :: cs => if ends (· == '=') cs then some (.minus, cs) else none
  | '=' :: '>' :: cs => some (.fatArrow, cs)
  | '=' :: cs => if ends (· == '=') cs then some (.eq, cs) else none
  | '.' :: '.' :: cs => if ends (fun c => c == '.' || c == '=') cs then some (.dot2, cs) else none
  | '.' :: cs => some (.dot, cs)
  | '<' :: cs => if ends (fun c => c == '<' || c == '=' || c == '-') cs then some (.lt, cs) else none
  | '>' :: cs => if ends (· == '=') cs then some (.gt, cs) else none
  | '&' :: cs => if ends (fun c => c == '&' || c == '=') cs then some (.amp, cs) else none
  | '|' :: cs => if ends (fun c => c == '|' || c == '=') cs then some (.or, cs) else none
  | '*' :: cs => if ends (· == '=') cs then some (.star, cs) else none
  | _ => none

/-- A bracket. -/
def bracket : Char → Option Lexeme
  | '(' => some (.opn .paren)
  | ')' => some (.cls .paren)
  | '[' => some (.opn .bracket)
  | ']' => some (.cls .bracket)
  | '{' => some (.opn .brace)
  | '}' => some (.cls .brace)
  | _ => none

/-- A number without its digits before the point: the digits after the point, if there are any. -/
def fraction : Str → Option Str × Str
  | '.' :: c :: cs => if c.isDigit then (some ((c :: cs).takeWhile Char.isDigit), (c :: cs).dropWhile Char.isDigit) else (none, '.' :: c :: cs)
  | cs => (none, cs)

/-- The suffix does not make it another number: no exponent, no `0x`, `0o`, `0b`, no `_` (which would be one more digit). -/
def suffixOk (ip : Str) : Str → Bool
  | [] => true
  | c :: _ => c != 'e' && c != 'E' && c != '_' && (ip != c!"0" || (c != 'x' && c != 'o' && c != 'b'))

/-- The token at the beginning of a text that does not begin with white space. -/
def one : Str → Option (Lexeme × Str)
  | [] => none
  | c :: cs =>
    if startChar c then
      let w := cs.takeWhile wordChar
      let r := cs.dropWhile wordChar
      if afterWord r then some (.ident (c :: w), r) else none
    else if c.isDigit then
      let ip := c :: cs.takeWhile Char.isDigit
      let (fp, r) := fraction (cs.dropWhile Char.isDigit)
      let s := r.takeWhile wordChar
      let r := r.dropWhile wordChar
      -- `5.` is a number, unless a name or another point comes after it
      if suffixOk ip s && afterWord r && (s ≠ [] || ends (· == '.') r) then some (.num ip fp s, r) else none
    else if c = '\'' then
      match cs with
      | d :: cs =>
        let w := cs.takeWhile wordChar
        let r := cs.dropWhile wordChar
        if startChar d && afterWord r then some (.life (d :: w), r) else none
      | [] => none
    else if c = '"' then
      match string (cs.length + 1) cs with
      | some (s, r) => if ends wordChar r then some (.str s, r) else none
      | none => none
    else
      match bracket c with
      | some l => some (l, cs)
      | none => (sign (c :: cs)).map fun x => (.punct x.1, x.2)

/-- All tokens of a text. -/
def all : Nat → Str → Option (List Lexeme)
  | 0, _ => none
  | _ + 1, [] => some []
  | n + 1, c :: cs =>
    if isSpace c then all n cs
    else do
      let (l, r) ← one (c :: cs)
      let ls ← all n r
      return l :: ls

end Lex

/-- The tokens of a text (`none`: it cannot be read). Every token takes at least one character. -/
def lex (s : Str) : Option (List Lexeme) := Lex.all (s.length + 1) s

/-- The token that a lexeme is. The number `5f32` may be written with the token `5` or with the token `5.0`; a number that is not
whole is the float nearest to what is written, of the type that the suffix says. Before the suffix of an integer type there are the
digits that `Display` writes, without a point if the number is whole. -/
inductive Denotes : Lexeme → Tok → Prop where
  | ident (s : Str) : Denotes (.ident s) (.ident s)
  | punct (p : Punct) : Denotes (.punct p) (.punct p)
  | life (s : Str) : Denotes (.life s) (.life s)
  | str (s : Str) : Denotes (.str s) (.str s)
  | opn (d : Delim) : Denotes (.opn d) (.opn d)
  | cls (d : Delim) : Denotes (.cls d) (.cls d)
  | int (ip s : Str) : Denotes (.num ip none s) (.int (digitsVal 10 ip) s)
  | float32 (ip : Str) (fp : Option Str) (b : Fin (2 ^ 64)) (hf : f64Finite b.val = true) (hb : b.val < 2 ^ 63)
      (h : roundBits 8 23 (digitsVal 10 (ip ++ fp.getD [])) (10 ^ (fp.getD []).length) = f64ToF32 b.val) :
      Denotes (.num ip fp c!"f32") (.float b c!"f32")
  | float (ip : Str) (fp : Option Str) (s : Str) (b : Fin (2 ^ 64)) (hs : s ≠ c!"f32") (hb : b.val < 2 ^ 63)
      (h : roundBits 11 52 (digitsVal 10 (ip ++ fp.getD [])) (10 ^ (fp.getD []).length) = b.val)
      (hw : s = c!"f64" ∨ shown b.val = none ∨ fp = none ∧ shown b.val = some (digitsVal 10 ip)) :
      Denotes (.num ip fp s) (.float b s)

example : lex c!"impl<'a> Vec<Vec<u8>>::f(-5i32, \"a\\\"b\\u{e9}\") -> 1.5f64" =
    some [.ident c!"impl", .punct .lt, .life c!"a", .punct .gt, .ident c!"Vec", .punct .lt, .ident c!"Vec", .punct .lt,
      .ident c!"u8", .punct .gt, .punct .gt, .punct .colon2, .ident c!"f", .opn .paren, .punct .minus,
      .num c!"5" none c!"i32", .punct .comma, .str c!"a\"bé", .cls .paren, .punct .arrow, .num c!"1" (some c!"5") c!"f64"] := by
  decide +kernel

end Butte.Src
