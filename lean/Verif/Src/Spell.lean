import Verif.Src.Lex
/-
How tokens are written: `Display for proc_macro2::TokenStream`, for any choice of white space and of escapes.
-/
namespace Butte.Src
open Parse (digitsVal)
open Lex (startChar isSpace ends afterWord suffixOk)

/-- A name in ASCII. -/
def wordOk : Str → Bool
  | [] => false
  | c :: cs => startChar c && cs.all wordChar

/-- A sign as it is written. -/
def Punct.text : Punct → Str
  | .hash => c!"#" | .amp => c!"&" | .star => c!"*" | .comma => c!"," | .semi => c!";" | .colon => c!":" | .colon2 => c!"::"
  | .arrow => c!"->" | .fatArrow => c!"=>" | .lt => c!"<" | .gt => c!">" | .eq => c!"=" | .dot => c!"." | .dot2 => c!".."
  | .question => c!"?" | .or => c!"|" | .minus => c!"-"

/-- The opening bracket. -/
def Delim.opening : Delim → Str
  | .paren => c!"(" | .bracket => c!"[" | .brace => c!"{"

/-- The closing bracket. -/
def Delim.closing : Delim → Str
  | .paren => c!")" | .bracket => c!"]" | .brace => c!"}"

/-- How a character may be written in a string. (`Literal::string` escapes what `char::escape_default` escapes, in later
versions what `char::escape_debug` escapes; `'` is not escaped.) -/
inductive CharText : Char → Str → Prop where
  | plain (c : Char) (h1 : c ≠ '"') (h2 : c ≠ '\\') (h3 : c ≠ '\r') : CharText c [c]
  | newline : CharText '\n' c!"\\n"
  | return : CharText '\r' c!"\\r"
  | tab : CharText '\t' c!"\\t"
  | null : CharText (Char.ofNat 0) c!"\\0"
  | backslash : CharText '\\' c!"\\\\"
  | quote : CharText '"' c!"\\\""
  | apostrophe : CharText '\'' c!"\\'"
  | unicode (c : Char) (ds : Str) (h0 : ds ≠ []) (h6 : ds.length ≤ 6) (h : ∀ d ∈ ds, d.isDigit ∨ ('a' ≤ d ∧ d ≤ 'f') ∨ ('A' ≤ d ∧ d ≤ 'F'))
      (hv : digitsVal 16 ds = c.toNat) : CharText c (c!"\\u{" ++ ds ++ c!"}")

/-- How the inside of a string may be written. -/
inductive BodyText : Str → Str → Prop where
  | nil : BodyText [] []
  | cons {c : Char} {t s x : Str} (h : CharText c t) (r : BodyText s x) : BodyText (c :: s) (t ++ x)

/-- Decimal digits, at least one. -/
def Decimals (ds : Str) : Prop := ds ≠ [] ∧ ∀ c ∈ ds, c.isDigit = true

/-- The point of a number and the digits after it. -/
def pointText : Option Str → Str
  | some x => '.' :: x
  | none => []

/-- How a token may be written. -/
inductive TokText : Tok → Str → Prop where
  | ident (s : Str) (h : wordOk s = true) : TokText (.ident s) s
  | punct (p : Punct) : TokText (.punct p) p.text
  | life (s : Str) (h : wordOk s = true) : TokText (.life s) ('\'' :: s)
  | str {s x : Str} (h : BodyText s x) : TokText (.str s) ('"' :: (x ++ c!"\""))
  | opn (d : Delim) : TokText (.opn d) d.opening
  | cls (d : Delim) : TokText (.cls d) d.closing
  /-- the digits of the number, and the suffix -/
  | int (ip s : Str) (h : Decimals ip) (hs : wordOk s = true) (ho : suffixOk ip s = true) :
      TokText (.int (digitsVal 10 ip) s) (ip ++ s)
  /-- the digits of a number that is nearest to the float, of the type of the suffix, and the suffix; no point if the number is
  whole -/
  | float (ip : Str) (fp : Option Str) (b : Fin (2 ^ 64)) (s : Str) (h : Decimals ip) (hf : ∀ x ∈ fp, Decimals x)
      (hs : wordOk s = true) (ho : suffixOk ip s = true) (hd : Denotes (.num ip fp s) (.float b s)) :
      TokText (.float b s) (ip ++ (pointText fp ++ s))

/-- The text after a token does not make it another one. Two `>` may come together (`quote!` writes them as they stand in its
text). -/
def Stops : Tok → Str → Prop
  | .ident _, r | .life _, r | .int _ _, r | .float _ _, r => ends wordChar r = true ∧ afterWord r = true
  | .str _, r => ends wordChar r = true
  | .opn _, _ | .cls _, _ => True
  | .punct p, r =>
    match p with
    | .hash | .comma | .semi | .question | .colon2 | .arrow | .fatArrow => True
    | .colon => ends (· == ':') r = true
    | .minus => ends (fun c => c == '>' || c == '=') r = true
    | .eq => ends (fun c => c == '>' || c == '=') r = true
    | .dot => ends (· == '.') r = true
    | .dot2 => ends (fun c => c == '.' || c == '=') r = true
    | .lt => ends (fun c => c == '<' || c == '=' || c == '-') r = true
    | .gt | .star => ends (· == '=') r = true
    | .amp => ends (fun c => c == '&' || c == '=') r = true
    | .or => ends (fun c => c == '|' || c == '=') r = true

/-- How tokens may be written: one after the other, with white space before, between and after them; there must be some where two
tokens would become one. -/
inductive Spelled : Toks → Str → Prop where
  | nil {w : Str} (h : ∀ c ∈ w, isSpace c = true) : Spelled [] w
  | cons {t : Tok} {ts : Toks} {w x r : Str} (h : ∀ c ∈ w, isSpace c = true) (ht : TokText t x) (hs : Stops t r) (hr : Spelled ts r) :
      Spelled (t :: ts) (w ++ (x ++ r))

end Butte.Src
