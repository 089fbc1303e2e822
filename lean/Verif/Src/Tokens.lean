import Verif.Ir.Ast
import Verif.Rs.Syntax
/-
Rust source as tokens (`proc_macro2::TokenStream`), and `quote!`.
-/
namespace Butte.Src
open Rs (Lit)

/-- Punctuation. Signs of several characters that Rust reads as one token are one token. -/
inductive Punct where
  | hash | amp | star | comma | semi | colon | colon2 | arrow | fatArrow | lt | gt | eq | dot | dot2 | question | or | minus
deriving DecidableEq, Repr

/-- The kinds of brackets. -/
inductive Delim where
  | paren | bracket | brace
deriving DecidableEq, Repr

/-- A token. A group is an opening token, its contents, and a closing token. Numbers have no sign of their own: Rust reads
`-5i32` as a minus and a number. -/
inductive Tok where
  /-- a word, also a keyword or `_` -/
  | ident (s : Str)
  | punct (p : Punct)
  /-- a lifetime, without its quote -/
  | life (s : Str)
  | int (n : Nat) (suffix : Str)
  | float (bits : Fin (2 ^ 64)) (suffix : Str)
  | str (s : Str)
  | opn (d : Delim)
  | cls (d : Delim)
deriving DecidableEq, Repr

/-- A stream of tokens. -/
abbrev Toks := List Tok

/-- `quote::ToTokens`. -/
class ToTokens (α : Type) where
  toks : α → Toks

/-- A word; codegen.rs 38-42, 56-60 (`format_ident!`: see `Gen.formatIdent` for when it panics). -/
instance : ToTokens Str := ⟨fun s => [.ident s]⟩
instance : ToTokens Toks := ⟨id⟩

/-- `#(#xs),*` -/
def sepCommas : List Toks → Toks
  | [] => []
  | [x] => x
  | x :: y :: xs => x ++ .punct .comma :: sepCommas (y :: xs)

/-- `#(#xs,)*` -/
def endCommas (xs : List Toks) : Toks := xs.flatMap fun x => x ++ [.punct .comma]

/-! ### `quote!`

`quote! "text"` is the list of the tokens of the text; `#x` stands for the tokens of `x`, `#(#xs)*`, `#(#xs),*` and `#(#xs,)*` for the tokens
of all `xs`, and a comment is skipped. The text
is cut into tokens when Lean reads it. -/

section
open Lean

/-- A piece of the text of `quote!`. -/
inductive Piece where
  | ident (s : String)
  | punct (p : Punct)
  | life (s : String)
  | opn (d : Delim)
  | cls (d : Delim)
  | splice (s : String)
  /-- `#(#s)*` -/
  | all (s : String)
  /-- `#(#s),*` -/
  | commas (s : String)
  /-- `#(#s,)*` -/
  | withComma (s : String)
deriving Inhabited

/-- The characters of words. -/
def wordChar (c : Char) : Bool := c.isAlphanum || c == '_'

/-- The text in pieces (`none`: it has a character that is not known here). -/
def pieces : Nat → List Char → Option (List Piece)
  | 0, _ => none
  | _ + 1, [] => some []
  | n + 1, '/' :: '/' :: cs => pieces n (cs.dropWhile (· != '\n'))
  | n + 1, ':' :: ':' :: cs => (pieces n cs).map (.punct .colon2 :: ·)
  | n + 1, '-' :: '>' :: cs => (pieces n cs).map (.punct .arrow :: ·)
  | n + 1, '=' :: '>' :: cs => (pieces n cs).map (.punct .fatArrow :: ·)
  | n + 1, '.' :: '.' :: cs => (pieces n cs).map (.punct .dot2 :: ·)
  | n + 1, '(' :: cs => (pieces n cs).map (.opn .paren :: ·)
  | n + 1, ')' :: cs => (pieces n cs).map (.cls .paren :: ·)
  | n + 1, '[' :: cs => (pieces n cs).map (.opn .bracket :: ·)
  | n + 1, ']' :: cs => (pieces n cs).map (.cls .bracket :: ·)
  | n + 1, '{' :: cs => (pieces n cs).map (.opn .brace :: ·)
  | n + 1, '}' :: cs => (pieces n cs).map (.cls .brace :: ·)
  | n + 1, '&' :: cs => (pieces n cs).map (.punct .amp :: ·)
  | n + 1, '*' :: cs => (pieces n cs).map (.punct .star :: ·)
  | n + 1, ',' :: cs => (pieces n cs).map (.punct .comma :: ·)
  | n + 1, ';' :: cs => (pieces n cs).map (.punct .semi :: ·)
  | n + 1, ':' :: cs => (pieces n cs).map (.punct .colon :: ·)
  | n + 1, '<' :: cs => (pieces n cs).map (.punct .lt :: ·)
  | n + 1, '>' :: cs => (pieces n cs).map (.punct .gt :: ·)
  | n + 1, '=' :: cs => (pieces n cs).map (.punct .eq :: ·)
  | n + 1, '.' :: cs => (pieces n cs).map (.punct .dot :: ·)
  | n + 1, '?' :: cs => (pieces n cs).map (.punct .question :: ·)
  | n + 1, '|' :: cs => (pieces n cs).map (.punct .or :: ·)
  | n + 1, '\'' :: cs => (pieces n (cs.dropWhile wordChar)).map (.life (String.ofList (cs.takeWhile wordChar)) :: ·)
  | n + 1, '#' :: '(' :: '#' :: cs =>
    let x := String.ofList (cs.takeWhile wordChar)
    match cs.dropWhile wordChar with
    | ')' :: '*' :: cs => (pieces n cs).map (.all x :: ·)
    | ')' :: ',' :: '*' :: cs => (pieces n cs).map (.commas x :: ·)
    | ',' :: ')' :: '*' :: cs => (pieces n cs).map (.withComma x :: ·)
    | _ => none
  | n + 1, '#' :: c :: cs =>
    if wordChar c then
      (pieces n ((c :: cs).dropWhile wordChar)).map (.splice (String.ofList ((c :: cs).takeWhile wordChar)) :: ·)
    else (pieces n (c :: cs)).map (.punct .hash :: ·)
  | n + 1, c :: cs =>
    if c.isWhitespace then pieces n cs
    else if wordChar c then
      (pieces n ((c :: cs).dropWhile wordChar)).map (.ident (String.ofList ((c :: cs).takeWhile wordChar)) :: ·)
    else none

/-- The name of a sign. -/
def Punct.name : Punct → Name
  | .hash => ``Punct.hash | .amp => ``Punct.amp | .star => ``Punct.star | .comma => ``Punct.comma | .semi => ``Punct.semi
  | .colon => ``Punct.colon | .colon2 => ``Punct.colon2 | .arrow => ``Punct.arrow | .fatArrow => ``Punct.fatArrow
  | .lt => ``Punct.lt | .gt => ``Punct.gt | .eq => ``Punct.eq | .dot => ``Punct.dot | .dot2 => ``Punct.dot2
  | .question => ``Punct.question | .or => ``Punct.or | .minus => ``Punct.minus

/-- The name of a kind of brackets. -/
def Delim.name : Delim → Name
  | .paren => ``Delim.paren | .bracket => ``Delim.bracket | .brace => ``Delim.brace

/-- The pieces as a term. -/
def pieceTerms (src : Syntax) : List Piece → MacroM Term
  | [] => `(([] : Toks))
  | p :: ps => do
    let r ← pieceTerms src ps
    match p with
    | .ident s => `(Tok.ident c!$(Syntax.mkStrLit s) :: $r)
    | .punct x => `(Tok.punct $(mkIdent x.name) :: $r)
    | .life s => `(Tok.life c!$(Syntax.mkStrLit s) :: $r)
    | .opn d => `(Tok.opn $(mkIdent d.name) :: $r)
    | .cls d => `(Tok.cls $(mkIdent d.name) :: $r)
    | .splice s => `(ToTokens.toks $(mkIdentFrom src (Name.mkSimple s)) ++ $r)
    | .all s => `(List.flatten $(mkIdentFrom src (Name.mkSimple s)) ++ $r)
    | .commas s => `(sepCommas $(mkIdentFrom src (Name.mkSimple s)) ++ $r)
    | .withComma s => `(endCommas $(mkIdentFrom src (Name.mkSimple s)) ++ $r)

/-- The `quote!` macro. -/
macro:max tk:"quote! " s:str : term => do
  let cs := s.getString.toList
  match pieces (cs.length + 1) cs with
  | some ps => pieceTerms tk ps
  | none => Macro.throwErrorAt s "quote!: unknown character"

end

example (n : Str) (xs : List Toks) : quote! "impl<'a> #n { f(&self)? // comment
    #(#xs),* }" = [.ident c!"impl", .punct .lt, .life c!"a", .punct .gt, .ident n, .opn .brace, .ident c!"f", .opn .paren, .punct .amp,
      .ident c!"self", .cls .paren, .punct .question] ++ sepCommas xs ++ [.cls .brace] := rfl

end Butte.Src
