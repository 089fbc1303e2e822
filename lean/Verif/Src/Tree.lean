import Verif.Src.Tokens
import Verif.Gen.Compile
/-
Rust source as a tree: everything of the language that butte-build/src/codegen.rs uses, with lifetimes, attributes,
visibility, bounds and associated types.
-/
namespace Butte.Src
open Rs (Lit)

mutual
/-- A type. -/
inductive Ty where
  /-- `a::b::C<'a, T>`; `colon`: the arguments are written `::<..>` -/
  | path (p : List Str) (colon : Bool) (args : List GArg)
  /-- `&'a mut T` -/
  | ref (life : Option Str) (isMut : Bool) (t : Ty)
  /-- `[T]` -/
  | slice (t : Ty)
/-- A generic argument. -/
inductive GArg where
  | life (l : Str)
  | ty (t : Ty)
end

/-- A pattern. -/
inductive Pat where
  /-- `_` -/
  | wild
  | lit (l : Lit)
  /-- `a::b::C` -/
  | path (p : List Str)
  /-- `<T>::V` -/
  | qpath (t : Ty) (v : Str)
  /-- `P(..)` -/
  | rest (p : List Str)
  /-- `P(q)` -/
  | tuple (p : List Str) (q : Pat)
  /-- `p | q` -/
  | or (p q : Pat)

/-- An expression. -/
inductive Expr where
  | lit (l : Lit)
  /-- `a::b::c::<T>` -/
  | path (p : List Str) (targs : List GArg)
  /-- `<T>::n` and `<T as Trait>::n` -/
  | qpath (t : Ty) (trait : Option Ty) (n : Str)
  /-- `e(args)` -/
  | call (e : Expr) (args : List Expr)
  /-- `e.f::<T>(args)` -/
  | method (e : Expr) (f : Str) (targs : List GArg) (args : List Expr)
  | field (e : Expr) (f : Str)
  /-- `e?` -/
  | try (e : Expr)
  /-- `*e` -/
  | deref (e : Expr)
  /-- `return e` -/
  | ret (e : Expr)
  | match (e : Expr) (arms : List (Pat × Expr))
  /-- `P { f: e, g }`; `none`: a field without a value, which stands for the variable of that name -/
  | struct (p : List Str) (fields : List (Str × Option Expr))

/-- A statement. -/
inductive Stmt where
  /-- `let mut x = e;` -/
  | let (isMut : Bool) (x : Str) (e : Expr)
  /-- `e;` -/
  | expr (e : Expr)
  /-- `if let p = e { body; }` -/
  | ifLet (p : Pat) (e : Expr) (body : Expr)

/-- What stands in an attribute after its name. -/
inductive AttrArg where
  | none
  /-- `= "text"` -/
  | eq (s : Str)
  /-- `(a, b::c)` -/
  | list (ps : List (List Str))
deriving DecidableEq

/-- An attribute, `#[name ..]`. -/
structure Attr where
  name : Str
  arg : AttrArg
deriving DecidableEq

/-- A generic parameter. -/
inductive GParam where
  /-- `'a`, `'a: 'b` -/
  | life (l : Str) (bound : Option Str)
  | ty (n : Str)
deriving DecidableEq

/-- A parameter of a function. -/
inductive Param where
  /-- `self` -/
  | self
  /-- `&self`, `&mut self` -/
  | refSelf (isMut : Bool)
  | named (x : Str) (t : Ty)

/-- A function. -/
structure Fn where
  attrs : List Attr
  pub : Bool
  name : Str
  generics : List GParam
  params : List Param
  result : Option Ty
  body : List Stmt
  /-- the expression at the end of the body -/
  value : Option Expr

/-- A field of a struct. -/
structure Field where
  attrs : List Attr
  pub : Bool
  name : Str
  ty : Ty

/-- What a variant of an enum has. -/
inductive Payload where
  | none
  /-- `= value` -/
  | value (l : Lit)
  /-- `(T)` -/
  | tuple (t : Ty)

/-- A variant of an enum. -/
structure Variant where
  attrs : List Attr
  name : Str
  payload : Payload

/-- An item of an `impl`. -/
inductive ImplItem where
  /-- `pub const N: T = value;` -/
  | const (pub : Bool) (n : Str) (t : Ty) (l : Lit)
  /-- `type N = T;` -/
  | type (n : Str) (t : Ty)
  | fn (f : Fn)

/-- An item. -/
inductive Item where
  /-- `trailing`: a comma follows the last field -/
  | struct (attrs : List Attr) (pub : Bool) (name : Str) (generics : List GParam) (fields : List Field) (trailing : Bool)
  | enum (attrs : List Attr) (pub : Bool) (name : Str) (generics : List GParam) (variants : List Variant)
  /-- `impl<..> Trait for T where B: Bound { .. }` -/
  | impl (generics : List GParam) (trait : Option Ty) (self : Ty) (bounds : List (Str × Ty)) (items : List ImplItem)
  | fn (f : Fn)
  | mod (pub : Bool) (name : Str) (items : List Item)

/-- A name that can be declared or used: no keyword, and not `_`. (The lexer has made sure that it is a word.) -/
def nameOk (s : Str) : Bool := decide (s ∉ Gen.rustKeywords) && decide (s ≠ c!"_")

/-- A segment of a path. -/
def segOk (s : Str) : Bool := nameOk s || decide (s ∈ [c!"self", c!"Self", c!"super", c!"crate"])

end Butte.Src
