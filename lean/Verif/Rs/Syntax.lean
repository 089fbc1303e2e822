import Verif.Ir.Keywords
/-
The part of Rust that butte-build/src/codegen.rs writes: types, expressions, functions, items. Lifetimes, `where`
clauses, attributes (other than `repr`), visibility and associated types are left out; nothing that runs depends on them.
-/
namespace Butte.Rs

/-- A type as written. Arguments that are lifetimes are left out. -/
inductive Ty where
  /-- `i32`, `a::b::C`, `C<'a>` -/
  | path (p : List Str)
  /-- `Option<T>`, `butte::Vector<'a, T>`, `butte::WIPOffset::<T>` -/
  | app (p : List Str) (a : Ty)
  /-- `Result<T, E>` -/
  | app2 (p : List Str) (a b : Ty)
  /-- `&T`, `&'a T`, `&mut T` -/
  | ref (t : Ty)
  /-- `[T]` -/
  | slice (t : Ty)
deriving DecidableEq, Repr

/-- A literal with its type suffix. -/
inductive Lit where
  | int (i : Int) (suffix : Str)
  | float (bits : Fin (2 ^ 64)) (suffix : Str)
  | bool (b : Bool)
  | str (s : Str)
deriving DecidableEq, Repr

/-- A pattern. -/
inductive Pat where
  /-- `_` -/
  | wild
  | lit (l : Lit)
  /-- `E::V` and `<E>::V` -/
  | variant (t : Ty) (v : Str)
  /-- `U::V(..)` -/
  | tuple (t : Ty) (v : Str)
  /-- `None` -/
  | none
  /-- `Some(p)` -/
  | some (p : Pat)
  /-- `p | q` -/
  | or (p q : Pat)
deriving DecidableEq, Repr

/-- An expression. `Ok`, `Err`, `Some` and `None` are constructors here: the generated code introduces no value of such a
name. -/
inductive Expr where
  | var (x : Str)
  | lit (l : Lit)
  | ok (e : Expr)
  | err (e : Expr)
  | some (e : Expr)
  | none
  /-- `()`, the value of a block that ends in a statement -/
  | unit
  /-- `T::n` and `<T>::n`: a constant, or a variant without data -/
  | assoc (t : Ty) (n : Str)
  /-- `T::n(e)`: a variant with data -/
  | ctor (t : Ty) (n : Str) (e : Expr)
  /-- `T::f(args)`, `<T>::f(args)` and `<T as Trait>::f(args)` -/
  | call (t : Ty) (f : Str) (args : List Expr)
  /-- `p::<T>(args)`: a function of the runtime -/
  | fn (p : List Str) (turbofish : Ty) (args : List Expr)
  /-- `e.f(args)` -/
  | method (e : Expr) (f : Str) (args : List Expr)
  /-- `e.f::<T>(args)` -/
  | methodAt (e : Expr) (f : Str) (turbofish : Ty) (args : List Expr)
  /-- `e.map(T::n)` -/
  | mapCtor (e : Expr) (t : Ty) (n : Str)
  | field (e : Expr) (f : Str)
  /-- `*e` -/
  | deref (e : Expr)
  /-- `e?` -/
  | try (e : Expr)
  /-- `return e` -/
  | ret (e : Expr)
  | match (e : Expr) (arms : List (Pat × Expr))
  /-- `T { f: e, .. }` -/
  | struct (t : Ty) (fields : List (Str × Expr))

/-- A statement of a block. -/
inductive Stmt where
  /-- `let x = e;` -/
  | let (x : Str) (e : Expr)
  /-- `e;` -/
  | expr (e : Expr)
  /-- `if let Some(x) = e { body; }` -/
  | ifSome (x : Str) (e : Expr) (body : Expr)

/-- A function or method (`self` is a parameter like the others). -/
structure Fn where
  name : Str
  params : List (Str × Ty)
  result : Ty
  body : List Stmt
  value : Expr

/-- An item. -/
inductive Item where
  /-- `struct T { f: T, .. }` -/
  | struct (name : Str) (generics : List Str) (fields : List (Str × Ty))
  /-- `#[repr(base)] enum E { V = lit, .. }` -/
  | enum (name : Str) (repr : Str) (variants : List (Str × Lit))
  /-- `enum U { V(T), .. }` -/
  | union (name : Str) (variants : List (Str × Ty))
  /-- `impl<..> T { .. }` and `impl<..> Trait for T { .. }` -/
  | impl (generics : List Str) (trait : Option Ty) (self : Ty) (consts : List (Str × Fin 65536)) (fns : List Fn)
  | fn (f : Fn)
  /-- `pub mod m` (its items are listed on their own) -/
  | mod (name : Str)

/-- A program: every item with the module it is in. -/
abbrev Program := List (List Str × Item)

end Butte.Rs
