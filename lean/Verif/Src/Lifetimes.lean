import Verif.Src.Erase
import Verif.Rs.Eval
/-
The rules of Rust for lifetimes, of source files (Rust reference, "Lifetime elision", "Generic parameters"; errors E0106,
E0107, E0207, E0261, E0262, E0263, E0392, E0496, E0637): lifetimes are declared once, and before they are used; none is left
out where it has to be written; the result of a function has a lifetime to borrow from; a struct or an enum uses its
lifetimes; types are given as many lifetimes as they are declared with. Whether references live long enough is not looked at.
-/
namespace Butte.Src
open Rs (Scope)

/-! ### What is declared -/

mutual
/-- The items below an item, each with its module; modules themselves are left out. -/
def Item.flat (m : List Str) : Item → List (List Str × Item)
  | .mod _ n is => flatItems (m ++ [n]) is
  | i => [(m, i)]
/-- The items of a module and of those below it. -/
def flatItems (m : List Str) : List Item → List (List Str × Item)
  | [] => []
  | i :: is => i.flat m ++ flatItems m is
end

/-- The name and the generic parameters of a struct or enum. -/
def Item.declares : Item → Option (Str × List GParam)
  | .struct _ _ n gs _ _ => some (n, gs)
  | .enum _ _ n gs _ => some (n, gs)
  | _ => none

/-- The lifetimes among generic parameters. -/
def lifeNames : List GParam → List Str
  | [] => []
  | .life l _ :: gs => l :: lifeNames gs
  | .ty _ :: gs => lifeNames gs

/-- The lifetimes that others have to outlive. -/
def lifeBounds : List GParam → List Str
  | [] => []
  | .life _ (some b) :: gs => b :: lifeBounds gs
  | _ :: gs => lifeBounds gs

/-- A source file, with the program it stands for (for the meaning of names). -/
structure File where
  items : List Item
  prog : Rs.Program

/-- The generic parameters of the struct or enum with this name. -/
def File.decl (F : File) (m : List Str) (n : Str) : Option (List GParam) :=
  (flatItems [] F.items).findSome? fun x =>
    match x.2.declares with
    | some (k, gs) => if x.1 = m ∧ k = n then some gs else none
    | none => none

/-- How many lifetimes belong after a path: `butte::Vector` (vector.rs 33), `butte::FlatBufferBuilder` (builder.rs 42) and
`butte::Follow` (follow.rs 33) have one; `Self` has none. -/
def File.arity (F : File) (sc : Scope) (p : List Str) : Nat :=
  if p.head? = some c!"Self" then 0
  else
    match Rs.resolve F.prog sc p with
    | some (.butte b) => if b ∈ [c!"Vector", c!"FlatBufferBuilder", c!"Follow"] then 1 else 0
    | some (.item m n) => ((F.decl m n).map fun gs => (lifeNames gs).length).getD 0
    | _ => 0

/-! ### What is used -/

/-- A lifetime that is written; `'_` stands for one that is left out. -/
def lifeOf (l : Str) : Option Str := if l = c!"_" then none else some l

mutual
/-- The lifetimes in a type; `none`: one is left out. -/
def Ty.lives : Ty → List (Option Str)
  | .path _ _ as => argLives as
  | .ref l _ t => l.bind lifeOf :: t.lives
  | .slice t => t.lives
@[inherit_doc Ty.lives]
def argLives : List GArg → List (Option Str)
  | [] => []
  | .life l :: as => lifeOf l :: argLives as
  | .ty t :: as => t.lives ++ argLives as
end

/-- How many lifetimes there are among the arguments. -/
def lifeArgs : List GArg → Nat
  | [] => 0
  | .life _ :: as => lifeArgs as + 1
  | .ty _ :: as => lifeArgs as

mutual
/-- The paths in a type, each with the number of lifetimes that follow it. -/
def Ty.heads : Ty → List (List Str × Nat)
  | .path p _ as => (p, lifeArgs as) :: argHeads as
  | .ref _ _ t => t.heads
  | .slice t => t.heads
@[inherit_doc Ty.heads]
def argHeads : List GArg → List (List Str × Nat)
  | [] => []
  | .life _ :: as => argHeads as
  | .ty t :: as => t.heads ++ argHeads as
end

/-- The types among arguments. -/
def argTys : List GArg → List Ty
  | [] => []
  | .life _ :: as => argTys as
  | .ty t :: as => t :: argTys as

/-- The types in a pattern. -/
def Pat.tys : Pat → List Ty
  | .qpath t _ => [t]
  | .tuple _ q => q.tys
  | .or p q => p.tys ++ q.tys
  | _ => []

mutual
/-- The types in an expression. -/
def Expr.tys : Expr → List Ty
  | .lit _ => []
  | .path _ as => argTys as
  | .qpath t tr _ => t :: tr.toList
  | .call e as => e.tys ++ exprsTys as
  | .method e _ gs as => e.tys ++ argTys gs ++ exprsTys as
  | .field e _ | .try e | .deref e | .ret e => e.tys
  | .match e as => e.tys ++ armsTys as
  | .struct _ fs => initsTys fs
@[inherit_doc Expr.tys]
def exprsTys : List Expr → List Ty
  | [] => []
  | e :: es => e.tys ++ exprsTys es
@[inherit_doc Expr.tys]
def armsTys : List (Pat × Expr) → List Ty
  | [] => []
  | a :: as => a.1.tys ++ a.2.tys ++ armsTys as
@[inherit_doc Expr.tys]
def initsTys : List (Str × Option Expr) → List Ty
  | [] => []
  | (_, none) :: fs => initsTys fs
  | (_, some e) :: fs => e.tys ++ initsTys fs
end

/-- The types in a statement. -/
def Stmt.tys : Stmt → List Ty
  | .let _ _ e | .expr e => e.tys
  | .ifLet p e b => p.tys ++ e.tys ++ b.tys

/-- The type of a parameter other than `self`. -/
def Param.ty? : Param → Option Ty
  | .named _ t => some t
  | _ => none

/-! ### The rules -/

/-- A lifetime is in order: `ls` are those in scope, `elide`: it may be left out. -/
def LifeIn (ls : List Str) (elide : Bool) : Option Str → Prop
  | some l => l ∈ c!"static" :: ls
  | none => elide = true

/-- A type is in order. -/
def TyLives (F : File) (sc : Scope) (ls : List Str) (elide : Bool) (t : Ty) : Prop :=
  (∀ l ∈ t.lives, LifeIn ls elide l) ∧ ∀ x ∈ t.heads, x.2 = F.arity sc x.1

/-- Generic parameters are in order, inside others. -/
def GenericsLives (ls : List Str) (gs : List GParam) : Prop :=
  (ls ++ lifeNames gs).Nodup ∧ (∀ l ∈ lifeNames gs, l ≠ c!"static" ∧ l ≠ c!"_") ∧ ∀ b ∈ lifeBounds gs, b ∈ ls ++ lifeNames gs

/-- There is a lifetime for a result that leaves it out: that of `&self`, or the only one among the parameters. -/
def ElisionSource (ps : List Param) : Prop :=
  (∃ b, Param.refSelf b ∈ ps) ∨ ((ps.filterMap Param.ty?).flatMap Ty.lives).length = 1

/-- A function, below lifetimes `ls`. -/
def FnLives (F : File) (sc : Scope) (ls : List Str) (f : Fn) : Prop :=
  GenericsLives ls f.generics ∧ (∀ t ∈ f.params.filterMap Param.ty?, TyLives F sc (ls ++ lifeNames f.generics) true t) ∧
  (∀ t ∈ f.result, TyLives F sc (ls ++ lifeNames f.generics) true t ∧ (none ∈ t.lives → ElisionSource f.params)) ∧
  ∀ t ∈ f.body.flatMap Stmt.tys ++ f.value.toList.flatMap Expr.tys, TyLives F sc (ls ++ lifeNames f.generics) true t

/-- The types that a variant holds. -/
def Payload.tys : Payload → List Ty
  | .tuple t => [t]
  | _ => []

/-- A struct or enum with data of these types. -/
def DeclLives (F : File) (m : List Str) (gs : List GParam) (ts : List Ty) : Prop :=
  GenericsLives [] gs ∧ (∀ t ∈ ts, TyLives F ⟨m, typeParams gs, none⟩ (lifeNames gs) false t) ∧
  ∀ l ∈ lifeNames gs, ∃ t ∈ ts, some l ∈ t.lives

/-- An item of an `impl` with type parameters and `Self` as in `sc`, with lifetimes `ls`, `head` being those that are part
of its types. -/
def ImplItemLives (F : File) (sc : Scope) (ls : List Str) (head : List (Option Str)) : ImplItem → Prop
  | .const _ _ t _ => TyLives F sc ls true t
  | .type _ t => TyLives F sc ls false t ∧ ∀ l ∈ t.lives, l ∈ head
  | .fn f => FnLives F sc ls f

/-- The item that `Self` stands for (`Self::X` is not a path to an item). -/
def selfDef (P : Rs.Program) (m gs : List Str) : Ty → Option Rs.Def
  | .path p _ _ => Rs.resolve P ⟨m, gs, none⟩ p
  | _ => none

/-- An item of module `m` is in order. -/
def ItemLives (F : File) (m : List Str) : Item → Prop
  | .struct _ _ _ gs fs _ => DeclLives F m gs (fs.map (·.ty))
  | .enum _ _ _ gs vs => DeclLives F m gs (vs.flatMap fun v => v.payload.tys)
  | .impl gs tr s bs is => GenericsLives [] gs ∧
      (∀ t ∈ s :: tr.toList, TyLives F ⟨m, typeParams gs, none⟩ (lifeNames gs) true t) ∧
      (∀ b ∈ bs, TyLives F ⟨m, typeParams gs, none⟩ (lifeNames gs) false b.2) ∧
      ∀ i ∈ is, ImplItemLives F ⟨m, typeParams gs, selfDef F.prog m (typeParams gs) s⟩ (lifeNames gs)
        ((s :: tr.toList).flatMap Ty.lives) i
  | .fn f => FnLives F ⟨m, [], none⟩ [] f
  | .mod .. => True

/-- All items of a file are in order. -/
def LifetimesOk (F : File) : Prop := ∀ x ∈ flatItems [] F.items, ItemLives F x.1 x.2

end Butte.Src
