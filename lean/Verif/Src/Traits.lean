import Verif.Src.Lifetimes
import Verif.Rs.Typing
/-
The rules of Rust for traits, of source files (Rust reference, "Derive", "Implementations", "Orphan rules"; errors E0046,
E0053, E0117, E0186, E0204, E0275, E0277, E0407, E0437, E0449): which types have which traits; what is derived can be derived;
an `impl` of a trait has the associated types and the function of the trait, with parameters taken in the same way, and is
for a type or with an argument of this crate; the traits that called functions ask for are there.
-/
namespace Butte.Src
open Rs (Scope resolve)

/-! ### Which types have which traits -/

/-- The struct or enum with this name. -/
def File.item (F : File) (m : List Str) (n : Str) : Option Item :=
  (flatItems [] F.items).findSome? fun x =>
    match x.2.declares with
    | some (k, _) => if x.1 = m ∧ k = n then some x.2 else none
    | none => none

/-- The names in `#[derive(..)]`. -/
def derives (as : List Attr) : List (List Str) :=
  as.flatMap fun a =>
    match a.arg with
    | .list ps => if a.name = c!"derive" then ps else []
    | _ => []

/-- The attributes of an item. -/
def Item.typeAttrs : Item → List Attr
  | .struct as _ _ _ _ _ => as
  | .enum as _ _ _ _ => as
  | _ => []

/-- The traits that `std` has derive macros for. -/
def derivable : List Str :=
  [c!"Clone", c!"Copy", c!"Debug", c!"Default", c!"Eq", c!"Hash", c!"Ord", c!"PartialEq", c!"PartialOrd"]

/-- Those of `derivable` that are there for a primitive type: floating point numbers have no total order. -/
def primTraits : STy → List Str
  | .f32 | .f64 => [c!"Clone", c!"Copy", c!"Debug", c!"Default", c!"PartialEq", c!"PartialOrd"]
  | _ => derivable

/-- Those of `derivable` that a type of the runtime crate always has (error.rs 4, builder.rs 41, primitives.rs 65-107, 149-155,
vector.rs 35-39). -/
def butteTraits (b : Str) : List Str :=
  if b = c!"Error" then [c!"Clone", c!"Copy", c!"Debug", c!"PartialEq", c!"Eq"]
  else if b = c!"FlatBufferBuilder" then [c!"Clone", c!"Debug", c!"Eq", c!"PartialEq"]
  else if b ∈ [c!"UnionWIPOffset", c!"TableUnfinishedWIPOffset", c!"TableFinishedWIPOffset", c!"Vector", c!"ForwardsUOffset"] then
    [c!"Clone", c!"Copy"]
  else if b = c!"WIPOffset" then [c!"Clone", c!"Copy", c!"PartialEq"]
  else []

/-- Those that it has if its argument does (table.rs 25, primitives.rs 84, 147, vector.rs 32). -/
def butteTraitsOf (b : Str) : List Str :=
  if b = c!"Table" then [c!"Clone", c!"Copy", c!"Debug", c!"PartialEq"]
  else if b ∈ [c!"Vector", c!"WIPOffset", c!"ForwardsUOffset"] then [c!"Debug"]
  else []

/-- What a reference has if that does which it is to; slices are the same. -/
def throughRef : List Str := [c!"Debug", c!"Eq", c!"Hash", c!"Ord", c!"PartialEq", c!"PartialOrd"]

/-- A type, as it is written in a scope, has one of the traits that can be derived; `bs`: the type parameters that have it. -/
inductive Has (F : File) (tr : Str) (bs : List Str) (sc : Scope) : Ty → Prop where
  | prim {p : List Str} {c : Bool} {t : STy} : resolve F.prog sc p = some (.prim t) → tr ∈ primTraits t → Has F tr bs sc (.path p c [])
  | usize {p : List Str} {c : Bool} : resolve F.prog sc p = some .usize → tr ∈ derivable → Has F tr bs sc (.path p c [])
  | str {p : List Str} {c : Bool} : resolve F.prog sc p = some .str → tr ∈ throughRef → Has F tr bs sc (.path p c [])
  | param {p : List Str} {c : Bool} {n : Str} : resolve F.prog sc p = some (.param n) → n ∈ bs → Has F tr bs sc (.path p c [])
  | slice {t : Ty} : tr ∈ throughRef → Has F tr bs sc t → Has F tr bs sc (.slice t)
  | ref {l : Option Str} {t : Ty} : tr ∈ [c!"Clone", c!"Copy"] → Has F tr bs sc (.ref l false t)
  | refTo {l : Option Str} {b : Bool} {t : Ty} : tr ∈ throughRef → Has F tr bs sc t → Has F tr bs sc (.ref l b t)
  | option {p : List Str} {c : Bool} {as : List GArg} : resolve F.prog sc p = some (.std c!"Option") → tr ∈ derivable →
      (∀ t ∈ argTys as, Has F tr bs sc t) → Has F tr bs sc (.path p c as)
  | butte {p : List Str} {c : Bool} {as : List GArg} {b : Str} : resolve F.prog sc p = some (.butte b) → tr ∈ butteTraits b →
      Has F tr bs sc (.path p c as)
  | butteOf {p : List Str} {c : Bool} {as : List GArg} {b : Str} : resolve F.prog sc p = some (.butte b) → tr ∈ butteTraitsOf b →
      (∀ t ∈ argTys as, Has F tr bs sc t) → Has F tr bs sc (.path p c as)
  /-- derived: if the arguments have it (`Self` may have arguments that are not written) -/
  | item {p : List Str} {c : Bool} {as : List GArg} {m : List Str} {n : Str} {i : Item} : resolve F.prog sc p = some (.item m n) →
      p.head? ≠ some c!"Self" → F.item m n = some i → [tr] ∈ derives i.typeAttrs → (∀ t ∈ argTys as, Has F tr bs sc t) → Has F tr bs sc (.path p c as)

/-! ### What is derived -/

/-- The traits that have to be there for a trait to be. -/
def superTraits (tr : Str) : List Str :=
  if tr = c!"Copy" then [c!"Clone"]
  else if tr = c!"Eq" then [c!"PartialEq"]
  else if tr = c!"PartialOrd" then [c!"PartialEq"]
  else if tr = c!"Ord" then [c!"Eq", c!"PartialOrd"]
  else []

/-- What is derived for a type with data of types `ts` can be: once, with what it builds on, and the data has it too. -/
def DerivesOk (F : File) (m : List Str) (gs : List GParam) (as : List Attr) (can : List Str) (ts : List Ty) : Prop :=
  (derives as).Nodup ∧ ∀ p ∈ derives as, ∃ tr ∈ can, p = [tr] ∧ (∀ s ∈ superTraits tr, [s] ∈ derives as) ∧
    ∀ t ∈ ts, Has F tr (typeParams gs) ⟨m, typeParams gs, none⟩ t

/-! ### Implementations -/

/-- How a parameter is taken. -/
inductive Pass where
  | self
  | selfRef
  | selfMut
  | value
  | ref
  | refMut
deriving DecidableEq

@[inherit_doc Pass]
def Param.pass : Param → Pass
  | .self => .self
  | .refSelf false => .selfRef
  | .refSelf true => .selfMut
  | .named _ (.ref _ false _) => .ref
  | .named _ (.ref _ true _) => .refMut
  | .named _ _ => .value

/-- The function of a trait and how it takes its parameters (follow.rs 33-42, push.rs 27-29, and `std`). The other functions
of the traits have bodies of their own. -/
def traitFn : Rs.Def → Option (Str × List Pass)
  | .std d =>
    if d = c!"Default" then some (c!"default", [])
    else if d = c!"From" then some (c!"from", [.value])
    else if d = c!"TryFrom" then some (c!"try_from", [.value])
    else none
  | .butte b =>
    if b = c!"Follow" then some (c!"follow", [.ref, .value])
    else if b = c!"FollowBuf" then some (c!"follow_buf", [.value, .value])
    else if b = c!"Push" then some (c!"push", [.selfRef, .refMut, .ref])
    else none
  | _ => none

/-- The functions of an `impl`. -/
def implFns : List ImplItem → List Fn
  | [] => []
  | .fn f :: is => f :: implFns is
  | _ :: is => implFns is

/-- The associated types of an `impl`. -/
def implTypes : List ImplItem → List (Str × Ty)
  | [] => []
  | .type n t :: is => (n, t) :: implTypes is
  | _ :: is => implTypes is

/-- The constants of an `impl`. -/
def implConsts : List ImplItem → List Str
  | [] => []
  | .const _ n _ _ :: is => n :: implConsts is
  | _ :: is => implConsts is

/-- What a path in front of arguments names. -/
def headDef (P : Rs.Program) (sc : Scope) : Ty → Option Rs.Def
  | .path p _ _ => resolve P sc p
  | _ => none

/-- The type is one that this crate declares. -/
def LocalTy (P : Rs.Program) (sc : Scope) (t : Ty) : Prop := ∃ m n, headDef P sc t = some (.item m n)

/-- The arguments of a type. -/
def Ty.args : Ty → List Ty
  | .path _ _ as => argTys as
  | _ => []

/-- An `impl` of a trait: the types that the trait asks for are those that `Rs.traitSpec` (which C78 relies on) takes them to
be; there is the function that it asks for and no other, not `pub`, and nothing else; the type is of this crate, or it is not
just a type parameter and the argument of the trait is of this crate. -/
def TraitImplOk (F : File) (m : List Str) (gs : List GParam) (tr s : Ty) (is : List ImplItem) : Prop :=
  let sc : Scope := ⟨m, typeParams gs, none⟩
  (∃ tr' s' self assoc name ts r, tr.erase = some tr' ∧ s.erase = some s' ∧ Rs.tyOf F.prog ⟨sc, none, []⟩ s' = some self ∧
    Rs.traitSpec F.prog sc self tr' = some (assoc, name, ts, r) ∧
    ((implTypes is).mapM fun x => (x.2.erase).bind fun t =>
        (Rs.tyOf F.prog ⟨⟨m, typeParams gs, headDef F.prog sc s⟩, some self, []⟩ t).map (x.1, ·)) = some assoc) ∧
  (∃ d name ps f, headDef F.prog sc tr = some d ∧ traitFn d = some (name, ps) ∧ implFns is = [f] ∧ f.name = name ∧
    f.params.map Param.pass = ps ∧ f.generics = [] ∧ f.pub = false) ∧
  implConsts is = [] ∧ (LocalTy F.prog sc s ∨ (∀ g, headDef F.prog sc s ≠ some (.param g)) ∧ ∃ t ∈ tr.args, LocalTy F.prog sc t)

/-! ### What called functions ask for -/

mutual
/-- The methods that are called, with type arguments. -/
def Expr.methods : Expr → List (Str × List Ty)
  | .lit _ | .path _ _ | .qpath _ _ _ => []
  | .call e as => e.methods ++ exprsMethods as
  | .method e f gs as => (f, argTys gs) :: e.methods ++ exprsMethods as
  | .field e _ | .try e | .deref e | .ret e => e.methods
  | .match e as => e.methods ++ armsMethods as
  | .struct _ fs => initsMethods fs
@[inherit_doc Expr.methods]
def exprsMethods : List Expr → List (Str × List Ty)
  | [] => []
  | e :: es => e.methods ++ exprsMethods es
@[inherit_doc Expr.methods]
def armsMethods : List (Pat × Expr) → List (Str × List Ty)
  | [] => []
  | a :: as => a.2.methods ++ armsMethods as
@[inherit_doc Expr.methods]
def initsMethods : List (Str × Option Expr) → List (Str × List Ty)
  | [] => []
  | (_, none) :: fs => initsMethods fs
  | (_, some e) :: fs => e.methods ++ initsMethods fs
end

mutual
/-- The paths in an expression. -/
def Expr.paths : Expr → List (List Str)
  | .lit _ | .qpath _ _ _ => []
  | .path p _ => [p]
  | .call e as => e.paths ++ exprsPaths as
  | .method e _ _ as => e.paths ++ exprsPaths as
  | .field e _ | .try e | .deref e | .ret e => e.paths
  | .match e as => e.paths ++ armsPaths as
  | .struct _ fs => initsPaths fs
@[inherit_doc Expr.paths]
def exprsPaths : List Expr → List (List Str)
  | [] => []
  | e :: es => e.paths ++ exprsPaths es
@[inherit_doc Expr.paths]
def armsPaths : List (Pat × Expr) → List (List Str)
  | [] => []
  | a :: as => a.2.paths ++ armsPaths as
@[inherit_doc Expr.paths]
def initsPaths : List (Str × Option Expr) → List (List Str)
  | [] => []
  | (_, none) :: fs => initsPaths fs
  | (_, some e) :: fs => e.paths ++ initsPaths fs
end

/-- The expressions in a statement. -/
def Stmt.exprs : Stmt → List Expr
  | .let _ _ e | .expr e => [e]
  | .ifLet _ e b => [e, b]

/-- The expressions in a function. -/
def Fn.exprs (f : Fn) : List Expr := f.body.flatMap Stmt.exprs ++ f.value.toList

/-- `push_slot` compares (builder.rs 147). -/
def FnTraits (F : File) (sc : Scope) (f : Fn) : Prop :=
  ∀ e ∈ f.exprs, ∀ x ∈ e.methods, x.1 = c!"push_slot" → ∀ t ∈ x.2, Has F c!"PartialEq" [] sc t

/-- A function reads the buffer (table.rs 38-69). -/
def Reads (P : Rs.Program) (sc : Scope) (f : Fn) : Prop :=
  ∃ e ∈ f.exprs, (∃ x ∈ e.methods, x.1 = c!"get") ∨
    ∃ p ∈ e.paths, p.getLast? = some c!"get_root" ∧ resolve P sc p.dropLast = some (.butte c!"Table")

/-- The bound is `AsRef<[u8]>`. -/
def IsAsRef (P : Rs.Program) (sc : Scope) : Ty → Prop
  | .path p _ [.ty (.slice (.path q _ []))] => resolve P sc p = some (.std c!"AsRef") ∧ resolve P sc q = some (.prim .u8)
  | _ => False

/-- The bounds of an `impl`: they are on its parameters, and there is one on each if the buffer is read, or is to be the buffer
of `FollowBuf` (follow.rs 39). -/
def BoundsOk (F : File) (m : List Str) (gs : List GParam) (tr : Option Ty) (bs : List (Str × Ty)) (is : List ImplItem) : Prop :=
  let sc : Scope := ⟨m, typeParams gs, none⟩
  (∀ b ∈ bs, b.1 ∈ typeParams gs) ∧
  (((∃ f ∈ implFns is, Reads F.prog sc f) ∨ tr.bind (headDef F.prog sc) = some (.butte c!"FollowBuf")) →
    ∀ g ∈ typeParams gs, ∃ b ∈ bs, b.1 = g ∧ IsAsRef F.prog sc b.2)

/-- An item of module `m` is in order. -/
def ItemTraits (F : File) (m : List Str) : Item → Prop
  | .struct as _ _ gs fs _ => DerivesOk F m gs as derivable (fs.map (·.ty))
  | .enum as _ _ gs vs => DerivesOk F m gs as (derivable.filter (· ≠ c!"Default")) (vs.flatMap fun v => v.payload.tys)
  | .impl gs tr s bs is => BoundsOk F m gs tr bs is ∧
      (∀ f ∈ implFns is, FnTraits F ⟨m, typeParams gs, headDef F.prog ⟨m, typeParams gs, none⟩ s⟩ f) ∧
      match tr with
      | some tr => TraitImplOk F m gs tr s is
      | none => implTypes is = [] ∧ LocalTy F.prog ⟨m, typeParams gs, none⟩ s
  | .fn f => FnTraits F ⟨m, [], none⟩ f
  | .mod .. => True

/-- All items of a file are in order. -/
def TraitsOk (F : File) : Prop := ∀ x ∈ flatItems [] F.items, ItemTraits F x.1 x.2

end Butte.Src
