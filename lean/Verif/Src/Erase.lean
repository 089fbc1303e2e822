import Verif.Src.Tree
import Verif.Rs.Syntax
/-
What of a source file matters when it runs: lifetimes, attributes (other than `repr`), visibility, `where` clauses and
associated types are dropped, and names are taken apart. `none`: not of the part of Rust that `Rs/Syntax.lean` has.
-/
namespace Butte.Src

mutual
/-- A type without lifetimes. -/
def Ty.erase : Ty → Option Rs.Ty
  | .path p _ as => do
    match ← eraseArgs as with
    | [] => some (.path p)
    | [a] => some (.app p a)
    | [a, b] => some (.app2 p a b)
    | _ => none
  | .ref _ _ t => do return .ref (← t.erase)
  | .slice t => do return .slice (← t.erase)
/-- The types among generic arguments. -/
def eraseArgs : List GArg → Option (List Rs.Ty)
  | [] => some []
  | .life _ :: as => eraseArgs as
  | .ty t :: as => do
    let t ← t.erase
    let ts ← eraseArgs as
    return t :: ts
end

/-- `a::b::c` as the type `a::b` and the name `c`. -/
def splitPath (p : List Str) : Option (Rs.Ty × Str) :=
  match p.getLast? with
  | some n => if p.dropLast = [] then none else some (.path p.dropLast, n)
  | none => none

/-- A pattern. -/
def Pat.erase : Pat → Option Rs.Pat
  | .wild => some .wild
  | .lit l => some (.lit l)
  | .path p => if p = [c!"None"] then some .none else (splitPath p).map fun x => .variant x.1 x.2
  | .qpath t n => do return .variant (← t.erase) n
  | .rest p => (splitPath p).map fun x => .tuple x.1 x.2
  | .tuple p q => do
    let q ← q.erase
    if p = [c!"Some"] then some (.some q) else none
  | .or p q => do
    let p ← p.erase
    let q ← q.erase
    return .or p q

/-- A path as an expression. -/
def erasePath (p : List Str) : Option Rs.Expr :=
  match p with
  | [x] => some (if x = c!"None" then .none else .var x)
  | _ => (splitPath p).map fun x => .assoc x.1 x.2

/-- A call of what a path names, with erased generic arguments. -/
def eraseCall (p : List Str) (gs : List Rs.Ty) (as : List Rs.Expr) : Option Rs.Expr :=
  match gs with
  | [t] => some (.fn p t as)
  | [] =>
    match p, as with
    | [f], [a] => if f = c!"Ok" then some (.ok a) else if f = c!"Err" then some (.err a) else if f = c!"Some" then some (.some a) else none
    | _, _ => (splitPath p).map fun x => .call x.1 x.2 as
  | _ => none

mutual
/-- An expression. -/
def Expr.erase : Expr → Option Rs.Expr
  | .lit l => some (.lit l)
  | .path p gs => if gs.isEmpty then erasePath p else none
  | .qpath t _ n => do return .assoc (← t.erase) n
  | .call (.path p gs) as => do
    let gs ← eraseArgs gs
    let as ← eraseExprs as
    eraseCall p gs as
  | .call (.qpath t _ n) as => do
    let t ← t.erase
    let as ← eraseExprs as
    return .call t n as
  | .call _ _ => none
  | .method e f gs as => do
    let e ← e.erase
    let gs ← eraseArgs gs
    let as ← eraseExprs as
    match gs with
    | [] => some (.method e f as)
    | [t] => some (.methodAt e f t as)
    | _ => none
  | .field e f => do return .field (← e.erase) f
  | .try e => do return .try (← e.erase)
  | .deref e => do return .deref (← e.erase)
  | .ret e => do return .ret (← e.erase)
  | .match e as => do
    let e ← e.erase
    let as ← eraseArms as
    return .match e as
  | .struct p fs => do
    let fs ← eraseInits fs
    return .struct (.path p) fs
/-- Arguments. -/
def eraseExprs : List Expr → Option (List Rs.Expr)
  | [] => some []
  | e :: es => do
    let e ← e.erase
    let es ← eraseExprs es
    return e :: es
/-- The arms of a `match`. -/
def eraseArms : List (Pat × Expr) → Option (List (Rs.Pat × Rs.Expr))
  | [] => some []
  | a :: as => do
    let p ← a.1.erase
    let e ← a.2.erase
    let as ← eraseArms as
    return (p, e) :: as
/-- The fields of a struct; without a value: the variable of that name. -/
def eraseInits : List (Str × Option Expr) → Option (List (Str × Rs.Expr))
  | [] => some []
  | f :: fs => do
    let e ← eraseInit f.1 f.2
    let fs ← eraseInits fs
    return (f.1, e) :: fs
@[inherit_doc eraseInits]
def eraseInit (x : Str) : Option Expr → Option Rs.Expr
  | none => some (.var x)
  | some e => e.erase
end

/-- A statement. -/
def Stmt.erase : Stmt → Option Rs.Stmt
  | .let _ x e => do return .let x (← e.erase)
  | .expr e => do return .expr (← e.erase)
  | .ifLet (.tuple p (.path [x])) e b => do
    let e ← e.erase
    let b ← b.erase
    if p = [c!"Some"] then some (.ifSome x e b) else none
  | .ifLet _ _ _ => none

/-- The parameters of a function: `self` is one like the others. -/
def Param.erase : Param → Option (Str × Rs.Ty)
  | .self => some (c!"self", .path [c!"Self"])
  | .refSelf _ => some (c!"self", .ref (.path [c!"Self"]))
  | .named x t => do return (x, ← t.erase)

/-- A function; without a result: `()`, written `.path []`. -/
def Fn.erase (f : Fn) : Option Rs.Fn := do
  let params ← f.params.mapM Param.erase
  let result ← match f.result with
    | some t => t.erase
    | none => some (.path [])
  let body ← f.body.mapM Stmt.erase
  let value ← match f.value with
    | some e => e.erase
    | none => some .unit
  return ⟨f.name, params, result, body, value⟩

/-- The types among generic parameters. -/
def typeParams : List GParam → List Str
  | [] => []
  | .life _ _ :: gs => typeParams gs
  | .ty n :: gs => n :: typeParams gs

/-- The constants of an `impl`: numbers of two bytes. -/
def eraseConsts : List ImplItem → Option (List (Str × Fin 65536))
  | [] => some []
  | .const _ n _ (.int i s) :: is => do
    let cs ← eraseConsts is
    if h : s = c!"u16" ∧ 0 ≤ i ∧ i.toNat < 65536 then some ((n, ⟨i.toNat, h.2.2⟩) :: cs) else none
  | .const _ _ _ _ :: _ => none
  | .type _ _ :: is => eraseConsts is
  | .fn _ :: is => eraseConsts is

/-- The functions of an `impl`. -/
def eraseFns : List ImplItem → Option (List Rs.Fn)
  | [] => some []
  | .fn f :: is => do
    let f ← f.erase
    let fs ← eraseFns is
    return f :: fs
  | _ :: is => eraseFns is

/-- The representation asked for. -/
def reprOf : List Attr → Option Str
  | [] => none
  | ⟨n, .list [[b]]⟩ :: as => if n = c!"repr" then some b else reprOf as
  | _ :: as => reprOf as

/-- A variant with a value. -/
def Variant.eraseValue (v : Variant) : Option (Str × Rs.Lit) :=
  match v.payload with
  | .value l => some (v.name, l)
  | _ => none

/-- A variant with data. -/
def Variant.eraseTuple (v : Variant) : Option (Str × Rs.Ty) :=
  match v.payload with
  | .tuple t => do return (v.name, ← t.erase)
  | _ => none

mutual
/-- An item of module `path`. -/
def Item.erase (path : List Str) : Item → Option Rs.Program
  | .struct _ _ n gs fs _ => do
    let fs ← fs.mapM fun f => do return (f.name, ← f.ty.erase)
    return [(path, .struct n (typeParams gs) fs)]
  | .enum as _ n _ vs =>
    match reprOf as with
    | some b => do return [(path, .enum n b (← vs.mapM Variant.eraseValue))]
    | none => do return [(path, .union n (← vs.mapM Variant.eraseTuple))]
  | .impl gs tr s _ is => do
    let tr ← match tr with
      | some t => t.erase.map some
      | none => some none
    let s ← s.erase
    let cs ← eraseConsts is
    let fs ← eraseFns is
    return [(path, .impl (typeParams gs) tr s cs fs)]
  | .fn f => do return [(path, .fn (← f.erase))]
  | .mod _ n is => do
    let is ← eraseItems (path ++ [n]) is
    return (path, .mod n) :: is
/-- The items of module `path`. -/
def eraseItems (path : List Str) : List Item → Option Rs.Program
  | [] => some []
  | i :: is => do
    let a ← i.erase path
    let b ← eraseItems path is
    return a ++ b
end

end Butte.Src

/-! What the text does not tell: whether `T::n(e)` is a variant or a call, and that `e.map(T::n)` maps a variant. -/
namespace Butte.Rs

mutual
/-- An expression, with variants as calls. -/
def Expr.forget : Expr → Expr
  | .var x => .var x
  | .lit l => .lit l
  | .ok e => .ok e.forget
  | .err e => .err e.forget
  | .some e => .some e.forget
  | .none => .none
  | .unit => .unit
  | .assoc t n => .assoc t n
  | .ctor t n e => .call t n [e.forget]
  | .call t f as => .call t f (forgets as)
  | .fn p t as => .fn p t (forgets as)
  | .method e f as => .method e.forget f (forgets as)
  | .methodAt e f t as => .methodAt e.forget f t (forgets as)
  | .mapCtor e t n => .method e.forget c!"map" [.assoc t n]
  | .field e f => .field e.forget f
  | .deref e => .deref e.forget
  | .try e => .try e.forget
  | .ret e => .ret e.forget
  | .match e as => .match e.forget (forgetArms as)
  | .struct t fs => .struct t (forgetInits fs)
@[inherit_doc Expr.forget]
def forgets : List Expr → List Expr
  | [] => []
  | e :: es => e.forget :: forgets es
@[inherit_doc Expr.forget]
def forgetArms : List (Pat × Expr) → List (Pat × Expr)
  | [] => []
  | a :: as => (a.1, a.2.forget) :: forgetArms as
@[inherit_doc Expr.forget]
def forgetInits : List (Str × Expr) → List (Str × Expr)
  | [] => []
  | f :: fs => (f.1, f.2.forget) :: forgetInits fs
end

@[inherit_doc Expr.forget]
def Stmt.forget : Stmt → Stmt
  | .let x e => .let x e.forget
  | .expr e => .expr e.forget
  | .ifSome x e b => .ifSome x e.forget b.forget

@[inherit_doc Expr.forget]
def Fn.forget (f : Fn) : Fn := ⟨f.name, f.params, f.result, f.body.map Stmt.forget, f.value.forget⟩

@[inherit_doc Expr.forget]
def Item.forget : Item → Item
  | .impl gs tr s cs fs => .impl gs tr s cs (fs.map Fn.forget)
  | .fn f => .fn f.forget
  | i => i

@[inherit_doc Expr.forget]
def Program.forget (P : Program) : Program := P.map fun x => (x.1, x.2.forget)

end Butte.Rs
