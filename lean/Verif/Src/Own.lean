import Verif.Src.Traits
/-
The rules of Rust for ownership, of source files (Rust reference, "Moved and copied types", "Place expressions",
"Method-call expressions", "Visibility"; errors E0382, E0507, E0596, E0603, E0616, E0624): a variable that was moved is not
used again; nothing is moved out of a reference; what is changed is declared `mut` or is behind `&mut`; private fields and
methods are used where they can be seen. Whether references live long enough, and whether two of them get in each other's way,
is not looked at.
-/
namespace Butte.Src
open Rs (Scope resolve)

/-! ### Places -/

/-- The type of a place: as it is written in a scope, an offset `butte::WIPOffset<_>`, or not known. -/
inductive PlaceTy where
  | ty (sc : Scope) (t : Ty)
  | offset
  | unknown

/-- How a place is reached: it is part of a variable, it is behind a reference, or behind `&mut` references only. -/
inductive Access where
  | owned (isMut : Bool)
  | shared
  | unique
deriving DecidableEq

/-- Behind one more reference. -/
def Access.through (isMut : Bool) : Access → Access
  | .shared => .shared
  | _ => if isMut then .unique else .shared

/-- Values of the type are copied when they are used. -/
def IsCopy (F : File) : PlaceTy → Prop
  | .ty sc t => Has F c!"Copy" [] sc t
  | .offset => True
  | .unknown => False

/-- A type behind all its references, and how that is reached. -/
def peel : Ty → Access → Ty × Access
  | .ref _ b t, a => peel t (a.through b)
  | t, a => (t, a)

@[inherit_doc peel]
def autoDeref : PlaceTy → Access → PlaceTy × Access
  | .ty sc t, a => (.ty sc (peel t a).1, (peel t a).2)
  | p, a => (p, a)

/-- A local variable. -/
structure Local where
  name : Str
  isMut : Bool
  ty : PlaceTy

/-- The innermost variable with a name. -/
def localOf (Γ : List Local) (x : Str) : Option Local := Γ.find? fun y => y.name == x

/-- What is declared in module `m` with or without `pub` can be used in module `cur`. -/
def Visible (pub : Bool) (m cur : List Str) : Prop := pub = true ∨ m <+: cur

/-- A place, in module `cur`: the variable that it is part of or reached from, its type, and how it is reached. -/
inductive Place (F : File) (cur : List Str) (Γ : List Local) : Expr → Str → PlaceTy → Access → Prop where
  | var {x : Str} {v : Local} : localOf Γ x = some v → Place F cur Γ (.path [x] []) x v.ty (.owned v.isMut)
  /-- type arguments are not put in: fields of their types are taken not to be `Copy` -/
  | field {e : Expr} {x : Str} {p : PlaceTy} {a a' : Access} {sc : Scope} {q : List Str} {c : Bool} {as : List GArg} {m : List Str}
      {n : Str} {at' : List Attr} {pub : Bool} {n' : Str} {gs : List GParam} {fs : List Field} {tc : Bool} {f : Field} :
      Place F cur Γ e x p a → autoDeref p a = (.ty sc (.path q c as), a') → resolve F.prog sc q = some (.item m n) →
      F.item m n = some (.struct at' pub n' gs fs tc) → f ∈ fs → Visible f.pub m cur →
      Place F cur Γ (.field e f.name) x (.ty ⟨m, typeParams gs, none⟩ f.ty) a'
  | deref {e : Expr} {x : Str} {sc : Scope} {l : Option Str} {b : Bool} {t : Ty} {a : Access} :
      Place F cur Γ e x (.ty sc (.ref l b t)) a → Place F cur Γ (.deref e) x (.ty sc t) (a.through b)

/-- The expression is written like a place; a name that is no variable stands for something else. -/
def Expr.isPlace (Γ : List Local) : Expr → Bool
  | .path [x] _ => (localOf Γ x).isSome
  | .field _ _ | .deref _ => true
  | _ => false

/-! ### Methods -/

/-- A function of an item that belongs to no trait, with the `impl` that it is in. -/
def Inherent (F : File) (m : List Str) (n : Str) (gs : List GParam) (s : Ty) (f : Fn) : Prop :=
  ∃ bs is, (m, Item.impl gs none s bs is) ∈ flatItems [] F.items ∧ headDef F.prog ⟨m, typeParams gs, none⟩ s = some (.item m n) ∧
    f ∈ implFns is

/-- How the methods of the runtime crate take `self` (table.rs 55, builder.rs 147-190, 345, primitives.rs 130). -/
def butteMethods : List (Str × Str × Pass) :=
  [(c!"Table", c!"get", .selfRef), (c!"FlatBufferBuilder", c!"start_table", .selfMut), (c!"FlatBufferBuilder", c!"end_table", .selfMut),
    (c!"FlatBufferBuilder", c!"push_slot", .selfMut), (c!"FlatBufferBuilder", c!"push_slot_always", .selfMut),
    (c!"FlatBufferBuilder", c!"required", .selfRef), (c!"WIPOffset", c!"value", .self)]

/-- How the method of a type takes `self`. -/
inductive Receives (F : File) (cur : List Str) : PlaceTy → Str → Pass → Prop where
  | item {sc : Scope} {q : List Str} {c : Bool} {as : List GArg} {m : List Str} {n : Str} {gs : List GParam} {s : Ty} {f : Fn}
      {p : Param} : resolve F.prog sc q = some (.item m n) → Inherent F m n gs s f → f.params.head? = some p →
      Visible f.pub m cur → Receives F cur (.ty sc (.path q c as)) f.name p.pass
  | butte {sc : Scope} {q : List Str} {c : Bool} {as : List GArg} {b f : Str} {p : Pass} : resolve F.prog sc q = some (.butte b) →
      (b, f, p) ∈ butteMethods → Receives F cur (.ty sc (.path q c as)) f p
  | offset : Receives F cur .offset c!"value" .self

/-- A place is taken as `self`; the lists are the variables that have been moved, before and after. -/
inductive Takes (F : File) (x : Str) (p : PlaceTy) (a : Access) (σ : List Str) : Pass → List Str → Prop where
  | ref : Takes F x p a σ .selfRef σ
  | mut : a = .owned true ∨ a = .unique → Takes F x p a σ .selfMut σ
  | copy : IsCopy F p → Takes F x p a σ .self σ
  | move {b : Bool} : a = .owned b → Takes F x p a σ .self (x :: σ)

/-! ### Expressions -/

/-- The variables that a pattern declares: a single name other than `None`. -/
def Pat.binds : Pat → List Str
  | .path [x] => if x = c!"None" then [] else [x]
  | .tuple _ q => q.binds
  | .or p q => p.binds ++ q.binds
  | _ => []

/-- The expressions that fields get; without one, it is the variable of the same name. -/
def initExprs (fs : List (Str × Option Expr)) : List Expr := fs.map fun f => f.2.getD (.path [f.1] [])

mutual
/-- An expression is used as a value; the lists are the variables that have been moved, before and after. -/
inductive Use (F : File) (cur : List Str) (Γ : List Local) : List Str → Expr → List Str → Prop where
  | lit {σ : List Str} {l : Rs.Lit} : Use F cur Γ σ (.lit l) σ
  | path {σ : List Str} {p : List Str} {gs : List GArg} : Expr.isPlace Γ (.path p gs) = false → Use F cur Γ σ (.path p gs) σ
  | qpath {σ : List Str} {t : Ty} {tr : Option Ty} {n : Str} : Use F cur Γ σ (.qpath t tr n) σ
  | copy {σ : List Str} {e : Expr} {x : Str} {p : PlaceTy} {a : Access} : Place F cur Γ e x p a → x ∉ σ → IsCopy F p → Use F cur Γ σ e σ
  | move {σ : List Str} {e : Expr} {x : Str} {p : PlaceTy} {b : Bool} : Place F cur Γ e x p (.owned b) → x ∉ σ →
      Use F cur Γ σ e (x :: σ)
  | call {σ σ₁ σ₂ : List Str} {f : Expr} {es : List Expr} : Use F cur Γ σ f σ₁ → Uses F cur Γ σ₁ es σ₂ → Use F cur Γ σ (.call f es) σ₂
  /-- a method of a place; it is not moved by the arguments -/
  | method {σ σ₁ σ₂ : List Str} {e : Expr} {x : Str} {p p' : PlaceTy} {a a' : Access} {f : Str} {gs : List GArg} {es : List Expr}
      {ps : Pass} : Place F cur Γ e x p a → x ∉ σ → autoDeref p a = (p', a') → Receives F cur p' f ps → Takes F x p' a' σ ps σ₁ →
      Uses F cur Γ σ₁ es σ₂ → (x ∈ σ₂ → x ∈ σ₁) → Use F cur Γ σ (.method e f gs es) σ₂
  /-- a method of a value that is in no place -/
  | methodOf {σ σ₁ σ₂ : List Str} {e : Expr} {f : Str} {gs : List GArg} {es : List Expr} : e.isPlace Γ = false →
      Use F cur Γ σ e σ₁ → Uses F cur Γ σ₁ es σ₂ → Use F cur Γ σ (.method e f gs es) σ₂
  | try {σ σ₁ : List Str} {e : Expr} : Use F cur Γ σ e σ₁ → Use F cur Γ σ (.try e) σ₁
  | ret {σ σ₁ : List Str} {e : Expr} : Use F cur Γ σ e σ₁ → Use F cur Γ σ (.ret e) σ₁
  /-- a place is looked at -/
  | match {σ σ₁ : List Str} {e : Expr} {x : Str} {p : PlaceTy} {a : Access} {as : List (Pat × Expr)} : Place F cur Γ e x p a → x ∉ σ →
      (∀ b ∈ as, b.1.binds = []) → Arms F cur Γ σ as σ₁ → Use F cur Γ σ (.match e as) σ₁
  | matchOf {σ σ₁ σ₂ : List Str} {e : Expr} {as : List (Pat × Expr)} : e.isPlace Γ = false → Use F cur Γ σ e σ₁ →
      (∀ b ∈ as, b.1.binds = []) → Arms F cur Γ σ₁ as σ₂ → Use F cur Γ σ (.match e as) σ₂
  | struct {σ σ₁ : List Str} {p : List Str} {fs : List (Str × Option Expr)} : Uses F cur Γ σ (initExprs fs) σ₁ →
      Use F cur Γ σ (.struct p fs) σ₁
/-- Expressions are used one after the other. -/
inductive Uses (F : File) (cur : List Str) (Γ : List Local) : List Str → List Expr → List Str → Prop where
  | nil {σ : List Str} : Uses F cur Γ σ [] σ
  | cons {σ σ₁ σ₂ : List Str} {e : Expr} {es : List Expr} : Use F cur Γ σ e σ₁ → Uses F cur Γ σ₁ es σ₂ → Uses F cur Γ σ (e :: es) σ₂
/-- One of the arms is used; afterwards, what any of them moves has been moved. -/
inductive Arms (F : File) (cur : List Str) (Γ : List Local) : List Str → List (Pat × Expr) → List Str → Prop where
  | nil {σ σ' : List Str} : σ ⊆ σ' → Arms F cur Γ σ [] σ'
  | cons {σ σ₁ σ' : List Str} {a : Pat × Expr} {as : List (Pat × Expr)} : Use F cur Γ σ a.2 σ₁ → σ₁ ⊆ σ' → Arms F cur Γ σ as σ' →
      Arms F cur Γ σ (a :: as) σ'
end

/-- The result of a function, for a type `s` that is written in scope `sc`: known if it is `Self`. -/
def resultIn (sc : Scope) (s : Ty) : Ty → PlaceTy
  | .path [x] _ [] => if x = c!"Self" then .ty sc s else .unknown
  | _ => .unknown

/-- The type of a new variable: the result of a function of an item, or of a method of the runtime crate (builder.rs 177, 193);
all other types count as not known. -/
inductive Gives (F : File) (sc : Scope) (Γ : List Local) : Expr → PlaceTy → Prop where
  | call {q : List Str} {m : List Str} {n : Str} {gs : List GParam} {s t : Ty} {f : Fn} {es : List Expr} :
      resolve F.prog sc q = some (.item m n) → Inherent F m n gs s f → f.result = some t →
      Gives F sc Γ (.call (.path (q ++ [f.name]) []) es)
        (resultIn ⟨m, typeParams gs, none⟩ s t)
  | offset {e : Expr} {x f : Str} {p : PlaceTy} {a a' : Access} {sc' : Scope} {q : List Str} {c : Bool} {as gs : List GArg}
      {es : List Expr} : Place F sc.module Γ e x p a → autoDeref p a = (.ty sc' (.path q c as), a') →
      resolve F.prog sc' q = some (.butte c!"FlatBufferBuilder") → f ∈ [c!"start_table", c!"end_table"] →
      Gives F sc Γ (.method e f gs es) .offset
  | unknown {e : Expr} : Gives F sc Γ e .unknown

/-- A block, after which nothing is used. -/
inductive Block (F : File) (sc : Scope) : List Local → List Str → List Stmt → Option Expr → Prop where
  | none {Γ : List Local} {σ : List Str} : Block F sc Γ σ [] none
  | value {Γ : List Local} {σ σ₁ : List Str} {e : Expr} : Use F sc.module Γ σ e σ₁ → Block F sc Γ σ [] (some e)
  | let {Γ : List Local} {σ σ₁ : List Str} {b : Bool} {x : Str} {e : Expr} {p : PlaceTy} {ss : List Stmt} {v : Option Expr} :
      Use F sc.module Γ σ e σ₁ → Gives F sc Γ e p → Block F sc (⟨x, b, p⟩ :: Γ) (σ₁.filter (· ≠ x)) ss v →
      Block F sc Γ σ (.let b x e :: ss) v
  | expr {Γ : List Local} {σ σ₁ : List Str} {e : Expr} {ss : List Stmt} {v : Option Expr} : Use F sc.module Γ σ e σ₁ →
      Block F sc Γ σ₁ ss v → Block F sc Γ σ (.expr e :: ss) v
  /-- what the pattern takes out of a place is used as a value -/
  | ifLet {Γ : List Local} {σ σ₁ σ₂ : List Str} {pt : Pat} {x : Str} {e b : Expr} {ss : List Stmt} {v : Option Expr} :
      Use F sc.module Γ σ e σ₁ → pt.binds = [x] → Use F sc.module (⟨x, false, .unknown⟩ :: Γ) (σ₁.filter (· ≠ x)) b σ₂ →
      Block F sc Γ (σ₁ ++ σ₂.filter (· ≠ x)) ss v → Block F sc Γ σ (.ifLet pt e b :: ss) v

/-- The variables that a function starts with; `s`: the type that `Self` stands for, written outside. -/
def startLocals (sc : Scope) (s : Option Ty) (ps : List Param) : List Local :=
  ps.map fun
    | .self => ⟨c!"self", false, match s with | some t => .ty { sc with self := none } t | none => .unknown⟩
    | .refSelf b => ⟨c!"self", false, match s with | some t => .ty { sc with self := none } (.ref none b t) | none => .unknown⟩
    | .named x t => ⟨x, false, .ty sc t⟩

/-- A function is in order. -/
def FnOwn (F : File) (sc : Scope) (s : Option Ty) (f : Fn) : Prop := Block F sc (startLocals sc s f.params) [] f.body f.value

/-- An item of module `m` is in order. -/
def ItemOwn (F : File) (m : List Str) : Item → Prop
  | .impl gs _ s _ is => ∀ f ∈ implFns is, FnOwn F ⟨m, typeParams gs, headDef F.prog ⟨m, typeParams gs, none⟩ s⟩ (some s) f
  | .fn f => FnOwn F ⟨m, [], none⟩ none f
  | _ => True

/-- All items of a file are in order. -/
def OwnOk (F : File) : Prop := ∀ x ∈ flatItems [] F.items, ItemOwn F x.1 x.2

end Butte.Src
