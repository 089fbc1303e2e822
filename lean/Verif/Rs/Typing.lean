import Verif.Rs.Eval
/-
When a program of the subset is well-typed, by the rules of Rust: what types mean, what expressions have which type, what
functions and items are in order. Moves, borrows, lifetimes, mutability, visibility and derived traits are left out; `&T` is
not told apart from `T`, except that `&str` and `&[u8]` are types of their own.
-/
namespace Butte.Rs

/-! ### Types -/

/-- A type, with all names resolved. -/
inductive RTy where
  | unit
  | prim (t : STy)
  | usize
  /-- `&str` -/
  | str
  /-- `&[u8]`, `&mut [u8]` -/
  | bytes
  /-- a type parameter -/
  | param (n : Str)
  /-- `butte::Error`, `butte::FlatBufferBuilder`, and the types that mark offsets -/
  | butte (n : Str)
  | option (t : RTy)
  | result (t e : RTy)
  /-- `butte::Table<B>`, `butte::Vector<T>`, `butte::WIPOffset<T>`, `butte::ForwardsUOffset<T>` -/
  | butteApp (n : Str) (t : RTy)
  | enum (m : List Str) (n : Str)
  | union (m : List Str) (n : Str)
  | struct (m : List Str) (n : Str)
  /-- a struct with a type argument -/
  | structApp (m : List Str) (n : Str) (a : RTy)
deriving DecidableEq

/-- The type that is put in for a type parameter. -/
def RTy.subst (p : Str) (a : RTy) : RTy → RTy
  | .param n => if n = p then a else .param n
  | .option t => .option (RTy.subst p a t)
  | .result t e => .result (RTy.subst p a t) (RTy.subst p a e)
  | .butteApp n t => .butteApp n (RTy.subst p a t)
  | .structApp m n t => .structApp m n (RTy.subst p a t)
  | t => t

/-- Is the type parameter part of the type? -/
def RTy.mentions (p : Str) : RTy → Bool
  | .param n => n == p
  | .option t | .butteApp _ t | .structApp _ _ t => RTy.mentions p t
  | .result t e => RTy.mentions p t || RTy.mentions p e
  | _ => false

/-- Does writing the type take a lifetime? -/
def RTy.borrows : RTy → Bool
  | .str | .bytes | .union .. => true
  | .option t | .structApp _ _ t => t.borrows
  | .result t e => t.borrows || e.borrows
  | .butteApp n t => n == c!"Vector" || t.borrows
  | _ => false

/-- `butte::Error` -/
def RTy.error : RTy := .butte c!"Error"

/-- Where a type is written: the scope, the type that `Self` stands for, and the associated types of the `impl`. -/
structure TCtx where
  sc : Scope
  self : Option RTy
  assoc : List (Str × RTy)

/-- Names of variants, if the type is an enum or a union. -/
def variantsOf (P : Program) : RTy → List Str
  | .enum m n | .union m n =>
    match itemOf P m n with
    | some (.enum _ _ vs) => vs.map (·.1)
    | some (.union _ vs) => vs.map (·.1)
    | _ => []
  | _ => []

/-- The types of the runtime crate that are used, without and with an argument (`butte/src/lib.rs`, `primitives.rs`). -/
def butteTypes : List Str := [c!"Error", c!"FlatBufferBuilder", c!"UnionWIPOffset", c!"TableUnfinishedWIPOffset"]
@[inherit_doc butteTypes]
def butteApps : List Str := [c!"Table", c!"Vector", c!"WIPOffset", c!"ForwardsUOffset"]

/-- The type a path stands for. `Self::X` is refused when `Self` has both an associated type and a variant of that name
(error "ambiguous associated item"). -/
def pathTy (P : Program) (k : TCtx) (p : List Str) : Option RTy :=
  match p with
  | [] => some .unit
  | s :: rest =>
    if s = c!"Self" then
      match k.self, rest with
      | some t, [] => some t
      | some t, [x] => if x ∈ variantsOf P t then none else (k.assoc.find? fun y => y.1 == x).map (·.2)
      | _, _ => none
    else
      match resolve P k.sc p with
      | some (.prim t) => some (.prim t)
      | some .usize => some .usize
      | some (.param n) => some (.param n)
      | some (.butte b) =>
        if b = c!"VOffsetT" then some (.prim .u16) else if b ∈ butteTypes then some (.butte b) else none
      | some (.item m n) =>
        match itemOf P m n with
        | some (.enum ..) => some (.enum m n)
        | some (.union ..) => some (.union m n)
        | some (.struct _ [] _) => some (.struct m n)
        | _ => none
      | _ => none

/-- The type a path with an argument stands for. -/
def appTy (P : Program) (k : TCtx) (p : List Str) (t : RTy) : Option RTy :=
  match resolve P k.sc p with
  | some (.std s) => if s = c!"Option" then some (.option t) else none
  | some (.butte b) => if b ∈ butteApps then some (.butteApp b t) else none
  | some (.item m n) =>
    match itemOf P m n with
    | some (.struct _ [_] _) => some (.structApp m n t)
    | _ => none
  | _ => none

/-- The type a written type stands for. -/
def tyOf (P : Program) (k : TCtx) : Ty → Option RTy
  | .path p => pathTy P k p
  | .app p a => do
    let t ← tyOf P k a
    appTy P k p t
  | .app2 p a b => do
    let t ← tyOf P k a
    let e ← tyOf P k b
    if resolve P k.sc p = some (.std c!"Result") then some (.result t e) else none
  | .ref (.path p) => if resolve P k.sc p = some .str then some .str else pathTy P k p
  | .ref (.slice (.path p)) => if resolve P k.sc p = some (.prim .u8) then some .bytes else none
  | .ref t => tyOf P k t
  | .slice _ => none

/-- The type that something followed has, and the type that following it gives. -/
def FollowTy.ty : FollowTy → RTy
  | .scalar t => .prim t
  | .enum m n _ _ => .enum m n
  | .str => .str
  | .vector e => .butteApp c!"Vector" e.ty
  | .fwd e => .butteApp c!"ForwardsUOffset" e.ty
  | .table m n => .structApp m n .bytes
@[inherit_doc FollowTy.ty]
def FollowTy.inner : FollowTy → RTy
  | .fwd e => e.inner
  | F => F.ty

/-- Where the fields of a struct and the members of a union are declared. -/
def declCtx (m : List Str) (gs : List Str) : TCtx := ⟨⟨m, gs, none⟩, none, []⟩

/-- The fields of a struct, with their types. -/
def fieldsOf (P : Program) : RTy → Option (List (Str × RTy))
  | .struct m n =>
    match itemOf P m n with
    | some (.struct _ [] fs) => fs.mapM fun f => (tyOf P (declCtx m []) f.2).map (f.1, ·)
    | _ => none
  | .structApp m n a =>
    match itemOf P m n with
    | some (.struct _ [p] fs) => fs.mapM fun f => (tyOf P (declCtx m [p]) f.2).map fun t => (f.1, RTy.subst p a t)
    | _ => none
  | _ => none

/-- The type of a field. -/
def fieldTy (P : Program) (t : RTy) (f : Str) : Option RTy := do
  let fs ← fieldsOf P t
  (fs.find? fun y => y.1 == f).map (·.2)

/-- The type of the data of a variant. -/
def memberTy (P : Program) (m : List Str) (n c : Str) : Option RTy :=
  match itemOf P m n with
  | some (.union _ vs) => (vs.find? fun v => v.1 == c).bind fun v => tyOf P (declCtx m []) v.2
  | _ => none

/-! ### Functions that are called -/

/-- Parameters and result of a function. -/
def sigOf (P : Program) (k : TCtx) (f : Fn) : Option (List RTy × RTy) := do
  let ts ← f.params.mapM fun p => tyOf P k p.2
  let r ← tyOf P k f.result
  return (ts, r)

/-- `Self` in an `impl` with these type parameters, for an item. -/
def selfOf (P : Program) (m : List Str) (n : Str) (gs : List Str) : Option RTy :=
  match itemOf P m n with
  | some (.enum ..) => some (.enum m n)
  | some (.union ..) => some (.union m n)
  | some (.struct _ [] _) => some (.struct m n)
  | some (.struct _ [_] _) =>
    match gs with
    | [p] => some (.structApp m n (.param p))
    | _ => some (.structApp m n .bytes)
  | _ => none

/-- A function of an item: parameters and result, the type parameter being `a`. -/
def fnSig (P : Program) (m : List Str) (n : Str) (a : Option RTy) (f : Str) : Option (List RTy × RTy) := do
  let (gs, g) ← fnOf P m n f
  let s ← selfOf P m n gs
  let (ts, r) ← sigOf P ⟨⟨m, gs, some (.item m n)⟩, some s, []⟩ g
  match gs, a with
  | [], _ => return (ts, r)
  | [p], some a => return (ts.map (RTy.subst p a), RTy.subst p a r)
  | _, _ => none

/-- A function of an item can be called as a method. -/
def isMethod (P : Program) (m : List Str) (n f : Str) : Bool :=
  match fnOf P m n f with
  | some (_, g) => (g.params.head?.map (·.1)) == some c!"self"
  | none => false

/-- The item of a type, and the type argument. -/
def RTy.head : RTy → Option (List Str × Str × Option RTy)
  | .enum m n | .union m n | .struct m n => some (m, n, none)
  | .structApp m n a => some (m, n, some a)
  | _ => none

/-- The item implements `TryFrom` for a primitive type. -/
def implementsTryFrom (P : Program) (m : List Str) (n : Str) (t : STy) : Bool :=
  (implsOf P m n).any fun i =>
    match i.2.1 with
    | some (.app p (.path q)) =>
      resolve P ⟨m, i.1, none⟩ p == some (.std c!"TryFrom") && resolve P ⟨m, i.1, none⟩ q == some (.prim t)
    | _ => false

/-- The type of a literal, if its value fits. -/
def litTy (l : Lit) : Option RTy :=
  match litValue l with
  | some (.scalar t _) => some (.prim t)
  | some (.str _) => some .str
  | _ => none

/-- The types of a function of the runtime crate (`table.rs` 31-50, `primitives.rs` 112-133), of `Default` and of `From`. -/
inductive RuntimeCall (P : Program) : Def → Str → List RTy → RTy → Prop where
  | tableNew (b : RTy) : RuntimeCall P (.butte c!"Table") c!"new" [b, .usize] (.butteApp c!"Table" b)
  | tableRoot (b : RTy) : RuntimeCall P (.butte c!"Table") c!"get_root" [b] (.result (.butteApp c!"Table" b) .error)
  | offsetNew (t : RTy) : RuntimeCall P (.butte c!"WIPOffset") c!"new" [.prim .u32] (.butteApp c!"WIPOffset" t)
  | default (t : STy) : RuntimeCall P (.prim t) c!"default" [] (.prim t)
  | from {t : STy} {m : List Str} {n : Str} : (fromImpl P t m n).isSome → RuntimeCall P (.prim t) c!"from" [.enum m n] (.prim t)

/-- The types of the methods of the runtime crate (`builder.rs` 177-201, 345-361, `primitives.rs` 112-133), and of
`Option`. -/
inductive RuntimeMethod : RTy → Str → List RTy → RTy → Prop where
  | startTable : RuntimeMethod (.butte c!"FlatBufferBuilder") c!"start_table" []
      (.butteApp c!"WIPOffset" (.butte c!"TableUnfinishedWIPOffset"))
  | endTable : RuntimeMethod (.butte c!"FlatBufferBuilder") c!"end_table"
      [.butteApp c!"WIPOffset" (.butte c!"TableUnfinishedWIPOffset")]
      (.butteApp c!"WIPOffset" (.butte c!"TableFinishedWIPOffset"))
  | required : RuntimeMethod (.butte c!"FlatBufferBuilder") c!"required"
      [.butteApp c!"WIPOffset" (.butte c!"TableFinishedWIPOffset"), .prim .u16, .str] .unit
  | value (t : RTy) : RuntimeMethod (.butteApp c!"WIPOffset" t) c!"value" [] (.prim .u32)
  | okOr (t e : RTy) : RuntimeMethod (.option t) c!"ok_or" [e] (.result t e)

/-- The types of the generic methods of the runtime crate (`table.rs` 52-69, `builder.rs` 147-165), with the traits that
are asked for. -/
inductive RuntimeMethodAt (P : Program) (k : TCtx) (w : Ty) : RTy → Str → List RTy → RTy → Prop where
  | get {b : RTy} {F : FollowTy} : followTy P k.sc w = some F → RuntimeMethodAt P k w (.butteApp c!"Table" b) c!"get"
      [.prim .u16, .option F.inner] (.result (.option F.inner) .error)
  | pushSlotAlways {p : PushTy} {t : RTy} : pushTy P k.sc w = some p → tyOf P k w = some t →
      RuntimeMethodAt P k w (.butte c!"FlatBufferBuilder") c!"push_slot_always" [.prim .u16, t] .unit
  | pushSlot {p : PushTy} {t : RTy} : pushTy P k.sc w = some p → tyOf P k w = some t →
      RuntimeMethodAt P k w (.butte c!"FlatBufferBuilder") c!"push_slot" [.prim .u16, t, t] .unit

/-- The types of the generic functions of the runtime crate (`endian_scalar.rs` 155-173). -/
inductive RuntimeFn (t : STy) : Str → List RTy → RTy → Prop where
  | read : RuntimeFn t c!"read_scalar_at" [.bytes, .usize] (.result (.prim t) .error)
  | emplace : RuntimeFn t c!"emplace_scalar" [.bytes, .prim t] .unit

/-! ### Patterns -/

/-- A pattern for values of a type. -/
def PatOk (P : Program) (sc : Scope) : Pat → RTy → Prop
  | .wild, _ => True
  | .lit l, t => litTy l = some t ∧ ∃ s, t = .prim s
  | .variant (.path p) v, .enum m n =>
    resolve P sc p = some (.item m n) ∧ v ∈ variantsOf P (.enum m n)
  | .tuple (.path p) v, .union m n =>
    resolve P sc p = some (.item m n) ∧ v ∈ variantsOf P (.union m n)
  | .none, .option _ => True
  | .some p, .option t => PatOk P sc p t
  | .or p q, t => PatOk P sc p t ∧ PatOk P sc q t
  | _, _ => False

/-- Values of a type, one of every shape. -/
def shapes (P : Program) : RTy → List Value
  | .enum m n => (variantsOf P (.enum m n)).map (.variant m n)
  | .union m n => (variantsOf P (.union m n)).map fun v => .union m n v .unit
  | .option t => .none :: (shapes P t).map .some
  | _ => []

/-- The patterns cover all values of the type: there is a pattern for everything, or the type is an enum, a union, or an
optional enum or union, and every shape is matched. -/
def Exhaustive (P : Program) (sc : Scope) (t : RTy) (ps : List Pat) : Prop :=
  Pat.wild ∈ ps ∨ ((match t with
    | .enum .. | .union .. | .option (.enum ..) | .option (.union ..) => True
    | _ => False) ∧ ∀ v ∈ shapes P t, ∃ p ∈ ps, matchPat P sc p v = some true)

/-! ### Expressions -/

/-- Types of local variables, innermost first. -/
abbrev Types := List (Str × RTy)

/-- `e` has type `t`, in a function with result type `ret`. -/
inductive HasType (P : Program) (k : TCtx) (ret : RTy) (Γ : Types) : Expr → RTy → Prop where
  | var {x : Str} {t : RTy} : (Γ.find? fun y => y.1 == x).map (·.2) = some t → HasType P k ret Γ (.var x) t
  | lit {l : Lit} {t : RTy} : litTy l = some t → HasType P k ret Γ (.lit l) t
  | ok {e : Expr} {t u : RTy} : HasType P k ret Γ e t → HasType P k ret Γ (.ok e) (.result t u)
  | err {e : Expr} {t u : RTy} : HasType P k ret Γ e u → HasType P k ret Γ (.err e) (.result t u)
  | some {e : Expr} {t : RTy} : HasType P k ret Γ e t → HasType P k ret Γ (.some e) (.option t)
  | none {t : RTy} : HasType P k ret Γ .none (.option t)
  | unit : HasType P k ret Γ .unit .unit
  /-- a variant without data -/
  | variant {t : Ty} {c : Str} {m : List Str} {n : Str} : defOf P k.sc t = some (.item m n) → (enumOf P m n).isSome →
      c ∈ variantsOf P (.enum m n) → HasType P k ret Γ (.assoc t c) (.enum m n)
  /-- a constant (they are all of type `butte::VOffsetT`) -/
  | const {t : Ty} {c : Str} {m : List Str} {n : Str} : defOf P k.sc t = some (.item m n) → enumOf P m n = Option.none →
      (constOf P m n c).isSome → HasType P k ret Γ (.assoc t c) (.prim .u16)
  /-- `error.rs` 6-20 -/
  | unknownVariant {t : Ty} : defOf P k.sc t = some (.butte c!"Error") →
      HasType P k ret Γ (.assoc t c!"UnknownEnumVariant") .error
  /-- `error.rs` 6-20 -/
  | fieldMissing {t : Ty} {e : Expr} : defOf P k.sc t = some (.butte c!"Error") → HasType P k ret Γ e .str →
      HasType P k ret Γ (.ctor t c!"RequiredFieldMissing" e) .error
  /-- a variant with data -/
  | ctor {t : Ty} {c : Str} {m : List Str} {n : Str} {e : Expr} {a : RTy} : defOf P k.sc t = some (.item m n) →
      memberTy P m n c = some a → HasType P k ret Γ e a → HasType P k ret Γ (.ctor t c e) (.union m n)
  /-- a function of an item; a variant of the same name hides it -/
  | call {t : Ty} {s : RTy} {m : List Str} {n f : Str} {a : Option RTy} {es : List Expr} {ts : List RTy} {r : RTy} :
      tyOf P k t = some s → s.head = some (m, n, a) → f ∉ variantsOf P s → fnSig P m n a f = some (ts, r) →
      es.length = ts.length → (∀ p ∈ es.zip ts, HasType P k ret Γ p.1 p.2) → HasType P k ret Γ (.call t f es) r
  /-- `<T as std::convert::TryFrom<P>>::try_from(e)`, the one call that is written with its trait (codegen.rs 988) -/
  | tryFrom {t : Ty} {s : RTy} {m : List Str} {n : Str} {p : STy} {e : Expr} : tyOf P k t = some s →
      s.head = some (m, n, Option.none) → implementsTryFrom P m n p → HasType P k ret Γ e (.prim p) →
      HasType P k ret Γ (.call t c!"try_from" [e]) (.result s .error)
  | runtime {t : Ty} {d : Def} {f : Str} {es : List Expr} {ts : List RTy} {r : RTy} : defOf P k.sc t = some d →
      RuntimeCall P d f ts r → es.length = ts.length → (∀ p ∈ es.zip ts, HasType P k ret Γ p.1 p.2) →
      HasType P k ret Γ (.call t f es) r
  | fn {p : List Str} {w : Ty} {f : Str} {t : STy} {es : List Expr} {ts : List RTy} {r : RTy} :
      resolve P k.sc p = some (.butte f) → tyOf P k w = some (.prim t) → RuntimeFn t f ts r → es.length = ts.length →
      (∀ p ∈ es.zip ts, HasType P k ret Γ p.1 p.2) → HasType P k ret Γ (.fn p w es) r
  /-- a method of an item -/
  | method {e : Expr} {s : RTy} {m : List Str} {n f : Str} {a : Option RTy} {es : List Expr} {ts : List RTy} {r : RTy} :
      HasType P k ret Γ e s → s.head = some (m, n, a) → isMethod P m n f → fnSig P m n a f = some (s :: ts, r) →
      es.length = ts.length → (∀ p ∈ es.zip ts, HasType P k ret Γ p.1 p.2) → HasType P k ret Γ (.method e f es) r
  | runtimeMethod {e : Expr} {s : RTy} {f : Str} {es : List Expr} {ts : List RTy} {r : RTy} : HasType P k ret Γ e s →
      RuntimeMethod s f ts r → es.length = ts.length → (∀ p ∈ es.zip ts, HasType P k ret Γ p.1 p.2) →
      HasType P k ret Γ (.method e f es) r
  | methodAt {e : Expr} {s : RTy} {f : Str} {w : Ty} {es : List Expr} {ts : List RTy} {r : RTy} : HasType P k ret Γ e s →
      RuntimeMethodAt P k w s f ts r → es.length = ts.length → (∀ p ∈ es.zip ts, HasType P k ret Γ p.1 p.2) →
      HasType P k ret Γ (.methodAt e f w es) r
  | mapCtor {e : Expr} {t : Ty} {c : Str} {m : List Str} {n : Str} {a : RTy} : HasType P k ret Γ e (.option a) →
      defOf P k.sc t = some (.item m n) → memberTy P m n c = some a →
      HasType P k ret Γ (.mapCtor e t c) (.option (.union m n))
  | field {e : Expr} {f : Str} {s t : RTy} : HasType P k ret Γ e s → fieldTy P s f = some t →
      HasType P k ret Γ (.field e f) t
  | deref {e : Expr} {t : RTy} : HasType P k ret Γ e t → HasType P k ret Γ (.deref e) t
  | try {e : Expr} {t u v : RTy} : HasType P k ret Γ e (.result t u) → ret = .result v u → HasType P k ret Γ (.try e) t
  | ret {e : Expr} {t : RTy} : HasType P k ret Γ e ret → HasType P k ret Γ (.ret e) t
  | match {e : Expr} {arms : List (Pat × Expr)} {t u : RTy} : HasType P k ret Γ e t → (∀ a ∈ arms, PatOk P k.sc a.1 t) →
      Exhaustive P k.sc t (arms.map (·.1)) → (∀ a ∈ arms, HasType P k ret Γ a.2 u) → HasType P k ret Γ (.match e arms) u
  | struct {t : Ty} {fs : List (Str × Expr)} {s : RTy} {decl : List (Str × RTy)} : tyOf P k t = some s →
      fieldsOf P s = some decl → fs.map (·.1) = decl.map (·.1) → (∀ p ∈ fs.zip decl, HasType P k ret Γ p.1.2 p.2.2) →
      HasType P k ret Γ (.struct t fs) s

/-- A block: the statements, then the value. -/
def BlockOk (P : Program) (k : TCtx) (ret : RTy) : Types → List Stmt → Expr → RTy → Prop
  | Γ, [], e, t => HasType P k ret Γ e t
  | Γ, .let x e :: ss, last, t => ∃ u, HasType P k ret Γ e u ∧ BlockOk P k ret ((x, u) :: Γ) ss last t
  | Γ, .expr e :: ss, last, t => (∃ u, HasType P k ret Γ e u) ∧ BlockOk P k ret Γ ss last t
  | Γ, .ifSome x e body :: ss, last, t =>
    (∃ u, HasType P k ret Γ e (.option u) ∧ ∃ v, HasType P k ret ((x, u) :: Γ) body v) ∧ BlockOk P k ret Γ ss last t

/-! ### Items -/

/-- A function is in order. -/
def FnOk (P : Program) (k : TCtx) (f : Fn) : Prop :=
  ∃ ts r, sigOf P k f = some (ts, r) ∧ (f.params.map (·.1)).Nodup ∧ (∀ p ∈ f.params, p.1 ∉ unbindable) ∧
    BlockOk P k r ((f.params.map (·.1)).zip ts) f.body f.value r

/-- What a trait asks of an `impl` for type `s`: associated types (as codegen.rs gives them: 769, 783-784, 983, 992, 1010),
and the name, parameters and result of its function (`follow.rs`, `push.rs`, `std`). -/
def traitSpec (P : Program) (sc : Scope) (s : RTy) (tr : Ty) : Option (List (Str × RTy) × Str × List RTy × RTy) :=
  match tr with
  | .path p =>
    match resolve P sc p with
    | some (.std d) => if d = c!"Default" then some ([], c!"default", [], s) else none
    | some (.butte b) =>
      if b = c!"Follow" then some ([(c!"Inner", s)], c!"follow", [.bytes, .usize], .result s .error)
      else if b = c!"FollowBuf" then
        some ([(c!"Buf", .param c!"B"), (c!"Inner", s)], c!"follow_buf", [.param c!"B", .usize], .result s .error)
      else if b = c!"Push" then some ([(c!"Output", s)], c!"push", [s, .bytes, .bytes], .unit)
      else none
    | _ => none
  | .app p a =>
    match resolve P sc p, tyOf P ⟨sc, none, []⟩ a with
    | some (.std d), some t =>
      if d = c!"From" then some ([], c!"from", [t], s)
      else if d = c!"TryFrom" then some ([(c!"Error", .error)], c!"try_from", [t], .result s .error)
      else none
    | _, _ => none
  | _ => none

/-- What `Self` names in an `impl`. -/
def selfDef (P : Program) (sc : Scope) : Ty → Option Def
  | .path p | .app p _ => resolve P sc p
  | _ => none

/-- An `impl` is in order: its type parameters are part of the type, its functions are in order, and if it is for a trait,
it has just the function that the trait asks for. -/
def ImplOk (P : Program) (m gs : List Str) (tr : Option Ty) (self : Ty) (fs : List Fn) : Prop :=
  ∃ s, tyOf P ⟨⟨m, gs, none⟩, none, []⟩ self = some s ∧ (∀ g ∈ gs, RTy.mentions g s) ∧
    match tr with
    | none => ∀ f ∈ fs, FnOk P ⟨⟨m, gs, selfDef P ⟨m, gs, none⟩ self⟩, some s, []⟩ f
    | some tr => ∃ assoc name ts r f, traitSpec P ⟨m, gs, none⟩ s tr = some (assoc, name, ts, r) ∧ fs = [f] ∧ f.name = name ∧
        sigOf P ⟨⟨m, gs, selfDef P ⟨m, gs, none⟩ self⟩, some s, assoc⟩ f = some (ts, r) ∧
        FnOk P ⟨⟨m, gs, selfDef P ⟨m, gs, none⟩ self⟩, some s, assoc⟩ f

/-- The names in the `impl`s of an item: no two functions or constants outside traits with the same name, and no trait
twice. -/
def ImplsOk (P : Program) (m : List Str) (n : Str) : Prop :=
  ((implsOf P m n).flatMap fun i => if i.2.1 = none then i.2.2.1.map (·.1) ++ i.2.2.2.map (·.name) else []).Nodup ∧
    ((implsOf P m n).filterMap (·.2.1)).Nodup

/-- An item is in order. Struct: the fields have different names and all have types, and type parameters are used. Enum: not
empty, no variant or value twice. Union: members have different names and all have types, none is itself a union (which
would be allowed as long as none contained itself), and one of them uses the lifetime that unions are declared with. -/
def ItemOk (P : Program) (m : List Str) : Item → Prop
  | .struct n gs fs => (fs.map (·.1)).Nodup ∧ ImplsOk P m n ∧
      ∃ ts, fs.mapM (fun f => tyOf P (declCtx m gs) f.2) = some ts ∧ ∀ g ∈ gs, ∃ t ∈ ts, RTy.mentions g t
  | .enum n repr vs => (enumOf P m n).isSome ∧ vs ≠ [] ∧ ImplsOk P m n ∧ resolve P ⟨m, [], none⟩ [repr] = (primOf repr).map .prim
  | .union n vs => (vs.map (·.1)).Nodup ∧ ImplsOk P m n ∧
      ∃ ts, vs.mapM (fun v => tyOf P (declCtx m []) v.2) = some ts ∧ (∀ t ∈ ts, ∀ m' n', t ≠ .union m' n') ∧
        ∃ t ∈ ts, t.borrows
  | .impl gs tr self _ fs => ImplOk P m gs tr self fs
  | .fn f => FnOk P ⟨⟨m, [], none⟩, none, []⟩ f
  | .mod _ => True

/-- A word that can be declared as a name: not empty, no leading digit, not a keyword, not `_`. (What characters there are is
for the lexer.) -/
def legalName (s : Str) : Bool :=
  match s with
  | [] => false
  | c :: _ => !c.isDigit && decide (s ∉ Gen.rustKeywords) && decide (s ≠ c!"_")

/-- The names a function declares; `self` is not declared. -/
def Fn.idents (f : Fn) : List Str := f.name :: (f.params.map (·.1)).filter (· ≠ c!"self")

/-- The names an item declares. -/
def Item.idents : Item → List Str
  | .struct n gs fs => n :: gs ++ fs.map (·.1)
  | .enum n _ vs => n :: vs.map (·.1)
  | .union n vs => n :: vs.map (·.1)
  | .impl gs _ _ cs fs => gs ++ cs.map (·.1) ++ fs.flatMap Fn.idents
  | .fn f => f.idents
  | .mod m => [m]

/-- A program is well-typed: all names are words that can be names, no name is declared twice, and all items are in
order. -/
def WellTyped (P : Program) : Prop :=
  P.names.Nodup ∧ ∀ x ∈ P, (∀ n ∈ x.2.idents, legalName n = true) ∧ ItemOk P x.1 x.2

end Butte.Rs
