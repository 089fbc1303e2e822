import Verif.Rs.Emit
import Verif.Rt.Builder
/-
What a program of the subset does, by the rules of Rust: resolution of names, and evaluation. Functions of the runtime
crate are the ones modelled below `Rt`. `stuck` stands for a program that does not compile.
-/
namespace Butte.Rs

/-! ### Names -/

/-- The name an item introduces, and the name space. -/
def Item.introduces : Item → Option (Gen.Space × Str)
  | .struct n _ _ | .enum n _ _ | .union n _ | .mod n => some (.type, n)
  | .fn f => some (.value, f.name)
  | .impl .. => none

/-- All names that are introduced. -/
def Program.names (P : Program) : List Gen.Item :=
  P.filterMap fun x => x.2.introduces.map fun y => ⟨x.1, y.1, y.2⟩

/-- What the path of a type denotes. -/
inductive Def where
  | prim (t : STy)
  | str
  | usize
  /-- an item of the standard prelude or of `std` -/
  | std (n : Str)
  /-- an item of the runtime crate -/
  | butte (n : Str)
  /-- a type parameter -/
  | param (n : Str)
  /-- an item of the program: module and name -/
  | item (m : List Str) (n : Str)
deriving DecidableEq, Repr

/-- The primitive types. -/
def primOf (s : Str) : Option STy :=
  [STy.bool, .i8, .u8, .i16, .u16, .i32, .u32, .i64, .u64, .f32, .f64].find? fun t => primName t == s

/-- Names known without any declaration, if nothing nearer has the name: the crates, the prelude, the primitive types. -/
def outer : List Str → Option Def
  | [n] =>
    match primOf n with
    | some t => some (.prim t)
    | none =>
      if n = c!"str" then some .str
      else if n = c!"usize" then some .usize
      else if n ∈ [c!"Option", c!"Result", c!"Default", c!"From"] then some (.std n)
      else none
  | [a, b] => if a = c!"butte" then some (.butte b) else none
  | [a, b, c] => if a = c!"std" ∧ b = c!"convert" then some (.std c) else none
  | _ => none

/-- Where code is: the module, the type parameters in scope, and the item that `Self` stands for. -/
structure Scope where
  module : List Str
  generics : List Str
  self : Option Def

/-- Rust's lookup of the path of a type: `Self` and type parameters first, then what the module declares, then the rest. -/
def resolve (P : Program) (sc : Scope) (p : List Str) : Option Def :=
  match p with
  | [] => none
  | s :: rest =>
    if s = c!"Self" then (if rest = [] then sc.self else none)
    else if s ∈ sc.generics then (if rest = [] then some (.param s) else none)
    else if s = c!"super" ∨ (⟨sc.module, .type, s⟩ : Gen.Item) ∈ P.names then
      (Gen.lookup P.names sc.module p).map fun i => .item i.module i.name
    else outer p

/-- The one item with this name. -/
def itemOf (P : Program) (m : List Str) (n : Str) : Option Item :=
  match P.filter fun x => x.1 == m && x.2.introduces == some (.type, n) with
  | [x] => some x.2
  | _ => none

/-- The name of the type an `impl` is for. -/
def headName : Ty → Option Str
  | .path [n] | .app [n] _ => some n
  | _ => none

/-- The `impl`s for an item, with the type parameters: those in its module that name it. -/
def implsOf (P : Program) (m : List Str) (n : Str) : List (List Str × Option Ty × List (Str × Fin 65536) × List Fn) :=
  P.filterMap fun x =>
    match x.2 with
    | .impl gs tr self cs fs => if x.1 = m ∧ headName self = some n ∧ n ∉ gs then some (gs, tr, cs, fs) else none
    | _ => none

/-- A trait of the runtime crate is implemented for the item. -/
def implements (P : Program) (m : List Str) (n tr : Str) : Bool :=
  (implsOf P m n).any fun i =>
    match i.2.1 with
    | some (.path p) => resolve P ⟨m, i.1, none⟩ p == some (.butte tr)
    | _ => false

/-- The functions of an item that have this name, first those that belong to no trait. -/
def fnOf (P : Program) (m : List Str) (n f : Str) : Option (List Str × Fn) :=
  let all (tr : Bool) := (implsOf P m n).flatMap fun i =>
    if i.2.1.isSome = tr then (i.2.2.2.filter fun g => g.name == f).map fun g => (i.1, g) else []
  match all false with
  | [g] => some g
  | [] =>
    match all true with
    | [g] => some g
    | _ => none
  | _ => none

/-- The constants of an item that have this name. -/
def constOf (P : Program) (m : List Str) (n c : Str) : Option (Fin 65536) :=
  match (implsOf P m n).flatMap fun i => i.2.2.1.filter fun x => x.1 == c with
  | [x] => some x.2
  | _ => none

/-! ### Values -/

/-- The value of a literal of a primitive type. -/
def litVal (t : STy) : Lit → Option (SVal t)
  | .int i s => if s = primName t then Gen.literal t (.integer i) else none
  | .float x s => if s = primName t then Gen.literal t (.float x) else none
  | .bool b => Gen.literal t (.boolean b)
  | .str _ => none

/-- An enum of the program: representation, and names and values of the variants. Neither may repeat. -/
def enumOf (P : Program) (m : List Str) (n : Str) : Option (Σ t : STy, List (Str × SVal t)) :=
  match itemOf P m n with
  | some (.enum _ repr vs) => do
    let t ← primOf repr
    let vals ← vs.mapM fun v => do
      let x ← litVal t v.2
      pure (v.1, x)
    if (vals.map (·.1)).Nodup ∧ (vals.map (·.2)).Nodup then some ⟨t, vals⟩ else none
  | _ => none

/-- A type that can be followed. -/
inductive FollowTy where
  | scalar (t : STy)
  | enum (m : List Str) (n : Str) (t : STy) (vs : List (Str × SVal t))
  | str
  | vector (e : FollowTy)
  | fwd (e : FollowTy)
  | table (m : List Str) (n : Str)

/-- The `Follow` implementation. -/
def FollowTy.fty : FollowTy → FTy
  | .scalar t => .scalar t
  | .enum _ _ t vs => .enum t (vs.map (·.2.val))
  | .str => .str
  | .vector e => .vector e.fty
  | .fwd e => .fwdU e.fty
  | .table _ _ => .table

/-- A value. -/
inductive Value where
  | unit
  | bytes (b : Bytes)
  | usize (n : Nat)
  | scalar (t : STy) (v : SVal t)
  | str (s : String)
  /-- a variant of an enum -/
  | variant (m : List Str) (n : Str) (v : Str)
  /-- a variant with data -/
  | union (m : List Str) (n : Str) (v : Str) (x : Value)
  | struct (m : List Str) (n : Str) (fields : List (Str × Value))
  | none
  | some (v : Value)
  | ok (v : Value)
  | err (e : Error)
  | error (e : Error)
  /-- `butte::Table` -/
  | table (t : Butte.Table)
  /-- `butte::Vector` -/
  | vector (e : FollowTy) (v : Vec e.fty)
  /-- `butte::WIPOffset` -/
  | offset (o : Nat)
  /-- `butte::VOffsetT` -/
  | slot (s : Fin 65536)
  /-- `&mut butte::FlatBufferBuilder`: there is one -/
  | builder
  /-- the `&mut [u8]` that something is pushed into -/
  | dst

/-- What is found by following. -/
def FollowTy.value : (F : FollowTy) → F.fty.Inner → Option Value
  | .scalar t, x => some (.scalar t x)
  | .enum m n _ vs, x =>
    let i : Nat := x
    match vs[i]? with
    | some v => some (.variant m n v.1)
    | none => none
  | .str, x => some (.str x)
  | .vector e, x => some (.vector e x)
  | .fwd e, x => e.value x
  | .table m n, x => some (.struct m n [(c!"table", .table x)])

/-- The default that is handed to `get`. -/
def FollowTy.default : (F : FollowTy) → Value → Option (Option F.fty.Inner)
  | _, .none => some none
  | .scalar t, .some (.scalar t' x) => if h : t' = t then some (some (h ▸ x)) else none
  | .enum m n _ vs, .some (.variant m' n' v) =>
    if m' = m ∧ n' = n then (vs.findIdx? fun y => y.1 == v).map fun i => some i else none
  | _, _ => none

/-- The types that implement `Follow`. -/
def followTy (P : Program) (sc : Scope) : Ty → Option FollowTy
  | .path p =>
    match resolve P sc p with
    | some (.prim t) => some (.scalar t)
    | some (.item m n) =>
      match enumOf P m n with
      | some ⟨t, vs⟩ => if implements P m n c!"Follow" then some (.enum m n t vs) else none
      | none => none
    | _ => none
  | .ref (.path p) => if resolve P sc p = some .str then some .str else none
  | .app p a =>
    match resolve P sc p with
    | some (.butte b) =>
      if b = c!"ForwardsUOffset" then (followTy P sc a).map .fwd
      else if b = c!"Vector" then (followTy P sc a).map .vector
      else none
    | some (.item m n) =>
      match itemOf P m n, a with
      | some (.struct ..), .ref (.slice (.path q)) =>
        if resolve P sc q = some (.prim .u8) ∧ implements P m n c!"Follow" then some (.table m n) else none
      | _, _ => none
    | _ => none
  | _ => none

/-- A type that can be pushed. -/
inductive PushTy where
  | scalar (t : STy)
  | enum (m : List Str) (n : Str) (t : STy) (vs : List (Str × SVal t))
  | offset

/-- The `Push` implementation. -/
def PushTy.pty : PushTy → PTy
  | .scalar t | .enum _ _ t _ => .sc t
  | .offset => .off

/-- The bits that are pushed. -/
def PushTy.pval : (p : PushTy) → Value → Option (PVal p.pty)
  | .scalar t, .scalar t' x => if h : t' = t then some (h ▸ x) else none
  | .enum m n _ vs, .variant m' n' v =>
    if m' = m ∧ n' = n then (vs.find? fun y => y.1 == v).map (·.2) else none
  | .offset, .offset o => some (Builder.offVal o)
  | _, _ => none

/-- The types that implement `Push`. -/
def pushTy (P : Program) (sc : Scope) : Ty → Option PushTy
  | .path p =>
    match resolve P sc p with
    | some (.prim t) => some (.scalar t)
    | some (.item m n) =>
      match enumOf P m n with
      | some ⟨t, vs⟩ => if implements P m n c!"Push" then some (.enum m n t vs) else none
      | none => none
    | _ => none
  | .app p _ => if resolve P sc p = some (.butte c!"WIPOffset") then some .offset else none
  | _ => none

/-! ### Evaluation -/

/-- What changes: the builder, and the slice that something is pushed into. -/
structure St where
  fbb : Builder
  dst : Bytes

/-- How an evaluation ends. -/
inductive Out (α : Type) where
  | val (a : α) (s : St)
  /-- `return`, or `?` on an error -/
  | ret (v : Value) (s : St)
  | panic
  /-- no compiled program gets here (or the fuel ran out) -/
  | stuck

abbrev M (α : Type) := St → Out α

def M.pure {α : Type} (a : α) : M α := fun s => .val a s

def M.bind {α β : Type} (x : M α) (f : α → M β) : M β := fun s =>
  match x s with
  | .val a s => f a s
  | .ret v s => .ret v s
  | .panic => .panic
  | .stuck => .stuck

instance : Monad M where
  pure := M.pure
  bind := M.bind

def stuck {α : Type} : M α := fun _ => .stuck

/-- A value that exists in every compiled program. -/
def need {α : Type} : Option α → M α
  | some a => pure a
  | none => stuck

/-- A function of the runtime that returns a `Result`. -/
def result {α : Type} (r : Res α) (k : α → Option Value) : M Value :=
  match r with
  | .ok a => do
    let v ← need (k a)
    pure (.ok v)
  | .err e => pure (.err e)
  | .panic => fun _ => .panic

/-- A function of the runtime that does not return a `Result`. -/
def plain {α : Type} (r : Res α) : M α :=
  match r with
  | .ok a => pure a
  | .err _ => stuck
  | .panic => fun _ => .panic

/-- The builder, updated. -/
def withBuilder (f : Builder → Res (Value × Builder)) : M Value := fun s =>
  match f s.fbb with
  | .ok (v, b) => .val v { s with fbb := b }
  | .err _ => .stuck
  | .panic => .panic

/-- Local variables, innermost first. -/
abbrev Vars := List (Str × Value)

/-- Does a value match a pattern? -/
def matchPat (P : Program) (sc : Scope) : Pat → Value → Option Bool
  | .wild, _ => some true
  | .lit l, .scalar t x => (litVal t l).map (· == x)
  | .variant (.path p) v, .variant m n v' =>
    if resolve P sc p = some (.item m n) then
      match enumOf P m n with
      | some e => if v ∈ e.2.map (·.1) then some (v == v') else none
      | none => none
    else none
  | .tuple (.path p) v, .union m n v' _ =>
    if resolve P sc p = some (.item m n) then
      match itemOf P m n with
      | some (.union _ vs) => if v ∈ vs.map (·.1) then some (v == v') else none
      | _ => none
    else none
  | .none, .none => some true
  | .none, .some _ => some false
  | .some _, .none => some false
  | .some p, .some v => matchPat P sc p v
  | .or p q, v => do
    let a ← matchPat P sc p v
    let b ← matchPat P sc q v
    return a || b
  | _, _ => none

/-- The first arm that matches; one must. -/
def chooseArm (P : Program) (sc : Scope) (v : Value) : List (Pat × Expr) → Option Expr
  | [] => none
  | (p, e) :: arms => do
    if ← matchPat P sc p v then return e else chooseArm P sc v arms

/-- Names that cannot be bound: they are constructors of the prelude. -/
def unbindable : List Str := [c!"Some", c!"None", c!"Ok", c!"Err"]

/-- Parameters and arguments. -/
def bindParams (ps : List (Str × Ty)) (args : List Value) : Option Vars :=
  if ps.length = args.length ∧ (ps.map (·.1)).Nodup ∧ (∀ p ∈ ps, p.1 ∉ unbindable) then some ((ps.map (·.1)).zip args)
  else none

/-- Methods of the runtime's types. -/
def runtimeMethod (md : Mode) (v : Value) (f : Str) (args : List Value) : M Value :=
  match v, args with
  | .some x, [.error _] => if f = c!"ok_or" then pure (.ok x) else stuck
  | .none, [.error e] => if f = c!"ok_or" then pure (.err e) else stuck
  | .offset o, [] => if f = c!"value" then pure (.scalar .u32 (u32v o)) else stuck
  | .builder, [] =>
    if f = c!"start_table" then withBuilder fun b => do
      let (o, b) ← b.startTable md
      return (.offset o, b)
    else stuck
  | .builder, [.offset o] =>
    if f = c!"end_table" then withBuilder fun b => do
      let (o, b) ← b.endTable md o
      return (.offset o, b)
    else stuck
  | .builder, [.offset o, .slot s, .str _] =>
    if f = c!"required" then withBuilder fun b => do
      b.required md o s
      return (.unit, b)
    else stuck
  | _, _ => stuck

/-- Generic methods of the runtime's types. -/
def runtimeMethodAt (md : Mode) (P : Program) (sc : Scope) (v : Value) (f : Str) (t : Ty) (args : List Value) : M Value :=
  match v, args with
  | .table tb, [.slot s, d] =>
    if f = c!"get" then do
      let F ← need (followTy P sc t)
      let d ← need (F.default d)
      result (tb.get md F.fty s d) fun x =>
        match x with
        | none => some .none
        | some x => (F.value x).map .some
    else stuck
  | .builder, [.slot s, x] =>
    if f = c!"push_slot_always" then do
      let p ← need (pushTy P sc t)
      let x ← need (p.pval x)
      withBuilder fun b => do
        let b ← b.pushSlotAlways md s x
        return (.unit, b)
    else stuck
  | .builder, [.slot s, x, d] =>
    if f = c!"push_slot" then do
      let p ← need (pushTy P sc t)
      let x ← need (p.pval x)
      let d ← need (p.pval d)
      withBuilder fun b => do
        let b ← b.pushSlot md s x d
        return (.unit, b)
    else stuck
  | _, _ => stuck

/-- Functions of the runtime's types and of the primitive types. -/
def runtimeCall (md : Mode) (d : Def) (f : Str) (args : List Value) : M Value :=
  match d, args with
  | .butte n, [.bytes b] =>
    if n = c!"Table" ∧ f = c!"get_root" then result (Table.getRoot md b) fun t => some (.table t) else stuck
  | .butte n, [.bytes b, .usize l] =>
    if n = c!"Table" ∧ f = c!"new" then pure (.table ⟨b, l⟩) else stuck
  | .butte n, [.scalar .u32 o] => if n = c!"WIPOffset" ∧ f = c!"new" then pure (.offset o.val) else stuck
  | .prim t, [] => if f = c!"default" then pure (.scalar t (Fin.ofNat t.card 0)) else stuck
  | _, _ => stuck

/-- Generic functions of the runtime. -/
def runtimeFn (md : Mode) (f : Str) (t : STy) (args : List Value) : M Value :=
  match args with
  | [.bytes b, .usize l] =>
    if f = c!"read_scalar_at" then result (readScalarAt md t b l) fun x => some (.scalar t x) else stuck
  | [.dst, .scalar t' x] =>
    if f = c!"emplace_scalar" ∧ t' = t then fun s =>
      match emplaceScalar s.dst x with
      | .ok d => .val .unit { s with dst := d }
      | .err _ => .stuck
      | .panic => .panic
    else stuck
  | _ => stuck

/-- The function of an item that is `From<E> for t`, `E` being the item `n` of module `m`. -/
def conversion (P : Program) (t : STy) (m : List Str) (n : Str) (x : List Str × Item) : Option Fn :=
  match x.2 with
  | .impl [] (some (.app tr (.path p))) (.path q) _ [f] =>
    if resolve P ⟨x.1, [], none⟩ tr = some (.std c!"From") ∧ resolve P ⟨x.1, [], none⟩ p = some (.item m n) ∧
        resolve P ⟨x.1, [], none⟩ q = some (.prim t) ∧ x.1 = m ∧ f.name = c!"from" then some f else none
  | _ => none

/-- `From<E> for t`, `E` being the item `n` of module `m`. -/
def fromImpl (P : Program) (t : STy) (m : List Str) (n : Str) : Option Fn :=
  match P.filterMap (conversion P t m n) with
  | [f] => some f
  | _ => none

/-- The value of a literal. -/
def litValue : Lit → Option Value
  | .int i s => do
    let t ← primOf s
    let x ← litVal t (.int i s)
    return .scalar t x
  | .float i s => do
    let t ← primOf s
    let x ← litVal t (.float i s)
    return .scalar t x
  | .bool b => some (.scalar .bool (if b then 1 else 0))
  | .str s => some (.str (String.ofList s))

/-- `T::n`: a constant or a variant. -/
def assocValue (P : Program) (d : Def) (c : Str) : Option Value :=
  match d with
  | .butte n => if n = c!"Error" ∧ c = c!"UnknownEnumVariant" then some (.error .unknownEnumVariant) else none
  | .item m n =>
    match enumOf P m n with
    | some e => if c ∈ e.2.map (·.1) then some (.variant m n c) else none
    | none => (constOf P m n c).map .slot
  | _ => none

/-- `T::n(v)`: a variant with data. -/
def ctorValue (P : Program) (d : Def) (c : Str) (v : Value) : Option Value :=
  match d with
  | .butte n =>
    match v with
    | .str s => if n = c!"Error" ∧ c = c!"RequiredFieldMissing" then some (.error (.requiredFieldMissing s)) else none
    | _ => none
  | .item m n =>
    match itemOf P m n with
    | some (.union _ vs) => if c ∈ vs.map (·.1) then some (.union m n c v) else none
    | _ => none
  | _ => none

/-- The definition that a written type names, without its arguments. -/
def defOf (P : Program) (sc : Scope) : Ty → Option Def
  | .path p | .app p _ => resolve P sc p
  | _ => none

/-- A list of expressions, from left to right. -/
def evalList {α : Type} (ev : α → M Value) : List α → M (List Value)
  | [] => pure []
  | e :: es => do
    let v ← ev e
    let vs ← evalList ev es
    pure (v :: vs)

/-- A block: the statements, then the value. -/
def evalBlock (ev : Vars → Expr → M Value) : Vars → List Stmt → Expr → M Value
  | vars, [], e => ev vars e
  | vars, .let x e :: ss, last => do
    let v ← ev vars e
    evalBlock ev ((x, v) :: vars) ss last
  | vars, .expr e :: ss, last => do
    let _ ← ev vars e
    evalBlock ev vars ss last
  | vars, .ifSome x e body :: ss, last => do
    match ← ev vars e with
    | .some v => do
      let _ ← ev ((x, v) :: vars) body
      evalBlock ev vars ss last
    | .none => evalBlock ev vars ss last
    | _ => stuck

/-- The end of a function: `return` stops here. -/
def endCall (x : M Value) : M Value := fun s =>
  match x s with
  | .ret v s => .val v s
  | o => o

/-- Evaluation of an expression; `n` bounds the depth. -/
def eval (md : Mode) (P : Program) : Nat → Scope → Vars → Expr → M Value
  | 0, _, _, _ => stuck
  | n + 1, sc, vars, e =>
    let ev := eval md P n sc vars
    let invoke (sc : Scope) (f : Fn) (args : List Value) : M Value := do
      let vars ← need (bindParams f.params args)
      endCall (evalBlock (eval md P n sc) vars f.body f.value)
    match e with
    | .var x => need ((vars.find? fun y => y.1 == x).map (·.2))
    | .lit l => need (litValue l)
    | .ok e => do
      let v ← ev e
      pure (.ok v)
    | .err e => do
      match ← ev e with
      | .error e => pure (.err e)
      | _ => stuck
    | .some e => do
      let v ← ev e
      pure (.some v)
    | .none => pure .none
    | .unit => pure .unit
    | .assoc t c => do
      let d ← need (defOf P sc t)
      need (assocValue P d c)
    | .ctor t c e => do
      let d ← need (defOf P sc t)
      let v ← ev e
      need (ctorValue P d c v)
    | .call t f es => do
      let d ← need (defOf P sc t)
      let vs ← evalList ev es
      match d with
      | .item m k => do
        let (gs, g) ← need (fnOf P m k f)
        invoke ⟨m, gs, some d⟩ g vs
      | .prim ty =>
        match vs with
        | [.variant m k _] => do
          let g ← need (fromImpl P ty m k)
          if f = c!"from" then invoke ⟨m, [], some d⟩ g vs else stuck
        | _ => runtimeCall md d f vs
      | _ => runtimeCall md d f vs
    | .fn p t es => do
      let d ← need (resolve P sc p)
      let td ← need (defOf P sc t)
      let vs ← evalList ev es
      match d, td with
      | .butte f, .prim t => runtimeFn md f t vs
      | _, _ => stuck
    | .method e f es => do
      let v ← ev e
      let vs ← evalList ev es
      match v with
      | .struct m k _ => do
        let (gs, g) ← need (fnOf P m k f)
        invoke ⟨m, gs, some (.item m k)⟩ g (v :: vs)
      | _ => runtimeMethod md v f vs
    | .methodAt e f t es => do
      let v ← ev e
      let vs ← evalList ev es
      runtimeMethodAt md P sc v f t vs
    | .mapCtor e t c => do
      let v ← ev e
      let d ← need (defOf P sc t)
      match v with
      | .none => pure .none
      | .some x => do
        let y ← need (ctorValue P d c x)
        pure (.some y)
      | _ => stuck
    | .field e f => do
      match ← ev e with
      | .struct _ _ fs => need ((fs.find? fun y => y.1 == f).map (·.2))
      | _ => stuck
    | .deref e => ev e
    | .try e => do
      match ← ev e with
      | .ok v => pure v
      | .err e => fun s => .ret (.err e) s
      | _ => stuck
    | .ret e => do
      let v ← ev e
      fun s => .ret v s
    | .match e arms => do
      let v ← ev e
      let body ← need (chooseArm P sc v arms)
      ev body
    | .struct t fs => do
      match ← need (defOf P sc t) with
      | .item m k =>
        match itemOf P m k with
        | some (.struct _ _ decl) =>
          if decl.map (·.1) = fs.map (·.1) ∧ (decl.map (·.1)).Nodup then do
            let vs ← evalList (fun x : Str × Expr => ev x.2) fs
            pure (.struct m k ((fs.map (·.1)).zip vs))
          else stuck
        | _ => stuck
      | _ => stuck

/-- A call `T::f(args)` from outside, `T` being the item `n` of module `m`. -/
def callFn (md : Mode) (P : Program) (fuel : Nat) (m : List Str) (n f : Str) (args : List Value) : M Value := do
  let (gs, g) ← need (fnOf P m n f)
  let vars ← need (bindParams g.params args)
  endCall (evalBlock (eval md P fuel ⟨m, gs, some (.item m n)⟩) vars g.body g.value)

end Butte.Rs
