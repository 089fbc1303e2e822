import Verif.Rs.Eval
import Verif.Tests.Examples
/-
The tests of butte-examples on the emitted programs: the schema text is parsed, analysed and turned into a program, and
that program is run.
-/
namespace Butte.Rs
open Parse Gen

attribute [local instance] asciiEnv

set_option maxRecDepth 100000

/-- The program for a schema text. -/
def program (txt : Str) : Program :=
  match compileText txt with
  | some (.tree out) => (emit .debug out).getD []
  | _ => []

/-- An empty builder. -/
def start : St := ⟨⟨[], 0, [], [], false, false, 0⟩, []⟩

/-- Ends a buffer and reads its root. -/
def finished (md : Mode) (P : Program) (m : List Str) (n : Str) (o : Value) : M Value := fun s =>
  match o with
  | .offset o =>
    match (do let b ← s.fbb.finishMinimal md o; b.finishedData md) with
    | .ok data => callFn md P 12 m n c!"get_root" [.bytes data] s
    | _ => .stuck
  | _ => .stuck

/-- The content of an `Ok`. -/
def unwrap : Value → M Value
  | .ok v => pure v
  | _ => stuck

/-- A string. -/
def newString (md : Mode) (s : String) : M Value := withBuilder fun b => do
  let (o, b) ← b.createString md s
  return (.offset o, b)

/-- A record of arguments. -/
def args (m : List Str) (n : Str) (fs : List (Str × Value)) : Value := .struct m (n ++ c!"Args") fs

/-- A call of a function of a table. -/
def call (md : Mode) (P : Program) (m : List Str) (n f : Str) (as : List Value) : M Value := callFn md P 12 m n f as

/-- The value alone. -/
def outcome {α : Type} : Out α → Option α
  | .val a _ => some a
  | _ => none

/-- The program of the greeter. -/
def greeter : Program := program greeterFbs

/-- Module `foo::bar`. -/
def fooBarMod : List Str := [c!"foo", c!"bar"]

-- src/greeter/greeter.rs 13-24
example : ∀ md, outcome ((do
    let name ← newString md "John"
    let o ← call md greeter fooBarMod c!"HelloRequest" c!"create" [.builder, args fooBarMod c!"HelloRequest" [(c!"name", name)]]
    let t ← unwrap (← finished md greeter fooBarMod c!"HelloRequest" o)
    call md greeter fooBarMod c!"HelloRequest" c!"name" [t] : M Value) start) = some (.ok (.str "John")) := by
  intro m; cases m <;> kernel_rfl

/-- src/greeter/greeter.rs 26-50 -/
def either (md : Mode) : M Value := do
  let name ← newString md "Jane"
  let message ← newString md "Wassup Jane"
  let req ← call md greeter fooBarMod c!"HelloRequest" c!"create" [.builder, args fooBarMod c!"HelloRequest" [(c!"name", name)]]
  let reply ← call md greeter fooBarMod c!"HelloReply" c!"create"
    [.builder, args fooBarMod c!"HelloReply" [(c!"message", .some message)]]
  let tag := fun x => Value.variant (fooBarMod ++ [c!"butte_gen"]) c!"EitherHelloType" x
  let o ← call md greeter fooBarMod c!"EitherHelloRequest" c!"create" [.builder, args fooBarMod c!"EitherHelloRequest"
    [(c!"something_required_type", tag c!"HelloReply"), (c!"something_required", reply),
     (c!"something_type", tag c!"HelloRequest"), (c!"something", .some req)]]
  unwrap (← finished md greeter fooBarMod c!"EitherHelloRequest" o)

-- src/greeter/greeter.rs 52-62
example : ∀ md, outcome ((do
    let t ← either md
    match ← unwrap (← call md greeter fooBarMod c!"EitherHelloRequest" c!"something" [t]) with
    | .some (.union _ _ v req) => do
      if v = c!"HelloRequest" then call md greeter fooBarMod c!"HelloRequest" c!"name" [req] else stuck
    | _ => stuck : M Value) start) = some (.ok (.str "Jane")) := by
  intro m; cases m <;> kernel_rfl

-- src/greeter/greeter.rs 64-74
example : ∀ md, outcome ((do
    let t ← either md
    match ← unwrap (← call md greeter fooBarMod c!"EitherHelloRequest" c!"something_required" [t]) with
    | .union _ _ v reply => do
      if v = c!"HelloReply" then call md greeter fooBarMod c!"HelloReply" c!"message" [reply] else stuck
    | _ => stuck : M Value) start) = some (.ok (.some (.str "Wassup Jane"))) := by
  intro m; cases m <;> kernel_rfl

-- src/greeter/greeter.rs 76-80
example : ∀ md, outcome ((do
    let t ← either md
    call md greeter fooBarMod c!"EitherHelloRequest" c!"something_type" [t] : M Value) start) =
    some (.ok (.some (.variant [c!"foo", c!"bar", c!"butte_gen"] c!"EitherHelloType" c!"HelloRequest"))) := by
  intro m; cases m <;> kernel_rfl

-- the type of a union value, and the names of variants
example : ∀ md, outcome ((do
    let t ← either md
    match ← unwrap (← call md greeter fooBarMod c!"EitherHelloRequest" c!"something" [t]) with
    | .some u => callFn md greeter 12 fooBarMod c!"EitherHello" c!"get_type" [u]
    | _ => stuck : M Value) start) =
    some (.variant [c!"foo", c!"bar", c!"butte_gen"] c!"EitherHelloType" c!"HelloRequest") := by
  intro m; cases m <;> kernel_rfl

-- src/greeter/greeter.rs 82-97
example : ∀ md, outcome ((do
    let name ← newString md "Joe"
    let mod := [c!"baz", c!"buzz"]
    let o ← call md greeter mod c!"FooBar" c!"create"
      [.builder, args mod c!"FooBar" [(c!"name", .some name), (c!"my_foo", .variant mod c!"Foo" c!"B")]]
    let t ← unwrap (← finished md greeter mod c!"FooBar" o)
    call md greeter mod c!"FooBar" c!"my_foo" [t] : M Value) start) =
    some (.ok (.some (.variant [c!"baz", c!"buzz"] c!"Foo" c!"B"))) := by
  intro m; cases m <;> kernel_rfl

/-- The program of default_value.fbs. -/
def defaults : Program := program defaultValueFbs

-- tests/default_value.rs
example : ∀ md, ∀ x ∈ [(c!"bool_implicit", Value.scalar .bool 0), (c!"bool_explicit", .scalar .bool 0),
      (c!"bool_other", .scalar .bool 1), (c!"float_implicit", .scalar .f32 0), (c!"float_explicit", .scalar .f32 0),
      (c!"float_other", .scalar .f32 0x3f800000), (c!"int_implicit", .scalar .i32 0), (c!"int_explicit", .scalar .i32 0),
      (c!"int_other", .scalar .i32 1), (c!"long_implicit", .scalar .i64 0), (c!"long_explicit", .scalar .i64 0),
      (c!"long_other", .scalar .i64 1)],
    outcome ((do
      let mod := [c!"default_value"]
      let as ← callFn md defaults 12 mod c!"ValuesArgs" c!"default" []
      let o ← call md defaults mod c!"Values" c!"create" [.builder, as]
      let t ← unwrap (← finished md defaults mod c!"Values" o)
      call md defaults mod c!"Values" x.1 [t] : M Value) start) = some (.ok (.some x.2)) := by
  intro m x hx
  simp only [List.mem_cons, List.not_mem_nil, or_false] at hx
  rcases hx with rfl | rfl | rfl | rfl | rfl | rfl | rfl | rfl | rfl | rfl | rfl | rfl <;> cases m <;> kernel_rfl

end Butte.Rs
