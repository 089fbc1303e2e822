import Verif.Parse.Ascii
import Verif.Parse.Compile
import Verif.Gen.Run
import Verif.Gen.Pipeline
import Verif.Tests.Kernel
/-
The example schemas and the tests of butte-examples, run on the model: from the text of a schema through the analysis and
the generator to buffers and back.
-/
namespace Butte.Gen
open Parse

attribute [local instance] asciiEnv

set_option maxRecDepth 100000

/-- The generated fields of a table of a schema text. -/
def compiled (txt : Str) (q : Ir.QIdent) : Option (List GField) :=
  match compileText txt with
  | some (.tree out) =>
    match tablesOf out q with
    | some t => compileTable .debug t
    | none => none
  | _ => none

/-- fbs/default_value.fbs -/
def defaultValueFbs : Str := c!"namespace DefaultValue;\n\ntable Values {\n  bool_implicit: bool;\n  bool_explicit: bool = false;\n  bool_other: bool = true;\n\n  float_implicit: float;\n  float_explicit: float = 0;\n  float_other: float = 1;\n\n  int_implicit: int;\n  int_explicit: int = 0;\n  int_other: int = 1;\n\n  long_implicit: long;\n  long_explicit: long = 0;\n  long_other: long = 1;\n\n  text: string;\n}\n"

def values : List GField := [
  ⟨c!"bool_implicit", 4, .scalar .bool (some 0), false⟩,
  ⟨c!"bool_explicit", 6, .scalar .bool (some 0), false⟩,
  ⟨c!"bool_other", 8, .scalar .bool (some 1), false⟩,
  ⟨c!"float_implicit", 10, .scalar .f32 (some 0), false⟩,
  ⟨c!"float_explicit", 12, .scalar .f32 (some 0), false⟩,
  ⟨c!"float_other", 14, .scalar .f32 (some 0x3f800000), false⟩,
  ⟨c!"int_implicit", 16, .scalar .i32 (some 0), false⟩,
  ⟨c!"int_explicit", 18, .scalar .i32 (some 0), false⟩,
  ⟨c!"int_other", 20, .scalar .i32 (some 1), false⟩,
  ⟨c!"long_implicit", 22, .scalar .i64 (some 0), false⟩,
  ⟨c!"long_explicit", 24, .scalar .i64 (some 0), false⟩,
  ⟨c!"long_other", 26, .scalar .i64 (some 1), false⟩,
  ⟨c!"text", 28, .ref .str, false⟩]

example : compiled defaultValueFbs [c!"DefaultValue", c!"Values"] = some values := by kernel_rfl

/-- tests/default_value.rs 12-25 -/
def defaultValueRoot (m : Mode) : Res Butte.Table := do
  let b ← Builder.newWithCapacity 0
  match defaultArgs values with
  | none => .panic
  | some args =>
    let (o, b) ← create m b values args
    let b ← b.finishMinimal m o
    let data ← b.finishedData m
    Table.getRoot m data

/-- What an accessor hands out, as far as it is a number. -/
def Kind.num : (k : Kind) → k.Inner → Option Nat
  | .scalar _ _, x => some x.val
  | .enum _ _ _, x => some x
  | .ref _, _ | .union _, _ => none

/-- The number in field number `i` of a root. -/
def number (m : Mode) (root : Res Butte.Table) (fs : List GField) (i : Fin fs.length) : Res (Option Nat) := do
  let t ← root
  let x ← accessor m t fs (fs.get i)
  return x.bind (fs.get i).kind.num

-- tests/default_value.rs 29-38
example : ∀ m, (List.finRange 12).map (fun i => number m (defaultValueRoot m) values (i.castLE (by decide))) =
    [0, 0, 1, 0, 0, 0x3f800000, 0, 0, 1, 0, 0, 1].map (fun x => .ok (some x)) := by
  intro m; cases m <;> kernel_rfl

-- tests/default_value.rs 40
example : ∀ m, (do let t ← defaultValueRoot m; accessor m t values (values.get ⟨12, by decide⟩)) = .ok none := by
  intro m; cases m <;> kernel_rfl

/-- fbs/array.fbs -/
def arrayFbs : Str := c!"/// Flatbuffers namespaces are defined as UpperCamelCase.\nnamespace Array;\n\n/// A test entry with a value.\ntable Entry {\n  value: uint64;\n}\n\nenum Value: ubyte {\n  A = 0,\n  B = 1\n}\n\n/// Different arrays.\ntable ArrayTable {\n  table_entries: [Entry];\n  enum_entries: [Value];\n  int_entries: [int32];\n}\n\n/// Array of arrays.\ntable ArrayOfArrayTable {\n  table_arrays: [[Entry]] (required);\n}\n"

def entry : List GField := [⟨c!"value", 4, .scalar .u64 (some 0), false⟩]
def arrayTable : List GField := [
  ⟨c!"table_entries", 4, .ref (.vector (.fwdU .table)), false⟩,
  ⟨c!"enum_entries", 6, .ref (.vector (.enum .u8 [0, 1])), false⟩,
  ⟨c!"int_entries", 8, .ref (.vector (.scalar .i32)), false⟩]
def arrayOfArrayTable : List GField := [⟨c!"table_arrays", 4, .ref (.vector (.fwdU (.vector (.fwdU .table)))), true⟩]

example : compiled arrayFbs [c!"Array", c!"Entry"] = some entry := by kernel_rfl
example : compiled arrayFbs [c!"Array", c!"ArrayTable"] = some arrayTable := by kernel_rfl
example : compiled arrayFbs [c!"Array", c!"ArrayOfArrayTable"] = some arrayOfArrayTable := by kernel_rfl

/-- An entry with this value. -/
def newEntry (m : Mode) (b : Builder) (v : Nat) : Res (Fin (2 ^ 32) × Builder) := do
  let (o, b) ← create m b entry (Fin.ofNat _ v, ())
  return (Builder.offVal o, b)

/-- tests/array.rs 13-46 -/
def arrayRoot (m : Mode) : Res Butte.Table := do
  let b ← Builder.newWithCapacity 0
  let (e₀, b) ← newEntry m b 0
  let (e₁, b) ← newEntry m b 1
  let (ts, b) ← b.createVector m (p := .off) [e₀, e₁]
  let (es, b) ← b.createVector m (p := .sc .u8) [(0 : Fin (2 ^ 8)), (0 : Fin (2 ^ 8))]
  let (is, b) ← b.createVector m (p := .sc .i32) [(0 : Fin (2 ^ 32)), (1 : Fin (2 ^ 32))]
  let (o, b) ← create m b arrayTable (some (Builder.offVal ts), some (Builder.offVal es), some (Builder.offVal is), ())
  let b ← b.finishMinimal m o
  let data ← b.finishedData m
  Table.getRoot m data

/-- The value of an entry. -/
def entryValue (m : Mode) (t : Butte.Table) : Res (Option Nat) := do
  let x ← accessor m t entry entry[0]
  return x.map (·.val)

-- tests/array.rs 47-65
example : ∀ m, (do
    let t ← arrayRoot m
    let v : Option (Vec (.fwdU .table)) ← accessor m t arrayTable arrayTable[0]
    match v with
    | none => .panic
    | some v => do
      let n ← v.len m
      let t₀ ← v.get m 0
      let t₁ ← v.get m 1
      let x₀ ← entryValue m t₀
      let x₁ ← entryValue m t₁
      return (n, x₀, x₁)) = Res.ok (2, some 0, some 1) := by
  intro m; cases m <;> kernel_rfl

/-- tests/array.rs 70-97 -/
def arrayOfArrayRoot (m : Mode) : Res Butte.Table := do
  let b ← Builder.newWithCapacity 0
  let (e₀, b) ← newEntry m b 0
  let (e₁, b) ← newEntry m b 1
  let (v₀, b) ← b.createVector m (p := .off) [e₀, e₁]
  let (e₂, b) ← newEntry m b 0
  let (e₃, b) ← newEntry m b 1
  let (v₁, b) ← b.createVector m (p := .off) [e₂, e₃]
  let (v, b) ← b.createVector m (p := .off) [Builder.offVal v₀, Builder.offVal v₁]
  let (o, b) ← create m b arrayOfArrayTable (Builder.offVal v, ())
  let b ← b.finishMinimal m o
  let data ← b.finishedData m
  Table.getRoot m data

-- tests/array.rs 99-108
example : ∀ m, (do
    let t ← arrayOfArrayRoot m
    let v : Option (Vec (.fwdU (.vector (.fwdU .table)))) ← accessor m t arrayOfArrayTable arrayOfArrayTable[0]
    match v with
    | none => .panic
    | some v => do
      let n ← v.len m
      let v₀ ← v.get m 0
      let v₁ ← v.get m 1
      let v₀ : Vec (.fwdU .table) := v₀
      let v₁ : Vec (.fwdU .table) := v₁
      let t₀ ← v₀.get m 0
      let t₁ ← v₀.get m 1
      let t₂ ← v₁.get m 0
      let t₃ ← v₁.get m 1
      let xs ← [t₀, t₁, t₂, t₃].mapM (entryValue m)
      return (n, xs)) = Res.ok (2, [some 0, some 1, some 0, some 1]) := by
  intro m; cases m <;> kernel_rfl

/-- fbs/greeter/greeter.fbs -/
def greeterFbs : Str := c!"/// A response from the server\n/// Useful for getting a greeting back!\nnamespace Foo.Bar;\n\n\n/// Hello there!\ntable HelloRequest {\n  /// What's your name?\n  name: string (required);\n}\n\ntable HelloReply {\n  message: string ;\n}\n\ntable ManyHellosRequest {\n  name: string (required);\n  /// Number of \"hellos\"\n  num_greetings: int;\n}\n\nunion EitherHello {\n  HelloReply, HelloRequest\n}\n\ntable EitherHelloRequest {\n  something_required: EitherHello (required);\n  /// A comment\n  something: EitherHello;\n}\n\n\ntable HelloRequestArray {\n  /// Field comment\n  requests: [HelloRequest];\n}\n\nnamespace Baz.Buzz;\n\n/// Doc\nenum Foo : int32 {\n  A,\n  /// Foo\n  B,\n  /// Bar\n  //\n  /// Baz\n  C\n}\n\ntable FooBar {\n  name: string;\n  my_foo: Foo = A;\n}\n\n\n/// A greeter service!\n/// ... with a multiline doc comment?!\nrpc_service Greeter {\n  /// More info\n  SayHello(Foo.Bar.HelloRequest) : Foo.Bar.HelloReply;\n  /// Even more info\n  SayManyHellos(Foo.Bar.ManyHellosRequest) : Foo.Bar.HelloReply (streaming: \"server\");\n}\n"

def helloRequest : List GField := [⟨c!"name", 4, .ref .str, true⟩]
def helloReply : List GField := [⟨c!"message", 4, .ref .str, false⟩]
def eitherHelloRequest : List GField := [
  ⟨c!"something_required_type", 4, .enum .u8 [Fin.ofNat _ 0, Fin.ofNat _ 1, Fin.ofNat _ 2] none, true⟩,
  ⟨c!"something_required", 6, .union [.fwdU .table, .fwdU .table], true⟩,
  ⟨c!"something_type", 8, .enum .u8 [Fin.ofNat _ 0, Fin.ofNat _ 1, Fin.ofNat _ 2] none, false⟩,
  ⟨c!"something", 10, .union [.fwdU .table, .fwdU .table], false⟩]
def fooBar : List GField := [⟨c!"name", 4, .ref .str, false⟩,
  ⟨c!"my_foo", 6, .enum .i32 [Fin.ofNat _ 0, Fin.ofNat _ 1, Fin.ofNat _ 2] (some 0), false⟩]

example : compiled greeterFbs [c!"Foo", c!"Bar", c!"HelloRequest"] = some helloRequest := by kernel_rfl
example : compiled greeterFbs [c!"Foo", c!"Bar", c!"HelloReply"] = some helloReply := by kernel_rfl
example : compiled greeterFbs [c!"Foo", c!"Bar", c!"EitherHelloRequest"] = some eitherHelloRequest := by kernel_rfl
example : compiled greeterFbs [c!"Baz", c!"Buzz", c!"FooBar"] = some fooBar := by kernel_rfl

-- src/greeter/greeter.rs 13-24
example : ∀ m, (do
    let b ← Builder.newWithCapacity 0
    let (name, b) ← b.createString m "John"
    let (o, b) ← create m b helloRequest (Builder.offVal name, ())
    let b ← b.finishMinimal m o
    let data ← b.finishedData m
    let t ← Table.getRoot m data
    accessor m t helloRequest helloRequest[0]) = Res.ok (some "John") := by
  intro m; cases m <;> kernel_rfl

/-- src/greeter/greeter.rs 26-50 -/
def eitherRoot (m : Mode) : Res Butte.Table := do
  let b ← Builder.newWithCapacity 0
  let (name, b) ← b.createString m "Jane"
  let (message, b) ← b.createString m "Wassup Jane"
  let (req, b) ← create m b helloRequest (Builder.offVal name, ())
  let (reply, b) ← create m b helloReply (some (Builder.offVal message), ())
  let (o, b) ← create m b eitherHelloRequest ((1 : Fin 3), Builder.offVal reply, (2 : Fin 3), some (Builder.offVal req), ())
  let b ← b.finishMinimal m o
  let data ← b.finishedData m
  Table.getRoot m data

-- src/greeter/greeter.rs 52-62
example : ∀ m, (do
    let t ← eitherRoot m
    let u : Option (Kind.union [.fwdU .table, .fwdU .table]).Inner ← accessor m t eitherHelloRequest eitherHelloRequest[3]
    match u with
    | some ⟨⟨1, _⟩, req⟩ => accessor m req helloRequest helloRequest[0]
    | _ => .panic) = Res.ok (some "Jane") := by
  intro m; cases m <;> kernel_rfl

-- src/greeter/greeter.rs 64-74
example : ∀ m, (do
    let t ← eitherRoot m
    let u : Option (Kind.union [.fwdU .table, .fwdU .table]).Inner ← accessor m t eitherHelloRequest eitherHelloRequest[1]
    match u with
    | some ⟨⟨0, _⟩, reply⟩ => accessor m reply helloReply helloReply[0]
    | _ => .panic) = Res.ok (some "Wassup Jane") := by
  intro m; cases m <;> kernel_rfl

-- src/greeter/greeter.rs 76-80
example : ∀ m, number m (eitherRoot m) eitherHelloRequest ⟨2, by decide⟩ = .ok (some 2) := by
  intro m; cases m <;> kernel_rfl

-- src/greeter/greeter.rs 82-97
example : ∀ m, number m (do
    let b ← Builder.newWithCapacity 0
    let (name, b) ← b.createString m "Joe"
    let (o, b) ← create m b fooBar (some (Builder.offVal name), (1 : Fin 3), ())
    let b ← b.finishMinimal m o
    let data ← b.finishedData m
    Table.getRoot m data) fooBar ⟨1, by decide⟩ = .ok (some 1) := by
  intro m; cases m <;> kernel_rfl

end Butte.Gen
