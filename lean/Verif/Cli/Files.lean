import Verif.Parse.Compile
import Verif.Src.Rpc
import Verif.Rt.ReadLemmas
/-
butte-build/src/compile.rs and butte-build/src/main.rs: the compiler as a program that reads and writes files.
-/
namespace Butte.Cli
open Src (Toks FloatText RpcGen CodeGenerator)

/-- The text of tokens: `Display for TokenStream` (proc-macro2). -/
class Render where
  text : Toks → Str

/-! ### Paths -/

/-- Paths as text (Unix). -/
abbrev Path := Str

/-- The parts of a path between slashes. -/
def parts : Path → List Str
  | [] => [[]]
  | c :: cs =>
    match parts cs with
    | p :: ps => if c = '/' then [] :: p :: ps else (c :: p) :: ps
    | [] => [[c]]

/-- `Path::file_name`: the last part; empty parts and `.` do not count, and `..` is no name. -/
def fileName (p : Path) : Option Str :=
  match ((parts p).filter fun s => s ≠ [] ∧ s ≠ c!".").getLast? with
  | some s => if s = c!".." then none else some s
  | none => none

/-- The last dot of a name: what is before it (`none`: there is no dot). -/
def beforeDot : Str → Option Str
  | [] => none
  | c :: cs =>
    match beforeDot cs with
    | some s => some (c :: s)
    | none => if c = '.' then some [] else none

/-- `Path::file_stem`, of a name: a dot at the beginning does not count. -/
def stem (name : Str) : Str :=
  match beforeDot name with
  | some (c :: s) => c :: s
  | _ => name

/-- `path.with_extension("rs").file_name()` -/
def rsName (p : Path) : Option Str := (fileName p).map fun n => stem n ++ c!".rs"

/-- `PathBuf::join`, with a name. -/
def join (dir : Path) (name : Str) : Path :=
  if dir = [] ∨ dir.getLast? = some '/' then dir ++ name else dir ++ '/' :: name

/-! ### Files -/

/-- What the compiler can see and change. Two paths are the same file if they are the same text; reading and writing an open
file does not fail. -/
structure World where
  files : Path → Option Bytes
  /-- `File::create` works for this path -/
  creatable : Path → Bool
  stdin : Bytes
  stdout : Bytes
  /-- the environment variable `OUT_DIR` -/
  outDir : Option Str
  /-- what `rustfmt` writes for a text, whether it succeeds or not; `none`: it cannot be started, or stops before it has read
  the text -/
  rustfmt : Bytes → Option Bytes

/-- A file with other contents. -/
def World.set (w : World) (p : Path) (b : Bytes) : World := { w with files := fun q => if q = p then some b else w.files q }

/-- Where the schema comes from: `Box<dyn io::Read>`. -/
inductive In where
  | file (p : Path)
  | stdin

/-- Where the code goes: `Box<dyn io::Write>`. -/
inductive Out where
  | file (p : Path)
  | stdout

/-- `read_to_end`: what is there now. -/
def World.read (w : World) : In → Bytes
  | .file p => (w.files p).getD []
  | .stdin => w.stdin

/-- `write_all`: to a file which is empty when the writing starts. -/
def World.write (w : World) (b : Bytes) : Out → World
  | .file p => w.set p b
  | .stdout => { w with stdout := w.stdout ++ b }

/-- `File::open`. -/
def World.open (w : World) (p : Path) : Option In := (w.files p).map fun _ => .file p

/-- `File::create`: the file is made, or emptied. -/
def World.create (w : World) (p : Path) : Option (World × Out) :=
  if w.creatable p then some (w.set p [], .file p) else none

/-- Why the compiler gives up. -/
inductive Failure where
  | noOutDir | noFileName | notOpened | notCreated | notUtf8
  | parseFailed
  | incomplete (quoted : Str)
  | semantic (e : Ir.BuildErr)
  | noRustfmt

/-- What comes back. -/
inductive Reply where
  | ok
  | err (f : Failure)
  | panic
  /-- the analysis does not end (it always does, C45) -/
  | loops

/-- `String::from_utf8`. -/
def decode (b : Bytes) : Option Str := (String.fromUTF8? (ByteArray.mk b.toArray)).map String.toList

/-- What is made of a schema. -/
inductive Product where
  | text (b : Bytes)
  | failed (r : Reply)

section
variable [Parse.Env] [FloatText] [Render] {σ : Type}

/-- compile.rs 38-56: the text of the code, formatted unless `ugly`. What `rustfmt` says about its success is not looked at
(52). -/
def finish (w : World) (ugly : Bool) (code : Toks) : Product :=
  if ugly then .text (Parse.utf8 (Render.text code))
  else
    match w.rustfmt (Parse.utf8 (Render.text code)) with
    | some b => .text b
    | none => .failed (.err .noRustfmt)

/-- compile.rs 22-56: from the bytes of the schema to the bytes of the code. -/
def produce (gm : Mode) (ugly : Bool) (g : RpcGen σ) (rpc : Option σ) (w : World) (b : Bytes) : Product :=
  match decode b with
  | none => .failed (.err .notUtf8)
  | some t =>
    match Parse.compileText t with
    | none => .failed .loops
    | some .parseFailed => .failed (.err .parseFailed)
    | some (.incomplete q) => .failed (.err (.incomplete q))
    | some (.semantic e) => .failed (.err (.semantic e))
    | some .panic => .failed .panic
    | some (.tree root) =>
      match CodeGenerator.buildTokenStream g gm ⟨root, rpc⟩ with
      | none => .failed .panic
      | some (_, ts) => finish w ugly ts

/-- compile.rs 16-59 `compile_fbs_generic`. -/
def compileFbsGeneric (gm : Mode) (ugly : Bool) (g : RpcGen σ) (rpc : Option σ) (input : In) (output : Out) (w : World) :
    World × Reply :=
  match produce gm ugly g rpc w (w.read input) with
  | .text b => (w.write b output, .ok)
  | .failed r => (w, r)

/-- compile.rs 62-78 `compile_fbs`. -/
def compileFbs (gm : Mode) (path : Path) (w : World) : World × Reply :=
  match w.outDir with
  | none => (w, .err .noOutDir)
  | some out_dir =>
    match rsName path with
    | none => (w, .err .noFileName)
    | some name =>
      match w.open path with
      | none => (w, .err .notOpened)
      | some input =>
        match w.create (join out_dir name) with
        | none => (w, .err .notCreated)
        | some (w, output) => compileFbsGeneric gm false (σ := Unit) ⟨fun _ _ _ => none⟩ none input output w

/-- butte/src/macros.rs 11-16 `include_fbs!`: the file that is included, for the value of `OUT_DIR` at compile time. -/
def included (out_dir : Path) (package : Str) : Path := out_dir ++ c!"/" ++ package ++ c!".rs"

/-- A build script (as butte-examples/build.rs): `compile_fbs(..)?` for one schema after the other. -/
def compileAll (gm : Mode) : List Path → World → World × Reply
  | [], w => (w, .ok)
  | p :: ps, w =>
    match compileFbs gm p w with
    | (w, .ok) => compileAll gm ps w
    | (w, r) => (w, r)

/-- main.rs 35-39: the input. -/
def mainIn (w : World) : Option Path → Option In
  | some p => w.open p
  | none => some .stdin

/-- main.rs 41-45: the output. -/
def mainOut (w : World) : Option Path → Option (World × Out)
  | some p => w.create p
  | none => some (w, .stdout)

/-- main.rs 32-48 `main`, with its options. -/
def main (gm : Mode) (input output : Option Path) (ugly : Bool) (w : World) : World × Reply :=
  match mainIn w input with
  | none => (w, .err .notOpened)
  | some i =>
    match mainOut w output with
    | none => (w, .err .notCreated)
    | some (w, o) => compileFbsGeneric gm ugly (σ := Unit) ⟨fun _ _ _ => none⟩ none i o w

end

end Butte.Cli
