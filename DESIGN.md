# Formal model of butte (FlatBuffers for Rust) in Lean 4

## 1. What is modelled

| Repo file | Lean module(s) | Modelled |
|---|---|---|
| butte/src/endian_scalar.rs, error.rs, primitives.rs (constants) | `Rt/Basic`, `Rt/Scalar` | results and panics, checked and wrapping machine arithmetic, slices, scalars |
| butte/src/primitives.rs, vector.rs, table.rs, vtable.rs, follow.rs | `Rt/Read` | all `Follow` impls, `VTable`, `Table`, `Vector`, `VectorIter`, `&str`, identifiers |
| butte/src/builder.rs, push.rs, vtable_writer.rs | `Rt/Builder` | every `FlatBufferBuilder` method, on the real buffer with `head`, growth and in-place patching |
| the `unsafe` blocks of butte/src | `Mem/Model`, `Mem/Create` | the functions of the runtime that use raw pointers (directly or through others) once more, now recording every such use: type, count, place and block of memory |
| the reading half of butte/src, other pointer widths | `Mem/Word` | the same functions with `usize` of `w` bits, recording accesses; `w = 64` is `Mem/Model` (C95_same) |
| builder.rs, push.rs, vtable_writer.rs, other pointer widths | `Mem/WordBuild` | the builder with `usize` of `w` bits and buffers of at most `2 ^ (w - 1) - 1` bytes; `w = 64` is `Rt/Builder` (C98_same) |
| endian_scalar.rs, vector.rs 84-119, builder.rs 274-278, either byte order | `Rt/Endian` | memory of numbers in either order, the conversions, `SafeSliceAccess`; C96 compares with `Rt/Scalar` |
| derived `PartialEq` of `Table`, `FlatBufferBuilder`, generated tables and unions | `Rt/Compare` | field by field |
| builder.rs 290-326, memory not yet written | `Mem/Uninit` | the `SmallVec` of offsets as cells; C97 compares with `Rt/Builder` |
| butte-build/src/ast/types.rs | `Ir/Ast` | the syntax tree |
| butte-build/src/ast/parser.rs | `Parse/Nom` (combinators of nom 5.1), `Parse/Grammar` (every rule of the parser) | from characters to syntax trees |
| butte-build/src/ast/parser.rs, number of steps | `Parse/Steps` | the combinators and every rule once more, with a count of steps next to the result; C99_result compares with `Parse/Grammar` |
| butte-build/src/ast/parser.rs, stack | `Parse/Depth` | the combinators and every rule once more, with the number of frames that calls put on the stack; C103_result compares with `Parse/Grammar` |
| butte-build/src/ir/transform.rs 65-575, number of steps and sizes | `Ir/Steps` | the analysis once more, with a count of steps next to the result, and the number of nodes of a resolved type; C100_result compares with `Ir/Transform` |
| butte-build/src/ir/transform.rs 49-644, types.rs, stack | `Ir/Deep` | the analysis once more, with the number of frames of its calls and of the copies of types it makes; C113_result compares with `Ir/Transform` |
| butte-build/src/ir/transform.rs 577-644, hash maps in any order; `Debug` of ast/types.rs; the messages of transform.rs | `Hash/Map`, `Hash/Debug`, `Hash/Messages` | grouping by namespace with hash maps whose order is arbitrary, derived `Debug` texts, error messages in full; C101_code compares with `Parse/Compile` |
| butte-build/src/ir/keywords.rs, types.rs, transform.rs | `Ir/Keywords`, `Ir/Types`, `Ir/Transform` | keyword substitution, relative paths, name resolution with its retry loop, namespace tree |
| butte-build/src/codegen.rs | `Gen/Float`, `Gen/Display`, `Gen/Compile`, `Gen/Run`, `Gen/Program` | the *meaning* of the emitted code: `create`, `add_*`, `finish`, `Default`, accessors, enum conversions, union accessors; the modules of the program, the names its items introduce and the paths in them |
| butte-build/src/codegen.rs, again | `Rs/Syntax`, `Rs/Emit`, `Rs/Eval` | the emitted program itself: syntax trees of the Rust subset that is written, the generator function by function (`emit`), and name resolution and evaluation of such programs |
| butte-build/src/codegen.rs, once more | `Src/Tokens`, `Src/Quote` | the emitted tokens: every `quote!` of the generator, with its text copied |
| butte-build/src/codegen.rs 1095-1160 | `Src/Rpc` | `CodeGenerator` and its calls of the user's `RpcGenerator` |
| butte-build/src/compile.rs | `Parse/Compile`, `Cli/Files` | `compile_fbs_generic` up to code generation, with its error messages; then as a program that reads and writes files |
| butte-build/src/main.rs, butte/src/macros.rs, butte-examples/build.rs | `Cli/Files` | the command line, `include_fbs!`, build scripts |

All module names are below `Verif/`. Specifications that are not models of code: `Rt/Abs` (prepend-only builder),
`Rt/Spec`, `Rt/Caller` (the protocol a caller follows), `Gen/Tree`, `Gen/Evolve` and `Gen/Write` (object graphs, and callers that
write and read whole graphs with the generated code), `Gen/Copy` (what a caller passes on who copies a message), `Rt/Cut`, `Gen/Cut` (the same place in longer bytes), `Gen/Workable` (schemas with working code), `Gen/Format` (the FlatBuffers binary format, as a relation between bytes and values), `Rs/Graph` (callers that do the same by calling the functions of the emitted
program), `Rs/Typing` (the typing rules of Rust for the subset that is emitted), `Src/Tree`, `Src/Read`, `Src/Erase` (syntax trees of Rust source with everything that is written, a reader after the Rust reference, and what of such trees matters when they run), `Src/Lifetimes` (the rules for lifetimes of such trees), `Src/Traits` (those for derives, `impl`s of traits and bounds), `Src/Own` (those for moves, mutability and visibility), `Src/Check` (those for types with references and lifetimes), `Src/Api` (what a file offers to other modules, and its documentation), `Src/Lex` and `Src/Spell` (a lexer after the Rust reference, and the ways in which tokens may be written), `Ir/SchemaSpec` (well-formed schemas), `Parse/Render` (the
grammar of schema texts, as relations), `Parse/Print` (a printer). Everything else below `Rt`, `Mem`, `Ir`, `Gen`, `Rs`,
`Src`, `Cli` and `Parse` is lemmas. Property theorems live in files of their own (`Props/*`).

### Conventions

* `Mode = debug | release`. In `debug`, `debug_assert!` fires and arithmetic overflow panics; in `release`,
  assertions vanish and arithmetic wraps. `assert!` and slice-index panics exist in both.
* `Res α = ok a | err e | panic`. `Result::Err` is `err`; every panic is `panic`.
* The target is 64-bit: `usize` is a `Nat` with explicit `< 2^64` reduction or check at each operation. Reading
  is modelled for other pointer widths too (`Mem/Word`, C95), and so is the builder (`Mem/WordBuild`, C98).
* Bytes are `List UInt8`. Scalars carry their bit pattern; float `==` is modelled on bit patterns (IEEE 754).
* UTF-8 validity is Lean core's `String.fromUTF8?`/`String.toUTF8`.
* `&mut self` methods return the new builder.
* Texts are lists of characters (`Str`). A parser returns `none` for `Err::Error` or the rest and a value. No rule of
  the parser produces `Err::Failure` or `Err::Incomplete`.
* Loops whose bound is not visible take fuel; the theorems C45 and C52 show that the fuel never runs out.
* Unicode tables, `hexf-parse` and `Path::file_stem` enter the parser as a class `Env`: letters, digits, word
  characters, `parse_hexf64`. Theorems hold for every such `Env`, except that the ASCII characters must be classified as
  usual (laws of the class) and that C61-C63 assume `parse_hexf64` refuses a text without `0x` (`HexfPrefix`).

### Trusted base

* Lean's kernel. Every theorem depends on at most the axioms `propext`, `Classical.choice` and `Quot.sound`. There is
  no own axiom, no `sorry`, no `native_decide`, no `bv_decide`.
* The correspondence of the Lean definitions with the Rust text (each definition cites file and lines).
* The Rust standard library (`Vec`, slices, `from_utf8`, `str::parse` of integers and floats, `Path::file_stem`).
  Allocation failure: a `Vec` longer than `isize::MAX` panics in the model; other allocations succeed.
* nom 5.1, regex, heck 0.3, hexf-parse, by their published source. `re_match` of nom succeeds when the regex matches
  *anywhere* in the input and returns the whole input.

### Simplifications

* Unsafe pointer casts (`emplace_scalar`, `read_scalar`, `safe_slice`, `follow_cast_ref`) are modelled by their effect
  on little-endian bytes; that this is their effect on machines of either order is C96 (`Rt/Endian`). Whether such a cast is allowed is C90: `Mem/Model` records for each use of a
  raw pointer whether it is inside its block, aligned and of valid values (`Access.Ok`). The rest of Rust's rules is not
  looked at: aliasing of references and lifetimes of the slices returned (the signatures tie them to the buffer). That
  `create_vector_of_strings`, which calls `set_len` on a `SmallVec` before writing its items, reads none before it is written is C97
  (`Mem/Uninit`); whether a reference to items not yet written may exist in between is not looked at. A block's address depends
  on its length only (a `Vec` that grows may move).
* C94 and C102 count the cells of these recorded accesses. Safe code is not counted: growing copies as many bytes as it clears (which
  is counted), `push_bytes_unprefixed` copies its argument, a comparison of vtables looks at the bytes of one of them at most.
* Code generation is modelled three times: `Gen` gives the behaviour of the emitted code directly, `Rs/Emit` the code as
  a syntax tree without lifetimes, `where` clauses, visibility, derives and documentation, `Src/Quote` the tokens that are
  emitted (C79 relates the last two). Tokens are those of the Rust reference: `::`, `->`, `=>` and `..` are one token, a
  negative number is two. How tokens are spaced and strings escaped in the output file is a parameter of C82; C83 holds for every
  way that `Src/Spell` allows (any white space, any of Rust's escapes), for names in ASCII.
  `format_ident!` also panics for characters that are alphanumeric but do not belong to Rust names (`x²`); in the model this is a word.
* A decimal default of an integer field is printed by `Display` of `f64` with the suffix of the type (codegen.rs 182-202). If the number is whole, this
  is an integer literal; `Gen/Display` computes its digits (the shortest that are read as the same double, and of these the
  nearest; `Shown` says so without the algorithm, `displayGo_shown`), and a negative one fails for unsigned types (`-0.0` is printed as `-0`, which Rust
  before 1.53 did not do).
  `Rs/Eval` runs such trees with Rust's rules for names (type parameters, module items, prelude; inherent functions
  before those of traits); evaluation does not look at types, a program that goes wrong is `stuck`. `Rs/Typing` says when such
  a program is well-typed: types of expressions, signatures of functions and of the runtime, trait impls with their one
  function, names that are declared twice or are keywords, unused type parameters. It leaves out lifetimes (see C80),
  derives (see C84), moves, mutability and visibility (see C85), does not tell `&T` from `T` (see C87), and is
  stricter than rustc in that no union may be a member of a union. In `Gen`, "compiles" means that the checks
  listed in `Gen/Compile` succeed (literals fit, names usable and distinct, enums non-empty with distinct values, a
  matching tag accessor for each union); other reasons for which rustc could refuse the code are not considered. A
  default given as an identifier on a builtin type is treated as failing.
* `Display` followed by parsing of a finite float literal is the identity.
* heck: letter classes are those of ASCII.
* Documentation comments are kept in the syntax tree and in the intermediate representation; `Ir.Emits` says where they end up.
* `HashMap`s are functions or lists; `BTreeMap`s are lists in key order; the fields of an `object` are a list of pairs. In `Hash`
  a `HashMap` is a list of entries that every operation may reorder; maps which are only asked for single keys stay functions.
* Positions and kinds of parse errors are dropped (nothing looks at them).
* Stack (C103): in the parser every call of a combinator is one frame, whatever its size; what the compiler inlines is not looked at. In
  the analysis (C113) every call of a function of transform.rs and of a derived `clone` is one frame. The stack of the generator is not
  modelled (it recurses on the nesting of vectors and namespaces), nor is that of dropping and printing syntax trees and types.
* Files: paths are Unix paths, two paths are the same file if they are the same text; reading and writing an open file does
  not fail; nobody else changes files meanwhile.
* Steps of the parser (C99): a call of a combinator, a character looked at and a character given to a conversion are one step each,
  and a search for a regular expression one for each character left (the `regex` crate promises linear time). Not counted: the time
  `re_match!` takes to compile its constant expression, and allocation.
* Steps of the analysis (C100): a call, a lookup, an insertion and each node of a type that is cloned are one step each; making,
  comparing and copying a name or a comment is one step. Not counted: grouping the finished items by namespace (578-643).

### The project's own tests

`Tests/*` runs the unit tests of the repository on the model, as a check of the correspondence (they are tests of the
model, no theorem uses them): all assertions of `ast/parser.rs` (134 tests), `ir/transform.rs` (15), `ir/types.rs` (5) and
those of `codegen.rs` that look at defaults and required fields; the tests of `butte-examples` (`array.rs`,
`default_value.rs`, and what `greeter` asserts) go from the schema text through parser, analysis and generator to buffers
and back; `Tests/Emitted` does the same by running the emitted program. They are evaluated by the kernel (`Tests/Kernel`).
All of them hold of the model.

### Not modelled

Functions that only forward have no definition of their own: `lifted_follow` and `FollowStart` (follow.rs 43-68, `T::follow`), `FollowBuf`
(the same text as `Follow`, for buffers that are owned), `IntoIterator` (vector.rs 294-309, `iter`), `Clone` of iterators, `PushAlignment`
(push.rs 42-54, a `usize`). `ForwardsUOffset`, `ForwardsVOffset` and `BackwardsSOffset` implement `Push` (primitives.rs 205-212, 235-242, 265-272),
but no function makes a value of these types, so it is never called. `Display` of `Error` (error.rs 22-31) is not modelled either.

What an `RpcGenerator` does (it is a trait the user implements; C81 is for any), rustfmt (any function from bytes to bytes), which
of the texts of `Src/Spell` proc-macro2 writes, how command-line arguments are parsed; of `butte-examples` only its tests and its build
script are used.

## 2. Properties and proofs

Runtime

* C01, C02: `LE` encode/decode inverse by induction on the width; slice splicing lemmas; case split on `loc + size`.
* C03: every follow combinator preserves "no panic in release"; induction over the type of follow descriptors.
* C04: case analysis against an independent predicate.
* C05, C06: refinement of `VectorIter` to a double-ended queue, induction over calls.
* C07-C10: refinement of the concrete builder to the prepend-only one (`R`), for every call; induction over call lists.
* C11: refuted (pending field locations survive `reset`); partial: no pending field.
* C12: arithmetic on powers of two. C13: alignment invariant over histories.
* C14-C17: end-relative `BytesAt` lemmas on the abstract builder, transferred by refinement.
* C18, C19, C22: vtable construction lemma (fold over field locations), reader lemma, for new and shared vtables.
* C20: refuted (-0.0 against 0.0). C21: invariant on recorded vtables. C23, C24, C58: layout of `finish_with_opts`.
* C25: presence characterisation of `vtable.get`. C26, C28: state machine and progress for callers that follow the
  protocol (`Rt/Caller`, `Rt/AProgress`, `Rt/CallerOk`).
* C27, C31, C32: refuted, with the true part kept. C29, C30: direct.

Generated code

* C106: paths are written out relative to the module at each use, with one `super` for each part of the namespace, so the code is not linear in the
  schema.
* C107: of all attributes the analysis looks at `required` (without a value, fields of tables) and `streaming` (methods); `id`, `bit_flags`,
  `deprecated`, `force_align` and unknown ones are accepted and dropped, and includes are never opened. A schema with `id`s out of order gives
  code that reads other fields than the code of `flatc`.
* C108: `Vector::get` (vector.rs 69) reads the length with `?` inside a `debug_assert!`; on a vector whose length is outside the buffer a
  debug build gives `Err(OutOfBounds)`, and a release build may give `Ok` (an index for which the place of the element wraps around).
* C109: a `WIPOffset` is a number (primitives.rs 64-160); one kept over `reset`, or from another builder, is taken if the number is not too
  large, and reads as whatever is at that place now. Larger numbers panic in debug builds; in release builds the subtraction wraps, and the
  stored number leads behind the end of the buffer, where reading gives `OutOfBounds`.
* C110: of `namespace A; table T { u: B.U; } namespace B; struct U { x: int; } table T { }` the analysis says that `B.T` is
  already defined: `A.T` waits for `B.U` and is looked at again as `B.T` (transform.rs 447-454). Of `union U { T } table T { u: U; }` it
  says that both refer to items not found, because a pass that only announces a table does not count as progress (transform.rs 561).
* C33, C36-C38, C41: semantics over a list of field descriptors; induction over the fields using C18.
* C34: the literals of the defaults; `roundBits` is shown to give the nearest float (`Gen/FloatNear`).
* C35: refuted; the partial theorem gives the exact condition. C39, C40: the values of enum variants.
* C64: induction over how a graph was written (`Gen/TreeRead`), with C14-C18 and C33 at each node. C65: induction over
  conforming trees with the progress lemmas of C28 and C35 (`Gen/WriteOk`), then C64. C66: the
  induction of C64 with two schemas, comparing the accessors of both versions by C37 at each table. C67: the
  calls of the two generated `create` functions are equal (`Gen/Widen`), then C66; unknown variants by C33 and distinctness
  of the values.
* C68: the words of a name in snake case are found again in its snake case (`Ir/HeckLemmas`), so both ways of making
  the tag's name meet (`Ir/Companion`); the order of fields by the invariants of the analysis.
* C69: every offset that is followed leads forwards, so `length - location` decreases (`Gen/Untrusted`).
* C70: induction over the tree of modules gives the items (`Gen/Paths`); the paths are those of C44, their targets
  exist by C46.
* C71: the items of the tree of modules are, up to order, those of its leaves and of its modules (`Gen/Items`); then
  case analysis on pairs of items, types being distinct by C47.
* C72: each check of `Gen/Compile` on the result of the analysis is equivalent to a condition on the declarations
  (`Gen/WorkableOk` against `Gen/Workable`), the two being related by C46.
* C73: C53 (text to tree), C59 (acceptance), C72, then C69 and C65 for the tables of the tree (`Gen/Pipeline`).
* C42, C43: the substitution table. C44: a semantics of paths with `super` and child steps; list prefix lemmas.
* C74: the items of the emitted program are found by name (`Rs/Locate`, `Rs/Find`), the paths in types resolve
  (`Rs/Resolve`, `Rs/Types`), then each body is run step by step and compared with `Gen` (`Rs/Step`, `TableAt`, `Encode`,
  `Read`, `Access`, `Unions`, `Create`, `CreateAll`, `Calls`, `Traits`, `Enums`, `Default`). That a failing builder call is a panic,
  not an error, is `Gen/NoErr`.
* C75: a path to the outside is resolved through items of the module first, so it is right if and only if no item of the
  module has its first name.
* C76: each step of `emit` succeeds if and only if a condition on the names, paths and defaults it looks at holds
  (`Rs/Total`); the conditions are then derived from those of C72 and, for words, from the grammar (C63).
* C77: whole graphs written and read with the emitted functions agree with `Gen/Write` and `Gen/Tree` (`Rs/GraphOk`, from
  C74); then C76, C71, C70 and C75 provide the setting, and C73 the rest.
* C78: each emitted item gets its typing derivation (`Rs/TypedTable`, `TypedAccess`, `TypedCreate`, `TypedItems`, `TypedEnum`,
  `TypedUnion`, put together in `TypedProgram`); in the other direction the derivations are inverted to get the conditions back
  (`TypedConverse`, `TypedTableConverse`). The conditions on the output are then derived from the declarations.

* C79: the tokens are those of trees (`Src/Full`, `Src/FullPrint`), trees are read back from their tokens (`Src/RoundTy`,
  `RoundExpr`, `RoundItem`), and erase to what `Rs/Emit` emits (`Src/FullErase`), all by induction on types, expressions and
  lists. That all names can be read back follows from C78 (`Src/Legible`).
* C80: names are declared once (C78), so the declaration that a path leads to is known and with it the number of lifetimes;
  types are done by induction (`Src/LifetimesOk`), then each generated item (`Src/LifetimesItems`), then files
  (`Src/LifetimesAll`). Conversely the lifetime of a union item is used only if a member borrows.
* C84: the declaration that a path leads to derives four traits (`Known`), so types have them (`Src/TraitsOk`); then each
  generated item (`Src/TraitsItems`, `Src/TraitsTypes`), then files (`Src/TraitsAll`). Which traits the types of the runtime crate
  have is a table in `Src/Traits`, with the lines it is read from.
* C85: the same declarations tell which variables are `Copy`; functions are then followed statement by statement
  (`Src/OwnItems`), `create` by induction on the fields, and files as before (`Src/OwnAll`). Types of variables that are neither
  parameters nor the result of a call count as not `Copy`, so they may be moved once. How the runtime crate's methods take `self`
  is a table in `Src/Own`.
* C87: `Src/Check` has the rules, with signatures of the runtime crate read off its source. Types of the schema mean what they
  should, by induction (`CheckTypes`); then what tables, enums and unions rely on (`CheckItems`, `CheckEnum`, `CheckFields`), the
  functions of tables one by one (`CheckTable`, `CheckBuilder`, `CheckCreate`, `CheckAccess`), and files (`CheckAll`). Loans of
  what may change only last for a call, which is stricter than Rust. Not looked at: whether the type arguments of references and
  vectors outlive them (Rust infers these bounds), which of several methods of one name is called (none has two, C78), which
  patterns cover a type (C78). `Tests/Check` shows a function that the rules refuse whatever file it is in.
* C86: read off the items, which are found in the file by their names (`Src/ApiAll`). That the builder offers nothing else needs
  that no other item has its name. Documentation is followed from the declarations with C46.
* C88: by induction on the relation `Holds` (`Gen/FormatRead`): each accessor, `Vec.get` and `follow` is computed from what the
  relation says about the bytes. For FlatBuffers' own understanding of defaults the value is first translated
  (`Gen/FormatView`). Format rules that readers do not need (alignment, sizes, NUL) are part of the relation all the same.
* C89: by induction on `Written` (`Gen/FormatWrite`), for the bytes that the data becomes after `finish` (`Closes`): positions are
  multiples of the alignment counted from the end, and `finish` makes the length a multiple of all of them. `Rt/TableIn` has the
  exact layout of a table with its vtable; that shared vtables are at even positions is part of the invariant on recorded
  vtables (`VTInv`), for which the history must be `Regular`. In release mode `finish` after `finish` is not looked at.
* C90: a logic for computations with a log (`Mem/Logic`: all accesses satisfy P, the result satisfies Q). Reading: bounds are
  checked before each access (`Mem/Inside`); alignment follows the relation of C88 (`Mem/Graph`, `Mem/Message`). Building:
  each function keeps the buffer's length good (1, 2, 4 or a multiple of 8), the slots even and the recorded vtables where they
  are aligned from the end (`Mem/Build`); `required` reads a table that `end_table` wrote, whose place is aligned because its
  vtable offset was (`TabPos`).
* C91: by induction on the same relation: the bytes that hold a value for one schema hold the evolved value for the other
  (`Gen/FormatEvolve`), then C88. Fields that only the reader has are absent because the message stores nothing beyond the writer's
  fields; this is the clause `exact` of the relation, off by default, which C89 shows for what the generated code writes.
* C92: C88, C89 and C91 for the tables of the tree, carried to the emitted text by the setting of C77; that tables have as many
  fields as declared slots is `Gen/SlotCount`.
* C93: each function of the builder either leaves the buffer's length or doubles it as often as its need says (`Rt/Growth`: `Grown`,
  closed under composition); over a history, what was needed was there at some time or was the vtable just written. The
  different sizes are different powers of two, so their sum is geometric.
* C94: upper bounds on the logs of C90 function by function (`Mem/Cost`: `Cheap`), lower bounds for runs that succeed (`Dear`); whole
  values by induction on the depth. The family of messages is shown to be in the format of C88 by induction on the chain.
* C102: the cells of the logs of C90, weighed against the growth of the buffer (`Mem/BuildCost`: `Pays`, `Spends`; a pending field
  keeps two cells in reserve for its vtable entry), summed over a history, with C93 for the buffer in the end. Below: tables whose fields
  are the bits of their number have different vtables (`Rt/Dense`: the invariant identifies each recorded vtable), they can all be
  built (the callers of C28), and ending one reads the new vtable once for each recorded one.
* C95: the bounds checks of `sliceGet` keep accesses inside whatever wraps before them (`Mem/WordInside`, after `Mem/Inside`), except
  for the product in slices. Values: a read that succeeds with 64 bits shows that all places are inside the buffer, so no sum
  wraps with fewer bits either; handles that nothing is read from are the exception (`Mem/WordAgree`: `Live`, `live_of_read`).
* C98: a relation between the two results, equal or else a panic where the other buffer gets too long (`Word.Sim`), kept by `>>=` since
  buffers never get shorter (`Longer`), and proved call by call under an invariant (`Word.Inv`: positions within the buffer, alignments
  up to 8). Offsets beyond the used space wrap differently, but end up behind the buffer, or are equal modulo `2 ^ 32`.
* C96: big-endian memory is little-endian memory reversed, and so is the effect of `swap_bytes` (`Rt/Endian`, induction over the
  width); the two cancel. The converse in C96_exactly by one item whose first byte is 1.
* C97: invariant of the loop: the cells below `i` are empty, those from `i` on are what the model without cells has collected.
* C81: the calls by induction on the tree with a generator that logs (`RpcGen.logged`); the tree has the declared services by
  C46. The tokens: the generator's items are woven into the file of C79 by induction on the tree (`nodes_woven`).
* C82: case analysis of every step on a file system; `decode` is inverse to UTF-8 encoding; paths by induction on characters; build
  scripts by induction on the list of schemas.
* C83: a token that is written in any way is what the lexer finds (`Src/LexOk`, by induction on the text of the token, then on
  the list of tokens); every token of every `quote!` can be written (`Src/Written`) as the names in it are ASCII words
  (`Src/Words`, from C46 and C78). A finite double is the nearest to its decimal expansion (`Src/Spellable`).

Analysis

* C45: each round of the retry loop resolves at least one declaration or is the last.
* C46-C49, C59, C60: invariants of the builder state (`Ir/Resolve`, `Ir/Outcome`, `Ir/Accept`, `Ir/InOrder`,
  `Ir/Starts`, `Ir/Report`) against `Ir/SchemaSpec`. C50: induction over the namespace map.

Parser

* C51, C53: completeness. `Parse/Complete` shows that every text related to a tree by the grammar of `Parse/Render`
  is read as that tree; `Parse/Print` gives one such text for each tree.
* C52: suffix lemma for each combinator and rule, and that more fuel changes nothing (`Parse/Suffix`, `Parse/Fuel`).
* C54, C55, C57: exact results of the rules for numbers, types and floats (`Parse/Numbers`, `Parse/Exact`,
  `Parse/Special`). C56: `compile_fbs_generic` on every text.
* C61: soundness. `Parse/Sound` and `Parse/SoundDecl` invert every rule: what is accepted is in the grammar.
* C99: a bound `C * (N + 1) ^ k` with the result and the characters consumed (`Meets`) for each combinator and each rule; a loop
  adds one to `k`. The rules for types and values call themselves: a type that fails is tried in one alternative only; for
  values, `list` and `object` begin with different characters and a value that was read pays for its own steps by the characters
  it consumed (`Paid`), so steps add up over the members instead of multiplying over the depth (`Parse/StepsNested`,
  `Parse/StepsValue`). Quadratic: `{a:0,a:0,…}`, where each `0` costs at least the length of what follows (`Parse/StepsLow`).
* C103: every rule carries its constant as an instance (`Low`, `Parse/DepthBound`); inside a bracket one opening bracket fewer is left. For
  accepted texts the measure is the nesting of the result (`Tight`, `Parse/DepthExact`, `Parse/DepthDecl`): a list that is closed had no
  member that failed half-way, and a declaration that is read was not begun by another rule.
* C104: `Gen/DisplayOk`: the digits of a whole double are the unique number with fewest digits that rounds to it, and below 2^53 it is the number; with that a
  whole decimal default is the same as the integer with these digits (`literal_whole`). For floating types C34 and the rounding theorem.
* C105: the exact layout of a table (`Rt/TableIn`, as for C89) with the length of the vtable and the places of the fields
  pairwise apart (each push is in front of what was pushed before), read with the accessors of `VTable`.
* C100: a condition on the state that bounds the sizes of the types in it holds along the passes (`Keeps`, `Ir/StepsTotal`): a struct
  or union is at most `2 * W + 2` times as large as its largest member. The bound is by layer, or by the number of structs
  and unions resolved so far. A pass only sees what the one before left over (C45), so there are at most as many as declarations.
  Below: a tower of structs, resolved in one pass, whose sizes double (`Ir/StepsLow`), and its text (`Ir/StepsText`).
* C106: the tokens of every `quote!` are counted (`Src/Size`): a field costs a few paths, a field of a union type a few paths for each member.
  Paths are at most as long as the namespaces written, so the product is bounded by sizes of the schema, and these by the text
  (`Src/SizeText`). Below: tables in a deep namespace that name one outside (`Src/SizeLow`), read, resolved in one pass, and generated.
* C107: the analysis commutes with forgetting includes and attributes (`Ir/Ignored`), step by step, errors included; the place of a field by
  induction over the fields, then C38.
* C108: "panics or is the same" is an order on results (`Rt/Modes`), and everything that takes a mode is monotone in it: the runtime
  (`Rt/Modes`), generated code (`Gen/Modes`), evaluation and emission (`Rs/Modes`), tokens and the command line (`Src/Modes`).
* C109: what is stored for an offset is its distance modulo 2^32 (`PAt.stored`), which stays in place under later calls; adding it to the
  place gives either the place meant or one behind the end (`PAt.leads`), where nothing can be read (`follow_behind`).
* C113: as C100, with the deepest copy in place of the sizes (`Ir/DeepTotal`): a struct or union is five frames above the types of its
  members. The namespaces are bounded by the parts of the names of the items (`Short`). Below: a chain of structs (`Ir/DeepLow`).
* C114: a successful `readVal` gives a tree that conforms to the schema once unset scalars are filled (`Gen/Copy`: `readVal_copy`, by
  induction on the depth, field by field; the tag of a union is the value that its accessor read), so C65 writes it.
* C115: each outcome on the shorter bytes is `OutOfBounds` or goes with the same one on the longer bytes (`Cut`, in `Rt/Cut` and `Gen/Cut`); the
  relation passes through `?`, so every function that reads only through `slice::get` and such functions has the property.
* C116: C24 gives the length in front, C64 the tree; C115_more for reading in place. By induction on the list of messages.
* C117: Rt/Size bounds the length for each function of the abstract builder (Rt/Abs), from the exact layouts where there are some; C93 for the buffer.
* C118: Gen/Rename says when two schemas differ in names only and shows by induction on depth that `writeVal` and `readVal` behave alike, since the kinds of the generated fields are equal; the format relation transfers by induction on `Holds`.
* C119: C89 and C88_unique for equal bytes; Gen/Agree shows that calls on two builders that refine the same abstract builder (Rt/Refine) have the same results, hence so does `writeVal`; the history before `reset` is as in C10.
* C120: Rt/Slice evaluates `safe_slice` and `get` completely on arbitrary bytes; C05 for iteration.
* C121: C88 reads the outer message in full, C120 turns the items of the field into the slice, C88 reads the inner message; C89 for messages written here.
* C42_schema_partial: from C46, whose specification of the output names items with `fixIdentifier`.
* C112: the derived `PartialEq` of `Table` is equality of the bytes and the position (`Rt/Compare`); C88 and C07 give the rest.
* C111: case analysis on the sum and the bounds check of `follow_cast_ref` (`Mem/CastRef`); one of two neighbouring addresses is odd.
* C110: by the invariant of the analysis (`Inv`), a defined type comes from a position that is no longer pending, so a name that is
  already defined has two positions (`refused_fault`); what the last pass leaves over waits for a name that is not `Settled`
  (`stuck_blocked`), by the same argument as for C59.
* C62: the value of a decimal literal is the nearest double. C63: trees that were read can be printed, and
  the printed text is read as the same tree. The words `nan`, `inf` and `infinity` matter anywhere in the rest of the file, so this is a
  simulation (`Parse/Again`): each rule, on the printed text followed by `r'` instead of `r`, gives the same tree, provided every such
  word in `r'` also stands in `r` (`W r r'`, `Parse/Words`); printing only removes comments and white space and adds no word.
* C101: a map after any insertions answers as the list of its insertions (`extend_get`, `group_get`), and a strictly sorted list is
  determined by its members, hence `arranges_iff`. Texts are sets of strings: a concatenation is determined iff its parts are
  (cancellation), a printed map iff it has one name, as `Debug` texts of strings form a prefix code (`dbgStr_prefix`).

Properties that are false of the code are proved as negations with a concrete witness (`_refuted`), and the true part
is kept as `_partial`; the manifest calls these "partial".

## 3. Where the code disagrees with the stated properties

Runtime

* C11: `reset` does not clear the pending field locations.
* C20: a float field equal to its default under `==` is not stored, so -0.0 is read back as 0.0.
* C23/C58: padding separates the file identifier from the root offset when only 1- or 2-byte values were written.
* C26: `create_vector` does not check nesting; in release builds nothing does.
* C27: the 2 GiB check looks at capacities and single requests, not at the total.
* C31: `get_field` accepts the index one past the number of fields.
* C32: in release builds a vector index out of range reads neighbouring bytes.
* C112: `==` of tables compares the whole buffers and the positions, so equal contents at two places are unequal; `==` of builders
  also compares unused space.
* C90: `read_scalar` reads through `*const T` without regard to alignment: on any buffer whose address is not a multiple of 4
  (a slice of a file or packet, say) `get_root` is undefined behaviour. The builder writes the same way; with a capacity that
  is no multiple of 4 its first `u32` is misaligned, and the `Vec<u8>` it allocates need not be aligned at all.
  Following `&[bool]` makes `bool`s of any bytes (`safe_slice` exists for numbers only).
* C111: `follow_cast_ref` makes a reference without looking at the address. Its documentation asks that `T` have "the right alignment",
  a condition on `T`, which is enough for alignment 1 only: for any other `T` one of any two neighbouring locations gives a reference that is not
  aligned. It also says that a pointer is followed; none is, the reference is to the location given.
* C95: with 32-bit pointers `len * size_of::<T>()` wraps in release builds: `safe_slice` and `<&[T]>::follow` then return slices that
  reach out of the buffer (eight hostile bytes suffice), which is undefined behaviour in safe code. `<&str>::follow` panics on
  a length whose end wraps around to a zero byte.
* C94: nothing limits depth or the number of tables that are read (there is no verifier): 260 bytes can stand for a tree of two
  million tables. FlatBuffers' own verifier has limits for both.
* C104: all decimal numbers go through a double. `x:ulong = 9223372036854775808.0` has the default 9223372036854776000, `x:int = 0.99999999999999999999`
  the default 1, and a `float` is rounded twice.
* C102: `find_duplicate_stored_vtable_revloc` (builder.rs 512-525) compares the new vtable with the recorded ones one by one, so n tables of different
  shapes take n²/2 comparisons: a million small tables, some 70 MiB, take more than 5000 accesses per call and byte. (The
  C++ library does the same; a schema with k fields allows for 2^k shapes.)
* C103: nothing limits nesting (parser.rs 1275-1307, 1437-1461, 1533-1581), so a text of a few hundred kilobytes of `[` overflows the stack and aborts
  the build. flatc refuses more than 64 levels (`FLATBUFFERS_MAX_PARSING_DEPTH`).
* C114: accessors of scalars and enums without default return `None` for a field that is not stored (codegen.rs 607-708), but the
  arguments of `create` are plain values (373-391, 456-496), so a message with an unset enum or union tag has no copy. Required scalars
  with a default: see C35.
* C115: `Vector::iter` (vector.rs 76-81) takes the length with `unwrap_or(0)`. If a message is cut off in front of a vector, the accessor returns
  the vector and a loop over it ends at once, without an error (the comment there says that this is intended).
* C113: a resolved struct type holds the definitions of all structs in it, by value (types.rs 264-277), so `clone` recurses as deep as
  structs are inside each other; a long enough chain of structs, each in the next one, overflows the stack. A reference by
  name, as tables have, would need neither the copies (C100) nor the stack.
* C96: the comment on `create_vector_direct` (builder.rs 261-264) lists `bool` and structs as always safe; `SafeSliceAccess` has no
  implementation for `bool`, and there are no structs. A stale comment, no wrong behaviour.

Generated code

* C35: a required scalar or enum given its default value is not stored, and `create` then panics.
* C36: a missing required union is reported under the name `<name>_type`.
* C38: with the generator built in release mode, slots wrap past 32766 fields.
* C40: a variant without a value gets its position in the list, not the previous value plus one.
* C88: a scalar or enum field without default that is not stored reads as `None`; by FlatBuffers' rules it is 0.
* C89: with `enum E { A = 5, B }` the code writes 1 for `B`, which is no variant of `E` by FlatBuffers' rules (6 is).
* C42: `try` is not substituted; the accessor name is put in snake case, which drops the underscore of a
  substituted name.
* C43: `type` and `ty` both become `ty`; `for` and `for_` both become `for_`.
* C44: modules are named in snake case while paths are not; an item whose name is a prefix of the namespace gets the
  path `super`.
* C70: the path to a type in another namespace does not compile unless that namespace is spelled in snake case; the
  path from namespace `A.B` to a type `A.B` is empty (the generator panics on it).
* C71: tables `T` and `TArgs` (or `TBuilder`), enums `FooBar` and `foo_bar`, a type `butte_gen` beside a union, and
  namespaces `FooBar` and `foo_bar` are accepted, but give a program that defines a name twice.
* C72: tables are accepted for which the generated code does not compile: with struct fields, vectors of unions, field
  names equal in snake case or named `create`, defaults out of range, of the wrong type, or naming no variant, a field
  `None` (a pattern, not a variable), a number as default of a union (any other default of a union is ignored).
* C75: a table named `Option`, `Result`, `From`, `Default`, `u8` or `B`, or a namespace `butte` or `std` beside items outside
  any namespace, captures names that the generated code uses. (rustc still finds a primitive type when a *module* has its
  name; `Hygienic` is stricter there, the refutations do not rest on it.)
* C76: the generator panics on accepted schemas: with a struct; with a namespace or field whose name is empty or
  begins with a digit in snake case (`_1`); with a number as default of a string or an enum, a name as default of a number, a
  `float` default beyond `f32`; with a reference to a type called `try`; with an empty path (C70).
* C78: rustc refuses the code for accepted schemas: with an enum variant (or union member) called `Error` or `Inner`, which
  makes `Self::Error` ambiguous; with a variant called `default`, if a field of that enum has no default; with a union of enums
  only (its lifetime is not used); with an enum value out of range, also in an enum that no table uses; with a variant called
  `try`; with a namespace that is a keyword (`mod` becomes `mod_`, and then `mod` again in snake case).
* C79: tokens for a keyword where a name is needed are no Rust (the same schemas as in C78).
* C80: a union of enums only does not use its lifetime (the same schema as in C78).
* C81: `build_tokens` takes the RPC generator out of the `CodeGenerator` (codegen.rs 1107); a second call writes everything but
  the services.
* C82: `File::create` is called before the schema is read (compile.rs 71-76): a failing compile empties the output of the last
  one, and `butte a.fbs a.fbs` destroys the schema and reports success. The exit status of `rustfmt` is not looked at
  (compile.rs 52). `compile_fbs("a/x.fbs")` and `compile_fbs("b/x.fbs")` write the same file. The help text of `--ugly`
  (main.rs 26) says the opposite of what the option does.
* C86: the accessor of a union field carries no documentation (codegen.rs 688, 699 are in the other arms); that of its tag field does.
  The `add_*` methods of builders are private (codegen.rs 556), so outside of its module a builder can only make empty tables.
* C68: a union field named `type` does not compile: its accessor calls `ty_type`, the tag field is `type_type` (unless another field `ty_type` of the union's enum happens to be there, `OddTag` in C72).

Analysis

* C46-C48: a declaration that is retried moves to the last namespace of the file, references to it dangle, and it
  escapes the check for duplicates; names of services are not checked at all.
* C49: `union U {T} table T {u:U}` is rejected, in the other order it is accepted.
* C60: file_identifier, file_extension, attribute and object elements end in `unimplemented!`.
* C100: a type that is named is copied with all it contains (`find_custom_type` clones): with n structs `struct S2{a:S1;b:S1;}` each
  made of the one before, the result has 2^n nodes. Thirty such lines exhaust the memory of any machine.
* C101: the message about unresolved declarations (transform.rs 564) prints `HashMap`s with `{:?}`: for
  `table A { b: B (deprecated, required); }` it names the two attributes in an order that changes from run to run. The code that is
  generated does not depend on any order.

Parser

* C51, C55: a type name that begins with the name of a builtin (`boolean`, `integer`) is not read.
* C51: a variant default that begins with `true` or `false` is misread.
* C53: no white space is allowed before the metadata of an enum and inside list brackets; a lone carriage return in a
  comment is an error; a file of comments only is no schema.
* C54: `-0x80000000000000000000000000000000` is an `i128` but is not read.
* C56: a short or non-ASCII leftover makes `compile_fbs_generic` panic instead of returning an error; the error
  "parse failed" cannot occur.
* C57: `nan` and `inf` defaults are never accepted, and these words anywhere later in the file make fields with
  defaults unreadable.
* C62: hexadecimal floats are never accepted, as the `0x` is removed before `parse_hexf64`, which asks for it. A
  decimal literal too large for a double becomes infinity.
* `root_type` takes a plain identifier only.

## 4. What the log of wrong programs shows, and what it does not

Each line of `seeded/LOG.jsonl` is one edit of the model and a rebuild of the modules named in the run.

* `proofs_failed_first`: the declarations whose proofs failed in the modules that were reached (at most twelve are kept).
* `theorems_failed`: the property theorems among these, that is, those seen to fail themselves.
* `theorems_not_rebuilt`: property theorems (of the expected properties, in the later lines) in modules that import a
  broken module. They were not checked against the edited model. That a lemma below breaks shows that the proof
  depends on the edited place; it does not show that the statement is false of the edited model, and some of these
  theorems (a `_refuted` witness, for instance) may well still hold.
* `expected`: the properties that were judged, by reading, to be false after the edit.

In the first 554 lines both lists were first recorded together under `theorems_failed`, which overstated the result; they
were split later by comparing with `proofs_failed_first`. Of those 554 lines, in 121 a property theorem itself failed, in
419 only something below it did, and in 14 no property theorem was affected. As `proofs_failed_first` is cut at twelve,
the first number may be a little too small.

Lines with the key `counterexample` go further: in the edited model an instance of the property's claim was evaluated and
found false, on inputs for which it is true in the model as it is (`seeded/probes-runtime.txt`, `seeded/probes-compiler.txt`,
`seeded/probes-analysis.txt`, and for C113 to C121 `probes-stack.txt`, `probes-cut.txt`, `probes-size.txt`, `probes-names.txt`, `probes-bytes.txt`, `probes-slices.txt`, `probes-nested.txt`; 277 of the first 554 edits and most of the later ones were probed in this way).
171 of the 700 lines have it; in 106 a false instance belongs to an expected property, in the others to properties that were not thought of. For the remaining lines
it is open whether the property's statement is false of the edited model: the probes are few inputs, and 54 edits broke a
module that the probes import. For three runs (C105 to C107) the scratch copy was of an earlier commit.
