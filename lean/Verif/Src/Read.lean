import Verif.Src.Tree
/-
Reading Rust source: a recursive descent reader for the part of Rust in `Src/Tree`, written after the Rust reference.
`none`: the tokens are not of that form.
-/
namespace Butte.Src.Read
open Rs (Lit)

/-- Takes one token off. -/
def tok (t : Tok) : Toks → Option Toks
  | u :: ts => if u = t then some ts else none
  | [] => none

/-- A name. -/
def name : Toks → Option (Str × Toks)
  | .ident s :: ts => if nameOk s then some (s, ts) else none
  | _ => none

/-- A lifetime, if there is one. -/
def optLife : Toks → Option Str × Toks
  | .life l :: ts => (some l, ts)
  | ts => (none, ts)

/-- A keyword, if it is there. -/
def optWord (w : Str) : Toks → Bool × Toks
  | .ident s :: ts => if s = w then (true, ts) else (false, .ident s :: ts)
  | ts => (false, ts)

/-- The segments of a path: `a::b::c`. -/
def path : Toks → Option (List Str × Toks)
  | .ident s :: .punct .colon2 :: .ident t :: ts => do
    if segOk s then
      let (p, ts) ← path (.ident t :: ts)
      some (s :: p, ts)
    else none
  | .ident s :: ts => if segOk s then some ([s], ts) else none
  | _ => none

/-! ### Types -/

mutual
/-- A type. -/
def ty : Toks → Option (Ty × Toks)
  | .punct .amp :: ts => do
    let l := optLife ts
    let m := optWord c!"mut" l.2
    let (t, ts) ← ty m.2
    some (.ref l.1 m.1 t, ts)
  | .opn .bracket :: ts => do
    let (t, ts) ← ty ts
    let ts ← tok (.cls .bracket) ts
    some (.slice t, ts)
  | ts => do
    let (p, ts) ← path ts
    match ts with
    | .punct .lt :: ts => do
      let (as, ts) ← gargs ts
      some (.path p false as, ts)
    | .punct .colon2 :: .punct .lt :: ts => do
      let (as, ts) ← gargs ts
      some (.path p true as, ts)
    | ts => some (.path p false [], ts)
partial_fixpoint
/-- Generic arguments, after the `<`. -/
def gargs : Toks → Option (List GArg × Toks)
  | .life l :: ts =>
    match ts with
    | .punct .comma :: ts => do
      let (as, ts) ← gargs ts
      some (.life l :: as, ts)
    | .punct .gt :: ts => some ([.life l], ts)
    | _ => none
  | ts => do
    let (t, ts) ← ty ts
    match ts with
    | .punct .comma :: ts => do
      let (as, ts) ← gargs ts
      some (.ty t :: as, ts)
    | .punct .gt :: ts => some ([.ty t], ts)
    | _ => none
partial_fixpoint
end

/-! ### Patterns -/

/-- A literal. -/
def literal : Toks → Option (Lit × Toks)
  | .int n s :: ts => some (.int n s, ts)
  | .float b s :: ts => some (.float b s, ts)
  | .str s :: ts => some (.str s, ts)
  | .ident s :: ts => if s = c!"true" then some (.bool true, ts) else if s = c!"false" then some (.bool false, ts) else none
  | .punct .minus :: .int n s :: ts => some (.int (-n) s, ts)
  | .punct .minus :: .float b s :: ts => some (.float (b + 2 ^ 63) s, ts)
  | _ => none

mutual
/-- A pattern. -/
def pat (ts : Toks) : Option (Pat × Toks) := do
  let (p, ts) ← pat1 ts
  match ts with
  | .punct .or :: ts => do
    let (q, ts) ← pat ts
    some (.or p q, ts)
  | ts => some (p, ts)
partial_fixpoint
/-- A pattern without `|`. -/
def pat1 (ts : Toks) : Option (Pat × Toks) :=
  match ts with
  | .ident ['_'] :: ts => some (.wild, ts)
  | .punct .lt :: ts => do
    let (t, ts) ← ty ts
    let ts ← tok (.punct .gt) ts
    let ts ← tok (.punct .colon2) ts
    let (v, ts) ← name ts
    some (.qpath t v, ts)
  | ts =>
    match literal ts with
    | some (l, ts) => some (.lit l, ts)
    | none => do
      let (p, ts) ← path ts
      match ts with
      | .opn .paren :: .punct .dot2 :: .cls .paren :: ts => some (.rest p, ts)
      | .opn .paren :: ts => do
        let (q, ts) ← pat ts
        let ts ← tok (.cls .paren) ts
        some (.tuple p q, ts)
      | ts => some (.path p, ts)
partial_fixpoint
end

/-! ### Expressions -/

/-- Generic arguments in an expression, `::<..>`, if there are any. -/
def turbofish : Toks → Option (List GArg × Toks)
  | .punct .colon2 :: .punct .lt :: ts => gargs ts
  | ts => some ([], ts)

/-- What stands before the postfix operators, other than `match` and structs. -/
def atom (ts : Toks) : Option (Expr × Toks) :=
  match ts with
  | .punct .lt :: ts => do
    let (t, ts) ← ty ts
    let as := optWord c!"as" ts
    let (tr, ts) ← if as.1 then do
        let (tr, ts) ← ty as.2
        some (some tr, ts)
      else some (none, ts)
    let ts ← tok (.punct .gt) ts
    let ts ← tok (.punct .colon2) ts
    let (n, ts) ← name ts
    some (.qpath t tr n, ts)
  | ts =>
    match literal ts with
    | some (l, ts) => some (.lit l, ts)
    | none => do
      let (p, ts) ← path ts
      let (as, ts) ← turbofish ts
      some (.path p as, ts)

mutual
/-- An expression. With `braces` false, no struct is read at its end (in Rust, `match x { .. }` has no struct `x { .. }`). -/
def expr (braces : Bool) (ts : Toks) : Option (Expr × Toks) :=
  match ts with
  | .punct .star :: ts => do
    let (e, ts) ← expr braces ts
    some (.deref e, ts)
  | .punct .minus :: ts => do
    let (l, ts) ← literal (.punct .minus :: ts)
    some (.lit l, ts)
  | .ident ['r', 'e', 't', 'u', 'r', 'n'] :: ts => do
    let (e, ts) ← expr braces ts
    some (.ret e, ts)
  | .ident ['m', 'a', 't', 'c', 'h'] :: ts => do
    let (e, ts) ← expr false ts
    let ts ← tok (.opn .brace) ts
    let (as, ts) ← arms ts
    postOps (.match e as) ts
  | ts => do
    let (e, ts) ← atom ts
    match e, ts with
    | .path p [], .opn .brace :: us =>
      if braces then do
        let (fs, us) ← inits us
        postOps (.struct p fs) us
      else some (e, ts)
    | _, _ => postOps e ts
partial_fixpoint
/-- Postfix operators: calls, methods, fields, `?`. -/
def postOps (e : Expr) (ts : Toks) : Option (Expr × Toks) :=
  match ts with
  | .punct .question :: ts => postOps (.try e) ts
  | .opn .paren :: ts => do
    let (as, ts) ← args ts
    postOps (.call e as) ts
  | .punct .dot :: ts => do
    let (f, ts) ← name ts
    let (gs, ts) ← turbofish ts
    match ts with
    | .opn .paren :: ts => do
      let (as, ts) ← args ts
      postOps (.method e f gs as) ts
    | ts => match gs with
      | [] => postOps (.field e f) ts
      | _ => none
  | ts => some (e, ts)
partial_fixpoint
/-- Arguments, after the opening bracket. -/
def args (ts : Toks) : Option (List Expr × Toks) :=
  match ts with
  | .cls .paren :: ts => some ([], ts)
  | ts => do
    let (e, ts) ← expr true ts
    match ts with
    | .punct .comma :: ts => do
      let (es, ts) ← args ts
      some (e :: es, ts)
    | ts => do
      let ts ← tok (.cls .paren) ts
      some ([e], ts)
partial_fixpoint
/-- The arms of a `match`, after the opening bracket. -/
def arms (ts : Toks) : Option (List (Pat × Expr) × Toks) :=
  match ts with
  | .cls .brace :: ts => some ([], ts)
  | ts => do
    let (p, ts) ← pat ts
    let ts ← tok (.punct .fatArrow) ts
    let (e, ts) ← expr true ts
    match ts with
    | .punct .comma :: ts => do
      let (as, ts) ← arms ts
      some ((p, e) :: as, ts)
    | ts => do
      let ts ← tok (.cls .brace) ts
      some ([(p, e)], ts)
partial_fixpoint
/-- The fields of a struct expression, after the opening bracket. -/
def inits (ts : Toks) : Option (List (Str × Option Expr) × Toks) :=
  match ts with
  | .cls .brace :: ts => some ([], ts)
  | ts => do
    let (f, ts) ← name ts
    let (v, ts) ← initVal ts
    match ts with
    | .punct .comma :: ts => do
      let (fs, ts) ← inits ts
      some ((f, v) :: fs, ts)
    | ts => do
      let ts ← tok (.cls .brace) ts
      some ([(f, v)], ts)
partial_fixpoint
/-- The value of a field, if there is one. -/
def initVal (ts : Toks) : Option (Option Expr × Toks) :=
  match ts with
  | .punct .colon :: ts => do
    let (e, ts) ← expr true ts
    some (some e, ts)
  | ts => some (none, ts)
partial_fixpoint
end

/-- The contents of a block, after the opening bracket. -/
def block (ts : Toks) : Option ((List Stmt × Option Expr) × Toks) :=
  match ts with
  | .cls .brace :: ts => some (([], none), ts)
  | .ident ['l', 'e', 't'] :: ts => do
    let m := optWord c!"mut" ts
    let (x, ts) ← name m.2
    let ts ← tok (.punct .eq) ts
    let (e, ts) ← expr true ts
    let ts ← tok (.punct .semi) ts
    let ((ss, v), ts) ← block ts
    some ((.let m.1 x e :: ss, v), ts)
  | .ident ['i', 'f'] :: ts => do
    let ts ← tok (.ident c!"let") ts
    let (p, ts) ← pat ts
    let ts ← tok (.punct .eq) ts
    let (e, ts) ← expr false ts
    let ts ← tok (.opn .brace) ts
    let (b, ts) ← expr true ts
    let ts ← tok (.punct .semi) ts
    let ts ← tok (.cls .brace) ts
    let ((ss, v), ts) ← block ts
    some ((.ifLet p e b :: ss, v), ts)
  | ts => do
    let (e, ts) ← expr true ts
    match ts with
    | .punct .semi :: ts => do
      let ((ss, v), ts) ← block ts
      some ((.expr e :: ss, v), ts)
    | ts => do
      let ts ← tok (.cls .brace) ts
      some (([], some e), ts)
partial_fixpoint

/-! ### Items -/

/-- The paths in the brackets of an attribute. -/
def pathList (ts : Toks) : Option (List (List Str) × Toks) :=
  match ts with
  | .cls .paren :: ts => some ([], ts)
  | ts => do
    let (p, ts) ← path ts
    match ts with
    | .punct .comma :: ts => do
      let (ps, ts) ← pathList ts
      some (p :: ps, ts)
    | ts => do
      let ts ← tok (.cls .paren) ts
      some ([p], ts)
partial_fixpoint

/-- What stands in an attribute after its name. -/
def attrArg (ts : Toks) : Option (AttrArg × Toks) :=
  match ts with
  | .punct .eq :: .str s :: ts => some (.eq s, ts)
  | .opn .paren :: ts => do
    let (ps, ts) ← pathList ts
    some (.list ps, ts)
  | ts => some (.none, ts)

/-- Attributes. -/
def attrs (ts : Toks) : Option (List Attr × Toks) :=
  match ts with
  | .punct .hash :: ts => do
    let ts ← tok (.opn .bracket) ts
    let (n, ts) ← name ts
    let (a, ts) ← attrArg ts
    let ts ← tok (.cls .bracket) ts
    let (as, ts) ← attrs ts
    some (⟨n, a⟩ :: as, ts)
  | ts => some ([], ts)
partial_fixpoint

/-- Generic parameters, after the `<`. -/
def gparams : Toks → Option (List GParam × Toks)
  | .punct .gt :: ts => some ([], ts)
  | .life l :: .punct .colon :: .life b :: .punct .comma :: ts => do
    let (gs, ts) ← gparams ts
    some (.life l (some b) :: gs, ts)
  | .life l :: .punct .colon :: .life b :: .punct .gt :: ts => some ([.life l (some b)], ts)
  | .life l :: .punct .comma :: ts => do
    let (gs, ts) ← gparams ts
    some (.life l none :: gs, ts)
  | .life l :: .punct .gt :: ts => some ([.life l none], ts)
  | .ident n :: .punct .comma :: ts => do
    if nameOk n then
      let (gs, ts) ← gparams ts
      some (.ty n :: gs, ts)
    else none
  | .ident n :: .punct .gt :: ts => if nameOk n then some ([.ty n], ts) else none
  | _ => none

/-- Generic parameters, if there are any. -/
def generics : Toks → Option (List GParam × Toks)
  | .punct .lt :: ts => gparams ts
  | ts => some ([], ts)

/-- One parameter of a function. -/
def param (ts : Toks) : Option (Param × Toks) :=
  match ts with
  | .ident ['s', 'e', 'l', 'f'] :: ts => some (.self, ts)
  | .punct .amp :: ts => do
    let m := optWord c!"mut" ts
    let ts ← tok (.ident c!"self") m.2
    some (.refSelf m.1, ts)
  | ts => do
    let (x, ts) ← name ts
    let ts ← tok (.punct .colon) ts
    let (t, ts) ← ty ts
    some (.named x t, ts)

/-- The parameters of a function, after the opening bracket. -/
def params (ts : Toks) : Option (List Param × Toks) :=
  match ts with
  | .cls .paren :: ts => some ([], ts)
  | ts => do
    let (p, ts) ← param ts
    match ts with
    | .punct .comma :: ts => do
      let (ps, ts) ← params ts
      some (p :: ps, ts)
    | ts => do
      let ts ← tok (.cls .paren) ts
      some ([p], ts)
partial_fixpoint

/-- The result of a function, if it is written. -/
def result (ts : Toks) : Option (Option Ty × Toks) :=
  match ts with
  | .punct .arrow :: ts => do
    let (t, ts) ← ty ts
    some (some t, ts)
  | ts => some (none, ts)

/-- A function, after the word `fn`. -/
def fn (as : List Attr) (pub : Bool) (ts : Toks) : Option (Fn × Toks) := do
  let (n, ts) ← name ts
  let (gs, ts) ← generics ts
  let ts ← tok (.opn .paren) ts
  let (ps, ts) ← params ts
  let (r, ts) ← result ts
  let ts ← tok (.opn .brace) ts
  let ((ss, v), ts) ← block ts
  some (⟨as, pub, n, gs, ps, r, ss, v⟩, ts)

/-- The fields of a struct, after the opening bracket; whether a comma follows the last one. -/
def fields (ts : Toks) : Option ((List Field × Bool) × Toks) := do
  let (as, ts) ← attrs ts
  let pb := optWord c!"pub" ts
  let (n, ts) ← name pb.2
  let ts ← tok (.punct .colon) ts
  let (t, ts) ← ty ts
  match ts with
  | .punct .comma :: .cls .brace :: ts => some (([⟨as, pb.1, n, t⟩], true), ts)
  | .punct .comma :: ts => do
    let ((fs, b), ts) ← fields ts
    some ((⟨as, pb.1, n, t⟩ :: fs, b), ts)
  | ts => do
    let ts ← tok (.cls .brace) ts
    some (([⟨as, pb.1, n, t⟩], false), ts)
partial_fixpoint

/-- What a variant has. -/
def payload (ts : Toks) : Option (Payload × Toks) :=
  match ts with
  | .punct .eq :: ts => do
    let (l, ts) ← literal ts
    some (.value l, ts)
  | .opn .paren :: ts => do
    let (t, ts) ← ty ts
    let ts ← tok (.cls .paren) ts
    some (.tuple t, ts)
  | ts => some (.none, ts)

/-- The variants of an enum, after the opening bracket. -/
def variants (ts : Toks) : Option (List Variant × Toks) :=
  match ts with
  | .cls .brace :: ts => some ([], ts)
  | ts => do
    let (as, ts) ← attrs ts
    let (n, ts) ← name ts
    let (p, ts) ← payload ts
    match ts with
    | .punct .comma :: ts => do
      let (vs, ts) ← variants ts
      some (⟨as, n, p⟩ :: vs, ts)
    | ts => do
      let ts ← tok (.cls .brace) ts
      some ([⟨as, n, p⟩], ts)
partial_fixpoint

/-- The items of an `impl`, after the opening bracket. -/
def implItems (ts : Toks) : Option (List ImplItem × Toks) :=
  match ts with
  | .cls .brace :: ts => some ([], ts)
  | ts => do
    let (as, ts) ← attrs ts
    let pb := optWord c!"pub" ts
    match pb.2 with
    | .ident ['f', 'n'] :: ts => do
      let (f, ts) ← fn as pb.1 ts
      let (is, ts) ← implItems ts
      some (.fn f :: is, ts)
    | .ident ['c', 'o', 'n', 's', 't'] :: ts => do
      if as = [] then
        let (n, ts) ← name ts
        let ts ← tok (.punct .colon) ts
        let (t, ts) ← ty ts
        let ts ← tok (.punct .eq) ts
        let (l, ts) ← literal ts
        let ts ← tok (.punct .semi) ts
        let (is, ts) ← implItems ts
        some (.const pb.1 n t l :: is, ts)
      else none
    | .ident ['t', 'y', 'p', 'e'] :: ts => do
      if as = [] ∧ pb.1 = false then
        let (n, ts) ← name ts
        let ts ← tok (.punct .eq) ts
        let (t, ts) ← ty ts
        let ts ← tok (.punct .semi) ts
        let (is, ts) ← implItems ts
        some (.type n t :: is, ts)
      else none
    | _ => none
partial_fixpoint

/-- A `where` clause, if there is one (here: one bound). -/
def bounds (ts : Toks) : Option (List (Str × Ty) × Toks) :=
  match ts with
  | .ident ['w', 'h', 'e', 'r', 'e'] :: ts => do
    let (n, ts) ← name ts
    let ts ← tok (.punct .colon) ts
    let (t, ts) ← ty ts
    some ([(n, t)], ts)
  | ts => some ([], ts)

/-- A struct, after the word `struct`. -/
def struct (as : List Attr) (pub : Bool) (ts : Toks) : Option (Item × Toks) := do
  let (n, ts) ← name ts
  let (gs, ts) ← generics ts
  let ts ← tok (.opn .brace) ts
  match ts with
  | .cls .brace :: ts => some (.struct as pub n gs [] false, ts)
  | ts => do
    let ((fs, b), ts) ← fields ts
    some (.struct as pub n gs fs b, ts)

/-- An enum, after the word `enum`. -/
def enum (as : List Attr) (pub : Bool) (ts : Toks) : Option (Item × Toks) := do
  let (n, ts) ← name ts
  let (gs, ts) ← generics ts
  let ts ← tok (.opn .brace) ts
  let (vs, ts) ← variants ts
  some (.enum as pub n gs vs, ts)

/-- What an `impl` is for: `T`, or `Trait for T`. -/
def implHead (ts : Toks) : Option ((Option Ty × Ty) × Toks) := do
  let (t, ts) ← ty ts
  let f := optWord c!"for" ts
  if f.1 then do
    let (s, ts) ← ty f.2
    some ((some t, s), ts)
  else some ((none, t), ts)

/-- An `impl`, after the word `impl`. -/
def impl (ts : Toks) : Option (Item × Toks) := do
  let (gs, ts) ← generics ts
  let ((tr, s), ts) ← implHead ts
  let (bs, ts) ← bounds ts
  let ts ← tok (.opn .brace) ts
  let (is, ts) ← implItems ts
  some (.impl gs tr s bs is, ts)

mutual
/-- Items, up to the end of the tokens or to a closing bracket. -/
def items (ts : Toks) : Option (List Item × Toks) :=
  match ts with
  | [] => some ([], [])
  | .cls .brace :: ts => some ([], .cls .brace :: ts)
  | ts => do
    let (as, ts) ← attrs ts
    let pb := optWord c!"pub" ts
    let (i, ts) ← item as pb.1 pb.2
    let (is, ts) ← items ts
    some (i :: is, ts)
partial_fixpoint
/-- An item, after its attributes and visibility. -/
def item (as : List Attr) (pub : Bool) (ts : Toks) : Option (Item × Toks) :=
  match ts with
  | .ident ['s', 't', 'r', 'u', 'c', 't'] :: ts => struct as pub ts
  | .ident ['e', 'n', 'u', 'm'] :: ts => enum as pub ts
  | .ident ['f', 'n'] :: ts => do
    let (f, ts) ← fn as pub ts
    some (.fn f, ts)
  | .ident ['i', 'm', 'p', 'l'] :: ts => if as = [] ∧ pub = false then impl ts else none
  | .ident ['m', 'o', 'd'] :: ts =>
    if as = [] then do
      let (n, ts) ← name ts
      let ts ← tok (.opn .brace) ts
      let (is, ts) ← items ts
      let ts ← tok (.cls .brace) ts
      some (.mod pub n is, ts)
    else none
  | _ => none
partial_fixpoint
end

/-- A whole file. -/
def readFile (ts : Toks) : Option (List Item) :=
  match items ts with
  | some (is, []) => some is
  | _ => none

end Butte.Src.Read
