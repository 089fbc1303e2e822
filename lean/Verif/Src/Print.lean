import Verif.Src.Tree
/-
The tokens of a tree, and which trees can be read back from their tokens.
-/
namespace Butte.Src
open Rs (Lit)

/-- The tokens of a list, with commas in between. -/
def sepBy {α : Type} (f : α → Toks) (xs : List α) : Toks := sepCommas (xs.map f)

/-- `a::b::c` -/
def printPath : List Str → Toks
  | [] => []
  | [s] => [.ident s]
  | s :: t :: p => .ident s :: .punct .colon2 :: printPath (t :: p)

/-- A lifetime, if there is one. -/
def printLife : Option Str → Toks
  | some l => [.life l]
  | none => []

/-- A word, if it is there. -/
def printWord (w : Str) : Bool → Toks
  | true => [.ident w]
  | false => []

mutual
/-- The tokens of a type. -/
def Ty.print : Ty → Toks
  | .path p _ [] => printPath p
  | .path p colon (a :: as) => printPath p ++ ((if colon then [.punct .colon2] else []) ++ .punct .lt :: (a.print ++ printArgs as))
  | .ref l m t => .punct .amp :: (printLife l ++ (printWord c!"mut" m ++ t.print))
  | .slice t => .opn .bracket :: (t.print ++ [.cls .bracket])
/-- The tokens of a generic argument. -/
def GArg.print : GArg → Toks
  | .life l => [.life l]
  | .ty t => t.print
/-- Further generic arguments, and the `>`. -/
def printArgs : List GArg → Toks
  | [] => [.punct .gt]
  | a :: as => .punct .comma :: (a.print ++ printArgs as)
end

/-- `::<..>`, if there are arguments. -/
def printTurbofish : List GArg → Toks
  | [] => []
  | a :: as => .punct .colon2 :: .punct .lt :: (a.print ++ printArgs as)

/-- The tokens of a literal. -/
def printLit : Lit → Toks
  | .int i s => if i < 0 then [.punct .minus, .int i.natAbs s] else [.int i.natAbs s]
  | .float b s => if 2 ^ 63 ≤ b.val then [.punct .minus, .float (b - 2 ^ 63) s] else [.float b s]
  | .bool b => [.ident (if b then c!"true" else c!"false")]
  | .str s => [.str s]

/-- The tokens of a pattern. -/
def Pat.print : Pat → Toks
  | .wild => [.ident c!"_"]
  | .lit l => printLit l
  | .path p => printPath p
  | .qpath t v => .punct .lt :: (t.print ++ [.punct .gt, .punct .colon2, .ident v])
  | .rest p => printPath p ++ [.opn .paren, .punct .dot2, .cls .paren]
  | .tuple p q => printPath p ++ .opn .paren :: (q.print ++ [.cls .paren])
  | .or p q => p.print ++ .punct .or :: q.print

/-- `as Trait`, if it is there. -/
def printAs : Option Ty → Toks
  | some t => .ident c!"as" :: t.print
  | none => []

mutual
/-- The tokens of an expression. -/
def Expr.print : Expr → Toks
  | .lit l => printLit l
  | .path p as => printPath p ++ printTurbofish as
  | .qpath t tr n => .punct .lt :: (t.print ++ (printAs tr ++ [.punct .gt, .punct .colon2, .ident n]))
  | .call e as => e.print ++ .opn .paren :: printExprs as
  | .method e f gs as => e.print ++ .punct .dot :: .ident f :: (printTurbofish gs ++ .opn .paren :: printExprs as)
  | .field e f => e.print ++ [.punct .dot, .ident f]
  | .try e => e.print ++ [.punct .question]
  | .deref e => .punct .star :: e.print
  | .ret e => .ident c!"return" :: e.print
  | .match e as => .ident c!"match" :: (e.print ++ .opn .brace :: printArms as)
  | .struct p fs => printPath p ++ .opn .brace :: printInits fs
/-- The tokens of arguments, and the closing bracket. -/
def printExprs : List Expr → Toks
  | [] => [.cls .paren]
  | [e] => e.print ++ [.cls .paren]
  | e :: f :: es => e.print ++ .punct .comma :: printExprs (f :: es)
/-- The tokens of the arms of a `match`, and the closing bracket. -/
def printArms : List (Pat × Expr) → Toks
  | [] => [.cls .brace]
  | [a] => a.1.print ++ .punct .fatArrow :: (a.2.print ++ [.cls .brace])
  | a :: b :: as => a.1.print ++ .punct .fatArrow :: (a.2.print ++ .punct .comma :: printArms (b :: as))
/-- The tokens of the fields of a struct, and the closing bracket. -/
def printInits : List (Str × Option Expr) → Toks
  | [] => [.cls .brace]
  | [f] => .ident f.1 :: (printInit f.2 ++ [.cls .brace])
  | f :: g :: fs => .ident f.1 :: (printInit f.2 ++ .punct .comma :: printInits (g :: fs))
/-- The value of a field, if there is one. -/
def printInit : Option Expr → Toks
  | none => []
  | some e => .punct .colon :: e.print
end

/-- The tokens of a statement. -/
def Stmt.print : Stmt → Toks
  | .let m x e => .ident c!"let" :: (printWord c!"mut" m ++ .ident x :: .punct .eq :: (e.print ++ [.punct .semi]))
  | .expr e => e.print ++ [.punct .semi]
  | .ifLet p e b => .ident c!"if" :: .ident c!"let" :: (p.print ++ .punct .eq :: (e.print ++ .opn .brace ::
      (b.print ++ [.punct .semi, .cls .brace])))

/-- An expression, if there is one. -/
def printOpt : Option Expr → Toks
  | some e => e.print
  | none => []

/-- The tokens of a block, after its opening bracket. -/
def printBlock (ss : List Stmt) (v : Option Expr) : Toks := ss.flatMap Stmt.print ++ (printOpt v ++ [.cls .brace])

/-- The tokens in an attribute after its name. -/
def AttrArg.print : AttrArg → Toks
  | .none => []
  | .eq s => [.punct .eq, .str s]
  | .list ps => .opn .paren :: (sepBy printPath ps ++ [.cls .paren])

/-- The tokens of an attribute. -/
def Attr.print (a : Attr) : Toks :=
  .punct .hash :: .opn .bracket :: .ident a.name :: a.arg.print ++ [.cls .bracket]

/-- The tokens of attributes. -/
def printAttrs (as : List Attr) : Toks := as.flatMap Attr.print

/-- The tokens of a generic parameter. -/
def GParam.print : GParam → Toks
  | .life l none => [.life l]
  | .life l (some b) => [.life l, .punct .colon, .life b]
  | .ty n => [.ident n]

/-- The tokens of generic parameters. -/
def printGenerics : List GParam → Toks
  | [] => []
  | gs => .punct .lt :: (sepBy GParam.print gs ++ [.punct .gt])

/-- The tokens of a parameter. -/
def Param.print : Param → Toks
  | .self => [.ident c!"self"]
  | .refSelf m => .punct .amp :: (printWord c!"mut" m ++ [.ident c!"self"])
  | .named x t => .ident x :: .punct .colon :: t.print

/-- `-> T`, if it is there. -/
def printResult : Option Ty → Toks
  | some t => .punct .arrow :: t.print
  | none => []

/-- The tokens of a function. -/
def Fn.print (f : Fn) : Toks :=
  printAttrs f.attrs ++ (printWord c!"pub" f.pub ++ .ident c!"fn" :: .ident f.name :: (printGenerics f.generics ++
    .opn .paren :: (sepBy Param.print f.params ++ .cls .paren :: (printResult f.result ++ .opn .brace ::
      printBlock f.body f.value))))

/-- The tokens of a field. -/
def Field.print (f : Field) : Toks :=
  printAttrs f.attrs ++ (printWord c!"pub" f.pub ++ .ident f.name :: .punct .colon :: f.ty.print)

/-- The tokens of what a variant has. -/
def Payload.print : Payload → Toks
  | .none => []
  | .value l => .punct .eq :: printLit l
  | .tuple t => .opn .paren :: (t.print ++ [.cls .paren])

/-- The tokens of a variant. -/
def Variant.print (v : Variant) : Toks := printAttrs v.attrs ++ .ident v.name :: v.payload.print

/-- The tokens of an item of an `impl`. -/
def ImplItem.print : ImplItem → Toks
  | .const p n t l => printWord c!"pub" p ++ .ident c!"const" :: .ident n :: .punct .colon :: (t.print ++ .punct .eq ::
      (printLit l ++ [.punct .semi]))
  | .type n t => .ident c!"type" :: .ident n :: .punct .eq :: (t.print ++ [.punct .semi])
  | .fn f => f.print

/-- `Trait for`, if it is there. -/
def printFor : Option Ty → Toks
  | some t => t.print ++ [.ident c!"for"]
  | none => []

/-- The tokens of a `where` clause. -/
def printBounds : List (Str × Ty) → Toks
  | [] => []
  | bs => .ident c!"where" :: sepBy (fun b => .ident b.1 :: .punct .colon :: b.2.print) bs

mutual
/-- The tokens of an item. -/
def Item.print : Item → Toks
  | .struct as p n gs fs trailing => printAttrs as ++ (printWord c!"pub" p ++ .ident c!"struct" :: .ident n :: (printGenerics gs ++
      .opn .brace :: (sepBy Field.print fs ++ ((if trailing then [.punct .comma] else []) ++ [.cls .brace]))))
  | .enum as p n gs vs => printAttrs as ++ (printWord c!"pub" p ++ .ident c!"enum" :: .ident n :: (printGenerics gs ++
      .opn .brace :: (sepBy Variant.print vs ++ [.cls .brace])))
  | .impl gs tr s bs is => .ident c!"impl" :: (printGenerics gs ++ (printFor tr ++ (s.print ++ (printBounds bs ++
      .opn .brace :: (is.flatMap ImplItem.print ++ [.cls .brace])))))
  | .fn f => f.print
  | .mod p n is => printWord c!"pub" p ++ .ident c!"mod" :: .ident n :: .opn .brace :: (printItems is ++ [.cls .brace])
/-- The tokens of items. -/
def printItems : List Item → Toks
  | [] => []
  | i :: is => i.print ++ printItems is
end

/-! ### Trees that can be read back -/

/-- A path: not empty, its segments can be segments. -/
def pathWf (p : List Str) : Prop := p ≠ [] ∧ ∀ s ∈ p, segOk s = true

mutual
/-- A type that can be read back. -/
def Ty.Wf : Ty → Prop
  | .path p colon as => pathWf p ∧ (as = [] → colon = false) ∧ argsWf as
  | .ref _ _ t => t.Wf
  | .slice t => t.Wf
/-- A generic argument that can be read back. -/
def GArg.Wf : GArg → Prop
  | .life _ => True
  | .ty t => t.Wf
/-- Generic arguments that can be read back. -/
def argsWf : List GArg → Prop
  | [] => True
  | a :: as => a.Wf ∧ argsWf as
end

/-- A pattern that can be read back. -/
def Pat.Wf : Pat → Prop
  | .wild | .lit _ => True
  | .path p | .rest p => pathWf p
  | .qpath t v => t.Wf ∧ nameOk v = true
  | .tuple p q => pathWf p ∧ q.Wf
  | .or p q => (∀ a b, p ≠ .or a b) ∧ p.Wf ∧ q.Wf

/-- A negative number: `-` binds less than postfix operators do. -/
def negative : Lit → Prop
  | .int i _ => i < 0
  | .float b _ => 2 ^ 63 ≤ b.val
  | _ => False

/-- An expression that postfix operators can follow. -/
def Expr.Post : Expr → Prop
  | .deref _ | .ret _ => False
  | .lit l => ¬ negative l
  | _ => True

mutual
/-- An expression that can be read back; with `braces` false, also in front of an opening brace. -/
def Expr.Wf (braces : Bool) : Expr → Prop
  | .lit _ => True
  | .path p as => pathWf p ∧ argsWf as
  | .qpath t tr n => t.Wf ∧ (∀ x ∈ tr, x.Wf) ∧ nameOk n = true
  | .call e as => e.Wf braces ∧ e.Post ∧ (∀ a f, e ≠ .field a f) ∧ exprsWf as
  | .method e f gs as => e.Wf braces ∧ e.Post ∧ nameOk f = true ∧ argsWf gs ∧ exprsWf as
  | .field e f => e.Wf braces ∧ e.Post ∧ nameOk f = true
  | .try e => e.Wf braces ∧ e.Post
  | .deref e | .ret e => e.Wf braces
  | .match e as => e.Wf false ∧ armsWf as
  | .struct p fs => braces = true ∧ pathWf p ∧ initsWf fs
/-- Arguments that can be read back. -/
def exprsWf : List Expr → Prop
  | [] => True
  | e :: es => e.Wf true ∧ exprsWf es
/-- Arms that can be read back. -/
def armsWf : List (Pat × Expr) → Prop
  | [] => True
  | a :: as => a.1.Wf ∧ a.2.Wf true ∧ armsWf as
/-- Fields that can be read back. -/
def initsWf : List (Str × Option Expr) → Prop
  | [] => True
  | f :: fs => nameOk f.1 = true ∧ initWf f.2 ∧ initsWf fs
/-- A value that can be read back. -/
def initWf : Option Expr → Prop
  | none => True
  | some e => e.Wf true
end

/-- A statement that can be read back. -/
def Stmt.Wf : Stmt → Prop
  | .let _ x e => nameOk x = true ∧ e.Wf true
  | .expr e => e.Wf true
  | .ifLet p e b => p.Wf ∧ e.Wf false ∧ b.Wf true

/-- An attribute that can be read back. -/
def Attr.Wf (a : Attr) : Prop := nameOk a.name = true ∧ ∀ ps, a.arg = .list ps → ∀ p ∈ ps, pathWf p

/-- A generic parameter that can be read back. -/
def GParam.Wf : GParam → Prop
  | .life _ _ => True
  | .ty n => nameOk n = true

/-- A parameter that can be read back. -/
def Param.Wf : Param → Prop
  | .named x t => nameOk x = true ∧ t.Wf
  | _ => True

/-- A function that can be read back. -/
structure Fn.Wf (f : Fn) : Prop where
  attrs : ∀ a ∈ f.attrs, a.Wf
  name : nameOk f.name = true
  generics : ∀ g ∈ f.generics, g.Wf
  params : ∀ p ∈ f.params, p.Wf
  result : ∀ t ∈ f.result, t.Wf
  body : ∀ s ∈ f.body, s.Wf
  value : ∀ e ∈ f.value, e.Wf true

/-- A field that can be read back. -/
def Field.Wf (f : Field) : Prop := (∀ a ∈ f.attrs, a.Wf) ∧ nameOk f.name = true ∧ f.ty.Wf

/-- A variant that can be read back. -/
def Variant.Wf (v : Variant) : Prop := (∀ a ∈ v.attrs, a.Wf) ∧ nameOk v.name = true ∧ ∀ t, v.payload = .tuple t → t.Wf

/-- An item of an `impl` that can be read back. -/
def ImplItem.Wf : ImplItem → Prop
  | .const _ n t _ => nameOk n = true ∧ t.Wf
  | .type n t => nameOk n = true ∧ t.Wf
  | .fn f => f.Wf

mutual
/-- An item that can be read back. -/
def Item.Wf : Item → Prop
  | .struct as _ n gs fs trailing => (∀ a ∈ as, a.Wf) ∧ nameOk n = true ∧ (∀ g ∈ gs, g.Wf) ∧ (∀ f ∈ fs, f.Wf) ∧
      (fs = [] → trailing = false)
  | .enum as _ n gs vs => (∀ a ∈ as, a.Wf) ∧ nameOk n = true ∧ (∀ g ∈ gs, g.Wf) ∧ ∀ v ∈ vs, v.Wf
  | .impl gs tr s bs is => (∀ g ∈ gs, g.Wf) ∧ (∀ t ∈ tr, t.Wf) ∧ s.Wf ∧ (∀ b ∈ bs, nameOk b.1 = true ∧ b.2.Wf) ∧
      bs.length ≤ 1 ∧ ∀ i ∈ is, i.Wf
  | .fn f => f.Wf
  | .mod _ n is => nameOk n = true ∧ itemsWf is
/-- Items that can be read back. -/
def itemsWf : List Item → Prop
  | [] => True
  | i :: is => i.Wf ∧ itemsWf is
end

end Butte.Src
