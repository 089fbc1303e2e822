import Verif.Parse.Grammar
/-
What it means for a text to be a way of writing a schema: the grammar of schemas as a relation between syntax trees
and texts, with arbitrary white space and comments wherever butte's grammar allows them. It does not refer to the
parser.
-/
namespace Butte.Parse

open Ast

/-- Text within one line. -/
def OneLine (b : Str) : Prop := ∀ c ∈ b, c ≠ '\r' ∧ c ≠ '\n'

/-- The end of a line. -/
def Eol (nl : Str) : Prop := nl = ['\n'] ∨ nl = ['\r', '\n']

/-- White space and comments. -/
inductive Trivia : Str → Prop
  | nil : Trivia []
  | space {c : Char} {w : Str} : (c = ' ' ∨ c = '\t' ∨ c = '\r' ∨ c = '\n') → Trivia w → Trivia (c :: w)
  | comment {b nl w : Str} : OneLine b → b.head? ≠ some '/' → Eol nl → Trivia w →
      Trivia ('/' :: '/' :: (b ++ (nl ++ w)))

/-- Documentation: lines that begin with `///`, each possibly followed by white space and comments. -/
inductive DocText : Comment → Str → Prop
  | nil : DocText [] []
  | cons {l nl w t : Str} {d : Comment} : OneLine l → Eol nl → Trivia w → DocText d t →
      DocText (l :: d) ('/' :: '/' :: '/' :: (l ++ (nl ++ (w ++ t))))

/-- Items separated by a character, with white space and comments around it. -/
inductive SepText {α : Type} (c : Char) (R : α → Str → Prop) : List α → Str → Prop
  | one {a : α} {t : Str} : R a t → SepText c R [a] t
  | cons {a : α} {as : List α} {t w₁ w₂ ts : Str} : R a t → Trivia w₁ → Trivia w₂ → SepText c R as ts →
      SepText c R (a :: as) (t ++ (w₁ ++ c :: (w₂ ++ ts)))

/-- Items followed by white space and comments. -/
inductive ManyText {α : Type} (R : α → Str → Prop) : List α → Str → Prop
  | nil : ManyText R [] []
  | cons {a : α} {as : List α} {t w ts : Str} : R a t → Trivia w → ManyText R as ts →
      ManyText R (a :: as) (t ++ (w ++ ts))

/-- The spelling of a builtin type. -/
def builtinName : Builtin → Str
  | .bool => c!"bool" | .byte => c!"byte" | .ubyte => c!"ubyte" | .short => c!"short" | .ushort => c!"ushort"
  | .int => c!"int" | .uint => c!"uint" | .float => c!"float" | .long => c!"long" | .ulong => c!"ulong"
  | .double => c!"double" | .int8 => c!"int8" | .uint8 => c!"uint8" | .int16 => c!"int16" | .uint16 => c!"uint16"
  | .int32 => c!"int32" | .uint32 => c!"uint32" | .int64 => c!"int64" | .uint64 => c!"uint64"
  | .float32 => c!"float32" | .float64 => c!"float64"

/-- The name does not begin with the name of a builtin type. -/
def Plain (i : Ident) : Prop := (∀ b, ¬ builtinName b <+: i) ∧ ¬ c!"string" <+: i

/-- The text between the quotes of a string: quotes and backslashes are escaped by a backslash. -/
inductive RawText : Str → Prop
  | nil : RawText []
  | plain {c : Char} {s : Str} : c ≠ '\\' → c ≠ '"' → RawText s → RawText (c :: s)
  | escape {c : Char} {s : Str} : c = '\\' ∨ c = '"' → RawText s → RawText ('\\' :: c :: s)

/-- A string. -/
def StringText (s t : Str) : Prop := RawText s ∧ t = '"' :: (s ++ ['"'])

/-- Decimal digits. -/
def Digits (ds : Str) : Prop := ∀ c ∈ ds, c.isDigit = true

/-- Hexadecimal digits. -/
def HexDigits (ds : Str) : Prop := ∀ c ∈ ds, isHexDigit c = true

/-- An optional sign. -/
inductive Sign : Bool → Str → Prop
  | none : Sign false []
  | plus : Sign false ['+']
  | minus : Sign true ['-']

/-- A number with its sign. -/
def signed (neg : Bool) (n : Nat) : Int := if neg then -(n : Int) else n

/-- An integer. Hexadecimal digits must be below `2 ^ 127` whatever the sign. -/
inductive IntText : Int → Str → Prop
  | dec {neg : Bool} {sg ds : Str} : Sign neg sg → Digits ds → ds ≠ [] →
      -(2 ^ 127) ≤ signed neg (digitsVal 10 ds) → signed neg (digitsVal 10 ds) < 2 ^ 127 →
      IntText (signed neg (digitsVal 10 ds)) (sg ++ ds)
  | hex {neg : Bool} {sg ds : Str} {x : Char} : Sign neg sg → (x = 'x' ∨ x = 'X') → HexDigits ds → ds ≠ [] →
      digitsVal 16 ds < 2 ^ 127 →
      IntText (signed neg (digitsVal 16 ds)) (sg ++ '0' :: x :: ds)

/-- The exponent of a decimal fraction: the number and its text. -/
inductive ExpText : Int → Str → Prop
  | mk {neg : Bool} {sg ds : Str} {e : Char} : Sign neg sg → (e = 'e' ∨ e = 'E') → Digits ds → ds ≠ [] →
      ExpText (signed neg (digitsVal 10 ds)) (e :: (sg ++ ds))

/-- A decimal fraction: digits with a period, an exponent or both. The value is the nearest double. -/
inductive FloatText : Fin (2 ^ 64) → Str → Prop
  | point {neg : Bool} {sg ip fp : Str} : Sign neg sg → Digits ip → Digits fp → (ip ≠ [] ∨ fp ≠ []) →
      FloatText (decF64 neg (digitsVal 10 (ip ++ fp)) (-fp.length)) (sg ++ (ip ++ '.' :: fp))
  | pointExp {neg : Bool} {sg ip fp et : Str} {e : Int} : Sign neg sg → Digits ip → Digits fp →
      (ip ≠ [] ∨ fp ≠ []) → ExpText e et →
      FloatText (decF64 neg (digitsVal 10 (ip ++ fp)) (e - fp.length)) (sg ++ (ip ++ '.' :: (fp ++ et)))
  | exp {neg : Bool} {sg ip et : Str} {e : Int} : Sign neg sg → Digits ip → ip ≠ [] → ExpText e et →
      FloatText (decF64 neg (digitsVal 10 ip) e) (sg ++ (ip ++ et))

/-- A number or truth value. -/
inductive ScalarText : Scalar → Str → Prop
  | integer {i : Int} {t : Str} : IntText i t → ScalarText (.integer i) t
  | float {b : Fin (2 ^ 64)} {t : Str} : FloatText b t → ScalarText (.float b) t
  | true : ScalarText (.boolean .true) c!"true"
  | false : ScalarText (.boolean .false) c!"false"

/-- A scalar or a string. -/
inductive SingleText : Single → Str → Prop
  | scalar {s : Scalar} {t : Str} : ScalarText s t → SingleText (.scalar s) t
  | string {s t : Str} : StringText s t → SingleText (.string s) t

variable [Env]

/-- An identifier: letters, digits and underscores, not beginning with a digit. -/
def IsIdent : Ident → Prop
  | [] => False
  | c :: cs => (Env.alphabetic c = true ∨ c = '_') ∧
      ∀ d ∈ cs, Env.alphabetic d = true ∨ Env.numeric d = true ∨ d = '_'

/-- An identifier is written as it is. -/
def IdentText (i : Ident) (t : Str) : Prop := IsIdent i ∧ t = i

/-- A dotted identifier. -/
def QIdentText (q : QIdent) (t : Str) : Prop := SepText '.' IdentText q t

/-- A type. A type name must not begin with the name of a builtin type (see C55). -/
inductive TyText : Ty → Str → Prop
  | builtin (b : Builtin) : TyText (.builtin b) (builtinName b)
  | string : TyText .string c!"string"
  | array {ty : Ty} {t : Str} : TyText ty t → TyText (.array ty) ('[' :: (t ++ [']']))
  | ident {i : Ident} {q : QIdent} {t : Str} : Plain i → QIdentText (i :: q) t → TyText (.ident (i :: q)) t

/-- A default. `true` and `false` are no variant names. -/
inductive DefaultText : DefaultValue → Str → Prop
  | scalar {s : Scalar} {t : Str} : ScalarText s t → DefaultText (.scalar s) t
  | ident {i : Ident} : IsIdent i → i ≠ c!"true" → i ≠ c!"false" → DefaultText (.ident i) i

/-- An optional default with its equals sign. -/
inductive OptDefault : Option DefaultValue → Str → Prop
  | none : OptDefault none []
  | some {v : DefaultValue} {w₁ w₂ t : Str} : Trivia w₁ → Trivia w₂ → DefaultText v t →
      OptDefault (some v) (w₁ ++ '=' :: (w₂ ++ t))

/-- One item of metadata. -/
inductive MetaItem : Ident × Option Single → Str → Prop
  | flag {k : Ident} : IsIdent k → MetaItem (k, none) k
  | value {k : Ident} {v : Single} {w₁ w₂ t : Str} : IsIdent k → Trivia w₁ → Trivia w₂ → SingleText v t →
      MetaItem (k, some v) (k ++ (w₁ ++ ':' :: (w₂ ++ t)))

/-- Optional metadata in parentheses. -/
inductive MetaText : Option Metadata → Str → Prop
  | none : MetaText none []
  | empty {w : Str} : Trivia w → MetaText (some []) ('(' :: (w ++ [')']))
  | some {m : Metadata} {w₁ w₂ t : Str} : Trivia w₁ → SepText ',' MetaItem m t → Trivia w₂ →
      MetaText (some m) ('(' :: (w₁ ++ (t ++ (w₂ ++ [')']))))

/-- A field. -/
inductive FieldText : Field → Str → Prop
  | mk {f : Field} {d w₁ w₂ ty df w₃ m w₄ : Str} :
      DocText f.doc d → IsIdent f.id → Trivia w₁ → Trivia w₂ → TyText f.ty ty → OptDefault f.default df →
      Trivia w₃ → MetaText f.metadata m → Trivia w₄ →
      FieldText f (d ++ (f.id ++ (w₁ ++ ':' :: (w₂ ++ (ty ++ (df ++ (w₃ ++ (m ++ (w₄ ++ [';'])))))))))

/-- A table or struct. -/
inductive ProductText (kw : Str) : Product → Str → Prop
  | mk {p : Product} {d w₁ w₂ m w₃ w₄ fs : Str} :
      DocText p.doc d → Trivia w₁ → w₁ ≠ [] → IsIdent p.id → Trivia w₂ → MetaText p.metadata m → Trivia w₃ →
      Trivia w₄ → ManyText FieldText p.fields fs →
      ProductText kw p (d ++ (kw ++ (w₁ ++ (p.id ++ (w₂ ++ (m ++ (w₃ ++ '{' :: (w₄ ++ (fs ++ ['}'])))))))))

/-- An optional value of a variant with its equals sign. -/
inductive OptInt : Option Int → Str → Prop
  | none : OptInt none []
  | some {i : Int} {w₁ w₂ t : Str} : Trivia w₁ → Trivia w₂ → IntText i t →
      OptInt (some i) (w₁ ++ '=' :: (w₂ ++ t))

/-- A variant of an enum or union. -/
inductive VariantText : EnumVariant → Str → Prop
  | mk {v : EnumVariant} {d t : Str} : DocText v.doc d → IsIdent v.id → OptInt v.value t →
      VariantText v (d ++ (v.id ++ t))

/-- The variants in braces, possibly with a comma after the last one. -/
inductive BodyText : List EnumVariant → Str → Prop
  | plain {vs : List EnumVariant} {w₁ w₂ t w₃ : Str} : Trivia w₁ → Trivia w₂ → SepText ',' VariantText vs t →
      Trivia w₃ → BodyText vs (w₁ ++ '{' :: (w₂ ++ (t ++ (w₃ ++ ['}']))))
  | comma {vs : List EnumVariant} {w₁ w₂ t w₃ w₄ : Str} : Trivia w₁ → Trivia w₂ → SepText ',' VariantText vs t →
      Trivia w₃ → Trivia w₄ → BodyText vs (w₁ ++ '{' :: (w₂ ++ (t ++ (w₃ ++ ',' :: (w₄ ++ ['}'])))))

/-- An enum. There is no white space between the type and the metadata (see C53). -/
inductive EnumText : Enum → Str → Prop
  | mk {e : Enum} {d w₁ w₂ w₃ ty m b : Str} :
      DocText e.doc d → Trivia w₁ → w₁ ≠ [] → IsIdent e.id → Trivia w₂ → Trivia w₃ → TyText e.baseType ty →
      MetaText e.metadata m → BodyText e.variants b →
      EnumText e (d ++ (c!"enum" ++ (w₁ ++ (e.id ++ (w₂ ++ ':' :: (w₃ ++ (ty ++ (m ++ b))))))))

/-- A union. -/
inductive UnionText : Union → Str → Prop
  | mk {u : Union} {d w₁ w₂ m b : Str} :
      DocText u.doc d → Trivia w₁ → w₁ ≠ [] → IsIdent u.id → Trivia w₂ → MetaText u.metadata m →
      BodyText u.variants b →
      UnionText u (d ++ (c!"union" ++ (w₁ ++ (u.id ++ (w₂ ++ (m ++ b))))))

/-- A method of a service. -/
inductive MethodText : RpcMethod → Str → Prop
  | mk {r : RpcMethod} {d w₁ w₂ q₁ w₃ w₄ w₅ q₂ w₆ m w₇ : Str} :
      DocText r.doc d → IsIdent r.id → Trivia w₁ → Trivia w₂ → QIdentText r.requestType q₁ → Trivia w₃ →
      Trivia w₄ → Trivia w₅ → QIdentText r.responseType q₂ → Trivia w₆ → MetaText r.metadata m → Trivia w₇ →
      MethodText r (d ++ (r.id ++ (w₁ ++ '(' :: (w₂ ++ (q₁ ++ (w₃ ++ ')' :: (w₄ ++ ':' :: (w₅ ++ (q₂ ++
        (w₆ ++ (m ++ (w₇ ++ [';']))))))))))))

/-- A service. -/
inductive RpcText : Rpc → Str → Prop
  | mk {r : Rpc} {d w₁ w₂ w₃ ms : Str} :
      DocText r.doc d → Trivia w₁ → w₁ ≠ [] → IsIdent r.id → Trivia w₂ → Trivia w₃ → r.methods ≠ [] →
      ManyText MethodText r.methods ms →
      RpcText r (d ++ (c!"rpc_service" ++ (w₁ ++ (r.id ++ (w₂ ++ '{' :: (w₃ ++ (ms ++ ['}'])))))))

/-- `keyword thing ;` where the first gap may have to be nonempty. -/
inductive KeywordText (kw : Str) (gap : Bool) (d : Comment) (t : Str) : Str → Prop
  | mk {dt w₁ w₂ : Str} : DocText d dt → Trivia w₁ → (gap = true → w₁ ≠ []) → Trivia w₂ →
      KeywordText kw gap d t (dt ++ (kw ++ (w₁ ++ (t ++ (w₂ ++ [';'])))))

mutual

/-- A value as in JSON. -/
inductive ValueText : Value → Str → Prop
  | single {v : Single} {t : Str} : SingleText v t → ValueText (.single v) t
  | object {l : List (Ident × Value)} {d : Comment} {t : Str} : ObjectText l d t → ValueText (.object l d) t
  | emptyList {w : Str} : Trivia w → ValueText (.list []) ('[' :: (w ++ [']']))
  | list {l : List Value} {w₁ w₂ t : Str} : Trivia w₁ → ValuesText l t → Trivia w₂ →
      ValueText (.list l) ('[' :: (w₁ ++ (t ++ (w₂ ++ [']']))))

/-- An object: documentation, then named values in braces. -/
inductive ObjectText : List (Ident × Value) → Comment → Str → Prop
  | empty {d : Comment} {dt w : Str} : DocText d dt → Trivia w → ObjectText [] d (dt ++ '{' :: (w ++ ['}']))
  | some {l : List (Ident × Value)} {d : Comment} {dt w₁ w₂ t : Str} : DocText d dt → Trivia w₁ → PairsText l t →
      Trivia w₂ → ObjectText l d (dt ++ '{' :: (w₁ ++ (t ++ (w₂ ++ ['}']))))

/-- Values separated by commas. -/
inductive ValuesText : List Value → Str → Prop
  | one {v : Value} {t : Str} : ValueText v t → ValuesText [v] t
  | cons {v : Value} {vs : List Value} {t w₁ w₂ ts : Str} : ValueText v t → Trivia w₁ → Trivia w₂ →
      ValuesText vs ts → ValuesText (v :: vs) (t ++ (w₁ ++ ',' :: (w₂ ++ ts)))

/-- Named values separated by commas. -/
inductive PairsText : List (Ident × Value) → Str → Prop
  | one {k : Ident} {v : Value} {w₁ w₂ t : Str} : IsIdent k → Trivia w₁ → Trivia w₂ → ValueText v t →
      PairsText [(k, v)] (k ++ (w₁ ++ ':' :: (w₂ ++ t)))
  | cons {k : Ident} {v : Value} {vs : List (Ident × Value)} {v₁ v₂ t w₁ w₂ ts : Str} : IsIdent k → Trivia v₁ →
      Trivia v₂ → ValueText v t → Trivia w₁ → Trivia w₂ → PairsText vs ts →
      PairsText ((k, v) :: vs) ((k ++ (v₁ ++ ':' :: (v₂ ++ t))) ++ (w₁ ++ ',' :: (w₂ ++ ts)))

end

/-- A declaration. Attributes and root types have no documentation in the tree. -/
inductive ElementText : Element → Str → Prop
  | «namespace» {q : QIdent} {d : Comment} {s t : Str} :
      QIdentText q s → KeywordText c!"namespace" true d s t → ElementText (.namespace q d) t
  | table {p : Product} {t : Str} : ProductText c!"table" p t → ElementText (.table p) t
  | struct {p : Product} {t : Str} : ProductText c!"struct" p t → ElementText (.struct p) t
  | enum {e : Enum} {t : Str} : EnumText e t → ElementText (.enum e) t
  | union {u : Union} {t : Str} : UnionText u t → ElementText (.union u) t
  | root {i : Ident} {d : Comment} {t : Str} :
      IsIdent i → KeywordText c!"root_type" true d i t → ElementText (.root i []) t
  | fileExtension {e : Str} {d : Comment} {s t : Str} :
      StringText e s → KeywordText c!"file_extension" false d s t → ElementText (.fileExtension e d) t
  | fileIdentifier {c₁ c₂ c₃ c₄ : Char} {d : Comment} {t : Str} :
      (∀ c ∈ [c₁, c₂, c₃, c₄], c.toNat < 128) →
      KeywordText c!"file_identifier" false d ['"', c₁, c₂, c₃, c₄, '"'] t →
      ElementText (.fileIdentifier ([c₁, c₂, c₃, c₄].map fun c => UInt8.ofNat c.toNat) d) t
  | «attribute» {i : Ident} {d : Comment} {s t : Str} :
      (IdentText i s ∨ StringText i s) → KeywordText c!"attribute" true d s t → ElementText (.attribute i) t
  | rpc {r : Rpc} {t : Str} : RpcText r t → ElementText (.rpc r) t
  | object {l : List (Ident × Value)} {d : Comment} {t : Str} : ObjectText l d t → ElementText (.object l d) t

/-- An include. -/
inductive IncludeText : Include → Str → Prop
  | mk {i : Include} {s t : Str} : StringText i.path s → Env.fileStem i.path = some i.stem →
      KeywordText c!"include" true i.doc s t → IncludeText i t

/-- A comment at the very end, without end of line. -/
inductive LastComment : Str → Prop
  | none : LastComment []
  | some {b : Str} : OneLine b → b.head? ≠ some '/' → LastComment ('/' :: '/' :: b)

/-- A schema. Without any declaration, nothing at all may be written. -/
inductive SchemaText : Schema → Str → Prop
  | empty : SchemaText ⟨[], []⟩ []
  | mk {s : Schema} {w is es e : Str} : (s.includes ≠ [] ∨ s.elements ≠ []) → Trivia w →
      ManyText IncludeText s.includes is → ManyText ElementText s.elements es → LastComment e →
      SchemaText s (w ++ (is ++ (es ++ e)))

/-- The text does not contain the words `nan`, `inf` and `infinity` (see C57). -/
def NoSpecial (t : Str) : Prop :=
  ∀ w ∈ [c!"nan", c!"inf", c!"infinity"], ∀ a b : Str, t = a ++ (w ++ b) →
    (∃ c, a.getLast? = some c ∧ Env.word c = true) ∨ (∃ c, b.head? = some c ∧ Env.word c = true)

/-- A variant used as default does not begin with `true` or `false`. (If it does, it is only read when the word does
not occur in the rest of the file.) -/
def NamesDefault : Option DefaultValue → Prop
  | some (.ident i) => ¬ c!"true" <+: i ∧ ¬ c!"false" <+: i
  | _ => True

/-- The variants used as defaults in a declaration do not begin with `true` or `false`. -/
def NamesElement : Element → Prop
  | .table p | .struct p => ∀ f ∈ p.fields, NamesDefault f.default
  | _ => True

/-- The variants used as defaults in a schema do not begin with `true` or `false`. -/
def NamesSchema (s : Schema) : Prop := ∀ e ∈ s.elements, NamesElement e

end Butte.Parse
