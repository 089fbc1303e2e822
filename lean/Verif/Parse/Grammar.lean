import Verif.Parse.Nom
import Verif.Ir.Ast
import Verif.Gen.Float
/-
The grammar rules of butte-build/src/ast/parser.rs, one definition per rule.

What the rules take from outside /repo is collected in `Env`: the Unicode tables behind `char::is_alphabetic`,
`char::is_numeric` and the regex class `\w` (known here on ASCII only), `hexf_parse::parse_hexf64` and
`Path::file_stem`. Every theorem holds for any such environment.
-/
namespace Butte.Parse

open Ast

/-- The parts of the standard library and of other crates that the grammar depends on. -/
class Env where
  /-- `char::is_alphabetic` -/
  alphabetic : Char → Bool
  /-- `char::is_numeric` -/
  numeric : Char → Bool
  /-- the regex class `\w` -/
  word : Char → Bool
  /-- `hexf_parse::parse_hexf64(_, false)` -/
  hexf64 : Str → Option (Fin (2 ^ 64))
  /-- `Path::new(_).file_stem()`, as text -/
  fileStem : Str → Option Str
  alphabetic_ascii : ∀ c : Char, c.toNat < 128 → alphabetic c = c.isAlpha
  numeric_ascii : ∀ c : Char, c.toNat < 128 → numeric c = c.isDigit
  word_ascii : ∀ c : Char, c.toNat < 128 → word c = (c.isAlphanum || c == '_')

variable [Env]

/-- parser.rs 40-42 `plus_or_minus`. -/
def plusOrMinus : P Char := oneOf c!"-+"

/-- The first character of an identifier (parser.rs 119). -/
def identStart (c : Char) : Bool := Env.alphabetic c || c == '_'

/-- The other characters of an identifier (parser.rs 120). `is_alphanumeric` is `is_alphabetic || is_numeric`. -/
def identRest (c : Char) : Bool := Env.alphabetic c || Env.numeric c || c == '_'

/-- parser.rs 116-124 `ident`. `take_while_m_n(1, 1, f)` takes one character. -/
def ident : P Ident := recognize (preceded (satisfy identStart) (takeWhile identRest))

/-- parser.rs 168-181 `string_constant`. The text between the quotes is kept as written. -/
def stringConstant : P Str :=
  map
    (delimited (char '"')
      (opt (escaped (fun c => !(c!"\\\"").contains c) '\\' (fun c => c == '\\' || c == '"')))
      (char '"'))
    (fun o => o.getD [])

/-- parser.rs 241-244 `comment`. -/
def comment : P Unit :=
  value () (pair (tag c!"//") (pair (pnot (tag c!"/")) notLineEnding))

/-- parser.rs 246-248 `comment_or_space`. -/
def commentOrSpace : P Unit := alt comment (value () multispace1)

/-- parser.rs 250-252 `comment_or_space0`. -/
def cos0 : P Unit := value () (many0 commentOrSpace)

/-- parser.rs 254-256 `comment_or_space1`. -/
def cos1 : P Unit := value () (many1 commentOrSpace)

/-- parser.rs 2518-2520 `raw_doc_comment`. -/
def rawDocComment : P Str := preceded (tag c!"///") notLineEnding

/-- parser.rs 2523-2528 `doc_comment_lines` and 2531-2533 `doc_comment`. -/
def docComment : P Comment :=
  many0 (terminated (terminated rawDocComment lineEnding) cos0)

/-- parser.rs 511-519 `qualified_ident`. -/
def qualifiedIdent : P QIdent := sepList1 (delimited cos0 (tag c!".") cos0) ident

/-! ### Constants -/

/-- The value of a digit (`char::to_digit`). -/
def digitVal (c : Char) : Nat :=
  if c.isDigit then c.toNat - 48
  else if decide ('a' ≤ c) && decide (c ≤ 'f') then c.toNat - 87
  else c.toNat - 55

/-- The number written by a list of digits. -/
def digitsVal (base : Nat) (ds : Str) : Nat := ds.foldl (fun n c => n * base + digitVal c) 0

/-- `i128` holds the number. -/
def inI128 (i : Int) : Bool := decide (-(2 ^ 127) ≤ i) && decide (i < 2 ^ 127)

/-- `i128::from_str` on an optional sign and decimal digits. -/
def i128FromStr : Str → Option Int
  | '-' :: ds => if inI128 (-(digitsVal 10 ds : Int)) then some (-(digitsVal 10 ds : Int)) else none
  | '+' :: ds => if inI128 (digitsVal 10 ds) then some (digitsVal 10 ds) else none
  | ds => if inI128 (digitsVal 10 ds) then some (digitsVal 10 ds) else none

/-- parser.rs 1874-1879 `dec_integer_constant`. -/
def decIntegerConstant : P Int := mapRes (recognize (preceded (opt plusOrMinus) digit1)) i128FromStr

/-- parser.rs 1927-1944 `hex_integer_constant`. The digits are read by `i128::from_str_radix`, then `checked_neg`. -/
def hexIntegerConstant : P Int :=
  mapRes
    (pair (opt plusOrMinus) (preceded (char '0') (preceded (oneOf c!"xX") hexDigit1)))
    (fun x =>
      if inI128 (digitsVal 16 x.2) then
        if x.1 = some '-' then
          if inI128 (-(digitsVal 16 x.2 : Int)) then some (-(digitsVal 16 x.2 : Int)) else none
        else some (digitsVal 16 x.2)
      else none)

/-- parser.rs 2318-2320 `integer_constant`. -/
def integerConstant : P Int := alt hexIntegerConstant decIntegerConstant

/-- The text is `w` followed by the end or by a character outside `\w`. -/
def wordAt (w i : Str) : Bool :=
  w.isPrefixOf i && (match i.drop w.length with
    | [] => true
    | c :: _ => !Env.word c)

/-- Search for `\bw\b` where `before` says whether the character in front of the text is in `\w`. `w` itself begins
and ends with characters of `\w`. -/
def hasWordFrom (w : Str) : Bool → Str → Bool
  | _, [] => false
  | before, c :: cs => (!before && wordAt w (c :: cs)) || hasWordFrom w (Env.word c) cs

/-- `Regex::new(r"\bw\b").is_match(_)`: somewhere in the text. -/
def hasWord (w : Str) (i : Str) : Bool := hasWordFrom w false i

/-- `nom::re_match!`: succeeds when the expression matches somewhere in the input, and consumes the whole input. -/
def reMatch (f : Str → Bool) : P Str := fun i => if f i then some ([], i) else none

/-- Bit patterns of the special floats. -/
def nanBits (neg : Bool) : Fin (2 ^ 64) := if neg then 0xfff8000000000000 else 0x7ff8000000000000
def infBits (neg : Bool) : Fin (2 ^ 64) := if neg then 0xfff0000000000000 else 0x7ff0000000000000

/-- parser.rs 2180-2193 `nan`. -/
def nan : P (Fin (2 ^ 64)) :=
  map (terminated (opt plusOrMinus) (reMatch (hasWord c!"nan"))) (fun s => nanBits (s == some '-'))

/-- parser.rs 2228-2241 `inf_or_infinity`. -/
def infOrInfinity : P (Fin (2 ^ 64)) :=
  map (terminated (opt plusOrMinus) (reMatch (fun i => hasWord c!"inf" i || hasWord c!"infinity" i)))
    (fun s => infBits (s == some '-'))

/-- parser.rs 2270-2272 `special_float_constant`. -/
def specialFloatConstant : P (Fin (2 ^ 64)) := alt nan infOrInfinity

/-- parser.rs 2141-2146 `hex_float_exponent`. -/
def hexFloatExponent : P Str :=
  recognize (terminated (oneOf c!"pP") (terminated (opt plusOrMinus) digit1))

/-- `-x` of an `f64`. -/
def negF64 (b : Fin (2 ^ 64)) : Fin (2 ^ 64) := b + 0x8000000000000000

/-- parser.rs 2148-2177 `hex_float_constant`. -/
def hexFloatConstant : P (Fin (2 ^ 64)) :=
  map
    (pair
      (terminated (opt plusOrMinus) (terminated (char '0') (oneOf c!"xX")))
      (mapRes
        (recognize
          (alt
            (terminated
              (alt
                (terminated (terminated hexDigit1 (char '.')) hexDigit0)
                (preceded (char '.') hexDigit1))
              (opt hexFloatExponent))
            (terminated hexDigit1 hexFloatExponent)))
        Env.hexf64))
    (fun x => if x.1 = some '-' then negF64 x.2 else x.2)

/-- parser.rs 2047-2049 `dec_float_exponent`. -/
def decFloatExponent : P Str := recognize (pair (oneOf c!"eE") (pair (opt plusOrMinus) digit1))

/-- Split off a sign. -/
def splitSign : Str → Bool × Str
  | '-' :: s => (true, s)
  | '+' :: s => (false, s)
  | s => (false, s)

/-- The digits after a period. -/
def fracOf : Str → Str × Str
  | '.' :: s => (s.takeWhile isDigit, s.dropWhile isDigit)
  | s => ([], s)

/-- The exponent: `e`, sign, digits. -/
def expOf : Str → Int
  | 'e' :: s | 'E' :: s =>
    if (splitSign s).1 then -(digitsVal 10 (splitSign s).2 : Int) else digitsVal 10 (splitSign s).2
  | _ => 0

/-- The double nearest to `± digits · 10 ^ scale`. -/
def decF64 (neg : Bool) (digits : Nat) (scale : Int) : Fin (2 ^ 64) :=
  Fin.ofNat (2 ^ 64)
    ((if neg then 2 ^ 63 else 0) +
      (if 0 ≤ scale then roundBits 11 52 (digits * 10 ^ scale.toNat) 1
       else roundBits 11 52 digits (10 ^ (-scale).toNat)))

/-- `f64::from_str` on the texts that `dec_float_constant` recognises (never an error): the double nearest to the
number written. -/
def f64FromStr (s : Str) : Option (Fin (2 ^ 64)) :=
  let (neg, s) := splitSign s
  let ip := s.takeWhile isDigit
  let (fp, e) := fracOf (s.dropWhile isDigit)
  some (decF64 neg (digitsVal 10 (ip ++ fp)) (expOf e - fp.length))

/-- parser.rs 2052-2067 `dec_float_constant`. -/
def decFloatConstant : P (Fin (2 ^ 64)) :=
  mapRes
    (recognize
      (preceded (opt plusOrMinus)
        (alt
          (terminated
            (alt
              (terminated digit1 (terminated (char '.') digit0))
              (preceded (char '.') digit1))
            (opt decFloatExponent))
          (terminated digit1 decFloatExponent))))
    f64FromStr

/-- parser.rs 2082-2088 `float_constant`. -/
def floatConstant : P (Fin (2 ^ 64)) := alt specialFloatConstant (alt hexFloatConstant decFloatConstant)

/-- parser.rs 1966-1978 `true_` and `false_`: the word must occur somewhere in the input, and the input must begin
with its letters. -/
def boolWord (b : Bool) (w : Str) : P Bool :=
  value b (fun i => match reMatch (hasWord w) i with
    | none => none
    | some _ => tag w i)

/-- parser.rs 2023-2025 `boolean_constant`. -/
def booleanConstant : P Bool := alt (boolWord true c!"true") (boolWord false c!"false")

/-- parser.rs 1428-1434 `scalar`. -/
def scalar : P Scalar :=
  alt (map floatConstant .float) (alt (map integerConstant .integer) (map booleanConstant .boolean))

/-- parser.rs 1525-1530 `single`. -/
def single : P Single := alt (map scalar .scalar) (map stringConstant .string)

/-- parser.rs 1645-1650 `default_value`. -/
def defaultValue : P DefaultValue := alt (map scalar .scalar) (map ident .ident)

/-! ### Types and metadata -/

/-- The builtin type names in the order in which `type_` tries them (parser.rs 1278-1298). -/
def builtins : List (Builtin × Str) :=
  [(.bool, c!"bool"), (.byte, c!"byte"), (.ubyte, c!"ubyte"), (.short, c!"short"), (.ushort, c!"ushort"),
   (.long, c!"long"), (.ulong, c!"ulong"), (.double, c!"double"), (.int8, c!"int8"), (.uint8, c!"uint8"),
   (.int16, c!"int16"), (.uint16, c!"uint16"), (.int32, c!"int32"), (.uint32, c!"uint32"), (.int64, c!"int64"),
   (.uint64, c!"uint64"), (.float32, c!"float32"), (.float64, c!"float64"), (.int, c!"int"), (.uint, c!"uint"),
   (.float, c!"float")]

/-- `alt((value(ty, tag(name)), ...))`. -/
def builtinAlt : List (Builtin × Str) → P Ty
  | [] => fun _ => none
  | (b, n) :: l => alt (value (.builtin b) (tag n)) (builtinAlt l)

/-- parser.rs 1275-1307 `type_`. The number bounds the nesting of square brackets. -/
def typeGo : Nat → P Ty
  | 0 => fun _ => none
  | n + 1 =>
    alt (builtinAlt builtins)
      (alt (value .string (tag c!"string"))
        (alt (map (delimited (char '[') (typeGo n) (char ']')) .array)
          (map qualifiedIdent .ident)))

/-- parser.rs 1275-1307 `type_`. -/
def type_ : P Ty := fun i => typeGo (i.length + 1) i

/-- parser.rs 1329-1347 `raw_metadata`. -/
def rawMetadata : P Metadata :=
  delimited (terminated (char '(') cos0)
    (sepList0 (delimited cos0 (char ',') cos0)
      (pair ident (opt (preceded cos0 (preceded (char ':') (preceded cos0 single))))))
    (preceded cos0 (char ')'))

/-- parser.rs 1350-1352 `metadata`. -/
def metadata : P (Option Metadata) := opt rawMetadata

/-! ### JSON-like values -/

/-- parser.rs 1437-1461 `object`, given the parser of its values. -/
def objectOf (v : P Value) : P (Comment × List (Ident × Value)) :=
  pair docComment
    (delimited (terminated (char '{') cos0)
      (sepList0 (delimited cos0 (char ',') cos0)
        (separatedPair ident (delimited cos0 (char ':') cos0) v))
      (preceded cos0 (char '}')))

/-- parser.rs 1533-1542 `value_list`, given the parser of its values. -/
def valueListOf (v : P Value) : P (List Value) :=
  delimited (terminated (char '[') cos0)
    (sepList0 (delimited cos0 (char ',') cos0) v)
    (preceded cos0 (char ']'))

/-- parser.rs 1575-1581 `value_`. The number bounds the nesting. -/
def valueGo : Nat → P Value
  | 0 => fun _ => none
  | n + 1 =>
    alt (map single .single)
      (alt (map (objectOf (valueGo n)) (fun x => .object x.2 x.1))
        (map (valueListOf (valueGo n)) .list))

/-- parser.rs 1575-1581 `value_`. -/
def value_ : P Value := fun i => valueGo (i.length + 1) i

/-- parser.rs 1437-1461 `object`. -/
def object : P (Comment × List (Ident × Value)) := objectOf value_

/-! ### Declarations -/

/-- parser.rs 904-929 `field_decl`. -/
def fieldDecl : P Field :=
  map
    (terminated
      (pair docComment
        (pair (terminated ident (pair cos0 (pair (char ':') cos0)))
          (pair type_
            (pair (opt (preceded (pair cos0 (pair (char '=') cos0)) defaultValue))
              (preceded cos0 metadata)))))
      (pair cos0 (char ';')))
    (fun x => { doc := x.1, id := x.2.1, ty := x.2.2.1, default := x.2.2.2.1, metadata := x.2.2.2.2 })

/-- parser.rs 1677-1687 `product_type_body`. -/
def productTypeBody : P (Ident × Option Metadata × List Field) :=
  pair (delimited cos1 ident cos0)
    (pair (terminated metadata cos0)
      (delimited (preceded (char '{') cos0)
        (many0 (delimited cos0 fieldDecl cos0))
        (terminated cos0 (char '}'))))

/-- parser.rs 1690-1702 `struct_decl` and 1705-1717 `table_decl`, which differ in the keyword. -/
def productDecl (kw : Str) : P Product :=
  map (pair docComment (preceded (tag kw) productTypeBody))
    (fun x => { doc := x.1, id := x.2.1, metadata := x.2.2.1, fields := x.2.2.2 })

/-- parser.rs 1310-1326 `enumval_decl`. -/
def enumvalDecl : P EnumVariant :=
  map
    (pair docComment
      (pair ident (opt (preceded cos0 (preceded (char '=') (preceded cos0 integerConstant))))))
    (fun x => { doc := x.1, id := x.2.1, value := x.2.2 })

/-- parser.rs 681-693 `enum_body`. -/
def enumBody : P (List EnumVariant) :=
  delimited (delimited cos0 (char '{') cos0)
    (terminated
      (sepList1 (delimited cos0 (char ',') cos0) enumvalDecl)
      (opt (pair cos0 (pair (char ',') cos0))))
    (preceded cos0 (char '}'))

/-- parser.rs 695-715 `enum_decl`. No white space is skipped in front of the metadata. -/
def enumDecl : P Enum :=
  map
    (pair docComment
      (pair (preceded (tag c!"enum") (delimited cos1 ident cos0))
        (pair (preceded (char ':') (preceded cos0 type_))
          (pair metadata enumBody))))
    (fun x => { doc := x.1, id := x.2.1, baseType := x.2.2.1, metadata := x.2.2.2.1, variants := x.2.2.2.2 })

/-- parser.rs 783-801 `union_decl`. -/
def unionDecl : P Union :=
  map
    (pair docComment
      (pair (preceded (tag c!"union") (delimited cos1 ident cos0))
        (pair metadata enumBody)))
    (fun x => { doc := x.1, id := x.2.1, metadata := x.2.2.1, variants := x.2.2.2 })

/-- parser.rs 1191-1219 `rpc_method`. -/
def rpcMethod : P RpcMethod :=
  map
    (pair docComment
      (pair (terminated ident cos0)
        (pair (delimited (char '(') (delimited cos0 qualifiedIdent cos0) (char ')'))
          (preceded (delimited cos0 (char ':') cos0)
            (terminated (pair qualifiedIdent (preceded cos0 metadata)) (terminated cos0 (char ';')))))))
    (fun x => { doc := x.1, id := x.2.1, requestType := x.2.2.1, responseType := x.2.2.2.1,
                metadata := x.2.2.2.2 })

/-- parser.rs 1076-1098 `rpc_decl`. -/
def rpcDecl : P Rpc :=
  map
    (pair docComment
      (pair (preceded (terminated (tag c!"rpc_service") cos1) (terminated ident cos0))
        (delimited (char '{') (many1 (delimited cos0 rpcMethod cos0)) (char '}'))))
    (fun x => { doc := x.1, id := x.2.1, methods := x.2.2 })

/-- A documented declaration of the form `keyword ... ;`. -/
def keywordDecl {α : Type} (kw : Str) (p : P α) : P (Comment × α) :=
  pair docComment (delimited (tag kw) p (char ';'))

/-- parser.rs 521-533 `namespace_decl`. -/
def namespaceDecl : P (Comment × QIdent) :=
  keywordDecl c!"namespace" (delimited cos1 qualifiedIdent cos0)

/-- parser.rs 611-627 `attribute_decl` (the documentation is dropped). -/
def attributeDecl : P (Comment × Ident) :=
  keywordDecl c!"attribute" (delimited cos1 (alt ident stringConstant) cos0)

/-- parser.rs 863-875 `root_decl` (the documentation is dropped). -/
def rootDecl : P (Comment × Ident) :=
  keywordDecl c!"root_type" (delimited cos1 ident cos0)

/-- parser.rs 2342-2354 `file_extension_decl`. -/
def fileExtensionDecl : P (Comment × Str) :=
  keywordDecl c!"file_extension" (delimited cos0 stringConstant cos0)

/-- The bytes of a text (`str::as_bytes`). -/
def utf8 (s : Str) : Bytes := s.flatMap String.utf8EncodeChar

/-- parser.rs 2415-2452 `file_identifier_decl`. The check of the length makes the whole rule fail. -/
def fileIdentifierDecl : P (Comment × Bytes) :=
  mapRes
    (keywordDecl c!"file_identifier"
      (delimited cos0 (delimited (char '"') (take 4) (char '"')) cos0))
    (fun x => if (utf8 x.2).length = 4 then some (x.1, utf8 x.2) else none)

/-- parser.rs 428-455 `include_decl`. -/
def includeDecl : P Include :=
  mapRes
    (keywordDecl c!"include" (delimited cos1 stringConstant cos0))
    (fun x => match Env.fileStem x.2 with
      | none => none
      | some stem => some { path := x.2, stem := stem, doc := x.1 })

/-- parser.rs 200-214 `element`. -/
def element : P Element :=
  alt (map namespaceDecl (fun x => .namespace x.2 x.1))
  (alt (map (productDecl c!"table") .table)
  (alt (map (productDecl c!"struct") .struct)
  (alt (map enumDecl .enum)
  (alt (map unionDecl .union)
  (alt (map rootDecl (fun x => .root x.2 []))
  (alt (map fileExtensionDecl (fun x => .fileExtension x.2 x.1))
  (alt (map fileIdentifierDecl (fun x => .fileIdentifier x.2 x.1))
  (alt (map attributeDecl (fun x => .attribute x.2))
  (alt (map rpcDecl .rpc)
    (map object (fun x => .object x.2 x.1)))))))))))

/-- parser.rs 259-271 `schema_decl`. -/
def schemaDecl : P Schema :=
  map
    (pair (many0 (delimited cos0 includeDecl cos0)) (many0 (delimited cos0 element cos0)))
    (fun x => { includes := x.1, elements := x.2 })

end Butte.Parse
