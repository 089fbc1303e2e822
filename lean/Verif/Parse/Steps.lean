import Verif.Parse.Grammar
/-
The parser once more, now counting its steps: the combinators of `Parse/Nom` and the rules of `Parse/Grammar`, with a count next to
the result. A step is a call of a combinator, a character looked at, or a character of the text that a conversion (`map`, `map_res`)
is given; a search for a regular expression takes a step for every character left (the `regex` crate searches in linear time).
`C99_result` says that the results are those of `Parse/Grammar`.
-/
namespace Butte.Parse.Timed

open Ast

/-- A result and the number of steps it took. -/
structure Ct (α : Type) where
  steps : Nat
  val : α

instance : Monad Ct where
  pure a := ⟨0, a⟩
  bind x f := ⟨x.steps + (f x.val).steps, (f x.val).val⟩

/-- Steps. -/
def tick (n : Nat) : Ct Unit := ⟨n, ()⟩

/-- A parser that counts. -/
abbrev CP (α : Type) := Str → Ct (Option (Str × α))

section
variable {α β γ : Type}

/-- A parser that fails at once. -/
def fail : CP α := fun _ => do
  tick 1
  return none

/-- `nom::combinator::map`. -/
def map (p : CP α) (f : α → β) : CP β := fun i => do
  tick 1
  match ← p i with
  | none => return none
  | some (r, a) =>
    tick (i.length - r.length)
    return some (r, f a)

/-- `nom::combinator::map_res`. -/
def mapRes (p : CP α) (f : α → Option β) : CP β := fun i => do
  tick 1
  match ← p i with
  | none => return none
  | some (r, a) =>
    tick (i.length - r.length)
    match f a with
    | none => return none
    | some b => return some (r, b)

/-- `nom::combinator::value`. -/
def value (b : β) (p : CP α) : CP β := map p (fun _ => b)

/-- `nom::combinator::opt`. -/
def opt (p : CP α) : CP (Option α) := fun i => do
  tick 1
  match ← p i with
  | none => return some (i, none)
  | some (r, a) => return some (r, some a)

/-- `nom::combinator::not`. -/
def pnot (p : CP α) : CP Unit := fun i => do
  tick 1
  match ← p i with
  | none => return some (i, ())
  | some _ => return none

/-- `nom::combinator::recognize`. -/
def recognize (p : CP α) : CP Str := fun i => do
  tick 1
  match ← p i with
  | none => return none
  | some (r, _) =>
    tick (i.length - r.length)
    return some (r, i.take (i.length - r.length))

/-- `nom::branch::alt` of two parsers. -/
def alt (p q : CP α) : CP α := fun i => do
  tick 1
  match ← p i with
  | none => q i
  | some x => return some x

/-- `nom::sequence::tuple` of two parsers. -/
def pair (p : CP α) (q : CP β) : CP (α × β) := fun i => do
  tick 1
  match ← p i with
  | none => return none
  | some (r, a) =>
    match ← q r with
    | none => return none
    | some (r', b) => return some (r', (a, b))

/-- `nom::sequence::preceded`. -/
def preceded (p : CP α) (q : CP β) : CP β := map (pair p q) (·.2)

/-- `nom::sequence::terminated`. -/
def terminated (p : CP α) (q : CP β) : CP α := map (pair p q) (·.1)

/-- `nom::sequence::delimited`. -/
def delimited (p : CP α) (q : CP β) (s : CP γ) : CP β := preceded p (terminated q s)

/-- `nom::sequence::separated_pair`. -/
def separatedPair (p : CP α) (s : CP γ) (q : CP β) : CP (α × β) := pair p (preceded s q)

/-- The loop of `nom::multi::many0`. -/
def manyGo (p : CP α) : Nat → CP (List α)
  | 0, _ => return none
  | n + 1, i => do
    tick 1
    match ← p i with
    | none => return some (i, [])
    | some (r, a) =>
      if r = i then return none
      else
        let x ← manyGo p n r
        return Parse.push a x

/-- `nom::multi::many0`. -/
def many0 (p : CP α) : CP (List α) := fun i => manyGo p (i.length + 1) i

/-- `nom::multi::many1`. -/
def many1 (p : CP α) : CP (List α) := fun i => do
  tick 1
  match ← p i with
  | none => return none
  | some (r, a) =>
    let x ← many0 p r
    return Parse.push a x

/-- The loop of `nom::multi::separated_list` after the first item. -/
def sepGo (s : CP β) (p : CP α) : Nat → CP (List α)
  | 0, _ => return none
  | n + 1, i => do
    tick 1
    match ← s i with
    | none => return some (i, [])
    | some (r, _) =>
      if r = i then return none
      else
        match ← p r with
        | none => return some (i, [])
        | some (r', a) =>
          if r' = i then return none
          else
            let x ← sepGo s p n r'
            return Parse.push a x

/-- `nom::multi::separated_nonempty_list`. -/
def sepList1 (s : CP β) (p : CP α) : CP (List α) := fun i => do
  tick 1
  match ← p i with
  | none => return none
  | some (r, a) =>
    if r = i then return none
    else
      let x ← sepGo s p (r.length + 1) r
      return Parse.push a x

/-- `nom::multi::separated_list`: like the former, but the first item may be missing. It is parsed once. -/
def sepList0 (s : CP β) (p : CP α) : CP (List α) := fun i => do
  tick 1
  match ← p i with
  | none => return some (i, [])
  | some (r, a) =>
    if r = i then return none
    else
      let x ← sepGo s p (r.length + 1) r
      return Parse.push a x

/-- `char`, `one_of`, `none_of`: one character. -/
def satisfy (f : Char → Bool) : CP Char := fun i => do
  tick 1
  return Parse.satisfy f i

/-- `nom::character::complete::char`. -/
def char (c : Char) : CP Char := satisfy (· == c)

/-- `nom::character::complete::one_of`. -/
def oneOf (l : Str) : CP Char := satisfy (fun c => l.contains c)

/-- `nom::bytes::complete::tag`. -/
def tag (t : Str) : CP Str := fun i => do
  tick (t.length + 1)
  return Parse.tag t i

/-- `nom::bytes::complete::take_while`: the characters taken and the one after. -/
def takeWhile (f : Char → Bool) : CP Str := fun i => do
  tick ((i.takeWhile f).length + 1)
  return Parse.takeWhile f i

/-- `nom::bytes::complete::take_while1`. -/
def takeWhile1 (f : Char → Bool) : CP Str := fun i => do
  tick ((i.takeWhile f).length + 1)
  return Parse.takeWhile1 f i

/-- `nom::bytes::complete::take`. -/
def take (n : Nat) : CP Str := fun i => do
  tick (min n i.length + 1)
  return Parse.take n i

def digit0 : CP Str := takeWhile isDigit
def digit1 : CP Str := takeWhile1 isDigit
def hexDigit0 : CP Str := takeWhile isHexDigit
def hexDigit1 : CP Str := takeWhile1 isHexDigit
def multispace1 : CP Str := takeWhile1 isSpace

/-- `nom::character::complete::not_line_ending`. -/
def notLineEnding : CP Str := fun i => do
  tick ((i.takeWhile (fun c => !isEol c)).length + 2)
  return Parse.notLineEnding i

/-- `nom::character::complete::line_ending`. -/
def lineEnding : CP Str := fun i => do
  tick 2
  return Parse.lineEnding i

/-- The loop of `nom::bytes::complete::escaped`. -/
def escapedGo (normal : Char → Bool) (ctl : Char) (esc : Char → Bool) : Str → Ct (Option Str)
  | [] => do
    tick 1
    return some []
  | [c] => do
    tick 1
    if normal c then return some [] else if c = ctl then return none else return some [c]
  | c :: d :: cs => do
    tick 2
    if normal c then escapedGo normal ctl esc (d :: cs)
    else if c = ctl then
      if esc d then escapedGo normal ctl esc cs else return none
    else return some (c :: d :: cs)

/-- `nom::bytes::complete::escaped`. -/
def escaped (normal : Char → Bool) (ctl : Char) (esc : Char → Bool) : CP Str := fun i => do
  tick 1
  match ← escapedGo normal ctl esc i with
  | none => return none
  | some r => return some (r, i.take (i.length - r.length))

end

variable [Env]

/-- parser.rs 40-42 `plus_or_minus`. -/
def plusOrMinus : CP Char := oneOf c!"-+"

/-- parser.rs 116-124 `ident`. `take_while_m_n(1, 1, f)` takes one character. -/
def ident : CP Ident := recognize (preceded (satisfy identStart) (takeWhile identRest))

/-- parser.rs 168-181 `string_constant`. The text between the quotes is kept as written. -/
def stringConstant : CP Str :=
  map
    (delimited (char '"')
      (opt (escaped (fun c => !(c!"\\\"").contains c) '\\' (fun c => c == '\\' || c == '"')))
      (char '"'))
    (fun o => o.getD [])

/-- parser.rs 241-244 `comment`. -/
def comment : CP Unit :=
  value () (pair (tag c!"//") (pair (pnot (tag c!"/")) notLineEnding))

/-- parser.rs 246-248 `comment_or_space`. -/
def commentOrSpace : CP Unit := alt comment (value () multispace1)

/-- parser.rs 250-252 `comment_or_space0`. -/
def cos0 : CP Unit := value () (many0 commentOrSpace)

/-- parser.rs 254-256 `comment_or_space1`. -/
def cos1 : CP Unit := value () (many1 commentOrSpace)

/-- parser.rs 2518-2520 `raw_doc_comment`. -/
def rawDocComment : CP Str := preceded (tag c!"///") notLineEnding

/-- parser.rs 2523-2528 `doc_comment_lines` and 2531-2533 `doc_comment`. -/
def docComment : CP Comment :=
  many0 (terminated (terminated rawDocComment lineEnding) cos0)

/-- parser.rs 511-519 `qualified_ident`. -/
def qualifiedIdent : CP QIdent := sepList1 (delimited cos0 (tag c!".") cos0) ident

/-- parser.rs 1874-1879 `dec_integer_constant`. -/
def decIntegerConstant : CP Int := mapRes (recognize (preceded (opt plusOrMinus) digit1)) i128FromStr

/-- parser.rs 1927-1944 `hex_integer_constant`. The digits are read by `i128::from_str_radix`, then `checked_neg`. -/
def hexIntegerConstant : CP Int :=
  mapRes
    (pair (opt plusOrMinus) (preceded (char '0') (preceded (oneOf c!"xX") hexDigit1)))
    (fun x =>
      if inI128 (digitsVal 16 x.2) then
        if x.1 = some '-' then
          if inI128 (-(digitsVal 16 x.2 : Int)) then some (-(digitsVal 16 x.2 : Int)) else none
        else some (digitsVal 16 x.2)
      else none)

/-- parser.rs 2318-2320 `integer_constant`. -/
def integerConstant : CP Int := alt hexIntegerConstant decIntegerConstant

/-- `nom::re_match!`: succeeds when the expression matches somewhere in the input, and consumes the whole input. -/
def reMatch (f : Str → Bool) : CP Str := fun i => do
  tick (i.length + 1)
  return Parse.reMatch f i

/-- parser.rs 2180-2193 `nan`. -/
def nan : CP (Fin (2 ^ 64)) :=
  map (terminated (opt plusOrMinus) (reMatch (hasWord c!"nan"))) (fun s => nanBits (s == some '-'))

/-- parser.rs 2228-2241 `inf_or_infinity`. -/
def infOrInfinity : CP (Fin (2 ^ 64)) :=
  map (terminated (opt plusOrMinus) (reMatch (fun i => hasWord c!"inf" i || hasWord c!"infinity" i)))
    (fun s => infBits (s == some '-'))

/-- parser.rs 2270-2272 `special_float_constant`. -/
def specialFloatConstant : CP (Fin (2 ^ 64)) := alt nan infOrInfinity

/-- parser.rs 2141-2146 `hex_float_exponent`. -/
def hexFloatExponent : CP Str :=
  recognize (terminated (oneOf c!"pP") (terminated (opt plusOrMinus) digit1))

/-- parser.rs 2148-2177 `hex_float_constant`. -/
def hexFloatConstant : CP (Fin (2 ^ 64)) :=
  map
    (pair
      (terminated (opt plusOrMinus) (terminated (char '0') (oneOf c!"xX")))
      (mapRes
        (recognize
          (alt
            (terminated
              (alt
                (terminated (terminated hexDigit1 (char '.')) hexDigit0)
                (preceded (char '.') hexDigit1))
              (opt hexFloatExponent))
            (terminated hexDigit1 hexFloatExponent)))
        Env.hexf64))
    (fun x => if x.1 = some '-' then negF64 x.2 else x.2)

/-- parser.rs 2047-2049 `dec_float_exponent`. -/
def decFloatExponent : CP Str := recognize (pair (oneOf c!"eE") (pair (opt plusOrMinus) digit1))

/-- parser.rs 2052-2067 `dec_float_constant`. -/
def decFloatConstant : CP (Fin (2 ^ 64)) :=
  mapRes
    (recognize
      (preceded (opt plusOrMinus)
        (alt
          (terminated
            (alt
              (terminated digit1 (terminated (char '.') digit0))
              (preceded (char '.') digit1))
            (opt decFloatExponent))
          (terminated digit1 decFloatExponent))))
    f64FromStr

/-- parser.rs 2082-2088 `float_constant`. -/
def floatConstant : CP (Fin (2 ^ 64)) := alt specialFloatConstant (alt hexFloatConstant decFloatConstant)

/-- parser.rs 1966-1978 `true_` and `false_`: the word must occur somewhere in the input, and the input must begin
with its letters. -/
def boolWord (b : Bool) (w : Str) : CP Bool :=
  value b (fun i => do
    match ← reMatch (hasWord w) i with
    | none => return none
    | some _ => tag w i)

/-- parser.rs 2023-2025 `boolean_constant`. -/
def booleanConstant : CP Bool := alt (boolWord true c!"true") (boolWord false c!"false")

/-- parser.rs 1428-1434 `scalar`. -/
def scalar : CP Scalar :=
  alt (map floatConstant .float) (alt (map integerConstant .integer) (map booleanConstant .boolean))

/-- parser.rs 1525-1530 `single`. -/
def single : CP Single := alt (map scalar .scalar) (map stringConstant .string)

/-- parser.rs 1645-1650 `default_value`. -/
def defaultValue : CP DefaultValue := alt (map scalar .scalar) (map ident .ident)

/-- `alt((value(ty, tag(name)), ...))`. -/
def builtinAlt : List (Builtin × Str) → CP Ty
  | [] => fail
  | (b, n) :: l => alt (value (.builtin b) (tag n)) (builtinAlt l)

/-- parser.rs 1275-1307 `type_`. The number bounds the nesting of square brackets. -/
def typeGo : Nat → CP Ty
  | 0 => fail
  | n + 1 =>
    alt (builtinAlt builtins)
      (alt (value .string (tag c!"string"))
        (alt (map (delimited (char '[') (typeGo n) (char ']')) .array)
          (map qualifiedIdent .ident)))

/-- parser.rs 1275-1307 `type_`. -/
def type_ : CP Ty := fun i => typeGo (i.length + 1) i

/-- parser.rs 1329-1347 `raw_metadata`. -/
def rawMetadata : CP Metadata :=
  delimited (terminated (char '(') cos0)
    (sepList0 (delimited cos0 (char ',') cos0)
      (pair ident (opt (preceded cos0 (preceded (char ':') (preceded cos0 single))))))
    (preceded cos0 (char ')'))

/-- parser.rs 1350-1352 `metadata`. -/
def metadata : CP (Option Metadata) := opt rawMetadata

/-- parser.rs 1437-1461 `object`, given the parser of its values. -/
def objectOf (v : CP Value) : CP (Comment × List (Ident × Value)) :=
  pair docComment
    (delimited (terminated (char '{') cos0)
      (sepList0 (delimited cos0 (char ',') cos0)
        (separatedPair ident (delimited cos0 (char ':') cos0) v))
      (preceded cos0 (char '}')))

/-- parser.rs 1533-1542 `value_list`, given the parser of its values. -/
def valueListOf (v : CP Value) : CP (List Value) :=
  delimited (terminated (char '[') cos0)
    (sepList0 (delimited cos0 (char ',') cos0) v)
    (preceded cos0 (char ']'))

/-- parser.rs 1575-1581 `value_`. The number bounds the nesting. -/
def valueGo : Nat → CP Value
  | 0 => fail
  | n + 1 =>
    alt (map single .single)
      (alt (map (objectOf (valueGo n)) (fun x => .object x.2 x.1))
        (map (valueListOf (valueGo n)) .list))

/-- parser.rs 1575-1581 `value_`. -/
def value_ : CP Value := fun i => valueGo (i.length + 1) i

/-- parser.rs 1437-1461 `object`. -/
def object : CP (Comment × List (Ident × Value)) := objectOf value_

/-- parser.rs 904-929 `field_decl`. -/
def fieldDecl : CP Field :=
  map
    (terminated
      (pair docComment
        (pair (terminated ident (pair cos0 (pair (char ':') cos0)))
          (pair type_
            (pair (opt (preceded (pair cos0 (pair (char '=') cos0)) defaultValue))
              (preceded cos0 metadata)))))
      (pair cos0 (char ';')))
    (fun x => { doc := x.1, id := x.2.1, ty := x.2.2.1, default := x.2.2.2.1, metadata := x.2.2.2.2 })

/-- parser.rs 1677-1687 `product_type_body`. -/
def productTypeBody : CP (Ident × Option Metadata × List Field) :=
  pair (delimited cos1 ident cos0)
    (pair (terminated metadata cos0)
      (delimited (preceded (char '{') cos0)
        (many0 (delimited cos0 fieldDecl cos0))
        (terminated cos0 (char '}'))))

/-- parser.rs 1690-1702 `struct_decl` and 1705-1717 `table_decl`, which differ in the keyword. -/
def productDecl (kw : Str) : CP Product :=
  map (pair docComment (preceded (tag kw) productTypeBody))
    (fun x => { doc := x.1, id := x.2.1, metadata := x.2.2.1, fields := x.2.2.2 })

/-- parser.rs 1310-1326 `enumval_decl`. -/
def enumvalDecl : CP EnumVariant :=
  map
    (pair docComment
      (pair ident (opt (preceded cos0 (preceded (char '=') (preceded cos0 integerConstant))))))
    (fun x => { doc := x.1, id := x.2.1, value := x.2.2 })

/-- parser.rs 681-693 `enum_body`. -/
def enumBody : CP (List EnumVariant) :=
  delimited (delimited cos0 (char '{') cos0)
    (terminated
      (sepList1 (delimited cos0 (char ',') cos0) enumvalDecl)
      (opt (pair cos0 (pair (char ',') cos0))))
    (preceded cos0 (char '}'))

/-- parser.rs 695-715 `enum_decl`. No white space is skipped in front of the metadata. -/
def enumDecl : CP Enum :=
  map
    (pair docComment
      (pair (preceded (tag c!"enum") (delimited cos1 ident cos0))
        (pair (preceded (char ':') (preceded cos0 type_))
          (pair metadata enumBody))))
    (fun x => { doc := x.1, id := x.2.1, baseType := x.2.2.1, metadata := x.2.2.2.1, variants := x.2.2.2.2 })

/-- parser.rs 783-801 `union_decl`. -/
def unionDecl : CP Union :=
  map
    (pair docComment
      (pair (preceded (tag c!"union") (delimited cos1 ident cos0))
        (pair metadata enumBody)))
    (fun x => { doc := x.1, id := x.2.1, metadata := x.2.2.1, variants := x.2.2.2 })

/-- parser.rs 1191-1219 `rpc_method`. -/
def rpcMethod : CP RpcMethod :=
  map
    (pair docComment
      (pair (terminated ident cos0)
        (pair (delimited (char '(') (delimited cos0 qualifiedIdent cos0) (char ')'))
          (preceded (delimited cos0 (char ':') cos0)
            (terminated (pair qualifiedIdent (preceded cos0 metadata)) (terminated cos0 (char ';')))))))
    (fun x => { doc := x.1, id := x.2.1, requestType := x.2.2.1, responseType := x.2.2.2.1,
                metadata := x.2.2.2.2 })

/-- parser.rs 1076-1098 `rpc_decl`. -/
def rpcDecl : CP Rpc :=
  map
    (pair docComment
      (pair (preceded (terminated (tag c!"rpc_service") cos1) (terminated ident cos0))
        (delimited (char '{') (many1 (delimited cos0 rpcMethod cos0)) (char '}'))))
    (fun x => { doc := x.1, id := x.2.1, methods := x.2.2 })

/-- A documented declaration of the form `keyword ... ;`. -/
def keywordDecl {α : Type} (kw : Str) (p : CP α) : CP (Comment × α) :=
  pair docComment (delimited (tag kw) p (char ';'))

/-- parser.rs 521-533 `namespace_decl`. -/
def namespaceDecl : CP (Comment × QIdent) :=
  keywordDecl c!"namespace" (delimited cos1 qualifiedIdent cos0)

/-- parser.rs 611-627 `attribute_decl` (the documentation is dropped). -/
def attributeDecl : CP (Comment × Ident) :=
  keywordDecl c!"attribute" (delimited cos1 (alt ident stringConstant) cos0)

/-- parser.rs 863-875 `root_decl` (the documentation is dropped). -/
def rootDecl : CP (Comment × Ident) :=
  keywordDecl c!"root_type" (delimited cos1 ident cos0)

/-- parser.rs 2342-2354 `file_extension_decl`. -/
def fileExtensionDecl : CP (Comment × Str) :=
  keywordDecl c!"file_extension" (delimited cos0 stringConstant cos0)

/-- parser.rs 2415-2452 `file_identifier_decl`. The check of the length makes the whole rule fail. -/
def fileIdentifierDecl : CP (Comment × Bytes) :=
  mapRes
    (keywordDecl c!"file_identifier"
      (delimited cos0 (delimited (char '"') (take 4) (char '"')) cos0))
    (fun x => if (utf8 x.2).length = 4 then some (x.1, utf8 x.2) else none)

/-- parser.rs 428-455 `include_decl`. -/
def includeDecl : CP Include :=
  mapRes
    (keywordDecl c!"include" (delimited cos1 stringConstant cos0))
    (fun x => match Env.fileStem x.2 with
      | none => none
      | some stem => some { path := x.2, stem := stem, doc := x.1 })

/-- parser.rs 200-214 `element`. -/
def element : CP Element :=
  alt (map namespaceDecl (fun x => .namespace x.2 x.1))
  (alt (map (productDecl c!"table") .table)
  (alt (map (productDecl c!"struct") .struct)
  (alt (map enumDecl .enum)
  (alt (map unionDecl .union)
  (alt (map rootDecl (fun x => .root x.2 []))
  (alt (map fileExtensionDecl (fun x => .fileExtension x.2 x.1))
  (alt (map fileIdentifierDecl (fun x => .fileIdentifier x.2 x.1))
  (alt (map attributeDecl (fun x => .attribute x.2))
  (alt (map rpcDecl .rpc)
    (map object (fun x => .object x.2 x.1)))))))))))

/-- parser.rs 259-271 `schema_decl`. -/
def schemaDecl : CP Schema :=
  map
    (pair (many0 (delimited cos0 includeDecl cos0)) (many0 (delimited cos0 element cos0)))
    (fun x => { includes := x.1, elements := x.2 })

end Butte.Parse.Timed
