import Verif.Parse.Grammar
/-
The parser once more, now with its stack: the combinators of `Parse/Nom` and the rules of `Parse/Grammar`, each with the depth of
the calls it makes. Every call of a combinator is a frame on the stack. A loop (`many0`, `separated_list`, `take_while`, `escaped`, the
search for a regular expression) does not add a frame for every round. The results are those of `Parse/Grammar` (`C103_result`).
-/
namespace Butte.Parse.Stack

open Ast

/-- A parser and the number of frames it puts on the stack, as a function of the input. -/
structure DP (α : Type) where
  run : P α
  deep : Str → Nat

section
variable {α β γ : Type}

/-- A combinator that calls nothing that depends on the text. -/
def leaf (p : P α) : DP α := ⟨p, fun _ => 1⟩

/-- A parser that fails at once. -/
def fail : DP α := leaf (fun _ => none)

/-- `nom::combinator::map`. -/
def map (p : DP α) (f : α → β) : DP β := ⟨Parse.map p.run f, fun i => p.deep i + 1⟩

/-- `nom::combinator::map_res`. -/
def mapRes (p : DP α) (f : α → Option β) : DP β := ⟨Parse.mapRes p.run f, fun i => p.deep i + 1⟩

/-- `nom::combinator::value`. -/
def value (b : β) (p : DP α) : DP β := map p (fun _ => b)

/-- `nom::combinator::opt`. -/
def opt (p : DP α) : DP (Option α) := ⟨Parse.opt p.run, fun i => p.deep i + 1⟩

/-- `nom::combinator::not`. -/
def pnot (p : DP α) : DP Unit := ⟨Parse.pnot p.run, fun i => p.deep i + 1⟩

/-- `nom::combinator::recognize`. -/
def recognize (p : DP α) : DP Str := ⟨Parse.recognize p.run, fun i => p.deep i + 1⟩

/-- `nom::branch::alt` of two parsers: the second is called after the first has returned, and only if that failed. -/
def alt (p q : DP α) : DP α := ⟨Parse.alt p.run q.run, fun i =>
  match p.run i with
  | none => max (p.deep i) (q.deep i) + 1
  | some _ => p.deep i + 1⟩

/-- `nom::sequence::tuple` of two parsers: the second is called after the first has returned. -/
def pair (p : DP α) (q : DP β) : DP (α × β) := ⟨Parse.pair p.run q.run, fun i =>
  match p.run i with
  | none => p.deep i + 1
  | some (r, _) => max (p.deep i) (q.deep r) + 1⟩

/-- `nom::sequence::preceded`. -/
def preceded (p : DP α) (q : DP β) : DP β := map (pair p q) (·.2)

/-- `nom::sequence::terminated`. -/
def terminated (p : DP α) (q : DP β) : DP α := map (pair p q) (·.1)

/-- `nom::sequence::delimited`. -/
def delimited (p : DP α) (q : DP β) (s : DP γ) : DP β := preceded p (terminated q s)

/-- `nom::sequence::separated_pair`. -/
def separatedPair (p : DP α) (s : DP γ) (q : DP β) : DP (α × β) := pair p (preceded s q)

/-- The deepest round of the loop of `nom::multi::many0`. -/
def manyDeep (p : DP α) : Nat → Str → Nat
  | 0, _ => 0
  | n + 1, i => match p.run i with
    | none => p.deep i
    | some (r, _) => if r = i then p.deep i else max (p.deep i) (manyDeep p n r)

/-- `nom::multi::many0`. -/
def many0 (p : DP α) : DP (List α) := ⟨Parse.many0 p.run, fun i => manyDeep p (i.length + 1) i + 1⟩

/-- `nom::multi::many1`. -/
def many1 (p : DP α) : DP (List α) := ⟨Parse.many1 p.run, fun i =>
  match p.run i with
  | none => p.deep i + 1
  | some (r, _) => max (p.deep i) (manyDeep p (r.length + 1) r) + 1⟩

/-- The deepest round of the loop of `nom::multi::separated_list` after the first item. -/
def sepDeep (s : DP β) (p : DP α) : Nat → Str → Nat
  | 0, _ => 0
  | n + 1, i => match s.run i with
    | none => s.deep i
    | some (r, _) =>
      if r = i then s.deep i
      else match p.run r with
        | none => max (s.deep i) (p.deep r)
        | some (r', _) =>
          if r' = i then max (s.deep i) (p.deep r)
          else max (max (s.deep i) (p.deep r)) (sepDeep s p n r')

/-- What `separated_list` and `separated_nonempty_list` put on the stack. -/
def listDeep (s : DP β) (p : DP α) (i : Str) : Nat :=
  match p.run i with
  | none => p.deep i + 1
  | some (r, _) => if r = i then p.deep i + 1 else max (p.deep i) (sepDeep s p (r.length + 1) r) + 1

/-- `nom::multi::separated_nonempty_list`. -/
def sepList1 (s : DP β) (p : DP α) : DP (List α) := ⟨Parse.sepList1 s.run p.run, listDeep s p⟩

/-- `nom::multi::separated_list`. -/
def sepList0 (s : DP β) (p : DP α) : DP (List α) := ⟨Parse.sepList0 s.run p.run, listDeep s p⟩

def satisfy (f : Char → Bool) : DP Char := leaf (Parse.satisfy f)
def char (c : Char) : DP Char := satisfy (· == c)
def oneOf (l : Str) : DP Char := satisfy (fun c => l.contains c)
def tag (t : Str) : DP Str := leaf (Parse.tag t)
def takeWhile (f : Char → Bool) : DP Str := leaf (Parse.takeWhile f)
def takeWhile1 (f : Char → Bool) : DP Str := leaf (Parse.takeWhile1 f)
def take (n : Nat) : DP Str := leaf (Parse.take n)
def digit0 : DP Str := takeWhile isDigit
def digit1 : DP Str := takeWhile1 isDigit
def hexDigit0 : DP Str := takeWhile isHexDigit
def hexDigit1 : DP Str := takeWhile1 isHexDigit
def multispace1 : DP Str := takeWhile1 isSpace
def notLineEnding : DP Str := leaf Parse.notLineEnding
def lineEnding : DP Str := leaf Parse.lineEnding
def escaped (normal : Char → Bool) (ctl : Char) (esc : Char → Bool) : DP Str := leaf (Parse.escaped normal ctl esc)

end

variable [Env]

/-- parser.rs 40-42 `plus_or_minus`. -/
def plusOrMinus : DP Char := oneOf c!"-+"

/-- parser.rs 116-124 `ident`. `take_while_m_n(1, 1, f)` takes one character. -/
def ident : DP Ident := recognize (preceded (satisfy identStart) (takeWhile identRest))

/-- parser.rs 168-181 `string_constant`. The text between the quotes is kept as written. -/
def stringConstant : DP Str :=
  map
    (delimited (char '"')
      (opt (escaped (fun c => !(c!"\\\"").contains c) '\\' (fun c => c == '\\' || c == '"')))
      (char '"'))
    (fun o => o.getD [])

/-- parser.rs 241-244 `comment`. -/
def comment : DP Unit :=
  value () (pair (tag c!"//") (pair (pnot (tag c!"/")) notLineEnding))

/-- parser.rs 246-248 `comment_or_space`. -/
def commentOrSpace : DP Unit := alt comment (value () multispace1)

/-- parser.rs 250-252 `comment_or_space0`. -/
def cos0 : DP Unit := value () (many0 commentOrSpace)

/-- parser.rs 254-256 `comment_or_space1`. -/
def cos1 : DP Unit := value () (many1 commentOrSpace)

/-- parser.rs 2518-2520 `raw_doc_comment`. -/
def rawDocComment : DP Str := preceded (tag c!"///") notLineEnding

/-- parser.rs 2523-2528 `doc_comment_lines` and 2531-2533 `doc_comment`. -/
def docComment : DP Comment :=
  many0 (terminated (terminated rawDocComment lineEnding) cos0)

/-- parser.rs 511-519 `qualified_ident`. -/
def qualifiedIdent : DP QIdent := sepList1 (delimited cos0 (tag c!".") cos0) ident

/-- parser.rs 1874-1879 `dec_integer_constant`. -/
def decIntegerConstant : DP Int := mapRes (recognize (preceded (opt plusOrMinus) digit1)) i128FromStr

/-- parser.rs 1927-1944 `hex_integer_constant`. The digits are read by `i128::from_str_radix`, then `checked_neg`. -/
def hexIntegerConstant : DP Int :=
  mapRes
    (pair (opt plusOrMinus) (preceded (char '0') (preceded (oneOf c!"xX") hexDigit1)))
    (fun x =>
      if inI128 (digitsVal 16 x.2) then
        if x.1 = some '-' then
          if inI128 (-(digitsVal 16 x.2 : Int)) then some (-(digitsVal 16 x.2 : Int)) else none
        else some (digitsVal 16 x.2)
      else none)

/-- parser.rs 2318-2320 `integer_constant`. -/
def integerConstant : DP Int := alt hexIntegerConstant decIntegerConstant

/-- `nom::re_match!`: the search does not recurse on the text. -/
def reMatch (f : Str → Bool) : DP Str := leaf (Parse.reMatch f)

/-- parser.rs 2180-2193 `nan`. -/
def nan : DP (Fin (2 ^ 64)) :=
  map (terminated (opt plusOrMinus) (reMatch (hasWord c!"nan"))) (fun s => nanBits (s == some '-'))

/-- parser.rs 2228-2241 `inf_or_infinity`. -/
def infOrInfinity : DP (Fin (2 ^ 64)) :=
  map (terminated (opt plusOrMinus) (reMatch (fun i => hasWord c!"inf" i || hasWord c!"infinity" i)))
    (fun s => infBits (s == some '-'))

/-- parser.rs 2270-2272 `special_float_constant`. -/
def specialFloatConstant : DP (Fin (2 ^ 64)) := alt nan infOrInfinity

/-- parser.rs 2141-2146 `hex_float_exponent`. -/
def hexFloatExponent : DP Str :=
  recognize (terminated (oneOf c!"pP") (terminated (opt plusOrMinus) digit1))

/-- parser.rs 2148-2177 `hex_float_constant`. -/
def hexFloatConstant : DP (Fin (2 ^ 64)) :=
  map
    (pair
      (terminated (opt plusOrMinus) (terminated (char '0') (oneOf c!"xX")))
      (mapRes
        (recognize
          (alt
            (terminated
              (alt
                (terminated (terminated hexDigit1 (char '.')) hexDigit0)
                (preceded (char '.') hexDigit1))
              (opt hexFloatExponent))
            (terminated hexDigit1 hexFloatExponent)))
        Env.hexf64))
    (fun x => if x.1 = some '-' then negF64 x.2 else x.2)

/-- parser.rs 2047-2049 `dec_float_exponent`. -/
def decFloatExponent : DP Str := recognize (pair (oneOf c!"eE") (pair (opt plusOrMinus) digit1))

/-- parser.rs 2052-2067 `dec_float_constant`. -/
def decFloatConstant : DP (Fin (2 ^ 64)) :=
  mapRes
    (recognize
      (preceded (opt plusOrMinus)
        (alt
          (terminated
            (alt
              (terminated digit1 (terminated (char '.') digit0))
              (preceded (char '.') digit1))
            (opt decFloatExponent))
          (terminated digit1 decFloatExponent))))
    f64FromStr

/-- parser.rs 2082-2088 `float_constant`. -/
def floatConstant : DP (Fin (2 ^ 64)) := alt specialFloatConstant (alt hexFloatConstant decFloatConstant)

/-- parser.rs 1966-1978 `true_` and `false_`: the word must occur somewhere in the input, and the input must begin
with its letters. -/
def boolWord (b : Bool) (w : Str) : DP Bool := value b (leaf (fun i =>
  match Parse.reMatch (hasWord w) i with
  | none => none
  | some _ => Parse.tag w i))

/-- parser.rs 2023-2025 `boolean_constant`. -/
def booleanConstant : DP Bool := alt (boolWord true c!"true") (boolWord false c!"false")

/-- parser.rs 1428-1434 `scalar`. -/
def scalar : DP Scalar :=
  alt (map floatConstant .float) (alt (map integerConstant .integer) (map booleanConstant .boolean))

/-- parser.rs 1525-1530 `single`. -/
def single : DP Single := alt (map scalar .scalar) (map stringConstant .string)

/-- parser.rs 1645-1650 `default_value`. -/
def defaultValue : DP DefaultValue := alt (map scalar .scalar) (map ident .ident)

/-- `alt((value(ty, tag(name)), ...))`. -/
def builtinAlt : List (Builtin × Str) → DP Ty
  | [] => fail
  | (b, n) :: l => alt (value (.builtin b) (tag n)) (builtinAlt l)

/-- parser.rs 1275-1307 `type_`. The number bounds the nesting of square brackets. -/
def typeGo : Nat → DP Ty
  | 0 => fail
  | n + 1 =>
    alt (builtinAlt builtins)
      (alt (value .string (tag c!"string"))
        (alt (map (delimited (char '[') (typeGo n) (char ']')) .array)
          (map qualifiedIdent .ident)))

/-- parser.rs 1275-1307 `type_`. -/
def type_ : DP Ty := ⟨fun i => (typeGo (i.length + 1)).run i, fun i => (typeGo (i.length + 1)).deep i + 1⟩

/-- parser.rs 1329-1347 `raw_metadata`. -/
def rawMetadata : DP Metadata :=
  delimited (terminated (char '(') cos0)
    (sepList0 (delimited cos0 (char ',') cos0)
      (pair ident (opt (preceded cos0 (preceded (char ':') (preceded cos0 single))))))
    (preceded cos0 (char ')'))

/-- parser.rs 1350-1352 `metadata`. -/
def metadata : DP (Option Metadata) := opt rawMetadata

/-- parser.rs 1437-1461 `object`, given the parser of its values. -/
def objectOf (v : DP Value) : DP (Comment × List (Ident × Value)) :=
  pair docComment
    (delimited (terminated (char '{') cos0)
      (sepList0 (delimited cos0 (char ',') cos0)
        (separatedPair ident (delimited cos0 (char ':') cos0) v))
      (preceded cos0 (char '}')))

/-- parser.rs 1533-1542 `value_list`, given the parser of its values. -/
def valueListOf (v : DP Value) : DP (List Value) :=
  delimited (terminated (char '[') cos0)
    (sepList0 (delimited cos0 (char ',') cos0) v)
    (preceded cos0 (char ']'))

/-- parser.rs 1575-1581 `value_`. The number bounds the nesting. -/
def valueGo : Nat → DP Value
  | 0 => fail
  | n + 1 =>
    alt (map single .single)
      (alt (map (objectOf (valueGo n)) (fun x => .object x.2 x.1))
        (map (valueListOf (valueGo n)) .list))

/-- parser.rs 1575-1581 `value_`. -/
def value_ : DP Value := ⟨fun i => (valueGo (i.length + 1)).run i, fun i => (valueGo (i.length + 1)).deep i + 1⟩

/-- parser.rs 1437-1461 `object`. -/
def object : DP (Comment × List (Ident × Value)) := objectOf value_

/-- parser.rs 904-929 `field_decl`. -/
def fieldDecl : DP Field :=
  map
    (terminated
      (pair docComment
        (pair (terminated ident (pair cos0 (pair (char ':') cos0)))
          (pair type_
            (pair (opt (preceded (pair cos0 (pair (char '=') cos0)) defaultValue))
              (preceded cos0 metadata)))))
      (pair cos0 (char ';')))
    (fun x => { doc := x.1, id := x.2.1, ty := x.2.2.1, default := x.2.2.2.1, metadata := x.2.2.2.2 })

/-- parser.rs 1677-1687 `product_type_body`. -/
def productTypeBody : DP (Ident × Option Metadata × List Field) :=
  pair (delimited cos1 ident cos0)
    (pair (terminated metadata cos0)
      (delimited (preceded (char '{') cos0)
        (many0 (delimited cos0 fieldDecl cos0))
        (terminated cos0 (char '}'))))

/-- parser.rs 1690-1702 `struct_decl` and 1705-1717 `table_decl`, which differ in the keyword. -/
def productDecl (kw : Str) : DP Product :=
  map (pair docComment (preceded (tag kw) productTypeBody))
    (fun x => { doc := x.1, id := x.2.1, metadata := x.2.2.1, fields := x.2.2.2 })

/-- parser.rs 1310-1326 `enumval_decl`. -/
def enumvalDecl : DP EnumVariant :=
  map
    (pair docComment
      (pair ident (opt (preceded cos0 (preceded (char '=') (preceded cos0 integerConstant))))))
    (fun x => { doc := x.1, id := x.2.1, value := x.2.2 })

/-- parser.rs 681-693 `enum_body`. -/
def enumBody : DP (List EnumVariant) :=
  delimited (delimited cos0 (char '{') cos0)
    (terminated
      (sepList1 (delimited cos0 (char ',') cos0) enumvalDecl)
      (opt (pair cos0 (pair (char ',') cos0))))
    (preceded cos0 (char '}'))

/-- parser.rs 695-715 `enum_decl`. No white space is skipped in front of the metadata. -/
def enumDecl : DP Enum :=
  map
    (pair docComment
      (pair (preceded (tag c!"enum") (delimited cos1 ident cos0))
        (pair (preceded (char ':') (preceded cos0 type_))
          (pair metadata enumBody))))
    (fun x => { doc := x.1, id := x.2.1, baseType := x.2.2.1, metadata := x.2.2.2.1, variants := x.2.2.2.2 })

/-- parser.rs 783-801 `union_decl`. -/
def unionDecl : DP Union :=
  map
    (pair docComment
      (pair (preceded (tag c!"union") (delimited cos1 ident cos0))
        (pair metadata enumBody)))
    (fun x => { doc := x.1, id := x.2.1, metadata := x.2.2.1, variants := x.2.2.2 })

/-- parser.rs 1191-1219 `rpc_method`. -/
def rpcMethod : DP RpcMethod :=
  map
    (pair docComment
      (pair (terminated ident cos0)
        (pair (delimited (char '(') (delimited cos0 qualifiedIdent cos0) (char ')'))
          (preceded (delimited cos0 (char ':') cos0)
            (terminated (pair qualifiedIdent (preceded cos0 metadata)) (terminated cos0 (char ';')))))))
    (fun x => { doc := x.1, id := x.2.1, requestType := x.2.2.1, responseType := x.2.2.2.1,
                metadata := x.2.2.2.2 })

/-- parser.rs 1076-1098 `rpc_decl`. -/
def rpcDecl : DP Rpc :=
  map
    (pair docComment
      (pair (preceded (terminated (tag c!"rpc_service") cos1) (terminated ident cos0))
        (delimited (char '{') (many1 (delimited cos0 rpcMethod cos0)) (char '}'))))
    (fun x => { doc := x.1, id := x.2.1, methods := x.2.2 })

/-- A documented declaration of the form `keyword ... ;`. -/
def keywordDecl {α : Type} (kw : Str) (p : DP α) : DP (Comment × α) :=
  pair docComment (delimited (tag kw) p (char ';'))

/-- parser.rs 521-533 `namespace_decl`. -/
def namespaceDecl : DP (Comment × QIdent) :=
  keywordDecl c!"namespace" (delimited cos1 qualifiedIdent cos0)

/-- parser.rs 611-627 `attribute_decl` (the documentation is dropped). -/
def attributeDecl : DP (Comment × Ident) :=
  keywordDecl c!"attribute" (delimited cos1 (alt ident stringConstant) cos0)

/-- parser.rs 863-875 `root_decl` (the documentation is dropped). -/
def rootDecl : DP (Comment × Ident) :=
  keywordDecl c!"root_type" (delimited cos1 ident cos0)

/-- parser.rs 2342-2354 `file_extension_decl`. -/
def fileExtensionDecl : DP (Comment × Str) :=
  keywordDecl c!"file_extension" (delimited cos0 stringConstant cos0)

/-- parser.rs 2415-2452 `file_identifier_decl`. The check of the length makes the whole rule fail. -/
def fileIdentifierDecl : DP (Comment × Bytes) :=
  mapRes
    (keywordDecl c!"file_identifier"
      (delimited cos0 (delimited (char '"') (take 4) (char '"')) cos0))
    (fun x => if (utf8 x.2).length = 4 then some (x.1, utf8 x.2) else none)

/-- parser.rs 428-455 `include_decl`. -/
def includeDecl : DP Include :=
  mapRes
    (keywordDecl c!"include" (delimited cos1 stringConstant cos0))
    (fun x => match Env.fileStem x.2 with
      | none => none
      | some stem => some { path := x.2, stem := stem, doc := x.1 })

/-- parser.rs 200-214 `element`. -/
def element : DP Element :=
  alt (map namespaceDecl (fun x => .namespace x.2 x.1))
  (alt (map (productDecl c!"table") .table)
  (alt (map (productDecl c!"struct") .struct)
  (alt (map enumDecl .enum)
  (alt (map unionDecl .union)
  (alt (map rootDecl (fun x => .root x.2 []))
  (alt (map fileExtensionDecl (fun x => .fileExtension x.2 x.1))
  (alt (map fileIdentifierDecl (fun x => .fileIdentifier x.2 x.1))
  (alt (map attributeDecl (fun x => .attribute x.2))
  (alt (map rpcDecl .rpc)
    (map object (fun x => .object x.2 x.1)))))))))))

/-- parser.rs 259-271 `schema_decl`. -/
def schemaDecl : DP Schema :=
  map
    (pair (many0 (delimited cos0 includeDecl cos0)) (many0 (delimited cos0 element cos0)))
    (fun x => { includes := x.1, elements := x.2 })

end Butte.Parse.Stack
