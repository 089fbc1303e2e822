import Verif.Parse.StepsDecl
/-
The constants of the bounds.
-/
namespace Butte.Parse.Timed

syntax "constant" "[" ident,* "]" : tactic

macro_rules
  | `(tactic| constant [$ts,*]) => do
    let ls : Array (Lean.TSyntax `Lean.Parser.Tactic.simpLemma) ← ts.getElems.mapM fun t => `(Lean.Parser.Tactic.simpLemma| $t:term)
    `(tactic| (dsimp only [$ls,*, id, map_meets, mapRes_meets, value_meets, opt_meets, pnot_meets, recognize_meets, alt_meets,
        pair_meets, preceded_meets, terminated_meets, delimited_meets, separatedPair_meets, many0_meets, many1_meets, sepList0_meets,
        sepList1_meets, Meets.up, char_meets, oneOf_meets, satisfy_meets, tag_meets, takeWhile_meets, takeWhile1_meets, take_meets,
        notLineEnding_meets, lineEnding_meets, escaped_meets, Meets.lin, builtinAlt_meets, builtins, fail_meets, sep_meets,
        boolWord_meets, reMatch_meets, keywordDecl_meets, productDecl_meets]
               <;> simp))

variable [Env]

@[simp] theorem digit0_constant : digit0_meets.C = 1 := by constant [digit0_meets]
@[simp] theorem digit1_constant : digit1_meets.C = 1 := by constant [digit1_meets]
@[simp] theorem hexDigit0_constant : hexDigit0_meets.C = 1 := by constant [hexDigit0_meets]
@[simp] theorem hexDigit1_constant : hexDigit1_meets.C = 1 := by constant [hexDigit1_meets]
@[simp] theorem multispace1_constant : multispace1_meets.C = 1 := by constant [multispace1_meets]
@[simp] theorem plusOrMinus_constant : plusOrMinus_meets.C = 1 := by constant [plusOrMinus_meets]
@[simp] theorem stringConstant_constant : stringConstant_meets.C = 10 := by constant [stringConstant_meets]
@[simp] theorem comment_constant : comment_meets.C = 11 := by constant [comment_meets]
@[simp] theorem commentOrSpace_constant : commentOrSpace_meets.C = 14 := by constant [commentOrSpace_meets]
@[simp] theorem cos0_constant : cos0_meets.C = 16 := by constant [cos0_meets]
@[simp] theorem cos1_constant : cos1_meets.C = 31 := by constant [cos1_meets]
@[simp] theorem rawDocComment_constant : rawDocComment_meets.C = 8 := by constant [rawDocComment_meets]
@[simp] theorem docComment_constant : docComment_meets.C = 31 := by constant [docComment_meets]
@[simp] theorem decIntegerConstant_constant : decIntegerConstant_meets.C = 7 := by constant [decIntegerConstant_meets]
@[simp] theorem hexIntegerConstant_constant : hexIntegerConstant_meets.C = 11 := by constant [hexIntegerConstant_meets]
@[simp] theorem integerConstant_constant : integerConstant_meets.C = 19 := by constant [integerConstant_meets]
@[simp] theorem decFloatExponent_constant : decFloatExponent_meets.C = 7 := by constant [decFloatExponent_meets]
@[simp] theorem decFloatConstant_constant : decFloatConstant_meets.C = 39 := by constant [decFloatConstant_meets]
@[simp] theorem hexFloatExponent_constant : hexFloatExponent_meets.C = 9 := by constant [hexFloatExponent_meets]
@[simp] theorem ident_constant : ident_meets.C = 5 := by constant [ident_meets]
@[simp] theorem qualifiedIdent_constant : qualifiedIdent_meets.C = 50 := by constant [qualifiedIdent_meets]
@[simp] theorem nan_constant : nan_meets.C = 6 := by constant [nan_meets]
@[simp] theorem infOrInfinity_constant : infOrInfinity_meets.C = 6 := by constant [infOrInfinity_meets]
@[simp] theorem specialFloatConstant_constant : specialFloatConstant_meets.C = 13 := by constant [specialFloatConstant_meets]
@[simp] theorem hexFloatConstant_constant : hexFloatConstant_meets.C = 49 := by constant [hexFloatConstant_meets]
@[simp] theorem floatConstant_constant : floatConstant_meets.C = 103 := by constant [floatConstant_meets]
@[simp] theorem booleanConstant_constant : booleanConstant_meets.C = 16 := by constant [booleanConstant_meets]
@[simp] theorem scalar_constant : scalar_meets.C = 143 := by constant [scalar_meets]
@[simp] theorem single_constant : single_meets.C = 156 := by constant [single_meets]
@[simp] theorem defaultValue_constant : defaultValue_meets.C = 151 := by constant [defaultValue_meets]
@[simp] theorem rawMetadata_constant : rawMetadata_meets.C = 485 := by constant [rawMetadata_meets]
@[simp] theorem metadata_constant : metadata_meets.C = 486 := by constant [metadata_meets]
@[simp] theorem type_constant : type_meets.C = 242 := by constant [type_meets, typeC]
@[simp] theorem value_constant : value_meets_.C = 170400 := by constant [value_meets_, valueC]
@[simp] theorem object_constant : object_meets.C = 341003 := by constant [object_meets]
@[simp] theorem fieldDecl_constant : fieldDecl_meets.C = 1033 := by constant [fieldDecl_meets]
@[simp] theorem productTypeBody_constant : productTypeBody_meets.C = 1674 := by constant [productTypeBody_meets]
@[simp] theorem enumvalDecl_constant : enumvalDecl_meets.C = 98 := by constant [enumvalDecl_meets]
@[simp] theorem enumBody_constant : enumBody_meets.C = 333 := by constant [enumBody_meets]
@[simp] theorem enumDecl_constant : enumDecl_meets.C = 1181 := by constant [enumDecl_meets]
@[simp] theorem unionDecl_constant : unionDecl_meets.C = 918 := by constant [unionDecl_meets]
@[simp] theorem rpcMethod_constant : rpcMethod_meets.C = 765 := by constant [rpcMethod_meets]
@[simp] theorem rpcDecl_constant : rpcDecl_meets.C = 1714 := by constant [rpcDecl_meets]
@[simp] theorem namespaceDecl_constant : namespaceDecl_meets.C = 148 := by constant [namespaceDecl_meets]
@[simp] theorem attributeDecl_constant : attributeDecl_meets.C = 114 := by constant [attributeDecl_meets]
@[simp] theorem rootDecl_constant : rootDecl_meets.C = 103 := by constant [rootDecl_meets]
@[simp] theorem fileExtensionDecl_constant : fileExtensionDecl_meets.C = 98 := by constant [fileExtensionDecl_meets]
@[simp] theorem fileIdentifierDecl_constant : fileIdentifierDecl_meets.C = 97 := by constant [fileIdentifierDecl_meets]
@[simp] theorem includeDecl_constant : includeDecl_meets.C = 107 := by constant [includeDecl_meets]
@[simp] theorem element_constant : element_meets.C = 348828 := by constant [element_meets]
@[simp] theorem schemaDecl_constant : schemaDecl_meets.C = 349011 := by constant [schemaDecl_meets]

end Butte.Parse.Timed
