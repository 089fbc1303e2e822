import Verif.Parse.StepsValue
/-
How many steps the declarations and a whole schema take.
-/
namespace Butte.Parse.Timed

open Ast

variable {α : Type} [Env]

def object_meets : Meets 5 object Parse.object := by
  delta object Parse.object objectOf Parse.objectOf
  meets [docComment_meets, cos0_meets, ident_meets, value_meets_]

def fieldDecl_meets : Meets 4 fieldDecl Parse.fieldDecl := by
  delta fieldDecl Parse.fieldDecl
  meets [docComment_meets, cos0_meets, ident_meets, type_meets, defaultValue_meets, metadata_meets]

def productTypeBody_meets : Meets 5 productTypeBody Parse.productTypeBody := by
  delta productTypeBody Parse.productTypeBody
  meets [cos0_meets, cos1_meets, ident_meets, metadata_meets, fieldDecl_meets]

def productDecl_meets (kw : Str) : Meets 5 (productDecl kw) (Parse.productDecl kw) := by
  delta productDecl Parse.productDecl
  meets [docComment_meets, productTypeBody_meets]

def enumvalDecl_meets : Meets 3 enumvalDecl Parse.enumvalDecl := by
  delta enumvalDecl Parse.enumvalDecl
  meets [docComment_meets, cos0_meets, ident_meets, integerConstant_meets]

def enumBody_meets : Meets 4 enumBody Parse.enumBody := by
  delta enumBody Parse.enumBody
  meets [cos0_meets, enumvalDecl_meets]

def enumDecl_meets : Meets 4 enumDecl Parse.enumDecl := by
  delta enumDecl Parse.enumDecl
  meets [docComment_meets, cos0_meets, cos1_meets, ident_meets, type_meets, metadata_meets, enumBody_meets]

def unionDecl_meets : Meets 4 unionDecl Parse.unionDecl := by
  delta unionDecl Parse.unionDecl
  meets [docComment_meets, cos0_meets, cos1_meets, ident_meets, metadata_meets, enumBody_meets]

def rpcMethod_meets : Meets 3 rpcMethod Parse.rpcMethod := by
  delta rpcMethod Parse.rpcMethod
  meets [docComment_meets, cos0_meets, ident_meets, qualifiedIdent_meets, metadata_meets]

def rpcDecl_meets : Meets 4 rpcDecl Parse.rpcDecl := by
  delta rpcDecl Parse.rpcDecl
  meets [docComment_meets, cos0_meets, cos1_meets, ident_meets, rpcMethod_meets]

omit [Env] in
def keywordDecl_meets (kw : Str) {c : CP α} {p : P α} (h : Meets 3 c p) : Meets 3 (keywordDecl kw c) (Parse.keywordDecl kw p) := by
  delta keywordDecl Parse.keywordDecl
  meets [docComment_meets, h]

def namespaceDecl_meets : Meets 3 namespaceDecl Parse.namespaceDecl := by
  refine keywordDecl_meets _ ?_
  meets [cos1_meets, cos0_meets, qualifiedIdent_meets]

def attributeDecl_meets : Meets 3 attributeDecl Parse.attributeDecl := by
  refine keywordDecl_meets _ ?_
  meets [cos1_meets, cos0_meets, ident_meets, stringConstant_meets]

def rootDecl_meets : Meets 3 rootDecl Parse.rootDecl := by
  refine keywordDecl_meets _ ?_
  meets [cos1_meets, cos0_meets, ident_meets]

omit [Env] in
def fileExtensionDecl_meets : Meets 3 fileExtensionDecl Parse.fileExtensionDecl := by
  refine keywordDecl_meets _ ?_
  meets [cos0_meets, stringConstant_meets]

omit [Env] in
def fileIdentifierDecl_meets : Meets 3 fileIdentifierDecl Parse.fileIdentifierDecl := by
  refine mapRes_meets (keywordDecl_meets _ ?_) _
  meets [cos0_meets]

def includeDecl_meets : Meets 3 includeDecl Parse.includeDecl := by
  refine mapRes_meets (keywordDecl_meets _ ?_) _
  meets [cos1_meets, cos0_meets, stringConstant_meets]

def element_meets : Meets 5 element Parse.element := by
  delta element Parse.element
  meets [namespaceDecl_meets, productDecl_meets _, enumDecl_meets, unionDecl_meets, rootDecl_meets, fileExtensionDecl_meets,
    fileIdentifierDecl_meets, attributeDecl_meets, rpcDecl_meets, object_meets]

def schemaDecl_meets : Meets 6 schemaDecl Parse.schemaDecl := by
  delta schemaDecl Parse.schemaDecl
  meets [cos0_meets, includeDecl_meets, element_meets]

end Butte.Parse.Timed
