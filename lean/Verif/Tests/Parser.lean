import Verif.Parse.Ascii
/-
The unit tests of the parser (butte-build/src/ast/parser.rs), run on the model: 134 tests, one example for each assertion.
Kinds and positions of errors are not compared. The numbers are lines of parser.rs.
-/
namespace Butte.Parse
open Ast

attribute [local instance] asciiEnv

set_option maxRecDepth 100000

-- 48 test_plus_or_minus
example : plusOrMinus c!"+" =
    some ([], '+') := by decide +kernel
example : plusOrMinus c!"-" =
    some ([], '-') := by decide +kernel
-- 54 test_invalid_plus_or_minus
example : plusOrMinus c!"/" =
    none := by decide +kernel
-- 130 test_simple_ident
example : ident c!"foo" =
    some ([], c!"foo") := by decide +kernel
-- 135 test_underscore_prefix
example : ident c!"_foo" =
    some ([], c!"_foo") := by decide +kernel
-- 140 test_just_underscore
example : ident c!"_" =
    some ([], c!"_") := by decide +kernel
-- 145 test_id_with_number
example : ident c!"foo1" =
    some ([], c!"foo1") := by decide +kernel
-- 150 test_invalid_ident_contains_valid
example : ident c!"1foo" =
    none := by decide +kernel
-- 155 test_number_is_invalid
example : ident c!"1" =
    none := by decide +kernel
-- 161 test_empty_ident_is_invalid
example : ident [] =
    none := by decide +kernel
-- 187 test_string_constant
example : stringConstant c!"\"a b c D \\\"z1\"" =
    some ([], c!"a b c D \\\"z1") := by decide +kernel
-- 193 test_empty_string_constant
example : stringConstant c!"\"\"" =
    some ([], []) := by decide +kernel
-- 221 test_element_schema
example : element c!"rpc_service Greeter {\n  SayHello(HelloRequest):HelloReply;\n  SayManyHellos(ManyHellosRequest):HelloReply (streaming: \"server\");\n}" =
    some ([], (.rpc ⟨c!"Greeter", [⟨c!"SayHello", [c!"HelloRequest"], [c!"HelloReply"], none, []⟩, ⟨c!"SayManyHellos", [c!"ManyHellosRequest"], [c!"HelloReply"], some [(c!"streaming", some (.string c!"server"))], []⟩], []⟩)) := rfl
-- 278 test_simple_include_with_comments
example : (many0 (delimited cos0 includeDecl cos0)) c!"//baz\ninclude \"a\"; // bar\n" =
    some ([], [⟨c!"a", c!"a", []⟩]) := by decide +kernel
-- 291 test_includes_only_schema
example : schemaDecl c!"include \"a\"; // bar\n        // foo\ninclude \"b\";\n\n\ninclude \"foo/bar/baz.fbs\";\n\n    " =
    some ([], ⟨[⟨c!"a", c!"a", []⟩, ⟨c!"b", c!"b", []⟩, ⟨c!"foo/bar/baz.fbs", c!"baz", []⟩], []⟩) := rfl
-- 312 test_elements_only_schema
example : schemaDecl c!"table MyMessage {\n  message: string;\n  foo: float64 = 2.0;\n}" =
    some ([], ⟨[], [.table ⟨c!"MyMessage", [⟨c!"message", .string, none, none, []⟩, ⟨c!"foo", .builtin .float64, some (.scalar (.float 4611686018427387904)), none, []⟩], none, []⟩]⟩) := rfl
-- 329 test_full_schema
example : schemaDecl c!"\n\ninclude \"foo/bar/baz.fbs\";\n\ntable HelloReply {\n  message:string;\n} // bar\n\n// foo!\n\ntable HelloRequest {\n  name:string;\n}\n\ntable ManyHellosRequest {\n  name:string;\n  num_greetings:int;\n}\n\nnamespace foo.bar;\n\nrpc_service Greeter {\n  SayHello(HelloRequest):HelloReply;\n  SayManyHellos(ManyHellosRequest):HelloReply (streaming: \"server\");\n}\n\n" =
    some ([], ⟨[⟨c!"foo/bar/baz.fbs", c!"baz", []⟩], [.table ⟨c!"HelloReply", [⟨c!"message", .string, none, none, []⟩], none, []⟩, .table ⟨c!"HelloRequest", [⟨c!"name", .string, none, none, []⟩], none, []⟩, .table ⟨c!"ManyHellosRequest", [⟨c!"name", .string, none, none, []⟩, ⟨c!"num_greetings", .builtin .int, none, none, []⟩], none, []⟩, .namespace [c!"foo", c!"bar"] [], .rpc ⟨c!"Greeter", [⟨c!"SayHello", [c!"HelloRequest"], [c!"HelloReply"], none, []⟩, ⟨c!"SayManyHellos", [c!"ManyHellosRequest"], [c!"HelloReply"], some [(c!"streaming", some (.string c!"server"))], []⟩], []⟩]⟩) := rfl
-- 384 test_schema_with_namespaces
example : schemaDecl c!"\nnamespace a.b;\n\ntable A {\n  message: string;\n}\n\nnamespace c;\n\ntable C {\n  field1: a.b.A;\n}\n" =
    some ([], ⟨[], [.namespace [c!"a", c!"b"] [], .table ⟨c!"A", [⟨c!"message", .string, none, none, []⟩], none, []⟩, .namespace [c!"c"] [], .table ⟨c!"C", [⟨c!"field1", .ident [c!"a", c!"b", c!"A"], none, none, []⟩], none, []⟩]⟩) := rfl
-- 409 test_schema_with_namespace
example : schemaDecl c!"\n\nnamespace baz;\n\ntable Hello{\n  message:string;\n  count:uint64; } // bar\n" =
    some ([], ⟨[], [.namespace [c!"baz"] [], .table ⟨c!"Hello", [⟨c!"message", .string, none, none, []⟩, ⟨c!"count", .builtin .uint64, none, none, []⟩], none, []⟩]⟩) := rfl
-- 461 test_include_decl_with_comments
example : includeDecl c!"include //fizz\n            //buzz\n\t\"foo\"//bzz\n;" =
    some ([], ⟨c!"foo", c!"foo", []⟩) := by decide +kernel
-- 474 test_include_decl
example : includeDecl c!"include \"foo\";" =
    some ([], ⟨c!"foo", c!"foo", []⟩) := by decide +kernel
-- 484 test_include_decl_prefix_whitespace
example : includeDecl c!"include     \"foo\";" =
    some ([], ⟨c!"foo", c!"foo", []⟩) := by decide +kernel
-- 494 test_include_decl_no_prefix_whitespace
example : includeDecl c!"include\"foo\";" =
    none := by decide +kernel
-- 500 test_include_decl_trailing_whitespace
example : includeDecl c!"include \"foo\"    ;" =
    some ([], ⟨c!"foo", c!"foo", []⟩) := by decide +kernel
-- 540 test_namespace_decl_with_comments
example : namespaceDecl c!"namespace // a namespace comment \na// Yet another one\t\n\n\n;" =
    some ([], ([], [c!"a"])) := by decide +kernel
-- 548 test_namespace_decl_with_doc_comment
example : namespaceDecl c!"/// foo\nnamespace foo;" =
    some ([], ([c!" foo"], [c!"foo"])) := by decide +kernel
-- 558 test_namespace_decl_with_doc_and_non_doc_comment
example : namespaceDecl c!"/// foo\n// Bar\nnamespace foo;" =
    some ([], ([c!" foo"], [c!"foo"])) := by decide +kernel
-- 569 test_namespace_decl_with_doc_space_and_non_doc_comment
example : namespaceDecl c!"/// foo\n//\n// Bar\n\nnamespace foo;" =
    some ([], ([c!" foo"], [c!"foo"])) := by decide +kernel
-- 582 test_one_level_namespace_decl
example : namespaceDecl c!"namespace a;" =
    some ([], ([], [c!"a"])) := by decide +kernel
-- 589 test_two_level_namespace_decl
example : namespaceDecl c!"namespace a.b;" =
    some ([], ([], [c!"a", c!"b"])) := by decide +kernel
-- 596 test_three_level_namespace_decl
example : namespaceDecl c!"namespace a.b.c;" =
    some ([], ([], [c!"a", c!"b", c!"c"])) := by decide +kernel
-- 603 test_three_level_namespace_decl_ws
example : namespaceDecl c!"namespace \r\na  .b.c\n\t;" =
    some ([], ([], [c!"a", c!"b", c!"c"])) := by decide +kernel
-- 634 test_simple_attribute_decl_with_comments
example : (attributeDecl c!"attribute// gah, an attr!\n            a;").map (fun x => (x.1, x.2.2)) =
    some ([], c!"a") := by decide +kernel
-- 644 test_attribute_decl_with_doc_comments
example : (attributeDecl c!"/// An\n/// Attribute\n// implementation notes\n/// Further comments\nattribute a;").map (fun x => (x.1, x.2.2)) =
    some ([], c!"a") := by decide +kernel
-- 659 test_simple_attribute_decl
example : (attributeDecl c!"attribute a;").map (fun x => (x.1, x.2.2)) =
    some ([], c!"a") := by decide +kernel
-- 666 test_quoted_attribute_decl
example : (attributeDecl c!"attribute \"a\";").map (fun x => (x.1, x.2.2)) =
    some ([], c!"a") := by decide +kernel
-- 673 test_attribute_decl_ws
example : (attributeDecl c!"attribute\t\n\t my_attr\n\n\r\n;").map (fun x => (x.1, x.2.2)) =
    some ([], c!"my_attr") := by decide +kernel
-- 722 test_simple_enum_with_comments
example : enumDecl c!"enum // thing\n        MyEnum //other thing!\n        // jazz?\n: int32 // fiz!\n        { foo // bar\n            = 1, bar //ugh!\n        }" =
    some ([], ⟨c!"MyEnum", [⟨c!"foo", some 1, []⟩, ⟨c!"bar", none, []⟩], .builtin .int32, none, []⟩) := by decide +kernel
-- 736 test_enum_with_doc_comments
example : enumDecl c!"/// The enum!\nenum MyEnum : int32 {\n    // Not a doc commment\n    /// Maybe it's a foo\n    foo = 1,\n    // Hm,\n    /// Could be a bar though\n    bar,\n\n    // Nope, it's a baz\n    baz = 9,\n}" =
    some ([], ⟨c!"MyEnum", [⟨c!"foo", some 1, [c!" Maybe it's a foo"]⟩, ⟨c!"bar", none, [c!" Could be a bar though"]⟩, ⟨c!"baz", some 9, []⟩], .builtin .int32, none, [c!" The enum!"]⟩) := by decide +kernel
-- 765 test_simple_enum
example : enumDecl c!"enum MyEnum : int32 { foo = 1, bar }" =
    some ([], ⟨c!"MyEnum", [⟨c!"foo", some 1, []⟩, ⟨c!"bar", none, []⟩], .builtin .int32, none, []⟩) := by decide +kernel
-- 774 test_simple_enum_with_trailing_comma
example : enumDecl c!"enum MyEnum : int32 { foo = 1, bar, }" =
    some ([], ⟨c!"MyEnum", [⟨c!"foo", some 1, []⟩, ⟨c!"bar", none, []⟩], .builtin .int32, none, []⟩) := by decide +kernel
-- 808 test_simple_union_with_comments
example : unionDecl c!"union //foo!\nMyUnion // comment\n            //comment\n// thing\n{ // comm\n            foo // foo!\n            = 1//bar\n            ,\t\tbar, //baz! field\nBaz=     234 \n\n // ha!\n}" =
    some ([], ⟨c!"MyUnion", [⟨c!"foo", some 1, []⟩, ⟨c!"bar", none, []⟩, ⟨c!"Baz", some 234, []⟩], none, []⟩) := by decide +kernel
-- 823 test_union_with_doc_comments
example : unionDecl c!"/// Unionize!\nunion MyUnion {\n    // Not a doc commment\n    /// Maybe it's a foo\n    foo = 1,\n    // Hm,\n    /// Could be a bar though\n    bar,\n\n    // Nope, it's a baz\n    baz = 9,\n}" =
    some ([], ⟨c!"MyUnion", [⟨c!"foo", some 1, [c!" Maybe it's a foo"]⟩, ⟨c!"bar", none, [c!" Could be a bar though"]⟩, ⟨c!"baz", some 9, []⟩], none, [c!" Unionize!"]⟩) := by decide +kernel
-- 851 test_simple_union
example : unionDecl c!"union MyUnion { foo = 1, bar, Baz = 234 }" =
    some ([], ⟨c!"MyUnion", [⟨c!"foo", some 1, []⟩, ⟨c!"bar", none, []⟩, ⟨c!"Baz", some 234, []⟩], none, []⟩) := by decide +kernel
-- 882 test_root_decl
example : (rootDecl c!"root_type Foo;").map (fun x => (x.1, x.2.2)) =
    some ([], c!"Foo") := by decide +kernel
-- 889 test_root_decl_with_doc_comments
example : (rootDecl c!"/// I am Foo.\n// Not a doc\n\nroot_type Foo;").map (fun x => (x.1, x.2.2)) =
    some ([], c!"Foo") := by decide +kernel
-- 936 test_field_decl_with_metadata
example : fieldDecl c!"message: string (required);" =
    some ([], ⟨c!"message", .string, none, some [(c!"required", none)], []⟩) := by decide +kernel
-- 944 test_field_decl_with_comments
example : fieldDecl c!"foo // bar\n// baz\n :\n\tfloat64 // fizz\n=         // buuzzzz\n\t\t\t2.0\n\n\n;" =
    some ([], ⟨c!"foo", .builtin .float64, some (.scalar (.float 4611686018427387904)), none, []⟩) := by decide +kernel
-- 962 test_field_decl_with_doc_comment
example : fieldDecl c!"/// A really great field\ngreat: int64;" =
    some ([], ⟨c!"great", .builtin .int64, none, none, [c!" A really great field"]⟩) := by decide +kernel
-- 973 test_field_decl_with_doc_and_non_doc_comment
example : fieldDecl c!"/// A really great field\n// Not part of the doc\n\ngreat: int64;" =
    some ([], ⟨c!"great", .builtin .int64, none, none, [c!" A really great field"]⟩) := by decide +kernel
-- 986 test_field_decl_with_spaced_doc_comment
example : fieldDecl c!"/// A really great field\n\ngreat: int64;" =
    some ([], ⟨c!"great", .builtin .int64, none, none, [c!" A really great field"]⟩) := by decide +kernel
-- 998 test_field_decl_with_space_doc_and_non_doc_comment
example : fieldDecl c!"/// A really great field\n// comment\n\n\n// Thing!\ngreat: int64;" =
    some ([], ⟨c!"great", .builtin .int64, none, none, [c!" A really great field"]⟩) := by decide +kernel
-- 1013 test_field_decl
example : fieldDecl c!"foo: float64 = 2.0;" =
    some ([], ⟨c!"foo", .builtin .float64, some (.scalar (.float 4611686018427387904)), none, []⟩) := by decide +kernel
-- 1021 test_field_decl_uint
example : fieldDecl c!"foo :uint=3;" =
    some ([], ⟨c!"foo", .builtin .uint, some (.scalar (.integer 3)), none, []⟩) := by decide +kernel
-- 1029 test_field_decl_no_scalar
example : fieldDecl c!"foo:float64    //faz\n;" =
    some ([], ⟨c!"foo", .builtin .float64, none, none, []⟩) := by decide +kernel
-- 1037 test_field_decl_enum_default_value
example : fieldDecl c!"foo : MyEnum = Foo;" =
    some ([], ⟨c!"foo", .ident [c!"MyEnum"], some ((.ident c!"Foo")), none, []⟩) := by decide +kernel
-- 1051 test_field_decl_boolean_default_value_explicit_false
example : fieldDecl c!"foo : bool = false;" =
    some ([], ⟨c!"foo", .builtin .bool, some ((.scalar (.boolean false))), none, []⟩) := by decide +kernel
-- 1063 test_field_decl_boolean_default_value_true
example : fieldDecl c!"foo : bool = true;" =
    some ([], ⟨c!"foo", .builtin .bool, some ((.scalar (.boolean true))), none, []⟩) := by decide +kernel
-- 1105 test_rpc_decl_single_method_with_comments
example : rpcDecl c!"rpc_service Greeter { // foo\n    //b baz\n  SayHello(// foo\n  HelloRequest):HelloReply; // zaz\n// zu\n}" =
    some ([], ⟨c!"Greeter", [⟨c!"SayHello", [c!"HelloRequest"], [c!"HelloReply"], none, []⟩], []⟩) := by decide +kernel
-- 1119 test_rpc_decl_single_method
example : rpcDecl c!"rpc_service Greeter {\n  SayHello(HelloRequest):HelloReply;\n}" =
    some ([], ⟨c!"Greeter", [⟨c!"SayHello", [c!"HelloRequest"], [c!"HelloReply"], none, []⟩], []⟩) := by decide +kernel
-- 1130 test_rpc_decl_multiple_methods
example : rpcDecl c!"rpc_service Greeter {\n  SayHello   (HelloRequest ):HelloReply;\n  SayManyHellos(ManyHellosRequest):HelloReply  (streaming: \"server\"  ) ;\n\n}" =
    some ([], ⟨c!"Greeter", [⟨c!"SayHello", [c!"HelloRequest"], [c!"HelloReply"], none, []⟩, ⟨c!"SayManyHellos", [c!"ManyHellosRequest"], [c!"HelloReply"], some [(c!"streaming", some (.string c!"server"))], []⟩], []⟩) := by decide +kernel
-- 1151 test_rpc_decl_doc_comment
example : rpcDecl c!"/// A greeter service!\n// impl\n/// User facing\nrpc_service Greeter {\n  /// Hi there!\n  SayHello   (HelloRequest ):HelloReply;\n  /// Multiple hi theres!\n  SayManyHellos(ManyHellosRequest):HelloReply  (streaming: \"server\"  ) ;\n\n}" =
    some ([], ⟨c!"Greeter", [⟨c!"SayHello", [c!"HelloRequest"], [c!"HelloReply"], none, [c!" Hi there!"]⟩, ⟨c!"SayManyHellos", [c!"ManyHellosRequest"], [c!"HelloReply"], some [(c!"streaming", some (.string c!"server"))], [c!" Multiple hi theres!"]⟩], [c!" A greeter service!", c!" User facing"]⟩) := by decide +kernel
-- 1183 test_simple_qualified_ident
example : qualifiedIdent c!"a.b" =
    some ([], [c!"a", c!"b"]) := by decide +kernel
-- 1226 test_rpc_method_with_comments
example : rpcMethod c!"SayHello // foo\n(// bar\n    HelloRequest\n        // fiizz\n        )\n//buzz\n// baz\n:\n    HelloReply // saz\n// fzz\n;" =
    some ([], ⟨c!"SayHello", [c!"HelloRequest"], [c!"HelloReply"], none, []⟩) := by decide +kernel
-- 1245 test_rpc_method
example : rpcMethod c!"SayHello(HelloRequest):HelloReply;" =
    some ([], ⟨c!"SayHello", [c!"HelloRequest"], [c!"HelloReply"], none, []⟩) := by decide +kernel
-- 1253 test_rpc_method_with_metadata
example : rpcMethod c!"SayHello(HelloRequest):HelloReply (streaming: \"server\", streaming: \"server\");" =
    some ([], ⟨c!"SayHello", [c!"HelloRequest"], [c!"HelloReply"], some [(c!"streaming", some (.string c!"server")), (c!"streaming", some (.string c!"server"))], []⟩) := by decide +kernel
-- 1263 test_rpc_method_with_metadata_and_comments
example : rpcMethod c!"SayHello(HelloRequest):HelloReply (streaming:\n            // fuzz\n            \"server\", streaming: \"server\");" =
    some ([], ⟨c!"SayHello", [c!"HelloRequest"], [c!"HelloReply"], some [(c!"streaming", some (.string c!"server")), (c!"streaming", some (.string c!"server"))], []⟩) := by decide +kernel
-- 1359 test_simple_metadata_with_comments
example : metadata c!"(\n    // fuzzy\n    a // wuzzy\n    : // wuz\n    \"b\"\n// a bear\n\t)" =
    some ([], some ([(c!"a", some (.string c!"b"))])) := by decide +kernel
-- 1374 test_simple_metadata
example : metadata c!"(a: \"b\")" =
    some ([], some ([(c!"a", some (.string c!"b"))])) := by decide +kernel
-- 1382 test_single_metadata
example : metadata c!"(required)" =
    some ([], some ([(c!"required", none)])) := by decide +kernel
-- 1390 test_empty_metadata
example : metadata c!"()" =
    some ([], some ([])) := by decide +kernel
-- 1398 test_keys_only_metadata
example : metadata c!"(a, b, c, def)" =
    some ([], some ([(c!"a", none), (c!"b", none), (c!"c", none), (c!"def", none)])) := by decide +kernel
-- 1411 test_multiple_field_metadata
example : metadata c!"(x, a: \"news\", b: 42,c: 42.42, d, e)" =
    some ([], some ([(c!"x", none), (c!"a", some (.string c!"news")), (c!"b", some (.scalar (.integer 42))), (c!"c", some (.scalar (.float 4631166901565532406))), (c!"d", none), (c!"e", none)])) := by decide +kernel
-- 1468 test_object
example : object c!"{a: [\"b\", 1.0, 2, [3]]}" =
    some ([], ([], [(c!"a", (.list [(.single (.string c!"b")), (.single (.scalar (.float 4607182418800017408))), (.single (.scalar (.integer 2))), (.list [(.single (.scalar (.integer 3)))])]))])) := rfl
-- 1478 test_empty_object
example : object c!"{}" =
    some ([], ([], [])) := rfl
-- 1486 test_object_with_doc_comments
example : object c!"/// A doc\n//\n/// Comment\n\n{}" =
    some ([], ([c!" A doc", c!" Comment"], [])) := rfl
-- 1499 test_object_with_comments
example : object c!"{\n        // baz\n\n            a //buzz\n                : // fizz\n                [// baz\n\"b\" // foo\n, // fizz\n         1.0, 2, [//foo\n             3//bar\n         ]\n                //baz\n                ]\n                // foo\n}" =
    some ([], ([], [(c!"a", (.list [(.single (.string c!"b")), (.single (.scalar (.float 4607182418800017408))), (.single (.scalar (.integer 2))), (.list [(.single (.scalar (.integer 3)))])]))])) := rfl
-- 1549 test_value_list
example : (valueListOf value_) c!"[\"a\",1, 2]" =
    some ([], [(.single (.string c!"a")), (.single (.scalar (.integer 1))), (.single (.scalar (.integer 2)))]) := rfl
-- 1556 test_value_list_with_comments
example : (valueListOf value_) c!"[//thing\n    \"a\",1\n    // comment\n    ,\n           // a huge comment\n           // on\n           // mul-\n           // tiple lines, some space too!\n\n            2// fiz\n                ]" =
    some ([], [(.single (.string c!"a")), (.single (.scalar (.integer 1))), (.single (.scalar (.integer 2)))]) := rfl
-- 1588 test_value_single_value
example : value_ c!"1" =
    some ([], (.single (.scalar (.integer 1)))) := rfl
example : value_ c!"2.3" =
    some ([], (.single (.scalar (.float 4612361558371493478)))) := rfl
example : value_ c!"\"abc d\"" =
    some ([], (.single (.string c!"abc d"))) := rfl
example : value_ c!"true" =
    some ([], (.single (.scalar (.boolean true)))) := rfl
example : value_ c!"false" =
    some ([], (.single (.scalar (.boolean false)))) := rfl
-- 1609 test_value_object
example : value_ c!"{a: 1}" =
    some ([], (.object [(c!"a", (.single (.scalar (.integer 1))))] [])) := rfl
example : value_ c!"{b: 2.42}" =
    some ([], (.object [(c!"b", (.single (.scalar (.float 4612631774349135708))))] [])) := rfl
example : value_ c!"{c: [\"a\"]}" =
    some ([], (.object [(c!"c", (.list [(.single (.string c!"a"))]))] [])) := rfl
example : value_ c!"{d: [\"a\", {b: [1, [\"z\"]]}]}" =
    some ([], (.object [(c!"d", (.list [(.single (.string c!"a")), (.object [(c!"b", (.list [(.single (.scalar (.integer 1))), (.list [(.single (.string c!"z"))])]))] [])]))] [])) := rfl
-- 1635 test_value_value_list
example : value_ c!"[\"a\", 1]" =
    some ([], (.list [(.single (.string c!"a")), (.single (.scalar (.integer 1)))])) := rfl
-- 1657 test_default_value
example : defaultValue c!"1" =
    some ([], (.scalar (.integer 1))) := by decide +kernel
example : defaultValue c!"Foo" =
    some ([], (.ident c!"Foo")) := by decide +kernel
example : defaultValue c!"false" =
    some ([], (.scalar (.boolean false))) := by decide +kernel
example : defaultValue c!"true" =
    some ([], (.scalar (.boolean true))) := by decide +kernel
-- 1724 test_empty_table_no_spaces
example : (productDecl c!"table") c!"table HelloReply {}" =
    some ([], ⟨c!"HelloReply", [], none, []⟩) := by decide +kernel
-- 1732 test_empty_table
example : (productDecl c!"table") c!"table HelloReply {\n}" =
    some ([], ⟨c!"HelloReply", [], none, []⟩) := by decide +kernel
-- 1742 test_table_with_doc_commented_fields
example : (productDecl c!"table") c!"/// A response with a required field\ntable HelloReply {\n\n  /// Sweet, sweet message\n  message: string;\n  // Not a doc comment\n  /// A doc comment\n  foo: [string];\n  // Aha!\n\n  bar: [float64];\n\n}" =
    some ([], ⟨c!"HelloReply", [⟨c!"message", .string, none, none, [c!" Sweet, sweet message"]⟩, ⟨c!"foo", .array (.string), none, none, [c!" A doc comment"]⟩, ⟨c!"bar", .array (.builtin .float64), none, none, []⟩], none, [c!" A response with a required field"]⟩) := by decide +kernel
-- 1771 test_table_with_required_field
example : (productDecl c!"table") c!"/// A response with a required field\ntable HelloReply {\n  message: string (required);\n}" =
    some ([], ⟨c!"HelloReply", [⟨c!"message", .string, none, some [(c!"required", none)], []⟩], none, [c!" A response with a required field"]⟩) := by decide +kernel
-- 1787 test_table_with_comments
example : (productDecl c!"table") c!"/// My awesome table!\ntable HelloReply // baz\n// foo\n{ // buz\n  message: string; // fizz\n  // buzzz\n  // a\nfoo :uint=3;//baz\n// fizzy\n  bar // fuzzy\n  :      [int8];\n}" =
    some ([], ⟨c!"HelloReply", [⟨c!"message", .string, none, none, []⟩, ⟨c!"foo", .builtin .uint, some (.scalar (.integer 3)), none, []⟩, ⟨c!"bar", .array (.builtin .int8), none, none, []⟩], none, [c!" My awesome table!"]⟩) := by decide +kernel
-- 1816 test_table_multiple_fields
example : (productDecl c!"table") c!"/// My awesome table!\ntable HelloReply\n{\n  message: string;\n  foo :uint=3;\n\n  bar :      [int8];\n}" =
    some ([], ⟨c!"HelloReply", [⟨c!"message", .string, none, none, []⟩, ⟨c!"foo", .builtin .uint, some (.scalar (.integer 3)), none, []⟩, ⟨c!"bar", .array (.builtin .int8), none, none, []⟩], none, [c!" My awesome table!"]⟩) := by decide +kernel
-- 1840 test_table
example : (productDecl c!"table") c!"table HelloReply {\n  message: string;\n}" =
    some ([], ⟨c!"HelloReply", [⟨c!"message", .string, none, none, []⟩], none, []⟩) := by decide +kernel
-- 1851 test_table_with_default_enum_value
example : (productDecl c!"table") c!"table HelloReply {\n    message_type: MessageType = UNKNOWN;\n}" =
    some ([], ⟨c!"HelloReply", [⟨c!"message_type", .ident [c!"MessageType"], some ((.ident c!"UNKNOWN")), none, []⟩], none, []⟩) := by decide +kernel
-- 1887 test_u64
example : decIntegerConstant c!"18446744073709551615" =
    some ([], 18446744073709551615) := by decide +kernel
-- 1897 test_i64_max
example : decIntegerConstant c!"9223372036854775807" =
    some ([], 9223372036854775807) := by decide +kernel
-- 1907 test_i64_min
example : decIntegerConstant c!"-9223372036854775808" =
    some ([], (-9223372036854775808)) := by decide +kernel
-- 1917 test_dec_integer_constant
example : decIntegerConstant c!"1234" =
    some ([], 1234) := by decide +kernel
example : decIntegerConstant c!"-1234" =
    some ([], (-1234)) := by decide +kernel
-- 1950 test_hex_integer_constant
example : hexIntegerConstant c!"0x1234ABCDEFabcdef" =
    some ([], 1311862292449316335) := by decide +kernel
example : hexIntegerConstant c!"-0x1234ABCDEFabcdef" =
    some ([], (-1311862292449316335)) := by decide +kernel
-- 1959 test_invalid_hex_integer_constant
example : hexIntegerConstant c!"ABCDEFabcdef" =
    none := by decide +kernel
-- 1984 test_true
example : (boolWord true c!"true") c!"true" =
    some ([], true) := by decide +kernel
-- 1990 test_true_semicolon
example : (boolWord true c!"true") c!"true;" =
    some (c!";", true) := by decide +kernel
-- 1996 test_invalid_true
example : (boolWord true c!"true") c!"truez" =
    none := by decide +kernel
-- 2002 test_false
example : (boolWord false c!"false") c!"false" =
    some ([], false) := by decide +kernel
-- 2008 test_false_semicolon
example : (boolWord false c!"false") c!"false;" =
    some (c!";", false) := by decide +kernel
-- 2014 test_invalid_false
example : (boolWord false c!"false") c!"falsez" =
    none := by decide +kernel
-- 2031 test_boolean_constant
example : booleanConstant c!"true" =
    some ([], true) := by decide +kernel
example : booleanConstant c!"false" =
    some ([], false) := by decide +kernel
-- 2040 test_invalid_boolean_constant
example : booleanConstant c!"waltz" =
    none := by decide +kernel
-- 2073 test_dec_float_constant
example : decFloatConstant c!"-2.1" =
    some ([], 13835283235263532237) := by decide +kernel
-- 2094 test_float_constant_nan
example : floatConstant c!"nan" =
    some ([], nanBits false) := by decide +kernel
example : floatConstant c!"+nan" =
    some ([], nanBits false) := by decide +kernel
example : floatConstant c!"-nan" =
    some ([], nanBits true) := by decide +kernel
-- 2115 test_float_constant_inf
example : floatConstant c!"inf" =
    some ([], (infBits false)) := by decide +kernel
example : floatConstant c!"+inf" =
    some ([], (infBits false)) := by decide +kernel
example : floatConstant c!"-inf" =
    some ([], (infBits true)) := by decide +kernel
-- 2127 test_float_constant_infinity
example : floatConstant c!"infinity" =
    some ([], (infBits false)) := by decide +kernel
example : floatConstant c!"+infinity" =
    some ([], (infBits false)) := by decide +kernel
example : floatConstant c!"-infinity" =
    some ([], (infBits true)) := by decide +kernel
-- 2199 test_nan
example : nan c!"nan" =
    some ([], nanBits false) := by decide +kernel
example : nan c!"+nan" =
    some ([], nanBits false) := by decide +kernel
example : nan c!"-nan" =
    some ([], nanBits true) := by decide +kernel
-- 2220 test_invalid_nan
example : nan c!"nanz" =
    none := by decide +kernel
-- 2247 test_inf_or_infinity_infinity
example : infOrInfinity c!"inf" =
    some ([], (infBits false)) := by decide +kernel
example : infOrInfinity c!"+inf" =
    some ([], (infBits false)) := by decide +kernel
example : infOrInfinity c!"-inf" =
    some ([], (infBits true)) := by decide +kernel
example : infOrInfinity c!"infinity" =
    some ([], (infBits false)) := by decide +kernel
example : infOrInfinity c!"+infinity" =
    some ([], (infBits false)) := by decide +kernel
example : infOrInfinity c!"-infinity" =
    some ([], (infBits true)) := by decide +kernel
-- 2278 test_special_float_constant_nan
example : specialFloatConstant c!"nan" =
    some ([], nanBits false) := by decide +kernel
example : specialFloatConstant c!"+nan" =
    some ([], nanBits false) := by decide +kernel
example : specialFloatConstant c!"-nan" =
    some ([], nanBits true) := by decide +kernel
-- 2299 test_special_float_constant_inf
example : specialFloatConstant c!"inf" =
    some ([], (infBits false)) := by decide +kernel
example : specialFloatConstant c!"-inf" =
    some ([], (infBits true)) := by decide +kernel
-- 2308 test_special_float_constant_infinity
example : specialFloatConstant c!"infinity" =
    some ([], (infBits false)) := by decide +kernel
example : specialFloatConstant c!"-infinity" =
    some ([], (infBits true)) := by decide +kernel
-- 2326 test_integer_constant
example : integerConstant c!"1234" =
    some ([], 1234) := by decide +kernel
example : integerConstant c!"-1234" =
    some ([], (-1234)) := by decide +kernel
example : integerConstant c!"0x1234" =
    some ([], 4660) := by decide +kernel
example : integerConstant c!"-0x1234" =
    some ([], (-4660)) := by decide +kernel
-- 2361 test_file_extension_decl_with_comments
example : fileExtensionDecl c!"file_extension  //bar\n        // foo\n            \"foo\"//baz\n\t;" =
    some ([], ([], c!"foo")) := by decide +kernel
-- 2372 test_file_extension_decl_with_doc_comments
example : fileExtensionDecl c!"/// Doc1\n//\n\n/// Doc2\nfile_extension \"foo\";" =
    some ([], ([c!" Doc1", c!" Doc2"], c!"foo")) := by decide +kernel
-- 2386 test_file_extension_decl
example : fileExtensionDecl c!"file_extension \"foo\";" =
    some ([], ([], c!"foo")) := by decide +kernel
-- 2393 test_file_extension_decl_no_leading_space
example : fileExtensionDecl c!"file_extension\"foo\";" =
    some ([], ([], c!"foo")) := by decide +kernel
-- 2400 test_file_extension_decl_trailing_space
example : fileExtensionDecl c!"file_extension \"foo\"  ;" =
    some ([], ([], c!"foo")) := by decide +kernel
-- 2407 test_file_extension_decl_surrounding_space
example : fileExtensionDecl c!"file_extension   \"foo\"  ;" =
    some ([], ([], c!"foo")) := by decide +kernel
-- 2459 test_file_identifier_decl_with_comments
example : fileIdentifierDecl c!"file_identifier // baz\n            \t\t\"PAR3\"// buz!\n\t;" =
    some ([], ([], [80, 65, 82, 51])) := by decide +kernel
-- 2469 test_file_identifier_decl_with_doc_comments
example : fileIdentifierDecl c!"/// Some file id\n\n//\n/// Doc 2\nfile_identifier \"PAR3\";" =
    some ([], ([c!" Some file id", c!" Doc 2"], [80, 65, 82, 51])) := by decide +kernel
-- 2482 test_file_identifier_decl
example : fileIdentifierDecl c!"file_identifier \"PAR3\";" =
    some ([], ([], [80, 65, 82, 51])) := by decide +kernel
-- 2489 test_file_identifier_decl_no_leading_space
example : fileIdentifierDecl c!"file_identifier\"BAAR\";" =
    some ([], ([], [66, 65, 65, 82])) := by decide +kernel
-- 2496 test_file_identifier_decl_trailing_space
example : fileIdentifierDecl c!"file_identifier \"DEF1\"  ;" =
    some ([], ([], [68, 69, 70, 49])) := by decide +kernel
-- 2503 test_file_identifier_decl_surrounding_space
example : fileIdentifierDecl c!"file_identifier   \"ABCD\"  ;" =
    some ([], ([], [65, 66, 67, 68])) := by decide +kernel
-- 2510 test_file_identifier_decl_with_multibyte_char
example : fileIdentifierDecl c!"file_identifier \"❤234\";" =
    none := by decide +kernel
-- 2539 test_empty_comment
example : comment c!"//\n" =
    some (c!"\n", ()) := by decide +kernel
example : comment c!"//\r\n" =
    some (c!"\r\n", ()) := by decide +kernel
-- 2550 test_comment
example : comment c!"// a b c \n" =
    some (c!"\n", ()) := by decide +kernel
-- 2557 test_empty_raw_doc_comment
example : rawDocComment c!"///\n" =
    some (c!"\n", []) := by decide +kernel
example : rawDocComment c!"///\r\n" =
    some (c!"\r\n", []) := by decide +kernel
-- 2573 test_doc_comment_lines
example : docComment c!"/// A\n///   B\n/// C\n" =
    some ([], [c!" A", c!"   B", c!" C"]) := by decide +kernel
-- 2581 test_doc_comment
example : docComment c!"/// My awesome table!\n" =
    some ([], [c!" My awesome table!"]) := by decide +kernel
-- 2589 test_doc_comment_multi_line
example : docComment c!"/// My awesome table!\n/// Another comment w00t?\n" =
    some ([], [c!" My awesome table!", c!" Another comment w00t?"]) := by decide +kernel
example : docComment c!"/// My awesome table!\na" =
    some (c!"a", [c!" My awesome table!"]) := by decide +kernel

end Butte.Parse
