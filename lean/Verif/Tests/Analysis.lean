import Verif.Parse.Ascii
import Verif.Parse.Compile
import Verif.Tests.Kernel
/-
The unit tests of the analysis (butte-build/src/ir/transform.rs), run on the model: 15 tests, each from the text of a schema
to the tree. Documentation comments are not in the model's tree. The numbers are lines of transform.rs.
-/
namespace Butte.Parse

attribute [local instance] asciiEnv

set_option maxRecDepth 100000

-- 650 test_table_simple
example : compileText c!"// Not a doc\ntable HelloReply {\n    message:string;\n}\n" =
    some (.tree [.table ⟨[c!"HelloReply"], [⟨c!"message", .string, none, false, []⟩], false, []⟩]) := by kernel_rfl
-- 675 test_table_root
example : compileText c!"table HelloReply {\n    /// Doc\n    message:string;\n}\n\nroot_type HelloReply;\n" =
    some (.tree [.table ⟨[c!"HelloReply"], [⟨c!"message", .string, none, false, [c!" Doc"]⟩], true, []⟩]) := by kernel_rfl
-- 704 test_table_in_namespace
example : compileText c!"namespace foo.bar;\n\ntable HelloReply {\n    message:string;\n}\n" =
    some (.tree [.namespace [c!"foo"] [.namespace [c!"foo", c!"bar"] [.table ⟨[c!"foo", c!"bar", c!"HelloReply"], [⟨c!"message", .string, none, false, []⟩], false, []⟩]]]) := by kernel_rfl
-- 740 namespace_stacking
example : compileText c!"namespace foo.bar;\n\ntable HelloReply {\n    message:string;\n}\n\nnamespace foo.baz;\n\ntable GoodbyeReply {\n    message:string;\n}\n" =
    some (.tree [.namespace [c!"foo"] [.namespace [c!"foo", c!"bar"] [.table ⟨[c!"foo", c!"bar", c!"HelloReply"], [⟨c!"message", .string, none, false, []⟩], false, []⟩], .namespace [c!"foo", c!"baz"] [.table ⟨[c!"foo", c!"baz", c!"GoodbyeReply"], [⟨c!"message", .string, none, false, []⟩], false, []⟩]]]) := by kernel_rfl
-- 800 test_table_simple_dependency
example : compileText c!"table HelloMsg {\n    val: string;\n}\n\ntable HelloReply {\n    message: HelloMsg;\n}\n" =
    some (.tree [.table ⟨[c!"HelloMsg"], [⟨c!"val", .string, none, false, []⟩], false, []⟩, .table ⟨[c!"HelloReply"], [⟨c!"message", (.table [c!"HelloMsg"]), none, false, []⟩], false, []⟩]) := by kernel_rfl
-- 844 test_table_required_field
example : compileText c!"table HelloMsg {\n    message: string (required);\n}\n" =
    some (.tree [.table ⟨[c!"HelloMsg"], [⟨c!"message", .string, none, true, []⟩], false, []⟩]) := by kernel_rfl
-- 869 test_table_depends_on_next
example : compileText c!"table HelloReply {\n    message: HelloMsg;\n}\n\ntable HelloMsg {\n    val: string;\n}\n" =
    some (.tree [.table ⟨[c!"HelloReply"], [⟨c!"message", (.table [c!"HelloMsg"]), none, false, []⟩], false, []⟩, .table ⟨[c!"HelloMsg"], [⟨c!"val", .string, none, false, []⟩], false, []⟩]) := by kernel_rfl
-- 913 test_table_depends_on_next_with_root_type_first
example : compileText c!"root_type HelloReply;\n\ntable HelloReply {\n    message: HelloMsg;\n}\n\ntable HelloMsg {\n    val: string;\n}\n" =
    some (.tree [.table ⟨[c!"HelloReply"], [⟨c!"message", (.table [c!"HelloMsg"]), none, false, []⟩], true, []⟩, .table ⟨[c!"HelloMsg"], [⟨c!"val", .string, none, false, []⟩], false, []⟩]) := by kernel_rfl
-- 960 test_table_recursive
example : compileText c!"table HelloReply {\n    message: HelloReply;\n}\n" =
    some (.tree [.table ⟨[c!"HelloReply"], [⟨c!"message", (.table [c!"HelloReply"]), none, false, []⟩], false, []⟩]) := by kernel_rfl
-- 989 test_struct_single
example : compileText c!"struct Vector3 {\n    x: float32;\n    y: float32;\n    z: float32;\n} \n" =
    some (.tree [.struct ⟨[c!"Vector3"], [⟨c!"x", (.builtin .float32), none, false, []⟩, ⟨c!"y", (.builtin .float32), none, false, []⟩, ⟨c!"z", (.builtin .float32), none, false, []⟩], []⟩]) := by kernel_rfl
-- 1025 test_struct_in_struct
example : compileText c!"struct Vector2 {\n    x: float32;\n    y: float32;\n}\nstruct Vector3 {\n    xy: Vector2;\n    z: float32;\n} \n" =
    some (.tree [.struct ⟨[c!"Vector2"], [⟨c!"x", (.builtin .float32), none, false, []⟩, ⟨c!"y", (.builtin .float32), none, false, []⟩], []⟩, .struct ⟨[c!"Vector3"], [⟨c!"xy", (.struct [c!"Vector2"] [⟨c!"x", (.builtin .float32), none, false, []⟩, ⟨c!"y", (.builtin .float32), none, false, []⟩]), none, false, []⟩, ⟨c!"z", (.builtin .float32), none, false, []⟩], []⟩]) := by kernel_rfl
-- 1093 test_enum_single
example : compileText c!"enum MyEnum : ubyte { Foo, Bar }" =
    some (.tree [.enum ⟨[c!"MyEnum"], [⟨c!"Foo", none, []⟩, ⟨c!"Bar", none, []⟩], .ubyte, []⟩]) := by kernel_rfl
-- 1118 test_union_single
example : compileText c!"table A {\n            message: string;\n        }\n        table B {\n            message: [ubyte];\n        }\n        union AorB {\n            A,\n            B\n        }\n        " =
    some (.tree [.namespace [c!"butte_gen"] [.enum ⟨[c!"butte_gen", c!"AorBType"], [⟨c!"None", some 0, []⟩, ⟨c!"A", none, []⟩, ⟨c!"B", none, []⟩], .ubyte, []⟩], .table ⟨[c!"A"], [⟨c!"message", .string, none, false, []⟩], false, []⟩, .table ⟨[c!"B"], [⟨c!"message", (.array (.builtin .ubyte)), none, false, []⟩], false, []⟩, .union ⟨[c!"AorB"], [c!"butte_gen", c!"AorBType"], [⟨c!"A", (.table [c!"A"]), []⟩, ⟨c!"B", (.table [c!"B"]), []⟩], []⟩]) := by kernel_rfl
-- 1209 test_table_using_union
example : compileText c!"table A {\n            /// A nice message\n            message: string;\n        }\n        table B {\n            /// A nicer message\n            message: [ubyte];\n        }\n        union AorB {\n            /// Multiple\n            /// lines\n            /// of comments.\n            A,\n            /// Comments\n            B\n        }\n        table Z {\n            a_or_b: AorB;\n        }\n        " =
    some (.tree [.namespace [c!"butte_gen"] [.enum ⟨[c!"butte_gen", c!"AorBType"], [⟨c!"None", some 0, []⟩, ⟨c!"A", none, [c!" Multiple", c!" lines", c!" of comments."]⟩, ⟨c!"B", none, [c!" Comments"]⟩], .ubyte, []⟩], .table ⟨[c!"A"], [⟨c!"message", .string, none, false, [c!" A nice message"]⟩], false, []⟩, .table ⟨[c!"B"], [⟨c!"message", (.array (.builtin .ubyte)), none, false, [c!" A nicer message"]⟩], false, []⟩, .union ⟨[c!"AorB"], [c!"butte_gen", c!"AorBType"], [⟨c!"A", (.table [c!"A"]), [c!" Multiple", c!" lines", c!" of comments."]⟩, ⟨c!"B", (.table [c!"B"]), [c!" Comments"]⟩], []⟩, .table ⟨[c!"Z"], [⟨c!"a_or_b_type", (.enum [c!"butte_gen", c!"AorBType"] [⟨c!"None", some 0, []⟩, ⟨c!"A", none, [c!" Multiple", c!" lines", c!" of comments."]⟩, ⟨c!"B", none, [c!" Comments"]⟩] .ubyte), none, false, []⟩, ⟨c!"a_or_b", (.union [c!"AorB"] [c!"butte_gen", c!"AorBType"] [⟨c!"A", (.table [c!"A"]), [c!" Multiple", c!" lines", c!" of comments."]⟩, ⟨c!"B", (.table [c!"B"]), [c!" Comments"]⟩]), none, false, []⟩], false, []⟩]) := by kernel_rfl
-- 1395 test_rpc_method
example : compileText c!"namespace foo.bar;\ntable HelloMsg {\n    val: string;\n}\n\ntable HelloReply {\n    message: HelloMsg;\n}\n\nrpc_service Greeter {\n    SayHello(foo.bar.HelloMsg) : foo.bar.HelloReply;\n}\n  \n" =
    some (.tree [.namespace [c!"foo"] [.namespace [c!"foo", c!"bar"] [.table ⟨[c!"foo", c!"bar", c!"HelloMsg"], [⟨c!"val", .string, none, false, []⟩], true, []⟩, .table ⟨[c!"foo", c!"bar", c!"HelloReply"], [⟨c!"message", (.table [c!"foo", c!"bar", c!"HelloMsg"]), none, false, []⟩], true, []⟩, .rpc ⟨[c!"foo", c!"bar", c!"Greeter"], [⟨c!"SayHello", c!"say_hello", [c!"foo", c!"bar", c!"HelloMsg"], [c!"foo", c!"bar", c!"HelloReply"], .none, []⟩], []⟩]]]) := by kernel_rfl

end Butte.Parse
