import Verif.Parse.Exact
import Verif.Parse.Ascii
/-
Properties C51–C57: the schema parser (butte-build/src/ast/parser.rs) and its use by `compile_fbs_generic`
(butte-build/src/compile.rs).
-/
namespace Butte.Parse
open Ast

/-! ### Concrete schemas -/

section
variable (n : Ident)

/-- A field without default and metadata. -/
def exField (ty : Ty) : Field := ⟨n, ty, none, none, []⟩
/-- A table with one field. -/
def exTable (f : Field) : Element := .table ⟨n, [f], none, []⟩
end

/-- `include "a/b.fbs"; namespace A.B; /// doc⏎ table T(original_order) { a:[string](id:0,key:"x"); b:int=-5; c:E=X;
d:double=0e-1074; } enum E:ubyte(bit_flags) { X=3, Y } union U { T } root_type T; rpc_service R { /// go⏎ Get(T):A.B.T; }` -/
def exAst : Schema :=
  ⟨[⟨c!"a/b.fbs", c!"b", []⟩],
   [.namespace [c!"A", c!"B"] [],
    .table ⟨c!"T",
      [⟨c!"a", .array .string, none,
          some [(c!"id", some (.scalar (.integer 0))), (c!"key", some (.string c!"x"))], []⟩,
       ⟨c!"b", .builtin .int, some (.scalar (.integer (-5))), none, []⟩,
       ⟨c!"c", .ident [c!"E"], some (.ident c!"X"), none, []⟩,
       ⟨c!"d", .builtin .double, some (.scalar (.float 0)), none, []⟩],
      some [(c!"original_order", none)], [c!" doc"]⟩,
    .enum ⟨c!"E", [⟨c!"X", some 3, []⟩, ⟨c!"Y", none, []⟩], .builtin .ubyte, some [(c!"bit_flags", none)], []⟩,
    .union ⟨c!"U", [⟨c!"T", none, []⟩], none, []⟩,
    .root c!"T" [],
    .rpc ⟨c!"R", [⟨c!"Get", [c!"T"], [c!"A", c!"B", c!"T"], none, [c!" go"]⟩], []⟩]⟩

/-! ### C51 -/

/-- **C51** for every syntax tree whose type names begin with no builtin name, whose variant names used as defaults do
not begin with `true` or `false`, and whose text does not contain the words `nan`, `inf` and `infinity`: parsing its
canonical text succeeds, consumes everything and returns the same tree. Full statement: without these restrictions. -/
theorem C51_partial [Env] {s : Schema} (h : SchemaOk s) (hv : NamesSchema s) (hq : NoSpecial (printSchema s)) :
    schemaDecl (printSchema s) = some ([], s) := schemaDecl_eq (printSchema_text h) hv hq

/-- The same for every other way of writing the schema, with any white space and comments between the tokens, any
number of leading zeros, hexadecimal integers and so on. -/
theorem C51_any_partial [Env] {s : Schema} {t : Str} (h : SchemaText s t) (hv : NamesSchema s) (hq : NoSpecial t) :
    schemaDecl t = some ([], s) := schemaDecl_eq h hv hq

section
attribute [local instance] asciiEnv

/-- An executable test for identifiers. -/
theorem isIdent_ascii {i : Ident} (h : (match i with
    | [] => false
    | c :: cs => (c.isAlpha || c == '_') && cs.all fun d => d.isAlpha || d.isDigit || d == '_') = true) : IsIdent i := by
  cases i with
  | nil => cases h
  | cons c cs =>
    simp only [Bool.and_eq_true, Bool.or_eq_true, List.all_eq_true, beq_iff_eq] at h
    exact ⟨h.1, fun d hd => or_assoc.mp (h.2 d hd)⟩

theorem noSpecial_ascii {t : Str} (h : (hasWord c!"nan" t || (hasWord c!"inf" t || hasWord c!"infinity" t)) = false) :
    NoSpecial t := by
  by_contra hc
  rw [← hasSpecial_iff] at hc
  rw [Bool.or_eq_false_iff] at h
  rcases hc.hasWord with hw | hw
  · rw [h.1] at hw; cases hw
  · rw [h.2] at hw; cases hw

theorem rawText_ascii {s : Str} (h : (s.all fun c => c != '\\' && c != '"') = true) : RawText s := by
  induction s with
  | nil => exact .nil
  | cons c s ih =>
    rw [List.all_cons, Bool.and_eq_true, Bool.and_eq_true] at h
    exact .plain (by simpa using h.1.1) (by simpa using h.1.2) (ih h.2)

theorem plain_ascii {i : Ident} (h : (builtins.all fun x => !x.2.isPrefixOf i) = true)
    (h' : (c!"string").isPrefixOf i = false) : Plain i := by
  refine ⟨fun b hb => ?_, fun hb => ?_⟩
  · have := List.all_eq_true.mp h _ (builtins_all b)
    rw [List.isPrefixOf_iff_prefix.mpr hb] at this
    cases this
  · rw [List.isPrefixOf_iff_prefix.mpr hb] at h'
    cases h'

theorem exAst_ok : SchemaOk exAst := by
  have id : ∀ i ∈ [c!"A", c!"B", c!"T", c!"a", c!"b", c!"c", c!"d", c!"E", c!"X", c!"Y", c!"U", c!"R", c!"Get", c!"id",
      c!"key", c!"original_order", c!"bit_flags"], IsIdent i := fun i hi => isIdent_ascii (by revert i; decide)
  have doc : ∀ d ∈ [[], [c!" doc"], [c!" go"]], DocOk d := by unfold DocOk OneLine; decide
  refine ⟨List.forall_mem_singleton.mpr ⟨rawText_ascii (by decide), rfl, nofun⟩, ?_⟩
  simp only [exAst, List.forall_mem_cons]
  refine ⟨⟨⟨nofun, ?_⟩, doc _ (by decide)⟩, ⟨doc _ (by decide), id _ (by decide), ?_, ?_⟩,
    ⟨doc _ (by decide), id _ (by decide), trivial, ?_, nofun, ?_⟩,
    ⟨doc _ (by decide), id _ (by decide), trivial, nofun, ?_⟩, ⟨id _ (by decide), rfl⟩,
    ⟨doc _ (by decide), id _ (by decide), nofun, ?_⟩, nofun⟩
  · exact fun i hi => id i (by revert i; decide)
  · exact List.forall_mem_singleton.mpr ⟨id _ (by decide), nofun⟩
  · simp only [List.forall_mem_cons]
    refine ⟨⟨doc _ (by decide), id _ (by decide), trivial, trivial, ?_⟩,
      ⟨doc _ (by decide), id _ (by decide), trivial, ?_, trivial⟩,
      ⟨doc _ (by decide), id _ (by decide), ⟨⟨nofun, List.forall_mem_singleton.mpr (id _ (by decide))⟩, ?_⟩,
        ⟨id _ (by decide), by decide, by decide⟩, trivial⟩,
      ⟨doc _ (by decide), id _ (by decide), trivial, ?_, trivial⟩, nofun⟩
    · simp only [MetaOk, List.forall_mem_cons]
      refine ⟨⟨id _ (by decide), fun v hv => ?_⟩, ⟨id _ (by decide), fun v hv => ?_⟩, nofun⟩
      · cases hv; unfold SingleOk ScalarOk; omega
      · cases hv; exact rawText_ascii (by decide)
    · show -(2 ^ 127) ≤ (-5 : Int) ∧ (-5 : Int) < 2 ^ 127
      omega
    · intro i hi
      cases hi
      exact plain_ascii (by decide) (by decide)
    · show 0 % 2 ^ 63 ≤ 2047 * 2 ^ 52
      decide
  · exact List.forall_mem_singleton.mpr ⟨id _ (by decide), nofun⟩
  · simp only [List.forall_mem_cons]
    refine ⟨⟨doc _ (by decide), id _ (by decide), fun i hi => ?_⟩, ⟨doc _ (by decide), id _ (by decide), nofun⟩, nofun⟩
    cases hi
    omega
  · exact List.forall_mem_singleton.mpr ⟨doc _ (by decide), id _ (by decide), nofun⟩
  · exact List.forall_mem_singleton.mpr ⟨doc _ (by decide), id _ (by decide),
      ⟨nofun, fun i hi => id i (by revert i; decide)⟩, ⟨nofun, fun i hi => id i (by revert i; decide)⟩, trivial⟩

theorem exAst_names : NamesSchema exAst := by
  unfold NamesSchema exAst
  simp only [List.forall_mem_cons, NamesElement, NamesDefault]
  exact ⟨trivial, ⟨trivial, trivial, ⟨by decide, by decide⟩, trivial, nofun⟩, trivial, trivial, trivial, trivial, nofun⟩

example : schemaDecl (printSchema exAst) = some ([], exAst) :=
  C51_partial exAst_ok exAst_names (noSpecial_ascii (by decide +kernel))

/-- **C51** is false as stated. A table whose field has the user type `boolean` is not read back: the type is read as
`bool` (see C55). A table whose field has the default 5 is not read back when a later field is called `nan` (see C57).
A table whose field has the default `trueX` is not when a later field is called `true`. Nothing is read at all in these
cases. -/
theorem C51_refuted :
    (∀ s ∈ [exTable c!"T" (exField c!"a" (.ident [c!"boolean"])),
        .table ⟨c!"T", [⟨c!"a", .builtin .int, some (.scalar (.integer 5)), none, []⟩,
          exField c!"nan" (.builtin .int)], none, []⟩,
        .table ⟨c!"T", [⟨c!"a", .ident [c!"E"], some (.ident c!"trueX"), none, []⟩,
          exField c!"true" (.builtin .int)], none, []⟩],
      schemaDecl (printSchema ⟨[], [s]⟩) = some (printSchema ⟨[], [s]⟩, ⟨[], []⟩)) := by
  simp only [List.forall_mem_cons]
  exact ⟨rfl, rfl, rfl, nofun⟩

end

/-! ### C52 -/

section
variable [Env]

/-- **C52**: whenever a rule of the grammar succeeds, it has consumed at least one character and the remaining input is
what follows the consumed part; `Strict p` says that for a rule `p`. The rules that may succeed without consuming
anything (`Consumes`) leave a suffix of the input. -/
theorem C52_suffix :
    (Strict ident ∧ Strict qualifiedIdent ∧ Strict stringConstant ∧ Strict comment ∧ Strict commentOrSpace ∧
      Strict cos1 ∧ Strict decIntegerConstant ∧ Strict hexIntegerConstant ∧ Strict integerConstant ∧ Strict nan ∧
      Strict infOrInfinity ∧ Strict hexFloatConstant ∧ Strict decFloatConstant ∧ Strict floatConstant ∧
      Strict booleanConstant ∧ Strict scalar ∧ Strict single ∧ Strict defaultValue) ∧
    (Strict type_ ∧ Strict rawMetadata ∧ Strict value_ ∧ Strict object ∧ Strict fieldDecl ∧
      Strict (productDecl c!"table") ∧ Strict (productDecl c!"struct") ∧ Strict enumvalDecl ∧ Strict enumBody ∧
      Strict enumDecl ∧ Strict unionDecl ∧ Strict rpcMethod ∧ Strict rpcDecl ∧ Strict namespaceDecl ∧
      Strict attributeDecl ∧ Strict rootDecl ∧ Strict fileExtensionDecl ∧ Strict fileIdentifierDecl ∧
      Strict includeDecl ∧ Strict element) ∧
    Consumes cos0 ∧ Consumes docComment ∧ Consumes metadata ∧ Consumes schemaDecl :=
  ⟨⟨ident_strict, qualifiedIdent_strict, stringConstant_strict, comment_strict, commentOrSpace_strict, cos1_strict,
    decIntegerConstant_strict, hexIntegerConstant_strict, integerConstant_strict, nan_strict, infOrInfinity_strict,
    hexFloatConstant_strict, decFloatConstant_strict, floatConstant_strict, booleanConstant_strict, scalar_strict,
    single_strict, defaultValue_strict⟩,
   ⟨type_strict, rawMetadata_strict, value__strict, object_strict, fieldDecl_strict, productDecl_strict _,
    productDecl_strict _, enumvalDecl_strict, enumBody_strict, enumDecl_strict, unionDecl_strict, rpcMethod_strict,
    rpcDecl_strict, namespaceDecl_strict, attributeDecl_strict, rootDecl_strict, fileExtensionDecl_strict,
    fileIdentifierDecl_strict, includeDecl_strict, element_strict⟩,
   cos0_consumes, docComment_consumes, metadata_consumes, schemaDecl_consumes⟩

omit [Env] in
/-- **C52**, repetitions: a repetition of a rule that consumes something ends after finitely many rounds in front of a
text which that rule refuses, whatever the text; and the number of rounds that the model allows makes no difference,
since it satisfies the equation of the unbounded loop. So does the rest of a list with separators. -/
theorem C52_loops {α β : Type} {p : P α} (hp : Strict p) {s : P β} (hs : Strict s) (i : Str) :
    (∃ r as, many0 p i = some (r, as) ∧ p r = none) ∧
    (many0 p i = match p i with
      | none => some (i, [])
      | some (r, a) => push a (many0 p r)) ∧
    (∃ r as, sepRest s p i = some (r, as) ∧ (s r = none ∨ ∃ k b, s r = some (k, b) ∧ p k = none)) ∧
    (sepRest s p i = match s i with
      | none => some (i, [])
      | some (r, _) => match p r with
        | none => some (i, [])
        | some (r', a) => push a (sepRest s p r')) := by
  refine ⟨many0_total hp i, ?_, sepRest_total hs hp.consumes i, ?_⟩
  · rw [many0_eq hp.consumes]
    cases e : p i with
    | none => rfl
    | some x =>
      have := hp.ne e
      simp only
      rw [if_neg (fun h => by rw [h] at this; omega)]
  · rw [sepRest_eq hs.consumes hp.consumes]
    cases e : s i with
    | none => rfl
    | some x =>
      have h1 := hs.ne e
      simp only
      rw [if_neg (fun h => by rw [h] at h1; omega)]
      cases e' : p x.1 with
      | none => rfl
      | some y =>
        have h2 := hp.ne e'
        simp only
        rw [if_neg (fun h => by rw [h] at h2; omega)]

/-- **C52**, nesting: types and values satisfy the recursive equations of the grammar, without the bound on the nesting
that makes them functions in the model. -/
theorem C52_nesting :
    (type_ = alt (builtinAlt builtins) (alt (value .string (tag c!"string"))
      (alt (map (delimited (char '[') type_ (char ']')) .array) (map qualifiedIdent .ident)))) ∧
    (value_ = alt (map single .single) (alt (map object (fun x => .object x.2 x.1))
      (map (valueListOf value_) .list))) ∧
    object = objectOf value_ := ⟨type_unfold, value_unfold, rfl⟩

/-- **C52** for the whole: `schema_decl` comes to an end on every text, at a place where neither white space followed by
a declaration nor a declaration begins, and what is left is a suffix of the text. -/
theorem C52_schema (t : Str) :
    ∃ r s, schemaDecl t = some (r, s) ∧ r <:+ t ∧ delimited cos0 element cos0 r = none := by
  obtain ⟨r, is, h1, -⟩ := many0_total (spaced_strict includeDecl_strict) t
  obtain ⟨r', es, h2, h3⟩ := many0_total (spaced_strict element_strict) r
  have : schemaDecl t = some (r', ⟨is, es⟩) := map_eq (a := (is, es)) (pair_eq h1 h2)
  exact ⟨r', _, this, schemaDecl_consumes _ _ _ this, h3⟩

end

section
attribute [local instance] asciiEnv

/-- Not the whole input need be consumed: the second declaration lacks its semicolon. -/
example : schemaDecl c!"namespace A; namespace B" = some (c!"namespace B", ⟨[], [.namespace [c!"A"] []]⟩) := rfl

/-- A type nested in four lists. -/
example : type_ c!"[[[[int]]]];" = some (c!";", .array (.array (.array (.array (.builtin .int))))) := rfl

end

/-! ### C53 -/

section
attribute [local instance] asciiEnv

/-- **C53** is false: a comment, in a place where comments are allowed, makes a table unreadable when it contains the
word `nan` (see C57). -/
theorem C53_refuted :
    (∃ e, schemaDecl c!"table T { a:int=5; }" = some ([], ⟨[], [e]⟩)) ∧
    schemaDecl c!"table T { a:int=5; } // nan" = some (c!"table T { a:int=5; } // nan", ⟨[], []⟩) := ⟨⟨_, rfl⟩, rfl⟩

/-- **C53** is also false where the grammar lacks a place for white space that the documented grammar has: in front of the
metadata of an enum and inside the brackets of a list type. A file that consists of white space or a comment is not
read as an empty schema, either. -/
theorem C53_places_refuted :
    (∃ e, schemaDecl c!"enum E:byte(bit_flags) {A}" = some ([], ⟨[], [e]⟩)) ∧
    schemaDecl c!"enum E:byte (bit_flags) {A}" = some (c!"enum E:byte (bit_flags) {A}", ⟨[], []⟩) ∧
    (∃ e, schemaDecl c!"table T{a:[int];}" = some ([], ⟨[], [e]⟩)) ∧
    schemaDecl c!"table T{a:[ int ];}" = some (c!"table T{a:[ int ];}", ⟨[], []⟩) ∧
    schemaDecl [] = some ([], ⟨[], []⟩) ∧
    schemaDecl c!"// todo\n" = some (c!"// todo\n", ⟨[], []⟩) :=
  ⟨⟨_, rfl⟩, rfl, ⟨_, rfl⟩, rfl, rfl, rfl⟩

end

section
variable [Env]

/-- **C53** wherever the grammar allows white space and comments, in texts that do not contain the words `nan`, `inf`
and `infinity`: all ways of writing a schema, which differ in white space, comments and spellings of numbers, are read
as the same tree. `SchemaText` allows any amount of white space and comments between any two tokens except in front of
the metadata of an enum and inside the brackets of a list type. Full statement: there, too, and in any text. -/
theorem C53_partial {s : Schema} {t t' : Str} (h : SchemaText s t) (h' : SchemaText s t') (hv : NamesSchema s)
    (hq : NoSpecial t) (hq' : NoSpecial t') : schemaDecl t = schemaDecl t' := by
  rw [schemaDecl_eq h hv hq, schemaDecl_eq h' hv hq']

omit [Env] in
/-- **C53** for a single gap: white space and comments in front of any text are skipped as if they were not there,
in the gaps that may be empty and in those that may not. -/
theorem C53_gap {w : Str} (hw : Trivia w) (t : Str) :
    cos0 (w ++ t) = cos0 t ∧ (w ≠ [] → Solid t → cos1 (w ++ t) = some (t, ())) :=
  ⟨cos0_trivia hw t, fun hne ht => cos1_skip hw hne ht⟩

/-- **C53** at the beginning of a file, for every text of which some declaration is read, even one with the words
`nan`, `inf` and `infinity`. -/
theorem C53_leading {w t r : Str} {s : Schema} (hw : Trivia w) (h : schemaDecl t = some (r, s))
    (hne : s.includes ≠ [] ∨ s.elements ≠ []) : schemaDecl (w ++ t) = some (r, s) := by
  have hpe : ∀ {α : Type} (p : P α), delimited cos0 p cos0 (w ++ t) = delimited cos0 p cos0 t := by
    intro α p
    unfold delimited preceded pair map
    simp only
    rw [cos0_trivia hw]
  obtain ⟨⟨is, es⟩, h0, e⟩ := map_inv h
  subst e
  obtain ⟨j, h1, h2⟩ := pair_inv h0
  refine map_eq (a := (is, es)) ?_
  dsimp only at h1 h2 hne
  have hmany : ∀ {α : Type} {p : P α} {r : Str} {as : List α}, Strict p → as ≠ [] →
      many0 (delimited cos0 p cos0) t = some (r, as) → many0 (delimited cos0 p cos0) (w ++ t) = some (r, as) := by
    intro α p r as hp hne h
    rw [(C52_loops (spaced_strict hp) (char_strict 'a') _).2.1] at h ⊢
    rw [hpe]
    cases e : delimited cos0 p cos0 t with
    | none => rw [e] at h; cases h; exact absurd rfl hne
    | some x => rw [e] at h; exact h
  by_cases hi : is = []
  · subst hi
    have hn : delimited cos0 includeDecl cos0 t = none ∧ j = t := by
      rw [(C52_loops (spaced_strict includeDecl_strict) (char_strict 'a') _).2.1] at h1
      cases e : delimited cos0 includeDecl cos0 t with
      | none => rw [e] at h1; cases h1; exact ⟨rfl, rfl⟩
      | some x =>
        rw [e] at h1
        obtain ⟨as, -, h⟩ := push_some h1
        cases h
    obtain ⟨hn, rfl⟩ := hn
    refine pair_eq (j := w ++ j) ?_ (hmany element_strict (hne.resolve_left (fun h => h rfl)) h2)
    rw [(C52_loops (spaced_strict includeDecl_strict) (char_strict 'a') _).2.1, hpe, hn]
  · exact pair_eq (hmany includeDecl_strict hi h1) h2

end

section
attribute [local instance] asciiEnv

/-- White space and comments in every gap. -/
example : Trivia c!" // a\n\t// b\r\n" := by
  refine .space (.inl rfl) ?_
  refine .comment (b := c!" a") (nl := c!"\n") (w := c!"\t// b\r\n") (by unfold OneLine; decide) (by decide) (.inl rfl) ?_
  refine .space (.inr (.inl rfl)) ?_
  exact .comment (b := c!" b") (nl := c!"\r\n") (w := []) (by unfold OneLine; decide) (by decide) (.inr rfl) .nil

example : schemaDecl c!"//a\n table T//b\n{ a //c\n : int ; } // nan" =
    schemaDecl c!"table T{a:int;}" := rfl

end

/-! ### C54 -/

section

/-- **C54**, decimal: any number of leading zeros, then the digits of a number, with or without a sign, are read as
that number when it is an `i128`, and refused otherwise, in front of anything that may follow a number. -/
theorem C54_decimal [Env] {neg : Bool} {sg : Str} (hs : Sign neg sg) (n zeros : Nat) {r : Str} (hr : Delim r) :
    integerConstant (sg ++ (List.replicate zeros '0' ++ (Nat.toDigits 10 n ++ r))) =
      if -(2 ^ 127) ≤ signed neg n ∧ signed neg n < 2 ^ 127 then some (r, signed neg n) else none := by
  have hv : digitsVal 10 (List.replicate zeros '0' ++ Nat.toDigits 10 n) = n := by
    rw [digitsVal_zeros, digitsVal_toDigits 10 (by decide) (by decide)]
  have hd : Digits (List.replicate zeros '0' ++ Nat.toDigits 10 n) := by
    intro c hc
    rcases List.mem_append.mp hc with hc | hc
    · rw [(List.mem_replicate.mp hc).2]; rfl
    · exact toDigits_digits n c hc
  have hne : List.replicate zeros '0' ++ Nat.toDigits 10 n ≠ [] := by simp [Nat.toDigits_ne_nil]
  rw [← List.append_assoc (List.replicate zeros '0')]
  split
  · rename_i h
    have := integerConstant_eq (.dec hs hd hne (by rw [hv]; exact h.1) (by rw [hv]; exact h.2)) hr
    rw [hv, List.append_assoc] at this
    exact this
  · rename_i h
    exact integerConstant_none hs hd hne hr (by rw [hv]; exact h)

/-- **C54**, hexadecimal digits below `2 ^ 127`: read as the number with its sign. Full statement: for every `i128`,
and numbers outside are refused. -/
theorem C54_hex_partial [Env] {neg : Bool} {sg : Str} (hs : Sign neg sg) {x : Char} (hx : x = 'x' ∨ x = 'X')
    (n zeros : Nat) (hn : n < 2 ^ 127) {r : Str} (hr : Delim r) :
    integerConstant (sg ++ '0' :: x :: (List.replicate zeros '0' ++ (Nat.toDigits 16 n ++ r))) =
      some (r, signed neg n) := by
  have hv : digitsVal 16 (List.replicate zeros '0' ++ Nat.toDigits 16 n) = n := by
    rw [digitsVal_zeros, digitsVal_toDigits 16 (by decide) (by decide)]
  have hd : HexDigits (List.replicate zeros '0' ++ Nat.toDigits 16 n) := by
    intro c hc
    rcases List.mem_append.mp hc with hc | hc
    · rw [(List.mem_replicate.mp hc).2]; decide
    · exact toDigits_hex n c hc
  have hne : List.replicate zeros '0' ++ Nat.toDigits 16 n ≠ [] := by simp [Nat.toDigits_ne_nil]
  have := integerConstant_eq (.hex hs hx hd hne (by rw [hv]; exact hn)) hr
  rw [hv] at this
  simpa using this

/-- **C54**, larger hexadecimal numbers: the rule reads the leading zero as 0 and leaves the rest, beginning with the
`x`, to a context that has no use for it. -/
theorem C54_hex_overflow {neg : Bool} {sg : Str} (hs : Sign neg sg) {x : Char} (hx : x = 'x' ∨ x = 'X')
    (n : Nat) (hn : 2 ^ 127 ≤ n) {r : Str} (hr : Delim r) :
    integerConstant (sg ++ '0' :: x :: (Nat.toDigits 16 n ++ r)) = some (x :: (Nat.toDigits 16 n ++ r), 0) :=
  integerConstant_overflow hs hx (toDigits_hex n) Nat.toDigits_ne_nil hr.stopsHex
    (by rw [digitsVal_toDigits 16 (by decide) (by decide)]; exact hn)

/-- Upper case hexadecimal digits have the same values. -/
theorem C54_case {ds : Str} (h : HexDigits ds) : HexDigits (ds.map Char.toUpper) ∧
    digitsVal 16 (ds.map Char.toUpper) = digitsVal 16 ds := by
  have key : ∀ n < 128, isHexDigit (Char.ofNat n) = true → isHexDigit (Char.ofNat n).toUpper = true ∧
      digitVal (Char.ofNat n).toUpper = digitVal (Char.ofNat n) := by decide
  have hk : ∀ c, isHexDigit c = true → isHexDigit c.toUpper = true ∧ digitVal c.toUpper = digitVal c := by
    intro c hc
    have hlt : c.toNat < 128 := by
      unfold isHexDigit at hc
      simp only [Bool.or_eq_true, Bool.and_eq_true, decide_eq_true_eq, Char.le_def, UInt32.le_iff_toNat_le] at hc
      rcases hc with (hc | ⟨-, hc⟩) | ⟨-, hc⟩
      · exact (isDigit_spec hc).1
      · have : c.toNat ≤ 102 := hc
        omega
      · have : c.toNat ≤ 70 := hc
        omega
    have := key c.toNat hlt
    rw [Char.ofNat_toNat] at this
    exact this hc
  refine ⟨fun c hc => ?_, ?_⟩
  · obtain ⟨d, hd, rfl⟩ := List.mem_map.mp hc
    exact (hk d (h d hd)).1
  · unfold digitsVal
    rw [List.foldl_map]
    have : ∀ (l : Str) (n : Nat), (∀ c ∈ l, isHexDigit c = true) →
        l.foldl (fun n c => n * 16 + digitVal c.toUpper) n = l.foldl (fun n c => n * 16 + digitVal c) n := by
      intro l
      induction l with
      | nil => intro n _; rfl
      | cons c l ih =>
        intro n hl
        rw [List.foldl_cons, List.foldl_cons, (hk c (hl c List.mem_cons_self)).2,
          ih _ (fun d hd => hl d (List.mem_cons_of_mem _ hd))]
    exact this ds 0 h

attribute [local instance] asciiEnv

/-- **C54** is false for the least `i128` in hexadecimal, which is not read (`-0x8000…0` in an enum), though the same
number in decimal is. -/
theorem C54_refuted :
    (∃ e, schemaDecl c!"enum E:byte {A=-170141183460469231731687303715884105728}" = some ([], ⟨[], [.enum e]⟩) ∧
      e.variants.map (·.value) = [some (-(2 ^ 127))]) ∧
    schemaDecl c!"enum E:byte {A=-0x80000000000000000000000000000000}" =
      some (c!"enum E:byte {A=-0x80000000000000000000000000000000}", ⟨[], []⟩) := by
  refine ⟨⟨_, rfl, rfl⟩, rfl⟩

example : integerConstant c!"-007;" = some (c!";", -7) := C54_decimal .minus 7 2 ⟨_, _, rfl, by decide⟩
example : integerConstant c!"+0Xff," = some (c!",", 255) :=
  C54_hex_partial .plus (.inr rfl) 255 0 (by omega) ⟨_, _, rfl, by decide⟩

end

/-! ### C55 -/

section

/-- **C55** is false: `boolean` is read as `bool`, `stringy` as `string`, and a table that uses such a type name is not
read at all. -/
theorem C55_refuted : letI := asciiEnv
    type_ c!"boolean;" = some (c!"ean;", .builtin .bool) ∧ type_ c!"stringy;" = some (c!"y;", .string) ∧
    schemaDecl c!"table T { a:integer; }" = some (c!"table T { a:integer; }", ⟨[], []⟩) := ⟨rfl, rfl, rfl⟩

variable [Env]

/-- **C55** holds exactly for the names that begin with no builtin name. Full statement: for every identifier other than
a builtin name. -/
theorem C55_partial {i : Ident} (hi : IsIdent i) (hb : ∀ b, i ≠ builtinName b) (hs : i ≠ c!"string") {r : Str}
    (hr : Follow r) : type_ (i ++ r) = some (r, .ident [i]) ↔ Plain i := by
  constructor
  · intro h
    by_contra hp
    obtain ⟨n, s, ty, -, -, -, h1, h2⟩ := type_cut hb hs hp hr.delim.stopsAlnum
    rw [h2, Option.some.injEq, Prod.mk.injEq] at h
    exact h1 _ h.2
  · intro hp
    exact type_eq (.ident hp (.one ⟨hi, rfl⟩)) hr

/-- **C55**, qualified names: the same for the first part of the name; the other parts may begin with anything. -/
theorem C55_qualified_partial {i : Ident} {q : QIdent} {t r : Str} (hp : Plain i) (h : QIdentText (i :: q) t)
    (hr : Follow r) : type_ (t ++ r) = some (r, .ident (i :: q)) := type_eq (.ident hp h) hr

/-- **C55**, the builtin types: each is read as itself. -/
theorem C55_builtin (b : Builtin) {r : Str} (hr : Follow r) :
    type_ (builtinName b ++ r) = some (r, .builtin b) := type_eq (.builtin b) hr

/-- **C55**, the other names: no field is read whose type is a name that begins with a builtin name but is none. -/
theorem C55_field {d : Comment} {dt : Str} (hd : DocText d dt) {f i : Ident} (hf : IsIdent f) {w₁ w₂ : Str}
    (hw₁ : Trivia w₁) (hw₂ : Trivia w₂) (hi : IsIdent i) (hb : ∀ b, i ≠ builtinName b) (hs : i ≠ c!"string")
    (hp : ¬ Plain i) {r : Str} (hr : Follow r) :
    fieldDecl (dt ++ (f ++ (w₁ ++ ':' :: (w₂ ++ (i ++ r))))) = none := by
  obtain ⟨n, s, ty, rfl, h1, h2, -, h3⟩ := type_cut hb hs hp hr.delim.stopsAlnum
  cases s with
  | nil => exact absurd rfl h1
  | cons c s =>
    refine fieldDecl_cut hd hf hw₁ hw₂ (hi.tok _).solid h3 ?_
    cases n with
    | nil => exact absurd rfl h2
    | cons a n =>
      have := hi.2 c (by simp)
      unfold identRest
      simp only [Bool.or_eq_true, beq_iff_eq]
      rcases this with h | h | h
      · exact .inl (.inl h)
      · exact .inl (.inr h)
      · exact .inr h

end

example : Plain c!"Monster" ∧ ¬ Plain c!"boolean" ∧ (∀ b, c!"boolean" ≠ builtinName b) :=
  ⟨plain_ascii (by decide) (by decide), fun h => h.1 .bool (by decide), fun b => by cases b <;> decide⟩

/-- C55_field: a field of type `boolean`, with comments around it. -/
example : letI := asciiEnv
    fieldDecl c!"/// d\na //x\n: boolean ;" = none ∧ fieldDecl c!"a:bool;" ≠ none := by
  let := asciiEnv
  exact ⟨C55_field (d := [c!" d"]) (dt := c!"/// d\n") (f := c!"a") (w₁ := c!" //x\n") (w₂ := c!" ") (i := c!"boolean")
    (r := c!" ;") (.cons (l := c!" d") (nl := c!"\n") (w := []) (t := []) (by unfold OneLine; decide) (.inl rfl) .nil .nil)
    (isIdent_ascii (by decide)) (.space (by decide) (.comment (b := c!"x") (nl := c!"\n") (by unfold OneLine; decide) (by decide) (.inl rfl) .nil))
    (.space (by decide) .nil) (isIdent_ascii (by decide)) (fun b => by cases b <;> decide) (by decide)
    (fun h => h.1 .bool (by decide)) ⟨c!" ", ';', [], .space (by decide) .nil, by decide, rfl⟩, by decide⟩

/-! ### C56 -/

section

/-- **C56** is false: the text `}` is not a schema, and `compile_fbs_generic` panics, since fewer than 30 bytes are left
to quote. So it does when 30 bytes end inside a character. And a complete schema with a file identifier panics, too,
in the semantic analysis. -/
theorem C56_refuted : letI := asciiEnv
    compileText c!"}" = some .panic ∧
    compileText c!"table T { a:int=5; } // nan" = some .panic ∧
    (∃ n, compileText (List.replicate n '}' ++ List.replicate 29 'é') = some .panic) ∧
    schemaDecl c!"file_identifier \"ABCD\";" = some ([], ⟨[], [.fileIdentifier [65, 66, 67, 68] []]⟩) ∧
    compileText c!"file_identifier \"ABCD\";" = some .panic :=
  ⟨rfl, rfl, ⟨1, rfl⟩, rfl, rfl⟩

variable [Env]

/-- **C56**, exactly: a text that is not a complete schema gives an error just when the first 30 bytes of what the parser
has left are whole characters. Otherwise there is a panic. Full statement: it always gives an error. -/
theorem C56_exact_partial {t : Str} (h : ¬ ∃ s, schemaDecl t = some ([], s)) :
    ∃ rest s, rest ≠ [] ∧ rest <:+ t ∧ schemaDecl t = some (rest, s) ∧
      ((∃ o, compileText t = some o ∧ o.IsErr) ↔ ∃ a b, rest = a ++ b ∧ (utf8 a).length = 30) ∧
      (compileText t = some .panic ↔ ¬ ∃ a b, rest = a ++ b ∧ (utf8 a).length = 30) := by
  obtain ⟨rest, s, hs⟩ := schemaDecl_total t
  have hne : rest ≠ [] := by
    rintro rfl
    exact h ⟨s, hs⟩
  have hc : ∀ o, sliceTo 30 rest = o →
      compileText t = (match o with | some q => some (.incomplete q) | none => some .panic) := by
    intro o ho
    unfold compileText
    rw [hs]
    simp only [if_neg hne, ho]
    cases o <;> rfl
  refine ⟨rest, s, hne, schemaDecl_consumes _ _ _ hs, hs, ?_⟩
  rw [hc _ rfl]
  cases e : sliceTo 30 rest with
  | some q =>
    obtain ⟨h1, b, h2⟩ := (sliceTo_some _ _ _).mp e
    have hx : ∃ a b, rest = a ++ b ∧ (utf8 a).length = 30 := ⟨q, b, h2, h1⟩
    exact ⟨⟨fun _ => hx, fun _ => ⟨_, rfl, trivial⟩⟩, ⟨nofun, fun hn => absurd hx hn⟩⟩
  | none =>
    have hx : ¬ ∃ a b, rest = a ++ b ∧ (utf8 a).length = 30 := by
      rintro ⟨a, b, h1, h2⟩
      rw [(sliceTo_some 30 rest a).mpr ⟨h2, b, h1⟩] at e
      cases e
    refine ⟨⟨?_, fun h => absurd h hx⟩, ⟨fun _ => hx, fun _ => rfl⟩⟩
    rintro ⟨o, ho, hi⟩
    cases ho
    cases hi

/-- **C56** when at least 30 characters are left and the first 30 are ASCII. -/
theorem C56_ascii_partial {t rest : Str} {s : Schema} (h : schemaDecl t = some (rest, s)) (hl : 30 ≤ rest.length)
    (ha : ∀ c ∈ rest.take 30, c.toNat < 128) : compileText t = some (.incomplete (rest.take 30)) := by
  have hne : rest ≠ [] := by rintro rfl; simp at hl
  have hu : ∀ l : Str, (∀ c ∈ l, c.toNat < 128) → (utf8 l).length = l.length := by
    intro l
    induction l with
    | nil => intro _; rfl
    | cons c l ih =>
      intro h
      have hc : c.utf8Size = 1 := Char.utf8Size_eq_one_iff.mpr (by
        have := h c List.mem_cons_self
        rw [UInt32.le_iff_toNat_le]
        show c.toNat ≤ 127
        omega)
      have := ih (fun d hd => h d (List.mem_cons_of_mem _ hd))
      simp only [utf8, List.flatMap_cons, List.length_append, String.length_utf8EncodeChar, List.length_cons] at this ⊢
      omega
  unfold compileText
  rw [h]
  simp only [if_neg hne]
  rw [(sliceTo_some 30 rest (rest.take 30)).mpr ⟨by rw [hu _ ha, List.length_take]; omega, rest.drop 30,
    (List.take_append_drop _ _).symm⟩]

/-- The message "parse failed" is never given: `schema_decl` succeeds on every text. -/
theorem C56_never_parseFailed (t : Str) : compileText t ≠ some .parseFailed := by
  obtain ⟨rest, s, h⟩ := schemaDecl_total t
  unfold compileText
  rw [h]
  simp only
  split
  · cases Ir.build s with
    | none => nofun
    | some r => cases r <;> nofun
  · split <;> nofun

end

example : letI := asciiEnv
    compileText c!"namespace A; } this is not a declaration at all" =
      some (.incomplete c!"} this is not a declaration at") := rfl

/-! ### C57 -/

section

/-- **C57** is false: no field with the default `nan` or `inf` is read, and neither is a field with another default
when one of these words occurs later in the file, be it as the name of a field or in a comment. -/
theorem C57_refuted : letI := asciiEnv
    ∀ t ∈ [c!"table T { a:double=nan; }", c!"table T { a:double=-inf; }", c!"table T { a:int=5; nan:int; }",
      c!"table T { a:int=5; } // nan", c!"table T { a:int=5; } table Inf { inf:int; }"],
      schemaDecl t = some (t, ⟨[], []⟩) := by
  simp only [List.forall_mem_cons]
  exact ⟨rfl, rfl, rfl, rfl, rfl, nofun⟩

variable [Env]

/-- **C57**, what happens instead: a field with a default, otherwise well written, in front of any text, is read exactly
when none of the words occurs after its equals sign, up to the end of the file. Full statement: always. -/
theorem C57_exact_partial {f : Field} {dt : Str} (hd : DocText f.doc dt) (hi : IsIdent f.id) {w₁ w₂ w₃ w₄ w₅ w₆ : Str}
    (hw₁ : Trivia w₁) (hw₂ : Trivia w₂) {tt : Str} (hty : TyText f.ty tt) (hw₃ : Trivia w₃) (hw₄ : Trivia w₄)
    {v : DefaultValue} (hf : f.default = some v) {vt : Str} (hv : DefaultText v vt)
    (hn : NamesDefault (some v)) (hw₅ : Trivia w₅) {mt : Str} (hm : MetaText f.metadata mt) (hw₆ : Trivia w₆) (r : Str) :
    fieldDecl (dt ++ (f.id ++ (w₁ ++ ':' :: (w₂ ++ (tt ++ (w₃ ++ '=' :: (w₄ ++ (vt ++ (w₅ ++ (mt ++
      (w₆ ++ ';' :: r))))))))))) = some (r, f) ↔ NoSpecial (vt ++ (w₅ ++ (mt ++ (w₆ ++ ';' :: r)))) :=
  fieldDecl_default hd hi hw₁ hw₂ hty hw₃ hw₄ hf hv hn hw₅ hm hw₆ r

/-- **C57**, the words themselves: a field whose default is followed or formed by one of the words is not read, whatever
else the rest of the file contains. -/
theorem C57_swallow {d : Comment} {dt : Str} (hd : DocText d dt) {i : Ident} (hi : IsIdent i) {w₁ w₂ w₃ w₄ : Str}
    (hw₁ : Trivia w₁) (hw₂ : Trivia w₂) {ty : Ty} {tt : Str} (hty : TyText ty tt) (hw₃ : Trivia w₃) (hw₄ : Trivia w₄)
    {u : Str} (hu : Solid u) (h : HasSpecial u) :
    fieldDecl (dt ++ (i ++ (w₁ ++ ':' :: (w₂ ++ (tt ++ (w₃ ++ '=' :: (w₄ ++ u))))))) = none :=
  fieldDecl_swallow hd hi hw₁ hw₂ hty hw₃ hw₄ hu h

/-- **C57**, as seen from the result: whatever the text, no table or struct that is read has a field whose default is
NaN (assuming that `parse_hexf64` returns none). -/
theorem C57_no_nan (hx : HexfOk) {t r : Str} {s : Schema} (h : schemaDecl t = some (r, s)) {p : Product}
    (hp : .table p ∈ s.elements ∨ .struct p ∈ s.elements) {f : Field} (hf : f ∈ p.fields) {b : Fin (2 ^ 64)}
    (hd : f.default = some (.scalar (.float b))) : ¬ IsNan b := schemaDecl_notNan hx h hp hf hd

end

example : letI := asciiEnv
    HexfOk ∧ IsNan (nanBits true) ∧ IsNan (nanBits false) ∧ HasSpecial c!"5; } // nan" := by
  let := asciiEnv
  refine ⟨nofun, by unfold IsNan nanBits; decide, by unfold IsNan nanBits; decide, c!"nan", by decide, c!"5; } // ", [],
    rfl, ?_, nofun⟩
  intro c hc
  cases hc
  decide

end Butte.Parse
