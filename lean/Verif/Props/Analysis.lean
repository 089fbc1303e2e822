import Verif.Ir.Report
/-
Properties C45–C50, C59 and C60: the semantic analysis (butte-build/src/ir/transform.rs).
-/
namespace Butte.Ir
open Ast (Element)

set_option maxRecDepth 8000

/-! ### Schemas for the concrete cases -/

section
variable (n : Ast.Ident)

/-- A field of a builtin type. -/
def exPlain : Ast.Field := ⟨n, .builtin .int, none, none, []⟩
/-- A field of a user type. -/
def exRef (q : Ast.QIdent) : Ast.Field := ⟨n, .ident q, none, none, []⟩
/-- A table declaration. -/
def exTable (fs : List Ast.Field) : Element := .table ⟨n, fs, none, []⟩
/-- A struct declaration. -/
def exStruct (fs : List Ast.Field) : Element := .struct ⟨n, fs, none, []⟩
/-- An enum with one value. -/
def exEnum : Element := .enum ⟨n, [⟨c!"X", none, []⟩], .builtin .ubyte, none, []⟩
/-- A union. -/
def exUnion (vs : List Ast.Ident) : Element := .union ⟨n, vs.map fun v => ⟨v, none, []⟩, none, []⟩
/-- An rpc service with one method. -/
def exRpc (q : Ast.QIdent) : Element := .rpc ⟨n, [⟨c!"Get", q, q, none, []⟩], []⟩
/-- A namespace declaration. -/
def exNs : Element := .namespace [n] []
end

/-- `namespace A; root_type T; table T { u: U; s: S; } union U { T } struct S { e: E; x: int; } enum E: ubyte { X }
rpc_service R { Get(T): T; }` -/
def exSchema : Ast.Schema := ⟨[], [exNs c!"A", .root c!"T" [], exTable c!"T" [exRef c!"u" [c!"U"], exRef c!"s" [c!"S"]],
  exUnion c!"U" [c!"T"], exStruct c!"S" [exRef c!"e" [c!"E"], exPlain c!"x"], exEnum c!"E", exRpc c!"R" [c!"A", c!"T"]]⟩

theorem exSchema_one : OneNamespace exSchema.elements := by
  intro p el he hne
  have hp := (List.getElem?_eq_some_iff.mp he).1
  have hp : p < 7 := hp
  rcases Nat.lt_or_ge p 1 with h | h
  · obtain rfl : p = 0 := by omega
    cases he
    exact absurd rfl (hne _ _)
  · have : ∀ p, p < 7 → 1 ≤ p → lastNs (exSchema.elements.take p) = lastNs exSchema.elements := by decide
    exact this p hp h

example : ∃ out, build exSchema = some (.ok out) := ⟨_, rfl⟩

/-- `namespace A; enum E { X } namespace B; table T { e: A.E; t: T; } rpc_service R { Get(T): T; }` -/
def exSchema2 : Ast.Schema := ⟨[], [exNs c!"A", exEnum c!"E", exNs c!"B",
  exTable c!"T" [exRef c!"e" [c!"A", c!"E"], exRef c!"t" [c!"T"]], exRpc c!"R" [c!"T"]]⟩

theorem exSchema2_order : InOrder exSchema2.elements := by
  intro p el he r hr
  have hp : p < 5 := (List.getElem?_eq_some_iff.mp he).1
  have hcases : p = 0 ∨ p = 1 ∨ p = 2 ∨ p = 3 ∨ p = 4 := by omega
  rcases hcases with rfl | rfl | rfl | rfl | rfl
  · cases he; simp [exNs, needs, tableRefs] at hr
  · cases he; simp [exEnum, needs, tableRefs] at hr
  · cases he; simp [exNs, needs, tableRefs] at hr
  · cases he
    have hr : r = [c!"A", c!"E"] ∨ r = [c!"T"] := by
      simpa [exTable, exRef, needs, tableRefs, tyRefs] using hr
    rcases hr with rfl | rfl
    · exact .inl ⟨1, exEnum c!"E", .enum, by omega, rfl, by decide⟩
    · exact .inr (by decide)
  · cases he
    have hr : r = [c!"T"] := by simpa [exRpc, needs, tableRefs] using hr
    subst hr
    exact .inl ⟨3, _, .table, by omega, rfl, by decide⟩

example : ∃ out, build exSchema2 = some (.ok out) := ⟨_, rfl⟩

/-! ### C45 -/

/-- **C45**: the analysis of every schema ends, and it does not matter how many passes it is allowed beyond the
number of its elements. -/
theorem C45_terminates (s : Ast.Schema) :
    (∃ r, build s = some r) ∧
    ∃ r, ∀ fuel, s.elements.length < fuel → Ctx.retry fuel .init (indexed s.elements) = some r := by
  have hlen : (indexed s.elements).length = s.elements.length := by simp [indexed]
  cases hb : Ctx.retry (s.elements.length + 1) .init (indexed s.elements) with
  | none => exact absurd hb (retry_some _ _ _ (by omega))
  | some r =>
    refine ⟨⟨_, by unfold build; rw [hb]; rfl⟩, r, ?_⟩
    intro fuel hf
    have := retry_mono _ _ _ (fuel - (s.elements.length + 1)) r hb
    rwa [show s.elements.length + 1 + (fuel - (s.elements.length + 1)) = fuel by omega] at this

/-- **C45**, the reason: a pass that is followed by another one has defined something, and leaves fewer elements
pending than it found. -/
theorem C45_progress {c c' : Ctx} {input uns : List Indexed} (h : c.pass input = .ok (uns, c'))
    (hne : c'.nodes.length ≠ c.nodes.length) : c.nodes.length < c'.nodes.length ∧ uns.length < input.length := by
  have := pass_length h
  omega

/-- The number of passes may well be as large as the number of elements: here each pass resolves one struct. -/
example : Ctx.retry 3 .init (indexed [exStruct c!"A" [exRef c!"b" [c!"B"]], exStruct c!"B" [exRef c!"c" [c!"C"]],
      exStruct c!"C" [exRef c!"d" [c!"D"]], exEnum c!"D"]) = none ∧
    ∃ out, build ⟨[], [exStruct c!"A" [exRef c!"b" [c!"B"]], exStruct c!"B" [exRef c!"c" [c!"C"]],
      exStruct c!"C" [exRef c!"d" [c!"D"]], exEnum c!"D"]⟩ = some (.ok out) := ⟨rfl, _, rfl⟩

/-! ### C46 -/

/-- `namespace A; table T { e: E; } namespace B; enum E { X } table W { t: A.T; }` -/
def exMoved : Ast.Schema := ⟨[], [exNs c!"A", exTable c!"T" [exRef c!"e" [c!"E"]], exNs c!"B", exEnum c!"E",
  exTable c!"W" [exRef c!"t" [c!"A", c!"T"]]]⟩

/-- **C46** is false: `T` is retried when the namespace is `B` and becomes `B.T`; the reference to `A.T` stays, and
no `A.T` is emitted. -/
theorem C46_refuted : ∃ s out, build s = some (.ok out) ∧ ¬ NoDangling out := by
  refine ⟨exMoved, _, rfl, ?_⟩
  intro h
  obtain ⟨y, hy, ct, hd⟩ := h ([c!"B"], .table ⟨[c!"B", c!"W"], [⟨c!"t", .table [c!"A", c!"T"], none, false, []⟩], false, []⟩)
    (by show _ ∈ [_, _, _]; exact List.mem_cons_of_mem _ (List.mem_cons_of_mem _ List.mem_cons_self))
    [c!"A", c!"T"] (by decide)
  have : y.2.ident.dropLast ≠ [c!"A"] := by
    have hy : y ∈ [_, _, _] := hy
    simp only [List.mem_cons, List.not_mem_nil, or_false] at hy
    rcases hy with rfl | rfl | rfl <;> decide
  apply this
  obtain ⟨a, n⟩ := y
  cases n <;> simp only [Node.defines, Option.some.injEq, Prod.mk.injEq, reduceCtorEq] at hd <;>
    · obtain ⟨e, _⟩ := hd
      simp only [Node.ident, e]
      rfl

/-- **C46** for schemas in one namespace, and for schemas that declare before they use. Full statement: for every
accepted schema. See `Translates` for what is claimed of the output. -/
theorem C46_resolved_partial {s : Ast.Schema} {out : List Node} (h : OneNamespace s.elements ∨ InOrder s.elements)
    (hb : build s = some (.ok out)) : Translates s.elements out ∧ NoDangling out := by
  have : Translates s.elements out := h.elim (translates_one · hb) (translates_in_order · hb)
  exact ⟨this, translates_noDangling this⟩

example : ∃ out, build exSchema = some (.ok out) ∧ Translates exSchema.elements out ∧ NoDangling out :=
  ⟨_, rfl, C46_resolved_partial (.inl exSchema_one) rfl⟩

example : ∃ out, build exSchema2 = some (.ok out) ∧ Translates exSchema2.elements out ∧ NoDangling out :=
  ⟨_, rfl, C46_resolved_partial (.inr exSchema2_order) rfl⟩

/-- **C46** for all schemas, as far as it holds: each declaration gives its items exactly once, in order, read in
the namespace it is written in or in the last one of the file; the types it names are defined by the output, except
that a name may also stand for a table as it would be called in either of these namespaces; root tables are asked for
by the schema, and what is asked for is a table of the output. -/
theorem C46_any_partial {s : Ast.Schema} {out : List Node} (hb : build s = some (.ok out)) :
    ∃ groups : List (List Node), HoldsItems out groups.flatten ∧
      All₂ (fun p g => ∃ el ns, s.elements[p]? = some el ∧
        (ns = lastNs (s.elements.take p) ∨ ns = lastNs s.elements) ∧
        Emits ⟨TableName s.elements (NsOk s.elements), (Names.ofItems groups.flatten).dfn⟩ ns el g)
        (declPositions s.elements) groups ∧
      (∀ t, .table t ∈ groups.flatten → t.rootType = true →
        ∃ p el ns, s.elements[p]? = some el ∧ NsOk s.elements p ns ∧ Requests ns t.ident el) ∧
      (∀ p el, s.elements[p]? = some el → ∃ ns, NsOk s.elements p ns ∧
        ∀ q, Requests ns q el → ∃ t, .table t ∈ groups.flatten ∧ t.ident = q ∧ t.rootType = true) := by
  obtain ⟨c, hr, rfl⟩ := build_ok hb
  obtain ⟨groups, h1, h2, _, h4, h5, _⟩ := run_outcome hr
  exact ⟨groups, h1, h2, h4, h5⟩

example : ∃ out, build exMoved = some (.ok out) := ⟨_, rfl⟩

/-! ### C47 -/

/-- **C47** is false: services are not entered among the names. -/
theorem C47_refuted : ∃ s out, build s = some (.ok out) ∧ ∃ x y z, itemsOf out = [x, y, z] ∧ x.1 = y.1 ∧
    x.2.ident = y.2.ident ∧ y.2.ident = z.2.ident := by
  refine ⟨⟨[], [exTable c!"T" [], exRpc c!"T" [c!"T"], exRpc c!"T" [c!"T"]]⟩, _, rfl, _, _, _, rfl, rfl, rfl, rfl⟩

/-- **C47** is false for types, too, when a declaration moves to another namespace: `namespace A; table T { e: E; }
table T { } namespace B; enum E { X }` is accepted. -/
theorem C47_types_refuted : ∃ s out, build s = some (.ok out) ∧ ∃ p p' q, p ≠ p' ∧
    q ∈ writtenNames s.elements p ∧ q ∈ writtenNames s.elements p' := by
  refine ⟨⟨[], [exNs c!"A", exTable c!"T" [exRef c!"e" [c!"E"]], exTable c!"T" [], exNs c!"B", exEnum c!"E"]⟩, _, rfl,
    1, 2, [c!"A", c!"T"], by decide, by decide, by decide⟩

/-- **C47** for types, in one namespace or when declared before use: a schema that declares a type name (or the name
of the enum of a union) at two places is not accepted. Full statement: for all names, in every schema. -/
theorem C47_partial {s : Ast.Schema} (h : OneNamespace s.elements ∨ InOrder s.elements) {p p' : Nat} {q : QIdent}
    (h1 : q ∈ writtenNames s.elements p) (h2 : q ∈ writtenNames s.elements p') (hne : p ≠ p') (out : List Node) :
    build s ≠ some (.ok out) := by
  intro hb
  exact hne (translates_distinct (C46_resolved_partial h hb).1 h1 h2)

example : [c!"A", c!"T"] ∈ writtenNames [exNs c!"A", exTable c!"T" [], exEnum c!"T"] 1 ∧
    [c!"A", c!"T"] ∈ writtenNames [exNs c!"A", exTable c!"T" [], exEnum c!"T"] 2 := by decide

/-- **C47**, whatever the schema: no two items of the output define the same type name. -/
theorem C47_output_partial {s : Ast.Schema} {out : List Node} (hb : build s = some (.ok out)) :
    (((itemsOf out).filterMap fun x => x.2.defines).map (·.1)).Nodup := output_distinct hb

/-! ### C48 -/

/-- The name of what an element declares. -/
def declName : Element → Option Ast.Ident
  | .table t | .struct t => some t.id
  | .enum e => some e.id
  | .union u => some u.id
  | .rpc r => some r.id
  | _ => none

/-- **C48** is false: in `namespace A; table T { e: E; } namespace B; enum E { X }` the table `T` is emitted in
`B`. -/
theorem C48_refuted : ∃ s out p el i, build s = some (.ok out) ∧ s.elements[p]? = some el ∧ declName el = some i ∧
    ∀ x ∈ itemsOf out, x.2.ident ≠ nameIn (lastNs (s.elements.take p)) i := by
  refine ⟨exMoved, _, 1, _, c!"T", rfl, rfl, rfl, ?_⟩
  intro x hx
  have hx : x ∈ [_, _, _] := hx
  simp only [List.mem_cons, List.not_mem_nil, or_false] at hx
  rcases hx with rfl | rfl | rfl <;> decide

theorem emits_named {N : Names} {ns : Option Ast.QIdent} {el : Element} {g : List Node} (h : Emits N ns el g)
    {i : Ast.Ident} (hi : declName el = some i) : ∃ n ∈ g, n.ident = nameIn ns i := by
  cases h <;> simp only [declName, Option.some.injEq] at hi <;> subst hi
  case union => exact ⟨_, List.mem_cons_of_mem _ List.mem_cons_self, rfl⟩
  all_goals exact ⟨_, List.mem_cons_self, rfl⟩

theorem declName_declares {el : Element} {i : Ast.Ident} (h : declName el = some i) : declares el = true := by
  cases el <;> first | rfl | cases h

theorem nameIn_path (ns : Option Ast.QIdent) (i : Ast.Ident) :
    (nameIn ns i).dropLast = (ns.getD []).map fixIdentifier := by simp [nameIn]

/-- **C48** in one namespace or when declared before use: what is declared is emitted, under its own name, in the
modules that spell the namespace declared most recently before it. Full statement: in every accepted schema. -/
theorem C48_partial {s : Ast.Schema} {out : List Node} (h : OneNamespace s.elements ∨ InOrder s.elements)
    (hb : build s = some (.ok out)) {p : Nat} {el : Element} {i : Ast.Ident} (he : s.elements[p]? = some el)
    (hi : declName el = some i) :
    ∃ n, (((lastNs (s.elements.take p)).getD []).map fixIdentifier, n) ∈ itemsOf out ∧
      n.ident = nameIn (lastNs (s.elements.take p)) i := by
  obtain ⟨groups, g1, g2, _⟩ := (C46_resolved_partial h hb).1
  obtain ⟨g, hg, el', he', hem⟩ := all₂_left g2 (mem_declPositions.mpr ⟨el, he, declName_declares hi⟩)
  rw [he] at he'; cases he'
  obtain ⟨n, hn, e⟩ := emits_named hem hi
  refine ⟨n, ?_, e⟩
  have := holds_mem g1 (List.mem_flatten.mpr ⟨g, hg, hn⟩)
  rwa [e, nameIn_path] at this

example : ∃ out, build exSchema2 = some (.ok out) ∧
    ∃ n, ([c!"B"], n) ∈ itemsOf out ∧ n.ident = [c!"B", c!"T"] :=
  ⟨_, rfl, C48_partial (.inr exSchema2_order) rfl (p := 3) rfl rfl⟩

/-- **C48** in any schema: the namespace is that one, or the last one of the file. -/
theorem C48_any_partial {s : Ast.Schema} {out : List Node} (hb : build s = some (.ok out)) {p : Nat} {el : Element}
    {i : Ast.Ident} (he : s.elements[p]? = some el) (hi : declName el = some i) :
    ∃ ns n, (ns = lastNs (s.elements.take p) ∨ ns = lastNs s.elements) ∧
      ((ns.getD []).map fixIdentifier, n) ∈ itemsOf out ∧ n.ident = nameIn ns i := by
  obtain ⟨groups, g1, g2, _⟩ := C46_any_partial hb
  obtain ⟨g, hg, el', ns, he', hns, hem⟩ := all₂_left g2 (mem_declPositions.mpr ⟨el, he, declName_declares hi⟩)
  rw [he] at he'; cases he'
  obtain ⟨n, hn, e⟩ := emits_named hem hi
  refine ⟨ns, n, hns, ?_, e⟩
  have := holds_mem g1 (List.mem_flatten.mpr ⟨g, hg, hn⟩)
  rwa [e, nameIn_path] at this

/-! ### C49 -/

/-- **C49** is false: `union U { T } table T { u: U; }` is rejected, `table T { u: U; } union U { T }` is accepted.
(The analysis gives up when a pass defines nothing, but that pass may have made tables known.) -/
theorem C49_refuted : ∃ s s' : Ast.Schema, s.elements.Perm s'.elements ∧ OneNamespace s.elements ∧
    OneNamespace s'.elements ∧ lastNs s.elements = lastNs s'.elements ∧
    (∃ out, build s = some (.ok out)) ∧ ¬ ∃ out, build s' = some (.ok out) := by
  refine ⟨⟨[], [exTable c!"T" [exRef c!"u" [c!"U"]], exUnion c!"U" [c!"T"]]⟩,
    ⟨[], [exUnion c!"U" [c!"T"], exTable c!"T" [exRef c!"u" [c!"U"]]]⟩, List.Perm.swap _ _ _, ?_, ?_, rfl,
    ⟨_, rfl⟩, ?_⟩
  · intro p el he _
    have hp : p < 2 := (List.getElem?_eq_some_iff.mp he).1
    have : p = 0 ∨ p = 1 := by omega
    rcases this with rfl | rfl <;> rfl
  · intro p el he _
    have hp : p < 2 := (List.getElem?_eq_some_iff.mp he).1
    have : p = 0 ∨ p = 1 := by omega
    rcases this with rfl | rfl <;> rfl
  · rintro ⟨out, h⟩
    cases h

/-- **C49** when, in both orders, some declaration can be resolved at once. Full statement: without this. -/
theorem C49_partial {s s' : Ast.Schema} (h : s.elements.Perm s'.elements) (h1 : OneNamespace s.elements)
    (h2 : OneNamespace s'.elements) (hn : lastNs s.elements = lastNs s'.elements)
    (hst : Starts (lastNs s.elements) s.elements) (hst' : Starts (lastNs s'.elements) s'.elements) :
    (∃ out, build s = some (.ok out)) ↔ ∃ out, build s' = some (.ok out) :=
  accepts_perm h h1 h2 hn hst hst'

/-- **C49** when some declaration names no other type, as an enum does: then every order will do. -/
theorem C49_plain_partial {s s' : Ast.Schema} (h : s.elements.Perm s'.elements) (h1 : OneNamespace s.elements)
    (h2 : OneNamespace s'.elements) (hn : lastNs s.elements = lastNs s'.elements)
    (hp : ∃ el ∈ s.elements, declares el = true ∧ needs el = [] ∧ tableRefs el = []) :
    (∃ out, build s = some (.ok out)) ↔ ∃ out, build s' = some (.ok out) := by
  refine accepts_perm h h1 h2 hn (starts_of_plain hp) (starts_of_plain ?_)
  obtain ⟨el, hel, h'⟩ := hp
  exact ⟨el, h.mem_iff.mp hel, h'⟩

example : ∃ out, build ⟨[], exNs c!"A" :: exSchema.elements.tail.reverse⟩ = some (.ok out) := by
  refine (C49_plain_partial (s := exSchema) (s' := ⟨[], exNs c!"A" :: exSchema.elements.tail.reverse⟩)
    (List.Perm.cons _ (List.reverse_perm _).symm) exSchema_one ?_ rfl
    ⟨exEnum c!"E", ?_, rfl, rfl, rfl⟩).mp ⟨_, rfl⟩
  · intro p el he hne
    have hp : p < 7 := (List.getElem?_eq_some_iff.mp he).1
    rcases Nat.lt_or_ge p 1 with h | h
    · obtain rfl : p = 0 := by omega
      cases he
      exact absurd rfl (hne _ _)
    · have : ∀ p, p < 7 → 1 ≤ p → lastNs ((exNs c!"A" :: exSchema.elements.tail.reverse).take p) =
        lastNs (exNs c!"A" :: exSchema.elements.tail.reverse) := by decide
      exact this p hp h
  · simp [exSchema]

/-! ### C50 -/

/-- **C50**: for any list of items, the tree holds each of them, as often as given, inside the modules that spell
its namespace and in the given order; modules are named by their path, none is empty, and no two modules side by
side have the same name. -/
theorem C50_tree (items : List Node) (hi : ∀ n ∈ items, n.isItem = true) (hne : ∀ n ∈ items, n.ident ≠ []) :
    ((itemsOf (arrange items)).map (·.2)).Perm items ∧
    (∀ x ∈ itemsOf (arrange items), x.1 = x.2.ident.dropLast) ∧
    (∀ path, ((itemsOf (arrange items)).filter fun x => x.1 == path).map (·.2) =
      items.filter fun n => n.ident.dropLast == path) ∧
    Node.ProperL [] (arrange items) ∧ (Node.modules (arrange items)).Nodup := by
  have h : HoldsItems (arrange items) items := arrange_spec items hi hne
  exact ⟨holds_perm h, fun x hx => (holds_path h hx).2.symm, h.1, h.2⟩

example : ∀ n ∈ [Node.enum ⟨[c!"A", c!"B", c!"E"], [], .int, []⟩, .enum ⟨[c!"F"], [], .int, []⟩,
    .enum ⟨[c!"A", c!"E"], [], .int, []⟩, .enum ⟨[c!"A", c!"B", c!"G"], [], .int, []⟩],
    n.isItem = true ∧ n.ident ≠ [] := by
  simp [Node.isItem, Node.ident]

/-- **C50** for the output of the analysis of any accepted schema. -/
theorem C50_output {s : Ast.Schema} {out : List Node} (hb : build s = some (.ok out)) :
    (∀ x ∈ itemsOf out, x.1 = x.2.ident.dropLast) ∧ Node.ProperL [] out ∧ (Node.modules out).Nodup := by
  obtain ⟨groups, g1, _⟩ := C46_any_partial hb
  exact ⟨fun x hx => (holds_path g1 hx).2.symm, g1.2⟩

/-! ### C59 -/

/-- **C59**: with everything in one namespace, a schema is accepted if and only if it is well formed (`WellFormed`:
names distinct, elements of a known kind, struct members of fixed size, enums over integers, roots and rpc types
tables, known streaming modes), every type name used can be resolved (`Settled`: structs and unions are not
circular), and some declaration can be resolved at once (`Starts`). -/
theorem C59_accepted_iff {s : Ast.Schema} (h1 : OneNamespace s.elements) :
    (∃ out, build s = some (.ok out)) ↔
      WellFormed (lastNs s.elements) s.elements ∧
      (∀ el ∈ s.elements, ∀ r ∈ needs el, Settled (lastNs s.elements) s.elements (refIn (lastNs s.elements) r)) ∧
      Starts (lastNs s.elements) s.elements := accepts_iff h1

example : WellFormed (lastNs exSchema.elements) exSchema.elements :=
  ((C59_accepted_iff exSchema_one).mp ⟨_, rfl⟩).1

/-- A struct that contains itself is rejected. -/
example : ¬ ∃ out, build ⟨[], [exEnum c!"E", exStruct c!"S" [exRef c!"s" [c!"S"]]]⟩ = some (.ok out) := by
  rintro ⟨out, h⟩; cases h

/-! ### C60 -/

/-- **C60**: the analysis panics only over an element of a kind it does not implement, and no schema with such an
element is accepted. -/
theorem C60_no_panic (s : Ast.Schema) :
    ((∀ el ∈ s.elements, supported el = true) → build s ≠ some .panic) ∧
    ((∃ el ∈ s.elements, supported el = false) → ∀ out, build s ≠ some (.ok out)) := by
  constructor
  · intro hk h
    unfold build at h
    obtain ⟨r, h1, h2⟩ := Option.map_eq_some_iff.mp h
    have := build_run (E := s.elements) (J := fun _ => True) (fun _ _ => True) trivial
      (fun _ _ _ _ _ _ _ _ _ _ => trivial) (fun _ _ => trivial) (fun _ _ _ _ _ _ _ => trivial) _ r h1
    cases r with
    | err e => cases h2
    | ok c => cases h2
    | panic =>
      rcases this with h | ⟨_, _, _, _, _, h⟩
      · obtain ⟨el, hel, hn⟩ := refused_panic h
        rw [hk el hel] at hn; cases hn
      · cases h
  · rintro ⟨el, hel, hn⟩ out h
    obtain ⟨c, hr, _⟩ := build_ok h
    obtain ⟨groups, _, _, _, _, _, h6⟩ := run_outcome hr
    obtain ⟨p, he⟩ := List.mem_iff_getElem?.mp hel
    obtain ⟨c0, c1, hs⟩ := h6 p el he
    cases hs <;> cases hn

example : (∀ el ∈ exSchema.elements, supported el = true) ∧
    ∃ el ∈ [exEnum c!"E", .fileExtension c!"bin" []], supported el = false := by
  constructor
  · decide
  · exact ⟨_, by simp; exact .inr rfl, rfl⟩

end Butte.Ir
