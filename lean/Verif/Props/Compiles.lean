import Verif.Props.WholeProgram
import Verif.Rs.TypedTableConverse
/-
Property C78: when the Rust compiler accepts the emitted program, by the typing rules of `Rs/Typing`.
-/
namespace Butte.Rs
open Ir (QIdent Node Ident itemsOf OneNamespace InOrder Translates fixIdentifier build nameIn lastNs refIn)
open Gen (compileTable nsOf typeId decls EnumWorks)
open Ast (Element)

set_option maxRecDepth 8000

/-! ### Exactly -/

/-- **C78** exactly, of the program emitted for any accepted schema in which no name is introduced twice (C71), the paths
between items lead where they should (C70), and no name that the generated code relies on is taken (C75): it is well-typed if
and only if it keeps to `Acceptable`. Full statement:
of all accepted schemas; the three conditions are left. -/
theorem C78_iff_partial {s : Ast.Schema} {out : List Node} {P : Program} (h : OneNamespace s.elements ∨ InOrder s.elements)
    (hb : build s = some (.ok out)) {gm : Mode} (he : emit gm out = some P) (hn : P.names.Nodup)
    (hl : Gen.PathsLead out P.names) (hc : NoCapture out) :
    WellTyped P ↔ Acceptable gm out P :=
  (setting_of h hb he hn hl hc).wellTyped_iff

/-! ### From the declarations -/

/-- What the Rust compiler asks of the declarations, beyond what is asked of the tables. -/
structure Lawful (E : List Element) : Prop where
  /-- the values of each enum, also of the enum that goes with a union, are different and in range, and the names of variants
  are different -/
  values : ∀ q b vs, (q, .enum b vs) ∈ decls E → EnumWorks b vs
  /-- names that no variant can have; `Self::Inner` and `Self::Error` are types in the code that reads enums, and `default` is
  a function -/
  variants : ∀ q b vs, (q, .enum b vs) ∈ decls E → ∀ v ∈ vs,
    v.1 ∉ [c!"try", c!"_", c!"Inner", c!"Error", c!"default"]
  /-- a union has a table among its members, and no union -/
  unions : ∀ q ns e ms, (q, .union ns e ms) ∈ decls E → (∀ m ∈ ms, ∀ ns' e' ms', (refIn ns [m], .union ns' e' ms') ∉ decls E) ∧
    ∃ m ∈ ms, (refIn ns [m], .table) ∈ decls E
  /-- usable names of types -/
  types : ∀ el ∈ E, ∀ i, typeId el = some i → i ≠ c!"try" ∧ i ≠ c!"_"

/-- A word that is no keyword is a name. -/
theorem legal_word {s : Str} (h : Word s) (h1 : s ∉ Gen.rustKeywords) (h2 : s ≠ c!"_") : legalName s = true := by
  obtain ⟨c, r, rfl, hc⟩ := h
  exact legal_cons hc h1 h2

theorem legal_fix {i : Str} (h : Word i) (h1 : i ≠ c!"try") (h2 : i ≠ c!"_") : legalName (fixIdentifier i) = true :=
  legal_word (word_fix.mpr h) (fun hk => h1 ((C42_only_try_partial i).mp hk)) (fix_ne (.inr rfl) h2)

theorem legal_tag {i : Str} (h : Word i) : legalName (fixIdentifier (i ++ c!"Type")) = true := by
  obtain ⟨⟨-, h1, h2⟩, h3⟩ := tag_word h
  simp only [List.mem_cons, List.not_mem_nil, or_false, not_or] at h1 h2
  refine legal_word h3 (fun hk => ?_) (fun e => h2.2 e.symm)
  have e := (C42_only_try_partial _).mp hk
  rw [e] at h1
  exact h1.2 rfl

theorem legal_derived {n : Str} (h : legalName n = true) : legalName (n ++ c!"Args") = true ∧ legalName (n ++ c!"Builder") = true := by
  have key : ∀ r ∈ c!"_" :: Gen.rustKeywords, (c!"Args").reverse.isPrefixOf r.reverse = false ∧
      (c!"Builder").reverse.isPrefixOf r.reverse = false := by decide
  have one : ∀ w : Str, (∀ r ∈ c!"_" :: Gen.rustKeywords, w.reverse.isPrefixOf r.reverse = false) → legalName (n ++ w) = true := by
    intro w hw
    have hne : ∀ r ∈ c!"_" :: Gen.rustKeywords, n ++ w ≠ r := by
      rintro r hr rfl
      have := hw _ hr
      rw [List.reverse_append, ← Bool.not_eq_true, List.isPrefixOf_iff_prefix] at this
      exact this (List.prefix_append _ _)
    cases n with
    | nil => cases h
    | cons c r =>
      simp only [legalName, Bool.and_eq_true, Bool.not_eq_true'] at h
      exact legal_cons h.1.1 (fun hk => hne _ (List.mem_cons_of_mem _ hk) rfl) (hne _ List.mem_cons_self)
  exact ⟨one _ fun r hr => (key r hr).1, one _ fun r hr => (key r hr).2⟩

/-- That all names are legal can be seen from the schema. -/
theorem legal_names {gm : Mode} {s : Ast.Schema} {out : List Node} {P : Program} (hb : build s = some (.ok out))
    (he : emit gm out = some P)
    (h : ∀ x ∈ itemsOf out, (∀ q ct, x.2.defines = some (q, ct) → legalName (QIdent.simple q) = true) ∧
      ∀ m ∈ x.1, legalName (Heck.snake m) = true) : ∀ i ∈ P.names, legalName i.name = true := by
  intro i hi
  have hg := emitNodes_names gm [] out P he
  have hperm := Gen.emitsAll_flat [] out P.names (by simpa using hg)
  obtain ⟨-, hprop, -⟩ := Ir.C50_output hb
  have hi := hperm.subset hi
  simp only [Gen.flat, List.mem_append, List.mem_flatMap, List.mem_map] at hi
  rcases hi with ⟨x, hx, hi⟩ | ⟨p, hp, rfl⟩
  · obtain ⟨-, c⟩ := Gen.own_cases hi (Gen.item_facts hb hx).1
    obtain ⟨h1, -⟩ := h x hx
    rcases c with ⟨-, q, ct, hd, hn⟩ | ⟨-, t, ht, hn⟩ | ⟨hv, e, -, hn⟩
    · rw [hn]; exact h1 q ct hd
    · have := legal_derived (h1 t.ident .table (by rw [ht]; rfl))
      rcases hn with hn | hn
      · rw [hn]; exact this.1
      · rw [hn]; exact this.2
    · rw [hn]
      have h1 : ∀ k ∈ Gen.rustKeywords, k.take 5 ≠ c!"enum_" := by decide
      exact legal_cons (by decide) (fun h => h1 _ h rfl) (by simp)
  · obtain ⟨x, hx, hpx⟩ := Gen.modPathsL_leaf [] out hprop p hp
    rcases List.eq_nil_or_concat' p with rfl | ⟨r, m, rfl⟩
    · obtain ⟨m, -, hm⟩ := Gen.modPathsL_under [] out _ hp
      simpa using hm.length_le
    · rw [Gen.modItem_concat]
      exact (h x hx).2 m (hpx.subset (by simp))

/-- The names of the types of a schema. -/
theorem legal_types {E : List Element} {out : List Node} (hT : Translates E out) (hwd : Worded E) (L : Lawful E) :
    ∀ x ∈ itemsOf out, ∀ q ct, x.2.defines = some (q, ct) → legalName (QIdent.simple q) = true := by
  intro x hx q ct hd
  obtain ⟨groups, g1, g2, _⟩ := hT
  obtain ⟨g, hg, hxg⟩ := List.mem_flatten.mp (Ir.holds_path g1 hx).1
  obtain ⟨p, _, el, hel, hem⟩ := Ir.all₂_right g2 hg
  have hmem := List.mem_of_getElem? hel
  have hs : ∀ (l : List Str) (i : Str), QIdent.simple (l ++ [i]) = i := fun l i => by simp [QIdent.simple]
  have own : ∀ i, typeId el = some i → legalName (fixIdentifier i) = true := fun i hi =>
    legal_fix (hwd.types el hmem i hi) (L.types el hmem i hi).1 (L.types el hmem i hi).2
  generalize x.2 = n at *
  cases hem with
  | table t _ _ _ | struct t _ _ | enum t _ _ =>
    simp only [List.mem_singleton] at hxg; subst hxg
    cases hd
    rw [nameIn, hs]; exact own _ rfl
  | union u vs h =>
    simp only [List.mem_cons, List.not_mem_nil, or_false] at hxg
    rcases hxg with rfl | rfl
    · cases hd
      rw [show QIdent.simple (Ir.tagEnumIn (lastNs (List.take p E)) u.id) = fixIdentifier (u.id ++ c!"Type") by
        simp [Ir.tagEnumIn, QIdent.simple]]
      exact legal_tag (hwd.types _ hmem _ rfl)
    · cases hd
      rw [nameIn, hs]; exact own _ rfl
  | rpc r _ _ =>
    simp only [List.mem_singleton] at hxg; subst hxg
    cases hd

/-- The enums of the output are those declared. -/
theorem declared_enum {E : List Element} {out : List Node} (hT : Translates E out) {p : List Ident} {e : Ir.Enum}
    (hx : (p, Node.enum e) ∈ itemsOf out) : ∃ b, (e.ident, .enum b (Gen.plain e.variants)) ∈ decls E ∧
      Ir.EnumBase.ofAst (.builtin b) = some e.base := by
  obtain ⟨groups, g1, g2, g3, _⟩ := hT
  have A := Gen.agrees g2 g3
  obtain ⟨d, hd, hm⟩ := A.down e.ident (.enum e.variants e.base) ⟨_, (Ir.holds_path g1 hx).1, rfl⟩
  generalize hct : Ir.CustomType.enum e.variants e.base = ct at hm
  cases hm with
  | enum h =>
    simp only [Ir.CustomType.enum.injEq] at hct
    obtain ⟨rfl, rfl⟩ := hct
    exact ⟨_, hd, h⟩
  | _ => cases hct

/-- What is declared gives what is asked of the output. -/
theorem acceptable_of {s : Ast.Schema} {out : List Node} {P : Program} (h : OneNamespace s.elements ∨ InOrder s.elements)
    (hb : build s = some (.ok out)) {gm : Mode} (he : emit gm out = some P) (hwd : Worded s.elements) (L : Lawful s.elements)
    (hw : ∀ (p : Nat) d, s.elements[p]? = some (.table d) → Gen.TableWorks gm s.elements (lastNs (s.elements.take p)) d.fields)
    (hm : ∀ x ∈ itemsOf out, ∀ m ∈ x.1, legalName (Heck.snake m) = true) : Acceptable gm out P := by
  have hT := (Ir.C46_resolved_partial h hb).1
  have ne : ∀ {x : Str} {l : List Str}, x ∉ l → ∀ y ∈ l, x ≠ y := fun h y hy e => h (e ▸ hy)
  refine ⟨legal_names hb he fun x hx => ⟨legal_types hT hwd L x hx, hm x hx⟩, fun p t ht => Gen.C72_all_partial h hb gm hw ht,
    ?_, ?_, ?_, ?_, ?_⟩
  · intro p t ht _ f hf q vs b hty _ hv
    have hd := (table_defined hT ht).2 f hf
    rw [hty] at hd
    obtain ⟨⟨p', y⟩, hy, hyd⟩ := hd
    cases y <;> simp only [Node.defines, Option.some.injEq, Prod.mk.injEq, reduceCtorEq, and_false,
      Ir.CustomType.enum.injEq] at hyd
    obtain ⟨rfl, rfl, rfl⟩ := hyd
    obtain ⟨b, h1, -⟩ := declared_enum hT hy
    obtain ⟨v, hv, e⟩ := List.mem_map.mp hv
    exact ne (L.variants _ _ _ h1 _ (List.mem_map.mpr ⟨v, hv, rfl⟩)) c!"default" (by simp) e
  · intro p e hx
    obtain ⟨b, h1, h3⟩ := declared_enum hT hx
    obtain ⟨_, e', hs, hf⟩ := Gen.ofAst_builtin h3
    cases e'
    rw [← hs]
    exact (Gen.enumWorks_iff hf e.variants).mpr (L.values _ _ _ h1)
  · intro p e hx v hv
    have hword := (variants_words hT (fun e he v hv => word_fix.mpr (hwd.variants e he v hv))
      (fun u hu v hv => word_fix.mpr (hwd.members u hu v hv)) hx).1 e rfl v hv
    obtain ⟨b, h1, h3⟩ := declared_enum hT hx
    obtain ⟨w, hw', hwe⟩ : ∃ w ∈ Gen.plain e.variants, w.1 = v.ident := ⟨_, List.mem_map.mpr ⟨v, hv, rfl⟩, rfl⟩
    rw [← hwe] at hword ⊢
    have hn := ne (L.variants _ _ _ h1 w hw')
    refine ⟨legal_word hword ?_ (hn _ (by simp)), hn _ (by simp), hn _ (by simp)⟩
    intro hk
    have hfix : w.1 = c!"None" ∨ ∃ i, w.1 = fixIdentifier i := by
      obtain ⟨p, el, -, hx⟩ := Gen.mem_decls.mp h1
      cases el with
      | enum d =>
        simp only [Gen.declOf] at hx
        split at hx
        · simp only [List.mem_singleton, Prod.mk.injEq, Gen.Decl.enum.injEq] at hx
          obtain ⟨-, -, hx⟩ := hx
          rw [hx] at hw'
          obtain ⟨a, -, rfl⟩ := List.mem_map.mp hw'
          exact .inr ⟨_, rfl⟩
        · cases hx
      | union u =>
        simp only [Gen.declOf, List.mem_cons, Prod.mk.injEq, Gen.Decl.enum.injEq, List.not_mem_nil, or_false, reduceCtorEq,
          and_false] at hx
        obtain ⟨-, -, hx⟩ := hx
        rw [hx] at hw'
        rcases List.mem_cons.mp hw' with rfl | hw'
        · exact .inl rfl
        · obtain ⟨a, -, rfl⟩ := List.mem_map.mp hw'
          exact .inr ⟨_, rfl⟩
      | _ => simp [Gen.declOf] at hx
    rcases hfix with e | ⟨i, e⟩
    · simp only [e] at hk
      revert hk; decide
    · simp only [e] at hk
      have := (C42_only_try_partial i).mp hk
      subst this
      exact hn c!"try" (by simp) e
  all_goals
    intro p u hx
    obtain ⟨groups, g1, g2, g3, _⟩ := hT
    have A := Gen.agrees g2 g3
    obtain ⟨d, hd, hm⟩ := A.down u.ident (.union u.enumIdent u.variants) ⟨_, (Ir.holds_path g1 hx).1, rfl⟩
    generalize hct : Ir.CustomType.union u.enumIdent u.variants = ct at hm
    cases hm
    case union ns e us vs hall =>
      cases hct
      obtain ⟨h1, m, hmm, h2⟩ := L.unions _ _ _ _ hd
      first
      | intro v hv q e vs hty
        obtain ⟨a, ha, ty, hmean, rfl⟩ := Ir.all₂_right hall hv
        simp only at hty
        subst hty
        generalize hti : Ast.Ty.ident [a.id] = ti at hmean
        generalize htu : Ir.Ty.union q e vs = tu at hmean
        cases hmean
        case custom q' ct h =>
          cases hti
          cases ct <;> simp only [Ir.CustomType.ref, reduceCtorEq, Ir.Ty.union.injEq] at htu
          obtain ⟨rfl, rfl, rfl⟩ := htu
          obtain ⟨d', hd', hm'⟩ := A.down _ _ h
          cases hm'
          exact h1 a.id (List.mem_map_of_mem ha) _ _ _ hd'
        all_goals cases htu
      | obtain ⟨a, ha, rfl⟩ := List.mem_map.mp hmm
        obtain ⟨v, hv, ty, hmean, rfl⟩ := Ir.all₂_left hall ha
        refine ⟨_, hv, ?_⟩
        generalize hti : Ast.Ty.ident [a.id] = ti at hmean
        cases hmean
        case custom q' ct h =>
          cases hti
          obtain rfl := A.unique _ _ _ h ((A.table_iff _).mp h2)
          rfl
        case table => rfl
        all_goals cases hti
    all_goals cases hct

/-- **C78** in one namespace: the emitted program is well-typed, and works. -/
theorem build_compiles {s : Ast.Schema} {out : List Node} (h1 : OneNamespace s.elements) (hb : build s = some (.ok out))
    {gm : Mode} (hwd : Worded s.elements) (hg : Compilable gm s.elements) (L : Lawful s.elements)
    (hm : ∀ m ∈ nsOf s.elements, legalName (Heck.snake m) = true) :
    ∃ P, emit gm out = some P ∧ WellTyped P ∧ Delivers gm s.elements out P := by
  obtain ⟨P, hP, hD⟩ := build_works h1 hb hwd hg
  have hn : P.names.Nodup := (Gen.C71_one_namespace_partial h1 hb (emitNodes_names gm [] out P hP)).mpr
    ⟨hg.derived, hg.enums, hg.unions, hg.butteGen⟩
  have S := setting_one h1 hb hP hn hg.free hg.freeModules
  refine ⟨P, hP, S.wellTyped (acceptable_of (.inl h1) hb hP hwd L hg.tables ?_), hD⟩
  intro x hx m hmx
  cases Gen.from_of h1 hb hx with
  | tag d t h e =>
    rcases List.mem_append.mp hmx with h | h
    · exact hm m h
    · rw [List.mem_singleton] at h
      subst h
      decide
  | _ => exact hm m hmx

/-- **C78** with several namespaces, declared before use. -/
theorem build_compiles_several {s : Ast.Schema} {out : List Node} (h : OneNamespace s.elements ∨ InOrder s.elements)
    (hb : build s = some (.ok out)) {gm : Mode} (hwd : Worded s.elements) (hg : CompilableTo gm s.elements out)
    (L : Lawful s.elements) (hm : ∀ x ∈ itemsOf out, ∀ m ∈ x.1, legalName (Heck.snake m) = true) :
    ∃ P, emit gm out = some P ∧ WellTyped P ∧ Delivers gm s.elements out P := by
  obtain ⟨P, hP, hD⟩ := build_works_several h hb hwd hg
  have he := emitNodes_names gm [] out P hP
  have S := setting_of h hb hP ((Gen.C71_iff_partial hb he).mpr hg.clashfree)
    (Gen.C70_partial h hb he fun x hx q hq => ⟨(hg.paths x hx q hq).1, (hg.paths x hx q hq).2.2⟩) hg.free
  exact ⟨P, hP, S.wellTyped (acceptable_of h hb hP hwd L hg.tables hm), hD⟩

/-! ### From the text -/

section
variable [Parse.Env]

/-- **C78** from any schema text that the compiler accepts, whose types are all in one namespace and meet the conditions: a
program is emitted, it is well-typed, and it works (C77). Full statement: from every schema text that the compiler accepts,
which is false. -/
theorem C78_accepted_partial (hx : Parse.HexfPrefix) {txt : Str} {s : Ast.Schema} {out : List Node}
    (hp : Parse.schemaDecl txt = some ([], s)) (hc : Parse.compileText txt = some (.tree out)) (h : OneNamespace s.elements)
    {gm : Mode} (hg : Compilable gm s.elements) (L : Lawful s.elements)
    (hm : ∀ m ∈ nsOf s.elements, legalName (Heck.snake m) = true) :
    ∃ P, emit gm out = some P ∧ WellTyped P ∧ Delivers gm s.elements out P :=
  build_compiles h ((Gen.compileText_build hp).mp hc) (.of_text (Parse.C61_sound hx hp)) hg L hm

/-- **C78** with several namespaces, declared before use. -/
theorem C78_several_partial (hx : Parse.HexfPrefix) {txt : Str} {s : Ast.Schema} {out : List Node}
    (hp : Parse.schemaDecl txt = some ([], s)) (hc : Parse.compileText txt = some (.tree out))
    (h : OneNamespace s.elements ∨ InOrder s.elements) {gm : Mode} (hg : CompilableTo gm s.elements out)
    (L : Lawful s.elements) (hm : ∀ x ∈ itemsOf out, ∀ m ∈ x.1, legalName (Heck.snake m) = true) :
    ∃ P, emit gm out = some P ∧ WellTyped P ∧ Delivers gm s.elements out P :=
  build_compiles_several h ((Gen.compileText_build hp).mp hc) (.of_text (Parse.C61_sound hx hp)) hg L hm

/-- **C78** from the language as described, not from what the compiler does: see C73. -/
theorem C78_written_partial {txt : Str} {s : Ast.Schema} (ht : Parse.SchemaText s txt) (hv : Parse.NamesSchema s)
    (hq : Parse.NoSpecial txt) (h1 : OneNamespace s.elements) (h2 : Ir.WellFormed (lastNs s.elements) s.elements)
    (h3 : ∀ el ∈ s.elements, ∀ r ∈ Ir.needs el, Ir.Settled (lastNs s.elements) s.elements (refIn (lastNs s.elements) r))
    (h4 : Ir.Starts (lastNs s.elements) s.elements) {gm : Mode} (hg : Compilable gm s.elements) (L : Lawful s.elements)
    (hm : ∀ m ∈ nsOf s.elements, legalName (Heck.snake m) = true) :
    ∃ out P, Parse.compileText txt = some (.tree out) ∧ emit gm out = some P ∧ WellTyped P ∧ Delivers gm s.elements out P := by
  have hp := Parse.schemaDecl_eq ht hv hq
  obtain ⟨out, hb⟩ := (Ir.C59_accepted_iff h1).mpr ⟨h2, h3, h4⟩
  obtain ⟨P, hP, hW, hD⟩ := build_compiles h1 hb (.of_text ht) hg L hm
  exact ⟨out, P, (Gen.compileText_build hp).mpr hb, hP, hW, hD⟩

end

/-! ### Accepted schemas whose code is not accepted -/

/-- The last namespace declaration comes before everything else. -/
theorem oneNamespace_of {E : List Element} (h : ∀ p < E.length, (match E[p]? with | some (.namespace ..) => true | _ => false) = true ∨
    lastNs (E.take p) = lastNs E) : OneNamespace E := by
  intro p el he hne
  rcases h p (List.getElem?_eq_some_iff.mp he).1 with h | h
  · rw [he] at h
    cases el <;> simp at h
    exact absurd rfl (hne _ _)
  · exact h

/-- **C78** that the Rust compiler takes whatever is emitted is false. All of these schemas are accepted, a program is emitted
for them, no name is introduced twice, the paths lead where they should, no name that the generated code relies on is taken, and
there is working code for every table; but the program is not well-typed. -/
theorem C78_refuted : ∀ E ∈ ([
      -- `enum E: ubyte { Error } table T { e: E; }`
      [.enum ⟨c!"E", [⟨c!"Error", none, []⟩], .builtin .ubyte, none, []⟩, Ir.exTable c!"T" [Ir.exRef c!"e" [c!"E"]]],
      -- `enum E: ubyte { default } table T { e: E; }`
      [.enum ⟨c!"E", [⟨c!"default", none, []⟩], .builtin .ubyte, none, []⟩, Ir.exTable c!"T" [Ir.exRef c!"e" [c!"E"]]],
      -- `enum E: ubyte { X } union U { E } table T { u: U; }`
      [Ir.exEnum c!"E", Ir.exUnion c!"U" [c!"E"], Ir.exTable c!"T" [Ir.exRef c!"u" [c!"U"]]],
      -- `enum E: ubyte { X = 300 } table T { }`
      [.enum ⟨c!"E", [⟨c!"X", some 300, []⟩], .builtin .ubyte, none, []⟩, Ir.exTable c!"T" []],
      -- `enum E: ubyte { try } table T { e: E; }`
      [.enum ⟨c!"E", [⟨c!"try", none, []⟩], .builtin .ubyte, none, []⟩, Ir.exTable c!"T" [Ir.exRef c!"e" [c!"E"]]],
      -- `namespace mod; table T { }`
      [Ir.exNs c!"mod", Ir.exTable c!"T" []],
      -- `table Inner { } union U { Inner } table T { u: U; }`
      [Ir.exTable c!"Inner" [], Ir.exUnion c!"U" [c!"Inner"], Ir.exTable c!"T" [Ir.exRef c!"u" [c!"U"]]]] : List (List Element)),
    ∃ out P, build ⟨[], E⟩ = some (.ok out) ∧ (∀ gm, emit gm out = some P) ∧ P.names.Nodup ∧ Gen.PathsLead out P.names ∧
      NoCapture out ∧ (∀ p t, (p, Node.table t) ∈ itemsOf out → ∀ gm, ∃ gs, compileTable gm t = some gs) ∧ ¬ WellTyped P := by
  have key : ∀ {E out P}, OneNamespace E → build ⟨[], E⟩ = some (.ok out) → (∀ gm, emit gm out = some P) → P.names.Nodup →
      NoCapture out →
      (∀ gm, (itemsOf out).all (fun x => match x.2 with | .table t => (compileTable gm t).isSome | _ => true) = true) →
      (Acceptable .debug out P → False) →
      ∃ out P, build ⟨[], E⟩ = some (.ok out) ∧ (∀ gm, emit gm out = some P) ∧ P.names.Nodup ∧ Gen.PathsLead out P.names ∧
        NoCapture out ∧ (∀ p t, (p, Node.table t) ∈ itemsOf out → ∀ gm, ∃ gs, compileTable gm t = some gs) ∧ ¬ WellTyped P := by
    intro E out P h1 hb he hn hc ht hA
    have ht : ∀ x ∈ itemsOf out, ∀ t, x.2 = Node.table t → ∀ gm, ∃ gs, compileTable gm t = some gs := by
      intro x hx t e gm
      have := List.all_eq_true.mp (ht gm) x hx
      rw [e] at this
      exact Option.isSome_iff_exists.mp this
    have hl := Gen.C70_one_namespace_partial h1 hb (emitNodes_names .debug [] out P (he .debug))
    refine ⟨out, P, hb, he, hn, hl, hc, fun p t hx => ht _ hx t rfl, fun W => hA ?_⟩
    refine ((setting_of (.inl h1) hb (he .debug) hn hl hc).wellTyped_iff).mp W
  intro E hE
  simp only [List.mem_cons, List.not_mem_nil, or_false] at hE
  rcases hE with rfl | rfl | rfl | rfl | rfl | rfl | rfl
  all_goals
    refine key (oneNamespace_of (by decide)) rfl (fun gm => by cases gm <;> rfl) (by decide) (noCapture_of_all (by decide))
      (fun gm => by cases gm <;> rfl) fun A => ?_
  · exact absurd rfl (A.variants _ _ List.mem_cons_self _ List.mem_cons_self).2.2
  · exact A.defaults _ _ (List.mem_cons_of_mem _ List.mem_cons_self) rfl _ List.mem_cons_self _ _ _ rfl rfl List.mem_cons_self
  · obtain ⟨v, hv, h⟩ := A.lifetimes [] ⟨[c!"U"], [c!"butte_gen", c!"UType"],
      [⟨c!"E", .enum [c!"E"] [⟨c!"X", none, []⟩] .ubyte, []⟩], []⟩ (List.mem_of_getElem? (i := 2) rfl)
    rw [List.mem_singleton.mp hv] at h
    cases h
  · obtain ⟨xs, h⟩ := A.values _ _ List.mem_cons_self
    cases h
  · exact absurd (A.variants _ _ List.mem_cons_self _ List.mem_cons_self).1 (by decide)
  · exact absurd (A.names ⟨[], .type, c!"mod"⟩ (by decide)) (by decide)
  · exact absurd rfl (A.variants [c!"butte_gen"] ⟨[c!"butte_gen", c!"UType"], [⟨c!"None", some 0, []⟩, ⟨c!"Inner", none, []⟩], .ubyte, []⟩
      (List.mem_of_getElem? (i := 0) rfl)
      ⟨c!"Inner", none, []⟩ (List.mem_cons_of_mem _ List.mem_cons_self)).2.1

/-! ### A schema text -/

section
attribute [local instance] Parse.asciiEnv

theorem exRead_decls : decls Gen.exRead.elements = [
    ([c!"game", c!"Color"], .enum .byte [(c!"Red", none), (c!"Blue", some 4)]),
    ([c!"game", c!"butte_gen", c!"ShapeType"], .enum .ubyte [(c!"None", some 0), (c!"Mesh", none)]),
    ([c!"game", c!"Shape"], .union (some [c!"game"]) [c!"game", c!"butte_gen", c!"ShapeType"] [c!"Mesh"]),
    ([c!"game", c!"Mesh"], .table), ([c!"game", c!"T"], .table)] := by decide

theorem exRead_lawful : Lawful Gen.exRead.elements where
  values := by
    intro q b vs h
    rw [exRead_decls] at h
    simp only [List.mem_cons, Prod.mk.injEq, Gen.Decl.enum.injEq, reduceCtorEq, and_false, List.not_mem_nil, or_false] at h
    rcases h with ⟨-, rfl, rfl⟩ | ⟨-, rfl, rfl⟩
    · refine ⟨by decide, by decide, by decide, fun n hn => ?_⟩
      have hn : n ∈ [0, 4] := hn
      simp only [List.mem_cons, List.not_mem_nil, or_false] at hn
      exact ⟨-128, 127, rfl, by omega, by omega⟩
    · refine ⟨by decide, by decide, by decide, fun n hn => ?_⟩
      have hn : n ∈ [0, 1] := hn
      simp only [List.mem_cons, List.not_mem_nil, or_false] at hn
      exact ⟨0, 255, rfl, by omega, by omega⟩
  variants := by
    intro q b vs h
    rw [exRead_decls] at h
    simp only [List.mem_cons, Prod.mk.injEq, Gen.Decl.enum.injEq, reduceCtorEq, and_false, List.not_mem_nil, or_false] at h
    rcases h with ⟨-, rfl, rfl⟩ | ⟨-, rfl, rfl⟩ <;> decide
  unions := by
    intro q ns e ms h
    rw [exRead_decls] at h ⊢
    simp only [List.mem_cons, Prod.mk.injEq, Gen.Decl.union.injEq, reduceCtorEq, and_false, List.not_mem_nil, or_false,
      false_or] at h
    obtain ⟨-, rfl, rfl, rfl⟩ := h
    refine ⟨?_, c!"Mesh", List.mem_cons_self, by decide⟩
    intro m hm ns' e' ms'
    rw [List.mem_singleton] at hm
    subst hm
    simp only [List.mem_cons, Prod.mk.injEq, Gen.Decl.union.injEq, reduceCtorEq, and_false, List.not_mem_nil, or_false, false_or]
    rintro ⟨h, -⟩
    revert h
    decide
  types := by decide

/-- The compiler accepts the text, emits a program, and the program is well-typed and works. -/
example (gm : Mode) : ∃ out P, Parse.compileText Gen.exText = some (.tree out) ∧ emit gm out = some P ∧ WellTyped P ∧
    Delivers gm Gen.exRead.elements out P := by
  obtain ⟨out, hc, -⟩ := Gen.exText_delivers gm
  obtain ⟨P, hP, hW, hD⟩ := C78_accepted_partial (fun _ _ h => by cases h) Gen.exText_reads hc Gen.exRead_one
    (exRead_compilable gm) exRead_lawful (by decide)
  exact ⟨out, P, hc, hP, hW, hD⟩

theorem exText2_reads : Parse.schemaDecl exText2 = some ([], Gen.exTwo c!"assets" c!"Mesh" [c!"Game", c!"World"]) := rfl

theorem exText2_hyps (gm : Mode) : ∃ out, Parse.compileText exText2 = some (.tree out) ∧
    CompilableTo gm (Gen.exTwo c!"assets" c!"Mesh" [c!"Game", c!"World"]).elements out ∧
    Lawful (Gen.exTwo c!"assets" c!"Mesh" [c!"Game", c!"World"]).elements ∧
    ∀ x ∈ itemsOf out, ∀ m ∈ x.1, legalName (Heck.snake m) = true := by
  obtain ⟨out, hb, h1, h2, h3, h4, h5⟩ := exTwo_hyps gm
  have hc := (Gen.compileText_build exText2_reads).mpr hb
  have hb' := hb
  rw [show Ir.build (Gen.exTwo c!"assets" c!"Mesh" [c!"Game", c!"World"]) = some (.ok _) from rfl] at hb'
  cases hb'
  have hd : decls (Gen.exTwo c!"assets" c!"Mesh" [c!"Game", c!"World"]).elements =
    [([c!"assets", c!"Mesh"], .table), ([c!"Game", c!"World", c!"T"], .table)] := by decide
  exact ⟨_, hc, ⟨h1, h2, h4, by decide, (Gen.C71_iff_partial hb rfl).mp (by decide), noCapture_of_all (by decide)⟩,
    ⟨by simp [hd], by simp [hd], by simp [hd], by decide⟩, by decide⟩

/-- With two namespaces. -/
example (gm : Mode) : ∃ s out P, Parse.schemaDecl exText2 = some ([], s) ∧ Parse.compileText exText2 = some (.tree out) ∧
    emit gm out = some P ∧ WellTyped P ∧ Delivers gm s.elements out P := by
  obtain ⟨out, hc, hg, L, hm⟩ := exText2_hyps gm
  obtain ⟨P, hP, hW, hD⟩ := C78_several_partial (fun _ _ h => by cases h) exText2_reads hc (.inr (Gen.exTwo_order _ _ _)) hg L hm
  exact ⟨_, _, P, exText2_reads, hc, hP, hW, hD⟩

end

end Butte.Rs
