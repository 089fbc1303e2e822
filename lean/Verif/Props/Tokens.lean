import Verif.Props.Compiles
import Verif.Src.Legible
import Verif.Src.RoundItem
/-
Property C79: the generated tokens, read as Rust source, are the emitted program.
-/
namespace Butte.Src
open Ir (QIdent Node Ident itemsOf OneNamespace InOrder lastNs refIn build)
open Rs (Program Setting WellTyped legalName emit Worded Compilable CompilableTo Lawful Delivers)
open Gen (nsOf)

/-- Tokens that can be read as a source file, which is a given program when lifetimes, attributes, visibility, bounds and
associated types are left out. `forget`: `E::A(x)` is written like a call. -/
def IsSource (ts : Toks) (P : Program) : Prop := ∃ items, Read.readFile ts = some items ∧ eraseItems [] items = some P.forget

section
variable [FloatText]

/-- **C79** The generator gets to the end, with tokens, if and only if `Rs/Emit` has a program. -/
theorem C79_defined (gm : Mode) (out : List Node) : (∃ ts, tokens gm out = some ts) ↔ ∃ P, emit gm out = some P := by
  have h := nodes_agree gm out []
  rw [tokens, Quote.nodes_eq, emit]
  generalize Full.nodes gm out = q at h ⊢
  generalize Rs.emitNodes gm [] out = r at h ⊢
  cases h with
  | none => simp
  | some h => simp

/-- **C79** The tokens for any list of nodes whose names can be read back are the source of the emitted program. Full
statement: the same for all names, which is false. -/
theorem C79_partial {gm : Mode} {out : List Node} {P : Program} (h : Legible out) (he : emit gm out = some P) :
    ∃ ts, tokens gm out = some ts ∧ IsSource ts P := by
  have h' := nodes_agree gm out []
  rw [emit] at he
  rw [he] at h'
  generalize hq : Full.nodes gm out = q at h'
  cases h' with
  | some hr =>
    obtain ⟨h1, h2⟩ := hr h
    exact ⟨_, by rw [tokens, Quote.nodes_eq, hq]; rfl, _, readFile_print h1, h2⟩

/-- **C79** of a well-typed program. -/
theorem source_of {gm : Mode} {s : Ast.Schema} {out : List Node} {P : Program} (hb : build s = some (.ok out))
    (S : Setting gm s.elements out P) (W : WellTyped P)
    (hc : ∀ p t, (p, Node.table t) ∈ itemsOf out → ∃ gs, Gen.compileTable gm t = some gs) :
    ∃ ts, tokens gm out = some ts ∧ IsSource ts P :=
  C79_partial (legible S W hc fun _ hx => (Gen.item_facts hb hx).1) S.emitted

/-- **C79** and C78 and C77 in one namespace: tokens are generated, they are the source of a program, the program is
well-typed, and it works. -/
theorem build_source {s : Ast.Schema} {out : List Node} (h1 : OneNamespace s.elements) (hb : build s = some (.ok out))
    {gm : Mode} (hwd : Worded s.elements) (hg : Compilable gm s.elements) (L : Lawful s.elements)
    (hm : ∀ m ∈ nsOf s.elements, legalName (Heck.snake m) = true) :
    ∃ ts P, tokens gm out = some ts ∧ IsSource ts P ∧ WellTyped P ∧ Delivers gm s.elements out P := by
  obtain ⟨P, hP, W, hD⟩ := Rs.build_compiles h1 hb hwd hg L hm
  have S := Rs.setting_one h1 hb hP W.1 hg.free hg.freeModules
  obtain ⟨ts, ht, hs⟩ := source_of hb S W fun p t hx => Gen.C72_all_partial (.inl h1) hb gm hg.tables hx
  exact ⟨ts, P, ht, hs, W, hD⟩

/-- **C79** with several namespaces, declared before use. -/
theorem build_source_several {s : Ast.Schema} {out : List Node} (h : OneNamespace s.elements ∨ InOrder s.elements)
    (hb : build s = some (.ok out)) {gm : Mode} (hwd : Worded s.elements) (hg : CompilableTo gm s.elements out)
    (L : Lawful s.elements) (hm : ∀ x ∈ itemsOf out, ∀ m ∈ x.1, legalName (Heck.snake m) = true) :
    ∃ ts P, tokens gm out = some ts ∧ IsSource ts P ∧ WellTyped P ∧ Delivers gm s.elements out P := by
  obtain ⟨P, hP, W, hD⟩ := Rs.build_compiles_several h hb hwd hg L hm
  have S := Rs.setting_of h hb hP W.1
    (Gen.C70_partial h hb (Rs.emitNodes_names gm [] out P hP) fun x hx q hq => ⟨(hg.paths x hx q hq).1, (hg.paths x hx q hq).2.2⟩) hg.free
  obtain ⟨ts, ht, hs⟩ := source_of hb S W fun p t hx => Gen.C72_all_partial h hb gm hg.tables hx
  exact ⟨ts, P, ht, hs, W, hD⟩

/-! ### From the text -/

section
variable [Parse.Env]

/-- **C79** from any schema text that the compiler accepts, whose types are all in one namespace and meet the conditions: a
source file is generated, it is the source of a well-typed program (C78), and the program works (C77). -/
theorem C79_accepted_partial (hx : Parse.HexfPrefix) {txt : Str} {s : Ast.Schema} {out : List Node}
    (hp : Parse.schemaDecl txt = some ([], s)) (hc : Parse.compileText txt = some (.tree out)) (h : OneNamespace s.elements)
    {gm : Mode} (hg : Compilable gm s.elements) (L : Lawful s.elements)
    (hm : ∀ m ∈ nsOf s.elements, legalName (Heck.snake m) = true) :
    ∃ ts P, tokens gm out = some ts ∧ IsSource ts P ∧ WellTyped P ∧ Delivers gm s.elements out P :=
  build_source h ((Gen.compileText_build hp).mp hc) (.of_text (Parse.C61_sound hx hp)) hg L hm

/-- **C79** with several namespaces, declared before use. -/
theorem C79_several_partial (hx : Parse.HexfPrefix) {txt : Str} {s : Ast.Schema} {out : List Node}
    (hp : Parse.schemaDecl txt = some ([], s)) (hc : Parse.compileText txt = some (.tree out))
    (h : OneNamespace s.elements ∨ InOrder s.elements) {gm : Mode} (hg : CompilableTo gm s.elements out)
    (L : Lawful s.elements) (hm : ∀ x ∈ itemsOf out, ∀ m ∈ x.1, legalName (Heck.snake m) = true) :
    ∃ ts P, tokens gm out = some ts ∧ IsSource ts P ∧ WellTyped P ∧ Delivers gm s.elements out P :=
  build_source_several h ((Gen.compileText_build hp).mp hc) (.of_text (Parse.C61_sound hx hp)) hg L hm

/-- **C79** from the language as described, not from what the compiler does: see C73. -/
theorem C79_written_partial {txt : Str} {s : Ast.Schema} (ht : Parse.SchemaText s txt) (hv : Parse.NamesSchema s)
    (hq : Parse.NoSpecial txt) (h1 : OneNamespace s.elements) (h2 : Ir.WellFormed (lastNs s.elements) s.elements)
    (h3 : ∀ el ∈ s.elements, ∀ r ∈ Ir.needs el, Ir.Settled (lastNs s.elements) s.elements (refIn (lastNs s.elements) r))
    (h4 : Ir.Starts (lastNs s.elements) s.elements) {gm : Mode} (hg : Compilable gm s.elements) (L : Lawful s.elements)
    (hm : ∀ m ∈ nsOf s.elements, legalName (Heck.snake m) = true) :
    ∃ out ts P, Parse.compileText txt = some (.tree out) ∧ tokens gm out = some ts ∧ IsSource ts P ∧ WellTyped P ∧
      Delivers gm s.elements out P := by
  have hp := Parse.schemaDecl_eq ht hv hq
  obtain ⟨out, hb⟩ := (Ir.C59_accepted_iff h1).mpr ⟨h2, h3, h4⟩
  obtain ⟨ts, P, h⟩ := build_source h1 hb (.of_text ht) hg L hm
  exact ⟨out, ts, P, (Gen.compileText_build hp).mpr hb, h⟩

end

/-! ### Accepted schemas whose tokens are no source file -/

omit [FloatText] in
theorem read_module_none {m : Str} (hm : nameOk m = false) (rest : Toks) :
    Read.readFile (.ident c!"pub" :: .ident c!"mod" :: .ident m :: rest) = none := by
  simp [Read.readFile, Read.items, Read.item, Read.attrs, Read.optWord, Read.name, hm]

omit [FloatText] in
theorem read_variant_none (v : Toks) (fs : List Toks) (rest : Toks) :
    Read.readFile (Quote.enumItem c!"E" (quote! "u8") [] (Quote.enumField (c!"try", v, []) :: fs) ++ rest) = none := by
  cases fs <;>
  simp [Read.readFile, Read.items, Read.item, Read.attrs, Read.attrArg, Read.pathList, Read.path, Read.optWord, Read.name, Read.enum, Read.generics,
    Read.variants, Read.tok, Quote.enumItem, Quote.enumField, nameOk, segOk, sepCommas, Gen.rustKeywords]

/-- **C79** that what is generated is always Rust is false, for keywords where a name is needed. Both schemas are accepted, and
tokens are generated for them. -/
theorem C79_refuted : ∀ E ∈ ([
      -- `namespace mod; table T { }`
      [Ir.exNs c!"mod", Ir.exTable c!"T" []],
      -- `enum E: ubyte { try } table T { e: E; }`
      [.enum ⟨c!"E", [⟨c!"try", none, []⟩], .builtin .ubyte, none, []⟩, Ir.exTable c!"T" [Ir.exRef c!"e" [c!"E"]]]] :
        List (List Ast.Element)),
    ∃ out ts, build ⟨[], E⟩ = some (.ok out) ∧ (∀ gm, tokens gm out = some ts) ∧ Read.readFile ts = none := by
  intro E hE
  simp only [List.mem_cons, List.not_mem_nil, or_false] at hE
  rcases hE with rfl | rfl
  all_goals
    refine ⟨_, _, rfl, fun gm => by cases gm <;> rfl, ?_⟩
  · exact read_module_none (m := c!"mod") (by decide) _
  · simp only [List.append_assoc]
    exact read_variant_none _ _ _

end

/-! ### A schema text -/

section
attribute [local instance] Parse.asciiEnv
variable [FloatText]

/-- The compiler accepts the text, and generates the source of a program that is well-typed and works. -/
example (gm : Mode) : ∃ out ts P, Parse.compileText Gen.exText = some (.tree out) ∧ tokens gm out = some ts ∧ IsSource ts P ∧
    WellTyped P ∧ Delivers gm Gen.exRead.elements out P := by
  obtain ⟨out, hc, -⟩ := Gen.exText_delivers gm
  obtain ⟨ts, P, h⟩ := C79_accepted_partial (fun _ _ h => by cases h) Gen.exText_reads hc Gen.exRead_one
    (Rs.exRead_compilable gm) Rs.exRead_lawful (by decide)
  exact ⟨out, ts, P, hc, h⟩

theorem exOut_legible : Legible Rs.exOut := legible_of_check (by kernel_rfl)

/-- The tree of the text meets the conditions of the property by itself. -/
example (gm : Mode) : ∃ ts, tokens gm Rs.exOut = some ts ∧ IsSource ts (Rs.exProg gm) :=
  C79_partial exOut_legible (Rs.exProg_eq gm)

/-- With two namespaces. -/
example (gm : Mode) : ∃ s out ts P, Parse.schemaDecl Rs.exText2 = some ([], s) ∧ Parse.compileText Rs.exText2 = some (.tree out) ∧
    tokens gm out = some ts ∧ IsSource ts P ∧ WellTyped P ∧ Delivers gm s.elements out P := by
  obtain ⟨out, hc, hg, L, hm⟩ := Rs.exText2_hyps gm
  obtain ⟨ts, P, h⟩ := C79_several_partial (fun _ _ h => by cases h) Rs.exText2_reads hc (.inr (Gen.exTwo_order _ _ _)) hg L hm
  exact ⟨_, out, ts, P, Rs.exText2_reads, hc, h⟩

end

end Butte.Src
