import Verif.Props.Own
import Verif.Src.CheckAll
/-
Property C87: the generated source files keep Rust's type rules with references and lifetimes.
-/
namespace Butte.Src
open Ir (QIdent Node Ident itemsOf OneNamespace InOrder build)
open Rs (Program Setting WellTyped Acceptable legalName emit Worded Compilable CompilableTo Lawful Delivers modOf)
open Gen (nsOf)

/-- Tokens that can be read as the source of a program, and keep the type rules. -/
def KeepsTypes (ts : Toks) (P : Program) : Prop :=
  ∃ items, Read.readFile ts = some items ∧ eraseItems [] items = some P.forget ∧ Check.FileChecks ⟨items, P.forget⟩

section
variable [FloatText]

/-- **C87** of every generated file whose names can be read back, do not clash, lead where they should and do not hide those
that the code relies on, and whose schema keeps to `Acceptable` (by C78 there is no way around that). Full statement: of every
file that the compiler generates, which is false (C77, C78). -/
theorem C87_partial {gm : Mode} {E : List Ast.Element} {out : List Node} {P : Program} (S : Setting gm E out P) (h : Legible out)
    (A : Acceptable gm out P) : ∃ ts, tokens gm out = some ts ∧ IsSource ts P ∧ KeepsTypes ts P := by
  obtain ⟨ts, items, h1, h2, X⟩ := written_of S h
  exact ⟨ts, h1, ⟨items, h2, X.erased⟩, ⟨items, h2, X.erased, Check.file_checks X A⟩⟩

/-- **C87** and C85 of a well-typed program. -/
theorem types_of {gm : Mode} {s : Ast.Schema} {out : List Node} {P : Program} (S : Setting gm s.elements out P)
    (A : Acceptable gm out P) : ∃ ts, tokens gm out = some ts ∧ KeepsTypes ts P ∧ KeepsOwnership ts P := by
  have W := S.wellTyped A
  obtain ⟨ts, h1, -, h2⟩ := C87_partial S (legible S W A.tables (leavesL_isItem [] out)) A
  obtain ⟨ts', h3, h4⟩ := owns_of S W A.tables
  rw [h1] at h3
  cases h3
  exact ⟨ts, h1, h2, h4⟩

/-- **C87**: where C78 says that the program, with references left out, is well-typed, it also is with them. -/
theorem C87_wellTyped_partial {gm : Mode} {s : Ast.Schema} {out : List Node} {P : Program} (S : Setting gm s.elements out P)
    (W : WellTyped P) : ∃ ts, tokens gm out = some ts ∧ KeepsTypes ts P ∧ KeepsOwnership ts P :=
  types_of S (S.wellTyped_iff.mp W)

/-- **C87** with C85 and C78 in one namespace. -/
theorem build_types {s : Ast.Schema} {out : List Node} (h1 : OneNamespace s.elements) (hb : build s = some (.ok out))
    {gm : Mode} (hwd : Worded s.elements) (hg : Compilable gm s.elements) (L : Lawful s.elements)
    (hm : ∀ m ∈ nsOf s.elements, legalName (Heck.snake m) = true) :
    ∃ ts P, tokens gm out = some ts ∧ KeepsTypes ts P ∧ KeepsOwnership ts P ∧ WellTyped P := by
  obtain ⟨P, hP, W, hD⟩ := Rs.build_compiles h1 hb hwd hg L hm
  have S := Rs.setting_one h1 hb hP W.1 hg.free hg.freeModules
  have A := Rs.acceptable_of (.inl h1) hb hP hwd L hg.tables ?_
  · obtain ⟨ts, ht, hs, ho⟩ := types_of S A
    exact ⟨ts, P, ht, hs, ho, W⟩
  · intro x hx m hmx
    cases Gen.from_of h1 hb hx with
    | tag d t h e =>
      rcases List.mem_append.mp hmx with h | h
      · exact hm m h
      · rw [List.mem_singleton] at h
        subst h
        decide
    | _ => exact hm m hmx

/-- **C87** with several namespaces, declared before use. -/
theorem build_types_several {s : Ast.Schema} {out : List Node} (h : OneNamespace s.elements ∨ InOrder s.elements)
    (hb : build s = some (.ok out)) {gm : Mode} (hwd : Worded s.elements) (hg : CompilableTo gm s.elements out)
    (L : Lawful s.elements) (hm : ∀ x ∈ itemsOf out, ∀ m ∈ x.1, legalName (Heck.snake m) = true) :
    ∃ ts P, tokens gm out = some ts ∧ KeepsTypes ts P ∧ KeepsOwnership ts P ∧ WellTyped P := by
  obtain ⟨P, hP, W, hD⟩ := Rs.build_compiles_several h hb hwd hg L hm
  have S := Rs.setting_of h hb hP W.1
    (Gen.C70_partial h hb (Rs.emitNodes_names gm [] out P hP) fun x hx q hq => ⟨(hg.paths x hx q hq).1, (hg.paths x hx q hq).2.2⟩) hg.free
  obtain ⟨ts, ht, hs, ho⟩ := types_of S (Rs.acceptable_of h hb hP hwd L hg.tables hm)
  exact ⟨ts, P, ht, hs, ho, W⟩

/-! ### From the text -/

section
variable [Parse.Env]

/-- **C87** from any schema text that the compiler accepts, whose types are all in one namespace and meet the conditions. Full
statement: of every accepted schema, which is false. -/
theorem C87_accepted_partial (hx : Parse.HexfPrefix) {txt : Str} {s : Ast.Schema} {out : List Node}
    (hp : Parse.schemaDecl txt = some ([], s)) (hc : Parse.compileText txt = some (.tree out)) (h : OneNamespace s.elements)
    {gm : Mode} (hg : Compilable gm s.elements) (L : Lawful s.elements)
    (hm : ∀ m ∈ nsOf s.elements, legalName (Heck.snake m) = true) :
    ∃ ts P, tokens gm out = some ts ∧ KeepsTypes ts P ∧ KeepsOwnership ts P ∧ WellTyped P :=
  build_types h ((Gen.compileText_build hp).mp hc) (.of_text (Parse.C61_sound hx hp)) hg L hm

/-- **C87** with several namespaces, declared before use. -/
theorem C87_several_partial (hx : Parse.HexfPrefix) {txt : Str} {s : Ast.Schema} {out : List Node}
    (hp : Parse.schemaDecl txt = some ([], s)) (hc : Parse.compileText txt = some (.tree out))
    (h : OneNamespace s.elements ∨ InOrder s.elements) {gm : Mode} (hg : CompilableTo gm s.elements out)
    (L : Lawful s.elements) (hm : ∀ x ∈ itemsOf out, ∀ m ∈ x.1, legalName (Heck.snake m) = true) :
    ∃ ts P, tokens gm out = some ts ∧ KeepsTypes ts P ∧ KeepsOwnership ts P ∧ WellTyped P :=
  build_types_several h ((Gen.compileText_build hp).mp hc) (.of_text (Parse.C61_sound hx hp)) hg L hm

end

end

/-! ### A schema text -/

section
attribute [local instance] Parse.asciiEnv
variable [FloatText]

example (gm : Mode) : ∃ out ts P, Parse.compileText Gen.exText = some (.tree out) ∧ tokens gm out = some ts ∧ KeepsTypes ts P ∧
    KeepsOwnership ts P ∧ WellTyped P := by
  obtain ⟨out, hc, -⟩ := Gen.exText_delivers gm
  obtain ⟨ts, P, h⟩ := C87_accepted_partial (fun _ _ h => by cases h) Gen.exText_reads hc Gen.exRead_one
    (Rs.exRead_compilable gm) Rs.exRead_lawful (by decide)
  exact ⟨out, ts, P, hc, h⟩

/-- The tree of the text meets the conditions of the property by itself. -/
example (gm : Mode) : ∃ ts, tokens gm Rs.exOut = some ts ∧ IsSource ts (Rs.exProg gm) ∧ KeepsTypes ts (Rs.exProg gm) := by
  obtain ⟨P, hP, hW, -⟩ := Rs.C78_accepted_partial (fun _ _ h => by cases h) Gen.exText_reads
    ((Gen.compileText_build Gen.exText_reads).mpr Rs.exOut_eq) Gen.exRead_one (Rs.exRead_compilable gm) Rs.exRead_lawful (by decide)
  rw [Rs.exProg_eq] at hP
  cases hP
  exact C87_partial (Rs.exProg_setting gm) exOut_legible (((Rs.exProg_setting gm).wellTyped_iff).mp hW)

/-- With two namespaces. -/
example (gm : Mode) : ∃ s out ts P, Parse.schemaDecl Rs.exText2 = some ([], s) ∧ Parse.compileText Rs.exText2 = some (.tree out) ∧
    tokens gm out = some ts ∧ KeepsTypes ts P ∧ KeepsOwnership ts P ∧ WellTyped P := by
  obtain ⟨out, hc, hg, L, hm⟩ := Rs.exText2_hyps gm
  obtain ⟨ts, P, h⟩ := C87_several_partial (fun _ _ h => by cases h) Rs.exText2_reads hc (.inr (Gen.exTwo_order _ _ _)) hg L hm
  exact ⟨_, out, ts, P, Rs.exText2_reads, hc, h⟩

end

end Butte.Src
