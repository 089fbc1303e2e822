import Verif.Props.Traits
import Verif.Src.OwnAll
/-
Property C85: the generated source files keep Rust's rules for ownership: nothing is used after it was moved, nothing is moved
out of a reference, only what may be changed is changed, and private fields and methods are only used where they can be seen.
-/
namespace Butte.Src
open Ir (QIdent Node Ident itemsOf OneNamespace InOrder build)
open Rs (Program Setting WellTyped legalName emit Worded Compilable CompilableTo Lawful Delivers modOf)
open Gen (nsOf)

/-- Tokens that can be read as the source of a program, and keep the rules for ownership. -/
def KeepsOwnership (ts : Toks) (P : Program) : Prop :=
  ∃ items, Read.readFile ts = some items ∧ eraseItems [] items = some P.forget ∧ OwnOk ⟨items, P.forget⟩

section
variable [FloatText]

/-- **C85** of every generated file whose names can be read back, do not clash, lead where they should and do not hide those
that the code relies on. Full statement: of every file that the compiler generates, which is false, as names may be hidden
(C77). -/
theorem C85_partial {gm : Mode} {E : List Ast.Element} {out : List Node} {P : Program} (S : Setting gm E out P) (h : Legible out)
    (hc : ∀ p t, (p, Node.table t) ∈ itemsOf out → ∃ gs, Gen.compileTable gm t = some gs) :
    ∃ ts, tokens gm out = some ts ∧ IsSource ts P ∧ KeepsOwnership ts P := by
  obtain ⟨ts, items, h1, h2, X⟩ := written_of S h
  exact ⟨ts, h1, ⟨items, h2, X.erased⟩, ⟨items, h2, X.erased, X.owns hc⟩⟩

/-- **C85** of a well-typed program. -/
theorem owns_of {gm : Mode} {s : Ast.Schema} {out : List Node} {P : Program} (S : Setting gm s.elements out P) (W : WellTyped P)
    (hc : ∀ p t, (p, Node.table t) ∈ itemsOf out → ∃ gs, Gen.compileTable gm t = some gs) :
    ∃ ts, tokens gm out = some ts ∧ KeepsOwnership ts P := by
  obtain ⟨ts, h1, -, h2⟩ := C85_partial S (legible S W hc (leavesL_isItem [] out)) hc
  exact ⟨ts, h1, h2⟩

/-- **C85** with C84, C80 and C78 in one namespace. -/
theorem build_owns {s : Ast.Schema} {out : List Node} (h1 : OneNamespace s.elements) (hb : build s = some (.ok out))
    {gm : Mode} (hwd : Worded s.elements) (hg : Compilable gm s.elements) (L : Lawful s.elements)
    (hm : ∀ m ∈ nsOf s.elements, legalName (Heck.snake m) = true) :
    ∃ ts P, tokens gm out = some ts ∧ KeepsOwnership ts P ∧ KeepsTraits ts P ∧ WellTyped P := by
  obtain ⟨P, hP, W, hD⟩ := Rs.build_compiles h1 hb hwd hg L hm
  have S := Rs.setting_one h1 hb hP W.1 hg.free hg.freeModules
  have hc : ∀ p t, (p, Node.table t) ∈ itemsOf out → ∃ gs, Gen.compileTable gm t = some gs :=
    fun p t hx => Gen.C72_all_partial (.inl h1) hb gm hg.tables hx
  obtain ⟨ts, ht, hs⟩ := owns_of S W hc
  obtain ⟨ts', ht', hl⟩ := traits_of S W hc
  rw [ht] at ht'
  cases ht'
  exact ⟨ts, P, ht, hs, hl.1, W⟩

/-- **C85** with several namespaces, declared before use. -/
theorem build_owns_several {s : Ast.Schema} {out : List Node} (h : OneNamespace s.elements ∨ InOrder s.elements)
    (hb : build s = some (.ok out)) {gm : Mode} (hwd : Worded s.elements) (hg : CompilableTo gm s.elements out)
    (L : Lawful s.elements) (hm : ∀ x ∈ itemsOf out, ∀ m ∈ x.1, legalName (Heck.snake m) = true) :
    ∃ ts P, tokens gm out = some ts ∧ KeepsOwnership ts P ∧ KeepsTraits ts P ∧ WellTyped P := by
  obtain ⟨P, hP, W, hD⟩ := Rs.build_compiles_several h hb hwd hg L hm
  have S := Rs.setting_of h hb hP W.1
    (Gen.C70_partial h hb (Rs.emitNodes_names gm [] out P hP) fun x hx q hq => ⟨(hg.paths x hx q hq).1, (hg.paths x hx q hq).2.2⟩) hg.free
  have hc : ∀ p t, (p, Node.table t) ∈ itemsOf out → ∃ gs, Gen.compileTable gm t = some gs :=
    fun p t hx => Gen.C72_all_partial h hb gm hg.tables hx
  obtain ⟨ts, ht, hs⟩ := owns_of S W hc
  obtain ⟨ts', ht', hl⟩ := traits_of S W hc
  rw [ht] at ht'
  cases ht'
  exact ⟨ts, P, ht, hs, hl.1, W⟩

/-! ### From the text -/

section
variable [Parse.Env]

/-- **C85** from any schema text that the compiler accepts, whose types are all in one namespace and meet the conditions. Full
statement: of every accepted schema, which is false. -/
theorem C85_accepted_partial (hx : Parse.HexfPrefix) {txt : Str} {s : Ast.Schema} {out : List Node}
    (hp : Parse.schemaDecl txt = some ([], s)) (hc : Parse.compileText txt = some (.tree out)) (h : OneNamespace s.elements)
    {gm : Mode} (hg : Compilable gm s.elements) (L : Lawful s.elements)
    (hm : ∀ m ∈ nsOf s.elements, legalName (Heck.snake m) = true) :
    ∃ ts P, tokens gm out = some ts ∧ KeepsOwnership ts P ∧ KeepsTraits ts P ∧ WellTyped P :=
  build_owns h ((Gen.compileText_build hp).mp hc) (.of_text (Parse.C61_sound hx hp)) hg L hm

/-- **C85** with several namespaces, declared before use. -/
theorem C85_several_partial (hx : Parse.HexfPrefix) {txt : Str} {s : Ast.Schema} {out : List Node}
    (hp : Parse.schemaDecl txt = some ([], s)) (hc : Parse.compileText txt = some (.tree out))
    (h : OneNamespace s.elements ∨ InOrder s.elements) {gm : Mode} (hg : CompilableTo gm s.elements out)
    (L : Lawful s.elements) (hm : ∀ x ∈ itemsOf out, ∀ m ∈ x.1, legalName (Heck.snake m) = true) :
    ∃ ts P, tokens gm out = some ts ∧ KeepsOwnership ts P ∧ KeepsTraits ts P ∧ WellTyped P :=
  build_owns_several h ((Gen.compileText_build hp).mp hc) (.of_text (Parse.C61_sound hx hp)) hg L hm

end

end

/-! ### A schema text -/

section
attribute [local instance] Parse.asciiEnv
variable [FloatText]

example (gm : Mode) : ∃ out ts P, Parse.compileText Gen.exText = some (.tree out) ∧ tokens gm out = some ts ∧ KeepsOwnership ts P ∧
    KeepsTraits ts P ∧ WellTyped P := by
  obtain ⟨out, hc, -⟩ := Gen.exText_delivers gm
  obtain ⟨ts, P, h⟩ := C85_accepted_partial (fun _ _ h => by cases h) Gen.exText_reads hc Gen.exRead_one
    (Rs.exRead_compilable gm) Rs.exRead_lawful (by decide)
  exact ⟨out, ts, P, hc, h⟩

/-- The tree of the text meets the conditions of the property by itself. -/
example (gm : Mode) : ∃ ts, tokens gm Rs.exOut = some ts ∧ IsSource ts (Rs.exProg gm) ∧ KeepsOwnership ts (Rs.exProg gm) := by
  have h : ((itemsOf Rs.exOut).all fun x => match x.2 with
      | .table t => (Gen.compileTable gm t).isSome
      | _ => true) = true := by cases gm <;> kernel_rfl
  exact C85_partial (Rs.exProg_setting gm) exOut_legible fun p t ht =>
    Option.isSome_iff_exists.mp (List.all_eq_true.mp h (p, .table t) ht)

/-- With two namespaces. -/
example (gm : Mode) : ∃ s out ts P, Parse.schemaDecl Rs.exText2 = some ([], s) ∧ Parse.compileText Rs.exText2 = some (.tree out) ∧
    tokens gm out = some ts ∧ KeepsOwnership ts P ∧ KeepsTraits ts P ∧ WellTyped P := by
  obtain ⟨out, hc, hg, L, hm⟩ := Rs.exText2_hyps gm
  obtain ⟨ts, P, h⟩ := C85_several_partial (fun _ _ h => by cases h) Rs.exText2_reads hc (.inr (Gen.exTwo_order _ _ _)) hg L hm
  exact ⟨_, out, ts, P, Rs.exText2_reads, hc, h⟩

end

end Butte.Src
