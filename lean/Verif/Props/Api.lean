import Verif.Props.Own
import Verif.Src.ApiAll
/-
Property C86: the generated source files offer to other modules what the schema declares, with its documentation.
-/
namespace Butte.Src
open Ir (QIdent Node Ident itemsOf OneNamespace InOrder build)
open Rs (Program Setting WellTyped legalName emit Worded Compilable CompilableTo Lawful Delivers modOf)
open Gen (nsOf)

/-- Tokens that can be read as the source of a program that offers what the schema declares, with its documentation. -/
def OffersAll (ts : Toks) (P : Program) (E : List Ast.Element) (out : List Node) : Prop :=
  ∃ items, Read.readFile ts = some items ∧ eraseItems [] items = some P.forget ∧ ApiOk ⟨items, P.forget⟩ out ∧
    DocsOk ⟨items, P.forget⟩ E

section
variable [FloatText]

/-- **C86** of every generated file whose names can be read back, do not clash, lead where they should and do not hide those
that the code relies on. Full statement: of every file that the compiler generates, which is false, as names may be hidden
(C77). -/
theorem C86_partial {gm : Mode} {E : List Ast.Element} {out : List Node} {P : Program} (S : Setting gm E out P) (h : Legible out) :
    ∃ ts, tokens gm out = some ts ∧ IsSource ts P ∧ OffersAll ts P E out := by
  obtain ⟨ts, items, h1, h2, X⟩ := written_of S h
  exact ⟨ts, h1, ⟨items, h2, X.erased⟩, ⟨items, h2, X.erased, X.api, X.docs⟩⟩

/-- **C86** of a well-typed program. -/
theorem offers_of {gm : Mode} {s : Ast.Schema} {out : List Node} {P : Program} (S : Setting gm s.elements out P) (W : WellTyped P)
    (hc : ∀ p t, (p, Node.table t) ∈ itemsOf out → ∃ gs, Gen.compileTable gm t = some gs) :
    ∃ ts, tokens gm out = some ts ∧ OffersAll ts P s.elements out := by
  obtain ⟨ts, h1, -, h2⟩ := C86_partial S (legible S W hc (leavesL_isItem [] out))
  exact ⟨ts, h1, h2⟩

/-- **C86** with C85 and C78 in one namespace. -/
theorem build_offers {s : Ast.Schema} {out : List Node} (h1 : OneNamespace s.elements) (hb : build s = some (.ok out))
    {gm : Mode} (hwd : Worded s.elements) (hg : Compilable gm s.elements) (L : Lawful s.elements)
    (hm : ∀ m ∈ nsOf s.elements, legalName (Heck.snake m) = true) :
    ∃ ts P, tokens gm out = some ts ∧ OffersAll ts P s.elements out ∧ KeepsOwnership ts P ∧ WellTyped P := by
  obtain ⟨P, hP, W, hD⟩ := Rs.build_compiles h1 hb hwd hg L hm
  have S := Rs.setting_one h1 hb hP W.1 hg.free hg.freeModules
  have hc : ∀ p t, (p, Node.table t) ∈ itemsOf out → ∃ gs, Gen.compileTable gm t = some gs :=
    fun p t hx => Gen.C72_all_partial (.inl h1) hb gm hg.tables hx
  obtain ⟨ts, ht, hs⟩ := offers_of S W hc
  obtain ⟨ts', ht', hl⟩ := owns_of S W hc
  rw [ht] at ht'
  cases ht'
  exact ⟨ts, P, ht, hs, hl, W⟩

/-- **C86** with several namespaces, declared before use. -/
theorem build_offers_several {s : Ast.Schema} {out : List Node} (h : OneNamespace s.elements ∨ InOrder s.elements)
    (hb : build s = some (.ok out)) {gm : Mode} (hwd : Worded s.elements) (hg : CompilableTo gm s.elements out)
    (L : Lawful s.elements) (hm : ∀ x ∈ itemsOf out, ∀ m ∈ x.1, legalName (Heck.snake m) = true) :
    ∃ ts P, tokens gm out = some ts ∧ OffersAll ts P s.elements out ∧ KeepsOwnership ts P ∧ WellTyped P := by
  obtain ⟨P, hP, W, hD⟩ := Rs.build_compiles_several h hb hwd hg L hm
  have S := Rs.setting_of h hb hP W.1
    (Gen.C70_partial h hb (Rs.emitNodes_names gm [] out P hP) fun x hx q hq => ⟨(hg.paths x hx q hq).1, (hg.paths x hx q hq).2.2⟩) hg.free
  have hc : ∀ p t, (p, Node.table t) ∈ itemsOf out → ∃ gs, Gen.compileTable gm t = some gs :=
    fun p t hx => Gen.C72_all_partial h hb gm hg.tables hx
  obtain ⟨ts, ht, hs⟩ := offers_of S W hc
  obtain ⟨ts', ht', hl⟩ := owns_of S W hc
  rw [ht] at ht'
  cases ht'
  exact ⟨ts, P, ht, hs, hl, W⟩

/-! ### From the text -/

section
variable [Parse.Env]

/-- **C86** from any schema text that the compiler accepts, whose types are all in one namespace and meet the conditions. Full
statement: of every accepted schema, which is false. -/
theorem C86_accepted_partial (hx : Parse.HexfPrefix) {txt : Str} {s : Ast.Schema} {out : List Node}
    (hp : Parse.schemaDecl txt = some ([], s)) (hc : Parse.compileText txt = some (.tree out)) (h : OneNamespace s.elements)
    {gm : Mode} (hg : Compilable gm s.elements) (L : Lawful s.elements)
    (hm : ∀ m ∈ nsOf s.elements, legalName (Heck.snake m) = true) :
    ∃ ts P, tokens gm out = some ts ∧ OffersAll ts P s.elements out ∧ KeepsOwnership ts P ∧ WellTyped P :=
  build_offers h ((Gen.compileText_build hp).mp hc) (.of_text (Parse.C61_sound hx hp)) hg L hm

/-- **C86** with several namespaces, declared before use. -/
theorem C86_several_partial (hx : Parse.HexfPrefix) {txt : Str} {s : Ast.Schema} {out : List Node}
    (hp : Parse.schemaDecl txt = some ([], s)) (hc : Parse.compileText txt = some (.tree out))
    (h : OneNamespace s.elements ∨ InOrder s.elements) {gm : Mode} (hg : CompilableTo gm s.elements out)
    (L : Lawful s.elements) (hm : ∀ x ∈ itemsOf out, ∀ m ∈ x.1, legalName (Heck.snake m) = true) :
    ∃ ts P, tokens gm out = some ts ∧ OffersAll ts P s.elements out ∧ KeepsOwnership ts P ∧ WellTyped P :=
  build_offers_several h ((Gen.compileText_build hp).mp hc) (.of_text (Parse.C61_sound hx hp)) hg L hm

end

/-! ### Documentation that gets lost -/

/-- No function outside of traits with this name is documented. -/
def Undocumented (n : Str) (items : List Item) : Bool :=
  (flatItems [] items).all fun x =>
    match x.2 with
    | .impl _ none _ _ is => (implFns is).all fun f => f.name != n || (docs f.attrs).isEmpty
    | _ => true

omit [FloatText] in
theorem undocumented_of {n : Str} {F : File} (h : Undocumented n F.items = true) {m : List Str} {t : Str} {gs : List GParam} {s : Ty}
    {a : Fn} (ha : Inherent F m t gs s a) (hn : a.name = n) : docs a.attrs = [] := by
  obtain ⟨bs, is, hz, -, hf⟩ := ha
  simp only [Undocumented, List.all_eq_true] at h
  have := h _ hz
  simp only [List.all_eq_true, Bool.or_eq_true, bne_iff_ne, ne_eq, List.isEmpty_iff] at this
  exact (this a hf).resolve_left fun h => h hn

/-- **C86** that the accessor of every documented field is documented is false: in
`table A {} union U { A } table T { /// hi u: U; }` the accessor `u` has no documentation; only `u_type` has. -/
theorem C86_docs_refuted : ∃ (E : List Ast.Element) (out : List Node) (P : Program) (ts : Toks) (p : Nat) (d : Ast.Product) (f : Ast.Field),
    OneNamespace E ∧ build ⟨[], E⟩ = some (.ok out) ∧ (∀ gm, emit gm out = some P) ∧ (∀ gm, tokens gm out = some ts) ∧
    E[p]? = some (.table d) ∧ f ∈ d.fields ∧ f.doc ≠ [] ∧
    ∃ items, Read.readFile ts = some items ∧ eraseItems [] items = some P.forget ∧
      ∀ m t gs s a, Inherent ⟨items, P.forget⟩ m t gs s a → a.name = f.id → docs a.attrs = [] := by
  have key : ∀ {E out P} {p : Nat} {d : Ast.Product} {f : Ast.Field}, OneNamespace E → build ⟨[], E⟩ = some (.ok out) →
      (∀ gm, emit gm out = some P) → P.names.Nodup → Rs.NoCapture out → Legible out → tokens .release out = tokens .debug out →
      E[p]? = some (.table d) → f ∈ d.fields → f.doc ≠ [] → (Full.nodes .debug out).all (Undocumented f.id) = true →
      ∃ (E : List Ast.Element) (out : List Node) (P : Program) (ts : Toks) (p : Nat) (d : Ast.Product) (f : Ast.Field),
        OneNamespace E ∧ build ⟨[], E⟩ = some (.ok out) ∧ (∀ gm, emit gm out = some P) ∧ (∀ gm, tokens gm out = some ts) ∧
        E[p]? = some (.table d) ∧ f ∈ d.fields ∧ f.doc ≠ [] ∧
        ∃ items, Read.readFile ts = some items ∧ eraseItems [] items = some P.forget ∧
          ∀ m t gs s a, Inherent ⟨items, P.forget⟩ m t gs s a → a.name = f.id → docs a.attrs = [] := by
    intro E out P p d f h1 hb he hn hc hl ht hp hf hd hu
    have S := Rs.setting_of (.inl h1) hb (he .debug) hn
      (Gen.C70_one_namespace_partial h1 hb (Rs.emitNodes_names .debug [] out P (he .debug))) hc
    obtain ⟨ts, items, h2, h3, X⟩ := written_of S hl
    rw [X.nodes] at hu
    exact ⟨E, out, P, ts, p, d, f, h1, hb, he, fun gm => by cases gm <;> first | exact h2 | exact ht.trans h2, hp, hf, hd, items, h3,
      X.erased, fun m t gs s a ha hn => undocumented_of (F := ⟨items, P.forget⟩) hu ha hn⟩
  refine key (E := [Ir.exTable c!"A" [], Ir.exUnion c!"U" [c!"A"], Ir.exTable c!"T" [⟨c!"u", .ident [c!"U"], none, none, [c!" hi"]⟩]])
    (p := 2) (f := ⟨c!"u", .ident [c!"U"], none, none, [c!" hi"]⟩) (Rs.oneNamespace_of (by decide)) rfl (fun gm => by cases gm <;> rfl)
    (by decide) (Rs.noCapture_of_all (by decide)) ?_ rfl rfl List.mem_cons_self (by decide) ?_
  · exact legible_of_check (by decide +kernel)
  · rfl

end

/-! ### A schema text -/

section
attribute [local instance] Parse.asciiEnv
variable [FloatText]

example (gm : Mode) : ∃ out ts P, Parse.compileText Gen.exText = some (.tree out) ∧ tokens gm out = some ts ∧ OffersAll ts P Gen.exRead.elements out ∧
    KeepsOwnership ts P ∧ WellTyped P := by
  obtain ⟨out, hc, -⟩ := Gen.exText_delivers gm
  obtain ⟨ts, P, h⟩ := C86_accepted_partial (fun _ _ h => by cases h) Gen.exText_reads hc Gen.exRead_one
    (Rs.exRead_compilable gm) Rs.exRead_lawful (by decide)
  exact ⟨out, ts, P, hc, h⟩

/-- The tree of the text meets the conditions of the property by itself. -/
example (gm : Mode) : ∃ ts, tokens gm Rs.exOut = some ts ∧ IsSource ts (Rs.exProg gm) ∧ OffersAll ts (Rs.exProg gm) Gen.exRead.elements Rs.exOut :=
  C86_partial (Rs.exProg_setting gm) exOut_legible

/-- With two namespaces. -/
example (gm : Mode) : ∃ s out ts P, Parse.schemaDecl Rs.exText2 = some ([], s) ∧ Parse.compileText Rs.exText2 = some (.tree out) ∧
    tokens gm out = some ts ∧ OffersAll ts P s.elements out ∧ KeepsOwnership ts P ∧ WellTyped P := by
  obtain ⟨out, hc, hg, L, hm⟩ := Rs.exText2_hyps gm
  obtain ⟨ts, P, h⟩ := C86_several_partial (fun _ _ h => by cases h) Rs.exText2_reads hc (.inr (Gen.exTwo_order _ _ _)) hg L hm
  exact ⟨_, out, ts, P, Rs.exText2_reads, hc, h⟩

end

end Butte.Src
