import Verif.Props.Lifetimes
import Verif.Src.TraitsAll
/-
Property C84: the generated source files keep Rust's rules for traits, and the types have the traits that users rely on.
-/
namespace Butte.Src
open Ir (QIdent Node Ident itemsOf OneNamespace InOrder build)
open Rs (Program Setting WellTyped legalName emit Worded Compilable CompilableTo Lawful Delivers modOf)
open Gen (nsOf)

/-- Tokens that can be read as the source of a program, and keep the rules for traits. -/
def KeepsTraits (ts : Toks) (P : Program) : Prop :=
  ∃ items, Read.readFile ts = some items ∧ eraseItems [] items = some P.forget ∧ TraitsOk ⟨items, P.forget⟩

/-- The types of a schema have traits, in the source that is read from these tokens: tables, read from bytes, and unions can be
copied, compared for equality and shown; enums can also be ordered and hashed. -/
def HasTraits (ts : Toks) (P : Program) (out : List Node) : Prop :=
  ∃ items, Read.readFile ts = some items ∧ eraseItems [] items = some P.forget ∧
    (∀ p t l, (p, Node.table t) ∈ itemsOf out → ∀ tr ∈ [c!"Copy", c!"Clone", c!"Debug", c!"PartialEq"],
      Has ⟨items, P.forget⟩ tr [] ⟨modOf t.ident, [], none⟩
        (.path [QIdent.simple t.ident] false [.ty (.ref (some l) false (.slice (.path [c!"u8"] false [])))])) ∧
    (∀ p u l, (p, Node.union u) ∈ itemsOf out → ∀ tr ∈ [c!"Copy", c!"Clone", c!"Debug", c!"PartialEq"],
      Has ⟨items, P.forget⟩ tr [] ⟨modOf u.ident, [], none⟩ (.path [QIdent.simple u.ident] false [.life l])) ∧
    ∀ p e, (p, Node.enum e) ∈ itemsOf out →
      ∀ tr ∈ [c!"Copy", c!"Clone", c!"Debug", c!"PartialEq", c!"Eq", c!"PartialOrd", c!"Ord", c!"Hash"],
        Has ⟨items, P.forget⟩ tr [] ⟨modOf e.ident, [], none⟩ (.path [QIdent.simple e.ident] false [])

section
variable [FloatText]

/-- What is declared has what is derived. -/
theorem Written.has_traits {gm : Mode} {E : List Ast.Element} {out : List Node} {P : Program} {items : List Item} {ts : Toks}
    (X : Written gm E out P items) (hr : Read.readFile ts = some items) : HasTraits ts P out := by
  refine ⟨items, hr, X.erased, ?_, ?_, ?_⟩
  · intro p t l hx tr htr
    have T := X.tableTraits hx
    have A := Paths.of T.hygienic (modOf t.ident) (.inl rfl)
    refine table_has ⟨?_, _, _, _, T.ownAt [] (.inl rfl) none, X.itemTable hx, ?_⟩ (A.u8 _) _ htr
    · simpa using T.ne_self
    · simp only [Full.tableStruct, Item.typeAttrs]
      rw [derives_cons, derives_derive, derives_comment, List.append_nil]
      decide
  · intro p u l hx tr htr
    obtain ⟨vs', hi⟩ := X.itemUnion hx
    obtain ⟨is, hit, hp⟩ := Rs.emit_union X.setting.emitted hx
    rw [X.setting.path hx] at hp
    simp only [Rs.emitUnion, Option.bind_eq_bind, Option.bind_eq_some_iff, Option.pure_def, Option.some.injEq] at hit
    obtain ⟨n, hn, e, -, vs, -, rfl⟩ := hit
    obtain rfl := Gen.formatIdent_eq hn
    have own := X.ownName (sc := ⟨modOf u.ident, [], none⟩) (.inl rfl) (hp.mem_names ⟨_, List.mem_cons_self, rfl⟩)
    refine Known.has ⟨?_, _, _, _, own, hi, ?_⟩ htr false (by simp [argTys])
    · intro h
      simp only [List.head?_cons, Option.some.injEq] at h
      rw [h] at own
      simp [Rs.resolve] at own
    · simp only [Full.unionItem, Item.typeAttrs]
      rw [derives_cons, derives_derive, derives_comment, List.append_nil]
      decide
  · intro p e hx tr htr
    obtain ⟨b, vs, hi⟩ := X.itemEnum hx
    have T := X.enumTraits hx
    refine .item (T.own none) ?_ hi ?_ (by simp [argTys])
    · intro h
      simp only [List.head?_cons, Option.some.injEq] at h
      have := T.own none
      rw [h] at this
      simp [Rs.resolve] at this
    · simp only [Full.enumItem, Item.typeAttrs]
      rw [derives_append, derives_comment, List.append_nil]
      simp only [List.mem_cons, List.not_mem_nil, or_false] at htr
      rcases htr with rfl | rfl | rfl | rfl | rfl | rfl | rfl | rfl <;> simp [derives, Full.deriveAttr]

/-- **C84** of every generated file whose names can be read back, do not clash, lead where they should and do not hide those
that the code relies on. Full statement: of every file that the compiler generates, which is false, as names may be hidden
(C77). -/
theorem C84_partial {gm : Mode} {E : List Ast.Element} {out : List Node} {P : Program} (S : Setting gm E out P) (h : Legible out) :
    ∃ ts, tokens gm out = some ts ∧ IsSource ts P ∧ KeepsTraits ts P ∧ HasTraits ts P out := by
  obtain ⟨ts, items, h1, h2, X⟩ := written_of S h
  exact ⟨ts, h1, ⟨items, h2, X.erased⟩, ⟨items, h2, X.erased, X.traits⟩, X.has_traits h2⟩

/-- **C84** of a well-typed program. -/
theorem traits_of {gm : Mode} {s : Ast.Schema} {out : List Node} {P : Program} (S : Setting gm s.elements out P) (W : WellTyped P)
    (hc : ∀ p t, (p, Node.table t) ∈ itemsOf out → ∃ gs, Gen.compileTable gm t = some gs) :
    ∃ ts, tokens gm out = some ts ∧ KeepsTraits ts P ∧ HasTraits ts P out := by
  obtain ⟨ts, h1, -, h2⟩ := C84_partial S (legible S W hc (leavesL_isItem [] out))
  exact ⟨ts, h1, h2⟩

/-- **C84** with C80 and C78 in one namespace. -/
theorem build_traits {s : Ast.Schema} {out : List Node} (h1 : OneNamespace s.elements) (hb : build s = some (.ok out))
    {gm : Mode} (hwd : Worded s.elements) (hg : Compilable gm s.elements) (L : Lawful s.elements)
    (hm : ∀ m ∈ nsOf s.elements, legalName (Heck.snake m) = true) :
    ∃ ts P, tokens gm out = some ts ∧ KeepsTraits ts P ∧ HasTraits ts P out ∧ KeepsLifetimes ts P ∧ WellTyped P := by
  obtain ⟨P, hP, W, hD⟩ := Rs.build_compiles h1 hb hwd hg L hm
  have S := Rs.setting_one h1 hb hP W.1 hg.free hg.freeModules
  have hc : ∀ p t, (p, Node.table t) ∈ itemsOf out → ∃ gs, Gen.compileTable gm t = some gs :=
    fun p t hx => Gen.C72_all_partial (.inl h1) hb gm hg.tables hx
  obtain ⟨ts, ht, hs⟩ := traits_of S W hc
  obtain ⟨ts', ht', hl⟩ := lifetimes_of S W hc
  rw [ht] at ht'
  cases ht'
  exact ⟨ts, P, ht, hs.1, hs.2, hl, W⟩

/-- **C84** with several namespaces, declared before use. -/
theorem build_traits_several {s : Ast.Schema} {out : List Node} (h : OneNamespace s.elements ∨ InOrder s.elements)
    (hb : build s = some (.ok out)) {gm : Mode} (hwd : Worded s.elements) (hg : CompilableTo gm s.elements out)
    (L : Lawful s.elements) (hm : ∀ x ∈ itemsOf out, ∀ m ∈ x.1, legalName (Heck.snake m) = true) :
    ∃ ts P, tokens gm out = some ts ∧ KeepsTraits ts P ∧ HasTraits ts P out ∧ KeepsLifetimes ts P ∧ WellTyped P := by
  obtain ⟨P, hP, W, hD⟩ := Rs.build_compiles_several h hb hwd hg L hm
  have S := Rs.setting_of h hb hP W.1
    (Gen.C70_partial h hb (Rs.emitNodes_names gm [] out P hP) fun x hx q hq => ⟨(hg.paths x hx q hq).1, (hg.paths x hx q hq).2.2⟩) hg.free
  have hc : ∀ p t, (p, Node.table t) ∈ itemsOf out → ∃ gs, Gen.compileTable gm t = some gs :=
    fun p t hx => Gen.C72_all_partial h hb gm hg.tables hx
  obtain ⟨ts, ht, hs⟩ := traits_of S W hc
  obtain ⟨ts', ht', hl⟩ := lifetimes_of S W hc
  rw [ht] at ht'
  cases ht'
  exact ⟨ts, P, ht, hs.1, hs.2, hl, W⟩

/-! ### From the text -/

section
variable [Parse.Env]

/-- **C84** from any schema text that the compiler accepts, whose types are all in one namespace and meet the conditions. Full
statement: of every accepted schema, which is false. -/
theorem C84_accepted_partial (hx : Parse.HexfPrefix) {txt : Str} {s : Ast.Schema} {out : List Node}
    (hp : Parse.schemaDecl txt = some ([], s)) (hc : Parse.compileText txt = some (.tree out)) (h : OneNamespace s.elements)
    {gm : Mode} (hg : Compilable gm s.elements) (L : Lawful s.elements)
    (hm : ∀ m ∈ nsOf s.elements, legalName (Heck.snake m) = true) :
    ∃ ts P, tokens gm out = some ts ∧ KeepsTraits ts P ∧ HasTraits ts P out ∧ KeepsLifetimes ts P ∧ WellTyped P :=
  build_traits h ((Gen.compileText_build hp).mp hc) (.of_text (Parse.C61_sound hx hp)) hg L hm

/-- **C84** with several namespaces, declared before use. -/
theorem C84_several_partial (hx : Parse.HexfPrefix) {txt : Str} {s : Ast.Schema} {out : List Node}
    (hp : Parse.schemaDecl txt = some ([], s)) (hc : Parse.compileText txt = some (.tree out))
    (h : OneNamespace s.elements ∨ InOrder s.elements) {gm : Mode} (hg : CompilableTo gm s.elements out)
    (L : Lawful s.elements) (hm : ∀ x ∈ itemsOf out, ∀ m ∈ x.1, legalName (Heck.snake m) = true) :
    ∃ ts P, tokens gm out = some ts ∧ KeepsTraits ts P ∧ HasTraits ts P out ∧ KeepsLifetimes ts P ∧ WellTyped P :=
  build_traits_several h ((Gen.compileText_build hp).mp hc) (.of_text (Parse.C61_sound hx hp)) hg L hm

end

end

/-! ### A schema text -/

section
attribute [local instance] Parse.asciiEnv
variable [FloatText]

example (gm : Mode) : ∃ out ts P, Parse.compileText Gen.exText = some (.tree out) ∧ tokens gm out = some ts ∧ KeepsTraits ts P ∧
    HasTraits ts P out ∧ KeepsLifetimes ts P ∧ WellTyped P := by
  obtain ⟨out, hc, -⟩ := Gen.exText_delivers gm
  obtain ⟨ts, P, h⟩ := C84_accepted_partial (fun _ _ h => by cases h) Gen.exText_reads hc Gen.exRead_one
    (Rs.exRead_compilable gm) Rs.exRead_lawful (by decide)
  exact ⟨out, ts, P, hc, h⟩

/-- The tree of the text meets the conditions of the property by itself. -/
example (gm : Mode) : ∃ ts, tokens gm Rs.exOut = some ts ∧ IsSource ts (Rs.exProg gm) ∧ KeepsTraits ts (Rs.exProg gm) ∧ HasTraits ts (Rs.exProg gm) Rs.exOut :=
  C84_partial (Rs.exProg_setting gm) exOut_legible

/-- With two namespaces. -/
example (gm : Mode) : ∃ s out ts P, Parse.schemaDecl Rs.exText2 = some ([], s) ∧ Parse.compileText Rs.exText2 = some (.tree out) ∧
    tokens gm out = some ts ∧ KeepsTraits ts P ∧ HasTraits ts P out ∧ KeepsLifetimes ts P ∧ WellTyped P := by
  obtain ⟨out, hc, hg, L, hm⟩ := Rs.exText2_hyps gm
  obtain ⟨ts, P, h⟩ := C84_several_partial (fun _ _ h => by cases h) Rs.exText2_reads hc (.inr (Gen.exTwo_order _ _ _)) hg L hm
  exact ⟨_, out, ts, P, Rs.exText2_reads, hc, h⟩

end

end Butte.Src
