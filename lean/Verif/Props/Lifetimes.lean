import Verif.Props.Tokens
import Verif.Src.LifetimesAll
/-
Property C80: the generated source files keep Rust's rules for lifetimes.
-/
namespace Butte.Src
open Ir (QIdent Node Ident itemsOf OneNamespace InOrder lastNs refIn build)
open Rs (Program Setting WellTyped legalName emit Worded Compilable CompilableTo Lawful Delivers)
open Gen (nsOf)

/-- Tokens that can be read as the source of a program, and keep the rules for lifetimes. -/
def KeepsLifetimes (ts : Toks) (P : Program) : Prop :=
  ∃ items, Read.readFile ts = some items ∧ eraseItems [] items = some P.forget ∧ LifetimesOk ⟨items, P.forget⟩

section
variable [FloatText]

/-- What is generated is a file. -/
theorem written_of {gm : Mode} {E : List Ast.Element} {out : List Node} {P : Program} (S : Setting gm E out P) (h : Legible out) :
    ∃ ts items, tokens gm out = some ts ∧ Read.readFile ts = some items ∧ Written gm E out P items := by
  have h' := nodes_agree gm out []
  have he : Rs.emitNodes gm [] out = some P := S.emitted
  rw [he] at h'
  generalize hq : Full.nodes gm out = q at h'
  cases h' with
  | some hr =>
    obtain ⟨h1, h2⟩ := hr h
    exact ⟨_, _, by rw [tokens, Quote.nodes_eq, hq]; rfl, readFile_print h1, S, hq, h2⟩

/-- The lifetime of a union that nothing uses. -/
theorem unused_union {gm : Mode} {E : List Ast.Element} {out : List Node} {P : Program} {items : List Item}
    (X : Written gm E out P items) {p : List Ident} {u : Ir.Union} (hx : (p, Node.union u) ∈ itemsOf out)
    (hl : LifetimesOk ⟨items, P.forget⟩) : ∃ v ∈ u.variants, Borrows v.ty = true := by
  obtain ⟨is, hi, -⟩ := Rs.emit_union X.setting.emitted hx
  have := (union_agree u).isSome
  rw [hi, Option.isSome_some, Option.isSome_iff_exists] at this
  obtain ⟨ys, hys⟩ := this
  have hys' : Full.node gm (.union u) = some ys := hys
  simp only [Full.union, Option.bind_eq_bind, Option.bind_eq_some_iff, Option.pure_def, Option.some.injEq] at hys
  obtain ⟨n, hn, e, -, vs, hvs, rfl⟩ := hys
  have hm := (flat_below X.nodes (p.map Heck.snake, Full.unionItem n u.doc vs)).mpr ⟨_, hx, _, hys', List.mem_cons_self, rfl⟩
  obtain ⟨t, ht, hu⟩ := (hl _ hm).2.2 c!"a" (by simp [lifeNames])
  obtain ⟨w, hw, ht⟩ := List.mem_flatMap.mp ht
  obtain ⟨v, hv, hx⟩ := mapM_source hvs w hw
  simp only [Full.unionVariant, Option.bind_eq_bind, Option.bind_eq_some_iff, Option.pure_def, Option.some.injEq] at hx
  obtain ⟨i, -, t', ht', rfl⟩ := hx
  rw [Payload.tys, List.mem_singleton] at ht
  subst ht
  refine ⟨v, hv, ?_⟩
  cases hty : v.ty <;> rw [hty] at ht' <;> try rfl
  · cases ht'
    simp [Full.word, Ty.lives, argLives] at hu
  all_goals
    simp only [Full.typeToken, Option.bind_eq_bind, Option.bind_eq_some_iff, Option.pure_def, Option.some.injEq] at ht'
    obtain ⟨q, -, rfl⟩ := ht'
    simp [Ty.lives, argLives] at hu

/-- **C80** Exactly when: a file whose names can be read back keeps the rules for lifetimes if and only if every union has a
member that borrows. -/
theorem C80_iff {gm : Mode} {E : List Ast.Element} {out : List Node} {P : Program} (S : Setting gm E out P) (h : Legible out) :
    ∃ ts, tokens gm out = some ts ∧ IsSource ts P ∧
      (KeepsLifetimes ts P ↔ ∀ p u, (p, Node.union u) ∈ itemsOf out → ∃ v ∈ u.variants, Borrows v.ty = true) := by
  obtain ⟨ts, items, h1, h2, X⟩ := written_of S h
  refine ⟨ts, h1, ⟨items, h2, X.erased⟩, ?_, fun hb => ⟨items, h2, X.erased, X.lives hb⟩⟩
  rintro ⟨items', h2', -, hl⟩ p u hx
  rw [h2] at h2'
  cases h2'
  exact unused_union X hx hl

/-- **C80** of a well-typed program. -/
theorem lifetimes_of {gm : Mode} {s : Ast.Schema} {out : List Node} {P : Program} (S : Setting gm s.elements out P) (W : WellTyped P)
    (hc : ∀ p t, (p, Node.table t) ∈ itemsOf out → ∃ gs, Gen.compileTable gm t = some gs) :
    ∃ ts, tokens gm out = some ts ∧ KeepsLifetimes ts P := by
  obtain ⟨ts, h1, -, h2⟩ := C80_iff S (legible S W hc (leavesL_isItem [] out))
  refine ⟨ts, h1, h2.mpr fun p u hx => ?_⟩
  obtain ⟨v, hv, hb⟩ := (S.union_converse W hx).2
  exact ⟨v, hv, borrows_of hb⟩

/-- **C80** with C79, C78 and C77 in one namespace: the generated tokens are the source of a program, keep the rules for
lifetimes, the program is well-typed, and it works. -/
theorem build_lifetimes {s : Ast.Schema} {out : List Node} (h1 : OneNamespace s.elements) (hb : build s = some (.ok out))
    {gm : Mode} (hwd : Worded s.elements) (hg : Compilable gm s.elements) (L : Lawful s.elements)
    (hm : ∀ m ∈ nsOf s.elements, legalName (Heck.snake m) = true) :
    ∃ ts P, tokens gm out = some ts ∧ KeepsLifetimes ts P ∧ WellTyped P ∧ Delivers gm s.elements out P := by
  obtain ⟨P, hP, W, hD⟩ := Rs.build_compiles h1 hb hwd hg L hm
  have S := Rs.setting_one h1 hb hP W.1 hg.free hg.freeModules
  obtain ⟨ts, ht, hs⟩ := lifetimes_of S W fun p t hx => Gen.C72_all_partial (.inl h1) hb gm hg.tables hx
  exact ⟨ts, P, ht, hs, W, hD⟩

/-- **C80** with several namespaces, declared before use. -/
theorem build_lifetimes_several {s : Ast.Schema} {out : List Node} (h : OneNamespace s.elements ∨ InOrder s.elements)
    (hb : build s = some (.ok out)) {gm : Mode} (hwd : Worded s.elements) (hg : CompilableTo gm s.elements out)
    (L : Lawful s.elements) (hm : ∀ x ∈ itemsOf out, ∀ m ∈ x.1, legalName (Heck.snake m) = true) :
    ∃ ts P, tokens gm out = some ts ∧ KeepsLifetimes ts P ∧ WellTyped P ∧ Delivers gm s.elements out P := by
  obtain ⟨P, hP, W, hD⟩ := Rs.build_compiles_several h hb hwd hg L hm
  have S := Rs.setting_of h hb hP W.1
    (Gen.C70_partial h hb (Rs.emitNodes_names gm [] out P hP) fun x hx q hq => ⟨(hg.paths x hx q hq).1, (hg.paths x hx q hq).2.2⟩) hg.free
  obtain ⟨ts, ht, hs⟩ := lifetimes_of S W fun p t hx => Gen.C72_all_partial h hb gm hg.tables hx
  exact ⟨ts, P, ht, hs, W, hD⟩

/-! ### From the text -/

section
variable [Parse.Env]

/-- **C80** from any schema text that the compiler accepts, whose types are all in one namespace and meet the conditions. Full
statement: of every accepted schema, which is false. -/
theorem C80_accepted_partial (hx : Parse.HexfPrefix) {txt : Str} {s : Ast.Schema} {out : List Node}
    (hp : Parse.schemaDecl txt = some ([], s)) (hc : Parse.compileText txt = some (.tree out)) (h : OneNamespace s.elements)
    {gm : Mode} (hg : Compilable gm s.elements) (L : Lawful s.elements)
    (hm : ∀ m ∈ nsOf s.elements, legalName (Heck.snake m) = true) :
    ∃ ts P, tokens gm out = some ts ∧ KeepsLifetimes ts P ∧ WellTyped P ∧ Delivers gm s.elements out P :=
  build_lifetimes h ((Gen.compileText_build hp).mp hc) (.of_text (Parse.C61_sound hx hp)) hg L hm

/-- **C80** with several namespaces, declared before use. -/
theorem C80_several_partial (hx : Parse.HexfPrefix) {txt : Str} {s : Ast.Schema} {out : List Node}
    (hp : Parse.schemaDecl txt = some ([], s)) (hc : Parse.compileText txt = some (.tree out))
    (h : OneNamespace s.elements ∨ InOrder s.elements) {gm : Mode} (hg : CompilableTo gm s.elements out)
    (L : Lawful s.elements) (hm : ∀ x ∈ itemsOf out, ∀ m ∈ x.1, legalName (Heck.snake m) = true) :
    ∃ ts P, tokens gm out = some ts ∧ KeepsLifetimes ts P ∧ WellTyped P ∧ Delivers gm s.elements out P :=
  build_lifetimes_several h ((Gen.compileText_build hp).mp hc) (.of_text (Parse.C61_sound hx hp)) hg L hm

end

/-! ### An accepted schema whose code breaks the rules -/

/-- **C80** that every accepted schema gives code with lifetimes in order is false:
`enum E: ubyte { X } union U { E } table T { u: U; }` gives `pub enum U<'a> { E(E) }` (E0392). -/
theorem C80_refuted : ∃ E out P ts, OneNamespace E ∧ build ⟨[], E⟩ = some (.ok out) ∧ (∀ gm, emit gm out = some P) ∧
    (∀ gm, tokens gm out = some ts) ∧ IsSource ts P ∧ ¬ KeepsLifetimes ts P := by
  have key : ∀ {E out P}, OneNamespace E → build ⟨[], E⟩ = some (.ok out) → (∀ gm, emit gm out = some P) → P.names.Nodup →
      Rs.NoCapture out → Legible out → tokens .release out = tokens .debug out →
      (itemsOf out).any (fun x => match x.2 with | .union u => u.variants.all fun v => !Borrows v.ty | _ => false) = true →
      ∃ E out P ts, OneNamespace E ∧ build ⟨[], E⟩ = some (.ok out) ∧ (∀ gm, emit gm out = some P) ∧
        (∀ gm, tokens gm out = some ts) ∧ IsSource ts P ∧ ¬ KeepsLifetimes ts P := by
    intro E out P h1 hb he hn hc hl ht hu
    simp only [List.any_eq_true] at hu
    obtain ⟨⟨p, x⟩, hu, hv⟩ := hu
    cases x <;> simp only [Bool.false_eq_true, List.all_eq_true, Bool.not_eq_true'] at hv
    have S := Rs.setting_of (.inl h1) hb (he .debug) hn
      (Gen.C70_one_namespace_partial h1 hb (Rs.emitNodes_names .debug [] out P (he .debug))) hc
    obtain ⟨ts, h2, h3, h4⟩ := C80_iff S hl
    refine ⟨E, out, P, ts, h1, hb, he, fun gm => by cases gm <;> first | exact h2 | exact ht.trans h2, h3, fun hk => ?_⟩
    obtain ⟨v, hm, hb⟩ := h4.mp hk p _ hu
    rw [hv v hm] at hb
    cases hb
  refine key (E := [Ir.exEnum c!"E", Ir.exUnion c!"U" [c!"E"], Ir.exTable c!"T" [Ir.exRef c!"u" [c!"U"]]])
    (Rs.oneNamespace_of (by decide)) rfl (fun gm => by cases gm <;> rfl) (by decide) (Rs.noCapture_of_all (by decide)) ?_ rfl ?_
  · exact legible_of_check (by decide +kernel)
  · decide +kernel

end

/-! ### A schema text -/

section
attribute [local instance] Parse.asciiEnv
variable [FloatText]

example (gm : Mode) : ∃ out ts P, Parse.compileText Gen.exText = some (.tree out) ∧ tokens gm out = some ts ∧ KeepsLifetimes ts P ∧
    WellTyped P ∧ Delivers gm Gen.exRead.elements out P := by
  obtain ⟨out, hc, -⟩ := Gen.exText_delivers gm
  obtain ⟨ts, P, h⟩ := C80_accepted_partial (fun _ _ h => by cases h) Gen.exText_reads hc Gen.exRead_one
    (Rs.exRead_compilable gm) Rs.exRead_lawful (by decide)
  exact ⟨out, ts, P, hc, h⟩

/-- The tree of the text meets the conditions of the property by itself. -/
example (gm : Mode) : ∃ ts, tokens gm Rs.exOut = some ts ∧ IsSource ts (Rs.exProg gm) ∧ (KeepsLifetimes ts (Rs.exProg gm) ↔ ∀ p u, (p, Node.union u) ∈ itemsOf Rs.exOut → ∃ v ∈ u.variants, Borrows v.ty = true) :=
  C80_iff (Rs.exProg_setting gm) exOut_legible

/-- With two namespaces. -/
example (gm : Mode) : ∃ s out ts P, Parse.schemaDecl Rs.exText2 = some ([], s) ∧ Parse.compileText Rs.exText2 = some (.tree out) ∧
    tokens gm out = some ts ∧ KeepsLifetimes ts P ∧ WellTyped P ∧ Delivers gm s.elements out P := by
  obtain ⟨out, hc, hg, L, hm⟩ := Rs.exText2_hyps gm
  obtain ⟨ts, P, h⟩ := C80_several_partial (fun _ _ h => by cases h) Rs.exText2_reads hc (.inr (Gen.exTwo_order _ _ _)) hg L hm
  exact ⟨_, out, ts, P, Rs.exText2_reads, hc, h⟩

end

end Butte.Src
