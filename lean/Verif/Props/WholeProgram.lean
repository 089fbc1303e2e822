import Verif.Props.Generator
import Verif.Props.Items
/-
Property C77: from the text of a schema to the program emitted for it, and whole object graphs written and read with that
program.
-/
namespace Butte.Rs
open Ir (QIdent Node Ident itemsOf OneNamespace InOrder Translates fixIdentifier build nameIn lastNs)
open Gen (GField Kind kindOf compileTable nsOf typeId tablesOf Tables Val Conforms Same)
open Ast (Element)

set_option maxRecDepth 8000

/-- With the emitted program, reading a table `q` from the root of any bytes, down to the last field, ends without a panic
(release build): it gives data, or the error that one of the functions returned. -/
def ReadsSafely (P : Program) (S : Tables) (q : QIdent) : Prop :=
  ∀ (buf : Bytes) (sp : Bool) (n : Nat), buf.Valid → buf.length + 2 ≤ n →
    (do let r ← rootText .release P q sp buf; readText .release P S n (.table q) r) ≠ .panic

/-- With the emitted program, every tree of the table `q` for which there is room can be written, finished, and read
back. -/
def RoundTrips (gm : Mode) (P : Program) (S : Tables) (q : QIdent) : Prop :=
  ∀ (m : Mode) (v : Val) (n cap : Nat) (b₀ : Builder) (ident : Option Bytes) (sp : Bool), Conforms gm S (.table q) v n →
    n + 65576 ≤ 2 ^ 31 - 2 ^ 17 → Builder.newWithCapacity cap = .ok b₀ → (∀ i, ident = some i → i.length = 4) →
    ∃ (o : Fin (2 ^ 32)) (b₁ b₂ : Builder) (data : Bytes) (root : Value) (v' : Val),
      writeText m P S n b₀ (.table q) v = .ok (o.val, b₁) ∧ step m b₁ (.finish o ident sp) = .ok (none, b₂) ∧
      b₂.finishedData m = .ok data ∧ rootText m P q sp data = .ok root ∧ Same v v' ∧
      ∃ N, ∀ k, N ≤ k → readText m P S k (.table q) root = .ok v'

/-- Each declared table is there under its name, and with the emitted program it reads any bytes safely, and keeps its
data. -/
def Delivers (gm : Mode) (E : List Element) (out : List Node) (P : Program) : Prop :=
  ∀ (p : Nat) (d : Ast.Product), E[p]? = some (.table d) →
    ∃ t, tablesOf out (nameIn (lastNs (E.take p)) d.id) = some t ∧ ReadsSafely P (tablesOf out) t.ident ∧
      RoundTrips gm P (tablesOf out) t.ident

section
variable {gm md : Mode} {E : List Element} {out : List Node} {P : Program}

/-- The emitted way to the root. -/
theorem Setting.root (S : Setting gm E out P) {p : List Ident} {t : Ir.Table} (hx : (p, .table t) ∈ itemsOf out)
    {gs : List GField} (hc : compileTable gm t = some gs) (sp : Bool) (buf : Bytes) :
    rootText md P t.ident sp buf =
      ((if sp then Table.getSizePrefixedRoot md buf else Table.getRoot md buf) >>= fun r => .ok (tableValue t r)) := by
  unfold rootText
  cases sp with
  | true =>
    simp only [if_true]
    cases Table.getSizePrefixedRoot md buf with
    | ok r =>
      simp only [Res.ok_bind]
      have := (C74_root_partial (md := md) (n := 0) S hx hc r.buf r.loc anySt).2.2.2
      rw [show (⟨r.buf, r.loc⟩ : Butte.Table) = r from rfl] at this
      rw [show callTrait md P 3 (modOf t.ident) (QIdent.simple t.ident) (.std c!"From") c!"from" [.table r] anySt = _ from this]
    | err e => rfl
    | panic => rfl
  | false =>
    simp only [Bool.false_eq_true, if_false]
    have := (C74_root_partial (md := md) (n := 0) S hx hc buf 0 anySt).1
    rw [show callFn md P 3 (modOf t.ident) (QIdent.simple t.ident) c!"get_root" [.bytes buf] anySt = _ from this]
    cases Table.getRoot md buf <;> rfl

/-- Reading from the emitted root. -/
theorem Setting.reads (S : Setting gm E out P) (hc : AllCompile gm (tablesOf out)) (t : Ir.Table) (n : Nat) (r : Butte.Table) :
    readText md P (tablesOf out) n (.table t.ident) (tableValue t r) =
      Gen.readVal gm md (tablesOf out) n (.table t.ident) (.fwdU .table) r :=
  S.agrees hc n (.table t.ident) _ rfl r _ rfl

theorem Setting.delivers (S : Setting gm E out P) (hc : AllCompile gm (tablesOf out)) (hd : Gen.Delivers gm E out) :
    Delivers gm E out P := by
  intro p d hp
  obtain ⟨t, gs, h1, h2, h3, h4⟩ := hd p d hp
  obtain ⟨⟨x, _⟩, hx, rfl, _⟩ := Gen.tablesOf_some h1
  refine ⟨t, h1, ?_, ?_⟩
  · intro buf sp n hv hn
    rw [S.root hx h2]
    have h := h3 buf n hv hn
    cases sp with
    | true =>
      have h := h.2
      simp only [if_true]
      cases e : Table.getSizePrefixedRoot .release buf with
      | ok r =>
        rw [e] at h
        simp only [Res.ok_bind] at h ⊢
        rw [S.reads hc]
        exact h
      | err e => simp
      | panic => rw [e] at h; exact absurd rfl h
    | false =>
      have h := h.1
      simp only [Bool.false_eq_true, if_false]
      cases e : Table.getRoot .release buf with
      | ok r =>
        rw [e] at h
        simp only [Res.ok_bind] at h ⊢
        rw [S.reads hc]
        exact h
      | err e => simp
      | panic => rw [e] at h; exact absurd rfl h
  · intro m v n cap b₀ ident sp hv hn h₀ hi
    obtain ⟨o, b₁, b₂, data, root, v', e1, e2, e3, e4, e5, N, e6⟩ := h4 m v n cap b₀ ident sp hv hn h₀ hi
    refine ⟨o, b₁, b₂, data, tableValue t root, v', ?_, e2, e3, ?_, e5, N, fun k hk => ?_⟩
    · rw [S.writes hc]; exact e1
    · rw [S.root hx h2, e4]; rfl
    · rw [S.reads hc]; exact e6 k hk

end

/-! ### C77 -/

/-- What is asked of a schema in one namespace: the generator gets through it (C76), the program introduces no name twice
(C71), and no declaration takes a name that the generated code relies on (C75). -/
structure Compilable (gm : Mode) (E : List Element) : Prop extends Generable gm E where
  derived : ∀ t, .table t ∈ E → ∀ el ∈ E, ∀ i, typeId el = some i →
    fixIdentifier i ≠ fixIdentifier t.id ++ c!"Args" ∧ fixIdentifier i ≠ fixIdentifier t.id ++ c!"Builder"
  enums : ∀ e e', .enum e ∈ E → .enum e' ∈ E → Heck.snake (fixIdentifier e.id) = Heck.snake (fixIdentifier e'.id) →
    fixIdentifier e.id = fixIdentifier e'.id
  unions : ∀ u u', .union u ∈ E → .union u' ∈ E →
    Heck.snake (fixIdentifier (u.id ++ c!"Type")) = Heck.snake (fixIdentifier (u'.id ++ c!"Type")) →
    fixIdentifier (u.id ++ c!"Type") = fixIdentifier (u'.id ++ c!"Type")
  butteGen : (∃ u, .union u ∈ E) → ∀ el ∈ E, ∀ i, typeId el = some i → fixIdentifier i ≠ c!"butte_gen"
  free : ∀ el ∈ E, ∀ i, typeId el = some i → fixIdentifier i ∉ reserved
  freeModules : ∀ m ∈ nsOf E, Heck.snake m ∉ reserved

/-- A program is emitted, and it works. -/
theorem build_works {s : Ast.Schema} {out : List Node} (h1 : OneNamespace s.elements) (hb : build s = some (.ok out)) {gm : Mode}
    (hwd : Worded s.elements) (hg : Compilable gm s.elements) : ∃ P, emit gm out = some P ∧ Delivers gm s.elements out P := by
  obtain ⟨P, hP⟩ := C76_declared_partial h1 hb hwd hg.toGenerable
  have hn : P.names.Nodup := (Gen.C71_one_namespace_partial h1 hb (emitNodes_names gm [] out P hP)).mpr
    ⟨hg.derived, hg.enums, hg.unions, hg.butteGen⟩
  have S := setting_one h1 hb hP hn hg.free hg.freeModules
  refine ⟨P, hP, S.delivers ?_ (Gen.build_delivers (.inl h1) hb gm hg.tables)⟩
  intro q t ht
  obtain ⟨⟨x, _⟩, hx, rfl, _⟩ := Gen.tablesOf_some ht
  exact Gen.C72_all_partial (.inl h1) hb gm hg.tables hx

/-- What is asked of a schema with several namespaces: that the generator gets through it, that the program introduces no
name twice, that the paths in the program lead from module to module, and that no declaration takes a name that the
generated code relies on. -/
structure CompilableTo (gm : Mode) (E : List Element) (out : List Node) : Prop where
  structs : ∀ d, .struct d ∉ E
  tables : ∀ (p : Nat) d, E[p]? = some (.table d) → Gen.TableWorks gm E (lastNs (E.take p)) d.fields
  modules : ∀ x ∈ itemsOf out, ∀ m ∈ x.1, Word (Heck.snake m)
  paths : ∀ x ∈ itemsOf out, ∀ q ∈ Gen.paths x.2, ¬ q <+: x.1 ∧ (c!"try" ∉ q ∧ c!"_" ∉ q) ∧
    ∀ s ∈ q.dropLast.drop (Ir.commonPrefix q x.1), Heck.snake s = s
  clashfree : Gen.Clashfree out
  free : NoCapture out

theorem build_works_several {s : Ast.Schema} {out : List Node} (h : OneNamespace s.elements ∨ InOrder s.elements)
    (hb : build s = some (.ok out)) {gm : Mode} (hwd : Worded s.elements) (hg : CompilableTo gm s.elements out) :
    ∃ P, emit gm out = some P ∧ Delivers gm s.elements out P := by
  obtain ⟨P, hP⟩ := C76_several_partial h hb hg.structs hg.tables hwd hg.modules
    fun x hx q hq => ⟨(hg.paths x hx q hq).1, (hg.paths x hx q hq).2.1⟩
  have he := emitNodes_names gm [] out P hP
  have S := setting_of h hb hP ((Gen.C71_iff_partial hb he).mpr hg.clashfree)
    (Gen.C70_partial h hb he fun x hx q hq => ⟨(hg.paths x hx q hq).1, (hg.paths x hx q hq).2.2⟩) hg.free
  refine ⟨P, hP, S.delivers ?_ (Gen.build_delivers h hb gm hg.tables)⟩
  intro q t ht
  obtain ⟨⟨x, _⟩, hx, rfl, _⟩ := Gen.tablesOf_some ht
  exact Gen.C72_all_partial h hb gm hg.tables hx

section
variable [Parse.Env]

/-- **C77** from any schema text that the compiler accepts, whose types are all in one namespace and meet the conditions:
the generator emits a program, and with the functions of this program every table reads any bytes safely, and every tree
of data that there is room for is written and read back. Full statement: from every schema text that the compiler
accepts. (`HexfPrefix` says of the float parser only that it takes no number without its prefix.) -/
theorem C77_accepted_partial (hx : Parse.HexfPrefix) {txt : Str} {s : Ast.Schema} {out : List Node}
    (hp : Parse.schemaDecl txt = some ([], s)) (hc : Parse.compileText txt = some (.tree out)) (h : OneNamespace s.elements)
    {gm : Mode} (hg : Compilable gm s.elements) : ∃ P, emit gm out = some P ∧ Delivers gm s.elements out P :=
  build_works h ((Gen.compileText_build hp).mp hc) (.of_text (Parse.C61_sound hx hp)) hg

/-- **C77** with several namespaces, declared before use. -/
theorem C77_several_partial (hx : Parse.HexfPrefix) {txt : Str} {s : Ast.Schema} {out : List Node}
    (hp : Parse.schemaDecl txt = some ([], s)) (hc : Parse.compileText txt = some (.tree out))
    (h : OneNamespace s.elements ∨ InOrder s.elements) {gm : Mode} (hg : CompilableTo gm s.elements out) :
    ∃ P, emit gm out = some P ∧ Delivers gm s.elements out P :=
  build_works_several h ((Gen.compileText_build hp).mp hc) (.of_text (Parse.C61_sound hx hp)) hg

/-- **C77** from the language as described, not from what the compiler does: see C73. -/
theorem C77_written_partial {txt : Str} {s : Ast.Schema} (ht : Parse.SchemaText s txt) (hv : Parse.NamesSchema s)
    (hq : Parse.NoSpecial txt) (h1 : OneNamespace s.elements) (h2 : Ir.WellFormed (lastNs s.elements) s.elements)
    (h3 : ∀ el ∈ s.elements, ∀ r ∈ Ir.needs el, Ir.Settled (lastNs s.elements) s.elements (Ir.refIn (lastNs s.elements) r))
    (h4 : Ir.Starts (lastNs s.elements) s.elements) {gm : Mode} (hg : Compilable gm s.elements) :
    ∃ out P, Parse.compileText txt = some (.tree out) ∧ emit gm out = some P ∧ Delivers gm s.elements out P := by
  have hp := Parse.schemaDecl_eq ht hv hq
  obtain ⟨out, hb⟩ := (Ir.C59_accepted_iff h1).mpr ⟨h2, h3, h4⟩
  obtain ⟨P, hP, hD⟩ := build_works h1 hb (.of_text ht) hg
  exact ⟨out, P, (Gen.compileText_build hp).mpr hb, hP, hD⟩

end

/-! ### A schema text -/

section
attribute [local instance] Parse.asciiEnv

theorem exRead_compilable (gm : Mode) : Compilable gm Gen.exRead.elements where
  toGenerable := exRead_generable gm
  derived := by
    intro t ht
    simp only [Gen.exRead, Ir.exNs, Ir.exUnion, List.mem_cons, reduceCtorEq, Ast.Element.table.injEq, List.not_mem_nil,
      or_false, false_or] at ht
    rcases ht with rfl | rfl <;> decide
  enums := by
    intro e e' h h'
    simp only [Gen.exRead, Ir.exNs, Ir.exUnion, List.mem_cons, reduceCtorEq, Ast.Element.enum.injEq, List.not_mem_nil,
      or_false, false_or] at h h'
    subst h h'
    exact fun _ => rfl
  unions := by
    intro e e' h h'
    simp only [Gen.exRead, Ir.exNs, Ir.exUnion, List.mem_cons, reduceCtorEq, Ast.Element.union.injEq, List.not_mem_nil,
      or_false, false_or] at h h'
    subst h h'
    exact fun _ => rfl
  butteGen := fun _ => by decide
  free := by decide
  freeModules := by decide

/-- The compiler accepts the text, emits a program, and the program works. -/
example (gm : Mode) : ∃ out P, Parse.compileText Gen.exText = some (.tree out) ∧ emit gm out = some P ∧
    Delivers gm Gen.exRead.elements out P := by
  obtain ⟨out, hc, -⟩ := Gen.exText_delivers gm
  obtain ⟨P, hP, hD⟩ := C77_accepted_partial (fun _ _ h => by cases h) Gen.exText_reads hc Gen.exRead_one (exRead_compilable gm)
  exact ⟨out, P, hc, hP, hD⟩

theorem noCapture_of_all {out : List Node} (h : ∀ x ∈ itemsOf out,
    (∀ d ∈ x.2.defines.toList, QIdent.simple d.1 ∉ reserved) ∧ ∀ s ∈ x.1, Heck.snake s ∉ reserved) : NoCapture out :=
  fun x hx => ⟨fun q ct hd => (h x hx).1 (q, ct) (by rw [hd]; exact List.mem_singleton_self _), (h x hx).2⟩

/-- A text with two namespaces. -/
def exText2 : Str := c!"namespace assets; table Mesh { } namespace Game.World; table T { m: assets.Mesh; }"

example (gm : Mode) : ∃ s out P, Parse.schemaDecl exText2 = some ([], s) ∧ Parse.compileText exText2 = some (.tree out) ∧
    emit gm out = some P ∧ Delivers gm s.elements out P := by
  have hr : Parse.schemaDecl exText2 = some ([], Gen.exTwo c!"assets" c!"Mesh" [c!"Game", c!"World"]) := rfl
  obtain ⟨out, hb, h1, h2, h3, h4, h5⟩ := exTwo_hyps gm
  have hc := (Gen.compileText_build hr).mpr hb
  have hb' := hb
  rw [show Ir.build (Gen.exTwo c!"assets" c!"Mesh" [c!"Game", c!"World"]) = some (.ok _) from rfl] at hb'
  cases hb'
  obtain ⟨P, hP, hD⟩ := C77_several_partial (fun _ _ h => by cases h) hr hc (.inr (Gen.exTwo_order _ _ _)) (gm := gm)
    ⟨h1, h2, h4, by decide, (Gen.C71_iff_partial hb rfl).mp (by decide), noCapture_of_all (by decide)⟩
  exact ⟨_, _, P, hr, hc, hP, hD⟩

end

end Butte.Rs
