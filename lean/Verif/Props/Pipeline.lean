import Verif.Gen.WorkableOk
import Verif.Props.Program
import Verif.Props.Tree
import Verif.Props.Untrusted
import Verif.Props.ParserExact
/-
Properties C72 and C73: which tables of a schema there is working code for; from the text of a schema to data and back.
-/
namespace Butte.Gen
open Ir (QIdent Node Ident itemsOf OneNamespace InOrder build nameIn lastNs fixIdentifier)
open Ast (Element)

set_option maxRecDepth 8000

/-! ### C72 -/

/-- A table `T` with the fields `fs`, beside an enum `E`, a union `U` of `T`, and a struct `S`. -/
def exFields (fs : List Ast.Field) : Ast.Schema := ⟨[], [Ir.exEnum c!"E",
  .struct ⟨c!"S", [⟨c!"x", .builtin .int, none, none, []⟩], none, []⟩, Ir.exTable c!"T" fs, Ir.exUnion c!"U" [c!"T"]]⟩

/-- **C72** that there is working code for the tables of every accepted schema is false: fields that are structs, vectors
of unions, names that clash after conversion or with methods, defaults that are out of range, of the wrong type, or name
no variant, a union field named `type`, a field named like a constructor of the prelude, a number as default of a union. -/
theorem C72_refuted : ∀ fs ∈ [
    [Ir.exRef c!"s" [c!"S"]],
    [⟨c!"us", .array (.ident [c!"U"]), none, none, []⟩],
    [⟨c!"fooBar", .string, none, none, []⟩, ⟨c!"foo_bar", .string, none, none, []⟩],
    [⟨c!"create", .string, none, none, []⟩],
    [Ir.exRef c!"type" [c!"U"]],
    [⟨c!"b", .builtin .byte, some (.scalar (.integer 128)), none, []⟩],
    [⟨c!"s", .string, some (.scalar (.integer 0)), none, []⟩],
    [⟨c!"e", .ident [c!"E"], some (.ident c!"Y"), none, []⟩],
    [⟨c!"None", .builtin .int, none, none, []⟩],
    [⟨c!"u", .ident [c!"U"], some (.scalar (.integer 1)), none, []⟩]],
    ∃ out t, build (exFields fs) = some (.ok out) ∧ tablesOf out [c!"T"] = some t ∧ ∀ gm, compileTable gm t = none := by
  intro fs hfs
  simp only [List.mem_cons, List.not_mem_nil, or_false] at hfs
  rcases hfs with rfl | rfl | rfl | rfl | rfl | rfl | rfl | rfl | rfl | rfl <;>
    exact ⟨_, _, rfl, rfl, fun gm => by cases gm <;> rfl⟩

/-- A union may have a default that is no number, whatever it says: nothing looks at it. -/
example : ∀ d ∈ [Ast.DefaultValue.ident c!"Nobody", .scalar (.boolean true)],
    ∃ out t, build (exFields [⟨c!"u", .ident [c!"U"], some d, none, []⟩]) = some (.ok out) ∧ tablesOf out [c!"T"] = some t ∧
      ∀ gm, ∃ gs, compileTable gm t = some gs := by
  intro d hd
  simp only [List.mem_cons, List.not_mem_nil, or_false] at hd
  rcases hd with rfl | rfl <;> exact ⟨_, _, rfl, rfl, fun gm => by cases gm <;> exact ⟨_, rfl⟩⟩

/-- Beside a field `ty_type` of its enum, a union field may be named `type`: its accessor finds a tag by chance. -/
example : ∃ out t, build (exFields [Ir.exRef c!"type" [c!"U"], Ir.exRef c!"ty_type" [c!"butte_gen", c!"UType"]]) = some (.ok out) ∧
    tablesOf out [c!"T"] = some t ∧ ∀ gm, ∃ gs, compileTable gm t = some gs :=
  ⟨_, _, rfl, rfl, fun gm => by cases gm <;> exact ⟨_, rfl⟩⟩

/-- A declared table is in the output, and there is only one of that name. -/
theorem declared_table {s : Ast.Schema} {out : List Node} (h : OneNamespace s.elements ∨ InOrder s.elements)
    (hb : build s = some (.ok out)) (gm : Mode) {p : Nat} {d : Ast.Product} (hp : s.elements[p]? = some (.table d)) :
    ∃ t, tablesOf out (nameIn (lastNs (s.elements.take p)) d.id) = some t ∧
      (TableWorks gm s.elements (lastNs (s.elements.take p)) d.fields → ∃ gs, compileTable gm t = some gs) ∧
      ((∃ gs, compileTable gm t = some gs) → TableWorks gm s.elements (lastNs (s.elements.take p)) d.fields) := by
  obtain ⟨t, h1, h2, h3⟩ := translates_compiles (Ir.C46_resolved_partial h hb).1 gm hp
  refine ⟨t, ?_, h3⟩
  rw [← h2]
  exact tablesOf_mem (Ir.C47_output_partial hb) h1

/-- **C72** there is working code for a table if and only if its declaration meets the conditions of `TableWorks`. Full
statement: in every schema. -/
theorem C72_exact_partial {s : Ast.Schema} {out : List Node} (h : OneNamespace s.elements ∨ InOrder s.elements)
    (hb : build s = some (.ok out)) (gm : Mode) {p : Nat} {d : Ast.Product} (hp : s.elements[p]? = some (.table d)) :
    ∃ t, tablesOf out (nameIn (lastNs (s.elements.take p)) d.id) = some t ∧
      ((∃ gs, compileTable gm t = some gs) ↔ TableWorks gm s.elements (lastNs (s.elements.take p)) d.fields) := by
  obtain ⟨t, h1, h2, h3⟩ := declared_table h hb gm hp
  exact ⟨t, h1, h3, h2⟩

/-- **C72** if all declared tables meet the conditions, there is working code for all tables. Full statement: in every
schema. -/
theorem C72_all_partial {s : Ast.Schema} {out : List Node} (h : OneNamespace s.elements ∨ InOrder s.elements)
    (hb : build s = some (.ok out)) (gm : Mode)
    (hw : ∀ (p : Nat) d, s.elements[p]? = some (.table d) → TableWorks gm s.elements (lastNs (s.elements.take p)) d.fields)
    {x : List Ident} {t : Ir.Table} (ht : (x, .table t) ∈ itemsOf out) : ∃ gs, compileTable gm t = some gs := by
  obtain ⟨p, d, hp, hi⟩ := translates_table (Ir.C46_resolved_partial h hb).1 ht
  obtain ⟨t', h1, h2, _⟩ := declared_table h hb gm hp
  rw [← hi, tablesOf_mem (Ir.C47_output_partial hb) ht] at h1
  cases h1
  exact h2 (hw p d hp)

/-! ### C73 -/

/-- Reading a table `q` from the root of any bytes, down to the last field, ends without a panic (release build). -/
def ReadsSafely (gm : Mode) (S : Tables) (q : QIdent) : Prop :=
  ∀ (buf : Bytes) (n : Nat), buf.Valid → buf.length + 2 ≤ n →
    (do let r ← Table.getRoot .release buf; readVal gm .release S n (.table q) (.fwdU .table) r) ≠ .panic ∧
    (do let r ← Table.getSizePrefixedRoot .release buf; readVal gm .release S n (.table q) (.fwdU .table) r) ≠ .panic

/-- Every tree of the table `q` for which there is room can be written, finished, and read back. -/
def RoundTrips (gm : Mode) (S : Tables) (q : QIdent) : Prop :=
  ∀ (m : Mode) (v : Val) (n cap : Nat) (b₀ : Builder) (ident : Option Bytes) (sp : Bool), Conforms gm S (.table q) v n →
    n + 65576 ≤ 2 ^ 31 - 2 ^ 17 → Builder.newWithCapacity cap = .ok b₀ → (∀ i, ident = some i → i.length = 4) →
    ∃ (o : Fin (2 ^ 32)) (b₁ b₂ : Builder) (data : Bytes) (root : Butte.Table) (v' : Val),
      writeVal gm m S n b₀ (.table q) v = .ok (o.val, b₁) ∧ step m b₁ (.finish o ident sp) = .ok (none, b₂) ∧
      b₂.finishedData m = .ok data ∧
      (if sp then Table.getSizePrefixedRoot m data else Table.getRoot m data) = .ok root ∧ Same v v' ∧
      ∃ N, ∀ k, N ≤ k → readVal gm m S k (.table q) (.fwdU .table) root = .ok v'

/-- Each declared table is there under its name, reads any bytes safely, and keeps its data. -/
def Delivers (gm : Mode) (E : List Element) (out : List Node) : Prop :=
  ∀ (p : Nat) (d : Ast.Product), E[p]? = some (.table d) →
    ∃ t gs, tablesOf out (nameIn (lastNs (E.take p)) d.id) = some t ∧ compileTable gm t = some gs ∧
      ReadsSafely gm (tablesOf out) t.ident ∧ RoundTrips gm (tablesOf out) t.ident

theorem build_delivers {s : Ast.Schema} {out : List Node} (h : OneNamespace s.elements ∨ InOrder s.elements)
    (hb : build s = some (.ok out)) (gm : Mode)
    (hw : ∀ (p : Nat) d, s.elements[p]? = some (.table d) → TableWorks gm s.elements (lastNs (s.elements.take p)) d.fields) :
    Delivers gm s.elements out := by
  intro p d hd
  obtain ⟨t, h1, h2, _⟩ := declared_table h hb gm hd
  obtain ⟨gs, hgs⟩ := h2 (hw p d hd)
  have hu := translates_usable (Ir.C46_resolved_partial h hb).1 gm fun x t ht => C72_all_partial h hb gm hw ht
  have hq : tablesOf out t.ident = some t := by
    obtain ⟨x, _, _, e⟩ := tablesOf_some h1
    rw [e]; exact h1
  refine ⟨t, gs, h1, hgs, fun buf n hv hn => C69_whole_graph gm _ hu _ t hq buf hv n hn, ?_⟩
  intro m v n cap b₀ ident sp hc hn h₀ hid
  obtain ⟨o, b₁, b₂, data, root, v', e1, _, e2, _, e3, e4, e5, e6⟩ :=
    C65_write_read gm m _ _ v n hc hn cap b₀ h₀ ident hid sp
  exact ⟨o, b₁, b₂, data, root, v', e1, e2, e3, e4, e5, e6⟩

section
variable [Parse.Env]

theorem compileText_build {txt : Str} {s : Ast.Schema} {out : List Node} (hp : Parse.schemaDecl txt = some ([], s)) :
    Parse.compileText txt = some (.tree out) ↔ build s = some (.ok out) := by
  unfold Parse.compileText
  rw [hp]
  simp only [if_true]
  cases build s with
  | none => simp
  | some r => cases r <;> simp [Parse.Outcome.ofBuild]

/-- **C73** from any schema text that the compiler accepts, whose types are all in one namespace or declared before use,
and whose tables meet the conditions of C72. Full statement: from every schema text that the compiler accepts. -/
theorem C73_accepted_partial {txt : Str} {s : Ast.Schema} {out : List Node} (hp : Parse.schemaDecl txt = some ([], s))
    (hc : Parse.compileText txt = some (.tree out)) (h : OneNamespace s.elements ∨ InOrder s.elements) (gm : Mode)
    (hw : ∀ (p : Nat) d, s.elements[p]? = some (.table d) → TableWorks gm s.elements (lastNs (s.elements.take p)) d.fields) :
    Delivers gm s.elements out :=
  build_delivers h ((compileText_build hp).mp hc) gm hw

/-- **C73** from the language as described, not from what the compiler does: a text that writes the schema `s` according
to the grammar, `s` being well formed with all its names resolvable (C59) and its tables meeting the conditions of C72, is
accepted by the compiler, and the generated code delivers. Full statement: with any namespaces, and any words. -/
theorem C73_written_partial {txt : Str} {s : Ast.Schema} (ht : Parse.SchemaText s txt) (hv : Parse.NamesSchema s)
    (hq : Parse.NoSpecial txt) (h1 : OneNamespace s.elements)
    (h2 : Ir.WellFormed (lastNs s.elements) s.elements)
    (h3 : ∀ el ∈ s.elements, ∀ r ∈ Ir.needs el, Ir.Settled (lastNs s.elements) s.elements (Ir.refIn (lastNs s.elements) r))
    (h4 : Ir.Starts (lastNs s.elements) s.elements) (gm : Mode)
    (hw : ∀ (p : Nat) d, s.elements[p]? = some (.table d) → TableWorks gm s.elements (lastNs (s.elements.take p)) d.fields) :
    ∃ out, Parse.compileText txt = some (.tree out) ∧ Delivers gm s.elements out := by
  have hp := Parse.schemaDecl_eq ht hv hq
  obtain ⟨out, hb⟩ := (Ir.C59_accepted_iff h1).mpr ⟨h2, h3, h4⟩
  exact ⟨out, (compileText_build hp).mpr hb, build_delivers (.inl h1) hb gm hw⟩

end

/-! ### A schema text, and data -/

section
attribute [local instance] Parse.asciiEnv

/-- A schema as one writes it. -/
def exText : Str := c!"namespace game; enum Color: byte { Red, Blue = 4 } union Shape { Mesh }
  // a mesh
  table Mesh { name: string (required); ids: [int]; }
  table T { color: Color = Blue; shape: Shape; next: T; all: [Mesh]; hp: short = 100; }
  root_type T;"

/-- The schema read from it. -/
def exRead : Ast.Schema := ⟨[], [Ir.exNs c!"game",
  .enum ⟨c!"Color", [⟨c!"Red", none, []⟩, ⟨c!"Blue", some 4, []⟩], .builtin .byte, none, []⟩,
  Ir.exUnion c!"Shape" [c!"Mesh"],
  .table ⟨c!"Mesh", [⟨c!"name", .string, none, some [(c!"required", none)], []⟩, ⟨c!"ids", .array (.builtin .int), none, none, []⟩],
    none, []⟩,
  .table ⟨c!"T", [⟨c!"color", .ident [c!"Color"], some (.ident c!"Blue"), none, []⟩, Ir.exRef c!"shape" [c!"Shape"],
    Ir.exRef c!"next" [c!"T"], ⟨c!"all", .array (.ident [c!"Mesh"]), none, none, []⟩,
    ⟨c!"hp", .builtin .short, some (.scalar (.integer 100)), none, []⟩], none, []⟩,
  .root c!"T" []]⟩

theorem exText_reads : Parse.schemaDecl exText = some ([], exRead) := rfl

theorem exRead_one : OneNamespace exRead.elements := by
  intro p el he hne
  have hp : p < 6 := (List.getElem?_eq_some_iff.mp he).1
  rcases Nat.lt_or_ge p 1 with h | h
  · obtain rfl : p = 0 := by omega
    cases he
    exact absurd rfl (hne _ _)
  · have : ∀ p, p < 6 → 1 ≤ p → Ir.lastNs (exRead.elements.take p) = Ir.lastNs exRead.elements := by decide
    exact this p hp h

theorem exRead_works (gm : Mode) (p : Nat) (d : Ast.Product) (hp : exRead.elements[p]? = some (.table d)) :
    TableWorks gm exRead.elements (lastNs (exRead.elements.take p)) d.fields := by
  have hl : p < 6 := (List.getElem?_eq_some_iff.mp hp).1
  have hcases : p = 0 ∨ p = 1 ∨ p = 2 ∨ p = 3 ∨ p = 4 ∨ p = 5 := by omega
  rcases hcases with rfl | rfl | rfl | rfl | rfl | rfl <;> cases hp
  · refine ⟨?_, tags_of (by decide), by decide, by decide, by decide, by decide, .inr (by decide)⟩
    intro f hf
    simp only [List.mem_cons, List.not_mem_nil, or_false] at hf
    rcases hf with rfl | rfl
    · rfl
    · exact ⟨rfl, trivial⟩
  · refine ⟨?_, tags_of (by decide), by decide, by decide, by decide, by decide, .inr (by decide)⟩
    intro f hf
    simp only [List.mem_cons, List.not_mem_nil, or_false] at hf
    rcases hf with rfl | rfl | rfl | rfl | rfl
    · refine .inr (.inl ⟨.byte, [(c!"Red", none), (c!"Blue", some 4)], by decide, ⟨by decide, by decide, by decide, ?_⟩,
        .inr ⟨_, List.mem_cons_of_mem _ List.mem_cons_self, rfl⟩⟩)
      intro n hn
      have hn : n ∈ [0, 4] := hn
      simp only [List.mem_cons, List.not_mem_nil, or_false] at hn
      exact ⟨-128, 127, rfl, by omega, by omega⟩
    · refine .inr (.inr ⟨some [c!"game"], [c!"game", c!"butte_gen", c!"ShapeType"], [c!"Mesh"], by decide, nofun, nofun,
        ⟨by decide, by decide, by decide, ?_⟩, ?_⟩)
      · intro n hn
        have hn : n ∈ [0, 1] := hn
        simp only [List.mem_cons, List.not_mem_nil, or_false] at hn
        exact ⟨0, 255, rfl, by omega, by omega⟩
      · intro m hm
        simp only [List.mem_cons, List.not_mem_nil, or_false] at hm
        subst hm
        exact .inl (by decide)
    · exact .inl ⟨by decide, rfl⟩
    · exact ⟨rfl, .inl (by decide)⟩
    · exact .inr ⟨_, rfl, .inl ⟨-32768, 32767, rfl, by decide, by decide⟩⟩

/-- The compiler accepts the text, and the code for its tables reads anything safely and keeps data. -/
theorem exText_delivers (gm : Mode) :
    ∃ out, Parse.compileText exText = some (.tree out) ∧ Delivers gm exRead.elements out := by
  have hb : (match build exRead with | some (.ok _) => true | _ => false) = true := by decide +kernel
  cases e : build exRead with
  | none => rw [e] at hb; cases hb
  | some r =>
    cases r with
    | ok out =>
      have hc := (compileText_build exText_reads).mpr e
      exact ⟨out, hc, C73_accepted_partial exText_reads hc (.inl exRead_one) gm (exRead_works gm)⟩
    | err x => rw [e] at hb; cases hb
    | panic => rw [e] at hb; cases hb

/-- `table M { name: string (required); ids: [int]; }` and the data `M { name: "box", ids: [1, 2, 3] }`. -/
example (gm : Mode) : ∃ out n, Parse.compileText c!"table M { name: string (required); ids: [int]; }" = some (.tree out) ∧
    n ≤ 93 ∧ Conforms gm (tablesOf out) (.table [c!"M"])
      (.table [some (.str "box"), some (.vec [.bits 1, .bits 2, .bits 3])]) n := by
  refine ⟨[.table ⟨[c!"M"], [⟨c!"name", .string, none, true, []⟩, ⟨c!"ids", .array (.builtin .int), none, false, []⟩], false, []⟩],
    ?n, rfl, ?le, ?_⟩
  rotate_left 2
  · generalize hS : tablesOf _ = S
    have hs : (Builder.strBytes "box").length = 3 := by decide
    have h1 : Conforms gm S .string (.str "box") 19 := by
      have := Conforms.string (gm := gm) (S := S) "box"
      rwa [hs] at this
    have h2 : Conforms gm S (.array (.builtin .int)) (.vec [.bits 1, .bits 2, .bits 3]) 28 :=
      .scalars .int [Fin.ofNat _ 1, Fin.ofNat _ 2, Fin.ofNat _ 3]
    have ht : S [c!"M"] =
        some ⟨[c!"M"], [⟨c!"name", .string, none, true, []⟩, ⟨c!"ids", .array (.builtin .int), none, false, []⟩], false, []⟩ := by
      rw [← hS]; rfl
    refine .table (S := S)
      (gs := [⟨c!"name", 4, .ref .str, true⟩, ⟨c!"ids", 6, .ref (.vector (.scalar .i32)), false⟩]) ht
      (by cases gm <;> rfl) (by decide) (by decide)
      (xs := [some (.str "box"), some (.vec [.bits 1, .bits 2, .bits 3])]) (ns := [19, 28]) rfl rfl ?_ ?_
    · intro i x hx
      obtain ⟨i, hi⟩ := i
      rcases i with _ | _ | i
      · cases hx; trivial
      · cases hx; trivial
      · cases hx
    · intro i f x n ty v hf hx hn hb
      rcases i with _ | _ | i
      · cases hf; cases hx; cases hn; cases hb; exact h1
      · cases hf; cases hx; cases hn; cases hb; exact h2
      · cases hf
  · decide

end

end Butte.Gen
