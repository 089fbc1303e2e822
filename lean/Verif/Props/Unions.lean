import Verif.Ir.Companion
import Verif.Gen.Run
import Verif.Props.Analysis
/-
Property C68: unions and their tags, from the schema to the generated code.
-/
namespace Butte.Gen
open Ir (build itemsOf fixIdentifier)

set_option maxRecDepth 8000

/-- **C68** in the output of the analysis of any schema whatsoever, a union field stands right behind a field of the
union's own enum, which is required if and only if the union field is; the enum has `None` as 0 and then the members in
order. Both names derive from that of a field of the schema. -/
theorem C68_companion {s : Ast.Schema} {out : List Ir.Node} (hb : build s = some (.ok out)) {path : List Ir.Ident}
    {t : Ir.Table} (ht : (path, Ir.Node.table t) ∈ itemsOf out) {i : Nat} {id : Ir.Ident} {q e : Ir.QIdent}
    {vs : List Ir.UnionVariant} {d : Option Ast.DefaultValue} {req : Bool} {dc : Ast.Comment}
    (hi : t.fields[i]? = some ⟨id, .union q e vs, d, req, dc⟩) :
    ∃ (decl : Ast.Product) (f : Ast.Field), .table decl ∈ s.elements ∧ f ∈ decl.fields ∧ id = fixIdentifier f.id ∧ 0 < i ∧
      t.fields[i - 1]? = some ⟨fixIdentifier (Heck.snake f.id ++ c!"_type"),
        .enum e (⟨c!"None", some 0, []⟩ :: vs.map fun v => ⟨v.ident, none, v.doc⟩) .ubyte, none, req, dc⟩ :=
  Ir.output_union hb ht hi

/-- `table T { type: U; } union U { T }` -/
def exTypeField : Ast.Schema := ⟨[], [Ir.exTable c!"T" [Ir.exRef c!"type" [c!"U"]], Ir.exUnion c!"U" [c!"T"]]⟩

/-- **C68** that each union can be used is false: the accessor of a union field named `type` calls `ty_type`, while the
field for the tag is `type_type`. -/
theorem C68_refuted : ∃ out path t f, build exTypeField = some (.ok out) ∧ (path, Ir.Node.table t) ∈ itemsOf out ∧
    f ∈ t.fields ∧ unionTagOk t.fields f = false ∧ ∀ gm, compileTable gm t = none := by
  refine ⟨_, [], ⟨[c!"T"], [⟨c!"type_type", .enum [c!"butte_gen", c!"UType"] [⟨c!"None", some 0, []⟩, ⟨c!"T", none, []⟩] .ubyte, none, false, []⟩,
    ⟨c!"ty", .union [c!"U"] [c!"butte_gen", c!"UType"] [⟨c!"T", .table [c!"T"], []⟩], none, false, []⟩], false, []⟩, _, rfl, ?_,
    List.mem_cons_of_mem _ List.mem_cons_self, by decide, ?_⟩
  · show _ ∈ [_, _, _]
    first
      | exact List.mem_cons_self
      | exact List.mem_cons_of_mem _ List.mem_cons_self
      | exact List.mem_cons_of_mem _ (List.mem_cons_of_mem _ List.mem_cons_self)
  · intro gm
    rfl

/-- **C68** exactly: the accessor that the accessor of a union field calls is that of the field for its tag, unless the
field is named `type` or by underscores only. -/
theorem C68_names (s : Str) :
    Heck.snake (fixIdentifier (Heck.snake s ++ c!"_type")) = Heck.snake (fixIdentifier s) ++ c!"_type" ↔
      s ≠ c!"type" ∧ Heck.snake s ≠ [] :=
  Ir.tag_accessor_iff s

/-- **C68** for all other names: the check that the compiler makes of the tag accessor always succeeds. Full statement:
for all names. -/
theorem C68_tag_partial {s : Ast.Schema} {out : List Ir.Node} (hb : build s = some (.ok out)) {path : List Ir.Ident}
    {t : Ir.Table} (ht : (path, Ir.Node.table t) ∈ itemsOf out)
    (hn : ∀ decl f, .table decl ∈ s.elements → f ∈ decl.fields → f.id ≠ c!"type" ∧ Heck.snake f.id ≠ []) :
    ∀ f ∈ t.fields, unionTagOk t.fields f = true := by
  intro g hg
  obtain ⟨id, ty, d, req⟩ := g
  cases ty with
  | union q e vs =>
    obtain ⟨i, hi⟩ := List.mem_iff_getElem?.mp hg
    obtain ⟨decl, f, h1, h2, rfl, h4, h5⟩ := C68_companion hb ht hi
    unfold unionTagOk
    simp only [List.any_eq_true]
    refine ⟨_, List.mem_of_getElem? h5, ?_⟩
    have := (C68_names f.id).mpr (hn decl f h1 h2)
    simp only [this, beq_self_eq_true, Bool.true_and, List.map_cons, List.map_map]
    rw [beq_iff_eq]
    rfl
  | _ => rfl

/-- **C68** so that whether a table compiles depends on the names of its fields, and on each field by itself. -/
theorem C68_compiles_partial {s : Ast.Schema} {out : List Ir.Node} (hb : build s = some (.ok out)) {path : List Ir.Ident}
    {t : Ir.Table} (ht : (path, Ir.Node.table t) ∈ itemsOf out)
    (hn : ∀ decl f, .table decl ∈ s.elements → f ∈ decl.fields → f.id ≠ c!"type" ∧ Heck.snake f.id ≠ []) (gm : Mode) :
    compileTable gm t = if namesOk t.fields then compileFields gm 0 t.fields else none := by
  have h : t.fields.all (unionTagOk t.fields) = true := List.all_eq_true.mpr (C68_tag_partial hb ht hn)
  unfold compileTable
  rw [h, Bool.and_true]

/-- **C68** the companion enum of every union of the output is in the output. -/
theorem C68_enum {s : Ast.Schema} {out : List Ir.Node} (hb : build s = some (.ok out)) {path : List Ir.Ident} {u : Ir.Union}
    (hu : (path, Ir.Node.union u) ∈ itemsOf out) :
    (u.enumIdent.dropLast, Ir.Node.enum ⟨u.enumIdent, ⟨c!"None", some 0, []⟩ :: u.variants.map fun v => ⟨v.ident, none, v.doc⟩, .ubyte, u.doc⟩)
      ∈ itemsOf out := by
  obtain ⟨c, hr, rfl⟩ := Ir.build_ok hb
  obtain ⟨groups, g1, g2, g3, _⟩ := Ir.run_outcome hr
  obtain ⟨g, hg, hxg⟩ := List.mem_flatten.mp (Ir.holds_path g1 hu).1
  obtain ⟨p, _, el, ns, _, _, hem⟩ := Ir.all₂_right g2 hg
  have hm := Ir.emits_tag_node hem hxg
  exact Ir.holds_mem g1 (List.mem_flatten.mpr ⟨g, hg, hm⟩)

/-- **C68** `get_type`: if the companion enum compiles, `get_type` of member `i` is the variant `i + 1`. -/
theorem C68_get_type (uvs : List Ir.UnionVariant) (xs : List (SVal .u8))
    (hx : enumValues .u8 (⟨c!"None", some 0, []⟩ :: uvs.map fun v => ⟨v.ident, none, v.doc⟩) = some xs) (i : Nat) (hi : i < uvs.length) :
    unionGetType (⟨c!"None", some 0, []⟩ :: uvs.map fun v => ⟨v.ident, none, v.doc⟩) uvs i = some (i + 1) := by
  have hnd : ((⟨c!"None", some 0, []⟩ :: uvs.map fun v => (⟨v.ident, none, v.doc⟩ : Ir.EnumVariant)).map (·.ident)).Nodup := by
    unfold enumValues at hx
    obtain ⟨_, _, hx⟩ := Option.bind_eq_some_iff.mp hx
    split at hx
    · cases hx
    · rename_i h
      by_contra hc
      exact h (.inr (.inl hc))
  unfold unionGetType
  rw [List.getElem?_eq_getElem hi]
  show List.findIdx? _ _ = _
  rw [List.findIdx?_eq_some_iff_getElem]
  refine ⟨by simp; omega, by simp, ?_⟩
  intro j hj
  simp only [beq_iff_eq]
  intro he
  have h1 : ((⟨c!"None", some 0, []⟩ :: uvs.map fun v => (⟨v.ident, none, v.doc⟩ : Ir.EnumVariant)).map (·.ident))[j]'(by simp; omega) =
      ((⟨c!"None", some 0, []⟩ :: uvs.map fun v => (⟨v.ident, none, v.doc⟩ : Ir.EnumVariant)).map (·.ident))[i + 1]'(by simp; omega) := by
    rw [List.getElem_map, he]
    simp
  have := (List.getElem_inj hnd).mp h1
  omega

/-- **C68** `get_type` of the value that a union accessor hands out is what the accessor of its tag returns. -/
theorem C68_get_type_accessor (m : Mode) (tbl : Table) (gs : List GField) (name : Str) (slot : Fin 65536) (vs : List FTy)
    (req : Bool) (uvs : List Ir.UnionVariant) (xs : List (SVal .u8))
    (hx : enumValues .u8 (⟨c!"None", some 0, []⟩ :: uvs.map fun v => ⟨v.ident, none, v.doc⟩) = some xs) (hl : uvs.length = vs.length)
    (i : Fin vs.length) (v : (vs.get i).Inner) (h : accessor m tbl gs ⟨name, slot, .union vs, req⟩ = .ok (some ⟨i, v⟩)) :
    tagOf m tbl gs name = .ok (unionGetType (⟨c!"None", some 0, []⟩ :: uvs.map fun v => ⟨v.ident, none, v.doc⟩) uvs i) := by
  rw [C68_get_type uvs xs hx i (by omega)]
  unfold accessor at h
  obtain ⟨x, h1, h2⟩ := Res.bind_eq_ok.mp h
  have hxv : x = some ⟨i, v⟩ := by
    unfold okOr at h2
    split at h2
    · cases h2; rfl
    · split at h2 <;> cases h2
  subst hxv
  simp only [Kind.fetch] at h1
  obtain ⟨tag, e1, h1⟩ := Res.bind_eq_ok.mp h1
  rw [e1]
  split at h1
  · cases h1
  · cases h1
  · rename_i k
    split at h1
    · obtain ⟨y, _, h1⟩ := Res.bind_eq_ok.mp h1
      cases y with
      | none => cases h1
      | some y =>
        have h1 := Option.some.inj (Res.ok.inj h1)
        have := congrArg (fun z : Σ i : Fin vs.length, (vs.get i).Inner => z.1.val) h1
        simp only at this
        rw [this]
    · cases h1

/-! ### A concrete union -/

/-- `namespace A; table T { pick: U (required); } union U { T }` -/
def exPick : Ast.Schema := ⟨[], [Ir.exNs c!"A",
  Ir.exTable c!"T" [⟨c!"pick", .ident [c!"U"], none, some [(c!"required", none)], []⟩], Ir.exUnion c!"U" [c!"T"]]⟩

def exPickTable : Ir.Table := ⟨[c!"A", c!"T"],
  [⟨c!"pick_type", .enum [c!"A", c!"butte_gen", c!"UType"] [⟨c!"None", some 0, []⟩, ⟨c!"T", none, []⟩] .ubyte, none, true, []⟩,
   ⟨c!"pick", .union [c!"A", c!"U"] [c!"A", c!"butte_gen", c!"UType"] [⟨c!"T", .table [c!"A", c!"T"], []⟩], none, true, []⟩], false, []⟩

/-- The hypotheses of C68 are met; the table compiles. -/
example : ∃ out, build exPick = some (.ok out) ∧ ([c!"A"], Ir.Node.table exPickTable) ∈ itemsOf out ∧
    (∀ decl f, .table decl ∈ exPick.elements → f ∈ decl.fields → f.id ≠ c!"type" ∧ Heck.snake f.id ≠ []) ∧
    (∃ u, ([c!"A"], Ir.Node.union u) ∈ itemsOf out ∧ u.variants.length = 1) ∧ ∀ gm, (compileTable gm exPickTable).isSome := by
  refine ⟨_, rfl, ?_, ?_, ⟨⟨[c!"A", c!"U"], [c!"A", c!"butte_gen", c!"UType"], [⟨c!"T", .table [c!"A", c!"T"], []⟩], []⟩, ?_, rfl⟩, ?_⟩
  · show _ ∈ [_, _, _]
    first
      | exact List.mem_cons_self
      | exact List.mem_cons_of_mem _ List.mem_cons_self
      | exact List.mem_cons_of_mem _ (List.mem_cons_of_mem _ List.mem_cons_self)
  · intro decl f h1 h2
    have h1 : Ast.Element.table decl = .table ⟨c!"T", [⟨c!"pick", .ident [c!"U"], none, some [(c!"required", none)], []⟩], none, []⟩ := by
      simpa [exPick, Ir.exNs, Ir.exTable, Ir.exUnion] using h1
    cases h1
    rw [List.mem_singleton.mp h2]
    decide
  · show _ ∈ [_, _, _]
    first
      | exact List.mem_cons_self
      | exact List.mem_cons_of_mem _ List.mem_cons_self
      | exact List.mem_cons_of_mem _ (List.mem_cons_of_mem _ List.mem_cons_self)
  · intro gm
    cases gm <;> rfl

/-- `get_type` of the second of three members. -/
example : (enumValues .u8 (⟨c!"None", some 0, []⟩ :: [c!"A", c!"B", c!"C"].map fun n => (⟨n, none, []⟩ : Ir.EnumVariant))).isSome ∧
    unionGetType (⟨c!"None", some 0, []⟩ :: [c!"A", c!"B", c!"C"].map fun n => ⟨n, none, []⟩)
      ([c!"A", c!"B", c!"C"].map fun n => ⟨n, .table [n], []⟩) 1 = some 2 := by decide

/-- A table whose union holds its first member. -/
example (m : Mode) : ∃ v, accessor m ⟨[8, 0, 12, 0, 4, 0, 8, 0, 8, 0, 0, 0, 1, 0, 0, 0, 4, 0, 0, 0, 16, 0, 0, 0], 8⟩
    [⟨c!"u_type", 4, .enum .u8 [Fin.ofNat _ 0, Fin.ofNat _ 1] none, false⟩, ⟨c!"u", 6, .union [.fwdU .table], false⟩]
    ⟨c!"u", 6, .union [.fwdU .table], false⟩ = .ok (some ⟨⟨0, by decide⟩, v⟩) ∧
    (enumValues .u8 (⟨c!"None", some 0, []⟩ :: [(⟨c!"T", .table [c!"T"], []⟩ : Ir.UnionVariant)].map fun v => ⟨v.ident, none, v.doc⟩)).isSome := by
  cases m <;> exact ⟨_, rfl, by decide⟩

end Butte.Gen
