import Verif.Ir.Ignored
import Verif.Props.Analysis
import Verif.Props.Gen
import Verif.Parse.Ascii
/-
C107: attributes and includes.
-/
namespace Butte

open Ir (Node)
open Gen (compileTable enumValues enumBaseSTy)

/-- The attribute `id` of a field, a number. -/
def idOf (f : Ast.Field) : Option Int :=
  match f.metadata.bind (Ast.Metadata.get · c!"id") with
  | some (some (.scalar (.integer n))) => some n
  | _ => none

/-- **C107** is false for `id`: `a` is declared as the field number 1 and `b` as 0, and `a` gets the slot 4 of field 0 and `b` that of
field 1. -/
theorem C107_id_refuted : letI := Parse.asciiEnv
    ∃ p tb gs, Parse.schemaDecl c!"table T{a:int(id:1);b:int(id:0);}" = some ([], ⟨[], [.table p]⟩) ∧
      p.fields.map (fun f => (f.id, idOf f)) = [(c!"a", some 1), (c!"b", some 0)] ∧
      Ir.build ⟨[], [.table p]⟩ = some (.ok [.table tb]) ∧ compileTable .release tb = some gs ∧
      gs.map (fun g => (g.name, g.slot.val)) = [(c!"a", 4), (c!"b", 6)] :=
  ⟨_, _, _, rfl, rfl, rfl, rfl, rfl⟩

/-- **C107** is false for `bit_flags`: the values are 0, 1, 2 and not 1, 2, 4. -/
theorem C107_bit_flags_refuted : letI := Parse.asciiEnv
    ∃ e i xs, Parse.schemaDecl c!"enum E:ubyte(bit_flags){A,B,C}" = some ([], ⟨[], [.enum e]⟩) ∧
      e.metadata = some [(c!"bit_flags", none)] ∧ Ir.build ⟨[], [.enum e]⟩ = some (.ok [.enum i]) ∧
      enumValues (enumBaseSTy i.base) i.variants = some xs ∧ xs.map (·.int) = [0, 1, 2] := by
  refine ⟨_, ⟨[c!"E"], [⟨c!"A", none, []⟩, ⟨c!"B", none, []⟩, ⟨c!"C", none, []⟩], .ubyte, []⟩,
    [Fin.ofNat _ 0, Fin.ofNat _ 1, Fin.ofNat _ 2], rfl, rfl, rfl, ?_, ?_⟩ <;> decide

/-- **C107** is false for `deprecated`: the field keeps its accessor. -/
theorem C107_deprecated_refuted : letI := Parse.asciiEnv
    ∃ p tb gs, Parse.schemaDecl c!"table T{a:int(deprecated);}" = some ([], ⟨[], [.table p]⟩) ∧
      p.fields.map (·.metadata) = [some [(c!"deprecated", none)]] ∧
      Ir.build ⟨[], [.table p]⟩ = some (.ok [.table tb]) ∧ compileTable .release tb = some gs ∧ gs.map (·.name) = [c!"a"] :=
  ⟨_, _, _, rfl, rfl, rfl, rfl, rfl⟩

/-- **C107** is false for includes: whatever the file holds, its types are not known, and the table is reported as unresolved. -/
theorem C107_include_refuted : letI := Parse.asciiEnv
    ∃ i p, Parse.schemaDecl c!"include \"a.fbs\";table T{a:A;}" = some ([], ⟨[i], [.table p]⟩) ∧
      Ir.build ⟨[i], [.table p]⟩ = some (.err (.unresolved [.table p])) := ⟨_, _, rfl, rfl⟩

/-- **C107**, what is looked at: two schemas that differ only in includes and in attributes, other than `required` without a value at the
fields of tables and `streaming` at methods, are both refused, or both accepted with the same code. Full statement: attributes and includes
have the effect that FlatBuffers gives them. -/
theorem C107_ignored_partial {s s' : Ast.Schema} (h : Ir.bare s = Ir.bare s') (out : List Node) :
    Ir.build s = some (.ok out) ↔ Ir.build s' = some (.ok out) := by
  rw [← Ir.build_ok_bare, h, Ir.build_ok_bare]

/-- What remains of a schema says the same of `required` and `streaming` as the schema. -/
theorem C107_kept (f : Ast.Field) (m : Ast.RpcMethod) (k : Ir.Streaming) :
    (Ir.MarkedRequired (Ir.bareField f) ↔ Ir.MarkedRequired f) ∧
    (Ir.AsksStreaming (Ir.bareMethod m).metadata k ↔ Ir.AsksStreaming m.metadata k) := by
  constructor
  · have e : ∀ f : Ast.Field, Ir.MarkedRequired f ↔ f.metadata.bind (Ast.Metadata.get · c!"required") = some none := by
      intro f
      unfold Ir.MarkedRequired
      rw [Option.bind_eq_some_iff]
    rw [e, e]
    exact Ir.keepMark_get _ _
  · have e : ∀ md, Ast.Metadata.get [(c!"streaming", md)] c!"streaming" = some md := fun md => by simp [Ast.Metadata.get]
    unfold Ir.bareMethod Ir.keepValue
    cases m.metadata with
    | none => cases k <;> simp [Ir.AsksStreaming]
    | some md =>
      simp only [Option.bind_some]
      cases h : Ast.Metadata.get md c!"streaming" with
      | none => cases k <;> simp [Ir.AsksStreaming, h]
      | some v => cases k <;> simp [Ir.AsksStreaming, h, e]

/-- **C107**, where `id` agrees with the code: the number of the `k`-th field of a table is `k` and one more for every union up to and
including it, in the order they are written, and `id` changes nothing. So the `id`s of a table are right exactly if they are these
numbers. -/
theorem C107_id_partial {s : Ast.Schema} {out : List Node} (hb : Ir.build s = some (.ok out)) {p : Nat} {t : Ast.Product}
    (ht : s.elements[p]? = some (.table t)) : ∃ x tb ns, x ∈ Ir.itemsOf out ∧ x.2 = .table tb ∧ tb.ident = Ir.nameIn ns t.id ∧
      (ns = Ir.lastNs (s.elements.take p) ∨ ns = Ir.lastNs s.elements) ∧
      ∀ k f, t.fields[k]? = some f → ∃ j g, tb.fields[j]? = some g ∧ g.ident = Ir.fixIdentifier f.id ∧
        j = k + (tb.fields.take (j + 1)).countP (·.ty.isUnion) ∧
        ∀ gm gs, compileTable gm tb = some gs → tb.fields.length ≤ 32766 → ∀ n, idOf f = some n →
          ∃ e, gs[j]? = some e ∧ ((e.slot.val : Int) = 4 + 2 * n ↔ n = j) := by
  obtain ⟨groups, h1, h2, -, -⟩ := Ir.C46_any_partial hb
  obtain ⟨g, hg, el, ns, he, hns, hem⟩ : ∃ g, g ∈ groups ∧ ∃ el ns, s.elements[p]? = some el ∧
      (ns = Ir.lastNs (s.elements.take p) ∨ ns = Ir.lastNs s.elements) ∧
      Ir.Emits ⟨Ir.TableName s.elements (Ir.NsOk s.elements), (Ir.Names.ofItems groups.flatten).dfn⟩ ns el g := by
    have hp : p ∈ Ir.declPositions s.elements := Ir.mem_declPositions.mpr ⟨_, ht, rfl⟩
    clear h1
    revert h2 hp
    generalize Ir.declPositions s.elements = ps
    generalize (Ir.Names.ofItems groups.flatten).dfn = d
    intro h2 hp
    induction h2 with
    | nil => cases hp
    | cons a _ ih =>
      rcases List.mem_cons.mp hp with rfl | hp
      · exact ⟨_, List.mem_cons_self, a⟩
      · obtain ⟨g, h1, h2⟩ := ih hp
        exact ⟨g, List.mem_cons_of_mem _ h1, h2⟩
  rw [ht] at he
  cases he
  cases hem with
  | table _ fields root hf =>
    have hm := Ir.holds_mem h1 (List.mem_flatten.mpr ⟨_, hg, List.mem_singleton.mpr rfl⟩)
    refine ⟨_, _, ns, hm, rfl, rfl, hns, fun k f hk => ?_⟩
    obtain ⟨j, g, a1, a2, a3⟩ := Ir.field_position hf k f hk
    refine ⟨j, g, a1, a2, a3, fun gm gs hc hl n hn => ?_⟩
    obtain ⟨b1, b2, -⟩ := C38_slots gm _ gs hc hl
    have hj : j < gs.length := by
      rw [b1]
      exact (List.getElem?_eq_some_iff.mp a1).1
    refine ⟨gs[j], List.getElem?_eq_getElem hj, ?_⟩
    rw [b2 j hj]
    push_cast
    omega

section

private def withAttributes : Ast.Schema := ⟨[⟨c!"a.fbs", c!"a", []⟩], [
  .table ⟨c!"A", [], some [(c!"original_order", none)], []⟩,
  .union ⟨c!"U", [⟨c!"A", none, []⟩], some [(c!"x", none)], []⟩,
  .table ⟨c!"M", [⟨c!"n", .string, none, some [(c!"id", some (.scalar (.integer 0))), (c!"required", none)], []⟩,
    ⟨c!"u", .ident [c!"U"], none, some [(c!"id", some (.scalar (.integer 2)))], []⟩,
    ⟨c!"k", .builtin .int, none, some [(c!"id", some (.scalar (.integer 3))), (c!"deprecated", none)], []⟩], none, []⟩,
  .rpc ⟨c!"R", [⟨c!"Get", [c!"A"], [c!"A"], some [(c!"streaming", some (.string c!"server")), (c!"y", none)], []⟩], []⟩]⟩

private def without : Ast.Schema := ⟨[], [
  .table ⟨c!"A", [], none, []⟩,
  .union ⟨c!"U", [⟨c!"A", none, []⟩], none, []⟩,
  .table ⟨c!"M", [⟨c!"n", .string, none, some [(c!"required", none)], []⟩,
    ⟨c!"u", .ident [c!"U"], none, none, []⟩, ⟨c!"k", .builtin .int, none, none, []⟩], none, []⟩,
  .rpc ⟨c!"R", [⟨c!"Get", [c!"A"], [c!"A"], some [(c!"streaming", some (.string c!"server"))], []⟩], []⟩]⟩

example (out : List Node) : Ir.build withAttributes = some (.ok out) ↔ Ir.build without = some (.ok out) :=
  C107_ignored_partial rfl out

example : ∃ out, Ir.build without = some (.ok out) := ⟨_, rfl⟩

/-- `required` is not ignored. -/
example : Ir.build ⟨[], [.table ⟨c!"T", [⟨c!"a", .string, none, some [(c!"required", none)], []⟩], none, []⟩]⟩ ≠
    Ir.build ⟨[], [.table ⟨c!"T", [⟨c!"a", .string, none, none, []⟩], none, []⟩]⟩ := by
  intro h
  cases h

/-- Here the `id`s are the numbers, with one for the tag of the union. -/
example : ∃ out, Ir.build withAttributes = some (.ok out) ∧ ∃ t, withAttributes.elements[2]? = some (.table t) ∧
    t.fields.map idOf = [some 0, some 2, some 3] := ⟨_, rfl, _, rfl, rfl⟩

end

end Butte
