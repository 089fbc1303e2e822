import Verif.Gen.WorkableOk
/-
The number of fields of a translated table, from its declaration.
-/
namespace Butte.Gen
open Ir (QIdent Node Ident nameIn lastNs fixIdentifier)
open Ast (Element)

theorem translates_length {E : List Element} {out : List Node} (h : Ir.Translates E out) {p : Nat} {d : Ast.Product}
    (hp : E[p]? = some (.table d)) :
    ∃ t, (t.ident.dropLast, Node.table t) ∈ Ir.itemsOf out ∧ t.ident = nameIn (lastNs (E.take p)) d.id ∧
      t.fields.length = (slotNames E (lastNs (E.take p)) d.fields).length := by
  obtain ⟨groups, g1, g2, g3, _⟩ := h
  have A := agrees g2 g3
  obtain ⟨g, hg, el, hel, hem⟩ := Ir.all₂_left g2 (Ir.mem_declPositions.mpr ⟨_, hp, rfl⟩)
  rw [hp] at hel
  cases hel
  cases hem with
  | table t fields root hf =>
    refine ⟨⟨nameIn (lastNs (E.take p)) d.id, fields, root, d.doc⟩,
      Ir.holds_mem g1 (List.mem_flatten.mpr ⟨_, hg, List.mem_cons_self⟩), rfl, ?_⟩
    show fields.length = _
    rw [← slotNames_eq A hf, List.length_map]

end Butte.Gen
