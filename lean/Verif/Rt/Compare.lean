import Verif.Rt.Builder
import Verif.Rt.Read
/-
Comparing tables and builders: the `PartialEq` that the runtime derives. (Generated table types derive it too, for a struct whose only
field is a `Table`, codegen.rs 722-726.)
-/
namespace Butte

/-- table.rs 25-29: derived `PartialEq` of `Table<&[u8]>` compares field by field; `==` of slices compares their bytes. -/
def Table.eq (t u : Table) : Bool := t.buf == u.buf && t.loc == u.loc

/-- codegen.rs 1074-1078: derived `PartialEq` of the generated type of a union, here a tag with a table. The variant first, then the
value in it. -/
def unionEq (x y : Nat × Table) : Bool := x.1 == y.1 && x.2.eq y.2

/-- builder.rs 41-57: derived `PartialEq` of `FlatBufferBuilder`, field by field; `==` of `Vec` compares the items. -/
def Builder.eq (b c : Builder) : Bool :=
  b.buf == c.buf && b.head == c.head && b.fieldLocs == c.fieldLocs && b.vtables == c.vtables && b.nested == c.nested &&
    b.finished == c.finished && b.minAlign == c.minAlign

theorem Table.eq_iff {t u : Table} : t.eq u = true ↔ t = u := by
  cases t; cases u; simp [Table.eq]

theorem Builder.eq_iff {b c : Builder} : b.eq c = true ↔ b = c := by
  cases b; cases c; simp [Builder.eq, and_assoc]

end Butte
