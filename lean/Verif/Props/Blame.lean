import Verif.Ir.Blame
import Verif.Props.Analysis
/-
Property C110: what the error messages of the analysis say (butte-build/src/ir/transform.rs) is true of the schema.
-/
namespace Butte.Ir
open Ast (Element)

set_option maxRecDepth 8000

theorem declaredAt_written {E : List Element} {p : Nat} {q : QIdent} {sh : Shape} (h : DeclaredAt E (Written E) p q sh) :
    p < E.length ∧ q ∈ writtenNames E p := by
  obtain ⟨el, ns, he, rfl, hm⟩ := h
  refine ⟨(List.getElem?_eq_some_iff.mp he).1, ?_⟩
  unfold writtenNames
  rw [he]
  exact List.mem_map.mpr ⟨_, hm, rfl⟩

/-! ### C110 -/

/-- `namespace A; table T { u: B.U; } namespace B; struct U { x: int; } table T { }` -/
def exClash : Ast.Schema := ⟨[], [exNs c!"A", exTable c!"T" [exRef c!"u" [c!"B", c!"U"]], exNs c!"B",
  exStruct c!"U" [exPlain c!"x"], exTable c!"T" []]⟩

/-- **C110** is false of the code: of `exClash`, which declares `A.T`, `B.U` and `B.T`, the message says that `B.T` is
defined twice. -/
theorem C110_refuted : ∃ s e, build s = some (.err e) ∧ (∀ els, e ≠ .unresolved els) ∧
    ¬ Fault s.elements (Written s.elements) e := by
  refine ⟨exClash, .alreadyDefined [c!"B", c!"T"], rfl, by simp, ?_⟩
  rintro ⟨p, p', sh, sh', hne, a, b⟩
  obtain ⟨hp, ha⟩ := declaredAt_written a
  obtain ⟨hp', hb⟩ := declaredAt_written b
  have key : ∀ p : Nat, p < 5 → [c!"B", c!"T"] ∈ writtenNames exClash.elements p → p = 4 := by decide
  exact hne ((key p hp ha).trans (key p' hp' hb).symm)

/-- `union U { T } table T { u: U; }` -/
def exCycle : Ast.Schema := ⟨[], [exUnion c!"U" [c!"T"], exTable c!"T" [exRef c!"u" [c!"U"]]]⟩

/-- **C110** is false of the code in one namespace, too: of `exCycle`, the message says that both declarations refer to
items not found; but all they refer to is declared and can be resolved. -/
theorem C110_found_refuted : ∃ s els, OneNamespace s.elements ∧ build s = some (.err (.unresolved els)) ∧
    els = s.elements ∧ ∀ el ∈ els, ¬ Blocked (lastNs s.elements) s.elements el := by
  refine ⟨exCycle, _, ?_, rfl, rfl, ?_⟩
  · intro p el he _
    have hp : p < 2 := (List.getElem?_eq_some_iff.mp he).1
    have : p = 0 ∨ p = 1 := by omega
    rcases this with rfl | rfl <;> rfl
  · have hT : Settled (lastNs exCycle.elements) exCycle.elements [c!"T"] := .table (by decide)
    have hU : Settled (lastNs exCycle.elements) exCycle.elements [c!"U"] :=
      .other (el := exUnion c!"U" [c!"T"]) (sh := .union) (List.mem_cons_self) (by decide) (by
        intro r hr
        have : r = [c!"T"] := by simpa [needs, exUnion] using hr
        subst this
        exact hT)
    intro el hel
    rcases List.mem_cons.mp hel with rfl | hel
    · rintro (⟨r, hr, hn⟩ | ⟨r, hr, _⟩)
      · have : r = [c!"T"] := by simpa [needs, exUnion] using hr
        subst this
        exact hn hT
      · cases hr
    · rcases List.mem_cons.mp hel with rfl | hel
      · rintro (⟨r, hr, hn⟩ | ⟨r, hr, _⟩)
        · have : r = [c!"U"] := by simpa [needs, exTable, exRef, tyRefs] using hr
          subst this
          exact hn hU
        · cases hr
      · cases hel

/-- **C110** for schemas in one namespace and for schemas that declare before they use: the fault that the message
speaks of is there, in the declaration it names. See `Fault` for what each message is taken to say. Full statement:
for every schema. (The message about items not found is in `C110_found_partial`.) -/
theorem C110_partial {s : Ast.Schema} {e : BuildErr} (h : OneNamespace s.elements ∨ InOrder s.elements)
    (hb : build s = some (.err e)) (hu : ∀ els, e ≠ .unresolved els) : Fault s.elements (Written s.elements) e :=
  h.elim (fun h1 => (err_fault hb hu).one h1) (fun ho => in_order_fault ho hb)

/-- **C110** for every schema, when the names of each declaration are read in the namespace it is written in or in the
last one of the file. Full statement: in the namespace it is written in. -/
theorem C110_moved_partial {s : Ast.Schema} {e : BuildErr} (hb : build s = some (.err e))
    (hu : ∀ els, e ≠ .unresolved els) : Fault s.elements (NsOk s.elements) e := err_fault hb hu

/-- **C110**, the message about items not found, for schemas in one namespace some declaration of which can be resolved
at once: every element listed does name a type that is not declared or cannot be resolved. Full statement: for every
schema. -/
theorem C110_found_partial {s : Ast.Schema} {els : List Element} (h1 : OneNamespace s.elements)
    (h0 : Starts (lastNs s.elements) s.elements) (hb : build s = some (.err (.unresolved els))) :
    ∀ el ∈ els, Blocked (lastNs s.elements) s.elements el := unresolved_blocked h1 h0 hb

/-- **C110**, the message about items not found, for schemas that declare before they use: it does not occur. -/
theorem C110_found_order {s : Ast.Schema} (ho : InOrder s.elements) (els : List Element) :
    build s ≠ some (.err (.unresolved els)) := fun hb => in_order_fault ho hb

/-- **C110**, the message about items not found, for every schema: it lists at least one element, and only elements of
the schema, in their order, none more often than it is written. -/
theorem C110_listed {s : Ast.Schema} {els : List Element} (hb : build s = some (.err (.unresolved els))) :
    els ≠ [] ∧ els.Sublist s.elements := unresolved_listed hb

/-- Of the elements that the message lists, in a schema with nothing but names that are never declared. -/
example : build ⟨[], [exEnum c!"E", exTable c!"T" [exRef c!"u" [c!"Missing"]], exRpc c!"R" [c!"T"]]⟩ =
    some (.err (.unresolved [exTable c!"T" [exRef c!"u" [c!"Missing"]], exRpc c!"R" [c!"T"]])) := rfl

theorem exOne {E : List Element} (h : ∀ el ∈ E, ∀ n d, el ≠ .namespace n d) : OneNamespace E := by
  have key : ∀ (l : List Element) (ns : Option Ast.QIdent), (∀ el ∈ l, ∀ n d, el ≠ .namespace n d) →
      l.foldl nsAfter ns = ns := by
    intro l
    induction l with
    | nil => intro ns _; rfl
    | cons x l ih =>
      intro ns hl
      rw [List.foldl_cons]
      have : nsAfter ns x = ns := by
        have := hl x (by simp)
        cases x <;> first | rfl | exact absurd rfl (this _ _)
      rw [this]
      exact ih ns (fun el hel => hl el (by simp [hel]))
  intro p el _ _
  unfold lastNs
  rw [key _ _ h, key _ _ (fun el hel => h el (List.mem_of_mem_take hel))]

/-- The hypotheses of `C110_found_partial`. -/
example : OneNamespace [exEnum c!"E", exTable c!"T" [exRef c!"u" [c!"Missing"]], exRpc c!"R" [c!"T"]] ∧
    Starts none [exEnum c!"E", exTable c!"T" [exRef c!"u" [c!"Missing"]], exRpc c!"R" [c!"T"]] :=
  ⟨exOne (by simp [exEnum, exTable, exRpc]), starts_of_plain ⟨exEnum c!"E", by simp, rfl, rfl, rfl⟩⟩

/-- Each of the other messages: a name declared twice, a table in a struct, an enum over `float`, a root that is an
enum, and an unknown kind of streaming. -/
example : build ⟨[], [exTable c!"T" [], exEnum c!"T"]⟩ = some (.err (.alreadyDefined [c!"T"])) ∧
    build ⟨[], [exTable c!"T" [], exStruct c!"S" [exPlain c!"x", exRef c!"t" [c!"T"]]]⟩ =
      some (.err (.illegalMember [c!"S"])) ∧
    build ⟨[], [.enum ⟨c!"E", [], .builtin .float, none, []⟩]⟩ = some (.err (.badBase [c!"E"])) ∧
    build ⟨[], [exEnum c!"E", .root c!"E" []]⟩ = some (.err (.notTable [c!"E"])) ∧
    build ⟨[], [exTable c!"T" [], .rpc ⟨c!"R", [⟨c!"Get", [c!"T"], [c!"T"],
      some [(c!"streaming", some (.string c!"up"))], []⟩], []⟩]⟩ = some (.err (.unknownStreaming (.string c!"up"))) :=
  ⟨rfl, rfl, rfl, rfl, rfl⟩

example : OneNamespace [exTable c!"T" [], exEnum c!"T"] := exOne (by simp [exEnum, exTable])

end Butte.Ir
