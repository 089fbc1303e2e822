import Verif.Props.Analysis
import Verif.Props.Names
/-
Property C42 for whole schemas: the words that the analysis hands to the generator.
-/
namespace Butte.Ir
open Ast (Element)

/-- The words that an item brings into the output: the parts of its name, the names of its fields, variants and methods. -/
def Node.words : Node → List Str
  | .table t => t.ident ++ t.fields.map (·.ident)
  | .struct s => s.ident ++ s.fields.map (·.ident)
  | .enum e => e.ident ++ e.variants.map (·.ident)
  | .union u => u.ident ++ u.enumIdent ++ u.variants.map (·.ident)
  | .rpc r => r.ident ++ r.methods.map (·.ident) ++ r.methods.map (·.snakeIdent) ++
      (r.methods.map (·.requestType)).flatten ++ (r.methods.map (·.responseType)).flatten
  | .namespace q _ => q

/-- What came out of the substitution, or is fixed. -/
def Escaped (w : Str) : Prop := (∃ s, w = fixIdentifier s) ∨ w = c!"butte_gen" ∨ w = c!"None"

theorem escaped_nameIn {ns : Option Ast.QIdent} {i : Ast.Ident} {w : Str} (h : w ∈ nameIn ns i) : Escaped w := by
  simp only [nameIn, List.mem_append, List.mem_map, List.mem_singleton] at h
  rcases h with ⟨s, _, rfl⟩ | rfl
  · exact .inl ⟨_, rfl⟩
  · exact .inl ⟨_, rfl⟩

theorem escaped_tagEnumIn {ns : Option Ast.QIdent} {i : Ast.Ident} {w : Str} (h : w ∈ tagEnumIn ns i) : Escaped w := by
  simp only [tagEnumIn, List.mem_append, List.mem_map, List.mem_cons, List.not_mem_nil, or_false] at h
  rcases h with ⟨s, _, rfl⟩ | rfl | rfl
  · exact .inl ⟨_, rfl⟩
  · exact .inr (.inl rfl)
  · exact .inl ⟨_, rfl⟩

theorem escaped_refIn {ns : Option Ast.QIdent} {q : Ast.QIdent} {w : Str} (h : w ∈ refIn ns q) : Escaped w := by
  unfold refIn at h
  split at h
  · simp only [List.mem_append, List.mem_map] at h
    rcases h with ⟨s, _, rfl⟩ | ⟨s, _, rfl⟩ <;> exact .inl ⟨_, rfl⟩
  · obtain ⟨s, _, rfl⟩ := List.mem_map.mp h
    exact .inl ⟨_, rfl⟩

theorem escaped_fields {N : Names} {ns : Option Ast.QIdent} {fs : List Ast.Field} {gs : List Field} (h : FieldsMean N ns fs gs) :
    ∀ g ∈ gs, Escaped g.ident := by
  induction h with
  | nil => nofun
  | plain _ _ _ _ ih =>
    intro g hg
    rcases List.mem_cons.mp hg with rfl | hg
    · exact .inl ⟨_, rfl⟩
    · exact ih g hg
  | union _ _ _ _ ih =>
    intro g hg
    rcases List.mem_cons.mp hg with rfl | hg
    · exact .inl ⟨_, rfl⟩
    · rcases List.mem_cons.mp hg with rfl | hg
      · exact .inl ⟨_, rfl⟩
      · exact ih g hg

theorem emits_escaped {N : Names} {ns : Option Ast.QIdent} {el : Element} {l : List Node} (h : Emits N ns el l) :
    ∀ n ∈ l, ∀ w ∈ n.words, Escaped w := by
  cases h with
  | table t fields root h =>
    intro n hn w hw
    obtain rfl := List.mem_singleton.mp hn
    rcases List.mem_append.mp hw with hw | hw
    · exact escaped_nameIn hw
    · obtain ⟨g, hg, rfl⟩ := List.mem_map.mp hw
      exact escaped_fields h g hg
  | struct s fields h =>
    intro n hn w hw
    obtain rfl := List.mem_singleton.mp hn
    rcases List.mem_append.mp hw with hw | hw
    · exact escaped_nameIn hw
    · obtain ⟨g, hg, rfl⟩ := List.mem_map.mp hw
      obtain ⟨f, _, ty, _, _, rfl⟩ := all₂_right h hg
      exact .inl ⟨_, rfl⟩
  | enum e base h =>
    intro n hn w hw
    obtain rfl := List.mem_singleton.mp hn
    rcases List.mem_append.mp hw with hw | hw
    · exact escaped_nameIn hw
    · simp only [List.map_map, List.mem_map, Function.comp] at hw
      obtain ⟨v, _, rfl⟩ := hw
      exact .inl ⟨_, rfl⟩
  | union u vs h =>
    intro n hn w hw
    rcases List.mem_cons.mp hn with rfl | hn
    · rcases List.mem_append.mp hw with hw | hw
      · exact escaped_tagEnumIn hw
      · simp only [List.map_cons, List.map_map, List.mem_cons, List.mem_map, Function.comp] at hw
        rcases hw with rfl | ⟨v, _, rfl⟩
        · exact .inr (.inr rfl)
        · exact .inl ⟨_, rfl⟩
    · obtain rfl := List.mem_singleton.mp hn
      simp only [Node.words, List.mem_append, List.mem_map] at hw
      rcases hw with (hw | hw) | ⟨g, hg, rfl⟩
      · exact escaped_nameIn hw
      · exact escaped_tagEnumIn hw
      · obtain ⟨f, _, ty, _, rfl⟩ := all₂_right h hg
        exact .inl ⟨_, rfl⟩
  | rpc r ms h =>
    intro n hn w hw
    obtain rfl := List.mem_singleton.mp hn
    simp only [Node.words, List.mem_append, List.mem_map, List.mem_flatten] at hw
    rcases hw with (((hw | ⟨g, hg, rfl⟩) | ⟨g, hg, rfl⟩) | ⟨q, ⟨g, hg, rfl⟩, hw⟩) | ⟨q, ⟨g, hg, rfl⟩, hw⟩
    · exact escaped_nameIn hw
    all_goals obtain ⟨m, _, _, _, s, _, rfl⟩ := all₂_right h hg
    · exact .inl ⟨_, rfl⟩
    · exact .inl ⟨_, rfl⟩
    · exact escaped_refIn hw
    · exact escaped_refIn hw

/-- **C42** for whole schemas: of the words that the items of an accepted schema bring into the output (names of items with
their namespaces, fields, variants, methods) none is reserved, except `try`. (The generator makes more names out of these, see
`C42_accessors_refuted`.) -/
theorem C42_schema_partial {s : Ast.Schema} {out : List Node} (hb : build s = some (.ok out)) :
    ∀ x ∈ itemsOf out, ∀ w ∈ x.2.words, w ∈ Gen.rustKeywords → w = c!"try" := by
  intro x hx w hw hk
  obtain ⟨groups, g1, g2, _⟩ := C46_any_partial hb
  obtain ⟨g, hg, hn⟩ := List.mem_flatten.mp (holds_path g1 hx).1
  obtain ⟨p, _, el, ns, _, _, he⟩ := all₂_right g2 hg
  rcases emits_escaped he _ hn w hw with ⟨s, rfl⟩ | rfl | rfl
  · obtain rfl := (C42_only_try_partial s).mp hk
    decide
  · revert hk; decide
  · revert hk; decide

/-- `namespace mod; table while { fn: int; }` is accepted, and keywords are replaced. -/
example : ∃ out n, build ⟨[], [.namespace [c!"mod"] [], .table ⟨c!"while", [⟨c!"fn", .builtin .int, none, none, []⟩], none, []⟩]⟩ =
      some (.ok out) ∧ ([c!"mod_"], n) ∈ itemsOf out ∧ n.words = [c!"mod_", c!"while_", c!"fn_"] := ⟨_, _, rfl, .head _, rfl⟩

/-- `table try { x: int; }` keeps its name. -/
example : ∃ out n, build ⟨[], [.table ⟨c!"try", [⟨c!"x", .builtin .int, none, none, []⟩], none, []⟩]⟩ = some (.ok out) ∧
    ([], n) ∈ itemsOf out ∧ c!"try" ∈ n.words := ⟨_, _, rfl, .head _, .head _⟩

end Butte.Ir
