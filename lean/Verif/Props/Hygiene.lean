import Verif.Props.Items
import Verif.Rs.Types
/-
Property C75: what the names in the emitted program mean.
-/
namespace Butte.Rs
open Ir (QIdent Node Ident itemsOf OneNamespace InOrder)
open Gen (Clashfree PathsLead)

set_option maxRecDepth 8000

/-- The paths by which generated code refers to what is not in the schema: the primitive types, the prelude, the runtime
crate, the standard library (codegen.rs 104-124, 359-826, 836-858, 960-1025, 1073-1090). -/
def outside : List (List Str) :=
  [[c!"bool"], [c!"i8"], [c!"u8"], [c!"i16"], [c!"u16"], [c!"i32"], [c!"u32"], [c!"i64"], [c!"u64"], [c!"f32"], [c!"f64"],
   [c!"str"], [c!"usize"], [c!"Option"], [c!"Result"], [c!"Default"], [c!"From"], [c!"std", c!"convert", c!"TryFrom"],
   [c!"butte", c!"Table"], [c!"butte", c!"Error"], [c!"butte", c!"Follow"], [c!"butte", c!"FollowBuf"], [c!"butte", c!"Push"],
   [c!"butte", c!"Vector"], [c!"butte", c!"ForwardsUOffset"], [c!"butte", c!"WIPOffset"], [c!"butte", c!"UnionWIPOffset"],
   [c!"butte", c!"TableUnfinishedWIPOffset"], [c!"butte", c!"FlatBufferBuilder"], [c!"butte", c!"VOffsetT"],
   [c!"butte", c!"read_scalar_at"], [c!"butte", c!"emplace_scalar"]]

/-- The names in the emitted program mean what they should, in every module with generated code and also where the type
parameter `B` is in scope: the paths to the outside lead outside, and the paths between items of the schema lead to the item
that the schema means. -/
structure Meant (out : List Node) (P : Program) : Prop where
  outside : ∀ x ∈ itemsOf out, ∀ sc : Scope, sc.module = x.1.map Heck.snake → sc.Ok → ∀ p ∈ outside,
    ∃ d, outer p = some d ∧ resolve P sc p = some d
  inside : ∀ x ∈ itemsOf out, ∀ sc : Scope, sc.module = x.1.map Heck.snake → sc.Ok → ∀ q ∈ Gen.paths x.2,
    (∃ y ∈ itemsOf out, ∃ ct, y.2.defines = some (q, ct)) ∧
    resolve P sc (QIdent.relative q (QIdent.namespace x.2.ident)) = some (.item (q.dropLast.map Heck.snake) (QIdent.simple q))

/-- No type and no module of the schema takes one of the names that generated code relies on. -/
def NoCapture (out : List Node) : Prop := ∀ x ∈ itemsOf out,
  (∀ q ct, x.2.defines = some (q, ct) → QIdent.simple q ∉ reserved) ∧ ∀ s ∈ x.1, Heck.snake s ∉ reserved

theorem derived_free (n : Str) : n ++ c!"Args" ∉ reserved ∧ n ++ c!"Builder" ∉ reserved := by
  have key : ∀ r ∈ reserved, (c!"Args").reverse.isPrefixOf r.reverse = false ∧
      (c!"Builder").reverse.isPrefixOf r.reverse = false := by decide
  constructor <;> intro h
  · have := (key _ h).1
    rw [List.reverse_append, ← Bool.not_eq_true, List.isPrefixOf_iff_prefix] at this
    exact this (List.prefix_append _ _)
  · have := (key _ h).2
    rw [List.reverse_append, ← Bool.not_eq_true, List.isPrefixOf_iff_prefix] at this
    exact this (List.prefix_append _ _)

/-- Hygiene can be seen from the schema. -/
theorem hygienic_of {gm : Mode} {s : Ast.Schema} {out : List Node} {P : Program} (hb : Ir.build s = some (.ok out))
    (he : emit gm out = some P) (h : NoCapture out) : Hygienic P := by
  intro i hi hs
  have hg := emitNodes_names gm [] out P he
  have hperm := Gen.emitsAll_flat [] out P.names (by simpa using hg)
  obtain ⟨-, hprop, -⟩ := Ir.C50_output hb
  have hi := hperm.subset hi
  simp only [Gen.flat, List.mem_append, List.mem_flatMap, List.mem_map] at hi
  rcases hi with ⟨x, hx, hi⟩ | ⟨p, hp, rfl⟩
  · obtain ⟨-, c⟩ := Gen.own_cases hi (Gen.item_facts hb hx).1
    obtain ⟨h1, -⟩ := h x hx
    rcases c with ⟨-, q, ct, hd, hn⟩ | ⟨-, t, rfl', hn | hn⟩ | ⟨hv, -⟩
    · rw [hn]; exact h1 q ct hd
    · rw [hn]; exact (derived_free _).1
    · rw [hn]; exact (derived_free _).2
    · rw [hv] at hs; cases hs
  · obtain ⟨x, hx, hpx⟩ := Gen.modPathsL_leaf [] out hprop p hp
    rcases List.eq_nil_or_concat' p with rfl | ⟨r, m, rfl⟩
    · decide
    · rw [Gen.modItem_concat]
      exact (h x hx).2 m (hpx.subset (by simp))

/-! ### C75 -/

/-- **C75** is false: a table called like something of the prelude or a primitive type takes its place in the code
generated for the table itself; a namespace called `butte` takes the place of the runtime for the tables outside of it. All
of these schemas are accepted, code is generated, no name is introduced twice, and the paths between items are right. -/
theorem C75_refuted : ∀ E ∈ ([
      [Ir.exTable c!"Option" [⟨c!"x", .builtin .int, none, none, []⟩]],
      [Ir.exTable c!"Result" []], [Ir.exTable c!"From" []], [Ir.exTable c!"Default" []], [Ir.exTable c!"u8" []],
      [Ir.exTable c!"T" [], Ir.exNs c!"butte", Ir.exTable c!"S" []],
      [Ir.exEnum c!"E", Ir.exNs c!"std", Ir.exTable c!"S" []]] : List (List Ast.Element)),
    ∃ out P, Ir.build ⟨[], E⟩ = some (.ok out) ∧ (∀ gm, emit gm out = some P) ∧ P.names.Nodup ∧ PathsLead out P.names ∧
      ∃ x ∈ itemsOf out, ∃ p ∈ outside, ∀ sc : Scope, sc.module = x.1.map Heck.snake → sc.Ok → resolve P sc p ≠ outer p := by
  have one : ∀ {P : Program} {m : List Str} {s : Str} {p : List Str}, (⟨m, .type, s⟩ : Gen.Item) ∈ P.names → s ≠ c!"B" →
      s ≠ c!"Self" → (∃ d, outer (s :: p) = some d ∧ ∀ a b, d ≠ .item a b) → ∀ sc : Scope, sc.module = m → sc.Ok →
      resolve P sc (s :: p) ≠ outer (s :: p) := by
    rintro P m s p hm hB hS ⟨d, hd, hne⟩ sc rfl hsc
    rw [hd]
    simp only [resolve, hS, if_false, hsc.not_mem hB, hm, or_true, if_true, ne_eq, Option.map_eq_some_iff, not_exists, not_and]
    intro i _ e
    exact hne _ _ e.symm
  intro E hE
  simp only [List.mem_cons, List.not_mem_nil, or_false] at hE
  rcases hE with rfl | rfl | rfl | rfl | rfl | rfl | rfl
  all_goals
    refine ⟨_, _, rfl, fun gm => by cases gm <;> rfl, by decide, fun x hx q hq => ?_, ?_⟩
  all_goals
    first
    | (rw [(by decide : ∀ x ∈ itemsOf _, Gen.paths x.2 = []) x hx] at hq; cases hq)
    | skip
  · exact ⟨_, List.mem_cons_self, [c!"Option"], by decide, one (by decide) (by decide) (by decide) ⟨_, rfl, by intros; simp⟩⟩
  · exact ⟨_, List.mem_cons_self, [c!"Result"], by decide, one (by decide) (by decide) (by decide) ⟨_, rfl, by intros; simp⟩⟩
  · exact ⟨_, List.mem_cons_self, [c!"From"], by decide, one (by decide) (by decide) (by decide) ⟨_, rfl, by intros; simp⟩⟩
  · exact ⟨_, List.mem_cons_self, [c!"Default"], by decide, one (by decide) (by decide) (by decide) ⟨_, rfl, by intros; simp⟩⟩
  · exact ⟨_, List.mem_cons_self, [c!"u8"], by decide, one (by decide) (by decide) (by decide) ⟨_, rfl, by intros; simp⟩⟩
  · exact ⟨_, List.mem_cons_of_mem _ List.mem_cons_self, [c!"butte", c!"Table"], by decide,
      one (by decide) (by decide) (by decide) ⟨_, rfl, by intros; simp⟩⟩
  · exact ⟨_, List.mem_cons_of_mem _ List.mem_cons_self, [c!"std", c!"convert", c!"TryFrom"], by decide,
      one (by decide) (by decide) (by decide) ⟨_, rfl, by intros; simp⟩⟩

/-- **C75** is false as well of a table called `B`, like the type parameter of the generated types: where a field of that
table's own type is read, `B` is the parameter. -/
theorem C75_parameter_refuted : ∃ (s : Ast.Schema) (out : List Node) (P : Program), Ir.build s = some (.ok out) ∧
    (∀ gm, emit gm out = some P) ∧ P.names.Nodup ∧ PathsLead out P.names ∧
    ∃ x ∈ itemsOf out, ∃ q ∈ Gen.paths x.2, ∀ sc : Scope, sc.generics = [c!"B"] →
      resolve P sc (QIdent.relative q (QIdent.namespace x.2.ident)) = some (.param c!"B") := by
  refine ⟨⟨[], [Ir.exTable c!"B" [Ir.exRef c!"next" [c!"B"]]]⟩, _, _, rfl, fun gm => by cases gm <;> rfl, by decide,
    ?_, ?_⟩
  · refine Gen.C70_one_namespace_partial (s := ⟨[], [Ir.exTable c!"B" [Ir.exRef c!"next" [c!"B"]]]⟩) ?_ rfl rfl
    intro p el he _
    have hp : p < 1 := (List.getElem?_eq_some_iff.mp he).1
    obtain rfl : p = 0 := by omega
    rfl
  · refine ⟨_, List.mem_cons_self, [c!"B"], by decide, ?_⟩
    intro sc hg
    show resolve _ sc [c!"B"] = _
    simp [resolve, hg]

/-- The names that the paths to the outside begin with. -/
theorem outside_heads {p : List Str} (hp : p ∈ outside) : ∃ s rest d, p = s :: rest ∧ s ∈ reserved ∧ s ≠ c!"B" ∧ s ≠ c!"Self" ∧
    s ≠ c!"super" ∧ outer p = some d ∧ ∀ a b, d ≠ .item a b := by
  have key : ∀ p ∈ outside, p.head?.all (fun s => decide (s ∈ reserved ∧ s ≠ c!"B" ∧ s ≠ c!"Self" ∧ s ≠ c!"super")) = true ∧
      p ≠ [] ∧ (match outer p with | none => false | some (.item ..) => false | some _ => true) = true := by decide
  obtain ⟨h1, h2, h3⟩ := key p hp
  cases p with
  | nil => exact absurd rfl h2
  | cons s rest =>
    simp only [List.head?_cons, Option.all_some, decide_eq_true_eq] at h1
    obtain ⟨a1, a2, a3, a4⟩ := h1
    cases e : outer (s :: rest) with
    | none => rw [e] at h3; cases h3
    | some d =>
      refine ⟨s, rest, d, rfl, a1, a2, a3, a4, rfl, ?_⟩
      rintro a b rfl
      rw [e] at h3
      cases h3

/-- **C75** for the paths to the outside, exactly: they mean what they should if and only if no module with generated code
declares a type or a module of one of their first names. -/
theorem C75_outside_iff_partial (out : List Node) (P : Program) :
    (∀ x ∈ itemsOf out, ∀ sc : Scope, sc.module = x.1.map Heck.snake → sc.Ok → ∀ p ∈ outside,
      ∃ d, outer p = some d ∧ resolve P sc p = some d) ↔
    ∀ x ∈ itemsOf out, ∀ p ∈ outside, ∀ s rest, p = s :: rest → (⟨x.1.map Heck.snake, .type, s⟩ : Gen.Item) ∉ P.names := by
  constructor
  · rintro h x hx p hp s rest rfl hm
    obtain ⟨s', rest', d, e, -, hB, hS, hsup, hd, hne⟩ := outside_heads hp
    cases e
    obtain ⟨d', h1, h2⟩ := h x hx ⟨x.1.map Heck.snake, [], none⟩ rfl (.inl rfl) _ hp
    rw [hd] at h1
    cases h1
    simp only [resolve, hS, if_false, List.not_mem_nil, hm, or_true, if_true, Option.map_eq_some_iff] at h2
    obtain ⟨i, -, e⟩ := h2
    exact hne _ _ e.symm
  · intro h x hx sc hm hsc p hp
    obtain ⟨s, rest, d, rfl, -, hB, hS, hsup, hd, hne⟩ := outside_heads hp
    refine ⟨d, hd, ?_⟩
    have := h x hx _ hp s rest rfl
    rw [← hm] at this
    rw [← hd]
    simp [resolve, hS, hsc.not_mem hB, hsup, this]

/-- **C75** for schemas whose types and namespaces stay clear of the names the generated code relies on: every name in the
emitted program means what it should. Full statement: without that condition (and those of C70). -/
theorem C75_partial {gm : Mode} {s : Ast.Schema} {out : List Node} {P : Program} (hb : Ir.build s = some (.ok out))
    (he : emit gm out = some P) (hl : PathsLead out P.names) (h : NoCapture out) : Meant out P := by
  have hh := hygienic_of hb he h
  constructor
  · refine (C75_outside_iff_partial out P).mpr ?_
    rintro x hx p hp s rest rfl hm
    obtain ⟨s', rest', d, e, hr, -⟩ := outside_heads hp
    cases e
    exact hh _ hm rfl hr
  · intro x hx sc hm hsc q hq
    obtain ⟨h1, h2⟩ := hl x hx q hq
    refine ⟨h1, ?_⟩
    rw [← hm] at h2
    exact resolve_lookup hh hsc h2

theorem fix_reserved {i : Str} (h : Ir.fixIdentifier i ∈ reserved) : Ir.fixIdentifier i = i := by
  revert h
  unfold Ir.fixIdentifier Ir.substituteKeyword
  split
  · rename_i hk
    intro h
    exfalso
    revert h
    simp only [Option.getD_some]
    revert hk i
    decide
  · split
    · intro h
      exact absurd (show c!"ty" ∈ reserved from h) (by decide)
    · intro _; rfl

theorem tag_free (i : Str) : Ir.fixIdentifier (i ++ c!"Type") ∉ reserved := by
  intro h
  rw [fix_reserved h] at h
  have key : ∀ r ∈ reserved, (c!"Type").reverse.isPrefixOf r.reverse = false := by decide
  have := key _ h
  rw [List.reverse_append, ← Bool.not_eq_true, List.isPrefixOf_iff_prefix] at this
  exact this (List.prefix_append _ _)

/-- In one namespace the condition can be read off the declarations. -/
theorem noCapture_of {s : Ast.Schema} {out : List Node} (h1 : OneNamespace s.elements) (hb : Ir.build s = some (.ok out))
    (hi : ∀ el ∈ s.elements, ∀ i, Gen.typeId el = some i → Ir.fixIdentifier i ∉ reserved)
    (hn : ∀ n ∈ Gen.nsOf s.elements, Heck.snake n ∉ reserved) : NoCapture out := by
  intro x hx
  have hs : ∀ (l : List Str) (i : Str), QIdent.simple (l ++ [i]) = i := fun l i => by simp [QIdent.simple]
  cases Gen.from_of h1 hb hx with
  | table d t h e =>
    refine ⟨?_, hn⟩
    intro q ct hd
    cases hd
    rw [e, hs]; exact hi _ h _ rfl
  | struct d t h e =>
    refine ⟨?_, hn⟩
    intro q ct hd
    cases hd
    rw [e, hs]; exact hi _ h _ rfl
  | enum d t h e =>
    refine ⟨?_, hn⟩
    intro q ct hd
    cases hd
    rw [e, hs]; exact hi _ h _ rfl
  | union d t h e =>
    refine ⟨?_, hn⟩
    intro q ct hd
    cases hd
    rw [e, hs]; exact hi _ h _ rfl
  | tag d t h e =>
    constructor
    · intro q ct hd
      cases hd
      rw [e, show ∀ (l : List Str) (a b : Str), l ++ [a, b] = (l ++ [a]) ++ [b] by simp, hs]
      exact tag_free _
    · intro n hm
      rcases List.mem_append.mp hm with hm | hm
      · exact hn n hm
      · simp only [List.mem_singleton] at hm
        subst hm
        decide
  | rpc r => exact ⟨nofun, hn⟩

/-- **C75** in one namespace, from the schema alone. -/
theorem C75_one_namespace_partial {gm : Mode} {s : Ast.Schema} {out : List Node} {P : Program} (h1 : OneNamespace s.elements)
    (hb : Ir.build s = some (.ok out)) (he : emit gm out = some P)
    (hi : ∀ el ∈ s.elements, ∀ i, Gen.typeId el = some i → Ir.fixIdentifier i ∉ reserved)
    (hn : ∀ n ∈ Gen.nsOf s.elements, Heck.snake n ∉ reserved) : Meant out P := by
  have hg := emitNodes_names gm [] out P he
  refine C75_partial hb he (Gen.C70_one_namespace_partial h1 hb hg) (noCapture_of h1 hb hi hn)

/-- `namespace GameAssets; enum E: ubyte { X } union U { Mesh } table Mesh { u: U; next: Mesh; all: [Mesh]; }` -/
example : ∃ out P, Ir.build Gen.exPaths = some (.ok out) ∧ (∀ gm, emit gm out = some P) ∧ Meant out P ∧
    ∃ x ∈ itemsOf out, [c!"GameAssets", c!"butte_gen", c!"UType"] ∈ Gen.paths x.2 := by
  refine ⟨_, _, rfl, fun gm => by cases gm <;> rfl, ?_, ?_⟩
  · exact C75_one_namespace_partial (gm := .debug) Gen.exPaths_one rfl rfl (by decide) (by decide)
  · exact ⟨_, List.mem_cons_of_mem _ (List.mem_cons_of_mem _ List.mem_cons_self), by decide⟩

end Butte.Rs
