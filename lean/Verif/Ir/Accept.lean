import Verif.Ir.Outcome
import Mathlib.Data.List.Nodup
import Mathlib.Data.List.Perm.Subperm
/-
Which schemas are accepted, when all declarations are in one namespace.
-/
namespace Butte.Ir
open Ast (Element)

/-! ### Well-formed schemas -/

/-- Everything is written in one namespace: the one in force at each element (other than namespace declarations) is
the last one of the file. -/
def OneNamespace (E : List Element) : Prop :=
  ∀ p el, E[p]? = some el → (∀ n d, el ≠ .namespace n d) → lastNs (E.take p) = lastNs E

/-- Kinds of types. -/
inductive Shape where
  | table | struct | enum | union
deriving DecidableEq

/-- The kind of a type. -/
def CustomType.shape : CustomType → Shape
  | .table => .table
  | .struct _ => .struct
  | .enum .. => .enum
  | .union .. => .union

/-- The types that an element declares. A union also brings in the enum of its tags. -/
def declared (ns : Option Ast.QIdent) : Element → List (QIdent × Shape)
  | .table t => [(nameIn ns t.id, .table)]
  | .struct s => [(nameIn ns s.id, .struct)]
  | .enum e => [(nameIn ns e.id, .enum)]
  | .union u => [(tagEnumIn ns u.id, .enum), (nameIn ns u.id, .union)]
  | _ => []

/-- The user types named in a type. -/
def tyRefs : Ast.Ty → List Ast.QIdent
  | .builtin _ | .string => []
  | .array t => tyRefs t
  | .ident q => [q]

/-- The user types named in a declaration of a table, struct or union. -/
def needs : Element → List Ast.QIdent
  | .table t | .struct t => t.fields.flatMap fun f => tyRefs f.ty
  | .union u => u.variants.map fun v => [v.id]
  | _ => []

/-- The tables named in a root declaration or rpc service. -/
def tableRefs : Element → List Ast.QIdent
  | .root t _ => [[t]]
  | .rpc r => r.methods.flatMap fun m => [m.requestType, m.responseType]
  | _ => []

/-- The kinds of elements that the analysis knows. -/
def supported : Element → Bool
  | .fileExtension .. | .fileIdentifier .. | .attribute _ | .object .. => false
  | _ => true

/-- A type that may be the type of a struct field. -/
def FixedSize (ns : Option Ast.QIdent) (decls : List (QIdent × Shape)) : Ast.Ty → Prop
  | .builtin _ => True
  | .string | .array _ => False
  | .ident q => (refIn ns q, .struct) ∈ decls ∨ (refIn ns q, .enum) ∈ decls

/-- Integer types. -/
def IntegerType : Ast.Ty → Prop
  | .builtin b => b ≠ .bool ∧ b ≠ .float ∧ b ≠ .double ∧ b ≠ .float32 ∧ b ≠ .float64
  | _ => False

/-- The declarations are well formed, apart from being in an order that can be resolved. -/
structure WellFormed (ns : Option Ast.QIdent) (E : List Element) : Prop where
  /-- no name is declared twice -/
  distinct : ((E.flatMap (declared ns)).map (·.1)).Nodup
  known : ∀ el ∈ E, supported el = true
  /-- struct members have a fixed size -/
  members : ∀ s, .struct s ∈ E → ∀ f ∈ s.fields, FixedSize ns (E.flatMap (declared ns)) f.ty
  /-- enums are over integers -/
  bases : ∀ e, .enum e ∈ E → IntegerType e.baseType
  /-- roots, requests and responses are tables -/
  tables : ∀ el ∈ E, ∀ r ∈ tableRefs el, (refIn ns r, .table) ∈ E.flatMap (declared ns)
  /-- the `streaming` attribute has a known value -/
  streaming : ∀ r, .rpc r ∈ E → ∀ m ∈ r.methods, ∃ s, AsksStreaming m.metadata s

/-- A name can be resolved: it is the name of a table, or it is declared by a declaration that only names types
that can be resolved. (So structs and unions must not contain themselves.) -/
inductive Settled (ns : Option Ast.QIdent) (E : List Element) : QIdent → Prop
  | table {q : QIdent} (h : (q, .table) ∈ E.flatMap (declared ns)) : Settled ns E q
  | other {q : QIdent} {sh : Shape} {el : Element} (hel : el ∈ E) (hd : (q, sh) ∈ declared ns el)
      (h : ∀ r ∈ needs el, Settled ns E (refIn ns r)) : Settled ns E q

/-! ### Single steps -/

theorem tryType_none {c : Ctx} {t : Ast.Ty} (h : c.tryType t = none) : ∃ r ∈ tyRefs t, c.types (refIn c.ns r) = none := by
  induction t with
  | builtin b => simp [Ctx.tryType] at h
  | string => simp [Ctx.tryType] at h
  | array t ih =>
    simp only [Ctx.tryType, Option.map_eq_none_iff] at h
    exact ih h
  | ident q =>
    simp only [Ctx.tryType, Ctx.find, qualifyRef_eq] at h
    refine ⟨q, by simp [tyRefs], ?_⟩
    split at h
    · cases h
    · cases h
    · rename_i e1; exact e1

theorem tryType_some {c : Ctx} {t : Ast.Ty} {ty : Ty} (h : c.tryType t = some ty) :
    ∀ r ∈ tyRefs t, c.types (refIn c.ns r) ≠ none := by
  induction t generalizing ty with
  | builtin b => simp [tyRefs]
  | string => simp [tyRefs]
  | array t ih =>
    simp only [Ctx.tryType, Option.map_eq_some_iff] at h
    obtain ⟨a, h, _⟩ := h
    exact ih h
  | ident q =>
    simp only [Ctx.tryType, Ctx.find, qualifyRef_eq] at h
    intro r hr
    simp only [tyRefs, List.mem_singleton] at hr
    subst hr
    intro e
    rw [e] at h
    cases h

theorem tableFields_none {c : Ctx} {fs : List Ast.Field} (h : c.tableFields fs = .ok none) :
    ∃ f ∈ fs, c.tryType f.ty = none := by
  induction fs with
  | nil => simp [Ctx.tableFields] at h
  | cons f fs ih =>
    simp only [Ctx.tableFields] at h
    cases ht : c.tryType f.ty with
    | none => exact ⟨f, by simp, ht⟩
    | some ty =>
      rw [ht] at h
      simp only at h
      obtain ⟨pre, h1, h⟩ := BRes.bind_eq_ok.mp h
      obtain ⟨rest, h2, h⟩ := BRes.bind_eq_ok.mp h
      cases rest with
      | some r => cases h
      | none =>
        obtain ⟨g, hg, e⟩ := ih h2
        exact ⟨g, by simp [hg], e⟩

theorem tableFields_some {c : Ctx} {fs : List Ast.Field} {gs : List Field} (h : c.tableFields fs = .ok (some gs)) :
    ∀ f ∈ fs, ∃ ty, c.tryType f.ty = some ty := by
  induction fs generalizing gs with
  | nil => simp
  | cons f fs ih =>
    simp only [Ctx.tableFields] at h
    cases ht : c.tryType f.ty with
    | none => rw [ht] at h; cases h
    | some ty =>
      rw [ht] at h
      simp only at h
      obtain ⟨pre, h1, h⟩ := BRes.bind_eq_ok.mp h
      obtain ⟨rest, h2, h⟩ := BRes.bind_eq_ok.mp h
      cases rest with
      | none => cases h
      | some r =>
        intro g hg
        rcases List.mem_cons.mp hg with rfl | hg
        · exact ⟨ty, ht⟩
        · exact ih h2 g hg

theorem structFields_none {c : Ctx} {i : QIdent} {fs : List Ast.Field} (h : c.structFields i fs = .ok none) :
    ∃ f ∈ fs, c.tryType f.ty = none := by
  induction fs with
  | nil => simp [Ctx.structFields] at h
  | cons f fs ih =>
    simp only [Ctx.structFields] at h
    cases ht : c.tryType f.ty with
    | none => exact ⟨f, by simp, ht⟩
    | some ty =>
      rw [ht] at h
      simp only at h
      split at h
      · obtain ⟨rest, h2, h⟩ := BRes.bind_eq_ok.mp h
        cases rest with
        | some r => cases h
        | none =>
          obtain ⟨g, hg, e⟩ := ih h2
          exact ⟨g, by simp [hg], e⟩
      · cases h

theorem structFields_some {c : Ctx} {i : QIdent} {fs : List Ast.Field} {gs : List Field}
    (h : c.structFields i fs = .ok (some gs)) : ∀ f ∈ fs, ∃ ty, c.tryType f.ty = some ty := by
  induction fs generalizing gs with
  | nil => simp
  | cons f fs ih =>
    simp only [Ctx.structFields] at h
    cases ht : c.tryType f.ty with
    | none => rw [ht] at h; cases h
    | some ty =>
      rw [ht] at h
      simp only at h
      split at h
      · obtain ⟨rest, h2, h⟩ := BRes.bind_eq_ok.mp h
        cases rest with
        | none => cases h
        | some r =>
          intro g hg
          rcases List.mem_cons.mp hg with rfl | hg
          · exact ⟨ty, ht⟩
          · exact ih h2 g hg
      · cases h

theorem structFields_err {c : Ctx} {i : QIdent} {fs : List Ast.Field} {e : BuildErr}
    (h : c.structFields i fs = .err e) : ∃ f ∈ fs, ∃ ty, c.tryType f.ty = some ty ∧ ty.isScalar = false := by
  induction fs generalizing e with
  | nil => simp [Ctx.structFields] at h
  | cons f fs ih =>
    simp only [Ctx.structFields] at h
    cases ht : c.tryType f.ty with
    | none => rw [ht] at h; cases h
    | some ty =>
      rw [ht] at h
      simp only at h
      split at h
      · cases h2 : c.structFields i fs with
        | ok r => rw [h2] at h; cases h
        | panic => rw [h2] at h; cases h
        | err e' =>
          obtain ⟨g, hg, e⟩ := ih h2
          exact ⟨g, by simp [hg], e⟩
      · rename_i hs
        exact ⟨f, by simp, ty, ht, by simpa using hs⟩

theorem unionVariants_none {c : Ctx} {vs : List Ast.EnumVariant} (h : c.unionVariants vs = none) :
    ∃ v ∈ vs, c.tryType (.ident [v.id]) = none := by
  induction vs with
  | nil => simp [Ctx.unionVariants] at h
  | cons v vs ih =>
    simp only [Ctx.unionVariants] at h
    cases ht : c.tryType (.ident [v.id]) with
    | none => exact ⟨v, by simp, ht⟩
    | some ty =>
      rw [ht] at h
      simp only [Option.map_eq_none_iff] at h
      obtain ⟨g, hg, e⟩ := ih h
      exact ⟨g, by simp [hg], e⟩

theorem unionVariants_some {c : Ctx} {vs : List Ast.EnumVariant} {ws : List UnionVariant}
    (h : c.unionVariants vs = some ws) : ∀ v ∈ vs, ∃ ty, c.tryType (.ident [v.id]) = some ty := by
  induction vs generalizing ws with
  | nil => simp
  | cons v vs ih =>
    simp only [Ctx.unionVariants] at h
    cases ht : c.tryType (.ident [v.id]) with
    | none => rw [ht] at h; cases h
    | some ty =>
      rw [ht] at h
      simp only [Option.map_eq_some_iff] at h
      obtain ⟨r, h2, _⟩ := h
      intro g hg
      rcases List.mem_cons.mp hg with rfl | hg
      · exact ⟨ty, ht⟩
      · exact ih h2 g hg

theorem rpcMethods_none {c c' : Ctx} {ms : List Ast.RpcMethod} (h : c.rpcMethods ms = .ok (none, c')) :
    ∃ m ∈ ms, ∃ r ∈ [m.requestType, m.responseType], ∀ ct, c.types (refIn c.ns r) ≠ some (.defined ct) := by
  induction ms generalizing c with
  | nil => simp [Ctx.rpcMethods] at h
  | cons m ms ih =>
    simp only [Ctx.rpcMethods, qualifyRef_eq] at h
    obtain ⟨⟨b1, c1⟩, h1, h⟩ := BRes.bind_eq_ok.mp h
    rcases newRootIdent_ok h1 with ⟨rfl, t1, rfl⟩ | ⟨rfl, t1, rfl⟩
    · simp only [Bool.true_eq_false, if_false] at h
      obtain ⟨⟨b2, c2⟩, h2, h⟩ := BRes.bind_eq_ok.mp h
      rcases newRootIdent_ok h2 with ⟨rfl, t2, rfl⟩ | ⟨rfl, t2, rfl⟩
      · simp only [Bool.true_eq_false, if_false] at h
        obtain ⟨s, hs, h⟩ := BRes.bind_eq_ok.mp h
        obtain ⟨⟨rest, c3⟩, h3, h⟩ := BRes.bind_eq_ok.mp h
        cases rest with
        | some r => cases h
        | none =>
          cases h
          obtain ⟨m', hm', r, hr, e⟩ := ih h3
          exact ⟨m', by simp [hm'], r, hr, e⟩
      · exact ⟨m, by simp, _, by simp, t2⟩
    · exact ⟨m, by simp, _, by simp, t1⟩

theorem newRootIdent_err {c : Ctx} {q : QIdent} {e : BuildErr} (h : c.newRootIdent q = .err e) :
    ∃ ct, c.types q = some (.defined ct) ∧ ct.shape ≠ .table := by
  unfold Ctx.newRootIdent at h
  split at h
  · cases h
  · rename_i ct hne et
    refine ⟨ct, et, ?_⟩
    cases ct with
    | table => exact absurd et (by simpa using hne)
    | _ => simp [CustomType.shape]
  · cases h

theorem bind_eq_err {α β : Type} {x : BRes α} {f : α → BRes β} {e : BuildErr} :
    x >>= f = .err e ↔ x = .err e ∨ ∃ a, x = .ok a ∧ f a = .err e := by
  cases x <;> simp

theorem rpcMethods_err {c : Ctx} {ms : List Ast.RpcMethod} {e : BuildErr} (h : c.rpcMethods ms = .err e) :
    ∃ m ∈ ms, (∃ r ∈ [m.requestType, m.responseType], ∃ ct, c.types (refIn c.ns r) = some (.defined ct) ∧
      ct.shape ≠ .table) ∨ ∃ e, streamingOf m.metadata = .err e := by
  induction ms generalizing c with
  | nil => simp [Ctx.rpcMethods] at h
  | cons m ms ih =>
    simp only [Ctx.rpcMethods, qualifyRef_eq] at h
    rcases bind_eq_err.mp h with h | ⟨⟨b1, c1⟩, h1, h⟩
    · exact ⟨m, by simp, .inl ⟨m.requestType, by simp, newRootIdent_err h⟩⟩
    rcases newRootIdent_ok h1 with ⟨rfl, t1, rfl⟩ | ⟨rfl, t1, rfl⟩
    · simp only [Bool.true_eq_false, if_false] at h
      rcases bind_eq_err.mp h with h | ⟨⟨b2, c2⟩, h2, h⟩
      · obtain ⟨ct, h, h'⟩ := newRootIdent_err h
        exact ⟨m, by simp, .inl ⟨m.responseType, by simp, ct, h, h'⟩⟩
      rcases newRootIdent_ok h2 with ⟨rfl, t2, rfl⟩ | ⟨rfl, t2, rfl⟩
      · simp only [Bool.true_eq_false, if_false] at h
        rcases bind_eq_err.mp h with h | ⟨s, hs, h⟩
        · exact ⟨m, by simp, .inr ⟨_, h⟩⟩
        rcases bind_eq_err.mp h with h | ⟨⟨rest, c3⟩, h3, h⟩
        · obtain ⟨m', hm', hh⟩ := ih h
          exact ⟨m', by simp [hm'], hh⟩
        · cases h
      · cases h
    · cases h

theorem streaming_ok_of_asks {m : Option Ast.Metadata} {s : Streaming} (h : AsksStreaming m s) :
    streamingOf m = .ok s := by
  cases m with
  | none =>
    cases s with
    | none => rfl
    | _ => obtain ⟨md, e, _⟩ := h; cases e
  | some md =>
    unfold streamingOf
    cases s with
    | none => simp only [h md rfl]
    | client => obtain ⟨_, e, h⟩ := h; cases e; simp only [h]; rfl
    | server => obtain ⟨_, e, h⟩ := h; cases e; simp only [h]; rfl
    | bidi => obtain ⟨_, e, h⟩ := h; cases e; simp only [h]; rfl

/-- Why an element stays pending. -/
theorem stepped_wait' {c c' : Ctx} {p : Nat} {el : Element} (h : Stepped c p el false c') :
    (∃ r ∈ needs el, c.types (refIn c.ns r) = none ∧ ∀ t, el = .table t → refIn c.ns r ≠ qualify c.ns (mkIdent t.id)) ∨
    (∃ r ∈ tableRefs el, ∀ ct, c.types (refIn c.ns r) ≠ some (.defined ct)) := by
  cases h with
  | tableWait t hd hf =>
    obtain ⟨f, hf, e⟩ := tableFields_none hf
    obtain ⟨r, hr, e⟩ := tryType_none e
    rw [setType_types] at e
    split at e
    · cases e
    · rename_i hne
      refine .inl ⟨r, List.mem_flatMap.mpr ⟨f, hf, hr⟩, e, ?_⟩
      rintro _ ⟨⟩
      exact hne
  | structWait t hd hf =>
    obtain ⟨f, hf, e⟩ := structFields_none hf
    obtain ⟨r, hr, e⟩ := tryType_none e
    exact .inl ⟨r, List.mem_flatMap.mpr ⟨f, hf, hr⟩, e, by simp⟩
  | unionWait u hd hv =>
    obtain ⟨v, hv, e⟩ := unionVariants_none hv
    obtain ⟨r, hr, e⟩ := tryType_none e
    simp only [tyRefs, List.mem_singleton] at hr
    subst hr
    exact .inl ⟨_, List.mem_map.mpr ⟨v, hv, rfl⟩, e, by simp⟩
  | rootWait t d ht => exact .inr ⟨[t], by simp [tableRefs], ht⟩
  | rpcWait r c' hm =>
    obtain ⟨m, hm, r, hr, e⟩ := rpcMethods_none hm
    exact .inr ⟨r, List.mem_flatMap.mpr ⟨m, hm, hr⟩, e⟩

theorem stepped_wait {c c' : Ctx} {p : Nat} {el : Element} (h : Stepped c p el false c') :
    (∃ r ∈ needs el, c.types (refIn c.ns r) = none) ∨
    (∃ r ∈ tableRefs el, ∀ ct, c.types (refIn c.ns r) ≠ some (.defined ct)) := by
  rcases stepped_wait' h with ⟨r, h1, h2, _⟩ | h
  · exact .inl ⟨r, h1, h2⟩
  · exact .inr h

/-- The types named in a finished declaration are known; a table may name itself. -/
theorem stepped_done {c c' : Ctx} {p : Nat} {el : Element} (h : Stepped c p el true c') :
    ∀ r ∈ needs el, c.types (refIn c.ns r) ≠ none ∨ (refIn c.ns r, .table) ∈ declared c.ns el := by
  cases h with
  | tableDone t fields hd hf =>
    intro r hr
    obtain ⟨f, hff, hr⟩ := List.mem_flatMap.mp hr
    obtain ⟨ty, ht⟩ := tableFields_some hf f hff
    have := tryType_some ht r hr
    rw [setType_types] at this
    split at this
    · rename_i e
      right
      simp only [declared, List.mem_singleton, Prod.mk.injEq, and_true]
      exact e
    · exact .inl this
  | structDone t fields hd hf =>
    intro r hr
    obtain ⟨f, hff, hr⟩ := List.mem_flatMap.mp hr
    obtain ⟨ty, ht⟩ := structFields_some hf f hff
    exact .inl (tryType_some ht r hr)
  | unionDone u vs hd hv hg =>
    intro r hr
    obtain ⟨v, hvv, rfl⟩ := List.mem_map.mp hr
    obtain ⟨ty, ht⟩ := unionVariants_some hv v hvv
    exact .inl (tryType_some ht [v.id] (by simp [tyRefs]))
  | _ => intro r hr; cases hr

/-- Known types stay known, defined types keep their definition. -/
def Grows (c c' : Ctx) : Prop :=
  (∀ q, c.types q ≠ none → c'.types q ≠ none) ∧ ∀ q ct, c.types q = some (.defined ct) → c'.types q = some (.defined ct)

theorem Grows.refl (c : Ctx) : Grows c c := ⟨fun _ h => h, fun _ _ h => h⟩

theorem Grows.trans {a b c : Ctx} (h1 : Grows a b) (h2 : Grows b c) : Grows a c :=
  ⟨fun q h => h2.1 q (h1.1 q h), fun q ct h => h2.2 q ct (h1.2 q ct h)⟩

theorem Grows.of_types {c c' : Ctx} (h : c'.types = c.types) : Grows c c' := by
  constructor <;> (rw [h]; intros; assumption)

theorem grows_setType {c : Ctx} {q : QIdent} (s : Status) (h : c.isDefined q = false) : Grows c (c.setType q s) := by
  constructor
  · intro q' h'
    rw [setType_types]
    split
    · simp
    · exact h'
  · intro q' ct h'
    rw [setType_types]
    split
    · rename_i e; subst e; exact absurd h' (isDefined_false.mp h ct)
    · exact h'

theorem isDefined_setType {c : Ctx} {q q' : QIdent} (s : Status) (h : q' ≠ q) :
    (c.setType q s).isDefined q' = c.isDefined q' := by
  unfold Ctx.isDefined
  rw [setType_types, if_neg h]

theorem stepped_grows {c c' : Ctx} {p : Nat} {el : Element} {b : Bool} (h : Stepped c p el b c') : Grows c c' := by
  cases h with
  | tableDone t fields hd hf =>
    refine (grows_setType .tableDeclared hd).trans ?_
    refine Grows.trans (grows_setType (q := qualify c.ns (mkIdent t.id)) (.defined .table) ?_) (.of_types rfl)
    unfold Ctx.isDefined
    rw [setType_types, if_pos rfl]
  | tableWait t hd hf => exact grows_setType _ hd
  | structDone s fields hd hf => exact (grows_setType _ hd).trans (.of_types rfl)
  | enum e base hd hb => exact (grows_setType _ hd).trans (.of_types rfl)
  | unionDone u vs hd hv hg =>
    refine (grows_setType (.defined (.enum (unionEnumVariants u.variants) .ubyte)) hg).trans ?_
    refine Grows.trans (grows_setType _ ?_) (.of_types rfl)
    rw [isDefined_setType _ (qualify_ne_unionEnum _ _ _)]
    exact hd
  | rpcDone r ms c1 hm => exact .of_types (by simpa [Ctx.addNodes] using (rpcMethods_frame hm).2.1)
  | rpcWait r c' hm => exact .of_types (rpcMethods_frame hm).2.1
  | _ => exact .of_types rfl

/-- Every element left over by a pass was looked at in a state that grew out of the first. -/
theorem pass_left {c c' : Ctx} {input uns : List Indexed} (h : c.pass input = .ok (uns, c')) :
    Grows c c' ∧ ∀ x ∈ uns, ∃ c0 c1, Stepped c0 x.1 x.2 false c1 ∧ Grows c c0 ∧
      ((∀ y ∈ input, ∀ n d, y.2 ≠ .namespace n d) → c0.ns = c.ns) := by
  induction input generalizing c uns with
  | nil => simp only [Ctx.pass] at h; cases h; exact ⟨.refl _, by simp⟩
  | cons x rest ih =>
    obtain ⟨p, el⟩ := x
    simp only [Ctx.pass] at h
    obtain ⟨⟨b, c1⟩, h1, h⟩ := BRes.bind_eq_ok.mp h
    obtain ⟨⟨u, c2⟩, h2, h⟩ := BRes.bind_eq_ok.mp h
    have hs := newElement_ok h1
    simp only [BRes.pure_eq, BRes.ok.injEq, Prod.mk.injEq] at h
    obtain ⟨rfl, rfl⟩ := h
    obtain ⟨g, hu⟩ := ih h2
    refine ⟨(stepped_grows hs).trans g, ?_⟩
    have hrest : ∀ x ∈ u, ∃ c0 c1, Stepped c0 x.1 x.2 false c1 ∧ Grows c c0 ∧
      ((∀ y ∈ (p, el) :: rest, ∀ n d, y.2 ≠ .namespace n d) → c0.ns = c.ns) := by
      intro x hx
      obtain ⟨a, b', k1, k2, k3⟩ := hu x hx
      refine ⟨a, b', k1, (stepped_grows hs).trans k2, fun hn => ?_⟩
      rw [k3 (fun y hy => hn y (by simp [hy])), stepped_ns hs]
      have := hn (p, el) (by simp)
      cases el <;> first | rfl | exact absurd rfl (this _ _)
    cases b with
    | true => exact hrest
    | false =>
      intro x hx
      simp only [Bool.false_eq_true, if_false, List.mem_cons] at hx
      rcases hx with rfl | hx
      · exact ⟨c, c1, hs, .refl _, fun _ => rfl⟩
      · exact hrest x hx

/-! ### States of the analysis, in one namespace -/

theorem emits_defines {N : Names} {ns : Option Ast.QIdent} {el : Element} {g : List Node} (h : Emits N ns el g) :
    (g.filterMap Node.defines).map (fun x => (x.1, x.2.shape)) = declared ns el := by
  cases h <;> rfl

theorem oneNs {E : List Element} (h1 : OneNamespace E) {p : Nat} {el : Element} {ns : Option Ast.QIdent}
    (he : E[p]? = some el) (hne : ∀ n d, el ≠ .namespace n d) (h : NsOk E p ns) : ns = lastNs E := by
  rcases h with h | h
  · rw [h, h1 p el he hne]
  · exact h

theorem declares_not_ns {el : Element} (h : declares el = true) : ∀ n d, el ≠ .namespace n d := by
  rintro n d rfl; cases h

theorem mem_decls {ns : Option Ast.QIdent} {E : List Element} {p : Nat} {el : Element} (he : E[p]? = some el)
    {x : QIdent × Shape} (hx : x ∈ declared ns el) : x ∈ E.flatMap (declared ns) :=
  List.mem_flatMap.mpr ⟨el, List.mem_of_getElem? he, hx⟩

theorem defined_declared {E : List Element} (h1 : OneNamespace E) {c : Ctx} {pend : Nat → Prop} (inv : Inv E (NsOk E) c pend)
    {q : QIdent} {ct : CustomType} (h : c.types q = some (.defined ct)) :
    ∃ p el, E[p]? = some el ∧ ¬ pend p ∧ (q, ct.shape) ∈ declared (lastNs E) el := by
  obtain ⟨n, hn, hd⟩ := (inv.defd q ct).mp h
  obtain ⟨x, hx, hn⟩ := List.mem_flatMap.mp hn
  obtain ⟨el, ns, he, hns, hem⟩ := inv.emits x hx
  have := oneNs h1 he (declares_not_ns (emits_declares hem)) hns
  subst this
  refine ⟨x.1, el, he, inv.past x hx, ?_⟩
  rw [← emits_defines hem]
  exact List.mem_map.mpr ⟨(q, ct), List.mem_filterMap.mpr ⟨n, hn, hd⟩, rfl⟩

theorem declared_defined {E : List Element} (h1 : OneNamespace E) {c : Ctx} {pend : Nat → Prop} (inv : Inv E (NsOk E) c pend)
    {p : Nat} {el : Element} (he : E[p]? = some el) (hp : ¬ pend p) {q : QIdent} {sh : Shape}
    (h : (q, sh) ∈ declared (lastNs E) el) : ∃ ct, c.types q = some (.defined ct) ∧ ct.shape = sh := by
  have hd : declares el = true := by cases el <;> first | rfl | cases h
  obtain ⟨x, hx, rfl⟩ := List.mem_map.mp (inv.complete p el he hd hp)
  obtain ⟨el', ns, he', hns, hem⟩ := inv.emits x hx
  rw [he] at he'; cases he'
  have := oneNs h1 he (declares_not_ns hd) hns
  subst this
  rw [← emits_defines hem] at h
  obtain ⟨⟨q', ct⟩, h2, e⟩ := List.mem_map.mp h
  obtain ⟨n, hn, hd⟩ := List.mem_filterMap.mp h2
  cases e
  exact ⟨ct, (inv.defd _ _).mpr ⟨n, List.mem_flatMap.mpr ⟨x, hx, hn⟩, hd⟩, rfl⟩

theorem tableName_declared {E : List Element} (h1 : OneNamespace E) {q : QIdent} (h : TableName E (NsOk E) q) :
    (q, .table) ∈ E.flatMap (declared (lastNs E)) := by
  obtain ⟨p, t, ns, he, hns, rfl⟩ := h
  have := oneNs h1 he (by simp) hns
  subst this
  exact mem_decls he (by simp [declared])

theorem known_declared {E : List Element} (h1 : OneNamespace E) {c : Ctx} {pend : Nat → Prop} (inv : Inv E (NsOk E) c pend)
    {q : QIdent} (h : c.types q ≠ none) : (q, .table) ∈ E.flatMap (declared (lastNs E)) ∨
      ∃ p el, E[p]? = some el ∧ ¬ pend p ∧ ∃ sh, (q, sh) ∈ declared (lastNs E) el := by
  cases hq : c.types q with
  | none => exact absurd hq h
  | some s =>
    cases s with
    | tableDeclared => exact .inl (tableName_declared h1 (inv.decl q hq))
    | defined ct =>
      obtain ⟨p, el, a, b, d⟩ := defined_declared h1 inv hq
      exact .inr ⟨p, el, a, b, _, d⟩

/-! ### Accepted schemas are well formed -/

theorem run_settled {E : List Element} (h1 : OneNamespace E) {c : Ctx} {pend : Nat → Prop} (h : Run E (NsOk E) c pend) :
    ∀ p el, E[p]? = some el → ¬ pend p → ∀ r ∈ needs el, Settled (lastNs E) E (refIn (lastNs E) r) := by
  induction h with
  | init =>
    intro p el he hp
    exact absurd (List.getElem?_eq_some_iff.mp he).1 hp
  | wait r he hp hn hs ih => exact ih
  | @done c c' pend p el r he hp hn hs ih =>
    intro p' el' he' hp'
    by_cases e : p' = p
    · subst e
      rw [he] at he'; cases he'
      intro q hq
      have hne : ∀ n d, el ≠ .namespace n d := by rintro n d rfl; cases hq
      have hns := oneNs h1 he hne hn
      rcases stepped_done hs q hq with h | h
      · rw [hns] at h
        rcases known_declared h1 (run_inv r) h with h | ⟨p2, el2, he2, hp2, sh, hsh⟩
        · exact .table h
        · exact .other (List.mem_of_getElem? he2) hsh (ih p2 el2 he2 hp2)
      · rw [hns] at h
        exact .table (mem_decls he h)
    · exact ih p' el' he' (fun h => hp' ⟨h, e⟩)

theorem all₂_left {α β : Type} {R : α → β → Prop} {l : List α} {l' : List β} (h : All₂ R l l') {a : α} (ha : a ∈ l) :
    ∃ b ∈ l', R a b := by
  induction h with
  | nil => cases ha
  | cons h t ih =>
    rcases List.mem_cons.mp ha with rfl | ha
    · exact ⟨_, by simp, h⟩
    · obtain ⟨b, hb, h⟩ := ih ha
      exact ⟨b, by simp [hb], h⟩

theorem ofAst_integer {t : Ast.Ty} {b : EnumBase} (h : EnumBase.ofAst t = some b) : IntegerType t := by
  cases t with
  | builtin b => cases b <;> simp [EnumBase.ofAst, IntegerType] at h ⊢
  | _ => simp [EnumBase.ofAst] at h

theorem integer_ofAst {t : Ast.Ty} (h : IntegerType t) : EnumBase.ofAst t ≠ none := by
  cases t with
  | builtin b => cases b <;> simp [EnumBase.ofAst, IntegerType] at h ⊢
  | _ => simp [IntegerType] at h

theorem pairwise_mem {α : Type} {R : α → α → Prop} (hs : ∀ a b, R a b → R b a) {l : List α} (h : l.Pairwise R)
    {x y : α} (hx : x ∈ l) (hy : y ∈ l) (hne : x ≠ y) : R x y := by
  induction h with
  | nil => cases hx
  | cons h _ ih =>
    rcases List.mem_cons.mp hx with rfl | hx'
    · rcases List.mem_cons.mp hy with rfl | hy
      · exact absurd rfl hne
      · exact h y hy
    · rcases List.mem_cons.mp hy with e | hy
      · subst e; exact hs _ _ (h x hx')
      · exact ih hx' hy

theorem run_wellFormed {E : List Element} (h1 : OneNamespace E) {c : Ctx} (h : Run E (NsOk E) c (fun _ => False)) :
    WellFormed (lastNs E) E := by
  have inv := run_inv h
  have hem : ∀ p el, E[p]? = some el → declares el = true → ∃ x ∈ c.nodes, x.1 = p ∧
      Emits (c.names E (NsOk E)) (lastNs E) el x.2 := by
    intro p el he hd
    obtain ⟨x, hx, e⟩ := List.mem_map.mp (inv.complete p el he hd (fun h => h))
    subst e
    obtain ⟨el', ns, he', hns, hem⟩ := inv.emits x hx
    rw [he] at he'; cases he'
    have := oneNs h1 he (declares_not_ns hd) hns
    subst this
    exact ⟨x, hx, rfl, hem⟩
  have hdef : ∀ q ct, c.types q = some (.defined ct) → (q, ct.shape) ∈ E.flatMap (declared (lastNs E)) := by
    intro q ct hq
    obtain ⟨p, el, he, _, hd⟩ := defined_declared h1 inv hq
    exact mem_decls he hd
  refine ⟨?_, ?_, ?_, ?_, ?_, ?_⟩
  · rw [List.map_flatMap, List.nodup_flatMap]
    have hu := inv.uniq
    rw [List.filterMap_flatMap, List.map_flatMap, List.nodup_flatMap] at hu
    obtain ⟨u1, u2⟩ := hu
    have hnames : ∀ p el, E[p]? = some el → declares el = true → ∃ x ∈ c.nodes, x.1 = p ∧
        (declared (lastNs E) el).map (·.1) = (x.2.filterMap Node.defines).map (·.1) := by
      intro p el he hd
      obtain ⟨x, hx, e, hm⟩ := hem p el he hd
      refine ⟨x, hx, e, ?_⟩
      rw [← emits_defines hm, List.map_map]
      rfl
    have hnodecl : ∀ el, declares el ≠ true → declared (lastNs E) el = [] := by
      intro el hd; cases el <;> first | rfl | exact absurd rfl hd
    constructor
    · intro el hel
      obtain ⟨p, he⟩ := List.mem_iff_getElem?.mp hel
      by_cases hd : declares el = true
      · obtain ⟨x, hx, _, e⟩ := hnames p el he hd
        rw [e]; exact u1 x hx
      · rw [hnodecl el hd]; exact List.nodup_nil
    · rw [List.pairwise_iff_getElem]
      intro i j hi hj hij
      have hei : E[i]? = some E[i] := List.getElem?_eq_getElem hi
      have hej : E[j]? = some E[j] := List.getElem?_eq_getElem hj
      by_cases hdi : declares E[i] = true
      · by_cases hdj : declares E[j] = true
        · obtain ⟨x, hx, exi, e⟩ := hnames i _ hei hdi
          obtain ⟨y, hy, eyj, e'⟩ := hnames j _ hej hdj
          have hxy : x ≠ y := by rintro rfl; omega
          have := pairwise_mem (fun a b h => by intro q h1 h2; exact h h2 h1) u2 hx hy hxy
          show List.Disjoint ((declared (lastNs E) E[i]).map (·.1)) ((declared (lastNs E) E[j]).map (·.1))
          rw [e, e']
          exact this
        · show List.Disjoint ((declared (lastNs E) E[i]).map (·.1)) ((declared (lastNs E) E[j]).map (·.1))
          rw [hnodecl _ hdj]; simp
      · show List.Disjoint ((declared (lastNs E) E[i]).map (·.1)) ((declared (lastNs E) E[j]).map (·.1))
        rw [hnodecl _ hdi]; simp
  · intro el hel
    obtain ⟨p, he⟩ := List.mem_iff_getElem?.mp hel
    obtain ⟨_, _, hs⟩ := inv.supported p el he (fun h => h)
    cases hs <;> rfl
  · intro s hs f hf
    obtain ⟨p, he⟩ := List.mem_iff_getElem?.mp hs
    obtain ⟨x, hx, _, hm⟩ := hem p _ he rfl
    generalize x.2 = g at hm
    cases hm with
    | struct s fields hm =>
      obtain ⟨g, _, ty, hty, hsc, _⟩ := all₂_left hm hf
      generalize f.ty = t at hty
      cases hty with
      | builtin b => trivial
      | string => simp [Ty.isScalar] at hsc
      | array h => simp [Ty.isScalar] at hsc
      | table q h => simp [Ty.isScalar] at hsc
      | custom q ct h =>
        have := hdef _ _ h
        cases ct with
        | table => simp [CustomType.ref, Ty.isScalar] at hsc
        | struct _ => exact .inl this
        | enum _ _ => exact .inr this
        | union _ _ => simp [CustomType.ref, Ty.isScalar] at hsc
  · intro e he
    obtain ⟨p, he⟩ := List.mem_iff_getElem?.mp he
    obtain ⟨x, hx, _, hm⟩ := hem p _ he rfl
    generalize x.2 = g at hm
    cases hm with
    | enum e base hb => exact ofAst_integer hb
  · intro el hel r hr
    obtain ⟨p, he⟩ := List.mem_iff_getElem?.mp hel
    obtain ⟨ns, hns, hreq⟩ := inv.rooted p el he (fun h => h)
    have hne : ∀ n d, el ≠ .namespace n d := by rintro n d rfl; cases hr
    have := oneNs h1 he hne hns
    subst this
    have hq : Requests (lastNs E) (refIn (lastNs E) r) el := by
      cases el with
      | root t d =>
        simp only [tableRefs, List.mem_singleton] at hr
        subst hr
        rfl
      | rpc rp =>
        obtain ⟨m, hm, hr⟩ := List.mem_flatMap.mp hr
        simp only [List.mem_cons, List.not_mem_nil, or_false] at hr
        rcases hr with rfl | rfl
        · exact ⟨m, hm, .inl rfl⟩
        · exact ⟨m, hm, .inr rfl⟩
      | _ => cases hr
    exact hdef _ _ (inv.roots _ (hreq _ hq)).1
  · intro r hr m hm
    obtain ⟨p, he⟩ := List.mem_iff_getElem?.mp hr
    obtain ⟨x, hx, _, hem⟩ := hem p _ he rfl
    generalize x.2 = g at hem
    cases hem with
    | rpc r ms h =>
      obtain ⟨_, _, _, _, s, hs, _⟩ := all₂_left h hm
      exact ⟨s, hs⟩

/-! ### Well-formed schemas are accepted -/

theorem decl_unique {ns : Option Ast.QIdent} {E : List Element} (hd : ((E.flatMap (declared ns)).map (·.1)).Nodup)
    {q : QIdent} {s s' : Shape} (h : (q, s) ∈ E.flatMap (declared ns)) (h' : (q, s') ∈ E.flatMap (declared ns)) :
    s = s' := by
  have := List.inj_on_of_nodup_map hd h h' rfl
  cases this; rfl

theorem position_unique {ns : Option Ast.QIdent} {E : List Element} (hd : ((E.flatMap (declared ns)).map (·.1)).Nodup)
    {p p' : Nat} {a b : Element} (hp : E[p]? = some a) (hp' : E[p']? = some b) {q : QIdent} {s s' : Shape}
    (h : (q, s) ∈ declared ns a) (h' : (q, s') ∈ declared ns b) : p = p' := by
  rw [List.map_flatMap, List.nodup_flatMap] at hd
  have hpw := hd.2
  rw [List.pairwise_iff_getElem] at hpw
  obtain ⟨l1, e1⟩ := List.getElem?_eq_some_iff.mp hp
  obtain ⟨l2, e2⟩ := List.getElem?_eq_some_iff.mp hp'
  have m1 : q ∈ (declared ns a).map (·.1) := List.mem_map.mpr ⟨_, h, rfl⟩
  have m2 : q ∈ (declared ns b).map (·.1) := List.mem_map.mpr ⟨_, h', rfl⟩
  rcases Nat.lt_trichotomy p p' with h | h | h
  · have := hpw p p' l1 l2 h
    simp only [Function.onFun, e1, e2] at this
    exact absurd m2 (this m1)
  · exact h
  · have := hpw p' p l2 l1 h
    simp only [Function.onFun, e1, e2] at this
    exact absurd m1 (this m2)

/-- The analysis panics only at elements it does not know. -/
theorem refused_panic {E : List Element} {Ok : Nat → Option Ast.QIdent → Prop} (h : Refused E Ok .panic) :
    ∃ el ∈ E, supported el = false := by
  obtain ⟨c, pend, p, el, hr, he, hp, hn, hx⟩ := h
  have inv := run_inv hr
  refine ⟨el, List.mem_of_getElem? he, ?_⟩
  by_contra hk
  have hk : supported el = true := by simpa using hk
  cases el with
  | table t =>
    simp only [Ctx.newElement, Ctx.newTable] at hx
    split at hx
    · cases hx
    · rename_i hd
      have hlooks : Looks E Ok (c.setType (qualify c.ns (mkIdent t.id)) .tableDeclared) := by
        refine ⟨?_, ?_⟩
        · intro q hq
          rw [setType_types] at hq
          split at hq
          · rename_i e
            exact ⟨p, t, c.ns, he, hn, e⟩
          · exact inv.decl q hq
        · intro q e vs hq
          rw [setType_types] at hq
          split at hq
          · cases hq
          · obtain ⟨evs, b, h1⟩ := inv.comp q e vs hq
            refine ⟨evs, b, ?_⟩
            rw [setType_types, if_neg, h1]
            rintro rfl
            exact isDefined_false.mp (by simpa using hd) _ h1
      obtain ⟨r, hr⟩ := tableFields_ne_panic hlooks t.fields
      rw [hr] at hx
      cases r <;> cases hx
  | struct s =>
    simp only [Ctx.newElement, Ctx.newStruct] at hx
    split at hx
    · cases hx
    · split at hx
      · cases hx
      · cases hx
      · cases hx
      · rename_i e; exact structFields_ne_panic _ _ _ e
  | enum e =>
    simp only [Ctx.newElement, Ctx.newEnum] at hx
    split at hx
    · cases hx
    · split at hx <;> cases hx
  | union u =>
    simp only [Ctx.newElement, Ctx.newUnion, Ctx.generateEnum] at hx
    split at hx
    · cases hx
    · split at hx
      · cases hx
      · split at hx <;> cases hx
  | rpc r =>
    simp only [Ctx.newElement, Ctx.newRpc] at hx
    refine bind_ne_panic (rpcMethods_ne_panic _ _) ?_ hx
    rintro ⟨ms, c'⟩
    cases ms <;> simp
  | root t d => exact newRootIdent_ne_panic _ _ hx
  | «namespace» n d => cases hx
  | _ => cases hk

theorem not_refused {E : List Element} (h1 : OneNamespace E) (hw : WellFormed (lastNs E) E) {r : BRes (Bool × Ctx)}
    (h : Refused E (NsOk E) r) : ∃ x, r = .ok x := by
  obtain ⟨c, pend, p, el, hr, he, hp, hn, hx⟩ := h
  have inv := run_inv hr
  cases r with
  | ok x => exact ⟨x, rfl⟩
  | panic =>
    exfalso
    obtain ⟨el, hel, hk⟩ := refused_panic ⟨c, pend, p, el, hr, he, hp, hn, hx⟩
    rw [hw.known el hel] at hk; cases hk
  | err e =>
    exfalso
    have hne : ∀ n d, el ≠ .namespace n d := by rintro n d rfl; cases hx
    have hns := oneNs h1 he hne hn
    -- a name of this element is not defined yet
    have hfresh : ∀ q sh, (q, sh) ∈ declared (lastNs E) el → c.isDefined q = false := by
      intro q sh hq
      rw [isDefined_false]
      intro ct hct
      obtain ⟨p', el', he', hp', hd'⟩ := defined_declared h1 inv hct
      exact hp' (position_unique hw.distinct he' he hd' hq ▸ hp)
    have htab : ∀ r ∈ tableRefs el, ∀ ct, c.types (refIn c.ns r) = some (.defined ct) → ct.shape ≠ .table → False := by
      intro r hr ct hct hne
      rw [hns] at hct
      obtain ⟨p', el', he', _, hd'⟩ := defined_declared h1 inv hct
      exact hne (decl_unique hw.distinct (mem_decls he' hd') (hw.tables el (List.mem_of_getElem? he) r hr))
    cases el with
    | table t =>
      simp only [Ctx.newElement, Ctx.newTable] at hx
      split at hx
      · rename_i hd
        have hf := hfresh (nameIn (lastNs E) t.id) .table (by simp [declared])
        rw [hns] at hd
        exact absurd (hd.symm.trans hf) (by simp)
      · rename_i hd
        have hlooks : Looks E (NsOk E) (c.setType (qualify c.ns (mkIdent t.id)) .tableDeclared) := by
          refine ⟨?_, ?_⟩
          · intro q hq
            rw [setType_types] at hq
            split at hq
            · rename_i e
              exact ⟨p, t, c.ns, he, hn, e⟩
            · exact inv.decl q hq
          · intro q e vs hq
            rw [setType_types] at hq
            split at hq
            · cases hq
            · obtain ⟨evs, b, h1⟩ := inv.comp q e vs hq
              refine ⟨evs, b, ?_⟩
              rw [setType_types, if_neg, h1]
              rintro rfl
              exact isDefined_false.mp (by simpa using hd) _ h1
        obtain ⟨r, hr⟩ := tableFields_ne_panic hlooks t.fields
        rw [hr] at hx
        cases r <;> cases hx
    | struct s =>
      simp only [Ctx.newElement, Ctx.newStruct] at hx
      split at hx
      · rename_i hd
        have hf := hfresh (nameIn (lastNs E) s.id) .struct (by simp [declared])
        rw [hns] at hd
        exact absurd (hd.symm.trans hf) (by simp)
      · split at hx
        · cases hx
        · cases hx
        · rename_i e' hs
          obtain ⟨f, hf, ty, hty, hsc⟩ := structFields_err hs
          have hm := hw.members s (List.mem_of_getElem? he) f hf
          generalize f.ty = t at hty hm
          cases t with
          | builtin b => simp only [Ctx.tryType] at hty; cases hty; simp [Ty.isScalar] at hsc
          | string => exact hm
          | array t => exact hm
          | ident q =>
            simp only [Ctx.tryType, Ctx.find, qualifyRef_eq, hns] at hty
            split at hty
            · rename_i et
              have := tableName_declared h1 (inv.decl _ et)
              rcases hm with hm | hm
              · cases decl_unique hw.distinct this hm
              · cases decl_unique hw.distinct this hm
            · rename_i ct et
              obtain ⟨p', el', he', _, hd'⟩ := defined_declared h1 inv et
              have := mem_decls he' hd'
              cases hty
              rcases hm with hm | hm
              · have := decl_unique hw.distinct this hm
                cases ct <;> simp [CustomType.shape, CustomType.ref, Ty.isScalar] at this hsc
              · have := decl_unique hw.distinct this hm
                cases ct <;> simp [CustomType.shape, CustomType.ref, Ty.isScalar] at this hsc
            · cases hty
        · cases hx
    | enum e =>
      simp only [Ctx.newElement, Ctx.newEnum] at hx
      split at hx
      · rename_i hd
        have hf := hfresh (nameIn (lastNs E) e.id) .enum (by simp [declared])
        rw [hns] at hd
        exact absurd (hd.symm.trans hf) (by simp)
      · split at hx
        · rename_i eb
          exact integer_ofAst (hw.bases e (List.mem_of_getElem? he)) eb
        · cases hx
    | union u =>
      simp only [Ctx.newElement, Ctx.newUnion, Ctx.generateEnum] at hx
      split at hx
      · rename_i hd
        have hf := hfresh (nameIn (lastNs E) u.id) .union (by simp [declared])
        rw [hns] at hd
        exact absurd (hd.symm.trans hf) (by simp)
      · split at hx
        · cases hx
        · split at hx
          · rename_i hd
            have hf := hfresh (tagEnumIn (lastNs E) u.id) .enum (by simp [declared])
            rw [hns] at hd
            exact absurd (hd.symm.trans hf) (by simp)
          · cases hx
    | rpc r =>
      simp only [Ctx.newElement, Ctx.newRpc] at hx
      rcases bind_eq_err.mp hx with hx | ⟨⟨ms, c'⟩, _, hx⟩
      · obtain ⟨m, hm, ⟨r', hr', ct, hct, hne⟩ | ⟨e', hs⟩⟩ := rpcMethods_err hx
        · exact htab r' (List.mem_flatMap.mpr ⟨m, hm, hr'⟩) ct hct hne
        · obtain ⟨s, hs'⟩ := hw.streaming r (List.mem_of_getElem? he) m hm
          rw [streaming_ok_of_asks hs'] at hs
          cases hs
      · cases ms <;> cases hx
    | root t d =>
      obtain ⟨ct, hct, hne⟩ := newRootIdent_err hx
      exact htab [t] (by simp [tableRefs]) ct hct hne
    | «namespace» n d => cases hx
    | _ => cases hx

/-- All tables are known. -/
def TablesKnown (E : List Element) (c : Ctx) : Prop :=
  ∀ q, (q, Shape.table) ∈ E.flatMap (declared (lastNs E)) → c.types q ≠ none

theorem keys_le {E : List Element} {Ok : Nat → Option Ast.QIdent → Prop} {c c' : Ctx} {pend pend' : Nat → Prop} (inv : Inv E Ok c pend) (inv' : Inv E Ok c' pend')
    (hle : ∀ q, pend' q → pend q) {p : Nat} {el : Element} (he : E[p]? = some el) (hd : declares el = true)
    (hp : pend p) (hp' : ¬ pend' p) : c.nodes.length < c'.nodes.length := by
  have hsub : p :: c.nodes.map (·.1) ⊆ c'.nodes.map (·.1) := by
    intro q hq
    rcases List.mem_cons.mp hq with rfl | hq
    · exact inv'.complete q el he hd hp'
    · obtain ⟨x, hx, rfl⟩ := List.mem_map.mp hq
      obtain ⟨el', ns, he', _, hem⟩ := inv.emits x hx
      exact inv'.complete _ el' he' (emits_declares hem) (fun h => inv.past x hx (hle _ h))
  have hnd : (p :: c.nodes.map (·.1)).Nodup := by
    rw [List.nodup_cons]
    refine ⟨?_, inv.sorted.imp (fun h => Nat.ne_of_lt h)⟩
    intro hm
    obtain ⟨x, hx, rfl⟩ := List.mem_map.mp hm
    exact inv.past x hx hp
  have := (List.Nodup.subperm hnd hsub).length_le
  simp only [List.length_cons, List.length_map] at this
  omega

theorem declared_declares {ns : Option Ast.QIdent} {el : Element} {x : QIdent × Shape} (h : x ∈ declared ns el) :
    declares el = true := by
  cases el <;> first | rfl | cases h

theorem not_stuck {E : List Element} (h1 : OneNamespace E) (hw : WellFormed (lastNs E) E)
    (hres : ∀ el ∈ E, ∀ r ∈ needs el, Settled (lastNs E) E (refIn (lastNs E) r)) {els : List Element}
    (h : Stuck E (TablesKnown E) els) : False := by
  obtain ⟨c, input, uns, c', hr, hJ, hns, hin, hnd, hp, hne, hlen, _⟩ := h
  have inv := run_inv hr
  have hpass := pass_run (E := E) (Ok := NsOk E)
      (K := fun l c => c.ns = lastNs E ∧ ∀ x ∈ l, E[x.1]? = some x.2 ∧ ∀ q d, x.2 ≠ .namespace q d)
      (by
        rintro p el rest c ⟨k1, k2⟩
        exact ⟨(k2 (p, el) (by simp)).1, .inr k1⟩)
      (by
        rintro p el rest c b c' ⟨k1, k2⟩ hs
        refine ⟨?_, fun x hx => k2 x (by simp [hx])⟩
        have h1 := stepped_ns hs
        have h2 := (k2 (p, el) (by simp)).2
        cases el <;> first | (exact absurd rfl (h2 _ _)) | (rw [h1]; exact k1))
      input c _ hr ⟨hns, hin⟩ (fun x hx => List.mem_map.mpr ⟨x, hx, rfl⟩) hnd
  rw [hp] at hpass
  obtain ⟨hr', _, hsl, _⟩ := hpass
  rw [pend_eq (fun q => Iff.rfl) hsl] at hr'
  have inv' := run_inv hr'
  obtain ⟨_, hleft⟩ := pass_left hp
  -- what is not left over was defined before this pass
  have hdone : ∀ p el, E[p]? = some el → declares el = true → p ∉ uns.map (·.1) → p ∉ input.map (·.1) := by
    intro p el he hd hu hi
    have := keys_le inv inv' (fun q hq => (hsl.map (·.1)).subset hq) he hd hi hu
    omega
  -- declarations that only name known types are not left over
  have hnot : ∀ p el, E[p]? = some el → tableRefs el = [] → (∀ r ∈ needs el, c.types (refIn (lastNs E) r) ≠ none) →
      p ∉ uns.map (·.1) := by
    intro p el he ht hk hu
    obtain ⟨x, hx, rfl⟩ := List.mem_map.mp hu
    obtain ⟨c0, c1, hs, hg, hns0⟩ := hleft x hx
    have hxe := (hin x (hsl.subset hx)).1
    rw [he] at hxe
    cases hxe
    have hns0 := (hns0 (fun y hy => (hin y hy).2)).trans hns
    rcases stepped_wait hs with ⟨r, hr, hnone⟩ | ⟨r, hr, _⟩
    · rw [hns0] at hnone
      exact hg.1 _ (hk r hr) hnone
    · rw [ht] at hr; cases hr
  have hrefs : ∀ {el : Element} {x : QIdent × Shape}, x ∈ declared (lastNs E) el → tableRefs el = [] := by
    intro el x hx; cases el <;> first | rfl | cases hx
  have hknown : ∀ q, Settled (lastNs E) E q → c.types q ≠ none := by
    intro q hq
    induction hq with
    | table h => exact hJ _ h
    | other hel hd _ ih =>
      obtain ⟨p, he⟩ := List.mem_iff_getElem?.mp hel
      have := hdone p _ he (declared_declares hd) (hnot p _ he (hrefs hd) ih)
      obtain ⟨ct, hct, _⟩ := declared_defined h1 inv he this hd
      rw [hct]; simp
  cases uns with
  | nil => exact hne rfl
  | cons x uns =>
    obtain ⟨c0, c1, hs, hg, hns0⟩ := hleft x (by simp)
    have he := (hin x (hsl.subset (by simp))).1
    have hns0 := (hns0 (fun y hy => (hin y hy).2)).trans hns
    rcases stepped_wait hs with ⟨r, hr, hnone⟩ | ⟨r, hr, hnone⟩
    · rw [hns0] at hnone
      exact hg.1 _ (hknown _ (hres _ (List.mem_of_getElem? he) r hr)) hnone
    · rw [hns0] at hnone
      have hm := hw.tables _ (List.mem_of_getElem? he) r hr
      obtain ⟨el', hel', hd⟩ := List.mem_flatMap.mp hm
      obtain ⟨p', he'⟩ := List.mem_iff_getElem?.mp hel'
      have := hdone p' el' he' (declared_declares hd)
        (hnot p' el' he' (hrefs hd) (fun r hr => hknown _ (hres el' hel' r hr)))
      obtain ⟨ct, hct, _⟩ := declared_defined h1 inv he' this hd
      exact hnone ct (hg.2 _ _ hct)

theorem stepped_known {c c' : Ctx} {p : Nat} {t : Ast.Product} {b : Bool} (h : Stepped c p (.table t) b c') :
    c'.types (nameIn c.ns t.id) ≠ none := by
  cases h with
  | tableDone t fields hd hf =>
    intro e
    simp only [Ctx.addNodes, setType_types] at e
    rw [if_pos (show nameIn c.ns t.id = qualify c.ns (mkIdent t.id) from rfl)] at e
    cases e
  | tableWait t hd hf =>
    intro e
    rw [setType_types, if_pos (show nameIn c.ns t.id = qualify c.ns (mkIdent t.id) from rfl)] at e
    cases e

/-- In one namespace, when the first pass does not get stuck, exactly the well-formed schemas with resolvable names
are accepted. -/
theorem accepts_of_first {s : Ast.Schema} (h1 : OneNamespace s.elements)
    (h0 : ∀ uns c', Ctx.init.pass (indexed s.elements) = .ok (uns, c') → uns ≠ [] → c'.nodes ≠ []) :
    (∃ out, build s = some (.ok out)) ↔
      WellFormed (lastNs s.elements) s.elements ∧
      ∀ el ∈ s.elements, ∀ r ∈ needs el, Settled (lastNs s.elements) s.elements (refIn (lastNs s.elements) r) := by
  constructor
  · rintro ⟨out, h⟩
    obtain ⟨c, hr, _⟩ := build_ok h
    refine ⟨run_wellFormed h1 hr, ?_⟩
    intro el hel
    obtain ⟨p, he⟩ := List.mem_iff_getElem?.mp hel
    exact run_settled h1 hr p el he (fun h => h)
  · rintro ⟨hw, hres⟩
    cases hb : Ctx.retry (s.elements.length + 1) .init (indexed s.elements) with
    | none => exact absurd hb (retry_some _ _ _ (by simp [indexed]))
    | some r =>
      have := build_run (E := s.elements) (J := TablesKnown s.elements)
        (fun l c => ∀ p t, s.elements[p]? = some (.table t) → p ∉ l.map (·.1) →
          c.types (nameIn (lastNs s.elements) t.id) ≠ none)
        (by
          intro p t he hp
          rw [indexed_fst] at hp
          exact absurd (List.mem_range.mpr (List.getElem?_eq_some_iff.mp he).1) hp)
        (by
          intro p el rest c b c' hk he hns hs p' t he' hp'
          by_cases e : p' = p
          · subst e
            rw [he] at he'; cases he'
            have := stepped_known hs
            rw [hns, h1 p' _ he (by simp)] at this
            exact this
          · exact (stepped_grows hs).1 _ (hk p' t he' (by simp [hp', e])))
        (by
          intro c hk q hq
          obtain ⟨el, hel, hd⟩ := List.mem_flatMap.mp hq
          obtain ⟨p, he⟩ := List.mem_iff_getElem?.mp hel
          cases el with
          | table t =>
            simp only [declared, List.mem_singleton, Prod.mk.injEq, and_true] at hd
            subst hd
            exact hk p t he (by simp)
          | _ => simp [declared] at hd)
        (by
          intro c p el b c' hs hk q hq
          exact (stepped_grows hs).1 _ (hk q hq))
        _ r hb
      have hok : ∃ c, r = .ok c := by
        rcases this with h | ⟨uns, c', hp, hne, hnil, rfl⟩
        · cases r with
          | ok c => exact ⟨c, rfl⟩
          | panic => obtain ⟨x, hx⟩ := not_refused h1 hw h; cases hx
          | err e =>
            rcases h with h | ⟨els, _, h⟩
            · obtain ⟨x, hx⟩ := not_refused h1 hw h; cases hx
            · exact (not_stuck h1 hw hres h).elim
        · exact absurd hnil (h0 uns c' hp hne)
      obtain ⟨c, rfl⟩ := hok
      exact ⟨_, by unfold build; rw [hb]; rfl⟩

end Butte.Ir
