import Verif.Ir.SchemaSpec
/-
Invariant of the semantic analysis.
-/
namespace Butte.Ir
open Ast (Element)

/-- The vocabulary of a state: table names that may have been declared, and the types defined so far. -/
def Ctx.names (E : List Element) (Ok : Nat → Option Ast.QIdent → Prop) (c : Ctx) : Names where
  tab := TableName E Ok
  dfn q ct := c.types q = some (.defined ct)

/-- Invariant of the states of the analysis of `E`, where `pend` are the positions still pending. -/
structure Inv (E : List Element) (Ok : Nat → Option Ast.QIdent → Prop) (c : Ctx) (pend : Nat → Prop) : Prop where
  emits : ∀ x ∈ c.nodes, ∃ el ns, E[x.1]? = some el ∧ Ok x.1 ns ∧ Emits (c.names E Ok) ns el x.2
  sorted : (c.nodes.map (·.1)).Pairwise (· < ·)
  past : ∀ x ∈ c.nodes, ¬ pend x.1
  complete : ∀ p el, E[p]? = some el → declares el = true → ¬ pend p → p ∈ c.nodes.map (·.1)
  defd : ∀ q ct, c.types q = some (.defined ct) ↔ ∃ n ∈ c.nodes.flatMap (·.2), n.defines = some (q, ct)
  uniq : (((c.nodes.flatMap (·.2)).filterMap Node.defines).map (·.1)).Nodup
  decl : ∀ q, c.types q = some .tableDeclared → TableName E Ok q
  comp : ∀ q e vs, c.types q = some (.defined (.union e vs)) → ∃ evs b, c.types e = some (.defined (.enum evs b))
  roots : ∀ q ∈ c.roots, c.types q = some (.defined .table) ∧
    ∃ p el ns, E[p]? = some el ∧ Ok p ns ∧ Requests ns q el
  rooted : ∀ p el, E[p]? = some el → ¬ pend p → ∃ ns, Ok p ns ∧ ∀ q, Requests ns q el → q ∈ c.roots
  supported : ∀ p el, E[p]? = some el → ¬ pend p → ∃ c c', Stepped c p el true c'

/-! ### Names and attributes as the specification states them -/

theorem qualifyRef_eq (ns : Option Ast.QIdent) (q : Ast.QIdent) : qualifyRef ns q = refIn ns q := by
  unfold refIn
  match q with
  | [] => rfl
  | [i] => rfl
  | i :: j :: r =>
    rw [if_neg (by simp)]
    rfl

theorem unionEnumIdent_eq (ns : Option Ast.QIdent) (u : Ast.Union) : unionEnumIdent ns u = tagEnumIn ns u.id := rfl

theorem fieldRequired_iff (f : Ast.Field) : fieldRequired f = true ↔ MarkedRequired f := by
  unfold fieldRequired MarkedRequired
  cases f.metadata with
  | none => simp
  | some m =>
    simp only [Option.some.injEq, exists_eq_left']
    rcases Ast.Metadata.get m _ with _ | _ | _ <;> simp

theorem streamingOf_ok {m : Option Ast.Metadata} {s : Streaming} (h : streamingOf m = .ok s) : AsksStreaming m s := by
  unfold streamingOf at h
  cases m with
  | none => cases h; intro md e; cases e
  | some md =>
    simp only at h
    split at h
    · rename_i e; cases h; intro md' e'; cases e'; exact e
    · cases h
    · rename_i v e
      split at h
      · rename_i e'; subst e'; cases h; exact ⟨md, rfl, e⟩
      · split at h
        · rename_i e'; subst e'; cases h; exact ⟨md, rfl, e⟩
        · split at h
          · rename_i e'; subst e'; cases h; exact ⟨md, rfl, e⟩
          · cases h
    · cases h

/-! ### Resolving types -/

theorem isDefined_iff {c : Ctx} {q : QIdent} : c.isDefined q = true ↔ ∃ ct, c.types q = some (.defined ct) := by
  unfold Ctx.isDefined
  cases h : c.types q with
  | none => simp
  | some s => cases s <;> simp

theorem isDefined_false {c : Ctx} {q : QIdent} : c.isDefined q = false ↔ ∀ ct, c.types q ≠ some (.defined ct) := by
  rw [← Bool.not_eq_true, isDefined_iff]
  constructor
  · intro h ct e; exact h ⟨ct, e⟩
  · rintro h ⟨ct, e⟩; exact h ct e

theorem ref_companion {q : QIdent} {ct : CustomType} {e : QIdent} (h : (ct.ref q).companion = some e) :
    ∃ vs, ct = .union e vs := by
  cases ct with
  | union e' vs => simp only [CustomType.ref, Ty.companion] at h; cases h; exact ⟨vs, rfl⟩
  | _ => simp [CustomType.ref, Ty.companion] at h

/-- The conditions under which looking up types gives their meaning. -/
structure Looks (E : List Element) (Ok : Nat → Option Ast.QIdent → Prop) (c : Ctx) : Prop where
  decl : ∀ q, c.types q = some .tableDeclared → TableName E Ok q
  comp : ∀ q e vs, c.types q = some (.defined (.union e vs)) → ∃ evs b, c.types e = some (.defined (.enum evs b))

theorem tryType_means {E : List Element} {Ok : Nat → Option Ast.QIdent → Prop} {c : Ctx} (hl : Looks E Ok c) {t : Ast.Ty} {ty : Ty}
    (h : c.tryType t = some ty) : Means (c.names E Ok) c.ns t ty := by
  induction t generalizing ty with
  | builtin b => simp only [Ctx.tryType] at h; cases h; exact .builtin b
  | string => simp only [Ctx.tryType] at h; cases h; exact .string
  | array t ih =>
    simp only [Ctx.tryType, Option.map_eq_some_iff] at h
    obtain ⟨a, h1, rfl⟩ := h
    exact .array (ih h1)
  | ident q =>
    simp only [Ctx.tryType, Ctx.find, qualifyRef_eq] at h
    split at h
    · rename_i e; cases h; exact .table q (hl.decl _ e)
    · rename_i ct e; cases h; exact .custom q ct e
    · cases h

theorem tryType_companion {E : List Element} {Ok : Nat → Option Ast.QIdent → Prop} {c : Ctx} (hl : Looks E Ok c) {t : Ast.Ty} {ty : Ty} {e : QIdent}
    (h : c.tryType t = some ty) (he : ty.companion = some e) :
    ∃ q vs evs b, ty = .union q e vs ∧ c.types e = some (.defined (.enum evs b)) := by
  cases t with
  | builtin b => simp only [Ctx.tryType] at h; cases h; simp [Ty.companion] at he
  | string => simp only [Ctx.tryType] at h; cases h; simp [Ty.companion] at he
  | array t =>
    simp only [Ctx.tryType, Option.map_eq_some_iff] at h
    obtain ⟨a, _, rfl⟩ := h
    simp [Ty.companion] at he
  | ident q =>
    simp only [Ctx.tryType, Ctx.find] at h
    split at h
    · cases h; simp [CustomType.ref, Ty.companion] at he
    · rename_i ct et
      cases h
      obtain ⟨vs, rfl⟩ := ref_companion he
      obtain ⟨evs, b, h2⟩ := hl.comp _ _ _ et
      exact ⟨_, vs, evs, b, rfl, h2⟩
    · cases h

theorem companion_none {ty : Ty} (h : ty.companion = none) : ty.isUnion = false := by
  cases ty <;> first | rfl | simp [Ty.companion] at h

theorem tableFields_means {E : List Element} {Ok : Nat → Option Ast.QIdent → Prop} {c : Ctx} (hl : Looks E Ok c) {fs : List Ast.Field} {gs : List Field}
    (h : c.tableFields fs = .ok (some gs)) : FieldsMean (c.names E Ok) c.ns fs gs := by
  induction fs generalizing gs with
  | nil => simp only [Ctx.tableFields] at h; cases h; exact .nil
  | cons f fs ih =>
    simp only [Ctx.tableFields] at h
    cases ht : c.tryType f.ty with
    | none => rw [ht] at h; cases h
    | some ty =>
      rw [ht] at h
      simp only at h
      obtain ⟨pre, h1, h⟩ := BRes.bind_eq_ok.mp h
      obtain ⟨rest, h2, h⟩ := BRes.bind_eq_ok.mp h
      cases rest with
      | none => cases h
      | some r =>
        cases h
        have hm := tryType_means hl ht
        cases hc : ty.companion with
        | none =>
          rw [hc] at h1
          cases h1
          exact .plain (fieldRequired_iff f) hm (companion_none hc) (ih h2)
        | some e =>
          rw [hc] at h1
          obtain ⟨q, vs, evs, b, rfl, he⟩ := tryType_companion hl ht hc
          simp only [Ctx.find, he] at h1
          cases h1
          exact .union (fieldRequired_iff f) hm he (ih h2)

theorem tableFields_ne_panic {E : List Element} {Ok : Nat → Option Ast.QIdent → Prop} {c : Ctx} (hl : Looks E Ok c) (fs : List Ast.Field) :
    ∃ r, c.tableFields fs = .ok r := by
  induction fs with
  | nil => exact ⟨_, rfl⟩
  | cons f fs ih =>
    simp only [Ctx.tableFields]
    cases ht : c.tryType f.ty with
    | none => exact ⟨_, rfl⟩
    | some ty =>
      simp only
      obtain ⟨r, hr⟩ := ih
      cases hc : ty.companion with
      | none => simp [hr]
      | some e =>
        obtain ⟨q, vs, evs, b, rfl, he⟩ := tryType_companion hl ht hc
        simp [Ctx.find, he, hr]

theorem structFields_means {E : List Element} {Ok : Nat → Option Ast.QIdent → Prop} {c : Ctx} (hl : Looks E Ok c) {i : QIdent} {fs : List Ast.Field}
    {gs : List Field} (h : c.structFields i fs = .ok (some gs)) :
    All₂ (StructFieldMeans (c.names E Ok) c.ns) fs gs := by
  induction fs generalizing gs with
  | nil => simp only [Ctx.structFields] at h; cases h; exact .nil
  | cons f fs ih =>
    simp only [Ctx.structFields] at h
    cases ht : c.tryType f.ty with
    | none => rw [ht] at h; cases h
    | some ty =>
      rw [ht] at h
      simp only at h
      split at h
      · rename_i hsc
        obtain ⟨rest, h2, h⟩ := BRes.bind_eq_ok.mp h
        cases rest with
        | none => cases h
        | some r =>
          cases h
          exact .cons ⟨ty, tryType_means hl ht, hsc, rfl⟩ (ih h2)
      · cases h

theorem structFields_ne_panic (c : Ctx) (i : QIdent) (fs : List Ast.Field) : c.structFields i fs ≠ .panic := by
  induction fs with
  | nil => simp [Ctx.structFields]
  | cons f fs ih =>
    simp only [Ctx.structFields]
    cases c.tryType f.ty with
    | none => simp
    | some ty =>
      simp only
      split
      · cases h : c.structFields i fs with
        | ok r => simp
        | err e => simp
        | panic => exact absurd h ih
      · simp

theorem unionVariants_means {E : List Element} {Ok : Nat → Option Ast.QIdent → Prop} {c : Ctx} (hl : Looks E Ok c) {vs : List Ast.EnumVariant}
    {ws : List UnionVariant} (h : c.unionVariants vs = some ws) :
    All₂ (VariantMeans (c.names E Ok) c.ns) vs ws := by
  induction vs generalizing ws with
  | nil => simp only [Ctx.unionVariants] at h; cases h; exact .nil
  | cons v vs ih =>
    simp only [Ctx.unionVariants] at h
    cases ht : c.tryType (.ident [v.id]) with
    | none => rw [ht] at h; cases h
    | some ty =>
      rw [ht] at h
      simp only [Option.map_eq_some_iff] at h
      obtain ⟨r, h2, rfl⟩ := h
      exact .cons ⟨ty, tryType_means hl ht, rfl⟩ (ih h2)

theorem newRootIdent_ne_panic (c : Ctx) (q : QIdent) : c.newRootIdent q ≠ .panic := by
  unfold Ctx.newRootIdent; split <;> simp

theorem streamingOf_ne_panic (m : Option Ast.Metadata) : streamingOf m ≠ .panic := by
  unfold streamingOf
  split
  · simp
  · split
    · simp
    · simp
    · split
      · simp
      · split
        · simp
        · split <;> simp
    · simp

theorem bind_ne_panic {α β : Type} {x : BRes α} {f : α → BRes β} (hx : x ≠ .panic) (hf : ∀ a, f a ≠ .panic) :
    x >>= f ≠ .panic := by
  cases x with
  | ok a => exact hf a
  | err e => simp
  | panic => exact absurd rfl hx

theorem rpcMethods_ne_panic (c : Ctx) (ms : List Ast.RpcMethod) : c.rpcMethods ms ≠ .panic := by
  induction ms generalizing c with
  | nil => simp [Ctx.rpcMethods]
  | cons m ms ih =>
    simp only [Ctx.rpcMethods]
    refine bind_ne_panic (newRootIdent_ne_panic _ _) fun ⟨b, c1⟩ => ?_
    simp only
    split
    · simp
    · refine bind_ne_panic (newRootIdent_ne_panic _ _) fun ⟨b, c2⟩ => ?_
      simp only
      split
      · simp
      · refine bind_ne_panic (streamingOf_ne_panic _) fun s => ?_
        refine bind_ne_panic (ih c2) fun ⟨r, c3⟩ => ?_
        simp

theorem rpcMethods_means {E : List Element} {Ok : Nat → Option Ast.QIdent → Prop} {c c' : Ctx} {ms : List Ast.RpcMethod} {rs : List RpcMethod}
    (h : c.rpcMethods ms = .ok (some rs, c')) :
    All₂ (MethodMeans (c.names E Ok) c.ns) ms rs ∧
      ∀ m ∈ ms, refIn c.ns m.requestType ∈ c'.roots ∧ refIn c.ns m.responseType ∈ c'.roots := by
  induction ms generalizing c rs with
  | nil => simp only [Ctx.rpcMethods] at h; cases h; exact ⟨.nil, by simp⟩
  | cons m ms ih =>
    simp only [Ctx.rpcMethods, qualifyRef_eq] at h
    obtain ⟨⟨b1, c1⟩, h1, h⟩ := BRes.bind_eq_ok.mp h
    rcases newRootIdent_ok h1 with ⟨rfl, t1, rfl⟩ | ⟨rfl, t1, rfl⟩
    · simp only [Bool.true_eq_false, if_false] at h
      obtain ⟨⟨b2, c2⟩, h2, h⟩ := BRes.bind_eq_ok.mp h
      rcases newRootIdent_ok h2 with ⟨rfl, t2, rfl⟩ | ⟨rfl, t2, rfl⟩
      · simp only [Bool.true_eq_false, if_false] at h
        obtain ⟨s, hs, h⟩ := BRes.bind_eq_ok.mp h
        obtain ⟨⟨rest, c3⟩, h3, h⟩ := BRes.bind_eq_ok.mp h
        cases rest with
        | none => cases h
        | some r =>
          cases h
          obtain ⟨i1, i2⟩ := ih h3
          have hroots := (rpcMethods_frame h3).2.2.2.1
          refine ⟨.cons ⟨t1, t2, s, streamingOf_ok hs, rfl⟩ i1, ?_⟩
          intro m' hm'
          rcases List.mem_cons.mp hm' with rfl | hm'
          · exact ⟨hroots _ (by simp), hroots _ (by simp)⟩
          · exact i2 m' hm'
      · simp only [if_true] at h; cases h
    · simp only [if_true] at h; cases h

/-! ### Preservation -/

theorem emits_later {E : List Element} {Ok : Nat → Option Ast.QIdent → Prop} {c c₁ : Ctx} {ns : Option Ast.QIdent} {el : Element} {l : List Node}
    (h : ∀ q ct, c.types q = some (.defined ct) → c₁.types q = some (.defined ct))
    (he : Emits (c.names E Ok) ns el l) : Emits (c₁.names E Ok) ns el l :=
  Emits.mono (N := c.names E Ok) (N' := c₁.names E Ok) (fun _ hq => hq) h he

theorem fieldsMean_later {E : List Element} {Ok : Nat → Option Ast.QIdent → Prop} {c c₁ : Ctx} {ns : Option Ast.QIdent} {fs : List Ast.Field} {l : List Field}
    (h : ∀ q ct, c.types q = some (.defined ct) → c₁.types q = some (.defined ct))
    (he : FieldsMean (c.names E Ok) ns fs l) : FieldsMean (c₁.names E Ok) ns fs l :=
  FieldsMean.mono (N := c.names E Ok) (N' := c₁.names E Ok) (fun _ hq => hq) h he

theorem insertNodes_perm {p : Nat} {ns : List Node} {l : List (Nat × List Node)} (h : p ∉ l.map (·.1)) :
    (insertNodes p ns l).Perm ((p, ns) :: l) := by
  induction l with
  | nil => simp [insertNodes]
  | cons x l ih =>
    simp only [List.map_cons, List.mem_cons, not_or] at h
    simp only [insertNodes]
    split
    · exact List.Perm.refl _
    · rw [if_neg h.1]
      exact ((ih h.2).cons x).trans (List.Perm.swap _ _ _)

theorem insertNodes_sorted {p : Nat} {ns : List Node} {l : List (Nat × List Node)}
    (hs : (l.map (·.1)).Pairwise (· < ·)) : ((insertNodes p ns l).map (·.1)).Pairwise (· < ·) := by
  induction l with
  | nil => simp [insertNodes]
  | cons x l ih =>
    have hs0 := hs
    simp only [List.map_cons, List.pairwise_cons] at hs
    simp only [insertNodes]
    split
    · rename_i hlt
      rw [List.map_cons, List.pairwise_cons]
      refine ⟨?_, hs0⟩
      intro a ha
      simp only [List.map_cons, List.mem_cons] at ha
      rcases ha with rfl | ha
      · exact hlt
      · have := hs.1 a ha; simp only; omega
    · rename_i hlt
      split
      · rename_i he
        rw [List.map_cons, List.pairwise_cons]
        refine ⟨?_, hs.2⟩
        intro a ha
        have := hs.1 a ha
        simp only; omega
      · rename_i hne
        rw [List.map_cons, List.pairwise_cons]
        refine ⟨?_, ih hs.2⟩
        intro a ha
        obtain ⟨y, hy, rfl⟩ := List.mem_map.mp ha
        have : ∀ l : List (Nat × List Node), y ∈ insertNodes p ns l → y = (p, ns) ∨ y ∈ l := by
          intro l
          induction l with
          | nil => simp [insertNodes]
          | cons z l ih' =>
            simp only [insertNodes]
            split
            · simp
            · split
              · intro h
                rcases List.mem_cons.mp h with h | h
                · exact .inl h
                · exact .inr (by simp [h])
              · intro h
                rcases List.mem_cons.mp h with h | h
                · exact .inr (by simp [h])
                · rcases ih' h with h | h
                  · exact .inl h
                  · exact .inr (by simp [h])
        rcases this l hy with rfl | hy
        · simp only; omega
        · exact hs.1 _ (List.mem_map.mpr ⟨y, hy, rfl⟩)

theorem Inv.looks {E : List Element} {Ok : Nat → Option Ast.QIdent → Prop} {c : Ctx} {pend : Nat → Prop} (h : Inv E Ok c pend) : Looks E Ok c := ⟨h.decl, h.comp⟩

/-- A step that finishes a declaration. -/
theorem Inv.define {E : List Element} {Ok : Nat → Option Ast.QIdent → Prop} {c c₀ c₁ : Ctx} {pend : Nat → Prop} {p : Nat} {el : Element}
    {ns : Option Ast.QIdent} {new : List Node} (h : Inv E Ok c pend) (he : E[p]? = some el) (hp : pend p)
    (hn : Ok p ns) (hs : Stepped c₀ p el true c₁)
    (hnodes : c₁.nodes = insertNodes p new c.nodes)
    (hT : ∀ q ct, c₁.types q = some (.defined ct) ↔
      c.types q = some (.defined ct) ∨ ∃ n ∈ new, n.defines = some (q, ct))
    (hD : ∀ q, c₁.types q = some .tableDeclared → c.types q = some .tableDeclared ∨ TableName E Ok q)
    (hem : Emits (c₁.names E Ok) ns el new)
    (huniq : ((new.filterMap Node.defines).map (·.1)).Nodup)
    (hfresh : ∀ n ∈ new, ∀ q ct, n.defines = some (q, ct) → c.isDefined q = false)
    (hcomp : ∀ n ∈ new, ∀ q e vs, n.defines = some (q, .union e vs) →
      ∃ evs b, ∃ n' ∈ new, n'.defines = some (e, .enum evs b))
    (hroots : ∀ q ∈ c₁.roots, q ∈ c.roots ∨ c.types q = some (.defined .table) ∧ Requests ns q el)
    (hroots' : ∀ q ∈ c.roots, q ∈ c₁.roots) (hreq : ∀ q, Requests ns q el → q ∈ c₁.roots) :
    Inv E Ok c₁ (fun q => pend q ∧ q ≠ p) := by
  have hkey : p ∉ c.nodes.map (·.1) := by
    intro hm
    obtain ⟨x, hx, rfl⟩ := List.mem_map.mp hm
    exact h.past x hx hp
  have hperm := insertNodes_perm (ns := new) hkey
  rw [← hnodes] at hperm
  have hmono : ∀ q ct, c.types q = some (.defined ct) → c₁.types q = some (.defined ct) :=
    fun q ct hq => (hT q ct).mpr (.inl hq)
  have hmem : ∀ x, x ∈ c₁.nodes ↔ x = (p, new) ∨ x ∈ c.nodes := by
    intro x; rw [hperm.mem_iff, List.mem_cons]
  have hflat : (c₁.nodes.flatMap (·.2)).Perm (new ++ c.nodes.flatMap (·.2)) := by
    refine (hperm.flatMap_right _).trans ?_
    simp
  refine ⟨?_, ?_, ?_, ?_, ?_, ?_, ?_, ?_, ?_, ?_, ?_⟩
  · intro x hx
    rcases (hmem x).mp hx with rfl | hx
    · exact ⟨el, ns, he, hn, hem⟩
    · obtain ⟨el', ns', h1, h2, h3⟩ := h.emits x hx
      exact ⟨el', ns', h1, h2, emits_later hmono h3⟩
  · rw [hnodes]; exact insertNodes_sorted h.sorted
  · intro x hx ⟨h1, h2⟩
    rcases (hmem x).mp hx with rfl | hx
    · exact h2 rfl
    · exact h.past x hx h1
  · intro p' el' he' hd hnp
    rw [(hperm.map (·.1)).mem_iff, List.map_cons, List.mem_cons]
    by_cases e : p' = p
    · exact .inl e
    · exact .inr (h.complete p' el' he' hd (fun hp' => hnp ⟨hp', e⟩))
  · intro q ct
    rw [hT, h.defd]
    constructor
    · rintro (⟨n, hn, hd⟩ | ⟨n, hn, hd⟩)
      · exact ⟨n, hflat.mem_iff.mpr (List.mem_append_right _ hn), hd⟩
      · exact ⟨n, hflat.mem_iff.mpr (List.mem_append_left _ hn), hd⟩
    · rintro ⟨n, hn, hd⟩
      rcases List.mem_append.mp (hflat.mem_iff.mp hn) with hn | hn
      · exact .inr ⟨n, hn, hd⟩
      · exact .inl ⟨n, hn, hd⟩
  · rw [((hflat.filterMap _).map _).nodup_iff, List.filterMap_append, List.map_append, List.nodup_append]
    refine ⟨huniq, h.uniq, ?_⟩
    intro a ha b hb e
    subst e
    obtain ⟨⟨q, ct⟩, hq, rfl⟩ := List.mem_map.mp ha
    obtain ⟨n, hn, hd⟩ := List.mem_filterMap.mp hq
    obtain ⟨⟨q', ct'⟩, hq', e⟩ := List.mem_map.mp hb
    obtain ⟨n', hn', hd'⟩ := List.mem_filterMap.mp hq'
    simp only at e
    subst e
    have h1 := hfresh n hn _ ct hd
    have h2 : c.types q' = some (.defined ct') := (h.defd q' ct').mpr ⟨n', hn', hd'⟩
    exact isDefined_false.mp h1 ct' h2
  · intro q hq
    rcases hD q hq with hq | hq
    · exact h.decl q hq
    · exact hq
  · intro q e vs hq
    rcases (hT q _).mp hq with hq | ⟨n, hn, hd⟩
    · obtain ⟨evs, b, h1⟩ := h.comp q e vs hq
      exact ⟨evs, b, hmono _ _ h1⟩
    · obtain ⟨evs, b, n', hn', hd'⟩ := hcomp n hn q e vs hd
      exact ⟨evs, b, (hT _ _).mpr (.inr ⟨n', hn', hd'⟩)⟩
  · intro q hq
    rcases hroots q hq with hq | ⟨hq, hr⟩
    · obtain ⟨h1, h2⟩ := h.roots q hq
      exact ⟨hmono _ _ h1, h2⟩
    · exact ⟨hmono _ _ hq, p, el, ns, he, hn, hr⟩
  · intro p' el' he' hnp
    by_cases e : p' = p
    · subst e
      rw [he] at he'
      cases he'
      exact ⟨ns, hn, hreq⟩
    · obtain ⟨ns', h1, h2⟩ := h.rooted p' el' he' (fun hp' => hnp ⟨hp', e⟩)
      exact ⟨ns', h1, fun q hq => hroots' q (h2 q hq)⟩
  · intro p' el' he' hnp
    by_cases e : p' = p
    · subst e
      rw [he] at he'
      cases he'
      exact ⟨_, _, hs⟩
    · exact h.supported p' el' he' (fun hp' => hnp ⟨hp', e⟩)

/-- A step that changes nothing but roots, the namespace and declared tables. -/
theorem Inv.other {E : List Element} {Ok : Nat → Option Ast.QIdent → Prop} {c c₁ : Ctx} {pend pend' : Nat → Prop} (h : Inv E Ok c pend)
    (hnodes : c₁.nodes = c.nodes)
    (hT : ∀ q ct, c₁.types q = some (.defined ct) ↔ c.types q = some (.defined ct))
    (hD : ∀ q, c₁.types q = some .tableDeclared → c.types q = some .tableDeclared ∨ TableName E Ok q)
    (hsub : ∀ q, pend' q → pend q)
    (hnew : ∀ p el, E[p]? = some el → ¬ pend' p → pend p → declares el = false ∧ (∃ c c', Stepped c p el true c') ∧
      ∃ ns, Ok p ns ∧ ∀ q, Requests ns q el → q ∈ c₁.roots)
    (hroots : ∀ q ∈ c₁.roots, q ∈ c.roots ∨ c.types q = some (.defined .table) ∧
      ∃ p el ns, E[p]? = some el ∧ Ok p ns ∧ Requests ns q el)
    (hroots' : ∀ q ∈ c.roots, q ∈ c₁.roots) :
    Inv E Ok c₁ pend' := by
  have hmono : ∀ q ct, c.types q = some (.defined ct) → c₁.types q = some (.defined ct) := fun q ct hq => (hT q ct).mpr hq
  refine ⟨?_, ?_, ?_, ?_, ?_, ?_, ?_, ?_, ?_, ?_, ?_⟩
  · intro x hx
    rw [hnodes] at hx
    obtain ⟨el', ns', h1, h2, h3⟩ := h.emits x hx
    exact ⟨el', ns', h1, h2, emits_later hmono h3⟩
  · rw [hnodes]; exact h.sorted
  · intro x hx hp'
    rw [hnodes] at hx
    exact h.past x hx (hsub _ hp')
  · intro p el he hd hnp
    rw [hnodes]
    by_cases hp : pend p
    · have := (hnew p el he hnp hp).1
      rw [hd] at this; cases this
    · exact h.complete p el he hd hp
  · intro q ct
    rw [hT, h.defd, hnodes]
  · rw [hnodes]; exact h.uniq
  · intro q hq
    rcases hD q hq with hq | hq
    · exact h.decl q hq
    · exact hq
  · intro q e vs hq
    obtain ⟨evs, b, h1⟩ := h.comp q e vs ((hT _ _).mp hq)
    exact ⟨evs, b, hmono _ _ h1⟩
  · intro q hq
    rcases hroots q hq with hq | ⟨hq, hr⟩
    · obtain ⟨h1, h2⟩ := h.roots q hq
      exact ⟨hmono _ _ h1, h2⟩
    · exact ⟨hmono _ _ hq, hr⟩
  · intro p el he hnp
    by_cases hp : pend p
    · exact (hnew p el he hnp hp).2.2
    · obtain ⟨ns', h1, h2⟩ := h.rooted p el he hp
      exact ⟨ns', h1, fun q hq => hroots' q (h2 q hq)⟩
  · intro p el he hnp
    by_cases hp : pend p
    · exact (hnew p el he hnp hp).2.1
    · exact h.supported p el he hp

theorem inv_init (E : List Element) (Ok : Nat → Option Ast.QIdent → Prop) : Inv E Ok .init (fun p => p < E.length) := by
  refine ⟨?_, ?_, ?_, ?_, ?_, ?_, ?_, ?_, ?_, ?_, ?_⟩ <;> try (simp [Ctx.init]; done)
  · intro p el he _ hnp
    exact absurd (List.getElem?_eq_some_iff.mp he).1 hnp
  · intro p el he hnp
    exact absurd (List.getElem?_eq_some_iff.mp he).1 hnp
  · intro p el he hnp
    exact absurd (List.getElem?_eq_some_iff.mp he).1 hnp

theorem setType_types (c : Ctx) (q : QIdent) (s : Status) (q' : QIdent) :
    (c.setType q s).types q' = if q' = q then some s else c.types q' := rfl

theorem qualify_ne_unionEnum (ns : Option Ast.QIdent) (u : Ast.Union) (i : Ident) :
    qualify ns i ≠ unionEnumIdent ns u := by
  intro h
  have := congrArg List.length h
  simp [qualify, unionEnumIdent, qualifyRel] at this

theorem pend_self {pend : Nat → Prop} {p : Nat} : ∀ q, (pend q ∧ q ≠ p) → pend q := fun _ h => h.1

theorem inv_step {E : List Element} {Ok : Nat → Option Ast.QIdent → Prop} {c c' : Ctx} {pend : Nat → Prop} {p : Nat} {el : Element} {b : Bool}
    (h : Inv E Ok c pend) (he : E[p]? = some el) (hp : pend p) (hn : Ok p c.ns) (hs : Stepped c p el b c') :
    Inv E Ok c' (fun q => pend q ∧ (b = true → q ≠ p)) := by
  have hb1 : b = true → (fun q => pend q ∧ (b = true → q ≠ p)) = fun q => pend q ∧ q ≠ p := by
    intro hb; funext q; simp [hb]
  have hb2 : b = false → (fun q => pend q ∧ (b = true → q ≠ p)) = pend := by
    intro hb; funext q; simp [hb]
  have hs0 := hs
  cases hs with
  | «namespace» n d =>
    rw [hb1 rfl]
    refine h.other rfl (fun _ _ => Iff.rfl) (fun q hq => .inl hq) pend_self ?_ (fun q hq => .inl hq) (fun q hq => hq)
    intro p' el' he' h1 h2
    have e : p' = p := by
      by_cases e : p' = p
      · exact e
      · exact absurd ⟨h2, e⟩ h1
    subst e
    rw [he] at he'; cases he'
    exact ⟨rfl, ⟨_, _, hs0⟩, c.ns, hn, fun q hq => hq.elim⟩
  | tableDone t fields hd hf =>
    rw [hb1 rfl]
    have hlooks : Looks E Ok (c.setType (qualify c.ns (mkIdent t.id)) .tableDeclared) := by
      refine ⟨?_, ?_⟩
      · intro q hq
        rw [setType_types] at hq
        split at hq
        · rename_i e
          exact ⟨p, t, c.ns, he, hn, e⟩
        · exact h.decl q hq
      · intro q e vs hq
        rw [setType_types] at hq
        split at hq
        · cases hq
        · obtain ⟨evs, b, h1⟩ := h.comp q e vs hq
          refine ⟨evs, b, ?_⟩
          rw [setType_types, if_neg, h1]
          rintro rfl
          exact isDefined_false.mp hd _ h1
    have hm := tableFields_means hlooks hf
    have hT : ∀ q ct, ((c.setType (qualify c.ns (mkIdent t.id)) .tableDeclared).setType
        (qualify c.ns (mkIdent t.id)) (.defined .table)).types q = some (.defined ct) ↔
        c.types q = some (.defined ct) ∨
          ∃ n ∈ [Node.table ⟨qualify c.ns (mkIdent t.id), fields, false, t.doc⟩], n.defines = some (q, ct) := by
      intro q ct
      simp only [setType_types, List.mem_singleton, exists_eq_left, Node.defines, Option.some.injEq, Prod.mk.injEq]
      by_cases e : q = qualify c.ns (mkIdent t.id)
      · subst e
        simp only [if_true, Option.some.injEq, Status.defined.injEq, true_and]
        constructor
        · intro h; exact .inr h
        · rintro (h | h)
          · exact absurd h (isDefined_false.mp hd ct)
          · exact h
      · simp [e, Ne.symm e]
    refine h.define (c₁ := ((c.setType (qualify c.ns (mkIdent t.id)) .tableDeclared).setType
        (qualify c.ns (mkIdent t.id)) (.defined .table)).addNodes p
        [.table ⟨qualify c.ns (mkIdent t.id), fields, false, t.doc⟩]) he hp hn hs0 rfl hT ?_ ?_ ?_ ?_ ?_
        (fun q hq => .inl hq) (fun q hq => hq) (fun q hq => hq.elim)
    · intro q hq
      simp only [Ctx.addNodes, setType_types] at hq
      split at hq
      · cases hq
      · exact .inl hq
    · refine .table t fields false (fieldsMean_later ?_ hm)
      intro q ct hq
      refine (hT q ct).mpr (.inl ?_)
      simp only [setType_types] at hq
      split at hq
      · cases hq
      · exact hq
    · simp [Node.defines]
    · intro n hn q ct hd'
      simp only [List.mem_singleton] at hn
      subst hn
      simp only [Node.defines, Option.some.injEq, Prod.mk.injEq] at hd'
      rw [← hd'.1]; exact hd
    · intro n hn q e vs hd'
      simp only [List.mem_singleton] at hn
      subst hn
      simp [Node.defines] at hd'
  | tableWait t hd hf =>
    rw [hb2 rfl]
    refine h.other rfl ?_ ?_ (fun q hq => hq) (fun p' el' _ h1 h2 => absurd h2 h1) (fun q hq => .inl hq)
      (fun q hq => hq)
    · intro q ct
      rw [setType_types]
      split
      · rename_i e
        subst e
        constructor
        · intro h; cases h
        · intro h; exact absurd h (isDefined_false.mp hd ct)
      · exact Iff.rfl
    · intro q hq
      rw [setType_types] at hq
      split at hq
      · rename_i e
        exact .inr ⟨p, t, c.ns, he, hn, e⟩
      · exact .inl hq
  | structDone s fields hd hf =>
    rw [hb1 rfl]
    have hm := structFields_means h.looks hf
    have hT : ∀ q ct, (c.setType (qualify c.ns (mkIdent s.id)) (.defined (.struct fields))).types q = some (.defined ct) ↔
        c.types q = some (.defined ct) ∨
          ∃ n ∈ [Node.struct ⟨qualify c.ns (mkIdent s.id), fields, s.doc⟩], n.defines = some (q, ct) := by
      intro q ct
      simp only [setType_types, List.mem_singleton, exists_eq_left, Node.defines, Option.some.injEq, Prod.mk.injEq]
      by_cases e : q = qualify c.ns (mkIdent s.id)
      · subst e
        simp only [if_true, Option.some.injEq, Status.defined.injEq, true_and]
        constructor
        · intro h; exact .inr h
        · rintro (h | h)
          · exact absurd h (isDefined_false.mp hd ct)
          · exact h
      · simp [e, Ne.symm e]
    refine h.define (c₁ := (c.setType (qualify c.ns (mkIdent s.id)) (.defined (.struct fields))).addNodes p
        [.struct ⟨qualify c.ns (mkIdent s.id), fields, s.doc⟩]) he hp hn hs0 rfl hT ?_ ?_ ?_ ?_ ?_
        (fun q hq => .inl hq) (fun q hq => hq) (fun q hq => hq.elim)
    · intro q hq
      simp only [Ctx.addNodes, setType_types] at hq
      split at hq
      · cases hq
      · exact .inl hq
    · refine emits_later ?_ (Emits.struct s fields hm)
      intro q ct hq
      exact (hT q ct).mpr (.inl hq)
    · simp [Node.defines]
    · intro n hn q ct hd'
      simp only [List.mem_singleton] at hn
      subst hn
      simp only [Node.defines, Option.some.injEq, Prod.mk.injEq] at hd'
      rw [← hd'.1]; exact hd
    · intro n hn q e vs hd'
      simp only [List.mem_singleton] at hn
      subst hn
      simp [Node.defines] at hd'
  | structWait s hd hf => rw [hb2 rfl]; exact h
  | enum e base hd hb =>
    rw [hb1 rfl]
    have hT : ∀ q ct, (c.setType (qualify c.ns (mkIdent e.id))
        (.defined (.enum (enumVariants e.variants) base))).types q = some (.defined ct) ↔
        c.types q = some (.defined ct) ∨
          ∃ n ∈ [Node.enum ⟨qualify c.ns (mkIdent e.id), enumVariants e.variants, base, e.doc⟩],
            n.defines = some (q, ct) := by
      intro q ct
      simp only [setType_types, List.mem_singleton, exists_eq_left, Node.defines, Option.some.injEq, Prod.mk.injEq]
      by_cases e' : q = qualify c.ns (mkIdent e.id)
      · subst e'
        simp only [if_true, Option.some.injEq, Status.defined.injEq, true_and]
        constructor
        · intro h; exact .inr h
        · rintro (h | h)
          · exact absurd h (isDefined_false.mp hd ct)
          · exact h
      · simp [e', Ne.symm e']
    refine h.define (c₁ := (c.setType (qualify c.ns (mkIdent e.id))
        (.defined (.enum (enumVariants e.variants) base))).addNodes p
        [.enum ⟨qualify c.ns (mkIdent e.id), enumVariants e.variants, base, e.doc⟩]) he hp hn hs0 rfl hT ?_ ?_ ?_ ?_ ?_
        (fun q hq => .inl hq) (fun q hq => hq) (fun q hq => hq.elim)
    · intro q hq
      simp only [Ctx.addNodes, setType_types] at hq
      split at hq
      · cases hq
      · exact .inl hq
    · exact Emits.enum e base hb
    · simp [Node.defines]
    · intro n hn q ct hd'
      simp only [List.mem_singleton] at hn
      subst hn
      simp only [Node.defines, Option.some.injEq, Prod.mk.injEq] at hd'
      rw [← hd'.1]; exact hd
    · intro n hn q e vs hd'
      simp only [List.mem_singleton] at hn
      subst hn
      simp [Node.defines] at hd'
  | unionDone u vs hd hv hg =>
    rw [hb1 rfl]
    have hm := unionVariants_means h.looks hv
    have hne := qualify_ne_unionEnum c.ns u (mkIdent u.id)
    have hT : ∀ q ct, ((c.setType (unionEnumIdent c.ns u)
        (.defined (.enum (unionEnumVariants u.variants) .ubyte))).setType
          (qualify c.ns (mkIdent u.id)) (.defined (.union (unionEnumIdent c.ns u) vs))).types q =
            some (.defined ct) ↔
        c.types q = some (.defined ct) ∨
          ∃ n ∈ [Node.enum ⟨unionEnumIdent c.ns u, unionEnumVariants u.variants, .ubyte, u.doc⟩,
            .union ⟨qualify c.ns (mkIdent u.id), unionEnumIdent c.ns u, vs, u.doc⟩], n.defines = some (q, ct) := by
      intro q ct
      simp only [setType_types, List.mem_cons, List.not_mem_nil, or_false, exists_eq_or_imp, exists_eq_left,
        Node.defines, Option.some.injEq, Prod.mk.injEq]
      by_cases e : q = qualify c.ns (mkIdent u.id)
      · subst e
        simp only [if_true, Option.some.injEq, Status.defined.injEq, true_and, Ne.symm hne, false_and, false_or]
        constructor
        · intro h; exact .inr h
        · rintro (h | h)
          · exact absurd h (isDefined_false.mp hd ct)
          · exact h
      · by_cases e2 : q = unionEnumIdent c.ns u
        · subst e2
          simp only [if_neg e, if_true, Option.some.injEq, Status.defined.injEq, true_and, Ne.symm e, false_and,
            or_false]
          constructor
          · intro h; exact .inr h
          · rintro (h | h)
            · exact absurd h (isDefined_false.mp hg ct)
            · exact h
        · simp [e, Ne.symm e, e2, Ne.symm e2]
    refine h.define (c₁ := ((c.setType (unionEnumIdent c.ns u)
        (.defined (.enum (unionEnumVariants u.variants) .ubyte))).setType
          (qualify c.ns (mkIdent u.id)) (.defined (.union (unionEnumIdent c.ns u) vs))).addNodes p
          [.enum ⟨unionEnumIdent c.ns u, unionEnumVariants u.variants, .ubyte, u.doc⟩,
            .union ⟨qualify c.ns (mkIdent u.id), unionEnumIdent c.ns u, vs, u.doc⟩]) he hp hn hs0 rfl hT ?_ ?_ ?_ ?_ ?_
        (fun q hq => .inl hq) (fun q hq => hq) (fun q hq => hq.elim)
    · intro q hq
      simp only [Ctx.addNodes, setType_types] at hq
      split at hq
      · cases hq
      · split at hq
        · cases hq
        · exact .inl hq
    · refine emits_later ?_ (Emits.union u vs hm)
      intro q ct hq
      exact (hT q ct).mpr (.inl hq)
    · simp [Node.defines, Ne.symm hne]
    · intro n hn q ct hd'
      simp only [List.mem_cons, List.not_mem_nil, or_false] at hn
      rcases hn with rfl | rfl <;> simp only [Node.defines, Option.some.injEq, Prod.mk.injEq] at hd' <;>
        rw [← hd'.1] <;> assumption
    · intro n hn q e ws hd'
      simp only [List.mem_cons, List.not_mem_nil, or_false] at hn
      rcases hn with rfl | rfl
      · simp [Node.defines] at hd'
      · simp only [Node.defines, Option.some.injEq, Prod.mk.injEq, CustomType.union.injEq] at hd'
        obtain ⟨rfl, rfl, rfl⟩ := hd'
        exact ⟨unionEnumVariants u.variants, .ubyte, _, List.mem_cons_self, rfl⟩
  | unionWait u hd hv => rw [hb2 rfl]; exact h
  | rootDone t d ht =>
    rw [hb1 rfl]
    refine h.other rfl (fun _ _ => Iff.rfl) (fun q hq => .inl hq) pend_self ?_ ?_ (fun q hq => by simp [hq])
    · intro p' el' he' h1 h2
      have e : p' = p := by
        by_cases e : p' = p
        · exact e
        · exact absurd ⟨h2, e⟩ h1
      subst e
      rw [he] at he'; cases he'
      refine ⟨rfl, ⟨_, _, hs0⟩, c.ns, hn, fun q hq => ?_⟩
      simp only [Requests] at hq
      subst hq
      exact List.mem_cons_self
    · intro q hq
      simp only [List.mem_cons] at hq
      rcases hq with rfl | hq
      · exact .inr ⟨ht, p, _, c.ns, he, hn, rfl⟩
      · exact .inl hq
  | rootWait t d ht => rw [hb2 rfl]; exact h
  | rpcDone r ms c1 hm =>
    rw [hb1 rfl]
    obtain ⟨f1, f2, f3, f4, f5⟩ := rpcMethods_frame hm
    obtain ⟨m1, m2⟩ := rpcMethods_means (E := E) (Ok := Ok) hm
    refine h.define (c₁ := c1.addNodes p [.rpc ⟨qualify c.ns (mkIdent r.id), ms, r.doc⟩])
      (new := [.rpc ⟨qualify c.ns (mkIdent r.id), ms, r.doc⟩]) he hp hn hs0 ?_ ?_ ?_ ?_ ?_ ?_ ?_ ?_ ?_ ?_
    · simp [Ctx.addNodes, f3]
    · intro q ct
      simp [Ctx.addNodes, f2, Node.defines]
    · intro q hq
      exact .inl (by rw [← f2]; exact hq)
    · refine emits_later ?_ (Emits.rpc r ms m1)
      intro q ct hq
      simpa [Ctx.addNodes, f2] using hq
    · exact List.nodup_nil
    · intro n hn q ct hd'
      simp only [List.mem_singleton] at hn
      subst hn
      simp [Node.defines] at hd'
    · intro n hn q e vs hd'
      simp only [List.mem_singleton] at hn
      subst hn
      simp [Node.defines] at hd'
    · intro q hq
      simp only [Ctx.addNodes] at hq
      rcases f5 q hq with h | ⟨h, m, hm, h'⟩
      · exact .inl h
      · exact .inr ⟨h, m, hm, by simpa only [qualifyRef_eq] using h'⟩
    · intro q hq; exact f4 q hq
    · rintro q ⟨m, hm, rfl | rfl⟩
      · exact (m2 m hm).1
      · exact (m2 m hm).2
  | rpcWait r c' hm =>
    rw [hb2 rfl]
    obtain ⟨f1, f2, f3, f4, f5⟩ := rpcMethods_frame hm
    refine h.other f3 (fun q ct => by rw [f2]) (fun q hq => .inl (by rw [← f2]; exact hq)) (fun q hq => hq)
      (fun p' el' _ h1 h2 => absurd h2 h1) ?_ f4
    intro q hq
    rcases f5 q hq with h | ⟨h, m, hm, h'⟩
    · exact .inl h
    · exact .inr ⟨h, p, _, c.ns, he, hn, m, hm, by simpa only [qualifyRef_eq] using h'⟩

theorem run_inv {E : List Element} {Ok : Nat → Option Ast.QIdent → Prop} {c : Ctx} {pend : Nat → Prop} (h : Run E Ok c pend) : Inv E Ok c pend := by
  induction h with
  | init => exact inv_init E Ok
  | done r he hp hn hs ih => simpa using inv_step ih he hp hn hs
  | wait r he hp hn hs ih => simpa using inv_step ih he hp hn hs

end Butte.Ir
