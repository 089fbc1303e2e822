import Verif.Ir.Starts
import Mathlib.Data.List.Perm.Basic
/-
What the output of the analysis says about the schema, in terms of the output alone.
-/
namespace Butte.Ir
open Ast (Element)

/-- The user types named by a resolved type. -/
def Ty.mentions : Ty → List QIdent
  | .builtin _ | .string => []
  | .array t => t.mentions
  | .table q | .struct q _ | .enum q _ _ => [q]
  | .union q e _ => [q, e]

/-- The user types named in an item. -/
def Node.mentions : Node → List QIdent
  | .table t => t.fields.flatMap fun f => f.ty.mentions
  | .struct s => s.fields.flatMap fun f => f.ty.mentions
  | .enum _ => []
  | .union u => u.enumIdent :: u.variants.flatMap fun v => v.ty.mentions
  | .rpc r => r.methods.flatMap fun m => [m.requestType, m.responseType]
  | .namespace .. => []

/-- The items of an output, each with the modules around it. -/
def itemsOf (out : List Node) : List (List Ident × Node) := Node.leavesL [] out

/-- Every type named in the output is defined in it. -/
def NoDangling (out : List Node) : Prop :=
  ∀ x ∈ itemsOf out, ∀ q ∈ x.2.mentions, ∃ y ∈ itemsOf out, ∃ ct, y.2.defines = some (q, ct)

/-- The whole translation of a schema: each declaration gives its items once, in order, in the namespace it is
written in; all names mean types defined by the output; type names are distinct; the root tables are those asked
for, and what is asked for are tables. -/
def Translates (E : List Element) (out : List Node) : Prop :=
  ∃ groups : List (List Node), HoldsItems out groups.flatten ∧
    All₂ (fun p g => ∃ el, E[p]? = some el ∧ Emits (Names.ofItems groups.flatten) (lastNs (E.take p)) el g)
      (declPositions E) groups ∧
    ((groups.flatten.filterMap Node.defines).map (·.1)).Nodup ∧
    (∀ t, .table t ∈ groups.flatten →
      (t.rootType = true ↔ ∃ p el, E[p]? = some el ∧ Requests (lastNs (E.take p)) t.ident el)) ∧
    (∀ p el q, E[p]? = some el → Requests (lastNs (E.take p)) q el → (Names.ofItems groups.flatten).dfn q .table)

theorem translates_one {s : Ast.Schema} {out : List Node} (h1 : OneNamespace s.elements)
    (h : build s = some (.ok out)) : Translates s.elements out := by
  obtain ⟨c, hr, rfl⟩ := build_ok h
  have hw : ∀ p el ns, s.elements[p]? = some el → (∀ n d, el ≠ .namespace n d) → NsOk s.elements p ns →
      ns = lastNs (s.elements.take p) := fun p el ns he hne hn => (oneNs h1 he hne hn).trans (h1 p el he hne).symm
  have hreq : ∀ {el : Element} {ns q}, Requests ns q el → ∀ n d, el ≠ .namespace n d := by
    rintro el ns q hq n d rfl; cases hq
  obtain ⟨groups, g1, g2, g3, g4, g5⟩ := run_resolved
    (fun p el ns ns' he hne hn hn' => (hw p el ns he hne hn).trans (hw p el ns' he hne hn').symm) hr
  refine ⟨groups, g1, ?_, g3, ?_, ?_⟩
  · refine forall₂_imp ?_ g2
    rintro p g ⟨el, ns, he, hn, hem⟩
    have := hw p el ns he (declares_not_ns (emits_declares hem)) hn
    exact ⟨el, he, this ▸ hem⟩
  · intro t ht
    rw [g4 t ht]
    constructor
    · rintro ⟨p, el, ns, he, hn, hq⟩
      exact ⟨p, el, he, hw p el ns he (hreq hq) hn ▸ hq⟩
    · rintro ⟨p, el, he, hq⟩
      exact ⟨p, el, _, he, .inl rfl, hq⟩
  · intro p el q he hq
    exact g5 p el _ q he (.inl rfl) hq

theorem translates_in_order {s : Ast.Schema} {out : List Node} (h1 : InOrder s.elements)
    (h : build s = some (.ok out)) : Translates s.elements out := by
  obtain ⟨c, hr, rfl⟩ := in_order_run h1 h
  obtain ⟨groups, g1, g2, g3, g4, g5⟩ := run_resolved (fun p el ns ns' _ _ hn hn' => hn.trans hn'.symm) hr
  refine ⟨groups, g1, ?_, g3, ?_, fun p el q he hq => g5 p el _ q he rfl hq⟩
  · refine forall₂_imp ?_ g2
    rintro p g ⟨el, ns, he, hn, hem⟩
    exact ⟨el, he, (show ns = _ from hn) ▸ hem⟩
  · intro t ht
    rw [g4 t ht]
    constructor
    · rintro ⟨p, el, ns, he, hn, hq⟩
      exact ⟨p, el, he, (show ns = _ from hn) ▸ hq⟩
    · rintro ⟨p, el, he, hq⟩
      exact ⟨p, el, _, he, rfl, hq⟩

theorem holds_path {out items : List Node} (h : HoldsItems out items) {x : List Ident × Node} (hx : x ∈ itemsOf out) :
    x.2 ∈ items ∧ x.2.ident.dropLast = x.1 := by
  have := h.1 x.1
  have hm : x.2 ∈ ((Node.leavesL [] out).filter fun y => y.1 == x.1).map (·.2) :=
    List.mem_map.mpr ⟨x, List.mem_filter.mpr ⟨hx, by simp⟩, rfl⟩
  rw [this, List.mem_filter] at hm
  exact ⟨hm.1, by simpa using hm.2⟩

theorem holds_mem {out items : List Node} (h : HoldsItems out items) {n : Node} (hn : n ∈ items) :
    (n.ident.dropLast, n) ∈ itemsOf out := by
  have := h.1 n.ident.dropLast
  have hm : n ∈ items.filter fun m => m.ident.dropLast == n.ident.dropLast := List.mem_filter.mpr ⟨hn, by simp⟩
  rw [← this] at hm
  obtain ⟨x, hx, e⟩ := List.mem_map.mp hm
  obtain ⟨hx', e'⟩ := List.mem_filter.mp hx
  have e' : x.1 = n.ident.dropLast := by simpa using e'
  obtain ⟨a, b⟩ := x
  simp only at e e'
  subst e; subst e'
  exact hx'

/-- The items of the tree are the given items, each as often as it is given. -/
theorem holds_perm {out items : List Node} (h : HoldsItems out items) : ((itemsOf out).map (·.2)).Perm items := by
  classical
  rw [List.perm_iff_count]
  intro a
  have h1 : ((itemsOf out).map (·.2)).count a =
      (((itemsOf out).filter fun x => x.1 == a.ident.dropLast).map (·.2)).count a := by
    rw [List.count_eq_countP, List.count_eq_countP, List.countP_map, List.countP_map, List.countP_filter]
    apply List.countP_congr
    intro x hx
    have := (holds_path h hx).2
    simp only [Function.comp, beq_iff_eq, Bool.and_eq_true]
    constructor
    · intro e; exact ⟨e, by rw [← this, e]⟩
    · exact fun e => e.1
  rw [h1]
  have := h.1 a.ident.dropLast
  rw [show ((itemsOf out).filter fun x => x.1 == a.ident.dropLast).map (·.2) =
    items.filter fun n => n.ident.dropLast == a.ident.dropLast from this]
  rw [List.count_eq_countP, List.count_eq_countP, List.countP_filter]
  apply List.countP_congr
  intro x hx
  simp only [beq_iff_eq, Bool.and_eq_true]
  constructor
  · exact fun e => e.1
  · intro e; exact ⟨e, by rw [e]⟩

theorem means_mentions {N : Names} {ns : Option Ast.QIdent} {t : Ast.Ty} {ty : Ty} (h : Means N ns t ty)
    (hN : ∀ q, N.tab q → N.dfn q .table) (hu : ∀ q e vs, N.dfn q (.union e vs) → ∃ ct, N.dfn e ct) :
    ∀ q ∈ ty.mentions, ∃ ct, N.dfn q ct := by
  induction h with
  | builtin b => intro q hq; cases hq
  | string => intro q hq; cases hq
  | array _ ih => exact ih
  | table r h =>
    intro q hq
    simp only [Ty.mentions, List.mem_singleton] at hq
    subst hq
    exact ⟨_, hN _ h⟩
  | custom r ct h =>
    intro q hq
    cases ct with
    | union e vs =>
      simp only [CustomType.ref, Ty.mentions, List.mem_cons, List.not_mem_nil, or_false] at hq
      rcases hq with rfl | rfl
      · exact ⟨_, h⟩
      · exact hu _ _ _ h
    | _ =>
      simp only [CustomType.ref, Ty.mentions, List.mem_singleton] at hq
      subst hq
      exact ⟨_, h⟩

theorem fields_mentions {N : Names} {ns : Option Ast.QIdent} {fs : List Ast.Field} {gs : List Field}
    (h : FieldsMean N ns fs gs)
    (hN : ∀ q, N.tab q → N.dfn q .table) (hu : ∀ q e vs, N.dfn q (.union e vs) → ∃ ct, N.dfn e ct) :
    ∀ g ∈ gs, ∀ q ∈ g.ty.mentions, ∃ ct, N.dfn q ct := by
  induction h with
  | nil => intro g hg; cases hg
  | plain hq hm _ _ ih =>
    intro g hg
    rcases List.mem_cons.mp hg with rfl | hg
    · exact means_mentions hm hN hu
    · exact ih g hg
  | union hq hm he _ ih =>
    intro g hg
    rcases List.mem_cons.mp hg with rfl | hg
    · intro q hq
      simp only [Ty.mentions, List.mem_singleton] at hq
      subst hq
      exact ⟨_, he⟩
    · rcases List.mem_cons.mp hg with rfl | hg
      · exact means_mentions hm hN hu
      · exact ih g hg

theorem all₂_right {α β : Type} {R : α → β → Prop} {l : List α} {l' : List β} (h : All₂ R l l') {b : β} (hb : b ∈ l') :
    ∃ a ∈ l, R a b := by
  induction h with
  | nil => cases hb
  | cons h t ih =>
    rcases List.mem_cons.mp hb with rfl | hb
    · exact ⟨_, by simp, h⟩
    · obtain ⟨a, ha, hr⟩ := ih hb
      exact ⟨a, by simp [ha], hr⟩

/-- The types mentioned by the items of a declaration are in the vocabulary. -/
theorem emits_mentions {N : Names} {ns : Option Ast.QIdent} {el : Element} {g : List Node} (h : Emits N ns el g)
    (hN : ∀ q, N.tab q → N.dfn q .table) (hu : ∀ q e vs, N.dfn q (.union e vs) → ∃ ct, N.dfn e ct)
    (hg : ∀ n ∈ g, ∀ d, n.defines = some d → N.dfn d.1 d.2) :
    ∀ n ∈ g, ∀ q ∈ n.mentions, ∃ ct, N.dfn q ct := by
  intro n hn q hq
  cases h with
  | table t fields root h =>
    simp only [List.mem_singleton] at hn
    subst hn
    obtain ⟨f, hf, hq⟩ := List.mem_flatMap.mp hq
    exact fields_mentions h hN hu f hf q hq
  | struct s fields h =>
    simp only [List.mem_singleton] at hn
    subst hn
    obtain ⟨f, hf, hq⟩ := List.mem_flatMap.mp hq
    obtain ⟨_, _, ty, hm, _, rfl⟩ := all₂_right h hf
    exact means_mentions hm hN hu q hq
  | enum e base h =>
    simp only [List.mem_singleton] at hn
    subst hn
    cases hq
  | union u vs h =>
    have he := hg _ List.mem_cons_self _ rfl
    simp only [List.mem_cons, List.not_mem_nil, or_false] at hn
    rcases hn with rfl | rfl
    · cases hq
    · rcases List.mem_cons.mp hq with rfl | hq
      · exact ⟨_, he⟩
      · obtain ⟨v, hv, hq⟩ := List.mem_flatMap.mp hq
        obtain ⟨_, _, ty, hm, rfl⟩ := all₂_right h hv
        exact means_mentions hm hN hu q hq
  | rpc r ms h =>
    simp only [List.mem_singleton] at hn
    subst hn
    obtain ⟨m, hm, hq⟩ := List.mem_flatMap.mp hq
    obtain ⟨_, _, h1, h2, _, _, rfl⟩ := all₂_right h hm
    simp only [List.mem_cons, List.not_mem_nil, or_false] at hq
    rcases hq with rfl | rfl
    · exact ⟨_, h1⟩
    · exact ⟨_, h2⟩

theorem emits_companion {N : Names} {ns : Option Ast.QIdent} {el : Element} {g : List Node} (h : Emits N ns el g)
    {q e : QIdent} {vs : List UnionVariant} {n : Node} (hn : n ∈ g) (hd : n.defines = some (q, .union e vs)) :
    ∃ m ∈ g, ∃ ct, m.defines = some (e, ct) := by
  cases h with
  | union u ws h =>
    simp only [List.mem_cons, List.not_mem_nil, or_false] at hn
    rcases hn with rfl | rfl
    · simp [Node.defines] at hd
    · simp only [Node.defines, Option.some.injEq, Prod.mk.injEq, CustomType.union.injEq] at hd
      obtain ⟨_, rfl, _⟩ := hd
      exact ⟨_, List.mem_cons_self, _, rfl⟩
  | _ => simp only [List.mem_singleton] at hn; subst hn; simp [Node.defines] at hd

theorem translates_noDangling {E : List Element} {out : List Node} (h : Translates E out) : NoDangling out := by
  obtain ⟨groups, g1, g2, _⟩ := h
  intro x hx q hq
  have hx := (holds_path g1 hx).1
  obtain ⟨g, hg, hxg⟩ := List.mem_flatten.mp hx
  obtain ⟨p, _, el, _, hem⟩ := all₂_right g2 hg
  obtain ⟨ct, n, hn, hd⟩ := emits_mentions hem (fun q h => h)
    (by
      rintro q e vs ⟨n, hn, hd⟩
      obtain ⟨g', hg', hn'⟩ := List.mem_flatten.mp hn
      obtain ⟨_, _, _, _, hem'⟩ := all₂_right g2 hg'
      obtain ⟨m, hm, ct, hd'⟩ := emits_companion hem' hn' hd
      exact ⟨ct, m, List.mem_flatten.mpr ⟨g', hg', hm⟩, hd'⟩)
    (fun n hn d hd => ⟨n, List.mem_flatten.mpr ⟨g, hg, hn⟩, hd⟩) _ hxg q hq
  exact ⟨_, holds_mem g1 hn, ct, hd⟩

/-- The type names written at the positions of a schema. -/
def writtenNames (E : List Element) (p : Nat) : List QIdent :=
  match E[p]? with
  | some el => (declared (lastNs (E.take p)) el).map (·.1)
  | none => []

theorem translates_distinct {E : List Element} {out : List Node} (h : Translates E out) {p p' : Nat} {q : QIdent}
    (h1 : q ∈ writtenNames E p) (h2 : q ∈ writtenNames E p') : p = p' := by
  obtain ⟨groups, _, g2, g3, _⟩ := h
  have hnames : ∀ {ps : List Nat} {gs : List (List Node)}, All₂ (fun p g => ∃ el, E[p]? = some el ∧
      Emits (Names.ofItems groups.flatten) (lastNs (E.take p)) el g) ps gs →
      (gs.flatten.filterMap Node.defines).map (·.1) = ps.flatMap (writtenNames E) := by
    intro ps gs ha
    induction ha with
    | nil => rfl
    | cons h t ih =>
      obtain ⟨el, he, hem⟩ := h
      have := congrArg (List.map (·.1)) (emits_defines hem)
      rw [List.map_map] at this
      rw [List.flatten_cons, List.filterMap_append, List.map_append, ih, List.flatMap_cons]
      congr 1
      simp only [writtenNames, he]
      rw [← this]; rfl
  rw [hnames g2, List.nodup_flatMap] at g3
  have hpos : ∀ {p : Nat}, q ∈ writtenNames E p → p ∈ declPositions E := by
    intro p hq
    unfold writtenNames at hq
    split at hq
    · rename_i el he
      obtain ⟨x, hx, _⟩ := List.mem_map.mp hq
      exact mem_declPositions.mpr ⟨el, he, declared_declares hx⟩
    · cases hq
  by_contra hne
  have := pairwise_mem (R := Function.onFun List.Disjoint (writtenNames E)) (fun a b h q h1 h2 => h h2 h1) g3.2
    (hpos h1) (hpos h2) hne
  exact this h1 h2

/-- Whatever the schema, the output defines no type twice. -/
theorem output_distinct {s : Ast.Schema} {out : List Node} (h : build s = some (.ok out)) :
    (((itemsOf out).filterMap fun x => x.2.defines).map (·.1)).Nodup := by
  obtain ⟨c, hr, rfl⟩ := build_ok h
  obtain ⟨groups, g1, _, g3, _⟩ := run_outcome hr
  have := ((holds_perm g1).filterMap Node.defines).map (·.1)
  rw [List.filterMap_map] at this
  exact this.nodup_iff.mpr g3

/-! ### Reordering -/

theorem declared_perm {ns : Option Ast.QIdent} {E E' : List Element} (h : E.Perm E') :
    (E.flatMap (declared ns)).Perm (E'.flatMap (declared ns)) := h.flatMap_right _

theorem wellFormed_perm {ns : Option Ast.QIdent} {E E' : List Element} (h : E.Perm E') (hw : WellFormed ns E) :
    WellFormed ns E' where
  distinct := ((declared_perm h).map (·.1)).nodup_iff.mp hw.distinct
  known el hel := hw.known el (h.mem_iff.mpr hel)
  members s hs f hf := by
    have := hw.members s (h.mem_iff.mpr hs) f hf
    generalize f.ty = t at this
    cases t with
    | ident q => exact this.imp ((declared_perm h).mem_iff.mp) ((declared_perm h).mem_iff.mp)
    | _ => exact this
  bases e he := hw.bases e (h.mem_iff.mpr he)
  tables el hel r hr := (declared_perm h).mem_iff.mp (hw.tables el (h.mem_iff.mpr hel) r hr)
  streaming r hr := hw.streaming r (h.mem_iff.mpr hr)

theorem settled_perm {ns : Option Ast.QIdent} {E E' : List Element} (h : E.Perm E') {q : QIdent}
    (hs : Settled ns E q) : Settled ns E' q := by
  induction hs with
  | table hq => exact .table ((declared_perm h).mem_iff.mp hq)
  | other hel hd _ ih => exact .other (h.mem_iff.mp hel) hd ih

theorem accepts_perm {s s' : Ast.Schema} (h : s.elements.Perm s'.elements) (h1 : OneNamespace s.elements)
    (h2 : OneNamespace s'.elements) (hn : lastNs s.elements = lastNs s'.elements)
    (hst : Starts (lastNs s.elements) s.elements) (hst' : Starts (lastNs s'.elements) s'.elements) :
    (∃ out, build s = some (.ok out)) ↔ ∃ out, build s' = some (.ok out) := by
  rw [accepts_iff h1, accepts_iff h2, ← hn]
  constructor
  · rintro ⟨a, b, _⟩
    exact ⟨wellFormed_perm h a, fun el hel r hr => settled_perm h (b el (h.mem_iff.mpr hel) r hr), hn ▸ hst'⟩
  · rintro ⟨a, b, _⟩
    exact ⟨wellFormed_perm h.symm a, fun el hel r hr => settled_perm h.symm (b el (h.mem_iff.mp hel) r hr), hst⟩

theorem starts_of_plain {ns : Option Ast.QIdent} {E : List Element}
    (h : ∃ el ∈ E, declares el = true ∧ needs el = [] ∧ tableRefs el = []) : Starts ns E := by
  obtain ⟨el, hel, hd, hn, ht⟩ := h
  obtain ⟨p, he⟩ := List.mem_iff_getElem?.mp hel
  exact .inr ⟨p, el, he, hd, ht, by rw [hn]; simp⟩

end Butte.Ir
