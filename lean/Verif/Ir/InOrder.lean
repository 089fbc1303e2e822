import Verif.Ir.Accept
/-
Schemas that declare before they use: one pass suffices, and every declaration is looked at in the namespace it is
written in.
-/
namespace Butte.Ir
open Ast (Element)

/-- Every type named in an element is declared before it in the file, names being read in the namespace in force
there; a table may name itself. -/
def InOrder (E : List Element) : Prop :=
  ∀ p el, E[p]? = some el → ∀ r ∈ needs el ++ tableRefs el,
    (∃ p' el' sh, p' < p ∧ E[p']? = some el' ∧
      (refIn (lastNs (E.take p)) r, sh) ∈ declared (lastNs (E.take p')) el') ∨
    (refIn (lastNs (E.take p)) r, .table) ∈ declared (lastNs (E.take p)) el

theorem stepped_defines {c c' : Ctx} {p : Nat} {el : Element} (h : Stepped c p el true c') {q : QIdent} {sh : Shape}
    (hq : (q, sh) ∈ declared c.ns el) : ∃ ct, c'.types q = some (.defined ct) := by
  cases h with
  | tableDone t fields hd hf =>
    simp only [declared, List.mem_singleton, Prod.mk.injEq] at hq
    refine ⟨.table, ?_⟩
    simp only [Ctx.addNodes, setType_types]
    rw [if_pos (show q = qualify c.ns (mkIdent t.id) from hq.1)]
  | structDone t fields hd hf =>
    simp only [declared, List.mem_singleton, Prod.mk.injEq] at hq
    refine ⟨.struct fields, ?_⟩
    simp only [Ctx.addNodes, setType_types]
    rw [if_pos (show q = qualify c.ns (mkIdent t.id) from hq.1)]
  | enum e base hd hb =>
    simp only [declared, List.mem_singleton, Prod.mk.injEq] at hq
    refine ⟨.enum (enumVariants e.variants) base, ?_⟩
    simp only [Ctx.addNodes, setType_types]
    rw [if_pos (show q = qualify c.ns (mkIdent e.id) from hq.1)]
  | unionDone u vs hd hv hg =>
    simp only [declared, List.mem_cons, List.not_mem_nil, or_false, Prod.mk.injEq] at hq
    rcases hq with hq | hq
    · refine ⟨.enum (unionEnumVariants u.variants) .ubyte, ?_⟩
      simp only [Ctx.addNodes, setType_types]
      have e : q = unionEnumIdent c.ns u := hq.1
      subst e
      rw [if_neg (fun h => qualify_ne_unionEnum _ _ _ h.symm), if_pos rfl]
    · refine ⟨.union (unionEnumIdent c.ns u) vs, ?_⟩
      simp only [Ctx.addNodes, setType_types]
      rw [if_pos (show q = qualify c.ns (mkIdent u.id) from hq.1)]
  | _ => cases hq

theorem pass_all {K : List Indexed → Ctx → Prop}
    (hK : ∀ p el rest c b c', K ((p, el) :: rest) c → Stepped c p el b c' → b = true ∧ K rest c')
    {input uns : List Indexed} {c c' : Ctx} (hk : K input c) (h : c.pass input = .ok (uns, c')) : uns = [] := by
  induction input generalizing c uns with
  | nil => simp only [Ctx.pass] at h; cases h; rfl
  | cons x rest ih =>
    obtain ⟨p, el⟩ := x
    simp only [Ctx.pass] at h
    obtain ⟨⟨b, c1⟩, h1, h⟩ := BRes.bind_eq_ok.mp h
    obtain ⟨⟨u, c2⟩, h2, h⟩ := BRes.bind_eq_ok.mp h
    obtain ⟨rfl, hk'⟩ := hK p el rest c b c1 hk (newElement_ok h1)
    simp only [BRes.pure_eq, BRes.ok.injEq, Prod.mk.injEq] at h
    obtain ⟨rfl, rfl⟩ := h
    exact ih hk' h2

theorem drop_indexed {E : List Element} {n p : Nat} {el : Element} {rest : List Indexed}
    (h : (p, el) :: rest = (indexed E).drop n) : p = n ∧ E[n]? = some el ∧ rest = (indexed E).drop (n + 1) := by
  have hm : (p, el) ∈ indexed E := List.mem_of_mem_drop (by rw [← h]; simp)
  have hp : p = n := by
    have := congrArg (List.map (·.1)) h
    rw [List.map_drop, indexed_fst, List.map_cons] at this
    have := congrArg (fun l => l[0]?) this
    simp only [List.getElem?_cons_zero, List.getElem?_drop] at this
    have := List.getElem?_eq_some_iff.mp this.symm
    obtain ⟨_, h⟩ := this
    simpa using h.symm
  subst hp
  refine ⟨rfl, indexed_mem.mp hm, ?_⟩
  have := congrArg List.tail h
  simpa using this

/-- In a schema that declares before it uses, the first pass leaves nothing over. -/
theorem in_order_pass {E : List Element} (ho : InOrder E) {uns : List Indexed} {c' : Ctx}
    (hp : Ctx.init.pass (indexed E) = .ok (uns, c')) : uns = [] := by
  refine pass_all (K := fun l c => ∃ n, l = (indexed E).drop n ∧ c.ns = lastNs (E.take n) ∧
    ∀ p' el' q sh, p' < n → E[p']? = some el' →
      (q, sh) ∈ declared (lastNs (E.take p')) el' → ∃ ct, c.types q = some (.defined ct)) ?_
    ⟨0, rfl, rfl, by intro p' el' q sh h; omega⟩ hp
  rintro p el rest c b c1 ⟨n, hl, hns, hdef⟩ hs
  obtain ⟨rfl, he, hrest⟩ := drop_indexed hl
  have hb : b = true := by
    cases b with
    | true => rfl
    | false =>
      exfalso
      have key : ∀ r ∈ needs el ++ tableRefs el, (∃ ct, c.types (refIn c.ns r) = some (.defined ct)) ∨
          (refIn c.ns r, .table) ∈ declared c.ns el := by
        intro r hr
        rw [hns]
        rcases ho p el he r hr with ⟨p', el', sh, hlt, he', hd⟩ | h
        · exact .inl (hdef p' el' _ sh hlt he' hd)
        · exact .inr h
      have hself : ∀ r, (refIn c.ns r, .table) ∈ declared c.ns el → ∃ t, el = .table t ∧
          refIn c.ns r = qualify c.ns (mkIdent t.id) := by
        intro r hr
        cases el with
        | table t =>
          simp only [declared, List.mem_singleton, Prod.mk.injEq, and_true] at hr
          exact ⟨t, rfl, hr⟩
        | _ => simp [declared] at hr
      rcases stepped_wait' hs with ⟨r, hr, hnone, hne⟩ | ⟨r, hr, hnone⟩
      · rcases key r (List.mem_append_left _ hr) with ⟨ct, h⟩ | h
        · rw [hnone] at h; cases h
        · obtain ⟨t, rfl, e⟩ := hself r h
          exact hne t rfl e
      · rcases key r (List.mem_append_right _ hr) with ⟨ct, h⟩ | h
        · exact hnone ct h
        · obtain ⟨t, rfl, _⟩ := hself r h
          cases hr
  subst hb
  refine ⟨rfl, p + 1, hrest, ?_, ?_⟩
  · rw [stepped_ns hs, List.take_add_one, he, Option.toList_some, lastNs_snoc, hns]
  · intro p' el' q sh hlt he' hd
    by_cases e : p' = p
    · subst e
      rw [he] at he'; cases he'
      rw [← hns] at hd
      exact stepped_defines hs hd
    · obtain ⟨ct, h⟩ := hdef p' el' q sh (by omega) he' hd
      exact ⟨ct, (stepped_grows hs).2 _ _ h⟩

/-- An accepted schema that declares before it uses is resolved in one pass. -/
theorem in_order_run {s : Ast.Schema} {out : List Node} (ho : InOrder s.elements) (h : build s = some (.ok out)) :
    ∃ c, Run s.elements (Written s.elements) c (fun _ => False) ∧ out = arrange c.items := by
  unfold build at h
  obtain ⟨r, h1, h2⟩ := Option.map_eq_some_iff.mp h
  simp only [Ctx.retry] at h1
  have hf := first_pass (E := s.elements) (J := fun _ _ => True) trivial (fun _ _ _ _ _ _ _ _ _ _ => trivial)
  cases hp : Ctx.init.pass (indexed s.elements) with
  | err e => rw [hp] at h1; cases h1; cases h2
  | panic => rw [hp] at h1; cases h1; cases h2
  | ok x =>
    obtain ⟨uns, c'⟩ := x
    rw [hp] at h1 hf
    simp only at h1
    obtain ⟨hr, _, _, _, _⟩ := hf
    have hu : uns = [] := in_order_pass ho hp
    subst hu
    simp only [List.isEmpty_nil, if_true] at h1
    cases h1
    cases h2
    exact ⟨c', by simpa using hr, rfl⟩

/-- The table names of a run are the names of its tables, when all elements are done. -/
theorem tableName_item {E : List Element} {Ok : Nat → Option Ast.QIdent → Prop} {N : Names} {groups : List (List Node)}
    (hu : ∀ p el ns ns', E[p]? = some el → declares el = true → Ok p ns → Ok p ns' → ns = ns')
    (h : All₂ (fun p g => ∃ el ns, E[p]? = some el ∧ Ok p ns ∧ Emits N ns el g) (declPositions E) groups)
    {q : QIdent} (hq : TableName E Ok q) : (Names.ofItems groups.flatten).dfn q .table := by
  obtain ⟨p, t, ns, he, hn, rfl⟩ := hq
  obtain ⟨g, hg, el, ns', he', hn', hem⟩ := all₂_left h (mem_declPositions.mpr ⟨_, he, rfl⟩)
  rw [he] at he'; cases he'
  have := hu p _ ns ns' he rfl hn hn'
  subst this
  cases hem with
  | table t fields root hf =>
    exact ⟨_, List.mem_flatten.mpr ⟨_, hg, List.mem_singleton.mpr rfl⟩, rfl⟩

theorem uniq_table {l : List Node} (h : ((l.filterMap Node.defines).map (·.1)).Nodup) {t t' : Table}
    (ht : .table t ∈ l) (ht' : .table t' ∈ l) (e : t.ident = t'.ident) : t = t' := by
  induction l with
  | nil => cases ht
  | cons n l ih =>
    have hn : ∀ t, .table t ∈ l → t.ident ∈ (l.filterMap Node.defines).map (·.1) := fun t ht =>
      List.mem_map.mpr ⟨(t.ident, .table), List.mem_filterMap.mpr ⟨_, ht, rfl⟩, rfl⟩
    have hnd : ((l.filterMap Node.defines).map (·.1)).Nodup := by
      cases hd : n.defines with
      | none => rwa [List.filterMap_cons_none hd] at h
      | some x => rw [List.filterMap_cons_some hd, List.map_cons, List.nodup_cons] at h; exact h.2
    rcases List.mem_cons.mp ht with rfl | hl
    · rcases List.mem_cons.mp ht' with e' | ht'
      · cases e'; rfl
      · rw [List.filterMap_cons_some (f := Node.defines) (b := (t.ident, CustomType.table)) rfl, List.map_cons, List.nodup_cons] at h
        exact absurd (e ▸ hn t' ht') h.1
    · rcases List.mem_cons.mp ht' with rfl | ht'
      · rw [List.filterMap_cons_some (f := Node.defines) (b := (t'.ident, CustomType.table)) rfl, List.map_cons, List.nodup_cons] at h
        exact absurd (e ▸ hn t hl) h.1
      · exact ih hnd hl ht'

/-- When the namespace of every declaration is determined, all names refer to items of the output. -/
theorem run_resolved {E : List Element} {Ok : Nat → Option Ast.QIdent → Prop} {c : Ctx}
    (hu : ∀ p el ns ns', E[p]? = some el → (∀ n d, el ≠ .namespace n d) → Ok p ns → Ok p ns' → ns = ns')
    (hr : Run E Ok c (fun _ => False)) :
    ∃ groups : List (List Node), HoldsItems (arrange c.items) groups.flatten ∧
      All₂ (fun p g => ∃ el ns, E[p]? = some el ∧ Ok p ns ∧ Emits (Names.ofItems groups.flatten) ns el g)
        (declPositions E) groups ∧
      ((groups.flatten.filterMap Node.defines).map (·.1)).Nodup ∧
      (∀ t, .table t ∈ groups.flatten →
        (t.rootType = true ↔ ∃ p el ns, E[p]? = some el ∧ Ok p ns ∧ Requests ns t.ident el)) ∧
      (∀ p el ns q, E[p]? = some el → Ok p ns → Requests ns q el → (Names.ofItems groups.flatten).dfn q .table) := by
  obtain ⟨groups, h1, h2, h3, h4, h5, _⟩ := run_outcome hr
  have hreq : ∀ p el ns q, E[p]? = some el → Ok p ns → Requests ns q el →
      ∃ t, .table t ∈ groups.flatten ∧ t.ident = q ∧ t.rootType = true := by
    intro p el ns q he hn hq
    obtain ⟨ns', hn', h⟩ := h5 p el he
    have hne : ∀ n d, el ≠ .namespace n d := by rintro n d rfl; cases hq
    have := hu p el ns ns' he hne hn hn'
    subst this
    exact h q hq
  refine ⟨groups, h1, ?_, h3, ?_, ?_⟩
  · refine forall₂_imp ?_ h2
    rintro p g ⟨el, ns, he, hn, hem⟩
    refine ⟨el, ns, he, hn, Emits.mono (N := ⟨TableName E Ok, (Names.ofItems groups.flatten).dfn⟩)
      (N' := Names.ofItems groups.flatten) ?_ (fun q ct h => h) hem⟩
    intro q hq
    exact tableName_item (fun p el ns ns' he hd => hu p el ns ns' he (declares_not_ns hd)) h2 hq
  · intro t ht
    constructor
    · exact h4 t ht
    · rintro ⟨p, el, ns, he, hn, hq⟩
      obtain ⟨t', ht', e, hroot⟩ := hreq p el ns _ he hn hq
      have : t' = t := uniq_table h3 ht' ht e
      rw [← this]; exact hroot
  · intro p el ns q he hn hq
    obtain ⟨t, ht, e, _⟩ := hreq p el ns q he hn hq
    exact ⟨_, ht, by simp [Node.defines, e]⟩

end Butte.Ir
