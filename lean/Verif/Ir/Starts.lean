import Verif.Ir.InOrder
/-
Which schemas are accepted, when all declarations are in one namespace: the part about the first pass.
-/
namespace Butte.Ir
open Ast (Element)

/-- Some declaration can be resolved at once: it names only tables that are declared before it, or itself. (Or there
are no declarations at all.) -/
def Starts (ns : Option Ast.QIdent) (E : List Element) : Prop :=
  (∀ el ∈ E, declares el = false) ∨
  ∃ p el, E[p]? = some el ∧ declares el = true ∧ tableRefs el = [] ∧
    ∀ r ∈ needs el, ∃ (p' : Nat) (t : Ast.Product), p' ≤ p ∧ E[p']? = some (.table t) ∧ refIn ns r = nameIn ns t.id

theorem insertNodes_ne_nil (p : Nat) (ns : List Node) (l : List (Nat × List Node)) : insertNodes p ns l ≠ [] := by
  cases l with
  | nil => simp [insertNodes]
  | cons x l => simp only [insertNodes]; split <;> (try split) <;> simp

theorem stepped_adds {c c' : Ctx} {p : Nat} {el : Element} (h : Stepped c p el true c') (hd : declares el = true) :
    c'.nodes ≠ [] := by
  cases h with
  | «namespace» n d => cases hd
  | rootDone t d ht => cases hd
  | _ => exact insertNodes_ne_nil _ _ _

theorem stepped_empty {c c' : Ctx} {p : Nat} {el : Element} {b : Bool} (h : Stepped c p el b c') (hn : c'.nodes = []) :
    c.nodes = [] ∧ ∀ q s, c'.types q = some s → c.types q = some s ∨
      s = .tableDeclared ∧ ∃ t, el = .table t ∧ q = nameIn c.ns t.id := by
  cases h with
  | «namespace» n d => exact ⟨hn, fun q s h => .inl h⟩
  | rootDone t d ht => exact ⟨hn, fun q s h => .inl h⟩
  | rootWait t d ht => exact ⟨hn, fun q s h => .inl h⟩
  | structWait t hd hf => exact ⟨hn, fun q s h => .inl h⟩
  | unionWait t hd hf => exact ⟨hn, fun q s h => .inl h⟩
  | rpcWait r c' hm =>
    obtain ⟨_, h2, h3, _⟩ := rpcMethods_frame hm
    exact ⟨by rw [← h3]; exact hn, fun q s h => .inl (by rw [← h2]; exact h)⟩
  | tableWait t hd hf =>
    refine ⟨hn, fun q s h => ?_⟩
    rw [setType_types] at h
    split at h
    · rename_i e
      cases h
      exact .inr ⟨rfl, t, rfl, e⟩
    · exact .inl h
  | _ => exact absurd hn (insertNodes_ne_nil _ _ _)

theorem stepped_first {c c' : Ctx} {p : Nat} {el : Element} {b : Bool} (h : Stepped c p el b c') (hn : c.nodes = [])
    (hd : ∀ q ct, c.types q ≠ some (.defined ct)) (hn' : c'.nodes ≠ []) :
    b = true ∧ declares el = true ∧ tableRefs el = [] := by
  cases h with
  | «namespace» n d => exact absurd hn hn'
  | rootDone t d ht => exact absurd hn hn'
  | rootWait t d ht => exact absurd hn hn'
  | structWait t hd hf => exact absurd hn hn'
  | unionWait t hd hf => exact absurd hn hn'
  | tableWait t hd hf => exact absurd hn hn'
  | rpcWait r c' hm =>
    obtain ⟨_, h2, h3, _⟩ := rpcMethods_frame hm
    exact absurd (h3.trans hn) hn'
  | rpcDone r ms c' hm =>
    refine ⟨rfl, rfl, ?_⟩
    simp only [tableRefs]
    cases hr : r.methods with
    | nil => rfl
    | cons m l =>
      exfalso
      rw [hr] at hm
      simp only [Ctx.rpcMethods] at hm
      obtain ⟨⟨b1, c1⟩, h1, h⟩ := BRes.bind_eq_ok.mp hm
      rcases newRootIdent_ok h1 with ⟨rfl, t1, rfl⟩ | ⟨rfl, t1, rfl⟩
      · exact hd _ _ t1
      · simp at h
  | _ => exact ⟨rfl, rfl, rfl⟩

/-- When a declaration names only tables that are declared before it, or itself, the first pass defines something. -/
theorem first_defines_at {E : List Element} (h1 : OneNamespace E) {ps : Nat} {els : Element} (hes : E[ps]? = some els)
    (hds : declares els = true) (hts : tableRefs els = [])
    (hns : ∀ r ∈ needs els, ∃ (p' : Nat) (t : Ast.Product), p' ≤ ps ∧ E[p']? = some (.table t) ∧
      refIn (lastNs E) r = nameIn (lastNs E) t.id)
    {uns : List Indexed} {c' : Ctx} (hp : Ctx.init.pass (indexed E) = .ok (uns, c')) : c'.nodes ≠ [] := by
  have hf := first_pass (E := E)
    (J := fun l c => ∃ n, l = (indexed E).drop n ∧
      (∀ p' t, p' < n → E[p']? = some (.table t) → c.types (nameIn (lastNs E) t.id) ≠ none) ∧
      (ps < n → c.nodes ≠ []))
    ⟨0, rfl, by intro p' t h; omega, by intro h; omega⟩
    (by
      rintro p el rest c b c' ⟨n, hl, hk, hps⟩ he hns' hs
      obtain ⟨rfl, _, hrest⟩ := drop_indexed hl
      refine ⟨p + 1, hrest, ?_, ?_⟩
      · intro p' t hlt het
        by_cases e : p' = p
        · subst e
          rw [he] at het; cases het
          have := stepped_known hs
          rwa [hns', h1 p' _ he (by simp)] at this
        · exact (stepped_grows hs).1 _ (hk p' t (by omega) het)
      · intro hlt
        by_cases e : ps = p
        · subst e
          rw [hes] at he; cases he
          have hnse : c.ns = lastNs E := by rw [hns', h1 ps _ hes (declares_not_ns hds)]
          cases b with
          | true => exact stepped_adds hs hds
          | false =>
            exfalso
            rcases stepped_wait' hs with ⟨r, hr, hnone, hne⟩ | ⟨r, hr, _⟩
            · obtain ⟨p', t, hle, het, e⟩ := hns r hr
              rw [hnse] at hnone hne
              by_cases e' : p' = ps
              · subst e'
                rw [hes] at het; cases het
                exact hne t rfl e
              · rw [e] at hnone
                exact hk p' t (by omega) het hnone
            · rw [hts] at hr; cases hr
        · have h2 := (stepped_length hs).1
          have h3 := hps (by omega)
          intro h4
          rw [h4] at h2
          exact h3 (List.length_eq_zero_iff.mp (by simpa using h2)))
  rw [hp] at hf
  obtain ⟨_, ⟨n, hl, _, hps⟩, _⟩ := hf
  refine hps ?_
  have := congrArg List.length hl
  have hlt := (List.getElem?_eq_some_iff.mp hes).1
  simp [indexed] at this
  omega

/-- When some declaration can be resolved at once, the first pass defines something. -/
theorem first_defines {E : List Element} (h1 : OneNamespace E) (h0 : Starts (lastNs E) E)
    (hw : WellFormed (lastNs E) E) {uns : List Indexed} {c' : Ctx}
    (hp : Ctx.init.pass (indexed E) = .ok (uns, c')) (hu : uns ≠ []) : c'.nodes ≠ [] := by
  rcases h0 with h0 | ⟨ps, els, hes, hds, hts, hns⟩
  · -- only namespaces and roots
    exfalso
    obtain ⟨x, hx⟩ := List.exists_mem_of_ne_nil _ hu
    obtain ⟨_, hl⟩ := pass_left hp
    have hf := first_pass (E := E) (J := fun _ _ => True) trivial (fun _ _ _ _ _ _ _ _ _ _ => trivial)
    rw [hp] at hf
    obtain ⟨c0, c1, hs, _, _⟩ := hl x hx
    have hxe := indexed_mem.mp (hf.2.2.2.1.subset hx)
    have hmem := List.mem_of_getElem? hxe
    have hd := h0 _ hmem
    rcases stepped_wait hs with ⟨r, hr, _⟩ | ⟨r, hr, _⟩
    · generalize x.2 = el at *
      cases el <;> first | cases hr | cases hd
    · obtain ⟨el', hel', hd'⟩ := List.mem_flatMap.mp (hw.tables _ hmem r hr)
      have := declared_declares hd'
      rw [h0 _ hel'] at this; cases this
  · exact first_defines_at h1 hes hds hts hns hp

/-- The first pass defines something only if some declaration can be resolved at once. -/
theorem starts_of_defines {E : List Element} (h1 : OneNamespace E) {uns : List Indexed} {c' : Ctx}
    (hp : Ctx.init.pass (indexed E) = .ok (uns, c')) (hn : c'.nodes ≠ []) : Starts (lastNs E) E := by
  have hf := first_pass (E := E)
    (J := fun l c => ∃ n, l = (indexed E).drop n ∧
      (c.nodes = [] → ∀ q s, c.types q = some s → s = .tableDeclared ∧ ∃ p' t, p' < n ∧ E[p']? = some (.table t) ∧
        q = nameIn (lastNs E) t.id) ∧
      (c.nodes ≠ [] → Starts (lastNs E) E))
    ⟨0, rfl, by intro _ q s h; simp [Ctx.init] at h, by simp [Ctx.init]⟩
    (by
      rintro p el rest c b c' ⟨n, hl, hk, hps⟩ he hns hs
      obtain ⟨rfl, _, hrest⟩ := drop_indexed hl
      refine ⟨p + 1, hrest, ?_, ?_⟩
      · intro hn' q s hq
        obtain ⟨hn0, hty⟩ := stepped_empty hs hn'
        rcases hty q s hq with h | ⟨e, t, rfl, e'⟩
        · obtain ⟨a, p', t, b1, b2, b3⟩ := hk hn0 q s h
          exact ⟨a, p', t, by omega, b2, b3⟩
        · refine ⟨e, p, t, by omega, he, ?_⟩
          rw [e', hns, h1 p _ he (by simp)]
      · intro hn'
        by_cases hn0 : c.nodes = []
        · obtain ⟨rfl, hd, ht⟩ := stepped_first hs hn0
            (fun q ct h => by have := (hk hn0 q _ h).1; cases this) hn'
          refine .inr ⟨p, el, he, hd, ht, ?_⟩
          have hnse : c.ns = lastNs E := by rw [hns, h1 p _ he (declares_not_ns hd)]
          intro r hr
          rcases stepped_done hs r hr with h | h
          · rw [hnse] at h
            obtain ⟨s, hs'⟩ := Option.ne_none_iff_exists'.mp h
            obtain ⟨_, p', t, b1, b2, b3⟩ := hk hn0 _ s hs'
            exact ⟨p', t, by omega, b2, b3⟩
          · rw [hnse] at h
            cases el with
            | table t =>
              simp only [declared, List.mem_singleton, Prod.mk.injEq, and_true] at h
              exact ⟨p, t, Nat.le_refl _, he, h⟩
            | _ => simp [declared] at h
        · exact hps hn0)
  rw [hp] at hf
  obtain ⟨_, ⟨n, _, _, h⟩, _⟩ := hf
  exact h hn

/-- In one namespace, exactly these schemas are accepted. -/
theorem accepts_iff {s : Ast.Schema} (h1 : OneNamespace s.elements) :
    (∃ out, build s = some (.ok out)) ↔
      WellFormed (lastNs s.elements) s.elements ∧
      (∀ el ∈ s.elements, ∀ r ∈ needs el, Settled (lastNs s.elements) s.elements (refIn (lastNs s.elements) r)) ∧
      Starts (lastNs s.elements) s.elements := by
  constructor
  · rintro ⟨out, h⟩
    have hst : Starts (lastNs s.elements) s.elements := by
      by_cases hd : ∀ el ∈ s.elements, declares el = false
      · exact .inl hd
      · push Not at hd
        obtain ⟨el, hel, hd⟩ := hd
        have hd : declares el = true := by simpa using hd
        obtain ⟨p, he⟩ := List.mem_iff_getElem?.mp hel
        unfold build at h
        obtain ⟨r, h1', h2⟩ := Option.map_eq_some_iff.mp h
        simp only [Ctx.retry] at h1'
        have hf := first_pass (E := s.elements) (J := fun _ _ => True) trivial (fun _ _ _ _ _ _ _ _ _ _ => trivial)
        cases hp : Ctx.init.pass (indexed s.elements) with
        | err e => rw [hp] at h1'; cases h1'; cases h2
        | panic => rw [hp] at h1'; cases h1'; cases h2
        | ok x =>
          obtain ⟨uns, c'⟩ := x
          rw [hp] at h1' hf
          simp only at h1'
          refine starts_of_defines h1 hp ?_
          split at h1'
          · rename_i he'
            have : uns = [] := by simpa using he'
            subst this
            have := (run_inv hf.1).complete p el he hd (by simp)
            intro hn
            rw [hn] at this; cases this
          · split at h1'
            · cases h1'; cases h2
            · rename_i hne
              intro hn
              exact hne (by rw [hn]; rfl)
    have h0 : ∀ uns c', Ctx.init.pass (indexed s.elements) = .ok (uns, c') → uns ≠ [] → c'.nodes ≠ [] := by
      obtain ⟨c, hr, _⟩ := build_ok h
      intro uns c' hp hu
      exact first_defines h1 hst (run_wellFormed h1 hr) hp hu
    obtain ⟨a, b⟩ := (accepts_of_first h1 h0).mp ⟨out, h⟩
    exact ⟨a, b, hst⟩
  · rintro ⟨hw, hres, hst⟩
    exact (accepts_of_first h1 (fun uns c' hp hu => first_defines h1 hst hw hp hu)).mpr ⟨hw, hres⟩

end Butte.Ir
