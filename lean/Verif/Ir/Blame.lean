import Verif.Ir.Report
import Verif.Ir.Ignored
/-
What an error of the analysis says about the schema.
-/
namespace Butte.Ir
open Ast (Element)

/-- The schema declares a type `q` of the kind `sh`, at position `p`. `Ok` says in which namespaces an element may be
read. -/
def DeclaredAt (E : List Element) (Ok : Nat → Option Ast.QIdent → Prop) (p : Nat) (q : QIdent) (sh : Shape) : Prop :=
  ∃ el ns, E[p]? = some el ∧ Ok p ns ∧ (q, sh) ∈ declared ns el

/-- A type that may not be the type of a struct field. -/
def Unsized (E : List Element) (Ok : Nat → Option Ast.QIdent → Prop) (ns : Option Ast.QIdent) : Ast.Ty → Prop
  | .builtin _ => False
  | .string | .array _ => True
  | .ident q => ∃ p, DeclaredAt E Ok p (refIn ns q) .table ∨ DeclaredAt E Ok p (refIn ns q) .union

/-- The fault that an error message speaks of. -/
def Fault (E : List Element) (Ok : Nat → Option Ast.QIdent → Prop) : BuildErr → Prop
  | .alreadyDefined q => ∃ p p' sh sh', p ≠ p' ∧ DeclaredAt E Ok p q sh ∧ DeclaredAt E Ok p' q sh'
  | .illegalMember q => ∃ p s ns, E[p]? = some (.struct s) ∧ Ok p ns ∧ q = nameIn ns s.id ∧ ∃ f ∈ s.fields, Unsized E Ok ns f.ty
  | .badBase q => ∃ p e ns, E[p]? = some (.enum e) ∧ Ok p ns ∧ q = nameIn ns e.id ∧ ¬ IntegerType e.baseType
  | .notTable q => (∃ p el ns, E[p]? = some el ∧ Ok p ns ∧ ∃ r ∈ tableRefs el, q = refIn ns r) ∧
      ∃ p sh, sh ≠ .table ∧ DeclaredAt E Ok p q sh
  | .unknownStreaming v => ∃ (p : Nat) (r : Ast.Rpc) (m : Ast.RpcMethod) (md : Ast.Metadata), E[p]? = some (.rpc r) ∧ m ∈ r.methods ∧ m.metadata = some md ∧
      Ast.Metadata.get md c!"streaming" = some (some v) ∧
      v ∉ [Ast.Single.string c!"client", .string c!"server", .string c!"bidi"]
  | .missingStreaming => ∃ (p : Nat) (r : Ast.Rpc) (m : Ast.RpcMethod) (md : Ast.Metadata), E[p]? = some (.rpc r) ∧ m ∈ r.methods ∧ m.metadata = some md ∧
      Ast.Metadata.get md c!"streaming" = some none
  | .unresolved _ => False

theorem defined_at {E : List Element} {Ok : Nat → Option Ast.QIdent → Prop} {c : Ctx} {pend : Nat → Prop}
    (inv : Inv E Ok c pend) {q : QIdent} {ct : CustomType} (h : c.types q = some (.defined ct)) :
    ∃ p, ¬ pend p ∧ DeclaredAt E Ok p q ct.shape := by
  obtain ⟨n, hn, hd⟩ := (inv.defd q ct).mp h
  obtain ⟨x, hx, hn⟩ := List.mem_flatMap.mp hn
  obtain ⟨el, ns, he, hns, hem⟩ := inv.emits x hx
  refine ⟨x.1, inv.past x hx, el, ns, he, hns, ?_⟩
  rw [← emits_defines hem]
  exact List.mem_map.mpr ⟨(q, ct), List.mem_filterMap.mpr ⟨n, hn, hd⟩, rfl⟩

theorem streaming_fault {E : List Element} {Ok : Nat → Option Ast.QIdent → Prop} {p : Nat} {r : Ast.Rpc} {m : Ast.RpcMethod}
    (he : E[p]? = some (.rpc r)) (hm : m ∈ r.methods) {e : BuildErr} (h : streamingOf m.metadata = .err e) : Fault E Ok e := by
  cases hmd : m.metadata with
  | none => rw [hmd] at h; cases h
  | some md =>
    rw [hmd] at h
    simp only [streamingOf] at h
    split at h
    · cases h
    · rename_i hg; cases h; exact ⟨p, r, m, md, he, hm, hmd, hg⟩
    · rename_i s hg
      split at h
      · cases h
      · split at h
        · cases h
        · split at h
          · cases h
          · rename_i a b d
            cases h
            refine ⟨p, r, m, md, he, hm, hmd, hg, ?_⟩
            simp [a, b, d]
    · rename_i s hg
      cases h
      exact ⟨p, r, m, md, he, hm, hmd, hg, by simp⟩

theorem notTable_fault {E : List Element} {Ok : Nat → Option Ast.QIdent → Prop} {c : Ctx} {pend : Nat → Prop}
    (inv : Inv E Ok c pend) {p : Nat} {el : Element} {ns : Option Ast.QIdent} (he : E[p]? = some el) (hn : Ok p ns)
    {r : Ast.QIdent} (hr : r ∈ tableRefs el) {e : BuildErr} (h : c.newRootIdent (refIn ns r) = .err e) : Fault E Ok e := by
  obtain ⟨ct, hct, hne⟩ := newRootIdent_err h
  obtain ⟨p', _, hd⟩ := defined_at inv hct
  rw [err_root _ _ _ h]
  exact ⟨⟨p, el, ns, he, hn, r, hr, rfl⟩, p', ct.shape, hne, hd⟩

theorem rpc_fault {E : List Element} {Ok : Nat → Option Ast.QIdent → Prop} {c : Ctx} {pend : Nat → Prop}
    (inv : Inv E Ok c pend) {p : Nat} {r : Ast.Rpc} {ns : Option Ast.QIdent} (he : E[p]? = some (.rpc r)) (hn : Ok p ns)
    {c1 : Ctx} (ht : c1.types = c.types) (hns : c1.ns = ns) {ms : List Ast.RpcMethod} (hsub : ∀ m ∈ ms, m ∈ r.methods)
    {e : BuildErr} (h : c1.rpcMethods ms = .err e) : Fault E Ok e := by
  have key : ∀ (c2 : Ctx) (x : Ast.QIdent) (e : BuildErr), c2.types = c.types → x ∈ tableRefs (.rpc r) →
      c2.newRootIdent (refIn ns x) = .err e → Fault E Ok e := by
    intro c2 x e ht2 hx h2
    refine notTable_fault inv he hn hx (e := e) ?_
    unfold Ctx.newRootIdent at h2 ⊢
    rw [ht2] at h2
    split at h2
    · cases h2
    · exact h2
    · cases h2
  induction ms generalizing c1 with
  | nil => simp [Ctx.rpcMethods] at h
  | cons m ms ih =>
    have hm := hsub m (by simp)
    have hq : ∀ x ∈ [m.requestType, m.responseType], x ∈ tableRefs (.rpc r) := fun x hx =>
      List.mem_flatMap.mpr ⟨m, hm, hx⟩
    simp only [Ctx.rpcMethods, qualifyRef_eq, hns] at h
    rcases bind_eq_err.mp h with k | ⟨⟨b1, c1'⟩, h1, k⟩
    · exact key _ _ _ ht (hq _ (by simp)) k
    rcases newRootIdent_ok h1 with ⟨rfl, t1, rfl⟩ | ⟨rfl, t1, rfl⟩
    · simp only [Bool.true_eq_false, if_false] at k
      rcases bind_eq_err.mp k with k | ⟨⟨b2, c2⟩, h2, k⟩
      · exact key _ _ _ (by exact ht) (hq _ (by simp)) k
      rcases newRootIdent_ok h2 with ⟨rfl, t2, rfl⟩ | ⟨rfl, t2, rfl⟩
      · simp only [Bool.true_eq_false, if_false] at k
        rcases bind_eq_err.mp k with k | ⟨s, hs, k⟩
        · exact streaming_fault he hm k
        rcases bind_eq_err.mp k with k | ⟨⟨rest, c3⟩, h3, k⟩
        · exact ih (by exact ht) (by exact hns) (fun m' hm' => hsub m' (by simp [hm'])) k
        · cases k
      · cases k
    · cases k

/-- A refused element has the fault that the message speaks of. -/
theorem refused_fault {E : List Element} {Ok : Nat → Option Ast.QIdent → Prop} {e : BuildErr} (h : Refused E Ok (.err e)) :
    Fault E Ok e := by
  obtain ⟨c, pend, p, el, hr, he, hp, hn, hx⟩ := h
  have inv := run_inv hr
  have hdup : ∀ q sh, (q, sh) ∈ declared c.ns el → c.isDefined q = true → Fault E Ok (.alreadyDefined q) := by
    intro q sh hq hd
    unfold Ctx.isDefined at hd
    split at hd
    · rename_i ct hct
      obtain ⟨p', hp', hd'⟩ := defined_at inv hct
      exact ⟨p, p', sh, ct.shape, fun e => hp' (e ▸ hp), ⟨el, c.ns, he, hn, hq⟩, hd'⟩
    · cases hd
  cases el with
  | table t =>
    simp only [Ctx.newElement, Ctx.newTable] at hx
    split at hx
    · rename_i hd
      cases hx
      exact hdup (nameIn c.ns t.id) .table (by simp [declared]) hd
    · split at hx
      · cases hx
      · cases hx
      · rename_i e' hf
        exact (err_tableFields _ _ _ hf).elim
      · cases hx
  | struct s =>
    simp only [Ctx.newElement, Ctx.newStruct] at hx
    split at hx
    · rename_i hd
      cases hx
      exact hdup (nameIn c.ns s.id) .struct (by simp [declared]) hd
    · split at hx
      · cases hx
      · cases hx
      · rename_i e' hf
        cases hx
        rw [err_structFields _ _ _ _ hf]
        obtain ⟨f, hf, ty, hty, hsc⟩ := structFields_err hf
        refine ⟨p, s, c.ns, he, hn, rfl, f, hf, ?_⟩
        generalize f.ty = t at hty
        cases t with
        | builtin b => simp only [Ctx.tryType] at hty; cases hty; simp [Ty.isScalar] at hsc
        | string => trivial
        | array t => trivial
        | ident q =>
          simp only [Ctx.tryType, Ctx.find, qualifyRef_eq] at hty
          split at hty
          · rename_i et
            obtain ⟨p', t, ns, he', hn', e⟩ := inv.decl _ et
            exact ⟨p', .inl ⟨_, ns, he', hn', by simp [declared, e]⟩⟩
          · rename_i ct et
            obtain ⟨p', _, hd'⟩ := defined_at inv et
            cases hty
            refine ⟨p', ?_⟩
            cases ct <;> simp [CustomType.ref, Ty.isScalar] at hsc
            · exact .inl hd'
            · exact .inr hd'
          · cases hty
      · cases hx
  | enum e =>
    simp only [Ctx.newElement, Ctx.newEnum] at hx
    split at hx
    · rename_i hd
      cases hx
      exact hdup (nameIn c.ns e.id) .enum (by simp [declared]) hd
    · split at hx
      · rename_i eb
        cases hx
        exact ⟨p, e, c.ns, he, hn, rfl, fun h => integer_ofAst h eb⟩
      · cases hx
  | union u =>
    simp only [Ctx.newElement, Ctx.newUnion, Ctx.generateEnum] at hx
    split at hx
    · rename_i hd
      cases hx
      exact hdup (nameIn c.ns u.id) .union (by simp [declared]) hd
    · split at hx
      · cases hx
      · split at hx
        · rename_i hd
          cases hx
          exact hdup (tagEnumIn c.ns u.id) .enum (by simp [declared]) hd
        · cases hx
  | rpc r =>
    simp only [Ctx.newElement, Ctx.newRpc] at hx
    rcases bind_eq_err.mp hx with hx | ⟨⟨ms, c'⟩, _, hx⟩
    · exact rpc_fault inv he hn rfl rfl (fun _ h => h) hx
    · cases ms <;> cases hx
  | root t d =>
    have hx : c.newRootIdent (refIn c.ns [t]) = .err e := by
      rw [← qualifyRef_eq]; exact hx
    exact notTable_fault inv he hn (by simp [tableRefs]) hx
  | «namespace» n d => cases hx
  | _ => cases hx

/-! ### Elements that are left over -/

/-- A table that can be resolved with everything it names. -/
def Finished (ns : Option Ast.QIdent) (E : List Element) (q : QIdent) : Prop :=
  ∃ el ∈ E, (q, .table) ∈ declared ns el ∧ ∀ r ∈ needs el, Settled ns E (refIn ns r)

/-- The element names a type that cannot be resolved, or asks for a table that cannot. -/
def Blocked (ns : Option Ast.QIdent) (E : List Element) (el : Element) : Prop :=
  (∃ r ∈ needs el, ¬ Settled ns E (refIn ns r)) ∨ ∃ r ∈ tableRefs el, ¬ Finished ns E (refIn ns r)

theorem stuck_blocked {E : List Element} (h1 : OneNamespace E) {els : List Element}
    (h : Stuck E (TablesKnown E) els) : ∀ el ∈ els, Blocked (lastNs E) E el := by
  obtain ⟨c, input, uns, c', hr, hJ, hns, hin, hnd, hp, hne, hlen, rfl⟩ := h
  have inv := run_inv hr
  have hpass := pass_run (E := E) (Ok := NsOk E)
      (K := fun l c => c.ns = lastNs E ∧ ∀ x ∈ l, E[x.1]? = some x.2 ∧ ∀ q d, x.2 ≠ .namespace q d)
      (by
        rintro p el rest c ⟨k1, k2⟩
        exact ⟨(k2 (p, el) (by simp)).1, .inr k1⟩)
      (by
        rintro p el rest c b c' ⟨k1, k2⟩ hs
        refine ⟨?_, fun x hx => k2 x (by simp [hx])⟩
        have h1 := stepped_ns hs
        have h2 := (k2 (p, el) (by simp)).2
        cases el <;> first | (exact absurd rfl (h2 _ _)) | (rw [h1]; exact k1))
      input c _ hr ⟨hns, hin⟩ (fun x hx => List.mem_map.mpr ⟨x, hx, rfl⟩) hnd
  rw [hp] at hpass
  obtain ⟨hr', _, hsl, _⟩ := hpass
  rw [pend_eq (fun q => Iff.rfl) hsl] at hr'
  have inv' := run_inv hr'
  obtain ⟨_, hleft⟩ := pass_left hp
  have hdone : ∀ p el, E[p]? = some el → declares el = true → p ∉ uns.map (·.1) → p ∉ input.map (·.1) := by
    intro p el he hd hu hi
    have := keys_le inv inv' (fun q hq => (hsl.map (·.1)).subset hq) he hd hi hu
    omega
  have hnot : ∀ p el, E[p]? = some el → tableRefs el = [] → (∀ r ∈ needs el, c.types (refIn (lastNs E) r) ≠ none) →
      p ∉ uns.map (·.1) := by
    intro p el he ht hk hu
    obtain ⟨x, hx, rfl⟩ := List.mem_map.mp hu
    obtain ⟨c0, c1, hs, hg, hns0⟩ := hleft x hx
    have hxe := (hin x (hsl.subset hx)).1
    rw [he] at hxe
    cases hxe
    have hns0 := (hns0 (fun y hy => (hin y hy).2)).trans hns
    rcases stepped_wait hs with ⟨r, hr, hnone⟩ | ⟨r, hr, _⟩
    · rw [hns0] at hnone
      exact hg.1 _ (hk r hr) hnone
    · rw [ht] at hr; cases hr
  have hrefs : ∀ {el : Element} {x : QIdent × Shape}, x ∈ declared (lastNs E) el → tableRefs el = [] := by
    intro el x hx; cases el <;> first | rfl | cases hx
  have hknown : ∀ q, Settled (lastNs E) E q → c.types q ≠ none := by
    intro q hq
    induction hq with
    | table h => exact hJ _ h
    | other hel hd _ ih =>
      obtain ⟨p, he⟩ := List.mem_iff_getElem?.mp hel
      have := hdone p _ he (declared_declares hd) (hnot p _ he (hrefs hd) ih)
      obtain ⟨ct, hct, _⟩ := declared_defined h1 inv he this hd
      rw [hct]; simp
  intro el hel
  obtain ⟨x, hx, rfl⟩ := List.mem_map.mp hel
  obtain ⟨c0, c1, hs, hg, hns0⟩ := hleft x hx
  have hns0 := (hns0 (fun y hy => (hin y hy).2)).trans hns
  rcases stepped_wait hs with ⟨r, hr, hnone⟩ | ⟨r, hr, hnone⟩
  · rw [hns0] at hnone
    exact .inl ⟨r, hr, fun h => hg.1 _ (hknown _ h) hnone⟩
  · rw [hns0] at hnone
    refine .inr ⟨r, hr, ?_⟩
    rintro ⟨el', hel', hd, hres⟩
    obtain ⟨p', he'⟩ := List.mem_iff_getElem?.mp hel'
    have := hdone p' el' he' (declared_declares hd)
      (hnot p' el' he' (hrefs hd) (fun r hr => hknown _ (hres r hr)))
    obtain ⟨ct, hct, _⟩ := declared_defined h1 inv he' this hd
    exact hnone ct (hg.2 _ _ hct)

theorem pass_sublist {c c' : Ctx} {input uns : List Indexed} (h : c.pass input = .ok (uns, c')) : uns.Sublist input := by
  induction input generalizing c uns with
  | nil => simp only [Ctx.pass] at h; cases h; exact .slnil
  | cons x rest ih =>
    obtain ⟨p, el⟩ := x
    simp only [Ctx.pass] at h
    obtain ⟨⟨b, c1⟩, h1, h⟩ := BRes.bind_eq_ok.mp h
    obtain ⟨⟨u, c2⟩, h2, h⟩ := BRes.bind_eq_ok.mp h
    cases b with
    | true => cases h; exact (ih h2).cons _
    | false => cases h; exact (ih h2).cons_cons _

theorem retry_unresolved {fuel : Nat} {c : Ctx} {input : List Indexed} {els : List Element}
    (h : Ctx.retry fuel c input = some (.err (.unresolved els))) : els ≠ [] ∧ els.Sublist (input.map (·.2)) := by
  induction fuel generalizing c input with
  | zero => cases h
  | succ fuel ih =>
    simp only [Ctx.retry] at h
    split at h
    · rename_i uns c' hp
      split at h
      · cases h
      · rename_i hne
        split at h
        · cases h
          exact ⟨by simpa using hne, (pass_sublist hp).map _⟩
        · obtain ⟨a, b⟩ := ih h
          exact ⟨a, b.trans ((pass_sublist hp).map _)⟩
    · rename_i e he
      cases h
      exact absurd he (err_pass _ _ _)
    · cases h

theorem indexed_snd (E : List Element) : (indexed E).map (·.2) = E := by
  unfold indexed
  rw [List.map_map]
  simp [Function.comp_def]

theorem build_err {s : Ast.Schema} {e : BuildErr} (h : build s = some (.err e)) :
    Ctx.retry (s.elements.length + 1) .init (indexed s.elements) = some (.err e) := by
  unfold build at h
  obtain ⟨r, h1, h2⟩ := Option.map_eq_some_iff.mp h
  cases r <;> cases h2
  exact h1

/-- Every message other than the one about names that are not found speaks of a fault of the schema. -/
theorem err_fault {s : Ast.Schema} {e : BuildErr} (h : build s = some (.err e)) (hu : ∀ els, e ≠ .unresolved els) :
    Fault s.elements (NsOk s.elements) e := by
  rcases build_run (E := s.elements) (J := fun _ => True) (fun _ _ => True) trivial (fun _ _ _ _ _ _ _ _ _ _ => trivial)
    (fun _ _ => trivial) (fun _ _ _ _ _ _ _ => trivial) _ _ (build_err h) with (hr | ⟨els, rfl, _⟩) | ⟨_, _, _, _, _, e⟩
  · exact refused_fault hr
  · exact absurd rfl (hu els)
  · cases e; exact absurd rfl (hu _)

theorem unresolved_listed {s : Ast.Schema} {els : List Element} (h : build s = some (.err (.unresolved els))) :
    els ≠ [] ∧ els.Sublist s.elements := by
  have := retry_unresolved (build_err h)
  rwa [indexed_snd] at this

theorem unresolved_blocked {s : Ast.Schema} (h1 : OneNamespace s.elements) (h0 : Starts (lastNs s.elements) s.elements)
    {els : List Element} (h : build s = some (.err (.unresolved els))) :
    ∀ el ∈ els, Blocked (lastNs s.elements) s.elements el := by
  rcases build_run (E := s.elements) (J := TablesKnown s.elements)
        (fun l c => ∀ p t, s.elements[p]? = some (.table t) → p ∉ l.map (·.1) →
          c.types (nameIn (lastNs s.elements) t.id) ≠ none)
        (by
          intro p t he hp
          rw [indexed_fst] at hp
          exact absurd (List.mem_range.mpr (List.getElem?_eq_some_iff.mp he).1) hp)
        (by
          intro p el rest c b c' hk he hns hs p' t he' hp'
          by_cases e : p' = p
          · subst e
            rw [he] at he'; cases he'
            have := stepped_known hs
            rw [hns, h1 p' _ he (by simp)] at this
            exact this
          · exact (stepped_grows hs).1 _ (hk p' t he' (by simp [hp', e])))
        (by
          intro c hk q hq
          obtain ⟨el, hel, hd⟩ := List.mem_flatMap.mp hq
          obtain ⟨p, he⟩ := List.mem_iff_getElem?.mp hel
          cases el with
          | table t =>
            simp only [declared, List.mem_singleton, Prod.mk.injEq, and_true] at hd
            subst hd
            exact hk p t he (by simp)
          | _ => simp [declared] at hd)
        (by
          intro c p el b c' hs hk q hq
          exact (stepped_grows hs).1 _ (hk q hq))
        _ _ (build_err h) with (hr | ⟨els', e, hs⟩) | ⟨uns, c', hp, hne, hnil, e⟩
  · exact (refused_fault hr).elim
  · cases e
    exact stuck_blocked h1 hs
  · cases e
    rcases h0 with h0 | ⟨ps, es, hes, hds, hts, hns⟩
    · intro el hel
      obtain ⟨x, hx, rfl⟩ := List.mem_map.mp hel
      obtain ⟨_, hl⟩ := pass_left hp
      obtain ⟨c0, c1, hs, _, _⟩ := hl x hx
      have hmem := List.mem_of_getElem? (indexed_mem.mp ((pass_sublist hp).subset hx))
      have hd := h0 _ hmem
      rcases stepped_wait hs with ⟨r, hr, _⟩ | ⟨r, hr, _⟩
      · exfalso
        generalize x.2 = el at *
        cases el <;> first | cases hr | cases hd
      · refine .inr ⟨r, hr, ?_⟩
        rintro ⟨el', hel', hd', _⟩
        have := declared_declares hd'
        rw [h0 _ hel'] at this; cases this
    · exact absurd hnil (first_defines_at h1 hes hds hts hns hp)

/-- In one namespace, the positions and names are those of the text. -/
theorem Fault.one {E : List Element} (h1 : OneNamespace E) {e : BuildErr} (h : Fault E (NsOk E) e) : Fault E (Written E) e := by
  have hd : ∀ {p q sh}, DeclaredAt E (NsOk E) p q sh → DeclaredAt E (Written E) p q sh := by
    rintro p q sh ⟨el, ns, he, hn, hm⟩
    have hne := declares_not_ns (declared_declares hm)
    exact ⟨el, ns, he, (oneNs h1 he hne hn).trans (h1 p el he hne).symm, hm⟩
  have hw : ∀ {p el ns}, E[p]? = some el → (∀ n d, el ≠ .namespace n d) → NsOk E p ns → Written E p ns :=
    fun he hne hn => (oneNs h1 he hne hn).trans (h1 _ _ he hne).symm
  cases e with
  | alreadyDefined q =>
    obtain ⟨p, p', sh, sh', hne, a, b⟩ := h
    exact ⟨p, p', sh, sh', hne, hd a, hd b⟩
  | illegalMember q =>
    obtain ⟨p, s, ns, he, hn, e, f, hf, hu⟩ := h
    refine ⟨p, s, ns, he, hw he (by simp) hn, e, f, hf, ?_⟩
    generalize f.ty = t at hu
    cases t with
    | ident q => obtain ⟨p, h⟩ := hu; exact ⟨p, h.imp hd hd⟩
    | _ => exact hu
  | badBase q =>
    obtain ⟨p, s, ns, he, hn, h⟩ := h
    exact ⟨p, s, ns, he, hw he (by simp) hn, h⟩
  | notTable q =>
    obtain ⟨⟨p, el, ns, he, hn, r, hr, e⟩, p', sh, hne, h⟩ := h
    refine ⟨⟨p, el, ns, he, hw he ?_ hn, r, hr, e⟩, p', sh, hne, hd h⟩
    rintro n d rfl; cases hr
  | unknownStreaming v => exact h
  | missingStreaming => exact h
  | unresolved els => exact h

/-- A schema that declares before it uses is judged in one pass, by the names of its text. -/
theorem in_order_fault {s : Ast.Schema} (ho : InOrder s.elements) {e : BuildErr} (h : build s = some (.err e)) :
    Fault s.elements (Written s.elements) e := by
  have h := build_err h
  simp only [Ctx.retry] at h
  have hf := first_pass (E := s.elements) (J := fun _ _ => True) trivial (fun _ _ _ _ _ _ _ _ _ _ => trivial)
  cases hp : Ctx.init.pass (indexed s.elements) with
  | err e => rw [hp] at h hf; cases h; exact refused_fault hf
  | panic => rw [hp] at h; cases h
  | ok x =>
    obtain ⟨uns, c'⟩ := x
    rw [hp] at h
    have hu : uns = [] := in_order_pass ho hp
    subst hu
    simp at h

end Butte.Ir
