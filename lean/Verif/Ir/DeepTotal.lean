import Verif.Ir.DeepBound
/-
How deep the stack of the whole analysis gets, in terms of how the types and namespaces of a schema are nested.
-/
namespace Butte.Ir.Nested

open Ast (Element)
open Timed (nestName nests nestings Layered lastPart simple_ref insertNodes_mem)
open Parse.Stack (nestTy nestProduct big)

/-! ### Along the analysis -/

/-- A condition on the state, which may depend on the number of structs and unions still to be resolved, that holds along the way and
bounds the copies. -/
structure Keeps (E : List Element) (X : Nat) (I : Nat → Ctx → Prop) : Prop where
  pos : 3 ≤ X
  under : ∀ m c, I m c → Under X c
  step : ∀ m c p el b c', el ∈ E → I (m + nests el) c → Stepped c p el b c' → I (if b then m else m + nests el) c'

/-- Vectors in fields are nested at most so deep. -/
def Vectors (N : Nat) (E : List Element) : Prop :=
  ∀ t, .table t ∈ E ∨ .struct t ∈ E → ∀ f ∈ t.fields, nestTy f.ty ≤ N

theorem pass_deep {E : List Element} {X N : Nat} {I : Nat → Ctx → Prop} (k : Keeps E X I) (hN : Vectors N E) (input : List Indexed)
    (hE : ∀ x ∈ input, x.2 ∈ E) (m : Nat) (c : Ctx) (hi : I (m + nestings input) c) :
    (pass c input).deep ≤ N + X + 4 ∧
    ∀ uns c', c.pass input = .ok (uns, c') → uns.Sublist input ∧ I (m + nestings uns) c' := by
  induction input generalizing m c with
  | nil =>
    refine ⟨Nat.zero_le _, fun uns c' h => ?_⟩
    simp only [Ctx.pass] at h
    cases h
    exact ⟨.refl _, hi⟩
  | cons x rest ih =>
    obtain ⟨p, el⟩ := x
    have hel : el ∈ E := hE (p, el) (by simp)
    have hn : nestings ((p, el) :: rest) = nests el + nestings rest := by simp [nestings]
    have hi' : I ((m + nestings rest) + nests el) c := by
      rw [hn] at hi
      rwa [show m + (nests el + nestings rest) = (m + nestings rest) + nests el by omega] at hi
    have hst : (newElement c p el).deep ≤ N + X + 4 := by
      refine newElement_deep k.pos (k.under _ _ hi') p el ?_ ?_
      · rintro t (rfl | rfl) f hf
        · exact hN t (.inl hel) f hf
        · exact hN t (.inr hel) f hf
      · intro b c' h
        exact k.under _ _ (k.step _ _ _ _ _ _ hel hi' (newElement_ok h))
    have next : ∀ b c1, c.newElement p el = .ok (b, c1) →
        I ((if b then m else m + nests el) + nestings rest) c1 := by
      intro b c1 h1
      have := k.step _ _ _ _ _ _ hel hi' (newElement_ok h1)
      cases b
      · rw [if_neg (by simp)] at this ⊢
        rwa [show m + nests el + nestings rest = m + nestings rest + nests el by omega]
      · simpa using this
    refine ⟨?_, fun uns c' h => ?_⟩
    · simp only [pass]
      refine andThen_le hst fun y hy => ?_
      obtain ⟨b, c1⟩ := y
      rw [newElement_val] at hy
      exact andThen_le (ih (fun x hx => hE x (by simp [hx])) _ c1 (next b c1 hy)).1 fun z _ => by simp
    · simp only [Ctx.pass] at h
      obtain ⟨⟨b, c1⟩, h1, h⟩ := BRes.bind_eq_ok.mp h
      obtain ⟨⟨u, c2⟩, h2, h⟩ := BRes.bind_eq_ok.mp h
      simp only [BRes.pure_eq, BRes.ok.injEq, Prod.mk.injEq] at h
      obtain ⟨rfl, rfl⟩ := h
      obtain ⟨s1, s2⟩ := (ih (fun x hx => hE x (by simp [hx])) _ c1 (next b c1 h1)).2 u c2 h2
      cases b
      · refine ⟨s1.cons_cons _, ?_⟩
        have : nestings ((p, el) :: u) = nests el + nestings u := by simp [nestings]
        rw [if_neg (by simp)] at s2 ⊢
        rw [this, ← Nat.add_assoc]
        exact s2
      · exact ⟨s1.cons _, s2⟩

theorem retry_deep {E : List Element} {X N : Nat} {I : Nat → Ctx → Prop} (k : Keeps E X I) (hN : Vectors N E) (fuel : Nat)
    (input : List Indexed) (hE : ∀ x ∈ input, x.2 ∈ E) (c : Ctx) (hi : I (nestings input) c) :
    (retry fuel c input).deep ≤ N + X + 4 := by
  induction fuel generalizing input c with
  | zero => simp [retry]
  | succ fuel ih =>
    obtain ⟨h1, h2⟩ := pass_deep k hN input hE 0 c (by simpa using hi)
    simp only [retry, bind_deep, pass_val]
    refine Nat.max_le.mpr ⟨h1, ?_⟩
    cases hp : c.pass input with
    | err e => simp
    | panic => simp
    | ok x =>
      obtain ⟨uns, c'⟩ := x
      obtain ⟨s1, s2⟩ := h2 uns c' hp
      simp only
      split
      · simp
      · split
        · simp
        · exact ih uns (fun x hx => hE x (s1.subset hx)) c' (by simpa using s2)

/-! ### What a step defines -/

theorem scalar_written {c : Ctx} {t : Ast.Ty} {ty : Ty} (ht : c.tryType t = some ty) (hs : ty.isScalar = true) :
    (∃ b, ty = .builtin b) ∨ ∃ q, q ∈ tyRefs t ∧ c.find (qualifyRef c.ns q) = some ty := by
  cases t with
  | builtin b => cases ht; exact .inl ⟨b, rfl⟩
  | string => cases ht; cases hs
  | array t =>
    simp only [Ctx.tryType, Option.map_eq_some_iff] at ht
    obtain ⟨t', -, rfl⟩ := ht
    cases hs
  | ident q => exact .inr ⟨q, by simp [tyRefs], ht⟩

theorem structFields_clone {B : Nat} {c : Ctx} {q : QIdent} {fs : List Ast.Field} {fields : List Field} (hB : 1 ≤ B)
    (h : ∀ f ∈ fs, ∀ r ∈ tyRefs f.ty, ∀ ty, c.find (qualifyRef c.ns r) = some ty → cloneTy ty ≤ B)
    (hf : c.structFields q fs = .ok (some fields)) : cloneFields fields ≤ B + 2 := by
  induction fs generalizing fields with
  | nil => simp only [Ctx.structFields] at hf; cases hf; simp [cloneFields]
  | cons f fs ih =>
    simp only [Ctx.structFields] at hf
    cases ht : c.tryType f.ty with
    | none => rw [ht] at hf; cases hf
    | some ty =>
      rw [ht] at hf
      simp only at hf
      split at hf
      · rename_i hs
        obtain ⟨rest, h2, h3⟩ := BRes.bind_eq_ok.mp hf
        cases rest with
        | none => cases h3
        | some r =>
          cases h3
          have h4 := ih (fun f hf => h f (by simp [hf])) h2
          have h5 : cloneTy ty ≤ B := by
            rcases scalar_written ht hs with ⟨b, rfl⟩ | ⟨r, hr, hr'⟩
            · simpa [cloneTy] using hB
            · exact h f (by simp) r hr ty hr'
          simp only [cloneFields, cloneField]
          omega
      · cases hf

theorem unionVariants_clone {B : Nat} {c : Ctx} {vs : List Ast.EnumVariant} {uvs : List UnionVariant}
    (h : ∀ v ∈ vs, ∀ ty, c.tryType (.ident [v.id]) = some ty → cloneTy ty ≤ B) (hv : c.unionVariants vs = some uvs) :
    cloneVariants uvs ≤ B + 2 := by
  induction vs generalizing uvs with
  | nil => simp only [Ctx.unionVariants] at hv; cases hv; simp [cloneVariants]
  | cons v vs ih =>
    simp only [Ctx.unionVariants] at hv
    have h1 := h v (by simp)
    cases ht : c.tryType (.ident [v.id]) with
    | none => rw [ht] at hv; cases hv
    | some ty =>
      rw [ht] at hv
      simp only [Option.map_eq_some_iff] at hv
      obtain ⟨r, h2, rfl⟩ := hv
      have h1 := h1 ty ht
      have := ih (fun f hf => h f (by simp [hf])) h2
      simp only [cloneVariants, cloneVariant]
      omega

/-- What is defined after a step was defined before, or is flat, or is the struct or union of the step, one level above the types that its
members are found to have. -/
theorem stepped_clone {c c' : Ctx} {p : Nat} {el : Element} {b : Bool} (h : Stepped c p el b c')
    (q : QIdent) (ct : CustomType) (hq : c'.types q = some (.defined ct)) :
    c.types q = some (.defined ct) ∨ cloneCustom ct ≤ 3 ∨
    (b = true ∧ ∃ i, nestName el = some i ∧ q = qualify c.ns (mkIdent i) ∧
      ∀ B, 1 ≤ B → (∀ r ∈ needs el, ∀ ty, c.find (qualifyRef c.ns r) = some ty → cloneTy ty ≤ B) → cloneCustom ct ≤ B + 3) := by
  cases h with
  | tableDone t fields hd hf =>
    simp only [Ctx.addNodes, Ctx.setType] at hq
    split at hq
    · cases hq; right; left; simp [cloneCustom]
    · exact .inl hq
  | tableWait t hd hf =>
    simp only [Ctx.setType] at hq
    split at hq
    · cases hq
    · exact .inl hq
  | structDone s fields hd hf =>
    simp only [Ctx.addNodes, Ctx.setType] at hq
    split at hq
    · rename_i e
      cases hq
      right; right
      refine ⟨rfl, s.id, rfl, e, fun B h1 hB => ?_⟩
      have := structFields_clone h1 (fun f hf r hr ty ht => hB r (List.mem_flatMap.mpr ⟨f, hf, hr⟩) ty ht) hf
      simp only [cloneCustom]
      omega
    · exact .inl hq
  | enum e base hd hb =>
    simp only [Ctx.addNodes, Ctx.setType] at hq
    split at hq
    · cases hq; right; left; simp [cloneCustom]
    · exact .inl hq
  | unionDone u vs hd hv hg =>
    simp only [Ctx.addNodes, Ctx.setType] at hq
    split at hq
    · rename_i e
      cases hq
      right; right
      refine ⟨rfl, u.id, rfl, e, fun B h1 hB => ?_⟩
      have := unionVariants_clone (B := B) (fun v hv ty ht => hB [v.id] (List.mem_map.mpr ⟨v, hv, rfl⟩) ty ht) hv
      simp only [cloneCustom]
      omega
    · split at hq
      · cases hq; right; left; simp [cloneCustom]
      · exact .inl hq
  | rpcDone r ms c1 hm => exact .inl (by rw [← (rpcMethods_frame hm).2.1]; exact hq)
  | rpcWait r c' hm => exact .inl (by rw [← (rpcMethods_frame hm).2.1]; exact hq)
  | _ => exact .inl hq

/-- What is found, from what is defined. -/
theorem find_clone {X : Nat} {c : Ctx} {q : QIdent} {ty : Ty} (hX : 1 ≤ X)
    (h : ∀ ct, c.types q = some (.defined ct) → cloneCustom ct ≤ X) (ht : c.find q = some ty) : cloneTy ty ≤ X + 2 := by
  unfold Ctx.find at ht
  split at ht
  · cases ht; rw [clone_ref]; simp only [cloneCustom]; omega
  · rename_i ct e; cases ht; rw [clone_ref]; have := h ct e; omega
  · cases ht

/-! ### Any schema: the number of structs and unions -/

theorem keeps_any (s : Ast.Schema) : Keeps s.elements (5 * nestings (indexed s.elements) + 3)
    (fun m c => m ≤ nestings (indexed s.elements) ∧ Under (5 * (nestings (indexed s.elements) - m) + 3) c) := by
  generalize nestings (indexed s.elements) = D
  refine ⟨by omega, ?_, ?_⟩
  · rintro m c ⟨hm, h⟩ q ct hq
    have := h q ct hq
    omega
  · rintro m c p el b c' hel ⟨hm, h⟩ hs
    have hle : (if b then m else m + nests el) ≤ m + nests el := by split <;> omega
    refine ⟨by omega, fun q ct hq => ?_⟩
    rcases stepped_clone hs q ct hq with h1 | h1 | ⟨rfl, i, hi, rfl, h1⟩
    · have := h q ct h1; omega
    · omega
    · have hn : nests el = 1 := by simp [nests, hi]
      rw [hn] at h hm
      have := h1 (5 * (D - (m + 1)) + 3 + 2) (by omega) fun r _ ty ht => find_clone (by omega) (fun ct => h _ ct) ht
      simp only [if_true]
      omega

/-! ### Schemas in layers -/

theorem keeps_layered {E : List Element} {layer : Ident → Nat} {d : Nat} (hl : Layered E layer d) :
    Keeps E (5 * d + 4) (fun _ c => ∀ q ct, c.types q = some (.defined ct) → cloneCustom ct ≤ 5 * layer (q.getLastD []) + 4) := by
  refine ⟨by omega, ?_, ?_⟩
  · rintro m c h q ct hq
    have := h q ct hq
    have := hl.top (q.getLastD [])
    omega
  · rintro m c p el b c' hel h hs q ct hq
    rcases stepped_clone hs q ct hq with h1 | h1 | ⟨rfl, i, hi, rfl, h1⟩
    · exact h q ct h1
    · omega
    · have e : (qualify c.ns (mkIdent i)).getLastD [] = mkIdent i := by simp [qualify]
      rw [e]
      cases hz : layer (mkIdent i) with
      | zero =>
        have := h1 1 (Nat.le_refl _) fun r hr => by have := hl.members el hel i hi r hr; omega
        omega
      | succ l =>
        have := h1 (5 * l + 4 + 2) (by omega) fun r hr ty ht => by
          have h2 := hl.members el hel i hi r hr
          rw [← simple_ref c.ns r] at h2
          exact find_clone (by omega) (fun ct hct => by have := h _ ct hct; omega) ht
        omega

/-! ### Namespaces -/

theorem upsert_into {M : Nat} (k : Ident) (f : Option NsBuf → NsBuf) (h0 : intoBuf (f none) ≤ M)
    (h1 : ∀ x, intoBuf (f (some x)) ≤ max (intoBuf x) M) (l : List NsBuf) : intoBufs (upsert k f l) ≤ max (intoBufs l) M := by
  induction l with
  | nil => simp only [upsert, intoBufs]; omega
  | cons x xs ih =>
    have := h1 x
    simp only [upsert]
    split <;> simp only [intoBufs] <;> omega

theorem place_into (q : List Ident) (anc : List Ident) (kids : List Node) (l : List NsBuf) :
    intoBufs (place anc q kids l) ≤ max (intoBufs l) (2 * q.length) := by
  induction q generalizing anc l with
  | nil => simp [place]
  | cons k r ih =>
    cases r with
    | nil =>
      simp only [place]
      refine upsert_into _ _ (by simp [intoBuf, intoBufs]) ?_ l
      rintro ⟨k', i, subs, ns⟩
      simp only [intoBuf]; omega
    | cons k2 r =>
      simp only [place]
      refine upsert_into _ _ ?_ ?_ l
      · have := ih (anc ++ [k]) []
        simp only [intoBuf, intoBufs, List.length_cons] at this ⊢; omega
      · rintro ⟨k', i, subs, ns⟩
        have := ih (anc ++ [k]) subs
        simp only [intoBuf, List.length_cons] at this ⊢; omega

theorem setInsert_all {P : QIdent → Prop} {q : QIdent} {l : List QIdent} (hq : P q) (h : ∀ x ∈ l, P x) : ∀ x ∈ setInsert q l, P x := by
  induction l with
  | nil => simpa [setInsert] using hq
  | cons a l ih =>
    have ha := h a (by simp)
    have ih := ih fun x hx => h x (by simp [hx])
    simp only [setInsert]
    split
    · intro x hx
      rcases List.mem_cons.mp hx with rfl | hx
      · exact hq
      · exact h x hx
    · exact h
    · intro x hx
      rcases List.mem_cons.mp hx with rfl | hx
      · exact ha
      · exact ih x hx

theorem nsIdents_all {P : QIdent → Prop} {items : List Node} (h : ∀ n ∈ items, ∀ q, n.ns = some q → P q) : ∀ q ∈ nsIdents items, P q := by
  have key : ∀ (l s : List QIdent), (∀ q ∈ l, P q) → (∀ q ∈ s, P q) → ∀ q ∈ l.foldl (fun s q => setInsert q s) s, P q := by
    intro l
    induction l with
    | nil => intro s _ hs; exact hs
    | cons a l ih =>
      intro s hl hs
      exact ih _ (fun q hq => hl q (by simp [hq])) (setInsert_all (hl a (by simp)) hs)
  refine key _ [] (fun q hq => ?_) (fun q hq => by cases hq)
  obtain ⟨n, hn, hq⟩ := List.mem_filterMap.mp hq
  exact h n hn q hq

theorem bufs_into {K : Nat} {items : List Node} (h : ∀ n ∈ items, n.ident.length ≤ K + 1) : intoBufs (bufs items) ≤ 2 * K := by
  have hl : ∀ q ∈ nsIdents items, q.length ≤ K := by
    refine nsIdents_all fun n hn q hq => ?_
    have := h n hn
    unfold Node.ns QIdent.namespace at hq
    split at hq
    · cases hq; rw [List.length_take]; omega
    · cases hq
  unfold bufs
  have key : ∀ (qs : List QIdent) (l : List NsBuf), (∀ q ∈ qs, q.length ≤ K) → intoBufs l ≤ 2 * K →
      intoBufs (qs.foldl (fun l q => place [] q (items.filter fun n => n.ns == some q) l) l) ≤ 2 * K := by
    intro qs
    induction qs with
    | nil => intro l _ h; exact h
    | cons q qs ih =>
      intro l h1 h2
      refine ih _ (fun q hq => h1 q (by simp [hq])) ?_
      have := place_into q [] (items.filter fun n => n.ns == some q) l
      have := h1 q (by simp)
      show intoBufs (place [] q (items.filter fun n => n.ns == some q) l) ≤ _
      omega
  exact key _ [] hl (by simp [intoBufs])

/-- Names have at most so many parts, as the namespaces have. -/
def Short (L : Nat) (c : Ctx) : Prop := (c.ns.getD []).length ≤ L ∧ ∀ n ∈ c.nodes.flatMap (·.2), n.ident.length ≤ L + 2

theorem stepped_short {L : Nat} {c c' : Ctx} {p : Nat} {el : Element} {b : Bool} (hel : ∀ n d, el = .namespace n d → n.length ≤ L)
    (h : Stepped c p el b c') (hc : Short L c) : Short L c' := by
  obtain ⟨h1, h2⟩ := hc
  have hq : ∀ i, (qualify c.ns i).length ≤ L + 2 := fun i => by simp [qualify, mkQIdent]; omega
  have hu : ∀ u, (unionEnumIdent c.ns u).length ≤ L + 2 := fun u => by simp [unionEnumIdent, qualifyRel, mkQIdent]; omega
  cases h with
  | «namespace» n d => exact ⟨hel n d rfl, h2⟩
  | rpcDone r ms c1 hm =>
    refine ⟨by rw [show (c1.addNodes p _).ns = c1.ns from rfl, (rpcMethods_frame hm).1]; exact h1, fun n hn => ?_⟩
    rcases insertNodes_mem hn with hn | hn
    · simp only [List.mem_singleton] at hn; subst hn; exact hq _
    · rw [(rpcMethods_frame hm).2.2.1] at hn; exact h2 n hn
  | rpcWait r c' hm =>
    refine ⟨by rw [(rpcMethods_frame hm).1]; exact h1, fun n hn => ?_⟩
    rw [(rpcMethods_frame hm).2.2.1] at hn; exact h2 n hn
  | unionDone u vs hd hv hg =>
    refine ⟨h1, fun n hn => ?_⟩
    rcases insertNodes_mem hn with hn | hn
    · simp only [List.mem_cons, List.not_mem_nil, or_false] at hn
      rcases hn with rfl | rfl
      · exact hu _
      · exact hq _
    · exact h2 n hn
  | _ =>
    first
    | exact ⟨h1, h2⟩
    | (refine ⟨h1, fun n hn => ?_⟩
       rcases insertNodes_mem hn with hn | hn
       · simp only [List.mem_singleton] at hn; subst hn; exact hq _
       · exact h2 n hn)

theorem pass_short {L : Nat} (input : List Indexed) (hE : ∀ x ∈ input, ∀ n d, x.2 = .namespace n d → n.length ≤ L) (c c' : Ctx)
    (uns : List Indexed) (hc : Short L c) (h : c.pass input = .ok (uns, c')) : Short L c' ∧ ∀ x ∈ uns, x ∈ input := by
  induction input generalizing c uns with
  | nil => simp only [Ctx.pass] at h; cases h; exact ⟨hc, fun _ h => h⟩
  | cons x rest ih =>
    obtain ⟨p, el⟩ := x
    simp only [Ctx.pass] at h
    obtain ⟨⟨b, c1⟩, h1, h⟩ := BRes.bind_eq_ok.mp h
    obtain ⟨⟨u, c2⟩, h2, h⟩ := BRes.bind_eq_ok.mp h
    simp only [BRes.pure_eq, BRes.ok.injEq, Prod.mk.injEq] at h
    obtain ⟨rfl, rfl⟩ := h
    obtain ⟨i1, i2⟩ := ih (fun x hx => hE x (by simp [hx])) c1 u (stepped_short (hE (p, el) (by simp)) (newElement_ok h1) hc) h2
    refine ⟨i1, fun x hx => ?_⟩
    split at hx
    · exact List.mem_cons_of_mem _ (i2 x hx)
    · rcases List.mem_cons.mp hx with rfl | hx
      · simp
      · exact List.mem_cons_of_mem _ (i2 x hx)

theorem retry_short {L : Nat} (fuel : Nat) (input : List Indexed) (hE : ∀ x ∈ input, ∀ n d, x.2 = .namespace n d → n.length ≤ L)
    (c c' : Ctx) (hc : Short L c) (h : Ctx.retry fuel c input = some (.ok c')) : Short L c' := by
  induction fuel generalizing c input with
  | zero => cases h
  | succ fuel ih =>
    simp only [Ctx.retry] at h
    cases hp : c.pass input with
    | err e => rw [hp] at h; cases h
    | panic => rw [hp] at h; cases h
    | ok x =>
      obtain ⟨uns, c1⟩ := x
      rw [hp] at h
      simp only at h
      obtain ⟨h1, h2⟩ := pass_short input hE c c1 uns hc hp
      split at h
      · cases h; exact h1
      · split at h
        · cases h
        · exact ih uns (fun x hx => hE x (h2 x hx)) c1 h1 h

theorem items_ident {K : Nat} {c : Ctx} (h : ∀ n ∈ c.nodes.flatMap (·.2), n.ident.length ≤ K) : ∀ n ∈ c.items, n.ident.length ≤ K := by
  intro n hn
  unfold Ctx.items at hn
  obtain ⟨n0, h0, rfl⟩ := List.mem_map.mp hn
  have := h n0 h0
  cases n0 with
  | table t => simp only; split <;> exact this
  | _ => exact this

theorem build_deep {s : Ast.Schema} {X N L : Nat} {I : Nat → Ctx → Prop} (k : Keeps s.elements X I)
    (hi : I (nestings (indexed s.elements)) .init) (hN : Vectors N s.elements)
    (hL : ∀ n d, .namespace n d ∈ s.elements → n.length ≤ L) : (build s).deep ≤ max (N + X + 4) (2 * (L + 1)) + 1 := by
  have hm : ∀ x ∈ indexed s.elements, x.2 ∈ s.elements := fun x hx => List.mem_of_getElem? (indexed_mem.mp hx)
  have h1 := retry_deep k hN (s.elements.length + 1) (indexed s.elements) hm .init hi
  simp only [build, call_deep, bind_deep, retry_val]
  refine Nat.add_le_add_right (Nat.max_le.mpr ⟨by omega, ?_⟩) 1
  cases hr : Ctx.retry (s.elements.length + 1) .init (indexed s.elements) with
  | none => simp
  | some r =>
    cases r with
    | err e => simp
    | panic => simp
    | ok c =>
      have h2 := retry_short _ _ (fun x hx n d e => hL n d (e ▸ hm x hx)) _ _ ⟨Nat.zero_le _, fun n hn => by cases hn⟩ hr
      have := bufs_into (K := L + 1) (items_ident h2.2)
      simp only [bind_deep, uses_deep, pure_deep]
      omega

end Butte.Ir.Nested
