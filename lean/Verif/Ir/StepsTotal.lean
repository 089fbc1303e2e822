import Verif.Ir.StepsBound
import Verif.Ir.Accept
/-
How many steps the whole analysis takes, in terms of how the types of a schema are nested; and that what it gives is not larger than
that.
-/
namespace Butte.Ir.Timed

open Parse.Timed (Ct tick pure_steps pure_val bind_steps bind_val tick_steps)
open Ast (Element)

/-- The name of a struct or union that is declared. -/
def nestName : Element → Option Ast.Ident
  | .struct s => some s.id
  | .union u => some u.id
  | _ => none

/-- One for a struct or union. -/
def nests (el : Element) : Nat := if (nestName el).isSome then 1 else 0

/-- Number of structs and unions. -/
def nestings (l : List Indexed) : Nat := (l.map fun x => nests x.2).sum

/-- Number of nodes of the declarations as written. -/
def totalWeight (l : List Indexed) : Nat := (l.map fun x => weight x.2).sum

/-- A condition on the state, which may depend on the number of structs and unions still to be resolved, that holds along the way and
bounds the sizes of the types. -/
structure Keeps (E : List Element) (B : Nat) (I : Nat → Ctx → Prop) : Prop where
  pos : 1 ≤ B
  below : ∀ m c, I m c → Below B c
  step : ∀ m c p el b c', el ∈ E → I (m + nests el) c → Stepped c p el b c' → I (if b then m else m + nests el) c'

theorem pass_steps {E : List Element} {B : Nat} {I : Nat → Ctx → Prop} (k : Keeps E B I) (input : List Indexed)
    (hE : ∀ x ∈ input, x.2 ∈ E) (m : Nat) (c : Ctx) (hi : I (m + nestings input) c) :
    (pass c input).steps ≤ input.length + 4 * (totalWeight input * (B + 1)) ∧
    ∀ uns c', c.pass input = .ok (uns, c') → uns.Sublist input ∧ I (m + nestings uns) c' := by
  induction input generalizing m c with
  | nil =>
    refine ⟨Nat.zero_le _, fun uns c' h => ?_⟩
    simp only [Ctx.pass] at h
    cases h
    exact ⟨.refl _, hi⟩
  | cons x rest ih =>
    obtain ⟨p, el⟩ := x
    have hel : el ∈ E := hE (p, el) (by simp)
    have hn : nestings ((p, el) :: rest) = nests el + nestings rest := by simp [nestings]
    have hw : totalWeight ((p, el) :: rest) * (B + 1) = weight el * (B + 1) + totalWeight rest * (B + 1) := by
      simp [totalWeight, Nat.add_mul]
    have hi' : I ((m + nestings rest) + nests el) c := by
      rw [hn] at hi
      rwa [show m + (nests el + nestings rest) = (m + nestings rest) + nests el by omega] at hi
    have hst := newElement_steps k.pos (k.below _ _ hi') p el
    have next : ∀ b c1, c.newElement p el = .ok (b, c1) →
        I ((if b then m else m + nests el) + nestings rest) c1 := by
      intro b c1 h1
      have := k.step _ _ _ _ _ _ hel hi' (newElement_ok h1)
      cases b
      · rw [if_neg (by simp)] at this ⊢
        rwa [show m + nests el + nestings rest = m + nestings rest + nests el by omega]
      · exact this
    constructor
    · simp only [pass, bind_steps, tick_steps, andThen_steps, newElement_val]
      rw [hw, List.length_cons]
      split
      · rename_i y h1
        obtain ⟨b, c1⟩ := y
        have := (ih (fun x hx => hE x (by simp [hx])) _ c1 (next b c1 h1)).1
        simp only
        split
        · simp only [pure_steps]; omega
        · omega
      · omega
    · intro uns c' h
      simp only [Ctx.pass] at h
      obtain ⟨⟨b, c1⟩, h1, h⟩ := BRes.bind_eq_ok.mp h
      obtain ⟨⟨u, c2⟩, h2, h⟩ := BRes.bind_eq_ok.mp h
      obtain ⟨s1, s2⟩ := (ih (fun x hx => hE x (by simp [hx])) _ c1 (next b c1 h1)).2 u c2 h2
      simp only [BRes.pure_eq, BRes.ok.injEq, Prod.mk.injEq] at h
      obtain ⟨rfl, rfl⟩ := h
      cases b
      · refine ⟨s1.cons_cons _, ?_⟩
        have : nestings ((p, el) :: u) = nests el + nestings u := by simp [nestings]
        rw [if_neg (by simp)] at s2 ⊢
        rw [this, ← Nat.add_assoc]
        exact s2
      · exact ⟨s1.cons _, s2⟩

theorem totalWeight_sublist {a b : List Indexed} (h : a.Sublist b) : totalWeight a ≤ totalWeight b := by
  induction h with
  | slnil => exact Nat.le_refl _
  | cons x _ ih => simp only [totalWeight, List.map_cons, List.sum_cons] at *; omega
  | cons_cons x _ ih => simp only [totalWeight, List.map_cons, List.sum_cons] at *; omega

theorem retry_steps {E : List Element} {B : Nat} {I : Nat → Ctx → Prop} (k : Keeps E B I) (fuel : Nat) (input : List Indexed)
    (hE : ∀ x ∈ input, x.2 ∈ E) (c : Ctx) (hi : I (nestings input) c) :
    (retry fuel c input).steps ≤ fuel * (1 + input.length + 4 * (totalWeight input * (B + 1))) := by
  induction fuel generalizing input c with
  | zero => simp [retry]
  | succ fuel ih =>
    obtain ⟨h1, h2⟩ := pass_steps k input hE 0 c (by simpa using hi)
    simp only [retry, bind_steps, tick_steps, pass_val]
    rw [Nat.add_mul, Nat.one_mul]
    cases hp : c.pass input with
    | err e => simp only [pure_steps]; omega
    | panic => simp only [pure_steps]; omega
    | ok x =>
      obtain ⟨uns, c'⟩ := x
      obtain ⟨s1, s2⟩ := h2 uns c' hp
      simp only
      split
      · simp only [pure_steps]; omega
      · split
        · simp only [pure_steps]; omega
        · have := ih uns (fun x hx => hE x (s1.subset hx)) c' (by simpa using s2)
          have l1 := s1.length_le
          have l2 := Nat.mul_le_mul_right (B + 1) (totalWeight_sublist s1)
          have l3 : fuel * (1 + uns.length + 4 * (totalWeight uns * (B + 1))) ≤
              fuel * (1 + input.length + 4 * (totalWeight input * (B + 1))) := Nat.mul_le_mul_left _ (by omega)
          omega

/-- Number of nodes of a schema as written. -/
def schemaWeight (s : Ast.Schema) : Nat := (s.elements.map weight).sum

theorem totalWeight_indexed (s : Ast.Schema) : totalWeight (indexed s.elements) = schemaWeight s := by
  unfold totalWeight indexed schemaWeight
  rw [List.map_map]
  congr 1
  conv_rhs => rw [← List.zipIdx_map_fst 0 s.elements]
  rw [List.map_map]
  rfl

theorem weight_pos (el : Element) : 1 ≤ weight el := by cases el <;> simp [weight]

theorem length_le_weight (s : Ast.Schema) : s.elements.length ≤ schemaWeight s := by
  unfold schemaWeight
  induction s.elements with
  | nil => simp
  | cons el l ih =>
    have := weight_pos el
    simp only [List.length_cons, List.map_cons, List.sum_cons]; omega

theorem weight_le {s : Ast.Schema} {el : Element} (h : el ∈ s.elements) : weight el ≤ schemaWeight s := by
  unfold schemaWeight
  generalize s.elements = l at h
  induction l with
  | nil => cases h
  | cons x l ih =>
    simp only [List.map_cons, List.sum_cons]
    rcases List.mem_cons.mp h with rfl | h
    · omega
    · have := ih h; omega

theorem build_steps {s : Ast.Schema} {B : Nat} {I : Nat → Ctx → Prop} (k : Keeps s.elements B I)
    (hi : I (nestings (indexed s.elements)) .init) :
    (build s).steps ≤ (s.elements.length + 1) * (1 + s.elements.length + 4 * (schemaWeight s * (B + 1))) := by
  have := retry_steps k (s.elements.length + 1) (indexed s.elements)
    (fun x hx => List.mem_of_getElem? (indexed_mem.mp hx)) .init hi
  rw [totalWeight_indexed] at this
  simp only [build, bind_steps, pure_steps]
  rw [show (indexed s.elements).length = s.elements.length by simp [indexed]] at this
  omega

/-- In powers of one number. -/
theorem build_power {s : Ast.Schema} {d : Nat} {I : Nat → Ctx → Prop}
    (k : Keeps s.elements ((2 * schemaWeight s + 2) ^ (d + 1)) I) (hi : I (nestings (indexed s.elements)) .init) :
    (build s).steps ≤ 2 * (2 * schemaWeight s + 2) ^ (d + 3) := by
  have h := build_steps k hi
  have hn := length_le_weight s
  generalize hW : schemaWeight s = W at *
  generalize hB : (2 * W + 2) ^ (d + 1) = B at *
  have hB2 : 2 ≤ B := by
    rw [← hB]
    calc 2 ≤ 2 * W + 2 := by omega
      _ = (2 * W + 2) ^ 1 := (Nat.pow_one _).symm
      _ ≤ _ := Nat.pow_le_pow_right (by omega) (by omega)
  have e : (2 * W + 2) ^ (d + 3) = 4 * ((W + 1) * (W + 1) * B) := by
    rw [show d + 3 = (d + 1) + 2 by omega, Nat.pow_add, hB, Nat.pow_two]
    rw [show 2 * W + 2 = 2 * (W + 1) by omega]
    generalize W + 1 = V
    rw [show 2 * V * (2 * V) = 4 * (V * V) by rw [Nat.mul_assoc, Nat.mul_left_comm V 2, ← Nat.mul_assoc]]
    rw [Nat.mul_comm B, Nat.mul_assoc]
  rw [e]
  refine Nat.le_trans h ?_
  have h2 : 1 + s.elements.length + 4 * (W * (B + 1)) ≤ 7 * ((W + 1) * B) := by
    have : W ≤ W * B := Nat.le_mul_of_pos_right _ (by omega)
    have : W * 2 ≤ W * B := Nat.mul_le_mul_left _ hB2
    rw [Nat.mul_add, Nat.mul_one, Nat.add_mul, Nat.one_mul]
    omega
  calc (s.elements.length + 1) * (1 + s.elements.length + 4 * (W * (B + 1)))
      ≤ (W + 1) * (7 * ((W + 1) * B)) := Nat.mul_le_mul (by omega) h2
    _ = 7 * ((W + 1) * (W + 1) * B) := by rw [Nat.mul_left_comm, Nat.mul_assoc]
    _ ≤ _ := by omega

/-! ### What a step defines -/

theorem ref_size (ct : CustomType) (q q' : QIdent) : size (ct.ref q) = size (ct.ref q') := by
  cases ct <;> simp [CustomType.ref, size]

theorem tryType_size_refs {B : Nat} {c : Ctx} (t : Ast.Ty)
    (h : ∀ q ∈ tyRefs t, ∀ ty, c.find (qualifyRef c.ns q) = some ty → size ty ≤ B) (ty : Ty) (ht : c.tryType t = some ty) :
    size ty ≤ typeWeight t + B := by
  induction t generalizing ty with
  | builtin b => cases ht; simp [size, typeWeight]
  | string => cases ht; simp [size, typeWeight]
  | array t ih =>
    simp only [Ctx.tryType, Option.map_eq_some_iff] at ht
    obtain ⟨t', h1, rfl⟩ := ht
    have := ih h _ h1
    simp only [size, typeWeight]; omega
  | ident q => have := h q (by simp [tyRefs]) _ ht; simp only [typeWeight]; omega

/-- What is defined after a step was defined before, or is small, or is the struct or union of the step, made of the types that its
members are found to have. -/
theorem stepped_new {c c' : Ctx} {p : Nat} {el : Element} {b : Bool} {W : Nat} (hw : weight el ≤ W) (h : Stepped c p el b c')
    (q : QIdent) (ct : CustomType) (hq : c'.types q = some (.defined ct)) :
    c.types q = some (.defined ct) ∨ size (ct.ref q) ≤ W + 1 ∨
    (b = true ∧ ∃ i, nestName el = some i ∧ q = qualify c.ns (mkIdent i) ∧
      ∀ B, (∀ r ∈ needs el, ∀ ty, c.find (qualifyRef c.ns r) = some ty → size ty ≤ B) →
        size (ct.ref q) ≤ (W + 1) * (B + 1)) := by
  cases h with
  | tableDone t fields hd hf =>
    simp only [Ctx.addNodes, Ctx.setType] at hq
    split at hq
    · cases hq; right; left; simp [CustomType.ref, size]
    · exact .inl hq
  | tableWait t hd hf =>
    simp only [Ctx.setType] at hq
    split at hq
    · cases hq
    · exact .inl hq
  | structDone s fields hd hf =>
    simp only [Ctx.addNodes, Ctx.setType] at hq
    split at hq
    · rename_i e
      cases hq
      right; right
      refine ⟨rfl, s.id, rfl, e, fun B hB => ?_⟩
      have := structFields_size (B := B) (fun f hf ty ht => tryType_size_refs f.ty
        (fun r hr => hB r (List.mem_flatMap.mpr ⟨f, hf, hr⟩)) ty ht) hf
      simp only [weight] at hw
      simp only [CustomType.ref, size]
      have := Nat.mul_le_mul_right (B + 1) (show fieldsWeight s.fields ≤ W by omega)
      rw [Nat.add_mul W, Nat.one_mul]
      omega
    · exact .inl hq
  | enum e base hd hb =>
    simp only [Ctx.addNodes, Ctx.setType] at hq
    split at hq
    · cases hq
      right; left
      simp only [weight] at hw
      simp only [CustomType.ref, size, enumVariants, List.length_map]
      omega
    · exact .inl hq
  | unionDone u vs hd hv hg =>
    simp only [weight] at hw
    simp only [Ctx.addNodes, Ctx.setType] at hq
    split at hq
    · rename_i e
      cases hq
      right; right
      refine ⟨rfl, u.id, rfl, e, fun B hB => ?_⟩
      have := unionVariants_size (B := B) (fun v hv ty ht => hB [v.id] (List.mem_map.mpr ⟨v, hv, rfl⟩) ty ht) hv
      simp only [CustomType.ref, size]
      have := Nat.mul_le_mul_right (B + 1) (show u.variants.length ≤ W by omega)
      rw [Nat.add_mul W, Nat.one_mul]
      omega
    · split at hq
      · cases hq
        right; left
        simp only [CustomType.ref, size, unionEnumVariants, List.length_cons, List.length_map]
        omega
      · exact .inl hq
  | rpcDone r ms c1 hm => exact .inl (by rw [← (rpcMethods_frame hm).2.1]; exact hq)
  | rpcWait r c' hm => exact .inl (by rw [← (rpcMethods_frame hm).2.1]; exact hq)
  | _ => exact .inl hq

theorem below_of {B : Nat} {c : Ctx} (hB : 1 ≤ B) (h : ∀ q ct, c.types q = some (.defined ct) → size (ct.ref q) ≤ B) :
    Below B c := by
  intro q ty ht
  unfold Ctx.find at ht
  split at ht
  · cases ht; simpa [CustomType.ref, size] using hB
  · rename_i ct e; cases ht; exact h q ct e
  · cases ht

theorem power_step (W e : Nat) : (W + 1) * ((2 * W + 2) ^ e + 1) ≤ (2 * W + 2) ^ (e + 1) := by
  have : 1 ≤ (2 * W + 2) ^ e := Nat.one_le_pow _ _ (by omega)
  rw [Nat.pow_succ, show (2 * W + 2) ^ e * (2 * W + 2) = (W + 1) * (2 * (2 * W + 2) ^ e) by
    rw [show 2 * W + 2 = 2 * (W + 1) by omega, Nat.mul_comm, Nat.mul_left_comm (W + 1) 2, ← Nat.mul_assoc]]
  exact Nat.mul_le_mul_left _ (by omega)

theorem power_base (W e : Nat) : W + 1 ≤ (2 * W + 2) ^ (e + 1) := by
  calc W + 1 ≤ 2 * W + 2 := by omega
    _ = (2 * W + 2) ^ 1 := (Nat.pow_one _).symm
    _ ≤ _ := Nat.pow_le_pow_right (by omega) (by omega)

/-! ### Any schema: the number of structs and unions -/

theorem keeps_any (s : Ast.Schema) : Keeps s.elements ((2 * schemaWeight s + 2) ^ (nestings (indexed s.elements) + 1))
    (fun m c => m ≤ nestings (indexed s.elements) ∧ ∀ q ct, c.types q = some (.defined ct) →
      size (ct.ref q) ≤ (2 * schemaWeight s + 2) ^ (nestings (indexed s.elements) - m + 1)) := by
  generalize nestings (indexed s.elements) = D
  refine ⟨Nat.one_le_pow _ _ (by omega), ?_, ?_⟩
  · rintro m c ⟨hm, h⟩
    refine below_of (Nat.one_le_pow _ _ (by omega)) fun q ct hq => Nat.le_trans (h q ct hq) ?_
    exact Nat.pow_le_pow_right (by omega) (by omega)
  · rintro m c p el b c' hel ⟨hm, h⟩ hs
    have hle : (if b then m else m + nests el) ≤ m + nests el := by split <;> omega
    refine ⟨by omega, fun q ct hq => ?_⟩
    rcases stepped_new (weight_le hel) hs q ct hq with h1 | h1 | ⟨rfl, i, hi, rfl, h1⟩
    · exact Nat.le_trans (h q ct h1) (Nat.pow_le_pow_right (by omega) (by omega))
    · exact Nat.le_trans h1 (power_base _ _)
    · have hn : nests el = 1 := by simp [nests, hi]
      rw [hn] at h hm
      have := h1 ((2 * schemaWeight s + 2) ^ (D - (m + 1) + 1)) fun r _ =>
        below_of (Nat.one_le_pow _ _ (by omega)) h _
      refine Nat.le_trans this (Nat.le_trans (power_step _ _) ?_)
      exact Nat.pow_le_pow_right (by omega) (by simp; omega)

theorem build_any (s : Ast.Schema) :
    (build s).steps ≤ 2 * (2 * schemaWeight s + 2) ^ (nestings (indexed s.elements) + 3) :=
  build_power (keeps_any s) ⟨Nat.le_refl _, fun q ct h => by cases h⟩

/-! ### Schemas in layers -/

/-- The last part of a name, with the substitution for keywords. -/
def lastPart (q : Ast.QIdent) : Ident := mkIdent (q.getLastD [])

/-- Every struct and union is in a higher layer than the types that its members name; types are told apart by the last part of their
names. -/
structure Layered (E : List Element) (layer : Ident → Nat) (d : Nat) : Prop where
  top : ∀ i, layer i ≤ d
  members : ∀ el ∈ E, ∀ i, nestName el = some i → ∀ q ∈ needs el, layer (lastPart q) < layer (mkIdent i)

theorem simple_ref (ns : Option Ast.QIdent) (q : Ast.QIdent) : (qualifyRef ns q).getLastD [] = lastPart q := by
  match q with
  | [] => rfl
  | [i] => simp [qualifyRef, qualify, lastPart]
  | i :: j :: r =>
    simp only [qualifyRef, mkQIdent, lastPart, List.getLastD_eq_getLast?, List.getLast?_map]
    rw [List.getLast?_eq_some_getLast (by simp : i :: j :: r ≠ [])]
    rfl

theorem keeps_layered {s : Ast.Schema} {layer : Ident → Nat} {d : Nat} (hl : Layered s.elements layer d) :
    Keeps s.elements ((2 * schemaWeight s + 2) ^ (d + 1))
    (fun _ c => ∀ q ct, c.types q = some (.defined ct) →
      size (ct.ref q) ≤ (2 * schemaWeight s + 2) ^ (layer (q.getLastD []) + 1)) := by
  refine ⟨Nat.one_le_pow _ _ (by omega), ?_, ?_⟩
  · rintro m c h
    refine below_of (Nat.one_le_pow _ _ (by omega)) fun q ct hq => Nat.le_trans (h q ct hq) ?_
    have := hl.top (q.getLastD [])
    exact Nat.pow_le_pow_right (by omega) (by omega)
  · rintro m c p el b c' hel h hs q ct hq
    rcases stepped_new (weight_le hel) hs q ct hq with h1 | h1 | ⟨rfl, i, hi, rfl, h1⟩
    · exact h q ct h1
    · exact Nat.le_trans h1 (power_base _ _)
    · have e : (qualify c.ns (mkIdent i)).getLastD [] = mkIdent i := by simp [qualify]
      rw [e]
      have := h1 ((2 * schemaWeight s + 2) ^ (layer (mkIdent i))) fun r hr ty ht => by
        have h2 := hl.members el hel i hi r hr
        rw [← simple_ref c.ns r] at h2
        unfold Ctx.find at ht
        split at ht
        · cases ht; simpa [CustomType.ref, size] using Nat.one_le_pow _ _ (by omega)
        · rename_i ct' e'
          cases ht
          exact Nat.le_trans (h _ ct' e') (Nat.pow_le_pow_right (by omega) (by omega))
        · cases ht
      exact Nat.le_trans this (power_step _ _)

theorem build_layered {s : Ast.Schema} {layer : Ident → Nat} {d : Nat} (hl : Layered s.elements layer d) :
    (build s).steps ≤ 2 * (2 * schemaWeight s + 2) ^ (d + 3) :=
  build_power (keeps_layered hl) (fun q ct h => by cases h)

/-! ### What comes out is not larger than the number of steps -/

theorem tableFields_size_le (c : Ctx) (fs : List Ast.Field) (fields : List Field) (h : c.tableFields fs = .ok (some fields)) :
    sizeFields fields ≤ (tableFields c fs).steps := by
  induction fs generalizing fields with
  | nil => simp only [Ctx.tableFields] at h; cases h; simp [sizeFields]
  | cons f fs ih =>
    simp only [Ctx.tableFields] at h
    simp only [tableFields, bind_steps, tick_steps, tryType_val]
    cases ht : c.tryType f.ty with
    | none => rw [ht] at h; cases h
    | some ty =>
      rw [ht] at h
      simp only at h ⊢
      have h1 := tryType_size_le c f.ty ty ht
      obtain ⟨pre, h2, h⟩ := BRes.bind_eq_ok.mp h
      obtain ⟨rest, h3, h⟩ := BRes.bind_eq_ok.mp h
      cases rest with
      | none => cases h
      | some r =>
        cases h
        have h4 := ih r h3
        have h5 : sizeFields pre ≤ (companion c f ty).steps := by
          unfold companion
          cases hc : ty.companion with
          | none => rw [hc] at h2; cases h2; simp [sizeFields]
          | some e =>
            rw [hc] at h2
            simp only at h2
            simp only [bind_steps, find_val]
            cases hf : c.find e with
            | none => rw [hf] at h2; cases h2
            | some ety =>
              rw [hf] at h2
              cases h2
              have := find_size_le c e ety hf
              simp only [sizeFields, sizeField, pure_steps]; omega
        have h6 : (companion c f ty).val = .ok pre := by rw [companion_val]; exact h2
        simp only [andThen_steps, h6, tableFields_val, h3, sizeFields_append, sizeFields, sizeField, pure_steps]
        omega

theorem structFields_size_le (c : Ctx) (q : QIdent) (fs : List Ast.Field) (fields : List Field)
    (h : c.structFields q fs = .ok (some fields)) : sizeFields fields ≤ (structFields c q fs).steps := by
  induction fs generalizing fields with
  | nil => simp only [Ctx.structFields] at h; cases h; simp [sizeFields]
  | cons f fs ih =>
    simp only [Ctx.structFields] at h
    simp only [structFields, bind_steps, tick_steps, tryType_val]
    cases ht : c.tryType f.ty with
    | none => rw [ht] at h; cases h
    | some ty =>
      rw [ht] at h
      simp only at h ⊢
      have h1 := tryType_size_le c f.ty ty ht
      split at h
      · rename_i hsc
        obtain ⟨rest, h3, h⟩ := BRes.bind_eq_ok.mp h
        rw [if_pos hsc]
        cases rest with
        | none => cases h
        | some r =>
          cases h
          have h4 := ih r h3
          simp only [andThen_steps, structFields_val, h3, sizeFields, sizeField, pure_steps]
          omega
      · cases h

theorem unionVariants_size_le (c : Ctx) (vs : List Ast.EnumVariant) (uvs : List UnionVariant)
    (h : c.unionVariants vs = some uvs) : sizeVariants uvs ≤ (unionVariants c vs).steps := by
  induction vs generalizing uvs with
  | nil => simp only [Ctx.unionVariants] at h; cases h; simp [sizeVariants]
  | cons v vs ih =>
    simp only [Ctx.unionVariants] at h
    simp only [unionVariants, bind_steps, tick_steps, tryType_val]
    cases ht : c.tryType (.ident [v.id]) with
    | none => rw [ht] at h; cases h
    | some ty =>
      rw [ht] at h
      simp only [Option.map_eq_some_iff] at h
      obtain ⟨r, h2, rfl⟩ := h
      have h1 := tryType_size_le c _ ty ht
      have h4 := ih r h2
      simp only [bind_steps, pure_steps, sizeVariants, sizeVariant]
      omega

theorem rpcMethods_size_le (c c' : Ctx) (ms : List Ast.RpcMethod) (r : List RpcMethod)
    (h : c.rpcMethods ms = .ok (some r, c')) : r.length ≤ (rpcMethods c ms).steps := by
  induction ms generalizing c r with
  | nil => simp only [Ctx.rpcMethods] at h; cases h; simp
  | cons m ms ih =>
    simp only [Ctx.rpcMethods] at h
    obtain ⟨⟨b1, c1⟩, h1, h⟩ := BRes.bind_eq_ok.mp h
    have e1 : ∀ c q, (newRootIdent c q).val = c.newRootIdent q := fun _ _ => rfl
    simp only [rpcMethods, bind_steps, tick_steps, andThen_steps, e1, h1]
    cases b1 with
    | false => cases h
    | true =>
      simp only [Bool.true_eq_false, if_false] at h ⊢
      obtain ⟨⟨b2, c2⟩, h2, h⟩ := BRes.bind_eq_ok.mp h
      simp only [andThen_steps, e1, h2]
      cases b2 with
      | false => cases h
      | true =>
        simp only [Bool.true_eq_false, if_false] at h ⊢
        obtain ⟨s, hs, h⟩ := BRes.bind_eq_ok.mp h
        obtain ⟨⟨rest, c3⟩, h3, h⟩ := BRes.bind_eq_ok.mp h
        cases rest with
        | none => cases h
        | some r' =>
          cases h
          have := ih c2 r' h3
          simp only [andThen_steps, pure_val, hs, List.length_cons]
          omega

/-- Sizes of the items made so far. -/
def madeSize (c : Ctx) : Nat := ((c.nodes.flatMap (·.2)).map nodeSize).sum

theorem insertNodes_size (p : Nat) (ns : List Node) (l : List (Nat × List Node)) :
    (((insertNodes p ns l).flatMap (·.2)).map nodeSize).sum ≤ (ns.map nodeSize).sum + ((l.flatMap (·.2)).map nodeSize).sum := by
  induction l with
  | nil => simp [insertNodes]
  | cons x l ih =>
    simp only [insertNodes]
    split
    · simp
    · split
      · simp
      · simp only [List.flatMap_cons, List.map_append, List.sum_append]; omega

theorem addNodes_size (c : Ctx) (p : Nat) (ns : List Node) : madeSize (c.addNodes p ns) ≤ (ns.map nodeSize).sum + madeSize c :=
  insertNodes_size p ns c.nodes

theorem setType_size (c : Ctx) (q : QIdent) (s : Status) : madeSize (c.setType q s) = madeSize c := rfl

theorem newElement_size_le (c c' : Ctx) (p : Nat) (el : Element) (b : Bool) (h : c.newElement p el = .ok (b, c')) :
    madeSize c' ≤ madeSize c + (newElement c p el).steps := by
  have hs := newElement_ok h
  cases hs with
  | tableDone t fields hd hf =>
    refine Nat.le_trans (addNodes_size _ _ _) ?_
    have := tableFields_size_le _ _ _ hf
    simp only [setType_size, newElement, newTable, bind_steps, tick_steps, hd, tableFields_val, hf, pure_steps, List.map_cons, List.map_nil,
      List.sum_cons, List.sum_nil, nodeSize, Bool.false_eq_true, if_false]
    omega
  | structDone t fields hd hf =>
    refine Nat.le_trans (addNodes_size _ _ _) ?_
    have := structFields_size_le _ _ _ _ hf
    simp only [setType_size, newElement, newStruct, bind_steps, tick_steps, hd, structFields_val, hf, pure_steps, List.map_cons, List.map_nil,
      List.sum_cons, List.sum_nil, nodeSize, Bool.false_eq_true, if_false]
    omega
  | enum e base hd hb =>
    refine Nat.le_trans (addNodes_size _ _ _) ?_
    simp only [setType_size, newElement, newEnum, bind_steps, tick_steps, hd, hb, pure_steps, List.map_cons, List.map_nil,
      List.sum_cons, List.sum_nil, nodeSize, Bool.false_eq_true, if_false, enumVariants, List.length_map]
    omega
  | unionDone u vs hd hv hg =>
    refine Nat.le_trans (addNodes_size _ _ _) ?_
    have := unionVariants_size_le _ _ _ hv
    have e : (generateEnum c u).val = .ok (⟨unionEnumIdent c.ns u, unionEnumVariants u.variants, .ubyte, u.doc⟩,
        c.setType (unionEnumIdent c.ns u) (.defined (.enum (unionEnumVariants u.variants) .ubyte))) := by
      rw [generateEnum_val]; simp [Ctx.generateEnum, hg]
    have e2 : (generateEnum c u).steps = 1 + (2 * (u.variants.length + 1) + 1) := by
      simp [generateEnum, hg]
    simp only [setType_size, newElement, newUnion, bind_steps, tick_steps, hd, unionVariants_val, hv, andThen_steps, e, e2, pure_steps, List.map_cons,
      List.map_nil, List.sum_cons, List.sum_nil, nodeSize, Bool.false_eq_true, if_false, unionEnumVariants, List.length_cons,
      List.length_map]
    omega
  | rpcDone r ms c1 hm =>
    refine Nat.le_trans (addNodes_size _ _ _) ?_
    have := rpcMethods_size_le _ _ _ _ hm
    rw [show madeSize c1 = madeSize c by unfold madeSize; rw [(rpcMethods_frame hm).2.2.1]]
    simp only [newElement, newRpc, bind_steps, tick_steps, andThen_steps, rpcMethods_val, hm, pure_steps, List.map_cons, List.map_nil,
      List.sum_cons, List.sum_nil, nodeSize]
    omega
  | rpcWait r c' hm =>
    rw [show madeSize c' = madeSize c by unfold madeSize; rw [(rpcMethods_frame hm).2.2.1]]
    omega
  | _ => exact Nat.le_add_right _ _

theorem pass_size_le (input : List Indexed) (c c' : Ctx) (uns : List Indexed) (h : c.pass input = .ok (uns, c')) :
    madeSize c' ≤ madeSize c + (pass c input).steps := by
  induction input generalizing c uns with
  | nil => simp only [Ctx.pass] at h; cases h; exact Nat.le_add_right _ _
  | cons x rest ih =>
    obtain ⟨p, el⟩ := x
    simp only [Ctx.pass] at h
    obtain ⟨⟨b, c1⟩, h1, h⟩ := BRes.bind_eq_ok.mp h
    obtain ⟨⟨u, c2⟩, h2, h⟩ := BRes.bind_eq_ok.mp h
    simp only [BRes.pure_eq, BRes.ok.injEq, Prod.mk.injEq] at h
    obtain ⟨-, rfl⟩ := h
    have i1 := newElement_size_le c c1 p el b h1
    have i2 := ih c1 u h2
    simp only [pass, bind_steps, tick_steps, andThen_steps, newElement_val, h1]
    omega

theorem retry_size_le (fuel : Nat) (input : List Indexed) (c c' : Ctx) (h : Ctx.retry fuel c input = some (.ok c')) :
    madeSize c' ≤ madeSize c + (retry fuel c input).steps := by
  induction fuel generalizing c input with
  | zero => cases h
  | succ fuel ih =>
    simp only [Ctx.retry] at h
    simp only [retry, bind_steps, tick_steps, pass_val]
    cases hp : c.pass input with
    | err e => rw [hp] at h; cases h
    | panic => rw [hp] at h; cases h
    | ok x =>
      obtain ⟨uns, c1⟩ := x
      rw [hp] at h
      simp only at h ⊢
      have h1 := pass_size_le input c c1 uns hp
      split at h
      · cases h; omega
      · rename_i he
        rw [if_neg he]
        split at h
        · cases h
        · rename_i hn
          rw [if_neg hn]
          have := ih uns c1 h
          omega

/-- Size of an output: the sizes of its items. -/
def outSize (out : List Node) : Nat := ((itemsOf out).map fun x => nodeSize x.2).sum

/-- Items only, with names. -/
def Proper (c : Ctx) : Prop := ∀ n ∈ c.nodes.flatMap (·.2), n.isItem = true ∧ n.ident ≠ []

theorem insertNodes_mem {p : Nat} {ns : List Node} {l : List (Nat × List Node)} {n : Node}
    (h : n ∈ (insertNodes p ns l).flatMap (·.2)) : n ∈ ns ∨ n ∈ l.flatMap (·.2) := by
  induction l with
  | nil => simpa [insertNodes] using h
  | cons x l ih =>
    simp only [insertNodes] at h
    split at h
    · simpa using h
    · split at h
      · simp only [List.flatMap_cons, List.mem_append] at h ⊢
        tauto
      · simp only [List.flatMap_cons, List.mem_append] at h ⊢
        tauto

theorem stepped_proper {c c' : Ctx} {p : Nat} {el : Element} {b : Bool} (h : Stepped c p el b c') (hc : Proper c) : Proper c' := by
  have hq : ∀ i, qualify c.ns i ≠ [] := fun i => by simp [qualify]
  have hu : ∀ u, unionEnumIdent c.ns u ≠ [] := fun u => by simp [unionEnumIdent, qualifyRel]
  cases h with
  | rpcDone r ms c1 hm =>
    intro n hn
    rcases insertNodes_mem hn with hn | hn
    · simp only [List.mem_singleton] at hn; subst hn; exact ⟨rfl, hq _⟩
    · rw [(rpcMethods_frame hm).2.2.1] at hn; exact hc n hn
  | rpcWait r c' hm => intro n hn; rw [(rpcMethods_frame hm).2.2.1] at hn; exact hc n hn
  | unionDone u vs hd hv hg =>
    intro n hn
    rcases insertNodes_mem hn with hn | hn
    · simp only [List.mem_cons, List.not_mem_nil, or_false] at hn
      rcases hn with rfl | rfl
      · exact ⟨rfl, hu _⟩
      · exact ⟨rfl, hq _⟩
    · exact hc n hn
  | _ =>
    first
    | exact hc
    | (intro n hn
       rcases insertNodes_mem hn with hn | hn
       · simp only [List.mem_singleton] at hn; subst hn; exact ⟨rfl, hq _⟩
       · exact hc n hn)

theorem pass_proper (input : List Indexed) (c c' : Ctx) (uns : List Indexed) (hc : Proper c) (h : c.pass input = .ok (uns, c')) :
    Proper c' := by
  induction input generalizing c uns with
  | nil => simp only [Ctx.pass] at h; cases h; exact hc
  | cons x rest ih =>
    obtain ⟨p, el⟩ := x
    simp only [Ctx.pass] at h
    obtain ⟨⟨b, c1⟩, h1, h⟩ := BRes.bind_eq_ok.mp h
    obtain ⟨⟨u, c2⟩, h2, h⟩ := BRes.bind_eq_ok.mp h
    simp only [BRes.pure_eq, BRes.ok.injEq, Prod.mk.injEq] at h
    obtain ⟨-, rfl⟩ := h
    exact ih c1 u (stepped_proper (newElement_ok h1) hc) h2

theorem retry_proper (fuel : Nat) (input : List Indexed) (c c' : Ctx) (hc : Proper c)
    (h : Ctx.retry fuel c input = some (.ok c')) : Proper c' := by
  induction fuel generalizing c input with
  | zero => cases h
  | succ fuel ih =>
    simp only [Ctx.retry] at h
    cases hp : c.pass input with
    | err e => rw [hp] at h; cases h
    | panic => rw [hp] at h; cases h
    | ok x =>
      obtain ⟨uns, c1⟩ := x
      rw [hp] at h
      simp only at h
      have h1 := pass_proper input c c1 uns hc hp
      split at h
      · cases h; exact h1
      · split at h
        · cases h
        · exact ih uns c1 h1 h

theorem items_size (c : Ctx) : (c.items.map nodeSize).sum = madeSize c := by
  unfold Ctx.items madeSize
  rw [List.map_map]
  congr 1
  apply List.map_congr_left
  intro n _
  cases n with
  | table t => simp only [Function.comp]; split <;> rfl
  | _ => rfl

theorem items_proper {c : Ctx} (h : Proper c) : ∀ n ∈ c.items, n.isItem = true ∧ n.ident ≠ [] := by
  intro n hn
  unfold Ctx.items at hn
  obtain ⟨n0, h0, rfl⟩ := List.mem_map.mp hn
  have := h n0 h0
  cases n0 with
  | table t => simp only; split <;> exact this
  | _ => exact this

theorem arrange_size {c : Ctx} (h : Proper c) : outSize (arrange c.items) = madeSize c := by
  have hp := items_proper h
  have := holds_perm (arrange_spec c.items (fun n hn => (hp n hn).1) (fun n hn => (hp n hn).2))
  have := (this.map nodeSize).sum_nat
  rw [items_size, List.map_map] at this
  exact this

theorem build_size_le {s : Ast.Schema} {out : List Node} (h : Ir.build s = some (.ok out)) : outSize out ≤ (build s).steps := by
  unfold Ir.build at h
  obtain ⟨r, h1, h2⟩ := Option.map_eq_some_iff.mp h
  cases r with
  | err e => cases h2
  | panic => cases h2
  | ok c =>
    cases h2
    rw [arrange_size (retry_proper _ _ _ _ (by intro n hn; cases hn) h1)]
    have := retry_size_le _ _ _ _ h1
    simpa [build, madeSize, Ctx.init] using this

end Butte.Ir.Timed
