import Verif.Ir.Deep
import Verif.Ir.StepsTotal
import Verif.Parse.DepthExact
/-
The analysis with a stack gives what the analysis gives, and how deep its stack gets.
-/
namespace Butte.Ir.Nested

open Ast (Element)
open Timed (nestName nests nestings Layered lastPart simple_ref)
open Parse.Stack (nestTy nestProduct big)

@[simp] theorem pure_deep {α : Type} (a : α) : (pure a : Dp α).deep = 0 := rfl
@[simp] theorem pure_val {α : Type} (a : α) : (pure a : Dp α).val = a := rfl
@[simp] theorem bind_deep {α β : Type} (x : Dp α) (f : α → Dp β) : (x >>= f).deep = max x.deep (f x.val).deep := rfl
@[simp] theorem bind_val {α β : Type} (x : Dp α) (f : α → Dp β) : (x >>= f).val = (f x.val).val := rfl
@[simp] theorem call_deep {α : Type} (x : Dp α) : (call x).deep = x.deep + 1 := rfl
@[simp] theorem call_val {α : Type} (x : Dp α) : (call x).val = x.val := rfl
@[simp] theorem uses_deep (n : Nat) : (uses n).deep = n := rfl

/-! ### Results -/

theorem andThen_val {α β : Type} (x : Dp (BRes α)) (f : α → Dp (BRes β)) :
    (andThen x f).val = x.val >>= fun a => (f a).val := by
  simp only [andThen, bind_val]
  cases x.val <;> rfl

theorem find_val (c : Ctx) (q : QIdent) : (find c q).val = c.find q := by
  simp only [find, bind_val, call_val, Ctx.find]
  cases c.types q with
  | none => rfl
  | some s => cases s <;> rfl

theorem tryType_val (c : Ctx) (t : Ast.Ty) : (tryType c t).val = c.tryType t := by
  induction t with
  | builtin b => rfl
  | string => rfl
  | array t ih => simp only [tryType, bind_val, call_val, pure_val, ih, Ctx.tryType]
  | ident q => exact find_val _ _

theorem companion_val (c : Ctx) (f : Ast.Field) (ty : Ty) : (companion c f ty).val = (match ty.companion with
    | some e => match c.find e with
      | some ety => .ok [⟨mkIdent (Heck.snake f.id ++ c!"_type"), ety, none, fieldRequired f, f.doc⟩]
      | none => .panic
    | none => .ok [] : BRes (List Field)) := by
  unfold companion
  cases ty.companion with
  | none => rfl
  | some e =>
    simp only [bind_val, call_val, find_val]
    cases c.find e <;> rfl

theorem tableFields_val (c : Ctx) (fs : List Ast.Field) : (tableFields c fs).val = c.tableFields fs := by
  induction fs with
  | nil => rfl
  | cons f fs ih =>
    simp only [tableFields, Ctx.tableFields, bind_val, call_val, tryType_val]
    cases c.tryType f.ty with
    | none => rfl
    | some ty => simp only [andThen_val, companion_val, ih]; rfl

theorem newTable_val (c : Ctx) (t : Ast.Product) (p : Nat) : (newTable c t p).val = c.newTable t p := by
  simp only [newTable, Ctx.newTable, bind_val, call_val]
  split
  · rfl
  · simp only [bind_val, call_val, tableFields_val]
    cases (c.setType (qualify c.ns (mkIdent t.id)) .tableDeclared).tableFields t.fields with
    | ok o => cases o <;> rfl
    | err e => rfl
    | panic => rfl

theorem structFields_val (c : Ctx) (q : QIdent) (fs : List Ast.Field) : (structFields c q fs).val = c.structFields q fs := by
  induction fs with
  | nil => rfl
  | cons f fs ih =>
    simp only [structFields, Ctx.structFields, bind_val, call_val, tryType_val]
    cases c.tryType f.ty with
    | none => rfl
    | some ty =>
      simp only
      split
      · simp only [andThen_val, ih]; rfl
      · rfl

theorem newStruct_val (c : Ctx) (t : Ast.Product) (p : Nat) : (newStruct c t p).val = c.newStruct t p := by
  simp only [newStruct, Ctx.newStruct, bind_val, call_val]
  split
  · rfl
  · simp only [bind_val, call_val, structFields_val]
    cases c.structFields (qualify c.ns (mkIdent t.id)) t.fields with
    | ok o => cases o <;> rfl
    | err e => rfl
    | panic => rfl

theorem newEnum_val (c : Ctx) (e : Ast.Enum) (p : Nat) : (newEnum c e p).val = c.newEnum e p := by
  simp only [newEnum, Ctx.newEnum, bind_val, call_val]
  split
  · rfl
  · cases EnumBase.ofAst e.baseType <;> rfl

theorem unionVariants_val (c : Ctx) (vs : List Ast.EnumVariant) : (unionVariants c vs).val = c.unionVariants vs := by
  induction vs with
  | nil => rfl
  | cons v vs ih =>
    simp only [unionVariants, Ctx.unionVariants, bind_val, call_val, tryType_val]
    cases c.tryType (.ident [v.id]) with
    | none => rfl
    | some ty => simp only [bind_val, call_val, pure_val, ih]

theorem generateEnum_val (c : Ctx) (u : Ast.Union) : (generateEnum c u).val = c.generateEnum u := by
  simp only [generateEnum, Ctx.generateEnum, bind_val, call_val]
  split <;> rfl

theorem newUnion_val (c : Ctx) (u : Ast.Union) (p : Nat) : (newUnion c u p).val = c.newUnion u p := by
  simp only [newUnion, Ctx.newUnion, bind_val, call_val]
  split
  · rfl
  · simp only [bind_val, call_val, unionVariants_val]
    cases c.unionVariants u.variants with
    | none => rfl
    | some vs => simp only [andThen_val, generateEnum_val]; rfl

theorem rpcMethods_val (c : Ctx) (ms : List Ast.RpcMethod) : (rpcMethods c ms).val = c.rpcMethods ms := by
  induction ms generalizing c with
  | nil => rfl
  | cons m ms ih =>
    simp only [rpcMethods, Ctx.rpcMethods, bind_val, call_val, andThen_val]
    show c.newRootIdent _ >>= _ = c.newRootIdent _ >>= _
    congr 1
    funext x
    obtain ⟨b, c1⟩ := x
    simp only
    split
    · rfl
    · simp only [andThen_val]
      show c1.newRootIdent _ >>= _ = c1.newRootIdent _ >>= _
      congr 1
      funext y
      obtain ⟨b2, c2⟩ := y
      simp only
      split
      · rfl
      · simp only [andThen_val, ih]; rfl

theorem newRpc_val (c : Ctx) (r : Ast.Rpc) (p : Nat) : (newRpc c r p).val = c.newRpc r p := by
  simp only [newRpc, Ctx.newRpc, bind_val, call_val, andThen_val, rpcMethods_val]
  congr 1
  funext x
  obtain ⟨ms, c1⟩ := x
  cases ms <;> rfl

theorem newElement_val (c : Ctx) (p : Nat) (el : Element) : (newElement c p el).val = c.newElement p el := by
  cases el with
  | table t => exact newTable_val c t p
  | struct t => exact newStruct_val c t p
  | enum e => exact newEnum_val c e p
  | union u => exact newUnion_val c u p
  | rpc r => exact newRpc_val c r p
  | _ => rfl

theorem pass_val (c : Ctx) (input : List Indexed) : (pass c input).val = c.pass input := by
  induction input generalizing c with
  | nil => rfl
  | cons x rest ih =>
    obtain ⟨p, el⟩ := x
    simp only [pass, Ctx.pass, bind_val, call_val, andThen_val, newElement_val]
    congr 1
    funext y
    simp only [ih]
    rfl

theorem retry_val (fuel : Nat) (c : Ctx) (input : List Indexed) : (retry fuel c input).val = Ctx.retry fuel c input := by
  induction fuel generalizing c input with
  | zero => rfl
  | succ fuel ih =>
    simp only [retry, Ctx.retry, bind_val, call_val, pass_val]
    cases c.pass input with
    | err e => rfl
    | panic => rfl
    | ok x =>
      obtain ⟨uns, c'⟩ := x
      simp only
      split
      · rfl
      · split
        · rfl
        · exact ih _ _

theorem build_val (s : Ast.Schema) : (build s).val = Ir.build s := by
  simp only [build, Ir.build, bind_val, call_val, retry_val]
  cases Ctx.retry (s.elements.length + 1) .init (indexed s.elements) with
  | none => rfl
  | some r => cases r <;> rfl

/-! ### The parts -/

theorem andThen_deep {α β : Type} (x : Dp (BRes α)) (f : α → Dp (BRes β)) :
    (andThen x f).deep = max x.deep (match x.val with | .ok a => (f a).deep | _ => 0) := by
  simp only [andThen, bind_deep]
  cases x.val <;> rfl

theorem andThen_le {α β : Type} {x : Dp (BRes α)} {f : α → Dp (BRes β)} {K : Nat} (h1 : x.deep ≤ K)
    (h2 : ∀ a, x.val = .ok a → (f a).deep ≤ K) : (andThen x f).deep ≤ K := by
  rw [andThen_deep]
  cases hx : x.val with
  | ok a => exact Nat.max_le.mpr ⟨h1, h2 a hx⟩
  | err e => exact Nat.max_le.mpr ⟨h1, Nat.zero_le _⟩
  | panic => exact Nat.max_le.mpr ⟨h1, Nat.zero_le _⟩

/-- Copies of what is defined need at most so many frames. -/
def Under (X : Nat) (c : Ctx) : Prop := ∀ q ct, c.types q = some (.defined ct) → cloneCustom ct ≤ X

theorem clone_ref (ct : CustomType) (q : QIdent) : cloneTy (ct.ref q) = cloneCustom ct + 2 := by
  cases ct <;> simp [CustomType.ref, cloneTy, cloneCustom]

theorem find_deep {X : Nat} {c : Ctx} (h : Under X c) (q : QIdent) : (find c q).deep ≤ X + 1 := by
  simp only [find, call_deep]
  split
  · simp
  · rename_i ct e
    have := h q ct e
    simp only [bind_deep, uses_deep, pure_deep]; omega
  · simp

theorem tryType_deep {X : Nat} {c : Ctx} (h : Under X c) (t : Ast.Ty) : (tryType c t).deep ≤ nestTy t + X + 2 := by
  induction t with
  | builtin b => simp [tryType]
  | string => simp [tryType]
  | array t ih => simp only [tryType, call_deep, bind_deep, pure_deep, nestTy]; omega
  | ident q => have := find_deep h (qualifyRef c.ns q); simp only [tryType, call_deep, nestTy]; omega

theorem companion_deep {X : Nat} {c : Ctx} (h : Under X c) (f : Ast.Field) (ty : Ty) : (companion c f ty).deep ≤ X + 1 := by
  unfold companion
  cases ty.companion with
  | none => simp
  | some e =>
    have := find_deep h e
    simp only [bind_deep]
    cases (find c e).val <;> simp only [pure_deep] <;> omega

theorem tableFields_deep {X N : Nat} {c : Ctx} (h : Under X c) (fs : List Ast.Field) (hn : ∀ f ∈ fs, nestTy f.ty ≤ N) :
    (tableFields c fs).deep ≤ N + X + 2 := by
  induction fs with
  | nil => simp [tableFields]
  | cons f fs ih =>
    have h1 := tryType_deep h f.ty
    have h2 := hn f (by simp)
    have h3 := ih fun f hf => hn f (by simp [hf])
    simp only [tableFields, bind_deep]
    cases (tryType c f.ty).val with
    | none => simp only [pure_deep]; omega
    | some ty =>
      refine Nat.max_le.mpr ⟨by omega, ?_⟩
      refine andThen_le (by have := companion_deep h f ty; omega) fun pre _ => andThen_le h3 fun r _ => ?_
      simp

theorem structFields_deep {X N : Nat} {c : Ctx} (h : Under X c) (q : QIdent) (fs : List Ast.Field) (hn : ∀ f ∈ fs, nestTy f.ty ≤ N) :
    (structFields c q fs).deep ≤ N + X + 2 := by
  induction fs with
  | nil => simp [structFields]
  | cons f fs ih =>
    have h1 := tryType_deep h f.ty
    have h2 := hn f (by simp)
    have h3 := ih fun f hf => hn f (by simp [hf])
    simp only [structFields, bind_deep]
    cases (tryType c f.ty).val with
    | none => simp only [pure_deep]; omega
    | some ty =>
      refine Nat.max_le.mpr ⟨by omega, ?_⟩
      simp only
      split
      · exact andThen_le h3 fun r _ => by simp
      · simp

theorem unionVariants_deep {X : Nat} {c : Ctx} (h : Under X c) (vs : List Ast.EnumVariant) :
    (unionVariants c vs).deep ≤ X + 2 := by
  induction vs with
  | nil => simp [unionVariants]
  | cons v vs ih =>
    have h1 := tryType_deep h (.ident [v.id])
    simp only [nestTy] at h1
    simp only [unionVariants, bind_deep]
    cases (tryType c (.ident [v.id])).val with
    | none => simp only [pure_deep]; omega
    | some ty => simp only [bind_deep, pure_deep]; omega

theorem rpcMethods_deep (c : Ctx) (ms : List Ast.RpcMethod) : (rpcMethods c ms).deep ≤ 1 := by
  induction ms generalizing c with
  | nil => simp [rpcMethods]
  | cons m ms ih =>
    simp only [rpcMethods]
    refine andThen_le (by simp [newRootIdent]) fun x _ => ?_
    obtain ⟨ok, c1⟩ := x
    simp only
    split
    · simp
    · refine andThen_le (by simp [newRootIdent]) fun y _ => ?_
      obtain ⟨ok, c2⟩ := y
      simp only
      split
      · simp
      · exact andThen_le (by simp) fun z _ => andThen_le (ih c2) fun w _ => by simp

theorem under_declared {X : Nat} {c : Ctx} (h : Under X c) (q : QIdent) : Under X (c.setType q .tableDeclared) := by
  intro r ct hr
  simp only [Ctx.setType] at hr
  split at hr
  · cases hr
  · exact h r ct hr

/-- One declaration: the copies before and after it, and the vectors it is written with. -/
theorem newElement_deep {X N : Nat} {c : Ctx} (hX : 3 ≤ X) (h : Under X c) (p : Nat) (el : Element)
    (hn : ∀ t, el = .table t ∨ el = .struct t → ∀ f ∈ t.fields, nestTy f.ty ≤ N)
    (h' : ∀ b c', c.newElement p el = .ok (b, c') → Under X c') : (newElement c p el).deep ≤ N + X + 4 := by
  cases el with
  | «namespace» n d => simp only [newElement, call_deep, pure_deep]; omega
  | table t =>
    simp only [newElement, newTable, call_deep]
    split
    · simp
    · have := tableFields_deep (under_declared h (qualify c.ns (mkIdent t.id))) t.fields (hn t (.inl rfl))
      simp only [bind_deep]
      generalize (tableFields (c.setType (qualify c.ns (mkIdent t.id)) .tableDeclared) t.fields).val = v
      rcases v with (_ | _) | _ | _ <;> simp only [pure_deep] <;> omega
  | struct t =>
    have h1 := structFields_deep h (qualify c.ns (mkIdent t.id)) t.fields (hn t (.inr rfl))
    have hv := newElement_val c p (.struct t)
    simp only [newElement, newStruct, call_deep, call_val] at hv ⊢
    split
    · simp
    · rename_i hd
      rw [if_neg hd] at hv
      simp only [bind_deep, bind_val] at hv ⊢
      generalize (structFields c (qualify c.ns (mkIdent t.id)) t.fields).val = v at hv
      rcases v with (_ | fields) | _ | _
      · simp only [pure_deep]; omega
      · have := h' _ _ hv.symm (qualify c.ns (mkIdent t.id)) (.struct fields) (by simp [Ctx.addNodes, Ctx.setType])
        simp only [cloneCustom] at this
        simp only [bind_deep, uses_deep, pure_deep]; omega
      · simp only [pure_deep]; omega
      · simp only [pure_deep]; omega
  | enum e =>
    simp only [newElement, newEnum, call_deep]
    split
    · simp
    · cases EnumBase.ofAst e.baseType <;> simp only [bind_deep, uses_deep, pure_deep] <;> omega
  | union u =>
    have h1 := unionVariants_deep h u.variants
    have hv := newElement_val c p (.union u)
    simp only [newElement, newUnion, call_deep, call_val] at hv ⊢
    split
    · simp
    · rename_i hd
      rw [if_neg hd] at hv
      simp only [bind_deep, bind_val] at hv ⊢
      generalize (unionVariants c u.variants).val = v at hv
      cases v with
      | none => simp only [pure_deep]; omega
      | some vs =>
        have hg : (generateEnum c u).deep ≤ 3 := by
          simp only [generateEnum, call_deep]
          split <;> simp
        simp only [andThen_val] at hv
        have : (andThen (generateEnum c u) fun x => do
            uses (cloneVariants vs)
            return .ok (true, (x.2.setType (qualify c.ns (mkIdent u.id)) (.defined (.union x.1.ident vs))).addNodes p
              [.enum x.1, .union ⟨qualify c.ns (mkIdent u.id), x.1.ident, vs, u.doc⟩])).deep ≤ N + X + 2 := by
          refine andThen_le (by omega) fun a ha => ?_
          rw [ha] at hv
          have := h' _ _ hv.symm (qualify c.ns (mkIdent u.id)) (.union a.1.ident vs) (by simp [Ctx.addNodes, Ctx.setType])
          simp only [cloneCustom] at this
          simp only [bind_deep, uses_deep, pure_deep]; omega
        have e := Nat.max_le.mpr ⟨(by omega : (unionVariants c u.variants).deep ≤ N + X + 2), this⟩
        exact Nat.add_le_add_right (Nat.add_le_add_right e 1) 1
  | rpc r =>
    have h1 := rpcMethods_deep c r.methods
    have : (newRpc c r p).deep ≤ 2 := by
      simp only [newRpc, call_deep]
      refine Nat.add_le_add_right (andThen_le h1 fun x _ => ?_) 1
      obtain ⟨ms, c1⟩ := x
      cases ms <;> simp
    simp only [newElement, call_deep]; omega
  | root t d => simp only [newElement, newRootIdent, call_deep, pure_deep]; omega
  | _ => simp [newElement]

end Butte.Ir.Nested
