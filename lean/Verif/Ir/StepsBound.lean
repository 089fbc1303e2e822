import Verif.Ir.Steps
import Verif.Ir.Analysis
import Verif.Ir.Report
import Verif.Parse.StepsBound
/-
The counting analysis gives what the analysis gives, and how many steps each of its parts takes.
-/
namespace Butte.Ir.Timed

open Parse.Timed (Ct tick pure_steps pure_val bind_steps bind_val tick_steps)
open Ast (Element)

/-! ### Results -/

theorem andThen_val {α β : Type} (x : Ct (BRes α)) (f : α → Ct (BRes β)) :
    (andThen x f).val = x.val >>= fun a => (f a).val := by
  simp only [andThen, bind_val]
  cases x.val <;> rfl

theorem find_val (c : Ctx) (q : QIdent) : (find c q).val = c.find q := by
  simp only [find, bind_val, Ctx.find]
  cases c.types q with
  | none => rfl
  | some s => cases s <;> rfl

theorem tryType_val (c : Ctx) (t : Ast.Ty) : (tryType c t).val = c.tryType t := by
  induction t with
  | builtin b => rfl
  | string => rfl
  | array t ih => simp only [tryType, bind_val, pure_val, ih, Ctx.tryType]
  | ident q => exact find_val _ _

theorem companion_val (c : Ctx) (f : Ast.Field) (ty : Ty) : (companion c f ty).val = (match ty.companion with
    | some e => match c.find e with
      | some ety => .ok [⟨mkIdent (Heck.snake f.id ++ c!"_type"), ety, none, fieldRequired f, f.doc⟩]
      | none => .panic
    | none => .ok [] : BRes (List Field)) := by
  unfold companion
  cases ty.companion with
  | none => rfl
  | some e =>
    simp only [bind_val, find_val]
    cases c.find e <;> rfl

theorem tableFields_val (c : Ctx) (fs : List Ast.Field) : (tableFields c fs).val = c.tableFields fs := by
  induction fs with
  | nil => rfl
  | cons f fs ih =>
    simp only [tableFields, Ctx.tableFields, bind_val, tryType_val]
    cases c.tryType f.ty with
    | none => rfl
    | some ty => simp only [andThen_val, companion_val, ih]; rfl

theorem newTable_val (c : Ctx) (t : Ast.Product) (p : Nat) : (newTable c t p).val = c.newTable t p := by
  simp only [newTable, Ctx.newTable, bind_val]
  split
  · rfl
  · simp only [bind_val, tableFields_val]
    cases (c.setType (qualify c.ns (mkIdent t.id)) .tableDeclared).tableFields t.fields with
    | ok o => cases o <;> rfl
    | err e => rfl
    | panic => rfl

theorem structFields_val (c : Ctx) (q : QIdent) (fs : List Ast.Field) : (structFields c q fs).val = c.structFields q fs := by
  induction fs with
  | nil => rfl
  | cons f fs ih =>
    simp only [structFields, Ctx.structFields, bind_val, tryType_val]
    cases c.tryType f.ty with
    | none => rfl
    | some ty =>
      simp only
      split
      · simp only [andThen_val, ih]; rfl
      · rfl

theorem newStruct_val (c : Ctx) (t : Ast.Product) (p : Nat) : (newStruct c t p).val = c.newStruct t p := by
  simp only [newStruct, Ctx.newStruct, bind_val]
  split
  · rfl
  · simp only [bind_val, structFields_val]
    cases c.structFields (qualify c.ns (mkIdent t.id)) t.fields with
    | ok o => cases o <;> rfl
    | err e => rfl
    | panic => rfl

theorem newEnum_val (c : Ctx) (e : Ast.Enum) (p : Nat) : (newEnum c e p).val = c.newEnum e p := by
  simp only [newEnum, Ctx.newEnum, bind_val]
  split
  · rfl
  · cases EnumBase.ofAst e.baseType <;> rfl

theorem unionVariants_val (c : Ctx) (vs : List Ast.EnumVariant) : (unionVariants c vs).val = c.unionVariants vs := by
  induction vs with
  | nil => rfl
  | cons v vs ih =>
    simp only [unionVariants, Ctx.unionVariants, bind_val, tryType_val]
    cases c.tryType (.ident [v.id]) with
    | none => rfl
    | some ty => simp only [bind_val, pure_val, ih]

theorem generateEnum_val (c : Ctx) (u : Ast.Union) : (generateEnum c u).val = c.generateEnum u := by
  simp only [generateEnum, Ctx.generateEnum, bind_val]
  split <;> rfl

theorem newUnion_val (c : Ctx) (u : Ast.Union) (p : Nat) : (newUnion c u p).val = c.newUnion u p := by
  simp only [newUnion, Ctx.newUnion, bind_val]
  split
  · rfl
  · simp only [bind_val, unionVariants_val]
    cases c.unionVariants u.variants with
    | none => rfl
    | some vs => simp only [andThen_val, generateEnum_val]; rfl

theorem rpcMethods_val (c : Ctx) (ms : List Ast.RpcMethod) : (rpcMethods c ms).val = c.rpcMethods ms := by
  induction ms generalizing c with
  | nil => rfl
  | cons m ms ih =>
    simp only [rpcMethods, Ctx.rpcMethods, bind_val, andThen_val]
    show c.newRootIdent _ >>= _ = c.newRootIdent _ >>= _
    congr 1
    funext x
    obtain ⟨b, c1⟩ := x
    simp only
    split
    · rfl
    · simp only [andThen_val]
      show c1.newRootIdent _ >>= _ = c1.newRootIdent _ >>= _
      congr 1
      funext y
      obtain ⟨b2, c2⟩ := y
      simp only
      split
      · rfl
      · simp only [andThen_val, ih]; rfl

theorem newRpc_val (c : Ctx) (r : Ast.Rpc) (p : Nat) : (newRpc c r p).val = c.newRpc r p := by
  simp only [newRpc, Ctx.newRpc, bind_val, andThen_val, rpcMethods_val]
  congr 1
  funext x
  obtain ⟨ms, c1⟩ := x
  cases ms <;> rfl

theorem newElement_val (c : Ctx) (p : Nat) (el : Element) : (newElement c p el).val = c.newElement p el := by
  cases el with
  | table t => exact newTable_val c t p
  | struct t => exact newStruct_val c t p
  | enum e => exact newEnum_val c e p
  | union u => exact newUnion_val c u p
  | rpc r => exact newRpc_val c r p
  | _ => rfl

theorem pass_val (c : Ctx) (input : List Indexed) : (pass c input).val = c.pass input := by
  induction input generalizing c with
  | nil => rfl
  | cons x rest ih =>
    obtain ⟨p, el⟩ := x
    simp only [pass, Ctx.pass, bind_val, andThen_val, newElement_val]
    congr 1
    funext y
    simp only [ih]
    rfl

theorem retry_val (fuel : Nat) (c : Ctx) (input : List Indexed) : (retry fuel c input).val = Ctx.retry fuel c input := by
  induction fuel generalizing c input with
  | zero => rfl
  | succ fuel ih =>
    simp only [retry, Ctx.retry, bind_val, pass_val]
    cases c.pass input with
    | err e => rfl
    | panic => rfl
    | ok x =>
      obtain ⟨uns, c'⟩ := x
      simp only
      split
      · rfl
      · split
        · rfl
        · exact ih _ _

theorem build_val (s : Ast.Schema) : (build s).val = Ir.build s := by
  simp only [build, Ir.build, bind_val, pure_val, retry_val]
  congr 1

/-! ### Steps of the parts -/

theorem andThen_steps {α β : Type} (x : Ct (BRes α)) (f : α → Ct (BRes β)) :
    (andThen x f).steps = x.steps + (match x.val with | .ok a => (f a).steps | _ => 0) := by
  simp only [andThen, bind_steps]
  cases x.val <;> rfl

/-- Every type that can be looked up has at most this size. -/
def Below (B : Nat) (c : Ctx) : Prop := ∀ q ty, c.find q = some ty → size ty ≤ B

theorem size_pos (t : Ty) : 0 < size t := by cases t <;> simp [size]

theorem find_steps {B : Nat} {c : Ctx} (h : Below B c) (q : QIdent) : (find c q).steps ≤ B + 1 := by
  have := h q
  revert this
  simp only [find, bind_steps, tick_steps, Ctx.find]
  cases c.types q with
  | none => simp
  | some s =>
    cases s with
    | tableDeclared =>
      intro h
      have := h _ rfl
      simp only [CustomType.ref, size] at this
      simp; omega
    | defined ty =>
      intro h
      have := h _ rfl
      simp; omega

/-- Number of nodes of a type as written. -/
def typeWeight : Ast.Ty → Nat
  | .array t => typeWeight t + 1
  | _ => 1

theorem tryType_steps {B : Nat} {c : Ctx} (h : Below B c) (t : Ast.Ty) : (tryType c t).steps ≤ typeWeight t + B := by
  induction t with
  | builtin b => simp [tryType, typeWeight]
  | string => simp [tryType, typeWeight]
  | array t ih => simp only [tryType, bind_steps, tick_steps, pure_steps, typeWeight]; omega
  | ident q => have := find_steps h (qualifyRef c.ns q); simp only [tryType, typeWeight]; omega

theorem tryType_size {B : Nat} {c : Ctx} (h : Below B c) (t : Ast.Ty) (ty : Ty) (ht : c.tryType t = some ty) :
    size ty ≤ typeWeight t + B := by
  induction t generalizing ty with
  | builtin b => cases ht; simp [size, typeWeight]
  | string => cases ht; simp [size, typeWeight]
  | array t ih =>
    simp only [Ctx.tryType, Option.map_eq_some_iff] at ht
    obtain ⟨t', h1, rfl⟩ := ht
    have := ih _ h1
    simp only [size, typeWeight]; omega
  | ident q => have := h _ _ ht; simp only [typeWeight]; omega

theorem find_size_le (c : Ctx) (q : QIdent) (ty : Ty) (h : c.find q = some ty) : size ty + 1 ≤ (find c q).steps := by
  revert h
  simp only [find, bind_steps, tick_steps, Ctx.find]
  cases c.types q with
  | none => intro h; cases h
  | some s => cases s <;> (intro h; cases h; simp [CustomType.ref, size]; try omega)

theorem tryType_size_le (c : Ctx) (t : Ast.Ty) (ty : Ty) (h : c.tryType t = some ty) : size ty ≤ (tryType c t).steps := by
  induction t generalizing ty with
  | builtin b => cases h; simp [size, tryType]
  | string => cases h; simp [size, tryType]
  | array t ih =>
    simp only [Ctx.tryType, Option.map_eq_some_iff] at h
    obtain ⟨t', h1, rfl⟩ := h
    have := ih _ h1
    simp only [size, tryType, bind_steps, tick_steps, pure_steps]; omega
  | ident q => have := find_size_le c _ _ h; simp only [tryType]; omega

/-- Number of nodes of the types of fields as written, and of the fields. -/
def fieldsWeight (fs : List Ast.Field) : Nat := (fs.map fun f => typeWeight f.ty + 1).sum

/-- Number of nodes of a declaration as written. -/
def weight : Element → Nat
  | .table t => fieldsWeight t.fields + 1
  | .struct s => fieldsWeight s.fields + 1
  | .enum e => e.variants.length + 1
  | .union u => 2 * u.variants.length + 1
  | .rpc r => r.methods.length + 1
  | _ => 1

theorem sizeFields_append (a b : List Field) : sizeFields (a ++ b) = sizeFields a + sizeFields b := by
  induction a with
  | nil => simp [sizeFields]
  | cons x a ih => simp only [List.cons_append, sizeFields, ih]; omega

theorem companion_steps {B : Nat} {c : Ctx} (h : Below B c) (f : Ast.Field) (ty : Ty) :
    (companion c f ty).steps ≤ B + 1 := by
  unfold companion
  cases ty.companion with
  | none => simp
  | some e =>
    simp only [bind_steps]
    have := find_steps h e
    cases (find c e).val <;> simp only [pure_steps] <;> omega

theorem tableFields_steps {B : Nat} {c : Ctx} (h : Below B c) (fs : List Ast.Field) :
    (tableFields c fs).steps ≤ fieldsWeight fs * (2 * B + 2) := by
  induction fs with
  | nil => simp [tableFields]
  | cons f fs ih =>
    have h1 := tryType_steps h f.ty
    have hw : 1 ≤ typeWeight f.ty := by cases f.ty <;> simp [typeWeight]
    have e : fieldsWeight (f :: fs) * (2 * B + 2) = typeWeight f.ty * (2 * B + 2) + (2 * B + 2) + fieldsWeight fs * (2 * B + 2) := by
      simp only [fieldsWeight, List.map_cons, List.sum_cons, Nat.add_mul, Nat.one_mul]
    have e2 : typeWeight f.ty * (2 * B + 2) = 2 * (typeWeight f.ty * B) + 2 * typeWeight f.ty := by
      rw [Nat.mul_add, Nat.mul_left_comm, Nat.mul_comm _ 2]
    have e3 : B ≤ typeWeight f.ty * B := Nat.le_mul_of_pos_left _ hw
    rw [e]
    simp only [tableFields, bind_steps, tick_steps]
    cases (tryType c f.ty).val with
    | none => simp only [pure_steps]; omega
    | some ty =>
      have h2 := companion_steps h f ty
      simp only [andThen_steps]
      split
      · split <;> (try simp only [pure_steps]) <;> omega
      · omega

theorem structFields_steps {B : Nat} {c : Ctx} (h : Below B c) (q : QIdent) (fs : List Ast.Field) :
    (structFields c q fs).steps ≤ fieldsWeight fs * (B + 1) := by
  induction fs with
  | nil => simp [structFields]
  | cons f fs ih =>
    have h1 := tryType_steps h f.ty
    have hw : 1 ≤ typeWeight f.ty := by cases f.ty <;> simp [typeWeight]
    have e : fieldsWeight (f :: fs) * (B + 1) = typeWeight f.ty * B + typeWeight f.ty + (B + 1) + fieldsWeight fs * (B + 1) := by
      simp only [fieldsWeight, List.map_cons, List.sum_cons, Nat.add_mul, Nat.one_mul, Nat.mul_add, Nat.mul_one]; omega
    have e3 : B ≤ typeWeight f.ty * B := Nat.le_mul_of_pos_left _ hw
    rw [e]
    simp only [structFields, bind_steps, tick_steps]
    cases (tryType c f.ty).val with
    | none => simp only [pure_steps]; omega
    | some ty =>
      simp only
      split
      · simp only [andThen_steps]
        split <;> (try simp only [pure_steps]) <;> omega
      · simp only [pure_steps]; omega

theorem unionVariants_steps {B : Nat} {c : Ctx} (h : Below B c) (vs : List Ast.EnumVariant) :
    (unionVariants c vs).steps ≤ vs.length * (B + 2) := by
  induction vs with
  | nil => simp [unionVariants]
  | cons v vs ih =>
    have h1 := tryType_steps h (.ident [v.id])
    simp only [typeWeight] at h1
    rw [List.length_cons, Nat.add_mul, Nat.one_mul]
    simp only [unionVariants, bind_steps, tick_steps]
    cases (tryType c (.ident [v.id])).val with
    | none => simp only [pure_steps]; omega
    | some ty => simp only [bind_steps, pure_steps]; omega

/-- The types of the members are at most `B` and what they are made of. -/
theorem structFields_size {B : Nat} {c : Ctx} {q : QIdent} {fs : List Ast.Field} {fields : List Field}
    (h : ∀ f ∈ fs, ∀ ty, c.tryType f.ty = some ty → size ty ≤ typeWeight f.ty + B)
    (hf : c.structFields q fs = .ok (some fields)) : sizeFields fields ≤ fieldsWeight fs * (B + 1) := by
  induction fs generalizing fields with
  | nil => simp only [Ctx.structFields] at hf; cases hf; simp [sizeFields]
  | cons f fs ih =>
    simp only [Ctx.structFields] at hf
    have h1 := h f (by simp)
    cases ht : c.tryType f.ty with
    | none => rw [ht] at hf; cases hf
    | some ty =>
      rw [ht] at hf
      simp only at hf
      have h1 := h1 ty ht
      split at hf
      · obtain ⟨rest, h2, h3⟩ := BRes.bind_eq_ok.mp hf
        cases rest with
        | none => cases h3
        | some r =>
          cases h3
          have := ih (fun f hf => h f (by simp [hf])) h2
          have hw : 1 ≤ typeWeight f.ty := by cases f.ty <;> simp [typeWeight]
          have e : fieldsWeight (f :: fs) * (B + 1) = typeWeight f.ty * B + typeWeight f.ty + (B + 1) + fieldsWeight fs * (B + 1) := by
            simp only [fieldsWeight, List.map_cons, List.sum_cons, Nat.add_mul, Nat.one_mul, Nat.mul_add, Nat.mul_one]; omega
          rw [e]
          simp only [sizeFields, sizeField]
          omega
      · cases hf

theorem unionVariants_size {B : Nat} {c : Ctx} {vs : List Ast.EnumVariant} {uvs : List UnionVariant}
    (h : ∀ v ∈ vs, ∀ ty, c.tryType (.ident [v.id]) = some ty → size ty ≤ B) (hv : c.unionVariants vs = some uvs) :
    sizeVariants uvs ≤ vs.length * (B + 1) := by
  induction vs generalizing uvs with
  | nil => simp only [Ctx.unionVariants] at hv; cases hv; simp [sizeVariants]
  | cons v vs ih =>
    simp only [Ctx.unionVariants] at hv
    have h1 := h v (by simp)
    cases ht : c.tryType (.ident [v.id]) with
    | none => rw [ht] at hv; cases hv
    | some ty =>
      rw [ht] at hv
      simp only [Option.map_eq_some_iff] at hv
      obtain ⟨r, h2, rfl⟩ := hv
      have h1 := h1 ty ht
      have := ih (fun f hf => h f (by simp [hf])) h2
      rw [List.length_cons, Nat.add_mul, Nat.one_mul]
      simp only [sizeVariants, sizeVariant]
      omega

theorem below_declared {B : Nat} {c : Ctx} (hB : 1 ≤ B) (h : Below B c) (q : QIdent) : Below B (c.setType q .tableDeclared) := by
  intro q' ty ht
  unfold Ctx.find at ht
  simp only [Ctx.setType] at ht
  by_cases e : q' = q
  · rw [if_pos e] at ht
    cases ht
    simpa [CustomType.ref, size] using hB
  · rw [if_neg e] at ht
    exact h q' ty ht

theorem newTable_steps {B : Nat} {c : Ctx} (hB : 1 ≤ B) (h : Below B c) (t : Ast.Product) (p : Nat) :
    (newTable c t p).steps ≤ fieldsWeight t.fields * (2 * B + 2) + 3 := by
  simp only [newTable, bind_steps, tick_steps]
  split
  · simp
  · simp only [bind_steps, tick_steps]
    have := tableFields_steps (below_declared hB h (qualify c.ns (mkIdent t.id))) t.fields
    split <;> simp only [bind_steps, tick_steps, pure_steps] <;> omega

theorem newStruct_steps {B : Nat} {c : Ctx} (h : Below B c) (t : Ast.Product) (p : Nat) :
    (newStruct c t p).steps ≤ 2 * (fieldsWeight t.fields * (B + 1)) + 2 := by
  simp only [newStruct, bind_steps, tick_steps]
  split
  · simp
  · simp only [bind_steps]
    have := structFields_steps h (qualify c.ns (mkIdent t.id)) t.fields
    split
    · rename_i fields hf
      rw [structFields_val] at hf
      have := structFields_size (B := B) (fun f _ ty ht => tryType_size h f.ty ty ht) hf
      simp only [bind_steps, tick_steps, pure_steps]; omega
    all_goals simp only [pure_steps]; omega

theorem newEnum_steps (c : Ctx) (e : Ast.Enum) (p : Nat) : (newEnum c e p).steps ≤ 2 * e.variants.length + 2 := by
  simp only [newEnum, bind_steps, tick_steps]
  split
  · simp
  · split <;> simp only [bind_steps, tick_steps, pure_steps] <;> omega

theorem newUnion_steps {B : Nat} {c : Ctx} (h : Below B c) (u : Ast.Union) (p : Nat) :
    (newUnion c u p).steps ≤ 2 * (u.variants.length * (B + 2)) + 2 * u.variants.length + 6 := by
  simp only [newUnion, bind_steps, tick_steps]
  split
  · simp
  · simp only [bind_steps]
    have := unionVariants_steps h u.variants
    split
    · simp only [pure_steps]; omega
    · rename_i vs hv
      rw [unionVariants_val] at hv
      have h2 := unionVariants_size (B := B + 1)
        (fun v _ ty ht => by have := tryType_size h (.ident [v.id]) ty ht; simp only [typeWeight] at this; omega) hv
      simp only [andThen_steps]
      have hg : (generateEnum c u).steps ≤ 2 * u.variants.length + 4 := by
        simp only [generateEnum, bind_steps, tick_steps]
        split
        · simp
        · simp only [bind_steps, tick_steps, pure_steps]; omega
      rw [show u.variants.length * (B + 1 + 1) = u.variants.length * (B + 2) from rfl] at h2
      split
      · simp only [bind_steps, tick_steps, pure_steps]; omega
      · omega

theorem rpcMethods_steps (c : Ctx) (ms : List Ast.RpcMethod) : (rpcMethods c ms).steps ≤ 3 * ms.length := by
  induction ms generalizing c with
  | nil => simp [rpcMethods]
  | cons m ms ih =>
    have hroot : ∀ c q, (newRootIdent c q).steps = 1 := fun c q => rfl
    simp only [rpcMethods, bind_steps, tick_steps, andThen_steps, hroot, List.length_cons]
    split
    · rename_i x _
      obtain ⟨b, c1⟩ := x
      simp only
      split
      · simp only [pure_steps]; omega
      · simp only [andThen_steps, hroot]
        split
        · rename_i y _
          obtain ⟨b2, c2⟩ := y
          simp only
          split
          · simp only [pure_steps]; omega
          · simp only [andThen_steps, pure_steps]
            have := ih c2
            split
            · split <;> (try simp only [pure_steps]) <;> omega
            · omega
        · omega
    · omega

theorem newElement_steps {B : Nat} {c : Ctx} (hB : 1 ≤ B) (h : Below B c) (p : Nat) (el : Element) :
    (newElement c p el).steps ≤ 4 * (weight el * (B + 1)) := by
  cases el with
  | table t =>
    have := newTable_steps hB h t p
    simp only [newElement, weight, Nat.add_mul, Nat.mul_add, Nat.one_mul, Nat.mul_one, Nat.mul_left_comm _ 2] at *
    omega
  | struct t =>
    have := newStruct_steps h t p
    simp only [newElement, weight, Nat.add_mul, Nat.mul_add, Nat.one_mul, Nat.mul_one] at *
    omega
  | enum e =>
    have := newEnum_steps c e p
    simp only [newElement, weight, Nat.add_mul, Nat.mul_add, Nat.one_mul, Nat.mul_one] at *
    omega
  | union u =>
    have := newUnion_steps h u p
    simp only [newElement, weight, Nat.add_mul, Nat.mul_add, Nat.one_mul, Nat.mul_one, Nat.mul_assoc] at *
    omega
  | rpc r =>
    have := rpcMethods_steps c r.methods
    have h2 : (newRpc c r p).steps ≤ 3 * r.methods.length + 1 := by
      simp only [newRpc, bind_steps, tick_steps, andThen_steps]
      split
      · rename_i x _
        obtain ⟨ms, c1⟩ := x
        cases ms <;> simp only [pure_steps] <;> omega
      · omega
    simp only [newElement, weight, Nat.add_mul, Nat.mul_add, Nat.one_mul, Nat.mul_one] at *
    omega
  | root t d =>
    show 1 ≤ _
    simp only [weight]; omega
  | _ => simp [newElement]

end Butte.Ir.Timed
