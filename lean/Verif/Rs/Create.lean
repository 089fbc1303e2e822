import Verif.Rs.Unions
/-
`create` of the emitted program.
-/
namespace Butte.Rs
open Ir (QIdent)
open Gen (formatIdent formatIdent_eq GField Kind Args kindOf)

/-! ### The builder -/

/-- The builder, changed. -/
def onBuilder (f : Builder → Res Builder) : M Unit := fun s =>
  match f s.fbb with
  | .ok b => .val () { s with fbb := b }
  | .err _ => .stuck
  | .panic => .panic

theorem M.ext {α : Type} {x y : M α} (h : ∀ s, x s = y s) : x = y := funext h

theorem pure_bind' {α β : Type} (a : α) (f : α → M β) : (pure a : M α) >>= f = f a := rfl

theorem bind_assoc' {α β γ : Type} (x : M α) (f : α → M β) (g : β → M γ) : x >>= f >>= g = x >>= fun a => f a >>= g := by
  funext s
  simp only [bind_apply]
  cases x s <;> rfl

theorem withBuilder_unit (f : Builder → Res Builder) :
    withBuilder (fun b => do
      let b ← f b
      return (.unit, b)) = (do
        let _ ← onBuilder f
        pure .unit) := by
  funext s
  simp only [withBuilder, onBuilder, bind_apply]
  cases f s.fbb <;> rfl

theorem onBuilder_ok : onBuilder .ok = pure () := rfl

theorem onBuilder_bind (f g : Builder → Res Builder) :
    onBuilder (fun b => do
      let b ← f b
      g b) = (do
        let _ ← onBuilder f
        onBuilder g) := by
  funext s
  simp only [onBuilder, bind_apply]
  cases f s.fbb <;> rfl

/-- The value of a table's builder. -/
def builderValue (t : Ir.Table) (start : Nat) : Value :=
  .struct (tMod t) (tName t ++ c!"Builder") [(c!"fbb", .builder), (c!"start", .offset start)]

/-- Inside a function of the builder. -/
def builderScope (t : Ir.Table) : Scope := ⟨tMod t, [], some (.item (tMod t) (tName t ++ c!"Builder"))⟩

theorem bindable {s : Str} (h : Gen.rustName s = true) : s ∉ unbindable := by
  intro hs
  simp only [unbindable, List.mem_cons, List.not_mem_nil, or_false] at hs
  rcases hs with rfl | rfl | rfl | rfl <;> revert h <;> decide

theorem ne_self {s : Str} (h : Gen.rustName s = true) : s ≠ c!"self" := by
  rintro rfl
  revert h
  decide

/-! ### One field -/

/-- What the `add_` method does. -/
def pushField (md : Mode) (slot : Nat) {p : PTy} (x : PVal p) : Option (PVal p) → Builder → Res Builder
  | none, b => b.pushSlotAlways md slot x
  | some d, b => b.pushSlot md slot x d

section
variable {gm md : Mode} {P : Program} {t : Ir.Table} {gs : List GField} {n : Nat}

theorem eval_fbb {o : Nat} {x : Str} {v : Value} {sc : Scope} (s : St) :
    eval md P (n + 2) sc [(c!"self", builderValue t o), (x, v)] (.field (.var c!"self") c!"fbb") s = .val .builder s :=
  eval_field (m := tMod t) (k := tName t ++ c!"Builder") (fs := [(c!"fbb", .builder), (c!"start", .offset o)])
    (eval_var (by rfl) s) (v := .builder) (by rfl)

theorem eval_pushAlways {sc : Scope} {vars : Vars} {e se : Expr} {x : Expr} {w : Ty} {p : PushTy} {slot : Fin 65536} {v : Value}
    {y : PVal p.pty} (he : ∀ s, eval md P n sc vars e s = .val .builder s)
    (hs : ∀ s, eval md P n sc vars se s = .val (.slot slot) s) (hx : ∀ s, eval md P n sc vars x s = .val v s)
    (hp : pushTy P sc w = some p) (hy : p.pval v = some y) :
    eval md P (n + 1) sc vars (.methodAt e c!"push_slot_always" w [se, x]) = (do
      let _ ← onBuilder (pushField md slot y none)
      pure .unit) := by
  rw [← withBuilder_unit]
  funext s
  rw [eval_methodAt, bind_val (he s)]
  simp only [evalList_cons, evalList_nil, bind_apply, hs, hx, pure_apply, runtimeMethodAt, if_true, hp, hy, need_some, pushField]

theorem eval_push {sc : Scope} {vars : Vars} {e se : Expr} {x de : Expr} {w : Ty} {p : PushTy} {slot : Fin 65536} {v dv : Value}
    {y d : PVal p.pty} (he : ∀ s, eval md P n sc vars e s = .val .builder s)
    (hs : ∀ s, eval md P n sc vars se s = .val (.slot slot) s) (hx : ∀ s, eval md P n sc vars x s = .val v s)
    (hd : ∀ s, eval md P n sc vars de s = .val dv s)
    (hp : pushTy P sc w = some p) (hy : p.pval v = some y) (hz : p.pval dv = some d) :
    eval md P (n + 1) sc vars (.methodAt e c!"push_slot" w [se, x, de]) = (do
      let _ ← onBuilder (pushField md slot y (some d))
      pure .unit) := by
  rw [← withBuilder_unit]
  funext s
  rw [eval_methodAt, bind_val (he s)]
  simp only [evalList_cons, evalList_nil, bind_apply, hs, hx, hd, pure_apply, runtimeMethodAt, if_true, hp, hy, hz, need_some,
    pushField]

theorem evalBlock_expr {ev : Vars → Expr → M Value} {vars : Vars} {e last : Expr} {ss : List Stmt} :
    evalBlock ev vars (.expr e :: ss) last = (do
      let _ ← ev vars e
      evalBlock ev vars ss last) := rfl

theorem evalBlock_let {ev : Vars → Expr → M Value} {vars : Vars} {x : Str} {e last : Expr} {ss : List Stmt} :
    evalBlock ev vars (.let x e :: ss) last = (do
      let v ← ev vars e
      evalBlock ev ((x, v) :: vars) ss last) := rfl

theorem endCall_onBuilder {f : Builder → Res Builder} {v : Value} :
    endCall (do
      let _ ← onBuilder f
      pure v) = (do
      let _ ← onBuilder f
      pure v) := by
  funext s
  simp only [endCall, onBuilder, bind_apply]
  cases f s.fbb <;> rfl

/-- The default that is not stored, as it is pushed. -/
def pushDefault (p : PushTy) (ty : Ir.Ty) (d : Option Ast.DefaultValue) : Option (PVal p.pty) :=
  match dfltValue ty d with
  | some (.some v) => p.pval v
  | _ => none

/-- The `add_` method of a field. -/
theorem TableAt.invoke_add (A : TableAt gm P t gs) {i : Nat} {f : Ir.Field} {g : GField}
    (hf : t.fields[i]? = some f) (hg : gs[i]? = some g) (hb : f.ident ∉ unbindable) {fn : Fn}
    (hfn : addMethod (tName t) (tNs t) f = some fn) {p : PushTy} (hp : pushes f.ty = some p) {v : Value} {x : PVal p.pty}
    (hx : p.pval v = some x) (o : Nat) :
    invoke md P (n + 3) (builderScope t) fn [builderValue t o, v] = (do
      let _ ← onBuilder (pushField md g.slot x (pushDefault p f.ty f.default))
      pure .unit) := by
  obtain ⟨g', e0, -, -, -, hk⟩ := A.fields i f hf
  rw [hg] at e0
  cases e0
  have hmem : f ∈ t.fields := List.mem_of_getElem? hf
  have hty := A.types f hmem
  have hq := A.tyPaths (sc := builderScope t) (.inl rfl) rfl hmem
  simp only [addMethod, Option.bind_eq_bind, Option.bind_eq_some_iff, Option.pure_def, Option.some.injEq] at hfn
  obtain ⟨w, hw, body, hbody, rfl⟩ := hfn
  have hpt := pushTy_token (sc := builderScope t) A.nodup A.hygienic (.inl rfl) hty hq hw hp
  have hne := ne_self (A.usable f hmem)
  have hbind : bindParams [selfParam, (f.ident, w)] [builderValue t o, v] =
      some [(c!"self", builderValue t o), (f.ident, v)] := by
    unfold bindParams
    rw [if_pos]
    · rfl
    · refine ⟨rfl, ?_, ?_⟩
      · simpa [selfParam] using Ne.symm hne
      · intro q hq'
        simp only [List.mem_cons, List.not_mem_nil, or_false] at hq'
        rcases hq' with rfl | rfl
        · decide
        · exact hb
  have hxv : ∀ s, eval md P (n + 2) (builderScope t) [(c!"self", builderValue t o), (f.ident, v)] (.var f.ident) s = .val v s := by
    intro s
    refine eval_var ?_ s
    have : (c!"self" == f.ident) = false := by simpa using Ne.symm hne
    simp [List.find?_cons, this]
  have hslot := A.eval_slot (md := md) (n := n + 1) (sc := builderScope t) (vars := [(c!"self", builderValue t o), (f.ident, v)])
    (.inl rfl) rfl hf hg
  have hun : ∀ (e : Expr) (dd : Option (PVal p.pty)), eval md P (n + 3) (builderScope t)
      [(c!"self", builderValue t o), (f.ident, v)] e = (do
        let _ ← onBuilder (pushField md g.slot x dd)
        pure .unit) →
      endCall (evalBlock (eval md P (n + 3) (builderScope t)) [(c!"self", builderValue t o), (f.ident, v)] [.expr e] .unit) = (do
        let _ ← onBuilder (pushField md g.slot x dd)
        pure .unit) := by
    intro e dd he
    rw [evalBlock_expr, he, bind_assoc', evalBlock_nil, eval_unit]
    exact endCall_onBuilder
  refine M.ext fun s => ?_
  rw [invoke_apply hbind]
  refine congrFun ?_ s
  have halways : ∀ (hd : pushDefault p f.ty f.default = none), body = .methodAt (.field (.var c!"self") c!"fbb")
      c!"push_slot_always" w [slotExpr (tName t) f, .var f.ident] →
      endCall (evalBlock (eval md P (n + 3) (builderScope t)) [(c!"self", builderValue t o), (f.ident, v)] [.expr body] .unit) = (do
        let _ ← onBuilder (pushField md g.slot x (pushDefault p f.ty f.default))
        pure .unit) := by
    rintro hd rfl
    rw [hd]
    exact hun _ _ (eval_pushAlways eval_fbb hslot hxv hpt hx)
  unfold addBody at hbody
  simp only at hbody
  split at hbody
  · rename_i hsc
    have hwt : typeToken (tNs t) f.ty (some wipPath) true = some w := by
      unfold argTy at hw
      split at hw
      · rename_i hu
        exfalso
        cases hft : f.ty <;> simp [hft, Ir.Ty.isUnion, Ir.Ty.isScalar] at hu hsc
      · exact hw
    split at hbody
    · rename_i d hd
      simp only [Option.map_eq_some_iff] at hbody
      obtain ⟨e, he, rfl⟩ := hbody
      rw [hd] at hk
      obtain ⟨dv, hdv, hev⟩ := eval_defaultValue (md := md) (n := n + 1)
        (vars := [(c!"self", builderValue t o), (f.ident, v)]) A.nodup hty hq hk hwt (isUnion_of_scalar hsc) he
      obtain ⟨z, hz⟩ : ∃ z, p.pval dv = some z := by
        cases hft : f.ty <;> rw [hft] at hp hdv hk <;> simp [hft, Ir.Ty.isScalar] at hsc
        · cases d with
          | ident i => simp [kindOf] at hk
          | scalar s =>
            simp only [pushes, Option.some.injEq] at hp
            subst hp
            simp only [dfltValue, Option.map_eq_some_iff, Value.some.injEq] at hdv
            obtain ⟨y, -, rfl⟩ := hdv
            exact ⟨y, by simp [PushTy.pval]⟩
        · cases d <;> simp [kindOf] at hk
        · rename_i q vs b
          simp only [kindOf, Option.bind_eq_bind, Option.bind_eq_some_iff] at hk
          obtain ⟨xs, hxs, j, hj, -⟩ := hk
          cases d with
          | scalar s => simp [Gen.enumDefault] at hj
          | ident i =>
            simp only [dfltValue, Option.some.injEq, Value.some.injEq] at hdv
            subst hdv
            simp only [pushes, hxs, Option.map_some, Option.some.injEq] at hp
            subst hp
            simp only [Gen.enumDefault] at hj
            rw [← zip_findIdx (enumValues_some hxs).2.1] at hj
            simp only [PushTy.pval, and_self, if_true]
            cases hfd : ((vs.map (·.ident)).zip xs).find? (fun y => y.1 == i) with
            | some y => exact ⟨_, rfl⟩
            | none =>
              rw [List.find?_eq_none] at hfd
              rw [List.findIdx?_eq_none_iff.mpr (by simpa using hfd)] at hj
              cases hj
      have : pushDefault p f.ty f.default = some z := by
        simp only [pushDefault, hd, hdv, hz]
      rw [this]
      exact hun _ _ (eval_push eval_fbb hslot hxv hev hpt hx hz)
    · rename_i hd
      cases hbody
      exact halways (by simp [pushDefault, hd, dfltValue]) rfl
  · rename_i hsc
    cases hbody
    refine halways ?_ rfl
    cases hft : f.ty <;> simp [hft, Ir.Ty.isScalar] at hsc
    all_goals
      cases hd : f.default with
      | none => simp [pushDefault, dfltValue]
      | some d => rw [hft, hd] at hk; first | simp [pushDefault, dfltValue]; done | simp [kindOf] at hk; done

/-- An argument that is pushed as type `p`. -/
def Pushed (ty : Ir.Ty) (d : Option Ast.DefaultValue) (k : Kind) (req : Bool) (a : k.Arg req) (v : Value) : Prop :=
  ∃ p, ∃ x : PVal p.pty, pushes ty = some p ∧ p.pval v = some x ∧
    ∀ md slot, (fun b => Gen.addField md b slot k req a) = pushField md slot x (pushDefault p ty d)

theorem zip_find {t : STy} {vs : List Ir.EnumVariant} {xs : List (SVal t)} (hn : (vs.map (·.ident)).Nodup) {i : Nat}
    {v : Ir.EnumVariant} (hv : vs[i]? = some v) {x : SVal t} (hx : xs[i]? = some x) :
    (((vs.map (·.ident)).zip xs).find? fun y => y.1 == v.ident).map (·.2) = some x := by
  induction vs generalizing xs i with
  | nil => simp at hv
  | cons w vs ih =>
    cases xs with
    | nil => simp at hx
    | cons y xs =>
      simp only [List.map_cons, List.nodup_cons] at hn
      cases i with
      | zero =>
        simp only [List.getElem?_cons_zero, Option.some.injEq] at hv hx
        subst hv hx
        simp
      | succ i =>
        simp only [List.getElem?_cons_succ] at hv hx
        have : (w.ident == v.ident) = false := by
          rw [beq_eq_false_iff_ne]
          intro h
          exact hn.1 (h ▸ List.mem_map_of_mem (List.mem_of_getElem? hv))
        simp [List.find?_cons, this, ih hn.2 hv hx]

theorem arg_pushed {ty : Ir.Ty} {d : Option Ast.DefaultValue} {k : Kind} (hk : kindOf ty d = some k) (req : Bool)
    (a : k.Arg req) : ∃ v, encArg ty k req a = some v ∧
      if (req || ty.isScalar) = true then Pushed ty d k req a v
      else (v = .none ∧ ∀ md b slot, Gen.addField md b slot k req a = .ok b) ∨
        ∃ w, v = .some w ∧ Pushed ty d k req a w := by
  have hoff : ∀ (k : Kind) (a : k.Arg req) (o : Fin (2 ^ 32)), pushes ty = some .offset → dfltValue ty d = some .none →
      (∀ md b slot, Gen.addField md b slot k req a = b.pushSlotAlways md slot (p := .off) o) →
      Pushed ty d k req a (.offset o.val) := by
    intro k a o hp hd h
    refine ⟨.offset, o, hp, ?_, ?_⟩
    · simp only [PushTy.pval, Builder.offVal, Option.some.injEq]
      exact congrArg some (Fin.ext (a := Fin.ofNat (2 ^ 32) o.val) (b := o) (Nat.mod_eq_of_lt o.isLt))
    · intro md slot
      funext b
      rw [h]
      simp only [pushDefault, hd, pushField]
      rfl
  have href : ∀ (f : FTy) (a : (Kind.ref f).Arg req), pushes ty = some .offset → dfltValue ty d = some .none →
      ty.isScalar = false → ∃ v, encArg ty (.ref f) req a = some v ∧
      if (req || ty.isScalar) = true then Pushed ty d (.ref f) req a v
      else (v = .none ∧ ∀ md b slot, Gen.addField md b slot (.ref f) req a = .ok b) ∨
        ∃ w, v = .some w ∧ Pushed ty d (.ref f) req a w := by
    intro f a hp hd hs
    cases req with
    | true => exact ⟨.offset a.val, by cases ty <;> rfl, by simp only [Bool.true_or, if_true]; exact hoff _ _ a hp hd fun _ _ _ => rfl⟩
    | false =>
      simp only [hs, Bool.or_self, Bool.false_eq_true, if_false]
      cases a with
      | none => exact ⟨.none, by cases ty <;> rfl, .inl ⟨rfl, fun _ _ _ => rfl⟩⟩
      | some o => exact ⟨.some (.offset o.val), by cases ty <;> rfl, .inr ⟨_, rfl, hoff _ _ o hp hd fun _ _ _ => rfl⟩⟩
  have huni : ∀ (f : List FTy) (a : (Kind.union f).Arg req), pushes ty = some .offset → dfltValue ty d = some .none →
      ty.isScalar = false → ∃ v, encArg ty (.union f) req a = some v ∧
      if (req || ty.isScalar) = true then Pushed ty d (.union f) req a v
      else (v = .none ∧ ∀ md b slot, Gen.addField md b slot (.union f) req a = .ok b) ∨
        ∃ w, v = .some w ∧ Pushed ty d (.union f) req a w := by
    intro f a hp hd hs
    cases req with
    | true => exact ⟨.offset a.val, by cases ty <;> rfl, by simp only [Bool.true_or, if_true]; exact hoff _ _ a hp hd fun _ _ _ => rfl⟩
    | false =>
      simp only [hs, Bool.or_self, Bool.false_eq_true, if_false]
      cases a with
      | none => exact ⟨.none, by cases ty <;> rfl, .inl ⟨rfl, fun _ _ _ => rfl⟩⟩
      | some o => exact ⟨.some (.offset o.val), by cases ty <;> rfl, .inr ⟨_, rfl, hoff _ _ o hp hd fun _ _ _ => rfl⟩⟩
  cases ty with
  | builtin b =>
    simp only [Ir.Ty.isScalar, Bool.or_true, if_true]
    cases d with
    | none =>
      simp only [kindOf, Option.some.injEq] at hk
      subst hk
      exact ⟨.scalar _ a, rfl, .scalar _, a, rfl, by simp [PushTy.pval], fun _ _ => rfl⟩
    | some d =>
      cases d with
      | ident i => simp [kindOf] at hk
      | scalar s =>
        simp only [kindOf, Option.bind_eq_bind, Option.bind_eq_some_iff, Option.pure_def, Option.some.injEq] at hk
        obtain ⟨z, hz, rfl⟩ := hk
        refine ⟨.scalar _ a, rfl, .scalar _, a, rfl, by simp [PushTy.pval], fun md slot => ?_⟩
        have : pushDefault (.scalar (Gen.builtinSTy b)) (.builtin b) (some (.scalar s)) = some z := by
          simp only [pushDefault, dfltValue, hz, Option.map_some, PushTy.pval]
          exact dif_pos trivial
        rw [this]
        rfl
  | enum q vs b =>
    simp only [Ir.Ty.isScalar, Bool.or_true, if_true]
    simp only [kindOf, Option.bind_eq_bind, Option.bind_eq_some_iff] at hk
    obtain ⟨xs, hx, hk⟩ := hk
    obtain ⟨-, hlen, -, hnd, -⟩ := enumValues_some hx
    have hp : pushes (.enum q vs b) = some (.enum (modOf q) (QIdent.simple q) (Gen.enumBaseSTy b) ((vs.map (·.ident)).zip xs)) := by
      simp [pushes, hx]
    have hval : ∀ (i : Fin xs.length) (v : Ir.EnumVariant), vs[i.val]? = some v →
        PushTy.pval (.enum (modOf q) (QIdent.simple q) (Gen.enumBaseSTy b) ((vs.map (·.ident)).zip xs))
          (.variant (modOf q) (QIdent.simple q) v.ident) = some (xs.get i) := by
      intro i v hv
      simp only [PushTy.pval, and_self, if_true]
      exact zip_find hnd hv (by simp)
    have hget : ∀ i : Fin xs.length, ∃ v, vs[i.val]? = some v := fun i => ⟨vs[i.val]'(by omega), by simp⟩
    cases d with
    | none =>
      simp only [Option.pure_def, Option.some.injEq] at hk
      subst hk
      obtain ⟨v, hv⟩ := hget a
      refine ⟨.variant (modOf q) (QIdent.simple q) v.ident, by simp [encArg, encEnum, hv], .enum _ _ _ _, xs.get a, hp, hval a v hv, fun _ _ => rfl⟩
    | some d =>
      simp only [Option.bind_eq_some_iff] at hk
      obtain ⟨j, hj, hk⟩ := hk
      split at hk
      · rename_i hlt
        simp only [Option.pure_def, Option.some.injEq] at hk
        subst hk
        obtain ⟨v, hv⟩ := hget a
        refine ⟨.variant (modOf q) (QIdent.simple q) v.ident, by simp [encArg, encEnum, hv], .enum _ _ _ _, xs.get a, hp, hval a v hv,
          fun md slot => ?_⟩
        cases d with
        | scalar s => simp [Gen.enumDefault] at hj
        | ident i =>
          obtain ⟨u, hu⟩ := hget ⟨j, hlt⟩
          have : u.ident = i := by
            simp only [Gen.enumDefault] at hj
            obtain ⟨h1, h2, -⟩ := List.findIdx?_eq_some_iff_getElem.mp hj
            simp only [List.getElem?_eq_getElem h1, Option.some.injEq] at hu
            subst hu
            simpa using h2
          subst this
          have : pushDefault (.enum (modOf q) (QIdent.simple q) (Gen.enumBaseSTy b) ((vs.map (·.ident)).zip xs)) (.enum q vs b)
              (some (.ident u.ident)) = some (xs.get ⟨j, hlt⟩) := by
            simp only [pushDefault, dfltValue]
            exact hval ⟨j, hlt⟩ u hu
          rw [this]
          rfl
      · cases hk
  | string =>
    cases d with
    | some d => simp [kindOf] at hk
    | none => simp only [kindOf, Option.some.injEq] at hk; subst hk; exact href _ a rfl rfl rfl
  | array e =>
    cases d with
    | some d => simp [kindOf] at hk
    | none =>
      simp only [kindOf, Option.bind_eq_bind, Option.bind_eq_some_iff, Option.pure_def, Option.some.injEq] at hk
      obtain ⟨e', he, rfl⟩ := hk
      exact href _ a rfl rfl rfl
  | table q =>
    cases d with
    | some d => simp [kindOf] at hk
    | none => simp only [kindOf, Option.some.injEq] at hk; subst hk; exact href _ a rfl rfl rfl
  | struct q fs => cases d <;> simp [kindOf] at hk
  | union q e vs =>
    obtain ⟨-, e', he, rfl⟩ := Gen.kindOf_union_iff.mp hk
    exact huni _ a rfl (by cases d <;> simp [dfltValue]) rfl

end

end Butte.Rs
