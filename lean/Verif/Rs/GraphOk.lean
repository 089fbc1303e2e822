import Verif.Rs.Graph
import Verif.Rs.Default
import Verif.Gen.NoErr
import Verif.Gen.Pipeline
/-
Whole object graphs through the emitted program and through the model of the generated code are the same.
-/
namespace Butte.Rs
open Ir (QIdent Node Ident itemsOf)
open Gen (GField Kind Args kindOf Tables Val below mapAll readVal readKind readField writeVal writeField writeFields compileTable tablesOf)

/-! ### Reading -/

theorem tryFrom_lt {l : List Nat} {a i : Nat} (h : Butte.enumTryFrom l a = .ok i) : i < l.length := by
  unfold Butte.enumTryFrom at h
  split at h
  · rename_i j hj
    cases h
    exact (List.findIdx?_eq_some_iff_getElem.mp hj).1
  · cases h

theorem follow_value {md : Mode} {ty : Ir.Ty} {F : FollowTy} (hF : follows ty = some F) {buf : Bytes} {l : Nat} {x : F.fty.Inner}
    (h : F.fty.follow md buf l = .ok x) : ∃ v, F.value x = some v := by
  cases ty with
  | builtin b => simp only [follows, Option.some.injEq] at hF; subst hF; exact ⟨_, rfl⟩
  | string => simp only [follows, Option.some.injEq] at hF; subst hF; exact ⟨_, rfl⟩
  | array t =>
    simp only [follows, Option.map_eq_some_iff] at hF
    obtain ⟨e, -, rfl⟩ := hF
    exact ⟨_, rfl⟩
  | table q => simp only [follows, Option.some.injEq] at hF; subst hF; exact ⟨_, rfl⟩
  | struct q fs => simp [follows] at hF
  | union q e vs => simp [follows] at hF
  | enum q vs b =>
    simp only [follows, Option.map_eq_some_iff] at hF
    obtain ⟨xs, hx, rfl⟩ := hF
    have hlen := (enumValues_some hx).2.1
    have hlt : (show Nat from x) < vs.length := by
      simp only [FollowTy.fty, FTy.follow] at h
      obtain ⟨y, -, h⟩ := Res.bind_eq_ok.mp h
      have := tryFrom_lt h
      simp only [List.length_map, List.length_zip, hlen, Nat.min_self] at this
      exact this
    obtain ⟨v, hv⟩ := encEnum_some (q := q) hlt
    exact ⟨v, (value_enum hlen x).trans hv⟩

theorem get_follow {md : Mode} {e : FTy} {v : Vec e} {i : Nat} {x : e.Inner} (h : Vec.get md v i = .ok x) :
    ∃ l, e.follow md v.buf l = .ok x := by
  have key : ∀ {r : Res Unit}, (do
      r
      let a ← addU md v.loc 4
      let b ← mulU md e.size i
      let l ← addU md a b
      e.follow md v.buf l) = .ok x → ∃ l, e.follow md v.buf l = .ok x := by
    intro r h
    obtain ⟨_, -, h⟩ := Res.bind_eq_ok.mp h
    obtain ⟨_, -, h⟩ := Res.bind_eq_ok.mp h
    obtain ⟨_, -, h⟩ := Res.bind_eq_ok.mp h
    obtain ⟨l, -, h⟩ := Res.bind_eq_ok.mp h
    exact ⟨l, h⟩
  unfold Vec.get at h
  simp only at h
  split at h
  · obtain ⟨_, -, h⟩ := Res.bind_eq_ok.mp h
    obtain ⟨_, -, h⟩ := Res.bind_eq_ok.mp h
    exact key h
  · exact key h

/-- A variant is found again by its name. -/
theorem findIdx_name {α : Type} {l : List α} {name : α → Str} (hn : (l.map name).Nodup) {i : Nat} {a : α} (h : l[i]? = some a) :
    l.findIdx? (fun w => name w == name a) = some i := by
  obtain ⟨hi, rfl⟩ := List.getElem?_eq_some_iff.mp h
  rw [List.findIdx?_eq_some_iff_getElem]
  refine ⟨hi, by simp, ?_⟩
  intro j hj
  simp only [beq_iff_eq]
  intro e
  have := (List.Nodup.getElem_inj_iff hn (i := j) (j := i) (hi := by simp; omega) (hj := by simpa using hi)).mp (by simpa using e)
  omega

theorem leafText_enum {q : QIdent} {vs : List Ir.EnumVariant} {b : Ir.EnumBase} {xs : List (SVal (Gen.enumBaseSTy b))}
    (hx : Gen.enumValues (Gen.enumBaseSTy b) vs = some xs) {i : Nat} {v : Value} (h : encEnum q vs i = some v) :
    leafText (.enum q vs b) v = .ok (.variant i) := by
  simp only [encEnum, Option.map_eq_some_iff] at h
  obtain ⟨w, hw, rfl⟩ := h
  simp only [leafText, and_self, if_true]
  rw [findIdx_name (name := fun w : Ir.EnumVariant => w.ident) (Gen.enumValues_ok hx).2.2.2 hw]

/-- `rd'` reads values as `rd` reads what they stand for. -/
def Agrees (rd : Ir.Ty → (f : FTy) → f.Inner → Res Val) (rd' : Ir.Ty → Value → Res Val) : Prop :=
  ∀ ty F, follows ty = some F → ∀ (x : F.fty.Inner) v, F.value x = some v → rd' ty v = rd ty F.fty x

theorem Agrees.inner {rd : Ir.Ty → (f : FTy) → f.Inner → Res Val} {rd' : Ir.Ty → Value → Res Val} (h : Agrees rd rd')
    {ty : Ir.Ty} {F : FollowTy} (hF : follows ty = some F) {f : FTy} {x : f.Inner} {v : Value} (hv : encInner F f x = some v) :
    rd' ty v = rd ty f x := by
  unfold encInner at hv
  split at hv
  · rename_i e
    subst e
    exact h ty F hF x v hv
  · cases hv

theorem kindOf_builtin {t : Ast.Builtin} {d : Option Ast.DefaultValue} {k : Kind} (hk : kindOf (.builtin t) d = some k) :
    ∃ d', k = .scalar (Gen.builtinSTy t) d' := by
  cases d with
  | none => simp only [kindOf, Option.some.injEq] at hk; exact ⟨_, hk.symm⟩
  | some d =>
    cases d with
    | ident i => simp [kindOf] at hk
    | scalar s =>
      simp only [kindOf, Option.bind_eq_bind, Option.bind_eq_some_iff, Option.pure_def, Option.some.injEq] at hk
      obtain ⟨w, -, rfl⟩ := hk
      exact ⟨_, rfl⟩

theorem kindOf_enum {q : QIdent} {vs : List Ir.EnumVariant} {b : Ir.EnumBase} {d : Option Ast.DefaultValue} {k : Kind}
    (hk : kindOf (.enum q vs b) d = some k) :
    ∃ xs d', Gen.enumValues (Gen.enumBaseSTy b) vs = some xs ∧ k = .enum (Gen.enumBaseSTy b) xs d' := by
  simp only [kindOf, Option.bind_eq_bind, Option.bind_eq_some_iff] at hk
  obtain ⟨xs, hx, hk⟩ := hk
  cases d with
  | none =>
    simp only [Option.pure_def, Option.some.injEq] at hk
    exact ⟨xs, _, hx, hk.symm⟩
  | some d =>
    simp only [Option.bind_eq_some_iff] at hk
    obtain ⟨j, -, hk⟩ := hk
    split at hk
    · simp only [Option.pure_def, Option.some.injEq] at hk
      exact ⟨xs, _, hx, hk.symm⟩
    · cases hk

theorem kindOf_ref {ty : Ir.Ty} {d : Option Ast.DefaultValue} {k : Kind} (hk : kindOf ty d = some k)
    (h1 : ∀ b, ty ≠ .builtin b) (h2 : ∀ q vs b, ty ≠ .enum q vs b) : (∃ t, k = .ref t) ∨ ∃ fs, k = .union fs := by
  cases ty with
  | builtin b => exact absurd rfl (h1 b)
  | enum q vs b => exact absurd rfl (h2 q vs b)
  | struct q fs => simp [kindOf] at hk
  | string =>
    cases d with
    | none => simp only [kindOf, Option.some.injEq] at hk; exact .inl ⟨_, hk.symm⟩
    | some d => simp [kindOf] at hk
  | table q =>
    cases d with
    | none => simp only [kindOf, Option.some.injEq] at hk; exact .inl ⟨_, hk.symm⟩
    | some d => simp [kindOf] at hk
  | array a =>
    cases d with
    | none =>
      simp only [kindOf, Option.bind_eq_bind, Option.bind_eq_some_iff, Option.pure_def, Option.some.injEq] at hk
      obtain ⟨e, -, hk⟩ := hk
      exact .inl ⟨_, hk.symm⟩
    | some d => simp [kindOf] at hk
  | union q e us =>
    obtain ⟨-, e, -, hk⟩ := Gen.kindOf_union_iff.mp hk
    exact .inr ⟨_, hk⟩

theorem kindText_eq {rd : Ir.Ty → (f : FTy) → f.Inner → Res Val} {rd' : Ir.Ty → Value → Res Val} (h : Agrees rd rd')
    {ty : Ir.Ty} {d : Option Ast.DefaultValue} {k : Kind} (hk : kindOf ty d = some k)
    (hu : ∀ q e uvs, ty = .union q e uvs → (uvs.map fun u : Ir.UnionVariant => u.ident).Nodup) {x : k.Inner} {v : Value}
    (hv : encResult ty k x = some v) : kindText rd' ty v = readKind rd ty k x := by
  have hsc : ∀ t, (ty = .string ∨ (∃ a, ty = .array a) ∨ ∃ q, ty = .table q) → k = .ref t → kindText rd' ty v = readKind rd ty k x := by
    rintro t ht rfl
    have e1 : encResult ty (.ref t) x = (do let F ← follows ty; encInner F (.fwdU t) x) := by
      rcases ht with rfl | ⟨a, rfl⟩ | ⟨q, rfl⟩ <;> rfl
    have e2 : kindText rd' ty v = rd' ty v := by
      rcases ht with rfl | ⟨a, rfl⟩ | ⟨q, rfl⟩ <;> rfl
    rw [e1, Option.bind_eq_bind, Option.bind_eq_some_iff] at hv
    obtain ⟨F, hF, hv⟩ := hv
    rw [e2, h.inner hF hv]
    rfl
  cases ty with
  | builtin b =>
    obtain ⟨d', rfl⟩ := kindOf_builtin hk
    simp only [encResult, Option.some.injEq] at hv
    subst hv
    rfl
  | enum q vs b =>
    obtain ⟨xs, d', hx, rfl⟩ := kindOf_enum hk
    simp only [encResult] at hv
    simp only [kindText, readKind]
    exact leafText_enum hx hv
  | string =>
    cases d with
    | none => simp only [kindOf, Option.some.injEq] at hk; exact hsc _ (.inl rfl) hk.symm
    | some d => simp [kindOf] at hk
  | array a =>
    cases d with
    | none =>
      simp only [kindOf, Option.bind_eq_bind, Option.bind_eq_some_iff, Option.pure_def, Option.some.injEq] at hk
      obtain ⟨e, -, hk⟩ := hk
      exact hsc _ (.inr (.inl ⟨_, rfl⟩)) hk.symm
    | some d => simp [kindOf] at hk
  | table q =>
    cases d with
    | none => simp only [kindOf, Option.some.injEq] at hk; exact hsc _ (.inr (.inr ⟨_, rfl⟩)) hk.symm
    | some d => simp [kindOf] at hk
  | struct q fs => simp [kindOf] at hk
  | union q e uvs =>
    obtain ⟨-, fs, -, rfl⟩ := Gen.kindOf_union_iff.mp hk
    obtain ⟨i, y⟩ := x
    simp only [encResult, Option.bind_eq_bind, Option.bind_eq_some_iff, Option.pure_def, Option.some.injEq] at hv
    obtain ⟨w, hw, F, hF, z, hz, rfl⟩ := hv
    simp only [kindText, and_self, if_true, readKind]
    rw [findIdx_name (name := fun w : Ir.UnionVariant => w.ident) (hu _ _ _ rfl) hw]
    simp only [hw]
    rw [h.inner hF hz]

theorem fieldText_eq {rd : Ir.Ty → (f : FTy) → f.Inner → Res Val} {rd' : Ir.Ty → Value → Res Val} (h : Agrees rd rd')
    {f : Ir.Field} {k : Kind} (hk : kindOf f.ty f.default = some k)
    (hu : ∀ q e uvs, f.ty = .union q e uvs → (uvs.map fun u : Ir.UnionVariant => u.ident).Nodup) {x : Option k.Inner} {v : Value}
    (hv : encOption (encResult f.ty k) f.required x = some v) : fieldText rd' f (.ok v) = readField rd f.ty k (.ok x) := by
  unfold fieldText readField
  simp only [Res.ok_bind]
  cases hr : f.required with
  | true =>
    cases x with
    | none => simp [encOption, hr] at hv
    | some x =>
      simp only [encOption, hr, if_true] at hv
      simp only
      rw [kindText_eq h hk hu hv]
  | false =>
    cases x with
    | none =>
      simp only [encOption, hr, Bool.false_eq_true, if_false, Option.some.injEq] at hv
      subst hv
      rfl
    | some x =>
      simp only [encOption, hr, Bool.false_eq_true, if_false, Option.map_eq_some_iff] at hv
      obtain ⟨w, hw, rfl⟩ := hv
      simp only
      rw [kindText_eq h hk hu hw]

theorem mapAll_finRange_eq {α β : Type} {f : α → Res β} {l : List α} {k : Nat} (hl : l.length = k) {g : Fin k → Res β}
    (h : ∀ (i : Fin k) a, l[i.val]? = some a → g i = f a) : mapAll g (List.finRange k) = mapAll f l := by
  subst hl
  have e : ∀ (l' : List (Fin l.length)), mapAll g l' = mapAll f (l'.map fun i => l[i.val]) := by
    intro l'
    induction l' with
    | nil => rfl
    | cons i is ih =>
      simp only [List.map_cons, mapAll]
      rw [h i l[i.val] (by simp), ih]
  rw [e]
  congr 1
  apply List.ext_getElem <;> simp

theorem mapAll_congr' {α β : Type} {f g : α → Res β} {l : List α} (h : ∀ x ∈ l, f x = g x) : mapAll f l = mapAll g l := by
  induction l with
  | nil => rfl
  | cons x xs ih =>
    simp only [mapAll]
    rw [h x List.mem_cons_self, ih fun y hy => h y (List.mem_cons_of_mem _ hy)]

section
variable {gm md : Mode} {E : List Ast.Element} {out : List Node} {P : Program}

/-- The members of a union that a field has are named differently. -/
theorem Compiled.members {t : Ir.Table} {gs : List GField} (C : Compiled gm t gs) {f : Ir.Field} (hf : f ∈ t.fields)
    {q e : QIdent} {uvs : List Ir.UnionVariant} (h : f.ty = .union q e uvs) : (uvs.map fun u : Ir.UnionVariant => u.ident).Nodup := by
  have ht := C.tags f hf
  simp only [Gen.unionTagOk, h, List.any_eq_true, Bool.and_eq_true, beq_iff_eq] at ht
  obtain ⟨g, hg, -, hm⟩ := ht
  obtain ⟨j, hj⟩ := List.getElem?_of_mem hg
  obtain ⟨g', -, -, -, -, hk⟩ := C.fields j g hj
  cases hty : g.ty with
  | enum i vs b =>
    rw [hty] at hm hk
    simp only [Bool.and_eq_true, beq_iff_eq] at hm
    simp only [kindOf, Option.bind_eq_bind, Option.bind_eq_some_iff] at hk
    obtain ⟨xs, hx, -⟩ := hk
    have := (Gen.enumValues_ok hx).2.2.2
    rw [hm.2] at this
    exact (List.nodup_cons.mp this).2
  | _ => rw [hty] at hm; simp at hm

/-- All tables of the schema have working code. -/
def AllCompile (gm : Mode) (S : Tables) : Prop := ∀ q t, S q = some t → ∃ gs, compileTable gm t = some gs

/-- Reading through the emitted program is reading through the model. -/
theorem Setting.agrees (S : Setting gm E out P) (hc : AllCompile gm (tablesOf out)) (n : Nat) :
    Agrees (readVal gm md (tablesOf out) n) (readText md P (tablesOf out) n) := by
  induction n with
  | zero => intro ty F hF x v hv; rfl
  | succ n ih =>
    intro ty F hF x v hv
    cases ty with
    | builtin b =>
      simp only [follows, Option.some.injEq] at hF
      subst hF
      simp only [FollowTy.value, Option.some.injEq] at hv
      subst hv
      rfl
    | enum q vs b =>
      simp only [follows, Option.map_eq_some_iff] at hF
      obtain ⟨xs, hx, rfl⟩ := hF
      rw [value_enum (enumValues_some hx).2.1 x] at hv
      simp only [readText, FollowTy.fty, readVal]
      exact leafText_enum hx hv
    | string =>
      simp only [follows, Option.some.injEq] at hF
      subst hF
      simp only [FollowTy.value, Option.some.injEq] at hv
      subst hv
      rfl
    | struct q fs => simp [follows] at hF
    | union q e vs => simp [follows] at hF
    | array t =>
      simp only [follows, Option.map_eq_some_iff] at hF
      obtain ⟨e, he, rfl⟩ := hF
      simp only [FollowTy.value, Option.some.injEq] at hv
      subst hv
      simp only [readText, FollowTy.fty, readVal]
      congr 1
      funext len
      congr 1
      refine mapAll_congr' fun i _ => ?_
      cases hg : Vec.get md (show Vec e.fty from x) i with
      | err e => rfl
      | panic => rfl
      | ok y =>
        obtain ⟨l, hl⟩ := get_follow hg
        obtain ⟨w, hw⟩ := follow_value he hl
        simp only [Res.ok_bind, hw]
        exact ih t e he y w hw
    | table q =>
      simp only [follows, Option.some.injEq] at hF
      subst hF
      simp only [FollowTy.value, Option.some.injEq] at hv
      subst hv
      simp only [readText, FollowTy.fty, readVal]
      cases hq : tablesOf out q with
      | none => rfl
      | some t =>
        obtain ⟨gs, hgs⟩ := hc q t hq
        obtain ⟨⟨p, nd⟩, hx, e, rfl⟩ := Gen.tablesOf_some hq
        simp only at e
        subst e
        have A := S.tableAt hx hgs
        simp only [hgs]
        congr 1
        symm
        refine mapAll_finRange_eq A.length.symm ?_
        intro i f hf
        obtain ⟨g, hg, -, hr, -, hk⟩ := A.fields i.val f hf
        have hgi : gs.get i = g := by
          rw [List.getElem?_eq_some_iff] at hg
          obtain ⟨_, h⟩ := hg
          exact h
        subst hgi
        simp only [hf]
        have hcall := A.call_accessor (md := md) (n := 0) (tb := x) hf hg
        change callFn md P 9 (modOf t.ident) (QIdent.simple t.ident) (Heck.snake f.ident)
          [.struct (modOf t.ident) (QIdent.simple t.ident) [(c!"table", .table x)]] = _ at hcall
        rw [hcall, result_apply]
        cases ha : Gen.accessor md x gs (gs.get i) with
        | err e => rfl
        | panic => rfl
        | ok y =>
          obtain ⟨v, hv⟩ := A.result_value hf hg ha
          simp only [hv, returned]
          rw [hr] at hv
          exact (fieldText_eq ih hk (fun _ _ _ h => A.toCompiled.members (List.mem_of_getElem? hf) h) hv).symm

/-! ### Writing -/

/-- The argument of a field, as a value. -/
def encoded {α : Type} (enc : α → Option Value) (r : Res (α × Builder)) : Res (Value × Builder) := do
  let (a, b) ← r
  match enc a with
  | some v => .ok (v, b)
  | none => .panic

theorem argText_offset {wr : Builder → Ir.Ty → Val → Res (Nat × Builder)} {b : Builder} {ty : Ir.Ty} {v : Val} {α : Type}
    {enc : α → Option Value} {g : Fin (2 ^ 32) → α} {g' : Nat → Value} (h : ∀ o, enc (g o) = some (g' o.val)) :
    (match below ty (some v) with
      | some (ty, v) => (do
        let (o, b) ← wr b ty v
        if o < 2 ^ 32 then return (g' o, b) else .panic : Res (Value × Builder))
      | none => .panic) = encoded enc (writeField.offset wr b ty v g) := by
  unfold writeField.offset
  cases below ty (some v) with
  | none => rfl
  | some x =>
    obtain ⟨ty', v'⟩ := x
    simp only [encoded]
    cases wr b ty' v' with
    | err e => rfl
    | panic => rfl
    | ok r =>
      obtain ⟨o, b'⟩ := r
      simp only [Res.ok_bind]
      by_cases ho : o < 2 ^ 32
      · simp only [ho, if_true, dif_pos, pure, Res.ok_bind]
        rw [h]
      · simp only [ho, if_false, dif_neg, not_false_iff]
        rfl

theorem argText_eq {wr : Builder → Ir.Ty → Val → Res (Nat × Builder)} {b : Builder} {f : Ir.Field} {k : Kind}
    (hk : kindOf f.ty f.default = some k) (x : Option Val) :
    argText wr b f x = encoded (encArg f.ty k f.required) (writeField wr b f.ty k f.required x) := by
  have hsc : ∀ k, ((∃ t, k = .ref t) ∨ ∃ fs, k = .union fs) →
      (f.ty = .string ∨ (∃ a, f.ty = .array a) ∨ (∃ q, f.ty = .table q) ∨ ∃ q e us, f.ty = .union q e us) →
      argText wr b f x = encoded (encArg f.ty k f.required) (writeField wr b f.ty k f.required x) := by
    intro k hk ht
    have e : argText wr b f x = match x with
        | none => if f.required then .panic else .ok (.none, b)
        | some v => match below f.ty (some v) with
          | some (ty, v) => (do
            let (o, b) ← wr b ty v
            if o < 2 ^ 32 then return (if f.required then .offset o else .some (.offset o), b) else .panic)
          | none => .panic := by
      rcases ht with e | ⟨_, e⟩ | ⟨_, e⟩ | ⟨_, _, _, e⟩ <;> (simp only [argText, e]; cases x <;> rfl)
    rw [e]
    cases x with
    | none =>
      rcases hk with ⟨t, rfl⟩ | ⟨fs, rfl⟩ <;> cases hr : f.required <;>
        rcases ht with e | ⟨_, e⟩ | ⟨_, e⟩ | ⟨_, _, _, e⟩ <;> (rw [e]; rfl)
    | some v =>
      rcases hk with ⟨t, rfl⟩ | ⟨fs, rfl⟩ <;> cases hr : f.required
      · exact argText_offset (enc := encArg f.ty (.ref t) false) (g := fun o => some o) (g' := fun o => .some (.offset o))
          (fun o => by rcases ht with e | ⟨_, e⟩ | ⟨_, e⟩ | ⟨_, _, _, e⟩ <;> (rw [e]; rfl))
      · exact argText_offset (enc := encArg f.ty (.ref t) true) (g := fun o => o) (g' := fun o => .offset o)
          (fun o => by rcases ht with e | ⟨_, e⟩ | ⟨_, e⟩ | ⟨_, _, _, e⟩ <;> (rw [e]; rfl))
      · exact argText_offset (enc := encArg f.ty (.union fs) false) (g := fun o => some o) (g' := fun o => .some (.offset o))
          (fun o => by rcases ht with e | ⟨_, e⟩ | ⟨_, e⟩ | ⟨_, _, _, e⟩ <;> (rw [e]; rfl))
      · exact argText_offset (enc := encArg f.ty (.union fs) true) (g := fun o => o) (g' := fun o => .offset o)
          (fun o => by rcases ht with e | ⟨_, e⟩ | ⟨_, e⟩ | ⟨_, _, _, e⟩ <;> (rw [e]; rfl))
  cases hty : f.ty with
  | builtin t =>
    obtain ⟨d', rfl⟩ : ∃ d', k = .scalar (Gen.builtinSTy t) d' := kindOf_builtin (hty ▸ hk)
    simp only [argText, hty]
    cases x with
    | none => cases f.required <;> rfl
    | some v => cases v <;> cases f.required <;> rfl
  | enum q vs base =>
    obtain ⟨xs, d', hx, rfl⟩ := kindOf_enum (hty ▸ hk)
    simp only [argText, hty]
    cases x with
    | none => cases f.required <;> rfl
    | some v =>
      cases v with
      | variant i =>
        have hl := (enumValues_some hx).2.1
        simp only [writeField]
        by_cases hi : i < xs.length
        · rw [dif_pos hi, List.getElem?_eq_getElem (hl ▸ hi)]
          simp only [encoded, Res.ok_bind, encArg, encEnum, List.getElem?_eq_getElem (hl ▸ hi), Option.map_some]
        · rw [dif_neg hi, List.getElem?_eq_none (by omega)]
          rfl
      | _ => cases f.required <;> rfl
  | string => exact hty ▸ hsc k (kindOf_ref (hty ▸ hk) (by simp) (by simp)) (.inl hty)
  | array a => exact hty ▸ hsc k (kindOf_ref (hty ▸ hk) (by simp) (by simp)) (.inr (.inl ⟨a, hty⟩))
  | table q => exact hty ▸ hsc k (kindOf_ref (hty ▸ hk) (by simp) (by simp)) (.inr (.inr (.inl ⟨q, hty⟩)))
  | struct q fs => rw [hty] at hk; simp [kindOf] at hk
  | union q e us => exact hty ▸ hsc k (kindOf_ref (hty ▸ hk) (by simp) (by simp)) (.inr (.inr (.inr ⟨q, e, us, hty⟩)))

theorem argsText_eq {wr : Builder → Ir.Ty → Val → Res (Nat × Builder)} {fs : List Ir.Field} {gs : List GField}
    (h : List.Forall₂ (fun (f : Ir.Field) (g : GField) => g.required = f.required ∧ kindOf f.ty f.default = some g.kind) fs gs)
    (b : Builder) (xs : List (Option Val)) :
    argsText wr b fs xs = (do
      let (as, b) ← writeFields wr b fs gs xs
      match encFields fs gs as with
      | some vs => .ok (vs, b)
      | none => .panic) := by
  induction h generalizing b xs with
  | nil => simp only [argsText, writeFields]; rfl
  | @cons f g fs gs h hs ih =>
    obtain ⟨hr, hk⟩ := h
    cases xs with
    | nil => rfl
    | cons x xs =>
      simp only [argsText, writeFields]
      rw [argText_eq hk x, ← hr]
      simp only [encoded]
      cases writeField wr b f.ty g.kind g.required x with
      | err e => rfl
      | panic => rfl
      | ok r =>
        obtain ⟨a, b'⟩ := r
        simp only [Res.ok_bind]
        obtain ⟨v, hv, -⟩ := arg_pushed hk _ a
        rw [hv]
        simp only [Res.ok_bind]
        rw [ih b' xs]
        cases writeFields wr b' fs gs xs with
        | err e => rfl
        | panic => rfl
        | ok r =>
          obtain ⟨as, b''⟩ := r
          simp only [Res.ok_bind, pure]
          rw [encFields, hv]
          cases encFields fs gs as <;> rfl

theorem Compiled.encArgs_total {t : Ir.Table} {gs : List GField} (C : Compiled gm t gs) (args : Args gs) :
    ∃ v, encArgs t gs args = some v := by
  have key : ∀ (fs : List Ir.Field) (hs : List GField),
      List.Forall₂ (fun (f : Ir.Field) (g : GField) => f ∈ t.fields ∧ g.required = f.required ∧
        kindOf f.ty f.default = some g.kind) fs hs → ∀ args : Args hs, ∃ vs, encFields fs hs args = some vs := by
    intro fs hs h
    induction h with
    | nil => intro _; exact ⟨_, rfl⟩
    | cons h1 _ ih =>
      rintro ⟨a, as⟩
      obtain ⟨vs, hvs⟩ := ih as
      obtain ⟨v, hv, -⟩ := arg_pushed h1.2.2 _ a
      exact ⟨_, by rw [encFields, hv, hvs]; rfl⟩
  obtain ⟨vs, h⟩ := key _ _ C.forall₂ args
  exact ⟨_, by rw [encArgs, h]; rfl⟩

/-- Writing through the emitted program is writing through the model. -/
theorem Setting.writes (S : Setting gm E out P) (hc : AllCompile gm (tablesOf out)) (n : Nat) :
    writeText md P (tablesOf out) n = writeVal gm md (tablesOf out) n := by
  induction n with
  | zero => rfl
  | succ n ih =>
    funext b ty v
    cases ty with
    | table q =>
      cases v with
      | table xs =>
        simp only [writeText, writeVal, ih]
        cases hq : tablesOf out q with
        | none => rfl
        | some t =>
          obtain ⟨gs, hgs⟩ := hc q t hq
          obtain ⟨⟨p, nd⟩, hx, e, rfl⟩ := Gen.tablesOf_some hq
          simp only at e
          subst e
          have A := S.tableAt hx hgs
          simp only [hgs]
          rw [argsText_eq (gs := gs) (A.forall₂.imp fun _ _ h => h.2)]
          cases writeFields (writeVal gm md (tablesOf out) n) b t.fields gs xs with
          | err e => rfl
          | panic => rfl
          | ok r =>
            obtain ⟨args, b'⟩ := r
            simp only [Res.ok_bind]
            obtain ⟨v, hv⟩ := A.toCompiled.encArgs_total args
            have hcall := A.call_create (md := md) (n := 0) hv
            simp only [encArgs, Option.map_eq_some_iff] at hv
            obtain ⟨vs, hvs, rfl⟩ := hv
            rw [hvs]
            simp only [Res.ok_bind]
            change callFn md P 4 (modOf t.ident) (QIdent.simple t.ident) c!"create"
              [.builder, .struct (modOf t.ident) (QIdent.simple t.ident ++ c!"Args") vs] = _ at hcall
            rw [hcall]
            simp only [withBuilder]
            have hne := Gen.create_noErr md b' gs args
            cases e : Gen.create md b' gs args with
            | ok r => rfl
            | panic => rfl
            | err x => exact absurd e (hne.ne x)
      | _ => rfl
    | array t => cases t <;> cases v <;> simp only [writeText, writeVal, ih] <;> rfl
    | string => cases v <;> rfl
    | _ => cases v <;> rfl

end

end Butte.Rs
