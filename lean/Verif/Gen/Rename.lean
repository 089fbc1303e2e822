import Verif.Gen.FormatView
import Verif.Gen.Write
/-
Schemas that differ in names only, for C118. Nothing here models code.
-/
namespace Butte.Gen
open Ir (QIdent)

/-! ### Schemas that differ in names only -/

/-- The same type, up to names; `ρ q q'` says that the table `q` is called `q'`. Enums have the same base type and numbers,
unions have the same members; that their variants have different names holds for both or for neither. -/
inductive Renamed (ρ : QIdent → QIdent → Prop) : Ir.Ty → Ir.Ty → Prop
  | builtin (b : Ast.Builtin) : Renamed ρ (.builtin b) (.builtin b)
  | string : Renamed ρ .string .string
  | array {t t' : Ir.Ty} (h : Renamed ρ t t') : Renamed ρ (.array t) (.array t')
  | table {q q' : QIdent} (h : ρ q q') : Renamed ρ (.table q) (.table q')
  | enum {id id' : QIdent} {vs vs' : List Ir.EnumVariant} {b : Ir.EnumBase}
      (hv : vs'.map (·.value) = vs.map (·.value))
      (hn : (vs'.map (·.ident)).Nodup ↔ (vs.map (·.ident)).Nodup) : Renamed ρ (.enum id vs b) (.enum id' vs' b)
  | union {id id' e e' : QIdent} {uvs uvs' : List Ir.UnionVariant} (hl : uvs'.length = uvs.length)
      (hu : ∀ (i : Nat) u u', uvs[i]? = some u → uvs'[i]? = some u' → Renamed ρ u.ty u'.ty) :
      Renamed ρ (.union id e uvs) (.union id' e' uvs')

/-- The position of the variant with this name. -/
def variantPos : Ir.Ty → Ir.Ident → Option Nat
  | .enum _ vs _, i => vs.findIdx? (fun v => v.ident == i)
  | _, _ => none

/-- The same default: the same literal, or the variant at the same position. -/
inductive SameDefault (ty ty' : Ir.Ty) : Option Ast.DefaultValue → Option Ast.DefaultValue → Prop
  | none : SameDefault ty ty' none none
  | scalar (s : Ast.Scalar) : SameDefault ty ty' (some (.scalar s)) (some (.scalar s))
  | ident {i i' : Str} (h : variantPos ty' i' = variantPos ty i) :
      SameDefault ty ty' (some (.ident i)) (some (.ident i'))

/-- The same field, up to names. -/
structure RenamedField (ρ : QIdent → QIdent → Prop) (f f' : Ir.Field) : Prop where
  ty : Renamed ρ f.ty f'.ty
  required : f'.required = f.required
  default : SameDefault f.ty f'.ty f.default f'.default

/-- The position of the field `<name>_type` that goes with the field `f`. -/
def tagPos (fs : List Ir.Field) (f : Ir.Field) : Option Nat :=
  fs.findIdx? (fun g => Heck.snake g.ident == Heck.snake f.ident ++ c!"_type")

/-- The same table, up to names; the tag of a union field is the same field. -/
structure RenamedTable (ρ : QIdent → QIdent → Prop) (t t' : Ir.Table) : Prop where
  fields : List.Forall₂ (RenamedField ρ) t.fields t'.fields
  tags : ∀ (i : Nat) f f', t.fields[i]? = some f → t'.fields[i]? = some f' → f.ty.isUnion = true →
    tagPos t'.fields f' = tagPos t.fields f

/-- The second schema is the first with other names. -/
def RenamedSchema (ρ : QIdent → QIdent → Prop) (S S' : Tables) : Prop :=
  ∀ q q', ρ q q' → Option.Rel (RenamedTable ρ) (S q) (S' q')

/-! ### Renaming back -/

theorem Renamed.symm {ρ : QIdent → QIdent → Prop} {t t' : Ir.Ty} (h : Renamed ρ t t') : Renamed (flip ρ) t' t := by
  induction h with
  | builtin b => exact .builtin b
  | string => exact .string
  | array _ ih => exact .array ih
  | table h => exact .table h
  | enum hv hn => exact .enum hv.symm hn.symm
  | union hl _ ih => exact .union hl.symm (fun i u u' h h' => ih i u' u h' h)

theorem Renamed.isUnion {ρ : QIdent → QIdent → Prop} {t t' : Ir.Ty} (h : Renamed ρ t t') : t'.isUnion = t.isUnion := by
  cases h <;> rfl

theorem RenamedField.symm {ρ : QIdent → QIdent → Prop} {f f' : Ir.Field} (h : RenamedField ρ f f') :
    RenamedField (flip ρ) f' f := by
  refine ⟨h.ty.symm, h.required.symm, ?_⟩
  have := h.default
  generalize f.default = d, f'.default = d' at this
  cases this with
  | none => exact .none
  | scalar s => exact .scalar s
  | ident h => exact .ident h.symm

theorem RenamedTable.back {ρ : QIdent → QIdent → Prop} {t t' : Ir.Table} (h : RenamedTable ρ t t') {i : Nat} {f' : Ir.Field}
    (hf : t'.fields[i]? = some f') : ∃ f, t.fields[i]? = some f ∧ RenamedField ρ f f' := by
  obtain ⟨hi, rfl⟩ := List.getElem?_eq_some_iff.mp hf
  have hl := h.fields.length_eq
  exact ⟨_, List.getElem?_eq_getElem (by omega), (List.forall₂_iff_get.mp h.fields).2 i (by omega) hi⟩

theorem RenamedTable.symm {ρ : QIdent → QIdent → Prop} {t t' : Ir.Table} (h : RenamedTable ρ t t') :
    RenamedTable (flip ρ) t' t := by
  refine ⟨?_, ?_⟩
  · exact (List.Forall₂.imp (fun _ _ h => h.symm) h.fields).flip
  · intro i f' f h1 h2 h3
    obtain ⟨f₀, h4, h5⟩ := h.back h1
    rw [h2] at h4
    cases h4
    exact (h.tags i f f' h2 h1 (by rw [← h5.ty.isUnion]; exact h3)).symm

theorem RenamedSchema.symm {ρ : QIdent → QIdent → Prop} {S S' : Tables} (h : RenamedSchema ρ S S') :
    RenamedSchema (flip ρ) S' S := by
  intro q q' hq
  have := h q' q hq
  generalize S q' = a, S' q = b at this
  cases this with
  | none => exact .none
  | some h => exact .some h.symm

/-! ### What is generated -/

theorem variantValues_renamed {t : STy} : ∀ {vs vs' : List Ir.EnumVariant} (i : Nat), vs'.map (·.value) = vs.map (·.value) →
    variantValues t i vs' = variantValues t i vs
  | [], [], _, _ => rfl
  | [], _ :: _, _, h => by simp at h
  | _ :: _, [], _, h => by simp at h
  | v :: vs, v' :: vs', i, h => by
    simp only [List.map_cons, List.cons.injEq] at h
    simp only [variantValues, h.1, variantValues_renamed (i + 1) h.2]

theorem enumValues_renamed {t : STy} {vs vs' : List Ir.EnumVariant} (hv : vs'.map (·.value) = vs.map (·.value))
    (hn : (vs'.map (·.ident)).Nodup ↔ (vs.map (·.ident)).Nodup) : enumValues t vs' = enumValues t vs := by
  have he : vs' = [] ↔ vs = [] := by
    have := congrArg List.length hv
    simp only [List.length_map] at this
    rw [← List.length_eq_zero_iff, ← List.length_eq_zero_iff, this]
  simp only [enumValues, variantValues_renamed 0 hv, hn, he]

theorem Renamed.followTy {ρ : QIdent → QIdent → Prop} {t t' : Ir.Ty} (h : Renamed ρ t t') :
    followTy t' = followTy t := by
  induction h with
  | builtin b => rfl
  | string => rfl
  | array _ ih => simp only [Gen.followTy, ih]
  | table _ => rfl
  | enum hv hn => simp only [Gen.followTy, enumValues_renamed hv hn]
  | union => rfl

theorem mapM_renamed {α : Type} {g : Ir.UnionVariant → Option α} : ∀ {us us' : List Ir.UnionVariant}, us'.length = us.length →
    (∀ (i : Nat) u u', us[i]? = some u → us'[i]? = some u' → g u' = g u) → us'.mapM g = us.mapM g
  | [], [], _, _ => rfl
  | [], _ :: _, h, _ => by simp at h
  | _ :: _, [], h, _ => by simp at h
  | u :: us, u' :: us', h, hg => by
    simp only [List.mapM_cons, hg 0 u u' rfl rfl,
      mapM_renamed (Nat.succ.inj h) (fun i v v' h1 h2 => hg (i + 1) v v' h1 h2)]

theorem RenamedField.kind {ρ : QIdent → QIdent → Prop} {f f' : Ir.Field} (h : RenamedField ρ f f') :
    kindOf f'.ty f'.default = kindOf f.ty f.default := by
  have hd := h.default
  have ht := h.ty
  generalize f.default = d, f'.default = d' at hd
  generalize f.ty = ty, f'.ty = ty' at ht hd
  cases ht with
  | builtin b => cases hd <;> rfl
  | string => cases hd <;> rfl
  | array ha => cases hd <;> simp only [kindOf, ha.followTy]
  | table _ => cases hd <;> rfl
  | enum hv hn =>
    cases hd with
    | none => simp only [kindOf, enumValues_renamed hv hn]
    | scalar s => simp only [kindOf, enumValues_renamed hv hn, enumDefault]
    | ident hi =>
      simp only [variantPos] at hi
      simp only [kindOf, enumValues_renamed hv hn, enumDefault, hi]
  | @union _ _ _ _ uvs uvs' hl hu =>
    have : (uvs'.mapM fun v => Gen.followTy v.ty) = uvs.mapM fun v => Gen.followTy v.ty :=
      mapM_renamed hl (fun i u u' h1 h2 => (hu i u u' h1 h2).followTy)
    cases hd with
    | none => simp only [kindOf, this]
    | scalar s => simp only [kindOf, this]
    | ident _ => simp only [kindOf, this, unionDefault]

/-- The code of a field, up to its name. -/
structure LikeField (g g' : GField) : Prop where
  slot : g'.slot = g.slot
  kind : g'.kind = g.kind
  required : g'.required = g.required

theorem compileFields_renamed {ρ : QIdent → QIdent → Prop} {gm : Mode} {fs fs' : List Ir.Field}
    (h : List.Forall₂ (RenamedField ρ) fs fs') : ∀ (i : Nat) {gs gs' : List GField}, compileFields gm i fs = some gs →
    compileFields gm i fs' = some gs' → List.Forall₂ LikeField gs gs' := by
  induction h with
  | nil =>
    intro i gs gs' h1 h2
    cases h1; cases h2; exact .nil
  | @cons f f' fs fs' hf _ ih =>
    intro i gs gs' h1 h2
    simp only [compileFields, hf.kind, Option.bind_eq_bind, Option.bind_eq_some_iff] at h1 h2
    obtain ⟨k, hk, s, hs, r, hr, e⟩ := h1
    obtain ⟨k', hk', s', hs', r', hr', e'⟩ := h2
    cases e; cases e'
    rw [hk] at hk'; cases hk'
    rw [hs] at hs'; cases hs'
    exact .cons ⟨rfl, rfl, hf.required⟩ (ih (i + 1) hr hr')

/-! ### Writing -/

theorem Renamed.below_rel {ρ : QIdent → QIdent → Prop} {t t' : Ir.Ty} (h : Renamed ρ t t') (x : Option Val) :
    Option.Rel (fun a a' => Renamed ρ a.1 a'.1 ∧ a'.2 = a.2) (Gen.below t x) (Gen.below t' x) := by
  cases x with
  | none => cases h <;> exact .none
  | some v =>
    cases h with
    | builtin b => exact .none
    | string => exact .some ⟨.string, rfl⟩
    | array h => exact .some ⟨.array h, rfl⟩
    | table h => exact .some ⟨.table h, rfl⟩
    | enum => exact .none
    | @union _ _ _ _ uvs uvs' hl hu =>
      cases v with
      | union j v =>
        simp only [Gen.below]
        by_cases hj : j < uvs.length
        · rw [List.getElem?_eq_getElem hj, List.getElem?_eq_getElem (hl ▸ hj)]
          exact .some ⟨hu j _ _ (List.getElem?_eq_getElem hj) (List.getElem?_eq_getElem (hl ▸ hj)), rfl⟩
        · rw [List.getElem?_eq_none (by omega), List.getElem?_eq_none (by omega)]
          exact .none
      | _ => exact .none

/-- Two callers write the same for types that differ in names only. -/
def WritesAlike (ρ : QIdent → QIdent → Prop) (wr wr' : Builder → Ir.Ty → Val → Res (Nat × Builder)) : Prop :=
  ∀ b ty ty' v, Renamed ρ ty ty' → wr' b ty' v = wr b ty v

theorem writeOffset_renamed {ρ : QIdent → QIdent → Prop} {wr wr' : Builder → Ir.Ty → Val → Res (Nat × Builder)}
    (hw : WritesAlike ρ wr wr') {ty ty' : Ir.Ty} (h : Renamed ρ ty ty') (b : Builder) {α : Type} (v : Val)
    (f : Fin (2 ^ 32) → α) : writeField.offset wr' b ty' v f = writeField.offset wr b ty v f := by
  simp only [writeField.offset]
  have hb := h.below_rel (some v)
  generalize Gen.below ty (some v) = p, Gen.below ty' (some v) = p' at hb
  cases hb with
  | none => rfl
  | @some a a' h =>
    obtain ⟨t, v⟩ := a
    obtain ⟨t', v'⟩ := a'
    obtain ⟨h1, h2⟩ := h
    cases h2
    simp only [hw b t t' v h1]

theorem writeField_renamed {ρ : QIdent → QIdent → Prop} {wr wr' : Builder → Ir.Ty → Val → Res (Nat × Builder)}
    (hw : WritesAlike ρ wr wr') {ty ty' : Ir.Ty} (h : Renamed ρ ty ty') (b : Builder) (k : Kind) (req : Bool)
    (x : Option Val) : writeField wr' b ty' k req x = writeField wr b ty k req x := by
  cases k <;> cases req <;> cases x <;> first
    | rfl
    | (simp only [writeField]; exact writeOffset_renamed hw h b _ _)
    | (rename_i v; cases v <;> rfl)

theorem create_renamed {gs gs' : List GField} (h : List.Forall₂ LikeField gs gs') : ∃ cv : Args gs → Args gs',
    (∀ m b as, addFields m b gs' (cv as) = addFields m b gs as) ∧
    (∀ m b o, checkRequired m b o gs' = checkRequired m b o gs) ∧
    ∀ (ρ : QIdent → QIdent → Prop) wr wr', WritesAlike ρ wr wr' → ∀ fs fs', List.Forall₂ (RenamedField ρ) fs fs' →
      ∀ b xs, writeFields wr' b fs' gs' xs = (do let p ← writeFields wr b fs gs xs; return (cv p.1, p.2)) := by
  induction h with
  | nil => exact ⟨id, fun _ _ _ => rfl, fun _ _ _ => rfl, fun _ _ _ _ _ _ _ _ _ => by simp only [writeFields]; rfl⟩
  | @cons g g' gs gs' hg _ ih =>
    obtain ⟨cv, h1, h2, h3⟩ := ih
    obtain ⟨n, s, k, r⟩ := g
    obtain ⟨n', s', k', r'⟩ := g'
    obtain ⟨e1, e2, e3⟩ := hg
    cases e1; cases e2; cases e3
    refine ⟨fun as => (as.1, cv as.2), ?_, ?_, ?_⟩
    · intro m b as
      obtain ⟨a, as⟩ := as
      simp only [addFields, h1]
    · intro m b o
      simp only [checkRequired, h2]
    · intro ρ wr wr' hw fs fs' hf b xs
      cases hf with
      | nil => cases xs <;> rfl
      | @cons f f' fs fs' hf hfs =>
        cases xs with
        | nil => rfl
        | cons x xs =>
          simp only [writeFields, writeField_renamed hw hf.ty]
          cases writeField wr b f.ty k r x with
          | ok p =>
            simp only [Res.ok_bind, h3 ρ wr wr' hw fs fs' hfs]
            cases writeFields wr p.2 fs gs xs <;> rfl
          | err e => rfl
          | panic => rfl

theorem writeAll_congr {wr wr' : Builder → Val → Res (Nat × Builder)} (h : ∀ b v, wr' b v = wr b v) (b : Builder) (xs : List Val) :
    writeAll wr' b xs = writeAll wr b xs := by
  have : wr' = wr := by funext b v; exact h b v
  rw [this]

/-- A caller that writes the same tree with the code of the other schema makes the same calls. -/
theorem writeVal_renamed {ρ : QIdent → QIdent → Prop} {gm m : Mode} {S S' : Tables} (hS : RenamedSchema ρ S S')
    (hU : ∀ q t, S q = some t → ∃ gs, compileTable gm t = some gs)
    (hU' : ∀ q t, S' q = some t → ∃ gs, compileTable gm t = some gs) : ∀ n,
    WritesAlike ρ (writeVal gm m S n) (writeVal gm m S' n)
  | 0 => fun _ _ _ _ _ => by simp only [writeVal]
  | n + 1 => by
    have ih := writeVal_renamed (m := m) hS hU hU' n
    intro b ty ty' v h
    cases h with
    | builtin b => rfl
    | string => cases v <;> rfl
    | enum => rfl
    | union => rfl
    | array h =>
      cases v with
      | vec xs =>
        cases h with
        | builtin b => rfl
        | enum hv hn => simp only [writeVal, enumValues_renamed hv hn]
        | string => simp only [writeVal, writeAll_congr (fun b v => ih b _ _ v .string)]
        | array h => simp only [writeVal, writeAll_congr (fun b v => ih b _ _ v (.array h))]
        | table h => simp only [writeVal, writeAll_congr (fun b v => ih b _ _ v (.table h))]
        | union hl hu => simp only [writeVal, writeAll_congr (fun b v => ih b _ _ v (.union hl hu))]
      | _ => cases h <;> rfl
    | @table q q' h =>
      cases v with
      | table xs =>
        have hr := hS q q' h
        simp only [writeVal]
        cases hq : S q with
        | none =>
          cases hq' : S' q' with
          | none => rfl
          | some t' => rw [hq, hq'] at hr; cases hr
        | some t =>
          cases hq' : S' q' with
          | none => rw [hq, hq'] at hr; cases hr
          | some t' =>
            rw [hq, hq'] at hr
            cases hr with | some hr =>
            obtain ⟨gs, hc⟩ := hU q t hq
            obtain ⟨gs', hc'⟩ := hU' q' t' hq'
            simp only [hc, hc']
            have hl := compileFields_renamed hr.fields 0 (compileTable_fields hc) (compileTable_fields hc')
            obtain ⟨cv, h1, h2, h3⟩ := create_renamed hl
            rw [h3 ρ _ _ ih _ _ hr.fields]
            cases writeFields (writeVal gm m S n) b t.fields gs xs with
            | ok p =>
              obtain ⟨as, b'⟩ := p
              show create m b' gs' (cv as) = create m b' gs as
              simp only [create, h1, h2]
            | err e => rfl
            | panic => rfl
      | _ => rfl

/-! ### Reading -/

/-- The same outcome, but for the name in the error that says which field is missing. -/
inductive SameOutcome {α : Type} : Res α → Res α → Prop
  | ok (a : α) : SameOutcome (.ok a) (.ok a)
  | err (e : Error) : SameOutcome (.err e) (.err e)
  | missing (name name' : String) :
      SameOutcome (.err (.requiredFieldMissing name)) (.err (.requiredFieldMissing name'))
  | panic : SameOutcome .panic .panic

theorem SameOutcome.refl {α : Type} (r : Res α) : SameOutcome r r := by cases r <;> constructor

theorem SameOutcome.bind {α β : Type} {r r' : Res α} (h : SameOutcome r r') {f f' : α → Res β}
    (hf : ∀ a, SameOutcome (f a) (f' a)) : SameOutcome (r >>= f) (r' >>= f') := by
  cases h with
  | ok a => exact hf a
  | err e => exact .err e
  | missing n n' => exact .missing n n'
  | panic => exact .panic

theorem mapAll_alike {α α' β : Type} {f : α → Res β} {f' : α' → Res β} {l : List α} {l' : List α'}
    (h : List.Forall₂ (fun x x' => SameOutcome (f x) (f' x')) l l') : SameOutcome (mapAll f l) (mapAll f' l') := by
  induction h with
  | nil => exact .ok _
  | cons h _ ih => exact h.bind fun y => ih.bind fun ys => .ok _

theorem okOr_alike {α : Type} (n n' : Str) (r : Bool) (x : Option α) : SameOutcome (okOr n r x) (okOr n' r x) := by
  cases x with
  | some x => exact .ok _
  | none => cases r <;> constructor

theorem find_alike {p p' : GField → Bool} {gs gs' : List GField} (h : List.Forall₂ LikeField gs gs') :
    gs'.findIdx? p' = gs.findIdx? p → Option.Rel LikeField (gs.find? p) (gs'.find? p') := by
  induction h with
  | nil => intro _; exact .none
  | @cons g g' gs gs' hg _ ih =>
    intro e
    rw [List.findIdx?_cons, List.findIdx?_cons] at e
    rw [List.find?_cons, List.find?_cons]
    cases hp : p g <;> cases hp' : p' g' <;> simp only [hp, hp', Bool.false_eq_true, if_true, if_false] at e ⊢
    · exact ih (Option.map_injective (fun _ _ h => Nat.succ.inj h) e)
    · exfalso; cases h : gs.findIdx? p <;> simp [h] at e
    · exfalso; cases h : gs'.findIdx? p' <;> simp [h] at e
    · exact .some hg

theorem findIdx_compiled {fs : List Ir.Field} {gs : List GField} (h : List.Forall₂ Compiled fs gs) (name : Str) :
    gs.findIdx? (fun g => g.name == name) = fs.findIdx? (fun f => Heck.snake f.ident == name) := by
  induction h with
  | nil => rfl
  | cons h _ ih => rw [List.findIdx?_cons, List.findIdx?_cons, ih, h.name]

theorem tagOf_alike {m : Mode} {tb : Butte.Table} {gs gs' : List GField} (h : List.Forall₂ LikeField gs gs') {n n' : Str}
    (hi : gs'.findIdx? (fun g => g.name == n' ++ c!"_type") = gs.findIdx? (fun g => g.name == n ++ c!"_type")) :
    SameOutcome (tagOf m tb gs n) (tagOf m tb gs' n') := by
  have hf := find_alike h hi
  simp only [tagOf]
  generalize gs.find? (fun g => g.name == n ++ c!"_type") = a, gs'.find? (fun g => g.name == n' ++ c!"_type") = a' at hf
  cases hf with
  | none => exact .panic
  | @some g g' hg =>
    obtain ⟨n, s, k, r⟩ := g
    obtain ⟨n', s', k', r'⟩ := g'
    obtain ⟨e1, e2, e3⟩ := hg
    cases e1; cases e2; cases e3
    cases k with
    | enum ty vals d => exact (SameOutcome.refl _).bind fun x => okOr_alike n n' r x
    | _ => exact .panic

theorem fetch_alike {m : Mode} {tb : Butte.Table} {s : Nat} {tag tag' : Res (Option Nat)} (k : Kind)
    (h : (∃ vs, k = .union vs) → SameOutcome tag tag') : SameOutcome (k.fetch m tb s tag) (k.fetch m tb s tag') := by
  cases k with
  | union vs => exact (h ⟨vs, rfl⟩).bind fun _ => .refl _
  | _ => exact .refl _

theorem readKind_alike {ρ : QIdent → QIdent → Prop} {rd rd' : Ir.Ty → (f : FTy) → f.Inner → Res Val}
    (hr : ∀ ty ty' f x, Renamed ρ ty ty' → SameOutcome (rd ty f x) (rd' ty' f x)) {ty ty' : Ir.Ty} (h : Renamed ρ ty ty')
    (k : Kind) (x : k.Inner) : SameOutcome (readKind rd ty k x) (readKind rd' ty' k x) := by
  cases k with
  | scalar t d => exact .refl _
  | enum t vals d => exact .refl _
  | ref f => exact hr ty ty' (.fwdU f) x h
  | union vs =>
    obtain ⟨i, x⟩ := x
    cases h with
    | @union _ _ _ _ uvs uvs' hl hu =>
      simp only [readKind]
      by_cases hi : i.val < uvs.length
      · rw [List.getElem?_eq_getElem hi, List.getElem?_eq_getElem (hl ▸ hi)]
        exact (hr _ _ _ x (hu i.val _ _ (List.getElem?_eq_getElem hi) (List.getElem?_eq_getElem (hl ▸ hi)))).bind fun _ => .refl _
      · rw [List.getElem?_eq_none (by omega), List.getElem?_eq_none (by omega)]
        exact .panic
    | _ => exact .panic

theorem readField_alike {ρ : QIdent → QIdent → Prop} {rd rd' : Ir.Ty → (f : FTy) → f.Inner → Res Val}
    (hr : ∀ ty ty' f x, Renamed ρ ty ty' → SameOutcome (rd ty f x) (rd' ty' f x)) {ty ty' : Ir.Ty} (h : Renamed ρ ty ty')
    (k : Kind) {x x' : Res (Option k.Inner)} (hx : SameOutcome x x') :
    SameOutcome (readField rd ty k x) (readField rd' ty' k x') := by
  refine hx.bind fun y => ?_
  cases y with
  | none => exact .ok _
  | some y => exact (readKind_alike hr h k y).bind fun _ => .refl _

/-- A caller that reads everything with the code of the other schema gets the same, from whatever bytes. -/
theorem readVal_renamed {ρ : QIdent → QIdent → Prop} {gm m : Mode} {S S' : Tables} (hS : RenamedSchema ρ S S')
    (hU : ∀ q t, S q = some t → ∃ gs, compileTable gm t = some gs)
    (hU' : ∀ q t, S' q = some t → ∃ gs, compileTable gm t = some gs) : ∀ n ty ty' f x, Renamed ρ ty ty' →
    SameOutcome (readVal gm m S n ty f x) (readVal gm m S' n ty' f x)
  | 0, ty, ty', f, x, _ => by cases ty <;> cases ty' <;> simp only [readVal] <;> exact .panic
  | n + 1, ty, ty', f, x, h => by
    have ih := readVal_renamed (m := m) hS hU hU' n
    cases h with
    | builtin b => cases f <;> exact .refl _
    | string =>
      cases f with
      | fwdU f => cases f <;> exact .refl _
      | _ => exact .refl _
    | enum => cases f <;> exact .refl _
    | union => exact .refl _
    | @array t t' h =>
      cases f with
      | fwdU f =>
        cases f with
        | vector e =>
          refine (SameOutcome.refl _).bind fun len => ?_
          refine SameOutcome.bind ?_ fun _ => .refl _
          refine mapAll_alike ?_
          refine List.forall₂_same.mpr fun i _ => ?_
          exact (SameOutcome.refl _).bind fun x => ih t t' e x h
        | _ => exact .refl _
      | _ => exact .refl _
    | @table q q' h =>
      cases f with
      | fwdU f =>
        cases f with
        | table =>
          have hr := hS q q' h
          simp only [readVal]
          cases hq : S q with
          | none =>
            cases hq' : S' q' with
            | none => exact .panic
            | some t' => rw [hq, hq'] at hr; cases hr
          | some t =>
            cases hq' : S' q' with
            | none => rw [hq, hq'] at hr; cases hr
            | some t' =>
              rw [hq, hq'] at hr
              cases hr with | some hr =>
              obtain ⟨gs, hc⟩ := hU q t hq
              obtain ⟨gs', hc'⟩ := hU' q' t' hq'
              simp only [hc, hc']
              have hlk := compileFields_renamed hr.fields 0 (compileTable_fields hc) (compileTable_fields hc')
              have hlen := hlk.length_eq
              have hsp := compileFields_spec (compileTable_fields hc)
              have hsp' := compileFields_spec (compileTable_fields hc')
              refine SameOutcome.bind (mapAll_alike (List.forall₂_iff_get.mpr ⟨by simp [hlen], ?_⟩)) fun _ => .refl _
              intro i h1 h2
              have hi : i < gs.length := by simpa using h1
              have hi' : i < gs'.length := by simpa using h2
              have e1 : (List.finRange gs.length).get ⟨i, h1⟩ = ⟨i, hi⟩ := by simp
              have e2 : (List.finRange gs'.length).get ⟨i, h2⟩ = ⟨i, hi'⟩ := by simp
              rw [e1, e2]
              have hif : i < t.fields.length := by rw [hsp.length_eq]; exact hi
              have hif' : i < t'.fields.length := by rw [hsp'.length_eq]; exact hi'
              have hF := (List.forall₂_iff_get.mp hr.fields).2 i hif hif'
              have hG := (List.forall₂_iff_get.mp hlk).2 i hi hi'
              have hC := (List.forall₂_iff_get.mp hsp).2 i hif hi
              have hC' := (List.forall₂_iff_get.mp hsp').2 i hif' hi'
              have hT := hr.tags i _ _ (List.getElem?_eq_getElem hif) (List.getElem?_eq_getElem hif')
              simp only [List.getElem?_eq_getElem hif, List.getElem?_eq_getElem hif']
              simp only [List.get_eq_getElem] at hF hG hC hC' ⊢
              generalize t.fields[i] = f, t'.fields[i] = f' at hF hC hC' hT
              generalize gs[i] = g, gs'[i] = g' at hG hC hC'
              obtain ⟨nm, s, k, r⟩ := g
              obtain ⟨nm', s', k', r'⟩ := g'
              obtain ⟨e1, e2, e3⟩ := hG
              cases e1; cases e2; cases e3
              refine readField_alike ih hF.ty k ?_
              refine SameOutcome.bind (fetch_alike k ?_) fun y => okOr_alike nm nm' r y
              rintro ⟨vs, rfl⟩
              refine tagOf_alike hlk ?_
              have hu : f.ty.isUnion = true := by
                obtain ⟨_, _, _, e, _⟩ := kindOf_union hC.kind
                rw [e]; rfl
              have := hT hu
              rw [findIdx_compiled hsp, findIdx_compiled hsp']
              have e1 : nm = Heck.snake f.ident := hC.name
              have e2 : nm' = Heck.snake f'.ident := hC'.name
              rw [e1, e2]; exact this
        | _ => exact .refl _
      | _ => exact .refl _

end Butte.Gen

namespace Butte.Format
open Ir (QIdent)
open Gen

/-! ### The format -/

/-- Numbers and defaults do not depend on names. -/
structure Nameless (D : Dialect) : Prop where
  numbers : ∀ vs vs' : List Ir.EnumVariant, vs'.map (·.value) = vs.map (·.value) → D.numbers vs' = D.numbers vs
  absent : ∀ ρ f f', RenamedField ρ f f' → D.absent f' = D.absent f

theorem Nameless.limit {D : Dialect} (h : Nameless D) (p : Prop) : Nameless (D.limit p) := ⟨h.numbers, h.absent⟩

theorem numbersFrom_renamed : ∀ {vs vs' : List Ir.EnumVariant} (n : Int), vs'.map (·.value) = vs.map (·.value) →
    numbersFrom n vs' = numbersFrom n vs
  | [], [], _, _ => rfl
  | [], _ :: _, _, h => by simp at h
  | _ :: _, [], _, h => by simp at h
  | v :: vs, v' :: vs', n, h => by
    simp only [List.map_cons, List.cons.injEq] at h
    simp only [numbersFrom, h.1, numbersFrom_renamed _ h.2]

theorem nameless_flatbuffers : Nameless flatbuffers where
  numbers _ _ h := numbersFrom_renamed 0 h
  absent ρ f f' h := by
    have hd := h.default
    have ht := h.ty
    simp only [flatbuffers]
    generalize f.default = d, f'.default = d' at hd
    generalize f.ty = ty, f'.ty = ty' at ht hd
    cases ht with
    | enum hv hn =>
      cases hd with
      | none => simp only [numbersFrom_renamed 0 hv]
      | scalar s => rfl
      | ident hi => simp only [variantPos] at hi; simp only [hi]
    | _ => cases hd <;> rfl

theorem nameless_generated : Nameless generated where
  numbers vs vs' h := by
    have e : ∀ us : List Ir.EnumVariant, (us.mapIdx fun i v => v.value.getD (i : Int)) =
        (us.map (·.value)).mapIdx fun i v => v.getD (i : Int) := by
      intro us
      apply List.ext_getElem?
      intro i
      simp only [List.getElem?_mapIdx, List.getElem?_map, Option.map_map]
      rfl
    show vs'.mapIdx _ = vs.mapIdx _
    rw [e, e, h]
  absent ρ f f' h := by
    have hd := h.default
    have ht := h.ty
    simp only [generated]
    generalize f.default = d, f'.default = d' at hd
    generalize f.ty = ty, f'.ty = ty' at ht hd
    cases ht with
    | enum hv hn =>
      cases hd with
      | none => rfl
      | scalar s => rfl
      | ident hi => simp only [variantPos] at hi; simp only [hi]
    | _ => cases hd <;> rfl

theorem IsRef.renamed {ρ : QIdent → QIdent → Prop} {t t' : Ir.Ty} (h : Renamed ρ t t') (hr : IsRef t) : IsRef t' := by
  cases hr <;> cases h <;> constructor

theorem FieldAt.renamed {ρ : QIdent → QIdent → Prop} {D : Dialect} (hD : Nameless D) {buf : Bytes} {loc tsize : Nat}
    {sel sel' : Option Nat} {f f' : Ir.Field} (h : RenamedField ρ f f') (hs : f.ty.isUnion = true → sel' = sel) {e o : Nat}
    {x : Option Val} (hf : FieldAt D buf loc tsize sel f e o x) : FieldAt D buf loc tsize sel' f' e o x := by
  have ht' := h.ty
  cases hf with
  | absent h0 => rw [← hD.absent ρ f f' h]; exact .absent h0
  | scalar ht hi hn =>
    rw [ht] at ht'
    generalize hty : f'.ty = ty' at ht'
    cases ht'; exact .scalar hty hi hn
  | enum ht hi hn =>
    rw [ht] at ht'
    generalize hty : f'.ty = ty' at ht'
    cases ht' with
    | enum hv _ =>
      obtain ⟨n, h1, h2⟩ := hn
      exact .enum hty hi ⟨n, by rw [hD.numbers _ _ hv]; exact h1, h2⟩
  | ref ht hi ho => exact .ref (ht.renamed ht') hi ho
  | union ht hs' hu hr hi ho =>
    rw [hs (by rw [ht]; rfl)]
    rw [ht] at ht'
    generalize hty : f'.ty = ty' at ht'
    cases ht' with
    | union hl hu' =>
      have hj := (List.getElem?_eq_some_iff.mp hu).1
      have hj' := List.getElem?_eq_getElem (hl ▸ hj)
      exact .union hty hs' hj' (hr.renamed (hu' _ _ _ hu hj')) hi ho
  | unionNone ht hs' hi =>
    rw [hs (by rw [ht]; rfl)]
    rw [ht] at ht'
    generalize hty : f'.ty = ty' at ht'
    cases ht'
    exact .unionNone hty hs' hi

theorem Holds.renamed {ρ : QIdent → QIdent → Prop} {D : Dialect} (hD : Nameless D) {S S' : Tables}
    (hS : RenamedSchema ρ S S') {buf : Bytes} {ty : Ir.Ty} {v : Val} {loc : Nat} (h : Holds D S buf ty v loc) :
    ∀ ty', Renamed ρ ty ty' → Holds D S' buf ty' v loc := by
  induction h with
  | string ha hl hb => rintro _ ⟨⟩; exact .string ha hl hb
  | scalars ha hw hl hx => rintro _ (_ | _ | ⟨⟨⟩⟩); exact .scalars ha hw hl hx
  | enums ha hw hl hx =>
    rintro _ (_ | _ | h)
    cases h with
    | enum hv _ =>
      refine .enums ha hw hl (fun i hi => ?_)
      obtain ⟨n, h1, h2⟩ := hx i hi
      exact ⟨n, by rw [hD.numbers _ _ hv]; exact h1, h2⟩
  | offsets hR ha hl hlen ho hx ih =>
    rintro _ (_ | _ | h)
    exact .offsets (hR.renamed h) ha hl hlen ho (fun i o x h1 h2 => ih i o x h1 h2 _ h)
  | @table q t xs es os loc vt vsize tsize hq hh hlen hes hos he hf hreq hx hex ih =>
    intro ty' hty
    cases hty with
    | @table _ q' hρ =>
      have hr := hS q q' hρ
      rw [hq] at hr
      generalize hq' : S' q' = o at hr
      cases hr with | @some _ t' hr =>
      have hl := hr.fields.length_eq
      refine .table (es := es) (os := os) hq' hh (by omega) (by omega) (by omega) he ?_ ?_ ?_ (fun h i hi => hex h i (by omega))
      · intro i f' e o x h1' h2 h3 h4
        obtain ⟨f, h1, hw⟩ := hr.back h1'
        refine (hf i f e o x h1 h2 h3 h4).renamed hD hw (fun hu => ?_)
        have := hr.tags i f f' h1 h1' hu
        simp only [tagPos] at this
        simp only [selector, this]
      · intro i f' x h1' h2 h3
        obtain ⟨f, h1, hw⟩ := hr.back h1'
        exact hreq i f x h1 h2 (by rw [← hw.required]; exact h3)
      · intro i f' e o x ty' v h1' h2 h3 h4 h5
        obtain ⟨f, h1, hw⟩ := hr.back h1'
        have hb := hw.ty.below_rel x
        rw [h5] at hb
        generalize h6 : Gen.below f.ty x = p at hb
        cases hb with | @some a _ hb =>
        obtain ⟨ty, v₀⟩ := a
        obtain ⟨h7, h8⟩ := hb
        simp only at h7 h8
        subst h8
        exact ih i f e o x ty _ h1 h2 h3 h4 h6 _ h7

theorem Message.renamed {ρ : QIdent → QIdent → Prop} {D : Dialect} (hD : Nameless D) {S S' : Tables}
    (hS : RenamedSchema ρ S S') {sp : Bool} {ident : Option Bytes} {q q' : QIdent} (hq : ρ q q') {v : Val} {buf : Bytes}
    (h : Message D S sp ident q v buf) : Message D S' sp ident q' v buf := by
  obtain ⟨o, ho, hr⟩ := h.root
  exact ⟨h.size, h.ident, o, ho, hr.renamed hD hS _ (.table hq)⟩

end Butte.Format
