import Verif.Gen.WriteOk
import Verif.Gen.Untrusted
import Verif.Gen.FormatWrite
/-
Copying a message: what the accessors return, given to the generated `create` functions. Nothing here models code.
-/
namespace Butte.Gen
open Ir (QIdent)

/-! ### What a caller who copies passes on -/

/-- What a field holds and what a caller who copies it gives to `create`: what the accessor returned, and for a scalar or enum
for which it returned `None` the `Default` of the type (there is no way to leave it out). -/
inductive FillField : Kind → Option Val → Option Val → Prop
  | unsetScalar (t : STy) : FillField (.scalar t none) none (some (.bits 0))
  | unsetEnum (t : STy) (vals : List (SVal t)) : FillField (.enum t vals none) none (some (.variant 0))
  | scalar (t : STy) (d : Option (SVal t)) (n : Nat) : FillField (.scalar t d) (some (.bits n)) (some (.bits n))
  | enum (t : STy) (vals : List (SVal t)) (d : Option (Fin vals.length)) (i : Nat) :
      FillField (.enum t vals d) (some (.variant i)) (some (.variant i))
  | noRef (F : FTy) : FillField (.ref F) none none
  | ref (F : FTy) (v w : Val) : FillField (.ref F) (some v) (some w)
  | noUnion (vs : List FTy) : FillField (.union vs) none none
  | union (vs : List FTy) (j : Nat) (hj : j < vs.length) (v w : Val) : FillField (.union vs) (some (.union j v)) (some (.union j w))

/-- `w` is `v` with all scalar and enum fields set. -/
inductive Filled (gm : Mode) (S : Tables) : Ir.Ty → Val → Val → Prop
  | bits (b : Ast.Builtin) (n : Nat) : Filled gm S (.builtin b) (.bits n) (.bits n)
  | variant (id : QIdent) (vs : List Ir.EnumVariant) (b : Ir.EnumBase) (i : Nat) :
      Filled gm S (.enum id vs b) (.variant i) (.variant i)
  | string (s : String) : Filled gm S .string (.str s) (.str s)
  | vec {t : Ir.Ty} {xs ys : List Val} (hl : ys.length = xs.length)
      (h : ∀ (i : Nat) x y, xs[i]? = some x → ys[i]? = some y → Filled gm S t x y) : Filled gm S (.array t) (.vec xs) (.vec ys)
  | table {q : QIdent} {t : Ir.Table} {gs : List GField} (hq : S q = some t) (hc : compileTable gm t = some gs)
      {xs ys : List (Option Val)} (hx : xs.length = gs.length) (hy : ys.length = gs.length)
      (hk : ∀ (i : Nat) g x y, gs[i]? = some g → xs[i]? = some x → ys[i]? = some y → FillField g.kind x y)
      (h : ∀ (i : Nat) f x y ty v w, t.fields[i]? = some f → xs[i]? = some x → ys[i]? = some y →
        below f.ty x = some (ty, v) → below f.ty y = some (ty, w) → Filled gm S ty v w) :
      Filled gm S (.table q) (.table xs) (.table ys)

/-- No scalar or enum field has both a default and `required` (C35: `create` panics if such a field is given its default). -/
def RequiredUndefaulted (S : Tables) : Prop := ∀ q t, S q = some t → ∀ f ∈ t.fields, f.required = true →
  (match f.ty with | .builtin _ | .enum .. => True | _ => False) → f.default = none

/-- The members of unions are strings, vectors and tables, which is what an offset can lead to. -/
def MembersBehindOffsets (S : Tables) : Prop := ∀ q t, S q = some t → ∀ f ∈ t.fields, ∀ id e uvs, f.ty = .union id e uvs →
  ∀ u ∈ uvs, Format.IsRef u.ty

/-- The tables are small enough for `create`: not too many fields, and 64 KiB hold all of them. -/
def Fitting (gm : Mode) (S : Tables) : Prop := ∀ q t gs, S q = some t → compileTable gm t = some gs →
  t.fields.length ≤ 32765 ∧ roomFor gs + 7 < 65536

/-! ### Lists -/

theorem mapAll_inv {α β : Type} {f : α → Res β} : ∀ {l : List α} {ys : List β}, mapAll f l = .ok ys →
    ys.length = l.length ∧ ∀ (i : Nat) x y, l[i]? = some x → ys[i]? = some y → f x = .ok y
  | [], ys, h => by cases h; exact ⟨rfl, fun i x y hx => by cases hx⟩
  | x :: l, ys, h => by
    unfold mapAll at h
    obtain ⟨y, h1, h⟩ := Res.bind_eq_ok.mp h
    obtain ⟨zs, h2, h⟩ := Res.bind_eq_ok.mp h
    cases h
    obtain ⟨a, b⟩ := mapAll_inv h2
    refine ⟨by simp [a], fun i u v hu hv => ?_⟩
    cases i with
    | zero => cases hu; cases hv; exact h1
    | succ i => exact b i u v (by simpa using hu) (by simpa using hv)

theorem list_choice {α : Type} (P : Nat → α → Prop) : ∀ (n : Nat), (∀ i, i < n → ∃ a, P i a) →
    ∃ l : List α, l.length = n ∧ ∀ (i : Nat) a, l[i]? = some a → P i a
  | 0, _ => ⟨[], rfl, fun i a h => by cases h⟩
  | n + 1, h => by
    obtain ⟨l, h1, h2⟩ := list_choice P n fun i hi => h i (by omega)
    obtain ⟨a, ha⟩ := h n (by omega)
    refine ⟨l ++ [a], by simp [h1], fun i b hb => ?_⟩
    rw [List.getElem?_append] at hb
    split at hb
    · exact h2 i b hb
    · rename_i hi
      have : i - l.length = 0 := by
        by_contra hne
        rw [List.getElem?_eq_none (by simp; omega)] at hb
        cases hb
      have hin : i = n := by omega
      subst hin
      rw [this] at hb
      cases hb
      exact ha

/-! ### Fields -/

theorem kindOf_scalar {ty : Ir.Ty} {d : Option Ast.DefaultValue} {t : STy} {dv : Option (SVal t)}
    (h : kindOf ty d = some (.scalar t dv)) : (∃ b, ty = .builtin b) ∧ (d = none → dv = none) := by
  cases ty with
  | builtin b =>
    refine ⟨⟨b, rfl⟩, fun hd => ?_⟩
    subst hd
    cases h
    rfl
  | enum id vs b => obtain ⟨xs, d', h1, _⟩ := kindOf_enum h; cases h1
  | union id e uvs =>
    obtain ⟨_, fs, _, h2⟩ := kindOf_union_iff.mp h
    cases h2
  | struct => cases h
  | string => cases d <;> cases h
  | table => cases d <;> cases h
  | array t =>
    cases d with
    | none =>
      simp only [kindOf, Option.bind_eq_bind, Option.bind_eq_some_iff] at h
      obtain ⟨e, _, h⟩ := h
      cases h
    | some => cases h

theorem kindOf_enum' {ty : Ir.Ty} {d : Option Ast.DefaultValue} {t : STy} {vals : List (SVal t)} {dv : Option (Fin vals.length)}
    (h : kindOf ty d = some (.enum t vals dv)) :
    (∃ id vs b, ty = .enum id vs b) ∧ 0 < vals.length ∧ (d = none → dv = none) := by
  cases ty with
  | builtin b =>
    cases d with
    | none => cases h
    | some d =>
      cases d with
      | ident => cases h
      | scalar s =>
        simp only [kindOf, Option.bind_eq_bind, Option.bind_eq_some_iff] at h
        obtain ⟨e, _, h⟩ := h
        cases h
  | enum id vs b =>
    obtain ⟨xs, d', h1, h2, h3, h4⟩ := kindOf_enum h
    cases h1
    refine ⟨⟨id, vs, b, rfl⟩, ?_, fun hd => h4.mpr hd⟩
    unfold enumValues at h2
    simp only [Option.bind_eq_bind, Option.bind_eq_some_iff] at h2
    obtain ⟨ys, h5, h6⟩ := h2
    split at h6
    · cases h6
    · rename_i hne
      cases h6
      cases vs with
      | nil => simp at hne
      | cons v vs =>
        simp only [variantValues, Option.bind_eq_bind, Option.bind_eq_some_iff] at h5
        obtain ⟨_, _, _, _, h5⟩ := h5
        cases h5
        simp
  | union id e uvs =>
    obtain ⟨_, fs, _, h2⟩ := kindOf_union_iff.mp h
    cases h2
  | struct => cases h
  | string => cases d <;> cases h
  | table => cases d <;> cases h
  | array t =>
    cases d with
    | none =>
      simp only [kindOf, Option.bind_eq_bind, Option.bind_eq_some_iff] at h
      obtain ⟨e, _, h⟩ := h
      cases h
    | some => cases h

theorem get_none {m : Mode} {tbl : Butte.Table} {f : FTy} {slot : Nat} {d : Option f.Inner} (h : tbl.get m f slot d = .ok none) :
    d = none := by
  unfold Table.get at h
  obtain ⟨vt, _, h⟩ := Res.bind_eq_ok.mp h
  obtain ⟨vo, h2, h⟩ := Res.bind_eq_ok.mp h
  cases vo with
  | none => exact Res.ok.inj h
  | some o =>
    simp only at h
    split at h
    · exact Res.ok.inj h
    · obtain ⟨l, h3, h⟩ := Res.bind_eq_ok.mp h
      obtain ⟨y, h4, h⟩ := Res.bind_eq_ok.mp h
      cases h

theorem okOr_ok {α : Type} {name : Str} {req : Bool} {x y : Option α} (h : okOr name req x = .ok y) :
    x = y ∧ (req = true → y ≠ none) := by
  unfold okOr at h
  split at h
  · cases h; exact ⟨rfl, by simp⟩
  · split at h
    · cases h
    · rename_i hr
      cases h
      exact ⟨rfl, fun h => absurd h hr⟩

/-- What the accessor of a field returns, as a value: the part that the field itself tells. -/
theorem accessor_kind {m : Mode} {gs : List GField} {tbl : Butte.Table}
    (i : Fin gs.length) {y : Option (gs.get i).kind.Inner} (h : accessor m tbl gs (gs.get i) = .ok y) :
    ((gs.get i).required = true → y ≠ none) ∧
    (∀ sty d, (gs.get i).kind = .scalar sty d → y = none → d = none) ∧
    (∀ sty vals d, (gs.get i).kind = .enum sty vals d → y = none → d = none) := by
  unfold accessor at h
  obtain ⟨x, h1, h2⟩ := Res.bind_eq_ok.mp h
  obtain ⟨rfl, h3⟩ := okOr_ok h2
  refine ⟨h3, ?_, ?_⟩
  · clear h2 h3 h
    generalize tagOf m tbl gs (gs.get i).name = tag at h1
    generalize gs.get i = g at *
    obtain ⟨_, slot, k, _⟩ := g
    intro sty d hk hx
    simp only at hk
    subst hk hx
    exact get_none (f := .scalar sty) h1
  · clear h2 h3 h
    generalize tagOf m tbl gs (gs.get i).name = tag at h1
    generalize gs.get i = g at *
    obtain ⟨_, slot, k, _⟩ := g
    intro sty vals d hk hx
    simp only at hk
    subst hk hx
    have := get_none (f := enumFTy sty vals) h1
    cases d with
    | none => rfl
    | some => cases this

theorem accessor_enum_lt {m : Mode} {gs : List GField} {tbl : Butte.Table} (i : Fin gs.length) {sty : STy} {vals : List (SVal sty)}
    {d : Option (Fin vals.length)} (hk : (gs.get i).kind = .enum sty vals d) {S : Tables} {gm : Mode} {n : Nat} {ty : Ir.Ty} {x : Option Val}
    (h : readField (readVal gm m S n) ty (gs.get i).kind (accessor m tbl gs (gs.get i)) = .ok x) :
    x = none ∨ ∃ j, x = some (.variant j) ∧ j < vals.length := by
  unfold readField at h
  obtain ⟨y, h1, h⟩ := Res.bind_eq_ok.mp h
  unfold accessor at h1
  generalize tagOf m tbl gs (gs.get i).name = tag at h1
  generalize gs.get i = g at *
  obtain ⟨_, slot, k, _⟩ := g
  simp only at hk
  subst hk
  obtain ⟨z, h2, h3⟩ := Res.bind_eq_ok.mp h1
  obtain ⟨rfl, _⟩ := okOr_ok h3
  cases z with
  | none => cases h; exact .inl rfl
  | some z =>
    cases h
    exact .inr ⟨z, rfl, get_enum_lt h2⟩

/-- A union value comes with its tag. -/
theorem accessor_union_tag {m : Mode} {gs : List GField} {tbl : Butte.Table} (i : Fin gs.length) {vs : List FTy}
    (hk : (gs.get i).kind = .union vs) {S : Tables} {gm : Mode} {n : Nat} {ty : Ir.Ty} {x : Val}
    (h : readField (readVal gm m S n) ty (gs.get i).kind (accessor m tbl gs (gs.get i)) = .ok (some x)) :
    ∃ (j : Fin vs.length) (id e : QIdent) (uvs : List Ir.UnionVariant) (u : Ir.UnionVariant) (z : (vs.get j).Inner) (v : Val),
      tagOf m tbl gs (gs.get i).name = .ok (some (j.val + 1)) ∧ ty = .union id e uvs ∧ uvs[j.val]? = some u ∧
      readVal gm m S n u.ty (vs.get j) z = .ok v ∧ x = .union j.val v := by
  unfold readField at h
  obtain ⟨y, h1, h⟩ := Res.bind_eq_ok.mp h
  unfold accessor at h1
  generalize tagOf m tbl gs (gs.get i).name = tag at *
  generalize gs.get i = g at *
  obtain ⟨_, slot, k, _⟩ := g
  simp only at hk
  subst hk
  obtain ⟨z, h2, h3⟩ := Res.bind_eq_ok.mp h1
  obtain ⟨rfl, _⟩ := okOr_ok h3
  cases z with
  | none => cases h
  | some z =>
    obtain ⟨w, h4, h5⟩ := Res.bind_eq_ok.mp h
    cases h5
    obtain ⟨k, hk, h2⟩ := Res.bind_eq_ok.mp h2
    match k with
    | none => cases h2
    | some 0 => cases h2
    | some (j + 1) =>
      simp only at h2
      split at h2
      · rename_i hj
        obtain ⟨r, _, h2⟩ := Res.bind_eq_ok.mp h2
        cases r with
        | none => cases h2
        | some r =>
          cases h2
          unfold readKind at h4
          cases ty with
          | union id e uvs =>
            simp only at h4
            cases hu : uvs[j]? with
            | none => rw [hu] at h4; cases h4
            | some u =>
              rw [hu] at h4
              obtain ⟨v, h6, h7⟩ := Res.bind_eq_ok.mp h4
              cases h7
              exact ⟨⟨j, hj⟩, id, e, uvs, u, r, v, hk, rfl, hu, h6, rfl⟩
          | _ => cases h4
      · cases h2

theorem tagValue_get : ∀ {gs : List GField} {ys : List (Option Val)} {name : Str}, ys.length = gs.length → (gs.map (·.name)).Nodup →
    ∀ (j : Nat) g y, gs[j]? = some g → ys[j]? = some y → g.name = name ++ c!"_type" → tagValue gs ys name = g.kind.variantOf y
  | [], ys, name, _, _, j, g, y, hg, _, _ => by cases hg
  | g₀ :: gs, y₀ :: ys, name, hl, hn, j, g, y, hg, hy, he => by
    simp only [List.map_cons, List.nodup_cons] at hn
    unfold tagValue
    cases j with
    | zero =>
      cases hg; cases hy
      rw [if_pos he]
    | succ j =>
      simp only [List.getElem?_cons_succ] at hg hy
      rw [if_neg ?_]
      · exact tagValue_get (by simpa using hl) hn.2 j g y hg hy he
      · intro h0
        exact hn.1 (List.mem_map.mpr ⟨g, List.mem_of_getElem? hg, by rw [he, h0]⟩)
  | g₀ :: gs, [], name, hl, _, _, _, _, _, _, _ => by cases hl

theorem vals_of_variants {n : Nat} : ∀ {xs : List Val}, (∀ x ∈ xs, ∃ i, x = .variant i ∧ i < n) →
    ∃ items : List (Fin n), xs = items.map fun x => .variant x.val
  | [], _ => ⟨[], rfl⟩
  | x :: xs, h => by
    obtain ⟨i, rfl, hi⟩ := h x List.mem_cons_self
    obtain ⟨items, hs⟩ := vals_of_variants fun y hy => h y (List.mem_cons_of_mem _ hy)
    exact ⟨⟨i, hi⟩ :: items, by rw [hs]; rfl⟩

theorem vals_of_bits {t : STy} : ∀ {xs : List Val}, (∀ x ∈ xs, ∃ i, x = .bits i ∧ i < t.card) →
    ∃ items : List (SVal t), xs = items.map fun x => .bits x.val
  | [], _ => ⟨[], rfl⟩
  | x :: xs, h => by
    obtain ⟨i, rfl, hi⟩ := h x List.mem_cons_self
    obtain ⟨items, hs⟩ := vals_of_bits (t := t) fun y hy => h y (List.mem_cons_of_mem _ hy)
    exact ⟨(⟨i, hi⟩ : Fin t.card) :: items, by rw [hs]; rfl⟩

theorem vecGet_follow {m : Mode} {e : FTy} {x : Vec e} {i : Nat} {z : e.Inner} (h : Vec.get m x i = .ok z) :
    ∃ l, e.follow m x.buf l = .ok z := by
  have key : ∀ {y : Res e.Inner}, (do
      debugAssert m (decide (0 < e.size))
      let a ← addU m x.loc 4
      let b ← mulU m e.size i
      let l ← addU m a b
      e.follow m x.buf l) = y → y = .ok z → ∃ l, e.follow m x.buf l = .ok z := by
    intro y hy h
    subst hy
    obtain ⟨_, _, h⟩ := Res.bind_eq_ok.mp h
    obtain ⟨_, _, h⟩ := Res.bind_eq_ok.mp h
    obtain ⟨_, _, h⟩ := Res.bind_eq_ok.mp h
    obtain ⟨l, _, h⟩ := Res.bind_eq_ok.mp h
    exact ⟨l, h⟩
  unfold Vec.get at h
  simp only at h
  split at h
  · obtain ⟨_, _, h⟩ := Res.bind_eq_ok.mp h
    obtain ⟨_, _, h⟩ := Res.bind_eq_ok.mp h
    exact key rfl h
  · exact key rfl h

theorem follow_enum_lt {m : Mode} {t : STy} {vals : List (SVal t)} {buf : Bytes} {l : Nat} {i : Nat}
    (h : (enumFTy t vals).follow m buf l = .ok i) : i < vals.length := by
  unfold enumFTy FTy.follow at h
  obtain ⟨z, _, h4⟩ := Res.bind_eq_ok.mp h
  unfold enumTryFrom at h4
  split at h4
  · rename_i j hj
    cases h4
    have := (List.findIdx?_eq_some_iff_getElem.mp hj).1
    simpa using this
  · cases h4

theorem field_copy {gm : Mode} {S : Tables} {rd : Ir.Ty → (f : FTy) → f.Inner → Res Val}
    (ih : ∀ (ty : Ir.Ty) (F : FTy) (x : F.Inner) (v : Val), followTy ty = some (.fwdU F) → rd ty (.fwdU F) x = .ok v →
      ∃ w k, Filled gm S ty v w ∧ Conforms gm S ty w k)
    {ty : Ir.Ty} {d : Option Ast.DefaultValue} {k : Kind} (hk : kindOf ty d = some k)
    (hm : ∀ id e uvs, ty = .union id e uvs → ∀ u ∈ uvs, Format.IsRef u.ty) {res : Res (Option k.Inner)} {v : Option Val}
    (hr : readField rd ty k res = .ok v)
    (h1 : ∀ sty d, k = .scalar sty d → res = .ok none → d = none)
    (h2 : ∀ sty vals d, k = .enum sty vals d → res = .ok none → d = none) :
    ∃ p : Option Val × Nat, FillField k v p.1 ∧
      (∀ ty' a b, below ty v = some (ty', a) → below ty p.1 = some (ty', b) → Filled gm S ty' a b) ∧
      ∀ ty' b, below ty p.1 = some (ty', b) → Conforms gm S ty' b p.2 := by
  unfold readField at hr
  obtain ⟨y, hy, hr⟩ := Res.bind_eq_ok.mp hr
  cases k with
  | scalar sty dv =>
    obtain ⟨⟨b, rfl⟩, _⟩ := kindOf_scalar hk
    have hn : ∀ v, below (.builtin b) v = none := fun v => by cases v <;> rfl
    cases y with
    | none =>
      cases hr
      obtain rfl := h1 sty dv rfl hy
      exact ⟨(some (.bits 0), 0), .unsetScalar sty, fun _ _ _ h => (by rw [hn] at h; cases h), fun _ _ h => (by rw [hn] at h; cases h)⟩
    | some y =>
      cases hr
      exact ⟨(_, 0), .scalar sty dv _, fun _ _ _ h => (by rw [hn] at h; cases h), fun _ _ h => (by rw [hn] at h; cases h)⟩
  | enum sty vals dv =>
    obtain ⟨⟨id, vs, b, rfl⟩, _⟩ := kindOf_enum' hk
    have hn : ∀ v, below (.enum id vs b) v = none := fun v => by cases v <;> rfl
    cases y with
    | none =>
      cases hr
      obtain rfl := h2 sty vals dv rfl hy
      exact ⟨(some (.variant 0), 0), .unsetEnum sty vals, fun _ _ _ h => (by rw [hn] at h; cases h), fun _ _ h => (by rw [hn] at h; cases h)⟩
    | some y =>
      cases hr
      exact ⟨(_, 0), .enum sty vals dv _, fun _ _ _ h => (by rw [hn] at h; cases h), fun _ _ h => (by rw [hn] at h; cases h)⟩
  | ref F =>
    have hir := Format.kind_ref_of hk
    cases y with
    | none =>
      cases hr
      exact ⟨(none, 0), .noRef F, fun _ _ _ h => (by rw [Format.isRef_none hir] at h; cases h),
        fun _ _ h => by rw [Format.isRef_none hir] at h; cases h⟩
    | some y =>
      obtain ⟨v, h3, h4⟩ := Res.bind_eq_ok.mp hr
      cases h4
      obtain ⟨w, n, a, b⟩ := ih ty F y v (kindOf_ref hk none).1 h3
      refine ⟨(some w, n), .ref F v w, fun ty' a' b' h h' => ?_, fun ty' b' h => ?_⟩
      · rw [Format.isRef_below hir] at h h'
        cases h; cases h'; exact a
      · rw [Format.isRef_below hir] at h
        cases h; exact b
  | union vs =>
    obtain ⟨id, e, uvs, rfl, _, hmm⟩ := kindOf_union hk
    cases y with
    | none =>
      cases hr
      exact ⟨(none, 0), .noUnion vs, fun _ _ _ h => (by cases h), fun _ _ h => by cases h⟩
    | some y =>
      obtain ⟨v, h3, h4⟩ := Res.bind_eq_ok.mp hr
      cases h4
      obtain ⟨j, z⟩ := y
      obtain ⟨u, hu, hfu⟩ := mapM_getElem hmm j.val j.isLt
      simp only [readKind] at h3
      rw [hu] at h3
      obtain ⟨v, h5, h6⟩ := Res.bind_eq_ok.mp h3
      cases h6
      have hir := hm id e uvs rfl u (List.mem_of_getElem? hu)
      obtain ⟨F, hF⟩ := Format.isRef_follow hir hfu
      have hg : vs.get j = .fwdU F := hF
      rw [hF] at hfu
      have hih : ∀ (G : FTy) (_ : G = .fwdU F) (z : G.Inner), rd u.ty G z = .ok v →
          ∃ w k, Filled gm S u.ty v w ∧ Conforms gm S u.ty w k := by
        rintro _ rfl z h
        exact ih u.ty F z v hfu h
      obtain ⟨w, n, a, b⟩ := hih _ hg z h5
      refine ⟨(some (.union j.val w), n), .union vs j.val j.isLt v w, fun ty' a' b' h h' => ?_, fun ty' b' h => ?_⟩
      · simp only [below, hu, Option.map_some] at h h'
        cases h; cases h'; exact a
      · simp only [below, hu, Option.map_some] at h
        cases h; exact b

theorem scalar_read {rd : Ir.Ty → (f : FTy) → f.Inner → Res Val} {ty : Ir.Ty} {k : Kind} {sty : STy} {d : Option (SVal sty)}
    (hk : k = .scalar sty d) {res : Res (Option k.Inner)} {v : Option Val} (hr : readField rd ty k res = .ok v) :
    v = none ∨ ∃ j, v = some (.bits j) ∧ j < sty.card := by
  subst hk
  unfold readField at hr
  obtain ⟨y, hy, hr⟩ := Res.bind_eq_ok.mp hr
  cases y with
  | none => cases hr; exact .inl rfl
  | some y =>
    change SVal sty at y
    cases hr
    exact .inr ⟨_, rfl, y.isLt⟩

/-- The accessor that a union accessor calls is the one of the field of that name. -/
theorem tag_read {gm : Mode} {t : Ir.Table} {gs : List GField} (hc : compileTable gm t = some gs) {m : Mode} {tbl : Butte.Table}
    {name : Str} (j : Fin gs.length) (hn : (gs.get j).name = name ++ c!"_type") {sty : STy} {vals : List (SVal sty)}
    {d : Option (Fin vals.length)} (hk : (gs.get j).kind = .enum sty vals d) {rd : Ir.Ty → (f : FTy) → f.Inner → Res Val}
    {ty : Ir.Ty} {v : Option Val} (hr : readField rd ty (gs.get j).kind (accessor m tbl gs (gs.get j)) = .ok v) {k : Nat}
    (ht : tagOf m tbl gs name = .ok (some k)) : v = some (.variant k) := by
  have hf := find_name (names_nodup hc) j
  rw [hn] at hf
  unfold tagOf at ht
  rw [hf] at ht
  unfold accessor at hr
  generalize tagOf m tbl gs (gs.get j).name = tag at *
  generalize gs.get j = g at *
  obtain ⟨nm, slot, k', r⟩ := g
  simp only at hk
  subst hk
  simp only at ht
  unfold readField at hr
  obtain ⟨y, hy, hr⟩ := Res.bind_eq_ok.mp hr
  have e : (Res.ok y : Res (Option Nat)) = .ok (some k) := hy.symm.trans ht
  cases e
  cases hr
  rfl

theorem takes_of_fill {tag : Option Nat} {k : Kind} {req : Bool} {v y : Option Val} (h : FillField k v y)
    (hs : ∀ sty d, k = .scalar sty d → v = none ∨ ∃ j, v = some (.bits j) ∧ j < sty.card)
    (he : ∀ sty vals d, k = .enum sty vals d → 0 < vals.length ∧ (v = none ∨ ∃ j, v = some (.variant j) ∧ j < vals.length))
    (hds : req = true → ∀ sty d, k = .scalar sty d → d = none)
    (hde : req = true → ∀ sty vals d, k = .enum sty vals d → d = none) (hn : req = true → v ≠ none)
    (ht : ∀ vs j a, k = .union vs → v = some (.union j a) → j < vs.length ∧ tag = some (j + 1)) : k.Takes tag req y := by
  cases h with
  | unsetScalar t => exact ⟨t.card_pos, fun _ _ h => by cases h⟩
  | unsetEnum t vals => exact ⟨(he t vals none rfl).1, fun _ _ h => by cases h⟩
  | scalar t d n =>
    rcases hs t d rfl with h | ⟨j, h, hj⟩
    · cases h
    · cases h
      exact ⟨hj, fun hr d' hd => by rw [hds hr t d rfl] at hd; cases hd⟩
  | enum t vals d i =>
    rcases (he t vals d rfl).2 with h | ⟨j, h, hj⟩
    · cases h
    · cases h
      exact ⟨hj, fun hr d' hd => by rw [hde hr t vals d rfl] at hd; cases hd⟩
  | noRef F =>
    cases req with
    | false => rfl
    | true => exact absurd rfl (hn rfl)
  | ref F v w => trivial
  | noUnion vs =>
    cases req with
    | false => rfl
    | true => exact absurd rfl (hn rfl)
  | union vs j hj v w => exact ht vs j v rfl rfl

theorem readVal_copy {gm m : Mode} {S : Tables} (hreq : RequiredUndefaulted S) (hmem : MembersBehindOffsets S) (hfit : Fitting gm S) :
    ∀ (n : Nat) (ty : Ir.Ty) (F : FTy) (x : F.Inner) (v : Val), followTy ty = some (.fwdU F) →
      readVal gm m S n ty (.fwdU F) x = .ok v → ∃ w k, Filled gm S ty v w ∧ Conforms gm S ty w k := by
  intro n
  induction n with
  | zero => intro ty F x v _ h; cases h
  | succ n ih =>
    intro ty F x v hf h
    cases ty with
    | builtin b => cases hf
    | struct => cases hf
    | union => cases hf
    | enum id vs b =>
      simp only [followTy, Option.bind_eq_bind, Option.bind_eq_some_iff] at hf
      obtain ⟨xs, _, hf⟩ := hf
      cases hf
    | string =>
      cases hf
      cases h
      exact ⟨_, _, .string _, .string _⟩
    | array t =>
      simp only [followTy, Option.bind_eq_bind, Option.bind_eq_some_iff] at hf
      obtain ⟨e, ht, hf⟩ := hf
      cases hf
      simp only [readVal] at h
      obtain ⟨len, _, h⟩ := Res.bind_eq_ok.mp h
      obtain ⟨xs, h2, h⟩ := Res.bind_eq_ok.mp h
      cases h
      obtain ⟨hl, hx⟩ := mapAll_inv h2
      have hall : ∀ v ∈ xs, ∃ i z, Vec.get m (show Vec e from x) i = .ok z ∧ readVal gm m S n t e z = .ok v := by
        intro v hv
        obtain ⟨i, hi, he⟩ := List.mem_iff_getElem.mp hv
        have := hx i i v (by rw [List.getElem?_range (by simpa [hl] using hi)]) (by rw [List.getElem?_eq_getElem hi, he])
        obtain ⟨z, h3, h4⟩ := Res.bind_eq_ok.mp this
        exact ⟨i, z, h3, h4⟩
      cases t with
      | struct => cases ht
      | union => cases ht
      | builtin b =>
        cases ht
        have hb : ∀ v ∈ xs, ∃ i, v = .bits i ∧ i < (builtinSTy b).card := by
          intro v hv
          obtain ⟨_, z, _, h4⟩ := hall v hv
          cases n with
          | zero => cases h4
          | succ n => cases h4; exact ⟨_, rfl, z.isLt⟩
        obtain ⟨items, rfl⟩ := vals_of_bits hb
        refine ⟨_, _, .vec rfl ?_, .scalars b items⟩
        intro i x y hx hy
        rw [hx] at hy
        cases hy
        obtain ⟨j, rfl, _⟩ := hb x (List.mem_of_getElem? hx)
        exact .bits b j
      | enum id vs b =>
        simp only [followTy, Option.bind_eq_bind, Option.bind_eq_some_iff] at ht
        obtain ⟨vals, hv, ht⟩ := ht
        cases ht
        have hb : ∀ v ∈ xs, ∃ i, v = .variant i ∧ i < vals.length := by
          intro v hv
          obtain ⟨_, z, h3, h4⟩ := hall v hv
          cases n with
          | zero => cases h4
          | succ n =>
            refine ⟨z, (Res.ok.inj h4).symm, ?_⟩
            obtain ⟨l, h5⟩ := vecGet_follow h3
            exact follow_enum_lt h5
        obtain ⟨items, rfl⟩ := vals_of_variants hb
        refine ⟨_, _, .vec rfl ?_, .enums id vs b hv items⟩
        intro i x y hx hy
        rw [hx] at hy
        cases hy
        obtain ⟨j, rfl, _⟩ := hb x (List.mem_of_getElem? hx)
        exact .variant id vs b j
      | _ =>
        all_goals
          obtain ⟨F, rfl⟩ : ∃ F, e = .fwdU F := by
            first
              | (cases ht; exact ⟨_, rfl⟩)
              | (simp only [followTy, Option.bind_eq_bind, Option.bind_eq_some_iff] at ht
                 obtain ⟨e', _, ht⟩ := ht
                 cases ht
                 exact ⟨_, rfl⟩)
          obtain ⟨l, hll, hlp⟩ := list_choice (fun i (p : Val × Nat) => ∀ v, xs[i]? = some v →
              Filled gm S _ v p.1 ∧ Conforms gm S _ p.1 p.2) xs.length (by
            intro i hi
            obtain ⟨_, z, _, h4⟩ := hall xs[i] (List.getElem_mem hi)
            obtain ⟨w, k, a, b⟩ := ih _ F z _ ht h4
            refine ⟨(w, k), fun v hv => ?_⟩
            rw [List.getElem?_eq_getElem hi] at hv
            cases hv
            exact ⟨a, b⟩)
          refine ⟨.vec (l.map (·.1)), _, .vec (by simp [hll]) ?_, .vec (ns := l.map (·.2)) ht (by simp) ?_⟩
          · intro i x y hx hy
            rw [List.getElem?_map, Option.map_eq_some_iff] at hy
            obtain ⟨p, hp, rfl⟩ := hy
            exact (hlp i p hp x hx).1
          · intro i v k hv hk
            rw [List.getElem?_map, Option.map_eq_some_iff] at hv hk
            obtain ⟨p, hp, rfl⟩ := hv
            obtain ⟨p', hp', rfl⟩ := hk
            rw [hp] at hp'
            cases hp'
            have hi : i < xs.length := by
              rw [← hll]
              exact (List.getElem?_eq_some_iff.mp hp).1
            exact (hlp i p hp xs[i] (List.getElem?_eq_getElem hi)).2
    | table q =>
      cases hf
      change Butte.Table at x
      simp only [readVal] at h
      cases hq : S q with
      | none => rw [hq] at h; cases h
      | some t =>
      rw [hq] at h
      simp only at h
      cases hc : compileTable gm t with
      | none => rw [hc] at h; cases h
      | some gs =>
      rw [hc] at h
      simp only at h
      obtain ⟨xs, h1, h⟩ := Res.bind_eq_ok.mp h
      cases h
      obtain ⟨hl, hx⟩ := mapAll_inv h1
      rw [List.length_finRange] at hl
      have hspec := List.forall₂_iff_get.mp (compileFields_spec (compileTable_fields hc))
      have hfield : ∀ (i : Fin gs.length) v, xs[i.val]? = some v → ∃ f, t.fields[i.val]? = some f ∧ Compiled f (gs.get i) ∧
          readField (readVal gm m S n) f.ty (gs.get i).kind (accessor m x gs (gs.get i)) = .ok v := by
        intro i v hv
        have hif : i.val < t.fields.length := by rw [hspec.1]; exact i.isLt
        have := hx i.val i v (by simp) hv
        rw [List.getElem?_eq_getElem hif] at this
        exact ⟨_, List.getElem?_eq_getElem hif, hspec.2 i.val hif i.isLt, this⟩
      obtain ⟨l, hll, hlp⟩ := list_choice (fun i (p : Option Val × Nat) => ∀ (hi : i < gs.length) v f, xs[i]? = some v →
          t.fields[i]? = some f → FillField gs[i].kind v p.1 ∧
            (∀ ty a b, below f.ty v = some (ty, a) → below f.ty p.1 = some (ty, b) → Filled gm S ty a b) ∧
            ∀ ty b, below f.ty p.1 = some (ty, b) → Conforms gm S ty b p.2) gs.length (by
        intro i hi
        have hix : i < xs.length := by omega
        obtain ⟨f, hf, hcomp, hr⟩ := hfield ⟨i, hi⟩ xs[i] (List.getElem?_eq_getElem hix)
        have hkind := hcomp.kind
        suffices hs : ∃ p : Option Val × Nat, FillField gs[i].kind xs[i] p.1 ∧
            (∀ ty a b, below f.ty xs[i] = some (ty, a) → below f.ty p.1 = some (ty, b) → Filled gm S ty a b) ∧
            ∀ ty b, below f.ty p.1 = some (ty, b) → Conforms gm S ty b p.2 by
          obtain ⟨p, hp⟩ := hs
          refine ⟨p, fun _ v f' hv hf' => ?_⟩
          rw [List.getElem?_eq_getElem hix] at hv
          cases hv
          rw [hf] at hf'
          cases hf'
          exact hp
        refine field_copy ih hkind (fun id e uvs he => hmem q t hq f (List.mem_of_getElem? hf) id e uvs he) hr
          (fun sty d hk hy => (accessor_kind ⟨i, hi⟩ hy).2.1 sty d hk rfl) (fun sty vals d hk hy => (accessor_kind ⟨i, hi⟩ hy).2.2 sty vals d hk rfl))
      have hix : ∀ (i : Fin gs.length), i.val < xs.length := fun i => by have := i.isLt; omega
      have hil : ∀ (i : Fin gs.length), i.val < l.length := fun i => by have := i.isLt; omega
      refine ⟨.table (l.map (·.1)), _, .table hq hc hl (by simp [hll]) ?_ ?_,
        .table (ns := l.map (·.2)) hq hc (hfit q t gs hq hc).1 (hfit q t gs hq hc).2 (by simp [hll]) (by simp [hll]) ?_ ?_⟩
      · intro i g v y hg hv hy
        rw [List.getElem?_map, Option.map_eq_some_iff] at hy
        obtain ⟨p, hp, rfl⟩ := hy
        obtain ⟨hi, rfl⟩ := List.getElem?_eq_some_iff.mp hg
        obtain ⟨f, hf, _⟩ := hfield ⟨i, hi⟩ v hv
        exact (hlp i p hp hi v f hv hf).1
      · intro i f v y ty a b hf hv hy h3 h4
        rw [List.getElem?_map, Option.map_eq_some_iff] at hy
        obtain ⟨p, hp, rfl⟩ := hy
        have hi : i < gs.length := by have := (List.getElem?_eq_some_iff.mp hv).1; omega
        exact (hlp i p hp hi v f hv hf).2.1 ty a b h3 h4
      · intro i y hy
        rw [List.getElem?_map, Option.map_eq_some_iff] at hy
        obtain ⟨p, hp, rfl⟩ := hy
        have hv : xs[i.val]? = some xs[i.val] := List.getElem?_eq_getElem (hix i)
        obtain ⟨f, hf, hcomp, hr⟩ := hfield i _ hv
        obtain ⟨hff, _, _⟩ := hlp i.val p hp i.isLt _ f hv hf
        have hkind := hcomp.kind
        have hrq := hcomp.required
        have hen := fun (sty : STy) (vals : List (SVal sty)) d (hk : (gs.get i).kind = .enum sty vals d) =>
          accessor_enum_lt i hk hr
        have hut := fun (vs : List FTy) (hk : (gs.get i).kind = .union vs) (a : Val) (ha : xs[i.val] = some a) =>
          accessor_union_tag i hk (ha ▸ hr)
        have hnn : (gs.get i).required = true → xs[i.val] ≠ none := by
          intro h hn
          have hr' := hr
          unfold readField at hr'
          obtain ⟨y, hy, hr'⟩ := Res.bind_eq_ok.mp hr'
          have := (accessor_kind i hy).1 h
          cases y with
          | none => exact this rfl
          | some y =>
            obtain ⟨_, _, h5⟩ := Res.bind_eq_ok.mp hr'
            rw [hn] at h5
            cases h5
        refine takes_of_fill hff (fun sty d hk => scalar_read hk hr)
          (fun sty vals d hk => ⟨(kindOf_enum' (hk ▸ hkind)).2.1, hen sty vals d hk⟩) ?_ ?_ hnn ?_
        · intro h sty d hk
          obtain ⟨⟨b, hb⟩, hd⟩ := kindOf_scalar (hk ▸ hkind)
          exact hd (hreq q t hq f (List.mem_of_getElem? hf) (hrq ▸ h) (by rw [hb]; trivial))
        · intro h sty vals d hk
          obtain ⟨⟨id, vs, b, hb⟩, _, hd⟩ := kindOf_enum' (hk ▸ hkind)
          exact hd (hreq q t hq f (List.mem_of_getElem? hf) (hrq ▸ h) (by rw [hb]; trivial))
        · intro vs j a hk hv'
          obtain ⟨j', id, e, uvs, u, z, v', t1, t2, t3, t4, t5⟩ := hut vs hk _ hv'
          cases t5
          refine ⟨j'.isLt, ?_⟩
          obtain ⟨jt, sty, vals, d, u1, u2, u3, u4⟩ := union_tag hc hk
          have hvt : xs[jt.val]? = some xs[jt.val] := List.getElem?_eq_getElem (hix jt)
          obtain ⟨ft, hft, hct, hrt⟩ := hfield jt _ hvt
          have hlt : l[jt.val]? = some l[jt.val] := List.getElem?_eq_getElem (hil jt)
          obtain ⟨hfft, _, _⟩ := hlp jt.val _ hlt jt.isLt _ ft hvt hft
          change FillField (gs.get jt).kind _ _ at hfft
          rw [tag_read hc jt u1 u2 hrt t1, u2] at hfft
          rw [tagValue_get (by simp [hll]) (names_nodup hc) jt.val (gs.get jt) l[jt.val].1 (List.getElem?_eq_getElem jt.isLt)
            (by rw [List.getElem?_map, hlt]; rfl) u1, u2]
          generalize l[jt.val].1 = y at *
          cases hfft
          rfl
      · intro i f y k ty b hf hy hk h3
        rw [List.getElem?_map, Option.map_eq_some_iff] at hy hk
        obtain ⟨p, hp, rfl⟩ := hy
        obtain ⟨p', hp', rfl⟩ := hk
        rw [hp] at hp'
        cases hp'
        have hi : i < gs.length := by have := (List.getElem?_eq_some_iff.mp hp).1; omega
        exact (hlp i p hp hi _ f (List.getElem?_eq_getElem (hix ⟨i, hi⟩)) hf).2.2 ty b h3

/-! ### Nothing left to fill -/

theorem fillField_again {k : Kind} {x y : Option Val} (h : FillField k x y) : FillField k y y := by
  cases h with
  | unsetScalar t => exact .scalar t none 0
  | unsetEnum t vals => exact .enum t vals none 0
  | scalar t d n => exact .scalar t d n
  | enum t vals d i => exact .enum t vals d i
  | noRef F => exact .noRef F
  | ref F v w => exact .ref F w w
  | noUnion vs => exact .noUnion vs
  | union vs j hj v w => exact .union vs j hj w w

/-- A field that has been filled stays as it is, if what is behind it does. -/
theorem fillField_stays {ty : Ir.Ty} {d : Option Ast.DefaultValue} {k : Kind} (hk : kindOf ty d = some k) {y z : Option Val}
    (h : FillField k y z) (hu : (∀ t, k = .scalar t none → y ≠ none) ∧ ∀ t vals, k = .enum t vals none → y ≠ none)
    (hb : ∀ ty' a b, below ty y = some (ty', a) → below ty z = some (ty', b) → b = a) : z = y := by
  cases h with
  | unsetScalar t => exact absurd rfl (hu.1 t rfl)
  | unsetEnum t vals => exact absurd rfl (hu.2 t vals rfl)
  | scalar => rfl
  | enum => rfl
  | noRef => rfl
  | noUnion => rfl
  | ref F v w =>
    have hir := Format.kind_ref_of hk
    rw [hb ty v w (Format.isRef_below hir v) (Format.isRef_below hir w)]
  | union vs j hj v w =>
    obtain ⟨id, e, uvs, rfl, _, hm⟩ := kindOf_union hk
    obtain ⟨u, hu, _⟩ := mapM_getElem hm j hj
    rw [hb u.ty v w (by simp [below, hu]) (by simp [below, hu])]

theorem list_eq {α : Type} {xs ys : List α} (hl : xs.length = ys.length)
    (h : ∀ (i : Nat) x y, xs[i]? = some x → ys[i]? = some y → x = y) : xs = ys := by
  apply List.ext_getElem hl
  intro i h1 h2
  exact h i _ _ (List.getElem?_eq_getElem h1) (List.getElem?_eq_getElem h2)

theorem compiled_at {gm : Mode} {t : Ir.Table} {gs : List GField} (hc : compileTable gm t = some gs) {i : Nat} (hi : i < gs.length) :
    ∃ f, t.fields[i]? = some f ∧ kindOf f.ty f.default = some gs[i].kind := by
  have hspec := List.forall₂_iff_get.mp (compileFields_spec (compileTable_fields hc))
  have hif : i < t.fields.length := by rw [hspec.1]; exact hi
  exact ⟨_, List.getElem?_eq_getElem hif, (hspec.2 i hif hi).kind⟩

theorem filled_defaulted {gm : Mode} {S : Tables} (hd : Format.Defaulted S) {ty : Ir.Ty} {v w : Val} (h : Filled gm S ty v w) :
    w = v := by
  induction h with
  | bits => rfl
  | variant => rfl
  | string => rfl
  | vec hl h ih => rw [list_eq hl fun i y x hy hx => ih i x y hx hy]
  | @table q t gs hq hc xs ys hx hy hk h ih =>
    congr 1
    refine list_eq (by omega) fun i y x hyi hxi => ?_
    have hi : i < gs.length := by have := (List.getElem?_eq_some_iff.mp hxi).1; omega
    obtain ⟨f, hf, hkind⟩ := compiled_at hc hi
    have hdf := hd q t hq f (List.mem_of_getElem? hf)
    refine fillField_stays hkind (hk i _ x y (List.getElem?_eq_getElem hi) hxi hyi) ⟨?_, ?_⟩ fun ty' a b h1 h2 =>
      ih i f x y ty' a b hf hxi hyi h1 h2
    · intro sty e
      obtain ⟨⟨b, hb⟩, _⟩ := kindOf_scalar (e ▸ hkind)
      rw [hb] at hdf
      cases hdd : f.default with
      | none => exact absurd hdd (hdf trivial)
      | some d =>
        rw [hb, hdd, e] at hkind
        cases d with
        | ident => cases hkind
        | scalar s =>
          simp only [kindOf, Option.bind_eq_bind, Option.bind_eq_some_iff] at hkind
          obtain ⟨_, _, hkind⟩ := hkind
          cases hkind
    · intro sty vals e
      obtain ⟨⟨id, vs, b, hb⟩, _⟩ := kindOf_enum' (e ▸ hkind)
      rw [hb] at hdf
      rw [hb] at hkind
      obtain ⟨xs', d', h1, _, _, h4⟩ := kindOf_enum hkind
      rw [e] at h1
      cases h1
      exact absurd (h4.mp rfl) (hdf trivial)

theorem filled_again {gm : Mode} {S : Tables} {ty : Ir.Ty} {v w : Val} (h : Filled gm S ty v w) :
    Filled gm S ty w w ∧ ∀ u, Filled gm S ty w u → u = w := by
  induction h with
  | bits b n => exact ⟨.bits b n, fun u h => by cases h; rfl⟩
  | variant id vs b i => exact ⟨.variant id vs b i, fun u h => by cases h; rfl⟩
  | string s => exact ⟨.string s, fun u h => by cases h; rfl⟩
  | @vec t xs ys hl h ih =>
    have key : ∀ (i : Nat) y, ys[i]? = some y → Filled gm S t y y ∧ ∀ u, Filled gm S t y u → u = y := by
      intro i y hy
      have hi : i < xs.length := by have := (List.getElem?_eq_some_iff.mp hy).1; omega
      exact ih i xs[i] y (List.getElem?_eq_getElem hi) hy
    refine ⟨.vec rfl fun i x y hx hy => ?_, fun u hu => ?_⟩
    · rw [hx] at hy
      cases hy
      exact (key i x hx).1
    · cases hu with
      | vec hl' h' => rw [list_eq hl' fun i z y hz hy => (key i y hy).2 z (h' i y z hy hz)]
  | @table q t gs hq hc xs ys hx hy hk h ih =>
    have hxi : ∀ i (_ : i < gs.length), xs[i]? = some (xs[i]'(by omega)) := fun i hi => List.getElem?_eq_getElem (by omega)
    have key : ∀ (i : Nat) f y ty b, t.fields[i]? = some f → ys[i]? = some y → below f.ty y = some (ty, b) →
        Filled gm S ty b b ∧ ∀ u, Filled gm S ty b u → u = b := by
      intro i f y ty b hf hyi hb
      have hi : i < gs.length := by have := (List.getElem?_eq_some_iff.mp hyi).1; omega
      obtain ⟨f', hf', hkind⟩ := compiled_at hc hi
      rw [hf] at hf'
      cases hf'
      have hff := hk i _ _ y (List.getElem?_eq_getElem hi) (hxi i hi) hyi
      obtain ⟨a, ha⟩ : ∃ a, below f.ty xs[i] = some (ty, a) := by
        generalize gs[i].kind = k at *
        generalize xs[i] = x at *
        cases hff with
        | unsetScalar => obtain ⟨⟨c, hc⟩, _⟩ := kindOf_scalar hkind; rw [hc] at hb; cases hb
        | unsetEnum => obtain ⟨⟨_, _, c, hc⟩, _⟩ := kindOf_enum' hkind; rw [hc] at hb; cases hb
        | scalar => exact ⟨b, hb⟩
        | enum => exact ⟨b, hb⟩
        | noRef => exact ⟨b, hb⟩
        | noUnion => exact ⟨b, hb⟩
        | ref F v w =>
          have hir := Format.kind_ref_of hkind
          rw [Format.isRef_below hir] at hb ⊢
          cases hb
          exact ⟨v, rfl⟩
        | union vs j hj v w =>
          obtain ⟨id, e, uvs, hty, _, hm⟩ := kindOf_union hkind
          obtain ⟨u, hu, _⟩ := mapM_getElem hm j hj
          rw [hty] at hb ⊢
          simp only [below, hu, Option.map_some] at hb ⊢
          cases hb
          exact ⟨v, rfl⟩
      exact ih i f _ y ty a b hf (hxi i hi) hyi ha hb
    refine ⟨.table hq hc hy hy ?_ ?_, fun u hu => ?_⟩
    · intro i g y y' hg hyi hyi'
      rw [hyi] at hyi'
      cases hyi'
      obtain ⟨hi, rfl⟩ := List.getElem?_eq_some_iff.mp hg
      exact fillField_again (hk i _ _ y (List.getElem?_eq_getElem hi) (hxi i hi) hyi)
    · intro i f y y' ty a b hf hyi hyi' h1 h2
      rw [hyi] at hyi'
      cases hyi'
      rw [h1] at h2
      cases h2
      exact (key i f y ty a hf hyi h1).1
    · cases hu with
      | @table _ t' gs' hq' hc' _ zs hx' hz hk' h' =>
      rw [hq] at hq'
      cases hq'
      rw [hc] at hc'
      cases hc'
      congr 1
      refine list_eq (by omega) fun i z y hzi hyi => ?_
      have hi : i < gs.length := by have := (List.getElem?_eq_some_iff.mp hyi).1; omega
      obtain ⟨f, hf, hkind⟩ := compiled_at hc hi
      have hff := hk i _ _ y (List.getElem?_eq_getElem hi) (hxi i hi) hyi
      refine fillField_stays hkind (hk' i _ y z (List.getElem?_eq_getElem hi) hyi hzi) ⟨?_, ?_⟩ fun ty' a b h1 h2 =>
        (key i f y ty' a hf hyi h1).2 b (h' i f y z ty' a b hf hyi hzi h1 h2)
      · rintro sty e rfl
        rw [e] at hff
        generalize xs[i] = x at hff
        cases hff
      · rintro sty vals e rfl
        rw [e] at hff
        generalize xs[i] = x at hff
        cases hff

end Butte.Gen
