import Verif.Rs.Encode
/-
The accessors of the emitted program.
-/
namespace Butte.Rs
open Ir (QIdent)
open Gen (formatIdent formatIdent_eq GField Kind Args kindOf)

/-! ### Literals and defaults -/

theorem lit_value {s : Ast.Scalar} {t : STy} {l : Lit} {v : SVal t} (hl : fmtLit s (.path [primName t]) = some l)
    (hv : Gen.literal t s = some v) : litValue l = some (.scalar t v) := by
  cases s with
  | integer i =>
    simp only [fmtLit, suffix, Option.bind_eq_bind, Option.bind_some, Option.pure_def, Option.some.injEq] at hl
    subst hl
    simp [litValue, primOf_primName, litVal, hv]
  | float x =>
    simp only [fmtLit, suffix, Option.bind_eq_bind, Option.bind_some] at hl
    split at hl
    · cases hl
      simp [litValue, primOf_primName, litVal, hv]
    · cases hl
  | boolean b =>
    simp only [fmtLit, Option.some.injEq] at hl
    subst hl
    simp only [Gen.literal] at hv
    split at hv
    · rename_i ht
      subst ht
      cases hv
      cases b <;> rfl
    · cases hv

/-- The value of the default that an accessor passes on. -/
def dfltValue : Ir.Ty → Option Ast.DefaultValue → Option Value
  | _, none => some .none
  | .builtin b, some (.scalar s) => (Gen.literal (Gen.builtinSTy b) s).map fun v => .some (.scalar _ v)
  | .enum q _ _, some (.ident i) => some (.some (.variant (modOf q) (QIdent.simple q) i))
  | .union .., some _ => some .none
  | _, _ => none

theorem zip_findIdx {t : STy} {vs : List Ir.EnumVariant} {xs : List (SVal t)} (h : xs.length = vs.length) (i : Str) :
    ((vs.map (·.ident)).zip xs).findIdx? (fun y => y.1 == i) = vs.findIdx? (fun v => v.ident == i) := by
  induction vs generalizing xs with
  | nil => simp
  | cons v vs ih =>
    cases xs with
    | nil => simp at h
    | cons x xs =>
      simp only [List.length_cons, Nat.add_right_cancel_iff] at h
      simp [List.findIdx?_cons, ih h]

/-- The name of an enum, as a path. -/
theorem enum_token {ns : Option QIdent} {q : QIdent} {vs : List Ir.EnumVariant} {b : Ir.EnumBase} {w : Option (List Str)}
    {o : Bool} {ty : Ty} (h : typeToken ns (.enum q vs b) w o = some ty) : ty = .path (QIdent.relative q ns) := by
  simp only [typeToken, Option.bind_eq_bind, Option.bind_eq_some_iff, Option.pure_def, Option.some.injEq, pathTokens] at h
  obtain ⟨p, hp, rfl⟩ := h
  split at hp
  · cases hp
  · cases hp; rfl

theorem eval_variant {md : Mode} {P : Program} {n : Nat} {sc : Scope} {vars : Vars} (hn : P.names.Nodup) {ns : Option QIdent}
    {q : QIdent} {vs : List Ir.EnumVariant} {b : Ir.EnumBase} (ht : HasTy P (.enum q vs b)) (hl : Leads P sc ns q)
    {xs : List (SVal (Gen.enumBaseSTy b))} (hx : Gen.enumValues (Gen.enumBaseSTy b) vs = some xs) {i : Str}
    (hi : i ∈ vs.map (·.ident)) (s : St) :
    eval md P (n + 1) sc vars (.assoc (.path (QIdent.relative q ns)) i) s =
      .val (.variant (modOf q) (QIdent.simple q) i) s := by
  obtain ⟨vl, hv, hpl⟩ := ht
  refine eval_assoc (t := .path (QIdent.relative q ns)) (d := .item (modOf q) (QIdent.simple q)) hl ?_ s
  simp only [assocValue, enumOf_placed hn hv hpl hx]
  rw [if_pos]
  rw [List.map_fst_zip (by simp [(enumValues_some hx).2.1])]
  exact hi

theorem isUnion_of_scalar {ty : Ir.Ty} (h : ty.isScalar = true) : ty.isUnion = false := by
  cases ty <;> first | rfl | simp [Ir.Ty.isScalar] at h

theorem eval_defaultValue {md : Mode} {P : Program} {n : Nat} {sc : Scope} {vars : Vars} (hn : P.names.Nodup)
    {ns : Option QIdent} {ty : Ir.Ty} (ht : HasTy P ty) (hq : ∀ q ∈ Gen.tyPaths ty, Leads P sc ns q) {k : Kind}
    {d : Ast.DefaultValue} (hk : kindOf ty (some d) = some k) {w : Option (List Str)} {o : Bool} {tok : Ty}
    (hw : typeToken ns ty w o = some tok) (hu : ty.isUnion = false) {e : Expr} (he : defaultValue tok d = some e) :
    ∃ v, dfltValue ty (some d) = some (.some v) ∧ ∀ s, eval md P (n + 1) sc vars e s = .val v s := by
  cases ty with
  | builtin b =>
    cases d with
    | ident i => simp [kindOf] at hk
    | scalar sc =>
      simp only [kindOf, Option.bind_eq_bind, Option.bind_eq_some_iff, Option.pure_def, Option.some.injEq] at hk
      obtain ⟨v, hv, rfl⟩ := hk
      simp only [typeToken, Option.some.injEq] at hw
      subst hw
      simp only [defaultValue, Option.bind_eq_bind, Option.bind_eq_some_iff, Option.pure_def, Option.some.injEq] at he
      obtain ⟨l, hl, rfl⟩ := he
      exact ⟨.scalar _ v, by simp [dfltValue, hv], fun s => eval_lit (lit_value hl hv) s⟩
  | enum q vs b =>
    simp only [kindOf, Option.bind_eq_bind, Option.bind_eq_some_iff] at hk
    obtain ⟨xs, hx, j, hj, -⟩ := hk
    cases d with
    | scalar sc => simp [Gen.enumDefault] at hj
    | ident i =>
      have := enum_token hw
      subst this
      simp only [defaultValue, Option.bind_eq_bind, Option.bind_eq_some_iff, Option.pure_def, Option.some.injEq] at he
      obtain ⟨i', hi', rfl⟩ := he
      have := formatIdent_eq hi'
      subst this
      refine ⟨_, rfl, fun s => eval_variant hn ht (hq q (by simp [Gen.tyPaths])) hx ?_ s⟩
      simp only [Gen.enumDefault] at hj
      obtain ⟨y, hy, -⟩ := List.findIdx?_eq_some_iff_getElem.mp hj
      rw [List.mem_map]
      exact ⟨vs[j], List.getElem_mem _, by grind⟩
  | string => simp [kindOf] at hk
  | array t => simp [kindOf] at hk
  | table q => simp [kindOf] at hk
  | struct q fs => simp [kindOf] at hk
  | union q e vs => cases hu

theorem eval_getDefault {md : Mode} {P : Program} {n : Nat} {sc : Scope} {vars : Vars} (hn : P.names.Nodup)
    {ns : Option QIdent} {ty : Ir.Ty} (ht : HasTy P ty) (hq : ∀ q ∈ Gen.tyPaths ty, Leads P sc ns q) {k : Kind}
    {d : Option Ast.DefaultValue} (hk : kindOf ty d = some k) {w : Option (List Str)} {o : Bool} {tok : Ty}
    (hw : typeToken ns ty w o = some tok) (hu : ty.isUnion = false) {e : Expr} (he : getDefault tok d = some e) :
    ∃ v, dfltValue ty d = some v ∧ ∀ s, eval md P (n + 2) sc vars e s = .val v s := by
  cases d with
  | none =>
    simp only [getDefault, Option.some.injEq] at he
    subst he
    exact ⟨.none, by simp [dfltValue], fun s => by rw [eval_none]; rfl⟩
  | some d =>
    simp only [getDefault, Option.map_eq_some_iff] at he
    obtain ⟨e', he', rfl⟩ := he
    obtain ⟨v, h1, h2⟩ := eval_defaultValue (md := md) (n := n) (vars := vars) hn ht hq hk hw hu he'
    exact ⟨.some v, h1, fun s => by rw [eval_some, bind_val (h2 s)]; rfl⟩

/-! ### Fields that are no unions -/

theorem get_enum {md : Mode} {tb : Butte.Table} {t : STy} {s : Nat} {l l' : List Nat} (h : l = l') (d : Option Nat)
    (k : Option Nat → Option Value) : result (tb.get md (.enum t l) s d) k = result (tb.get md (.enum t l') s d) k := by
  subst h; rfl

theorem value_enum {q : QIdent} {vs : List Ir.EnumVariant} {t : STy} {xs : List (SVal t)} (h : xs.length = vs.length)
    (i : Nat) : FollowTy.value (.enum (modOf q) (QIdent.simple q) t ((vs.map (·.ident)).zip xs)) i = encEnum q vs i := by
  show (match ((vs.map (·.ident)).zip xs)[i]? with
    | some v => some (Value.variant (modOf q) (QIdent.simple q) v.1)
    | none => none) = _
  rw [encEnum]
  by_cases hi : i < vs.length
  · simp [List.getElem?_zip_eq_some, List.zip, List.getElem?_zipWith, hi, h]
  · simp [List.zip, List.getElem?_zipWith, hi]

theorem fetch_plain {ty : Ir.Ty} {d : Option Ast.DefaultValue} {k : Kind} (hk : kindOf ty d = some k)
    (hu : ty.isUnion = false) : ∃ F, follows ty = some F ∧ ∀ dv, dfltValue ty d = some dv →
      ∃ dd, F.default dv = some dd ∧ ∀ md (tb : Butte.Table) slot tag, result (tb.get md F.fty slot dd) (encOption F.value false) =
        result (k.fetch md tb slot tag) (encOption (encResult ty k) false) := by
  cases ty with
  | builtin b =>
    refine ⟨_, rfl, ?_⟩
    intro dv hdv
    cases d with
    | none =>
      simp only [dfltValue, Option.some.injEq] at hdv
      simp only [kindOf, Option.some.injEq] at hk
      subst hdv hk
      exact ⟨none, rfl, fun _ _ _ _ => rfl⟩
    | some d =>
      cases d with
      | ident i => simp [kindOf] at hk
      | scalar s =>
        simp only [kindOf, Option.bind_eq_bind, Option.bind_eq_some_iff, Option.pure_def, Option.some.injEq] at hk
        obtain ⟨v, hv, rfl⟩ := hk
        simp only [dfltValue, hv, Option.map_some, Option.some.injEq] at hdv
        subst hdv
        exact ⟨some v, by simp [FollowTy.default], fun _ _ _ _ => rfl⟩
  | enum q vs b =>
    simp only [kindOf, Option.bind_eq_bind, Option.bind_eq_some_iff] at hk
    obtain ⟨xs, hx, hk⟩ := hk
    have hlen := (enumValues_some hx).2.1
    have hl : ((vs.map (·.ident)).zip xs).map (fun x => x.2.val) = xs.map (·.val) := by
      show List.map ((fun x : SVal _ => x.val) ∘ Prod.snd) _ = _
      rw [← List.map_map, List.map_snd_zip (by simp [hlen])]
    refine ⟨_, by rw [follows, hx]; rfl, ?_⟩
    have hval : ∀ d' : Option (Fin xs.length), encOption (FollowTy.value (.enum (modOf q) (QIdent.simple q) (Gen.enumBaseSTy b)
        ((vs.map (·.ident)).zip xs))) false = encOption (encResult (.enum q vs b) (.enum (Gen.enumBaseSTy b) xs d')) false := by
      intro d'
      funext x
      cases x with
      | none => rfl
      | some i =>
        exact congrArg (Option.map Value.some) (value_enum hlen i)
    intro dv hdv
    cases d with
    | none =>
      simp only [dfltValue, Option.some.injEq] at hdv
      simp only [Option.pure_def, Option.some.injEq] at hk
      subst hdv hk
      refine ⟨none, rfl, fun md tb slot _ => ?_⟩
      rw [← hval none]
      exact get_enum hl none _
    | some d =>
      simp only [Option.bind_eq_some_iff] at hk
      obtain ⟨j, hj, hk⟩ := hk
      split at hk
      · rename_i hlt
        simp only [Option.pure_def, Option.some.injEq] at hk
        subst hk
        cases d with
        | scalar s => simp [Gen.enumDefault] at hj
        | ident i =>
          simp only [dfltValue, Option.some.injEq] at hdv
          subst hdv
          simp only [Gen.enumDefault] at hj
          refine ⟨some j, by simp [FollowTy.default, zip_findIdx hlen, hj]; rfl, fun md tb slot _ => ?_⟩
          rw [← hval (some ⟨j, hlt⟩)]
          exact get_enum hl (some j) _
      · cases hk
  | string =>
    cases d with
    | some d => simp [kindOf] at hk
    | none =>
      simp only [kindOf, Option.some.injEq] at hk
      subst hk
      refine ⟨_, rfl, fun dv hdv => ?_⟩
      simp only [dfltValue, Option.some.injEq] at hdv
      subst hdv
      exact ⟨none, rfl, fun _ _ _ _ => rfl⟩
  | array t =>
    cases d with
    | some d => simp [kindOf] at hk
    | none =>
      simp only [kindOf, Option.bind_eq_bind, Option.bind_eq_some_iff, Option.pure_def, Option.some.injEq] at hk
      obtain ⟨e', he, rfl⟩ := hk
      rw [← follows_fty t, Option.map_eq_some_iff] at he
      obtain ⟨E, hE, rfl⟩ := he
      have hF : follows (.array t) = some (.fwd (.vector E)) := by rw [follows, hE]; rfl
      refine ⟨_, hF, fun dv hdv => ?_⟩
      simp only [dfltValue, Option.some.injEq] at hdv
      subst hdv
      refine ⟨none, rfl, fun md tb slot _ => ?_⟩
      have : encResult (.array t) (.ref (.vector E.fty)) = FollowTy.value (.fwd (.vector E)) := by
        funext x
        simp only [encResult, hF, Option.bind_eq_bind, Option.bind_some, encInner]
        exact dif_pos rfl
      rw [this]
      rfl
  | table q =>
    cases d with
    | some d => simp [kindOf] at hk
    | none =>
      simp only [kindOf, Option.some.injEq] at hk
      subst hk
      refine ⟨_, rfl, fun dv hdv => ?_⟩
      simp only [dfltValue, Option.some.injEq] at hdv
      subst hdv
      exact ⟨none, rfl, fun _ _ _ _ => rfl⟩
  | struct q fs => cases d <;> simp [kindOf] at hk
  | union q e vs => simp [Ir.Ty.isUnion] at hu

end Butte.Rs
