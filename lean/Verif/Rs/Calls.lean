import Verif.Rs.CreateAll
/-
The functions of a table, called from outside.
-/
namespace Butte.Rs
open Ir (QIdent)
open Gen (formatIdent formatIdent_eq GField Kind Args kindOf okOr)

section
variable {gm md : Mode} {P : Program} {t : Ir.Table} {gs : List GField} {n : Nat}

/-- An accessor of the emitted program does what the model says. -/
theorem TableAt.call_accessor (A : TableAt gm P t gs) {tb : Butte.Table} {i : Nat} {f : Ir.Field} {g : GField}
    (hf : t.fields[i]? = some f) (hg : gs[i]? = some g) :
    callFn md P (n + 9) (tMod t) (tName t) (Heck.snake f.ident) [tableValue t tb] =
      result (Gen.accessor md tb gs g) (encOption (encResult f.ty g.kind) g.required) := by
  obtain ⟨fn, hfn, hfo⟩ := A.accessor f (List.mem_of_getElem? hf)
  funext s
  rw [callFn_eq hfo]
  cases hu : f.ty.isUnion with
  | false => exact A.invoke_plain (n := n + 4) hf hg hu hfn s
  | true =>
    cases hty : f.ty <;> simp [hty, Ir.Ty.isUnion] at hu
    rw [← hty]
    exact A.invoke_union hf hg hty hfn s

/-! ### What is handed out is a value -/

theorem encEnum_some {q : QIdent} {vs : List Ir.EnumVariant} {i : Nat} (h : i < vs.length) : ∃ v, encEnum q vs i = some v := by
  rw [encEnum, List.getElem?_eq_getElem h]
  exact ⟨_, rfl⟩

theorem get_value {ty : Ir.Ty} {F : FollowTy} (hF : follows ty = some F) {tb : Butte.Table} {slot : Nat} {x : F.fty.Inner}
    (h : tb.get md F.fty slot none = .ok (some x)) : ∃ v, F.value x = some v := by
  cases ty with
  | builtin b => simp only [follows, Option.some.injEq] at hF; subst hF; exact ⟨_, rfl⟩
  | string => simp only [follows, Option.some.injEq] at hF; subst hF; exact ⟨_, rfl⟩
  | array t =>
    simp only [follows, Option.map_eq_some_iff] at hF
    obtain ⟨e, -, rfl⟩ := hF
    exact ⟨_, rfl⟩
  | table q => simp only [follows, Option.some.injEq] at hF; subst hF; exact ⟨_, rfl⟩
  | struct q fs => simp [follows] at hF
  | union q e vs => simp [follows] at hF
  | enum q vs b =>
    simp only [follows, Option.map_eq_some_iff] at hF
    obtain ⟨xs, hx, rfl⟩ := hF
    have hlen := (enumValues_some hx).2.1
    have hlt := Gen.get_enum_lt (vals := ((vs.map (·.ident)).zip xs).map (·.2)) (d := none) (m := md) (tbl := tb)
      (slot := slot) (i := x) (by
        have e : Gen.enumFTy (Gen.enumBaseSTy b) (((vs.map (·.ident)).zip xs).map (·.2)) =
            FollowTy.fty (.enum (modOf q) (QIdent.simple q) (Gen.enumBaseSTy b) ((vs.map (·.ident)).zip xs)) := by
          simp only [Gen.enumFTy, FollowTy.fty, List.map_map]
          rfl
        have : ∀ F, F = FollowTy.fty (.enum (modOf q) (QIdent.simple q) (Gen.enumBaseSTy b) ((vs.map (·.ident)).zip xs)) → 
            ∀ x' : F.Inner, HEq x' x → tb.get md F slot none = .ok (some x') := by
          rintro F rfl x' hx'
          rw [eq_of_heq hx', h]
        exact this _ e x HEq.rfl)
    rw [List.map_snd_zip (by simp [hlen]), hlen] at hlt
    obtain ⟨v, hv⟩ := encEnum_some (q := q) hlt
    exact ⟨v, (value_enum hlen x).trans hv⟩

theorem get_encInner {ty : Ir.Ty} {F : FollowTy} (hF : follows ty = some F) {f : FTy} (hf : F.fty = f) {tb : Butte.Table}
    {slot : Nat} {x : f.Inner} (h : tb.get md f slot none = .ok (some x)) : ∃ v, encInner F f x = some v := by
  subst hf
  obtain ⟨v, hv⟩ := get_value hF h
  exact ⟨v, by rw [← hv]; simp [encInner]⟩

/-- What an accessor hands out is a value of the program. -/
theorem TableAt.result_value (A : TableAt gm P t gs) {tb : Butte.Table} {i : Nat} {f : Ir.Field} {g : GField}
    (hf : t.fields[i]? = some f) (hg : gs[i]? = some g) {x : Option g.kind.Inner}
    (h : Gen.accessor md tb gs g = .ok x) : ∃ v, encOption (encResult f.ty g.kind) g.required x = some v := by
  obtain ⟨g', e0, -, -, -, hk⟩ := A.fields i f hf
  rw [hg] at e0
  cases e0
  unfold Gen.accessor at h
  obtain ⟨y, hy, h'⟩ := Res.bind_eq_ok.mp h
  clear h
  rename' h' => h
  cases y with
  | none =>
    cases hr : g.required with
    | true => simp [okOr, hr] at h
    | false =>
      simp only [okOr, hr, Bool.false_eq_true, if_false, Res.ok.injEq] at h
      subst h
      exact ⟨.none, rfl⟩
  | some y =>
    simp only [okOr, Res.ok.injEq] at h
    subst h
    suffices hs : ∃ v, encResult f.ty g.kind y = some v by
      obtain ⟨v, hv⟩ := hs
      cases g.required with
      | true => exact ⟨v, by simp [encOption, hv]⟩
      | false => exact ⟨.some v, by simp [encOption, hv]⟩
    revert y
    generalize Gen.tagOf md tb gs g.name = tag
    generalize g.kind = k at hk ⊢
    generalize f.ty = ty at hk ⊢
    generalize f.default = d at hk
    intro y hy
    cases k with
    | scalar st dd => exact ⟨.scalar st y, by cases ty <;> rfl⟩
    | enum st vals dd =>
      cases ty with
      | enum q vs b =>
        simp only [kindOf, Option.bind_eq_bind, Option.bind_eq_some_iff] at hk
        obtain ⟨xs, hx, hk⟩ := hk
        have hlt := Gen.get_enum_lt hy
        have hlen : vals.length = vs.length := by
          have hl := (enumValues_some hx).2.1
          cases d with
          | none =>
            simp only [Option.pure_def, Option.some.injEq, Kind.enum.injEq] at hk
            obtain ⟨rfl, hk, -⟩ := hk
            rw [← eq_of_heq hk]
            exact hl
          | some d =>
            simp only [Option.bind_eq_some_iff] at hk
            obtain ⟨j, -, hk⟩ := hk
            split at hk
            · simp only [Option.pure_def, Option.some.injEq, Kind.enum.injEq] at hk
              obtain ⟨rfl, hk, -⟩ := hk
              rw [← eq_of_heq hk]
              exact hl
            · cases hk
        exact encEnum_some (hlen ▸ hlt)
      | _ =>
        cases d with
        | none => simp [kindOf, Option.bind_eq_some_iff] at hk
        | some d => cases d <;> simp [kindOf, Option.bind_eq_some_iff] at hk
    | ref ft =>
      obtain ⟨F, hF, hfe⟩ : ∃ F, follows ty = some F ∧ F.fty = .fwdU ft := by
        cases d with
        | some d =>
          exfalso
          cases ty with
          | builtin b => cases d <;> simp [kindOf, Option.bind_eq_some_iff] at hk
          | enum q vs b =>
            simp only [kindOf, Option.bind_eq_bind, Option.bind_eq_some_iff] at hk
            obtain ⟨xs, hx, j, hj, hk⟩ := hk
            split at hk <;> simp at hk
          | _ => simp [kindOf, Option.bind_eq_some_iff] at hk
        | none =>
          cases ty with
          | builtin b => simp [kindOf, Option.bind_eq_some_iff] at hk
          | string => simp only [kindOf, Option.some.injEq, Kind.ref.injEq] at hk; subst hk; exact ⟨_, rfl, rfl⟩
          | table q => simp only [kindOf, Option.some.injEq, Kind.ref.injEq] at hk; subst hk; exact ⟨_, rfl, rfl⟩
          | struct q fs => simp [kindOf, Option.bind_eq_some_iff] at hk
          | union q e vs => simp [kindOf, Option.bind_eq_some_iff] at hk
          | enum q vs b => simp [kindOf, Option.bind_eq_some_iff] at hk
          | array a =>
            simp only [kindOf, Option.bind_eq_bind, Option.bind_eq_some_iff, Option.pure_def, Option.some.injEq,
              Kind.ref.injEq] at hk
            obtain ⟨e', he, rfl⟩ := hk
            rw [← follows_fty a, Option.map_eq_some_iff] at he
            obtain ⟨E, hE, rfl⟩ := he
            exact ⟨.fwd (.vector E), by rw [follows, hE]; rfl, rfl⟩
      obtain ⟨v, hv⟩ := get_encInner hF hfe (show tb.get md (.fwdU ft) g.slot none = .ok (some y) from hy)
      refine ⟨v, ?_⟩
      rw [← hv]
      cases ty <;> simp only [encResult, hF, Option.bind_eq_bind, Option.bind_some]
    | union fs =>
      cases tag with
      | err e => cases hy
      | panic => cases hy
      | ok tg =>
        cases tg with
        | none => cases hy
        | some j =>
          cases j with
          | zero => cases hy
          | succ j =>
            by_cases hj : j < fs.length
            · rw [fetch_succ hj] at hy
              cases hg : tb.get md fs[j] g.slot none with
              | err e => rw [hg] at hy; cases hy
              | panic => rw [hg] at hy; cases hy
              | ok x =>
                rw [hg] at hy
                cases x with
                | none => cases hy
                | some x =>
                  simp only [Option.map_some, Res.ok.injEq, Option.some.injEq] at hy
                  subst hy
                  cases ty with
                  | union q e vs =>
                    obtain ⟨-, fs', hfs, h⟩ := Gen.kindOf_union_iff.mp hk
                    cases h
                    obtain ⟨w, hw, hwf⟩ := (forall₂_getElem? (mapM_forall₂ hfs)).2 (List.getElem?_eq_getElem hj)
                    rw [← follows_fty, Option.map_eq_some_iff] at hwf
                    obtain ⟨F, hF, hfe⟩ := hwf
                    obtain ⟨v, hv⟩ := get_encInner hF hfe hg
                    rw [encResult_member hj hw hF, hv]
                    exact ⟨_, rfl⟩
                  | builtin b =>
                    rcases d with _ | d
                    · simp [kindOf, Option.bind_eq_some_iff] at hk
                    · cases d <;> simp [kindOf, Option.bind_eq_some_iff] at hk
                  | enum q vs b =>
                    rcases d with _ | d
                    · simp [kindOf, Option.bind_eq_some_iff] at hk
                    · simp only [kindOf, Option.bind_eq_bind, Option.bind_eq_some_iff] at hk
                      obtain ⟨xs, hx, j, hj, hk⟩ := hk
                      split at hk <;> simp at hk
                  | _ => cases d <;> simp [kindOf, Option.bind_eq_some_iff] at hk
            · exfalso
              have : (Kind.union fs).fetch md tb g.slot (.ok (some (j + 1))) = .panic := by
                show (if h : j < fs.length then _ else _) = _
                rw [dif_neg hj]
              rw [this] at hy
              cases hy

end

end Butte.Rs
