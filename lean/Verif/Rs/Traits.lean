import Verif.Rs.Calls
/-
The functions of the emitted program that belong to traits, and the functions for enums.
-/
namespace Butte.Rs
open Ir (QIdent)
open Gen (formatIdent formatIdent_eq)

/-- The function `f` of an implementation of trait `tr` for the item `n` of module `m`. -/
def traitFn (P : Program) (m : List Str) (n : Str) (tr : Def) (f : Str) : Option (List Str × Fn) :=
  match (implsOf P m n).flatMap fun i =>
    if i.2.1.bind (defOf P ⟨m, i.1, none⟩) = some tr then (i.2.2.2.filter fun g => g.name == f).map fun g => (i.1, g)
    else [] with
  | [g] => some g
  | _ => none

/-- A call `<T as Trait>::f(args)` from outside. -/
def callTrait (md : Mode) (P : Program) (fuel : Nat) (m : List Str) (n : Str) (tr : Def) (f : Str) (args : List Value) :
    M Value := do
  let (gs, g) ← need (traitFn P m n tr f)
  let vars ← need (bindParams g.params args)
  endCall (evalBlock (eval md P fuel ⟨m, gs, some (.item m n)⟩) vars g.body g.value)

/-- A call `<t as From<E>>::from(v)` from outside, `t` being a primitive type. -/
def convert (md : Mode) (P : Program) (fuel : Nat) (t : STy) (m : List Str) (n : Str) (v : Value) : M Value := do
  let g ← need (fromImpl P t m n)
  let vars ← need (bindParams g.params [v])
  endCall (evalBlock (eval md P fuel ⟨m, [], some (.prim t)⟩) vars g.body g.value)

/-- The function of this name in module `m`. -/
def freeFn (P : Program) (m : List Str) (f : Str) : Option Fn :=
  match P.filter fun x => x.1 == m && x.2.introduces == some (.value, f) with
  | [(_, .fn g)] => some g
  | _ => none

/-- A call of a function that belongs to no type. -/
def callFree (md : Mode) (P : Program) (fuel : Nat) (m : List Str) (f : Str) (args : List Value) : M Value := do
  let g ← need (freeFn P m f)
  let vars ← need (bindParams g.params args)
  endCall (evalBlock (eval md P fuel ⟨m, [], none⟩) vars g.body g.value)

section
variable {gm md : Mode} {P : Program} {k : Nat}

theorem callTrait_eq {m : List Str} {n : Str} {tr : Def} {f : Str} {args : List Value} {gs : List Str} {g : Fn}
    (h : traitFn P m n tr f = some (gs, g)) :
    callTrait md P k m n tr f args = invoke md P k ⟨m, gs, some (.item m n)⟩ g args := by
  unfold callTrait invoke
  rw [h]
  rfl

theorem convert_eq {t : STy} {m : List Str} {n : Str} {v : Value} {g : Fn} (h : fromImpl P t m n = some g) :
    convert md P k t m n v = invoke md P k ⟨m, [], some (.prim t)⟩ g [v] := by
  unfold convert invoke
  rw [h]
  rfl

theorem callFree_eq {m : List Str} {f : Str} {args : List Value} {g : Fn} (h : freeFn P m f = some g) :
    callFree md P k m f args = invoke md P k ⟨m, [], none⟩ g args := by
  unfold callFree invoke
  rw [h]
  rfl

theorem resolve_default {sc : Scope} (h : Hygienic P) (hsc : sc.Ok) : resolve P sc [c!"Default"] = some (.std c!"Default") := by
  rw [resolve_outer h hsc (by decide) (by decide) (by decide) (by decide)]
  rfl

end

/-! ### Enums -/

/-- What the program has for an enum: the variants `vs` with the values `xs`. -/
structure EnumAt (P : Program) (q : QIdent) (b : Ir.EnumBase) (vs : List Ir.EnumVariant)
    (xs : List (SVal (Gen.enumBaseSTy b))) : Prop where
  hygienic : Hygienic P
  nodup : P.names.Nodup
  values : Gen.enumValues (Gen.enumBaseSTy b) vs = some xs
  has : HasTy P (.enum q vs b)

/-- A literal and the variant it is for. -/
def LitOf (t : STy) (l : Str × Lit) (y : Str × SVal t) : Prop :=
  l.1 = y.1 ∧ litVal t l.2 = some y.2 ∧ litValue l.2 = some (.scalar t y.2)

section
variable {gm md : Mode} {P : Program} {q : QIdent} {b : Ir.EnumBase} {vs : List Ir.EnumVariant}
  {xs : List (SVal (Gen.enumBaseSTy b))}

/-- Names and values of the variants. -/
abbrev named (vs : List Ir.EnumVariant) {t : STy} (xs : List (SVal t)) : List (Str × SVal t) := (vs.map (·.ident)).zip xs

theorem EnumAt.lits (A : EnumAt P q b vs xs) : ∃ vl, Placed P (modOf q) (enumItems (QIdent.simple q) (baseName b) vl) ∧
    List.Forall₂ (LitOf (Gen.enumBaseSTy b)) vl (named vs xs) ∧ vl.map (·.1) = vs.map (·.ident) := by
  obtain ⟨vl, hv, hp⟩ := A.has
  refine ⟨vl, hp, ?_, ?_⟩
  · have hvl := variantLit_names hv
    have hvals := variants_vals (enumValues_some A.values).1
    have hf := mapM_forall₂ hvals
    rw [← baseName] at hf
    rw [hvl]
    refine List.Forall₂.imp ?_ ((List.forall₂_and_left (p := fun l : Str × Lit => ∃ i s, l.2 = .int i s) _ _).mpr
      ⟨?_, hf⟩)
    · rintro l y ⟨⟨i, s, hl⟩, h⟩
      simp only [Option.bind_eq_bind, Option.bind_eq_some_iff, Option.pure_def, Option.some.injEq] at h
      obtain ⟨x, hx, rfl⟩ := h
      refine ⟨rfl, hx, ?_⟩
      rw [hl] at hx ⊢
      have hs : s = primName (Gen.enumBaseSTy b) := by
        simp only [litVal] at hx
        split at hx
        · assumption
        · cases hx
      subst hs
      simp [litValue, primOf_primName, hx]
    · intro l hl
      simp only [List.mem_map] at hl
      obtain ⟨y, -, rfl⟩ := hl
      exact ⟨_, _, rfl⟩
  · rw [variantLit_names hv, List.map_map]
    simp [Function.comp_def]
    rw [show (fun x : Ir.EnumVariant × Nat => x.1.ident) = (fun v => v.ident) ∘ Prod.fst from rfl, ← List.map_map]
    simp

theorem EnumAt.own (A : EnumAt P q b vs xs) : (⟨modOf q, .type, QIdent.simple q⟩ : Gen.Item) ∈ P.names := by
  obtain ⟨vl, hp, -⟩ := A.lits
  exact hp.mem_names ⟨.enum (QIdent.simple q) (baseName b) vl, by simp [enumItems], rfl⟩

theorem EnumAt.enumOf (A : EnumAt P q b vs xs) :
    enumOf P (modOf q) (QIdent.simple q) = some ⟨Gen.enumBaseSTy b, named vs xs⟩ := by
  obtain ⟨vl, hv, hp⟩ := A.has
  exact enumOf_placed A.nodup hv hp A.values

theorem EnumAt.length (A : EnumAt P q b vs xs) : xs.length = vs.length := (enumValues_some A.values).2.1

theorem EnumAt.names (A : EnumAt P q b vs xs) : (named vs xs).map (·.1) = vs.map (·.ident) :=
  List.map_fst_zip (by simp [A.length])

theorem EnumAt.vals (A : EnumAt P q b vs xs) : (named vs xs).map (·.2) = xs :=
  List.map_snd_zip (by simp [A.length])

/-- The scope of the functions. -/
abbrev enumScope (q : QIdent) : Scope := ⟨modOf q, [], some (.item (modOf q) (QIdent.simple q))⟩

/-- The functions the traits have. -/
theorem EnumAt.traits (A : EnumAt P q b vs xs) : ∃ vl,
    List.Forall₂ (LitOf (Gen.enumBaseSTy b)) vl (named vs xs) ∧ vl.map (·.1) = vs.map (·.ident) ∧
    traitFn P (modOf q) (QIdent.simple q) (.std c!"Default") c!"default" = some ([], enumDefaultFn (QIdent.simple q) vl) ∧
    traitFn P (modOf q) (QIdent.simple q) (.butte c!"Follow") c!"follow" = some ([], enumFollowFn (baseName b)) ∧
    traitFn P (modOf q) (QIdent.simple q) (.std c!"TryFrom") c!"try_from" =
      some ([], enumTryFromFn (QIdent.simple q) (baseName b) vl) ∧
    fnOf P (modOf q) (QIdent.simple q) c!"try_from" = some ([], enumTryFromFn (QIdent.simple q) (baseName b) vl) ∧
    fnOf P (modOf q) (QIdent.simple q) c!"default" = some ([], enumDefaultFn (QIdent.simple q) vl) ∧
    traitFn P (modOf q) (QIdent.simple q) (.butte c!"Push") c!"push" = some ([], enumPushFn (baseName b)) ∧
    fromImpl P (Gen.enumBaseSTy b) (modOf q) (QIdent.simple q) = some (enumIntoFn (QIdent.simple q) (baseName b) vl) ∧
    freeFn P (modOf q) (c!"enum_name_" ++ Heck.snake (QIdent.simple q)) = some (enumNameFn (QIdent.simple q) vl) := by
  obtain ⟨vl, hp, hl, hn⟩ := A.lits
  have pl := (Plain.of_reserved (A.hygienic.plain A.own)).prim
  have hi := enum_impls hp A.nodup pl ⟨_, rfl⟩
  have h1 := resolve_default (P := P) (sc := ⟨modOf q, [], none⟩) A.hygienic (.inl rfl)
  have h2 := resolve_tryFrom (P := P) (sc := ⟨modOf q, [], none⟩) A.hygienic (.inl rfl)
  have h3 := resolve_butte (P := P) (sc := ⟨modOf q, [], none⟩) A.hygienic (.inl rfl)
  refine ⟨vl, hl, hn, ?_, ?_, ?_, enum_tryFrom hp A.nodup pl ⟨_, rfl⟩, enum_default hp A.nodup pl ⟨_, rfl⟩, ?_,
    enum_fromImpl A.hygienic A.nodup hp, ?_⟩
  · simp [traitFn, hi, defOf, followPath, h1, h2, h3, enumDefaultFn]
  · simp [traitFn, hi, defOf, followPath, h1, h2, h3, enumFollowFn]
  · simp [traitFn, hi, defOf, followPath, h1, h2, h3, enumTryFromFn]
  · simp [traitFn, hi, defOf, followPath, h1, h2, h3, enumPushFn]
  · obtain ⟨A', B', rfl, -, -⟩ := hp
    have hnd := A.nodup
    rw [names_append, names_append, List.nodup_append, List.nodup_append] at hnd
    obtain ⟨⟨-, -, n1⟩, -, n2⟩ := hnd
    have hm : (⟨modOf q, .value, c!"enum_name_" ++ Heck.snake (QIdent.simple q)⟩ : Gen.Item) ∈
        Program.names ((enumItems (QIdent.simple q) (baseName b) vl).map (modOf q, ·)) := by
      simp [enumItems, Program.names, Item.introduces, enumNameFn]
    have out : ∀ R : Program, (⟨modOf q, .value, c!"enum_name_" ++ Heck.snake (QIdent.simple q)⟩ : Gen.Item) ∉ R.names →
        R.filter (fun x => x.1 == modOf q &&
          x.2.introduces == some (.value, c!"enum_name_" ++ Heck.snake (QIdent.simple q))) = [] := by
      intro R hR
      rw [List.filter_eq_nil_iff]
      intro x hx hc
      simp only [Bool.and_eq_true, beq_iff_eq] at hc
      refine hR (List.mem_filterMap.mpr ⟨x, hx, ?_⟩)
      rw [hc.2, hc.1]
      rfl
    unfold freeFn
    rw [List.filter_append, List.filter_append, out A' fun hc => n1 _ hc _ hm rfl,
      out B' fun hc => n2 _ (List.mem_append_right _ hm) _ hc rfl]
    simp [enumItems, Item.introduces, enumDefault, enumFollow, enumTryFrom, enumInto, enumPush, enumNameFn]

end

end Butte.Rs
