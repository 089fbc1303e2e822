import Verif.Rs.Find
/-
What the paths of the emitted program stand for.
-/
namespace Butte.Rs
open Ir (QIdent Node Ident itemsOf)
open Gen (formatIdent formatIdent_eq)

/-- The names that the generated code relies on: the primitive types and what it takes from the prelude, the crates, the type
parameter, and the path words. -/
def reserved : List Str :=
  [c!"bool", c!"i8", c!"u8", c!"i16", c!"u16", c!"i32", c!"u32", c!"i64", c!"u64", c!"f32", c!"f64", c!"str", c!"usize",
   c!"Option", c!"Result", c!"Default", c!"From", c!"butte", c!"std", c!"B", c!"Self", c!"super"]

/-- No type or module of the program has one of these names. -/
def Hygienic (P : Program) : Prop := ∀ i ∈ P.names, i.space = .type → i.name ∉ reserved

theorem primName_reserved (t : STy) : primName t ∈ reserved := by cases t <;> decide

theorem primOf_primName (t : STy) : primOf (primName t) = some t := by cases t <;> rfl

theorem primName_inj {t u : STy} (h : primName t = primName u) : t = u := by
  have := congrArg primOf h
  rw [primOf_primName, primOf_primName] at this
  exact Option.some.inj this

theorem Hygienic.plain {P : Program} (h : Hygienic P) {m : List Str} {n : Str} (hn : (⟨m, .type, n⟩ : Gen.Item) ∈ P.names) :
    n ∉ reserved := h _ hn rfl

theorem Plain.of_reserved {n : Str} (h : n ∉ reserved) : Plain n where
  prim t e := h (e ▸ primName_reserved t)
  param e := h (e ▸ by decide)

/-- The scopes of the generated code: no type parameter, or `B`. -/
def Scope.Ok (sc : Scope) : Prop := sc.generics = [] ∨ sc.generics = [c!"B"]

theorem Scope.Ok.not_mem {sc : Scope} (h : sc.Ok) {s : Str} (hs : s ≠ c!"B") : s ∉ sc.generics := by
  rcases h with h | h <;> simp [h, hs]

section
variable {P : Program} {sc : Scope}

/-- A path that starts with a name the program does not declare. -/
theorem resolve_outer (h : Hygienic P) (hsc : sc.Ok) {s : Str} {p : List Str} (hs : s ∈ reserved) (hB : s ≠ c!"B")
    (hS : s ≠ c!"Self") (hsup : s ≠ c!"super") : resolve P sc (s :: p) = outer (s :: p) := by
  have h1 : (⟨sc.module, .type, s⟩ : Gen.Item) ∉ P.names := fun hc => h.plain hc hs
  simp [resolve, hS, hsc.not_mem hB, hsup, h1]

theorem resolve_prim (h : Hygienic P) (hsc : sc.Ok) (t : STy) : resolve P sc [primName t] = some (.prim t) := by
  rw [resolve_outer h hsc (primName_reserved t) (by cases t <;> decide) (by cases t <;> decide) (by cases t <;> decide)]
  simp [outer, primOf_primName]

theorem resolve_str (h : Hygienic P) (hsc : sc.Ok) : resolve P sc [c!"str"] = some .str := by
  rw [resolve_outer h hsc (by decide) (by decide) (by decide) (by decide)]
  rfl

theorem resolve_from (h : Hygienic P) (hsc : sc.Ok) : resolve P sc [c!"From"] = some (.std c!"From") := by
  rw [resolve_outer h hsc (by decide) (by decide) (by decide) (by decide)]
  rfl

theorem resolve_tryFrom (h : Hygienic P) (hsc : sc.Ok) :
    resolve P sc [c!"std", c!"convert", c!"TryFrom"] = some (.std c!"TryFrom") := by
  rw [resolve_outer h hsc (by decide) (by decide) (by decide) (by decide)]
  rfl

theorem resolve_butte (h : Hygienic P) (hsc : sc.Ok) (x : Str) : resolve P sc [c!"butte", x] = some (.butte x) := by
  rw [resolve_outer h hsc (by decide) (by decide) (by decide) (by decide)]
  simp [outer]

theorem resolve_self : resolve P sc [c!"Self"] = sc.self := by simp [resolve]

theorem lookup_head {items : List Gen.Item} {cur : List Str} {s : Str} {p : List Str} {i : Gen.Item}
    (h : Gen.lookup items cur (s :: p) = some i) : s = c!"super" ∨ (⟨cur, .type, s⟩ : Gen.Item) ∈ items := by
  cases p with
  | nil =>
    rw [Gen.lookup] at h
    split at h
    · exact .inr (by tauto)
    · cases h
  | cons t p =>
    rw [Gen.lookup] at h
    split at h
    · exact .inl (by assumption)
    · split at h
      · exact .inr (by assumption)
      · cases h

/-- A path that leads somewhere. -/
theorem resolve_lookup (h : Hygienic P) (hsc : sc.Ok) {p : List Str} {i : Gen.Item}
    (hl : Gen.lookup P.names sc.module p = some i) : resolve P sc p = some (.item i.module i.name) := by
  cases p with
  | nil => simp [Gen.lookup] at hl
  | cons s p =>
    have hh := lookup_head hl
    have hB : s ≠ c!"B" := by
      rintro rfl
      rcases hh with e | hm
      · cases e
      · exact h.plain hm (by decide)
    have hS : s ≠ c!"Self" := by
      rintro rfl
      rcases hh with e | hm
      · cases e
      · exact h.plain hm (by decide)
    simp [resolve, hS, hsc.not_mem hB, hh, hl]

/-- The name of something in the same module. -/
theorem resolve_own (h : Hygienic P) (hsc : sc.Ok) {n : Str} (hn : (⟨sc.module, .type, n⟩ : Gen.Item) ∈ P.names) :
    resolve P sc [n] = some (.item sc.module n) := by
  refine resolve_lookup h hsc (i := ⟨sc.module, .type, n⟩) ?_
  rw [Gen.lookup, if_pos]
  refine ⟨?_, hn⟩
  rintro rfl
  exact h.plain hn (by decide)

theorem implements_of (h : Hygienic P) {m : List Str} {n tr : Str} {gs : List Str} {cs : List (Str × Fin 65536)}
    {fs : List Fn} (hg : gs = [] ∨ gs = [c!"B"]) (hi : (gs, some (.path [c!"butte", tr]), cs, fs) ∈ implsOf P m n) :
    implements P m n tr = true := by
  simp only [implements, List.any_eq_true]
  refine ⟨_, hi, ?_⟩
  have := resolve_butte (sc := ⟨m, gs, none⟩) h hg tr
  simp [this]

end

/-! ### Conversions -/

theorem enum_fromImpl {P : Program} {m : List Str} {n : Str} {t : STy} {vs : List (Str × Lit)} (hh : Hygienic P)
    (hn : P.names.Nodup) (h : Placed P m (enumItems n (primName t) vs)) :
    fromImpl P t m n = some (enumIntoFn n (primName t) vs) := by
  have hmem : (⟨m, .type, n⟩ : Gen.Item) ∈ P.names :=
    h.mem_names ⟨.enum n (primName t) vs, by simp [enumItems], rfl⟩
  have hown := resolve_own (sc := ⟨m, [], none⟩) hh (.inl rfl) hmem
  have hres := hh.plain hmem
  obtain ⟨A, B, e, hA, hB⟩ := h
  -- nothing around gives a conversion
  have none : ∀ (R : Program), Closed R → (∀ i ∈ R.names, i ∈ P.names) → (⟨m, .type, n⟩ : Gen.Item) ∉ R.names →
      R.filterMap (conversion P t m n) = [] := by
    intro R hc hsub hR
    rw [List.filterMap_eq_nil_iff]
    intro x hx
    unfold conversion
    split
    · rename_i tr p q cs f e'
      rw [if_neg]
      rintro ⟨-, h2, -, rfl, -⟩
      obtain ⟨k, rfl, ⟨t', rfl⟩ | hk⟩ := hc.source x hx _ _ _ _ _ e'
      · rw [resolve_prim (sc := ⟨x.1, [], Option.none⟩) hh (.inl rfl)] at h2
        cases h2
      · rw [resolve_own (sc := ⟨x.1, [], Option.none⟩) hh (.inl rfl) (hsub _ hk)] at h2
        cases h2
        exact hR hk
    · rfl
  have hN := hn
  rw [e, names_append, names_append, List.nodup_append, List.nodup_append] at hN
  obtain ⟨⟨-, -, h1⟩, -, h2⟩ := hN
  have hq : (⟨m, .type, n⟩ : Gen.Item) ∈ Program.names ((enumItems n (primName t) vs).map (m, ·)) := by
    simp [enumItems, Program.names, Item.introduces]
  have hA' := none A hA (by intro i hi; rw [e, names_append, names_append]; simp [hi]) fun hc => h1 _ hc _ hq rfl
  have hB' := none B hB (by intro i hi; rw [e, names_append, names_append]; simp [hi])
    fun hc => h2 _ (List.mem_append_right _ hq) _ hc rfl
  unfold fromImpl
  have hmid : ((enumItems n (primName t) vs).map (m, ·)).filterMap (conversion P t m n) = [enumIntoFn n (primName t) vs] := by
    have e1 := resolve_from (sc := ⟨m, [], Option.none⟩) hh (.inl rfl)
    have e2 := resolve_tryFrom (sc := ⟨m, [], Option.none⟩) hh (.inl rfl)
    have e3 := resolve_prim (sc := ⟨m, [], Option.none⟩) hh (.inl rfl) t
    have c1 : conversion P t m n (m, enumTryFrom n (primName t) vs) = Option.none := by
      simp [conversion, enumTryFrom, e2]
    have c2 : conversion P t m n (m, enumInto n (primName t) vs) = some (enumIntoFn n (primName t) vs) := by
      simp [conversion, enumInto, e1, e3, hown, enumIntoFn]
    simp only [enumItems, List.map_cons, List.map_nil, List.filterMap_cons, c1, c2]
    rfl
  have : P.filterMap (conversion P t m n) = [enumIntoFn n (primName t) vs] := by
    have := congrArg (List.filterMap (conversion P t m n)) e
    rw [List.filterMap_append, List.filterMap_append, hA', hB', hmid] at this
    exact this
  rw [this]

end Butte.Rs
