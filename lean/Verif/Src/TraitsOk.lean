import Verif.Src.Traits
import Verif.Src.LifetimesAll
/-
The generated items keep the rules for traits: types and what has which trait.
-/
namespace Butte.Src
open Ir (QIdent Node Ident itemsOf)
open Rs (Program Setting WellTyped Hygienic modOf DefinedTy pathTokens fwdPath wipPath vectorPath)

/-! ### Declarations -/

/-- Names are declared once, so the item that is found is the one that is there. -/
theorem item_of {F : File} (he : eraseItems [] F.items = some F.prog) (hn : F.prog.names.Nodup) {m : List Str} {i : Item}
    {n : Str} {gs : List GParam} (hi : (m, i) ∈ flatItems [] F.items) (hd : i.declares = some (n, gs)) : F.item m n = some i := by
  have hs := (items_declared [] F.items F.prog he).nodup hn
  unfold File.item
  generalize flatItems [] F.items = l at hi hs
  induction l with
  | nil => cases hi
  | cons x l ih =>
    rw [List.findSome?_cons]
    rw [List.filterMap_cons] at hs
    rcases List.mem_cons.mp hi with rfl | hi'
    · simp [hd]
    · cases hx : x.2.declares with
      | none =>
        simp only
        exact ih hi' (by simpa [declared, hx] using hs)
      | some d =>
        obtain ⟨k, gs'⟩ := d
        simp only [declared, hx, Option.map_some, List.nodup_cons] at hs
        have : ¬ (x.1 = m ∧ k = n) := by
          rintro ⟨rfl, rfl⟩
          exact hs.1 (List.mem_filterMap.mpr ⟨_, hi', by simp [declared, hd]⟩)
        simp only [if_neg this]
        exact ih hi' hs.2

theorem forget_type (i : Rs.Item) {n : Str} (h : i.introduces = some (.type, n)) : i.forget = i := by
  cases i <;> first | rfl | (simp [Rs.Item.introduces] at h)

theorem introduces_forget (i : Rs.Item) : i.forget.introduces = i.introduces := by
  cases i <;> rfl

/-- What a program declares does not depend on how variants are written. -/
theorem itemOf_forget (P : Program) (m : List Str) (n : Str) : Rs.itemOf P.forget m n = Rs.itemOf P m n := by
  have : ∀ P : Program, P.forget.filter (fun x => x.1 == m && x.2.introduces == some (.type, n)) =
      P.filter fun x => x.1 == m && x.2.introduces == some (.type, n) := by
    intro P
    induction P with
    | nil => rfl
    | cons x P ih =>
      obtain ⟨k, i⟩ := x
      simp only [Program.forget, List.map_cons] at ih ⊢
      rw [List.filter_cons, List.filter_cons, introduces_forget, ih]
      split
      · rename_i h
        simp only [Bool.and_eq_true, beq_iff_eq] at h
        rw [forget_type i h.2]
      · rfl
  simp only [Rs.itemOf, this]

/-! ### What paths stand for -/

/-- What the paths stand for that are always the same. -/
structure Paths (P : Program) (m gs : List Str) : Prop where
  butte : ∀ s b, Rs.resolve P ⟨m, gs, s⟩ [c!"butte", b] = some (.butte b)
  std : ∀ s b, Rs.resolve P ⟨m, gs, s⟩ [c!"std", c!"convert", b] = some (.std b)
  str : ∀ s, Rs.resolve P ⟨m, gs, s⟩ [c!"str"] = some .str
  usize : ∀ s, Rs.resolve P ⟨m, gs, s⟩ [c!"usize"] = some .usize
  prim : ∀ s t, Rs.resolve P ⟨m, gs, s⟩ [Rs.primName t] = some (.prim t)
  u8 : ∀ s, Rs.resolve P ⟨m, gs, s⟩ [c!"u8"] = some (.prim .u8)
  option : ∀ s, Rs.resolve P ⟨m, gs, s⟩ [c!"Option"] = some (.std c!"Option")
  result : ∀ s, Rs.resolve P ⟨m, gs, s⟩ [c!"Result"] = some (.std c!"Result")
  default : ∀ s, Rs.resolve P ⟨m, gs, s⟩ [c!"Default"] = some (.std c!"Default")
  from_ : ∀ s, Rs.resolve P ⟨m, gs, s⟩ [c!"From"] = some (.std c!"From")

theorem Paths.of {P : Program} (h : Hygienic P) (m : List Str) {gs : List Str} (hg : gs = [] ∨ gs = [c!"B"]) : Paths P m gs := by
  have key : ∀ s p q, q ∈ [c!"std", c!"str", c!"usize", c!"Option", c!"Result", c!"Default", c!"From"] →
      Rs.resolve P ⟨m, gs, s⟩ (q :: p) = Rs.outer (q :: p) := by
    intro s p q hq
    simp only [List.mem_cons, List.not_mem_nil, or_false] at hq
    rcases hq with rfl | rfl | rfl | rfl | rfl | rfl | rfl <;>
      exact Rs.resolve_outer h (sc := ⟨m, gs, s⟩) hg (by decide) (by decide) (by decide) (by decide)
  exact
    { butte := fun s b => Rs.resolve_butte h (sc := ⟨m, gs, s⟩) hg b
      std := fun s b => by rw [key _ _ _ (by simp)]; simp [Rs.outer]
      str := fun s => by rw [key _ _ _ (by simp)]; rfl
      usize := fun s => by rw [key _ _ _ (by simp)]; rfl
      prim := fun s t => Rs.resolve_prim h (sc := ⟨m, gs, s⟩) hg t
      u8 := fun s => Rs.resolve_prim h (sc := ⟨m, gs, s⟩) hg .u8
      option := fun s => by rw [key _ _ _ (by simp)]; rfl
      result := fun s => by rw [key _ _ _ (by simp)]; rfl
      default := fun s => by rw [key _ _ _ (by simp)]; rfl
      from_ := fun s => by rw [key _ _ _ (by simp)]; rfl }

theorem resolve_B (P : Program) (m : List Str) (s : Option Rs.Def) : Rs.resolve P ⟨m, [c!"B"], s⟩ [c!"B"] = some (.param c!"B") := by
  simp [Rs.resolve]

/-! ### Types -/

/-- The traits that tables, enums and unions all have. -/
def common : List Str := [c!"Copy", c!"Clone", c!"Debug", c!"PartialEq"]

/-- A path to a declaration with these traits. -/
def Known (F : File) (sc : Rs.Scope) (p : List Str) : Prop :=
  p.head? ≠ some c!"Self" ∧ ∃ m n i, Rs.resolve F.prog sc p = some (.item m n) ∧ F.item m n = some i ∧
    ∀ d ∈ common, [d] ∈ derives i.typeAttrs

/-- The declarations of the types of a schema, seen from a scope. -/
def KnownTy (F : File) (sc : Rs.Scope) (ns : Option QIdent) : Ir.Ty → Prop
  | .builtin _ | .string | .array _ => True
  | .table q | .struct q _ | .enum q _ _ | .union q _ _ => Known F sc (QIdent.relative q ns)

section
variable {F : File} {sc : Rs.Scope} {bs : List Str}

theorem common_prim {d : Str} (h : d ∈ common) (t : STy) : d ∈ primTraits t := by
  simp only [common, List.mem_cons, List.not_mem_nil, or_false] at h
  rcases h with rfl | rfl | rfl | rfl <;> cases t <;> decide

theorem Known.has {p : List Str} (h : Known F sc p) {d : Str} (hd : d ∈ common) (c : Bool) {as : List GArg}
    (ha : ∀ t ∈ argTys as, Has F d bs sc t) : Has F d bs sc (.path p c as) := by
  obtain ⟨h0, m, n, i, h1, h2, h3⟩ := h
  exact .item h1 h0 h2 (h3 d hd) ha

theorem bytes_has (h : Rs.resolve F.prog sc [c!"u8"] = some (.prim .u8)) (l : Option Str) {d : Str} (hd : d ∈ common) :
    Has F d bs sc (Full.bytes l) := by
  have hp : ∀ d ∈ common, Has F d bs sc (Full.word c!"u8") := fun d hd => .prim h (common_prim hd .u8)
  have := hd
  simp only [common, List.mem_cons, List.not_mem_nil, or_false] at hd
  rcases hd with rfl | rfl | rfl | rfl
  · exact .ref (by decide)
  · exact .ref (by decide)
  · exact .refTo (by decide) (.slice (by decide) (hp _ this))
  · exact .refTo (by decide) (.slice (by decide) (hp _ this))

theorem table_has {p : List Str} (h : Known F sc p) (hu : Rs.resolve F.prog sc [c!"u8"] = some (.prim .u8)) (l : Option Str) {d : Str}
    (hd : d ∈ common) : Has F d bs sc (.path p false [.ty (Full.bytes l)]) :=
  h.has hd false (by simpa [argTys] using bytes_has hu l hd)

/-- What a union can hold has all the traits. -/
theorem member_has (hu : Rs.resolve F.prog sc [c!"u8"] = some (.prim .u8)) {ns : Option QIdent} {ty : Ir.Ty} {l : Str} {t : Ty}
    (ht : Full.typeToken ns ty l none false = some t) (hk : KnownTy F sc ns ty) (hm : ty ≠ .string ∧ ∀ u, ty ≠ .array u)
    (hb : ∀ b, ty ≠ .builtin b) {d : Str} (hd : d ∈ common) : Has F d bs sc t := by
  cases ty with
  | builtin b => exact absurd rfl (hb b)
  | string => exact absurd rfl hm.1
  | array u => exact absurd rfl (hm.2 u)
  | table q =>
    simp only [Full.typeToken, Option.bind_eq_bind, Option.bind_eq_some_iff, Option.pure_def, Option.some.injEq] at ht
    obtain ⟨p, hp, rfl⟩ := ht
    obtain rfl := pathTokens_eq hp
    exact table_has hk hu _ hd
  | union q e vs =>
    simp only [Full.typeToken, Option.bind_eq_bind, Option.bind_eq_some_iff, Option.pure_def, Option.some.injEq] at ht
    obtain ⟨p, hp, rfl⟩ := ht
    obtain rfl := pathTokens_eq hp
    exact Known.has hk hd false (by simp [argTys])
  | struct q _ | «enum» q _ _ =>
    simp only [Full.typeToken, Option.bind_eq_bind, Option.bind_eq_some_iff, Option.pure_def, Option.some.injEq] at ht
    obtain ⟨p, hp, rfl⟩ := ht
    obtain rfl := pathTokens_eq hp
    exact Known.has hk hd false (by simp [argTys])

/-- Scalars have all the traits. -/
theorem scalar_has (hp : ∀ t, Rs.resolve F.prog sc [Rs.primName t] = some (.prim t)) {ns : Option QIdent} {ty : Ir.Ty} {l : Str}
    {w : Option (List Str)} {o : Bool} {t : Ty} (ht : Full.typeToken ns ty l w o = some t) (hk : KnownTy F sc ns ty)
    (hs : ty.isScalar = true) {d : Str} (hd : d ∈ common) : Has F d bs sc t := by
  cases ty with
  | builtin b =>
    cases ht
    exact .prim (hp _) (common_prim hd _)
  | string | array | table | union => simp [Ir.Ty.isScalar] at hs
  | struct q _ | «enum» q _ _ =>
    simp only [Full.typeToken, Option.bind_eq_bind, Option.bind_eq_some_iff, Option.pure_def, Option.some.injEq] at ht
    obtain ⟨p, hp, rfl⟩ := ht
    obtain rfl := pathTokens_eq hp
    exact Known.has hk hd false (by simp [argTys])

theorem wip_copy (hb : Rs.resolve F.prog sc wipPath = some (.butte c!"WIPOffset")) (c : Bool) (as : List GArg) :
    Has F c!"Copy" bs sc (.path wipPath c as) := .butte hb (by decide)

/-- Arguments are copied. -/
theorem argTy_copy (hb : Rs.resolve F.prog sc wipPath = some (.butte c!"WIPOffset"))
    (hp : ∀ t, Rs.resolve F.prog sc [Rs.primName t] = some (.prim t)) {ns : Option QIdent} {ty : Ir.Ty} {l : Str} {t : Ty}
    (ht : Full.argTy ns ty l = some t) (hk : KnownTy F sc ns ty) : Has F c!"Copy" bs sc t := by
  unfold Full.argTy at ht
  split at ht
  · cases ht
    exact wip_copy hb _ _
  · cases hs : ty.isScalar with
    | true => exact scalar_has hp ht hk hs (by decide)
    | false =>
      cases ty with
      | builtin | struct | «enum» => simp [Ir.Ty.isScalar] at hs
      | string =>
        cases ht
        exact wip_copy hb _ _
      | array u =>
        simp only [Full.typeToken, Option.bind_eq_bind, Option.bind_eq_some_iff, Option.pure_def, Option.some.injEq] at ht
        obtain ⟨c, -, rfl⟩ := ht
        exact wip_copy hb _ _
      | table q =>
        simp only [Full.typeToken, Option.bind_eq_bind, Option.bind_eq_some_iff, Option.pure_def, Option.some.injEq] at ht
        obtain ⟨c, -, rfl⟩ := ht
        exact wip_copy hb _ _
      | union q e vs => simp_all [Ir.Ty.isUnion]

end

theorem derives_comment (doc : Ast.Comment) : derives (Full.comment doc) = [] := by
  simp [derives, Full.comment, Full.docAttr]

theorem derives_append (as bs : List Attr) : derives (as ++ bs) = derives as ++ derives bs := by simp [derives]

theorem derives_derive (ds : List Str) : derives [Full.deriveAttr ds] = ds.map ([·]) := by simp [derives, Full.deriveAttr]

theorem derives_cons (a : Attr) (as : List Attr) : derives (a :: as) = derives [a] ++ derives as := by
  rw [← derives_append]
  rfl

end Butte.Src
