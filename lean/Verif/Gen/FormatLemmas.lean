import Verif.Gen.Format
import Verif.Gen.TreeRead
/-
Lemmas about the FlatBuffers format: bytes and numbers, enum values, defaults.
-/
namespace Butte.Format
open Ir (QIdent)
open Gen (Val Tables below Kind kindOf enumValues variantValues literal builtinSTy enumBaseSTy intLit)

/-! ### Bytes -/

theorem littleEndian_eq : ∀ bs : Bytes, littleEndian bs = leNat bs
  | [] => rfl
  | b :: bs => by rw [littleEndian, leNat, littleEndian_eq bs]

theorem BytesAt.inside {buf bs : Bytes} {p : Nat} (h : BytesAt buf p bs) : p + bs.length ≤ buf.length := by
  obtain ⟨pre, post, rfl, rfl⟩ := h
  simp

theorem BytesAt.toAt {buf bs : Bytes} {p : Nat} (h : BytesAt buf p bs) : At buf (buf.length - p) bs := by
  obtain ⟨pre, post, rfl, rfl⟩ := h
  exact ⟨pre, post, rfl, by simp⟩

theorem BytesAt.of_at {buf bs : Bytes} {rev : Nat} (h : At buf rev bs) : BytesAt buf (buf.length - rev) bs := by
  obtain ⟨pre, post, rfl, rfl⟩ := h
  exact ⟨pre, post, rfl, by simp⟩

theorem NumAt.inside {buf : Bytes} {p n v : Nat} (h : NumAt buf p n v) : p + n ≤ buf.length := by
  obtain ⟨bs, h, rfl, -⟩ := h
  exact h.inside

theorem NumAt.bytes {buf : Bytes} {p n v : Nat} (h : NumAt buf p n v) : BytesAt buf p (leBytes n v) ∧ v < 256 ^ n := by
  obtain ⟨bs, h, rfl, rfl⟩ := h
  rw [littleEndian_eq]
  exact ⟨by rw [leBytes_leNat]; exact h, leNat_lt bs⟩

theorem NumAt.of_bytes {buf : Bytes} {p n v : Nat} (h : BytesAt buf p (leBytes n v)) (hv : v < 256 ^ n) : NumAt buf p n v :=
  ⟨_, h, leBytes_length .., by rw [littleEndian_eq, leNat_leBytes, Nat.mod_eq_of_lt hv]⟩

theorem NumAt.of_at {buf : Bytes} {rev n v : Nat} (h : At buf rev (leBytes n v)) (hv : v < 256 ^ n) :
    NumAt buf (buf.length - rev) n v := .of_bytes (.of_at h) hv

theorem NumAt.toAt {buf : Bytes} {p n v : Nat} (h : NumAt buf p n v) : At buf (buf.length - p) (leBytes n v) :=
  h.bytes.1.toAt

theorem sub_sub_self' {p n l : Nat} (h : p + n ≤ l) : l - (l - p) = p := by omega

/-! ### Reading numbers -/

theorem NumAt.read {m : Mode} {buf : Bytes} {p : Nat} {t : STy} {x : SVal t} (h : NumAt buf p t.size x.val)
    (hl : buf.length < 2 ^ 31) : readScalarAt m t buf p = .ok x := by
  have h1 : At buf (buf.length - p) x.bytes := h.toAt
  have := h1.read_scalar (m := m) (by have : isizeMax = 2 ^ 63 - 1 := rfl; omega)
  rwa [sub_sub_self' h.inside] at this

theorem NumAt.readNat {m : Mode} {buf : Bytes} {p v : Nat} {t : STy} (h : NumAt buf p t.size v) (ht : v < t.card)
    (hl : buf.length < 2 ^ 31) : readNatAt m t buf p = .ok v := by
  unfold readNatAt
  rw [NumAt.read (x := ⟨v, ht⟩) h hl]
  rfl

theorem OffsetAt.follow {m : Mode} {buf : Bytes} {p o : Nat} (h : OffsetAt buf p o) (hl : buf.length < 2 ^ 31) (F : FTy) :
    FTy.follow m (.fwdU F) buf p = F.follow m buf (p + o) := by
  have hi := h.1.inside
  obtain ⟨hb, hv⟩ := h.1.bytes
  simp only [FTy.follow]
  rw [addU_ok (by omega)]
  simp only [Res.ok_bind]
  have hs := hb.toAt.slice_get
  rw [leBytes_length, sub_sub_self' hi] at hs
  rw [hs]
  simp only [Res.ok_bind]
  have hc : o < STy.card .u32 := hv
  have hr : readScalar .u32 (leBytes 4 o) = .ok ⟨o, hc⟩ := readScalar_bytes (t := .u32) ⟨o, hc⟩
  rw [hr]
  simp only [Res.ok_bind]
  rw [addU_ok (by omega)]
  rfl

/-! ### Scalars -/

theorem width_eq (t : Ast.Builtin) : width t = (builtinSTy t).size := by cases t <;> rfl

theorem baseWidth_eq (b : Ir.EnumBase) : baseWidth b = (enumBaseSTy b).size := by cases b <;> rfl

theorem ScalarAt.val {buf : Bytes} {p x : Nat} {t : Ast.Builtin} (h : ScalarAt buf p t x) :
    ∃ y : SVal (builtinSTy t), y.val = x ∧ NumAt buf p (builtinSTy t).size y.val := by
  obtain ⟨h1, h2⟩ := h
  have hlt := h1.bytes.2
  rw [width_eq] at h1 hlt
  have : x < (builtinSTy t).card := by
    cases t <;> first
      | exact hlt
      | (have := h2 rfl; show x < 2; omega)
  exact ⟨⟨x, this⟩, rfl, h1⟩

theorem SVal.val_lt {t : STy} (x : SVal t) : x.val < 256 ^ t.size := by
  have := x.isLt
  cases t <;> first
    | exact this
    | (have : x.val < 2 := this; show x.val < 256; omega)

theorem ScalarAt.of_val {buf : Bytes} {rev : Nat} {t : Ast.Builtin} {x : SVal (builtinSTy t)} (h : At buf rev x.bytes) :
    ScalarAt buf (buf.length - rev) t x.val := by
  refine ⟨?_, ?_⟩
  · rw [width_eq]; exact .of_at h (SVal.val_lt x)
  · rintro rfl
    have : x.val < 2 := x.isLt
    omega

/-! ### Enum values -/

theorem intLit_val {s : Bool} {w : Nat} {i : Int} {n : Nat} (h : intLit s w i = some n) : n = (i % 2 ^ w).toNat := by
  unfold intLit at h
  split at h
  · split at h
    · cases h; rfl
    · cases h
  · split at h
    · rename_i hc
      cases h
      rw [Int.emod_eq_of_lt hc.1 hc.2]
    · cases h

theorem literal_val {base : Ir.EnumBase} {i : Int} {x : SVal (enumBaseSTy base)}
    (h : literal (enumBaseSTy base) (.integer i) = some x) : x.val = (i % 2 ^ (8 * baseWidth base)).toNat := by
  have key : ∀ {s : Bool} {w : Nat} {t : STy}, t.card = 2 ^ w → ∀ {x : SVal t},
      (intLit s w i).map (Fin.ofNat _) = some x → x.val = (i % 2 ^ w).toNat := by
    intro s w t ht x h
    obtain ⟨n, h1, rfl⟩ := Option.map_eq_some_iff.mp h
    have h2 := intLit_val h1
    have h3 := ofSigned_lt w i
    unfold ofSigned at h3
    simp only [Fin.ofNat, ht]
    rw [Nat.mod_eq_of_lt (by omega), h2]
  cases base <;> exact key (by rfl) h

theorem variantValues_val {base : Ir.EnumBase} : ∀ {vs : List Ir.EnumVariant} {k : Nat} {xs : List (SVal (enumBaseSTy base))},
    variantValues (enumBaseSTy base) k vs = some xs →
    xs.map (·.val) = (vs.mapIdx fun i v => v.value.getD ((k + i : Nat) : Int)).map
      fun n => (n % 2 ^ (8 * baseWidth base)).toNat
  | [], k, xs, h => by cases h; rfl
  | v :: vs, k, xs, h => by
    simp only [variantValues, Option.bind_eq_bind, Option.bind_eq_some_iff] at h
    obtain ⟨x, hx, ys, hy, h⟩ := h
    cases h
    have ih := variantValues_val hy
    rw [List.mapIdx_cons, List.map_cons, List.map_cons, ih, literal_val hx]
    congr 1
    congr 1
    apply List.ext_getElem?
    intro i
    simp only [List.getElem?_mapIdx]
    rw [show k + 1 + i = k + (i + 1) by omega]

/-- The numbers of an enum for which there is code. -/
theorem enum_number {base : Ir.EnumBase} {vs : List Ir.EnumVariant} {xs : List (SVal (enumBaseSTy base))}
    (h : enumValues (enumBaseSTy base) vs = some xs) :
    xs.map (·.val) = (generated.numbers vs).map fun n => (n % 2 ^ (8 * baseWidth base)).toNat := by
  have := variantValues_val (Gen.enumValues_ok h).2.1
  simpa [generated] using this

theorem VariantAt.val {D : Dialect} {buf : Bytes} {p i : Nat} {base : Ir.EnumBase} {vs : List Ir.EnumVariant}
    {xs : List (SVal (enumBaseSTy base))} (h : VariantAt D buf p vs base i)
    (hv : enumValues (enumBaseSTy base) vs = some xs) (hD : D.numbers vs = generated.numbers vs) :
    ∃ hi : i < xs.length, NumAt buf p (enumBaseSTy base).size xs[i].val := by
  obtain ⟨n, h1, h2⟩ := h
  have e := enum_number hv
  rw [hD] at h1
  have h3 : (xs.map (·.val))[i]? = some (n % 2 ^ (8 * baseWidth base)).toNat := by
    rw [e, List.getElem?_map, h1]; rfl
  obtain ⟨h4, h5⟩ := List.getElem?_eq_some_iff.mp h3
  refine ⟨by simpa using h4, ?_⟩
  rw [List.getElem_map] at h5
  rw [h5, ← baseWidth_eq]
  exact h2

theorem VariantAt.of_val {D : Dialect} {buf : Bytes} {rev i : Nat} {base : Ir.EnumBase} {vs : List Ir.EnumVariant}
    {xs : List (SVal (enumBaseSTy base))} (hv : enumValues (enumBaseSTy base) vs = some xs)
    (hD : D.numbers vs = generated.numbers vs) (hi : i < xs.length) (h : At buf rev (xs[i]).bytes) :
    VariantAt D buf (buf.length - rev) vs base i := by
  have e := enum_number hv
  have h3 : (xs.map (·.val))[i]? = some xs[i].val := by simp [hi]
  rw [e, List.getElem?_map, Option.map_eq_some_iff] at h3
  obtain ⟨n, h4, h5⟩ := h3
  refine ⟨n, by rw [hD]; exact h4, ?_⟩
  unfold IntAt
  rw [h5, baseWidth_eq]
  exact .of_at h (SVal.val_lt _)

/-! ### Defaults -/

theorem absent_eq {f : Ir.Field} {k : Kind} (h : kindOf f.ty f.default = some k) : generated.absent f = k.absent := by
  obtain ⟨id, ty, d, req, doc⟩ := f
  simp only at h
  cases ty with
  | builtin b =>
    cases d with
    | none => cases h; rfl
    | some d =>
      cases d with
      | ident i => cases h
      | scalar s =>
        simp only [kindOf, Option.bind_eq_bind, Option.bind_eq_some_iff] at h
        obtain ⟨x, h1, h2⟩ := h
        cases h2
        simp only [generated, h1]
        rfl
  | enum i vs b =>
    obtain ⟨xs, d', rfl, h1, h2, h3⟩ := Gen.kindOf_enum h
    cases d with
    | none =>
      have := h3.mpr rfl
      subst this
      rfl
    | some d =>
      cases d with
      | scalar s =>
        simp only [Option.bind_some, Gen.enumDefault, Option.map_eq_none_iff] at h2
        exact absurd (h3.mp h2) (by simp)
      | ident j =>
        simp only [Option.bind_some, Gen.enumDefault] at h2
        simp only [generated, ← h2, Kind.absent, Option.map_map]
        rfl
  | union i e uvs =>
    obtain ⟨-, fs, h1, rfl⟩ := Gen.kindOf_union_iff.mp h
    cases d with
    | none => rfl
    | some d => rfl
  | struct i fs => cases d <;> cases h
  | string => cases d <;> cases h; rfl
  | array t =>
    cases d with
    | none =>
      simp only [kindOf, Option.bind_eq_bind, Option.bind_eq_some_iff] at h
      obtain ⟨fs, h1, h2⟩ := h
      cases h2; rfl
    | some d => cases h
  | table q => cases d <;> cases h; rfl

end Butte.Format
