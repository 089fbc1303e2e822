import Verif.Mem.WordRelease
import Verif.Mem.Graph
/-
What is read successfully with 64-bit pointers is read with the same result with pointers of 32 bits or more.
-/
namespace Butte.Word
open Mem Gen

/-- A buffer that can exist with pointers of `w` bits. -/
structure Fits (w : Nat) (buf : Bytes) : Prop where
  lo : 32 ≤ w
  hi : w ≤ 64
  len : buf.length < 2 ^ (w - 1)

theorem Fits.two {w : Nat} {buf : Bytes} (h : Fits w buf) : 2 ^ w = 2 * 2 ^ (w - 1) := by
  have := h.lo
  obtain ⟨k, rfl⟩ : ∃ k, w = k + 1 := ⟨w - 1, by omega⟩
  rw [Nat.pow_succ, Nat.mul_comm]; rfl

theorem Fits.big {w : Nat} {buf : Bytes} (h : Fits w buf) : 2 ^ 31 ≤ 2 ^ (w - 1) :=
  Nat.pow_le_pow_right (by decide) (by have := h.lo; omega)

theorem Fits.small {w : Nat} {buf : Bytes} (h : Fits w buf) : 2 ^ (w - 1) ≤ 2 ^ 63 :=
  Nat.pow_le_pow_right (by decide) (by have := h.hi; omega)

theorem Fits.valid {w : Nat} {buf : Bytes} (h : Fits w buf) : buf.Valid := by
  have h1 := h.len
  have h2 := h.small
  have hi : isizeMax = 2 ^ 63 - 1 := rfl
  unfold Bytes.Valid
  omega

/-- The types that generated code reads. -/
def GenTy : FTy → Prop
  | .scalar _ | .enum _ _ => True
  | .fwdU .str | .fwdU .table => True
  | .fwdU (.vector e) => GenTy e
  | _ => False

/-- What a handle points to begins inside the buffer. -/
def Live : (f : FTy) → f.Inner → Prop
  | .fwdU (.vector e), x => (x : Vec e).loc + 4 ≤ (x : Vec e).buf.length
  | .fwdU .table, x => (x : Butte.Table).loc + 4 ≤ (x : Butte.Table).buf.length
  | _, _ => True

section
variable {w : Nat} {buf : Bytes} (hB : Fits w buf) {m : Mode}
include hB

theorem readScalarAtAs_agree {A t : STy} {loc : Nat} {v : SVal t} (h : Butte.readScalarAt m t buf loc = .ok v) :
    (readScalarAtAs w m A t buf loc).res = .ok v ∧ loc < buf.length := by
  obtain ⟨h1, rfl⟩ := readScalarAt_ok h hB.valid
  have h2 := t.size_le
  have h3 := hB.len
  have h4 := hB.two
  have h5 := hB.big
  have h6 := Mem.STy.size_pos t
  refine ⟨?_, by omega⟩
  unfold readScalarAtAs
  simp only [bind_res, liftM_res, within_res, readScalarAs_res]
  rw [addW_ok (by omega)]
  simp only [Res.ok_bind]
  unfold sliceGet
  rw [if_pos ⟨by omega, h1⟩]
  simp only [Res.ok_bind]
  unfold Butte.readScalar
  rw [if_pos (by simp; omega), Nat.add_sub_cancel_left, ofBytes_take, ofBytes_take]

theorem readNatAt_agree {t : STy} {loc n : Nat} (h : Butte.readNatAt m t buf loc = .ok n) :
    (readNatAt w m t buf loc).res = .ok n ∧ loc + t.size ≤ buf.length ∧ n < t.card := by
  have h0 := (Butte.readNatAt_ok h hB.valid).1
  unfold Butte.readNatAt at h
  obtain ⟨v, h1, h⟩ := Res.bind_eq_ok.mp h
  cases h
  refine ⟨?_, h0, v.isLt⟩
  unfold readNatAt readScalarAt
  rw [bind_res, (readScalarAtAs_agree hB h1).1]
  rfl

theorem followStr_agree {loc : Nat} {s : String} (h : Butte.followStr m buf loc = .ok s) :
    (followStr w m buf loc).res = .ok s ∧ loc + 4 ≤ buf.length := by
  have h3 := hB.len
  have h4 := hB.two
  have h5 := hB.big
  have h6 := hB.small
  unfold Butte.followStr at h
  obtain ⟨len, h1, h⟩ := Res.bind_eq_ok.mp h
  obtain ⟨e1, hl, hc⟩ := readNatAt_agree hB h1
  have h4' : STy.size .u32 = 4 := rfl
  have hc' : len < 2 ^ 32 := hc
  rw [addU_ok (by omega)] at h
  simp only [Res.ok_bind] at h
  rw [addU_ok (by omega)] at h
  simp only [Res.ok_bind] at h
  refine ⟨?_, by omega⟩
  unfold followStr
  rw [bind_res, e1]
  simp only [Res.ok_bind, bind_res, liftM_res, ite_res, lift_res]
  rw [addW_ok (by omega)]
  simp only [Res.ok_bind]
  split at h
  · cases h
  · rename_i hin
    rw [addW_ok (by omega)]
    simp only [Res.ok_bind]
    rw [if_neg hin]
    rw [List.getElem?_eq_getElem (by omega)] at h ⊢
    simp only [Res.ok_bind, bind_res, lift_res, ite_res, liftM_res] at h ⊢
    split at h
    · cases h
    · rename_i hz
      rw [if_neg hz]
      obtain ⟨sl, hs, h⟩ := Res.bind_eq_ok.mp h
      rw [hs]
      simp only [Res.ok_bind]
      split at h
      · cases h
        rename_i hu
        simp only [hu]
        rfl
      · cases h

/-- Following an offset gives the same if what it leads to is inside. -/
theorem fwdU_agree {t : FTy} {loc : Nat} {x : t.Inner} (h : (FTy.fwdU t).follow m buf loc = .ok x) :
    loc < buf.length ∧ ∃ l, t.follow m buf l = .ok x ∧
      (l < buf.length → (follow w m (.fwdU t) buf loc).res = (follow w m t buf l).res) ∧
      (m = .release → ∃ l', (follow w m (.fwdU t) buf loc).res = (follow w m t buf l').res) := by
  have h3 := hB.len
  have h4 := hB.two
  have h5 := hB.big
  have h6 := hB.small
  unfold FTy.follow at h
  obtain ⟨e, he, h⟩ := Res.bind_eq_ok.mp h
  obtain ⟨sl, hs, h⟩ := Res.bind_eq_ok.mp h
  obtain ⟨off, ho, h⟩ := Res.bind_eq_ok.mp h
  obtain ⟨l, hl, h⟩ := Res.bind_eq_ok.mp h
  obtain ⟨h1, h2, _, _⟩ := sliceGet_len hs
  have := addU_le he h1 (by decide)
  subst this
  have hoff : off.val < 2 ^ 32 := off.isLt
  rw [addU_ok (by omega)] at hl
  cases hl
  have key : ∀ l', addW w m loc off.val = .ok l' → (follow w m (.fwdU t) buf loc).res = (follow w m t buf l').res := by
    intro l' hl'
    rw [follow]
    simp only [bind_res, liftM_res, within_res, Mem.readScalar_res]
    rw [addW_ok (by omega)]
    simp only [Res.ok_bind]
    rw [hs]
    simp only [Res.ok_bind]
    rw [ho]
    simp only [Res.ok_bind]
    rw [hl']
    rfl
  refine ⟨by omega, _, h, fun hlt => key _ (addW_ok (by omega)), fun hm => ?_⟩
  subst hm
  cases hl' : addW w .release loc off.val with
  | ok l' => exact ⟨l', key l' hl'⟩
  | err e => unfold addW at hl'; split at hl' <;> cases hl'
  | panic => exact absurd hl' (addW_calm _ _ _)

theorem follow_agree {f : FTy} (hg : GenTy f) {loc : Nat} {x : f.Inner} (h : f.follow m buf loc = .ok x) :
    loc < buf.length ∧ (Live f x → (follow w m f buf loc).res = .ok x) := by
  have h3 := hB.len
  cases f with
  | scalar t =>
    obtain ⟨h1, h2⟩ := readScalarAtAs_agree hB (A := readAs t) h
    exact ⟨h2, fun _ => h1⟩
  | enum t vals =>
    unfold FTy.follow at h
    obtain ⟨v, hv, h⟩ := Res.bind_eq_ok.mp h
    obtain ⟨h1, h2⟩ := readScalarAtAs_agree hB (A := t) hv
    refine ⟨h2, fun _ => ?_⟩
    show (do
      let v ← readScalarAtAs w m t t buf loc
      _root_.liftM (enumTryFrom vals v.val) : Tr Nat).res = _
    rw [bind_res, h1]
    exact h
  | fwdU f =>
    obtain ⟨h1, l, h2, h7, -⟩ := fwdU_agree hB h
    refine ⟨h1, fun hlive => ?_⟩
    cases f with
    | str =>
      obtain ⟨e1, e2⟩ := followStr_agree hB h2
      rw [h7 (by omega)]
      exact e1
    | table =>
      cases h2
      have : l + 4 ≤ buf.length := hlive
      rw [h7 (by omega)]
      rfl
    | vector e =>
      cases h2
      have : l + 4 ≤ buf.length := hlive
      rw [h7 (by omega)]
      rfl
    | _ => exact hg.elim
  | _ => exact hg.elim

/-- The vtable of a table that is inside. -/
theorem vtable_agree {t : Butte.Table} (ht : t.buf = buf) (hlive : t.loc + 4 ≤ buf.length) {vt : Butte.VTable}
    (h : t.vtable m = .ok vt) (hvt : vt.loc + 2 ≤ buf.length) : (Table.vtable w m t).res = .ok vt ∧ vt.buf = buf := by
  have h3 := hB.len
  have h4 := hB.two
  have h5 := hB.big
  have h6 := hB.small
  unfold Butte.Table.vtable FTy.follow at h
  obtain ⟨e, he, h⟩ := Res.bind_eq_ok.mp h
  obtain ⟨sl, hs, h⟩ := Res.bind_eq_ok.mp h
  obtain ⟨off, ho, h⟩ := Res.bind_eq_ok.mp h
  obtain ⟨d, hd, hend⟩ := Res.bind_eq_ok.mp h
  rw [addU_ok (by omega)] at he
  cases he
  cases hend
  refine ⟨?_, ht⟩
  unfold Table.vtable
  rw [follow]
  simp only [bind_res, liftM_res, within_res, Mem.readScalar_res]
  rw [addW_ok (by omega)]
  simp only [Res.ok_bind]
  rw [hs]
  simp only [Res.ok_bind]
  rw [ho]
  simp only [Res.ok_bind]
  rw [hd]
  simp only [Res.ok_bind]
  have hb : -(2 ^ 31 : Int) ≤ d ∧ d < 2 ^ 31 := by
    unfold subS at hd
    split at hd
    · rename_i hc
      cases hd
      exact hc
    · cases m with
      | debug => cases hd
      | release =>
        cases hd
        generalize hk : ofSigned 32 _ = k
        have hk' : k < 2 ^ 32 := by
          subst hk
          unfold ofSigned
          have h1 := Int.emod_lt_of_pos (toSigned 32 (t.loc % 2 ^ 32) - toSigned 32 off.val) (show (0 : Int) < 2 ^ 32 by decide)
          have h2 := Int.emod_nonneg (toSigned 32 (t.loc % 2 ^ 32) - toSigned 32 off.val) (show (2 ^ 32 : Int) ≠ 0 by decide)
          omega
        unfold toSigned
        split <;> omega
  have hnn : 0 ≤ d := by
    by_contra hneg
    have e : ofSigned 64 d = (d + 2 ^ 64).toNat := by
      unfold ofSigned
      rw [← Int.add_emod_right, Int.emod_eq_of_lt (by omega) (by omega)]
    simp only at hvt
    rw [e] at hvt
    omega
  have e1 : ofSigned 64 d = d.toNat := by
    unfold ofSigned
    rw [Int.emod_eq_of_lt hnn (by omega)]
  have e2 : ofSigned w d = d.toNat := by
    unfold ofSigned
    rw [Int.emod_eq_of_lt hnn]
    have : (2 : Int) ^ w = ((2 ^ w : Nat) : Int) := by simp
    omega
  rw [e1, e2]
  rfl

/-- A slot of a table that is inside. -/
theorem get_agree {t : Butte.Table} (ht : t.buf = buf) (hlive : t.loc + 4 ≤ buf.length) {f : FTy} {slot : Nat}
    {d o : Option f.Inner} (h : t.get m f slot d = .ok o) :
    (o = d ∧ (Table.get w m t f slot d).res = .ok d) ∨
    ∃ l x, o = some x ∧ f.follow m buf l = .ok x ∧
      ∀ x', (follow w m f buf l).res = .ok x' → (Table.get w m t f slot d).res = .ok (some x') := by
  have h3 := hB.len
  have h4 := hB.two
  have h5 := hB.big
  have h6 := hB.small
  unfold Butte.Table.get at h
  obtain ⟨vt, h1, h⟩ := Res.bind_eq_ok.mp h
  obtain ⟨vo, h2, h⟩ := Res.bind_eq_ok.mp h
  have hbuf : vt.buf = buf := by
    have := follow_inBuf (.backS .vtable) _ _ h1
    exact this.trans ht
  unfold Butte.VTable.get Butte.VTable.numBytes at h2
  obtain ⟨n, hn, h2⟩ := Res.bind_eq_ok.mp h2
  rw [hbuf] at hn h2
  obtain ⟨e1, hl1, hc1⟩ := readNatAt_agree hB hn
  have hc1' : n < 65536 := hc1
  have hs2 : STy.size .u16 = 2 := rfl
  obtain ⟨e0, -⟩ := vtable_agree hB ht hlive h1 (by omega)
  have start : (Table.get w m t f slot d).res = (do
      let vo ← (VTable.get w m vt slot).res
      match vo with
      | some offset => if offset = 0 then .ok d else (do
          let l ← addW w m t.loc offset
          let x ← (follow w m f buf l).res
          .ok (some x))
      | none => .ok d) := by
    unfold Table.get
    rw [bind_res, e0]
    simp only [Res.ok_bind]
    rw [bind_res]
    refine bind_congr fun vo => ?_
    cases vo with
    | none => rfl
    | some offset =>
      simp only [ite_res, pure_res, bind_res, liftM_res, ht]
  have vget : (VTable.get w m vt slot).res = (if slot ≥ n then .ok none else (do
      let l ← addW w m vt.loc slot
      let x ← (readNatAt w m .u16 buf l).res
      .ok (some x))) := by
    unfold VTable.get VTable.numBytes
    rw [hbuf, bind_res, e1]
    simp only [Res.ok_bind, ite_res, pure_res, bind_res, liftM_res]
  rw [start, vget]
  split at h2
  · rename_i hge
    cases h2
    cases h
    left
    rw [if_pos hge]
    exact ⟨rfl, rfl⟩
  · rename_i hge
    rw [if_neg hge]
    rw [addU_ok (by omega)] at h2
    simp only [Res.ok_bind] at h2
    obtain ⟨offset, h7, h2⟩ := Res.bind_eq_ok.mp h2
    cases h2
    obtain ⟨e2, hl2, hc2⟩ := readNatAt_agree hB h7
    have hc2' : offset < 65536 := hc2
    rw [addW_ok (by omega)]
    simp only [Res.ok_bind]
    rw [e2]
    simp only [Res.ok_bind]
    dsimp only at h
    split at h
    · rename_i hz
      cases h
      left
      rw [if_pos hz]
      exact ⟨rfl, rfl⟩
    · rename_i hz
      right
      rw [addU_ok (by omega), ht] at h
      simp only [Res.ok_bind] at h
      obtain ⟨x, hx, h⟩ := Res.bind_eq_ok.mp h
      cases h
      refine ⟨_, x, rfl, hx, fun x' hx' => ?_⟩
      rw [if_neg hz, addW_ok (by omega)]
      simp only [Res.ok_bind]
      rw [hx']
      rfl

/-- An element of a vector that is inside. -/
theorem vecGet_agree {e : FTy} (hg : GenTy e) {v : Vec e} (hv : v.buf = buf) (hlive : v.loc + 4 ≤ buf.length) {i len : Nat}
    (hlen : v.len m = .ok len) (hi : i < len) {x : e.Inner} (h : v.get m i = .ok x) :
    ∃ l, e.follow m buf l = .ok x ∧ (Vec.get w m v i).res = (follow w m e buf l).res := by
  have h3 := hB.len
  have h4 := hB.two
  have h5 := hB.big
  have h6 := hB.small
  have hsz : wordSize w e = e.size ∧ e.size ≤ 8 ∧ 0 < e.size := by
    cases e with
    | scalar t => exact ⟨rfl, t.size_le, Mem.STy.size_pos t⟩
    | enum t vals => exact ⟨rfl, t.size_le, Mem.STy.size_pos t⟩
    | fwdU t => exact ⟨rfl, show 4 ≤ 8 by decide, show 0 < 4 by decide⟩
    | _ => exact hg.elim
  obtain ⟨hw, h8, h0⟩ := hsz
  unfold Butte.Vec.len at hlen
  rw [hv] at hlen
  obtain ⟨e1, hl1, hc1⟩ := readNatAt_agree hB hlen
  have hc1' : len < 2 ^ 32 := hc1
  have hmul : e.size * i ≤ 8 * i := Nat.mul_le_mul_right _ h8
  have tail64 : ∀ y, (do
      let _ ← debugAssert m (decide (0 < e.size))
      let a ← addU m v.loc 4
      let b ← mulU m e.size i
      let l ← addU m a b
      e.follow m v.buf l) = .ok y → e.follow m buf (v.loc + 4 + e.size * i) = .ok y := by
    intro y hy
    obtain ⟨_, _, hy⟩ := Res.bind_eq_ok.mp hy
    rw [addU_ok (by omega)] at hy
    simp only [Res.ok_bind] at hy
    rw [mulU_ok (by omega)] at hy
    simp only [Res.ok_bind] at hy
    rw [addU_ok (by omega), hv] at hy
    exact hy
  have hx : e.follow m buf (v.loc + 4 + e.size * i) = .ok x := by
    unfold Butte.Vec.get at h
    split at h
    · obtain ⟨_, _, h⟩ := Res.bind_eq_ok.mp h
      obtain ⟨_, _, h⟩ := Res.bind_eq_ok.mp h
      exact tail64 x h
    · exact tail64 x h
  obtain ⟨hlt, -⟩ := follow_agree hB hg hx
  refine ⟨_, hx, ?_⟩
  have tail : (do
      let _ ← (_root_.liftM (debugAssert m (decide (0 < wordSize w e))) : Tr Unit)
      let a ← (_root_.liftM (addW w m v.loc 4) : Tr Nat)
      let b ← (_root_.liftM (mulW w m (wordSize w e) i) : Tr Nat)
      let l ← (_root_.liftM (addW w m a b) : Tr Nat)
      follow w m e v.buf l : Tr e.Inner).res = (follow w m e buf (v.loc + 4 + e.size * i)).res := by
    simp only [bind_res, liftM_res]
    rw [hw, show debugAssert m (decide (0 < e.size)) = .ok () by unfold debugAssert; simp [h0]]
    simp only [Res.ok_bind]
    rw [addW_ok (by omega)]
    simp only [Res.ok_bind]
    rw [mulW_ok (by omega)]
    simp only [Res.ok_bind]
    rw [addW_ok (by omega), hv]
    rfl
  unfold Vec.get
  by_cases hm : m = .debug
  · rw [if_pos hm, bind_res, hv, e1]
    simp only [Res.ok_bind]
    rw [bind_res, liftM_res, show debugAssert m (decide (i < len)) = .ok () by unfold debugAssert; simp [hi]]
    simp only [Res.ok_bind]
    rw [← hv]
    rw [hv] at tail ⊢
    exact tail
  · rw [if_neg hm]
    exact tail

end

/-! ### Generated accessors -/

theorem followTy_gen : ∀ {ty : Ir.Ty} {f : FTy}, followTy ty = some f → GenTy f
  | .builtin b, f, h => by cases h; trivial
  | .string, f, h => by cases h; trivial
  | .array t, f, h => by
    simp only [followTy, Option.bind_eq_bind, Option.bind_eq_some_iff] at h
    obtain ⟨e, h1, h⟩ := h
    cases h
    show GenTy e
    exact followTy_gen h1
  | .table _, f, h => by cases h; trivial
  | .struct .., f, h => by cases h
  | .enum _ vs b, f, h => by
    simp only [followTy, Option.bind_eq_bind, Option.bind_eq_some_iff] at h
    obtain ⟨e, h1, h⟩ := h
    cases h
    trivial
  | .union .., f, h => by cases h

/-- As `GenTy`, for a field. -/
def GenKind : Kind → Prop
  | .scalar _ _ | .enum _ _ _ => True
  | .ref f => GenTy (.fwdU f)
  | .union vs => ∀ f ∈ vs, GenTy f

theorem kindOf_gen {ty : Ir.Ty} {d : Option Ast.DefaultValue} {k : Kind} (h : kindOf ty d = some k) : GenKind k := by
  cases k with
  | scalar t d => trivial
  | enum t vals d' => trivial
  | ref f => exact followTy_gen (f := .fwdU f) (kindOf_ref h)
  | union vs =>
    obtain ⟨_, _, uvs, _, _, hm⟩ := kindOf_union h
    intro f hf
    obtain ⟨j, hj, rfl⟩ := List.mem_iff_getElem.mp hf
    obtain ⟨u, _, h2⟩ := mapM_getElem hm j hj
    exact followTy_gen h2

theorem compile_gen {gm : Mode} {t : Ir.Table} {gs : List GField} (h : compileTable gm t = some gs) :
    ∀ g ∈ gs, GenKind g.kind := by
  intro g hg
  obtain ⟨j, hj, rfl⟩ := List.mem_iff_getElem.mp hg
  have := List.forall₂_iff_get.mp (compileFields_spec (compileTable_fields h))
  exact kindOf_gen (this.2 j (by omega) hj).kind

/-- Wherever `rd` reads a value found at some location, so does `rd'` with pointers of `w` bits. -/
def Agrees (w : Nat) (m : Mode) (buf : Bytes) (rd : Ir.Ty → (f : FTy) → f.Inner → Res Val)
    (rd' : Ir.Ty → (f : FTy) → f.Inner → Tr Val) : Prop :=
  ∀ ty f loc x v, GenTy f → f.follow m buf loc = .ok x → rd ty f x = .ok v →
    ∃ x', (follow w m f buf loc).res = .ok x' ∧ (rd' ty f x').res = .ok v

section
variable {w : Nat} {buf : Bytes} (hB : Fits w buf) {m : Mode}
include hB

/-- A scalar or enum slot. -/
theorem getFlat_agree {t : Butte.Table} (ht : t.buf = buf) (hlive : t.loc + 4 ≤ buf.length) {f : FTy} (hg : GenTy f)
    (hf : ∀ x, Live f x) {slot : Nat} {d o : Option f.Inner} (h : t.get m f slot d = .ok o) :
    (Table.get w m t f slot d).res = .ok o := by
  rcases get_agree hB ht hlive h with ⟨rfl, h⟩ | ⟨l, x, rfl, hx, h⟩
  · exact h
  · exact h x ((follow_agree hB hg hx).2 (hf x))

theorem tagOf_agree {t : Butte.Table} (ht : t.buf = buf) (hlive : t.loc + 4 ≤ buf.length) {gs : List GField} {name : Str}
    {o : Option Nat} (h : Gen.tagOf m t gs name = .ok o) : (tagOf w m t gs name).res = .ok o := by
  unfold Gen.tagOf at h
  unfold tagOf
  cases hf : gs.find? (fun g => g.name == name ++ c!"_type") with
  | none => rw [hf] at h; cases h
  | some g =>
    obtain ⟨n, slot, k, req⟩ := g
    rw [hf] at h
    cases k with
    | enum ty vals d =>
      dsimp only at h ⊢
      obtain ⟨x, hx, h⟩ := Res.bind_eq_ok.mp h
      rw [bind_res, getFlat_agree hB ht hlive (f := enumFTy ty vals) trivial (fun _ => trivial) hx]
      exact h
    | _ => cases h

theorem field_agree {rd : Ir.Ty → (f : FTy) → f.Inner → Res Val} {rd' : Ir.Ty → (f : FTy) → f.Inner → Tr Val}
    (hA : Agrees w m buf rd rd') {t : Butte.Table} (ht : t.buf = buf) (hlive : t.loc + 4 ≤ buf.length) {gs : List GField}
    {g : GField} (hg : GenKind g.kind) {ty : Ir.Ty} {z : Option Val}
    (h : Gen.readField rd ty g.kind (Gen.accessor m t gs g) = .ok z) :
    (Mem.readField rd' ty g.kind (accessor w m t gs g)).res = .ok z := by
  obtain ⟨name, slot, k, req⟩ := g
  unfold Gen.readField at h
  obtain ⟨o, ho, h⟩ := Res.bind_eq_ok.mp h
  unfold Gen.accessor at ho
  obtain ⟨p, hp, ho⟩ := Res.bind_eq_ok.mp ho
  -- what an accessor returns when it returns anything
  have acc : ∀ p' : Option k.Inner, (fetch w m t slot (tagOf w m t gs name) k).res = .ok p' →
      (accessor w m t gs ⟨name, slot, k, req⟩).res = okOr name req p' := by
    intro p' hp'
    show (do
      let x ← fetch w m t slot (tagOf w m t gs name) k
      _root_.liftM (okOr name req x) : Tr (Option k.Inner)).res = _
    rw [bind_res, hp']
    rfl
  have fin : ∀ o' : Option k.Inner, (accessor w m t gs ⟨name, slot, k, req⟩).res = .ok o' →
      (Mem.readField rd' ty k (accessor w m t gs ⟨name, slot, k, req⟩)).res = (match o' with
        | none => .ok none
        | some y => (Mem.readKind rd' ty k y).res >>= fun v => .ok (some v)) := by
    intro o' ho'
    unfold Mem.readField
    rw [bind_res, ho']
    cases o' with
    | none => rfl
    | some y => simp only [Res.ok_bind, bind_res, pure_res]
  show (Mem.readField rd' ty k (accessor w m t gs ⟨name, slot, k, req⟩)).res = .ok z
  have flat : (fetch w m t slot (tagOf w m t gs name) k).res = .ok p →
      (∀ y, (Mem.readKind rd' ty k y).res = Gen.readKind rd ty k y) →
      (Mem.readField rd' ty k (accessor w m t gs ⟨name, slot, k, req⟩)).res = .ok z := by
    intro hp' hk
    rw [fin o ((acc p hp').trans ho), ← h]
    cases o with
    | none => rfl
    | some y =>
      dsimp only
      rw [hk]
      rfl
  have gone : p = none → (fetch w m t slot (tagOf w m t gs name) k).res = .ok none →
      (Mem.readField rd' ty k (accessor w m t gs ⟨name, slot, k, req⟩)).res = .ok z := by
    intro hpn hp'
    subst hpn
    cases o with
    | some y => cases req <;> cases ho
    | none =>
      rw [fin none ((acc none hp').trans ho), ← h]
      rfl
  cases k with
  | scalar sty d =>
    exact flat (getFlat_agree hB ht hlive (f := .scalar sty) trivial (fun _ => trivial) hp) fun y => rfl
  | enum sty vals d =>
    exact flat (getFlat_agree hB ht hlive (f := enumFTy sty vals) trivial (fun _ => trivial) hp) fun y => rfl
  | ref f =>
    have hp : t.get m (.fwdU f) slot none = .ok p := hp
    rcases get_agree hB ht hlive hp with ⟨rfl, hp'⟩ | ⟨l, x, rfl, hx, hp'⟩
    · exact gone rfl hp'
    · cases ho
      obtain ⟨v, hv, h⟩ := Res.bind_eq_ok.mp h
      obtain ⟨x', hx', hv'⟩ := hA ty (.fwdU f) l x v hg hx hv
      rw [fin (some x') ((acc (some x') (hp' x' hx')).trans rfl), ← h]
      show (rd' ty (.fwdU f) x').res >>= _ = _
      rw [hv']
      rfl
  | union vs =>
    unfold Gen.Kind.fetch at hp
    obtain ⟨tag, htag, hp⟩ := Res.bind_eq_ok.mp hp
    have htag' := tagOf_agree hB ht hlive htag
    have start : ∀ tg, (tagOf w m t gs name).res = .ok tg →
        (fetch w m t slot (tagOf w m t gs name) (.union vs)).res = (match tg with
        | none | some 0 => .ok none
        | some (i + 1) =>
          if h : i < vs.length then
            (Table.get w m t (vs.get ⟨i, h⟩) slot none).res >>= fun x => .ok (x.map (fun v => ⟨⟨i, h⟩, v⟩))
          else .panic) := by
      intro tg htg
      unfold fetch
      rw [bind_res, htg]
      simp only [Res.ok_bind]
      cases tg with
      | none => rfl
      | some i =>
        cases i with
        | zero => rfl
        | succ i =>
          dsimp only
          split
          · rw [bind_res]; rfl
          · rfl
    have start := start _ htag'
    cases tag with
    | none => cases hp; exact gone rfl start
    | some i =>
      cases i with
      | zero => cases hp; exact gone rfl start
      | succ i =>
        dsimp only at hp start
        split at hp
        · rename_i hi
          rw [dif_pos hi] at start
          obtain ⟨y, hy, hp⟩ := Res.bind_eq_ok.mp hp
          rcases get_agree hB ht hlive hy with ⟨rfl, hp'⟩ | ⟨l, x, rfl, hx, hp'⟩
          · cases hp
            rw [hp'] at start
            exact gone rfl start
          · cases hp
            cases ho
            obtain ⟨v, hv, hz⟩ := Res.bind_eq_ok.mp h
            simp only [Gen.readKind] at hv
            cases ty with
            | union id en uvs =>
              dsimp only at hv
              cases hu : uvs[i]? with
              | none => rw [hu] at hv; cases hv
              | some u =>
                rw [hu] at hv
                obtain ⟨v', hv1, hv2⟩ := Res.bind_eq_ok.mp hv
                obtain ⟨x', hx', hv'⟩ := hA u.ty (vs.get ⟨i, hi⟩) l x v' (hg _ (List.getElem_mem _)) hx hv1
                rw [hp' x' hx'] at start
                have start : (fetch w m t slot (tagOf w m t gs name) (.union vs)).res = .ok (some ⟨⟨i, hi⟩, x'⟩) := start
                rw [fin (some ⟨⟨i, hi⟩, x'⟩) ((acc _ start).trans rfl), ← hz]
                simp only [Mem.readKind, hu, bind_res, hv', Res.ok_bind, pure_res]
                cases hv2
                rfl
            | _ => cases hv
        · cases hp

/-! ### To any depth -/

omit hB in
theorem mapAll_agree {α β : Type} {f : α → Res β} {f' : α → Tr β} : ∀ {l : List α} {ys : List β},
    (∀ a ∈ l, ∀ y, f a = .ok y → (f' a).res = .ok y) → Gen.mapAll f l = .ok ys → (Mem.mapAll f' l).res = .ok ys
  | [], ys, _, h => by cases h; rfl
  | a :: l, ys, hf, h => by
    unfold Gen.mapAll at h
    obtain ⟨y, h1, h⟩ := Res.bind_eq_ok.mp h
    obtain ⟨ys', h2, h⟩ := Res.bind_eq_ok.mp h
    cases h
    unfold Mem.mapAll
    rw [bind_res, hf a List.mem_cons_self y h1]
    simp only [Res.ok_bind]
    rw [bind_res, mapAll_agree (fun b hb => hf b (List.mem_cons_of_mem _ hb)) h2]
    rfl

/-- The tables that can be anywhere: nothing of them is ever read. -/
def Fieldless (S : Tables) (ty : Ir.Ty) : Prop := ∃ q t, ty = .table q ∧ S q = some t ∧ t.fields = []

omit hB in
theorem compile_length {gm : Mode} {t : Ir.Table} {gs : List GField} (h : compileTable gm t = some gs) :
    t.fields.length = gs.length := (List.forall₂_iff_get.mp (compileFields_spec (compileTable_fields h))).1

theorem live_of_read {gm : Mode} {S : Tables} {n : Nat} {ty : Ir.Ty} {f : FTy} (hg : GenTy f) {x : f.Inner} {v : Val}
    (hx : InBuf buf f x) (h : Gen.readVal gm m S n ty f x = .ok v) :
    Live f x ∨ (f = .fwdU .table ∧ Fieldless S ty) := by
  have h3 := hB.len
  have h6 := hB.small
  cases n with
  | zero => unfold Gen.readVal at h; cases h
  | succ n =>
  cases f with
  | fwdU f =>
    cases f with
    | vector e =>
      left
      have hx : (x : Vec e).buf = buf := hx
      cases ty with
      | array t =>
        simp only [Gen.readVal] at h
        obtain ⟨len, hl, _⟩ := Res.bind_eq_ok.mp h
        unfold Butte.Vec.len at hl
        have := (Butte.readNatAt_ok hl (by rw [hx]; exact hB.valid)).1
        exact this
      | _ => cases h
    | table =>
      have hx : (x : Butte.Table).buf = buf := hx
      cases ty with
      | table q =>
        simp only [Gen.readVal] at h
        cases hq : S q with
        | none => rw [hq] at h; cases h
        | some t =>
          rw [hq] at h
          dsimp only at h
          cases hc : compileTable gm t with
          | none => rw [hc] at h; cases h
          | some gs =>
            rw [hc] at h
            dsimp only at h
            have hlen := compile_length hc
            cases hf : t.fields with
            | nil => exact Or.inr ⟨rfl, q, t, rfl, hq, hf⟩
            | cons f0 fs =>
              left
              have h0 : 0 < gs.length := by rw [← hlen, hf]; simp
              obtain ⟨ys, h1, _⟩ := Res.bind_eq_ok.mp h
              obtain ⟨k, hk⟩ : ∃ k, gs.length = k + 1 := ⟨gs.length - 1, by omega⟩
              have hmem : (⟨0, h0⟩ : Fin gs.length) ∈ List.finRange gs.length := List.mem_finRange _
              have : ∀ {α β : Type} {g : α → Res β} {l : List α} {ys : List β}, Gen.mapAll g l = .ok ys →
                  ∀ a ∈ l, ∃ y, g a = .ok y := by
                intro α β g l
                induction l with
                | nil => intro ys _ a ha; cases ha
                | cons b l ih =>
                  intro ys h a ha
                  unfold Gen.mapAll at h
                  obtain ⟨y, h1, h⟩ := Res.bind_eq_ok.mp h
                  obtain ⟨ys', h2, h⟩ := Res.bind_eq_ok.mp h
                  rcases List.mem_cons.mp ha with rfl | ha
                  · exact ⟨y, h1⟩
                  · exact ih h2 a ha
              obtain ⟨z, hz⟩ := this h1 _ hmem
              simp only [hf, List.getElem?_cons_zero] at hz
              unfold Gen.readField at hz
              obtain ⟨o, ho, _⟩ := Res.bind_eq_ok.mp hz
              unfold Gen.accessor at ho
              obtain ⟨p, hp, _⟩ := Res.bind_eq_ok.mp ho
              have vt : ∀ (k : Kind) (slot : Nat) (name : Str) (p : Option k.Inner),
                  Kind.fetch m (x : Butte.Table) slot (Gen.tagOf m (x : Butte.Table) gs name) k = .ok p →
                  ∃ vt, (x : Butte.Table).vtable m = .ok vt := by
                intro k slot name p hp
                have get : ∀ {f : FTy} {slot : Nat} {d o : Option f.Inner}, (x : Butte.Table).get m f slot d = .ok o →
                    ∃ vt, (x : Butte.Table).vtable m = .ok vt := by
                  intro f slot d o h
                  unfold Butte.Table.get at h
                  obtain ⟨vt, h, _⟩ := Res.bind_eq_ok.mp h
                  exact ⟨vt, h⟩
                cases k with
                | scalar sty d => exact get hp
                | enum sty vals d => exact get hp
                | ref f => exact get hp
                | union vs =>
                  unfold Gen.Kind.fetch at hp
                  obtain ⟨tag, htag, hp⟩ := Res.bind_eq_ok.mp hp
                  unfold Gen.tagOf at htag
                  split at htag
                  · obtain ⟨_, h, _⟩ := Res.bind_eq_ok.mp htag
                    exact get h
                  · cases htag
              obtain ⟨vt, hvt⟩ := vt _ _ _ _ hp
              unfold Butte.Table.vtable FTy.follow at hvt
              obtain ⟨e, he, hvt⟩ := Res.bind_eq_ok.mp hvt
              obtain ⟨sl, hs, _⟩ := Res.bind_eq_ok.mp hvt
              obtain ⟨h1, h2, _, _⟩ := sliceGet_len hs
              have := addU_le he h1 (by decide)
              subst this
              exact h2
      | _ => cases h
    | _ => exact Or.inl trivial
  | _ => exact Or.inl trivial

omit hB in
/-- A table without fields is read without looking at it. -/
theorem fieldless_read {gm : Mode} {S : Tables} {n : Nat} {ty : Ir.Ty} (hf : Fieldless S ty) {x y : Butte.Table} {v : Val}
    (h : Gen.readVal gm m S n ty (.fwdU .table) x = .ok v) : (readVal w gm m S n ty (.fwdU .table) y).res = .ok v := by
  obtain ⟨q, t, rfl, hq, hf⟩ := hf
  cases n with
  | zero => cases h
  | succ n =>
    simp only [Gen.readVal, hq] at h
    simp only [readVal, hq]
    cases hc : compileTable gm t with
    | none => rw [hc] at h; cases h
    | some gs =>
      rw [hc] at h
      have : gs = [] := List.eq_nil_of_length_eq_zero (by rw [← compile_length hc, hf]; rfl)
      subst this
      exact h

/-- The whole value. -/
theorem readVal_agree {gm : Mode} {S : Tables} (hS : m = .release ∨ ∀ q t, S q = some t → t.fields ≠ []) :
    ∀ n, Agrees w m buf (Gen.readVal gm m S n) (readVal w gm m S n) := by
  have h3 := hB.len
  intro n
  induction n with
  | zero => intro ty f loc x v _ _ h; unfold Gen.readVal at h; cases h
  | succ n ih =>
    intro ty f loc x v hg hx h
    have hin := follow_inBuf f loc x hx
    rcases live_of_read hB hg hin h with hlive | ⟨rfl, hf⟩
    · refine ⟨x, (follow_agree hB hg hx).2 hlive, ?_⟩
      cases ty with
      | builtin b =>
        cases f with
        | scalar t => exact h
        | _ => cases h
      | enum id vs b =>
        cases f with
        | enum t vals => exact h
        | _ => cases h
      | string =>
        cases f with
        | fwdU f =>
          cases f with
          | str => exact h
          | _ => cases h
        | _ => cases h
      | array t =>
        cases f with
        | fwdU f =>
          cases f with
          | vector e =>
            have hin : (x : Vec e).buf = buf := hin
            change Vec e at x
            have hlive : x.loc + 4 ≤ buf.length := by rw [← hin]; exact hlive
            simp only [Gen.readVal] at h
            simp only [readVal]
            obtain ⟨len, hl, h⟩ := Res.bind_eq_ok.mp h
            obtain ⟨xs, hxs, h⟩ := Res.bind_eq_ok.mp h
            cases h
            have hl' : (Vec.len w m x).res = .ok len := by
              unfold Butte.Vec.len at hl
              unfold Vec.len
              rw [hin] at hl ⊢
              exact (readNatAt_agree hB hl).1
            rw [bind_res, hl']
            simp only [Res.ok_bind]
            rw [bind_res, mapAll_agree (fun i hi y hy => ?_) hxs]
            · rfl
            · obtain ⟨z, hz, hy⟩ := Res.bind_eq_ok.mp hy
              obtain ⟨l, h1, h2⟩ := vecGet_agree hB (show GenTy e from hg) hin hlive hl (List.mem_range.mp hi) hz
              obtain ⟨z', h4, h5⟩ := ih t e l z y hg h1 hy
              rw [bind_res, h2, h4]
              exact h5
          | _ => cases h
        | _ => cases h
      | table q =>
        cases f with
        | fwdU f =>
          cases f with
          | table =>
            have hin : (x : Butte.Table).buf = buf := hin
            change Butte.Table at x
            have hlive : x.loc + 4 ≤ buf.length := by rw [← hin]; exact hlive
            simp only [Gen.readVal] at h
            simp only [readVal]
            cases hq : S q with
            | none => rw [hq] at h; cases h
            | some t =>
              rw [hq] at h
              dsimp only at h ⊢
              cases hc : compileTable gm t with
              | none => rw [hc] at h; cases h
              | some gs =>
                rw [hc] at h
                dsimp only at h ⊢
                obtain ⟨ys, hys, h⟩ := Res.bind_eq_ok.mp h
                cases h
                rw [bind_res, mapAll_agree (fun i hi y hy => ?_) hys]
                · rfl
                · cases hf : t.fields[i.val]? with
                  | none => rw [hf] at hy; cases hy
                  | some f =>
                    rw [hf] at hy
                    exact field_agree hB ih hin hlive (compile_gen hc _ (List.getElem_mem i.isLt)) hy
          | _ => cases h
        | _ => cases h
      | _ => cases f <;> cases h
    · rcases hS with rfl | hS
      · obtain ⟨-, l, -, -, hrel⟩ := fwdU_agree hB hx
        obtain ⟨l', hl'⟩ := hrel rfl
        exact ⟨(⟨buf, l'⟩ : Butte.Table), hl', fieldless_read hf h⟩
      · obtain ⟨q, t, rfl, hq, hf⟩ := hf
        exact absurd hf (hS q t hq)

end

end Butte.Word
