import Verif.Mem.Graph
import Verif.Gen.FormatView
/-
Messages in the FlatBuffers format, in a buffer at an address that is a multiple of 8: all accesses are aligned.
-/
namespace Butte.Format
open Ir (QIdent)
open Gen
open Mem (All Access)

variable {addr : Nat → Nat} {buf : Bytes} {m gm : Mode}

theorem okRead {t : STy} {p : Nat} (ha : addr buf.length % 8 = 0) (ht : t ≠ .bool) (hp : p % t.size = 0)
    (h : p + t.size ≤ buf.length) : Access.Ok addr ⟨false, t, 1, p, buf⟩ := by
  refine ⟨?_, ?_, fun _ e => absurd e ht⟩
  · simpa [Access.Inside] using h
  · unfold Access.Aligned
    cases t <;> simp only [STy.size] at hp ⊢ <;> omega

/-- `Table::get` on a table that is there. -/
theorem get_ok {loc vt vsize tsize i e : Nat} (ha : addr buf.length % 8 = 0) (hh : Header buf loc vt vsize tsize)
    (hl : buf.length < 2 ^ 31) (he : EntryAt buf vt vsize i e) (F : FTy) (d : Option F.Inner)
    (hf : e ≠ 0 → All (Access.Ok addr) (Mem.follow m F buf (loc + e))) :
    All (Access.Ok addr) (Mem.Table.get m ⟨buf, loc⟩ F (4 + 2 * i) d) := by
  obtain ⟨vtb, hlen, hfmt, ⟨u, ht1, ht2⟩, hat⟩ := hh.vtable
  have hin := hh.inside
  have hvi := hh.vtInside
  have hvm := hh.vtMin
  have hsm := hh.sizeMin
  have hal := hh.aligned
  have hva := hh.vtAligned
  have hve := hh.vtEven
  have h1 : Butte.Table.vtable m ⟨buf, loc⟩ = .ok ⟨buf, vt⟩ := by
    have hb := NumAt.toAt hh.back
    have e : (((loc : Int) - vt) % 2 ^ (8 * 4)).toNat = ofSigned 32 (((buf.length - vt : Nat) : Int) - (buf.length - loc : Nat)) := by
      unfold ofSigned
      congr 2
      omega
    rw [e] at hb
    have := vtable_at (m := m) hb hat hl
    rwa [show buf.length - (buf.length - loc) = loc by omega, show buf.length - (buf.length - vt) = vt by omega] at this
  have h2 : Butte.VTable.get m ⟨buf, vt⟩ (4 + 2 * i) = .ok (if 4 + 2 * i < vsize then some e else none) := by
    have := vtget_at (m := m) (s := 4 + 2 * i) hat hfmt (by omega) (by omega)
    rw [show buf.length - (buf.length - vt) = vt by omega, hlen] at this
    rw [this]
    congr 1
    by_cases hc : 4 + 2 * i < vsize
    · rw [if_pos hc, if_pos hc]
      unfold EntryAt at he
      rw [if_pos hc] at he
      have q1 := hat.two_at (o := 4 + 2 * i) (by rw [hlen]; omega)
      have q2 := he.toAt
      have q3 := q1.unique (cs := leBytes 2 e) (by
        rw [show buf.length - vt - (4 + 2 * i) = buf.length - (vt + 4 + 2 * i) by omega]; exact q2)
        (by rw [two_length (by rw [hlen]; omega), leBytes_length])
      rw [q3, leNat_leBytes, Nat.mod_eq_of_lt he.bytes.2]
    · rw [if_neg hc, if_neg hc]
  unfold Mem.Table.get
  refine All.bind ?_ fun v hv => ?_
  · refine Mem.slice_does (by rfl) (fun h => okRead ha nofun ?_ h) fun _ _ _ => All.bind_liftM fun _ _ => All.pure _
    simpa [STy.size] using hal
  rw [Mem.Table.vtable_res, h1] at hv
  cases hv
  refine All.bind ?_ fun o ho => ?_
  · unfold Mem.VTable.get
    refine All.bind (Mem.readNatAt_all fun h => okRead ha nofun (by simpa [STy.size] using hva) h) fun n _ => ?_
    refine All.ite (fun _ => All.pure _) fun _ => All.bind_liftM fun l hl' => All.bind (Mem.readNatAt_all fun h => okRead ha nofun ?_ h)
      fun _ _ => All.pure _
    by_cases hov : vt + (4 + 2 * i) < 2 ^ 64
    · rw [addU_ok hov] at hl'
      cases hl'
      simp only [STy.size]; omega
    · unfold addU addW at hl'
      rw [if_neg hov] at hl'
      cases m with
      | debug => cases hl'
      | release =>
        cases hl'
        simp only [STy.size]; omega
  rw [Mem.VTable.get_res, h2] at ho
  cases ho
  by_cases hc : 4 + 2 * i < vsize
  · rw [if_pos hc]
    dsimp only
    refine All.ite (fun _ => All.pure _) fun hz => All.bind_liftM fun l hl' => All.bind ?_ fun _ _ => All.pure _
    unfold EntryAt at he
    rw [if_pos hc] at he
    have := he.bytes.2
    rw [addU_ok (by omega)] at hl'
    cases hl'
    exact hf hz
  · rw [if_neg hc]
    exact All.pure _

/-- Following an offset. -/
theorem offset_ok {p o : Nat} {F : FTy} (ha : addr buf.length % 8 = 0) (hl : buf.length < 2 ^ 31) (hp : p % 4 = 0)
    (ho : OffsetAt buf p o) (hf : All (Access.Ok addr) (Mem.follow m F buf (p + o))) :
    All (Access.Ok addr) (Mem.follow m (.fwdU F) buf p) := by
  refine Mem.slice_does (by rfl) (fun h => okRead ha nofun (by simpa [STy.size] using hp) h) fun v _ hv => ?_
  have hin := ho.1.inside
  have hb := ho.1.bytes.2
  have := NumAt.read (m := m) (t := .u32) (x := ⟨o, hb⟩) ho.1 hl
  rw [this] at hv
  cases hv
  refine All.bind_liftM fun l h => ?_
  have ho' : o < 256 ^ 4 := hb
  have : p + o < 2 ^ 64 := by omega
  rw [addU_ok this] at h
  cases h
  exact hf

/-- Elements of a vector. -/
theorem vecGet_ok {loc i : Nat} {e : FTy} (ha : addr buf.length % 8 = 0) (hal : loc % 4 = 0) (hin : loc + 4 + e.size * i < 2 ^ 31)
    (hf : All (Access.Ok addr) (Mem.follow m e buf (loc + 4 + e.size * i))) :
    All (Access.Ok addr) (Mem.Vec.get m (⟨buf, loc⟩ : Vec e) i) := by
  have tail : All (Access.Ok addr) (do
      let _ ← (liftM (debugAssert m (decide (0 < e.size))) : Mem.Tr Unit)
      let a ← (liftM (addU m loc 4) : Mem.Tr Nat)
      let b ← (liftM (mulU m e.size i) : Mem.Tr Nat)
      let l ← (liftM (addU m a b) : Mem.Tr Nat)
      Mem.follow m e buf l) := by
    refine All.bind_liftM fun _ _ => All.bind_liftM fun a h1 => All.bind_liftM fun b h2 => All.bind_liftM fun l h3 => ?_
    rw [addU_ok (by omega)] at h1
    cases h1
    rw [mulU_ok (by omega)] at h2
    cases h2
    rw [addU_ok (by omega)] at h3
    cases h3
    exact hf
  unfold Mem.Vec.get
  refine All.ite (fun _ => ?_) fun _ => tail
  exact All.bind (Mem.readNatAt_all fun h => okRead ha nofun (by simpa [STy.size] using hal) h) fun _ _ =>
    All.bind_liftM fun _ _ => tail

theorem vecLen_ok {loc : Nat} {e : FTy} (ha : addr buf.length % 8 = 0) (hal : loc % 4 = 0) :
    All (Access.Ok addr) (Mem.Vec.len m (⟨buf, loc⟩ : Vec e)) :=
  Mem.readNatAt_all fun h => okRead ha nofun (by simpa [STy.size] using hal) h

/-- A scalar at an aligned place. -/
theorem scalar_ok {t : STy} {p : Nat} (ha : addr buf.length % 8 = 0) (hp : p % t.size = 0) :
    All (Access.Ok addr) (Mem.follow m (.scalar t) buf p) :=
  (Mem.readScalarAtAs_does fun h => okRead ha (Mem.readAs_ne t) (by rw [Mem.readAs_size]; exact hp)
    (by rw [Mem.readAs_size]; exact h)).all

theorem enum_ok {t : STy} {vals : List Nat} {p : Nat} (ha : addr buf.length % 8 = 0) (ht : t ≠ .bool) (hp : p % t.size = 0) :
    All (Access.Ok addr) (Mem.follow m (.enum t vals) buf p) :=
  All.bind (Mem.readScalarAt_does fun h => okRead ha ht hp h).all fun _ _ => All.liftM _

/-- A field that is an enum. -/
theorem enumField_ok {D : Dialect} {loc vt vsize tsize i e o : Nat} {sel : Option Nat} {f : Ir.Field}
    {x : Option Val} {t : STy} {vals : List (SVal t)} {d : Option (Fin vals.length)} (ha : addr buf.length % 8 = 0)
    (hh : Header buf loc vt vsize tsize) (he : EntryAt buf vt vsize i e) (hf : FieldAt D buf loc tsize sel f e o x)
    (hk : kindOf f.ty f.default = some (.enum t vals d)) (hl : buf.length < 2 ^ 31) (d' : Option Nat) :
    All (Access.Ok addr) (Mem.Table.get m ⟨buf, loc⟩ (enumFTy t vals) (4 + 2 * i) d') := by
  refine get_ok ha hh hl he _ _ fun h0 => ?_
  obtain ⟨id, vs, b, hty⟩ := kind_enum_of hk
  cases hf with
  | absent h => exact absurd h h0
  | scalar ht _ _ => rw [hty] at ht; cases ht
  | @enum id' vs' base i ht hi hv =>
    rw [ht] at hk
    obtain ⟨xs, d', h1, h2, -, -⟩ := kindOf_enum hk
    cases h1
    exact enum_ok ha (Mem.enumBase_ne _) (by rw [← baseWidth_eq]; exact hi.2.2)
  | ref ht _ _ => rw [hty] at ht; cases ht
  | union ht _ _ _ _ _ => rw [hty] at ht; cases ht
  | unionNone ht _ _ => rw [hty] at ht; cases ht

/-- What stands at `loc` is read with accesses that are all allowed, as is everything below it. -/
def ReadsOk (addr : Nat → Nat) (gm m : Mode) (S : Tables) (buf : Bytes) (loc : Nat) (ty : Ir.Ty) (F : FTy) : Prop :=
  All (Access.Ok addr) (Mem.follow m F buf loc) ∧
    ∀ x, F.follow m buf loc = .ok x → ∀ n, All (Access.Ok addr) (Mem.readVal gm m S n ty (.fwdU F) x)

theorem vec_readsOk {S : Tables} {loc : Nat} {t : Ir.Ty} {e : FTy} {len : Nat} (ha : addr buf.length % 8 = 0)
    (hal : loc % 4 = 0) (hlen : Vec.len m (⟨buf, loc⟩ : Vec e) = .ok len)
    (hx : ∀ i, i < len → loc + 4 + e.size * i < 2 ^ 31 ∧ All (Access.Ok addr) (Mem.follow m e buf (loc + 4 + e.size * i)))
    (hr : ∀ i y, i < len → Vec.get m (⟨buf, loc⟩ : Vec e) i = .ok y → ∀ n, All (Access.Ok addr) (Mem.readVal gm m S n t e y)) :
    ReadsOk addr gm m S buf loc (.array t) (.vector e) := by
  refine ⟨All.pure _, ?_⟩
  rintro x ⟨⟩ n
  cases n with
  | zero => exact All.lift _
  | succ n =>
    refine Mem.readVal_vec (⟨buf, loc⟩ : Vec e) (vecLen_ok ha hal) (fun l i h hi => ?_) fun l i y h hi hy => ?_
    · rw [hlen] at h
      cases h
      exact vecGet_ok ha hal (hx i hi).1 (hx i hi).2
    · rw [hlen] at h
      cases h
      exact hr i y hi hy n

/-- Values that are not behind an offset. -/
theorem flat_ok {P : Access → Prop} {S : Tables} {t : Ir.Ty} {e : FTy} (he : ∀ E, e ≠ .fwdU E) (n : Nat) (y : e.Inner) :
    All P (Mem.readVal gm m S n t e y) := by
  cases n with
  | zero => exact All.lift _
  | succ n => exact Mem.readVal_other (fun _ e' h _ => absurd h (he _)) fun _ h _ => absurd h (he _)

/-- The accessor of the type of a union makes allowed accesses only, and returns the selector. -/
theorem tag_ok {D : Dialect} {S : Tables} (hS : Readable D gm S) (hl : buf.length < 2 ^ 31) (ha : addr buf.length % 8 = 0)
    {q : QIdent} {t : Ir.Table} {gs : List GField} {xs : List (Option Val)} {es os : List Nat} {loc vt vsize tsize : Nat}
    (hq : S q = some t) (hc : compileTable gm t = some gs) (hh : Header buf loc vt vsize tsize)
    (hn : xs.length = t.fields.length) (hes : es.length = t.fields.length) (hos : os.length = t.fields.length)
    (he : ∀ i (hi : i < es.length), EntryAt buf vt vsize i es[i])
    (hf : ∀ (i : Nat) f e o x, t.fields[i]? = some f → es[i]? = some e → os[i]? = some o → xs[i]? = some x →
      FieldAt D buf loc tsize (selector t.fields xs f) f e o x)
    (hr : ∀ (i : Nat) f x, t.fields[i]? = some f → xs[i]? = some x → f.required = true → x ≠ none)
    {i : Nat} (hi : i < gs.length) (hit : i < t.fields.length) {vs : List FTy} (hk : gs[i].kind = .union vs) :
    Gen.tagOf m ⟨buf, loc⟩ gs gs[i].name = .ok (selector t.fields xs t.fields[i]) ∧
      All (Access.Ok addr) (Mem.tagOf m ⟨buf, loc⟩ gs gs[i].name) := by
  have hlim := (hS.compiles q t hq).2
  have hcf := compileTable_fields hc
  have hsp := List.forall₂_iff_get.mp (compileFields_spec hcf)
  have hslot := compileFields_slot hcf (by omega)
  have hci := hsp.2 i hit hi
  simp only [List.get_eq_getElem] at hci
  obtain ⟨j, sty, vals, d, j1, j2, j3, j4⟩ := union_tag hc (i := ⟨i, hi⟩) hk
  have hjt : j.val < t.fields.length := by have := j.isLt; omega
  have hcj := hsp.2 j.val hjt j.isLt
  have hfj : t.fields[j.val]? = some t.fields[j.val] := by simp [hjt]
  have hxj : xs[j.val]? = some (xs[j.val]'(by omega)) := List.getElem?_eq_getElem _
  have hs := selector_eq hc (xs := xs) (f := t.fields[i]) hfj (by
    rw [← hci.name]
    have := hcj.name
    simp only [List.get_eq_getElem] at this j1
    rw [← this, j1])
  have hkj := hcj.kind
  rw [j2] at hkj
  have hFj := hf j.val _ _ _ _ hfj (List.getElem?_eq_getElem (by omega)) (List.getElem?_eq_getElem (by omega)) hxj
  have hEj := he j.val (by omega)
  obtain ⟨y, y1, y2, y3⟩ := enum_get (m := m) hh hEj hFj hkj
    (hS.numbers q t hq _ (List.getElem_mem hjt)) (hS.absent q t hq _ (List.getElem_mem hjt)) hl
  have hok := enumField_ok (m := m) ha hh hEj hFj hkj hl (d.map (·.val))
  have hsel : selector t.fields xs t.fields[i] = y := by
    rw [hs, hxj, y2]
    cases y <;> rfl
  have hfn := find_name (names_nodup hc) j
  rw [j1] at hfn
  have hsj := hslot j.val j.isLt
  simp only [List.get_eq_getElem] at hfn
  have hRj : gs[j.val].required = true → y ≠ none := by
    intro h1 h2
    have h3 := hcj.required
    simp only [List.get_eq_getElem] at h3
    refine hr j.val _ _ hfj hxj (by rw [← h3]; exact h1) ?_
    rw [y2, h2]; rfl
  rw [hsel]
  unfold Gen.tagOf Mem.tagOf
  rw [hfn]
  simp only [List.get_eq_getElem] at j2
  generalize gs[j.val] = g at *
  obtain ⟨nm, sl, k, r⟩ := g
  simp only at j2 hsj hRj
  subst j2
  simp only [hsj]
  rw [Nat.zero_add]
  refine ⟨?_, All.bind hok fun _ _ => All.liftM _⟩
  rw [y1]
  show okOr nm r y = .ok y
  cases y with
  | some y => rfl
  | none =>
    cases r with
    | true => exact absurd rfl (hRj rfl)
    | false => rfl

theorem Holds.readsOk {D : Dialect} {S : Tables} (hS : Readable D gm S) (hl : buf.length < 2 ^ 31)
    (ha : addr buf.length % 8 = 0) {ty : Ir.Ty} {v : Val} {loc : Nat} (h : Holds D S buf ty v loc) :
    SameNumbers D ty → ∀ F, followTy ty = some (.fwdU F) → ReadsOk addr gm m S buf loc ty F := by
  induction h with
  | @string s loc hal hn hb =>
    intro _ F hF
    cases hF
    refine ⟨Mem.followStr_all fun h => okRead ha nofun (by simpa [STy.size] using hal) h, fun x _ n => ?_⟩
    cases n with
    | zero => exact All.lift _
    | succ n => exact All.pure _
  | @scalars t xs loc hal hw hn hx =>
    intro _ F hF
    cases hF
    refine vec_readsOk ha hal (vec_len hn hl) (fun i hi => ?_) fun i y _ _ n => flat_ok (by intro E h; cases h) n y
    have hin := (hx i hi).1.inside
    rw [width_eq] at hin hw
    have hp := (builtinSTy t).size_pos
    refine ⟨by show loc + 4 + (builtinSTy t).size * i < _; omega, scalar_ok ha ?_⟩
    show (loc + 4 + (builtinSTy t).size * i) % (builtinSTy t).size = 0
    rw [Nat.add_mul_mod_self_left]; exact hw
  | @enums id vs base xs loc hal hw hn hx =>
    intro hnum F hF
    simp only [followTy, Option.bind_eq_bind, Option.bind_eq_some_iff] at hF
    obtain ⟨_, ⟨vals, hv, h1⟩, h2⟩ := hF
    cases h1
    cases h2
    cases hnum with
    | array hnum =>
      cases hnum with
      | enum hnum =>
        refine vec_readsOk ha hal (vec_len hn hl) (fun i hi => ?_) fun i y _ _ n => flat_ok (by intro E h; cases h) n y
        have hin := (((hx i hi).val hv hnum).2).inside
        rw [baseWidth_eq] at hin hw
        have hp := (enumBaseSTy base).size_pos
        refine ⟨by show loc + 4 + (enumBaseSTy base).size * i < _; omega, enum_ok ha (Mem.enumBase_ne _) ?_⟩
        show (loc + 4 + (enumBaseSTy base).size * i) % (enumBaseSTy base).size = 0
        rw [Nat.add_mul_mod_self_left]; exact hw
  | @offsets t xs os loc ht hal hn hlen ho hx ih =>
    intro hnum F hF
    simp only [followTy, Option.bind_eq_bind, Option.bind_eq_some_iff] at hF
    obtain ⟨e, h1, h2⟩ := hF
    cases h2
    obtain ⟨E, rfl⟩ := isRef_follow ht h1
    cases hnum with
    | array hnum =>
      have key : ∀ i (hi : i < xs.length), loc + 4 + (FTy.fwdU E).size * i < 2 ^ 31 ∧
          OffsetAt buf (loc + 4 + (FTy.fwdU E).size * i) (os[i]'(by omega)) ∧
          ReadsOk addr gm m S buf (loc + 4 + (FTy.fwdU E).size * i + os[i]'(by omega)) t E := by
        intro i hi
        have hin := (ho i (by omega)).1.inside
        refine ⟨by show loc + 4 + 4 * i < _; omega, ho i (by omega), ?_⟩
        exact ih i os[i] xs[i] (List.getElem?_eq_getElem _) (List.getElem?_eq_getElem _) hnum E h1
      refine vec_readsOk ha hal (vec_len hn hl) (fun i hi => ?_) fun i y hi hy n => ?_
      · obtain ⟨k1, k2, k3⟩ := key i hi
        refine ⟨k1, offset_ok ha hl ?_ k2 k3.1⟩
        show (loc + 4 + 4 * i) % 4 = 0
        omega
      · obtain ⟨k1, k2, k3⟩ := key i hi
        rw [vec_get (e := .fwdU E) hn hl hi (Nat.zero_lt_succ 3) k1, k2.follow hl E] at hy
        exact k3.2 y hy n
  | @table q t xs es os loc vt vsize tsize hq hh hn hes hos he hf hr hx _ ih =>
    intro _ F hF
    cases hF
    refine ⟨All.pure _, ?_⟩
    rintro x ⟨⟩ n
    cases n with
    | zero => exact All.lift _
    | succ n => ?_
    refine Mem.readVal_table (⟨buf, loc⟩ : Butte.Table) fun t' gs hq' hc i f hfi => ?_
    rw [hq] at hq'
    cases hq'
    have hlim := (hS.compiles q t hq).2
    have hnumS := hS.numbers q t hq
    have hcf := compileTable_fields hc
    have hsp := List.forall₂_iff_get.mp (compileFields_spec hcf)
    have hsl := compileFields_slot hcf (by omega) i.val i.isLt
    obtain ⟨hit, hfe⟩ := List.getElem?_eq_some_iff.mp hfi
    have hei : es[i.val]? = some (es[i.val]'(by omega)) := List.getElem?_eq_getElem _
    have hoi : os[i.val]? = some (os[i.val]'(by omega)) := List.getElem?_eq_getElem _
    have hxi : xs[i.val]? = some (xs[i.val]'(by omega)) := List.getElem?_eq_getElem _
    have hci := hsp.2 i.val hit i.isLt
    simp only [List.get_eq_getElem] at hci
    rw [hfe] at hci
    have hF := hf i _ _ _ _ hfi hei hoi hxi
    have hE := he i (by omega)
    have hnumf := hnumS f (List.mem_of_getElem? hfi)
    have hin : ∀ ty v', Gen.below f.ty (xs[i.val]'(by omega)) = some (ty, v') → ∀ E, followTy ty = some (.fwdU E) →
        ReadsOk addr gm m S buf (loc + es[i.val]'(by omega) + os[i.val]'(by omega)) ty E := fun ty v' hb E hE =>
      ih i _ _ _ _ ty v' hfi hei hoi hxi hb (hnumf.under hb) E hE
    have htag : ∀ vs, (gs.get i).kind = .union vs → Gen.tagOf m ⟨buf, loc⟩ gs (gs.get i).name = .ok (selector t.fields xs f) ∧
        All (Access.Ok addr) (Mem.tagOf m ⟨buf, loc⟩ gs (gs.get i).name) := by
      intro vs hk
      have := tag_ok (m := m) hS hl ha hq hc hh hn hes hos he hf hr i.isLt hit hk
      rwa [hfe] at this
    have htr : (Mem.tagOf m ⟨buf, loc⟩ gs (gs.get i).name).res = Gen.tagOf m ⟨buf, loc⟩ gs (gs.get i).name := Mem.tagOf_res ..
    have hget := fun F d => hh.get (m := m) hl hE F d
    have hgok := fun F d => get_ok (m := m) ha hh hl hE F d
    have hki := hci.kind
    rw [Nat.zero_add] at hsl
    have hsl' : (gs.get i).slot.val = 4 + 2 * i.val := hsl
    have hki' : kindOf f.ty f.default = some (gs.get i).kind := hki
    suffices hsuf : All (Access.Ok addr) (Mem.fetch m ⟨buf, loc⟩ (4 + 2 * i.val) (Mem.tagOf m ⟨buf, loc⟩ gs (gs.get i).name)
          (gs.get i).kind) ∧ ∀ x, Kind.fetch m ⟨buf, loc⟩ (4 + 2 * i.val) (Gen.tagOf m ⟨buf, loc⟩ gs (gs.get i).name)
          (gs.get i).kind = .ok (some x) → All (Access.Ok addr) (Mem.readKind (Mem.readVal gm m S n) f.ty (gs.get i).kind x) by
      refine Mem.readField_all ?_ fun x hx => hsuf.2 x ?_
      · unfold Mem.accessor
        rw [hsl']
        exact All.bind hsuf.1 fun _ _ => All.liftM _
      · have hx := (Mem.accessor_res m ⟨buf, loc⟩ gs (gs.get i)).symm.trans hx
        unfold Gen.accessor at hx
        obtain ⟨o, e, h⟩ := Res.bind_eq_ok.mp hx
        rw [Mem.okOr_some h, hsl'] at e
        exact e
    generalize Gen.tagOf m ⟨buf, loc⟩ gs (gs.get i).name = tag at *
    generalize Mem.tagOf m ⟨buf, loc⟩ gs (gs.get i).name = tag' at *
    clear hki hsl hsl' hci
    generalize (gs.get i).kind = k at *
    generalize es[i.val]'(by omega) = e at *
    generalize os[i.val]'(by omega) = o at *
    generalize xs[i.val]'(by omega) = x at *
    generalize selector t.fields xs f = sel at *
    cases k with
    | scalar sty d =>
      refine ⟨hgok (.scalar sty) d fun h0 => ?_, fun x _ => All.pure _⟩
      cases hF with
      | absent h => exact absurd h h0
      | @scalar bt k ht hi' hv =>
        rw [ht] at hki'
        have hst : sty = builtinSTy bt := by
          cases hd : f.default with
          | none => rw [hd] at hki'; cases hki'; rfl
          | some dv =>
            rw [hd] at hki'
            cases dv with
            | ident i => cases hki'
            | scalar s =>
              simp only [kindOf, Option.bind_eq_bind, Option.bind_eq_some_iff] at hki'
              obtain ⟨_, _, h⟩ := hki'
              cases h; rfl
        subst hst
        exact scalar_ok ha (by rw [← width_eq]; exact hi'.2.2)
      | enum ht _ _ =>
        rw [ht] at hki'
        obtain ⟨_, _, h, _⟩ := kindOf_enum hki'
        cases h
      | @ref v ht _ _ =>
        have := below_scalar hki' (some v)
        rw [isRef_below ht] at this
        cases this
      | @union _ _ _ u j v ht _ hu _ _ _ =>
        have := below_scalar hki' (some (.union j v))
        rw [ht] at this
        simp [Gen.below, hu] at this
      | unionNone ht _ _ =>
        rw [ht] at hki'
        obtain ⟨-, _, -, h⟩ := kindOf_union_iff.mp hki'
        cases h
    | enum sty vals d =>
      exact ⟨enumField_ok ha hh hE hF hki' hl _, fun x _ => All.pure _⟩
    | ref G =>
      obtain ⟨k1, k2⟩ := kindOf_ref hki' none
      have bel : ∀ v, Gen.below f.ty (some v) = some (f.ty, v) := below_ref hki'
      have key : e ≠ 0 → (loc + e) % 4 = 0 ∧ OffsetAt buf (loc + e) o ∧ ReadsOk addr gm m S buf (loc + e + o) f.ty G := by
        intro h0
        cases hF with
        | absent h => exact absurd h h0
        | @ref v ht hi' ho' => exact ⟨hi'.2.2, ho', hin _ _ (bel v) G k1⟩
        | scalar ht _ _ => have := bel (.bits 0); rw [ht] at this; cases this
        | enum ht _ _ => have := bel (.bits 0); rw [ht] at this; cases this
        | union ht _ _ _ _ _ => have := bel (.bits 0); rw [ht] at this; cases this
        | unionNone ht _ _ => have := bel (.bits 0); rw [ht] at this; cases this
      refine ⟨hgok (.fwdU G) none fun h0 => offset_ok ha hl (key h0).1 (key h0).2.1 (key h0).2.2.1, fun y hy => ?_⟩
      have h1 := hget (.fwdU G) none
      have hy : Table.get m ⟨buf, loc⟩ (.fwdU G) (4 + 2 * i.val) none = .ok (some y) := hy
      rw [hy] at h1
      by_cases h0 : e ≠ 0
      · rw [if_pos h0, (key h0).2.1.follow hl G] at h1
        obtain ⟨z, z1, z2⟩ := Res.bind_eq_ok.mp h1.symm
        cases z2
        exact (key h0).2.2.2 _ z1 n
      · rw [if_neg h0] at h1
        cases h1
    | union vs =>
      obtain ⟨id, en, uvs, hty, hdn, hm⟩ := kindOf_union hki'
      obtain ⟨rfl, htok⟩ := htag vs rfl
      have key : ∀ j (hj : j < vs.length), sel = some (j + 1) → e ≠ 0 → ∃ u E, uvs[j]? = some u ∧ vs.get ⟨j, hj⟩ = .fwdU E ∧
          (loc + e) % 4 = 0 ∧ OffsetAt buf (loc + e) o ∧ ReadsOk addr gm m S buf (loc + e + o) u.ty E := by
        intro j hj hs h0
        cases hF with
        | absent h => exact absurd h h0
        | unionNone ht hs' hi' => rcases hs' with h | h <;> rw [hs] at h <;> cases h
        | @union _ _ uvs' u j' v ht hs' hu hru hi' ho' =>
          rw [hs] at hs'
          cases hs'
          rw [hty] at ht
          cases ht
          obtain ⟨u', u1, u2⟩ := mapM_getElem hm j hj
          rw [hu] at u1
          cases u1
          obtain ⟨E, hE'⟩ := isRef_follow hru u2
          exact ⟨u, E, hu, hE', hi'.2.2, ho', hin u.ty v (by rw [hty]; simp [Gen.below, hu]) E (by rw [u2, hE'])⟩
        | scalar ht _ _ => rw [hty] at ht; cases ht
        | enum ht _ _ => rw [hty] at ht; cases ht
        | ref ht _ _ => rw [hty] at ht; cases ht
      refine ⟨?_, fun y hy => ?_⟩
      · unfold Mem.fetch
        refine All.bind htok fun s hs => ?_
        rw [htr] at hs
        cases hs
        cases sel with
        | none => exact All.pure _
        | some k =>
          cases k with
          | zero => exact All.pure _
          | succ j =>
            dsimp only
            split
            · rename_i hj
              refine All.bind ?_ fun _ _ => All.pure _
              refine hgok _ _ fun h0 => ?_
              obtain ⟨u, E, _, hE', k3, k4, k5⟩ := key j hj rfl h0
              rw [hE']
              exact offset_ok ha hl k3 k4 k5.1
            · exact All.lift _
      · simp only [Kind.fetch, Res.ok_bind] at hy
        cases sel with
        | none => cases hy
        | some k =>
          cases k with
          | zero => cases hy
          | succ j =>
            dsimp only at hy
            split at hy
            · rename_i hj
              obtain ⟨z, z1, z2⟩ := Res.bind_eq_ok.mp hy
              cases z with
              | none => cases z2
              | some z =>
                cases z2
                rw [hty]
                simp only [Mem.readKind]
                rw [hget] at z1
                by_cases h0 : e ≠ 0
                · obtain ⟨u, E, hu, hE', k3, k4, k5⟩ := key j hj rfl h0
                  rw [hu]
                  dsimp only
                  refine All.bind ?_ fun _ _ => All.pure _
                  rw [if_pos h0] at z1
                  obtain ⟨w, w1, w2⟩ := Res.bind_eq_ok.mp z1
                  cases w2
                  clear hgok hget key hy z1
                  generalize vs.get ⟨j, hj⟩ = G at *
                  subst hE'
                  rw [k4.follow hl E] at w1
                  exact k5.2 _ w1 n
                · rw [if_neg h0] at z1
                  cases z1
            · cases hy

end Butte.Format
