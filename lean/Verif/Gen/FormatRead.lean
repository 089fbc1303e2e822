import Verif.Gen.FormatLemmas
/-
Lemmas for property C89: what the generated code reads in a message of the FlatBuffers format.
-/
namespace Butte.Format
open Ir (QIdent)
open Gen

/-! ### Tables -/

/-- The bytes of the vtable. -/
theorem Header.vtable {buf : Bytes} {loc vt vsize tsize : Nat} (h : Header buf loc vt vsize tsize) :
    ∃ vtb, vtb.length = vsize ∧ VtFmt vtb ∧ TabAt buf (buf.length - loc) vtb ∧ At buf (buf.length - vt) vtb := by
  have hvi := h.vtInside
  have hin := h.inside
  have hb := h.back
  have hat : At buf (buf.length - vt) ((buf.drop vt).take vsize) := by
    refine ⟨buf.take vt, buf.drop (vt + vsize), split_at buf vt vsize, ?_⟩
    simp; omega
  have hlen : ((buf.drop vt).take vsize).length = vsize := by simp; omega
  refine ⟨(buf.drop vt).take vsize, hlen, ⟨by rw [hlen]; exact h.vtMin, by rw [hlen]; exact h.vtEven, ?_, ?_⟩, ⟨buf.length - vt, ?_, hat⟩, hat⟩
  · rw [hlen]; exact h.vtSize.bytes.2
  · rw [hlen]
    have h1 := hat.two_at (o := 0) (by rw [hlen]; have := h.vtMin; omega)
    exact h1.unique h.vtSize.toAt (by rw [two_length (by rw [hlen]; have := h.vtMin; omega), leBytes_length])
  · have := NumAt.toAt hb
    have e : (((loc : Int) - vt) % 2 ^ (8 * 4)).toNat = ofSigned 32 (((buf.length - vt : Nat) : Int) - (buf.length - loc : Nat)) := by
      unfold ofSigned
      congr 2
      omega
    rwa [e] at this

/-- What `Table::get` finds. -/
theorem Header.get {m : Mode} {buf : Bytes} {loc vt vsize tsize : Nat} (h : Header buf loc vt vsize tsize)
    (hl : buf.length < 2 ^ 31) {i e : Nat} (he : EntryAt buf vt vsize i e) (F : FTy) (d : Option F.Inner) :
    Table.get m ⟨buf, loc⟩ F (4 + 2 * i) d =
      if e ≠ 0 then (do let x ← F.follow m buf (loc + e); return some x) else .ok d := by
  have hin := h.inside
  obtain ⟨vtb, hlen, hf, ht, hat⟩ := h.vtable
  have := tableGet_at (m := m) (f := F) (dflt := d) (s := 4 + 2 * i) ht hf hl (by omega)
  rw [show buf.length - (buf.length - loc) = loc by omega] at this
  rw [this, hlen]
  unfold EntryAt at he
  by_cases hlt : 4 + 2 * i < vsize
  · rw [if_pos hlt] at he
    have hev := h.vtEven
    have h1 := hat.two_at (o := 4 + 2 * i) (by omega)
    have h2 := he.toAt
    rw [show buf.length - vt - (4 + 2 * i) = buf.length - (vt + 4 + 2 * i) by omega] at h1
    have e1 := h1.unique h2 (by rw [two_length (by omega), leBytes_length])
    have e2 : leNat (two vtb (4 + 2 * i)) = e := by
      rw [e1, leNat_leBytes, Nat.mod_eq_of_lt he.bytes.2]
    rw [e2]
    by_cases h0 : e = 0
    · simp [h0]
    · simp [h0, hlt]
  · rw [if_neg hlt] at he
    subst he
    simp [hlt]

/-! ### Vectors -/

theorem vec_len {m : Mode} {buf : Bytes} {loc n : Nat} {e : FTy} (h : NumAt buf loc 4 n) (hl : buf.length < 2 ^ 31) :
    Vec.len m (⟨buf, loc⟩ : Vec e) = .ok n := NumAt.readNat (t := .u32) h h.bytes.2 hl

theorem vec_get {m : Mode} {buf : Bytes} {loc n i : Nat} {e : FTy} (h : NumAt buf loc 4 n) (hl : buf.length < 2 ^ 31)
    (hi : i < n) (he : 0 < e.size) (hin : loc + 4 + e.size * i < 2 ^ 31) :
    Vec.get m (⟨buf, loc⟩ : Vec e) i = e.follow m buf (loc + 4 + e.size * i) := by
  have hlen : readNatAt m .u32 buf loc = .ok n := vec_len (e := e) h hl
  have hd : debugAssert m (decide (0 < e.size)) = .ok () := by
    unfold debugAssert; rw [if_neg]; simp; omega
  have hd2 : debugAssert m (decide (i < n)) = .ok () := by
    unfold debugAssert; rw [if_neg]; simp; omega
  have hrest : (do
      debugAssert m (decide (0 < e.size))
      let a ← addU m loc 4
      let b ← mulU m e.size i
      let l ← addU m a b
      e.follow m buf l) = e.follow m buf (loc + 4 + e.size * i) := by
    rw [hd]
    simp only [Res.ok_bind]
    rw [addU_ok (by omega)]
    simp only [Res.ok_bind]
    rw [mulU_ok (by omega)]
    simp only [Res.ok_bind]
    rw [addU_ok (by omega)]
    rfl
  unfold Vec.get
  simp only
  rw [hlen]
  split
  · simp only [Res.ok_bind, hd2]
    exact hrest
  · exact hrest

/-- What stands at `loc` reads as the value `v` of type `ty`. -/
def Reads (gm m : Mode) (S : Tables) (buf : Bytes) (loc : Nat) (ty : Ir.Ty) (F : FTy) (v : Val) : Prop :=
  ∃ x, F.follow m buf loc = .ok x ∧ ∃ N, ∀ n, N ≤ n → readVal gm m S n ty (.fwdU F) x = .ok v

theorem vec_reads {gm m : Mode} {S : Tables} {buf : Bytes} {loc : Nat} {t : Ir.Ty} {e : FTy} (xs : List Val)
    (hlen : Vec.len m (⟨buf, loc⟩ : Vec e) = .ok xs.length)
    (hx : ∀ i (hi : i < xs.length), ∃ y, Vec.get m (⟨buf, loc⟩ : Vec e) i = .ok y ∧
      ∃ N, ∀ n, N ≤ n → readVal gm m S n t e y = .ok xs[i]) :
    Reads gm m S buf loc (.array t) (.vector e) (.vec xs) := by
  have hx' : ∀ i (hi : i < xs.length), ∃ (_ : Unit) (N : Nat), ∀ n, N ≤ n →
      (do let y ← Vec.get m (⟨buf, loc⟩ : Vec e) i; readVal gm m S n t e y) = .ok xs[i] := by
    intro i hi
    obtain ⟨y, h1, N, h2⟩ := hx i hi
    refine ⟨(), N, fun n hn => ?_⟩
    rw [h1]; exact h2 n hn
  obtain ⟨_, _, N, hN⟩ := common_bound hx'
  refine ⟨⟨buf, loc⟩, rfl, N + 1, ?_⟩
  intro n hn
  cases n with
  | zero => omega
  | succ n =>
    simp only [readVal]
    rw [hlen, Res.ok_bind, mapAll_ok (ys := xs) (by simp) (fun i hi => ?_)]
    · rfl
    · simp only [List.getElem_range]
      exact hN i (by simpa using hi) n (by omega)

theorem enum_follow {m : Mode} {D : Dialect} {buf : Bytes} {p i : Nat} {base : Ir.EnumBase} {vs : List Ir.EnumVariant}
    {vals : List (SVal (enumBaseSTy base))} (h : VariantAt D buf p vs base i)
    (hv : enumValues (enumBaseSTy base) vs = some vals) (hD : D.numbers vs = generated.numbers vs)
    (hl : buf.length < 2 ^ 31) :
    (enumFTy (enumBaseSTy base) vals).follow m buf p = .ok i := by
  obtain ⟨hi, hn⟩ := h.val hv hD
  show (do let v ← readScalarAt m (enumBaseSTy base) buf p
           enumTryFrom (vals.map (fun x : SVal (enumBaseSTy base) => x.val)) (v : SVal (enumBaseSTy base)).val) = _
  rw [NumAt.read hn hl, Res.ok_bind]
  exact enumTryFrom_get (enumValues_ok hv).1 ⟨i, hi⟩

/-! ### Trees -/

/-- What a schema must be like for code generated from it to read messages of dialect `D`. -/
structure Readable (D : Dialect) (gm : Mode) (S : Tables) : Prop where
  compiles : ∀ q t, S q = some t → (∃ gs, compileTable gm t = some gs) ∧ t.fields.length ≤ 32765
  numbers : Numbered D S
  absent : ∀ q t, S q = some t → ∀ f ∈ t.fields, D.absent f = generated.absent f

theorem SameNumbers.refl (ty : Ir.Ty) : SameNumbers generated ty := by
  match ty with
  | .builtin b => exact .builtin b
  | .string => exact .string
  | .table q => exact .table q
  | .struct i fs => exact .struct i fs
  | .array t => exact .array (SameNumbers.refl t)
  | .enum .. => exact .enum rfl
  | .union _ _ uvs => exact .union fun u hu => SameNumbers.refl u.ty
termination_by sizeOf ty
decreasing_by
  all_goals simp_wf
  all_goals first
    | omega
    | (have := List.sizeOf_lt_of_mem hu
       obtain ⟨a, b, c⟩ := u
       simp only [Ir.UVariantOf.mk.sizeOf_spec] at *
       omega)

theorem isRef_below {ty : Ir.Ty} (h : IsRef ty) (v : Val) : below ty (some v) = some (ty, v) := by
  cases h <;> rfl

theorem isRef_follow {ty : Ir.Ty} (h : IsRef ty) {e : FTy} (he : followTy ty = some e) : ∃ E, e = .fwdU E := by
  cases h with
  | string => cases he; exact ⟨_, rfl⟩
  | table q => cases he; exact ⟨_, rfl⟩
  | array t =>
    simp only [followTy, Option.bind_eq_bind, Option.bind_eq_some_iff] at he
    obtain ⟨_, _, he⟩ := he
    cases he; exact ⟨_, rfl⟩

theorem SameNumbers.under {D : Dialect} {ty ty' : Ir.Ty} {x : Option Val} {v : Val} (h : SameNumbers D ty)
    (e : Gen.below ty x = some (ty', v)) : SameNumbers D ty' := by
  unfold Gen.below at e
  split at e
  · cases e; exact h
  · cases e; exact h
  · cases e; exact h
  · simp only [Option.map_eq_some_iff] at e
    obtain ⟨u, h1, h2⟩ := e
    cases h2
    cases h with
    | union h => exact h u (List.mem_of_getElem? h1)
  · cases e

/-- `tagOf` finds what `selector` finds. -/
theorem kind_enum_of {ty : Ir.Ty} {d : Option Ast.DefaultValue} {t : STy} {vals : List (SVal t)} {d' : Option (Fin vals.length)}
    (h : kindOf ty d = some (.enum t vals d')) : ∃ id vs b, ty = .enum id vs b := by
  cases ty with
  | enum id vs b => exact ⟨id, vs, b, rfl⟩
  | builtin b =>
    cases d with
    | none => cases h
    | some d =>
      cases d with
      | ident i => cases h
      | scalar s =>
        simp only [kindOf, Option.bind_eq_bind, Option.bind_eq_some_iff] at h
        obtain ⟨_, _, h⟩ := h
        cases h
  | union id e uvs =>
    obtain ⟨-, _, -, h⟩ := kindOf_union_iff.mp h
    cases h
  | struct id fs => cases d <;> cases h
  | string => cases d <;> cases h
  | array t =>
    cases d with
    | none =>
      simp only [kindOf, Option.bind_eq_bind, Option.bind_eq_some_iff] at h
      obtain ⟨_, _, h⟩ := h
      cases h
    | some d => cases h
  | table q => cases d <;> cases h

/-- One enum field. -/
theorem enum_get {D : Dialect} {m : Mode} {buf : Bytes} {loc vt vsize tsize i e o : Nat} {sel : Option Nat} {f : Ir.Field}
    {x : Option Val} {t : STy} {vals : List (SVal t)} {d : Option (Fin vals.length)}
    (hh : Header buf loc vt vsize tsize) (he : EntryAt buf vt vsize i e) (hf : FieldAt D buf loc tsize sel f e o x)
    (hk : kindOf f.ty f.default = some (.enum t vals d)) (hn : SameNumbers D f.ty)
    (ha : D.absent f = generated.absent f) (hl : buf.length < 2 ^ 31) :
    ∃ y : Option Nat, Table.get m ⟨buf, loc⟩ (enumFTy t vals) (4 + 2 * i) (d.map (·.val)) = .ok y ∧ x = y.map .variant ∧
      ∀ k, y = some k → k < vals.length := by
  have hg := hh.get (m := m) hl he (enumFTy t vals) (d.map (·.val))
  have ha' := ha.trans (absent_eq hk)
  obtain ⟨id, vs, b, hty⟩ := kind_enum_of hk
  cases hf with
  | absent h0 =>
    rw [if_neg (by omega)] at hg
    refine ⟨_, hg, ?_, ?_⟩
    · rw [ha']
      cases d <;> rfl
    · intro k hk'
      cases d with
      | none => cases hk'
      | some d => cases hk'; exact d.isLt
  | scalar ht _ _ => rw [hty] at ht; cases ht
  | @enum id' vs' base i ht hi hv =>
    rw [ht] at hk hn
    obtain ⟨xs, d', h1, h2, -, -⟩ := kindOf_enum hk
    cases h1
    cases hn with
    | enum hnum =>
      rw [if_pos (by have := hi.1; omega), enum_follow hv h2 hnum hl] at hg
      refine ⟨some i, hg, rfl, ?_⟩
      intro k hk'
      cases hk'
      exact (hv.val h2 hnum).1
  | ref ht _ _ => rw [hty] at ht; cases ht
  | union ht _ _ _ _ _ => rw [hty] at ht; cases ht
  | unionNone ht _ _ => rw [hty] at ht; cases ht

/-- The selector is the value of the field that the generated accessor of the union asks. -/
theorem selector_eq {gm : Mode} {t : Ir.Table} {gs : List GField} (hc : compileTable gm t = some gs) {xs : List (Option Val)}
    {f : Ir.Field} {j : Nat} {g : Ir.Field} (hj : t.fields[j]? = some g)
    (hn : Heck.snake g.ident = Heck.snake f.ident ++ c!"_type") :
    selector t.fields xs f = match xs[j]? with | some (some (.variant k)) => some k | _ => none := by
  have hsp := compileFields_spec (compileTable_fields hc)
  have hnd := names_nodup hc
  have e : gs.map (·.name) = t.fields.map fun f => Heck.snake f.ident := by
    exact compiled_names hsp
  rw [e] at hnd
  have hfi : t.fields.findIdx? (fun g => Heck.snake g.ident == Heck.snake f.ident ++ c!"_type") = some j := by
    rw [List.findIdx?_eq_some_iff_getElem]
    obtain ⟨h1, h2⟩ := List.getElem?_eq_some_iff.mp hj
    refine ⟨h1, by simp [h2, hn], ?_⟩
    intro i hi
    simp only [Bool.not_eq_true, beq_eq_false_iff_ne, ne_eq]
    intro h3
    have h4 : (t.fields.map fun f => Heck.snake f.ident)[i]'(by simp; omega) = (t.fields.map fun f => Heck.snake f.ident)[j]'(by simpa using h1) := by
      simp only [List.getElem_map, h2, h3, hn]
    have := (List.getElem_inj hnd).mp h4
    omega
  unfold selector
  rw [hfi]
  dsimp only
  cases xs[j]? with
  | none => rfl
  | some y =>
    cases y with
    | none => rfl
    | some v => cases v <;> rfl

theorem Holds.reads {D : Dialect} {gm m : Mode} {S : Tables} {buf : Bytes} (hS : Readable D gm S) (hl : buf.length < 2 ^ 31)
    {ty : Ir.Ty} {v : Val} {loc : Nat} (h : Holds D S buf ty v loc) : SameNumbers D ty → ∀ F, followTy ty = some (.fwdU F) →
    Reads gm m S buf loc ty F v := by
  induction h with
  | @string s loc ha hn hb =>
    intro _ F hF
    cases hF
    refine ⟨s, ?_, 1, fun n hn => ?_⟩
    · have h1 : At buf (buf.length - loc) (strObj (Builder.strBytes s)) := by
        obtain ⟨b1, -⟩ := hn.bytes
        have hin := hb.inside
        obtain ⟨pre, post, e1, e2⟩ := b1
        obtain ⟨pre', post', e3, e4⟩ := hb
        rw [e1] at e3
        have e5 : pre ++ leBytes 4 s.toUTF8.size = pre' := by
          have h1 := congrArg (List.take pre'.length) e3
          rw [List.take_left' rfl, ← List.append_assoc, List.take_left' (by simp; omega)] at h1
          exact h1
        refine ⟨pre, post', ?_, ?_⟩
        · rw [e1, e3, ← e5]
          show _ = pre ++ (leBytes 4 s.toUTF8.data.toList.length ++ (s.toUTF8.data.toList ++ [0]) ++ post')
          simp only [List.append_assoc, Array.length_toList]
          rfl
        · have := congrArg List.length (e1.trans e3)
          rw [← e5] at this
          show buf.length - loc = (leBytes 4 s.toUTF8.data.toList.length ++ (s.toUTF8.data.toList ++ [0])).length + _
          simp only [List.length_append, leBytes_length] at this ⊢
          omega
      have := h1.string (m := m) (by omega)
      rwa [sub_sub_self' hn.inside] at this
    · cases n with
      | zero => omega
      | succ n => rfl
  | @scalars t xs loc ha hw hn hx =>
    intro _ F hF
    cases hF
    refine vec_reads _ (by rw [vec_len hn hl]; simp) ?_
    intro i hi
    have hi' : i < xs.length := by simpa using hi
    obtain ⟨y, h1, h2⟩ := (hx i hi').val
    have hin := h2.inside
    rw [width_eq] at hin h2
    refine ⟨y, ?_, 1, fun n hn' => ?_⟩
    · rw [vec_get (e := .scalar (builtinSTy t)) hn hl hi' (builtinSTy t).size_pos (by show loc + 4 + (builtinSTy t).size * i < _; have := (builtinSTy t).size_pos; omega)]
      exact NumAt.read h2 hl
    · cases n with
      | zero => omega
      | succ n => rw [List.getElem_map, ← h1]; rfl
  | @enums id vs base xs loc ha hw hn hx =>
    intro hnum F hF
    simp only [followTy, Option.bind_eq_bind, Option.bind_eq_some_iff] at hF
    obtain ⟨_, ⟨vals, hv, h1⟩, h2⟩ := hF
    cases h1
    cases h2
    cases hnum with
    | array hnum =>
      cases hnum with
      | enum hnum =>
        refine vec_reads _ (by rw [vec_len hn hl]; simp) ?_
        intro i hi
        have hi' : i < xs.length := by simpa using hi
        have hin := (((hx i hi').val hv hnum).2).inside
        rw [baseWidth_eq] at hin
        refine ⟨xs[i], ?_, 1, fun n hn' => ?_⟩
        · rw [vec_get (e := enumFTy (enumBaseSTy base) vals) hn hl hi' (enumBaseSTy base).size_pos (by
            show loc + 4 + (enumBaseSTy base).size * i < _; have := (enumBaseSTy base).size_pos; omega)]
          have := enum_follow (m := m) (hx i hi') hv hnum hl
          rw [baseWidth_eq] at this
          exact this
        · cases n with
          | zero => omega
          | succ n => rw [List.getElem_map]; rfl
  | @offsets t xs os loc ht ha hn hlen ho hx ih =>
    intro hnum F hF
    simp only [followTy, Option.bind_eq_bind, Option.bind_eq_some_iff] at hF
    obtain ⟨e, h1, h2⟩ := hF
    cases h2
    obtain ⟨E, rfl⟩ := isRef_follow ht h1
    refine vec_reads _ (vec_len hn hl) ?_
    intro i hi
    have hi' : i < os.length := by omega
    have hin := (ho i hi').1.inside
    cases hnum with
    | array hnum =>
      obtain ⟨y, f1, f2⟩ := ih i os[i] xs[i] (by simp [hi']) (by simp [hi]) hnum E h1
      refine ⟨y, ?_, f2⟩
      rw [vec_get (e := .fwdU E) hn hl hi (Nat.zero_lt_succ 3) (by show loc + 4 + 4 * i < _; omega)]
      exact ((ho i hi').follow hl E).trans f1
  | @table q t xs es os loc vt vsize tsize hq hh hn hes hos he hf hr hx _ ih =>
    intro _ F hF
    cases hF
    obtain ⟨⟨gs, hc⟩, hlim⟩ := hS.compiles q t hq
    have hnumS := hS.numbers q t hq
    have habsS := hS.absent q t hq
    have hcf := compileTable_fields hc
    have hsp := List.forall₂_iff_get.mp (compileFields_spec hcf)
    have hslot := compileFields_slot hcf (by omega)
    refine ⟨⟨buf, loc⟩, rfl, ?_⟩
    have fld : ∀ i (hi : i < gs.length), ∃ (_ : Unit) (N : Nat), ∀ n, N ≤ n →
        (match t.fields[i]? with
          | some f => readField (readVal gm m S n) f.ty (gs.get ⟨i, hi⟩).kind
              (accessor m ⟨buf, loc⟩ gs (gs.get ⟨i, hi⟩))
          | none => .panic : Res (Option Val)) = .ok (xs[i]'(by omega)) := by
      intro i hi
      have hit : i < t.fields.length := by omega
      have hfi : t.fields[i]? = some t.fields[i] := by simp [hit]
      have hei : es[i]? = some (es[i]'(by omega)) := List.getElem?_eq_getElem _
      have hoi : os[i]? = some (os[i]'(by omega)) := List.getElem?_eq_getElem _
      have hxi : xs[i]? = some (xs[i]'(by omega)) := List.getElem?_eq_getElem _
      have hci := hsp.2 i hit hi
      simp only [List.get_eq_getElem] at hci
      have hsl := hslot i hi
      have hF := hf i _ _ _ _ hfi hei hoi hxi
      have hR := hr i _ _ hfi hxi
      have hE := he i (by omega)
      have hnumf := hnumS _ (List.getElem_mem hit)
      have habs := habsS _ (List.getElem_mem hit)
      have hin : ∀ ty v', Gen.below t.fields[i].ty (xs[i]'(by omega)) = some (ty, v') → ∀ E, followTy ty = some (.fwdU E) →
          Reads gm m S buf (loc + es[i]'(by omega) + os[i]'(by omega)) ty E v' := fun ty v' hb E hE =>
        ih i _ _ _ _ ty v' hfi hei hoi hxi hb (hnumf.under hb) E hE
      -- the selector
      have hsel : ∀ vs, gs[i].kind = .union vs → tagOf m ⟨buf, loc⟩ gs gs[i].name = .ok (selector t.fields xs t.fields[i]) ∧
          ∀ k, selector t.fields xs t.fields[i] = some k → k < vs.length + 1 := by
        intro vs hk
        obtain ⟨j, sty, vals, d, j1, j2, j3, j4⟩ := union_tag hc (i := ⟨i, hi⟩) hk
        have hjt : j.val < t.fields.length := by have := j.isLt; omega
        have hcj := hsp.2 j.val hjt j.isLt
        have hfj : t.fields[j.val]? = some t.fields[j.val] := by simp [hjt]
        have hxj : xs[j.val]? = some (xs[j.val]'(by omega)) := List.getElem?_eq_getElem _
        have hs := selector_eq hc (xs := xs) (f := t.fields[i]) hfj (by
          rw [← hci.name]
          have := hcj.name
          simp only [List.get_eq_getElem] at this j1
          rw [← this, j1])
        have hkj := hcj.kind
        rw [j2] at hkj
        obtain ⟨y, y1, y2, y3⟩ := enum_get (m := m) hh (he j.val (by omega))
          (hf j.val _ _ _ _ hfj (List.getElem?_eq_getElem _) (List.getElem?_eq_getElem (by omega)) hxj) hkj
          (hnumS _ (List.getElem_mem hjt)) (habsS _ (List.getElem_mem hjt)) hl
        have hsel : selector t.fields xs t.fields[i] = y := by
          rw [hs, hxj, y2]
          cases y <;> rfl
        have hfn := find_name (names_nodup hc) j
        rw [j1] at hfn
        have hsj := hslot j.val j.isLt
        refine ⟨?_, fun k hk => ?_⟩
        · unfold tagOf
          simp only [List.get_eq_getElem] at hfn
          rw [hfn]
          have hRj : gs[j.val].required = true → y ≠ none := by
            intro h1 h2
            have h3 := hcj.required
            simp only [List.get_eq_getElem] at h3
            refine hr j.val _ _ hfj hxj (by rw [← h3]; exact h1) ?_
            rw [y2, h2]; rfl
          rw [hsel]
          simp only [List.get_eq_getElem] at j2
          generalize gs[j.val] = g at *
          obtain ⟨nm, sl, k, r⟩ := g
          simp only at j2 hsj hRj
          subst j2
          simp only [hsj]
          rw [Nat.zero_add, y1]
          show okOr nm r y = .ok y
          cases y with
          | some y => rfl
          | none =>
            cases r with
            | true => exact absurd rfl (hRj rfl)
            | false => rfl
        · rw [hsel] at hk
          have := y3 k hk
          omega
      rw [hfi]
      simp only
      have hki := hci.kind
      have hri := hci.required
      have hget := fun F d => hh.get (m := m) hl hE F d
      unfold accessor
      simp only [List.get_eq_getElem]
      generalize tagOf m ⟨buf, loc⟩ gs gs[i].name = tag at *
      generalize gs[i] = g at *
      obtain ⟨nm, sl, k, r⟩ := g
      simp only at hki hri hsl hsel ⊢
      subst hri
      rw [Nat.zero_add] at hsl
      rw [hsl]
      have habs' := habs.trans (absent_eq hki)
      have hreq : ∀ {α : Type} (z : Option α), (xs[i]'(by omega) = none ↔ z = none) →
          okOr nm t.fields[i].required z = .ok z := by
        intro α z hz
        cases z with
        | some z => rfl
        | none =>
          unfold okOr
          rw [if_neg]
          intro h
          exact hR h (hz.mpr rfl)
      generalize es[i]'(by omega) = e at *
      generalize os[i]'(by omega) = o at *
      generalize xs[i]'(by omega) = x at *
      generalize selector t.fields xs t.fields[i] = sel at *
      generalize t.fields[i] = f at *
      cases k with
      | scalar sty d =>
        refine ⟨(), 0, fun n _ => ?_⟩
        simp only [Kind.fetch]
        cases hF with
        | absent h0 =>
          have h1 := hget (.scalar sty) d
          rw [if_neg (by omega)] at h1
          rw [h1, habs']
          have h2 := hreq (α := (Kind.scalar sty d).Inner) d (by
            rw [habs']; cases d
            · exact ⟨fun _ => rfl, fun _ => rfl⟩
            · exact ⟨nofun, nofun⟩)
          show readField _ _ _ (okOr (α := (Kind.scalar sty d).Inner) nm f.required d) = _
          rw [h2]
          cases d <;> rfl
        | @scalar bt k ht hi' hv =>
          rw [ht] at hki
          have hst : sty = builtinSTy bt := by
            cases hd : f.default with
            | none => rw [hd] at hki; cases hki; rfl
            | some dv =>
              rw [hd] at hki
              cases dv with
              | ident i => cases hki
              | scalar s =>
                simp only [kindOf, Option.bind_eq_bind, Option.bind_eq_some_iff] at hki
                obtain ⟨_, _, h⟩ := hki
                cases h; rfl
          subst hst
          obtain ⟨y, y1, y2⟩ := hv.val
          have h1 := hget (.scalar (builtinSTy bt)) d
          have h2 : FTy.follow m (.scalar (builtinSTy bt)) buf (loc + e) = .ok y := NumAt.read y2 hl
          rw [if_pos (by have := hi'.1; omega), h2] at h1
          rw [h1]
          subst y1
          rfl
        | enum ht _ _ =>
          rw [ht] at hki
          obtain ⟨_, _, h, _⟩ := kindOf_enum hki
          cases h
        | @ref v ht _ _ =>
          have := below_scalar hki (some v)
          rw [isRef_below ht] at this
          cases this
        | @union _ _ _ u j v ht _ hu _ _ _ =>
          have := below_scalar hki (some (.union j v))
          rw [ht] at this
          simp [Gen.below, hu] at this
        | unionNone ht _ _ =>
          rw [ht] at hki
          obtain ⟨-, _, -, h⟩ := kindOf_union_iff.mp hki
          cases h
      | enum sty vals d =>
        refine ⟨(), 0, fun n _ => ?_⟩
        obtain ⟨y, y1, y2, -⟩ := enum_get (m := m) hh hE hF hki hnumf habs hl
        simp only [Kind.fetch]
        rw [y1]
        have h2 := hreq (α := (Kind.enum sty vals d).Inner) y (by
          rw [y2]; cases y
          · exact ⟨fun _ => rfl, fun _ => rfl⟩
          · exact ⟨nofun, nofun⟩)
        show readField _ _ _ (okOr (α := (Kind.enum sty vals d).Inner) nm f.required y) = _
        rw [h2, y2]
        cases y <;> rfl
      | ref G =>
        obtain ⟨k1, k2⟩ := kindOf_ref hki none
        simp only [Kind.fetch]
        have bel : ∀ v, Gen.below f.ty (some v) = some (f.ty, v) := below_ref hki
        cases hF with
        | absent h0 =>
          refine ⟨(), 0, fun n _ => ?_⟩
          have h1 := hget (.fwdU G) none
          rw [if_neg (by omega)] at h1
          rw [h1, habs']
          have h2 := hreq (α := (Kind.ref G).Inner) none (by rw [habs']; simp [Kind.absent])
          show readField _ _ _ (okOr (α := (Kind.ref G).Inner) nm f.required none) = _
          rw [h2]
          rfl
        | @ref v ht hi' ho' =>
          obtain ⟨y, y1, N, y2⟩ := hin _ _ (bel v) G k1
          refine ⟨(), N, fun n hn => ?_⟩
          have h1 := hget (.fwdU G) none
          rw [if_pos (by have := hi'.1; omega), ho'.follow hl G, y1] at h1
          rw [h1]
          show (do let v ← readVal gm m S n f.ty (.fwdU G) y; return some v : Res (Option Val)) = _
          rw [y2 n hn]; rfl
        | scalar ht _ _ => have := bel (.bits 0); rw [ht] at this; cases this
        | enum ht _ _ => have := bel (.bits 0); rw [ht] at this; cases this
        | union ht _ _ _ _ _ => have := bel (.bits 0); rw [ht] at this; cases this
        | unionNone ht _ _ => have := bel (.bits 0); rw [ht] at this; cases this
      | union vs =>
        obtain ⟨id, en, uvs, hty, hdn, hm⟩ := kindOf_union hki
        obtain ⟨rfl, hlt⟩ := hsel vs rfl
        have none_case : x = none →
            (∀ j (h : j < vs.length), sel = some (j + 1) → Table.get m ⟨buf, loc⟩ (vs.get ⟨j, h⟩) (4 + 2 * i) none = .ok none) →
            ∃ (_ : Unit) (N : Nat), ∀ n, N ≤ n → readField (readVal gm m S n) f.ty (Kind.union vs) (do
              let x ← Kind.fetch m ⟨buf, loc⟩ (4 + 2 * i) (.ok sel) (.union vs)
              okOr nm f.required x) = .ok x := by
          intro hx0 hg
          refine ⟨(), 0, fun n _ => ?_⟩
          have : Kind.fetch m ⟨buf, loc⟩ (4 + 2 * i) (.ok sel) (.union vs) = .ok none := by
            clear hsel hF
            simp only [Kind.fetch, Res.ok_bind]
            cases sel with
            | none => rfl
            | some k =>
              cases k with
              | zero => rfl
              | succ j =>
                have hj : j < vs.length := by have := hlt _ rfl; omega
                simp only
                rw [dif_pos hj, hg j hj rfl]
                rfl
          rw [this, Res.ok_bind, hreq none (by simp [hx0]), hx0]
          rfl
        cases hF with
        | absent h0 =>
          refine none_case (by rw [habs']; rfl) (fun j hj _ => ?_)
          have := hget (vs.get ⟨j, hj⟩) none
          rwa [if_neg (by omega)] at this
        | unionNone ht hs hi' =>
          refine none_case rfl (fun j hj h => ?_)
          rcases hs with hs | hs <;> rw [hs] at h <;> cases h
        | @union _ _ uvs' u j v ht hs hu hru hi' ho' =>
          rw [hty] at ht
          cases ht
          have hj : j < vs.length := by have := hlt _ hs; omega
          obtain ⟨u', u1, u2⟩ := mapM_getElem hm j hj
          rw [hu] at u1
          cases u1
          obtain ⟨E, hE'⟩ : ∃ E, followTy u.ty = some (.fwdU E) := by
            obtain ⟨E, hE'⟩ := isRef_follow hru u2
            exact ⟨E, by rw [u2, hE']⟩
          obtain ⟨y, y1, N, y2⟩ := hin u.ty v (by rw [hty]; simp [Gen.below, hu]) E hE'
          have hvE : vs.get ⟨j, hj⟩ = .fwdU E := by
            rw [u2] at hE'
            exact Option.some.inj hE'
          have key : ∀ G : FTy, G = .fwdU E → ∃ z : G.Inner, Table.get m ⟨buf, loc⟩ G (4 + 2 * i) none = .ok (some z) ∧
              ∀ n, N ≤ n → readVal gm m S n u.ty G z = .ok v := by
            rintro _ rfl
            refine ⟨y, ?_, y2⟩
            have h1 := hget (.fwdU E) none
            rw [if_pos (by have := hi'.1; omega), ho'.follow hl E, y1] at h1
            exact h1
          obtain ⟨z, z1, z2⟩ := key _ hvE
          refine ⟨(), N, fun n hn => ?_⟩
          subst hs
          simp only [Kind.fetch, Res.ok_bind]
          rw [dif_pos hj, z1]
          rw [hty]
          show (do
            let v' ← (match uvs[j]? with
              | some u => do
                let v ← readVal gm m S n u.ty (vs.get ⟨j, hj⟩) z
                return Val.union j v
              | none => .panic : Res Val)
            return some v' : Res (Option Val)) = _
          rw [hu]
          dsimp only
          rw [z2 n hn]; rfl
        | scalar ht _ _ => rw [hty] at ht; cases ht
        | enum ht _ _ => rw [hty] at ht; cases ht
        | ref ht _ _ => rw [hty] at ht; cases ht
    obtain ⟨_, _, N, hN⟩ := common_bound fld
    refine ⟨N + 1, fun n hn' => ?_⟩
    cases n with
    | zero => omega
    | succ n =>
      simp only [readVal, hq, hc]
      rw [mapAll_finRange (ys := xs) (by omega) (fun i hi => hN i hi n (by omega))]
      rfl

end Butte.Format
