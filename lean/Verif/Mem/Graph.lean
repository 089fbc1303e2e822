import Verif.Mem.Inside
import Verif.Gen.TreeRead
/-
The generated accessors stay inside the buffer too, to any depth.
-/
namespace Butte.Mem
open Gen

/-- What was read keeps a reference to `buf` and to no other buffer. -/
def InBuf (buf : Bytes) : (f : FTy) → f.Inner → Prop
  | .vector e, x => (x : Vec e).buf = buf
  | .table, x => (x : Butte.Table).buf = buf
  | .vtable, x => (x : Butte.VTable).buf = buf
  | .fwdU t, x | .fwdV t, x | .backS t, x | .skipSize t, x | .skipRoot t, x | .skipFileId t, x => InBuf buf t x
  | .scalar _, _ | .str, _ | .slice _, _ | .fileId, _ | .enum _ _, _ => True

theorem follow_inBuf {m : Mode} {buf : Bytes} : ∀ (f : FTy) (loc : Nat) (x : f.Inner), f.follow m buf loc = .ok x → InBuf buf f x
  | .vector e, loc, x, h => by cases h; rfl
  | .table, loc, x, h => by cases h; rfl
  | .vtable, loc, x, h => by cases h; rfl
  | .scalar _, _, _, _ | .str, _, _, _ | .slice _, _, _, _ | .fileId, _, _, _ | .enum _ _, _, _, _ => trivial
  | .fwdU t, loc, x, h | .fwdV t, loc, x, h | .backS t, loc, x, h => by
    unfold FTy.follow at h
    obtain ⟨_, _, h⟩ := Res.bind_eq_ok.mp h
    obtain ⟨_, _, h⟩ := Res.bind_eq_ok.mp h
    obtain ⟨_, _, h⟩ := Res.bind_eq_ok.mp h
    obtain ⟨_, _, h⟩ := Res.bind_eq_ok.mp h
    exact follow_inBuf t _ x h
  | .skipSize t, loc, x, h | .skipRoot t, loc, x, h | .skipFileId t, loc, x, h => by
    unfold FTy.follow at h
    obtain ⟨_, _, h⟩ := Res.bind_eq_ok.mp h
    exact follow_inBuf t _ x h

theorem tableGet_inBuf {m : Mode} {t : Butte.Table} {f : FTy} {slot : Nat} {d : Option f.Inner} {x : f.Inner}
    (h : t.get m f slot d = .ok (some x)) (hd : ∀ y, d = some y → InBuf t.buf f y) : InBuf t.buf f x := by
  unfold Butte.Table.get at h
  obtain ⟨_, _, h⟩ := Res.bind_eq_ok.mp h
  obtain ⟨o, _, h⟩ := Res.bind_eq_ok.mp h
  cases o with
  | none => exact hd x (Res.ok.inj h)
  | some o =>
    dsimp only at h
    split at h
    · exact hd x (Res.ok.inj h)
    · obtain ⟨_, _, h⟩ := Res.bind_eq_ok.mp h
      obtain ⟨y, e, h⟩ := Res.bind_eq_ok.mp h
      cases h
      exact follow_inBuf f _ _ e

/-- The same for the result of an accessor. -/
def InBufKind (buf : Bytes) : (k : Kind) → k.Inner → Prop
  | .ref f, x => InBuf buf f x
  | .union vs, ⟨i, x⟩ => InBuf buf (vs.get i) x
  | .scalar _ _, _ | .enum _ _ _, _ => True

theorem fetch_inBuf {m : Mode} {t : Butte.Table} {slot : Nat} {tag : Res (Option Nat)} {k : Kind} {x : k.Inner}
    (h : Kind.fetch m t slot tag k = .ok (some x)) : InBufKind t.buf k x := by
  cases k with
  | scalar ty d => trivial
  | enum ty vals d => trivial
  | ref f => exact tableGet_inBuf (f := .fwdU f) (d := none) h nofun
  | union vs =>
    simp only [Kind.fetch] at h
    obtain ⟨o, _, h⟩ := Res.bind_eq_ok.mp h
    cases o with
    | none => cases h
    | some k =>
      cases k with
      | zero => cases h
      | succ i =>
        dsimp only at h
        split at h
        · rename_i hi
          obtain ⟨y, e, h⟩ := Res.bind_eq_ok.mp h
          cases y with
          | none => cases h
          | some y =>
            cases h
            exact tableGet_inBuf e nofun
        · cases h

theorem okOr_some {α : Type} {name : Str} {r : Bool} {o : Option α} {x : α} (h : okOr name r o = .ok (some x)) : o = some x := by
  cases o with
  | some y => cases h; rfl
  | none =>
    unfold okOr at h
    dsimp only at h
    split at h <;> cases h

theorem accessor_inBuf {m : Mode} {t : Butte.Table} {fs : List GField} {f : GField} {x : f.kind.Inner}
    (h : Gen.accessor m t fs f = .ok (some x)) : InBufKind t.buf f.kind x := by
  unfold Gen.accessor at h
  obtain ⟨o, e, h⟩ := Res.bind_eq_ok.mp h
  rw [okOr_some h] at e
  exact fetch_inBuf e

/-! ### Generated types read no `bool` as such -/

theorem enumBase_ne (b : Ir.EnumBase) : enumBaseSTy b ≠ .bool := by cases b <;> decide

theorem followTy_noBool : ∀ {ty : Ir.Ty} {f : FTy}, followTy ty = some f → NoBool f
  | .builtin b, f, h => by cases h; trivial
  | .string, f, h => by cases h; trivial
  | .array t, f, h => by
    simp only [followTy, Option.bind_eq_bind, Option.bind_eq_some_iff] at h
    obtain ⟨e, h1, h⟩ := h
    cases h
    show NoBool e
    exact followTy_noBool h1
  | .table _, f, h => by cases h; trivial
  | .struct .., f, h => by cases h
  | .enum _ vs b, f, h => by
    simp only [followTy, Option.bind_eq_bind, Option.bind_eq_some_iff] at h
    obtain ⟨e, h1, h⟩ := h
    cases h
    exact enumBase_ne b
  | .union .., f, h => by cases h

theorem kindOf_noBool {ty : Ir.Ty} {d : Option Ast.DefaultValue} {k : Kind} (h : kindOf ty d = some k) : NoBoolKind k := by
  cases k with
  | scalar t d => trivial
  | enum t vals d' =>
    unfold kindOf at h
    split at h
    case h_4 =>
      simp only [Option.bind_eq_bind, Option.bind_eq_some_iff] at h
      obtain ⟨xs, h1, h⟩ := h
      split at h
      · cases h; exact enumBase_ne _
      · simp only [Option.bind_eq_some_iff] at h
        obtain ⟨_, _, h⟩ := h
        split at h
        · cases h; exact enumBase_ne _
        · cases h
    all_goals first
      | (cases h; done)
      | (simp only [Option.bind_eq_bind, Option.bind_eq_some_iff] at h
         obtain ⟨_, _, h⟩ := h
         cases h)
      | (split at h
         · simp only [Option.map_eq_some_iff] at h
           obtain ⟨_, _, h⟩ := h
           cases h
         · cases h)
  | ref f =>
    unfold kindOf at h
    split at h
    all_goals first
      | (cases h; done)
      | (cases h; trivial)
      | skip
    · simp only [Option.bind_eq_bind, Option.bind_eq_some_iff] at h
      obtain ⟨_, _, h⟩ := h
      cases h
    · simp only [Option.bind_eq_bind, Option.bind_eq_some_iff] at h
      obtain ⟨_, _, h⟩ := h
      split at h
      · cases h
      · simp only [Option.bind_eq_some_iff] at h
        obtain ⟨_, _, h⟩ := h
        split at h <;> cases h
    · simp only [Option.bind_eq_bind, Option.bind_eq_some_iff] at h
      obtain ⟨e, h1, h⟩ := h
      cases h
      show NoBool e
      exact followTy_noBool h1
    · split at h
      · simp only [Option.map_eq_some_iff] at h
        obtain ⟨_, _, h⟩ := h
        cases h
      · cases h
  | union vs =>
    obtain ⟨_, _, uvs, _, _, hm⟩ := kindOf_union h
    intro f hf
    obtain ⟨j, hj, rfl⟩ := List.mem_iff_getElem.mp hf
    obtain ⟨u, _, h2⟩ := mapM_getElem hm j hj
    exact followTy_noBool h2

theorem compile_noBool {gm : Mode} {t : Ir.Table} {gs : List GField} (h : compileTable gm t = some gs) :
    ∀ g ∈ gs, NoBoolKind g.kind := by
  intro g hg
  obtain ⟨j, hj, rfl⟩ := List.mem_iff_getElem.mp hg
  have := List.forall₂_iff_get.mp (compileFields_spec (compileTable_fields h))
  exact kindOf_noBool (this.2 j (by omega) hj).kind

/-! ### To any depth -/

theorem mapAll_all {P : Access → Prop} {α β : Type} {f : α → Tr β} : ∀ {l : List α}, (∀ x ∈ l, All P (f x)) → All P (mapAll f l)
  | [], _ => All.pure _
  | x :: xs, h => All.bind (h x List.mem_cons_self) fun _ _ =>
    All.bind (mapAll_all fun y hy => h y (List.mem_cons_of_mem _ hy)) fun _ _ => All.pure _

theorem readField_all {P : Access → Prop} {rd : Ir.Ty → (f : FTy) → f.Inner → Tr Val} {ty : Ir.Ty} {k : Kind}
    {res : Tr (Option k.Inner)} (hr : All P res) (h : ∀ x, res.res = .ok (some x) → All P (readKind rd ty k x)) :
    All P (readField rd ty k res) := by
  refine All.bind hr fun o ho => ?_
  cases o with
  | none => exact All.pure _
  | some x => exact All.bind (h x ho) fun _ _ => All.pure _

theorem readVal_vec {P : Access → Prop} {gm m : Mode} {S : Tables} {n : Nat} {t : Ir.Ty} {e : FTy} (v : Vec e)
    (hl : All P (Vec.len m v)) (hg : ∀ len i, v.len m = .ok len → i < len → All P (Vec.get m v i))
    (hr : ∀ len i y, v.len m = .ok len → i < len → v.get m i = .ok y → All P (readVal gm m S n t e y)) :
    All P (readVal gm m S (n + 1) (.array t) (.fwdU (.vector e)) v) := by
  have : readVal gm m S (n + 1) (.array t) (.fwdU (.vector e)) v = (do
    let len ← Vec.len m v
    let xs ← mapAll (fun i => do
      let x ← Vec.get m v i
      readVal gm m S n t e x) (List.range len)
    return .vec xs) := by simp only [readVal]
  rw [this]
  refine All.bind hl fun len hlen => All.bind (mapAll_all fun i hi => ?_) fun _ _ => All.pure _
  rw [Vec.len_res] at hlen
  refine All.bind (hg len i hlen (List.mem_range.mp hi)) fun y hy => ?_
  rw [Vec.get_res] at hy
  exact hr len i y hlen (List.mem_range.mp hi) hy

theorem readVal_table {P : Access → Prop} {gm m : Mode} {S : Tables} {n : Nat} {q : Ir.QIdent} (tb : Butte.Table)
    (h : ∀ t gs, S q = some t → compileTable gm t = some gs → ∀ (i : Fin gs.length) f, t.fields[i.val]? = some f →
      All P (readField (readVal gm m S n) f.ty (gs.get i).kind (accessor m tb gs (gs.get i)))) :
    All P (readVal gm m S (n + 1) (.table q) (.fwdU .table) tb) := by
  simp only [readVal]
  cases hq : S q with
  | none => exact All.lift _
  | some t =>
    dsimp only
    cases hc : compileTable gm t with
    | none => exact All.lift _
    | some gs =>
      dsimp only
      refine All.bind (mapAll_all fun i _ => ?_) fun _ _ => All.pure _
      cases hf : t.fields[i.val]? with
      | none => exact All.lift _
      | some f => exact h t gs hq hc i f hf

/-- Nothing else reads from memory. -/
theorem readVal_other {P : Access → Prop} {gm m : Mode} {S : Tables} {n : Nat} {ty : Ir.Ty} {f : FTy} {x : f.Inner}
    (hv : ∀ t e (h : f = .fwdU (.vector e)), ty = .array t →
      All P (readVal gm m S (n + 1) (.array t) (.fwdU (.vector e)) (h ▸ x)))
    (ht : ∀ q (h : f = .fwdU .table), ty = .table q → All P (readVal gm m S (n + 1) (.table q) (.fwdU .table) (h ▸ x))) :
    All P (readVal gm m S (n + 1) ty f x) := by
  cases ty with
  | builtin b => cases f <;> first | (simp only [readVal]; exact All.lift _) | exact All.pure _
  | enum id vs b => cases f <;> first | (simp only [readVal]; exact All.lift _) | exact All.pure _
  | string =>
    cases f with
    | fwdU f => cases f <;> first | (simp only [readVal]; exact All.lift _) | exact All.pure _
    | _ => simp only [readVal]; exact All.lift _
  | array t =>
    cases f with
    | fwdU f =>
      cases f with
      | vector e => exact hv t e rfl rfl
      | _ => simp only [readVal]; exact All.lift _
    | _ => simp only [readVal]; exact All.lift _
  | table q =>
    cases f with
    | fwdU f =>
      cases f with
      | table => exact ht q rfl rfl
      | _ => simp only [readVal]; exact All.lift _
    | _ => simp only [readVal]; exact All.lift _
  | _ => cases f <;> (simp only [readVal]; exact All.lift _)

theorem vecGet_follow {m : Mode} {e : FTy} {v : Vec e} {i : Nat} {y : e.Inner} (hy : v.get m i = .ok y) :
    ∃ l, e.follow m v.buf l = .ok y := by
  unfold Butte.Vec.get at hy
  split at hy
  · obtain ⟨_, _, hy⟩ := Res.bind_eq_ok.mp hy
    obtain ⟨_, _, hy⟩ := Res.bind_eq_ok.mp hy
    obtain ⟨_, _, hy⟩ := Res.bind_eq_ok.mp hy
    obtain ⟨_, _, hy⟩ := Res.bind_eq_ok.mp hy
    obtain ⟨_, _, hy⟩ := Res.bind_eq_ok.mp hy
    obtain ⟨_, _, hy⟩ := Res.bind_eq_ok.mp hy
    exact ⟨_, hy⟩
  · obtain ⟨_, _, hy⟩ := Res.bind_eq_ok.mp hy
    obtain ⟨_, _, hy⟩ := Res.bind_eq_ok.mp hy
    obtain ⟨_, _, hy⟩ := Res.bind_eq_ok.mp hy
    obtain ⟨_, _, hy⟩ := Res.bind_eq_ok.mp hy
    exact ⟨_, hy⟩

/-- What `readKind` reads is behind the offset. -/
theorem readKind_all {P : Access → Prop} {rd : Ir.Ty → (f : FTy) → f.Inner → Tr Val} {ty : Ir.Ty} {k : Kind} {x : k.Inner}
    (hr : ∀ f (h : k = .ref f), All P (rd ty (.fwdU f) ((h ▸ x : (Kind.ref f).Inner))))
    (hu : ∀ vs (h : k = .union vs) id en uvs u, ty = .union id en uvs →
      uvs[(h ▸ x : (Kind.union vs).Inner).1.val]? = some u →
      All P (rd u.ty (vs.get (h ▸ x : (Kind.union vs).Inner).1) (h ▸ x : (Kind.union vs).Inner).2)) :
    All P (readKind rd ty k x) := by
  cases k with
  | scalar t d => exact All.pure _
  | enum t vals d => exact All.pure _
  | ref f => exact hr f rfl
  | union vs =>
    obtain ⟨i, y⟩ := x
    have hu := hu vs rfl
    cases ty with
    | union id en uvs =>
      simp only [readKind]
      cases h : uvs[i.val]? with
      | none => exact All.lift _
      | some u => exact All.bind (hu id en uvs u rfl h) fun _ _ => All.pure _
    | _ => exact All.lift _

theorem readVal_in {B : Prop} {gm m : Mode} {S : Tables} {buf : Bytes} (hv : Bytes.Valid buf) : ∀ (n : Nat) (ty : Ir.Ty) (f : FTy)
    (x : f.Inner), InBuf buf f x → NoBool f → All (InV B) (readVal gm m S n ty f x) := by
  intro n
  induction n with
  | zero => intro ty f x _ _; exact All.lift _
  | succ n ih =>
    intro ty f x hx hb
    refine readVal_other (fun t e he hty => ?_) fun q he hty => ?_
    · subst he
      have hx : (x : Vec e).buf = buf := hx
      refine readVal_vec (x : Vec e) (vecLen_in _) (fun _ i _ _ => vecGet_in (v := (x : Vec e)) (by rw [hx]; exact hv) _ fun _ => hb)
        fun _ i y _ _ hy => ih _ _ _ ?_ hb
      obtain ⟨l, hf⟩ := vecGet_follow hy
      rw [hx] at hf
      exact follow_inBuf _ _ _ hf
    · subst he
      have hx : (x : Butte.Table).buf = buf := hx
      refine readVal_table (x : Butte.Table) fun t gs hq hc i f hf => ?_
      have hnb := compile_noBool hc
      refine readField_all (accessor_in (by rw [hx]; exact hv) _ _ fun _ => ⟨hnb _ (List.getElem_mem _), hnb⟩) fun y hy => ?_
      have hy' := accessor_inBuf ((accessor_res m (x : Butte.Table) gs _).symm.trans hy)
      rw [hx] at hy'
      have hk := hnb _ (List.getElem_mem i.isLt)
      change NoBoolKind (gs.get i).kind at hk
      clear hy
      generalize (gs.get i).kind = k at *
      refine readKind_all (fun f h => ?_) fun vs h id en uvs u _ _ => ?_
      · subst h
        exact ih _ _ _ hy' hk
      · subst h
        obtain ⟨j, z⟩ := y
        exact ih _ _ _ hy' (hk _ (List.getElem_mem _))

end Butte.Mem
