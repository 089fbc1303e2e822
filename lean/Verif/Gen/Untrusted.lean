import Verif.Gen.TreeRead
/-
Reading whole object graphs out of arbitrary bytes: every offset leads forwards, so the depth is bounded.
-/
namespace Butte.Gen
open Ir (QIdent)

theorem mapAll_noPanic {α β : Type} {f : α → Res β} : ∀ {l : List α}, (∀ x ∈ l, (f x).NoPanic) → (mapAll f l).NoPanic
  | [], _ => by simp [mapAll, Res.NoPanic]
  | x :: xs, h => by
    unfold mapAll
    exact NoPanic.bind (h x List.mem_cons_self) fun _ _ =>
      NoPanic.bind (mapAll_noPanic fun y hy => h y (List.mem_cons_of_mem _ hy)) fun _ _ => by simp [Res.NoPanic]

/-- Depth `n` is enough to read what is below `x`. -/
def Enough (buf : Bytes) (n : Nat) : (f : FTy) → f.Inner → Prop
  | .fwdU .table, x => (x : Butte.Table).buf = buf ∧ (x : Butte.Table).loc < buf.length + 2 ^ 32 ∧
    buf.length - (x : Butte.Table).loc + 2 ≤ n
  | .fwdU (.vector e), x => (x : Vec e).buf = buf ∧ (x : Vec e).loc < buf.length + 2 ^ 32 ∧
    buf.length - (x : Vec e).loc + 2 ≤ n
  | _, _ => 1 ≤ n

/-- The same for the result of an accessor. -/
def EnoughKind (buf : Bytes) (n : Nat) : (k : Kind) → k.Inner → Prop
  | .ref f, x => Enough buf n (.fwdU f) x
  | .union vs, ⟨i, x⟩ => Enough buf n (vs.get i) x
  | _, _ => True

theorem fwdU_to {F : FTy} {buf : Bytes} {l : Nat} {x : F.Inner} (hv : buf.Valid) (hl : l < 2 ^ 64)
    (h : (FTy.fwdU F).follow .release buf l = .ok x) :
    ∃ l', l + 4 ≤ buf.length ∧ l ≤ l' ∧ l' < buf.length + 2 ^ 32 ∧ F.follow .release buf l' = .ok x := by
  have hi : isizeMax = 2 ^ 63 - 1 := rfl
  unfold Bytes.Valid at hv
  unfold FTy.follow at h
  obtain ⟨e, h1, h⟩ := Res.bind_eq_ok.mp h
  obtain ⟨s, h2, h⟩ := Res.bind_eq_ok.mp h
  obtain ⟨off, h3, h⟩ := Res.bind_eq_ok.mp h
  obtain ⟨l', h4, h⟩ := Res.bind_eq_ok.mp h
  rw [addU_release] at h1 h4
  have ho : off.val < 2 ^ 32 := off.isLt
  unfold sliceGet at h2
  split at h2
  · rename_i hs
    cases h1
    cases h4
    have hl4 : l + 4 < 2 ^ 64 := by
      by_contra hc
      omega
    have : (l + off.val) % 2 ^ 64 = l + off.val := Nat.mod_eq_of_lt (by omega)
    rw [this] at h
    exact ⟨_, by omega, by omega, by omega, h⟩
  · cases h2

theorem follow_enough {f : FTy} {buf : Bytes} {l n : Nat} {x : f.Inner} (hv : buf.Valid) (hl : l < 2 ^ 64)
    (h1 : 1 ≤ n) (hn : l < buf.length → buf.length - l + 2 ≤ n) (h : f.follow .release buf l = .ok x) : Enough buf n f x := by
  cases f with
  | fwdU F =>
    obtain ⟨l', e1, e2, e3, e4⟩ := fwdU_to hv hl h
    have := hn (by omega)
    cases F with
    | table =>
      cases e4
      exact ⟨rfl, e3, by show buf.length - l' + 2 ≤ n; omega⟩
    | vector e =>
      cases e4
      exact ⟨rfl, e3, by show buf.length - l' + 2 ≤ n; omega⟩
    | _ => exact h1
  | _ => exact h1

theorem vtget_lt {v : VTable} {s o : Nat} (h : v.get .release s = .ok (some o)) : o < 2 ^ 16 := by
  unfold VTable.get at h
  obtain ⟨_, _, h⟩ := Res.bind_eq_ok.mp h
  split at h
  · cases h
  · obtain ⟨_, _, h⟩ := Res.bind_eq_ok.mp h
    obtain ⟨_, h2, h⟩ := Res.bind_eq_ok.mp h
    cases h
    unfold readNatAt at h2
    obtain ⟨y, _, h2⟩ := Res.bind_eq_ok.mp h2
    cases h2
    exact y.isLt

theorem get_enough {tbl : Butte.Table} {f : FTy} {slot n : Nat} {x : f.Inner} (hv : tbl.buf.Valid)
    (hl : tbl.loc < tbl.buf.length + 2 ^ 32) (h1 : 1 ≤ n)
    (hn : tbl.loc < tbl.buf.length → tbl.buf.length - tbl.loc + 1 ≤ n)
    (h : tbl.get .release f slot none = .ok (some x)) : Enough tbl.buf n f x := by
  have hi : isizeMax = 2 ^ 63 - 1 := rfl
  have hv' := hv
  unfold Bytes.Valid at hv'
  unfold Table.get at h
  obtain ⟨vt, _, h⟩ := Res.bind_eq_ok.mp h
  obtain ⟨vo, h2, h⟩ := Res.bind_eq_ok.mp h
  cases vo with
  | none => cases h
  | some o =>
    simp only at h
    split at h
    · cases h
    · obtain ⟨l, h3, h⟩ := Res.bind_eq_ok.mp h
      obtain ⟨y, h4, h⟩ := Res.bind_eq_ok.mp h
      cases h
      have := vtget_lt h2
      rw [addU_release, Nat.mod_eq_of_lt (by omega)] at h3
      cases h3
      exact follow_enough hv (by omega) h1 (fun hlt => by have := hn (by omega); omega) h4

theorem get_enum_lt {m : Mode} {tbl : Butte.Table} {t : STy} {vals : List (SVal t)} {slot i : Nat}
    {d : Option (Fin vals.length)} (h : tbl.get m (enumFTy t vals) slot (d.map (·.val)) = .ok (some i)) : i < vals.length := by
  have hd : (d.map (·.val) : Option Nat) = some i → i < vals.length := by
    intro h
    cases d with
    | none => cases h
    | some d => cases h; exact d.isLt
  unfold Table.get at h
  obtain ⟨vt, _, h⟩ := Res.bind_eq_ok.mp h
  obtain ⟨vo, h2, h⟩ := Res.bind_eq_ok.mp h
  cases vo with
  | none => exact hd (Res.ok.inj h)
  | some o =>
    simp only at h
    split at h
    · exact hd (Res.ok.inj h)
    · obtain ⟨l, h3, h⟩ := Res.bind_eq_ok.mp h
      obtain ⟨y, h4, h⟩ := Res.bind_eq_ok.mp h
      cases h
      unfold enumFTy FTy.follow at h4
      obtain ⟨z, _, h4⟩ := Res.bind_eq_ok.mp h4
      unfold enumTryFrom at h4
      split at h4
      · rename_i j hj
        cases h4
        have := (List.findIdx?_eq_some_iff_getElem.mp hj).1
        simpa using this
      · cases h4

theorem okOr_noPanic {α : Type} (name : Str) (req : Bool) (x : Option α) : (okOr name req x).NoPanic := by
  unfold okOr Res.NoPanic
  split
  · simp
  · split <;> simp

theorem okOr_inv {α : Type} {name : Str} {req : Bool} {x : Option α} {y : α} (h : okOr name req x = .ok (some y)) :
    x = some y := by
  unfold okOr at h
  split at h
  · cases h; rfl
  · split at h <;> cases h

theorem accessor_safe {gm : Mode} {t : Ir.Table} {gs : List GField} (hc : compileTable gm t = some gs)
    {tbl : Butte.Table} (hv : tbl.buf.Valid) (i : Fin gs.length) :
    (accessor .release tbl gs (gs.get i)).NoPanic ∧
      ∀ (_ : tbl.loc < tbl.buf.length + 2 ^ 32) (n : Nat) (_ : 1 ≤ n)
        (_ : tbl.loc < tbl.buf.length → tbl.buf.length - tbl.loc + 1 ≤ n) y, accessor .release tbl gs (gs.get i) = .ok (some y) → EnoughKind tbl.buf n (gs.get i).kind y := by
  have htag : ∀ vs, (gs.get i).kind = .union vs → (tagOf .release tbl gs (gs.get i).name).NoPanic ∧
      ∀ k, tagOf .release tbl gs (gs.get i).name = .ok (some k) → k < vs.length + 1 := by
    intro vs hk
    obtain ⟨j, sty, vals, d, j1, j2, j3, j4⟩ := union_tag hc hk
    have hf := find_name (names_nodup hc) j
    rw [j1] at hf
    unfold tagOf
    rw [hf]
    generalize gs.get j = g at *
    obtain ⟨_, _, k, r⟩ := g
    simp only at j2
    subst j2
    constructor
    · exact NoPanic.bind (tableGet_noPanic _ _ _ _ hv) fun _ _ => okOr_noPanic _ _ _
    · intro k hk2
      obtain ⟨x, e1, e2⟩ := Res.bind_eq_ok.mp hk2
      rw [okOr_inv e2] at e1
      rw [← j3]
      exact get_enum_lt e1
  unfold accessor
  generalize tagOf .release tbl gs (gs.get i).name = tag at *
  generalize gs.get i = g at *
  obtain ⟨name, slot, k, req⟩ := g
  simp only at htag ⊢
  cases k with
  | scalar sty d =>
    exact ⟨NoPanic.bind (tableGet_noPanic tbl (.scalar sty) slot d hv) fun _ _ => okOr_noPanic _ _ _, fun _ _ _ _ _ _ => trivial⟩
  | enum sty vals d =>
    exact ⟨NoPanic.bind (show (Kind.fetch .release tbl slot tag (.enum sty vals d)).NoPanic from tableGet_noPanic tbl _ _ _ hv) fun _ _ => okOr_noPanic _ _ _,
      fun _ _ _ _ _ _ => trivial⟩
  | ref f =>
    refine ⟨NoPanic.bind (tableGet_noPanic tbl (.fwdU f) slot none hv) fun _ _ => okOr_noPanic _ _ _, fun hl n h1 hn y hy => ?_⟩
    obtain ⟨x, e1, e2⟩ := Res.bind_eq_ok.mp hy
    rw [okOr_inv e2] at e1
    exact get_enough hv hl h1 hn e1
  | union vs =>
    obtain ⟨t1, t2⟩ := htag vs rfl
    refine ⟨NoPanic.bind (NoPanic.bind t1 fun k hk => ?_) fun _ _ => okOr_noPanic _ _ _, fun hl n h1 hn y hy => ?_⟩
    · match k with
      | none => simp [Res.NoPanic]
      | some 0 => simp [Res.NoPanic]
      | some (j + 1) =>
        have := t2 _ hk
        simp only
        rw [dif_pos (by omega)]
        exact NoPanic.bind (tableGet_noPanic tbl _ slot none hv) fun _ _ => by simp [Res.NoPanic]
    · obtain ⟨x, e1, e2⟩ := Res.bind_eq_ok.mp hy
      rw [okOr_inv e2] at e1
      obtain ⟨k, hk, e1⟩ := Res.bind_eq_ok.mp e1
      match k with
      | none => cases e1
      | some 0 => cases e1
      | some (j + 1) =>
        have := t2 _ hk
        simp only at e1
        rw [dif_pos (by omega)] at e1
        obtain ⟨z, e3, e1⟩ := Res.bind_eq_ok.mp e1
        cases z with
        | none => cases e1
        | some z =>
          cases e1
          exact get_enough hv hl h1 hn e3

theorem size_le (e : FTy) : e.size ≤ 24 := by
  cases e with
  | scalar t => exact Nat.le_trans t.size_le (by decide)
  | enum t _ => exact Nat.le_trans t.size_le (by decide)
  | _ => simp [FTy.size]

theorem readVal_noPanic {gm : Mode} {S : Tables} (hS : Usable gm S) {buf : Bytes} (hv : buf.Valid) :
    ∀ (n : Nat) (ty : Ir.Ty) (f : FTy) (x : f.Inner), followTy ty = some f → Known S ty → Enough buf n f x →
      (readVal gm .release S n ty f x).NoPanic := by
  have hi : isizeMax = 2 ^ 63 - 1 := rfl
  have hv' := hv
  unfold Bytes.Valid at hv'
  intro n
  induction n with
  | zero =>
    intro ty f x hf _ he
    exfalso
    unfold Enough at he
    split at he <;> omega
  | succ n ih =>
    intro ty f x hf hk he
    cases ty with
    | builtin b => cases hf; simp [readVal, Res.NoPanic]
    | string => cases hf; simp [readVal, Res.NoPanic]
    | struct => cases hf
    | union => cases hf
    | enum id vs b =>
      simp only [followTy, Option.bind_eq_bind, Option.bind_eq_some_iff] at hf
      obtain ⟨xs, _, hf⟩ := hf
      cases hf
      exact fun h => by cases (show Res.ok _ = Res.panic from h)
    | array t =>
      simp only [followTy, Option.bind_eq_bind, Option.bind_eq_some_iff] at hf
      obtain ⟨e, ht, hf⟩ := hf
      cases hf
      obtain ⟨rfl, hl, hn⟩ := he
      cases hk with
      | array hk =>
      change Vec e at x
      simp only [readVal]
      refine NoPanic.bind (readNatAt_noPanic _ _ _) fun len hlen => NoPanic.bind (mapAll_noPanic fun i hi' => ?_) fun _ _ => by
        simp [Res.NoPanic]
      obtain ⟨e1, e2⟩ := readNatAt_ok hlen hv
      have e3 : len < 2 ^ 32 := by rw [e2]; exact (SVal.ofBytes .u32 _).isLt
      have e4 := List.mem_range.mp hi'
      have e5 := size_le e
      have e6 : e.size * i ≤ 24 * i := Nat.mul_le_mul_right _ e5
      have e7 : STy.size .u32 = 4 := rfl
      have hg : Vec.get .release x i = e.follow .release x.buf (x.loc + 4 + e.size * i) := by
        unfold Vec.get
        rw [if_neg (by simp)]
        simp only [debugAssert_release, Res.ok_bind, Res.pure_eq]
        rw [addU_ok (by omega)]
        simp only [Res.ok_bind]
        rw [mulU, mulW, if_pos (by omega)]
        simp only [Res.ok_bind]
        rw [addU_ok (by omega)]
        rfl
      rw [hg]
      refine NoPanic.bind (follow_noPanic _ _ _ hv) fun y hy => ih t e y ht hk ?_
      exact follow_enough hv (by omega) (by omega) (fun h => by omega) hy
    | table q =>
      cases hf
      obtain ⟨rfl, hl, hn⟩ := he
      cases hk with
      | table hq =>
      rename_i t
      obtain ⟨⟨gs, hc⟩, hkn⟩ := hS q t hq
      change Butte.Table at x
      simp only [readVal]
      rw [hq]
      simp only
      rw [hc]
      simp only
      have hlen := (compileFields_spec (compileTable_fields hc)).length_eq
      refine NoPanic.bind (mapAll_noPanic fun i hi' => ?_) fun _ _ => by simp [Res.NoPanic]
      have hif : i.val < t.fields.length := by have := i.isLt; omega
      rw [List.getElem?_eq_getElem hif]
      simp only
      have hcomp := (List.forall₂_iff_get.mp (compileFields_spec (compileTable_fields hc))).2 i.val hif i.isLt
      have hkind := hcomp.kind
      have hkf := hkn _ (List.getElem_mem hif)
      obtain ⟨a1, a2⟩ := accessor_safe hc hv i
      unfold readField
      refine NoPanic.bind a1 fun y hy => ?_
      cases y with
      | none => simp [Res.NoPanic]
      | some y =>
        simp only
        refine NoPanic.bind ?_ fun _ _ => by simp [Res.NoPanic]
        have h3 := a2 hl n (by omega) (fun h => by omega) y hy
        clear hy a1 a2
        change kindOf t.fields[i.val].ty t.fields[i.val].default = some (gs.get i).kind at hkind
        generalize (gs.get i).kind = k at *
        generalize t.fields[i.val] = f at *
        cases k with
        | scalar => simp [readKind, Res.NoPanic]
        | enum => simp [readKind, Res.NoPanic]
        | ref F => exact ih f.ty (.fwdU F) y (kindOf_ref hkind none).1 hkf h3
        | union vs =>
          obtain ⟨id, e, uvs, hty, _, hm⟩ := kindOf_union hkind
          obtain ⟨j, z⟩ := y
          obtain ⟨u, hu, hfu⟩ := mapM_getElem hm j.val j.isLt
          rw [hty] at hkf ⊢
          cases hkf with
          | union hku =>
          simp only [readKind]
          rw [hu]
          exact NoPanic.bind (ih u.ty (vs.get j) z hfu (hku u (List.mem_of_getElem? hu)) h3) fun _ _ => by
            simp [Res.NoPanic]

theorem mapAll_congr {α β : Type} {f g : α → Res β} : ∀ {l : List α}, (mapAll f l).NoPanic →
    (∀ x ∈ l, (f x).NoPanic → g x = f x) → mapAll g l = mapAll f l
  | [], _, _ => rfl
  | x :: xs, h, hg => by
    unfold mapAll at h ⊢
    cases hx : f x with
    | panic => rw [hx] at h; exact absurd rfl h
    | err e => rw [hg x List.mem_cons_self (by rw [hx]; simp [Res.NoPanic]), hx]; rfl
    | ok y =>
      rw [hx] at h
      rw [hg x List.mem_cons_self (by rw [hx]; simp [Res.NoPanic]), hx]
      simp only [Res.ok_bind] at h ⊢
      have : (mapAll f xs).NoPanic := by
        intro hp
        rw [hp] at h
        exact h rfl
      rw [mapAll_congr this fun z hz => hg z (List.mem_cons_of_mem _ hz)]

theorem bind_left {α β : Type} {x : Res α} {f : α → Res β} (h : (x >>= f).NoPanic) : x.NoPanic := by
  intro hp
  rw [hp] at h
  exact h rfl

/-- A greater depth changes nothing. -/
theorem readVal_mono {gm m : Mode} {S : Tables} : ∀ (n : Nat) (ty : Ir.Ty) (f : FTy) (x : f.Inner),
    (readVal gm m S n ty f x).NoPanic → readVal gm m S (n + 1) ty f x = readVal gm m S n ty f x := by
  intro n
  induction n with
  | zero => intro ty f x h; exact absurd rfl h
  | succ n ih =>
    intro ty f x h
    unfold readVal at h
    split at h
    · rename_i h0; cases h0
    · rfl
    · rfl
    · rfl
    · rename_i n' t e v h0
      cases h0
      simp only [readVal]
      cases hlen : Vec.len m (v : Vec e) with
      | panic => rfl
      | err => rfl
      | ok len =>
        rw [hlen] at h
        simp only [Res.ok_bind] at h ⊢
        rw [mapAll_congr (f := fun i => do
          let y ← Vec.get m (v : Vec e) i
          readVal gm m S n t e y) (bind_left h)]
        intro i _ hp
        cases hg : Vec.get m (v : Vec e) i with
        | panic => rfl
        | err => rfl
        | ok y =>
          rw [hg] at hp
          exact ih t e y hp
    · rename_i n' q tb h0
      cases h0
      simp only [readVal]
      cases hq : S q with
      | none => rfl
      | some t =>
        rw [hq] at h
        simp only at h ⊢
        cases hc : compileTable gm t with
        | none => rfl
        | some gs =>
          rw [hc] at h
          simp only at h ⊢
          refine congrArg (fun r : Res (List (Option Val)) => do let fs ← r; return Val.table fs) ?_
          refine mapAll_congr (bind_left h) ?_
          intro i _ hp
          cases hf : t.fields[i.val]? with
          | none => rfl
          | some f =>
            rw [hf] at hp
            simp only at hp ⊢
            unfold readField at hp ⊢
            cases ha : accessor m (tb : Butte.Table) gs (gs.get i) with
            | panic => rfl
            | err => rfl
            | ok y =>
              rw [ha] at hp
              simp only [Res.ok_bind] at hp ⊢
              cases y with
              | none => rfl
              | some y =>
                simp only at hp ⊢
                have hp' := bind_left hp
                refine congrArg (fun r : Res Val => do let v ← r; return some v) ?_
                clear ha hp
                generalize (gs.get i).kind = k at *
                cases k with
                | scalar => rfl
                | enum => rfl
                | ref F => exact ih _ _ _ hp'
                | union vs =>
                  obtain ⟨j, z⟩ := y
                  simp only [readKind] at hp' ⊢
                  cases hty : f.ty with
                  | union id e uvs =>
                    rw [hty] at hp'
                    simp only at hp' ⊢
                    cases hu : uvs[j.val]? with
                    | none => rfl
                    | some u =>
                      rw [hu] at hp'
                      simp only at hp' ⊢
                      rw [ih _ _ _ (bind_left hp')]
                  | _ => rfl
    · exact absurd rfl h

end Butte.Gen
