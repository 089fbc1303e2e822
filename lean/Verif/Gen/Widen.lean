import Verif.Gen.Evolve
import Verif.Gen.TreeRead
/-
Lemmas for property C67: schemas with more variants.
-/
namespace Butte.Gen
open Ir (QIdent)

theorem variantValues_append {t : STy} : ∀ {vs ext : List Ir.EnumVariant} {i : Nat} {xs ys : List (SVal t)},
    variantValues t i vs = some xs → variantValues t i (vs ++ ext) = some ys → ∃ more, ys = xs ++ more
  | [], ext, i, xs, ys, h, h' => by
    cases h
    exact ⟨ys, rfl⟩
  | v :: vs, ext, i, xs, ys, h, h' => by
    simp only [List.cons_append, variantValues, Option.bind_eq_bind, Option.bind_eq_some_iff] at h h'
    obtain ⟨x, h1, xs', h2, h3⟩ := h
    obtain ⟨y, k1, ys', k2, k3⟩ := h'
    cases h3; cases k3
    rw [h1] at k1
    cases k1
    obtain ⟨more, rfl⟩ := variantValues_append h2 k2
    exact ⟨more, rfl⟩

theorem enumValues_variants {t : STy} {vs : List Ir.EnumVariant} {xs : List (SVal t)} (h : enumValues t vs = some xs) :
    variantValues t 0 vs = some xs := by
  simp only [enumValues, Option.bind_eq_bind, Option.bind_eq_some_iff] at h
  obtain ⟨ys, h1, h2⟩ := h
  split at h2
  · cases h2
  · cases h2; exact h1

theorem enumValues_append {t : STy} {vs ext : List Ir.EnumVariant} {xs ys : List (SVal t)}
    (h : enumValues t vs = some xs) (h' : enumValues t (vs ++ ext) = some ys) : ∃ more, ys = xs ++ more :=
  variantValues_append (enumValues_variants h) (enumValues_variants h')

/-- The kind of a field whose type has more variants. -/
inductive Kind.Wider : Kind → Kind → Prop
  | scalar (t : STy) (d : Option (SVal t)) : Wider (.scalar t d) (.scalar t d)
  | enum (t : STy) (vals more : List (SVal t)) (d : Option (Fin vals.length)) (d' : Option (Fin (vals ++ more).length))
      (h : d'.map (·.val) = d.map (·.val)) : Wider (.enum t vals d) (.enum t (vals ++ more) d')
  | ref (F F' : FTy) : Wider (.ref F) (.ref F')
  | union (vs vs' : List FTy) : Wider (.union vs) (.union vs')

/-- The argument for the wider field that is written the same. -/
theorem Kind.Wider.arg {k k' : Kind} (h : Kind.Wider k k') (req : Bool) (a : k.Arg req) :
    ∃ a' : k'.Arg req, (∀ m b slot, addField m b slot k' req a' = addField m b slot k req a) ∧
      k'.offset? req a' = k.offset? req a ∧ k'.variant? req a' = k.variant? req a ∧
      ∀ tag v, k'.value tag v req a' = k.value tag v req a := by
  cases h with
  | scalar t d => exact ⟨a, fun _ _ _ => rfl, rfl, rfl, fun _ _ => rfl⟩
  | enum t vals more d d' hd =>
    change Fin vals.length at a
    have hlt : a.val < (vals ++ more).length := by have := a.isLt; simp; omega
    have hg : (vals ++ more).get ⟨a.val, hlt⟩ = vals.get a := by
      simp only [List.get_eq_getElem]
      exact List.getElem_append_left _
    refine ⟨(⟨a.val, hlt⟩ : Fin (vals ++ more).length), fun m b slot => ?_, rfl, rfl, fun _ _ => rfl⟩
    cases d with
    | none =>
      cases d' with
      | none =>
        show b.pushSlotAlways m slot (p := .sc t) ((vals ++ more).get ⟨a.val, hlt⟩) = b.pushSlotAlways m slot (p := .sc t) (vals.get a)
        rw [hg]
      | some d' => cases hd
    | some d =>
      cases d' with
      | none => cases hd
      | some d' =>
        have hd : d'.val = d.val := Option.some.inj hd
        have hg' : (vals ++ more).get d' = vals.get d := by
          simp only [List.get_eq_getElem, hd]
          exact List.getElem_append_left _
        show b.pushSlot m slot (p := .sc t) ((vals ++ more).get ⟨a.val, hlt⟩) ((vals ++ more).get d') =
          b.pushSlot m slot (p := .sc t) (vals.get a) (vals.get d)
        rw [hg, hg']
  | ref F F' =>
    cases req with
    | true => exact ⟨a, fun _ _ _ => rfl, rfl, rfl, fun _ _ => rfl⟩
    | false =>
      change Option (Fin (2 ^ 32)) at a
      cases a with
      | none => exact ⟨(none : Option (Fin (2 ^ 32))), fun _ _ _ => rfl, rfl, rfl, fun _ _ => rfl⟩
      | some x => exact ⟨(some x : Option (Fin (2 ^ 32))), fun _ _ _ => rfl, rfl, rfl, fun _ _ => rfl⟩
  | union vs vs' =>
    cases req with
    | true => exact ⟨a, fun _ _ _ => rfl, rfl, rfl, fun _ _ => rfl⟩
    | false =>
      change Option (Fin (2 ^ 32)) at a
      cases a with
      | none => exact ⟨(none : Option (Fin (2 ^ 32))), fun _ _ _ => rfl, rfl, rfl, fun _ _ => rfl⟩
      | some x => exact ⟨(some x : Option (Fin (2 ^ 32))), fun _ _ _ => rfl, rfl, rfl, fun _ _ => rfl⟩

/-- A generated field whose type has more variants. -/
structure GField.Wider (g g' : GField) : Prop where
  name : g'.name = g.name
  slot : g'.slot = g.slot
  required : g'.required = g.required
  kind : Kind.Wider g.kind g'.kind

theorem Args.wider : ∀ {gs gs' : List GField}, List.Forall₂ GField.Wider gs gs' → ∀ args : Args gs,
    ∃ args' : Args gs', (∀ m b, addFields m b gs' args' = addFields m b gs args) ∧
      (∀ name, args'.variant? gs' name = args.variant? gs name) ∧
      ∀ (i : Nat) (h : i < gs.length) (h' : i < gs'.length),
        (gs'.get ⟨i, h'⟩).kind.offset? (gs'.get ⟨i, h'⟩).required (args'.get gs' ⟨i, h'⟩) =
          (gs.get ⟨i, h⟩).kind.offset? (gs.get ⟨i, h⟩).required (args.get gs ⟨i, h⟩) ∧
        ∀ tag v, (gs'.get ⟨i, h'⟩).kind.value tag v (gs'.get ⟨i, h'⟩).required (args'.get gs' ⟨i, h'⟩) =
          (gs.get ⟨i, h⟩).kind.value tag v (gs.get ⟨i, h⟩).required (args.get gs ⟨i, h⟩)
  | [], [], _, _ => ⟨(), fun _ _ => rfl, fun _ => rfl, fun i h => by simp at h⟩
  | ⟨n, s, k, r⟩ :: gs, ⟨n', s', k', r'⟩ :: gs', .cons hg hs, (a, as) => by
    obtain ⟨h1, h2, h3, h4⟩ := hg
    simp only at h1 h2 h3 h4
    subst h1 h2 h3
    obtain ⟨a', p1, p2, p3, p4⟩ := h4.arg _ a
    obtain ⟨as', q1, q2, q3⟩ := Args.wider hs as
    refine ⟨(a', as'), fun m b => ?_, fun name => ?_, fun i h h' => ?_⟩
    · simp only [addFields, p1, q1]
    · simp only [Args.variant?, p3, q2]
    · cases i with
      | zero => exact ⟨p2, p4⟩
      | succ i => exact q3 i (by simpa using h) (by simpa using h')

theorem checkRequired_wider {m : Mode} {b : Builder} {o : Nat} : ∀ {gs gs' : List GField},
    List.Forall₂ GField.Wider gs gs' → checkRequired m b o gs' = checkRequired m b o gs
  | [], [], _ => rfl
  | g :: gs, g' :: gs', .cons hg hs => by
    simp only [checkRequired, hg.required, hg.slot, checkRequired_wider hs]

theorem create_wider {m : Mode} {b : Builder} {gs gs' : List GField} (h : List.Forall₂ GField.Wider gs gs') {args : Args gs}
    {args' : Args gs'} (ha : ∀ m b, addFields m b gs' args' = addFields m b gs args) :
    create m b gs' args' = create m b gs args := by
  unfold create
  simp only [ha, checkRequired_wider h]

theorem findIdx?_append_some {α : Type} {p : α → Bool} {l l' : List α} {i : Nat} (h : l.findIdx? p = some i) :
    (l ++ l').findIdx? p = some i := by
  rw [List.findIdx?_append, h]; rfl

/-- The generated kinds. -/
theorem kindOf_wider {ty ty' : Ir.Ty} (h : Widens ty ty') {d : Option Ast.DefaultValue} {k k' : Kind}
    (hk : kindOf ty d = some k) (hk' : kindOf ty' d = some k') : Kind.Wider k k' := by
  cases h with
  | refl =>
    rw [hk] at hk'
    cases hk'
    cases k with
    | scalar t d => exact .scalar t d
    | enum t vals d =>
      have := Kind.Wider.enum t vals [] d (d.map (Fin.cast (by simp))) (by cases d <;> rfl)
      have e : ∀ (vals' : List (SVal t)) (hv : vals' = vals) (d' : Option (Fin vals'.length)),
          d'.map (·.val) = d.map (·.val) → Kind.enum t vals' d' = Kind.enum t vals d := by
        rintro _ rfl d' hd
        congr 1
        cases d' <;> cases d
        · rfl
        · cases hd
        · cases hd
        · exact congrArg some (Fin.ext (Option.some.inj hd))
      rw [e (vals ++ []) (by simp) _ (by cases d <;> rfl)] at this
      exact this
    | ref F => exact .ref F F
    | union vs => exact .union vs vs
  | enum id id' vs ext b =>
    obtain ⟨xs, d₁, rfl, h1, h2, h3⟩ := kindOf_enum hk
    obtain ⟨ys, d₂, rfl, k1, k2, k3⟩ := kindOf_enum hk'
    obtain ⟨more, rfl⟩ := enumValues_append h1 k1
    refine .enum _ xs more d₁ d₂ ?_
    rw [h2, k2]
    cases d with
    | none => rfl
    | some d =>
      cases d with
      | scalar s => rfl
      | ident i =>
        simp only [Option.bind_some, enumDefault] at h2 ⊢
        cases hd : vs.findIdx? (fun v => v.ident == i) with
        | some n => rw [findIdx?_append_some hd]
        | none =>
          rw [hd] at h2
          cases d₁ with
          | none => exact absurd (h3.mp rfl) (by simp)
          | some _ => cases h2
  | union id e id' e' uvs ext =>
    obtain ⟨-, _, -, hk⟩ := kindOf_union_iff.mp hk
    obtain ⟨-, _, -, hk'⟩ := kindOf_union_iff.mp hk'
    cases hk; cases hk'
    exact .union _ _
  | array h =>
    cases d with
    | some d => cases hk
    | none =>
      simp only [kindOf, Option.bind_eq_bind, Option.bind_eq_some_iff] at hk hk'
      obtain ⟨_, _, hk⟩ := hk
      obtain ⟨_, _, hk'⟩ := hk'
      cases hk; cases hk'
      exact .ref _ _

theorem compileFields_wider {gm : Mode} : ∀ {fs fs' : List Ir.Field} {i : Nat} {gs gs' : List GField},
    List.Forall₂ WidensField fs fs' → compileFields gm i fs = some gs → compileFields gm i fs' = some gs' →
    List.Forall₂ GField.Wider gs gs'
  | [], [], i, gs, gs', _, h, h' => by cases h; cases h'; exact .nil
  | f :: fs, f' :: fs', i, gs, gs', .cons hf hs, h, h' => by
    simp only [compileFields, Option.bind_eq_bind, Option.bind_eq_some_iff] at h h'
    obtain ⟨k, h1, s, h2, gs₁, h3, h4⟩ := h
    obtain ⟨k', k1, s', k2, gs₁', k3, k4⟩ := h'
    cases h4; cases k4
    rw [hf.default] at k1
    rw [h2] at k2
    cases k2
    exact .cons ⟨by rw [hf.ident], rfl, hf.required, kindOf_wider hf.ty h1 k1⟩ (compileFields_wider hs h3 k3)

theorem followTy_wider {ty ty' : Ir.Ty} (h : Widens ty ty') {F : FTy} (e : followTy ty = some (.fwdU F))
    (hc : (followTy ty').isSome) : ∃ F', followTy ty' = some (.fwdU F') := by
  cases h with
  | refl => exact ⟨F, e⟩
  | enum id id' vs ext b =>
    simp only [followTy, Option.bind_eq_bind, Option.bind_eq_some_iff] at e
    obtain ⟨_, _, e⟩ := e
    cases e
  | union id e id' e' uvs ext => cases e
  | @array t t' h =>
    obtain ⟨x, hx⟩ := Option.isSome_iff_exists.mp hc
    have hx' := hx
    simp only [followTy, Option.bind_eq_bind, Option.bind_eq_some_iff] at hx'
    obtain ⟨y, _, hy⟩ := hx'
    cases hy
    exact ⟨_, hx⟩

/-- What the offset of a generated field leads to can be followed. -/
theorem pointee_follow {ty ty' : Ir.Ty} {d : Option Ast.DefaultValue} {k : Kind} (hk : kindOf ty d = some k) {req : Bool}
    {a : k.Arg req} {x : Fin (2 ^ 32)} (hx : k.offset? req a = some x) {tag : Option Nat}
    (hp : pointee tag ty = some ty') : (followTy ty').isSome := by
  cases k with
  | scalar t d => cases req <;> cases hx
  | enum t vals d => cases req <;> cases hx
  | ref F =>
    obtain ⟨h1, h2⟩ := kindOf_ref hk tag
    rw [hp] at h2
    cases h2
    simp [h1]
  | union vs =>
    obtain ⟨id, e, uvs, rfl, -, hm⟩ := kindOf_union hk
    unfold pointee at hp
    simp only at hp
    split at hp
    · rename_i j
      simp only [Option.map_eq_some_iff] at hp
      obtain ⟨u, h1, rfl⟩ := hp
      have hj : j < vs.length := by
        rw [mapM_length hm]
        exact (List.getElem?_eq_some_iff.mp h1).1
      obtain ⟨u', h2, h3⟩ := mapM_getElem hm j hj
      rw [h1] at h2
      cases h2
      simp [h3]
    · cases hp

/-- What was written with fewer variants was written with more variants, too. -/
theorem Written.widen {gm m : Mode} {S S' : Tables} (hS : MoreVariants gm S S') {b : Builder} {ty : Ir.Ty} {v : Val}
    {o : Nat} (h : Written gm m S b ty v o) :
    ∀ ty', Widens ty ty' → (followTy ty').isSome → Written gm m S' b ty' v o := by
  induction h with
  | keep _ e hr ih => exact fun ty' h1 h2 => .keep (ih ty' h1 h2) e hr
  | string hb e => intro ty' h _; cases h; exact .string hb e
  | scalars hb e =>
    intro ty' h _
    cases h with
    | refl => exact .scalars hb e
    | array h => cases h; exact .scalars hb e
  | @enums b b' id vs base vals hv items o hb e =>
    intro ty' h hc
    cases h with
    | refl => exact .enums hv hb e
    | array h =>
      cases h with
      | refl => exact .enums hv hb e
      | enum _ id' _ ext _ =>
        obtain ⟨x, hx⟩ := Option.isSome_iff_exists.mp hc
        simp only [followTy, Option.bind_eq_bind, Option.bind_eq_some_iff] at hx
        obtain ⟨_, ⟨vals', hv', -⟩, -⟩ := hx
        obtain ⟨more, rfl⟩ := enumValues_append hv hv'
        have hm : (items.map fun i => (⟨i.val, by have := i.isLt; simp; omega⟩ : Fin (vals ++ more).length)).map
            (vals ++ more).get = items.map vals.get := by
          rw [List.map_map]
          refine List.map_congr_left fun i _ => ?_
          simp only [Function.comp, List.get_eq_getElem]
          exact List.getElem_append_left _
        have key := Written.enums (gm := gm) (S := S') (id := id') hv' hb
          ((congrArg (fun l => step m b (.createVector (.sc (enumBaseSTy base)) l)) hm).trans e)
        simpa [Function.comp_def] using key
  | strings hb e =>
    intro ty' h _
    cases h with
    | refl => exact .strings hb e
    | array h => cases h; exact .strings hb e
  | @offsets b b' t F items xs o hb ht hl hx e ih =>
    intro ty' h hc
    have : ∃ t', ty' = .array t' ∧ Widens t t' := by
      cases h with
      | refl => exact ⟨t, rfl, .refl t⟩
      | array h => exact ⟨_, rfl, h⟩
    obtain ⟨t', rfl, hw⟩ := this
    have hc' : (followTy t').isSome := by
      obtain ⟨x, hx⟩ := Option.isSome_iff_exists.mp hc
      simp only [followTy, Option.bind_eq_bind, Option.bind_eq_some_iff] at hx
      obtain ⟨y, hy, _⟩ := hx
      simp [hy]
    obtain ⟨F', hF⟩ := followTy_wider hw ht hc'
    exact .offsets hb hF hl (fun i hi => ih i hi t' hw hc') e
  | @table b b' q t gs args w o hq hc hn hi e hfit hx hreq ih =>
    intro ty' h _
    cases h
    obtain ⟨t', gs', hq', hc', hw⟩ := hS q t hq
    have hgw := compileFields_wider hw (compileTable_fields hc) (compileTable_fields hc')
    obtain ⟨args', a1, a2, a3⟩ := Args.wider hgw args
    have hlen : gs'.length = gs.length := hgw.length_eq.symm
    have hfl : t'.fields.length = t.fields.length := hw.length_eq.symm
    have hnm : ∀ (i : Nat) (h : i < gs.length) (h' : i < gs'.length), (gs'.get ⟨i, h'⟩).name = (gs.get ⟨i, h⟩).name ∧
        (gs'.get ⟨i, h'⟩).required = (gs.get ⟨i, h⟩).required := fun i h h' =>
      ⟨((List.forall₂_iff_get.mp hgw).2 i h h').name, ((List.forall₂_iff_get.mp hgw).2 i h h').required⟩
    have hval : ∀ (i : Nat) (h : i < gs.length) (h' : i < gs'.length),
        fieldValue gs' args' (fun i => w (Fin.cast hlen i)) ⟨i, h'⟩ = fieldValue gs args w ⟨i, h⟩ := by
      intro i h h'
      unfold fieldValue
      rw [(a3 i h h').2, a2, (hnm i h h').1]
      rfl
    have hofn : List.ofFn (fieldValue gs' args' (fun i => w (Fin.cast hlen i))) = List.ofFn (fieldValue gs args w) := by
      refine List.ext_getElem (by simp [hlen]) (fun i h1 h2 => ?_)
      simp only [List.getElem_ofFn]
      exact hval i (by simpa using h2) (by simpa using h1)
    rw [← hofn]
    refine .table hq' hc' (by omega) hi (by rw [create_wider hgw a1]; exact e) hfit ?_ ?_
    · intro i x f' ty' h1 h2 h3
      have hig : i.val < gs.length := by have := i.isLt; omega
      obtain ⟨i, hi'⟩ := i
      simp only at h2 hig
      rw [(a3 i hig hi').1] at h1
      rw [a2, (hnm i hig hi').1] at h3
      have hit : i < t.fields.length := by
        have := (List.getElem?_eq_some_iff.mp h2).1
        omega
      have hf : t.fields[i]? = some t.fields[i] := List.getElem?_eq_getElem _
      have hwf : WidensField t.fields[i] f' := by
        have := (List.forall₂_iff_get.mp hw).2 i hit (by omega)
        obtain ⟨_, h4⟩ := List.getElem?_eq_some_iff.mp h2
        rw [← h4]
        exact this
      have hk := ((List.forall₂_iff_get.mp (compileFields_spec (compileTable_fields hc))).2 i hit hig).kind
      have hk' : kindOf f'.ty f'.default = some (gs'.get ⟨i, hi'⟩).kind := by
        have := ((List.forall₂_iff_get.mp (compileFields_spec (compileTable_fields hc'))).2 i (by omega) hi').kind
        obtain ⟨_, h4⟩ := List.getElem?_eq_some_iff.mp h2
        rw [← h4]
        exact this
      have h1' := h1
      rw [← (a3 i hig hi').1] at h1'
      have hfol := pointee_follow hk' h1' h3
      have hk : kindOf t.fields[i].ty t.fields[i].default = some (gs.get ⟨i, hig⟩).kind := hk
      have hty := hwf.ty
      have go : ∀ ty, pointee (args.variant? gs ((gs.get ⟨i, hig⟩).name ++ c!"_type")) t.fields[i].ty = some ty →
          Widens ty ty' → Written gm m S' b ty' (w ⟨i, hig⟩) x.val :=
        fun ty h4 h5 => ih ⟨i, hig⟩ x _ ty h1 hf h4 ty' h5 hfol
      refine (?_ : Written gm m S' b ty' (w ⟨i, hig⟩) x.val)
      clear hwf
      generalize t.fields[i].ty = ty₀ at *
      generalize f'.ty = ty₁ at *
      cases hty with
      | refl => exact go ty' h3 (.refl _)
      | enum id id' vs ext base =>
        exfalso
        obtain ⟨xs, d', hkk, -⟩ := kindOf_enum hk
        revert h1
        generalize args.get gs ⟨i, hig⟩ = a
        generalize gs.get ⟨i, hig⟩ = g at *
        obtain ⟨_, _, k, r⟩ := g
        simp only at hkk
        subst hkk
        intro h1
        cases r <;> cases h1
      | union id e id' e' uvs ext =>
        obtain ⟨vs, hkk⟩ : ∃ vs, (gs.get ⟨i, hig⟩).kind = .union vs := by
          obtain ⟨-, vs, -, hk⟩ := kindOf_union_iff.mp hk
          exact ⟨vs, hk⟩
        have hlen : vs.length = uvs.length := by
          rw [hkk] at hk
          obtain ⟨_, _, _, he, -, hm⟩ := kindOf_union hk
          cases he
          exact mapM_length hm
        have hb : ∀ n, args.variant? gs ((gs.get ⟨i, hig⟩).name ++ c!"_type") = some n → n < vs.length + 1 := by
          intro n ht
          obtain ⟨j, ty, vals, d, j1, j2, j3, -⟩ := union_tag hc hkk
          rw [← j1, variant?_name (names_nodup hc)] at ht
          revert ht
          generalize args.get gs j = a
          generalize gs.get j = g at *
          obtain ⟨_, _, k, r⟩ := g
          simp only at j2
          subst j2
          intro ht
          have : (a : Fin vals.length).val = n := Option.some.inj ht
          have := (a : Fin vals.length).isLt
          omega
        generalize args.variant? gs ((gs.get ⟨i, hig⟩).name ++ c!"_type") = tag at *
        cases tag with
        | none => cases h3
        | some n =>
          cases n with
          | zero => cases h3
          | succ j =>
            have := hb _ rfl
            refine go ty' ?_ (.refl _)
            simp only [pointee] at h3 ⊢
            rwa [List.getElem?_append_left (by omega)] at h3
      | array h =>
        cases h3
        exact go _ rfl (.array h)
    · intro i h
      have hig : i.val < gs.length := by have := i.isLt; omega
      rw [hval i.val hig i.isLt]
      exact hreq ⟨i.val, hig⟩ (by rw [← (hnm i.val hig i.isLt).2]; exact h)

/-- A variant that the reader does not know. -/
theorem unknown_get {m : Mode} {tbl : Table} {base : Nat} {gs gs' : List GField} (hgw : List.Forall₂ GField.Wider gs gs')
    (hok : ∀ g ∈ gs', g.kind.Ok) {args : Args gs'} (hT : TableReads m tbl base ((bodyOps gs' args).filterMap Op.stored))
    {i : Nat} (h : i < gs.length) (h' : i < gs'.length) {ty : STy} {vals : List (SVal ty)} {d : Option (Fin vals.length)}
    (hk : (gs.get ⟨i, h⟩).kind = .enum ty vals d) {n : Nat}
    (hv : (gs'.get ⟨i, h'⟩).kind.variant? (gs'.get ⟨i, h'⟩).required (args.get gs' ⟨i, h'⟩) = some n)
    (hge : vals.length ≤ n) (dflt : Option Nat) :
    tbl.get m (enumFTy ty vals) (gs.get ⟨i, h⟩).slot dflt = .err .unknownEnumVariant := by
  have hw := (List.forall₂_iff_get.mp hgw).2 i h h'
  have hok := hok _ (List.get_mem gs' ⟨i, h'⟩)
  have hst := stored_mem gs' args ⟨i, h'⟩
  rw [← hw.slot]
  have hwk := hw.kind
  rw [hk] at hwk
  revert hv hst
  generalize args.get gs' ⟨i, h'⟩ = a
  generalize gs'.get ⟨i, h'⟩ = g at *
  obtain ⟨name, slot, k, r⟩ := g
  clear hw
  simp only at hwk hok
  cases hwk with
  | enum _ _ more _ d' hd =>
    intro hv hst
    change Fin (vals ++ more).length at a
    obtain ⟨⟨hnd, -⟩, hint⟩ := hok
    have hn : a.val = n := Option.some.inj hv
    have hs : storedFld slot (.enum ty (vals ++ more) d') r a = some ⟨slot, .sc ty, (vals ++ more).get a⟩ := by
      cases d' with
      | none => rfl
      | some d' =>
        have hne : ¬ PVal.eqv (p := .sc ty) ((vals ++ more).get a) ((vals ++ more).get d') = true := by
          intro he
          have := eqv_int hint he
          have := (List.getElem_inj (i := a.val) (j := d'.val) (h₀ := a.isLt) (h₁ := d'.isLt) hnd).mp this
          cases d with
          | none => cases hd
          | some d =>
            have := d.isLt
            have hd : d'.val = d.val := Option.some.inj hd
            omega
        simp only [storedFld, if_neg hne]
    have hg := hT.enum slot ty ((vals ++ more).get a) (hst _ hs) (vals.map (·.val)) dflt
    refine hg.trans ?_
    have : enumTryFrom (vals.map (fun x : SVal ty => x.val)) ((vals ++ more).get a).val = .err .unknownEnumVariant := by
      unfold enumTryFrom
      have : (vals.map (fun x : SVal ty => x.val)).findIdx? (· == ((vals ++ more).get a).val) = none := by
        rw [List.findIdx?_eq_none_iff]
        intro x hx
        obtain ⟨y, hy, rfl⟩ := List.mem_map.mp hx
        rw [beq_eq_false_iff_ne]
        intro he
        have he : y = (vals ++ more).get a := Fin.ext he
        obtain ⟨j, hj, rfl⟩ := List.getElem_of_mem hy
        have e2 : (vals ++ more)[j]'(by simp; omega) = vals[j] := List.getElem_append_left _
        rw [← e2] at he
        have := (List.getElem_inj (i := j) (j := a.val) (h₀ := by simp; omega) (h₁ := a.isLt) hnd).mp he
        omega
      rw [this]
    exact (congrArg (fun r : Res Nat => (do let i ← r; return some i : Res (Option Nat))) this)

end Butte.Gen
