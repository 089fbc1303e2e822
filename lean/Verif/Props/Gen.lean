import Verif.Gen.Progress
import Verif.Rt.Sample
/-
Properties C33–C41: the code generated for tables, enums and unions.
-/
namespace Butte
open Gen

set_option maxRecDepth 8000

/-! ### C33 -/

/-- **C33** every field of a table made by the generated `create` reads back, through the generated accessor, as the
argument it was given (see `ReadsBack`), whatever is written to the buffer afterwards. -/
theorem C33_create_read (gm m : Mode) (t : Ir.Table) (gs : List GField) (hc : compileTable gm t = some gs)
    (hn : t.fields.length ≤ 32765) (b b₁ b₂ : Builder) (args : Args gs) (o : Nat) (rest : List Op)
    (rets : List (Option Nat)) (hi : Idle m b) (h : create m b gs args = .ok (o, b₁))
    (hfit : m = .release → o - b.usedSpace < 65536) (e : run m b₁ rest = .ok (rets, b₂)) (hr : NoReset rest)
    (hs : b₂.usedSpace < 2 ^ 31) (i : Fin gs.length) :
    ReadsBack m b₂.unfinishedData b.usedSpace (gs.get i).name (args.variant? gs ((gs.get i).name ++ c!"_type"))
      (gs.get i).kind (gs.get i).required (args.get gs i)
      (accessor m ⟨b₂.unfinishedData, b₂.usedSpace - o⟩ gs (gs.get i)) := by
  have hg := compile_good (compileTable_fields hc) hn
  exact created_reads hc hn (tableReads hi (create_builds h hg hfit).1 e hr hs) i

/-- **C33** the same for the root of a finished buffer, found by the generated `get_root`. -/
theorem C33_finished (gm m : Mode) (t : Ir.Table) (gs : List GField) (hc : compileTable gm t = some gs)
    (hn : t.fields.length ≤ 32765) (b b₁ b₂ : Builder) (args : Args gs) (o : Fin (2 ^ 32)) (rest : List Op)
    (ident : Option Bytes) (sp : Bool) (hi : Idle m b) (h : create m b gs args = .ok (o.val, b₁))
    (hfit : m = .release → o.val - b.usedSpace < 65536) (hf : Finishes m b₁ rest o ident sp b₂)
    (hs : b₂.usedSpace < 2 ^ 31) :
    ∃ data root, b₂.finishedData m = .ok data ∧
      (if sp then Table.getSizePrefixedRoot m data else Table.getRoot m data) = .ok root ∧
      ∀ i : Fin gs.length, ReadsBack m data b.usedSpace (gs.get i).name
        (args.variant? gs ((gs.get i).name ++ c!"_type")) (gs.get i).kind (gs.get i).required (args.get gs i)
        (accessor m root gs (gs.get i)) := by
  have hg := compile_good (compileTable_fields hc) hn
  have hbt := (create_builds h hg hfit).1
  have hb := (hbt.idle hi).reachable
  obtain ⟨b', rets, e1, e2⟩ := hf.calls
  have e : run m b₁ (rest ++ [.finish o ident sp]) = .ok (rets ++ [none], b₂) :=
    run_append.mpr ⟨rets, b', [none], e1, run_singleton.mpr ⟨none, e2, rfl⟩, rfl⟩
  have hnr : NoReset (rest ++ [.finish o ident sp]) := by
    intro op hop
    rcases List.mem_append.mp hop with hop | hop
    · exact hf.noReset op hop
    · simp only [List.mem_singleton] at hop; subst hop; rfl
  obtain ⟨a, a₃, ra, r3, hl, _⟩ := hbt.later hi e hnr hs
  have hle : o.val ≤ b₁.usedSpace := by
    obtain ⟨a, a', q1, q2, q3⟩ := hbt.toA hi (by
      obtain ⟨_, ra'⟩ := hb.toR
      obtain ⟨a₁, a', k1, k2, k3, _, k5, k6, k7, k8, k9, _⟩ := hf.toA hb ra' (by omega)
      have h1 := k2.len
      have h2 := k3.len
      rw [ra'.used]; rw [k1.used] at hs; omega)
    rw [q2.used]; omega
  obtain ⟨f1, f2⟩ := C18_root m b₁ b₂ rest o ident sp hb hf hle hs
  exact ⟨_, _, f1, f2, C33_create_read gm m t gs hc hn b b₁ b₂ args o.val _ _ hi h hfit e hnr hs⟩

/-! ### C34 -/

theorem defaultArgs_get : ∀ {gs : List GField} {args : Args gs}, defaultArgs gs = some args → ∀ i : Fin gs.length,
    (gs.get i).kind.defaultArg (gs.get i).required = some (args.get gs i)
  | g :: gs, (a, as), h, ⟨0, _⟩ => by
    simp only [defaultArgs] at h
    split at h <;> try (cases h; done)
    rename_i x y hx hy
    cases h; exact hx
  | g :: gs, (a, as), h, ⟨i + 1, hi⟩ => by
    simp only [defaultArgs] at h
    split at h <;> try (cases h; done)
    rename_i x y hx hy
    cases h
    exact defaultArgs_get hy ⟨i, by simpa using hi⟩

theorem default_reads {m : Mode} {buf : Bytes} {base : Nat} {name : Str} {tag : Option Nat} (k : Kind) (req : Bool)
    (a : k.Arg req) {res : Res (Option k.Inner)} (hd : k.defaultArg req = some a)
    (h : ReadsBack m buf base name tag k req a res) : res = .ok k.schemaDefault := by
  revert res hd h
  revert a req k
  refine field_cases ?_ ?_ ?_ ?_ ?_ ?_ ?_ ?_ ?_ ?_
  case refine_1 =>
    intro t req a res hd h
    have hd : Fin.ofNat t.card 0 = a := Option.some.inj hd
    obtain ⟨y, e, h⟩ := h
    have : y = Fin.ofNat t.card 0 := by
      rcases h with h | ⟨d, h, _⟩
      · rw [h, hd]
      · cases h
    rw [e, this]; rfl
  case refine_2 =>
    intro t d req a res hd h
    have hd : d = a := Option.some.inj hd
    obtain ⟨y, e, h⟩ := h
    have : y = d := by
      rcases h with h | ⟨d', h, _, h'⟩
      · rw [h, hd]
      · rw [h', Option.some.inj h]
    rw [e, this]; rfl
  case refine_3 =>
    intro t vals req a res hd h
    simp only [Kind.defaultArg] at hd
    split at hd
    · cases hd; exact h
    · cases hd
  case refine_4 =>
    intro t vals d req a res hd h
    cases hd; exact h
  case refine_5 => intro f a res hd h; cases hd
  case refine_6 => intro f a res hd h; cases hd
  case refine_7 => intro f res hd h; exact h
  case refine_8 => intro f a res hd h; cases hd
  case refine_9 => intro f a res hd h; cases hd
  case refine_10 => intro f res hd h; exact h

/-- **C34** a table created from the generated `Default` of the argument record reads, through every accessor, as the
default of the schema; nothing for offsets. -/
theorem C34_default_args (gm m : Mode) (t : Ir.Table) (gs : List GField) (hc : compileTable gm t = some gs)
    (hn : t.fields.length ≤ 32765) (b b₁ b₂ : Builder) (args : Args gs) (hd : defaultArgs gs = some args) (o : Nat)
    (rest : List Op) (rets : List (Option Nat)) (hi : Idle m b) (h : create m b gs args = .ok (o, b₁))
    (hfit : m = .release → o - b.usedSpace < 65536) (e : run m b₁ rest = .ok (rets, b₂)) (hr : NoReset rest)
    (hs : b₂.usedSpace < 2 ^ 31) (i : Fin gs.length) :
    accessor m ⟨b₂.unfinishedData, b₂.usedSpace - o⟩ gs (gs.get i) = .ok (gs.get i).kind.schemaDefault :=
  default_reads _ _ _ (defaultArgs_get hd i)
    (C33_create_read gm m t gs hc hn b b₁ b₂ args o rest rets hi h hfit e hr hs i)

/-- **C34** the argument record has a `Default` unless a field is a required offset (or an enum without variants,
which is rejected anyway). -/
theorem C34_default_exists (gm : Mode) (t : Ir.Table) (gs : List GField) (hc : compileTable gm t = some gs) :
    (∃ args, defaultArgs gs = some args) ↔
      ∀ g ∈ gs, g.required = true → ∀ f vs, g.kind ≠ .ref f ∧ g.kind ≠ .union vs := by
  have hk := compile_kinds (compileTable_fields hc)
  clear hc
  have one : ∀ g : GField, g.kind.Ok → ((∃ a, g.kind.defaultArg g.required = some a) ↔
      (g.required = true → ∀ f vs, g.kind ≠ .ref f ∧ g.kind ≠ .union vs)) := by
    rintro ⟨n, s, k, req⟩ hk
    cases k with
    | scalar t d => cases d <;> exact iff_of_true ⟨_, rfl⟩ (by simp)
    | enum t vals d =>
      cases d with
      | none =>
        have h0 := hk.1.2
        exact iff_of_true ⟨⟨0, h0⟩, dif_pos h0⟩ (by simp)
      | some d => exact iff_of_true ⟨_, rfl⟩ (by simp)
    | ref f =>
      cases req with
      | false => exact iff_of_true ⟨_, rfl⟩ (by simp)
      | true => exact iff_of_false (by rintro ⟨_, h⟩; cases h) (fun h => (h rfl f []).1 rfl)
    | union vs =>
      cases req with
      | false => exact iff_of_true ⟨_, rfl⟩ (by simp)
      | true => exact iff_of_false (by rintro ⟨_, h⟩; cases h) (fun h => (h rfl .str vs).2 rfl)
  induction gs with
  | nil => exact iff_of_true ⟨_, rfl⟩ (by simp)
  | cons g gs ih =>
    have ih := ih (fun g hg => hk g (by simp [hg]))
    have o := one g (hk g (by simp))
    simp only [List.mem_cons, forall_eq_or_imp]
    simp only [defaultArgs]
    constructor
    · rintro ⟨args, h⟩
      split at h
      · rename_i x y hx hy; exact ⟨o.mp ⟨x, hx⟩, ih.mp ⟨y, hy⟩⟩
      · cases h
    · rintro ⟨h1, h2⟩
      obtain ⟨x, hx⟩ := o.mpr h1
      obtain ⟨y, hy⟩ := ih.mpr h2
      rw [hx, hy]; exact ⟨_, rfl⟩

/-- **C34** the implicit default of a builtin scalar is zero. -/
theorem C34_implicit_zero (b : Ast.Builtin) : ∃ d, Ast.implicitDefault (.builtin b) = some d ∧
    kindOf (.builtin b) (some d) = some (.scalar (builtinSTy b) (some (Fin.ofNat _ 0))) := by
  cases b <;> exact ⟨_, rfl, rfl⟩

/-! ### C35 -/

/-- **C35** is false: a required scalar given its default value is not stored, and then `create` panics. The schema is
`table T { x: int (required); }`, the argument 0. -/
theorem C35_refuted : ∃ (t : Ir.Table) (gs : List GField) (args : Args gs), (∀ gm, compileTable gm t = some gs) ∧
    ∀ m, ∃ b, Builder.newWithCapacity 128 = .ok b ∧ create m b gs args = .panic := by
  refine ⟨⟨[c!"T"], [⟨c!"x", .builtin .int, some (.scalar (.integer 0)), true, []⟩], false, []⟩,
    [⟨c!"x", 4, .scalar .i32 (some (Fin.ofNat _ 0)), true⟩], (Fin.ofNat _ 0, ()), ?_, ?_⟩
  · intro gm; cases gm <;> rfl
  · intro m
    refine ⟨_, rfl, ?_⟩
    cases m <;> decide

/-- **C35** what does hold, exactly: called by a caller that follows the protocol, with known offsets and enough room,
`create` panics if and only if some required scalar or enum is given a value equal to its default; otherwise it
completes. (The full claim, "never panics", is refuted above.) -/
theorem C35_create_exact_partial (gm m : Mode) (t : Ir.Table) (gs : List GField) (hc : compileTable gm t = some gs)
    (hn : t.fields.length ≤ 32765) (cap : Nat) (b₀ b : Builder) (ops : List Op) (rets : List (Option Nat))
    (h₀ : Builder.newWithCapacity cap = .ok b₀) (h : Abides m b₀ .start ops) (e : run m b₀ ops = .ok (rets, b))
    (hb : (Caller.after .start ops rets).building = .nothing) (args : Args gs)
    (hk : ∀ (i : Fin gs.length) o, (gs.get i).kind.offset? (gs.get i).required (args.get gs i) = some o →
      o.val ∈ (Caller.after .start ops rets).known)
    (hroom : b.usedSpace + roomFor gs + 65544 ≤ 2 ^ 31 - 2 ^ 17) (hfit : roomFor gs + 7 < 65536) :
    ((∃ i : Fin gs.length, (gs.get i).required = true ∧ (gs.get i).kind.Elided (gs.get i).required (args.get gs i)) →
      create m b gs args = .panic) ∧
    ((¬ ∃ i : Fin gs.length, (gs.get i).required = true ∧ (gs.get i).kind.Elided (gs.get i).required (args.get gs i)) →
      ∃ o b', create m b gs args = .ok (o, b')) := by
  obtain ⟨a, hr, ht⟩ := abides_tracks (new_R h₀) (Tracks.start m) h e
  obtain ⟨h1, h2⟩ := create_exact hc hn hr ht hb args hk hroom hfit
  refine ⟨h1, fun hne => ?_⟩
  obtain ⟨o, b', _, e, _⟩ := h2 hne
  exact ⟨o, b', e⟩

/-! ### C36 -/

theorem lacks_get {m : Mode} {t : Table} {slot : Nat} (h : t.Lacks m slot) (F : FTy) (d : Option F.Inner) :
    t.get m F slot d = .ok d := by
  obtain ⟨v, h1, h2⟩ := h
  unfold Table.get
  rw [h1]
  simp only [Res.ok_bind]
  rcases h2 with h2 | h2 <;> rw [h2] <;> rfl

/-- **C36** in any buffer: a field that is not stored reads as its default; without a default it reads as nothing,
which for a required field is the error `RequiredFieldMissing` naming the field. -/
theorem C36_missing (m : Mode) (t : Table) (gs : List GField) (g : GField) (h : t.Lacks m g.slot)
    (hu : ∀ vs, g.kind ≠ .union vs) :
    accessor m t gs g = g.kind.missing g.name g.required := by
  obtain ⟨n, s, k, req⟩ := g
  cases k with
  | scalar ty d =>
    have : accessor m t gs ⟨n, s, .scalar ty d, req⟩ = okOr n req d := by
      unfold accessor
      have e : Kind.fetch m t s (tagOf m t gs n) (.scalar ty d) = .ok d := lacks_get h (.scalar ty) d
      simp only
      rw [e]; rfl
    rw [this]; cases d <;> rfl
  | enum ty vals d =>
    have : accessor m t gs ⟨n, s, .enum ty vals d, req⟩ = okOr n req (d.map (·.val)) := by
      unfold accessor
      have e : Kind.fetch m t s (tagOf m t gs n) (.enum ty vals d) = .ok (d.map (·.val)) := lacks_get h (enumFTy ty vals) _
      simp only
      rw [e]; rfl
    rw [this]; cases d <;> rfl
  | ref f =>
    have : accessor m t gs ⟨n, s, .ref f, req⟩ = okOr n req none := by
      unfold accessor
      have e : Kind.fetch m t s (tagOf m t gs n) (.ref f) = .ok none := lacks_get h (.fwdU f) _
      simp only
      rw [e]; rfl
    rw [this]; rfl
  | union vs => exact absurd rfl (hu vs)

/-- **C36** for a union field whose value is not stored and whose tag can be read (the tag is a field of its own):
nothing, or `RequiredFieldMissing`. -/
theorem C36_missing_union (m : Mode) (gs : List GField) (t : Table) (i : Fin gs.length) (vs : List FTy) (hk : (gs.get i).kind = .union vs)
    (h : t.Lacks m (gs.get i).slot) (n : Option Nat) (ht : tagOf m t gs (gs.get i).name = .ok n)
    (hn : ∀ k, n = some k → k < vs.length + 1) :
    accessor m t gs (gs.get i) =
      if (gs.get i).required then .err (.requiredFieldMissing (String.ofList (gs.get i).name)) else .ok none := by
  have key : (gs.get i).kind.fetch m t (gs.get i).slot (tagOf m t gs (gs.get i).name) = .ok none := by
    have : ∀ k : Kind, k = .union vs → k.fetch m t (gs.get i).slot (tagOf m t gs (gs.get i).name) = .ok none := by
      rintro _ rfl
      rw [ht]
      simp only [Kind.fetch, Res.ok_bind]
      split
      · rfl
      · rfl
      · rename_i k
        rw [dif_pos (by have := hn _ rfl; omega), lacks_get h]
        rfl
    exact this _ hk
  unfold accessor
  rw [key]
  rfl

/-- **C36** the error is raised only for a field without a default: a required accessor never returns nothing. -/
theorem C36_required_some (m : Mode) (t : Table) (gs : List GField) (g : GField) (h : g.required = true) :
    accessor m t gs g ≠ .ok none := by
  unfold accessor
  intro e
  obtain ⟨x, _, e⟩ := Res.bind_eq_ok.mp e
  cases x with
  | none => simp [okOr, h] at e
  | some x => cases e

/-! ### C37 -/

theorem compileFields_append {gm : Mode} : ∀ {fs ext : List Ir.Field} {i : Nat} {gs : List GField},
    compileFields gm i (fs ++ ext) = some gs → ∃ old more, compileFields gm i fs = some old ∧ gs = old ++ more
  | [], ext, i, gs, h => ⟨[], gs, rfl, rfl⟩
  | f :: fs, ext, i, gs, h => by
    simp only [List.cons_append, compileFields, Option.bind_eq_bind, Option.bind_eq_some_iff] at h
    obtain ⟨k, h1, s, h2, gs', h3, h4⟩ := h
    obtain ⟨old, more, h5, h6⟩ := compileFields_append h3
    cases h4
    refine ⟨⟨Heck.snake f.ident, s, k, f.required⟩ :: old, more, ?_, by rw [h6]; rfl⟩
    simp only [compileFields, h1, h2, h5, Option.bind_eq_bind, Option.bind_some]
    rfl

/-- **C37** appending fields to a table keeps the generated code of the old fields: the new field list starts with the
old one (same names, slots, kinds, defaults), and on every buffer whatsoever the accessor of an old field does the
same in both versions. -/
theorem C37_same_accessors (gm : Mode) (id : Ir.QIdent) (r r' : Bool) (fs ext : List Ir.Field) (old new : List GField)
    (ho : compileTable gm ⟨id, fs, r, []⟩ = some old) (hn : compileTable gm ⟨id, fs ++ ext, r', []⟩ = some new) :
    (∃ more, new = old ++ more) ∧
    ∀ (m : Mode) (tbl : Table), ∀ g ∈ old, accessor m tbl new g = accessor m tbl old g := by
  obtain ⟨old', more, h1, h2⟩ := compileFields_append (compileTable_fields hn)
  have h3 := compileTable_fields ho
  have : old' = old := by
    have h3 : compileFields gm 0 fs = some old := h3
    rw [h1] at h3; exact Option.some.inj h3
  subst this
  refine ⟨⟨more, h2⟩, ?_⟩
  intro m tbl g hg
  obtain ⟨i, rfl⟩ := List.get_of_mem hg
  unfold accessor
  congr 1
  cases hk : (old'.get i).kind with
  | scalar t d => rfl
  | enum t vals d => rfl
  | ref f => rfl
  | union vs =>
    obtain ⟨j, ty, vals, d, q1, q2, q3, q4⟩ := union_tag ho hk
    have hf := find_name (names_nodup ho) j
    rw [q1] at hf
    have : tagOf m tbl new (old'.get i).name = tagOf m tbl old' (old'.get i).name := by
      unfold tagOf
      rw [h2, List.find?_append, hf]
      rfl
    rw [this]

/-- **C37** data written with the old schema, read with the new one: the old fields read back as they were given, the
new ones as their default, as nothing, or as `RequiredFieldMissing` if required. -/
theorem C37_old_data_new_schema (gm m : Mode) (id : Ir.QIdent) (r r' : Bool) (fs ext : List Ir.Field)
    (old new : List GField) (ho : compileTable gm ⟨id, fs, r, []⟩ = some old)
    (hn : compileTable gm ⟨id, fs ++ ext, r', []⟩ = some new) (hlen : (fs ++ ext).length ≤ 32765) (b b₁ b₂ : Builder)
    (args : Args old) (o : Nat) (rest : List Op) (rets : List (Option Nat)) (hi : Idle m b)
    (h : create m b old args = .ok (o, b₁)) (hfit : m = .release → o - b.usedSpace < 65536)
    (e : run m b₁ rest = .ok (rets, b₂)) (hr : NoReset rest) (hs : b₂.usedSpace < 2 ^ 31) :
    (∀ i : Fin old.length, ReadsBack m b₂.unfinishedData b.usedSpace (old.get i).name
      (args.variant? old ((old.get i).name ++ c!"_type")) (old.get i).kind (old.get i).required (args.get old i)
      (accessor m ⟨b₂.unfinishedData, b₂.usedSpace - o⟩ new (old.get i))) ∧
    (∀ i : Fin new.length, old.length ≤ i.val → (∀ vs, (new.get i).kind ≠ .union vs) →
      accessor m ⟨b₂.unfinishedData, b₂.usedSpace - o⟩ new (new.get i) =
        (new.get i).kind.missing (new.get i).name (new.get i).required) := by
  have hl : fs.length ≤ 32765 := by simp only [List.length_append] at hlen; omega
  obtain ⟨⟨more, hm⟩, hsame⟩ := C37_same_accessors gm id r r' fs ext old new ho hn
  have hg := compile_good (compileTable_fields ho) hl
  have hg' := compile_good (compileTable_fields hn) hlen
  have hbt := (create_builds h hg hfit).1
  constructor
  · intro i
    rw [hsame m _ _ (List.get_mem _ _)]
    exact C33_create_read gm m _ old ho hl b b₁ b₂ args o rest rets hi h hfit e hr hs i
  · intro i hge hu
    refine C36_missing m _ new _ ?_ hu
    obtain ⟨a, a₂, ra, ra2, hl, hle, _, ht⟩ := hbt.later hi e hr hs
    obtain ⟨v, v1, v2, v3⟩ := ht.vtget hl
    have hso := hg'.2 _ (List.get_mem new i)
    refine ⟨v, by rw [ra2.unfinished, ra2.used]; exact v1, ?_⟩
    have : (new.get i).slot.val ∉ ((bodyOps old args).filterMap Op.stored).map Fld.slot := by
      intro hm'
      have := (bodyOps_slots old args).subset hm'
      obtain ⟨g, hg1, hg2⟩ := List.mem_map.mp this
      obtain ⟨j, rfl⟩ := List.get_of_mem hg1
      have hj : j.val < new.length := by rw [hm, List.length_append]; omega
      have e1 : new.get ⟨j.val, hj⟩ = old.get j := by
        simp only [List.get_eq_getElem, hm]
        exact List.getElem_append_left _
      rw [← e1] at hg2
      have := hg'.inj hg2
      have := congrArg Fin.val this
      simp only at this
      omega
    exact (v3 _ hso.1 hso.2.1 this).symm

/-- **C37** data written with the new schema, read with the old one: every field the old schema knows reads back as it
was given. -/
theorem C37_new_data_old_schema (gm m : Mode) (id : Ir.QIdent) (r r' : Bool) (fs ext : List Ir.Field)
    (old new : List GField) (ho : compileTable gm ⟨id, fs, r, []⟩ = some old)
    (hn : compileTable gm ⟨id, fs ++ ext, r', []⟩ = some new) (hlen : (fs ++ ext).length ≤ 32765) (b b₁ b₂ : Builder)
    (args : Args new) (o : Nat) (rest : List Op) (rets : List (Option Nat)) (hi : Idle m b)
    (h : create m b new args = .ok (o, b₁)) (hfit : m = .release → o - b.usedSpace < 65536)
    (e : run m b₁ rest = .ok (rets, b₂)) (hr : NoReset rest) (hs : b₂.usedSpace < 2 ^ 31)
    (i : Fin new.length) (hlt : i.val < old.length) :
    new.get i = old.get ⟨i.val, hlt⟩ ∧
    ReadsBack m b₂.unfinishedData b.usedSpace (new.get i).name
      (args.variant? new ((new.get i).name ++ c!"_type")) (new.get i).kind (new.get i).required (args.get new i)
      (accessor m ⟨b₂.unfinishedData, b₂.usedSpace - o⟩ old (new.get i)) := by
  obtain ⟨⟨more, hm⟩, hsame⟩ := C37_same_accessors gm id r r' fs ext old new ho hn
  have e1 : new.get i = old.get ⟨i.val, hlt⟩ := by
    simp only [List.get_eq_getElem, hm]
    exact List.getElem_append_left _
  refine ⟨e1, ?_⟩
  rw [← hsame m _ _ (by rw [e1]; exact List.get_mem _ _)]
  exact C33_create_read gm m _ new hn hlen b b₁ b₂ args o rest rets hi h hfit e hr hs i

/-! ### C38 -/

/-- **C38** the `i`-th field of a generated table (union companions counted) has slot `4 + 2 * i`; no two fields share
a slot. For tables of at most 32766 fields. -/
theorem C38_slots (gm : Mode) (t : Ir.Table) (gs : List GField) (hc : compileTable gm t = some gs)
    (hn : t.fields.length ≤ 32766) :
    gs.length = t.fields.length ∧ (∀ (j : Nat) (hj : j < gs.length), gs[j].slot.val = 4 + 2 * j) ∧
      ∀ (i j : Fin gs.length), (gs.get i).slot = (gs.get j).slot → i = j := by
  have hf := compileTable_fields hc
  have hs := compileFields_slot hf (by omega)
  refine ⟨(compileFields_spec hf).length_eq.symm, fun j hj => by rw [hs j hj]; omega, ?_⟩
  intro i j e
  have e : (gs.get i).slot.val = (gs.get j).slot.val := by rw [e]
  simp only [List.get_eq_getElem] at e
  rw [hs i.val i.isLt, hs j.val j.isLt] at e
  exact Fin.ext (by omega)

/-- **C38** a generator built with overflow checks accepts no larger table. -/
theorem C38_limit (t : Ir.Table) (gs : List GField) (hc : compileTable .debug t = some gs) :
    t.fields.length ≤ 32766 := by
  have hf := compileTable_fields hc
  have key : ∀ {fs : List Ir.Field} {i : Nat} {gs : List GField}, compileFields .debug i fs = some gs → i ≤ 32766 →
      i + fs.length ≤ 32766 := by
    intro fs
    induction fs with
    | nil => intro i gs _ hi; simpa using hi
    | cons f fs ih =>
      intro i gs h hi
      simp only [compileFields, Option.bind_eq_bind, Option.bind_eq_some_iff] at h
      obtain ⟨k, _, s, h2, gs', h3, _⟩ := h
      have hlt : i < 32766 := by
        rcases Nat.lt_or_ge i 32766 with h | h
        · exact h
        · have : i = 32766 := by omega
          subst this
          revert h2
          have : slotOf .debug 32766 = none := by decide
          rw [this]; simp
      have := ih h3 (by omega)
      simp only [List.length_cons]; omega
  simpa using key hf (by omega)

/-- **C38** without overflow checks the slots wrap around: field 32768 would share the slot of field 0. -/
theorem C38_release_wraps : slotOf .release 32768 = slotOf .release 0 ∧ slotOf .release 0 = some 4 := by decide

/-! ### C39, C40 -/

theorem intLit_int {t : STy} {i : Int} {x : SVal t} (ht : t ≠ .f32 ∧ t ≠ .f64) (h : literal t (.integer i) = some x) :
    x.int = i := by
  have hb : t ≠ .bool := by rintro rfl; simp [literal] at h
  have signed : ∀ (w : Nat) (n : Nat), w ∈ [8, 16, 32, 64] → intLit true w i = some n → n < 2 ^ w ∧ toSigned w n = i := by
    intro w n hw h
    unfold intLit at h
    simp only [if_true] at h
    split at h
    · rename_i hr
      cases h
      unfold ofSigned toSigned
      simp only [List.mem_cons, List.not_mem_nil, or_false] at hw
      rcases hw with rfl | rfl | rfl | rfl
      all_goals
        simp only [Nat.reduceSub, Int.reducePow, Nat.reducePow] at hr ⊢
        constructor
        · omega
        · split <;> omega
    · cases h
  have unsigned : ∀ (w : Nat) (n : Nat), w ∈ [8, 16, 32, 64] → intLit false w i = some n → n < 2 ^ w ∧ (n : Int) = i := by
    intro w n hw h
    unfold intLit at h
    simp only [Bool.false_eq_true, if_false] at h
    split at h
    · rename_i hr
      cases h
      simp only [List.mem_cons, List.not_mem_nil, or_false] at hw
      rcases hw with rfl | rfl | rfl | rfl
      all_goals
        simp only [Int.reducePow, Nat.reducePow] at hr ⊢
        constructor <;> omega
    · cases h
  cases t <;> simp only [ne_eq, not_true_eq_false, false_and, and_false, reduceCtorEq, not_false_eq_true, and_true] at ht hb
  all_goals
    simp only [literal, Option.map_eq_some_iff] at h
    obtain ⟨n, h1, rfl⟩ := h
  case i8 =>
    obtain ⟨q1, q2⟩ := signed 8 n (by simp) h1
    show toSigned 8 (n % 2 ^ 8) = i
    rw [Nat.mod_eq_of_lt q1]; exact q2
  case i16 =>
    obtain ⟨q1, q2⟩ := signed 16 n (by simp) h1
    show toSigned 16 (n % 2 ^ 16) = i
    rw [Nat.mod_eq_of_lt q1]; exact q2
  case i32 =>
    obtain ⟨q1, q2⟩ := signed 32 n (by simp) h1
    show toSigned 32 (n % 2 ^ 32) = i
    rw [Nat.mod_eq_of_lt q1]; exact q2
  case i64 =>
    obtain ⟨q1, q2⟩ := signed 64 n (by simp) h1
    show toSigned 64 (n % 2 ^ 64) = i
    rw [Nat.mod_eq_of_lt q1]; exact q2
  case u8 =>
    obtain ⟨q1, q2⟩ := unsigned 8 n (by simp) h1
    show ((n % 2 ^ 8 : Nat) : Int) = i
    rw [Nat.mod_eq_of_lt q1]; exact q2
  case u16 =>
    obtain ⟨q1, q2⟩ := unsigned 16 n (by simp) h1
    show ((n % 2 ^ 16 : Nat) : Int) = i
    rw [Nat.mod_eq_of_lt q1]; exact q2
  case u32 =>
    obtain ⟨q1, q2⟩ := unsigned 32 n (by simp) h1
    show ((n % 2 ^ 32 : Nat) : Int) = i
    rw [Nat.mod_eq_of_lt q1]; exact q2
  case u64 =>
    obtain ⟨q1, q2⟩ := unsigned 64 n (by simp) h1
    show ((n % 2 ^ 64 : Nat) : Int) = i
    rw [Nat.mod_eq_of_lt q1]; exact q2

/-- **C34** an explicit integer default of an integer field is that integer. -/
theorem C34_explicit_integer (b : Ast.Builtin) (i : Int) (k : Kind)
    (hb : builtinSTy b ≠ .f32 ∧ builtinSTy b ≠ .f64)
    (h : kindOf (.builtin b) (some (.scalar (.integer i))) = some k) :
    ∃ x : SVal (builtinSTy b), k = .scalar (builtinSTy b) (some x) ∧ x.int = i := by
  simp only [kindOf, Option.bind_eq_bind, Option.bind_eq_some_iff] at h
  obtain ⟨x, h1, h2⟩ := h
  cases h2
  exact ⟨x, rfl, intLit_int hb h1⟩

theorem variantValues_int {t : STy} (ht : t ≠ .f32 ∧ t ≠ .f64) : ∀ {vs : List Ir.EnumVariant} {i : Nat}
    {xs : List (SVal t)}, variantValues t i vs = some xs → ∀ (j : Nat) (h1 : j < vs.length) (h2 : j < xs.length),
    xs[j].int = vs[j].value.getD ((i + j : Nat) : Int)
  | [], i, xs, h, j, h1, _ => by simp at h1
  | v :: vs, i, xs, h, j, h1, h2 => by
    simp only [variantValues, Option.bind_eq_bind, Option.bind_eq_some_iff] at h
    obtain ⟨x, h3, ys, h4, h5⟩ := h
    cases h5
    cases j with
    | zero => exact intLit_int ht h3
    | succ j =>
      have := variantValues_int ht h4 j (by simpa using h1) (by simpa using h2)
      simp only [List.getElem_cons_succ]
      rw [this, show i + 1 + j = i + (j + 1) by omega]

/-- **C39** an accepted enum: every variant has the value the schema gives it (see C40 for those without one); the
conversion from the base type returns, for the value of a variant, that variant, and `UnknownEnumVariant` for
every other value. -/
theorem C39_enum_conversion (e : Ir.Enum) (xs : List (SVal (enumBaseSTy e.base)))
    (h : enumValues (enumBaseSTy e.base) e.variants = some xs) :
    xs.length = e.variants.length ∧
    (∀ (j : Nat) (h1 : j < e.variants.length) (h2 : j < xs.length), ∀ v, e.variants[j].value = some v → xs[j].int = v) ∧
    (∀ a : Fin xs.length, enumTryFrom (xs.map (·.val)) (xs.get a).val = .ok a.val) ∧
    (∀ v : SVal (enumBaseSTy e.base), v ∉ xs → enumTryFrom (xs.map (·.val)) v.val = .err .unknownEnumVariant) := by
  obtain ⟨h1, h2, h3, h4⟩ := enumValues_ok h
  refine ⟨variantValues_length h2, ?_, enumTryFrom_get h1, ?_⟩
  · intro j hj hj' v hv
    rw [variantValues_int (enumBaseSTy_int _) h2 j hj hj', hv]; rfl
  · intro v hv
    unfold enumTryFrom
    have : (xs.map (·.val)).findIdx? (· == v.val) = none := by
      rw [List.findIdx?_eq_none_iff]
      intro x hx
      obtain ⟨y, hy, rfl⟩ := List.mem_map.mp hx
      rw [beq_eq_false_iff_ne]
      intro e'
      exact hv (by rw [← Fin.ext e']; exact hy)
    rw [this]

/-- **C39** an accepted enum has distinct values. -/
theorem C39_distinct (e : Ir.Enum) (xs : List (SVal (enumBaseSTy e.base)))
    (h : enumValues (enumBaseSTy e.base) e.variants = some xs) : xs.Nodup := (enumValues_ok h).1

/-- **C40** is false: in `enum E: byte { A = 5, B }` the variant `B` gets 1, not 6. -/
theorem C40_refuted : ∃ (e : Ir.Enum) (xs : List (SVal (enumBaseSTy e.base))),
    enumValues (enumBaseSTy e.base) e.variants = some xs ∧ e.variants.map (·.value) = [some 5, none] ∧
    xs.map (fun x => x.int) = [5, 1] := by
  refine ⟨⟨[c!"E"], [⟨c!"A", some 5, []⟩, ⟨c!"B", none, []⟩], .byte, []⟩, [Fin.ofNat _ 5, Fin.ofNat _ 1], ?_, rfl, ?_⟩
  · decide
  · decide

/-- **C40** what does hold: a variant without an explicit value gets its position in the list; this continues from
the previous variant exactly when that one's value is its own position. -/
theorem C40_position_partial (e : Ir.Enum) (xs : List (SVal (enumBaseSTy e.base)))
    (h : enumValues (enumBaseSTy e.base) e.variants = some xs) (j : Nat) (h1 : j < e.variants.length)
    (h2 : j < xs.length) (hv : e.variants[j].value = none) :
    xs[j].int = j ∧ ∀ (k : Nat) (hk : k + 1 = j), (xs[j].int = xs[k].int + 1 ↔ xs[k].int = k) := by
  obtain ⟨_, h3, _, _⟩ := enumValues_ok h
  have q : ((xs[j].int : Int)) = j := by
    rw [variantValues_int (enumBaseSTy_int _) h3 j h1 h2, hv]; simp
  refine ⟨q, ?_⟩
  intro k hk
  rw [q]
  omega

/-! ### C41 -/

/-- **C41** a union field created with variant `j` (the tag given as `j + 1`, 0 being `None`) and the offset of a value
written before reads back as variant `j` holding what stands there. -/
theorem C41_union_round_trip (gm m : Mode) (t : Ir.Table) (gs : List GField) (hc : compileTable gm t = some gs)
    (hn : t.fields.length ≤ 32765) (b b₁ b₂ : Builder) (args : Args gs) (o : Nat) (rest : List Op)
    (rets : List (Option Nat)) (hi : Idle m b) (h : create m b gs args = .ok (o, b₁))
    (hfit : m = .release → o - b.usedSpace < 65536) (e : run m b₁ rest = .ok (rets, b₂)) (hr : NoReset rest)
    (hs : b₂.usedSpace < 2 ^ 31) (i : Fin gs.length) (n : Str) (s : Fin 65536) (vs : List FTy) (req : Bool)
    (hg : gs.get i = ⟨n, s, .union vs, req⟩) (x : Fin (2 ^ 32))
    (hx : (gs.get i).kind.offset? (gs.get i).required (args.get gs i) = some x) (hb : x.val ≤ b.usedSpace) :
    (∀ j : Fin vs.length, args.variant? gs (n ++ c!"_type") = some (j.val + 1) → (∃ F, vs.get j = .fwdU F) →
      accessor m ⟨b₂.unfinishedData, b₂.usedSpace - o⟩ gs ⟨n, s, .union vs, req⟩ =
        (do let y ← (vs.get j).atTarget m b₂.unfinishedData (b₂.usedSpace - x.val); return some ⟨j, y⟩)) ∧
    (args.variant? gs (n ++ c!"_type") = some 0 →
      accessor m ⟨b₂.unfinishedData, b₂.usedSpace - o⟩ gs ⟨n, s, .union vs, req⟩ =
        if req then .err (.requiredFieldMissing (String.ofList n)) else .ok none) := by
  have hl : b₂.unfinishedData.length = b₂.usedSpace := by simp [Builder.unfinishedData, Builder.usedSpace]
  have key := C33_create_read gm m t gs hc hn b b₁ b₂ args o rest rets hi h hfit e hr hs i
  generalize args.get gs i = a at key hx
  revert key hx
  revert a
  rw [hg]
  simp only
  intro a key hx
  cases req with
  | true =>
    have hx : a = x := Option.some.inj hx
    obtain ⟨k, k1, k2, k3⟩ := key
    rw [k1]
    constructor
    · intro j hj hF
      rw [k3 j (Option.some.inj hj) hF (by rw [hx]; exact hb), hl, hx]
    · intro h0
      rw [k2 (Option.some.inj h0)]; rfl
  | false =>
    have hx : a = some x := hx
    subst hx
    obtain ⟨k, k1, k2, k3⟩ := key
    rw [k1]
    constructor
    · intro j hj hF
      rw [k3 j (Option.some.inj hj) hF hb, hl]
    · intro h0
      rw [k2 (Option.some.inj h0)]; rfl

theorem err_bind {α β : Type} {x : Res α} {er : Error} (h : x = .err er) (f : α → Res β) : (x >>= f) = .err er := by
  subst h; rfl

theorem holds_enum {m : Mode} {t : Table} {slot : Nat} {ty : STy} {x : SVal ty} (h : t.Holds m slot ty x)
    (vals : List Nat) (d : Option Nat) :
    t.get m (.enum ty vals) slot d = (do let i ← enumTryFrom vals x.val; return some i) := by
  obtain ⟨v, o, l, h1, h2, h3, h4, h5⟩ := h
  unfold Table.get
  rw [h1]
  simp only [Res.ok_bind]
  rw [h2]
  simp only [Res.ok_bind]
  rw [if_neg h3, h4]
  simp only [Res.ok_bind, FTy.follow]
  rw [h5]; rfl

/-- **C41** in any buffer: if the tag stored for a union is not the value of a variant, reading the union gives
`UnknownEnumVariant`. -/
theorem C41_unknown_tag (gm m : Mode) (t : Ir.Table) (gs : List GField) (hc : compileTable gm t = some gs)
    (tbl : Table) (i : Fin gs.length) (vs : List FTy) (hk : (gs.get i).kind = .union vs) :
    ∃ (j : Fin gs.length) (ty : STy) (vals : List (SVal ty)) (d : Option (Fin vals.length)),
      (gs.get j).name = (gs.get i).name ++ c!"_type" ∧ (gs.get j).kind = .enum ty vals d ∧
      vals.length = vs.length + 1 ∧
      ∀ x : SVal ty, tbl.Holds m (gs.get j).slot ty x → x ∉ vals →
        accessor m tbl gs (gs.get i) = .err .unknownEnumVariant := by
  obtain ⟨j, ty, vals, d, q1, q2, q3, q4⟩ := union_tag hc hk
  refine ⟨j, ty, vals, d, q1, q2, q3, ?_⟩
  intro x hx hnx
  have hf := find_name (names_nodup hc) j
  rw [q1] at hf
  have htag : tagOf m tbl gs (gs.get i).name = .err .unknownEnumVariant := by
    unfold tagOf
    rw [hf]
    generalize gs.get j = g at q2 hx
    obtain ⟨nm, s, kd, rq⟩ := g
    simp only at q2 hx
    subst q2
    have : enumTryFrom (vals.map (·.val)) x.val = .err .unknownEnumVariant := by
      unfold enumTryFrom
      have : (vals.map (·.val)).findIdx? (· == x.val) = none := by
        rw [List.findIdx?_eq_none_iff]
        intro y hy
        obtain ⟨z, hz, rfl⟩ := List.mem_map.mp hy
        rw [beq_eq_false_iff_ne]
        intro e'
        exact hnx (by rw [← Fin.ext e']; exact hz)
      rw [this]
    have hg : tbl.get m (enumFTy ty vals) s.val (d.map (·.val)) = .err .unknownEnumVariant := by
      have := holds_enum hx (vals.map (·.val)) (d.map (·.val))
      rw [‹enumTryFrom _ _ = _›] at this
      exact this
    exact err_bind hg _
  have key : ∀ k : Kind, k = .union vs →
      k.fetch m tbl (gs.get i).slot (tagOf m tbl gs (gs.get i).name) = .err .unknownEnumVariant := by
    rintro _ rfl
    rw [htag]; rfl
  unfold accessor
  rw [key _ hk]
  rfl

/-! ### Concrete cases meeting the hypotheses

The schema
```
enum Color: byte { Red, Green = 4, Blue }
union U { A, B }
table T { hp: short = 100; color: Color = Green; name: string (required); friend: T; pick: U; }
```
-/

def exColor : List Ir.EnumVariant := [⟨c!"Red", none, []⟩, ⟨c!"Green", some 4, []⟩, ⟨c!"Blue", none, []⟩]
def exTag : Ir.Ty := .enum [c!"butte_gen", c!"UType"] [⟨c!"None", some 0, []⟩, ⟨c!"A", none, []⟩, ⟨c!"B", none, []⟩] .ubyte
def exUnion : Ir.Ty :=
  .union [c!"U"] [c!"butte_gen", c!"UType"] [⟨c!"A", .table [c!"A"], []⟩, ⟨c!"B", .table [c!"B"], []⟩]

def exFields : List Ir.Field :=
  [⟨c!"hp", .builtin .short, some (.scalar (.integer 100)), false, []⟩,
   ⟨c!"color", .enum [c!"Color"] exColor .byte, some (.ident c!"Green"), false, []⟩,
   ⟨c!"name", .string, none, true, []⟩,
   ⟨c!"friend", .table [c!"T"], none, false, []⟩,
   ⟨c!"pick_type", exTag, none, false, []⟩,
   ⟨c!"pick", exUnion, none, false, []⟩]

def exTable : Ir.Table := ⟨[c!"T"], exFields, false, []⟩

/-- The generated fields. -/
def exGen : List GField :=
  [⟨c!"hp", 4, .scalar .i16 (some (Fin.ofNat _ 100)), false⟩,
   ⟨c!"color", 6, .enum .i8 [Fin.ofNat _ 0, Fin.ofNat _ 4, Fin.ofNat _ 2] (some ⟨1, by decide⟩), false⟩,
   ⟨c!"name", 8, .ref .str, true⟩,
   ⟨c!"friend", 10, .ref .table, false⟩,
   ⟨c!"pick_type", 12, .enum .u8 [Fin.ofNat _ 0, Fin.ofNat _ 1, Fin.ofNat _ 2] none, false⟩,
   ⟨c!"pick", 14, .union [.fwdU .table, .fwdU .table], false⟩]

theorem exTable_compiles (gm : Mode) : compileTable gm exTable = some exGen := by cases gm <;> rfl

/-- Arguments: `hp` 7, colour `Blue`, the string at 8 as name, no friend, variant `B` of the union at 16. -/
def exArgs : Args exGen := (Fin.ofNat _ 7, (⟨2, by decide⟩, (⟨8, by decide⟩, (none, (⟨2, by decide⟩, (some ⟨16, by decide⟩, ()))))))

/-- A string and an empty table. -/
def exPre : List Op := [.createString "hi", .startTable, .endTable 8]

def exCreate (m : Mode) (gs : List GField) (pre : List Op) (args : Args gs) : Res (Builder × Nat × Builder) := do
  let (_, b) ← fromNew m 256 pre
  let (o, b') ← create m b gs args
  return (b, o, b')

theorem exCreate_ex {m : Mode} {gs : List GField} {pre : List Op} {args : Args gs} {p : Builder × Nat × Builder → Bool}
    (hp : NoPending pre) (h : (exCreate m gs pre args).okAnd p = true) :
    ∃ b o b', Idle m b ∧ create m b gs args = .ok (o, b') ∧ p (b, o, b') = true := by
  obtain ⟨⟨b, o, b'⟩, e, hp'⟩ := Res.okAnd_ex h
  unfold exCreate at e
  obtain ⟨⟨r, b1⟩, e1, e⟩ := Res.bind_eq_ok.mp e
  obtain ⟨⟨o', b2⟩, e2, e⟩ := Res.bind_eq_ok.mp e
  cases e
  refine ⟨b, o, b', ?_, e2, hp'⟩
  unfold fromNew at e1
  obtain ⟨b0, e0, e1⟩ := Res.bind_eq_ok.mp e1
  exact ⟨256, b0, pre, r, e0, e1, hp⟩

/-- C33, C37, C41: the table is created after a string and a table were written, in both profiles. -/
example (m : Mode) : ∃ b o b₁, Idle m b ∧ create m b exGen exArgs = .ok (o, b₁) ∧ o - b.usedSpace < 65536 ∧
    b₁.usedSpace < 2 ^ 31 ∧ 16 ≤ b.usedSpace := by
  obtain ⟨b, o, b', h1, h2, h3⟩ := exCreate_ex (m := m) (gs := exGen) (pre := exPre) (args := exArgs)
    (p := fun r => decide (r.2.1 - r.1.usedSpace < 65536 ∧ r.2.2.usedSpace < 2 ^ 31 ∧ 16 ≤ r.1.usedSpace))
    ⟨[.createString "hi", .startTable, .endTable 8], [], rfl, Or.inr ⟨[.createString "hi", .startTable], 8, rfl⟩, nofun⟩ (by cases m <;> decide)
  exact ⟨b, o, b', h1, h2, by simpa using h3⟩

/-- C34: defaults, when the name is not required. -/
example (m : Mode) : ∃ gs args b o b₁, (∀ gm, compileTable gm ⟨[c!"T"], exFields.take 2, true, []⟩ = some gs) ∧
    defaultArgs gs = some args ∧ Idle m b ∧ create m b gs args = .ok (o, b₁) ∧ b₁.usedSpace < 2 ^ 31 := by
  obtain ⟨b, o, b', h1, h2, h3⟩ := exCreate_ex (m := m) (gs := exGen.take 2) (pre := [])
    (args := (Fin.ofNat _ 100, (⟨1, by decide⟩, ())))
    (p := fun r => decide (r.2.2.usedSpace < 2 ^ 31)) ⟨[], [], rfl, Or.inl rfl, nofun⟩ (by cases m <;> decide)
  exact ⟨exGen.take 2, _, b, o, b', by intro gm; cases gm <;> rfl, rfl, h1, h2, by simpa using h3⟩

/-- C35: a caller that has written a string and wants to create the table. -/
example (m : Mode) : ∃ b₀ b rets, Builder.newWithCapacity 256 = .ok b₀ ∧ Abides m b₀ .start [.createString "hi"] ∧
    run m b₀ [.createString "hi"] = .ok (rets, b) ∧
    (Caller.after .start [.createString "hi"] rets).building = .nothing ∧
    8 ∈ (Caller.after .start [.createString "hi"] rets).known ∧
    b.usedSpace + roomFor exGen + 65544 ≤ 2 ^ 31 - 2 ^ 17 ∧ roomFor exGen + 7 < 65536 := by
  have h : (fromNew m 256 [.createString "hi"]).okAnd (fun r => decide (r.1 = [some 8] ∧ r.2.usedSpace = 8)) = true := by
    cases m <;> decide
  obtain ⟨b0, r, b, h0, h1, hp⟩ := fromNew_ex h
  simp only [decide_eq_true_eq] at hp
  obtain ⟨rfl, hu⟩ := hp
  refine ⟨b0, b, _, h0, ?_, h1, rfl, by decide, by rw [hu]; decide, by decide⟩
  refine ⟨rfl, ⟨?_, trivial⟩, fun _ _ _ => trivial⟩
  cases h0
  decide

/-- C36: a table that stores nothing lacks every slot. -/
example (m : Mode) : ∃ t : Table, t.Lacks m 4 ∧ t.Lacks m 8 := by
  refine ⟨⟨[4, 0, 4, 0, 4, 0, 0, 0], 4⟩, ⟨⟨[4, 0, 4, 0, 4, 0, 0, 0], 0⟩, ?_, Or.inl ?_⟩,
    ⟨⟨[4, 0, 4, 0, 4, 0, 0, 0], 0⟩, ?_, Or.inl ?_⟩⟩ <;> cases m <;> decide

/-- C37: the first four fields as the old schema, all as the new one. -/
example (gm : Mode) : compileTable gm ⟨[c!"T"], exFields.take 4, false, []⟩ = some (exGen.take 4) ∧
    compileTable gm ⟨[c!"T"], exFields.take 4 ++ exFields.drop 4, false, []⟩ = some exGen := by
  constructor <;> cases gm <;> rfl

/-- C39, C40: the colours. -/
example : ∃ xs, enumValues (enumBaseSTy .byte) exColor = some xs ∧ xs.map (fun x => x.int) = [0, 4, 2] :=
  ⟨[Fin.ofNat _ 0, Fin.ofNat _ 4, Fin.ofNat _ 2], by decide, by decide⟩

/-- C41: a table whose tag is 9. -/
example (m : Mode) : ∃ tbl : Table, tbl.Holds m 4 .u8 (Fin.ofNat _ 9) := by
  refine ⟨⟨[6, 0, 5, 0, 4, 0, 0, 0, 8, 0, 0, 0, 9, 0, 0, 0], 8⟩, ⟨[6, 0, 5, 0, 4, 0, 0, 0, 8, 0, 0, 0, 9, 0, 0, 0], 0⟩,
    4, 12, ?_, ?_, by decide, ?_, ?_⟩ <;> cases m <;> decide

end Butte
