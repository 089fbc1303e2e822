import Verif.Gen.FormatRead
/-
From FlatBuffers' understanding of a message to the generated code's.
-/
namespace Butte.Format
open Ir (QIdent)
open Gen

theorem VariantAt.toGen {D : Dialect} {buf : Bytes} {p : Nat} {vs : List Ir.EnumVariant} {base : Ir.EnumBase} {i : Nat}
    (h : VariantAt D buf p vs base i) (hD : D.numbers vs = generated.numbers vs) : VariantAt generated buf p vs base i := by
  obtain ⟨n, h1, h2⟩ := h
  exact ⟨n, by rw [← hD]; exact h1, h2⟩

theorem SameNumbers.limit {D : Dialect} {ty : Ir.Ty} (p : Prop) (h : SameNumbers D ty) : SameNumbers (D.limit p) ty := by
  induction h with
  | builtin b => exact .builtin b
  | string => exact .string
  | table q => exact .table q
  | struct id fs => exact .struct id fs
  | array _ ih => exact .array ih
  | enum h => exact .enum h
  | union _ ih => exact .union ih

theorem FieldAt.relimit {D : Dialect} {p p' : Prop} {buf : Bytes} {loc tsize : Nat} {sel : Option Nat} {f : Ir.Field}
    {e o : Nat} {x : Option Val} (h : FieldAt (D.limit p) buf loc tsize sel f e o x) :
    FieldAt (D.limit p') buf loc tsize sel f e o x := by
  cases h with
  | absent h => exact .absent (D := D.limit p') h
  | scalar h1 h2 h3 => exact .scalar h1 h2 h3
  | enum h1 h2 h3 => exact .enum h1 h2 h3
  | ref h1 h2 h3 => exact .ref h1 h2 h3
  | union h1 h2 h3 h4 h5 h6 => exact .union h1 h2 h3 h4 h5 h6
  | unionNone h1 h2 h3 => exact .unionNone h1 h2 h3

/-- With less asked of it. -/
theorem Holds.relimit {D : Dialect} {p p' : Prop} (hp : p' → p) {S : Tables} {buf : Bytes} {ty : Ir.Ty} {v : Val} {loc : Nat}
    (h : Holds (D.limit p) S buf ty v loc) : Holds (D.limit p') S buf ty v loc := by
  induction h with
  | string h1 h2 h3 => exact .string h1 h2 h3
  | scalars h1 h2 h3 h4 => exact .scalars h1 h2 h3 h4
  | enums h1 h2 h3 h4 => exact .enums h1 h2 h3 h4
  | offsets h1 h2 h3 h4 h5 _ ih => exact .offsets h1 h2 h3 h4 h5 ih
  | table h1 h2 h3 h4 h5 h6 h7 h8 _ h9 ih =>
    exact .table h1 h2 h3 h4 h5 h6 (fun i f e o x a b c d => (h7 i f e o x a b c d).relimit) h8 ih (fun h => h9 (hp h))

theorem Message.relimit {D : Dialect} {p p' : Prop} (hp : p' → p) {S : Tables} {sp : Bool} {ident : Option Bytes} {q : QIdent}
    {v : Val} {buf : Bytes} (h : Message (D.limit p) S sp ident q v buf) : Message (D.limit p') S sp ident q v buf := by
  obtain ⟨h1, h2, o, h3, h4⟩ := h
  exact ⟨h1, h2, o, h3, h4.relimit hp⟩

theorem absent_below (D : Dialect) (hD : D = flatbuffers ∨ D = generated) (f : Ir.Field) (ty : Ir.Ty) (v : Val) :
    Gen.below f.ty (D.absent f) ≠ some (ty, v) := by
  obtain ⟨id, t, d, r, doc⟩ := f
  rcases hD with rfl | rfl <;> cases t <;> simp [Gen.below, flatbuffers, generated]

theorem Holds.not_variant {D : Dialect} {S : Tables} {buf : Bytes} {ty : Ir.Ty} {k loc : Nat} :
    ¬ Holds D S buf ty (.variant k) loc := by
  intro h; cases h

/-- The last step of `selector`. -/
def pick (x : Option (Option Val)) : Option Nat :=
  match x with
  | some (some (.variant k)) => some k
  | _ => none

theorem selector_cases (fields : List Ir.Field) (f : Ir.Field) :
    (∀ xs, selector fields xs f = none) ∨ ∃ (i : Nat) (g : Ir.Field), fields[i]? = some g ∧
      Heck.snake g.ident = Heck.snake f.ident ++ c!"_type" ∧
      ∀ xs, selector fields xs f = pick xs[i]? := by
  unfold selector
  cases h : fields.findIdx? (fun g => Heck.snake g.ident == Heck.snake f.ident ++ c!"_type") with
  | none => exact .inl fun _ => rfl
  | some i =>
    obtain ⟨hi, h1, -⟩ := List.findIdx?_eq_some_iff_getElem.mp h
    refine .inr ⟨i, fields[i], List.getElem?_eq_getElem hi, by simpa using h1, fun _ => rfl⟩

/-- What becomes of one field. -/
def FieldView (p : Prop) (S : Tables) (buf : Bytes) (loc tsize : Nat) (sel : Option Nat) (f : Ir.Field) (e o : Nat) (x y : Option Val) : Prop :=
  (y = x ∨ (e = 0 ∧ x = flatbuffers.absent f ∧ y = generated.absent f) ∨ ∃ ty v, Gen.below f.ty x = some (ty, v)) ∧
  ViewField f x y ∧
  (∀ ty ty' v w, Gen.below f.ty x = some (ty, v) → Gen.below f.ty y = some (ty', w) → View S ty v w) ∧
  (∀ ty w, Gen.below f.ty y = some (ty, w) → Holds (generated.limit p) S buf ty w (loc + e + o)) ∧
  (∀ sel', (∀ j, sel = some (j + 1) → sel' = some (j + 1)) → (sel = none ∨ sel = some 0 → sel' = none ∨ sel' = some 0) →
    FieldAt (generated.limit p) buf loc tsize sel' f e o y) ∧
  (match f.ty with | .builtin _ | .enum .. => True | _ => x ≠ none → y ≠ none)

theorem absent_or (f : Ir.Field) : generated.absent f = flatbuffers.absent f ∨ generated.absent f = none := by
  obtain ⟨id, t, d, r, doc⟩ := f
  cases t with
  | builtin b =>
    cases d with
    | none => exact .inr rfl
    | some d => cases d <;> exact .inl rfl
  | enum i vs b =>
    cases d with
    | none => exact .inr rfl
    | some d => cases d <;> exact .inl rfl
  | _ => exact .inl rfl

theorem below_variant {ty ty' : Ir.Ty} {k : Nat} {v : Val} (h : Gen.below ty (some (.variant k)) = some (ty', v)) :
    v = .variant k := by
  cases ty <;> simp only [Gen.below, Option.some.injEq, Prod.mk.injEq, reduceCtorEq] at h <;> exact h.2.symm

theorem selector_no_variant {x : Option (Option Val)} (h : ∀ k, x ≠ some (some (.variant k))) :
    pick x = none := by
  unfold pick
  split
  · exact absurd rfl (h _)
  · rfl

theorem absent_view (f : Ir.Field) : ViewField f (flatbuffers.absent f) (generated.absent f) := by
  have hb := absent_below flatbuffers (.inl rfl) f
  obtain ⟨id, t, d, r, doc⟩ := f
  cases t with
  | builtin b =>
    cases d with
    | none => exact .unset rfl rfl
    | some d => cases d <;> exact .same _ hb
  | enum i vs b =>
    cases d with
    | none =>
      cases h : flatbuffers.absent ⟨id, .enum i vs b, none, r, doc⟩ with
      | none => exact .same none (by rintro _ _ ⟨⟩)
      | some x => exact .unset rfl h
    | some d => cases d <;> exact .same _ hb
  | _ => exact .same none (by rintro _ _ ⟨⟩)

theorem Holds.view {p : Prop} {S : Tables} {buf : Bytes} (hn : Numbered flatbuffers S) (hr : RequiredOffsets S)
    (ht : TagsBeginWithNone S) {ty : Ir.Ty} {v : Val} {loc : Nat} (h : Holds (flatbuffers.limit p) S buf ty v loc) :
    SameNumbers flatbuffers ty → ∃ w, View S ty v w ∧ Holds (generated.limit p) S buf ty w loc := by
  induction h with
  | string ha hl hb => exact fun _ => ⟨_, .str _, .string ha hl hb⟩
  | scalars ha hw hl hx => exact fun _ => ⟨_, .scalars _ _, .scalars ha hw hl hx⟩
  | enums ha hw hl hx =>
    intro hs
    cases hs with
    | array hs =>
      cases hs with
      | enum hs => exact ⟨_, .enums _ _ _ _, .enums ha hw hl (fun i hi => (hx i hi).toGen hs)⟩
  | @offsets t xs os loc hR ha hl hlen ho hx ih =>
    intro hs
    cases hs with
    | array hs =>
      have key : ∀ i : Fin xs.length, ∃ w, View S t xs[i] w ∧ Holds (generated.limit p) S buf t w (loc + 4 + 4 * i + os[i.val]'(by omega)) :=
        fun i => ih i _ _ (List.getElem?_eq_getElem _) (List.getElem?_eq_getElem _) hs
      choose w hw using key
      have hget : ∀ (i : Nat) x, (List.ofFn w)[i]? = some x → ∃ hi : i < xs.length, x = w ⟨i, hi⟩ := by
        intro i x hx
        rw [List.getElem?_ofFn] at hx
        split at hx
        · cases hx; exact ⟨_, rfl⟩
        · cases hx
      refine ⟨.vec (List.ofFn w), .vec (by simp) ?_, .offsets hR ha (by simpa using hl) (by simpa using hlen) ho ?_⟩
      · intro i x y hx hy
        obtain ⟨hi, rfl⟩ := hget i y hy
        rw [List.getElem?_eq_getElem hi] at hx
        cases hx
        exact (hw ⟨i, hi⟩).1
      · intro i o y ho hy
        obtain ⟨hi, rfl⟩ := hget i y hy
        rw [List.getElem?_eq_getElem (by omega)] at ho
        cases ho
        exact (hw ⟨i, hi⟩).2
  | @table q t xs es os loc vt vsize tsize hq hh hlen hes hos he hf hreq hx hex ih =>
    intro _
    have key : ∀ i : Fin t.fields.length, ∃ y, FieldView p S buf loc tsize (selector t.fields xs t.fields[i]) t.fields[i] (es[i.val]'(by omega)) (os[i.val]'(by omega))
        (xs[i.val]'(by omega)) y := by
      intro i
      have g1 : t.fields[i.val]? = some t.fields[i] := List.getElem?_eq_getElem _
      have g2 : es[i.val]? = some (es[i.val]'(by omega)) := List.getElem?_eq_getElem _
      have g3 : os[i.val]? = some (os[i.val]'(by omega)) := List.getElem?_eq_getElem _
      have g4 : xs[i.val]? = some (xs[i.val]'(by omega)) := List.getElem?_eq_getElem _
      have hF := hf i _ _ _ _ g1 g2 g3 g4
      have hI := fun ty v hb => ih i _ _ _ _ ty v g1 g2 g3 g4 hb
      have hN : SameNumbers flatbuffers t.fields[i].ty := hn q t hq _ (List.getElem_mem _)
      generalize selector t.fields xs t.fields[i] = sel at *
      generalize t.fields[i] = f at *
      generalize es[i.val]'(by omega) = e at *
      generalize os[i.val]'(by omega) = o at *
      generalize xs[i.val]'(by omega) = x at *
      have same : (∀ ty v, Gen.below f.ty x ≠ some (ty, v)) →
          (∀ sel', (∀ j, sel = some (j + 1) → sel' = some (j + 1)) → (sel = none ∨ sel = some 0 → sel' = none ∨ sel' = some 0) →
            FieldAt (generated.limit p) buf loc tsize sel' f e o x) → ∃ y, FieldView p S buf loc tsize sel f e o x y := fun hb hF =>
        ⟨x, .inl rfl, .same x hb, fun ty _ v _ h => absurd h (hb ty v), fun ty v h => absurd h (hb ty v), hF,
          by split <;> first | trivial | exact fun h => h⟩
      cases hF with
      | absent he =>
        refine ⟨generated.absent f, .inr (.inl ⟨he, rfl, rfl⟩), absent_view f, ?_, ?_, fun _ _ _ => .absent he, ?_⟩
        · intro ty _ v _ h; exact absurd h (absent_below _ (.inl rfl) f ty v)
        · intro ty v h; exact absurd h (absent_below _ (.inr rfl) f ty v)
        · obtain ⟨id, ty, d, r, doc⟩ := f
          cases ty <;> first | trivial | exact fun h => absurd rfl h
      | scalar ht hi hn => exact same (by rw [ht]; rintro _ _ ⟨⟩) fun _ _ _ => .scalar ht hi hn
      | enum ht hi hv =>
        refine same (by rw [ht]; rintro _ _ ⟨⟩) fun _ _ _ => .enum ht hi (hv.toGen ?_)
        rw [ht] at hN
        cases hN with
        | enum h => exact h
      | unionNone ht hs hi => exact same (by rw [ht]; rintro _ _ ⟨⟩) fun _ _ h => .unionNone ht (h hs) hi
      | @ref v hR hi ho =>
        obtain ⟨w, h1, h2⟩ := hI _ _ (isRef_below hR v) hN
        refine ⟨some w, .inr (.inr ⟨_, _, isRef_below hR v⟩), .ref hR, ?_, ?_, fun _ _ _ => .ref hR hi ho, ?_⟩
        · intro ty ty' v' w' hb hb'
          rw [isRef_below hR] at hb hb'
          cases hb; cases hb'; exact h1
        · intro ty w' hb
          rw [isRef_below hR] at hb
          cases hb; exact h2
        · split <;> first | trivial | exact fun _ => nofun
      | @union id en uvs u j v hty hs hu hR hi ho =>
        have hb : ∀ z, Gen.below f.ty (some (.union j z)) = some (u.ty, z) := by
          intro z; rw [hty]; simp only [Gen.below, hu, Option.map_some]
        obtain ⟨w, h1, h2⟩ := hI _ _ (hb v) (hN.under (hb v))
        refine ⟨some (.union j w), .inr (.inr ⟨_, _, hb v⟩), .union hty, ?_, ?_, fun _ h _ => .union hty (h _ hs) hu hR hi ho, ?_⟩
        · intro ty ty' v' w' hb1 hb'
          rw [hb] at hb1 hb'
          cases hb1; cases hb'; exact h1
        · intro ty w' hb1
          rw [hb] at hb1
          cases hb1; exact h2
        · split <;> first | trivial | exact fun _ => nofun
    choose ys hys using key
    have hget : ∀ (i : Nat) x, (List.ofFn ys)[i]? = some x → ∃ hi : i < t.fields.length, x = ys ⟨i, hi⟩ := by
      intro i x hx
      rw [List.getElem?_ofFn] at hx
      split at hx
      · cases hx; exact ⟨_, rfl⟩
      · cases hx
    have hfv : ∀ (i : Nat) f e o x y, t.fields[i]? = some f → es[i]? = some e → os[i]? = some o → xs[i]? = some x →
        (List.ofFn ys)[i]? = some y → FieldView p S buf loc tsize (selector t.fields xs f) f e o x y := by
      intro i f e o x y h1 h2 h3 h4 h5
      obtain ⟨hi, rfl⟩ := hget i y h5
      rw [List.getElem?_eq_getElem hi] at h1
      rw [List.getElem?_eq_getElem (by omega)] at h2 h3 h4
      cases h1; cases h2; cases h3; cases h4
      exact hys ⟨i, hi⟩
    -- the selector
    have hsel : ∀ f ∈ t.fields, (∀ j, selector t.fields xs f = some (j + 1) → selector t.fields (List.ofFn ys) f = some (j + 1)) ∧
        (selector t.fields xs f = none ∨ selector t.fields xs f = some 0 →
          selector t.fields (List.ofFn ys) f = none ∨ selector t.fields (List.ofFn ys) f = some 0) := by
      intro f hfm
      rcases selector_cases t.fields f with h0 | ⟨i, g, hg, hname, hsel⟩
      · rw [h0, h0]; exact ⟨nofun, id⟩
      · have hi : i < t.fields.length := (List.getElem?_eq_some_iff.mp hg).1
        have g2 : es[i]? = some (es[i]'(by omega)) := List.getElem?_eq_getElem _
        have g3 : os[i]? = some (os[i]'(by omega)) := List.getElem?_eq_getElem _
        have g4 : xs[i]? = some (xs[i]'(by omega)) := List.getElem?_eq_getElem _
        have g5 : (List.ofFn ys)[i]? = some (ys ⟨i, hi⟩) := by rw [List.getElem?_ofFn, dif_pos hi]
        have hI := fun ty v hb => hx i _ _ _ _ ty v hg g2 g3 g4 hb
        obtain ⟨hcase, hview, -, hbel, -⟩ := hfv i g _ _ _ _ hg g2 g3 g4 g5
        have htag := ht q t hq f hfm g (List.mem_of_getElem? hg) hname
        rw [hsel, hsel, g4, g5]
        generalize xs[i]'(by omega) = x at *
        generalize ys ⟨i, hi⟩ = y at *
        rcases hcase with rfl | ⟨-, rfl, rfl⟩ | ⟨ty, v, hb⟩
        · exact ⟨fun _ h => h, id⟩
        · rcases absent_or g with h | h <;> rw [h]
          · exact ⟨fun _ h => h, id⟩
          · refine ⟨?_, fun _ => .inl rfl⟩
            intro j hj
            rcases htag with h' | h' <;> rw [h'] at hj <;> simp [pick] at hj
        · have h1 : ∀ k, x ≠ some (.variant k) := by
            rintro k rfl
            obtain rfl := below_variant hb
            exact (hI ty _ hb).not_variant
          have h2 : ∀ k, y ≠ some (.variant k) := by
            rintro k rfl
            cases hview with
            | same => exact h1 k rfl
            | ref hR => exact (hbel _ _ (isRef_below hR _)).not_variant
          rw [selector_no_variant (fun k h => h1 k (Option.some.inj h)), selector_no_variant (fun k h => h2 k (Option.some.inj h))]
          exact ⟨nofun, fun _ => .inl rfl⟩
    refine ⟨.table (List.ofFn ys), .table hq hlen (by simp) ?_ ?_,
      .table hq hh (by simp) hes hos he ?_ ?_ ?_ hex⟩
    · intro i f x y h1 h4 h5
      have hi : i < t.fields.length := (List.getElem?_eq_some_iff.mp h1).1
      exact (hfv i f _ _ x y h1 (List.getElem?_eq_getElem (by omega)) (List.getElem?_eq_getElem (by omega)) h4 h5).2.1
    · intro i f x y ty ty' v w h1 h4 h5
      have hi : i < t.fields.length := (List.getElem?_eq_some_iff.mp h1).1
      exact (hfv i f _ _ x y h1 (List.getElem?_eq_getElem (by omega)) (List.getElem?_eq_getElem (by omega)) h4 h5).2.2.1 ty ty' v w
    · intro i f e o y h1 h2 h3 h5
      have hi : i < t.fields.length := (List.getElem?_eq_some_iff.mp h1).1
      have h4 : xs[i]? = some (xs[i]'(by omega)) := List.getElem?_eq_getElem _
      obtain ⟨hs1, hs2⟩ := hsel f (List.mem_of_getElem? h1)
      exact (hfv i f e o _ y h1 h2 h3 h4 h5).2.2.2.2.1 _ hs1 hs2
    · intro i f y h1 h5 hrq
      have hi : i < t.fields.length := (List.getElem?_eq_some_iff.mp h1).1
      have h4 : xs[i]? = some (xs[i]'(by omega)) := List.getElem?_eq_getElem _
      have hV := (hfv i f _ _ _ y h1 (List.getElem?_eq_getElem (by omega)) (List.getElem?_eq_getElem (by omega)) h4 h5).2.2.2.2.2
      have hx0 := hreq i f _ h1 h4 hrq
      have hR := hr q t hq f (List.mem_of_getElem? h1) hrq
      split at hV
      · next h => rw [h] at hR; exact hR.elim
      · next h => rw [h] at hR; exact hR.elim
      · exact hV hx0
    · intro i f e o y ty v h1 h2 h3 h5
      have hi : i < t.fields.length := (List.getElem?_eq_some_iff.mp h1).1
      exact (hfv i f e o _ y h1 h2 h3 (List.getElem?_eq_getElem (by omega)) h5).2.2.2.1 ty v

end Butte.Format
