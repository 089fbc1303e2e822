import Verif.Gen.FormatView
import Verif.Gen.FormatWrite
import Verif.Gen.Widen
/-
Lemmas for property C91: a message of one version of a schema is a message of another.
-/
namespace Butte.Format
open Ir (QIdent)
open Gen

/-! ### Fields at the end -/

theorem Known.under {S : Tables} {ty ty' : Ir.Ty} {x : Option Val} {v : Val} (h : Gen.Known S ty)
    (e : Gen.below ty x = some (ty', v)) : Gen.Known S ty' := by
  unfold Gen.below at e
  split at e
  · cases e; exact h
  · cases e; exact h
  · cases e; exact h
  · simp only [Option.map_eq_some_iff] at e
    obtain ⟨u, h1, h2⟩ := e
    cases h2
    cases h with
    | union h => exact h u (List.mem_of_getElem? h1)
  · cases e

/-- The field that tells the members of a union apart. -/
theorem tag_field {gm : Mode} {t : Ir.Table} {gs : List GField} (hc : compileTable gm t = some gs) {i : Nat} {f : Ir.Field}
    (hf : t.fields[i]? = some f) {id en : QIdent} {uvs : List Ir.UnionVariant} (hty : f.ty = .union id en uvs) :
    ∃ (j : Nat) (g : Ir.Field), t.fields[j]? = some g ∧ Heck.snake g.ident = Heck.snake f.ident ++ c!"_type" := by
  have hsp := List.forall₂_iff_get.mp (compileFields_spec (compileTable_fields hc))
  obtain ⟨hi, rfl⟩ := List.getElem?_eq_some_iff.mp hf
  have hi' : i < gs.length := by rw [← hsp.1]; exact hi
  have hc₁ := hsp.2 i hi hi'
  have hk : ∃ vs, (gs.get ⟨i, hi'⟩).kind = .union vs := by
    have := hc₁.kind
    simp only [List.get_eq_getElem] at this
    rw [hty] at this
    obtain ⟨-, vs, -, this⟩ := kindOf_union_iff.mp this
    exact ⟨vs, this⟩
  obtain ⟨vs, hk⟩ := hk
  obtain ⟨j, _, _, _, j1, -⟩ := union_tag hc hk
  have hcj := hsp.2 j.val (hsp.1.symm ▸ j.isLt) j.isLt
  refine ⟨j.val, t.fields.get ⟨j.val, hsp.1.symm ▸ j.isLt⟩, by simp, ?_⟩
  have e1 := hcj.name
  have e2 := hc₁.name
  have j1' : (gs.get ⟨j.val, j.isLt⟩).name = (gs.get ⟨i, hi'⟩).name ++ c!"_type" := j1
  rw [e1, e2] at j1'
  exact j1'

theorem absent_shape (f : Ir.Field) : FieldShape f.ty (generated.absent f) (generated.absent f) := by
  obtain ⟨id, t, d, r, doc⟩ := f
  cases t with
  | builtin b =>
    cases d with
    | none => exact .none _
    | some d =>
      cases d with
      | ident i => exact .none _
      | scalar s =>
        show FieldShape _ (Option.map _ (Gen.literal (Gen.builtinSTy b) s)) (Option.map _ (Gen.literal (Gen.builtinSTy b) s))
        cases Gen.literal (Gen.builtinSTy b) s with
        | none => exact .none _
        | some x => exact .bits _ _
  | enum i vs b =>
    cases d with
    | none => exact .none _
    | some d =>
      cases d with
      | scalar s => exact .none _
      | ident j =>
        show FieldShape _ (Option.map _ (vs.findIdx? (fun v => v.ident == j))) (Option.map _ (vs.findIdx? (fun v => v.ident == j)))
        cases vs.findIdx? (fun v => v.ident == j) with
        | none => exact .none _
        | some x => exact .variant _ _
  | _ => exact .none _

/-- What becomes of one field: `x` in the eyes of the writer (nothing if it does not know the field), `y` in those of the
reader. -/
structure FieldEv (gm : Mode) (S S' : Tables) (buf : Bytes) (loc tsize : Nat) (sel : Option Nat) (f : Ir.Field) (e o : Nat)
    (x : Option (Option Val)) (y : Option Val) : Prop where
  shape : ∀ x', x = some x' → FieldShape f.ty x' y
  evolved : ∀ x', x = some x' → ∀ ty ty' v w, Gen.below f.ty x' = some (ty, v) → Gen.below f.ty y = some (ty', w) →
    Evolved gm S S' ty v w
  extra : x = none → y = generated.absent f
  holds : ∀ ty w, Gen.below f.ty y = some (ty, w) → Holds generated S' buf ty w (loc + e + o)
  field : FieldAt generated buf loc tsize sel f e o y
  required : f.required = true → y ≠ none
  tag : ∀ x', x = some x' → pick (some x') = pick (some y)

/-- The bytes that hold a value of one version of a schema hold a value of the other. -/
theorem Holds.evolve {gm : Mode} {p : Prop} {S S' : Tables} {buf : Bytes} (hS : Compatible gm S S')
    (hU : ∀ q t, S q = some t → ∃ gs, compileTable gm t = some gs)
    (hp : p ∨ ∀ q t t', S q = some t → S' q = some t' → t'.fields.length ≤ t.fields.length)
    {ty : Ir.Ty} {v : Val} {loc : Nat} (h : Holds (generated.limit p) S buf ty v loc) :
    Gen.Known S' ty → ∃ w, Evolved gm S S' ty v w ∧ Holds generated S' buf ty w loc := by
  induction h with
  | string ha hl hb => exact fun _ => ⟨_, .str _ _, .string ha hl hb⟩
  | @scalars t xs loc ha hw hl hx =>
    exact fun _ => ⟨_, .vec rfl (fun i hi => by simp only [List.getElem_map]; exact .bits _ _), .scalars ha hw hl hx⟩
  | enums ha hw hl hx =>
    exact fun _ => ⟨_, .vec rfl (fun i hi => by simp only [List.getElem_map]; exact .variant _ _), .enums ha hw hl hx⟩
  | @offsets t xs os loc hR ha hl hlen ho hx ih =>
    intro hk
    cases hk with
    | array hk =>
      have key : ∀ i : Fin xs.length, ∃ w, Evolved gm S S' t xs[i] w ∧ Holds generated S' buf t w (loc + 4 + 4 * i + os[i.val]'(by omega)) :=
        fun i => ih i _ _ (List.getElem?_eq_getElem _) (List.getElem?_eq_getElem _) hk
      choose w hw using key
      refine ⟨.vec (List.ofFn w), .vec (by simp) ?_, .offsets hR ha (by simpa using hl) (by simpa using hlen) ho ?_⟩
      · intro i hi
        simp only [List.getElem_ofFn]
        exact (hw ⟨i, hi⟩).1
      · intro i o y ho hy
        rw [List.getElem?_ofFn] at hy
        split at hy
        · next hi =>
          cases hy
          rw [List.getElem?_eq_getElem (by omega)] at ho
          cases ho
          exact (hw ⟨i, hi⟩).2
        · cases hy
  | @table q t xs es os loc vt vsize tsize hq hh hlen hes hos he hf hreq hx hex ih =>
    intro hk
    cases hk with
    | @table _ t' hq' =>
    obtain ⟨⟨gs', hc'⟩, -, hkn⟩ := hS.reads q t' hq'
    obtain ⟨gs, hc⟩ := hU q t hq
    -- what both know is the same
    have both : ∀ i f, t.fields[i]? = some f → i < t'.fields.length → t'.fields[i]? = some f := by
      intro i f h1 h2
      rcases hS.fields q t t' hq hq' with ⟨ext, e, -⟩ | ⟨ext, e⟩
      · rw [e, List.getElem?_append_left (List.getElem?_eq_some_iff.mp h1).1]; exact h1
      · rw [e, List.getElem?_append_left h2] at h1; exact h1
    have both' : ∀ i f, t'.fields[i]? = some f → i < t.fields.length → t.fields[i]? = some f := by
      intro i f h1 h2
      have := both i _ (List.getElem?_eq_getElem h2) (List.getElem?_eq_some_iff.mp h1).1
      rw [h1] at this
      cases this
      exact List.getElem?_eq_getElem h2
    -- what only the reader knows
    have only : ∀ i f, t'.fields[i]? = some f → t.fields.length ≤ i → f.required = false ∧ EntryAt buf vt vsize i 0 := by
      intro i f h1 h2
      have hi := (List.getElem?_eq_some_iff.mp h1).1
      rcases hS.fields q t t' hq hq' with ⟨ext, e, hr⟩ | ⟨ext, e⟩
      · refine ⟨?_, ?_⟩
        · rw [e, List.getElem?_append_right h2] at h1
          exact hr f (List.mem_of_getElem? h1)
        · rcases hp with hp | hp
          · exact hex hp i h2
          · have := hp q t t' hq hq'
            omega
      · have : t.fields.length = t'.fields.length + ext.length := by rw [e]; simp
        omega
    have key : ∀ i : Fin t'.fields.length, ∃ y, FieldEv gm S S' buf loc tsize (selector t.fields xs t'.fields[i]) t'.fields[i]
        (es[i.val]?.getD 0) (os[i.val]?.getD 0) xs[i.val]? y := by
      intro i
      have g0 : t'.fields[i.val]? = some t'.fields[i] := List.getElem?_eq_getElem _
      have hK := hkn _ (List.mem_of_getElem? g0)
      by_cases hi : i.val < t.fields.length
      · have g1 := both' _ _ g0 hi
        have g2 : es[i.val]? = some (es[i.val]'(by omega)) := List.getElem?_eq_getElem _
        have g3 : os[i.val]? = some (os[i.val]'(by omega)) := List.getElem?_eq_getElem _
        have g4 : xs[i.val]? = some (xs[i.val]'(by omega)) := List.getElem?_eq_getElem _
        have hF := hf i _ _ _ _ g1 g2 g3 g4
        have hI := fun ty v hb => ih i _ _ _ _ ty v g1 g2 g3 g4 hb
        have hV := fun ty v hb => (hx i _ _ _ _ ty v g1 g2 g3 g4 hb)
        have hR := hreq i _ _ g1 g4
        rw [g2, g3, g4]
        simp only [Option.getD_some]
        clear g0 g1 g2 g3 g4
        generalize selector t.fields xs t'.fields[i] = sel at *
        generalize t'.fields[i] = f at *
        generalize es[i.val]'(by omega) = e at *
        generalize os[i.val]'(by omega) = o at *
        generalize xs[i.val]'(by omega) = x at *
        have same : (∀ ty v, Gen.below f.ty x ≠ some (ty, v)) → FieldShape f.ty x x → FieldAt generated buf loc tsize sel f e o x →
            ∃ y, FieldEv gm S S' buf loc tsize sel f e o (some x) y := fun hb hs hF =>
          ⟨x, by rintro _ ⟨⟩; exact hs, by rintro _ ⟨⟩ ty _ v _ h; exact absurd h (hb ty v), nofun,
            fun ty v h => absurd h (hb ty v), hF, hR, by rintro _ ⟨⟩; rfl⟩
        cases hF with
        | absent he => exact same (absent_below _ (.inr rfl) f) (absent_shape f) (.absent (D := generated) he)
        | scalar ht hi hn => exact same (by rw [ht]; rintro _ _ ⟨⟩) (.bits _ _) (.scalar ht hi hn)
        | enum ht hi hv => exact same (by rw [ht]; rintro _ _ ⟨⟩) (.variant _ _) (.enum ht hi hv)
        | unionNone ht hs hi => exact same (by rw [ht]; rintro _ _ ⟨⟩) (.none _) (.unionNone ht hs hi)
        | @ref v hT hi ho =>
          obtain ⟨w, h1, h2⟩ := hI _ _ (isRef_below hT v) hK
          refine ⟨some w, ?_, ?_, nofun, ?_, .ref hT hi ho, nofun, ?_⟩
          · rintro _ ⟨⟩; exact .ref (isRef_below hT v) (isRef_below hT w)
          · rintro _ ⟨⟩ ty ty' v' w' hb hb'
            rw [isRef_below hT] at hb hb'
            cases hb; cases hb'; exact h1
          · intro ty w' hb
            rw [isRef_below hT] at hb
            cases hb; exact h2
          · rintro _ ⟨⟩
            rw [selector_no_variant (x := some (some w)), selector_no_variant]
            · rintro k ⟨⟩; exact (hV _ _ (isRef_below hT _)).not_variant
            · rintro k ⟨⟩; exact h2.not_variant
        | @union id en uvs u j v hty hs hu hT hi ho =>
          have hb : ∀ z, Gen.below f.ty (some (.union j z)) = some (u.ty, z) := by
            intro z; rw [hty]; simp only [Gen.below, hu, Option.map_some]
          obtain ⟨w, h1, h2⟩ := hI _ _ (hb v) (Known.under hK (hb v))
          refine ⟨some (.union j w), ?_, ?_, nofun, ?_, .union hty hs hu hT hi ho, nofun, by rintro _ ⟨⟩; rfl⟩
          · rintro _ ⟨⟩; rw [hty]; exact .union hu v w
          · rintro _ ⟨⟩ ty ty' v' w' hb1 hb'
            rw [hb] at hb1 hb'
            cases hb1; cases hb'; exact h1
          · intro ty w' hb1
            rw [hb] at hb1
            cases hb1; exact h2
      · obtain ⟨hr, -⟩ := only i _ g0 (by omega)
        have e4 : xs[i.val]? = none := List.getElem?_eq_none (by omega)
        have e2 : es[i.val]? = none := List.getElem?_eq_none (by omega)
        have e3 : os[i.val]? = none := List.getElem?_eq_none (by omega)
        rw [e2, e3, e4]
        exact ⟨generated.absent t'.fields[i], nofun, nofun, fun _ => rfl, fun ty w h => absurd h (absent_below _ (.inr rfl) _ ty w),
          .absent (D := generated) rfl, fun h => absurd h (by rw [hr]; nofun), nofun⟩
    choose ys hys using key
    have hget : ∀ (i : Nat) y, (List.ofFn ys)[i]? = some y → ∃ hi : i < t'.fields.length, y = ys ⟨i, hi⟩ := by
      intro i x hx
      rw [List.getElem?_ofFn] at hx
      split at hx
      · cases hx; exact ⟨_, rfl⟩
      · cases hx
    have hlt : ∀ {i : Nat} {f : Ir.Field}, t'.fields[i]? = some f → i < t'.fields.length := fun h =>
      (List.getElem?_eq_some_iff.mp h).1
    have hfv : ∀ (i : Nat) f y, t'.fields[i]? = some f → (List.ofFn ys)[i]? = some y →
        FieldEv gm S S' buf loc tsize (selector t.fields xs f) f (es[i]?.getD 0) (os[i]?.getD 0) xs[i]? y := by
      intro i f y h1 h5
      obtain ⟨hi, rfl⟩ := hget i y h5
      rw [List.getElem?_eq_getElem hi] at h1
      cases h1
      exact hys ⟨i, hi⟩
    have hys? : ∀ {i : Nat} {f : Ir.Field}, t'.fields[i]? = some f → ∃ y, (List.ofFn ys)[i]? = some y := fun h =>
      ⟨ys ⟨_, hlt h⟩, by rw [List.getElem?_ofFn, dif_pos (hlt h)]⟩
    have gens : ∀ {α : Type} (d : α) (l : List α) {i : Nat} {x : α},
        (List.ofFn fun i : Fin t'.fields.length => l[i.val]?.getD d)[i]? = some x → x = l[i]?.getD d := by
      intro α d l i x h
      rw [List.getElem?_ofFn] at h
      split at h
      · cases h; rfl
      · cases h
    refine ⟨.table (List.ofFn ys), .table hq hq' hc' hlen (by simp) ?_ ?_ ?_,
      .table (es := List.ofFn fun i : Fin t'.fields.length => es[i.val]?.getD 0)
        (os := List.ofFn fun i : Fin t'.fields.length => os[i.val]?.getD 0) hq' hh (by simp) (by simp) (by simp) ?_ ?_ ?_ ?_ nofun⟩
    · intro i f x y h1 h4 h5
      obtain ⟨hi, -⟩ := hget i y h5
      exact (hfv i f y (both i f h1 hi) h5).shape x h4
    · intro i f x y ty ty' v w h1 h4 h5
      obtain ⟨hi, -⟩ := hget i y h5
      exact (hfv i f y (both i f h1 hi) h5).evolved x h4 ty ty' v w
    · intro i g y hi hg hy
      obtain ⟨hi', -⟩ := hget i y hy
      have hsp := List.forall₂_iff_get.mp (compileFields_spec (compileTable_fields hc'))
      obtain ⟨hig, rfl⟩ := List.getElem?_eq_some_iff.mp hg
      have hc₁ := hsp.2 i hi' hig
      have := (hfv i _ y (List.getElem?_eq_getElem hi') hy).extra (List.getElem?_eq_none hi)
      rw [this]
      exact absent_eq hc₁.kind
    · intro i hi
      simp only [List.length_ofFn] at hi
      simp only [List.getElem_ofFn]
      by_cases h : i < es.length
      · rw [List.getElem?_eq_getElem h]
        exact he i h
      · rw [List.getElem?_eq_none (by omega)]
        exact (only i _ (List.getElem?_eq_getElem hi) (by omega)).2
    · intro i f e o y h1 h2 h3 h5
      have e2 := gens 0 es h2
      have e3 := gens 0 os h3
      subst e2 e3
      by_cases hi : i < t.fields.length
      · -- the tag is a field that both know
        refine (hfv i f y h1 h5).field.sel ?_
        intro id en uvs hty
        have h1' := both' i f h1 hi
        obtain ⟨j, g, hg, hgn⟩ := tag_field hc h1' hty
        obtain ⟨j', g', hg', hgn'⟩ := tag_field hc' h1 hty
        have both2 : ∃ (j : Nat) (g : Ir.Field), t.fields[j]? = some g ∧ t'.fields[j]? = some g ∧ Heck.snake g.ident = Heck.snake f.ident ++ c!"_type" := by
          rcases Nat.lt_or_ge j t'.fields.length with h | h
          · exact ⟨j, g, hg, both j g hg h, hgn⟩
          · have : j' < t.fields.length := by
              have := (List.getElem?_eq_some_iff.mp hg).1
              have := hlt hg'
              omega
            exact ⟨j', g', both' j' g' hg' this, hg', hgn'⟩
        obtain ⟨j, g, hg, hg', hgn⟩ := both2
        rw [selector_eq hc hg hgn, selector_eq hc' hg' hgn]
        obtain ⟨y', hy'⟩ := hys? hg'
        have hj := (List.getElem?_eq_some_iff.mp hg).1
        have hx' : xs[j]? = some (xs[j]'(by omega)) := List.getElem?_eq_getElem _
        have := (hfv j g y' hg' hy').tag _ hx'
        rw [hx', hy']
        exact this.symm
      · rw [(hfv i f y h1 h5).extra (List.getElem?_eq_none (by omega)), List.getElem?_eq_none (l := es) (by omega)]
        exact .absent (D := generated) rfl
    · intro i f y h1 h5
      exact (hfv i f y h1 h5).required
    · intro i f e o y ty v h1 h2 h3 h5
      have e2 := gens 0 es h2
      have e3 := gens 0 os h3
      subst e2 e3
      exact (hfv i f y h1 h5).holds ty v

/-! ### More variants -/

theorem numbers_append {vs ext : List Ir.EnumVariant} {i : Nat} {n : Int} (h : (generated.numbers vs)[i]? = some n) :
    (generated.numbers (vs ++ ext))[i]? = some n := by
  have hi : i < vs.length := by
    have := (List.getElem?_eq_some_iff.mp h).1
    simpa [generated] using this
  simp only [generated, List.getElem?_mapIdx] at h ⊢
  rw [List.getElem?_append_left hi]
  exact h

theorem VariantAt.widen {p : Prop} {buf : Bytes} {loc : Nat} {vs ext : List Ir.EnumVariant} {base : Ir.EnumBase} {i : Nat}
    (h : VariantAt (generated.limit p) buf loc vs base i) : VariantAt (generated.limit p) buf loc (vs ++ ext) base i := by
  obtain ⟨n, h1, h2⟩ := h
  exact ⟨n, numbers_append h1, h2⟩

theorem IsRef.widen {ty ty' : Ir.Ty} (h : IsRef ty) (hw : Widens ty ty') : IsRef ty' := by
  cases hw with
  | refl => exact h
  | enum => cases h
  | union => cases h
  | array => exact .array _

theorem absent_widen {f f' : Ir.Field} {k : Kind} (hk : kindOf f.ty f.default = some k) (hw : WidensField f f') :
    generated.absent f' = generated.absent f := by
  obtain ⟨id, ty, d, r, doc⟩ := f
  obtain ⟨id', ty', d', r', doc'⟩ := f'
  obtain ⟨-, -, hd, hw⟩ := hw
  simp only at hd hw hk
  subst hd
  cases hw with
  | refl => rfl
  | enum _ _ vs ext b =>
    cases d' with
    | none => rfl
    | some d =>
      cases d with
      | scalar s => rfl
      | ident j =>
        obtain ⟨xs, d', rfl, h1, h2, h3⟩ := Gen.kindOf_enum hk
        simp only [Option.bind_some, Gen.enumDefault] at h2
        simp only [generated]
        rw [List.findIdx?_append]
        cases h : vs.findIdx? (fun v => v.ident == j) with
        | some i => rfl
        | none =>
          rw [h] at h2
          exact absurd (h3.mp (by simpa using h2)) (by simp)
  | union => rfl
  | array => rfl

theorem selector_widen {fs fs' : List Ir.Field} (h : List.Forall₂ WidensField fs fs') (xs : List (Option Val))
    {f f' : Ir.Field} (hf : f'.ident = f.ident) : selector fs' xs f' = selector fs xs f := by
  unfold selector
  have : fs'.findIdx? (fun g => Heck.snake g.ident == Heck.snake f'.ident ++ c!"_type") =
      fs.findIdx? (fun g => Heck.snake g.ident == Heck.snake f.ident ++ c!"_type") := by
    rw [hf]
    induction h with
    | nil => rfl
    | cons h _ ih => rw [List.findIdx?_cons, List.findIdx?_cons, h.ident, ih]
  rw [this]

/-- The bytes that hold a value of a schema hold it for every schema with more variants at the end of enums and unions. -/
theorem Holds.widen {gm : Mode} {p : Prop} {S S' : Tables} {buf : Bytes} (hS : MoreVariants gm S S')
    (hU : ∀ q t, S q = some t → ∃ gs, compileTable gm t = some gs)
    {ty : Ir.Ty} {v : Val} {loc : Nat} (h : Holds (generated.limit p) S buf ty v loc) :
    ∀ ty', Widens ty ty' → Holds (generated.limit p) S' buf ty' v loc := by
  induction h with
  | string ha hl hb => rintro _ ⟨⟩; exact .string ha hl hb
  | scalars ha hw hl hx =>
    rintro _ ⟨⟩
    · exact .scalars ha hw hl hx
    · next h => cases h; exact .scalars ha hw hl hx
  | enums ha hw hl hx =>
    rintro _ ⟨⟩
    · exact .enums ha hw hl hx
    · next h =>
      cases h
      · exact .enums ha hw hl hx
      · exact .enums ha hw hl (fun i hi => (hx i hi).widen)
  | offsets hR ha hl hlen ho hx ih =>
    intro ty' hW₀
    obtain ⟨t', rfl, hW⟩ : ∃ t', ty' = .array t' ∧ Widens _ t' := by
      cases hW₀ with
      | refl => exact ⟨_, rfl, .refl _⟩
      | array h => exact ⟨_, rfl, h⟩
    exact .offsets (hR.widen hW) ha hl hlen ho (fun i o x h1 h2 => ih i o x h1 h2 _ hW)
  | @table q t xs es os loc vt vsize tsize hq hh hlen hes hos he hf hreq hx hex ih =>
    rintro _ ⟨⟩
    obtain ⟨t', gs', hq', hc', hW⟩ := hS q t hq
    obtain ⟨gs, hc⟩ := hU q t hq
    have hl := hW.length_eq
    have hW' := (List.forall₂_iff_get.mp hW).2
    have back : ∀ {i : Nat} {f' : Ir.Field}, t'.fields[i]? = some f' → ∃ f, t.fields[i]? = some f ∧ WidensField f f' := by
      intro i f' h
      obtain ⟨hi, rfl⟩ := List.getElem?_eq_some_iff.mp h
      exact ⟨_, List.getElem?_eq_getElem (by omega), hW' i (by omega) hi⟩
    have hsp := List.forall₂_iff_get.mp (compileFields_spec (compileTable_fields hc))
    refine .table (es := es) (os := os) hq' hh (by omega) (by omega) (by omega) he ?_ ?_ ?_ (fun h i hi => hex h i (by omega))
    · intro i f' e o x h1' h2 h3 h4
      obtain ⟨f, h1, hw⟩ := back h1'
      rw [selector_widen hW xs hw.ident]
      have hF := hf i f e o x h1 h2 h3 h4
      have hT := hw.ty
      have habs : generated.absent f' = generated.absent f := by
        obtain ⟨hi, rfl⟩ := List.getElem?_eq_some_iff.mp h1
        exact absent_widen (hsp.2 i hi (by omega)).kind hw
      cases hF with
      | absent h0 =>
        have : (generated.limit p).absent f = (generated.limit p).absent f' := habs.symm
        rw [this]; exact .absent h0
      | scalar ht hi hn =>
        rw [ht] at hT
        generalize hty : f'.ty = ty' at hT
        cases hT
        exact .scalar hty hi hn
      | enum ht hi hn =>
        rw [ht] at hT
        generalize hty : f'.ty = ty' at hT
        cases hT
        · exact .enum hty hi hn
        · exact .enum hty hi hn.widen
      | ref ht hi ho => exact .ref (ht.widen hT) hi ho
      | union ht hs hu hr hi ho =>
        rw [ht] at hT
        generalize hty : f'.ty = ty' at hT
        cases hT
        · exact .union hty hs hu hr hi ho
        · refine .union hty hs ?_ hr hi ho
          rw [List.getElem?_append_left (List.getElem?_eq_some_iff.mp hu).1]; exact hu
      | unionNone ht hs hi =>
        rw [ht] at hT
        generalize hty : f'.ty = ty' at hT
        cases hT <;> exact .unionNone hty hs hi
    · intro i f' x h1' h2 hr
      obtain ⟨f, h1, hw⟩ := back h1'
      exact hreq i f x h1 h2 (hw.required.symm.trans hr)
    · intro i f' e o x ty v h1' h2 h3 h4 hb
      obtain ⟨f, h1, hw⟩ := back h1'
      have hF := hf i f e o x h1 h2 h3 h4
      have hI := fun ty v hb => ih i f e o x ty v h1 h2 h3 h4 hb
      have hT := hw.ty
      have habs : generated.absent f' = generated.absent f := by
        obtain ⟨hi, rfl⟩ := List.getElem?_eq_some_iff.mp h1
        exact absent_widen (hsp.2 i hi (by omega)).kind hw
      cases hF with
      | absent h0 =>
        have : (generated.limit p).absent f = generated.absent f' := habs.symm
        rw [this] at hb
        exact absurd hb (absent_below _ (.inr rfl) f' ty v)
      | scalar ht hi hn =>
        rw [ht] at hT
        generalize hty : f'.ty = ty' at hT hb
        cases hT
        cases hb
      | enum ht hi hn =>
        rw [ht] at hT
        generalize hty : f'.ty = ty' at hT hb
        cases hT <;> cases hb
      | ref ht hi ho =>
        rw [isRef_below (ht.widen hT)] at hb
        cases hb
        exact hI _ _ (isRef_below ht _) _ hT
      | @union _ _ uvs u j w ht hs hu hr hi ho =>
        rw [ht] at hT
        have hb0 : Gen.below f.ty (some (.union j w)) = some (u.ty, w) := by
          rw [ht]; simp only [Gen.below, hu, Option.map_some]
        generalize hty : f'.ty = ty' at hT hb
        cases hT with
        | refl =>
          simp only [Gen.below, hu, Option.map_some] at hb
          cases hb
          exact hI _ _ hb0 _ (.refl _)
        | union _ _ _ _ _ ext =>
          simp only [Gen.below, List.getElem?_append_left (List.getElem?_eq_some_iff.mp hu).1, hu, Option.map_some] at hb
          cases hb
          exact hI _ _ hb0 _ (.refl _)
      | unionNone ht hs hi =>
        rw [ht] at hT
        generalize hty : f'.ty = ty' at hT hb
        cases hT <;> cases hb

end Butte.Format
