import Verif.Rs.Total
import Verif.Props.Emitted
import Verif.Props.Names
import Verif.Props.ParserExact
/-
Property C76: when the generator gets through a schema without a panic.
-/
namespace Butte.Rs
open Ir (QIdent Node Ident itemsOf OneNamespace InOrder Translates fixIdentifier)
open Gen (GField Kind kindOf compileTable nsOf From typeId)

set_option maxRecDepth 8000

/-- **C76** for every accepted schema: the generator gets through if and only if every item can be written (`NodeOk`), and
every module has a usable name. -/
theorem C76_exact {s : Ast.Schema} {out : List Node} (hb : Ir.build s = some (.ok out)) (gm : Mode) :
    (∃ P, emit gm out = some P) ↔
      ∀ x ∈ itemsOf out, NodeOk gm x.2 ∧ ∀ m ∈ x.1, Word (Heck.snake m) := by
  obtain ⟨-, hp, -⟩ := Ir.C50_output hb
  rw [emit, emitNodes_iff gm []]
  constructor
  · rintro ⟨h1, h2⟩ x hx
    refine ⟨h1 x hx, fun m hm => ?_⟩
    obtain ⟨a, b, e⟩ := List.append_of_mem hm
    have := h2 _ (Gen.leaf_modPathsL [] out x hx a m ⟨b, by rw [e]; simp⟩ (by simp))
    simpa [QIdent.simple] using this
  · intro h
    refine ⟨fun x hx => (h x hx).1, fun p hp' => ?_⟩
    obtain ⟨x, hx, e⟩ := Gen.modPathsL_leaf [] out hp p hp'
    obtain ⟨m, -, hm⟩ := Gen.modPathsL_under [] out p hp'
    have hne : p ≠ [] := by
      rintro rfl
      simpa using hm.length_le
    refine (h x hx).2 _ (e.subset ?_)
    rw [QIdent.simple, List.getLastD_eq_getLast?, List.getLast?_eq_some_getLast hne]
    exact List.getLast_mem hne

/-! ### Schemas that the generator panics on -/

/-- **C76** that the generator gets through every accepted schema is false. -/
theorem C76_refuted : ∀ E ∈ ([
      -- a struct
      [.struct ⟨c!"S", [⟨c!"x", .builtin .int, none, none, []⟩], none, []⟩],
      -- `namespace _1; table T { }`
      [Ir.exNs c!"_1", Ir.exTable c!"T" []],
      -- `table T { _1: int; }`
      [Ir.exTable c!"T" [⟨c!"_1", .builtin .int, none, none, []⟩]],
      -- `table T { s: string = 1; }`
      [Ir.exTable c!"T" [⟨c!"s", .string, some (.scalar (.integer 1)), none, []⟩]],
      -- `table T { x: int = foo; }`
      [Ir.exTable c!"T" [⟨c!"x", .builtin .int, some (.ident c!"foo"), none, []⟩]],
      -- `table T { x: float = 1e39; }`
      [Ir.exTable c!"T" [⟨c!"x", .builtin .float, some (.scalar (.float ⟨0x48078287F49C4A1D, by decide⟩)), none, []⟩]],
      -- `enum E: ubyte { X } table T { e: E = 0; }`
      [Ir.exEnum c!"E", Ir.exTable c!"T" [⟨c!"e", .ident [c!"E"], some (.scalar (.integer 0)), none, []⟩]],
      -- `table try { t: try; }`
      [Ir.exTable c!"try" [Ir.exRef c!"t" [c!"try"]]],
      -- `namespace A; table B { } namespace A.B; table T { m: A.B; }`
      (Gen.exTwo c!"A" c!"B" [c!"A", c!"B"]).elements] : List (List Ast.Element)),
    ∃ out, Ir.build ⟨[], E⟩ = some (.ok out) ∧ ∀ gm, emit gm out = none := by
  intro E hE
  simp only [List.mem_cons, List.not_mem_nil, or_false] at hE
  rcases hE with rfl | rfl | rfl | rfl | rfl | rfl | rfl | rfl | rfl <;>
    exact ⟨_, rfl, fun gm => by cases gm <;> rfl⟩

/-! ### From the declarations -/

theorem Word.of_rustName {s : Str} (h : Gen.rustName s = true) : Word s := by
  cases s with
  | nil => simp [Gen.rustName] at h
  | cons c r =>
    simp only [Gen.rustName, Bool.and_eq_true, Bool.not_eq_true'] at h
    exact ⟨c, r, rfl, h.1.1.1⟩

theorem numberOk_literal {b : Ast.Builtin} {s : Ast.Scalar} {v : SVal (Gen.builtinSTy b)}
    (h : Gen.literal (Gen.builtinSTy b) s = some v) : NumberOk s (builtinName b) := by
  cases s with
  | float x =>
    simp only [NumberOk]
    have inj : builtinName b = c!"f32" → Gen.builtinSTy b = .f32 := fun e => primName_inj (u := .f32) e
    generalize hb : Gen.builtinSTy b = t at *
    have whole : ∀ {sg : Bool} {w n : Nat}, Gen.wholeLit sg w x.val = some n → f64Finite x.val = true := by
      intro sg w n hw
      unfold Gen.wholeLit at hw
      split at hw
      · cases hw
      · obtain ⟨n, hn, _⟩ := Option.bind_eq_some_iff.mp hw
        exact (shown_some hn).1
    cases t <;> simp only [Gen.literal, reduceCtorEq, Option.ite_none_right_eq_some, Bool.and_eq_true, decide_eq_true_eq,
      Option.map_eq_some_iff] at h
    case f32 => exact ⟨h.1.1, fun _ => h.1.2⟩
    case f64 => exact ⟨h.1, fun e => by cases inj e⟩
    all_goals
      obtain ⟨n, hn, _⟩ := h
      exact ⟨whole hn, fun e => by cases inj e⟩
  | _ => trivial

/-- A table that there is working code for. -/
theorem fieldOk_compiled {gm : Mode} {t : Ir.Table} {gs : List GField} (hc : compileTable gm t = some gs)
    (hp : ∀ q ∈ Gen.paths (.table t), PathOk (QIdent.relative q (QIdent.namespace t.ident)))
    (he : ∀ f ∈ t.fields, ∀ i, f.default = some (.ident i) → Word i)
    (hu : ∀ f ∈ t.fields, ∀ q e vs, f.ty = .union q e vs → ∀ v ∈ vs, Word v.ident)
    {dflt : Prop} {f : Ir.Field} (hf : f ∈ t.fields) : FieldOk (QIdent.namespace t.ident) dflt f := by
  have C := Compiled.of hc
  have hsn : Gen.rustName (Heck.snake f.ident) = true := by
    unfold compileTable at hc
    split at hc
    · rename_i h
      simp only [Gen.namesOk, Bool.and_eq_true, List.all_eq_true, List.mem_map, forall_exists_index, and_imp,
        forall_apply_eq_imp_iff₂] at h
      exact h.1.1.2 f hf
    · cases hc
  have hmem : ∀ q, q ∈ Gen.tyPaths f.ty ∨ (∃ q' e vs, f.ty = .union q' e vs ∧ (q = e ∨ ∃ v ∈ vs, q ∈ Gen.tyPaths v.ty)) →
      PathOk (QIdent.relative q (QIdent.namespace t.ident)) := by
    intro q hq
    refine hp q (List.mem_flatMap.mpr ⟨f, hf, ?_⟩)
    rcases hq with hq | ⟨q', e, vs, hty, hq⟩
    · exact List.mem_append_left _ hq
    · rw [hty]
      refine List.mem_append_right _ ?_
      rcases hq with rfl | ⟨v, hv, hq⟩
      · simp
      · exact List.mem_cons_of_mem _ (List.mem_cons_of_mem _ (List.mem_flatMap.mpr ⟨v, hv, hq⟩))
  refine ⟨.of_rustName (C.usable f hf), .of_rustName hsn, fun q hq => hmem q (.inl hq), ?_, ?_⟩
  · obtain ⟨i, hi⟩ := List.mem_iff_getElem?.mp hf
    obtain ⟨g, -, -, -, -, hk⟩ := C.fields i f hi
    have he := he f hf
    generalize f.ty = ty at *
    generalize f.default = d at *
    cases d with
    | none => trivial
    | some d =>
      cases ty with
      | builtin b =>
        cases d with
        | ident i => simp [kindOf] at hk
        | scalar s =>
          simp only [kindOf, Option.bind_eq_bind, Option.bind_eq_some_iff] at hk
          obtain ⟨v, hv, -⟩ := hk
          exact ⟨.inr ⟨by simp [TyOk, Gen.tyPaths], numberOk_literal hv⟩, fun _ => rfl⟩
      | enum q vs b =>
        cases d with
        | ident i => exact ⟨he i rfl, fun _ _ => rfl⟩
        | scalar s => simp [kindOf, Gen.enumDefault] at hk
      | union q e vs =>
        cases d with
        | ident i => exact ⟨he i rfl, fun _ h => by cases h⟩
        | scalar s =>
          have := (Gen.kindOf_union_iff.mp hk).1
          cases s <;> simp only [Gen.unionDefault, Bool.false_eq_true] at this
          exact ⟨.inl ⟨_, rfl⟩, fun _ => rfl⟩
      | _ => simp [kindOf] at hk
  · intro q e vs hty
    exact ⟨hmem e (.inr ⟨q, e, vs, hty, .inl rfl⟩), fun v hv => ⟨hu f hf q e vs hty v hv, fun q' hq' =>
      hmem q' (.inr ⟨q, e, vs, hty, .inr ⟨v, hv, hq'⟩⟩)⟩⟩

/-- The names of variants and members are words if those in the schema are. -/
theorem variants_words {E : List Ast.Element} {out : List Node} (h : Translates E out)
    (hv : ∀ e, .enum e ∈ E → ∀ v ∈ e.variants, Word (fixIdentifier v.id))
    (hu : ∀ u, .union u ∈ E → ∀ v ∈ u.variants, Word (fixIdentifier v.id)) {x : List Ident × Node} (hx : x ∈ itemsOf out) :
    (∀ e, x.2 = .enum e → ∀ v ∈ e.variants, Word v.ident) ∧ (∀ u, x.2 = .union u → ∀ v ∈ u.variants, Word v.ident) := by
  obtain ⟨groups, g1, g2, _⟩ := h
  obtain ⟨g, hg, hxg⟩ := List.mem_flatten.mp (Ir.holds_path g1 hx).1
  obtain ⟨p, _, el, hel, hem⟩ := Ir.all₂_right g2 hg
  have hmem := List.mem_of_getElem? hel
  generalize x.2 = n at *
  cases hem with
  | table t _ _ _ =>
    simp only [List.mem_singleton] at hxg; subst hxg
    exact ⟨nofun, nofun⟩
  | struct s _ _ =>
    simp only [List.mem_singleton] at hxg; subst hxg
    exact ⟨nofun, nofun⟩
  | enum e _ _ =>
    simp only [List.mem_singleton] at hxg; subst hxg
    refine ⟨?_, nofun⟩
    rintro _ ⟨⟩ v hm
    obtain ⟨w, hw, rfl⟩ := List.mem_map.mp hm
    exact hv e hmem w hw
  | union u vs h =>
    simp only [List.mem_cons, List.not_mem_nil, or_false] at hxg
    rcases hxg with rfl | rfl
    · refine ⟨?_, nofun⟩
      rintro _ ⟨⟩ v hm
      rcases List.mem_cons.mp hm with rfl | hm
      · exact ⟨'N', c!"one", rfl, by decide⟩
      · obtain ⟨w, hw, rfl⟩ := List.mem_map.mp hm
        exact hu u hmem w hw
    · refine ⟨nofun, ?_⟩
      rintro _ ⟨⟩ v hm
      obtain ⟨a, ha, ty, _, rfl⟩ := Ir.all₂_right h hm
      exact hu u hmem a ha
  | rpc r _ _ =>
    simp only [List.mem_singleton] at hxg; subst hxg
    exact ⟨nofun, nofun⟩

theorem fields_defaults {N : Ir.Names} {ns : Option Ast.QIdent} {fs : List Ast.Field} {gs : List Ir.Field}
    (h : Ir.FieldsMean N ns fs gs) (hd : ∀ f ∈ fs, ∀ i, f.default = some (.ident i) → Word i) :
    ∀ g ∈ gs, ∀ i, g.default = some (.ident i) → Word i := by
  have own : ∀ (f : Ast.Field) i, f.default.or (Ast.implicitDefault f.ty) = some (.ident i) → f.default = some (.ident i) := by
    intro f i h
    rcases Option.or_eq_some_iff.mp h with h | ⟨-, h⟩
    · exact h
    · unfold Ast.implicitDefault at h
      split at h <;> simp at h
  induction h with
  | nil => exact fun f hf => by cases hf
  | plain _ _ _ _ ih =>
    have := ih fun f hf => hd f (List.mem_cons_of_mem _ hf)
    intro f hf i hi
    rcases List.mem_cons.mp hf with rfl | hf
    · exact hd _ List.mem_cons_self i (own _ i hi)
    · exact this f hf i hi
  | union _ _ _ _ ih =>
    have := ih fun f hf => hd f (List.mem_cons_of_mem _ hf)
    intro f hf i hi
    rcases List.mem_cons.mp hf with rfl | hf
    · cases hi
    · rcases List.mem_cons.mp hf with rfl | hf
      · exact hd _ List.mem_cons_self i (own _ i hi)
      · exact this f hf i hi

/-- The identifiers given as defaults are words if those in the schema are. -/
theorem defaults_words {E : List Ast.Element} {out : List Node} (h : Translates E out)
    (hd : ∀ d, .table d ∈ E → ∀ f ∈ d.fields, ∀ i, f.default = some (.ident i) → Word i) {p : List Ident} {t : Ir.Table}
    (hx : (p, Node.table t) ∈ itemsOf out) : ∀ f ∈ t.fields, ∀ i, f.default = some (.ident i) → Word i := by
  obtain ⟨groups, g1, g2, _⟩ := h
  obtain ⟨g, hg, hxg⟩ := List.mem_flatten.mp (Ir.holds_path g1 hx).1
  obtain ⟨p, _, el, hel, hem⟩ := Ir.all₂_right g2 hg
  have hmem := List.mem_of_getElem? hel
  cases hem with
  | table decl fields root h =>
    simp only [List.mem_singleton, Node.table.injEq] at hxg
    subst hxg
    exact fields_defaults h (hd decl hmem)
  | _ => simp at hxg

theorem fix_ne {i r : Str} (hr : r = c!"try" ∨ r = c!"_") (h : i ≠ r) : fixIdentifier i ≠ r := by
  unfold fixIdentifier Ir.substituteKeyword
  split
  · rename_i hk
    simp only [Option.getD_some]
    clear h
    revert hk i
    rcases hr with rfl | rfl <;> decide
  · split
    · rcases hr with rfl | rfl <;> (simp only [Option.getD_some]; decide)
    · exact h

theorem fix_head (c : Char) (i : Str) : ∃ r, fixIdentifier (c :: i) = c :: r := by
  unfold fixIdentifier Ir.substituteKeyword
  split
  · exact ⟨_, rfl⟩
  · split
    · rename_i h
      rw [show c!"type" = 't' :: c!"ype" from rfl, List.cons.injEq] at h
      obtain ⟨rfl, -⟩ := h
      exact ⟨c!"y", rfl⟩
    · exact ⟨_, rfl⟩

theorem word_fix {i : Str} : Word (fixIdentifier i) ↔ Word i := by
  cases i with
  | nil => rfl
  | cons c i =>
    obtain ⟨r, e⟩ := fix_head c i
    rw [e]
    constructor
    · rintro ⟨_, _, h, hc⟩
      cases h
      exact ⟨c, i, rfl, hc⟩
    · rintro ⟨_, _, h, hc⟩
      cases h
      exact ⟨c, r, rfl, hc⟩

theorem tag_word {i : Str} (h : Word i) : PathOk [c!"butte_gen", fixIdentifier (i ++ c!"Type")] ∧
    Word (fixIdentifier (i ++ c!"Type")) := by
  have ne : ∀ r : Str, (c!"Type").reverse.isPrefixOf r.reverse = false → i ++ c!"Type" ≠ r := by
    rintro r hr rfl
    rw [List.reverse_append, ← Bool.not_eq_true, List.isPrefixOf_iff_prefix] at hr
    exact hr (List.prefix_append _ _)
  have e1 := fix_ne (.inl rfl) (ne c!"try" (by decide))
  have e2 := fix_ne (.inr rfl) (ne c!"_" (by decide))
  refine ⟨⟨by simp, ?_, ?_⟩, word_fix.mpr ?_⟩
  · simp only [List.mem_cons, List.not_mem_nil, or_false, not_or]
    exact ⟨by decide, fun h => e1 h.symm⟩
  · simp only [List.mem_cons, List.not_mem_nil, or_false, not_or]
    exact ⟨by decide, fun h => e2 h.symm⟩
  · obtain ⟨c, r, rfl, hc⟩ := h
    exact ⟨c, r ++ c!"Type", rfl, hc⟩

/-- The path to something in the same namespace, or below. -/
theorem relative_below (N : List Str) (x : Str) (rest : QIdent) :
    QIdent.relative (N ++ rest) (QIdent.namespace (N ++ [x])) = rest := by
  unfold QIdent.namespace
  split
  · have : (N ++ [x]).take ((N ++ [x]).length - 1) = N := by simp
    rw [this]
    simp [QIdent.relative, Gen.commonPrefix_append]
  · rename_i h
    have : N = [] := by simpa using h
    subst this
    rfl

/-- The names in a schema are words. This is so if the schema comes from a text (`Worded.of_text`). -/
structure Worded (E : List Ast.Element) : Prop where
  types : ∀ el ∈ E, ∀ i, typeId el = some i → Word i
  variants : ∀ e, .enum e ∈ E → ∀ v ∈ e.variants, Word v.id
  members : ∀ u, .union u ∈ E → ∀ v ∈ u.variants, Word v.id
  defaults : ∀ d, .table d ∈ E → ∀ f ∈ d.fields, ∀ i, f.default = some (.ident i) → Word i

theorem word_ident [Parse.Env] {i : Str} (h : Parse.IsIdent i) : Word i := by
  cases i with
  | nil => exact h.elim
  | cons c r =>
    refine ⟨c, r, rfl, ?_⟩
    rcases h.1 with h | rfl
    · rw [← Bool.not_eq_true]
      intro hd
      have hc : c.toNat < 128 := by
        simp only [Char.isDigit, Bool.and_eq_true, decide_eq_true_eq] at hd
        have := hd.2
        rw [UInt32.le_iff_toNat_le] at this
        have h2 : c.toNat = c.val.toNat := rfl
        rw [h2]
        exact Nat.lt_of_le_of_lt this (by decide)
      rw [Parse.Env.alphabetic_ascii c hc] at h
      simp only [Char.isAlpha, Char.isUpper, Char.isLower, Char.isDigit, Bool.or_eq_true, Bool.and_eq_true,
        decide_eq_true_eq, UInt32.le_iff_toNat_le, ge_iff_le] at h hd
      have e1 : ('0' : Char).val.toNat = 48 := rfl
      have e2 : ('9' : Char).val.toNat = 57 := rfl
      have e3 : ('A' : Char).val.toNat = 65 := rfl
      have e4 : ('a' : Char).val.toNat = 97 := rfl
      omega
    · decide

theorem Worded.of_text [Parse.Env] {s : Ast.Schema} {t : Str} (h : Parse.SchemaText s t) : Worded s.elements := by
  have hok := (Parse.C63_trees.mp ⟨t, h⟩).2
  refine ⟨?_, ?_, ?_, ?_⟩
  · intro el hel i hi
    have := hok el hel
    cases el <;> simp only [typeId, Option.some.injEq, reduceCtorEq] at hi
    · subst hi; exact word_ident this.2.1
    · subst hi; exact word_ident this.2.1
    · subst hi; exact word_ident this.2.1
    · subst hi; exact word_ident this.2.1
  · intro e he v hv
    exact word_ident ((hok _ he).2.2.2.2.2 v hv).2.1
  · intro e he v hv
    exact word_ident ((hok _ he).2.2.2.2 v hv).2.1
  · intro d hd f hf i hi
    have := ((hok _ hd).2.2.2 f hf).2.2.2.1
    rw [hi] at this
    exact word_ident this.1

/-- If there is working code for every table, and everything has a usable name and can be reached by a path that can be
written, the generator gets through. -/
theorem emit_of {s : Ast.Schema} {out : List Node} (h : OneNamespace s.elements ∨ InOrder s.elements)
    (hb : Ir.build s = some (.ok out)) {gm : Mode} (hs : ∀ d, .struct d ∉ s.elements)
    (hw : ∀ (p : Nat) d, s.elements[p]? = some (.table d) →
      Gen.TableWorks gm s.elements (Ir.lastNs (s.elements.take p)) d.fields)
    (hwd : Worded s.elements)
    (hm : ∀ x ∈ itemsOf out, ∀ m ∈ x.1, Word (Heck.snake m))
    (hp : ∀ x ∈ itemsOf out, ∀ q ∈ Gen.paths x.2, PathOk (QIdent.relative q (QIdent.namespace x.2.ident))) :
    ∃ P, emit gm out = some P := by
  have hT := (Ir.C46_resolved_partial h hb).1
  have words := fun x hx => @variants_words s.elements out hT (fun e he v hv => word_fix.mpr (hwd.variants e he v hv))
    (fun u hu v hv => word_fix.mpr (hwd.members u hu v hv)) x hx
  have hsimple : ∀ (l : List Ident) (i : Ident), QIdent.simple (l ++ [i]) = i := fun l i => by simp [QIdent.simple]
  have hname : ∀ x ∈ itemsOf out, (∀ d, x.2 ≠ .struct d) ∧ ((∀ d, x.2 ≠ .rpc d) → Word (QIdent.simple x.2.ident)) := by
    intro x hx
    obtain ⟨groups, g1, g2, _⟩ := hT
    obtain ⟨g, hg, hxg⟩ := List.mem_flatten.mp (Ir.holds_path g1 hx).1
    obtain ⟨p, _, el, hel, hem⟩ := Ir.all₂_right g2 hg
    have hmem := List.mem_of_getElem? hel
    generalize x.2 = n at *
    cases hem with
    | table t _ _ _ =>
      simp only [List.mem_singleton] at hxg; subst hxg
      exact ⟨nofun, fun _ => by simpa [Node.ident, Ir.nameIn, hsimple] using word_fix.mpr (hwd.types _ hmem _ rfl)⟩
    | struct s _ _ => exact absurd hmem (hs _)
    | enum e _ _ =>
      simp only [List.mem_singleton] at hxg; subst hxg
      exact ⟨nofun, fun _ => by simpa [Node.ident, Ir.nameIn, hsimple] using word_fix.mpr (hwd.types _ hmem _ rfl)⟩
    | union u vs h =>
      simp only [List.mem_cons, List.not_mem_nil, or_false] at hxg
      rcases hxg with rfl | rfl
      · exact ⟨nofun, fun _ => by simpa [Node.ident, Ir.tagEnumIn, QIdent.simple] using (tag_word (hwd.types _ hmem _ rfl)).2⟩
      · exact ⟨nofun, fun _ => by simpa [Node.ident, Ir.nameIn, hsimple] using word_fix.mpr (hwd.types _ hmem _ rfl)⟩
    | rpc r ms h =>
      simp only [List.mem_singleton] at hxg; subst hxg
      exact ⟨nofun, fun h => absurd rfl (h _)⟩
  refine (C76_exact hb gm).mpr ?_
  intro x hx
  refine ⟨?_, hm x hx⟩
  obtain ⟨h1, h2⟩ := hname x hx
  have hw' := words x hx
  have hp' := hp x hx
  obtain ⟨p, n⟩ := x
  cases n with
  | table t =>
    obtain ⟨gs, hgs⟩ := Gen.C72_all_partial h hb gm hw hx
    have hdef := (table_defined hT hx).2
    refine ⟨h2 (by simp), fun f hf => fieldOk_compiled hgs hp' (defaults_words hT hwd.defaults hx) ?_ hf, ?_⟩
    · intro f hf q e vs hty v hv
      have := hdef f hf
      rw [hty] at this
      obtain ⟨⟨p', y⟩, hy, hyd⟩ := this
      cases y <;> simp only [Node.defines, Option.some.injEq, Prod.mk.injEq, reduceCtorEq, and_false,
        Ir.CustomType.union.injEq] at hyd
      obtain ⟨rfl, rfl, rfl⟩ := hyd
      exact (words _ hy).2 _ rfl v hv
    · rw [← Gen.slotOf_iff]
      intro i hi
      obtain ⟨g, -, -, -, hs, -⟩ := (Compiled.of hgs).fields i _ (List.getElem?_eq_getElem hi)
      exact ⟨_, hs⟩
  | struct d => exact absurd rfl (h1 d)
  | enum e => exact ⟨h2 (by simp), hw'.1 _ rfl⟩
  | union u =>
    refine ⟨h2 (by simp), hp' _ (by simp [Gen.paths]), fun v hv => ⟨hw'.2 _ rfl v hv, fun q hq => hp' q ?_⟩⟩
    exact List.mem_cons_of_mem _ (List.mem_flatMap.mpr ⟨v, hv, hq⟩)
  | rpc r => trivial
  | «namespace» i ns => trivial

/-- What the generator needs of a schema in one namespace. -/
structure Generable (gm : Mode) (E : List Ast.Element) : Prop where
  /-- no structs -/
  structs : ∀ d, .struct d ∉ E
  /-- there is working code for every table (C72) -/
  tables : ∀ (p : Nat) d, E[p]? = some (.table d) → Gen.TableWorks gm E (Ir.lastNs (E.take p)) d.fields
  /-- usable names of types -/
  types : ∀ el ∈ E, ∀ i, typeId el = some i → i ≠ c!"try" ∧ i ≠ c!"_"
  /-- usable names of modules -/
  modules : ∀ m ∈ nsOf E, Word (Heck.snake m)

/-- **C76** in one namespace, from the declarations: the generator gets through. Full statement: from every accepted
schema, which is false. -/
theorem C76_declared_partial {s : Ast.Schema} {out : List Node} (h1 : OneNamespace s.elements)
    (hb : Ir.build s = some (.ok out)) {gm : Mode} (hwd : Worded s.elements) (hg : Generable gm s.elements) :
    ∃ P, emit gm out = some P := by
  have hT := (Ir.C46_resolved_partial (.inl h1) hb).1
  have hfrom := fun x hx => @Gen.from_of s out h1 hb x hx
  -- all that is named in the schema
  have named : ∀ y ∈ itemsOf out, ∀ q ct, y.2.defines = some (q, ct) → ∃ rest, q = nsOf s.elements ++ rest ∧ PathOk rest := by
    have one : ∀ el ∈ s.elements, ∀ i, typeId el = some i → PathOk [fixIdentifier i] := by
      intro el hel i hi
      obtain ⟨e1, e2⟩ := hg.types el hel i hi
      refine ⟨by simp, ?_, ?_⟩
      · rw [List.mem_singleton]; exact fun h => fix_ne (.inl rfl) e1 h.symm
      · rw [List.mem_singleton]; exact fun h => fix_ne (.inr rfl) e2 h.symm
    intro y hy q ct hd
    cases hfrom y hy with
    | table d t h e => cases hd; exact ⟨_, e, one _ h _ rfl⟩
    | struct d t h e => exact absurd h (hg.structs d)
    | enum d t h e => cases hd; exact ⟨_, e, one _ h _ rfl⟩
    | union d t h e => cases hd; exact ⟨_, e, one _ h _ rfl⟩
    | tag d t h e =>
      cases hd
      exact ⟨_, e, (tag_word (hwd.types _ h _ rfl)).1⟩
    | rpc r => cases hd
  refine emit_of (.inl h1) hb hg.structs hg.tables hwd ?_ ?_
  · intro x hx m hm
    cases hfrom x hx with
    | tag d t h e =>
      rcases List.mem_append.mp hm with hm | hm
      · exact hg.modules m hm
      · rw [List.mem_singleton] at hm
        subst hm
        exact ⟨'b', c!"utte_gen", by decide, by decide⟩
    | _ => exact hg.modules m hm
  · intro x hx q hq
    have hi : ∃ i, x.2.ident = nsOf s.elements ++ [i] := by
      cases hfrom x hx with
      | table d t h e => exact ⟨_, e⟩
      | union d t h e => exact ⟨_, e⟩
      | _ => cases hq
    obtain ⟨i, hi⟩ := hi
    obtain ⟨y, hy, ct, hd⟩ := Gen.paths_defined hT hx hq
    obtain ⟨rest, rfl, hr⟩ := named y hy q ct hd
    rw [hi, relative_below]
    exact hr

theorem relative_pathOk {q : QIdent} {ns : Option QIdent} (h : ¬ q <+: ns.getD []) (h1 : c!"try" ∉ q) (h2 : c!"_" ∉ q) :
    PathOk (QIdent.relative q ns) := by
  have hq : q ≠ [] := by rintro rfl; simp at h
  cases ns with
  | none => exact ⟨hq, h1, h2⟩
  | some n =>
    simp only [Option.getD_some] at h
    simp only [QIdent.relative]
    have hk : Ir.commonPrefix q n < q.length := by
      have hle := Butte.commonPrefix_le_left q n
      rcases Nat.lt_or_ge (Ir.commonPrefix q n) q.length with hl | hl
      · exact hl
      · exfalso
        have e : Ir.commonPrefix q n = q.length := by omega
        have h3 := Butte.commonPrefix_take q n
        rw [e, List.take_length] at h3
        exact h (h3 ▸ List.take_prefix _ _)
    have mem : ∀ x : Str, x ≠ c!"super" → x ∉ q →
        x ∉ List.replicate (n.length - Ir.commonPrefix q n) c!"super" ++ q.drop (Ir.commonPrefix q n) := by
      intro x hs hx hm
      rcases List.mem_append.mp hm with hm | hm
      · exact hs (List.eq_of_mem_replicate hm)
      · exact hx (List.mem_of_mem_drop hm)
    refine ⟨?_, mem _ (by decide) h1, mem _ (by decide) h2⟩
    intro e
    have := (List.append_eq_nil_iff.mp e).2
    rw [List.drop_eq_nil_iff] at this
    omega

/-- **C76** with several namespaces, declared before use. -/
theorem C76_several_partial {s : Ast.Schema} {out : List Node} (h : OneNamespace s.elements ∨ InOrder s.elements)
    (hb : Ir.build s = some (.ok out)) {gm : Mode} (hs : ∀ d, .struct d ∉ s.elements)
    (hw : ∀ (p : Nat) d, s.elements[p]? = some (.table d) →
      Gen.TableWorks gm s.elements (Ir.lastNs (s.elements.take p)) d.fields)
    (hwd : Worded s.elements)
    (hm : ∀ x ∈ itemsOf out, ∀ m ∈ x.1, Word (Heck.snake m))
    (hp : ∀ x ∈ itemsOf out, ∀ q ∈ Gen.paths x.2, ¬ q <+: x.1 ∧ c!"try" ∉ q ∧ c!"_" ∉ q) :
    ∃ P, emit gm out = some P := by
  refine emit_of h hb hs hw hwd hm ?_
  intro x hx q hq
  obtain ⟨h1, h2, h3⟩ := hp x hx q hq
  refine relative_pathOk ?_ h2 h3
  rw [Gen.namespace_getD, ← (Ir.C50_output hb).1 x hx]
  exact h1

instance (s : Str) : Decidable (Word s) :=
  decidable_of_iff ((Gen.formatIdent s).isSome = true) (by rw [Option.isSome_iff_exists, word_iff])

theorem exRead_worded : Worded Gen.exRead.elements where
  types := by decide
  variants := by
    intro e h
    simp only [Gen.exRead, Ir.exNs, Ir.exUnion, List.mem_cons, reduceCtorEq, Ast.Element.enum.injEq, List.not_mem_nil,
      or_false, false_or] at h
    subst h
    decide
  members := by
    intro e h
    simp only [Gen.exRead, Ir.exNs, Ir.exUnion, List.mem_cons, reduceCtorEq, Ast.Element.union.injEq, List.not_mem_nil,
      or_false, false_or] at h
    subst h
    decide
  defaults := by
    intro d h
    simp only [Gen.exRead, Ir.exNs, Ir.exUnion, List.mem_cons, reduceCtorEq, Ast.Element.table.injEq, List.not_mem_nil,
      or_false, false_or] at h
    rcases h with rfl | rfl <;> simp only [List.mem_cons, List.not_mem_nil, or_false] <;> intro f hf i hi
    · rcases hf with rfl | rfl <;> cases hi
    · rcases hf with rfl | rfl | rfl | rfl | rfl <;> cases hi
      decide

/-- The schema of `Gen.exText`, with an enum, a union, vectors, defaults and references. -/
theorem exRead_generable (gm : Mode) : Generable gm Gen.exRead.elements where
  structs := by
    intro d h
    simp only [Gen.exRead, Ir.exNs, Ir.exUnion, List.mem_cons, reduceCtorEq, List.not_mem_nil, or_false] at h
  tables := Gen.exRead_works gm
  types := by decide
  modules := by decide

example (gm : Mode) : ∃ out P, Ir.build Gen.exRead = some (.ok out) ∧ emit gm out = some P := by
  obtain ⟨out, -, hb, -⟩ := exSetting gm
  obtain ⟨P, hP⟩ := C76_declared_partial Gen.exRead_one hb exRead_worded (exRead_generable gm)
  exact ⟨out, P, hb, hP⟩

/-- `namespace assets; table Mesh { } namespace Game.World; table T { m: assets.Mesh; }` -/
theorem exTwo_hyps (gm : Mode) : ∃ out, Ir.build (Gen.exTwo c!"assets" c!"Mesh" [c!"Game", c!"World"]) = some (.ok out) ∧
    (∀ d, .struct d ∉ (Gen.exTwo c!"assets" c!"Mesh" [c!"Game", c!"World"]).elements) ∧
    (∀ (p : Nat) d, (Gen.exTwo c!"assets" c!"Mesh" [c!"Game", c!"World"]).elements[p]? = some (.table d) →
      Gen.TableWorks gm (Gen.exTwo c!"assets" c!"Mesh" [c!"Game", c!"World"]).elements
        (Ir.lastNs ((Gen.exTwo c!"assets" c!"Mesh" [c!"Game", c!"World"]).elements.take p)) d.fields) ∧
    Worded (Gen.exTwo c!"assets" c!"Mesh" [c!"Game", c!"World"]).elements ∧
    (∀ x ∈ itemsOf out, ∀ m ∈ x.1, Word (Heck.snake m)) ∧
    (∀ x ∈ itemsOf out, ∀ q ∈ Gen.paths x.2, ¬ q <+: x.1 ∧ c!"try" ∉ q ∧ c!"_" ∉ q) := by
  refine ⟨_, rfl, ?_, ?_, ⟨by decide, ?_, ?_, ?_⟩, by decide, by decide⟩
  · intro d h; simp [Gen.exTwo, Ir.exNs, Ir.exTable] at h
  · intro p d hp
    have hl : p < 4 := (List.getElem?_eq_some_iff.mp hp).1
    have hcases : p = 0 ∨ p = 1 ∨ p = 2 ∨ p = 3 := by omega
    rcases hcases with rfl | rfl | rfl | rfl <;> cases hp
    · exact ⟨fun f hf => (by cases hf), Gen.tags_of (by decide), by decide, by decide, by decide, by decide, .inr (by decide)⟩
    · refine ⟨?_, Gen.tags_of (by decide), by decide, by decide, by decide, by decide, .inr (by decide)⟩
      intro f hf
      simp only [List.mem_cons, List.not_mem_nil, or_false] at hf
      subst hf
      exact .inl ⟨by decide, rfl⟩
  · intro d h; simp [Gen.exTwo, Ir.exNs, Ir.exTable] at h
  · intro d h; simp [Gen.exTwo, Ir.exNs, Ir.exTable] at h
  · intro d h; simp [Gen.exTwo, Ir.exNs, Ir.exTable] at h
    rcases h with rfl | rfl <;> simp [Ir.exRef]

example (gm : Mode) : ∃ out P, Ir.build (Gen.exTwo c!"assets" c!"Mesh" [c!"Game", c!"World"]) = some (.ok out) ∧
    emit gm out = some P := by
  obtain ⟨out, hb, h1, h2, h3, h4, h5⟩ := exTwo_hyps gm
  obtain ⟨P, hP⟩ := C76_several_partial (.inr (Gen.exTwo_order _ _ _)) hb h1 h2 h3 h4 h5
  exact ⟨out, P, hb, hP⟩

end Butte.Rs
