import Verif.Src.Written
import Verif.Src.Legible
/-
The names of the tree that is built from a schema with names in ASCII.
-/
namespace Butte.Src
open Ir (QIdent Node Ident itemsOf Translates lastNs nameIn tagEnumIn fixIdentifier)
open Rs (Program Setting WellTyped legalName emit emitNode emitNodes)

/-- All characters are those of names in ASCII. -/
def Chars (s : Str) : Prop := s.all wordChar = true

instance (s : Str) : Decidable (Chars s) := inferInstanceAs (Decidable (s.all wordChar = true))

/-- The names that are declared in a schema are in ASCII (letters, digits and `_`). -/
structure Ascii (E : List Ast.Element) : Prop where
  spaces : ∀ q d, .namespace q d ∈ E → ∀ s ∈ q, Chars s
  tables : ∀ t, .table t ∈ E → Chars t.id ∧ ∀ f ∈ t.fields, Chars f.id ∧ ∀ i, f.default = some (.ident i) → Chars i
  structs : ∀ t, .struct t ∈ E → Chars t.id
  enums : ∀ e, .enum e ∈ E → Chars e.id ∧ ∀ v ∈ e.variants, Chars v.id
  unions : ∀ u, .union u ∈ E → Chars u.id ∧ ∀ v ∈ u.variants, Chars v.id
  services : ∀ r, .rpc r ∈ E → Chars r.id

theorem chars_append {a b : Str} (ha : Chars a) (hb : Chars b) : Chars (a ++ b) := by
  unfold Chars at *
  rw [List.all_append, ha, hb]; rfl

theorem fix_chars {s : Str} (h : Chars s) : Chars (fixIdentifier s) := by
  unfold fixIdentifier Ir.substituteKeyword
  split
  · exact chars_append h (by decide)
  · split
    · exact (by decide : Chars c!"ty")
    · exact h

theorem lastNs_mem {E : List Ast.Element} {q : Ast.QIdent} (h : lastNs E = some q) : ∃ d, .namespace q d ∈ E := by
  have go : ∀ (E : List Ast.Element) (o : Option Ast.QIdent), E.foldl Ir.nsAfter o = some q → o = some q ∨ ∃ d, .namespace q d ∈ E := by
    intro E
    induction E with
    | nil => exact fun o h => .inl h
    | cons e E ih =>
      intro o h
      rcases ih _ h with h | ⟨d, h⟩
      · cases e <;> simp only [Ir.nsAfter] at h <;> try exact .inl h
        cases h
        exact .inr ⟨_, List.mem_cons_self⟩
      · exact .inr ⟨d, List.mem_cons_of_mem _ h⟩
  rcases go E none h with h | h
  · cases h
  · exact h

theorem ns_chars {E : List Ast.Element} (A : Ascii E) (p : Nat) : ∀ s ∈ ((lastNs (E.take p)).getD []).map fixIdentifier, Chars s := by
  intro s hs
  obtain ⟨t, ht, rfl⟩ := List.mem_map.mp hs
  cases h : lastNs (E.take p) with
  | none => rw [h] at ht; cases ht
  | some q =>
    rw [h] at ht
    obtain ⟨d, hd⟩ := lastNs_mem h
    exact fix_chars (A.spaces q d (List.mem_of_mem_take hd) t ht)

/-- The characters of a node's own names. -/
structure NodeChars (n : Node) : Prop where
  ident : ∀ s ∈ n.ident, Chars s
  fields : ∀ t, n = .table t → ∀ f ∈ t.fields, Chars f.ident ∧ ∀ i, f.default = some (.ident i) → Chars i
  variants : ∀ e, n = .enum e → ∀ v ∈ e.variants, Chars v.ident
  members : ∀ u, n = .union u → ∀ v ∈ u.variants, Chars v.ident

theorem fields_chars {N : Ir.Names} {ns : Option Ast.QIdent} {fs : List Ast.Field} {gs : List Ir.Field} (h : Ir.FieldsMean N ns fs gs)
    (hc : ∀ f ∈ fs, Chars f.id ∧ ∀ i, f.default = some (.ident i) → Chars i) :
    ∀ f ∈ gs, Chars f.ident ∧ ∀ i, f.default = some (.ident i) → Chars i := by
  have dflt : ∀ {f : Ast.Field}, (∀ i, f.default = some (.ident i) → Chars i) →
      ∀ i, f.default.or (Ast.implicitDefault f.ty) = some (.ident i) → Chars i := by
    intro f hd i hi
    cases hdf : f.default with
    | some d => rw [hdf] at hi hd; exact hd i (by simpa using hi)
    | none =>
      rw [hdf, Option.none_or] at hi
      unfold Ast.implicitDefault at hi
      split at hi <;> cases hi
  induction h with
  | nil => nofun
  | @plain f fs ty r req _ _ _ _ ih =>
    obtain ⟨h1, h2⟩ := List.forall_mem_cons.mp hc
    rw [List.forall_mem_cons]
    exact ⟨⟨fix_chars h1.1, dflt h1.2⟩, ih h2⟩
  | @union f fs q e vs evs base r req _ _ _ _ ih =>
    obtain ⟨h1, h2⟩ := List.forall_mem_cons.mp hc
    rw [List.forall_mem_cons, List.forall_mem_cons]
    exact ⟨⟨fix_chars (chars_append (snake_all h1.1) (by decide)), nofun⟩, ⟨fix_chars h1.1, dflt h1.2⟩, ih h2⟩

theorem item_chars {E : List Ast.Element} {out : List Node} (hT : Translates E out) (A : Ascii E) {x : List Ident × Node}
    (hx : x ∈ itemsOf out) : NodeChars x.2 := by
  obtain ⟨groups, g1, g2, _⟩ := hT
  obtain ⟨g, hg, hxg⟩ := List.mem_flatten.mp (Ir.holds_path g1 hx).1
  obtain ⟨p, _, el, hel, hem⟩ := Ir.all₂_right g2 hg
  have hmem := List.mem_of_getElem? hel
  have hns := ns_chars A p
  have own : ∀ {i : Str}, Chars i → ∀ s ∈ nameIn (lastNs (E.take p)) i, Chars s := by
    intro i hi s hs
    rcases List.mem_append.mp hs with hs | hs
    · exact hns s hs
    · rw [List.mem_singleton.mp hs]; exact fix_chars hi
  generalize x.2 = n at *
  cases hem with
  | table t fields root h =>
    simp only [List.mem_singleton] at hxg; subst hxg
    obtain ⟨a1, a2⟩ := A.tables t hmem
    refine ⟨own a1, ?_, nofun, nofun⟩
    rintro _ ⟨⟩
    exact fields_chars h a2
  | struct t fields h =>
    simp only [List.mem_singleton] at hxg; subst hxg
    exact ⟨own (A.structs t hmem), nofun, nofun, nofun⟩
  | «enum» e base h =>
    simp only [List.mem_singleton] at hxg; subst hxg
    obtain ⟨a1, a2⟩ := A.enums e hmem
    refine ⟨own a1, nofun, ?_, nofun⟩
    rintro _ ⟨⟩ v hv
    obtain ⟨w, hw, rfl⟩ := List.mem_map.mp hv
    exact fix_chars (a2 w hw)
  | union u vs h =>
    obtain ⟨a1, a2⟩ := A.unions u hmem
    simp only [List.mem_cons, List.not_mem_nil, or_false] at hxg
    rcases hxg with rfl | rfl
    · refine ⟨?_, nofun, ?_, nofun⟩
      · intro s hs
        simp only [Node.ident, tagEnumIn, List.mem_append, List.mem_cons, List.not_mem_nil, or_false] at hs
        rcases hs with hs | rfl | rfl
        · exact hns s hs
        · exact (by decide : Chars c!"butte_gen")
        · exact fix_chars (chars_append a1 (by decide))
      · rintro _ ⟨⟩
        rw [List.forall_mem_cons]
        refine ⟨(by decide : Chars c!"None"), fun v hv => ?_⟩
        obtain ⟨w, hw, rfl⟩ := List.mem_map.mp hv
        exact fix_chars (a2 w hw)
    · refine ⟨own a1, nofun, nofun, ?_⟩
      rintro _ ⟨⟩ v hv
      obtain ⟨w, hw, ty, -, rfl⟩ := Ir.all₂_right h hv
      exact fix_chars (a2 w hw)
  | rpc r ms h =>
    simp only [List.mem_singleton] at hxg; subst hxg
    exact ⟨own (A.services r hmem), nofun, nofun, nofun⟩

/-! ### Names of the program -/

theorem word_of_legal {s : Str} (hc : Chars s) (h : legalName s = true) : wordOk s = true := by
  cases s with
  | nil => cases h
  | cons c s =>
    simp only [legalName, Bool.and_eq_true, Bool.not_eq_true'] at h
    exact wordOk_of hc (n := c :: s) (by simp [Gen.formatIdent, h.1.1])

theorem word_of_format {s n : Str} (hc : Chars s) (h : Gen.formatIdent s = some n) : wordOk s = true := wordOk_of hc h

theorem simple_chars {q : QIdent} (h : ∀ s ∈ q, Chars s) : Chars (QIdent.simple q) := by
  unfold QIdent.simple
  cases hl : q.getLast? with
  | none => rw [List.getLastD_eq_getLast?, hl]; exact (by decide : Chars [])
  | some s => rw [List.getLastD_eq_getLast?, hl]; exact h s (List.mem_of_getLast? hl)

section
variable {gm : Mode} {E : List Ast.Element} {out : List Node} {P : Program}

theorem segWords_of (S : Setting gm E out P) (W : WellTyped P) (A : Ascii E) {x : List Ident × Node} (hx : x ∈ itemsOf out) {q : QIdent}
    (hq : q ∈ Gen.paths x.2) : SegWords (QIdent.relative q (QIdent.namespace x.2.ident)) := by
  intro s hs
  rcases lookup_segs (S.leads x hx q hq).2 s hs with rfl | ⟨y, hy, rfl⟩
  · decide
  · refine word_of_legal ?_ (names_legal W hy)
    obtain ⟨z, hz, ct, hd⟩ := Gen.paths_defined S.translates hx hq
    have hz := (item_chars S.translates A hz).ident
    have hq : ∀ s ∈ q, Chars s := by
      revert hd hz
      cases z.2 <;> simp only [Node.defines, Node.ident, Option.some.injEq, Prod.mk.injEq, reduceCtorEq, false_implies, implies_true] <;>
        (rintro ⟨rfl, -⟩ h; exact h)
    generalize QIdent.namespace x.2.ident = ns at hs
    cases ns with
    | none => exact hq _ hs
    | some ns =>
      simp only [QIdent.relative] at hs
      rcases List.mem_append.mp hs with hs | hs
      · rw [List.eq_of_mem_replicate hs]; exact (by decide : Chars c!"super")
      · exact hq _ (List.mem_of_mem_drop hs)

theorem enum_words (S : Setting gm E out P) (A : Ascii E) {p : List Ident} {e : Ir.Enum} (hx : (p, Node.enum e) ∈ itemsOf out) :
    EnumWords e := by
  obtain ⟨items, hi, -⟩ := Rs.emit_enum S.emitted hx
  simp only [Rs.emitEnum, Option.bind_eq_bind, Option.bind_eq_some_iff, Option.pure_def, Option.some.injEq] at hi
  obtain ⟨n, hn, vs, hvs, -⟩ := hi
  have C := item_chars S.translates A hx
  refine ⟨word_of_format (simple_chars C.ident) hn, fun v hv => ?_⟩
  obtain ⟨k, hk⟩ := List.mem_iff_getElem?.mp hv
  obtain ⟨y, -, he⟩ := mapM_image hvs (v, k) (List.mem_zipIdx_iff_getElem?.mpr hk)
  simp only [Rs.variantLit, Option.bind_eq_bind, Option.bind_eq_some_iff, Option.pure_def, Option.some.injEq] at he
  obtain ⟨i, hi, -⟩ := he
  exact word_of_format (C.variants e rfl v hv) hi

theorem union_words (S : Setting gm E out P) (W : WellTyped P) (A : Ascii E) {p : List Ident} {u : Ir.Union}
    (hx : (p, Node.union u) ∈ itemsOf out) : UnionWords u := by
  obtain ⟨items, hi, -⟩ := Rs.emit_union S.emitted hx
  simp only [Rs.emitUnion, Option.bind_eq_bind, Option.bind_eq_some_iff, Option.pure_def, Option.some.injEq] at hi
  obtain ⟨n, hn, e, he, vs, hvs, -⟩ := hi
  have C := item_chars S.translates A hx
  refine ⟨word_of_format (simple_chars C.ident) hn, segWords_of S W A hx List.mem_cons_self, fun v hv => ⟨?_, fun q hq => ?_⟩⟩
  · obtain ⟨y, -, he⟩ := mapM_image hvs v hv
    simp only [Rs.unionVariant, Option.bind_eq_bind, Option.bind_eq_some_iff, Option.pure_def, Option.some.injEq] at he
    obtain ⟨t, -, i, hi, -⟩ := he
    exact word_of_format (C.members u rfl v hv) hi
  · exact segWords_of S W A hx (List.mem_cons_of_mem _ (List.mem_flatMap.mpr ⟨v, hv, hq⟩))

theorem table_words (S : Setting gm E out P) (W : WellTyped P) (A : Ascii E) {p : List Ident} {t : Ir.Table}
    (hx : (p, Node.table t) ∈ itemsOf out) {gs : List Gen.GField} (hc : Gen.compileTable gm t = some gs) : TableWords t := by
  obtain ⟨items, hi, -⟩ := Rs.emit_table S.emitted hx
  simp only [Rs.emitTable, Option.bind_eq_bind, Option.bind_eq_some_iff, Option.pure_def, Option.some.injEq] at hi
  obtain ⟨n, hn, fs, hfs, -⟩ := hi
  have C := item_chars S.translates A hx
  have D := (Rs.table_defined S.translates hx).2
  have G := Rs.Compiled.of hc
  refine ⟨word_of_format (simple_chars C.ident) hn, fun f hf => ?_⟩
  obtain ⟨h1, h2⟩ := C.fields t rfl f hf
  have hq : ∀ q ∈ Gen.tyPaths f.ty ++ (match f.ty with
      | .union q e vs => q :: e :: vs.flatMap fun v => Gen.tyPaths v.ty
      | _ => []), SegWords (QIdent.relative q (QIdent.namespace t.ident)) := fun q hq =>
    segWords_of S W A hx (List.mem_flatMap.mpr ⟨f, hf, hq⟩)
  obtain ⟨k, hk⟩ := List.mem_iff_getElem?.mp hf
  obtain ⟨g, -, -, -, -, hkind⟩ := G.fields k f hk
  refine ⟨?_, fun q h => hq q (List.mem_append_left _ h), ?_, ?_, ?_⟩
  · obtain ⟨y, -, hy⟩ := mapM_image hfs f hf
    exact word_of_format h1 hy
  · intro i hd
    obtain ⟨args, dflt, adds, consts, accs, ds, -, -, -, -, h5, -⟩ := S.table hx
    obtain ⟨y, -, hy⟩ := mapM_image h5 f hf
    simp only [Rs.accessor, hd, Rs.getDefault, Rs.defaultValue, Option.map_eq_some_iff, Option.bind_eq_bind,
      Option.bind_eq_some_iff] at hy
    obtain ⟨-, -, -, -, -, -, -, ⟨-, ⟨j, hj, -⟩, -⟩, -⟩ := hy
    exact word_of_format (h2 i hd) hj
  · intro s hd
    rw [hd] at hkind
    cases hty : f.ty <;> rw [hty] at hkind <;> simp only [Gen.kindOf, reduceCtorEq] at hkind
    case builtin b =>
      cases s with
      | boolean b => exact .inl ⟨b, rfl⟩
      | _ =>
        right
        refine ⟨b, rfl, ?_⟩
        rintro rfl
        simp [Gen.builtinSTy, Gen.literal] at hkind
    case «enum» q vs b =>
      simp [Gen.enumDefault] at hkind
    case «union» q e vs =>
      cases s with
      | boolean b => exact .inl ⟨b, rfl⟩
      | _ => simp [Gen.unionDefault] at hkind
  · intro q e vs hty
    rw [hty] at hq
    have hdef := D f hf
    rw [hty] at hdef
    obtain ⟨⟨p', y⟩, hy, hyd⟩ := hdef
    cases y <;> simp only [Node.defines, Option.some.injEq, Prod.mk.injEq, reduceCtorEq, and_false,
      Ir.CustomType.union.injEq] at hyd
    obtain ⟨rfl, rfl, rfl⟩ := hyd
    refine ⟨hq _ (by simp), fun v hv => ⟨((union_words S W A hy).variants v hv).1, fun q hm => hq q ?_⟩⟩
    exact List.mem_append_right _ (List.mem_cons_of_mem _ (List.mem_cons_of_mem _ (List.mem_flatMap.mpr ⟨v, hv, hm⟩)))

end

mutual
theorem nodeWords_of (gm : Mode) (R : List Ident) : ∀ (n : Node) (P : Program) (path : List Str), emitNode gm path n = some P →
    (∀ p ∈ Gen.modPaths R n, Chars (QIdent.simple p)) →
    (∀ x ∈ n.leaves R, NodeWords x.2) → NodeWords n
  | .table _, P, path, h, hm, hx | .struct _, P, path, h, hm, hx | .enum _, P, path, h, hm, hx | .union _, P, path, h, hm, hx
  | .rpc _, P, path, h, hm, hx => hx _ (by simp only [Ir.Node.leaves, List.mem_singleton]; rfl)
  | .namespace i ns, P, path, h, hm, hx => by
    simp only [emitNode, Option.bind_eq_bind, Option.bind_eq_some_iff, Option.pure_def, Option.some.injEq] at h
    obtain ⟨m, hm', items, hi, rfl⟩ := h
    simp only [NodeWords]
    simp only [Gen.modPaths] at hm
    have h1 := hm _ List.mem_cons_self
    rw [show QIdent.simple (R ++ [QIdent.simple i]) = QIdent.simple i by simp [QIdent.simple]] at h1
    exact ⟨wordOk_of (snake_all h1) hm', treeWords_of gm (R ++ [QIdent.simple i]) ns items _ hi (fun p hp => hm p (List.mem_cons_of_mem _ hp)) hx⟩
theorem treeWords_of (gm : Mode) (R : List Ident) : ∀ (ns : List Node) (P : Program) (path : List Str), emitNodes gm path ns = some P →
    (∀ p ∈ Gen.modPathsL R ns, Chars (QIdent.simple p)) →
    (∀ x ∈ Node.leavesL R ns, NodeWords x.2) → TreeWords ns
  | [], P, path, h, hm, hx => by simp only [TreeWords]
  | n :: ns, P, path, h, hm, hx => by
    simp only [emitNodes, Option.bind_eq_bind, Option.bind_eq_some_iff, Option.pure_def, Option.some.injEq] at h
    obtain ⟨a, ha, b, hb, rfl⟩ := h
    simp only [TreeWords]
    simp only [Gen.modPathsL, List.mem_append] at hm
    exact ⟨nodeWords_of gm R n a path ha (fun p hp => hm p (.inl hp)) fun x h => hx x (by simp [Ir.Node.leavesL, h]),
      treeWords_of gm R ns b path hb (fun p hp => hm p (.inr hp)) fun x h => hx x (by simp [Ir.Node.leavesL, h])⟩
end

/-- The names of a well-typed program, from a schema with names in ASCII, of tables that there is working code for. -/
theorem treeWords {gm : Mode} {s : Ast.Schema} {out : List Node} {P : Program} (hb : Ir.build s = some (.ok out))
    (S : Setting gm s.elements out P) (W : WellTyped P) (A : Ascii s.elements)
    (hc : ∀ p t, (p, Node.table t) ∈ itemsOf out → ∃ gs, Gen.compileTable gm t = some gs)
    (hi : ∀ x ∈ itemsOf out, x.2.isItem = true) : TreeWords out := by
  refine treeWords_of gm [] out P [] S.emitted ?_ ?_
  · intro p hp
    obtain ⟨h1, hprop, -⟩ := Ir.C50_output hb
    obtain ⟨x, hx, hpx⟩ := Gen.modPathsL_leaf [] out hprop p hp
    refine simple_chars fun s hs => (item_chars S.translates A hx).ident s ?_
    have := hpx.subset hs
    rw [h1 x hx] at this
    exact List.dropLast_subset _ this
  · rintro ⟨p, n⟩ hx
    cases n with
    | table t =>
      obtain ⟨gs, hgs⟩ := hc p t hx
      exact table_words S W A hx hgs
    | «enum» e => exact enum_words S A hx
    | union u => exact union_words S W A hx
    | struct | rpc => trivial
    | «namespace» i ns => exact absurd (hi _ hx) (by simp [Ir.Node.isItem])

end Butte.Src
