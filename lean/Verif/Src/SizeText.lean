import Verif.Src.Size
import Verif.Ir.Report
import Verif.Ir.StepsText
/-
How many tokens the generator gives, against the length of the text of the schema.
-/
namespace Butte.Src
open Ir Ir.Timed Parse
open Ast (Element)
open Quote (nsLen parts FieldFits ItemFits itemWeight leafBound sum_const sum_add)

/-! ### What is written -/

/-- The number of array brackets and parts of the name of a type, as written. -/
def tyParts : Ast.Ty → Nat
  | .array t => tyParts t + 1
  | .ident q => q.length
  | _ => 1

/-- The parts of the type, the lines of documentation, and one. -/
def fieldSize (f : Ast.Field) : Nat := tyParts f.ty + f.doc.length + 1

/-- The lines of documentation, and one. -/
def variantSize (v : Ast.EnumVariant) : Nat := v.doc.length + 1

/-- The size of a declaration. -/
def elSize : Element → Nat
  | .table t | .struct t => (t.fields.map fieldSize).sum + t.doc.length + 1
  | .enum e => (e.variants.map variantSize).sum + e.doc.length + 1
  | .union u => (u.variants.map variantSize).sum + u.doc.length + 1
  | .namespace q _ => q.length + 1
  | _ => 1

/-- The size of a schema. -/
def schemaSize (s : Ast.Schema) : Nat := (s.elements.map elSize).sum

section text
variable [Env]

omit [Env] in
theorem sep_size {α : Type} {c : Char} {R : α → Str → Prop} {w : α → Nat} {l : List α} {t : Str} (hR : ∀ a t, R a t → w a ≤ t.length)
    (h : SepText c R l t) : (l.map w).sum ≤ t.length := by
  induction h with
  | one h => have := hR _ _ h; simp; omega
  | cons h _ _ _ ih =>
    have := hR _ _ h
    simp only [List.map_cons, List.sum_cons, List.length_append, List.length_cons]; omega

theorem qident_size {q : Ast.QIdent} {t : Str} (h : QIdentText q t) : q.length ≤ t.length := by
  have := sep_size (w := fun _ => 1) (fun a t (h : IdentText a t) => by obtain ⟨h, rfl⟩ := h; exact ident_pos h) h
  rw [sum_const] at this
  omega

theorem ty_size {ty : Ast.Ty} {t : Str} (h : TyText ty t) : tyParts ty ≤ t.length := by
  induction h with
  | builtin b => exact builtinName_pos b
  | string => decide
  | array _ ih => simp only [tyParts, List.length_cons, List.length_append]; omega
  | ident _ h => exact qident_size h

omit [Env] in
theorem doc_size {d : Ast.Comment} {t : Str} (h : DocText d t) : d.length ≤ t.length := by
  induction h with
  | nil => simp
  | cons _ _ _ _ ih => simp only [List.length_cons, List.length_append]; omega

theorem field_size {f : Ast.Field} {t : Str} (h : FieldText f t) : fieldSize f ≤ t.length := by
  cases h with
  | mk hd _ _ _ h _ _ _ _ =>
    have := ty_size h
    have := doc_size hd
    simp only [fieldSize, List.length_append, List.length_cons]; omega

theorem variant_size {v : Ast.EnumVariant} {t : Str} (h : VariantText v t) : variantSize v ≤ t.length := by
  cases h with
  | mk hd h _ =>
    have := ident_pos h
    have := doc_size hd
    simp only [variantSize, List.length_append]; omega

theorem body_size {vs : List Ast.EnumVariant} {t : Str} (h : BodyText vs t) : (vs.map variantSize).sum ≤ t.length := by
  cases h with
  | plain _ _ h _ => have := sep_size (w := variantSize) (fun _ _ h => variant_size h) h; simp only [List.length_append, List.length_cons]; omega
  | comma _ _ h _ _ => have := sep_size (w := variantSize) (fun _ _ h => variant_size h) h; simp only [List.length_append, List.length_cons]; omega

theorem product_size {kw : Str} {p : Ast.Product} {t : Str} (h : ProductText kw p t) :
    (p.fields.map fieldSize).sum + p.doc.length + 1 ≤ t.length := by
  cases h with
  | mk hd _ _ _ _ _ _ _ h =>
    have := many_weight (w := fieldSize) (fun _ _ h => field_size h) h
    have := doc_size hd
    simp only [List.length_append, List.length_cons]; omega

theorem element_size {el : Element} {t : Str} (h : ElementText el t) : elSize el ≤ t.length := by
  have hk : ∀ {kw : Str} {gap : Bool} {d : Ast.Comment} {s t : Str}, KeywordText kw gap d s t → s.length + 1 ≤ t.length := by
    rintro kw gap d s t ⟨_, _, _, _⟩
    simp only [List.length_append, List.length_cons]; omega
  cases h with
  | «namespace» hq h => have := hk h; have := qident_size hq; simp only [elSize]; omega
  | table h => exact product_size h
  | struct h => exact product_size h
  | enum h =>
    cases h with
    | mk hd _ _ _ _ _ _ _ h =>
      have := body_size h
      have := doc_size hd
      simp only [elSize, List.length_append, List.length_cons]; omega
  | union h =>
    cases h with
    | mk hd _ _ _ _ _ h =>
      have := body_size h
      have := doc_size hd
      simp only [elSize, List.length_append, List.length_cons]; omega
  | root _ h => have := hk h; simp only [elSize]; omega
  | fileExtension _ h => have := hk h; simp only [elSize]; omega
  | fileIdentifier _ h => have := hk h; simp only [elSize]; omega
  | «attribute» _ h => have := hk h; simp only [elSize]; omega
  | rpc h => cases h; simp only [elSize, List.length_append, List.length_cons]; omega
  | object h =>
    cases h with
    | empty _ _ => simp only [elSize, List.length_append, List.length_cons]; omega
    | some _ _ _ _ => simp only [elSize, List.length_append, List.length_cons]; omega

theorem schema_size {s : Ast.Schema} {t : Str} (h : SchemaText s t) : schemaSize s ≤ t.length := by
  cases h with
  | empty => simp [schemaSize]
  | mk _ _ _ h _ =>
    have := many_weight (w := elSize) (fun _ _ h => element_size h) h
    simp only [schemaSize, List.length_append]; omega

end text

/-! ### What is in the output -/

theorem sum_mem {α : Type} (l : List α) (f : α → Nat) {a : α} (h : a ∈ l) : f a ≤ (l.map f).sum := by
  induction l with
  | nil => cases h
  | cons b l ih =>
    rcases List.mem_cons.mp h with rfl | h
    · simp
    · have := ih h; simp only [List.map_cons, List.sum_cons]; omega

theorem el_size {s : Ast.Schema} {el : Element} (h : el ∈ s.elements) : elSize el ≤ schemaSize s := sum_mem _ elSize h

theorem lastNs_written (E : List Element) : lastNs E = none ∨ ∃ q d, .namespace q d ∈ E ∧ lastNs E = some q := by
  unfold lastNs
  suffices ∀ ns, E.foldl nsAfter ns = ns ∨ ∃ q d, Element.namespace q d ∈ E ∧ E.foldl nsAfter ns = some q from this none
  induction E with
  | nil => intro ns; exact .inl rfl
  | cons e E ih =>
    intro ns
    rcases ih (nsAfter ns e) with h | ⟨q, d, h1, h2⟩
    · cases e with
      | «namespace» q d => exact .inr ⟨q, d, by simp, h⟩
      | _ => exact .inl h
    · exact .inr ⟨q, d, by simp [h1], h2⟩

theorem ns_size {s : Ast.Schema} {p : Nat} {ns : Option Ast.QIdent} (h : NsOk s.elements p ns) : (ns.getD []).length ≤ schemaSize s := by
  have key : ∀ E : List Element, (∀ e ∈ E, e ∈ s.elements) → ((lastNs E).getD []).length ≤ schemaSize s := by
    intro E hE
    rcases lastNs_written E with h | ⟨q, d, h1, h2⟩
    · rw [h]; simp
    · have := el_size (hE _ h1)
      rw [h2]
      simp only [elSize] at this
      simp only [Option.getD_some]; omega
  rcases h with rfl | rfl
  · exact key _ (fun e he => List.mem_of_mem_take he)
  · exact key _ (fun e he => he)

theorem refIn_length {S : Nat} {ns : Option Ast.QIdent} (h : (ns.getD []).length ≤ S) (q : Ast.QIdent) :
    (refIn ns q).length ≤ S + q.length := by
  unfold refIn
  split <;> simp only [List.length_append, List.length_map] <;> omega

theorem ref_parts (q : QIdent) (ct : CustomType) : parts (ct.ref q) = q.length + 1 := by cases ct <;> rfl

theorem means_parts {S : Nat} {N : Names} {ns : Option Ast.QIdent} (h : (ns.getD []).length ≤ S) {t : Ast.Ty} {ty : Ir.Ty}
    (hm : Means N ns t ty) : parts ty ≤ tyParts t + S + 1 := by
  induction hm with
  | builtin b => simp [parts, tyParts]
  | string => simp [parts, tyParts]
  | array _ ih => simp only [parts, tyParts]; omega
  | table q _ => have := refIn_length h q; simp only [parts, tyParts]; omega
  | custom q ct _ => have := refIn_length h q; rw [ref_parts]; simp only [tyParts]; omega

theorem means_union {N : Names} {ns : Option Ast.QIdent} {t : Ast.Ty} {q e : QIdent} {vs : List UnionVariant}
    (hm : Means N ns t (.union q e vs)) : N.dfn q (.union e vs) := by
  cases t with
  | builtin b => cases hm
  | string => cases hm
  | array t => cases hm
  | ident r =>
    generalize hty : Ir.Ty.union q e vs = ty at hm
    cases hm with
    | table q _ => cases hty
    | custom q ct h =>
      cases ct with
      | union e' vs' => simp only [CustomType.ref, Ir.Ty.union.injEq] at hty; obtain ⟨rfl, rfl, rfl⟩ := hty; exact h
      | _ => cases hty

/-- What is known of the items of a declaration. -/
theorem emits_item {S : Nat} {N : Names} {ns : Option Ast.QIdent} {el : Element} {g : List Node} (hns : (ns.getD []).length ≤ S)
    (he : Emits N ns el g) : ∀ n ∈ g, n.ident.length ≤ S + 2 ∧
      (∀ u, n = .union u → u.enumIdent.length ≤ S + 2 ∧ u.variants.length ≤ elSize el ∧ ∀ v ∈ u.variants, parts v.ty ≤ S + 2) := by
  have hname : ∀ i, (nameIn ns i).length ≤ S + 2 := by
    intro i; simp only [nameIn, List.length_append, List.length_map, List.length_cons, List.length_nil]; omega
  have htag : ∀ i, (tagEnumIn ns i).length ≤ S + 2 := by
    intro i; simp only [tagEnumIn, List.length_append, List.length_map, List.length_cons, List.length_nil]; omega
  cases he with
  | table t fields root h => intro n hn; cases List.mem_singleton.mp hn; exact ⟨hname _, fun u hu => by cases hu⟩
  | struct s fields h => intro n hn; cases List.mem_singleton.mp hn; exact ⟨hname _, fun u hu => by cases hu⟩
  | enum e base h => intro n hn; cases List.mem_singleton.mp hn; exact ⟨hname _, fun u hu => by cases hu⟩
  | rpc r ms h => intro n hn; cases List.mem_singleton.mp hn; exact ⟨hname _, fun u hu => by cases hu⟩
  | union u vs h =>
    intro n hn
    rcases List.mem_cons.mp hn with rfl | hn
    · exact ⟨htag _, fun u hu => by cases hu⟩
    · cases List.mem_singleton.mp hn
      refine ⟨hname _, fun w hw => ?_⟩
      cases hw
      refine ⟨htag _, ?_, ?_⟩
      · have e1 : vs.length = u.variants.length := by
          clear hn
          generalize u.variants = l at h
          induction h with
          | nil => rfl
          | cons _ _ ih => simp [ih]
        have e2 : u.variants.length ≤ (u.variants.map variantSize).sum := by
          generalize u.variants = l
          induction l with
          | nil => simp
          | cons v l ih => simp only [List.length_cons, List.map_cons, List.sum_cons, variantSize]; omega
        simp only [elSize]; omega
      · intro v hv
        obtain ⟨a, ha, ty, hm, rfl⟩ := all₂_right h hv
        have := means_parts hns hm
        simpa [tyParts, Nat.add_comm, Nat.add_assoc, Nat.add_left_comm] using this

theorem emits_weight {N : Names} {ns : Option Ast.QIdent} {el : Element} {g : List Node} (he : Emits N ns el g) :
    (g.map itemWeight).sum ≤ 3 * elSize el := by
  have hv : ∀ vs : List Ast.EnumVariant, (vs.map variantSize).sum = vs.length + (vs.map (·.doc.length)).sum := by
    intro vs
    induction vs with
    | nil => rfl
    | cons v vs ih => simp only [List.map_cons, List.sum_cons, List.length_cons, ih, variantSize]; omega
  cases he with
  | table t fields root h =>
    have : fields.length + (fields.map (·.doc.length)).sum ≤ 2 * (t.fields.map fieldSize).sum := by
      generalize t.fields = l at h
      induction h with
      | nil => simp
      | plain _ _ _ _ ih => simp only [List.length_cons, List.map_cons, List.sum_cons, fieldSize] at *; omega
      | union _ _ _ _ ih => simp only [List.length_cons, List.map_cons, List.sum_cons, fieldSize] at *; omega
    simp only [List.map_cons, List.map_nil, List.sum_cons, List.sum_nil, itemWeight, elSize]; omega
  | struct s fields h => simp [itemWeight, elSize]; omega
  | enum e base h =>
    have := hv e.variants
    simp only [List.map_cons, List.map_nil, List.sum_cons, List.sum_nil, itemWeight, elSize, List.length_map, List.map_map] at *
    have e1 : (List.map ((fun x : EnumVariant => x.doc.length) ∘ fun v : Ast.EnumVariant => ⟨fixIdentifier v.id, v.value, v.doc⟩) e.variants) =
      e.variants.map (·.doc.length) := rfl
    rw [e1]; omega
  | union u vs h =>
    have := hv u.variants
    have e1 : (List.map ((fun x : EnumVariant => x.doc.length) ∘ fun v : Ast.EnumVariant => ⟨fixIdentifier v.id, none, v.doc⟩) u.variants) =
      u.variants.map (·.doc.length) := rfl
    have e2 : vs.length = u.variants.length ∧ (vs.map (·.doc.length)).sum = (u.variants.map (·.doc.length)).sum := by
      clear e1 this
      generalize u.variants = l at h
      induction h with
      | nil => simp
      | cons h _ ih =>
        obtain ⟨_, _, rfl⟩ := h
        simp [ih]
    simp only [List.map_cons, List.map_nil, List.sum_cons, List.sum_nil, itemWeight, elSize, List.length_map, List.map_map,
      List.length_cons, List.length_nil, e1] at *
    omega
  | rpc r ms h => simp [itemWeight, elSize]

theorem fields_fit {S V : Nat} {N : Names} {ns : Option Ast.QIdent} {nsI : Option QIdent} (hns : (ns.getD []).length ≤ S)
    (hI : nsLen nsI ≤ S + 1) (hd : ∀ q ct, N.dfn q ct → q.length ≤ S + 2 ∧ ∀ e vs, ct = .union e vs →
      e.length ≤ S + 2 ∧ vs.length ≤ V ∧ ∀ v ∈ vs, parts v.ty ≤ S + 2)
    {fs : List Ast.Field} {gs : List Ir.Field} (hfs : ∀ f ∈ fs, tyParts f.ty ≤ S) (h : FieldsMean N ns fs gs) :
    ∀ g ∈ gs, FieldFits (28 * S + 60) V nsI g := by
  induction h with
  | nil => intro g hg; cases hg
  | plain _ hm hu _ ih =>
    intro g hg
    rcases List.mem_cons.mp hg with rfl | hg
    · have := means_parts hns hm
      have := hfs _ List.mem_cons_self
      exact ⟨by dsimp only; omega, fun q e vs h => by simp only at h; subst h; cases hu⟩
    · exact ih (fun f hf => hfs f (by simp [hf])) g hg
  | union _ hm he _ ih =>
    intro g hg
    rcases List.mem_cons.mp hg with rfl | hg
    · have := (hd _ _ he).1
      exact ⟨by simp only [parts]; omega, fun q e vs h => by cases h⟩
    · rcases List.mem_cons.mp hg with rfl | hg
      · have := means_parts hns hm
        have := hfs _ List.mem_cons_self
        obtain ⟨_, h2⟩ := hd _ _ (means_union hm)
        obtain ⟨h3, h4, h5⟩ := h2 _ _ rfl
        refine ⟨by dsimp only; omega, fun q e vs h => ?_⟩
        cases h
        exact ⟨h4, by omega, fun v hv => by have := h5 v hv; omega⟩
      · exact ih (fun f hf => hfs f (by simp [hf])) g hg

theorem declPositions_sum (E : List Element) (w : Element → Nat) :
    ((declPositions E).map fun p => (E[p]?.map w).getD 0).sum ≤ (E.map w).sum := by
  have h1 : ∀ (l : List Nat) (p : Nat → Bool) (f : Nat → Nat), ((l.filter p).map f).sum ≤ (l.map f).sum := by
    intro l p f
    induction l with
    | nil => simp
    | cons a l ih =>
      rw [List.filter_cons]
      split <;> simp only [List.map_cons, List.sum_cons] <;> omega
  refine Nat.le_trans (h1 _ _ _) (Nat.le_of_eq ?_)
  congr 1
  apply List.ext_getElem
  · simp
  · intro i h1 h2
    simp at h2
    simp [List.getElem?_eq_getElem h2]

theorem all₂_sum {α β : Type} {R : α → β → Prop} {l : List α} {l' : List β} {f : α → Nat} {g : β → Nat} (h : All₂ R l l')
    (hR : ∀ a b, R a b → g b ≤ f a) : (l'.map g).sum ≤ (l.map f).sum := by
  induction h with
  | nil => simp
  | cons h _ ih => have := hR _ _ h; simp only [List.map_cons, List.sum_cons]; omega

theorem sum_flatten (gs : List (List Node)) (w : Node → Nat) : (gs.flatten.map w).sum = (gs.map fun g => (g.map w).sum).sum := by
  induction gs with
  | nil => rfl
  | cons g gs ih => simp only [List.flatten_cons, List.map_append, List.sum_append, List.map_cons, List.sum_cons, ih]

theorem perm_sum {l l' : List Nat} (h : l.Perm l') : l.sum = l'.sum := by
  induction h with
  | nil => rfl
  | cons _ _ ih => simp only [List.sum_cons, ih]
  | swap _ _ _ => simp only [List.sum_cons]; omega
  | trans _ _ h1 h2 => exact h1.trans h2

theorem sum_le {α : Type} (l : List α) {f g : α → Nat} (h : ∀ a ∈ l, f a ≤ g a) : (l.map f).sum ≤ (l.map g).sum := by
  induction l with
  | nil => simp
  | cons a l ih =>
    have := h a (by simp)
    have := ih (fun a ha => h a (by simp [ha]))
    simp only [List.map_cons, List.sum_cons]; omega

theorem namespace_length (q : QIdent) : nsLen (QIdent.namespace q) ≤ q.length - 1 := by
  unfold QIdent.namespace nsLen
  split <;> simp

theorem itemWeight_pos (n : Node) : 1 ≤ itemWeight n := by cases n <;> simp [itemWeight]

theorem emits_variants {N : Names} {ns : Option Ast.QIdent} {el : Element} {g : List Node} (he : Emits N ns el g) {u : Ir.Union}
    (hu : Node.union u ∈ g) : ∃ u' : Ast.Union, el = .union u' ∧ u.variants.length = u'.variants.length := by
  cases he with
  | union u' vs h =>
    refine ⟨u', rfl, ?_⟩
    simp only [List.mem_cons, reduceCtorEq, Node.union.injEq, false_or, List.not_mem_nil, or_false] at hu
    subst hu
    generalize u'.variants = l at h
    induction h with
    | nil => rfl
    | cons _ _ ih => simpa using ih
  | _ => simp at hu

/-- The generator gives at most this many tokens for a schema of this size, if no union has more than `V` members. -/
theorem tokens_size [FloatText] {s : Ast.Schema} {out : List Node} {gm : Mode} {ts : Toks} {V : Nat} (hV : ∀ u, Element.union u ∈ s.elements → u.variants.length ≤ V) (hb : Ir.build s = some (.ok out))
    (h : tokens gm out = some ts) : ts.length ≤ 3 * schemaSize s * ((V + 1) * (9 * (28 * schemaSize s + 60) + 700 + 5 * (schemaSize s + 1))) := by
  obtain ⟨c, hr, rfl⟩ := build_ok hb
  obtain ⟨groups, h1, h2, _⟩ := run_outcome hr
  have hmem : ∀ p el, s.elements[p]? = some el → el ∈ s.elements := fun p el h => List.mem_of_getElem? h
  -- every item comes from a declaration
  have hitem : ∀ n ∈ groups.flatten, n.ident.length ≤ schemaSize s + 2 ∧ (∀ u, n = .union u →
      u.enumIdent.length ≤ schemaSize s + 2 ∧ u.variants.length ≤ V ∧ ∀ v ∈ u.variants, parts v.ty ≤ schemaSize s + 2) := by
    intro n hn
    obtain ⟨g, hg, hng⟩ := List.mem_flatten.mp hn
    obtain ⟨p, _, el, ns, he, hok, hem⟩ := all₂_right h2 hg
    obtain ⟨i1, i2⟩ := emits_item (ns_size hok) hem n hng
    refine ⟨i1, fun u hu => ?_⟩
    obtain ⟨j1, j2, j3⟩ := i2 u hu
    subst hu
    obtain ⟨u', rfl, hl⟩ := emits_variants hem hng
    exact ⟨j1, hl ▸ hV u' (hmem p _ he), j3⟩
  have hfits : ∀ n ∈ groups.flatten, ItemFits (28 * schemaSize s + 60) V n := by
    intro n hn
    have hI := namespace_length n.ident
    obtain ⟨i1, i2⟩ := hitem n hn
    obtain ⟨g, hg, hng⟩ := List.mem_flatten.mp hn
    obtain ⟨p, _, el, ns, he, hok, hem⟩ := all₂_right h2 hg
    cases n with
    | table t =>
      have hel := el_size (hmem p el he)
      generalize hS : schemaSize s = S at *
      cases hem with
      | table t' fields root hf =>
        cases List.mem_singleton.mp hng
        refine fields_fit (hS ▸ ns_size hok) (by simp only [Node.ident] at hI i1 ⊢; omega) ?_ (fun f hf => ?_) hf
        · rintro q ct ⟨m, hm, hdef⟩
          obtain ⟨k1, k2⟩ := hitem m hm
          cases m <;> simp only [Node.defines, Option.some.injEq, Prod.mk.injEq, reduceCtorEq] at hdef <;> obtain ⟨rfl, rfl⟩ := hdef
          case union u => exact ⟨k1, fun e vs h => by cases h; exact k2 u rfl⟩
          all_goals exact ⟨k1, fun e vs h => by cases h⟩
        · have := sum_mem t'.fields fieldSize hf
          simp only [fieldSize, elSize] at this hel
          omega
      | union u vs h => simp at hng
      | _ => simp at hng
    | union u =>
      obtain ⟨j1, j2, j3⟩ := i2 u rfl
      simp only [Node.ident] at hI i1
      exact ⟨by omega, fun v hv => by have := j3 v hv; omega⟩
    | _ => trivial
  have hleaf : ∀ x ∈ Node.leavesL [] (arrange c.items), ItemFits (28 * schemaSize s + 60) V x.2 :=
    fun x hx => hfits x.2 (holds_path h1 hx).1
  obtain ⟨Q, hQ, htot⟩ : ∃ Q, (V + 1) * (9 * (28 * schemaSize s + 60) + 700) = Q ∧ ts.length ≤
      ((Node.leavesL [] (arrange c.items)).map (leafBound Q)).sum :=
    ⟨_, rfl, Nat.le_trans (Nat.le_add_right _ _) (Quote.nodes_total h1.2.1 hleaf h)⟩
  have hsum : ((Node.leavesL [] (arrange c.items)).map (leafBound Q)).sum ≤
      (groups.flatten.map fun n => itemWeight n * (Q + 5 * (schemaSize s + 1))).sum := by
    have hperm := (holds_perm h1).map fun n => itemWeight n * (Q + 5 * (schemaSize s + 1))
    rw [← perm_sum hperm, List.map_map]
    refine sum_le _ fun x hx => ?_
    obtain ⟨p1, p2⟩ := holds_path h1 hx
    have := (hitem x.2 p1).1
    have hl : x.1.length ≤ schemaSize s + 1 := by rw [← p2, List.length_dropLast]; omega
    have hw := itemWeight_pos x.2
    have : 5 * (schemaSize s + 1) ≤ itemWeight x.2 * (5 * (schemaSize s + 1)) := Nat.le_mul_of_pos_left _ hw
    show itemWeight x.2 * Q + 5 * x.1.length ≤ itemWeight x.2 * (Q + 5 * (schemaSize s + 1))
    rw [Nat.mul_add]
    omega
  have hweight : (groups.flatten.map itemWeight).sum ≤ 3 * schemaSize s := by
    rw [sum_flatten]
    refine Nat.le_trans (all₂_sum (f := fun p => (s.elements[p]?.map fun el => 3 * elSize el).getD 0) h2 ?_) ?_
    · rintro p g ⟨el, ns, he, _, hem⟩
      rw [he]
      exact emits_weight hem
    · refine Nat.le_trans (declPositions_sum _ _) (Nat.le_of_eq ?_)
      rw [Quote.sum_mul]; rfl
  have hmul : (groups.flatten.map fun n => itemWeight n * (Q + 5 * (schemaSize s + 1))).sum =
      (groups.flatten.map itemWeight).sum * (Q + 5 * (schemaSize s + 1)) := by
    generalize Q + 5 * (schemaSize s + 1) = R
    rw [Nat.mul_comm _ R, ← Quote.sum_mul]
    simp only [Nat.mul_comm]
  rw [Nat.mul_add (V + 1) _ (5 * _), hQ]
  have h5 : 5 * (schemaSize s + 1) ≤ (V + 1) * (5 * (schemaSize s + 1)) := Nat.le_mul_of_pos_left _ (by omega)
  exact Nat.le_trans htot (Nat.le_trans hsum (hmul ▸ Nat.mul_le_mul hweight (Nat.add_le_add_left h5 _)))

/-- Quadratic, times the number of members of the largest union. -/
theorem tokens_quadratic [FloatText] {s : Ast.Schema} {out : List Node} {gm : Mode} {ts : Toks} {V n : Nat}
    (hV : ∀ u, Element.union u ∈ s.elements → u.variants.length ≤ V) (hb : Ir.build s = some (.ok out))
    (h : tokens gm out = some ts) (hn : schemaSize s ≤ n) : ts.length ≤ 4000 * (V + 1) * (n + 1) ^ 2 := by
  refine Nat.le_trans (tokens_size hV hb h) ?_
  generalize schemaSize s = S at *
  have h1 : 9 * (28 * S + 60) + 700 + 5 * (S + 1) ≤ 1250 * (n + 1) := by omega
  calc 3 * S * ((V + 1) * (9 * (28 * S + 60) + 700 + 5 * (S + 1))) ≤ 3 * (n + 1) * ((V + 1) * (1250 * (n + 1))) :=
        Nat.mul_le_mul (by omega) (Nat.mul_le_mul_left _ h1)
    _ = 3750 * ((V + 1) * (n + 1) ^ 2) := by
        rw [Nat.pow_succ, Nat.pow_one]
        generalize n + 1 = m
        simp only [Nat.mul_left_comm _ 1250, Nat.mul_assoc, Nat.mul_left_comm m (V + 1)]
        omega
    _ ≤ 4000 * ((V + 1) * (n + 1) ^ 2) := Nat.mul_le_mul_right _ (by omega)
    _ = 4000 * (V + 1) * (n + 1) ^ 2 := (Nat.mul_assoc _ _ _).symm

/-- At most cubic. -/
theorem tokens_cubic [FloatText] {s : Ast.Schema} {out : List Node} {gm : Mode} {ts : Toks} {n : Nat} (hb : Ir.build s = some (.ok out))
    (h : tokens gm out = some ts) (hn : schemaSize s ≤ n) : ts.length ≤ 4000 * (n + 1) ^ 3 := by
  have hV : ∀ u, Element.union u ∈ s.elements → u.variants.length ≤ n := by
    intro u hu
    have := el_size hu
    have e2 : u.variants.length ≤ (u.variants.map variantSize).sum := by
      generalize u.variants = l
      induction l with
      | nil => simp
      | cons v l ih => simp only [List.length_cons, List.map_cons, List.sum_cons, variantSize]; omega
    simp only [elSize] at this
    omega
  refine Nat.le_trans (tokens_quadratic hV hb h hn) (Nat.le_of_eq ?_)
  rw [Nat.pow_succ _ 2, Nat.mul_assoc, Nat.mul_comm (n + 1)]

end Butte.Src
