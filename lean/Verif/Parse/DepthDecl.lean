import Verif.Parse.DepthExact
/-
The stack that reading declarations takes, in terms of the nesting of what is read.
-/
namespace Butte.Parse.Stack

open Ast

variable {α β γ : Type} [Env]

def fieldDecl_tight : Tight fieldDecl (fun f => nestTy f.ty) :=
  Tight.map (((tight_flat _).pair ((tight_flat _).pair (type_tight.pair (tight_flat _)))).before) _ (fun a => by
    show nestTy a.2.2.1 = max 0 (max 0 (max (nestTy a.2.2.1) 0))
    omega)

theorem doc_total (i : Str) : ∃ r c, Parse.docComment i = some (r, c) := by
  obtain ⟨r, c, h, -⟩ := many0_total docLine_strict i
  exact ⟨r, c, h⟩

omit [Env] in
theorem pair_run_left {p : DP α} {q : DP β} {i : Str} (h : p.run i = none) : (pair p q).run i = none := by
  show Parse.pair p.run q.run i = none
  simp only [Parse.pair, h]

omit [Env] in
theorem pair_run_right {p : DP α} {q : DP β} {i r : Str} {a : α} (h : p.run i = some (r, a)) (h' : q.run r = none) :
    (pair p q).run i = none := by
  show Parse.pair p.run q.run i = none
  simp only [Parse.pair, h, h']

/-- In front of the closing bracket of a table. -/
theorem fieldDecl_end (x : Str) : fieldDecl.deep ('}' :: x) ≤ 17 := by
  have f1 := flat docComment ('}' :: x)
  rw [docComment_C] at f1
  have f2 := flat ident ('}' :: x)
  rw [ident_C] at f2
  have h1 : ident.run ('}' :: x) = none := ident_none (by decide) (by decide) (by decide) x
  have h2 : docComment.run ('}' :: x) = some ('}' :: x, []) := Timed.doc_stays (i := '}' :: x) rfl
  unfold fieldDecl
  show (pair (pair docComment _) _).deep ('}' :: x) + 1 + 1 ≤ _
  have h3 : (terminated ident (pair cos0 (pair (char ':') cos0))).run ('}' :: x) = none := by
    show Parse.map (Parse.pair ident.run _) _ _ = none
    simp only [Parse.map, Parse.pair, h1]
  rw [pair_deep_none, pair_deep_some h2, pair_deep_none h3]
  · show max _ ((pair ident _).deep _ + 1 + 1) + 1 + 1 + 1 + 1 ≤ _
    rw [pair_deep_none h1]
    omega
  · exact pair_run_right h2 (pair_run_left h3)

omit [Env] in
/-- A loop all of whose rounds but the last succeed. -/
theorem manyDeep_exact {p : DP α} {m : α → Nat} {C : Nat}
    (hp : ∀ i r a, p.run i = some (r, a) → m a ≤ p.deep i ∧ p.deep i ≤ C + 12 * m a) :
    ∀ n i r l, Parse.manyGo p.run n i = some (r, l) → p.deep r ≤ C →
      big m l ≤ manyDeep p n i ∧ manyDeep p n i ≤ C + 12 * big m l
  | 0, _, _, _, e, _ => by cases e
  | n + 1, i, r, l, e, hr => by
    unfold Parse.manyGo at e
    unfold manyDeep
    cases h : p.run i with
    | none =>
      rw [h] at e
      cases e
      simp only [big]
      omega
    | some x =>
      rw [h] at e
      simp only at e ⊢
      split at e
      · cases e
      · rename_i hne
        rw [if_neg hne]
        obtain ⟨as, e', rfl⟩ := push_some e
        obtain ⟨l1, u1⟩ := hp _ _ _ h
        obtain ⟨l2, u2⟩ := manyDeep_exact hp n _ _ _ e' hr
        simp only [big]
        omega

def spacedField_tight : Tight (delimited cos0 fieldDecl cos0) (fun f => nestTy f.ty) := fieldDecl_tight.within

theorem spacedField_C : spacedField_tight.C = 48 := by kernel_rfl

omit [Env] in
/-- A rule behind white space and comments. -/
theorem spaced_deep {p : DP α} {i j : Str} {u : Unit} (h : Parse.cos0 i = some (j, u)) {D : Nat} (hD : 9 ≤ D) (hp : p.deep j ≤ D) :
    (delimited cos0 p cos0).deep i ≤ D + 4 := by
  have f1 := flat cos0 i
  have g : Low.C 0 cos0 = 8 := rfl
  show (pair cos0 _).deep i + 1 ≤ _
  rw [pair_deep_some (show cos0.run i = _ from h)]
  have : (terminated p cos0).deep j ≤ D + 2 := by
    show (pair p cos0).deep j + 1 ≤ _
    cases e : p.run j with
    | none => rw [pair_deep_none e]; omega
    | some x =>
      rw [pair_deep_some e]
      have := flat cos0 x.1
      omega
  omega

/-- The fields of a table or struct. -/
theorem fields_exact {i r : Str} {l : List Field}
    (e : (delimited (preceded (char '{') cos0) (many0 (delimited cos0 fieldDecl cos0)) (terminated cos0 (char '}'))).run i = some (r, l)) :
    big (fun f : Field => nestTy f.ty) l ≤
      (delimited (preceded (char '{') cos0) (many0 (delimited cos0 fieldDecl cos0)) (terminated cos0 (char '}'))).deep i ∧
    (delimited (preceded (char '{') cos0) (many0 (delimited cos0 fieldDecl cos0)) (terminated cos0 (char '}'))).deep i ≤
      53 + 12 * big (fun f : Field => nestTy f.ty) l := by
  obtain ⟨j, k, _, _, h1, h2, h3⟩ := delimited_inv e
  have hdeep : (delimited (preceded (char '{') cos0) (many0 (delimited cos0 fieldDecl cos0)) (terminated cos0 (char '}'))).deep i =
      max ((preceded (char '{') cos0).deep i) (max (manyDeep (delimited cos0 fieldDecl cos0) (j.length + 1) j + 1) ((terminated cos0 (char '}')).deep k) + 2) + 2 := by
    show (pair (preceded (char '{') cos0) (terminated _ _)).deep i + 1 = _
    rw [pair_deep_some h1]
    show max _ ((pair _ _).deep j + 1) + 1 + 1 = _
    rw [pair_deep_some h2]
    rfl
  have f1 := flat (preceded (char '{') cos0) i
  have f2 := flat (terminated cos0 (char '}')) k
  have g1 : Low.C 0 (preceded (char '{') cos0) = 10 := rfl
  have g2 : Low.C 0 (terminated cos0 (char '}')) = 10 := rfl
  have hk : (delimited cos0 fieldDecl cos0).deep k ≤ 48 := by
    obtain ⟨k', _, h4, h5⟩ := terminated_inv h3
    have := char_inv (show Parse.char '}' k' = _ from h5)
    subst this
    exact Nat.le_trans (spaced_deep h4 (by decide) (fieldDecl_end _)) (by decide)
  have := manyDeep_exact (m := fun f : Field => nestTy f.ty) (fun i r a e => ⟨spacedField_tight.lo i r a e, by
    have := spacedField_tight.hi i r a e
    rwa [spacedField_C] at this⟩) (j.length + 1) j k l h2 hk
  rw [hdeep]
  omega

def fields_tight : Tight (delimited (preceded (char '{') cos0) (many0 (delimited cos0 fieldDecl cos0)) (terminated cos0 (char '}')))
    (big fun f : Field => nestTy f.ty) where
  C := 53
  lo _ _ _ e := (fields_exact e).1
  hi _ _ _ e := (fields_exact e).2

def productTypeBody_tight : Tight productTypeBody (fun x => big (fun f : Field => nestTy f.ty) x.2.2) :=
  ((tight_flat _).pair ((tight_flat _).pair fields_tight)).raise (fun a => by
    show _ = max 0 (max 0 _)
    omega)

def productDecl_tight (kw : Str) : Tight (productDecl kw) nestProduct :=
  Tight.map ((tight_flat _).pair productTypeBody_tight.after) _ (fun a => by
    show big (fun f : Field => nestTy f.ty) a.2.2.2 = max 0 _
    omega)

def enumDecl_tight : Tight enumDecl (fun e => nestTy e.baseType) :=
  Tight.map ((tight_flat _).pair ((tight_flat _).pair (type_tight.after.after.pair (tight_flat _)))) _ (fun a => by
    show nestTy a.2.2.1 = max 0 (max 0 (max (nestTy a.2.2.1) 0))
    omega)

/-! ### Declarations that are not there -/

theorem productDecl_absent {kw i r : Str} {c : Comment} (h : Parse.docComment i = some (r, c)) (hr : Parse.tag kw r = none) :
    (productDecl kw).deep i ≤ 13 := by
  have f := flat docComment i
  rw [docComment_C] at f
  show (pair docComment _).deep i + 1 ≤ _
  rw [pair_deep_some (show docComment.run i = _ from h)]
  show max _ ((pair (tag kw) _).deep r + 1) + 1 + 1 ≤ _
  rw [pair_deep_none (show (tag kw).run r = none from hr)]
  show max _ (1 + 1 + 1) + 1 + 1 ≤ _
  omega

theorem enumDecl_absent {i r : Str} {c : Comment} (h : Parse.docComment i = some (r, c)) (hr : Parse.tag c!"enum" r = none) :
    enumDecl.deep i ≤ 13 := by
  have f := flat docComment i
  rw [docComment_C] at f
  have h1 : (preceded (tag c!"enum") (delimited cos1 ident cos0)).run r = none := by
    show Parse.map (Parse.pair (Parse.tag c!"enum") _) _ _ = none
    simp only [Parse.map, Parse.pair, hr]
  show (pair docComment _).deep i + 1 ≤ _
  rw [pair_deep_some (show docComment.run i = _ from h), pair_deep_none h1]
  show max _ ((pair (tag c!"enum") _).deep r + 1 + 1) + 1 + 1 ≤ _
  rw [pair_deep_none (show (tag c!"enum").run r = none from hr)]
  show max _ (1 + 1 + 1 + 1) + 1 + 1 ≤ _
  omega

/-- Documentation and then a word. -/
def Starts (kw i : Str) : Prop := ∃ r c, Parse.docComment i = some (kw ++ r, c)

omit [Env] in
theorem keyword_starts {kw i r : Str} {p : P α} {x : Comment × α} (h : Parse.keywordDecl kw p i = some (r, x)) : Starts kw i := by
  obtain ⟨j, h1, h2⟩ := pair_inv h
  obtain ⟨k, _, _, _, h3, -⟩ := delimited_inv h2
  exact ⟨k, _, tag_inv h3 ▸ h1⟩

theorem product_starts {kw i r : Str} {x : Product} (h : (productDecl kw).run i = some (r, x)) : Starts kw i := by
  obtain ⟨_, h, -⟩ := Parse.map_inv h
  obtain ⟨j, h1, h2⟩ := pair_inv h
  obtain ⟨k, _, h3, -⟩ := preceded_inv h2
  exact ⟨k, _, tag_inv h3 ▸ h1⟩

theorem enum_starts {i r : Str} {x : Enum} (h : enumDecl.run i = some (r, x)) : Starts c!"enum" i := by
  obtain ⟨_, h, -⟩ := Parse.map_inv h
  obtain ⟨j, h1, h2⟩ := pair_inv h
  obtain ⟨_, h2, -⟩ := pair_inv h2
  obtain ⟨k, _, h3, -⟩ := preceded_inv h2
  exact ⟨k, _, tag_inv h3 ▸ h1⟩

theorem union_starts {i r : Str} {x : Union} (h : Parse.unionDecl i = some (r, x)) : Starts c!"union" i := by
  obtain ⟨_, h, -⟩ := Parse.map_inv h
  obtain ⟨j, h1, h2⟩ := pair_inv h
  obtain ⟨_, h2, -⟩ := pair_inv h2
  obtain ⟨k, _, h3, -⟩ := preceded_inv h2
  exact ⟨k, _, tag_inv h3 ▸ h1⟩

theorem rpc_starts {i r : Str} {x : Rpc} (h : Parse.rpcDecl i = some (r, x)) : Starts c!"rpc_service" i := by
  obtain ⟨_, h, -⟩ := Parse.map_inv h
  obtain ⟨j, h1, h2⟩ := pair_inv h
  obtain ⟨_, h2, -⟩ := pair_inv h2
  obtain ⟨k, _, h3, -⟩ := preceded_inv h2
  obtain ⟨k, _, h3, -⟩ := terminated_inv h3
  exact ⟨k, _, tag_inv h3 ▸ h1⟩

theorem object_starts {v : P Value} {i r : Str} {x : Comment × List (Ident × Value)} (h : Parse.objectOf v i = some (r, x)) : Starts c!"{" i := by
  obtain ⟨j, h1, h2⟩ := pair_inv h
  obtain ⟨k, _, _, _, h3, -⟩ := delimited_inv h2
  obtain ⟨k, _, h3, -⟩ := terminated_inv h3
  exact ⟨k, _, char_inv h3 ▸ h1⟩

/-- The rules whose stack is not bounded, when the text has no such declaration. -/
structure Quiet (i : Str) : Prop where
  table : (productDecl c!"table").deep i ≤ 13
  struct : (productDecl c!"struct").deep i ≤ 13
  enum : enumDecl.deep i ≤ 13

theorem quiet {i r : Str} {c : Comment} (h : Parse.docComment i = some (r, c)) (h1 : Parse.tag c!"table" r = none)
    (h2 : Parse.tag c!"struct" r = none) (h3 : Parse.tag c!"enum" r = none) : Quiet i :=
  ⟨productDecl_absent h h1, productDecl_absent h h2, enumDecl_absent h h3⟩

theorem Starts.quiet {kw i : Str} (h : Starts kw i) (h1 : ∀ r, Parse.tag c!"table" (kw ++ r) = none)
    (h2 : ∀ r, Parse.tag c!"struct" (kw ++ r) = none) (h3 : ∀ r, Parse.tag c!"enum" (kw ++ r) = none) : Quiet i := by
  obtain ⟨r, c, h⟩ := h
  exact Stack.quiet h (h1 _) (h2 _) (h3 _)

/-! ### Elements -/

theorem product_C (kw : Str) : (productDecl_tight kw).C = 59 := by kernel_rfl
theorem enum_C : enumDecl_tight.C = 44 := by kernel_rfl
theorem namespace_C : Low.C 0 namespaceDecl = 22 := by kernel_rfl
theorem union_C : Low.C 0 unionDecl = 39 := by kernel_rfl
theorem root_C : Low.C 0 rootDecl = 17 := by kernel_rfl
omit [Env] in
theorem extension_C : Low.C 0 fileExtensionDecl = 17 := by kernel_rfl
omit [Env] in
theorem identifier_C : Low.C 0 fileIdentifierDecl = 18 := by kernel_rfl
theorem attribute_C : Low.C 0 attributeDecl = 17 := by kernel_rfl
theorem rpc_C : Low.C 0 rpcDecl = 58 := by kernel_rfl
theorem include_C : Low.C 0 includeDecl = 18 := by kernel_rfl

/-- Every element is a declaration of one of the kinds. -/
theorem element_cases {i r : Str} {a : Element} (e : element.run i = some (r, a)) :
    (∃ t, (productDecl c!"table").run i = some (r, t) ∧ a = .table t) ∨ (∃ t, (productDecl c!"struct").run i = some (r, t) ∧ a = .struct t) ∨
    (∃ t, enumDecl.run i = some (r, t) ∧ a = .enum t) ∨ (∃ x, object.run i = some (r, x) ∧ a = .object x.2 x.1) ∨
    (Quiet i ∧ object.deep i ≤ 12 ∧ nestElement a = 0) := by
  have absent : ∀ {kw : Str}, Starts kw i → (∀ r, (char '{').run (kw ++ r) = none) → object.deep i ≤ 12 := by
    rintro kw ⟨r, c, h⟩ h'
    exact objectOf_absent h (h' r)
  unfold element at e
  rcases Parse.alt_inv e with e | ⟨-, e⟩
  · obtain ⟨x, e', rfl⟩ := Parse.map_inv e
    have st := keyword_starts (show Parse.keywordDecl c!"namespace" _ i = _ from e')
    exact .inr (.inr (.inr (.inr ⟨st.quiet (fun _ => rfl) (fun _ => rfl) (fun _ => rfl), absent st (fun _ => rfl), rfl⟩)))
  rcases Parse.alt_inv e with e | ⟨-, e⟩
  · obtain ⟨x, e', rfl⟩ := Parse.map_inv e
    exact .inl ⟨x, e', rfl⟩
  rcases Parse.alt_inv e with e | ⟨-, e⟩
  · obtain ⟨x, e', rfl⟩ := Parse.map_inv e
    exact .inr (.inl ⟨x, e', rfl⟩)
  rcases Parse.alt_inv e with e | ⟨-, e⟩
  · obtain ⟨x, e', rfl⟩ := Parse.map_inv e
    exact .inr (.inr (.inl ⟨x, e', rfl⟩))
  rcases Parse.alt_inv e with e | ⟨-, e⟩
  · obtain ⟨x, e', rfl⟩ := Parse.map_inv e
    have st := union_starts e'
    exact .inr (.inr (.inr (.inr ⟨st.quiet (fun _ => rfl) (fun _ => rfl) (fun _ => rfl), absent st (fun _ => rfl), rfl⟩)))
  rcases Parse.alt_inv e with e | ⟨-, e⟩
  · obtain ⟨x, e', rfl⟩ := Parse.map_inv e
    have st := keyword_starts (show Parse.keywordDecl c!"root_type" _ i = _ from e')
    exact .inr (.inr (.inr (.inr ⟨st.quiet (fun _ => rfl) (fun _ => rfl) (fun _ => rfl), absent st (fun _ => rfl), rfl⟩)))
  rcases Parse.alt_inv e with e | ⟨-, e⟩
  · obtain ⟨x, e', rfl⟩ := Parse.map_inv e
    have st := keyword_starts (show Parse.keywordDecl c!"file_extension" _ i = _ from e')
    exact .inr (.inr (.inr (.inr ⟨st.quiet (fun _ => rfl) (fun _ => rfl) (fun _ => rfl), absent st (fun _ => rfl), rfl⟩)))
  rcases Parse.alt_inv e with e | ⟨-, e⟩
  · obtain ⟨x, e', rfl⟩ := Parse.map_inv e
    have st : Starts c!"file_identifier" i := by
      obtain ⟨y, h, -⟩ := mapRes_inv e'
      exact keyword_starts h
    exact .inr (.inr (.inr (.inr ⟨st.quiet (fun _ => rfl) (fun _ => rfl) (fun _ => rfl), absent st (fun _ => rfl), rfl⟩)))
  rcases Parse.alt_inv e with e | ⟨-, e⟩
  · obtain ⟨x, e', rfl⟩ := Parse.map_inv e
    have st := keyword_starts (show Parse.keywordDecl c!"attribute" _ i = _ from e')
    exact .inr (.inr (.inr (.inr ⟨st.quiet (fun _ => rfl) (fun _ => rfl) (fun _ => rfl), absent st (fun _ => rfl), rfl⟩)))
  rcases Parse.alt_inv e with e | ⟨-, e⟩
  · obtain ⟨x, e', rfl⟩ := Parse.map_inv e
    have st := rpc_starts e'
    exact .inr (.inr (.inr (.inr ⟨st.quiet (fun _ => rfl) (fun _ => rfl) (fun _ => rfl), absent st (fun _ => rfl), rfl⟩)))
  · obtain ⟨x, e', rfl⟩ := Parse.map_inv e
    exact .inr (.inr (.inr (.inl ⟨x, e', rfl⟩)))

theorem map_deep (p : DP α) (f : α → β) (i : Str) : (map p f).deep i = p.deep i + 1 := rfl

/-- Whatever is tried, in the order of the rules. -/
theorem element_deep {i : Str} {D : Nat} (h1 : (productDecl c!"table").deep i ≤ D + 59) (h2 : (productDecl c!"struct").deep i ≤ D + 59)
    (h3 : enumDecl.deep i ≤ D + 59) (h4 : object.deep i ≤ D + 58) : element.deep i ≤ D + 69 := by
  have n := flat namespaceDecl i
  have u := flat unionDecl i
  have rt := flat rootDecl i
  have fe := flat fileExtensionDecl i
  have fi := flat fileIdentifierDecl i
  have at' := flat attributeDecl i
  have rp := flat rpcDecl i
  rw [namespace_C] at n
  rw [union_C] at u
  rw [root_C] at rt
  rw [extension_C] at fe
  rw [identifier_C] at fi
  rw [attribute_C] at at'
  rw [rpc_C] at rp
  have step : ∀ {α : Type} (p q : DP α) (X : Nat), p.deep i ≤ X → q.deep i ≤ X → (alt p q).deep i ≤ X + 1 := by
    intro α p q X hp hq
    have := alt_deep p q i
    omega
  unfold element
  refine step _ _ (D + 68) (by rw [map_deep]; omega) ?_
  refine step _ _ (D + 67) (by rw [map_deep]; omega) ?_
  refine step _ _ (D + 66) (by rw [map_deep]; omega) ?_
  refine step _ _ (D + 65) (by rw [map_deep]; omega) ?_
  refine step _ _ (D + 64) (by rw [map_deep]; omega) ?_
  refine step _ _ (D + 63) (by rw [map_deep]; omega) ?_
  refine step _ _ (D + 62) (by rw [map_deep]; omega) ?_
  refine step _ _ (D + 61) (by rw [map_deep]; omega) ?_
  refine step _ _ (D + 60) (by rw [map_deep]; omega) ?_
  refine step _ _ (D + 59) (by rw [map_deep]; omega) ?_
  rw [map_deep]; omega

theorem element_hi {i r : Str} {a : Element} (e : element.run i = some (r, a)) : element.deep i ≤ 69 + 12 * nestElement a := by
  have hC := valueC_eq
  rcases element_cases e with ⟨t, h, rfl⟩ | ⟨t, h, rfl⟩ | ⟨t, h, rfl⟩ | ⟨x, h, rfl⟩ | ⟨q, ho, h0⟩
  · obtain ⟨k, c, st⟩ := product_starts h
    have h1 := (productDecl_tight c!"table").hi _ _ _ h
    rw [product_C] at h1
    have h2 := productDecl_absent (kw := c!"struct") st rfl
    have h3 := enumDecl_absent st rfl
    have h4 : object.deep i ≤ 12 := objectOf_absent st rfl
    have := element_deep (i := i) (D := 12 * nestProduct t) (by omega) (by omega) (by omega) (by omega)
    simp only [nestElement]
    omega
  · obtain ⟨k, c, st⟩ := product_starts h
    have h1 := (productDecl_tight c!"struct").hi _ _ _ h
    rw [product_C] at h1
    have h2 := productDecl_absent (kw := c!"table") st rfl
    have h3 := enumDecl_absent st rfl
    have h4 : object.deep i ≤ 12 := objectOf_absent st rfl
    have := element_deep (i := i) (D := 12 * nestProduct t) (by omega) (by omega) (by omega) (by omega)
    simp only [nestElement]
    omega
  · obtain ⟨k, c, st⟩ := enum_starts h
    have h1 := enumDecl_tight.hi _ _ _ h
    rw [enum_C] at h1
    have h2 := productDecl_absent (kw := c!"table") st rfl
    have h3 := productDecl_absent (kw := c!"struct") st rfl
    have h4 : object.deep i ≤ 12 := objectOf_absent st rfl
    have := element_deep (i := i) (D := 12 * nestTy t.baseType) (by omega) (by omega) (by omega) (by omega)
    simp only [nestElement]
    omega
  · obtain ⟨k, c, st⟩ := object_starts h
    have h1 := (objectOf_exact (Nat.le_succ _) value_exact h).2
    have h2 := productDecl_absent (kw := c!"table") st rfl
    have h3 := productDecl_absent (kw := c!"struct") st rfl
    have h5 := enumDecl_absent st rfl
    have h4 : object.deep i = (objectOf value_).deep i := rfl
    have := element_deep (i := i) (D := 12 * nestPairs x.2) (by omega) (by omega) (by omega) (by omega)
    simp only [nestElement]
    omega
  · have := element_deep (i := i) (D := 0) (by have := q.table; omega) (by have := q.struct; omega) (by have := q.enum; omega) (by omega)
    omega

omit [Env] in
theorem alt_lo {p q : DP α} {i r : Str} {a : α} {m : Nat} (e : (alt p q).run i = some (r, a)) (hp : p.run i = some (r, a) → m ≤ p.deep i)
    (hq : q.run i = some (r, a) → m ≤ q.deep i) : m ≤ (alt p q).deep i := by
  rcases Parse.alt_inv e with h | ⟨h0, h⟩
  · rw [alt_deep_some h]
    exact Nat.le_succ_of_le (hp h)
  · rw [alt_deep_none h0]
    have := hq h
    omega

omit [Env] in
theorem map_lo {p : DP α} {f : α → β} {i r : Str} {b : β} {k : β → Nat} (e : (map p f).run i = some (r, b))
    (hp : ∀ a, p.run i = some (r, a) → k (f a) ≤ p.deep i) : k b ≤ (map p f).deep i := by
  obtain ⟨a, h, rfl⟩ := Parse.map_inv e
  exact Nat.le_succ_of_le (hp a h)

theorem element_lo {i r : Str} {a : Element} (e : element.run i = some (r, a)) : nestElement a ≤ element.deep i := by
  unfold element at e ⊢
  refine alt_lo e (fun e => map_lo (k := nestElement) e fun a h => Nat.zero_le _) (fun e => ?_)
  refine alt_lo e (fun e => map_lo (k := nestElement) e fun a h => (productDecl_tight _).lo _ _ _ h) (fun e => ?_)
  refine alt_lo e (fun e => map_lo (k := nestElement) e fun a h => (productDecl_tight _).lo _ _ _ h) (fun e => ?_)
  refine alt_lo e (fun e => map_lo (k := nestElement) e fun a h => enumDecl_tight.lo _ _ _ h) (fun e => ?_)
  refine alt_lo e (fun e => map_lo (k := nestElement) e fun a h => Nat.zero_le _) (fun e => ?_)
  refine alt_lo e (fun e => map_lo (k := nestElement) e fun a h => Nat.zero_le _) (fun e => ?_)
  refine alt_lo e (fun e => map_lo (k := nestElement) e fun a h => Nat.zero_le _) (fun e => ?_)
  refine alt_lo e (fun e => map_lo (k := nestElement) e fun a h => Nat.zero_le _) (fun e => ?_)
  refine alt_lo e (fun e => map_lo (k := nestElement) e fun a h => Nat.zero_le _) (fun e => ?_)
  refine alt_lo e (fun e => map_lo (k := nestElement) e fun a h => Nat.zero_le _) (fun e => ?_)
  refine map_lo (k := nestElement) e fun a h => ?_
  have := (objectOf_exact (Nat.le_succ _) value_exact h).1
  exact Nat.le_trans (Nat.le_succ _) this

def element_tight : Tight element nestElement where
  C := 69
  lo _ _ _ e := element_lo e
  hi _ _ _ e := element_hi e

def spacedElement_tight : Tight (delimited cos0 element cos0) nestElement := element_tight.within

theorem spacedElement_C : spacedElement_tight.C = 73 := by kernel_rfl

/-- **C103** for texts that are read to the end. -/
theorem schemaDecl_exact {i : Str} {s : Schema} (e : schemaDecl.run i = some ([], s)) :
    nestSchema s ≤ schemaDecl.deep i ∧ schemaDecl.deep i ≤ 76 + 12 * nestSchema s := by
  obtain ⟨⟨is, es⟩, e', rfl⟩ := Parse.map_inv e
  obtain ⟨j, h1, h2⟩ := pair_inv e'
  have f := flat (many0 (delimited cos0 includeDecl cos0)) i
  rw [show Low.C 0 (many0 (delimited cos0 includeDecl cos0)) = 23 from by kernel_rfl] at f
  have hend : (delimited cos0 element cos0).deep [] ≤ 73 :=
    spaced_deep (i := []) (j := []) (u := ()) rfl (by decide) (element_deep (D := 0)
      (Nat.le_trans (productDecl_absent (r := []) (c := []) rfl rfl) (by decide))
      (Nat.le_trans (productDecl_absent (r := []) (c := []) rfl rfl) (by decide))
      (Nat.le_trans (enumDecl_absent (r := []) (c := []) rfl rfl) (by decide))
      (Nat.le_trans (objectOf_absent (r := []) (c := []) rfl rfl) (by decide)))
  have := manyDeep_exact (m := nestElement) (fun i r a e => ⟨spacedElement_tight.lo i r a e, by
    have := spacedElement_tight.hi i r a e
    rwa [spacedElement_C] at this⟩) (j.length + 1) j [] es h2 hend
  have hd : schemaDecl.deep i = max ((many0 (delimited cos0 includeDecl cos0)).deep i)
      (manyDeep (delimited cos0 element cos0) (j.length + 1) j + 1) + 1 + 1 := by
    show (pair _ _).deep i + 1 = _
    rw [pair_deep_some h1]
    rfl
  simp only [nestSchema]
  rw [hd]
  omega

end Butte.Parse.Stack
