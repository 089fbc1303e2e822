import Verif.Src.RoundExpr
/-
Statements and items are read back from their tokens: `readFile (printItems is) = some is`.
-/
namespace Butte.Src
open Rs (Lit)

theorem sepBy_one {α : Type} (f : α → Toks) (a : α) : sepBy f [a] = f a := by simp [sepBy, sepCommas]

theorem sepBy_cons {α : Type} (f : α → Toks) (a b : α) (as : List α) :
    sepBy f (a :: b :: as) = f a ++ .punct .comma :: sepBy f (b :: as) := by simp [sepBy, sepCommas]

/-! ### Blocks -/

/-- An expression begins with neither `let` nor `if`. -/
theorem expr_no_stmt {b : Bool} : ∀ {e : Expr}, e.Wf b → ∃ t u, e.print = t :: u ∧ (∀ d, t ≠ .cls d) ∧ t ≠ .ident c!"let" ∧
    t ≠ .ident c!"if"
  | .lit l, _ => by
    obtain ⟨t, u, h, h1, _, _, h4, _⟩ := lit_head l
    refine ⟨t, u, h, h4, ?_, ?_⟩ <;> intro e <;> rcases h1 _ e with h | h <;> exact absurd h (by decide)
  | .path p as, h => by
    obtain ⟨s, u, hu, hs⟩ := printPath_head h.1
    refine ⟨_, _, by rw [Expr.print, hu]; rfl, by simp, ?_, ?_⟩ <;> simp only [ne_eq, Tok.ident.injEq] <;>
      exact seg_ne hs (by decide)
  | .qpath .., _ => ⟨_, _, rfl, by simp⟩
  | .call e as, h => by
    obtain ⟨t, u, hu, ht⟩ := expr_no_stmt h.1
    exact ⟨t, _, by rw [Expr.print, hu]; rfl, ht⟩
  | .method e f gs as, h => by
    obtain ⟨t, u, hu, ht⟩ := expr_no_stmt h.1
    exact ⟨t, _, by rw [Expr.print, hu]; rfl, ht⟩
  | .field e f, h => by
    obtain ⟨t, u, hu, ht⟩ := expr_no_stmt h.1
    exact ⟨t, _, by rw [Expr.print, hu]; rfl, ht⟩
  | .try e, h => by
    obtain ⟨t, u, hu, ht⟩ := expr_no_stmt h.1
    exact ⟨t, _, by rw [Expr.print, hu]; rfl, ht⟩
  | .deref .., _ => ⟨_, _, rfl, by simp⟩
  | .ret .., _ => ⟨_, _, rfl, by simp⟩
  | .match .., _ => ⟨_, _, rfl, by simp⟩
  | .struct p fs, h => by
    obtain ⟨s, u, hu, hs⟩ := printPath_head h.2.1
    refine ⟨_, _, by rw [Expr.print, hu]; rfl, by simp, ?_, ?_⟩ <;> simp only [ne_eq, Tok.ident.injEq] <;>
      exact seg_ne hs (by decide)

theorem not_word {s w : Str} (h : nameOk s = true) (hw : nameOk w = false) (ts : Toks) : ∀ u, Tok.ident s :: ts ≠ .ident w :: u := by
  rintro u e
  simp only [List.cons.injEq, Tok.ident.injEq] at e
  rw [e.1, hw] at h
  cases h

theorem block_print {v : Option Expr} (hv : ∀ e ∈ v, e.Wf true) : ∀ {ss : List Stmt}, (∀ s ∈ ss, s.Wf) → ∀ ts : Toks,
    Read.block (printBlock ss v ++ ts) = some ((ss, v), ts)
  | [], _, ts => by
    cases v with
    | none =>
      unfold Read.block
      rfl
    | some e =>
      have h1 := expr_print (hv e rfl) (ts := .cls .brace :: ts) rfl
      obtain ⟨t, u, hu, ht, hl, hi⟩ := expr_no_stmt (hv e rfl)
      simp only [printBlock, List.flatMap_nil, List.nil_append, printOpt, List.append_assoc, List.cons_append, hu] at h1 ⊢
      unfold Read.block
      split
      · rename_i heq; simp only [List.cons.injEq] at heq; exact absurd heq.1 (ht _)
      · rename_i heq; simp only [List.cons.injEq] at heq; exact absurd heq.1 hl
      · rename_i heq; simp only [List.cons.injEq] at heq; exact absurd heq.1 hi
      · rw [h1]
        simp only [Option.bind_eq_bind, Option.bind_some, tok_print]
  | .let m x e :: ss, h, ts => by
    obtain ⟨hx, he⟩ := h (.let m x e) (by simp)
    have ih := block_print hv (ss := ss) (fun s hs => h s (by simp [hs])) ts
    have h1 := expr_print he (ts := .punct .semi :: (printBlock ss v ++ ts)) rfl
    have h2 := optWord_print (w := c!"mut") (b := m) (not_word hx (by decide) (.punct .eq :: (e.print ++ .punct .semi :: (printBlock ss v ++ ts))))
    have e1 : printBlock (.let m x e :: ss) v ++ ts = .ident c!"let" :: (printWord c!"mut" m ++ .ident x :: .punct .eq ::
        (e.print ++ .punct .semi :: (printBlock ss v ++ ts))) := by simp [printBlock, Stmt.print]
    rw [e1]
    unfold Read.block
    simp only [h2, name_print hx, Option.bind_eq_bind, Option.bind_some, tok_print, h1, ih]
  | .expr e :: ss, h, ts => by
    have he : e.Wf true := h (.expr e) (by simp)
    have ih := block_print hv (ss := ss) (fun s hs => h s (by simp [hs])) ts
    have h1 := expr_print he (ts := .punct .semi :: (printBlock ss v ++ ts)) rfl
    obtain ⟨t, u, hu, ht, hl, hi⟩ := expr_no_stmt he
    have e1 : printBlock (.expr e :: ss) v ++ ts = e.print ++ .punct .semi :: (printBlock ss v ++ ts) := by
      simp [printBlock, Stmt.print]
    rw [e1]
    simp only [hu, List.cons_append] at h1 ⊢
    unfold Read.block
    split
    · rename_i heq; simp only [List.cons.injEq] at heq; exact absurd heq.1 (ht _)
    · rename_i heq; simp only [List.cons.injEq] at heq; exact absurd heq.1 hl
    · rename_i heq; simp only [List.cons.injEq] at heq; exact absurd heq.1 hi
    · rw [h1]
      simp only [Option.bind_eq_bind, Option.bind_some, ih]
  | .ifLet p e b :: ss, h, ts => by
    obtain ⟨hp, he, hb⟩ := h (.ifLet p e b) (by simp)
    have ih := block_print hv (ss := ss) (fun s hs => h s (by simp [hs])) ts
    have h3 := expr_print hb (ts := .punct .semi :: .cls .brace :: (printBlock ss v ++ ts)) rfl
    have h2 := expr_print he (ts := .opn .brace :: (b.print ++ .punct .semi :: .cls .brace :: (printBlock ss v ++ ts))) rfl
    have h1 := (pat_print hp).1 (ts := .punct .eq :: (e.print ++ .opn .brace :: (b.print ++ .punct .semi :: .cls .brace ::
      (printBlock ss v ++ ts)))) rfl
    have e1 : printBlock (.ifLet p e b :: ss) v ++ ts = .ident c!"if" :: .ident c!"let" :: (p.print ++ .punct .eq ::
        (e.print ++ .opn .brace :: (b.print ++ .punct .semi :: .cls .brace :: (printBlock ss v ++ ts)))) := by
      simp [printBlock, Stmt.print]
    rw [e1]
    unfold Read.block
    simp only [Option.bind_eq_bind, Option.bind_some, tok_print, h1, h2, h3, ih]

/-! ### Attributes, generics, parameters -/

theorem pathList_print : ∀ {ps : List (List Str)}, (∀ p ∈ ps, pathWf p) → ∀ ts : Toks,
    Read.pathList (sepBy printPath ps ++ .cls .paren :: ts) = some (ps, ts)
  | [], _, ts => by
    unfold Read.pathList
    rfl
  | [p], h, ts => by
    have h1 := path_print (h p (by simp)) (ts := .cls .paren :: ts) rfl
    obtain ⟨s, u, hu, _⟩ := printPath_head (h p (by simp))
    simp only [sepBy_one, sepBy_cons, hu, List.cons_append] at h1 ⊢
    unfold Read.pathList
    simp only [Option.bind_eq_bind, Option.bind_some, tok_print, h1]
  | p :: q :: ps, h, ts => by
    have h1 := path_print (h p (by simp)) (ts := .punct .comma :: (sepBy printPath (q :: ps) ++ .cls .paren :: ts)) rfl
    have ih := pathList_print (ps := q :: ps) (fun x hx => h x (by simp [hx])) ts
    obtain ⟨s, u, hu, _⟩ := printPath_head (h p (by simp))
    simp only [sepBy_one, sepBy_cons, hu, List.cons_append, List.append_assoc] at h1 ⊢
    unfold Read.pathList
    simp only [Option.bind_eq_bind, Option.bind_some, h1, ih]

theorem attrs_print : ∀ {as : List Attr}, (∀ a ∈ as, a.Wf) → ∀ {ts : Toks}, (∀ u, ts ≠ .punct .hash :: u) →
    Read.attrs (printAttrs as ++ ts) = some (as, ts)
  | [], _, ts, hs => by
    simp only [printAttrs, List.flatMap_nil, List.nil_append]
    unfold Read.attrs
    split
    · exact (hs _ rfl).elim
    · rfl
  | ⟨n, a⟩ :: as, h, ts, hs => by
    obtain ⟨hn, hp⟩ := h ⟨n, a⟩ (by simp)
    have ih := attrs_print (as := as) (fun x hx => h x (by simp [hx])) hs
    have h1 : ∀ u, Read.attrArg (a.print ++ .cls .bracket :: u) = some (a, .cls .bracket :: u) := by
      intro u
      cases a with
      | none => rfl
      | eq s => rfl
      | list ps =>
        have := pathList_print (hp ps rfl) (.cls .bracket :: u)
        simp only [AttrArg.print, List.cons_append, List.append_assoc, List.nil_append, Read.attrArg, this, Option.bind_eq_bind, Option.bind_some]
    have e1 : printAttrs (⟨n, a⟩ :: as) ++ ts = .punct .hash :: .opn .bracket :: .ident n :: (a.print ++ .cls .bracket :: (printAttrs as ++ ts)) := by
      simp [printAttrs, Attr.print]
    rw [e1]
    unfold Read.attrs
    simp only [Option.bind_eq_bind, Option.bind_some, tok_print, name_print hn, h1, ih]

theorem gparams_print : ∀ {g : GParam} {gs : List GParam}, (∀ x ∈ g :: gs, x.Wf) → ∀ ts : Toks,
    Read.gparams (sepBy GParam.print (g :: gs) ++ .punct .gt :: ts) = some (g :: gs, ts)
  | g, [], h, ts => by
    match g, h with
    | .life l none, _ => rfl
    | .life l (some b), _ => rfl
    | .ty n, h =>
      have hn : nameOk n = true := h (.ty n) (by simp)
      simp [sepBy_one, sepBy_cons, GParam.print, Read.gparams, hn]
  | g, g' :: gs, h, ts => by
    have ih := gparams_print (g := g') (gs := gs) (fun x hx => h x (by simp [hx])) ts
    match g, h with
    | .life l none, _ =>
      simp only [sepBy_one, sepBy_cons, GParam.print, List.cons_append, List.append_assoc, List.nil_append]
      simp only [Read.gparams, ih, Option.bind_eq_bind, Option.bind_some]
    | .life l (some b), _ =>
      simp only [sepBy_one, sepBy_cons, GParam.print, List.cons_append, List.append_assoc, List.nil_append]
      simp only [Read.gparams, ih, Option.bind_eq_bind, Option.bind_some]
    | .ty n, h =>
      have hn : nameOk n = true := h (.ty n) (by simp)
      simp only [sepBy_one, sepBy_cons, GParam.print, List.cons_append, List.append_assoc, List.nil_append]
      simp only [Read.gparams, hn, ih, Option.bind_eq_bind, Option.bind_some, if_true]

theorem generics_print {gs : List GParam} (h : ∀ g ∈ gs, g.Wf) {ts : Toks} (hs : ∀ u, ts ≠ .punct .lt :: u) :
    Read.generics (printGenerics gs ++ ts) = some (gs, ts) := by
  cases gs with
  | nil =>
    simp only [printGenerics, List.nil_append]
    unfold Read.generics
    split
    · exact (hs _ rfl).elim
    · rfl
  | cons g gs =>
    have := gparams_print h ts
    simp only [printGenerics, List.cons_append, List.append_assoc, List.nil_append]
    exact this

theorem param_print {p : Param} (h : p.Wf) {ts : Toks} (hs : stopTy ts = true) : Read.param (p.print ++ ts) = some (p, ts) := by
  cases p with
  | self => rfl
  | refSelf m =>
    have := optWord_print (w := c!"mut") (b := m) (ts := .ident c!"self" :: ts) (by simp)
    simp only [Param.print, List.cons_append, List.append_assoc, List.nil_append, Read.param, this, tok_print,
      Option.bind_eq_bind, Option.bind_some]
  | named x t =>
    have h1 := ty_print h.2 hs
    simp only [Param.print, List.cons_append]
    unfold Read.param
    split
    · rename_i heq
      exact absurd heq (not_word h.1 (by decide) _ _)
    · simp_all
    · simp only [name_print h.1, tok_print, h1, Option.bind_eq_bind, Option.bind_some]

theorem param_head {p : Param} (_ : p.Wf) : ∃ t u, p.print = t :: u ∧ ∀ d, t ≠ .cls d := by
  cases p <;> exact ⟨_, _, rfl, by simp⟩

theorem params_print : ∀ {ps : List Param}, (∀ p ∈ ps, p.Wf) → ∀ ts : Toks,
    Read.params (sepBy Param.print ps ++ .cls .paren :: ts) = some (ps, ts)
  | [], _, ts => by
    unfold Read.params
    rfl
  | [p], h, ts => by
    have h1 := param_print (h p (by simp)) (ts := .cls .paren :: ts) rfl
    obtain ⟨t, u, hu, ht⟩ := param_head (h p (by simp))
    simp only [sepBy_one, sepBy_cons, hu, List.cons_append] at h1 ⊢
    unfold Read.params
    split
    · rename_i heq; simp only [List.cons.injEq] at heq; exact absurd heq.1 (ht _)
    · simp only [Option.bind_eq_bind, Option.bind_some, tok_print, h1]
  | p :: q :: ps, h, ts => by
    have h1 := param_print (h p (by simp)) (ts := .punct .comma :: (sepBy Param.print (q :: ps) ++ .cls .paren :: ts)) rfl
    have ih := params_print (ps := q :: ps) (fun x hx => h x (by simp [hx])) ts
    obtain ⟨t, u, hu, ht⟩ := param_head (h p (by simp))
    simp only [sepBy_one, sepBy_cons, hu, List.cons_append, List.append_assoc] at h1 ⊢
    unfold Read.params
    split
    · rename_i heq; simp only [List.cons.injEq] at heq; exact absurd heq.1 (ht _)
    · simp only [Option.bind_eq_bind, Option.bind_some, h1, ih]

theorem result_print {r : Option Ty} (h : ∀ t ∈ r, t.Wf) (ts : Toks) :
    Read.result (printResult r ++ .opn .brace :: ts) = some (r, .opn .brace :: ts) := by
  cases r with
  | none => rfl
  | some t =>
    have := ty_print (h t rfl) (ts := .opn .brace :: ts) rfl
    simp only [printResult, List.cons_append, Read.result, this, Option.bind_eq_bind, Option.bind_some]

/-- The tokens of a function after the word `fn`. -/
def Fn.tail (f : Fn) : Toks :=
  .ident f.name :: (printGenerics f.generics ++ .opn .paren :: (sepBy Param.print f.params ++ .cls .paren ::
    (printResult f.result ++ .opn .brace :: printBlock f.body f.value)))

theorem fn_print {f : Fn} (h : f.Wf) (ts : Toks) : Read.fn f.attrs f.pub (f.tail ++ ts) = some (f, ts) := by
  have h5 := block_print h.value h.body ts
  have h4 := result_print h.result (printBlock f.body f.value ++ ts)
  have h3 := params_print h.params (printResult f.result ++ .opn .brace :: (printBlock f.body f.value ++ ts))
  have h2 := generics_print h.generics (ts := .opn .paren :: (sepBy Param.print f.params ++ .cls .paren ::
    (printResult f.result ++ .opn .brace :: (printBlock f.body f.value ++ ts)))) (by simp)
  simp only [Fn.tail, List.cons_append, List.append_assoc, Read.fn, name_print h.name, h2, h3, h4, h5, tok_print,
    Option.bind_eq_bind, Option.bind_some]

theorem word_not_hash {w : Str} {b : Bool} {s : Str} {us : Toks} : ∀ u, printWord w b ++ .ident s :: us ≠ .punct .hash :: u := by
  cases b <;> simp [printWord]

/-! ### Fields and variants -/

theorem fields_print {tr : Bool} : ∀ {f : Field} {fs : List Field}, (∀ x ∈ f :: fs, x.Wf) → ∀ ts : Toks,
    Read.fields (sepBy Field.print (f :: fs) ++ ((if tr then [.punct .comma] else []) ++ .cls .brace :: ts)) =
      some ((f :: fs, tr), ts)
  | f, [], h, ts => by
    obtain ⟨ha, hn, ht⟩ := h f (by simp)
    cases tr
    · have h3 := ty_print ht (ts := .cls .brace :: ts) rfl
      have h2 := optWord_print (w := c!"pub") (b := f.pub) (not_word hn (by decide) (.punct .colon :: (f.ty.print ++ .cls .brace :: ts)))
      have h1 := attrs_print ha (word_not_hash (w := c!"pub") (b := f.pub) (s := f.name) (us := .punct .colon :: (f.ty.print ++ .cls .brace :: ts)))
      simp only [sepBy_one, sepBy_cons, Field.print, List.cons_append, List.append_assoc, List.nil_append, Bool.false_eq_true, if_false]
      unfold Read.fields
      simp only [h1, h2, h3, name_print hn, tok_print, Option.bind_eq_bind, Option.bind_some]
    · have h3 := ty_print ht (ts := .punct .comma :: .cls .brace :: ts) rfl
      have h2 := optWord_print (w := c!"pub") (b := f.pub) (not_word hn (by decide) (.punct .colon :: (f.ty.print ++ .punct .comma :: .cls .brace :: ts)))
      have h1 := attrs_print ha (word_not_hash (w := c!"pub") (b := f.pub) (s := f.name) (us := .punct .colon :: (f.ty.print ++ .punct .comma :: .cls .brace :: ts)))
      simp only [sepBy_one, sepBy_cons, Field.print, List.cons_append, List.append_assoc, List.nil_append, if_true]
      unfold Read.fields
      simp only [h1, h2, h3, name_print hn, tok_print, Option.bind_eq_bind, Option.bind_some]
  | f, g :: fs, h, ts => by
    obtain ⟨ha, hn, ht⟩ := h f (by simp)
    have ih := fields_print (tr := tr) (f := g) (fs := fs) (fun x hx => h x (by simp [hx])) ts
    obtain ⟨R, hR⟩ : ∃ R, R = sepBy Field.print (g :: fs) ++ ((if tr then [.punct .comma] else []) ++ .cls .brace :: ts) := ⟨_, rfl⟩
    have hne : ∀ u, R ≠ .cls .brace :: u := by
      intro u e
      rw [hR] at e
      have : ∃ t v, sepBy Field.print (g :: fs) = t :: v ∧ ∀ d, t ≠ .cls d := by
        have : ∃ t v, g.print = t :: v ∧ ∀ d, t ≠ .cls d := by
          unfold Field.print
          cases hg : g.attrs with
          | cons a as => exact ⟨_, _, rfl, by simp⟩
          | nil => cases g.pub <;> exact ⟨_, _, rfl, by simp⟩
        obtain ⟨t, v, hv, ht⟩ := this
        cases fs with
        | nil => exact ⟨t, v, by rw [sepBy_one, hv], ht⟩
        | cons => exact ⟨t, _, by rw [sepBy_cons, hv]; rfl, ht⟩
      obtain ⟨t, v, hv, ht⟩ := this
      rw [hv] at e
      simp only [List.cons_append, List.cons.injEq] at e
      exact ht _ e.1
    have h3 := ty_print ht (ts := .punct .comma :: R) rfl
    have h2 := optWord_print (w := c!"pub") (b := f.pub) (not_word hn (by decide) (.punct .colon :: (f.ty.print ++ .punct .comma :: R)))
    have h1 := attrs_print ha (word_not_hash (w := c!"pub") (b := f.pub) (s := f.name) (us := .punct .colon :: (f.ty.print ++ .punct .comma :: R)))
    have e1 : sepBy Field.print (f :: g :: fs) ++ ((if tr then [.punct .comma] else []) ++ .cls .brace :: ts) =
        printAttrs f.attrs ++ (printWord c!"pub" f.pub ++ .ident f.name :: .punct .colon :: (f.ty.print ++ .punct .comma :: R)) := by
      rw [hR]
      simp [sepBy_one, sepBy_cons, Field.print]
    rw [e1]
    unfold Read.fields
    simp only [h1, h2, h3, name_print hn, tok_print, Option.bind_eq_bind, Option.bind_some]
    rw [hR, ih]
    rfl

theorem payload_print {p : Payload} (h : ∀ t, p = .tuple t → t.Wf) {ts : Toks} (hs : (∃ u, ts = .punct .comma :: u) ∨ ∃ u, ts = .cls .brace :: u) :
    Read.payload (p.print ++ ts) = some (p, ts) := by
  cases p with
  | none => rcases hs with ⟨u, rfl⟩ | ⟨u, rfl⟩ <;> rfl
  | value l =>
    have := literal_print l ts
    simp only [Payload.print, List.cons_append, Read.payload, this, Option.bind_eq_bind, Option.bind_some]
  | tuple t =>
    have := ty_print (h t rfl) (ts := .cls .paren :: ts) rfl
    simp only [Payload.print, List.cons_append, List.append_assoc, List.nil_append, Read.payload, this, Option.bind_eq_bind,
      Option.bind_some, tok_print]

theorem variant_head (v : Variant) : ∃ t u, v.print = t :: u ∧ ∀ d, t ≠ .cls d := by
  unfold Variant.print
  cases v.attrs with
  | cons a as => exact ⟨_, _, rfl, by simp⟩
  | nil => exact ⟨_, _, rfl, by simp⟩

theorem variants_print : ∀ {vs : List Variant}, (∀ v ∈ vs, v.Wf) → ∀ ts : Toks,
    Read.variants (sepBy Variant.print vs ++ .cls .brace :: ts) = some (vs, ts)
  | [], _, ts => by
    unfold Read.variants
    rfl
  | [v], h, ts => by
    obtain ⟨ha, hn, hp⟩ := h v (by simp)
    have h2 := payload_print hp (ts := .cls .brace :: ts) (.inr ⟨_, rfl⟩)
    have h1 := attrs_print ha (ts := .ident v.name :: (v.payload.print ++ .cls .brace :: ts)) (by simp)
    obtain ⟨t, u, hu, ht⟩ := variant_head v
    have e1 : sepBy Variant.print [v] ++ .cls .brace :: ts = printAttrs v.attrs ++ .ident v.name :: (v.payload.print ++ .cls .brace :: ts) := by
      simp [sepBy_one, sepBy_cons, Variant.print]
    have e2 : sepBy Variant.print [v] ++ .cls .brace :: ts = t :: (u ++ .cls .brace :: ts) := by
      simp [sepBy_one, sepBy_cons, hu]
    unfold Read.variants
    split
    · rename_i heq; rw [e2] at heq; simp only [List.cons.injEq] at heq; exact absurd heq.1 (ht _)
    · rw [e1]
      simp only [h1, h2, name_print hn, Option.bind_eq_bind, Option.bind_some, tok_print]
  | v :: w :: vs, h, ts => by
    obtain ⟨ha, hn, hp⟩ := h v (by simp)
    have ih := variants_print (vs := w :: vs) (fun x hx => h x (by simp [hx])) ts
    have h2 := payload_print hp (ts := .punct .comma :: (sepBy Variant.print (w :: vs) ++ .cls .brace :: ts)) (.inl ⟨_, rfl⟩)
    have h1 := attrs_print ha (ts := .ident v.name :: (v.payload.print ++ .punct .comma :: (sepBy Variant.print (w :: vs) ++ .cls .brace :: ts))) (by simp)
    obtain ⟨t, u, hu, ht⟩ := variant_head v
    have e1 : sepBy Variant.print (v :: w :: vs) ++ .cls .brace :: ts = printAttrs v.attrs ++ .ident v.name ::
        (v.payload.print ++ .punct .comma :: (sepBy Variant.print (w :: vs) ++ .cls .brace :: ts)) := by
      simp [sepBy_one, sepBy_cons, Variant.print]
    have e2 : sepBy Variant.print (v :: w :: vs) ++ .cls .brace :: ts = t :: (u ++ .punct .comma :: (sepBy Variant.print (w :: vs) ++ .cls .brace :: ts)) := by
      simp [sepBy_one, sepBy_cons, hu]
    unfold Read.variants
    split
    · rename_i heq; rw [e2] at heq; simp only [List.cons.injEq] at heq; exact absurd heq.1 (ht _)
    · rw [e1]
      simp only [h1, h2, ih, name_print hn, Option.bind_eq_bind, Option.bind_some]

/-! ### Items -/

theorem attrs_head {as : List Attr} {w : Str} {b : Bool} {s : Str} {u : Toks} :
    ∃ t v, printAttrs as ++ (printWord w b ++ .ident s :: u) = t :: v ∧ ∀ d, t ≠ .cls d := by
  cases as with
  | cons a as => exact ⟨_, _, rfl, by simp⟩
  | nil => cases b <;> exact ⟨_, _, rfl, by simp⟩

theorem implItems_print : ∀ {is : List ImplItem}, (∀ i ∈ is, i.Wf) → ∀ ts : Toks,
    Read.implItems (is.flatMap ImplItem.print ++ .cls .brace :: ts) = some (is, ts)
  | [], _, ts => by
    unfold Read.implItems
    rfl
  | .fn f :: is, h, ts => by
    have hf : f.Wf := h (.fn f) (by simp)
    have ih := implItems_print (is := is) (fun x hx => h x (by simp [hx])) ts
    obtain ⟨R, hR⟩ : ∃ R, R = is.flatMap ImplItem.print ++ .cls .brace :: ts := ⟨_, rfl⟩
    rw [← hR] at ih
    have h1 := attrs_print hf.attrs (word_not_hash (w := c!"pub") (b := f.pub) (s := c!"fn") (us := f.tail ++ R))
    have h2 := optWord_print (w := c!"pub") (b := f.pub) (ts := .ident c!"fn" :: (f.tail ++ R)) (by simp)
    have h3 := fn_print hf R
    obtain ⟨t, v, hv, ht⟩ := attrs_head (as := f.attrs) (w := c!"pub") (b := f.pub) (s := c!"fn") (u := f.tail ++ R)
    have e1 : (ImplItem.fn f :: is).flatMap ImplItem.print ++ .cls .brace :: ts =
        printAttrs f.attrs ++ (printWord c!"pub" f.pub ++ .ident c!"fn" :: (f.tail ++ R)) := by
      rw [hR]
      simp [ImplItem.print, Fn.print, Fn.tail]
    rw [e1]
    unfold Read.implItems
    split
    · rename_i heq; rw [hv] at heq; simp only [List.cons.injEq] at heq; exact absurd heq.1 (ht _)
    · simp only [h1, h2, h3, ih, Option.bind_eq_bind, Option.bind_some]
  | .const p n ty l :: is, h, ts => by
    obtain ⟨hn, hty⟩ := h (.const p n ty l) (by simp)
    have ih := implItems_print (is := is) (fun x hx => h x (by simp [hx])) ts
    obtain ⟨R, hR⟩ : ∃ R, R = is.flatMap ImplItem.print ++ .cls .brace :: ts := ⟨_, rfl⟩
    rw [← hR] at ih
    have h4 := literal_print l (.punct .semi :: R)
    have h3 := ty_print hty (ts := .punct .eq :: (printLit l ++ .punct .semi :: R)) rfl
    have h1 := attrs_print (as := []) (by simp) (word_not_hash (w := c!"pub") (b := p) (s := c!"const")
      (us := .ident n :: .punct .colon :: (ty.print ++ .punct .eq :: (printLit l ++ .punct .semi :: R))))
    have h2 := optWord_print (w := c!"pub") (b := p) (ts := .ident c!"const" :: .ident n :: .punct .colon :: (ty.print ++ .punct .eq ::
      (printLit l ++ .punct .semi :: R))) (by simp)
    obtain ⟨t, v, hv, ht⟩ := attrs_head (as := []) (w := c!"pub") (b := p) (s := c!"const")
      (u := .ident n :: .punct .colon :: (ty.print ++ .punct .eq :: (printLit l ++ .punct .semi :: R)))
    have e1 : (ImplItem.const p n ty l :: is).flatMap ImplItem.print ++ .cls .brace :: ts =
        printAttrs [] ++ (printWord c!"pub" p ++ .ident c!"const" :: .ident n :: .punct .colon :: (ty.print ++ .punct .eq ::
          (printLit l ++ .punct .semi :: R))) := by
      rw [hR]
      simp [ImplItem.print, printAttrs]
    rw [e1]
    unfold Read.implItems
    split
    · rename_i heq; rw [hv] at heq; simp only [List.cons.injEq] at heq; exact absurd heq.1 (ht _)
    · simp only [h1, h2, h3, h4, ih, name_print hn, tok_print, Option.bind_eq_bind, Option.bind_some, if_true]
  | .type n ty :: is, h, ts => by
    obtain ⟨hn, hty⟩ := h (.type n ty) (by simp)
    have ih := implItems_print (is := is) (fun x hx => h x (by simp [hx])) ts
    obtain ⟨R, hR⟩ : ∃ R, R = is.flatMap ImplItem.print ++ .cls .brace :: ts := ⟨_, rfl⟩
    rw [← hR] at ih
    have h3 := ty_print hty (ts := .punct .semi :: R) rfl
    have h1 := attrs_print (as := []) (by simp) (word_not_hash (w := c!"pub") (b := false) (s := c!"type")
      (us := .ident n :: .punct .eq :: (ty.print ++ .punct .semi :: R)))
    have h2 := optWord_print (w := c!"pub") (b := false) (ts := .ident c!"type" :: .ident n :: .punct .eq :: (ty.print ++
      .punct .semi :: R)) (by simp)
    have e1 : (ImplItem.type n ty :: is).flatMap ImplItem.print ++ .cls .brace :: ts =
        printAttrs [] ++ (printWord c!"pub" false ++ .ident c!"type" :: .ident n :: .punct .eq :: (ty.print ++ .punct .semi :: R)) := by
      rw [hR]
      simp [ImplItem.print, printAttrs, printWord]
    rw [e1]
    unfold Read.implItems
    split
    · rename_i heq; simp [printAttrs, printWord] at heq
    · simp only [h1, h2, h3, ih, name_print hn, tok_print, Option.bind_eq_bind, Option.bind_some, true_and, if_true]

theorem bounds_print {bs : List (Str × Ty)} (h : ∀ b ∈ bs, nameOk b.1 = true ∧ b.2.Wf) (hl : bs.length ≤ 1) (ts : Toks) :
    Read.bounds (printBounds bs ++ .opn .brace :: ts) = some (bs, .opn .brace :: ts) := by
  match bs, hl with
  | [], _ => rfl
  | [(n, t)], _ =>
    obtain ⟨hn, ht⟩ := h (n, t) (by simp)
    have := ty_print ht (ts := .opn .brace :: ts) rfl
    simp only [printBounds, sepBy_one, List.cons_append, Read.bounds, name_print hn, tok_print, this, Option.bind_eq_bind, Option.bind_some]
  | _ :: _ :: _, hl => simp at hl

theorem bounds_head (bs : List (Str × Ty)) (ts : Toks) : stopTy (printBounds bs ++ .opn .brace :: ts) = true ∧
    ∀ u, printBounds bs ++ .opn .brace :: ts ≠ .ident c!"for" :: u := by
  match bs with
  | [] => exact ⟨rfl, by simp [printBounds]⟩
  | _ :: _ => exact ⟨rfl, by simp [printBounds]⟩

theorem implHead_print {tr : Option Ty} {s : Ty} (htr : ∀ t ∈ tr, t.Wf) (hs : s.Wf) {ts : Toks} (h1 : stopTy ts = true)
    (h2 : ∀ u, ts ≠ .ident c!"for" :: u) : Read.implHead (printFor tr ++ (s.print ++ ts)) = some ((tr, s), ts) := by
  cases tr with
  | none =>
    simp only [printFor, List.nil_append, Read.implHead, ty_print hs h1, optWord_false h2, Option.bind_eq_bind, Option.bind_some,
      Bool.false_eq_true, if_false]
  | some t =>
    have := ty_print (htr t rfl) (ts := .ident c!"for" :: (s.print ++ ts)) rfl
    simp only [printFor, List.append_assoc, List.cons_append, List.nil_append, Read.implHead, this, ty_print hs h1, Read.optWord,
      Option.bind_eq_bind, Option.bind_some, if_true]

theorem generics_ty_head {tr : Option Ty} {s : Ty} (htr : ∀ t ∈ tr, t.Wf) (hs : s.Wf) (ts : Toks) :
    ∀ u, printFor tr ++ (s.print ++ ts) ≠ .punct .lt :: u := by
  intro u e
  cases tr with
  | none =>
    rcases ty_head hs with ⟨v, hv⟩ | ⟨v, hv⟩ | ⟨s, v, hv, _⟩ <;> rw [hv] at e <;> simp [printFor] at e
  | some t =>
    rcases ty_head (htr t rfl) with ⟨v, hv⟩ | ⟨v, hv⟩ | ⟨s, v, hv, _⟩ <;> simp [printFor, hv] at e

theorem impl_print {gs : List GParam} {tr : Option Ty} {s : Ty} {bs : List (Str × Ty)} {is : List ImplItem}
    (h : (Item.impl gs tr s bs is).Wf) (ts : Toks) :
    Read.impl (printGenerics gs ++ (printFor tr ++ (s.print ++ (printBounds bs ++ .opn .brace ::
      (is.flatMap ImplItem.print ++ .cls .brace :: ts))))) = some (.impl gs tr s bs is, ts) := by
  obtain ⟨hg, htr, hs, hb, hl, hi⟩ := h
  have hd := bounds_head bs (is.flatMap ImplItem.print ++ .cls .brace :: ts)
  have h1 := implItems_print hi ts
  have h2 := bounds_print hb hl (is.flatMap ImplItem.print ++ .cls .brace :: ts)
  have h3 := implHead_print htr hs hd.1 hd.2
  have h4 := generics_print hg (generics_ty_head htr hs (printBounds bs ++ .opn .brace :: (is.flatMap ImplItem.print ++ .cls .brace :: ts)))
  simp only [Read.impl, h4, h3, h2, h1, tok_print, Option.bind_eq_bind, Option.bind_some]

theorem struct_print {as : List Attr} {p : Bool} {n : Str} {gs : List GParam} {fs : List Field} {tr : Bool}
    (h : (Item.struct as p n gs fs tr).Wf) (ts : Toks) :
    Read.struct as p (.ident n :: (printGenerics gs ++ .opn .brace :: (sepBy Field.print fs ++
      ((if tr then [.punct .comma] else []) ++ .cls .brace :: ts)))) = some (.struct as p n gs fs tr, ts) := by
  obtain ⟨-, hn, hg, hf, hc⟩ := h
  have h1 := generics_print hg (ts := .opn .brace :: (sepBy Field.print fs ++
      ((if tr then [.punct .comma] else []) ++ .cls .brace :: ts))) (by simp)
  cases fs with
  | nil =>
    rw [hc rfl] at h1 ⊢
    simp only [Read.struct, name_print hn, h1, tok_print, Option.bind_eq_bind, Option.bind_some]
    rfl
  | cons f fs =>
    have h2 := fields_print (tr := tr) hf ts
    simp only [Read.struct, name_print hn, h1, tok_print, Option.bind_eq_bind, Option.bind_some]
    split
    · rename_i heq
      exfalso
      have : ∃ t v, sepBy Field.print (f :: fs) = t :: v ∧ ∀ d, t ≠ .cls d := by
        have : ∃ t v, f.print = t :: v ∧ ∀ d, t ≠ .cls d := by
          unfold Field.print
          cases hg : f.attrs with
          | cons a as => exact ⟨_, _, rfl, by simp⟩
          | nil => cases f.pub <;> exact ⟨_, _, rfl, by simp⟩
        obtain ⟨t, v, hv, ht⟩ := this
        cases fs with
        | nil => exact ⟨t, v, by rw [sepBy_one, hv], ht⟩
        | cons => exact ⟨t, _, by rw [sepBy_cons, hv]; rfl, ht⟩
      obtain ⟨t, v, hv, ht⟩ := this
      rw [hv] at heq
      simp only [List.cons_append, List.cons.injEq] at heq
      exact ht _ heq.1
    · rw [h2]
      simp only [Option.bind_some]

theorem enum_print {as : List Attr} {p : Bool} {n : Str} {gs : List GParam} {vs : List Variant}
    (h : (Item.enum as p n gs vs).Wf) (ts : Toks) :
    Read.enum as p (.ident n :: (printGenerics gs ++ .opn .brace :: (sepBy Variant.print vs ++ .cls .brace :: ts))) =
      some (.enum as p n gs vs, ts) := by
  obtain ⟨-, hn, hg, hv⟩ := h
  have h1 := generics_print hg (ts := .opn .brace :: (sepBy Variant.print vs ++ .cls .brace :: ts)) (by simp)
  simp only [Read.enum, name_print hn, h1, variants_print hv, tok_print, Option.bind_eq_bind, Option.bind_some]

/-- The attributes of an item. -/
def Item.attrs : Item → List Attr
  | .struct as .. | .enum as .. => as
  | .fn f => f.attrs
  | _ => []

/-- Whether an item is `pub`. -/
def Item.isPub : Item → Bool
  | .struct _ p .. | .enum _ p .. | .mod p .. => p
  | .fn f => f.pub
  | .impl .. => false

/-- The word an item begins with. -/
def Item.word : Item → Str
  | .struct .. => c!"struct"
  | .enum .. => c!"enum"
  | .fn _ => c!"fn"
  | .impl .. => c!"impl"
  | .mod .. => c!"mod"

/-- The tokens of an item after that word. -/
def Item.tail : Item → Toks
  | .struct _ _ n gs fs trailing => .ident n :: (printGenerics gs ++ .opn .brace :: (sepBy Field.print fs ++
      ((if trailing then [.punct .comma] else []) ++ [.cls .brace])))
  | .enum _ _ n gs vs => .ident n :: (printGenerics gs ++ .opn .brace :: (sepBy Variant.print vs ++ [.cls .brace]))
  | .impl gs tr s bs is => printGenerics gs ++ (printFor tr ++ (s.print ++ (printBounds bs ++
      .opn .brace :: (is.flatMap ImplItem.print ++ [.cls .brace]))))
  | .fn f => f.tail
  | .mod _ n is => .ident n :: .opn .brace :: (printItems is ++ [.cls .brace])

theorem Item.print_eq (i : Item) : i.print = printAttrs i.attrs ++ (printWord c!"pub" i.isPub ++ .ident i.word :: i.tail) := by
  cases i <;> simp [Item.print, Item.attrs, Item.isPub, Item.word, Item.tail, printAttrs, printWord, Fn.print, Fn.tail]

theorem Item.attrs_wf {i : Item} (h : i.Wf) : ∀ a ∈ i.attrs, a.Wf := by
  cases i with
  | struct => exact h.1
  | enum => exact h.1
  | fn f => exact Fn.Wf.attrs h
  | impl => simp [Item.attrs]
  | mod => simp [Item.attrs]

theorem Item.word_ne (i : Item) : i.word ≠ c!"pub" := by cases i <;> simp [Item.word]

mutual
/-- An item is read back. -/
theorem item_print : ∀ {i : Item}, i.Wf → ∀ ts : Toks,
    Read.item i.attrs i.isPub (.ident i.word :: (i.tail ++ ts)) = some (i, ts)
  | .struct as p n gs fs tr, h, ts => by
    have := struct_print h ts
    unfold Read.item
    simpa [Item.attrs, Item.isPub, Item.word, Item.tail] using this
  | .enum as p n gs vs, h, ts => by
    have := enum_print h ts
    unfold Read.item
    simpa [Item.attrs, Item.isPub, Item.word, Item.tail] using this
  | .impl gs tr s bs is, h, ts => by
    have := impl_print h ts
    unfold Read.item
    simpa [Item.attrs, Item.isPub, Item.word, Item.tail] using this
  | .fn f, h, ts => by
    have := fn_print (f := f) h ts
    unfold Read.item
    simp [Item.attrs, Item.isPub, Item.word, Item.tail, this]
  | .mod p n is, h, ts => by
    have h1 := items_print h.2 (ts := .cls .brace :: ts) (.inr ⟨_, rfl⟩)
    unfold Read.item
    simp only [Item.attrs, Item.isPub, Item.word, Item.tail, List.cons_append, List.append_assoc, List.nil_append, if_true,
      name_print h.1, tok_print, h1, Option.bind_eq_bind, Option.bind_some]
termination_by i => 2 * sizeOf i
/-- Items are read back. -/
theorem items_print : ∀ {is : List Item}, itemsWf is → ∀ {ts : Toks}, (ts = [] ∨ ∃ u, ts = .cls .brace :: u) →
    Read.items (printItems is ++ ts) = some (is, ts)
  | [], _, ts, hs => by
    unfold Read.items
    rcases hs with rfl | ⟨u, rfl⟩ <;> rfl
  | i :: is, h, ts, hs => by
    have ih := items_print (is := is) h.2 hs
    have hi := item_print h.1 (printItems is ++ ts)
    have h1 := attrs_print (Item.attrs_wf h.1) (word_not_hash (w := c!"pub") (b := i.isPub) (s := i.word) (us := i.tail ++ (printItems is ++ ts)))
    have h2 := optWord_print (w := c!"pub") (b := i.isPub) (ts := .ident i.word :: (i.tail ++ (printItems is ++ ts))) (by
      intro u e; simp only [List.cons.injEq, Tok.ident.injEq] at e; exact i.word_ne e.1)
    obtain ⟨t, v, hv, ht⟩ := attrs_head (as := i.attrs) (w := c!"pub") (b := i.isPub) (s := i.word) (u := i.tail ++ (printItems is ++ ts))
    have e1 : printItems (i :: is) ++ ts = printAttrs i.attrs ++ (printWord c!"pub" i.isPub ++ .ident i.word :: (i.tail ++ (printItems is ++ ts))) := by
      rw [printItems, Item.print_eq]
      simp
    rw [e1]
    unfold Read.items
    split
    · rename_i heq; rw [hv] at heq; simp at heq
    · rename_i heq; rw [hv] at heq; simp only [List.cons.injEq] at heq; exact absurd heq.1 (ht _)
    · simp only [h1, h2, hi, ih, Option.bind_eq_bind, Option.bind_some]
termination_by is => 2 * sizeOf is + 1
end

/-- **A file is read back from its tokens.** -/
theorem readFile_print {is : List Item} (h : itemsWf is) : Read.readFile (printItems is) = some is := by
  have := items_print h (ts := []) (.inl rfl)
  rw [List.append_nil] at this
  simp [Read.readFile, this]

end Butte.Src
