import Verif.Src.RoundTy
/-
Expressions are read back from their tokens.
-/
namespace Butte.Src
open Rs (Lit)

/-- What can follow the first part of an expression (paths go on with `::`, structs with a brace). -/
def stopAtom (braces : Bool) : Toks → Bool
  | .punct .colon2 :: _ => false
  | .opn .brace :: _ => !braces
  | _ => true

/-- What can follow an expression. -/
def stopExpr (braces : Bool) : Toks → Bool
  | .punct .colon2 :: _ | .punct .question :: _ | .punct .dot :: _ | .opn .paren :: _ => false
  | .opn .brace :: _ => !braces
  | _ => true

theorem stopAtom_of {b : Bool} {ts : Toks} (h : stopExpr b ts = true) : stopAtom b ts = true := by
  unfold stopAtom
  split <;> simp_all [stopExpr]

theorem stopPath_atom {b : Bool} {ts : Toks} (h : stopAtom b ts = true) : stopPath ts = true := by
  unfold stopPath
  split
  · simp [stopAtom] at h
  · rfl

theorem postOps_stop {b : Bool} {e : Expr} {ts : Toks} (h : stopExpr b ts = true) : Read.postOps e ts = some (e, ts) := by
  unfold Read.postOps
  split <;> first | rfl | simp [stopExpr] at h

theorem turbofish_print {as : List GArg} (h : argsWf as) {ts : Toks} (hs : ∀ u, ts ≠ .punct .colon2 :: u) :
    Read.turbofish (printTurbofish as ++ ts) = some (as, ts) := by
  cases as with
  | nil =>
    simp only [printTurbofish, List.nil_append]
    unfold Read.turbofish
    split
    · exact (hs _ rfl).elim
    · rfl
  | cons a as =>
    have := gargs_print h ts
    simp only [printTurbofish, List.cons_append]
    exact this

theorem stop_colon2 {b : Bool} {ts : Toks} (h : stopAtom b ts = true) : ∀ u, ts ≠ .punct .colon2 :: u := by
  rintro u rfl
  simp [stopAtom] at h

/-- A path is read as the first part of an expression. -/
theorem atom_path {p : List Str} {as : List GArg} (hp : pathWf p) (ha : argsWf as) {b : Bool} {ts : Toks} (hs : stopAtom b ts = true) :
    Read.atom (printPath p ++ (printTurbofish as ++ ts)) = some (.path p as, ts) := by
  have hl := literal_path hp (printTurbofish as ++ ts)
  have ht := turbofish_print ha (stop_colon2 hs)
  have hr : Read.path (printPath p ++ (printTurbofish as ++ ts)) = some (p, printTurbofish as ++ ts) := by
    refine path_print hp ?_
    cases as with
    | nil => exact stopPath_atom hs
    | cons a as => rfl
  obtain ⟨s, u, hu, hsg⟩ := printPath_head hp
  rw [hu] at hl hr ⊢
  unfold Read.atom
  simp only [List.cons_append] at hl hr ⊢
  rw [hl, hr]
  simp only [Option.bind_eq_bind, Option.bind_some, ht]

/-- So is `<T as Trait>::n`. -/
theorem atom_qpath {t : Ty} {tr : Option Ty} {n : Str} (ht : t.Wf) (htr : ∀ x ∈ tr, x.Wf) (hn : nameOk n = true) (ts : Toks) :
    Read.atom ((Expr.qpath t tr n).print ++ ts) = some (.qpath t tr n, ts) := by
  unfold Read.atom
  cases tr with
  | none =>
    have h1 := ty_print ht (ts := .punct .gt :: .punct .colon2 :: .ident n :: ts) rfl
    simp only [Expr.print, printAs, List.cons_append, List.append_assoc, List.nil_append, h1, Option.bind_eq_bind,
      Option.bind_some, Read.optWord, Bool.false_eq_true, if_false, tok_print, name_print hn]
  | some x =>
    have h1 := ty_print ht (ts := .ident c!"as" :: (x.print ++ .punct .gt :: .punct .colon2 :: .ident n :: ts)) rfl
    have h2 := ty_print (htr x rfl) (ts := .punct .gt :: .punct .colon2 :: .ident n :: ts) rfl
    simp only [Expr.print, printAs, List.cons_append, List.append_assoc, List.nil_append, h1, h2, Option.bind_eq_bind,
      Option.bind_some, Read.optWord, if_true, tok_print, name_print hn]

/-- What an expression begins with. -/
theorem expr_head {b : Bool} : ∀ {e : Expr}, e.Wf b → ∃ t u, e.print = t :: u ∧ ∀ d, t ≠ .cls d
  | .lit l, _ => by
    obtain ⟨t, u, h, _, _, _, h4, _⟩ := lit_head l
    exact ⟨t, u, h, h4⟩
  | .path p as, h => by
    obtain ⟨s, u, hu, _⟩ := printPath_head h.1
    exact ⟨_, _, by rw [Expr.print, hu]; rfl, by simp⟩
  | .qpath .., _ => ⟨_, _, rfl, by simp⟩
  | .call e as, h => by
    obtain ⟨t, u, hu, ht⟩ := expr_head h.1
    exact ⟨t, _, by rw [Expr.print, hu]; rfl, ht⟩
  | .method e f gs as, h => by
    obtain ⟨t, u, hu, ht⟩ := expr_head h.1
    exact ⟨t, _, by rw [Expr.print, hu]; rfl, ht⟩
  | .field e f, h => by
    obtain ⟨t, u, hu, ht⟩ := expr_head h.1
    exact ⟨t, _, by rw [Expr.print, hu]; rfl, ht⟩
  | .try e, h => by
    obtain ⟨t, u, hu, ht⟩ := expr_head h.1
    exact ⟨t, _, by rw [Expr.print, hu]; rfl, ht⟩
  | .deref .., _ => ⟨_, _, rfl, by simp⟩
  | .ret .., _ => ⟨_, _, rfl, by simp⟩
  | .match .., _ => ⟨_, _, rfl, by simp⟩
  | .struct p fs, h => by
    obtain ⟨s, u, hu, _⟩ := printPath_head h.2.1
    exact ⟨_, _, by rw [Expr.print, hu]; rfl, by simp⟩

/-- Reading an expression that begins with a path. -/
theorem expr_path {b : Bool} {s : Str} (hs : segOk s = true) (u : Toks) : Read.expr b (.ident s :: u) =
    (Read.atom (.ident s :: u)).bind fun (e, ts) => match e, ts with
      | .path p [], .opn .brace :: us =>
        if b then (Read.inits us).bind fun (fs, us) => Read.postOps (.struct p fs) us else some (e, ts)
      | _, _ => Read.postOps e ts := by
  unfold Read.expr
  split
  · simp_all
  · simp_all
  · rename_i heq
    simp only [List.cons.injEq, Tok.ident.injEq] at heq
    exact absurd heq.1 (seg_ne hs (by decide))
  · rename_i heq
    simp only [List.cons.injEq, Tok.ident.injEq] at heq
    exact absurd heq.1 (seg_ne hs (by decide))
  · rfl

mutual
/-- An expression that postfix operators can follow is read, then the operators. -/
theorem expr_post {b : Bool} : ∀ {e : Expr}, e.Wf b → e.Post → ∀ {ts : Toks}, stopAtom b ts = true →
    ((∃ a f, e = .field a f) → ∀ u, ts ≠ .opn .paren :: u) → Read.expr b (e.print ++ ts) = Read.postOps e ts
  | .lit l, _, hp, ts, hs, _ => by
    have hl := literal_print l ts
    obtain ⟨t, u, h, ha, hb, hc, _, hn⟩ := lit_head l
    have hn := hn hp
    simp only [Expr.print, h, List.cons_append] at hl ⊢
    have hat : Read.atom (t :: (u ++ ts)) = some (.lit l, ts) := by
      unfold Read.atom
      split
      · rename_i heq
        simp only [List.cons.injEq] at heq
        exact absurd heq.1 (hn _)
      · rw [hl]
    unfold Read.expr
    split
    · rename_i heq; simp only [List.cons.injEq] at heq; exact absurd heq.1 (hn _)
    · rename_i heq; simp only [List.cons.injEq] at heq; exact absurd heq.1 (hn _)
    · rename_i heq; simp only [List.cons.injEq] at heq; rcases ha _ heq.1 with e | e <;> simp at e
    · rename_i heq; simp only [List.cons.injEq] at heq; rcases ha _ heq.1 with e | e <;> simp at e
    · rw [hat]
      simp only [Option.bind_eq_bind, Option.bind_some]
  | .path p as, h, _, ts, hs, _ => by
    have hat := atom_path h.1 h.2 hs
    obtain ⟨s, u, hu, hsg⟩ := printPath_head h.1
    simp only [Expr.print, hu, List.cons_append, List.append_assoc] at hat ⊢
    rw [expr_path hsg, hat]
    simp only [Option.bind_some]
    split
    · rename_i heq
      simp only [stopAtom, Bool.not_eq_true'] at hs
      subst hs
      rw [if_neg (by simp)]
      unfold Read.postOps
      simp_all
    · rfl
  | .qpath t tr n, h, _, ts, hs, _ => by
    have hat := atom_qpath (t := t) h.1 h.2.1 h.2.2 ts
    simp only [Expr.print, List.cons_append, List.append_assoc] at hat ⊢
    unfold Read.expr
    simp only [hat, Option.bind_eq_bind, Option.bind_some]
  | .call e as, h, _, ts, hs, _ => by
    have h1 := expr_post h.1 h.2.1 (ts := .opn .paren :: (printExprs as ++ ts)) rfl
      (fun ⟨a, f, he⟩ => absurd he (h.2.2.1 a f))
    have h2 := args_print h.2.2.2 ts
    simp only [Expr.print, List.cons_append, List.append_assoc]
    rw [h1]
    conv_lhs => unfold Read.postOps
    simp only [h2, Option.bind_eq_bind, Option.bind_some]
  | .method e f gs as, h, _, ts, hs, _ => by
    have h1 := expr_post h.1 h.2.1 (ts := .punct .dot :: .ident f :: (printTurbofish gs ++ .opn .paren :: (printExprs as ++ ts)))
      rfl (by simp)
    have h2 := args_print h.2.2.2.2 ts
    have h3 := turbofish_print h.2.2.2.1 (ts := .opn .paren :: (printExprs as ++ ts)) (by simp)
    simp only [Expr.print, List.cons_append, List.append_assoc]
    rw [h1]
    conv_lhs => unfold Read.postOps
    simp only [name_print h.2.2.1, h2, h3, Option.bind_eq_bind, Option.bind_some]
  | .field e f, h, _, ts, hs, hf => by
    have h1 := expr_post h.1 h.2.1 (ts := .punct .dot :: .ident f :: ts) rfl (by simp)
    have h3 := turbofish_print (as := []) trivial (stop_colon2 hs)
    simp only [printTurbofish, List.nil_append] at h3
    simp only [Expr.print, List.cons_append, List.append_assoc, List.nil_append]
    rw [h1]
    conv_lhs => unfold Read.postOps
    simp only [name_print h.2.2, h3, Option.bind_eq_bind, Option.bind_some]
    split
    · exact absurd rfl (hf ⟨_, _, rfl⟩ _)
    · rfl
  | .try e, h, _, ts, hs, _ => by
    have h1 := expr_post h.1 h.2 (ts := .punct .question :: ts) rfl (by simp)
    simp only [Expr.print, List.cons_append, List.append_assoc, List.nil_append]
    rw [h1]
    conv_lhs => unfold Read.postOps
  | .match e as, h, _, ts, hs, _ => by
    have h1 := expr_print h.1 (ts := .opn .brace :: (printArms as ++ ts)) rfl
    have h2 := arms_print h.2 ts
    simp only [Expr.print, List.cons_append, List.append_assoc]
    unfold Read.expr
    simp only [h1, h2, Option.bind_eq_bind, Option.bind_some, tok_print]
  | .struct p fs, h, _, ts, hs, _ => by
    obtain ⟨rfl, hp, hf⟩ := h
    have hat : Read.atom (printPath p ++ (.opn .brace :: (printInits fs ++ ts))) =
        some (.path p [], .opn .brace :: (printInits fs ++ ts)) := atom_path (b := false) (as := []) hp trivial rfl
    have h2 := inits_print hf ts
    obtain ⟨s, u, hu, hsg⟩ := printPath_head hp
    simp only [Expr.print, hu, List.cons_append, List.append_assoc] at hat ⊢
    rw [expr_path hsg, hat]
    simp only [Option.bind_some, if_true, h2]
termination_by e => 2 * sizeOf e
/-- An expression is read back. -/
theorem expr_print {b : Bool} : ∀ {e : Expr}, e.Wf b → ∀ {ts : Toks}, stopExpr b ts = true →
    Read.expr b (e.print ++ ts) = some (e, ts)
  | .deref e, h, ts, hs => by
    have h1 := expr_print (e := e) h hs
    simp only [Expr.print, List.cons_append]
    unfold Read.expr
    simp only [h1, Option.bind_eq_bind, Option.bind_some]
  | .ret e, h, ts, hs => by
    have h1 := expr_print (e := e) h hs
    simp only [Expr.print, List.cons_append]
    unfold Read.expr
    simp only [h1, Option.bind_eq_bind, Option.bind_some]
  | .lit l, h, ts, hs => by
    by_cases hn : negative l
    · have hl := literal_print l ts
      cases l with
      | int i s =>
        have hi : i < 0 := hn
        simp only [Expr.print, printLit, if_pos hi, List.cons_append, List.nil_append] at hl ⊢
        unfold Read.expr
        simp only [hl, Option.bind_eq_bind, Option.bind_some]
      | float x s =>
        have hi : 2 ^ 63 ≤ x.val := hn
        simp only [Expr.print, printLit, if_pos hi, List.cons_append, List.nil_append] at hl ⊢
        unfold Read.expr
        simp only [hl, Option.bind_eq_bind, Option.bind_some]
      | bool x => exact hn.elim
      | str x => exact hn.elim
    · rw [expr_post h hn (stopAtom_of hs) (by simp), postOps_stop hs]
  | .path p as, h, ts, hs => by rw [expr_post h trivial (stopAtom_of hs) (by simp), postOps_stop hs]
  | .qpath t tr n, h, ts, hs => by rw [expr_post h trivial (stopAtom_of hs) (by simp), postOps_stop hs]
  | .call e as, h, ts, hs => by rw [expr_post h trivial (stopAtom_of hs) (by simp), postOps_stop hs]
  | .method e f gs as, h, ts, hs => by rw [expr_post h trivial (stopAtom_of hs) (by simp), postOps_stop hs]
  | .field e f, h, ts, hs => by
    rw [expr_post h trivial (stopAtom_of hs) (by rintro - u rfl; simp [stopExpr] at hs), postOps_stop hs]
  | .try e, h, ts, hs => by rw [expr_post h trivial (stopAtom_of hs) (by simp), postOps_stop hs]
  | .match e as, h, ts, hs => by rw [expr_post h trivial (stopAtom_of hs) (by simp), postOps_stop hs]
  | .struct p fs, h, ts, hs => by rw [expr_post h trivial (stopAtom_of hs) (by simp), postOps_stop hs]
termination_by e => 2 * sizeOf e + 1
/-- Arguments are read back. -/
theorem args_print : ∀ {es : List Expr}, exprsWf es → ∀ (ts : Toks), Read.args (printExprs es ++ ts) = some (es, ts)
  | [], _, ts => by
    unfold Read.args
    rfl
  | [e], h, ts => by
    have h1 := expr_print h.1 (ts := .cls .paren :: ts) rfl
    obtain ⟨t, u, hu, ht⟩ := expr_head h.1
    simp only [printExprs, hu, List.cons_append, List.append_assoc, List.nil_append] at h1 ⊢
    unfold Read.args
    split
    · rename_i heq; simp only [List.cons.injEq] at heq; exact absurd heq.1 (ht _)
    · rw [h1]
      simp only [Option.bind_eq_bind, Option.bind_some, tok_print]
  | e :: f :: es, h, ts => by
    have h1 := expr_print h.1 (ts := .punct .comma :: (printExprs (f :: es) ++ ts)) rfl
    have h2 := args_print h.2 ts
    obtain ⟨t, u, hu, ht⟩ := expr_head h.1
    simp only [printExprs, hu, List.cons_append, List.append_assoc] at h1 ⊢
    unfold Read.args
    split
    · rename_i heq; simp only [List.cons.injEq] at heq; exact absurd heq.1 (ht _)
    · rw [h1]
      simp only [Option.bind_eq_bind, Option.bind_some, h2]
termination_by es => 2 * sizeOf es + 1
/-- Arms are read back. -/
theorem arms_print : ∀ {as : List (Pat × Expr)}, armsWf as → ∀ (ts : Toks), Read.arms (printArms as ++ ts) = some (as, ts)
  | [], _, ts => by
    unfold Read.arms
    rfl
  | [(p, e)], h, ts => by
    have h1 := expr_print h.2.1 (ts := .cls .brace :: ts) rfl
    have h2 := (pat_print h.1).1 (ts := .punct .fatArrow :: (e.print ++ .cls .brace :: ts)) rfl
    obtain ⟨t, u, hu, _, ht⟩ := pat_head h.1
    simp only [printArms, hu, List.cons_append, List.append_assoc, List.nil_append] at h1 h2 ⊢
    unfold Read.arms
    split
    · rename_i heq; simp only [List.cons.injEq] at heq; exact absurd heq.1 (ht _)
    · rw [h2]
      simp only [Option.bind_eq_bind, Option.bind_some, tok_print, h1]
  | (p, e) :: a :: as, h, ts => by
    have h1 := expr_print h.2.1 (ts := .punct .comma :: (printArms (a :: as) ++ ts)) rfl
    have h2 := (pat_print h.1).1 (ts := .punct .fatArrow :: (e.print ++ .punct .comma :: (printArms (a :: as) ++ ts))) rfl
    have h3 := arms_print h.2.2 ts
    obtain ⟨t, u, hu, _, ht⟩ := pat_head h.1
    simp only [printArms, hu, List.cons_append, List.append_assoc] at h1 h2 ⊢
    unfold Read.arms
    split
    · rename_i heq; simp only [List.cons.injEq] at heq; exact absurd heq.1 (ht _)
    · rw [h2]
      simp only [Option.bind_eq_bind, Option.bind_some, tok_print, h1, h3]
termination_by as => 2 * sizeOf as + 1
/-- Fields are read back. -/
theorem inits_print : ∀ {fs : List (Str × Option Expr)}, initsWf fs → ∀ (ts : Toks),
    Read.inits (printInits fs ++ ts) = some (fs, ts)
  | [], _, ts => by
    unfold Read.inits
    rfl
  | [(f, v)], h, ts => by
    have h1 := init_print h.2.1 (ts := .cls .brace :: ts) rfl (by simp)
    simp only [printInits, List.cons_append, List.append_assoc, List.nil_append]
    unfold Read.inits
    simp only [name_print h.1, h1, Option.bind_eq_bind, Option.bind_some, tok_print]
  | (f, v) :: g :: fs, h, ts => by
    have h1 := init_print h.2.1 (ts := .punct .comma :: (printInits (g :: fs) ++ ts)) rfl (by simp)
    have h2 := inits_print h.2.2 ts
    simp only [printInits, List.cons_append, List.append_assoc]
    unfold Read.inits
    simp only [name_print h.1, h1, h2, Option.bind_eq_bind, Option.bind_some]
termination_by fs => 2 * sizeOf fs + 1
/-- The value of a field is read back. -/
theorem init_print : ∀ {v : Option Expr}, initWf v → ∀ {ts : Toks}, stopExpr true ts = true → (∀ u, ts ≠ .punct .colon :: u) →
    Read.initVal (printInit v ++ ts) = some (v, ts)
  | none, _, ts, _, hc => by
    simp only [printInit, List.nil_append]
    unfold Read.initVal
    split
    · exact (hc _ rfl).elim
    · rfl
  | some e, h, ts, hs, _ => by
    have h1 := expr_print (e := e) h hs
    simp only [printInit, List.cons_append]
    unfold Read.initVal
    simp only [h1, Option.bind_eq_bind, Option.bind_some]
termination_by v => 2 * sizeOf v + 1
end

end Butte.Src
