import Verif.Src.Read
import Verif.Src.Print
import Mathlib.Algebra.Group.Fin.Basic
/-
Types, literals and patterns are read back from their tokens.
-/
namespace Butte.Src
open Rs (Lit)

/-- What can follow a path. -/
def stopPath : Toks → Bool
  | .punct .colon2 :: .ident _ :: _ => false
  | _ => true

/-- What can follow a type. -/
def stopTy : Toks → Bool
  | .punct .lt :: _ | .punct .colon2 :: _ => false
  | _ => true

theorem stopPath_of {ts : Toks} (h : stopTy ts = true) : stopPath ts = true := by
  unfold stopPath
  split
  · simp [stopTy] at h
  · rfl

theorem name_print {s : Str} (h : nameOk s = true) (ts : Toks) : Read.name (.ident s :: ts) = some (s, ts) := by
  simp [Read.name, h]

theorem tok_print (t : Tok) (ts : Toks) : Read.tok t (t :: ts) = some ts := by simp [Read.tok]

theorem path_print : ∀ {p : List Str}, pathWf p → ∀ {ts : Toks}, stopPath ts = true →
    Read.path (printPath p ++ ts) = some (p, ts)
  | [], h, _, _ => absurd rfl h.1
  | [s], h, ts, hs => by
    have := h.2 s (by simp)
    simp only [printPath, List.cons_append, List.nil_append]
    unfold Read.path
    split
    · rename_i heq
      simp only [List.cons.injEq, Tok.ident.injEq] at heq
      obtain ⟨rfl, rfl⟩ := heq
      simp [stopPath] at hs
    · rename_i heq
      simp only [List.cons.injEq, Tok.ident.injEq] at heq
      obtain ⟨rfl, rfl⟩ := heq
      rw [if_pos this]
    · rename_i h1 h2
      exact (h2 _ _ rfl).elim
  | s :: t :: p, h, ts, hs => by
    have := h.2 s (by simp)
    have ih := path_print (p := t :: p) ⟨by simp, fun x hx => h.2 x (List.mem_cons_of_mem _ hx)⟩ hs
    obtain ⟨u, hu⟩ : ∃ u, printPath (t :: p) = .ident t :: u := by cases p <;> exact ⟨_, rfl⟩
    rw [hu, List.cons_append] at ih
    simp only [printPath, List.cons_append, hu]
    rw [Read.path, if_pos this]
    simp [ih]

theorem printPath_head {p : List Str} (h : pathWf p) : ∃ s u, printPath p = .ident s :: u ∧ segOk s = true := by
  obtain ⟨h1, h2⟩ := h
  match p, h1 with
  | [s], _ => exact ⟨s, [], rfl, h2 s (by simp)⟩
  | s :: t :: p, _ => exact ⟨s, _, rfl, h2 s (by simp)⟩

theorem seg_ne {s w : Str} (h : segOk s = true) (hw : segOk w = false) : s ≠ w := by
  rintro rfl
  rw [h] at hw
  cases hw

/-- What the tokens of a type begin with. -/
theorem ty_head : ∀ {t : Ty}, t.Wf → (∃ u, t.print = .punct .amp :: u) ∨ (∃ u, t.print = .opn .bracket :: u) ∨
    ∃ s u, t.print = .ident s :: u ∧ segOk s = true
  | .path p c as, h => by
    obtain ⟨s, u, hu, hs⟩ := printPath_head h.1
    cases as with
    | nil => exact .inr (.inr ⟨s, _, by simp [Ty.print, hu]; rfl, hs⟩)
    | cons a as => exact .inr (.inr ⟨s, _, by simp [Ty.print, hu]; rfl, hs⟩)
  | .ref .., _ => .inl ⟨_, rfl⟩
  | .slice .., _ => .inr (.inl ⟨_, rfl⟩)

theorem optWord_false {w : Str} {ts : Toks} (h : ∀ u, ts ≠ .ident w :: u) : Read.optWord w ts = (false, ts) := by
  unfold Read.optWord
  split
  · split
    · rename_i e; subst e; exact (h _ rfl).elim
    · rfl
  · rfl

theorem optWord_print {w : Str} {b : Bool} {ts : Toks} (h : ∀ u, ts ≠ .ident w :: u) :
    Read.optWord w (printWord w b ++ ts) = (b, ts) := by
  cases b
  · exact optWord_false h
  · simp [printWord, Read.optWord]

theorem optLife_print {l : Option Str} {ts : Toks} (h : ∀ a u, ts ≠ .life a :: u) :
    Read.optLife (printLife l ++ ts) = (l, ts) := by
  cases l
  · unfold printLife Read.optLife
    split
    · exact (h _ _ ‹_›).elim
    · rfl
  · rfl

theorem ty_not_word {t : Ty} (h : t.Wf) {w : Str} (hw : segOk w = false) (ts : Toks) : ∀ u, t.print ++ ts ≠ .ident w :: u := by
  intro u e
  rcases ty_head h with ⟨v, hv⟩ | ⟨v, hv⟩ | ⟨s, v, hv, hs⟩ <;> rw [hv] at e <;> simp at e
  exact seg_ne hs hw e.1

theorem ty_not_life {t : Ty} (h : t.Wf) (ts : Toks) : ∀ l u, t.print ++ ts ≠ .life l :: u := by
  intro l u e
  rcases ty_head h with ⟨v, hv⟩ | ⟨v, hv⟩ | ⟨s, v, hv, hs⟩ <;> rw [hv] at e <;> simp at e

mutual
/-- A type is read back. -/
theorem ty_print : ∀ {t : Ty}, t.Wf → ∀ {ts : Toks}, stopTy ts = true → Read.ty (t.print ++ ts) = some (t, ts)
  | .path p c [], h, ts, hs => by
    obtain ⟨s, u, hu, hsg⟩ := printPath_head h.1
    have hp := path_print h.1 (stopPath_of hs)
    have hc := h.2.1 rfl
    subst hc
    unfold Read.ty
    simp only [Ty.print, hu, List.cons_append] at hp ⊢
    rw [hp]
    simp only [Option.bind_eq_bind, Option.bind_some]
    split
    · simp [stopTy] at hs
    · simp [stopTy] at hs
    · rfl
  | .path p c (a :: as), h, ts, hs => by
    obtain ⟨s, u, hu, hsg⟩ := printPath_head h.1
    have ha := gargs_print h.2.2 ts
    unfold Read.ty
    cases c
    · have hp := path_print (ts := .punct .lt :: (a.print ++ printArgs as) ++ ts) h.1 rfl
      simp only [Ty.print, hu, List.cons_append, List.append_assoc, List.nil_append, Bool.false_eq_true, if_false] at hp ha ⊢
      rw [hp]
      simp only [Option.bind_eq_bind, Option.bind_some, ha]
    · have hp := path_print (ts := .punct .colon2 :: .punct .lt :: (a.print ++ printArgs as) ++ ts) h.1 rfl
      simp only [Ty.print, hu, List.cons_append, List.append_assoc, List.nil_append, if_true] at hp ha ⊢
      rw [hp]
      simp only [Option.bind_eq_bind, Option.bind_some, ha]
  | .ref l m t, h, ts, hs => by
    have ht := ty_print (t := t) h hs
    unfold Read.ty
    simp only [Ty.print, List.cons_append, List.append_assoc]
    have hm : Read.optWord c!"mut" (printWord c!"mut" m ++ (t.print ++ ts)) = (m, t.print ++ ts) :=
      optWord_print (ty_not_word (t := t) h (by decide) ts)
    have hl : Read.optLife (printLife l ++ (printWord c!"mut" m ++ (t.print ++ ts))) = (l, printWord c!"mut" m ++ (t.print ++ ts)) :=
      optLife_print (by
        intro a u e
        cases m
        · exact ty_not_life (t := t) h ts a u e
        · simp [printWord] at e)
    simp only [hl, hm, ht, Option.bind_eq_bind, Option.bind_some]
  | .slice t, h, ts, hs => by
    have ht := ty_print (t := t) h (ts := .cls .bracket :: ts) rfl
    unfold Read.ty
    simp only [Ty.print, List.cons_append, List.append_assoc, List.nil_append, ht, Option.bind_eq_bind, Option.bind_some, tok_print]
termination_by t => sizeOf t
/-- Generic arguments are read back. -/
theorem gargs_print : ∀ {a : GArg} {as : List GArg}, argsWf (a :: as) → ∀ (ts : Toks),
    Read.gargs (a.print ++ printArgs as ++ ts) = some (a :: as, ts)
  | .life l, [], _, ts => by
    unfold Read.gargs
    simp [GArg.print, printArgs]
  | .life l, b :: as, h, ts => by
    have ih := gargs_print h.2 ts
    unfold Read.gargs
    simp only [GArg.print, printArgs, List.cons_append, List.nil_append, Option.bind_eq_bind, Option.bind_eq_bind]
    rw [ih]
    rfl
  | .ty t, [], h, ts => by
    have ht := ty_print (t := t) h.1 (ts := .punct .gt :: ts) rfl
    unfold Read.gargs
    simp only [GArg.print, printArgs, List.append_assoc, List.cons_append, List.nil_append]
    split
    · rename_i heq
      exact (ty_not_life h.1 _ _ _ heq).elim
    · rw [ht]
      rfl
  | .ty t, b :: as, h, ts => by
    have ih := gargs_print h.2 ts
    have ht := ty_print (t := t) h.1 (ts := .punct .comma :: (b.print ++ printArgs as ++ ts)) rfl
    unfold Read.gargs
    simp only [GArg.print, printArgs, List.append_assoc, List.cons_append, List.nil_append] at ht ih ⊢
    split
    · rename_i heq
      exact (ty_not_life h.1 _ _ _ heq).elim
    · rw [ht]
      simp only [Option.bind_eq_bind, Option.bind_some, ih]
termination_by a as => sizeOf a + sizeOf as
end

/-! ### Literals -/

theorem literal_print (l : Lit) (ts : Toks) : Read.literal (printLit l ++ ts) = some (l, ts) := by
  cases l with
  | int i s =>
    simp only [printLit]
    split
    · simp only [List.cons_append, List.nil_append, Read.literal, Option.some.injEq, Prod.mk.injEq, Lit.int.injEq, and_true]
      omega
    · simp only [List.cons_append, List.nil_append, Read.literal, Option.some.injEq, Prod.mk.injEq, Lit.int.injEq, and_true]
      omega
  | float b s =>
    simp only [printLit]
    split
    · simp only [List.cons_append, List.nil_append, Read.literal, Option.some.injEq, Prod.mk.injEq, Lit.float.injEq, and_true]
      exact sub_add_cancel b _
    · rfl
  | bool b => cases b <;> rfl
  | str s => rfl

theorem literal_seg {s : Str} (h : segOk s = true) (ts : Toks) : Read.literal (.ident s :: ts) = none := by
  simp only [Read.literal]
  rw [if_neg (seg_ne h (by decide)), if_neg (seg_ne h (by decide))]

theorem literal_path {p : List Str} (h : pathWf p) (ts : Toks) : Read.literal (printPath p ++ ts) = none := by
  obtain ⟨s, u, hu, hs⟩ := printPath_head h
  rw [hu]
  exact literal_seg hs _

/-- What the tokens of a literal begin with. -/
theorem lit_head (l : Lit) : ∃ t u, printLit l = t :: u ∧ (∀ s, t = .ident s → s = c!"true" ∨ s = c!"false") ∧
    (∀ p, t = .punct p → p = .minus) ∧ (∀ d, t ≠ .opn d) ∧ (∀ d, t ≠ .cls d) ∧ (¬ negative l → ∀ p, t ≠ .punct p) := by
  cases l with
  | int i s =>
    simp only [printLit]
    split
    · exact ⟨_, _, rfl, by simp, by simp, by simp, by simp, fun h => absurd ‹_› h⟩
    · exact ⟨_, _, rfl, by simp, by simp, by simp, by simp, by simp⟩
  | float b s =>
    simp only [printLit]
    split
    · exact ⟨_, _, rfl, by simp, by simp, by simp, by simp, fun h => absurd ‹_› h⟩
    · exact ⟨_, _, rfl, by simp, by simp, by simp, by simp, by simp⟩
  | bool b => exact ⟨_, _, rfl, by cases b <;> simp, by simp, by simp, by simp, by simp⟩
  | str s => exact ⟨_, _, rfl, by simp, by simp, by simp, by simp, by simp⟩

/-! ### Patterns -/

/-- What can follow a pattern. -/
def stopPat : Toks → Bool
  | .punct .or :: _ | .opn .paren :: _ | .punct .colon2 :: _ => false
  | _ => true

/-- What can follow a part of a pattern. -/
def stopPat1 : Toks → Bool
  | .opn .paren :: _ | .punct .colon2 :: _ => false
  | _ => true

theorem stopPat1_of {ts : Toks} (h : stopPat ts = true) : stopPat1 ts = true := by
  unfold stopPat1
  split <;> first | rfl | simp [stopPat] at h

theorem stopPath_pat {ts : Toks} (h : stopPat1 ts = true) : stopPath ts = true := by
  unfold stopPath
  split
  · simp [stopPat1] at h
  · rfl

theorem pat1_path {p : List Str} (h : pathWf p) (ts : Toks) : Read.pat1 (printPath p ++ ts) =
    (Read.path (printPath p ++ ts)).bind fun (p, ts) => match ts with
      | .opn .paren :: .punct .dot2 :: .cls .paren :: ts => some (.rest p, ts)
      | .opn .paren :: ts => (Read.pat ts).bind fun (q, ts) => (Read.tok (.cls .paren) ts).bind fun ts => some (.tuple p q, ts)
      | ts => some (.path p, ts) := by
  have hl := literal_path h ts
  obtain ⟨s, u, hu, hs⟩ := printPath_head h
  rw [hu] at hl ⊢
  unfold Read.pat1
  split
  · rename_i heq
    simp only [List.cons_append, List.cons.injEq, Tok.ident.injEq] at heq
    exact absurd heq.1 (seg_ne hs (by decide))
  · rename_i heq
    simp at heq
  · rw [hl]
    rfl

theorem tok_other {t u : Tok} (h : u ≠ t) (ts : Toks) : Read.tok t (u :: ts) = none := by simp [Read.tok, h]

/-- The first token of a pattern. -/
theorem pat_head : ∀ {p : Pat}, p.Wf → ∃ t u, p.print = t :: u ∧ t ≠ .punct .dot2 ∧ ∀ d, t ≠ .cls d
  | .wild, _ => ⟨_, _, rfl, by simp⟩
  | .lit l, _ => by
    obtain ⟨t, u, h, _, h2, _, h4, _⟩ := lit_head l
    exact ⟨t, u, h, (fun e => by have := h2 _ e; cases this), h4⟩
  | .path p, h => by
    obtain ⟨s, u, hu, _⟩ := printPath_head h
    exact ⟨_, u, hu, by simp⟩
  | .qpath .., _ => ⟨_, _, rfl, by simp⟩
  | .rest p, h => by
    obtain ⟨s, u, hu, _⟩ := printPath_head h
    exact ⟨_, _, by rw [Pat.print, hu]; rfl, by simp⟩
  | .tuple p q, h => by
    obtain ⟨s, u, hu, _⟩ := printPath_head h.1
    exact ⟨_, _, by rw [Pat.print, hu]; rfl, by simp⟩
  | .or p q, h => by
    obtain ⟨t, u, hu, ht⟩ := pat_head h.2.1
    exact ⟨t, _, by rw [Pat.print, hu]; rfl, ht⟩

/-- A pattern is read back. -/
theorem pat_print : ∀ {p : Pat}, p.Wf → (∀ {ts : Toks}, stopPat ts = true → Read.pat (p.print ++ ts) = some (p, ts)) ∧
    ((∀ a b, p ≠ .or a b) → ∀ {ts : Toks}, stopPat1 ts = true → Read.pat1 (p.print ++ ts) = some (p, ts)) := by
  have stop : ∀ {p : Pat} {ts : Toks}, stopPat ts = true → Read.pat1 (p.print ++ ts) = some (p, ts) →
      Read.pat (p.print ++ ts) = some (p, ts) := by
    intro p ts hs h
    rw [Read.pat, h]
    simp only [Option.bind_eq_bind, Option.bind_some]
    split
    · simp [stopPat] at hs
    · rfl
  intro p
  induction p with
  | wild =>
    intro _
    have h1 : ∀ {ts : Toks}, Read.pat1 (Pat.wild.print ++ ts) = some (.wild, ts) := by
      intro ts
      simp only [Pat.print, List.cons_append, List.nil_append]
      unfold Read.pat1
      rfl
    exact ⟨fun hs => stop hs h1, fun _ _ _ => h1⟩
  | lit l =>
    intro _
    have h1 : ∀ {ts : Toks}, Read.pat1 ((Pat.lit l).print ++ ts) = some (.lit l, ts) := by
      intro ts
      have hl := literal_print l ts
      obtain ⟨t, u, h, ha, hb, _⟩ := lit_head l
      simp only [Pat.print, h, List.cons_append] at hl ⊢
      unfold Read.pat1
      split
      · rename_i heq
        simp only [List.cons.injEq] at heq
        rcases ha _ heq.1 with e | e <;> simp at e
      · rename_i heq
        simp only [List.cons.injEq] at heq
        cases hb _ heq.1
      · rw [hl]
    exact ⟨fun hs => stop hs h1, fun _ _ _ => h1⟩
  | path p =>
    intro hw
    have h1 : ∀ {ts : Toks}, stopPat1 ts = true → Read.pat1 ((Pat.path p).print ++ ts) = some (.path p, ts) := by
      intro ts hs
      simp only [Pat.print]
      rw [pat1_path hw, path_print hw (stopPath_pat hs)]
      simp only [Option.bind_some]
      split
      · simp [stopPat1] at hs
      · simp [stopPat1] at hs
      · rfl
    exact ⟨fun hs => stop hs (h1 (stopPat1_of hs)), fun _ _ => h1⟩
  | qpath t v =>
    intro hw
    have h1 : ∀ {ts : Toks}, Read.pat1 ((Pat.qpath t v).print ++ ts) = some (.qpath t v, ts) := by
      intro ts
      have ht := ty_print (t := t) hw.1 (ts := .punct .gt :: .punct .colon2 :: .ident v :: ts) rfl
      simp only [Pat.print, List.cons_append, List.append_assoc, List.nil_append]
      unfold Read.pat1
      simp only [ht, Option.bind_eq_bind, Option.bind_some, tok_print, name_print hw.2]
    exact ⟨fun hs => stop hs h1, fun _ _ _ => h1⟩
  | rest p =>
    intro hw
    have h1 : ∀ {ts : Toks}, Read.pat1 ((Pat.rest p).print ++ ts) = some (.rest p, ts) := by
      intro ts
      simp only [Pat.print, List.append_assoc, List.cons_append, List.nil_append]
      rw [pat1_path hw, path_print hw rfl]
      rfl
    exact ⟨fun hs => stop hs h1, fun _ _ _ => h1⟩
  | tuple p q ih =>
    intro hw
    have h1 : ∀ {ts : Toks}, Read.pat1 ((Pat.tuple p q).print ++ ts) = some (.tuple p q, ts) := by
      intro ts
      have hq := (ih hw.2).1 (ts := .cls .paren :: ts) rfl
      obtain ⟨t, u, hu, ht, _⟩ := pat_head hw.2
      simp only [Pat.print, List.append_assoc, List.cons_append, List.nil_append]
      rw [pat1_path hw.1, path_print hw.1 rfl]
      rw [hu, List.cons_append] at hq ⊢
      simp only [Option.bind_some]
      split
      · rename_i heq
        simp only [List.cons.injEq] at heq
        exact absurd heq.2.1 ht
      · rename_i heq
        simp only [List.cons.injEq, true_and] at heq
        rw [← heq, hq]
        simp [tok_print]
      · rename_i h1 h2
        exact (h2 _ rfl).elim
    exact ⟨fun hs => stop hs h1, fun _ _ _ => h1⟩
  | or p q ih1 ih2 =>
    intro hw
    refine ⟨fun {ts} hs => ?_, fun h => absurd rfl (h p q)⟩
    have h1 := (ih1 hw.2.1).2 hw.1 (ts := .punct .or :: (q.print ++ ts)) rfl
    have h2 := (ih2 hw.2.2).1 hs
    simp only [Pat.print, List.append_assoc, List.cons_append]
    rw [Read.pat, h1]
    simp only [Option.bind_eq_bind, Option.bind_some, h2]

end Butte.Src
