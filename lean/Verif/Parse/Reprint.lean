import Verif.Parse.SoundDecl
/-
Whatever has a text has a canonical text: the trees that the grammar can write are those that the printer can print.
-/
namespace Butte.Parse

open Ast

variable {α β γ : Type} [Env]

omit [Env] in
theorem DocText.ok {d : Comment} {t : Str} (h : DocText d t) : DocOk d := by
  induction h with
  | nil => exact nofun
  | cons h1 _ _ _ ih => exact List.forall_mem_cons.mpr ⟨h1, ih⟩

omit [Env] in
theorem SepText.all {c : Char} {R : α → Str → Prop} {C : α → Prop} (hC : ∀ a t, R a t → C a) {l : List α} {t : Str}
    (h : SepText c R l t) : l ≠ [] ∧ ∀ a ∈ l, C a := by
  induction h with
  | one h => exact ⟨nofun, List.forall_mem_singleton.mpr (hC _ _ h)⟩
  | cons h _ _ _ ih => exact ⟨nofun, List.forall_mem_cons.mpr ⟨hC _ _ h, ih.2⟩⟩

omit [Env] in
theorem ManyText.all {R : α → Str → Prop} {C : α → Prop} (hC : ∀ a t, R a t → C a) {l : List α} {t : Str}
    (h : ManyText R l t) : ∀ a ∈ l, C a := by
  induction h with
  | nil => exact nofun
  | cons h _ _ ih => exact List.forall_mem_cons.mpr ⟨hC _ _ h, ih⟩

theorem QIdentText.ok {q : QIdent} {t : Str} (h : QIdentText q t) : QOk q := SepText.all (fun _ _ h => h.1) h

theorem TyText.ok {ty : Ty} {t : Str} (h : TyText ty t) : TyOk ty := by
  induction h with
  | builtin _ => trivial
  | string => trivial
  | array _ ih => exact ih
  | ident h1 h2 => exact ⟨h2.ok, fun i hi => by cases hi; exact h1⟩

omit [Env] in
theorem IntText.ok {i : Int} {t : Str} (h : IntText i t) : -(2 ^ 127) ≤ i ∧ i < 2 ^ 127 := by
  cases h with
  | dec _ _ _ h1 h2 => exact ⟨h1, h2⟩
  | @hex neg sg ds x _ _ _ _ h =>
    unfold signed
    cases neg
    · rw [if_neg (by decide)]; omega
    · rw [if_pos rfl]; omega

omit [Env] in
theorem FloatText.ok {b : Fin (2 ^ 64)} {t : Str} (h : FloatText b t) : b.val % 2 ^ 63 ≤ 2047 * 2 ^ 52 := by
  cases h with
  | point _ _ _ _ => exact Nat.not_lt.mp (decF64_notNan _ _ _)
  | pointExp _ _ _ _ _ => exact Nat.not_lt.mp (decF64_notNan _ _ _)
  | exp _ _ _ _ => exact Nat.not_lt.mp (decF64_notNan _ _ _)

omit [Env] in
theorem ScalarText.ok {s : Scalar} {t : Str} (h : ScalarText s t) : ScalarOk s := by
  cases h with
  | integer h => exact h.ok
  | float h => exact h.ok
  | true => trivial
  | false => trivial

omit [Env] in
theorem SingleText.ok {s : Single} {t : Str} (h : SingleText s t) : SingleOk s := by
  cases h with
  | scalar h => exact h.ok
  | string h => exact h.1

theorem OptDefault.ok {d : Option DefaultValue} {t : Str} (h : OptDefault d t) : DefaultOk d := by
  cases h with
  | none => trivial
  | some _ _ h =>
    cases h with
    | scalar h => exact h.ok
    | ident h h1 h2 => exact ⟨h, h1, h2⟩

theorem MetaText.ok {m : Option Metadata} {t : Str} (h : MetaText m t) : MetaOk m := by
  cases h with
  | none => trivial
  | empty _ => exact nofun
  | some _ h _ =>
    refine (SepText.all (C := fun x => IsIdent x.1 ∧ ∀ v, x.2 = Option.some v → SingleOk v) (fun a t h => ?_) h).2
    cases h with
    | flag h => exact ⟨h, nofun⟩
    | value h _ _ hv => exact ⟨h, fun v e => by cases e; exact hv.ok⟩

theorem FieldText.ok {f : Field} {t : Str} (h : FieldText f t) : FieldOk f := by
  cases h with
  | mk h1 h2 _ _ h3 h4 _ h5 _ => exact ⟨h1.ok, h2, h3.ok, h4.ok, h5.ok⟩

theorem ProductText.ok {kw : Str} {p : Product} {t : Str} (h : ProductText kw p t) : ProductOk p := by
  cases h with
  | mk h1 _ _ h2 _ h3 _ _ h4 => exact ⟨h1.ok, h2, h3.ok, h4.all fun _ _ h => h.ok⟩

theorem VariantText.ok {v : EnumVariant} {t : Str} (h : VariantText v t) : VariantOk v := by
  cases h with
  | mk h1 h2 h3 =>
    refine ⟨h1.ok, h2, fun i hi => ?_⟩
    generalize v.value = o at h3 hi
    cases h3 with
    | none => cases hi
    | some _ _ h => cases hi; exact h.ok

theorem BodyText.ok {vs : List EnumVariant} {t : Str} (h : BodyText vs t) : VariantsOk vs := by
  cases h with
  | plain _ _ h _ => exact h.all fun _ _ h => h.ok
  | comma _ _ h _ _ => exact h.all fun _ _ h => h.ok

theorem MethodText.ok {m : RpcMethod} {t : Str} (h : MethodText m t) : MethodOk m := by
  cases h with
  | mk h1 h2 _ _ h3 _ _ _ h4 _ h5 _ => exact ⟨h1.ok, h2, h3.ok, h4.ok, h5.ok⟩

omit [Env] in
theorem KeywordText.ok {kw : Str} {gap : Bool} {d : Comment} {s t : Str} (h : KeywordText kw gap d s t) : DocOk d := by
  cases h with
  | mk h _ _ _ => exact h.ok

mutual

theorem ValueText.ok {v : Value} {t : Str} : ValueText v t → ValueOk v
  | .single h => by rw [ValueOk]; exact h.ok
  | .object h => by
    have := h.ok
    rw [ValueOk]; exact this
  | .emptyList _ => by rw [ValueOk, ValuesOk]; trivial
  | .list _ h _ => by
    have := h.ok
    rw [ValueOk]; exact this

theorem ObjectText.ok {l : List (Ident × Value)} {d : Comment} {t : Str} : ObjectText l d t → DocOk d ∧ PairsOk l
  | .empty h _ => ⟨h.ok, by rw [PairsOk]; trivial⟩
  | .some h _ hp _ => ⟨h.ok, hp.ok⟩

theorem ValuesText.ok {l : List Value} {t : Str} : ValuesText l t → ValuesOk l
  | .one h => by
    have := h.ok
    rw [ValuesOk, ValuesOk]; exact ⟨this, trivial⟩
  | .cons h _ _ hs => by
    have := h.ok
    have h2 := hs.ok
    rw [ValuesOk]; exact ⟨this, h2⟩

theorem PairsText.ok {l : List (Ident × Value)} {t : Str} : PairsText l t → PairsOk l
  | .one hk _ _ h => by
    have := h.ok
    rw [PairsOk, PairsOk]; exact ⟨hk, this, trivial⟩
  | .cons hk _ _ h _ _ hs => by
    have := h.ok
    have h2 := hs.ok
    rw [PairsOk]; exact ⟨hk, this, h2⟩

end

theorem identRest_raw {c : Char} (h : Env.alphabetic c = true ∨ Env.numeric c = true ∨ c = '_') :
    c ≠ '\\' ∧ c ≠ '"' := by
  have key : ∀ d : Char, d.toNat < 128 → d.isAlpha = false → d.isDigit = false → d ≠ '_' → c ≠ d := by
    rintro d h1 h2 h3 h4 rfl
    rcases h with h | h | h
    · rw [Env.alphabetic_ascii c h1, h2] at h; cases h
    · rw [Env.numeric_ascii c h1, h3] at h; cases h
    · exact h4 h
  exact ⟨key _ (by decide) (by decide) (by decide) (by decide), key _ (by decide) (by decide) (by decide) (by decide)⟩

theorem IsIdent.raw {i : Ident} (h : IsIdent i) : RawText i := by
  have key : ∀ l : Str, (∀ c ∈ l, Env.alphabetic c = true ∨ Env.numeric c = true ∨ c = '_') → RawText l := by
    intro l
    induction l with
    | nil => intro _; exact .nil
    | cons c l ih =>
      intro h
      have := identRest_raw (h c List.mem_cons_self)
      exact .plain this.1 this.2 (ih fun d hd => h d (List.mem_cons_of_mem _ hd))
  cases i with
  | nil => exact h.elim
  | cons c cs =>
    refine key _ (List.forall_mem_cons.mpr ⟨?_, h.2⟩)
    rcases h.1 with h | h
    · exact .inl h
    · exact .inr (.inr h)

theorem ElementText.ok {e : Element} {t : Str} (h : ElementText e t) : ElementOk e := by
  cases h with
  | «namespace» h1 h2 => exact ⟨h1.ok, h2.ok⟩
  | table h => exact h.ok
  | struct h => exact h.ok
  | enum h =>
    cases h with
    | mk h1 _ _ h2 _ _ h3 h4 h5 => exact ⟨h1.ok, h2, h3.ok, h4.ok, h5.ok⟩
  | union h =>
    cases h with
    | mk h1 _ _ h2 _ h4 h5 => exact ⟨h1.ok, h2, h4.ok, h5.ok⟩
  | root h _ => exact ⟨h, rfl⟩
  | fileExtension h1 h2 => exact ⟨h1.1, h2.ok⟩
  | fileIdentifier h1 h2 =>
    refine ⟨rfl, fun x hx => ?_, h2.ok⟩
    obtain ⟨c, hc, rfl⟩ := List.mem_map.mp hx
    have := h1 c hc
    rw [UInt8.toNat_ofNat']
    omega
  | «attribute» h _ =>
    rcases h with h | h
    · exact h.1.raw
    · exact h.1
  | rpc h =>
    cases h with
    | mk h1 _ _ h2 _ _ h3 h4 => exact ⟨h1.ok, h2, h3, h4.all fun _ _ h => h.ok⟩
  | object h => exact h.ok

theorem IncludeText.ok {i : Include} {t : Str} (h : IncludeText i t) : IncludeOk i := by
  cases h with
  | mk h1 h2 h3 => exact ⟨h1.1, h2, h3.ok⟩

/-- Every tree that can be written can be printed. -/
theorem SchemaText.ok {s : Schema} {t : Str} (h : SchemaText s t) : SchemaOk s := by
  cases h with
  | empty => exact ⟨nofun, nofun⟩
  | mk _ _ h1 h2 _ => exact ⟨h1.all fun _ _ h => h.ok, h2.all fun _ _ h => h.ok⟩

end Butte.Parse
