import Verif.Src.Check
import Verif.Rs.Resolve
/-
The type rules of `Src/Check.lean` tell apart what the Rust compiler tells apart. These are checks of the specification, not
of the code.
-/
namespace Butte.Src.Check
open Rs (Scope)

/-- `fn pick<'a>(x: &'a str, y: &str) -> &'a str { e }` -/
def pickFn (e : Expr) : Fn :=
  ⟨[], false, c!"pick", [.life c!"a" none], [.named c!"x" (.ref (some c!"a") false (.path [c!"str"] false [])),
    .named c!"y" (.ref none false (.path [c!"str"] false []))], some (.ref (some c!"a") false (.path [c!"str"] false [])), [], some e⟩

section
variable {F : File} {X : Cx} {Γ : Locals}

theorem outlives_elided {i : Nat} {r s : Region} (h : Outlives [] r s) : r = .elided i ∨ r = .temp → s = .elided i ∨ s = .temp := by
  induction h with
  | refl r => exact id
  | static r => simp
  | temp r => simp
  | bound h => cases h
  | trans _ _ h1 h2 => exact fun h => h2 (h1 h)

theorem append_one {p : List Str} {c x : Str} (h : p ++ [c] = [x]) : p = [] := by
  cases p with
  | nil => rfl
  | cons a p => cases p <;> simp at h

theorem sub_elided {i : Nat} {b : Bool} {t u : LTy} (h : Sub F (Outlives []) t u) : (∃ r v, t = .ref r b v ∧ (r = .elided i ∨ r = .temp)) →
    ∃ r v, u = .ref r b v ∧ (r = .elided i ∨ r = .temp) := by
  rintro ⟨r, v, rfl, hr⟩
  cases h with
  | refl => exact ⟨r, v, rfl, hr⟩
  | ref h1 h2 => exact ⟨_, _, rfl, outlives_elided h1 hr⟩
  | refMut h1 => exact ⟨_, _, rfl, outlives_elided h1 hr⟩

/-- What a variable holds lives as long as was declared, at most. -/
theorem typed_var (hX : X.out = Outlives []) {x : Str} (hx : x ∉ [c!"None", c!"UnknownEnumVariant"]) {i : Nat} {b : Bool} {w : LTy}
    {e : Expr} {t : LTy} (h : Typed F X Γ e t) : find Γ x = some (.ref (.elided i) b w) →
    e = .path [x] [] → ∃ r v, t = .ref r b v ∧ (r = .elided i ∨ r = .temp) := by
  refine Typed.rec (F := F) (X := X)
    (motive_1 := fun Γ e t _ => find Γ x = some (.ref (.elided i) b w) → e = .path [x] [] → ∃ r v, t = .ref r b v ∧ (r = .elided i ∨ r = .temp))
    (motive_2 := fun _ _ _ _ => True) (motive_3 := fun _ _ _ _ _ => True) (motive_4 := fun _ _ _ _ => True)
    ?sub ?place ?lit ?ok ?err ?some ?none ?variant ?qvariant ?const ?unknown ?_ ?_ ?_ ?_ ?_ ?_ ?_ ?_ ?_ ?_ ?_ ?_ ?_ ?_ ?_ ?_ ?_ ?_ ?_
    ?_ ?_ ?_ ?_ ?_ ?_ ?_ h
  case sub =>
    intro Γ e t u h hs ih hf he
    exact sub_elided (hX ▸ hs) (ih hf he)
  case place =>
    intro Γ e t b h hf he
    cases h with
    | var h =>
      cases he
      rw [hf] at h
      cases h
      exact ⟨_, _, rfl, .inl rfl⟩
    | _ => cases he
  case none =>
    intro Γ t h hf he
    cases he
    simp at hx
  case variant =>
    intro Γ p c d t h _ _ hf he
    simp only [Expr.path.injEq] at he
    exact absurd (append_one he.1) h
  case const =>
    intro Γ p c d t h _ _ hf he
    simp only [Expr.path.injEq] at he
    exact absurd (append_one he.1) h
  case unknown =>
    intro Γ p h hf he
    simp only [Expr.path.injEq] at he
    have h0 := append_one he.1
    subst h0
    simp [Rs.resolve] at h
  all_goals
    intros
    first
    | exact True.intro
    | (rename_i he; cases he)

theorem pick_sig {k : TyEnv} (hk : k.lives = [(c!"a", .named c!"a")]) {e : Expr} {ts : List LTy} {res : LTy} (h : Sig F k (pickFn e) bodyElide ts res) :
    ∃ t u v, ts = [.ref (.named c!"a") false t, .ref (.elided 1) false u] ∧ res = .ref (.named c!"a") false v := by
  obtain ⟨h1, h2⟩ := h
  simp only [pickFn] at h1 h2
  obtain _ | _ | _ | ⟨m1, h1⟩ := h1
  obtain _ | _ | _ | ⟨m2, h1⟩ := h1
  cases h1
  cases m1 with | ref l1 m1 =>
  cases m2 with | ref l2 m2 =>
  cases h2 with | ref l3 m3 =>
  have e1 : find k.lives c!"a" = some _ := l1
  have e3 : find k.lives c!"a" = some _ := l3
  rw [hk] at e1 e3
  cases e1
  cases e3
  cases l2
  exact ⟨_, _, _, rfl, rfl⟩

/-- The compiler's favourite: the second argument need not live as long as the result (E0621). -/
theorem pick_second_refused (m : List Str) : ¬ ItemChecks F m (.fn (pickFn (.path [c!"y"] []))) := by
  rintro ⟨-, ts, res, hs, hb⟩
  obtain ⟨t, u, v, rfl, rfl⟩ := pick_sig rfl hs
  simp only [pickFn] at hb
  cases hb with | value hb =>
  obtain ⟨r, v', e1, e2⟩ := typed_var (X := _) rfl (x := c!"y") (by decide) (i := 1) (b := false) hb rfl rfl
  cases e1
  simp at e2

/-- The first one does. -/
theorem pick_first_checks : ItemChecks ⟨[], []⟩ [] (.fn (pickFn (.path [c!"x"] []))) := by
  have hs : ∀ (k : TyEnv), k.sc = ⟨[], [], none⟩ → Means ⟨[], []⟩ k (.path [c!"str"] false []) .str := fun k hk => .str (by rw [hk]; rfl)
  refine ⟨by simp [OneElided, pickFn, Param.ty?, Ty.lives, argLives]; decide, [.ref (.named c!"a") false .str, .ref (.elided 1) false .str], .ref (.named c!"a") false .str,
    ⟨.named (.ref ?_ (hs _ rfl)) (.named (.ref ?_ (hs _ rfl)) .nil), .ref ?_ (hs _ rfl)⟩, .value (.place (.var rfl))⟩
  · exact rfl
  · exact rfl
  · exact rfl

end

end Butte.Src.Check
