import Verif.Gen.Workable
import Verif.Gen.Pipeline
import Verif.Props.Unions
import Verif.Props.Defaults
import Mathlib.Data.List.Pairwise
/-
Lemmas: the conditions of Gen/Workable are those under which tables compile.
-/
namespace Butte.Gen
open Ir (QIdent nameIn tagEnumIn refIn lastNs fixIdentifier Node Names)
open Ast (Element)

/-! ### Enums -/

theorem intRange_doc {b : Ast.Builtin} {lo hi : Int} : intRange b = some (lo, hi) ↔ ∃ sz, docRange b = some (sz, lo, hi) := by
  cases b <;> simp [intRange, docRange]

theorem literal_inRange {b : Ast.Builtin} (hb : b ∉ [.float, .float32, .double, .float64]) (i : Int) :
    (∃ x, literal (builtinSTy b) (.integer i) = some x) ↔ InRange b i := by
  cases hd : docRange b with
  | none =>
    refine iff_of_false ?_ ?_
    · rintro ⟨x, hx⟩
      revert hb
      cases b <;> simp [docRange] at hd <;> first | (cases hx; done) | decide
    · rintro ⟨lo, hi, h, _⟩
      obtain ⟨sz, h⟩ := intRange_doc.mp h
      rw [hd] at h; cases h
  | some r =>
    obtain ⟨sz, lo, hi⟩ := r
    rw [literal_range hd]
    constructor
    · rintro ⟨h1, h2⟩; exact ⟨lo, hi, intRange_doc.mpr ⟨sz, hd⟩, h1, h2⟩
    · rintro ⟨lo', hi', h, h1, h2⟩
      obtain ⟨sz', h⟩ := intRange_doc.mp h
      rw [hd] at h; cases h
      exact ⟨h1, h2⟩

/-- The names and values of variants. -/
def plain (vs : List Ir.EnumVariant) : List (Str × Option Int) := vs.map fun v => (v.ident, v.value)

theorem variantValues_iff {b : Ast.Builtin} (hb : b ∉ [.float, .float32, .double, .float64]) :
    ∀ (vs : List Ir.EnumVariant) (i : Nat), (∃ xs, variantValues (builtinSTy b) i vs = some xs) ↔
      ∀ n ∈ ((plain vs).zipIdx i).map fun p => p.1.2.getD (p.2 : Int), InRange b n
  | [], i => by simp [plain, variantValues]
  | v :: vs, i => by
    have ih := variantValues_iff hb vs (i + 1)
    have hl := literal_inRange hb (v.value.getD i)
    simp only [plain, List.map_cons, List.zipIdx_cons, List.forall_mem_cons, variantValues, Option.bind_eq_bind,
      Option.bind_eq_some_iff] at ih ⊢
    constructor
    · rintro ⟨xs, x, hx, ys, hy, _⟩
      exact ⟨hl.mp ⟨x, hx⟩, ih.mp ⟨ys, hy⟩⟩
    · rintro ⟨h1, h2⟩
      obtain ⟨x, hx⟩ := hl.mpr h1
      obtain ⟨ys, hy⟩ := ih.mpr h2
      exact ⟨_, x, hx, ys, hy, rfl⟩

theorem variantValues_numbers {t : STy} (ht : t ≠ .f32 ∧ t ≠ .f64) :
    ∀ (vs : List Ir.EnumVariant) (i : Nat) (xs : List (SVal t)), variantValues t i vs = some xs →
      ((plain vs).zipIdx i).map (fun p => p.1.2.getD (p.2 : Int)) = xs.map SVal.int ∧
      xs.map some = (((plain vs).zipIdx i).map fun p => p.1.2.getD (p.2 : Int)).map fun n => literal t (.integer n)
  | [], i, xs, h => by cases h; exact ⟨rfl, rfl⟩
  | v :: vs, i, xs, h => by
    simp only [variantValues, Option.bind_eq_bind, Option.bind_eq_some_iff] at h
    obtain ⟨x, hx, ys, hy, h⟩ := h
    cases h
    obtain ⟨h1, h2⟩ := variantValues_numbers ht vs (i + 1) ys hy
    unfold plain at h1 h2 ⊢
    simp only [List.zipIdx_cons, List.map_cons, h1]
    refine ⟨by rw [intLit_int ht hx], ?_⟩
    rw [hx, h2, h1]

theorem enumWorks_iff {b : Ast.Builtin} (hb : b ∉ [.float, .float32, .double, .float64]) (vs : List Ir.EnumVariant) :
    (∃ xs, enumValues (builtinSTy b) vs = some xs) ↔ EnumWorks b (plain vs) := by
  have ht : builtinSTy b ≠ .f32 ∧ builtinSTy b ≠ .f64 := by
    revert hb; cases b <;> decide
  have hid : vs.map (·.ident) = (plain vs).map (·.1) := by simp [plain, Function.comp_def]
  constructor
  · rintro ⟨xs, h⟩
    obtain ⟨h1, h2, h3, h4⟩ := enumValues_ok h
    obtain ⟨h5, h6⟩ := variantValues_numbers ht vs 0 xs h2
    refine ⟨?_, ?_, ?_, ?_⟩
    · intro e; exact h3 (by simpa [plain] using e)
    · rw [← hid]; exact h4
    · refine List.Nodup.of_map (fun n => literal (builtinSTy b) (.integer n)) ?_
      show List.Nodup (List.map _ (List.map _ _))
      rw [← h6]
      exact h1.map (fun a b h => Option.some.inj h)
    · exact (variantValues_iff hb vs 0).mp ⟨xs, h2⟩
  · intro h
    obtain ⟨xs, hx⟩ := (variantValues_iff hb vs 0).mpr h.range
    obtain ⟨h5, h6⟩ := variantValues_numbers ht vs 0 xs hx
    refine ⟨xs, ?_⟩
    unfold enumValues
    rw [hx]
    simp only [Option.bind_eq_bind, Option.bind_some]
    rw [if_neg]
    simp only [not_or, Decidable.not_not]
    refine ⟨?_, ?_, ?_⟩
    · intro e
      exact h.some (by simpa [plain] using e)
    · rw [hid]; exact h.names
    · refine List.Nodup.of_map SVal.int ?_
      rw [← h5]
      exact h.values

theorem ofAst_builtin {t : Ast.Ty} {base : Ir.EnumBase} (h : Ir.EnumBase.ofAst t = some base) :
    ∃ b, t = .builtin b ∧ builtinSTy b = enumBaseSTy base ∧ b ∉ [.float, .float32, .double, .float64] := by
  cases t with
  | builtin b =>
    refine ⟨b, rfl, ?_⟩
    cases b <;> simp only [Ir.EnumBase.ofAst, Option.some.injEq, reduceCtorEq] at h <;> subst h <;> exact ⟨rfl, by decide⟩
  | _ => cases h

/-! ### Builtin types -/

theorem wholeLit_signed {w x : Nat} : (∃ n, wholeLit true w x = some n) ↔ f64Finite x = true ∧ 2 ^ 1074 ∣ f64Units x ∧
    ∃ n : Nat, Shown (x % 2 ^ 63) n ∧ -(2 ^ (w - 1) : Int) ≤ (if 2 ^ 63 ≤ x then -(n : Int) else n) ∧
      (if 2 ^ 63 ≤ x then -(n : Int) else n) < 2 ^ (w - 1) := by
  unfold wholeLit intLit
  rw [if_neg (by simp)]
  simp only [Option.bind_eq_some_iff, if_true, Option.ite_none_right_eq_some, Option.some.injEq, shown_iff, Nat.dvd_iff_mod_eq_zero]
  constructor
  · rintro ⟨_, n, ⟨h1, h2, h3⟩, h4, _⟩
    exact ⟨h1, h2, n, h3, h4⟩
  · rintro ⟨h1, h2, n, h3, h4⟩
    exact ⟨_, n, ⟨h1, h2, h3⟩, h4, rfl⟩

theorem wholeLit_unsigned {w x : Nat} : (∃ n, wholeLit false w x = some n) ↔ f64Finite x = true ∧ 2 ^ 1074 ∣ f64Units x ∧
    ∃ n : Nat, Shown (x % 2 ^ 63) n ∧ ¬ 2 ^ 63 ≤ x ∧ (n : Int) < 2 ^ w := by
  unfold wholeLit intLit
  by_cases hx : 2 ^ 63 ≤ x
  · rw [if_pos ⟨rfl, hx⟩]
    exact iff_of_false (fun ⟨_, h⟩ => by cases h) fun ⟨_, _, _, _, h, _⟩ => h hx
  · rw [if_neg fun h => hx h.2]
    simp only [Option.bind_eq_some_iff, if_neg hx, Bool.false_eq_true, if_false, Option.ite_none_right_eq_some, Option.some.injEq, shown_iff,
      Nat.dvd_iff_mod_eq_zero]
    constructor
    · rintro ⟨_, n, ⟨h1, h2, h3⟩, h4, _⟩
      exact ⟨h1, h2, n, h3, hx, h4.2⟩
    · rintro ⟨h1, h2, n, h3, _, h4⟩
      exact ⟨_, n, ⟨h1, h2, h3⟩, ⟨by omega, h4⟩, rfl⟩

theorem fits_iff (b : Ast.Builtin) (s : Ast.Scalar) : (∃ x, literal (builtinSTy b) s = some x) ↔ Fits b s := by
  cases s with
  | boolean v => cases b <;> simp [literal, builtinSTy, Fits]
  | integer i =>
    by_cases hb : b ∈ [.float, .float32, .double, .float64]
    · refine iff_of_true ?_ (.inr hb)
      revert hb
      cases b <;> first | (intro h; exact absurd h (by decide)) | (intro h; exact ⟨_, rfl⟩)
    · rw [literal_inRange hb]
      simp only [Fits, hb, or_false]
  | float x =>
    have hs : ∀ {b : Ast.Builtin} {w : Nat} {lo hi : Int}, intRange b = some (lo, hi) → lo = -(2 ^ (w - 1) : Int) → hi = 2 ^ (w - 1) - 1 →
        ((∃ n, wholeLit true w x = some n) ↔ WholeFits b x) := by
      intro b w lo hi hr h1 h2
      have hp : (0 : Int) < 2 ^ (w - 1) := Int.pow_pos (by decide)
      rw [wholeLit_signed]
      unfold WholeFits
      simp only [hr, Option.some.injEq, Prod.mk.injEq]
      refine and_congr_right fun _ => and_congr_right fun _ => exists_congr fun n => and_congr_right fun _ => ?_
      by_cases hx : 2 ^ 63 ≤ x.val
      all_goals
        first | simp only [if_pos hx] | simp only [if_neg hx]
        constructor
        · intro h
          exact ⟨lo, hi, ⟨rfl, rfl⟩, by omega⟩
        · rintro ⟨_, _, ⟨rfl, rfl⟩, h⟩
          omega
    have hu : ∀ {b : Ast.Builtin} {w : Nat} {hi : Int}, intRange b = some (0, hi) → hi = 2 ^ w - 1 →
        ((∃ n, wholeLit false w x = some n) ↔ WholeFits b x) := by
      intro b w hi hr h2
      rw [wholeLit_unsigned]
      unfold WholeFits
      simp only [hr, Option.some.injEq, Prod.mk.injEq]
      refine and_congr_right fun _ => and_congr_right fun _ => exists_congr fun n => and_congr_right fun _ => ?_
      constructor
      · rintro ⟨hx, h⟩
        refine ⟨0, hi, ⟨rfl, rfl⟩, ?_⟩
        rw [if_neg hx]
        omega
      · rintro ⟨_, _, ⟨rfl, rfl⟩, h⟩
        split at h
        · omega
        · rename_i hx
          exact ⟨hx, by omega⟩
    have hn : ∀ {b : Ast.Builtin}, intRange b = none → ¬ WholeFits b x := by
      rintro b hr ⟨_, _, n, _, lo, hi, h, _⟩
      rw [hr] at h
      cases h
    cases b
    case bool => simp [literal, builtinSTy, Fits, hn (b := .bool) rfl]
    case float => simp [literal, builtinSTy, Fits, and_comm, hn (b := .float) rfl]
    case double => simp [literal, builtinSTy, Fits, hn (b := .double) rfl]
    case float32 => simp [literal, builtinSTy, Fits, and_comm, hn (b := .float32) rfl]
    case float64 => simp [literal, builtinSTy, Fits, hn (b := .float64) rfl]
    all_goals
      simp only [literal, builtinSTy, Fits, Option.map_eq_some_iff, reduceCtorEq, false_and, or_false, false_or]
      rw [exists_comm]
      simp only [exists_and_left, exists_eq', and_true]
      first
      | exact hs rfl (by decide) (by decide)
      | exact hu rfl (by decide)

theorem implicit_fits (b : Ast.Builtin) : ∃ s x, Ast.implicitDefault (.builtin b) = some (.scalar s) ∧
    literal (builtinSTy b) s = some x := by
  have h2 : f64Finite 0 = true := by decide +kernel
  have key : ∀ b, Fits b (.float 0) → ∃ x, literal (builtinSTy b) (.float 0) = some x := fun b => (fits_iff b _).mpr
  cases b
  case float =>
    obtain ⟨x, hx⟩ := key .float (.inl (by decide +kernel))
    exact ⟨_, x, rfl, hx⟩
  case float32 =>
    obtain ⟨x, hx⟩ := key .float32 (.inl (by decide +kernel))
    exact ⟨_, x, rfl, hx⟩
  case double =>
    obtain ⟨x, hx⟩ := key .double (.inl ⟨.inl rfl, h2⟩)
    exact ⟨_, x, rfl, hx⟩
  case float64 =>
    obtain ⟨x, hx⟩ := key .float64 (.inl ⟨.inr (.inl rfl), h2⟩)
    exact ⟨_, x, rfl, hx⟩
  all_goals exact ⟨_, _, rfl, rfl⟩

/-! ### Declarations and what they mean -/

/-- What the analysis makes of a declared type. -/
inductive DeclMeans (N : Names) : Decl → Ir.CustomType → Prop
  | table : DeclMeans N .table .table
  | struct (fs) : DeclMeans N .struct (.struct fs)
  | enum {b : Ast.Builtin} {vs : List Ir.EnumVariant} {base : Ir.EnumBase} (h : Ir.EnumBase.ofAst (.builtin b) = some base) :
      DeclMeans N (.enum b (plain vs)) (.enum vs base)
  | union {ns : Option Ast.QIdent} {e : QIdent} {us : List Ast.EnumVariant} {vs : List Ir.UnionVariant}
      (h : Ir.All₂ (Ir.VariantMeans N ns) us vs) :
      DeclMeans N (.union ns e (us.map (·.id))) (.union e vs)

theorem emits_decls {N : Names} {ns : Option Ast.QIdent} {el : Element} {g : List Node} (h : Ir.Emits N ns el g) :
    (∀ n ∈ g, ∀ q ct, n.defines = some (q, ct) → ∃ d, (q, d) ∈ declOf ns el ∧ DeclMeans N d ct) ∧
    (∀ q d, (q, d) ∈ declOf ns el → ∃ n ∈ g, ∃ ct, n.defines = some (q, ct) ∧ DeclMeans N d ct) := by
  cases h with
  | table t fields root h =>
    refine ⟨?_, ?_⟩
    · intro n hn q ct hd
      simp only [List.mem_singleton] at hn
      subst hn
      cases hd
      exact ⟨_, List.mem_cons_self, .table⟩
    · intro q d hd
      simp only [declOf, List.mem_singleton] at hd
      cases hd
      exact ⟨_, List.mem_cons_self, _, rfl, .table⟩
  | struct s fields h =>
    refine ⟨?_, ?_⟩
    · intro n hn q ct hd
      simp only [List.mem_singleton] at hn
      subst hn
      cases hd
      exact ⟨_, List.mem_cons_self, .struct _⟩
    · intro q d hd
      simp only [declOf, List.mem_singleton] at hd
      cases hd
      exact ⟨_, List.mem_cons_self, _, rfl, .struct _⟩
  | enum e base h =>
    obtain ⟨b, hb, _⟩ := ofAst_builtin h
    have hm : DeclMeans N (.enum b (e.variants.map fun v => (fixIdentifier v.id, v.value)))
        (.enum (e.variants.map fun v => ⟨fixIdentifier v.id, v.value, v.doc⟩) base) := by
      have := DeclMeans.enum (N := N) (b := b) (vs := e.variants.map fun v => ⟨fixIdentifier v.id, v.value, v.doc⟩)
        (base := base) (by rw [← hb]; exact h)
      simpa [plain, Function.comp_def] using this
    refine ⟨?_, ?_⟩
    · intro n hn q ct hd
      simp only [List.mem_singleton] at hn
      subst hn
      cases hd
      refine ⟨_, ?_, hm⟩
      simp only [declOf, hb]
      exact List.mem_cons_self
    · intro q d hd
      simp only [declOf, hb, List.mem_singleton] at hd
      cases hd
      exact ⟨_, List.mem_cons_self, _, rfl, hm⟩
  | union u vs h =>
    have hm : DeclMeans N (.enum .ubyte (tagVariants (u.variants.map (·.id))))
        (.enum (⟨c!"None", some 0, []⟩ :: u.variants.map fun v => ⟨fixIdentifier v.id, none, v.doc⟩) .ubyte) := by
      have := DeclMeans.enum (N := N) (b := .ubyte) (base := .ubyte)
        (vs := ⟨c!"None", some 0, []⟩ :: u.variants.map fun v => ⟨fixIdentifier v.id, none, v.doc⟩) rfl
      simpa [plain, tagVariants, Function.comp_def] using this
    refine ⟨?_, ?_⟩
    · intro n hn q ct hd
      simp only [List.mem_cons, List.not_mem_nil, or_false] at hn
      rcases hn with rfl | rfl
      · cases hd
        exact ⟨_, List.mem_cons_self, hm⟩
      · cases hd
        exact ⟨_, List.mem_cons_of_mem _ List.mem_cons_self, .union h⟩
    · intro q d hd
      simp only [declOf, List.mem_cons, List.not_mem_nil, or_false, Prod.mk.injEq] at hd
      rcases hd with ⟨rfl, rfl⟩ | ⟨rfl, rfl⟩
      · exact ⟨_, List.mem_cons_self, _, rfl, hm⟩
      · exact ⟨_, List.mem_cons_of_mem _ List.mem_cons_self, _, rfl, .union h⟩
  | rpc r ms h =>
    refine ⟨?_, ?_⟩
    · intro n hn q ct hd
      simp only [List.mem_singleton] at hn
      subst hn
      cases hd
    · intro q d hd
      simp [declOf] at hd

/-- How a vocabulary goes with the declarations of a schema. -/
structure Agrees (E : List Element) (N : Names) : Prop where
  tab : ∀ q, N.tab q ↔ N.dfn q .table
  unique : ∀ q a b, N.dfn q a → N.dfn q b → a = b
  down : ∀ q ct, N.dfn q ct → ∃ d, (q, d) ∈ decls E ∧ DeclMeans N d ct
  up : ∀ q d, (q, d) ∈ decls E → ∃ ct, N.dfn q ct ∧ DeclMeans N d ct

theorem declOf_declares {ns : Option Ast.QIdent} {el : Element} {x : QIdent × Decl} (h : x ∈ declOf ns el) : Ir.declares el = true := by
  cases el <;> first | rfl | simp [declOf] at h

theorem agrees {E : List Element} {groups : List (List Node)}
    (g2 : Ir.All₂ (fun p g => ∃ el, E[p]? = some el ∧ Ir.Emits (Names.ofItems groups.flatten) (lastNs (E.take p)) el g)
      (Ir.declPositions E) groups)
    (g3 : ((groups.flatten.filterMap Node.defines).map (·.1)).Nodup) : Agrees E (Names.ofItems groups.flatten) := by
  refine ⟨fun q => Iff.rfl, ?_, ?_, ?_⟩
  · rintro q a b ⟨n, hn, hd⟩ ⟨m, hm, hd'⟩
    exact Ir.defines_unique g3 hn hm hd hd'
  · rintro q ct ⟨n, hn, hd⟩
    obtain ⟨g, hg, hng⟩ := List.mem_flatten.mp hn
    obtain ⟨p, _, el, hel, hem⟩ := Ir.all₂_right g2 hg
    obtain ⟨d, hd, hm⟩ := (emits_decls hem).1 n hng q ct hd
    exact ⟨d, mem_decls.mpr ⟨p, el, hel, hd⟩, hm⟩
  · intro q d hd
    obtain ⟨p, el, hel, hx⟩ := mem_decls.mp hd
    obtain ⟨g, hg, el', hel', hem⟩ := Ir.all₂_left g2 (Ir.mem_declPositions.mpr ⟨el, hel, declOf_declares hx⟩)
    rw [hel] at hel'
    cases hel'
    obtain ⟨n, hn, ct, hd, hm⟩ := (emits_decls hem).2 q d hx
    exact ⟨ct, ⟨n, List.mem_flatten.mpr ⟨g, hg, hn⟩, hd⟩, hm⟩

section
variable {E : List Element} {N : Names}

theorem Agrees.table_iff (A : Agrees E N) (q : QIdent) : (q, .table) ∈ decls E ↔ N.dfn q .table := by
  constructor
  · intro h
    obtain ⟨ct, h1, h2⟩ := A.up _ _ h
    cases h2
    exact h1
  · intro h
    obtain ⟨d, h1, h2⟩ := A.down _ _ h
    cases h2
    exact h1

theorem Agrees.enum_iff (A : Agrees E N) {q : QIdent} {evs : List Ir.EnumVariant} {base : Ir.EnumBase}
    (h : N.dfn q (.enum evs base)) (P : List (Str × Option Int) → Prop) :
    (∃ b vs, (q, .enum b vs) ∈ decls E ∧ EnumWorks b vs ∧ P vs) ↔
      (∃ xs, enumValues (enumBaseSTy base) evs = some xs) ∧ P (plain evs) := by
  constructor
  · rintro ⟨b, vs, h1, h2, h3⟩
    obtain ⟨ct, h4, h5⟩ := A.up _ _ h1
    cases h5 with
    | enum hb =>
      have := A.unique _ _ _ h h4
      simp only [Ir.CustomType.enum.injEq] at this
      obtain ⟨rfl, rfl⟩ := this
      obtain ⟨_, e, hs, hf⟩ := ofAst_builtin hb
      cases e
      exact ⟨hs ▸ (enumWorks_iff hf evs).mpr h2, h3⟩
  · rintro ⟨h2, h3⟩
    obtain ⟨d, h4, h5⟩ := A.down _ _ h
    cases h5 with
    | @enum b _ _ hb =>
      obtain ⟨_, e, hs, hf⟩ := ofAst_builtin hb
      cases e
      exact ⟨b, plain evs, h4, (enumWorks_iff hf evs).mp (hs ▸ h2), h3⟩

/-- What is declared under the name is of another kind. -/
theorem Agrees.not (A : Agrees E N) {q : QIdent} {ct : Ir.CustomType} (h : N.dfn q ct) {d : Decl} (hd : (q, d) ∈ decls E)
    (hn : ¬ DeclMeans N d ct) : False := by
  obtain ⟨ct', h1, h2⟩ := A.up _ _ hd
  exact hn (A.unique _ _ _ h1 h ▸ h2)

theorem follows_iff (A : Agrees E N) {ns : Option Ast.QIdent} {t : Ast.Ty} {ty : Ir.Ty} (h : Ir.Means N ns t ty) :
    (∃ F, followTy ty = some F) ↔ Follows E ns t := by
  induction h with
  | builtin b => exact iff_of_true ⟨_, rfl⟩ trivial
  | string => exact iff_of_true ⟨_, rfl⟩ trivial
  | @array t ty h ih =>
    rw [Follows, ← ih]
    simp only [followTy, Option.bind_eq_bind, Option.bind_eq_some_iff]
    constructor
    · rintro ⟨F, e, he, _⟩; exact ⟨e, he⟩
    · rintro ⟨e, he⟩; exact ⟨_, e, he, rfl⟩
  | table q h => exact iff_of_true ⟨_, rfl⟩ (.inl ((A.table_iff _).mpr ((A.tab _).mp h)))
  | custom q ct h =>
    cases ct with
    | table => exact iff_of_true ⟨_, rfl⟩ (.inl ((A.table_iff _).mpr h))
    | struct fs =>
      refine iff_of_false (by rintro ⟨_, h⟩; cases h) ?_
      rintro (h' | ⟨b, vs, h', _⟩)
      · exact A.not h h' nofun
      · exact A.not h h' nofun
    | enum evs base =>
      have key := A.enum_iff h fun _ => True
      simp only [and_true] at key
      have h1 : (∃ F, followTy (Ir.CustomType.ref (refIn ns q) (.enum evs base)) = some F) ↔
          ∃ xs, enumValues (enumBaseSTy base) evs = some xs := by
        simp only [Ir.CustomType.ref, followTy, Option.bind_eq_bind, Option.bind_eq_some_iff]
        constructor
        · rintro ⟨F, e, he, _⟩; exact ⟨e, he⟩
        · rintro ⟨e, he⟩; exact ⟨_, e, he, rfl⟩
      rw [h1, Follows, key]
      constructor
      · intro hx; exact .inr hx
      · rintro (h' | hx)
        · exact (A.not h h' nofun).elim
        · exact hx
    | union e vs =>
      refine iff_of_false (by rintro ⟨_, h⟩; cases h) ?_
      rintro (h' | ⟨b, vs, h', _⟩)
      · exact A.not h h' nofun
      · exact A.not h h' nofun

theorem enum_kind (e : QIdent) (evs : List Ir.EnumVariant) (base : Ir.EnumBase) (d : Option Ast.DefaultValue) :
    (∃ k, kindOf (.enum e evs base) d = some k) ↔ (∃ xs, enumValues (enumBaseSTy base) evs = some xs) ∧
      (d = none ∨ ∃ v ∈ evs, d = some (.ident v.ident)) := by
  simp only [kindOf, Option.bind_eq_bind, Option.bind_eq_some_iff]
  constructor
  · rintro ⟨k, xs, hx, hk⟩
    refine ⟨⟨xs, hx⟩, ?_⟩
    cases d with
    | none => exact .inl rfl
    | some d =>
      simp only [Option.bind_eq_some_iff] at hk
      obtain ⟨i, hi, _⟩ := hk
      cases d with
      | scalar s => cases hi
      | ident x =>
        obtain ⟨hl, he, _⟩ := List.findIdx?_eq_some_iff_getElem.mp hi
        exact .inr ⟨evs[i], List.getElem_mem hl, by rw [beq_iff_eq.mp he]⟩
  · rintro ⟨⟨xs, hx⟩, rfl | ⟨v, hv, rfl⟩⟩
    · exact ⟨_, xs, hx, rfl⟩
    · obtain ⟨h1, h2, h3, h4⟩ := enumValues_ok hx
      have hlen := variantValues_length h2
      cases hi : List.findIdx? (fun w : Ir.EnumVariant => w.ident == v.ident) evs with
      | none =>
        have := List.findIdx?_eq_none_iff.mp hi v hv
        simp at this
      | some i =>
        obtain ⟨hl, _⟩ := List.findIdx?_eq_some_iff_getElem.mp hi
        refine ⟨.enum (enumBaseSTy base) xs (some ⟨i, by omega⟩), xs, hx, Option.bind_eq_some_iff.mpr ⟨i, hi, ?_⟩⟩
        rw [dif_pos (by omega)]
        rfl

theorem none_or (d : Option Ast.DefaultValue) {t : Ast.Ty} (h : Ast.implicitDefault t = none) : d.or (Ast.implicitDefault t) = d := by
  rw [h, Option.or_none]

/-- A field that is no union. -/
theorem plain_iff (A : Agrees E N) {ns : Option Ast.QIdent} {f : Ast.Field} {ty : Ir.Ty} (h : Ir.Means N ns f.ty ty)
    (hu : ty.isUnion = false) :
    (∃ k, kindOf ty (f.default.or (Ast.implicitDefault f.ty)) = some k) ↔ FieldWorks E ns f := by
  obtain ⟨id, t, d, md, doc⟩ := f
  simp only at h ⊢
  unfold FieldWorks
  cases h with
  | builtin b =>
    cases d with
    | none =>
      obtain ⟨s, x, h1, h2⟩ := implicit_fits b
      refine iff_of_true ⟨.scalar (builtinSTy b) (some x), ?_⟩ (.inl rfl)
      rw [h1]
      simp only [Option.or, kindOf, h2, Option.bind_eq_bind, Option.bind_some]
      rfl
    | some d =>
      cases d with
      | ident i =>
        refine iff_of_false (by rintro ⟨k, h⟩; cases h) ?_
        rintro (h | ⟨s, h, _⟩) <;> cases h
      | scalar s =>
        simp only [Option.or, kindOf, Option.bind_eq_bind, Option.bind_eq_some_iff, reduceCtorEq, false_or,
          Option.some.injEq, Ast.DefaultValue.scalar.injEq]
        constructor
        · rintro ⟨k, x, hx, _⟩; exact ⟨s, rfl, (fits_iff b s).mp ⟨x, hx⟩⟩
        · rintro ⟨_, rfl, hf⟩
          obtain ⟨x, hx⟩ := (fits_iff b s).mpr hf
          exact ⟨_, x, hx, rfl⟩
  | string =>
    rw [none_or d rfl]
    cases d with
    | none => exact iff_of_true ⟨_, rfl⟩ rfl
    | some d => exact iff_of_false (by rintro ⟨k, h⟩; cases h) nofun
  | @array t ty hm =>
    rw [none_or d rfl]
    cases d with
    | some d => exact iff_of_false (by rintro ⟨k, h⟩; cases h) nofun
    | none =>
      simp only [← follows_iff A hm, kindOf, Option.bind_eq_bind, Option.bind_eq_some_iff, true_and]
      constructor
      · rintro ⟨k, e, he, _⟩; exact ⟨e, he⟩
      · rintro ⟨e, he⟩; exact ⟨_, e, he, rfl⟩
  | table q h =>
    rw [none_or d rfl]
    have h := (A.tab _).mp h
    cases d with
    | none => exact iff_of_true ⟨_, rfl⟩ (.inl ⟨(A.table_iff _).mpr h, rfl⟩)
    | some d =>
      refine iff_of_false (by rintro ⟨k, h⟩; cases h) ?_
      rintro (⟨_, h'⟩ | ⟨b, vs, h', _⟩ | ⟨n, e, ms, h', _⟩)
      · cases h'
      · exact A.not h h' nofun
      · exact A.not h h' nofun
  | custom q ct h =>
    rw [none_or d rfl]
    cases ct with
    | table =>
      cases d with
      | none => exact iff_of_true ⟨_, rfl⟩ (.inl ⟨(A.table_iff _).mpr h, rfl⟩)
      | some d =>
        refine iff_of_false (by rintro ⟨k, h⟩; cases h) ?_
        rintro (⟨_, h'⟩ | ⟨b, vs, h', _⟩ | ⟨n, e, ms, h', _⟩)
        · cases h'
        · exact A.not h h' nofun
        · exact A.not h h' nofun
    | struct fs =>
      refine iff_of_false (by rintro ⟨k, h⟩; cases d <;> cases h) ?_
      rintro (⟨h', _⟩ | ⟨b, vs, h', _⟩ | ⟨n, e, ms, h', _⟩)
      · exact A.not h h' nofun
      · exact A.not h h' nofun
      · exact A.not h h' nofun
    | enum evs base =>
      have key := A.enum_iff h fun vs => d = none ∨ ∃ v ∈ vs, d = some (.ident v.1)
      simp only [key, Ir.CustomType.ref, enum_kind]
      have hdef : (∃ v ∈ evs, d = some (.ident v.ident)) ↔ ∃ v ∈ plain evs, d = some (.ident v.1) := by
        simp [plain]
      constructor
      · rintro ⟨h1, h2⟩
        exact .inr (.inl ⟨h1, h2.imp_right hdef.mp⟩)
      · rintro (⟨h', _⟩ | ⟨h2, h3⟩ | ⟨n, e, ms, h', _⟩)
        · exact (A.not h h' nofun).elim
        · exact ⟨h2, h3.imp_right hdef.mpr⟩
        · exact (A.not h h' nofun).elim
    | union e vs => cases hu

theorem members_iff (A : Agrees E N) {ns : Option Ast.QIdent} {us : List Ast.EnumVariant} {vs : List Ir.UnionVariant}
    (h : Ir.All₂ (Ir.VariantMeans N ns) us vs) :
    (∃ fs, vs.mapM (fun v => followTy v.ty) = some fs) ↔ ∀ m ∈ us.map (·.id), Follows E ns (.ident [m]) := by
  induction h with
  | nil => exact iff_of_true ⟨[], rfl⟩ nofun
  | cons hv _ ih =>
    obtain ⟨ty, hm, rfl⟩ := hv
    simp only [List.mapM_cons, List.map_cons, List.forall_mem_cons, Option.bind_eq_bind, Option.bind_eq_some_iff]
    rw [← ih, ← follows_iff A hm]
    constructor
    · rintro ⟨fs, F, hF, gs, hg, _⟩; exact ⟨⟨F, hF⟩, gs, hg⟩
    · rintro ⟨⟨F, hF⟩, gs, hg⟩; exact ⟨_, F, hF, gs, hg, rfl⟩

/-- A union field, with the field for its tag. -/
theorem union_iff (A : Agrees E N) (htag : ∀ q e vs, N.dfn q (.union e vs) →
      N.dfn e (.enum (⟨c!"None", some 0, []⟩ :: vs.map fun v => ⟨v.ident, none, v.doc⟩) .ubyte))
    {ns : Option Ast.QIdent} {f : Ast.Field} {q e : QIdent} {vs : List Ir.UnionVariant}
    {evs : List Ir.EnumVariant} {base : Ir.EnumBase} (hm : Ir.Means N ns f.ty (.union q e vs))
    (he : N.dfn e (.enum evs base)) :
    ((∃ k, kindOf (.enum e evs base) none = some k) ∧
      ∃ k, kindOf (.union q e vs) (f.default.or (Ast.implicitDefault f.ty)) = some k) ↔ FieldWorks E ns f := by
  have hd := Ir.means_union hm
  have := A.unique _ _ _ he (htag _ _ _ hd)
  simp only [Ir.CustomType.enum.injEq] at this
  obtain ⟨rfl, rfl⟩ := this
  obtain ⟨id, t, d, md, doc⟩ := f
  simp only at hm ⊢
  have ht : ∃ r, t = .ident r ∧ refIn ns r = q := by
    generalize hty : Ir.Ty.union q e vs = ty at hm
    cases hm with
    | custom q' ct h =>
      cases ct <;> simp only [Ir.CustomType.ref, reduceCtorEq, Ir.Ty.union.injEq] at hty
      exact ⟨_, rfl, hty.1.symm⟩
    | _ => cases hty
  obtain ⟨r, rfl, rfl⟩ := ht
  rw [none_or d rfl, enum_kind]
  unfold FieldWorks
  simp only
  obtain ⟨dd, h1, h2⟩ := A.down _ _ hd
  cases h2 with
  | @union ns' _ us _ hall =>
    have hmem := members_iff A hall
    have tags : ∀ {n : Option Ast.QIdent} {us : List Ast.EnumVariant} {vs : List Ir.UnionVariant},
        Ir.All₂ (Ir.VariantMeans N n) us vs → plain (⟨c!"None", some 0, []⟩ ::
          vs.map fun v => (⟨v.ident, none, v.doc⟩ : Ir.EnumVariant)) = tagVariants (us.map (·.id)) := by
      intro n us vs hall
      have := Ir.all₂_map (f := fun v : Ast.EnumVariant => (⟨fixIdentifier v.id, none, v.doc⟩ : Ir.EnumVariant))
        (g := fun w : Ir.UnionVariant => (⟨w.ident, none, w.doc⟩ : Ir.EnumVariant)) hall (by
          rintro a b ⟨ty, _, rfl⟩
          rfl)
      simp [plain, tagVariants, ← this]
    have hvs := tags hall
    have hen : (∃ xs, enumValues (enumBaseSTy .ubyte) (⟨c!"None", some 0, []⟩ ::
        vs.map fun v => (⟨v.ident, none, v.doc⟩ : Ir.EnumVariant)) = some xs) ↔
        EnumWorks .ubyte (tagVariants (us.map (·.id))) := hvs ▸ enumWorks_iff (b := .ubyte) (by decide) _
    rw [hen]
    constructor
    · rintro ⟨⟨hx, _⟩, k, hk⟩
      obtain ⟨hd0, fs, hfs, -⟩ := kindOf_union_iff.mp hk
      rw [unionDefault_iff] at hd0
      exact .inr (.inr ⟨ns', e, _, h1, hd0.1, hd0.2, hx, hmem.mp ⟨fs, hfs⟩⟩)
    · rintro (⟨h', _⟩ | ⟨b, vs, h', _⟩ | ⟨n, e', ms, h', hd1, hd2, hx, hf⟩)
      · exact (A.not hd h' nofun).elim
      · exact (A.not hd h' nofun).elim
      · obtain ⟨ct, k1, k2⟩ := A.up _ _ h'
        have := A.unique _ _ _ k1 hd
        subst this
        generalize hct : Ir.CustomType.union e vs = ct at k2
        generalize hdd : Decl.union n e' ms = dd at k2
        cases k2 with
        | @union ns2 _ us2 _ hall2 =>
          cases hct
          cases hdd
          have hvs2 := hvs.symm.trans (tags hall2)
          refine ⟨⟨hvs2 ▸ hx, .inl trivial⟩, ?_⟩
          obtain ⟨fs, hfs⟩ := (members_iff A hall2).mpr hf
          exact ⟨_, kindOf_union_iff.mpr ⟨unionDefault_iff.mpr ⟨hd1, hd2⟩, fs, hfs, rfl⟩⟩
        | _ => cases hdd

theorem isUnionRef_iff (A : Agrees E N) {ns : Option Ast.QIdent} {f : Ast.Field} {ty : Ir.Ty} (h : Ir.Means N ns f.ty ty) :
    isUnionRef E ns f = ty.isUnion := by
  have hno : ∀ q ct, N.dfn (refIn ns q) ct → (∀ e vs, ct ≠ .union e vs) →
      (decls E).any (fun x => x.1 == refIn ns q && (match x.2 with | .union .. => true | _ => false)) = false := by
    intro q ct h hct
    rw [List.any_eq_false]
    rintro ⟨q', d⟩ hx
    simp only [Bool.and_eq_true, beq_iff_eq, not_and]
    rintro rfl
    cases d with
    | union n e ms =>
      refine (A.not h hx ?_).elim
      intro hd
      cases hd
      exact hct _ _ rfl
    | _ => simp
  obtain ⟨id, t, d, md, doc⟩ := f
  unfold isUnionRef
  cases h with
  | builtin b => rfl
  | string => rfl
  | array h => rfl
  | table q h => exact hno q _ ((A.tab _).mp h) nofun
  | custom q ct h =>
    cases ct with
    | union e vs =>
      obtain ⟨d, h1, h2⟩ := A.down _ _ h
      cases h2
      exact List.any_eq_true.mpr ⟨_, h1, by simp⟩
    | table => exact hno q _ h nofun
    | struct fs => exact hno q _ h nofun
    | enum a b => exact hno q _ h nofun

theorem slotNames_eq (A : Agrees E N) {ns : Option Ast.QIdent} {fs : List Ast.Field} {gs : List Ir.Field}
    (h : Ir.FieldsMean N ns fs gs) : gs.map (·.ident) = slotNames E ns fs := by
  unfold slotNames
  induction h with
  | nil => rfl
  | plain _ hm hu _ ih =>
    rw [List.flatMap_cons, List.map_cons, ih, isUnionRef_iff A hm, hu]
    rfl
  | union _ hm _ _ ih =>
    rw [List.flatMap_cons, List.map_cons, List.map_cons, ih, isUnionRef_iff A hm, Ir.fix_type_suffix]
    rfl

theorem kinds_iff (A : Agrees E N) (htag : ∀ q e vs, N.dfn q (.union e vs) →
      N.dfn e (.enum (⟨c!"None", some 0, []⟩ :: vs.map fun v => ⟨v.ident, none, v.doc⟩) .ubyte))
    {ns : Option Ast.QIdent} {fs : List Ast.Field} {gs : List Ir.Field} (h : Ir.FieldsMean N ns fs gs) :
    (∀ g ∈ gs, ∃ k, kindOf g.ty g.default = some k) ↔ ∀ f ∈ fs, FieldWorks E ns f := by
  induction h with
  | nil => exact iff_of_true nofun nofun
  | plain _ hm hu _ ih =>
    rw [List.forall_mem_cons, List.forall_mem_cons, ih, ← plain_iff A hm hu]
  | union _ hm he _ ih =>
    rw [List.forall_mem_cons, List.forall_mem_cons, List.forall_mem_cons, ih, ← union_iff A htag hm he, and_assoc]

theorem slotOf_iff (gm : Mode) (n : Nat) : (∀ j < n, ∃ s, slotOf gm j = some s) ↔ gm = .release ∨ n ≤ 32766 := by
  constructor
  · intro h
    cases gm with
    | release => exact .inl rfl
    | debug =>
      right
      by_contra hn
      obtain ⟨s, hs⟩ := h 32766 (by omega)
      have : slotOf .debug 32766 = none := by decide
      rw [this] at hs
      cases hs
  · intro h j hj
    by_cases hs : j < 32766
    · exact ⟨_, slotOf_eq hs⟩
    · rcases h with rfl | h
      · have h1 : ∀ a, addW 16 .release a 2 = .ok ((a + 2) % 2 ^ 16) := by
          intro a
          unfold addW
          split
          · rw [Nat.mod_eq_of_lt (by assumption)]
          · rfl
        have h2 : ∀ a, mulW 16 .release a 2 = .ok ((a * 2) % 2 ^ 16) := by
          intro a
          unfold mulW
          split
          · rw [Nat.mod_eq_of_lt (by assumption)]
          · rfl
        unfold slotOf fieldIndexToFieldOffset
        rw [h1]
        simp only [Res.ok_bind, h2]
        rw [dif_pos (by omega)]
        exact ⟨_, rfl⟩
      · omega

theorem compileFields_iff (gm : Mode) : ∀ (fs : List Ir.Field) (i : Nat), (∃ gs, compileFields gm i fs = some gs) ↔
    (∀ f ∈ fs, ∃ k, kindOf f.ty f.default = some k) ∧ ∀ j < fs.length, ∃ s, slotOf gm (i + j) = some s
  | [], i => by simp [compileFields]
  | f :: fs, i => by
    have ih := compileFields_iff gm fs (i + 1)
    have hj : (∀ j < (f :: fs).length, ∃ s, slotOf gm (i + j) = some s) ↔
        (∃ s, slotOf gm i = some s) ∧ ∀ j < fs.length, ∃ s, slotOf gm (i + 1 + j) = some s := by
      constructor
      · intro h
        refine ⟨h 0 (by simp), fun j hj => ?_⟩
        have := h (j + 1) (by simp; omega)
        rwa [show i + (j + 1) = i + 1 + j by omega] at this
      · rintro ⟨h0, h⟩ j hj
        cases j with
        | zero => exact h0
        | succ j =>
          have := h j (by simp at hj; omega)
          rwa [show i + (j + 1) = i + 1 + j by omega]
    rw [hj, List.forall_mem_cons]
    simp only [compileFields, Option.bind_eq_bind, Option.bind_eq_some_iff]
    constructor
    · rintro ⟨gs, k, hk, s, hs, r, hr, _⟩
      obtain ⟨h1, h2⟩ := ih.mp ⟨r, hr⟩
      exact ⟨⟨⟨k, hk⟩, h1⟩, ⟨s, hs⟩, h2⟩
    · rintro ⟨⟨⟨k, hk⟩, h1⟩, ⟨s, hs⟩, h2⟩
      obtain ⟨r, hr⟩ := ih.mpr ⟨h1, h2⟩
      exact ⟨_, k, hk, s, hs, r, hr, rfl⟩

theorem namesOk_iff (fs : List Ir.Field) {ids : List Str} (h : fs.map (·.ident) = ids) : namesOk fs = true ↔
    (∀ i ∈ ids, rustName i = true ∧ rustName (Heck.snake i) = true) ∧ (ids.map Heck.snake).Nodup ∧
      (ids.map Heck.shouty).Nodup ∧ c!"create" ∉ ids.map Heck.snake ∧ c!"get_root" ∉ ids.map Heck.snake := by
  have h1 : fs.map (fun f => Heck.snake f.ident) = ids.map Heck.snake := by rw [← h, List.map_map]; rfl
  have h2 : fs.map (fun f => Heck.shouty f.ident) = ids.map Heck.shouty := by rw [← h, List.map_map]; rfl
  unfold namesOk
  simp only [h, h1, h2, Bool.and_eq_true, decide_eq_true_eq, List.all_eq_true]
  rw [List.nodup_append']
  have h3 : [c!"create", c!"get_root"].Nodup := by decide
  constructor
  · rintro ⟨⟨⟨⟨a, b, _, c⟩, d⟩, e⟩, f⟩
    refine ⟨fun i hi => ⟨d i hi, e _ (List.mem_map_of_mem hi)⟩, b, f, fun hc => ?_, fun hc => ?_⟩
    · exact c hc (by decide)
    · exact c hc (by decide)
  · rintro ⟨a, b, c, d, e⟩
    refine ⟨⟨⟨⟨List.Nodup.of_map _ b, b, h3, ?_⟩, fun i hi => (a i hi).1⟩, ?_⟩, c⟩
    · intro x hx hy
      simp only [List.mem_cons, List.not_mem_nil, or_false] at hy
      rcases hy with rfl | rfl
      · exact d hx
      · exact e hx
    · intro x hx
      obtain ⟨i, hi, rfl⟩ := List.mem_map.mp hx
      exact (a i hi).2

theorem fieldsMean_of {ns : Option Ast.QIdent} {fs : List Ast.Field} {gs : List Ir.Field}
    (h : Ir.FieldsMean N ns fs gs) : ∀ f ∈ fs, ∃ ty d r, Ir.Means N ns f.ty ty ∧ (r = true ↔ Ir.MarkedRequired f) ∧
      ⟨fixIdentifier f.id, ty, d, r, f.doc⟩ ∈ gs := by
  induction h with
  | nil => intro f hf; cases hf
  | plain hq hm _ _ ih =>
    intro f hf
    rcases List.mem_cons.mp hf with rfl | hf
    · exact ⟨_, _, _, hm, hq, List.mem_cons_self⟩
    · obtain ⟨ty, d, r, h1, h2, h3⟩ := ih f hf
      exact ⟨ty, d, r, h1, h2, List.mem_cons_of_mem _ h3⟩
  | union hq hm _ _ ih =>
    intro f hf
    rcases List.mem_cons.mp hf with rfl | hf
    · exact ⟨_, _, _, hm, hq, List.mem_cons_of_mem _ List.mem_cons_self⟩
    · obtain ⟨ty, d, r, h1, h2, h3⟩ := ih f hf
      exact ⟨ty, d, r, h1, h2, List.mem_cons_of_mem _ (List.mem_cons_of_mem _ h3)⟩

theorem fieldsMean_mem {ns : Option Ast.QIdent} {fs : List Ast.Field} {gs : List Ir.Field}
    (h : Ir.FieldsMean N ns fs gs) : ∀ g ∈ gs, ∃ f ∈ fs, (g.required = true ↔ Ir.MarkedRequired f) ∧
      (g.ident = fixIdentifier f.id ∧ Ir.Means N ns f.ty g.ty ∨ g.ident = Heck.snake f.id ++ c!"_type") := by
  induction h with
  | nil => intro g hg; cases hg
  | plain hq hm _ _ ih =>
    intro g hg
    rcases List.mem_cons.mp hg with rfl | hg
    · exact ⟨_, List.mem_cons_self, hq, .inl ⟨rfl, hm⟩⟩
    · obtain ⟨f, h1, h2⟩ := ih g hg
      exact ⟨f, List.mem_cons_of_mem _ h1, h2⟩
  | union hq hm _ _ ih =>
    intro g hg
    rcases List.mem_cons.mp hg with rfl | hg
    · exact ⟨_, List.mem_cons_self, hq, .inr (Ir.fix_type_suffix _)⟩
    rcases List.mem_cons.mp hg with rfl | hg
    · exact ⟨_, List.mem_cons_self, hq, .inl ⟨rfl, hm⟩⟩
    · obtain ⟨f, h1, h2⟩ := ih g hg
      exact ⟨f, List.mem_cons_of_mem _ h1, h2⟩

theorem required_iff {fs : List Ast.Field} {ns : Option Ast.QIdent} {gs : List Ir.Field} (A : Agrees E N)
    (htag : ∀ q e vs, N.dfn q (.union e vs) →
      N.dfn e (.enum (⟨c!"None", some 0, []⟩ :: vs.map fun v => ⟨v.ident, none, v.doc⟩) .ubyte))
    (h : Ir.FieldsMean N ns fs gs) (hu : ∀ i ∈ slotNames E ns fs, rustName i = true ∧ rustName (Heck.snake i) = true)
    (ht : ∀ f ∈ fs, isUnionRef E ns f = true → f.id ≠ c!"type" ∨ OddTag E ns fs f) : gs.all (unionTagOk gs) = true := by
  rw [List.all_eq_true]
  intro g hg
  obtain ⟨id, ty, d, req⟩ := g
  cases ty with
  | union q e vs =>
    obtain ⟨i, hi⟩ := List.mem_iff_getElem?.mp hg
    obtain ⟨f, hf, rfl, hrq, hm, evs, base, he, h4, h5⟩ := Ir.fields_union h i _ _ _ _ _ _ _ hi
    have := A.unique _ _ _ he (htag _ _ _ (Ir.means_union hm))
    simp only [Ir.CustomType.enum.injEq] at this
    obtain ⟨rfl, rfl⟩ := this
    have hr : isUnionRef E ns f = true := isUnionRef_iff A hm
    by_cases hn : f.id = c!"type"
    · obtain ⟨f', hf', hs', hrq', q₁, q₂, ns', ms, e1, e2, hd⟩ := (ht f hf hr).resolve_left fun h => h hn
      obtain ⟨ct, hct, hdm⟩ := A.up _ _ hd
      have hq : q = refIn ns q₁ := by
        rw [e1] at hm
        generalize hty : Ir.Ty.union q e vs = ty at hm
        cases hm with
        | table q h => cases hty
        | custom q ct h =>
          cases ct <;> simp only [Ir.CustomType.ref, reduceCtorEq, Ir.Ty.union.injEq] at hty
          exact hty.1
      subst hq
      have hu' := A.unique _ _ _ hct (Ir.means_union hm)
      subst hu'
      cases hdm
      obtain ⟨ty, d', r', hm', hr', hg'⟩ := fieldsMean_of h f' hf'
      have hen := htag _ _ _ (Ir.means_union hm)
      have hty : ty = .enum (refIn ns q₂) (⟨c!"None", some 0, []⟩ :: vs.map fun v => ⟨v.ident, none, v.doc⟩) .ubyte := by
        rw [e2] at hm'
        cases hm' with
        | table _ h => cases A.unique _ _ _ ((A.tab _).mp h) hen
        | custom _ ct h => rw [A.unique _ _ _ h hen]; rfl
      unfold unionTagOk
      simp only [List.any_eq_true]
      refine ⟨_, hg', ?_⟩
      have hreq : r' = req := by
        rw [Bool.eq_iff_iff, hr', hrq', hrq]
      rw [hty]
      simp only [hs', hn, hreq, beq_self_eq_true, Bool.true_and, List.map_cons, List.map_map]
      rw [Bool.and_eq_true]
      exact ⟨by decide, by rw [beq_iff_eq]; rfl⟩
    have hs : Heck.snake f.id ≠ [] := by
      have hin : fixIdentifier f.id ∈ slotNames E ns fs := by
        rw [← slotNames_eq A h]
        exact List.mem_map.mpr ⟨_, hg, rfl⟩
      have := (hu _ hin).2
      rw [Ir.snake_fix hn] at this
      intro e0
      rw [e0] at this
      cases this
    unfold unionTagOk
    simp only [List.any_eq_true]
    refine ⟨_, List.mem_of_getElem? h5, ?_⟩
    have := (Ir.tag_accessor_iff f.id).mpr ⟨hn, hs⟩
    simp only [this, beq_self_eq_true, Bool.true_and, List.map_cons, List.map_map]
    rw [beq_iff_eq]
    rfl
  | _ => rfl

theorem tag_type {fs : List Ast.Field} {ns : Option Ast.QIdent} {gs : List Ir.Field} (A : Agrees E N)
    (h : Ir.FieldsMean N ns fs gs) (hu : ∀ i ∈ slotNames E ns fs, rustName i = true ∧ rustName (Heck.snake i) = true)
    (ha : ((slotNames E ns fs).map Heck.snake).Nodup) (ho : gs.all (unionTagOk gs) = true) :
    ∀ f ∈ fs, isUnionRef E ns f = true → f.id ≠ c!"type" ∨ OddTag E ns fs f := by
  intro f hf hr
  by_cases hid : f.id = c!"type"
  swap
  · exact .inl hid
  right
  obtain ⟨ty, d, r, hm, hrq, hg⟩ := fieldsMean_of h f hf
  rw [isUnionRef_iff A hm] at hr
  cases ty with
  | union q e vs =>
    have := List.all_eq_true.mp ho _ hg
    unfold unionTagOk at this
    simp only [List.any_eq_true, Bool.and_eq_true, beq_iff_eq] at this
    obtain ⟨g, hgm, ⟨hgs, hgr⟩, hge⟩ := this
    rw [hid, show Heck.snake (fixIdentifier c!"type") ++ c!"_type" = c!"ty_type" by decide] at hgs
    have hsub : ∀ f' ∈ fs, fixIdentifier f'.id ∈ slotNames E ns fs := by
      intro f' hf'
      refine List.mem_flatMap.mpr ⟨f', hf', ?_⟩
      split <;> simp
    obtain ⟨f', hf', hrq', hcase⟩ := fieldsMean_mem h g hgm
    rcases hcase with ⟨e', hm'⟩ | e
    · rw [e'] at hgs
      refine ⟨f', hf', hgs, by rw [← hrq', ← hrq, hgr], ?_⟩
      have h1 : ∃ q₁, f.ty = .ident q₁ ∧ q = refIn ns q₁ := by
        generalize hty : Ir.Ty.union q e vs = ty at hm
        generalize hft : f.ty = ft at hm
        cases hm with
        | custom q ct h =>
          cases ct <;> simp only [Ir.CustomType.ref, reduceCtorEq, Ir.Ty.union.injEq] at hty
          exact ⟨_, rfl, hty.1⟩
        | _ => cases hty
      have h2 : ∃ q₂, f'.ty = .ident q₂ ∧ e = refIn ns q₂ := by
        generalize hft : f'.ty = ft at hm'
        cases hgt : g.ty with
        | enum i vs' b =>
          rw [hgt] at hm' hge
          simp only [Bool.and_eq_true, beq_iff_eq] at hge
          obtain ⟨rfl, _⟩ := hge
          generalize hty : Ir.Ty.enum i vs' b = ty at hm'
          cases hm' with
          | custom q ct h =>
            cases ct <;> simp only [Ir.CustomType.ref, reduceCtorEq, Ir.Ty.enum.injEq] at hty
            exact ⟨_, rfl, hty.1⟩
          | _ => cases hty
        | _ => rw [hgt] at hge; cases hge
      obtain ⟨q₁, e1, rfl⟩ := h1
      obtain ⟨q₂, e2, rfl⟩ := h2
      obtain ⟨dd, hd1, hd2⟩ := A.down _ _ (Ir.means_union hm)
      cases hd2
      exact ⟨q₁, q₂, _, _, e1, e2, hd1⟩
    · exfalso
      rw [e] at hgs
      by_cases h0 : f'.id = c!"type"
      · rw [h0] at hgs
        revert hgs
        decide
      · have hne : Heck.snake f'.id ≠ [] := by
          have := (hu _ (hsub f' hf')).2
          rw [Ir.snake_fix h0] at this
          intro e0
          rw [e0] at this
          cases this
        have hsuf := Heck.snake_suffix (w := c!"type") hne ⟨by decide, by decide⟩
        change Heck.snake (Heck.snake f'.id ++ c!"_type") = _ at hsuf
        rw [hgs] at hsuf
        have hty' : Heck.snake f'.id = c!"ty" := List.append_cancel_right (bs := c!"_type") hsuf.symm
        have hff : f ≠ f' := by
          rintro rfl
          exact h0 hid
        unfold slotNames at ha
        rw [List.map_flatMap, List.nodup_flatMap] at ha
        have hsym : Std.Symm (Function.onFun List.Disjoint fun f : Ast.Field => List.map Heck.snake
            (if isUnionRef E ns f = true then [Heck.snake f.id ++ c!"_type", fixIdentifier f.id] else [fixIdentifier f.id])) :=
          ⟨fun a b h x hx hy => h hy hx⟩
        have hdis := ha.2.forall hf hf' hff
        have h1 : Heck.snake (fixIdentifier f.id) ∈ List.map Heck.snake
            (if isUnionRef E ns f = true then [Heck.snake f.id ++ c!"_type", fixIdentifier f.id] else [fixIdentifier f.id]) := by
          refine List.mem_map_of_mem ?_
          split <;> simp
        have h2 : Heck.snake (fixIdentifier f'.id) ∈ List.map Heck.snake
            (if isUnionRef E ns f' = true then [Heck.snake f'.id ++ c!"_type", fixIdentifier f'.id] else [fixIdentifier f'.id]) := by
          refine List.mem_map_of_mem ?_
          split <;> simp
        have e12 : Heck.snake (fixIdentifier f.id) = Heck.snake (fixIdentifier f'.id) := by
          rw [hid, Ir.snake_fix h0, hty']
          decide
        exact hdis h1 (by rw [e12]; exact h2)
  | _ => cases hr

theorem table_compiles (A : Agrees E N) (htag : ∀ q e vs, N.dfn q (.union e vs) →
      N.dfn e (.enum (⟨c!"None", some 0, []⟩ :: vs.map fun v => ⟨v.ident, none, v.doc⟩) .ubyte))
    {fs : List Ast.Field} {ns : Option Ast.QIdent} {t : Ir.Table} (h : Ir.FieldsMean N ns fs t.fields) (gm : Mode) :
    (TableWorks gm E ns fs → ∃ gs, compileTable gm t = some gs) ∧
    ((∃ gs, compileTable gm t = some gs) → TableWorks gm E ns fs) := by
  have hn := namesOk_iff t.fields (slotNames_eq A h)
  have hc := compileFields_iff gm t.fields 0
  have hlen : t.fields.length = (slotNames E ns fs).length := by rw [← slotNames_eq A h, List.length_map]
  simp only [Nat.zero_add] at hc
  rw [slotOf_iff, kinds_iff A htag h, hlen] at hc
  unfold compileTable
  constructor
  · intro w
    rw [if_pos]
    · exact hc.mpr ⟨w.fields, w.slots⟩
    · rw [Bool.and_eq_true]
      exact ⟨hn.mpr ⟨w.usable, w.accessors, w.constants, w.free⟩, required_iff A htag h w.usable w.tags⟩
  · rintro ⟨gs, hgs⟩
    split at hgs
    · rename_i hh
      rw [Bool.and_eq_true] at hh
      obtain ⟨h1, h2, h3, h4⟩ := hn.mp hh.1
      obtain ⟨h5, h6⟩ := hc.mp ⟨gs, hgs⟩
      exact ⟨h5, tag_type A h h1 h2 hh.2, h1, h2, h3, h4, h6⟩
    · cases hgs

end

/-- In the translation of a schema the tables that compile are those whose declarations say so. -/
theorem translates_compiles {E : List Element} {out : List Node} (h : Ir.Translates E out) (gm : Mode) {p : Nat} {d : Ast.Product}
    (hp : E[p]? = some (.table d)) :
    ∃ t, (t.ident.dropLast, Node.table t) ∈ Ir.itemsOf out ∧ t.ident = nameIn (lastNs (E.take p)) d.id ∧
      (TableWorks gm E (lastNs (E.take p)) d.fields → ∃ gs, compileTable gm t = some gs) ∧
      ((∃ gs, compileTable gm t = some gs) → TableWorks gm E (lastNs (E.take p)) d.fields) := by
  obtain ⟨groups, g1, g2, g3, _⟩ := h
  have A := agrees g2 g3
  obtain ⟨g, hg, el, hel, hem⟩ := Ir.all₂_left g2 (Ir.mem_declPositions.mpr ⟨_, hp, rfl⟩)
  rw [hp] at hel
  cases hel
  cases hem with
  | table t fields root hf =>
    refine ⟨⟨nameIn (lastNs (E.take p)) d.id, fields, root, d.doc⟩,
      Ir.holds_mem g1 (List.mem_flatten.mpr ⟨_, hg, List.mem_cons_self⟩), rfl, ?_⟩
    refine table_compiles A ?_ hf gm
    rintro q e vs ⟨n, hn, hd⟩
    obtain ⟨g', hg', hn'⟩ := List.mem_flatten.mp hn
    obtain ⟨_, _, _, _, hem'⟩ := Ir.all₂_right g2 hg'
    obtain ⟨m, hm, hmd⟩ := Ir.emits_tag hem' hn' hd
    exact ⟨m, List.mem_flatten.mpr ⟨g', hg', hm⟩, hmd⟩

/-- Every table of the translation comes from a declaration. -/
theorem translates_table {E : List Element} {out : List Node} (h : Ir.Translates E out) {x : List Ir.Ident} {t : Ir.Table}
    (ht : (x, Node.table t) ∈ Ir.itemsOf out) :
    ∃ p d, E[p]? = some (.table d) ∧ t.ident = nameIn (lastNs (E.take p)) d.id := by
  obtain ⟨groups, g1, g2, g3, _⟩ := h
  obtain ⟨g, hg, hxg⟩ := List.mem_flatten.mp (Ir.holds_path g1 ht).1
  obtain ⟨p, _, el, hel, hem⟩ := Ir.all₂_right g2 hg
  cases hem with
  | table d fields root hf =>
    simp only [List.mem_singleton, Node.table.injEq] at hxg
    subst hxg
    exact ⟨p, d, hel, rfl⟩
  | _ => simp at hxg

end Butte.Gen
