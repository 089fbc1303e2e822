import Verif.Src.Lifetimes
import Verif.Src.Legible
/-
The generated items keep the rules for lifetimes.
-/
namespace Butte.Src
open Ir (QIdent Node Ident itemsOf)
open Rs (Program Setting WellTyped Hygienic modOf DefinedTy Leads pathTokens fwdPath wipPath vectorPath)

/-! ### Items and their modules -/

theorem flatItems_append (m : List Str) : ∀ (as bs : List Item), flatItems m (as ++ bs) = flatItems m as ++ flatItems m bs
  | [], _ => by simp [flatItems]
  | a :: as, bs => by simp [flatItems, flatItems_append m as bs]

/-- The item is no module. -/
def Item.isFlat : Item → Bool
  | .mod .. => false
  | _ => true

theorem flatItems_flat (m : List Str) : ∀ (as : List Item), (∀ a ∈ as, a.isFlat = true) → flatItems m as = as.map (m, ·)
  | [], _ => by simp [flatItems]
  | a :: as, h => by
    rw [flatItems, flatItems_flat m as fun b hb => h b (List.mem_cons_of_mem _ hb)]
    have := h a List.mem_cons_self
    cases a <;> simp_all [Item.flat, Item.isFlat]

section
variable [FloatText]

/-- The items of a node that is no module. -/
theorem node_flat {gm : Mode} {n : Node} {ys : List Item} (hn : n.isItem = true) (h : Full.node gm n = some ys) :
    ∀ y ∈ ys, y.isFlat = true := by
  cases n with
  | table t =>
    simp only [Full.node, Full.table, Option.bind_eq_bind, Option.bind_eq_some_iff, Option.pure_def, Option.some.injEq] at h
    obtain ⟨n, -, _, -, args, -, dflt, hd, adds, -, consts, -, accs, -, rfl⟩ := h
    intro y hy
    simp only [List.cons_append, List.nil_append, List.mem_cons, List.mem_append, List.not_mem_nil, or_false] at hy
    rcases hy with rfl | rfl | rfl | rfl | rfl | rfl | rfl | rfl | hy | rfl | rfl <;> try rfl
    unfold Full.defaultItems at hd
    split at hd
    · rw [Option.map_eq_some_iff] at hd
      obtain ⟨ds, -, rfl⟩ := hd
      rw [List.mem_singleton.mp hy]
      rfl
    · cases hd; cases hy
  | struct s => cases h
  | «enum» e =>
    simp only [Full.node, Full.enum, Option.bind_eq_bind, Option.bind_eq_some_iff, Option.pure_def, Option.some.injEq] at h
    obtain ⟨n, -, vs, -, rfl⟩ := h
    intro y hy
    simp only [List.mem_cons, List.not_mem_nil, or_false] at hy
    rcases hy with rfl | rfl | rfl | rfl | rfl | rfl | rfl <;> rfl
  | union u =>
    simp only [Full.node, Full.union, Option.bind_eq_bind, Option.bind_eq_some_iff, Option.pure_def, Option.some.injEq] at h
    obtain ⟨n, -, e, -, vs, -, rfl⟩ := h
    intro y hy
    simp only [List.mem_cons, List.not_mem_nil, or_false] at hy
    rcases hy with rfl | rfl <;> rfl
  | rpc r => cases h; simp
  | «namespace» i ns => cases hn

/-- What is generated below a list of nodes. -/
def Below (gm : Mode) (xs : List (List Ident × Node)) (z : List Str × Item) : Prop :=
  ∃ x ∈ xs, ∃ ys, Full.node gm x.2 = some ys ∧ z.2 ∈ ys ∧ z.1 = x.1.map Heck.snake

theorem Below.one {gm : Mode} {R : List Ident} {n : Node} (hn : n.isItem = true) {ys : List Item} (h : Full.node gm n = some ys)
    (z : List Str × Item) : z ∈ flatItems (R.map Heck.snake) ys ↔ Below gm [(R, n)] z := by
  rw [flatItems_flat _ _ (node_flat hn h)]
  simp only [Below, List.mem_singleton, exists_eq_left, h, Option.some.injEq, List.mem_map]
  obtain ⟨m, i⟩ := z
  simp [and_comm, eq_comm]

mutual
theorem node_below (gm : Mode) (R : List Ident) : ∀ (n : Node) (zs : List Item), Full.node gm n = some zs →
    ∀ z, z ∈ flatItems (R.map Heck.snake) zs ↔ Below gm (n.leaves R) z
  | .table t, zs, h => by rw [Ir.Node.leaves]; exact Below.one rfl h
  | .struct t, zs, h => by rw [Ir.Node.leaves]; exact Below.one rfl h
  | .enum t, zs, h => by rw [Ir.Node.leaves]; exact Below.one rfl h
  | .union t, zs, h => by rw [Ir.Node.leaves]; exact Below.one rfl h
  | .rpc t, zs, h => by rw [Ir.Node.leaves]; exact Below.one rfl h
  | .namespace i ns, zs, h => by
    simp only [Full.node, Option.bind_eq_bind, Option.bind_eq_some_iff, Option.pure_def, Option.some.injEq] at h
    obtain ⟨m, hm, items, hi, rfl⟩ := h
    obtain rfl := Gen.formatIdent_eq hm
    have := nodes_below gm (R ++ [QIdent.simple i]) ns items hi
    intro z
    rw [Ir.Node.leaves, ← this]
    simp [flatItems, Item.flat]
theorem nodes_below (gm : Mode) (R : List Ident) : ∀ (ns : List Node) (zs : List Item), Full.nodes gm ns = some zs →
    ∀ z, z ∈ flatItems (R.map Heck.snake) zs ↔ Below gm (Node.leavesL R ns) z
  | [], zs, h => by
    simp only [Full.nodes, Option.some.injEq] at h
    subst h
    simp [flatItems, Below, Ir.Node.leavesL]
  | n :: ns, zs, h => by
    simp only [Full.nodes, Option.bind_eq_bind, Option.bind_eq_some_iff, Option.pure_def, Option.some.injEq] at h
    obtain ⟨a, ha, b, hb, rfl⟩ := h
    intro z
    rw [flatItems_append, List.mem_append, node_below gm R n a ha, nodes_below gm R ns b hb, Ir.Node.leavesL]
    simp [Below, or_and_right, exists_or]
end

theorem flat_below {gm : Mode} {out : List Node} {zs : List Item} (h : Full.nodes gm out = some zs) (z : List Str × Item) :
    z ∈ flatItems [] zs ↔ Below gm (itemsOf out) z := nodes_below gm [] out zs h z

end

/-! ### Declarations -/

/-- What an item declares, as a name of its module. -/
def declared (x : List Str × Item) : Option Gen.Item := x.2.declares.map fun d => ⟨x.1, .type, d.1⟩

theorem names_cons (x : List Str × Rs.Item) (P : Program) :
    Program.names (x :: P) = (x.2.introduces.map fun y => (⟨x.1, y.1, y.2⟩ : Gen.Item)).toList ++ Program.names P := by
  simp only [Program.names, List.filterMap_cons]
  cases x.2.introduces <;> simp

mutual
theorem item_declared (m : List Str) : ∀ (i : Item) (Q : Program), i.erase m = some Q →
    ((i.flat m).filterMap declared).Sublist Q.names
  | .struct as p n gs fs t, Q, h => by
    simp only [Item.erase, Option.bind_eq_bind, Option.bind_eq_some_iff, Option.pure_def, Option.some.injEq] at h
    obtain ⟨fs', -, rfl⟩ := h
    simp [Item.flat, declared, Item.declares, Program.names, Rs.Item.introduces]
  | .enum as p n gs vs, Q, h => by
    simp only [Item.erase] at h
    split at h <;>
    · simp only [Option.bind_eq_bind, Option.bind_eq_some_iff, Option.pure_def, Option.some.injEq] at h
      obtain ⟨fs', -, rfl⟩ := h
      simp [Item.flat, declared, Item.declares, Program.names, Rs.Item.introduces]
  | .impl gs tr s bs is, Q, h => by
    rw [Item.flat, List.filterMap_cons_none rfl]
    exact List.nil_sublist _
    all_goals simp
  | .fn f, Q, h => by
    rw [Item.flat, List.filterMap_cons_none rfl]
    exact List.nil_sublist _
    all_goals simp
  | .mod p n is, Q, h => by
    simp only [Item.erase, Option.bind_eq_bind, Option.bind_eq_some_iff, Option.pure_def, Option.some.injEq] at h
    obtain ⟨Q', h, rfl⟩ := h
    rw [Item.flat, names_cons]
    exact (items_declared (m ++ [n]) is Q' h).trans (List.sublist_append_right _ _)
theorem items_declared (m : List Str) : ∀ (is : List Item) (Q : Program), eraseItems m is = some Q →
    ((flatItems m is).filterMap declared).Sublist Q.names
  | [], Q, h => by simp [flatItems]
  | i :: is, Q, h => by
    simp only [eraseItems, Option.bind_eq_bind, Option.bind_eq_some_iff, Option.pure_def, Option.some.injEq] at h
    obtain ⟨a, ha, b, hb, rfl⟩ := h
    rw [flatItems, List.filterMap_append, Rs.names_append]
    exact (item_declared m i a ha).append (items_declared m is b hb)
end

/-- Names are declared once, so the declaration that is found is the one that is there. -/
theorem decl_of {F : File} (he : eraseItems [] F.items = some F.prog) (hn : F.prog.names.Nodup) {m : List Str} {i : Item}
    {n : Str} {gs : List GParam} (hi : (m, i) ∈ flatItems [] F.items) (hd : i.declares = some (n, gs)) : F.decl m n = some gs := by
  have hs := (items_declared [] F.items F.prog he).nodup hn
  unfold File.decl
  generalize flatItems [] F.items = l at hi hs
  induction l with
  | nil => cases hi
  | cons x l ih =>
    rw [List.findSome?_cons]
    rw [List.filterMap_cons] at hs
    rcases List.mem_cons.mp hi with rfl | hi'
    · simp [hd]
    · cases hx : x.2.declares with
      | none =>
        simp only
        exact ih hi' (by simpa [declared, hx] using hs)
      | some d =>
        obtain ⟨k, gs'⟩ := d
        simp only [declared, hx, Option.map_some, List.nodup_cons] at hs
        have : ¬ (x.1 = m ∧ k = n) := by
          rintro ⟨rfl, rfl⟩
          exact hs.1 (List.mem_filterMap.mpr ⟨_, hi', by simp [declared, hd]⟩)
        simp only [if_neg this]
        exact ih hi' hs.2

theorem names_forget (P : Program) : P.forget.names = P.names := by
  simp only [Program.forget, Program.names, List.filterMap_map]
  congr 1
  funext x
  obtain ⟨m, i⟩ := x
  cases i <;> rfl

/-! ### How many lifetimes follow a path -/

section
variable {F : File} {sc : Rs.Scope}

theorem arity_outer (h : Hygienic F.prog) (hsc : sc.Ok) {s : Str} {p : List Str} (hs : s ∈ Rs.reserved) (hB : s ≠ c!"B")
    (hS : s ≠ c!"Self") (hsup : s ≠ c!"super") : F.arity sc (s :: p) = match Rs.outer (s :: p) with
      | some (.butte b) => if b ∈ [c!"Vector", c!"FlatBufferBuilder", c!"Follow"] then 1 else 0
      | _ => 0 := by
  rw [File.arity, if_neg (by simpa using hS), Rs.resolve_outer h hsc hs hB hS hsup]
  cases ho : Rs.outer (s :: p) with
  | none => rfl
  | some d =>
    cases d with
    | item m n =>
      exfalso
      unfold Rs.outer at ho
      split at ho <;> (repeat' split at ho) <;> simp_all
    | _ => rfl

theorem arity_prim (h : Hygienic F.prog) (hsc : sc.Ok) (t : STy) : F.arity sc [Rs.primName t] = 0 := by
  rw [File.arity, Rs.resolve_prim h hsc]
  split <;> rfl

theorem arity_self (p : List Str) : F.arity sc (c!"Self" :: p) = 0 := by
  simp [File.arity]

theorem arity_item {p m : List Str} {n : Str} {gs : List GParam} (hS : p.head? ≠ some c!"Self")
    (hr : Rs.resolve F.prog sc p = some (.item m n)) (hd : F.decl m n = some gs) : F.arity sc p = (lifeNames gs).length := by
  rw [File.arity, if_neg hS, hr]
  simp [hd]

theorem arity_param (hg : sc.generics = [c!"B"]) : F.arity sc [c!"B"] = 0 := by
  simp [File.arity, Rs.resolve, hg]

theorem arity_butte (h : Hygienic F.prog) (hsc : sc.Ok) (b : Str) : F.arity sc [c!"butte", b] =
    if b ∈ [c!"Vector", c!"FlatBufferBuilder", c!"Follow"] then 1 else 0 := by
  rw [arity_outer h hsc (by decide) (by decide) (by decide) (by decide)]
  rfl

theorem arity_std (h : Hygienic F.prog) (hsc : sc.Ok) (b : Str) : F.arity sc [c!"std", c!"convert", b] = 0 := by
  rw [arity_outer h hsc (by decide) (by decide) (by decide) (by decide)]
  rfl

theorem arity_word (h : Hygienic F.prog) (hsc : sc.Ok) {s : Str}
    (hs : s ∈ [c!"str", c!"usize", c!"u8", c!"Option", c!"Result", c!"Default", c!"From"]) : F.arity sc [s] = 0 := by
  simp only [List.mem_cons, List.not_mem_nil, or_false] at hs
  rcases hs with rfl | rfl | rfl | rfl | rfl | rfl | rfl <;>
  · rw [arity_outer h hsc (by decide) (by decide) (by decide) (by decide)]
    rfl

/-! ### Types -/

/-- `TyLives` of the arguments. -/
def ArgsLives (F : File) (sc : Rs.Scope) (ls : List Str) (elide : Bool) (as : List GArg) : Prop :=
  (∀ l ∈ argLives as, LifeIn ls elide l) ∧ ∀ x ∈ argHeads as, x.2 = F.arity sc x.1

variable {ls : List Str} {el : Bool}

theorem tyLives_path {p : List Str} {b : Bool} {as : List GArg} :
    TyLives F sc ls el (.path p b as) ↔ lifeArgs as = F.arity sc p ∧ ArgsLives F sc ls el as := by
  simp only [TyLives, ArgsLives, Ty.lives, Ty.heads, List.mem_cons, forall_eq_or_imp]
  tauto

theorem tyLives_ref {l : Option Str} {b : Bool} {t : Ty} :
    TyLives F sc ls el (.ref l b t) ↔ LifeIn ls el (l.bind lifeOf) ∧ TyLives F sc ls el t := by
  simp only [TyLives, Ty.lives, Ty.heads, List.mem_cons, forall_eq_or_imp]
  tauto

theorem tyLives_slice {t : Ty} : TyLives F sc ls el (.slice t) ↔ TyLives F sc ls el t := by
  simp only [TyLives, Ty.lives, Ty.heads]

theorem argsLives_nil : ArgsLives F sc ls el [] := by simp [ArgsLives, argLives, argHeads]

theorem argsLives_life {l : Str} {as : List GArg} :
    ArgsLives F sc ls el (.life l :: as) ↔ LifeIn ls el (lifeOf l) ∧ ArgsLives F sc ls el as := by
  simp only [ArgsLives, argLives, argHeads, List.mem_cons, forall_eq_or_imp]
  tauto

theorem argsLives_ty {t : Ty} {as : List GArg} :
    ArgsLives F sc ls el (.ty t :: as) ↔ TyLives F sc ls el t ∧ ArgsLives F sc ls el as := by
  simp only [ArgsLives, TyLives, argLives, argHeads, List.mem_append, or_imp, forall_and]
  tauto

/-- How the types of a schema are declared, seen from a scope. -/
def ArTy (F : File) (sc : Rs.Scope) (ns : Option QIdent) : Ir.Ty → Prop
  | .builtin _ | .string => True
  | .array t => ArTy F sc ns t
  | .table q | .struct q _ | .enum q _ _ => F.arity sc (QIdent.relative q ns) = 0
  | .union q _ _ => F.arity sc (QIdent.relative q ns) = 1

/-- What types are wrapped in. -/
def WrapOk (w : Option (List Str)) : Prop := ∀ p ∈ w, ∃ x, p = [c!"butte", x] ∧ x ∉ [c!"Vector", c!"FlatBufferBuilder", c!"Follow"]

theorem wrapOk_none : WrapOk none := by simp [WrapOk]
theorem wrapOk_fwd : WrapOk (some fwdPath) := by
  rintro p ⟨⟩
  exact ⟨_, rfl, by decide⟩
theorem wrapOk_wip : WrapOk (some wipPath) := by
  rintro p ⟨⟩
  exact ⟨_, rfl, by decide⟩

theorem wrapped_lives (h : Hygienic F.prog) (hsc : sc.Ok) {w : Option (List Str)} (hw : WrapOk w) (o : Bool) {t : Ty}
    (ht : TyLives F sc ls el t) : TyLives F sc ls el (Full.wrapped w o t) := by
  cases w with
  | none => exact ht
  | some p =>
    obtain ⟨x, rfl, hx⟩ := hw p rfl
    cases o with
    | false => exact ht
    | true =>
      simp only [Full.wrapped, if_true, tyLives_path, argsLives_ty, argsLives_nil, and_true, arity_butte h hsc, if_neg hx]
      exact ⟨rfl, ht⟩

theorem refLife_of (l : Str) : (Full.refLife l).bind lifeOf = lifeOf l := by
  unfold Full.refLife lifeOf
  split <;> simp_all

theorem pathTokens_eq {q p : List Str} (h : pathTokens q = some p) : p = q := by
  unfold pathTokens at h
  split at h
  · cases h
  · exact (Option.some.inj h).symm

theorem typeToken_lives (h : Hygienic F.prog) (hsc : sc.Ok) {ns : Option QIdent} : ∀ {ty : Ir.Ty} {l : Str} {w : Option (List Str)}
    {o : Bool} {t : Ty}, Full.typeToken ns ty l w o = some t → ArTy F sc ns ty → LifeIn ls el (lifeOf l) → WrapOk w →
      TyLives F sc ls el t
  | .builtin b, l, w, o, t, ht, ha, hl, hw => by
    cases ht
    simp only [Full.word, tyLives_path, argsLives_nil, and_true, Rs.builtinName, arity_prim h hsc]
    rfl
  | .string, l, w, o, t, ht, ha, hl, hw => by
    cases ht
    refine wrapped_lives h hsc hw o ?_
    simp only [tyLives_ref, refLife_of, hl, Full.word, tyLives_path, argsLives_nil, and_true, true_and]
    exact (arity_word h hsc (by decide)).symm
  | .array u, l, w, o, t, ht, ha, hl, hw => by
    simp only [Full.typeToken, Option.bind_eq_bind, Option.bind_eq_some_iff, Option.pure_def, Option.some.injEq] at ht
    obtain ⟨c, hc, rfl⟩ := ht
    refine wrapped_lives h hsc hw o ?_
    have := typeToken_lives h hsc hc ha hl wrapOk_fwd
    simp only [tyLives_path, argsLives_life, hl, argsLives_ty, this, argsLives_nil, and_true, vectorPath, arity_butte h hsc]
    rfl
  | .table q, l, w, o, t, ht, ha, hl, hw => by
    simp only [Full.typeToken, Option.bind_eq_bind, Option.bind_eq_some_iff, Option.pure_def, Option.some.injEq] at ht
    obtain ⟨p, hp, rfl⟩ := ht
    obtain rfl := pathTokens_eq hp
    refine wrapped_lives h hsc hw o ?_
    simp only [tyLives_path, argsLives_ty, Full.bytes, tyLives_ref, refLife_of, hl, tyLives_slice, Full.word, argsLives_nil, and_true,
      true_and, show F.arity sc (QIdent.relative q ns) = 0 from ha, arity_word h hsc (s := c!"u8") (by decide)]
    exact ⟨rfl, rfl⟩
  | .union q e vs, l, w, o, t, ht, ha, hl, hw => by
    simp only [Full.typeToken, Option.bind_eq_bind, Option.bind_eq_some_iff, Option.pure_def, Option.some.injEq] at ht
    obtain ⟨p, hp, rfl⟩ := ht
    obtain rfl := pathTokens_eq hp
    refine wrapped_lives h hsc hw o ?_
    simp only [tyLives_path, argsLives_life, hl, argsLives_nil, and_true, show F.arity sc (QIdent.relative q ns) = 1 from ha]
    rfl
  | .struct q _, l, w, o, t, ht, ha, hl, hw | .enum q _ _, l, w, o, t, ht, ha, hl, hw => by
    simp only [Full.typeToken, Option.bind_eq_bind, Option.bind_eq_some_iff, Option.pure_def, Option.some.injEq] at ht
    obtain ⟨p, hp, rfl⟩ := ht
    obtain rfl := pathTokens_eq hp
    simp only [tyLives_path, argsLives_nil, and_true, show F.arity sc (QIdent.relative q ns) = 0 from ha]
    rfl

/-- The type is one that borrows. -/
def Borrows : Ir.Ty → Bool
  | .string | .array _ | .table _ | .union .. => true
  | _ => false

theorem wrapped_uses {w : Option (List Str)} {o : Bool} {t : Ty} {l : Option Str} (h : l ∈ t.lives) : l ∈ (Full.wrapped w o t).lives := by
  cases w with
  | none => exact h
  | some p =>
    cases o with
    | false => exact h
    | true => simp [Full.wrapped, Ty.lives, argLives, h]

/-- A type that borrows has the lifetime it is given. -/
theorem typeToken_uses {ns : Option QIdent} {ty : Ir.Ty} {l : Str} {w : Option (List Str)} {o : Bool} {t : Ty}
    (ht : Full.typeToken ns ty l w o = some t) (hb : Borrows ty = true) : lifeOf l ∈ t.lives := by
  cases ty with
  | builtin b => cases hb
  | struct | «enum» => cases hb
  | string =>
    cases ht
    exact wrapped_uses (by simp [Ty.lives, refLife_of])
  | array u =>
    simp only [Full.typeToken, Option.bind_eq_bind, Option.bind_eq_some_iff, Option.pure_def, Option.some.injEq] at ht
    obtain ⟨c, hc, rfl⟩ := ht
    exact wrapped_uses (by simp [Ty.lives, argLives])
  | table q =>
    simp only [Full.typeToken, Option.bind_eq_bind, Option.bind_eq_some_iff, Option.pure_def, Option.some.injEq] at ht
    obtain ⟨p, hp, rfl⟩ := ht
    exact wrapped_uses (by simp [Ty.lives, argLives, Full.bytes, refLife_of])
  | union q e vs =>
    simp only [Full.typeToken, Option.bind_eq_bind, Option.bind_eq_some_iff, Option.pure_def, Option.some.injEq] at ht
    obtain ⟨p, hp, rfl⟩ := ht
    exact wrapped_uses (by simp [Ty.lives, argLives])

end

end Butte.Src
