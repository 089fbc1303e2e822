import Verif.Gen.Compile
/-
Properties C42–C44: identifiers and paths in the generated code.
-/
namespace Butte
open Gen Ir

set_option maxRecDepth 8000

/-! ### C42 -/

/-- **C42** is false: `try` is reserved in Rust 2018 and is not substituted. -/
theorem C42_refuted : ∃ s, fixIdentifier s ∈ rustKeywords := ⟨c!"try", by decide⟩

/-- **C42** exactly: `try` is the only identifier that comes out of the substitution as a reserved word. -/
theorem C42_only_try_partial (s : Str) : fixIdentifier s ∈ rustKeywords ↔ s = c!"try" := by
  constructor
  · intro h
    unfold fixIdentifier at h
    cases e : substituteKeyword s with
    | none =>
      rw [e] at h
      simp only [Option.getD_none] at h
      have hall : ∀ k ∈ rustKeywords, substituteKeyword k = none → k = c!"try" := by decide
      exact hall s h e
    | some y =>
      rw [e] at h
      simp only [Option.getD_some] at h
      exfalso
      unfold substituteKeyword at e
      split at e
      · cases e
        have hall : ∀ k ∈ rustKeywords, k.getLast? ≠ some '_' := by decide
        exact hall _ h (by simp)
      · split at e
        · cases e; revert h; decide
        · cases e
  · rintro rfl; decide

/-- **C42** fails again where names are converted to snake case after the substitution: the conversion drops the
underscore, so the accessor of a field named like any keyword but `type` is generated as `fn <keyword>`, and no
table with such a field compiles. -/
theorem C42_accessors_refuted : ∀ k ∈ rustKeywords, k ≠ c!"type" →
    Heck.snake (fixIdentifier k) ∈ rustKeywords ∧
    ∀ gm t, ∀ f ∈ t.fields, f.ident = fixIdentifier k → compileTable gm t = none := by
  intro k hk hne
  have h1 : ∀ k ∈ rustKeywords, k ≠ c!"type" → Heck.snake (fixIdentifier k) ∈ rustKeywords := by decide
  refine ⟨h1 k hk hne, ?_⟩
  intro gm t f hf e
  unfold compileTable
  rw [if_neg]
  simp only [Bool.and_eq_true, not_and]
  intro h
  exfalso
  unfold namesOk at h
  simp only [Bool.and_eq_true, List.all_eq_true] at h
  have := h.1.2 (Heck.snake f.ident) (List.mem_map_of_mem hf)
  rw [e] at this
  unfold rustName at this
  have hk' := h1 k hk hne
  split at this
  · cases this
  · rename_i c cs heq
    rw [heq] at hk'
    simp only [Bool.and_eq_true, decide_eq_true_eq] at this
    exact this.1.1.2 (heq ▸ hk')

/-! ### C43 -/

/-- **C43** is false: the schema identifiers `type` and `ty` both become `ty`; `for` and `for_` both become `for_`. -/
theorem C43_refuted : fixIdentifier c!"type" = fixIdentifier c!"ty" ∧ fixIdentifier c!"for" = fixIdentifier c!"for_" := by
  decide

/-- **C43** exactly: two different identifiers collide only if one is a substituted keyword and the other is spelled
like its substitute. -/
theorem C43_collisions_partial (a b : Str) (h : fixIdentifier a = fixIdentifier b) :
    a = b ∨ substituteKeyword a = some b ∨ substituteKeyword b = some a := by
  unfold fixIdentifier at h
  cases ea : substituteKeyword a with
  | none =>
    cases eb : substituteKeyword b with
    | none => rw [ea, eb] at h; exact Or.inl h
    | some y => rw [ea, eb] at h; right; right; simp only [Option.getD_none, Option.getD_some] at h; rw [h]
  | some x =>
    cases eb : substituteKeyword b with
    | none => rw [ea, eb] at h; right; left; simp only [Option.getD_none, Option.getD_some] at h; rw [h]
    | some y =>
      rw [ea, eb] at h
      simp only [Option.getD_some] at h
      left
      subst h
      have sub : ∀ s x, substituteKeyword s = some x → (x = s ++ ['_'] ∧ s ≠ c!"type") ∨ (x = c!"ty" ∧ s = c!"type") := by
        intro s x e
        unfold substituteKeyword at e
        split at e
        · rename_i hm
          cases e
          refine Or.inl ⟨rfl, ?_⟩
          rintro rfl
          revert hm; decide
        · split at e
          · rename_i h; cases e; exact Or.inr ⟨rfl, h⟩
          · cases e
      rcases sub a x ea with ⟨h1, h2⟩ | ⟨h1, h2⟩ <;> rcases sub b x eb with ⟨h3, h4⟩ | ⟨h3, h4⟩
      · rw [h1] at h3; simpa using h3
      · rw [h1] at h3
        have := congrArg List.getLast? h3
        simp at this
      · rw [h3] at h1
        have := congrArg List.getLast? h1
        simp at this
      · rw [h2, h4]

/-- **C43** identifiers that neither end in an underscore nor are `ty` never collide. -/
theorem C43_injective_partial (a b : Str) (ha : a.getLast? ≠ some '_' ∧ a ≠ c!"ty")
    (hb : b.getLast? ≠ some '_' ∧ b ≠ c!"ty") (h : fixIdentifier a = fixIdentifier b) : a = b := by
  have sub : ∀ s x, substituteKeyword s = some x → x.getLast? = some '_' ∨ x = c!"ty" := by
    intro s x e
    unfold substituteKeyword at e
    split at e
    · cases e; left; simp
    · split at e
      · cases e; exact Or.inr rfl
      · cases e
  rcases C43_collisions_partial a b h with h | h | h
  · exact h
  · rcases sub _ _ h with h | h
    · exact absurd h hb.1
    · exact absurd h hb.2
  · rcases sub _ _ h with h | h
    · exact absurd h ha.1
    · exact absurd h ha.2

/-- C43: such identifiers, among them keywords. -/
example : (c!"while" : Str).getLast? ≠ some '_' ∧ (c!"while" : Str) ≠ c!"ty" ∧ fixIdentifier c!"while" = c!"while_" := by
  decide

/-! ### C44 -/

/-- Rust's resolution of a relative path from inside a module: `super` goes to the parent, any other segment to the
child of that name. -/
def resolve : List Str → List Str → Option (List Str)
  | cur, [] => some cur
  | cur, s :: p =>
    if s = c!"super" then (if cur = [] then none else resolve cur.dropLast p) else resolve (cur ++ [s]) p

theorem resolve_down : ∀ (p cur : List Str), (∀ s ∈ p, s ≠ c!"super") → resolve cur p = some (cur ++ p)
  | [], cur, _ => by simp [resolve]
  | s :: p, cur, h => by
    unfold resolve
    rw [if_neg (h s (by simp)), resolve_down p _ (fun x hx => h x (by simp [hx]))]
    simp

theorem resolve_up : ∀ (n : Nat) (cur p : List Str), n ≤ cur.length →
    resolve cur (List.replicate n c!"super" ++ p) = resolve (cur.take (cur.length - n)) p
  | 0, cur, p, _ => by simp
  | n + 1, cur, p, h => by
    have e : ∀ q, resolve cur (c!"super" :: q) = resolve cur.dropLast q := by
      intro q
      rw [resolve, if_pos rfl, if_neg (by rintro rfl; simp at h)]
    rw [List.replicate_succ, List.cons_append, e, resolve_up n cur.dropLast p (by simp; omega),
      List.dropLast_eq_take, List.take_take]
    congr 2
    simp only [List.length_take]
    omega

theorem commonPrefix_le_left : ∀ (q ns : QIdent), commonPrefix q ns ≤ q.length
  | [], _ => by simp [commonPrefix]
  | _ :: _, [] => by simp [commonPrefix]
  | a :: q, b :: ns => by
    unfold commonPrefix
    have := commonPrefix_le_left q ns
    split <;> simp; omega

theorem commonPrefix_le : ∀ (q ns : QIdent), commonPrefix q ns ≤ ns.length
  | [], _ => by simp [commonPrefix]
  | _ :: _, [] => by simp [commonPrefix]
  | a :: q, b :: ns => by
    unfold commonPrefix
    have := commonPrefix_le q ns
    split <;> simp; omega

theorem commonPrefix_take : ∀ (q ns : QIdent), q.take (commonPrefix q ns) = ns.take (commonPrefix q ns)
  | [], _ => by simp [commonPrefix]
  | _ :: _, [] => by simp [commonPrefix]
  | a :: q, b :: ns => by
    unfold commonPrefix
    split
    · rename_i h; simp [h, commonPrefix_take q ns]
    · simp

/-- Identifiers that went through the substitution are never `super`. -/
theorem C44_no_super (s : Str) : fixIdentifier s ≠ c!"super" := by
  intro h
  have : fixIdentifier s ∈ rustKeywords := by rw [h]; decide
  have := (C42_only_try_partial s).mp this
  subst this
  revert h; decide

/-- **C44** at the level of schema names: the path for item `q` seen from namespace `ns`, resolved by Rust's rules from
the module `ns`, is the fully qualified name of the item; at the top level the name itself is used. -/
theorem C44_names (q : QIdent) (ns : Option QIdent) (h : ∀ s ∈ q, s ≠ c!"super") :
    resolve (ns.getD []) (QIdent.relative q ns) = some q := by
  cases ns with
  | none =>
    simp only [QIdent.relative, Option.getD_none]
    rw [resolve_down q [] h]; simp
  | some ns =>
    simp only [QIdent.relative, Option.getD_some]
    have h1 := commonPrefix_le q ns
    rw [resolve_up _ _ _ (by omega), resolve_down _ _ (fun s hs => h s (List.mem_of_mem_drop hs)),
      show ns.length - (ns.length - commonPrefix q ns) = commonPrefix q ns by omega, ← commonPrefix_take,
      List.take_append_drop]

/-- The module an item of the schema is generated in, and its name (codegen.rs 1133-1143: modules are named by the
snake case of the namespace's parts, items by their own name). -/
def generatedAt (q : QIdent) : List Str := q.dropLast.map Heck.snake ++ q.getLast?.toList

/-- **C44** is false of the generated modules: modules are named in snake case but paths are not, so from namespace
`game` the item `GameAssets.Mesh` is looked up in a module `GameAssets`, and generated in `game_assets`. -/
theorem C44_refuted : ∃ (q ns : QIdent), (∀ s ∈ q, s ≠ c!"super") ∧
    resolve (ns.map Heck.snake) (QIdent.relative q (some ns)) ≠ some (generatedAt q) :=
  ⟨[c!"GameAssets", c!"Mesh"], [c!"game"], by decide, by decide⟩

/-- **C44** is false as well when the item's full name is also the beginning of the namespace it is used in: the path
is then just `super`, which names a module. -/
theorem C44_prefix_refuted : ∃ (q ns : QIdent), (∀ s ∈ q, s ≠ c!"super") ∧
    QIdent.relative q (some ns) = [c!"super"] ∧
    resolve (ns.map Heck.snake) (QIdent.relative q (some ns)) ≠ some (generatedAt q) :=
  ⟨[c!"Game"], [c!"Game", c!"assets"], by decide, by decide, by decide⟩

/-- **C44** what holds of the generated modules: if the namespaces that the path descends into are already in snake
case and the item's name is not a prefix of the namespace, the path denotes the generated item. -/
theorem C44_generated_partial (q : QIdent) (ns : Option QIdent) (h : ∀ s ∈ q, s ≠ c!"super") (hq : q ≠ [])
    (hp : ∀ n, ns = some n → ¬ q <+: n)
    (hs : ∀ s ∈ (q.dropLast).drop (commonPrefix q (ns.getD [])), Heck.snake s = s) :
    resolve ((ns.getD []).map Heck.snake) (QIdent.relative q ns) = some (generatedAt q) := by
  obtain ⟨qn, x, rfl⟩ : ∃ qn x, q = qn ++ [x] := ⟨q.dropLast, q.getLast hq, (List.dropLast_concat_getLast hq).symm⟩
  have hmap : ∀ l : List Str, (∀ s ∈ l, Heck.snake s = s) → l.map Heck.snake = l := by
    intro l hl
    exact (List.map_congr_left hl).trans (by simp)
  cases ns with
  | none =>
    simp only [QIdent.relative, Option.getD_none, List.map_nil, generatedAt, List.dropLast_concat] at hs ⊢
    rw [resolve_down _ [] h]
    have : commonPrefix (qn ++ [x]) [] = 0 := by cases qn <;> rfl
    rw [this, List.drop_zero] at hs
    rw [hmap qn hs]; simp
  | some ns =>
    simp only [QIdent.relative, Option.getD_some, generatedAt, List.dropLast_concat] at hs ⊢
    have h1 := commonPrefix_le (qn ++ [x]) ns
    have h2 := commonPrefix_le_left (qn ++ [x]) ns
    have h3 := commonPrefix_take (qn ++ [x]) ns
    have hlt : commonPrefix (qn ++ [x]) ns ≤ qn.length := by
      rcases Nat.lt_or_ge qn.length (commonPrefix (qn ++ [x]) ns) with hlt | hge
      · exfalso
        apply hp ns rfl
        have hk : commonPrefix (qn ++ [x]) ns = (qn ++ [x]).length := by
          simp only [List.length_append, List.length_singleton] at h2 ⊢; omega
        rw [hk, List.take_length] at h3
        rw [h3]
        exact List.take_prefix _ _
      · exact hge
    generalize commonPrefix (qn ++ [x]) ns = k at *
    rw [resolve_up _ _ _ (by simp), resolve_down _ _ (fun s hs => h s (List.mem_of_mem_drop hs))]
    simp only [List.length_map]
    rw [show ns.length - (ns.length - k) = k by omega]
    congr 1
    rw [← List.map_take, ← h3, List.take_append_of_le_length hlt, List.drop_append_of_le_length hlt,
      ← List.append_assoc]
    congr 1
    · have : qn.map Heck.snake = (qn.take k ++ qn.drop k).map Heck.snake := by rw [List.take_append_drop]
      rw [this, List.map_append, hmap _ hs]
    · simp

/-- C44: an item two levels down, used from a sibling namespace. -/
example : ∃ (q : QIdent) (ns : QIdent), (∀ s ∈ q, s ≠ c!"super") ∧ q ≠ [] ∧ ¬ q <+: ns ∧
    (∀ s ∈ (q.dropLast).drop (commonPrefix q ns), Heck.snake s = s) ∧
    QIdent.relative q (some ns) = [c!"super", c!"assets", c!"Mesh"] :=
  ⟨[c!"MyGame", c!"assets", c!"Mesh"], [c!"MyGame", c!"world"], by decide, by decide, by decide, by decide, by decide⟩

end Butte
