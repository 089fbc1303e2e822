import Verif.Src.LifetimesOk
import Verif.Src.RoundItem
/-
The code generator with an `RpcGenerator` (codegen.rs 1095-1160): a trait that the user implements, called for every service.
-/
set_option linter.unusedVariables false

namespace Butte.Src
open Ir (QIdent Node Ident itemsOf)
open Gen (formatIdent)

/-- codegen.rs 1156-1160 `RpcGenerator`, any implementation: it has a state, and may do what it likes with the tokens that it
is handed; `none`: it panics. -/
structure RpcGen (σ : Type) where
  generate : σ → Ir.Rpc → Toks → Option (σ × Toks)

namespace Quote
variable {σ : Type} (g : RpcGen σ)

mutual
/-- codegen.rs 1114-1153 `node_to_tokens`: the generator (if there is one) and the tokens so far, before and after. -/
def nodeWith [FloatText] (gm : Mode) : Node → Option σ → Toks → Option (Option σ × Toks)
  | .table t, s, ts => (table gm t).map fun a => (s, ts ++ a)
  | .struct _, _, _ => none
  | .enum e, s, ts => («enum» e).map fun a => (s, ts ++ a)
  | .union u, s, ts => (union u).map fun a => (s, ts ++ a)
  | .namespace i ns, s, ts => do
    let ident ← formatIdent (Heck.snake (QIdent.simple i))
    let (s, nodes_ts) ← nodesWith gm ns s []
    return (s, ts ++ quote! "
      pub mod #ident {
          #nodes_ts
      }
    ")
  | .rpc r, some s, ts => (g.generate s r ts).map fun x => (some x.1, x.2)
  | .rpc _, none, ts => some (none, ts)
/-- codegen.rs 1109-1111, 1136-1138: the loops over nodes. -/
def nodesWith [FloatText] (gm : Mode) : List Node → Option σ → Toks → Option (Option σ × Toks)
  | [], s, ts => some (s, ts)
  | n :: ns, s, ts => do
    let (s, ts) ← nodeWith gm n s ts
    nodesWith gm ns s ts
end

end Quote

/-- codegen.rs 1095-1098 `CodeGenerator`. -/
structure CodeGenerator (σ : Type) where
  root : List Node
  rpcGen : Option σ

/-- codegen.rs 1106-1112 `build_tokens`: the generator for services is taken out, and dropped at the end. -/
def CodeGenerator.buildTokens [FloatText] {σ : Type} (g : RpcGen σ) (gm : Mode) (c : CodeGenerator σ) (ts : Toks) :
    Option (CodeGenerator σ × Toks) :=
  (Quote.nodesWith g gm c.root c.rpcGen ts).map fun x => ({ c with rpcGen := none }, x.2)

/-- codegen.rs 1100-1104 `build_token_stream`. -/
def CodeGenerator.buildTokenStream [FloatText] {σ : Type} (g : RpcGen σ) (gm : Mode) (c : CodeGenerator σ) :
    Option (CodeGenerator σ × Toks) := c.buildTokens g gm []

/-! ### What is said about it -/

/-- The services of a tree, in order. -/
def services (xs : List (List Ident × Node)) : List Ir.Rpc :=
  xs.filterMap fun x => match x.2 with | .rpc r => some r | _ => none

/-- A generator which keeps a list of the services that it is called for. -/
def RpcGen.logged {σ : Type} (g : RpcGen σ) : RpcGen (σ × List Ir.Rpc) :=
  ⟨fun s r ts => (g.generate s.1 r ts).map fun x => ((x.1, s.2 ++ [r]), x.2)⟩

/-- Called for services one after the other, from state to state, the generator adds these tokens. -/
inductive RpcGen.Run {σ : Type} (g : RpcGen σ) : σ → List Ir.Rpc → σ → List Toks → Prop where
  | nil (s : σ) : g.Run s [] s []
  | cons {s s1 s2 : σ} {r : Ir.Rpc} {rs : List Ir.Rpc} {a : Toks} {as : List Toks}
      (h : ∀ ts, g.generate s r ts = some (s1, ts ++ a)) (t : g.Run s1 rs s2 as) : g.Run s (r :: rs) s2 (a :: as)

/-- What belongs in the file, each item with its module: the items of everything but services, unchanged, and those made by
the generator (one list for each service) in the module of the service. -/
def woven [FloatText] (gm : Mode) : List (List Ident × Node) → List (List Item) → Option (List (List Str × Item))
  | [], [] => some []
  | (p, .rpc _) :: xs, a :: as => (woven gm xs as).map (flatItems (p.map Heck.snake) a ++ ·)
  | (_, .rpc _) :: _, [] => none
  | [], _ :: _ => none
  | (p, n) :: xs, as => do
    let ys ← Full.node gm n
    let zs ← woven gm xs as
    return ys.map (p.map Heck.snake, ·) ++ zs

/-! ### Proofs -/

section
variable {σ : Type} {g : RpcGen σ}

theorem RpcGen.Run.append {s s1 s2 : σ} {rs1 rs2 : List Ir.Rpc} {as1 as2 : List Toks} (h1 : g.Run s rs1 s1 as1)
    (h2 : g.Run s1 rs2 s2 as2) : g.Run s (rs1 ++ rs2) s2 (as1 ++ as2) := by
  induction h1 with
  | nil => exact h2
  | cons h _ ih => exact .cons h (ih h2)

theorem RpcGen.Run.split {rs2 : List Ir.Rpc} : ∀ {rs1 : List Ir.Rpc} {s s2 : σ} {as : List Toks}, g.Run s (rs1 ++ rs2) s2 as →
    ∃ s1 as1 as2, as = as1 ++ as2 ∧ g.Run s rs1 s1 as1 ∧ g.Run s1 rs2 s2 as2
  | [], s, s2, as, h => ⟨s, [], as, rfl, .nil s, h⟩
  | r :: rs1, s, s2, as, h => by
    cases h with
    | cons h t =>
      obtain ⟨s1, as1, as2, rfl, h1, h2⟩ := RpcGen.Run.split t
      exact ⟨s1, _, as2, rfl, .cons h h1, h2⟩

theorem services_append (xs ys : List (List Ident × Node)) : services (xs ++ ys) = services xs ++ services ys := by
  simp [services]

section
variable [FloatText]

mutual
theorem nodeWith_none (gm : Mode) : ∀ (n : Node) (ts : Toks),
    Quote.nodeWith g gm n none ts = (Quote.node gm n).map fun a => (none, ts ++ a)
  | .table t, ts => by simp [Quote.nodeWith, Quote.node]
  | .struct _, ts => rfl
  | .enum t, ts => by simp [Quote.nodeWith, Quote.node]
  | .union t, ts => by simp [Quote.nodeWith, Quote.node]
  | .rpc _, ts => by simp [Quote.nodeWith, Quote.node]
  | .namespace i ns, ts => by
    simp only [Quote.nodeWith, Quote.node, nodesWith_none gm ns]
    cases formatIdent (Heck.snake (QIdent.simple i)) with
    | none => rfl
    | some m => cases Quote.nodes gm ns <;> rfl
theorem nodesWith_none (gm : Mode) : ∀ (ns : List Node) (ts : Toks),
    Quote.nodesWith g gm ns none ts = (Quote.nodes gm ns).map fun a => (none, ts ++ a)
  | [], ts => by simp [Quote.nodesWith, Quote.nodes]
  | n :: ns, ts => by
    simp only [Quote.nodesWith, Quote.nodes, nodeWith_none gm n]
    cases Quote.node gm n with
    | none => rfl
    | some a =>
      simp only [Option.map_some, Option.bind_eq_bind, Option.bind_some, nodesWith_none gm ns]
      cases Quote.nodes gm ns with
      | none => rfl
      | some b => simp
end

mutual
theorem nodeWith_logged (gm : Mode) (R : List Ident) : ∀ (n : Node) (s : σ) (l : List Ir.Rpc) (ts : Toks),
    Quote.nodeWith g.logged gm n (some (s, l)) ts =
      (Quote.nodeWith g gm n (some s) ts).map fun x => (x.1.map (·, l ++ services (n.leaves R)), x.2)
  | .table t, s, l, ts => by
    simp only [Quote.nodeWith]
    cases Quote.table gm t <;> simp [Node.leaves, services]
  | .struct _, s, l, ts => rfl
  | .enum e, s, l, ts => by
    simp only [Quote.nodeWith]
    cases Quote.enum e <;> simp [Node.leaves, services]
  | .union u, s, l, ts => by
    simp only [Quote.nodeWith]
    cases Quote.union u <;> simp [Node.leaves, services]
  | .rpc r, s, l, ts => by
    simp only [Quote.nodeWith, RpcGen.logged]
    cases g.generate s r ts <;> simp [Node.leaves, services]
  | .namespace i ns, s, l, ts => by
    simp only [Quote.nodeWith, nodesWith_logged gm (R ++ [QIdent.simple i]) ns s l []]
    cases formatIdent (Heck.snake (QIdent.simple i)) with
    | none => rfl
    | some m => cases Quote.nodesWith g gm ns (some s) [] <;> simp [Node.leaves]
theorem nodesWith_logged (gm : Mode) (R : List Ident) : ∀ (ns : List Node) (s : σ) (l : List Ir.Rpc) (ts : Toks),
    Quote.nodesWith g.logged gm ns (some (s, l)) ts =
      (Quote.nodesWith g gm ns (some s) ts).map fun x => (x.1.map (·, l ++ services (Node.leavesL R ns)), x.2)
  | [], s, l, ts => by simp [Quote.nodesWith, Node.leavesL, services]
  | n :: ns, s, l, ts => by
    simp only [Quote.nodesWith, nodeWith_logged gm R n s l ts]
    cases h : Quote.nodeWith g gm n (some s) ts with
    | none => rfl
    | some x =>
      obtain ⟨s', ts'⟩ := x
      simp only [Option.map_some, Option.bind_eq_bind, Option.bind_some]
      cases s' with
      | none => exact absurd h (nodeWith_keeps gm n s ts ts')
      | some s' =>
        simp only [Option.map_some, nodesWith_logged gm R ns s' _ ts', Node.leavesL, services_append, List.append_assoc]
theorem nodeWith_keeps (gm : Mode) : ∀ (n : Node) (s : σ) (ts ts' : Toks),
    Quote.nodeWith g gm n (some s) ts ≠ some (none, ts')
  | .table t, s, ts, ts' => by simp only [Quote.nodeWith]; cases Quote.table gm t <;> simp
  | .struct _, s, ts, ts' => nofun
  | .enum e, s, ts, ts' => by simp only [Quote.nodeWith]; cases Quote.enum e <;> simp
  | .union u, s, ts, ts' => by simp only [Quote.nodeWith]; cases Quote.union u <;> simp
  | .rpc r, s, ts, ts' => by simp only [Quote.nodeWith]; cases g.generate s r ts <;> simp
  | .namespace i ns, s, ts, ts' => by
    simp only [Quote.nodeWith]
    cases formatIdent (Heck.snake (QIdent.simple i)) with
    | none => simp
    | some m =>
      cases h : Quote.nodesWith g gm ns (some s) [] with
      | none => simp
      | some x =>
        obtain ⟨s', t⟩ := x
        cases s' with
        | none => exact absurd h (nodesWith_keeps gm ns s [] t)
        | some s' => simp
theorem nodesWith_keeps (gm : Mode) : ∀ (ns : List Node) (s : σ) (ts ts' : Toks),
    Quote.nodesWith g gm ns (some s) ts ≠ some (none, ts')
  | [], s, ts, ts' => by simp [Quote.nodesWith]
  | n :: ns, s, ts, ts' => by
    simp only [Quote.nodesWith]
    cases h : Quote.nodeWith g gm n (some s) ts with
    | none => simp
    | some x =>
      obtain ⟨s', t⟩ := x
      cases s' with
      | none => exact absurd h (nodeWith_keeps gm n s ts t)
      | some s' => exact nodesWith_keeps gm ns s' t ts'
end

/-! Weaving. -/

theorem woven_append {gm : Mode} {ys : List (List Ident × Node)} {bs : List (List Item)} {v : List (List Str × Item)}
    (h2 : woven gm ys bs = some v) : ∀ {xs : List (List Ident × Node)} {as : List (List Item)} {u : List (List Str × Item)},
    woven gm xs as = some u → woven gm (xs ++ ys) (as ++ bs) = some (u ++ v)
  | [], [], u, h => by simp only [woven, Option.some.injEq] at h; subst h; simpa using h2
  | [], _ :: _, u, h => by simp [woven] at h
  | (p, n) :: xs, as, u, h => by
    cases n with
    | rpc r =>
      cases as with
      | nil => simp [woven] at h
      | cons a as =>
        simp only [woven, Option.map_eq_some_iff] at h
        obtain ⟨w, hw, rfl⟩ := h
        simp [woven, woven_append h2 hw]
    | _ =>
      simp only [woven, Option.bind_eq_bind, Option.bind_eq_some_iff, Option.pure_def, Option.some.injEq] at h
      obtain ⟨z, hz, w, hw, rfl⟩ := h
      simp [woven, hz, woven_append h2 hw]

mutual
theorem node_woven (gm : Mode) (R : List Ident) : ∀ (n : Node) (zs : List Item), Full.node gm n = some zs → NodeLegible n →
    ∀ {s s' : σ} {as : List (List Item)}, g.Run s (services (n.leaves R)) s' (as.map printItems) → (∀ a ∈ as, itemsWf a) →
      ∀ ts, ∃ is, Quote.nodeWith g gm n (some s) ts = some (some s', ts ++ printItems is) ∧ itemsWf is ∧
        woven gm (n.leaves R) as = some (flatItems (R.map Heck.snake) is)
  | .table t, zs, h, hl, s, s', as, hr, hw, ts => by
    have e : services ((Node.table t).leaves R) = [] := rfl
    rw [e] at hr
    cases as with
    | cons a as => cases hr
    | nil =>
      cases hr
      have h' := node_agree gm (.table t) []
      refine ⟨zs, ?_, ?_, ?_⟩
      · have := Quote.node_eq gm (.table t)
        rw [h, Quote.node] at this
        simp [Quote.nodeWith, this]
      · generalize Rs.emitNode gm [] (.table t) = q at h'
        rw [h] at h'
        cases h' with
        | some k => exact (k hl).1
      · rw [Node.leaves, flatItems_flat _ _ (node_flat rfl h)]
        simp [woven, h]
  | .struct t, zs, h, hl, s, s', as, hr, hw, ts => by cases h
  | .enum t, zs, h, hl, s, s', as, hr, hw, ts => by
    have e : services ((Node.enum t).leaves R) = [] := rfl
    rw [e] at hr
    cases as with
    | cons a as => cases hr
    | nil =>
      cases hr
      have h' := node_agree gm (.enum t) []
      refine ⟨zs, ?_, ?_, ?_⟩
      · have := Quote.node_eq gm (.enum t)
        rw [h, Quote.node] at this
        simp [Quote.nodeWith, this]
      · generalize Rs.emitNode gm [] (.enum t) = q at h'
        rw [h] at h'
        cases h' with
        | some k => exact (k hl).1
      · rw [Node.leaves, flatItems_flat _ _ (node_flat rfl h)]
        simp [woven, h]
  | .union t, zs, h, hl, s, s', as, hr, hw, ts => by
    have e : services ((Node.union t).leaves R) = [] := rfl
    rw [e] at hr
    cases as with
    | cons a as => cases hr
    | nil =>
      cases hr
      have h' := node_agree gm (.union t) []
      refine ⟨zs, ?_, ?_, ?_⟩
      · have := Quote.node_eq gm (.union t)
        rw [h, Quote.node] at this
        simp [Quote.nodeWith, this]
      · generalize Rs.emitNode gm [] (.union t) = q at h'
        rw [h] at h'
        cases h' with
        | some k => exact (k hl).1
      · rw [Node.leaves, flatItems_flat _ _ (node_flat rfl h)]
        simp [woven, h]
  | .rpc r, zs, h, hl, s, s', as, hr, hw, ts => by
    have e : services ((Node.rpc r).leaves R) = [r] := rfl
    rw [e] at hr
    cases as with
    | nil => cases hr
    | cons a as =>
      cases hr with
      | cons h1 h2 =>
        cases as with
        | cons _ _ => cases h2
        | nil =>
          cases h2
          refine ⟨a, ?_, hw a (by simp), ?_⟩
          · simp [Quote.nodeWith, h1 ts]
          · simp [Node.leaves, woven]
  | .namespace i ns, zs, h, hl, s, s', as, hr, hw, ts => by
    simp only [Full.node, Option.bind_eq_bind, Option.bind_eq_some_iff, Option.pure_def, Option.some.injEq] at h
    obtain ⟨m, hm, items, hi, rfl⟩ := h
    simp only [NodeLegible] at hl
    rw [Node.leaves] at hr ⊢
    obtain ⟨is, h1, h2, h3⟩ := nodes_woven gm (R ++ [QIdent.simple i]) ns items hi hl.2 hr hw []
    have hm' := Gen.formatIdent_eq hm
    refine ⟨[.mod true m is], ?_, ?_, ?_⟩
    · simp [Quote.nodeWith, hm, h1, printItems, Item.print, printWord]
    · subst hm'
      exact ⟨⟨hl.1, h2⟩, trivial⟩
    · subst hm'
      rw [h3]
      simp [flatItems, Item.flat]
theorem nodes_woven (gm : Mode) (R : List Ident) : ∀ (ns : List Node) (zs : List Item), Full.nodes gm ns = some zs → Legible ns →
    ∀ {s s' : σ} {as : List (List Item)}, g.Run s (services (Node.leavesL R ns)) s' (as.map printItems) →
      (∀ a ∈ as, itemsWf a) →
      ∀ ts, ∃ is, Quote.nodesWith g gm ns (some s) ts = some (some s', ts ++ printItems is) ∧ itemsWf is ∧
        woven gm (Node.leavesL R ns) as = some (flatItems (R.map Heck.snake) is)
  | [], zs, h, hl, s, s', as, hr, hw, ts => by
    rw [Node.leavesL] at hr ⊢
    have e : services [] = [] := rfl
    rw [e] at hr
    cases as with
    | cons a as => cases hr
    | nil =>
      cases hr
      exact ⟨[], by simp [Quote.nodesWith, printItems], trivial, by simp [woven, flatItems]⟩
  | n :: ns, zs, h, hl, s, s', as, hr, hw, ts => by
    simp only [Full.nodes, Option.bind_eq_bind, Option.bind_eq_some_iff, Option.pure_def, Option.some.injEq] at h
    obtain ⟨a, ha, b, hb, rfl⟩ := h
    simp only [Legible] at hl
    rw [Node.leavesL, services_append] at hr
    obtain ⟨s1, as1, as2, e, r1, r2⟩ := hr.split
    obtain ⟨bs1, bs2, rfl, rfl, rfl⟩ := List.map_eq_append_iff.mp e
    obtain ⟨is1, h1, w1, v1⟩ := node_woven gm R n a ha hl.1 r1 (fun x hx => hw x (by simp [hx])) ts
    obtain ⟨is2, h2, w2, v2⟩ := nodes_woven gm R ns b hb hl.2 r2 (fun x hx => hw x (by simp [hx])) (ts ++ printItems is1)
    refine ⟨is1 ++ is2, ?_, itemsWf_append w1 w2, ?_⟩
    · simp [Quote.nodesWith, h1, h2, Quote.printItems_append]
    · rw [Node.leavesL, flatItems_append]
      exact woven_append v2 v1
end

end
end

end Butte.Src
