import Verif.Src.SizeText
import Verif.Src.FullPrint
import Verif.Src.FullErase
import Verif.Rs.Total
import Verif.Ir.HeckLemmas
/-
Schemas whose code is longer than every multiple of their text: tables in a deep namespace that name a table outside of it. Each name
becomes a path with one `super` for every part of the namespace.
-/
namespace Butte.Src.Deep

open Ir Parse
open Ast (Element)
open Ir.Timed (letter)

/-- The parts of the namespace. -/
def depth (d : Nat) : List Str := List.replicate (d + 1) c!"x"

/-- `W`, `Wa`, `Waa`, … -/
def name (k : Nat) : Str := 'W' :: List.replicate k 'a'

/-- `f:a.T;` -/
def fieldAst : Ast.Field := ⟨c!"f", .ident [c!"a", c!"T"], none, none, []⟩

/-- `table W{f:a.T;}`, `table Wa{f:a.T;}`, … -/
def decl (k : Nat) : Element := .table ⟨name k, [fieldAst], none, []⟩

/-- `namespace a;table T{}namespace x.x.….x;table W{f:a.T;}table Wa{f:a.T;}…` -/
def schema (d k : Nat) : Ast.Schema := ⟨[], .namespace [c!"a"] [] :: .table ⟨c!"T", [], none, []⟩ :: .namespace (depth d) [] ::
  (List.range' 0 k).map decl⟩

/-- The table that is named. -/
def base : Node := .table ⟨[c!"a", c!"T"], [], false, []⟩

/-- The tables that name it. -/
def deep (d k : Nat) : Node := .table ⟨depth d ++ [name k], [⟨c!"f", .table [c!"a", c!"T"], none, false, []⟩], false, []⟩

/-! ### The analysis -/

theorem name_ident (k : Nat) : mkIdent (name k) = name k := by
  simp [mkIdent, fixIdentifier, substituteKeyword, name]

theorem depth_ident (d : Nat) : mkQIdent (depth d) = depth d := by
  unfold mkQIdent depth
  rw [List.map_replicate]
  rfl

theorem name_inj {j k : Nat} (h : name j = name k) : j = k := by
  have := congrArg List.length h
  simpa [name] using this

/-- Where the analysis is when the `k`th table comes. -/
structure At (d k : Nat) (c : Ctx) : Prop where
  ns : c.ns = some (depth d)
  new : ∀ j, k ≤ j → c.types (depth d ++ [name j]) = none
  old : c.types [c!"a", c!"T"] = some (.defined .table)
  roots : c.roots = []
  nodes : c.nodes = (1, [base]) :: (List.range' 0 k).map fun j => (j + 3, [deep d j])

theorem insert_last {p : Nat} {ns : List Node} : ∀ {l : List (Nat × List Node)}, (∀ x ∈ l, x.1 < p) → insertNodes p ns l = l ++ [(p, ns)]
  | [], _ => rfl
  | x :: l, h => by
    have := h x (by simp)
    rw [insertNodes, if_neg (by omega), if_neg (by omega), insert_last fun y hy => h y (by simp [hy])]
    rfl

theorem ne_base (d j : Nat) : [c!"a", c!"T"] ≠ depth d ++ [name j] := by
  intro e
  have := congrArg (fun l => l.getLast?.getD []) e
  simp [name] at this

theorem step {d k : Nat} {c : Ctx} (h : At d k c) : ∃ c', c.newElement (k + 3) (decl k) = .ok (true, c') ∧ At d (k + 1) c' := by
  have hq : qualify c.ns (mkIdent (name k)) = depth d ++ [name k] := by simp [qualify, h.ns, name_ident, depth_ident]
  have hd : c.isDefined (depth d ++ [name k]) = false := by simp [Ctx.isDefined, h.new k (Nat.le_refl _)]
  have hb : (c.setType (depth d ++ [name k]) .tableDeclared).types [c!"a", c!"T"] = some (.defined .table) := by
    simp only [Ctx.setType]
    rw [if_neg (ne_base d k)]
    exact h.old
  have hf : (c.setType (depth d ++ [name k]) .tableDeclared).tableFields [fieldAst] =
      .ok (some [⟨c!"f", .table [c!"a", c!"T"], none, false, []⟩]) := by
    have ht : (c.setType (depth d ++ [name k]) .tableDeclared).tryType (.ident [c!"a", c!"T"]) = some (.table [c!"a", c!"T"]) := by
      show (c.setType (depth d ++ [name k]) .tableDeclared).find [c!"a", c!"T"] = _
      simp only [Ctx.find, hb]
      rfl
    simp only [Ctx.tableFields, fieldAst, ht]
    rfl
  refine ⟨((c.setType (depth d ++ [name k]) .tableDeclared).setType (depth d ++ [name k]) (.defined .table)).addNodes (k + 3) [deep d k],
    ?_, ⟨h.ns, ?_, ?_, h.roots, ?_⟩⟩
  · simp only [decl, Ctx.newElement, Ctx.newTable, hq, hd, hf]
    rfl
  · intro j hj
    simp only [Ctx.addNodes, Ctx.setType]
    have : ¬ depth d ++ [name j] = depth d ++ [name k] := fun e => by
      have := name_inj (List.cons.inj (List.append_cancel_left e)).1
      omega
    rw [if_neg this, if_neg this]
    exact h.new j (by omega)
  · simp only [Ctx.addNodes]
    rw [Ctx.setType]
    simp only
    rw [if_neg (ne_base d k)]
    exact hb
  · simp only [Ctx.addNodes, Ctx.setType, h.nodes]
    rw [insert_last, List.range'_concat]
    · simp
    · intro x hx
      rcases List.mem_cons.mp hx with rfl | hx
      · show 1 < k + 3; omega
      · obtain ⟨j, hj, rfl⟩ := List.mem_map.mp hx
        have := List.mem_range'_1.mp hj
        show j + 3 < k + 3; omega

theorem pass {d : Nat} (m k : Nat) (c : Ctx) (h : At d k c) :
    ∃ c', c.pass ((List.range' k m).map fun i => (i + 3, decl i)) = .ok ([], c') ∧ At d (k + m) c' := by
  induction m generalizing k c with
  | zero => exact ⟨c, rfl, h⟩
  | succ m ih =>
    obtain ⟨c1, h1, h2⟩ := step h
    obtain ⟨c2, h4, h5⟩ := ih (k + 1) c1 h2
    refine ⟨c2, ?_, by rw [show k + (m + 1) = k + 1 + m by omega]; exact h5⟩
    rw [List.range'_succ]
    simp only [List.map_cons, Ctx.pass, h1, BRes.ok_bind]
    rw [h4]
    rfl

theorem indexed_eq (d k : Nat) : indexed (schema d k).elements = (0, .namespace [c!"a"] []) :: (1, .table ⟨c!"T", [], none, []⟩) ::
    (2, .namespace (depth d) []) :: (List.range' 0 k).map fun i => (i + 3, decl i) := by
  unfold indexed schema
  simp only [List.zipIdx_cons, List.map_cons, Nat.zero_add]
  congr 3
  apply List.ext_getElem
  · simp
  · intro i h1 h2; simp; omega

/-- The items of the schema. -/
def items (d k : Nat) : List Node := base :: (List.range' 0 k).map (deep d)

theorem build_eq (d k : Nat) : Ir.build (schema d k) = some (.ok (arrange (items d k))) := by
  let c0 : Ctx := { ns := some (depth d), types := fun q => if q = [c!"a", c!"T"] then some (.defined .table) else
    if q = [c!"a", c!"T"] then some .tableDeclared else none, nodes := [(1, [base])], roots := [] }
  have h0 : At d 0 c0 := by
    refine ⟨rfl, fun j _ => ?_, rfl, rfl, rfl⟩
    have := (ne_base d j).symm
    simp only [c0, this, if_false]
  obtain ⟨c, h1, h2⟩ := pass k 0 c0 h0
  have h3 : Ctx.pass .init (indexed (schema d k).elements) = .ok ([], c) := by
    rw [indexed_eq]
    have e1 : Ctx.newElement .init 0 (.namespace [c!"a"] []) = .ok (true, { Ctx.init with ns := some [c!"a"] }) := rfl
    have e2 : Ctx.newElement { Ctx.init with ns := some [c!"a"] } 1 (.table ⟨c!"T", [], none, []⟩) =
      .ok (true, { c0 with ns := some [c!"a"] }) := rfl
    have e3 : Ctx.newElement { c0 with ns := some [c!"a"] } 2 (.namespace (depth d) []) = .ok (true, c0) := rfl
    simp only [Ctx.pass, e1, e2, e3, h1, BRes.ok_bind]
    rfl
  have h4 : Ctx.retry ((schema d k).elements.length + 1) .init (indexed (schema d k).elements) = some (.ok c) := by
    simp only [Ctx.retry, h3]
    rfl
  have h5 : c.items = items d k := by
    unfold Ctx.items
    rw [h2.roots, h2.nodes]
    rw [Nat.zero_add, List.flatMap_cons, List.flatMap_map, List.map_append, items]
    refine congrArg (base :: ·) ?_
    show List.map _ (List.flatMap _ _) = _
    generalize List.range' 0 k = l
    induction l with
    | nil => rfl
    | cons a l ih =>
      rw [List.flatMap_cons, List.map_append, ih]
      rfl
  unfold Ir.build
  rw [h4]
  show some (BRes.ok (arrange c.items)) = _
  rw [h5]

theorem holds (d k : Nat) : HoldsItems (arrange (items d k)) (items d k) := by
  have h : ∀ n ∈ items d k, n.isItem = true ∧ n.ident ≠ [] := by
    intro n hn
    rcases List.mem_cons.mp hn with rfl | hn
    · exact ⟨rfl, by simp [base, Node.ident]⟩
    · obtain ⟨j, -, rfl⟩ := List.mem_map.mp hn
      exact ⟨rfl, by simp [deep, Node.ident]⟩
  exact arrange_spec _ (fun n hn => (h n hn).1) (fun n hn => (h n hn).2)

/-! ### The code -/

theorem relative_eq (d : Nat) : QIdent.relative [c!"a", c!"T"] (some (depth d)) = List.replicate (d + 1) c!"super" ++ [c!"a", c!"T"] := by
  have : commonPrefix [c!"a", c!"T"] (depth d) = 0 := by
    rw [depth, List.replicate_succ, commonPrefix, if_neg (by decide)]
  simp only [QIdent.relative, this, Nat.sub_zero, List.drop_zero]
  simp [depth]

theorem namespace_eq (d k : Nat) : QIdent.namespace (depth d ++ [name k]) = some (depth d) := by
  unfold QIdent.namespace
  rw [if_pos (by simp [depth])]
  simp

theorem path_ok (d : Nat) : Rs.PathOk (List.replicate (d + 1) c!"super" ++ [c!"a", c!"T"]) := by
  refine ⟨by simp, ?_, ?_⟩ <;> simp

theorem item_ok (gm : Mode) {d k : Nat} {n : Node} (h : n ∈ items d k) : Rs.NodeOk gm n := by
  rcases List.mem_cons.mp h with rfl | hn
  · exact ⟨⟨'T', [], rfl, rfl⟩, by simp, .inr (by simp)⟩
  · obtain ⟨j, -, rfl⟩ := List.mem_map.mp hn
    refine ⟨⟨'W', List.replicate j 'a', by simp [QIdent.simple, name], rfl⟩, ?_, .inr (by simp)⟩
    intro f hf
    cases List.mem_singleton.mp hf
    dsimp only
    rw [namespace_eq]
    refine ⟨⟨'f', [], rfl, rfl⟩, ⟨'f', [], rfl, rfl⟩, ?_, trivial, fun q e vs h => by cases h⟩
    intro q hq
    cases List.mem_singleton.mp hq
    rw [relative_eq]
    exact path_ok d

theorem emits [FloatText] (gm : Mode) (d k : Nat) : ∃ ts, tokens gm (arrange (items d k)) = some ts := by
  have hr : ∃ P, Rs.emitNodes gm [] (arrange (items d k)) = some P := by
    refine (Rs.emitNodes_iff gm [] [] _).mpr ⟨fun x hx => item_ok gm (holds_path (holds d k) hx).1, fun p hp => ?_⟩
    obtain ⟨x, hx, hpx⟩ := Gen.modPathsL_leaf [] _ (holds d k).2.1 p hp
    obtain ⟨hi, e⟩ := holds_path (holds d k) hx
    have hne : p ≠ [] := by
      rintro rfl
      obtain ⟨_, _, h⟩ := Gen.modPathsL_under [] _ _ hp
      simp at h
    have hm : QIdent.simple p ∈ x.1 := hpx.subset (by rw [QIdent.simple, List.getLastD_eq_getLast?, List.getLast?_eq_some_getLast hne]; exact List.getLast_mem hne)
    rw [← e] at hm
    rcases List.mem_cons.mp hi with hi | hi
    · rw [hi] at hm
      rw [List.mem_singleton.mp hm]
      exact ⟨'a', [], rfl, rfl⟩
    · obtain ⟨j, -, hj⟩ := List.mem_map.mp hi
      rw [← hj] at hm
      simp only [deep, Node.ident, List.dropLast_concat, depth] at hm
      rw [List.eq_of_mem_replicate hm]
      exact ⟨'x', [], rfl, rfl⟩
  obtain ⟨P, hP⟩ := hr
  have := (nodes_agree gm (arrange (items d k)) []).isSome
  rw [hP, Option.isSome_some, Option.isSome_iff_exists] at this
  obtain ⟨z, hz⟩ := this
  exact ⟨_, by rw [tokens, Quote.nodes_eq, hz]; rfl⟩

theorem printPath_le : ∀ q : List Str, q.length ≤ (printPath q).length
  | [] => Nat.le_refl _
  | [_] => Nat.le_refl _
  | s :: t :: p => by
    have := printPath_le (t :: p)
    simp only [printPath, List.length_cons] at *
    omega

theorem sepCommas_le : ∀ xs : List Toks, total xs ≤ (sepCommas xs).length
  | [] => by simp [sepCommas, total]
  | [x] => by simp [sepCommas, total]
  | x :: y :: xs => by
    have := sepCommas_le (y :: xs)
    simp only [sepCommas, total, List.length_append, List.length_cons, List.map_cons, List.sum_cons] at *
    omega

open Quote in
theorem table_low [FloatText] {gm : Mode} {d k : Nat} {ts : Toks} (h : Quote.node gm (deep d k) = some ts) : d ≤ ts.length := by
  simp only [deep, Quote.node, Quote.table, Option.bind_eq_bind, Option.bind_eq_some_iff, Option.pure_def, Option.some.injEq] at h
  obtain ⟨n, -, _, -, af, haf, ad, had, bm, hbm, fo, hfo, fa, hfa, rfl⟩ := h
  have h1 : d ≤ total af := by
    rw [namespace_eq] at haf
    simp only [List.mapM_cons, List.mapM_nil, Option.bind_eq_bind, Option.bind_eq_some_iff, Option.pure_def, Option.some.injEq] at haf
    obtain ⟨a, ha, _, rfl, rfl⟩ := haf
    simp only [argsField, argTy, Ir.Ty.isUnion, typeToken, Option.bind_eq_bind, Option.bind_eq_some_iff, Option.pure_def, Option.some.injEq,
      relative_eq] at ha
    obtain ⟨ty, hty, dd, -, rfl⟩ := ha
    simp only [Bool.false_eq_true, if_false, Option.bind_eq_some_iff, Option.some.injEq] at hty
    obtain ⟨p, hp, rfl⟩ := hty
    have hpl : d + 3 ≤ p.length := by
      rw [Quote.path, (path_ok d).tokens] at hp
      cases hp
      refine Nat.le_trans ?_ (printPath_le _)
      simp
    simp [total, ToTokens.toks, Ir.Ty.isScalar]
    omega
  have c1 := sepCommas_le af
  simp only [argsStruct, ToTokens.toks, id, List.length_append, List.length_cons, List.length_nil]
  omega

/-- The number of tokens of one node. -/
def nodeTokens [FloatText] (gm : Mode) (n : Node) : Nat := ((Quote.node gm n).map List.length).getD 0

mutual
theorem node_low [FloatText] {gm : Mode} {path : List Ident} : ∀ {n : Node} {ts : Toks}, Quote.node gm n = some ts →
    ((n.leaves path).map fun x => nodeTokens gm x.2).sum ≤ ts.length
  | .namespace i ns, ts, h => by
    rw [Node.leaves]
    rw [Quote.node] at h
    simp only [Option.bind_eq_bind, Option.bind_eq_some_iff, Option.pure_def, Option.some.injEq] at h
    obtain ⟨m, -, us, hus, rfl⟩ := h
    have := nodes_low (path := path ++ [QIdent.simple i]) hus
    simp only [ToTokens.toks, id, List.length_append, List.length_cons, List.length_nil]
    omega
  | .table t, ts, h | .struct t, ts, h | .enum t, ts, h | .union t, ts, h | .rpc t, ts, h => by
    simp [Node.leaves, nodeTokens, h]
theorem nodes_low [FloatText] {gm : Mode} {path : List Ident} : ∀ {l : List Node} {ts : Toks}, Quote.nodes gm l = some ts →
    ((Node.leavesL path l).map fun x => nodeTokens gm x.2).sum ≤ ts.length
  | [], ts, h => by simp [Node.leavesL]
  | n :: l, ts, h => by
    rw [Node.leavesL]
    rw [Quote.nodes] at h
    simp only [Option.bind_eq_bind, Option.bind_eq_some_iff, Option.pure_def, Option.some.injEq] at h
    obtain ⟨a, ha, b, hb, rfl⟩ := h
    have h1 := node_low (path := path) ha
    have h2 := nodes_low (path := path) hb
    rw [List.map_append, List.sum_append, List.length_append]
    omega
end

mutual
theorem node_some [FloatText] {gm : Mode} {path : List Ident} : ∀ {n : Node} {ts : Toks}, Quote.node gm n = some ts →
    ∀ x ∈ n.leaves path, ∃ us, Quote.node gm x.2 = some us
  | .namespace i ns, ts, h => by
    rw [Node.leaves]
    rw [Quote.node] at h
    simp only [Option.bind_eq_bind, Option.bind_eq_some_iff, Option.pure_def, Option.some.injEq] at h
    obtain ⟨m, -, us, hus, rfl⟩ := h
    exact nodes_some hus
  | .table t, ts, h | .struct t, ts, h | .enum t, ts, h | .union t, ts, h | .rpc t, ts, h => by
    intro x hx
    rw [Node.leaves] at hx
    rw [List.mem_singleton.mp hx]
    exact ⟨ts, h⟩
theorem nodes_some [FloatText] {gm : Mode} {path : List Ident} : ∀ {l : List Node} {ts : Toks}, Quote.nodes gm l = some ts →
    ∀ x ∈ Node.leavesL path l, ∃ us, Quote.node gm x.2 = some us
  | [], ts, h => by simp [Node.leavesL]
  | n :: l, ts, h => by
    rw [Node.leavesL]
    rw [Quote.nodes] at h
    simp only [Option.bind_eq_bind, Option.bind_eq_some_iff, Option.pure_def, Option.some.injEq] at h
    obtain ⟨a, ha, b, hb, rfl⟩ := h
    intro x hx
    rcases List.mem_append.mp hx with hx | hx
    · exact node_some ha x hx
    · exact nodes_some hb x hx
end

theorem tokens_low [FloatText] {gm : Mode} {d k : Nat} {ts : Toks} (h : tokens gm (arrange (items d k)) = some ts) : k * d ≤ ts.length := by
  refine Nat.le_trans ?_ (nodes_low (path := []) h)
  have hp := (holds_perm (holds d k)).map (nodeTokens gm)
  rw [List.map_map] at hp
  show _ ≤ ((Node.leavesL [] (arrange (items d k))).map (nodeTokens gm ∘ Prod.snd)).sum
  rw [show ((Node.leavesL [] (arrange (items d k))).map (nodeTokens gm ∘ Prod.snd)).sum = _ from perm_sum hp, items, List.map_cons, List.map_map,
    List.sum_cons]
  refine Nat.le_trans ?_ (Nat.le_add_left _ _)
  have e : ((List.range' 0 k).map fun _ => d).sum = k * d := by simp
  rw [← e]
  refine sum_le _ fun j hj => ?_
  have hx := holds_mem (holds d k) (n := deep d j) (by simp only [items, List.mem_cons, List.mem_map]; exact .inr ⟨j, hj, rfl⟩)
  obtain ⟨us, hus⟩ := nodes_some (path := []) h _ hx
  have := table_low hus
  simpa [nodeTokens, hus] using this

/-! ### The text -/

/-- The text of the namespace. -/
def depthText : Nat → Str
  | 0 => c!"x"
  | d + 1 => 'x' :: '.' :: depthText d

/-- The text of the `k`th table. -/
def oneText (k : Nat) : Str := c!"table " ++ (name k ++ ('{' :: (c!"f:a.T;" ++ c!"}")))

/-- The texts of the tables from the `k`th on. -/
def fromText (k : Nat) : Nat → Str
  | 0 => []
  | m + 1 => oneText k ++ fromText (k + 1) m

/-- What comes first. -/
def startText : Str := c!"namespace a;table T{}namespace "

/-- What follows. -/
def restText (d k : Nat) : Str := depthText d ++ (';' :: fromText 0 k)

/-- The whole text. -/
def text (d k : Nat) : Str := startText ++ restText d k

theorem depth_length (d : Nat) : (depthText d).length = 2 * d + 1 := by
  induction d with
  | zero => rfl
  | succ d ih => simp only [depthText, List.length_cons, ih]; omega

theorem from_length (k m : Nat) : (fromText k m).length ≤ m * (k + m + 20) := by
  induction m generalizing k with
  | zero => simp [fromText]
  | succ m ih =>
    have h1 : (oneText k).length ≤ k + 20 := by
      simp only [oneText, name, List.length_append, List.length_cons, List.length_replicate, List.length_nil]; omega
    have := ih (k + 1)
    rw [show k + 1 + m = k + (m + 1) by omega] at this
    rw [fromText, List.length_append, Nat.add_mul m]
    omega

theorem text_length (d k : Nat) : (text d k).length ≤ k * (k + 20) + 2 * d + 40 := by
  have := from_length 0 k
  have := depth_length d
  have : startText.length = 31 := by decide
  simp only [text, restText, List.length_append, List.length_cons] at *
  rw [Nat.zero_add] at *
  omega

section
variable [Env]

theorem single (c : Char) (h : c.toNat < 128) (h2 : (c.isAlpha : Bool) = true) : IsIdent [c] :=
  ⟨.inl (letter c h h2), fun _ h => by cases h⟩

theorem name_isIdent (k : Nat) : IsIdent (name k) := by
  refine ⟨.inl (letter 'W' (by decide) (by decide)), fun d hd => ?_⟩
  rw [List.eq_of_mem_replicate hd]
  exact .inl (letter 'a' (by decide) (by decide))

theorem depth_text : ∀ d, QIdentText (depth d) (depthText d)
  | 0 => .one ⟨single 'x' (by decide) (by decide), rfl⟩
  | d + 1 => by
    have := SepText.cons (c := '.') (w₁ := []) (w₂ := []) (R := IdentText) ⟨single 'x' (by decide) (by decide), rfl⟩ .nil .nil (depth_text d)
    simpa [depth, depthText, List.replicate_succ, QIdentText] using this

theorem field_text : FieldText fieldAst c!"f:a.T;" := by
  have hq : QIdentText [c!"a", c!"T"] c!"a.T" := by
    have := SepText.cons (c := '.') (w₁ := []) (w₂ := []) (R := IdentText) ⟨single 'a' (by decide) (by decide), rfl⟩ .nil .nil
      (.one ⟨single 'T' (by decide) (by decide), rfl⟩)
    simpa [QIdentText] using this
  have hp : Parse.Plain c!"a" := ⟨fun b => by cases b <;> decide, by decide⟩
  have := FieldText.mk (f := fieldAst) (w₁ := []) (w₂ := []) (w₃ := []) (w₄ := []) .nil
    (single 'f' (by decide) (by decide)) .nil .nil (.ident hp hq) .none .nil .none .nil
  simpa [fieldAst] using this

theorem one_text (k : Nat) : ElementText (decl k) (oneText k) := by
  have hf : ManyText FieldText [fieldAst] c!"f:a.T;" := by
    have := ManyText.cons (w := []) field_text .nil .nil
    simpa using this
  have := ElementText.table (ProductText.mk (kw := c!"table") (p := ⟨name k, [fieldAst], none, []⟩) (w₁ := c!" ") (w₂ := []) (w₃ := [])
    (w₄ := []) .nil (.space (.inl rfl) .nil) (by simp) (name_isIdent k) .nil .none .nil .nil hf)
  simpa [decl, oneText] using this

theorem from_text (k m : Nat) : ManyText ElementText ((List.range' k m).map decl) (fromText k m) := by
  induction m generalizing k with
  | zero => exact .nil
  | succ m ih =>
    have := ManyText.cons (w := []) (one_text k) .nil (ih (k + 1))
    simpa [List.range'_succ, fromText] using this

theorem schema_text (d k : Nat) : SchemaText (schema d k) (text d k) := by
  have e1 : ElementText (.namespace [c!"a"] []) c!"namespace a;" :=
    .namespace (.one ⟨single 'a' (by decide) (by decide), rfl⟩)
      (KeywordText.mk (kw := c!"namespace") (gap := true) (w₁ := c!" ") (w₂ := []) .nil (.space (.inl rfl) .nil) (by simp) .nil)
  have e2 : ElementText (.table ⟨c!"T", [], none, []⟩) c!"table T{}" := by
    have := ElementText.table (ProductText.mk (kw := c!"table") (p := ⟨c!"T", [], none, []⟩) (w₁ := c!" ") (w₂ := []) (w₃ := [])
      (w₄ := []) .nil (.space (.inl rfl) .nil) (by simp) (single 'T' (by decide) (by decide)) .nil .none .nil .nil .nil)
    simpa using this
  have e3 : ElementText (.namespace (depth d) []) (c!"namespace " ++ (depthText d ++ c!";")) := by
    have := ElementText.namespace (depth_text d)
      (KeywordText.mk (kw := c!"namespace") (gap := true) (w₁ := c!" ") (w₂ := []) .nil (.space (.inl rfl) .nil) (by simp) .nil)
    simpa using this
  have := SchemaText.mk (s := schema d k) (w := []) (is := []) (e := []) (.inr (by simp [schema])) .nil .nil
    (.cons (w := []) e1 .nil (.cons (w := []) e2 .nil (.cons (w := []) e3 .nil (from_text 0 k)))) .none
  simpa [text, startText, restText] using this

omit [Env] in
theorem rest_chars (d k : Nat) : ∀ c ∈ restText d k, c ≠ 'n' ∧ c ≠ 'i' := by
  have h1 : ∀ d, ∀ c ∈ depthText d, c ≠ 'n' ∧ c ≠ 'i' := by
    intro d
    induction d with
    | zero => decide
    | succ d ih =>
      intro c hc
      simp only [depthText, List.mem_cons] at hc
      rcases hc with rfl | rfl | hc
      · decide
      · decide
      · exact ih c hc
  have h2 : ∀ k, ∀ c ∈ oneText k, c ≠ 'n' ∧ c ≠ 'i' := by
    intro k c hc
    simp only [oneText, List.mem_append] at hc
    rcases hc with hc | hc | hc
    · revert c; decide
    · rcases List.mem_cons.mp hc with rfl | hc
      · decide
      · rw [List.eq_of_mem_replicate hc]; decide
    · revert c; decide
  have h3 : ∀ m k, ∀ c ∈ fromText k m, c ≠ 'n' ∧ c ≠ 'i' := by
    intro m
    induction m with
    | zero => intro k c hc; cases hc
    | succ m ih =>
      intro k c hc
      rcases List.mem_append.mp hc with hc | hc
      · exact h2 k c hc
      · exact ih _ c hc
  intro c hc
  rcases List.mem_append.mp hc with hc | hc
  · exact h1 d c hc
  · rcases List.mem_cons.mp hc with rfl | hc
    · decide
    · exact h3 k 0 c hc

theorem parse (d k : Nat) : Parse.schemaDecl (text d k) = some ([], schema d k) := by
  refine schemaDecl_eq (schema_text d k) ?_ ?_
  · intro el hel
    simp only [schema, List.mem_cons, List.mem_map] at hel
    rcases hel with rfl | rfl | rfl | ⟨j, -, rfl⟩
    · trivial
    · intro f hf; cases hf
    · trivial
    · intro f hf
      cases List.mem_singleton.mp hf
      trivial
  · intro w hw a b e
    exfalso
    have hi : 'i' ∉ text d k := by
      intro h
      rcases List.mem_append.mp h with h | h
      · revert h; decide
      · exact (rest_chars d k _ h).2 rfl
    simp only [List.mem_cons, List.not_mem_nil, or_false] at hw
    rcases hw with rfl | rfl | rfl
    · have g1 : (text d k)[a.length]? = some 'n' := by rw [e]; simp
      have g2 : (text d k)[a.length + 2]? = some 'n' := by rw [e]; simp
      have hs : startText.length = 31 := by decide
      have key : ∀ i, (text d k)[i]? = some 'n' → i < 31 := by
        intro i hi
        refine Nat.lt_of_not_le fun hl => ?_
        rw [text, List.getElem?_append_right (by omega)] at hi
        exact (rest_chars d k _ (List.mem_of_getElem? hi)).1 rfl
      have k1 := key _ g1
      have k2 := key _ g2
      rw [text, List.getElem?_append_left (by omega)] at g1 g2
      generalize a.length = i at *
      have : ∀ i < 31, startText[i]? = some 'n' → startText[i + 2]? = some 'n' → False := by decide
      exact this i k1 g1 g2
    · exact hi (by rw [e]; simp)
    · exact hi (by rw [e]; simp)

end

/-- The code outgrows every multiple of the text. -/
theorem outgrows [Env] [FloatText] (gm : Mode) (K : Nat) : ∃ t s out ts, Parse.schemaDecl t = some ([], s) ∧ Ir.build s = some (.ok out) ∧
    tokens gm out = some ts ∧ K * (t.length + 1) < ts.length := by
  obtain ⟨k, hk⟩ : ∃ k, k = 10 * K + 30 := ⟨_, rfl⟩
  obtain ⟨ts, h⟩ := emits gm (k * k) k
  refine ⟨text (k * k) k, schema (k * k) k, _, ts, parse _ _, build_eq _ _, h, Nat.lt_of_lt_of_le ?_ (tokens_low h)⟩
  have h1 := text_length (k * k) k
  have h2 : 30 * k ≤ k * k := Nat.mul_le_mul_right k (by omega)
  have h3 : (text (k * k) k).length + 1 ≤ 6 * (k * k) := by
    rw [Nat.mul_add] at h1
    omega
  calc K * ((text (k * k) k).length + 1) ≤ K * (6 * (k * k)) := Nat.mul_le_mul_left _ h3
    _ = 6 * K * (k * k) := by rw [← Nat.mul_assoc, Nat.mul_comm K 6]
    _ < k * (k * k) := Nat.mul_lt_mul_of_pos_right (by omega) (Nat.mul_pos (by omega) (by omega))

end Butte.Src.Deep
