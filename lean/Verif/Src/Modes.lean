import Verif.Gen.Modes
import Verif.Cli.Files
/-
Debug and release builds of the generator: the tokens, and the compiler as a program.
-/
namespace Butte

theorem OLe.map {α β : Type} {a b : Option α} (h : OLe a b) (f : α → β) : OLe (a.map f) (b.map f) := by
  rcases h with rfl | rfl
  · exact .inl rfl
  · exact .refl _

namespace Src.Quote

theorem fieldOffsetConstant_le (i : Nat) (f : Ir.Field) : OLe (fieldOffsetConstant .debug i f) (fieldOffsetConstant .release i f) :=
  .bind (Gen.slotOf_le _) fun _ => .refl _

variable [FloatText]

theorem table_le (t : Ir.Table) : OLe (table .debug t) (table .release t) :=
  .bind (.refl _) fun _ => .bind (.refl _) fun _ => .bind (.refl _) fun _ => .bind (.refl _) fun _ => .bind (.refl _) fun _ =>
    .bind (.mapM (fun _ => fieldOffsetConstant_le _ _) _) fun _ => .refl _

mutual
theorem node_le : ∀ n : Ir.Node, OLe (node .debug n) (node .release n)
  | .table t => by unfold node; exact table_le t
  | .struct _ => by unfold node; exact .refl _
  | .enum _ => by unfold node; exact .refl _
  | .union _ => by unfold node; exact .refl _
  | .rpc _ => by unfold node; exact .refl _
  | .namespace _ ns => by unfold node; exact .bind (.refl _) fun _ => .bind (nodes_le ns) fun _ => .refl _
theorem nodes_le : ∀ ns : List Ir.Node, OLe (nodes .debug ns) (nodes .release ns)
  | [] => by unfold nodes; exact .refl _
  | n :: ns => by unfold nodes; exact .bind (node_le n) fun _ => .bind (nodes_le ns) fun _ => .refl _
end

variable {σ : Type} (g : RpcGen σ)

mutual
theorem nodeWith_le : ∀ (n : Ir.Node) (s : Option σ) (ts : Toks), OLe (nodeWith g .debug n s ts) (nodeWith g .release n s ts)
  | .table t, _, _ => by unfold nodeWith; exact (table_le t).map _
  | .struct _, _, _ => by unfold nodeWith; exact .refl _
  | .enum _, _, _ => by unfold nodeWith; exact .refl _
  | .union _, _, _ => by unfold nodeWith; exact .refl _
  | .rpc _, some _, _ => by unfold nodeWith; exact .refl _
  | .rpc _, none, _ => by unfold nodeWith; exact .refl _
  | .namespace _ ns, _, _ => by unfold nodeWith; exact .bind (.refl _) fun _ => .bind (nodesWith_le ns _ _) fun _ => .refl _
theorem nodesWith_le : ∀ (ns : List Ir.Node) (s : Option σ) (ts : Toks), OLe (nodesWith g .debug ns s ts) (nodesWith g .release ns s ts)
  | [], _, _ => by unfold nodesWith; exact .refl _
  | n :: ns, _, _ => by unfold nodesWith; exact .bind (nodeWith_le n _ _) fun _ => nodesWith_le ns _ _
end

theorem buildTokenStream_le (c : CodeGenerator σ) : OLe (c.buildTokenStream g .debug) (c.buildTokenStream g .release) :=
  (nodesWith_le g _ _ _).map _

end Src.Quote

namespace Cli

variable [Parse.Env] [Src.FloatText] [Render] {σ : Type}

theorem produce_le (ugly : Bool) (g : Src.RpcGen σ) (rpc : Option σ) (w : World) (b : Bytes) :
    produce .debug ugly g rpc w b = .failed .panic ∨ produce .debug ugly g rpc w b = produce .release ugly g rpc w b := by
  unfold produce
  split
  · exact .inr rfl
  · split <;> first | exact .inr rfl | skip
    rename_i root _
    rcases Src.Quote.buildTokenStream_le g ⟨root, rpc⟩ with h | h
    · rw [h]; exact .inl rfl
    · rw [h]; exact .inr rfl

theorem compileFbsGeneric_le (ugly : Bool) (g : Src.RpcGen σ) (rpc : Option σ) (i : In) (o : Out) (w : World) :
    compileFbsGeneric .debug ugly g rpc i o w = (w, .panic) ∨
      compileFbsGeneric .debug ugly g rpc i o w = compileFbsGeneric .release ugly g rpc i o w := by
  unfold compileFbsGeneric
  rcases produce_le ugly g rpc w (w.read i) with h | h
  · rw [h]; exact .inl rfl
  · rw [h]; exact .inr rfl

theorem compileFbs_le (p : Path) (w : World) :
    (compileFbs .debug p w).2 = .panic ∨ compileFbs .debug p w = compileFbs .release p w := by
  unfold compileFbs
  split
  · exact .inr rfl
  · split
    · exact .inr rfl
    · split
      · exact .inr rfl
      · split
        · exact .inr rfl
        · rcases compileFbsGeneric_le (σ := Unit) false ⟨fun _ _ _ => none⟩ none _ _ _ with h | h
          · rw [h]; exact .inl rfl
          · exact .inr h

theorem compileAll_le : ∀ (ps : List Path) (w : World),
    (compileAll .debug ps w).2 = .panic ∨ compileAll .debug ps w = compileAll .release ps w
  | [], _ => .inr rfl
  | p :: ps, w => by
    unfold compileAll
    rcases compileFbs_le p w with h | h
    · rcases hc : compileFbs .debug p w with ⟨w', r⟩
      rw [hc] at h
      subst h
      exact .inl rfl
    · rw [← h]
      split
      · exact compileAll_le ps _
      · exact .inr rfl

theorem main_le (i o : Option Path) (ugly : Bool) (w : World) :
    (main .debug i o ugly w).2 = .panic ∨ main .debug i o ugly w = main .release i o ugly w := by
  unfold main
  split
  · exact .inr rfl
  · split
    · exact .inr rfl
    · rcases compileFbsGeneric_le (σ := Unit) ugly ⟨fun _ _ _ => none⟩ none _ _ _ with h | h
      · rw [h]; exact .inl rfl
      · exact .inr h

end Cli

end Butte
