import Verif.Gen.Modes
import Verif.Rs.Eval
import Verif.Rs.Emit
/-
Debug and release builds: running programs of the emitted kind, and emitting them.
-/
namespace Butte.Rs

/-- The first outcome is a panic or the second one. -/
def Out.Le {α : Type} (a b : Out α) : Prop := a = .panic ∨ a = b

/-- From every state. -/
def M.Le {α : Type} (x y : M α) : Prop := ∀ s, (x s).Le (y s)

namespace M.Le

variable {α β : Type}

theorem refl (x : M α) : M.Le x x := fun _ => .inr rfl

theorem bind {x y : M α} {f g : α → M β} (h : M.Le x y) (hf : ∀ a, M.Le (f a) (g a)) : M.Le (x >>= f) (y >>= g) := by
  intro s
  show Out.Le (M.bind x f s) (M.bind y g s)
  unfold M.bind
  rcases h s with h | h
  · rw [h]; exact .inl rfl
  · rw [h]
    cases y s with
    | val a s => exact hf a s
    | ret v s => exact .inr rfl
    | panic => exact .inl rfl
    | stuck => exact .inr rfl

theorem ite {c : Prop} [Decidable c] {a b a' b' : M α} (h : M.Le a a') (h' : M.Le b b') : M.Le (if c then a else b) (if c then a' else b') := by
  split
  · exact h
  · exact h'

end M.Le

theorem result_le {α : Type} {a b : Res α} (h : a.Le b) (k : α → Option Value) : M.Le (result a k) (result b k) := by
  rcases h with rfl | rfl
  · exact fun _ => .inl rfl
  · exact .refl _

theorem withBuilder_le {f g : Builder → Res (Value × Builder)} (h : ∀ b, (f b).Le (g b)) : M.Le (withBuilder f) (withBuilder g) := by
  intro s
  unfold withBuilder
  rcases h s.fbb with h | h
  · rw [h]; exact .inl rfl
  · rw [h]; exact .inr rfl

open Builder

theorem runtimeMethod_le (v : Value) (f : Str) (args : List Value) : M.Le (runtimeMethod .debug v f args) (runtimeMethod .release v f args) := by
  unfold runtimeMethod
  split <;> first
    | exact .refl _
    | exact .ite (withBuilder_le fun b => .bind' (startTable_le _) fun _ => .refl _) (.refl _)
    | exact .ite (withBuilder_le fun b => .bind' (endTable_le _ _) fun _ => .refl _) (.refl _)
    | exact .ite (withBuilder_le fun b => .bind' (required_le _ _ _) fun _ => .refl _) (.refl _)

theorem runtimeMethodAt_le (P : Program) (sc : Scope) (v : Value) (f : Str) (t : Ty) (args : List Value) :
    M.Le (runtimeMethodAt .debug P sc v f t args) (runtimeMethodAt .release P sc v f t args) := by
  unfold runtimeMethodAt
  split <;> first
    | exact .refl _
    | exact .ite (.bind (.refl _) fun _ => .bind (.refl _) fun _ => result_le (tableGet_le _ _ _ _) _) (.refl _)
    | exact .ite (.bind (.refl _) fun _ => .bind (.refl _) fun _ => withBuilder_le fun b => .bind' (pushSlotAlways_le _ _ _) fun _ => .refl _) (.refl _)
    | exact .ite (.bind (.refl _) fun _ => .bind (.refl _) fun _ => .bind (.refl _) fun _ =>
        withBuilder_le fun b => .bind' (pushSlot_le _ _ _ _) fun _ => .refl _) (.refl _)

theorem runtimeCall_le (d : Def) (f : Str) (args : List Value) : M.Le (runtimeCall .debug d f args) (runtimeCall .release d f args) := by
  unfold runtimeCall
  split <;> first
    | exact .refl _
    | exact .ite (result_le (follow_le _ _ _) _) (.refl _)

theorem runtimeFn_le (f : Str) (t : STy) (args : List Value) : M.Le (runtimeFn .debug f t args) (runtimeFn .release f t args) := by
  unfold runtimeFn
  split <;> first
    | exact .refl _
    | exact .ite (result_le (readScalarAt_le _ _ _) _) (.refl _)

theorem evalList_le {α : Type} {f g : α → M Value} (h : ∀ x, M.Le (f x) (g x)) : ∀ l : List α, M.Le (evalList f l) (evalList g l)
  | [] => .refl _
  | x :: l => .bind (h x) fun _ => .bind (evalList_le h l) fun _ => .refl _

theorem evalBlock_le {f g : Vars → Expr → M Value} (h : ∀ v e, M.Le (f v e) (g v e)) : ∀ (vars : Vars) (ss : List Stmt) (e : Expr),
    M.Le (evalBlock f vars ss e) (evalBlock g vars ss e)
  | _, [], _ => h _ _
  | _, .let _ _ :: ss, _ => .bind (h _ _) fun _ => evalBlock_le h _ ss _
  | _, .expr _ :: ss, _ => .bind (h _ _) fun _ => evalBlock_le h _ ss _
  | _, .ifSome _ _ _ :: ss, _ => by
    refine .bind (h _ _) fun v => ?_
    cases v <;> first
      | exact .refl _
      | exact evalBlock_le h _ ss _
      | exact .bind (h _ _) fun _ => evalBlock_le h _ ss _

theorem endCall_le {x y : M Value} (h : M.Le x y) : M.Le (endCall x) (endCall y) := by
  intro s
  unfold endCall
  rcases h s with h | h
  · rw [h]; exact .inl rfl
  · rw [h]; exact .inr rfl

theorem eval_le (P : Program) (n : Nat) : ∀ (sc : Scope) (vars : Vars) (e : Expr),
    M.Le (eval .debug P n sc vars e) (eval .release P n sc vars e) := by
  induction n with
  | zero => intro sc vars e; exact .refl _
  | succ n ih =>
    intro sc vars e
    have inv : ∀ (sc : Scope) (f : Fn) (args : List Value), M.Le
        (do
          let vars ← need (bindParams f.params args)
          endCall (evalBlock (eval .debug P n sc) vars f.body f.value))
        (do
          let vars ← need (bindParams f.params args)
          endCall (evalBlock (eval .release P n sc) vars f.body f.value)) := fun sc f args =>
      .bind (.refl _) fun _ => endCall_le (evalBlock_le (fun v e => ih sc v e) _ _ _)
    have evs : ∀ es : List Expr, M.Le (evalList (eval .debug P n sc vars) es) (evalList (eval .release P n sc vars) es) :=
      fun es => evalList_le (fun e => ih sc vars e) es
    cases e with
    | var x => exact .refl _
    | lit l => exact .refl _
    | ok e => exact .bind (ih _ _ _) fun _ => .refl _
    | err e => exact .bind (ih _ _ _) fun _ => .refl _
    | some e => exact .bind (ih _ _ _) fun _ => .refl _
    | none => exact .refl _
    | unit => exact .refl _
    | assoc t c => exact .refl _
    | ctor t c e => exact .bind (.refl _) fun _ => .bind (ih _ _ _) fun _ => .refl _
    | call t f es =>
      unfold eval
      refine .bind (.refl _) fun d => .bind (evs es) fun vs => ?_
      split
      · exact .bind (.refl _) fun _ => inv _ _ _
      · split
        · exact .bind (.refl _) fun _ => .ite (inv _ _ _) (.refl _)
        · exact runtimeCall_le _ _ _
      · exact runtimeCall_le _ _ _
    | fn p t es =>
      unfold eval
      refine .bind (.refl _) fun d => .bind (.refl _) fun td => .bind (evs es) fun vs => ?_
      split
      · exact runtimeFn_le _ _ _
      · exact .refl _
    | method e f es =>
      unfold eval
      refine .bind (ih _ _ _) fun v => .bind (evs es) fun vs => ?_
      split
      · exact .bind (.refl _) fun _ => inv _ _ _
      · exact runtimeMethod_le _ _ _
    | methodAt e f t es => exact .bind (ih _ _ _) fun v => .bind (evs es) fun vs => runtimeMethodAt_le _ _ _ _ _ _
    | mapCtor e t c => exact .bind (ih _ _ _) fun _ => .refl _
    | field e f => exact .bind (ih _ _ _) fun _ => .refl _
    | deref e => exact ih _ _ _
    | «try» e => exact .bind (ih _ _ _) fun _ => .refl _
    | ret e => exact .bind (ih _ _ _) fun _ => .refl _
    | «match» e arms => exact .bind (ih _ _ _) fun _ => .bind (.refl _) fun _ => ih _ _ _
    | struct t fs =>
      unfold eval
      refine .bind (.refl _) fun d => ?_
      split
      · split
        · exact .ite (.bind (evalList_le (fun _ => ih _ _ _) _) fun _ => .refl _) (.refl _)
        · exact .refl _
      · exact .refl _

theorem callFn_le (P : Program) (n : Nat) (m : List Str) (k f : Str) (args : List Value) :
    M.Le (callFn .debug P n m k f args) (callFn .release P n m k f args) :=
  .bind (.refl _) fun _ => .bind (.refl _) fun _ => endCall_le (evalBlock_le (fun v e => eval_le P n _ v e) _ _ _)

/-! ### Emitting -/

theorem emitTable_le (t : Ir.Table) : OLe (emitTable .debug t) (emitTable .release t) :=
  .bind (.refl _) fun _ => .bind (.refl _) fun _ => .bind (.refl _) fun _ => .bind (.refl _) fun _ => .bind (.refl _) fun _ =>
    .bind (.mapM (fun _ => .bind (Gen.slotOf_le _) fun _ => .refl _) _) fun _ => .refl _

mutual
theorem emitNode_le (path : List Str) : ∀ n : Ir.Node, OLe (emitNode .debug path n) (emitNode .release path n)
  | .table t => by unfold emitNode; exact .bind (emitTable_le t) fun _ => .refl _
  | .struct _ => .refl _
  | .enum _ => .refl _
  | .union _ => .refl _
  | .rpc _ => .refl _
  | .namespace _ ns => by unfold emitNode; exact .bind (.refl _) fun _ => .bind (emitNodes_le _ ns) fun _ => .refl _
theorem emitNodes_le (path : List Str) : ∀ ns : List Ir.Node, OLe (emitNodes .debug path ns) (emitNodes .release path ns)
  | [] => .refl _
  | n :: ns => by unfold emitNodes; exact .bind (emitNode_le _ n) fun _ => .bind (emitNodes_le _ ns) fun _ => .refl _
end

end Butte.Rs
