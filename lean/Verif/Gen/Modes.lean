import Verif.Rt.Modes
import Verif.Gen.Write
/-
Debug and release builds: the generator and the code it generates.
-/
namespace Butte

/-- The first option is nothing or the second one. -/
def OLe {α : Type} (a b : Option α) : Prop := a = none ∨ a = b

namespace OLe

variable {α β : Type}

theorem refl (a : Option α) : OLe a a := .inr rfl

theorem some {a b : Option α} {x : α} (h : OLe a b) (hx : a = some x) : b = some x := by
  rcases h with h | h
  · rw [h] at hx; cases hx
  · rw [← h, hx]

theorem bind {a b : Option α} {f g : α → Option β} (h : OLe a b) (hf : ∀ x, OLe (f x) (g x)) : OLe (a >>= f) (b >>= g) := by
  rcases h with rfl | rfl
  · exact .inl rfl
  · cases a with
    | none => exact .inl rfl
    | some x => exact hf x

theorem mapM {f g : α → Option β} (hf : ∀ x, OLe (f x) (g x)) : ∀ l : List α, OLe (l.mapM f) (l.mapM g)
  | [] => .refl _
  | x :: l => by
    rw [List.mapM_cons, List.mapM_cons]
    exact bind (hf x) fun _ => bind (mapM hf l) fun _ => refl _

end OLe

namespace Gen

open Res (Le)
open Builder

theorem slotOf_le (i : Nat) : OLe (slotOf .debug i) (slotOf .release i) := by
  unfold slotOf
  rcases fieldIndexToFieldOffset_le (i % 65536) with h | h
  · rw [h]; exact .inl rfl
  · rw [h]; exact .refl _

theorem compileFields_le : ∀ (i : Nat) (fs : List Ir.Field), OLe (compileFields .debug i fs) (compileFields .release i fs)
  | _, [] => .refl _
  | i, _ :: fs => .bind (.refl _) fun _ => .bind (slotOf_le i) fun _ => .bind (compileFields_le (i + 1) fs) fun _ => .refl _

theorem compileTable_le (t : Ir.Table) : OLe (compileTable .debug t) (compileTable .release t) := by
  unfold compileTable
  split
  · exact compileFields_le _ _
  · exact .refl _

theorem addField_le (b : Builder) (s : Nat) : ∀ (k : Kind) (r : Bool) (a : k.Arg r), (addField .debug b s k r a).Le (addField .release b s k r a)
  | .scalar _ none, _, _ => pushSlotAlways_le _ _ _
  | .scalar _ (some _), _, _ => pushSlot_le _ _ _ _
  | .enum _ _ none, _, _ => pushSlotAlways_le _ _ _
  | .enum _ _ (some _), _, _ => pushSlot_le _ _ _ _
  | .ref _, true, _ => pushSlotAlways_le _ _ _
  | .union _, true, _ => pushSlotAlways_le _ _ _
  | .ref _, false, some _ => pushSlotAlways_le _ _ _
  | .union _, false, some _ => pushSlotAlways_le _ _ _
  | .ref _, false, none => .refl _
  | .union _, false, none => .refl _

theorem addFields_le : ∀ (b : Builder) (fs : List GField) (as : Args fs), (addFields .debug b fs as).Le (addFields .release b fs as)
  | _, [], _ => .refl _
  | _, _ :: fs, (_, as) => .bind' (addField_le _ _ _ _ _) fun _ => addFields_le _ fs as

theorem checkRequired_le (b : Builder) (o : Nat) : ∀ fs, (checkRequired .debug b o fs).Le (checkRequired .release b o fs)
  | [] => .refl _
  | _ :: fs => .ite (.bind' (required_le _ _ _) fun _ => checkRequired_le b o fs) (checkRequired_le b o fs)

theorem create_le (b : Builder) (fs : List GField) (as : Args fs) : (create .debug b fs as).Le (create .release b fs as) :=
  .bind' (startTable_le _) fun _ => .bind' (addFields_le _ _ _) fun _ => .bind' (endTable_le _ _) fun _ =>
    .bind' (checkRequired_le _ _ _) fun _ => .refl _

theorem fetch_le (t : Table) (s : Nat) {a b : Res (Option Nat)} (h : a.Le b) : ∀ k : Kind, (k.fetch .debug t s a).Le (k.fetch .release t s b)
  | .scalar _ _ => tableGet_le _ _ _ _
  | .enum _ _ _ => tableGet_le _ _ _ _
  | .ref _ => tableGet_le _ _ _ _
  | .union vs => by
    refine .bind' h fun x => ?_
    match x with
    | none => exact .refl _
    | some 0 => exact .refl _
    | some (i + 1) => exact .dite (fun _ => .bind' (tableGet_le _ _ _ _) fun _ => .refl _) fun _ => .refl _

theorem tagOf_le (t : Table) (fs : List GField) (n : Str) : (tagOf .debug t fs n).Le (tagOf .release t fs n) := by
  unfold tagOf
  split
  · exact .bind' (tableGet_le _ _ _ _) fun _ => .refl _
  · exact .refl _

theorem accessor_le (t : Table) (fs : List GField) (f : GField) : (accessor .debug t fs f).Le (accessor .release t fs f) :=
  .bind' (fetch_le _ _ (tagOf_le _ _ _) _) fun _ => .refl _

theorem mapAll_le {α β : Type} {f g : α → Res β} (h : ∀ x, (f x).Le (g x)) : ∀ l, (mapAll f l).Le (mapAll g l)
  | [] => .refl _
  | x :: l => .bind' (h x) fun _ => .bind' (mapAll_le h l) fun _ => .refl _

theorem readKind_le {rd rd' : Ir.Ty → (f : FTy) → f.Inner → Res Val} (h : ∀ t f x, (rd t f x).Le (rd' t f x)) (ty : Ir.Ty) :
    ∀ (k : Kind) (x : k.Inner), (readKind rd ty k x).Le (readKind rd' ty k x)
  | .scalar _ _, _ => .refl _
  | .enum _ _ _, _ => .refl _
  | .ref _, _ => h _ _ _
  | .union vs, ⟨i, x⟩ => by
    unfold readKind
    split
    · exact .refl _
    · exact .refl _
    · exact h _ _ _
    · split
      · split
        · exact .bind' (h _ _ _) fun _ => .refl _
        · exact .refl _
      · exact .refl _

theorem readField_le {rd rd' : Ir.Ty → (f : FTy) → f.Inner → Res Val} (h : ∀ t f x, (rd t f x).Le (rd' t f x)) (ty : Ir.Ty) (k : Kind)
    {a b : Res (Option k.Inner)} (ha : a.Le b) : (readField rd ty k a).Le (readField rd' ty k b) := by
  refine .bind' ha fun x => ?_
  cases x with
  | none => exact .refl _
  | some y => exact .bind' (readKind_le h ty k y) fun _ => .refl _

theorem readVal_le (gm : Mode) (S : Tables) : ∀ (n : Nat) (ty : Ir.Ty) (f : FTy) (x : f.Inner),
    (readVal gm .debug S n ty f x).Le (readVal gm .release S n ty f x) := by
  intro n
  induction n with
  | zero => intro ty f x; exact .inl (by unfold readVal; rfl)
  | succ n ih =>
    intro ty f x
    unfold readVal
    split
    · exact .refl _
    · exact .refl _
    · exact .refl _
    · exact .refl _
    · rename_i hk
      cases hk
      refine .bind (readNatAt_le _ _ _) fun len hlen => .bind' (mapAll_le (fun i => ?_) _) fun _ => .refl _
      exact .bind' (vecGet_le _ _ hlen) fun _ => ih _ _ _
    · rename_i hk
      cases hk
      split
      · exact .refl _
      · split
        · exact .refl _
        · refine .bind' (mapAll_le (fun i => ?_) _) fun _ => .refl _
          split
          · exact readField_le (fun t f x => ih t f x) _ _ (accessor_le _ _ _)
          · exact .refl _
    · exact .refl _

theorem offsetOf_le {a b : Res (Option Nat × Builder)} (h : a.Le b) : (offsetOf a).Le (offsetOf b) := by
  rcases h with rfl | rfl
  · exact .inl rfl
  · exact .refl _

section

variable {wr wr' : Builder → Ir.Ty → Val → Res (Nat × Builder)} (h : ∀ b t v, (wr b t v).Le (wr' b t v))
include h

theorem offset_le {α : Type} (b : Builder) (ty : Ir.Ty) (v : Val) (f : Fin (2 ^ 32) → α) :
    (writeField.offset wr b ty v f).Le (writeField.offset wr' b ty v f) := by
  unfold writeField.offset
  split
  · exact .bind' (h _ _ _) fun _ => .refl _
  · exact .refl _

theorem writeField_le (b : Builder) (ty : Ir.Ty) (k : Kind) (r : Bool) (x : Option Val) :
    (writeField wr b ty k r x).Le (writeField wr' b ty k r x) := by
  unfold writeField
  split <;> first | exact .refl _ | exact offset_le h _ _ _ _

theorem writeFields_le : ∀ (b : Builder) (fs : List Ir.Field) (gs : List GField) (xs : List (Option Val)),
    (writeFields wr b fs gs xs).Le (writeFields wr' b fs gs xs)
  | b, fs, [], xs => by unfold writeFields; exact .refl _
  | b, [], g :: gs, xs => by unfold writeFields; exact .refl _
  | b, f :: fs, g :: gs, [] => by unfold writeFields; exact .refl _
  | b, f :: fs, g :: gs, x :: xs => by
    unfold writeFields
    exact .bind' (writeField_le h _ _ _ _ _) fun _ => .bind' (writeFields_le _ fs gs xs) fun _ => .refl _

end

theorem writeAll_le {wr wr' : Builder → Val → Res (Nat × Builder)} (h : ∀ b v, (wr b v).Le (wr' b v)) :
    ∀ (b : Builder) (xs : List Val), (writeAll wr b xs).Le (writeAll wr' b xs)
  | _, [] => .refl _
  | _, _ :: xs => .bind' (h _ _) fun _ => .dite (fun _ => .bind' (writeAll_le h _ xs) fun _ => .refl _) fun _ => .refl _

theorem writeVal_le (gm : Mode) (S : Tables) (n : Nat) : ∀ (b : Builder) (ty : Ir.Ty) (v : Val),
    (writeVal gm .debug S n b ty v).Le (writeVal gm .release S n b ty v) := by
  induction n with
  | zero => intro b ty v; exact .inl (by unfold writeVal; rfl)
  | succ n ih =>
    intro b ty v
    unfold writeVal
    split
    · exact offsetOf_le (step_le _ _)
    · split
      · exact offsetOf_le (step_le _ _)
      · exact .refl _
    · split
      · split
        · exact offsetOf_le (step_le _ _)
        · exact .refl _
      · exact .refl _
    · rename_i hk
      cases hk
      exact .bind' (writeAll_le (fun b v => ih b _ v) _ _) fun _ => offsetOf_le (step_le _ _)
    · rename_i hk
      cases hk
      split
      · exact .refl _
      · split
        · exact .refl _
        · exact .bind' (writeFields_le (fun b t v => ih b t v) _ _ _ _) fun _ => create_le _ _ _
    · exact .refl _

end Gen

end Butte
