import Verif.Rt.Cut
import Verif.Gen.Tree
/-
Generated accessors on bytes that have been cut off. Nothing here models code.
-/
namespace Butte.Gen

/-- What an accessor returned, in a longer buffer. -/
def Kind.grow (more : Bytes) : (k : Kind) → k.Inner → k.Inner
  | .scalar _ _, x => x
  | .enum _ _ _, x => x
  | .ref f, x => f.grow more x
  | .union vs, ⟨i, x⟩ => ⟨i, (vs.get i).grow more x⟩

theorem okOr_cut {α : Type} (g : α → α) (name : Str) (req : Bool) (o : Option α) :
    Cut (fun a b => b = a.map g) (okOr name req o) (okOr name req (o.map g)) := by
  cases o with
  | some a => exact .ok rfl
  | none =>
    cases req with
    | true => exact .err _
    | false => exact .ok rfl

theorem option_map_id {α : Type} {g : α → α} (h : ∀ x, g x = x) (o : Option α) : o.map g = o := by
  cases o with
  | none => rfl
  | some x => exact congrArg some (h x)

theorem Cut.weaken {α β : Type} {R Q : α → β → Prop} {r : Res α} {r' : Res β} (h : Cut R r r') (hw : ∀ a b, R a b → Q a b) :
    Cut Q r r' := by
  cases h with
  | short r => exact .short _
  | ok h => exact .ok (hw _ _ h)
  | err e => exact .err e
  | panic => exact .panic

theorem get_cut_plain (m : Mode) (more : Bytes) (t : Table) (f : FTy) (hf : ∀ x, f.grow more x = x) (slot : Nat) (d : Option f.Inner) :
    Cut (fun a b => b = a) (t.get m f slot d) ((t.grow more).get m f slot d) := by
  have := Table.get_cut m more t f slot d
  have hid : ∀ o : Option f.Inner, o.map (f.grow more) = o := fun o => by
    cases o with
    | none => rfl
    | some x => exact congrArg some (hf x)
  simp only [hid] at this
  exact this

theorem tagOf_cut (m : Mode) (more : Bytes) (t : Table) (fs : List GField) (name : Str) :
    Cut Eq (tagOf m t fs name) (tagOf m (t.grow more) fs name) := by
  unfold tagOf
  split
  · rename_i n slot ty vals d req _
    refine .bind (R := fun a b => b = a) ?_ fun a b h => by rw [h]; exact .refl _
    exact get_cut_plain m more t (enumFTy ty vals) (fun _ => rfl) slot _
  · exact .refl _

theorem fetch_cut (m : Mode) (more : Bytes) (t : Table) (slot : Nat) (tag tag' : Res (Option Nat)) (ht : Cut Eq tag tag') (k : Kind) :
    Cut (fun a b => b = a.map (k.grow more)) (k.fetch m t slot tag) (k.fetch m (t.grow more) slot tag') := by
  cases k with
  | scalar ty d =>
    refine Cut.weaken (get_cut_plain m more t (.scalar ty) (fun _ => rfl) slot d) fun a b h => ?_
    rw [h]
    exact (option_map_id (α := SVal ty) (fun _ => rfl) a).symm
  | enum ty vals d =>
    refine Cut.weaken (get_cut_plain m more t (enumFTy ty vals) (fun _ => rfl) slot (d.map (·.val))) fun a b h => ?_
    rw [h]
    exact (option_map_id (α := Nat) (fun _ => rfl) a).symm
  | ref f => exact Table.get_cut m more t (.fwdU f) slot none
  | union vs =>
    refine .bindSame ht fun tg => ?_
    match tg with
    | none => exact .ok rfl
    | some 0 => exact .ok rfl
    | some (i + 1) =>
      dsimp only
      split
      · rename_i h
        refine .bind (Table.get_cut m more t (vs.get ⟨i, h⟩) slot none) fun a b hb => ?_
        subst hb
        cases a <;> exact .ok rfl
      · exact .panic

theorem accessor_cut (m : Mode) (more : Bytes) (t : Table) (fs : List GField) (f : GField) :
    Cut (fun a b => b = a.map (f.kind.grow more)) (accessor m t fs f) (accessor m (t.grow more) fs f) :=
  .bind (fetch_cut m more t f.slot _ _ (tagOf_cut m more t fs f.name) f.kind) fun a b h => by
    subst h
    exact okOr_cut _ _ _ _

theorem mapAll_cut {α β : Type} {f g : α → Res β} (h : ∀ a, Cut Eq (f a) (g a)) : ∀ l : List α, Cut Eq (mapAll f l) (mapAll g l)
  | [] => .ok rfl
  | a :: l => .bindSame (h a) fun _ => .bindSame (mapAll_cut h l) fun _ => .ok rfl

theorem readKind_cut {more : Bytes} {rd : Ir.Ty → (f : FTy) → f.Inner → Res Val}
    (h : ∀ ty f x, Cut Eq (rd ty f x) (rd ty f (f.grow more x))) (ty : Ir.Ty) (k : Kind) (y : k.Inner) :
    Cut Eq (readKind rd ty k y) (readKind rd ty k (k.grow more y)) := by
  cases k with
  | scalar t d => exact .ok rfl
  | enum t vals d => exact .ok rfl
  | ref F => exact h ty (.fwdU F) y
  | union vs =>
    obtain ⟨j, y⟩ := y
    unfold readKind
    dsimp only [Kind.grow]
    split
    · split
      · exact .bindSame (h _ (vs.get j) y) fun _ => .ok rfl
      · exact .panic
    · exact .panic

theorem readVal_cut (gm m : Mode) (S : Tables) (more : Bytes) : ∀ (n : Nat) (ty : Ir.Ty) (f : FTy) (x : f.Inner),
    Cut Eq (readVal gm m S n ty f x) (readVal gm m S n ty f (f.grow more x))
  | 0, ty, f, x => by unfold readVal; exact .panic
  | n + 1, ty, f, x => by
    cases ty with
    | builtin b => cases f <;> (simp only [readVal]; first | exact .panic | exact .ok rfl)
    | enum id vs b => cases f <;> (simp only [readVal]; first | exact .panic | exact .ok rfl)
    | struct id fs => cases f <;> (simp only [readVal]; exact .panic)
    | union id e vs => cases f <;> (simp only [readVal]; exact .panic)
    | string =>
      cases f with
      | fwdU f => cases f <;> (simp only [readVal]; first | exact .panic | exact .ok rfl)
      | _ => simp only [readVal]; exact .panic
    | array t =>
      cases f with
      | fwdU f =>
        cases f with
        | vector e =>
          simp only [readVal]
          refine .bindSame (Vec.len_cut m more (e := e) x) fun len => ?_
          refine .bindSame (mapAll_cut (fun i => ?_) _) fun _ => .ok rfl
          exact .bind (Vec.get_cut m more (e := e) x i) fun a b h => by subst h; exact readVal_cut gm m S more n t e a
        | _ => simp only [readVal]; exact .panic
      | _ => simp only [readVal]; exact .panic
    | table q =>
      cases f with
      | fwdU f =>
        cases f with
        | table =>
          simp only [readVal]
          cases S q with
          | none => exact .panic
          | some t =>
            dsimp only
            cases compileTable gm t with
            | none => exact .panic
            | some gs =>
              refine .bindSame (mapAll_cut (fun i => ?_) _) fun _ => .ok rfl
              cases t.fields[i.val]? with
              | none => exact .panic
              | some fd =>
                refine .bind (accessor_cut m more x gs (gs.get i)) fun a b h => ?_
                subst h
                cases a with
                | none => exact .ok rfl
                | some y =>
                  exact .bindSame (readKind_cut (fun ty f x => readVal_cut gm m S more n ty f x) fd.ty _ y) fun _ => .ok rfl
        | _ => simp only [readVal]; exact .panic
      | _ => simp only [readVal]; exact .panic

end Butte.Gen
