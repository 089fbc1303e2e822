import Verif.Rt.Spec
import Verif.Rt.History
import Verif.Gen.Run
/-
Generated code in terms of builder calls: the calls `create` makes and the fields they store.
-/
namespace Butte.Gen

/-- The builder calls of one `add_` method. -/
def fieldOps (s : Fin 65536) : (k : Kind) → (req : Bool) → k.Arg req → List Op
  | .scalar t none, _, a => [.pushSlotAlways s (.sc t) a]
  | .scalar t (some d), _, a => [.pushSlot s (.sc t) a d]
  | .enum t vals none, _, a => [.pushSlotAlways s (.sc t) (vals.get a)]
  | .enum t vals (some d), _, a => [.pushSlot s (.sc t) (vals.get a) (vals.get d)]
  | .ref _, true, a | .union _, true, a => [.pushSlotAlways s .off a]
  | .ref _, false, some a | .union _, false, some a => [.pushSlotAlways s .off a]
  | .ref _, false, none | .union _, false, none => []

/-- The field that an `add_` method stores. -/
def storedFld (s : Fin 65536) : (k : Kind) → (req : Bool) → k.Arg req → Option Fld
  | .scalar t none, _, a => some ⟨s, .sc t, a⟩
  | .scalar t (some d), _, a => if PVal.eqv (p := .sc t) a d then none else some ⟨s, .sc t, a⟩
  | .enum t vals none, _, a => some ⟨s, .sc t, vals.get a⟩
  | .enum t vals (some d), _, a =>
    if PVal.eqv (p := .sc t) (vals.get a) (vals.get d) then none else some ⟨s, .sc t, vals.get a⟩
  | .ref _, true, a | .union _, true, a => some ⟨s, .off, a⟩
  | .ref _, false, some a | .union _, false, some a => some ⟨s, .off, a⟩
  | .ref _, false, none | .union _, false, none => none

/-- The calls of `create` between `start_table` and `end_table`. -/
def bodyOps : (fs : List GField) → Args fs → List Op
  | [], _ => []
  | f :: fs, (a, as) => fieldOps f.slot f.kind f.required a ++ bodyOps fs as

/-- Case analysis on a field and its argument. -/
theorem field_cases {P : (k : Kind) → (req : Bool) → k.Arg req → Prop}
    (h1 : ∀ t req (a : SVal t), P (.scalar t none) req a)
    (h2 : ∀ t d req (a : SVal t), P (.scalar t (some d)) req a)
    (h3 : ∀ t (vals : List (SVal t)) req (a : Fin vals.length), P (.enum t vals none) req a)
    (h4 : ∀ t (vals : List (SVal t)) d req (a : Fin vals.length), P (.enum t vals (some d)) req a)
    (h5 : ∀ f (a : Fin (2 ^ 32)), P (.ref f) true a) (h6 : ∀ f (a : Fin (2 ^ 32)), P (.ref f) false (some a))
    (h7 : ∀ f, P (.ref f) false none)
    (h8 : ∀ f (a : Fin (2 ^ 32)), P (.union f) true a) (h9 : ∀ f (a : Fin (2 ^ 32)), P (.union f) false (some a))
    (h10 : ∀ f, P (.union f) false none) (k : Kind) (req : Bool) (a : k.Arg req) : P k req a := by
  cases k with
  | scalar t d => cases d with
    | none => exact h1 t req a
    | some d => exact h2 t d req a
  | enum t vals d => cases d with
    | none => exact h3 t vals req a
    | some d => exact h4 t vals d req a
  | ref f => cases req with
    | true => exact h5 f a
    | false => cases a with
      | none => exact h7 f
      | some a => exact h6 f a
  | union f => cases req with
    | true => exact h8 f a
    | false => cases a with
      | none => exact h10 f
      | some a => exact h9 f a

theorem fieldOps_stored (s : Fin 65536) (k : Kind) (req : Bool) (a : k.Arg req) :
    (fieldOps s k req a).filterMap Op.stored = (storedFld s k req a).toList := by
  revert a req k
  refine field_cases ?_ ?_ ?_ ?_ ?_ ?_ ?_ ?_ ?_ ?_
  case refine_2 =>
    intro t d req a
    simp only [fieldOps, storedFld, List.filterMap_cons, List.filterMap_nil, Op.stored]
    split <;> simp_all
  case refine_4 =>
    intro t vals d req a
    simp only [fieldOps, storedFld, List.filterMap_cons, List.filterMap_nil, Op.stored]
    split <;> simp_all
  all_goals intros; rfl

theorem storedFld_slot {s : Fin 65536} {k : Kind} {req : Bool} {a : k.Arg req} {f : Fld}
    (h : storedFld s k req a = some f) : f.slot = s.val := by
  unfold storedFld at h
  split at h
  all_goals first
    | (cases h; done)
    | (injection h with h; subst h; rfl)
    | (split at h
       · cases h
       · injection h with h; subst h; rfl)

theorem fieldOps_inBody (s : Fin 65536) (k : Kind) (req : Bool) (a : k.Arg req) :
    ∀ op ∈ fieldOps s k req a, op.inBody = true := by
  unfold fieldOps
  split <;> simp [Op.inBody]

theorem bodyOps_inBody : ∀ (fs : List GField) (args : Args fs), ∀ op ∈ bodyOps fs args, op.inBody = true
  | [], _ => by simp [bodyOps]
  | f :: fs, (a, as) => by
    intro op hop
    rcases List.mem_append.mp hop with hop | hop
    · exact fieldOps_inBody _ _ _ _ op hop
    · exact bodyOps_inBody fs as op hop

theorem bodyOps_slots : ∀ (fs : List GField) (args : Args fs),
    (((bodyOps fs args).filterMap Op.stored).map Fld.slot).Sublist (fs.map (·.slot.val))
  | [], _ => by simp [bodyOps]
  | f :: fs, (a, as) => by
    have ih := bodyOps_slots fs as
    simp only [bodyOps, List.filterMap_append, fieldOps_stored, List.map_append, List.map_cons]
    cases h : storedFld f.slot f.kind f.required a with
    | none => exact ih.cons _
    | some x => simpa [storedFld_slot h] using ih

/-- What a field stores is stored. -/
theorem stored_mem : ∀ (fs : List GField) (args : Args fs) (i : Fin fs.length) (x : Fld),
    storedFld (fs.get i).slot (fs.get i).kind (fs.get i).required (args.get fs i) = some x →
    x ∈ (bodyOps fs args).filterMap Op.stored
  | f :: fs, (a, as), ⟨0, _⟩, x, h => by
    simp only [bodyOps, List.filterMap_append, fieldOps_stored]
    have h : storedFld f.slot f.kind f.required a = some x := h
    simp [h]
  | f :: fs, (a, as), ⟨i + 1, hi⟩, x, h => by
    simp only [bodyOps, List.filterMap_append]
    exact List.mem_append_right _ (stored_mem fs as ⟨i, Nat.lt_of_succ_lt_succ hi⟩ x h)

/-- What is stored is stored by some field. -/
theorem mem_stored : ∀ (fs : List GField) (args : Args fs) (x : Fld), x ∈ (bodyOps fs args).filterMap Op.stored →
    ∃ i : Fin fs.length, storedFld (fs.get i).slot (fs.get i).kind (fs.get i).required (args.get fs i) = some x
  | [], _, x, h => by simp [bodyOps] at h
  | f :: fs, (a, as), x, h => by
    simp only [bodyOps, List.filterMap_append, fieldOps_stored, List.mem_append, Option.mem_toList] at h
    rcases h with h | h
    · exact ⟨⟨0, by simp⟩, h⟩
    · obtain ⟨i, hi⟩ := mem_stored fs as x h
      exact ⟨⟨i.val + 1, by simp⟩, hi⟩

/-- The generated slots are usable and all different. -/
def GoodSlots (fs : List GField) : Prop := (fs.map (·.slot.val)).Nodup ∧ ∀ f ∈ fs, SlotOk f.slot.val

theorem GoodSlots.inj {fs : List GField} (h : GoodSlots fs) {i j : Fin fs.length}
    (e : (fs.get i).slot.val = (fs.get j).slot.val) : i = j := by
  have := (List.getElem_inj (i := i.val) (j := j.val) (h₀ := by simp) (h₁ := by simp) h.1).mp
    (by simpa using e)
  exact Fin.ext this

theorem not_stored {fs : List GField} (h : GoodSlots fs) (args : Args fs) (i : Fin fs.length)
    (hn : storedFld (fs.get i).slot (fs.get i).kind (fs.get i).required (args.get fs i) = none) :
    ∀ x ∈ (bodyOps fs args).filterMap Op.stored, x.slot ≠ (fs.get i).slot.val := by
  intro x hx e
  obtain ⟨j, hj⟩ := mem_stored fs args x hx
  have := h.inj ((storedFld_slot hj).symm.trans e)
  subst this
  rw [hn] at hj; cases hj

/-! ### `create` as builder calls -/

theorem noRet_ok {x : Res Builder} {r : Option Nat} {b : Builder} : noRet x = .ok (r, b) ↔ r = none ∧ x = .ok b := by
  cases x <;> simp [noRet, eq_comm]

theorem addField_run {m : Mode} {b b' : Builder} {s : Fin 65536} (k : Kind) (req : Bool) (a : k.Arg req) :
    addField m b s k req a = .ok b' ↔ ∃ rets, run m b (fieldOps s k req a) = .ok (rets, b') := by
  have key : ∀ op x, step m b op = noRet x → (x = .ok b' ↔ ∃ rets, run m b [op] = .ok (rets, b')) := by
    intro op x e
    constructor
    · intro h
      exact ⟨[none], run_singleton.mpr ⟨none, by rw [e, h]; rfl, rfl⟩⟩
    · rintro ⟨rets, h⟩
      obtain ⟨r, h, _⟩ := run_singleton.mp h
      rw [e] at h
      exact (noRet_ok.mp h).2
  have nil : (Res.ok b = .ok b' ↔ ∃ rets, run m b [] = .ok (rets, b')) := by
    simp [run]
  revert a req k
  refine field_cases ?_ ?_ ?_ ?_ ?_ ?_ ?_ ?_ ?_ ?_
  case refine_7 | refine_10 => intros; exact nil
  all_goals intros; exact key _ _ rfl

theorem addFields_run {m : Mode} {b' : Builder} : ∀ {fs : List GField} {args : Args fs} {b : Builder},
    addFields m b fs args = .ok b' ↔ ∃ rets, run m b (bodyOps fs args) = .ok (rets, b')
  | [], _, b => by simp [addFields, bodyOps, run]
  | f :: fs, (a, as), b => by
    simp only [addFields, bodyOps]
    rw [Res.bind_eq_ok]
    constructor
    · rintro ⟨b1, h1, h2⟩
      obtain ⟨r1, h1⟩ := (addField_run _ _ _).mp h1
      obtain ⟨r2, h2⟩ := addFields_run.mp h2
      exact ⟨_, run_append.mpr ⟨_, _, _, h1, h2, rfl⟩⟩
    · rintro ⟨rets, h⟩
      obtain ⟨r1, b1, r2, h1, h2, _⟩ := run_append.mp h
      exact ⟨b1, (addField_run _ _ _).mpr ⟨_, h1⟩, addFields_run.mpr ⟨_, h2⟩⟩

theorem withRet_ok {x : Res (Nat × Builder)} {r : Option Nat} {b : Builder} :
    withRet x = .ok (r, b) ↔ ∃ o, r = some o ∧ x = .ok (o, b) := by
  cases x with
  | ok a =>
    obtain ⟨o, b1⟩ := a
    simp only [withRet, Res.ok_bind, Res.pure_eq, Res.ok.injEq, Prod.mk.injEq]
    constructor
    · rintro ⟨rfl, rfl⟩; exact ⟨o, rfl, rfl, rfl⟩
    · rintro ⟨_, rfl, rfl, rfl⟩; exact ⟨rfl, rfl⟩
  | err e => simp [withRet]
  | panic => simp [withRet]

theorem startTable_lt {m : Mode} {b b' : Builder} {o : Nat} (h : b.startTable m = .ok (o, b')) : o < 2 ^ 32 := by
  unfold Builder.startTable at h
  obtain ⟨_, _, h⟩ := Res.bind_eq_ok.mp h
  cases h
  exact Nat.mod_lt _ (by decide)

/-- `create` returning normally is a table build, and then every `required` check passed. -/
theorem create_builds {m : Mode} {b b' : Builder} {fs : List GField} {args : Args fs} {o : Nat}
    (h : create m b fs args = .ok (o, b')) (hg : GoodSlots fs)
    (hfit : m = .release → o - b.usedSpace < 65536) :
    BuildsTable m b (bodyOps fs args) o b' ∧ checkRequired m b' o fs = .ok () := by
  unfold create at h
  obtain ⟨⟨st, b1⟩, h1, h⟩ := Res.bind_eq_ok.mp h
  obtain ⟨b2, h2, h⟩ := Res.bind_eq_ok.mp h
  obtain ⟨⟨o', b3⟩, h3, h⟩ := Res.bind_eq_ok.mp h
  obtain ⟨⟨⟩, h4, h⟩ := Res.bind_eq_ok.mp h
  cases h
  obtain ⟨rets, h2⟩ := addFields_run.mp h2
  refine ⟨⟨⟨⟨st, startTable_lt h1⟩, b1, b2, rets, ?_, h2, ?_⟩, bodyOps_inBody fs args, ?_, ?_, hfit⟩, h4⟩
  · exact withRet_ok.mpr ⟨_, rfl, h1⟩
  · exact withRet_ok.mpr ⟨_, rfl, h3⟩
  · intro f hf
    obtain ⟨i, hi⟩ := mem_stored fs args f hf
    rw [storedFld_slot hi]
    exact hg.2 _ (List.get_mem _ _)
  · exact (bodyOps_slots fs args).nodup hg.1

end Butte.Gen
