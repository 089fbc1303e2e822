import Verif.Rt.Builder
import Verif.Rt.Spec
/-
A caller that follows the documented protocol of the builder, as a predicate on call sequences. Nothing here
models code; it is the hypothesis of the theorem that such callers never see a panic (property C28).
-/
namespace Butte

/-- What a caller is building: nothing, a table (with the offset `start_table` returned and the calls made since)
or a vector. -/
inductive Building where
  | nothing
  | table (tail : Nat) (body : List Op)
  | vector

/-- What a well-behaved caller remembers. -/
structure Caller where
  /-- the object under construction -/
  building : Building
  /-- offsets of finished values, returned by earlier calls -/
  known : List Nat
  /-- finished tables and the slots stored in them -/
  tables : List (Nat × List Nat)
  /-- `finish` has been called -/
  finished : Bool

/-- Nothing done yet. -/
def Caller.start : Caller := ⟨.nothing, [], [], false⟩

/-- Offsets are only passed on if the builder returned them. -/
def Caller.knows (c : Caller) {p : PTy} (x : PVal p) : Prop :=
  match p with
  | .sc _ => True
  | .off => x.val ∈ c.known

/-- The call is in place. -/
def Caller.allows (c : Caller) : Op → Prop
  | .push _ x => c.knows x
  | .pushSlot s _ x _ | .pushSlotAlways s _ x =>
    SlotOk s ∧ c.knows x ∧ ∃ t body, c.building = .table t body ∧ s.val ∉ body.filterMap Op.slot?
  | .startTable | .startVector .. | .createString _ | .createByteString _ | .createVectorDirect ..
  | .createVectorOfStrings _ => c.building = .nothing
  | .createVector _ xs => c.building = .nothing ∧ ∀ x ∈ xs, c.knows x
  | .endTable t => ∃ body, c.building = .table t body
  | .endVector _ => c.building = .vector
  | .required t s => c.building = .nothing ∧ ∃ slots, (t.val, slots) ∈ c.tables ∧ s.val ∈ slots
  | .finish r i _ => c.building = .nothing ∧ c.finished = false ∧ r.val ∈ c.known ∧ ∀ i', i = some i' → i'.length = 4
  | .reset => c.building = .nothing ∨ c.building = .vector

/-- What the caller remembers after the call returned `r`. -/
def Caller.next (c : Caller) (op : Op) (r : Option Nat) : Caller :=
  match op, c.building with
  | .startTable, _ => { c with building := .table (r.getD 0) [] }
  | .startVector .., _ => { c with building := .vector }
  | .endVector _, _ => { c with building := .nothing, known := r.toList ++ c.known }
  | .endTable _, .table _ body =>
    { c with building := .nothing, known := r.toList ++ c.known,
             tables := r.toList.map (fun o => (o, (body.filterMap Op.stored).map Fld.slot)) ++ c.tables }
  | .reset, _ => .start
  | .finish .., _ => { c with finished := true }
  | op, .table t body => { c with building := .table t (body ++ [op]), known := r.toList ++ c.known }
  | _, _ => { c with known := r.toList ++ c.known }

/-- Bytes of a list of strings, with 16 bytes for the length prefix, terminator and padding of each. -/
def stringsCost : List String → Nat
  | [] => 0
  | s :: ss => (Builder.strBytes s).length + 16 + stringsCost ss

/-- An upper bound of the bytes the call adds. -/
def Op.need : Op → Nat
  | .push p _ | .pushSlot _ p _ _ | .pushSlotAlways _ p _ => 2 * p.size
  | .startTable | .required .. | .reset => 0
  | .endTable _ => 65536 + 8
  | .startVector p n => n * p.size + 8
  | .endVector _ => 8
  | .createString s => (Builder.strBytes s).length + 16
  | .createByteString bs => bs.length + 16
  | .createVectorDirect t xs => xs.length * t.size + 16
  | .createVector p xs => xs.length * p.size + 16
  | .createVectorOfStrings xs => stringsCost xs + xs.length * 4 + 16
  | .finish .. => 32

/-- There is room for the call below the 2 GiB limit, and a table that is ended fits 16-bit offsets. -/
def Op.fits (op : Op) (b : Builder) : Prop :=
  b.usedSpace + op.need ≤ 2 ^ 31 - 2 ^ 17 ∧
    match op with
    | .endTable t => b.usedSpace + 7 < t + 65536
    | _ => True

/-- Every call of the sequence is in place and fits, given what the builder returned so far. -/
def Abides (m : Mode) : Builder → Caller → List Op → Prop
  | _, _, [] => True
  | b, c, op :: ops => c.allows op ∧ op.fits b ∧
    ∀ r b', step m b op = .ok (r, b') → Abides m b' (c.next op r) ops

end Butte
