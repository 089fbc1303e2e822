import Verif.Rt.Builder
/-
Small vocabulary used by the statements of the runtime properties (`Verif/Props/*.lean`). Nothing here models
code; these are the words the theorems are stated in.
-/
namespace Butte

instance (b : Bytes) : Decidable b.Valid := inferInstanceAs (Decidable (_ ≤ _))

/-- A slot number that `field_index_to_field_offset` can produce (even, after the two header fields) and for
which the vtable length still fits its 16-bit length field. -/
def SlotOk (s : Nat) : Prop := s % 2 = 0 ∧ 4 ≤ s ∧ s < 65534

instance (s : Nat) : Decidable (SlotOk s) := inferInstanceAs (Decidable (_ ∧ _ ∧ _))

/-- A field stored in a table. -/
structure Fld where
  slot : Nat
  p : PTy
  x : PVal p

/-- Calls that may occur between `start_table` and `end_table`. -/
def Op.inBody : Op → Bool
  | .push _ _ | .pushSlot _ _ _ _ | .pushSlotAlways _ _ _ => true
  | _ => false

/-- The field that a call stores, if any: `push_slot` skips a value equal to the default. -/
def Op.stored : Op → Option Fld
  | .pushSlotAlways s p x => some ⟨s, p, x⟩
  | .pushSlot s p x d => if x.eqv d then none else some ⟨s, p, x⟩
  | _ => none

/-- The slot a call addresses. -/
def Op.slot? : Op → Option Nat
  | .pushSlotAlways s _ _ => some s
  | .pushSlot s _ _ _ => some s
  | _ => none

/-- No slot has been pushed since the last `end_table` (or since the beginning). -/
def NoPending (ops : List Op) : Prop :=
  ∃ pre post, ops = pre ++ post ∧ (pre = [] ∨ ∃ pre' t, pre = pre' ++ [.endTable t]) ∧
    ∀ op ∈ post, op.slot? = none

/-- A state reached by some history after which no field of an unfinished table is pending. -/
def Idle (m : Mode) (b : Builder) : Prop :=
  ∃ cap b0 ops rets, Builder.newWithCapacity cap = .ok b0 ∧ run m b0 ops = .ok (rets, b) ∧ NoPending ops

/-- A list of calls that contains no `reset`. -/
def NoReset (ops : List Op) : Prop := ∀ op ∈ ops, op.isReset = false

instance (ops : List Op) : Decidable (NoReset ops) := inferInstanceAs (Decidable (∀ op ∈ ops, _))

/-- Every state along the run, the first and the last included, uses at most `n` bytes. -/
def StaysWithin (m : Mode) (n : Nat) (b : Builder) (ops : List Op) : Prop :=
  ∀ k rets b', run m b (ops.take k) = .ok (rets, b') → b'.usedSpace ≤ n

/-- `start_table`, the calls of `body`, then `end_table` with the offset `start_table` returned. The stored
slots are distinct, and the table fits 16-bit field offsets (a debug build checks the latter itself). -/
structure BuildsTable (m : Mode) (b : Builder) (body : List Op) (obj : Nat) (b' : Builder) : Prop where
  calls : ∃ (tail : Fin (2 ^ 32)) (b₁ b₂ : Builder) (rets : List (Option Nat)),
    step m b .startTable = .ok (some tail.val, b₁) ∧ run m b₁ body = .ok (rets, b₂) ∧
    step m b₂ (.endTable tail) = .ok (some obj, b')
  fields : ∀ op ∈ body, op.inBody = true
  slots : ∀ f ∈ body.filterMap Op.stored, SlotOk f.slot
  distinct : ((body.filterMap Op.stored).map Fld.slot).Nodup
  fits : m = .release → obj - b.usedSpace < 65536

/-- Calls without `reset`, then `finish` (or `finish_size_prefixed`) of `root`; the identifier, if any, has
its four bytes. -/
structure Finishes (m : Mode) (b : Builder) (rest : List Op) (root : Fin (2 ^ 32)) (ident : Option Bytes)
    (sp : Bool) (b' : Builder) : Prop where
  calls : ∃ b₁ rets, run m b rest = .ok (rets, b₁) ∧ step m b₁ (.finish root ident sp) = .ok (none, b')
  noReset : NoReset rest
  ident4 : ∀ i, ident = some i → i.length = 4

/-- Calls that write something which must be 4-aligned or more: a table, a vector, a string, a wide value. -/
def Op.wide : Op → Bool
  | .endTable _ | .createString _ | .createByteString _ | .createVectorDirect .. | .createVector ..
  | .createVectorOfStrings _ | .endVector _ => true
  | .push p _ | .pushSlotAlways _ p _ => decide (4 ≤ p.size)
  | _ => false

/-- A history whose slots are all usable ones and whose data stays below 2 GiB. -/
def Regular (m : Mode) (b : Builder) : Prop :=
  ∃ cap b0 ops rets, Builder.newWithCapacity cap = .ok b0 ∧ run m b0 ops = .ok (rets, b) ∧
    (∀ op ∈ ops, ∀ s, op.slot? = some s → SlotOk s) ∧ StaysWithin m (2 ^ 31 - 1) b0 ops

/-- Calls after which the recorded vtables are still there. -/
def Op.keepsVTables : Op → Bool
  | .finish .. | .reset => false
  | _ => true

/-- What is being built: nothing, a table or a vector. -/
inductive Open where
  | nothing | table | vector
deriving DecidableEq, Repr

/-- The documented nesting protocol as a state machine; `none` means the call is out of place. -/
def Open.next : Open → Op → Option Open
  | .nothing, .startTable => some .table
  | .table, .pushSlot .. | .table, .pushSlotAlways .. | .table, .push .. => some .table
  | .table, .endTable _ => some .nothing
  | .nothing, .startVector .. => some .vector
  | .vector, .push .. => some .vector
  | .vector, .endVector _ => some .nothing
  | .nothing, .push .. => some .nothing
  | .nothing, .createString _ | .nothing, .createByteString _ | .nothing, .createVectorDirect ..
  | .nothing, .createVector .. | .nothing, .createVectorOfStrings _ => some .nothing
  | .nothing, .required .. => some .nothing
  | .nothing, .finish .. => some .nothing
  | .nothing, .reset => some .nothing
  | _, _ => none

/-- State of the protocol after a list of calls; `none` if some call was out of place. -/
def Open.after : Open → List Op → Option Open
  | o, [] => some o
  | o, op :: ops => match o.next op with
    | some o' => o'.after ops
    | none => none

/-- Everything a caller can see of a builder between calls: the data written so far, `finished_data` and
`num_written_vtables`. -/
def Builder.view (m : Mode) (b : Builder) : Bytes × Res Bytes × Nat :=
  (b.unfinishedData, b.finishedData m, b.numWrittenVTables)

/-- No sequence of calls can tell two builders apart: whenever it completes on both, all returned offsets and
all that can be seen afterwards agree; and if it completes on one without coming within 128 KiB of the 2 GiB
limit, it completes on the other. -/
structure Indistinguishable (m : Mode) (b c : Builder) : Prop where
  agree : ∀ ops r b' r' c', run m b ops = .ok (r, b') → run m c ops = .ok (r', c') →
    r = r' ∧ b'.view m = c'.view m
  completes : ∀ ops r b', run m b ops = .ok (r, b') → StaysWithin m (2 ^ 31 - 2 ^ 17) b ops →
    ∃ c', run m c ops = .ok (r, c')
  completes' : ∀ ops r c', run m c ops = .ok (r, c') → StaysWithin m (2 ^ 31 - 2 ^ 17) c ops →
    ∃ b', run m b ops = .ok (r, b')

end Butte
