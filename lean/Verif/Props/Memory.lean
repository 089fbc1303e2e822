import Verif.Mem.Create
import Verif.Mem.Graph
import Verif.Mem.Message
import Verif.Props.Format
import Verif.Props.Gen
import Verif.Props.Protocol
/-
Property C90: the `unsafe` code of butte/src. An access through a raw pointer must be inside its block of memory, aligned
for its type, and read a value of that type (`Mem.Access.Ok`); otherwise the behaviour of the program is undefined.
-/
namespace Butte
open Gen Format

/-! ### The recorded computations are those of the other properties -/

/-- **C90** the functions that record accesses compute the same results as those without. -/
theorem C90_same (gm m : Mode) (S : Tables) (n : Nat) (ty : Ir.Ty) (f : FTy) (x : f.Inner) (buf : Bytes) (loc : Nat)
    (t : Table) (fs : List GField) (g : GField) (b : Builder) (ops : List Op) (args : Args fs) :
    (Mem.follow m f buf loc).res = f.follow m buf loc ∧
    (Mem.Table.getRoot m buf).res = Table.getRoot m buf ∧
    (Mem.Table.getSizePrefixedRoot m buf).res = Table.getSizePrefixedRoot m buf ∧
    (Mem.accessor m t fs g).res = accessor m t fs g ∧
    (Mem.readVal gm m S n ty f x).res = readVal gm m S n ty f x ∧
    (Mem.run m b ops).res = run m b ops ∧
    (Mem.create m b fs args).res = create m b fs args :=
  ⟨Mem.follow_res .., Mem.Table.getRoot_res .., Mem.Table.getSizePrefixedRoot_res .., Mem.accessor_res .., Mem.readVal_res .., Mem.run_res ..,
    Mem.create_res ..⟩

/-! ### Inside -/

/-- **C90** whatever is followed, wherever, in whatever bytes: no access is outside of the buffer. -/
theorem C90_follow_inside (m : Mode) (f : FTy) (buf : Bytes) (loc : Nat) (hv : buf.Valid) :
    ∀ a ∈ (Mem.follow m f buf loc).log, a.Inside := fun a ha =>
  (Mem.follow_in (B := False) hv f loc nofun a ha).1

/-- **C90** so it is with fields of tables, with elements of vectors and with iterators over vectors. -/
theorem C90_parts_inside (m : Mode) (t : Table) (ht : t.buf.Valid) (slot : Nat) (f : FTy) (d : Option f.Inner)
    (e : FTy) (v : Vec e) (hv : v.buf.Valid) (i : Nat) (it : VIter e) (hi : it.buf.Valid) :
    (∀ a ∈ (Mem.Table.get m t f slot d).log, a.Inside) ∧
    (∀ a ∈ (Mem.Vec.len m v).log, a.Inside) ∧ (∀ a ∈ (Mem.Vec.get m v i).log, a.Inside) ∧
    (∀ a ∈ (Mem.Vec.iter m v).log, a.Inside) ∧ (∀ a ∈ (Mem.VIter.next m it).log, a.Inside) ∧
    (∀ a ∈ (Mem.VIter.nth m it i).log, a.Inside) ∧ (∀ a ∈ (Mem.VIter.nextBack m it).log, a.Inside) :=
  ⟨fun a ha => (Mem.get_in (B := False) ht f slot d nofun a ha).1, fun a ha => (Mem.vecLen_in (B := False) v a ha).1,
    fun a ha => (Mem.vecGet_in (B := False) hv i nofun a ha).1, fun a ha => (Mem.iter_in (B := False) v a ha).1,
    fun a ha => (Mem.next_in (B := False) hi nofun a ha).1, fun a ha => (Mem.nth_in (B := False) hi i nofun a ha).1,
    fun a ha => (Mem.nextBack_in (B := False) hi nofun a ha).1⟩

/-- **C90** and `safe_slice`. -/
theorem C90_slice_inside (m : Mode) (t : STy) (v : Vec (.scalar t)) (hv : v.buf.Valid) :
    ∀ a ∈ (Mem.Vec.safeSlice m v).log, a.Inside := fun a ha =>
  (Mem.follow_in (m := m) (B := False) hv (.slice t) v.loc nofun a ha).1

/-- **C90** the generated code, for any schema and on any bytes, however wrong: no access of any accessor, to any depth,
is outside of the buffer, and none takes another byte than 0 or 1 for a `bool`. -/
theorem C90_read_inside (gm m : Mode) (S : Tables) (q : Ir.QIdent) (buf : Bytes) (hv : buf.Valid) (sp : Bool) (root : Table)
    (hr : (if sp then Table.getSizePrefixedRoot m buf else Table.getRoot m buf) = .ok root) (n : Nat) :
    ∀ a ∈ (Mem.readVal gm m S n (.table q) (.fwdU .table) root).log, a.Inside ∧ a.Valid := by
  have hb : Mem.InBuf buf (.fwdU .table) root := by
    cases sp with
    | false => exact Mem.follow_inBuf (.fwdU .table) 0 root hr
    | true => exact Mem.follow_inBuf (.skipSize (.fwdU .table)) 0 root hr
  intro a ha
  have := Mem.readVal_in (B := True) hv n (.table q) (.fwdU .table) root hb trivial a ha
  exact ⟨this.1, this.2 trivial⟩

/-- **C90** the builder: whatever calls are made, in whatever order, also by a caller that does not follow the protocol, no
access is outside of the buffer. -/
theorem C90_build_inside (m : Mode) (cap : Nat) (b : Builder) (hb : Builder.newWithCapacity cap = .ok b) (ops : List Op) :
    ∀ a ∈ (Mem.run m b ops).log, a.Inside ∧ a.Valid := by
  intro a ha
  have := (Mem.run_does (H := False) (addr := fun _ => 0) ops (new_R hb) (Mem.new_J hb nofun) nofun nofun).1 a ha
  exact ⟨this.1, this.2.1⟩

/-- **C90** and the generated `create`, for any fields and arguments, on any builder that some calls have led to. -/
theorem C90_create_inside (m : Mode) (b : Builder) (hb : Reachable m b) (fs : List GField) (args : Args fs) :
    ∀ a ∈ (Mem.create m b fs args).log, a.Inside ∧ a.Valid := by
  intro a ha
  obtain ⟨cap, b₀, ops, rets, h₀, e⟩ := hb
  have d := Mem.run_does (m := m) (H := False) (addr := fun _ => 0) ops (new_R h₀) (Mem.new_J h₀ nofun) nofun nofun
  obtain ⟨_, hr⟩ := Reachable.toR ⟨cap, b₀, ops, rets, h₀, e⟩
  have := Mem.create_all (addr := fun _ => 0) hr (d.2 _ ((Mem.run_res ..).trans e)) nofun args nofun (fun _ _ _ _ _ h => h.elim) a ha
  exact ⟨this.1, this.2.1⟩

/-! ### Aligned -/

/-- **C90, alignment of reads** (full statement: reading a message makes allowed accesses only; missing: buffers whose
address is not a multiple of 8, see `C90_refuted_address`). Any message in the FlatBuffers format that begins at an
address that is a multiple of 8 is read, to any depth, with allowed accesses only. -/
theorem C90_message_partial (gm m : Mode) (S : Tables) (hS : Accepted gm S) (sp : Bool) (ident : Option Bytes)
    (q : Ir.QIdent) (v : Val) (buf : Bytes) (hl : buf.length < 2 ^ 31) (h : Message generated S sp ident q v buf)
    (addr : Nat → Nat) (ha : addr buf.length % 8 = 0) :
    (∀ a ∈ (if sp then Mem.Table.getSizePrefixedRoot m buf else Mem.Table.getRoot m buf).log, a.Ok addr) ∧
    ∀ root, (if sp then Table.getSizePrefixedRoot m buf else Table.getRoot m buf) = .ok root →
      ∀ n, ∀ a ∈ (Mem.readVal gm m S n (.table q) (.fwdU .table) root).log, a.Ok addr := by
  obtain ⟨o, ho, hroot⟩ := h.root
  obtain ⟨k1, k2⟩ := hroot.readsOk (m := m) (readable_generated hS) hl ha (SameNumbers.refl _) .table rfl
  cases sp with
  | false =>
    simp only [Bool.false_eq_true, if_false] at ho k1 k2 ⊢
    refine ⟨offset_ok ha hl rfl ho k1, fun root hr => k2 root ?_⟩
    unfold Table.getRoot at hr
    rw [ho.follow hl] at hr
    exact hr
  | true =>
    simp only [if_true] at ho k1 k2 ⊢
    have e : addU m 0 4 = .ok 4 := addU_ok (by omega)
    constructor
    · refine Mem.All.bind_liftM (r := addU m 0 4) fun l hl' => ?_
      rw [e] at hl'
      cases hl'
      exact offset_ok ha hl rfl ho k1
    · intro root hr
      refine k2 root ?_
      have hr : (do let l ← addU m 0 4; FTy.follow m (.fwdU .table) buf l) = .ok root := hr
      rw [e] at hr
      have hr : FTy.follow m (.fwdU .table) buf 4 = .ok root := hr
      rw [ho.follow hl] at hr
      exact hr

/-- **C90** the same for messages of FlatBuffers' own understanding of numbers and defaults. -/
theorem C90_flatbuffers_partial (gm m : Mode) (S : Tables) (hS : Accepted gm S) (hn : Numbered flatbuffers S)
    (hr : RequiredOffsets S) (ht : TagsBeginWithNone S) (sp : Bool) (ident : Option Bytes) (q : Ir.QIdent) (v : Val)
    (buf : Bytes) (hl : buf.length < 2 ^ 31) (h : Message flatbuffers S sp ident q v buf)
    (addr : Nat → Nat) (ha : addr buf.length % 8 = 0) :
    (∀ a ∈ (if sp then Mem.Table.getSizePrefixedRoot m buf else Mem.Table.getRoot m buf).log, a.Ok addr) ∧
    ∀ root, (if sp then Table.getSizePrefixedRoot m buf else Table.getRoot m buf) = .ok root →
      ∀ n, ∀ a ∈ (Mem.readVal gm m S n (.table q) (.fwdU .table) root).log, a.Ok addr := by
  obtain ⟨o, ho, hroot⟩ := h.root
  obtain ⟨w, _, hw'⟩ := hroot.view hn hr ht (.table q)
  exact C90_message_partial gm m S hS sp ident q w buf hl ⟨h.size, h.ident, o, ho, hw'⟩ addr ha

/-- **C90, alignment of the builder** (full statement: all accesses of the builder are allowed; missing: capacities other
than 1, 2, 4 and multiples of 8, see `C90_refuted_capacity`; allocators that return addresses that are no multiples of 8, as
they may for a `Vec<u8>`; odd slots, which generated code does not use). A caller that follows the protocol (`Abides`, C28)
makes the builder do allowed accesses only. -/
theorem C90_build_partial (m : Mode) (cap : Nat) (hc : cap % 8 = 0 ∨ cap = 1 ∨ cap = 2 ∨ cap = 4) (b : Builder)
    (hb : Builder.newWithCapacity cap = .ok b) (ops : List Op) (ho : Abides m b .start ops)
    (addr : Nat → Nat) (ha : ∀ n, addr n % 8 = 0) : ∀ a ∈ (Mem.run m b ops).log, a.Ok addr := by
  intro a h
  obtain ⟨h1, h2, h3⟩ := (Mem.abides_does (H := True) (fun _ => ha) (new_R hb) (Tracks.start m)
    (Mem.new_J hb fun _ => hc) nofun ho).1 a h
  exact ⟨h1, h3 trivial, h2⟩

/-- **C90** the protocol is needed for `required` only: any other calls, in whatever order and with whatever arguments, do
allowed accesses only, if the slots are even. -/
theorem C90_build_any_partial (m : Mode) (cap : Nat) (hc : cap % 8 = 0 ∨ cap = 1 ∨ cap = 2 ∨ cap = 4) (b : Builder)
    (hb : Builder.newWithCapacity cap = .ok b) (ops : List Op) (hs : ∀ op ∈ ops, ∀ s, op.slot? = some s → s % 2 = 0)
    (hr : ∀ op ∈ ops, ∀ t s, op ≠ .required t s)
    (addr : Nat → Nat) (ha : ∀ n, addr n % 8 = 0) : ∀ a ∈ (Mem.run m b ops).log, a.Ok addr := by
  intro a h
  obtain ⟨h1, h2, h3⟩ := (Mem.run_does (H := True) ops (new_R hb) (Mem.new_J hb fun _ => hc) (fun _ => ha)
    (fun _ => Mem.allFine_of_even ops hs hr _)).1 a h
  exact ⟨h1, h3 trivial, h2⟩

/-- **C90** (missing: as in `C90_build_partial`) the generated `create`, in the setting of C35, whether it completes or
panics, does allowed accesses only. -/
theorem C90_create_partial (gm m : Mode) (t : Ir.Table) (gs : List GField) (hc : compileTable gm t = some gs)
    (hn : t.fields.length ≤ 32765) (cap : Nat) (hcap : cap % 8 = 0 ∨ cap = 1 ∨ cap = 2 ∨ cap = 4) (b₀ b : Builder)
    (ops : List Op) (rets : List (Option Nat))
    (h₀ : Builder.newWithCapacity cap = .ok b₀) (h : Abides m b₀ .start ops) (e : run m b₀ ops = .ok (rets, b))
    (hb : (Caller.after .start ops rets).building = .nothing) (args : Args gs)
    (hk : ∀ (i : Fin gs.length) o, (gs.get i).kind.offset? (gs.get i).required (args.get gs i) = some o →
      o.val ∈ (Caller.after .start ops rets).known)
    (hroom : b.usedSpace + roomFor gs + 65544 ≤ 2 ^ 31 - 2 ^ 17) (hfit : roomFor gs + 7 < 65536)
    (addr : Nat → Nat) (ha : ∀ n, addr n % 8 = 0) : ∀ a ∈ (Mem.create m b gs args).log, a.Ok addr := by
  intro x hx
  obtain ⟨a, hr, ht⟩ := abides_tracks (new_R h₀) (Tracks.start m) h e
  have d := Mem.abides_does (H := True) (addr := addr) (fun _ => ha) (new_R h₀) (Tracks.start m) (Mem.new_J h₀ fun _ => hcap) nofun h
  obtain ⟨h1, h2, h3⟩ := Mem.create_tracks hc hn hr (d.2 _ ((Mem.run_res ..).trans e)) ht (fun _ => ha) hb args hk hroom hfit x hx
  exact ⟨h1, h3 trivial, h2⟩

/-! ### Where the rules are broken -/

theorem Mem.mem_left {α β : Type} {x : Mem.Tr α} {f : α → Mem.Tr β} {a : Mem.Access} (h : a ∈ x.log) : a ∈ (x >>= f).log := by
  rw [Mem.bind_log]; exact List.mem_append_left _ h

theorem Mem.mem_right {α β : Type} {x : Mem.Tr α} {f : α → Mem.Tr β} {a : Mem.Access} {r : α} (e : x.res = .ok r)
    (h : a ∈ (f r).log) : a ∈ (x >>= f).log := by
  rw [Mem.bind_log, e]; exact List.mem_append_right _ h

/-- **C90, refuted: alignment of reads.** `get_root` on any buffer of at least four bytes at an address that is no multiple
of 4 reads a `u32` that is not aligned, be the message right or wrong. -/
theorem C90_refuted_address (m : Mode) (buf : Bytes) (hl : 4 ≤ buf.length) (addr : Nat → Nat)
    (ha : addr buf.length % 4 ≠ 0) : ∃ a ∈ (Mem.Table.getRoot m buf).log, ¬ a.Aligned addr := by
  have e1 : addU m 0 4 = .ok 4 := addU_ok (by omega)
  have e2 : sliceGet buf 0 4 = .ok (buf.take 4) := by
    unfold sliceGet; rw [if_pos (by omega)]; simp
  refine ⟨⟨false, .u32, 1, 0, buf⟩, ?_, by simpa [Mem.Access.Aligned, STy.size] using ha⟩
  refine Mem.mem_right (x := liftM (addU m 0 4)) e1 (Mem.mem_right (x := liftM (sliceGet buf 0 4)) e2 (Mem.mem_left ?_))
  refine List.mem_map.mpr ⟨⟨false, .u32, 1, 0, buf.take 4⟩, ?_, rfl⟩
  unfold Mem.readScalar Mem.readScalarAs
  rw [if_pos (by simp [STy.size]; omega)]
  exact Mem.mem_left (List.mem_singleton.mpr rfl)

/-- **C90, refuted: alignment of the builder.** With any capacity of at least four bytes that is no multiple of 4, the first
number of four bytes is written where it is not aligned, however well aligned the allocation is. -/
theorem C90_refuted_capacity (m : Mode) (cap : Nat) (hc : 4 ≤ cap) (hm : cap ≤ maxBufferSize) (h4 : cap % 4 ≠ 0) (x : SVal .u32)
    (addr : Nat → Nat) (ha : ∀ n, addr n % 8 = 0) :
    ∃ b, Builder.newWithCapacity cap = .ok b ∧ ∃ a ∈ (Mem.run m b [.push (.sc .u32) (PVal.sc x)]).log, ¬ a.Aligned addr := by
  refine ⟨⟨List.replicate cap 0, cap, [], [], false, false, 0⟩, ?_, ?_⟩
  · unfold Builder.newWithCapacity assert
    rw [decide_eq_true hm]; rfl
  have e1 : Builder.align m ⟨List.replicate cap 0, cap, [], [], false, false, 0⟩ 4 4 =
      .ok ⟨List.replicate cap 0, cap, [], [], false, false, 4⟩ := by
    unfold Builder.align
    simp only [Builder.usedSpace, List.length_replicate, Nat.sub_self]
    rw [addU_ok (by omega)]
    simp only [Res.ok_bind]
    rw [show paddingBytes (0 + 4) 4 = 0 by decide]
    unfold Builder.makeSpace Builder.ensureCapacity
    rw [if_pos (by simp)]
    simp only [Res.ok_bind]
    rw [subU_ok (by simp)]
    rfl
  have e2 : Builder.makeSpace m ⟨List.replicate cap 0, cap, [], [], false, false, 4⟩ 4 =
      .ok ⟨List.replicate cap 0, cap - 4, [], [], false, false, 4⟩ := by
    unfold Builder.makeSpace Builder.ensureCapacity
    rw [if_pos (by simpa using hc)]
    simp only [Res.ok_bind]
    rw [subU_ok (by simpa using hc)]
    rfl
  refine ⟨⟨true, .u32, 1, cap - 4, List.replicate cap 0⟩, ?_, ?_⟩
  · refine Mem.mem_left (Mem.mem_left ?_)
    unfold Mem.Builder.push
    refine Mem.mem_right ((Mem.Builder.align_res ..).trans e1) ?_
    refine Mem.mem_right ((Mem.Builder.makeSpace_res ..).trans e2) ?_
    rw [if_pos (by simp [PTy.size, STy.size]; omega)]
    refine Mem.mem_right (x := liftM (PVal.pushBytes m (PVal.sc x) _)) (r := SVal.bytes x) rfl ?_
    exact Mem.mem_left (List.mem_singleton.mpr rfl)
  · have := ha cap
    simp only [Mem.Access.Aligned, STy.size, List.length_replicate]
    omega

/-- **C90, refuted: values.** Following a `&[bool]`, and `read_scalar::<bool>`, take any byte for a `bool`. -/
theorem C90_refuted_bool (m : Mode) :
    (∃ a ∈ (Mem.follow m (.slice .bool) [1, 0, 0, 0, 2] 0).log, ¬ a.Valid) ∧
    ∃ a ∈ (Mem.readScalar .bool [2]).log, ¬ a.Valid := by
  constructor
  · refine ⟨⟨false, .bool, 1, 4, [1, 0, 0, 0, 2]⟩, by cases m <;> decide +kernel, fun h => ?_⟩
    obtain ⟨x, h1, h2⟩ := h rfl rfl 0 (by decide)
    cases h1
    exact absurd h2 (by decide)
  · refine ⟨⟨false, .bool, 1, 0, [2]⟩, by decide +kernel, fun h => ?_⟩
    obtain ⟨x, h1, h2⟩ := h rfl rfl 0 (by decide)
    cases h1
    exact absurd h2 (by decide)

/-! ### The hypotheses can be met -/

/-- C90: following in five bytes makes accesses, one of them a read of a `u32`. -/
example (m : Mode) : Bytes.Valid [1, 0, 0, 0, 2] ∧
    (⟨false, .u32, 1, 0, [1, 0, 0, 0, 2]⟩ : Mem.Access) ∈ (Mem.follow m (.slice .u8) [1, 0, 0, 0, 2] 0).log :=
  ⟨by decide +kernel, by cases m <;> decide +kernel⟩

/-- C90: a message, at address 4096 or any other multiple of 8. -/
example (gm m : Mode) : Accepted gm fmtSchema ∧ fmtBytes.length < 2 ^ 31 ∧ fmtBytes.Valid ∧
    Message generated fmtSchema false (some [65, 66, 67, 68]) [c!"M"] (fmtVal none) fmtBytes ∧
    ∃ root, Table.getRoot m fmtBytes = .ok root ∧ 8 ≤ (Mem.readVal gm m fmtSchema 3 (.table [c!"M"]) (.fwdU .table) root).log.length :=
  ⟨fmt_accepted gm, by decide +kernel, by decide +kernel, fmt_message generated rfl rfl rfl, _, by cases m <;> rfl, by cases m <;> cases gm <;> decide +kernel⟩

/-- C90: a message of FlatBuffers' understanding. -/
example : Message flatbuffers fmtSchema false (some [65, 66, 67, 68]) [c!"M"] (fmtVal (some (.bits 0))) fmtBytes :=
  fmt_message flatbuffers rfl rfl rfl

/-- C90: a caller that follows the protocol; a builder of 256 bytes. -/
example (m : Mode) : ∃ b₀, Builder.newWithCapacity 256 = .ok b₀ ∧ Abides m b₀ .start (sampleTable ++ [.required 20 4]) ∧
    8 ≤ (Mem.run m b₀ (sampleTable ++ [.required 20 4])).log.length := by
  refine ⟨_, rfl, abides_of ?_, ?_⟩
  · cases m <;> decide +kernel
  · cases m <;> decide +kernel

/-- C90: calls that follow no protocol. -/
example (m : Mode) : ∃ b₀, Builder.newWithCapacity 2 = .ok b₀ ∧
    (∀ op ∈ [Op.startTable, .pushSlotAlways 6 (.sc .u16) (u16c 9), .endTable 3], ∀ s, op.slot? = some s → s % 2 = 0) ∧
    (∀ op ∈ [Op.startTable, .pushSlotAlways 6 (.sc .u16) (u16c 9), .endTable 3], ∀ t s, op ≠ .required t s) ∧
    (Mem.run m b₀ [Op.startTable, .pushSlotAlways 6 (.sc .u16) (u16c 9), .endTable 3]).log ≠ [] := by
  refine ⟨_, rfl, by simp [Op.slot?]; decide, by simp, ?_⟩
  cases m <;> decide +kernel

/-- C90: `create` in place (C35's example, with the rest of the hypotheses there). -/
example (m : Mode) : ∃ b₀ b rets, Builder.newWithCapacity 256 = .ok b₀ ∧ Abides m b₀ .start [.createString "hi"] ∧
    run m b₀ [.createString "hi"] = .ok (rets, b) ∧
    (Caller.after .start [.createString "hi"] rets).building = .nothing ∧
    8 ∈ (Caller.after .start [.createString "hi"] rets).known ∧
    b.usedSpace + roomFor exGen + 65544 ≤ 2 ^ 31 - 2 ^ 17 ∧ roomFor exGen + 7 < 65536 := by
  have h : (fromNew m 256 [.createString "hi"]).okAnd (fun r => decide (r.1 = [some 8] ∧ r.2.usedSpace = 8)) = true := by
    cases m <;> decide +kernel
  obtain ⟨b0, r, b, h0, h1, hp⟩ := fromNew_ex h
  simp only [decide_eq_true_eq] at hp
  obtain ⟨rfl, hu⟩ := hp
  refine ⟨b0, b, _, h0, ?_, h1, rfl, by decide +kernel, by rw [hu]; decide +kernel, by decide +kernel⟩
  refine ⟨rfl, ⟨?_, trivial⟩, fun _ _ _ => trivial⟩
  cases h0
  decide +kernel

/-- C90, refuted: 7 bytes; and the bytes of a message at address 4098. -/
example : (4 ≤ 7 ∧ 7 ≤ maxBufferSize ∧ 7 % 4 ≠ 0) ∧ 4 ≤ fmtBytes.length ∧ 4098 % 4 ≠ 0 := by decide +kernel

end Butte
