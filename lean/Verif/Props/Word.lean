import Verif.Mem.WordAgree
import Verif.Props.Format
/-
Property C95: reading on machines with other pointers than 64 bits (Verif/Mem/Word.lean).
-/
namespace Butte
open Gen Format

/-- **C95** with 64 bits the functions are those of the other properties. -/
theorem C95_same (gm m : Mode) (S : Tables) (n : Nat) (ty : Ir.Ty) (f : FTy) (x : f.Inner) (buf : Bytes) (loc slot : Nat)
    (d : Option f.Inner) (t : Table) (fs : List GField) (g : GField) (v : Vec f) (it : VIter f) (i : Nat) :
    Word.follow 64 m f buf loc = Mem.follow m f buf loc ∧
    Word.Table.get 64 m t f slot d = Mem.Table.get m t f slot d ∧
    Word.Vec.get 64 m v i = Mem.Vec.get m v i ∧
    Word.VIter.next 64 m it = Mem.VIter.next m it ∧
    Word.VIter.nth 64 m it i = Mem.VIter.nth m it i ∧
    Word.VIter.nextBack 64 m it = Mem.VIter.nextBack m it ∧
    Word.accessor 64 m t fs g = Mem.accessor m t fs g ∧
    Word.readVal 64 gm m S n ty f x = Mem.readVal gm m S n ty f x :=
  ⟨Word.follow_64 m buf f loc, Word.tableGet_64 m t f slot d, Word.vecGet_64 m v i, Word.next_64 m it, Word.nth_64 m it i,
    Word.nextBack_64 m it, Word.accessor_64 m t fs g, Word.readVal_64 gm m S n ty f x⟩

/-- **C95** and so are the remaining ones. -/
theorem C95_same_rest (m : Mode) (f : FTy) (buf ident : Bytes) (sp : Bool) (t : Table) (v : Vec f) (ty : STy) (vs : Vec (.scalar ty))
    (it : VIter f) (i : Nat) (vt vt' : VTable) :
    Word.Vec.iter 64 m v = Mem.Vec.iter m v ∧
    Word.Vec.len 64 m v = Mem.Vec.len m v ∧
    Word.Vec.isEmpty 64 m v = Mem.Vec.isEmpty m v ∧
    Word.Vec.safeSlice 64 m vs = Mem.Vec.safeSlice m vs ∧
    Word.VIter.nthBack 64 m it i = Mem.VIter.nthBack m it i ∧
    Word.Table.getRoot 64 m buf = Mem.Table.getRoot m buf ∧
    Word.Table.getSizePrefixedRoot 64 m buf = Mem.Table.getSizePrefixedRoot m buf ∧
    Word.Table.vtable 64 m t = Mem.Table.vtable m t ∧
    Word.bufferHasIdentifier 64 m buf ident sp = Mem.bufferHasIdentifier m buf ident sp ∧
    Word.VTable.get 64 m vt i = Mem.VTable.get m vt i ∧
    Word.VTable.getField 64 m vt i = Mem.VTable.getField m vt i ∧
    Word.VTable.numFields 64 m vt = Mem.VTable.numFields m vt ∧
    Word.VTable.objectInlineNumBytes 64 m vt = Mem.VTable.objectInlineNumBytes m vt ∧
    Word.VTable.eqv 64 m vt vt' = Mem.VTable.eqv m vt vt' :=
  ⟨rfl, rfl, rfl, rfl, Word.nextBack_64 m _, Word.follow_64 m _ _ _, Word.follow_64 m _ _ _, Word.follow_64 m _ _ _, by
    unfold Word.bufferHasIdentifier Mem.bufferHasIdentifier; simp only [Word.follow_64], rfl, rfl, rfl, rfl, rfl⟩

/-! ### Inside -/

/-- **C95, accesses** (full statement: whatever is read, in whatever bytes, all accesses are inside of the buffer; missing:
slices of types of more than one byte, in release builds for pointers of less than 35 bits, see `C95_refuted_slice`). -/
theorem C95_inside_partial (w : Nat) (hw : 32 ≤ w) (m : Mode) (buf : Bytes) (f : FTy) (hf : Word.NoWide w m buf f)
    (loc slot i len : Nat) (d : Option f.Inner) :
    (∀ a ∈ (Word.follow w m f buf loc).log, a.Inside) ∧
    (∀ a ∈ (Word.Table.get w m ⟨buf, loc⟩ f slot d).log, a.Inside) ∧
    (∀ a ∈ (Word.Vec.len w m (⟨buf, loc⟩ : Vec f)).log, a.Inside) ∧
    (∀ a ∈ (Word.Vec.get w m (⟨buf, loc⟩ : Vec f) i).log, a.Inside) ∧
    (∀ a ∈ (Word.Vec.iter w m (⟨buf, loc⟩ : Vec f)).log, a.Inside) ∧
    (∀ a ∈ (Word.VIter.next w m (⟨buf, loc, len⟩ : VIter f)).log, a.Inside) ∧
    (∀ a ∈ (Word.VIter.nth w m (⟨buf, loc, len⟩ : VIter f) i).log, a.Inside) ∧
    (∀ a ∈ (Word.VIter.nextBack w m (⟨buf, loc, len⟩ : VIter f)).log, a.Inside) :=
  ⟨fun a ha => (Word.follow_in hw (B := False) f loc hf nofun a ha).1,
    fun a ha => (Word.get_in hw (B := False) (t := ⟨buf, loc⟩) f slot d hf nofun a ha).1,
    fun a ha => (Word.vecLen_in hw (B := False) _ a ha).1,
    fun a ha => (Word.vecGet_in hw (B := False) (v := ⟨buf, loc⟩) i hf nofun a ha).1,
    fun a ha => (Word.iter_in hw (B := False) _ a ha).1,
    fun a ha => (Word.next_in hw (B := False) (it := ⟨buf, loc, len⟩) hf nofun a ha).1,
    fun a ha => (Word.nth_in hw (B := False) (it := ⟨buf, loc, len⟩) i hf nofun a ha).1,
    fun a ha => (Word.nextBack_in hw (B := False) (it := ⟨buf, loc, len⟩) hf nofun a ha).1⟩

/-- Slices of bytes in any build, slices of anything in debug builds. -/
example (buf : Bytes) (h : buf.length < 2 ^ 31) : Word.NoWide 32 .release buf (.fwdU (.slice .u8)) ∧
    Word.NoWide 32 .debug buf (.fwdU (.slice .f64)) ∧ Word.NoWide 32 .release buf (.fwdU .str) :=
  ⟨⟨h, Or.inr (Or.inl rfl)⟩, ⟨h, Or.inl rfl⟩, trivial⟩

/-- **C95** the generated code, for any schema and on any bytes, however wrong: no access of any accessor, to any depth, is
outside of the buffer, and none takes another byte than 0 or 1 for a `bool`, whatever the pointer width. -/
theorem C95_generated_inside (w : Nat) (hw : 32 ≤ w) (gm m : Mode) (S : Tables) (q : Ir.QIdent) (root : Table) (n : Nat) :
    ∀ a ∈ (Word.readVal w gm m S n (.table q) (.fwdU .table) root).log, a.Inside ∧ a.Valid := by
  intro a ha
  have := Word.readVal_in hw (B := True) n (.table q) (.fwdU .table) root trivial trivial a ha
  exact ⟨this.1, this.2 trivial⟩

/-- A length of 2^30 + 1, then four bytes. -/
def wideSlice : Bytes := [1, 0, 0, 0x40, 1, 2, 3, 4]

theorem wide_read : (Word.readNatAt 32 .release .u32 wideSlice 0).res = .ok (2 ^ 30 + 1) := by
  rw [Word.readNatAt_of_le (by decide) (by decide)]
  rfl

theorem then_mem {α β : Type} {x : Mem.Tr α} {f : α → Mem.Tr β} {a : α} {c : Mem.Access} (h : x.res = .ok a) (hc : c ∈ (f a).log) :
    c ∈ (x >>= f).log := by
  rw [Mem.bind_log, h]
  exact List.mem_append_right _ hc

theorem wide_touched : (⟨false, .u32, 2 ^ 30 + 1, 4, wideSlice⟩ : Mem.Access) ∈ (Word.followSlice 32 .release .u32 wideSlice 0).log ∧
    ∃ xs, (Word.followSlice 32 .release .u32 wideSlice 0).res = .ok xs := by
  have add (a b : Nat) (h : a + b < 2 ^ 32) : addW 32 .release a b = .ok (a + b) := addW_ok h
  have mul : mulW 32 .release (2 ^ 30 + 1) 4 = .ok 4 := by
    unfold mulW
    rw [if_neg (by decide)]
  have slice : sliceGet wideSlice 4 8 = .ok [1, 2, 3, 4] := by decide
  constructor
  · refine then_mem (debugAssert_release (decide (0 < STy.size .u32))) (then_mem wide_read (then_mem (add 0 4 (by decide)) (then_mem mul ?_)))
    exact then_mem (add (0 + 4) 4 (by decide)) (then_mem slice (Mem.bind_log .. ▸ List.mem_append_left _ (List.mem_singleton.mpr rfl)))
  · unfold Word.followSlice
    simp only [Mem.bind_res, Mem.liftM_res, debugAssert_release, Res.ok_bind]
    rw [wide_read]
    simp only [Res.ok_bind]
    rw [add 0 4 (by decide)]
    simp only [Res.ok_bind]
    rw [show STy.size .u32 = 4 from rfl, mul]
    simp only [Res.ok_bind]
    rw [add (0 + 4) 4 (by decide)]
    simp only [Res.ok_bind]
    rw [show sliceGet wideSlice (0 + 4) (0 + 4 + 4) = _ from slice]
    exact ⟨_, rfl⟩

/-- **C95 is false of the code with 32-bit pointers**: in a release build, `safe_slice` on these eight bytes, or following
a `&[u32]`, makes a slice of 2^30 + 1 numbers, which is more memory than there is. -/
theorem C95_refuted_slice : wideSlice.length = 8 ∧
    (∃ xs, (Word.Vec.safeSlice 32 .release (⟨wideSlice, 0⟩ : Vec (.scalar .u32))).res = .ok xs) ∧
    ∃ a ∈ (Word.Vec.safeSlice 32 .release (⟨wideSlice, 0⟩ : Vec (.scalar .u32))).log, ¬ a.Inside ∧
      a.write = false ∧ a.off = 4 ∧ a.count * a.ty.size = 2 ^ 32 + 4 := by
  obtain ⟨h1, h2⟩ := wide_touched
  exact ⟨rfl, h2, _, h1, by unfold Mem.Access.Inside; decide, rfl, rfl, rfl⟩

/-! ### Panics -/

/-- **C95, panics** (full statement: in a release build no read of any bytes panics; missing: strings, see
`C95_str_panics`). -/
theorem C95_release_partial (w : Nat) (buf : Bytes) (f : FTy) (hf : Word.NoStr f) (loc slot i : Nat) (d : Option f.Inner) :
    (Word.follow w .release f buf loc).res ≠ .panic ∧
    (Word.Table.get w .release ⟨buf, loc⟩ f slot d).res ≠ .panic ∧
    (Word.Table.getRoot w .release buf).res ≠ .panic ∧ (Word.Table.getSizePrefixedRoot w .release buf).res ≠ .panic ∧
    (Word.Vec.len w .release (⟨buf, loc⟩ : Vec f)).res ≠ .panic ∧
    (Word.Vec.get w .release (⟨buf, loc⟩ : Vec f) i).res ≠ .panic :=
  ⟨Word.follow_calm f loc hf, Word.get_calm f slot d hf, Word.follow_calm (.fwdU .table) 0 trivial,
    Word.follow_calm (.skipSize (.fwdU .table)) 0 trivial, Word.readNatAt_calm, Word.vecGet_calm i hf⟩

example : Word.NoStr (.fwdU (.vector (.fwdU .str))) ∧ Word.NoStr (.slice .u64) := ⟨trivial, trivial⟩

/-- **C95** a string, with 32-bit pointers, in a release build: it panics exactly if its length is so large that its end
wraps around to a zero byte of the buffer. -/
theorem C95_str_panics (buf : Bytes) (loc : Nat) (hl : buf.length < 2 ^ 31) :
    (Word.follow 32 .release .str buf loc).res = .panic ↔ loc + 4 ≤ buf.length ∧ ∃ k,
      leNat ((buf.drop loc).take 4) + loc + 4 = 2 ^ 32 + k ∧ buf[k]? = some 0 :=
  Word.followStr_panics hl

/-- **C95 is false of the code with 32-bit pointers**: a release build panics on these bytes, where with 64 bits it returns an
error (C03). -/
theorem C95_refuted_str : ∃ buf : Bytes, buf.length = 12 ∧
    (Word.follow 32 .release (.fwdU .str) buf 4).res = .panic ∧
    FTy.follow .release (.fwdU .str) buf 4 = .err .outOfBounds := by
  refine ⟨[0, 0, 0, 0, 4, 0, 0, 0, 0xF4, 0xFF, 0xFF, 0xFF], rfl, ?_, ?_⟩
  · have h := (C95_str_panics [0, 0, 0, 0, 4, 0, 0, 0, 0xF4, 0xFF, 0xFF, 0xFF] 8 (by decide)).mpr ⟨by decide, 0, by decide, rfl⟩
    exact h
  · rfl

/-! ### The same values -/

/-- **C95, values** (full statement: what is read with 64-bit pointers is read with 32-bit pointers; missing: in debug builds,
tables without fields, see `C95_refuted_debug`). Whatever the bytes are, if the generated code reads a whole value from them
with 64-bit pointers, it reads the same value with pointers of 32 bits or more, provided that the bytes fit into memory. -/
theorem C95_reads_partial (w : Nat) (hw : 32 ≤ w) (hw' : w ≤ 64) (gm m : Mode) (S : Tables)
    (hS : m = .release ∨ ∀ q t, S q = some t → t.fields ≠ []) (buf : Bytes) (hl : buf.length < 2 ^ (w - 1)) (sp : Bool)
    (root : Table) (hr : (if sp then Table.getSizePrefixedRoot m buf else Table.getRoot m buf) = .ok root)
    (q : Ir.QIdent) (n : Nat) (v : Val) (h : readVal gm m S n (.table q) (.fwdU .table) root = .ok v) :
    ∃ root', (if sp then Word.Table.getSizePrefixedRoot w m buf else Word.Table.getRoot w m buf).res = .ok root' ∧
      (Word.readVal w gm m S n (.table q) (.fwdU .table) root').res = .ok v := by
  have hB : Word.Fits w buf := ⟨hw, hw', hl⟩
  have hA := Word.readVal_agree hB (gm := gm) hS n
  cases sp with
  | false => exact hA (.table q) (.fwdU .table) 0 root v trivial hr h
  | true =>
    have e : addU m 0 4 = .ok 4 := addU_ok (by omega)
    have hr : FTy.follow m (.fwdU .table) buf 4 = .ok root := by
      have hr : (do let l ← addU m 0 4; FTy.follow m (.fwdU .table) buf l) = .ok root := hr
      rw [e] at hr
      exact hr
    obtain ⟨root', h1, h2⟩ := hA (.table q) (.fwdU .table) 4 root v trivial hr h
    refine ⟨root', ?_, h2⟩
    show ((_root_.liftM (addW w m 0 4) : Mem.Tr Nat) >>= fun l => Word.follow w m (.fwdU .table) buf l).res = _
    rw [Mem.bind_res, Mem.liftM_res, addW_ok (by have := Word.le_pow hw; omega)]
    exact h1

/-- **C95** (missing: as in `C95_reads_partial`) from any message in the FlatBuffers format, whoever wrote it, the generated
code reads the value that it holds, also with 32-bit pointers. -/
theorem C95_message_partial (w : Nat) (hw : 32 ≤ w) (hw' : w ≤ 64) (gm m : Mode) (S : Tables) (hS : Accepted gm S)
    (hf : m = .release ∨ ∀ q t, S q = some t → t.fields ≠ []) (sp : Bool) (ident : Option Bytes) (q : Ir.QIdent)
    (v : Val) (buf : Bytes) (hl : buf.length < 2 ^ 31) (h : Message generated S sp ident q v buf) :
    ∃ N, ∀ n, N ≤ n → ∃ root,
      (if sp then Word.Table.getSizePrefixedRoot w m buf else Word.Table.getRoot w m buf).res = .ok root ∧
      (Word.readVal w gm m S n (.table q) (.fwdU .table) root).res = .ok v := by
  obtain ⟨root, h1, N, h2⟩ := C88_reads gm m S hS sp ident q v buf hl h
  have : 2 ^ 31 ≤ 2 ^ (w - 1) := Nat.pow_le_pow_right (by decide) (by omega)
  exact ⟨N, fun n hn => C95_reads_partial w hw hw' gm m S hf buf (by omega) sp root h1 q n v (h2 n hn)⟩

/-- The message of C88 meets the hypotheses. -/
example (gm m : Mode) : Accepted gm fmtSchema ∧ (∀ q t, fmtSchema q = some t → t.fields ≠ []) ∧ fmtBytes.length < 2 ^ (32 - 1) ∧
    Message generated fmtSchema false (some [65, 66, 67, 68]) [c!"M"] (fmtVal none) fmtBytes := by
  refine ⟨fmt_accepted gm, ?_, by decide, fmt_message generated rfl rfl rfl⟩
  intro q t h
  unfold fmtSchema at h
  split at h
  · cases h; exact nofun
  · split at h
    · cases h; exact nofun
    · cases h

/-- **C95 is false of the code in debug builds as far as tables without fields go**: these bytes hold nothing but an offset that
leads out of them. With 64-bit pointers a table without fields is read all the same, because nothing of it is ever looked at;
with 32-bit pointers the sum overflows. -/
theorem C95_refuted_debug (gm : Mode) : ∃ (S : Tables) (q : Ir.QIdent) (buf : Bytes) (root : Table),
    Table.getSizePrefixedRoot .debug buf = .ok root ∧
    readVal gm .debug S 1 (.table q) (.fwdU .table) root = .ok (.table []) ∧
    (Word.Table.getSizePrefixedRoot 32 .debug buf).res = .panic := by
  refine ⟨fun _ => some ⟨[c!"E"], [], false, []⟩, [c!"E"], [0, 0, 0, 0, 255, 255, 255, 255], _, rfl, ?_, ?_⟩
  · cases gm <;> rfl
  · decide +kernel

end Butte
