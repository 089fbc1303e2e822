import Verif.Mem.Cost
import Verif.Props.Memory
import Verif.Tests.Kernel
/-
Property C94: how many memory accesses reading takes. What is counted are the uses of raw pointers that `Mem/Model`
records; going over the bytes of a string to see that they are UTF-8 is safe code and not among them.
-/
namespace Butte
open Gen Format

set_option maxRecDepth 8000

/-! ### Single steps -/

/-- **C94, accessors**: whatever is in the bytes, and wherever the table is said to be, an accessor of the generated code
makes at most 9 accesses, each of them reads, and reads a single value. -/
theorem C94_accessor (gm m : Mode) (t : Ir.Table) (gs : List GField) (ht : compileTable gm t = some gs) (g : GField) (hg : g ∈ gs)
    (tb : Table) : (Mem.accessor m tb gs g).log.length ≤ 9 ∧ ∀ a ∈ (Mem.accessor m tb gs g).log, a.write = false ∧ a.count = 1 :=
  Mem.accessor_cheap m tb gs (Mem.compiled_short ht hg)

/-- **C94, roots**: finding the root is one access at most. -/
theorem C94_root (m : Mode) (buf : Bytes) :
    (Mem.Table.getRoot m buf).log.length ≤ 1 ∧ (Mem.Table.getSizePrefixedRoot m buf).log.length ≤ 1 :=
  ⟨(Mem.follow_cheap m (.fwdU .table) (k := 1) rfl buf 0).1, (Mem.follow_cheap m (.skipSize (.fwdU .table)) (k := 1) rfl buf 0).1⟩

/-- **C94, elements**: the element of a vector at any index takes at most 3 accesses, its length 1. -/
theorem C94_element (m : Mode) (ty : Ir.Ty) (e : FTy) (he : followTy ty = some e) (v : Vec e) (i : Nat) :
    (Mem.Vec.get m v i).log.length ≤ 3 ∧ (Mem.Vec.len m v).log.length ≤ 1 := by
  obtain ⟨k, h1, -, h2⟩ := Mem.reads_followTy he
  exact ⟨Nat.le_trans (Mem.vecGet_cheap m h1 v i).1 (by omega), (Mem.readNatAt_cheap m .u32 v.buf v.loc).1⟩

/-! ### Whole values -/

/-- **C94, values**: to read all there is in a value, to any depth, takes at least as many accesses as it has fields,
vectors and elements of vectors (`Mem.weight`), and at most nine times as many. -/
theorem C94_value (gm m : Mode) (S : Tables) (n : Nat) (ty : Ir.Ty) (f : FTy) (x : f.Inner) (v : Val)
    (h : readVal gm m S n ty f x = .ok v) :
    Mem.weight v ≤ (Mem.readVal gm m S n ty f x).log.length ∧ (Mem.readVal gm m S n ty f x).log.length ≤ 9 * Mem.weight v := by
  rw [← Mem.readVal_res] at h
  exact Mem.readVal_takes h

/-! ### Values larger than their messages -/

/-- `table T { l: T; r: T; }` -/
def twinTable : Ir.Table := ⟨[c!"T"], [⟨c!"l", .table [c!"T"], none, false, []⟩, ⟨c!"r", .table [c!"T"], none, false, []⟩], false, []⟩

def twinSchema : Tables := fun q => if q = [c!"T"] then some twinTable else none

/-- A tree of `2 ^ (n + 1) - 1` tables. -/
def twins : Nat → Val
  | 0 => .table [none, none]
  | n + 1 => .table [some (twins n), some (twins n)]

/-- `j` tables, the first of them number `k`, both fields of each pointing to the next, and then one with no fields. -/
def twinChain : Nat → Nat → Bytes
  | _, 0 => [0xfc, 0xff, 0xff, 0xff, 4, 0, 4, 0]
  | k, j + 1 => leBytes 4 (8 + 12 * k) ++ ([8, 0, 0, 0, 4, 0, 0, 0] ++ twinChain (k + 1) j)

/-- The offset of the root and the vtable they share. -/
def twinHead : Bytes := [12, 0, 0, 0, 8, 0, 12, 0, 4, 0, 8, 0]

def twinBytes (n : Nat) : Bytes := twinHead ++ twinChain 0 n

theorem twinChain_length : ∀ k j, (twinChain k j).length = 8 + 12 * j
  | _, 0 => rfl
  | k, j + 1 => by
    simp only [twinChain, List.length_append, leBytes_length, twinChain_length (k + 1) j, List.length_cons, List.length_nil]
    omega

theorem twinBytes_length (n : Nat) : (twinBytes n).length = 20 + 12 * n := by
  unfold twinBytes
  rw [List.length_append, twinChain_length]
  show 12 + _ = _
  omega

theorem numAt_mid {pre bs post : Bytes} {p n v : Nat} (hp : pre.length = p) (hb : bs.length = n) (hv : littleEndian bs = v) :
    NumAt (pre ++ (bs ++ post)) p n v := ⟨bs, ⟨pre, post, rfl, hp⟩, hb, hv⟩

theorem twin_step (D : Dialect) (buf : Bytes) (k : Nat) (v : Val) (back : NumAt buf (12 + 12 * k) 4 (8 + 12 * k))
    (v1 : NumAt buf 4 2 8) (v2 : NumAt buf 6 2 12) (v3 : NumAt buf 8 2 4) (v4 : NumAt buf 10 2 8)
    (off1 : NumAt buf (12 + 12 * k + 4) 4 8) (off2 : NumAt buf (12 + 12 * k + 8) 4 4) (le : 12 + 12 * k + 12 ≤ buf.length)
    (hk : 12 * k < 2 ^ 31) (ih : Holds D twinSchema buf (.table [c!"T"]) v (12 + 12 * k + 4 + 8)) :
    Holds D twinSchema buf (.table [c!"T"]) (.table [some v, some v]) (12 + 12 * k) := by
  refine .table (t := twinTable) (vt := 4) (vsize := 8) (tsize := 12) (es := [4, 8]) (os := [8, 4]) rfl
    ⟨by omega, ?_, by omega, v1, rfl, by omega, by omega, v2, by omega, by omega⟩
    rfl rfl rfl ?_ ?_ ?_ ?_ ?_
  · have e : ((((12 + 12 * k : Nat) : Int) - (4 : Nat)) % 2 ^ (8 * 4)).toNat = 8 + 12 * k := by
      have h1 : ((12 + 12 * k : Nat) : Int) - (4 : Nat) = ((8 + 12 * k : Nat) : Int) := by omega
      rw [h1, Int.emod_eq_of_lt (by omega) (by rw [show (2 : Int) ^ (8 * 4) = 4294967296 from rfl]; omega)]
      rfl
    unfold IntAt
    rw [e]
    exact back
  · intro i hi
    unfold EntryAt
    rcases i with _ | _ | i
    · rw [if_pos (by omega)]; exact v3
    · rw [if_pos (by omega)]; exact v4
    · simp at hi; omega
  · intro i f e o x g1 g2 g3 g4
    rcases i with _ | _ | i
    · cases g1; cases g2; cases g3; cases g4
      exact .ref (.table _) ⟨by decide, by decide, by omega⟩ ⟨off1, by decide⟩
    · cases g1; cases g2; cases g3; cases g4
      exact .ref (.table _) ⟨by decide, by decide, by omega⟩ ⟨off2, by decide⟩
    · cases g1
  · intro i f x g1 g2 g3
    rcases i with _ | _ | i
    · cases g1; cases g3
    · cases g1; cases g3
    · cases g1
  · intro i f e o x ty v g1 g2 g3 g4 hb
    rcases i with _ | _ | i
    · cases g1; cases g2; cases g3; cases g4; cases hb; exact ih
    · cases g1; cases g2; cases g3; cases g4; cases hb; rw [show 12 + 12 * k + 8 + 4 = 12 + 12 * k + 4 + 8 by omega]; exact ih
    · cases g1
  · intro _ i hi
    have hi : 2 ≤ i := hi
    unfold EntryAt
    rw [if_neg (by omega)]

theorem twin_holds (D : Dialect) (h0 : D.absent twinTable.fields[0] = none) (h1 : D.absent twinTable.fields[1] = none) :
    ∀ (j k : Nat) (mid : Bytes), (twinHead ++ mid).length = 12 + 12 * k → 20 + 12 * (k + j) < 2 ^ 31 →
      Holds D twinSchema (twinHead ++ mid ++ twinChain k j) (.table [c!"T"]) (twins j) (12 + 12 * k)
  | 0, k, mid, hm, hl => by
    refine .table (t := twinTable) (vt := 16 + 12 * k) (vsize := 4) (tsize := 4) (es := [0, 0]) (os := [0, 0]) rfl
      ⟨by omega, ?_, by omega, ?_, rfl, by omega, ?_, ?_, by omega, ?_⟩ rfl rfl rfl ?_ ?_ ?_ ?_ ?_
    · have e : (((12 + 12 * k : Nat) : Int) - (16 + 12 * k : Nat)) = -4 := by omega
      rw [e]
      exact numAt_mid (bs := [0xfc, 0xff, 0xff, 0xff]) (post := [4, 0, 4, 0]) hm rfl rfl
    · refine (?_ : NumAt (twinHead ++ mid ++ ([0xfc, 0xff, 0xff, 0xff] ++ ([4, 0] ++ [4, 0]))) _ _ _)
      rw [← List.append_assoc]
      exact numAt_mid (by rw [List.length_append, hm]; show _ + 4 = _; omega) rfl rfl
    · rw [List.length_append, hm, twinChain_length]; omega
    · refine (?_ : NumAt (twinHead ++ mid ++ ([0xfc, 0xff, 0xff, 0xff, 4, 0] ++ ([4, 0] ++ []))) _ _ _)
      rw [← List.append_assoc]
      exact numAt_mid (by rw [List.length_append, hm]; show _ + 6 = _; omega) rfl rfl
    · rw [List.length_append, hm, twinChain_length]; omega
    · intro i hi
      unfold EntryAt
      rw [if_neg (by omega)]
      rcases i with _ | _ | i
      · rfl
      · rfl
      · simp at hi; omega
    · intro i f e o x g1 g2 g3 g4
      rcases i with _ | _ | i
      · cases g1; cases g2; cases g4; rw [← h0]; exact .absent rfl
      · cases g1; cases g2; cases g4; rw [← h1]; exact .absent rfl
      · cases g1
    · intro i f x g1 g2 g3
      rcases i with _ | _ | i
      · cases g1; cases g3
      · cases g1; cases g3
      · cases g1
    · intro i f e o x ty v g1 g2 g3 g4 hb
      rcases i with _ | _ | i
      · cases g1; cases g4; cases hb
      · cases g1; cases g4; cases hb
      · cases g1
    · intro _ i _
      unfold EntryAt
      rw [if_neg (by omega)]
  | j + 1, k, mid, hm, hl => by
    have ih := twin_holds D h0 h1 j (k + 1) (mid ++ (leBytes 4 (8 + 12 * k) ++ [8, 0, 0, 0, 4, 0, 0, 0]))
      (by rw [← List.append_assoc, List.length_append, hm]
          simp only [List.length_append, leBytes_length, List.length_cons, List.length_nil]; omega) (by omega)
    have e1 : twinHead ++ (mid ++ (leBytes 4 (8 + 12 * k) ++ [8, 0, 0, 0, 4, 0, 0, 0])) ++ twinChain (k + 1) j =
        twinHead ++ mid ++ twinChain k (j + 1) := by simp only [twinChain, List.append_assoc]
    rw [e1] at ih
    have e2 : 12 + 12 * (k + 1) = 12 + 12 * k + 4 + 8 := by omega
    have e3 : 12 + 12 * (k + 1) = 12 + 12 * k + 8 + 4 := by omega
    have le : (twinHead ++ mid ++ twinChain k (j + 1)).length = 12 + 12 * k + (8 + 12 * (j + 1)) := by
      rw [List.length_append, hm, twinChain_length]
    have early : ∀ {p n v : Nat}, NumAt twinHead p n v → NumAt (twinHead ++ mid ++ twinChain k (j + 1)) p n v := by
      rintro p n v ⟨bs, ⟨pre, post, h1, h2⟩, h3, h4⟩
      exact ⟨bs, ⟨pre, post ++ (mid ++ twinChain k (j + 1)), by rw [h1]; simp only [List.append_assoc], h2⟩, h3, h4⟩
    have off1 : NumAt (twinHead ++ mid ++ twinChain k (j + 1)) (12 + 12 * k + 4) 4 8 := by
      have : twinHead ++ mid ++ twinChain k (j + 1) =
          (twinHead ++ mid ++ leBytes 4 (8 + 12 * k)) ++ ([8, 0, 0, 0] ++ ([4, 0, 0, 0] ++ twinChain (k + 1) j)) := by
        simp only [twinChain, List.append_assoc]; rfl
      rw [this]
      exact numAt_mid (by rw [List.length_append, hm, leBytes_length]) rfl rfl
    have off2 : NumAt (twinHead ++ mid ++ twinChain k (j + 1)) (12 + 12 * k + 8) 4 4 := by
      have : twinHead ++ mid ++ twinChain k (j + 1) =
          (twinHead ++ mid ++ leBytes 4 (8 + 12 * k) ++ [8, 0, 0, 0]) ++ ([4, 0, 0, 0] ++ twinChain (k + 1) j) := by
        simp only [twinChain, List.append_assoc]; rfl
      rw [this]
      exact numAt_mid (by rw [List.length_append, List.length_append, hm, leBytes_length]; rfl) rfl rfl
    have back : NumAt (twinHead ++ mid ++ twinChain k (j + 1)) (12 + 12 * k) 4 (8 + 12 * k) :=
      NumAt.of_bytes ⟨twinHead ++ mid, _, rfl, hm⟩ (by omega)
    exact twin_step D _ k _ back (early (numAt_lit (by decide))) (early (numAt_lit (by decide))) (early (numAt_lit (by decide)))
      (early (numAt_lit (by decide))) off1 off2 (by omega) (by omega) (by rw [← e2]; exact ih)

theorem twin_message (D : Dialect) (h0 : D.absent twinTable.fields[0] = none) (h1 : D.absent twinTable.fields[1] = none)
    (n : Nat) (hl : 20 + 12 * n < 2 ^ 31) : Message D twinSchema false none [c!"T"] (twins n) (twinBytes n) := by
  refine ⟨nofun, nofun, 12, ⟨?_, by decide⟩, ?_⟩
  · exact ⟨[12, 0, 0, 0], ⟨[], [8, 0, 12, 0, 4, 0, 8, 0] ++ twinChain 0 n, rfl, rfl⟩, rfl, rfl⟩
  · have := twin_holds D h0 h1 n 0 [] rfl (by omega)
    rw [List.append_nil] at this
    exact this

theorem twin_accepted (gm : Mode) : Accepted gm twinSchema := by
  intro q t h
  unfold twinSchema at h
  split at h
  · cases h; exact ⟨⟨_, by cases gm <;> rfl⟩, by decide⟩
  · cases h

theorem twins_weight : ∀ n, 2 ^ (n + 1) ≤ Mem.weight (twins n)
  | 0 => by decide
  | n + 1 => by
    have := twins_weight n
    rw [Nat.pow_succ]
    simp only [twins, Mem.weight, Mem.fieldWeights, Mem.optWeight]
    omega

/-- **C94, no bound by the size of the message**: two fields may point to the same table. For every `n` there is a message
of `20 + 12 * n` bytes, correct by FlatBuffers' rules as by those of the generated code, that takes `2 ^ (n + 1)` accesses and more
to read. (The runtime has no verifier, and no limit on depth or on the number of tables.) -/
theorem C94_refuted (gm m : Mode) (n : Nat) (hn : 20 + 12 * n < 2 ^ 31) :
    (twinBytes n).length = 20 + 12 * n ∧
    Message flatbuffers twinSchema false none [c!"T"] (twins n) (twinBytes n) ∧
    ∃ root, Table.getRoot m (twinBytes n) = .ok root ∧ ∃ N, ∀ k, N ≤ k →
      readVal gm m twinSchema k (.table [c!"T"]) (.fwdU .table) root = .ok (twins n) ∧
      2 ^ (n + 1) ≤ (Mem.readVal gm m twinSchema k (.table [c!"T"]) (.fwdU .table) root).log.length := by
  have hm : Message generated twinSchema false none [c!"T"] (twins n) (twinBytes n) := twin_message _ rfl rfl n hn
  obtain ⟨root, h1, N, h2⟩ := C88_reads gm m twinSchema (twin_accepted gm) false none _ _ _ (by rw [twinBytes_length]; exact hn) hm
  exact ⟨twinBytes_length n, twin_message _ rfl rfl n hn, root, h1, N, fun k hk => ⟨h2 k hk,
    Nat.le_trans (twins_weight n) (C94_value gm m twinSchema k (.table [c!"T"]) (.fwdU .table) root _ (h2 k hk)).1⟩⟩

/-- The message of C88: the root takes one access; the accessors of its six fields take 4, 3 (not stored), 5, 3, 4 and 8. -/
example (m : Mode) : (Mem.Table.getRoot m fmtBytes).log.length = 1 ∧
    ((compileTable .debug fmtTable).map fun gs => gs.map fun g => (Mem.accessor m ⟨fmtBytes, 8⟩ gs g).log.length) =
      some [4, 3, 5, 3, 4, 8] := by
  cases m <;> exact ⟨by kernel_rfl, by kernel_rfl⟩

/-- All of it: 8 fields, 1 vector and its 1 element, 38 accesses, or 37 without the debug assertion on the index. -/
example (m : Mode) : Mem.weight (fmtVal none) = 10 ∧
    (Mem.readVal .debug m fmtSchema 9 (.table [c!"M"]) (.fwdU .table) (⟨fmtBytes, 8⟩ : Table)).log.length = if m = .debug then 38 else 37 := by
  cases m <;> exact ⟨by kernel_rfl, by kernel_rfl⟩

/-- The smallest of the messages of `C94_refuted` with two tables, and 260 bytes that take a million accesses. -/
example : twinBytes 1 = [12, 0, 0, 0, 8, 0, 12, 0, 4, 0, 8, 0, 8, 0, 0, 0, 8, 0, 0, 0, 4, 0, 0, 0, 252, 255, 255, 255, 4, 0, 4, 0] ∧
    (twinBytes 20).length = 260 ∧ 2 ^ (20 + 1) > 1000000 := by decide

end Butte
