import Verif.Props.Cut
import Verif.Props.Tree
import Verif.Props.Finish
/-
Property C116: several messages one after the other.
-/
namespace Butte
open Gen

/-- `data` is what `finished_data` returns after a tree `v` was written with the generated code and `finish_size_prefixed` was called on it. -/
def SizedMessage (gm m : Mode) (S : Tables) (q : Ir.QIdent) (data : Bytes) (v : Val) : Prop :=
  ∃ (b b₂ : Builder) (o : Fin (2 ^ 32)) (ident : Option Bytes), Written gm m S b (.table q) v o.val ∧ (∀ i, ident = some i → i.length = 4) ∧
    b.finishSizePrefixed m o.val ident = .ok b₂ ∧ b₂.usedSpace < 2 ^ 31 ∧ b₂.finishedData m = .ok data

/-- The first message of a stream, as a caller takes it: the length from the first four bytes, that many bytes after them, and the tree that
is read from both. -/
def takeMessage (gm m : Mode) (S : Tables) (k : Nat) (q : Ir.QIdent) (buf : Bytes) : Res (Val × Bytes) := do
  let n ← readNatAt m .u32 buf 0
  let msg ← sliceGet buf 0 (4 + n)
  let v ← readRoot gm m S k q true msg
  return (v, buf.drop (4 + n))

/-- A caller that takes messages until nothing is left or one cannot be read: what was read, and how it ended. `fuel` bounds the number of
messages. -/
def readStream (gm m : Mode) (S : Tables) (k : Nat) (q : Ir.QIdent) : Nat → Bytes → List Val × Res Unit
  | 0, _ => ([], .panic)
  | fuel + 1, buf =>
    if buf = [] then ([], .ok ())
    else match takeMessage gm m S k q buf with
      | .ok (v, rest) => (v :: (readStream gm m S k q fuel rest).1, (readStream gm m S k q fuel rest).2)
      | .err e => ([], .err e)
      | .panic => ([], .panic)

theorem readNatAt_prefix (m : Mode) (n : Nat) (hn : n < 2 ^ 32) (d : Bytes) : readNatAt m .u32 (leBytes 4 n ++ d) 0 = .ok n := by
  have h4 : (leBytes 4 n).length = 4 := leBytes_length 4 n
  have e : addU m 0 4 = .ok 4 := by cases m <;> rfl
  unfold readNatAt readScalarAt
  change ((addU m 0 4 >>= fun e => sliceGet (leBytes 4 n ++ d) 0 e >>= fun s => readScalar .u32 s) >>= fun v => .ok v.val) = _
  rw [e, Res.ok_bind]
  unfold sliceGet
  rw [if_pos ⟨by omega, by rw [List.length_append]; omega⟩, Res.ok_bind, List.drop_zero, Nat.sub_zero, List.take_append_of_le_length (by omega),
    List.take_of_length_le (by omega)]
  unfold readScalar
  rw [if_pos (by rw [h4]; exact Nat.le_refl _), Res.ok_bind, List.take_of_length_le (by rw [h4]; exact Nat.le_refl _)]
  have h := SVal.ofBytes_bytes (t := .u32) (u32v n)
  have hv : (u32v n).val = n := Nat.mod_eq_of_lt hn
  unfold SVal.bytes at h
  rw [hv] at h
  change SVal.ofBytes .u32 (leBytes 4 n) = u32v n at h
  rw [h, hv]

theorem SizedMessage.parts {gm m : Mode} {S : Tables} {q : Ir.QIdent} {data : Bytes} {v : Val} (h : SizedMessage gm m S q data v) :
    ∃ d, data = leBytes 4 d.length ++ d ∧ d.length < 2 ^ 32 ∧
      ∃ v' N, Same v v' ∧ ∀ k, N ≤ k → readRoot gm m S k q true data = .ok v' := by
  obtain ⟨b, b₂, o, ident, hw, hid, hf, hs, hd⟩ := h
  have hfin : Finishes m b [] o ident true b₂ := ⟨⟨b, [], rfl, by
    show noRet (b.finishWithOpts m o.val ident true) = _
    rw [show b.finishWithOpts m o.val ident true = .ok b₂ from hf]; rfl⟩, nofun, hid⟩
  have e : run m b [.finish o ident true] = .ok ([none], b₂) := by
    obtain ⟨b', rets, e1, e2⟩ := hfin.calls
    cases e1
    exact run_singleton.mpr ⟨none, e2, rfl⟩
  have hmono := used_mono hw.reachable e (by
    intro op hop
    simp only [List.mem_singleton] at hop; subst hop; rfl) (by omega)
  obtain ⟨hle, -⟩ := C64_tree_round_trip gm m S b b (.table q) v o.val hw [] [] rfl nofun (by omega)
  obtain ⟨size, d, h1, h2, h3, h4, -⟩ := C24_size_prefix m b b₂ [] o ident hw.reachable hfin hle hs
  obtain ⟨data', root, v', g1, g2, g3, N, g4⟩ := (C64_finish_calls gm m S b b₂ q v o hw ident hid hs).2 hf
  rw [hd] at h1 g1
  cases h1
  cases g1
  have hlen : (size ++ d).length = b₂.usedSpace := by
    unfold Builder.finishedData at hd
    obtain ⟨_, -, hd⟩ := Res.bind_eq_ok.mp hd
    injection hd with hd
    rw [← hd]
    exact List.length_drop
  refine ⟨d, by rw [h3], ?_, v', N, g3, fun k hk => ?_⟩
  · rw [List.length_append] at hlen
    omega
  · unfold readRoot
    rw [if_pos rfl, g2]
    exact g4 k hk

theorem takeMessage_stream {gm m : Mode} {S : Tables} {q : Ir.QIdent} {data : Bytes} {v : Val} (h : SizedMessage gm m S q data v) :
    data ≠ [] ∧ ∃ v' N, Same v v' ∧ ∀ k, N ≤ k → ∀ rest, takeMessage gm m S k q (data ++ rest) = .ok (v', rest) := by
  obtain ⟨d, h1, h2, v', N, h3, h4⟩ := h.parts
  have hl : data.length = 4 + d.length := by rw [h1, List.length_append, leBytes_length]
  refine ⟨fun hn => by rw [hn] at hl; simp at hl; omega, v', N, h3, fun k hk rest => ?_⟩
  unfold takeMessage
  have e1 : readNatAt m .u32 (data ++ rest) 0 = .ok d.length := by
    rw [h1, List.append_assoc]
    exact readNatAt_prefix m d.length h2 _
  rw [e1, Res.ok_bind, ← hl]
  unfold sliceGet
  rw [if_pos ⟨by omega, by rw [List.length_append]; omega⟩, Res.ok_bind, List.drop_zero, Nat.sub_zero, List.take_left', List.drop_left',
    h4 k hk]
  · rfl
  · rfl
  · rfl

/-- **C116** Messages written with `finish_size_prefixed` and put one after the other are read back one by one, all of them and nothing else.
They may come from different builders and have different identifiers. -/
theorem C116_stream (gm m : Mode) (S : Tables) (q : Ir.QIdent) : ∀ (msgs : List (Bytes × Val)),
    (∀ p ∈ msgs, SizedMessage gm m S q p.1 p.2) →
    ∃ N, ∀ k, N ≤ k → ∃ vs, List.Forall₂ Same (msgs.map (·.2)) vs ∧
      ∀ fuel, msgs.length < fuel → readStream gm m S k q fuel (msgs.map (·.1)).flatten = (vs, .ok ())
  | [], _ => ⟨0, fun k _ => ⟨[], .nil, fun fuel hf => by
      cases fuel with
      | zero => cases hf
      | succ fuel => rfl⟩⟩
  | p :: msgs, h => by
    obtain ⟨N, ih⟩ := C116_stream gm m S q msgs fun p hp => h p (List.mem_cons_of_mem _ hp)
    obtain ⟨hne, v', M, hs, ht⟩ := takeMessage_stream (h p (List.mem_cons_self ..))
    refine ⟨max N M, fun k hk => ?_⟩
    obtain ⟨vs, h1, h2⟩ := ih k (by omega)
    refine ⟨v' :: vs, .cons hs h1, fun fuel hf => ?_⟩
    cases fuel with
    | zero => cases hf
    | succ fuel =>
      rw [List.length_cons] at hf
      rw [List.map_cons, List.flatten_cons, readStream, if_neg (fun hn => hne (List.append_eq_nil_iff.mp hn).1), ht k (by omega)]
      dsimp only
      rw [h2 fuel (by omega)]

/-- **C116** If the stream is cut off inside a message, the messages before are read, and then reading fails with `OutOfBounds`. -/
theorem C116_cut (gm m : Mode) (S : Tables) (q : Ir.QIdent) (data : Bytes) (v : Val) (hd : SizedMessage gm m S q data v) (i : Nat)
    (hi : 0 < i) (hl : i < data.length) : ∀ (msgs : List (Bytes × Val)), (∀ p ∈ msgs, SizedMessage gm m S q p.1 p.2) →
    ∃ N, ∀ k, N ≤ k → ∃ vs, List.Forall₂ Same (msgs.map (·.2)) vs ∧
      ∀ fuel, msgs.length < fuel →
        readStream gm m S k q fuel ((msgs.map (·.1)).flatten ++ data.take i) = (vs, .err .outOfBounds)
  | [], _ => ⟨0, fun k _ => ⟨[], .nil, fun fuel hf => by
      cases fuel with
      | zero => cases hf
      | succ fuel =>
        have hn : ¬ data.take i = [] := fun hn => by
          have := congrArg List.length hn
          rw [List.length_take, List.length_nil] at this
          omega
        have : takeMessage gm m S k q (data.take i) = .err .outOfBounds := by
          unfold takeMessage
          obtain ⟨d, h1, h2, -⟩ := hd.parts
          have hlen : data.length = 4 + d.length := by rw [h1, List.length_append, leBytes_length]
          have e1 : readNatAt m .u32 data 0 = .ok d.length := by
            rw [h1]
            exact readNatAt_prefix m d.length h2 _
          have := (readNatAt_cut m .u32 (data.take i) (data.drop i) 0).same
          rw [List.take_append_drop, e1] at this
          rcases this with h | h
          · rw [h]
            rfl
          · rw [← h, Res.ok_bind]
            unfold sliceGet
            rw [if_neg (fun hc => by have := hc.2; rw [List.length_take] at this; omega)]
            rfl
        rw [List.map_nil, List.flatten_nil, List.nil_append, readStream, if_neg hn, this]⟩⟩
  | p :: msgs, h => by
    obtain ⟨N, ih⟩ := C116_cut gm m S q data v hd i hi hl msgs fun p hp => h p (List.mem_cons_of_mem _ hp)
    obtain ⟨hne, v', M, hs, ht⟩ := takeMessage_stream (h p (List.mem_cons_self ..))
    refine ⟨max N M, fun k hk => ?_⟩
    obtain ⟨vs, h1, h2⟩ := ih k (by omega)
    refine ⟨v' :: vs, .cons hs h1, fun fuel hf => ?_⟩
    cases fuel with
    | zero => cases hf
    | succ fuel =>
      rw [List.length_cons] at hf
      rw [List.map_cons, List.flatten_cons, List.append_assoc, readStream, if_neg (fun hn => hne (List.append_eq_nil_iff.mp hn).1),
        ht k (by omega)]
      dsimp only
      rw [h2 fuel (by omega)]

/-- **C116** A message may also be read where it is, without cutting the stream: `get_size_prefixed_root` on all that is left gives the same. -/
theorem C116_in_place (gm m : Mode) (S : Tables) (q : Ir.QIdent) (data : Bytes) (v : Val) (hd : SizedMessage gm m S q data v) :
    ∃ v' N, Same v v' ∧ ∀ k, N ≤ k → ∀ rest, readRoot gm m S k q true (data ++ rest) = .ok v' := by
  obtain ⟨-, -, -, v', N, h1, h2⟩ := hd.parts
  exact ⟨v', N, h1, fun k hk rest => C115_more gm m S k q true data rest v' (h2 k hk)⟩

/-- **C116** Every tree of the schema for which there is room has such a message (C65), so streams can hold any trees. -/
theorem C116_writes (gm m : Mode) (S : Tables) (q : Ir.QIdent) (v : Val) (n : Nat) (h : Conforms gm S (.table q) v n)
    (hn : n + 65576 ≤ 2 ^ 31 - 2 ^ 17) : ∃ data, SizedMessage gm m S q data v := by
  obtain ⟨b₀, h₀⟩ : ∃ b₀, Builder.newWithCapacity 0 = .ok b₀ := ⟨_, rfl⟩
  obtain ⟨o, b₁, b₂, data, _, _, _, hw, e₂, hu, hd, _⟩ := C65_write_read gm m S _ _ _ h hn 0 b₀ h₀ none nofun true
  refine ⟨data, b₁, b₂, o, none, hw, nofun, ?_, hu, hd⟩
  change noRet (b₁.finishWithOpts m o.val none true) = _ at e₂
  obtain ⟨b, e, h⟩ := Res.bind_eq_ok.mp e₂
  cases h
  exact e

/-! ### Examples -/

/-- A stream of two messages with the tree of Props/Tree, and one that is cut off in the second. -/
example (gm m : Mode) : ∃ data, SizedMessage gm m exSchema [c!"T"] data exVal ∧
    (∀ p ∈ [(data, exVal), (data, exVal)], SizedMessage gm m exSchema [c!"T"] p.1 p.2) ∧ 0 < 1 ∧ 1 < data.length := by
  obtain ⟨data, h⟩ := C116_writes gm m exSchema _ _ _ (exVal_conforms gm) (by decide)
  refine ⟨data, h, by simp [h], by decide, ?_⟩
  obtain ⟨d, h1, -⟩ := h.parts
  rw [h1, List.length_append, leBytes_length]
  omega

/-- Two messages of `table T { a: [ubyte]; }` and the beginning of a third. -/
example (gm m : Mode) : readStream gm m cutSchema 3 [c!"T"] 9
      (([25, 0, 0, 0] : Bytes) ++ sevens ++ ([25, 0, 0, 0] : Bytes) ++ sevens ++ [25, 0, 0]) =
    ([.table [some (.vec [.bits 7])], .table [some (.vec [.bits 7])]], .err .outOfBounds) := by
  cases gm <;> cases m <;> rfl

end Butte
