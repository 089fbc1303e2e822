import Verif.Rt.Size
import Verif.Props.Growth
import Verif.Props.Tree
/-
Property C117: how large a message is.
-/
namespace Butte
open Gen

set_option maxRecDepth 8000

/-! ### C117 -/

/-- **C117** one call, in any state that calls can lead to: the data grows at least by the values the call is given and at
most by these, seven bytes of padding and, at the end of a table, its vtable, which is as long as the last slot in use
requires (`Op.least` and `Op.most`). -/
theorem C117_call (m : Mode) (b b' : Builder) (op : Op) (r : Option Nat) (k : Nat) (hk : 2 ≤ k) (hb : Reachable m b)
    (hf : b.SlotsUpTo k) (hr : op.isReset = false) (hi : op.ident4) (h : step m b op = .ok (r, b')) (hs : b'.usedSpace < 2 ^ 32) :
    b.usedSpace + op.least ≤ b'.usedSpace ∧ b'.usedSpace ≤ b.usedSpace + op.most k := by
  have hm := hb.maOk
  obtain ⟨cap, b0, ops, rets, h0, h1⟩ := hb
  obtain ⟨a, e, hR⟩ := run_fwd ops (new_R h0) h1
  obtain ⟨a', e', hR'⟩ := run_fwd [op] hR (rets := [r]) (b' := b') (by rw [run, h]; rfl)
  obtain ⟨⟨r1, a1⟩, e1, e'⟩ := Res.bind_eq_ok.mp e'
  cases e'
  rw [hR'.used] at hs ⊢
  rw [hR.used]
  refine stepA_size hk e1 hr ?_ (hR.minAlign ▸ hm) hi hs
  rw [← hR.fieldLocs]
  exact hf

theorem run_size {m : Mode} {k : Nat} (hk : 2 ≤ k) : ∀ {ops : List Op} {b₀ b : Builder} {rets : List (Option Nat)},
    Reachable m b₀ → b₀.head ≤ b₀.buf.length → b₀.SlotsUpTo k → SlotsWithin k ops → NoReset ops → (∀ op ∈ ops, op.ident4) →
    run m b₀ ops = .ok (rets, b) → b.usedSpace < 2 ^ 32 →
    b₀.usedSpace + (ops.map Op.least).sum ≤ b.usedSpace ∧ b.usedSpace ≤ b₀.usedSpace + (ops.map (Op.most k)).sum ∧
      ∀ b', Passes m b₀ ops b' → b'.usedSpace ≤ b.usedSpace
  | [], b₀, b, rets, _, _, _, _, _, _, h, _ => by
    cases h
    refine ⟨by simp, by simp, ?_⟩
    rintro b' ⟨pre, post, r, e, h⟩
    obtain ⟨rfl, rfl⟩ := List.append_eq_nil_iff.mp e.symm
    cases h
    exact Nat.le_refl _
  | op :: ops, b₀, b, rets, hb, hl, hs, ho, hn, hi, h, hu => by
    have hrun := h
    obtain ⟨⟨r, b₁⟩, h1, h2⟩ := Res.bind_eq_ok.mp h
    obtain ⟨⟨rs, b₂⟩, h3, h4⟩ := Res.bind_eq_ok.mp h2
    cases h4
    have hr := hn op (by simp)
    obtain ⟨g, hs'⟩ := step_grown hk hl hs (ho op (by simp)) hr h1
    have hb1 : Reachable m b₁ := by
      obtain ⟨cap, b0, pre, r0, g0, g1⟩ := hb
      exact ⟨cap, b0, pre ++ [op], _, g0, run_append.mpr ⟨_, _, _, g1, by rw [run, h1]; rfl, rfl⟩⟩
    obtain ⟨i1, i2, i3⟩ := run_size hk hb1 g.fit hs' (fun op h => ho op (by simp [h])) (fun op h => hn op (by simp [h]))
      (fun op h => hi op (by simp [h])) h3 hu
    have hc := C117_call m b₀ b₁ op r k hk hb hs hr (hi op (by simp)) h1 (by omega)
    refine ⟨by rw [List.map_cons, List.sum_cons]; omega, by rw [List.map_cons, List.sum_cons]; omega, ?_⟩
    rintro b' ⟨pre, post, r', e, hp⟩
    cases pre with
    | nil => cases hp; have := g.used; omega
    | cons x pre =>
      injection e with e1 e2
      subst e1
      obtain ⟨⟨r2, b3⟩, f1, f2⟩ := Res.bind_eq_ok.mp hp
      rw [h1] at f1
      cases f1
      obtain ⟨⟨rs', b4⟩, f3, f4⟩ := Res.bind_eq_ok.mp f2
      cases f4
      exact i3 _ ⟨pre, post, _, e2, f3⟩

/-- **C117** any calls on a new builder: the data is at least as long as the values they were given and at most as long as
these with padding and vtables; and the data never was longer before. -/
theorem C117_calls (m : Mode) (cap : Nat) (b₀ b : Builder) (ops : List Op) (rets : List (Option Nat)) (k : Nat) (hk : 2 ≤ k)
    (h₀ : Builder.newWithCapacity cap = .ok b₀) (hs : SlotsWithin k ops) (hn : NoReset ops) (hi : ∀ op ∈ ops, op.ident4)
    (h : run m b₀ ops = .ok (rets, b)) (hu : b.usedSpace < 2 ^ 32) :
    (ops.map Op.least).sum ≤ b.usedSpace ∧ b.usedSpace ≤ (ops.map (Op.most k)).sum ∧
      ∀ b', Passes m b₀ ops b' → b'.usedSpace ≤ b.usedSpace := by
  obtain ⟨h1, h2, h3⟩ := new_fresh h₀ k
  have hu0 : b₀.usedSpace = 0 := by rw [(new_R h₀).used]; rfl
  have := run_size hk ⟨cap, b₀, [], [], h₀, rfl⟩ h2 h3 hs hn hi h hu
  rw [hu0] at this
  simpa using this

/-- **C117** the buffer that the calls took is not larger than the capacity asked for, or twice the data and one vtable
more. -/
theorem C117_buffer (m : Mode) (cap : Nat) (b₀ b : Builder) (ops : List Op) (rets : List (Option Nat)) (k : Nat) (hk : 2 ≤ k)
    (h₀ : Builder.newWithCapacity cap = .ok b₀) (hs : SlotsWithin k ops) (hn : NoReset ops) (hi : ∀ op ∈ ops, op.ident4)
    (h : run m b₀ ops = .ok (rets, b)) (hu : b.usedSpace < 2 ^ 32) :
    b.buf.length ≤ max cap (2 * (b.usedSpace + k + 2)) := by
  have h2 := (C117_calls m cap b₀ b ops rets k hk h₀ hs hn hi h hu).2.2
  rcases C93_memory m cap b₀ b ops rets k hk h₀ hs h with h1 | ⟨b', h1, h3⟩
  · omega
  · have := h2 b' h1; omega

/-- **C117** a whole tree, written by the generated `create` functions and finished: the message is at most 19 bytes longer
than what `Conforms` counts for the tree, which is, for each string, its length and 16 bytes; for each vector its elements
and 16 bytes; for each table what its fields take at most, two bytes in the vtable for each field of the schema, and 16
bytes. The buffer is not larger than the capacity asked for, or twice the message and 128 KiB. -/
theorem C117_message (gm m : Mode) (S : Tables) (q : Ir.QIdent) (v : Val) (n : Nat)
    (h : Conforms gm S (.table q) v n) (hn : n + 65576 ≤ 2 ^ 31 - 2 ^ 17) (cap : Nat) (b₀ : Builder)
    (h₀ : Builder.newWithCapacity cap = .ok b₀) (ident : Option Bytes) (hid : ∀ i, ident = some i → i.length = 4)
    (sp : Bool) :
    ∃ (o : Fin (2 ^ 32)) (b₁ b₂ : Builder) (data : Bytes),
      writeVal gm m S n b₀ (.table q) v = .ok (o.val, b₁) ∧ step m b₁ (.finish o ident sp) = .ok (none, b₂) ∧
      b₂.finishedData m = .ok data ∧
      data.length ≤ n + 7 + 4 + (if sp then 4 else 0) + (if ident.isSome then 4 else 0) ∧
      b₂.buf.length ≤ max cap (2 * (data.length + 65537)) := by
  have hr : Ready m b₀ .start :=
    ⟨⟨_, new_R h₀, Tracks.start m⟩, ⟨cap, b₀, [], [], h₀, rfl, [], [], rfl, .inl rfl, nofun⟩, rfl⟩
  have hu : b₀.usedSpace = 0 := by rw [(new_R h₀).used]; rfl
  obtain ⟨o', b₁', c, e', hm, -, -⟩ := h.canWrite n (Nat.le_refl _) b₀ .start hr (by omega)
  obtain ⟨o, b₁, b₂, data, _, _, e, hw, e₂, hs, hd, -⟩ := C65_write_read gm m S q v n h hn cap b₀ h₀ ident hid sp
  rw [e] at e'
  injection e' with e'
  injection e' with eo eb
  subst eb
  have hused := hm.used
  obtain ⟨ops, rets, hops, hnr, -⟩ := hm.calls
  have hall : run m b₀ (ops ++ [.finish o ident sp]) = .ok (rets ++ [none], b₂) :=
    run_append.mpr ⟨_, _, _, hops, by rw [run, e₂]; rfl, rfl⟩
  have hr1 : Reachable m b₁ := ⟨cap, b₀, ops, rets, h₀, hops⟩
  have hlen : data.length = b₂.usedSpace := by
    obtain ⟨_, -, hd⟩ := Res.bind_eq_ok.mp hd
    cases hd
    simp [Builder.usedSpace]
  have hfl : b₁.SlotsUpTo 65535 := by
    obtain ⟨a, -, hR⟩ := run_fwd ops (new_R h₀) hops
    intro f hf
    have := hR.flOk f (hR.fieldLocs ▸ hf)
    omega
  have hc := C117_call m b₁ b₂ (.finish o ident sp) none 65535 (by omega) hr1 hfl rfl
    (by cases ident with
      | none => exact trivial
      | some i => exact hid i rfl) e₂ (by omega)
  simp only [Op.most] at hc
  refine ⟨o, b₁, b₂, data, e, e₂, hd, by omega, ?_⟩
  rcases C93_memory_any m cap b₀ b₂ _ _ h₀ hall with h1 | ⟨b', ⟨pre, post, r, e3, h3⟩, h4⟩
  · omega
  · have : b'.usedSpace ≤ b₂.usedSpace := by
      rw [e3] at hall
      obtain ⟨_, b'', r2, g1, g2, -⟩ := run_append.mp hall
      rw [h3] at g1
      cases g1
      obtain ⟨a, -, hR⟩ := run_fwd pre (new_R h₀) h3
      obtain ⟨a2, ea2, hR2⟩ := run_fwd post hR g2
      rw [hR.used, hR2.used]
      refine runA_len ea2 fun op hop => ?_
      have : op ∈ ops ++ [.finish o ident sp] := by rw [e3]; simp [hop]
      rcases List.mem_append.mp this with h | h
      · exact hnr op h
      · rw [List.mem_singleton.mp h]; rfl
    omega

/-! ### Examples -/

/-- The tree of Props/Tree, which is counted as 329 bytes. -/
example (gm : Mode) : Conforms gm exSchema (.table [c!"T"]) exVal 329 ∧ 329 + 65576 ≤ 2 ^ 31 - 2 ^ 17 ∧
    ∃ b₀, Builder.newWithCapacity 0 = .ok b₀ := ⟨exVal_conforms gm, by decide, _, rfl⟩

/-- `create_string("hello")` as the first call: four bytes for the length, five of text, the zero at the end and two bytes
of padding; between the 10 and 13 of the theorem. -/
example : (do
      let b₀ ← Builder.newWithCapacity 0
      let (rets, b) ← run .debug b₀ [.createString "hello"]
      return (rets, b.usedSpace)) = Res.ok ([some 12], 12) ∧
    Op.least (.createString "hello") = 10 ∧ Op.most 2 (.createString "hello") = 13 := by
  refine ⟨?_, ?_, ?_⟩ <;> decide +kernel

end Butte
