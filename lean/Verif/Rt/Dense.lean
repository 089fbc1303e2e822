import Verif.Rt.CallerOk
import Verif.Rt.Growth
/-
Many small tables no two of which have the same vtable: lemmas for C102.
-/
namespace Butte

/-- The value that the fields have. -/
def denseVal : PVal (.sc .u8) := (⟨1, by decide⟩ : Fin 256)

/-- The field `t` of a table. -/
def denseOp (t : Nat) (h : 4 + 2 * t < 65536) : Op := .pushSlotAlways ⟨4 + 2 * t, h⟩ _ denseVal

/-- The field `t` of a table, for `t` up to 32765. -/
def densePush (t : Nat) : Op := if h : 4 + 2 * t < 65536 then denseOp t h else .reset

/-- A vtable has a field. -/
def Has (vt : Bytes) (t : Nat) : Prop := 4 + 2 * t < vt.length ∧ leNat (two vt (4 + 2 * t)) ≠ 0

theorem dense_slot {t : Nat} (h : t < 32765) : (densePush t).slot? = some (4 + 2 * t) := by
  unfold densePush
  rw [dif_pos (by omega)]
  rfl

theorem dense_stored {t : Nat} (h : t < 32765) : (densePush t).stored = some ⟨4 + 2 * t, _, denseVal⟩ := by
  unfold densePush
  rw [dif_pos (by omega)]
  rfl

theorem dense_inBody {t : Nat} (h : t < 32765) : (densePush t).inBody = true := by
  unfold densePush
  rw [dif_pos (by omega)]
  rfl

/-- The fields of a table are pushed. -/
theorem dense_body {m : Mode} {tail s : Nat} (hs : s < 32765) : ∀ (l : List Nat) {c : Caller} {a : ABuilder} {body : List Op}, Tracks m c a →
    c.building = .table tail body → (∀ t ∈ l, t < s) → l.Nodup → (∀ t ∈ l, 4 + 2 * t ∉ body.filterMap Op.slot?) →
    a.data.length + 2 * l.length ≤ 2 ^ 31 - 2 ^ 17 → (∀ f ∈ a.fieldLocs, f.id ≤ 2 + 2 * s) →
    ∃ c' a' rets, runA m a (l.map densePush) = .ok (rets, a') ∧ Tracks m c' a' ∧
      c'.building = .table tail (body ++ l.map densePush) ∧ a'.data.length = a.data.length + l.length ∧
      (∀ f ∈ a'.fieldLocs, f.id ≤ 2 + 2 * s)
  | [], c, a, body, h, hc, _, _, _, _, hf => ⟨c, a, [], rfl, h, by simpa using hc, rfl, hf⟩
  | t :: l, c, a, body, h, hc, hl, hn, hd, hsz, hf => by
    rw [List.length_cons] at hsz
    have ht : t < 32765 := by have := hl t (by simp); omega
    have hop : densePush t = .pushSlotAlways ⟨4 + 2 * t, by omega⟩ _ denseVal := by
      unfold densePush
      rw [dif_pos (by omega)]; rfl
    obtain ⟨r, a1, e1, h1⟩ := h.step (op := densePush t) (by
        rw [hop]
        refine ⟨⟨by dsimp only; omega, by dsimp only; omega, by dsimp only; omega⟩, trivial, tail, body, hc, hd t (by simp)⟩)
      (by
        rw [hop]
        show a.data.length + 2 * 1 ≤ _
        omega)
      (by rw [hop]; nofun)
    have e1' := e1
    rw [hop] at e1
    have hc1 : (c.next (densePush t) r).building = .table tail (body ++ [densePush t]) := by
      rw [hop]
      simp only [Caller.next, hc]
    have hnest : a.nested = true := by rw [h.nested, hc]
    have key : a1.data.length = a.data.length + 1 ∧ a1.fieldLocs.map FieldLoc.id = a.fieldLocs.map FieldLoc.id ++ [4 + 2 * t] := by
      obtain ⟨o, a2, p1, _, _, _, p2⟩ := push_okA (m := m) (a := a) (x := denseVal) (by omega) trivial
      have p3 := push_fl p1
      have : stepA m a (.pushSlotAlways ⟨4 + 2 * t, by omega⟩ _ denseVal) = .ok (none, { a2 with fieldLocs := a2.fieldLocs ++ [⟨4 + 2 * t, o⟩] }) := by
        refine noRetA_ok ?_
        unfold ABuilder.pushSlotAlways
        rw [debugAssert_ok hnest, Res.ok_bind, p1]
        rfl
      rw [this] at e1
      cases e1
      refine ⟨p2 (Nat.mod_one _), ?_⟩
      dsimp only at p3 ⊢
      rw [p3.1]
      simp
    have hn' := List.nodup_cons.mp hn
    obtain ⟨c', a', rets, k1, k2, k3, k4, k5⟩ := dense_body hs l h1 hc1 (fun t h => hl t (by simp [h])) hn'.2 (by
        intro t' ht' hm
        rw [List.filterMap_append, List.mem_append] at hm
        rcases hm with hm | hm
        · exact hd t' (by simp [ht']) hm
        · rw [List.filterMap_cons, dense_slot ht] at hm
          have : 4 + 2 * t' = 4 + 2 * t := by simpa using hm
          have : t' = t := by omega
          exact hn'.1 (this ▸ ht'))
      (by rw [key.1]; omega) (by
        intro f hf'
        have : f.id ∈ a1.fieldLocs.map FieldLoc.id := List.mem_map_of_mem hf'
        rw [key.2, List.mem_append] at this
        rcases this with this | this
        · obtain ⟨g, h1, h2⟩ := List.mem_map.mp this
          rw [← h2]
          exact hf g h1
        · have h1 : f.id = 4 + 2 * t := by simpa using this
          have := hl t (by simp)
          omega)
    refine ⟨c', a', r :: rets, ?_, k2, by simpa using k3, by rw [k4, key.1, List.length_cons]; omega, k5⟩
    rw [List.map_cons, runA, e1']
    show (runA m a1 _ >>= _) = _
    rw [k1]
    rfl

/-- The fields of table `i`: the bits of `i`. -/
def denseFields (s i : Nat) : List Nat := (List.range s).filter fun t => i.testBit t

theorem dense_mem {s i t : Nat} : t ∈ denseFields s i ↔ t < s ∧ i.testBit t = true := by
  simp [denseFields]

theorem dense_nodup (s i : Nat) : (denseFields s i).Nodup := List.nodup_range.filter _

theorem dense_len (s i : Nat) : (denseFields s i).length ≤ s := by
  simpa [denseFields] using List.length_filter_le (fun t => i.testBit t) (List.range s)

/-- The calls that build table `i` at `tail`. -/
def denseTable (s i : Nat) (tail : Fin (2 ^ 32)) : List Op :=
  .startTable :: ((denseFields s i).map densePush ++ [.endTable tail])

theorem bits_ext {s i j : Nat} (hi : i < 2 ^ s) (hj : j < 2 ^ s) (h : ∀ t < s, i.testBit t = true ↔ j.testBit t = true) : i = j := by
  apply Nat.eq_of_testBit_eq
  intro t
  by_cases ht : t < s
  · have := h t ht
    cases h1 : i.testBit t <;> cases h2 : j.testBit t <;> simp_all
  · rw [Nat.testBit_lt_two_pow (Nat.lt_of_lt_of_le hi (Nat.pow_le_pow_right (by omega) (by omega))),
      Nat.testBit_lt_two_pow (Nat.lt_of_lt_of_le hj (Nat.pow_le_pow_right (by omega) (by omega)))]

/-- The vtables of the first `i` tables are recorded, and nothing else. -/
structure Dense (m : Mode) (s i : Nat) (a : ABuilder) : Prop where
  tracks : ∃ c, Tracks m c a ∧ c.building = .nothing
  count : a.vtables.length = i
  those : ∀ r ∈ a.vtables, ∃ vt, VtFmt vt ∧ At a.data r vt ∧ ∃ j, j < i ∧ ∀ t < s, Has vt t ↔ j.testBit t = true
  size : a.data.length ≤ (3 * s + 11) * i

theorem Dense.start (m : Mode) (s : Nat) : Dense m s 0 .init :=
  ⟨⟨.start, Tracks.start m, rfl⟩, rfl, nofun, Nat.zero_le _⟩

theorem filterMap_stored {s : Nat} (hs : s ≤ 32765) : ∀ (l : List Nat), (∀ t ∈ l, t < s) →
    (l.map densePush).filterMap Op.stored = l.map fun t => ⟨4 + 2 * t, _, denseVal⟩
  | [], _ => rfl
  | t :: l, h => by
    rw [List.map_cons, List.filterMap_cons, dense_stored (by have := h t (by simp); omega)]
    dsimp only
    rw [filterMap_stored hs l fun t ht => h t (by simp [ht])]
    rfl

/-- One table more. -/
theorem Dense.next {m : Mode} {s i : Nat} {a : ABuilder} (h : Dense m s i a) (hs : s ≤ 1000) (hi : i < 2 ^ s)
    (hsz : a.data.length ≤ 2 ^ 31 - 2 ^ 18) :
    ∃ (tail : Fin (2 ^ 32)) (rets : List (Option Nat)) (a1 a2 : ABuilder) (r r' : Option Nat), stepA m a .startTable = .ok (r, a1) ∧
      a1.data = a.data ∧ runA m a1 ((denseFields s i).map densePush) = .ok (rets, a2) ∧
      a2.data.length ≤ 2 ^ 31 - 2 ^ 17 ∧ a2.vtables = a.vtables ∧
      ∃ a3, stepA m a2 (.endTable tail) = .ok (r', a3) ∧ Dense m s (i + 1) a3 := by
  obtain ⟨c, ht, hc⟩ := h.tracks
  have hfl : a.fieldLocs = [] := by
    have := ht.pending
    rw [hc] at this
    exact this
  obtain ⟨r, a1, e1, t1⟩ := ht.step (op := .startTable) hc (by show _ + 0 ≤ _; omega) (by nofun)
  have e1' := e1
  simp only [stepA] at e1'
  have hst := startTable_okA (m := m) (a := a) (by rw [ht.nested, hc])
  rw [hst] at e1'
  cases e1'
  rw [Nat.mod_eq_of_lt (by omega)] at hst
  have hl := dense_len s i
  have hlt : ∀ t ∈ denseFields s i, t < s := fun t h => (dense_mem.mp h).1
  obtain ⟨c2, a2, rets, e2, t2, hb2, hlen2, hf2⟩ := dense_body (m := m) (s := s) (by omega) (denseFields s i) t1 rfl hlt (dense_nodup s i)
    (by intro t _; exact List.not_mem_nil) (by show a.data.length + _ ≤ _; omega)
    (by intro f hf; rw [show ({ a with nested := true } : ABuilder).fieldLocs = [] from hfl] at hf; cases hf)
  rw [List.nil_append] at hb2
  change a2.data.length = a.data.length + (denseFields s i).length at hlen2
  have hb : ∀ op ∈ (denseFields s i).map densePush, op.inBody = true := by
    intro op hop
    obtain ⟨t, h1, rfl⟩ := List.mem_map.mp hop
    exact dense_inBody (by have := hlt t h1; omega)
  obtain ⟨locs, -, -, -, hv2, -⟩ := body_spec e2 hb (by omega)
  have htail : a.data.length % 2 ^ 32 = a.data.length := Nat.mod_eq_of_lt (by omega)
  simp only [Option.getD_some, htail] at hb2
  let tail : Fin (2 ^ 32) := ⟨a.data.length, by omega⟩
  obtain ⟨r', a3, e3, t3⟩ := t2.step (op := .endTable tail) ⟨_, hb2⟩ (by show _ + (65536 + 8) ≤ _; omega)
    (by rintro t h; cases h; show _ < a.data.length + 65536; omega)
  refine ⟨tail, rets, _, a2, _, r', e1, rfl, e2, by omega, hv2, a3, e3, ?_⟩
  have hso : ∀ f ∈ ((denseFields s i).map densePush).filterMap Op.stored, SlotOk f.slot := by
    rw [filterMap_stored (by omega) _ hlt]
    intro f hf
    obtain ⟨t, h1, rfl⟩ := List.mem_map.mp hf
    have := hlt t h1
    exact ⟨by dsimp only; omega, by dsimp only; omega, by dsimp only; omega⟩
  have hslots : (((denseFields s i).map densePush).filterMap Op.stored).map Fld.slot = (denseFields s i).map fun t => 4 + 2 * t := by
    rw [filterMap_stored (by omega) _ hlt, List.map_map]
    rfl
  have hnd : ((((denseFields s i).map densePush).filterMap Op.stored).map Fld.slot).Nodup := by
    rw [hslots]
    exact List.Pairwise.map (fun t => 4 + 2 * t) (fun x y (h : x ≠ y) => show 4 + 2 * x ≠ 4 + 2 * y by omega) (dense_nodup s i)
  have e3' := e3
  simp only [stepA] at e3'
  obtain ⟨⟨o, a3'⟩, e4, e5⟩ := Res.bind_eq_ok.mp (show (a2.endTable m tail >>= fun r => pure (some r.1, r.2)) = _ from e3')
  cases e5
  have hlen3 := t3.len
  dsimp only at hlen3
  -- what is written
  have hw : a3'.data.length ≤ a2.data.length + 7 + (2 * s + 4) ∧ o ≤ a2.data.length + 7 := by
    have e4 := e4
    unfold ABuilder.endTable at e4
    obtain ⟨_, _, e4⟩ := Res.bind_eq_ok.mp e4
    obtain ⟨⟨o', a4⟩, h2, e4⟩ := Res.bind_eq_ok.mp e4
    cases e4
    obtain ⟨vt, u, post, hp, ho, hvt, _, _, _, _, hd⟩ := writeVTable_spec h2 (by simp only at hlen3; omega)
    have hpad := padding_lt (n := a2.data.length + 4) (by omega) pow2_4
    have hvl := vtableBytes_length hvt
    have hvle := Builder.vtableByteLen_le (k := 2 + 2 * s) (by omega) hf2
    have hpl : post.length = paddingBytes (a2.data.length + 4) 4 + a2.data.length := by
      rw [hp, List.length_append, List.length_replicate]
    dsimp only at hd ⊢
    refine ⟨?_, by omega⟩
    rcases hd with ⟨_, _, hd, _⟩ | ⟨_, _, hd, _⟩ <;> rw [hd] <;> simp only [List.length_append, leBytes_length] <;> omega
  have hfit : o - a.data.length < 65536 := by omega
  obtain ⟨w1, w2, w3, w4, _, _, _, _, _, _, _, vt, v1, v2, v3⟩ := table_spec (m := m) hfl
    (fun r hr => by obtain ⟨vt, _, k2, _⟩ := h.those r hr; exact k2.le) hst e2 e4 hb hso hnd (fun _ => hfit) (by omega)
  -- its vtable has the fields of the table
  have hhas : ∀ t < s, Has vt t ↔ i.testBit t = true := by
    obtain ⟨vt', x1, ⟨u', x2, x2'⟩, x3, x4⟩ := w1
    obtain ⟨u, y2, y2'⟩ := v2
    have q1 := vtable_at (m := m) x2 x2' (by omega)
    have q2 := vtable_at (m := m) y2 y2' (by omega)
    rw [q1] at q2
    have q3 : a3'.data.length - u' = a3'.data.length - u := by
      have := Res.ok.inj q2
      exact congrArg VTable.loc this
    have q4 := asBytes_at (m := m) x2' x1 (by omega)
    have q5 := asBytes_at (m := m) y2' v1 (by omega)
    rw [q3, q5] at q4
    cases q4
    rw [hslots] at x4
    rw [filterMap_stored (by omega) _ hlt] at x3
    intro t ht
    constructor
    · rintro ⟨g1, g2⟩
      by_contra hbit
      refine g2 (x4 (4 + 2 * t) (by omega) (by omega) ?_ g1)
      intro hm
      obtain ⟨t', g3, g4⟩ := List.mem_map.mp hm
      have : t' = t := by omega
      exact hbit (this ▸ (dense_mem.mp g3).2)
    · intro hbit
      obtain ⟨_, g2, off, _, _, g5, g6, _⟩ := x3 ⟨4 + 2 * t, _, denseVal⟩ (List.mem_map_of_mem (dense_mem.mpr ⟨ht, hbit⟩))
      exact ⟨g2, by dsimp only at g6; omega⟩
  have hnew : ∀ r ∈ a.vtables, ¬ At a.data r vt := by
    intro r hr hat
    obtain ⟨vt', k1, k2, j, k3, k4⟩ := h.those r hr
    have q4 := asBytes_at (m := m) k2 k1 (by omega)
    have q5 := asBytes_at (m := m) hat v1 (by omega)
    rw [q4] at q5
    cases q5
    have := bits_ext hi (by omega) fun t ht => (hhas t ht).symm.trans (k4 t ht)
    omega
  rcases v3 with ⟨⟨r, hr, hat⟩, _⟩ | ⟨_, v5, v6, _⟩
  · exact absurd hat (hnew r hr)
  · obtain ⟨y, hy⟩ := w2
    refine ⟨⟨_, t3, ?_⟩, ?_, ?_, ?_⟩
    · simp only [Caller.next, hb2]
    · dsimp only at v5 ⊢
      rw [v5, List.length_append, h.count]
      rfl
    · intro r hr
      dsimp only at hr ⊢
      rw [v5] at hr
      rcases List.mem_append.mp hr with hr | hr
      · obtain ⟨vt', k1, k2, j, k3, k4⟩ := h.those r hr
        exact ⟨vt', k1, by rw [hy]; exact k2.prepend y, j, by omega, k4⟩
      · have : r = a3'.data.length := by simpa using hr
        rw [this]
        exact ⟨vt, v1, v6, i, by omega, hhas⟩
    · have := h.size
      dsimp only
      rw [Nat.mul_add, Nat.mul_one]
      omega

end Butte
