import Verif.Rt.ReadLemmas
/-
Properties C05 and C06: iterating vectors.
-/
namespace Butte

/-! ### Specification: a double-ended queue -/

/-- The calls one can make on an iterator. -/
inductive ItOp where
  | next | nextBack | nth (k : Nat) | nthBack (k : Nat) | len

/-- What a call answers: an item (or `None`), or a number. -/
inductive Reply (α : Type) where
  | item (x : Option α)
  | num (n : Nat)

/-- Take the first element of a queue of (possibly panicking) computations. -/
def popFront {α : Type} : List (Res α) → Res (Reply α × List (Res α))
  | [] => .ok (.item none, [])
  | r :: q => do
    let x ← r
    return (.item (some x), q)

/-- Take the last element. -/
def popBack {α : Type} (q : List (Res α)) : Res (Reply α × List (Res α)) :=
  match q.getLast? with
  | none => .ok (.item none, [])
  | some r => do
    let x ← r
    return (.item (some x), q.dropLast)

/-- The queue's answers: `nth(k)` drops `k` elements first, `nth_back(k)` drops `k` at the back first. -/
def dqStep {α : Type} (q : List (Res α)) : ItOp → Res (Reply α × List (Res α))
  | .next => popFront q
  | .nextBack => popBack q
  | .nth k => popFront (q.drop k)
  | .nthBack k => popBack (q.take (q.length - k))
  | .len => .ok (.num q.length, q)

/-- Answers to a sequence of calls on the queue. -/
def dqRun {α : Type} : List (Res α) → List ItOp → Res (List (Reply α))
  | _, [] => .ok []
  | q, op :: ops => do
    let (r, q) ← dqStep q op
    let rs ← dqRun q ops
    return r :: rs

/-! ### The iterator of the crate -/

/-- Wrap an iterator item as a reply. -/
def replyItem {e : FTy} (r : Res (VIter.Item e × VIter e)) : Res (Reply (Except Error e.Inner) × VIter e) := do
  let (x, it) ← r
  return (.item x, it)

/-- One call on `VectorIter` (vector.rs 228-292). -/
def VIter.step (m : Mode) {e : FTy} (it : VIter e) : ItOp → Res (Reply (Except Error e.Inner) × VIter e)
  | .next => replyItem (it.next m)
  | .nextBack => replyItem (it.nextBack m)
  | .nth k => replyItem (it.nth m k)
  | .nthBack k => replyItem (it.nthBack m k)
  | .len => .ok (.num it.len, it)

/-- Answers to a sequence of calls on the iterator. -/
def VIter.run (m : Mode) {e : FTy} : VIter e → List ItOp → Res (List (Reply (Except Error e.Inner)))
  | _, [] => .ok []
  | it, op :: ops => do
    let (r, it) ← it.step m op
    let rs ← VIter.run m it ops
    return r :: rs

/-- `for x in it`: the items handed out until the first `None`. -/
inductive Collects (m : Mode) {e : FTy} : VIter e → List (Except Error e.Inner) → Prop
  | done {it it' : VIter e} : it.next m = .ok (none, it') → Collects m it []
  | more {it it' : VIter e} {x xs} : it.next m = .ok (some x, it') → Collects m it' xs → Collects m it (x :: xs)

/-! ### Representation -/

structure Rep (m : Mode) {e : FTy} (it : VIter e) (q : List (Res (Except Error e.Inner))) : Prop where
  len : it.remaining = q.length
  bound : it.remaining = 0 ∨ it.loc + e.size * it.remaining < 2 ^ 64
  elems : ∀ i (h : i < q.length), q[i] = VIter.item (e.follow m it.buf (it.loc + e.size * i))

theorem debugAssert_true (m : Mode) {c : Bool} (h : c = true) : debugAssert m c = .ok () := by
  unfold debugAssert; rw [if_neg]; simp [h]

theorem Rep.next {m : Mode} {e : FTy} {it : VIter e} {q} (h : Rep m it q) (hz : 0 < e.size) :
    match popFront q with
    | .ok (r, q') => ∃ x it', it.next m = .ok (x, it') ∧ r = .item x ∧ Rep m it' q'
    | .err e' => False
    | .panic => it.next m = .panic := by
  unfold VIter.next
  rw [debugAssert_true m (by simpa using hz)]
  simp only [Res.ok_bind]
  cases q with
  | nil =>
    have hl := h.len
    simp only [List.length_nil] at hl
    rw [if_pos hl]
    exact ⟨none, it, rfl, rfl, h⟩
  | cons r q =>
    have hl := h.len
    simp only [List.length_cons] at hl
    have he := h.elems 0 (by simp)
    simp only [List.getElem_cons_zero, Nat.mul_zero, Nat.add_zero] at he
    rw [if_neg (by omega)]
    have hb : it.loc + e.size * it.remaining < 2 ^ 64 := by
      rcases h.bound with hb | hb
      · omega
      · exact hb
    have hmul : e.size * it.remaining = e.size * (it.remaining - 1) + e.size := by
      have : it.remaining = it.remaining - 1 + 1 := by omega
      conv_lhs => rw [this, Nat.mul_add, Nat.mul_one]
    cases hf : VIter.item (e.follow m it.buf it.loc) with
    | panic =>
      rw [hf] at he; subst he
      simp [popFront]
    | err x =>
      cases hg : e.follow m it.buf it.loc <;> rw [hg] at hf <;> cases hf
    | ok x =>
      rw [hf] at he; subst he
      simp only [popFront, Res.ok_bind, Res.pure_eq]
      rw [addU_ok (by omega)]
      refine ⟨some x, _, rfl, rfl, ?_, ?_, ?_⟩
      · simp only; omega
      · right; simp only; omega
      · intro i hi
        have := h.elems (i + 1) (by simpa using hi)
        simp only [List.getElem_cons_succ] at this
        rw [this]
        simp only
        congr 2
        rw [Nat.mul_add]; omega

theorem Rep.nextBack {m : Mode} {e : FTy} {it : VIter e} {q} (h : Rep m it q) (hz : 0 < e.size) :
    match popBack q with
    | .ok (r, q') => ∃ x it', it.nextBack m = .ok (x, it') ∧ r = .item x ∧ Rep m it' q'
    | .err e' => False
    | .panic => it.nextBack m = .panic := by
  unfold VIter.nextBack popBack
  rw [debugAssert_true m (by simpa using hz)]
  simp only [Res.ok_bind]
  have hl := h.len
  by_cases hn : q = []
  · subst hn
    simp only [List.length_nil] at hl
    rw [if_pos hl]
    exact ⟨none, it, rfl, rfl, h⟩
  · have hpos : 0 < q.length := List.length_pos_iff.mpr hn
    rw [if_neg (by omega)]
    have hb : it.loc + e.size * it.remaining < 2 ^ 64 := by
      rcases h.bound with hb | hb
      · omega
      · exact hb
    have hmul : e.size * it.remaining = e.size * (it.remaining - 1) + e.size := by
      have : it.remaining = it.remaining - 1 + 1 := by omega
      conv_lhs => rw [this, Nat.mul_add, Nat.mul_one]
    rw [mulU_ok (by omega)]
    simp only [Res.ok_bind]
    rw [addU_ok (by omega)]
    simp only [Res.ok_bind]
    have he := h.elems (q.length - 1) (by omega)
    rw [List.getLast?_eq_getElem?, List.getElem?_eq_getElem (by omega), he]
    rw [← hl]
    cases hf : VIter.item (e.follow m it.buf (it.loc + e.size * (it.remaining - 1))) with
    | panic => simp
    | err x =>
      cases hg : e.follow m it.buf (it.loc + e.size * (it.remaining - 1)) <;> rw [hg] at hf <;> cases hf
    | ok x =>
      simp only [Res.ok_bind, Res.pure_eq]
      refine ⟨some x, _, rfl, rfl, ?_, ?_, ?_⟩
      · simp; omega
      · right; simp only; omega
      · intro i hi
        simp only [List.length_dropLast] at hi
        rw [List.getElem_dropLast]
        exact h.elems i (by omega)

theorem Rep.drop {m : Mode} {e : FTy} {it : VIter e} {q} (h : Rep m it q) (k : Nat) (d : Nat)
    (hd : k < it.remaining → d = e.size * k) :
    Rep m { it with remaining := it.remaining - k, loc := (it.loc + d) % 2 ^ 64 } (q.drop k) := by
  have hl := h.len
  refine ⟨by simp [hl], ?_, ?_⟩
  · simp only
    by_cases hk : k < it.remaining
    · right
      rw [hd hk]
      have hb : it.loc + e.size * it.remaining < 2 ^ 64 := by
        rcases h.bound with hb | hb
        · omega
        · exact hb
      have hmul : e.size * it.remaining = e.size * k + e.size * (it.remaining - k) := by
        rw [← Nat.mul_add]; congr 1; omega
      rw [Nat.mod_eq_of_lt (by omega)]; omega
    · left; omega
  · intro i hi
    simp only [List.length_drop] at hi
    rw [List.getElem_drop, h.elems (k + i) (by omega)]
    simp only
    congr 2
    have hb : it.loc + e.size * it.remaining < 2 ^ 64 := by
      rcases h.bound with hb | hb
      · omega
      · exact hb
    have hmul : e.size * it.remaining = e.size * k + e.size * (it.remaining - k) := by
      rw [← Nat.mul_add]; congr 1; omega
    rw [hd (by omega), Nat.mod_eq_of_lt (by omega), Nat.mul_add]; omega

theorem Rep.take {m : Mode} {e : FTy} {it : VIter e} {q} (h : Rep m it q) (k : Nat) :
    Rep m { it with remaining := it.remaining - k } (q.take (q.length - k)) := by
  have hl := h.len
  refine ⟨by simp [hl], ?_, ?_⟩
  · simp only
    rcases h.bound with hb | hb
    · left; omega
    · right
      have : e.size * (it.remaining - k) ≤ e.size * it.remaining := Nat.mul_le_mul_left _ (by omega)
      omega
  · intro i hi
    simp only [List.length_take] at hi
    rw [List.getElem_take]
    exact h.elems i (by omega)

/-- Bridge: a `popFront`/`popBack`-style description gives equal replies. -/
theorem reply_eq {m : Mode} {e : FTy} {P : Res (Reply (Except Error e.Inner) × List (Res (Except Error e.Inner)))}
    {N : Res (VIter.Item e × VIter e)}
    (h : match P with
      | .ok (r, q') => ∃ x it', N = .ok (x, it') ∧ r = .item x ∧ Rep m it' q'
      | .err _ => False
      | .panic => N = .panic) :
    (∃ r q' it', P = .ok (r, q') ∧ replyItem N = .ok (r, it') ∧ Rep m it' q') ∨
      (P = .panic ∧ replyItem N = .panic) := by
  cases P with
  | ok p =>
    obtain ⟨r, q'⟩ := p
    obtain ⟨x, it', h1, rfl, h3⟩ := h
    left
    exact ⟨_, q', it', rfl, by rw [h1]; rfl, h3⟩
  | err e => exact h.elim
  | panic =>
    right
    refine ⟨rfl, ?_⟩
    simp only at h
    rw [h]; rfl

/-- A call whose arithmetic cannot overflow in a debug build. -/
def ItOp.noOverflow (sz : Nat) : ItOp → Prop
  | .nth k => sz * k < 2 ^ 64
  | _ => True

theorem Rep.step {m : Mode} {e : FTy} {it : VIter e} {q} (h : Rep m it q) (hz : 0 < e.size) (op : ItOp)
    (hop : m = .debug → op.noOverflow e.size) (hr : it.remaining < 2 ^ 32) (hsz : e.size ≤ 24) :
    (∃ r q' it', dqStep q op = .ok (r, q') ∧ it.step m op = .ok (r, it') ∧ Rep m it' q') ∨
      (dqStep q op = .panic ∧ it.step m op = .panic) := by
  cases op with
  | next => exact reply_eq (h.next hz)
  | nextBack => exact reply_eq (h.nextBack hz)
  | len => left; exact ⟨_, q, it, rfl, by simp only [VIter.step, VIter.len, h.len], h⟩
  | nthBack k => exact reply_eq ((h.take k).nextBack hz)
  | nth k =>
    simp only [dqStep, VIter.step, VIter.nth]
    rw [debugAssert_true m (by simpa using hz)]
    simp only [Res.ok_bind]
    have hm : ∃ d, mulU m e.size k = .ok d ∧ (k < it.remaining → d = e.size * k) := by
      by_cases ho : e.size * k < 2 ^ 64
      · exact ⟨_, mulU_ok ho, fun _ => rfl⟩
      · cases m with
        | debug => exact absurd (hop rfl) ho
        | release =>
          refine ⟨(e.size * k) % 2 ^ 64, by unfold mulU mulW; rw [if_neg ho], fun hk => ?_⟩
          have : e.size * k ≤ 24 * k := Nat.mul_le_mul_right _ hsz
          omega
    obtain ⟨d, hd, hk⟩ := hm
    rw [hd]
    simp only [Res.ok_bind]
    exact reply_eq ((h.drop k d hk).next hz)

theorem FTy.size_le (e : FTy) : e.size ≤ 24 := by
  cases e <;> simp only [FTy.size] <;> first
    | decide
    | (rename_i t; have := t.size_le; omega)
    | (rename_i t _; have := t.size_le; omega)

theorem Rep.run {m : Mode} {e : FTy} (hz : 0 < e.size) : ∀ (ops : List ItOp) {it : VIter e} {q}, Rep m it q →
    (m = .debug → ∀ op ∈ ops, op.noOverflow e.size) → it.remaining < 2 ^ 32 →
    it.run m ops = dqRun q ops
  | [], it, q, _, _, _ => rfl
  | op :: ops, it, q, h, hop, hr => by
    simp only [VIter.run, dqRun]
    rcases h.step hz op (fun hm => hop hm op (List.mem_cons_self ..)) hr e.size_le with ⟨r, q', it', h1, h2, h3⟩ | ⟨h1, h2⟩
    · rw [h1, h2]
      simp only [Res.ok_bind]
      have hr' : it'.remaining < 2 ^ 32 := by
        have hle : q'.length ≤ q.length := by
          clear h2 h3 hop
          cases op <;> simp only [dqStep] at h1
          case len => cases h1; exact Nat.le_refl _
          case next =>
            cases q with
            | nil => cases h1; simp
            | cons r0 q0 =>
              simp only [popFront] at h1
              obtain ⟨x, _, h1⟩ := Res.bind_eq_ok.mp h1
              cases h1; simp
          case nth k =>
            cases hq : q.drop k with
            | nil => rw [hq] at h1; cases h1; simp
            | cons r0 q0 =>
              rw [hq] at h1
              simp only [popFront] at h1
              obtain ⟨x, _, h1⟩ := Res.bind_eq_ok.mp h1
              cases h1
              have := congrArg List.length hq
              simp at this; omega
          case nextBack =>
            unfold popBack at h1
            split at h1
            · cases h1; simp
            · obtain ⟨x, _, h1⟩ := Res.bind_eq_ok.mp h1
              cases h1; simp
          case nthBack k =>
            unfold popBack at h1
            split at h1
            · cases h1; simp
            · obtain ⟨x, _, h1⟩ := Res.bind_eq_ok.mp h1
              cases h1; simp; omega
        have := h.len; have := h3.len; omega
      rw [Rep.run hz ops h3 (fun hm o ho => hop hm o (List.mem_cons_of_mem _ ho)) hr']
    · rw [h1, h2]; rfl

theorem Vec.get_eq {m : Mode} {e : FTy} {v : Vec e} {n i : Nat} (hv : v.buf.Valid) (hz : 0 < e.size)
    (hn : v.len m = .ok n) (hi : i < n) :
    v.get m i = e.follow m v.buf (v.loc + 4 + e.size * i) := by
  have h1 := (readNatAt_ok hn hv).1
  have h2 : n < 2 ^ 32 := readNatAt_lt hn
  have hs : STy.size .u32 = 4 := rfl
  have hi' : isizeMax = 2 ^ 63 - 1 := rfl
  unfold Bytes.Valid at hv
  have hm : e.size * i ≤ 24 * i := Nat.mul_le_mul_right _ e.size_le
  unfold Vec.get
  unfold Vec.len at hn
  rw [hn]
  have hda : debugAssert m (decide (i < n)) = .ok () := debugAssert_true m (by simpa using hi)
  have hdz : debugAssert m (decide (0 < e.size)) = .ok () := debugAssert_true m (by simpa using hz)
  simp only [hda, hdz, Res.ok_bind, Res.pure_eq, ite_self]
  rw [addU_ok (by omega)]
  simp only [Res.ok_bind]
  rw [mulU_ok (by omega)]
  simp only [Res.ok_bind]
  rw [addU_ok (by omega)]
  cases m <;> rfl

theorem iter_rep {m : Mode} {e : FTy} {v : Vec e} {n : Nat} (hv : v.buf.Valid) (hz : 0 < e.size)
    (hn : v.len m = .ok n) :
    ∃ it, v.iter m = .ok it ∧ it.remaining = n ∧
      Rep m it ((List.range n).map fun i => VIter.item (v.get m i)) := by
  have h1 := (readNatAt_ok hn hv).1
  have h2 : n < 2 ^ 32 := readNatAt_lt hn
  have hs : STy.size .u32 = 4 := rfl
  have hi' : isizeMax = 2 ^ 63 - 1 := rfl
  have hv' := hv
  unfold Bytes.Valid at hv'
  have hm : e.size * n ≤ 24 * n := Nat.mul_le_mul_right _ e.size_le
  refine ⟨⟨v.buf, v.loc + 4, n⟩, ?_, rfl, ?_, ?_, ?_⟩
  · unfold Vec.iter
    rw [hn]
    simp only [Res.unwrapOr, Res.ok_bind, VIter.new]
    rw [addU_ok (by omega)]; rfl
  · simp
  · right; simp only; omega
  · intro i hi
    simp only [List.length_map, List.length_range] at hi
    simp only [List.getElem_map, List.getElem_range]
    rw [Vec.get_eq hv hz hn hi]

/-! ### C06 -/

/-- **C06** On a vector of `n` elements, the iterator answers every sequence of calls exactly as a
double-ended queue holding `get(0), …, get(n-1)` does — including which call panics, if following an element
panics in a debug build. Only in debug builds is `nth(k)` with `size * k` beyond `usize` excluded. -/
theorem C06_iterator_is_queue (m : Mode) (e : FTy) (v : Vec e) (n : Nat) (ops : List ItOp) (hv : v.buf.Valid)
    (hz : 0 < e.size) (hn : v.len m = .ok n) (hk : m = .debug → ∀ op ∈ ops, op.noOverflow e.size) :
    (v.iter m >>= fun it => it.run m ops) =
      dqRun ((List.range n).map fun i => VIter.item (v.get m i)) ops := by
  obtain ⟨it, h1, hr, h2⟩ := iter_rep hv hz hn
  rw [h1]
  simp only [Res.ok_bind]
  exact h2.run hz ops hk (by have h2 : n < 2 ^ 32 := readNatAt_lt hn; omega)

/-- **C06**, fused: once the queue is empty, every further request for an item answers `None`. -/
theorem C06_fused (m : Mode) (e : FTy) (it : VIter e) (hz : 0 < e.size) (h : it.remaining = 0) (k : Nat)
    (hk : m = .debug → e.size * k < 2 ^ 64) :
    (∃ it', it.next m = .ok (none, it') ∧ it'.remaining = 0) ∧
    (∃ it', it.nextBack m = .ok (none, it') ∧ it'.remaining = 0) ∧
    (∃ it', it.nth m k = .ok (none, it') ∧ it'.remaining = 0) ∧
    (∃ it', it.nthBack m k = .ok (none, it') ∧ it'.remaining = 0) := by
  have hd := debugAssert_true m (c := decide (0 < e.size)) (by simpa using hz)
  have hm : ∃ d, mulU m e.size k = .ok d := by
    cases m with
    | debug => exact ⟨_, mulU_ok (hk rfl)⟩
    | release => unfold mulU mulW; split <;> exact ⟨_, rfl⟩
  obtain ⟨d, hm⟩ := hm
  refine ⟨⟨it, ?_, h⟩, ⟨it, ?_, h⟩, ?_, ?_⟩
  · unfold VIter.next; rw [hd]; simp only [Res.ok_bind]; rw [if_pos h]; rfl
  · unfold VIter.nextBack; rw [hd]; simp only [Res.ok_bind]; rw [if_pos h]; rfl
  · unfold VIter.nth VIter.next
    rw [hd]; simp only [Res.ok_bind]; rw [hm]; simp only [Res.ok_bind]; rw [if_pos (by omega)]
    exact ⟨_, rfl, by simp only; omega⟩
  · unfold VIter.nthBack VIter.nextBack
    rw [hd]; simp only [Res.ok_bind]; rw [if_pos (by omega)]
    exact ⟨_, rfl, by simp only; omega⟩

/-! ### C05 -/

theorem Rep.collects {m : Mode} {e : FTy} (hz : 0 < e.size) : ∀ (xs : List (Except Error e.Inner)) {it : VIter e},
    Rep m it (xs.map .ok) → Collects m it xs
  | [], it, h => by
    have := h.next hz
    simp only [List.map_nil, popFront] at this
    obtain ⟨x, it', h1, h2, _⟩ := this
    injection h2 with h2
    subst h2
    exact .done h1
  | x :: xs, it, h => by
    have := h.next hz
    simp only [List.map_cons, popFront, Res.ok_bind, Res.pure_eq] at this
    obtain ⟨x', it', h1, h2, h3⟩ := this
    injection h2 with h2
    subst h2
    exact .more h1 (Rep.collects hz xs h3)

/-- **C05** Iterating a vector whose length reads as `n` hands out exactly `n` items and item `i` is the
result of `get(i)` (in a debug build, provided no element read panics; in release none does, see C03). -/
theorem C05_iteration_is_get (m : Mode) (e : FTy) (v : Vec e) (n : Nat) (hv : v.buf.Valid) (hz : 0 < e.size)
    (hn : v.len m = .ok n) (hp : m = .debug → ∀ i, i < n → v.get m i ≠ .panic) :
    ∃ it xs, v.iter m = .ok it ∧ Collects m it xs ∧ xs.length = n ∧
      ∀ i, i < n → (∀ x, v.get m i = .ok x ↔ xs[i]? = some (.ok x)) ∧
        (∀ x, v.get m i = .err x ↔ xs[i]? = some (.error x)) := by
  obtain ⟨it, h1, hr, h2⟩ := iter_rep hv hz hn
  have hnp : ∀ i, i < n → v.get m i ≠ .panic := by
    cases m with
    | debug => exact hp rfl
    | release =>
      intro i hi
      rw [Vec.get_eq hv hz hn hi]
      exact follow_noPanic _ _ _ hv
  have hx : ∀ i, i < n → ∃ x, VIter.item (v.get m i) = .ok x := by
    intro i hi
    have := hnp i hi
    cases h : v.get m i with
    | ok a => exact ⟨_, rfl⟩
    | err a => exact ⟨_, rfl⟩
    | panic => exact absurd h this
  let f : Nat → Except Error e.Inner := fun i =>
    match v.get m i with
    | .ok a => .ok a
    | .err a => .error a
    | .panic => .error .outOfBounds
  have hf : ∀ i, i < n → VIter.item (v.get m i) = .ok (f i) := by
    intro i hi
    have := hnp i hi
    simp only [f]
    cases h : v.get m i with
    | ok a => rfl
    | err a => rfl
    | panic => exact absurd h this
  have hq : ((List.range n).map fun i => VIter.item (v.get m i)) = ((List.range n).map f).map .ok := by
    rw [List.map_map]
    apply List.map_congr_left
    intro i hi
    exact hf i (by simpa using hi)
  rw [hq] at h2
  refine ⟨it, (List.range n).map f, h1, h2.collects hz, by simp, fun i hi => ?_⟩
  have he : ((List.range n).map f)[i]? = some (f i) := by simp [hi]
  rw [he]
  have := hnp i hi
  simp only [f]
  cases h : v.get m i with
  | ok a => simp
  | err a => simp
  | panic => exact absurd h this

/-- **C05**, unreadable length: the iteration is empty. -/
theorem C05_unreadable_length (m : Mode) (e : FTy) (v : Vec e) (x : Error) (hz : 0 < e.size)
    (hn : v.len m = .err x) (hl : m = .debug → v.loc + 4 < 2 ^ 64) :
    ∃ it, v.iter m = .ok it ∧ Collects m it [] := by
  have ha : ∃ l, addU m v.loc 4 = .ok l := by
    cases m with
    | debug => exact ⟨_, addU_ok (hl rfl)⟩
    | release => exact ⟨_, addU_release _ _⟩
  obtain ⟨l, ha⟩ := ha
  refine ⟨⟨v.buf, l, 0⟩, ?_, ?_⟩
  · unfold Vec.iter; rw [hn]; simp only [Res.unwrapOr, Res.ok_bind, VIter.new]; rw [ha]; rfl
  · exact .done (C06_fused m e _ hz rfl 0 (by simp)).1.choose_spec.1

/-- **C05**, `is_empty`: it is true just if the iteration over a vector with a readable length hands out nothing, and an error just if the
length cannot be read. -/
theorem C05_is_empty (m : Mode) (e : FTy) (v : Vec e) (hv : v.buf.Valid) (hz : 0 < e.size) :
    (∀ b, v.isEmpty m = .ok b → (m = .debug → ∀ i n, v.len m = .ok n → i < n → v.get m i ≠ .panic) →
      ∃ it xs, v.iter m = .ok it ∧ Collects m it xs ∧ (b = true ↔ xs = [])) ∧
    ∀ x, v.isEmpty m = .err x ↔ v.len m = .err x := by
  constructor
  · intro b h hp
    unfold Vec.isEmpty at h
    obtain ⟨n, hn, h⟩ := Res.bind_eq_ok.mp h
    obtain ⟨it, xs, h1, h2, h3, -⟩ := C05_iteration_is_get m e v n hv hz hn (fun hm i hi => hp hm i n hn hi)
    cases h
    refine ⟨it, xs, h1, h2, ?_⟩
    rw [beq_iff_eq, ← h3, List.length_eq_zero_iff]
  · intro x
    unfold Vec.isEmpty
    cases v.len m <;> simp

/-- Concrete case: three `u16` elements. -/
def sampleVec : Vec (.scalar .u16) := ⟨[3, 0, 0, 0, 1, 0, 2, 0, 3, 0], 0⟩
example (m : Mode) : sampleVec.isEmpty m = .ok false ∧ Vec.isEmpty (e := .scalar .u16) m ⟨[0, 0, 0, 0], 0⟩ = .ok true := by
  cases m <;> exact ⟨rfl, rfl⟩
example (m : Mode) : sampleVec.buf.Valid ∧ sampleVec.len m = .ok 3 ∧ ∀ i, i < 3 → sampleVec.get m i ≠ .panic := by
  refine ⟨by decide, by cases m <;> rfl, fun i hi => ?_⟩
  have : i = 0 ∨ i = 1 ∨ i = 2 := by omega
  rcases this with rfl | rfl | rfl <;> cases m <;> (intro h; cases h)
example : Vec.len .debug (⟨[3, 0], 0⟩ : Vec (.scalar .u16)) = .err .outOfBounds := rfl
/-- A concrete interleaving: back, skip one, front, then exhausted. -/
example : (sampleVec.iter .debug >>= fun it => it.run .debug [.nextBack, .nth 1, .len, .next]) =
    .ok [.item (some (.ok (⟨3, by decide⟩ : Fin (2 ^ 16)))), .item (some (.ok (⟨2, by decide⟩ : Fin (2 ^ 16)))),
      .num 0, .item none] := rfl

end Butte
