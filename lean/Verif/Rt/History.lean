import Verif.Rt.Values
/-
Lemmas about whole histories of calls.
-/
namespace Butte
open ABuilder (Big)

theorem run_append {m : Mode} : ∀ {xs ys : List Op} {b b' : Builder} {rets : List (Option Nat)},
    run m b (xs ++ ys) = .ok (rets, b') ↔
    ∃ r1 b1 r2, run m b xs = .ok (r1, b1) ∧ run m b1 ys = .ok (r2, b') ∧ rets = r1 ++ r2
  | [], ys, b, b', rets => by
    simp [run]
  | op :: xs, ys, b, b', rets => by
    simp only [List.cons_append, run]
    constructor
    · intro h
      obtain ⟨⟨r, b1⟩, h1, h⟩ := Res.bind_eq_ok.mp h
      obtain ⟨⟨rs, b2⟩, h2, h⟩ := Res.bind_eq_ok.mp h
      cases h
      obtain ⟨r1, b3, r2, e1, e2, e3⟩ := run_append.mp h2
      refine ⟨r :: r1, b3, r2, ?_, e2, by simp [e3]⟩
      rw [h1]; simp only [Res.ok_bind]; rw [e1]; rfl
    · rintro ⟨r1, b1, r2, h1, h2, rfl⟩
      obtain ⟨⟨r, b3⟩, h3, h1⟩ := Res.bind_eq_ok.mp h1
      obtain ⟨⟨rs, b4⟩, h4, h1⟩ := Res.bind_eq_ok.mp h1
      cases h1
      rw [h3]; simp only [Res.ok_bind]
      have := run_append.mpr ⟨rs, _, r2, h4, h2, rfl⟩
      rw [this]; rfl

theorem run_singleton {m : Mode} {b b' : Builder} {op : Op} {rets : List (Option Nat)} :
    run m b [op] = .ok (rets, b') ↔ ∃ r, step m b op = .ok (r, b') ∧ rets = [r] := by
  simp only [run]
  constructor
  · intro h
    obtain ⟨⟨r, b1⟩, h1, h⟩ := Res.bind_eq_ok.mp h
    simp only [Res.ok_bind] at h
    cases h
    exact ⟨r, h1, rfl⟩
  · rintro ⟨r, h, rfl⟩
    rw [h]; rfl

theorem Reachable.run {m : Mode} {b b' : Builder} {ops : List Op} {rets : List (Option Nat)}
    (h : Reachable m b) (h1 : run m b ops = .ok (rets, b')) : Reachable m b' := by
  obtain ⟨cap, b0, ops0, r0, e0, e1⟩ := h
  exact ⟨cap, b0, ops0 ++ ops, r0 ++ rets, e0, run_append.mpr ⟨_, _, _, e1, h1, rfl⟩⟩

theorem Reachable.step {m : Mode} {b b' : Builder} {op : Op} {r : Option Nat}
    (h : Reachable m b) (h1 : step m b op = .ok (r, b')) : Reachable m b' :=
  h.run (run_singleton.mpr ⟨r, h1, rfl⟩)

/-- Backward simulation of whole histories: an abstract run that stays small is a concrete run. -/
theorem run_bwd {m : Mode} : ∀ (ops : List Op) {b : Builder} {a a' : ABuilder} {rets : List (Option Nat)},
    R b a → runA m a ops = .ok (rets, a') →
    (∀ k r a'', runA m a (ops.take k) = .ok (r, a'') → ¬ a''.Big) →
    ∃ b', run m b ops = .ok (rets, b') ∧ R b' a'
  | [], b, a, a', rets, h, e, _ => by cases e; exact ⟨b, rfl, h⟩
  | op :: ops, b, a, a', rets, h, e, hb => by
    unfold runA at e
    obtain ⟨⟨r, a1⟩, e1, e⟩ := Res.bind_eq_ok.mp e
    obtain ⟨⟨rs, a2⟩, e2, e⟩ := Res.bind_eq_ok.mp e
    cases e
    rcases (step_sim h op).bwd _ e1 with ⟨⟨r', b1⟩, f1⟩ | hbig
    · obtain ⟨⟨r'', a1'⟩, g1, hr, h1⟩ := (step_sim h op).fwd _ f1
      rw [e1] at g1; cases g1
      simp only at hr h1
      subst hr
      obtain ⟨b2, f2, h2⟩ := run_bwd ops h1 e2 (by
        intro k r a'' hk
        refine hb (k + 1) (r' :: r) a'' ?_
        simp only [List.take_succ_cons, runA]
        rw [e1]; simp only [Res.ok_bind]; rw [hk]; rfl)
      refine ⟨b2, ?_, h2⟩
      simp only [run]
      rw [f1]; simp only [Res.ok_bind]; rw [f2]; rfl
    · exfalso
      refine hb 1 [r] a1 ?_ hbig
      simp only [List.take_succ_cons, List.take_zero, runA]
      rw [e1]; rfl

theorem runA_append {m : Mode} : ∀ {xs ys : List Op} {a a' : ABuilder} {rets : List (Option Nat)},
    runA m a (xs ++ ys) = .ok (rets, a') ↔
    ∃ r1 a1 r2, runA m a xs = .ok (r1, a1) ∧ runA m a1 ys = .ok (r2, a') ∧ rets = r1 ++ r2
  | [], ys, a, a', rets => by
    simp [runA]
  | op :: xs, ys, a, a', rets => by
    simp only [List.cons_append, runA]
    constructor
    · intro h
      obtain ⟨⟨r, b1⟩, h1, h⟩ := Res.bind_eq_ok.mp h
      obtain ⟨⟨rs, b2⟩, h2, h⟩ := Res.bind_eq_ok.mp h
      cases h
      obtain ⟨r1, b3, r2, e1, e2, e3⟩ := runA_append.mp h2
      refine ⟨r :: r1, b3, r2, ?_, e2, by simp [e3]⟩
      rw [h1]; simp only [Res.ok_bind]; rw [e1]; rfl
    · rintro ⟨r1, b1, r2, h1, h2, rfl⟩
      obtain ⟨⟨r, b3⟩, h3, h1⟩ := Res.bind_eq_ok.mp h1
      obtain ⟨⟨rs, b4⟩, h4, h1⟩ := Res.bind_eq_ok.mp h1
      cases h1
      rw [h3]; simp only [Res.ok_bind]
      have := runA_append.mpr ⟨rs, _, r2, h4, h2, rfl⟩
      rw [this]; rfl

/-! ### What the calls do to the fields other than the data -/

theorem align_fl {m : Mode} {a a' : ABuilder} {l al : Nat} (h : a.align m l al = .ok a') :
    a'.fieldLocs = a.fieldLocs ∧ a'.vtables = a.vtables ∧ a'.nested = a.nested ∧ a'.finished = a.finished := by
  unfold ABuilder.align at h
  obtain ⟨s, _, h⟩ := Res.bind_eq_ok.mp h
  cases h; exact ⟨rfl, rfl, rfl, rfl⟩

theorem push_fl {m : Mode} {a : ABuilder} {p : PTy} {x : PVal p} {r : Nat × ABuilder}
    (h : a.push m x = .ok r) : r.2.fieldLocs = a.fieldLocs ∧ r.2.vtables = a.vtables ∧
      r.2.nested = a.nested ∧ r.2.finished = a.finished := by
  unfold ABuilder.push at h
  obtain ⟨a1, h1, h⟩ := Res.bind_eq_ok.mp h
  obtain ⟨bs, _, h⟩ := Res.bind_eq_ok.mp h
  cases h; have := align_fl h1; exact this

theorem createByteString_fl {m : Mode} {a : ABuilder} {bs : Bytes} {r : Nat × ABuilder}
    (h : a.createByteString m bs = .ok r) : r.2.fieldLocs = a.fieldLocs ∧ r.2.vtables = a.vtables ∧
      r.2.nested = a.nested ∧ r.2.finished = a.finished := by
  unfold ABuilder.createByteString at h
  obtain ⟨_, _, h⟩ := Res.bind_eq_ok.mp h
  obtain ⟨_, _, h⟩ := Res.bind_eq_ok.mp h
  obtain ⟨a1, h1, h⟩ := Res.bind_eq_ok.mp h
  obtain ⟨a2, h2, h⟩ := Res.bind_eq_ok.mp h
  have e1 := align_fl h1
  have e2 := push_fl h2
  have e3 := push_fl h
  simp only [ABuilder.prepend] at e3
  rw [e3.1, e3.2.1, e3.2.2.1, e3.2.2.2, e2.1, e2.2.1, e2.2.2.1, e2.2.2.2]
  exact e1

theorem createString_fl {m : Mode} {a : ABuilder} {s : String} {r : Nat × ABuilder}
    (h : a.createString m s = .ok r) : r.2.fieldLocs = a.fieldLocs ∧ r.2.vtables = a.vtables ∧
      r.2.nested = a.nested ∧ r.2.finished = a.finished := by
  unfold ABuilder.createString at h
  obtain ⟨_, _, h⟩ := Res.bind_eq_ok.mp h
  exact createByteString_fl h

theorem createVectorDirect_fl {m : Mode} {a : ABuilder} {t : STy} {xs : List (SVal t)} {r : Nat × ABuilder}
    (h : a.createVectorDirect m xs = .ok r) : r.2.fieldLocs = a.fieldLocs ∧ r.2.vtables = a.vtables ∧
      r.2.nested = a.nested ∧ r.2.finished = a.finished := by
  unfold ABuilder.createVectorDirect at h
  obtain ⟨_, _, h⟩ := Res.bind_eq_ok.mp h
  obtain ⟨_, _, h⟩ := Res.bind_eq_ok.mp h
  obtain ⟨a1, h1, h⟩ := Res.bind_eq_ok.mp h
  have e1 := align_fl h1
  have e3 := push_fl h
  simp only [ABuilder.prepend] at e3
  rw [e3.1, e3.2.1, e3.2.2.1, e3.2.2.2]
  exact e1

theorem pushAll_fl {m : Mode} {p : PTy} : ∀ {a a' : ABuilder} {xs : List (PVal p)},
    a.pushAll m xs = .ok a' → a'.fieldLocs = a.fieldLocs ∧ a'.vtables = a.vtables ∧
      a'.nested = a.nested ∧ a'.finished = a.finished
  | a, a', [], h => by cases h; exact ⟨rfl, rfl, rfl, rfl⟩
  | a, a', x :: xs, h => by
    unfold ABuilder.pushAll at h
    obtain ⟨a1, h1, h⟩ := Res.bind_eq_ok.mp h
    have e1 := push_fl h1
    have e2 := pushAll_fl h
    rw [e2.1, e2.2.1, e2.2.2.1, e2.2.2.2]
    exact e1

theorem createVector_fl {m : Mode} {a : ABuilder} {p : PTy} {xs : List (PVal p)} {r : Nat × ABuilder}
    (h : a.createVector m xs = .ok r) : r.2.fieldLocs = a.fieldLocs ∧ r.2.vtables = a.vtables ∧
      r.2.nested = a.nested ∧ r.2.finished = a.finished := by
  unfold ABuilder.createVector at h
  obtain ⟨_, _, h⟩ := Res.bind_eq_ok.mp h
  obtain ⟨a1, h1, h⟩ := Res.bind_eq_ok.mp h
  obtain ⟨a2, h2, h⟩ := Res.bind_eq_ok.mp h
  have e1 := align_fl h1
  have e2 := pushAll_fl h2
  have e3 := push_fl h
  rw [e3.1, e3.2.1, e3.2.2.1, e3.2.2.2, e2.1, e2.2.1, e2.2.2.1, e2.2.2.2]
  exact e1

theorem createStrings_fl {m : Mode} : ∀ {a : ABuilder} {xs : List String} {acc : List (PVal .off)}
    {r : List (PVal .off) × ABuilder}, a.createStrings m xs acc = .ok r →
      r.2.fieldLocs = a.fieldLocs ∧ r.2.vtables = a.vtables ∧
      r.2.nested = a.nested ∧ r.2.finished = a.finished
  | a, [], acc, r, h => by cases h; exact ⟨rfl, rfl, rfl, rfl⟩
  | a, s :: xs, acc, r, h => by
    unfold ABuilder.createStrings at h
    obtain ⟨a1, h1, h⟩ := Res.bind_eq_ok.mp h
    have e1 := createString_fl h1
    have e2 := createStrings_fl h
    rw [e2.1, e2.2.1, e2.2.2.1, e2.2.2.2]
    exact e1

theorem createVectorOfStrings_fl {m : Mode} {a : ABuilder} {xs : List String} {r : Nat × ABuilder}
    (h : a.createVectorOfStrings m xs = .ok r) : r.2.fieldLocs = a.fieldLocs ∧ r.2.vtables = a.vtables ∧
      r.2.nested = a.nested ∧ r.2.finished = a.finished := by
  unfold ABuilder.createVectorOfStrings at h
  obtain ⟨_, _, h⟩ := Res.bind_eq_ok.mp h
  obtain ⟨a1, h1, h⟩ := Res.bind_eq_ok.mp h
  have e1 := createStrings_fl h1
  have e2 := createVector_fl h
  rw [e2.1, e2.2.1, e2.2.2.1, e2.2.2.2]
  exact e1

theorem finishWithOpts_fl {m : Mode} {a a' : ABuilder} {root : Nat} {i : Option Bytes} {sp : Bool}
    (h : a.finishWithOpts m root i sp = .ok a') : a'.fieldLocs = a.fieldLocs ∧ a'.vtables = [] ∧
      a'.nested = a.nested ∧ a'.finished = true := by
  unfold ABuilder.finishWithOpts at h
  obtain ⟨_, _, h⟩ := Res.bind_eq_ok.mp h
  obtain ⟨_, _, h⟩ := Res.bind_eq_ok.mp h
  obtain ⟨a1, h1, h⟩ := Res.bind_eq_ok.mp h
  obtain ⟨a2, h2, h⟩ := Res.bind_eq_ok.mp h
  obtain ⟨⟨o, a3⟩, h3, h⟩ := Res.bind_eq_ok.mp h
  obtain ⟨a4, h4, h⟩ := Res.bind_eq_ok.mp h
  cases h
  have e1 := align_fl h1
  have e2 : a2.fieldLocs = a1.fieldLocs ∧ a2.vtables = a1.vtables ∧ a2.nested = a1.nested := by
    cases i with
    | none => cases h2; exact ⟨rfl, rfl, rfl⟩
    | some i =>
      obtain ⟨_, _, h2⟩ := Res.bind_eq_ok.mp h2
      cases h2; exact ⟨rfl, rfl, rfl⟩
  have e3 := push_fl h3
  have e4 : a4.fieldLocs = a3.fieldLocs ∧ a4.vtables = a3.vtables ∧ a4.nested = a3.nested := by
    cases sp with
    | false => cases h4; exact ⟨rfl, rfl, rfl⟩
    | true =>
      simp only [ABuilder.pushSizePrefix, if_true] at h4
      obtain ⟨⟨o, a5⟩, h5, h4⟩ := Res.bind_eq_ok.mp h4
      cases h4
      have := push_fl h5
      exact ⟨this.1, this.2.1, this.2.2.1⟩
  simp only at e3 e1 ⊢
  rw [e4.1, e4.2.1, e4.2.2, e3.1, e3.2.1, e3.2.2.1, e2.1, e2.2.1, e2.2.2, e1.1, e1.2.1, e1.2.2.1]
  exact ⟨rfl, rfl, rfl, trivial⟩

theorem endTable_fl {m : Mode} {a : ABuilder} {tail : Nat} {r : Nat × ABuilder}
    (h : a.endTable m tail = .ok r) : r.2.fieldLocs = [] ∧ r.2.nested = false := by
  unfold ABuilder.endTable at h
  obtain ⟨_, _, h⟩ := Res.bind_eq_ok.mp h
  obtain ⟨r1, h1, h⟩ := Res.bind_eq_ok.mp h
  cases h; exact ⟨rfl, rfl⟩

/-- A call that pushes no slot does not add pending fields. -/
theorem stepA_fl {m : Mode} {a : ABuilder} {op : Op} {r : Option Nat × ABuilder}
    (h : stepA m a op = .ok r) (hs : op.slot? = none) (ha : a.fieldLocs = []) : r.2.fieldLocs = [] := by
  cases op <;> simp only [stepA, withRetA, noRetA] at h <;> try (cases hs)
  case reset => cases h; exact ha
  case required => obtain ⟨_, _, h⟩ := Res.bind_eq_ok.mp h; cases h; exact ha
  case startTable =>
    obtain ⟨r1, h1, h⟩ := Res.bind_eq_ok.mp h; cases h
    unfold ABuilder.startTable at h1
    obtain ⟨_, _, h1⟩ := Res.bind_eq_ok.mp h1
    cases h1; exact ha
  case startVector =>
    obtain ⟨r1, h1, h⟩ := Res.bind_eq_ok.mp h; cases h
    unfold ABuilder.startVector at h1
    obtain ⟨_, _, h1⟩ := Res.bind_eq_ok.mp h1
    obtain ⟨_, _, h1⟩ := Res.bind_eq_ok.mp h1
    have := (align_fl h1).1
    simp only at this ⊢
    rw [this]; exact ha
  case endVector =>
    obtain ⟨r1, h1, h⟩ := Res.bind_eq_ok.mp h; cases h
    unfold ABuilder.endVector at h1
    obtain ⟨_, _, h1⟩ := Res.bind_eq_ok.mp h1
    have := (push_fl h1).1
    simp only at this ⊢
    rw [this]; exact ha
  case endTable =>
    obtain ⟨r1, h1, h⟩ := Res.bind_eq_ok.mp h; cases h
    exact (endTable_fl h1).1
  all_goals
    obtain ⟨r1, h1, h⟩ := Res.bind_eq_ok.mp h; cases h
    refine Eq.trans ?_ ha
    first
      | exact (push_fl h1).1
      | exact (createString_fl h1).1
      | exact (createByteString_fl h1).1
      | exact (createVectorDirect_fl h1).1
      | exact (createVector_fl h1).1
      | exact (createVectorOfStrings_fl h1).1
      | exact (finishWithOpts_fl h1).1

theorem runA_fl {m : Mode} : ∀ {ops : List Op} {a : ABuilder} {r : List (Option Nat) × ABuilder},
    runA m a ops = .ok r → (∀ op ∈ ops, op.slot? = none) → a.fieldLocs = [] → r.2.fieldLocs = []
  | [], a, r, h, _, ha => by cases h; exact ha
  | op :: ops, a, r, h, hr, ha => by
    unfold runA at h
    obtain ⟨r1, h1, h⟩ := Res.bind_eq_ok.mp h
    obtain ⟨r2, h2, h⟩ := Res.bind_eq_ok.mp h
    cases h
    have e1 := stepA_fl h1 (hr _ (List.mem_cons_self ..)) ha
    exact runA_fl (r := r2) h2 (fun o ho => hr o (List.mem_cons_of_mem _ ho)) e1

theorem noPending_fl {m : Mode} {ops : List Op} {a : ABuilder} {r : List (Option Nat) × ABuilder}
    (h : runA m a ops = .ok r) (ha : a.fieldLocs = []) (hn : NoPending ops) : r.2.fieldLocs = [] := by
  obtain ⟨pre, post, rfl, hp, hpost⟩ := hn
  obtain ⟨r, a'⟩ := r
  obtain ⟨r1, a1, r2, h1, h2, _⟩ := runA_append.mp h
  refine runA_fl (r := (r2, a')) h2 hpost ?_
  rcases hp with rfl | ⟨pre', t, rfl⟩
  · cases h1; exact ha
  · obtain ⟨q1, a2, q2, g1, g2, _⟩ := runA_append.mp h1
    simp only [runA] at g2
    obtain ⟨⟨q3, a3⟩, g3, g2⟩ := Res.bind_eq_ok.mp g2
    cases g2
    simp only [stepA, withRetA] at g3
    obtain ⟨r4, g4, g3⟩ := Res.bind_eq_ok.mp g3
    cases g3
    exact (endTable_fl g4).1

theorem Idle.toR {m : Mode} {b : Builder} (h : Idle m b) : ∃ a, R b a ∧ a.fieldLocs = [] := by
  obtain ⟨cap, b0, ops, rets, h0, h1, hn⟩ := h
  obtain ⟨a, e, hr⟩ := run_fwd ops (new_R h0) h1
  exact ⟨a, hr, noPending_fl e rfl hn⟩

theorem Idle.reachable {m : Mode} {b : Builder} (h : Idle m b) : Reachable m b := by
  obtain ⟨cap, b0, ops, rets, h0, h1, hn⟩ := h
  exact ⟨cap, b0, ops, rets, h0, h1⟩

/-- What the concrete builder shows is what the abstract builder holds. -/
theorem R.unfinished {b : Builder} {a : ABuilder} (h : R b a) : b.unfinishedData = a.data := h.data

/-- Two builders with the same abstract state behave alike. -/
theorem R.run_eq {m : Mode} {b1 b2 b1' b2' : Builder} {a : ABuilder} {ops : List Op}
    {r1 r2 : List (Option Nat)} (h1 : R b1 a) (h2 : R b2 a)
    (e1 : run m b1 ops = .ok (r1, b1')) (e2 : run m b2 ops = .ok (r2, b2')) :
    r1 = r2 ∧ ∃ a', R b1' a' ∧ R b2' a' := by
  obtain ⟨a1, f1, k1⟩ := run_fwd ops h1 e1
  obtain ⟨a2, f2, k2⟩ := run_fwd ops h2 e2
  rw [f1] at f2
  cases f2
  exact ⟨rfl, a1, k1, k2⟩

/-- … and completing transfers as long as the data stays small. -/
theorem R.run_transfer {m : Mode} {b1 b2 b1' : Builder} {a : ABuilder} {ops : List Op}
    {r1 : List (Option Nat)} (h1 : R b1 a) (h2 : R b2 a)
    (e1 : run m b1 ops = .ok (r1, b1')) (hs : StaysWithin m (2 ^ 31 - 2 ^ 17) b1 ops) :
    ∃ b2', run m b2 ops = .ok (r1, b2') ∧ ∃ a', R b1' a' ∧ R b2' a' := by
  obtain ⟨a1, f1, k1⟩ := run_fwd ops h1 e1
  have key : ∀ k r a'', runA m a (ops.take k) = .ok (r, a'') → ¬ a''.Big := by
    intro k r a'' hk
    -- the concrete run reaches the same prefix
    have hsplit : run m b1 (ops.take k ++ ops.drop k) = .ok (r1, b1') := by
      rw [List.take_append_drop]; exact e1
    obtain ⟨q1, c1, q2, g1, _, _⟩ := run_append.mp hsplit
    have hle := hs k q1 c1 g1
    obtain ⟨a2, g2, k2⟩ := run_fwd _ h1 g1
    rw [hk] at g2
    cases g2
    rw [k2.used] at hle
    unfold Big
    omega
  obtain ⟨b2', f2, k2⟩ := run_bwd ops h2 f1 key
  exact ⟨b2', f2, a1, k1, k2⟩

end Butte
