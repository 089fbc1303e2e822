import Verif.Rt.CallerOk
import Verif.Rt.Sample
/-
Properties C26 (nesting and finishing protocol in debug builds) and C28 (a caller following the protocol never
sees a panic).
-/
namespace Butte

/-! ### C26 -/

/-- Is an object under construction after these calls (made on a new builder)? -/
def underConstruction (ops : List Op) : Bool :=
  ops.foldl (fun q op => match op with
    | .startTable | .startVector .. => true
    | .endTable _ | .endVector _ | .reset => false
    | _ => q) false

/-- Has `finish` been called since the beginning or the last `reset`? -/
def finishCalled (ops : List Op) : Bool :=
  ops.foldl (fun q op => match op with
    | .finish .. => true
    | .reset => false
    | _ => q) false

/-- What a call demands: `some true` an object under construction, `some false` none, `none` nothing. -/
def Op.demands : Op → Option Bool
  | .startTable | .startVector .. | .createString _ | .createByteString _ | .createVectorDirect ..
  | .createVectorOfStrings _ | .finish .. => some false
  | .pushSlot .. | .pushSlotAlways .. | .endTable _ | .endVector _ => some true
  | .push .. | .createVector .. | .required .. | .reset => none

theorem stepA_flags {m : Mode} {a a' : ABuilder} {op : Op} {r : Option Nat} (h : stepA m a op = .ok (r, a')) :
    (a'.nested = match op with
      | .startTable | .startVector .. => true
      | .endTable _ | .endVector _ | .reset => false
      | _ => a.nested) ∧
    (a'.finished = match op with
      | .finish .. => true
      | .reset => false
      | _ => a.finished) := by
  cases op <;> simp only [stepA, withRetA, noRetA] at h
  case reset => cases h; exact ⟨rfl, rfl⟩
  case required => obtain ⟨_, _, h⟩ := Res.bind_eq_ok.mp h; cases h; exact ⟨rfl, rfl⟩
  all_goals
    obtain ⟨r1, h1, h⟩ := Res.bind_eq_ok.mp h
    injection h with h
    injection h with h h'
    subst h'
  case push => exact (push_fl h1).2.2
  case pushSlotAlways =>
    unfold ABuilder.pushSlotAlways at h1
    obtain ⟨_, _, h1⟩ := Res.bind_eq_ok.mp h1
    obtain ⟨r2, h2, h1⟩ := Res.bind_eq_ok.mp h1
    cases h1; exact (push_fl h2).2.2
  case pushSlot =>
    unfold ABuilder.pushSlot at h1
    obtain ⟨_, _, h1⟩ := Res.bind_eq_ok.mp h1
    split at h1
    · cases h1; exact ⟨rfl, rfl⟩
    · unfold ABuilder.pushSlotAlways at h1
      obtain ⟨_, _, h1⟩ := Res.bind_eq_ok.mp h1
      obtain ⟨r2, h2, h1⟩ := Res.bind_eq_ok.mp h1
      cases h1; exact (push_fl h2).2.2
  case startTable =>
    unfold ABuilder.startTable at h1
    obtain ⟨_, _, h1⟩ := Res.bind_eq_ok.mp h1
    cases h1; exact ⟨rfl, rfl⟩
  case endTable =>
    unfold ABuilder.endTable at h1
    obtain ⟨_, _, h1⟩ := Res.bind_eq_ok.mp h1
    obtain ⟨r2, h2, h1⟩ := Res.bind_eq_ok.mp h1
    cases h1
    refine ⟨rfl, ?_⟩
    unfold ABuilder.writeVTable at h2
    obtain ⟨_, _, h2⟩ := Res.bind_eq_ok.mp h2
    obtain ⟨⟨_, a1⟩, h3, h2⟩ := Res.bind_eq_ok.mp h2
    obtain ⟨_, _, h2⟩ := Res.bind_eq_ok.mp h2
    obtain ⟨dup, _, h2⟩ := Res.bind_eq_ok.mp h2
    have := (push_fl h3).2.2.2
    cases dup <;> (obtain ⟨_, _, h2⟩ := Res.bind_eq_ok.mp h2; cases h2; exact this)
  case startVector =>
    unfold ABuilder.startVector at h1
    obtain ⟨_, _, h1⟩ := Res.bind_eq_ok.mp h1
    obtain ⟨_, _, h1⟩ := Res.bind_eq_ok.mp h1
    exact (align_fl h1).2.2
  case endVector =>
    unfold ABuilder.endVector at h1
    obtain ⟨_, _, h1⟩ := Res.bind_eq_ok.mp h1
    exact (push_fl h1).2.2
  case createString => exact (createString_fl h1).2.2
  case createByteString => exact (createByteString_fl h1).2.2
  case createVectorDirect => exact (createVectorDirect_fl h1).2.2
  case createVector => exact (createVector_fl h1).2.2
  case createVectorOfStrings => exact (createVectorOfStrings_fl h1).2.2
  case finish => exact (finishWithOpts_fl h1).2.2

theorem runA_flags {m : Mode} : ∀ {ops : List Op} {a a' : ABuilder} {rets : List (Option Nat)},
    runA m a ops = .ok (rets, a') →
    a'.nested = ops.foldl (fun q op => match op with
      | .startTable | .startVector .. => true
      | .endTable _ | .endVector _ | .reset => false
      | _ => q) a.nested ∧
    a'.finished = ops.foldl (fun q op => match op with
      | .finish .. => true
      | .reset => false
      | _ => q) a.finished
  | [], a, a', rets, h => by cases h; exact ⟨rfl, rfl⟩
  | op :: ops, a, a', rets, h => by
    unfold runA at h
    obtain ⟨⟨r1, a1⟩, h1, h⟩ := Res.bind_eq_ok.mp h
    obtain ⟨⟨r2, a2⟩, h2, h⟩ := Res.bind_eq_ok.mp h
    cases h
    obtain ⟨k1, k2⟩ := runA_flags h2
    obtain ⟨k3, k4⟩ := stepA_flags h1
    rw [List.foldl_cons, List.foldl_cons, k1, k2, k3, k4]
    constructor <;> (cases op <;> rfl)

/-- The builder's two flags record exactly the protocol state of the history. -/
theorem history_flags {m : Mode} {cap : Nat} {b₀ b : Builder} {ops : List Op} {rets : List (Option Nat)}
    (h₀ : Builder.newWithCapacity cap = .ok b₀) (h : run m b₀ ops = .ok (rets, b)) :
    b.nested = underConstruction ops ∧ b.finished = finishCalled ops := by
  obtain ⟨a, e, hr⟩ := run_fwd ops (new_R h₀) h
  obtain ⟨h1, h2⟩ := runA_flags e
  exact ⟨by rw [hr.nested, h1]; rfl, by rw [hr.finished, h2]; rfl⟩

/-- C26: in a debug build a call that is out of place panics. -/
theorem C26_out_of_place_panics {cap : Nat} {b₀ b : Builder} {ops : List Op} {rets : List (Option Nat)} {op : Op}
    (h₀ : Builder.newWithCapacity cap = .ok b₀) (h : run .debug b₀ ops = .ok (rets, b)) {q : Bool}
    (hd : op.demands = some q) (hq : underConstruction ops ≠ q) : step .debug b op = .panic := by
  obtain ⟨hn, _⟩ := history_flags h₀ h
  have hp : ∀ c : Bool, c = false → debugAssert .debug c = .panic := by rintro _ rfl; rfl
  cases op <;> simp only [Op.demands, Option.some.injEq, reduceCtorEq] at hd <;> subst hd <;>
    rw [← hn] at hq <;> have hb := Bool.eq_not_of_ne hq <;>
    simp only [step, withRet, noRet, Builder.startTable, Builder.startVector, Builder.createString,
      Builder.createByteString, Builder.createVectorDirect, Builder.createVectorOfStrings, Builder.finishWithOpts,
      Builder.pushSlot, Builder.pushSlotAlways, Builder.endTable, Builder.endVector, Builder.assertNested,
      Builder.assertNotNested]
  case finish =>
    by_cases hf : b.finished
    · rw [show Builder.assertNotFinished .debug b = .panic from hp _ (by rw [hf]; rfl)]; rfl
    · rw [show Builder.assertNotFinished .debug b = .ok () from debugAssert_ok (by simp [hf])]
      rw [Res.ok_bind, hp _ (by rw [hb]; rfl)]; rfl
  all_goals (rw [hp _ (by rw [hb]; rfl)]; rfl)

/-- C26: in a debug build a second `finish` panics. -/
theorem C26_finish_twice_panics {cap : Nat} {b₀ b : Builder} {ops : List Op} {rets : List (Option Nat)}
    (h₀ : Builder.newWithCapacity cap = .ok b₀) (h : run .debug b₀ ops = .ok (rets, b))
    (hf : finishCalled ops = true) (root : Fin (2 ^ 32)) (ident : Option Bytes) (sp : Bool) :
    step .debug b (.finish root ident sp) = .panic := by
  obtain ⟨_, hf'⟩ := history_flags h₀ h
  simp only [step, noRet, Builder.finishWithOpts]
  rw [show Builder.assertNotFinished .debug b = .panic by
    unfold Builder.assertNotFinished; rw [hf', hf]; rfl]
  rfl

/-- C26: in a debug build `finished_data` panics exactly before `finish`; otherwise it is the data written. -/
theorem C26_finished_data {cap : Nat} {b₀ b : Builder} {ops : List Op} {rets : List (Option Nat)}
    (h₀ : Builder.newWithCapacity cap = .ok b₀) (h : run .debug b₀ ops = .ok (rets, b)) :
    b.finishedData .debug = if finishCalled ops then .ok b.unfinishedData else .panic := by
  obtain ⟨_, hf⟩ := history_flags h₀ h
  unfold Builder.finishedData
  rw [hf]
  cases finishCalled ops <;> rfl

/-- C26, the converse: a call demanding that nothing be under construction goes through when nothing is, as long
as its data fits below the limit. (`finish` also needs that it has not been called, that its root exists and that
its identifier has four bytes.) -/
theorem C26_in_place_completes {m : Mode} {cap : Nat} {b₀ b : Builder} {ops : List Op} {rets : List (Option Nat)}
    {op : Op} (h₀ : Builder.newWithCapacity cap = .ok b₀) (h : run m b₀ ops = .ok (rets, b))
    (hd : op.demands = some false) (hq : underConstruction ops = false)
    (hs : b.usedSpace + op.need ≤ 2 ^ 31 - 2 ^ 17)
    (hfin : ∀ root ident sp, op = .finish root ident sp → finishCalled ops = false ∧ root.val ≤ b.usedSpace ∧
      (∀ i, ident = some i → i.length = 4) ∧ 0 < b.minAlign) :
    ∃ r, step m b op = .ok r := by
  obtain ⟨hn, hf⟩ := history_flags h₀ h
  obtain ⟨a, e, hr⟩ := run_fwd ops (new_R h₀) h
  rw [hq, hr.nested] at hn
  rw [hr.used] at hs
  have key : ∀ o a', stepA m a op = .ok (o, a') → a'.data.length ≤ 2 ^ 31 - 2 ^ 17 → ∃ r, step m b op = .ok r := by
    intro o a' e1 hl
    obtain ⟨b', e2, _⟩ := hr.step_small e1 hl
    exact ⟨_, e2⟩
  cases op <;> simp only [Op.demands, reduceCtorEq, Option.some.injEq, Bool.true_eq_false] at hd <;>
    simp only [Op.need] at hs
  case startTable => exact key _ _ (withRetA_ok (startTable_okA hn)) (by simp only; omega)
  case startVector p n =>
    obtain ⟨a', e, hl⟩ := startVector_okA (m := m) (a := a) (p := p) (n := n) hn (by omega)
    exact key _ _ (noRetA_ok e) (by omega)
  case createString s =>
    obtain ⟨o, a', e, hl, _⟩ := createString_okA (m := m) (a := a) (s := s) hn (by omega)
    exact key _ _ (withRetA_ok e) (by simp only; omega)
  case createByteString s =>
    obtain ⟨o, a', e, hl, _⟩ := createByteString_okA (m := m) (a := a) (bs := s) hn (by omega)
    exact key _ _ (withRetA_ok e) (by simp only; omega)
  case createVectorDirect t xs =>
    obtain ⟨o, a', e, hl⟩ := createVectorDirect_okA (m := m) (a := a) (xs := xs) hn (by omega)
    exact key _ _ (withRetA_ok e) (by simp only; omega)
  case createVectorOfStrings xs =>
    obtain ⟨o, a', e, hl⟩ := createVectorOfStrings_okA (m := m) (a := a) (xs := xs) hn (by omega)
    exact key _ _ (withRetA_ok e) (by simp only; omega)
  case finish root ident sp =>
    obtain ⟨f1, f2, f3, f4⟩ := hfin _ _ _ rfl
    rw [hr.used] at f2
    rw [hr.minAlign] at f4
    obtain ⟨a', e, hl⟩ := finish_okA (m := m) (a := a) (root := root) (ident := ident) (sp := sp) hn
      (by rw [← hr.finished, hf, f1]) (runA_MAOk e (Or.inl rfl)) (by omega) f3 f2 (by omega)
    exact key _ _ (noRetA_ok e) (by omega)

/-- C26: `start_table` in a debug build, in every state: it panics exactly when something is under construction. -/
theorem C26_start_table_iff {cap : Nat} {b₀ b : Builder} {ops : List Op} {rets : List (Option Nat)}
    (h₀ : Builder.newWithCapacity cap = .ok b₀) (h : run .debug b₀ ops = .ok (rets, b)) :
    step .debug b .startTable = .panic ↔ underConstruction ops = true := by
  obtain ⟨hn, _⟩ := history_flags h₀ h
  simp only [step, withRet, Builder.startTable, Builder.assertNotNested]
  rw [hn]
  cases underConstruction ops
  · exact ⟨nofun, nofun⟩
  · exact ⟨fun _ => rfl, fun _ => rfl⟩

/-- C26: a release build checks none of this; `start_table` always goes through. -/
theorem C26_release_unchecked (b : Builder) : ∃ r, step .release b .startTable = .ok r := ⟨_, rfl⟩

/-- C26: unlike the other constructors `create_vector` accepts being called while a table is under construction,
even in a debug build. -/
theorem C26_create_vector_unchecked {cap : Nat} {b₀ b : Builder} {ops : List Op} {rets : List (Option Nat)}
    (h₀ : Builder.newWithCapacity cap = .ok b₀) (h : run .debug b₀ ops = .ok (rets, b)) (t : STy) (xs : List (SVal t))
    (hs : b.usedSpace + xs.length * t.size + 16 ≤ 2 ^ 31 - 2 ^ 17) :
    ∃ r, step .debug b (.createVector (.sc t) xs) = .ok r := by
  obtain ⟨a, e, hr⟩ := run_fwd ops (new_R h₀) h
  rw [hr.used] at hs
  obtain ⟨o, a', e, hl⟩ := createVector_okA (m := .debug) (a := a) (p := .sc t) (xs := xs)
    (Nat.lt_of_le_of_lt (m := 2 ^ 31) (by show a.data.length + xs.length * t.size ≤ _; omega) (by decide)) (fun _ _ => trivial)
  have hl : a'.data.length < a.data.length + xs.length * t.size + 16 := hl
  have es : stepA .debug a (.createVector (.sc t) xs) = .ok (some o, a') := withRetA_ok e
  obtain ⟨b', e2, _⟩ := hr.step_small es (by omega)
  exact ⟨_, e2⟩

/-! ### C28 -/

/-- C28: a caller that follows the protocol and stays below the size limit completes all its calls, in either
profile and for every initial capacity. -/
theorem C28_no_panic {m : Mode} {cap : Nat} {b₀ : Builder} {ops : List Op}
    (h₀ : Builder.newWithCapacity cap = .ok b₀) (h : Abides m b₀ .start ops) :
    ∃ rets b, run m b₀ ops = .ok (rets, b) ∧ b.usedSpace ≤ 2 ^ 31 - 2 ^ 17 :=
  abides_run (new_R h₀) (Tracks.start m) h

/-- C28: every initial capacity up to 2 GiB is accepted. -/
theorem C28_new (cap : Nat) (h : cap ≤ 2 ^ 31) : ∃ b₀, Builder.newWithCapacity cap = .ok b₀ := by
  unfold Builder.newWithCapacity
  have : assert (decide (cap ≤ maxBufferSize)) = .ok () := by
    unfold assert; exact if_pos (decide_eq_true (by unfold maxBufferSize; omega))
  simp only [this]
  exact ⟨_, rfl⟩

/-! ### Concrete cases -/

set_option maxRecDepth 8000

/-- C26: a table was started and a slot pushed; a string cannot be created now. -/
example : ∃ b₀ ops rets b, Builder.newWithCapacity 128 = .ok b₀ ∧ run .debug b₀ ops = .ok (rets, b) ∧
    (Op.createString "hi").demands = some false ∧ underConstruction ops = true ∧ finishCalled ops = false := by
  have h : (fromNew .debug 128 [.createString "x", .startTable, .pushSlotAlways 4 (.sc .u16) (u16c 7)]).okAnd
      (fun _ => true) = true := by decide
  obtain ⟨b0, r, b, h0, h1, _⟩ := fromNew_ex h
  exact ⟨b0, _, r, b, h0, h1, rfl, rfl, rfl⟩

/-- C26: a finished buffer. -/
example : ∃ b₀ ops rets b, Builder.newWithCapacity 128 = .ok b₀ ∧ run .debug b₀ ops = .ok (rets, b) ∧
    finishCalled ops = true ∧ underConstruction ops = false ∧ 0 < b.minAlign ∧ b.usedSpace = 32 := by
  have h : (fromNew .debug 128 sampleOps).okAnd (fun r => decide (0 < r.2.minAlign ∧ r.2.usedSpace = 32)) = true := by decide
  obtain ⟨b0, r, b, h0, h1, hp⟩ := fromNew_ex h
  simp only [decide_eq_true_eq] at hp
  exact ⟨b0, _, r, b, h0, h1, rfl, rfl, hp⟩

/-- A test for `Caller.knows`. -/
def Caller.knowsB (c : Caller) {p : PTy} (x : PVal p) : Bool :=
  match p with
  | .sc _ => true
  | .off => decide (x.val ∈ c.known)

theorem Caller.knows_of {c : Caller} {p : PTy} {x : PVal p} (h : c.knowsB x = true) : c.knows x := by
  cases p with
  | sc t => trivial
  | off => exact of_decide_eq_true (p := x.val ∈ c.known) h

/-- A test for `Caller.allows`, for the calls of the example below. -/
def Caller.allowsB (c : Caller) : Op → Bool
  | .push _ x => c.knowsB x
  | .pushSlotAlways s _ x | .pushSlot s _ x _ =>
    decide (SlotOk s) && c.knowsB x && match c.building with
      | .table _ body => decide (s.val ∉ body.filterMap Op.slot?)
      | _ => false
  | .createString _ | .startTable => match c.building with | .nothing => true | _ => false
  | .endTable t => match c.building with | .table t' _ => t.val == t' | _ => false
  | .required t s => match c.building with
    | .nothing => c.tables.any fun p => p.1 == t.val && decide (s.val ∈ p.2)
    | _ => false
  | .finish r none _ => match c.building with
    | .nothing => !c.finished && decide (r.val ∈ c.known)
    | _ => false
  | .reset => match c.building with | .nothing => true | _ => false
  | _ => false

theorem Caller.allows_of {c : Caller} {op : Op} (h : c.allowsB op = true) : c.allows op := by
  unfold Caller.allowsB at h
  split at h
  · exact Caller.knows_of h
  · simp only [Bool.and_eq_true, decide_eq_true_eq] at h
    obtain ⟨⟨h1, h2⟩, h3⟩ := h
    split at h3
    · rename_i hc
      exact ⟨h1, Caller.knows_of h2, _, _, hc, of_decide_eq_true h3⟩
    · cases h3
  · simp only [Bool.and_eq_true, decide_eq_true_eq] at h
    obtain ⟨⟨h1, h2⟩, h3⟩ := h
    split at h3
    · rename_i hc
      exact ⟨h1, Caller.knows_of h2, _, _, hc, of_decide_eq_true h3⟩
    · cases h3
  · split at h
    · assumption
    · cases h
  · split at h
    · assumption
    · cases h
  · split at h
    · rename_i t' body hc
      refine ⟨body, ?_⟩
      rw [hc, (beq_iff_eq.mp h)]
    · cases h
  · split at h
    · rename_i hc
      obtain ⟨p, hp, h⟩ := List.any_eq_true.mp h
      simp only [Bool.and_eq_true, decide_eq_true_eq, beq_iff_eq] at h
      exact ⟨hc, p.2, by rw [← h.1]; exact hp, h.2⟩
    · cases h
  · split at h
    · rename_i hc
      simp only [Bool.and_eq_true, decide_eq_true_eq, Bool.not_eq_true'] at h
      exact ⟨hc, h.1, h.2, nofun⟩
    · cases h
  · split at h
    · exact Or.inl (by assumption)
    · cases h
  · cases h

/-- A test for `Abides`. -/
def abidesB (m : Mode) : Builder → Caller → List Op → Bool
  | _, _, [] => true
  | b, c, op :: ops => c.allowsB op && decide (b.usedSpace + op.need ≤ 2 ^ 31 - 2 ^ 17) &&
    (match op with | .endTable t => decide (b.usedSpace + 7 < t + 65536) | _ => true) &&
    match step m b op with
    | .ok (r, b') => abidesB m b' (c.next op r) ops
    | _ => true

theorem abides_of {m : Mode} : ∀ {ops : List Op} {b : Builder} {c : Caller}, abidesB m b c ops = true → Abides m b c ops
  | [], _, _, _ => trivial
  | op :: ops, b, c, h => by
    simp only [abidesB, Bool.and_eq_true, decide_eq_true_eq] at h
    obtain ⟨⟨⟨h1, h2⟩, h3⟩, h4⟩ := h
    refine ⟨Caller.allows_of h1, ⟨h2, ?_⟩, ?_⟩
    · cases op <;> first | trivial | exact of_decide_eq_true h3
    · intro r b' e
      rw [e] at h4
      exact abides_of h4

/-- C28: strings, two tables sharing a vtable, a required check, `finish`, `reset` and another build. -/
example (m : Mode) : ∃ b₀, Builder.newWithCapacity 256 = .ok b₀ ∧ Abides m b₀ .start
    (sampleTable ++ [.required 20 4, .startTable, .pushSlotAlways 4 (.sc .u16) (u16c 9),
      .pushSlot 6 .off (Builder.offVal 8) (Builder.offVal 0), .endTable 28, .finish 20 none true, .reset] ++ sampleOps) := by
  refine ⟨_, rfl, abides_of ?_⟩
  cases m <;> decide

end Butte
