import Verif.Parse.Steps
import Verif.Parse.Suffix
/-
How many steps the combinators of `Parse/Steps` take, and that they give what those of `Parse/Nom` give.
-/
namespace Butte.Parse.Timed

open Ast

variable {α β γ : Type}

@[simp] theorem pure_steps (a : α) : (pure a : Ct α).steps = 0 := rfl
@[simp] theorem pure_val (a : α) : (pure a : Ct α).val = a := rfl
@[simp] theorem bind_steps (x : Ct α) (f : α → Ct β) : (x >>= f).steps = x.steps + (f x.val).steps := rfl
@[simp] theorem bind_val (x : Ct α) (f : α → Ct β) : (x >>= f).val = (f x.val).val := rfl
@[simp] theorem tick_steps (n : Nat) : (tick n).steps = n := rfl

/-- The parser gives what the other one gives. -/
def Gives (c : CP α) (p : P α) : Prop := ∀ i, (c i).val = p i

theorem map_gives {c : CP α} {p : P α} (h : Gives c p) (f : α → β) : Gives (map c f) (Parse.map p f) := fun i => by
  simp only [map, bind_val, Parse.map, ← h i]
  cases (c i).val <;> rfl

theorem mapRes_gives {c : CP α} {p : P α} (h : Gives c p) (f : α → Option β) : Gives (mapRes c f) (Parse.mapRes p f) := fun i => by
  simp only [mapRes, bind_val, Parse.mapRes, ← h i]
  cases (c i).val with
  | none => rfl
  | some x => cases e : f x.2 <;> simp only [bind_val, e] <;> rfl

theorem value_gives {c : CP α} {p : P α} (b : β) (h : Gives c p) : Gives (value b c) (Parse.value b p) := map_gives h _

theorem opt_gives {c : CP α} {p : P α} (h : Gives c p) : Gives (opt c) (Parse.opt p) := fun i => by
  simp only [opt, bind_val, Parse.opt, ← h i]
  cases (c i).val <;> rfl

theorem pnot_gives {c : CP α} {p : P α} (h : Gives c p) : Gives (pnot c) (Parse.pnot p) := fun i => by
  simp only [pnot, bind_val, Parse.pnot, ← h i]
  cases (c i).val <;> rfl

theorem recognize_gives {c : CP α} {p : P α} (h : Gives c p) : Gives (recognize c) (Parse.recognize p) := fun i => by
  simp only [recognize, bind_val, Parse.recognize, ← h i]
  cases (c i).val <;> rfl

theorem alt_gives {c d : CP α} {p q : P α} (h : Gives c p) (g : Gives d q) : Gives (alt c d) (Parse.alt p q) := fun i => by
  simp only [alt, bind_val, Parse.alt, ← h i]
  cases (c i).val with
  | none => exact g i
  | some x => rfl

theorem pair_gives {c : CP α} {d : CP β} {p : P α} {q : P β} (h : Gives c p) (g : Gives d q) :
    Gives (pair c d) (Parse.pair p q) := fun i => by
  simp only [pair, bind_val, Parse.pair, ← h i]
  cases (c i).val with
  | none => rfl
  | some x =>
    simp only [bind_val, ← g x.1]
    cases (d x.1).val <;> rfl

theorem preceded_gives {c : CP α} {d : CP β} {p : P α} {q : P β} (h : Gives c p) (g : Gives d q) :
    Gives (preceded c d) (Parse.preceded p q) := map_gives (pair_gives h g) _

theorem terminated_gives {c : CP α} {d : CP β} {p : P α} {q : P β} (h : Gives c p) (g : Gives d q) :
    Gives (terminated c d) (Parse.terminated p q) := map_gives (pair_gives h g) _

theorem delimited_gives {c : CP α} {d : CP β} {b : CP γ} {p : P α} {q : P β} {s : P γ} (h : Gives c p) (g : Gives d q)
    (f : Gives b s) : Gives (delimited c d b) (Parse.delimited p q s) := preceded_gives h (terminated_gives g f)

theorem separatedPair_gives {c : CP α} {d : CP β} {b : CP γ} {p : P α} {q : P β} {s : P γ} (h : Gives c p) (f : Gives b s)
    (g : Gives d q) : Gives (separatedPair c b d) (Parse.separatedPair p s q) := pair_gives h (preceded_gives f g)

theorem sepGo_gives {s : CP β} {c : CP α} {t : P β} {p : P α} (g : Gives s t) (h : Gives c p) :
    ∀ n, Gives (sepGo s c n) (Parse.sepGo t p n)
  | 0 => fun _ => rfl
  | n + 1 => fun i => by
    simp only [sepGo, bind_val, Parse.sepGo, ← g i]
    cases (s i).val with
    | none => rfl
    | some x =>
      simp only
      split
      · rfl
      · simp only [bind_val, ← h x.1]
        cases (c x.1).val with
        | none => rfl
        | some y =>
          simp only
          split
          · rfl
          · have ih : ∀ j, (sepGo s c n j).val = Parse.sepGo t p n j := sepGo_gives g h n
            simp only [bind_val, ih, pure_val]

theorem sepList1_gives {s : CP β} {c : CP α} {t : P β} {p : P α} (g : Gives s t) (h : Gives c p) :
    Gives (sepList1 s c) (Parse.sepList1 t p) := fun i => by
  have ih : ∀ n j, (sepGo s c n j).val = Parse.sepGo t p n j := sepGo_gives g h
  simp only [sepList1, bind_val, Parse.sepList1, ← h i]
  cases (c i).val with
  | none => rfl
  | some x =>
    simp only
    split
    · rfl
    · simp only [bind_val, ih, pure_val]

theorem sepList0_gives {s : CP β} {c : CP α} {t : P β} {p : P α} (g : Gives s t) (h : Gives c p) :
    Gives (sepList0 s c) (Parse.sepList0 t p) := fun i => by
  have ih : ∀ n j, (sepGo s c n j).val = Parse.sepGo t p n j := sepGo_gives g h
  simp only [sepList0, bind_val, Parse.sepList0, Parse.sepList1, ← h i]
  cases (c i).val with
  | none => rfl
  | some x =>
    simp only
    split
    · rfl
    · simp only [bind_val, ih, pure_val]

/-- What the parser consumes it takes steps for. -/
def Reads (c : CP α) : Prop := ∀ i r a, (c i).val = some (r, a) → i.length ≤ r.length + (c i).steps

theorem map_reads {c : CP α} (h : Reads c) (f : α → β) : Reads (map c f) := fun i r a e => by
  have h := h i
  simp only [map, bind_val, bind_steps, tick_steps] at e ⊢
  cases e1 : (c i).val with
  | none => simp only [e1] at e; cases e
  | some x =>
    obtain ⟨r0, a0⟩ := x
    have := h _ _ e1
    simp only [e1] at e
    cases e
    simp only [bind_steps, tick_steps, pure_steps]
    omega

theorem mapRes_reads {c : CP α} (h : Reads c) (f : α → Option β) : Reads (mapRes c f) := fun i r a e => by
  have h := h i
  simp only [mapRes, bind_val, bind_steps, tick_steps] at e ⊢
  cases e1 : (c i).val with
  | none => simp only [e1] at e; cases e
  | some x =>
    obtain ⟨r0, a0⟩ := x
    have := h _ _ e1
    simp only [e1, bind_val] at e
    cases e2 : f a0 with
    | none => simp only [e2] at e; cases e
    | some b =>
      simp only [e2] at e
      cases e
      simp only [bind_steps, tick_steps]
      omega

theorem value_reads {c : CP α} (b : β) (h : Reads c) : Reads (value b c) := map_reads h _

theorem opt_reads {c : CP α} (h : Reads c) : Reads (opt c) := fun i r a e => by
  have h := h i
  simp only [opt, bind_val, bind_steps, tick_steps] at e ⊢
  cases e1 : (c i).val with
  | none => simp only [e1] at e; cases e; omega
  | some x =>
    have := h _ _ e1
    simp only [e1] at e
    cases e
    omega

theorem pnot_reads {c : CP α} : Reads (pnot c) := fun i r a e => by
  simp only [pnot, bind_val] at e
  cases e1 : (c i).val with
  | none => simp only [e1] at e; cases e; omega
  | some x => simp only [e1] at e; cases e

theorem recognize_reads {c : CP α} (h : Reads c) : Reads (recognize c) := fun i r a e => by
  have h := h i
  simp only [recognize, bind_val, bind_steps, tick_steps] at e ⊢
  cases e1 : (c i).val with
  | none => simp only [e1] at e; cases e
  | some x =>
    have := h _ _ e1
    simp only [e1] at e
    cases e
    simp only [bind_steps, tick_steps, pure_steps]
    omega

theorem alt_reads {c d : CP α} (h : Reads c) (g : Reads d) : Reads (alt c d) := fun i r a e => by
  have h := h i
  have g := g i
  simp only [alt, bind_val, bind_steps, tick_steps] at e ⊢
  cases e1 : (c i).val with
  | none => simp only [e1] at e ⊢; have := g _ _ e; omega
  | some x =>
    simp only [e1] at e
    cases e
    have := h _ _ e1
    omega

theorem pair_reads {c : CP α} {d : CP β} (h : Reads c) (g : Reads d) : Reads (pair c d) := fun i r a e => by
  have h := h i
  simp only [pair, bind_val, bind_steps, tick_steps] at e ⊢
  cases e1 : (c i).val with
  | none => simp only [e1] at e; cases e
  | some x =>
    obtain ⟨r0, a0⟩ := x
    have h1 := h _ _ e1
    have g := g r0
    simp only [e1, bind_val, bind_steps] at e ⊢
    cases e2 : (d r0).val with
    | none => simp only [e2] at e; cases e
    | some y =>
      have h2 := g _ _ e2
      simp only [e2] at e
      cases e
      omega

theorem preceded_reads {c : CP α} {d : CP β} (h : Reads c) (g : Reads d) : Reads (preceded c d) := map_reads (pair_reads h g) _
theorem terminated_reads {c : CP α} {d : CP β} (h : Reads c) (g : Reads d) : Reads (terminated c d) := map_reads (pair_reads h g) _
theorem delimited_reads {c : CP α} {d : CP β} {b : CP γ} (h : Reads c) (g : Reads d) (f : Reads b) : Reads (delimited c d b) :=
  preceded_reads h (terminated_reads g f)
theorem separatedPair_reads {c : CP α} {d : CP β} {b : CP γ} (h : Reads c) (f : Reads b) (g : Reads d) :
    Reads (separatedPair c b d) := pair_reads h (preceded_reads f g)

theorem manyGo_reads {c : CP α} (h : Reads c) : ∀ n, Reads (manyGo c n)
  | 0 => fun _ _ _ e => by cases e
  | n + 1 => fun i r a e => by
    have ih := manyGo_reads h n
    have h := h i
    simp only [manyGo, bind_val, bind_steps, tick_steps] at e ⊢
    cases e1 : (c i).val with
    | none => simp only [e1] at e; cases e; omega
    | some x =>
      obtain ⟨r0, a0⟩ := x
      have h1 := h _ _ e1
      simp only [e1] at e ⊢
      split at e
      · cases e
      · rename_i hne
        simp only [bind_val, pure_val] at e
        obtain ⟨as, h2, -⟩ := push_some e
        have h3 := ih _ _ _ h2
        simp only [if_neg hne, bind_steps, pure_steps]
        omega

theorem many0_reads {c : CP α} (h : Reads c) : Reads (many0 c) := fun i => manyGo_reads h _ i

theorem many1_reads {c : CP α} (h : Reads c) : Reads (many1 c) := fun i r a e => by
  have h1 := h i
  simp only [many1, bind_val, bind_steps, tick_steps] at e ⊢
  cases e1 : (c i).val with
  | none => simp only [e1] at e; cases e
  | some x =>
    obtain ⟨r0, a0⟩ := x
    have h1 := h1 _ _ e1
    simp only [e1, bind_val, bind_steps, pure_val, pure_steps] at e ⊢
    obtain ⟨as, h2, -⟩ := push_some e
    have h3 := many0_reads h _ _ _ h2
    omega

theorem sepGo_reads {s : CP β} {c : CP α} (g : Reads s) (h : Reads c) : ∀ n, Reads (sepGo s c n)
  | 0 => fun _ _ _ e => by cases e
  | n + 1 => fun i r a e => by
    have ih := sepGo_reads g h n
    have g := g i
    simp only [sepGo, bind_val, bind_steps, tick_steps] at e ⊢
    cases e1 : (s i).val with
    | none => simp only [e1] at e; cases e; omega
    | some x =>
      obtain ⟨r0, a0⟩ := x
      have h1 := g _ _ e1
      have h := h r0
      simp only [e1] at e ⊢
      split at e
      · cases e
      · rename_i hne
        simp only [if_neg hne, bind_val, bind_steps] at e ⊢
        cases e2 : (c r0).val with
        | none => simp only [e2] at e; cases e; omega
        | some y =>
          obtain ⟨r1, a1⟩ := y
          have h2 := h _ _ e2
          simp only [e2] at e ⊢
          split at e
          · cases e
          · rename_i hne'
            simp only [bind_val, pure_val] at e
            obtain ⟨as, h3, -⟩ := push_some e
            have h4 := ih _ _ _ h3
            simp only [if_neg hne', bind_steps, pure_steps]
            omega

theorem sepList1_reads {s : CP β} {c : CP α} (g : Reads s) (h : Reads c) : Reads (sepList1 s c) := fun i r a e => by
  have ih := sepGo_reads g h
  have h := h i
  simp only [sepList1, bind_val, bind_steps, tick_steps] at e ⊢
  cases e1 : (c i).val with
  | none => simp only [e1] at e; cases e
  | some x =>
    obtain ⟨r0, a0⟩ := x
    have h1 := h _ _ e1
    simp only [e1] at e ⊢
    split at e
    · cases e
    · rename_i hne
      simp only [bind_val, pure_val] at e
      obtain ⟨as, h2, -⟩ := push_some e
      have h3 := ih _ _ _ _ h2
      simp only [if_neg hne, bind_steps, pure_steps]
      omega

theorem sepList0_reads {s : CP β} {c : CP α} (g : Reads s) (h : Reads c) : Reads (sepList0 s c) := fun i r a e => by
  have ih := sepGo_reads g h
  have h := h i
  simp only [sepList0, bind_val, bind_steps, tick_steps] at e ⊢
  cases e1 : (c i).val with
  | none => simp only [e1] at e; cases e; omega
  | some x =>
    obtain ⟨r0, a0⟩ := x
    have h1 := h _ _ e1
    simp only [e1] at e ⊢
    split at e
    · cases e
    · rename_i hne
      simp only [bind_val, pure_val] at e
      obtain ⟨as, h2, -⟩ := push_some e
      have h3 := ih _ _ _ _ h2
      simp only [if_neg hne, bind_steps, pure_steps]
      omega

/-- The parser gives what the other one gives, within a polynomial number of steps of degree `k`. -/
structure Meets (k : Nat) (c : CP α) (p : P α) where
  C : Nat
  pos : 1 ≤ k
  steps : ∀ N i, i.length ≤ N → (c i).steps ≤ C * (N + 1) ^ k
  val : Gives c p
  reads : Reads c
  consumes : Consumes p

theorem le_pow {N k : Nat} (h : 1 ≤ k) : N + 1 ≤ (N + 1) ^ k := by
  calc N + 1 = (N + 1) ^ 1 := (Nat.pow_one _).symm
    _ ≤ (N + 1) ^ k := Nat.pow_le_pow_right (Nat.succ_pos _) h

/-- The same bound, with a higher degree. -/
def Meets.up {k : Nat} {c : CP α} {p : P α} (h : Meets k c p) (j : Nat) (hj : k ≤ j := by omega) : Meets j c p where
  C := h.C
  pos := Nat.le_trans h.pos hj
  steps N i hi := Nat.le_trans (h.steps N i hi) (Nat.mul_le_mul_left _ (Nat.pow_le_pow_right (Nat.succ_pos _) hj))
  val := h.val
  reads := h.reads
  consumes := h.consumes

theorem Consumes.le {p : P α} (h : Consumes p) {i r : Str} {a : α} (e : p i = some (r, a)) : r.length ≤ i.length :=
  (h i r a e).length_le

/-- A parser whose steps are at most a multiple of the length. -/
def Meets.lin {c : CP α} {p : P α} (C : Nat) (hs : ∀ i, (c i).steps ≤ C * (i.length + 1)) (hv : ∀ i, (c i).val = p i)
    (hr : Reads c) (hc : Consumes p) : Meets 1 c p where
  C := C
  pos := Nat.le_refl _
  steps N i hi := by
    rw [Nat.pow_one]
    exact Nat.le_trans (hs i) (Nat.mul_le_mul_left _ (by omega))
  val := hv
  reads := hr
  consumes := hc

section
variable {k : Nat}

def map_meets {c : CP α} {p : P α} (h : Meets k c p) (f : α → β) : Meets k (map c f) (Parse.map p f) where
  C := h.C + 1
  pos := h.pos
  steps N i hi := by
    have h1 := h.steps N i hi
    have h2 := @le_pow N k h.pos
    have h3 := h.val i
    rw [Nat.add_mul, Nat.one_mul]
    simp only [map, bind_steps, tick_steps]
    cases e : (c i).val with
    | none => simp only [pure_steps]; omega
    | some x =>
      obtain ⟨r, a⟩ := x
      have h4 := Consumes.le h.consumes (h3.symm.trans e)
      simp only [bind_steps, tick_steps, pure_steps]
      omega
  val := map_gives h.val f
  reads := map_reads h.reads f
  consumes := map_consumes h.consumes

def mapRes_meets {c : CP α} {p : P α} (h : Meets k c p) (f : α → Option β) : Meets k (mapRes c f) (Parse.mapRes p f) where
  C := h.C + 1
  pos := h.pos
  steps N i hi := by
    have h1 := h.steps N i hi
    have h2 := @le_pow N k h.pos
    have h3 := h.val i
    rw [Nat.add_mul, Nat.one_mul]
    simp only [mapRes, bind_steps, tick_steps]
    cases e : (c i).val with
    | none => simp only [pure_steps]; omega
    | some x =>
      obtain ⟨r, a⟩ := x
      have h4 := Consumes.le h.consumes (h3.symm.trans e)
      simp only [bind_steps, tick_steps]
      cases f a <;> simp only [pure_steps] <;> omega
  val := mapRes_gives h.val f
  reads := mapRes_reads h.reads f
  consumes := mapRes_consumes h.consumes

def value_meets {c : CP α} {p : P α} (b : β) (h : Meets k c p) : Meets k (value b c) (Parse.value b p) :=
  map_meets h _

def opt_meets {c : CP α} {p : P α} (h : Meets k c p) : Meets k (opt c) (Parse.opt p) where
  C := h.C + 1
  pos := h.pos
  steps N i hi := by
    have h1 := h.steps N i hi
    have h2 := @le_pow N k h.pos
    rw [Nat.add_mul, Nat.one_mul]
    simp only [opt, bind_steps, tick_steps]
    cases (c i).val <;> simp only [pure_steps] <;> omega
  val := opt_gives h.val
  reads := opt_reads h.reads
  consumes := opt_consumes h.consumes

def pnot_meets {c : CP α} {p : P α} (h : Meets k c p) : Meets k (pnot c) (Parse.pnot p) where
  C := h.C + 1
  pos := h.pos
  steps N i hi := by
    have h1 := h.steps N i hi
    have h2 := @le_pow N k h.pos
    rw [Nat.add_mul, Nat.one_mul]
    simp only [pnot, bind_steps, tick_steps]
    cases (c i).val <;> simp only [pure_steps] <;> omega
  val := pnot_gives h.val
  reads := pnot_reads
  consumes := pnot_consumes

def recognize_meets {c : CP α} {p : P α} (h : Meets k c p) : Meets k (recognize c) (Parse.recognize p) where
  C := h.C + 1
  pos := h.pos
  steps N i hi := by
    have h1 := h.steps N i hi
    have h2 := @le_pow N k h.pos
    have h3 := h.val i
    rw [Nat.add_mul, Nat.one_mul]
    simp only [recognize, bind_steps, tick_steps]
    cases e : (c i).val with
    | none => simp only [pure_steps]; omega
    | some x =>
      obtain ⟨r, a⟩ := x
      have h4 := Consumes.le h.consumes (h3.symm.trans e)
      simp only [bind_steps, tick_steps, pure_steps]
      omega
  val := recognize_gives h.val
  reads := recognize_reads h.reads
  consumes := recognize_consumes h.consumes

def alt_meets {c d : CP α} {p q : P α} (h : Meets k c p) (g : Meets k d q) : Meets k (alt c d) (Parse.alt p q) where
  C := h.C + g.C + 1
  pos := h.pos
  steps N i hi := by
    have h1 := h.steps N i hi
    have h2 := g.steps N i hi
    have h3 := @le_pow N k h.pos
    rw [Nat.add_mul, Nat.add_mul, Nat.one_mul]
    simp only [alt, bind_steps, tick_steps]
    cases (c i).val <;> simp only [pure_steps] <;> omega
  val := alt_gives h.val g.val
  reads := alt_reads h.reads g.reads
  consumes := alt_consumes h.consumes g.consumes

def pair_meets {c : CP α} {d : CP β} {p : P α} {q : P β} (h : Meets k c p) (g : Meets k d q) :
    Meets k (pair c d) (Parse.pair p q) where
  C := h.C + g.C + 1
  pos := h.pos
  steps N i hi := by
    have h1 := h.steps N i hi
    have h3 := @le_pow N k h.pos
    have h5 := h.val i
    rw [Nat.add_mul, Nat.add_mul, Nat.one_mul]
    simp only [pair, bind_steps, tick_steps]
    cases e : (c i).val with
    | none => simp only [pure_steps]; omega
    | some x =>
      obtain ⟨r, a⟩ := x
      have h4 := Consumes.le h.consumes (h5.symm.trans e)
      have h2 := g.steps N r (Nat.le_trans h4 hi)
      simp only [bind_steps]
      cases (d r).val <;> simp only [pure_steps] <;> omega
  val := pair_gives h.val g.val
  reads := pair_reads h.reads g.reads
  consumes := pair_consumes h.consumes g.consumes

def preceded_meets {c : CP α} {d : CP β} {p : P α} {q : P β} (h : Meets k c p) (g : Meets k d q) :
    Meets k (preceded c d) (Parse.preceded p q) := map_meets (pair_meets h g) _

def terminated_meets {c : CP α} {d : CP β} {p : P α} {q : P β} (h : Meets k c p) (g : Meets k d q) :
    Meets k (terminated c d) (Parse.terminated p q) := map_meets (pair_meets h g) _

def delimited_meets {c : CP α} {d : CP β} {b : CP γ} {p : P α} {q : P β} {s : P γ} (h : Meets k c p) (g : Meets k d q)
    (f : Meets k b s) : Meets k (delimited c d b) (Parse.delimited p q s) := preceded_meets h (terminated_meets g f)

def separatedPair_meets {c : CP α} {d : CP β} {b : CP γ} {p : P α} {q : P β} {s : P γ} (h : Meets k c p) (f : Meets k b s)
    (g : Meets k d q) : Meets k (separatedPair c b d) (Parse.separatedPair p s q) := pair_meets h (preceded_meets f g)

/-! ### Loops -/

theorem manyGo_val {c : CP α} {p : P α} (h : Meets k c p) : ∀ n i, (manyGo c n i).val = Parse.manyGo p n i
  | 0, i => rfl
  | n + 1, i => by
    simp only [manyGo, bind_val, Parse.manyGo, ← h.val i]
    cases (c i).val with
    | none => rfl
    | some x =>
      simp only
      split
      · rfl
      · simp only [bind_val, manyGo_val h n, pure_val]

theorem suffix_shorter {r i : Str} (h : r <:+ i) (hne : r ≠ i) : r.length + 1 ≤ i.length := by
  have h1 := h.length_le
  rcases Nat.lt_or_ge r.length i.length with h2 | h2
  · exact h2
  · exact absurd (h.eq_of_length (by omega)) hne

theorem manyGo_steps {c : CP α} {p : P α} (h : Meets k c p) (N : Nat) : ∀ n i, i.length ≤ N →
    (manyGo c n i).steps ≤ (i.length + 1) * (h.C * (N + 1) ^ k + 1)
  | 0, i, _ => Nat.zero_le _
  | n + 1, i, hi => by
    have h1 := h.steps N i hi
    have h5 := h.val i
    simp only [manyGo, bind_steps, tick_steps]
    rw [Nat.add_mul, Nat.one_mul]
    generalize hB : h.C * (N + 1) ^ k + 1 = B at *
    cases e : (c i).val with
    | none => simp only [pure_steps]; omega
    | some x =>
      obtain ⟨r, a⟩ := x
      simp only
      split
      · simp only [pure_steps]; omega
      · rename_i hne
        have h4 := suffix_shorter (h.consumes _ _ _ (h5.symm.trans e)) hne
        have h6 := manyGo_steps h N n r (by omega)
        rw [hB] at h6
        have h7 : (r.length + 1) * B ≤ i.length * B := Nat.mul_le_mul_right _ h4
        simp only [bind_steps, pure_steps]
        omega

theorem loop_bound {C N k l : Nat} (hl : l ≤ N) : (l + 1) * (C * (N + 1) ^ k + 1) ≤ (C + 1) * (N + 1) ^ (k + 1) := by
  have h1 : 1 ≤ (N + 1) ^ k := Nat.pow_pos (Nat.succ_pos _)
  have h2 : C * (N + 1) ^ k + 1 ≤ (C + 1) * (N + 1) ^ k := by rw [Nat.add_mul, Nat.one_mul]; omega
  calc (l + 1) * (C * (N + 1) ^ k + 1) ≤ (N + 1) * ((C + 1) * (N + 1) ^ k) := Nat.mul_le_mul (by omega) h2
    _ = (C + 1) * (N + 1) ^ (k + 1) := by rw [Nat.pow_succ, Nat.mul_comm (N + 1), Nat.mul_assoc]

def many0_meets {c : CP α} {p : P α} (h : Meets k c p) : Meets (k + 1) (many0 c) (Parse.many0 p) where
  C := h.C + 1
  pos := Nat.succ_pos _
  steps N i hi := Nat.le_trans (manyGo_steps h N _ i hi) (loop_bound hi)
  val i := manyGo_val h _ i
  reads := many0_reads h.reads
  consumes := many0_consumes h.consumes

def many1_meets {c : CP α} {p : P α} (h : Meets k c p) : Meets (k + 1) (many1 c) (Parse.many1 p) where
  C := 2 * h.C + 2
  pos := Nat.succ_pos _
  steps N i hi := by
    have h1 := (h.up (k + 1)).steps N i hi
    have h3 := @le_pow N (k + 1) (Nat.succ_pos _)
    have h5 := h.val i
    have hc : (h.up (k + 1)).C = h.C := rfl
    rw [hc] at h1
    have hd : (2 * h.C + 2) * (N + 1) ^ (k + 1) =
        h.C * (N + 1) ^ (k + 1) + (h.C + 1) * (N + 1) ^ (k + 1) + (N + 1) ^ (k + 1) := by
      rw [show 2 * h.C + 2 = h.C + (h.C + 1) + 1 by omega, Nat.add_mul, Nat.add_mul, Nat.one_mul]
    rw [hd]
    simp only [many1, bind_steps, tick_steps]
    cases e : (c i).val with
    | none => simp only [pure_steps]; omega
    | some x =>
      obtain ⟨r, a⟩ := x
      have h4 := Consumes.le h.consumes (h5.symm.trans e)
      have h2 := (many0_meets h).steps N r (Nat.le_trans h4 hi)
      have hc : (many0_meets h).C = h.C + 1 := rfl
      rw [hc] at h2
      simp only [bind_steps, pure_steps]
      omega
  val i := by
    simp only [many1, bind_val, Parse.many1, ← h.val i]
    cases (c i).val with
    | none => rfl
    | some x => simp only [bind_val, pure_val, (many0_meets h).val x.1]
  reads := many1_reads h.reads
  consumes := many1_consumes h.consumes

theorem sepGo_steps {s : CP β} {c : CP α} {t : P β} {p : P α} (g : Meets k s t) (h : Meets k c p) (N : Nat) :
    ∀ n i, i.length ≤ N → (sepGo s c n i).steps ≤ (i.length + 1) * ((g.C + h.C) * (N + 1) ^ k + 1)
  | 0, i, _ => Nat.zero_le _
  | n + 1, i, hi => by
    have h1 := g.steps N i hi
    have h5 := g.val i
    simp only [sepGo, bind_steps, tick_steps]
    rw [Nat.add_mul, Nat.one_mul]
    have hB : (g.C + h.C) * (N + 1) ^ k + 1 = g.C * (N + 1) ^ k + h.C * (N + 1) ^ k + 1 := by rw [Nat.add_mul]
    generalize hB' : (g.C + h.C) * (N + 1) ^ k + 1 = B at *
    cases e : (s i).val with
    | none => simp only [pure_steps]; omega
    | some x =>
      obtain ⟨r, a⟩ := x
      have h4 := Consumes.le g.consumes (h5.symm.trans e)
      simp only
      split
      · simp only [pure_steps]; omega
      · have h2 := h.steps N r (Nat.le_trans h4 hi)
        have h6 := h.val r
        simp only [bind_steps]
        cases e' : (c r).val with
        | none => simp only [pure_steps]; omega
        | some y =>
          obtain ⟨r', b⟩ := y
          simp only
          split
          · simp only [pure_steps]; omega
          · rename_i hne
            have h7 := suffix_shorter ((h.consumes _ _ _ (h6.symm.trans e')).trans (g.consumes _ _ _ (h5.symm.trans e))) hne
            have h8 := sepGo_steps g h N n r' (by omega)
            rw [hB'] at h8
            have h9 : (r'.length + 1) * B ≤ i.length * B := Nat.mul_le_mul_right _ h7
            simp only [bind_steps, pure_steps]
            omega

theorem sep_bound {N k : Nat} (a b : Nat) :
    (a + 2 * b + 2) * (N + 1) ^ (k + 1) = b * (N + 1) ^ (k + 1) + (a + b + 1) * (N + 1) ^ (k + 1) + (N + 1) ^ (k + 1) := by
  rw [show a + 2 * b + 2 = b + (a + b + 1) + 1 by omega, Nat.add_mul, Nat.add_mul, Nat.one_mul]

def sepList1_meets {s : CP β} {c : CP α} {t : P β} {p : P α} (g : Meets k s t) (h : Meets k c p) :
    Meets (k + 1) (sepList1 s c) (Parse.sepList1 t p) where
  C := g.C + 2 * h.C + 2
  pos := Nat.succ_pos _
  steps N i hi := by
    have h1 := (h.up (k + 1)).steps N i hi
    have hc : (h.up (k + 1)).C = h.C := rfl
    rw [hc] at h1
    have h3 := @le_pow N (k + 1) (Nat.succ_pos _)
    have h5 := h.val i
    rw [sep_bound]
    simp only [sepList1, bind_steps, tick_steps]
    cases e : (c i).val with
    | none => simp only [pure_steps]; omega
    | some x =>
      obtain ⟨r, a⟩ := x
      have h4 := Consumes.le h.consumes (h5.symm.trans e)
      simp only
      split
      · simp only [pure_steps]; omega
      · have h2 := Nat.le_trans (sepGo_steps g h N (r.length + 1) r (Nat.le_trans h4 hi)) (loop_bound (Nat.le_trans h4 hi))
        simp only [bind_steps, pure_steps]
        omega
  val := sepList1_gives g.val h.val
  reads := sepList1_reads g.reads h.reads
  consumes := (sepList1_strict g.consumes h.consumes).consumes

def sepList0_meets {s : CP β} {c : CP α} {t : P β} {p : P α} (g : Meets k s t) (h : Meets k c p) :
    Meets (k + 1) (sepList0 s c) (Parse.sepList0 t p) where
  C := g.C + 2 * h.C + 2
  pos := Nat.succ_pos _
  steps N i hi := by
    have h1 := (h.up (k + 1)).steps N i hi
    have hc : (h.up (k + 1)).C = h.C := rfl
    rw [hc] at h1
    have h3 := @le_pow N (k + 1) (Nat.succ_pos _)
    have h5 := h.val i
    rw [sep_bound]
    simp only [sepList0, bind_steps, tick_steps]
    cases e : (c i).val with
    | none => simp only [pure_steps]; omega
    | some x =>
      obtain ⟨r, a⟩ := x
      have h4 := Consumes.le h.consumes (h5.symm.trans e)
      simp only
      split
      · simp only [pure_steps]; omega
      · have h2 := Nat.le_trans (sepGo_steps g h N (r.length + 1) r (Nat.le_trans h4 hi)) (loop_bound (Nat.le_trans h4 hi))
        simp only [bind_steps, pure_steps]
        omega
  val := sepList0_gives g.val h.val
  reads := sepList0_reads g.reads h.reads
  consumes := sepList0_consumes g.consumes h.consumes

end

/-! ### Characters -/

theorem satisfy_reads (f : Char → Bool) : Reads (satisfy f) := fun i r a e => by
  cases i with
  | nil => cases e
  | cons c cs =>
    simp only [satisfy, bind_val, pure_val, Parse.satisfy] at e
    split at e
    · cases e
      exact Nat.le_refl _
    · cases e

def satisfy_meets (f : Char → Bool) : Meets 1 (satisfy f) (Parse.satisfy f) :=
  .lin 1 (fun i => by simp only [satisfy, bind_steps, tick_steps, pure_steps]; omega) (fun _ => rfl) (satisfy_reads f)
    satisfy_strict.consumes

def char_meets (c : Char) : Meets 1 (char c) (Parse.char c) := satisfy_meets _
def oneOf_meets (l : Str) : Meets 1 (oneOf l) (Parse.oneOf l) := satisfy_meets _

theorem tag_reads (t : Str) : Reads (tag t) := fun i r a e => by
  simp only [tag, bind_val, pure_val, Parse.tag] at e
  split at e
  · cases e
    simp only [tag, bind_steps, tick_steps, pure_steps, List.length_drop]
    omega
  · cases e

def tag_meets (t : Str) : Meets 1 (tag t) (Parse.tag t) :=
  .lin (t.length + 1) (fun i => by
    simp only [tag, bind_steps, tick_steps, pure_steps]
    exact Nat.le_mul_of_pos_right _ (Nat.succ_pos _)) (fun _ => rfl) (tag_reads t) tag_consumes

theorem takeWhile_len (f : Char → Bool) (i : Str) : (i.takeWhile f).length ≤ i.length :=
  (List.takeWhile_prefix f).length_le

theorem dropWhile_len (f : Char → Bool) (i : Str) : i.length = (i.dropWhile f).length + (i.takeWhile f).length := by
  conv => lhs; rw [← List.takeWhile_append_dropWhile (p := f) (l := i)]
  rw [List.length_append, Nat.add_comm]

def takeWhile_meets (f : Char → Bool) : Meets 1 (takeWhile f) (Parse.takeWhile f) :=
  .lin 1 (fun i => by
    have := takeWhile_len f i
    simp only [takeWhile, bind_steps, tick_steps, pure_steps]; omega) (fun _ => rfl)
    (fun i r a e => by
      have := dropWhile_len f i
      cases e
      simp only [takeWhile, bind_steps, tick_steps, pure_steps]; omega) takeWhile_consumes

def takeWhile1_meets (f : Char → Bool) : Meets 1 (takeWhile1 f) (Parse.takeWhile1 f) :=
  .lin 1 (fun i => by
    have := takeWhile_len f i
    simp only [takeWhile1, bind_steps, tick_steps, pure_steps]; omega) (fun _ => rfl)
    (fun i r a e => by
      have := dropWhile_len f i
      simp only [takeWhile1, bind_val, pure_val, Parse.takeWhile1] at e
      split at e
      · cases e
      · cases e
        simp only [takeWhile1, bind_steps, tick_steps, pure_steps]; omega) takeWhile1_strict.consumes

def take_meets (n : Nat) : Meets 1 (take n) (Parse.take n) :=
  .lin 1 (fun i => by simp only [take, bind_steps, tick_steps, pure_steps]; omega) (fun _ => rfl)
    (fun i r a e => by
      simp only [take, bind_val, pure_val, Parse.take] at e
      split at e
      · cases e
        simp only [take, bind_steps, tick_steps, pure_steps, List.length_drop]; omega
      · cases e) take_consumes

def notLineEnding_meets : Meets 1 notLineEnding Parse.notLineEnding :=
  .lin 2 (fun i => by
    have := takeWhile_len (fun c => !isEol c) i
    simp only [notLineEnding, bind_steps, tick_steps, pure_steps]; omega) (fun _ => rfl)
    (fun i r a e => by
      have := dropWhile_len (fun c => !isEol c) i
      simp only [notLineEnding, bind_val, pure_val, Parse.notLineEnding] at e
      simp only [notLineEnding, bind_steps, tick_steps, pure_steps]
      split at e
      · rename_i he; cases e; rw [he] at this; omega
      · cases e
      · cases e; omega) notLineEnding_consumes

def lineEnding_meets : Meets 1 lineEnding Parse.lineEnding :=
  .lin 2 (fun i => by simp only [lineEnding, bind_steps, tick_steps, pure_steps]; omega) (fun _ => rfl)
    (fun i r a e => by
      simp only [lineEnding, bind_val, pure_val, Parse.lineEnding] at e
      simp only [lineEnding, bind_steps, tick_steps, pure_steps]
      split at e
      · cases e; simp only [List.length_cons]; omega
      · cases e; simp only [List.length_cons]; omega
      · cases e) lineEnding_strict.consumes

theorem escapedGo_val (f : Char → Bool) (ctl : Char) (g : Char → Bool) :
    ∀ i, (escapedGo f ctl g i).val = Parse.escapedGo f ctl g i
  | [] => rfl
  | [c] => by
    simp only [escapedGo, bind_val, Parse.escapedGo]
    split
    · rfl
    · split <;> rfl
  | c :: d :: cs => by
    simp only [escapedGo, bind_val, Parse.escapedGo]
    split
    · exact escapedGo_val f ctl g (d :: cs)
    · split
      · split
        · exact escapedGo_val f ctl g cs
        · rfl
      · rfl

theorem escapedGo_steps (f : Char → Bool) (ctl : Char) (g : Char → Bool) :
    ∀ i, (escapedGo f ctl g i).steps ≤ 2 * i.length + 1
  | [] => Nat.le_refl _
  | [c] => by
    simp only [escapedGo, bind_steps, tick_steps, List.length_cons, List.length_nil]
    split
    · simp
    · split <;> simp
  | c :: d :: cs => by
    have h1 := escapedGo_steps f ctl g (d :: cs)
    have h2 := escapedGo_steps f ctl g cs
    simp only [List.length_cons] at h1
    simp only [escapedGo, bind_steps, tick_steps, List.length_cons]
    split
    · omega
    · split
      · split
        · omega
        · simp only [pure_steps]; omega
      · simp only [pure_steps]; omega

theorem escapedGo_reads (f : Char → Bool) (ctl : Char) (g : Char → Bool) :
    ∀ i r, (escapedGo f ctl g i).val = some r → i.length ≤ r.length + (escapedGo f ctl g i).steps
  | [], r, e => Nat.zero_le _
  | [c], r, e => by
    simp only [escapedGo, bind_steps, tick_steps, List.length_cons, List.length_nil]
    omega
  | c :: d :: cs, r, e => by
    have h1 := escapedGo_reads f ctl g (d :: cs) r
    have h2 := escapedGo_reads f ctl g cs r
    simp only [escapedGo, bind_val, bind_steps, tick_steps, List.length_cons] at e h1 ⊢
    split at e
    · rename_i hn
      simp only [hn, if_true]
      have := h1 e
      omega
    · rename_i hn
      simp only [hn]
      split at e
      · rename_i hc
        simp only [hc, if_true]
        split at e
        · rename_i hd
          have := h2 e
          simp only [hd, if_true]
          simp only [Bool.false_eq_true, if_false]
          omega
        · cases e
      · cases e
        simp only [List.length_cons]
        omega

def escaped_meets (f : Char → Bool) (ctl : Char) (g : Char → Bool) : Meets 1 (escaped f ctl g) (Parse.escaped f ctl g) :=
  .lin 2 (fun i => by
    have h := escapedGo_steps f ctl g i
    simp only [escaped, bind_steps, tick_steps]
    cases (escapedGo f ctl g i).val <;> simp only [pure_steps] <;> omega)
    (fun i => by
      simp only [escaped, bind_val, Parse.escaped, escapedGo_val]
      cases Parse.escapedGo f ctl g i <;> rfl)
    (fun i r a e => by
      have h := escapedGo_reads f ctl g i
      simp only [escaped, bind_val, bind_steps, tick_steps] at e ⊢
      cases e1 : (escapedGo f ctl g i).val with
      | none => simp only [e1] at e; cases e
      | some x =>
        have := h _ e1
        simp only [e1] at e
        cases e
        omega) escaped_consumes

end Butte.Parse.Timed
