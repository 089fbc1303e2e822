import Verif.Mem.Erase
import Verif.Rt.Lemmas
/-
Reasoning about the recorded accesses.
-/
namespace Butte.Mem

/-- All accesses of `x` are `P`, and if `x` succeeds its result is `Q`. -/
def Does (P : Access → Prop) (x : Tr α) (Q : α → Prop) : Prop := (∀ a ∈ x.log, P a) ∧ ∀ r, x.res = .ok r → Q r

/-- All accesses of `x` are `P`. -/
def All (P : Access → Prop) (x : Tr α) : Prop := ∀ a ∈ x.log, P a

variable {P P' : Access → Prop}

theorem Does.all {x : Tr α} {Q : α → Prop} (h : Does P x Q) : All P x := h.1

theorem All.does {x : Tr α} (h : All P x) : Does P x (fun r => x.res = .ok r) := ⟨h, fun _ e => e⟩

theorem Does.mono {x : Tr α} {Q Q' : α → Prop} (h : Does P x Q) (hq : ∀ r, x.res = .ok r → Q r → Q' r) : Does P x Q' :=
  ⟨h.1, fun r e => hq r e (h.2 r e)⟩

theorem All.imp {x : Tr α} (h : All P x) (hp : ∀ a, P a → P' a) : All P' x := fun a ha => hp a (h a ha)

theorem bind_log (x : Tr α) (f : α → Tr β) :
    (x >>= f).log = x.log ++ (match x.res with | .ok a => (f a).log | _ => []) := by
  show (Tr.bind x f).log = _
  unfold Tr.bind
  cases x.res <;> simp

theorem All.bind {x : Tr α} {f : α → Tr β} (h : All P x) (hf : ∀ r, x.res = .ok r → All P (f r)) : All P (x >>= f) := by
  intro a ha
  rw [bind_log] at ha
  rcases List.mem_append.mp ha with ha | ha
  · exact h a ha
  · cases e : x.res with
    | ok r => rw [e] at ha; exact hf r e a ha
    | err _ => rw [e] at ha; cases ha
    | panic => rw [e] at ha; cases ha

theorem All.left {x : Tr α} {f : α → Tr β} (h : All P (x >>= f)) : All P x := by
  intro a ha
  refine h a ?_
  rw [bind_log]
  exact List.mem_append_left _ ha

theorem Does.bind {x : Tr α} {f : α → Tr β} {Q : α → Prop} {Q' : β → Prop} (h : Does P x Q)
    (hf : ∀ r, x.res = .ok r → Q r → Does P (f r) Q') : Does P (x >>= f) Q' := by
  refine ⟨All.bind h.1 fun r e => (hf r e (h.2 r e)).1, fun r e => ?_⟩
  rw [bind_res] at e
  obtain ⟨y, hy, e⟩ := Res.bind_eq_ok.mp e
  exact (hf y hy (h.2 y hy)).2 r e

theorem All.pure (a : α) : All P (Pure.pure a : Tr α) := nofun
theorem All.lift (r : Res α) : All P (Tr.lift r) := nofun
theorem All.liftM (r : Res α) : All P (liftM r : Tr α) := nofun
theorem All.monadLift (r : Res α) : All P (MonadLift.monadLift r : Tr α) := nofun

theorem Does.pure {a : α} {Q : α → Prop} (h : Q a) : Does P (Pure.pure a : Tr α) Q :=
  ⟨nofun, by rintro r ⟨⟩; exact h⟩

theorem Does.lift {r : Res α} {Q : α → Prop} (h : ∀ a, r = .ok a → Q a) : Does P (Tr.lift r) Q := ⟨nofun, h⟩
theorem Does.liftM {r : Res α} {Q : α → Prop} (h : ∀ a, r = .ok a → Q a) : Does P (liftM r : Tr α) Q := ⟨nofun, h⟩

theorem Does.panic {Q : α → Prop} : Does P (Tr.lift (.panic : Res α)) Q := ⟨nofun, nofun⟩

theorem All.touch {a : Access} (h : P a) : All P (Tr.touch a) := by
  intro b hb
  cases List.mem_singleton.mp hb
  exact h

theorem Does.touch {a : Access} {Q : Unit → Prop} (h : P a) (hq : Q ()) : Does P (Tr.touch a) Q :=
  ⟨All.touch h, fun _ _ => hq⟩

theorem All.onRes {g : Res α → Res β} {x : Tr α} (h : All P x) : All P (Tr.onRes g x) := h

theorem All.within {mem : Bytes} {s : Nat} {x : Tr α}
    (h : All (fun a => P { a with off := s + a.off, mem := mem }) x) : All P (Tr.within mem s x) := by
  intro a ha
  obtain ⟨b, hb, rfl⟩ := List.mem_map.mp ha
  exact h b hb

theorem All.bind_lift {r : Res α} {f : α → Tr β} (hf : ∀ a, r = .ok a → All P (f a)) :
    All P ((Tr.lift r : Tr α) >>= f) := All.bind (All.lift r) hf

theorem All.bind_liftM {r : Res α} {f : α → Tr β} (hf : ∀ a, r = .ok a → All P (f a)) :
    All P ((_root_.liftM r : Tr α) >>= f) := All.bind (All.liftM r) hf

theorem All.ite {c : Prop} [Decidable c] {x y : Tr α} (hx : c → All P x) (hy : ¬ c → All P y) :
    All P (if c then x else y) := by
  split
  · exact hx ‹_›
  · exact hy ‹_›

theorem Does.ite {c : Prop} [Decidable c] {x y : Tr α} {Q : α → Prop} (hx : c → Does P x Q) (hy : ¬ c → Does P y Q) :
    Does P (if c then x else y) Q := by
  split
  · exact hx ‹_›
  · exact hy ‹_›

/-! ### Checked reads -/

theorem sliceGet_len {s bs : Bytes} {a b : Nat} (h : sliceGet s a b = .ok bs) :
    a ≤ b ∧ b ≤ s.length ∧ bs = (s.drop a).take (b - a) ∧ bs.length = b - a := by
  unfold sliceGet at h
  split at h
  · rename_i hc
    cases h
    refine ⟨hc.1, hc.2, rfl, ?_⟩
    simp
    omega
  · cases h

/-- A checked sum that is not below its first summand did not wrap around. -/
theorem addU_le {m : Mode} {a b c : Nat} (h : addU m a b = .ok c) (hle : a ≤ c) (hb : b < 2 ^ 64) : c = a + b := by
  unfold addU addW at h
  split at h
  · cases h; rfl
  · cases m with
    | debug => cases h
    | release =>
      cases h
      exfalso
      rename_i hn
      by_cases ha : a < 2 ^ 64
      · have : (a + b) % 2 ^ 64 = a + b - 2 ^ 64 := by omega
        omega
      · have := Nat.mod_lt (a + b) (show 2 ^ 64 > 0 by decide)
        omega

theorem STy.size_lt (t : STy) : t.size < 2 ^ 64 := by cases t <;> decide
theorem STy.size_pos (t : STy) : 0 < t.size := by cases t <;> decide

theorem readScalarAs_all {A t : STy} {s : Bytes} (h : t.size ≤ s.length → P ⟨false, A, 1, 0, s⟩) :
    All P (readScalarAs A t s) := by
  unfold readScalarAs
  exact All.ite (fun hc => All.bind (All.touch (h hc)) fun _ _ => All.pure _) fun _ => All.lift _

theorem readScalarAtAs_does {m : Mode} {A t : STy} {s : Bytes} {loc : Nat}
    (h : loc + t.size ≤ s.length → P ⟨false, A, 1, loc, s⟩) :
    Does P (readScalarAtAs m A t s loc) (fun _ => loc + t.size ≤ s.length) := by
  unfold readScalarAtAs
  refine Does.bind (Does.liftM fun _ e => e) fun e _ he => ?_
  refine Does.bind (Does.liftM fun _ e => e) fun bs _ hbs => ?_
  obtain ⟨h1, h2, _, _⟩ := sliceGet_len hbs
  have := addU_le he h1 (STy.size_lt t)
  subst this
  refine ⟨All.within (readScalarAs_all fun _ => ?_), fun _ _ => h2⟩
  exact h h2

theorem readScalarAt_does {m : Mode} {t : STy} {s : Bytes} {loc : Nat}
    (h : loc + t.size ≤ s.length → P ⟨false, t, 1, loc, s⟩) :
    Does P (readScalarAt m t s loc) (fun _ => loc + t.size ≤ s.length) := readScalarAtAs_does h

theorem readNatAt_does {m : Mode} {t : STy} {s : Bytes} {loc : Nat}
    (h : loc + t.size ≤ s.length → P ⟨false, t, 1, loc, s⟩) :
    Does P (readNatAt m t s loc) (fun n => loc + t.size ≤ s.length ∧ n < t.card) := by
  unfold readNatAt
  refine Does.bind (readScalarAt_does h) fun v _ hv => Does.pure ⟨hv, v.isLt⟩

theorem readNatAt_all {m : Mode} {t : STy} {s : Bytes} {loc : Nat}
    (h : loc + t.size ≤ s.length → P ⟨false, t, 1, loc, s⟩) : All P (readNatAt m t s loc) := (readNatAt_does h).all

/-- `read_scalar` on a slice of `size` bytes. -/
theorem slice_does {m : Mode} {t : STy} {buf : Bytes} {loc : Nat} {β : Type} {f : SVal t → Tr β} {k : Nat} (hk : k = t.size)
    (h : loc + t.size ≤ buf.length → P ⟨false, t, 1, loc, buf⟩)
    (hf : ∀ v, loc + t.size ≤ buf.length → Butte.readScalarAt m t buf loc = .ok v → All P (f v)) :
    All P (do
      let e ← (liftM (addU m loc k) : Tr Nat)
      let slice ← (liftM (sliceGet buf loc e) : Tr Bytes)
      let off ← Tr.within buf loc (readScalar t slice)
      f off) := by
  subst hk
  refine All.bind_liftM fun e he => All.bind_liftM fun bs hbs => ?_
  obtain ⟨h1, h2, _, _⟩ := sliceGet_len hbs
  have := addU_le he h1 (STy.size_lt t)
  subst this
  refine All.bind (All.within (readScalarAs_all fun _ => h h2)) fun v hv => hf v h2 ?_
  unfold Butte.readScalarAt
  rw [he]
  simp only [Res.ok_bind]
  rw [hbs]
  simp only [Res.ok_bind]
  simpa using hv

end Butte.Mem
