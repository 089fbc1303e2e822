import Verif.Rt.History
/-
The three ways of writing a scalar vector leave the same state; a run that stays small completes.
-/
namespace Butte
open ABuilder (Big)

/-- An abstract run without `reset` whose final data is small is matched by the concrete builder. -/
theorem R.run_small {m : Mode} {b : Builder} {a a' : ABuilder} {ops : List Op} {rets : List (Option Nat)}
    (h : R b a) (e : runA m a ops = .ok (rets, a')) (hr : NoReset ops) (hs : a'.data.length ≤ 2 ^ 31 - 2 ^ 17) :
    ∃ b', run m b ops = .ok (rets, b') ∧ R b' a' := by
  refine run_bwd ops h e ?_
  intro k r a'' hk
  have e' := e
  rw [← List.take_append_drop k ops] at e'
  obtain ⟨r1, a1, r2, e1, e2, _⟩ := runA_append.mp e'
  rw [hk] at e1
  cases e1
  have := runA_len e2 (fun op ho => hr op (List.mem_of_mem_drop ho))
  simp only at this
  unfold Big
  omega

/-- … and for one call. -/
theorem R.step_small {m : Mode} {b : Builder} {a a' : ABuilder} {op : Op} {r : Option Nat}
    (h : R b a) (e : stepA m a op = .ok (r, a')) (hs : a'.data.length ≤ 2 ^ 31 - 2 ^ 17) :
    ∃ b', Butte.step m b op = .ok (r, b') ∧ R b' a' := by
  rcases (step_sim h op).bwd _ e with ⟨⟨r', b'⟩, f⟩ | hb
  · obtain ⟨⟨r'', a''⟩, g, hr, h'⟩ := (step_sim h op).fwd _ f
    rw [e] at g; cases g
    simp only at hr h'
    subst hr
    exact ⟨b', f, h'⟩
  · exfalso
    simp only [Big1, Big] at hb
    omega

/-- Bytes of a list of scalars. -/
def scalarBytes {t : STy} (xs : List (SVal t)) : Bytes := (xs.map SVal.bytes).flatten

theorem scalarBytes_length {t : STy} (xs : List (SVal t)) : (scalarBytes xs).length = xs.length * t.size := by
  unfold scalarBytes
  induction xs with
  | nil => simp
  | cons x xs ih =>
    rw [List.map_cons, List.flatten_cons, List.length_append, ih, SVal.bytes_length, List.length_cons, Nat.add_mul]
    omega

theorem scalarBytes_append {t : STy} (xs ys : List (SVal t)) :
    scalarBytes (xs ++ ys) = scalarBytes xs ++ scalarBytes ys := by
  unfold scalarBytes
  rw [List.map_append, List.flatten_append]

theorem push_sc {m : Mode} {a : ABuilder} {t : STy} {x : SVal t} (hal : a.data.length % t.size = 0)
    (hma : t.size ≤ a.minAlign) (hs : a.data.length + t.size < 2 ^ 64) :
    a.push m (p := .sc t) x = .ok ((x.bytes ++ a.data).length % 2 ^ 32, { a with data := x.bytes ++ a.data }) := by
  have hsz : (PTy.sc t).size = t.size := rfl
  refine (push_aligned (p := .sc t) (by rw [hsz]; simp [hal]) (by omega)).trans ?_
  simp only [PVal.pushBytes, Res.ok_bind, Res.pure_eq, hsz, Nat.max_eq_left hma]

theorem pushAll_scalar {m : Mode} {t : STy} : ∀ {xs : List (SVal t)} {a : ABuilder},
    a.data.length % t.size = 0 → t.size ≤ a.minAlign → a.data.length + xs.length * t.size < 2 ^ 64 →
    a.pushAll m (p := .sc t) xs = .ok { a with data := scalarBytes xs.reverse ++ a.data }
  | [], a, _, _, _ => rfl
  | x :: xs, a, hal, hma, hs => by
    simp only [List.length_cons, Nat.add_mul, Nat.one_mul] at hs
    have hxl : (SVal.bytes (t := t) x).length = t.size := SVal.bytes_length (t := t) x
    show (do
      let (_, a) ← ABuilder.push m a (p := .sc t) x
      ABuilder.pushAll m a (p := .sc t) xs) = _
    rw [push_sc hal hma (by omega)]
    simp only [Res.ok_bind]
    refine (pushAll_scalar (a := { a with data := SVal.bytes (t := t) x ++ a.data })
      (by simp only [List.length_append, hxl]; simp [hal]) hma
      (by simp only [List.length_append, hxl]; omega)).trans ?_
    have : scalarBytes (t := t) (x :: xs).reverse = scalarBytes (t := t) xs.reverse ++ SVal.bytes (t := t) x := by
      rw [List.reverse_cons, scalarBytes_append]
      simp [scalarBytes]
    rw [this, List.append_assoc]

/-- What writing a scalar vector adds. -/
def vecResult (a : ABuilder) (t : STy) (items : List (SVal t)) : ABuilder :=
  { a with minAlign := max a.minAlign (max t.size 4),
           data := leBytes 4 (items.length % 2 ^ 32) ++ (scalarBytes items ++
             (List.replicate (paddingBytes (a.data.length + items.length * t.size) (max t.size 4)) 0 ++ a.data)) }

theorem u32v_bytes' (n : Nat) : SVal.bytes (t := .u32) (PVal.sc (u32v n)) = leBytes 4 (n % 2 ^ 32) := by
  unfold SVal.bytes PVal.sc
  rw [u32v_val]; rfl

theorem vec_align {a : ABuilder} {t : STy} {n : Nat} (hs : a.data.length + n * t.size + 32 < 2 ^ 64) :
    let pad := paddingBytes (a.data.length + n * t.size) (max t.size 4)
    pad < 8 ∧ (pad + a.data.length) % t.size = 0 ∧ (n * t.size + (pad + a.data.length)) % 4 = 0 := by
  intro pad
  obtain ⟨hp2, hd1, hd4, hle8⟩ := (PTy.sc t).max4
  have hsz : (PTy.sc t).size = t.size := rfl
  rw [hsz] at hp2 hd1 hd4 hle8
  have hmod := padding_dvd (n := a.data.length + n * t.size) (by omega) hp2
  have hlt := padding_lt (n := a.data.length + n * t.size) (by omega) hp2
  have hp : pad = paddingBytes (a.data.length + n * t.size) (max t.size 4) := rfl
  rw [← hp] at hmod hlt
  have h1 : (a.data.length + n * t.size + pad) % t.size = 0 :=
    Nat.mod_eq_zero_of_dvd (Nat.dvd_trans hd1 (Nat.dvd_of_mod_eq_zero hmod))
  have h4 : (a.data.length + n * t.size + pad) % 4 = 0 :=
    Nat.mod_eq_zero_of_dvd (Nat.dvd_trans hd4 (Nat.dvd_of_mod_eq_zero hmod))
  refine ⟨by omega, ?_, by omega⟩
  rw [show a.data.length + n * t.size + pad = pad + a.data.length + n * t.size by omega,
    Nat.add_mul_mod_self_right] at h1
  exact h1

/-- Pushing the length prefix of a vector at an aligned place. -/
theorem push_len_prefix {m : Mode} {a : ABuilder} {n : Nat} (hal : a.data.length % 4 = 0)
    (hs : a.data.length + 4 < 2 ^ 64) (hma : 4 ≤ a.minAlign) :
    a.push m (PVal.sc (u32v n)) = .ok ((leBytes 4 (n % 2 ^ 32) ++ a.data).length % 2 ^ 32,
      { a with data := leBytes 4 (n % 2 ^ 32) ++ a.data }) := by
  have hsz : (PTy.sc STy.u32).size = 4 := rfl
  rw [push_aligned (by rw [hsz]; omega) (by rw [hsz]; omega)]
  simp only [PVal.pushBytes, Res.ok_bind, Res.pure_eq, hsz, Nat.max_eq_left hma]
  rw [u32v_bytes']

theorem createVector_eq {m : Mode} {a : ABuilder} {t : STy} {items : List (SVal t)}
    (hs : a.data.length + items.length * t.size + 32 < 2 ^ 64) :
    a.createVector m (p := .sc t) items =
      .ok ((vecResult a t items).data.length % 2 ^ 32, vecResult a t items) := by
  have hsz : (PTy.sc t).size = t.size := rfl
  obtain ⟨h1, h2, h3⟩ := vec_align hs
  have hsb := scalarBytes_length items
  show (do
    let n ← mulU m (items.length) t.size
    let a ← ABuilder.align m a n (max t.size 4)
    let a ← ABuilder.pushAll m a (p := .sc t) items.reverse
    ABuilder.push m a (PVal.sc (u32v items.length))) = _
  rw [mulU_ok (by omega)]
  simp only [Res.ok_bind]
  unfold ABuilder.align
  rw [addU_ok (by omega)]
  simp only [Res.ok_bind, Res.pure_eq]
  rw [pushAll_scalar (by simpa using h2) (by simp only; omega) (by simp; omega)]
  simp only [Res.ok_bind, List.reverse_reverse]
  rw [push_len_prefix (by
    simp only [List.length_append, List.length_replicate]; rw [hsb]; exact h3)
    (by simp only [List.length_append, List.length_replicate]; rw [hsb]; omega) (by simp only; omega)]
  rfl

theorem createVectorDirect_eq' {m : Mode} {a : ABuilder} {t : STy} {items : List (SVal t)}
    (hn : debugAssert m (!a.nested) = .ok ()) (hs : a.data.length + items.length * t.size + 32 < 2 ^ 64) :
    a.createVectorDirect m items =
      .ok ((vecResult a t items).data.length % 2 ^ 32, vecResult a t items) := by
  obtain ⟨h1, h2, h3⟩ := vec_align hs
  have hsb := scalarBytes_length items
  unfold scalarBytes at hsb
  unfold ABuilder.createVectorDirect
  rw [hn]
  simp only [Res.ok_bind]
  rw [mulU_ok (by omega)]
  simp only [Res.ok_bind]
  unfold ABuilder.align
  rw [addU_ok (by omega)]
  simp only [Res.ok_bind, Res.pure_eq, ABuilder.prepend]
  rw [push_len_prefix (by
    simp only [List.length_append, List.length_replicate]; rw [hsb]; exact h3)
    (by simp only [List.length_append, List.length_replicate]; rw [hsb]; omega) (by simp only; omega)]
  rfl

theorem createVectorDirect_eq {m : Mode} {a : ABuilder} {t : STy} {items : List (SVal t)}
    (hn : a.nested = false) (hs : a.data.length + items.length * t.size + 32 < 2 ^ 64) :
    a.createVectorDirect m items =
      .ok ((vecResult a t items).data.length % 2 ^ 32, vecResult a t items) :=
  createVectorDirect_eq' (by rw [hn]; cases m <;> rfl) hs

/-- The calls that write a vector by hand: `start_vector`, the items in reverse, `end_vector`. -/
def manualVector (t : STy) (items : List (SVal t)) (h : items.length < 2 ^ 64) : List Op :=
  .startVector (.sc t) ⟨items.length, h⟩ :: (items.reverse.map (fun x : SVal t => .push (.sc t) x) ++
    [.endVector ⟨items.length, h⟩])

theorem runA_pushes {m : Mode} {p : PTy} : ∀ {xs : List (PVal p)} {a a' : ABuilder}, a.pushAll m xs = .ok a' →
    ∃ rets, runA m a (xs.map fun x => .push p x) = .ok (rets, a')
  | [], a, a', h => by cases h; exact ⟨[], rfl⟩
  | x :: xs, a, a', h => by
    unfold ABuilder.pushAll at h
    obtain ⟨⟨o, a1⟩, h1, h⟩ := Res.bind_eq_ok.mp h
    obtain ⟨rs, h2⟩ := runA_pushes h
    refine ⟨some o :: rs, ?_⟩
    simp only [List.map_cons, runA, stepA, withRetA]
    rw [h1]
    simp only [Res.ok_bind, Res.pure_eq]
    rw [h2]; rfl

theorem manualVector_eq {m : Mode} {a : ABuilder} {t : STy} {items : List (SVal t)} (hl : items.length < 2 ^ 64)
    (hn : a.nested = false) (hs : a.data.length + items.length * t.size + 32 < 2 ^ 64) :
    ∃ rets, runA m a (manualVector t items hl) =
      .ok (rets ++ [some ((vecResult a t items).data.length % 2 ^ 32)], vecResult a t items) := by
  have hsz : (PTy.sc t).size = t.size := rfl
  obtain ⟨h1, h2, h3⟩ := vec_align hs
  have hsb := scalarBytes_length items
  have hst : stepA m a (.startVector (.sc t) ⟨items.length, hl⟩) = .ok (none,
      { a with nested := true, minAlign := max a.minAlign (max t.size 4), data := List.replicate (paddingBytes (a.data.length + items.length * t.size) (max t.size 4)) 0 ++ a.data }) := by
    simp only [stepA, noRetA, ABuilder.startVector]
    rw [show debugAssert m (!a.nested) = .ok () by rw [hn]; cases m <;> rfl]
    simp only [Res.ok_bind]
    rw [mulU_ok (by rw [hsz]; omega)]
    simp only [Res.ok_bind]
    unfold ABuilder.align
    rw [addU_ok (by simp only; rw [hsz]; omega)]
    rfl
  have hpa := pushAll_scalar (m := m) (t := t) (xs := items.reverse)
    (a := { a with nested := true, minAlign := max a.minAlign (max t.size 4), data := List.replicate (paddingBytes (a.data.length + items.length * t.size) (max t.size 4)) 0 ++ a.data })
    (by simpa using h2) (by simp only; omega) (by simp; omega)
  obtain ⟨rets, hp⟩ := runA_pushes hpa
  rw [List.reverse_reverse] at hp
  refine ⟨none :: rets, ?_⟩
  unfold manualVector
  simp only [runA]
  rw [hst]
  simp only [Res.ok_bind]
  have hend : runA m { a with nested := true, minAlign := max a.minAlign (max t.size 4), data := scalarBytes items ++ (List.replicate (paddingBytes (a.data.length + items.length * t.size) (max t.size 4)) 0 ++ a.data) } [.endVector ⟨items.length, hl⟩] =
      .ok ([some ((vecResult a t items).data.length % 2 ^ 32)], vecResult a t items) := by
    simp only [runA, stepA, withRetA, ABuilder.endVector]
    rw [show debugAssert m true = .ok () by cases m <;> rfl]
    simp only [Res.ok_bind]
    rw [push_len_prefix (by
      simp only [List.length_append, List.length_replicate]; rw [hsb]; exact h3)
      (by simp only [List.length_append, List.length_replicate]; rw [hsb]; omega) (by simp only; omega)]
    simp only [Res.ok_bind, Res.pure_eq]
    rw [← hn]
    rfl
  have hrun := runA_append.mpr ⟨_, _, _, hp, hend, rfl⟩
  rw [show runA m _ (items.reverse.map (fun x : SVal t => Op.push (.sc t) x) ++ [.endVector ⟨items.length, hl⟩]) = _
    from hrun]
  rfl

end Butte
