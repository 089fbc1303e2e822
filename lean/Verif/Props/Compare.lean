import Verif.Rt.Compare
import Verif.Props.Tables
import Verif.Props.BuilderMem
import Verif.Props.Format
/-
Property C112: what `==` says about tables and builders (table.rs 25, builder.rs 41, codegen.rs 722, 1074).
-/
namespace Butte
open Gen Format

/-- **C112.** Tables that compare equal are the same to every reader: fields, and everything below them. -/
theorem C112_equal_reads {t u : Table} (h : t.eq u = true) :
    (∀ m F slot dflt, t.get m F slot dflt = u.get m F slot dflt) ∧
    (∀ m gs g, Gen.accessor m t gs g = Gen.accessor m u gs g) ∧
    (∀ gm m S n q, Gen.readVal gm m S n (.table q) (.fwdU .table) t = Gen.readVal gm m S n (.table q) (.fwdU .table) u) := by
  cases Table.eq_iff.mp h
  exact ⟨fun _ _ _ _ => rfl, fun _ _ _ => rfl, fun _ _ _ _ _ => rfl⟩

/-- **C112.** If the roots of two messages compare equal, the messages stand for the same tree, whoever wrote them. -/
theorem C112_equal_trees (gm m : Mode) (S : Gen.Tables) (hS : Accepted gm S) (sp : Bool) (i j : Option Bytes)
    (q : Ir.QIdent) (v w : Gen.Val) (buf buf' : Bytes) (hl : buf.length < 2 ^ 31) (hl' : buf'.length < 2 ^ 31)
    (h : Message generated S sp i q v buf) (h' : Message generated S sp j q w buf') (t u : Table)
    (ht : (if sp then Table.getSizePrefixedRoot m buf else Table.getRoot m buf) = .ok t)
    (hu : (if sp then Table.getSizePrefixedRoot m buf' else Table.getRoot m buf') = .ok u) (e : t.eq u = true) : v = w := by
  cases Table.eq_iff.mp e
  obtain ⟨r, hr, N, hN⟩ := C88_reads gm m S hS sp i q v buf hl h
  obtain ⟨r', hr', N', hN'⟩ := C88_reads gm m S hS sp j q w buf' hl' h'
  rw [ht] at hr
  rw [hu] at hr'
  cases hr
  cases hr'
  have h1 := hN (max N N') (Nat.le_max_left _ _)
  rw [hN' (max N N') (Nat.le_max_right _ _)] at h1
  cases h1
  rfl

/-- **C112.** Values of a union that compare equal have the same variant and the same table in it. -/
theorem C112_union_equal {x y : Nat × Table} (h : unionEq x y = true) : x.1 = y.1 ∧
    ∀ m F slot dflt, x.2.get m F slot dflt = y.2.get m F slot dflt := by
  simp only [unionEq, Bool.and_eq_true, beq_iff_eq] at h
  exact ⟨h.1, (C112_equal_reads h.2).1⟩

/-- **C112.** The same calls give roots that compare equal, whatever the capacity of the builder was. -/
theorem C112_same_calls (m : Mode) (cap₁ cap₂ : Nat) (b₁ b₂ b₁' b₂' : Builder) (ops : List Op)
    (r₁ r₂ : List (Option Nat)) (h₁ : Builder.newWithCapacity cap₁ = .ok b₁) (h₂ : Builder.newWithCapacity cap₂ = .ok b₂)
    (e₁ : run m b₁ ops = .ok (r₁, b₁')) (e₂ : run m b₂ ops = .ok (r₂, b₂')) (d₁ d₂ : Bytes)
    (f₁ : b₁'.finishedData m = .ok d₁) (f₂ : b₂'.finishedData m = .ok d₂) (t u : Table) :
    (Table.getRoot m d₁ = .ok t → Table.getRoot m d₂ = .ok u → t.eq u = true) ∧
    (Table.getSizePrefixedRoot m d₁ = .ok t → Table.getSizePrefixedRoot m d₂ = .ok u → t.eq u = true) := by
  obtain ⟨-, -, e⟩ := C07_same_output m cap₁ cap₂ b₁ b₂ b₁' b₂' ops r₁ r₂ h₁ h₂ e₁ e₂
  rw [f₁, f₂] at e
  cases e
  constructor <;> intro g g' <;> rw [g] at g' <;> cases g' <;> exact Table.eq_iff.mpr rfl

/-- **C112** is false for tables of one buffer: two tables never compare equal, even if the same calls wrote them. -/
theorem C112_copies_differ (m : Mode) (b b₁ b₂ b₃ b₄ : Builder) (body body' mid rest : List Op)
    (obj obj' : Nat) (rets rets' : List (Option Nat))
    (hi : Idle m b) (h : BuildsTable m b body obj b₁) (e : run m b₁ mid = .ok (rets, b₂)) (hr : NoReset mid)
    (hi' : Idle m b₂) (h' : BuildsTable m b₂ body' obj' b₃) (e' : run m b₃ rest = .ok (rets', b₄))
    (hr' : NoReset rest) (hs : b₄.usedSpace < 2 ^ 31) :
    Table.eq ⟨b₄.unfinishedData, b₄.usedSpace - obj⟩ ⟨b₄.unfinishedData, b₄.usedSpace - obj'⟩ = false := by
  obtain ⟨a, a₄, r2, r4, hl4, ho4, hle34, -⟩ := h'.later hi' e' hr' hs
  obtain ⟨a2, a3, q2, q3, -, -, -, hlt, hle, -⟩ := h'.toA hi' (by rw [r4.used] at hle34; omega)
  have h2 : b₂.usedSpace < 2 ^ 31 := by rw [q2.used]; rw [q3.used, r4.used] at hle34; omega
  obtain ⟨a0, a2', -, r2', -, hobj, -, -⟩ := h.later hi e hr h2
  have u1 := r2'.used
  have u2 := q2.used
  have u3 := q3.used
  have u4 := r4.used
  have hne : b₄.usedSpace - obj ≠ b₄.usedSpace - obj' := by omega
  simp [Table.eq, hne]

/-- A table with one field. -/
def cmpBody : List Op := [.pushSlotAlways 4 (.sc .u16) (u16c 7)]

/-- A builder with one such table. -/
def cmpBuilder (m : Mode) : Option Builder :=
  match fromNew m 128 (.startTable :: cmpBody ++ [.endTable 0]) with
  | .ok r => some r.2
  | _ => none

/-- **C112** is false: a buffer with two tables that the same calls wrote, from which the same is read at every slot, and which
compare unequal. -/
theorem C112_refuted (m : Mode) : ∃ (b : Builder) (t u : Table) (body : List Op) (obj obj' : Nat) (b₁ b₂ : Builder),
    Idle m b ∧ BuildsTable m b body obj b₁ ∧ BuildsTable m b₁ body obj' b₂ ∧
    t = ⟨b₂.unfinishedData, b₂.usedSpace - obj⟩ ∧ u = ⟨b₂.unfinishedData, b₂.usedSpace - obj'⟩ ∧
    u.get m (.scalar .u16) 4 none = .ok (some (u16c 7)) ∧
    (∀ s, s % 2 = 0 → 4 ≤ s → ∀ dflt, t.get m (.scalar .u16) s dflt = u.get m (.scalar .u16) s dflt) ∧ t.eq u = false := by
  obtain ⟨b, obj, b', rets, b'', h1, h2, h3, h4⟩ := @sampleT_ex m 128 [] cmpBody []
    (fun b obj b' b'' => decide (some b' = cmpBuilder m)) ⟨[], [], rfl, Or.inl rfl, by simp⟩ (by decide) (by decide)
    (by decide) (by cases m <;> decide +kernel)
  obtain ⟨c, obj', c', rets', c'', k1, k2, k3, k4⟩ := @sampleT_ex m 128 (.startTable :: cmpBody ++ [.endTable 0]) cmpBody []
    (fun b obj b' b'' => decide (some b = cmpBuilder m) && decide (b'.usedSpace < 2 ^ 31))
    ⟨_, [], (List.append_nil _).symm, Or.inr ⟨_, _, rfl⟩, by simp⟩ (by decide) (by decide)
    (by decide) (by cases m <;> decide +kernel)
  simp only [Bool.and_eq_true, decide_eq_true_eq] at h4 k4
  obtain ⟨k4, k5⟩ := k4
  rw [← h4] at k4
  cases k4
  refine ⟨b, _, _, cmpBody, obj, obj', b', c', h1, h2, k2, rfl, rfl, ?_, ?_, ?_⟩
  · exact ((C18_table_round_trip m b' c' c' _ [] obj' [] k1 k2 rfl nofun k5).1 4 .u16 (u16c 7)
      (by simp [cmpBody, Op.stored]; rfl)).1 none
  · intro s hs h4 dflt
    refine (C22_same_buffer_same_reads m b b' b' c' c' cmpBody [] [] obj obj' [] [] h1 h2 rfl nofun k1 k2 rfl nofun k5
      ?_ s hs h4).1 .u16 ?_ dflt
    · intro s x h
      simp [cmpBody, Op.stored] at h
    · intro f hf _
      simp only [cmpBody, Op.stored, List.filterMap_cons, List.filterMap_nil, List.mem_singleton] at hf
      rw [hf]
  · exact C112_copies_differ m b b' b' c' c' cmpBody cmpBody [] [] obj obj' [] [] h1 h2 rfl nofun k1 k2 rfl nofun k5

/-- **C112** is false for builders: those that differ in their capacity cannot be told apart by any calls, and compare unequal. -/
theorem C112_builder_refuted (m : Mode) : ∃ b c, Builder.newWithCapacity 64 = .ok b ∧ Builder.newWithCapacity 40 = .ok c ∧
    Indistinguishable m b c ∧ b.eq c = false := by
  refine ⟨_, _, rfl, rfl, C07_capacity_independence m 64 40 _ _ rfl rfl, by decide +kernel⟩

/-- **C112.** Builders that compare equal do the same. -/
theorem C112_builder_equal {m : Mode} {b c : Builder} (h : b.eq c = true) (ops : List Op) : run m b ops = run m c ops := by
  rw [Builder.eq_iff.mp h]

/-- C112_same_calls: a finished table in builders of capacity 64 and 40. -/
example (m : Mode) : ∃ b₁ b₂ r₁ r₂ b₁' b₂' d₁ d₂ t u, Builder.newWithCapacity 64 = .ok b₁ ∧
    Builder.newWithCapacity 40 = .ok b₂ ∧
    run m b₁ (.startTable :: cmpBody ++ [.endTable 0, .finish 8 none false]) = .ok (r₁, b₁') ∧
    run m b₂ (.startTable :: cmpBody ++ [.endTable 0, .finish 8 none false]) = .ok (r₂, b₂') ∧
    b₁'.finishedData m = .ok d₁ ∧ b₂'.finishedData m = .ok d₂ ∧ Table.getRoot m d₁ = .ok t ∧ Table.getRoot m d₂ = .ok u := by
  obtain ⟨b₁, r₁, b₁', h1, e1, p1⟩ := fromNew_ex (m := m) (cap := 64)
    (ops := .startTable :: cmpBody ++ [.endTable 0, .finish 8 none false])
    (p := fun r => (r.2.finishedData m).okAnd fun d => (Table.getRoot m d).okAnd fun _ => true)
    (by cases m <;> decide +kernel)
  obtain ⟨b₂, r₂, b₂', h2, e2, p2⟩ := fromNew_ex (m := m) (cap := 40)
    (ops := .startTable :: cmpBody ++ [.endTable 0, .finish 8 none false])
    (p := fun r => (r.2.finishedData m).okAnd fun d => (Table.getRoot m d).okAnd fun _ => true)
    (by cases m <;> decide +kernel)
  obtain ⟨d₁, f₁, g₁⟩ := Res.okAnd_ex p1
  obtain ⟨d₂, f₂, g₂⟩ := Res.okAnd_ex p2
  obtain ⟨t, k₁, -⟩ := Res.okAnd_ex g₁
  obtain ⟨u, k₂, -⟩ := Res.okAnd_ex g₂
  exact ⟨b₁, b₂, r₁, r₂, b₁', b₂', d₁, d₂, t, u, h1, h2, e1, e2, f₁, f₂, k₁, k₂⟩

/-- C112_equal_trees: the message of C88, compared with itself. -/
example (gm m : Mode) : ∃ t, Accepted gm fmtSchema ∧ fmtBytes.length < 2 ^ 31 ∧
    Message generated fmtSchema false (some [65, 66, 67, 68]) [c!"M"] (fmtVal none) fmtBytes ∧
    Table.getRoot m fmtBytes = .ok t ∧ t.eq t = true := by
  have h := fmt_message generated rfl rfl rfl
  obtain ⟨r, hr, -⟩ := C88_reads gm m fmtSchema (fmt_accepted gm) false _ _ _ fmtBytes (by decide) h
  exact ⟨r, fmt_accepted gm, by decide, h, hr, Table.eq_iff.mpr rfl⟩

end Butte
