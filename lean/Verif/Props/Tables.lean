import Verif.Rt.FinishRead
/-
Properties C18–C22 and C25: tables read back as written, default elision, vtable sharing, `required`.
-/
namespace Butte

set_option maxRecDepth 4000

/-- Abstract view of a table build. -/
theorem BuildsTable.toA {m : Mode} {b b' : Builder} {body : List Op} {obj : Nat} (hi : Idle m b)
    (h : BuildsTable m b body obj b') (hs : b'.usedSpace < 2 ^ 32) :
    ∃ a a', R b a ∧ R b' a' ∧ a.fieldLocs = [] ∧
      TblAt m a'.data obj a.data.length (body.filterMap Op.stored) ∧ Ext a a' ∧ a.data.length < obj ∧
      obj ≤ a'.data.length ∧ obj % 4 = 0 ∧ a'.fieldLocs = [] ∧ a'.nested = false ∧ a'.finished = a.finished ∧
      4 ≤ a'.minAlign ∧ (∀ f ∈ body.filterMap Op.stored, f.p.size ≤ a'.minAlign) ∧ obj - a.data.length < 65536 ∧
      ∃ vt, VtFmt vt ∧ TabAt a'.data obj vt ∧
        (((∃ r ∈ a.vtables, At a.data r vt) ∧ a'.vtables = a.vtables ∧ a'.data.length = obj) ∨
         ((∀ r ∈ a.vtables, ¬ At a.data r vt) ∧ a'.vtables = a.vtables ++ [a'.data.length] ∧
           At a'.data a'.data.length vt ∧ a'.data.length = vt.length + obj)) := by
  obtain ⟨a, hr, hfl⟩ := hi.toR
  obtain ⟨⟨tail, b₁, b₂, rets, e1, e2, e3⟩, hb, hso, hnd, hfit⟩ := h
  obtain ⟨a₁, f1, r1⟩ := hr.step e1
  obtain ⟨a₂, f2, r2⟩ := run_fwd body r1 e2
  obtain ⟨a₃, f3, r3⟩ := r2.step e3
  simp only [stepA] at f1 f3
  have := table_spec hfl hr.vtOk (withRetA_some f1) f2 (withRetA_some f3) hb hso hnd
    (by rw [← hr.used]; exact hfit) (by rw [← r3.used]; exact hs)
  exact ⟨a, a₃, hr, r3, hfl, this⟩

/-- Building a table leaves nothing pending. -/
theorem BuildsTable.idle {m : Mode} {b b' : Builder} {body : List Op} {obj : Nat} (hi : Idle m b)
    (h : BuildsTable m b body obj b') : Idle m b' := by
  obtain ⟨cap, b0, ops, rets, h0, h1, hn⟩ := hi
  obtain ⟨tail, b₁, b₂, rets', e1, e2, e3⟩ := h.calls
  refine ⟨cap, b0, ops ++ ([.startTable] ++ (body ++ [.endTable tail])),
    rets ++ ([some tail.val] ++ (rets' ++ [some obj])), h0, ?_, ?_⟩
  · exact run_append.mpr ⟨_, _, _, h1, run_append.mpr ⟨_, _, _, run_singleton.mpr ⟨_, e1, rfl⟩,
      run_append.mpr ⟨_, _, _, e2, run_singleton.mpr ⟨_, e3, rfl⟩, rfl⟩, rfl⟩, rfl⟩
  · exact ⟨ops ++ ([.startTable] ++ (body ++ [.endTable tail])), [], by simp,
      Or.inr ⟨ops ++ ([.startTable] ++ body), tail, by simp⟩, by simp⟩

/-- The table is still there after any calls other than `reset`. -/
theorem BuildsTable.later {m : Mode} {b b₁ b₂ : Builder} {body rest : List Op} {obj : Nat}
    {rets : List (Option Nat)} (h : BuildsTable m b body obj b₁) (hi : Idle m b)
    (e : run m b₁ rest = .ok (rets, b₂)) (hr : NoReset rest) (hs : b₂.usedSpace < 2 ^ 31) :
    ∃ a a₂, R b a ∧ R b₂ a₂ ∧ a₂.data.length < 2 ^ 31 ∧ obj ≤ a₂.data.length ∧ b₁.usedSpace ≤ b₂.usedSpace ∧
      TblAt m a₂.data obj a.data.length (body.filterMap Op.stored) := by
  have hrb : Reachable m b₁ := (h.idle hi).reachable
  obtain ⟨_, ha1⟩ := hrb.toR
  obtain ⟨a₂, f, r2⟩ := run_fwd rest ha1 e
  have hu := r2.used
  have hle : b₁.usedSpace ≤ b₂.usedSpace := by
    rw [ha1.used, hu]; exact (runA_ext f hr (by simp only; omega)).len
  obtain ⟨a, a₁, ra, ra1, _, ht, _⟩ := h.toA hi (by omega)
  obtain ⟨a₃, f', r3⟩ := run_fwd rest ra1 e
  have hx := runA_ext f' hr (by simp only; rw [← r3.used]; omega)
  have ht2 := ht.ext hx
  exact ⟨a, a₃, ra, r3, by rw [← r3.used]; exact hs, ht2.le, hle, ht2⟩

/-! ### C18 -/

/-- **C18** A table built in any idle state from any calls on distinct slots, followed by any calls other than
`reset` (`finish` included): in the resulting data the table reads back, slot by slot, what was pushed; and slots
that were not stored read as the default supplied by the reader. -/
theorem C18_table_round_trip (m : Mode) (b b₁ b₂ : Builder) (body rest : List Op) (obj : Nat)
    (rets : List (Option Nat)) (hi : Idle m b) (h : BuildsTable m b body obj b₁)
    (e : run m b₁ rest = .ok (rets, b₂)) (hr : NoReset rest) (hs : b₂.usedSpace < 2 ^ 31) :
    (∀ s t (x : PVal (.sc t)), ⟨s, .sc t, x⟩ ∈ body.filterMap Op.stored →
      (∀ dflt, Table.get m ⟨b₂.unfinishedData, b₂.usedSpace - obj⟩ (.scalar t) s dflt = .ok (some x)) ∧
      (∀ vals dflt, Table.get m ⟨b₂.unfinishedData, b₂.usedSpace - obj⟩ (.enum t vals) s dflt =
        (do let i ← enumTryFrom vals x.val; return some i))) ∧
    (∀ s (x : PVal .off), ⟨s, .off, x⟩ ∈ body.filterMap Op.stored → x.val ≤ b.usedSpace →
      ∀ (F : FTy) (dflt : Option F.Inner),
        Table.get m ⟨b₂.unfinishedData, b₂.usedSpace - obj⟩ (.fwdU F) s dflt =
          (do let y ← F.follow m b₂.unfinishedData (b₂.usedSpace - x.val); return some y)) ∧
    (∀ s, s % 2 = 0 → 4 ≤ s → (∀ f ∈ body.filterMap Op.stored, f.slot ≠ s) →
      ∀ (F : FTy) (dflt : Option F.Inner),
        Table.get m ⟨b₂.unfinishedData, b₂.usedSpace - obj⟩ F s dflt = .ok dflt) := by
  obtain ⟨a, a₃, ra, r3, hl, _, _, ht2⟩ := h.later hi e hr hs
  rw [r3.unfinished, r3.used, ra.used]
  refine ⟨fun s t x hx => ⟨fun dflt => ht2.get_scalar hl hx dflt, fun vals dflt => ht2.get_enum hl hx vals dflt⟩,
    fun s x hx hle F dflt => ht2.get_off hl hx hle F dflt, fun s h1 h2 h3 F dflt => ht2.get_absent hl h1 h2 ?_ F dflt⟩
  intro hm
  obtain ⟨f, hf, e⟩ := List.mem_map.mp hm
  exact h3 f hf e

/-- **C18** (root) `finish` of an offset already written: `get_root` (or `get_size_prefixed_root`) on
`finished_data` finds the object at that offset, and `finished_data` is all of the data. -/
theorem C18_root (m : Mode) (b b' : Builder) (rest : List Op) (root : Fin (2 ^ 32)) (ident : Option Bytes)
    (sp : Bool) (hb : Reachable m b) (h : Finishes m b rest root ident sp b') (hr : root.val ≤ b.usedSpace)
    (hs : b'.usedSpace < 2 ^ 31) :
    b'.finishedData m = .ok b'.unfinishedData ∧
    (if sp then Table.getSizePrefixedRoot m b'.unfinishedData else Table.getRoot m b'.unfinishedData) =
      .ok ⟨b'.unfinishedData, b'.usedSpace - root.val⟩ := by
  obtain ⟨a, ra⟩ := hb.toR
  obtain ⟨a₁, a', k1, k2, k3, _, k5, k6, k7, k8, k9, _⟩ := h.toA hb ra (by omega)
  have hl := k2.len
  rw [ra.used] at hr
  have := (finish_root k6 k5 h.ident4 (by omega) (by omega)).1
  rw [← k8, ← k7]
  exact ⟨k9, this⟩

/-- **C18** (all together) build a table, anything but `reset`, `finish` it: the root found in `finished_data`
reads back every stored scalar, every stored offset to something written before the table, and the default for
every slot not stored. -/
theorem C18_finished_table (m : Mode) (b b₁ b₂ : Builder) (body rest : List Op) (obj : Fin (2 ^ 32))
    (ident : Option Bytes) (sp : Bool) (hi : Idle m b) (h : BuildsTable m b body obj.val b₁)
    (hf : Finishes m b₁ rest obj ident sp b₂) (hs : b₂.usedSpace < 2 ^ 31) :
    ∃ data root, b₂.finishedData m = .ok data ∧
      (if sp then Table.getSizePrefixedRoot m data else Table.getRoot m data) = .ok root ∧
      (∀ s t (x : PVal (.sc t)), ⟨s, .sc t, x⟩ ∈ body.filterMap Op.stored →
        ∀ dflt, root.get m (.scalar t) s dflt = .ok (some x)) ∧
      (∀ s (x : PVal .off), ⟨s, .off, x⟩ ∈ body.filterMap Op.stored → x.val ≤ b.usedSpace →
        ∀ (F : FTy) (dflt : Option F.Inner), root.get m (.fwdU F) s dflt =
          (do let y ← F.follow m data (data.length - x.val); return some y)) ∧
      (∀ s, s % 2 = 0 → 4 ≤ s → (∀ f ∈ body.filterMap Op.stored, f.slot ≠ s) →
        ∀ (F : FTy) (dflt : Option F.Inner), root.get m F s dflt = .ok dflt) := by
  have hb := (h.idle hi).reachable
  obtain ⟨_, ra⟩ := hb.toR
  obtain ⟨a₁, a', k1, k2, k3, _, k5, k6, k7, k8, k9, _⟩ := hf.toA hb ra (by omega)
  have hle : obj.val ≤ b₁.usedSpace := by
    have h1 := k2.len
    have h2 := k3.len
    obtain ⟨_, _, _, q2, _, _, _, _, q4, _⟩ := h.toA hi (by rw [ra.used]; omega)
    rw [q2.used]; exact q4
  obtain ⟨g1, g2⟩ := C18_root m b₁ b₂ rest obj ident sp hb hf hle hs
  obtain ⟨b₃, rets, e1, e2⟩ := hf.calls
  obtain ⟨t1, t2, t3⟩ := C18_table_round_trip m b b₁ b₂ body (rest ++ [.finish obj ident sp]) obj.val
    (rets ++ [none]) hi h (run_append.mpr ⟨_, _, _, e1, run_singleton.mpr ⟨_, e2, rfl⟩, rfl⟩)
    (by
      intro op hop
      rcases List.mem_append.mp hop with hop | hop
      · exact hf.noReset op hop
      · simp only [List.mem_singleton] at hop; subst hop; rfl) hs
  have hlen : b₂.unfinishedData.length = b₂.usedSpace := by rw [← k8, k7]
  refine ⟨b₂.unfinishedData, ⟨b₂.unfinishedData, b₂.usedSpace - obj.val⟩, g1, g2, fun s t x hx => (t1 s t x hx).1, ?_, t3⟩
  rw [hlen]
  exact t2

/-! ### C19 and C20 -/

/-- **C19** A field pushed with `push_slot(slot, x, default)` and read with the same default yields `x` exactly,
or, when `x == default` (so the field is not stored), the default; never anything that is not equal to `x`. -/
theorem C19_default_elision_invisible (m : Mode) (b b₁ b₂ : Builder) (pre post rest : List Op) (s : Fin 65536)
    (t : STy) (x d : PVal (.sc t)) (obj : Nat) (rets : List (Option Nat)) (hi : Idle m b) (hso : SlotOk s)
    (h : BuildsTable m b (pre ++ .pushSlot s (.sc t) x d :: post) obj b₁)
    (honce : ∀ op ∈ pre ++ post, op.slot? ≠ some s.val)
    (e : run m b₁ rest = .ok (rets, b₂)) (hr : NoReset rest) (hs : b₂.usedSpace < 2 ^ 31) :
    ∃ y : PVal (.sc t), Table.get m ⟨b₂.unfinishedData, b₂.usedSpace - obj⟩ (.scalar t) s (some d) = .ok (some y) ∧
      (x.eqv d = false → y = x) ∧ (x.eqv d = true → y = d) ∧
      ((∃ o, (do let v ← Table.vtable m ⟨b₂.unfinishedData, b₂.usedSpace - obj⟩; v.get m s) = .ok (some o) ∧ o ≠ 0)
        ↔ x.eqv d = false) := by
  obtain ⟨a, a₃, ra, r3, hl, _, _, ht⟩ := h.later hi e hr hs
  rw [r3.unfinished, r3.used]
  obtain ⟨v, v1, v2, v3⟩ := ht.vtget hl
  rw [v1]
  simp only [Res.ok_bind]
  have hmem : ∀ f ∈ (pre ++ .pushSlot s (.sc t) x d :: post).filterMap Op.stored, f.slot = s.val →
      x.eqv d = false := by
    intro f hf hfs
    obtain ⟨op, hop, ho⟩ := List.mem_filterMap.mp hf
    have hslot : op.slot? = some f.slot := by
      cases op <;> simp only [Op.stored] at ho
      all_goals first
        | cases ho; rfl
        | (split at ho
           · cases ho
           · cases ho; rfl)
        | cases ho
    rw [hfs] at hslot
    rcases List.mem_append.mp hop with hop | hop
    · exact absurd hslot (honce op (List.mem_append.mpr (Or.inl hop)))
    · rcases List.mem_cons.mp hop with rfl | hop
      · simp only [Op.stored] at ho
        split at ho
        · cases ho
        · rename_i hne; simpa using hne
      · exact absurd hslot (honce op (List.mem_append.mpr (Or.inr hop)))
  cases hx : x.eqv d with
  | false =>
    have hin : (⟨s.val, .sc t, x⟩ : Fld) ∈ (pre ++ .pushSlot s (.sc t) x d :: post).filterMap Op.stored := by
      refine List.mem_filterMap.mpr ⟨.pushSlot s (.sc t) x d, by simp, ?_⟩
      simp [Op.stored, hx]
    refine ⟨x, ht.get_scalar hl hin _, fun _ => rfl, nofun, ?_⟩
    simp only [iff_true]
    exact v2 _ hin
  | true =>
    have hn : s.val ∉ ((pre ++ .pushSlot s (.sc t) x d :: post).filterMap Op.stored).map Fld.slot := by
      intro hm
      obtain ⟨f, hf, hfs⟩ := List.mem_map.mp hm
      have := hmem f hf hfs
      rw [hx] at this; cases this
    refine ⟨d, ht.get_absent hl hso.1 hso.2.1 hn (.scalar t) (some d), nofun, fun _ => rfl, ?_⟩
    simp only [Bool.true_eq_false, iff_false]
    rintro ⟨o, ho, h0⟩
    rcases v3 s hso.1 hso.2.1 hn with h1 | h1 <;> rw [h1] at ho <;> cases ho
    exact h0 rfl

/-- Positive or negative zero. -/
def isFloatZero (t : STy) (n : Nat) : Prop :=
  (t = .f32 ∧ (n = 0 ∨ n = 2 ^ 31)) ∨ (t = .f64 ∧ (n = 0 ∨ n = 2 ^ 63))

theorem eqv_cases {t : STy} {x d : PVal (.sc t)} (h : x.eqv d = true) :
    x = d ∨ (isFloatZero t x.val ∧ isFloatZero t d.val) := by
  have hx := x.isLt
  have hd := d.isLt
  simp only [PVal.eqv] at h
  cases t
  case f32 =>
    simp only [SVal.eqv, floatEqBits, Bool.and_eq_true, Bool.or_eq_true, beq_iff_eq] at h
    have hc : (PTy.sc STy.f32).card = 2 ^ 32 := rfl
    rcases h.2 with h | h
    · left; exact Fin.ext h
    · right; unfold isFloatZero; constructor <;> left <;> refine ⟨rfl, ?_⟩ <;> omega
  case f64 =>
    simp only [SVal.eqv, floatEqBits, Bool.and_eq_true, Bool.or_eq_true, beq_iff_eq] at h
    have hc : (PTy.sc STy.f64).card = 2 ^ 64 := rfl
    rcases h.2 with h | h
    · left; exact Fin.ext h
    · right; unfold isFloatZero; constructor <;> right <;> refine ⟨rfl, ?_⟩ <;> omega
  all_goals
    left
    simp only [SVal.eqv, beq_iff_eq] at h
    exact Fin.ext h

/-- **C20** (partial) The value read back is bit-identical to the one pushed, unless both the value and the
default are floating-point zeros (of opposite signs). What is missing: exactly that case, which
`C20_refuted` shows to be real. -/
theorem C20_partial (m : Mode) (b b₁ b₂ : Builder) (pre post rest : List Op) (s : Fin 65536)
    (t : STy) (x d : PVal (.sc t)) (obj : Nat) (rets : List (Option Nat)) (hi : Idle m b) (hso : SlotOk s)
    (h : BuildsTable m b (pre ++ .pushSlot s (.sc t) x d :: post) obj b₁)
    (honce : ∀ op ∈ pre ++ post, op.slot? ≠ some s.val)
    (e : run m b₁ rest = .ok (rets, b₂)) (hr : NoReset rest) (hs : b₂.usedSpace < 2 ^ 31)
    (hz : ¬ (isFloatZero t x.val ∧ isFloatZero t d.val)) :
    Table.get m ⟨b₂.unfinishedData, b₂.usedSpace - obj⟩ (.scalar t) s (some d) = .ok (some x) := by
  obtain ⟨y, h1, h2, h3, _⟩ := C19_default_elision_invisible m b b₁ b₂ pre post rest s t x d obj rets hi hso h honce e hr hs
  rw [h1]
  cases hx : x.eqv d with
  | false => rw [h2 hx]
  | true =>
    rcases eqv_cases hx with rfl | hz'
    · rw [h3 hx]
    · exact absurd hz' hz

/-- The bit pattern of `-0.0f32`. -/
def negZero32 : PVal (.sc .f32) := (⟨2 ^ 31, by decide⟩ : Fin (2 ^ 32))
/-- The bit pattern of `0.0f32`. -/
def zero32 : PVal (.sc .f32) := (⟨0, by decide⟩ : Fin (2 ^ 32))

/-- **C20 is false of the code**: `push_slot(4, -0.0f32, 0.0f32)` stores nothing, and reading gives `+0.0`. -/
theorem C20_refuted (m : Mode) : ∃ b b₁ obj, Idle m b ∧
    BuildsTable m b [.pushSlot 4 (.sc .f32) negZero32 zero32] obj b₁ ∧ b₁.usedSpace < 2 ^ 31 ∧
    Table.get m ⟨b₁.unfinishedData, b₁.usedSpace - obj⟩ (.scalar .f32) 4 (some zero32) = .ok (some zero32) ∧
    negZero32 ≠ zero32 := by
  obtain ⟨b, obj, b', rets, b'', h1, h2, h3, h4⟩ := @sampleT_ex m 64 [] [.pushSlot 4 (.sc .f32) negZero32 zero32] []
    (fun _ _ b' _ => decide (b'.usedSpace < 2 ^ 31))
    ⟨[], [], rfl, Or.inl rfl, by simp⟩ (by decide) (by decide) (by decide) (by cases m <;> decide)
  simp only [decide_eq_true_eq] at h4
  refine ⟨b, b', obj, h1, h2, h4, ?_, by decide⟩
  exact (C18_table_round_trip m b b' b' _ [] obj [] h1 h2 rfl nofun h4).2.2 4 rfl (by decide) (by decide) _ _

/-! ### C21 -/

/-- The bytes of the vtable recorded at `r`. -/
def vtBytes (m : Mode) (b : Builder) (r : Nat) : Res Bytes := VTable.asBytes m ⟨b.unfinishedData, b.usedSpace - r⟩

/-- The bytes of the vtable of the table at `obj`. -/
def vtOf (m : Mode) (b : Builder) (obj : Nat) : Res Bytes := do
  let v ← Table.vtable m ⟨b.unfinishedData, b.usedSpace - obj⟩
  v.asBytes m

/-- **C21** (one table) Finishing a table whose vtable equals a recorded one adds no vtable: the table is the last
thing written and `num_written_vtables` is unchanged. Otherwise exactly one vtable is added. -/
theorem C21_dedup (m : Mode) (b b' : Builder) (body : List Op) (obj : Nat) (hi : Idle m b)
    (h : BuildsTable m b body obj b') (hs : b'.usedSpace < 2 ^ 31) :
    ∃ vt, vtOf m b' obj = .ok vt ∧
      ((∃ r ∈ b.vtables, vtBytes m b' r = .ok vt) →
        b'.numWrittenVTables = b.numWrittenVTables ∧ b'.vtables = b.vtables ∧ b'.usedSpace = obj) ∧
      ((¬ ∃ r ∈ b.vtables, vtBytes m b' r = .ok vt) →
        b'.numWrittenVTables = b.numWrittenVTables + 1 ∧ b'.vtables = b.vtables ++ [b'.usedSpace] ∧
        b'.usedSpace = obj + vt.length ∧ vtBytes m b' b'.usedSpace = .ok vt) := by
  obtain ⟨a, a', ra, ra', _, _, hx, h1, h2, _, _, _, _, _, _, _, vt, v1, ⟨u, v2, v2'⟩, v3⟩ := h.toA hi (by omega)
  have hl : a'.data.length < 2 ^ 31 := by rw [← ra'.used]; exact hs
  have hof : vtOf m b' obj = .ok vt := by
    unfold vtOf
    rw [ra'.unfinished, ra'.used, vtable_at v2 v2' hl]
    simp only [Res.ok_bind]
    exact asBytes_at v2' v1 (by omega)
  have hvb : ∀ r ∈ b.vtables, vtBytes m b' r = .ok vt ↔ At a.data r vt := by
    intro r hr
    rw [ra.vtables] at hr
    have hle := ra.vtOk r hr
    have := hx.len
    unfold vtBytes
    rw [ra'.unfinished, ra'.used]
    obtain ⟨y, hy⟩ := hx
    constructor
    · intro he
      have := asBytes_at_inv (by omega) he
      rw [hy] at this
      exact this.of_prepend hle
    · intro hat
      refine asBytes_at ?_ v1 (by omega)
      rw [hy]; exact hat.prepend y
  refine ⟨vt, hof, ?_, ?_⟩
  · rintro ⟨r, hr, he⟩
    have hat := (hvb r hr).mp he
    rw [ra.vtables] at hr
    rcases v3 with ⟨_, v4, v5⟩ | ⟨v4, _⟩
    · unfold Builder.numWrittenVTables
      rw [ra'.vtables, ra.vtables, v4, ra'.used]
      exact ⟨rfl, rfl, v5⟩
    · exact absurd hat (v4 r hr)
  · intro hne
    rcases v3 with ⟨⟨r, hr, hat⟩, _⟩ | ⟨v4, v5, v7, v6⟩
    · exact absurd ⟨r, by rw [ra.vtables]; exact hr, (hvb r (by rw [ra.vtables]; exact hr)).mpr hat⟩ hne
    · have hu := ra'.used
      refine ⟨?_, ?_, by omega, ?_⟩
      · unfold Builder.numWrittenVTables
        rw [ra'.vtables, ra.vtables, v5]; simp
      · rw [ra'.vtables, ra.vtables, v5, hu]
      · unfold vtBytes
        rw [ra'.unfinished, hu]
        exact asBytes_at v7 v1 (by omega)

theorem stepA_vtSub {m : Mode} {a : ABuilder} {op : Op} {r : Option Nat × ABuilder}
    (h : stepA m a op = .ok r) (hk : op.keepsVTables = true) (hl : r.2.data.length < 2 ^ 32) :
    ∀ v ∈ a.vtables, v ∈ r.2.vtables := by
  have same : r.2.vtables = a.vtables → ∀ v ∈ a.vtables, v ∈ r.2.vtables := by
    intro e v hv; rw [e]; exact hv
  have always : ∀ {s : Nat} {p : PTy} {x : PVal p} {a' : ABuilder},
      a.pushSlotAlways m s x = .ok a' → a'.vtables = a.vtables := by
    intro s p x a' h1
    unfold ABuilder.pushSlotAlways at h1
    obtain ⟨_, _, h1⟩ := Res.bind_eq_ok.mp h1
    obtain ⟨r3, h3, h1⟩ := Res.bind_eq_ok.mp h1
    cases h1
    exact (push_fl h3).2.1
  cases op <;> simp only [Op.keepsVTables, Bool.false_eq_true] at hk <;>
    simp only [stepA, withRetA, noRetA] at h
  case required => obtain ⟨_, _, h⟩ := Res.bind_eq_ok.mp h; cases h; exact same rfl
  all_goals
    obtain ⟨r1, h1, h⟩ := Res.bind_eq_ok.mp h
    injection h with h
    subst h
  case push => exact same (push_fl h1).2.1
  case pushSlot s p x d =>
    unfold ABuilder.pushSlot at h1
    obtain ⟨_, _, h1⟩ := Res.bind_eq_ok.mp h1
    split at h1
    · cases h1; exact same rfl
    · exact same (always h1)
  case pushSlotAlways s p x => exact same (always h1)
  case startTable =>
    obtain ⟨_, e⟩ := startTable_spec h1
    exact same (by rw [e])
  case endTable t =>
    unfold ABuilder.endTable at h1
    obtain ⟨_, _, h1⟩ := Res.bind_eq_ok.mp h1
    obtain ⟨r2, h2, h1⟩ := Res.bind_eq_ok.mp h1
    cases h1
    simp only at hl ⊢
    obtain ⟨_, _, _, _, _, _, _, _, _, _, hd⟩ := writeVTable_spec h2 hl
    intro v hv
    rcases hd with ⟨_, hv', _⟩ | ⟨_, hv', _⟩
    · rw [hv']; exact hv
    · rw [hv']; exact List.mem_append.mpr (Or.inl hv)
  case startVector =>
    unfold ABuilder.startVector at h1
    obtain ⟨_, _, h1⟩ := Res.bind_eq_ok.mp h1
    obtain ⟨_, _, h1⟩ := Res.bind_eq_ok.mp h1
    exact same (align_fl h1).2.1
  case endVector =>
    unfold ABuilder.endVector at h1
    obtain ⟨_, _, h1⟩ := Res.bind_eq_ok.mp h1
    exact same (push_fl h1).2.1
  case createString => exact same (createString_fl h1).2.1
  case createByteString => exact same (createByteString_fl h1).2.1
  case createVectorDirect => exact same (createVectorDirect_fl h1).2.1
  case createVector => exact same (createVector_fl h1).2.1
  case createVectorOfStrings => exact same (createVectorOfStrings_fl h1).2.1

theorem runA_vtSub {m : Mode} : ∀ {ops : List Op} {a : ABuilder} {r : List (Option Nat) × ABuilder},
    runA m a ops = .ok r → (∀ op ∈ ops, op.keepsVTables = true) → r.2.data.length < 2 ^ 32 →
    ∀ v ∈ a.vtables, v ∈ r.2.vtables
  | [], a, r, h, _, _ => by cases h; exact fun _ h => h
  | op :: ops, a, r, h, hk, hl => by
    unfold runA at h
    obtain ⟨⟨o1, a1⟩, e1, h⟩ := Res.bind_eq_ok.mp h
    obtain ⟨r2, e2, h⟩ := Res.bind_eq_ok.mp h
    cases h
    have hk' : ∀ o ∈ ops, o.keepsVTables = true := fun o ho => hk o (List.mem_cons_of_mem _ ho)
    have hnr : NoReset ops := by
      intro o ho
      have := hk' o ho
      cases o <;> first | rfl | cases this
    have hx := (runA_ext e2 hnr hl).len
    simp only at hx hl ⊢
    intro v hv
    exact runA_vtSub e2 hk' hl v (stepA_vtSub e1 (hk op (List.mem_cons_self ..)) (by simp only; omega) v hv)

/-- **C21** (two tables) If two tables of the same buffer have equal vtables, finishing the second one adds no
vtable. Between them anything but `finish` and `reset` may happen (both clear the record of vtables). -/
theorem C21_equal_vtables_shared (m : Mode) (b b₁ b₂ b₃ : Builder) (body₁ body₂ rest : List Op) (obj₁ obj₂ : Nat)
    (rets : List (Option Nat)) (vt : Bytes) (hi : Idle m b) (h₁ : BuildsTable m b body₁ obj₁ b₁)
    (e : run m b₁ rest = .ok (rets, b₂)) (hk : ∀ op ∈ rest, op.keepsVTables = true)
    (hi₂ : Idle m b₂) (h₂ : BuildsTable m b₂ body₂ obj₂ b₃) (hs : b₃.usedSpace < 2 ^ 31)
    (v₁ : vtOf m b₃ obj₁ = .ok vt) (v₂ : vtOf m b₃ obj₂ = .ok vt) :
    b₃.numWrittenVTables = b₂.numWrittenVTables ∧ b₃.usedSpace = obj₂ := by
  have hnr : NoReset rest := by
    intro o ho
    have := hk o ho
    cases o <;> first | rfl | cases this
  obtain ⟨a₂, a₃, ra2, ra3, _, _, hx23, _⟩ := h₂.toA hi₂ (by omega)
  have hl3 : a₃.data.length < 2 ^ 31 := by rw [← ra3.used]; exact hs
  have hl2 := hx23.len
  have hle1 : b₁.usedSpace ≤ b₂.usedSpace := by
    obtain ⟨_, _, _, _, _, _, k, _⟩ := h₁.later hi e hnr (by rw [ra2.used]; omega)
    exact k
  obtain ⟨a, a₁, ra, ra1, _, _, hx1, _, _, _, _, _, _, _, _, _, vt₁, w1, w2, w3⟩ := h₁.toA hi (by
    rw [ra2.used] at hle1; omega)
  have hrec : ∃ r ∈ a₁.vtables, At a₁.data r vt₁ := by
    rcases w3 with ⟨⟨r, hr, hat⟩, w4, _⟩ | ⟨_, w4, w5, _⟩
    · obtain ⟨y, hy⟩ := hx1
      exact ⟨r, by rw [w4]; exact hr, by rw [hy]; exact hat.prepend y⟩
    · exact ⟨_, by rw [w4]; simp, w5⟩
  obtain ⟨r, hr, hat⟩ := hrec
  obtain ⟨a₂', f, ra2'⟩ := run_fwd rest ra1 e
  have hd : a₂'.data = a₂.data := by rw [← ra2'.unfinished, ra2.unfinished]
  have hx12 := runA_ext f hnr (by simp only; rw [hd]; omega)
  have hr2 := runA_vtSub f hk (by simp only; rw [hd]; omega) r hr
  have hat3 : At a₃.data r vt₁ := by
    have h1 := hat.ext hx12
    simp only at h1
    rw [hd] at h1
    exact h1.ext hx23
  have hvt : vt₁ = vt := by
    obtain ⟨u, q1, q2⟩ := w2
    have q1' := q1.ext hx12
    have q2' := q2.ext hx12
    simp only at q1' q2'
    rw [hd] at q1' q2'
    have q1'' := q1'.ext hx23
    have q2'' := q2'.ext hx23
    unfold vtOf at v₁
    rw [ra3.unfinished, ra3.used, vtable_at q1'' q2'' hl3] at v₁
    simp only [Res.ok_bind] at v₁
    rw [asBytes_at q2'' w1 (by omega)] at v₁
    injection v₁
  subst hvt
  obtain ⟨vt', c1, c2, _⟩ := C21_dedup m b₂ b₃ body₂ obj₂ hi₂ h₂ hs
  rw [v₂] at c1
  cases c1
  have := c2 ⟨r, by rw [ra2'.vtables]; exact hr2, by
    unfold vtBytes
    rw [ra3.unfinished, ra3.used]
    exact asBytes_at hat3 w1 (by omega)⟩
  exact ⟨this.1, this.2.2⟩

/-- **C21** (all tables) In every history with usable slots that stays below 2 GiB, the recorded vtables are all
readable and pairwise different. -/
theorem C21_recorded_distinct (m : Mode) (b : Builder) (h : Regular m b) :
    (∀ r ∈ b.vtables, ∃ vt, vtBytes m b r = .ok vt) ∧
    b.vtables.Pairwise fun r r' => vtBytes m b r ≠ vtBytes m b r' := by
  obtain ⟨cap, b0, ops, rets, h0, h1, hso, hst⟩ := h
  obtain ⟨a, f, ra⟩ := run_fwd ops (new_R h0) h1
  have hb : b.usedSpace ≤ 2 ^ 31 - 1 := by
    refine hst ops.length rets b ?_
    rw [List.take_length]; exact h1
  have hinv := runA_inv f hso nofun ⟨nofun, List.Pairwise.nil, nofun⟩ (by
    intro k rs a'' hk
    have h1' := h1
    rw [← List.take_append_drop k ops] at h1'
    obtain ⟨rs', b'', _, g1, _⟩ := run_append.mp h1'
    obtain ⟨a''', f', ra'⟩ := run_fwd _ (new_R h0) g1
    rw [hk] at f'
    injection f' with f'
    injection f' with _ f'
    subst f'
    have := hst k rs' b'' g1
    rw [ra'.used] at this
    omega)
  simp only at hinv
  have hl : a.data.length < 2 ^ 31 := by rw [← ra.used]; omega
  unfold vtBytes
  rw [ra.unfinished, ra.used, ra.vtables]
  constructor
  · intro r hr
    obtain ⟨vt, k1, k2⟩ := hinv.2.le r hr
    exact ⟨vt, asBytes_at k2 k1 (by omega)⟩
  · refine hinv.2.diff.imp_of_mem ?_
    intro r r' hr hr' hd he
    obtain ⟨vt, k1, k2⟩ := hinv.2.le r hr
    have e1 := asBytes_at (m := m) k2 k1 (by omega)
    rw [he] at e1
    obtain ⟨_, _, k3⟩ := hinv.2.le r' hr'
    exact hd vt k2 k1 (asBytes_at_inv k3.le e1)

/-! ### C22 -/

/-- **C22** Two tables built by the same calls, in any two builders and after any histories (so one may share a
vtable where the other has its own), read the same: every scalar or enum slot, stored or not, and for offset
slots each follows the same offset in its own buffer. -/
theorem C22_same_calls_same_reads (m : Mode) (b b₁ b₂ c c₁ c₂ : Builder) (body rest rest' : List Op)
    (obj obj' : Nat) (rets rets' : List (Option Nat))
    (hi : Idle m b) (h : BuildsTable m b body obj b₁)
    (e : run m b₁ rest = .ok (rets, b₂)) (hr : NoReset rest) (hs : b₂.usedSpace < 2 ^ 31)
    (hi' : Idle m c) (h' : BuildsTable m c body obj' c₁)
    (e' : run m c₁ rest' = .ok (rets', c₂)) (hr' : NoReset rest') (hs' : c₂.usedSpace < 2 ^ 31)
    (s : Nat) (hev : s % 2 = 0) (h4 : 4 ≤ s) (t : STy)
    (hty : ∀ f ∈ body.filterMap Op.stored, f.slot = s → f.p = .sc t) :
    (∀ dflt, Table.get m ⟨b₂.unfinishedData, b₂.usedSpace - obj⟩ (.scalar t) s dflt =
      Table.get m ⟨c₂.unfinishedData, c₂.usedSpace - obj'⟩ (.scalar t) s dflt) ∧
    (∀ vals dflt, Table.get m ⟨b₂.unfinishedData, b₂.usedSpace - obj⟩ (.enum t vals) s dflt =
      Table.get m ⟨c₂.unfinishedData, c₂.usedSpace - obj'⟩ (.enum t vals) s dflt) := by
  obtain ⟨k1, _, k3⟩ := C18_table_round_trip m b b₁ b₂ body rest obj rets hi h e hr hs
  obtain ⟨k1', _, k3'⟩ := C18_table_round_trip m c c₁ c₂ body rest' obj' rets' hi' h' e' hr' hs'
  by_cases hm : ∃ f ∈ body.filterMap Op.stored, f.slot = s
  · obtain ⟨⟨s', p, x⟩, hf, hfs⟩ := hm
    have hp := hty _ hf hfs
    simp only at hfs hp
    subst hfs hp
    refine ⟨fun dflt => ?_, fun vals dflt => ?_⟩
    · rw [(k1 _ _ x hf).1 dflt, (k1' _ _ x hf).1 dflt]
    · rw [(k1 _ _ x hf).2 vals dflt, (k1' _ _ x hf).2 vals dflt]
  · have hn : ∀ f ∈ body.filterMap Op.stored, f.slot ≠ s := fun f hf he => hm ⟨f, hf, he⟩
    refine ⟨fun dflt => ?_, fun vals dflt => ?_⟩
    · rw [k3 s hev h4 hn (.scalar t) dflt, k3' s hev h4 hn (.scalar t) dflt]
    · rw [k3 s hev h4 hn (.enum t vals) dflt, k3' s hev h4 hn (.enum t vals) dflt]

/-- **C22** (same buffer) Two tables built by the same calls one after the other in the same buffer read the same
through every slot: also offset slots, for every type of target. -/
theorem C22_same_buffer_same_reads (m : Mode) (b b₁ b₂ b₃ b₄ : Builder) (body mid rest : List Op)
    (obj obj' : Nat) (rets rets' : List (Option Nat))
    (hi : Idle m b) (h : BuildsTable m b body obj b₁) (e : run m b₁ mid = .ok (rets, b₂)) (hr : NoReset mid)
    (hi' : Idle m b₂) (h' : BuildsTable m b₂ body obj' b₃) (e' : run m b₃ rest = .ok (rets', b₄))
    (hr' : NoReset rest) (hs : b₄.usedSpace < 2 ^ 31)
    (hoff : ∀ s (x : PVal .off), ⟨s, .off, x⟩ ∈ body.filterMap Op.stored → x.val ≤ b.usedSpace)
    (s : Nat) (hev : s % 2 = 0) (h4 : 4 ≤ s) :
    (∀ t, (∀ f ∈ body.filterMap Op.stored, f.slot = s → f.p = .sc t) →
      ∀ dflt, Table.get m ⟨b₄.unfinishedData, b₄.usedSpace - obj⟩ (.scalar t) s dflt =
        Table.get m ⟨b₄.unfinishedData, b₄.usedSpace - obj'⟩ (.scalar t) s dflt) ∧
    ((∀ f ∈ body.filterMap Op.stored, f.slot = s → f.p = .off) →
      ∀ (F : FTy) (dflt : Option F.Inner),
        Table.get m ⟨b₄.unfinishedData, b₄.usedSpace - obj⟩ (.fwdU F) s dflt =
        Table.get m ⟨b₄.unfinishedData, b₄.usedSpace - obj'⟩ (.fwdU F) s dflt) := by
  obtain ⟨tail, c₁, c₂, rets₂, e1, e2, e3⟩ := h'.calls
  have hall : run m b₁ (mid ++ (([.startTable] ++ (body ++ [.endTable tail])) ++ rest)) =
      .ok (rets ++ (([some tail.val] ++ (rets₂ ++ [some obj'])) ++ rets'), b₄) :=
    run_append.mpr ⟨_, _, _, e, run_append.mpr ⟨_, _, _, run_append.mpr ⟨_, _, _,
      run_singleton.mpr ⟨_, e1, rfl⟩, run_append.mpr ⟨_, _, _, e2, run_singleton.mpr ⟨_, e3, rfl⟩, rfl⟩, rfl⟩,
      e', rfl⟩, rfl⟩
  have hnr : NoReset (mid ++ (([.startTable] ++ (body ++ [.endTable tail])) ++ rest)) := by
    intro op hop
    simp only [List.mem_append, List.mem_singleton] at hop
    rcases hop with hop | ((rfl | (hop | rfl)) | hop)
    · exact hr op hop
    · rfl
    · have := h'.fields op hop
      cases op <;> first | rfl | cases this
    · rfl
    · exact hr' op hop
  obtain ⟨k1, k2, k3⟩ := C18_table_round_trip m b b₁ b₄ body _ obj _ hi h hall hnr hs
  obtain ⟨k1', k2', k3'⟩ := C18_table_round_trip m b₂ b₃ b₄ body rest obj' rets' hi' h' e' hr' hs
  have hle : b.usedSpace ≤ b₂.usedSpace := by
    obtain ⟨_, ra⟩ := hi'.reachable.toR
    obtain ⟨_, _, ra0, ra4, hl4, _, hle14, _⟩ := h.later hi hall hnr hs
    obtain ⟨_, _, _, _, _, _, hle34, _⟩ := h'.later hi' e' hr' hs
    have h2 : b₂.usedSpace < 2 ^ 31 := by
      obtain ⟨_, _, q1, q2, _, _, qx, _⟩ := h'.toA hi' (by omega)
      have := qx.len
      rw [q1.used]
      rw [q2.used] at hle34
      omega
    obtain ⟨_, _, q1, _, _, _, qle, _⟩ := h.later hi e hr h2
    obtain ⟨_, _, q3, q4, _, _, qx, _⟩ := h.toA hi (by omega)
    have := qx.len
    rw [q3.used]
    rw [q4.used] at qle
    omega
  by_cases hm : ∃ f ∈ body.filterMap Op.stored, f.slot = s
  · obtain ⟨⟨s', p, x⟩, hf, hfs⟩ := hm
    simp only at hfs
    subst hfs
    refine ⟨fun t ht dflt => ?_, fun ht F dflt => ?_⟩
    · have hp := ht _ hf rfl
      simp only at hp
      subst hp
      rw [(k1 _ _ x hf).1 dflt, (k1' _ _ x hf).1 dflt]
    · have hp := ht _ hf rfl
      simp only at hp
      subst hp
      have := hoff _ x hf
      rw [k2 _ x hf this F dflt, k2' _ x hf (by omega) F dflt]
  · have hn : ∀ f ∈ body.filterMap Op.stored, f.slot ≠ s := fun f hf he => hm ⟨f, hf, he⟩
    refine ⟨fun t _ dflt => ?_, fun _ F dflt => ?_⟩
    · rw [k3 s hev h4 hn (.scalar t) dflt, k3' s hev h4 hn (.scalar t) dflt]
    · rw [k3 s hev h4 hn (.fwdU F) dflt, k3' s hev h4 hn (.fwdU F) dflt]

/-! ### C25 -/

/-- **C25** `required(table, slot, ..)` on a table built earlier returns normally if and only if the table stores
the slot; otherwise it panics. It changes nothing. -/
theorem C25_required_exact (m : Mode) (b b₁ b₂ : Builder) (body rest : List Op) (obj : Fin (2 ^ 32))
    (rets : List (Option Nat)) (slot : Fin 65536) (hi : Idle m b) (h : BuildsTable m b body obj.val b₁)
    (e : run m b₁ rest = .ok (rets, b₂)) (hr : NoReset rest) (hs : b₂.usedSpace < 2 ^ 31) (hso : SlotOk slot) :
    ((∃ f ∈ body.filterMap Op.stored, f.slot = slot.val) → step m b₂ (.required obj slot) = .ok (none, b₂)) ∧
    ((¬ ∃ f ∈ body.filterMap Op.stored, f.slot = slot.val) → step m b₂ (.required obj slot) = .panic) := by
  obtain ⟨a, a₂, ra, ra2, hl, hle, _, ht⟩ := h.later hi e hr hs
  obtain ⟨v, v1, v2, v3⟩ := ht.vtget hl
  have hi' : isizeMax = 2 ^ 63 - 1 := rfl
  have key : b₂.required m obj.val slot.val = (do
      let o ← (v.get m slot.val).expect
      match o with
      | none => .panic
      | some o => assert (o != 0)) := by
    rw [required_eq ra2]
    unfold ABuilder.required
    rw [subU_ok (by omega)]
    simp only [Res.ok_bind]
    rw [v1]; rfl
  constructor
  · rintro ⟨f, hf, hfs⟩
    obtain ⟨o, o1, o2⟩ := v2 f hf
    rw [hfs] at o1
    simp only [step]
    rw [key, o1]
    simp [Res.expect, assert, o2]
  · intro hn
    have hn' : slot.val ∉ (body.filterMap Op.stored).map Fld.slot := by
      intro hm
      obtain ⟨f, hf, hfs⟩ := List.mem_map.mp hm
      exact hn ⟨f, hf, hfs⟩
    simp only [step]
    rw [key]
    rcases v3 slot hso.1 hso.2.1 hn' with h1 | h1 <;> rw [h1] <;> rfl

/-! ### Concrete cases meeting the hypotheses -/

/-- A string, then a table with a `u16` and the string; the fields used below. -/
def exBody : List Op := [.pushSlotAlways 4 (.sc .u16) (u16c 513), .pushSlotAlways 6 .off (Builder.offVal 8)]

/-- C18, C22, C25: such a table is built, and finished, in both profiles. -/
example (m : Mode) : ∃ b obj b₁ b₂, Idle m b ∧ BuildsTable m b exBody obj b₁ ∧
    ∃ (h : obj < 2 ^ 32), Finishes m b₁ [] ⟨obj, h⟩ (some [65, 66, 67, 68]) true b₂ ∧ b₂.usedSpace < 2 ^ 31 ∧
      8 ≤ b.usedSpace := by
  obtain ⟨b, obj, b', rets, b'', h1, h2, h3, h4⟩ := @sampleT_ex m 128 [.createString "hi"] exBody
    [.finish 20 (some [65, 66, 67, 68]) true]
    (fun b obj b' b'' => decide (obj = 20) && decide (b''.usedSpace < 2 ^ 31) && decide (8 ≤ b.usedSpace))
    ⟨[], [.createString "hi"], rfl, Or.inl rfl, by simp [Op.slot?]⟩ (by decide) (by decide) (by decide)
    (by cases m <;> decide)
  simp only [Bool.and_eq_true, decide_eq_true_eq] at h4
  obtain ⟨⟨rfl, h5⟩, h6⟩ := h4
  refine ⟨b, 20, b', b'', h1, h2, by decide, ⟨⟨b', [], rfl, ?_⟩, nofun, ?_⟩, h5, h6⟩
  · obtain ⟨r, e, _⟩ := run_singleton.mp h3
    have : r = none := by
      simp only [step, noRet] at e
      obtain ⟨_, _, e⟩ := Res.bind_eq_ok.mp e
      cases e; rfl
    subst this; exact e
  · rintro _ ⟨⟩; rfl

/-- C19, C20: one field equal to its default, one not. -/
example (m : Mode) : ∃ b obj b₁, Idle m b ∧
    BuildsTable m b ([.pushSlot 4 (.sc .u16) (u16c 7) (u16c 7)] ++ .pushSlot 6 (.sc .u16) (u16c 8) (u16c 7) :: []) obj b₁ ∧
    b₁.usedSpace < 2 ^ 31 := by
  obtain ⟨b, obj, b', rets, b'', h1, h2, h3, h4⟩ := @sampleT_ex m 128 []
    ([.pushSlot 4 (.sc .u16) (u16c 7) (u16c 7)] ++ .pushSlot 6 (.sc .u16) (u16c 8) (u16c 7) :: []) []
    (fun b obj b' b'' => decide (b'.usedSpace < 2 ^ 31))
    ⟨[], [], rfl, Or.inl rfl, by simp⟩ (by decide) (by decide) (by decide)
    (by cases m <;> decide)
  exact ⟨b, obj, b', h1, h2, by simpa using h4⟩

/-- C21, C22: the first table writes its vtable, the second one (other values, other calls) shares it. -/
example (m : Mode) : (∃ b obj b₁, Idle m b ∧ BuildsTable m b exBody obj b₁ ∧ b₁.usedSpace < 2 ^ 31 ∧
      b₁.numWrittenVTables = 1 ∧ b.numWrittenVTables = 0) ∧
    (∃ b obj b₁, Idle m b ∧ BuildsTable m b exBody obj b₁ ∧ b₁.usedSpace < 2 ^ 31 ∧
      b₁.numWrittenVTables = 1 ∧ b.numWrittenVTables = 1) := by
  constructor
  · obtain ⟨b, obj, b', rets, b'', h1, h2, h3, h4⟩ := @sampleT_ex m 128 [.createString "hi"] exBody []
      (fun b obj b' b'' => decide (b'.usedSpace < 2 ^ 31) && decide (b'.numWrittenVTables = 1) &&
        decide (b.numWrittenVTables = 0))
      ⟨[], [.createString "hi"], rfl, Or.inl rfl, by simp [Op.slot?]⟩ (by decide) (by decide) (by decide)
      (by cases m <;> decide)
    simp only [Bool.and_eq_true, decide_eq_true_eq] at h4
    exact ⟨b, obj, b', h1, h2, h4.1.1, h4.1.2, h4.2⟩
  · obtain ⟨b, obj, b', rets, b'', h1, h2, h3, h4⟩ := @sampleT_ex m 128
      ([.createString "hi", .startTable, .pushSlotAlways 4 (.sc .u16) (u16c 99),
        .pushSlotAlways 6 .off (Builder.offVal 8)] ++ [.endTable 8]) exBody []
      (fun b obj b' b'' => decide (b'.usedSpace < 2 ^ 31) && decide (b'.numWrittenVTables = 1) &&
        decide (b.numWrittenVTables = 1))
      ⟨_, [], (List.append_nil _).symm, Or.inr ⟨_, _, rfl⟩, by simp⟩ (by decide) (by decide) (by decide)
      (by cases m <;> decide)
    simp only [Bool.and_eq_true, decide_eq_true_eq] at h4
    exact ⟨b, obj, b', h1, h2, h4.1.1, h4.1.2, h4.2⟩

/-- C21: a regular history with a recorded vtable. -/
example (m : Mode) : ∃ b, Regular m b ∧ b.numWrittenVTables = 1 := by
  have h : (fromNew m 128 sampleTable).okAnd (fun r => decide (r.2.numWrittenVTables = 1)) = true := by
    cases m <;> decide
  obtain ⟨b0, r, b, h0, h1, hp⟩ := fromNew_ex h
  refine ⟨b, ⟨128, b0, sampleTable, r, h0, h1, ?_, ?_⟩, by simpa using hp⟩
  · intro op hop s hs
    simp only [sampleTable, List.mem_cons, List.not_mem_nil, or_false] at hop
    rcases hop with rfl | rfl | rfl | rfl | rfl <;> cases hs <;> decide
  · intro k rets b' hk
    have hall : ∀ k, k ≤ 5 → (fromNew m 128 (sampleTable.take k)).okAnd (fun r => decide (r.2.usedSpace ≤ 2 ^ 31 - 1)) = true := by
      intro k hk
      have : k = 0 ∨ k = 1 ∨ k = 2 ∨ k = 3 ∨ k = 4 ∨ k = 5 := by omega
      rcases this with rfl | rfl | rfl | rfl | rfl | rfl <;> cases m <;> decide
    have hk5 : sampleTable.take k = sampleTable.take (min k 5) := by
      rw [show (5 : Nat) = sampleTable.length from rfl, ← List.take_take, List.take_length]
    rw [hk5] at hk
    obtain ⟨b0', r', b'', q0, q1, q2⟩ := fromNew_ex (hall (min k 5) (by omega))
    rw [h0] at q0
    cases q0
    rw [hk] at q1
    cases q1
    simpa using q2

end Butte
