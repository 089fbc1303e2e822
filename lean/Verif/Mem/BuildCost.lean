import Verif.Mem.Cost
import Verif.Rt.Growth
import Verif.Rt.History
/-
How much memory building goes over: lemmas for C102.
-/
namespace Butte.Mem

/-- The cells that the recorded accesses go over. -/
def cells (x : Tr α) : Nat := (x.log.map Access.count).sum

/-- If it succeeds, `Q` holds of the result and the cells gone over. -/
def Pays (x : Tr α) (Q : α → Nat → Prop) : Prop := ∀ r, x.res = .ok r → Q r (cells x)

theorem cells_bind {x : Tr α} {f : α → Tr β} {r : α} (h : x.res = .ok r) : cells (x >>= f) = cells x + cells (f r) := by
  unfold cells
  rw [bind_log, h]
  simp

theorem cheap_cells {k : Nat} {x : Tr α} (h : Cheap k x) : cells x ≤ k := by
  have key : ∀ l : List Access, (∀ a ∈ l, a.write = false ∧ a.count = 1) → (l.map Access.count).sum = l.length := by
    intro l
    induction l with
    | nil => intro _; rfl
    | cons a l ih =>
      intro h
      have := ih fun b hb => h b (by simp [hb])
      rw [List.map_cons, List.sum_cons, this, (h a (by simp)).2, List.length_cons]
      omega
  have := key _ h.2
  have := h.1
  unfold cells
  omega

namespace Pays

theorem bind {x : Tr α} {f : α → Tr β} {Q : α → Nat → Prop} {Q' : β → Nat → Prop} (h : Pays x Q)
    (hf : ∀ r n, x.res = .ok r → Q r n → Pays (f r) fun s n' => Q' s (n + n')) : Pays (x >>= f) Q' := by
  intro s hs
  rw [bind_res] at hs
  obtain ⟨r, h1, h2⟩ := Res.bind_eq_ok.mp hs
  rw [cells_bind h1]
  exact hf r _ h1 (h r h1) s h2

theorem mono {x : Tr α} {Q Q' : α → Nat → Prop} (h : Pays x Q) (hq : ∀ r n, x.res = .ok r → Q r n → Q' r n) : Pays x Q' :=
  fun r hr => hq r _ hr (h r hr)

theorem pure {a : α} {Q : α → Nat → Prop} (h : Q a 0) : Pays (Pure.pure a : Tr α) Q := by
  rintro r ⟨⟩; exact h

theorem lift {x : Res α} {Q : α → Nat → Prop} (h : ∀ r, x = .ok r → Q r 0) : Pays (Tr.lift x) Q := h

/-- A step that touches nothing. -/
theorem skip {x : Res α} {f : α → Tr β} {Q : β → Nat → Prop} (hf : ∀ r, x = .ok r → Pays (f r) Q) :
    Pays ((liftM x : Tr α) >>= f) Q :=
  bind (Q := fun _ n => n = 0) (fun _ _ => rfl) fun r n e h => (hf r e).mono fun s n' _ hq => by
    subst h; simpa using hq

theorem panic {Q : α → Nat → Prop} : Pays (Tr.lift (.panic : Res α)) Q := nofun

theorem touch {a : Access} {f : Unit → Tr β} {Q : β → Nat → Prop} (hf : Pays (f ()) fun s n => Q s (a.count + n)) :
    Pays (Tr.touch a >>= f) Q :=
  bind (Q := fun _ n => n = a.count) (fun _ _ => by simp [cells, Tr.touch]) fun r n _ h => by subst h; exact hf

theorem ite {c : Prop} [Decidable c] {x y : Tr α} {Q : α → Nat → Prop} (hx : c → Pays x Q) (hy : ¬ c → Pays y Q) :
    Pays (if c then x else y) Q := by
  split
  · next h => exact hx h
  · next h => exact hy h

theorem within {mem : Bytes} {s : Nat} {x : Tr α} {Q : α → Nat → Prop} (h : Pays x Q) : Pays (Tr.within mem s x) Q := by
  intro r hr
  have : cells (Tr.within mem s x) = cells x := by
    unfold cells Tr.within
    simp [List.map_map, Function.comp_def]
  rw [this]
  exact h r hr

theorem cheap {k : Nat} {x : Tr α} (h : Cheap k x) : Pays x fun _ n => n ≤ k := fun _ _ => cheap_cells h

end Pays

/-! ### The functions of the builder -/

variable {m : Mode}

/-- At most `k` cells apart from those that growing the buffer has to go over, which are as many as the buffer grows by. -/
def Spends (k : Nat) (b b' : Builder) (n : Nat) : Prop :=
  n + b.buf.length ≤ b'.buf.length + k ∧ b'.vtables = b.vtables ∧ b'.fieldLocs = b.fieldLocs

theorem Spends.refl {k : Nat} {b b' : Builder} (h1 : b'.buf.length = b.buf.length) (h2 : b'.vtables = b.vtables)
    (h3 : b'.fieldLocs = b.fieldLocs) : Spends k b b' 0 := ⟨by omega, h2, h3⟩

theorem Spends.trans {j k l n n' : Nat} {a b c : Builder} (h : Spends j a b n) (g : Spends k b c n') (hl : j + k ≤ l) :
    Spends l a c (n + n') :=
  ⟨by have := h.1; have := g.1; omega, g.2.1.trans h.2.1, g.2.2.trans h.2.2⟩

namespace Builder
open Butte.Builder (usedSpace)

theorem grow_pays (b : Builder) : Pays (grow m b) (Spends 0 b) := by
  unfold grow
  dsimp only
  refine .ite (fun _ => .panic) fun _ => .ite (fun _ => .panic) fun _ => .ite (fun h1 => .pure ?_) fun h1 =>
    .ite (fun _ => .panic) fun _ => .touch (.pure ?_)
  · refine ⟨?_, rfl, rfl⟩
    simp only [List.length_append, List.length_replicate]
    omega
  · refine ⟨?_, rfl, rfl⟩
    simp only [List.length_append, List.length_replicate, List.length_take]
    omega

theorem growLoop_pays (want n : Nat) : ∀ b : Builder, want - b.head ≤ n → Pays (growLoop m b want) (Spends 0 b) := by
  induction n with
  | zero =>
    intro b hn
    unfold growLoop
    rw [if_neg (by omega)]
    exact .pure (.refl rfl rfl rfl)
  | succ n ih =>
    intro b hn
    unfold growLoop
    by_cases hlt : b.head < want
    · rw [if_pos hlt]
      have hg := grow_pays (m := m) b
      split
      · rename_i b1 e
        have h1 := hg _ e
        rw [grow_res] at e
        have := Butte.Builder.grow_head e
        have h2 := ih b1 (by omega)
        intro r hr
        have := h1.trans (h2 r hr) (Nat.le_refl _)
        unfold cells at this ⊢
        simpa using this
      · nofun
      · nofun
    · rw [if_neg hlt]
      exact .pure (.refl rfl rfl rfl)

theorem makeSpace_pays (b : Builder) (want : Nat) : Pays (makeSpace m b want) (Spends 0 b) := by
  have : Pays (ensureCapacity m b want) (Spends 0 b) := by
    unfold ensureCapacity
    refine .ite (fun _ => .pure (.refl rfl rfl rfl)) fun _ => .skip fun _ _ => growLoop_pays want _ b (Nat.le_refl _)
  refine .bind this fun b1 n _ h1 => .skip fun h _ => .pure ?_
  exact h1

theorem align_pays (b : Builder) (l al : Nat) : Pays (align m b l al) (Spends 0 b) :=
  .skip fun _ _ => makeSpace_pays _ _

theorem pushBytes_pays (b : Builder) (x : Bytes) : Pays (pushBytesUnprefixed m b x) (Spends 0 b) := by
  refine .bind (makeSpace_pays b _) fun b1 n _ h1 => .ite (fun h => .pure ?_) fun _ => .panic
  exact h1.trans (Spends.refl (k := 0) (splice_length _ _ _ h) rfl rfl) (Nat.le_refl 0)

theorem push_pays (b : Builder) {p : PTy} (x : PVal p) : Pays (push m b x) fun r n => Spends 1 b r.2 n := by
  refine .bind (align_pays b _ _) fun b1 n1 _ h1 => .bind (makeSpace_pays b1 _) fun b2 n2 _ h2 => .ite (fun h => ?_) fun _ => .panic
  refine .skip fun bs hbs => .touch (.pure ?_)
  have := Butte.PVal.pushBytes_length hbs
  have hp : 1 ≤ p.size := by cases p with | sc t => cases t <;> decide | off => decide
  obtain ⟨e1, e2, e3⟩ := h1.trans h2 (Nat.le_refl 0)
  refine ⟨?_, e2, e3⟩
  simp only [splice_length _ _ _ (show b2.head + bs.length ≤ b2.buf.length by omega)]
  omega

theorem pushSlotAlways_pays (b : Builder) (s : Nat) {p : PTy} (x : PVal p) : Pays (pushSlotAlways m b s x) fun b' n =>
    n + b.buf.length ≤ b'.buf.length + 1 ∧ b'.vtables = b.vtables ∧ b'.fieldLocs.length = b.fieldLocs.length + 1 := by
  refine .skip fun _ _ => .bind (push_pays b x) ?_
  rintro ⟨o, b1⟩ n _ ⟨h1, h2, h3⟩
  refine .pure ⟨h1, h2, ?_⟩
  show (b1.fieldLocs ++ [_]).length = _
  rw [List.length_append, h3]; rfl

theorem writeFields_pays (obj : Nat) : ∀ (fls : List FieldLoc) (buf : Bytes),
    Pays (VTableWriter.writeFields m obj fls buf) fun _ n => n ≤ 2 * fls.length
  | [], buf => .pure (Nat.le_refl 0)
  | f :: fs, buf => by
    have hw : ∀ d, Pays (VTableWriter.writeFieldOffset buf f.id d >>= VTableWriter.writeFields m obj fs)
        fun _ n => n ≤ 1 + 2 * fs.length := by
      intro d
      refine .bind (Q := fun _ n => n ≤ 1) ?_ fun buf' n _ hn => (writeFields_pays obj fs buf').mono fun _ n' _ h' => by omega
      exact .ite (fun _ => .touch (.pure (Nat.le_refl 1))) fun _ => .panic
    refine .skip fun d _ => .ite (fun _ => ?_) fun _ => ?_
    · refine .bind (Q := fun _ n => n ≤ 1) (fun _ _ => cheap_cells (readNatAt_cheap ..).onRes) fun x n1 _ h1 => ?_
      refine .skip fun _ _ => (hw _).mono fun _ n2 _ h2 => ?_
      rw [List.length_cons]; omega
    · refine (hw _).mono fun _ n2 _ h2 => ?_
      rw [List.length_cons]; omega

theorem eqv_cells (v w : VTable) : cells (VTable.eqv m v w) ≤ 2 := by
  have h : ∀ v : VTable, cells (VTable.asBytes m v) ≤ 1 := fun v =>
    cheap_cells (Cheap.then (readNatAt_cheap ..) fun _ => .skip fun _ => .liftM _)
  have h1 := h v
  have h2 := h w
  unfold cells at h1 h2 ⊢
  unfold VTable.eqv
  dsimp only
  split
  · dsimp only; omega
  · simp only [List.map_append, List.sum_append]; omega

theorem findDuplicate_pays (b : Builder) (needle : VTable) : ∀ l : List Nat,
    Pays (findDuplicate m b needle l) fun _ n => n ≤ 2 * l.length
  | [] => .pure (Nat.le_refl 0)
  | r :: rest => by
    refine .skip fun l _ => .bind (Q := fun _ n => n ≤ 2) (fun _ _ => eqv_cells _ _) fun same n _ hn => ?_
    refine .ite (fun _ => .pure ?_) fun _ => (findDuplicate_pays b needle rest).mono fun _ n' _ h' => ?_ <;>
      rw [List.length_cons] <;> omega

theorem patchVTable_pays (b : Builder) (vtUse obj : Nat) : Pays (patchVTable m b vtUse obj) fun r n =>
    n ≤ 2 ∧ r.2.buf.length = b.buf.length ∧ r.2.vtables = b.vtables ∧ r.2.fieldLocs = [] := by
  refine .skip fun n _ => .bind (Q := fun _ n => n ≤ 1) (fun _ _ => cheap_cells (readNatAt_cheap ..).onRes) fun saw n1 _ h1 => ?_
  refine .skip fun _ _ => .skip fun d _ => .ite (fun h => .touch (.pure ⟨?_, ?_, rfl, rfl⟩)) fun _ => .panic
  · show n1 + (1 + 0) ≤ 2; omega
  · exact splice_length _ _ _ (by simpa using h)

theorem writeVTable_pays (b : Builder) (tail : Nat) : Pays (writeVTable m b tail) fun r n =>
    n + b.buf.length ≤ r.2.buf.length + (5 + 2 * b.fieldLocs.length + 2 * b.vtables.length + vtableByteLen b.fieldLocs) ∧
      r.2.vtables.length ≤ b.vtables.length + 1 ∧ r.2.fieldLocs = [] := by
  refine .skip fun _ _ => .bind (push_pays b _) ?_
  rintro ⟨obj, b1⟩ n1 - ⟨h1, hv1, hf1⟩
  dsimp only at h1 hv1 hf1 ⊢
  rw [hf1]
  generalize hn : vtableByteLen b.fieldLocs = len
  refine .bind (makeSpace_pays b1 len) fun b2 n2 _ ⟨h2, hv2, hf2⟩ => ?_
  refine .skip fun objSize _ => .skip fun _ _ => .skip fun sl e1 => ?_
  have hsl : sl.length = len ∧ b2.head + len ≤ b2.buf.length := by
    unfold sliceIdx sliceGet at e1
    split at e1
    · next h => cases e1; simp; omega
    · cases e1
  refine .bind (Q := fun s n => n ≤ 1 ∧ s.length = len) ?_ fun sl2 n3 _ h3 => ?_
  · refine (Pays.within (Q := fun _ n => n ≤ 1) ?_).mono fun s n e h => ⟨h, ?_⟩
    · exact .ite (fun _ => .touch (.skip fun _ _ => .pure (Nat.le_refl 1))) fun _ => .panic
    · rw [within_res, VTableWriter.writeVTableByteLength_res] at e
      rw [writeVTableByteLength_length e]; exact hsl.1
  refine .bind (Q := fun s n => n ≤ 1 ∧ s.length = len) ?_ fun sl3 n4 _ h4 => ?_
  · refine (Pays.within (Q := fun _ n => n ≤ 1) ?_).mono fun s n e h => ⟨h, ?_⟩
    · exact .ite (fun _ => .touch (.pure (Nat.le_refl 1))) fun _ => .panic
    · rw [within_res, VTableWriter.writeObjectInlineSize_res] at e
      rw [writeObjectInlineSize_length e]; exact h3.2
  refine .bind (Q := fun s n => n ≤ 2 * b.fieldLocs.length ∧ s.length = len) ?_ fun sl4 n5 _ h5 => ?_
  · refine (Pays.within (writeFields_pays obj b2.fieldLocs sl3)).mono fun s n e h => ⟨by rwa [hf2, hf1] at h, ?_⟩
    rw [within_res, VTableWriter.writeFields_res] at e
    rw [writeFields_length e]; exact h4.2
  have hs : (splice b2.buf b2.head sl4).length = b2.buf.length := splice_length _ _ _ (by omega)
  refine .bind (findDuplicate_pays _ _ _) fun dup n6 _ h6 => ?_
  rw [List.length_reverse] at h6
  change n6 ≤ 2 * b2.vtables.length at h6
  rw [hv2, hv1] at h6
  cases dup with
  | some v =>
    refine .touch ((patchVTable_pays _ _ _).mono fun r n _ ⟨k1, k2, k3, k4⟩ => ⟨?_, ?_, k4⟩)
    · have k2' : r.2.buf.length = b2.buf.length := by
        rw [k2]; show (splice (splice b2.buf b2.head sl4) b2.head (List.replicate len 0)).length = _
        rw [splice_length _ _ _ (by simp; omega), hs]
      rw [k2']
      dsimp only
      omega
    · rw [k3]; show b2.vtables.length ≤ _; rw [hv2, hv1]; omega
  | none =>
    refine (patchVTable_pays _ _ _).mono fun r n _ ⟨k1, k2, k3, k4⟩ => ⟨?_, ?_, k4⟩
    · have k2' : r.2.buf.length = b2.buf.length := k2.trans hs
      rw [k2']
      omega
    · rw [k3]; show (b2.vtables ++ [_]).length ≤ _; rw [List.length_append, hv2, hv1]; exact Nat.le_refl _

theorem createByteString_pays (b : Builder) (bs : Bytes) : Pays (createByteString m b bs) fun r n => Spends 2 b r.2 n := by
  refine .skip fun _ _ => .skip fun _ _ => .bind (align_pays b _ _) fun b1 n1 _ h1 => .bind (push_pays b1 _) ?_
  rintro ⟨_, b2⟩ n2 - h2
  refine .bind (pushBytes_pays b2 _) fun b3 n3 _ h3 => .bind (push_pays b3 _) ?_
  rintro ⟨_, b4⟩ n4 - h4
  have := ((h1.trans h2 (Nat.le_refl _)).trans h3 (Nat.le_refl _)).trans h4 (Nat.le_refl _)
  refine .pure ?_
  simpa [Nat.add_assoc] using this

theorem createString_pays (b : Builder) (s : String) : Pays (createString m b s) fun r n => Spends 2 b r.2 n :=
  .skip fun _ _ => createByteString_pays b _

theorem createVectorDirect_pays (b : Builder) {t : STy} (xs : List (SVal t)) : Pays (createVectorDirect m b xs) fun r n =>
    Spends (xs.length * t.size + 1) b r.2 n := by
  refine .skip fun _ _ => .skip fun _ _ => .bind (align_pays b _ _) fun b1 n1 _ h1 => .touch ?_
  refine .bind (pushBytes_pays b1 _) fun b2 n2 _ h2 => .bind (push_pays b2 _) ?_
  rintro ⟨_, b3⟩ n3 - h3
  obtain ⟨e1, e2, e3⟩ := (h1.trans h2 (Nat.le_refl _)).trans h3 (Nat.le_refl _)
  refine .pure ⟨?_, e2, e3⟩
  show n1 + (xs.length * t.size + (n2 + (n3 + 0))) + _ ≤ _
  dsimp only at e1 ⊢
  omega

theorem pushAll_pays {p : PTy} : ∀ (xs : List (PVal p)) (b : Builder), Pays (pushAll m b xs) (Spends xs.length b)
  | [], b => .pure (.refl rfl rfl rfl)
  | x :: xs, b => by
    refine .bind (push_pays b x) ?_
    rintro ⟨_, b1⟩ n1 - h1
    exact (pushAll_pays xs b1).mono fun b2 n2 _ h2 => h1.trans h2 (by rw [List.length_cons]; omega)

theorem createVector_pays (b : Builder) {p : PTy} (xs : List (PVal p)) : Pays (createVector m b xs) fun r n =>
    Spends (xs.length + 1) b r.2 n := by
  refine .skip fun _ _ => .bind (align_pays b _ _) fun b1 n1 _ h1 => .bind (pushAll_pays _ b1) fun b2 n2 _ h2 => ?_
  refine (push_pays b2 _).mono fun r n3 _ h3 => ?_
  have := (h1.trans h2 (Nat.le_refl _)).trans h3 (Nat.le_refl _)
  rw [List.length_reverse] at this
  simpa [Nat.add_assoc] using this

theorem createStrings_pays : ∀ (xs : List String) (acc : List (PVal .off)) (b : Builder),
    Pays (createStrings m b xs acc) fun r n => Spends (2 * xs.length) b r.2 n ∧ r.1.length = acc.length + xs.length
  | [], acc, b => .pure ⟨.refl rfl rfl rfl, rfl⟩
  | s :: xs, acc, b => by
    refine .bind (createString_pays b s) ?_
    rintro ⟨o, b1⟩ n1 - h1
    refine (createStrings_pays xs _ b1).mono fun r n2 _ ⟨h2, h3⟩ => ⟨h1.trans h2 (by rw [List.length_cons]; omega), ?_⟩
    rw [h3]; simp only [List.length_cons]; omega

theorem createVectorOfStrings_pays (b : Builder) (xs : List String) : Pays (createVectorOfStrings m b xs) fun r n =>
    Spends (3 * xs.length + 1) b r.2 n := by
  refine .skip fun _ _ => .bind (createStrings_pays _ _ b) ?_
  rintro ⟨offs, b1⟩ n1 - ⟨h1, h2⟩
  refine (createVector_pays b1 offs).mono fun r n2 _ h3 => h1.trans h3 ?_
  simp only [List.length_nil, List.length_reverse] at h2 ⊢
  omega

theorem required_pays (b : Builder) (t s : Nat) : Pays (required m b t s) fun _ n => n ≤ 3 := by
  refine .skip fun _ _ => .bind (Q := fun _ n => n ≤ 1) (fun _ _ => cheap_cells (Cheap.within (follow_cheap m (.backS .vtable) rfl _ _)).onRes)
    fun vt n1 _ h1 => .bind (Q := fun _ n => n ≤ 2) (fun _ _ => cheap_cells (Cheap.within (vtableGet_cheap ..)).onRes) fun o n2 _ h2 => ?_
  cases o with
  | none => exact .panic
  | some o => 
    intro r _
    show n1 + (n2 + 0) ≤ 3
    omega

theorem finish_pays (b : Builder) (root : Nat) (i : Option Bytes) (sp : Bool) : Pays (finishWithOpts m b root i sp) fun b' n =>
    n + b.buf.length ≤ b'.buf.length + 2 ∧ b'.vtables = [] ∧ b'.fieldLocs = b.fieldLocs := by
  refine .skip fun _ _ => .skip fun _ _ => .bind (align_pays _ _ _) fun b1 n1 _ h1 => ?_
  have h2 : Pays (pushIdent m b1 i) (Spends 0 b1) := by
    cases i with
    | none => exact .pure (.refl rfl rfl rfl)
    | some i => exact .skip fun _ _ => pushBytes_pays b1 i
  refine .bind h2 fun b2 n2 _ h2 => .bind (push_pays b2 _) ?_
  rintro ⟨_, b3⟩ n3 - h3
  have h4 : Pays (pushSizePrefix m b3 sp) (Spends 1 b3) := by
    unfold pushSizePrefix
    refine .ite (fun _ => .bind (push_pays b3 _) ?_) fun _ => .pure (.refl rfl rfl rfl)
    rintro ⟨_, b4⟩ n4 - h4
    exact .pure h4
  refine .bind h4 fun b4 n4 _ h4 => .pure ?_
  obtain ⟨e1, e2, e3⟩ := ((h1.trans h2 (Nat.le_refl _)).trans h3 (Nat.le_refl _)).trans h4 (Nat.le_refl _)
  refine ⟨?_, e2, e3⟩
  dsimp only at e1 ⊢
  omega

theorem eqv_least {v w : VTable} (h : v.loc + 2 ≤ v.buf.length) (h' : v.buf.length < 2 ^ 64) : 1 ≤ cells (VTable.eqv m v w) := by
  have h1 : 1 ≤ cells (VTable.asBytes m v) := by
    have e : (liftM (sliceGet v.buf v.loc (v.loc + 2)) : Tr Bytes).res = .ok ((v.buf.drop v.loc).take 2) := by
      show sliceGet v.buf v.loc (v.loc + 2) = _
      unfold sliceGet
      rw [if_pos ⟨by omega, h⟩]
      congr 2
      omega
    unfold VTable.asBytes VTable.numBytes readNatAt readScalarAt readScalarAtAs
    have hb : ∀ {α β : Type} (x : Tr α) (f : α → Tr β), cells x ≤ cells (x >>= f) := by
      intro α β x f
      unfold cells
      rw [bind_log]
      simp
    refine Nat.le_trans (Nat.le_trans ?_ (hb _ _)) (hb _ _)
    have e0 : (liftM (addU m v.loc STy.u16.size) : Tr Nat).res = .ok (v.loc + 2) := addU_ok (by show v.loc + 2 < _; omega)
    rw [cells_bind e0, cells_bind e]
    have : 1 ≤ cells (Tr.within v.buf v.loc (readScalarAs .u16 .u16 ((v.buf.drop v.loc).take 2))) := by
      unfold readScalarAs
      rw [if_pos (by simp [STy.size]; omega)]
      exact Nat.le_refl 1
    omega
  unfold cells at h1 ⊢
  unfold VTable.eqv
  dsimp only
  split
  · exact h1
  · simp only [List.map_append, List.sum_append]; omega

/-- All the recorded vtables are looked at if none of them is the same. -/
theorem findDuplicate_least {b : Builder} {needle : VTable} (h : needle.loc + 2 ≤ needle.buf.length) : ∀ {l : List Nat},
    Pays (findDuplicate m b needle l) fun dup n => dup = none → needle.buf.length < 2 ^ 64 → l.length ≤ n
  | [] => .pure fun _ _ => Nat.le_refl 0
  | r :: rest => by
    refine .skip fun l _ => .bind (Q := fun _ n => needle.buf.length < 2 ^ 64 → 1 ≤ n) (fun _ _ => eqv_least h) fun same n _ hn => ?_
    refine .ite (fun _ => .pure nofun) fun _ => (findDuplicate_least h).mono fun _ n' _ h' e hl => ?_
    have := h' e hl
    have := hn hl
    rw [List.length_cons]; omega

theorem writeVTable_least (b : Builder) (tail : Nat) : Pays (writeVTable m b tail) fun r n =>
    r.2.vtables.length = b.vtables.length + 1 → r.2.buf.length < 2 ^ 64 → b.vtables.length ≤ n := by
  refine .skip fun _ _ => .bind (push_pays b _) ?_
  rintro ⟨obj, b1⟩ n1 - ⟨h1, hv1, hf1⟩
  dsimp only at h1 hv1 hf1 ⊢
  rw [hf1]
  have hl : 2 ≤ vtableByteLen b.fieldLocs := by
    unfold vtableByteLen
    split <;> omega
  generalize hn : vtableByteLen b.fieldLocs = len at hl ⊢
  refine .bind (makeSpace_pays b1 len) fun b2 n2 _ ⟨h2, hv2, hf2⟩ => ?_
  refine .skip fun objSize _ => .skip fun _ _ => .skip fun sl e1 => ?_
  have hsl : sl.length = len ∧ b2.head + len ≤ b2.buf.length := by
    unfold sliceIdx sliceGet at e1
    split at e1
    · next h => cases e1; simp; omega
    · cases e1
  refine .bind (Q := fun s _ => s.length = len) ?_ fun sl2 n3 _ h3 => ?_
  · intro s e
    rw [within_res, VTableWriter.writeVTableByteLength_res] at e
    rw [writeVTableByteLength_length e]; exact hsl.1
  refine .bind (Q := fun s _ => s.length = len) ?_ fun sl3 n4 _ h4 => ?_
  · intro s e
    rw [within_res, VTableWriter.writeObjectInlineSize_res] at e
    rw [writeObjectInlineSize_length e]; exact h3
  refine .bind (Q := fun s _ => s.length = len) ?_ fun sl4 n5 _ h5 => ?_
  · intro s e
    rw [within_res, VTableWriter.writeFields_res] at e
    rw [writeFields_length e]; exact h4
  have hs : (splice b2.buf b2.head sl4).length = b2.buf.length := splice_length _ _ _ (by omega)
  refine .bind (findDuplicate_least (by dsimp only; omega)) fun dup n6 _ h6 => ?_
  rw [List.length_reverse] at h6
  change dup = none → (splice b2.buf b2.head sl4).length < 2 ^ 64 → b2.vtables.length ≤ n6 at h6
  rw [hv2, hv1, hs] at h6
  cases dup with
  | some v =>
    refine .touch ((patchVTable_pays _ _ _).mono fun r n _ ⟨k1, k2, k3, k4⟩ e _ => ?_)
    rw [k3] at e
    change b2.vtables.length = _ at e
    rw [hv2, hv1] at e
    omega
  | none =>
    refine (patchVTable_pays _ _ _).mono fun r n _ ⟨_, k2, _⟩ _ hl => ?_
    rw [k2] at hl
    have := h6 rfl (hs ▸ hl)
    omega

end Builder

/-! ### Calls -/

/-- What a call may go over, apart from growing: with slots up to `k`, not more than `d` recorded vtables and `u` bytes of data.
Two of the three of a field are for its entry in the vtable. -/
def _root_.Butte.Op.accesses (k d u : Nat) : Op → Nat
  | .push .. => 1
  | .pushSlot .. | .pushSlotAlways .. => 3
  | .startTable | .startVector .. => 0
  | .endTable _ => 2 * d + k + 7
  | .endVector _ => 1
  | .createString _ | .createByteString _ => 2
  | .createVectorDirect t xs => xs.length * t.size + 1
  | .createVector _ xs => xs.length + 1
  | .createVectorOfStrings xs => 3 * xs.length + 1
  | .required .. => 3
  | .finish .. => 2
  | .reset => u

theorem step_pays {k d u : Nat} (hk : 2 ≤ k) {b : Builder} (op : Op) (hb : b.head ≤ b.buf.length) (hs : b.SlotsUpTo k)
    (hd : b.vtables.length ≤ d) (hu : b.usedSpace ≤ u) : Pays (step m b op) fun r n =>
      n + b.buf.length + 2 * r.2.fieldLocs.length ≤ r.2.buf.length + 2 * b.fieldLocs.length + op.accesses k d u := by
  have wr {x : Tr (Nat × Builder)} {j : Nat} (hx : Pays x fun r n => Spends j b r.2 n) : Pays (withRet x) fun r n =>
      n + b.buf.length + 2 * r.2.fieldLocs.length ≤ r.2.buf.length + 2 * b.fieldLocs.length + j := by
    refine .bind hx ?_
    rintro ⟨o, b1⟩ n - ⟨h1, h2, h3⟩
    refine .pure ?_
    dsimp only at h1 h3 ⊢
    rw [h3]; omega
  have nr {x : Tr Builder} {j : Nat} (hx : Pays x fun b' n => n + b.buf.length + 2 * b'.fieldLocs.length ≤ b'.buf.length + 2 * b.fieldLocs.length + j) :
      Pays (noRet x) fun r n => n + b.buf.length + 2 * r.2.fieldLocs.length ≤ r.2.buf.length + 2 * b.fieldLocs.length + j := by
    refine .bind hx fun b1 n _ h1 => .pure ?_
    exact h1
  have sl (s : Fin 65536) {p : PTy} (x : PVal p) : Pays (Builder.pushSlotAlways m b s x) fun b' n =>
      n + b.buf.length + 2 * b'.fieldLocs.length ≤ b'.buf.length + 2 * b.fieldLocs.length + 3 :=
    (Builder.pushSlotAlways_pays b s x).mono fun b' n _ ⟨h1, _, h3⟩ => by omega
  cases op with
  | push p x => exact wr (Builder.push_pays b x)
  | pushSlot s p x d' =>
    refine nr (.skip fun _ _ => .ite (fun _ => .pure ?_) fun _ => sl s x)
    omega
  | pushSlotAlways s p x => exact nr (sl s x)
  | startTable =>
    refine wr (.lift fun r e => ?_)
    obtain ⟨_, -, e⟩ := Res.bind_eq_ok.mp e
    cases e
    exact .refl rfl rfl rfl
  | endTable t =>
    refine .bind (Q := fun r n => n + b.buf.length + 2 * r.2.fieldLocs.length ≤ r.2.buf.length + 2 * b.fieldLocs.length +
      (2 * d + k + 7)) ?_ ?_
    · refine .skip fun _ _ => .bind (Builder.writeVTable_pays b t) ?_
      rintro ⟨o, b1⟩ n - ⟨h1, h2, h3⟩
      refine .pure ?_
      have := Builder.vtableByteLen_le hk hs
      dsimp only [List.length_nil] at h1 ⊢
      omega
    · rintro ⟨o, b1⟩ n - h1
      exact .pure h1
  | startVector p n =>
    refine nr (.skip fun _ _ => .skip fun _ _ => (Builder.align_pays _ _ _).mono fun b' n _ ⟨h1, _, h3⟩ => ?_)
    rw [h3]
    dsimp only at h1 ⊢
    omega
  | endVector n => exact wr (.skip fun _ _ => (Builder.push_pays _ _).mono fun r n _ h => h)
  | createString s => exact wr (Builder.createString_pays b s)
  | createByteString bs => exact wr (Builder.createByteString_pays b bs)
  | createVectorDirect t xs => exact wr (Builder.createVectorDirect_pays b xs)
  | createVector p xs => exact wr (Builder.createVector_pays b xs)
  | createVectorOfStrings xs => exact wr (Builder.createVectorOfStrings_pays b xs)
  | required t s =>
    refine .bind (Builder.required_pays b t s) fun _ n _ hn => .pure ?_
    show n + 0 + _ + _ ≤ _ + _ + 3
    dsimp only
    omega
  | finish r i sp =>
    refine nr ((Builder.finish_pays b r i sp).mono fun b' n _ ⟨h1, _, h3⟩ => ?_)
    rw [h3]
    show _ ≤ _ + _ + 2
    omega
  | reset =>
    refine nr (.touch (.pure ?_))
    have : b.reset.buf.length = b.buf.length := by
      show (b.buf.take b.head ++ List.replicate (b.buf.length - b.head) 0).length = _
      simp; omega
    rw [this]
    show _ ≤ _ + _ + u
    unfold Builder.usedSpace at hu
    show b.buf.length - b.head + 0 + b.buf.length + 2 * b.fieldLocs.length ≤ _
    omega

/-- The vtables that a call may add. -/
def _root_.Butte.Op.vtablesAdded : Op → Nat
  | .endTable _ => 1
  | _ => 0

theorem step_vtables {b : Builder} (op : Op) : Pays (step m b op) fun r _ => r.2.vtables.length ≤ b.vtables.length + op.vtablesAdded := by
  have wr {x : Tr (Nat × Builder)} {j : Nat} (hx : Pays x fun r n => Spends j b r.2 n) : Pays (withRet x) fun r _ =>
      r.2.vtables.length ≤ b.vtables.length := by
    refine .bind hx ?_
    rintro ⟨o, b1⟩ n - ⟨h1, h2, h3⟩
    exact .pure (Nat.le_of_eq (congrArg List.length h2))
  have nr {x : Tr Builder} (hx : Pays x fun b' _ => b'.vtables.length ≤ b.vtables.length) :
      Pays (noRet x) fun r _ => r.2.vtables.length ≤ b.vtables.length :=
    .bind hx fun b1 n _ h1 => .pure h1
  have sl (s : Fin 65536) {p : PTy} (x : PVal p) : Pays (Builder.pushSlotAlways m b s x) fun b' _ =>
      b'.vtables.length ≤ b.vtables.length :=
    (Builder.pushSlotAlways_pays b s x).mono fun b' n _ ⟨_, h2, _⟩ => Nat.le_of_eq (congrArg List.length h2)
  cases op with
  | push p x => exact wr (Builder.push_pays b x)
  | pushSlot s p x d' => exact nr (.skip fun _ _ => .ite (fun _ => .pure (Nat.le_refl _)) fun _ => sl s x)
  | pushSlotAlways s p x => exact nr (sl s x)
  | startTable =>
    refine wr (j := 0) (.lift fun r e => ?_)
    obtain ⟨_, -, e⟩ := Res.bind_eq_ok.mp e
    cases e
    exact .refl rfl rfl rfl
  | endTable t =>
    refine .bind (Q := fun r _ => r.2.vtables.length ≤ b.vtables.length + 1) ?_ ?_
    · refine .skip fun _ _ => .bind (Builder.writeVTable_pays b t) ?_
      rintro ⟨o, b1⟩ n - ⟨h1, h2, h3⟩
      exact .pure h2
    · rintro ⟨o, b1⟩ n - h1
      exact .pure h1
  | startVector p n =>
    exact nr (.skip fun _ _ => .skip fun _ _ => (Builder.align_pays _ _ _).mono fun b' n _ ⟨_, h2, _⟩ =>
      Nat.le_of_eq (congrArg List.length h2))
  | endVector n => exact wr (.skip fun _ _ => (Builder.push_pays _ _).mono fun r n _ h => h)
  | createString s => exact wr (Builder.createString_pays b s)
  | createByteString bs => exact wr (Builder.createByteString_pays b bs)
  | createVectorDirect t xs => exact wr (Builder.createVectorDirect_pays b xs)
  | createVector p xs => exact wr (Builder.createVector_pays b xs)
  | createVectorOfStrings xs => exact wr (Builder.createVectorOfStrings_pays b xs)
  | required t s => exact .bind (Builder.required_pays b t s) fun _ n _ hn => .pure (Nat.le_refl _)
  | finish r i sp =>
    refine nr ((Builder.finish_pays b r i sp).mono fun b' n _ ⟨_, h2, _⟩ => ?_)
    rw [h2]
    exact Nat.zero_le _
  | reset => exact nr (.touch (.pure (Nat.zero_le _)))

theorem endTable_least (b : Builder) (t : Fin (2 ^ 32)) : Pays (step m b (.endTable t)) fun r n =>
    r.2.vtables.length = b.vtables.length + 1 → r.2.buf.length < 2 ^ 64 → b.vtables.length ≤ n := by
  refine .bind (Q := fun r n => r.2.vtables.length = b.vtables.length + 1 → r.2.buf.length < 2 ^ 64 → b.vtables.length ≤ n) ?_ ?_
  · refine .skip fun _ _ => .bind (Builder.writeVTable_least b t) ?_
    rintro ⟨o, b1⟩ n - h1
    exact .pure h1
  · rintro ⟨o, b1⟩ n - h1
    exact .pure h1

/-! ### Lists of calls -/

theorem run_cons_cells {b b₁ : Builder} {op : Op} {ops : List Op} {r : Option Nat} {rets : List (Option Nat) × Builder}
    (h : Butte.step m b op = .ok (r, b₁)) (h' : Butte.run m b₁ ops = .ok rets) :
    cells (run m b (op :: ops)) = cells (step m b op) + cells (run m b₁ ops) := by
  have e1 : (step m b op).res = .ok (r, b₁) := by rw [step_res, h]
  have e2 : (run m b₁ ops).res = .ok rets := by rw [run_res, h']
  rw [run, cells_bind e1]
  show _ + cells (run m b₁ ops >>= _) = _
  rw [cells_bind e2]
  rfl

theorem run_append_cells {ops' : List Op} {rets' : List (Option Nat) × Builder} : ∀ {ops : List Op} {b b₁ : Builder} {rets : List (Option Nat)},
    Butte.run m b ops = .ok (rets, b₁) → Butte.run m b₁ ops' = .ok rets' →
    cells (run m b (ops ++ ops')) = cells (run m b ops) + cells (run m b₁ ops')
  | [], b, b₁, rets, h, h' => by cases h; simp [run, cells]; rfl
  | op :: ops, b, b₁, rets, h, h' => by
    obtain ⟨⟨r, b₂⟩, h1, h2⟩ := Res.bind_eq_ok.mp h
    obtain ⟨⟨rs, b₃⟩, h3, h4⟩ := Res.bind_eq_ok.mp h2
    cases h4
    rw [List.cons_append, run_cons_cells h1 (run_append.mpr ⟨_, _, _, h3, h', rfl⟩), run_cons_cells h1 h3, run_append_cells h3 h']
    omega

end Butte.Mem
