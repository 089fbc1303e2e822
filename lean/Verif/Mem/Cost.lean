import Verif.Mem.Logic
import Verif.Gen.TreeRead
/-
How many memory accesses reading takes: lemmas for C94.
-/
namespace Butte.Mem
open Gen

/-- At most `k` accesses, each of them reading one value. -/
def Cheap (k : Nat) (x : Tr α) : Prop := x.log.length ≤ k ∧ ∀ a ∈ x.log, a.write = false ∧ a.count = 1

/-- At least `k` accesses if it succeeds. -/
def Dear (k : Nat) (x : Tr α) : Prop := ∀ r, x.res = .ok r → k ≤ x.log.length

theorem Cheap.mono {k k' : Nat} {x : Tr α} (h : Cheap k x) (hk : k ≤ k') : Cheap k' x := ⟨Nat.le_trans h.1 hk, h.2⟩

theorem Cheap.bind {j k : Nat} {x : Tr α} {f : α → Tr β} (h : Cheap j x) (hf : ∀ r, Cheap k (f r)) : Cheap (j + k) (x >>= f) := by
  constructor
  · rw [bind_log, List.length_append]
    cases x.res with
    | ok r => have := (hf r).1; have := h.1; dsimp only; omega
    | err _ => have := h.1; simp; omega
    | panic => have := h.1; simp; omega
  · exact All.bind (P := fun a => a.write = false ∧ a.count = 1) h.2 fun r _ => (hf r).2

theorem Cheap.free {x : Tr α} (h : x.log = []) : Cheap 0 x := by
  unfold Cheap; rw [h]; simp

theorem Cheap.pure (a : α) : Cheap 0 (Pure.pure a : Tr α) := .free rfl
theorem Cheap.lift (r : Res α) : Cheap 0 (Tr.lift r) := .free rfl
theorem Cheap.liftM (r : Res α) : Cheap 0 (liftM r : Tr α) := .free rfl

theorem Cheap.skip {k : Nat} {r : Res α} {f : α → Tr β} (hf : ∀ r, Cheap k (f r)) : Cheap k ((_root_.liftM r : Tr α) >>= f) := by
  have := Cheap.bind (Cheap.liftM r) hf
  rwa [Nat.zero_add] at this

theorem Cheap.then {k : Nat} {x : Tr α} {f : α → Tr β} (h : Cheap k x) (hf : ∀ r, Cheap 0 (f r)) : Cheap k (x >>= f) := h.bind hf

theorem Cheap.within {k s : Nat} {mem : Bytes} {x : Tr α} (h : Cheap k x) : Cheap k (Tr.within mem s x) := by
  refine ⟨by simpa [Tr.within] using h.1, ?_⟩
  intro a ha
  obtain ⟨b, hb, rfl⟩ := List.mem_map.mp ha
  exact h.2 b hb

theorem Cheap.ite {k : Nat} {c : Prop} [Decidable c] {x y : Tr α} (hx : Cheap k x) (hy : Cheap k y) :
    Cheap k (if c then x else y) := by
  split
  · exact hx
  · exact hy

theorem Cheap.onRes {k : Nat} {g : Res α → Res β} {x : Tr α} (h : Cheap k x) : Cheap k (Tr.onRes g x) := h

/-! ### Upper bounds -/

theorem readScalarAs_cheap (A t : STy) (s : Bytes) : Cheap 1 (readScalarAs A t s) := by
  unfold readScalarAs
  split
  · refine Cheap.then ?_ fun _ => .pure _
    refine ⟨Nat.le_refl 1, ?_⟩
    intro a ha
    cases List.mem_singleton.mp ha
    exact ⟨rfl, rfl⟩
  · exact (Cheap.lift _).mono (by omega)

theorem readScalarAtAs_cheap (m : Mode) (A t : STy) (s : Bytes) (loc : Nat) : Cheap 1 (readScalarAtAs m A t s loc) :=
  .skip fun _ => .skip fun _ => (readScalarAs_cheap ..).within

theorem readNatAt_cheap (m : Mode) (t : STy) (s : Bytes) (loc : Nat) : Cheap 1 (readNatAt m t s loc) :=
  .then (readScalarAtAs_cheap ..) fun _ => .pure _

/-- How many accesses it takes to follow a type at most. There is no number for slices, which are one access to many values. -/
def reads : FTy → Option Nat
  | .scalar _ | .str | .enum _ _ => some 1
  | .slice _ => none
  | .vector _ | .table | .vtable | .fileId => some 0
  | .fwdU t | .fwdV t | .backS t => (reads t).map (· + 1)
  | .skipSize t | .skipRoot t | .skipFileId t => reads t

theorem followStr_cheap (m : Mode) (buf : Bytes) (loc : Nat) : Cheap 1 (followStr m buf loc) := by
  refine Cheap.then (readNatAt_cheap ..) fun _ => .skip fun _ => .skip fun _ => .ite (.lift _) ?_
  dsimp only
  split
  · refine Cheap.bind (Cheap.lift _) fun _ => .ite (.lift _) (.skip fun _ => ?_)
    split
    · exact .pure _
    · exact .lift _
  · refine Cheap.bind (Cheap.lift _) fun _ => .ite (.lift _) (.skip fun _ => ?_)
    split
    · exact .pure _
    · exact .lift _

theorem follow_cheap (m : Mode) : ∀ (f : FTy) {k : Nat}, reads f = some k → ∀ (buf : Bytes) (loc : Nat), Cheap k (follow m f buf loc)
  | .scalar t, _, h, _, _ => by cases h; exact readScalarAtAs_cheap ..
  | .str, _, h, _, _ => by cases h; exact followStr_cheap ..
  | .slice _, _, h, _, _ => by cases h
  | .vector _, _, h, _, _ => by cases h; exact .pure _
  | .table, _, h, _, _ => by cases h; exact .pure _
  | .vtable, _, h, _, _ => by cases h; exact .pure _
  | .fileId, _, h, _, _ => by cases h; exact .skip fun _ => .liftM _
  | .fwdU t, _, h, buf, loc => by
    obtain ⟨k, hk, rfl⟩ := Option.map_eq_some_iff.mp h
    rw [Nat.add_comm]
    exact .skip fun _ => .skip fun _ => .bind (readScalarAs_cheap ..).within fun _ => .skip fun _ => follow_cheap m t hk _ _
  | .fwdV t, _, h, buf, loc => by
    obtain ⟨k, hk, rfl⟩ := Option.map_eq_some_iff.mp h
    rw [Nat.add_comm]
    exact .skip fun _ => .skip fun _ => .bind (readScalarAs_cheap ..).within fun _ => .skip fun _ => follow_cheap m t hk _ _
  | .backS t, _, h, buf, loc => by
    obtain ⟨k, hk, rfl⟩ := Option.map_eq_some_iff.mp h
    rw [Nat.add_comm]
    exact .skip fun _ => .skip fun _ => .bind (readScalarAs_cheap ..).within fun _ => .skip fun _ => follow_cheap m t hk _ _
  | .skipSize t, _, h, _, _ => .skip fun _ => follow_cheap m t h _ _
  | .skipRoot t, _, h, _, _ => .skip fun _ => follow_cheap m t h _ _
  | .skipFileId t, _, h, _, _ => .skip fun _ => follow_cheap m t h _ _
  | .enum t vals, _, h, _, _ => by
    cases h
    exact .then (readScalarAtAs_cheap ..) fun _ => .liftM _

theorem vtableGet_cheap (m : Mode) (v : Butte.VTable) (l : Nat) : Cheap 2 (VTable.get m v l) := by
  refine Cheap.bind (j := 1) (k := 1) (readNatAt_cheap ..) fun _ => ?_
  refine .ite ((Cheap.pure _).mono (by omega)) (.skip fun _ => .then (readNatAt_cheap ..) fun _ => .pure _)

theorem tableGet_cheap (m : Mode) (t : Butte.Table) {f : FTy} {k : Nat} (h : reads f = some k) (slot : Nat) (d : Option f.Inner) :
    Cheap (3 + k) (Table.get m t f slot d) := by
  rw [show 3 + k = 1 + (2 + k) by omega]
  refine Cheap.bind (follow_cheap m (.backS .vtable) rfl _ _) fun vt => .bind (vtableGet_cheap ..) fun vo => ?_
  split
  · exact .ite ((Cheap.pure _).mono (by omega)) (.skip fun _ => .then (follow_cheap m f h _ _) fun _ => .pure _)
  · exact (Cheap.pure _).mono (by omega)

/-- Every member of the kind is followed with at most two accesses. -/
def Kind.Short : Kind → Prop
  | .scalar .. | .enum .. => True
  | .ref f => ∃ k, reads f = some k ∧ k ≤ 1
  | .union vs => ∀ f ∈ vs, ∃ k, reads f = some k ∧ k ≤ 2

theorem reads_followTy : ∀ {t : Ir.Ty} {f : FTy}, followTy t = some f → ∃ k, reads f = some k ∧ 1 ≤ k ∧ k ≤ 2
  | .builtin _, f, h => by cases h; exact ⟨1, rfl, by omega, by omega⟩
  | .string, f, h => by cases h; exact ⟨2, rfl, by omega, by omega⟩
  | .array t, f, h => by
    simp only [followTy, Option.bind_eq_bind, Option.bind_eq_some_iff] at h
    obtain ⟨e, -, h⟩ := h
    cases h; exact ⟨1, rfl, by omega, by omega⟩
  | .table _, f, h => by cases h; exact ⟨1, rfl, by omega, by omega⟩
  | .struct .., f, h => by cases h
  | .enum _ vs b, f, h => by
    simp only [followTy, Option.bind_eq_bind, Option.bind_eq_some_iff] at h
    obtain ⟨e, -, h⟩ := h
    cases h; exact ⟨1, rfl, by omega, by omega⟩
  | .union .., f, h => by cases h

theorem kindOf_short {ty : Ir.Ty} {d : Option Ast.DefaultValue} {k : Kind} (h : kindOf ty d = some k) : Kind.Short k := by
  unfold kindOf at h
  split at h
  · cases h; trivial
  · simp only [Option.bind_eq_bind, Option.bind_eq_some_iff] at h
    obtain ⟨_, -, h⟩ := h; cases h; trivial
  · cases h
  · simp only [Option.bind_eq_bind, Option.bind_eq_some_iff] at h
    obtain ⟨_, -, h⟩ := h
    split at h
    · cases h; trivial
    · simp only [Option.bind_eq_some_iff] at h
      obtain ⟨_, -, h⟩ := h
      split at h
      · cases h; trivial
      · cases h
  · cases h; exact ⟨1, rfl, by omega⟩
  · simp only [Option.bind_eq_bind, Option.bind_eq_some_iff] at h
    obtain ⟨_, -, h⟩ := h; cases h; exact ⟨0, rfl, by omega⟩
  · cases h; exact ⟨0, rfl, by omega⟩
  · split at h
    · simp only [Option.map_eq_some_iff] at h
      obtain ⟨fs, hfs, h⟩ := h; cases h
      intro f hf
      obtain ⟨j, hj, rfl⟩ := List.mem_iff_getElem.mp hf
      obtain ⟨a, -, ha⟩ := mapM_getElem hfs j hj
      obtain ⟨k, h1, -, h2⟩ := reads_followTy ha
      exact ⟨k, h1, h2⟩
    · cases h
  · cases h
  · cases h

theorem fetch_cheap (m : Mode) (t : Butte.Table) (slot : Nat) {tag : Tr (Option Nat)} (ht : Cheap 4 tag) :
    ∀ {k : Kind}, Kind.Short k → Cheap 9 (fetch m t slot tag k)
  | .scalar ty d, _ => (tableGet_cheap m t (f := .scalar ty) rfl slot d).mono (by omega)
  | .enum ty vals d, _ => (tableGet_cheap m t (f := enumFTy ty vals) rfl slot _).mono (by omega)
  | .ref f, ⟨k, h, hk⟩ =>
    (tableGet_cheap m t (f := .fwdU f) (k := k + 1) (by rw [reads, h]; rfl) slot none).mono (by omega)
  | .union vs, h => by
    refine Cheap.bind (j := 4) (k := 5) ht fun r => ?_
    split
    · exact (Cheap.pure _).mono (by omega)
    · exact (Cheap.pure _).mono (by omega)
    · split
      · next i hi =>
        obtain ⟨k, h1, h2⟩ := h (vs.get ⟨i, hi⟩) (List.get_mem ..)
        exact .then ((tableGet_cheap m t h1 slot none).mono (by omega)) fun _ => .pure _
      · exact (Cheap.lift _).mono (by omega)

theorem tagOf_cheap (m : Mode) (t : Butte.Table) (fs : List GField) (name : Str) : Cheap 4 (tagOf m t fs name) := by
  unfold tagOf
  cases h : fs.find? (fun g => g.name == name ++ c!"_type") with
  | none => exact (Cheap.lift _).mono (by omega)
  | some g =>
    obtain ⟨n, slot, k, req⟩ := g
    cases k with
    | enum ty vals d => exact .then (tableGet_cheap m t (f := enumFTy ty vals) rfl _ _) fun _ => .liftM _
    | _ => exact (Cheap.lift _).mono (by omega)

theorem accessor_cheap (m : Mode) (t : Butte.Table) (fs : List GField) {f : GField} (h : Kind.Short f.kind) :
    Cheap 9 (accessor m t fs f) := .then (fetch_cheap m t f.slot (tagOf_cheap ..) h) fun _ => .liftM _

theorem vecGet_cheap (m : Mode) {e : FTy} {k : Nat} (h : reads e = some k) (v : Vec e) (i : Nat) :
    Cheap (1 + k) (Vec.get m v i) := by
  unfold Vec.get
  have tail : Cheap k (do
      let _ ← (liftM (debugAssert m (decide (0 < e.size))) : Tr Unit)
      let a ← (liftM (addU m v.loc 4) : Tr Nat)
      let b ← (liftM (mulU m e.size i) : Tr Nat)
      let l ← (liftM (addU m a b) : Tr Nat)
      follow m e v.buf l) :=
    .skip fun _ => .skip fun _ => .skip fun _ => .skip fun _ => follow_cheap m e h _ _
  refine .ite ?_ (tail.mono (by omega))
  exact .bind (readNatAt_cheap ..) fun _ => .skip fun _ => tail

theorem compiled_short {gm : Mode} {t : Ir.Table} {gs : List GField} (h : compileTable gm t = some gs) {g : GField} (hg : g ∈ gs) :
    Kind.Short g.kind := by
  have key : ∀ {fs : List Ir.Field} {gs : List GField}, List.Forall₂ Compiled fs gs → ∀ g ∈ gs, Kind.Short g.kind := by
    intro fs gs h
    induction h with
    | nil => nofun
    | cons h _ ih =>
      intro g hg
      rcases List.mem_cons.mp hg with rfl | hg
      · exact kindOf_short h.kind
      · exact ih g hg
  exact key (compileFields_spec (compileTable_fields h)) g hg

/-! ### Lower bounds -/

theorem Dear.bind {j k : Nat} {x : Tr α} {f : α → Tr β} (h : Dear j x) (hf : ∀ r, x.res = .ok r → Dear k (f r)) :
    Dear (j + k) (x >>= f) := by
  intro c hc
  rw [bind_res] at hc
  obtain ⟨a, h1, h2⟩ := Res.bind_eq_ok.mp hc
  have := h a h1
  have := hf a h1 c h2
  rw [bind_log, List.length_append, h1]
  dsimp only; omega

theorem Dear.zero {x : Tr α} : Dear 0 x := fun _ _ => Nat.zero_le _

theorem Dear.left {k : Nat} {x : Tr α} {f : α → Tr β} (h : Dear k x) : Dear k (x >>= f) := h.bind fun _ _ => .zero

theorem Dear.skip {k : Nat} {x : Tr α} {f : α → Tr β} (hf : ∀ r, Dear k (f r)) : Dear k (x >>= f) := by
  have := Dear.bind (Dear.zero (x := x)) fun r _ => hf r
  rwa [Nat.zero_add] at this

theorem Dear.fail {k : Nat} {x : Tr α} (h : ∀ r, x.res ≠ .ok r) : Dear k x := fun r hr => absurd hr (h r)

theorem Dear.ite {k : Nat} {c : Prop} [Decidable c] {x y : Tr α} (hx : Dear k x) (hy : Dear k y) : Dear k (if c then x else y) := by
  split
  · exact hx
  · exact hy

theorem readScalarAs_dear (A t : STy) (s : Bytes) : Dear 1 (readScalarAs A t s) := by
  unfold readScalarAs
  split
  · exact .left fun _ _ => Nat.le_refl 1
  · exact .fail nofun

theorem Dear.within {k s : Nat} {mem : Bytes} {x : Tr α} (h : Dear k x) : Dear k (Tr.within mem s x) := by
  intro r hr
  have := h r hr
  simpa [Tr.within] using this

theorem readScalarAtAs_dear (m : Mode) (A t : STy) (s : Bytes) (loc : Nat) : Dear 1 (readScalarAtAs m A t s loc) :=
  .skip fun _ => .skip fun _ => (readScalarAs_dear _ _ _).within

theorem readNatAt_dear (m : Mode) (t : STy) (s : Bytes) (loc : Nat) : Dear 1 (readNatAt m t s loc) :=
  .left (readScalarAtAs_dear _ _ _ _ _)

theorem tableGet_dear (m : Mode) (t : Butte.Table) (f : FTy) (slot : Nat) (d : Option f.Inner) :
    Dear 1 (Table.get m t f slot d) :=
  .left (.skip fun _ => .skip fun _ => .left (readScalarAs_dear _ _ _).within)

theorem accessor_dear (m : Mode) (t : Butte.Table) (fs : List GField) (f : GField) : Dear 1 (accessor m t fs f) := by
  refine .left ?_
  obtain ⟨name, slot, k, req⟩ := f
  cases k with
  | scalar ty d => exact tableGet_dear _ _ _ _ _
  | enum ty vals d => exact tableGet_dear _ _ _ _ _
  | ref f => exact tableGet_dear _ _ _ _ _
  | union vs =>
    refine .left ?_
    unfold tagOf
    cases h : fs.find? (fun g => g.name == name ++ c!"_type") with
    | none => exact .fail nofun
    | some g =>
      obtain ⟨n, slot, k, req⟩ := g
      cases k with
      | enum ty vals d => exact .left (tableGet_dear _ _ _ _ _)
      | _ => exact .fail nofun

/-! ### Whole values -/

mutual
/-- How many fields tables in a value have (stored or not), and how many vectors and elements of vectors there are. -/
def weight : Val → Nat
  | .bits _ | .variant _ | .str _ => 0
  | .vec xs => 1 + weights xs
  | .table xs => fieldWeights xs
  | .union _ v => weight v

def weights : List Val → Nat
  | [] => 0
  | x :: xs => 1 + weight x + weights xs

def fieldWeights : List (Option Val) → Nat
  | [] => 0
  | x :: xs => 1 + optWeight x + fieldWeights xs

def optWeight : Option Val → Nat
  | none => 0
  | some x => weight x
end

theorem mapAll_ok {f : α → Tr β} {w : β → Nat} : ∀ {xs : List α} {ys : List β}, (mapAll f xs).res = .ok ys →
    (∀ x ∈ xs, ∀ y, (f x).res = .ok y → w y ≤ (f x).log.length ∧ (f x).log.length ≤ 9 * w y) →
    (ys.map w).sum ≤ (mapAll f xs).log.length ∧ (mapAll f xs).log.length ≤ 9 * (ys.map w).sum
  | [], ys, h, _ => by cases h; exact ⟨Nat.le_refl 0, Nat.le_refl 0⟩
  | x :: xs, ys, h, hw => by
    unfold mapAll at h ⊢
    rw [bind_res] at h
    obtain ⟨y, h1, h2⟩ := Res.bind_eq_ok.mp h
    rw [bind_res] at h2
    obtain ⟨ys', h3, h4⟩ := Res.bind_eq_ok.mp h2
    cases h4
    have e1 := hw x (by simp) y h1
    have e2 := mapAll_ok h3 fun x hx => hw x (by simp [hx])
    rw [bind_log, h1]
    dsimp only
    rw [bind_log, h3]
    simp only [List.length_append, List.map_cons, List.sum_cons]
    have : (Pure.pure (y :: ys') : Tr (List β)).log.length = 0 := rfl
    omega

theorem weights_eq : ∀ xs : List Val, weights xs = (xs.map fun x => 1 + weight x).sum
  | [] => rfl
  | x :: xs => by rw [weights, weights_eq xs]; rfl

theorem fieldWeights_eq : ∀ xs : List (Option Val), fieldWeights xs = (xs.map fun x => 1 + optWeight x).sum
  | [] => rfl
  | x :: xs => by rw [fieldWeights, fieldWeights_eq xs]; rfl

theorem fwdU_dear (m : Mode) (f : FTy) (buf : Bytes) (loc : Nat) : Dear 1 (follow m (.fwdU f) buf loc) :=
  .skip fun _ => .skip fun _ => .left (readScalarAs_dear _ _ _).within

theorem vecGet_dear (m : Mode) {e : FTy} (v : Vec e) (i : Nat) (h : ∀ buf loc, Dear 1 (follow m e buf loc)) : Dear 1 (Vec.get m v i) := by
  unfold Vec.get
  have tail : Dear 1 (do
      let _ ← (liftM (debugAssert m (decide (0 < e.size))) : Tr Unit)
      let a ← (liftM (addU m v.loc 4) : Tr Nat)
      let b ← (liftM (mulU m e.size i) : Tr Nat)
      let l ← (liftM (addU m a b) : Tr Nat)
      follow m e v.buf l) :=
    .skip fun _ => .skip fun _ => .skip fun _ => .skip fun _ => h _ _
  exact .ite (.skip fun _ => .skip fun _ => tail) tail

/-- Values can be read from these only. -/
theorem readVal_ok {gm m : Mode} {S : Tables} : ∀ {n : Nat} {ty : Ir.Ty} {f : FTy} {x : f.Inner} {v : Val},
    (readVal gm m S n ty f x).res = .ok v → ∃ k, reads f = some k ∧ 1 ≤ k ∧ k ≤ 2 ∧ ∀ buf loc, Dear 1 (follow m f buf loc) := by
  intro n ty f x v h
  unfold readVal at h
  split at h
  · cases h
  · exact ⟨1, rfl, by omega, by omega, fun _ _ => readScalarAtAs_dear _ _ _ _ _⟩
  · exact ⟨1, rfl, by omega, by omega, fun _ _ => .left (readScalarAtAs_dear _ _ _ _ _)⟩
  · exact ⟨2, rfl, by omega, by omega, fwdU_dear _ _⟩
  · exact ⟨1, rfl, by omega, by omega, fwdU_dear _ _⟩
  · exact ⟨1, rfl, by omega, by omega, fwdU_dear _ _⟩
  · cases h

/-- Between `w` and `9 * w` accesses. -/
def Takes (w : Nat) (x : Tr α) : Prop := w ≤ x.log.length ∧ x.log.length ≤ 9 * w

theorem Takes.bind {w w' : Nat} {x : Tr α} {f : α → Tr β} {r : α} (hr : x.res = .ok r) (h : Takes w x) (hf : Takes w' (f r)) :
    Takes (w + w') (x >>= f) := by
  unfold Takes at *
  rw [bind_log, hr, List.length_append]
  dsimp only; omega

theorem takes_one {x : Tr α} {r : α} {k : Nat} (hr : x.res = .ok r) (h1 : Dear 1 x) (h2 : Cheap k x) (hk : k ≤ 9) : Takes 1 x :=
  ⟨h1 r hr, Nat.le_trans h2.1 (by omega)⟩

theorem readKind_takes {rd : Ir.Ty → (f : FTy) → f.Inner → Tr Val} (ih : ∀ {ty : Ir.Ty} {f : FTy} {x : f.Inner} {v : Val},
    (rd ty f x).res = .ok v → Takes (weight v) (rd ty f x)) {ty : Ir.Ty} : ∀ {k : Kind} {y : k.Inner} {v : Val},
    (readKind rd ty k y).res = .ok v → Takes (weight v) (readKind rd ty k y)
  | .scalar _ _, _, _, h => by cases h; exact ⟨Nat.le_refl 0, Nat.le_refl 0⟩
  | .enum _ _ _, _, _, h => by cases h; exact ⟨Nat.le_refl 0, Nat.le_refl 0⟩
  | .ref _, _, _, h => ih h
  | .union vs, ⟨i, x⟩, v, h => by
    cases ty with
    | union a b uvs =>
      have key : readKind rd (.union a b uvs) (.union vs) ⟨i, x⟩ = (match uvs[i.val]? with
        | some u => do
          let v ← rd u.ty (vs.get i) x
          return .union i v
        | none => Tr.lift .panic) := rfl
      rw [key] at h ⊢
      cases hu : uvs[i.val]? with
      | none => rw [hu] at h; cases h
      | some u =>
        rw [hu] at h
        dsimp only at h ⊢
        rw [bind_res] at h
        obtain ⟨w, h1, h2⟩ := Res.bind_eq_ok.mp h
        cases h2
        exact Takes.bind (f := fun w => (Pure.pure (Val.union i w) : Tr Val)) h1 (ih h1) (w' := 0) ⟨Nat.le_refl 0, Nat.le_refl 0⟩
    | _ => cases h

theorem readField_takes {rd : Ir.Ty → (f : FTy) → f.Inner → Tr Val} (ih : ∀ {ty : Ir.Ty} {f : FTy} {x : f.Inner} {v : Val},
    (rd ty f x).res = .ok v → Takes (weight v) (rd ty f x)) {m : Mode} {tb : Butte.Table} {gs : List GField} {g : GField}
    (hg : Kind.Short g.kind) {ty : Ir.Ty} {y : Option Val} (h : (readField rd ty g.kind (accessor m tb gs g)).res = .ok y) :
    Takes (1 + optWeight y) (readField rd ty g.kind (accessor m tb gs g)) := by
  unfold readField at h ⊢
  rw [bind_res] at h
  obtain ⟨x, h1, h2⟩ := Res.bind_eq_ok.mp h
  refine Takes.bind h1 (takes_one h1 (accessor_dear m tb gs g) (accessor_cheap m tb gs hg) (by omega)) ?_
  cases x with
  | none => cases h2; exact ⟨Nat.le_refl 0, Nat.le_refl 0⟩
  | some x =>
    dsimp only at h2 ⊢
    rw [bind_res] at h2
    obtain ⟨w, h3, h4⟩ := Res.bind_eq_ok.mp h2
    cases h4
    exact Takes.bind (f := fun w => (Pure.pure (some w) : Tr (Option Val))) h3 (readKind_takes ih h3) (w' := 0) ⟨Nat.le_refl 0, Nat.le_refl 0⟩

theorem readVal_takes {gm m : Mode} {S : Tables} : ∀ {n : Nat} {ty : Ir.Ty} {f : FTy} {x : f.Inner} {v : Val},
    (readVal gm m S n ty f x).res = .ok v → Takes (weight v) (readVal gm m S n ty f x) := by
  intro n
  induction n with
  | zero => intro ty f x v h; unfold readVal at h; cases h
  | succ n ih =>
    intro ty f x v h
    unfold readVal at h ⊢
    split at h
    · next h0 => cases h0
    · cases h; exact ⟨Nat.le_refl 0, Nat.le_refl 0⟩
    · cases h; exact ⟨Nat.le_refl 0, Nat.le_refl 0⟩
    · cases h; exact ⟨Nat.le_refl 0, Nat.le_refl 0⟩
    · next t e w hs =>
      cases hs
      rw [bind_res] at h
      obtain ⟨len, h1, h2⟩ := Res.bind_eq_ok.mp h
      rw [bind_res] at h2
      obtain ⟨xs, h3, h4⟩ := Res.bind_eq_ok.mp h2
      cases h4
      have k1 : Takes 1 (Vec.len m w) := takes_one h1 (readNatAt_dear m .u32 w.buf w.loc) (readNatAt_cheap m .u32 w.buf w.loc) (by omega)
      have k2 := mapAll_ok (w := fun x => 1 + weight x) h3 fun i _ y hy => by
        rw [bind_res] at hy
        obtain ⟨x, e1, e2⟩ := Res.bind_eq_ok.mp hy
        obtain ⟨k, r1, r2, r3, r4⟩ := readVal_ok e2
        exact Takes.bind e1 (takes_one e1 (vecGet_dear m w i r4) (vecGet_cheap m r1 w i) (by omega)) (ih e2)
      rw [← weights_eq] at k2
      refine Takes.bind h1 k1 ?_
      exact Takes.bind (f := fun xs => (Pure.pure (Val.vec xs) : Tr Val)) h3 k2 (w' := 0) ⟨Nat.le_refl 0, Nat.le_refl 0⟩
    · next q tb hs =>
      cases hs
      split at h
      · cases h
      · next t hq =>
        split at h
        · cases h
        · next gs hgs =>
          rw [bind_res] at h
          obtain ⟨xs, h3, h4⟩ := Res.bind_eq_ok.mp h
          cases h4
          have k2 := mapAll_ok (w := fun x => 1 + optWeight x) h3 fun i _ y hy => by
            cases hf : t.fields[i.val]? with
            | none => rw [hf] at hy; cases hy
            | some f =>
              rw [hf] at hy
              dsimp only at hy ⊢
              exact readField_takes ih (compiled_short hgs (List.get_mem gs i)) hy
          rw [← fieldWeights_eq] at k2
          exact Takes.bind (f := fun xs => (Pure.pure (Val.table xs) : Tr Val)) h3 k2 (w' := 0) ⟨Nat.le_refl 0, Nat.le_refl 0⟩
    · cases h

end Butte.Mem
