import Verif.Rt.Dangling
import Verif.Rt.Sample
/-
Property C109: what becomes of an offset that is given to a builder it is not from.
-/
namespace Butte

set_option maxRecDepth 4000

/-- The offset `8` as a value that can be pushed. -/
def staleOff : PVal .off := Builder.offVal 8

/-- The calls of `C109_refuted`, with the values seen on the way. -/
def staleRun (m : Mode) : Bool :=
  (fromNew m 0 [.createString "old"]).okAnd fun (r, b₁) =>
    r == [some staleOff.val] &&
    (FTy.follow m .str b₁.unfinishedData (b₁.usedSpace - staleOff.val)).okAnd (fun s : String => s == "old") &&
    (run m b₁ [.reset, .createString "new"]).okAnd fun (_, b₂) =>
      (step m b₂ (.push .off staleOff)).okAnd fun (q, b₃) =>
        match q with
        | some p => (FTy.follow m (.fwdU .str) b₃.unfinishedData (b₃.usedSpace - p)).okAnd (fun s : String => s == "new")
        | none => false

/-- **C109** is false of the code: the offset of a string made before `reset` is taken afterwards in both builds,
and reads as the string that is at its place now. -/
theorem C109_refuted : ∃ ops₁ ops₂ : List Op, ∀ m : Mode, ∃ (b₀ b₁ b₂ b₃ : Builder) (r₁ r₂ : List (Option Nat)) (p : Nat),
    Builder.newWithCapacity 0 = .ok b₀ ∧
    run m b₀ ops₁ = .ok (r₁ ++ [some staleOff.val], b₁) ∧
    FTy.follow m .str b₁.unfinishedData (b₁.usedSpace - staleOff.val) = .ok "old" ∧
    run m b₁ (.reset :: ops₂) = .ok (r₂, b₂) ∧
    step m b₂ (.push .off staleOff) = .ok (some p, b₃) ∧
    FTy.follow m (.fwdU .str) b₃.unfinishedData (b₃.usedSpace - p) = .ok "new" := by
  refine ⟨[.createString "old"], [.createString "new"], fun m => ?_⟩
  have h : staleRun m = true := by cases m <;> decide +kernel
  unfold staleRun at h
  obtain ⟨b₀, r, b₁, h0, h1, h⟩ := fromNew_ex h
  simp only [Bool.and_eq_true, beq_iff_eq] at h
  obtain ⟨⟨h2, h3⟩, h⟩ := h
  obtain ⟨s, h3, h3'⟩ := Res.okAnd_ex h3
  obtain ⟨⟨r₂, b₂⟩, h4, h⟩ := Res.okAnd_ex h
  obtain ⟨⟨q, b₃⟩, h5, h⟩ := Res.okAnd_ex h
  cases q with
  | none => cases h
  | some p =>
    obtain ⟨s', h6, h6'⟩ := Res.okAnd_ex h
    have e1 : s = "old" := eq_of_beq (α := String) h3'
    have e2 : s' = "new" := eq_of_beq (α := String) h6'
    exact ⟨b₀, b₁, b₂, b₃, [], r₂, p, h0, by rw [h1, h2]; rfl, by rw [h3, e1], h4, h5, by rw [h6, e2]⟩

/-- Every offset that a builder takes by `push`, after any history, and stored wherever: a debug build takes it
only if it is not behind the place where it is stored; followed later, in whichever build, it leads to its place
counted from the end if there is one, and to a place behind the end of the data otherwise. -/
theorem C109_push_partial (m m' : Mode) (b b₁ b₂ : Builder) (x : PVal .off) (p : Nat) (rest : List Op)
    (rets : List (Option Nat)) (hb : Reachable m b) (e : step m b (.push .off x) = .ok (some p, b₁))
    (e' : run m b₁ rest = .ok (rets, b₂)) (hr : NoReset rest) (hs : b₂.usedSpace < 2 ^ 31) :
    p = b₁.usedSpace ∧ (m = .debug → x.val ≤ p) ∧
    ∀ f : FTy, FTy.follow m' (.fwdU f) b₂.unfinishedData (b₂.usedSpace - p) =
      f.follow m' b₂.unfinishedData
        (if x.val ≤ p then b₂.usedSpace - x.val else b₂.usedSpace + (2 ^ 32 - x.val)) := by
  obtain ⟨a, a₁, a₂, _, r1, _, f, hx, hl, hle, hd, hu⟩ := R.step_run hb e e' hr (by omega)
  simp only [stepA] at f
  obtain ⟨k1, k2, _⟩ := push_pat (withRetA_some f) (by omega)
  have k3 := k2.ext hx
  rw [hd, hu]
  exact ⟨by rw [r1.used, k1], (k3.stored (by omega)).2, k3.leads (by omega) m'⟩

/-- The same for an offset put into a field of a table, which is stored at the end of what is used then. -/
theorem C109_field_partial (m m' : Mode) (b b₁ b₂ : Builder) (s : Fin 65536) (x : PVal .off) (r : Option Nat) (rest : List Op)
    (rets : List (Option Nat)) (hb : Reachable m b) (e : step m b (.pushSlotAlways s .off x) = .ok (r, b₁))
    (e' : run m b₁ rest = .ok (rets, b₂)) (hr : NoReset rest) (hs : b₂.usedSpace < 2 ^ 31) :
    (m = .debug → x.val ≤ b₁.usedSpace) ∧
    ∀ f : FTy, FTy.follow m' (.fwdU f) b₂.unfinishedData (b₂.usedSpace - b₁.usedSpace) =
      f.follow m' b₂.unfinishedData
        (if x.val ≤ b₁.usedSpace then b₂.usedSpace - x.val else b₂.usedSpace + (2 ^ 32 - x.val)) := by
  obtain ⟨a, a₁, a₂, _, r1, _, f, hx, hl, hle, hd, hu⟩ := R.step_run hb e e' hr (by omega)
  simp only [stepA, noRetA] at f
  obtain ⟨a3, f1, f2⟩ := Res.bind_eq_ok.mp f
  cases f2
  unfold ABuilder.pushSlotAlways at f1
  obtain ⟨_, _, f1⟩ := Res.bind_eq_ok.mp f1
  obtain ⟨⟨o, a4⟩, f3, f1⟩ := Res.bind_eq_ok.mp f1
  cases f1
  obtain ⟨k1, k2, _⟩ := push_pat f3 (by simp only at hle; omega)
  have k3 : PAt m a₂.data o x := k2.ext (a := { a4 with fieldLocs := a4.fieldLocs ++ [⟨s.val, o⟩] }) hx
  have hp : b₁.usedSpace = o := by rw [r1.used, k1]
  rw [hd, hu, hp]
  exact ⟨(k3.stored (by omega)).2, k3.leads (by omega) m'⟩

/-- The same for the offset of the root given to `finish`, after any calls: the root of the finished data. -/
theorem C109_root_partial (m m' : Mode) (b b' : Builder) (rest : List Op) (root : Fin (2 ^ 32)) (ident : Option Bytes)
    (sp : Bool) (hb : Reachable m b) (h : Finishes m b rest root ident sp b') (hs : b'.usedSpace < 2 ^ 31) :
    let n := b'.usedSpace - (if sp then 4 else 0)
    (m = .debug → root.val ≤ n) ∧
    (if sp then Table.getSizePrefixedRoot m' b'.unfinishedData else Table.getRoot m' b'.unfinishedData) =
      .ok ⟨b'.unfinishedData, if root.val ≤ n then b'.usedSpace - root.val else b'.usedSpace + (2 ^ 32 - root.val)⟩ := by
  obtain ⟨a, ra⟩ := hb.toR
  obtain ⟨a₁, a', r', hx1, hx2, _, hok, f, hl, hd, _⟩ := h.toA hb ra (by omega)
  intro n
  obtain ⟨pad1, pad2, offb, d3, h1, h2, h3, h4, _⟩ := finish_spec f hok h.ident4 (by omega)
  have hv : (Builder.offVal root.val).val = root.val := Nat.mod_eq_of_lt root.isLt
  have hsz : PTy.off.size = 4 := rfl
  have hp : PAt m (offb ++ d3) (offb ++ d3).length (Builder.offVal root.val) := by
    refine ⟨by simp [h3, hsz], offb, ?_, At.head _ _⟩
    rw [← h2]; congr 1; simp [h3, hsz]
  have hn : n = (offb ++ d3).length := by
    show b'.usedSpace - (if sp then 4 else 0) = _
    rw [← hl, h4]
    cases sp <;> simp
  have hp2 : PAt m a'.data n (Builder.offVal root.val) := by
    rw [hn, h4]; exact hp.prepend _
  have k := hp2.leads (by omega) m' .table
  have k2 := (hp2.stored (by omega)).2
  rw [hv] at k k2
  refine ⟨k2, ?_⟩
  rw [← hd, ← hl]
  have hi : isizeMax = 2 ^ 63 - 1 := rfl
  cases sp with
  | false =>
    simp only [Bool.false_eq_true, if_false] at hn h4 ⊢
    unfold Table.getRoot
    rw [show a'.data.length - n = 0 by rw [hn, h4]; simp] at k
    exact k
  | true =>
    simp only [if_true] at hn h4 ⊢
    unfold Table.getSizePrefixedRoot
    rw [show a'.data.length - n = 4 by rw [hn, h4]; simp] at k
    show (do let l ← addU m' 0 4; FTy.follow m' (.fwdU .table) a'.data l) = _
    rw [addU_ok (by omega)]
    exact k

/-- What is behind the end is noticed by whoever reads there, in both builds: scalars, strings, slices, enums,
offsets, the fields of tables and the lengths of vectors. -/
theorem C109_behind (m : Mode) (d : Bytes) (l : Nat) (h : d.length ≤ l) (hl : l < 2 ^ 33) :
    (∀ t : STy, FTy.follow m (.scalar t) d l = .err .outOfBounds) ∧
    FTy.follow m .str d l = .err .outOfBounds ∧
    (∀ t : STy, FTy.follow m (.slice t) d l = .err .outOfBounds) ∧
    (∀ (t : STy) (vals : List Nat), FTy.follow m (.enum t vals) d l = .err .outOfBounds) ∧
    (∀ (f : FTy) (slot : Nat) (dflt : Option f.Inner), Table.get m ⟨d, l⟩ f slot dflt = .err .outOfBounds) ∧
    (∀ e : FTy, Vec.len m (⟨d, l⟩ : Vec e) = .err .outOfBounds) ∧
    (∀ (t : STy) (i : Nat), i < 2 ^ 32 → m = .release → Vec.get m (⟨d, l⟩ : Vec (.scalar t)) i = .err .outOfBounds) := by
  have hi : isizeMax = 2 ^ 63 - 1 := rfl
  refine ⟨fun t => follow_behind m _ rfl h ?_, follow_behind m _ rfl h ?_, fun t => follow_behind m _ rfl h ?_,
    fun t vals => follow_behind m _ rfl h ?_, fun f slot dflt => table_behind m f dflt h (by omega),
    fun e => vec_behind m e h (by omega), ?_⟩
  iterate 4 (simp only [FTy.skips]; omega)
  rintro t i hi' rfl
  have h8 := t.size_le
  have hm : t.size * i ≤ 8 * i := Nat.mul_le_mul_right _ h8
  unfold Vec.get
  rw [if_neg (by decide)]
  rw [debugAssert_ok (decide_eq_true (show 0 < (FTy.scalar t).size from t.size_pos))]
  simp only [Res.ok_bind]
  rw [addU_ok (by omega)]
  simp only [Res.ok_bind]
  have hm' : (FTy.scalar t).size * i = t.size * i := rfl
  rw [mulU_ok (by omega)]
  simp only [Res.ok_bind]
  rw [addU_ok (by omega)]
  exact follow_behind .release (.scalar t) rfl (by omega) (by simp only [FTy.skips]; omega)

/-- A debug build takes an offset if and only if its place is not behind the place where it is stored. -/
theorem C109_debug (b : Builder) (x : PVal .off) (hb : Reachable .debug b) (hs : b.usedSpace < 2 ^ 30) :
    (∃ r, step .debug b (.push .off x) = .ok r) ↔ x.val ≤ (b.usedSpace + 3) / 4 * 4 + 4 := by
  obtain ⟨a, h⟩ := hb.toR
  rw [h.used] at hs ⊢
  rw [← push_off_okA (by omega)]
  have hsim := push_sim (m := .debug) h x
  constructor
  · rintro ⟨r, e⟩
    obtain ⟨r1, e1, _⟩ := Res.bind_eq_ok.mp e
    obtain ⟨c, e2, _⟩ := hsim.fwd _ e1
    exact ⟨c, e2⟩
  · rintro ⟨⟨o, a'⟩, e⟩
    rcases hsim.bwd _ e with ⟨⟨o', b'⟩, e'⟩ | hbig
    · exact ⟨(some o', b'), by simp only [step, withRet]; rw [e']; rfl⟩
    · exfalso
      have : a'.data.length < a.data.length + 8 := by
        have hz : PTy.off.size = 4 := rfl
        obtain ⟨bs, _, h2, _, h4⟩ := push_spec e (by omega)
        have := padding_lt (n := a.data.length + PTy.off.size) (a := PTy.off.size) (by omega) (PTy.size_p2 .off)
        rw [h4]
        simp only [List.length_append, List.length_replicate]
        omega
      simp only [Big1, ABuilder.Big] at hbig
      omega

/-- Instances: a string, the offset of something that does not exist, then the calls `rest`; in a release build the
calls go through. -/
def farRun (op rest : List Op) (p : Builder → Bool) : Bool :=
  (fromNew .release 0 [.createString "abc"]).okAnd fun (_, b) =>
    (run .release b op).okAnd fun (_, b₁) => (run .release b₁ rest).okAnd fun (_, b₂) => p b₂

/-- Pushed at 12, 100 leads behind the end, and reading there is an error. -/
example : farRun [.push .off (Builder.offVal 100)] [.createString "later"] (fun b₂ =>
    b₂.usedSpace == 24 && match FTy.follow .release (.fwdU .str) b₂.unfinishedData (24 - 12) with
      | .err .outOfBounds => true | _ => false) = true := by decide +kernel

/-- In a table. -/
example : farRun [.startTable, .pushSlotAlways 4 .off (Builder.offVal 100)] [.endTable 8]
    (fun b₂ => decide (b₂.usedSpace < 2 ^ 31)) = true := by decide +kernel

/-- As the root. -/
example : farRun [] [.finish 100 none true] (fun b₂ => match Table.getSizePrefixedRoot .debug b₂.unfinishedData with
    | .ok t => t.loc == b₂.usedSpace + (2 ^ 32 - 100) && decide (b₂.unfinishedData.length ≤ t.loc)
    | _ => false) = true := by decide +kernel

/-- A debug build takes 12, itself, after 8 bytes, and not 13. -/
example : ((fromNew .debug 0 [.createString "abc", .push .off (Builder.offVal 12)]).okAnd fun _ => true) = true ∧
    ((fromNew .debug 0 [.createString "abc", .push .off (Builder.offVal 13)]).okAnd fun _ => true) = false := by
  decide +kernel

end Butte
