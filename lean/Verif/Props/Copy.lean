import Verif.Gen.Copy
import Verif.Props.Tree
/-
Property C114: copying a message by reading and writing it with generated code.
-/
namespace Butte
open Gen

set_option maxRecDepth 8000

/-! ### Counterexamples -/

/-- `enum Color { Red, Green }  table T { c: Color; }` -/
def copyEnum : Ir.Table := ⟨[c!"T"],
  [⟨c!"c", .enum [c!"Color"] [⟨c!"Red", none, []⟩, ⟨c!"Green", none, []⟩] .byte, none, false, []⟩], false, []⟩

def copyEnumSchema : Tables := fun q => if q = [c!"T"] then some copyEnum else none

def copyEnumGen : List GField := [⟨c!"c", 4, .enum .i8 [Fin.ofNat _ 0, Fin.ofNat _ 1] none, false⟩]

theorem copyEnum_compiles (gm : Mode) : compileTable gm copyEnum = some copyEnumGen := by cases gm <;> rfl

/-- A message with an empty table. -/
def copyBytes : Bytes := [8, 0, 0, 0, 4, 0, 4, 0, 4, 0, 0, 0]

/-- Every table made by `create` has its enum field set. -/
theorem copyEnum_set {gm m : Mode} {b : Builder} {ty : Ir.Ty} {w : Val} {o : Nat} (h : Written gm m copyEnumSchema b ty w o)
    (ht : ty = .table [c!"T"]) : ∃ i, w = .table [some (.variant i)] := by
  induction h with
  | keep h _ _ ih => exact ih ht
  | string => cases ht
  | scalars => cases ht
  | enums => cases ht
  | strings => cases ht
  | offsets => cases ht
  | @table b b' q t gs args w o hq hc hn hi e hfit hx hreq ih =>
    cases ht
    cases hq
    rw [copyEnum_compiles] at hc
    cases hc
    exact ⟨_, rfl⟩

/-- **C114** is false: an enum field without default that is not stored reads as `None`, and no message written with the
generated code reads like that. -/
theorem C114_refuted : ∃ (S : Tables) (q : Ir.QIdent) (data : Bytes) (v : Val), (∀ gm, Usable gm S) ∧ ∀ gm m,
    (∃ root, Table.getRoot m data = .ok root ∧ ∀ n, readVal gm m S (n + 1) (.table q) (.fwdU .table) root = .ok v) ∧
    ∀ m' b w o, Written gm m' S b (.table q) w o → ¬ Same v w := by
  refine ⟨copyEnumSchema, [c!"T"], copyBytes, .table [none], ?_, fun gm m => ⟨⟨⟨copyBytes, 8⟩, by cases m <;> rfl, ?_⟩, ?_⟩⟩
  · intro gm q t h
    unfold copyEnumSchema at h
    split at h
    · cases h
      refine ⟨⟨_, copyEnum_compiles gm⟩, fun f hf => ?_⟩
      obtain rfl := List.mem_singleton.mp hf
      exact .enum _ _ _
    · cases h
  · intro n
    cases gm <;> cases m <;> rfl
  · intro m' b w o h hs
    obtain ⟨i, rfl⟩ := copyEnum_set h rfl
    cases hs with
    | table hl hf =>
      have := hf 0 (by simp)
      simp only [List.getElem_cons_zero] at this
      cases this

/-- `table T { x: int = 5 (required); }` -/
def copyRequired : Ir.Table := ⟨[c!"T"], [⟨c!"x", .builtin .int, some (.scalar (.integer 5)), true, []⟩], false, []⟩

def copyRequiredSchema : Tables := fun q => if q = [c!"T"] then some copyRequired else none

/-- A message with `x` stored, equal to its default. -/
def copyRequiredBytes : Bytes := [12, 0, 0, 0, 0, 0, 6, 0, 8, 0, 4, 0, 6, 0, 0, 0, 5, 0, 0, 0]

/-- **C114** is false again for required scalars: a message that stores the default can be read, and writing what was read
panics (C35). -/
theorem C114_required_refuted : ∃ (S : Tables) (q : Ir.QIdent) (data : Bytes) (v : Val), (∀ gm, Usable gm S) ∧ ∀ gm m,
    (∃ root, Table.getRoot m data = .ok root ∧ ∀ n, readVal gm m S (n + 1) (.table q) (.fwdU .table) root = .ok v) ∧
    ∃ b₀, Builder.newWithCapacity 128 = .ok b₀ ∧ ∀ n, writeVal gm m S (n + 1) b₀ (.table q) v = .panic := by
  refine ⟨copyRequiredSchema, [c!"T"], copyRequiredBytes, .table [some (.bits 5)], ?_, fun gm m =>
    ⟨⟨⟨copyRequiredBytes, 12⟩, by cases m <;> rfl, ?_⟩, _, rfl, ?_⟩⟩
  · intro gm q t h
    unfold copyRequiredSchema at h
    split at h
    · cases h
      refine ⟨⟨_, show compileTable gm copyRequired = some [⟨c!"x", 4, .scalar .i32 (some (Fin.ofNat _ 5)), true⟩] by cases gm <;> rfl⟩,
        fun f hf => ?_⟩
      obtain rfl := List.mem_singleton.mp hf
      exact .builtin _
    · cases h
  · intro n
    cases gm <;> cases m <;> rfl
  · intro n
    cases gm <;> cases m <;> rfl

/-! ### What holds -/

/-- **C114** as far as it holds: whatever the generated accessors read in full, from any bytes and at any place, can be
written with the generated code by a caller who passes on what was read, with the `Default` of the type for a scalar or enum that was
`None`; `n` bounds the bytes it takes. The copy reads as what was passed on. (The full claim, "as what was read", is refuted
above.) Left out are schemas where a scalar or enum is `required` and has a default (C35), unions of things that are not behind
offsets, and tables of 64 KiB. -/
theorem C114_partial (gm m m' : Mode) (S : Tables) (hr : RequiredUndefaulted S) (hm : MembersBehindOffsets S) (hf : Fitting gm S)
    (q : Ir.QIdent) (k : Nat) (tbl : Table) (v : Val) (h : readVal gm m S k (.table q) (.fwdU .table) tbl = .ok v) :
    ∃ w n, Filled gm S (.table q) v w ∧ Conforms gm S (.table q) w n ∧
      (n + 65576 ≤ 2 ^ 31 - 2 ^ 17 → ∀ cap b₀, Builder.newWithCapacity cap = .ok b₀ →
        ∃ (o : Fin (2 ^ 32)) (b₁ b₂ : Builder) (data : Bytes) (root : Table) (v' : Val),
          writeVal gm m' S n b₀ (.table q) w = .ok (o.val, b₁) ∧ b₁.finish m' o.val none = .ok b₂ ∧ b₂.finishedData m' = .ok data ∧
          Table.getRoot m' data = .ok root ∧ Same w v' ∧
          ∃ N, ∀ n, N ≤ n → readVal gm m' S n (.table q) (.fwdU .table) root = .ok v') := by
  obtain ⟨w, n, h1, h2⟩ := readVal_copy hr hm hf k (.table q) .table tbl v rfl h
  refine ⟨w, n, h1, h2, fun hn cap b₀ h₀ => ?_⟩
  obtain ⟨o, b₁, b₂, data, root, v', e1, _, e2, _, e3, e4, e5, e6⟩ := C65_write_read gm m' S q w n h2 hn cap b₀ h₀ none nofun false
  refine ⟨o, b₁, b₂, data, root, v', e1, ?_, e3, e4, e5, e6⟩
  change noRet (b₁.finishWithOpts m' o.val none false) = _ at e2
  obtain ⟨b, e, h⟩ := Res.bind_eq_ok.mp e2
  cases h
  exact e

/-- **C114** what is passed on is what was read where all scalar and enum fields have defaults. -/
theorem C114_defaulted_partial (gm : Mode) (S : Tables) (hd : Format.Defaulted S) (ty : Ir.Ty) (v w : Val) (h : Filled gm S ty v w) :
    w = v := filled_defaulted hd h

/-- **C114** a copy of a copy is a copy: once everything is set nothing changes. -/
theorem C114_again (gm : Mode) (S : Tables) (ty : Ir.Ty) (v w : Val) (h : Filled gm S ty v w) :
    Filled gm S ty w w ∧ ∀ u, Filled gm S ty w u → u = w := filled_again h

/-! ### Examples -/

/-- The empty message of the first counterexample, and what is passed on in its place. -/
example (gm m : Mode) : RequiredUndefaulted copyEnumSchema ∧ MembersBehindOffsets copyEnumSchema ∧ Fitting gm copyEnumSchema ∧
    (∃ root, Table.getRoot m copyBytes = .ok root ∧
      readVal gm m copyEnumSchema 1 (.table [c!"T"]) (.fwdU .table) root = .ok (.table [none])) ∧
    Filled gm copyEnumSchema (.table [c!"T"]) (.table [none]) (.table [some (.variant 0)]) := by
  have hs : ∀ q t, copyEnumSchema q = some t → t = copyEnum := by
    intro q t h
    unfold copyEnumSchema at h
    split at h
    · cases h; rfl
    · cases h
  refine ⟨?_, ?_, ?_, ⟨⟨copyBytes, 8⟩, by cases m <;> rfl, by cases gm <;> cases m <;> rfl⟩, ?_⟩
  · intro q t h f hf hr
    obtain rfl := hs q t h
    obtain rfl := List.mem_singleton.mp hf
    cases hr
  · intro q t h f hf id e uvs hu
    obtain rfl := hs q t h
    obtain rfl := List.mem_singleton.mp hf
    cases hu
  · intro q t gs h hc
    obtain rfl := hs q t h
    rw [copyEnum_compiles] at hc
    cases hc
    decide
  · refine .table (t := copyEnum) rfl (copyEnum_compiles gm) rfl rfl ?_ ?_
    · intro i g x y hg hx hy
      cases i with
      | zero => cases hg; cases hx; cases hy; exact .unsetEnum _ _
      | succ i => cases hx
    · intro i f x y ty v w hf hx hy h1 h2
      cases i with
      | zero => cases hf; cases hx; cases h1
      | succ i => cases hx

/-- The schema of Props/Tree meets the conditions, and there are messages of it with unions and vectors to read. -/
example (gm m : Mode) : RequiredUndefaulted exSchema ∧ MembersBehindOffsets exSchema ∧ Fitting gm exSchema ∧
    ∃ (root : Table) (k : Nat) (v : Val), readVal gm m exSchema k (.table [c!"T"]) (.fwdU .table) root = .ok v ∧ Same exVal v := by
  have hs : ∀ q t, exSchema q = some t → t = exTable ∨ t = exLeaf := by
    intro q t h
    unfold exSchema at h
    split at h
    · cases h; exact .inl rfl
    · split at h
      · cases h; exact .inr rfl
      · cases h
  refine ⟨?_, ?_, ?_, ?_⟩
  · intro q t h f hf
    rcases hs q t h with rfl | rfl
    · simp only [exTable, exFields, List.mem_cons, List.not_mem_nil, or_false] at hf
      rcases hf with rfl | rfl | rfl | rfl | rfl | rfl <;> simp [exTag, exUnion]
    · simp only [exLeaf, List.mem_cons, List.not_mem_nil, or_false] at hf
      rcases hf with rfl | rfl | rfl <;> simp
  · intro q t h f hf id e uvs hu
    rcases hs q t h with rfl | rfl
    · simp only [exTable, exFields, List.mem_cons, List.not_mem_nil, or_false] at hf
      rcases hf with rfl | rfl | rfl | rfl | rfl | rfl <;> cases hu
      intro u hu
      simp only [List.mem_cons, List.not_mem_nil, or_false] at hu
      rcases hu with rfl | rfl <;> exact .table _
    · simp only [exLeaf, List.mem_cons, List.not_mem_nil, or_false] at hf
      rcases hf with rfl | rfl | rfl <;> cases hu
  · intro q t gs h hc
    rcases hs q t h with rfl | rfl
    · rw [exTable_compiles] at hc; cases hc; decide
    · rw [exLeaf_compiles] at hc; cases hc; decide
  · obtain ⟨b₀, h₀⟩ : ∃ b₀, Builder.newWithCapacity 0 = .ok b₀ := ⟨_, rfl⟩
    obtain ⟨_, _, _, _, root, v', _, _, _, _, _, _, hs, N, hN⟩ := C65_write_read gm m exSchema _ _ _ (exVal_conforms gm) (by decide) 0 b₀ h₀ none
      nofun false
    exact ⟨root, N, v', hN N (Nat.le_refl _), hs⟩

/-- A schema whose scalars have defaults, and a value of it. -/
example (gm : Mode) : Format.Defaulted copyRequiredSchema ∧
    Filled gm copyRequiredSchema (.table [c!"T"]) (.table [some (.bits 7)]) (.table [some (.bits 7)]) := by
  refine ⟨?_, .table (t := copyRequired) (gs := [⟨c!"x", 4, .scalar .i32 (some (Fin.ofNat _ 5)), true⟩]) rfl (by cases gm <;> rfl) rfl rfl ?_ ?_⟩
  · intro q t h f hf _
    unfold copyRequiredSchema at h
    split at h
    · cases h
      obtain rfl := List.mem_singleton.mp hf
      simp
    · cases h
  · intro i g x y hg hx hy
    cases i with
    | zero => cases hg; cases hx; cases hy; exact .scalar _ _ _
    | succ i => cases hx
  · intro i f x y ty v w hf hx hy h1 h2
    cases i with
    | zero => cases hf; cases hx; cases h1
    | succ i => cases hx

end Butte
