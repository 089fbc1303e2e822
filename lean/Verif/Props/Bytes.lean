import Verif.Gen.Agree
import Verif.Props.Format
import Verif.Props.BuilderMem
/-
Property C119: what it means that two messages have the same bytes.
-/
namespace Butte
open Gen Format

set_option maxRecDepth 8000

/-! ### C119 -/

/-- **C119, equal bytes**: however two trees of the same schema were written (in whatever order, with whatever other calls, to
whatever builders, in whatever build modes and with whatever identifiers), if the finished messages have the same bytes,
the trees are equal, up to the sign of floating-point zeros in table fields. -/
theorem C119_equal_bytes (gm gm' m m' : Mode) (S : Tables) (hS : Accepted gm S) (sp : Bool) (q : Ir.QIdent)
    (b₁ b₂ : Builder) (v : Val) (o : Fin (2 ^ 32)) (ident : Option Bytes) (h : Written gm m S b₁ (.table q) v o.val)
    (hreg : Regular m b₁) (hf : Finishes m b₁ [] o ident sp b₂) (hfr : m = .release → b₁.finished = false)
    (hs : b₂.usedSpace < 2 ^ 31)
    (c₁ c₂ : Builder) (w : Val) (o' : Fin (2 ^ 32)) (ident' : Option Bytes) (h' : Written gm' m' S c₁ (.table q) w o'.val)
    (hreg' : Regular m' c₁) (hf' : Finishes m' c₁ [] o' ident' sp c₂) (hfr' : m' = .release → c₁.finished = false)
    (hs' : c₂.usedSpace < 2 ^ 31)
    (data : Bytes) (hd : b₂.finishedData m = .ok data) (hd' : c₂.finishedData m' = .ok data) :
    ∃ u, Same v u ∧ Same w u := by
  obtain ⟨d, u, h1, h2, h3⟩ := C89_writes gm m S b₁ b₂ q v o h hreg ident sp hf hfr hs
  obtain ⟨d', u', h1', h2', h3'⟩ := C89_writes gm' m' S c₁ c₂ q w o' h' hreg' ident' sp hf' hfr' hs'
  rw [hd] at h1; cases h1
  rw [hd'] at h1'; cases h1'
  have hl : data.length < 2 ^ 31 := by
    obtain ⟨_, _, e⟩ := Res.bind_eq_ok.mp hd
    cases e
    simpa [Builder.usedSpace] using hs
  have k : Message generated S sp none q u data := by
    have := h3.relimit (p' := False) nofun
    exact ⟨this.size, nofun, this.root⟩
  have k' : Message generated S sp none q u' data := by
    have := h3'.relimit (p' := False) nofun
    exact ⟨this.size, nofun, this.root⟩
  have e := C88_unique gm S hS sp none q u u' data hl k k'
  subst e
  exact ⟨u, h2, h2'⟩

theorem finish_alike {m : Mode} {b c : Builder} (h : Alike b c) {o : Fin (2 ^ 32)} {ident : Option Bytes} {sp : Bool}
    {b₂ c₂ : Builder} (e : step m b (.finish o ident sp) = .ok (none, b₂)) (e' : step m c (.finish o ident sp) = .ok (none, c₂)) :
    b₂.finishedData m = c₂.finishedData m := by
  obtain ⟨-, a, k1, k2⟩ := step_agree h _ _ _ _ _ e e'
  have d1 := k1.unfinished
  have d2 := k2.unfinished
  unfold Builder.unfinishedData at d1 d2
  unfold Builder.finishedData
  rw [k1.finished, k2.finished, d1, d2]

/-- **C119, equal trees**: a tree written in the same way gives the same bytes, whatever the capacity of the builder. -/
theorem C119_same_way (gm m : Mode) (S : Tables) (q : Ir.QIdent) (v : Val) (n : Nat) (h : Conforms gm S (.table q) v n)
    (hn : n + 65576 ≤ 2 ^ 31 - 2 ^ 17) (cap cap' : Nat) (b₀ c₀ : Builder) (h₀ : Builder.newWithCapacity cap = .ok b₀)
    (h₀' : Builder.newWithCapacity cap' = .ok c₀) (ident : Option Bytes) (hid : ∀ i, ident = some i → i.length = 4) (sp : Bool) :
    ∃ (o : Fin (2 ^ 32)) (b₁ b₂ c₁ c₂ : Builder) (data : Bytes),
      writeVal gm m S n b₀ (.table q) v = .ok (o.val, b₁) ∧ step m b₁ (.finish o ident sp) = .ok (none, b₂) ∧
      writeVal gm m S n c₀ (.table q) v = .ok (o.val, c₁) ∧ step m c₁ (.finish o ident sp) = .ok (none, c₂) ∧
      b₂.finishedData m = .ok data ∧ c₂.finishedData m = .ok data := by
  obtain ⟨o, b₁, b₂, data, _, h1, h2, h3, -⟩ := C89_tree gm m S q v n h hn cap b₀ h₀ ident hid sp
  obtain ⟨o', c₁, c₂, data', _, h1', h2', h3', -⟩ := C89_tree gm m S q v n h hn cap' c₀ h₀' ident hid sp
  obtain ⟨ho, hA⟩ := writeVal_agree gm m S n b₀ c₀ ⟨_, new_R h₀, new_R h₀'⟩ _ v _ _ _ _ h1 h1'
  have ho : o = o' := Fin.ext ho
  subst ho
  have hd := finish_alike hA h2 h2'
  exact ⟨o, b₁, b₂, c₁, c₂, data, h1, h2, h1', h2', h3, by rw [← hd]; exact h3⟩

/-- **C119, equal trees**: the same for a builder that is used again after `finish` and `reset` (any history that keeps to
the nesting protocol), compared with a new one. -/
theorem C119_used_again (gm m : Mode) (S : Tables) (ty : Ir.Ty) (v : Val) (n cap cap' : Nat) (b₀ b c : Builder) (ops : List Op)
    (root : Fin (2 ^ 32)) (ident₀ : Option Bytes) (sp₀ : Bool) (rets : List (Option Nat))
    (h₀ : Builder.newWithCapacity cap = .ok b₀)
    (e : run m b₀ (ops ++ [.finish root ident₀ sp₀, .reset]) = .ok (rets, b)) (hp : Open.nothing.after ops = some .nothing)
    (h₀' : Builder.newWithCapacity cap' = .ok c) (o o' : Fin (2 ^ 32)) (b₁ b₂ c₁ c₂ : Builder) (ident : Option Bytes) (sp : Bool)
    (e1 : writeVal gm m S n b ty v = .ok (o.val, b₁)) (e2 : step m b₁ (.finish o ident sp) = .ok (none, b₂))
    (e1' : writeVal gm m S n c ty v = .ok (o'.val, c₁)) (e2' : step m c₁ (.finish o' ident sp) = .ok (none, c₂)) :
    o = o' ∧ b₂.finishedData m = c₂.finishedData m := by
  obtain ⟨a1, f1, k1⟩ := run_fwd _ (new_R h₀) e
  obtain ⟨r1, a2, r2, g1, g2, _⟩ := runA_append.mp f1
  have hfl : a2.fieldLocs = [] := after_fl (o := .nothing) g1 hp (fun _ => rfl) (by decide)
  simp only [runA] at g2
  obtain ⟨⟨r3, a3⟩, g3, g2⟩ := Res.bind_eq_ok.mp g2
  have hfl3 : a3.fieldLocs = [] := stepA_fl g3 rfl hfl
  simp only [stepA, Res.ok_bind, Res.pure_eq] at g2
  cases g2
  have : a3.reset = ABuilder.init := by
    unfold ABuilder.reset; rw [hfl3]; rfl
  rw [this] at k1
  obtain ⟨ho, hA⟩ := writeVal_agree gm m S n b c ⟨_, k1, new_R h₀'⟩ ty v _ _ _ _ e1 e1'
  have ho : o = o' := Fin.ext ho
  subst ho
  exact ⟨rfl, finish_alike hA e2 e2'⟩

/-! ### Concrete cases -/

/-- Two messages with the same tree: `fmtTree`, written to builders of capacity 0 and 1000. -/
example (gm : Mode) : ∃ b₀ c₀, Builder.newWithCapacity 0 = .ok b₀ ∧ Builder.newWithCapacity 1000 = .ok c₀ ∧
    Conforms gm fmtSchema (.table [c!"M"]) fmtTree 195 ∧ 195 + 65576 ≤ 2 ^ 31 - 2 ^ 17 ∧ Accepted gm fmtSchema :=
  ⟨_, _, rfl, rfl, fmtTree_conforms gm, by decide, fmt_accepted gm⟩

/-- Hypotheses of `C119_equal_bytes`: `fmtTree` is written to builders of two capacities, and the messages are the same. -/
example (gm m : Mode) : ∃ (b₁ b₂ c₁ c₂ : Builder) (o : Nat) (data : Bytes), Written gm m fmtSchema b₁ (.table [c!"M"]) fmtTree o ∧ Regular m b₁ ∧
    Written gm m fmtSchema c₁ (.table [c!"M"]) fmtTree o ∧ Regular m c₁ ∧ b₂.usedSpace < 2 ^ 31 ∧ c₂.usedSpace < 2 ^ 31 ∧
    b₂.finishedData m = .ok data ∧ c₂.finishedData m = .ok data := by
  have hid : ∀ i, (none : Option Bytes) = some i → i.length = 4 := nofun
  obtain ⟨b₀, h₀⟩ : ∃ b, Builder.newWithCapacity 0 = .ok b := ⟨_, rfl⟩
  obtain ⟨c₀, h₀'⟩ : ∃ b, Builder.newWithCapacity 1000 = .ok b := ⟨_, rfl⟩
  obtain ⟨o, b₁, b₂, h1, h2, h3, h4, -, h6⟩ := tree_written (m := m) (fmtTree_conforms gm) (by decide) h₀ hid (sp := false)
  obtain ⟨o', c₁, c₂, h1', h2', h3', h4', -, h6'⟩ := tree_written (m := m) (fmtTree_conforms gm) (by decide) h₀' hid (sp := false)
  obtain ⟨p, d₁, d₂, e₁, e₂, data, k1, k2, k3, k4, k5, k6⟩ :=
    C119_same_way gm m fmtSchema _ _ _ (fmtTree_conforms gm) (by decide) 0 1000 b₀ c₀ h₀ h₀' none hid false
  rw [h1] at k1
  injection k1 with k1
  injection k1 with ho hb
  rw [h1'] at k3
  injection k3 with k3
  injection k3 with ho' hc
  have ho : o = p := Fin.ext ho
  have ho' : o' = p := Fin.ext ho'
  subst hb; subst hc; subst ho; subst ho'
  rw [h4] at k2; cases k2
  rw [h4'] at k4; cases k4
  exact ⟨_, _, _, _, _, data, h2, h3, h2', h3', h6, h6', k5, k6⟩

/-- `sampleTable` is a history as in `C119_used_again`, and `fmtTree` can be written after it. -/
example (gm m : Mode) : ∃ b₀ r b o b₁, Builder.newWithCapacity 64 = .ok b₀ ∧
    run m b₀ (sampleTable ++ [.finish 20 none false, .reset]) = .ok (r, b) ∧ Open.nothing.after sampleTable = some .nothing ∧
    writeVal gm m fmtSchema 5 b (.table [c!"A"]) (.table [none, some (.vec [.str "x"])]) = .ok (o, b₁) := by
  cases m <;> cases gm <;> exact ⟨_, _, _, _, _, rfl, rfl, rfl, rfl⟩

/-! ### Equal trees, other ways to write them -/

/-- `table P { a: string; b: string; }` -/
def pairSchema : Tables := fun q => if q = [c!"P"] then some ⟨[c!"P"],
  [⟨c!"a", .string, none, false, []⟩, ⟨c!"b", .string, none, false, []⟩], false, []⟩ else none

/-- Its generated fields. -/
def pairFields : List GField := [⟨c!"a", 4, .ref .str, false⟩, ⟨c!"b", 6, .ref .str, false⟩]

example (gm : Mode) : (pairSchema [c!"P"]).bind (compileTable gm) = some pairFields := by cases gm <;> rfl

/-- Write `P { a: "x", b: "y" }`, the string for `a` first or last. -/
def pairRun (m : Mode) (first : Bool) : Res Bytes := do
  let b ← Builder.newWithCapacity 0
  let (s, b) ← offsetOf (step m b (.createString (if first then "x" else "y")))
  let (t, b) ← offsetOf (step m b (.createString (if first then "y" else "x")))
  let (o, b) ← create m b pairFields
    (some (Fin.ofNat (2 ^ 32) (if first then s else t)), some (Fin.ofNat (2 ^ 32) (if first then t else s)), ())
  let (_, b) ← step m b (.finish (Fin.ofNat _ o) none false)
  b.finishedData m

/-- What comes out. -/
def pairBytes (first : Bool) : Bytes := [12, 0, 0, 0, /- 4: vtable -/ 8, 0, 12, 0, 8, 0, 4, 0, /- 12: P -/ 8, 0, 0, 0] ++
  if first then [/- b -/ 8, 0, 0, 0, /- a -/ 12, 0, 0, 0, 1, 0, 0, 0, 121, 0, 0, 0, 1, 0, 0, 0, 120, 0, 0, 0]
  else [/- b -/ 16, 0, 0, 0, /- a -/ 4, 0, 0, 0, 1, 0, 0, 0, 120, 0, 0, 0, 1, 0, 0, 0, 121, 0, 0, 0]

/-- **C119**: "written in the same way" is needed: the same tree with its two strings written in the other order is a
message with other bytes that reads the same. -/
theorem C119_order_matters (gm m : Mode) : ∃ d d', pairRun m true = .ok d ∧ pairRun m false = .ok d' ∧ d ≠ d' ∧
    ∃ r r', Table.getRoot m d = .ok r ∧ Table.getRoot m d' = .ok r' ∧
      readVal gm m pairSchema 9 (.table [c!"P"]) (.fwdU .table) r = .ok (.table [some (.str "x"), some (.str "y")]) ∧
      readVal gm m pairSchema 9 (.table [c!"P"]) (.fwdU .table) r' = .ok (.table [some (.str "x"), some (.str "y")]) := by
  refine ⟨pairBytes true, pairBytes false, by cases m <;> decide +kernel, by cases m <;> decide +kernel, by decide,
    ⟨pairBytes true, 12⟩, ⟨pairBytes false, 12⟩, by cases m <;> decide +kernel, by cases m <;> decide +kernel, ?_, ?_⟩ <;>
  cases gm <;> cases m <;> rfl

end Butte
