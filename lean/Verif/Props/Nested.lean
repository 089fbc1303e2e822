import Verif.Props.Slice
import Verif.Props.Format
import Verif.Gen.Copy
/-
Property C121: messages inside messages.
-/
namespace Butte
open Gen Format

set_option maxRecDepth 8000

theorem mapAll_each {α β : Type} {f : α → Res β} : ∀ {l : List α} {ys : List β}, mapAll f l = .ok ys →
    ys.length = l.length ∧ ∀ (i : Nat) x y, l[i]? = some x → ys[i]? = some y → f x = .ok y
  | [], ys, h => by cases h; exact ⟨rfl, nofun⟩
  | x :: l, ys, h => by
    unfold mapAll at h
    obtain ⟨y, hy, h⟩ := Res.bind_eq_ok.mp h
    obtain ⟨zs, hz, h⟩ := Res.bind_eq_ok.mp h
    cases h
    obtain ⟨h1, h2⟩ := mapAll_each hz
    refine ⟨by simp [h1], fun i => ?_⟩
    cases i with
    | zero => intro a b ha hb; cases ha; cases hb; exact hy
    | succ i => exact h2 i

theorem get_vector_buf {m : Mode} {t : Table} {e : FTy} {slot : Nat} {v : Vec e}
    (h : t.get m (.fwdU (.vector e)) slot none = .ok (some v)) : v.buf = t.buf := by
  unfold Table.get at h
  obtain ⟨vt, _, h⟩ := Res.bind_eq_ok.mp h
  obtain ⟨vo, _, h⟩ := Res.bind_eq_ok.mp h
  cases vo with
  | none => cases h
  | some off =>
    simp only at h
    split at h
    · cases h
    · obtain ⟨l, _, h⟩ := Res.bind_eq_ok.mp h
      obtain ⟨x, hx, h⟩ := Res.bind_eq_ok.mp h
      cases h
      simp only [FTy.follow] at hx
      obtain ⟨_, _, hx⟩ := Res.bind_eq_ok.mp hx
      obtain ⟨_, _, hx⟩ := Res.bind_eq_ok.mp hx
      obtain ⟨_, _, hx⟩ := Res.bind_eq_ok.mp hx
      obtain ⟨_, _, hx⟩ := Res.bind_eq_ok.mp hx
      cases hx
      rfl

theorem follow_root_buf {m : Mode} {buf : Bytes} {loc : Nat} {root : Table} (h : FTy.follow m (.fwdU .table) buf loc = .ok root) :
    root.buf = buf := by
  simp only [FTy.follow] at h
  obtain ⟨_, _, h⟩ := Res.bind_eq_ok.mp h
  obtain ⟨_, _, h⟩ := Res.bind_eq_ok.mp h
  obtain ⟨_, _, h⟩ := Res.bind_eq_ok.mp h
  obtain ⟨_, _, h⟩ := Res.bind_eq_ok.mp h
  cases h
  rfl

theorem root_buf {m : Mode} {sp : Bool} {buf : Bytes} {root : Table}
    (h : (if sp then Table.getSizePrefixedRoot m buf else Table.getRoot m buf) = .ok root) : root.buf = buf := by
  cases sp with
  | false => exact follow_root_buf h
  | true =>
    simp only [if_true] at h
    unfold Table.getSizePrefixedRoot at h
    rw [FTy.follow.eq_def] at h
    obtain ⟨l, _, h⟩ := Res.bind_eq_ok.mp h
    exact follow_root_buf h

/-- The generated field of type `[ubyte]`. -/
def bytesField (name : Str) (slot : Fin 65536) (req : Bool) : GField := ⟨name, slot, .ref (.vector (.scalar .u8)), req⟩

/-- The bytes of a slice. -/
def sliceBytes (xs : List (SVal .u8)) : Bytes := xs.map fun x => UInt8.ofNat x.val

/-- Bytes as the value of a field of type `[ubyte]`. -/
def bytesVal (bs : Bytes) : Val := .vec (bs.map fun b => .bits b.toNat)

/-- What the accessor of a field of type `[ubyte]` returns if reading the whole table gives `bs` there. -/
theorem bytes_slice {gm m : Mode} {S : Tables} {n : Nat} {q : Ir.QIdent} {t : Ir.Table} {gs : List GField} {tb : Table}
    {ws : List (Option Val)} {i : Nat} {name : Str} {slot : Fin 65536} {req : Bool} {f : Ir.Field} {bs : Bytes}
    (h : readVal gm m S n (.table q) (.fwdU .table) tb = .ok (.table ws)) (hq : S q = some t)
    (hc : compileTable gm t = some gs) (hf : t.fields[i]? = some f) (hty : f.ty = .array (.builtin .ubyte))
    (hg : gs[i]? = some (bytesField name slot req)) (hw : ws[i]? = some (some (bytesVal bs))) (hv : tb.buf.Valid) :
    ∃ (v : Vec (.scalar .u8)) (xs : List (SVal .u8)),
      accessor m tb gs (bytesField name slot req) = .ok (some v) ∧ v.safeSlice m = .ok xs ∧ sliceBytes xs = bs := by
  cases n with
  | zero => cases h
  | succ n =>
    simp only [readVal, hq, hc] at h
    obtain ⟨ys, h1, h⟩ := Res.bind_eq_ok.mp h
    cases h
    have hi : i < gs.length := (List.getElem?_eq_some_iff.mp hg).1
    have h2 := (mapAll_each h1).2 i ⟨i, hi⟩ _ (by simp [hi]) hw
    simp only [hf] at h2
    have hgi : gs.get ⟨i, hi⟩ = bytesField name slot req := by
      have := (List.getElem?_eq_some_iff.mp hg).2
      simpa using this
    rw [hgi] at h2
    unfold readField at h2
    obtain ⟨r, hr, h2⟩ := Res.bind_eq_ok.mp h2
    cases r with
    | none => cases h2
    | some v =>
      obtain ⟨w, hw', h2⟩ := Res.bind_eq_ok.mp h2
      cases h2
      have hbuf : (v : Vec (.scalar .u8)).buf = tb.buf := by
        unfold accessor at hr
        obtain ⟨x, hx, hr⟩ := Res.bind_eq_ok.mp hr
        cases x with
        | none =>
          unfold okOr at hr
          simp only at hr
          split at hr <;> cases hr
        | some x =>
          cases hr
          exact get_vector_buf hx
      change readVal gm m S n f.ty (.fwdU (.vector (.scalar .u8))) v = .ok (bytesVal bs) at hw'
      rw [hty] at hw'
      cases n with
      | zero => cases hw'
      | succ n =>
        simp only [readVal] at hw'
        obtain ⟨len, hl, hw'⟩ := Res.bind_eq_ok.mp hw'
        obtain ⟨zs, hz, hw'⟩ := Res.bind_eq_ok.mp hw'
        cases hw'
        obtain ⟨hlen, hz⟩ := mapAll_each hz
        simp only [List.length_map, List.length_range] at hlen
        refine ⟨v, bs.map fun b => ⟨b.toNat, b.toNat_lt⟩, hr, ?_, ?_⟩
        · refine (C120_slice_get m .u8 v (by rw [hbuf]; exact hv) _).mpr ⟨by simpa [hlen] using hl, fun j hj => ?_⟩
          have hj : j < bs.length := by simpa using hj
          have := hz j j (.bits bs[j].toNat) (by simp [← hlen, hj]) (by simp [hj])
          obtain ⟨x, hx, this⟩ := Res.bind_eq_ok.mp this
          cases n with
          | zero => cases this
          | succ n =>
            simp only [readVal] at this
            injection this with this
            injection this with this
            rw [hx]
            congr 1
            apply Fin.ext
            simpa using this
        · unfold sliceBytes
          rw [List.map_map]
          exact (List.map_congr_left fun b _ => UInt8.ofNat_toNat).trans (List.map_id _)

theorem bytes_field {gm : Mode} {t : Ir.Table} {gs : List GField} (hc : compileTable gm t = some gs) {i : Nat} {f : Ir.Field}
    (hf : t.fields[i]? = some f) (hty : f.ty = .array (.builtin .ubyte)) :
    ∃ name slot req, gs[i]? = some (bytesField name slot req) := by
  have hspec := List.forall₂_iff_get.mp (compileFields_spec (compileTable_fields hc))
  have hi : i < gs.length := by rw [← hspec.1]; exact (List.getElem?_eq_some_iff.mp hf).1
  obtain ⟨f', hf', hk⟩ := compiled_at hc hi
  rw [hf] at hf'
  cases hf'
  rw [hty] at hk
  rw [List.getElem?_eq_getElem hi]
  generalize gs[i] = g at hk
  obtain ⟨n, s, k, r⟩ := g
  cases hd : f.default with
  | none => rw [hd] at hk; cases hk; exact ⟨n, s, r, rfl⟩
  | some d => rw [hd] at hk; cases hk

/-- The bytes `inner` can be taken out of field `i` of the root of `outer`, and `v` is what is read from them. -/
def Nested (gm' m : Mode) (S' : Tables) (sp sp' : Bool) (q' : Ir.QIdent) (v : Val) (inner outer : Bytes) (gs : List GField)
    (i : Nat) : Prop :=
  ∃ (name : Str) (slot : Fin 65536) (req : Bool) (root root' : Table) (vec : Vec (.scalar .u8)) (xs : List (SVal .u8)),
    gs[i]? = some (bytesField name slot req) ∧
    (if sp then Table.getSizePrefixedRoot m outer else Table.getRoot m outer) = .ok root ∧
    accessor m root gs (bytesField name slot req) = .ok (some vec) ∧ vec.safeSlice m = .ok xs ∧ sliceBytes xs = inner ∧
    (if sp' then Table.getSizePrefixedRoot m (sliceBytes xs) else Table.getRoot m (sliceBytes xs)) = .ok root' ∧
    ∃ N, ∀ n, N ≤ n → readVal gm' m S' n (.table q') (.fwdU .table) root' = .ok v

/-- **C121**: a message that is stored in a field of type `[ubyte]` of another message, whoever wrote the two and by whatever
schemas: the accessor and `safe_slice` give its bytes, and its value is read from them. -/
theorem C121_nested (gm gm' m : Mode) (S S' : Tables) (hS : Accepted gm S) (hS' : Accepted gm' S') (sp sp' : Bool)
    (ident ident' : Option Bytes) (q q' : Ir.QIdent) (v : Val) (inner outer : Bytes) (hl : outer.length < 2 ^ 31)
    (hi : inner.length < 2 ^ 31) (h : Message generated S' sp' ident' q' v inner) (ws : List (Option Val))
    (h' : Message generated S sp ident q (.table ws) outer) (t : Ir.Table) (gs : List GField) (hq : S q = some t)
    (hc : compileTable gm t = some gs) (i : Nat) (f : Ir.Field) (hf : t.fields[i]? = some f)
    (hty : f.ty = .array (.builtin .ubyte)) (hw : ws[i]? = some (some (bytesVal inner))) :
    Nested gm' m S' sp sp' q' v inner outer gs i := by
  obtain ⟨name, slot, req, hg⟩ := bytes_field hc hf hty
  obtain ⟨root, h1, N, h2⟩ := C88_reads gm m S hS sp ident q _ outer hl h'
  obtain ⟨root', h3, N', h4⟩ := C88_reads gm' m S' hS' sp' ident' q' v inner hi h
  have hv : root.buf.Valid := by
    rw [root_buf h1]
    unfold Bytes.Valid
    have : isizeMax = 2 ^ 63 - 1 := rfl
    omega
  obtain ⟨vec, xs, k1, k2, k3⟩ := bytes_slice (h2 N (Nat.le_refl _)) hq hc hf hty hg hw hv
  exact ⟨name, slot, req, root, root', vec, xs, hg, h1, k1, k2, k3, by rw [k3]; exact h3, N', h4⟩

theorem same_bytes {bs : Bytes} {w : Val} (h : Same (bytesVal bs) w) : w = bytesVal bs := by
  unfold bytesVal at h ⊢
  cases h with
  | @vec _ ys hl hs =>
    congr 1
    refine List.ext_getElem hl.symm fun i h1 h2 => ?_
    have := hs i h2
    generalize ys[i] = y at this
    simp only [List.getElem_map] at this ⊢
    cases this
    rfl

theorem finished_small {m : Mode} {b : Builder} {d : Bytes} (hd : b.finishedData m = .ok d) (hs : b.usedSpace < 2 ^ 31) :
    d.length < 2 ^ 31 := by
  obtain ⟨_, _, e⟩ := Res.bind_eq_ok.mp hd
  cases e
  simpa [Builder.usedSpace] using hs

/-- **C121, passed on**: a message from anywhere, stored as bytes in a tree that is written and finished by any calls. -/
theorem C121_passed_on (gm gm' m : Mode) (S S' : Tables) (hS : Accepted gm S) (hS' : Accepted gm' S') (sp sp' : Bool)
    (ident ident' : Option Bytes) (q q' : Ir.QIdent) (v : Val) (inner : Bytes) (hi : inner.length < 2 ^ 31)
    (h : Message generated S' sp' ident' q' v inner)
    (t : Ir.Table) (gs : List GField) (hq : S q = some t) (hc : compileTable gm t = some gs) (i : Nat) (f : Ir.Field)
    (hf : t.fields[i]? = some f) (hty : f.ty = .array (.builtin .ubyte)) (ws : List (Option Val))
    (hw : ws[i]? = some (some (bytesVal inner)))
    (b₁ b₂ : Builder) (o : Fin (2 ^ 32)) (h' : Written gm m S b₁ (.table q) (.table ws) o.val) (hreg : Regular m b₁)
    (hfin : Finishes m b₁ [] o ident sp b₂) (hfr : m = .release → b₁.finished = false) (hs : b₂.usedSpace < 2 ^ 31)
    (r : Mode) : ∃ outer, b₂.finishedData m = .ok outer ∧ Nested gm' r S' sp sp' q' v inner outer gs i := by
  obtain ⟨outer, w, k1, k2, k3⟩ := C89_writes gm m S b₁ b₂ q _ o h' hreg ident sp hfin hfr hs
  have k3 : Message generated S sp ident q w outer := k3.relimit (p' := False) nofun
  cases k2 with
  | @table _ ys hl hsf =>
    obtain ⟨hi', hwi⟩ := List.getElem?_eq_some_iff.mp hw
    have := hsf i hi'
    rw [hwi] at this
    have hy : ys[i]? = some (some (bytesVal inner)) := by
      rw [List.getElem?_eq_getElem (hl ▸ hi')]
      generalize ys[i] = y at this
      cases this with
      | some h => rw [same_bytes h]
    exact ⟨outer, k1, C121_nested gm gm' r S S' hS hS' sp sp' ident ident' q q' v inner outer (finished_small k1 hs) hi
      h ys k3 t gs hq hc i f hf hty hy⟩

/-- **C121, written here**: any tree, written and finished by any calls, then stored as bytes in a tree that is written and
finished by any calls on another builder, comes out again (up to the sign of floating-point zeros). -/
theorem C121_written (gm gm' m m' : Mode) (S S' : Tables) (hS : Accepted gm S) (hS' : Accepted gm' S') (sp sp' : Bool)
    (ident ident' : Option Bytes) (q q' : Ir.QIdent)
    (c₁ c₂ : Builder) (v : Val) (o' : Fin (2 ^ 32)) (h : Written gm' m' S' c₁ (.table q') v o'.val) (hreg' : Regular m' c₁)
    (hf' : Finishes m' c₁ [] o' ident' sp' c₂) (hfr' : m' = .release → c₁.finished = false) (hs' : c₂.usedSpace < 2 ^ 31)
    (inner : Bytes) (hd : c₂.finishedData m' = .ok inner)
    (t : Ir.Table) (gs : List GField) (hq : S q = some t) (hc : compileTable gm t = some gs) (i : Nat) (f : Ir.Field)
    (hf : t.fields[i]? = some f) (hty : f.ty = .array (.builtin .ubyte)) (ws : List (Option Val))
    (hw : ws[i]? = some (some (bytesVal inner)))
    (b₁ b₂ : Builder) (o : Fin (2 ^ 32)) (h' : Written gm m S b₁ (.table q) (.table ws) o.val) (hreg : Regular m b₁)
    (hfin : Finishes m b₁ [] o ident sp b₂) (hfr : m = .release → b₁.finished = false) (hs : b₂.usedSpace < 2 ^ 31)
    (r : Mode) :
    ∃ outer v', b₂.finishedData m = .ok outer ∧ Same v v' ∧ Nested gm' r S' sp sp' q' v' inner outer gs i := by
  obtain ⟨d, v', h1, h2, h3⟩ := C89_writes gm' m' S' c₁ c₂ q' v o' h hreg' ident' sp' hf' hfr' hs'
  rw [hd] at h1
  cases h1
  obtain ⟨outer, k1, k2⟩ := C121_passed_on gm gm' m S S' hS hS' sp sp' ident ident' q q' v' inner (finished_small hd hs')
    (h3.relimit (p' := False) nofun) t gs hq hc i f hf hty ws hw b₁ b₂ o h' hreg hfin hfr hs r
  exact ⟨outer, v', k1, h2, k2⟩

/-! ### A concrete case -/

/-- `table Envelope { id: int; body: [ubyte]; }` -/
def envTable : Ir.Table := ⟨[c!"Envelope"],
  [⟨c!"id", .builtin .int, none, false, []⟩, ⟨c!"body", .array (.builtin .ubyte), none, true, []⟩], false, []⟩

def envSchema : Tables := fun q => if q = [c!"Envelope"] then some envTable else none

def envGen : List GField := [⟨c!"id", 4, .scalar .i32 none, false⟩, bytesField c!"body" 6 true]

theorem env_compiles (gm : Mode) : compileTable gm envTable = some envGen := by cases gm <;> rfl

theorem env_accepted (gm : Mode) : Accepted gm envSchema := by
  intro q t h
  unfold envSchema at h
  split at h
  · cases h; exact ⟨⟨_, env_compiles gm⟩, by decide⟩
  · cases h

theorem bytes_conforms (gm : Mode) (S : Tables) (bs : Bytes) :
    Conforms gm S (.array (.builtin .ubyte)) (bytesVal bs) (bs.length + 16) := by
  have h := Conforms.scalars (gm := gm) (S := S) .ubyte (bs.map fun b => ⟨b.toNat, b.toNat_lt⟩)
  have e : (bs.map fun b => (⟨b.toNat, b.toNat_lt⟩ : Fin 256)).map (fun x => Val.bits x.val) = bs.map fun b => Val.bits b.toNat := by
    rw [List.map_map]; rfl
  have e' : (bs.map fun b => (⟨b.toNat, b.toNat_lt⟩ : Fin 256)).length * (builtinSTy .ubyte).size + 16 = bs.length + 16 := by
    rw [List.length_map]; exact congrArg (· + 16) (Nat.mul_one _)
  unfold bytesVal
  rw [← e, ← e']
  exact h

theorem env_conforms (gm : Mode) (bs : Bytes) : Conforms gm envSchema (.table [c!"Envelope"])
    (.table [some (.bits 7), some (bytesVal bs)]) (([0, bs.length + 16] : List Nat).sum + roomFor envGen + 2 * envGen.length + 16) := by
  refine .table (t := envTable) (gs := envGen) rfl (env_compiles gm) (by decide) (by decide) rfl rfl ?_ ?_
  · intro i x hx
    obtain ⟨i, hi⟩ := i
    rcases i with _ | _ | i
    · cases hx; exact ⟨by decide, nofun⟩
    · cases hx; trivial
    · cases hx
  · intro i f x n ty v hf hx hn hb
    rcases i with _ | _ | i
    · cases hf; cases hx; cases hb
    · cases hf; cases hx; cases hn; cases hb; exact bytes_conforms gm _ bs
    · cases hf

/-- The message `fmtBytes`, which no builder of ours made, in an envelope that is written by one of ours. -/
example (gm m r : Mode) : ∃ outer, Nested gm r fmtSchema true false [c!"M"] (fmtVal none) fmtBytes outer envGen 1 := by
  obtain ⟨b₀, h₀⟩ : ∃ b, Builder.newWithCapacity 0 = .ok b := ⟨_, rfl⟩
  obtain ⟨o, b₁, b₂, h1, h2, h3, h4, h5, h6⟩ := tree_written (m := m) (env_conforms gm fmtBytes) (by decide) h₀
    (ident := none) nofun (sp := true)
  obtain ⟨outer, -, h⟩ := C121_passed_on gm gm m envSchema fmtSchema (env_accepted gm) (fmt_accepted gm) true false none _ _ _ _
    fmtBytes (by decide) (fmt_message generated rfl rfl rfl) envTable envGen rfl (env_compiles gm) 1 _ rfl rfl _ rfl b₁ b₂ o h2 h3
    ⟨⟨b₁, [], rfl, h4⟩, nofun, nofun⟩ (fun _ => h5) h6 r
  exact ⟨outer, h⟩

/-- The hypotheses of `C121_written` about the inner message are met by `fmtTree`; those about the outer one are met above. -/
example (gm m : Mode) : ∃ (c₁ c₂ : Builder) (o : Nat) (inner : Bytes), Written gm m fmtSchema c₁ (.table [c!"M"]) fmtTree o ∧ Regular m c₁ ∧
    c₁.finished = false ∧ c₂.usedSpace < 2 ^ 31 ∧ c₂.finishedData m = .ok inner := by
  obtain ⟨b₀, h₀⟩ : ∃ b, Builder.newWithCapacity 0 = .ok b := ⟨_, rfl⟩
  obtain ⟨o, b₁, b₂, h1, h2, h3, h4, h5, h6⟩ := tree_written (m := m) (fmtTree_conforms gm) (by decide) h₀
    (ident := none) nofun (sp := false)
  obtain ⟨d, _, h7, -⟩ := C89_writes gm m fmtSchema b₁ b₂ _ _ o h2 h3 none false ⟨⟨b₁, [], rfl, h4⟩, nofun, nofun⟩ (fun _ => h5) h6
  exact ⟨b₁, b₂, o.val, d, h2, h3, h5, h6, h7⟩

end Butte
