import Verif.Gen.FormatView
import Verif.Gen.FormatWrite
import Verif.Props.Tree
/-
Properties C88 and C89: the FlatBuffers binary format (Verif/Gen/Format.lean says what it is).
-/
namespace Butte
open Gen Format

set_option maxRecDepth 8000

/-! ### C88 -/

/-- The generator makes code for all tables of the schema. -/
def Accepted (gm : Mode) (S : Tables) : Prop :=
  ∀ q t, S q = some t → (∃ gs, compileTable gm t = some gs) ∧ t.fields.length ≤ 32765

theorem message_reads {gm m : Mode} {D : Dialect} {S : Tables} (hS : Readable D gm S) {sp : Bool} {ident : Option Bytes}
    {q : Ir.QIdent} {v : Val} {buf : Bytes} (hl : buf.length < 2 ^ 31) (h : Message D S sp ident q v buf) :
    ∃ root, (if sp then Table.getSizePrefixedRoot m buf else Table.getRoot m buf) = .ok root ∧
      ∃ N, ∀ n, N ≤ n → readVal gm m S n (.table q) (.fwdU .table) root = .ok v := by
  obtain ⟨o, ho, hr⟩ := h.root
  obtain ⟨x, h1, h2⟩ := hr.reads (m := m) hS hl (.table q) .table rfl
  refine ⟨x, ?_, h2⟩
  cases sp with
  | false =>
    simp only [Bool.false_eq_true, if_false] at ho h1 ⊢
    unfold Table.getRoot
    rw [ho.follow hl]; exact h1
  | true =>
    simp only [if_true] at ho h1 ⊢
    unfold Table.getSizePrefixedRoot
    show (do let l ← addU m 0 4; FTy.follow m (.fwdU .table) buf l) = _
    rw [addU_ok (by omega)]
    show FTy.follow m (.fwdU .table) buf (0 + 4) = _
    rw [Nat.zero_add, ho.follow hl]; exact h1

theorem readable_generated {gm : Mode} {S : Tables} (hS : Accepted gm S) : Readable generated gm S where
  compiles := hS
  numbers _ _ _ f _ := SameNumbers.refl f.ty
  absent _ _ _ _ _ := rfl

/-- **C88** from any message in the FlatBuffers format, whoever wrote it, the generated code reads exactly the value
that it holds: the root is found where `get_root` (or `get_size_prefixed_root`) looks for it, all accessors succeed, and
what they return, to any depth, is that value. Here numbers and defaults are understood as the generated code does. -/
theorem C88_reads (gm m : Mode) (S : Tables) (hS : Accepted gm S) (sp : Bool) (ident : Option Bytes) (q : Ir.QIdent)
    (v : Val) (buf : Bytes) (hl : buf.length < 2 ^ 31) (h : Message generated S sp ident q v buf) :
    ∃ root, (if sp then Table.getSizePrefixedRoot m buf else Table.getRoot m buf) = .ok root ∧
      ∃ N, ∀ n, N ≤ n → readVal gm m S n (.table q) (.fwdU .table) root = .ok v := by
  exact message_reads (readable_generated hS) hl h

/-- **C88** the file identifier of a message is recognized, and no other. -/
theorem C88_identifier (m : Mode) (D : Dialect) (S : Tables) (sp : Bool) (id j : Bytes) (q : Ir.QIdent) (v : Val)
    (buf : Bytes) (h : Message D S sp (some id) q v buf) (hj : j.length = 4) :
    bufferHasIdentifier m buf j sp = .ok (decide (j = id)) := by
  obtain ⟨h4, hb⟩ := h.ident id rfl
  have hin := hb.inside
  have hs : sliceGet buf (if sp then 8 else 4) ((if sp then 8 else 4) + 4) = .ok id := by
    unfold sliceGet
    rw [if_pos (by omega)]
    obtain ⟨pre, post, e1, e2⟩ := hb
    rw [e1, List.drop_left' e2, Nat.add_sub_cancel_left, List.take_left' h4]
  unfold bufferHasIdentifier
  rw [hj]
  simp only [assert, beq_self_eq_true, if_true, Res.ok_bind]
  have hd : (j == id) = decide (j = id) := by rw [Bool.eq_iff_iff]; simp
  cases sp with
  | false =>
    simp only [Bool.false_eq_true, if_false] at hs ⊢
    have e : (do let l ← addU m 0 4; let e ← addU m l 4; sliceGet buf l e) = .ok id := by
      rw [addU_ok (by omega)]
      simp only [Res.ok_bind]
      rw [addU_ok (by omega)]
      exact hs
    show (do let got ← (do let l ← addU m 0 4; let e ← addU m l 4; sliceGet buf l e); return j == got) = _
    rw [e, ← hd]; rfl
  | true =>
    simp only [if_true] at hs ⊢
    have e : (do let l ← addU m 0 4; let l ← addU m l 4; let e ← addU m l 4; sliceGet buf l e) = .ok id := by
      rw [addU_ok (by omega)]
      simp only [Res.ok_bind]
      rw [addU_ok (by omega)]
      simp only [Res.ok_bind]
      rw [addU_ok (by omega)]
      exact hs
    show (do let got ← (do let l ← addU m 0 4; let l ← addU m l 4; let e ← addU m l 4; sliceGet buf l e); return j == got) = _
    rw [e, ← hd]; rfl

/-- **C88** a message holds one value only. -/
theorem C88_unique (gm : Mode) (S : Tables) (hS : Accepted gm S) (sp : Bool) (ident : Option Bytes) (q : Ir.QIdent)
    (v w : Val) (buf : Bytes) (hl : buf.length < 2 ^ 31) (h : Message generated S sp ident q v buf)
    (h' : Message generated S sp ident q w buf) : v = w := by
  obtain ⟨r, h1, N, h2⟩ := C88_reads gm .debug S hS sp ident q v buf hl h
  obtain ⟨r', h1', N', h2'⟩ := C88_reads gm .debug S hS sp ident q w buf hl h'
  rw [h1] at h1'
  cases h1'
  have e := h2 (max N N') (by omega)
  rw [h2' (max N N') (by omega)] at e
  cases e; rfl

/-- **C88, with FlatBuffers' own understanding of numbers and defaults** (full statement: the value read is the value
`v` that the message holds; missing: a scalar or enum field that has no default in the schema and is not stored reads as
nothing instead of 0, see `C88_refuted`; enums in which a variant without number follows one whose number is not its
position, see C40). -/
theorem C88_flatbuffers_partial (gm m : Mode) (S : Tables) (hS : Accepted gm S) (hn : Numbered flatbuffers S)
    (hr : RequiredOffsets S) (ht : TagsBeginWithNone S) (sp : Bool) (ident : Option Bytes) (q : Ir.QIdent) (v : Val)
    (buf : Bytes) (hl : buf.length < 2 ^ 31) (h : Message flatbuffers S sp ident q v buf) :
    ∃ root w, (if sp then Table.getSizePrefixedRoot m buf else Table.getRoot m buf) = .ok root ∧ View S (.table q) v w ∧
      ∃ N, ∀ n, N ≤ n → readVal gm m S n (.table q) (.fwdU .table) root = .ok w := by
  obtain ⟨o, ho, hroot⟩ := h.root
  obtain ⟨w, hw, hw'⟩ := hroot.view hn hr ht (.table q)
  obtain ⟨root, h1, h2⟩ := C88_reads gm m S hS sp ident q w buf hl ⟨h.size, h.ident, o, ho, hw'⟩
  exact ⟨root, w, h1, hw, h2⟩

/-- **C88** if all scalar and enum fields have defaults, the value read is the value that FlatBuffers says the message
holds. -/
theorem C88_defaulted (gm m : Mode) (S : Tables) (hS : Accepted gm S) (hn : Numbered flatbuffers S) (hd : Defaulted S)
    (sp : Bool) (ident : Option Bytes) (q : Ir.QIdent) (v : Val)
    (buf : Bytes) (hl : buf.length < 2 ^ 31) (h : Message flatbuffers S sp ident q v buf) :
    ∃ root, (if sp then Table.getSizePrefixedRoot m buf else Table.getRoot m buf) = .ok root ∧
      ∃ N, ∀ n, N ≤ n → readVal gm m S n (.table q) (.fwdU .table) root = .ok v := by
  refine message_reads ⟨hS, hn, ?_⟩ hl h
  intro q t hq f hf
  have := hd q t hq f hf
  obtain ⟨id, ty, d, r, doc⟩ := f
  cases ty <;> first | rfl | skip
  · cases d with
    | none => exact absurd rfl (this trivial)
    | some d => cases d <;> rfl
  · cases d with
    | none => exact absurd rfl (this trivial)
    | some d => cases d <;> rfl

/-! ### C89 -/

theorem message_written {gm m : Mode} {D : Dialect} {S : Tables} (hD : Numbered D S) (hA : SameDefaults D S)
    {b₁ b₂ : Builder} {q : Ir.QIdent} {v : Val} {o : Fin (2 ^ 32)} {ident : Option Bytes} {sp : Bool}
    (h : Written gm m S b₁ (.table q) v o.val) (hev : ∀ r ∈ b₁.vtables, r % 2 = 0) (hf : Finishes m b₁ [] o ident sp b₂)
    (hfr : m = .release → b₁.finished = false) (hs : b₂.usedSpace < 2 ^ 31) :
    ∃ data v', b₂.finishedData m = .ok data ∧ Same v v' ∧ Message D S sp ident q v' data := by
  obtain ⟨b', rets, e1, e2⟩ := hf.calls
  cases e1
  obtain ⟨v', h1, h2⟩ := finished_message hD hA h e2 hf.ident4 hs hfr hev
  refine ⟨_, v', (C18_root m b₁ b₂ [] o ident sp h.reachable hf ?_ hs).1, h1, h2⟩
  obtain ⟨q1, -⟩ := written_holds (D := D) hD hA h (.table q) _
    (closes_finish h.reachable (rest := []) rfl nofun e2 hf.ident4 hs hfr hev)
  exact q1

/-- **C89** whatever was written, bottom up, by calls of the builder and of the generated `create` functions, in any
order and with any sharing, makes with `finish` a message in the FlatBuffers format: all of it is aligned, all offsets,
vtables, sizes and terminators are as the format says, and the message holds the value that was written (scalar fields
up to the sign of a floating-point zero, see C20). No table stores anything beyond the fields of the schema, so the
message can also be read with later versions of it (C91). Here numbers and defaults are understood as the generated code
does. -/
theorem C89_writes (gm m : Mode) (S : Tables) (b₁ b₂ : Builder) (q : Ir.QIdent) (v : Val) (o : Fin (2 ^ 32))
    (h : Written gm m S b₁ (.table q) v o.val) (hreg : Regular m b₁) (ident : Option Bytes) (sp : Bool)
    (hf : Finishes m b₁ [] o ident sp b₂) (hfr : m = .release → b₁.finished = false) (hs : b₂.usedSpace < 2 ^ 31) :
    ∃ data v', b₂.finishedData m = .ok data ∧ Same v v' ∧ Message (generated.limit True) S sp ident q v' data :=
  message_written (fun _ _ _ f _ => (SameNumbers.refl f.ty).limit True) (fun _ _ _ _ _ _ => rfl) h hreg.even hf hfr hs

/-- **C89, with FlatBuffers' own understanding of numbers and defaults** (full statement: without `hn`; missing: enums
in which a variant without number follows one whose number is not its position, see C40 and `C89_refuted`). Unlike for
reading, defaults make no difference: what equals its default by FlatBuffers' rules and by the generated code is left
out, and everything else is stored. -/
theorem C89_flatbuffers_partial (gm m : Mode) (S : Tables) (hn : Numbered flatbuffers S) (b₁ b₂ : Builder) (q : Ir.QIdent)
    (v : Val) (o : Fin (2 ^ 32)) (h : Written gm m S b₁ (.table q) v o.val) (hreg : Regular m b₁) (ident : Option Bytes)
    (sp : Bool) (hf : Finishes m b₁ [] o ident sp b₂) (hfr : m = .release → b₁.finished = false)
    (hs : b₂.usedSpace < 2 ^ 31) :
    ∃ data v', b₂.finishedData m = .ok data ∧ Same v v' ∧ Message (flatbuffers.limit True) S sp ident q v' data :=
  message_written (fun q t hq f hf => (hn q t hq f hf).limit True) (sameDefaults_flatbuffers S) h hreg.even hf hfr hs

theorem tree_written {gm m : Mode} {S : Tables} {q : Ir.QIdent}
    {v : Val} {n : Nat} (h : Conforms gm S (.table q) v n) (hn : n + 65576 ≤ 2 ^ 31 - 2 ^ 17) {cap : Nat} {b₀ : Builder}
    (h₀ : Builder.newWithCapacity cap = .ok b₀) {ident : Option Bytes} (hid : ∀ i, ident = some i → i.length = 4)
    {sp : Bool} : ∃ (o : Fin (2 ^ 32)) (b₁ b₂ : Builder),
      writeVal gm m S n b₀ (.table q) v = .ok (o.val, b₁) ∧ Written gm m S b₁ (.table q) v o.val ∧ Regular m b₁ ∧
      step m b₁ (.finish o ident sp) = .ok (none, b₂) ∧ b₁.finished = false ∧ b₂.usedSpace < 2 ^ 31 := by
  have hr : Ready m b₀ .start :=
    ⟨⟨_, new_R h₀, Tracks.start m⟩, ⟨cap, b₀, [], [], h₀, rfl, [], [], rfl, .inl rfl, nofun⟩, rfl⟩
  have hu : b₀.usedSpace = 0 := by rw [(new_R h₀).used]; rfl
  obtain ⟨o', b₁', c, e', hm, -, -⟩ := h.canWrite n (Nat.le_refl _) b₀ .start hr (by omega)
  obtain ⟨o, b₁, b₂, data, root, v', e, hw, e₂, hs, k1, -⟩ := C65_write_read gm m S q v n h hn cap b₀ h₀ ident hid sp
  rw [e] at e'
  cases e'
  obtain ⟨a, hR, ht⟩ := hm.ready.track
  exact ⟨o, _, b₂, e, hw, hm.regular h₀, e₂, by rw [hR.finished, ht.finished, hm.finished]; rfl, hs⟩

/-- **C89** every tree that conforms to the schema and for which there is room, written with the generated code to a new
builder, makes a message in the FlatBuffers format that holds it. -/
theorem C89_tree (gm m : Mode) (S : Tables) (q : Ir.QIdent) (v : Val) (n : Nat)
    (h : Conforms gm S (.table q) v n) (hn : n + 65576 ≤ 2 ^ 31 - 2 ^ 17) (cap : Nat) (b₀ : Builder)
    (h₀ : Builder.newWithCapacity cap = .ok b₀) (ident : Option Bytes) (hid : ∀ i, ident = some i → i.length = 4)
    (sp : Bool) : ∃ (o : Fin (2 ^ 32)) (b₁ b₂ : Builder) (data : Bytes) (v' : Val),
      writeVal gm m S n b₀ (.table q) v = .ok (o.val, b₁) ∧ step m b₁ (.finish o ident sp) = .ok (none, b₂) ∧
      b₂.finishedData m = .ok data ∧ Same v v' ∧ Message (generated.limit True) S sp ident q v' data := by
  obtain ⟨o, b₁, b₂, h1, h2, h3, h4, h5, h6⟩ := tree_written (m := m) h hn h₀ hid (sp := sp)
  obtain ⟨data, v', h7⟩ := C89_writes gm m S b₁ b₂ q v o h2 h3 ident sp ⟨⟨b₁, [], rfl, h4⟩, nofun, hid⟩ (fun _ => h5) h6
  exact ⟨o, b₁, b₂, data, v', h1, h4, h7⟩

/-- **C89** the same by FlatBuffers' own rules (`hn`: see `C89_flatbuffers_partial`). -/
theorem C89_tree_flatbuffers_partial (gm m : Mode) (S : Tables) (hN : Numbered flatbuffers S) (q : Ir.QIdent) (v : Val)
    (n : Nat) (h : Conforms gm S (.table q) v n) (hn : n + 65576 ≤ 2 ^ 31 - 2 ^ 17) (cap : Nat) (b₀ : Builder)
    (h₀ : Builder.newWithCapacity cap = .ok b₀) (ident : Option Bytes) (hid : ∀ i, ident = some i → i.length = 4)
    (sp : Bool) : ∃ (o : Fin (2 ^ 32)) (b₁ b₂ : Builder) (data : Bytes) (v' : Val),
      writeVal gm m S n b₀ (.table q) v = .ok (o.val, b₁) ∧ step m b₁ (.finish o ident sp) = .ok (none, b₂) ∧
      b₂.finishedData m = .ok data ∧ Same v v' ∧ Message (flatbuffers.limit True) S sp ident q v' data := by
  obtain ⟨o, b₁, b₂, h1, h2, h3, h4, h5, h6⟩ := tree_written (m := m) h hn h₀ hid (sp := sp)
  obtain ⟨data, v', h7⟩ := C89_flatbuffers_partial gm m S hN b₁ b₂ q v o h2 h3 ident sp ⟨⟨b₁, [], rfl, h4⟩, nofun, hid⟩
    (fun _ => h5) h6
  exact ⟨o, b₁, b₂, data, v', h1, h4, h7⟩

/-! ### Concrete cases -/

/-- `enum Color: byte { Red, Green = 4, Blue = 2 }` -/
def fmtColor : List Ir.EnumVariant := [⟨c!"Red", none, []⟩, ⟨c!"Green", some 4, []⟩, ⟨c!"Blue", some 2, []⟩]

/-- `table M { hp: short = 100; color: Color = Green; name: string (required); mana: int; pick: U; }`, `union U { A }` -/
def fmtTable : Ir.Table := ⟨[c!"M"],
  [⟨c!"hp", .builtin .short, some (.scalar (.integer 100)), false, []⟩,
   ⟨c!"color", .enum [c!"Color"] fmtColor .byte, some (.ident c!"Green"), false, []⟩,
   ⟨c!"name", .string, none, true, []⟩,
   ⟨c!"mana", .builtin .int, none, false, []⟩,
   ⟨c!"pick_type", .enum [c!"butte_gen", c!"UType"] [⟨c!"None", some 0, []⟩, ⟨c!"A", none, []⟩] .ubyte, none, false, []⟩,
   ⟨c!"pick", .union [c!"U"] [c!"butte_gen", c!"UType"] [⟨c!"A", .table [c!"A"], []⟩], none, false, []⟩], false, []⟩

/-- `table A { ids: [int]; tags: [string]; }` -/
def fmtLeaf : Ir.Table := ⟨[c!"A"],
  [⟨c!"ids", .array (.builtin .int), none, false, []⟩, ⟨c!"tags", .array .string, none, true, []⟩], false, []⟩

def fmtSchema : Tables := fun q => if q = [c!"M"] then some fmtTable else if q = [c!"A"] then some fmtLeaf else none

/-- A message that no `FlatBufferBuilder` makes: the vtables come after their tables, the fields stand in the order of
the schema, what is pointed to comes last. -/
def fmtBytes : Bytes :=
  [8, 0, 0, 0, 65, 66, 67, 68, /- 8: M -/ 0xf0, 0xff, 0xff, 0xff, 7, 0, 1, 0, 24, 0, 0, 0, 28, 0, 0, 0,
   /- 24: vtable of M -/ 16, 0, 16, 0, 4, 0, 0, 0, 8, 0, 0, 0, 6, 0, 12, 0, /- 40: "hi" -/ 2, 0, 0, 0, 104, 105, 0, 0,
   /- 48: A -/ 0xf8, 0xff, 0xff, 0xff, 12, 0, 0, 0, /- 56: vtable of A -/ 8, 0, 8, 0, 0, 0, 4, 0,
   /- 64: tags -/ 1, 0, 0, 0, 4, 0, 0, 0, /- 72: "" -/ 0, 0, 0, 0, 0, 0, 0, 0]

/-- `M { hp: 7, name: "hi", pick: A { tags: [""] } }`; only the colour has a default. -/
def fmtVal (mana : Option Val) : Val := .table [some (.bits 7), some (.variant 1), some (.str "hi"), mana,
  some (.variant 1), some (.union 0 (.table [none, some (.vec [.str ""])]))]

theorem bytesAt_lit {buf : Bytes} {p : Nat} {bs : Bytes} (h : (buf.drop p).take bs.length = bs ∧ p ≤ buf.length) :
    BytesAt buf p bs := by
  refine ⟨buf.take p, (buf.drop p).drop bs.length, ?_, by simp [h.2]⟩
  conv_lhs => rw [← List.take_append_drop p buf, ← List.take_append_drop bs.length (buf.drop p), h.1]

theorem numAt_lit {buf : Bytes} {p n v : Nat}
    (h : ((buf.drop p).take n).length = n ∧ littleEndian ((buf.drop p).take n) = v ∧ p ≤ buf.length) : NumAt buf p n v :=
  ⟨(buf.drop p).take n, bytesAt_lit ⟨by rw [h.1], h.2.2⟩, h.1, h.2.1⟩

theorem fmt_leaf (D : Dialect) (h0 : D.absent fmtLeaf.fields[0] = none) :
    Holds D fmtSchema fmtBytes (.table [c!"A"]) (.table [none, some (.vec [.str ""])]) 48 := by
  refine .table (t := fmtLeaf) (vt := 56) (vsize := 8) (tsize := 8) (es := [0, 4]) (os := [0, 12]) rfl
    ⟨rfl, numAt_lit (by decide), rfl, numAt_lit (by decide), rfl, by decide, by decide, numAt_lit (by decide), by decide,
      by decide⟩ rfl rfl rfl ?_ ?_ ?_ ?_ ?_
  · intro i hi
    rcases i with _ | _ | i
    · exact numAt_lit ⟨rfl, rfl, by decide⟩
    · exact numAt_lit ⟨rfl, rfl, by decide⟩
    · simp at hi; omega
  · intro i f e o x h1 h2 h3 h4
    rcases i with _ | _ | i
    · cases h1; cases h2; cases h3; cases h4; rw [← h0]; exact .absent rfl
    · cases h1; cases h2; cases h3; cases h4
      exact .ref (.array _) ⟨by decide, by decide, by decide⟩ ⟨numAt_lit (by decide), by decide⟩
    · cases h1
  · intro i f x h1 h2 h3
    rcases i with _ | _ | i
    · cases h1; cases h3
    · cases h2; nofun
    · cases h1
  · intro i f e o x ty v h1 h2 h3 h4 hb
    rcases i with _ | _ | i
    · cases h1; cases h4; cases hb
    · cases h1; cases h2; cases h3; cases h4; cases hb
      refine .offsets (os := [4]) .string (by decide) (numAt_lit (by decide)) rfl ?_ ?_
      · intro i hi
        rcases i with _ | i
        · exact ⟨numAt_lit ⟨rfl, rfl, by decide⟩, Nat.zero_lt_succ 3⟩
        · simp at hi
      · intro i o x h1 h2
        rcases i with _ | i
        · cases h1; cases h2
          exact .string (by decide) (numAt_lit (by decide)) (bytesAt_lit (by decide))
        · cases h1
    · cases h1
  · intro _ i hi
    have hi : 2 ≤ i := hi
    unfold EntryAt
    rw [if_neg (by omega)]

theorem fmt_message (D : Dialect) (h0 : D.absent fmtLeaf.fields[0] = none) (h1 : D.absent fmtTable.fields[1] = some (.variant 1))
    (hn : (D.numbers [⟨c!"None", some 0, []⟩, ⟨c!"A", none, []⟩])[1]? = some 1) :
    Message D fmtSchema false (some [65, 66, 67, 68]) [c!"M"] (fmtVal (D.absent fmtTable.fields[3])) fmtBytes := by
  refine ⟨nofun, ?_, 8, ⟨numAt_lit (by decide), by decide⟩, ?_⟩
  · rintro _ ⟨⟩
    exact ⟨rfl, bytesAt_lit (by decide)⟩
  refine .table (t := fmtTable) (vt := 24) (vsize := 16) (tsize := 16) (es := [4, 0, 8, 0, 6, 12]) (os := [0, 0, 24, 0, 0, 28]) rfl
    ⟨rfl, numAt_lit (by decide), rfl, numAt_lit (by decide), rfl, by decide, by decide, numAt_lit (by decide), by decide,
      by decide⟩ rfl rfl rfl ?_ ?_ ?_ ?_ ?_
  · intro i hi
    rcases i with _ | _ | _ | _ | _ | _ | i
    · exact numAt_lit ⟨rfl, rfl, by decide⟩
    · exact numAt_lit ⟨rfl, rfl, by decide⟩
    · exact numAt_lit ⟨rfl, rfl, by decide⟩
    · exact numAt_lit ⟨rfl, rfl, by decide⟩
    · exact numAt_lit ⟨rfl, rfl, by decide⟩
    · exact numAt_lit ⟨rfl, rfl, by decide⟩
    · simp at hi; omega
  · intro i f e o x g1 g2 g3 g4
    rcases i with _ | _ | _ | _ | _ | _ | i
    · cases g1; cases g2; cases g3; cases g4
      exact .scalar rfl ⟨by decide, by decide, by decide⟩ ⟨numAt_lit (by decide), nofun⟩
    · cases g1; cases g2; cases g3; cases g4; rw [← h1]; exact .absent rfl
    · cases g1; cases g2; cases g3; cases g4
      exact .ref .string ⟨by decide, by decide, by decide⟩ ⟨numAt_lit (by decide), by decide⟩
    · cases g1; cases g2; cases g3; cases g4; exact .absent rfl
    · cases g1; cases g2; cases g3; cases g4
      exact .enum rfl ⟨by decide, by decide, by decide⟩ ⟨1, hn, numAt_lit (by decide)⟩
    · cases g1; cases g2; cases g3; cases g4
      exact .union rfl rfl rfl (.table _) ⟨by decide, by decide, by decide⟩ ⟨numAt_lit (by decide), by decide⟩
    · cases g1
  · intro i f x g1 g2 g3
    rcases i with _ | _ | _ | _ | _ | _ | i
    · cases g1; cases g3
    · cases g1; cases g3
    · cases g2; nofun
    · cases g1; cases g3
    · cases g1; cases g3
    · cases g1; cases g3
    · cases g1
  · intro i f e o x ty v g1 g2 g3 g4 hb
    rcases i with _ | _ | _ | _ | _ | _ | i
    · cases g1; cases g4; cases hb
    · cases g1; cases g4; cases hb
    · cases g1; cases g2; cases g3; cases g4; cases hb
      exact .string (by decide) (numAt_lit (by decide)) (bytesAt_lit (by decide))
    · cases g1; cases hb
    · cases g1; cases g4; cases hb
    · cases g1; cases g2; cases g3; cases g4; cases hb
      exact fmt_leaf D h0
    · cases g1
  · intro _ i hi
    have hi : 6 ≤ i := hi
    unfold EntryAt
    rw [if_neg (by omega)]

theorem fmt_accepted (gm : Mode) : Accepted gm fmtSchema := by
  intro q t h
  unfold fmtSchema at h
  split at h
  · cases h; exact ⟨⟨_, by cases gm <;> rfl⟩, by decide⟩
  · split at h
    · cases h; exact ⟨⟨_, by cases gm <;> rfl⟩, by decide⟩
    · cases h

theorem fmt_numbered : Numbered flatbuffers fmtSchema := by
  intro q t h
  unfold fmtSchema at h
  split at h
  · cases h
    intro f hf
    simp only [fmtTable, List.mem_cons, List.not_mem_nil, or_false] at hf
    rcases hf with rfl | rfl | rfl | rfl | rfl | rfl
    · exact .builtin _
    · exact .enum rfl
    · exact .string
    · exact .builtin _
    · exact .enum rfl
    · exact .union (by simp only [List.mem_singleton]; rintro _ rfl; exact .table _)
  · split at h
    · cases h
      intro f hf
      simp only [fmtLeaf, List.mem_cons, List.not_mem_nil, or_false] at hf
      rcases hf with rfl | rfl
      · exact .array (.builtin _)
      · exact .array .string
    · cases h

/-- **C88 is false of the code as far as fields without default go**: the message holds `mana: 0` by FlatBuffers' rules,
the generated code reads no `mana`. -/
theorem C88_refuted (gm m : Mode) : Message flatbuffers fmtSchema false (some [65, 66, 67, 68]) [c!"M"] (fmtVal (some (.bits 0))) fmtBytes ∧
    ∃ root, Table.getRoot m fmtBytes = .ok root ∧
      ∃ N, ∀ n, N ≤ n → readVal gm m fmtSchema n (.table [c!"M"]) (.fwdU .table) root = .ok (fmtVal none) :=
  ⟨fmt_message flatbuffers rfl rfl rfl,
    C88_reads gm m fmtSchema (fmt_accepted gm) false _ _ _ fmtBytes (by decide) (fmt_message generated rfl rfl rfl)⟩

/-- The hypotheses of C88 are met by this message. -/
example (gm : Mode) : Accepted gm fmtSchema ∧ Numbered flatbuffers fmtSchema ∧ RequiredOffsets fmtSchema ∧
    TagsBeginWithNone fmtSchema ∧ fmtBytes.length < 2 ^ 31 ∧
    Message generated fmtSchema false (some [65, 66, 67, 68]) [c!"M"] (fmtVal none) fmtBytes ∧
    Message flatbuffers fmtSchema false (some [65, 66, 67, 68]) [c!"M"] (fmtVal (some (.bits 0))) fmtBytes := by
  refine ⟨fmt_accepted gm, fmt_numbered, ?_, ?_, by decide, fmt_message generated rfl rfl rfl, fmt_message flatbuffers rfl rfl rfl⟩
  · intro q t h f hf hr
    unfold fmtSchema at h
    split at h
    · cases h
      simp only [fmtTable, List.mem_cons, List.not_mem_nil, or_false] at hf
      rcases hf with rfl | rfl | rfl | rfl | rfl | rfl <;> first | cases hr; done | trivial
    · split at h
      · cases h
        simp only [fmtLeaf, List.mem_cons, List.not_mem_nil, or_false] at hf
        rcases hf with rfl | rfl <;> trivial
      · cases h
  · intro q t h f hf g hg hn
    unfold fmtSchema at h
    split at h
    · cases h
      simp only [fmtTable, List.mem_cons, List.not_mem_nil, or_false] at hf hg
      rcases hg with rfl | rfl | rfl | rfl | rfl | rfl
      · rcases hf with rfl | rfl | rfl | rfl | rfl | rfl <;> exact absurd hn (by decide)
      · rcases hf with rfl | rfl | rfl | rfl | rfl | rfl <;> exact absurd hn (by decide)
      · exact .inl rfl
      · rcases hf with rfl | rfl | rfl | rfl | rfl | rfl <;> exact absurd hn (by decide)
      · exact .inr rfl
      · exact .inl rfl
    · split at h
      · cases h
        simp only [fmtLeaf, List.mem_cons, List.not_mem_nil, or_false] at hg
        rcases hg with rfl | rfl <;> exact .inl rfl
      · cases h

/-- `enum E: byte { A = 5, B }`, `table M { e: E; }` -/
def numTable : Ir.Table := ⟨[c!"M"],
  [⟨c!"e", .enum [c!"E"] [⟨c!"A", some 5, []⟩, ⟨c!"B", none, []⟩] .byte, none, false, []⟩], false, []⟩

def numSchema : Tables := fun q => if q = [c!"M"] then some numTable else none

/-- Write `M { e: B }` to a new builder and finish it. -/
def numRun (gm m : Mode) : Res Bytes := do
  let b₀ ← Builder.newWithCapacity 0
  let (o, b₁) ← writeVal gm m numSchema 20 b₀ (.table [c!"M"]) (.table [some (.variant 1)])
  let (_, b₂) ← step m b₁ (.finish (Fin.ofNat _ o) none false)
  b₂.finishedData m

/-- What comes out. -/
def numBytes : Bytes := [12, 0, 0, 0, 0, 0, /- 6: vtable -/ 6, 0, 8, 0, 7, 0, /- 12: M -/ 6, 0, 0, 0, 0, 0, 0, 1]

theorem numAt_val {buf : Bytes} {p n v : Nat} (h : NumAt buf p n v) : littleEndian ((buf.drop p).take n) = v := by
  obtain ⟨bs, ⟨pre, post, rfl, rfl⟩, rfl, rfl⟩ := h
  simp

theorem num_conforms (gm : Mode) : Conforms gm numSchema (.table [c!"M"]) (.table [some (.variant 1)]) 20 := by
  refine .table (t := numTable) (gs := [⟨c!"e", 4, .enum .i8 [5, 1] none, false⟩]) (ns := [0]) (xs := [some (.variant 1)]) rfl (by cases gm <;> rfl)
    (by decide) (by decide) rfl rfl ?_ ?_
  · intro i x hx
    obtain ⟨i, hi⟩ := i
    rcases i with _ | i
    · cases hx; exact ⟨by decide, nofun⟩
    · cases hx
  · intro i f x n ty v hf hx hn hb
    rcases i with _ | i
    · cases hf; cases hx; cases hb
    · cases hf

/-- **C89 is false of the code as far as the numbers of enum variants go**: by FlatBuffers' rules `B` is 6, but the
generated code writes 1, which is no variant of `E`: what it makes is no message at all. -/
theorem C89_refuted (gm m : Mode) : Conforms gm numSchema (.table [c!"M"]) (.table [some (.variant 1)]) 20 ∧
    numRun gm m = .ok numBytes ∧ ∀ v, ¬ Message flatbuffers numSchema false none [c!"M"] v numBytes := by
  refine ⟨num_conforms gm, by cases gm <;> cases m <;> decide +kernel, ?_⟩
  intro v ⟨_, _, o, ⟨ho, _⟩, hh⟩
  have ho' := numAt_val ho
  simp only [Bool.false_eq_true, if_false] at ho' hh
  have : o = 12 := ho'.symm
  subst this
  rw [Nat.zero_add] at hh
  cases hh with
  | @table q t xs es os loc vt vsize tsize hq hh hn hes hos he hf hr hx _ =>
    cases hq
    have hb := numAt_val hh.back
    have hvi := hh.vtInside
    have hvl : numBytes.length = 20 := rfl
    have hv : vt = 6 := by
      have : littleEndian ((numBytes.drop 12).take 4) = 6 := rfl
      rw [this] at hb
      have h0 : 0 ≤ (((12 : Nat) : Int) - vt) % 2 ^ (8 * 4) := Int.emod_nonneg _ (by decide)
      omega
    subst hv
    have hvs : vsize = 6 := (numAt_val hh.vtSize).symm
    subst hvs
    match xs, es, os, hn, hes, hos with
    | [x], [e], [o], _, _, _ =>
    have h1 := he 0 (by simp)
    unfold EntryAt at h1
    rw [if_pos (by decide)] at h1
    have h2 : e = 7 := (numAt_val h1).symm
    subst h2
    have h3 := hf 0 _ _ _ _ rfl rfl rfl rfl
    cases h3 with
    | absent h => cases h
    | scalar h => cases h
    | ref h => cases h
    | union h => cases h
    | unionNone h => cases h
    | @enum _ vs base i h _ hv =>
      cases h
      obtain ⟨n, h4, h5⟩ := hv
      have h6 : (1 : Nat) = _ := numAt_val h5
      rcases i with _ | _ | i
      · cases h4; exact absurd h6 (by decide)
      · cases h4; exact absurd h6 (by decide)
      · cases h4

/-- `M { hp: 7, color: Blue, name: "hi", mana: 0, pick: A { ids: [1, 65536], tags: ["x", ""] } }` -/
def fmtTree : Val := .table [some (.bits 7), some (.variant 2), some (.str "hi"), some (.bits 0), some (.variant 1),
  some (.union 0 (.table [some (.vec [.bits 1, .bits 65536]), some (.vec [.str "x", .str ""])]))]

def fmtGen : List GField :=
  [⟨c!"hp", 4, .scalar .i16 (some (Fin.ofNat _ 100)), false⟩,
   ⟨c!"color", 6, .enum .i8 [Fin.ofNat _ 0, Fin.ofNat _ 4, Fin.ofNat _ 2] (some ⟨1, by decide⟩), false⟩,
   ⟨c!"name", 8, .ref .str, true⟩,
   ⟨c!"mana", 10, .scalar .i32 none, false⟩,
   ⟨c!"pick_type", 12, .enum .u8 [Fin.ofNat _ 0, Fin.ofNat _ 1] none, false⟩,
   ⟨c!"pick", 14, .union [.fwdU .table], false⟩]

theorem fmtTree_conforms (gm : Mode) : Conforms gm fmtSchema (.table [c!"M"]) fmtTree 195 := by
  have h1 : Conforms gm fmtSchema (.array (.builtin .int)) (.vec [.bits 1, .bits 65536]) 24 :=
    .scalars .int [Fin.ofNat _ 1, Fin.ofNat _ 65536]
  have h2 : Conforms gm fmtSchema (.array .string) (.vec [.str "x", .str ""]) 57 := by
    refine .vec (F := .str) rfl (ns := [17, 16]) rfl ?_
    intro i v n hv hn
    rcases i with _ | _ | i
    · cases hv; cases hn; exact .string "x"
    · cases hv; cases hn; exact .string ""
    · cases hv
  have h3 : Conforms gm fmtSchema (.table [c!"A"]) (.table [some (.vec [.bits 1, .bits 65536]), some (.vec [.str "x", .str ""])]) 117 := by
    refine .table (t := fmtLeaf) (gs := exLeafGen.take 2) (ns := [24, 57])
      (xs := [some (.vec [.bits 1, .bits 65536]), some (.vec [.str "x", .str ""])]) rfl (by cases gm <;> rfl)
      (by decide) (by decide) rfl rfl ?_ ?_
    · intro i x hx
      obtain ⟨i, hi⟩ := i
      rcases i with _ | _ | i
      · cases hx; trivial
      · cases hx; trivial
      · cases hx
    · intro i f x n ty v hf hx hn hb
      rcases i with _ | _ | i
      · cases hf; cases hx; cases hn; cases hb; exact h1
      · cases hf; cases hx; cases hn; cases hb; exact h2
      · cases hf
  refine .table (t := fmtTable) (gs := fmtGen) (ns := [0, 0, 18, 0, 0, 117]) (xs := [some (.bits 7), some (.variant 2),
    some (.str "hi"), some (.bits 0), some (.variant 1),
    some (.union 0 (.table [some (.vec [.bits 1, .bits 65536]), some (.vec [.str "x", .str ""])]))])
    rfl (by cases gm <;> rfl) (by decide) (by decide) rfl rfl ?_ ?_
  · intro i x hx
    obtain ⟨i, hi⟩ := i
    rcases i with _ | _ | _ | _ | _ | _ | i
    · cases hx; exact ⟨by decide, nofun⟩
    · cases hx; exact ⟨by decide, nofun⟩
    · cases hx; trivial
    · cases hx; exact ⟨by decide, nofun⟩
    · cases hx; exact ⟨by decide, nofun⟩
    · cases hx; exact ⟨by decide, rfl⟩
    · cases hx
  · intro i f x n ty v hf hx hn hb
    rcases i with _ | _ | _ | _ | _ | _ | i
    · cases hf; cases hx; cases hb
    · cases hf; cases hx; cases hb
    · cases hf; cases hx; cases hn; cases hb; exact .string "hi"
    · cases hf; cases hx; cases hb
    · cases hf; cases hx; cases hb
    · cases hf; cases hx; cases hn; cases hb; exact h3
    · cases hf

/-- The hypotheses of C89 are met by this tree, in every profile, with a size prefix and an identifier. -/
example (gm m : Mode) : Numbered flatbuffers fmtSchema ∧ Conforms gm fmtSchema (.table [c!"M"]) fmtTree 195 ∧
    ∃ (b₁ b₂ : Builder) (o : Fin (2 ^ 32)), Written gm m fmtSchema b₁ (.table [c!"M"]) fmtTree o.val ∧ Regular m b₁ ∧
      Finishes m b₁ [] o (some [65, 66, 67, 68]) true b₂ ∧ (m = .release → b₁.finished = false) ∧ b₂.usedSpace < 2 ^ 31 := by
  obtain ⟨b₀, h₀⟩ : ∃ b₀, Builder.newWithCapacity 0 = .ok b₀ := ⟨_, rfl⟩
  have hc := fmtTree_conforms gm
  obtain ⟨o, b₁, b₂, h1, h2, h3, h4, h5, h6⟩ := tree_written (m := m) hc (by decide) h₀ (ident := some [65, 66, 67, 68])
    (by rintro i ⟨⟩; rfl) (sp := true)
  exact ⟨fmt_numbered, hc, b₁, b₂, o, h2, h3, ⟨⟨b₁, [], rfl, h4⟩, nofun, by rintro i ⟨⟩; rfl⟩, fun _ => h5, h6⟩

end Butte
