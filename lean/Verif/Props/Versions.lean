import Verif.Gen.FormatEvolve
import Verif.Props.Format
import Verif.Tests.Kernel
/-
Property C91: messages in the FlatBuffers format, whoever wrote them, and other versions of the schema.
-/
namespace Butte
open Gen Format

set_option maxRecDepth 8000

theorem message_evolve {gm : Mode} {p : Prop} {S S' : Tables} (hS : Compatible gm S S') (hU : Accepted gm S)
    (hp : p ∨ ∀ q t t', S q = some t → S' q = some t' → t'.fields.length ≤ t.fields.length) {sp : Bool}
    {ident : Option Bytes} {q : Ir.QIdent} {t' : Ir.Table} (hq : S' q = some t') {v : Val} {buf : Bytes}
    (h : Message (generated.limit p) S sp ident q v buf) :
    ∃ w, Evolved gm S S' (.table q) v w ∧ Message generated S' sp ident q w buf := by
  obtain ⟨o, ho, hr⟩ := h.root
  obtain ⟨w, h1, h2⟩ := hr.evolve hS (fun q t hq => (hU q t hq).1) hp (.table hq)
  exact ⟨w, h1, h.size, h.ident, o, ho, h2⟩

theorem message_widen {gm : Mode} {p : Prop} {S S' : Tables} (hS : MoreVariants gm S S') (hU : Accepted gm S) {sp : Bool}
    {ident : Option Bytes} {q : Ir.QIdent} {v : Val} {buf : Bytes} (h : Message (generated.limit p) S sp ident q v buf) :
    Message (generated.limit p) S' sp ident q v buf := by
  obtain ⟨o, ho, hr⟩ := h.root
  exact ⟨h.size, h.ident, o, ho, hr.widen hS (fun q t hq => (hU q t hq).1) _ (.refl _)⟩

theorem accepted_reader {gm : Mode} {S S' : Tables} (hS : Compatible gm S S') : Accepted gm S' := fun q t hq =>
  ⟨(hS.reads q t hq).1, (hS.reads q t hq).2.1⟩

/-- **C91, a later version of the schema reads an earlier message** (and any mixture: some tables have more fields, some
fewer). The very bytes that are a message of `S` are a message of `S'`; the generated code of `S'` reads from them the
value that agrees with the one that was meant in everything both versions know, to any depth, and has the defaults of
`S'` for what the message cannot have. -/
theorem C91_later_reader (gm m : Mode) (S S' : Tables) (hS : Compatible gm S S') (hU : Accepted gm S) (sp : Bool)
    (ident : Option Bytes) (q : Ir.QIdent) (t' : Ir.Table) (hq : S' q = some t') (v : Val) (buf : Bytes)
    (hl : buf.length < 2 ^ 31) (h : Message (generated.limit True) S sp ident q v buf) :
    ∃ root w, (if sp then Table.getSizePrefixedRoot m buf else Table.getRoot m buf) = .ok root ∧
      Evolved gm S S' (.table q) v w ∧ Message generated S' sp ident q w buf ∧
      ∃ N, ∀ n, N ≤ n → readVal gm m S' n (.table q) (.fwdU .table) root = .ok w := by
  obtain ⟨w, h1, h2⟩ := message_evolve hS hU (.inl trivial) hq h
  obtain ⟨root, h3, h4⟩ := C88_reads gm m S' (accepted_reader hS) sp ident q w buf hl h2
  exact ⟨root, w, h3, h1, h2, h4⟩

/-- **C91, an earlier version of the schema reads a later message**: no table of the reader has more fields than the
writer's. Then it does not matter whether the message itself comes from a still later version. -/
theorem C91_earlier_reader (gm m : Mode) (S S' : Tables) (hS : Compatible gm S S') (hU : Accepted gm S)
    (hle : ∀ q t t', S q = some t → S' q = some t' → t'.fields.length ≤ t.fields.length) (sp : Bool)
    (ident : Option Bytes) (q : Ir.QIdent) (t' : Ir.Table) (hq : S' q = some t') (v : Val) (buf : Bytes)
    (hl : buf.length < 2 ^ 31) (h : Message generated S sp ident q v buf) :
    ∃ root w, (if sp then Table.getSizePrefixedRoot m buf else Table.getRoot m buf) = .ok root ∧
      Evolved gm S S' (.table q) v w ∧ Message generated S' sp ident q w buf ∧
      ∃ N, ∀ n, N ≤ n → readVal gm m S' n (.table q) (.fwdU .table) root = .ok w := by
  obtain ⟨w, h1, h2⟩ := message_evolve (p := False) hS hU (.inr hle) hq h
  obtain ⟨root, h3, h4⟩ := C88_reads gm m S' (accepted_reader hS) sp ident q w buf hl h2
  exact ⟨root, w, h3, h1, h2, h4⟩

/-- **C91, more variants**: a message of a schema is a message, of the same value, of every schema with more variants at
the end of its enums and unions, and its generated code reads that value. -/
theorem C91_more_variants (gm m : Mode) (S S' : Tables) (hS : MoreVariants gm S S') (hU : Accepted gm S)
    (hU' : Accepted gm S') (sp : Bool) (ident : Option Bytes) (q : Ir.QIdent) (v : Val) (buf : Bytes)
    (hl : buf.length < 2 ^ 31) (h : Message generated S sp ident q v buf) :
    Message generated S' sp ident q v buf ∧
    ∃ root, (if sp then Table.getSizePrefixedRoot m buf else Table.getRoot m buf) = .ok root ∧
      ∃ N, ∀ n, N ≤ n → readVal gm m S' n (.table q) (.fwdU .table) root = .ok v := by
  have h' := message_widen (p := False) hS hU h
  exact ⟨h', C88_reads gm m S' hU' sp ident q v buf hl h'⟩

/-- **C91, both**: more variants, and more or fewer fields at the end. -/
theorem C91_both (gm m : Mode) (S S₁ S' : Tables) (h₁ : MoreVariants gm S S₁) (hS : Compatible gm S₁ S')
    (hU : Accepted gm S) (hU₁ : Accepted gm S₁) (sp : Bool)
    (ident : Option Bytes) (q : Ir.QIdent) (t' : Ir.Table) (hq : S' q = some t') (v : Val) (buf : Bytes)
    (hl : buf.length < 2 ^ 31) (h : Message (generated.limit True) S sp ident q v buf) :
    ∃ root w, (if sp then Table.getSizePrefixedRoot m buf else Table.getRoot m buf) = .ok root ∧
      Evolved gm S₁ S' (.table q) v w ∧ Message generated S' sp ident q w buf ∧
      ∃ N, ∀ n, N ≤ n → readVal gm m S' n (.table q) (.fwdU .table) root = .ok w :=
  C91_later_reader gm m S₁ S' hS hU₁ sp ident q t' hq v buf hl (message_widen h₁ hU h)

/-- **C91, with FlatBuffers' own understanding of numbers and defaults** (full statement: the value is the one that
FlatBuffers says a reader with `S'` gets; missing: as for C88, a scalar or enum field without default that is not
stored, which reads as nothing, see `C88_refuted`, and enums that C40 is about). -/
theorem C91_flatbuffers_partial (gm m : Mode) (S S' : Tables) (hS : Compatible gm S S') (hU : Accepted gm S)
    (hn : Numbered flatbuffers S) (hr : RequiredOffsets S) (ht : TagsBeginWithNone S) (sp : Bool)
    (ident : Option Bytes) (q : Ir.QIdent) (t' : Ir.Table) (hq : S' q = some t') (v : Val) (buf : Bytes)
    (hl : buf.length < 2 ^ 31) (h : Message (flatbuffers.limit True) S sp ident q v buf) :
    ∃ root w w', (if sp then Table.getSizePrefixedRoot m buf else Table.getRoot m buf) = .ok root ∧
      View S (.table q) v w ∧ Evolved gm S S' (.table q) w w' ∧ Message generated S' sp ident q w' buf ∧
      ∃ N, ∀ n, N ≤ n → readVal gm m S' n (.table q) (.fwdU .table) root = .ok w' := by
  obtain ⟨o, ho, hroot⟩ := h.root
  obtain ⟨w, hw, hw'⟩ := hroot.view hn hr ht (.table q)
  obtain ⟨root, w', h1, h2⟩ := C91_later_reader gm m S S' hS hU sp ident q t' hq w buf hl ⟨h.size, h.ident, o, ho, hw'⟩
  exact ⟨root, w, w', h1, hw, h2⟩

/-! ### Concrete cases: `fmtBytes`, a message of `fmtSchema`, and four versions of that schema -/

def fmtMoreFields : List Ir.Field :=
  [⟨c!"level", .builtin .uint, some (.scalar (.integer 3)), false, []⟩, ⟨c!"next", .table [c!"M"], none, false, []⟩]

/-- Two more fields in `M`. -/
def fmtLater : Tables := fun q =>
  if q = [c!"M"] then some ⟨[c!"M"], fmtTable.fields ++ fmtMoreFields, false, []⟩ else
  if q = [c!"A"] then some fmtLeaf else none

/-- Without `pick` and its tag. -/
def fmtEarlier : Tables := fun q =>
  if q = [c!"M"] then some ⟨[c!"M"], fmtTable.fields.take 4, false, []⟩ else
  if q = [c!"A"] then some fmtLeaf else none

theorem fmt_later (gm : Mode) : Compatible gm fmtSchema fmtLater := by
  constructor
  · intro q t t' h h'
    unfold fmtSchema at h
    unfold fmtLater at h'
    split at h
    · next hq =>
      rw [if_pos hq] at h'
      cases h; cases h'
      refine .inl ⟨fmtMoreFields, rfl, ?_⟩
      simp only [fmtMoreFields, List.mem_cons, List.not_mem_nil, or_false]
      rintro f (rfl | rfl) <;> rfl
    · next hq =>
      rw [if_neg hq] at h'
      split at h
      · next hq' =>
        rw [if_pos hq'] at h'
        cases h; cases h'
        exact .inr ⟨[], by simp⟩
      · cases h
  · intro q t' h'
    unfold fmtLater at h'
    split at h'
    · cases h'
      refine ⟨⟨_, by cases gm <;> rfl⟩, by decide, ?_⟩
      intro f hf
      simp only [fmtTable, fmtMoreFields, List.cons_append, List.nil_append, List.mem_cons, List.not_mem_nil, or_false] at hf
      rcases hf with rfl | rfl | rfl | rfl | rfl | rfl | rfl | rfl
      · exact .builtin _
      · exact .enum ..
      · exact .string
      · exact .builtin _
      · exact .enum ..
      · refine .union ?_
        simp only [List.mem_singleton]
        rintro u rfl
        exact .table (t := fmtLeaf) rfl
      · exact .builtin _
      · exact .table rfl
    · split at h'
      · cases h'
        refine ⟨⟨_, by cases gm <;> rfl⟩, by decide, ?_⟩
        intro f hf
        simp only [fmtLeaf, List.mem_cons, List.not_mem_nil, or_false] at hf
        rcases hf with rfl | rfl
        · exact .array (.builtin _)
        · exact .array .string
      · cases h'

theorem fmt_earlier (gm : Mode) : Compatible gm fmtSchema fmtEarlier ∧
    ∀ q t t', fmtSchema q = some t → fmtEarlier q = some t' → t'.fields.length ≤ t.fields.length := by
  refine ⟨⟨?_, ?_⟩, ?_⟩
  · intro q t t' h h'
    unfold fmtSchema at h
    unfold fmtEarlier at h'
    split at h
    · next hq =>
      rw [if_pos hq] at h'
      cases h; cases h'
      exact .inr ⟨fmtTable.fields.drop 4, (List.take_append_drop 4 _).symm⟩
    · next hq =>
      rw [if_neg hq] at h'
      split at h
      · next hq' =>
        rw [if_pos hq'] at h'
        cases h; cases h'
        exact .inr ⟨[], by simp⟩
      · cases h
  · intro q t' h'
    unfold fmtEarlier at h'
    split at h'
    · cases h'
      refine ⟨⟨_, by cases gm <;> rfl⟩, by decide, ?_⟩
      intro f hf
      simp only [fmtTable, List.take_succ_cons, List.take_zero, List.mem_cons, List.not_mem_nil, or_false] at hf
      rcases hf with rfl | rfl | rfl | rfl
      · exact .builtin _
      · exact .enum ..
      · exact .string
      · exact .builtin _
    · split at h'
      · cases h'
        refine ⟨⟨_, by cases gm <;> rfl⟩, by decide, ?_⟩
        intro f hf
        simp only [fmtLeaf, List.mem_cons, List.not_mem_nil, or_false] at hf
        rcases hf with rfl | rfl
        · exact .array (.builtin _)
        · exact .array .string
      · cases h'
  · intro q t t' h h'
    unfold fmtSchema at h
    unfold fmtEarlier at h'
    split at h
    · next hq =>
      rw [if_pos hq] at h'
      cases h; cases h'
      decide
    · next hq =>
      rw [if_neg hq] at h'
      split at h
      · next hq' =>
        rw [if_pos hq'] at h'
        cases h; cases h'
        decide
      · cases h

/-- The hypotheses of C91 are met by a message that no `FlatBufferBuilder` makes. -/
example (gm : Mode) : Compatible gm fmtSchema fmtLater ∧ Compatible gm fmtSchema fmtEarlier ∧ Accepted gm fmtSchema ∧
    Message (generated.limit True) fmtSchema false (some [65, 66, 67, 68]) [c!"M"] (fmtVal none) fmtBytes ∧
    Message (flatbuffers.limit True) fmtSchema false (some [65, 66, 67, 68]) [c!"M"] (fmtVal (some (.bits 0))) fmtBytes :=
  ⟨fmt_later gm, (fmt_earlier gm).1, fmt_accepted gm, fmt_message (generated.limit True) rfl rfl rfl,
    fmt_message (flatbuffers.limit True) rfl rfl rfl⟩

/-- What the later version makes of it: `level` has its default, there is no `next`. -/
example (gm m : Mode) : ∃ root, Table.getRoot m fmtBytes = .ok root ∧
    readVal gm m fmtLater 5 (.table [c!"M"]) (.fwdU .table) root = .ok (.table [some (.bits 7), some (.variant 1),
      some (.str "hi"), none, some (.variant 1), some (.union 0 (.table [none, some (.vec [.str ""])])), some (.bits 3), none]) := by
  cases gm <;> cases m <;> exact ⟨_, rfl, by kernel_rfl⟩

/-- And the earlier. -/
example (gm m : Mode) : ∃ root, Table.getRoot m fmtBytes = .ok root ∧
    readVal gm m fmtEarlier 5 (.table [c!"M"]) (.fwdU .table) root =
      .ok (.table [some (.bits 7), some (.variant 1), some (.str "hi"), none]) := by
  cases gm <;> cases m <;> exact ⟨_, rfl, by kernel_rfl⟩

/-- One more colour, and one more member of the union. -/
def fmtVariants : Tables := fun q =>
  if q = [c!"M"] then some ⟨[c!"M"],
    [⟨c!"hp", .builtin .short, some (.scalar (.integer 100)), false, []⟩,
     ⟨c!"color", .enum [c!"Color"] (fmtColor ++ [⟨c!"Pink", some 9, []⟩]) .byte, some (.ident c!"Green"), false, []⟩,
     ⟨c!"name", .string, none, true, []⟩,
     ⟨c!"mana", .builtin .int, none, false, []⟩,
     ⟨c!"pick_type", .enum [c!"butte_gen", c!"UType"] ([⟨c!"None", some 0, []⟩, ⟨c!"A", none, []⟩] ++ [⟨c!"M", none, []⟩]) .ubyte,
       none, false, []⟩,
     ⟨c!"pick", .union [c!"U"] [c!"butte_gen", c!"UType"] ([⟨c!"A", .table [c!"A"], []⟩] ++ [⟨c!"M", .table [c!"M"], []⟩]), none,
       false, []⟩], false, []⟩ else
  if q = [c!"A"] then some fmtLeaf else none

example (gm m : Mode) : ∃ root, Table.getRoot m fmtBytes = .ok root ∧
    ∃ N, ∀ n, N ≤ n → readVal gm m fmtVariants n (.table [c!"M"]) (.fwdU .table) root = .ok (fmtVal none) := by
  refine (C91_more_variants gm m fmtSchema fmtVariants ?_ (fmt_accepted gm) ?_ false _ _ _ fmtBytes (by decide)
    (fmt_message generated rfl rfl rfl)).2
  · intro q t h
    unfold fmtSchema at h
    unfold fmtVariants
    split at h
    · next hq =>
      cases h
      rw [if_pos hq]
      refine ⟨_, _, rfl, by cases gm <;> rfl, ?_⟩
      exact .cons ⟨rfl, rfl, rfl, .refl _⟩ (.cons ⟨rfl, rfl, rfl, .enum ..⟩ (.cons ⟨rfl, rfl, rfl, .refl _⟩
        (.cons ⟨rfl, rfl, rfl, .refl _⟩ (.cons ⟨rfl, rfl, rfl, .enum ..⟩ (.cons ⟨rfl, rfl, rfl, .union ..⟩ .nil)))))
    · next hq =>
      rw [if_neg hq]
      split at h
      · next hq' =>
        cases h
        rw [if_pos hq']
        exact ⟨_, _, rfl, by cases gm <;> rfl, .cons ⟨rfl, rfl, rfl, .refl _⟩ (.cons ⟨rfl, rfl, rfl, .refl _⟩ .nil)⟩
      · cases h
  · intro q t h
    unfold fmtVariants at h
    split at h
    · cases h; exact ⟨⟨_, by cases gm <;> rfl⟩, by decide⟩
    · split at h
      · cases h; exact ⟨⟨_, by cases gm <;> rfl⟩, by decide⟩
      · cases h

end Butte
