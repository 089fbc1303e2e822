import Verif.Gen.Rename
import Verif.Props.Format
/-
Property C118: names are not part of messages (Verif/Gen/Rename.lean says when two schemas differ in names only).
-/
namespace Butte
open Gen Format

set_option maxRecDepth 8000

/-! ### C118 -/

/-- **C118, writing**: a caller that writes a tree with the code generated from a schema makes exactly the same builder,
byte for byte, and gets the same offset, as one that writes it with the code generated from the renamed schema; if one
fails or panics, so does the other. -/
theorem C118_writes (ρ : Ir.QIdent → Ir.QIdent → Prop) (gm m : Mode) (S S' : Tables) (hS : RenamedSchema ρ S S')
    (hU : Accepted gm S) (hU' : Accepted gm S') (n : Nat) (b : Builder) (ty ty' : Ir.Ty) (h : Renamed ρ ty ty') (v : Val) :
    writeVal gm m S' n b ty' v = writeVal gm m S n b ty v :=
  writeVal_renamed hS (fun q t h => (hU q t h).1) (fun q t h => (hU' q t h).1) n b ty ty' v h

/-- **C118, reading**: from whatever bytes, reading everything with the code generated from the renamed schema has the
same outcome; only the name in the error for a missing required field differs. -/
theorem C118_reads (ρ : Ir.QIdent → Ir.QIdent → Prop) (gm m : Mode) (S S' : Tables) (hS : RenamedSchema ρ S S')
    (hU : Accepted gm S) (hU' : Accepted gm S') (n : Nat) (ty ty' : Ir.Ty) (h : Renamed ρ ty ty') (f : FTy) (x : f.Inner) :
    SameOutcome (readVal gm m S n ty f x) (readVal gm m S' n ty' f x) :=
  readVal_renamed hS (fun q t h => (hU q t h).1) (fun q t h => (hU' q t h).1) n ty ty' f x h

/-- **C118, the format**: a message of a schema is a message of the renamed schema, of the same value, and the other way
round, whether numbers and defaults are understood as FlatBuffers does or as the generated code does. -/
theorem C118_message (ρ : Ir.QIdent → Ir.QIdent → Prop) (S S' : Tables) (hS : RenamedSchema ρ S S') (p : Prop) (sp : Bool)
    (ident : Option Bytes) (q q' : Ir.QIdent) (hq : ρ q q') (v : Val) (buf : Bytes) :
    (Message (generated.limit p) S sp ident q v buf ↔ Message (generated.limit p) S' sp ident q' v buf) ∧
    (Message (flatbuffers.limit p) S sp ident q v buf ↔ Message (flatbuffers.limit p) S' sp ident q' v buf) :=
  ⟨⟨fun h => h.renamed (nameless_generated.limit p) hS hq,
      fun h => h.renamed (nameless_generated.limit p) hS.symm (show flip ρ q' q from hq)⟩,
    ⟨fun h => h.renamed (nameless_flatbuffers.limit p) hS hq,
      fun h => h.renamed (nameless_flatbuffers.limit p) hS.symm (show flip ρ q' q from hq)⟩⟩

/-- **C118, between programs**: what a program with the code generated from one schema writes, a program with the code
generated from the renamed schema reads. -/
theorem C118_tree (ρ : Ir.QIdent → Ir.QIdent → Prop) (gm gm' m m' : Mode) (S S' : Tables) (hS : RenamedSchema ρ S S')
    (hU' : Accepted gm' S') (q q' : Ir.QIdent) (hq : ρ q q') (v : Val) (n : Nat) (h : Conforms gm S (.table q) v n)
    (hn : n + 65576 ≤ 2 ^ 31 - 2 ^ 17) (cap : Nat) (b₀ : Builder) (h₀ : Builder.newWithCapacity cap = .ok b₀)
    (ident : Option Bytes) (hid : ∀ i, ident = some i → i.length = 4) (sp : Bool) :
    ∃ (o : Fin (2 ^ 32)) (b₁ b₂ : Builder) (data : Bytes) (v' : Val) (root : Table),
      writeVal gm m S n b₀ (.table q) v = .ok (o.val, b₁) ∧ step m b₁ (.finish o ident sp) = .ok (none, b₂) ∧
      b₂.finishedData m = .ok data ∧ Same v v' ∧
      (if sp then Table.getSizePrefixedRoot m' data else Table.getRoot m' data) = .ok root ∧
      ∃ N, ∀ k, N ≤ k → readVal gm' m' S' k (.table q') (.fwdU .table) root = .ok v' := by
  obtain ⟨o, b₁, b₂, h1, h2, h3, h4, h5, h6⟩ := tree_written (m := m) h hn h₀ hid (sp := sp)
  obtain ⟨data, v', h7, h8, h9⟩ :=
    C89_writes gm m S b₁ b₂ q v o h2 h3 ident sp ⟨⟨b₁, [], rfl, h4⟩, nofun, hid⟩ (fun _ => h5) h6
  have hl : data.length < 2 ^ 31 := by
    obtain ⟨_, _, e⟩ := Res.bind_eq_ok.mp h7
    cases e
    simpa [Builder.usedSpace] using h6
  have h10 : Message (generated.limit True) S' sp ident q' v' data := h9.renamed (nameless_generated.limit True) hS hq
  obtain ⟨root, h11, h12⟩ := C88_reads gm' m' S' hU' sp ident q' v' data hl (h10.relimit (p' := False) nofun)
  exact ⟨o, b₁, b₂, data, v', root, h1, h4, h7, h8, h11, h12⟩

/-! ### Concrete cases -/

/-- `fmtTable` with other names. -/
def renTable : Ir.Table := ⟨[c!"game", c!"Monster"],
  [⟨c!"health", .builtin .short, some (.scalar (.integer 100)), false, []⟩,
   ⟨c!"tint", .enum [c!"game", c!"Tint"] [⟨c!"Rot", none, []⟩, ⟨c!"Gelb", some 4, []⟩, ⟨c!"Blau", some 2, []⟩] .byte,
     some (.ident c!"Gelb"), false, []⟩,
   ⟨c!"title", .string, none, true, []⟩,
   ⟨c!"magic", .builtin .int, none, false, []⟩,
   ⟨c!"choice_type", .enum [c!"butte_gen", c!"VType"] [⟨c!"None", some 0, []⟩, ⟨c!"Leaf", none, []⟩] .ubyte, none, false, []⟩,
   ⟨c!"choice", .union [c!"V"] [c!"butte_gen", c!"VType"] [⟨c!"Leaf", .table [c!"game", c!"Leaf"], []⟩], none, false, []⟩],
  false, []⟩

/-- `fmtLeaf` with other names. -/
def renLeaf : Ir.Table := ⟨[c!"game", c!"Leaf"],
  [⟨c!"numbers", .array (.builtin .int), none, false, []⟩, ⟨c!"words", .array .string, none, true, []⟩], false, []⟩

def renSchema : Tables := fun q =>
  if q = [c!"game", c!"Monster"] then some renTable else if q = [c!"game", c!"Leaf"] then some renLeaf else none

/-- What the tables are called. -/
inductive RenNames : Ir.QIdent → Ir.QIdent → Prop
  | m : RenNames [c!"M"] [c!"game", c!"Monster"]
  | a : RenNames [c!"A"] [c!"game", c!"Leaf"]

theorem ren_schema : RenamedSchema RenNames fmtSchema renSchema := by
  rintro q q' ⟨⟩
  · refine .some ⟨?_, ?_⟩
    · refine .cons ⟨.builtin _, rfl, .scalar _⟩ (.cons ⟨.enum rfl (by decide), rfl, .ident rfl⟩ (.cons ⟨.string, rfl, .none⟩
        (.cons ⟨.builtin _, rfl, .none⟩ (.cons ⟨.enum rfl (by decide), rfl, .none⟩ (.cons ⟨?_, rfl, .none⟩ .nil)))))
      refine .union rfl ?_
      rintro (_ | i) u u' h h'
      · cases h; cases h'; exact .table .a
      · cases h
    · rintro (_ | _ | _ | _ | _ | _ | i) f f' h h' hu
      · cases h; cases hu
      · cases h; cases hu
      · cases h; cases hu
      · cases h; cases hu
      · cases h; cases hu
      · cases h; cases h'; rfl
      · cases h
  · refine .some ⟨.cons ⟨.array (.builtin _), rfl, .none⟩ (.cons ⟨.array .string, rfl, .none⟩ .nil), ?_⟩
    rintro (_ | _ | i) f f' h h' hu
    · cases h; cases hu
    · cases h; cases hu
    · cases h

theorem ren_accepted (gm : Mode) : Accepted gm renSchema := by
  intro q t h
  unfold renSchema at h
  split at h
  · cases h; exact ⟨⟨_, by cases gm <;> rfl⟩, by decide⟩
  · split at h
    · cases h; exact ⟨⟨_, by cases gm <;> rfl⟩, by decide⟩
    · cases h

/-- The hypotheses of `C118_writes`, `C118_reads`, `C118_message` and `C118_tree` hold of two schemas that have no name in
common but `None` and `butte_gen`. -/
example (gm : Mode) : RenamedSchema RenNames fmtSchema renSchema ∧ Accepted gm fmtSchema ∧ Accepted gm renSchema ∧
    RenNames [c!"M"] [c!"game", c!"Monster"] ∧ Renamed RenNames (.table [c!"M"]) (.table [c!"game", c!"Monster"]) ∧
    Conforms gm fmtSchema (.table [c!"M"]) fmtTree 195 :=
  ⟨ren_schema, fmt_accepted gm, ren_accepted gm, .m, .table .m, fmtTree_conforms gm⟩

/-- The message `fmtBytes`, in the eyes of the renamed schema. -/
example : Message flatbuffers renSchema false (some [65, 66, 67, 68]) [c!"game", c!"Monster"] (fmtVal (some (.bits 0))) fmtBytes :=
  (C118_message RenNames fmtSchema renSchema ren_schema False false _ [c!"M"] _ .m _ _).2.mp
    (fmt_message flatbuffers rfl rfl rfl)

/-! ### Which name goes with which union -/

/-- `table T { x: U; y: U; }` with both tags first, called `x` and `y` in this order. -/
def tagTable (x y : Str) : Ir.Table := ⟨[c!"T"],
  [⟨x, .enum [c!"UType"] [⟨c!"None", some 0, []⟩, ⟨c!"A", none, []⟩] .ubyte, none, false, []⟩,
   ⟨y, .enum [c!"UType"] [⟨c!"None", some 0, []⟩, ⟨c!"A", none, []⟩] .ubyte, none, false, []⟩,
   ⟨c!"x", .union [c!"U"] [c!"UType"] [⟨c!"A", .table [c!"A"], []⟩], none, false, []⟩,
   ⟨c!"y", .union [c!"U"] [c!"UType"] [⟨c!"A", .table [c!"A"], []⟩], none, false, []⟩], false, []⟩

def tagSchema (x y : Str) : Tables := fun q =>
  if q = [c!"T"] then some (tagTable x y) else if q = [c!"A"] then some ⟨[c!"A"], [], false, []⟩ else none

/-- `T { x_type: A, y_type: None, x: A {} }` -/
def tagBytes : Bytes :=
  [16, 0, 0, 0, /- 4: vtable of T -/ 12, 0, 12, 0, 4, 0, 5, 0, 8, 0, 0, 0, /- 16: T -/ 12, 0, 0, 0, 1, 0, 0, 0, 8, 0, 0, 0,
   /- 28: vtable of A -/ 4, 0, 4, 0, /- 32: A -/ 4, 0, 0, 0]

/-- **C118**: `RenamedTable.tags` is needed: exchanging the names of two tags keeps every field what it is but for its name,
both schemas are accepted, and yet the same message reads differently: the union is gone. -/
theorem C118_tags_needed (gm m : Mode) : Accepted gm (tagSchema c!"x_type" c!"y_type") ∧ Accepted gm (tagSchema c!"y_type" c!"x_type") ∧
    List.Forall₂ (RenamedField Eq) (tagTable c!"x_type" c!"y_type").fields (tagTable c!"y_type" c!"x_type").fields ∧
    ∃ root, Table.getRoot m tagBytes = .ok root ∧
      readVal gm m (tagSchema c!"x_type" c!"y_type") 9 (.table [c!"T"]) (.fwdU .table) root =
        .ok (.table [some (.variant 1), some (.variant 0), some (.union 0 (.table [])), none]) ∧
      readVal gm m (tagSchema c!"y_type" c!"x_type") 9 (.table [c!"T"]) (.fwdU .table) root =
        .ok (.table [some (.variant 1), some (.variant 0), none, none]) := by
  refine ⟨?_, ?_, ?_, ⟨tagBytes, 16⟩, by cases m <;> rfl, by cases gm <;> cases m <;> rfl, by cases gm <;> cases m <;> rfl⟩
  · intro q t h
    unfold tagSchema at h
    split at h
    · cases h; exact ⟨⟨_, by cases gm <;> rfl⟩, by decide⟩
    · split at h
      · cases h; exact ⟨⟨_, by cases gm <;> rfl⟩, by decide⟩
      · cases h
  · intro q t h
    unfold tagSchema at h
    split at h
    · cases h; exact ⟨⟨_, by cases gm <;> rfl⟩, by decide⟩
    · split at h
      · cases h; exact ⟨⟨_, by cases gm <;> rfl⟩, by decide⟩
      · cases h
  · have hU : Renamed Eq (.union [c!"U"] [c!"UType"] [⟨c!"A", .table [c!"A"], []⟩])
        (.union [c!"U"] [c!"UType"] [⟨c!"A", .table [c!"A"], []⟩]) := by
      refine .union rfl ?_
      rintro (_ | i) u u' h h'
      · cases h; cases h'; exact .table rfl
      · cases h
    exact .cons ⟨.enum rfl .rfl, rfl, .none⟩ (.cons ⟨.enum rfl .rfl, rfl, .none⟩ (.cons ⟨hU, rfl, .none⟩ (.cons ⟨hU, rfl, .none⟩ .nil)))

end Butte
