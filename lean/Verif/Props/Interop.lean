import Verif.Gen.SlotCount
import Verif.Props.Versions
import Verif.Props.WholeProgram
/-
Property C92: from the text of a schema to the program emitted for it, and messages exchanged with programs that other
FlatBuffers implementations, or this one, made for the same schema or another version of it.
-/
namespace Butte.Rs
open Ir (QIdent Node Ident itemsOf OneNamespace InOrder Translates fixIdentifier build nameIn lastNs)
open Gen (GField Kind kindOf compileTable nsOf typeId tablesOf Tables Val Conforms Same Compatible Evolved)
open Ast (Element)
open Format

set_option maxRecDepth 8000

/-- With the emitted program, the value of every message of table `q`, whoever wrote it, is read. -/
def Understands (P : Program) (S : Tables) (q : QIdent) : Prop :=
  ∀ (m : Mode) (sp : Bool) (ident : Option Bytes) (v : Val) (buf : Bytes), buf.length < 2 ^ 31 →
    Message generated S sp ident q v buf →
    ∃ root, rootText m P q sp buf = .ok root ∧ ∃ N, ∀ n, N ≤ n → readText m P S n (.table q) root = .ok v

/-- The same where FlatBuffers' own rules say what the message holds: fields that are not stored and have no default
read as nothing. -/
def UnderstandsOthers (P : Program) (S : Tables) (q : QIdent) : Prop :=
  ∀ (m : Mode) (sp : Bool) (ident : Option Bytes) (v : Val) (buf : Bytes), buf.length < 2 ^ 31 →
    Message flatbuffers S sp ident q v buf →
    ∃ root w, rootText m P q sp buf = .ok root ∧ View S (.table q) v w ∧
      ∃ N, ∀ n, N ≤ n → readText m P S n (.table q) root = .ok w

/-- With the emitted program, every tree of table `q` for which there is room is made into a message that holds it. -/
def MakesMessages (gm : Mode) (D : Dialect) (P : Program) (S : Tables) (q : QIdent) : Prop :=
  ∀ (m : Mode) (v : Val) (n cap : Nat) (b₀ : Builder) (ident : Option Bytes) (sp : Bool), Conforms gm S (.table q) v n →
    n + 65576 ≤ 2 ^ 31 - 2 ^ 17 → Builder.newWithCapacity cap = .ok b₀ → (∀ i, ident = some i → i.length = 4) →
    ∃ (o : Fin (2 ^ 32)) (b₁ b₂ : Builder) (data : Bytes) (v' : Val),
      writeText m P S n b₀ (.table q) v = .ok (o.val, b₁) ∧ step m b₁ (.finish o ident sp) = .ok (none, b₂) ∧
      b₂.finishedData m = .ok data ∧ Same v v' ∧ Message (D.limit True) S sp ident q v' data

/-- What a program made for a schema needs to talk to others: each declared table is there under its name, is read from
any message that holds it, and is made into messages. By FlatBuffers' own rules this needs what C88 and C89 need. -/
def Interoperates (gm : Mode) (E : List Element) (out : List Node) (P : Program) : Prop :=
  ∀ (p : Nat) (d : Ast.Product), E[p]? = some (.table d) →
    ∃ t, tablesOf out (nameIn (lastNs (E.take p)) d.id) = some t ∧
      Understands P (tablesOf out) t.ident ∧ MakesMessages gm generated P (tablesOf out) t.ident ∧
      (Numbered flatbuffers (tablesOf out) → MakesMessages gm flatbuffers P (tablesOf out) t.ident) ∧
      (Numbered flatbuffers (tablesOf out) → RequiredOffsets (tablesOf out) → TagsBeginWithNone (tablesOf out) →
        UnderstandsOthers P (tablesOf out) t.ident)

/-- With the emitted program `P'`, every message of the schema `S`, read as a table `q` of the other version `S'`, gives
what `S'` has of it. -/
def UnderstandsVersion (gm : Mode) (P' : Program) (S S' : Tables) (q : QIdent) : Prop :=
  ∀ (m : Mode) (sp : Bool) (ident : Option Bytes) (v : Val) (buf : Bytes), buf.length < 2 ^ 31 →
    Message (generated.limit True) S sp ident q v buf →
    ∃ root w, rootText m P' q sp buf = .ok root ∧ Evolved gm S S' (.table q) v w ∧
      Message generated S' sp ident q w buf ∧ ∃ N, ∀ n, N ≤ n → readText m P' S' n (.table q) root = .ok w

section
variable {gm : Mode} {E : List Element} {out : List Node} {P : Program}

theorem Setting.understands (S : Setting gm E out P) (hA : Accepted gm (tablesOf out)) {q : QIdent} {t : Ir.Table}
    (hq : tablesOf out q = some t) {buf : Bytes} {sp : Bool} {m : Mode} {v : Val} {root : Butte.Table}
    (h1 : (if sp then Table.getSizePrefixedRoot m buf else Table.getRoot m buf) = .ok root)
    (h2 : ∃ N, ∀ n, N ≤ n → Gen.readVal gm m (tablesOf out) n (.table t.ident) (.fwdU .table) root = .ok v) :
    ∃ r, rootText m P t.ident sp buf = .ok r ∧ ∃ N, ∀ n, N ≤ n → readText m P (tablesOf out) n (.table t.ident) r = .ok v := by
  have hc : AllCompile gm (tablesOf out) := fun q t ht => (hA q t ht).1
  obtain ⟨gs, hg⟩ := hc q t hq
  obtain ⟨⟨x, _⟩, hx, rfl, _⟩ := Gen.tablesOf_some hq
  obtain ⟨N, h2⟩ := h2
  exact ⟨tableValue t root, by rw [S.root hx hg, h1]; rfl, N, fun n hn => by rw [S.reads hc]; exact h2 n hn⟩

theorem Setting.interoperates (S : Setting gm E out P) (hA : Accepted gm (tablesOf out))
    (hd : ∀ (p : Nat) (d : Ast.Product), E[p]? = some (.table d) →
      ∃ t, tablesOf out (nameIn (lastNs (E.take p)) d.id) = some t) : Interoperates gm E out P := by
  have hc : AllCompile gm (tablesOf out) := fun q t ht => (hA q t ht).1
  intro p d hp
  obtain ⟨t, h1⟩ := hd p d hp
  refine ⟨t, h1, ?_, ?_, ?_, ?_⟩
  · intro m sp ident v buf hl h
    obtain ⟨root, h3, h4⟩ := C88_reads gm m _ hA sp ident _ v buf hl h
    exact S.understands hA h1 h3 h4
  · intro m v n cap b₀ ident sp hv hn h₀ hi
    obtain ⟨o, b₁, b₂, data, v', e1, e2⟩ := C89_tree gm m _ _ v n hv hn cap b₀ h₀ ident hi sp
    exact ⟨o, b₁, b₂, data, v', by rw [S.writes hc]; exact e1, e2⟩
  · intro hN m v n cap b₀ ident sp hv hn h₀ hi
    obtain ⟨o, b₁, b₂, data, v', e1, e2⟩ := C89_tree_flatbuffers_partial gm m _ hN _ v n hv hn cap b₀ h₀ ident hi sp
    exact ⟨o, b₁, b₂, data, v', by rw [S.writes hc]; exact e1, e2⟩
  · intro hN hR hT m sp ident v buf hl h
    obtain ⟨root, w, h3, h4, h5⟩ := C88_flatbuffers_partial gm m _ hA hN hR hT sp ident _ v buf hl h
    obtain ⟨r, h6, h7⟩ := S.understands hA h1 h3 h5
    exact ⟨r, w, h6, h4, h7⟩

end

/-- The tables of the translation have as many fields as their declarations say. -/
theorem build_accepted {s : Ast.Schema} {out : List Node} (h : OneNamespace s.elements ∨ InOrder s.elements)
    (hb : build s = some (.ok out)) {gm : Mode}
    (hw : ∀ (p : Nat) d, s.elements[p]? = some (.table d) → Gen.TableWorks gm s.elements (lastNs (s.elements.take p)) d.fields)
    (hn : ∀ (p : Nat) d, s.elements[p]? = some (.table d) →
      (Gen.slotNames s.elements (lastNs (s.elements.take p)) d.fields).length ≤ 32765) : Accepted gm (tablesOf out) := by
  intro q t ht
  obtain ⟨⟨x, _⟩, hx, rfl, he⟩ := Gen.tablesOf_some ht
  refine ⟨Gen.C72_all_partial h hb gm hw hx, ?_⟩
  obtain ⟨p, d, hp, hi⟩ := Gen.translates_table (Ir.C46_resolved_partial h hb).1 hx
  obtain ⟨t', h1, h2, h3⟩ := Gen.translates_length (Ir.C46_resolved_partial h hb).1 hp
  have e1 := Gen.tablesOf_mem (Ir.C47_output_partial hb) h1
  rw [h2, ← hi, he, ht] at e1
  cases e1
  rw [h3]
  exact hn p d hp

theorem declared {s : Ast.Schema} {out : List Node} (h : OneNamespace s.elements ∨ InOrder s.elements)
    (hb : build s = some (.ok out)) (p : Nat) (d : Ast.Product) (hp : s.elements[p]? = some (.table d)) :
    ∃ t, tablesOf out (nameIn (lastNs (s.elements.take p)) d.id) = some t := by
  obtain ⟨t, h1, -⟩ := Gen.declared_table h hb .debug hp
  exact ⟨t, h1⟩

/-- What `build_works` uses to show that the program works. -/
theorem build_setting {s : Ast.Schema} {out : List Node} (h1 : OneNamespace s.elements) (hb : build s = some (.ok out)) {gm : Mode}
    (hwd : Worded s.elements) (hg : Compilable gm s.elements) : ∃ P, emit gm out = some P ∧ Setting gm s.elements out P := by
  obtain ⟨P, hP⟩ := C76_declared_partial h1 hb hwd hg.toGenerable
  have hn : P.names.Nodup := (Gen.C71_one_namespace_partial h1 hb (emitNodes_names gm [] out P hP)).mpr
    ⟨hg.derived, hg.enums, hg.unions, hg.butteGen⟩
  exact ⟨P, hP, setting_one h1 hb hP hn hg.free hg.freeModules⟩

theorem build_setting_several {s : Ast.Schema} {out : List Node} (h : OneNamespace s.elements ∨ InOrder s.elements)
    (hb : build s = some (.ok out)) {gm : Mode} (hwd : Worded s.elements) (hg : CompilableTo gm s.elements out) :
    ∃ P, emit gm out = some P ∧ Setting gm s.elements out P := by
  obtain ⟨P, hP⟩ := C76_several_partial h hb hg.structs hg.tables hwd hg.modules
    fun x hx q hq => ⟨(hg.paths x hx q hq).1, (hg.paths x hx q hq).2.1⟩
  have he := emitNodes_names gm [] out P hP
  exact ⟨P, hP, setting_of h hb hP ((Gen.C71_iff_partial hb he).mpr hg.clashfree)
    (Gen.C70_partial h hb he fun x hx q hq => ⟨(hg.paths x hx q hq).1, (hg.paths x hx q hq).2.2⟩) hg.free⟩

/-- No table has more fields, tags of unions included, than a vtable has room for. -/
def RoomInVTables (E : List Element) : Prop :=
  ∀ (p : Nat) d, E[p]? = some (.table d) → (Gen.slotNames E (lastNs (E.take p)) d.fields).length ≤ 32765

section
variable [Parse.Env]

/-- **C92** from any schema text that the compiler accepts, whose types are all in one namespace and meet the conditions
of C77: the emitted program reads every table from any message in the FlatBuffers format that holds one, whoever wrote
it, and what it writes are messages in that format. By FlatBuffers' own rules for numbers and defaults, too, as far as
C88 and C89 go. Full statement: from every schema text that the compiler accepts. -/
theorem C92_accepted_partial (hx : Parse.HexfPrefix) {txt : Str} {s : Ast.Schema} {out : List Node}
    (hp : Parse.schemaDecl txt = some ([], s)) (hc : Parse.compileText txt = some (.tree out)) (h : OneNamespace s.elements)
    {gm : Mode} (hg : Compilable gm s.elements) (hr : RoomInVTables s.elements) :
    ∃ P, emit gm out = some P ∧ Interoperates gm s.elements out P := by
  have hb := (Gen.compileText_build hp).mp hc
  obtain ⟨P, hP, S⟩ := build_setting h hb (.of_text (Parse.C61_sound hx hp)) hg
  exact ⟨P, hP, S.interoperates (build_accepted (.inl h) hb hg.tables hr) (declared (.inl h) hb)⟩

/-- **C92** with several namespaces, declared before use. -/
theorem C92_several_partial (hx : Parse.HexfPrefix) {txt : Str} {s : Ast.Schema} {out : List Node}
    (hp : Parse.schemaDecl txt = some ([], s)) (hc : Parse.compileText txt = some (.tree out))
    (h : OneNamespace s.elements ∨ InOrder s.elements) {gm : Mode} (hg : CompilableTo gm s.elements out)
    (hr : RoomInVTables s.elements) : ∃ P, emit gm out = some P ∧ Interoperates gm s.elements out P := by
  have hb := (Gen.compileText_build hp).mp hc
  obtain ⟨P, hP, S⟩ := build_setting_several h hb (.of_text (Parse.C61_sound hx hp)) hg
  exact ⟨P, hP, S.interoperates (build_accepted h hb hg.tables hr) (declared h hb)⟩

/-- **C92** from the language as described, not from what the compiler does: see C73. -/
theorem C92_written_partial {txt : Str} {s : Ast.Schema} (ht : Parse.SchemaText s txt) (hv : Parse.NamesSchema s)
    (hq : Parse.NoSpecial txt) (h1 : OneNamespace s.elements) (h2 : Ir.WellFormed (lastNs s.elements) s.elements)
    (h3 : ∀ el ∈ s.elements, ∀ r ∈ Ir.needs el, Ir.Settled (lastNs s.elements) s.elements (Ir.refIn (lastNs s.elements) r))
    (h4 : Ir.Starts (lastNs s.elements) s.elements) {gm : Mode} (hg : Compilable gm s.elements)
    (hr : RoomInVTables s.elements) :
    ∃ out P, Parse.compileText txt = some (.tree out) ∧ emit gm out = some P ∧ Interoperates gm s.elements out P := by
  have hp := Parse.schemaDecl_eq ht hv hq
  obtain ⟨out, hb⟩ := (Ir.C59_accepted_iff h1).mpr ⟨h2, h3, h4⟩
  obtain ⟨P, hP, S⟩ := build_setting h1 hb (.of_text ht) hg
  exact ⟨out, P, (Gen.compileText_build hp).mpr hb, hP,
    S.interoperates (build_accepted (.inl h1) hb hg.tables hr) (declared (.inl h1) hb)⟩

/-- **C92, versions**: the program emitted for a text reads the messages of every other version of the schema that
differs from it by fields at the end of tables. -/
theorem C92_versions_partial (hx : Parse.HexfPrefix) {txt : Str} {s : Ast.Schema} {out : List Node}
    (hp : Parse.schemaDecl txt = some ([], s)) (hc : Parse.compileText txt = some (.tree out))
    (h : OneNamespace s.elements ∨ InOrder s.elements) {gm : Mode} (hg : CompilableTo gm s.elements out)
    (S : Tables) (hA : Accepted gm S) (hS : Compatible gm S (tablesOf out)) :
    ∃ P, emit gm out = some P ∧ ∀ (p : Nat) (d : Ast.Product), s.elements[p]? = some (.table d) →
      ∃ t, tablesOf out (nameIn (lastNs (s.elements.take p)) d.id) = some t ∧
        UnderstandsVersion gm P S (tablesOf out) t.ident := by
  have hb := (Gen.compileText_build hp).mp hc
  obtain ⟨P, hP, T⟩ := build_setting_several h hb (.of_text (Parse.C61_sound hx hp)) hg
  refine ⟨P, hP, fun p d hpd => ?_⟩
  obtain ⟨t, ht⟩ := declared h hb p d hpd
  refine ⟨t, ht, ?_⟩
  obtain ⟨⟨x, _⟩, hxt, -, he⟩ := Gen.tablesOf_some ht
  intro m sp ident v buf hl hm
  obtain ⟨root, w, h3, h4, h5, h6⟩ := C91_later_reader gm m S _ hS hA sp ident t.ident t (by rw [he]; exact ht) v buf hl hm
  obtain ⟨r, h7, h8⟩ := T.understands (accepted_reader hS) ht h3 h6
  exact ⟨r, w, h7, h4, h5, h8⟩

/-- **C92, two programs**: what the program emitted for one text writes, the program emitted for another version of it
reads, if the second differs from the first by fields at the end of tables. -/
theorem C92_exchange_partial (hx : Parse.HexfPrefix) {txt txt' : Str} {s s' : Ast.Schema} {out out' : List Node}
    (hp : Parse.schemaDecl txt = some ([], s)) (hc : Parse.compileText txt = some (.tree out))
    (hp' : Parse.schemaDecl txt' = some ([], s')) (hc' : Parse.compileText txt' = some (.tree out'))
    (h : OneNamespace s.elements ∨ InOrder s.elements) (h' : OneNamespace s'.elements ∨ InOrder s'.elements) {gm : Mode}
    (hg : CompilableTo gm s.elements out) (hg' : CompilableTo gm s'.elements out') (hr : RoomInVTables s.elements)
    (hS : Compatible gm (tablesOf out) (tablesOf out')) :
    ∃ P P', emit gm out = some P ∧ emit gm out' = some P' ∧ ∀ (q : QIdent) (t t' : Ir.Table), tablesOf out q = some t →
      tablesOf out' q = some t' →
      ∀ (m : Mode) (v : Val) (n cap : Nat) (b₀ : Builder) (ident : Option Bytes) (sp : Bool),
        Conforms gm (tablesOf out) (.table q) v n → n + 65576 ≤ 2 ^ 31 - 2 ^ 17 → Builder.newWithCapacity cap = .ok b₀ →
        (∀ i, ident = some i → i.length = 4) →
        ∃ (o : Fin (2 ^ 32)) (b₁ b₂ : Builder) (data : Bytes) (v' w : Val) (root : Value),
          writeText m P (tablesOf out) n b₀ (.table q) v = .ok (o.val, b₁) ∧
          step m b₁ (.finish o ident sp) = .ok (none, b₂) ∧ b₂.finishedData m = .ok data ∧ Same v v' ∧
          rootText m P' q sp data = .ok root ∧ Evolved gm (tablesOf out) (tablesOf out') (.table q) v' w ∧
          ∃ N, ∀ k, N ≤ k → readText m P' (tablesOf out') k (.table q) root = .ok w := by
  have hb := (Gen.compileText_build hp).mp hc
  have hb' := (Gen.compileText_build hp').mp hc'
  obtain ⟨P, hP, T⟩ := build_setting_several h hb (.of_text (Parse.C61_sound hx hp)) hg
  obtain ⟨P', hP', T'⟩ := build_setting_several h' hb' (.of_text (Parse.C61_sound hx hp')) hg'
  have hA := build_accepted h hb hg.tables hr
  have hcA : AllCompile gm (tablesOf out) := fun q t ht => (hA q t ht).1
  refine ⟨P, P', hP, hP', ?_⟩
  intro q t t' hq hq' m v n cap b₀ ident sp hv hn h₀ hi
  obtain ⟨o, b₁, b₂, h1, h2, h3, h4, h5, h6⟩ := tree_written (m := m) hv hn h₀ hi (sp := sp)
  obtain ⟨data, v', k1, k2, k3⟩ := C89_writes gm m _ b₁ b₂ q v o h2 h3 ident sp ⟨⟨b₁, [], rfl, h4⟩, nofun, hi⟩ (fun _ => h5) h6
  obtain ⟨⟨x, _⟩, hxt, -, he⟩ := Gen.tablesOf_some hq'
  have hl : data.length < 2 ^ 31 := by
    unfold Builder.finishedData at k1
    obtain ⟨_, -, e⟩ := Res.bind_eq_ok.mp k1
    cases e
    unfold Builder.usedSpace at h6
    simpa using h6
  obtain ⟨root, w, j1, j2, -, j3⟩ := C91_later_reader gm m _ _ hS hA sp ident q t' hq' v' data hl k3
  subst he
  obtain ⟨r, j4, j5⟩ := T'.understands (accepted_reader hS) hq' j1 j3
  exact ⟨o, b₁, b₂, data, v', w, r, by rw [T.writes hcA]; exact h1, h4, k1, k2, j4, j2, j5⟩

end

/-! ### Schema texts -/

section
attribute [local instance] Parse.asciiEnv

/-- The program emitted for the text of C73 can talk to others. -/
example (gm : Mode) : ∃ out P, Parse.compileText Gen.exText = some (.tree out) ∧ emit gm out = some P ∧
    Interoperates gm Gen.exRead.elements out P := by
  obtain ⟨out, hc, -⟩ := Gen.exText_delivers gm
  refine ⟨out, ?_⟩
  obtain ⟨P, hP, hD⟩ := C92_accepted_partial (fun _ _ h => by cases h) Gen.exText_reads hc Gen.exRead_one (exRead_compilable gm) (by
    intro p d hp
    have hl : p < 6 := (List.getElem?_eq_some_iff.mp hp).1
    have hcases : p = 0 ∨ p = 1 ∨ p = 2 ∨ p = 3 ∨ p = 4 ∨ p = 5 := by omega
    rcases hcases with rfl | rfl | rfl | rfl | rfl | rfl <;> cases hp <;> decide)
  exact ⟨P, hc, hP, hD⟩

/-- Two versions of a schema. -/
def exOld : Str := c!"namespace game; table Unit { hp: short = 100; name: string; }"
def exNew : Str := c!"namespace game; table Unit { hp: short = 100; name: string; mana: int = 7; next: Unit; }"

def exOldFields : List Ast.Field :=
  [⟨c!"hp", .builtin .short, some (.scalar (.integer 100)), none, []⟩, ⟨c!"name", .string, none, none, []⟩]
def exNewFields : List Ast.Field :=
  exOldFields ++ [⟨c!"mana", .builtin .int, some (.scalar (.integer 7)), none, []⟩, Ir.exRef c!"next" [c!"Unit"]]

def exUnits (fs : List Ast.Field) : Ast.Schema := ⟨[], [Ir.exNs c!"game", .table ⟨c!"Unit", fs, none, []⟩]⟩

theorem exUnits_one (fs : List Ast.Field) : OneNamespace (exUnits fs).elements := by
  intro p el he hne
  have hp : p < 2 := (List.getElem?_eq_some_iff.mp he).1
  have hcases : p = 0 ∨ p = 1 := by omega
  rcases hcases with rfl | rfl
  · cases he; exact absurd rfl (hne _ _)
  · rfl

theorem exUnits_table {fs : List Ast.Field} {p : Nat} {d : Ast.Product} (h : (exUnits fs).elements[p]? = some (.table d)) :
    p = 1 ∧ d.fields = fs := by
  have hp : p < 2 := (List.getElem?_eq_some_iff.mp h).1
  have hcases : p = 0 ∨ p = 1 := by omega
  rcases hcases with rfl | rfl
  · cases h
  · cases h; exact ⟨rfl, rfl⟩

theorem exUnits_read : Parse.schemaDecl exOld = some ([], exUnits exOldFields) ∧
    Parse.schemaDecl exNew = some ([], exUnits exNewFields) := ⟨rfl, rfl⟩

def irOldFields : List Ir.Field :=
  [⟨c!"hp", .builtin .short, some (.scalar (.integer 100)), false, []⟩, ⟨c!"name", .string, none, false, []⟩]
def irNewFields : List Ir.Field :=
  [⟨c!"mana", .builtin .int, some (.scalar (.integer 7)), false, []⟩, ⟨c!"next", .table [c!"game", c!"Unit"], none, false, []⟩]

def irUnit (fs : List Ir.Field) : Ir.Table := ⟨[c!"game", c!"Unit"], fs, false, []⟩

def irUnits (fs : List Ir.Field) : List Node := [.namespace [c!"game"] [.table (irUnit fs)]]

theorem exUnits_build : build (exUnits exOldFields) = some (.ok (irUnits irOldFields)) ∧
    build (exUnits exNewFields) = some (.ok (irUnits (irOldFields ++ irNewFields))) := ⟨rfl, rfl⟩

theorem irUnits_table {fs : List Ir.Field} {q : QIdent} {t : Ir.Table} (h : tablesOf (irUnits fs) q = some t) : t = irUnit fs := by
  obtain ⟨x, hx, h2, -⟩ := Gen.tablesOf_some h
  have hx : x ∈ [([c!"game"], Node.table (irUnit fs))] := hx
  rw [List.mem_singleton.mp hx] at h2
  cases h2; rfl

theorem exOld_compilable (gm : Mode) : CompilableTo gm (exUnits exOldFields).elements (irUnits irOldFields) := by
  refine ⟨?_, ?_, by decide, by decide, (Gen.C71_iff_partial exUnits_build.1 (show _ = some _ from rfl)).mp (by decide),
    noCapture_of_all (by decide)⟩
  · intro d h; simp [exUnits, Ir.exNs] at h
  · intro p d hp
    obtain ⟨rfl, hd⟩ := exUnits_table hp
    rw [hd]
    refine ⟨?_, Gen.tags_of (by decide), by decide, by decide, by decide, by decide, .inr (by decide)⟩
    intro f hf
    simp only [exOldFields, List.mem_cons, List.not_mem_nil, or_false] at hf
    rcases hf with rfl | rfl
    · exact .inr ⟨_, rfl, .inl ⟨_, _, rfl, by decide, by decide⟩⟩
    · rfl

theorem exNew_compilable (gm : Mode) :
    CompilableTo gm (exUnits exNewFields).elements (irUnits (irOldFields ++ irNewFields)) := by
  refine ⟨?_, ?_, by decide, by decide, (Gen.C71_iff_partial exUnits_build.2 (show _ = some _ from rfl)).mp (by decide),
    noCapture_of_all (by decide)⟩
  · intro d h; simp [exUnits, Ir.exNs] at h
  · intro p d hp
    obtain ⟨rfl, hd⟩ := exUnits_table hp
    rw [hd]
    refine ⟨?_, Gen.tags_of (by decide), by decide, by decide, by decide, by decide, .inr (by decide)⟩
    intro f hf
    simp only [exOldFields, exNewFields, List.cons_append, List.nil_append, List.mem_cons, List.not_mem_nil, or_false] at hf
    rcases hf with rfl | rfl | rfl | rfl
    · exact .inr ⟨_, rfl, .inl ⟨_, _, rfl, by decide, by decide⟩⟩
    · rfl
    · exact .inr ⟨_, rfl, .inl ⟨_, _, rfl, by decide, by decide⟩⟩
    · exact .inl ⟨by decide, rfl⟩

theorem exUnits_compatible (gm : Mode) :
    Compatible gm (tablesOf (irUnits irOldFields)) (tablesOf (irUnits (irOldFields ++ irNewFields))) := by
  constructor
  · intro q t t' h h'
    rw [irUnits_table h, irUnits_table h']
    refine .inl ⟨irNewFields, rfl, ?_⟩
    simp only [irNewFields, List.mem_cons, List.not_mem_nil, or_false]
    rintro f (rfl | rfl) <;> rfl
  · intro q t h
    rw [irUnits_table h]
    refine ⟨⟨_, by cases gm <;> rfl⟩, by decide, ?_⟩
    intro f hf
    simp only [irUnit, irOldFields, irNewFields, List.cons_append, List.nil_append, List.mem_cons, List.not_mem_nil, or_false] at hf
    rcases hf with rfl | rfl | rfl | rfl
    · exact .builtin _
    · exact .string
    · exact .builtin _
    · exact .table (t := irUnit (irOldFields ++ irNewFields)) rfl

theorem exOld_room : RoomInVTables (exUnits exOldFields).elements := by
  intro p d hp
  obtain ⟨rfl, hd⟩ := exUnits_table hp
  rw [hd]; decide

def genOld : List GField := [⟨c!"hp", 4, .scalar .i16 (some (Fin.ofNat _ 100)), false⟩, ⟨c!"name", 6, .ref .str, false⟩]

theorem exOld_conforms (gm : Mode) : Conforms gm (tablesOf (irUnits irOldFields)) (.table [c!"game", c!"Unit"])
    (.table [some (.bits 7), some (.str "hi")]) 50 := by
  refine .table (t := irUnit irOldFields) (gs := genOld) (ns := [0, 18]) (xs := [some (.bits 7), some (.str "hi")])
    rfl (by cases gm <;> rfl) (by decide) (by decide) rfl rfl ?_ ?_
  · intro i x hx
    obtain ⟨i, hi⟩ := i
    rcases i with _ | _ | i
    · cases hx; exact ⟨by decide, nofun⟩
    · cases hx; trivial
    · cases hx
  · intro i f x n ty v hf hx hn hb
    rcases i with _ | _ | i
    · cases hf; cases hx; cases hb
    · cases hf; cases hx; cases hn; cases hb; exact .string "hi"
    · cases hf

/-- What the older program writes, the newer program reads. -/
example (gm m : Mode) : ∃ P P', emit gm (irUnits irOldFields) = some P ∧
    emit gm (irUnits (irOldFields ++ irNewFields)) = some P' ∧
    ∃ (o : Fin (2 ^ 32)) (b₀ b₁ b₂ : Builder) (data : Bytes) (v' w : Val) (root : Value),
      writeText m P (tablesOf (irUnits irOldFields)) 50 b₀ (.table [c!"game", c!"Unit"])
        (.table [some (.bits 7), some (.str "hi")]) = .ok (o.val, b₁) ∧
      step m b₁ (.finish o none true) = .ok (none, b₂) ∧ b₂.finishedData m = .ok data ∧
      Same (.table [some (.bits 7), some (.str "hi")]) v' ∧ rootText m P' [c!"game", c!"Unit"] true data = .ok root ∧
      Evolved gm (tablesOf (irUnits irOldFields)) (tablesOf (irUnits (irOldFields ++ irNewFields)))
        (.table [c!"game", c!"Unit"]) v' w ∧
      ∃ N, ∀ k, N ≤ k → readText m P' (tablesOf (irUnits (irOldFields ++ irNewFields))) k (.table [c!"game", c!"Unit"]) root =
        .ok w := by
  obtain ⟨P, P', hP, hP', hX⟩ := C92_exchange_partial (fun _ _ h => by cases h) exUnits_read.1
    ((Gen.compileText_build exUnits_read.1).mpr exUnits_build.1) exUnits_read.2
    ((Gen.compileText_build exUnits_read.2).mpr exUnits_build.2) (.inl (exUnits_one _)) (.inl (exUnits_one _))
    (exOld_compilable gm) (exNew_compilable gm) exOld_room (exUnits_compatible gm)
  obtain ⟨b₀, h₀⟩ : ∃ b₀, Builder.newWithCapacity 0 = .ok b₀ := ⟨_, rfl⟩
  obtain ⟨o, b₁, b₂, data, v', w, root, h⟩ := hX [c!"game", c!"Unit"] (irUnit irOldFields)
    (irUnit (irOldFields ++ irNewFields)) rfl rfl m _ 50 0 b₀ none true (exOld_conforms gm) (by decide) h₀ nofun
  exact ⟨P, P', hP, hP', o, b₀, b₁, b₂, data, v', w, root, h⟩

end

end Butte.Rs
