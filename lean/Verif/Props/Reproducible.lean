import Verif.Hash.Messages
import Verif.Props.Analysis
import Verif.Parse.Ascii
import Verif.Tests.Kernel
/-
Property C101: compiling a schema again gives the same. Hash maps have an order of their own in every run.
-/
namespace Butte.Hash
open Ast

section
variable [Parse.Env] [DebugText] [Src.FloatText] {σ : Type} {g : Src.RpcGen σ} {gm : Mode} {rpc : Option σ} {t : Str}

/-- **C101**: there is a result in every case: no order of the hash maps makes a run impossible or endless. -/
theorem C101_runs (g : Src.RpcGen σ) (gm : Mode) (rpc : Option σ) (t : Str) : ∃ r, Runs g gm rpc t r := by
  cases hp : Parse.schemaDecl t with
  | none => exact ⟨_, .parseFailed hp⟩
  | some x =>
    obtain ⟨rest, s⟩ := x
    by_cases hr : rest = []
    · subst hr
      obtain ⟨⟨r, hb⟩, -⟩ := Ir.C45_terminates s
      cases r with
      | ok root =>
        have hb := (builds_iff s _).mpr hb
        cases hg : Src.CodeGenerator.buildTokenStream g gm ⟨root, rpc⟩ with
        | none => exact ⟨_, .generatorPanics hp hb hg⟩
        | some y => exact ⟨_, .generated hp hb hg⟩
      | err e =>
        obtain ⟨m, hm⟩ := inh_message e
        exact ⟨_, .semantic hp ((builds_iff s _).mpr hb) hm⟩
      | panic => exact ⟨_, .analysisPanics hp ((builds_iff s _).mpr hb)⟩
    · cases hs : Parse.sliceTo 30 rest with
      | none => exact ⟨_, .sliced hp hr hs⟩
      | some q => exact ⟨_, .incomplete hp hr hs⟩

/-- **C101**: the results that hash maps cannot change are those of the compiler as a function (`Parse.compileText`, then the
generator). So what is said about that function holds of every run. -/
theorem C101_code {ts : Src.Toks} : Runs g gm rpc t (.code ts) ↔
    ∃ root st, Parse.compileText t = some (.tree root) ∧
      Src.CodeGenerator.buildTokenStream g gm ⟨root, rpc⟩ = some (st, ts) := by
  constructor
  · intro h
    cases h with
    | @generated s root _ st hp hb hg =>
      refine ⟨root, st, ?_, hg⟩
      simp only [Parse.compileText, hp, if_true, (builds_iff s _).mp hb]
      rfl
  · rintro ⟨root, st, hc, hg⟩
    unfold Parse.compileText at hc
    split at hc
    · cases hc
    · rename_i rest s hp
      split at hc
      · rename_i hr
        subst hr
        cases hb : Ir.build s with
        | none => rw [hb] at hc; cases hc
        | some r =>
          rw [hb] at hc
          cases r with
          | ok root' => cases hc; exact .generated hp ((builds_iff s _).mpr hb) hg
          | err e => cases hc
          | panic => cases hc
      · split at hc <;> cases hc

/-- **C101**, as far as it holds: if a run gives code, all runs give this code; if a run panics, all do; and if a run gives a
message, all give a message. -/
theorem C101_same_partial {r r' : Result} (h : Runs g gm rpc t r) (h' : Runs g gm rpc t r') :
    (∀ ts, r = .code ts → r' = .code ts) ∧ (r = .panic → r' = .panic) ∧
      (∀ m, r = .message m → ∃ m', r' = .message m') := by
  have bs : ∀ {s : Schema} {x y : Ir.BRes (List Ir.Node)}, Builds s x → Builds s y → x = y := by
    intro s x y hx hy
    have := (builds_iff s _).mp hx
    rw [(builds_iff s _).mp hy] at this
    exact (Option.some.inj this).symm
  cases h with
  | parseFailed hp =>
    cases h' with
    | parseFailed _ => simp
    | incomplete hp' _ _ => cases hp.symm.trans hp'
    | sliced hp' _ _ => cases hp.symm.trans hp'
    | semantic hp' _ _ => cases hp.symm.trans hp'
    | analysisPanics hp' _ => cases hp.symm.trans hp'
    | generatorPanics hp' _ _ => cases hp.symm.trans hp'
    | generated hp' _ _ => cases hp.symm.trans hp'
  | incomplete hp hr hs =>
    cases h' with
    | parseFailed hp' => cases hp.symm.trans hp'
    | incomplete hp' _ _ => simp
    | sliced hp' _ hs' => cases hp.symm.trans hp'; cases hs.symm.trans hs'
    | semantic hp' _ _ => cases hp.symm.trans hp'; exact absurd rfl hr
    | analysisPanics hp' _ => cases hp.symm.trans hp'; exact absurd rfl hr
    | generatorPanics hp' _ _ => cases hp.symm.trans hp'; exact absurd rfl hr
    | generated hp' _ _ => cases hp.symm.trans hp'; exact absurd rfl hr
  | sliced hp hr hs =>
    cases h' with
    | parseFailed hp' => cases hp.symm.trans hp'
    | incomplete hp' _ hs' => cases hp.symm.trans hp'; cases hs.symm.trans hs'
    | sliced hp' _ hs' => simp
    | semantic hp' _ _ => cases hp.symm.trans hp'; exact absurd rfl hr
    | analysisPanics hp' _ => cases hp.symm.trans hp'; exact absurd rfl hr
    | generatorPanics hp' _ _ => cases hp.symm.trans hp'; exact absurd rfl hr
    | generated hp' _ _ => cases hp.symm.trans hp'; exact absurd rfl hr
  | semantic hp hb hm =>
    cases h' with
    | parseFailed hp' => cases hp.symm.trans hp'
    | incomplete hp' hr _ => cases hp.symm.trans hp'; exact absurd rfl hr
    | sliced hp' hr _ => cases hp.symm.trans hp'; exact absurd rfl hr
    | semantic hp' _ _ => simp
    | analysisPanics hp' hb' => cases hp.symm.trans hp'; cases bs hb hb'
    | generatorPanics hp' hb' _ => cases hp.symm.trans hp'; cases bs hb hb'
    | generated hp' hb' _ => cases hp.symm.trans hp'; cases bs hb hb'
  | analysisPanics hp hb =>
    cases h' with
    | parseFailed hp' => cases hp.symm.trans hp'
    | incomplete hp' hr _ => cases hp.symm.trans hp'; exact absurd rfl hr
    | sliced hp' hr _ => simp
    | semantic hp' hb' _ => cases hp.symm.trans hp'; cases bs hb hb'
    | analysisPanics hp' hb' => simp
    | generatorPanics hp' hb' _ => simp
    | generated hp' hb' _ => cases hp.symm.trans hp'; cases bs hb hb'
  | generatorPanics hp hb hg =>
    cases h' with
    | parseFailed hp' => cases hp.symm.trans hp'
    | incomplete hp' hr _ => cases hp.symm.trans hp'; exact absurd rfl hr
    | sliced hp' hr _ => simp
    | semantic hp' hb' _ => cases hp.symm.trans hp'; cases bs hb hb'
    | analysisPanics hp' hb' => simp
    | generatorPanics hp' hb' _ => simp
    | generated hp' hb' hg' => cases hp.symm.trans hp'; cases bs hb hb'; cases hg.symm.trans hg'
  | generated hp hb hg =>
    cases h' with
    | parseFailed hp' => cases hp.symm.trans hp'
    | incomplete hp' hr _ => cases hp.symm.trans hp'; exact absurd rfl hr
    | sliced hp' hr _ => cases hp.symm.trans hp'; exact absurd rfl hr
    | semantic hp' hb' _ => cases hp.symm.trans hp'; cases bs hb hb'
    | analysisPanics hp' hb' => cases hp.symm.trans hp'; cases bs hb hb'
    | generatorPanics hp' hb' hg' => cases hp.symm.trans hp'; cases bs hb hb'; cases hg.symm.trans hg'
    | generated hp' hb' hg' => cases hp.symm.trans hp'; cases bs hb hb'; cases hg.symm.trans hg'; simp

/-- **C101**, exactly: two runs can differ if and only if the schema has declarations that are never resolved and one of them
has a metadata list with two different names. -/
theorem C101_iff (g : Src.RpcGen σ) (gm : Mode) (rpc : Option σ) (t : Str) :
    (∀ r r', Runs g gm rpc t r → Runs g gm rpc t r' → r = r') ↔
      ∀ els, Parse.compileText t = some (.semantic (.unresolved els)) →
        ∀ el ∈ els, ∀ m ∈ metadataOf el, ∀ p ∈ m, ∀ q ∈ m, p.1 = q.1 := by
  have bs : ∀ {s : Schema} {x y : Ir.BRes (List Ir.Node)}, Builds s x → Builds s y → x = y := by
    intro s x y hx hy
    have := (builds_iff s _).mp hx
    rw [(builds_iff s _).mp hy] at this
    exact (Option.some.inj this).symm
  constructor
  · intro h els hc
    have : ∃ s, Parse.schemaDecl t = some ([], s) ∧ Builds s (.err (.unresolved els)) := by
      unfold Parse.compileText at hc
      split at hc
      · cases hc
      · rename_i rest s hp
        split at hc
        · rename_i hr
          subst hr
          cases hb : Ir.build s with
          | none => rw [hb] at hc; cases hc
          | some r =>
            rw [hb] at hc
            cases r with
            | ok root' => cases hc
            | err e => cases hc; exact ⟨s, hp, (builds_iff s _).mpr hb⟩
            | panic => cases hc
        · split at hc <;> cases hc
    obtain ⟨s, hp, hb⟩ := this
    refine (same_unresolved (builds_waits hb)).mp ?_
    intro x y hx hy
    have := h _ _ (.semantic hp hb hx) (.semantic hp hb hy)
    simpa using this
  · intro h r r' hr hr'
    obtain ⟨h1, h2, h3⟩ := C101_same_partial hr hr'
    cases r with
    | code ts => exact (h1 ts rfl).symm
    | panic => exact (h2 rfl).symm
    | message m =>
      obtain ⟨m', rfl⟩ := h3 m rfl
      cases hr with
      | parseFailed hp =>
        cases hr' with
        | parseFailed _ => rfl
        | incomplete hp' _ _ => cases hp.symm.trans hp'
        | semantic hp' _ _ => cases hp.symm.trans hp'
      | incomplete hp hne hs =>
        cases hr' with
        | parseFailed hp' => cases hp.symm.trans hp'
        | incomplete hp' _ hs' => cases hp.symm.trans hp'; cases hs.symm.trans hs'; rfl
        | semantic hp' _ _ => cases hp.symm.trans hp'; exact absurd rfl hne
      | @semantic s e m hp hb hm =>
        cases hr' with
        | parseFailed hp' => cases hp.symm.trans hp'
        | incomplete hp' hne _ => cases hp.symm.trans hp'; exact absurd rfl hne
        | semantic hp' hb' hm' =>
          cases hp.symm.trans hp'
          cases bs hb hb'
          have hc : Parse.compileText t = some (.semantic e) := by
            simp only [Parse.compileText, hp, if_true, (builds_iff s _).mp hb]
            rfl
          have hsame : Same (message e) := by
            by_cases hu : ∃ els, e = .unresolved els
            · obtain ⟨els, rfl⟩ := hu
              exact (same_unresolved (builds_waits hb)).mpr (h els hc)
            · exact same_message fun els he => hu ⟨els, he⟩
          rw [hsame _ _ hm hm']

end

/-! ### Two runs that differ -/

section
attribute [local instance] Parse.asciiEnv

/-- The analysis went through. -/
def isTree : Option Parse.Outcome → Bool
  | some (.tree _) => true
  | _ => false

/-- A schema with a type that is not there, on a field with two attributes. -/
def exText : Str := c!"table A { b: B (deprecated, required); }"

/-- What its table is read as. -/
def exTable : Product :=
  ⟨c!"A", [⟨c!"b", .ident [c!"B"], none, some [(c!"deprecated", none), (c!"required", none)], []⟩], none, []⟩

theorem exText_read : Parse.schemaDecl exText = some ([], ⟨[], [.table exTable]⟩) := by kernel_rfl

theorem exText_unresolved : Ir.build ⟨[], [.table exTable]⟩ = some (.err (.unresolved [.table exTable])) := by kernel_rfl

/-- **C101** is false as stated: for this text there are two runs with different messages (transform.rs 564 prints the
declarations with `{:?}`, which prints metadata in the order of a hash map). -/
theorem C101_refuted [DebugText] [Src.FloatText] {σ : Type} (g : Src.RpcGen σ) (gm : Mode) (rpc : Option σ) :
    ∃ m m', Runs g gm rpc exText (.message m) ∧ Runs g gm rpc exText (.message m') ∧ m ≠ m' := by
  have hb := (builds_iff _ _).mpr exText_unresolved
  have hn : ¬ Same (message (.unresolved [.table exTable])) := by
    intro h
    have := (same_unresolved (builds_waits hb)).mp h (.table exTable) (by simp)
      [(c!"deprecated", none), (c!"required", none)] (by simp [metadataOf, exTable]) (c!"deprecated", none) (by simp)
      (c!"required", none) (by simp)
    revert this
    decide
  unfold Same at hn
  push_neg at hn
  obtain ⟨x, y, hx, hy, hne⟩ := hn
  exact ⟨_, _, .semantic exText_read hb hx, .semantic exText_read hb hy, by simpa using hne⟩

/-- The characters of ASCII that can be seen. -/
@[instance_reducible] def asciiDebug : DebugText := ⟨fun c => 31 < c.toNat && c.toNat < 127, fun _ => []⟩

theorem txt_cat {a b : Texts} {x y : Str} (ha : a x) (hb : b y) : cat a b (x ++ y) := ⟨x, y, ha, hb, rfl⟩

/-- One of the messages, in full, and the other. -/
example [Src.FloatText] {σ : Type} (g : Src.RpcGen σ) (gm : Mode) (rpc : Option σ) :
    @Runs _ asciiDebug _ σ g gm rpc exText (.message c!"semantic analysis failed, Unable to type schema: the following definitions referenced items not found: [Table(Table { id: Ident { raw: \"A\" }, fields: [Field { id: Ident { raw: \"b\" }, ty: Ident(QualifiedIdent { parts: [Ident { raw: \"B\" }] }), default_value: None, metadata: Some(Metadata { values: {Ident { raw: \"deprecated\" }: None, Ident { raw: \"required\" }: None} }), doc: Comment { lines: [] } }], metadata: None, doc: Comment { lines: [] } })]") ∧
    @Runs _ asciiDebug _ σ g gm rpc exText (.message c!"semantic analysis failed, Unable to type schema: the following definitions referenced items not found: [Table(Table { id: Ident { raw: \"A\" }, fields: [Field { id: Ident { raw: \"b\" }, ty: Ident(QualifiedIdent { parts: [Ident { raw: \"B\" }] }), default_value: None, metadata: Some(Metadata { values: {Ident { raw: \"required\" }: None, Ident { raw: \"deprecated\" }: None} }), doc: Comment { lines: [] } }], metadata: None, doc: Comment { lines: [] } })]") := by
  letI := asciiDebug
  have hb := (builds_iff _ _).mpr exText_unresolved
  have h1 : HMap.Extend [] [(c!"deprecated", dbgOption dbgSingle none), (c!"required", dbgOption dbgSingle none)]
      [(c!"deprecated", dbgOption dbgSingle none), (c!"required", dbgOption dbgSingle none)] :=
    .cons (List.Perm.refl _) (.cons (List.Perm.swap _ _ _) (.nil _))
  have h2 : HMap.Extend [] [(c!"deprecated", dbgOption dbgSingle none), (c!"required", dbgOption dbgSingle none)]
      [(c!"required", dbgOption dbgSingle none), (c!"deprecated", dbgOption dbgSingle none)] :=
    .cons (List.Perm.refl _) (.cons (List.Perm.refl _) (.nil _))
  have m1 : ∃ m, message (.unresolved [.table exTable]) m ∧ c!"semantic analysis failed, " ++ m = c!"semantic analysis failed, Unable to type schema: the following definitions referenced items not found: [Table(Table { id: Ident { raw: \"A\" }, fields: [Field { id: Ident { raw: \"b\" }, ty: Ident(QualifiedIdent { parts: [Ident { raw: \"B\" }] }), default_value: None, metadata: Some(Metadata { values: {Ident { raw: \"deprecated\" }: None, Ident { raw: \"required\" }: None} }), doc: Comment { lines: [] } }], metadata: None, doc: Comment { lines: [] } })]" :=
    ⟨_, by repeat' first | exact rfl | apply txt_cat | refine ⟨_, h1, ?_⟩, by kernel_rfl⟩
  have m2 : ∃ m, message (.unresolved [.table exTable]) m ∧ c!"semantic analysis failed, " ++ m = c!"semantic analysis failed, Unable to type schema: the following definitions referenced items not found: [Table(Table { id: Ident { raw: \"A\" }, fields: [Field { id: Ident { raw: \"b\" }, ty: Ident(QualifiedIdent { parts: [Ident { raw: \"B\" }] }), default_value: None, metadata: Some(Metadata { values: {Ident { raw: \"required\" }: None, Ident { raw: \"deprecated\" }: None} }), doc: Comment { lines: [] } }], metadata: None, doc: Comment { lines: [] } })]" :=
    ⟨_, by repeat' first | exact rfl | apply txt_cat | refine ⟨_, h2, ?_⟩, by kernel_rfl⟩
  obtain ⟨m, hm, e⟩ := m1
  obtain ⟨m', hm', e'⟩ := m2
  exact ⟨e ▸ .semantic exText_read hb hm, e' ▸ .semantic exText_read hb hm'⟩

/-- Where nothing is missing, runs agree. -/
example [DebugText] [Src.FloatText] {σ : Type} (g : Src.RpcGen σ) (gm : Mode) (rpc : Option σ) :
    ∀ r r', Runs g gm rpc c!"table A { b: B (deprecated, required); } table B { }" r →
      Runs g gm rpc c!"table A { b: B (deprecated, required); } table B { }" r' → r = r' := by
  refine (C101_iff g gm rpc _).mpr fun els h => ?_
  have : isTree (Parse.compileText c!"table A { b: B (deprecated, required); } table B { }") = true := by kernel_rfl
  rw [h] at this
  cases this

end

end Butte.Hash
