import Verif.Props.Files
import Verif.Props.Tokens
import Verif.Src.Words
/-
Property C83: the text that is written to the output, read as Rust, is the emitted program.
-/
namespace Butte.Src
open Ir (QIdent Node Ident itemsOf OneNamespace InOrder lastNs build)
open Rs (Program Setting WellTyped legalName emit Worded Compilable CompilableTo Lawful Delivers)
open Gen (nsOf)
open Cli (Render World Path Makes given put)

/-- Text that is the source of a program: its lexemes (`Src/Lex`: Rust's rules for white space, names, lifetimes, numbers, strings
and signs) are those of tokens that can be read as a source file, which is the program. -/
def IsText (text : Str) (P : Program) : Prop := ∃ ls ts, lex text = some ls ∧ Ir.All₂ Denotes ls ts ∧ IsSource ts P

/-- What is assumed about `Display for TokenStream`: tokens that can be written are written in one of the ways of `Spelled`. -/
class LawfulRender [Render] : Prop where
  spelled : ∀ {ts : Toks}, Spellable ts → Spelled ts (Render.text ts)

/-- **C83** There is such a way to write tokens. -/
theorem C83_lawful : ∃ r : Render, @LawfulRender r := ⟨⟨spaced⟩, @LawfulRender.mk ⟨spaced⟩ fun h => spelled_spaced h⟩

/-- **C83** Tokens that are written in any way are read back, whatever white space there is and however characters are escaped. -/
theorem C83_read {ts : Toks} {text : Str} (h : Spelled ts text) : ∃ ls, lex text = some ls ∧ Ir.All₂ Denotes ls ts := spelled_read h

/-- The same tokens, but for numbers, which are written the same and have the same value. -/
def SameTok (t t' : Tok) : Prop :=
  t = t' ∨ ∃ x y, t.number = some x ∧ t'.number = some y ∧ ∀ v w, Rs.litValue x = some v → Rs.litValue y = some w → v = w

/-- **C83** No text can be written for two different lists of tokens. -/
theorem C83_unique {ts ts' : Toks} {text : Str} (h : Spelled ts text) (h' : Spelled ts' text) : Ir.All₂ SameTok ts ts' := by
  obtain ⟨ls, h1, h2⟩ := spelled_read h
  obtain ⟨ls', h1', h2'⟩ := spelled_read h'
  rw [h1] at h1'
  obtain rfl := Option.some.inj h1'
  clear h1 h h' h1'
  induction h2 generalizing ts' with
  | nil => cases h2'; exact .nil
  | cons a _ ih =>
    cases h2' with
    | cons b r => exact .cons (denotes_unique a b) (ih r)

/-- **C83** Numbers: what stands in the text for a number that has a value are digits and the name of the type, with a point only if
that is a floating type, and the value is the number that the digits are, of a floating type the nearest float. -/
theorem C83_number {ts : Toks} {text : Str} (h : Spelled ts text) : ∃ ls, lex text = some ls ∧ Ir.All₂ (fun l t =>
    ∀ x v, t.number = some x → Rs.litValue x = some v → ∃ ip fp ty y, l = .num ip fp (Rs.primName ty) ∧ v = .scalar ty y ∧
      (ty = .f32 → y.val = roundBits 8 23 (Parse.digitsVal 10 (ip ++ fp.getD [])) (10 ^ (fp.getD []).length)) ∧
      (ty = .f64 → y.val = roundBits 11 52 (Parse.digitsVal 10 (ip ++ fp.getD [])) (10 ^ (fp.getD []).length)) ∧
      (ty ≠ .f32 → ty ≠ .f64 → fp = none ∧ y.val = Parse.digitsVal 10 ip)) ls ts := by
  obtain ⟨ls, h1, h2⟩ := spelled_read h
  refine ⟨ls, h1, ?_⟩
  clear h1 h
  induction h2 with
  | nil => exact .nil
  | @cons l t _ _ a _ ih =>
    refine .cons (fun x v hx hv => ?_) ih
    cases l with
    | num ip fp s =>
      obtain ⟨ty, y, rfl, rfl, h3, h4⟩ := denotes_value a hx hv
      refine ⟨ip, fp, ty, y, rfl, rfl, ?_, ?_, fun h5 h6 => ⟨h4 h5 h6, ?_⟩⟩
      · rintro rfl; exact h3
      · rintro rfl; exact h3
      · rw [h3]; cases ty <;> first | rfl | exact absurd rfl h5 | exact absurd rfl h6
    | _ => cases a; cases hx

/-- Tokens with values: a double for an integer type, and one for a float. -/
example : (∃ text, Spelled [.punct .minus, .float ⟨0x4014000000000000, by decide⟩ c!"i32",
      .float ⟨0x3ff8000000000000, by decide⟩ c!"f32"] text) ∧
    (∃ v, Rs.litValue (.float ⟨0x4014000000000000, by decide⟩ c!"i32") = some v) ∧
    ∃ v, Rs.litValue (.float ⟨0x3ff8000000000000, by decide⟩ c!"f32") = some v := by
  refine ⟨⟨_, spelled_spaced ?_⟩, ?_, ?_⟩
  · intro t ht
    simp only [List.mem_cons, List.not_mem_nil, or_false] at ht
    rcases ht with rfl | rfl | rfl
    · trivial
    · exact ⟨by decide, by decide, by decide⟩
    · exact ⟨by decide, by decide, by decide⟩
  · exact Option.isSome_iff_exists.mp (by decide +kernel)
  · exact Option.isSome_iff_exists.mp (by decide +kernel)

section
variable [FloatText] [Render] [LawfulRender]

/-- **C83** of a well-typed program. -/
theorem text_of {gm : Mode} {s : Ast.Schema} {out : List Node} {P : Program} (hb : build s = some (.ok out))
    (S : Setting gm s.elements out P) (W : WellTyped P) (A : Ascii s.elements)
    (hc : ∀ p t, (p, Node.table t) ∈ itemsOf out → ∃ gs, Gen.compileTable gm t = some gs) :
    ∃ ts, tokens gm out = some ts ∧ IsText (Render.text ts) P := by
  obtain ⟨ts, ht, hs⟩ := source_of hb S W hc
  obtain ⟨ls, h1, h2⟩ := spelled_read
    (LawfulRender.spelled (tokens_spellable (treeWords hb S W A hc fun x hx => (Gen.item_facts hb hx).1) ht))
  exact ⟨ts, ht, ls, ts, h1, h2, hs⟩

/-- **C83** in one namespace. -/
theorem build_text {s : Ast.Schema} {out : List Node} (h1 : OneNamespace s.elements) (hb : build s = some (.ok out))
    {gm : Mode} (hwd : Worded s.elements) (hg : Compilable gm s.elements) (L : Lawful s.elements)
    (hm : ∀ m ∈ nsOf s.elements, legalName (Heck.snake m) = true) (A : Ascii s.elements) :
    ∃ ts P, tokens gm out = some ts ∧ IsText (Render.text ts) P ∧ WellTyped P ∧ Delivers gm s.elements out P := by
  obtain ⟨P, hP, W, hD⟩ := Rs.build_compiles h1 hb hwd hg L hm
  have S := Rs.setting_one h1 hb hP W.1 hg.free hg.freeModules
  obtain ⟨ts, ht, hs⟩ := text_of hb S W A fun p t hx => Gen.C72_all_partial (.inl h1) hb gm hg.tables hx
  exact ⟨ts, P, ht, hs, W, hD⟩

/-- **C83** with several namespaces, declared before use. -/
theorem build_text_several {s : Ast.Schema} {out : List Node} (h : OneNamespace s.elements ∨ InOrder s.elements)
    (hb : build s = some (.ok out)) {gm : Mode} (hwd : Worded s.elements) (hg : CompilableTo gm s.elements out)
    (L : Lawful s.elements) (hm : ∀ x ∈ itemsOf out, ∀ m ∈ x.1, legalName (Heck.snake m) = true) (A : Ascii s.elements) :
    ∃ ts P, tokens gm out = some ts ∧ IsText (Render.text ts) P ∧ WellTyped P ∧ Delivers gm s.elements out P := by
  obtain ⟨P, hP, W, hD⟩ := Rs.build_compiles_several h hb hwd hg L hm
  have S := Rs.setting_of h hb hP W.1
    (Gen.C70_partial h hb (Rs.emitNodes_names gm [] out P hP) fun x hx q hq => ⟨(hg.paths x hx q hq).1, (hg.paths x hx q hq).2.2⟩) hg.free
  obtain ⟨ts, ht, hs⟩ := text_of hb S W A fun p t hx => Gen.C72_all_partial h hb gm hg.tables hx
  exact ⟨ts, P, ht, hs, W, hD⟩

/-! ### From the text of the schema to the text of the code -/

section
variable [Parse.Env]

/-- **C83** From the bytes of any schema that the compiler accepts, whose names are in ASCII, whose types are all in one namespace
and which meets the conditions of C79, the compiler makes bytes that are the text of a program; the program is well-typed, and
it works. Full statement: the same for all names, and also with `rustfmt`. -/
theorem C83_makes_partial (hx : Parse.HexfPrefix) {txt : Str} {s : Ast.Schema} {out : List Node}
    (hp : Parse.schemaDecl txt = some ([], s)) (hc : Parse.compileText txt = some (.tree out)) (h : OneNamespace s.elements)
    {gm : Mode} (hg : Compilable gm s.elements) (L : Lawful s.elements)
    (hm : ∀ m ∈ nsOf s.elements, legalName (Heck.snake m) = true) (A : Ascii s.elements) (rustfmt : Bytes → Option Bytes) :
    ∃ code P, Makes gm true rustfmt (Parse.utf8 txt) (Parse.utf8 code) ∧ IsText code P ∧ WellTyped P ∧
      Delivers gm s.elements out P := by
  obtain ⟨ts, P, h1, h2, h3⟩ := build_text h ((Gen.compileText_build hp).mp hc) (.of_text (Parse.C61_sound hx hp)) hg L hm A
  exact ⟨_, P, ⟨txt, out, ts, rfl, hc, h1, rfl⟩, h2, h3⟩

/-- **C83** with several namespaces, declared before use. -/
theorem C83_several_partial (hx : Parse.HexfPrefix) {txt : Str} {s : Ast.Schema} {out : List Node}
    (hp : Parse.schemaDecl txt = some ([], s)) (hc : Parse.compileText txt = some (.tree out))
    (h : OneNamespace s.elements ∨ InOrder s.elements) {gm : Mode} (hg : CompilableTo gm s.elements out)
    (L : Lawful s.elements) (hm : ∀ x ∈ itemsOf out, ∀ m ∈ x.1, legalName (Heck.snake m) = true) (A : Ascii s.elements)
    (rustfmt : Bytes → Option Bytes) :
    ∃ code P, Makes gm true rustfmt (Parse.utf8 txt) (Parse.utf8 code) ∧ IsText code P ∧ WellTyped P ∧
      Delivers gm s.elements out P := by
  obtain ⟨ts, P, h1, h2, h3⟩ :=
    build_text_several h ((Gen.compileText_build hp).mp hc) (.of_text (Parse.C61_sound hx hp)) hg L hm A
  exact ⟨_, P, ⟨txt, out, ts, rfl, hc, h1, rfl⟩, h2, h3⟩

/-- **C83** of the command line, with `--ugly`: it succeeds, and what is in the output file (or on standard output) is the text
of a program that is well-typed and works. -/
theorem C83_main_partial (hx : Parse.HexfPrefix) {txt : Str} {s : Ast.Schema} {out : List Node}
    (hp : Parse.schemaDecl txt = some ([], s)) (hc : Parse.compileText txt = some (.tree out))
    (h : OneNamespace s.elements ∨ InOrder s.elements) {gm : Mode} (hg : CompilableTo gm s.elements out)
    (L : Lawful s.elements) (hm : ∀ x ∈ itemsOf out, ∀ m ∈ x.1, legalName (Heck.snake m) = true) (A : Ascii s.elements)
    {w : World} {i o : Option Path} (hi : given w i = some (Parse.utf8 txt)) (ho : ∀ p, o = some p → w.creatable p = true)
    (hio : i = none ∨ i ≠ o) :
    ∃ code P, Cli.main gm i o true w = (put w (Parse.utf8 code) o, .ok) ∧ IsText code P ∧ WellTyped P ∧
      Delivers gm s.elements out P := by
  obtain ⟨code, P, h1, h2⟩ := C83_several_partial hx hp hc h hg L hm A w.rustfmt
  refine ⟨code, P, (Cli.C82_main ..).mpr ⟨_, _, hi, ho, ?_, rfl⟩, h2⟩
  rw [if_neg]
  · exact h1
  · rintro ⟨k1, k2⟩
    rcases hio with rfl | hio
    · cases k1
    · exact hio k2

end
end

/-! ### A schema text -/

theorem exRead_ascii : Ascii Gen.exRead.elements := by
  constructor
  · intro q d h
    simp only [Gen.exRead, Ir.exNs, Ir.exUnion, List.mem_cons, reduceCtorEq, List.not_mem_nil, or_false,
      Ast.Element.namespace.injEq] at h
    obtain ⟨rfl, rfl⟩ := h
    decide
  · intro t h
    have hd : ∀ f : Ast.Field, f.default = some (.ident c!"Blue") ∨ (∀ i, f.default ≠ some (.ident i)) →
        ∀ i, f.default = some (.ident i) → Chars i := by
      rintro f (h | h) i hi
      · rw [h] at hi
        cases hi
        decide
      · exact absurd hi (h i)
    simp only [Gen.exRead, Ir.exNs, Ir.exUnion, List.mem_cons, reduceCtorEq, List.not_mem_nil, or_false, false_or,
      Ast.Element.table.injEq] at h
    rcases h with rfl | rfl
    all_goals
      refine ⟨by decide, fun f hf => ?_⟩
      simp only [List.mem_cons, List.not_mem_nil, or_false] at hf
    · rcases hf with rfl | rfl <;> exact ⟨by decide, nofun⟩
    · rcases hf with rfl | rfl | rfl | rfl | rfl
      · exact ⟨by decide, hd _ (.inl rfl)⟩
      all_goals exact ⟨by decide, nofun⟩
  · intro t h
    simp only [Gen.exRead, Ir.exNs, Ir.exUnion, List.mem_cons, reduceCtorEq, List.not_mem_nil, or_false] at h
  · intro e h
    simp only [Gen.exRead, Ir.exNs, Ir.exUnion, List.mem_cons, reduceCtorEq, List.not_mem_nil, or_false, false_or,
      Ast.Element.enum.injEq] at h
    subst h
    decide
  · intro e h
    simp only [Gen.exRead, Ir.exNs, Ir.exUnion, List.mem_cons, reduceCtorEq, List.not_mem_nil, or_false, false_or,
      Ast.Element.union.injEq] at h
    subst h
    decide
  · intro t h
    simp only [Gen.exRead, Ir.exNs, Ir.exUnion, List.mem_cons, reduceCtorEq, List.not_mem_nil, or_false] at h

theorem exTwo_ascii : Ascii (Gen.exTwo c!"assets" c!"Mesh" [c!"Game", c!"World"]).elements := by
  constructor
  · intro q d h
    simp only [Gen.exTwo, Ir.exNs, Ir.exTable, List.mem_cons, reduceCtorEq, List.not_mem_nil, or_false, false_or,
      Ast.Element.namespace.injEq] at h
    rcases h with ⟨rfl, rfl⟩ | ⟨rfl, rfl⟩ <;> decide
  · intro t h
    simp only [Gen.exTwo, Ir.exNs, Ir.exTable, List.mem_cons, reduceCtorEq, List.not_mem_nil, or_false, false_or,
      Ast.Element.table.injEq] at h
    rcases h with rfl | rfl
    · exact ⟨by decide, nofun⟩
    · refine ⟨by decide, fun f hf => ?_⟩
      simp only [List.mem_cons, List.not_mem_nil, or_false] at hf
      subst hf
      exact ⟨by decide, nofun⟩
  all_goals
    intro t h
    simp only [Gen.exTwo, Ir.exNs, Ir.exTable, List.mem_cons, reduceCtorEq, List.not_mem_nil, or_false] at h

section
attribute [local instance] Parse.asciiEnv
variable [FloatText] [Render] [LawfulRender]

/-- The compiler writes the text of a program that is well-typed and works. -/
example (gm : Mode) (rustfmt : Bytes → Option Bytes) : ∃ out code P, Parse.compileText Gen.exText = some (.tree out) ∧
    Makes gm true rustfmt (Parse.utf8 Gen.exText) (Parse.utf8 code) ∧ IsText code P ∧ WellTyped P ∧
    Delivers gm Gen.exRead.elements out P := by
  obtain ⟨out, hc, -⟩ := Gen.exText_delivers gm
  obtain ⟨code, P, h⟩ := C83_makes_partial (fun _ _ h => by cases h) Gen.exText_reads hc Gen.exRead_one
    (Rs.exRead_compilable gm) Rs.exRead_lawful (by decide) exRead_ascii rustfmt
  exact ⟨out, code, P, hc, h⟩

/-- With two namespaces. -/
example (gm : Mode) (rustfmt : Bytes → Option Bytes) : ∃ out code P, Parse.compileText Rs.exText2 = some (.tree out) ∧
    Makes gm true rustfmt (Parse.utf8 Rs.exText2) (Parse.utf8 code) ∧ IsText code P ∧ WellTyped P := by
  obtain ⟨out, hc, hg, L, hm⟩ := Rs.exText2_hyps gm
  obtain ⟨code, P, h1, h2, h3, -⟩ := C83_several_partial (fun _ _ h => by cases h) Rs.exText2_reads hc
    (.inr (Gen.exTwo_order _ _ _)) hg L hm exTwo_ascii rustfmt
  exact ⟨out, code, P, hc, h1, h2, h3⟩

/-- The command line, from a file to another. -/
example (gm : Mode) : let w : World := ⟨fun p => if p = c!"a.fbs" then some (Parse.utf8 Rs.exText2) else none, fun _ => true, [], [],
      none, fun _ => none⟩
    ∃ code P, Cli.main gm (some c!"a.fbs") (some c!"a.rs") true w = (w.set c!"a.rs" (Parse.utf8 code), .ok) ∧ IsText code P ∧
      WellTyped P := by
  obtain ⟨out, hc, hg, L, hm⟩ := Rs.exText2_hyps gm
  obtain ⟨code, P, h1, h2, h3, -⟩ := C83_main_partial (fun _ _ h => by cases h) Rs.exText2_reads hc
    (.inr (Gen.exTwo_order _ _ _)) hg L hm exTwo_ascii (w := ⟨fun p => if p = c!"a.fbs" then some (Parse.utf8 Rs.exText2) else none,
      fun _ => true, [], [], none, fun _ => none⟩) (i := some c!"a.fbs") (o := some c!"a.rs") rfl
    (fun _ _ => rfl) (.inr (by decide))
  exact ⟨code, P, h1, h2, h3⟩

end

end Butte.Src
