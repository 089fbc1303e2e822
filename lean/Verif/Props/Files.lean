import Verif.Cli.FilesOk
import Verif.Parse.Ascii
import Verif.Tests.Kernel
/-
Property C82: the compiler as a program: which files are read and written, and what is in them.
-/
namespace Butte.Cli
open Src (Toks FloatText RpcGen CodeGenerator tokens)

section
variable [Parse.Env] [FloatText] [Render]

/-- From the bytes of a schema to those of its code: the bytes are the text of a schema that the analysis accepts, the
generator gets through, and the code is the text of its tokens, if it is not `ugly` as `rustfmt` writes it. -/
def Makes (gm : Mode) (ugly : Bool) (rustfmt : Bytes → Option Bytes) (b c : Bytes) : Prop :=
  ∃ t root ts, b = Parse.utf8 t ∧ Parse.compileText t = some (.tree root) ∧ tokens gm root = some ts ∧
    (if ugly then some (Parse.utf8 (Render.text ts)) else rustfmt (Parse.utf8 (Render.text ts))) = some c

theorem produce_text {gm : Mode} {ugly : Bool} {σ : Type} {g : RpcGen σ} {w : World} {b c : Bytes} :
    produce gm ugly g none w b = .text c ↔ Makes gm ugly w.rustfmt b c := by
  rw [produce, Makes]
  cases hd : decode b with
  | none =>
    refine iff_of_false nofun ?_
    rintro ⟨t, -, -, h, -⟩
    rw [decode_some.mpr h] at hd
    cases hd
  | some t =>
    have hb := decode_some.mp hd
    have ht : ∀ t', b = Parse.utf8 t' → t' = t := fun t' h => by
      rw [decode_some.mpr h] at hd
      exact Option.some.inj hd
    simp only
    generalize hc : Parse.compileText t = o
    match o with
    | some (.tree root) =>
      simp only [Src.C81_none]
      constructor
      · intro h
        cases hts : tokens gm root with
        | none => rw [hts] at h; exact nomatch h
        | some ts =>
          rw [hts] at h
          refine ⟨t, root, ts, hb, hc, hts, ?_⟩
          simp only [Option.map_some, finish] at h
          split at h
          · rename_i hu; rw [if_pos hu]; injection h with h; rw [h]
          · rename_i hu
            rw [if_neg hu]
            split at h
            · rename_i hf; injection h with h; rw [hf, h]
            · cases h
      · rintro ⟨t', root', ts, h1, h2, h3, h4⟩
        rw [ht t' h1, hc] at h2
        cases h2
        rw [h3]
        simp only [Option.map_some, finish]
        split at h4
        · rename_i hu; rw [if_pos hu]; injection h4 with h4; rw [h4]
        · rename_i hu; rw [if_neg hu, h4]
    | none | some .parseFailed | some (.incomplete _) | some (.semantic _) | some .panic =>
      refine iff_of_false nofun ?_
      rintro ⟨t', root', ts, h1, h2, h3, h4⟩
      rw [ht t' h1, hc] at h2
      exact nomatch h2

omit [FloatText] [Render] in
theorem compileText_some (t : Str) : Parse.compileText t ≠ none := by
  rw [Parse.compileText]
  split
  · nofun
  · split
    · obtain ⟨r, hr⟩ := (Ir.C45_terminates _).1
      rw [hr]
      nofun
    · split <;> nofun

theorem produce_failed {gm : Mode} {ugly : Bool} {σ : Type} {g : RpcGen σ} {rpc : Option σ} {w : World} {b : Bytes} {r : Reply}
    (h : produce gm ugly g rpc w b = .failed r) : r ≠ .ok ∧ r ≠ .loops := by
  rw [produce] at h
  split at h
  · cases h; exact ⟨nofun, nofun⟩
  · rename_i t _
    split at h
    · rename_i hn; exact absurd hn (compileText_some t)
    · cases h; exact ⟨nofun, nofun⟩
    · cases h; exact ⟨nofun, nofun⟩
    · cases h; exact ⟨nofun, nofun⟩
    · cases h; exact ⟨nofun, nofun⟩
    · split at h
      · cases h; exact ⟨nofun, nofun⟩
      · rw [finish] at h
        split at h
        · cases h
        · split at h
          · cases h
          · cases h; exact ⟨nofun, nofun⟩

theorem makes_functional {gm : Mode} {ugly : Bool} {f : Bytes → Option Bytes} {b c c' : Bytes} (h : Makes gm ugly f b c)
    (h' : Makes gm ugly f b c') : c = c' := by
  have e := fun c => produce_text (gm := gm) (ugly := ugly) (σ := Unit) (g := ⟨fun _ _ _ => none⟩)
    (w := ⟨fun _ => none, fun _ => true, [], [], none, f⟩) (b := b) (c := c)
  have h1 := (e c).mpr h
  rw [(e c').mpr h'] at h1
  cases h1
  rfl

theorem generic_ok {gm : Mode} {ugly : Bool} {σ : Type} {g : RpcGen σ} {i : In} {o : Out} {w w' : World} :
    compileFbsGeneric gm ugly g none i o w = (w', .ok) ↔ ∃ c, Makes gm ugly w.rustfmt (w.read i) c ∧ w' = w.write c o := by
  rw [compileFbsGeneric]
  cases h : produce gm ugly g none w (w.read i) with
  | text c =>
    rw [produce_text] at h
    constructor
    · intro e; cases e; exact ⟨c, h, rfl⟩
    · rintro ⟨c', h', rfl⟩
      rw [makes_functional h h']
  | failed r =>
    refine iff_of_false ?_ ?_
    · intro e
      injection e with _ e
      exact (produce_failed h).1 e
    · rintro ⟨c, h', -⟩
      rw [produce_text.mpr h'] at h
      cases h

theorem generic_fails {gm : Mode} {ugly : Bool} {σ : Type} {g : RpcGen σ} {rpc : Option σ} {i : In} {o : Out} {w w' : World}
    {r : Reply} (h : compileFbsGeneric gm ugly g rpc i o w = (w', r)) (hr : r ≠ .ok) : w' = w ∧ r ≠ .loops := by
  rw [compileFbsGeneric] at h
  split at h
  · cases h; exact absurd rfl hr
  · rename_i hp
    cases h
    exact ⟨rfl, (produce_failed hp).2⟩

/-! ### `compile_fbs` -/

/-- Where `compile_fbs` writes. -/
def Target (w : World) (path out : Path) : Prop := ∃ d n, w.outDir = some d ∧ rsName path = some n ∧ out = join d n

/-- **C82** `compile_fbs` succeeds exactly when there is a place for the output, the schema can be opened, the output can be
created, and the schema can be made into code; then that place holds the code, and nothing else has changed. -/
theorem C82_ok (gm : Mode) (path : Path) (w w' : World) : compileFbs gm path w = (w', .ok) ↔
    ∃ out b c, Target w path out ∧ w.files path = some b ∧ w.creatable out = true ∧
      Makes gm false w.rustfmt (if path = out then [] else b) c ∧ w' = w.set out c := by
  rw [compileFbs]
  constructor
  · intro h
    cases hd : w.outDir with
    | none => rw [hd] at h; exact nomatch h
    | some d =>
      cases hn : rsName path with
      | none => rw [hd, hn] at h; exact nomatch h
      | some n =>
        cases hb : w.files path with
        | none => rw [hd, hn, World.open, hb] at h; exact nomatch h
        | some b =>
          cases hc : w.creatable (join d n) with
          | false => simp [hd, hn, World.open, hb, World.create, hc] at h
          | true =>
            simp only [hd, hn, World.open, hb, World.create, hc, Option.map_some, if_true] at h
            obtain ⟨c, h1, h2⟩ := generic_ok.mp h
            refine ⟨_, b, c, ⟨d, n, hd, hn, rfl⟩, rfl, hc, ?_, ?_⟩
            · rw [World.read, World.set_files, hb] at h1
              split at h1
              · rename_i he; rw [if_pos he]; exact h1
              · rename_i he; rw [if_neg he]; exact h1
            · rw [h2, World.write, World.set_set]
  · rintro ⟨-, b, c, ⟨d, n, hd, hn, rfl⟩, hb, hc, hm, rfl⟩
    simp only [hd, hn, World.open, hb, World.create, hc, Option.map_some, if_true]
    refine generic_ok.mpr ⟨c, ?_, ?_⟩
    · rw [World.read, World.set_files, hb]
      split at hm
      · rename_i he; rw [if_pos he]; exact hm
      · rename_i he; rw [if_neg he]; exact hm
    · rw [World.write, World.set_set]

/-- **C82** When `compile_fbs` fails (an error or a panic, never an endless analysis), no file but the output has changed; the
output has been emptied, unless it could not be created, the schema could not be opened or there is no place for the output. -/
theorem C82_fails (gm : Mode) (path : Path) (w w' : World) (r : Reply) (h : compileFbs gm path w = (w', r)) (hr : r ≠ .ok) :
    r ≠ .loops ∧
      ((∃ out b, Target w path out ∧ w.files path = some b ∧ w.creatable out = true ∧ w' = w.set out []) ∨
        (¬ ∃ out b, Target w path out ∧ w.files path = some b ∧ w.creatable out = true) ∧ w' = w) := by
  rw [compileFbs] at h
  cases hd : w.outDir with
  | none =>
    rw [hd] at h; cases h
    refine ⟨nofun, .inr ⟨?_, rfl⟩⟩
    rintro ⟨_, _, ⟨d, n, e, -⟩, -⟩
    rw [hd] at e; cases e
  | some d =>
    cases hn : rsName path with
    | none =>
      rw [hd, hn] at h; cases h
      refine ⟨nofun, .inr ⟨?_, rfl⟩⟩
      rintro ⟨_, _, ⟨d, n, -, e, -⟩, -⟩
      rw [hn] at e; cases e
    | some n =>
      cases hb : w.files path with
      | none =>
        rw [hd, hn, World.open, hb] at h; cases h
        refine ⟨nofun, .inr ⟨?_, rfl⟩⟩
        rintro ⟨_, _, -, e, -⟩
        cases e
      | some b =>
        cases hc : w.creatable (join d n) with
        | false =>
          simp only [hd, hn, World.open, hb, World.create, hc, Option.map_some, Bool.false_eq_true, if_false] at h; cases h
          refine ⟨nofun, .inr ⟨?_, rfl⟩⟩
          rintro ⟨_, _, ⟨d', n', e, e', rfl⟩, -, e''⟩
          rw [hd] at e; rw [hn] at e'; cases e; cases e'
          rw [hc] at e''; cases e''
        | true =>
          simp only [hd, hn, World.open, hb, World.create, hc, Option.map_some, if_true] at h
          obtain ⟨h1, h2⟩ := generic_fails h hr
          exact ⟨h2, .inl ⟨_, b, ⟨d, n, hd, hn, rfl⟩, rfl, hc, h1⟩⟩

omit [Parse.Env] [FloatText] [Render] in
/-- **C82** The code for `dir/name.fbs` (or `name.fbs`) goes to the file that `include_fbs!("name")` includes. -/
theorem C82_included {w : World} {D : Path} (hD : w.outDir = some D) (h0 : D ≠ []) (h1 : D.getLast? ≠ some '/') {name : Str}
    (hn : name ≠ []) (hs : '/' ∉ name) {path : Path}
    (hp : path = name ++ c!".fbs" ∨ ∃ dir, path = dir ++ c!"/" ++ name ++ c!".fbs") (out : Path) :
    Target w path out ↔ out = included D name := by
  have hf : fileName path = some (name ++ c!".fbs") := by
    have k1 : '/' ∉ name ++ c!".fbs" := by simp [hs]
    have k0 : name ++ c!".fbs" ≠ [] := by simp
    have k2 : name ++ c!".fbs" ≠ c!"." := by
      intro e
      have := congrArg List.length e
      simp at this
    have k3 : name ++ c!".fbs" ≠ c!".." := by
      intro e
      have := congrArg List.length e
      simp at this
    rcases hp with rfl | ⟨dir, rfl⟩
    · exact fileName_plain k1 k0 k2 k3
    · rw [List.append_assoc, List.append_assoc]
      exact fileName_slash k1 k0 k2 k3
  have hr : rsName path = some (name ++ c!".rs") := by
    rw [rsName, hf, Option.map_some]
    congr 2
    exact stem_append hn (by decide)
  rw [Target]
  constructor
  · rintro ⟨d, n, e1, e2, rfl⟩
    rw [hD] at e1; rw [hr] at e2; cases e1; cases e2
    exact join_included h0 h1 name
  · rintro rfl
    exact ⟨D, _, hD, hr, (join_included h0 h1 name).symm⟩

/-! ### Build scripts -/

omit [Parse.Env] [FloatText] [Render] in
theorem join_inj {d : Path} {n n' : Str} (h : join d n = join d n') : n = n' := by
  rw [join, join] at h
  split at h
  · exact List.append_cancel_left h
  · have := List.append_cancel_left h
    injection this

omit [Parse.Env] [FloatText] [Render] in
theorem Target.set {w : World} {q : Path} {b : Bytes} {p out : Path} : Target (w.set q b) p out ↔ Target w p out := Iff.rfl

/-- **C82** A build script that compiles schemas of different names, none of which lies where an output goes: when it succeeds,
the code of every schema is in its place, and nothing else has changed. -/
theorem C82_all (gm : Mode) (ps : List Path) (w w' : World) (h : compileAll gm ps w = (w', .ok))
    (hn : (ps.map rsName).Nodup) (hi : ∀ p ∈ ps, ∀ q ∈ ps, ¬ Target w q p) :
    (∀ p ∈ ps, ∃ out b c, Target w p out ∧ w.files p = some b ∧ Makes gm false w.rustfmt b c ∧ w'.files out = some c) ∧
      (∀ q, (∀ p ∈ ps, ¬ Target w p q) → w'.files q = w.files q) ∧
      w'.stdout = w.stdout := by
  induction ps generalizing w with
  | nil =>
    rw [compileAll] at h
    cases h
    exact ⟨nofun, fun _ _ => rfl, rfl⟩
  | cons p ps ih =>
    rw [compileAll] at h
    split at h
    · rename_i w1 h1
      obtain ⟨out, b, c, ht, hb, -, hm, rfl⟩ := (C82_ok gm p w w1).mp h1
      have hne : p ≠ out := by
        rintro rfl
        exact hi _ List.mem_cons_self _ List.mem_cons_self ht
      rw [if_neg hne] at hm
      rw [List.map_cons, List.nodup_cons] at hn
      obtain ⟨i1, i2, i3⟩ := ih _ h hn.2 fun a ha q hq => hi a (List.mem_cons_of_mem _ ha) q (List.mem_cons_of_mem _ hq)
      refine ⟨?_, ?_, i3⟩
      · intro q hq
        rcases List.mem_cons.mp hq with rfl | hq
        · refine ⟨out, b, c, ht, hb, hm, ?_⟩
          rw [i2 out, World.set_files, if_pos rfl]
          rintro a ha ⟨d', n', e1, e2, e3⟩
          obtain ⟨d, n, t1, t2, t3⟩ := ht
          have : d' = d := by rw [World.set_outDir, t1] at e1; cases e1; rfl
          subst this
          rw [t3] at e3
          have := join_inj e3
          subst this
          exact hn.1 (List.mem_map.mpr ⟨a, ha, e2.trans t2.symm⟩)
        · obtain ⟨out', b', c', t', k1, k2, k3⟩ := i1 q hq
          refine ⟨out', b', c', t', ?_, k2, k3⟩
          rw [World.set_files] at k1
          split at k1
          · rename_i he
            exact absurd (he ▸ ht) (hi q (List.mem_cons_of_mem _ hq) p List.mem_cons_self)
          · exact k1
      · intro q hq
        rw [i2 q fun a ha => hq a (List.mem_cons_of_mem _ ha), World.set_files, if_neg]
        rintro rfl
        exact hq p List.mem_cons_self ht
    · rename_i r hr h1
      cases h
      exact absurd rfl hr

/-! ### The command line -/

/-- What the command line reads. -/
def given (w : World) : Option Path → Option Bytes
  | some p => w.files p
  | none => some w.stdin

/-- What the command line writes. -/
def put (w : World) (c : Bytes) : Option Path → World
  | some p => w.set p c
  | none => { w with stdout := w.stdout ++ c }

/-- **C82** The command line succeeds exactly when the input can be opened, the output created, and the schema made into code;
then the output is the code, and nothing else has changed. -/
theorem C82_main (gm : Mode) (i o : Option Path) (ugly : Bool) (w w' : World) : main gm i o ugly w = (w', .ok) ↔
    ∃ b c, given w i = some b ∧ (∀ p, o = some p → w.creatable p = true) ∧
      Makes gm ugly w.rustfmt (if i.isSome ∧ i = o then [] else b) c ∧ w' = put w c o := by
  rw [main]
  cases i with
  | none =>
    cases o with
    | none => simp [mainIn, mainOut, generic_ok, given, put, World.read, World.write]
    | some q =>
      cases hc : w.creatable q <;>
        simp [mainIn, mainOut, World.create, hc, generic_ok, given, put, World.read, World.write, World.set_set]
      simp [World.set]
  | some p =>
    cases hb : w.files p with
    | none => simp [mainIn, World.open, hb, given]
    | some b =>
      cases o with
      | none => simp [mainIn, mainOut, World.open, hb, generic_ok, given, put, World.read, World.write]
      | some q =>
        cases hc : w.creatable q
        · simp [mainIn, mainOut, World.open, World.create, hb, hc, given]
        · by_cases he : p = q
          · subst he
            simp [mainIn, mainOut, World.open, World.create, hb, hc, generic_ok, given, put, World.read, World.write,
              World.set_set]
          · simp [mainIn, mainOut, World.open, World.create, hb, hc, generic_ok, given, put, World.read, World.write,
              World.set_set, he]

/-! ### What goes wrong -/

/-- **C82** that the command line keeps the schema is false: with the same file as input and output, the schema is gone before it
is read. Whatever was in the file, it is taken for the empty schema, and the compiler reports success. -/
theorem C82_in_place (gm : Mode) (p : Path) (w : World) (b : Bytes) (hb : w.files p = some b) (hc : w.creatable p = true) :
    main gm (some p) (some p) true w = (w.set p (Parse.utf8 (Render.text [])), .ok) := by
  refine (C82_main ..).mpr ⟨b, _, hb, fun q e => by cases e; exact hc, ?_, rfl⟩
  rw [if_pos ⟨rfl, rfl⟩]
  exact ⟨[], [], [], rfl, rfl, rfl, rfl⟩

/-- **C82** that a failure leaves the files alone is false: the output is emptied before the schema is looked at. -/
theorem C82_keeps_refuted : ∃ (path out : Path) (b : Bytes) (w w' : World) (f : Failure), b ≠ [] ∧ path ≠ out ∧
    w.files out = some b ∧ ∀ gm, compileFbs gm path w = (w', .err f) ∧ w'.files out = some [] :=
  ⟨c!"fbs/x.fbs", c!"o/x.rs", [1], ⟨fun p => if p = c!"fbs/x.fbs" then some [0xff] else if p = c!"o/x.rs" then some [1] else none,
    fun _ => true, [], [], some c!"o", fun b => some b⟩, _, .notUtf8, by decide, by decide, rfl, fun gm => ⟨rfl, rfl⟩⟩

/-- **C82** that success means there is code is false: `rustfmt` may fail and write nothing, which is not noticed. -/
theorem C82_rustfmt_refuted : ∃ (path out : Path) (w w' : World), (∀ b, w.rustfmt b = some []) ∧
    ∀ gm, compileFbs gm path w = (w', .ok) ∧ w'.files out = some [] :=
  ⟨c!"fbs/x.fbs", c!"o/x.rs", ⟨fun p => if p = c!"fbs/x.fbs" then some [] else none,
    fun _ => true, [], [], some c!"o", fun _ => some []⟩, _, fun _ => rfl, fun gm => ⟨rfl, rfl⟩⟩

end

/-- Text that says how many tokens there are. -/
@[instance_reducible] def countTokens : Render := ⟨fun ts => ts.map fun _ => 'x'⟩

/-- `table T {}` -/
def exText : Str := c!"table T {}"
/-- What it is in the tree. -/
def exRoot : List Ir.Node := [.table ⟨[c!"T"], [], false, []⟩]

theorem exText_compiles : letI := Parse.asciiEnv; Parse.compileText exText = some (.tree exRoot) := by kernel_rfl

theorem exRoot_tokens [FloatText] (gm : Mode) : ∃ t ts, tokens gm exRoot = some (t :: ts) := by
  cases gm <;> exact ⟨_, _, rfl⟩

/-- Two schemas of the same name in different directories. -/
def exWorld : World where
  files := fun p => if p = c!"a/x.fbs" then some (Parse.utf8 exText) else if p = c!"b/x.fbs" then some [] else none
  creatable := fun _ => true
  stdin := []
  stdout := []
  outDir := some c!"o"
  rustfmt := some

/-- **C82** that every schema of a build script has its code in the end is false: schemas of the same name overwrite each
other's code. -/
theorem C82_same_name_refuted [FloatText] (gm : Mode) : letI := Parse.asciiEnv; letI := countTokens
    ∃ (p q out : Path) (w w' : World) (b c c' : Bytes), p ≠ q ∧ Target w p out ∧ w.files p = some b ∧
      compileAll gm [p, q] w = (w', .ok) ∧ Makes gm false w.rustfmt b c ∧ w'.files out = some c' ∧ c ≠ c' := by
  let := Parse.asciiEnv
  let := countTokens
  obtain ⟨t, ts, h⟩ := exRoot_tokens gm
  have h0 : Makes gm false some [] [] := ⟨[], [], [], rfl, rfl, rfl, rfl⟩
  have h1 : Makes gm false some (Parse.utf8 exText) (Parse.utf8 (Render.text (t :: ts))) :=
    ⟨exText, exRoot, _, rfl, exText_compiles, h, rfl⟩
  have tp : ∀ w : World, w.outDir = some c!"o" → Target w c!"a/x.fbs" c!"o/x.rs" := fun w h => ⟨_, _, h, rfl, rfl⟩
  have tq : ∀ w : World, w.outDir = some c!"o" → Target w c!"b/x.fbs" c!"o/x.rs" := fun w h => ⟨_, _, h, rfl, rfl⟩
  have k1 := (C82_ok gm c!"a/x.fbs" exWorld _).mpr ⟨_, _, _, tp _ rfl, rfl, rfl, by rw [if_neg (by decide)]; exact h1, rfl⟩
  have k2 := (C82_ok gm c!"b/x.fbs" (exWorld.set c!"o/x.rs" (Parse.utf8 (Render.text (t :: ts)))) _).mpr
    ⟨_, [], _, tq _ rfl, rfl, rfl, by rw [if_neg (by decide)]; exact h0, rfl⟩
  refine ⟨c!"a/x.fbs", c!"b/x.fbs", _, exWorld,
    (exWorld.set c!"o/x.rs" (Parse.utf8 (Render.text (t :: ts)))).set c!"o/x.rs" [], _, _, [], by decide, tp _ rfl, rfl, ?_, h1, ?_, ?_⟩
  · rw [compileAll, k1]
    simp only
    rw [compileAll, k2]
    rfl
  · rfl
  · intro e
    change 0x78 :: _ = [] at e
    cases e

/-! ### Examples -/

/-- The build script of butte-examples: three names. -/
example : ([c!"fbs/array.fbs", c!"fbs/default_value.fbs", c!"fbs/greeter/greeter.fbs"].map rsName).Nodup := by decide

example : rsName c!"fbs/greeter/greeter.fbs" = some c!"greeter.rs" := by decide

/-- A dot at the beginning does not count, a missing name is an error. -/
example : rsName c!"fbs/.fbs" = some c!".fbs.rs" ∧ rsName c!"fbs/.." = none ∧ rsName c!"a.b.fbs/" = some c!"a.b.rs" := by decide

example (w : World) (h : w.outDir = some c!"target/out") (out : Path) :
    Target w c!"fbs/greeter/greeter.fbs" out ↔ out = c!"target/out/greeter.rs" :=
  C82_included h (by decide) (by decide) (name := c!"greeter") (by decide) (by decide) (.inr ⟨c!"fbs/greeter", by decide⟩) out

/-- A build script that succeeds. -/
example [FloatText] [Render] (gm : Mode) : letI := Parse.asciiEnv
    ∃ w', compileAll gm [c!"a/x.fbs"] exWorld = (w', .ok) ∧ ∀ c, w'.files c!"o/x.rs" = some c →
      Makes gm false some (Parse.utf8 exText) c := by
  let := Parse.asciiEnv
  obtain ⟨t, ts, h⟩ := exRoot_tokens gm
  have h1 : Makes gm false some (Parse.utf8 exText) (Parse.utf8 (Render.text (t :: ts))) :=
    ⟨exText, exRoot, _, rfl, exText_compiles, h, rfl⟩
  have k1 := (C82_ok gm c!"a/x.fbs" exWorld _).mpr
    ⟨c!"o/x.rs", _, _, ⟨_, _, rfl, rfl, rfl⟩, rfl, rfl, by rw [if_neg (by decide)]; exact h1, rfl⟩
  refine ⟨exWorld.set c!"o/x.rs" (Parse.utf8 (Render.text (t :: ts))), ?_, ?_⟩
  · rw [compileAll, k1]
    rfl
  · intro c hc
    cases hc
    exact h1

end Butte.Cli
