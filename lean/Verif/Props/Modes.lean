import Verif.Rs.Modes
import Verif.Src.Modes
import Verif.Props.Emitted
import Verif.Props.Files
import Verif.Props.Protocol
/-
Property C108: debug and release builds.

A debug build checks arithmetic and runs `debug_assert!`. Where it does not panic, a release build does the same thing, with one
exception (`Vector::get`).
-/
namespace Butte

set_option maxRecDepth 4000

/-- C108 as stated is false: `Vector::get` reads the length inside a `debug_assert!`, with `?`. On a vector whose length cannot
be read a debug build gives an error, and a release build a value. -/
theorem C108_refuted : ∃ (v : Vec (.scalar .u8)) (i : Nat), v.buf.Valid ∧ i < 2 ^ 64 ∧
    v.get .debug i = .err .outOfBounds ∧ ∃ x, v.get .release i = .ok x :=
  ⟨⟨[7], 100⟩, 2 ^ 64 - 104, by decide, by decide, rfl, (7 : Fin 256), rfl⟩

/-- With one byte more a vector of offsets into a buffer of a few bytes is enough: its length lies outside, its elements (at a
multiple of 2^64) inside. -/
example : ∃ i < 2 ^ 64, Vec.get (e := .fwdU .table) .debug ⟨[4, 0, 0, 0, 0, 0], 16⟩ i = .err .outOfBounds ∧
    Vec.get (e := .fwdU .table) .release ⟨[4, 0, 0, 0, 0, 0], 16⟩ i = .ok ⟨[4, 0, 0, 0, 0, 0], 4⟩ :=
  ⟨2 ^ 62 - 5, by decide, rfl, rfl⟩

/-- C108: an element of a vector whose length can be read. -/
theorem C108_get_partial (e : FTy) (v : Vec e) (n i : Nat) (hn : v.len .debug = .ok n) (h : v.get .debug i ≠ .panic) :
    v.get .release i = v.get .debug i := (vecGet_le v i hn).eq h

/-- C108, building: any calls on any builder, and the bytes in the end. -/
theorem C108_build (b : Builder) (ops : List Op) (h : run .debug b ops ≠ .panic) :
    run .release b ops = run .debug b ops ∧
    ∀ (rets : List (Option Nat)) (b' : Builder), run .debug b ops = .ok (rets, b') → b'.finishedData .debug ≠ .panic →
      b'.finishedData .release = b'.finishedData .debug :=
  ⟨(run_le b ops).eq h, fun _ b' _ h' => (Builder.finishedData_le b').eq h'⟩

/-- C108, reading: every type that can be followed, at every place of every buffer; the fields of tables, what vtables say, the
length of a vector, and the identifier. -/
theorem C108_read (buf : Bytes) (loc : Nat) :
    (∀ f : FTy, f.follow .debug buf loc ≠ .panic → f.follow .release buf loc = f.follow .debug buf loc) ∧
    (∀ (f : FTy) (slot : Nat) (d : Option f.Inner), Table.get .debug ⟨buf, loc⟩ f slot d ≠ .panic →
      Table.get .release ⟨buf, loc⟩ f slot d = Table.get .debug ⟨buf, loc⟩ f slot d) ∧
    (∀ (s : Nat), VTable.get .debug ⟨buf, loc⟩ s ≠ .panic → VTable.get .release ⟨buf, loc⟩ s = VTable.get .debug ⟨buf, loc⟩ s) ∧
    (∀ v : VTable, VTable.eqv .debug ⟨buf, loc⟩ v ≠ .panic → VTable.eqv .release ⟨buf, loc⟩ v = VTable.eqv .debug ⟨buf, loc⟩ v) ∧
    (∀ e : FTy, Vec.len (e := e) .debug ⟨buf, loc⟩ ≠ .panic →
      Vec.len (e := e) .release ⟨buf, loc⟩ = Vec.len (e := e) .debug ⟨buf, loc⟩) ∧
    (∀ (id : Bytes) (p : Bool), bufferHasIdentifier .debug buf id p ≠ .panic →
      bufferHasIdentifier .release buf id p = bufferHasIdentifier .debug buf id p) :=
  ⟨fun f h => (follow_le f buf loc).eq h, fun f s d h => (tableGet_le _ f s d).eq h, fun s h => (VTable.get_le _ s).eq h,
    fun v h => (VTable.eqv_le _ v).eq h, fun _ h => (readNatAt_le .u32 buf loc).eq h,
    fun i p h => (bufferHasIdentifier_le buf i p).eq h⟩

/-- C108, iterating: the iterator of a vector, and each of its steps from any state (also for a length that cannot be read). -/
theorem C108_iterate (e : FTy) (v : Vec e) (it : VIter e) :
    (v.iter .debug ≠ .panic → v.iter .release = v.iter .debug) ∧
    (it.next .debug ≠ .panic → it.next .release = it.next .debug) ∧
    (it.nextBack .debug ≠ .panic → it.nextBack .release = it.nextBack .debug) ∧
    ∀ n, (it.nth .debug n ≠ .panic → it.nth .release n = it.nth .debug n) ∧
      (it.nthBack .debug n ≠ .panic → it.nthBack .release n = it.nthBack .debug n) :=
  ⟨(vecIter_le v).eq, (next_le it).eq, (nextBack_le it).eq, fun n => ⟨(nth_le it n).eq, (nthBack_le it n).eq⟩⟩

/-- C108, whole values: written into a builder by generated code, and read from any bytes. -/
theorem C108_values (gm : Mode) (S : Gen.Tables) (n : Nat) (ty : Ir.Ty) :
    (∀ (b : Builder) (v : Gen.Val), Gen.writeVal gm .debug S n b ty v ≠ .panic →
      Gen.writeVal gm .release S n b ty v = Gen.writeVal gm .debug S n b ty v) ∧
    ∀ (f : FTy) (x : f.Inner), Gen.readVal gm .debug S n ty f x ≠ .panic →
      Gen.readVal gm .release S n ty f x = Gen.readVal gm .debug S n ty f x :=
  ⟨fun b v h => (Gen.writeVal_le gm S n b ty v).eq h, fun f x h => (Gen.readVal_le gm S n ty f x).eq h⟩

/-- C108, emitted programs: any function of any program in the language of the emitted code, on any arguments and from any
state. -/
theorem C108_program (P : Rs.Program) (n : Nat) (m : List Str) (k f : Str) (args : List Rs.Value) (s : Rs.St)
    (h : Rs.callFn .debug P n m k f args s ≠ .panic) :
    Rs.callFn .release P n m k f args s = Rs.callFn .debug P n m k f args s := by
  rcases Rs.callFn_le P n m k f args s with h' | h'
  · exact absurd h' h
  · exact h'.symm

/-- C108, the compiler: on any input, with any files, a debug build of the compiler which does not panic leaves the same files and
the same reply as a release build. -/
theorem C108_compiler [Parse.Env] [Src.FloatText] [Cli.Render] (w : Cli.World) :
    (∀ ps : List Cli.Path, (∀ w', Cli.compileAll .debug ps w ≠ (w', .panic)) → Cli.compileAll .release ps w = Cli.compileAll .debug ps w) ∧
    ∀ (i o : Option Cli.Path) (ugly : Bool), (∀ w', Cli.main .debug i o ugly w ≠ (w', .panic)) →
      Cli.main .release i o ugly w = Cli.main .debug i o ugly w := by
  constructor
  · intro ps h
    rcases Cli.compileAll_le ps w with h' | h'
    · exact (h (Cli.compileAll .debug ps w).1 (Prod.ext rfl h')).elim
    · exact h'.symm
  · intro i o ugly h
    rcases Cli.main_le i o ugly w with h' | h'
    · exact (h (Cli.main .debug i o ugly w).1 (Prod.ext rfl h')).elim
    · exact h'.symm

/-! ### Cases -/

/-- C108: the calls for a table with a string, finished, in a debug build. -/
example : ∃ b₀ rets b, Builder.newWithCapacity 128 = .ok b₀ ∧ run .debug b₀ sampleOps = .ok (rets, b) ∧
    run .release b₀ sampleOps = .ok (rets, b) := by
  have h : (fromNew .debug 128 sampleOps).okAnd (fun r => decide (r.2.usedSpace = 32)) = true := by decide
  obtain ⟨b0, r, b, h0, h1, -⟩ := fromNew_ex h
  exact ⟨b0, r, b, h0, h1, by rw [(C108_build b0 sampleOps (by rw [h1]; simp)).1, h1]⟩

/-- C108: the converse does not hold. A table inside a table is a panic in a debug build only. -/
example : ∃ b₀ r, Builder.newWithCapacity 128 = .ok b₀ ∧ run .debug b₀ [.startTable, .startTable] = .panic ∧
    run .release b₀ [.startTable, .startTable] = .ok r := ⟨_, _, rfl, rfl, rfl⟩

/-- C108: a string, an offset to it, and what is outside; a length that wraps around is a panic in a debug build only. -/
example : FTy.follow .debug .str [2, 0, 0, 0, 104, 105, 0] 0 ≠ .panic ∧
    FTy.follow .debug (.fwdU .str) [4, 0, 0, 0, 2, 0, 0, 0, 104, 105, 0] 0 ≠ .panic ∧
    FTy.follow .debug (.scalar .u32) [4, 0, 0] 0 = .err .outOfBounds ∧
    FTy.follow .release (.scalar .u32) [4, 0, 0] 0 = .err .outOfBounds := by
  refine ⟨fun h => ?_, fun h => ?_, rfl, rfl⟩ <;> cases h

/-- C108: a vector with a length, and a place that is not in it (a panic in a debug build only). -/
example : Vec.len (e := .scalar .u8) .debug ⟨[2, 0, 0, 0, 8, 9], 0⟩ = .ok 2 ∧
    Vec.get (e := .scalar .u8) .debug ⟨[2, 0, 0, 0, 8, 9], 0⟩ 1 = .ok (9 : Fin 256) ∧
    Vec.get (e := .scalar .u8) .debug ⟨[2, 0, 0, 0, 8, 9, 7], 0⟩ 2 = .panic ∧
    Vec.get (e := .scalar .u8) .release ⟨[2, 0, 0, 0, 8, 9, 7], 0⟩ 2 = .ok (7 : Fin 256) := ⟨rfl, rfl, rfl, rfl⟩

/-- C108: `create` of a generated table, run. -/
example (gm : Mode) : ∃ (v : Rs.Value) (s : Rs.St) (r : Rs.Out Rs.Value), r ≠ .panic ∧
    Rs.callFn .debug (Rs.exProg gm) 9 (Rs.tMod Rs.exT) (Rs.tName Rs.exT) c!"create" [.builder, v] s = r ∧
    Rs.callFn .release (Rs.exProg gm) 9 (Rs.tMod Rs.exT) (Rs.tName Rs.exT) c!"create" [.builder, v] s = r := by
  obtain ⟨-, v, s, s₁, o, -, -, h, -⟩ := Rs.exMade_ok (Rs.exMade_eq gm .debug)
  exact ⟨v, s, _, by simp, h, by rw [C108_program _ _ _ _ _ _ _ (by rw [h]; simp), h]⟩

/-- C108: a build script that succeeds. -/
example [Src.FloatText] [Cli.Render] : letI := Parse.asciiEnv
    ∃ w', Cli.compileAll .debug [c!"a/x.fbs"] Cli.exWorld = (w', .ok) ∧ Cli.compileAll .release [c!"a/x.fbs"] Cli.exWorld = (w', .ok) := by
  let := Parse.asciiEnv
  obtain ⟨t, ts, h⟩ := Cli.exRoot_tokens .debug
  have h1 : Cli.Makes .debug false some (Parse.utf8 Cli.exText) (Parse.utf8 (Cli.Render.text (t :: ts))) :=
    ⟨Cli.exText, Cli.exRoot, _, rfl, Cli.exText_compiles, h, rfl⟩
  have k1 := (Cli.C82_ok .debug c!"a/x.fbs" Cli.exWorld _).mpr
    ⟨c!"o/x.rs", _, _, ⟨_, _, rfl, rfl, rfl⟩, rfl, rfl, by rw [if_neg (by decide)]; exact h1, rfl⟩
  have k2 : Cli.compileAll .debug [c!"a/x.fbs"] Cli.exWorld = (Cli.exWorld.set c!"o/x.rs" (Parse.utf8 (Cli.Render.text (t :: ts))), .ok) := by
    rw [Cli.compileAll, k1]
    rfl
  exact ⟨_, k2, by rw [(C108_compiler Cli.exWorld).1 _ (fun w' => by rw [k2]; simp), k2]⟩

end Butte
