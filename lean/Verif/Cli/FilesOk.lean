import Verif.Cli.Files
import Verif.Props.Rpc
/-
What the compiler does to files: lemmas.
-/
namespace Butte.Cli
open Src (Toks FloatText RpcGen CodeGenerator tokens)

/-! ### Bytes and characters -/

theorem utf8_eq (s : Str) : Parse.utf8 s = Builder.strBytes (String.ofList s) := by
  simp [Parse.utf8, Builder.strBytes, List.utf8Encode]

theorem decode_some {b : Bytes} {s : Str} : decode b = some s ↔ b = Parse.utf8 s := by
  rw [decode, Option.map_eq_some_iff]
  constructor
  · rintro ⟨x, hx, rfl⟩
    rw [← fromUTF8?_some.mp hx, utf8_eq, String.ofList_toList]
  · rintro rfl
    exact ⟨String.ofList s, fromUTF8?_some.mpr (utf8_eq s).symm, String.toList_ofList⟩

/-! ### Paths -/

theorem parts_ne (p : Path) : parts p ≠ [] := by
  cases p with
  | nil => simp [parts]
  | cons c cs => rw [parts]; split <;> (try split) <;> simp

theorem parts_plain {p : Path} (h : '/' ∉ p) : parts p = [p] := by
  induction p with
  | nil => rfl
  | cons c cs ih =>
    rw [List.mem_cons, not_or] at h
    rw [parts, ih h.2]
    simp [Ne.symm h.1]

theorem parts_slash (a b : Path) : parts (a ++ '/' :: b) = parts a ++ parts b := by
  induction a with
  | nil =>
    rw [List.nil_append, parts, parts]
    cases h : parts b with
    | nil => exact absurd h (parts_ne b)
    | cons x xs => simp
  | cons c cs ih =>
    rw [List.cons_append, parts, parts, ih]
    cases h : parts cs with
    | nil => exact absurd h (parts_ne cs)
    | cons x xs => simp only [List.cons_append]; split <;> rfl

theorem fileName_plain {n : Str} (h : '/' ∉ n) (h0 : n ≠ []) (h1 : n ≠ c!".") (h2 : n ≠ c!"..") : fileName n = some n := by
  rw [fileName, parts_plain h]
  simp [h0, h1, h2]

theorem fileName_slash {d n : Str} (h : '/' ∉ n) (h0 : n ≠ []) (h1 : n ≠ c!".") (h2 : n ≠ c!"..") :
    fileName (d ++ '/' :: n) = some n := by
  rw [fileName, parts_slash, parts_plain h, List.filter_append, List.getLast?_append]
  simp [h0, h1, h2]

theorem beforeDot_none {s : Str} (h : '.' ∉ s) : beforeDot s = none := by
  induction s with
  | nil => rfl
  | cons c cs ih =>
    rw [List.mem_cons, not_or] at h
    rw [beforeDot, ih h.2]
    simp [Ne.symm h.1]

theorem beforeDot_append (n : Str) {e : Str} (h : '.' ∉ e) : beforeDot (n ++ '.' :: e) = some n := by
  induction n with
  | nil => rw [List.nil_append, beforeDot, beforeDot_none h]; rfl
  | cons c cs ih => rw [List.cons_append, beforeDot, ih]

theorem stem_append {n : Str} (h0 : n ≠ []) {e : Str} (h : '.' ∉ e) : stem (n ++ '.' :: e) = n := by
  rw [stem, beforeDot_append n h]
  cases n with
  | nil => exact absurd rfl h0
  | cons c cs => rfl

theorem join_included {d : Path} (h0 : d ≠ []) (h1 : d.getLast? ≠ some '/') (n : Str) :
    join d (n ++ c!".rs") = included d n := by
  rw [join, if_neg (by simp [h0, h1]), included]
  simp

/-! ### Files -/

theorem World.set_set (w : World) (p : Path) (a b : Bytes) : (w.set p a).set p b = w.set p b := by
  simp only [World.set]
  congr 1
  funext q
  split <;> rfl

@[simp] theorem World.set_files (w : World) (p : Path) (b : Bytes) (q : Path) :
    (w.set p b).files q = if q = p then some b else w.files q := rfl
@[simp] theorem World.set_rustfmt (w : World) (p : Path) (b : Bytes) : (w.set p b).rustfmt = w.rustfmt := rfl
@[simp] theorem World.set_outDir (w : World) (p : Path) (b : Bytes) : (w.set p b).outDir = w.outDir := rfl
@[simp] theorem World.set_creatable (w : World) (p : Path) (b : Bytes) : (w.set p b).creatable = w.creatable := rfl

end Butte.Cli
