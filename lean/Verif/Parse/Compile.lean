import Verif.Parse.Special
import Verif.Ir.Transform
/-
butte-build/src/compile.rs: from the text of a schema to the tree handed to the code generator.
-/
namespace Butte.Parse

open Ast

/-- `&s[..n]`: the first `n` bytes. `none` is the panic of the slice: fewer bytes, or a character across that place. -/
def sliceTo : Nat → Str → Option Str
  | 0, _ => some []
  | _ + 1, [] => none
  | n + 1, c :: cs =>
    if c.utf8Size ≤ n + 1 then (sliceTo (n + 1 - c.utf8Size) cs).map (c :: ·) else none
termination_by structural _ s => s

/-- What `compile_fbs_generic` comes to before the code generator. -/
inductive Outcome where
  /-- the tree is handed to the code generator -/
  | tree (nodes : List Ir.Node)
  /-- `Err("parse failed")` -/
  | parseFailed
  /-- `Err("Parse was incomplete: not parsed: ...")` -/
  | incomplete (quoted : Str)
  /-- `Err("semantic analysis failed, ...")` -/
  | semantic (e : Ir.BuildErr)
  | panic

/-- An `Err` is returned. -/
def Outcome.IsErr : Outcome → Prop
  | .parseFailed | .incomplete _ | .semantic _ => True
  | _ => False

/-- compile.rs 29 `Builder::build(schema).map_err(..)?`. -/
def Outcome.ofBuild : Ir.BRes (List Ir.Node) → Outcome
  | .ok nodes => .tree nodes
  | .err e => .semantic e
  | .panic => .panic

variable [Env]

/-- compile.rs 16-31 `compile_fbs_generic` up to the code generator: parse, insist that everything was parsed (the
message quotes 30 bytes of what was not), then run the semantic analysis. Reading the input, printing the code and
`rustfmt` are left out. The outer `none` is that of `Ir.build`: a loop that does not end (C45: there is none). -/
def compileText (t : Str) : Option Outcome :=
  match schemaDecl t with
  | none => some .parseFailed
  | some (rest, s) =>
    if rest = [] then (Ir.build s).map Outcome.ofBuild
    else match sliceTo 30 rest with
      | some q => some (.incomplete q)
      | none => some .panic

omit [Env] in
theorem sliceTo_some : ∀ (n : Nat) (s q : Str), sliceTo n s = some q ↔
    (utf8 q).length = n ∧ ∃ b, s = q ++ b
  | 0, s, q => by
    rw [sliceTo]
    constructor
    · intro h; cases h; exact ⟨rfl, s, rfl⟩
    · rintro ⟨h, -⟩
      cases q with
      | nil => rfl
      | cons c q =>
        have := Char.utf8Size_pos c
        simp [utf8, String.length_utf8EncodeChar] at h
        omega
  | n + 1, [], q => by
    rw [sliceTo]
    constructor
    · nofun
    · rintro ⟨h, b, e⟩
      have : q = [] := by simpa using (List.append_eq_nil_iff.mp e.symm).1
      subst this
      cases h
  | n + 1, c :: cs, q => by
    rw [sliceTo]
    cases q with
    | nil =>
      constructor
      · intro h
        split at h
        · cases h' : sliceTo (n + 1 - c.utf8Size) cs with
          | none => rw [h'] at h; cases h
          | some x => rw [h'] at h; cases h
        · cases h
      · rintro ⟨h, -⟩; cases h
    | cons d q =>
      have hl : (utf8 (d :: q)).length = d.utf8Size + (utf8 q).length := by
        simp [utf8, String.length_utf8EncodeChar]
      have ih := sliceTo_some (n + 1 - c.utf8Size) cs q
      rw [hl]
      constructor
      · intro h
        split at h
        · rename_i hle
          cases h' : sliceTo (n + 1 - c.utf8Size) cs with
          | none => rw [h'] at h; cases h
          | some x =>
            rw [h'] at h ih
            cases h
            obtain ⟨h1, b, h2⟩ := ih.mp rfl
            exact ⟨by omega, b, by rw [h2]; rfl⟩
        · cases h
      · rintro ⟨h, b, e⟩
        cases e
        rw [if_pos (by omega), ih.mpr ⟨by omega, b, rfl⟩]
        rfl
termination_by _ s => s.length

/-- `many0` of rules that consume never fails, so `schema_decl` never does. -/
theorem schemaDecl_total (t : Str) : ∃ r s, schemaDecl t = some (r, s) := by
  obtain ⟨r, is, h1, -⟩ := many0_total (spaced_strict includeDecl_strict) t
  obtain ⟨r', es, h2, -⟩ := many0_total (spaced_strict element_strict) r
  exact ⟨r', _, map_eq (pair_eq h1 h2)⟩

end Butte.Parse
