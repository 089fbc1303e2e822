import Verif.Src.SizeLow
import Verif.Tests.Kernel
/-
C106: how much code comes out.

`tokens gm out` are the tokens that the generator hands to the formatter.
-/
namespace Butte

open Src Parse

/-- **C106** is false: there is no `K` such that the code has at most `K` tokens for each character of the schema, in either mode. The texts
are `namespace a;table T{}namespace x.x.….x;table W{f:a.T;}table Wa{f:a.T;}…`: the path to `T`, with `super` for every part of the
namespace, is written for every field. -/
theorem C106_refuted [Env] [FloatText] (gm : Mode) (K : Nat) : ∃ t s out ts, Parse.schemaDecl t = some ([], s) ∧
    Ir.build s = some (.ok out) ∧ tokens gm out = some ts ∧ K * (t.length + 1) < ts.length := Deep.outgrows gm K

/-- **C106**, for schemas without large unions: if no union has more than `V` members, the number of tokens is at most quadratic in the
length of the text. (The tags of a union are `u8`, so that no union with more than 255 members gives code that `rustc` accepts.) -/
theorem C106_members_partial [Env] [FloatText] (hx : HexfPrefix) {t : Str} {s : Ast.Schema} {out : List Ir.Node} {gm : Mode} {ts : Toks}
    {V : Nat} (hp : Parse.schemaDecl t = some ([], s)) (hV : ∀ u, Ast.Element.union u ∈ s.elements → u.variants.length ≤ V)
    (hb : Ir.build s = some (.ok out)) (h : tokens gm out = some ts) : ts.length ≤ 4000 * (V + 1) * (t.length + 1) ^ 2 :=
  tokens_quadratic hV hb h (schema_size (schemaDecl_sound hx hp))

/-- **C106**, for every text that is read and accepted: at most cubic. In particular the structs in structs of C100, which make the
intermediate representation exponentially large, do not make the code large. -/
theorem C106_any_partial [Env] [FloatText] (hx : HexfPrefix) {t : Str} {s : Ast.Schema} {out : List Ir.Node} {gm : Mode} {ts : Toks}
    (hp : Parse.schemaDecl t = some ([], s)) (hb : Ir.build s = some (.ok out)) (h : tokens gm out = some ts) :
    ts.length ≤ 4000 * (t.length + 1) ^ 3 :=
  tokens_cubic hb h (schema_size (schemaDecl_sound hx hp))

section

private def sizeOf [FloatText] (s : Ast.Schema) : Option Nat :=
  match Ir.build s with
  | some (.ok out) => (tokens .release out).map List.length
  | _ => none

/-- One more part of the namespace: one more module, and `super::` five times in each table. -/
example [FloatText] : (List.range 3).map (fun d => sizeOf (Deep.schema d 2)) = [some 2147, some 2172, some 2197] := by kernel_rfl

example [FloatText] : (List.range 3).map (fun d => sizeOf (Deep.schema d 3)) = [some 2927, some 2962, some 2997] := by kernel_rfl

example [Env] [FloatText] (hx : HexfPrefix) {ts : Toks} (h : tokens .debug (Ir.arrange (Deep.items 2 2)) = some ts) :
    ts.length ≤ 4000 * (0 + 1) * ((Deep.text 2 2).length + 1) ^ 2 :=
  C106_members_partial hx (Deep.parse 2 2) (fun u hu => by simp [Deep.schema, Deep.decl] at hu) (Deep.build_eq 2 2) h

example : Deep.text 2 2 = c!"namespace a;table T{}namespace x.x.x;table W{f:a.T;}table Wa{f:a.T;}" := by decide

/-- `table A{}` `table B{n:string;}` `union U{A,B}` `table M{u:U;v:U;}` -/
private def unionSchema : Ast.Schema := ⟨[], [
  .table ⟨c!"A", [], none, []⟩, .table ⟨c!"B", [⟨c!"n", .string, none, none, []⟩], none, []⟩,
  .union ⟨c!"U", [⟨c!"A", none, []⟩, ⟨c!"B", none, []⟩], none, []⟩,
  .table ⟨c!"M", [⟨c!"u", .ident [c!"U"], none, none, []⟩, ⟨c!"v", .ident [c!"U"], none, none, []⟩], none, []⟩]⟩

example [FloatText] : sizeOf unionSchema = some 3089 := by kernel_rfl

end

end Butte
