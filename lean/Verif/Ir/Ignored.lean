import Verif.Ir.SchemaSpec
/-
What the analysis does not look at: includes, and all attributes but `required` of the fields of tables and `streaming` of methods.
-/
namespace Butte.Ir
open Ast (Element)

/-- The attribute without value, if it is there without a value. -/
def keepMark (k : Ident) (m : Option Ast.Metadata) : Option Ast.Metadata :=
  match m.bind (Ast.Metadata.get · k) with
  | some none => some [(k, none)]
  | _ => none

/-- One attribute, with its value. -/
def keepValue (k : Ident) (m : Option Ast.Metadata) : Option Ast.Metadata := (m.bind (Ast.Metadata.get · k)).map fun v => [(k, v)]

/-- A field of a table, of its attributes only `required`. -/
def bareField (f : Ast.Field) : Ast.Field := { f with metadata := keepMark c!"required" f.metadata }

/-- A method, of its attributes only `streaming`. -/
def bareMethod (m : Ast.RpcMethod) : Ast.RpcMethod := { m with metadata := keepValue c!"streaming" m.metadata }

/-- A declaration without the attributes that nothing depends on. -/
def bareElement : Element → Element
  | .table t => .table { t with fields := t.fields.map bareField, metadata := none }
  | .struct s => .struct { s with fields := s.fields.map fun f => { f with metadata := none }, metadata := none }
  | .enum e => .enum { e with metadata := none }
  | .union u => .union { u with metadata := none }
  | .rpc r => .rpc { r with methods := r.methods.map bareMethod }
  | el => el

/-- A schema without includes and without the attributes that nothing depends on. -/
def bare (s : Ast.Schema) : Ast.Schema := ⟨[], s.elements.map bareElement⟩

/-- An error about the schema without those. -/
def bareErr : BuildErr → BuildErr
  | .unresolved els => .unresolved (els.map bareElement)
  | e => e

/-- A result for the schema without those. -/
def bareRes {α : Type} : BRes α → BRes α
  | .ok a => .ok a
  | .err e => .err (bareErr e)
  | .panic => .panic

theorem keepMark_get (k : Ident) (m : Option Ast.Metadata) :
    (keepMark k m).bind (Ast.Metadata.get · k) = some none ↔ m.bind (Ast.Metadata.get · k) = some none := by
  unfold keepMark
  split
  · rename_i h
    rw [h]
    simp [Ast.Metadata.get]
  · rename_i h
    simp only [Option.bind_none, reduceCtorEq, false_iff]
    exact h

theorem required_get (f : Ast.Field) : fieldRequired f = true ↔ f.metadata.bind (Ast.Metadata.get · c!"required") = some none := by
  unfold fieldRequired
  cases f.metadata with
  | none => simp
  | some m =>
    simp only [Option.bind_some]
    split <;> simp_all

theorem bareField_required (f : Ast.Field) : fieldRequired (bareField f) = fieldRequired f := by
  rw [Bool.eq_iff_iff, required_get, required_get]
  exact keepMark_get _ _

theorem tableFields_bare (c : Ctx) (fs : List Ast.Field) : c.tableFields (fs.map bareField) = c.tableFields fs := by
  induction fs with
  | nil => rfl
  | cons f fs ih =>
    simp only [List.map_cons, Ctx.tableFields, ih, bareField_required]
    rfl

theorem structFields_bare (c : Ctx) (q : QIdent) (fs : List Ast.Field) :
    c.structFields q (fs.map fun f => { f with metadata := none }) = c.structFields q fs := by
  induction fs with
  | nil => rfl
  | cons f fs ih => simp only [List.map_cons, Ctx.structFields, ih]

theorem streaming_bare (m : Option Ast.Metadata) : streamingOf (keepValue c!"streaming" m) = streamingOf m := by
  unfold streamingOf keepValue
  cases m with
  | none => rfl
  | some m =>
    simp only [Option.bind_some]
    cases h : Ast.Metadata.get m c!"streaming" with
    | none => rfl
    | some v => simp [Ast.Metadata.get]

theorem rpcMethods_bare (c : Ctx) (ms : List Ast.RpcMethod) : c.rpcMethods (ms.map bareMethod) = c.rpcMethods ms := by
  induction ms generalizing c with
  | nil => rfl
  | cons m ms ih =>
    simp only [List.map_cons, Ctx.rpcMethods, bareMethod, streaming_bare, ih]

theorem newElement_bare (c : Ctx) (p : Nat) (el : Element) : c.newElement p (bareElement el) = c.newElement p el := by
  cases el with
  | table t => simp only [bareElement, Ctx.newElement, Ctx.newTable, tableFields_bare]
  | struct s => simp only [bareElement, Ctx.newElement, Ctx.newStruct, structFields_bare]
  | enum e => rfl
  | union u => rfl
  | rpc r => simp only [bareElement, Ctx.newElement, Ctx.newRpc, rpcMethods_bare]
  | _ => rfl

/-- The elements of a pass, without what is not looked at. -/
def bareIndexed (l : List Indexed) : List Indexed := l.map fun x => (x.1, bareElement x.2)

theorem pass_bare (c : Ctx) (l : List Indexed) : c.pass (bareIndexed l) = match c.pass l with
    | .ok (uns, c') => .ok (bareIndexed uns, c')
    | .err e => .err e
    | .panic => .panic := by
  induction l generalizing c with
  | nil => rfl
  | cons x l ih =>
    obtain ⟨p, el⟩ := x
    simp only [bareIndexed, List.map_cons, Ctx.pass, newElement_bare]
    cases h : c.newElement p el with
    | err e => rfl
    | panic => rfl
    | ok r =>
      obtain ⟨ok, c1⟩ := r
      simp only [BRes.ok_bind]
      have := ih c1
      unfold bareIndexed at this
      rw [this]
      cases c1.pass l with
      | err e => rfl
      | panic => rfl
      | ok r => cases ok <;> rfl

/-- No step of the analysis reports the unresolved declarations, only the loop does. -/
theorem bareErr_id {e : BuildErr} (h : ∀ els, e ≠ .unresolved els) : bareErr e = e := by
  cases e <;> first | rfl | exact absurd rfl (h _)

theorem retry_bare (fuel : Nat) (c : Ctx) (l : List Indexed) (hp : ∀ c l e, Ctx.pass c l = .err e → ∀ els, e ≠ .unresolved els) :
    Ctx.retry fuel c (bareIndexed l) = (Ctx.retry fuel c l).map bareRes := by
  induction fuel generalizing c l with
  | zero => rfl
  | succ fuel ih =>
    simp only [Ctx.retry, pass_bare]
    cases h : c.pass l with
    | err e => simp only [Option.map_some, bareRes, bareErr_id (hp c l e h)]
    | panic => rfl
    | ok r =>
      obtain ⟨uns, c'⟩ := r
      have e1 : (bareIndexed uns).isEmpty = uns.isEmpty := by cases uns <;> rfl
      simp only [e1]
      split
      · rfl
      · split
        · simp [bareRes, bareErr, bareIndexed]
        · exact ih c' uns

theorem err_tableFields (c : Ctx) (fs : List Ast.Field) : ∀ e, c.tableFields fs = .err e → False := by
  induction fs with
  | nil => intro e h; cases h
  | cons f fs ih =>
    intro e h
    simp only [Ctx.tableFields] at h
    split at h
    · cases h
    · split at h
      · split at h
        · simp only [BRes.ok_bind] at h
          cases h2 : c.tableFields fs with
          | ok r => rw [h2] at h; cases h
          | err e => exact ih e h2
          | panic => rw [h2] at h; cases h
        · cases h
      · simp only [BRes.ok_bind] at h
        cases h2 : c.tableFields fs with
        | ok r => rw [h2] at h; cases h
        | err e => exact ih e h2
        | panic => rw [h2] at h; cases h

theorem err_structFields (c : Ctx) (q : QIdent) (fs : List Ast.Field) : ∀ e, c.structFields q fs = .err e → e = .illegalMember q := by
  induction fs with
  | nil => intro e h; cases h
  | cons f fs ih =>
    intro e h
    simp only [Ctx.structFields] at h
    split at h
    · cases h
    · split at h
      · cases h2 : c.structFields q fs with
        | ok r => rw [h2] at h; cases h
        | err e' => rw [h2] at h; cases h; exact ih e h2
        | panic => rw [h2] at h; cases h
      · cases h; rfl

theorem err_root (c : Ctx) (q : QIdent) : ∀ e, c.newRootIdent q = .err e → e = .notTable q := by
  intro e h
  unfold Ctx.newRootIdent at h
  split at h <;> cases h
  rfl

theorem err_streaming (m : Option Ast.Metadata) (e : BuildErr) (h : streamingOf m = .err e) (els : List Element) : e ≠ .unresolved els := by
  unfold streamingOf at h
  rintro rfl
  split at h
  · cases h
  · split at h
    · cases h
    · cases h
    · repeat (first | (split at h) | cases h)
    · cases h

theorem err_rpc (c : Ctx) (ms : List Ast.RpcMethod) (els : List Element) : c.rpcMethods ms ≠ .err (.unresolved els) := by
  induction ms generalizing c with
  | nil => intro h; cases h
  | cons m ms ih =>
    intro h
    simp only [Ctx.rpcMethods] at h
    cases h1 : c.newRootIdent (qualifyRef c.ns m.requestType) with
    | panic => rw [h1] at h; cases h
    | err e => rw [h1] at h; cases h; cases err_root _ _ _ h1
    | ok r1 =>
      rw [h1] at h
      simp only [BRes.ok_bind] at h
      split at h
      · cases h
      · cases h2 : r1.2.newRootIdent (qualifyRef c.ns m.responseType) with
        | panic => rw [h2] at h; cases h
        | err e => rw [h2] at h; cases h; cases err_root _ _ _ h2
        | ok r2 =>
          rw [h2] at h
          simp only [BRes.ok_bind] at h
          split at h
          · cases h
          · cases h3 : streamingOf m.metadata with
            | panic => rw [h3] at h; cases h
            | err e => rw [h3] at h; cases h; exact err_streaming _ _ h3 _ rfl
            | ok st =>
              rw [h3] at h
              simp only [BRes.ok_bind] at h
              cases h4 : r2.2.rpcMethods ms with
              | panic => rw [h4] at h; cases h
              | err e => rw [h4] at h; cases h; exact ih _ h4
              | ok r4 => rw [h4] at h; cases h

theorem err_element (c : Ctx) (p : Nat) (el : Element) (els : List Element) : c.newElement p el ≠ .err (.unresolved els) := by
  intro h
  cases el with
  | table t =>
    simp only [Ctx.newElement, Ctx.newTable] at h
    split at h
    · cases h
    · split at h
      · cases h
      · cases h
      · rename_i h1; exact err_tableFields _ _ _ h1
      · cases h
  | struct s =>
    simp only [Ctx.newElement, Ctx.newStruct] at h
    split at h
    · cases h
    · split at h
      · cases h
      · cases h
      · rename_i h1; cases h; cases err_structFields _ _ _ _ h1
      · cases h
  | enum e =>
    simp only [Ctx.newElement, Ctx.newEnum] at h
    split at h
    · cases h
    · split at h <;> cases h
  | union u =>
    simp only [Ctx.newElement, Ctx.newUnion] at h
    split at h
    · cases h
    · split at h
      · cases h
      · cases h1 : c.generateEnum u with
        | ok r => rw [h1] at h; cases h
        | panic => rw [h1] at h; cases h
        | err e =>
          rw [h1] at h
          cases h
          unfold Ctx.generateEnum at h1
          simp only at h1
          split at h1 <;> cases h1
  | rpc r =>
    simp only [Ctx.newElement, Ctx.newRpc] at h
    cases h4 : c.rpcMethods r.methods with
    | panic => rw [h4] at h; cases h
    | err e => rw [h4] at h; cases h; exact err_rpc _ _ _ h4
    | ok r4 =>
      rw [h4] at h
      simp only [BRes.ok_bind] at h
      split at h <;> cases h
  | root t d =>
    cases err_root _ _ _ h
  | _ => cases h

theorem err_pass (c : Ctx) (l : List Indexed) (els : List Element) : c.pass l ≠ .err (.unresolved els) := by
  induction l generalizing c with
  | nil => intro h; cases h
  | cons x l ih =>
    intro h
    simp only [Ctx.pass] at h
    cases h1 : c.newElement x.1 x.2 with
    | panic => rw [h1] at h; cases h
    | err e => rw [h1] at h; cases h; exact err_element _ _ _ _ h1
    | ok r =>
      rw [h1] at h
      simp only [BRes.ok_bind] at h
      cases h2 : r.2.pass l with
      | panic => rw [h2] at h; cases h
      | err e => rw [h2] at h; cases h; exact ih _ h2
      | ok r => rw [h2] at h; cases h

theorem indexed_bare (els : List Element) : indexed (els.map bareElement) = bareIndexed (indexed els) := by
  unfold indexed bareIndexed
  rw [List.zipIdx_map]
  simp

/-- The analysis of a schema and of what is left of it give the same. -/
theorem build_bare (s : Ast.Schema) : build (bare s) = (build s).map bareRes := by
  unfold build bare
  simp only [List.length_map, indexed_bare]
  rw [retry_bare _ _ _ (fun c l e h els he => err_pass c l els (he ▸ h))]
  cases Ctx.retry (s.elements.length + 1) .init (indexed s.elements) with
  | none => rfl
  | some r => cases r <;> rfl

theorem build_ok_bare {s : Ast.Schema} {out : List Node} : build (bare s) = some (.ok out) ↔ build s = some (.ok out) := by
  rw [build_bare]
  cases build s with
  | none => simp
  | some r => cases r <;> simp [bareRes]

/-- The place of a field among the fields of the generated table. -/
theorem field_position {N : Names} {ns : Option Ast.QIdent} {fs : List Ast.Field} {gs : List Field} (h : FieldsMean N ns fs gs)
    (k : Nat) (f : Ast.Field) (hf : fs[k]? = some f) : ∃ j g, gs[j]? = some g ∧ g.ident = fixIdentifier f.id ∧
      j = k + (gs.take (j + 1)).countP (·.ty.isUnion) := by
  induction h generalizing k with
  | nil => cases hf
  | plain hq hm hu hr ih =>
    cases k with
    | zero =>
      cases hf
      exact ⟨0, _, rfl, rfl, by simp [hu]⟩
    | succ k =>
      obtain ⟨j, g, h1, h2, h3⟩ := ih k hf
      refine ⟨j + 1, g, h1, h2, ?_⟩
      rw [List.take_succ_cons, List.countP_cons]
      simp only [hu]
      simp only [Bool.false_eq_true, if_false]
      omega
  | union hq hm he hr ih =>
    cases k with
    | zero =>
      cases hf
      exact ⟨1, _, rfl, rfl, by simp [List.countP_cons, Ty.isUnion]⟩
    | succ k =>
      obtain ⟨j, g, h1, h2, h3⟩ := ih k hf
      refine ⟨j + 2, g, h1, h2, ?_⟩
      rw [List.take_succ_cons, List.take_succ_cons, List.countP_cons, List.countP_cons]
      have e1 : ∀ a b c, (Ty.enum a b c).isUnion = false := fun _ _ _ => rfl
      have e2 : ∀ a b c, (Ty.union a b c).isUnion = true := fun _ _ _ => rfl
      simp only [e1, e2, Bool.false_eq_true, if_false, if_true]
      omega

end Butte.Ir
