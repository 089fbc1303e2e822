import Verif.Props.Hygiene
import Verif.Rs.Default
import Verif.Props.Pipeline
import Verif.Rs.GraphOk
import Verif.Tests.Kernel
/-
Property C74: the functions of the emitted program, as text, do what the model of the generated code in `Gen` says.
-/
namespace Butte.Rs
open Ir (QIdent Node Ident itemsOf OneNamespace InOrder)
open Gen (GField Kind Args kindOf Clashfree PathsLead compileTable)

set_option maxRecDepth 8000

section
variable {gm md : Mode} {E : List Ast.Element} {out : List Node} {P : Program} {n : Nat}

/-- The conditions under which the properties below hold, from the schema and the program emitted for it. -/
theorem setting_of {s : Ast.Schema} (h1 : OneNamespace s.elements ∨ InOrder s.elements) (hb : Ir.build s = some (.ok out))
    (he : emit gm out = some P) (hn : P.names.Nodup) (hl : PathsLead out P.names) (hc : NoCapture out) :
    Setting gm s.elements out P :=
  ⟨(Ir.C46_resolved_partial h1 hb).1, he, hn, hl, hygienic_of hb he hc⟩

/-- In one namespace: no two names clash, and none is taken from the generated code. -/
theorem setting_one {s : Ast.Schema} (h1 : OneNamespace s.elements) (hb : Ir.build s = some (.ok out))
    (he : emit gm out = some P) (hn : P.names.Nodup)
    (hi : ∀ el ∈ s.elements, ∀ i, Gen.typeId el = some i → Ir.fixIdentifier i ∉ reserved)
    (hm : ∀ m ∈ Gen.nsOf s.elements, Heck.snake m ∉ reserved) : Setting gm s.elements out P :=
  setting_of (.inl h1) hb he hn (Gen.C70_one_namespace_partial h1 hb (emitNodes_names gm [] out P he))
    (noCapture_of h1 hb hi hm)

/-! ### Tables -/

/-- **C74** `create`: for every record of arguments the text runs as the model says, and does not get stuck. -/
theorem C74_create_partial (S : Setting gm E out P) {p : List Ident} {t : Ir.Table} (hx : (p, .table t) ∈ itemsOf out)
    {gs : List GField} (hc : compileTable gm t = some gs) (args : Args gs) :
    ∃ v, encArgs t gs args = some v ∧ ∀ s : St, callFn md P (n + 4) (tMod t) (tName t) c!"create" [.builder, v] s =
      match Gen.create md s.fbb gs args with
      | .ok (o, b) => .val (.offset o) { s with fbb := b }
      | _ => .panic := by
  have A := S.tableAt hx hc
  obtain ⟨v, hv⟩ := A.encArgs_total args
  refine ⟨v, hv, fun s => ?_⟩
  rw [A.call_create hv]
  have hne := Gen.create_noErr md s.fbb gs args
  simp only [withBuilder]
  cases e : Gen.create md s.fbb gs args with
  | ok r => rfl
  | panic => rfl
  | err x => exact absurd e (hne.ne x)

/-- **C74** accessors: whatever the bytes and wherever the table, the text runs as the model says, and does not get stuck. -/
theorem C74_accessor_partial (S : Setting gm E out P) {p : List Ident} {t : Ir.Table} (hx : (p, .table t) ∈ itemsOf out)
    {gs : List GField} (hc : compileTable gm t = some gs) {i : Nat} {f : Ir.Field} {g : GField} (hf : t.fields[i]? = some f)
    (hg : gs[i]? = some g) (tb : Butte.Table) (s : St) :
    match Gen.accessor md tb gs g with
    | .ok x => ∃ v, encOption (encResult f.ty g.kind) g.required x = some v ∧
        callFn md P (n + 9) (tMod t) (tName t) (Heck.snake f.ident) [tableValue t tb] s = .val (.ok v) s
    | .err e => callFn md P (n + 9) (tMod t) (tName t) (Heck.snake f.ident) [tableValue t tb] s = .val (.err e) s
    | .panic => callFn md P (n + 9) (tMod t) (tName t) (Heck.snake f.ident) [tableValue t tb] s = .panic := by
  have A := S.tableAt hx hc
  rw [A.call_accessor hf hg, result_apply]
  cases e : Gen.accessor md tb gs g with
  | ok x =>
    obtain ⟨v, hv⟩ := A.result_value hf hg e
    exact ⟨v, hv, by simp only [hv]⟩
  | err x => rfl
  | panic => rfl

/-- **C74** `Default` of the arguments: the text runs, and gives the arguments that the model says. -/
theorem C74_default_partial (S : Setting gm E out P) {p : List Ident} {t : Ir.Table} (hx : (p, .table t) ∈ itemsOf out)
    {gs : List GField} (hc : compileTable gm t = some gs) (hd : ∀ f ∈ t.fields, f.required = true → f.ty.isScalar = true) :
    ∃ args v, Gen.defaultArgs gs = some args ∧ encArgs t gs args = some v ∧
      ∀ s, callFn md P (n + 3) (tMod t) (tName t ++ c!"Args") c!"default" [] s = .val v s := by
  have hcd : canDefault t.fields = true := by
    simp only [canDefault, List.all_eq_true, Bool.or_eq_true, Bool.not_eq_true']
    intro f hf
    cases e : f.required with
    | false => exact .inl rfl
    | true => exact .inr (hd f hf e)
  obtain ⟨args, v, h1, h2, h3⟩ := (S.tableAt hx hc).call_default (md := md) (n := n) hcd
  exact ⟨args, v, h1, h2, fun s => by rw [h3]; rfl⟩

/-- **C74** `get_root`, `follow`, `follow_buf` and `from` of a table. -/
theorem C74_root_partial (S : Setting gm E out P) {p : List Ident} {t : Ir.Table} (hx : (p, .table t) ∈ itemsOf out)
    {gs : List GField} (hc : compileTable gm t = some gs) (buf : Bytes) (loc : Nat) (s : St) :
    (callFn md P (n + 3) (tMod t) (tName t) c!"get_root" [.bytes buf] s = match Table.getRoot md buf with
      | .ok tb => .val (.ok (tableValue t tb)) s
      | .err e => .val (.err e) s
      | .panic => .panic) ∧
    callTrait md P (n + 3) (tMod t) (tName t) (.butte c!"Follow") c!"follow" [.bytes buf, .usize loc] s =
      .val (.ok (tableValue t ⟨buf, loc⟩)) s ∧
    callTrait md P (n + 3) (tMod t) (tName t) (.butte c!"FollowBuf") c!"follow_buf" [.bytes buf, .usize loc] s =
      .val (.ok (tableValue t ⟨buf, loc⟩)) s ∧
    callTrait md P (n + 3) (tMod t) (tName t) (.std c!"From") c!"from" [.table ⟨buf, loc⟩] s =
      .val (tableValue t ⟨buf, loc⟩) s := by
  refine ⟨?_, ?_, ?_, ?_⟩
  · rw [(S.tableAt hx hc).call_getRoot, result_apply]
    cases Table.getRoot md buf <;> rfl
  · rw [S.call_follow hx hc]; rfl
  · rw [S.call_followBuf hx hc]; rfl
  · rw [S.call_from (n := n + 1) hx hc]; rfl

/-! ### Enums and unions -/

theorem tryFrom_variant {t : STy} {xs : List (SVal t)} (hn : xs.Nodup) {i : Nat} {x : SVal t} (hx : xs[i]? = some x) :
    Butte.enumTryFrom (xs.map (·.val)) x.val = .ok i := by
  obtain ⟨hi, e⟩ := List.getElem?_eq_some_iff.mp hx
  have : (xs.map (·.val)).findIdx? (· == x.val) = some i := by
    rw [List.findIdx?_eq_some_iff_getElem]
    refine ⟨by simpa using hi, by simp [e], ?_⟩
    intro j hj
    simp only [List.getElem_map, beq_iff_eq]
    intro hc
    have := (List.Nodup.getElem_inj_iff hn (hi := by omega) (hj := hi)).mp ((Fin.ext hc).trans e.symm)
    omega
  rw [Butte.enumTryFrom, this]

theorem tryFrom_other {t : STy} {xs : List (SVal t)} {x : SVal t} (hx : x ∉ xs) :
    Butte.enumTryFrom (xs.map (·.val)) x.val = .err .unknownEnumVariant := by
  have : (xs.map (·.val)).findIdx? (· == x.val) = none := by
    rw [List.findIdx?_eq_none_iff]
    intro y hy
    obtain ⟨z, hz, rfl⟩ := List.mem_map.mp hy
    simp only [beq_eq_false_iff_ne]
    intro e
    exact hx ((Fin.ext e : z = x) ▸ hz)
  rw [Butte.enumTryFrom, this]

/-- **C74** the functions of an enum whose variants have distinct names and values that fit: the default is the first
variant; `try_from` and `from` convert between variants and their values, and fail on all other values; `follow` reads and
converts; `push` writes the value; the name function gives the name. -/
theorem C74_enum_partial (S : Setting gm E out P) {p : List Ident} {e : Ir.Enum} (hx : (p, .enum e) ∈ itemsOf out)
    {xs : List (SVal (Gen.enumBaseSTy e.base))} (hv : Gen.enumValues (Gen.enumBaseSTy e.base) e.variants = some xs) (s : St) :
    let m := modOf e.ident
    let k := QIdent.simple e.ident
    (∀ v, e.variants.head? = some v →
      callTrait md P (n + 4) m k (.std c!"Default") c!"default" [] s = .val (.variant m k v.ident) s) ∧
    (∀ (i : Nat) v x, e.variants[i]? = some v → xs[i]? = some x →
      callTrait md P (n + 4) m k (.std c!"TryFrom") c!"try_from" [.scalar _ x] s = .val (.ok (.variant m k v.ident)) s ∧
      convert md P (n + 4) (Gen.enumBaseSTy e.base) m k (.variant m k v.ident) s = .val (.scalar _ x) s ∧
      callFree md P (n + 4) m (c!"enum_name_" ++ Heck.snake k) [.variant m k v.ident] s = .val (.str (String.ofList v.ident)) s ∧
      (∀ rest, callTrait md P (n + 4) m k (.butte c!"Push") c!"push" [.variant m k v.ident, .dst, .bytes rest] s =
        match emplaceScalar s.dst x with
        | .ok d => .val .unit { s with dst := d }
        | _ => .panic)) ∧
    (∀ x, x ∉ xs → callTrait md P (n + 4) m k (.std c!"TryFrom") c!"try_from" [.scalar _ x] s =
      .val (.err .unknownEnumVariant) s) ∧
    (∀ buf loc, callTrait md P (n + 4) m k (.butte c!"Follow") c!"follow" [.bytes buf, .usize loc] s =
      match readScalarAt md (Gen.enumBaseSTy e.base) buf loc with
      | .ok x => callTrait md P (n + 4) m k (.std c!"TryFrom") c!"try_from" [.scalar _ x] s
      | .err e => .val (.err e) s
      | .panic => .panic) := by
  intro m k
  have A := S.enumAt hx hv
  have hnd := (Gen.enumValues_ok hv).1
  refine ⟨?_, ?_, ?_, ?_⟩
  · intro v hv
    rw [A.call_default (n := n + 3) (by rw [← List.head?_eq_getElem?]; exact hv)]
    rfl
  · intro i v x hv hx
    refine ⟨?_, ?_, ?_, ?_⟩
    · rw [A.call_tryFrom (n := n + 1), tryFrom_variant hnd hx, result_apply]
      simp only [encEnum, hv, Option.map_some]
      rfl
    · rw [A.call_from (n := n + 2) hv hx]
      rfl
    · rw [A.call_name (n := n + 2) hv]
      rfl
    · intro rest
      rw [A.call_push (n := n + 1) hv hx]
      unfold emplaceScalar
      by_cases hlt : (Gen.enumBaseSTy e.base).size ≤ s.dst.length
      · simp only [if_pos hlt]
      · simp only [if_neg hlt]
  · intro x hx
    rw [A.call_tryFrom (n := n + 1), tryFrom_other hx]
    rfl
  · intro buf loc
    rw [A.call_follow, FTy.follow]
    cases readScalarAt md (Gen.enumBaseSTy e.base) buf loc with
    | ok x =>
      simp only
      rw [A.call_tryFrom (n := n + 1)]
      rfl
    | err e => rfl
    | panic => rfl

/-- **C74** `get_type` of a union. -/
theorem C74_get_type_partial (S : Setting gm E out P) {p : List Ident} {u : Ir.Union} (hx : (p, .union u) ∈ itemsOf out)
    {xs : List (SVal .u8)} (hv : Gen.enumValues .u8 (tagVariants u) = some xs) {i : Nat} {v : Ir.UnionVariant}
    (hi : u.variants[i]? = some v) (x : Value) (s : St) :
    callFn md P (n + 2) (modOf u.ident) (QIdent.simple u.ident) c!"get_type"
      [.union (modOf u.ident) (QIdent.simple u.ident) v.ident x] s =
        .val (.variant (modOf u.enumIdent) (QIdent.simple u.enumIdent) v.ident) s := by
  rw [S.call_getType hx hv hi]
  rfl

/-! ### Data, written and read with the emitted program -/

/-- **C74** what the emitted `create` writes is read back by the emitted accessors from the table that the emitted `get_root`
finds in the finished buffer, whatever else is written meanwhile: every field as it was given (see `ReadsBack`, C33). -/
theorem C74_round_trip_partial (S : Setting gm E out P) {p : List Ident} {t : Ir.Table} (hx : (p, .table t) ∈ itemsOf out)
    {gs : List GField} (hc : compileTable gm t = some gs) (hn : t.fields.length ≤ 32765) (args : Args gs) {v : Value}
    (hv : encArgs t gs args = some v) {s s₁ : St} {o : Fin (2 ^ 32)}
    (h : callFn md P (n + 9) (tMod t) (tName t) c!"create" [.builder, v] s = .val (.offset o.val) s₁) (hi : Idle md s.fbb)
    (hfit : md = .release → o.val - s.fbb.usedSpace < 65536) {rest : List Op} {ident : Option Bytes} {b₂ : Builder}
    (hf : Finishes md s₁.fbb rest o ident false b₂) (hs : b₂.usedSpace < 2 ^ 31) (s₂ : St) :
    ∃ data root, b₂.finishedData md = .ok data ∧
      callFn md P (n + 9) (tMod t) (tName t) c!"get_root" [.bytes data] s₂ = .val (.ok root) s₂ ∧
      ∀ (i : Fin gs.length) f, t.fields[i.val]? = some f → ∃ r, Gen.ReadsBack md data s.fbb.usedSpace (gs.get i).name
          (args.variant? gs ((gs.get i).name ++ c!"_type")) (gs.get i).kind (gs.get i).required (args.get gs i) r ∧
        callFn md P (n + 9) (tMod t) (tName t) (Heck.snake f.ident) [root] s₂ =
          result r (encOption (encResult f.ty (gs.get i).kind) (gs.get i).required) s₂ := by
  have A := S.tableAt hx hc
  have h' := h
  rw [A.call_create (n := n + 5) hv] at h
  simp only [withBuilder] at h
  cases e : Gen.create md s.fbb gs args with
  | err x => rw [e] at h; cases h
  | panic => rw [e] at h; cases h
  | ok r =>
    obtain ⟨o', b₁⟩ := r
    rw [e] at h
    simp only [Res.ok_bind, pure] at h
    cases h
    obtain ⟨data, root, h1, h2, h3⟩ := C33_finished gm md t gs hc hn s.fbb b₁ b₂ args o rest ident false hi e hfit hf hs
    refine ⟨data, tableValue t root, h1, ?_, ?_⟩
    · rw [A.call_getRoot (n := n + 6), result_apply]
      simp only [Bool.false_eq_true, if_false] at h2
      rw [h2]
    · intro i f hf'
      refine ⟨_, h3 i, ?_⟩
      rw [A.call_accessor hf' (g := gs.get i) (by simp)]

end

/-! ### A schema that meets the conditions -/

/-- The tree of the schema `exText` of Props/Pipeline: an enum, a union, and tables with strings, vectors, defaults, unions and
themselves. -/
@[irreducible] def exOut : List Node :=
  match Ir.build Gen.exRead with
  | some (.ok out) => out
  | _ => []

theorem exOut_eq : Ir.build Gen.exRead = some (.ok exOut) := by kernel_rfl

/-- The program emitted for it. -/
@[irreducible] def exProg (gm : Mode) : Program := (emit gm exOut).getD []

theorem exProg_eq (gm : Mode) : emit gm exOut = some (exProg gm) := by cases gm <;> kernel_rfl

theorem exProg_setting (gm : Mode) : Setting gm Gen.exRead.elements exOut (exProg gm) :=
  setting_one Gen.exRead_one exOut_eq (exProg_eq gm) (by cases gm <;> decide +kernel) (by decide) (by decide)

/-- Table `T`. -/
@[irreducible] def exT : Ir.Table :=
  match (itemsOf exOut)[4]? with
  | some (_, Node.table t) => t
  | _ => ⟨[], [], false, []⟩

theorem exT_mem : ([c!"game"], .table exT) ∈ itemsOf exOut :=
  List.mem_of_getElem? (i := 4) (by kernel_rfl)

/-- Its fields. -/
@[irreducible] def exFields (gm : Mode) : List GField := (compileTable gm exT).getD []

theorem exFields_eq (gm : Mode) : compileTable gm exT = some (exFields gm) := by cases gm <;> kernel_rfl

theorem exSetting (gm : Mode) : ∃ out P, Ir.build Gen.exRead = some (.ok out) ∧ Setting gm Gen.exRead.elements out P ∧
    ∃ t gs, ([c!"game"], Node.table t) ∈ itemsOf out ∧ t.ident = [c!"game", c!"T"] ∧ compileTable gm t = some gs ∧ gs.length = 6 :=
  ⟨_, _, exOut_eq, exProg_setting gm, _, _, exT_mem, by kernel_rfl, exFields_eq gm, by cases gm <;> kernel_rfl⟩

theorem exT_default : ∀ f ∈ exT.fields, f.required = true → f.ty.isScalar = true := by decide +kernel

/-- `TArgs::default()` is there. -/
example (gm md : Mode) : ∃ args v, Gen.defaultArgs (exFields gm) = some args ∧ encArgs exT (exFields gm) args = some v ∧
    ∀ s, callFn md (exProg gm) 3 (tMod exT) (tName exT ++ c!"Args") c!"default" [] s = .val v s :=
  C74_default_partial (n := 0) (exProg_setting gm) exT_mem (exFields_eq gm) exT_default

/-- Enum `Color`. -/
def exColor : Ir.Enum :=
  match (itemsOf exOut)[1]? with
  | some (_, Node.enum e) => e
  | _ => ⟨[], [], .ubyte, []⟩

theorem exColor_mem : ([c!"game"], .enum exColor) ∈ itemsOf exOut :=
  List.mem_of_getElem? (i := 1) (by kernel_rfl)

/-- Values 0 and 4. -/
example : ∃ xs, Gen.enumValues (Gen.enumBaseSTy exColor.base) exColor.variants = some xs ∧ xs.length = 2 := by
  refine ⟨(Gen.enumValues (Gen.enumBaseSTy exColor.base) exColor.variants).getD [], ?_, ?_⟩ <;> kernel_rfl

/-- Union `Shape`. -/
def exShape : Ir.Union :=
  match (itemsOf exOut)[2]? with
  | some (_, Node.union u) => u
  | _ => ⟨[], [], [], []⟩

theorem exShape_mem : ([c!"game"], .union exShape) ∈ itemsOf exOut :=
  List.mem_of_getElem? (i := 2) (by kernel_rfl)

example : ∃ xs v, Gen.enumValues .u8 (tagVariants exShape) = some xs ∧ exShape.variants[0]? = some v ∧ v.ident = c!"Mesh" := by
  refine ⟨(Gen.enumValues .u8 (tagVariants exShape)).getD [], exShape.variants.headD ⟨[], .string, []⟩, ?_, ?_, ?_⟩ <;> kernel_rfl

/-- An argument that is not the default: 7, the first variant, nothing. -/
def exArg : (k : Kind) → (req : Bool) → Option (k.Arg req)
  | .scalar t _, _ => some (Fin.ofNat t.card 7)
  | .enum _ vals _, _ => if h : 0 < vals.length then some ⟨0, h⟩ else none
  | .ref _, false | .union _, false => some none
  | .ref _, true | .union _, true => none

/-- Such arguments for all fields. -/
def exArgs : (fs : List GField) → Option (Args fs)
  | [] => some ()
  | f :: fs =>
    match exArg f.kind f.required, exArgs fs with
    | some a, some as => some (a, as)
    | _, _ => none

/-- The arguments, their value, the table in a new builder, the finished buffer. -/
def exMade (md : Mode) (P : Program) (t : Ir.Table) (gs : List GField) :
    Option (Args gs × Value × Builder × Fin (2 ^ 32) × St × Builder) := do
  let args ← exArgs gs
  let v ← encArgs t gs args
  match Builder.newWithCapacity 0 with
  | .ok b =>
    match callFn md P 9 (tMod t) (tName t) c!"create" [.builder, v] ⟨b, []⟩ with
    | .val (.offset o) s =>
      match step md s.fbb (.finish (Fin.ofNat _ o) none false) with
      | .ok (none, b₂) => if o < 65536 ∧ b₂.usedSpace < 2 ^ 31 then some (args, v, b, Fin.ofNat _ o, s, b₂) else none
      | _ => none
    | _ => none
  | _ => none

theorem exMade_eq (gm md : Mode) : (exMade md (exProg gm) exT (exFields gm)).isSome = true := by
  cases gm <;> cases md <;> kernel_rfl

theorem exMade_ok {md : Mode} {P : Program} {t : Ir.Table} {gs : List GField} (h : (exMade md P t gs).isSome = true) :
    ∃ args v s s₁, ∃ o : Fin (2 ^ 32), ∃ b₂, encArgs t gs args = some v ∧
    callFn md P 9 (tMod t) (tName t) c!"create" [.builder, v] s = .val (.offset o.val) s₁ ∧ Idle md s.fbb ∧
    o.val - s.fbb.usedSpace < 65536 ∧ Finishes md s₁.fbb [] o none false b₂ ∧ b₂.usedSpace < 2 ^ 31 := by
  obtain ⟨⟨args, v, b, o, s₁, b₂⟩, h⟩ := Option.isSome_iff_exists.mp h
  simp only [exMade, Option.bind_eq_bind, Option.bind_eq_some_iff] at h
  obtain ⟨args', ha, v', hv, h⟩ := h
  split at h
  · rename_i b' hb
    split at h
    · rename_i o' s' hc
      split at h
      · rename_i b₃ hf
        split at h
        · rename_i hlt
          cases h
          have ho : (Fin.ofNat (2 ^ 32) o').val = o' := Nat.mod_eq_of_lt (by omega)
          exact ⟨args, v, ⟨b, []⟩, s₁, _, b₂, hv, by rw [ho]; exact hc, ⟨0, b, [], [], hb, rfl, [], [], rfl, .inl rfl, nofun⟩,
            by rw [ho]; omega, ⟨⟨_, _, rfl, hf⟩, nofun, nofun⟩, hlt.2⟩
        · cases h
      · cases h
    · cases h
  · cases h

/-- A table is created and the buffer finished: the conditions of the round trip hold. -/
example (gm md : Mode) : ∃ args v s s₁, ∃ o : Fin (2 ^ 32), ∃ b₂, encArgs exT (exFields gm) args = some v ∧
    callFn md (exProg gm) 9 (tMod exT) (tName exT) c!"create" [.builder, v] s = .val (.offset o.val) s₁ ∧ Idle md s.fbb ∧
    o.val - s.fbb.usedSpace < 65536 ∧ Finishes md s₁.fbb [] o none false b₂ ∧ b₂.usedSpace < 2 ^ 31 :=
  exMade_ok (exMade_eq gm md)

end Butte.Rs
