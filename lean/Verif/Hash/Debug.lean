import Verif.Hash.Map
import Verif.Parse.Print
/-
The `Debug` texts of syntax trees (derived, butte-build/src/ast/types.rs) and the error messages of the analysis. A text that
holds a hash map is not determined: a description of texts says which are possible.
-/
namespace Butte.Hash
open Ast

/-- The texts that may be written. -/
abbrev Texts := Str → Prop

/-- This text. -/
def lit (s : Str) : Texts := fun t => t = s

/-- One after the other. -/
def cat (a b : Texts) : Texts := fun t => ∃ x y, a x ∧ b y ∧ t = x ++ y

/-- All of them, with a separator in between. -/
def sepBy (sep : Str) : List Texts → Texts
  | [] => lit []
  | [a] => a
  | a :: b :: r => cat a (cat (lit sep) (sepBy sep (b :: r)))

/-- What the standard library and Unicode tables contribute: which characters `Debug` writes as they are, and floating-point
numbers. -/
class DebugText where
  /-- `is_printable`, and not a combining character -/
  printable : Char → Bool
  /-- `Debug for f64` -/
  float : Fin (2 ^ 64) → Str

/-- The letter after a backslash, for the characters that have one (`char::escape_debug_ext`, without single quotes). -/
def letterFor (c : Char) : Option Char :=
  if c = '\x00' then some '0'
  else if c = '\t' then some 't'
  else if c = '\r' then some 'r'
  else if c = '\n' then some 'n'
  else if c = '"' then some '"'
  else if c = '\\' then some '\\'
  else none

section
variable [DebugText]

/-- `char::escape_debug_ext` -/
def escape (c : Char) : Str :=
  match letterFor c with
  | some l => ['\\', l]
  | none => if DebugText.printable c then [c] else c!"\\u{" ++ (Nat.toDigits 16 c.toNat ++ ['}'])

/-- `Debug for str` -/
def dbgStr (s : Str) : Str := '"' :: (s.flatMap escape ++ ['"'])

/-- A derived `Debug` of a struct. -/
def dbgStruct (name : Str) (fields : List (Str × Texts)) : Texts :=
  cat (lit (name ++ c!" { ")) (cat (sepBy c!", " (fields.map fun f => cat (lit (f.1 ++ c!": ")) f.2)) (lit c!" }"))

/-- A derived `Debug` of a variant with one field. -/
def dbgTuple (name : Str) (a : Texts) : Texts := cat (lit (name ++ c!"(")) (cat a (lit c!")"))

/-- `Debug for Vec` -/
def dbgVec (l : List Texts) : Texts := cat (lit c!"[") (cat (sepBy c!", " l) (lit c!"]"))

/-- `Debug for Option` -/
def dbgOption {α : Type} (f : α → Texts) : Option α → Texts
  | none => lit c!"None"
  | some a => dbgTuple c!"Some" (f a)

/-- types.rs 458-461 `Ident` -/
def dbgIdent (i : Ident) : Texts := dbgStruct c!"Ident" [(c!"raw", lit (dbgStr i))]

/-- `Debug for HashMap`, of a map made from these pairs: in the order of its entries. -/
def dbgHash (pairs : List (Ident × Texts)) : Texts := fun t =>
  ∃ m, HMap.Extend [] pairs m ∧
    cat (lit c!"{") (cat (sepBy c!", " (m.map fun p => cat (dbgIdent p.1) (cat (lit c!": ") p.2))) (lit c!"}")) t

/-- types.rs 464-467 `QualifiedIdent` -/
def dbgQIdent (q : QIdent) : Texts := dbgStruct c!"QualifiedIdent" [(c!"parts", dbgVec (q.map dbgIdent))]

/-- types.rs 470-474 `Comment` -/
def dbgComment (c : Comment) : Texts := dbgStruct c!"Comment" [(c!"lines", dbgVec (c.map fun l => lit (dbgStr l)))]

omit [DebugText] in
/-- The names of the variants of `Type` without data (types.rs 229-254). -/
def dbgBuiltin : Builtin → Str
  | .bool => c!"Bool" | .byte => c!"Byte" | .ubyte => c!"UByte" | .short => c!"Short" | .ushort => c!"UShort"
  | .int => c!"Int" | .uint => c!"UInt" | .float => c!"Float" | .long => c!"Long" | .ulong => c!"ULong"
  | .double => c!"Double" | .int8 => c!"Int8" | .uint8 => c!"UInt8" | .int16 => c!"Int16" | .uint16 => c!"UInt16"
  | .int32 => c!"Int32" | .uint32 => c!"UInt32" | .int64 => c!"Int64" | .uint64 => c!"UInt64"
  | .float32 => c!"Float32" | .float64 => c!"Float64"

/-- types.rs 229-254 `Type` -/
def dbgTy : Ty → Texts
  | .builtin b => lit (dbgBuiltin b)
  | .string => lit c!"String"
  | .array t => dbgTuple c!"Array" (dbgTy t)
  | .ident q => dbgTuple c!"Ident" (dbgQIdent q)

/-- types.rs 312-317 `Scalar` -/
def dbgScalar : Scalar → Texts
  | .integer i => dbgTuple c!"Integer" (lit (Parse.printInt i))
  | .float b => dbgTuple c!"Float" (lit (DebugText.float b))
  | .boolean b => dbgTuple c!"Boolean" (lit (if b then c!"true" else c!"false"))

/-- types.rs 407-411 `Single` -/
def dbgSingle : Single → Texts
  | .scalar s => dbgTuple c!"Scalar" (dbgScalar s)
  | .string s => dbgTuple c!"String" (lit (dbgStr s))

/-- types.rs 350-354 `DefaultValue` -/
def dbgDefault : DefaultValue → Texts
  | .scalar s => dbgTuple c!"Scalar" (dbgScalar s)
  | .ident i => dbgTuple c!"Ident" (dbgIdent i)

/-- types.rs 298-309 `Metadata`, made from a list of pairs. -/
def dbgMetadata (m : Metadata) : Texts :=
  dbgStruct c!"Metadata" [(c!"values", dbgHash (m.map fun p => (p.1, dbgOption dbgSingle p.2)))]

/-- types.rs 182-195 `Field` -/
def dbgField (f : Field) : Texts :=
  dbgStruct c!"Field" [(c!"id", dbgIdent f.id), (c!"ty", dbgTy f.ty), (c!"default_value", dbgOption dbgDefault f.default),
    (c!"metadata", dbgOption dbgMetadata f.metadata), (c!"doc", dbgComment f.doc)]

/-- types.rs 284-295 `EnumVariant` -/
def dbgVariant (v : EnumVariant) : Texts :=
  dbgStruct c!"EnumVariant" [(c!"id", dbgIdent v.id), (c!"value", dbgOption (fun i => lit (Parse.printInt i)) v.value),
    (c!"doc", dbgComment v.doc)]

/-- types.rs 129-152 `Struct`, `Table` -/
def dbgProduct (name : Str) (p : Product) : Texts :=
  dbgStruct name [(c!"id", dbgIdent p.id), (c!"fields", dbgVec (p.fields.map dbgField)),
    (c!"metadata", dbgOption dbgMetadata p.metadata), (c!"doc", dbgComment p.doc)]

/-- types.rs 155-166 `Enum` -/
def dbgEnum (e : Ast.Enum) : Texts :=
  dbgStruct c!"Enum" [(c!"id", dbgIdent e.id), (c!"variants", dbgVec (e.variants.map dbgVariant)),
    (c!"base_type", dbgTy e.baseType), (c!"metadata", dbgOption dbgMetadata e.metadata), (c!"doc", dbgComment e.doc)]

/-- types.rs 169-179 `Union` -/
def dbgUnion (u : Ast.Union) : Texts :=
  dbgStruct c!"Union" [(c!"id", dbgIdent u.id), (c!"variants", dbgVec (u.variants.map dbgVariant)),
    (c!"metadata", dbgOption dbgMetadata u.metadata), (c!"doc", dbgComment u.doc)]

/-- types.rs 208-225 `RpcMethod` -/
def dbgMethod (m : Ast.RpcMethod) : Texts :=
  dbgStruct c!"RpcMethod" [(c!"id", dbgIdent m.id), (c!"request_type", dbgQIdent m.requestType),
    (c!"response_type", dbgQIdent m.responseType), (c!"metadata", dbgOption dbgMetadata m.metadata),
    (c!"doc", dbgComment m.doc)]

/-- types.rs 198-205 `Rpc` -/
def dbgRpc (r : Ast.Rpc) : Texts :=
  dbgStruct c!"Rpc" [(c!"id", dbgIdent r.id), (c!"methods", dbgVec (r.methods.map dbgMethod)), (c!"doc", dbgComment r.doc)]

/-- types.rs 332-339 `Object`, given its values. -/
def dbgObject (values : List (Ident × Texts)) (doc : Comment) : Texts :=
  dbgStruct c!"Object" [(c!"values", dbgHash values), (c!"doc", dbgComment doc)]

mutual
/-- types.rs 444-449 `Value` -/
def dbgValue : Value → Texts
  | .single s => dbgTuple c!"Single" (dbgSingle s)
  | .object vs doc => dbgTuple c!"Object" (dbgObject (dbgPairs vs) doc)
  | .list vs => dbgTuple c!"List" (dbgVec (dbgValues vs))
/-- The same for the members of an object. -/
def dbgPairs : List (Ident × Value) → List (Ident × Texts)
  | [] => []
  | (k, v) :: r => (k, dbgValue v) :: dbgPairs r
/-- The same for the members of a list. -/
def dbgValues : List Value → List Texts
  | [] => []
  | v :: r => dbgValue v :: dbgValues r
end

/-- types.rs 32-45 `Element` (and 87-126 for the small ones) -/
def dbgElement : Element → Texts
  | .namespace q d => dbgTuple c!"Namespace" (dbgStruct c!"Namespace" [(c!"ident", dbgQIdent q), (c!"doc", dbgComment d)])
  | .table t => dbgTuple c!"Table" (dbgProduct c!"Table" t)
  | .struct s => dbgTuple c!"Struct" (dbgProduct c!"Struct" s)
  | .enum e => dbgTuple c!"Enum" (dbgEnum e)
  | .union u => dbgTuple c!"Union" (dbgUnion u)
  | .root t d => dbgTuple c!"Root" (dbgStruct c!"Root" [(c!"typename", dbgIdent t), (c!"doc", dbgComment d)])
  | .fileExtension e d =>
    dbgTuple c!"FileExtension" (dbgStruct c!"FileExtension" [(c!"ext", lit (dbgStr e)), (c!"doc", dbgComment d)])
  | .fileIdentifier i d =>
    dbgTuple c!"FileIdentifier" (dbgStruct c!"FileIdentifier"
      [(c!"id", dbgVec (i.map fun b => lit (Nat.toDigits 10 b.toNat))), (c!"doc", dbgComment d)])
  | .attribute a => dbgTuple c!"Attribute" (dbgStruct c!"Attribute" [(c!"attr", dbgIdent a)])
  | .rpc r => dbgTuple c!"Rpc" (dbgRpc r)
  | .object vs d => dbgTuple c!"Object" (dbgObject (dbgPairs vs) d)

omit [DebugText] in
/-- `Display for QualifiedIdent` (ir/types.rs 586-591) -/
def showQIdent : Ir.QIdent → Str
  | [] => []
  | [i] => i
  | i :: j :: r => i ++ '.' :: showQIdent (j :: r)

/-- The messages of the analysis (transform.rs 95, 177, 190, 238, 242, 279, 334, 382, 412, 414, 564). -/
def message : Ir.BuildErr → Texts
  | .alreadyDefined q => lit (c!"type already defined: " ++ showQIdent q)
  | .illegalMember q => lit (c!"struct contains illegal member: " ++ showQIdent q ++
      c!"\nStructs can only contain scalar types, structs and fixed-size arrays")
  | .badBase q => lit (c!"enum has bad base type: " ++ showQIdent q)
  | .notTable q => lit (c!"Only tables can be root types: " ++ showQIdent q)
  | .unknownStreaming s => cat (lit c!"Unknown streaming type: ") (dbgSingle s)
  | .missingStreaming => lit c!"Missing streaming type: possible values are `client`, `server` and `bidi`"
  | .unresolved els => cat (lit c!"Unable to type schema: the following definitions referenced items not found: ")
      (dbgVec (els.map dbgElement))

/-! ### When a text is determined -/

omit [DebugText]

/-- There is a text. -/
def Inh (t : Texts) : Prop := ∃ s, t s

/-- There is at most one text. -/
def Same (t : Texts) : Prop := ∀ x y, t x → t y → x = y

theorem inh_lit (s : Str) : Inh (lit s) := ⟨s, rfl⟩
theorem same_lit (s : Str) : Same (lit s) := fun _ _ h1 h2 => h1.trans h2.symm

theorem inh_cat {a b : Texts} (ha : Inh a) (hb : Inh b) : Inh (cat a b) :=
  ⟨_, ha.choose, hb.choose, ha.choose_spec, hb.choose_spec, rfl⟩

theorem same_cat {a b : Texts} (ha : Inh a) (hb : Inh b) : Same (cat a b) ↔ Same a ∧ Same b := by
  obtain ⟨sa, ha⟩ := ha
  obtain ⟨sb, hb⟩ := hb
  constructor
  · intro h
    constructor
    · intro x y hx hy
      exact List.append_cancel_right (h _ _ ⟨x, sb, hx, hb, rfl⟩ ⟨y, sb, hy, hb, rfl⟩)
    · intro x y hx hy
      exact List.append_cancel_left (h _ _ ⟨sa, x, ha, hx, rfl⟩ ⟨sa, y, ha, hy, rfl⟩)
  · rintro ⟨h1, h2⟩ _ _ ⟨x, y, hx, hy, rfl⟩ ⟨x', y', hx', hy', rfl⟩
    rw [h1 x x' hx hx', h2 y y' hy hy']

theorem inh_sepBy {sep : Str} {l : List Texts} (h : ∀ t ∈ l, Inh t) : Inh (sepBy sep l) := by
  induction l with
  | nil => exact inh_lit _
  | cons a r ih =>
    cases r with
    | nil => exact h a (by simp)
    | cons b r =>
      exact inh_cat (h a (by simp)) (inh_cat (inh_lit _) (ih fun t ht => h t (List.mem_cons_of_mem _ ht)))

theorem same_sepBy {sep : Str} {l : List Texts} (h : ∀ t ∈ l, Inh t) : Same (sepBy sep l) ↔ ∀ t ∈ l, Same t := by
  induction l with
  | nil => simp [sepBy, same_lit]
  | cons a r ih =>
    cases r with
    | nil => simp [sepBy]
    | cons b r =>
      have hr : ∀ t ∈ b :: r, Inh t := fun t ht => h t (List.mem_cons_of_mem _ ht)
      rw [sepBy, same_cat (h a (by simp)) (inh_cat (inh_lit _) (inh_sepBy hr)), same_cat (inh_lit _) (inh_sepBy hr), ih hr,
        List.forall_mem_cons]
      simp [same_lit]

theorem inh_struct {n : Str} {fs : List (Str × Texts)} (h : ∀ f ∈ fs, Inh f.2) : Inh (dbgStruct n fs) := by
  refine inh_cat (inh_lit _) (inh_cat (inh_sepBy ?_) (inh_lit _))
  intro t ht
  obtain ⟨f, hf, rfl⟩ := List.mem_map.mp ht
  exact inh_cat (inh_lit _) (h f hf)

theorem same_struct {n : Str} {fs : List (Str × Texts)} (h : ∀ f ∈ fs, Inh f.2) :
    Same (dbgStruct n fs) ↔ ∀ f ∈ fs, Same f.2 := by
  have h' : ∀ t ∈ fs.map (fun f => cat (lit (f.1 ++ c!": ")) f.2), Inh t := by
    intro t ht
    obtain ⟨f, hf, rfl⟩ := List.mem_map.mp ht
    exact inh_cat (inh_lit _) (h f hf)
  rw [dbgStruct, same_cat (inh_lit _) (inh_cat (inh_sepBy h') (inh_lit _)), same_cat (inh_sepBy h') (inh_lit _),
    same_sepBy h', List.forall_mem_map]
  constructor
  · rintro ⟨-, h1, -⟩ f hf
    exact ((same_cat (inh_lit _) (h f hf)).mp (h1 f hf)).2
  · intro h1
    exact ⟨same_lit _, fun f hf => (same_cat (inh_lit _) (h f hf)).mpr ⟨same_lit _, h1 f hf⟩, same_lit _⟩

theorem inh_tuple {n : Str} {a : Texts} (h : Inh a) : Inh (dbgTuple n a) :=
  inh_cat (inh_lit _) (inh_cat h (inh_lit _))

theorem same_tuple {n : Str} {a : Texts} (h : Inh a) : Same (dbgTuple n a) ↔ Same a := by
  rw [dbgTuple, same_cat (inh_lit _) (inh_cat h (inh_lit _)), same_cat h (inh_lit _)]
  simp [same_lit]

theorem inh_vec {l : List Texts} (h : ∀ t ∈ l, Inh t) : Inh (dbgVec l) :=
  inh_cat (inh_lit _) (inh_cat (inh_sepBy h) (inh_lit _))

theorem same_vec {l : List Texts} (h : ∀ t ∈ l, Inh t) : Same (dbgVec l) ↔ ∀ t ∈ l, Same t := by
  rw [dbgVec, same_cat (inh_lit _) (inh_cat (inh_sepBy h) (inh_lit _)), same_cat (inh_sepBy h) (inh_lit _), same_sepBy h]
  simp [same_lit]

theorem inh_option {α : Type} {f : α → Texts} {o : Option α} (h : ∀ a, o = some a → Inh (f a)) : Inh (dbgOption f o) := by
  cases o with
  | none => exact inh_lit _
  | some a => exact inh_tuple (h a rfl)

theorem same_option {α : Type} {f : α → Texts} {o : Option α} (h : ∀ a, o = some a → Inh (f a)) :
    Same (dbgOption f o) ↔ ∀ a, o = some a → Same (f a) := by
  cases o with
  | none => simp [dbgOption, same_lit]
  | some a => simp [dbgOption, same_tuple (h a rfl)]

/-- A text that is there and determined. -/
def Det (t : Texts) : Prop := Inh t ∧ Same t

theorem det_lit (s : Str) : Det (lit s) := ⟨inh_lit s, same_lit s⟩
theorem det_tuple {n : Str} {a : Texts} (h : Det a) : Det (dbgTuple n a) := ⟨inh_tuple h.1, (same_tuple h.1).mpr h.2⟩
theorem det_vec {l : List Texts} (h : ∀ t ∈ l, Det t) : Det (dbgVec l) :=
  ⟨inh_vec fun t ht => (h t ht).1, (same_vec fun t ht => (h t ht).1).mpr fun t ht => (h t ht).2⟩
theorem det_struct {n : Str} {fs : List (Str × Texts)} (h : ∀ f ∈ fs, Det f.2) : Det (dbgStruct n fs) :=
  ⟨inh_struct fun f hf => (h f hf).1, (same_struct fun f hf => (h f hf).1).mpr fun f hf => (h f hf).2⟩
theorem det_option {α : Type} {f : α → Texts} {o : Option α} (h : ∀ a, Det (f a)) : Det (dbgOption f o) :=
  ⟨inh_option fun a _ => (h a).1, (same_option fun a _ => (h a).1).mpr fun a _ => (h a).2⟩

variable [DebugText]

theorem det_ident (i : Ident) : Det (dbgIdent i) := det_struct (by simp [det_lit])
theorem det_qident (q : QIdent) : Det (dbgQIdent q) := by
  refine det_struct ?_
  simp only [List.mem_singleton, forall_eq]
  refine det_vec fun t ht => ?_
  obtain ⟨i, -, rfl⟩ := List.mem_map.mp ht
  exact det_ident i
theorem det_comment (c : Comment) : Det (dbgComment c) := by
  refine det_struct ?_
  simp only [List.mem_singleton, forall_eq]
  refine det_vec fun t ht => ?_
  obtain ⟨i, -, rfl⟩ := List.mem_map.mp ht
  exact det_lit _
theorem det_ty : ∀ t : Ty, Det (dbgTy t)
  | .builtin _ => det_lit _
  | .string => det_lit _
  | .array t => det_tuple (det_ty t)
  | .ident q => det_tuple (det_qident q)
theorem det_scalar (s : Scalar) : Det (dbgScalar s) := by cases s <;> exact det_tuple (det_lit _)
theorem det_single (s : Single) : Det (dbgSingle s) := by
  cases s
  · exact det_tuple (det_scalar _)
  · exact det_tuple (det_lit _)
theorem det_default (d : DefaultValue) : Det (dbgDefault d) := by
  cases d
  · exact det_tuple (det_scalar _)
  · exact det_tuple (det_ident _)
theorem det_variant (v : EnumVariant) : Det (dbgVariant v) := by
  refine det_struct ?_
  simp only [List.mem_cons, List.not_mem_nil, or_false, forall_eq_or_imp, forall_eq]
  exact ⟨det_ident _, det_option fun _ => det_lit _, det_comment _⟩

/-! ### Texts of strings tell the strings apart -/

omit [DebugText] in
theorem letterFor_inj {c d l : Char} (h1 : letterFor c = some l) (h2 : letterFor d = some l) : c = d := by
  unfold letterFor at h1 h2
  split at h1 <;> split at h2 <;> (try split at h1) <;> (try split at h2) <;> (try split at h1) <;> (try split at h2) <;>
    (try split at h1) <;> (try split at h2) <;> (try split at h1) <;> (try split at h2) <;> (try split at h1) <;>
    (try split at h2) <;> simp_all [Option.some.injEq] <;> (subst h1; simp at h2)

omit [DebugText] in
theorem letterFor_u {c : Char} : letterFor c ≠ some 'u' := by
  unfold letterFor
  repeat' split
  all_goals simp

omit [DebugText] in
theorem letterFor_none {c : Char} (h : letterFor c = none) : c ≠ '"' ∧ c ≠ '\\' := by
  constructor <;> (rintro rfl; revert h; decide)

omit [DebugText] in
theorem hex_ne_brace {n : Nat} {c : Char} (h : c ∈ Nat.toDigits 16 n) : c ≠ '}' := by
  rintro rfl
  have : ∀ m, '}' ∉ Nat.toDigits 16 m := by
    intro m
    induction m using Nat.strong_induction_on with
    | _ m ih =>
      rw [Nat.toDigits_eq_if (by decide)]
      split
      · have : ∀ k < 16, '}' ≠ Nat.digitChar k := by decide
        simpa using this m (by omega)
      · have h1 := ih (m / 16) (Nat.div_lt_self (by omega) (by decide))
        have : ∀ k < 16, '}' ≠ Nat.digitChar k := by decide
        have h2 := this (m % 16) (Nat.mod_lt _ (by decide))
        simp [h1, h2]
  exact this n h

omit [DebugText] in
theorem until_brace {a b x y : Str} (ha : ∀ c ∈ a, c ≠ '}') (hb : ∀ c ∈ b, c ≠ '}') (h : a ++ '}' :: x = b ++ '}' :: y) :
    a = b ∧ x = y := by
  induction a generalizing b with
  | nil =>
    cases b with
    | nil => simpa using h
    | cons d b =>
      simp only [List.nil_append, List.cons_append, List.cons.injEq] at h
      exact absurd h.1.symm (hb d (by simp))
  | cons c a ih =>
    cases b with
    | nil =>
      simp only [List.nil_append, List.cons_append, List.cons.injEq] at h
      exact absurd h.1 (ha c (by simp))
    | cons d b =>
      simp only [List.cons_append, List.cons.injEq] at h
      obtain ⟨e1, e2⟩ := ih (fun c hc => ha c (List.mem_cons_of_mem _ hc)) (fun c hc => hb c (List.mem_cons_of_mem _ hc)) h.2
      exact ⟨by rw [h.1, e1], e2⟩

theorem escape_prefix {c d : Char} {x y : Str} (h : escape c ++ x = escape d ++ y) : c = d ∧ x = y := by
  unfold escape at h
  cases hc : letterFor c with
  | some l =>
    cases hd : letterFor d with
    | some l' =>
      simp only [hc, hd, List.cons_append, List.nil_append, List.cons.injEq, true_and] at h
      obtain ⟨rfl, h⟩ := h
      exact ⟨letterFor_inj hc hd, h⟩
    | none =>
      simp only [hc, hd] at h
      split at h
      · simp only [List.cons_append, List.nil_append, List.cons.injEq] at h
        exact absurd h.1.symm (letterFor_none hd).2
      · simp only [List.cons_append, List.nil_append, List.cons.injEq, List.append_assoc, true_and] at h
        exact absurd (h.1 ▸ hc) letterFor_u
  | none =>
    cases hd : letterFor d with
    | some l' =>
      simp only [hc, hd] at h
      split at h
      · simp only [List.cons_append, List.nil_append, List.cons.injEq] at h
        exact absurd h.1 (letterFor_none hc).2
      · simp only [List.cons_append, List.nil_append, List.cons.injEq, List.append_assoc, true_and] at h
        exact absurd (h.1 ▸ hd) letterFor_u
    | none =>
      simp only [hc, hd] at h
      split at h <;> split at h
      · simpa using h
      · simp only [List.cons_append, List.nil_append, List.cons.injEq] at h
        exact absurd h.1 (letterFor_none hc).2
      · simp only [List.cons_append, List.nil_append, List.cons.injEq] at h
        exact absurd h.1.symm (letterFor_none hd).2
      · simp only [List.cons_append, List.nil_append, List.cons.injEq, List.append_assoc, true_and] at h
        obtain ⟨e, hxy⟩ := until_brace (fun _ h => hex_ne_brace h) (fun _ h => hex_ne_brace h) h
        refine ⟨?_, hxy⟩
        have := congrArg (Parse.digitsVal 16) e
        rw [Parse.digitsVal_toDigits 16 (by decide) (by decide), Parse.digitsVal_toDigits 16 (by decide) (by decide)] at this
        exact Char.toNat_inj.mp this

theorem escape_head (c : Char) (x y : Str) : escape c ++ x ≠ '"' :: y := by
  unfold escape
  cases hc : letterFor c with
  | some l => simp
  | none =>
    simp only
    split
    · intro h
      simp only [List.cons_append, List.nil_append, List.cons.injEq] at h
      exact (letterFor_none hc).1 h.1
    · simp

theorem dbgStr_prefix {a b x y : Str} (h : dbgStr a ++ x = dbgStr b ++ y) : a = b := by
  simp only [dbgStr, List.cons_append, List.append_assoc, List.nil_append, List.cons.injEq, true_and] at h
  induction a generalizing b with
  | nil =>
    cases b with
    | nil => rfl
    | cons d b =>
      rw [List.flatMap_cons, List.append_assoc] at h
      exact absurd h.symm (escape_head d _ _)
  | cons c a ih =>
    cases b with
    | nil =>
      rw [List.flatMap_cons, List.append_assoc] at h
      exact absurd h (escape_head c _ _)
    | cons d b =>
      rw [List.flatMap_cons, List.flatMap_cons, List.append_assoc, List.append_assoc] at h
      obtain ⟨rfl, h'⟩ := escape_prefix h
      rw [ih h']

end

end Butte.Hash
