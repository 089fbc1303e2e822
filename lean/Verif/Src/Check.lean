import Verif.Src.Traits
import Verif.Ir.SchemaSpec
/-
The type rules of Rust with references and lifetimes, of source files (Rust reference, "Type system", "Subtyping and
variance", "Lifetime elision", "Method-call expressions"; errors E0308, E0495, E0499, E0502, E0515, E0597, E0621): `&T` is told
apart from `T`, types carry the lifetimes they are used with, what is passed on lives as long as it has to, and a loan of
something that can change ends with the call that it is made for. Stricter than Rust in places: loans of local variables and
through `&mut` are only made for the length of a call. Which code can be reached, what is moved, and what may be changed is
left to `Src/Own.lean`; which patterns cover a type, to `Rs/Typing.lean`. What `&'a T` and `Vector<'a, T>` ask of `T` is only
looked at where a function is called.
-/
namespace Butte.Src.Check
open Rs (Scope resolve)
open Ir (All₂)

/-! ### Types -/

/-- A lifetime, in the body of a function. -/
inductive Region where
  /-- a parameter -/
  | named (l : Str)
  | static
  /-- the one that the head of an `impl` leaves out -/
  | header
  /-- the one that parameter `i` leaves out -/
  | elided (i : Nat)
  /-- until the end of a call -/
  | temp
deriving DecidableEq

/-- A type, with all names resolved, and with lifetimes. -/
inductive LTy where
  | unit
  | prim (t : STy)
  | usize
  | str
  | slice (t : LTy)
  | ref (r : Region) (isMut : Bool) (t : LTy)
  | param (n : Str)
  | app (d : Rs.Def) (rs : List Region) (ts : List LTy)

namespace LTy
/-- `Option<T>` -/
def option (t : LTy) : LTy := .app (.std c!"Option") [] [t]
/-- `Result<T, E>` -/
def result (t e : LTy) : LTy := .app (.std c!"Result") [] [t, e]
/-- A type of the runtime crate. -/
def butte (b : Str) : LTy := .app (.butte b) [] []
/-- `butte::Error` -/
def error : LTy := butte c!"Error"
/-- A type of the runtime crate with an argument. -/
def butteOf (b : Str) (t : LTy) : LTy := .app (.butte b) [] [t]
/-- `[u8]` -/
def bytes : LTy := .slice (.prim .u8)
end LTy

mutual
/-- The lifetimes in a type. -/
def LTy.regions : LTy → List Region
  | .slice t => t.regions
  | .ref r _ t => r :: t.regions
  | .app _ rs ts => rs ++ tysRegions ts
  | _ => []
@[inherit_doc LTy.regions]
def tysRegions : List LTy → List Region
  | [] => []
  | t :: ts => t.regions ++ tysRegions ts
end

/-- Where a type is written: the scope, what lifetimes and type parameters stand for, `Self`, the associated types of the
`impl`, and what a lifetime that is left out can stand for. -/
structure TyEnv where
  sc : Scope
  lives : List (Str × Region)
  params : List (Str × LTy)
  self : Option LTy
  assoc : List (Str × LTy)
  elide : Region → Prop

/-- What a name stands for. -/
def find {α : Type} (l : List (Str × α)) (x : Str) : Option α := (l.find? fun y => y.1 == x).map (·.2)

/-- What a lifetime stands for. -/
def LifeMeans (k : TyEnv) : Option Str → Region → Prop
  | none, r => k.elide r
  | some l, r => if l = c!"static" then r = .static else find k.lives l = some r

/-- How many lifetimes and types a type takes (the runtime crate: error.rs 5, builder.rs 42, table.rs 26, vector.rs 33,
primitives.rs 66-85, 148). -/
def _root_.Butte.Src.File.kind (F : File) : Rs.Def → Option (Nat × Nat)
  | .butte b =>
    if b ∈ [c!"Error", c!"UnionWIPOffset", c!"TableUnfinishedWIPOffset", c!"TableFinishedWIPOffset"] then some (0, 0)
    else if b ∈ [c!"Table", c!"WIPOffset", c!"ForwardsUOffset"] then some (0, 1)
    else if b = c!"Vector" then some (1, 1)
    else if b = c!"FlatBufferBuilder" then some (1, 0)
    else none
  | .std s => if s = c!"Option" then some (0, 1) else if s = c!"Result" then some (0, 2) else none
  | .item m n => (F.item m n).bind fun i => i.declares.map fun d => ((lifeNames d.2).length, (typeParams d.2).length)
  | _ => none

/-- The names of the variants of a type. -/
def variantNames (F : File) : LTy → List Str
  | .app (.item m n) _ _ =>
    match F.item m n with
    | some (.enum _ _ _ _ vs) => vs.map (·.name)
    | _ => []
  | _ => []

mutual
/-- The type that a written type stands for. -/
inductive Means (F : File) (k : TyEnv) : Ty → LTy → Prop where
  | prim {p : List Str} {c : Bool} {t : STy} : resolve F.prog k.sc p = some (.prim t) → Means F k (.path p c []) (.prim t)
  | usize {p : List Str} {c : Bool} : resolve F.prog k.sc p = some .usize → Means F k (.path p c []) .usize
  | str {p : List Str} {c : Bool} : resolve F.prog k.sc p = some .str → Means F k (.path p c []) .str
  | param {p : List Str} {c : Bool} {n : Str} {t : LTy} : resolve F.prog k.sc p = some (.param n) → find k.params n = some t →
      Means F k (.path p c []) t
  /-- primitives.rs 53 -/
  | slot {p : List Str} {c : Bool} : resolve F.prog k.sc p = some (.butte c!"VOffsetT") → Means F k (.path p c []) (.prim .u16)
  | app {p : List Str} {c : Bool} {as : List GArg} {d : Rs.Def} {rs : List Region} {ts : List LTy} : p.head? ≠ some c!"Self" →
      resolve F.prog k.sc p = some d → F.kind d = some (rs.length, ts.length) → ArgsMean F k as rs ts →
      Means F k (.path p c as) (.app d rs ts)
  | self {c : Bool} {t : LTy} : k.self = some t → Means F k (.path [c!"Self"] c []) t
  /-- which no variant hides -/
  | assoc {c : Bool} {x : Str} {t s : LTy} : k.self = some s → x ∉ variantNames F s → find k.assoc x = some t →
      Means F k (.path [c!"Self", x] c []) t
  | ref {l : Option Str} {b : Bool} {t : Ty} {r : Region} {u : LTy} : LifeMeans k (l.bind lifeOf) r → Means F k t u →
      Means F k (.ref l b t) (.ref r b u)
  | slice {t : Ty} {u : LTy} : Means F k t u → Means F k (.slice t) (.slice u)
@[inherit_doc Means]
inductive ArgsMean (F : File) (k : TyEnv) : List GArg → List Region → List LTy → Prop where
  | nil : ArgsMean F k [] [] []
  | life {l : Str} {as : List GArg} {r : Region} {rs : List Region} {ts : List LTy} : LifeMeans k (lifeOf l) r →
      ArgsMean F k as rs ts → ArgsMean F k (.life l :: as) (r :: rs) ts
  | ty {t : Ty} {as : List GArg} {u : LTy} {rs : List Region} {ts : List LTy} : Means F k t u → ArgsMean F k as rs ts →
      ArgsMean F k (.ty t :: as) rs (u :: ts)
end

/-! ### Subtyping -/

/-- A lifetime is at least as long as another; `bs` is what is known. -/
inductive Outlives (bs : List (Region × Region)) : Region → Region → Prop where
  | refl (r : Region) : Outlives bs r r
  | static (r : Region) : Outlives bs .static r
  | temp (r : Region) : Outlives bs r .temp
  | bound {r s : Region} : (r, s) ∈ bs → Outlives bs r s
  | trans {r s t : Region} : Outlives bs r s → Outlives bs s t → Outlives bs r t

mutual
/-- A type with no `&mut` in it, nor in the data of the types that it is made from. -/
inductive CovTy (F : File) : Scope → Ty → Prop where
  | path {sc : Scope} {p : List Str} {c : Bool} {as : List GArg} {d : Rs.Def} : resolve F.prog sc p = some d → CovDef F d →
      (∀ t ∈ argTys as, CovTy F sc t) → CovTy F sc (.path p c as)
  | ref {sc : Scope} {l : Option Str} {t : Ty} : CovTy F sc t → CovTy F sc (.ref l false t)
  | slice {sc : Scope} {t : Ty} : CovTy F sc t → CovTy F sc (.slice t)
/-- A type all of whose parameters are covariant (the types of the runtime crate hold no `&mut`, cells or functions: table.rs
26-29, vector.rs 33, primitives.rs 85, 148, builder.rs 42-56). -/
inductive CovDef (F : File) : Rs.Def → Prop where
  | prim (t : STy) : CovDef F (.prim t)
  | usize : CovDef F .usize
  | str : CovDef F .str
  | param (n : Str) : CovDef F (.param n)
  | std {s : Str} : s ∈ [c!"Option", c!"Result"] → CovDef F (.std s)
  | butte {b : Str} : (F.kind (.butte b)).isSome → CovDef F (.butte b)
  | struct {m : List Str} {n k : Str} {as : List Attr} {b c : Bool} {gs : List GParam} {fs : List Field} :
      F.item m n = some (.struct as b k gs fs c) → (∀ f ∈ fs, CovTy F ⟨m, typeParams gs, none⟩ f.ty) → CovDef F (.item m n)
  | enum {m : List Str} {n k : Str} {as : List Attr} {b : Bool} {gs : List GParam} {vs : List Variant} :
      F.item m n = some (.enum as b k gs vs) → (∀ v ∈ vs, ∀ t ∈ v.payload.tys, CovTy F ⟨m, typeParams gs, none⟩ t) →
      CovDef F (.item m n)
end

mutual
/-- Subtyping: lifetimes can be shortened, but not behind `&mut`. -/
inductive Sub (F : File) (out : Region → Region → Prop) : LTy → LTy → Prop where
  | refl (t : LTy) : Sub F out t t
  | ref {r s : Region} {t u : LTy} : out r s → Sub F out t u → Sub F out (.ref r false t) (.ref s false u)
  | refMut {r s : Region} {t : LTy} : out r s → Sub F out (.ref r true t) (.ref s true t)
  | app {d : Rs.Def} {rs ss : List Region} {ts us : List LTy} : CovDef F d → All₂ out rs ss → Subs F out ts us →
      Sub F out (.app d rs ts) (.app d ss us)
@[inherit_doc Sub]
inductive Subs (F : File) (out : Region → Region → Prop) : List LTy → List LTy → Prop where
  | nil : Subs F out [] []
  | cons {t u : LTy} {ts us : List LTy} : Sub F out t u → Subs F out ts us → Subs F out (t :: ts) (u :: us)
end

/-! ### Items -/

/-- Where the data of a type is declared, with arguments. -/
def declEnv (m : List Str) (gs : List GParam) (rs : List Region) (ts : List LTy) : TyEnv :=
  ⟨⟨m, typeParams gs, none⟩, (lifeNames gs).zip rs, (typeParams gs).zip ts, none, [], fun _ => False⟩

/-- The head of an `impl`, with arguments. -/
def headEnv (m : List Str) (gs : List GParam) (rs : List Region) (ts : List LTy) (el : Region → Prop) : TyEnv :=
  { declEnv m gs rs ts with elide := el }

/-- The inside of an `impl` for a type. -/
def bodyEnv (F : File) (m : List Str) (gs : List GParam) (rs : List Region) (ts : List LTy) (s : Ty) (self : LTy)
    (assoc : List (Str × LTy)) : TyEnv :=
  { declEnv m gs rs ts with sc := ⟨m, typeParams gs, headDef F.prog ⟨m, typeParams gs, none⟩ s⟩, self := some self, assoc := assoc }

/-- The fields of a struct, with their types. -/
inductive FieldsOf (F : File) : LTy → List (Str × LTy) → Prop where
  | mk {m : List Str} {n k : Str} {as : List Attr} {b c : Bool} {gs : List GParam} {fs : List Field} {rs : List Region}
      {ts : List LTy} {us : List (Str × LTy)} : F.item m n = some (.struct as b k gs fs c) →
      All₂ (fun f u => f.name = u.1 ∧ Means F (declEnv m gs rs ts) f.ty u.2) fs us → FieldsOf F (.app (.item m n) rs ts) us

/-- A variant of an enum without data. -/
inductive UnitVariant (F : File) : Rs.Def → Str → LTy → Prop where
  | mk {m : List Str} {n k : Str} {as : List Attr} {b : Bool} {gs : List GParam} {vs : List Variant} {v : Variant} {l : Rs.Lit}
      {rs : List Region} {ts : List LTy} : F.item m n = some (.enum as b k gs vs) → v ∈ vs → v.payload = .value l →
      F.kind (.item m n) = some (rs.length, ts.length) → UnitVariant F (.item m n) v.name (.app (.item m n) rs ts)

/-- A variant of an enum with data of type `u`. -/
inductive TupleVariant (F : File) : Rs.Def → Str → LTy → LTy → Prop where
  | mk {m : List Str} {n k : Str} {as : List Attr} {b : Bool} {gs : List GParam} {vs : List Variant} {v : Variant} {t : Ty}
      {u : LTy} {rs : List Region} {ts : List LTy} : F.item m n = some (.enum as b k gs vs) → v ∈ vs → v.payload = .tuple t →
      F.kind (.item m n) = some (rs.length, ts.length) → Means F (declEnv m gs rs ts) t u →
      TupleVariant F (.item m n) v.name u (.app (.item m n) rs ts)

/-- The lifetimes among generic parameters that outlive others. -/
def lifeBoundPairs : List GParam → List (Str × Str)
  | [] => []
  | .life l (some b) :: gs => (l, b) :: lifeBoundPairs gs
  | _ :: gs => lifeBoundPairs gs

/-- The lifetimes that are put in outlive each other as they should. -/
def BoundsHold (out : Region → Region → Prop) (k : TyEnv) (gs : List GParam) : Prop :=
  ∀ x ∈ lifeBoundPairs gs, ∃ r s, LifeMeans k (some x.1) r ∧ LifeMeans k (some x.2) s ∧ out r s

/-- The type is `AsRef<[u8]>`: references to bytes are, and type parameters in `ps`. -/
inductive AsBytes (ps : List Str) : LTy → Prop where
  | param {n : Str} : n ∈ ps → AsBytes ps (.param n)
  | ref (r : Region) : AsBytes ps (.ref r false .bytes)

/-- The bounds of an `impl` hold for the types that are put in. -/
def WhereHolds (F : File) (ps : List Str) (k : TyEnv) (bs : List (Str × Ty)) : Prop :=
  ∀ b ∈ bs, IsAsRef F.prog k.sc b.2 ∧ ∃ t, find k.params b.1 = some t ∧ AsBytes ps t

/-- The types of parameters: `el i` are the lifetimes that parameter `i` can leave out. -/
inductive ParamsMean (F : File) (k : TyEnv) (el : Nat → Region → Prop) : Nat → List Param → List LTy → Prop where
  | nil {i : Nat} : ParamsMean F k el i [] []
  | self {i : Nat} {t : LTy} {ps : List Param} {ts : List LTy} : k.self = some t → ParamsMean F k el (i + 1) ps ts →
      ParamsMean F k el i (.self :: ps) (t :: ts)
  | refSelf {i : Nat} {b : Bool} {r : Region} {t : LTy} {ps : List Param} {ts : List LTy} : k.self = some t → el i r →
      ParamsMean F k el (i + 1) ps ts → ParamsMean F k el i (.refSelf b :: ps) (.ref r b t :: ts)
  | named {i : Nat} {x : Str} {w : Ty} {t : LTy} {ps : List Param} {ts : List LTy} : Means F { k with elide := el i } w t →
      ParamsMean F k el (i + 1) ps ts → ParamsMean F k el i (.named x w :: ps) (t :: ts)

/-- What the result of a function can leave out: the lifetime of `&self`. -/
def selfRegion (f : Fn) (ts : List LTy) (r : Region) : Prop :=
  ∃ b ps t us, f.params = .refSelf b :: ps ∧ ts = .ref r b t :: us

/-- The types of the parameters and of the result of a function. -/
def Sig (F : File) (k : TyEnv) (f : Fn) (el : Nat → Region → Prop) (ts : List LTy) (res : LTy) : Prop :=
  ParamsMean F k el 0 f.params ts ∧
    match f.result with
    | none => res = .unit
    | some t => Means F { k with elide := selfRegion f ts } t res

/-- A function of a type, outside traits, with the lifetimes and types of the `impl` and of the function put in. -/
inductive InherentFn (F : File) (out : Region → Region → Prop) (ps : List Str) : LTy → Fn → List LTy → LTy → Prop where
  | mk {m : List Str} {gs : List GParam} {s : Ty} {bs : List (Str × Ty)} {is : List ImplItem} {f : Fn} {rs : List Region}
      {ts : List LTy} {self : LTy} {fr : List Region} {us : List LTy} {res : LTy} :
      (m, Item.impl gs none s bs is) ∈ flatItems [] F.items → .fn f ∈ is →
      Means F (headEnv m gs rs ts fun _ => True) s self → BoundsHold out (declEnv m gs rs ts) gs →
      WhereHolds F ps (declEnv m gs rs ts) bs →
      BoundsHold out { declEnv m gs rs ts with lives := (lifeNames gs).zip rs ++ (lifeNames f.generics).zip fr } f.generics →
      Sig F { bodyEnv F m gs rs ts s self [] with lives := (lifeNames gs).zip rs ++ (lifeNames f.generics).zip fr } f
        (fun _ _ => True) us res →
      InherentFn F out ps self f us res

/-- A constant of a type. -/
inductive InherentConst (F : File) : Rs.Def → Str → LTy → Prop where
  | mk {m : List Str} {gs : List GParam} {s : Ty} {bs : List (Str × Ty)} {is : List ImplItem} {b : Bool} {c : Str} {t : Ty}
      {l : Rs.Lit} {rs us : List Region} {ts vs : List LTy} {d : Rs.Def} {u : LTy} :
      (m, Item.impl gs none s bs is) ∈ flatItems [] F.items → .const b c t l ∈ is →
      Means F (headEnv m gs rs ts fun _ => True) s (.app d us vs) → Means F (bodyEnv F m gs rs ts s (.app d us vs) []) t u →
      InherentConst F d c u

/-- The associated types of an `impl`. -/
def AssocMean (F : File) (k : TyEnv) (xs : List (Str × Ty)) (assoc : List (Str × LTy)) : Prop :=
  All₂ (fun x y => x.1 = y.1 ∧ Means F k x.2 y.2) xs assoc

/-- A trait is implemented for a type in the file, with these associated types. -/
inductive Implements (F : File) (ps : List Str) : Rs.Def → List Region → List LTy → LTy → List (Str × LTy) → Prop where
  | mk {m : List Str} {gs : List GParam} {p : List Str} {c : Bool} {as : List GArg} {s : Ty} {bs : List (Str × Ty)}
      {is : List ImplItem} {rs : List Region} {ts : List LTy} {d : Rs.Def} {us : List Region} {vs : List LTy} {self : LTy}
      {assoc : List (Str × LTy)} : (m, Item.impl gs (some (.path p c as)) s bs is) ∈ flatItems [] F.items →
      resolve F.prog ⟨m, typeParams gs, none⟩ p = some d → ArgsMean F (headEnv m gs rs ts fun _ => False) as us vs →
      Means F (headEnv m gs rs ts fun _ => False) s self → WhereHolds F ps (declEnv m gs rs ts) bs →
      AssocMean F (bodyEnv F m gs rs ts s self []) (implTypes is) assoc → Implements F ps d us vs self assoc

/-! ### The runtime crate -/

/-- `Follow<'r>` and its associated type (vector.rs 137, 186, primitives.rs 169, 334-368). -/
inductive Follows (F : File) (out : Region → Region → Prop) (ps : List Str) (r : Region) : LTy → LTy → Prop where
  | prim (t : STy) : Follows F out ps r (.prim t) (.prim t)
  | str : Follows F out ps r (.ref r false .str) (.ref r false .str)
  | vector {t i : LTy} : Follows F out ps r t i → (∀ s ∈ t.regions, out s r) →
      Follows F out ps r (.app (.butte c!"Vector") [r] [t]) (.app (.butte c!"Vector") [r] [t])
  | fwd {t i : LTy} : Follows F out ps r t i → Follows F out ps r (.butteOf c!"ForwardsUOffset" t) i
  | item {t i : LTy} {assoc : List (Str × LTy)} : Implements F ps (.butte c!"Follow") [r] [] t assoc →
      find assoc c!"Inner" = some i → Follows F out ps r t i

/-- `Push` (push.rs 67-90, primitives.rs 135, 205). -/
inductive Pushes (F : File) (ps : List Str) : LTy → Prop where
  | prim (t : STy) : Pushes F ps (.prim t)
  | wip (t : LTy) : Pushes F ps (.butteOf c!"WIPOffset" t)
  | fwd (t : LTy) : Pushes F ps (.butteOf c!"ForwardsUOffset" t)
  | item {t : LTy} {assoc : List (Str × LTy)} : Implements F ps (.butte c!"Push") [] [] t assoc → Pushes F ps t

/-- Functions of the runtime crate that belong to a type (table.rs 33-45, primitives.rs 115). -/
inductive RtCall (ps : List Str) : Rs.Def → Str → List LTy → LTy → Prop where
  | tableNew (b : LTy) : RtCall ps (.butte c!"Table") c!"new" [b, .usize] (.butteOf c!"Table" b)
  | tableRoot {b : LTy} : AsBytes ps b → RtCall ps (.butte c!"Table") c!"get_root" [b] (.result (.butteOf c!"Table" b) .error)
  | offsetNew (t : LTy) : RtCall ps (.butte c!"WIPOffset") c!"new" [.prim .u32] (.butteOf c!"WIPOffset" t)

/-- Other functions of the runtime crate, with their type argument (endian_scalar.rs 155-173). -/
inductive RtFn : Str → LTy → List LTy → LTy → Prop where
  | read (t : STy) (r : Region) : RtFn c!"read_scalar_at" (.prim t) [.ref r false .bytes, .usize] (.result (.prim t) .error)
  | emplace (t : STy) (r : Region) : RtFn c!"emplace_scalar" (.prim t) [.ref r true .bytes, .prim t] .unit

/-- Methods of the runtime crate that take `&self` or `&mut self` for a lifetime, with their type arguments (builder.rs 147-201,
345-361, table.rs 53-57). -/
inductive RtMethod (F : File) (out : Region → Region → Prop) (ps : List Str) : LTy → Str → List LTy → Region → List LTy → LTy → Prop where
  | startTable (l r : Region) : RtMethod F out ps (.app (.butte c!"FlatBufferBuilder") [l] []) c!"start_table" [] r []
      (.butteOf c!"WIPOffset" (.butte c!"TableUnfinishedWIPOffset"))
  | endTable (l r : Region) : RtMethod F out ps (.app (.butte c!"FlatBufferBuilder") [l] []) c!"end_table" [] r
      [.butteOf c!"WIPOffset" (.butte c!"TableUnfinishedWIPOffset")] (.butteOf c!"WIPOffset" (.butte c!"TableFinishedWIPOffset"))
  | required (l r : Region) : RtMethod F out ps (.app (.butte c!"FlatBufferBuilder") [l] []) c!"required" [] r
      [.butteOf c!"WIPOffset" (.butte c!"TableFinishedWIPOffset"), .prim .u16, .ref .static false .str] .unit
  | pushSlotAlways (l r : Region) {x : LTy} : Pushes F ps x → RtMethod F out ps (.app (.butte c!"FlatBufferBuilder") [l] [])
      c!"push_slot_always" [x] r [.prim .u16, x] .unit
  | pushSlot (l r : Region) {x : LTy} : Pushes F ps x → RtMethod F out ps (.app (.butte c!"FlatBufferBuilder") [l] [])
      c!"push_slot" [x] r [.prim .u16, x, x] .unit
  | get {b x i : LTy} {r : Region} : AsBytes ps b → Follows F out ps r x i → (∀ s ∈ x.regions, out s r) →
      RtMethod F out ps (.butteOf c!"Table" b) c!"get" [x] r [.prim .u16, .option i] (.result (.option i) .error)

/-- Methods that take `self`, of the runtime crate (primitives.rs 130) and of `Option`. -/
inductive ValMethod : LTy → Str → List LTy → LTy → Prop where
  | value (t : LTy) : ValMethod (.butteOf c!"WIPOffset" t) c!"value" [] (.prim .u32)
  | okOr (t e : LTy) : ValMethod (.option t) c!"ok_or" [e] (.result t e)

/-! ### Expressions -/

/-- The type of a literal, if its value fits. -/
def litLTy (l : Rs.Lit) : Option LTy :=
  match Rs.litTy l with
  | some (.prim t) => some (.prim t)
  | some .str => some (.ref .static false .str)
  | _ => none

/-- Where an expression is: what types mean (a lifetime that is left out is inferred), which lifetimes outlive others, the type
parameters that are bytes, and the type of the result of the function. -/
structure Cx where
  env : TyEnv
  out : Region → Region → Prop
  asBytes : List Str
  ret : LTy

/-- Types of local variables, innermost first. -/
abbrev Locals := List (Str × LTy)

/-- `*` as often as needed; with the lifetimes that there can be a loan for. -/
inductive Auto (out : Region → Region → Prop) : LTy → (Region → Prop) → LTy → (Region → Prop) → Prop where
  | refl (t : LTy) (b : Region → Prop) : Auto out t b t b
  | shared {r : Region} {t u : LTy} {b b' : Region → Prop} : Auto out t (out r) u b' → Auto out (.ref r false t) b u b'
  | mut {r : Region} {t u : LTy} {b b' : Region → Prop} : Auto out t (· = .temp) u b' → Auto out (.ref r true t) b u b'

/-- A place: a variable, a field of one, or what one refers to; its type, and the lifetimes that there can be a loan for. -/
inductive Place (F : File) (X : Cx) (Γ : Locals) : Expr → LTy → (Region → Prop) → Prop where
  | var {x : Str} {t : LTy} : find Γ x = some t → Place F X Γ (.path [x] []) t (· = .temp)
  | field {e : Expr} {f : Str} {t s u : LTy} {b b' : Region → Prop} {fs : List (Str × LTy)} : Place F X Γ e t b →
      Auto X.out t b s b' → FieldsOf F s fs → find fs f = some u → Place F X Γ (.field e f) u b'
  | deref {e : Expr} {r : Region} {t : LTy} {b : Region → Prop} : Place F X Γ e (.ref r false t) b →
      Place F X Γ (.deref e) t (X.out r)

/-- A pattern for values of a type, with the variables that it declares. -/
inductive PatTy (F : File) (X : Cx) : Pat → LTy → Locals → Prop where
  | wild {t : LTy} : PatTy F X .wild t []
  | lit {l : Rs.Lit} {t : LTy} : litLTy l = some t → PatTy F X (.lit l) t []
  | variant {p : List Str} {c : Str} {d : Rs.Def} {t : LTy} : resolve F.prog X.env.sc p = some d → UnitVariant F d c t →
      PatTy F X (.path (p ++ [c])) t []
  | qvariant {w : Ty} {c : Str} {d : Rs.Def} {rs : List Region} {ts : List LTy} : Means F X.env w (.app d rs ts) →
      UnitVariant F d c (.app d rs ts) → PatTy F X (.qpath w c) (.app d rs ts) []
  | rest {p : List Str} {c : Str} {d : Rs.Def} {t u : LTy} : resolve F.prog X.env.sc p = some d → TupleVariant F d c u t →
      PatTy F X (.rest (p ++ [c])) t []
  | none {t : LTy} : PatTy F X (.path [c!"None"]) (.option t) []
  | some {q : Pat} {t : LTy} {bs : Locals} : PatTy F X q t bs → PatTy F X (.tuple [c!"Some"] q) (.option t) bs
  | bind {x : Str} {t : LTy} : x ∉ Gen.preludeNames → PatTy F X (.path [x]) t [(x, t)]
  | or {p q : Pat} {t : LTy} : PatTy F X p t [] → PatTy F X q t [] → PatTy F X (.or p q) t []
  /-- the value behind a reference -/
  | ref {p : Pat} {r : Region} {t : LTy} : PatTy F X p t [] → PatTy F X p (.ref r false t) []

mutual
/-- `e` has type `t`. -/
inductive Typed (F : File) (X : Cx) : Locals → Expr → LTy → Prop where
  | sub {Γ : Locals} {e : Expr} {t u : LTy} : Typed F X Γ e t → Sub F X.out t u → Typed F X Γ e u
  | place {Γ : Locals} {e : Expr} {t : LTy} {b : Region → Prop} : Place F X Γ e t b → Typed F X Γ e t
  | lit {Γ : Locals} {l : Rs.Lit} {t : LTy} : litLTy l = some t → Typed F X Γ (.lit l) t
  | ok {Γ : Locals} {e : Expr} {t u : LTy} : find Γ c!"Ok" = none → Typed F X Γ e t → Typed F X Γ (.call (.path [c!"Ok"] []) [e]) (.result t u)
  | err {Γ : Locals} {e : Expr} {t u : LTy} : find Γ c!"Err" = none → Typed F X Γ e u → Typed F X Γ (.call (.path [c!"Err"] []) [e]) (.result t u)
  | some {Γ : Locals} {e : Expr} {t : LTy} : find Γ c!"Some" = none → Typed F X Γ e t → Typed F X Γ (.call (.path [c!"Some"] []) [e]) (.option t)
  | none {Γ : Locals} {t : LTy} : find Γ c!"None" = none → Typed F X Γ (.path [c!"None"] []) (.option t)
  | variant {Γ : Locals} {p : List Str} {c : Str} {d : Rs.Def} {t : LTy} : p ≠ [] → resolve F.prog X.env.sc p = some d → UnitVariant F d c t →
      Typed F X Γ (.path (p ++ [c]) []) t
  | qvariant {Γ : Locals} {w : Ty} {c : Str} {d : Rs.Def} {rs : List Region} {ts : List LTy} : Means F X.env w (.app d rs ts) →
      UnitVariant F d c (.app d rs ts) → Typed F X Γ (.qpath w Option.none c) (.app d rs ts)
  | const {Γ : Locals} {p : List Str} {c : Str} {d : Rs.Def} {t : LTy} : p ≠ [] → resolve F.prog X.env.sc p = some d → InherentConst F d c t →
      Typed F X Γ (.path (p ++ [c]) []) t
  /-- error.rs 6-20 -/
  | unknownVariant {Γ : Locals} {p : List Str} : resolve F.prog X.env.sc p = some (.butte c!"Error") →
      Typed F X Γ (.path (p ++ [c!"UnknownEnumVariant"]) []) .error
  /-- error.rs 6-20 -/
  | fieldMissing {Γ : Locals} {p : List Str} {e : Expr} : resolve F.prog X.env.sc p = some (.butte c!"Error") →
      Typed F X Γ e (.ref .static false .str) → Typed F X Γ (.call (.path (p ++ [c!"RequiredFieldMissing"]) []) [e]) .error
  | ctor {Γ : Locals} {p : List Str} {c : Str} {d : Rs.Def} {e : Expr} {t u : LTy} : p ≠ [] → resolve F.prog X.env.sc p = some d →
      TupleVariant F d c u t → Typed F X Γ e u → Typed F X Γ (.call (.path (p ++ [c]) []) [e]) t
  | call {Γ : Locals} {p : List Str} {d : Rs.Def} {rs : List Region} {ts : List LTy} {f : Fn} {es : List Expr} {us : List LTy} {r : LTy} :
      p ≠ [] → resolve F.prog X.env.sc p = some d → f.name ∉ variantNames F (.app d rs ts) →
      InherentFn F X.out X.asBytes (.app d rs ts) f us r → Typeds F X Γ es us →
      Typed F X Γ (.call (.path (p ++ [f.name]) []) es) r
  | rtCall {Γ : Locals} {p : List Str} {d : Rs.Def} {f : Str} {es : List Expr} {us : List LTy} {r : LTy} : resolve F.prog X.env.sc p = some d →
      RtCall X.asBytes d f us r → Typeds F X Γ es us → Typed F X Γ (.call (.path (p ++ [f]) []) es) r
  | rtFn {Γ : Locals} {p : List Str} {f : Str} {w : Ty} {t : LTy} {es : List Expr} {us : List LTy} {r : LTy} :
      resolve F.prog X.env.sc p = some (.butte f) → Means F X.env w t → RtFn f t us r → Typeds F X Γ es us →
      Typed F X Γ (.call (.path p [.ty w]) es) r
  | defaultPrim {Γ : Locals} {w : Ty} {t : STy} : Means F X.env w (.prim t) → Typed F X Γ (.call (.qpath w Option.none c!"default") []) (.prim t)
  | default {Γ : Locals} {w : Ty} {t : LTy} {assoc : List (Str × LTy)} : Means F X.env w t → c!"default" ∉ variantNames F t →
      Implements F X.asBytes (.std c!"Default") [] [] t assoc → Typed F X Γ (.call (.qpath w Option.none c!"default") []) t
  | from {Γ : Locals} {w : Ty} {t u : LTy} {e : Expr} {assoc : List (Str × LTy)} : Means F X.env w t → c!"from" ∉ variantNames F t →
      Implements F X.asBytes (.std c!"From") [] [u] t assoc → Typed F X Γ e u →
      Typed F X Γ (.call (.qpath w Option.none c!"from") [e]) t
  | tryFrom {Γ : Locals} {w : Ty} {p : List Str} {c : Bool} {as : List GArg} {t u r : LTy} {e : Expr} {assoc : List (Str × LTy)} :
      Means F X.env w t → resolve F.prog X.env.sc p = some (.std c!"TryFrom") → ArgsMean F X.env as [] [u] →
      Implements F X.asBytes (.std c!"TryFrom") [] [u] t assoc → find assoc c!"Error" = some r → Typed F X Γ e u →
      Typed F X Γ (.call (.qpath w (Option.some (.path p c as)) c!"try_from") [e]) (.result t r)
  /-- a method that takes `self` -/
  | method {Γ : Locals} {e : Expr} {s : LTy} {f : Fn} {ps : List Param} {es : List Expr} {us : List LTy} {r : LTy} :
      Typed F X Γ e s → f.params = .self :: ps → InherentFn F X.out X.asBytes s f (s :: us) r → Typeds F X Γ es us →
      Typed F X Γ (.method e f.name [] es) r
  /-- a method that takes `&self` or `&mut self`, for which there is a loan -/
  | methodRef {Γ : Locals} {e : Expr} {t s : LTy} {b b' : Region → Prop} {m : Bool} {l : Region} {f : Fn} {ps : List Param} {es : List Expr}
      {us : List LTy} {r : LTy} : Place F X Γ e t b → Auto X.out t b s b' → f.params = .refSelf m :: ps →
      InherentFn F X.out X.asBytes s f (.ref l m s :: us) r → b' l → (l = .temp → .temp ∉ r.regions) → Typeds F X Γ es us →
      Typed F X Γ (.method e f.name [] es) r
  | rtMethod {Γ : Locals} {e : Expr} {t s : LTy} {b b' : Region → Prop} {f : Str} {gs : List GArg} {ts : List LTy} {l : Region} {es : List Expr}
      {us : List LTy} {r : LTy} : Place F X Γ e t b → Auto X.out t b s b' → ArgsMean F X.env gs [] ts →
      RtMethod F X.out X.asBytes s f ts l us r → b' l → (l = .temp → .temp ∉ r.regions) → Typeds F X Γ es us →
      Typed F X Γ (.method e f gs es) r
  | valMethod {Γ : Locals} {e : Expr} {s : LTy} {f : Str} {es : List Expr} {us : List LTy} {r : LTy} : Typed F X Γ e s → ValMethod s f us r →
      Typeds F X Γ es us → Typed F X Γ (.method e f [] es) r
  /-- `Option::map` with a variant -/
  | mapCtor {Γ : Locals} {e : Expr} {p : List Str} {c : Str} {d : Rs.Def} {t u : LTy} : Typed F X Γ e (.option u) → p ≠ [] →
      resolve F.prog X.env.sc p = some d → TupleVariant F d c u t →
      Typed F X Γ (.method e c!"map" [] [.path (p ++ [c]) []]) (.option t)
  | try {Γ : Locals} {e : Expr} {t u v : LTy} : Typed F X Γ e (.result t u) → X.ret = .result v u → Typed F X Γ (.try e) t
  | ret {Γ : Locals} {e : Expr} {t : LTy} : Typed F X Γ e X.ret → Typed F X Γ (.ret e) t
  | match {Γ : Locals} {e : Expr} {arms : List (Pat × Expr)} {t u : LTy} : Typed F X Γ e t → Arms F X Γ t u arms → Typed F X Γ (.match e arms) u
  | struct {Γ : Locals} {p : List Str} {fs : List (Str × Option Expr)} {t : LTy} {us : List (Str × LTy)} : Means F X.env (.path p false []) t →
      FieldsOf F t us → Inits F X Γ fs us → Typed F X Γ (.struct p fs) t
  /-- a type whose arguments are inferred -/
  | structOf {Γ : Locals} {n : Str} {fs : List (Str × Option Expr)} {d : Rs.Def} {rs : List Region} {ts : List LTy} {us : List (Str × LTy)} :
      n ≠ c!"Self" → resolve F.prog X.env.sc [n] = some d → F.kind d = some (rs.length, ts.length) →
      FieldsOf F (.app d rs ts) us → Inits F X Γ fs us → Typed F X Γ (.struct [n] fs) (.app d rs ts)
/-- Arguments. -/
inductive Typeds (F : File) (X : Cx) : Locals → List Expr → List LTy → Prop where
  | nil {Γ : Locals} : Typeds F X Γ [] []
  | cons {Γ : Locals} {e : Expr} {t : LTy} {es : List Expr} {ts : List LTy} : Typed F X Γ e t → Typeds F X Γ es ts → Typeds F X Γ (e :: es) (t :: ts)
/-- The arms of a `match` on values of type `t`, with values of type `u`. -/
inductive Arms (F : File) (X : Cx) : Locals → LTy → LTy → List (Pat × Expr) → Prop where
  | nil {Γ : Locals} {t u : LTy} : Arms F X Γ t u []
  | cons {Γ : Locals} {t u : LTy} {p : Pat} {e : Expr} {bs : Locals} {as : List (Pat × Expr)} : PatTy F X p t bs → Typed F X (bs ++ Γ) e u → Arms F X Γ t u as →
      Arms F X Γ t u ((p, e) :: as)
/-- The fields of a struct, all of them, in order. -/
inductive Inits (F : File) (X : Cx) : Locals → List (Str × Option Expr) → List (Str × LTy) → Prop where
  | nil {Γ : Locals} : Inits F X Γ [] []
  | cons {Γ : Locals} {f : Str} {e : Expr} {t : LTy} {fs : List (Str × Option Expr)} {us : List (Str × LTy)} : Typed F X Γ e t →
      Inits F X Γ fs us → Inits F X Γ ((f, some e) :: fs) ((f, t) :: us)
  | var {Γ : Locals} {f : Str} {t : LTy} {fs : List (Str × Option Expr)} {us : List (Str × LTy)} : Typed F X Γ (.path [f] []) t →
      Inits F X Γ fs us → Inits F X Γ ((f, Option.none) :: fs) ((f, t) :: us)
end

/-- A block: the statements, then the value. -/
inductive Block (F : File) (X : Cx) : Locals → List Stmt → Option Expr → LTy → Prop where
  | unit {Γ : Locals} : Block F X Γ [] none .unit
  | value {Γ : Locals} {e : Expr} {t : LTy} : Typed F X Γ e t → Block F X Γ [] (some e) t
  | let {Γ : Locals} {b : Bool} {x : Str} {e : Expr} {t u : LTy} {ss : List Stmt} {v : Option Expr} : Typed F X Γ e t →
      Block F X ((x, t) :: Γ) ss v u → Block F X Γ (.let b x e :: ss) v u
  | expr {Γ : Locals} {e : Expr} {t u : LTy} {ss : List Stmt} {v : Option Expr} : Typed F X Γ e t → Block F X Γ ss v u →
      Block F X Γ (.expr e :: ss) v u
  | ifLet {Γ : Locals} {p : Pat} {e body : Expr} {t u : LTy} {bs : Locals} {ss : List Stmt} {v : Option Expr} : Typed F X Γ e t →
      PatTy F X p t bs → Typed F X (bs ++ Γ) body .unit → Block F X Γ ss v u → Block F X Γ (.ifLet p e body :: ss) v u

/-! ### Functions and items -/

/-- The name of a parameter. -/
def _root_.Butte.Src.Param.name : Param → Str
  | .named x _ => x
  | _ => c!"self"

/-- Lifetimes stand for themselves. -/
def ownRegions (gs : List GParam) : List Region := (lifeNames gs).map .named
@[inherit_doc ownRegions]
def ownParams (gs : List GParam) : List LTy := (typeParams gs).map .param

/-- What is known about lifetimes inside. -/
def knownBounds (gs : List GParam) : List (Region × Region) := (lifeBoundPairs gs).map fun x => (.named x.1, .named x.2)

/-- Inside a function, lifetimes that are left out are all different (a parameter that leaves out two is not looked at). -/
def bodyElide (i : Nat) (r : Region) : Prop := r = .elided i
@[inherit_doc bodyElide]
def OneElided (f : Fn) : Prop := ∀ t ∈ f.params.filterMap Param.ty?, (t.lives.filter (· = none)).length ≤ 1

/-- The inside of a function in an `impl` (or none) with generic parameters `gs` and bounds `bs`. -/
def _root_.Butte.Src.Fn.env (k : TyEnv) (gs : List GParam) (f : Fn) : TyEnv := { k with lives := (lifeNames gs ++ lifeNames f.generics).map fun l => (l, .named l) }

/-- A function has a body of the type that it says. -/
def FnChecks (F : File) (k : TyEnv) (gs : List GParam) (ps : List Str) (f : Fn) : Prop :=
  OneElided f ∧ ∃ ts res, Sig F (f.env k gs) f bodyElide ts res ∧
    Block F ⟨{ f.env k gs with elide := fun _ => True }, Outlives (knownBounds (gs ++ f.generics)), ps, res⟩
      ((f.params.map Param.name).zip ts) f.body f.value res

/-- The function of a trait: the trait with its arguments, the type, the associated types; then name, parameters and result
(`std`, follow.rs 33-42, push.rs 27-29). -/
inductive TraitSig : Rs.Def → List Region → List LTy → LTy → List (Str × LTy) → Str → List LTy → LTy → Prop where
  | default (s : LTy) : TraitSig (.std c!"Default") [] [] s [] c!"default" [] s
  | from (s t : LTy) : TraitSig (.std c!"From") [] [t] s [] c!"from" [t] s
  | tryFrom (s t e : LTy) : TraitSig (.std c!"TryFrom") [] [t] s [(c!"Error", e)] c!"try_from" [t] (.result s e)
  | follow (s i : LTy) (r : Region) : TraitSig (.butte c!"Follow") [r] [] s [(c!"Inner", i)] c!"follow"
      [.ref r false .bytes, .usize] (.result i .error)
  | followBuf (s b i : LTy) : TraitSig (.butte c!"FollowBuf") [] [] s [(c!"Buf", b), (c!"Inner", i)] c!"follow_buf"
      [b, .usize] (.result i .error)
  | push (s o : LTy) : TraitSig (.butte c!"Push") [] [] s [(c!"Output", o)] c!"push"
      [.ref (.elided 0) false s, .ref (.elided 1) true .bytes, .ref (.elided 2) false .bytes] .unit

/-- The functions of an `impl` are those of its trait. -/
def TraitChecks (F : File) (m : List Str) (gs : List GParam) (k : TyEnv) (self : LTy) (assoc : List (Str × LTy)) (is : List ImplItem) :
    Ty → Prop
  | .path p _ as => ∃ d rs ts, resolve F.prog ⟨m, typeParams gs, none⟩ p = some d ∧
      ArgsMean F (headEnv m gs (ownRegions gs) (ownParams gs) (· = .header)) as rs ts ∧
      ∀ f, .fn f ∈ is → ∃ us res, TraitSig d rs ts self assoc f.name us res ∧ Sig F (f.env k gs) f bodyElide us res
  | _ => False

/-- An item of module `m` is in order. -/
def ItemChecks (F : File) (m : List Str) : Item → Prop
  | .struct _ _ _ gs fs _ => ∀ f ∈ fs, ∃ t, Means F (declEnv m gs (ownRegions gs) (ownParams gs)) f.ty t
  | .enum _ _ _ gs vs => ∀ v ∈ vs, ∀ w ∈ v.payload.tys, ∃ t, Means F (declEnv m gs (ownRegions gs) (ownParams gs)) w t
  | .impl gs tr s bs is => (((s :: tr.toList).flatMap Ty.lives).filter (· = none)).length ≤ 1 ∧
      ∃ self assoc, Means F (headEnv m gs (ownRegions gs) (ownParams gs) (· = .header)) s self ∧
        AssocMean F (bodyEnv F m gs (ownRegions gs) (ownParams gs) s self []) (implTypes is) assoc ∧
        (∀ b n t l, .const b n t l ∈ is → ∃ u, Means F (bodyEnv F m gs (ownRegions gs) (ownParams gs) s self assoc) t u ∧ litLTy l = some u) ∧
        (∀ f, .fn f ∈ is → FnChecks F (bodyEnv F m gs (ownRegions gs) (ownParams gs) s self assoc) gs (bs.map (·.1)) f) ∧
        ∀ t ∈ tr, TraitChecks F m gs (bodyEnv F m gs (ownRegions gs) (ownParams gs) s self assoc) self assoc is t
  | .fn f => FnChecks F (declEnv m [] [] []) [] [] f
  | .mod .. => True

/-- All items of a file are in order. -/
def FileChecks (F : File) : Prop := ∀ x ∈ flatItems [] F.items, ItemChecks F x.1 x.2

end Butte.Src.Check
