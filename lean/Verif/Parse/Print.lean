import Verif.Parse.Complete
import Verif.Gen.FloatNear
import Mathlib.Tactic.Ring
/-
A printer for syntax trees, and which trees can be printed. The printer is not part of butte: it fixes one canonical
text per tree so that the parser can be tested against it (C51).
-/
namespace Butte.Parse

open Ast

/-! ### The printer -/

/-- Items with a character between them. -/
def joinWith (c : Char) : List Str → Str
  | [] => []
  | [s] => s
  | s :: l => s ++ c :: joinWith c l

/-- Documentation lines. -/
def printDoc : Comment → Str
  | [] => []
  | l :: d => '/' :: '/' :: '/' :: (l ++ '\n' :: printDoc d)

/-- A dotted name. -/
def printQ (q : QIdent) : Str := joinWith '.' q

/-- A type. -/
def printTy : Ty → Str
  | .builtin b => builtinName b
  | .string => c!"string"
  | .array t => '[' :: (printTy t ++ [']'])
  | .ident q => printQ q

/-- A decimal number. -/
def printInt (i : Int) : Str := (if i < 0 then c!"-" else []) ++ Nat.toDigits 10 i.natAbs

/-- A finite double, as a whole multiple of `10 ^ -1074`. Infinity is a number too large for a double. -/
def printFloat (b : Fin (2 ^ 64)) : Str :=
  (if 2 ^ 63 ≤ b.val then c!"-" else []) ++
    (if f64Finite b.val then Nat.toDigits 10 (f64Units b.val * 5 ^ 1074) ++ c!"e-1074" else c!"1e400")

/-- A number or truth value. -/
def printScalar : Scalar → Str
  | .integer i => printInt i
  | .float b => printFloat b
  | .boolean true => c!"true"
  | .boolean false => c!"false"

/-- A string. -/
def printString (s : Str) : Str := '"' :: (s ++ ['"'])

/-- A scalar or a string. -/
def printSingle : Single → Str
  | .scalar s => printScalar s
  | .string s => printString s

/-- A default with its equals sign. -/
def printDefault : Option DefaultValue → Str
  | none => []
  | some (.scalar s) => '=' :: printScalar s
  | some (.ident i) => '=' :: i

/-- An item of metadata. -/
def printMetaItem : Ident × Option Single → Str
  | (k, none) => k
  | (k, some v) => k ++ ':' :: printSingle v

/-- Metadata in parentheses. -/
def printMeta : Option Metadata → Str
  | none => []
  | some m => '(' :: (joinWith ',' (m.map printMetaItem) ++ [')'])

/-- A field. -/
def printField (f : Field) : Str :=
  printDoc f.doc ++ (f.id ++ ':' :: (printTy f.ty ++ (printDefault f.default ++ (printMeta f.metadata ++ [';']))))

/-- A table or struct. -/
def printProduct (kw : Str) (p : Product) : Str :=
  printDoc p.doc ++ (kw ++ ' ' :: (p.id ++ (printMeta p.metadata ++ '{' :: (p.fields.flatMap printField ++ ['}']))))

/-- A variant. -/
def printVariant (v : EnumVariant) : Str :=
  printDoc v.doc ++ (v.id ++ match v.value with
    | none => []
    | some i => '=' :: printInt i)

/-- Variants in braces. -/
def printBody (vs : List EnumVariant) : Str := '{' :: (joinWith ',' (vs.map printVariant) ++ ['}'])

/-- An enum. -/
def printEnum (e : Enum) : Str :=
  printDoc e.doc ++ (c!"enum" ++ ' ' :: (e.id ++ ':' :: (printTy e.baseType ++ (printMeta e.metadata ++
    printBody e.variants))))

/-- A union. -/
def printUnion (u : Union) : Str :=
  printDoc u.doc ++ (c!"union" ++ ' ' :: (u.id ++ (printMeta u.metadata ++ printBody u.variants)))

/-- A method of a service. -/
def printMethod (m : RpcMethod) : Str :=
  printDoc m.doc ++ (m.id ++ '(' :: (printQ m.requestType ++ ')' :: ':' :: (printQ m.responseType ++
    (printMeta m.metadata ++ [';']))))

/-- A service. -/
def printRpc (r : Rpc) : Str :=
  printDoc r.doc ++ (c!"rpc_service" ++ ' ' :: (r.id ++ '{' :: (r.methods.flatMap printMethod ++ ['}'])))

/-- `keyword thing;` -/
def printKeyword (kw : Str) (d : Comment) (t : Str) : Str := printDoc d ++ (kw ++ ' ' :: (t ++ [';']))

mutual

/-- A value as in JSON. -/
def printValue : Value → Str
  | .single v => printSingle v
  | .object l d => printDoc d ++ '{' :: (printPairs l ++ ['}'])
  | .list l => '[' :: (printValues l ++ [']'])

/-- Values separated by commas. -/
def printValues : List Value → Str
  | [] => []
  | v :: l => printValue v ++ match l with
    | [] => []
    | _ :: _ => ',' :: printValues l

/-- Named values separated by commas. -/
def printPairs : List (Ident × Value) → Str
  | [] => []
  | (k, v) :: l => (k ++ ':' :: printValue v) ++ match l with
    | [] => []
    | _ :: _ => ',' :: printPairs l

end

/-- An object. -/
def printObject (l : List (Ident × Value)) (d : Comment) : Str := printDoc d ++ '{' :: (printPairs l ++ ['}'])

/-- A declaration. -/
def printElement : Element → Str
  | .namespace q d => printKeyword c!"namespace" d (printQ q)
  | .table p => printProduct c!"table" p
  | .struct p => printProduct c!"struct" p
  | .enum e => printEnum e
  | .union u => printUnion u
  | .root i d => printKeyword c!"root_type" d i
  | .fileExtension e d => printKeyword c!"file_extension" d (printString e)
  | .fileIdentifier b d => printKeyword c!"file_identifier" d (printString (b.map fun x => Char.ofNat x.toNat))
  | .attribute i => printKeyword c!"attribute" [] (printString i)
  | .rpc r => printRpc r
  | .object l d => printObject l d

/-- An include. -/
def printInclude (i : Include) : Str := printKeyword c!"include" i.doc (printString i.path)

/-- A schema. -/
def printSchema (s : Schema) : Str := s.includes.flatMap printInclude ++ s.elements.flatMap printElement

/-! ### What can be printed -/

variable [Env]

/-- Documentation lines are single lines. -/
def DocOk (d : Comment) : Prop := ∀ l ∈ d, OneLine l

/-- A nonempty list of identifiers. -/
def QOk (q : QIdent) : Prop := q ≠ [] ∧ ∀ i ∈ q, IsIdent i

/-- Type names begin with no builtin name (C55). -/
def TyOk : Ty → Prop
  | .builtin _ => True
  | .string => True
  | .array t => TyOk t
  | .ident q => QOk q ∧ ∀ i, q.head? = some i → Plain i

/-- Integers are `i128`, floats are not NaN. -/
def ScalarOk : Scalar → Prop
  | .integer i => -(2 ^ 127) ≤ i ∧ i < 2 ^ 127
  | .float b => b.val % 2 ^ 63 ≤ 2047 * 2 ^ 52
  | .boolean _ => True

/-- Strings have their quotes and backslashes escaped. -/
def SingleOk : Single → Prop
  | .scalar s => ScalarOk s
  | .string s => RawText s

/-- Variant names are not `true` or `false`. -/
def DefaultOk : Option DefaultValue → Prop
  | none => True
  | some (.scalar s) => ScalarOk s
  | some (.ident i) => IsIdent i ∧ i ≠ c!"true" ∧ i ≠ c!"false"

/-- Keys are identifiers. -/
def MetaOk : Option Metadata → Prop
  | none => True
  | some m => ∀ x ∈ m, IsIdent x.1 ∧ ∀ v, x.2 = some v → SingleOk v

/-- A field that can be printed. -/
def FieldOk (f : Field) : Prop :=
  DocOk f.doc ∧ IsIdent f.id ∧ TyOk f.ty ∧ DefaultOk f.default ∧ MetaOk f.metadata

/-- A table or struct that can be printed. -/
def ProductOk (p : Product) : Prop := DocOk p.doc ∧ IsIdent p.id ∧ MetaOk p.metadata ∧ ∀ f ∈ p.fields, FieldOk f

/-- A variant that can be printed. -/
def VariantOk (v : EnumVariant) : Prop :=
  DocOk v.doc ∧ IsIdent v.id ∧ ∀ i, v.value = some i → -(2 ^ 127) ≤ i ∧ i < 2 ^ 127

/-- At least one variant. -/
def VariantsOk (vs : List EnumVariant) : Prop := vs ≠ [] ∧ ∀ v ∈ vs, VariantOk v

/-- A method that can be printed. -/
def MethodOk (m : RpcMethod) : Prop :=
  DocOk m.doc ∧ IsIdent m.id ∧ QOk m.requestType ∧ QOk m.responseType ∧ MetaOk m.metadata

mutual

/-- A value that can be printed. -/
def ValueOk : Value → Prop
  | .single v => SingleOk v
  | .object l d => DocOk d ∧ PairsOk l
  | .list l => ValuesOk l

/-- Values that can be printed. -/
def ValuesOk : List Value → Prop
  | [] => True
  | v :: l => ValueOk v ∧ ValuesOk l

/-- Keys are identifiers. -/
def PairsOk : List (Ident × Value) → Prop
  | [] => True
  | (k, v) :: l => IsIdent k ∧ ValueOk v ∧ PairsOk l

end

/-- A declaration that can be printed: root types have no documentation, file identifiers are four ASCII
characters. -/
def ElementOk : Element → Prop
  | .namespace q d => QOk q ∧ DocOk d
  | .table p => ProductOk p
  | .struct p => ProductOk p
  | .enum e => DocOk e.doc ∧ IsIdent e.id ∧ TyOk e.baseType ∧ MetaOk e.metadata ∧ VariantsOk e.variants
  | .union u => DocOk u.doc ∧ IsIdent u.id ∧ MetaOk u.metadata ∧ VariantsOk u.variants
  | .root i d => IsIdent i ∧ d = []
  | .fileExtension e d => RawText e ∧ DocOk d
  | .fileIdentifier b d => b.length = 4 ∧ (∀ x ∈ b, x.toNat < 128) ∧ DocOk d
  | .attribute i => RawText i
  | .rpc r => DocOk r.doc ∧ IsIdent r.id ∧ r.methods ≠ [] ∧ ∀ m ∈ r.methods, MethodOk m
  | .object l d => DocOk d ∧ PairsOk l

/-- An include that can be printed. -/
def IncludeOk (i : Include) : Prop := RawText i.path ∧ Env.fileStem i.path = some i.stem ∧ DocOk i.doc

/-- A schema that can be printed. -/
def SchemaOk (s : Schema) : Prop := (∀ i ∈ s.includes, IncludeOk i) ∧ ∀ e ∈ s.elements, ElementOk e

/-! ### Numbers -/

omit [Env] in
theorem digitVal_digitChar : ∀ d, d < 16 → digitVal d.digitChar = d := by decide

omit [Env] in
theorem digitsVal_append (b : Nat) (l : Str) (c : Char) :
    digitsVal b (l ++ [c]) = digitsVal b l * b + digitVal c := by
  unfold digitsVal
  rw [List.foldl_append]
  rfl

omit [Env] in
/-- The digits of a number, read as a number. -/
theorem digitsVal_toDigits (b : Nat) (hb : 1 < b) (hb' : b ≤ 16) (n : Nat) : digitsVal b (Nat.toDigits b n) = n := by
  induction n using Nat.strongRecOn with
  | ind n ih =>
    rw [Nat.toDigits_eq_if hb]
    split
    · rename_i h
      show 0 * b + digitVal _ = n
      rw [digitVal_digitChar n (by omega)]
      omega
    · rename_i h
      rw [digitsVal_append, ih (n / b) (Nat.div_lt_self (by omega) hb),
        digitVal_digitChar _ (Nat.lt_of_lt_of_le (Nat.mod_lt _ (by omega)) hb')]
      have := Nat.div_add_mod n b
      rw [Nat.mul_comm] at this
      exact this

omit [Env] in
theorem toDigits_digits (n : Nat) : Digits (Nat.toDigits 10 n) :=
  fun _ hc => Nat.isDigit_of_mem_toDigits (by decide) (by decide) hc

omit [Env] in
theorem printInt_text {i : Int} (h1 : -(2 ^ 127) ≤ i) (h2 : i < 2 ^ 127) : IntText i (printInt i) := by
  have hv := digitsVal_toDigits 10 (by decide) (by decide) i.natAbs
  unfold printInt
  by_cases hi : i < 0
  · have e : signed true (digitsVal 10 (Nat.toDigits 10 i.natAbs)) = i := by
      rw [hv]; simp only [signed, if_true]; omega
    have := IntText.dec (ds := Nat.toDigits 10 i.natAbs) .minus (toDigits_digits _) Nat.toDigits_ne_nil
      (by rw [e]; exact h1) (by rw [e]; exact h2)
    rw [e] at this
    rw [if_pos hi]
    exact this
  · have e : signed false (digitsVal 10 (Nat.toDigits 10 i.natAbs)) = i := by
      rw [hv]; simp only [signed, Bool.false_eq_true, if_false]; omega
    have := IntText.dec (ds := Nat.toDigits 10 i.natAbs) .none (toDigits_digits _) Nat.toDigits_ne_nil
      (by rw [e]; exact h1) (by rw [e]; exact h2)
    rw [e] at this
    rw [if_neg hi]
    exact this

omit [Env] in
/-- A number that is exactly a finite float rounds to that float. -/
theorem roundBits_self {e k p q y : Nat} (hq : 0 < q) (hy : y < (2 ^ e - 1) * 2 ^ k)
    (h : p * fOne e k = fUnits e k y * q) : roundBits e k p q = y := by
  have hk : 0 < 2 ^ k := Nat.two_pow_pos k
  have hmod : y % 2 ^ (e + k) = y := by
    refine Nat.mod_eq_of_lt (Nat.lt_of_lt_of_le hy ?_)
    rw [Nat.pow_add]
    exact Nat.mul_le_mul_right _ (Nat.sub_le _ _)
  have hm : y % 2 ^ k < 2 ^ k := Nat.mod_lt _ hk
  have hdm := Nat.div_add_mod y (2 ^ k)
  have hround : ∀ a d, 0 < d → roundHalfEven (a * d) d = a := by
    intro a d hd
    unfold roundHalfEven
    rw [Nat.mul_mod_left, if_pos (by omega), Nat.mul_div_cancel _ hd]
  unfold roundBits
  simp only []
  change min (_ * 2 ^ k + roundHalfEven (p * fOne e k) _) _ = _
  change min ((Nat.log2 (p * fOne e k / q) - k) * 2 ^ k +
    roundHalfEven (p * fOne e k) (q * 2 ^ (Nat.log2 (p * fOne e k / q) - k))) _ = _
  rw [h, Nat.mul_div_cancel _ hq]
  unfold fUnits
  rw [hmod]
  split
  · rename_i h0
    have hyk : y < 2 ^ k := by
      rw [Nat.div_eq_zero_iff] at h0
      rcases h0 with h0 | h0
      · omega
      · exact h0
    rw [Nat.mod_eq_of_lt hyk]
    have hlog : Nat.log2 y - k = 0 := by
      by_cases hz : y = 0
      · subst hz; simp
      · have := (Nat.log2_lt hz).mpr hyk
        omega
    rw [hlog, Nat.pow_zero, Nat.mul_one, hround y q hq]
    omega
  · rename_i h0
    obtain ⟨x, hx⟩ : ∃ x, y / 2 ^ k = x + 1 := Nat.exists_eq_succ_of_ne_zero h0
    rw [hx, Nat.add_sub_cancel]
    have hlog : Nat.log2 ((2 ^ k + y % 2 ^ k) * 2 ^ x) = k + x := by
      rw [Nat.log2_eq_iff (by positivity)]
      constructor
      · rw [Nat.pow_add]; exact Nat.mul_le_mul_right _ (by omega)
      · have : 2 ^ (k + x + 1) = (2 ^ k + 2 ^ k) * 2 ^ x := by ring
        rw [this]
        exact Nat.mul_lt_mul_of_pos_right (by omega) (Nat.two_pow_pos x)
    have e1 : k + x - k = x := by omega
    rw [hlog, e1]
    have e2 : (2 ^ k + y % 2 ^ k) * 2 ^ x * q = (2 ^ k + y % 2 ^ k) * (q * 2 ^ x) := by ring
    rw [e2, hround _ _ (by positivity)]
    rw [hx] at hdm
    have e3 : 2 ^ k * (x + 1) = x * 2 ^ k + 2 ^ k := by ring
    omega

set_option exponentiation.threshold 1200 in
omit [Env] in
theorem printFinite_text {b : Fin (2 ^ 64)} (h : f64Finite b.val = true) : FloatText b (printFloat b) := by
  have hb := b.isLt
  have hfin : b.val % 2 ^ 63 / 2 ^ 52 ≠ 2047 := by
    unfold f64Finite at h
    simpa using h
  have hu : ∀ x, fUnits 11 52 (x % 2 ^ 63) = fUnits 11 52 x := by
    intro x
    unfold fUnits
    rw [Nat.mod_mod, Nat.mod_mod_of_dvd x (show 2 ^ 52 ∣ 2 ^ 63 by decide)]
  have hr : roundBits 11 52 (f64Units b.val * 5 ^ 1074) (10 ^ 1074) = b.val % 2 ^ 63 := by
    refine roundBits_self (Nat.pow_pos (by decide)) (by omega) ?_
    rw [hu, f64Units_eq]
    have e : fOne 11 52 = 2 ^ 1074 := by unfold fOne; rfl
    rw [e, Nat.mul_assoc, ← Nat.mul_pow]
  have hv := digitsVal_toDigits 10 (by decide) (by decide) (f64Units b.val * 5 ^ 1074)
  have hexp : ExpText (-1074) c!"e-1074" := by
    have := ExpText.mk (ds := c!"1074") (e := 'e') .minus (.inl rfl) (by unfold Digits; decide) (by decide)
    have e : signed true (digitsVal 10 c!"1074") = -1074 := by decide
    rw [e] at this
    exact this
  have hdec : ∀ neg : Bool, (decF64 neg (f64Units b.val * 5 ^ 1074) (-1074)).val =
      ((if neg then 2 ^ 63 else 0) + b.val % 2 ^ 63) % 2 ^ 64 := by
    intro neg
    unfold decF64
    rw [if_neg (c := (0 : Int) ≤ -1074) (by decide)]
    have e : (-(-1074 : Int)).toNat = 1074 := by decide
    rw [e, hr]
    rfl
  unfold printFloat
  rw [if_pos h]
  by_cases hn : 2 ^ 63 ≤ b.val
  · rw [if_pos hn]
    have := FloatText.exp (sg := c!"-") .minus (toDigits_digits (f64Units b.val * 5 ^ 1074)) Nat.toDigits_ne_nil hexp
    rw [hv] at this
    have e : decF64 true (f64Units b.val * 5 ^ 1074) (-1074) = b := by
      apply Fin.ext
      rw [hdec, if_pos rfl]
      omega
    rw [e] at this
    exact this
  · rw [if_neg hn]
    have := FloatText.exp (sg := []) .none (toDigits_digits (f64Units b.val * 5 ^ 1074)) Nat.toDigits_ne_nil hexp
    rw [hv] at this
    have e : decF64 false (f64Units b.val * 5 ^ 1074) (-1074) = b := by
      apply Fin.ext
      rw [hdec, if_neg (by decide)]
      omega
    rw [e] at this
    exact this

omit [Env] in
theorem printFloat_text {b : Fin (2 ^ 64)} (h : b.val % 2 ^ 63 ≤ 2047 * 2 ^ 52) : FloatText b (printFloat b) := by
  by_cases hf : f64Finite b.val = true
  · exact printFinite_text hf
  · have hfin : b.val % 2 ^ 63 / 2 ^ 52 = 2047 := by
      unfold f64Finite at hf
      simpa using hf
    have hb := b.isLt
    have hexp : ExpText 400 c!"e400" := by
      have := ExpText.mk (ds := c!"400") (e := 'e') .none (.inl rfl) (by unfold Digits; decide) (by decide)
      have e : signed false (digitsVal 10 c!"400") = 400 := by decide
      rw [e] at this
      exact this
    unfold printFloat
    rw [if_neg hf]
    have h1 : (decF64 true (digitsVal 10 c!"1") 400).val = 2 ^ 63 + 2047 * 2 ^ 52 := by decide +kernel
    have h2 : (decF64 false (digitsVal 10 c!"1") 400).val = 2047 * 2 ^ 52 := by decide +kernel
    by_cases hn : 2 ^ 63 ≤ b.val
    · rw [if_pos hn]
      have e : decF64 true (digitsVal 10 c!"1") 400 = b := Fin.ext (by rw [h1]; omega)
      have := FloatText.exp (sg := c!"-") (ip := c!"1") .minus (by unfold Digits; decide) (by decide) hexp
      rw [e] at this
      exact this
    · rw [if_neg hn]
      have e : decF64 false (digitsVal 10 c!"1") 400 = b := Fin.ext (by rw [h2]; omega)
      have := FloatText.exp (sg := []) (ip := c!"1") .none (by unfold Digits; decide) (by decide) hexp
      rw [e] at this
      exact this

omit [Env] in
theorem printScalar_text {s : Scalar} (h : ScalarOk s) : ScalarText s (printScalar s) := by
  cases s with
  | integer i => exact .integer (printInt_text h.1 h.2)
  | float b => exact .float (printFloat_text h)
  | boolean b => cases b with
    | true => exact .true
    | false => exact .false

omit [Env] in
theorem printSingle_text {s : Single} (h : SingleOk s) : SingleText s (printSingle s) := by
  cases s with
  | scalar s => exact .scalar (printScalar_text h)
  | string s => exact .string ⟨h, rfl⟩

/-! ### Everything else -/

omit [Env] in
theorem printDoc_text {d : Comment} (h : DocOk d) : DocText d (printDoc d) := by
  induction d with
  | nil => exact .nil
  | cons l d ih =>
    exact DocText.cons (nl := ['\n']) (w := []) (h l List.mem_cons_self) (.inl rfl) .nil
      (ih (fun x hx => h x (List.mem_cons_of_mem _ hx)))

omit [Env] in
theorem join_text {α : Type} {c : Char} {R : α → Str → Prop} {f : α → Str} :
    ∀ (l : List α), l ≠ [] → (∀ a ∈ l, R a (f a)) → SepText c R l (joinWith c (l.map f))
  | [], h, _ => absurd rfl h
  | [a], _, h => .one (h a List.mem_cons_self)
  | a :: b :: l, _, h =>
    SepText.cons (w₁ := []) (w₂ := []) (h a List.mem_cons_self) .nil .nil
      (join_text (b :: l) (by simp) (fun x hx => h x (List.mem_cons_of_mem _ hx)))

omit [Env] in
theorem many_text {α : Type} {R : α → Str → Prop} {f : α → Str} :
    ∀ (l : List α), (∀ a ∈ l, R a (f a)) → ManyText R l (l.flatMap f)
  | [], _ => .nil
  | a :: l, h =>
    ManyText.cons (w := []) (h a List.mem_cons_self) .nil (many_text l (fun x hx => h x (List.mem_cons_of_mem _ hx)))

theorem printQ_text {q : QIdent} (h : QOk q) : QIdentText q (printQ q) := by
  have := join_text (c := '.') (R := IdentText) (f := id) q h.1 (fun i hi => ⟨h.2 i hi, rfl⟩)
  rw [List.map_id] at this
  exact this

theorem printTy_text {t : Ty} (h : TyOk t) : TyText t (printTy t) := by
  induction t with
  | builtin b => exact .builtin b
  | string => exact .string
  | array t ih => exact .array (ih h)
  | ident q =>
    cases q with
    | nil => exact absurd rfl h.1.1
    | cons i q => exact .ident (h.2 i rfl) (printQ_text h.1)

theorem printDefault_text {d : Option DefaultValue} (h : DefaultOk d) : OptDefault d (printDefault d) := by
  match d, h with
  | none, _ => exact .none
  | some (.scalar s), h => exact OptDefault.some (w₁ := []) (w₂ := []) .nil .nil (.scalar (printScalar_text h))
  | some (.ident i), h => exact OptDefault.some (w₁ := []) (w₂ := []) .nil .nil (.ident h.1 h.2.1 h.2.2)

theorem printMeta_text {m : Option Metadata} (h : MetaOk m) : MetaText m (printMeta m) := by
  cases m with
  | none => exact .none
  | some m =>
    by_cases hm : m = []
    · subst hm
      exact MetaText.empty (w := []) .nil
    · have := join_text (c := ',') (R := MetaItem) (f := printMetaItem) m hm (fun x hx => by
        obtain ⟨h1, h2⟩ := h x hx
        obtain ⟨k, v⟩ := x
        cases v with
        | none => exact .flag h1
        | some v => exact MetaItem.value (w₁ := []) (w₂ := []) h1 .nil .nil (printSingle_text (h2 v rfl)))
      exact MetaText.some (w₁ := []) (w₂ := []) .nil this .nil

theorem printField_text {f : Field} (h : FieldOk f) : FieldText f (printField f) := by
  obtain ⟨h1, h2, h3, h4, h5⟩ := h
  exact FieldText.mk (w₁ := []) (w₂ := []) (w₃ := []) (w₄ := []) (printDoc_text h1) h2 .nil .nil (printTy_text h3)
    (printDefault_text h4) .nil (printMeta_text h5) .nil

omit [Env] in
theorem space_trivia : Trivia [' '] := .space (.inl rfl) .nil

theorem printProduct_text {kw : Str} {p : Product} (h : ProductOk p) : ProductText kw p (printProduct kw p) := by
  obtain ⟨h1, h2, h3, h4⟩ := h
  exact ProductText.mk (w₁ := [' ']) (w₂ := []) (w₃ := []) (w₄ := []) (printDoc_text h1) space_trivia (by simp) h2 .nil
    (printMeta_text h3) .nil .nil (many_text p.fields (fun f hf => printField_text (h4 f hf)))

theorem printVariant_text {v : EnumVariant} (h : VariantOk v) : VariantText v (printVariant v) := by
  obtain ⟨h1, h2, h3⟩ := h
  refine VariantText.mk (printDoc_text h1) h2 ?_
  cases hv : v.value with
  | none => exact .none
  | some i => exact OptInt.some (w₁ := []) (w₂ := []) .nil .nil (printInt_text (h3 i hv).1 (h3 i hv).2)

theorem printBody_text {vs : List EnumVariant} (h : VariantsOk vs) : BodyText vs (printBody vs) :=
  BodyText.plain (w₁ := []) (w₂ := []) (w₃ := []) .nil .nil
    (join_text vs h.1 (fun v hv => printVariant_text (h.2 v hv))) .nil

theorem printMethod_text {m : RpcMethod} (h : MethodOk m) : MethodText m (printMethod m) := by
  obtain ⟨h1, h2, h3, h4, h5⟩ := h
  exact MethodText.mk (w₁ := []) (w₂ := []) (w₃ := []) (w₄ := []) (w₅ := []) (w₆ := []) (w₇ := []) (printDoc_text h1) h2
    .nil .nil (printQ_text h3) .nil .nil .nil (printQ_text h4) .nil (printMeta_text h5) .nil

omit [Env] in
theorem printKeyword_text {kw : Str} {gap : Bool} {d : Comment} {t : Str} (h : DocOk d) :
    KeywordText kw gap d t (printKeyword kw d t) :=
  KeywordText.mk (w₁ := [' ']) (w₂ := []) (printDoc_text h) space_trivia (fun _ => by simp) .nil

mutual

theorem printValue_text : ∀ {v : Value}, ValueOk v → ValueText v (printValue v)
  | .single v, h => by
    rw [ValueOk] at h
    rw [printValue]
    exact .single (printSingle_text h)
  | .object l d, h => by
    rw [ValueOk] at h
    rw [printValue]
    refine .object ?_
    cases l with
    | nil => rw [printPairs]; exact ObjectText.empty (w := []) (printDoc_text h.1) .nil
    | cons x l =>
      exact ObjectText.some (w₁ := []) (w₂ := []) (printDoc_text h.1) .nil (printPairs_text h.2 (by simp)) .nil
  | .list l, h => by
    rw [ValueOk] at h
    rw [printValue]
    cases l with
    | nil => rw [printValues]; exact ValueText.emptyList (w := []) .nil
    | cons x l => exact ValueText.list (w₁ := []) (w₂ := []) .nil (printValues_text h (by simp)) .nil

theorem printValues_text : ∀ {l : List Value}, ValuesOk l → l ≠ [] → ValuesText l (printValues l)
  | [], _, hne => absurd rfl hne
  | [v], h, _ => by
    rw [ValuesOk] at h
    rw [printValues, List.append_nil]
    exact .one (printValue_text h.1)
  | v :: u :: l, h, _ => by
    rw [ValuesOk] at h
    rw [printValues]
    exact ValuesText.cons (w₁ := []) (w₂ := []) (printValue_text h.1) .nil .nil (printValues_text h.2 (by simp))

theorem printPairs_text : ∀ {l : List (Ident × Value)}, PairsOk l → l ≠ [] → PairsText l (printPairs l)
  | [], _, hne => absurd rfl hne
  | [(k, v)], h, _ => by
    rw [PairsOk] at h
    rw [printPairs, List.append_nil]
    exact PairsText.one (w₁ := []) (w₂ := []) h.1 .nil .nil (printValue_text h.2.1)
  | (k, v) :: u :: l, h, _ => by
    rw [PairsOk] at h
    rw [printPairs]
    exact PairsText.cons (v₁ := []) (v₂ := []) (w₁ := []) (w₂ := []) h.1 .nil .nil (printValue_text h.2.1) .nil .nil
      (printPairs_text h.2.2 (by simp))

end

theorem printObject_text {l : List (Ident × Value)} {d : Comment} (hd : DocOk d) (hl : PairsOk l) :
    ObjectText l d (printObject l d) := by
  unfold printObject
  cases l with
  | nil => rw [printPairs]; exact ObjectText.empty (w := []) (printDoc_text hd) .nil
  | cons x l => exact ObjectText.some (w₁ := []) (w₂ := []) (printDoc_text hd) .nil (printPairs_text hl (by simp)) .nil

theorem printElement_text {e : Element} (h : ElementOk e) : ElementText e (printElement e) := by
  cases e with
  | «namespace» q d => exact .namespace (printQ_text h.1) (printKeyword_text h.2)
  | table p => exact .table (printProduct_text h)
  | struct p => exact .struct (printProduct_text h)
  | enum e =>
    obtain ⟨h1, h2, h3, h4, h5⟩ := h
    exact .enum (EnumText.mk (w₁ := [' ']) (w₂ := []) (w₃ := []) (printDoc_text h1) space_trivia (by simp) h2 .nil .nil
      (printTy_text h3) (printMeta_text h4) (printBody_text h5))
  | union u =>
    obtain ⟨h1, h2, h3, h4⟩ := h
    exact .union (UnionText.mk (w₁ := [' ']) (w₂ := []) (printDoc_text h1) space_trivia (by simp) h2 .nil
      (printMeta_text h3) (printBody_text h4))
  | root i d =>
    obtain ⟨h1, rfl⟩ := h
    exact .root h1 (printKeyword_text (fun l hl => by cases hl))
  | fileExtension e d => exact .fileExtension ⟨h.1, rfl⟩ (printKeyword_text h.2)
  | fileIdentifier b d =>
    obtain ⟨h1, h2, h3⟩ := h
    match b, h1 with
    | [b₁, b₂, b₃, b₄], _ =>
      have hc : ∀ x ∈ [b₁, b₂, b₃, b₄], (Char.ofNat x.toNat).toNat = x.toNat := by
        intro x hx
        have := h2 x hx
        unfold Char.ofNat
        rw [dif_pos (.inl (by omega))]
        rfl
      have hu : ∀ x ∈ [b₁, b₂, b₃, b₄], UInt8.ofNat (Char.ofNat x.toNat).toNat = x := by
        intro x hx
        rw [hc x hx]
        simp
      have := ElementText.fileIdentifier (c₁ := Char.ofNat b₁.toNat) (c₂ := Char.ofNat b₂.toNat)
        (c₃ := Char.ofNat b₃.toNat) (c₄ := Char.ofNat b₄.toNat) (d := d)
        (t := printElement (.fileIdentifier [b₁, b₂, b₃, b₄] d))
        (by
          intro c hx
          simp only [List.mem_cons, List.not_mem_nil, or_false] at hx
          rcases hx with rfl | rfl | rfl | rfl
          · rw [hc b₁ (by simp)]; exact h2 _ (by simp)
          · rw [hc b₂ (by simp)]; exact h2 _ (by simp)
          · rw [hc b₃ (by simp)]; exact h2 _ (by simp)
          · rw [hc b₄ (by simp)]; exact h2 _ (by simp))
        (printKeyword_text h3)
      simp only [List.map_cons, List.map_nil, hu b₁ (by simp), hu b₂ (by simp), hu b₃ (by simp), hu b₄ (by simp)] at this
      exact this
  | «attribute» i => exact .attribute (.inr ⟨h, rfl⟩) (printKeyword_text (d := []) (fun l hl => by cases hl))
  | rpc r =>
    obtain ⟨h1, h2, h3, h4⟩ := h
    exact .rpc (RpcText.mk (w₁ := [' ']) (w₂ := []) (w₃ := []) (printDoc_text h1) space_trivia (by simp) h2 .nil .nil h3
      (many_text r.methods (fun m hm => printMethod_text (h4 m hm))))
  | object l d => exact .object (printObject_text h.1 h.2)

theorem printInclude_text {i : Include} (h : IncludeOk i) : IncludeText i (printInclude i) :=
  .mk ⟨h.1, rfl⟩ h.2.1 (printKeyword_text h.2.2)

/-- The printed text is one way of writing the schema. -/
theorem printSchema_text {s : Schema} (h : SchemaOk s) : SchemaText s (printSchema s) := by
  by_cases hs : s.includes ≠ [] ∨ s.elements ≠ []
  · have := SchemaText.mk (w := []) (e := []) hs .nil (many_text s.includes (fun i hi => printInclude_text (h.1 i hi)))
      (many_text s.elements (fun e he => printElement_text (h.2 e he))) .none
    rw [List.nil_append, List.append_nil] at this
    exact this
  · push Not at hs
    obtain ⟨h1, h2⟩ := hs
    cases s
    simp only at h1 h2
    subst h1 h2
    exact .empty

end Butte.Parse
