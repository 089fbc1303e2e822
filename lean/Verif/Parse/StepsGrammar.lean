import Verif.Parse.StepsBound
/-
How many steps the rules without recursion take.
-/
namespace Butte.Parse.Timed

open Ast

/-- Goes through the combinators of a rule. -/
syntax "meets" "[" term,* "]" : tactic

macro_rules
  | `(tactic| meets [$ts,*]) => do
    let ts := ts.getElems
    let alts ← ts.mapM fun t => `(tactic| (with_reducible refine Meets.up $t _ ?_; omega))
    `(tactic| repeat' first
      $[| $alts:tactic]*
      | with_reducible refine map_meets ?_ _
      | with_reducible refine mapRes_meets ?_ _
      | with_reducible refine value_meets _ ?_
      | with_reducible refine opt_meets ?_
      | with_reducible refine pnot_meets ?_
      | with_reducible refine recognize_meets ?_
      | with_reducible refine alt_meets ?_ ?_
      | with_reducible refine pair_meets ?_ ?_
      | with_reducible refine preceded_meets ?_ ?_
      | with_reducible refine terminated_meets ?_ ?_
      | with_reducible refine delimited_meets ?_ ?_ ?_
      | with_reducible refine separatedPair_meets ?_ ?_ ?_
      | with_reducible refine many0_meets ?_
      | with_reducible refine many1_meets ?_
      | with_reducible refine sepList0_meets ?_ ?_
      | with_reducible refine sepList1_meets ?_ ?_
      | (with_reducible refine Meets.up (char_meets _) _ ?_; omega)
      | (with_reducible refine Meets.up (oneOf_meets _) _ ?_; omega)
      | (with_reducible refine Meets.up (satisfy_meets _) _ ?_; omega)
      | (with_reducible refine Meets.up (tag_meets _) _ ?_; omega)
      | (with_reducible refine Meets.up (takeWhile_meets _) _ ?_; omega)
      | (with_reducible refine Meets.up (takeWhile1_meets _) _ ?_; omega)
      | (with_reducible refine Meets.up (take_meets _) _ ?_; omega)
      | (with_reducible refine Meets.up notLineEnding_meets _ ?_; omega)
      | (with_reducible refine Meets.up lineEnding_meets _ ?_; omega)
      | (with_reducible refine Meets.up (escaped_meets _ _ _) _ ?_; omega))

def digit0_meets : Meets 1 digit0 Parse.digit0 := takeWhile_meets _
def digit1_meets : Meets 1 digit1 Parse.digit1 := takeWhile1_meets _
def hexDigit0_meets : Meets 1 hexDigit0 Parse.hexDigit0 := takeWhile_meets _
def hexDigit1_meets : Meets 1 hexDigit1 Parse.hexDigit1 := takeWhile1_meets _
def multispace1_meets : Meets 1 multispace1 Parse.multispace1 := takeWhile1_meets _
def plusOrMinus_meets : Meets 1 plusOrMinus Parse.plusOrMinus := oneOf_meets _

def stringConstant_meets : Meets 1 stringConstant Parse.stringConstant := by
  delta stringConstant Parse.stringConstant; meets []

def comment_meets : Meets 1 comment Parse.comment := by delta comment Parse.comment; meets []

def commentOrSpace_meets : Meets 1 commentOrSpace Parse.commentOrSpace := by
  delta commentOrSpace Parse.commentOrSpace; meets [comment_meets, multispace1_meets]

def cos0_meets : Meets 2 cos0 Parse.cos0 := by delta cos0 Parse.cos0; meets [commentOrSpace_meets]

def cos1_meets : Meets 2 cos1 Parse.cos1 := by delta cos1 Parse.cos1; meets [commentOrSpace_meets]

def rawDocComment_meets : Meets 1 rawDocComment Parse.rawDocComment := by delta rawDocComment Parse.rawDocComment; meets []

def docComment_meets : Meets 3 docComment Parse.docComment := by
  delta docComment Parse.docComment; meets [rawDocComment_meets, cos0_meets]

def decIntegerConstant_meets : Meets 1 decIntegerConstant Parse.decIntegerConstant := by
  delta decIntegerConstant Parse.decIntegerConstant; meets [plusOrMinus_meets, digit1_meets]

def hexIntegerConstant_meets : Meets 1 hexIntegerConstant Parse.hexIntegerConstant := by
  delta hexIntegerConstant Parse.hexIntegerConstant; meets [plusOrMinus_meets, hexDigit1_meets]

def integerConstant_meets : Meets 1 integerConstant Parse.integerConstant := by
  delta integerConstant Parse.integerConstant; meets [hexIntegerConstant_meets, decIntegerConstant_meets]

def decFloatExponent_meets : Meets 1 decFloatExponent Parse.decFloatExponent := by
  delta decFloatExponent Parse.decFloatExponent; meets [plusOrMinus_meets, digit1_meets]

def decFloatConstant_meets : Meets 1 decFloatConstant Parse.decFloatConstant := by
  delta decFloatConstant Parse.decFloatConstant
  meets [plusOrMinus_meets, digit0_meets, digit1_meets, decFloatExponent_meets]

def hexFloatExponent_meets : Meets 1 hexFloatExponent Parse.hexFloatExponent := by
  delta hexFloatExponent Parse.hexFloatExponent; meets [plusOrMinus_meets, digit1_meets]

def fail_meets {α : Type} : Meets 1 (fail : CP α) (fun _ => none) :=
  .lin 1 (fun i => by simp only [fail, bind_steps, tick_steps, pure_steps]; omega) (fun _ => rfl) (fun _ _ _ e => by cases e)
    (fun _ _ _ e => by cases e)

def builtinAlt_meets : ∀ l : List (Builtin × Str), Meets 1 (builtinAlt l) (Parse.builtinAlt l)
  | [] => fail_meets
  | (_, n) :: l => alt_meets (value_meets _ (tag_meets n)) (builtinAlt_meets l)

variable [Env]

def ident_meets : Meets 1 ident Parse.ident := by delta ident Parse.ident; meets []

def qualifiedIdent_meets : Meets 3 qualifiedIdent Parse.qualifiedIdent := by
  delta qualifiedIdent Parse.qualifiedIdent; meets [cos0_meets, ident_meets]

def reMatch_meets (f : Str → Bool) : Meets 1 (reMatch f) (Parse.reMatch f) :=
  .lin 1 (fun i => by simp only [reMatch, bind_steps, tick_steps, pure_steps]; omega) (fun _ => rfl)
    (fun i r a e => by simp only [reMatch, bind_steps, tick_steps, pure_steps]; omega) reMatch_consumes

def nan_meets : Meets 1 nan Parse.nan := by delta nan Parse.nan; meets [plusOrMinus_meets, reMatch_meets _]

def infOrInfinity_meets : Meets 1 infOrInfinity Parse.infOrInfinity := by
  delta infOrInfinity Parse.infOrInfinity; meets [plusOrMinus_meets, reMatch_meets _]

def specialFloatConstant_meets : Meets 1 specialFloatConstant Parse.specialFloatConstant := by
  delta specialFloatConstant Parse.specialFloatConstant; meets [nan_meets, infOrInfinity_meets]

def hexFloatConstant_meets : Meets 1 hexFloatConstant Parse.hexFloatConstant := by
  delta hexFloatConstant Parse.hexFloatConstant
  meets [plusOrMinus_meets, hexDigit0_meets, hexDigit1_meets, hexFloatExponent_meets]

def floatConstant_meets : Meets 1 floatConstant Parse.floatConstant := by
  delta floatConstant Parse.floatConstant; meets [specialFloatConstant_meets, hexFloatConstant_meets, decFloatConstant_meets]

def boolWord_meets (b : Bool) (w : Str) : Meets 1 (boolWord b w) (Parse.boolWord b w) := by
  refine value_meets b (Meets.lin (w.length + 2) (fun i => ?_) (fun i => ?_) (fun i r a e => ?_) ?_)
  · simp only [bind_steps, reMatch, tick_steps, pure_steps]
    have h : (w.length + 2) * (i.length + 1) = w.length * i.length + w.length + 2 * i.length + 2 := by
      rw [Nat.add_mul, Nat.mul_add, Nat.mul_add]; omega
    cases (tick (i.length + 1) >>= fun _ => pure (Parse.reMatch (hasWord w) i) : Ct _).val with
    | none => simp only [pure_steps]; omega
    | some x => simp only [tag, bind_steps, tick_steps, pure_steps]; omega
  · simp only [bind_val, reMatch, pure_val]
    cases Parse.reMatch (hasWord w) i <;> rfl
  · simp only [bind_steps, reMatch, tick_steps]
    omega
  · intro i r a e
    simp only at e
    split at e
    · cases e
    · exact tag_consumes _ _ _ e

def booleanConstant_meets : Meets 1 booleanConstant Parse.booleanConstant := by
  delta booleanConstant Parse.booleanConstant; meets [boolWord_meets _ _]

def scalar_meets : Meets 1 scalar Parse.scalar := by
  delta scalar Parse.scalar; meets [floatConstant_meets, integerConstant_meets, booleanConstant_meets]

def single_meets : Meets 1 single Parse.single := by delta single Parse.single; meets [scalar_meets, stringConstant_meets]

def defaultValue_meets : Meets 1 defaultValue Parse.defaultValue := by
  delta defaultValue Parse.defaultValue; meets [scalar_meets, ident_meets]

def rawMetadata_meets : Meets 3 rawMetadata Parse.rawMetadata := by
  delta rawMetadata Parse.rawMetadata; meets [cos0_meets, ident_meets, single_meets]

def metadata_meets : Meets 3 metadata Parse.metadata := by delta metadata Parse.metadata; meets [rawMetadata_meets]

end Butte.Parse.Timed
