import Verif.Ir.Str
/-
Keyword substitution: butte-build/src/ir/keywords.rs, ir/types.rs 443-461.
-/
namespace Butte.Ir

/-- ir/keywords.rs 1-58 `substitute_keyword`. -/
def substituteKeyword (s : Str) : Option Str :=
  if s ∈ [c!"as", c!"async", c!"await", c!"break", c!"const", c!"continue", c!"crate", c!"dyn", c!"else", c!"enum",
      c!"extern", c!"false", c!"fn", c!"for", c!"if", c!"impl", c!"in", c!"let", c!"loop", c!"match", c!"mod",
      c!"move", c!"mut", c!"pub", c!"ref", c!"return", c!"self", c!"Self", c!"static", c!"struct", c!"super",
      c!"trait", c!"true", c!"unsafe", c!"use", c!"where", c!"while",
      c!"abstract", c!"become", c!"box", c!"do", c!"final", c!"macro", c!"override", c!"priv", c!"typeof",
      c!"unsized", c!"virtual", c!"yield"] then some (s ++ ['_'])
  else if s = c!"type" then some c!"ty"
  else none

/-- ir/types.rs 446-452 `Ident::fix_identifier`; also the effect of every `Ident::from` (463-491). -/
def fixIdentifier (s : Str) : Str := (substituteKeyword s).getD s

end Butte.Ir
