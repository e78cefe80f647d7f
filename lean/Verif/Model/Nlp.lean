import Verif.Model.Basic
/-! # Natural-language relations  (models parts of /repo/src/ModNlpA.rs)

The conversion of extracted relations to text; the neural network which extracts them is in Model/NlpNet. -/
namespace Nar

/-- `Relation`, ModNlpA.rs 743-748. -/
structure Relation where
  head : List Char
  args : List (List Char)
  isNegated : Bool
  conf : Rat
  deriving DecidableEq

/-- `conv_rel_to_narsese`, ModNlpA.rs 751-760; `sf` is the number printer of the standard
library. -/
def convRelToNarsese (sf : Rat → List Char) (rel : Relation) : R (List Char) :=
  match rel.args with
  | [a, b] => .ok (['<', '('] ++ a ++ ['*'] ++ b ++ [')', ' ', '-', '-', '>', ' '] ++ rel.head ++
      ['>', '.', ' ', '{'] ++ sf 1 ++ [' '] ++ sf rel.conf ++ ['}'])
  | _ => .error .explicit

end Nar
