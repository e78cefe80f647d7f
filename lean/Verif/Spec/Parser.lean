import Verif.Model.Sentence
import Verif.Spec.Term
/-!
# Specification vocabulary for the Narsese parser

The notation of the language, given by a grammar of terms and the text of every term, without
reference to the parser functions.
-/
namespace Nar

/-- Characters of which words are made. -/
def SignChar (c : Char) : Prop := c.isAlphanum = true ∨ c = '-' ∨ c = '_' ∨ c = '^'

instance : DecidablePred SignChar := fun c => by unfold SignChar; infer_instance

/-- Words: 1 to 512 letters, digits, `-`, `_`, `^`. -/
def Word (w : String) : Prop :=
  1 ≤ w.toList.length ∧ w.toList.length ≤ 512 ∧ ∀ c ∈ w.toList, SignChar c

instance : DecidablePred Word := fun w => by unfold Word; infer_instance

/-- The terms which have a text in the input language. -/
inductive Readable : Term → Prop
  | name {w} : Word w → Readable (.Name w)
  | qvar {w} : Word w → Readable (.QVar w)
  | depvar {w} : Word w → Readable (.DepVar w)
  | indepvar {w} : Word w → Readable (.IndepVar w)
  | stmt {c a b} : Readable a → Readable b → Readable (.Stmt c a b)
  | setExt {a} : Readable a → Readable (.SetExt [a])
  | setInt {a} : Readable a → Readable (.SetInt [a])
  | neg {a} : Readable a → Readable (.Neg a)
  | seq {ts} : 2 ≤ ts.length → (∀ t ∈ ts, Readable t) → Readable (.Seq ts)
  | prod {ts} : 2 ≤ ts.length → (∀ t ∈ ts, Readable t) → Readable (.Prod ts)
  | conj {ts} : 2 ≤ ts.length → ts.length ≤ 4 → (∀ t ∈ ts, Readable t) → Readable (.Conj ts)
  | intInt {a b} : Readable a → Readable b → Readable (.IntInt [a, b])
  | extInt {a b} : Readable a → Readable b → Readable (.ExtInt [a, b])
  | img {r i a} : i < 2 → Readable r → Readable a → Readable (.Img r i [a])

mutual
/-- The text of a term in the input language: no spaces in compounds, one space around the
copula and around the place mark of an image. -/
def notation' : Term → List Char
  | .Stmt c s p => '<' :: notation' s ++ [' '] ++ c.str ++ [' '] ++ notation' p ++ ['>']
  | .Name n => n.toList
  | .QVar n => '?' :: n.toList
  | .DepVar n => '#' :: n.toList
  | .IndepVar n => '$' :: n.toList
  | .SetInt ts => '[' :: notationL [','] ts ++ [']']
  | .SetExt ts => '{' :: notationL [','] ts ++ ['}']
  | .Seq ts => '(' :: notationL [','] ts ++ [')']
  | .Conj ts => '(' :: notationL ['&', '&'] ts ++ [')']
  | .Prod ts => '(' :: notationL ['*'] ts ++ [')']
  | .IntInt ts => '(' :: notationL ['|'] ts ++ [')']
  | .ExtInt ts => '(' :: notationL ['&'] ts ++ [')']
  | .Par ts => '(' :: notationL [';'] ts ++ [')']
  | .Img r i ts =>
      '(' :: notation' r ++ [' ', '/'] ++ natStr (i + 1) ++ [' '] ++ notationL [','] ts ++ [')']
  | .Neg t => '(' :: '!' :: notation' t ++ [')']
/-- Several terms with a separator between them. -/
def notationL (sep : List Char) : List Term → List Char
  | [] => []
  | [t] => notation' t
  | t :: t2 :: ts => notation' t ++ sep ++ notationL sep (t2 :: ts)
end

/-- A term ends where `rest` begins: a word must not be continued by `rest` (unless it has the
maximal length). -/
def EndsBefore : Term → List Char → Prop
  | .Name w, rest | .QVar w, rest | .DepVar w, rest | .IndepVar w, rest =>
      w.toList.length < 512 → ∀ c r, rest = c :: r → ¬ SignChar c
  | _, _ => True

/-! ## Lines -/

/-- Only ASCII characters. -/
def Ascii (s : List Char) : Prop := ∀ c ∈ s, c.toNat < 128

/-- The punctuation marks. -/
def mark : Punct → Char
  | .JUGEMENT => '.'
  | .GOAL => '!'
  | .QUESTION => '?'

/-- The text of a truth value from the texts of its two numbers. -/
def tvText (a b : List Char) : List Char := '{' :: a ++ [' '] ++ b ++ ['}']

/-- The text of an optional truth value. -/
def tvPart : Option (List Char × List Char) → List Char
  | none => []
  | some (a, b) => tvText a b

/-- `s` is `pre` followed by a truth value with the number texts `a` and `b`. -/
structure TvAtEnd (s pre a b : List Char) : Prop where
  eq : s = pre ++ tvText a b
  pre : pre ≠ []
  blankA : ' ' ∉ a
  blankB : ' ' ∉ b
  braceA : '{' ∉ a
  braceB : '{' ∉ b

/-- Characters of number texts: no blank, no brace, no star. -/
def NumText (a : List Char) : Prop := Ascii a ∧ ' ' ∉ a ∧ '{' ∉ a ∧ '*' ∉ a

/-- A complete line: term, punctuation, optionally a truth value, optionally the event mark. -/
def lineText (t : Term) (p : Punct) (tv : Option (List Char × List Char)) (ev : Bool) : List Char :=
  notation' t ++ [mark p] ++
    (if tv.isSome then [' '] else []) ++ tvPart tv ++
    (if ev then [' ', ':', '|', ':'] else [])

/-- White space. -/
def IsBlank (c : Char) : Prop := c = ' ' ∨ (9 ≤ c.toNat ∧ c.toNat ≤ 13)

instance : DecidablePred IsBlank := fun c => by unfold IsBlank; infer_instance

/-- A line with further text between the term and the punctuation, and blanks after it. -/
def looseLine (t : Term) (junk : List Char) (p : Punct) (blanks : List Char)
    (tv : Option (List Char × List Char)) (ev : Bool) : List Char :=
  notation' t ++ junk ++ [mark p] ++ blanks ++
    tvPart tv ++
    (if ev then [' ', ':', '|', ':'] else [])

/-- The number texts of a truth value contain neither blanks nor opening braces. -/
def TvParts : Option (List Char × List Char) → Prop
  | none => True
  | some (a, b) => ' ' ∉ a ∧ ' ' ∉ b ∧ '{' ∉ a ∧ '{' ∉ b

/-- The truth value written, given a number reader; frequency 1 and confidence 0.9 if none is
written. -/
def tvMeant (pf : List Char → Option Rat) : Option (List Char × List Char) → Option Tv
  | none => some ⟨1, 9/10⟩
  | some (a, b) =>
    match pf a, pf b with
    | some f, some c => some ⟨f, c⟩
    | _, _ => none

/-- No blank next to a star. -/
def NoBlankAtStar (s : List Char) : Prop :=
  ∀ u v, s ≠ u ++ '*' :: ' ' :: v ∧ s ≠ u ++ ' ' :: '*' :: v

/-- `s'` is `s` with additional blanks next to stars. -/
inductive BlanksAtStars : List Char → List Char → Prop
  | same (s) : BlanksAtStars s s
  | after {s u v} : BlanksAtStars s (u ++ '*' :: v) → BlanksAtStars s (u ++ '*' :: ' ' :: v)
  | before {s u v} : BlanksAtStars s (u ++ '*' :: v) → BlanksAtStars s (u ++ ' ' :: '*' :: v)

/-! ## Printed terms -/

/-- Terms without compounds other than statements and one-element sets. -/
inductive Plain : Term → Prop
  | name {w} : Word w → Plain (.Name w)
  | qvar {w} : Word w → Plain (.QVar w)
  | depvar {w} : Word w → Plain (.DepVar w)
  | indepvar {w} : Word w → Plain (.IndepVar w)
  | stmt {c a b} : Plain a → Plain b → Plain (.Stmt c a b)
  | setExt {a} : Plain a → Plain (.SetExt [a])
  | setInt {a} : Plain a → Plain (.SetInt [a])

/-- All names occurring in the term are words of the language. -/
def WellWorded (t : Term) : Prop :=
  ∀ w, (Term.IsSubterm (.Name w) t ∨ Term.IsSubterm (.QVar w) t ∨ Term.IsSubterm (.DepVar w) t ∨
    Term.IsSubterm (.IndepVar w) t) → Word w

end Nar
