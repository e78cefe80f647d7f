import Verif.Model.Sentence
/-!
# The Narsese parser  (models /repo/src/NarseseParser.rs, TermApi.rs and the sentence printer of
NarSentence.rs)

A parser takes the remaining text and returns what it read and the text that is left (`IResult`
of the `nom` library; the content of its error value is never looked at by the program and is
dropped).  Text is a `List Char`.
-/
namespace Nar

/-- `nom`'s `tag`: the text must begin with the given characters. -/
def tag : List Char → List Char → Option (List Char)
  | [], i => some i
  | _ :: _, [] => none
  | c :: w, d :: i => if c == d then tag w i else none

/-- `isValidSign`, NarseseParser.rs 487-489.  `char::is_alphanumeric` is modelled for ASCII; a
line with a character outside ASCII panics before the term parser is called
(`parseNarseseRetTv`). -/
def isValidSign (c : Char) : Bool := c.isAlphanum || c == '-' || c == '_' || c == '^'

/-- `alpha2`, NarseseParser.rs 491-496: between 1 and 512 characters (`take_while_m_n`). -/
def alpha2 (i : List Char) : Option (String × List Char) :=
  let w := (i.takeWhile isValidSign).take 512
  if w.isEmpty then none else some (String.ofList w, i.drop w.length)

/-- `b`, NarseseParser.rs 506-509. -/
def parseName (i : List Char) : Option (Term × List Char) := do
  let (w, i) ← alpha2 i
  some (.Name w, i)

/-- `qVar`, NarseseParser.rs 521-525. -/
def parseQVar (i : List Char) : Option (Term × List Char) := do
  let i ← tag ['?'] i
  let (w, i) ← alpha2 i
  some (.QVar w, i)

/-- `depVar`, NarseseParser.rs 526-530. -/
def parseDepVar (i : List Char) : Option (Term × List Char) := do
  let i ← tag ['#'] i
  let (w, i) ← alpha2 i
  some (.DepVar w, i)

/-- `indepVar`, NarseseParser.rs 531-535. -/
def parseIndepVar (i : List Char) : Option (Term × List Char) := do
  let i ← tag ['$'] i
  let (w, i) ← alpha2 i
  some (.IndepVar w, i)

/-- `copInh` … `copEquiv` and `parseCopula`, NarseseParser.rs 702-762. -/
def parseCopula (i : List Char) : Option (Copula × List Char) :=
  match tag [' ', '-', '-', '>', ' '] i with
  | some i => some (.INH, i)
  | none =>
  match tag [' ', '<', '-', '>', ' '] i with
  | some i => some (.SIM, i)
  | none =>
  match tag [' ', '=', '=', '>', ' '] i with
  | some i => some (.IMPL, i)
  | none =>
  match tag [' ', '=', '/', '>', ' '] i with
  | some i => some (.PREDIMPL, i)
  | none =>
  match tag [' ', '<', '=', '>', ' '] i with
  | some i => some (.EQUIV, i)
  | none => none

section
-- the recursive call `parseSubjOrPred(input, true)`
variable (rec : List Char → Option (Term × List Char))

/-- `a`, NarseseParser.rs 498-504. -/
def parseSetExt (i : List Char) : Option (Term × List Char) := do
  let i ← tag ['{'] i
  let (t, i) ← rec i
  let i ← tag ['}'] i
  some (.SetExt [t], i)

/-- `c`, NarseseParser.rs 512-518. -/
def parseSetInt (i : List Char) : Option (Term × List Char) := do
  let i ← tag ['['] i
  let (t, i) ← rec i
  let i ← tag [']'] i
  some (.SetInt [t], i)

/-- `parseNeg`, NarseseParser.rs 765-770. -/
def parseNeg (i : List Char) : Option (Term × List Char) := do
  let i ← tag ['(', '!'] i
  let (t, i) ← rec i
  let i ← tag [')'] i
  some (.Neg t, i)

/-- the loops "for more sub-terms" of NarseseParser.rs 782-796 and 869-883: as long as the
separator follows, one more term must follow.  The first argument bounds the number of rounds;
every round consumes text, so the length of the text is enough. -/
def moreTerms (sep : List Char) : Nat → List Char → Option (List Term × List Char)
  | 0, _ => none
  | n + 1, i =>
    match tag sep i with
    | none => some ([], i)
    | some i => do
      let (t, i) ← rec i
      let (ts, i) ← moreTerms sep n i
      some (t :: ts, i)

/-- `parseSeq`, NarseseParser.rs 772-801, with `seq` of TermApi.rs 26-28. -/
def parseSeq (i : List Char) : Option (Term × List Char) := do
  let i ← tag ['('] i
  let (a, i) ← rec i
  let i ← tag [','] i
  let (b, i) ← rec i
  let (ts, i) ← moreTerms rec [','] (i.length + 1) i
  let i ← tag [')'] i
  some (.Seq (a :: b :: ts), i)

/-- `parseExtInt2`, NarseseParser.rs 804-811. -/
def parseExtInt2 (i : List Char) : Option (Term × List Char) := do
  let i ← tag ['('] i
  let (a, i) ← rec i
  let i ← tag ['&'] i
  let (b, i) ← rec i
  let i ← tag [')'] i
  some (.ExtInt [a, b], i)

/-- `parseIntInt2`, NarseseParser.rs 812-819. -/
def parseIntInt2 (i : List Char) : Option (Term × List Char) := do
  let i ← tag ['('] i
  let (a, i) ← rec i
  let i ← tag ['|'] i
  let (b, i) ← rec i
  let i ← tag [')'] i
  some (.IntInt [a, b], i)

/-- `parseProd`, NarseseParser.rs 823-888, with `p` of TermApi.rs 15-17. -/
def parseProd (i : List Char) : Option (Term × List Char) := do
  let i ← tag ['('] i
  let (a, i) ← rec i
  let i ← tag ['*'] i
  let (b, i) ← rec i
  let (ts, i) ← moreTerms rec ['*'] (i.length + 1) i
  let i ← tag [')'] i
  some (.Prod (a :: b :: ts), i)

/-- `parseImg0`, NarseseParser.rs 891-898. -/
def parseImg0 (i : List Char) : Option (Term × List Char) := do
  let i ← tag ['('] i
  let (a, i) ← rec i
  let i ← tag [' ', '/', '1', ' '] i
  let (b, i) ← rec i
  let i ← tag [')'] i
  some (.Img a 0 [b], i)

/-- `parseImg1`, NarseseParser.rs 899-906. -/
def parseImg1 (i : List Char) : Option (Term × List Char) := do
  let i ← tag ['('] i
  let (a, i) ← rec i
  let i ← tag [' ', '/', '2', ' '] i
  let (b, i) ← rec i
  let i ← tag [')'] i
  some (.Img a 1 [b], i)

/-- `parseConj2`, NarseseParser.rs 909-916, with `conj` of TermApi.rs 31-33. -/
def parseConj2 (i : List Char) : Option (Term × List Char) := do
  let i ← tag ['('] i
  let (a, i) ← rec i
  let i ← tag ['&', '&'] i
  let (b, i) ← rec i
  let i ← tag [')'] i
  some (.Conj [a, b], i)

/-- `parseConj3`, NarseseParser.rs 917-926. -/
def parseConj3 (i : List Char) : Option (Term × List Char) := do
  let i ← tag ['('] i
  let (a, i) ← rec i
  let i ← tag ['&', '&'] i
  let (b, i) ← rec i
  let i ← tag ['&', '&'] i
  let (c, i) ← rec i
  let i ← tag [')'] i
  some (.Conj [a, b, c], i)

/-- `parseConj4`, NarseseParser.rs 927-938. -/
def parseConj4 (i : List Char) : Option (Term × List Char) := do
  let i ← tag ['('] i
  let (a, i) ← rec i
  let i ← tag ['&', '&'] i
  let (b, i) ← rec i
  let i ← tag ['&', '&'] i
  let (c, i) ← rec i
  let i ← tag ['&', '&'] i
  let (d, i) ← rec i
  let i ← tag [')'] i
  some (.Conj [a, b, c, d], i)

/-- `parseStatement`, NarseseParser.rs 940-960, with `s` of TermApi.rs 20-22. -/
def parseStatement (i : List Char) : Option (Term × List Char) := do
  let i ← tag ['<'] i
  let (subj, i) ← rec i
  let (cop, i) ← parseCopula i
  let (pred, i) ← rec i
  let i ← tag ['>'] i
  some (.Stmt cop subj pred, i)

/-- the alternatives of `parseSubjOrPred` in the order in which they are tried,
NarseseParser.rs 538-698. -/
def termAlternatives : List (List Char → Option (Term × List Char)) :=
  [ parseSetExt rec, parseSeq rec, parseIntInt2 rec, parseExtInt2 rec, parseSetInt rec,
    parseNeg rec, parseProd rec, parseImg0 rec, parseImg1 rec, parseConj2 rec, parseConj3 rec,
    parseConj4 rec, parseStatement rec, parseQVar, parseDepVar, parseIndepVar, parseName ]

end

/-- the first alternative that succeeds (the chain of blocks in NarseseParser.rs 538-698). -/
def firstOf : List (List Char → Option (Term × List Char)) → List Char → Option (Term × List Char)
  | [], _ => none
  | p :: ps, i =>
    match p i with
    | some r => some r
    | none => firstOf ps i

/-- `parseSubjOrPred`, NarseseParser.rs 538-698.  The first argument bounds the recursion depth;
every level consumes text, so the length of the text is enough
(`Nar.Props.C37_depth_bound_is_irrelevant`). -/
def parseSubjOrPred : Nat → List Char → Option (Term × List Char)
  | 0, _ => none
  | n + 1, i => firstOf (termAlternatives (parseSubjOrPred n)) i

/-- `parseEntry`, NarseseParser.rs 962-964. -/
def parseEntry (i : List Char) : Option (Term × List Char) := parseSubjOrPred (i.length + 1) i

/-! ## Lines -/

/-- `str::len`: length in bytes. -/
def byteLen (s : List Char) : Nat := (s.map Char.utf8Size).sum

/-- `str::split(" ")`. -/
def splitSpace : List Char → List (List Char)
  | [] => [[]]
  | c :: cs =>
    if c == ' ' then [] :: splitSpace cs
    else match splitSpace cs with
      | [] => [[c]]
      | w :: ws => (c :: w) :: ws

/-- `.parse::<f64>().unwrap()`; `pf` is the number reader of the standard library. -/
def parseNum (pf : List Char → Option Rat) (s : List Char) : R Rat :=
  match pf s with
  | some x => .ok x
  | none => .error .parse

/-- what happens once the `{` is found at position `idx`, NarseseParser.rs 30-41. -/
def cutTv (pf : List Char → Option Rat) (s : List Char) (idx : Nat) : R (List Char × Tv) :=
  match splitSpace ((s.drop (idx + 1)).dropLast) with
  | [a, b] => do
    let f ← parseNum pf a
    let c ← parseNum pf b
    .ok (s.take idx, ⟨f, c⟩)
  | _ => .ok (s, ⟨1, 9/10⟩)

/-- the scan for `{` from the back, NarseseParser.rs 26-43: positions `idx`, `idx - 1`, …, `1`
(position `0` is never looked at). -/
def scanTv (pf : List Char → Option Rat) (s : List Char) : Nat → R (List Char × Tv)
  | 0 => .ok (s, ⟨1, 9/10⟩)
  | idx + 1 => do
    let c ← unwrap s[idx + 1]?
    if c == '{' then cutTv pf s (idx + 1) else scanTv pf s idx

/-- `parseNarseseRetTv`, NarseseParser.rs 22-45: cuts a truth value off the end of the line.
`chars().nth(len - 1)` counts characters while `len` counts bytes, so a character outside ASCII
is a panic; afterwards bytes and characters agree and the byte slices are slices of characters. -/
def parseNarseseRetTv (pf : List Char → Option Rat) (s : List Char) : R (List Char × Tv) :=
  if byteLen s > 0 then do
    let last ← unwrap s[byteLen s - 1]?
    if last == '}' then scanTv pf s (byteLen s - 1) else .ok (s, ⟨1, 9/10⟩)
  else .ok (s, ⟨1, 9/10⟩)

/-- `replace("* ", "*")`, one pass. -/
def replaceStarSpace : List Char → List Char
  | '*' :: ' ' :: cs => '*' :: replaceStarSpace cs
  | c :: cs => c :: replaceStarSpace cs
  | [] => []

/-- `replace(" *", "*")`, one pass. -/
def replaceSpaceStar : List Char → List Char
  | ' ' :: '*' :: cs => '*' :: replaceSpaceStar cs
  | c :: cs => c :: replaceSpaceStar cs
  | [] => []

/-- `contains`, for the two-letter patterns of NarseseParser.rs 51 and 55. -/
def containsPair (a b : Char) : List Char → Bool
  | x :: y :: cs => (x == a && y == b) || containsPair a b (y :: cs)
  | _ => false

/-- the two `while` loops of NarseseParser.rs 51-57.  Every round shortens the text, so its
length bounds the number of rounds. -/
def whileContains (a b : Char) (f : List Char → List Char) : Nat → List Char → List Char
  | 0, s => s
  | n + 1, s => if containsPair a b s then whileContains a b f n (f s) else s

/-- NarseseParser.rs 50-57. -/
def tightenStars (s : List Char) : List Char :=
  let s1 := whileContains '*' ' ' replaceStarSpace s.length s
  whileContains ' ' '*' replaceSpaceStar s1.length s1

/-- `char::is_whitespace` for ASCII. -/
def isSpaceChar (c : Char) : Bool := c == ' ' || (9 ≤ c.toNat && c.toNat ≤ 13)

/-- `str::trim_end`. -/
def trimEnd (s : List Char) : List Char := (s.reverse.dropWhile isSpaceChar).reverse

/-- NarseseParser.rs 60-64: the event marker at the end of the line. -/
def cutEvent (s : List Char) : List Char × Bool :=
  if [' ', ':', '|', ':'].isSuffixOf s then (s.take (s.length - 4), true) else (s, false)

/-- the punctuation, NarseseParser.rs 79-84. -/
def punctOf : Char → Option Punct
  | '.' => some .JUGEMENT
  | '!' => some .GOAL
  | '?' => some .QUESTION
  | _ => none

/-- `parseNarsese`, NarseseParser.rs 47-100. -/
def parseNarsese (pf : List Char → Option Rat) (line : List Char) :
    R (Option (Term × Tv × Punct × Bool)) := do
  let e := cutEvent (tightenStars line)
  let r ← parseNarseseRetTv pf e.1
  let s := trimEnd r.1
  if byteLen s = 0 then .ok none else do
    let c ← unwrap s[byteLen s - 1]?
    match punctOf c with
    | none => .ok none
    | some punct =>
      match parseEntry s.dropLast with
      | some (t, _) => .ok (some (t, r.2, punct, e.2))
      | none => .ok none

/-! ## Printing sentences -/

/-- punctuation text, NarSentence.rs 126-130. -/
def Punct.str : Punct → List Char
  | .QUESTION => ['?']
  | .JUGEMENT => ['.']
  | .GOAL => ['!']

/-- `Tv::convToStr`, Tv.rs 80-82; `sf` is the number printer of the standard library. -/
def tvToStr (sf : Rat → List Char) (tv : Tv) : List Char :=
  '{' :: sf tv.f ++ ' ' :: sf tv.c ++ ['}']

/-- `convSentenceTermPunctToStr`, NarSentence.rs 125-136. -/
def convSentenceTermPunctToStr (sf : Rat → List Char) (s : Sentence) (enTv : Bool) :
    R (List Char) := do
  let t ← (match s.term.convTermToStr with
    | some t => .ok t
    | none => .error .index)
  let res := t ++ s.punct.str
  if enTv && s.punct != .QUESTION then do
    let o ← retTv s
    let tv ← unwrap o
    .ok (res ++ ' ' :: tvToStr sf tv)
  else .ok res

end Nar
