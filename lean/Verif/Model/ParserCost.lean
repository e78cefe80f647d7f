import Verif.Model.Parser
/-!
# The work done by the Narsese parser  (models /repo/src/NarseseParser.rs once more)

The same functions as in `Verif.Model.Parser`, which in addition count how often the function
that reads a term, `parseSubjOrPred`, is called.  That both read the same is proved
(`Nar.Props.C93_same_parser`).
-/
namespace Nar

/-- what a parser that may fail returns, with the number of calls of `parseSubjOrPred` made
(a definition of the model: the program does not count). -/
structure Count (α : Type) where
  calls : Nat
  res : Option α
  deriving DecidableEq, Repr

/-- a step that does not read a term. -/
def ofOpt {α : Type} (o : Option α) : Count α := ⟨0, o⟩

/-- the operator `?` of the program: go on with the value, or stop at the failure. -/
def Count.bind {α β : Type} (x : Count α) (f : α → Count β) : Count β :=
  match x.res with
  | none => ⟨x.calls, none⟩
  | some a => ⟨x.calls + (f a).calls, (f a).res⟩

instance : Monad Count where
  pure a := ⟨0, some a⟩
  bind := Count.bind

section
-- the recursive call `parseSubjOrPred(input, true)`
variable (rec : List Char → Count (Term × List Char))

/-- `a`, NarseseParser.rs 498-504. -/
def parseSetExtC (i : List Char) : Count (Term × List Char) := do
  let i ← ofOpt (tag ['{'] i)
  let (t, i) ← rec i
  let i ← ofOpt (tag ['}'] i)
  pure (.SetExt [t], i)

/-- `c`, NarseseParser.rs 512-518. -/
def parseSetIntC (i : List Char) : Count (Term × List Char) := do
  let i ← ofOpt (tag ['['] i)
  let (t, i) ← rec i
  let i ← ofOpt (tag [']'] i)
  pure (.SetInt [t], i)

/-- `parseNeg`, NarseseParser.rs 765-770. -/
def parseNegC (i : List Char) : Count (Term × List Char) := do
  let i ← ofOpt (tag ['(', '!'] i)
  let (t, i) ← rec i
  let i ← ofOpt (tag [')'] i)
  pure (.Neg t, i)

/-- the loops "for more sub-terms" of NarseseParser.rs 782-796 and 869-883: as long as the
separator follows, one more term must follow.  The first argument bounds the number of rounds;
every round consumes text, so the length of the text is enough. -/
def moreTermsC (sep : List Char) : Nat → List Char → Count (List Term × List Char)
  | 0, _ => ⟨0, none⟩
  | n + 1, i =>
    match tag sep i with
    | none => pure ([], i)
    | some i => do
      let (t, i) ← rec i
      let (ts, i) ← moreTermsC sep n i
      pure (t :: ts, i)

/-- `parseSeq`, NarseseParser.rs 772-801, with `seq` of TermApi.rs 26-28. -/
def parseSeqC (i : List Char) : Count (Term × List Char) := do
  let i ← ofOpt (tag ['('] i)
  let (a, i) ← rec i
  let i ← ofOpt (tag [','] i)
  let (b, i) ← rec i
  let (ts, i) ← moreTermsC rec [','] (i.length + 1) i
  let i ← ofOpt (tag [')'] i)
  pure (.Seq (a :: b :: ts), i)

/-- `parseExtInt2`, NarseseParser.rs 804-811. -/
def parseExtInt2C (i : List Char) : Count (Term × List Char) := do
  let i ← ofOpt (tag ['('] i)
  let (a, i) ← rec i
  let i ← ofOpt (tag ['&'] i)
  let (b, i) ← rec i
  let i ← ofOpt (tag [')'] i)
  pure (.ExtInt [a, b], i)

/-- `parseIntInt2`, NarseseParser.rs 812-819. -/
def parseIntInt2C (i : List Char) : Count (Term × List Char) := do
  let i ← ofOpt (tag ['('] i)
  let (a, i) ← rec i
  let i ← ofOpt (tag ['|'] i)
  let (b, i) ← rec i
  let i ← ofOpt (tag [')'] i)
  pure (.IntInt [a, b], i)

/-- `parseProd`, NarseseParser.rs 823-888, with `p` of TermApi.rs 15-17. -/
def parseProdC (i : List Char) : Count (Term × List Char) := do
  let i ← ofOpt (tag ['('] i)
  let (a, i) ← rec i
  let i ← ofOpt (tag ['*'] i)
  let (b, i) ← rec i
  let (ts, i) ← moreTermsC rec ['*'] (i.length + 1) i
  let i ← ofOpt (tag [')'] i)
  pure (.Prod (a :: b :: ts), i)

/-- `parseImg0`, NarseseParser.rs 891-898. -/
def parseImg0C (i : List Char) : Count (Term × List Char) := do
  let i ← ofOpt (tag ['('] i)
  let (a, i) ← rec i
  let i ← ofOpt (tag [' ', '/', '1', ' '] i)
  let (b, i) ← rec i
  let i ← ofOpt (tag [')'] i)
  pure (.Img a 0 [b], i)

/-- `parseImg1`, NarseseParser.rs 899-906. -/
def parseImg1C (i : List Char) : Count (Term × List Char) := do
  let i ← ofOpt (tag ['('] i)
  let (a, i) ← rec i
  let i ← ofOpt (tag [' ', '/', '2', ' '] i)
  let (b, i) ← rec i
  let i ← ofOpt (tag [')'] i)
  pure (.Img a 1 [b], i)

/-- `parseConj2`, NarseseParser.rs 909-916, with `conj` of TermApi.rs 31-33. -/
def parseConj2C (i : List Char) : Count (Term × List Char) := do
  let i ← ofOpt (tag ['('] i)
  let (a, i) ← rec i
  let i ← ofOpt (tag ['&', '&'] i)
  let (b, i) ← rec i
  let i ← ofOpt (tag [')'] i)
  pure (.Conj [a, b], i)

/-- `parseConj3`, NarseseParser.rs 917-926. -/
def parseConj3C (i : List Char) : Count (Term × List Char) := do
  let i ← ofOpt (tag ['('] i)
  let (a, i) ← rec i
  let i ← ofOpt (tag ['&', '&'] i)
  let (b, i) ← rec i
  let i ← ofOpt (tag ['&', '&'] i)
  let (c, i) ← rec i
  let i ← ofOpt (tag [')'] i)
  pure (.Conj [a, b, c], i)

/-- `parseConj4`, NarseseParser.rs 927-938. -/
def parseConj4C (i : List Char) : Count (Term × List Char) := do
  let i ← ofOpt (tag ['('] i)
  let (a, i) ← rec i
  let i ← ofOpt (tag ['&', '&'] i)
  let (b, i) ← rec i
  let i ← ofOpt (tag ['&', '&'] i)
  let (c, i) ← rec i
  let i ← ofOpt (tag ['&', '&'] i)
  let (d, i) ← rec i
  let i ← ofOpt (tag [')'] i)
  pure (.Conj [a, b, c, d], i)

/-- `parseStatement`, NarseseParser.rs 940-960, with `s` of TermApi.rs 20-22. -/
def parseStatementC (i : List Char) : Count (Term × List Char) := do
  let i ← ofOpt (tag ['<'] i)
  let (subj, i) ← rec i
  let (cop, i) ← ofOpt (parseCopula i)
  let (pred, i) ← rec i
  let i ← ofOpt (tag ['>'] i)
  pure (.Stmt cop subj pred, i)

/-- the alternatives of `parseSubjOrPred` in the order in which they are tried,
NarseseParser.rs 538-698. -/
def termAlternativesC : List (List Char → Count (Term × List Char)) :=
  [ parseSetExtC rec, parseSeqC rec, parseIntInt2C rec, parseExtInt2C rec, parseSetIntC rec,
    parseNegC rec, parseProdC rec, parseImg0C rec, parseImg1C rec, parseConj2C rec,
    parseConj3C rec, parseConj4C rec, parseStatementC rec, fun i => ofOpt (parseQVar i),
    fun i => ofOpt (parseDepVar i), fun i => ofOpt (parseIndepVar i), fun i => ofOpt (parseName i) ]

end

/-- the first alternative that succeeds (the chain of blocks in NarseseParser.rs 538-698): the
calls made by the alternatives that failed are counted too. -/
def firstOfC : List (List Char → Count (Term × List Char)) → List Char → Count (Term × List Char)
  | [], _ => ⟨0, none⟩
  | p :: ps, i =>
    match (p i).res with
    | some r => ⟨(p i).calls, some r⟩
    | none => ⟨(p i).calls + (firstOfC ps i).calls, (firstOfC ps i).res⟩

/-- `parseSubjOrPred`, NarseseParser.rs 538-698: this call is counted too.  The first argument
bounds the recursion depth (`Nar.Props.C93_depth_bound_is_irrelevant`). -/
def parseSubjOrPredC : Nat → List Char → Count (Term × List Char)
  | 0, _ => ⟨0, none⟩
  | n + 1, i =>
    let r := firstOfC (termAlternativesC (parseSubjOrPredC n)) i
    ⟨r.calls + 1, r.res⟩

/-- `parseEntry`, NarseseParser.rs 962-964. -/
def parseEntryC (i : List Char) : Count (Term × List Char) := parseSubjOrPredC (i.length + 1) i

/-- `parseNarsese`, NarseseParser.rs 47-100: the number of calls that reading a line makes,
together with what is read. -/
def parseNarseseC (pf : List Char → Option Rat) (line : List Char) :
    R (Count (Term × Tv × Punct × Bool)) := do
  let e := cutEvent (tightenStars line)
  let r ← parseNarseseRetTv pf e.1
  let s := trimEnd r.1
  if byteLen s = 0 then .ok ⟨0, none⟩ else do
    let c ← unwrap s[byteLen s - 1]?
    match punctOf c with
    | none => .ok ⟨0, none⟩
    | some punct =>
      let p := parseEntryC s.dropLast
      .ok ⟨p.calls, p.res.map fun x => (x.1, r.2, punct, e.2)⟩

end Nar
