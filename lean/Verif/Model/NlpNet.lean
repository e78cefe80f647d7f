import Verif.Model.Nar
/-! # The language module: src/ModNlpA.rs, src/NarModuleNlp3.rs

A small network of two layers without activation function reads the word classes of a sentence and
returns a sequence of actions, each of which builds a relation between words of the sentence.

Simplifications: `f64` is the rational numbers. The sine of the random number generator is a
parameter `sn`. The database file `nn_nlp0.db` is the list of its rows, which are read in the order
in which they were inserted. Printing is not modelled. -/
namespace Nar

/-- a number with its derivative, the pairs `(f64,f64)` of ModNlpA.rs -/
abbrev Dual := Rat × Rat

/-- `add`, ModNlpA.rs 780-782 -/
def dualAdd (a b : Dual) : Dual := (a.1 + b.1, a.2 + b.2)

/-- `mul`, ModNlpA.rs 784-786 -/
def dualMul (a b : Dual) : Dual := (a.1 * b.1, a.2 * b.1 + a.1 * b.2)

/-- `dot`, ModNlpA.rs 763-778; the loop over the indices is a loop over the pairs -/
def dualDot (a b : List Dual) : R Dual :=
  if a.length ≠ b.length then .error .explicit
  else .ok ((a.zip b).foldl (fun acc p => dualAdd acc (dualMul p.1 p.2)) (0, 0))

/-- `encode_onehot`, ModNlpA.rs 792-796; a negative value is an index out of range -/
def encodeOnehot (val : Int) (len : Nat) : R (List Rat) :=
  if 0 ≤ val ∧ val < len then .ok ((List.replicate len 0).set val.toNat 1) else .error .index

/-- `WeightBias`, ModNlpA.rs 801-804 -/
structure WeightBias where
  weights : List Dual
  bias : Dual
  deriving DecidableEq, Repr

/-- `Layer` and `NeuralNetwork`, ModNlpA.rs 807-815 -/
abbrev NlpNet := List (List WeightBias)

/-- the output of one layer, ModNlpA.rs 823-827 and 831-836 -/
def layerOut (ns : List WeightBias) (stimulus : List Dual) : R (List Dual) :=
  ns.mapM fun n => do
    let acc ← dualDot stimulus n.weights
    .ok (dualAdd acc n.bias)

/-- `forward`, ModNlpA.rs 818-840 -/
def forward (nn : NlpNet) (stimulus : List Dual) : R (List Dual) := do
  let l0 ← indexAt nn 0
  let out0 ← layerOut l0 stimulus
  let l1 ← indexAt nn 1
  layerOut l1 out0

/-- one round of the loop of `calc_max_onehot_idx`, ModNlpA.rs 848-854: `st` is (value, index of the
maximum, index of the round) -/
def maxStep (st : Rat × Nat × Nat) (v : Dual) : Rat × Nat × Nat :=
  if max 0 (min v.1 1) > st.1 then (max 0 (min v.1 1), st.2.2, st.2.2 + 1)
  else (st.1, st.2.1, st.2.2 + 1)

/-- `calc_max_onehot_idx`, ModNlpA.rs 845-856 -/
def calcMaxOnehot (v : List Dual) : Nat := (v.foldl maxStep (0, 0, 0)).2.1

/-- the loop which writes the sequence to the end of the codes, ModNlpA.rs 900-905; an index below
zero is an overflow of `usize` -/
def placeCodes (seq : List Int) (codes : List Int) : R (List Int) :=
  (List.range seq.length).foldlM (fun codes idx => do
    let k := seq.length - 1 - idx
    let v ← indexAt seq idx
    if k ≤ codes.length - 1 ∧ codes.length - 1 - k < codes.length then
      .ok (codes.set (codes.length - 1 - k) v)
    else .error .index) codes

/-- `conv_seq_to_nninput`, ModNlpA.rs 881-941: 12 signs of 34 codes each -/
def convSeq (seq : List Int) : R (List Dual) := do
  let codes ← placeCodes seq (List.replicate 12 33)
  let parts ← codes.mapM (fun c => encodeOnehot c 34)
  .ok (parts.flatten.map fun v => (v, 0))

/-- the classes of words, ModNlpA.rs 1012-1028 -/
def posTable : List (String × Int) :=
  [("VBZ", 0), ("JJ", 1), ("NNP", 2), ("CC", 3), (",", 4), ("NN", 5), ("VBP", 6), ("DT", 8),
   ("PRT_TO", 9), ("VB", 10), ("VBT", 11), ("WP", 12), ("?", 13), ("VBG", 14), ("IN", 15),
   ("PRP", 16), ("MD", 17)]

/-- `pos_ret_codes`, ModNlpA.rs 991-993 -/
def posRetCodes : Int := 18

/-- the `panic!` if a search in a table finds nothing -/
def orPanic {α} : Option α → R α
  | some x => .ok x
  | none => .error .explicit

/-- `prot_pos0`, ModNlpA.rs 997-1037 -/
def protPos0 (cls : List String) : R (List Int) := do
  let codes ← cls.mapM fun c => orPanic (posTable.lookup c)
  .ok (codes ++ [7])

/-- the words, ModNlpA.rs 1044-1070 -/
def wordTable : List (List Char × String) :=
  [("Tom".toList, "NNP"), ("Tim".toList, "NNP"), ("John".toList, "NNP"), ("is".toList, "VBZ"),
   ("can".toList, "MD"), ("are".toList, "VBP"), ("?".toList, "?"), ("to".toList, "PRT_TO"),
   ("of".toList, "IN"), ("the".toList, "DT"), ("what".toList, "WP"), ("and".toList, "CC"),
   ("fast".toList, "JJ"), ("slow".toList, "JJ"), ("fat".toList, "JJ"), ("thin".toList, "JJ"),
   ("good".toList, "JJ"), ("bad".toList, "JJ"), ("dance".toList, "VB"), ("hunting".toList, "NN"),
   ("purpose".toList, "NN"), ("food".toList, "NN"), ("Cat".toList, "NN"), ("want".toList, "VBT")]

/-- `conv_tokens_to_poss`, ModNlpA.rs 1041-1073 -/
def convTokens (tokens : List (List Char)) : R (List String) :=
  tokens.mapM fun t => orPanic (wordTable.lookup t)

/-- the relation with the words at the given places, e.g. ModNlpA.rs 662-673 -/
def relAt (words : List (List Char)) (head left right : Nat) : R Relation := do
  let h ← indexAt words head
  let a ← indexAt words left
  let b ← indexAt words right
  .ok { head := h, args := [a, b], isNegated := false, conf := 998 / 1000 }

/-- the relation which an action builds, ModNlpA.rs 658-734 -/
def actionRel (words : List (List Char)) (action : Nat) : R (Option Relation) :=
  if action = 1 then do let r ← relAt words 1 0 2; .ok (some r)
  else if action = 2 then do let r ← relAt words 3 0 4; .ok (some r)
  else if action = 3 then do let r ← relAt words 3 2 4; .ok (some r)
  else if action = 4 then do
    let a ← indexAt words 0
    let b ← indexAt words 3
    .ok (some { head := "want_to".toList, args := [a, b], isNegated := false, conf := 998 / 1000 })
  else if action = 7 then do let r ← relAt words 1 0 4; .ok (some r)
  else .ok none

/-- the loop of `network_run`, ModNlpA.rs 635-739, for the rounds left -/
def runLoop (nn : NlpNet) (words : List (List Char)) : Nat → List Int → List Nat → List Relation →
    R (List Nat × List Relation)
  | 0, _, control, rels => .ok (control, rels)
  | n + 1, stimulus, control, rels => do
    let input ← convSeq stimulus
    let out ← forward nn input
    let action := calcMaxOnehot out
    if action = 0 then .ok (control ++ [action], rels)
    else do
      let rel ← actionRel words action
      runLoop nn words n (stimulus ++ [posRetCodes + action]) (control ++ [action])
        (rels ++ rel.toList)

/-- a row of the table `weights`, ModNlpA.rs 57-67; the columns `id` and `nnid` are never read -/
structure NlpRow where
  layer : Nat
  neuron : Nat
  valueid : Int
  value : Rat
  deriving DecidableEq, Repr

/-- the rows of one neuron, ModNlpA.rs 75-92 -/
def neuronRows (l i : Nat) (n : WeightBias) : List NlpRow :=
  ⟨l, i, -1, n.bias.1⟩ :: n.weights.mapIdx fun k w => ⟨l, i, k, w.1⟩

/-- `nn_store`, ModNlpA.rs 48-97: the rows of the new file, if the file system lets it be written -/
def nnStore (nn : NlpNet) : List NlpRow :=
  (nn.mapIdx fun l ns => (ns.mapIdx fun i n => neuronRows l i n).flatten).flatten

/-- `SELECT MAX(column)`: NULL for an empty selection, whose conversion to a number fails and is unwrapped,
ModNlpA.rs 109-117 and 122-130 -/
def selectMax (l : List Nat) : R Nat :=
  match l with
  | [] => .error .unwrapNone
  | a :: l => .ok (l.foldl max a)

/-- the loop over the rows of one neuron, ModNlpA.rs 154-167 -/
def loadRow (n : WeightBias) (r : NlpRow) : WeightBias :=
  if r.valueid = -1 then { n with bias := (r.value, 0) }
  else { n with weights := n.weights ++ [(r.value, 0)] }

/-- one neuron, ModNlpA.rs 135-169 -/
def loadNeuron (rows : List NlpRow) (l i : Nat) : WeightBias :=
  (rows.filter fun r => r.layer == l && r.neuron == i).foldl loadRow ⟨[], (0, 0)⟩

/-- one layer, ModNlpA.rs 120-173 -/
def loadLayer (rows : List NlpRow) (l : Nat) : R (List WeightBias) := do
  let m ← selectMax ((rows.filter fun r => r.layer == l).map (·.neuron))
  .ok ((List.range (m + 1)).map (loadNeuron rows l))

/-- `nn_load`, ModNlpA.rs 99-177, unwrapped as in `network_run`, ModNlpA.rs 597 -/
def nnLoad (rows : List NlpRow) : R NlpNet := do
  let m ← selectMax (rows.map (·.layer))
  (List.range (m + 1)).mapM (loadLayer rows)

/-- the files which the language module uses -/
structure NlpFiles where
  /-- the rows of `nn_nlp0.db`, if the file holds a table -/
  db : Option (List NlpRow)
  /-- whether `logX.txt` exists -/
  log : Bool
  deriving DecidableEq, Repr

/-- the body of `network_run` after the files are opened, ModNlpA.rs 627-741 -/
def runNet (nn : NlpNet) (words : List (List Char)) : R (List Nat × List Relation) := do
  let pos ← convTokens words
  let stimulus ← protPos0 pos
  runLoop nn words 10 stimulus [] []

/-- `network_run`, ModNlpA.rs 596-742: the new state of the files and the result. The log file must
not exist (`create_new`); the weights printed first need a neuron in the first layer. -/
def networkRun (files : NlpFiles) (words : List (List Char)) :
    NlpFiles × R (List Nat × List Relation) :=
  match (do let rows ← unwrap files.db
            let nn ← nnLoad rows
            let l0 ← indexAt nn 0
            let _ ← indexAt l0 0
            .ok nn : R NlpNet) with
  | .error e => (files, .error e)
  | .ok nn => if files.log then (files, .error .unwrapNone)
    else ({ files with log := true }, runNet nn words)

/-- `replace("?", " ? ")` and `split_whitespace`, NarModuleNlp3.rs 16-23 -/
def nlpTokens (text : List Char) : List (List Char) :=
  splitWhitespace (text.flatMap fun c => if c = '?' then [' ', '?', ' '] else [c]) []

/-- `process`, NarModuleNlp3.rs 14-33, with the files -/
def nlpSentence (env : Env) (files : NlpFiles) (r : Reasoner) (text : List Char) (rng : List Nat) :
    NlpFiles × R Reasoner :=
  match networkRun files (nlpTokens text) with
  | (files, .error e) => (files, .error e)
  | (files, .ok (_, rels)) => (files, nlpProcess env r rels rng)

/-! ## Training -/

/-- `as i64`: rounds towards zero -/
def ratTrunc (x : Rat) : Int := if 0 ≤ x then x.floor else -(-x).floor

/-- `rng_genint`, ModNlpA.rs 948-952; a maximum of zero is a division by zero. The overflow of `i64`
is not modelled. -/
def rngGenint (sn : Int → Rat) (v : Int) (maxval : Int) : R (Int × Int) :=
  if maxval = 0 then .error .explicit
  else .ok ((1383462957253 + v * 1337 + ratTrunc (sn v * 8461256485)).tmod maxval, v + 1)

/-- `rng_genfloat`, ModNlpA.rs 954-958 -/
def rngGenfloat (sn : Int → Rat) (v : Int) : Rat × Int :=
  let x := 1383462957253 + v * 1337 + sn v * 8461256485
  (x - ratTrunc x, v + 1)

/-- `n` random weights with an offset, ModNlpA.rs 200-202 and 222-224 -/
def initWeights (sn : Int → Rat) (off : Rat) : Nat → Int → List Dual × Int
  | 0, v => ([], v)
  | n + 1, v =>
    let (x, v) := rngGenfloat sn v
    let (ws, v) := initWeights sn off n v
    ((x + off, 0) :: ws, v)

/-- one new layer, ModNlpA.rs 193-208 and 217-229 -/
def initLayer (sn : Int → Rat) (off : Rat) (nIn : Nat) : Nat → Int → List WeightBias × Int
  | 0, v => ([], v)
  | n + 1, v =>
    let (ws, v) := initWeights sn off nIn v
    let (b, v) := rngGenfloat sn v
    let (ns, v) := initLayer sn off nIn n v
    (⟨ws, (b, 0)⟩ :: ns, v)

/-- the new network, ModNlpA.rs 182-230 -/
def initNet (sn : Int → Rat) : NlpNet × Int :=
  let (l0, v) := initLayer sn (1 / 10) 408 9 8737
  let (l1, v) := initLayer sn (5 / 100) l0.length 15 v
  ([l0, l1], v)

/-- the sentences for training, ModNlpA.rs 251-318, as word classes and expected actions -/
def trainingSet : List (List String × List Nat) :=
  [(["NNP", "VBZ", "JJ", "CC", "JJ"], [1, 7, 0]),
   (["MD", "NNP", "VB", "?"], [12, 0]),
   (["NN", "VBZ", "DT", "NN"], [11, 0]),
   (["NNP", "VBZ", "JJ"], [1, 0]),
   (["NN", "VBZ", "NN"], [1, 0]),
   (["NNP", "CC", "NNP", "VBP", "JJ"], [2, 3, 0]),
   (["NN", "VBT", "PRT_TO", "VB"], [4, 0]),
   (["NN", "VBP", "NN"], [1, 0])]

/-- `Seq`, ModNlpA.rs 870-873 -/
structure NlpSeq where
  seq : List Int
  out : Nat
  deriving DecidableEq, Repr

/-- the training sequences of one sentence, ModNlpA.rs 398-412 -/
def seqsOf (p : List String × List Nat) : R (List NlpSeq) := do
  let stim ← protPos0 p.1
  (List.range p.2.length).mapM fun i => do
    let o ← indexAt p.2 i
    .ok ⟨stim ++ (p.2.take i).map (fun (c : Nat) => posRetCodes + (c : Int)), o⟩

/-- all training sequences -/
def trainingSeqs : R (List NlpSeq) := do
  let parts ← trainingSet.mapM seqsOf
  .ok parts.flatten

/-- a parameter of the network: layer, neuron and weight; no weight for the bias. ModNlpA.rs 497-498: the
number `mut_idx` is -1 for the bias. -/
structure NlpParam where
  layer : Nat
  neuron : Nat
  weight : Option Nat
  deriving DecidableEq, Repr

/-- change the parameter of a neuron, ModNlpA.rs 502-507, 546-551, 554-559 -/
def modNeuron (k : Option Nat) (f : Dual → Dual) (n : WeightBias) : R WeightBias :=
  match k with
  | none => .ok { n with bias := f n.bias }
  | some k => do
    let w ← indexAt n.weights k
    .ok { n with weights := n.weights.set k (f w) }

/-- change a parameter of the network -/
def modParam (nn : NlpNet) (p : NlpParam) (f : Dual → Dual) : R NlpNet := do
  let l ← indexAt nn p.layer
  let n ← indexAt l p.neuron
  let n' ← modNeuron p.weight f n
  .ok (nn.set p.layer (l.set p.neuron n'))

/-- the choice of the parameter to train, ModNlpA.rs 486-498 -/
def chooseParam (sn : Int → Rat) (nn : NlpNet) (v : Int) : R (NlpParam × Int) := do
  let (x, v) := rngGenfloat sn v
  let layer := if x > 9 / 10 then 1 else 0
  let l ← indexAt nn layer
  let (i, v) ← rngGenint sn v l.length
  let n ← indexAt l i.toNat
  let (k, v) ← rngGenint sn v (n.weights.length + 1)
  let m : Int := n.weights.length - 1 - k
  .ok (⟨layer, i.toNat, if 0 ≤ m then some m.toNat else none⟩, v)

/-- the change of the parameter for the sample and the output selected, ModNlpA.rs 502-559 -/
def adapt (lr : Rat) (nn : NlpNet) (p : NlpParam) (input : List Dual) (out : Nat) (target : Rat) :
    R NlpNet := do
  let nn ← modParam nn p (fun w => (w.1, 1))
  let outs ← forward nn input
  let o ← indexAt outs out
  let d2 := lr * (o.1 - target) * o.2
  let nn ← modParam nn p (fun w => (w.1 - d2, w.2))
  modParam nn p (fun w => (w.1, 0))

/-- the desired output of a sample, ModNlpA.rs 524-525 -/
def targetOf (n : Nat) (s : NlpSeq) : R (List Rat) :=
  if s.out < n then .ok ((List.replicate n (1 / 10)).set s.out (9 / 10)) else .error .index

/-- the state of the training: network, random numbers, average error -/
abbrev TrainState := NlpNet × Int

/-- one epoch, ModNlpA.rs 483-559; the average error is only printed and not modelled -/
def trainStep (sn : Int → Rat) (seqs : List NlpSeq) (lr : Rat) (st : TrainState) : R TrainState := do
  let (p, v) ← chooseParam sn st.1 st.2
  let (i, v) ← rngGenint sn v seqs.length
  let s ← indexAt seqs i.toNat
  let input ← convSeq s.seq
  let l1 ← indexAt st.1 1
  let target ← targetOf l1.length s
  let (o, v) ← rngGenint sn v l1.length
  let t ← indexAt target o.toNat
  let nn ← adapt lr st.1 p input o.toNat t
  .ok (nn, v)

/-- the learning rate of an epoch, ModNlpA.rs 445-446 and 475-480 -/
def rateAt (max i : Nat) : Rat :=
  if max / 2 ≤ i ∧ max / 2 ≠ max / 5 then 5 / 10000 else if max / 5 ≤ i then 1 / 1000 else 1 / 100

/-- the epochs, ModNlpA.rs 472-560 -/
def trainEpochs (sn : Int → Rat) (seqs : List NlpSeq) (max : Nat) (st : TrainState) : R TrainState :=
  (List.range max).foldlM (fun st i => trainStep sn seqs (rateAt max i) st) st

/-- `train`, ModNlpA.rs 181-562, up to the test of the new network: the rows stored. The code runs
450000000 epochs; the number is a parameter here. -/
def train (sn : Int → Rat) (max : Nat) : R (NlpNet × List NlpRow) := do
  let seqs ← trainingSeqs
  let (nn, _) ← trainEpochs sn seqs max (initNet sn)
  .ok (nn, nnStore nn)

/-- the words of `network_test`, ModNlpA.rs 586-588 -/
def testWords : List (List Char) := ["Tom".toList, "is".toList, "fast".toList, "and".toList, "fat".toList]

/-- the whole of `train`, ModNlpA.rs 181-582, with the files: the old database is replaced and the new network tested -/
def trainProgram (sn : Int → Rat) (max : Nat) (files : NlpFiles) : NlpFiles × R Unit :=
  match train sn max with
  | .error e => (files, .error e)
  | .ok (_, rows) =>
    let (files, res) := networkRun { files with db := some rows } testWords
    (files, res.map fun _ => ())

end Nar
