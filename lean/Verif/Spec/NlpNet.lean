import Verif.Model.NlpNet
/-! # Specification for the language module -/
namespace Nar

/-- what a linear neuron computes: the weighted sum of its inputs plus its bias -/
def plainNeuron (x : List Rat) (n : WeightBias) : Rat :=
  (List.zipWith (· * ·) x (n.weights.map (·.1))).sum + n.bias.1

/-- the outputs of a network of two linear layers -/
def plainNet (nn : NlpNet) (x : List Rat) : List Rat :=
  (nn.getD 1 []).map (plainNeuron ((nn.getD 0 []).map (plainNeuron x)))

/-- a network of two layers with `n0` and `n1` neurons for `nIn` inputs -/
structure NetShape (nn : NlpNet) (nIn n0 n1 : Nat) : Prop where
  layers : nn.length = 2
  first : (nn.getD 0 []).length = n0
  second : (nn.getD 1 []).length = n1
  weights0 : ∀ n ∈ nn.getD 0 [], n.weights.length = nIn
  weights1 : ∀ n ∈ nn.getD 1 [], n.weights.length = n0

/-- the values of a sine lie between -1 and 1 -/
def SineLike (sn : Int → Rat) : Prop := ∀ v, -1 ≤ sn v ∧ sn v ≤ 1

/-- no derivative is set -/
def Unmarked (nn : NlpNet) : Prop := ∀ l ∈ nn, ∀ n ∈ l, n.bias.2 = 0 ∧ ∀ w ∈ n.weights, w.2 = 0

/-- the value of a parameter, if the network has it -/
def getParam (nn : NlpNet) (p : NlpParam) : Option Dual := do
  let l ← nn[p.layer]?
  let n ← l[p.neuron]?
  match p.weight with
  | none => some n.bias
  | some k => n.weights[k]?

/-- the neuron with one parameter changed: the bias, or a weight -/
def updNeuron (k : Option Nat) (f : Dual → Dual) (n : WeightBias) : WeightBias :=
  match k with
  | none => { n with bias := f n.bias }
  | some k => { n with weights := n.weights.modify k f }

/-- the network with one parameter changed -/
def updParam (nn : NlpNet) (p : NlpParam) (f : Dual → Dual) : NlpNet :=
  nn.modify p.layer fun l => l.modify p.neuron (updNeuron p.weight f)

/-- the network without derivatives -/
def clearNet (nn : NlpNet) : NlpNet :=
  nn.map fun l => l.map fun n => ⟨n.weights.map fun w => (w.1, 0), (n.bias.1, 0)⟩

/-- the vocabulary of the language module, with the number of the class of each word: 0, 6, 10, 11, 17 verbs, 1 adjectives,
2 and 5 nouns, 3 "and", 8 determiners, 9 "to", 12 pronouns, 13 the question mark, 15 prepositions -/
def vocabulary : List (List Char × Int) :=
  [("Tom".toList, 2), ("Tim".toList, 2), ("John".toList, 2), ("is".toList, 0), ("can".toList, 17), ("are".toList, 6),
   ("?".toList, 13), ("to".toList, 9), ("of".toList, 15), ("the".toList, 8), ("what".toList, 12), ("and".toList, 3),
   ("fast".toList, 1), ("slow".toList, 1), ("fat".toList, 1), ("thin".toList, 1), ("good".toList, 1), ("bad".toList, 1),
   ("dance".toList, 10), ("hunting".toList, 5), ("purpose".toList, 5), ("food".toList, 5), ("Cat".toList, 5),
   ("want".toList, 11)]

/-- the word is in the vocabulary -/
def Known (w : List Char) : Prop := ∃ p ∈ vocabulary, p.1 = w

instance (w : List Char) : Decidable (Known w) := by unfold Known; infer_instance

/-- the number of the class of a known word -/
def classOf (w : List Char) : Int := (vocabulary.lookup w).getD 0

/-- the sequence the network sees: the classes of the words, the sign for the end of the sentence, the actions so far -/
def seen (words : List (List Char)) (acts : List Nat) : List Int :=
  words.map classOf ++ 7 :: acts.map fun (a : Nat) => 18 + (a : Int)

/-- a code as 34 inputs, one of which is one -/
def codeInputs (c : Int) : List Rat := (List.range 34).map fun (i : Nat) => if (i : Int) = c then 1 else 0

/-- a sequence of at most 12 codes as inputs: filled up with the code 33 at the front -/
def inputsOf (seq : List Int) : List Rat :=
  (List.replicate (12 - seq.length) 33 ++ seq).flatMap codeInputs

/-- the action chosen for the outputs: the first of the largest, if it is positive. Values above one count as one. -/
structure Chosen (out : List Rat) (a : Nat) : Prop where
  none : (∀ x ∈ out, x ≤ 0) → a = 0
  some : (∃ x ∈ out, 0 < x) → ∃ x, out[a]? = some x ∧ 0 < x ∧ (∀ y ∈ out, min y 1 ≤ min x 1) ∧
    ∀ i y, i < a → out[i]? = some y → min y 1 < min x 1

/-- the places of the words which an action uses: head, subject and object. The head of the fourth action is fixed. -/
def placesOf : Nat → Option (Option Nat × Nat × Nat)
  | 1 => some (some 1, 0, 2)
  | 2 => some (some 3, 0, 4)
  | 3 => some (some 3, 2, 4)
  | 4 => some (none, 0, 3)
  | 7 => some (some 1, 0, 4)
  | _ => none

/-- the number of words an action needs -/
def wordsNeeded (a : Nat) : Nat :=
  match placesOf a with
  | none => 0
  | some (h, x, y) => max (h.getD 0) (max x y) + 1

/-- the relation of an action -/
def relOf (words : List (List Char)) (a : Nat) : Option Relation :=
  (placesOf a).map fun p =>
    { head := (p.1.map (words.getD · [])).getD "want_to".toList,
      args := [words.getD p.2.1 [], words.getD p.2.2 []], isNegated := false, conf := 998 / 1000 }

/-- the run of the network on a sentence: `control` is the sequence of its actions -/
structure RunOf (nn : NlpNet) (words : List (List Char)) (control : List Nat) : Prop where
  /-- each action is the one chosen for what the network has seen before -/
  chosen : ∀ i a, control[i]? = some a → Chosen (plainNet nn (inputsOf (seen words (control.take i)))) a
  /-- the run goes on until the network says that it is finished, for at most ten actions -/
  ends : control.length = 10 ∨ control.getLast? = some 0
  le : control.length ≤ 10
  early : 0 ∉ control.dropLast

/-- sentences with the actions which the network is meant to learn for them -/
def taughtSentences : List (List (List Char) × List Nat) :=
  [(["Tom".toList, "is".toList, "fast".toList, "and".toList, "fat".toList], [1, 7, 0]),
   (["can".toList, "Tom".toList, "dance".toList, "?".toList], [12, 0]),
   (["hunting".toList, "is".toList, "the".toList, "purpose".toList], [11, 0]),
   (["Tom".toList, "is".toList, "fast".toList], [1, 0]),
   (["Cat".toList, "is".toList, "food".toList], [1, 0]),
   (["Tom".toList, "and".toList, "Tim".toList, "are".toList, "fast".toList], [2, 3, 0]),
   (["Cat".toList, "want".toList, "to".toList, "dance".toList], [4, 0]),
   (["Cat".toList, "are".toList, "food".toList], [1, 0])]

end Nar
