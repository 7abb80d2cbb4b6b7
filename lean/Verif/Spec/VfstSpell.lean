import Verif.Spec.FstWeighted
import Verif.Model.VfstSpell
/-!
# What spelling and suggestions with weighted transducers mean

Readings are paths through the transition tables; the searches of the model are not used here.
-/

namespace Verif.Props
open Verif

/-- A reading of a word: a path that reads the whole word and ends in a final marker. -/
def Reading (f : WFst) (word : List Wc) (q : List Nat) : Prop :=
  Accepting (plainFst f) (word.map (plainFst f).symOf) false q word.length

/-- The transducer accepts the word. -/
def Accepts (f : WFst) (word : List Wc) : Prop := ∃ q, Reading f word q

/-- The first reading in the order of the transition table. -/
def FirstReading (f : WFst) (word : List Wc) (q : List Nat) : Prop := Reading f word q ∧ ∀ q', Reading f word q' → ¬ Before q' q

/-- The error model `E` turns `word` into `w`, the acceptor `A` accepts `w`, and the two weights add up to `weight`. -/
def Correction (E A : WFst) (word w : List Wc) (weight : Int) : Prop :=
  ∃ q a, Reading E word q ∧ outputOf (plainFst E) q = w ∧ FirstReading A w a ∧ weight = pathWeight E q + pathWeight A a

/-- `weight` is the lowest weight at which `word` can be turned into `w`. -/
def Best (E A : WFst) (word w : List Wc) (weight : Int) : Prop :=
  Correction E A word w weight ∧ ∀ other, Correction E A word w other → weight ≤ other

/-- The search for the readings of a word stays within the fixed limits (2000 stack elements, 2000 output characters,
100000 steps) and does not meet a masked flag (see `C45_violation`). -/
structure Within (f : WFst) (word : List Wc) : Prop where
  mask : NoMaskedFlag (plainFst f) (word.map (plainFst f).symOf)
  depth : ∀ q e, Path (plainFst f) (word.map (plainFst f).symOf) (startPoint (plainFst f)) q e → q.length + 1 < 2000
  out : ∀ q, Reading f word q → (outputOf (plainFst f) q).length + 1 < 2000
  paths : ∀ L : List (List Nat), L.Nodup →
    (∀ p ∈ L, ∃ e, Path (plainFst f) (word.map (plainFst f).symOf) (startPoint (plainFst f)) p e) → 2 * L.length < 100000

/-- A transducer as read from a well-formed file. -/
structure GoodFst (f : WFst) : Prop where
  wf : ∃ S, WWellFormed f S
  /-- Characters have normal symbols. -/
  known : ∀ e ∈ f.charToSym, f.firstNormal ≤ e.2
  unknown : f.firstNormal ≤ f.symbols.length
  /-- Transitions read symbols of the table. -/
  cells : ∃ S, WWellFormed f S ∧ ∀ s, S s → ∀ a ∈ stateAddrs (plainFst f) s, ∀ t : WCell, f.cells[a]? = some t →
    t.symIn = 0xFFFFFFFF ∨ t.symIn < f.symbols.length

/-- What is assumed of an error model: no flag diacritics, and each output symbol is a non-empty text. -/
structure GoodErrorModel (f : WFst) : Prop extends GoodFst f where
  noFlags : f.featureCount = 0
  symCount : f.symbols.length ≤ 65536
  visible : ∀ i s, f.firstNormal ≤ i → f.symbols[i]? = some s → s ≠ [] ∧ 0 ∉ s

/-- The order in which the elements leave a priority queue: some order with non-decreasing weights. -/
def QueueOrder (order : List (List Wc × Int) → List (List Wc × Int)) : Prop :=
  ∀ l, (order l).Perm l ∧ (order l).Pairwise (fun a b => a.2 ≤ b.2)

end Verif.Props
