import Verif.Spec.FstCompile
import Verif.Model.FstWeighted
/-!
# What a weighted transducer means

A weighted transducer is an unweighted one, with the same paths, together with a weight for each transition.
-/

namespace Verif.Props
open Verif

/-- The cell without its weight; the final marker of weighted files has 32 bits. -/
def WCell.plain (c : WCell) : Cell := ⟨if c.symIn = 0xFFFFFFFF then 0xFFFF else c.symIn, c.symOut, c.target, c.more⟩

/-- The transducer without its weights. -/
def plainFst (f : WFst) : Fst :=
  { cells := f.cells.map WCell.plain, symbols := f.symbols, firstNormal := f.firstNormal, diacritics := f.diacritics,
    featureCount := f.featureCount, charToSym := f.charToSym }

/-- The weight of a path: the sum of the weights of its transitions and its final marker, in 16 bits. -/
def pathWeight (f : WFst) (path : List Nat) : Int :=
  toInt16 (path.map fun a => ((f.cells[a]?).map (·.weight)).getD 0).sum

/-- Order of the transitions of a state in a file: epsilon, final marker, flags, normal symbols. -/
def fileRank (symIn : Nat) : Nat := if symIn = 0 then 0 else if symIn = 0xFFFFFFFF then 1 else symIn + 1

/-- The transition table is well-formed for a set `S` of state addresses, and the transitions of each state are in file order. -/
structure WWellFormed (f : WFst) (S : Nat → Prop) : Prop where
  plain : WellFormed (plainFst f) S
  normal : 0 < f.firstNormal
  /-- Number of further transitions in an overflow cell. -/
  overflow : ∀ s, S s → ∀ h, f.cells[s]? = some h → h.more = 255 →
    ∃ oc, f.cells[s + 1]? = some oc ∧ oc.symIn < 0xFFFFFFFF ∧ oc.symOut = 0
  symbols : ∀ s, S s → ∀ a ∈ stateAddrs (plainFst f) s, ∀ t, f.cells[a]? = some t → t.symIn = 0xFFFFFFFF ∨ t.symIn < 0xFFFF
  sorted : ∀ s, S s → ∀ a ∈ stateAddrs (plainFst f) s, ∀ b ∈ stateAddrs (plainFst f) s, a < b →
    ∀ t u, f.cells[a]? = some t → f.cells[b]? = some u → fileRank t.symIn ≤ fileRank u.symIn

/-- When the whole input has been read and a flag transition is not allowed, no later flag transition of the same state is
allowed. -/
def NoMaskedFlag (f : Fst) (input : List Nat) : Prop :=
  ∀ path p, Path f input (startPoint f) path p → p.pos = input.length →
    ∀ a ∈ stateAddrs f p.state, ∀ b ∈ stateAddrs f p.state, a < b → ∀ t u, f.cells[a]? = some t → f.cells[b]? = some u →
    0 < t.symIn → t.symIn < f.firstNormal → 0 < u.symIn → u.symIn < f.firstNormal →
    (∀ F, ¬ FlagStep f p.flags t.symIn F) → ∀ F, ¬ FlagStep f p.flags u.symIn F

/-- Input of the output part of the compiler for a weighted file. -/
structure WGoodInput (symbols : List (List Nat)) (states : List (List WTrans)) : Prop where
  epsilon : symbols[0]? = some []
  symCount : symbols.length < 65536
  noNul : ∀ s ∈ symbols, 0 ∉ s
  initial : states ≠ []
  nonempty : ∀ s ∈ states, s ≠ []
  codes : ∀ s ∈ states, ∀ x ∈ s,
    x.t.symIn = 0xFFFFFFFF ∧ x.t.symOut = 0 ∨ x.t.symIn < symbols.length ∧ x.t.symOut < symbols.length
  targets : ∀ s ∈ states, ∀ x ∈ s, x.t.targetOrd < states.length
  weights : ∀ s ∈ states, ∀ x ∈ s, x.weight < 65536
  /-- Offsets fit into their 32 bits (not checked by the compiler). -/
  size : (states.map fun s => if s.length ≤ 255 then s.length else s.length + 1).sum < 2 ^ 32

end Verif.Props
