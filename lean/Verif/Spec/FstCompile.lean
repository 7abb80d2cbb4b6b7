import Verif.Spec.Fst
import Verif.Model.FstFile
/-!
# What the input of the transducer compiler means

An automaton is a list of states, a state is a list of transitions (or final markers) to states given by their ordinals. Paths
are lists of pairs (ordinal of a state, number of one of its transitions).
-/

namespace Verif.Props
open Verif

/-- Input of the output part of the compiler, after symbols were reordered: the first symbol is epsilon, the transitions use
existing symbols and states, every state has a transition or is final. -/
structure GoodInput (symbols : List (List Nat)) (states : List (List CTrans)) : Prop where
  epsilon : symbols[0]? = some []
  symCount : symbols.length < 65536
  noNul : ∀ s ∈ symbols, 0 ∉ s
  initial : states ≠ []
  nonempty : ∀ s ∈ states, s ≠ []
  codes : ∀ s ∈ states, ∀ t ∈ s,
    t.symIn = 0xFFFFFFFF ∧ t.symOut = 0 ∨ t.symIn < symbols.length ∧ t.symOut < symbols.length
  targets : ∀ s ∈ states, ∀ t ∈ s, t.targetOrd < states.length
  /-- Offsets fit into their 24 bits (not checked by the compiler). -/
  size : (states.map fun s => if s.length ≤ 255 then s.length else s.length + 1).sum ≤ 2 ^ 24

/-- A point of a run of the automaton. -/
structure APoint where
  ord : Nat
  pos : Nat
  flags : List Nat

/-- One step of the automaton along transition number `j` of its state. -/
inductive AStep (f : Fst) (states : List (List CTrans)) (input : List Nat) : APoint → Nat × Nat → APoint → Prop
  | symbol (p : APoint) (s : List CTrans) (j : Nat) (t : CTrans) : states[p.ord]? = some s → s[j]? = some t →
      t.symIn ≠ 0xFFFFFFFF → f.firstNormal ≤ t.symIn → input[p.pos]? = some t.symIn →
      AStep f states input p (p.ord, j) ⟨t.targetOrd, p.pos + 1, p.flags⟩
  | flag (p : APoint) (s : List CTrans) (j : Nat) (t : CTrans) (flags' : List Nat) : states[p.ord]? = some s → s[j]? = some t →
      t.symIn ≠ 0xFFFFFFFF → t.symIn < f.firstNormal → FlagStep f p.flags t.symIn flags' →
      AStep f states input p (p.ord, j) ⟨t.targetOrd, p.pos, flags'⟩

/-- A run of the automaton. -/
inductive APath (f : Fst) (states : List (List CTrans)) (input : List Nat) : APoint → List (Nat × Nat) → APoint → Prop
  | nil (p : APoint) : APath f states input p [] p
  | cons (p q r : APoint) (a : Nat × Nat) (as : List (Nat × Nat)) : AStep f states input p a q →
      APath f states input q as r → APath f states input p (a :: as) r

/-- A run of the automaton from state 0 that ends with a final marker after `n` input symbols. -/
def AAccepting (f : Fst) (states : List (List CTrans)) (input : List Nat) (pfx : Bool) (path : List (Nat × Nat)) (n : Nat) :
    Prop :=
  ∃ (as : List (Nat × Nat)) (p : APoint) (j : Nat) (s : List CTrans) (t : CTrans), path = as ++ [(p.ord, j)] ∧
    APath f states input ⟨0, 0, List.replicate f.featureCount 0⟩ as p ∧ states[p.ord]? = some s ∧ s[j]? = some t ∧
    t.symIn = 0xFFFFFFFF ∧ p.pos = n ∧ (pfx = false → n = input.length)

/-- The output of a run: the texts of the normal output symbols of its transitions. -/
def aOutput (f : Fst) (states : List (List CTrans)) (path : List (Nat × Nat)) : List Wc :=
  path.dropLast.flatMap fun a =>
    match (states[a.1]?).bind (·[a.2]?) with
    | none => []
    | some t => if f.firstNormal ≤ t.symOut then (f.symbols[t.symOut]?).getD [] else []

/-- A run comes before another one: at the first difference it uses an earlier transition of the same state. -/
def ABefore : List (Nat × Nat) → List (Nat × Nat) → Prop
  | a :: q, b :: p => (a.1 = b.1 ∧ a.2 < b.2) ∨ (a = b ∧ ABefore q p)
  | _, _ => False

end Verif.Props
