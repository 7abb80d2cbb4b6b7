import Verif.Model.Fst
/-!
# What a transducer file means

Paths through the transition table, independent of the search: the transitions of a state are listed by the file format,
a path is a list of addresses of transitions, and flag diacritics are a condition on the path.
-/

namespace Verif.Props
open Verif

/-- The addresses of the transitions of the state at address `s`. The head of the state contains the number of further
transitions; the value 255 means that the number is in the next cell, which is not a transition. -/
def stateAddrs (f : Fst) (s : Nat) : List Nat :=
  match f.cells[s]? with
  | none => []
  | some h =>
    if h.more = 255 then
      match f.cells[s + 1]? with
      | none => []
      | some oc => s :: List.range' (s + 2) oc.overflow
    else List.range' s (h.more + 1)

/-- Effect of one flag diacritic on the value of its feature. 0 means "not set"; 1 in a requirement means "any value". -/
def FlagRel (op : FlagOp) (value old new : Nat) : Prop :=
  match op with
  | .P => new = value
  | .C => new = 0
  | .U => (old = 0 ∧ new = value) ∨ (old ≠ 0 ∧ old = value ∧ new = old)
  | .R => new = old ∧ (if value = 1 then old ≠ 0 else old = value)
  | .D => new = old ∧ (if value = 1 then old = 0 else old ≠ value)

/-- Effect of an epsilon or flag symbol on the flag values. -/
def FlagStep (f : Fst) (flags : List Nat) (sym : Nat) (flags' : List Nat) : Prop :=
  if f.featureCount = 0 ∨ sym = 0 then flags' = flags
  else ∃ ofv old new, f.diacritics[sym]? = some ofv ∧ flags[ofv.feature]? = some old ∧ FlagRel ofv.op ofv.value old new ∧
    flags' = flags.set ofv.feature new

/-- A point of a path: state, number of input symbols read, flag values. -/
structure Point where
  state : Nat
  pos : Nat
  flags : List Nat

/-- One step along the transition at address `a`. -/
inductive Step (f : Fst) (input : List Nat) : Point → Nat → Point → Prop
  | symbol (p : Point) (a : Nat) (t : Cell) : a ∈ stateAddrs f p.state → f.cells[a]? = some t → t.symIn ≠ 0xFFFF →
      f.firstNormal ≤ t.symIn → input[p.pos]? = some t.symIn → Step f input p a ⟨t.target, p.pos + 1, p.flags⟩
  | flag (p : Point) (a : Nat) (t : Cell) (flags' : List Nat) : a ∈ stateAddrs f p.state → f.cells[a]? = some t →
      t.symIn ≠ 0xFFFF → t.symIn < f.firstNormal → FlagStep f p.flags t.symIn flags' →
      Step f input p a ⟨t.target, p.pos, flags'⟩

/-- A path, as the list of addresses of its transitions. -/
inductive Path (f : Fst) (input : List Nat) : Point → List Nat → Point → Prop
  | nil (p : Point) : Path f input p [] p
  | cons (p q r : Point) (a : Nat) (as : List Nat) : Step f input p a q → Path f input q as r → Path f input p (a :: as) r

/-- The starting point. -/
def startPoint (f : Fst) : Point := ⟨0, 0, List.replicate f.featureCount 0⟩

/-- `path` ends in a final marker after `n` input symbols; unless prefixes are wanted, this is the whole input. -/
def Accepting (f : Fst) (input : List Nat) (pfx : Bool) (path : List Nat) (n : Nat) : Prop :=
  ∃ as a p t, path = as ++ [a] ∧ Path f input (startPoint f) as p ∧ a ∈ stateAddrs f p.state ∧ f.cells[a]? = some t ∧
    t.symIn = 0xFFFF ∧ p.pos = n ∧ (pfx = false → n = input.length)

/-- The output symbol of the transition at address `a`: only normal symbols are output. -/
def outText (f : Fst) (a : Nat) : List Wc :=
  match f.cells[a]? with
  | none => []
  | some t => if f.firstNormal ≤ t.symOut then (f.symbols[t.symOut]?).getD [] else []

/-- The output of a path: the texts of the output symbols of its transitions, without the final marker. -/
def outputOf (f : Fst) (path : List Nat) : List Wc := path.dropLast.flatMap (outText f)

/-- The path `q` comes before the path or position `p`: at the first difference it uses an earlier transition. -/
def Before : List Nat → List Nat → Prop
  | a :: q, b :: p => a < b ∨ (a = b ∧ Before q p)
  | _, _ => False

/-- The transition table is well-formed for a set `S` of state addresses. -/
structure WellFormed (f : Fst) (S : Nat → Prop) : Prop where
  root : S 0
  table : f.cells.length < 2 ^ 32
  epsilon : f.symbols[0]? = some []
  /-- The cells of a state are inside the table. -/
  head : ∀ s, S s → ∃ h, f.cells[s]? = some h ∧
    (h.more < 255 ∧ s + h.more < f.cells.length ∨
      h.more = 255 ∧ ∃ oc, f.cells[s + 1]? = some oc ∧ 254 ≤ oc.overflow ∧ s + oc.overflow + 1 < f.cells.length)
  /-- A transition leads to a state and uses existing symbols. -/
  trans : ∀ s, S s → ∀ a ∈ stateAddrs f s, ∀ t, f.cells[a]? = some t → t.symIn ≠ 0xFFFF →
    S t.target ∧ t.symOut < f.symbols.length ∧
    (t.symIn < f.firstNormal → f.featureCount ≠ 0 → t.symIn ≠ 0 →
      ∃ ofv, f.diacritics[t.symIn]? = some ofv ∧ ofv.feature < f.featureCount)

end Verif.Props
