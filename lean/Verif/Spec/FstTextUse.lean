import Verif.Spec.FstTextW
/-!
# Words and corrections that the text of an automaton describes

Only the lines of the text are used here.
-/

namespace Verif.Att
open Verif Verif.Props

/-- The automaton accepts the word. -/
def IsWord (ls : List Line) (word : List Wc) : Prop := ∃ run, Accepts ls word false run word.length

/-- The search for a word stays within the fixed limits: 2000 transitions in a run, 2000 characters of output, 50000 runs that begin to read the word. -/
structure Small (ls : List Line) (word : List Wc) : Prop where
  depth : ∀ ks p, TakesAll ls word ⟨0, 0, fun _ => []⟩ ks p → ks.length + 1 < 2000
  out : ∀ run n, Accepts ls word false run n → (runOutput ls run).length + 1 < 2000
  runs : ∀ L : List (List Nat), L.Nodup → (∀ ks ∈ L, ∃ p, TakesAll ls word ⟨0, 0, fun _ => []⟩ ks p) → 2 * L.length < 100000

/-- The search for a word stays within the fixed limits and meets no masked flag diacritic. -/
structure Fits (ls : List Line) (word : List Wc) : Prop extends Small ls word where
  mask : NoMasked ls word

/-- The runs that accept a word, each once and in the order of the lines. -/
structure AllRuns (ls : List Line) (word : List Wc) (runs : List (List Nat)) : Prop where
  mem : ∀ r, r ∈ runs ↔ Accepts ls word false r word.length
  order : runs.Pairwise (RunBefore ls)
  nodup : runs.Nodup

/-- A graph of words: each transition reads a letter and writes at most seven, the transitions of a state read different letters, and no state is
declared final twice. -/
structure WordGraph (ls : List Line) : Prop where
  letters : ∀ a, Line.arc a ∈ ls → ∃ c, a.inp = [c]
  short : ∀ a, Line.arc a ∈ ls → a.out.length ≤ 7
  deterministic : ∀ (k k' : Nat) a b, ls[k]? = some (.arc a) → ls[k']? = some (.arc b) → a.src = b.src → a.inp = b.inp → k = k'
  final : ∀ (k k' : Nat) s, ls[k]? = some (.final s) → ls[k']? = some (.final s) → k = k'

/-- The error model `els` turns `word` into `w`, the automaton `als` accepts `w`, and the weights of the two runs add up to `weight`. -/
def Corrects (els als : List (Line × Nat)) (word w : List Wc) (weight : Int) : Prop :=
  ∃ e a, Accepts (els.map (·.1)) word false e word.length ∧ runOutput (els.map (·.1)) e = w ∧ Accepts (als.map (·.1)) w false a w.length ∧
    weight = runWeight els e + runWeight als a

end Verif.Att
