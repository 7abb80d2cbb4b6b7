import Verif.Model.VoikkoSpell
/-!
# How a reader understands what the spelling program prints
-/

namespace Verif.SpellOutput
open Verif

/-- The lines of a text. -/
def linesOf : List Wc → List (List Wc)
  | [] => []
  | c :: r =>
    if c = 0x0A then [] :: linesOf r
    else match linesOf r with
      | [] => [[c]]
      | l :: ls => (c :: l) :: ls

/-- The fields of a line, separated by `sep`. -/
def fields (sep : Wc) : List Wc → List (List Wc)
  | [] => [[]]
  | c :: r =>
    if c = sep then [] :: fields sep r
    else match fields sep r with
      | [] => [[c]]
      | l :: ls => (c :: l) :: ls

/-- The value of a decimal number. -/
def number (l : List Wc) : Nat := l.foldl (fun a c => 10 * a + (c - 0x30)) 0

/-- What follows a given beginning. -/
def after : List Wc → List Wc → Option (List Wc)
  | [], l => some l
  | _ :: _, [] => none
  | a :: p, b :: l => if a = b then after p l else none

/-- A line `A(word):number:key=value`. -/
def readAnalysis (word line : List Wc) : Option (Nat × List Wc × List Wc) :=
  match after ([0x41, 0x28] ++ word ++ [0x29, 0x3A]) line with
  | none => none
  | some r =>
    match r.dropWhile (· ≠ 0x3A) with
    | [] => none
    | _ :: kv =>
      match kv.dropWhile (· ≠ 0x3D) with
      | [] => none
      | _ :: v => some (number (r.takeWhile (· ≠ 0x3A)), kv.takeWhile (· ≠ 0x3D), v)

/-- What is said about a word. -/
structure Entry where
  word : List Wc
  correct : Bool
  /-- number of the analysis, key and value; `none` for a line that is not understood -/
  attributes : List (Option (Nat × List Wc × List Wc))
  suggestions : List (List Wc)
  deriving DecidableEq, Repr

/-- Reading the lines from the last to the first: the suggestions and other lines for which the word is still to come, and the entries. -/
def readLines : List (List Wc) → List (List Wc) × List (List Wc) × List Entry
  | [] => ([], [], [])
  | l :: ls =>
    let (s, a, es) := readLines ls
    match l with
    | 0x43 :: 0x3A :: 0x20 :: w => ([], [], ⟨w, true, a.map (readAnalysis w), s⟩ :: es)
    | 0x57 :: 0x3A :: 0x20 :: w => ([], [], ⟨w, false, a.map (readAnalysis w), s⟩ :: es)
    | 0x53 :: 0x3A :: 0x20 :: x => (x :: s, a, es)
    | _ => (s, l :: a, es)

/-- What the output in the usual format says. -/
def entries (out : List Wc) : List Entry := (readLines (linesOf out)).2.2

/-- What the library answers for the words: with every handle on which `P` holds, `verdict` tells whether a word is correct. `sugg` are the
suggestions, `an` the analyses. -/
structure Answers {σ : Type} (api : ToolApi σ) (P : σ → Prop) (verdict : List Wc → Bool) (sugg : List Wc → List (List Wc))
    (an : List Wc → List (List (List Wc × List Wc))) (words : List (List Wc)) : Prop where
  spell : ∀ h w, P h → w ∈ words → ∃ h', api.spell h w = some (if verdict w then .ok else .failed, h') ∧ P h'
  suggest : ∀ w ∈ words, ∃ l, api.suggest w = some l ∧ l.getD [] = sugg w
  analyze : ∀ w ∈ words, api.analyze w = some (an w)

/-- The attributes of a word with the numbers of their analyses, counted from `n`. -/
def numbered (n : Nat) : List (List (List Wc × List Wc)) → List (Nat × List Wc × List Wc)
  | [] => []
  | a :: r => a.map (fun kv => (n, kv)) ++ numbered (n + 1) r

end Verif.SpellOutput
