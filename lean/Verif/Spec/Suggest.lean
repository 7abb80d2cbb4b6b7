import Verif.Model.Char
/-!
# Which candidates the suggestion generators are meant to try

Independent of the buffer handling of the code: every candidate is described as an edit of the word.
-/
namespace Verif.Spec
open Verif

/-- Two positions of a word hold the same letter, disregarding case. -/
def sameLetter (w : List Wc) (i j : Nat) : Bool := (w[i]?).map lower == (w[j]?).map lower

/-- Remove one character (of several equal ones in a row only the first). -/
def deletions (w : List Wc) : List (List Wc) :=
  (List.range w.length).filterMap fun i =>
    if i = 0 ∨ sameLetter w i (i - 1) = false then some (w.eraseIdx i) else none

/-- Remove one of two equal adjacent pairs of characters; only for words of at least six characters. -/
def doubledPairs (w : List Wc) : List (List Wc) :=
  (List.range (w.length - 3)).filterMap fun i =>
    if w[i]? = w[i + 2]? ∧ w[i + 1]? = w[i + 3]? then some (w.take i ++ w.drop (i + 2)) else none

/-- The same without repetitions. -/
def pairDeletions (w : List Wc) : List (List Wc) := if w.length < 6 then [] else (doubledPairs w).eraseDups

/-- Insert the character `c` before position `i`. -/
def insertAt (w : List Wc) (i : Nat) (c : Wc) : List Wc := w.take i ++ c :: w.drop i

/-- Insert a hyphen with at least two characters on both sides, no hyphen among the two characters before and after. -/
def hyphenInsertions (w : List Wc) : List (List Wc) :=
  (List.range w.length).filterMap fun i =>
    if 2 ≤ i ∧ i + 2 ≤ w.length ∧ 0x2D ∉ (w.drop (i - 2)).take 4 then some (insertAt w i 0x2D) else none

/-- Positions that are the last of a run of equal characters of odd length; `i` is the position of the first character
in the list. -/
def oddRunEnds : List Wc → Nat → List Nat
  | [], _ => []
  | [_], i => [i]
  | a :: b :: rest, i => if a = b then oddRunEnds rest (i + 2) else i :: oddRunEnds (b :: rest) (i + 1)

/-- Double a character that is not doubled yet; hyphens and apostrophes are never doubled. -/
def duplications (w : List Wc) : List (List Wc) :=
  (oddRunEnds w 0).filterMap fun i =>
    if w[i]? = some 0x2D ∨ w[i]? = some 0x27 then none else (w[i]?).map (insertAt w i)

/-- Insert `c` somewhere, but not next to the same letter. -/
def insertionsOf (w : List Wc) (c : Wc) : List (List Wc) :=
  ((List.range w.length).filterMap fun i =>
    if (w[i]?).map lower = some c ∨ (0 < i ∧ (w[i - 1]?).map lower = some c) then none else some (insertAt w i c)) ++
  (if w.getLast? = some c then [] else [w ++ [c]])

/-- All insertions of the given characters. -/
def insertions (chars w : List Wc) : List (List Wc) := chars.flatMap (insertionsOf w)

/-- A replacement table as pairs (from, to). -/
def pairs : List Wc → List (Wc × Wc)
  | f :: t :: rest => (f, t) :: pairs rest
  | _ => []

/-- Replace one occurrence of `f` at position `off` or later by `t`. -/
def replaceOne (off : Nat) (f t : Wc) (w : List Wc) : List (List Wc) :=
  (List.range w.length).filterMap fun i => if off ≤ i ∧ w[i]? = some f then some (w.set i t) else none

/-- Replace one character according to the table, in either case. -/
def replacements (table w : List Wc) : List (List Wc) :=
  (pairs table).flatMap fun p =>
    replaceOne 0 p.1 p.2 w ++ (if upper p.1 = p.1 then [] else replaceOne 0 (upper p.1) (upper p.2) w)

/-- `r + 1` replacements from left to right (a position may be changed repeatedly). -/
def multiReplacements (table : List Wc) : Nat → Nat → List Wc → List (List Wc)
  | 0, off, w => (pairs table).flatMap fun p => replaceOne off p.1 p.2 w
  | r + 1, off, w =>
    (pairs table).flatMap fun p =>
      (List.range w.length).flatMap fun i =>
        if off ≤ i ∧ w[i]? = some p.1 then multiReplacements table r i (w.set i p.2) else []

/-- Positions of doubled characters, taken greedily from the left without overlap. -/
def doubles : List Wc → Nat → List Nat
  | a :: b :: rest, i => if a = b then i :: doubles rest (i + 2) else doubles (b :: rest) (i + 1)
  | _, _ => []

/-- Replace both characters of a doubled character of the lower-cased word. -/
def doubleReplacements (table w : List Wc) : List (List Wc) :=
  let l := w.map lower
  (doubles l 0).flatMap fun i =>
    (pairs table).filterMap fun p => if l[i]? = some p.1 then some ((l.set i p.2).set (i + 1) p.2) else none

/-- The pairs of Finnish back and front vowels. -/
def harmonyPairs : List (Wc × Wc) :=
  [(0x61, 0xE4), (0x6F, 0xF6), (0x75, 0x79), (0x41, 0xC4), (0x4F, 0xD6), (0x55, 0x59)]

/-- The other vowel of the pair. -/
def otherVowel (c : Wc) : Option Wc :=
  match harmonyPairs.find? (fun p => p.1 == c || p.2 == c) with
  | some p => some (if p.1 = c then p.2 else p.1)
  | none => none

/-- Exchange two different letters at most `d` positions apart unless they are a vowel pair. -/
def swaps (d : Nat) (w : List Wc) : List (List Wc) :=
  (List.range w.length).flatMap fun i =>
    (List.range w.length).filterMap fun j =>
      match w[i]?, w[j]? with
      | some a, some b =>
        if i < j ∧ j ≤ i + d ∧ lower a ≠ lower b ∧ otherVowel (lower a) ≠ some (lower b) then
          some ((w.set i b).set j a) else none
      | _, _ => none

/-- Flip the vowels according to the bits of a number; `j` is the number of the next vowel. -/
def flipBits (pat : Nat) : Nat → List Wc → List Wc
  | _, [] => []
  | j, c :: cs =>
    match otherVowel c with
    | some v => (if pat.testBit j then v else c) :: flipBits pat (j + 1) cs
    | none => c :: flipBits pat j cs

/-- Number of back and front vowels. -/
def vowelCount (w : List Wc) : Nat := (w.filter fun c => (otherVowel c).isSome).length

/-- All vowel changes of words with at most seven such vowels. -/
def vowelChanges (w : List Wc) : List (List Wc) :=
  if vowelCount w > 7 then [] else (List.range' 1 (2 ^ vowelCount w - 1)).map fun pat => flipBits pat 0 w

/-- Removal of all soft hyphens. -/
def softHyphenRemoval (w : List Wc) : List (List Wc) := if 0xAD ∈ w then [w.filter (· ≠ 0xAD)] else []

end Verif.Spec
