import Verif.Spec.SpellOutput
import Verif.Model.VoikkoGc
/-!
# How a reader understands what the grammar checking program prints
-/

namespace Verif.SpellOutput
open Verif

/-- A line `X: "token"`. -/
def readToken : List Wc → Option (Wc × List Wc)
  | x :: 0x3A :: 0x20 :: 0x22 :: r => if r.getLast? = some 0x22 then some (x, r.dropLast) else none
  | _ => none

/-- A line `X: sentence`. -/
def readSentence : List Wc → Option (Wc × List Wc)
  | x :: 0x3A :: 0x20 :: r => some (x, r)
  | _ => none

/-- The text up to a given character and what follows that. -/
def upTo (c : Wc) (l : List Wc) : Option (List Wc × List Wc) :=
  match l.dropWhile (· ≠ c) with
  | [] => none
  | _ :: r => some (l.takeWhile (· ≠ c), r)

/-- A number that follows `p` and ends before a comma, and the rest from the comma on. -/
def numberAfter (p l : List Wc) : Option (Nat × List Wc) :=
  match after p l with
  | none => none
  | some r =>
    match upTo 0x2C r with
    | none => none
    | some (d, r) => some (number d, 0x2C :: r)

/-- The suggestions: the text is split at the quotation marks. -/
def readSuggestions : List (List Wc) → List (List Wc)
  | x :: s :: r => if x.head? = some 0x7D then [] else s :: readSuggestions r
  | _ => []

/-- What is said about an error. -/
def readError (l : List Wc) : Option (Nat × Nat × Nat × List (List Wc)) :=
  match numberAfter (lit "[code=") l with
  | none => none
  | some (code, r) =>
    match numberAfter (lit ", level=0, descr=\"\", stpos=") r with
    | none => none
    | some (start, r) =>
      match numberAfter (lit ", len=") r with
      | none => none
      | some (len, r) =>
        match after (lit ", suggs={") r with
        | none => none
        | some r => some (code, start, len, readSuggestions (fields 0x22 r))

/-- What is said about each paragraph: the lines up to the line `-`. -/
def reports : List (List Wc) → List (List (Option (Nat × Nat × Nat × List (List Wc))))
  | [] => []
  | l :: r =>
    if l = lit "-" then [] :: reports r
    else match reports r with
      | [] => [[readError l]]
      | g :: gs => (readError l :: g) :: gs

/-- A line with its number: `number text`. -/
def numberedLine (l : List Wc) : Option (Nat × List Wc) :=
  match upTo 0x20 l with
  | none => none
  | some (d, r) => some (number d, r)

end Verif.SpellOutput
