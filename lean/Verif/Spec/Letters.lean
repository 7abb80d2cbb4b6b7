import Verif.Spec.Structure
/-!
# Which letters of a reading are capital letters

The pattern characters of a STRUCTURE: `i` and `p` are a capital and a small letter, `j` and `q` are the same in abbreviations and numbers; hyphens
and colons are as in the word.
-/

namespace Verif.Letters
open Verif

/-- What is known at some place of an output. -/
structure Ctx where
  /-- the rest of the last pattern -/
  need : List Wc := []
  /-- a name begins here -/
  title : Bool := false
  /-- in an abbreviation or in a number -/
  abbr : Bool := false
  deriving DecidableEq, Repr

/-- The text begins with a digit that is not the end of the output. -/
def digitFirst : List Wc → Bool
  | d :: _ :: _ => isDigit d
  | _ => false

/-- A letter that no pattern describes. -/
def Ctx.letter (c : Ctx) : Wc :=
  if c.abbr then (if c.title then 0x6A else 0x71) else (if c.title then 0x69 else 0x70)

/-- A mark-up item, before the items `r`. Names (`[Le.]`) begin with a capital letter. Abbreviations (`[La]`) and numbers in digits (`[Lu]` before a
digit, `[Lur]`) are marked as such. -/
def Ctx.mark (c : Ctx) (r : List SItem) : SItem → Ctx
  | .cls2 0x65 _ => { c with title := true, abbr := false }
  | .cls2 0x75 _ => { c with abbr := true }
  | .cls2 _ _ => { c with abbr := false }
  | .cls 0x61 => { c with abbr := true }
  | .cls 0x75 => { c with abbr := digitFirst (render r) }
  | .cls _ => { c with abbr := false }
  | .pat p => { c with need := strip p, title := false }
  | _ => c

/-- After a character of the word. -/
def Ctx.pass (c : Ctx) (x : Wc) : Ctx :=
  match c.need with
  | _ :: qs => { c with need := qs }
  | [] => if x = 0x2D then c else if x = 0x3A then { c with abbr := false } else { c with title := false }

/-- The pattern character for a character of the word. -/
def Ctx.describe (c : Ctx) (x : Wc) : Wc :=
  match c.need with
  | q :: _ => q
  | [] => if x = 0x2D ∨ x = 0x3A then x else c.letter

/-- The pattern characters of an output. -/
def letters : Ctx → List SItem → List Wc
  | _, [] => []
  | c, .chr x :: r => c.describe x :: letters (c.pass x) r
  | c, x :: r => letters (c.mark r x) r

/-- The marks come before the letters that they describe: inside of a part of a compound (`pend`: letters have come that no pattern describes) a
class does not change anything, and a colon comes only in abbreviations. -/
def Orderly : Ctx → Bool → List SItem → Prop
  | _, _, [] => True
  | c, pend, .chr x :: r =>
    (c.need = [] → x = 0x3A → c.abbr = true ∨ pend = false) ∧
      Orderly (c.pass x) (c.need.isEmpty && x != 0x2D && x != 0x3A) r
  | c, _, .bound _ :: r => Orderly c false r
  | c, pend, x :: r => (pend = true → c.mark r x = c) ∧ Orderly (c.mark r x) pend r

/-! ### Derived words and hyphens -/

/-- All capital letters of the part of a word after `h` hyphens are small. -/
def lowerPart : Nat → List Wc → List Wc
  | _, [] => []
  | 0, c :: r => if c = 0x2D then c :: r else (if c = 0x69 then 0x70 else c) :: lowerPart 0 r
  | h + 1, c :: r => c :: lowerPart (if c = 0x2D then h else h + 1) r

/-- The first letter is a capital letter. -/
def firstCapital : List Wc → List Wc
  | [] => []
  | c :: r => if c = 0x69 ∨ c = 0x70 then 0x69 :: r else c :: firstCapital r

/-- `[Dg]`: the part of the word is derived from a name and is written small. `[De]`: if a hyphen follows, and the word ends in a hyphen or the name
of a place (`[Lep]`) comes later, then the word begins with a capital letter; `[Ln]` cancels this. Nothing else is changed after such a hyphen. -/
def adjusted (h : Nat) (de : Bool) (st : List Wc) : List SItem → List Wc
  | [] => st
  | .tag name :: r =>
    if [0x44, 0x67] <+: name then adjusted h de (lowerPart h st) r
    else if [0x44, 0x65] <+: name then adjusted h true st r else adjusted h de st r
  | .cls 0x6E :: r => adjusted h false st r
  | .chr 0x2D :: r =>
    if de then if (SItem.chr 0x2D :: r).getLast? = some (.chr 0x2D) ∨ SItem.cls2 0x65 0x70 ∈ r then firstCapital st else st
    else adjusted (h + 1) de st r
  | _ :: r => adjusted h de st r

/-- Hyphens only in the word, and no two of them together. -/
def Plain : List SItem → Prop
  | [] => True
  | .chr x :: r => (x = 0x2D → r.head? ≠ some (.chr 0x2D)) ∧ Plain r
  | x :: r => 0x2D ∉ x.render ∧ Plain r

end Verif.Letters
