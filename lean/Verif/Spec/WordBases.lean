import Verif.Spec.Baseform
/-!
# What WORDBASES and WORDIDS say about the parts of a word

A reading is a sequence of parts. A part begins with the tag of a class, with a hyphen at the boundary of a compound, or with the base form
of a suffix (`[Xj]`) behind other letters. It has its letters, and it may have a base form (`[Xp]`, or `[Xj]` for a suffix) and the
identifier of a word in the database (`[Xs]`).
-/

namespace Verif.WordBases
open Verif

/-- A part of a word. -/
structure Part where
  /-- there is a hyphen before the part -/
  hyphen : Bool := false
  /-- the part is a suffix that begins without the tag of a class -/
  joined : Bool := false
  /-- the letters in the word -/
  text : List Wc := []
  /-- the base form, empty if it is not known -/
  base : List Wc := []
  /-- the identifier, empty if it is not known -/
  id : List Wc := []
  deriving DecidableEq, Repr

/-- The next item is the boundary of a compound. -/
def atBoundary : List SItem → Bool
  | .bound _ :: _ => true
  | .tag (0x42 :: _) :: _ => true
  | _ => false

/-- The base form of a suffix. -/
def suffix (body : List Wc) : List Wc := if body = [] then [] else 0x2B :: body

/-- The parts of a reading, when `p` is what is known about the first of them. -/
def parts (p : Part) : List SItem → List Part
  | [] => [p]
  | .cls _ :: r => p :: parts {} r
  | .cls2 _ _ :: r => p :: parts {} r
  | .chr c :: r => if c = 0x2D ∧ atBoundary r then p :: parts { hyphen := true } r else parts { p with text := p.text ++ [c] } r
  | .sect c body :: r =>
    if c = 0x70 then parts { p with base := body } r
    else if c = 0x6A then
      if p.text = [] ∧ p.joined = false then parts { p with base := suffix body } r
      else p :: parts { joined := true, base := suffix body } r
    else parts { p with id := body } r
  | _ :: r => parts p r

/-- The base form in parentheses. -/
def baseNote (p : Part) : List Wc := if p.base = [] then [] else lit "(" ++ p.base ++ lit ")"

/-- The identifier in parentheses. -/
def idNote (p : Part) : List Wc := if p.id = [] then [] else lit "(w" ++ p.id ++ lit ")"

/-- What is before the letters of a part. -/
def lead (p : Part) : List Wc := (if p.hyphen then lit "+-" else []) ++ if p.text = [] ∨ p.joined then [] else lit "+"

/-- A part that is not the last one: its letters and the note. -/
def inner (note : Part → List Wc) (p : Part) : List Wc := lead p ++ p.text ++ note p

/-- The last part: in its base form, if that is known. -/
def final (note : Part → List Wc) (p : Part) : List Wc :=
  if p.base = [] then inner note p
  else (if p.hyphen then lit "+-" else []) ++ (if p.joined ∨ p.base.head? = some 0x2B then [] else lit "+") ++ strip p.base ++ note p

/-- All parts. -/
def describe (note : Part → List Wc) : List Part → List Wc
  | [] => []
  | [p] => final note p
  | p :: q :: r => inner note p ++ describe note (q :: r)

/-- Readings of the dictionary: known sections without brackets in them; no `+` among the letters; a last part that has a base form also has
letters. -/
structure Usual (its : List SItem) : Prop where
  known : Baseform.KnownSections its
  bodies : ∀ c b, .sect c b ∈ its → 0x5D ∉ b
  noPlus : 0x2B ∉ content its
  letters : ∀ p, (parts {} its).getLast? = some p → p.base ≠ [] → p.text ≠ [] ∨ p.joined = true

/-! ### Reading the values -/

/-- What is in parentheses. The first argument is what has been read since an opening parenthesis. -/
def notes : Option (List Wc) → List Wc → List (List Wc)
  | _, [] => []
  | none, c :: r => if c = 0x28 then notes (some []) r else notes none r
  | some w, c :: r => if c = 0x29 then w :: notes none r else notes (some (w ++ [c])) r

/-- What is not in parentheses, without `+`. The first argument tells whether there has been an opening parenthesis. -/
def bare : Bool → List Wc → List Wc
  | _, [] => []
  | false, c :: r => if c = 0x28 then bare true r else if c = 0x2B then bare false r else c :: bare false r
  | true, c :: r => if c = 0x29 then bare false r else bare true r

/-- The letters of a part. -/
def said (p : Part) : List Wc := (if p.hyphen then [0x2D] else []) ++ p.text

/-- No parentheses and no `+` in the words. -/
def Quiet (its : List SItem) : Prop :=
  (∀ c ∈ content its, c ≠ 0x28 ∧ c ≠ 0x29 ∧ c ≠ 0x2B) ∧ ∀ k b, .sect k b ∈ its → ∀ c ∈ b, c ≠ 0x28 ∧ c ≠ 0x29 ∧ c ≠ 0x2B

/-- No class and no boundary. -/
def NoBorder (M : List SItem) : Prop := ∀ x ∈ M, ¬ Baseform.IsClass x ∧ atBoundary [x] = false

/-- The base form stands at the beginning of a part: no letters between the tag of a class and it, or it is that of a suffix. -/
def Opens (A : List SItem) (x : SItem) : Prop := (∃ b, x = .sect 0x6A b) ∨ ∃ A1 y A2, A = A1 ++ y :: A2 ∧ Baseform.IsClass y ∧ content A2 = []

/-- There is an identifier. -/
def HasId (its : List SItem) : Prop := ∃ b, .sect 0x73 b ∈ its

end Verif.WordBases
