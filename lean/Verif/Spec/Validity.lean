import Verif.Spec.Structure
/-!
# When an analysis of a compound is valid

What matters in a transducer output is a sequence of events: letters, places where words of a compound meet (with or without a hyphen),
and marks of the words.
-/

namespace Verif.Validity
open Verif

inductive Ev where
  /-- a letter of the word -/
  | letter (c : Wc)
  /-- `[Bh]`: two words meet, with or without a hyphen -/
  | gap (hyphen : Bool)
  /-- another hyphen -/
  | hyphen
  /-- `[Isf]`: a hyphen may be used -/
  | free
  /-- `[Icu]`: a hyphen must be used -/
  | must
  /-- `[Ica]` -/
  | place
  /-- `[Le…]`: a proper noun -/
  | proper
  /-- `[Ln…]`: a noun -/
  | noun
  /-- `[Dg]` -/
  | derived
  deriving DecidableEq, Repr

/-- What a tag means. -/
def tagEv (name : List Wc) : List Ev :=
  if name = lit "Bh" then [.gap false]
  else if (lit "Isf").isPrefixOf name then [.free]
  else if (lit "Icu").isPrefixOf name then [.must]
  else if (lit "Ica").isPrefixOf name then [.place]
  else if (lit "Le").isPrefixOf name then [.proper]
  else if (lit "Ln").isPrefixOf name then [.noun]
  else if (lit "Dg").isPrefixOf name then [.derived]
  else []

/-- The events of an output. -/
def events : List SItem → List Ev
  | [] => []
  | .chr c :: .tag n :: r =>
    if c = 0x2D ∧ n = lit "Bh" then .gap true :: events r
    else (if c = 0x2D then .hyphen else .letter c) :: events (.tag n :: r)
  | .chr c :: r => (if c = 0x2D then .hyphen else .letter c) :: events r
  | .tag n :: r => tagEv n ++ events r
  | .cls c :: r => tagEv [0x4C, c] ++ events r
  | .cls2 c d :: r => tagEv [0x4C, c, d] ++ events r
  | _ :: r => events r

/-- The letters of a sequence of events. -/
def letters : List Ev → List Wc
  | [] => []
  | .letter c :: r => c :: letters r
  | _ :: r => letters r

/-- Something has happened, and nothing after it undid it. -/
def Since (on off : Ev → Prop) (w : List Ev) : Prop := ∃ u e t, w = u ++ e :: t ∧ on e ∧ ∀ x ∈ t, ¬ off x

/-- Two words have met and neither a letter nor a mark that a hyphen must be used came since. -/
def Pending (w : List Ev) (h : Bool) : Prop :=
  Since (· = .gap h) (fun e => (∃ c, e = .letter c) ∨ (∃ g, e = .gap g) ∨ e = .must) w

/-- After `x` there is the first letter of a word that is not the first one. -/
def Crossing (w x : List Ev) : Prop := ∃ c y, w = x ++ .letter c :: y ∧ ∃ h, Pending x h

/-- A hyphen may be used at the next place where words meet: at most one such place has been passed since `free`, or none since
`must`. -/
def Free (w : List Ev) : Prop :=
  (∃ u t, w = u ++ .free :: t ∧ ∀ x x', Crossing w x → Crossing w x' → u.length < x.length → u.length < x'.length → x = x') ∨
  (∃ u t, w = u ++ .must :: t ∧ ∀ x, Crossing w x → ¬ u.length < x.length)

/-- A hyphen must be used: none was used since the mark. -/
def Owed (w : List Ev) : Prop :=
  ∃ u t, w = u ++ .must :: t ∧ ∀ x c y, w = x ++ .letter c :: y → u.length < x.length → ¬ Pending x true

/-- Between these letters and `c` there must be a hyphen: two equal vowels, or a digit. -/
def Needs (l : List Wc) (c : Wc) : Prop := ∃ a, l.getLast? = some a ∧ ((a = c ∧ a ∈ voikkoVowels) ∨ (0x30 ≤ a ∧ a ≤ 0x39))

/-- The hyphen between two words, or its absence, is right. -/
def RightHyphen (x : List Ev) (c : Wc) (h : Bool) : Prop :=
  (h = true ∧ (Free x ∨ letters x = [] ∨ ∃ p, letters x = p ++ lit "is")) ∨ (h = true ↔ Needs (letters x) c)

/-- Hyphens are used where they are needed and only where they may be used. -/
def HyphensRight (w : List Ev) : Prop := ∀ x c y, w = x ++ .letter c :: y → ∀ h, Pending x h → RightHyphen x c h

/-- Where a hyphen must be used and words meet without one, `place` follows before they meet again without one. -/
def HyphensUsed (w : List Ev) : Prop :=
  ∀ x y, w = x ++ .gap false :: y → Owed x → ∃ u t, y = u ++ .place :: t ∧ .gap false ∉ u

/-- A proper noun and a noun after it are not joined without a hyphen. -/
def NoClash (w : List Ev) : Prop :=
  ¬ (Since (· = .proper) (fun e => e = .derived ∨ e = .hyphen ∨ e = .gap true) w ∧
     Since (· = .noun) (fun e => e = .proper ∨ e = .place ∨ e = .hyphen ∨ e = .gap true) w)

/-- The analysis is valid. -/
def Valid (w : List Ev) : Prop := HyphensRight w ∧ HyphensUsed w ∧ NoClash w

/-- Items of a usual form. Letters are small. -/
def PlainItem : SItem → Prop
  | .cls c => c ≠ 0x5D
  | .cls2 c d => c ≠ 0x5D ∧ d ≠ 0x5D
  | .tag n => n ≠ [] ∧ 0x5D ∉ n ∧ n.head? ≠ some 0x58 ∧ ((lit "Bh").isPrefixOf n → n = lit "Bh")
  | .bound c => c ≠ 0x5D ∧ c ≠ 0x68
  | .sect c b => c ≠ 0x5B ∧ 0x5B ∉ b
  | .pat p => 0x5B ∉ p
  | .chr c => c ≠ 0x5B ∧ c ≠ 0 ∧ lower c = c

/-- Items of a usual form; the output does not end where words meet after a hyphen. -/
def Plain (its : List SItem) : Prop := (∀ x ∈ its, PlainItem x) ∧ ∀ pre, its ≠ pre ++ [.chr 0x2D, .tag (lit "Bh")]

end Verif.Validity
