import Verif.Model.FinnishVfst
/-!
# What a well-formed output of the Finnish transducer is, and what its STRUCTURE should say

An output is a sequence of items. The characters of the word are the `chr` items; everything else is mark-up. The
conditions are those that the Finnish dictionary is written to (`[Xr]` patterns describe the characters that follow them).
-/

namespace Verif

/-- An item of a transducer output. -/
inductive SItem where
  /-- `[Lc]` -/
  | cls (c : Wc)
  /-- `[Lcd]` -/
  | cls2 (c d : Wc)
  /-- another tag: `[name]` -/
  | tag (name : List Wc)
  /-- `[Bc]`: a boundary between parts of a compound -/
  | bound (c : Wc)
  /-- `[Xc]body[X]` -/
  | sect (c : Wc) (body : List Wc)
  /-- `[Xr]p[X]`: the structure of the following characters -/
  | pat (p : List Wc)
  /-- a character of the word -/
  | chr (c : Wc)
  deriving DecidableEq, Repr

/-- The text of an item. -/
def SItem.render : SItem → List Wc
  | .cls c => [0x5B, 0x4C, c, 0x5D]
  | .cls2 c d => [0x5B, 0x4C, c, d, 0x5D]
  | .tag name => 0x5B :: (name ++ [0x5D])
  | .bound c => [0x5B, 0x42, c, 0x5D]
  | .sect c body => 0x5B :: 0x58 :: c :: 0x5D :: (body ++ [0x5B, 0x58, 0x5D])
  | .pat p => 0x5B :: 0x58 :: 0x72 :: 0x5D :: (p ++ [0x5B, 0x58, 0x5D])
  | .chr c => [c]

/-- The transducer output. -/
def render : List SItem → List Wc
  | [] => []
  | x :: r => x.render ++ render r

/-- The word. -/
def content : List SItem → List Wc
  | [] => []
  | .chr c :: r => c :: content r
  | _ :: r => content r

/-- A structure string without the `=` marks. -/
def strip (st : List Wc) : List Wc := st.filter (· ≠ 0x3D)

/-- The places of the `=` marks of a structure string, as the number of other characters before them, plus `k`. -/
def marks : Nat → List Wc → List Nat
  | _, [] => []
  | k, c :: r => if c = 0x3D then k :: marks k r else marks (k + 1) r

/-- Whether a string has `==` somewhere. -/
def hasDouble : List Wc → Bool
  | [] => false
  | [_] => false
  | a :: b :: r => (a == 0x3D && b == 0x3D) || hasDouble (b :: r)

/-- Well-formed items. `need` is the part of the last `[Xr]` pattern (without `=`) whose characters have not come yet;
`pend` tells whether there may be characters after the last boundary that no pattern describes. -/
def WfItems : List Wc → Bool → List SItem → Prop
  | need, _, [] => need = []
  | need, pend, .cls c :: r => c ≠ 0x65 ∧ WfItems need pend r
  | need, pend, .cls2 c d :: r =>
    (c = 0x65 ∨ (c = 0x6E ∧ d = 0x6C) ∨ (c = 0x75 ∧ d = 0x72 ∧ r ≠ [])) ∧ WfItems need pend r
  | need, pend, .tag name :: r =>
    (∃ c t, name = c :: t ∧ ((c ≠ 0x58 ∧ c ≠ 0x4C ∧ c ≠ 0x42) ∨ name = [0x42, 0x68])) ∧ 0x5D ∉ name ∧ WfItems need pend r
  | need, _, .bound c :: r => c ≠ 0x68 ∧ need = [] ∧ content r ≠ [] ∧ 2 ≤ (render r).length ∧ WfItems [] false r
  | need, pend, .sect c body :: r => c ≠ 0x72 ∧ 0x5B ∉ body ∧ WfItems need pend r
  | need, pend, .pat p :: r =>
    need = [] ∧ pend = false ∧ 0x5B ∉ p ∧ p.head? ≠ some 0x3D ∧ hasDouble p = false
    ∧ (p.getLast? = some 0x3D → (strip p).length < (content r).length) ∧ WfItems (strip p) false r
  | [], pend, .chr c :: r => c ≠ 0x5B ∧ WfItems [] (if c = 0x2D then false else if c = 0x3A then pend else true) r
  | q :: qs, _, .chr c :: r => c ≠ 0x5B ∧ c ≠ 0x3A ∧ (c = 0x2D ↔ q = 0x2D) ∧ WfItems qs false r

/-- A boundary directly after a first character only if that character is a hyphen. -/
def FirstOk : List SItem → Prop
  | .chr c :: .bound _ :: _ => c = 0x2D
  | _ => True

/-- A well-formed output: see `WfItems`; the word is not empty. -/
def WellFormed (its : List SItem) : Prop := WfItems [] false its ∧ FirstOk its ∧ content its ≠ []

/-- Whether `j` is the place of a border: a boundary tag or a `=` of a pattern, after `k` characters. -/
def BorderFrom : Nat → List SItem → Nat → Prop
  | _, [], _ => False
  | k, .bound _ :: r, j => j = k ∨ BorderFrom k r j
  | k, .pat p :: r, j => j ∈ marks k p ∨ BorderFrom k r j
  | k, .chr _ :: r, j => BorderFrom (k + 1) r j
  | k, _ :: r, j => BorderFrom k r j

/-- The places where STRUCTURE should have a `=`: the start of the word, unless the output begins with a hyphen, and the
borders. -/
def Border (its : List SItem) (j : Nat) : Prop :=
  (j = 0 ∧ its.head? ≠ some (.chr 0x2D)) ∨ BorderFrom 0 its j

end Verif
