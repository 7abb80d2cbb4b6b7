import Verif.Spec.Grammatical
/-!
# What the base form of a reading is

A reading has sections `[Xp]...[X]` (or `[Xj]...[X]`) with the base form of the word that follows them. The word itself is written with
the capital letters of STRUCTURE.
-/

namespace Verif.Baseform
open Verif

/-- A section with a base form. -/
def BaseSect (x : SItem) (body : List Wc) : Prop := x = .sect 0x70 body ∨ x = .sect 0x6A body

/-- No section with a base form. -/
def NoBase (M : List SItem) : Prop := ∀ x ∈ M, ∀ b, ¬ BaseSect x b

/-- The number of hyphens. -/
def hyphens (w : List Wc) : Nat := w.count 0x2D

/-- `body` is the last base form in `P`; `A` is before it and `M` after it. -/
def LastBase (P A : List SItem) (body : List Wc) (M : List SItem) : Prop :=
  ∃ x, P = A ++ x :: M ∧ BaseSect x body ∧ NoBase M

/-- The character `c` of the word, `n` characters after its beginning, with the capital letters of STRUCTURE. -/
def shown (st : List Wc) (n : Nat) (c : Wc) : Wc := if (strip st)[n]? = some 0x69 ∨ (strip st)[n]? = some 0x6A then upper c else c

/-- The tag of a class. -/
def IsClass (x : SItem) : Prop := (∃ c, x = .cls c) ∨ ∃ c d, x = .cls2 c d

/-- The last class, if there is one, is that of an adjective. -/
def AdjectiveLast (P : List SItem) : Prop :=
  ∀ Q x R, P = Q ++ x :: R → IsClass x → (∀ y ∈ R, ¬ IsClass y) → x = .cls 0x6C ∨ x = .cls2 0x6E 0x6C

/-- The first part of a compound place name: it is marked, there is no class and no hyphen since. -/
def Marked (P : List SItem) : Prop :=
  ∃ Q R, P = Q ++ .tag (lit "De") :: R ∧ (∀ y ∈ R, ¬ IsClass y ∧ y ≠ .chr 0x2D) ∧ AdjectiveLast Q

/-- A hyphen after `P` ends the first part of a compound place name ("Isolla-Britannialla"), which is put in its base form: `A` is before
the base form `body`. -/
def Replaced (its P A : List SItem) (body : List Wc) : Prop :=
  (∃ M, LastBase P A body M ∧ hyphens (content M) = hyphens body) ∧ Marked P ∧ ¬ lit "is" <:+ render P
  ∧ ∃ R, its = P ++ .chr 0x2D :: R ∧ .cls2 0x65 0x70 ∈ R

/-- A base form without its marks, with a capital letter. -/
def capital : List Wc → List Wc
  | [] => []
  | c :: r => if c = 0x3D then strip r else upper c :: strip r

/-- The text of the items `P` at the beginning of the reading. -/
inductive Written (its : List SItem) (st : List Wc) : List SItem → List Wc → Prop
  | nil : Written its st [] []
  | mark {P : List SItem} {x : SItem} {t : List Wc} : Written its st P t → (∀ c, x ≠ .chr c) → Written its st (P ++ [x]) t
  | letter {P : List SItem} {c : Wc} {t : List Wc} : Written its st P t → (c = 0x2D → ∀ A body, ¬ Replaced its P A body) →
      Written its st (P ++ [.chr c]) (t ++ [shown st (content P).length c])
  | name {P A : List SItem} {body t : List Wc} : Written its st A t → Replaced its P A body →
      Written its st (P ++ [.chr 0x2D]) (t ++ capital body ++ [shown st (content P).length 0x2D])

/-- The base form: the last word is in its base form, unless a hyphen after it shows that the word goes on. -/
def BaseForm (its : List SItem) (st b : List Wc) : Prop :=
  (∃ A body M t, LastBase its A body M ∧ hyphens (content M) ≤ hyphens body ∧ Written its st A t ∧ b = t ++ strip body)
  ∨ ((∀ A body M, LastBase its A body M → hyphens body < hyphens (content M)) ∧ Written its st its b)

/-- Only the sections that are used in the dictionary: `[Xp]`, `[Xj]` and `[Xs]` (and `[Xr]`, which are patterns). -/
def KnownSections (its : List SItem) : Prop := ∀ c b, .sect c b ∈ its → c = 0x70 ∨ c = 0x6A ∨ c = 0x73

/-- The first class is that of a numeral; `R` is after it, and long enough for a word. -/
def FirstNumeral (its Q R : List SItem) : Prop :=
  its = Q ++ .cls 0x75 :: R ∧ (∀ y ∈ Q, ¬ IsClass y) ∧ 7 ≤ (render (.cls 0x75 :: R)).length

/-- The class of a noun or an adjective. -/
def Nominal (x : SItem) : Prop := x = .cls 0x6E ∨ x = .cls 0x6C ∨ x = .cls2 0x6E 0x6C

/-- What begins with a numeral goes on as a noun or an adjective ("kolmivuotias"). -/
def GoesOn (R : List SItem) : Prop := ∃ A x B, R = A ++ x :: B ∧ Nominal x ∧ 7 ≤ (render (x :: B)).length

/-- The base form of a numeral: each part of the compound is given by its base form. The characters of a part count before its base form
(`on`), and after it only hyphens. -/
def numeralText : Bool → List SItem → List Wc
  | _, [] => []
  | on, .chr c :: r => if on ∨ c = 0x2D then c :: numeralText on r else numeralText on r
  | on, .sect c body :: r => if c = 0x70 ∨ c = 0x6A then body ++ numeralText false r else numeralText on r
  | on, .bound c :: r => numeralText (on || c = 0x63) r
  | on, _ :: r => numeralText on r

/-- The characters at the beginning, and the rest. -/
def leading : List SItem → List Wc
  | .chr c :: r => c :: leading r
  | _ => []

def after : List SItem → List SItem
  | .chr _ :: r => after r
  | l => l

/-- A digit or a hyphen comes first. -/
def digitFirst : List SItem → Bool
  | .chr c :: _ => isDigit c || c == 0x2D
  | _ => false

/-- The base form of a numeral. A numeral that begins with a digit or a hyphen keeps the characters that it begins with. -/
def numeralBase (R : List SItem) : List Wc :=
  if digitFirst R then leading R ++ numeralText false (after R) else numeralText true R

/-- The parts of a numeral are long enough, and there are only base forms and patterns in it. -/
def PlainNumeral (R : List SItem) : Prop :=
  (∀ b, .sect 0x73 b ∉ R) ∧ ∀ A c B, R = A ++ .bound c :: B → 7 ≤ (render (.bound c :: B)).length

/-- Readings without unknown sections; no numerals in compound place names, and numerals are plain. -/
def Regular (its : List SItem) : Prop :=
  KnownSections its ∧ ∀ Q R, FirstNumeral its Q R → (GoesOn R → .tag (lit "De") ∉ its) ∧ (¬ GoesOn R → PlainNumeral R)

/-- `b` is the base form of a reading: that of a numeral, or else that of another word. -/
def BaseOf (its : List SItem) (st b : List Wc) : Prop :=
  (∃ Q R t, FirstNumeral its Q R ∧ ¬ GoesOn R ∧ Written its st Q t ∧ b = t ++ numeralBase R)
  ∨ ((∀ Q R, FirstNumeral its Q R → GoesOn R) ∧ b ≠ [] ∧ BaseForm its st b)

/-- A word with the capital letters of a pattern. -/
def spell : List Wc → List Wc → List Wc
  | k :: p, c :: w => (if k = 0x69 ∨ k = 0x6A then upper c else c) :: spell p w
  | _, w => w

end Verif.Baseform
