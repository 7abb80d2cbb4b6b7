import Verif.Spec.Structure
/-!
# What the grammatical attributes of a reading are

The tags of a transducer output tell them. Of several tags that tell the same attribute the last one counts, and some of them count only
if the tags after them do not rule it out.
-/

namespace Verif.Attrs
open Verif

/-- A tag: its text, and the output before it. -/
structure Mk where
  before : List Wc
  name : List Wc
  deriving DecidableEq, Repr

/-- The text of the tag that an item is. -/
def nameOf : SItem → Option (List Wc)
  | .cls c => some [0x4C, c]
  | .cls2 c d => some [0x4C, c, d]
  | .tag n => some n
  | .bound c => some [0x42, c]
  | _ => none

/-- The tags of the items that come after `pre`. -/
def tagsFrom (pre : List Wc) : List SItem → List Mk
  | [] => []
  | x :: r => ((nameOf x).map (Mk.mk pre)).toList ++ tagsFrom (pre ++ x.render) r

/-- The tags of an output. -/
def tags (its : List SItem) : List Mk := tagsFrom [] its

/-! ### The values of tags -/

def classes : List (String × String) :=
  [("n", "nimisana"), ("l", "laatusana"), ("nl", "nimisana_laatusana"), ("h", "huudahdussana"), ("ee", "etunimi"), ("es", "sukunimi"),
   ("ep", "paikannimi"), ("em", "nimi"), ("t", "teonsana"), ("a", "lyhenne"), ("s", "seikkasana"), ("u", "lukusana"), ("ur", "lukusana"),
   ("r", "asemosana"), ("c", "sidesana"), ("d", "suhdesana"), ("k", "kieltosana"), ("p", "etuliite")]

def cases : List (String × String) :=
  [("n", "nimento"), ("g", "omanto"), ("p", "osanto"), ("es", "olento"), ("tr", "tulento"), ("ine", "sisaolento"), ("ela", "sisaeronto"),
   ("ill", "sisatulento"), ("ade", "ulkoolento"), ("abl", "ulkoeronto"), ("all", "ulkotulento"), ("ab", "vajanto"), ("ko", "seuranto"),
   ("in", "keinonto"), ("sti", "kerrontosti"), ("ak", "kohdanto")]

def comparisons : List (String × String) := [("c", "comparative"), ("s", "superlative")]

def moods : List (String × String) :=
  [("n1", "A-infinitive"), ("n2", "E-infinitive"), ("n3", "MA-infinitive"), ("n4", "MINEN-infinitive"), ("n5", "MAINEN-infinitive"),
   ("t", "indicative"), ("e", "conditional"), ("k", "imperative"), ("m", "potential")]

def numbers : List (String × String) := [("y", "singular"), ("m", "plural")]

def persons : List (String × String) := [("1", "1"), ("2", "2"), ("3", "3"), ("4", "4")]

def tenses : List (String × String) := [("p", "present_simple"), ("i", "past_imperfective")]

def focuses : List (String × String) := [("kin", "kin"), ("kaan", "kaan")]

def possessives : List (String × String) := [("1y", "1s"), ("2y", "2s"), ("1m", "1p"), ("2m", "2p"), ("3", "3")]

def negatives : List (String × String) := [("t", "true"), ("f", "false"), ("b", "both")]

def participles : List (String × String) :=
  [("v", "present_active"), ("a", "present_passive"), ("u", "past_active"), ("t", "past_passive"), ("m", "agent"), ("e", "negation")]

/-- The tag has this letter and a text that stands for `v`. -/
def Says (letter : Wc) (table : List (String × String)) (m : Mk) (v : List Wc) : Prop :=
  ∃ k s, (k, s) ∈ table ∧ m.name = letter :: lit k ∧ v = lit s

/-- `v` is what the last tag says, of those that say something and that count because of the tags after them. -/
def Picks (w : List Mk) (tells : Mk → List Wc → Prop) (counts : List Mk → Prop) (v : List Wc) : Prop :=
  ∃ u m t, w = u ++ m :: t ∧ counts t ∧ tells m v ∧ ∀ u' m' t' v', t = u' ++ m' :: t' → counts t' → ¬ tells m' v'

/-! ### The class -/

/-- A boundary inside of the word (not in its first five characters of output). -/
def Border (m : Mk) : Prop := lit "Bc" <+: m.name ∧ 5 ≤ m.before.length

/-- A boundary after a hyphen: what is before it is a prefix. -/
def PrefixBorder (m : Mk) : Prop := Border m ∧ (lit "-" <:+ m.before ∨ lit "-[Bh]" <:+ m.before)

/-- A tag that settles the class. -/
def ClassMk (m : Mk) : Prop := m.name.head? = some 0x4C ∨ PrefixBorder m

/-- A word that is a noun or an adjective is an adjective: it is a number, or is compared, or an adverb is made of it. -/
def Adjective (out : List Wc) (t : List Mk) : Prop :=
  lit "[Lu]" <+: out ∨ ∃ x ∈ t, lit "Ssti" <+: x.name ∨ x.name = lit "Cc" ∨ x.name = lit "Cs"

/-- The class that the tag `m` stands for; `t` are the tags after it. -/
def ClassSays (out : List Wc) (m : Mk) (t : List Mk) (v : List Wc) : Prop :=
  (lit "Lnl" <+: m.name ∧ Adjective out t ∧ v = lit "laatusana") ∨
  (lit "Lnl" <+: m.name ∧ ¬ Adjective out t ∧ v = lit "nimisana_laatusana") ∨
  (¬ lit "Lnl" <+: m.name ∧ Says 0x4C classes m v) ∨
  (PrefixBorder m ∧ v = lit "etuliite")

/-- The class according to the last tag that settles it. -/
def ClassIs (out : List Wc) (w : List Mk) (v : List Wc) : Prop :=
  ∃ u m t, w = u ++ m :: t ∧ ClassMk m ∧ (∀ x ∈ t, ¬ ClassMk x) ∧ ClassSays out m t v

/-- The words described by these tags are inflected: no prefix and no adverb. -/
def Inflected (out : List Wc) (t : List Mk) : Prop := ∀ c, ClassIs out t c → c ≠ lit "etuliite" ∧ c ≠ lit "seikkasana"

/-- The class is not known. -/
def NoClass (out : List Wc) (t : List Mk) : Prop := ∀ c, ¬ ClassIs out t c

/-- The last part of the word may be a participle. -/
def MayBeParticiple (out : List Wc) (t : List Mk) : Prop :=
  (∀ m ∈ t, ¬ Border m) ∧ ∀ c, ClassIs out t c → c = lit "laatusana" ∨ lit "[Ln]" <:+ out

/-- The infinitives that are nouns. -/
def NounInfinitive (v : List Wc) : Prop := v = lit "E-infinitive" ∨ v = lit "MINEN-infinitive" ∨ v = lit "MA-infinitive"

/-- The mood. -/
def MoodIs (out : List Wc) (w : List Mk) (v : List Wc) : Prop := Picks w (Says 0x54 moods) (NoClass out) v

/-- A verb that another verb can follow. -/
def VerbForm (out : List Wc) (t : List Mk) : Prop :=
  (∀ c, ClassIs out t c → c = lit "teonsana") ∧ ∀ v, MoodIs out t v → ¬ NounInfinitive v

/-- What the tag says of the verb that has to follow. -/
def VerbSays (m : Mk) (v : List Wc) : Prop :=
  (lit "Ira" <+: m.name ∧ v = lit "A-infinitive") ∨ (lit "Irm" <+: m.name ∧ v = lit "MA-infinitive")

/-- The attributes as the tags tell them. -/
def Told (out : List Wc) (w : List Mk) : AKey → List Wc → Prop
  | .cls, v => ClassIs out w v
  | .comparison, v => Picks w (Says 0x43 comparisons) (NoClass out) v
  | .focus, v => Picks w (Says 0x46 focuses) (fun _ => True) v
  | .kysymysliite, v => (∃ m ∈ w, lit "Fko" <+: m.name) ∧ v = lit "true"
  | .vapaaJalkiosa, v => (∃ m ∈ w, lit "Ivj" <+: m.name) ∧ out.head? ≠ some 0x2D ∧ v = lit "true"
  | .mood, v => MoodIs out w v
  | .negative, v => Picks w (Says 0x45 negatives) (fun _ => True) v
  | .number, v => Picks w (Says 0x4E numbers) (Inflected out) v
  | .participle, v => Picks w (Says 0x52 participles) (MayBeParticiple out) v
  | .person, v => Picks w (Says 0x50 persons) (fun _ => True) v
  | .possessive, v => Picks w (Says 0x4F possessives) (fun _ => True) v
  | .geographical, v =>
    (∃ u m t, w = u ++ m :: t ∧ lit "Ica" <+: m.name ∧ (∀ x ∈ t, x.name ≠ lit "Bc" ∧ x.name ≠ lit "Ll")
      ∧ ∀ c, ClassIs out t c → lit "nimisana" <+: c) ∧ v = lit "true"
  | .requireVerb, v => Picks w VerbSays (VerbForm out) v
  | .sijamuoto, v => Picks w (Says 0x53 cases) (Inflected out) v
  | .tense, v => Picks w (Says 0x41 tenses) (fun _ => True) v
  | _, _ => False

/-- The class in the end: every past passive participle is an adjective. -/
def FinalClass (out : List Wc) (w : List Mk) (v : List Wc) : Prop :=
  (Told out w .participle (lit "past_passive") ∧ v = lit "laatusana") ∨ (¬ Told out w .participle (lit "past_passive") ∧ ClassIs out w v)

/-- The attributes that the user gets. -/
def Attribute (its : List SItem) : AKey → List Wc → Prop
  | .cls, v => FinalClass (render its) (tags its) v
  | .negative, v => Told (render its) (tags its) .negative v ∧ (∀ c, ClassIs (render its) (tags its) c → c = lit "teonsana")
      ∧ ∀ x, MoodIs (render its) (tags its) x → ¬ NounInfinitive x
  | .number, v => Told (render its) (tags its) .number v ∧ ¬ Told (render its) (tags its) .sijamuoto (lit "kerrontosti")
  | .comparison, v =>
      (Told (render its) (tags its) .comparison v ∧ ¬ FinalClass (render its) (tags its) (lit "nimisana")) ∨
      ((∀ x, ¬ Told (render its) (tags its) .comparison x) ∧ v = lit "positive" ∧
        (FinalClass (render its) (tags its) (lit "laatusana") ∨ FinalClass (render its) (tags its) (lit "nimisana_laatusana")))
  | k, v => Told (render its) (tags its) k v

/-- The grammatical attributes. -/
def grammatical : List AKey :=
  [.cls, .comparison, .focus, .kysymysliite, .vapaaJalkiosa, .mood, .negative, .number, .participle, .person, .possessive, .geographical,
   .requireVerb, .sijamuoto, .tense]

/-- The reading is also offered as the name of an organisation: the last part of a compound noun is marked for that. -/
def Organisation (its : List SItem) : Prop :=
  FinalClass (render its) (tags its) (lit "nimisana") ∧ 13 ≤ (render its).length ∧ (render its).head? ≠ some 0x2D
  ∧ ¬ lit "[La]" <+: render its
  ∧ ∃ u m t, tags its = u ++ m :: t ∧ m.name = lit "Ion" ∧ 8 ≤ m.before.length ∧ (∀ x ∈ t, x.name ≠ lit "Bc")
    ∧ ∃ x ∈ u, x.name = lit "Bc" ∧ 4 ≤ x.before.length

/-- No brackets in the texts of tags and among the characters of the word. -/
def TidyItem : SItem → Prop
  | .cls c => c ≠ 0x5B ∧ c ≠ 0x5D
  | .cls2 c d => c ≠ 0x5B ∧ c ≠ 0x5D ∧ d ≠ 0x5B ∧ d ≠ 0x5D
  | .tag n => n ≠ [] ∧ 0x5B ∉ n ∧ 0x5D ∉ n
  | .bound c => c ≠ 0x5B ∧ c ≠ 0x5D
  | .sect c b => c ≠ 0x5B ∧ 0x5B ∉ b
  | .pat p => 0x5B ∉ p
  | .chr c => c ≠ 0x5B ∧ c ≠ 0x5D

def Tidy (its : List SItem) : Prop := ∀ x ∈ its, TidyItem x

/-- The names by which the user asks for the attributes. -/
def attributeName : AKey → List Wc
  | .cls => lit "CLASS"
  | .comparison => lit "COMPARISON"
  | .focus => lit "FOCUS"
  | .kysymysliite => lit "KYSYMYSLIITE"
  | .vapaaJalkiosa => lit "MALAGA_VAPAA_JALKIOSA"
  | .mood => lit "MOOD"
  | .negative => lit "NEGATIVE"
  | .number => lit "NUMBER"
  | .participle => lit "PARTICIPLE"
  | .person => lit "PERSON"
  | .possessive => lit "POSSESSIVE"
  | .geographical => lit "POSSIBLE_GEOGRAPHICAL_NAME"
  | .requireVerb => lit "REQUIRE_FOLLOWING_VERB"
  | .sijamuoto => lit "SIJAMUOTO"
  | .tense => lit "TENSE"
  | _ => []

/-- The analysis has exactly the attributes of the reading. -/
def Reads (its : List SItem) (a : Ana) : Prop :=
  ∀ k ∈ grammatical, ∀ v, analysisValue a (attributeName k) = some v ↔ Attribute its k v

/-- The analysis as the name of an organisation. -/
def ReadsName (its : List SItem) (a : Ana) : Prop :=
  ∀ k ∈ grammatical, ∀ v, analysisValue a (attributeName k) = some v ↔ (k = .cls ∧ v = lit "nimi") ∨ (k ≠ .cls ∧ k ≠ .geographical ∧ Attribute its k v)

/-- The analyses that come of one output. -/
def FromOutput (its : List SItem) (l : List Ana) : Prop :=
  ∃ a, Reads its a ∧ ((¬ Organisation its ∧ l = [a]) ∨ (Organisation its ∧ ∃ b, ReadsName its b ∧ l = [a, b]))

end Verif.Attrs
