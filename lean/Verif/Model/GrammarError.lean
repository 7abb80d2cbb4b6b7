import Verif.Model.SpellUtils
/-!
# `grammar/error.cpp`: descriptions of grammar errors

Strings are lists of bytes without the terminator. Error codes are those of `grammar/error.hpp:35-52`.
-/

namespace Verif

/-- A string literal of `error.cpp`, in which `ä` is written as `\xc3\xa4`. -/
def escaped (s : String) : List Nat := (lit s).flatMap fun c => if c < 0x80 then [c] else [0xC3, c - 0x40]

/-- `error.cpp:40-78`: the Finnish descriptions. -/
def messageFi : Int → List Nat
  | 1 => escaped "Virheellinen kirjoitusasu"
  | 2 => escaped "Poista ylimääräinen väli."
  | 3 => escaped "Ylimääräinen väli välimerkin edessä"
  | 4 => escaped "Poista ylimääräinen pilkku."
  | 5 => escaped "Virheellinen virkkeen aloittava merkki"
  | 6 => escaped "Harkitse sanan kirjoittamista pienellä alkukirjaimella."
  | 7 => escaped "Sana on kirjoitettava isolla alkukirjaimella."
  | 8 => escaped "Sana on kirjoitettu kahteen kertaan."
  | 9 => escaped "Välimerkki puuttuu virkkeen lopusta."
  | 10 => escaped "Virheelliset välimerkit lainauksen lopussa"
  | 11 => escaped "Suomenkieliseen tekstiin sopimaton lainausmerkki"
  | 12 => escaped "Väärin sijoitettu sulkumerkki"
  | 13 => escaped "Kieltoverbi ja pääverbi eivät sovi yhteen."
  | 14 => escaped "Jälkimmäisen verbin tulisi olla a/ä-päätteisessä infinitiivissä."
  | 15 => escaped "Jälkimmäisen verbin tulisi olla maan/mään-päätteisessä infinitiivissä."
  | 16 => escaped "Sidesana (ja, tai, mutta, ...) ei voi olla virkkeen viimeinen sana."
  | 17 => escaped "Tarkista, puuttuuko virkkeestä pääverbi tai -verbejä."
  | 18 => escaped "Virkkeestä saattaa puuttua pilkku, tai siinä voi olla ylimääräinen verbi."
  | _ => escaped "Tuntematon virhe"

/-- `error.cpp:81-119`: the other descriptions. -/
def messageEn : Int → List Nat
  | 1 => escaped "Incorrect spelling of word(s)"
  | 2 => escaped "Remove extra space."
  | 3 => escaped "Remove space before punctuation."
  | 4 => escaped "Remove extra comma."
  | 5 => escaped "Invalid character at the start of a sentence"
  | 6 => escaped "Consider changing first letter to lower case."
  | 7 => escaped "Change first letter to upper case."
  | 8 => escaped "Remove duplicate word."
  | 9 => escaped "Terminating punctuation is missing."
  | 10 => escaped "Invalid punctuation at the end of quotation"
  | 11 => escaped "Foreign quotation mark"
  | 12 => escaped "Misplaced closing parenthesis"
  | 13 => escaped "Mismatched negative and verb"
  | 14 => escaped "You should use infinitive ending with a/ä as the second verb."
  | 15 => escaped "You should use infinitive ending with maan/mään as the second verb."
  | 16 => escaped "Sentence should not end with a conjunction."
  | 17 => escaped "Sentence should contain one or more main verbs."
  | 18 => escaped "Check if sentence contains unnecessary verbs or if a comma is missing."
  | _ => escaped "Unknown error"

/-- `error.cpp:37-121`, `voikko_error_message_cstr`, for a pointer to the string `language`, or a null pointer. -/
def errorMessage (code : Int) (language : Option (List Nat)) : UB (List Nat) :=
  match language with
  | none => ub
  | some l => do
    let fi ← wcsncmpEq (lit "fi") (l ++ [0]) 0
    return if fi then messageFi code else messageEn code

/-- `error.cpp:123-125`, `voikkoGetGrammarErrorShortDescription`, for an error with the code `code`; the result is a copy. -/
def shortDescription (code : Int) (language : Option (List Nat)) : UB (List Nat) := errorMessage code language

end Verif
