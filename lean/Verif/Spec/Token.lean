import Verif.Model.Char
import Verif.Model.Tokenizer
/-!
# What a token is

Positions of a text are described by the characters around them; the scanning loops of the model are not used here. Only the
character classes (`getCharType`) and the names of the token types are.
-/

namespace Verif.Tokens
open Verif

/-- The text has at position `i` a character with a property. -/
def At (text : List Wc) (i : Nat) (P : Wc → Prop) : Prop := ∃ c, text[i]? = some c ∧ P c

def Letter (c : Wc) : Prop := getCharType c = .letter
def Digit (c : Wc) : Prop := getCharType c = .digit
def Space (c : Wc) : Prop := getCharType c = .whitespace
def Unknown (c : Wc) : Prop := getCharType c = .unknown

/-- Apostrophe, right single quotation mark, colon. -/
def apostrophes : List Wc := [0x27, 0x2019, 0x3A]

/-- Hyphen-minus, soft hyphen, hyphen, non-breaking hyphen. -/
def hyphens : List Wc := [0x2D, 0xAD, 0x2010, 0x2011]

/-- The character at `i` is inside a word: letters and digits; an apostrophe before a letter; a hyphen before a letter or a digit; a
dot before a letter, or before a digit if there was no letter in the word; a comma between digits. -/
def Inner (text : List Wc) (i : Nat) : Prop :=
  At text i fun c => Letter c ∨ Digit c ∨
    (c ∈ apostrophes ∧ At text (i + 1) Letter) ∨
    (c ∈ hyphens ∧ At text (i + 1) fun d => Letter d ∨ Digit d) ∨
    (c = 0x2E ∧ At text (i + 1) fun d => Letter d ∨ Digit d ∧ ∀ j < i, ¬ At text j Letter) ∨
    (c = 0x2C ∧ 0 < i ∧ At text (i - 1) Digit ∧ At text (i + 1) Digit)

/-- The character at `i`, which is not inside a word, still belongs to the word before it: a hyphen at the end of the text or
before a space, a comma, a quotation mark (or NUL) or a character of unknown class; with IGNORE_DOT a dot. -/
def Closing (text : List Wc) (dot : Bool) (i : Nat) : Prop :=
  At text i fun c =>
    (c ∈ hyphens ∧ (i + 1 = text.length ∨ At text (i + 1) fun d => d ∈ [0x2C, 0x22, 0xBB, 0x201D, 0] ∨ Space d ∨ Unknown d)) ∨
    (c = 0x2E ∧ dot = true)

/-- `m` is the first position with a property. -/
def FirstAt (P : Nat → Prop) (m : Nat) : Prop := P m ∧ ∀ i < m, ¬ P i

/-- The length of an ordinary word at the start of the text. -/
def PlainWord (text : List Wc) (dot : Bool) (n : Nat) : Prop :=
  ∃ m, FirstAt (fun i => ¬ Inner text i) m ∧ (Closing text dot m ∧ n = m + 1 ∨ ¬ Closing text dot m ∧ n = m)

/-- The dot at `i` ends an address: it is at the end of the text or before a space. -/
def LastDot (text : List Wc) (i : Nat) : Prop :=
  At text i (· = 0x2E) ∧ (i + 1 = text.length ∨ At text (i + 1) Space)

/-- The text begins with `http://` or `https://` and is long enough for a real address. -/
def StartsUrl (text : List Wc) : Prop :=
  12 ≤ text.length ∧ ("http://".toList.map Char.toNat <+: text ∨ "https://".toList.map Char.toNat <+: text)

/-- Where the address of a web page ends: at a space, a character of unknown class other than `=`, `#`, `%`, or a last dot. -/
def UrlEnd (text : List Wc) (i : Nat) : Prop :=
  (if text[4]? = some 0x73 then 8 else 7) ≤ i ∧
    (i = text.length ∨ At text i (fun c => Space c ∨ Unknown c ∧ c ∉ "=#%".toList.map Char.toNat) ∨ LastDot text i)

/-- There is an `@` before position `i`. -/
def AtSignBefore (text : List Wc) (i : Nat) : Prop := ∃ j < i, At text j (· = 0x40)

/-- Where an e-mail address ends: at a space, a character that cannot be in an address, or a last dot after the `@`. (NUL counts as
one of the punctuation characters.) -/
def MailEnd (text : List Wc) (i : Nat) : Prop :=
  i = text.length ∨
    At text i (fun c => Space c ∨ (Unknown c ∧ c ≠ 0x40 ∧ c ∉ "#$%*+=^_`|~".toList.map Char.toNat) ∨
      (getCharType c = .punctuation ∧ c ≠ 0 ∧ c ∉ "!&'-/?{}.".toList.map Char.toNat)) ∨
    (AtSignBefore text i ∧ LastDot text i)

/-- The first `n` characters are an e-mail address: it has one `@` and after it a dot. -/
def Mail (text : List Wc) (n : Nat) : Prop :=
  6 ≤ text.length ∧ FirstAt (MailEnd text) n ∧
    (∃ j < n, At text j (· = 0x40) ∧ ∀ k < n, At text k (· = 0x40) → k = j) ∧
    ∃ j < n, At text j (· = 0x2E) ∧ AtSignBefore text j

/-- The length of a word at the start of the text: a web address, an e-mail address or an ordinary word. -/
def Word (text : List Wc) (dot : Bool) (n : Nat) : Prop :=
  (StartsUrl text ∧ FirstAt (UrlEnd text) n) ∨
  (¬ StartsUrl text ∧ Mail text n) ∨
  (¬ StartsUrl text ∧ (¬ ∃ m, Mail text m) ∧ PlainWord text dot n)

/-- Hyphens that may stand before a word. (NUL counts as one of them.) -/
def leading : List Wc := [0x2D, 0x2010, 0x2011, 0]

/-- The first token of a text: its type and its length. -/
inductive Token (dot : Bool) : List Wc → TokenType → Nat → Prop
  | none : Token dot [] .none 0
  | word {c : Wc} {rest : List Wc} {n : Nat} : Letter c ∨ Digit c → Word (c :: rest) dot n → Token dot (c :: rest) .word n
  | hyphenWord {c : Wc} {rest : List Wc} {n : Nat} : c ∈ leading → Word rest dot n → 0 < n → Token dot (c :: rest) .word (n + 1)
  | hyphen {c : Wc} {rest : List Wc} : c ∈ leading → Word rest dot 0 → Token dot (c :: rest) .punctuation 1
  | ellipsis {rest : List Wc} : Token dot (0x2E :: 0x2E :: 0x2E :: rest) .punctuation 3
  | punctuation {c : Wc} {rest : List Wc} : getCharType c = .punctuation → c ∉ leading →
      ¬ (∃ r, c :: rest = 0x2E :: 0x2E :: 0x2E :: r) → Token dot (c :: rest) .punctuation 1
  | space {text : List Wc} {n : Nat} : 0 < n → (∀ i < n, At text i Space) → ¬ At text n Space → Token dot text .whitespace n
  | unknown {c : Wc} {rest : List Wc} : Unknown c → Token dot (c :: rest) .unknown 1

end Verif.Tokens
