import Verif.Model.Tokenizer
import Verif.Model.Utf8
/-!
# `tokenizer/interface.cpp`: tokenizer for UTF-8 text
-/

namespace Verif

/-- `wcslen` / the NUL-terminated view of a buffer. -/
def cstr (s : List Wc) : List Wc := s.takeWhile (· != 0)

/-- `interface.cpp:42-52`, `doVoikkoNextTokenCstr`; `tokenlen` is the old value of `*tokenlen`, which is kept if
the conversion fails. -/
def doNextTokenCstr (bytes : List Nat) (ignoreDot : Bool) (tokenlen maxChars : Nat) : UB (TokenType × Nat) := do
  match ← ucs4FromUtf8Max bytes maxChars with
  | none => return (.none, tokenlen)
  | some text => nextToken (cstr text) ignoreDot

/-- `interface.cpp:63-69`: the loop, at most `fuel` iterations (running out of fuel is the undefined outcome). -/
def nextTokenCstrLoop (bytes : List Nat) (ignoreDot : Bool) : Nat → Nat → Nat → UB (TokenType × Nat)
  | 0, _, _ => ub
  | fuel + 1, tokenlen, maxChars => do
    let (type, len) ← doNextTokenCstr bytes ignoreDot tokenlen maxChars
    if type = .none ∨ len + 5 < maxChars then return (type, len)
    else nextTokenCstrLoop bytes ignoreDot fuel len (maxChars * 2)

/-- `interface.cpp:54-71`, `voikkoNextTokenCstr` (for `text != 0`). -/
def nextTokenCstr (bytes : List Nat) (ignoreDot : Bool) : UB (TokenType × Nat) :=
  nextTokenCstrLoop bytes ignoreDot (bytes.length + 7) 0 50

end Verif
