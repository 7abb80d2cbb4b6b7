import Mathlib.Data.List.Forall2
import Verif.Model.ApiHeap
import Verif.Props.Utf8

/-!
# Results of the C API as values

What a caller expects without thinking of memory: every call answers with a value, the value stays
what it is until it is released, and releasing one leaves the others alone.
-/

namespace Verif.ApiHeap

open Verif.Props

/-- A grammar error as a value. -/
structure Err where
  info : ErrInfo
  suggestions : Option (List (List Nat))
  deriving DecidableEq, Repr

/-- A result as a value. -/
inductive Value
  | nothing
  | text (s : List Nat)
  | texts (ss : List (List Nat))
  | error (e : Err)
  | oldError (e : Err)
  deriving DecidableEq, Repr

instance validCpDecidable (c : Nat) : Decidable (ValidCp c) := by unfold ValidCp; infer_instance

/-- The texts in UTF-8, without those that have no encoding. -/
def encoded (ss : List (List Nat)) : List (List Nat) :=
  (ss.filter (fun s => decide (∀ c ∈ s, ValidCp c))).map encodeStr

/-- Suggestions as the functions for UTF-8 give them: none at all is a null pointer. -/
def encodedValue : Option (List (List Nat)) → Value
  | none => .nothing
  | some ss => if encoded ss = [] then .nothing else .texts (encoded ss)

def foundValue : Option (List (List Nat)) → Value
  | none => .nothing
  | some ss => .texts ss

def textValue : Option (List Nat) → Value
  | none => .nothing
  | some s => .text s

def errorValue : Option Err → Value
  | none => .nothing
  | some e => if e.info.code = 0 then .nothing else .error e

/-- The old interface returns a structure, with code 0 when there is no error. -/
def oldErrorValue : Option Err → Value
  | none => .oldError ⟨⟨0, 0, 0⟩, none⟩
  | some e => if e.info.code = 0 then .oldError ⟨⟨0, 0, 0⟩, none⟩ else .oldError e

/-- The state of a session in values. -/
structure Answers where
  cache : List Err := []
  out : List (Option Value) := []
  deriving DecidableEq, Repr

/-- What a call does in values. -/
def answerTo (an : Answers) : Call → Answers
  | .suggestUcs4 found => { an with out := an.out ++ [some (foundValue found)] }
  | .suggest found => { an with out := an.out ++ [some (encodedValue found)] }
  | .suggestOld found => { an with out := an.out ++ [some (encodedValue found)] }
  | .hyphenate found => { an with out := an.out ++ [some (textValue found)] }
  | .hyphenateOld found => { an with out := an.out ++ [some (textValue found)] }
  | .paragraph errors =>
    { an with cache := errors.map (fun e => ⟨e.1, e.2⟩), out := an.out ++ [none] }
  | .nextError i => { an with out := an.out ++ [some (errorValue an.cache[i]?)] }
  | .nextErrorOld i => { an with out := an.out ++ [some (oldErrorValue an.cache[i]?)] }
  | .free k => { an with out := an.out.set k none ++ [none] }

def answers (cs : List Call) (an : Answers) : Answers := cs.foldl answerTo an

/-- C strings end at their first NUL, so what the library finds contains none. -/
def PlainText (s : List Nat) : Prop := 0 ∉ s

def PlainCall : Call → Prop
  | .suggestUcs4 found | .suggest found | .suggestOld found => ∀ ss ∈ found, ∀ s ∈ ss, PlainText s
  | .hyphenate found | .hyphenateOld found => ∀ s ∈ found, PlainText s
  | .paragraph errors => ∀ e ∈ errors, ∀ ss ∈ e.2, ∀ s ∈ ss, PlainText s
  | _ => True

/-! ### What the caller sees through the pointers -/

/-- A null terminated string in live memory. -/
def StringIn (H : Heap) (a : Nat) (s : List Nat) : Prop :=
  ∃ o pad, blockAt H a = some ⟨o, .chars (s.map some ++ some 0 :: pad)⟩ ∧ 0 ∉ s

/-- A null terminated array of such strings. -/
def ArrayIn (H : Heap) (p : Nat) (ss : List (List Nat)) : Prop :=
  ∃ o as pad, blockAt H p = some ⟨o, .ptrs (as.map (fun a => some (some a)) ++ some none :: pad)⟩ ∧
    List.Forall₂ (StringIn H) as ss

/-- The suggestions of an error: a null pointer or an array. -/
def SuggestionsIn (H : Heap) : Option Nat → Option (List (List Nat)) → Prop
  | none, none => True
  | some p, some ss => ArrayIn H p ss
  | _, _ => False

/-- The value a result has for the caller. -/
def Shows (H : Heap) : Res → Value → Prop
  | .string _ none, .nothing => True
  | .string _ (some a), .text s => StringIn H a s
  | .array _ none, .nothing => True
  | .array _ (some p), .texts ss => ArrayIn H p ss
  | .error none, .nothing => True
  | .error (some p), .error e =>
    ∃ o s, blockAt H p = some ⟨o, .error e.info s⟩ ∧ SuggestionsIn H s e.suggestions
  | .oldError info s, .oldError e => info = e.info ∧ SuggestionsIn H s e.suggestions
  | _, _ => False

/-- Results that are still held show their values; released ones have none. -/
def ShowsOpt (H : Heap) : Option Res → Option Value → Prop
  | none, none => True
  | some r, some v => Shows H r v
  | _, _ => False

/-! ### How much memory values take -/

def suggestionBlocks : Option (List (List Nat)) → Nat
  | none => 0
  | some ss => ss.length + 1

def blocksOf : Option Value → Nat
  | none => 0
  | some .nothing => 0
  | some (.text _) => 1
  | some (.texts ss) => ss.length + 1
  | some (.error e) => 1 + suggestionBlocks e.suggestions
  | some (.oldError e) => suggestionBlocks e.suggestions

/-- The number of blocks in use. -/
def liveBlocks (H : Heap) : Nat := (H.filter Option.isSome).length

def blocksExpected (an : Answers) : Nat :=
  (an.cache.map (fun e => 1 + suggestionBlocks e.suggestions)).sum + (an.out.map blocksOf).sum

end Verif.ApiHeap
