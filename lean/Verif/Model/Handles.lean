import Verif.Model.LanguageTag
/-!
# `compatibility/interface.cpp`: integer handles

The objects made by `voikkoInit` are elements of a type `H`; what `voikkoInit` gives is an input.
-/

namespace Verif

/-- `compatibility/interface.cpp:54-59`, loop of `convertVariantToBCP47`: `i` characters of the variant have been copied. -/
def convertLoop (buf : List Nat) (pos i : Nat) : List Nat → UB (List Nat × Nat)
  | [] => some (buf, pos)
  | c :: rest =>
    if i % 8 = 0 then do
      let buf ← wr buf pos 45
      let buf ← wr buf (pos + 1) c
      convertLoop buf (pos + 2) (i + 1) rest
    else do
      let buf ← wr buf pos c
      convertLoop buf (pos + 1) (i + 1) rest

/-- `compatibility/interface.cpp:49-62`, `convertVariantToBCP47`; `junk` is the content of the new array. The result is the whole
array; the string ends at its first NUL. -/
def convertVariantToBCP47 (junk variant : List Nat) : UB (List Nat) := do
  let buf ← wr junk 0 102
  let buf ← wr buf 1 105
  let buf ← wr buf 2 45
  let buf ← wr buf 3 120
  let buf ← wr buf 4 0
  let r ← convertLoop buf 4 0 variant
  wr r.1 r.2 0

/-- `compatibility/interface.cpp:44`, `handles`: null or an array of five pointers. -/
abbrev HandleTable (H : Type) := Option (List (Option H))

/-- `compatibility/interface.cpp:68-81`, `findFreeSlotForHandle`: the table afterwards and the slot (none for -1). -/
def findFreeSlotForHandle {H : Type} (t : HandleTable H) : UB (List (Option H) × Option Nat) := do
  let a := match t with
    | none => List.replicate 5 none
    | some a => a
  let s1 ← rd a 1
  let s2 ← rd a 2
  let s3 ← rd a 3
  let s4 ← rd a 4
  some (a, if s1.isNone then some 1 else if s2.isNone then some 2 else if s3.isNone then some 3
    else if s4.isNone then some 4 else none)

/-- `compatibility/interface.cpp:86-94`, `freeHandlesIfPossible`. -/
def freeHandlesIfPossible {H : Type} (a : List (Option H)) : UB (HandleTable H) := do
  let s1 ← rd a 1
  let s2 ← rd a 2
  let s3 ← rd a 3
  let s4 ← rd a 4
  some (if s1.isSome || s2.isSome || s3.isSome || s4.isSome then some a else none)

/-- What `voikko_init` returns. -/
inductive InitResult where
  /-- Success, `*handle` is set. -/
  | ok (handle : Nat)
  /-- "Maximum handle count exceeded" -/
  | full
  /-- "Null language code is not allowed" -/
  | nullLanguage
  /-- The error of `voikkoInit`, `*handle` is set to 0. -/
  | error
  deriving DecidableEq, Repr

/-- `compatibility/interface.cpp:96-124`, `voikko_init_with_path` (and 126-128, `voikko_init`). `make` is the result of
`voikkoInit` for a language (a NUL-terminated string), `junk` the content of a new array of the given size. -/
def legacyInit {H : Type} (junk : Nat → List Nat) (make : List Nat → Option H) (t : HandleTable H) (langcode : Option (List Nat)) :
    UB (HandleTable H × InitResult) := do
  let (a, slot) ← findFreeSlotForHandle t
  match slot with
  | none => some (some a, .full)
  | some i =>
    match langcode with
    | none => some (some a, .nullLanguage)
    | some code =>
      let language ← (if code = [] ∨ code = lit "default" ∨ code = lit "fi_FI" then some (lit "fi" ++ [0])
        else convertVariantToBCP47 (junk (2 * code.length + 5)) code : UB (List Nat))
      let h := make (language.takeWhile (· ≠ 0))
      let a ← wr a i h
      match h with
      | some _ => some (some a, .ok i)
      | none => some (some a, .error)

/-- `compatibility/interface.cpp:130-139`, `voikko_terminate`: the table afterwards, the object given to `voikkoTerminate` and the
returned value. -/
def legacyTerminate {H : Type} (t : HandleTable H) (handle : Int) : UB (HandleTable H × Option H × Nat) :=
  if 1 ≤ handle ∧ handle < 5 then do
    let a ← t
    let h ← rd a handle.toNat
    match h with
    | some x =>
      let a ← wr a handle.toNat none
      let t ← freeHandlesIfPossible a
      some (t, some x, 1)
    | none => some (some a, none, 0)
  else some (t, none, 0)

end Verif
