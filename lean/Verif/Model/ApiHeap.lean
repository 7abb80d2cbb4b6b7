import Verif.Model.Utf8

/-!
# Memory of the results of the C API

The heap as the allocation code of the library sees it: blocks obtained with `new[]`, `new` or
`malloc`, pointers between them, and the functions that make, copy, convert and release the results
of suggestions, hyphenation and grammar checking.

Simplifications:
* an address is the number of the allocation that made the block, so addresses are never reused and
  a dangling pointer is always recognised;
* a block holds either characters, or pointers to strings, or a grammar error object; the widths of
  `char` and `wchar_t` are not distinguished;
* `new` does not fail (`std::bad_alloc` is not modelled), `malloc` fails as the parameter `ok` says,
  which is asked with the number of the allocation;
* allocations whose life ends inside one call (the decoded word, candidate buffers) are left out.
-/

namespace Verif.ApiHeap

/-- How a block was obtained, which decides how it must be released. -/
inductive Origin
  | newArray
  | newObject
  | malloc
  deriving DecidableEq, Repr

/-- The plain fields of an error, `grammar/error.h` `voikko_grammar_error`. -/
structure ErrInfo where
  code : Nat
  start : Nat
  len : Nat
  deriving DecidableEq, Repr

/-- Contents of a block.  A `none` cell has not been written yet; a pointer is null (`none`) or an
address. -/
inductive Data
  | chars (l : List (Option Nat))
  | ptrs (l : List (Option (Option Nat)))
  | error (info : ErrInfo) (suggestions : Option Nat)
  deriving DecidableEq, Repr

structure Block where
  origin : Origin
  data : Data
  deriving DecidableEq, Repr

/-- The blocks allocated so far; `none` = released. -/
abbrev Heap := List (Option Block)

/-- Dereferencing an address: a released or unknown block is undefined behaviour. -/
def blockAt (H : Heap) (a : Nat) : UB Block := H[a]?.join

/-- An allocation that succeeds. -/
def store (H : Heap) (b : Block) : Heap × Nat := (H ++ [some b], H.length)

/-- `delete[] p`, `delete p` or `free(p)` of a non-null pointer: undefined if the block is not live
or was obtained in another way. -/
def release (o : Origin) (H : Heap) (a : Nat) : UB Heap := do
  let b ← blockAt H a
  if b.origin = o then some (H.set a none) else ub

/-- Releasing a pointer that may be null. -/
def releaseOpt (o : Origin) (H : Heap) : Option Nat → UB Heap
  | none => some H
  | some a => release o H a

/-- The characters up to the terminating NUL (`strlen`, `wcslen`, `strcpy` read them); running off
the block or into unwritten cells is undefined. -/
def cString : List (Option Nat) → UB (List Nat)
  | [] => ub
  | none :: _ => ub
  | some c :: r => if c = 0 then some [] else do
      let s ← cString r
      some (c :: s)

def stringAt (H : Heap) (a : Nat) : UB (List Nat) := do
  let b ← blockAt H a
  match b.data with
  | .chars l => cString l
  | _ => ub

/-- Writing a string and its NUL to the beginning of a block. -/
def putString (H : Heap) (a : Nat) (s : List Nat) : UB Heap := do
  let b ← blockAt H a
  match b.data with
  | .chars l =>
    if s.length + 1 ≤ l.length then
      some (H.set a (some { b with data := .chars (s.map some ++ some 0 :: l.drop (s.length + 1)) }))
    else ub
  | _ => ub

/-- `p[i]` for an array of pointers. -/
def ptrAt (H : Heap) (a i : Nat) : UB (Option Nat) := do
  let b ← blockAt H a
  match b.data with
  | .ptrs l => do
    let c ← rd l i
    c
  | _ => ub

/-- `p[i] = v` for an array of pointers. -/
def putPtr (H : Heap) (a i : Nat) (v : Option Nat) : UB Heap := do
  let b ← blockAt H a
  match b.data with
  | .ptrs l => do
    let l ← wr l i (some v)
    some (H.set a (some { b with data := .ptrs l }))
  | _ => ub

/-- Number of elements of an array of pointers, used as fuel. -/
def sizeAt (H : Heap) (a : Nat) : UB Nat := do
  let b ← blockAt H a
  match b.data with
  | .ptrs l => some l.length
  | _ => ub

/-- Counting the strings of a null terminated array: `StringUtils.cpp:178-180`,
`suggestions.cpp:174-177`, `grammar/interface.cpp:62-65`, `compatibility/interface.cpp:243-246`. -/
def countFrom (H : Heap) (p : Nat) : Nat → Nat → UB Nat
  | 0, _ => ub
  | f + 1, i => do
    match ← ptrAt H p i with
    | none => some i
    | some _ => countFrom H p f (i + 1)

def countAt (H : Heap) (p : Nat) : UB Nat := do
  let n ← sizeAt H p
  countFrom H p n 0

/-- The loop releasing the strings of an array up to its null: `suggestions.cpp:71-73`, `80-82`,
`compatibility/interface.cpp:197-199`, `VoikkoGrammarError.cpp:50-52`. -/
def releaseUntilNull (o : Origin) (p : Nat) : Nat → Nat → Heap → UB Heap
  | 0, _, _ => ub
  | f + 1, i, H => do
    match ← ptrAt H p i with
    | none => some H
    | some q => do
      let H ← release o H q
      releaseUntilNull o p f (i + 1) H

/-- `voikko_free_suggest_ucs4` (`suggestions.cpp:69-76`), `voikkoFreeCstrArray` (`78-85`) with
`new[]`, and `voikko_free_suggest_cstr` (`compatibility/interface.cpp:195-202`) with `malloc`. -/
def releaseArray (o : Origin) (H : Heap) : Option Nat → UB Heap
  | none => some H
  | some p => do
    let n ← sizeAt H p
    let H ← releaseUntilNull o p n 0 H
    release o H p

/-- `new char[strlen(s) + 1]` or `malloc`, then `strcpy`. -/
def copyString (o : Origin) (H : Heap) (q : Nat) : UB (Heap × Nat) := do
  let s ← stringAt H q
  let (H, d) := store H ⟨o, .chars (List.replicate (s.length + 1) none)⟩
  let t ← stringAt H q
  let H ← putString H d t
  some (H, d)

/-- `StringUtils::convertCStringToMalloc`, `StringUtils.cpp:158-171`. -/
def convertString (ok : Nat → Bool) (H : Heap) : Option Nat → UB (Heap × Option Nat)
  | none => some (H, none)
  | some p => do
    let _ ← stringAt H p
    if ok H.length then do
      let (H, d) ← copyString .malloc H p
      let H ← release .newArray H p
      some (H, some d)
    else some (H, some p)

/-- The loop copying the strings of one array to another: `StringUtils.cpp:187-195` (`checked`: the
result of `malloc` is tested), `compatibility/interface.cpp:248-251` (it is not),
`grammar/interface.cpp:67-70` (`new[]`).  The flag of the result is false when the loop was given
up. -/
def copyLoop (ok : Nat → Bool) (checked : Bool) (o : Origin) (dst src : Nat) :
    Nat → Nat → Heap → UB (Heap × Bool)
  | 0, _, H => some (H, true)
  | n + 1, i, H => do
    let q ← ptrAt H src i
    match q with
    | none => ub
    | some q => do
      let _ ← stringAt H q
      if o = .malloc ∧ ok H.length = false then do
        let H ← putPtr H dst i none
        if checked then some (H, false) else ub
      else do
        let (H, d) ← copyString o H q
        let H ← putPtr H dst i (some d)
        copyLoop ok checked o dst src n (i + 1) H

/-- Copying a null terminated array of strings: `StringUtils.cpp:178-196`,
`compatibility/interface.cpp:243-252`, `grammar/interface.cpp:62-71`.  The result is null when
memory ran out and that was noticed; what has been copied so far is not released. -/
def copyArray (ok : Nat → Bool) (checked : Bool) (o : Origin) (H : Heap) (p : Nat) :
    UB (Heap × Option Nat) := do
  let n ← countAt H p
  if o = .malloc ∧ ok H.length = false then
    if checked then some (H, none) else ub
  else do
    let (H, d) := store H ⟨o, .ptrs (List.replicate (n + 1) none)⟩
    let (H, fine) ← copyLoop ok checked o d p n 0 H
    if fine then do
      let H ← putPtr H d n none
      some (H, some d)
    else do
      let H ← release o H d
      some (H, none)

/-- `for (size_t i = 0; i < numberOfStrings; i++) delete[] stringArray[i];`,
`StringUtils.cpp:198-200`. -/
def releaseCount (p : Nat) : Nat → Nat → Heap → UB Heap
  | 0, _, H => some H
  | n + 1, i, H => do
    let q ← ptrAt H p i
    let H ← releaseOpt .newArray H q
    releaseCount p n (i + 1) H

/-- `StringUtils::convertCStringArrayToMalloc`, `StringUtils.cpp:173-204`. -/
def convertArray (ok : Nat → Bool) (H : Heap) : Option Nat → UB (Heap × Option Nat)
  | none => some (H, none)
  | some p => do
    let n ← countAt H p
    let (H, d) ← copyArray ok true .malloc H p
    match d with
    | none => some (H, some p)
    | some d => do
      let H ← releaseCount p n 0 H
      let H ← release .newArray H p
      some (H, some d)

/-- A string made by the library with `new[]`: the results of hyphenation
(`hyphenator/interface.cpp`), and the strings of suggestions (`suggestions.cpp:52-63`). -/
def makeString (H : Heap) (s : List Nat) : UB (Heap × Nat) := do
  let (H, a) := store H ⟨.newArray, .chars (List.replicate (s.length + 1) none)⟩
  let H ← putString H a s
  some (H, a)

def makeLoop (dst : Nat) : List (List Nat) → Nat → Heap → UB Heap
  | [], _, H => some H
  | s :: ss, i, H => do
    let (H, a) ← makeString H s
    let H ← putPtr H dst i (some a)
    makeLoop dst ss (i + 1) H

/-- `getSuggestions`, `suggestions.cpp:50-66`, from the chosen texts on.  The rules of the grammar
checker make the suggestions of an error in the same way. -/
def makeArray (H : Heap) (ss : List (List Nat)) : UB (Heap × Nat) := do
  let (H, a) := store H ⟨.newArray, .ptrs (List.replicate (ss.length + 1) none)⟩
  let H ← makeLoop a ss 0 H
  let H ← putPtr H a ss.length none
  some (H, a)

/-- `StringUtils::utf8FromUcs4`, `StringUtils.cpp:87-111`: a buffer of six bytes for every
character, released when a character cannot be encoded. -/
def encodeString (H : Heap) (q : Nat) : UB (Heap × Option Nat) := do
  let s ← stringAt H q
  let (H, a) := store H ⟨.newArray, .chars (List.replicate (s.length * 6 + 1) none)⟩
  match ← utf8FromUcs4 s with
  | none => do
    let H ← release .newArray H a
    some (H, none)
  | some bytes => do
    let H ← putString H a bytes
    some (H, some a)

/-- `suggestions.cpp:186-192`; the last component is `j`. -/
def encodeLoop (dst src : Nat) : Nat → Nat → Nat → Heap → UB (Heap × Nat)
  | 0, _, j, H => some (H, j)
  | n + 1, i, j, H => do
    let q ← ptrAt H src i
    match q with
    | none => ub
    | some q => do
      let (H, a) ← encodeString H q
      match a with
      | none => encodeLoop dst src n (i + 1) j H
      | some a => do
        let H ← putPtr H dst j (some a)
        encodeLoop dst src n (i + 1) (j + 1) H

/-- `for (; j <= scount; j++) suggestions[j] = 0;`, `suggestions.cpp:198-200`; the first argument
counts the remaining rounds. -/
def nullFill (dst : Nat) : Nat → Nat → Heap → UB Heap
  | 0, _, H => some H
  | n + 1, j, H => do
    let H ← putPtr H dst j none
    nullFill dst n (j + 1) H

/-- `voikkoSuggestCstr`, `suggestions.cpp:171-203`, from the array of `voikkoSuggestUcs4` on. -/
def suggestCstr (H : Heap) : Option Nat → UB (Heap × Option Nat)
  | none => some (H, none)
  | some p => do
    let n ← countAt H p
    let (H, d) := store H ⟨.newArray, .ptrs (List.replicate (n + 1) none)⟩
    let (H, j) ← encodeLoop d p n 0 0 H
    let H ← releaseArray .newArray H (some p)
    if j = 0 then do
      let H ← release .newArray H d
      some (H, none)
    else do
      let H ← nullFill d (n + 1 - j) j H
      some (H, some d)

/-- The object behind an error pointer. -/
def errorAt (H : Heap) (p : Nat) : UB (ErrInfo × Option Nat) := do
  let b ← blockAt H p
  match b.data with
  | .error info s => some (info, s)
  | _ => ub

/-- `setSuggestions`. -/
def putSuggestions (H : Heap) (p : Nat) (v : Option Nat) : UB Heap := do
  let b ← blockAt H p
  match b.data with
  | .error info _ => some (H.set p (some { b with data := .error info v }))
  | _ => ub

/-- `delete error`: `voikkoFreeGrammarError` (`grammar/interface.cpp`) and, for the entries of the
cache, `GcCache.cpp:43-47`; the destructor is `VoikkoGrammarError.cpp:48-55`. -/
def deleteError (H : Heap) : Option Nat → UB Heap
  | none => some H
  | some p => do
    let (_, s) ← errorAt H p
    let H ← releaseArray .newArray H s
    release .newObject H p

/-- An error found by a rule: a new `CacheEntry` with its suggestions. -/
def makeError (H : Heap) (info : ErrInfo) (ss : Option (List (List Nat))) : UB (Heap × Nat) := do
  let (H, p) := store H ⟨.newObject, .error info none⟩
  match ss with
  | none => some (H, p)
  | some ss => do
    let (H, a) ← makeArray H ss
    let H ← putSuggestions H p (some a)
    some (H, p)

/-- `voikkoNextGrammarErrorUcs4`, `grammar/interface.cpp:52-73`, from the error found in the cache
(or none) on: the object is copied first with its pointer to the suggestions
(`VoikkoGrammarError.cpp:41-46`), then the pointer is replaced. -/
def copyError (ok : Nat → Bool) (H : Heap) : Option Nat → UB (Heap × Option Nat)
  | none => some (H, none)
  | some c => do
    let (info, s) ← errorAt H c
    if info.code = 0 then some (H, none)
    else do
      let (H, e) := store H ⟨.newObject, .error info s⟩
      match s with
      | none => some (H, some e)
      | some s => do
        let (H, d) ← copyArray ok true .newArray H s
        let H ← putSuggestions H e d
        some (H, some e)

/-- `voikko_next_grammar_error_ucs4`, `compatibility/interface.cpp:228-263`: the fields and the
pointer to the suggestions of the structure returned. -/
def oldError (ok : Nat → Bool) (H : Heap) (c : Option Nat) : UB (Heap × ErrInfo × Option Nat) := do
  let (H, e) ← copyError ok H c
  match e with
  | none => some (H, ⟨0, 0, 0⟩, none)
  | some e => do
    let (info, s) ← errorAt H e
    match s with
    | none => do
      let H ← deleteError H (some e)
      some (H, info, none)
    | some s => do
      let (H, d) ← copyArray ok false .malloc H s
      let H ← deleteError H (some e)
      some (H, info, d)

/-! ### A session with the library -/

/-- What the caller holds. -/
inductive Res
  /-- a string to be released with `voikkoFreeCstr` (`newArray`) or `voikko_free_hyphenate`
  (`malloc`) -/
  | string (o : Origin) (p : Option Nat)
  /-- an array for `voikkoFreeCstrArray`, `voikko_free_suggest_ucs4` or `voikko_free_suggest_cstr` -/
  | array (o : Origin) (p : Option Nat)
  /-- an error for `voikkoFreeGrammarError` -/
  | error (p : Option Nat)
  /-- the structure of the old interface, whose suggestions go to `voikko_free_suggest_cstr` -/
  | oldError (info : ErrInfo) (suggestions : Option Nat)
  deriving DecidableEq, Repr

/-- Calls of the interface.  What the library finds is part of the call. -/
inductive Call
  /-- `voikkoSuggestUcs4`, `voikko_suggest_ucs4` -/
  | suggestUcs4 (found : Option (List (List Nat)))
  /-- `voikkoSuggestCstr` -/
  | suggest (found : Option (List (List Nat)))
  /-- `voikko_suggest_cstr` -/
  | suggestOld (found : Option (List (List Nat)))
  /-- `voikkoHyphenateUcs4`, `voikkoHyphenateCstr`, `voikkoInsertHyphensCstr` -/
  | hyphenate (found : Option (List Nat))
  /-- `voikko_hyphenate_ucs4`, `voikko_hyphenate_cstr` -/
  | hyphenateOld (found : Option (List Nat))
  /-- a paragraph is checked: the cache is cleared and filled again -/
  | paragraph (errors : List (ErrInfo × Option (List (List Nat))))
  /-- `voikkoNextGrammarErrorUcs4` answering with the given entry of the cache -/
  | nextError (i : Nat)
  /-- `voikko_next_grammar_error_ucs4` -/
  | nextErrorOld (i : Nat)
  /-- the caller releases the result of the given call with the function meant for it -/
  | free (k : Nat)
  deriving DecidableEq, Repr

structure Session where
  heap : Heap := []
  /-- the errors of the cache -/
  cache : List Nat := []
  /-- the results handed out, in the order of the calls; `none` = released -/
  out : List (Option Res) := []
  deriving DecidableEq, Repr

/-- The array of `voikkoSuggestUcs4`, or null. -/
def makeFound (H : Heap) : Option (List (List Nat)) → UB (Heap × Option Nat)
  | none => some (H, none)
  | some ss => do
    let (H, a) ← makeArray H ss
    some (H, some a)

/-- A hyphenation, or null. -/
def makeText (H : Heap) : Option (List Nat) → UB (Heap × Option Nat)
  | none => some (H, none)
  | some s => do
    let (H, a) ← makeString H s
    some (H, some a)

/-- `GcCache::clear`, `GcCache.cpp:39-49` (without the text of the paragraph). -/
def clearCache : List Nat → Heap → UB Heap
  | [], H => some H
  | e :: es, H => do
    let H ← deleteError H (some e)
    clearCache es H

def fillCache : List (ErrInfo × Option (List (List Nat))) → Heap → UB (Heap × List Nat)
  | [], H => some (H, [])
  | (info, ss) :: es, H => do
    let (H, p) ← makeError H info ss
    let (H, ps) ← fillCache es H
    some (H, p :: ps)

/-- Releasing a result with the function meant for it. -/
def freeRes (H : Heap) : Res → UB Heap
  | .string o p => releaseOpt o H p
  | .array o p => releaseArray o H p
  | .error p => deleteError H p
  | .oldError _ s => releaseArray .malloc H s

/-- One call. -/
def step (ok : Nat → Bool) (st : Session) : Call → UB Session
  | .suggestUcs4 found => do
    let (H, p) ← makeFound st.heap found
    some { st with heap := H, out := st.out ++ [some (.array .newArray p)] }
  | .suggest found => do
    let (H, p) ← makeFound st.heap found
    let (H, d) ← suggestCstr H p
    some { st with heap := H, out := st.out ++ [some (.array .newArray d)] }
  | .suggestOld found => do
    let (H, p) ← makeFound st.heap found
    let (H, d) ← suggestCstr H p
    let (H, m) ← convertArray ok H d
    some { st with heap := H, out := st.out ++ [some (.array .malloc m)] }
  | .hyphenate found => do
    let (H, p) ← makeText st.heap found
    some { st with heap := H, out := st.out ++ [some (.string .newArray p)] }
  | .hyphenateOld found => do
    let (H, p) ← makeText st.heap found
    let (H, m) ← convertString ok H p
    some { st with heap := H, out := st.out ++ [some (.string .malloc m)] }
  | .paragraph errors => do
    let H ← clearCache st.cache st.heap
    let (H, ps) ← fillCache errors H
    some { st with heap := H, cache := ps, out := st.out ++ [none] }
  | .nextError i => do
    let (H, e) ← copyError ok st.heap st.cache[i]?
    some { st with heap := H, out := st.out ++ [some (.error e)] }
  | .nextErrorOld i => do
    let (H, info, s) ← oldError ok st.heap st.cache[i]?
    some { st with heap := H, out := st.out ++ [some (.oldError info s)] }
  | .free k =>
    match st.out[k]? with
    | some (some r) => do
      let H ← freeRes st.heap r
      some { st with heap := H, out := st.out.set k none ++ [none] }
    | _ => some { st with out := st.out ++ [none] }

/-- A history of calls. -/
def run (ok : Nat → Bool) : List Call → Session → UB Session
  | [], st => some st
  | c :: cs, st => do
    let st ← step ok st c
    run ok cs st

end Verif.ApiHeap
