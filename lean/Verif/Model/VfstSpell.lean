import Verif.Model.FstWeighted
import Verif.Model.Suggest
/-!
# `spellchecker/VfstSpeller.cpp`, `spellchecker/VfstSuggestion.cpp`: spelling and suggestions with weighted transducers

Both objects keep their configurations from call to call. The output buffer of the acceptor is written and never read.
-/

namespace Verif

/-- `VfstSpeller.cpp:41` and `VfstSuggestion.cpp:39`, `BUFFER_SIZE`. -/
def vfstBufferSize : Nat := 2000

/-- `VfstSpeller.cpp:50-61`, `doSpell`. `buf` is the string with its terminator. -/
def vfstDoSpell (f : WFst) (c : WConf) (buf : List Wc) (wlen : Nat) : UB (SpellRes × WConf) :=
  if wlen > maxWordChars then return (.failed, c)
  else if buf.length < wlen then ub
  else do
    let (known, c) ← wprepare f c (buf.take wlen)
    if known then do
      let (r, _, c) ← wnext f vfstBufferSize c
      match r with
      | .found _ _ => return (.ok, c)
      | _ => return (.failed, c)
    else return (.failed, c)

/-- `VfstSpeller.cpp:63-76`, `spell`. `word` is the string up to its terminator; the copy (line 67) has the same length. -/
def vfstSpell (f : WFst) (c : WConf) (word : List Wc) (wlen : Nat) : UB (SpellRes × WConf) := do
  let (r, c) ← vfstDoSpell f c (word ++ [0]) wlen
  let first ← rd (word ++ [0]) 0
  if r = .failed ∧ isLower first then do
    let modified ← wr (word ++ [0]) 0 (upper first)
    let (r, c) ← vfstDoSpell f c modified wlen
    return (if r = .ok then .capFirst else r, c)
  else return (r, c)

/-- `VfstSuggestion.cpp:73-80`: entry in the map from words to weights. The elements are kept here in the order of their first
entry; the order of the map only decides the order in which they are put into the queue, see `vfstGenerate`. -/
def vfstRecord (w : List Wc) (weight : Int) : List (List Wc × Int) → List (List Wc × Int)
  | [] => [(w, weight)]
  | (w', old) :: rest => if w' = w then (w', min old weight) :: rest else (w', old) :: vfstRecord w weight rest

/-- `VfstSuggestion.cpp:69-86`: the loop, with at most `n` iterations. `E` is the error model, `A` the acceptor. (`s` does not
change in the loop.) -/
def vfstSearch (E A : WFst) (s : SugStatus) : Nat → WConf → WConf → List (List Wc × Int) →
    UB (List (List Wc × Int) × WConf × WConf)
  | 0, _, _, _ => ub
  | n + 1, ec, ac, m =>
    if s.shouldAbort then return (m, ec, ac)
    else do
      let (r, _, ec) ← wnext E vfstBufferSize ec
      match r with
      | .found out weight => do
        let w := out.takeWhile (· ≠ 0)
        let (known, ac) ← wprepare A ac w
        if known then do
          let (ra, reached, ac) ← wnext A vfstBufferSize ac
          match ra with
          | .found _ weightA => vfstSearch E A s n ec ac (vfstRecord w (weightA + weight) m)
          | _ => do
            let ec ← wbacktrack E ec reached
            vfstSearch E A s n ec ac m
        else vfstSearch E A s n ec ac m
      | _ => return (m, ec, ac)

/-- `VfstSuggestion.cpp:97-101`: the elements of the queue are added. A negative weight would be multiplied as a `size_t` and
converted to `int`, which is implementation-defined; the model treats it like undefined behaviour. -/
def vfstAddAll : List (List Wc × Int) → SugStatus → UB SugStatus
  | [], s => return s
  | (w, weight) :: rest, s =>
    if weight < 0 then ub
    else do
      let s ← s.addSuggestion w weight.toNat
      vfstAddAll rest s

/-- `VfstSuggestion.cpp:62-102`, `generate`. `order` is the order in which `std::priority_queue` (lines 89-99) gives the elements. -/
def vfstGenerate (E A : WFst) (order : List (List Wc × Int) → List (List Wc × Int)) (n : Nat) (ec ac : WConf) (s : SugStatus) :
    UB (SugStatus × WConf × WConf) := do
  let s := { s with maxCost := 100 }
  let (known, ec) ← wprepare E ec s.word
  let (m, ec, ac) ← (if known then vfstSearch E A s n ec ac [] else return ([], ec, ac) :
    UB (List (List Wc × Int) × WConf × WConf))
  let s ← vfstAddAll (order m) s
  return (s, ec, ac)

end Verif
