import Verif.Props.Utf8
import Verif.Model.Fst
/-!
# What the text of an automaton describes

The text has a line for every transition (source state, target state, input symbol, output symbol) and every final state. A run is the
list of the numbers of the lines that are used. Symbols are texts; nothing here depends on symbol codes, offsets or tables.
-/

namespace Verif.Att
open Verif Verif.Props

/-- A transition. -/
structure Arc where
  src : Nat
  tgt : Nat
  inp : List Wc
  out : List Wc
  deriving DecidableEq, Repr

/-- What a line says. -/
inductive Line where
  | final (src : Nat)
  | arc (a : Arc)
  deriving DecidableEq, Repr

/-- The state that a line belongs to. -/
def Line.src : Line → Nat
  | .final s => s
  | .arc a => a.src

/-- The symbols of a line. -/
def Line.symbols : Line → List (List Wc)
  | .final _ => []
  | .arc a => [a.inp, a.out]

/-! ### The text -/

/-- The value of decimal digits. -/
def decimalValue : List Nat → Nat
  | [] => 0
  | d :: ds => (d - 48) * 10 ^ ds.length + decimalValue ds

/-- The bytes `ds` are the number `n`. -/
def Decimal (ds : List Nat) (n : Nat) : Prop := ds ≠ [] ∧ (∀ d ∈ ds, 48 ≤ d ∧ d ≤ 57) ∧ decimalValue ds = n ∧ n < 2 ^ 32

/-- White space: tabulators and blanks, but no newline. -/
def Blank (l : List Nat) : Prop := ∀ b ∈ l, b = 9 ∨ b = 11 ∨ b = 12 ∨ b = 13 ∨ b = 32

/-- A word without white space. -/
def Token (l : List Nat) : Prop := l ≠ [] ∧ ∀ b ∈ l, ¬ (9 ≤ b ∧ b ≤ 13) ∧ b ≠ 32

/-- Names for symbols that cannot be written. -/
def specialNames : List (String × List Wc) :=
  [("@0@", []), ("@_SPACE_@", [32]), ("@_IDENTITY_SYMBOL_@", [35]), ("@_UNKNOWN_SYMBOL_@", [35])]

/-- The bytes `tok` are the name of the symbol `s`. -/
def Names (tok : List Nat) (s : List Wc) : Prop :=
  (∃ e ∈ specialNames, tok = e.1.toList.map (·.toNat) ∧ s = e.2)
  ∨ ((∀ e ∈ specialNames, tok ≠ e.1.toList.map (·.toNat)) ∧ tok = encodeStr s ∧ Token tok)

/-- The bytes of a line say `l`. What follows the fourth column is a comment. -/
inductive WritesLine : List Nat → Line → Prop
  | final {sp ds : List Nat} {s : Nat} : Blank sp → Decimal ds s → WritesLine (sp ++ ds) (.final s)
  | arc {sp ds sp1 dt sp2 ti sp3 to rest : List Nat} {a : Arc} : Blank sp → Decimal ds a.src → Blank sp1 → sp1 ≠ [] → Decimal dt a.tgt →
      Blank sp2 → sp2 ≠ [] → Names ti a.inp → Blank sp3 → sp3 ≠ [] → Names to a.out →
      (rest = [] ∨ ∃ b r, rest = b :: r ∧ Blank [b]) → 10 ∉ rest →
      WritesLine (sp ++ (ds ++ (sp1 ++ (dt ++ (sp2 ++ (ti ++ (sp3 ++ (to ++ rest)))))))) (.arc a)

/-- The text consists of these lines; the newline after the last one may be missing. -/
inductive Describes : List Nat → List Line → Prop
  | nil : Describes [] []
  | last {b : List Nat} {l : Line} : WritesLine b l → Describes b [l]
  | line {b t : List Nat} {l : Line} {ls : List Line} : WritesLine b l → Describes t ls → Describes (b ++ 10 :: t) (l :: ls)

/-! ### Flag diacritics -/

/-- The letters of the operations: set, clear, unify, require, disallow. -/
def opLetter : FlagOp → Wc
  | .P => 80
  | .C => 67
  | .U => 85
  | .R => 82
  | .D => 68

/-- The symbol is `@OP.FEATURE.VALUE@` or `@OP.FEATURE@`; the latter stands for the value `@`. -/
inductive FlagText : List Wc → FlagOp → List Wc → List Wc → Prop
  | valued {op : FlagOp} {feature value : List Wc} : 46 ∉ feature →
      FlagText ([64, opLetter op, 46] ++ (feature ++ 46 :: value) ++ [64]) op feature value
  | plain {op : FlagOp} {feature : List Wc} : 46 ∉ feature → feature ≠ [] → FlagText ([64, opLetter op, 46] ++ feature ++ [64]) op feature [64]

/-- The effect of a flag diacritic on the value of its feature. The empty value is "not set", the value `@` stands for any value. -/
def Effect : FlagOp → List Wc → List Wc → List Wc → Prop
  | .P, value, _, new => new = value
  | .C, _, _, new => new = []
  | .U, value, old, new => (old = [] ∧ new = value) ∨ (old ≠ [] ∧ old = value ∧ new = old)
  | .R, value, old, new => new = old ∧ ((value = [64] ∧ old ≠ []) ∨ (value ≠ [64] ∧ old = value))
  | .D, value, old, new => new = old ∧ ((value = [64] ∧ old = []) ∨ (value ≠ [64] ∧ old ≠ value))

/-! ### Runs -/

/-- A point of a run: the state, the number of letters read, the values of the features. -/
structure Place where
  state : Nat
  pos : Nat
  flags : List Wc → List Wc

/-- A run takes the line number `k`. -/
inductive Takes (ls : List Line) (word : List Wc) : Place → Nat → Place → Prop
  | letter {p : Place} {k : Nat} {a : Arc} {c : Wc} : ls[k]? = some (.arc a) → a.src = p.state → a.inp = [c] → word[p.pos]? = some c →
      Takes ls word p k ⟨a.tgt, p.pos + 1, p.flags⟩
  | epsilon {p : Place} {k : Nat} {a : Arc} : ls[k]? = some (.arc a) → a.src = p.state → a.inp = [] → Takes ls word p k ⟨a.tgt, p.pos, p.flags⟩
  | flag {p : Place} {k : Nat} {a : Arc} {op : FlagOp} {feature value new : List Wc} : ls[k]? = some (.arc a) → a.src = p.state →
      FlagText a.inp op feature value → Effect op value (p.flags feature) new →
      Takes ls word p k ⟨a.tgt, p.pos, fun x => if x = feature then new else p.flags x⟩

/-- A run takes several lines. -/
inductive TakesAll (ls : List Line) (word : List Wc) : Place → List Nat → Place → Prop
  | nil {p : Place} : TakesAll ls word p [] p
  | cons {p q r : Place} {k : Nat} {ks : List Nat} : Takes ls word p k q → TakesAll ls word q ks r → TakesAll ls word p (k :: ks) r

/-- A run from state 0, without values of features, to a line that says that the state is final, after `n` letters; unless beginnings of words
are wanted, these are all. -/
def Accepts (ls : List Line) (word : List Wc) (pfx : Bool) (run : List Nat) (n : Nat) : Prop :=
  ∃ ks k p, run = ks ++ [k] ∧ TakesAll ls word ⟨0, 0, fun _ => []⟩ ks p ∧ ls[k]? = some (.final p.state) ∧ p.pos = n ∧
    (pfx = false → n = word.length)

/-- The output of a line: flag diacritics are not output. -/
def lineOutput (ls : List Line) (k : Nat) : List Wc :=
  match ls[k]? with
  | some (.arc a) => if a.out.head? = some 64 then [] else a.out
  | _ => []

/-- The output of a run. -/
def runOutput (ls : List Line) (run : List Nat) : List Wc := run.flatMap (lineOutput ls)

/-- The limits of the look-up: the length of the output, the length of a run, and the number of runs that begin to read the word. -/
def Exceeds (ls : List Line) (word : List Wc) (pfx : Bool) (maxLength maxOutput : Nat) : NextRes → Prop
  | .outputLimit => ∃ run n, Accepts ls word pfx run n ∧ maxOutput ≤ (runOutput ls run).length + 1
  | .stackLimit => ∃ ks p, TakesAll ls word ⟨0, 0, fun _ => []⟩ ks p ∧ ks.length + 1 = maxLength
  | .loopLimit => ∃ L : List (List Nat), L.Nodup ∧ 100000 ≤ 2 * L.length ∧ ∀ ks ∈ L, ∃ p, TakesAll ls word ⟨0, 0, fun _ => []⟩ ks p
  | _ => False

/-- The order of the lines of a state: epsilon, final, flag diacritics, letters, tags. -/
def lineRank : Line → Nat
  | .final _ => 1
  | .arc a => if a.inp = [] then 0 else if a.inp.head? = some 64 then 2 else if a.inp.head? = some 91 then 4 else 3

/-- The line `l` is not used after `l'`: letters are used in the order of their characters. -/
def NotAfter (l l' : Line) : Prop :=
  lineRank l < lineRank l' ∨
    (lineRank l = lineRank l' ∧ ∀ a b c d, l = .arc a → l' = .arc b → a.inp = [c] → b.inp = [d] → c ≤ d)

/-- The runs differ; at the first difference they use lines of the same state, in this order. -/
def RunBefore (ls : List Line) : List Nat → List Nat → Prop
  | k :: r, k' :: r' => (k ≠ k' ∧ ∃ l l', ls[k]? = some l ∧ ls[k']? = some l' ∧ l.src = l'.src ∧ NotAfter l l') ∨ (k = k' ∧ RunBefore ls r r')
  | _, _ => False

/-! ### Texts that can be compiled -/

/-- A symbol of a dictionary: empty, a flag diacritic, a tag that begins with `[`, or a letter. -/
def ProperSymbol (s : List Wc) : Prop :=
  (∀ c ∈ s, ValidCp c ∧ c ≠ 0) ∧
    (s = [] ∨ (∃ op feature value, FlagText s op feature value) ∨ (∃ r, r ≠ [] ∧ s = 91 :: r) ∨ ∃ c, s = [c] ∧ c ≠ 64 ∧ c ≠ 91)

/-- The automaton is one that the compiler and the file format can handle. -/
structure Proper (ls : List Line) : Prop where
  /-- The states are numbered in the order in which their lines begin. -/
  order : ∀ (k : Nat) (l : Line), ls[k]? = some l → ∀ s, s < l.src → ∃ (j : Nat) (l' : Line), j < k ∧ ls[j]? = some l' ∧ l'.src = s
  /-- Every target has a line. -/
  targets : ∀ a, Line.arc a ∈ ls → ∃ l ∈ ls, l.src = a.tgt
  symbols : ∀ l ∈ ls, ∀ s ∈ l.symbols, ProperSymbol s
  /-- There is a letter. -/
  letter : ∃ l ∈ ls, ∃ c, c ≠ 64 ∧ c ≠ 91 ∧ [c] ∈ l.symbols
  /-- There are fewer than 65535 symbols. -/
  count : ∃ all : List (List Wc), all.length < 65535 ∧ ∀ l ∈ ls, ∀ s ∈ l.symbols, s ∈ all
  size : ls.length + ls.length / 256 ≤ 2 ^ 24

end Verif.Att
