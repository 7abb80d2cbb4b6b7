import Verif.Spec.FstText
import Verif.Model.FstTextW
/-!
# What the text of a weighted automaton describes

Lines as in `Verif.Spec.FstText`, with a weight in the last column: the fifth for a transition, the second for a final state. A final state without a
weight has weight 0. Weights are 16 bits.
-/

namespace Verif.Att
open Verif Verif.Props

/-- The bytes `tok` are a number, whose weight is `w`. -/
def Weighs (N : AttNumbers) (tok : List Nat) (w : Nat) : Prop :=
  Token tok ∧ ∃ d, N.num tok = (d, true) ∧ N.conv d = some w ∧ w < 65536

/-- The bytes of a line say `l` with weight `w`. What follows the weight of a transition is a comment. -/
inductive WritesLineW (N : AttNumbers) : List Nat → Line → Nat → Prop
  | final {sp ds : List Nat} {s : Nat} : Blank sp → Decimal ds s → WritesLineW N (sp ++ ds) (.final s) 0
  | weighted {sp ds sp1 tw : List Nat} {s w : Nat} : Blank sp → Decimal ds s → Blank sp1 → sp1 ≠ [] → Weighs N tw w →
      WritesLineW N (sp ++ (ds ++ (sp1 ++ tw))) (.final s) w
  | arc {sp ds sp1 dt sp2 ti sp3 to sp4 tw rest : List Nat} {a : Arc} {w : Nat} : Blank sp → Decimal ds a.src → Blank sp1 → sp1 ≠ [] →
      Decimal dt a.tgt → Blank sp2 → sp2 ≠ [] → Names ti a.inp → Blank sp3 → sp3 ≠ [] → Names to a.out → Blank sp4 → sp4 ≠ [] → Weighs N tw w →
      (rest = [] ∨ ∃ b r, rest = b :: r ∧ Blank [b]) → 10 ∉ rest →
      WritesLineW N (sp ++ (ds ++ (sp1 ++ (dt ++ (sp2 ++ (ti ++ (sp3 ++ (to ++ (sp4 ++ (tw ++ rest)))))))))) (.arc a) w

/-- The text consists of these lines; the newline after the last one may be missing. -/
inductive DescribesW (N : AttNumbers) : List Nat → List (Line × Nat) → Prop
  | nil : DescribesW N [] []
  | last {b : List Nat} {l : Line} {w : Nat} : WritesLineW N b l w → DescribesW N b [(l, w)]
  | line {b t : List Nat} {l : Line} {w : Nat} {ls : List (Line × Nat)} : WritesLineW N b l w → DescribesW N t ls →
      DescribesW N (b ++ 10 :: t) ((l, w) :: ls)

/-- A number with 16 bits and a sign. -/
def signed16 (n : Nat) : Int := ((n : Int) + 32768) % 65536 - 32768

/-- The weight of a run: the sum of the weights of its lines, in 16 bits. -/
def runWeight (ls : List (Line × Nat)) (run : List Nat) : Int := signed16 (run.map fun k => ((ls[k]?).map (·.2)).getD 0).sum

/-- When the whole word has been read and a flag diacritic is not allowed, then no flag diacritic of the same state that is later in the order of their
bytes is allowed. -/
def NoMasked (ls : List Line) (word : List Wc) : Prop :=
  ∀ ks p, TakesAll ls word ⟨0, 0, fun _ => []⟩ ks p → p.pos = word.length → ∀ (k k' : Nat) a b, ls[k]? = some (.arc a) → ls[k']? = some (.arc b) →
    a.src = p.state → b.src = p.state → a.inp.head? = some 64 → b.inp.head? = some 64 → encodeStr a.inp < encodeStr b.inp →
    (∀ q, ¬ Takes ls word p k q) → ∀ q, ¬ Takes ls word p k' q

/-- The characters of a word are symbols of the automaton. -/
def InAlphabet (ls : List Line) (word : List Wc) : Prop := ∀ c ∈ word, c ≠ 64 ∧ c ≠ 91 ∧ ∃ l ∈ ls, [c] ∈ l.symbols

/-- The weight survives a change of the byte order of the file. -/
def KeepsWeight (w : Nat) : Prop := (w < 32768 ∧ w % 256 < 128) ∨ w = 65535

/-- The limits of the look-up. -/
def ExceedsW (ls : List Line) (word : List Wc) (maxLength maxOutput : Nat) : WNextRes → Prop
  | .outputLimit => ∃ run n, Accepts ls word false run n ∧ maxOutput ≤ (runOutput ls run).length + 1
  | .stackLimit => ∃ ks p, TakesAll ls word ⟨0, 0, fun _ => []⟩ ks p ∧ ks.length + 1 = maxLength
  | .loopLimit => ∃ L : List (List Nat), L.Nodup ∧ 100000 ≤ 2 * L.length ∧ ∀ ks ∈ L, ∃ p, TakesAll ls word ⟨0, 0, fun _ => []⟩ ks p
  | _ => False

end Verif.Att
