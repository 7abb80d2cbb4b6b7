/-!
# Common conventions of the model

`UB α` is the result of a piece of C++ code: `some x` is normal completion with value `x`,
`none` is *undefined behaviour* (out-of-bounds access, null dereference, ...).
-/

namespace Verif

/-- A `wchar_t` / code point (non-negative, see DESIGN.md). -/
notation "Wc" => Nat

/-- Outcome of C++ code: `none` = undefined behaviour. -/
abbrev UB (α : Type) := Option α

/-- The undefined-behaviour outcome. -/
def ub {α : Type} : UB α := none

/-- Read `buf[i]` where `buf` has exactly `buf.length` addressable elements. -/
def rd {α : Type} (buf : List α) (i : Nat) : UB α := buf[i]?

/-- Write `buf[i] = x`. -/
def wr {α : Type} (buf : List α) (i : Nat) (x : α) : UB (List α) :=
  if i < buf.length then some (buf.set i x) else none

/-- C `wcschr(s, c) != 0` for a literal `s`: the terminating NUL is found as well. -/
def wcschr (s : List Nat) (c : Nat) : Bool := c == 0 || s.contains c

/-- `wcsncmp(lit, text + off, lit.length) == 0` for a literal without NUL: characters of `text`
are read one by one and reading stops at the first difference. -/
def wcsncmpEq (lit : List Nat) (text : List Nat) (off : Nat) : UB Bool :=
  match lit with
  | [] => some true
  | l :: ls => do
    let c ← rd text off
    if c = l then wcsncmpEq ls text (off + 1) else some false

theorem rd_eq_some {α : Type} {buf : List α} {i : Nat} (h : i < buf.length) :
    rd buf i = some buf[i] := by
  simp [rd, h]

theorem rd_eq_none {α : Type} {buf : List α} {i : Nat} (h : buf.length ≤ i) :
    rd buf i = none := by
  simp [rd, h]

theorem wr_eq_some {α : Type} {buf : List α} {i : Nat} (x : α) (h : i < buf.length) :
    wr buf i x = some (buf.set i x) := by
  simp [wr, h]

end Verif
