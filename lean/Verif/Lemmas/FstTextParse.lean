import Verif.Model.FstText
import Verif.Spec.FstText
/-!
# Lemmas on the lines of the text of an automaton
-/

set_option linter.unusedSimpArgs false
set_option linter.unusedVariables false

namespace Verif.Att
open Verif Verif.Props

/-- A line in bytes. -/
def bline : Line → AttLine
  | .final s => .final s
  | .arc a => .arc a.src a.tgt (encodeStr a.inp) (encodeStr a.out)

theorem dropWhile_all {p : Nat → Bool} {a b : List Nat} (ha : ∀ x ∈ a, p x = true) : (a ++ b).dropWhile p = b.dropWhile p := by
  induction a with
  | nil => rfl
  | cons x a ih =>
    rw [List.cons_append, List.dropWhile_cons, if_pos (ha x List.mem_cons_self)]
    exact ih fun y hy => ha y (List.mem_cons_of_mem _ hy)

theorem takeWhile_all {p : Nat → Bool} {a b : List Nat} (ha : ∀ x ∈ a, p x = true) : (a ++ b).takeWhile p = a ++ b.takeWhile p := by
  induction a with
  | nil => rfl
  | cons x a ih =>
    rw [List.cons_append, List.takeWhile_cons, if_pos (ha x List.mem_cons_self), ih fun y hy => ha y (List.mem_cons_of_mem _ hy)]
    rfl

/-- The list is empty or begins with an element without the property. -/
def Stops (p : Nat → Bool) (l : List Nat) : Prop := ∀ x r, l = x :: r → p x = false

theorem dropWhile_stops {p : Nat → Bool} {l : List Nat} (h : Stops p l) : l.dropWhile p = l := by
  cases l with
  | nil => rfl
  | cons x r => rw [List.dropWhile_cons, if_neg (by rw [h x r rfl]; decide)]

theorem takeWhile_stops {p : Nat → Bool} {l : List Nat} (h : Stops p l) : l.takeWhile p = [] := by
  cases l with
  | nil => rfl
  | cons x r => rw [List.takeWhile_cons, if_neg (by rw [h x r rfl]; decide)]

theorem stops_append {p : Nat → Bool} {a b : List Nat} (ha : a ≠ []) (h : ∀ x ∈ a, p x = false) : Stops p (a ++ b) := by
  intro x r e
  cases a with
  | nil => exact absurd rfl ha
  | cons y a => cases e; exact h _ List.mem_cons_self

theorem blank_space {l : List Nat} (h : Blank l) : ∀ x ∈ l, attSpace x = true := by
  intro x hx
  rcases h x hx with rfl | rfl | rfl | rfl | rfl <;> decide

theorem blank_notDigit {l : List Nat} (h : Blank l) : ∀ x ∈ l, attDigit x = false := by
  intro x hx
  rcases h x hx with rfl | rfl | rfl | rfl | rfl <;> decide

theorem digit_of {ds : List Nat} {n : Nat} (h : Decimal ds n) : ∀ x ∈ ds, attDigit x = true := by
  intro x hx
  have := h.2.1 x hx
  simp [attDigit, this]

theorem digit_notSpace {ds : List Nat} {n : Nat} (h : Decimal ds n) : ∀ x ∈ ds, attSpace x = false := by
  intro x hx
  have := h.2.1 x hx
  simp only [attSpace, Bool.or_eq_false_iff, Bool.and_eq_false_iff, decide_eq_false_iff_not, beq_eq_false_iff_ne]
  omega

theorem token_notSpace {l : List Nat} (h : Token l) : ∀ x ∈ l, attSpace x = false := by
  intro x hx
  have := h.2 x hx
  simp only [attSpace, Bool.or_eq_false_iff, Bool.and_eq_false_iff, decide_eq_false_iff_not, beq_eq_false_iff_ne]
  omega

theorem foldl_decimal (ds : List Nat) (n : Nat) : ds.foldl (fun n d => 10 * n + (d - 48)) n = n * 10 ^ ds.length + decimalValue ds := by
  induction ds generalizing n with
  | nil => simp [decimalValue]
  | cons d ds ih =>
    rw [List.foldl_cons, ih, decimalValue, List.length_cons, Nat.pow_succ, Nat.add_mul]
    rw [show 10 * n * 10 ^ ds.length = n * (10 ^ ds.length * 10) by rw [Nat.mul_comm 10 n, Nat.mul_assoc, Nat.mul_comm 10]]
    omega

theorem sentry_blank {sp r : List Nat} (hsp : Blank sp) (hr : r ≠ []) (hs : Stops attSpace r) :
    attSentry { rest := sp ++ r } = { rest := r } := by
  unfold attSentry
  rw [if_neg (by simp)]
  simp only [dropWhile_all (blank_space hsp), dropWhile_stops hs]

theorem sign_digits {ds r : List Nat} {n : Nat} (h : Decimal ds n) : attSign (ds ++ r) = (false, ds ++ r) := by
  cases ds with
  | nil => exact absurd rfl h.1
  | cons d ds =>
    have := h.2.1 d List.mem_cons_self
    unfold attSign
    split
    · rename_i e; rw [List.cons_append, List.cons.injEq] at e; omega
    · rename_i e; rw [List.cons_append, List.cons.injEq] at e; omega
    · rfl

theorem readUInt_spec {sp ds r : List Nat} {n old : Nat} (hsp : Blank sp) (hd : Decimal ds n) (hr : Stops attDigit r) :
    attReadUInt old { rest := sp ++ (ds ++ r) } = (n, { rest := r, eof := r.isEmpty, fail := false }) := by
  unfold attReadUInt
  rw [sentry_blank hsp (by simp [hd.1]) (stops_append hd.1 (digit_notSpace hd))]
  simp only [sign_digits hd, takeWhile_all (digit_of hd), takeWhile_stops hr, dropWhile_all (digit_of hd), dropWhile_stops hr, List.append_nil,
    foldl_decimal, Nat.zero_mul, Nat.zero_add, hd.2.2.1]
  rw [if_neg (by decide), if_neg (by simp [hd.1]), if_neg (by have := hd.2.2.2; omega)]
  simp

theorem readToken_spec {sp tok r old : List Nat} (hsp : Blank sp) (ht : Token tok) (hr : r = [] ∨ ∃ b q, r = b :: q ∧ attSpace b = true) :
    attReadToken old { rest := sp ++ (tok ++ r) } = (tok, { rest := r, eof := r.isEmpty, fail := false }) := by
  unfold attReadToken
  rw [sentry_blank hsp (by simp [ht.1]) (stops_append ht.1 (token_notSpace ht))]
  have h1 : ∀ x ∈ tok, (!attSpace x) = true := fun x hx => by rw [token_notSpace ht x hx]; rfl
  have h2 : Stops (fun b => !attSpace b) r := by
    intro x q e
    rcases hr with rfl | ⟨b, q', rfl, hb⟩
    · cases e
    · cases e; simp [hb]
  simp only [takeWhile_all h1, takeWhile_stops h2, dropWhile_all h1, dropWhile_stops h2, List.append_nil]
  simp

theorem special_token : ∀ e ∈ specialNames, Token (e.1.toList.map (·.toNat)) ∧ attName (e.1.toList.map (·.toNat)) = encodeStr e.2 := by
  unfold Token
  decide

theorem names_spec {tok : List Nat} {s : List Wc} (h : Names tok s) : Token tok ∧ attName tok = encodeStr s := by
  rcases h with ⟨e, he, rfl, rfl⟩ | ⟨hn, rfl, ht⟩
  · exact special_token e he
  · refine ⟨ht, ?_⟩
    have h1 : encodeStr s ≠ [64, 48, 64] := hn ("@0@", []) (by simp [specialNames])
    have h2 : encodeStr s ≠ [64, 95, 83, 80, 65, 67, 69, 95, 64] := hn ("@_SPACE_@", [32]) (by simp [specialNames])
    have h3 : encodeStr s ≠ [64, 95, 73, 68, 69, 78, 84, 73, 84, 89, 95, 83, 89, 77, 66, 79, 76, 95, 64] :=
      hn ("@_IDENTITY_SYMBOL_@", [35]) (by simp [specialNames])
    have h4 : encodeStr s ≠ [64, 95, 85, 78, 75, 78, 79, 87, 78, 95, 83, 89, 77, 66, 79, 76, 95, 64] :=
      hn ("@_UNKNOWN_SYMBOL_@", [35]) (by simp [specialNames])
    unfold attName
    rw [if_neg h1, if_neg h2, if_neg]
    rintro (h | h)
    · exact h3 h
    · exact h4 h

theorem blank_stops {p : Nat → Bool} {sp r : List Nat} (h : ∀ x ∈ sp, p x = false) (hn : sp ≠ []) : Stops p (sp ++ r) := stops_append hn h

theorem blank_head {sp r : List Nat} (h : Blank sp) (hn : sp ≠ []) : ∃ b q, sp ++ r = b :: q ∧ attSpace b = true := by
  cases sp with
  | nil => exact absurd rfl hn
  | cons b sp => exact ⟨b, sp ++ r, rfl, blank_space h b List.mem_cons_self⟩

/-- A line is read as what it says. -/
theorem parse_spec {b : List Nat} {l : Line} (h : WritesLine b l) : attParse b = some (bline l) := by
  cases h with
  | final hsp hd =>
    rename_i sp ds s
    have := readUInt_spec (old := 0) (r := []) hsp hd (by intro x r e; cases e)
    rw [List.append_nil] at this
    unfold attParse
    rw [this]
    rfl
  | arc h0 h1 h2 h2' h3 h4 h4' h5 h6 h6' h7 h8 h9 =>
    rename_i sp ds sp1 dt sp2 ti sp3 to rest a
    obtain ⟨t5, n5⟩ := names_spec h5
    obtain ⟨t7, n7⟩ := names_spec h7
    unfold attParse
    rw [readUInt_spec h0 h1 (blank_stops (blank_notDigit h2) h2')]
    have e1 : ∀ r : List Nat, (sp1 ++ r).isEmpty = false := by intro r; cases sp1 with
      | nil => exact absurd rfl h2'
      | cons => rfl
    have e2 : ∀ r : List Nat, (sp2 ++ r).isEmpty = false := by intro r; cases sp2 with
      | nil => exact absurd rfl h4'
      | cons => rfl
    have e3 : ∀ r : List Nat, (sp3 ++ r).isEmpty = false := by intro r; cases sp3 with
      | nil => exact absurd rfl h6'
      | cons => rfl
    simp only [e1, Bool.false_eq_true, if_false]
    rw [readUInt_spec h2 h3 (blank_stops (blank_notDigit h4) h4')]
    simp only [e2]
    rw [readToken_spec h4 t5 (.inr (blank_head h6 h6'))]
    simp only [e3]
    rw [readToken_spec h6 t7]
    · simp only [Bool.false_eq_true, if_false, n5, n7]
      rfl
    · rcases h8 with h8 | ⟨b, r, h8, hb⟩
      · exact .inl h8
      · exact .inr ⟨b, r, h8, blank_space hb b List.mem_cons_self⟩

theorem names_newline {tok : List Nat} {s : List Wc} (h : Names tok s) : 10 ∉ tok := by
  intro h10
  have := (names_spec h).1.2 10 h10
  omega

theorem blank_newline {l : List Nat} (h : Blank l) : 10 ∉ l := by
  intro h10
  rcases h 10 h10 with h | h | h | h | h <;> cases h

theorem decimal_newline {l : List Nat} {n : Nat} (h : Decimal l n) : 10 ∉ l := by
  intro h10
  have := h.2.1 10 h10
  omega

theorem line_newline {b : List Nat} {l : Line} (h : WritesLine b l) : 10 ∉ b ∧ b ≠ [] := by
  cases h with
  | final hsp hd => simp [blank_newline hsp, decimal_newline hd, hd.1]
  | arc h0 h1 h2 h2' h3 h4 h4' h5 h6 h6' h7 h8 h9 =>
    simp [blank_newline h0, decimal_newline h1, blank_newline h2, decimal_newline h3, blank_newline h4, names_newline h5, blank_newline h6,
      names_newline h7, h9, h1.1]

theorem lines_cons {b cur t : List Nat} (h : 10 ∉ b) : attLines cur (b ++ 10 :: t) = (cur.reverse ++ b) :: attLines [] t := by
  induction b generalizing cur with
  | nil => simp [attLines]
  | cons x b ih =>
    rw [List.cons_append, attLines, if_neg (by intro e; exact h (by rw [e]; exact List.mem_cons_self)),
      ih (fun hm => h (List.mem_cons_of_mem _ hm))]
    simp

theorem lines_last {b cur : List Nat} (h : 10 ∉ b) (hn : cur ++ b ≠ []) : attLines cur b = [cur.reverse ++ b] := by
  induction b generalizing cur with
  | nil =>
    rw [List.append_nil] at hn
    simp [attLines, hn]
  | cons x b ih =>
    rw [attLines, if_neg (by intro e; exact h (by rw [e]; exact List.mem_cons_self)), ih (fun hm => h (List.mem_cons_of_mem _ hm)) (by simp)]
    simp

/-- The table after lines. -/
def addLines : AttTab → List AttLine → Option AttTab
  | st, [] => some st
  | st, l :: ls => (attAdd st l).bind fun st => addLines st ls

/-- The lines of a text are read as what the text describes. -/
theorem addAll_spec {t : List Nat} {ls : List Line} (h : Describes t ls) (st : AttTab) :
    attAddAll st (attLines [] t) = addLines st (ls.map bline) := by
  induction h generalizing st with
  | nil => rfl
  | last h =>
    rw [lines_last (line_newline h).1 (by simpa using (line_newline h).2)]
    simp only [List.reverse_nil, List.nil_append, attAddAll, parse_spec h, List.map_cons, List.map_nil, addLines, Option.bind_eq_bind,
      Option.bind_some]
  | line h _ ih =>
    rw [lines_cons (line_newline h).1]
    simp only [List.reverse_nil, List.nil_append, attAddAll, parse_spec h, List.map_cons, addLines, Option.bind_eq_bind, Option.bind_some]
    cases attAdd st (bline _) with
    | none => rfl
    | some st' => exact ih st'

end Verif.Att
