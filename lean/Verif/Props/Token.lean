import Verif.Lemmas.Token
import Verif.Props.Tokenizer
import Verif.Model.SpellUtils
/-!
# C93: exactly what a token is
-/

namespace Verif.Props
open Verif Verif.Tokens

/-- C93: `voikkoNextTokenUcs4` returns exactly the first token of the text. -/
theorem C93_token (text : List Wc) (dot : Bool) (t : TokenType) (n : Nat) :
    nextToken text dot = some (t, n) ↔ Token dot text t n := by
  obtain ⟨t0, n0, h1, h2⟩ := nextToken_sound text dot
  constructor
  · intro h
    rw [h1] at h
    cases h
    exact h2
  · intro h
    obtain ⟨rfl, rfl⟩ := token_unique h h2
    exact h1

/-- C93: every text has exactly one first token. -/
theorem C93_unique (text : List Wc) (dot : Bool) : ∃ t n, Token dot text t n ∧ ∀ t' n', Token dot text t' n' → t' = t ∧ n' = n := by
  obtain ⟨t0, n0, _, h2⟩ := nextToken_sound text dot
  exact ⟨t0, n0, h2, fun t' n' h => token_unique h h2⟩

/-- The tokens of a whole text. -/
inductive TokenList (dot : Bool) : List Wc → List (TokenType × List Wc) → Prop
  | nil : TokenList dot [] []
  | cons {text : List Wc} {t : TokenType} {n : Nat} {toks : List (TokenType × List Wc)} : text ≠ [] → Token dot text t n →
      TokenList dot (text.drop n) toks → TokenList dot text ((t, text.take n) :: toks)

/-- C93: the loop of a user program over a text gives exactly the tokens of the text. -/
theorem C93_stream (text : List Wc) (dot : Bool) (toks : List (TokenType × List Wc)) :
    tokenStream dot (text.length + 1) text = some toks ↔ TokenList dot text toks := by
  have key : ∀ (fuel : Nat) (text : List Wc) (toks : List (TokenType × List Wc)), text.length < fuel →
      (tokenStream dot fuel text = some toks ↔ TokenList dot text toks) := by
    intro fuel
    induction fuel with
    | zero => intro text toks h; omega
    | succ fuel ih =>
      intro text toks h
      by_cases h0 : text = []
      · subst h0
        have e : tokenStream dot (fuel + 1) [] = some [] := rfl
        rw [e]
        constructor
        · intro h; cases h; exact .nil
        · intro h
          cases h with
          | nil => rfl
          | cons h1 _ _ => exact absurd rfl h1
      · obtain ⟨t, n, h1, h2, h3, h4⟩ := C01_progress text dot h0
        have e : tokenStream dot (fuel + 1) text = (tokenStream dot fuel (text.drop n)).map ((t, text.take n) :: ·) := by
          rw [tokenStream, h1]
          cases t
          case none => exact absurd rfl h2
          all_goals rfl
        have htok := (C93_token text dot t n).1 h1
        have ih' := fun toks => ih (text.drop n) toks (by rw [List.length_drop]; omega)
        rw [e, Option.map_eq_some_iff]
        constructor
        · rintro ⟨r, hr, rfl⟩
          exact .cons h0 htok ((ih' r).1 hr)
        · intro hl
          cases hl with
          | nil => exact absurd rfl h0
          | cons _ g2 g3 =>
            obtain ⟨rfl, rfl⟩ := token_unique g2 htok
            exact ⟨_, (ih' _).2 g3, rfl⟩
  exact key _ text toks (by omega)

/-- C93, for users: an e-mail address at the start of the text is one word. -/
theorem C93_mail {c : Wc} {rest : List Wc} {n : Nat} {dot : Bool} (hc : Letter c ∨ Digit c) (hu : ¬ StartsUrl (c :: rest))
    (hm : Mail (c :: rest) n) : nextToken (c :: rest) dot = some (.word, n) :=
  (C93_token _ _ _ _).2 (.word hc (.inr (.inl ⟨hu, hm⟩)))

/-- C93, for users: the address of a web page at the start of the text is one word. -/
theorem C93_url {text : List Wc} {n : Nat} {dot : Bool} (hu : StartsUrl text) (hn : FirstAt (UrlEnd text) n) :
    nextToken text dot = some (.word, n) := by
  have e1 : "http://".toList.map Char.toNat = 0x68 :: [0x74, 0x74, 0x70, 0x3A, 0x2F, 0x2F] := by decide
  have e2 : "https://".toList.map Char.toNat = 0x68 :: [0x74, 0x74, 0x70, 0x73, 0x3A, 0x2F, 0x2F] := by decide
  obtain ⟨rest, hr⟩ : ∃ rest, text = 0x68 :: rest := by
    rcases hu.2 with ⟨r, hr⟩ | ⟨r, hr⟩
    · rw [e1] at hr; exact ⟨_, hr.symm⟩
    · rw [e2] at hr; exact ⟨_, hr.symm⟩
  rw [C93_token, hr]
  rw [hr] at hu hn
  exact .word (.inl (by unfold Letter; decide)) (.inl ⟨hu, hn⟩)

/-- C93, for users: with IGNORE_DOT off, a word that is no address never ends in a dot. -/
theorem C93_no_dot {text : List Wc} {n : Nat} (h : PlainWord text false n) (hn : 0 < n) : ¬ At text (n - 1) (· = 0x2E) := by
  obtain ⟨m, h1, h2⟩ := h
  intro hdot
  obtain ⟨c, hc, rfl⟩ := hdot
  rcases h2 with ⟨h2, rfl⟩ | ⟨h2, rfl⟩
  · rw [Nat.add_sub_cancel] at hc
    obtain ⟨d, hd, h3⟩ := h2
    rw [hc] at hd
    cases hd
    rcases h3 with h3 | h3
    · exact absurd h3.1 (by decide)
    · cases h3.2
  · -- the dot is inside the word, so a letter or a digit comes after it
    have hlt : n - 1 < n := by omega
    have hin : Inner text (n - 1) := Classical.byContradiction fun hx => h1.2 _ hlt hx
    have hld : At text n fun d => Letter d ∨ Digit d := by
      obtain ⟨d, hd, h3⟩ := hin
      rw [hc] at hd
      cases hd
      have hp : getCharType 0x2E = .punctuation := by decide
      rcases h3 with h3 | h3 | h3 | h3 | h3 | h3
      · rw [Letter, hp] at h3; cases h3
      · rw [Digit, hp] at h3; cases h3
      · exact absurd h3.1 (by decide)
      · exact absurd h3.1 (by decide)
      · rw [Nat.sub_add_cancel hn] at h3
        obtain ⟨d, hd, h4⟩ := h3.2
        exact ⟨d, hd, h4.imp id (·.1)⟩
      · exact absurd h3.1 (by decide)
    refine h1.1 ?_
    obtain ⟨d, hd, h4⟩ := hld
    exact ⟨d, hd, by rcases h4 with h4 | h4 <;> simp [h4]⟩

/-! ### Examples -/

/-- Words with punctuation inside: a decimal number, an inflected abbreviation, a compound with a hyphen. -/
example : Token false (lit "3,5 ja") .word 3 ∧ Token false (lit "EU:n ja") .word 4 ∧ Token false (lit "linja-auto!") .word 10 :=
  ⟨(C93_token ..).1 (by decide +kernel), (C93_token ..).1 (by decide +kernel), (C93_token ..).1 (by decide +kernel)⟩

/-- A comma after a letter is not inside the word; a hyphen before a comma ends it. -/
example : Token false (lit "a,5") .word 1 ∧ Token false (lit "suur-, ja") .word 5 ∧ Token false (lit "1.2.x2") .word 6 ∧
    Token false (lit "x.2") .word 1 :=
  ⟨(C93_token ..).1 (by decide +kernel), (C93_token ..).1 (by decide +kernel), (C93_token ..).1 (by decide +kernel),
    (C93_token ..).1 (by decide +kernel)⟩

/-- Addresses. -/
example : Token false (lit "ab@cd.fi, jos") .word 8 ∧ Token false (lit "http://voikko.fi. Jos") .word 16 ∧
    Token true (lit "ab@cdfi, jos") .word 2 :=
  ⟨(C93_token ..).1 (by decide +kernel), (C93_token ..).1 (by decide +kernel), (C93_token ..).1 (by decide +kernel)⟩

/-- The hypotheses of `C93_mail`, `C93_url` and `C93_no_dot` are met. -/
example : Mail (lit "ab@cd.fi, jos") 8 ∧ (StartsUrl (lit "http://voikko.fi. Jos") ∧ FirstAt (UrlEnd (lit "http://voikko.fi. Jos")) 16) ∧
    PlainWord (lit "x.y. z") false 3 := by
  refine ⟨?_, ?_, ?_⟩
  · obtain ⟨n, h1, h2⟩ := findUrlOrEmail_exact (lit "ab@cd.fi, jos")
    have : findUrlOrEmail (lit "ab@cd.fi, jos") = some 8 := by decide +kernel
    rw [this] at h1
    cases h1
    have hs : ¬ StartsUrl (lit "ab@cd.fi, jos") := by
      unfold StartsUrl
      decide +kernel
    rcases h2 with h | h | h
    · exact absurd h.1 hs
    · exact h.2.2
    · exact absurd h.2.1 (by decide)
  · obtain ⟨n, h1, h2⟩ := findUrlOrEmail_exact (lit "http://voikko.fi. Jos")
    have : findUrlOrEmail (lit "http://voikko.fi. Jos") = some 16 := by decide +kernel
    rw [this] at h1
    cases h1
    have hs : StartsUrl (lit "http://voikko.fi. Jos") := by
      unfold StartsUrl
      decide +kernel
    rcases h2 with h | h | h
    · exact ⟨hs, h.2.2⟩
    · exact absurd hs h.1
    · exact absurd hs h.1
  · have h : nextToken (lit "x.y. z") false = some (.word, 3) := by decide +kernel
    obtain ⟨n, h1, h2⟩ := wordLoop_exact (lit "x.y. z") false _ 0 false false rfl (by omega) (fun i hi => absurd hi (by omega))
      (.inl ⟨rfl, rfl⟩) ⟨fun h => (by cases h), fun ⟨j, hj, _⟩ => (by omega)⟩
    have e : wordLoop (lit "x.y. z") (if false = true then 1 else 0) 0 false false = some 3 := by decide +kernel
    rw [e] at h1
    cases h1
    exact h2

end Verif.Props
