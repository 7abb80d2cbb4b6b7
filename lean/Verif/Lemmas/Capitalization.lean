import Verif.Spec.Grammar
/-! Lemmas about the capitalisation check. -/

namespace Verif.Props
open Verif
set_option linter.unusedSimpArgs false
set_option linter.unusedVariables false

/-- A non-empty token inside a text of `N` characters. -/
def TokIn (N : Nat) (t : GTok) : Prop := t.str ≠ [] ∧ t.pos + t.str.length ≤ N

/-- A non-empty error inside a text of `N` characters, with a code. -/
def GoodErr (N : Nat) (e : GErr) : Prop := e.start + e.len ≤ N ∧ 0 < e.len ∧ 0 < e.code ∧ e.code ≤ 18

/-- All tokens of the paragraph are non-empty and inside the text. -/
def AllIn (N : Nat) (p : List GSent) : Prop := ∀ s ∈ p, ∀ t ∈ s.tokens, TokIn N t

/-- Number of tokens not yet read. -/
def rem (p : List GSent) (c : CapCtx) : Nat := ((p.drop c.sent).map fun s => s.tokens.length).sum - c.tok

/-- The reading position is valid. -/
def PosOk (p : List GSent) (c : CapCtx) : Prop :=
  c.sent ≤ p.length ∧
    (c.tok = 0 ∨ ∃ s, p[c.sent]? = some s ∧ shouldSkip s.tokens = false ∧ c.tok < s.tokens.length)

/-- Invariant of the state machine. -/
structure CapInv (p : List GSent) (N : Nat) (c : CapCtx) : Prop where
  pos : PosOk p c
  next : ∀ t, c.next = some t → TokIn N t
  errs : ∀ e ∈ c.errs, GoodErr N e

theorem skipped_le (ss : List GSent) : skipped ss ≤ ss.length := by
  induction ss with
  | nil => simp [skipped]
  | cons s ss ih => rw [skipped]; split <;> simp <;> omega

theorem skipped_stop (ss : List GSent) (s : GSent) (h : ss[skipped ss]? = some s) : shouldSkip s.tokens = false := by
  induction ss with
  | nil => simp [skipped] at h
  | cons x ss ih =>
    rw [skipped] at h
    split at h
    · rw [List.getElem?_cons_succ] at h
      exact ih h
    · rename_i hx
      simp only [List.getElem?_cons_zero, Option.some.injEq] at h
      subst h
      simpa using hx

theorem shouldSkip_nonempty (ts : List GTok) (h : shouldSkip ts = false) : ts ≠ [] := by
  rintro rfl
  simp [shouldSkip] at h

theorem rem_drop (p : List GSent) (k : Nat) (s : GSent) (h : p[k]? = some s) :
    ((p.drop k).map fun s => s.tokens.length).sum =
      s.tokens.length + ((p.drop (k + 1)).map fun s => s.tokens.length).sum := by
  have hk : k < p.length := by
    rcases Nat.lt_or_ge k p.length with h' | h'
    · exact h'
    · rw [List.getElem?_eq_none h'] at h; simp at h
  rw [List.drop_eq_getElem_cons hk]
  rw [List.getElem?_eq_getElem hk, Option.some.injEq] at h
  simp [h]

theorem rem_mono (p : List GSent) (k j : Nat) (h : k ≤ j) :
    ((p.drop j).map fun s => s.tokens.length).sum ≤ ((p.drop k).map fun s => s.tokens.length).sum := by
  induction h with
  | refl => exact Nat.le_refl _
  | step h ih =>
    rename_i m
    refine Nat.le_trans ?_ ih
    cases e : p[m]? with
    | none =>
      have : p.length ≤ m := by simpa using e
      rw [List.drop_of_length_le (by omega), List.drop_of_length_le this]
      simp
    | some s =>
      have := rem_drop p m s e
      simp only [Nat.succ_eq_add_one]
      omega

theorem getToken_spec (p : List GSent) (N : Nat) (hp : AllIn N p) (c : CapCtx) (h : PosOk p c) :
    ∃ t sent tok, getToken p c = some (t, { c with sent := sent, tok := tok }) ∧
      PosOk p { c with sent := sent, tok := tok } ∧ (t = none → sent = p.length) ∧
      ∀ t0, t = some t0 → TokIn N t0 ∧ rem p { c with sent := sent, tok := tok } < rem p c := by
  obtain ⟨h1, h2⟩ := h
  have hsk := skipped_le (p.drop c.sent)
  rw [List.length_drop] at hsk
  unfold getToken
  rw [if_neg (by omega)]
  simp only
  by_cases hk : c.sent + skipped (p.drop c.sent) = p.length
  · rw [if_pos hk]
    refine ⟨none, c.sent + skipped (p.drop c.sent), c.tok, rfl, ⟨Nat.le_of_eq hk, ?_⟩, fun _ => hk, by simp⟩
    rcases h2 with h2 | ⟨s, h2, h3, h4⟩
    · exact Or.inl h2
    · exfalso
      have hlt : c.sent < p.length := by
        rcases Nat.lt_or_ge c.sent p.length with h' | h'
        · exact h'
        · rw [List.getElem?_eq_none h'] at h2; simp at h2
      rw [List.getElem?_eq_getElem hlt, Option.some.injEq] at h2
      rw [List.drop_eq_getElem_cons hlt, skipped, h2, h3] at hk
      simp at hk
      omega
  · rw [if_neg hk]
    have hlt : c.sent + skipped (p.drop c.sent) < p.length := by omega
    obtain ⟨S, hs, hmem⟩ : ∃ S, p[c.sent + skipped (p.drop c.sent)]? = some S ∧ S ∈ p :=
      ⟨_, List.getElem?_eq_getElem hlt, List.getElem_mem hlt⟩
    have hns : shouldSkip S.tokens = false :=
      skipped_stop (p.drop c.sent) _ (by rw [List.getElem?_drop]; exact hs)
    -- the token index is valid
    have htok : c.tok < S.tokens.length ∧ (c.tok ≠ 0 → skipped (p.drop c.sent) = 0) := by
      rcases h2 with h2 | ⟨s, h2, h3, h4⟩
      · have := List.length_pos_iff.2 (shouldSkip_nonempty _ hns)
        exact ⟨by omega, fun h => absurd h2 h⟩
      · have hlt' : c.sent < p.length := by omega
        have e : skipped (p.drop c.sent) = 0 := by
          rw [List.getElem?_eq_getElem hlt', Option.some.injEq] at h2
          rw [List.drop_eq_getElem_cons hlt', skipped, h2, h3]
          simp
        refine ⟨?_, fun _ => e⟩
        rw [e, Nat.add_zero, h2, Option.some.injEq] at hs
        rw [← hs]; exact h4
    obtain ⟨htok, htok0⟩ := htok
    have hin : TokIn N S.tokens[c.tok] := hp _ hmem _ (List.getElem_mem htok)
    have hrem := rem_drop p (c.sent + skipped (p.drop c.sent)) _ hs
    have hmono := rem_mono p c.sent (c.sent + skipped (p.drop c.sent)) (by omega)
    rw [rd, hs]
    simp only [Option.bind_eq_bind, Option.bind_some]
    rw [rd_eq_some htok]
    simp only [Option.bind_some]
    generalize skipped (p.drop c.sent) = k at *
    by_cases hlast : S.tokens.length = c.tok + 1
    · rw [if_pos hlast]
      refine ⟨_, c.sent + k + 1, 0, rfl, ⟨by simp only; omega, Or.inl rfl⟩, by simp, ?_⟩
      rintro t0 ⟨⟩
      refine ⟨hin, ?_⟩
      unfold rem
      simp only
      by_cases h0 : c.tok = 0
      · omega
      · have := htok0 h0
        subst this
        simp only [Nat.add_zero] at hrem ⊢
        omega
    · rw [if_neg hlast]
      refine ⟨_, c.sent + k, c.tok + 1, rfl, ⟨by simp only; omega, Or.inr ⟨S, hs, hns, by simp only; omega⟩⟩, by simp, ?_⟩
      rintro t0 ⟨⟩
      refine ⟨hin, ?_⟩
      unfold rem
      simp only
      by_cases h0 : c.tok = 0
      · omega
      · have := htok0 h0
        subst this
        simp only [Nat.add_zero] at hrem ⊢
        omega

theorem untilWordLoop_spec (p : List GSent) (N : Nat) (hp : AllIn N p) (fuel : Nat) :
    ∀ c : CapCtx, PosOk p c → rem p c < fuel →
      ∃ seps sent tok bef nxt, untilWordLoop p fuel c = some (seps, { c with sent := sent, tok := tok, before := bef, next := nxt }) ∧
        PosOk p { c with sent := sent, tok := tok, before := bef, next := nxt } ∧
        (∀ t ∈ seps, TokIn N t) ∧ (∀ t, nxt = some t → TokIn N t) ∧
        (nxt = none → sent = p.length) ∧
        (rem p { c with sent := sent, tok := tok, before := bef, next := nxt } < rem p c ∨ sent = p.length) := by
  induction fuel with
  | zero => intro c _ h; omega
  | succ fuel ih =>
    intro c hc hf
    obtain ⟨t, sent, tok, h1, h2, h3, h4⟩ := getToken_spec p N hp c hc
    rw [untilWordLoop, h1]
    simp only [Option.bind_eq_bind, Option.bind_some]
    cases t with
    | none =>
      refine ⟨[], sent, tok, c.before, none, rfl, h2, by simp, by simp, fun _ => h3 rfl, Or.inr (h3 rfl)⟩
    | some t =>
      obtain ⟨h5, h6⟩ := h4 t rfl
      simp only
      by_cases hw : t.type = .word
      · rw [if_pos hw]
        exact ⟨[], sent, tok, c.before, some t, rfl, h2, by simp, by rintro _ ⟨⟩; exact h5, by simp, Or.inl h6⟩
      · rw [if_neg hw]
        obtain ⟨seps, sent', tok', bef, nxt, g1, g2, g3, g4, g5, g6⟩ :=
          ih { c with sent := sent, tok := tok, before := some t } h2 (by
            have : rem p { c with sent := sent, tok := tok, before := some t } < rem p c := h6
            omega)
        rw [g1]
        refine ⟨t :: seps, sent', tok', bef, nxt, rfl, g2, ?_, g4, g5, ?_⟩
        · intro u hu
          rcases List.mem_cons.1 hu with rfl | hu
          · exact h5
          · exact g3 u hu
        · rcases g6 with g6 | g6
          · left
            have e : rem p { c with sent := sent, tok := tok, before := some t } < rem p c := h6
            exact Nat.lt_trans g6 e
          · exact Or.inr g6

/-- `untilWord` when there is something left to read. -/
theorem untilWord_spec (p : List GSent) (N : Nat) (hp : AllIn N p) (c : CapCtx) (hc : CapInv p N c) :
    ∃ seps sent tok bef nxt, untilWord p c = some (seps, { c with sent := sent, tok := tok, before := bef, next := nxt }) ∧
      CapInv p N { c with sent := sent, tok := tok, before := bef, next := nxt } ∧ (∀ t ∈ seps, TokIn N t) ∧
      (nxt = none → sent = p.length) ∧
      (rem p { c with sent := sent, tok := tok, before := bef, next := nxt } < rem p c ∨ sent = p.length) := by
  have hr : rem p { c with before := c.next } ≤ tokenTotal p := by
    have := rem_mono p 0 c.sent (Nat.zero_le _)
    unfold rem tokenTotal
    simp only [List.drop_zero] at this
    simp only
    omega
  obtain ⟨seps, sent, tok, bef, nxt, g1, g2, g3, g4, g5, g6⟩ :=
    untilWordLoop_spec p N hp (tokenTotal p + 1) { c with before := c.next } hc.pos (by omega)
  exact ⟨seps, sent, tok, bef, nxt, g1, ⟨g2, g4, hc.errs⟩, g3, g5, g6⟩

theorem quoteStep_spec (N : Nat) (t : GTok) (ht : TokIn N t) (c : CapCtx) (has : Bool) (h : ∀ e ∈ c.errs, GoodErr N e) :
    ∃ q d es, (quoteStep t c has).1 = { c with quotes := q, ended := d, errs := es } ∧ ∀ e ∈ es, GoodErr N e := by
  unfold quoteStep
  simp only
  split
  · split
    · exact ⟨_, _, _, rfl, h⟩
    · split
      · exact ⟨_, _, _, rfl, h⟩
      · exact ⟨_, _, _, rfl, h⟩
  · split
    · exact ⟨_, _, _, rfl, h⟩
    · split
      · split
        · refine ⟨_, _, _, rfl, ?_⟩
          intro e he
          rcases List.mem_append.1 he with he | he
          · exact h e he
          · rw [List.mem_singleton] at he
            subst he
            have := List.length_pos_iff.2 ht.1
            have := ht.2
            exact ⟨by simp only; omega, by simp, by simp⟩
        · split
          · exact ⟨_, _, _, rfl, h⟩
          · exact ⟨c.quotes, c.ended, c.errs, rfl, h⟩
      · split
        · exact ⟨_, _, _, rfl, h⟩
        · exact ⟨c.quotes, c.ended, c.errs, rfl, h⟩

theorem pushPop_spec (N : Nat) (ts : List GTok) (ht : ∀ t ∈ ts, TokIn N t) :
    ∀ (c : CapCtx) (has : Bool), (∀ e ∈ c.errs, GoodErr N e) →
    ∃ q d es b, pushPop ts c has = ({ c with quotes := q, ended := d, errs := es }, b) ∧ ∀ e ∈ es, GoodErr N e := by
  induction ts with
  | nil => intro c has h; exact ⟨c.quotes, c.ended, c.errs, has, rfl, h⟩
  | cons t ts ih =>
    intro c has h
    rw [pushPop]
    split
    · obtain ⟨q, d, es, h1, h2⟩ := quoteStep_spec N t (ht t (by simp)) c has h
      obtain ⟨q', d', es', b, g1, g2⟩ := ih (fun u hu => ht u (by simp [hu])) (quoteStep t c has).1 (quoteStep t c has).2
        (by rw [h1]; exact h2)
      refine ⟨q', d', es', b, ?_, g2⟩
      rw [g1, h1]
    · exact ih (fun u hu => ht u (by simp [hu])) c has h

/-- What one call of a state function achieves. -/
def StepOk (p : List GSent) (N : Nat) (c : CapCtx) (r : UB (CapState × CapCtx)) : Prop :=
  ∃ st c', r = some (st, c') ∧ CapInv p N c' ∧ (rem p c' < rem p c ∨ c'.sent = p.length) ∧
    (c'.next = none → c'.sent = p.length) ∧ st ≠ .initial

theorem isListItem_some (w : GTok) (seps : List GTok) : ∃ b, isListItem (some w) seps = some b := by
  unfold isListItem
  split
  · exact ⟨_, rfl⟩
  · split
    · exact ⟨_, rfl⟩
    · exact ⟨_, rfl⟩

theorem StepOk.ret {p : List GSent} {N : Nat} {c c' : CapCtx} {st : CapState} (h1 : CapInv p N c')
    (h2 : rem p c' < rem p c ∨ c'.sent = p.length) (h3 : c'.next = none → c'.sent = p.length) (h4 : st ≠ .initial) :
    StepOk p N c (pure (st, c')) := ⟨st, c', rfl, h1, h2, h3, h4⟩

theorem inInitial_ok (o : GramOpts) (p : List GSent) (N : Nat) (hp : AllIn N p) (c : CapCtx) (hc : CapInv p N c) :
    StepOk p N c (inInitial o p c) := by
  obtain ⟨seps, sent, tok, bef, nxt, h1, h2, h3, h4, h5⟩ := untilWord_spec p N hp c hc
  obtain ⟨q, d, es, b, g1, g2⟩ := pushPop_spec N seps h3
    { c with sent := sent, tok := tok, before := bef, next := nxt } false h2.errs
  unfold inInitial
  rw [h1]
  simp only [Option.bind_eq_bind, Option.bind_some, g1]
  repeat' split
  all_goals exact StepOk.ret ⟨h2.pos, h2.next, g2⟩ h5 h4 (by simp)

theorem upperErr_spec (p : List GSent) (N : Nat) (w : GTok) (hw : TokIn N w) (c : CapCtx) (hc : CapInv p N c) :
    ∃ es, upperErr w c = some { c with errs := es } ∧ ∀ e ∈ es, GoodErr N e := by
  unfold upperErr
  split
  · unfold caseErr
    split
    · rename_i e; exact absurd e hw.1
    · rename_i c0 cs e
      refine ⟨_, rfl, ?_⟩
      intro x hx
      rcases List.mem_append.1 hx with hx | hx
      · exact hc.errs x hx
      · rw [List.mem_singleton] at hx
        subst hx
        exact ⟨hw.2, List.length_pos_iff.2 hw.1, by simp⟩
  · exact ⟨c.errs, rfl, hc.errs⟩

theorem lowerErr_spec (p : List GSent) (N : Nat) (w : GTok) (hw : TokIn N w) (c : CapCtx) (hc : CapInv p N c) :
    ∃ es, lowerErr w c = some { c with errs := es } ∧ ∀ e ∈ es, GoodErr N e := by
  unfold lowerErr
  split
  · unfold caseErr
    split
    · rename_i e; exact absurd e hw.1
    · rename_i c0 cs e
      refine ⟨_, rfl, ?_⟩
      intro x hx
      rcases List.mem_append.1 hx with hx | hx
      · exact hc.errs x hx
      · rw [List.mem_singleton] at hx
        subst hx
        exact ⟨hw.2, List.length_pos_iff.2 hw.1, by simp⟩
  · exact ⟨c.errs, rfl, hc.errs⟩

theorem inUpper_ok (o : GramOpts) (p : List GSent) (N : Nat) (hp : AllIn N p) (c : CapCtx) (hc : CapInv p N c)
    (hn : c.next ≠ none) : StepOk p N c (inUpper o p c) := by
  obtain ⟨w, hw⟩ : ∃ w, c.next = some w := by cases e : c.next with
    | none => exact absurd e hn
    | some w => exact ⟨w, rfl⟩
  have hwi := hc.next w hw
  obtain ⟨seps, sent, tok, bef, nxt, h1, h2, h3, h4, h5⟩ := untilWord_spec p N hp c hc
  obtain ⟨item, hi⟩ := isListItem_some w seps
  unfold inUpper
  simp only [h1, hw, hi, Option.bind_eq_bind, Option.bind_some]
  split
  · obtain ⟨q, d, es, b, g1, g2⟩ := pushPop_spec N (seps.drop 1) (fun t ht => h3 t (List.mem_of_mem_drop ht))
      { c with sent := sent, tok := tok, before := bef, next := nxt } false h2.errs
    simp only [hw] at g1
    rw [g1]
    exact StepOk.ret ⟨h2.pos, h2.next, g2⟩ h5 h4 (by simp)
  · obtain ⟨es, k1, k2⟩ := upperErr_spec p N w hwi { c with sent := sent, tok := tok, before := bef, next := nxt } h2
    obtain ⟨q, d, es', b, g1, g2⟩ := pushPop_spec N seps h3
      { c with sent := sent, tok := tok, before := bef, next := nxt, errs := es } false k2
    simp only [derefTok, pure, Option.bind_some, k1, g1]
    repeat' split
    all_goals exact StepOk.ret ⟨h2.pos, h2.next, g2⟩ h5 h4 (by simp)

theorem inLower_ok (p : List GSent) (N : Nat) (hp : AllIn N p) (c : CapCtx) (hc : CapInv p N c)
    (hn : c.next ≠ none) : StepOk p N c (inLower p c) := by
  obtain ⟨w, hw⟩ : ∃ w, c.next = some w := by cases e : c.next with
    | none => exact absurd e hn
    | some w => exact ⟨w, rfl⟩
  have hwi := hc.next w hw
  obtain ⟨es, k1, k2⟩ := lowerErr_spec p N w hwi c hc
  have hc' : CapInv p N { c with errs := es } := ⟨hc.pos, hc.next, k2⟩
  obtain ⟨seps, sent, tok, bef, nxt, h1, h2, h3, h4, h5⟩ := untilWord_spec p N hp _ hc'
  obtain ⟨item, hi⟩ := isListItem_some w seps
  simp only [hw] at k1 h1
  unfold inLower
  simp only [hw, derefTok, pure, Option.bind_eq_bind, Option.bind_some, k1, h1, hi]
  split
  · obtain ⟨q, d, es', b, g1, g2⟩ := pushPop_spec N (seps.drop 1) (fun t ht => h3 t (List.mem_of_mem_drop ht))
      { c with sent := sent, tok := tok, before := bef, next := nxt, errs := es } false h2.errs
    rw [g1]
    exact StepOk.ret ⟨h2.pos, h2.next, g2⟩ h5 h4 (by simp)
  · obtain ⟨q, d, es', b, g1, g2⟩ := pushPop_spec N seps h3
      { c with sent := sent, tok := tok, before := bef, next := nxt, errs := es } false h2.errs
    rw [g1]
    simp only
    repeat' split
    all_goals exact StepOk.ret ⟨h2.pos, h2.next, g2⟩ h5 h4 (by simp)

theorem inDontCare_ok (o : GramOpts) (p : List GSent) (N : Nat) (hp : AllIn N p) (c : CapCtx) (hc : CapInv p N c)
    (hn : c.next ≠ none) : StepOk p N c (inDontCare o p c) := by
  obtain ⟨w, hw⟩ : ∃ w, c.next = some w := by cases e : c.next with
    | none => exact absurd e hn
    | some w => exact ⟨w, rfl⟩
  obtain ⟨seps, sent, tok, bef, nxt, h1, h2, h3, h4, h5⟩ := untilWord_spec p N hp c hc
  obtain ⟨item, hi⟩ := isListItem_some w seps
  unfold inDontCare
  simp only [h1, hw, hi, Option.bind_eq_bind, Option.bind_some]
  split
  · obtain ⟨q, d, es, b, g1, g2⟩ := pushPop_spec N (seps.drop 1) (fun t ht => h3 t (List.mem_of_mem_drop ht))
      { c with sent := sent, tok := tok, before := bef, next := nxt } false h2.errs
    simp only [hw] at g1
    rw [g1]
    exact StepOk.ret ⟨h2.pos, h2.next, g2⟩ h5 h4 (by simp)
  · obtain ⟨q, d, es', b, g1, g2⟩ := pushPop_spec N seps h3
      { c with sent := sent, tok := tok, before := bef, next := nxt } false h2.errs
    rw [g1]
    simp only [derefTok, pure, Option.bind_some]
    split
    · exact StepOk.ret ⟨h2.pos, h2.next, g2⟩ h5 h4 (by simp)
    · split
      · exact StepOk.ret ⟨h2.pos, h2.next, g2⟩ h5 h4 (by simp)
      · have : ∃ b, (if o.titles = true then some (isChapterNumber w.str) else some false : UB Bool) = some b := by
          split <;> exact ⟨_, rfl⟩
        obtain ⟨b', hb'⟩ := this
        simp only [hb', Option.bind_some]
        repeat' split
        all_goals exact StepOk.ret ⟨h2.pos, h2.next, g2⟩ h5 h4 (by simp)

theorem inQuoted_ok (p : List GSent) (N : Nat) (hp : AllIn N p) (c : CapCtx) (hc : CapInv p N c) :
    StepOk p N c (inQuoted p c) := by
  obtain ⟨seps, sent, tok, bef, nxt, h1, h2, h3, h4, h5⟩ := untilWord_spec p N hp c hc
  obtain ⟨q, d, es, b, g1, g2⟩ := pushPop_spec N seps h3
    { c with sent := sent, tok := tok, before := bef, next := nxt } false h2.errs
  unfold inQuoted
  rw [h1]
  simp only [Option.bind_eq_bind, Option.bind_some, g1]
  repeat' split
  all_goals exact StepOk.ret ⟨h2.pos, h2.next, g2⟩ h5 h4 (by simp)

theorem capMore_pos (p : List GSent) (c : CapCtx) (h : capMore p c = true) : 0 < rem p c ∧ c.sent < p.length := by
  unfold capMore at h
  cases e : p[c.sent]? with
  | none => simp [e] at h
  | some s =>
    simp only [e, decide_eq_true_eq] at h
    have := rem_drop p c.sent s e
    have hlt : c.sent < p.length := by
      rcases Nat.lt_or_ge c.sent p.length with h' | h'
      · exact h'
      · rw [List.getElem?_eq_none h'] at e; simp at e
    unfold rem
    exact ⟨by omega, hlt⟩

theorem rem_end (p : List GSent) (c : CapCtx) (h : c.sent = p.length) : rem p c = 0 := by
  unfold rem
  rw [List.drop_of_length_le (by omega)]
  simp

theorem capLoop_spec (o : GramOpts) (p : List GSent) (N : Nat) (hp : AllIn N p) (fuel : Nat) :
    ∀ (st : CapState) (c : CapCtx), CapInv p N c → rem p c ≤ fuel →
      (st = .initial ∨ (c.next = none → c.sent = p.length)) →
      ∃ c', capLoop o p fuel st c = some c' ∧ CapInv p N c' := by
  induction fuel with
  | zero =>
    intro st c hc hr hst
    have hm : capMore p c = false := by
      cases e : capMore p c with
      | false => rfl
      | true => have := (capMore_pos p c e).1; omega
    exact ⟨c, by rw [capLoop, if_pos hm]; rfl, hc⟩
  | succ fuel ih =>
    intro st c hc hr hst
    cases hm : capMore p c with
    | false => exact ⟨c, by rw [capLoop, if_pos hm]; rfl, hc⟩
    | true =>
      obtain ⟨hpos, hlt⟩ := capMore_pos p c hm
      have hn : st ≠ .initial → c.next ≠ none := by
        intro h1 h2
        rcases hst with h | h
        · exact h1 h
        · have := h h2; omega
      have hstep : StepOk p N c (capStep o p st c) := by
        cases st with
        | initial => exact inInitial_ok o p N hp c hc
        | upper => exact inUpper_ok o p N hp c hc (hn (by simp))
        | lower => exact inLower_ok p N hp c hc (hn (by simp))
        | dontCare => exact inDontCare_ok o p N hp c hc (hn (by simp))
        | quoted => exact inQuoted_ok p N hp c hc
      obtain ⟨st', c', h1, h2, h3, h4, h5⟩ := hstep
      have hr' : rem p c' ≤ fuel := by
        rcases h3 with h3 | h3
        · omega
        · rw [rem_end p c' h3]; omega
      obtain ⟨c'', g1, g2⟩ := ih st' c' h2 hr' (Or.inr h4)
      refine ⟨c'', ?_, g2⟩
      rw [capLoop, if_neg (by simp [hm])]
      simp only [h1, Option.bind_eq_bind, Option.bind_some]
      exact g1

theorem capLoop_more (o : GramOpts) (p : List GSent) (fuel : Nat) :
    ∀ (st : CapState) (c c' : CapCtx), capLoop o p fuel st c = some c' → capLoop o p (fuel + 1) st c = some c' := by
  induction fuel with
  | zero =>
    intro st c c' h
    rw [capLoop] at h
    rw [capLoop.eq_def]
    simp only
    split
    · rename_i hm; rw [if_pos hm] at h; exact h
    · rename_i hm; rw [if_neg hm] at h; simp [ub] at h
  | succ fuel ih =>
    intro st c c' h
    rw [capLoop] at h ⊢
    split
    · rename_i hm; rw [if_pos hm] at h; exact h
    · rename_i hm
      rw [if_neg hm] at h
      simp only [Option.bind_eq_bind] at h ⊢
      cases e : capStep o p st c with
      | none => rw [e] at h; simp at h
      | some r =>
        rw [e] at h
        simp only [Option.bind_some] at h ⊢
        exact ih r.1 r.2 c' h

theorem capLoop_fuel (o : GramOpts) (p : List GSent) (fuel k : Nat) (st : CapState) (c c' : CapCtx)
    (h : capLoop o p fuel st c = some c') : capLoop o p (fuel + k) st c = some c' := by
  induction k with
  | zero => exact h
  | succ k ih => exact capLoop_more o p (fuel + k) st c c' ih

end Verif.Props
