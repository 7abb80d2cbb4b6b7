import Verif.Lemmas.FinnishVfst
/-!
# Lemmas about base forms, structure correction and debugging attributes: absence of undefined behaviour
-/

namespace Verif

theorem okBack {buf : List Wc} {n : Nat} (h : n ≤ buf.length) : Ok (back buf n) (fun b => b = buf.take n) :=
  ⟨_, by rw [back, if_pos h], rfl⟩

/-! ## `fixStructure` -/

theorem fixDg_length (k : Nat) : ∀ (st : List Wc) (n : Nat), (fixDg k n st).length = st.length := by
  intro st
  induction st with
  | nil => intro n; rfl
  | cons c r ih =>
    intro n
    rw [fixDg]
    split
    · rw [List.length_cons, List.length_cons, ih]
    · split <;> rw [List.length_cons, List.length_cons, ih]

theorem fixUpper_length : ∀ {st s : List Wc}, fixUpper st = some s → s.length = st.length := by
  intro st
  induction st with
  | nil => intro s h; cases h
  | cons c r ih =>
    intro s h
    rw [fixUpper] at h
    split at h
    · cases h; rfl
    · cases hr : fixUpper r with
      | none => rw [hr] at h; cases h
      | some t => rw [hr] at h; cases h; rw [List.length_cons, List.length_cons, ih hr]

theorem fixFind_ok (out : List Wc) : ∀ (f j : Nat), 0 < f → out.length < f + j →
    Ok (fixFind out f j) (fun r => j ≤ r.2) := by
  intro f
  induction f with
  | zero => intro j h; omega
  | succ f ih =>
    intro j _ h
    rw [fixFind]
    refine okIte (fun hj => ?_) fun _ => okSome (Nat.le_refl _)
    refine okBind (okCmpz (by omega) (by decide)) fun _ _ => ?_
    refine okIte (fun _ => okPure (by simp)) fun _ => ?_
    exact okMono (ih (j + 1) (by omega) (by omega)) fun r hr => by omega

/-- What corrections of a structure string leave alone: its length, and for each position whether the character is a case
letter (`i` or `p`) or which other character it is. -/
def SameShape (s t : List Wc) : Prop :=
  t.length = s.length ∧ ∀ k : Nat, ∀ x y, s[k]? = some x → t[k]? = some y → x = y ∨ (x = 0x69 ∨ x = 0x70) ∧ (y = 0x69 ∨ y = 0x70)

theorem SameShape.refl (s : List Wc) : SameShape s s :=
  ⟨rfl, fun k x y h1 h2 => Or.inl (by rw [h1] at h2; cases h2; rfl)⟩

theorem SameShape.trans {s t u : List Wc} (h1 : SameShape s t) (h2 : SameShape t u) : SameShape s u := by
  refine ⟨h2.1.trans h1.1, fun k x z hx hz => ?_⟩
  have hk : k < t.length := by
    have : k < s.length := (List.getElem?_eq_some_iff.1 hx).1
    rw [h1.1]; exact this
  have hy : t[k]? = some t[k] := List.getElem?_eq_getElem hk
  rcases h1.2 k x _ hx hy with e1 | e1 <;> rcases h2.2 k _ z hy hz with e2 | e2
  · left; rw [e1, e2]
  · right; exact ⟨by rw [e1]; exact e2.1, e2.2⟩
  · right; exact ⟨e1.1, by rw [← e2]; exact e1.2⟩
  · right; exact ⟨e1.1, e2.2⟩

theorem SameShape.cons {s t : List Wc} (c d : Wc) (hcd : c = d ∨ (c = 0x69 ∨ c = 0x70) ∧ (d = 0x69 ∨ d = 0x70))
    (h : SameShape s t) : SameShape (c :: s) (d :: t) := by
  refine ⟨by rw [List.length_cons, List.length_cons, h.1], fun k x y hx hy => ?_⟩
  cases k with
  | zero => cases hx; cases hy; exact hcd
  | succ k => exact h.2 k x y hx hy

theorem fixDg_shape (k : Nat) : ∀ (st : List Wc) (n : Nat), SameShape st (fixDg k n st) := by
  intro st
  induction st with
  | nil => intro n; exact SameShape.refl _
  | cons c r ih =>
    intro n
    rw [fixDg]
    split
    · rename_i hc
      refine SameShape.cons _ _ ?_ (ih n)
      split
      · exact Or.inr ⟨Or.inl hc, Or.inr rfl⟩
      · exact Or.inl rfl
    · split <;> exact SameShape.cons _ _ (Or.inl rfl) (ih _)

theorem fixUpper_shape : ∀ {st s : List Wc}, fixUpper st = some s → SameShape st s := by
  intro st
  induction st with
  | nil => intro s h; cases h
  | cons c r ih =>
    intro s h
    rw [fixUpper] at h
    split at h
    · rename_i hc
      cases h
      exact SameShape.cons _ _ (Or.inr ⟨hc, Or.inl rfl⟩) (SameShape.refl _)
    · cases hr : fixUpper r with
      | none => rw [hr] at h; cases h
      | some t => rw [hr] at h; cases h; exact SameShape.cons _ _ (Or.inl rfl) (ih hr)

theorem fixLoop_ok (out : List Wc) : ∀ (f j : Nat) (isDe : Bool) (n : Nat) (st : List Wc), 0 < f → out.length < f + j →
    Ok (fixLoop out f j isDe n st) (SameShape st) := by
  intro f
  induction f with
  | zero => intro j _ _ _ h; omega
  | succ f ih =>
    intro j isDe n st _ h
    rw [fixLoop]
    refine okIte (fun hj => ?_) fun _ => okSome (SameShape.refl _)
    have go : ∀ j' b n, j ≤ j' → Ok (fixLoop out f (j' + 1) b n st) (SameShape st) :=
      fun j' b n hj' => ih (j' + 1) b n st (by omega) (by omega)
    refine okBind (okRdz (by omega)) fun c _ => ?_
    refine okIte (fun hb => ?_) fun _ => ?_
    · refine okBind (okRdz (by omega)) fun _ _ => ?_
      refine okBind (okRdz (by omega)) fun _ _ => ?_
      refine okBind (okCmpz (by omega) (by decide)) fun _ _ => ?_
      refine okIte (fun _ => ?_) fun _ => ?_
      · refine okIte (fun _ => ?_) fun _ => okIte (fun _ => go _ _ _ (Nat.le_refl _)) fun _ => go _ _ _ (Nat.le_refl _)
        exact okMono (ih (j + 1) _ _ _ (by omega) (by omega)) fun s hs => (fixDg_shape n st 0).trans hs
      · exact okIte (fun _ => go _ _ _ (Nat.le_refl _)) fun _ => go _ _ _ (Nat.le_refl _)
    · refine okIte (fun _ => ?_) fun _ => go _ _ _ (Nat.le_refl _)
      refine okIte (fun _ => ?_) fun _ => go _ _ _ (Nat.le_refl _)
      refine okBind (P := fun r : Bool × Nat => j ≤ r.2) ?_ fun r hr => ?_
      · refine okIte (fun _ => okSome (by simp)) fun _ => ?_
        exact okMono (fixFind_ok out _ (j + 1) (by omega) (by omega)) fun r hr => by omega
      · obtain ⟨b, j'⟩ := r
        simp only
        refine okIte (fun _ => ?_) fun _ => go _ _ _ hr
        cases hu : fixUpper st with
        | none => exact go _ _ _ hr
        | some s => exact okPure (fixUpper_shape hu)

theorem fixStructure_ok (st out : List Wc) : Ok (fixStructure st out) (SameShape st) :=
  fixLoop_ok out _ _ _ _ _ (by omega) (by omega)

/-! ## `parseNumeralBaseform` -/

theorem nbBracket_ok (out : List Wc) (i : Nat) (s : NState) (hi : i < out.length) :
    Ok (nbBracket out i s) (fun r => ∀ j t, r = some (j, t) → i ≤ j ∧ t.bf = s.bf) := by
  rw [nbBracket]
  have key : ∀ s : NState, Ok (if i + 2 ≥ out.length then (pure none : UB (Option (Nat × NState))) else (do
      let xp ← cmpz out i (lit "[Xp]")
      let xj ← cmpz out i (lit "[Xj]")
      let xr ← cmpz out i (lit "[Xr]")
      let bc ← cmpz out i (lit "[Bc]")
      let ln ← cmpz out i (lit "[Ln]")
      let ll ← cmpz out i (lit "[Ll]")
      let lnl ← cmpz out i (lit "[Lnl]")
      let x ← cmpz out i (lit "[X]")
      if i + 6 < out.length ∧ (xp ∨ xj) then return some (i + 3, { s with isInXp := true })
      else if i + 6 < out.length ∧ xr then return some (i + 3, { s with isInXr := true })
      else if i + 4 = out.length ∧ bc then return none
      else if i + 6 < out.length ∧ bc then return some (i + 3, { s with xpPassed := false })
      else if i + 6 < out.length ∧ (ln ∨ ll ∨ lnl) then return none
      else if x then
        let s := if s.isInXp then { s with isInXp := false, xpPassed := true } else s
        return some (i + 2, { s with isInXr := false })
      else return some (i, { s with isInTag := true }))) (fun r => ∀ j t, r = some (j, t) → i ≤ j ∧ t.bf = s.bf) := by
    intro s
    refine okIte (fun _ => okPure (fun _ _ h => by cases h)) fun _ => ?_
    refine okBind (okCmpz (by omega) (by decide)) fun _ _ => ?_
    refine okBind (okCmpz (by omega) (by decide)) fun _ _ => ?_
    refine okBind (okCmpz (by omega) (by decide)) fun _ _ => ?_
    refine okBind (okCmpz (by omega) (by decide)) fun _ _ => ?_
    refine okBind (okCmpz (by omega) (by decide)) fun _ _ => ?_
    refine okBind (okCmpz (by omega) (by decide)) fun _ _ => ?_
    refine okBind (okCmpz (by omega) (by decide)) fun _ _ => ?_
    refine okBind (okCmpz (by omega) (by decide)) fun _ _ => ?_
    refine okIte (fun _ => okPure (fun _ _ h => by cases h; exact ⟨by omega, rfl⟩)) fun _ => ?_
    refine okIte (fun _ => okPure (fun _ _ h => by cases h; exact ⟨by omega, rfl⟩)) fun _ => ?_
    refine okIte (fun _ => okPure (fun _ _ h => by cases h)) fun _ => ?_
    refine okIte (fun _ => okPure (fun _ _ h => by cases h; exact ⟨by omega, rfl⟩)) fun _ => ?_
    refine okIte (fun _ => okPure (fun _ _ h => by cases h)) fun _ => ?_
    refine okIte (fun _ => okPure (fun _ _ h => ?_)) fun _ => okPure (fun _ _ h => by cases h; exact ⟨by omega, rfl⟩)
    cases h
    refine ⟨by omega, ?_⟩
    show (if s.isInXp then _ else s : NState).bf = s.bf
    split <;> rfl
  refine okMono (key _) fun r hr j t h => ?_
  have := hr j t h
  refine ⟨this.1, this.2.trans ?_⟩
  split <;> rfl

theorem nbStep_ok (out : List Wc) (cap i : Nat) (s : NState) (hi : i < out.length) (hc : s.bf.length < cap) :
    Ok (nbStep out cap i s) (fun r => ∀ j t, r = some (j, t) → i ≤ j ∧ t.bf.length ≤ s.bf.length + 1) := by
  rw [nbStep]
  refine okBind (okRdz (by omega)) fun c _ => ?_
  have hbf : (if i = 0 ∧ (isDigit c ∨ c = 0x2D) then { s with isInDigits := true } else s : NState).bf = s.bf := by
    split <;> rfl
  generalize (if i = 0 ∧ (isDigit c ∨ c = 0x2D) then { s with isInDigits := true } else s : NState) = s' at hbf ⊢
  simp only
  refine okIte (fun _ => ?_) fun _ => ?_
  · refine okMono (nbBracket_ok out i s' hi) fun r hr j t h => ?_
    have := hr j t h
    exact ⟨this.1, by rw [this.2, hbf]; omega⟩
  refine okIte (fun _ => okPure (fun _ _ h => by cases h; exact ⟨by omega, by rw [hbf]; omega⟩)) fun _ => ?_
  refine okIte (fun _ => okPure (fun _ _ h => ?_)) fun _ => ?_
  · cases h
    refine ⟨Nat.le_refl _, ?_⟩
    have : (if c = 0x5D then { s' with isInTag := false } else s' : NState).bf = s'.bf := by split <;> rfl
    rw [this, hbf]; omega
  have push1 : Ok (push cap s'.bf c >>= fun bf => pure (some (i, { s' with bf := bf })))
      (fun r => ∀ j t, r = some (j, t) → i ≤ j ∧ t.bf.length ≤ s.bf.length + 1) := by
    refine okBind (okPush (by rw [hbf]; exact hc)) fun b hb => okPure (fun _ _ h => ?_)
    cases h
    refine ⟨Nat.le_refl _, ?_⟩
    show b.length ≤ _
    rw [hb, hbf]; simp
  refine okIte (fun _ => push1) fun _ => okIte (fun _ => push1) fun _ => okPure (fun _ _ h => ?_)
  cases h
  exact ⟨Nat.le_refl _, by rw [hbf]; omega⟩

theorem nbLoop_ok (out : List Wc) (cap : Nat) (hcap : out.length < cap) : ∀ (f i : Nat) (s : NState), 0 < f →
    out.length < f + i → s.bf.length ≤ i → s.bf.length ≤ out.length →
    Ok (nbLoop out cap f i s) (fun r => ∀ b, r = some b → b.length < cap) := by
  intro f
  induction f with
  | zero => intro i s h; omega
  | succ f ih =>
    intro i s _ h hi hl
    rw [nbLoop]
    refine okIte (fun hlt => ?_) fun hge => ?_
    · refine okBind (nbStep_ok out cap i s hlt (by omega)) fun r hr => ?_
      cases r with
      | none => exact okPure (fun _ h => by cases h)
      | some x =>
        obtain ⟨j, t⟩ := x
        have := hr j t rfl
        exact ih (j + 1) t (by omega) (by omega) (by omega) (by omega)
    · rw [if_pos (by omega)]
      exact okSome (fun b h => by cases h; omega)

theorem parseNumeralBaseform_ok (out : List Wc) (cap : Nat) (hcap : out.length < cap) :
    Ok (parseNumeralBaseform out cap) (fun r => ∀ b, r = some b → b.length < cap) :=
  nbLoop_ok out cap hcap _ _ _ (by omega) (by omega) (by simp) (by simp)

/-! ## `parseBaseform` -/

theorem copyXp_ok (out : List Wc) (cap : Nat) (up : Option Nat) (e : Nat) (he : e ≤ out.length)
    (hstop : e = out.length ∨ out[e]? = some 0x5B) : ∀ (f i : Nat) (bf : List Wc), i ≤ e → out.length < f + i →
    bf.length + (e - i) ≤ cap → Ok (copyXp out cap up f i bf) (fun b => b.length ≤ bf.length + (e - i)) := by
  intro f
  induction f with
  | zero => intro i bf h1 h2; omega
  | succ f ih =>
    intro i bf h1 h2 h3
    rw [copyXp]
    refine okIte (fun hlt => ?_) fun _ => okSome (by omega)
    rw [rdz_lt hlt]
    refine okBind (okSome (P := fun c => c = out[i]) rfl) fun c hc => ?_
    refine okIte (fun hne => ?_) fun _ => okPure (by omega)
    have hie : i < e := by
      rcases hstop with h | h
      · omega
      · by_cases hie : i = e
        · subst hie
          rw [List.getElem?_eq_getElem hlt] at h
          have := Option.some.inj h
          exact absurd (hc.trans this) hne
        · omega
    refine okIte (fun _ => ?_) fun _ => ?_
    · refine okBind (okPush (by omega)) fun b hb => ?_
      have hbl : b.length = bf.length + 1 := by rw [hb]; simp
      exact okMono (ih (i + 1) b (by omega) (by omega) (by omega)) fun x hx => by omega
    · exact okMono (ih (i + 1) bf (by omega) (by omega) (by omega)) fun x hx => by omega

theorem findLep_ok (out : List Wc) : ∀ (f j : Nat), 0 < f → out.length < f + j → Ok (findLep out f j) (fun _ => True) := by
  intro f
  induction f with
  | zero => intro j h; omega
  | succ f ih =>
    intro j _ h
    rw [findLep]
    refine okIte (fun hj => ?_) fun _ => okSome trivial
    refine okBind (okCmpz (by omega) (by decide)) fun _ _ => ?_
    exact okIte (fun _ => okPure trivial) fun _ => ih (j + 1) (by omega) (by omega)

/-- The invariant of the loop of `parseBaseform` before position `i`. -/
structure BfInv (out : List Wc) (i : Nat) (s : FState) : Prop where
  le : s.bf.length ≤ i
  len : s.bf.length ≤ out.length
  xp : s.xpFst ≠ 0 → s.xpBase ≤ s.bf.length ∧ s.xpBase + 4 ≤ s.xpFst ∧ s.xpFst ≤ i ∧ s.xpFst ≤ out.length
  closed : s.xpFst ≠ 0 → s.isInXp = false → ∃ k, s.xpFst ≤ k ∧ k < i ∧ out[k]? = some 0x5B

theorem BfInv.mono {out : List Wc} {i j : Nat} {s : FState} (h : BfInv out i s) (hij : i ≤ j) : BfInv out j s :=
  ⟨Nat.le_trans h.le hij, h.len, fun hx => by have := h.xp hx; omega,
   fun hx hi => by obtain ⟨k, h1, h2, h3⟩ := h.closed hx hi; exact ⟨k, h1, by omega, h3⟩⟩

theorem bfBracket_ok (out : List Wc) (i : Nat) (s : FState) (hi : i < out.length) (hb : out[i] = 0x5B)
    (h : BfInv out i s) :
    Ok (bfBracket out (out.length + 1) i s) (fun r => ∀ j t, r = .inr (j, t) → i ≤ j ∧ BfInv out (j + 1) t) := by
  have hbr : out[i]? = some 0x5B := by rw [List.getElem?_eq_getElem hi, hb]
  have hx := h.xp
  have hc := h.closed
  have hle := h.le
  have hlen := h.len
  -- changes of the flags other than the ones about `[Xp]` sections
  have same : ∀ (j : Nat) (t : FState), i ≤ j → t.bf = s.bf → t.xpFst = s.xpFst → t.xpBase = s.xpBase →
      (t.isInXp = s.isInXp ∨ t.isInXp = false) → BfInv out (j + 1) t := by
    intro j t hj h1 h2 h3 h4
    refine ⟨by rw [h1]; omega, by rw [h1]; omega, fun h0 => ?_, fun h0 h5 => ?_⟩
    · rw [h1, h3]; rw [h2] at h0 ⊢; have := hx h0; omega
    · rw [h2] at h0 ⊢
      have := hx h0
      exact ⟨i, by omega, by omega, hbr⟩
  rw [bfBracket]
  refine okIte (fun _ => okSome (fun _ _ h => by cases h)) fun h2 => ?_
  refine okBind (okRdz (by omega)) fun c1 _ => ?_
  refine okBind (okRdz (by omega)) fun c2 _ => ?_
  refine okBind (P := fun _ => True) ?_ fun c3 _ => ?_
  · exact okIte (fun _ => okMono (okRdz (by omega)) fun _ _ => trivial) fun _ => okSome trivial
  refine okBind (okCmpz (by omega) (by decide)) fun lu _ => ?_
  refine okBind (okCmpz (by omega) (by decide)) fun de _ => ?_
  refine okIte (fun _ => ?_) fun _ => ?_
  · refine okIte (fun _ => okPure (fun _ _ h => ?_)) fun _ => ?_
    · cases h; exact ⟨by omega, same _ _ (by omega) rfl rfl rfl (Or.inr rfl)⟩
    refine okIte (fun h6 => ?_) fun _ => okPure (fun _ _ h => ?_)
    · refine okIte (fun _ => okPure (fun _ _ h => ?_)) fun _ => ?_
      · cases h
        refine ⟨by omega, by show s.bf.length ≤ _; omega, hlen, fun _ => ?_, fun _ h5 => by cases h5⟩
        show s.bf.length ≤ s.bf.length ∧ s.bf.length + 4 ≤ i + 4 ∧ i + 4 ≤ i + 3 + 1 ∧ i + 4 ≤ out.length
        omega
      refine okIte (fun _ => okPure (fun _ _ h => ?_)) fun _ => okPure (fun _ _ h => ?_)
      · cases h; exact ⟨by omega, same _ _ (by omega) rfl rfl rfl (Or.inl rfl)⟩
      · cases h; exact ⟨by omega, same _ _ (by omega) rfl rfl rfl (Or.inl rfl)⟩
    · cases h; exact ⟨by omega, same _ _ (by omega) rfl rfl rfl (Or.inl rfl)⟩
  refine okIte (fun h6 => ?_) fun _ => ?_
  · refine okBind (parseNumeralBaseform_ok (out.drop (i + 4)) _ (by rw [List.length_drop]; omega)) fun r _ => ?_
    cases r with
    | none =>
      refine okPure (fun _ _ h => ?_)
      cases h; exact ⟨by omega, same _ _ (by omega) rfl rfl rfl (Or.inl rfl)⟩
    | some nb => exact okPure (fun _ _ h => by cases h)
  refine okIte (fun _ => okPure (fun _ _ h => ?_)) fun _ => ?_
  · cases h; exact ⟨by omega, same _ _ (by omega) rfl rfl rfl (Or.inl rfl)⟩
  refine okIte (fun _ => ?_) fun _ => okPure (fun _ _ h => ?_)
  · refine okBind (P := fun _ => True) ?_ fun ig _ => okPure (fun _ _ h => ?_)
    · refine okIte (fun _ => okSome trivial) fun _ => ?_
      exact okBind (okCmpz (by omega) (by decide)) fun _ _ => okPure trivial
    · cases h; exact ⟨by omega, same _ _ (by omega) rfl rfl rfl (Or.inl rfl)⟩
  · cases h; exact ⟨by omega, same _ _ (by omega) rfl rfl rfl (Or.inl rfl)⟩

theorem bfHyphen_ok (out : List Wc) (i : Nat) (s : FState) (hi : i < out.length) (hn : s.isInXp = false)
    (h : BfInv out i s) : Ok (bfHyphen out (out.length + 1) i s) (BfInv out i) := by
  have hx := h.xp
  have hc := h.closed
  have hle := h.le
  have hlen := h.len
  rw [bfHyphen]
  refine okIte (fun _ => okSome ⟨hle, hlen, hx, hc⟩) fun _ => ?_
  refine okBind (P := fun t : FState => t.bf.length ≤ i) ?_ fun t ht => okPure ⟨ht, by
    show t.bf.length ≤ _; omega, fun h => absurd rfl h, fun h => absurd rfl h⟩
  refine okIte (fun hd => ?_) fun _ => okSome hle
  have hx' := hx hd.2
  obtain ⟨k, hk1, hk2, hk3⟩ := hc hd.2 hn
  rw [if_neg (by omega)]
  refine okBind (okCmpz (by omega) (by decide)) fun _ _ => ?_
  refine okIte (fun _ => ?_) fun _ => okPure hle
  refine okBind (findLep_ok out _ i (by omega) (by omega)) fun _ _ => ?_
  refine okIte (fun _ => ?_) fun _ => okPure hle
  refine okBind (okBack hx'.1) fun bk hbk => ?_
  have hbl : bk.length = s.xpBase := by rw [hbk, List.length_take]; omega
  refine okBind (copyXp_ok out _ _ k (by omega) (Or.inr hk3) _ s.xpFst bk hk1 (by omega) (by omega)) fun b hb =>
    okPure ?_
  show b.length ≤ i
  omega

theorem bfStep_ok (out : List Wc) (i : Nat) (s : FState) (hi : i < out.length) (h : BfInv out i s) :
    Ok (bfStep out (out.length + 1) i s) (fun r => ∀ j t, r = .inr (j, t) → i ≤ j ∧ BfInv out (j + 1) t) := by
  rw [bfStep, rdz_lt hi]
  refine okBind (okSome (P := fun c => c = out[i]) rfl) fun c hc => ?_
  have hs := h.mono (Nat.le_succ i)
  refine okIte (fun hb => bfBracket_ok out i s hi (hc ▸ hb) h) fun _ => ?_
  refine okIte (fun _ => okPure (fun _ _ e => by cases e; exact ⟨Nat.le_refl _, hs⟩)) fun _ => ?_
  refine okIte (fun _ => okPure (fun _ _ e => ?_)) fun _ => ?_
  · cases e
    refine ⟨Nat.le_refl _, ?_⟩
    split
    · exact ⟨hs.le, hs.len, hs.xp, hs.closed⟩
    · exact hs
  refine okIte (fun _ => okPure (fun _ _ e => ?_)) fun hnx => ?_
  · cases e
    refine ⟨Nat.le_refl _, ?_⟩
    split
    · exact ⟨hs.le, hs.len, hs.xp, hs.closed⟩
    · exact hs
  have hnx' : s.isInXp = false := by simpa using hnx
  refine okBind (P := BfInv out i) ?_ fun t ht => ?_
  · exact okIte (fun _ => bfHyphen_ok out i s hi hnx' h) fun _ => okSome h
  · have htl := ht.le
    have htx := ht.xp
    cases applyPattern c t.sp with
    | mk d sp =>
      simp only
      refine okBind (okPush (by omega)) fun b hb => okPure (fun _ _ e => ?_)
      cases e
      have hbl : b.length = t.bf.length + 1 := by rw [hb]; simp
      refine ⟨Nat.le_refl _, by show b.length ≤ _; omega, by show b.length ≤ _; omega, fun h0 => ?_, fun h0 h1 => ?_⟩
      · have := htx h0
        show t.xpBase ≤ b.length ∧ t.xpBase + 4 ≤ t.xpFst ∧ t.xpFst ≤ i + 1 ∧ t.xpFst ≤ out.length
        omega
      · obtain ⟨k, h2, h3, h4⟩ := ht.closed h0 h1
        exact ⟨k, h2, by omega, h4⟩

theorem bfLoop_ok (out : List Wc) : ∀ (f i : Nat) (s : FState), 0 < f → out.length < f + i → BfInv out i s →
    Ok (bfLoop out (out.length + 1) f i s) (fun _ => True) := by
  intro f
  induction f with
  | zero => intro i s h; omega
  | succ f ih =>
    intro i s _ h hs
    rw [bfLoop]
    refine okIte (fun hlt => ?_) fun _ => ?_
    · refine okBind (bfStep_ok out i s hlt hs) fun r hr => ?_
      cases r with
      | inl x => exact okPure trivial
      | inr x =>
        obtain ⟨j, t⟩ := x
        have := hr j t rfl
        exact ih (j + 1) t (by omega) (by omega) this.2
    · refine okBind (P := fun b : List Wc => b.length ≤ out.length) ?_ fun b hb => ?_
      · refine okIte (fun hx => ?_) fun _ => okSome hs.len
        have hx' := hs.xp hx
        refine okBind (okBack hx'.1) fun bk hbk => ?_
        have hbl : bk.length = s.xpBase := by rw [hbk, List.length_take]; omega
        exact okMono (copyXp_ok out _ _ out.length (Nat.le_refl _) (Or.inl rfl) _ s.xpFst bk (by omega) (by omega) (by omega))
          fun b hb => by omega
      · refine okIte (fun _ => okPure trivial) fun _ => ?_
        rw [if_pos (by omega)]
        exact okPure trivial

theorem parseBaseform_ok (out st : List Wc) : Ok (parseBaseform out st) (fun _ => True) :=
  bfLoop_ok out _ _ _ (by omega) (by omega)
    ⟨by simp, by simp, fun h => absurd rfl h, fun h => absurd rfl h⟩

/-! ## `parseDebugAttributes` -/

theorem okPushAll {cap : Nat} : ∀ {l buf : List Wc}, buf.length + l.length ≤ cap →
    Ok (pushAll cap l buf) (fun b => b = buf ++ l) := by
  intro l
  induction l with
  | nil => intro buf _; exact okSome (by simp)
  | cons c r ih =>
    intro buf h
    rw [List.length_cons] at h
    rw [pushAll]
    refine okBind (okPush (by omega)) fun b hb => ?_
    have hbl : b.length = buf.length + 1 := by rw [hb]; simp
    exact okMono (ih (by omega)) fun x hx => by rw [hx, hb]; simp

/-- What is still to be written to the word ids because of an `[Xs]` section of length `l`. -/
def cS (l : Nat) (inXs inTag : Bool) : Nat :=
  if l > 0 then l + 3 else if inXs then (if inTag then 1 else 3) else 0

/-- What is still to be written to the word bases because of an `[Xp]` or `[Xj]` section of length `l`. -/
def cP (l : Nat) (inXp inXj inTag : Bool) : Nat :=
  if l > 0 then 2 * l + 2 else if inXp || inXj then (if inTag then 2 else 4) else 0

/-- `cS` for a state. -/
abbrev costS (d : DState) : Nat := cS d.xs.length d.inXs d.inTag

/-- `cP` for a state. -/
abbrev costP (d : DState) : Nat := cP d.xp.length d.inXp d.inXj d.inTag

theorem cS_pos {l : Nat} (h : 0 < l) (x t : Bool) : cS l x t = l + 3 := by rw [cS, if_pos h]

theorem cP_pos {l : Nat} (h : 0 < l) (x j t : Bool) : cP l x j t = 2 * l + 2 := by rw [cP, if_pos h]

theorem cS_le (x t : Bool) : cS 0 x t ≤ 3 := by cases x <;> cases t <;> decide

theorem cP_le (x j t : Bool) : cP 0 x j t ≤ 4 := by cases x <;> cases j <;> cases t <;> decide

theorem cS_tag (l : Nat) (x t : Bool) : cS l x true ≤ cS l x t := by
  simp only [cS]; split
  · exact Nat.le_refl _
  · cases x <;> cases t <;> decide

theorem cP_tag (l : Nat) (x j t : Bool) : cP l x j true ≤ cP l x j t := by
  simp only [cP]; split
  · exact Nat.le_refl _
  · cases x <;> cases j <;> cases t <;> decide

theorem cS_untag (l : Nat) (x t : Bool) : cS l x false ≤ cS l x t + 2 := by
  simp only [cS]; split
  · omega
  · cases x <;> cases t <;> decide

theorem cP_untag (l : Nat) (x j t : Bool) : cP l x j false ≤ cP l x j t + 2 := by
  simp only [cP]; split
  · omega
  · cases x <;> cases j <;> cases t <;> decide

theorem cS_closed (l : Nat) (x t : Bool) : cS l false t ≤ cS l x t := by
  simp only [cS]; split
  · exact Nat.le_refl _
  · cases x <;> cases t <;> decide

theorem cP_closed (l : Nat) (x j t : Bool) : cP l false false t ≤ cP l x j t := by
  simp only [cP]; split
  · exact Nat.le_refl _
  · cases x <;> cases j <;> cases t <;> decide

/-- The invariant of the loop of `parseDebugAttributes` when `m` characters have been read. -/
structure DbInv (m : Nat) (d : DState) : Prop where
  ids : d.ids.length + d.xp.length + costS d ≤ 2 * m
  bases : d.bases.length + costP d ≤ 2 * m
  idLast : d.idLast ≤ d.ids.length
  baseLast : d.baseLast ≤ d.bases.length
  last : d.baseLast = 0 ∨ 1 ≤ d.idLast
  content : d.inContent = true → 1 ≤ d.ids.length
  xs : d.xs.length ≤ m
  xp : d.xp.length ≤ m
  xj : d.inXj = true → 1 ≤ m

/-- `debugContentEnd` moves what is pending to the buffers. -/
theorem debugContentEnd_ok (cap : Nat) (d : DState) (h1 : d.ids.length + costS d ≤ cap) (h2 : d.bases.length + costP d ≤ cap) :
    Ok (debugContentEnd cap d) (fun e => e = { d with ids := e.ids, bases := e.bases, xs := [], xp := [] }
      ∧ e.ids.length = d.ids.length + (if d.xs.length > 0 then d.xs.length + 3 else 0)
      ∧ e.bases.length = d.bases.length + (if d.xp.length > 0 then d.xp.length + 2 else 0)) := by
  rw [debugContentEnd]
  refine okBind (P := fun e => e = { d with ids := e.ids, xs := [] }
      ∧ e.ids.length = d.ids.length + (if d.xs.length > 0 then d.xs.length + 3 else 0)) ?_ fun e he => ?_
  · refine okIte (fun h => ?_) fun h => okSome ?_
    · rw [costS, cS, if_pos h] at h1
      refine okBind (okPushAll (by simp [lit]; omega)) fun b hb => okPure ⟨rfl, ?_⟩
      rw [if_pos h, hb]
      simp [lit]
    · have hxs : d.xs = [] := List.length_eq_zero_iff.1 (by omega)
      refine ⟨by cases d; simp only at hxs; subst hxs; rfl, by rw [if_neg h]; rfl⟩
  · obtain ⟨he1, he2⟩ := he
    have hxp : e.xp = d.xp := by rw [he1]
    have hba : e.bases = d.bases := by rw [he1]
    refine okIte (fun h => ?_) fun h => okPure ?_
    · rw [hxp] at h
      rw [costP, cP, if_pos h] at h2
      refine okBind (okPushAll (by rw [hba, hxp]; simp [lit]; omega)) fun b hb => okPure ⟨?_, he2, ?_⟩
      · rw [he1]
      · show b.length = _
        rw [if_pos h, hb, hba, hxp]
        simp [lit]
    · rw [hxp] at h
      have hxp0 : d.xp = [] := List.length_eq_zero_iff.1 (by omega)
      refine ⟨?_, he2, by rw [if_neg h, hba]; rfl⟩
      conv => lhs; rw [he1]
      rw [← hba]
      cases d; simp only at hxp0 ⊢; subst hxp0; rfl

theorem DbInv.of {m : Nat} {d : DState} (h : DbInv m d) {n : Nat} (hmn : m ≤ n) : DbInv n d :=
  ⟨by have := h.ids; omega, by have := h.bases; omega, h.idLast, h.baseLast, h.last, h.content,
   by have := h.xs; omega, by have := h.xp; omega, fun hx => by have := h.xj hx; omega⟩

theorem dbBoundary_ok (n i : Nat) (hy : Bool) (d : DState) (h : DbInv i d) (hi : (if hy then i + 2 else i + 1) ≤ n) :
    Ok (dbBoundary (2 * n + 1) i hy d) (fun r => i ≤ r.1 ∧ DbInv (min (r.1 + 1) n) r.2) := by
  obtain ⟨k1, k2, k3, k4, k5, k6, k7, k8, k9⟩ := h
  simp only [costS, costP] at k1 k2
  have hin : i + 1 ≤ n := by split at hi <;> omega
  have t1 := cS_tag d.xs.length d.inXs d.inTag
  have t2 := cP_tag d.xp.length d.inXp d.inXj d.inTag
  rw [dbBoundary]
  refine okBind (debugContentEnd_ok _ _ ?_ ?_) fun e he => ?_
  · show d.ids.length + cS d.xs.length d.inXs true ≤ _
    omega
  · show d.bases.length + cP d.xp.length d.inXp d.inXj true ≤ _
    omega
  · obtain ⟨he1, he2, he3⟩ := he
    simp only at he2 he3
    -- the costs after the flush
    have f1 : e.ids.length + cS 0 d.inXs true ≤ 2 * i + 1 := by
      rw [he2]
      split
      · rename_i hp
        rw [cS_pos hp] at k1
        have : cS 0 d.inXs true ≤ 1 := by cases d.inXs <;> decide
        omega
      · rename_i hp
        have h0 : d.xs.length = 0 := by omega
        rw [h0] at t1 k1
        omega
    have f2 : e.bases.length + cP 0 d.inXp d.inXj true ≤ 2 * i + 1 := by
      rw [he3]
      split
      · rename_i hp
        rw [cP_pos hp] at k2
        have : cP 0 d.inXp d.inXj true ≤ 2 := by cases d.inXp <;> cases d.inXj <;> decide
        omega
      · rename_i hp
        have h0 : d.xp.length = 0 := by omega
        rw [h0] at t2 k2
        omega
    have l1 : d.ids.length ≤ e.ids.length := by rw [he2]; omega
    have l2 : d.bases.length ≤ e.bases.length := by rw [he3]; omega
    -- the state with given buffers
    have fin : ∀ (ids bases : List Wc) (j : Nat), e.ids.length ≤ ids.length → e.bases.length ≤ bases.length →
        ids.length + cS 0 d.inXs true ≤ 2 * j → bases.length + cP 0 d.inXp d.inXj true ≤ 2 * j → 1 ≤ j →
        DbInv j { e with ids := ids, bases := bases } := by
      intro ids bases j a1 a2 a3 a4 a5
      rw [he1]
      exact ⟨a3, a4, by show d.idLast ≤ ids.length; omega, by show d.baseLast ≤ bases.length; omega, k5,
        fun hc => (by cases hc), by simp, by simp, fun _ => a5⟩
    refine okIte (fun hh => ?_) fun hh => okPure ⟨Nat.le_refl _, ?_⟩
    · rw [if_pos hh] at hi
      have p2 : (lit "+-").length = 2 := by decide
      refine okBind (okPushAll (by rw [p2]; omega)) fun ids hids => ?_
      refine okBind (okPushAll (by rw [p2]; omega)) fun bases hbases => ?_
      have hl1 : ids.length = e.ids.length + 2 := by rw [hids, List.length_append, p2]
      have hl2 : bases.length = e.bases.length + 2 := by rw [hbases, List.length_append, p2]
      refine okPure ⟨by simp, ?_⟩
      have hm : min (i + 1 + 1) n = i + 2 := by omega
      simp only [hm]
      exact fin ids bases (i + 2) (by omega) (by omega) (by omega) (by omega) (by omega)
    · have hm : min (i + 1) n = i + 1 := by omega
      simp only [hm]
      exact fin e.ids e.bases (i + 1) (Nat.le_refl _) (Nat.le_refl _) (by omega) (by omega) (by omega)

theorem dbBracket_ok (out : List Wc) (i : Nat) (d : DState) (hi : i + 2 < out.length) (h : DbInv i d) :
    Ok (dbBracket out (2 * out.length + 1) i d) (fun r => i ≤ r.1 ∧ DbInv (min (r.1 + 1) out.length) r.2) := by
  have h0 := h
  obtain ⟨k1, k2, k3, k4, k5, k6, k7, k8, k9⟩ := h
  simp only [costS, costP] at k1 k2
  have hm : i + 3 ≤ min (i + 3 + 1) out.length := by omega
  have cs := cS_le d.inXs d.inTag
  rw [dbBracket]
  refine okBind (okRdz (by omega)) fun c1 _ => ?_
  refine okBind (okRdz (by omega)) fun c2 _ => ?_
  refine okIte (fun _ => ?_) fun _ => okPure ⟨Nat.le_refl _, ?_⟩
  · refine okIte (fun _ => okPure ⟨by simp, DbInv.of (m := i + 3) ?_ hm⟩) fun _ => ?_
    · have := cS_le true d.inTag
      exact ⟨by show d.ids.length + d.xp.length + cS 0 true d.inTag ≤ _; omega,
        by show d.bases.length + cP d.xp.length d.inXp d.inXj d.inTag ≤ _; omega, k3, k4, k5, k6, by simp,
        by show d.xp.length ≤ _; omega, fun _ => by omega⟩
    refine okIte (fun _ => okPure ⟨by simp, DbInv.of (m := i + 3) ?_ hm⟩) fun _ => ?_
    · have := cP_le true d.inXj d.inTag
      exact ⟨by show d.ids.length + 0 + cS d.xs.length d.inXs d.inTag ≤ _; omega,
        by show d.bases.length + cP 0 true d.inXj d.inTag ≤ _; omega, k3, k4, k5, k6, by show d.xs.length ≤ _; omega,
        by simp, fun _ => by omega⟩
    refine okIte (fun _ => ?_) fun _ => ?_
    · refine okBind (P := fun e => DbInv (i + 3) { e with inXj := true, xp := [] }) ?_ fun e he =>
        okPure ⟨by simp, DbInv.of he hm⟩
      have c4 := cP_le d.inXp true d.inTag
      refine okIte (fun hc => ?_) fun _ => okSome ?_
      · refine okBind (debugContentEnd_ok _ _ ?_ ?_) fun e he => okPure ?_
        · show d.ids.length + cS d.xs.length d.inXs d.inTag ≤ _
          omega
        · show d.bases.length + cP d.xp.length d.inXp d.inXj d.inTag ≤ _
          omega
        · obtain ⟨he1, he2, he3⟩ := he
          have f1 : e.ids.length ≤ 2 * i := by
            rw [he2]
            split
            · rename_i hp; rw [cS_pos hp] at k1; omega
            · omega
          have f2 : e.bases.length ≤ 2 * i := by
            rw [he3]
            split
            · rename_i hp; rw [cP_pos hp] at k2; omega
            · omega
          have l1 : d.ids.length ≤ e.ids.length := by rw [he2]; omega
          rw [he1]
          exact ⟨by show e.ids.length + 0 + cS 0 d.inXs d.inTag ≤ _; omega,
            by show e.bases.length + cP 0 d.inXp true d.inTag ≤ _; omega, Nat.le_refl _, Nat.le_refl _,
            Or.inr (by have := k6 hc; show 1 ≤ e.ids.length; omega), fun _ => by have := k6 hc; show 1 ≤ e.ids.length; omega,
            by simp, by simp, fun _ => by omega⟩
      · exact ⟨by show d.ids.length + 0 + cS d.xs.length d.inXs d.inTag ≤ _; omega,
          by show d.bases.length + cP 0 d.inXp true d.inTag ≤ _; omega, k3, k4, k5, k6, by show d.xs.length ≤ _; omega,
          by simp, fun _ => by omega⟩
    refine okIte (fun _ => okPure ⟨by simp, ?_⟩) fun _ => okPure ⟨by simp, ?_⟩
    · have a1 := cS_closed d.xs.length d.inXs d.inTag
      have a2 := cP_closed d.xp.length d.inXp d.inXj d.inTag
      refine DbInv.of (m := i) (show DbInv i { d with inXs := false, inXp := false, inXj := false, inXOther := false } from
        ⟨?_, ?_, k3, k4, k5, k6, k7, k8, fun hc => by cases hc⟩) (by show i ≤ min (i + 2 + 1) _; omega)
      · show d.ids.length + d.xp.length + cS d.xs.length false d.inTag ≤ _; omega
      · show d.bases.length + cP d.xp.length false false d.inTag ≤ _; omega
    · exact DbInv.of (m := i) (show DbInv i { d with inXOther := true } from ⟨k1, k2, k3, k4, k5, k6, k7, k8, k9⟩)
        (by show i ≤ min (i + 3 + 1) _; omega)
  · have t1 := cS_tag d.xs.length d.inXs d.inTag
    have t2 := cP_tag d.xp.length d.inXp d.inXj d.inTag
    refine DbInv.of (m := i) (show DbInv i { d with inTag := true } from ⟨?_, ?_, k3, k4, k5, k6, k7, k8, k9⟩)
      (by show i ≤ min (i + 1) _; omega)
    · show d.ids.length + d.xp.length + cS d.xs.length d.inXs true ≤ _; omega
    · show d.bases.length + cP d.xp.length d.inXp d.inXj true ≤ _; omega

theorem dbChar_ok (n i : Nat) (c : Wc) (d : DState) (hi : i < n) (h : DbInv i d) :
    Ok (dbChar (2 * n + 1) n c d) (DbInv (i + 1)) := by
  have h0 := h
  obtain ⟨k1, k2, k3, k4, k5, k6, k7, k8, k9⟩ := h
  simp only [costS, costP] at k1 k2
  have xsb : ∀ x, cS (d.xs.length + 1) true x ≤ cS d.xs.length true false + 2 := by
    intro x
    rw [cS_pos (by omega)]
    rcases Nat.eq_zero_or_pos d.xs.length with h | h
    · rw [h]; decide
    · rw [cS_pos h]; omega
  rw [dbChar]
  refine okIte (fun _ => okSome (h0.of (Nat.le_succ _))) fun hnt => ?_
  have ht : d.inTag = false := by
    cases hb : d.inTag with
    | false => rfl
    | true => exact absurd (Or.inl hb) hnt
  refine okIte (fun hx => ?_) fun _ => ?_
  · refine okBind (okPush (by omega)) fun b hb => okPure ?_
    have hbl : b.length = d.xs.length + 1 := by rw [hb]; simp
    have e1 : cS d.xs.length d.inXs d.inTag = cS d.xs.length true false := by rw [hx, ht]
    have := xsb d.inTag
    refine ⟨?_, ?_, k3, k4, k5, k6, by show b.length ≤ _; omega, by show d.xp.length ≤ _; omega, fun _ => by omega⟩
    · show d.ids.length + d.xp.length + cS b.length d.inXs d.inTag ≤ _
      rw [hbl, hx]; omega
    · show d.bases.length + cP d.xp.length d.inXp d.inXj d.inTag ≤ _; omega
  have xpb : ∀ l x j t, 0 < l → d.xp.length + 1 ≤ l → l ≤ d.xp.length + 2 → (d.xp.length + 1 < l → d.xp.length = 0) →
      (d.inXp || d.inXj) = true → cP l x j t ≤ cP d.xp.length d.inXp d.inXj d.inTag + 2 := by
    intro l x j t hl h1 h1' h2 h3
    rw [cP_pos hl]
    rcases Nat.eq_zero_or_pos d.xp.length with h | h
    · have : cP d.xp.length d.inXp d.inXj d.inTag = 4 := by
        simp only [cP, h, ht, h3]; decide
      rw [this]; omega
    · have : cP d.xp.length d.inXp d.inXj d.inTag = 2 * d.xp.length + 2 := cP_pos h _ _ _
      rw [this]
      by_cases hlt : d.xp.length + 1 < l
      · have := h2 hlt; omega
      · omega
  -- one more character, or two, in the buffer of base forms
  have xpFin : ∀ b : List Wc, d.xp.length + 1 ≤ b.length → b.length ≤ d.xp.length + 2 → b.length ≤ i + 1 →
      (d.xp.length + 1 < b.length → d.xp.length = 0) → (d.inXp || d.inXj) = true → DbInv (i + 1) { d with xp := b } := by
    intro b h1 h1' h2 h3 h4
    have := xpb b.length d.inXp d.inXj d.inTag (by omega) h1 h1' h3 h4
    refine ⟨?_, ?_, k3, k4, k5, k6, by show d.xs.length ≤ _; omega, h2, fun _ => by omega⟩
    · show d.ids.length + b.length + cS d.xs.length d.inXs d.inTag ≤ _
      omega
    · show d.bases.length + cP b.length d.inXp d.inXj d.inTag ≤ _; omega
  refine okIte (fun hx => ?_) fun _ => ?_
  · refine okBind (okPush (by omega)) fun b hb => okPure ?_
    have hbl : b.length = d.xp.length + 1 := by rw [hb]; simp
    exact xpFin b (by omega) (by omega) (by omega) (fun h => by omega) (by rw [hx]; rfl)
  refine okIte (fun hx => ?_) fun _ => ?_
  · have hi1 := k9 hx
    have hor : (d.inXp || d.inXj) = true := by rw [hx]; simp
    refine okBind (P := fun b : List Wc => (d.xp.length = 0 ∧ b.length = 1) ∨ (0 < d.xp.length ∧ b = d.xp)) ?_ fun b hb => ?_
    · refine okIte (fun hz => ?_) fun hz => okSome (Or.inr ⟨by omega, rfl⟩)
      exact okMono (okPush (by omega)) fun b hb => Or.inl ⟨hz, by rw [hb]; simp [hz]⟩
    · have hbl : b.length < n := by
        rcases hb with hb | hb
        · omega
        · rw [hb.2]; omega
      refine okBind (okPush hbl) fun b' hb' => okPure ?_
      have hbl' : b'.length = b.length + 1 := by rw [hb']; simp
      rcases hb with hb | hb
      · exact xpFin b' (by omega) (by omega) (by omega) (fun _ => hb.1) hor
      · rw [hb.2] at hbl'
        exact xpFin b' (by omega) (by omega) (by omega) (fun h => by omega) hor
  -- content
  refine okBind (P := fun e => e = { d with ids := e.ids, bases := e.bases, idLast := e.idLast, baseLast := e.baseLast, inContent := true }
      ∧ e.ids.length ≤ d.ids.length + 1 ∧ e.bases.length ≤ d.bases.length + 1 ∧ e.idLast ≤ e.ids.length ∧ e.baseLast ≤ e.bases.length
      ∧ (e.baseLast = 0 ∨ 1 ≤ e.idLast) ∧ 1 ≤ e.ids.length) ?_ fun e he => ?_
  · refine okIte (fun _ => ?_) fun hc => okSome ?_
    · refine okBind (okPush (by omega)) fun ids hids => ?_
      refine okBind (okPush (by omega)) fun bases hbases => okPure ?_
      have l1 : ids.length = d.ids.length + 1 := by rw [hids]; simp
      have l2 : bases.length = d.bases.length + 1 := by rw [hbases]; simp
      exact ⟨rfl, by show ids.length ≤ _; omega, by show bases.length ≤ _; omega, Nat.le_refl _, Nat.le_refl _,
        Or.inr (by show 1 ≤ ids.length; omega), by show 1 ≤ ids.length; omega⟩
    · have hc' : d.inContent = true := by simpa using hc
      refine ⟨?_, by omega, by omega, k3, k4, k5, k6 hc'⟩
      cases d; simp only at hc' ⊢; subst hc'; rfl
  · obtain ⟨e1, e2, e3, e4, e5, e6, e7⟩ := he
    refine okBind (okPush (by omega)) fun ids hids => ?_
    refine okBind (okPush (by omega)) fun bases hbases => okPure ?_
    have l1 : ids.length = e.ids.length + 1 := by rw [hids]; simp
    have l2 : bases.length = e.bases.length + 1 := by rw [hbases]; simp
    rw [e1]
    exact ⟨by show ids.length + d.xp.length + cS d.xs.length d.inXs d.inTag ≤ _; omega, by show bases.length + cP d.xp.length d.inXp d.inXj d.inTag ≤ _; omega,
      by show e.idLast ≤ ids.length; omega, by show e.baseLast ≤ bases.length; omega, e6,
      fun _ => by show 1 ≤ ids.length; omega, by show d.xs.length ≤ _; omega, by show d.xp.length ≤ _; omega, fun _ => by omega⟩

theorem prefix_drop_length {l out : List Wc} {i : Nat} (h : l.isPrefixOf (out.drop i) = true) (hl : 0 < l.length) :
    i + l.length ≤ out.length := by
  have h1 := (List.isPrefixOf_iff_prefix.1 h).length_le
  rw [List.length_drop] at h1
  omega

theorem dbStep_ok (out : List Wc) (i : Nat) (d : DState) (hi : i < out.length) (h : DbInv i d) :
    Ok (dbStep out (2 * out.length + 1) i d) (fun r => i ≤ r.1 ∧ DbInv (min (r.1 + 1) out.length) r.2) := by
  rw [dbStep]
  refine okBind (okCmpz (by omega) (by decide)) fun cl hcl => ?_
  refine okBind (okCmpz (by omega) (by decide)) fun hb hhb => ?_
  rw [rdz_lt hi]
  refine okBind (okSome (P := fun c => c = out[i]) rfl) fun c hc => ?_
  have hm : min (i + 1) out.length = i + 1 := by omega
  refine okIte (fun hor => ?_) fun _ => ?_
  · apply dbBoundary_ok out.length i _ d h
    split
    · rename_i hd
      have hd : c = 0x2D := by simpa using hd
      have hbt : hb = true := by
        rcases hor with h1 | h1
        · exfalso
          rw [h1] at hcl
          have hp := hcl.symm
          rw [List.drop_eq_getElem_cons hi, ← hc, hd] at hp
          simp [lit] at hp
        · exact h1
      rw [hbt] at hhb
      have hlen := prefix_drop_length hhb.symm (by decide)
      have : (lit "-[B").length = 3 := by decide
      omega
    · omega
  refine okIte (fun h2 => dbBracket_ok out i d (by omega) h) fun _ => ?_
  obtain ⟨k1, k2, k3, k4, k5, k6, k7, k8, k9⟩ := h
  simp only [costS, costP] at k1 k2
  refine okIte (fun _ => okPure ⟨Nat.le_refl _, ?_⟩) fun _ => ?_
  · have t1 := cS_untag d.xs.length d.inXs d.inTag
    have t2 := cP_untag d.xp.length d.inXp d.inXj d.inTag
    simp only [hm]
    exact ⟨by show d.ids.length + d.xp.length + cS d.xs.length d.inXs false ≤ _; omega,
      by show d.bases.length + cP d.xp.length d.inXp d.inXj false ≤ _; omega, k3, k4, k5, k6,
      by show d.xs.length ≤ _; omega, by show d.xp.length ≤ _; omega, fun _ => by omega⟩
  · refine okBind (dbChar_ok out.length i c d hi ⟨k1, k2, k3, k4, k5, k6, k7, k8, k9⟩) fun e he => okPure ⟨Nat.le_refl _, ?_⟩
    simp only [hm]; exact he

theorem dbLoop_ok (out : List Wc) : ∀ (f i : Nat) (d : DState), 0 < f → out.length < f + i → DbInv (min i out.length) d →
    Ok (dbLoop out (2 * out.length + 1) f i d) (DbInv out.length) := by
  intro f
  induction f with
  | zero => intro i s h; omega
  | succ f ih =>
    intro i d _ h hd
    rw [dbLoop]
    refine okIte (fun hlt => ?_) fun hge => okSome ?_
    · have hm : min i out.length = i := by omega
      rw [hm] at hd
      refine okBind (dbStep_ok out i d hlt hd) fun r hr => ?_
      obtain ⟨j, e⟩ := r
      simp only at hr ⊢
      exact ih (j + 1) e (by omega) (by omega) hr.2
    · have hm : min i out.length = out.length := by omega
      rw [hm] at hd
      exact hd

theorem dbEnd_ok (n : Nat) (d : DState) (h : DbInv n d) : Ok (dbEnd (2 * n + 1) d) (fun _ => True) := by
  obtain ⟨k1, k2, k3, k4, k5, k6, k7, k8, k9⟩ := h
  simp only [costS, costP] at k1 k2
  rw [dbEnd]
  refine okBind (P := fun r : List Wc × List Wc => r.1.length + (if d.xs.length > 0 then d.xs.length + 3 else 0) ≤ 2 * n
      ∧ r.2.length ≤ 2 * n) ?_ fun r hr => ?_
  · have ks : (if d.xs.length > 0 then d.xs.length + 3 else 0) ≤ cS d.xs.length d.inXs d.inTag := by
      split
      · rename_i h; rw [cS_pos h]; exact Nat.le_refl _
      · omega
    refine okIte (fun hp => ?_) fun _ => okSome ⟨by show d.ids.length + _ ≤ _; omega, by show d.bases.length ≤ _; omega⟩
    have kp : cP d.xp.length d.inXp d.inXj d.inTag = 2 * d.xp.length + 2 := cP_pos hp _ _ _
    refine okBind (P := fun p => p ≤ 1 ∧ (0 < p → 0 < d.baseLast)) ?_ fun plus hplus => ?_
    · refine okIte (fun hb => ?_) fun _ => okSome ⟨by omega, fun h => by omega⟩
      refine okBind (P := fun _ => True) ⟨_, rd_eq_some hp, trivial⟩ fun x0 _ => ?_
      refine okBind (P := fun _ => True) ⟨_, rd_eq_some (by omega), trivial⟩ fun b _ => okPure ?_
      split
      · exact ⟨Nat.le_refl _, fun _ => hb⟩
      · exact ⟨by omega, fun h => by omega⟩
    · rw [if_neg (by omega)]
      have hf := List.length_filter_le (fun x => decide (x ≠ 0x3D)) d.xp
      refine okBind (okBack k4) fun b0 hb0 => ?_
      refine okBind (okBack k3) fun i0 hi0 => ?_
      have lb0 : (b0.take (d.baseLast - plus)).length ≤ d.baseLast := by rw [List.length_take]; omega
      have li0 : (i0.take (d.idLast - plus)).length ≤ d.idLast := by rw [List.length_take]; omega
      refine okBind (okPushAll (by omega)) fun b1 hb1 => ?_
      refine okBind (okPushAll (by omega)) fun i1 hi1 => ?_
      have lb1 := congrArg List.length hb1; rw [List.length_append] at lb1
      have li1 := congrArg List.length hi1; rw [List.length_append] at li1
      have lx : (lit "(" ++ d.xp ++ lit ")").length = d.xp.length + 2 := by
        simp [lit]
      refine okBind (okPushAll (by rw [lx]; omega)) fun b2 hb2 => okPure ?_
      have lb2 := congrArg List.length hb2; rw [List.length_append] at lb2
      rw [lx] at lb2
      exact ⟨by show i1.length + _ ≤ _; omega, by show b2.length ≤ _; omega⟩
  · obtain ⟨ids, bases⟩ := r
    simp only at hr ⊢
    refine okBind (P := fun i : List Wc => i.length ≤ 2 * n) ?_ fun i2 hi2 => ?_
    · refine okIte (fun hp => ?_) fun _ => okSome (by omega)
      rw [if_pos hp] at hr
      have lx : (lit "(w" ++ d.xs ++ lit ")").length = d.xs.length + 3 := by
        simp [lit]
      exact okMono (okPushAll (by rw [lx]; omega)) fun x hx => by rw [hx, List.length_append, lx]; omega
    · rw [if_pos (by omega)]
      exact okPure trivial

theorem parseDebugAttributes_ok {A : AKey → List Wc → Prop} (hA : AllowedOk A) {a : Ana} (ha : Good A a) (out : List Wc) :
    Ok (parseDebugAttributes a out) (Good A) := by
  rw [parseDebugAttributes]
  refine okBind (dbLoop_ok out _ 0 {} (by omega) (by omega) ?_) fun d hd => ?_
  · exact ⟨by show 0 + 0 + cS 0 false false ≤ _; exact Nat.zero_le _, by show 0 + cP 0 false false false ≤ _; exact Nat.zero_le _, by simp, by simp, Or.inl rfl, fun h => (by cases h), by simp, by simp, fun h => by cases h⟩
  refine okBind (dbEnd_ok out.length d hd) fun r _ => ?_
  obtain ⟨ids, bases⟩ := r
  simp only
  refine okPure (good_add ?_ (hA.bases _))
  split
  · exact good_add ha (hA.ids _)
  · exact ha

/-! ## `duplicateOrgName` and the corrections of `analyze` -/

theorem orgBc_ok (out : List Wc) : ∀ j, j ≤ out.length → Ok (orgBc out j) (fun _ => True) := by
  intro j
  induction j with
  | zero => intro _; exact okSome trivial
  | succ j ih =>
    intro h
    rw [orgBc]
    refine okIte (fun _ => ?_) fun _ => okSome trivial
    refine okBind (okCmpz h (by decide)) fun _ _ => ?_
    exact okIte (fun _ => okPure trivial) fun _ => ih (by omega)

theorem orgLoop_ok (out : List Wc) : ∀ i, i ≤ out.length → Ok (orgLoop out i) (fun _ => True) := by
  intro i
  induction i with
  | zero => intro _; exact okSome trivial
  | succ i ih =>
    intro h
    rw [orgLoop]
    refine okIte (fun _ => ?_) fun _ => okSome trivial
    refine okBind (okCmpz h (by decide)) fun _ _ => ?_
    refine okIte (fun _ => okPure trivial) fun _ => ?_
    refine okBind (okCmpz h (by decide)) fun _ _ => ?_
    refine okIte (fun _ => ?_) fun _ => ih (by omega)
    refine okBind (orgBc_ok out _ (by omega)) fun _ _ => ?_
    exact okIte (fun _ => okPure trivial) fun _ => ih (by omega)

theorem orgCopy_ok {A : AKey → List Wc → Prop} (hA : AllowedOk A) {old : Ana} (ho : Good A old) : ∀ (ks : List AKey) (a : Ana)
    (ns : Option (List Wc)), (∀ k ∈ ks, (old.getValue k).isSome) → Good A a → Ok (orgCopy old ks (a, ns)) (fun r => Good A r.1) := by
  intro ks
  induction ks with
  | nil => intro a ns _ ha; exact okSome ha
  | cons k ks ih =>
    intro a ns hk ha
    have hk' := fun x hx => hk x (List.mem_cons_of_mem _ hx)
    rw [orgCopy]
    refine okIte (fun hc => ?_) fun _ => ?_
    · exact ih _ _ hk' (good_addConst ha (by rw [hc]; exact class_values hA.toAllowedBasic (k := lit "em") (by decide)))
    · cases hv : old.getValue k with
      | none => have := hk k (List.mem_cons_self ..); rw [hv] at this; cases this
      | some v =>
        simp only
        refine okIte (fun hs => ?_) fun _ => ?_
        · refine okIte (fun _ => ?_) fun _ => ih _ _ hk' ha
          exact ih _ _ hk' (good_add ha (by rw [hs]; exact hA.str _))
        · refine okIte (fun _ => ih _ _ hk' ha) fun _ => ?_
          exact ih _ _ hk' (good_add ha (ho.vals _ _ hv))

theorem internalKeys_some {a : Ana} (h : AnaOk a) : ∀ k ∈ a.internalKeys, (a.getValue k).isSome := by
  intro k hk
  obtain ⟨x, hx, rfl⟩ := List.mem_map.1 hk
  rw [Ana.getValue, mem_lookup h.sorted (k := x.1) (v := x.2) hx]
  rfl

theorem duplicateOrgName_ok {A : AKey → List Wc → Prop} (hA : AllowedOk A) {a : Ana} (ha : Good A a) (out : List Wc) :
    Ok (duplicateOrgName a out) (fun r => ∀ b ∈ r.toList, Good A b) := by
  have hn : ∀ b ∈ (none : Option Ana).toList, Good A b := fun b hb => by cases hb
  rw [duplicateOrgName]
  refine okIte (fun _ => okSome hn) fun _ => okIte (fun _ => okSome hn) fun _ => ?_
  refine okBind (okRdz (by omega)) fun _ _ => ?_
  refine okBind (okCmpz (by omega) (by decide)) fun _ _ => ?_
  refine okIte (fun _ => okPure hn) fun _ => ?_
  refine okBind (orgLoop_ok out _ (by omega)) fun _ _ => ?_
  refine okIte (fun _ => ?_) fun _ => okPure hn
  refine okBind (orgCopy_ok hA ha _ {} none (internalKeys_some ha.ok) good_empty) fun r hr => ?_
  obtain ⟨n, ns⟩ := r
  simp only at hr ⊢
  have one : ∀ c, Good A c → ∀ b ∈ (some c).toList, Good A b := by
    intro c hc b hb
    rw [Option.mem_toList] at hb
    cases hb; exact hc
  cases ns with
  | none => exact okPure (one _ hr)
  | some s =>
    simp only
    refine okBind (parseBaseform_ok out s) fun bf _ => ?_
    cases bf with
    | none => exact okPure (one _ hr)
    | some b => exact okPure (one _ (good_add hr (hA.base _)))

theorem adjustAttributes_ok {A : AKey → List Wc → Prop} (hA : AllowedOk A) {a : Ana} (ha : Good A a) :
    Ok (adjustAttributes a) (Good A) := by
  rw [adjustAttributes]
  simp only
  refine okBind (P := Good A) (okIte (fun _ => good_remove ha _) fun _ => okSome ha) fun b hb => ?_
  refine okBind (P := fun r => Good A r.1) ?_ fun r hr => ?_
  · refine okIte (fun _ => ?_) fun _ => okSome hb
    exact okBind (good_remove hb _) fun c hc => okPure (good_addConst hc (class_values hA.toAllowedBasic (k := lit "l") (by decide)))
  · obtain ⟨c, w⟩ := r
    simp only at hr ⊢
    refine okBind (P := Good A) (okIte (fun _ => good_remove hr _) fun _ => okSome hr) fun e he => ?_
    refine okIte (fun _ => okIte (fun _ => okPure (good_addConst he hA.positive)) fun _ => okPure he) fun _ => ?_
    exact okIte (fun _ => good_remove he _) fun _ => okPure he

/-- Everything after the structure has been parsed. -/
def restOfAnalysis (full : Bool) (out st : List Wc) : UB (List Ana) := do
  let a ← parseBasicAttributes {} out
  let st ← fixStructure st out
  let a ← adjustAttributes (a.add .structure_ st)
  let dup ← duplicateOrgName a out
  let a ← (if full then do
      let a := a.add .fstoutput out
      let bf ← parseBaseform out st
      let a := match bf with
        | some b => a.add .baseform b
        | none => a
      parseDebugAttributes a out
    else some a : UB Ana)
  return a :: dup.toList

theorem analyzeOutput_eq (wlen : Nat) (full : Bool) (out : List Wc) : analyzeOutput wlen full out = (do
    let valid ← isValidAnalysis out
    if !valid then return []
    else do
      let st ← parseStructure out wlen
      restOfAnalysis full out st) := rfl

theorem restOfAnalysis_ok {A : AKey → List Wc → Prop} (hA : AllowedOk A) (full : Bool) {out : List Wc} (h : out ≠ [])
    (hlen : out.length < 2 ^ 64) (st : List Wc) : Ok (restOfAnalysis full out st) (fun l => ∀ a ∈ l, Good A a) := by
  rw [restOfAnalysis]
  refine okBind (parseBasicAttributes_ok hA.toAllowedBasic good_empty rfl h hlen) fun a ha => ?_
  refine okBind (fixStructure_ok st out) fun st' _ => ?_
  refine okBind (adjustAttributes_ok hA (good_add ha (hA.str _))) fun a ha => ?_
  refine okBind (duplicateOrgName_ok hA ha out) fun dup hdup => ?_
  refine okBind (P := Good A) ?_ fun b hb => okPure ?_
  · refine okIte (fun _ => ?_) fun _ => okSome ha
    refine okBind (parseBaseform_ok out st') fun bf _ => ?_
    refine parseDebugAttributes_ok hA ?_ out
    cases bf with
    | none => exact good_add ha (hA.fst _)
    | some b => exact good_add (good_add ha (hA.fst _)) (hA.base _)
  · intro x hx
    rcases List.mem_cons.1 hx with rfl | hx
    · exact hb
    · exact hdup x hx

end Verif
