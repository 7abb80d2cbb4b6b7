import Verif.Lemmas.SuggestGen
import Verif.Lemmas.Spell
import Verif.Props.Case
/-!
# The generators submit exactly the specified candidates (part 2)
-/
set_option linter.unusedSimpArgs false
set_option linter.unusedVariables false

namespace Verif.Props
open Verif Verif.Spec

/-! ### Replacements -/

theorem upper_ne_zero (c : Wc) (h : c ≠ 0) : upper c ≠ 0 := by
  rcases upper_eq_or c with h1 | h1 <;> omega

theorem lower_ne_zero (c : Wc) (h : c ≠ 0) : lower c ≠ 0 := by
  rcases lower_eq_or c with h1 | h1 <;> omega

theorem not_mem_set {u : List Wc} (h : 0 ∉ u) (i : Nat) (t : Wc) (ht : t ≠ 0) : 0 ∉ u.set i t := by
  intro hm
  rcases List.mem_or_eq_of_mem_set hm with h1 | h1
  · exact h h1
  · exact ht h1.symm

theorem set_str (u : List Wc) (i : Nat) (t : Wc) (h : i < u.length) : wr (u ++ [0]) i t = some (u.set i t ++ [0]) := by
  rw [wr_eq_some _ (by simp; omega), List.set_append_left _ _ h]

/-- What the body of a replacement loop does: it submits the candidates `C` and leaves the buffer as it was unless
the search is to be aborted. -/
def ActOk (an : Analyzer) (n : Nat) (act : Nat → List Wc → SugStatus → UB (List Wc × SugStatus))
    (C : Nat → List Wc → List (List Wc)) : Prop :=
  ∀ pos u s, u.length = n → 0 ∉ u → pos < n →
    (act pos (u ++ [0]) s).map (·.2) = feed an (C pos u) s ∧
    ∀ b s', act pos (u ++ [0]) s = some (b, s') → s'.shouldAbort = false → b = u ++ [0]

theorem submit_ok (an : Analyzer) (n : Nat) : ActOk an n (fun _ => submitBuf an n) (fun _ u => [u]) := by
  intro pos u s hu h0 hp
  unfold submitBuf
  simp only
  rw [sub_eq u [0] n hu]
  simp only [Option.bind_eq_bind, Option.bind_some, Option.pure_def, feed]
  cases hs : suggestForBuffer an s u with
  | none => simp
  | some s' =>
    refine ⟨by simp, ?_⟩
    intro b s'' h _
    simp only [Option.bind_some, Option.some.injEq, Prod.mk.injEq] at h
    exact h.1.symm

theorem replaceLoop_feed (an : Analyzer) (n : Nat) (act : Nat → List Wc → SugStatus → UB (List Wc × SugStatus))
    (C : Nat → List Wc → List (List Wc)) (hact : ActOk an n act C) (f t : Wc) (hf : f ≠ 0) (ht : t ≠ 0)
    (u : List Wc) (hu : u.length = n) (h0 : 0 ∉ u) (k pos : Nat) (s : SugStatus) (hk : pos + k = n) :
    ∃ r, replaceLoop act f t (k + 1) pos (u ++ [0]) s = r ∧
      r.map (·.2.2) = feed an ((List.range' pos k).flatMap fun i =>
        if u[i]? = some f then C i (u.set i t) else []) s ∧
      ∀ a b s', r = some (a, b, s') → (a = true → s'.shouldAbort = true) ∧ (a = false → b = u ++ [0]) := by
  refine ⟨_, rfl, ?_⟩
  induction k generalizing pos s with
  | zero =>
    unfold replaceLoop
    rw [rd_mid u 0 [] pos (by omega)]
    simp only [Option.bind_eq_bind, Option.bind_some, Option.pure_def]
    rw [if_neg (fun e => hf e.symm), if_pos trivial]
    refine ⟨rfl, ?_⟩
    intro a b s' h
    simp only [Option.some.injEq, Prod.mk.injEq] at h
    obtain ⟨rfl, rfl, rfl⟩ := h
    simp
  | succ k ih =>
    have hpos : pos < u.length := by omega
    unfold replaceLoop
    rw [rd_str u pos hpos, List.range'_succ, List.flatMap_cons]
    simp only [Option.bind_eq_bind, Option.bind_some, Option.pure_def]
    have e : u[pos]? = some u[pos] := by simp
    rw [e]
    by_cases hc : u[pos] = f
    · rw [if_pos hc, if_pos (by rw [hc]), set_str u pos t hpos, feed_append]
      simp only [Option.bind_some]
      obtain ⟨h1, h2⟩ := hact pos (u.set pos t) s (by simp [hu]) (not_mem_set h0 _ _ ht) (by omega)
      cases ha : act pos (u.set pos t ++ [0]) s with
      | none =>
        rw [ha] at h1
        rw [← h1]
        simp
      | some bs =>
        obtain ⟨b, s'⟩ := bs
        rw [ha] at h1
        rw [← h1]
        simp only [Option.bind_some, Option.map_some]
        by_cases hab : s'.shouldAbort = true
        · rw [if_pos hab, feed_abort _ _ _ hab]
          refine ⟨rfl, ?_⟩
          intro a b' s'' h
          simp only [Option.some.injEq, Prod.mk.injEq] at h
          obtain ⟨rfl, rfl, rfl⟩ := h
          simp [hab]
        · rw [if_neg hab]
          have hb := h2 b s' ha (by simpa using hab)
          subst hb
          rw [set_str _ pos f (by simp; omega)]
          simp only [Option.bind_some]
          have eu : (u.set pos t).set pos f = u := by
            rw [List.set_set, ← hc, List.set_getElem_self]
          rw [eu]
          exact ih (pos + 1) s' (by omega)
    · rw [if_neg hc, if_neg (fun e => hc (Option.some.inj e)), if_neg (by
        intro e'; exact h0 (by rw [← e']; exact List.getElem_mem _))]
      simp only [List.nil_append]
      exact ih (pos + 1) s (by omega)

theorem flatMap_ite_singleton {α : Type} (l : List Nat) (P : Nat → Prop) [DecidablePred P] (g : Nat → α) :
    (l.flatMap fun i => if P i then [g i] else []) = l.filterMap fun i => if P i then some (g i) else none := by
  induction l with
  | nil => rfl
  | cons a l ih =>
    rw [List.flatMap_cons, List.filterMap_cons, ih]
    by_cases h : P a <;> simp [h]

theorem flatMap_congr' {α β : Type} {f g : α → List β} {l : List α} (h : ∀ x ∈ l, f x = g x) :
    l.flatMap f = l.flatMap g := by
  induction l with
  | nil => rfl
  | cons a l ih =>
    rw [List.flatMap_cons, List.flatMap_cons, h a (by simp), ih (fun x hx => h x (by simp [hx]))]

theorem replaceOne_eq (f t : Wc) (u : List Wc) :
    replaceOne 0 f t u = (List.range' 0 u.length).flatMap fun i => if u[i]? = some f then [u.set i t] else [] := by
  rw [flatMap_ite_singleton, ← List.range_eq_range']
  simp [replaceOne]

/-- The table has the right form. -/
def TableOk (table : List Wc) : Prop := table.length % 2 = 0 ∧ 0 ∉ table

theorem TableOk.tail {f t : Wc} {rest : List Wc} (h : TableOk (f :: t :: rest)) :
    f ≠ 0 ∧ t ≠ 0 ∧ TableOk rest := by
  obtain ⟨h1, h2⟩ := h
  simp only [List.mem_cons, not_or, List.length_cons] at h1 h2
  exact ⟨fun e => h2.1 e.symm, fun e => h2.2.1 e.symm, by omega, h2.2.2⟩

theorem replacementLoop_feed (an : Analyzer) (u : List Wc) (h0 : 0 ∉ u) : ∀ (table : List Wc) (s : SugStatus),
    TableOk table → replacementLoop an u.length table (u ++ [0]) s = feed an (replacements table u) s
  | [], s, _ => by simp [replacementLoop, replacements, pairs, feed]
  | [_], s, h => by simp [TableOk] at h
  | f :: t :: rest, s, h => by
    obtain ⟨hf, ht, hr⟩ := h.tail
    have hrep : replacements (f :: t :: rest) u = replaceOne 0 f t u ++
        ((if upper f = f then [] else replaceOne 0 (upper f) (upper t) u) ++ replacements rest u) := by
      simp [replacements, pairs]
    rw [hrep, feed_append, replaceOne_eq]
    unfold replacementLoop
    obtain ⟨r, e, h1, h2⟩ := replaceLoop_feed an u.length _ _ (submit_ok an u.length) f t hf ht u rfl h0 u.length 0 s
      (by omega)
    rw [e, ← h1]
    simp only [Option.bind_eq_bind]
    cases r with
    | none => rfl
    | some abs =>
      obtain ⟨a, b, s'⟩ := abs
      obtain ⟨h3, h4⟩ := h2 a b s' rfl
      simp only [Option.bind_some, Option.map_some]
      by_cases hab : s'.shouldAbort = true
      · rw [if_pos hab, feed_abort _ _ _ hab]; rfl
      · rw [if_neg hab]
        have ha : a = false := by
          cases a with
          | false => rfl
          | true => exact absurd (h3 rfl) hab
        have hb := h4 ha
        subst hb
        by_cases hup : upper f = f
        · rw [if_pos hup, if_pos hup]
          exact replacementLoop_feed an u h0 rest s' hr
        · rw [if_neg hup, if_neg hup, feed_append, replaceOne_eq]
          obtain ⟨r, e, h1, h2⟩ := replaceLoop_feed an u.length _ _ (submit_ok an u.length) (upper f) (upper t)
            (upper_ne_zero f hf) (upper_ne_zero t ht) u rfl h0 u.length 0 s' (by omega)
          rw [e, ← h1]
          cases r with
          | none => rfl
          | some abs =>
            obtain ⟨a, b, s''⟩ := abs
            obtain ⟨h3, h4⟩ := h2 a b s'' rfl
            simp only [Option.bind_some, Option.map_some]
            by_cases hab : s''.shouldAbort = true
            · rw [if_pos hab, feed_abort _ _ _ hab]; rfl
            · rw [if_neg hab]
              have ha : a = false := by
                cases a with
                | false => rfl
                | true => exact absurd (h3 rfl) hab
              have hb := h4 ha
              subst hb
              exact replacementLoop_feed an u h0 rest s'' hr

/-- Copying the word into a new buffer. -/
theorem copyWord (junk : Nat → Wc) (w : List Wc) (h0 : 0 ∉ w) :
    ((cpy (newBuf junk (w.length + 1)) 0 (w ++ [0]) w.length).bind fun b => wr b w.length 0) = some (w ++ [0]) := by
  rw [cpy_str _ _ _ _ _ h0 (by rw [newBuf_length]; omega)]
  simp only [Option.bind_some]
  obtain ⟨y, hy⟩ : ∃ y, (newBuf junk (w.length + 1)).drop (0 + w.length) = [y] := by
    have : ((newBuf junk (w.length + 1)).drop (0 + w.length)).length = 1 := by simp [newBuf_length]
    exact List.length_eq_one_iff.1 this
  rw [hy]
  simp only [List.take_zero, List.nil_append, List.take_length, Nat.sub_self, List.replicate_zero, List.append_nil]
  rw [wr_mid _ _ _ _ _ rfl]

theorem copyWord_bind {α : Type} (junk : Nat → Wc) (w : List Wc) (h0 : 0 ∉ w) (g : List Wc → UB α) :
    ((cpy (newBuf junk (w.length + 1)) 0 (w ++ [0]) w.length).bind fun b => (wr b w.length 0).bind g) =
      g (w ++ [0]) := by
  have := copyWord junk w h0
  rw [← Option.bind_assoc, this]
  rfl

theorem genReplacement_feed (an : Analyzer) (junk : Nat → Wc) (table : List Wc) (s : SugStatus) (hw : 0 ∉ s.word)
    (ht : TableOk table) : genReplacement an junk table s = feed an (replacements table s.word) s := by
  unfold genReplacement
  simp only [Option.bind_eq_bind]
  rw [copyWord_bind junk s.word hw]
  exact replacementLoop_feed an s.word hw table s ht

/-! ### Multiple replacements -/

/-- `range n` restricted to `off ≤ i`. -/
theorem range_from {β : Type} (n off : Nat) (P : Nat → Prop) [DecidablePred P] (g : Nat → List β) (h : off ≤ n) :
    ((List.range n).flatMap fun i => if off ≤ i ∧ P i then g i else []) =
      (List.range' off (n - off)).flatMap fun i => if P i then g i else [] := by
  have e : List.range n = List.range' 0 off ++ List.range' off (n - off) := by
    rw [List.range_eq_range']
    conv_lhs => rw [show n = off + (n - off) by omega]
    rw [← List.range'_append_1, Nat.zero_add]
  rw [e, List.flatMap_append]
  have e1 : ((List.range' 0 off).flatMap fun i => if off ≤ i ∧ P i then g i else []) = [] := by
    rw [List.flatMap_eq_nil_iff]
    intro i hi
    simp only [List.mem_range'_1] at hi
    rw [if_neg (by omega)]
  rw [e1, List.nil_append]
  apply flatMap_congr'
  intro i hi
  simp only [List.mem_range'_1] at hi
  by_cases hp : P i
  · rw [if_pos hp, if_pos ⟨hi.1, hp⟩]
  · rw [if_neg hp, if_neg (fun h => hp h.2)]

theorem multiTable_feed (an : Analyzer) (n : Nat) (act : Nat → List Wc → SugStatus → UB (List Wc × SugStatus))
    (C : Nat → List Wc → List (List Wc)) (hact : ActOk an n act C) (u : List Wc) (hu : u.length = n) (h0 : 0 ∉ u)
    (off : Nat) (ho : off ≤ n) : ∀ (table : List Wc) (s : SugStatus), TableOk table →
    (multiTable act n off table (u ++ [0]) s).map (·.2) = feed an ((pairs table).flatMap fun p =>
      (List.range n).flatMap fun i => if off ≤ i ∧ u[i]? = some p.1 then C i (u.set i p.2) else []) s ∧
    ∀ b s', multiTable act n off table (u ++ [0]) s = some (b, s') → s'.shouldAbort = false → b = u ++ [0]
  | [], s, _ => by
    refine ⟨rfl, ?_⟩
    intro b s' h _
    simp only [multiTable, Option.pure_def, Option.some.injEq, Prod.mk.injEq] at h
    exact h.1.symm
  | [_], s, h => by simp [TableOk] at h
  | f :: t :: rest, s, h => by
    obtain ⟨hf, ht, hr⟩ := h.tail
    unfold multiTable pairs
    rw [List.flatMap_cons, feed_append, range_from n off (fun i => u[i]? = some f) _ ho]
    obtain ⟨r, e, h1, h2⟩ := replaceLoop_feed an n act C hact f t hf ht u hu h0 (n - off) off s (by omega)
    rw [show n + 1 - off = n - off + 1 by omega, e, ← h1]
    simp only [Option.bind_eq_bind, Option.pure_def]
    cases r with
    | none => simp
    | some abs =>
      obtain ⟨a, b, s'⟩ := abs
      obtain ⟨h3, h4⟩ := h2 a b s' rfl
      simp only [Option.bind_some, Option.map_some]
      cases a with
      | true =>
        have hab := h3 rfl
        rw [feed_abort _ _ _ hab]
        refine ⟨rfl, ?_⟩
        intro b' s'' h hs
        simp only [if_true, Option.some.injEq, Prod.mk.injEq] at h
        rw [← h.2, hab] at hs
        simp at hs
      | false =>
        have hb := h4 rfl
        subst hb
        simp only [Bool.false_eq_true, if_false]
        exact multiTable_feed an n act C hact u hu h0 off ho rest s' hr

theorem multiReplace_ok (an : Analyzer) (n : Nat) (table : List Wc) (ht : TableOk table) (r : Nat) :
    ∀ off u s, u.length = n → 0 ∉ u → off ≤ n →
    (multiReplace an n table r off (u ++ [0]) s).map (·.2) = feed an (multiReplacements table r off u) s ∧
    ∀ b s', multiReplace an n table r off (u ++ [0]) s = some (b, s') → s'.shouldAbort = false → b = u ++ [0] := by
  induction r with
  | zero =>
    intro off u s hu h0 ho
    have := multiTable_feed an n _ _ (submit_ok an n) u hu h0 off ho table s ht
    unfold multiReplace multiReplacements replaceOne
    rw [hu]
    refine ⟨?_, this.2⟩
    rw [this.1]
    congr 1
    apply flatMap_congr'
    intro p _
    rw [flatMap_ite_singleton]
  | succ r ih =>
    intro off u s hu h0 ho
    have := multiTable_feed an n (fun pos => multiReplace an n table r pos) (fun pos u => multiReplacements table r pos u)
      (fun pos u s hu h0 hp => ih pos u s hu h0 (by omega)) u hu h0 off ho table s ht
    unfold multiReplace multiReplacements
    rw [hu]
    exact this

theorem genMultiReplacement_feed (an : Analyzer) (junk : Nat → Wc) (table : List Wc) (count : Nat) (s : SugStatus)
    (hw : 0 ∉ s.word) (ht : TableOk table) :
    genMultiReplacement an junk table count s = feed an (multiReplacements table (count - 1) 0 s.word) s := by
  unfold genMultiReplacement
  simp only [Option.bind_eq_bind]
  rw [copyWord_bind junk s.word hw]
  rw [← (multiReplace_ok an s.word.length table ht (count - 1) 0 s.word s rfl hw (by omega)).1]
  cases multiReplace an s.word.length table (count - 1) 0 (s.word ++ [0]) s <;> rfl

/-! ### Replacement of doubled characters -/

theorem replaceTwoPairs_feed (an : Analyzer) (pre q : List Wc) (a : Wc) (n : Nat)
    (hn : n = pre.length + 2 + q.length) : ∀ (table : List Wc) (x y : Wc) (s : SugStatus), table.length % 2 = 0 →
    (replaceTwoPairs an n pre.length a table (pre ++ x :: y :: (q ++ [0])) s).map (·.2) =
      feed an ((pairs table).filterMap fun p => if a = p.1 then some (pre ++ p.2 :: p.2 :: q) else none) s ∧
    ∀ b s', replaceTwoPairs an n pre.length a table (pre ++ x :: y :: (q ++ [0])) s = some (b, s') →
      ∃ x' y', b = pre ++ x' :: y' :: (q ++ [0])
  | [], x, y, s, _ => by
    refine ⟨rfl, ?_⟩
    intro b s' h
    simp only [replaceTwoPairs, Option.pure_def, Option.some.injEq, Prod.mk.injEq] at h
    exact ⟨x, y, h.1.symm⟩
  | [_], _, _, s, h => by simp at h
  | f :: t :: rest, x, y, s, h => by
    have hr : rest.length % 2 = 0 := by simp only [List.length_cons] at h; omega
    unfold replaceTwoPairs pairs
    rw [List.filterMap_cons]
    by_cases hc : f = a
    · subst hc
      rw [if_neg (by simp), if_pos rfl, wr_mid pre x t _ _ rfl]
      simp only [Option.bind_eq_bind, Option.bind_some, Option.pure_def]
      rw [show pre ++ t :: y :: (q ++ [0]) = (pre ++ [t]) ++ y :: (q ++ [0]) by simp,
        wr_mid _ _ _ _ _ (by simp)]
      simp only [Option.bind_some]
      rw [show (pre ++ [t]) ++ t :: (q ++ [0]) = (pre ++ t :: t :: q) ++ [0] by simp]
      unfold submitBuf
      rw [sub_eq _ _ _ (by simp; omega), feed_cons]
      simp only [Option.bind_eq_bind, Option.bind_some, Option.pure_def]
      cases hs : suggestForBuffer an s (pre ++ t :: t :: q) with
      | none => simp
      | some s' =>
        simp only [Option.bind_some]
        rw [show (pre ++ t :: t :: q) ++ [0] = pre ++ t :: t :: (q ++ [0]) by simp]
        by_cases hab : s'.shouldAbort = true
        · rw [if_pos hab, feed_abort _ _ _ hab]
          refine ⟨rfl, ?_⟩
          intro b s'' h
          simp only [Option.some.injEq, Prod.mk.injEq] at h
          exact ⟨t, t, h.1.symm⟩
        · rw [if_neg hab]
          exact replaceTwoPairs_feed an pre q f n hn rest t t s' hr
    · rw [if_pos hc, if_neg (fun e => hc e.symm)]
      exact replaceTwoPairs_feed an pre q a n hn rest x y s hr

/-- The candidates for the doubled character at position `i`. -/
def twoCands (table l : List Wc) (i : Nat) : List (List Wc) :=
  (pairs table).filterMap fun p => if l[i]? = some p.1 then some ((l.set i p.2).set (i + 1) p.2) else none

theorem replaceTwoLoop_feed (an : Analyzer) (table l : List Wc) (ht : table.length % 2 = 0) (hn : 1 ≤ l.length)
    (k i : Nat) (s : SugStatus) (hk : l.length ≤ i + k + 1) (hi : i ≤ l.length) :
    replaceTwoLoop an l.length table k i (l ++ [0]) s = feed an ((doubles (l.drop i) i).flatMap (twoCands table l)) s := by
  have hss : subSize l.length 1 = l.length - 1 := by simp [subSize, hn]
  have hnil : ∀ i, l.length ≤ i + 1 → doubles (l.drop i) i = [] := by
    intro i hi
    have : (l.drop i).length ≤ 1 := by simp; omega
    match hd : l.drop i, this with
    | [], _ => rfl
    | [_], _ => rfl
    | _ :: _ :: _, h => simp at h
  induction k using Nat.strong_induction_on generalizing i s with
  | _ k ih =>
  cases k with
  | zero => rw [hnil i (by omega)]; rfl
  | succ k =>
    unfold replaceTwoLoop
    rw [hss]
    by_cases hlt : i < l.length - 1
    · rw [if_pos hlt, rd_str l i (by omega), rd_str l (i + 1) (by omega)]
      simp only [Option.bind_eq_bind, Option.bind_some]
      have hd : doubles (l.drop i) i = if l[i] = l[i + 1] then i :: doubles (l.drop (i + 2)) (i + 2)
          else doubles (l.drop (i + 1)) (i + 1) := by
        rw [List.drop_eq_getElem_cons (by omega : i < l.length), List.drop_eq_getElem_cons (by omega : i + 1 < l.length)]
        rfl
      rw [hd]
      by_cases hc : l[i] = l[i + 1]
      · rw [if_neg (by simpa using hc), if_pos hc, List.flatMap_cons, feed_append]
        have el : l = l.take i ++ l[i] :: l[i + 1] :: l.drop (i + 2) := by
          rw [← List.drop_eq_getElem_cons (by omega), ← List.drop_eq_getElem_cons (by omega), List.take_append_drop]
        have ecells : l ++ [0] = l.take i ++ l[i] :: l[i + 1] :: (l.drop (i + 2) ++ [0]) := by
          conv_lhs => rw [el]
          lassoc
        have hpl : (l.take i).length = i := by simp; omega
        have hcand : twoCands table l i = (pairs table).filterMap fun p =>
            if l[i] = p.1 then some (l.take i ++ p.2 :: p.2 :: l.drop (i + 2)) else none := by
          unfold twoCands
          apply filterMap_congr'
          intro p _
          have e1 : l[i]? = some l[i] := by simp
          rw [e1]
          have e2 : (l.set i p.2).set (i + 1) p.2 = l.take i ++ p.2 :: p.2 :: l.drop (i + 2) := by
            rw [List.set_eq_take_append_cons_drop (l := l), if_pos (by omega : i < l.length)]
            rw [List.set_append_right _ _ (by omega)]
            rw [hpl, show i + 1 - i = 1 by omega, List.drop_eq_getElem_cons (by omega : i + 1 < l.length)]
            rfl
          rw [e2]
          by_cases h : l[i] = p.1
          · rw [if_pos h, if_pos (by rw [h])]
          · rw [if_neg h, if_neg (fun e => h (Option.some.inj e))]
        obtain ⟨h1, h2⟩ := replaceTwoPairs_feed an (l.take i) (l.drop (i + 2)) l[i] l.length
          (by simp; omega) table l[i] l[i + 1] s ht
        rw [hpl, ← ecells] at h1 h2
        rw [hcand, ← h1]
        cases hr : replaceTwoPairs an l.length i l[i] table (l ++ [0]) s with
        | none => rfl
        | some bs =>
          obtain ⟨b, s'⟩ := bs
          obtain ⟨x', y', hb⟩ := h2 b s' hr
          simp only [Option.bind_some, Option.map_some]
          rw [hb, wr_mid _ _ _ _ _ hpl]
          simp only [Option.bind_some]
          rw [show l.take i ++ l[i] :: y' :: (l.drop (i + 2) ++ [0]) =
            (l.take i ++ [l[i]]) ++ y' :: (l.drop (i + 2) ++ [0]) by lassoc, wr_mid _ _ _ _ _ (by simp; omega)]
          simp only [Option.bind_some]
          have eb : (l.take i ++ [l[i]]) ++ l[i] :: (l.drop (i + 2) ++ [0]) = l ++ [0] := by
            rw [ecells]; lassoc; rw [hc]
          rw [eb]
          by_cases hab : s'.shouldAbort = true
          · rw [if_pos hab, feed_abort _ _ _ hab]; rfl
          · rw [if_neg hab]
            exact ih k (by omega) (i + 2) s' (by omega) (by omega)
      · rw [if_pos (by simpa using hc), if_neg hc]
        exact ih k (by omega) (i + 1) s (by omega) (by omega)
    · rw [if_neg hlt, hnil i (by omega)]; rfl

theorem genReplaceTwo_feed (an : Analyzer) (table : List Wc) (s : SugStatus) (ht : table.length % 2 = 0)
    (hn : s.word ≠ []) : genReplaceTwo an table s = feed an (doubleReplacements table s.word) s := by
  have hpos : 0 < s.word.length := List.length_pos_iff.2 hn
  unfold genReplaceTwo
  have := replaceTwoLoop_feed an table (s.word.map lower) ht (by simp; omega) (subSize s.word.length 1) 0 s
    (by simp [subSize, Nat.succ_le_of_lt hpos]) (by omega)
  simp only [List.length_map] at this
  rw [this]
  rfl

end Verif.Props
