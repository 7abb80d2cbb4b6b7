import Verif.Props.ToolArgs
/-!
# C102: the command lines of `voikkohyphenate` and `voikkogc`
-/

namespace Verif.Props
open Verif Verif.Args

/-! ### The first loop -/

/-- What an item sets in the first loop. -/
def commonUpd (s : Option Arg × Arg) : Item → Option Arg × Arg
  | .word _ => s
  | .valued k v => if k = lit "-p" then (some v, s.2) else (s.1, v)

theorem common_word (w : Arg) (hw : w ∉ commonKeys) (r : List Arg) (s : Option Arg × Arg) :
    commonFirstPass (w :: r) s =
      if w = lit "-h" ∨ w = lit "--help" then .help else if w = lit "--version" then .version else commonFirstPass r s := by
  have k1 : w ≠ lit "-p" := fun e => hw (e ▸ by decide)
  have k2 : w ≠ lit "-d" := fun e => hw (e ▸ by decide)
  cases r with
  | nil => rfl
  | cons v r => rw [commonFirstPass, if_neg k1, if_neg k2]

theorem common_valued (k v : Arg) (hk : k ∈ commonKeys) (r : List Arg) (s : Option Arg × Arg) :
    commonFirstPass (k :: v :: r) s = commonFirstPass r (commonUpd s (.valued k v)) := by
  simp only [commonKeys, List.mem_cons, List.not_mem_nil, or_false] at hk
  rcases hk with rfl | rfl <;> rfl

theorem common_last (k : Arg) (hk : k ∈ commonKeys) (s : Option Arg × Arg) : commonFirstPass [k] s = .run s := by
  simp only [commonKeys, List.mem_cons, List.not_mem_nil, or_false] at hk
  rcases hk with rfl | rfl <;> rfl

theorem common_valued_goes_on {α : Type} (k v : Arg) (hk : k ∈ commonKeys) : stopOf (α := α) (.valued k v) = none := by
  simp only [commonKeys, List.mem_cons, List.not_mem_nil, or_false] at hk
  simp only [stopOf]
  rcases hk with rfl | rfl <;> rw [if_neg (fun h => absurd h.1 (by decide))]

theorem common_items : (items : List Item) → (args : List Arg) → (rest : Option Arg) → (s : Option Arg × Arg) → Reads commonKeys args items rest →
    (∀ it ∈ items, stopOf (α := Option Arg × Arg) it = none) → commonFirstPass args s = .run (items.foldl commonUpd s)
  | [], args, rest, s, h, _ => by
    rw [h.split]
    cases rest with
    | none => rfl
    | some k => exact common_last k (h.rest k rfl) s
  | .valued k v :: items, args, rest, s, h, hs => by
    rw [h.split]
    simp only [List.flatMap_cons, Item.args, List.cons_append, List.nil_append]
    rw [common_valued k v (h.valued k v List.mem_cons_self), common_items items _ rest _ h.tail fun x hx => hs x (List.mem_cons_of_mem _ hx)]
    rfl
  | .word w :: items, args, rest, s, h, hs => by
    rw [h.split]
    simp only [List.flatMap_cons, Item.args, List.cons_append, List.nil_append]
    have h0 := hs _ List.mem_cons_self
    simp only [stopOf] at h0
    rw [common_word w (h.word w List.mem_cons_self)]
    by_cases h1 : w = lit "-h" ∨ w = lit "--help"
    · rw [if_pos h1] at h0; cases h0
    · rw [if_neg h1] at h0
      by_cases h2 : w = lit "--version"
      · rw [if_pos h2] at h0; cases h0
      · rw [if_neg h1, if_neg h2, common_items items _ rest _ h.tail fun x hx => hs x (List.mem_cons_of_mem _ hx)]
        rfl

theorem common_stop : (pre : List Item) → (it : Item) → (post : List Item) → (args : List Arg) → (rest : Option Arg) → (s : Option Arg × Arg) →
    Reads commonKeys args (pre ++ it :: post) rest → (∀ x ∈ pre, stopOf (α := Option Arg × Arg) x = none) →
    (x : ArgsRes (Option Arg × Arg)) → stopOf it = some x → commonFirstPass args s = x
  | [], .valued k v, post, args, rest, s, h, _, x, hx => by
    rw [common_valued_goes_on k v (h.valued k v List.mem_cons_self)] at hx; cases hx
  | [], .word w, post, args, rest, s, h, _, x, hx => by
    rw [h.split]
    simp only [List.nil_append, List.flatMap_cons, Item.args, List.cons_append]
    rw [common_word w (h.word w List.mem_cons_self)]
    simp only [stopOf] at hx
    by_cases h1 : w = lit "-h" ∨ w = lit "--help"
    · rw [if_pos h1] at hx ⊢; injection hx
    · rw [if_neg h1] at hx ⊢
      by_cases h2 : w = lit "--version"
      · rw [if_pos h2] at hx ⊢; injection hx
      · rw [if_neg h2] at hx; cases hx
  | .valued k v :: pre, it, post, args, rest, s, h, hp, x, hx => by
    rw [h.split]
    simp only [List.flatMap_cons, Item.args, List.cons_append, List.nil_append]
    rw [common_valued k v (h.valued k v List.mem_cons_self)]
    exact common_stop pre it post _ rest _ h.tail (fun y hy => hp y (List.mem_cons_of_mem _ hy)) x hx
  | .word w :: pre, it, post, args, rest, s, h, hp, x, hx => by
    rw [h.split]
    simp only [List.flatMap_cons, Item.args, List.cons_append, List.nil_append]
    have h0 := hp _ List.mem_cons_self
    simp only [stopOf] at h0
    rw [common_word w (h.word w List.mem_cons_self)]
    by_cases h1 : w = lit "-h" ∨ w = lit "--help"
    · rw [if_pos h1] at h0; cases h0
    · rw [if_neg h1] at h0
      by_cases h2 : w = lit "--version"
      · rw [if_pos h2] at h0; cases h0
      · rw [if_neg h1, if_neg h2]
        exact common_stop pre it post _ rest _ h.tail (fun y hy => hp y (List.mem_cons_of_mem _ hy)) x hx

theorem common_result {args : List Arg} {rest : Option Arg} (items : List Item) (h : Reads commonKeys args items rest) :
    items.foldl commonUpd (none, lit "fi") = (lastOf (valueOf "-p") items, (lastOf (valueOf "-d") items).getD (lit "fi")) := by
  have hv : ∀ k v, .valued k v ∈ items → k = lit "-p" ∨ k = lit "-d" := by
    intro k v hm
    have hk := h.valued k v hm
    simpa only [commonKeys, List.mem_cons, List.not_mem_nil, or_false] using hk
  have e1 : (items.foldl commonUpd (none, lit "fi")).1 = lastOf (valueOf "-p") items := by
    rw [foldl_last commonUpd (·.1) (fun it => (valueOf "-p" it).map some) items, lastOf_map]
    · cases lastOf (valueOf "-p") items <;> rfl
    · intro it hm s
      cases it with
      | word w => rfl
      | valued k v => rcases hv k v hm with rfl | rfl <;> rfl
  have e2 : (items.foldl commonUpd (none, lit "fi")).2 = (lastOf (valueOf "-d") items).getD (lit "fi") := by
    rw [foldl_last commonUpd (·.2) (valueOf "-d") items]
    intro it hm s
    cases it with
    | word w => rfl
    | valued k v => rcases hv k v hm with rfl | rfl <;> rfl
  exact Prod.ext e1 e2

/-! ### voikkohyphenate -/

/-- The handle after items, from a handle with any settings. -/
def hyphApply {G : Type} (h : Handle G) (items : List Item) : Handle G :=
  { h with
    spell := { h.spell with ignoreDot := (lastOf (setting "ignore_dot") items).getD h.spell.ignoreDot }
    hyph := {
      ugly := !((lastOf (setting "no_ugly_hyphenation") items).getD (!h.hyph.ugly))
      hyphenateUnknown := (lastOf (setting "hyphenate_unknown_words") items).getD h.hyph.hyphenateUnknown
      ignoreDot := (lastOf (setting "ignore_dot") items).getD h.hyph.ignoreDot
      minLength := ((lastOf minLengthOf items).map fun n => max 2 (n.getD 0).toNat).getD h.hyph.minLength } }

theorem hyphApply_cons {G : Type} (h : Handle G) (it : Item) (r : List Item) : hyphApply (hyphApply h [it]) r = hyphApply h (it :: r) := by
  simp only [hyphApply, getD_getD, ← lastOf_map, Bool.not_not]

theorem hyphApply_nil {G : Type} (h : Handle G) : hyphApply h [] = h := by
  simp only [hyphApply, lastOf_nil, Option.getD_none, Option.map_none, Bool.not_not]

theorem hyphApply_none {G : Type} (h : Handle G) (it : Item) (h1 : setting "ignore_dot" it = none) (h2 : setting "no_ugly_hyphenation" it = none)
    (h3 : setting "hyphenate_unknown_words" it = none) (h4 : minLengthOf it = none) : hyphApply h [it] = h := by
  simp only [hyphApply, lastOf_cons, lastOf_nil, h1, h2, h3, h4, Option.or_none, Option.getD_none, Option.map_none, Bool.not_not]

/-- What one argument sets. -/
structure HyphSets {G : Type} (mbtowc : Nat → Option Wc) (w : Arg) (s s' : HyphTool G) : Prop where
  separator : s'.separator = (hyphSeparatorOf mbtowc (.word w)).getD s.separator
  handle : s'.handle = hyphApply s.handle [.word w]

theorem setting_eq {n : String} {w : Arg} (h : (setting n (.word w)).isSome) : w = lit n ++ lit "=1" ∨ w = lit n ++ lit "=0" := by
  by_cases h1 : w = lit n ++ lit "=1"
  · exact .inl h1
  · by_cases h0 : w = lit n ++ lit "=0"
    · exact .inr h0
    · simp [setting, h1, h0] at h

theorem atoi_range {s : List Nat} {n : Int} (h : atoi s = some n) : -2147483648 ≤ n ∧ n ≤ 2147483647 := by
  unfold atoi at h
  simp only at h
  split at h <;>
    · split at h
      · rename_i hr; injection h with h; rw [← h]; exact hr
      · cases h

theorem hyphSeparator_eq {mbtowc : Nat → Option Wc} {w : Arg} (h : (hyphSeparatorOf mbtowc (.word w)).isSome) :
    ∃ c x, w = [0x2D, 0x73, c] ∧ mbtowc c = some x := by
  unfold hyphSeparatorOf at h
  split at h
  · rename_i c e
    injection e with e
    obtain ⟨x, hx⟩ := Option.isSome_iff_exists.1 h
    exact ⟨c, x, e, hx⟩
  · simp at h

theorem hyph_set {G : Type} (mbtowc : Nat → Option Wc) (w : Arg) (s : HyphTool G) (hk : HyphKnown mbtowc w) (hn : minLengthOf (.word w) ≠ some none) :
    ∃ s', hyphSecondArg mbtowc w s = .set s' ∧ HyphSets mbtowc w s s' := by
  rcases hk with ⟨n, hm, hk⟩ | ⟨t, rfl⟩ | hk
  · have hb := setting_eq hk
    simp only [List.mem_cons, List.not_mem_nil, or_false] at hm
    rcases hm with rfl | rfl | rfl <;> rcases hb with rfl | rfl <;>
      exact ⟨_, rfl, rfl, by cases s with | mk a h => cases h with | mk _ _ _ _ _ _ hy _ _ => cases hy with | mk u _ _ _ => cases u <;> rfl⟩
  · have e : minLengthOf (.word (lit "min_hyphenated_word_length=" ++ t)) = some (atoi t) := by
      simp only [minLengthOf]; rw [if_pos ⟨t, rfl⟩]; rfl
    rw [e] at hn
    cases ha : atoi t with
    | none => rw [ha] at hn; exact absurd rfl hn
    | some n =>
      have hstep : hyphSecondArg mbtowc (lit "min_hyphenated_word_length=" ++ t) s =
          .set { s with handle := { s.handle with hyph := { s.handle.hyph with minLength := intToSize (if n < 2 then 2 else n) } } } := by
        have : hyphSecondArg mbtowc (lit "min_hyphenated_word_length=" ++ t) s = match atoi t with
          | some n =>
            match setIntegerOption s.handle 9 (if n < 2 then 2 else n) with
            | some (h, _) => .set { s with handle := h }
            | none => .undefined
          | none => .undefined := rfl
        rw [this, ha]; rfl
      refine ⟨_, hstep, rfl, ?_⟩
      have hr := atoi_range ha
      have hv : intToSize (if n < 2 then 2 else n) = max 2 n.toNat := by
        unfold intToSize
        split <;> omega
      have h1 : lastOf minLengthOf [.word (lit "min_hyphenated_word_length=" ++ t)] = some (some n) := by
        rw [lastOf_cons, e, ha]; rfl
      have h2 : ∀ nm ∈ ["ignore_dot", "no_ugly_hyphenation", "hyphenate_unknown_words"],
          lastOf (setting nm) [.word (lit "min_hyphenated_word_length=" ++ t)] = none := by
        intro nm hm
        simp only [List.mem_cons, List.not_mem_nil, or_false] at hm
        rcases hm with rfl | rfl | rfl <;> rfl
      simp only [hyphApply, h1, h2 "ignore_dot" (by simp), h2 "no_ugly_hyphenation" (by simp), h2 "hyphenate_unknown_words" (by simp), hv,
        Option.getD_none, Option.map_some, Option.getD_some, Bool.not_not]
  · obtain ⟨c, x, rfl, hx⟩ := hyphSeparator_eq hk
    have hstep : hyphSecondArg mbtowc [0x2D, 0x73, c] s = .set { s with separator := x } := by
      have : hyphSecondArg mbtowc [0x2D, 0x73, c] s = match mbtowc c with
        | some w => .set { s with separator := w }
        | none => .unknown := rfl
      rw [this, hx]
    refine ⟨_, hstep, ?_, ?_⟩
    · simp only [hyphSeparatorOf, hx, Option.getD_some]
    · exact (hyphApply_none s.handle _ rfl rfl rfl rfl).symm

theorem hyph_undefined {G : Type} (mbtowc : Nat → Option Wc) (w : Arg) (s : HyphTool G) (hn : minLengthOf (.word w) = some none) :
    hyphSecondArg mbtowc w s = .undefined := by
  simp only [minLengthOf] at hn
  split at hn
  · rename_i hp
    obtain ⟨t, rfl⟩ := hp
    injection hn with hn
    have hn : atoi t = none := hn
    have : hyphSecondArg mbtowc (lit "min_hyphenated_word_length=" ++ t) s = match atoi t with
      | some n =>
        match setIntegerOption s.handle 9 (if n < 2 then 2 else n) with
        | some (h, _) => .set { s with handle := h }
        | none => .undefined
      | none => .undefined := rfl
    rw [this, hn]
  · cases hn

theorem hyph_unknown {G : Type} (mbtowc : Nat → Option Wc) (w : Arg) (hw : w ∉ commonKeys) (s : HyphTool G) (hk : ¬ HyphKnown mbtowc w) :
    hyphSecondArg mbtowc w s = .unknown := by
  have h2 : ∀ n ∈ ["no_ugly_hyphenation", "ignore_dot", "hyphenate_unknown_words"], w ≠ lit n ++ lit "=1" ∧ w ≠ lit n ++ lit "=0" := by
    intro n hn
    constructor
    · rintro rfl; exact hk (.inl ⟨n, hn, by simp [setting]⟩)
    · rintro rfl; exact hk (.inl ⟨n, hn, by simp only [setting]; split <;> simp⟩)
  have h3 : (lit "min_hyphenated_word_length=").isPrefixOf w = false := by
    rw [Bool.eq_false_iff]; exact fun e => hk (.inr (.inl (List.isPrefixOf_iff_prefix.1 e)))
  have k1 : w ≠ lit "-p" := fun e => hw (e ▸ by decide)
  have k2 : w ≠ lit "-d" := fun e => hw (e ▸ by decide)
  unfold hyphSecondArg
  rw [if_neg (show w ≠ lit "no_ugly_hyphenation=1" from (h2 "no_ugly_hyphenation" (by simp)).1),
    if_neg (show w ≠ lit "no_ugly_hyphenation=0" from (h2 "no_ugly_hyphenation" (by simp)).2),
    if_neg (show w ≠ lit "ignore_dot=1" from (h2 "ignore_dot" (by simp)).1), if_neg (show w ≠ lit "ignore_dot=0" from (h2 "ignore_dot" (by simp)).2),
    if_neg (show w ≠ lit "hyphenate_unknown_words=1" from (h2 "hyphenate_unknown_words" (by simp)).1),
    if_neg (show w ≠ lit "hyphenate_unknown_words=0" from (h2 "hyphenate_unknown_words" (by simp)).2),
    if_neg (by rw [h3]; decide)]
  split
  · rename_i hs
    obtain ⟨t, rfl⟩ := List.isPrefixOf_iff_prefix.1 hs
    rcases t with _ | ⟨c, _ | ⟨d, t⟩⟩
    · rfl
    · change (match mbtowc c with
        | some w => ArgStep.set { s with separator := w }
        | none => .unknown) = _
      cases hx : mbtowc c with
      | none => rfl
      | some x =>
        refine absurd (.inr (.inr ?_)) hk
        change (mbtowc c).isSome = true
        rw [hx]; rfl
    · rfl
  · rw [if_neg (fun e => e.elim k1 k2)]

theorem hyph_key {G : Type} (mbtowc : Nat → Option Wc) (k : Arg) (hk : k ∈ commonKeys) (s : HyphTool G) : hyphSecondArg mbtowc k s = .skipValue := by
  simp only [commonKeys, List.mem_cons, List.not_mem_nil, or_false] at hk
  rcases hk with rfl | rfl <;> rfl

theorem hyph_change {G : Type} (mbtowc : Nat → Option Wc) (w : Arg) (hk : HyphKnown mbtowc w) (hn : minLengthOf (.word w) ≠ some none) (s : HyphTool G) :
    HyphSets mbtowc w s (change (hyphSecondArg mbtowc) s (.word w)) := by
  obtain ⟨s', e, h⟩ := hyph_set mbtowc w s hk hn
  simp only [change, e]
  exact h

theorem hyph_handle {G : Type} (mbtowc : Nat → Option Wc) : (items : List Item) →
    (∀ w, .word w ∈ items → HyphKnown mbtowc w ∧ minLengthOf (.word w) ≠ some none) → (s : HyphTool G) →
    (items.foldl (change (hyphSecondArg mbtowc)) s).handle = hyphApply s.handle items
  | [], _, s => (hyphApply_nil s.handle).symm
  | it :: r, hk, s => by
    rw [List.foldl_cons, hyph_handle mbtowc r (fun w hm => hk w (List.mem_cons_of_mem _ hm)), ← hyphApply_cons]
    cases it with
    | valued k v => rw [hyphApply_none s.handle (.valued k v) rfl rfl rfl rfl]; rfl
    | word w => rw [(hyph_change mbtowc w (hk w List.mem_cons_self).1 (hk w List.mem_cons_self).2 s).handle]

/-- **C102** (voikkohyphenate): the first item that asks for help or the version decides. -/
theorem C102_hyph_stops {G : Type} (init : Arg → Option Arg → Option (Handle G)) (mbtowc : Nat → Option Wc) (args : List Arg) (pre : List Item) (it : Item)
    (post : List Item) (rest : Option Arg) (h : Reads commonKeys args (pre ++ it :: post) rest)
    (hp : ∀ x ∈ pre, stopOf (α := HyphTool G) x = none) (x : ArgsRes (HyphTool G)) (hx : stopOf it = some x) :
    hyphToolArgs init mbtowc args = some x := by
  obtain ⟨y, hy, hxy⟩ := stop_kinds (β := Option Arg × Arg) it x hx
  unfold hyphToolArgs
  rw [common_stop pre it post args rest _ h (fun z hz => stop_none z (hp z hz)) y hy]
  cases y <;> simp only [endsWith] at hxy <;> first | (injection hxy with hxy; subst hxy; rfl) | cases hxy

theorem hyph_main {G : Type} (init : Arg → Option Arg → Option (Handle G)) (mbtowc : Nat → Option Wc) (args : List Arg) (items : List Item)
    (rest : Option Arg) (h : Reads commonKeys args items rest) (hp : ∀ x ∈ items, stopOf (α := HyphTool G) x = none) :
    hyphToolArgs init mbtowc args =
      match init ((lastOf (valueOf "-d") items).getD (lit "fi")) (lastOf (valueOf "-p") items) with
      | none => some .fail
      | some h =>
        match secondPass (hyphSecondArg mbtowc) args { handle := (setBooleanOption h 4 0).1 } with
        | some (some s) => some (.run s)
        | some none => some .fail
        | none => ub := by
  unfold hyphToolArgs
  rw [common_items items args rest _ h fun z hz => stop_none z (hp z hz), common_result items h]
  simp only
  generalize init _ _ = o
  cases o with
  | none => rfl
  | some h =>
    simp only
    generalize secondPass _ _ _ = r
    rcases r with _ | _ | _ <;> rfl

/-- **C102** (voikkohyphenate): a command line without a request for help or version does what its items say. -/
theorem C102_hyph {G : Type} (init : Arg → Option Arg → Option (Handle G)) (mbtowc : Nat → Option Wc) (args : List Arg) (items : List Item)
    (rest : Option Arg) (h : Reads commonKeys args items rest) (hp : ∀ x ∈ items, stopOf (α := HyphTool G) x = none) :
    let path := lastOf (valueOf "-p") items
    let variant := (lastOf (valueOf "-d") items).getD (lit "fi")
    (init variant path = none → hyphToolArgs init mbtowc args = some .fail) ∧
    ∀ hd, init variant path = some hd →
      -- all arguments are known
      ((∀ w, .word w ∈ items → HyphKnown mbtowc w ∧ minLengthOf (.word w) ≠ some none) →
        hyphToolArgs init mbtowc args =
          some (.run { separator := (lastOf (hyphSeparatorOf mbtowc) items).getD 0x2D, handle := hyphHandleAfter hd items })) ∧
      -- the first one that is not good
      (∀ pre w post, items = pre ++ .word w :: post →
        (∀ w, .word w ∈ pre → HyphKnown mbtowc w ∧ minLengthOf (.word w) ≠ some none) →
        (¬ HyphKnown mbtowc w → hyphToolArgs init mbtowc args = some .fail) ∧
        (minLengthOf (.word w) = some none → hyphToolArgs init mbtowc args = none)) := by
  intro path variant
  rw [hyph_main init mbtowc args items rest h hp]
  refine ⟨fun hi => ?_, fun hd hi => ⟨fun hk => ?_, fun pre w post hit hpre => ?_⟩⟩
  · change (match init variant path with | none => _ | some h => _) = _
    rw [hi]
  · change (match init variant path with | none => _ | some h => _) = _
    rw [hi]
    simp only
    rw [second_known (hyphSecondArg mbtowc) commonKeys (hyph_key mbtowc) items args rest _ h fun w hm s => by
      obtain ⟨s', e, _⟩ := hyph_set mbtowc w s (hk w hm).1 (hk w hm).2
      exact ⟨s', e⟩]
    simp only
    have e1 : (items.foldl (change (hyphSecondArg mbtowc)) { handle := (setBooleanOption hd 4 0).1 }).separator =
        (lastOf (hyphSeparatorOf mbtowc) items).getD 0x2D := by
      rw [foldl_last (change (hyphSecondArg mbtowc)) (fun s : HyphTool G => s.separator) (hyphSeparatorOf mbtowc) items]
      intro it hm s
      cases it with
      | valued k v => rfl
      | word w => exact (hyph_change mbtowc w (hk w hm).1 (hk w hm).2 s).separator
    have e2 := hyph_handle mbtowc items hk { handle := (setBooleanOption hd 4 0).1 }
    generalize items.foldl (change (hyphSecondArg mbtowc)) { handle := (setBooleanOption hd 4 0).1 } = t at e1 e2
    have e3 : hyphApply (setBooleanOption hd 4 0).1 items = hyphHandleAfter hd items := by
      have hne : lastOf minLengthOf items ≠ some none := by
        intro hl
        unfold lastOf at hl
        obtain ⟨it, hm, hit⟩ := List.mem_filterMap.1 (List.mem_of_getLast? hl)
        cases it with
        | valued k v => cases hit
        | word w => exact (hk w hm).2 hit
      simp only [hyphApply, hyphHandleAfter]
      rcases hl : lastOf minLengthOf items with _ | _ | n
      · rfl
      · exact absurd hl hne
      · rfl
    rw [e3] at e2
    cases t
    simp only at e1 e2
    rw [e1, e2]
  · subst hit
    obtain ⟨s', e⟩ := second_before (hyphSecondArg mbtowc) commonKeys (hyph_key mbtowc) pre (.word w) post args rest { handle := (setBooleanOption hd 4 0).1 } h
      fun w hm s => by
        obtain ⟨s', e, _⟩ := hyph_set mbtowc w s (hpre w hm).1 (hpre w hm).2
        exact ⟨s', e⟩
    have hw : w ∉ commonKeys := h.word w (List.mem_append_right _ List.mem_cons_self)
    constructor
    · intro hu
      change (match init variant path with | none => _ | some h => _) = _
      rw [hi]
      simp only
      rw [e]
      simp only [List.flatMap_cons, Item.args, List.cons_append, List.nil_append]
      rw [secondPass.eq_def]
      simp only [hyph_unknown mbtowc w hw s' hu]
    · intro hu
      change (match init variant path with | none => _ | some h => _) = _
      rw [hi]
      simp only
      rw [e]
      simp only [List.flatMap_cons, Item.args, List.cons_append, List.nil_append]
      rw [secondPass.eq_def]
      simp only [hyph_undefined mbtowc w s' hu]
      rfl

/-- Finding: the manual page documents `ignore_numbers=0` and `ignore_numbers=1` for `voikkohyphenate`, which rejects them: no command line with such an argument
hyphenates anything. -/
theorem C102_ignore_numbers {G : Type} (init : Arg → Option Arg → Option (Handle G)) (mbtowc : Nat → Option Wc) (args : List Arg) (items : List Item)
    (rest : Option Arg) (h : Reads commonKeys args items rest) (hm : .word (lit "ignore_numbers=0") ∈ items ∨ .word (lit "ignore_numbers=1") ∈ items)
    (t : HyphTool G) : hyphToolArgs init mbtowc args ≠ some (.run t) := by
  obtain ⟨w, hm, hw⟩ : ∃ w, .word w ∈ items ∧ ¬ HyphKnown mbtowc w := by
    rcases hm with hm | hm <;> refine ⟨_, hm, ?_⟩ <;>
      · rintro (⟨n, hn, hk⟩ | hk | hk)
        · simp only [List.mem_cons, List.not_mem_nil, or_false] at hn
          rcases hn with rfl | rfl | rfl <;> exact absurd hk (by decide)
        · exact absurd hk (by decide)
        · obtain ⟨c, x, e, _⟩ := hyphSeparator_eq hk
          have := congrArg List.length e
          rw [show ([0x2D, 0x73, c] : List Nat).length = 3 from rfl] at this
          exact absurd this (by decide)
  intro hrun
  by_cases hp : ∀ x ∈ items, stopOf (α := HyphTool G) x = none
  · rw [hyph_main init mbtowc args items rest h hp] at hrun
    have key : ∀ (items : List Item) (args : List Arg) (s : HyphTool G), Reads commonKeys args items rest → .word w ∈ items →
        ∀ t, secondPass (hyphSecondArg mbtowc) args s ≠ some (some t) := by
      intro items
      induction items with
      | nil => intro _ _ _ hm; cases hm
      | cons it items ih =>
        intro args s h hm t
        rw [h.split]
        cases it with
        | valued k v =>
          simp only [List.flatMap_cons, Item.args, List.cons_append, List.nil_append]
          rw [secondPass.eq_def]
          simp only [hyph_key mbtowc k (h.valued k v List.mem_cons_self)]
          refine ih _ s h.tail ?_ t
          rcases List.mem_cons.1 hm with e | hm
          · cases e
          · exact hm
        | word w' =>
          simp only [List.flatMap_cons, Item.args, List.cons_append, List.nil_append]
          rw [secondPass.eq_def]
          have hw' := h.word w' List.mem_cons_self
          by_cases hk : HyphKnown mbtowc w'
          · by_cases hn : minLengthOf (.word w') = some none
            · simp only [hyph_undefined mbtowc w' s hn]
              exact fun e => by cases e
            · obtain ⟨s', e, _⟩ := hyph_set mbtowc w' s hk hn
              simp only [e]
              refine ih _ s' h.tail ?_ t
              rcases List.mem_cons.1 hm with e | hm
              · cases e; exact absurd hk hw
              · exact hm
          · simp only [hyph_unknown mbtowc w' hw' s hk]
            exact fun e => by cases e
    split at hrun
    · cases hrun
    · split at hrun
      · rename_i e; exact key items args _ h hm _ e
      · cases hrun
      · cases hrun
  · -- the first request for help or version
    have first : ∀ items : List Item, (¬ ∀ x ∈ items, stopOf (α := HyphTool G) x = none) →
        ∃ pre it post x, items = pre ++ it :: post ∧ (∀ x ∈ pre, stopOf (α := HyphTool G) x = none) ∧ stopOf (α := HyphTool G) it = some x := by
      intro items
      induction items with
      | nil => intro hn; exact absurd (by simp) hn
      | cons it items ih =>
        intro hn
        cases hs : stopOf (α := HyphTool G) it with
        | some x => exact ⟨[], it, items, x, rfl, by simp, hs⟩
        | none =>
          obtain ⟨pre, it', post, x, e, hpre, hx⟩ := ih fun ha => hn fun y hy => by
            rcases List.mem_cons.1 hy with rfl | hy
            · exact hs
            · exact ha y hy
          refine ⟨it :: pre, it', post, x, by rw [e]; rfl, ?_, hx⟩
          intro y hy
          rcases List.mem_cons.1 hy with rfl | hy
          · exact hs
          · exact hpre y hy
    obtain ⟨pre, it, post, x, rfl, hpre, hx⟩ := first items hp
    rw [C102_hyph_stops init mbtowc args pre it post rest h hpre x hx] at hrun
    injection hrun with hrun
    subst hrun
    obtain ⟨y, hy, hxy⟩ := stop_kinds (β := HyphTool G) it _ hx
    rw [hx] at hy
    injection hy with hy
    subst hy
    cases hxy

/-! ### voikkogc -/

/-- The parts of the settings that `GcMeans` describes after one argument. -/
structure GcSets {G : Type} (w : Arg) (s s' : GcTool G) : Prop where
  op : s'.op = (operationOf (.word w)).getD s.op
  numbers : s'.opts.printNumbers = (decide (w = lit "-n") || s.opts.printNumbers)
  first : s'.opts.lineNumber = s.opts.lineNumber
  language : s'.opts.language = ((languageOf (.word w)).map some).getD s.opts.language
  titles : s'.handle.acceptTitles = (setting "accept_titles" (.word w)).getD s.handle.acceptTitles
  unfinished : s'.handle.acceptUnfinished = (setting "accept_unfinished_paragraphs" (.word w)).getD s.handle.acceptUnfinished
  bulleted : s'.handle.acceptBulleted = (setting "accept_bulleted_lists" (.word w)).getD s.handle.acceptBulleted
  others : s'.handle.spell = s.handle.spell ∧ s'.handle.hyph = s.handle.hyph ∧ s'.handle.ocr = s.handle.ocr ∧
    s'.handle.acceptExtraHyphens = s.handle.acceptExtraHyphens ∧ s'.handle.spellerCache = s.handle.spellerCache
  cache : s.handle.gcCache = none → s'.handle.gcCache = none

theorem gcCacheAfter_none {G : Type} (a b : Bool) : gcCacheAfter (none : Option (List Wc × List G)) a b = none := by
  unfold gcCacheAfter; split <;> rfl

theorem gc_set {G : Type} (w : Arg) (s : GcTool G) (hk : GcKnown w) : ∃ s', gcSecondArg w s = .set s' ∧ GcSets w s s' := by
  rcases hk with rfl | ⟨n, hn, hk⟩ | hk | hk
  · exact ⟨_, rfl, rfl, rfl, rfl, rfl, rfl, rfl, rfl, ⟨rfl, rfl, rfl, rfl, rfl⟩, fun h => h⟩
  · have hb := setting_eq hk
    simp only [List.mem_cons, List.not_mem_nil, or_false] at hn
    rcases hn with rfl | rfl | rfl <;> rcases hb with rfl | rfl <;>
      exact ⟨_, rfl, rfl, rfl, rfl, rfl, rfl, rfl, rfl, ⟨rfl, rfl, rfl, rfl, rfl⟩, fun h => (congrArg (gcCacheAfter · _ _) h).trans (gcCacheAfter_none _ _)⟩
  · simp only [operationOf] at hk
    split at hk
    · rename_i h
      obtain ⟨t, rfl⟩ := h
      exact ⟨_, rfl, rfl, rfl, rfl, rfl, rfl, rfl, rfl, ⟨rfl, rfl, rfl, rfl, rfl⟩, fun h => h⟩
    · split at hk
      · rename_i h
        obtain ⟨t, rfl⟩ := h
        exact ⟨_, rfl, rfl, rfl, rfl, rfl, rfl, rfl, rfl, ⟨rfl, rfl, rfl, rfl, rfl⟩, fun h => h⟩
      · cases hk
  · simp only [languageOf] at hk
    split at hk
    · rename_i h
      obtain ⟨t, rfl⟩ := h
      exact ⟨_, rfl, rfl, rfl, rfl, rfl, rfl, rfl, rfl, ⟨rfl, rfl, rfl, rfl, rfl⟩, fun h => h⟩
    · rename_i h0
      split at hk
      · rename_i h
        obtain ⟨t, rfl⟩ := h
        have hstep : gcSecondArg (lit "explanation_language=" ++ t) s = .set { s with opts := { s.opts with language := some (lit "en") } } := by
          have : gcSecondArg (lit "explanation_language=" ++ t) s = if (lit "explanation_language=fi").isPrefixOf (lit "explanation_language=" ++ t) then
              .set { s with opts := { s.opts with language := some (lit "fi") } } else .set { s with opts := { s.opts with language := some (lit "en") } } := rfl
          rw [this, if_neg (by rw [List.isPrefixOf_iff_prefix]; exact h0)]
        have hl : languageOf (.word (lit "explanation_language=" ++ t)) = some (lit "en") := by
          simp only [languageOf]; rw [if_neg h0, if_pos ⟨t, rfl⟩]
        exact ⟨_, hstep, rfl, rfl, rfl, by rw [hl]; rfl, rfl, rfl, rfl, ⟨rfl, rfl, rfl, rfl, rfl⟩, fun h => h⟩
      · cases hk

theorem gc_unknown {G : Type} (w : Arg) (hw : w ∉ commonKeys) (s : GcTool G) (hk : ¬ GcKnown w) : gcSecondArg w s = .unknown := by
  have h2 : ∀ n ∈ ["accept_titles", "accept_unfinished_paragraphs", "accept_bulleted_lists"], w ≠ lit n ++ lit "=1" ∧ w ≠ lit n ++ lit "=0" := by
    intro n hn
    constructor
    · rintro rfl; exact hk (.inr (.inl ⟨n, hn, by simp [setting]⟩))
    · rintro rfl; exact hk (.inr (.inl ⟨n, hn, by simp only [setting]; split <;> simp⟩))
  have h3 : ¬ lit "--tokenize" <+: w := fun e => hk (.inr (.inr (.inl (by simp [operationOf, e]))))
  have h4 : ¬ lit "--split-sentences" <+: w := fun e => hk (.inr (.inr (.inl (by simp only [operationOf]; rw [if_neg h3, if_pos e]; rfl))))
  have h5 : ¬ lit "explanation_language=fi" <+: w := fun e => hk (.inr (.inr (.inr (by simp [languageOf, e]))))
  have h6 : ¬ lit "explanation_language=" <+: w := fun e => hk (.inr (.inr (.inr (by simp only [languageOf]; rw [if_neg h5, if_pos e]; rfl))))
  have k0 : w ≠ lit "-n" := fun e => hk (.inl e)
  have k1 : w ≠ lit "-p" := fun e => hw (e ▸ by decide)
  have k2 : w ≠ lit "-d" := fun e => hw (e ▸ by decide)
  unfold gcSecondArg
  simp only [List.isPrefixOf_iff_prefix]
  rw [if_neg h3, if_neg h4,
    if_neg (show w ≠ lit "accept_titles=1" from (h2 "accept_titles" (by simp)).1), if_neg (show w ≠ lit "accept_titles=0" from (h2 "accept_titles" (by simp)).2),
    if_neg (show w ≠ lit "accept_unfinished_paragraphs=1" from (h2 "accept_unfinished_paragraphs" (by simp)).1),
    if_neg (show w ≠ lit "accept_unfinished_paragraphs=0" from (h2 "accept_unfinished_paragraphs" (by simp)).2),
    if_neg (show w ≠ lit "accept_bulleted_lists=1" from (h2 "accept_bulleted_lists" (by simp)).1),
    if_neg (show w ≠ lit "accept_bulleted_lists=0" from (h2 "accept_bulleted_lists" (by simp)).2),
    if_neg h5, if_neg h6, if_neg k0, if_neg (fun e => e.elim k1 k2)]

theorem gc_key {G : Type} (k : Arg) (hk : k ∈ commonKeys) (s : GcTool G) : gcSecondArg k s = .skipValue := by
  simp only [commonKeys, List.mem_cons, List.not_mem_nil, or_false] at hk
  rcases hk with rfl | rfl <;> rfl

theorem gc_change {G : Type} (w : Arg) (hk : GcKnown w) (s : GcTool G) : GcSets w s (change gcSecondArg s (.word w)) := by
  obtain ⟨s', e, h⟩ := gc_set w s hk
  simp only [change, e]
  exact h

theorem gc_keep {G β : Type} (get : GcTool G → β) (items : List Item) (hk : ∀ w, .word w ∈ items → GcKnown w)
    (hg : ∀ w s s', GcSets w s s' → get s' = get s) (s : GcTool G) : get (items.foldl (change gcSecondArg) s) = get s := by
  rw [foldl_last (change gcSecondArg) get (fun _ => none) items, lastOf_none _ items fun _ _ => rfl]
  · rfl
  intro it hm s
  cases it with
  | valued k v => rfl
  | word w => exact hg w s _ (gc_change w (hk w hm) s)

theorem gc_fold_cache {G : Type} : (items : List Item) → (∀ w, .word w ∈ items → GcKnown w) → (s : GcTool G) → s.handle.gcCache = none →
    (items.foldl (change gcSecondArg) s).handle.gcCache = none
  | [], _, _, h => h
  | .valued _ _ :: r, hk, s, h => gc_fold_cache r (fun w hm => hk w (List.mem_cons_of_mem _ hm)) s h
  | .word w :: r, hk, s, h =>
    gc_fold_cache r (fun w hm => hk w (List.mem_cons_of_mem _ hm)) _ ((gc_change w (hk w List.mem_cons_self) s).cache h)

theorem gc_means {G : Type} (items : List Item) (hk : ∀ w, .word w ∈ items → GcKnown w) (h : Handle G) :
    GcMeans h items (items.foldl (change gcSecondArg) { handle := h }) where
  op := by
    rw [foldl_last (change gcSecondArg) (fun s : GcTool G => s.op) operationOf items]
    intro it hm s
    cases it with
    | valued k v => rfl
    | word w => exact (gc_change w (hk w hm) s).op
  numbers := by
    rw [foldl_flag (change gcSecondArg) (fun s : GcTool G => s.opts.printNumbers) (· = .word (lit "-n")) items]
    · simp
    intro it hm s
    cases it with
    | valued k v => simp [change]
    | word w => rw [(gc_change w (hk w hm) s).numbers]; simp
  first := gc_keep (fun s => s.opts.lineNumber) items hk (fun _ _ _ h => h.first) _
  language := by
    rw [foldl_last (change gcSecondArg) (fun s : GcTool G => s.opts.language) (fun it => (languageOf it).map some) items, lastOf_map]
    · cases lastOf languageOf items <;> rfl
    intro it hm s
    cases it with
    | valued k v => rfl
    | word w => exact (gc_change w (hk w hm) s).language
  titles := by
    rw [foldl_last (change gcSecondArg) (fun s : GcTool G => s.handle.acceptTitles) (setting "accept_titles") items]
    intro it hm s
    cases it with
    | valued k v => rfl
    | word w => exact (gc_change w (hk w hm) s).titles
  unfinished := by
    rw [foldl_last (change gcSecondArg) (fun s : GcTool G => s.handle.acceptUnfinished) (setting "accept_unfinished_paragraphs") items]
    intro it hm s
    cases it with
    | valued k v => rfl
    | word w => exact (gc_change w (hk w hm) s).unfinished
  bulleted := by
    rw [foldl_last (change gcSecondArg) (fun s : GcTool G => s.handle.acceptBulleted) (setting "accept_bulleted_lists") items]
    intro it hm s
    cases it with
    | valued k v => rfl
    | word w => exact (gc_change w (hk w hm) s).bulleted
  others := ⟨gc_keep (fun s => s.handle.spell) items hk (fun _ _ _ h => h.others.1) _, gc_keep (fun s => s.handle.hyph) items hk (fun _ _ _ h => h.others.2.1) _,
    gc_keep (fun s => s.handle.ocr) items hk (fun _ _ _ h => h.others.2.2.1) _,
    gc_keep (fun s => s.handle.acceptExtraHyphens) items hk (fun _ _ _ h => h.others.2.2.2.1) _,
    gc_keep (fun s => s.handle.spellerCache) items hk (fun _ _ _ h => h.others.2.2.2.2) _⟩
  cache := gc_fold_cache items hk { handle := h }

/-- **C102** (voikkogc): the first item that asks for help or the version decides. -/
theorem C102_gc_stops {G : Type} (init : Arg → Option Arg → Option (Handle G)) (args : List Arg) (pre : List Item) (it : Item)
    (post : List Item) (rest : Option Arg) (h : Reads commonKeys args (pre ++ it :: post) rest)
    (hp : ∀ x ∈ pre, stopOf (α := GcTool G) x = none) (x : ArgsRes (GcTool G)) (hx : stopOf it = some x) :
    gcToolArgs init args = some x := by
  obtain ⟨y, hy, hxy⟩ := stop_kinds (β := Option Arg × Arg) it x hx
  unfold gcToolArgs
  rw [common_stop pre it post args rest _ h (fun z hz => stop_none z (hp z hz)) y hy]
  cases y <;> simp only [endsWith] at hxy <;> first | (injection hxy with hxy; subst hxy; rfl) | cases hxy

/-- **C102** (voikkogc): a command line without a request for help or version does what its items say. -/
theorem C102_gc {G : Type} (init : Arg → Option Arg → Option (Handle G)) (args : List Arg) (items : List Item)
    (rest : Option Arg) (h : Reads commonKeys args items rest) (hp : ∀ x ∈ items, stopOf (α := GcTool G) x = none) :
    let path := lastOf (valueOf "-p") items
    let variant := (lastOf (valueOf "-d") items).getD (lit "fi")
    (init variant path = none → gcToolArgs init args = some .fail) ∧
    ∀ hd, init variant path = some hd →
      ((∃ w, .word w ∈ items ∧ ¬ GcKnown w) → gcToolArgs init args = some .fail) ∧
      ((∀ w, .word w ∈ items → GcKnown w) → ∃ t, gcToolArgs init args = some (.run t) ∧ GcMeans hd items t) := by
  intro path variant
  have main : gcToolArgs init args = match init variant path with
      | none => some .fail
      | some h =>
        match secondPass gcSecondArg args { handle := h } with
        | some (some s) => some (.run s)
        | some none => some .fail
        | none => ub := by
    unfold gcToolArgs
    rw [common_items items args rest _ h fun z hz => stop_none z (hp z hz), common_result items h]
    simp only [path, variant]
    generalize init _ _ = o
    cases o with
    | none => rfl
    | some h =>
      simp only
      generalize secondPass _ _ _ = r
      rcases r with _ | _ | _ <;> rfl
  rw [main]
  refine ⟨fun hi => by rw [hi], fun hd hi => ?_⟩
  rw [hi]
  simp only
  constructor
  · rintro ⟨w, hm, hu⟩
    rw [second_unknown gcSecondArg commonKeys gc_key (fun w hw => by
      by_cases hk : GcKnown w
      · left; intro s
        obtain ⟨s', e, _⟩ := gc_set w s hk
        exact ⟨s', e⟩
      · right; exact fun s => gc_unknown w hw s hk) items args rest _ h ⟨w, hm, fun s => gc_unknown w (h.word w hm) s hu⟩]
  · intro hk
    rw [second_known gcSecondArg commonKeys gc_key items args rest _ h fun w hm s => by
      obtain ⟨s', e, _⟩ := gc_set w s (hk w hm)
      exact ⟨s', e⟩]
    exact ⟨_, rfl, gc_means items hk _⟩

/-! ### Command lines -/

/-- `voikkohyphenate -s+ min_hyphenated_word_length=1 no_ugly_hyphenation=1 -d fi`. -/
def hyphItems : List Item :=
  [.word (lit "-s+"), .word (lit "min_hyphenated_word_length=1"), .word (lit "no_ugly_hyphenation=1"), .valued (lit "-d") (lit "fi")]

theorem hyphItems_reads : Reads commonKeys (["-s+", "min_hyphenated_word_length=1", "no_ugly_hyphenation=1", "-d", "fi"].map lit) hyphItems none where
  split := by decide +kernel
  valued := by
    intro k v hm
    simp only [hyphItems, List.mem_cons, List.not_mem_nil, or_false, reduceCtorEq, false_or, Item.valued.injEq] at hm
    rw [hm.1]; decide
  word := by
    intro w hm
    simp only [hyphItems, List.mem_cons, List.not_mem_nil, or_false, reduceCtorEq, Item.word.injEq] at hm
    rcases hm with rfl | rfl | rfl <;> decide
  rest := by simp

/-- Non-vacuity: the separator is `+`, the least length is 2 and ugly hyphenation is off. -/
example (init : Arg → Option Arg → Option (Handle Nat)) (hd : Handle Nat) (hi : init (lit "fi") none = some hd) :
    ∃ t, hyphToolArgs init some (["-s+", "min_hyphenated_word_length=1", "no_ugly_hyphenation=1", "-d", "fi"].map lit) = some (.run t) ∧
      t.separator = 0x2B ∧ t.handle.hyph.minLength = 2 ∧ t.handle.hyph.ugly = false := by
  have hs : ∀ x ∈ hyphItems, stopOf (α := HyphTool Nat) x = none := by
    intro x hx
    simp only [hyphItems, List.mem_cons, List.not_mem_nil, or_false] at hx
    rcases hx with rfl | rfl | rfl | rfl
    · rfl
    · rfl
    · rfl
    · exact common_valued_goes_on _ _ (by decide)
  have hk : ∀ w, .word w ∈ hyphItems → HyphKnown some w ∧ minLengthOf (.word w) ≠ some none := by
    intro w hm
    simp only [hyphItems, List.mem_cons, List.not_mem_nil, or_false, reduceCtorEq, Item.word.injEq] at hm
    rcases hm with rfl | rfl | rfl <;> (unfold HyphKnown; decide +kernel)
  have e : lastOf (valueOf "-p") hyphItems = none := by decide +kernel
  have e' : (lastOf (valueOf "-d") hyphItems).getD (lit "fi") = lit "fi" := by decide +kernel
  have main := (C102_hyph init some _ hyphItems none hyphItems_reads hs).2 hd
  rw [e, e'] at main
  have h1 : lastOf (hyphSeparatorOf some) hyphItems = some 0x2B := by decide +kernel
  have h2 : lastOf minLengthOf hyphItems = some (some 1) := by decide +kernel
  have h3 : lastOf (setting "no_ugly_hyphenation") hyphItems = some true := by decide +kernel
  refine ⟨_, (main hi).1 hk, by simp only [h1, Option.getD_some], ?_, ?_⟩
  · simp only [hyphHandleAfter, h2]; decide
  · simp only [hyphHandleAfter, h3]; decide

/-- Non-vacuity of `C102_ignore_numbers` and `C102_gc`: `voikkohyphenate ignore_numbers=1` fails, and
`voikkogc -n explanation_language=sv accept_titles=1 accept_titles=0` explains in English and does not accept titles. -/
example (init : Arg → Option Arg → Option (Handle Nat)) (hd : Handle Nat) (hi : init (lit "fi") none = some hd) :
    hyphToolArgs init some [lit "ignore_numbers=1"] = some .fail ∧
    ∃ t, gcToolArgs init (["-n", "explanation_language=sv", "accept_titles=1", "accept_titles=0"].map lit) = some (.run t) ∧
      t.opts.language = some (lit "en") ∧ t.opts.printNumbers = true ∧ t.handle.acceptTitles = false ∧ t.op = .checkGrammar := by
  constructor
  · unfold hyphToolArgs
    have : commonFirstPass [lit "ignore_numbers=1"] (none, lit "fi") = .run (none, lit "fi") := rfl
    rw [this]
    simp only [hi]
    rfl
  · unfold gcToolArgs
    have : commonFirstPass (["-n", "explanation_language=sv", "accept_titles=1", "accept_titles=0"].map lit) (none, lit "fi") = .run (none, lit "fi") := rfl
    rw [this]
    simp only [hi]
    exact ⟨_, rfl, rfl, rfl, rfl, rfl⟩

end Verif.Props
