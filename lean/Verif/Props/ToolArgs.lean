import Verif.Lemmas.ToolArgs
import Verif.Props.SpellerCache
import Verif.Lemmas.Spell
/-!
# C101: the command line of `voikkospell`
-/

namespace Verif.Props
open Verif Verif.Args

/-! ### The folds -/

theorem lastOf_map {β γ : Type} (g : β → γ) (f : Item → Option β) : (items : List Item) →
    lastOf (fun it => (f it).map g) items = (lastOf f items).map g
  | [] => rfl
  | it :: r => by
    rw [lastOf_cons, lastOf_cons, lastOf_map g f r]
    cases lastOf f r <;> cases f it <;> rfl

theorem first_path (items : List Item) (s : SpellFirst) :
    (items.foldl firstUpd s).path = (lastOf (valueOf "-p") items).or s.path := by
  rw [foldl_last firstUpd (·.path) (fun it => (valueOf "-p" it).map some) items, lastOf_map]
  · cases lastOf (valueOf "-p") items <;> rfl
  · intro it _ s
    cases it with
    | word w => simp only [firstUpd, valueOf]; (repeat' split) <;> rfl
    | valued k v => simp only [firstUpd, valueOf]; (repeat' split) <;> first | rfl | contradiction

theorem first_variant (items : List Item) (s : SpellFirst) :
    (items.foldl firstUpd s).variant = (lastOf (valueOf "-d") items).getD s.variant := by
  rw [foldl_last firstUpd (·.variant) (valueOf "-d") items]
  intro it _ s
  cases it with
  | word w => simp only [firstUpd, valueOf]; (repeat' split) <;> rfl
  | valued k v =>
    simp only [firstUpd, valueOf]
    split
    · rename_i h; subst h; rw [if_neg (by decide)]; rfl
    · split <;> rfl

theorem first_cache (items : List Item) (s : SpellFirst) :
    (items.foldl firstUpd s).cacheSize = ((lastOf cacheOf items).map (·.getD 0)).getD s.cacheSize := by
  rw [← lastOf_map, foldl_last firstUpd (·.cacheSize) (fun it => (cacheOf it).map (·.getD 0)) items]
  intro it _ s
  cases it with
  | word w => simp only [firstUpd, cacheOf]; (repeat' split) <;> first | rfl | contradiction
  | valued k v => simp only [firstUpd, cacheOf]; (repeat' split) <;> rfl

theorem first_threads {args : List Arg} {rest : Option Arg} (items : List Item) (h : Reads spellKeys args items rest) (s : SpellFirst) :
    (items.foldl firstUpd s).threadCount = ((lastOf threadsOf items).map (·.getD 0)).getD s.threadCount := by
  rw [← lastOf_map, foldl_last firstUpd (·.threadCount) (fun it => (threadsOf it).map (·.getD 0)) items]
  intro it hm s
  cases it with
  | word w => simp only [firstUpd, threadsOf]; (repeat' split) <;> rfl
  | valued k v =>
    have hk := h.valued k v hm
    simp only [spellKeys, List.mem_cons, List.not_mem_nil, or_false] at hk
    rcases hk with rfl | rfl | rfl <;> rfl

theorem first_listDicts (items : List Item) (s : SpellFirst) :
    (items.foldl firstUpd s).listDicts = true ↔ .word (lit "-l") ∈ items ∨ s.listDicts = true := by
  rw [foldl_flag firstUpd (·.listDicts) (· = .word (lit "-l")) items]
  · simp
  · intro it _ s
    cases it with
    | word w =>
      simp only [firstUpd, Item.word.injEq]
      split
      · rename_i h
        have : w ≠ lit "-l" := by rintro rfl; exact absurd h (by decide)
        simp [this]
      · (repeat' split) <;> simp_all
    | valued k v => simp only [firstUpd]; (repeat' split) <;> simp

theorem first_listCapabilities (items : List Item) (s : SpellFirst) :
    (items.foldl firstUpd s).listCapabilities = true ↔ .word (lit "-L") ∈ items ∨ s.listCapabilities = true := by
  rw [foldl_flag firstUpd (·.listCapabilities) (· = .word (lit "-L")) items]
  · simp
  · intro it _ s
    cases it with
    | word w =>
      simp only [firstUpd, Item.word.injEq]
      split
      · rename_i h
        have : w ≠ lit "-L" := by rintro rfl; exact absurd h (by decide)
        simp [this]
      · split
        · rename_i h
          have : w ≠ lit "-L" := by rw [h]; decide
          simp [this]
        · split <;> simp_all
    | valued k v => simp only [firstUpd]; (repeat' split) <;> simp

theorem getD_getD {β : Type} (f : Item → Option β) (it : Item) (r : List Item) (x : β) :
    (lastOf f r).getD ((lastOf f [it]).getD x) = (lastOf f (it :: r)).getD x := by
  rw [lastOf_cons f it r, lastOf_cons f it []]
  cases lastOf f r <;> simp [lastOf_nil]

theorem handleAfter_cons {G : Type} (h : Handle G) (it : Item) (r : List Item) : handleAfter (handleAfter h [it]) r = handleAfter h (it :: r) := by
  simp only [handleAfter, getD_getD]

theorem handleAfter_valued {G : Type} (h : Handle G) (k v : Arg) : handleAfter h [.valued k v] = h := rfl

/-- Each known argument changes the settings as `SpellSets` says. -/
theorem change_sets {G : Type} (w : Arg) (hk : SpellKnown w) (s : SpellTool G) : SpellSets w s (change spellSecondArg s (.word w)) := by
  obtain ⟨s', e, h⟩ := spellSecond_set w s hk
  simp only [change, e]
  exact h

theorem second_handles {G : Type} : (items : List Item) → (∀ w, .word w ∈ items → SpellKnown w) → (s : SpellTool G) →
    (items.foldl (change spellSecondArg) s).handles = s.handles.map (handleAfter · items)
  | [], _, s => ((List.map_congr_left (fun _ _ => rfl)).trans (List.map_id _)).symm
  | it :: r, hk, s => by
    rw [List.foldl_cons, second_handles r (fun w hm => hk w (List.mem_cons_of_mem _ hm))]
    cases it with
    | valued k v =>
      refine List.map_congr_left fun h _ => ?_
      rw [← handleAfter_cons, handleAfter_valued]
    | word w =>
      rw [(change_sets w (hk w List.mem_cons_self) s).handles, List.map_map]
      exact List.map_congr_left fun h _ => handleAfter_cons h _ r

theorem second_space {G : Type} : (items : List Item) → (∀ w, .word w ∈ items → SpellKnown w) → (s : SpellTool G) →
    s.opts.space = (s.opts.separator != 0x20) →
    (items.foldl (change spellSecondArg) s).opts.space = ((items.foldl (change spellSecondArg) s).opts.separator != 0x20)
  | [], _, _, h => h
  | it :: r, hk, s, h => by
    rw [List.foldl_cons]
    refine second_space r (fun w hm => hk w (List.mem_cons_of_mem _ hm)) _ ?_
    cases it with
    | valued k v => exact h
    | word w => exact (change_sets w (hk w List.mem_cons_self) s).space h

theorem second_means {G : Type} (items : List Item) (hk : ∀ w, .word w ∈ items → SpellKnown w) (h : Handle G) (n : Nat) :
    SpellMeans h n items (items.foldl (change spellSecondArg) { handles := List.replicate n h }) where
  mode := by
    rw [foldl_last (change spellSecondArg) (fun s : SpellTool G => s.opts.mode) modeOf items]
    intro it hm s
    cases it with
    | valued k v => rfl
    | word w => exact (change_sets w (hk w hm) s).mode
  suggest := by
    rw [foldl_flag (change spellSecondArg) (fun s : SpellTool G => s.opts.suggest) (· = .word (lit "-s")) items]
    · simp
    intro it hm s
    cases it with
    | valued k v => simp [change]
    | word w => rw [(change_sets w (hk w hm) s).suggest]; simp
  morphology := by
    rw [foldl_flag (change spellSecondArg) (fun s : SpellTool G => s.opts.morphology) (fun it => it = .word (lit "-m") ∨ it = .word (lit "-M")) items]
    · constructor
      · rintro (⟨it, hm, rfl | rfl⟩ | h)
        · exact .inl hm
        · exact .inr hm
        · cases h
      · rintro (hm | hm)
        · exact .inl ⟨_, hm, .inl rfl⟩
        · exact .inl ⟨_, hm, .inr rfl⟩
    intro it hm s
    cases it with
    | valued k v => simp [change]
    | word w => rw [(change_sets w (hk w hm) s).morphology]; simp
  oneLine := by
    rw [foldl_flag (change spellSecondArg) (fun s : SpellTool G => s.opts.oneLine) (fun it => ∃ w, it = .word w ∧ lit "-x" <+: w) items]
    · constructor
      · rintro (⟨it, hm, w, rfl, hp⟩ | h)
        · exact ⟨w, hm, hp⟩
        · cases h
      · rintro ⟨w, hm, hp⟩
        exact .inl ⟨_, hm, w, rfl, hp⟩
    intro it hm s
    cases it with
    | valued k v => simp [change]
    | word w => rw [(change_sets w (hk w hm) s).oneLine]; simp
  separator := by
    rw [foldl_last (change spellSecondArg) (fun s : SpellTool G => s.opts.separator) separatorOf items]
    intro it hm s
    cases it with
    | valued k v => rfl
    | word w => exact (change_sets w (hk w hm) s).separator
  space := by
    rw [second_space items hk _ rfl]; simp
  handles := by
    rw [second_handles items hk]; simp

/-! ### The theorems -/

/-- C101: every command line is read in exactly one way as a sequence of items. -/
theorem C101_reads (args : List Arg) :
    ∃ items rest, Reads spellKeys args items rest ∧ ∀ items' rest', Reads spellKeys args items' rest' → items' = items ∧ rest' = rest := by
  obtain ⟨items, rest, h⟩ := reads_exists spellKeys args
  exact ⟨items, rest, h, fun items' rest' h' => reads_unique spellKeys items' items rest' rest args h' h⟩

/-- The results of the first loop that end the program. -/
def endsWith {α β : Type} : ArgsRes α → Option (ArgsRes β)
  | .help => some .help
  | .version => some .version
  | .fail => some .fail
  | _ => none

theorem stop_kinds {α β : Type} (it : Item) (x : ArgsRes α) (h : stopOf it = some x) : ∃ y : ArgsRes β, stopOf it = some y ∧ endsWith y = some x := by
  cases it with
  | word w =>
    simp only [stopOf] at h ⊢
    split at h
    · rename_i h1; injection h with h; subst h; rw [if_pos h1]; exact ⟨_, rfl, rfl⟩
    · rename_i h1
      split at h
      · rename_i h2; injection h with h; subst h; rw [if_neg h1, if_pos h2]; exact ⟨_, rfl, rfl⟩
      · cases h
  | valued k v =>
    simp only [stopOf] at h ⊢
    split at h
    · rename_i h1; injection h with h; subst h; rw [if_pos h1]; exact ⟨_, rfl, rfl⟩
    · cases h

theorem stop_none {α β : Type} (it : Item) (h : stopOf (α := α) it = none) : stopOf (α := β) it = none := by
  cases hs : stopOf (α := β) it with
  | none => rfl
  | some x =>
    obtain ⟨y, e, _⟩ := stop_kinds (β := α) it x hs
    rw [h] at e; cases e

/-- C101: the first item that asks for help or the version, or gives an impossible number of threads, decides, whatever follows it. -/
theorem C101_stops {G : Type} (init : Arg → Option Arg → Option (Handle G)) (args : List Arg) (pre : List Item) (it : Item) (post : List Item)
    (rest : Option Arg) (h : Reads spellKeys args (pre ++ it :: post) rest)
    (hp : ∀ x ∈ pre, NumbersOk x ∧ stopOf (α := SpellTool G) x = none) (x : ArgsRes (SpellTool G)) (hx : stopOf it = some x) :
    spellToolArgs init args = some x := by
  obtain ⟨s', e⟩ := first_before pre it post args rest {} h fun y hy => ⟨(hp y hy).1, stop_none y (hp y hy).2⟩
  obtain ⟨y, hy, hxy⟩ := stop_kinds (β := SpellFirst) it x hx
  unfold spellToolArgs
  rw [e, first_stop it post _ rest s' (reads_suffix pre h) y hy]
  cases y <;> simp only [endsWith] at hxy <;> first | (injection hxy with hxy; subst hxy; rfl) | cases hxy

/-- Finding: a number that is not an `int` after `-c` or `-j` is undefined behaviour, unless something before it ends the program. -/
theorem C101_undefined {G : Type} (init : Arg → Option Arg → Option (Handle G)) (args : List Arg) (pre : List Item) (it : Item) (post : List Item)
    (rest : Option Arg) (h : Reads spellKeys args (pre ++ it :: post) rest)
    (hp : ∀ x ∈ pre, NumbersOk x ∧ stopOf (α := SpellTool G) x = none) (hx : ¬ NumbersOk it) :
    spellToolArgs init args = none := by
  obtain ⟨s', e⟩ := first_before pre it post args rest {} h fun y hy => ⟨(hp y hy).1, stop_none y (hp y hy).2⟩
  unfold spellToolArgs
  rw [e, first_undefined it post _ rest s' (reads_suffix pre h) hx]; rfl

/-- C101: `-j` as the last argument is an error. -/
theorem C101_missing {G : Type} (init : Arg → Option Arg → Option (Handle G)) (args : List Arg) (items : List Item)
    (h : Reads spellKeys args items (some (lit "-j"))) (hp : ∀ x ∈ items, NumbersOk x ∧ stopOf (α := SpellTool G) x = none) :
    spellToolArgs init args = some .fail := by
  unfold spellToolArgs
  rw [first_items items args _ {} h fun y hy => ⟨(hp y hy).1, stop_none y (hp y hy).2⟩, if_pos rfl]; rfl

/-- The cache size that the items ask for. -/
def wantedCache (items : List Item) : Int := ((lastOf cacheOf items).map (·.getD 0)).getD 0

/-- The number of threads that the items ask for. -/
def wantedThreads (items : List Item) : Int := ((lastOf threadsOf items).map (·.getD 0)).getD 1

theorem resize_ok (old : Option SpellerCache) (n : Int) (hn : n ≤ 18) :
    ∃ c, resizeCache old n = some c ∧ (c = none ↔ n < 0) ∧ (∀ k, c = some k → (k.sizeParam : Int) = n) ∧ ∀ f, CacheInv f old → CacheInv f c := by
  have mk : ∃ c, makeCache n = some c ∧ (c = none ↔ n < 0) ∧ (∀ k, c = some k → (k.sizeParam : Int) = n) ∧ ∀ f, CacheInv f c := by
    unfold makeCache
    by_cases h : 0 ≤ n
    · obtain ⟨c, e, hs, _⟩ := newCache_ok (fun _ => .ok) n.toNat (by omega)
      refine ⟨some c, by rw [if_pos h, e]; rfl, by simp; omega, ?_, ?_⟩
      · rintro k ⟨⟩
        rw [hs]; omega
      · intro f
        obtain ⟨c', e', _, hok⟩ := newCache_ok f n.toNat (by omega)
        rw [e] at e'
        cases e'
        exact hok
    · exact ⟨none, by rw [if_neg h]; rfl, by simp; omega, by simp, fun _ => trivial⟩
  have mk' : ∃ c, makeCache n = some c ∧ (c = none ↔ n < 0) ∧ (∀ k, c = some k → (k.sizeParam : Int) = n) ∧ ∀ f, CacheInv f old → CacheInv f c := by
    obtain ⟨c, h1, h2, h3, h4⟩ := mk
    exact ⟨c, h1, h2, h3, fun f _ => h4 f⟩
  unfold resizeCache
  cases old with
  | none => exact mk'
  | some c =>
    simp only
    by_cases h : (c.sizeParam : Int) = n
    · exact ⟨some c, by rw [if_pos h]; rfl, by simp; omega, by rintro k ⟨⟩; exact h, fun _ hi => hi⟩
    · rw [if_neg h]; exact mk'

/-- **C101**: a command line without a request for help or version, with possible numbers of threads and with a cache size up to 18 does what its items say:
it lists dictionaries or capabilities, fails if the dictionary cannot be loaded or an argument is unknown, and otherwise all threads run with the settings that
the manual page gives to the items, the last one counting. -/
theorem C101_outcome {G : Type} (init : Arg → Option Arg → Option (Handle G)) (args : List Arg) (items : List Item) (rest : Option Arg)
    (h : Reads spellKeys args items rest) (hr : rest ≠ some (lit "-j")) (hp : ∀ x ∈ items, NumbersOk x ∧ stopOf (α := SpellTool G) x = none) :
    let path := lastOf (valueOf "-p") items
    let variant := (lastOf (valueOf "-d") items).getD (lit "fi")
    (.word (lit "-l") ∈ items → spellToolArgs init args = some (.listDicts path)) ∧
    (.word (lit "-l") ∉ items → .word (lit "-L") ∈ items → spellToolArgs init args = some (.listCapabilities path)) ∧
    (.word (lit "-l") ∉ items → .word (lit "-L") ∉ items →
      (init variant path = none → spellToolArgs init args = some .fail) ∧
      ∀ hd, init variant path = some hd → wantedCache items ≤ 18 →
        ((∃ w, .word w ∈ items ∧ ¬ SpellKnown w) → spellToolArgs init args = some .fail) ∧
        ((∀ w, .word w ∈ items → SpellKnown w) → ∃ t c, spellToolArgs init args = some (.run t) ∧
          SpellMeans { hd with spellerCache := c } (wantedThreads items).toNat items t ∧
          (c = none ↔ wantedCache items < 0) ∧ (∀ k, c = some k → (k.sizeParam : Int) = wantedCache items) ∧
          ∀ f, CacheInv f hd.spellerCache → CacheInv f c)) := by
  have hf := first_items items args rest {} h fun y hy => ⟨(hp y hy).1, stop_none y (hp y hy).2⟩
  rw [if_neg hr] at hf
  have e1 := first_path items {}
  have e2 := first_variant items {}
  have e3 := first_cache items {}
  have e4 := first_threads items h {}
  have e5 := first_listDicts items {}
  have e6 := first_listCapabilities items {}
  generalize items.foldl firstUpd {} = f at hf e1 e2 e3 e4 e5 e6
  simp only [Option.or_none, Bool.false_eq_true, or_false] at e1 e5 e6
  change f.cacheSize = wantedCache items at e3
  change f.threadCount = wantedThreads items at e4
  intro path variant
  have main : spellToolArgs init args =
      if f.listDicts then some (.listDicts f.path) else if f.listCapabilities then some (.listCapabilities f.path) else
        match init f.variant f.path with
        | none => some .fail
        | some hd => do
          let (hd, _) ← setIntegerOption hd 17 f.cacheSize
          match ← secondPass spellSecondArg args { handles := List.replicate f.threadCount.toNat hd } with
          | some s => return .run s
          | none => return .fail := by
    unfold spellToolArgs
    rw [hf]
    simp only [Option.bind_eq_bind, Option.bind_some]
    cases f.listDicts <;> cases f.listCapabilities <;> cases init f.variant f.path <;> rfl
  have hin : init f.variant f.path = init variant path := by rw [e1, e2]
  rw [main, hin, e3, e4]
  refine ⟨fun hl => by rw [if_pos (e5.2 hl), e1], fun hl hL => by rw [if_neg (fun x => hl (e5.1 x)), if_pos (e6.2 hL), e1], fun hl hL => ?_⟩
  rw [if_neg (fun x => hl (e5.1 x)), if_neg (fun x => hL (e6.1 x))]
  refine ⟨fun hi => by rw [hi], fun hd hi hc => ?_⟩
  obtain ⟨c, hc1, hc2, hc3, hc4⟩ := resize_ok hd.spellerCache (wantedCache items) hc
  have hset : setIntegerOption hd 17 (wantedCache items) = some ({ hd with spellerCache := c }, 1) := by
    unfold setIntegerOption
    rw [if_neg (by decide), if_pos rfl, hc1]; rfl
  rw [hi]
  simp only [hset, Option.bind_eq_bind, Option.bind_some]
  constructor
  · rintro ⟨w, hm, hu⟩
    rw [second_unknown spellSecondArg spellKeys spellSecond_key (fun w hw => by
      by_cases hk : SpellKnown w
      · left; intro s
        obtain ⟨s', e, _⟩ := spellSecond_set w s hk
        exact ⟨s', e⟩
      · right; exact fun s => spellSecond_unknown w hw s hk) items args rest _ h ⟨w, hm, fun s => spellSecond_unknown w (h.word w hm) s hu⟩]
    rfl
  · intro hk
    rw [second_known spellSecondArg spellKeys spellSecond_key items args rest _ h fun w hm s => by
      obtain ⟨s', e, _⟩ := spellSecond_set w s (hk w hm)
      exact ⟨s', e⟩]
    exact ⟨_, c, rfl, second_means items hk _ _, hc2, hc3, hc4⟩

/-- Finding (with C23): `-c19` and more is undefined behaviour whenever the dictionary can be loaded, although the manual page sets no limit. -/
theorem C101_cache_undefined {G : Type} (init : Arg → Option Arg → Option (Handle G)) (n : Nat) (hn : 19 ≤ n) (ds : List Nat)
    (ha : atoi ds = some n) (hd : Handle G) (hi : init (lit "fi") none = some hd) (hc : ∀ c, hd.spellerCache = some c → c.sizeParam ≤ 18) :
    spellToolArgs init [lit "-c" ++ ds] = none := by
  have e : spellFirstPass [lit "-c" ++ ds] {} = some (.run { cacheSize := n }) := by
    rw [first_word _ (by simp [spellKeys, lit]), if_pos ⟨ds, rfl⟩]
    have : (lit "-c" ++ ds).drop 2 = ds := rfl
    rw [this, ha]; rfl
  unfold spellToolArgs
  rw [e]
  simp only [Option.bind_eq_bind, Option.bind_some, Bool.false_eq_true, if_false, hi]
  have : setIntegerOption hd 17 n = none := by
    unfold setIntegerOption
    rw [if_neg (by decide), if_pos rfl]
    have hm : makeCache n = none := by
      unfold makeCache
      rw [if_pos (by omega), Int.toNat_natCast, C23_size_overflow n hn]; rfl
    have : resizeCache hd.spellerCache n = none := by
      unfold resizeCache
      cases hs : hd.spellerCache with
      | none => exact hm
      | some c =>
        simp only
        rw [if_neg (by have := hc c hs; omega)]; exact hm
    rw [this]; rfl
  rw [this]; rfl

/-! ### Numbers in decimal -/

/-- The digits of `n` are read as `n`. -/
theorem C101_number (ds : List Nat) (hds : ∀ d ∈ ds, d < 10) (hne : ds ≠ [])
    (hle : ds.foldl (fun (v : Int) (d : Nat) => v * 10 + (d : Int)) 0 ≤ 2147483647) :
    atoi (ds.map (· + 0x30)) = some (ds.foldl (fun (v : Int) (d : Nat) => v * 10 + (d : Int)) 0) ∧
    atoi (0x2D :: ds.map (· + 0x30)) = some (-(ds.foldl (fun (v : Int) (d : Nat) => v * 10 + (d : Int)) 0)) := by
  have hd0 := digitsValue_append ds hds 0 []
  rw [List.append_nil] at hd0
  change _ = ds.foldl (fun (v : Int) (d : Nat) => v * 10 + (d : Int)) 0 at hd0
  have pos : ∀ (l : List Nat) (v : Int), 0 ≤ v → 0 ≤ l.foldl (fun (v : Int) (d : Nat) => v * 10 + (d : Int)) v := by
    intro l
    induction l with
    | nil => exact fun v h => h
    | cons d l ih => intro v h; exact ih _ (show 0 ≤ v * 10 + (d : Int) by omega)
  have h0 := pos ds 0 (by omega)
  generalize ds.foldl (fun (v : Int) (d : Nat) => v * 10 + (d : Int)) 0 = v at *
  cases ds with
  | nil => exact absurd rfl hne
  | cons d ds =>
    have hd : d < 10 := hds d List.mem_cons_self
    rw [List.map_cons] at hd0 ⊢
    constructor
    · unfold atoi
      rw [List.dropWhile_cons_of_neg (by simp [isSpaceByte])]
      simp only
      rw [hd0, if_pos (by omega)]
    · unfold atoi
      rw [List.dropWhile_cons_of_neg (by decide)]
      simp only
      rw [hd0, if_pos (by omega)]

/-- C101: the number of threads is between 1 and 200, so there is a handle for each. -/
theorem C101_threads {α : Type} (items : List Item) (hp : ∀ x ∈ items, NumbersOk x ∧ stopOf (α := α) x = none) :
    1 ≤ wantedThreads items ∧ wantedThreads items ≤ 200 := by
  unfold wantedThreads
  cases hl : lastOf threadsOf items with
  | none => simp
  | some o =>
    unfold lastOf at hl
    obtain ⟨it, hm, hit⟩ := List.mem_filterMap.1 (List.mem_of_getLast? hl)
    have h0 := hp it hm
    cases it with
    | word w => cases hit
    | valued k v =>
      simp only [threadsOf] at hit
      split at hit
      · rename_i hk
        subst hk
        injection hit with hit
        subst hit
        cases ha : atoi v with
        | none => exact absurd (by simp [threadsOf, ha]) h0.1.2
        | some n =>
          simp only [Option.map_some, Option.getD_some]
          by_cases hr : 1 ≤ n ∧ n ≤ 200
          · exact hr
          · have h1 := h0.2
            simp only [stopOf] at h1
            rw [if_pos ⟨trivial, n, ha, hr⟩] at h1
            cases h1
      · cases hit

/-- C101: of the items that set the same thing the last one counts; what the others say makes no difference. -/
theorem C101_last {β : Type} (f : Item → Option β) (pre post : List Item) (it : Item) (b : β) (hb : f it = some b) (hpost : ∀ x ∈ post, f x = none) :
    lastOf f (pre ++ it :: post) = some b := by
  have e : post.filterMap f = [] := List.filterMap_eq_nil_iff.2 hpost
  simp [lastOf, List.filterMap_append, hb, e]

/-! ### A command line -/

/-- `voikkospell -j 3 ignore_dot=1 -p -h -t -c5 ignore_dot=0 -x, -M`: the value of `-p` is not a request for help. -/
def sampleItems : List Item :=
  [.valued (lit "-j") (lit "3"), .word (lit "ignore_dot=1"), .valued (lit "-p") (lit "-h"), .word (lit "-t"), .word (lit "-c5"), .word (lit "ignore_dot=0"),
   .word (lit "-x,"), .word (lit "-M")]

def sampleArgs : List Arg := ["-j", "3", "ignore_dot=1", "-p", "-h", "-t", "-c5", "ignore_dot=0", "-x,", "-M"].map lit

theorem sample_reads : Reads spellKeys sampleArgs sampleItems none where
  split := by decide +kernel
  valued := by
    intro k v hm
    simp only [sampleItems, List.mem_cons, List.not_mem_nil, or_false, reduceCtorEq, false_or, Item.valued.injEq] at hm
    rcases hm with ⟨rfl, _⟩ | ⟨rfl, _⟩ <;> decide
  word := by
    intro w hm
    simp only [sampleItems, List.mem_cons, List.not_mem_nil, or_false, reduceCtorEq, false_or, Item.word.injEq] at hm
    rcases hm with rfl | rfl | rfl | rfl | rfl | rfl <;> decide
  rest := by simp

theorem sample_ok : ∀ x ∈ sampleItems, NumbersOk x ∧ stopOf (α := SpellTool Nat) x = none := by
  have a3 : atoi (lit "3") = some 3 := by decide +kernel
  intro x hx
  simp only [sampleItems, List.mem_cons, List.not_mem_nil, or_false] at hx
  rcases hx with rfl | rfl | rfl | rfl | rfl | rfl | rfl | rfl
  · refine ⟨by unfold NumbersOk; decide +kernel, ?_⟩
    simp only [stopOf, a3]
    rw [if_neg]
    rintro ⟨_, n, hn, hr⟩
    injection hn with hn
    omega
  all_goals first
    | exact ⟨by unfold NumbersOk; decide +kernel, rfl⟩
    | (refine ⟨by unfold NumbersOk; decide +kernel, ?_⟩
       simp only [stopOf]
       rw [if_neg (fun h => absurd h.1 (by decide))])

theorem sample_known : ∀ w, .word w ∈ sampleItems → SpellKnown w := by
  intro w hm
  simp only [sampleItems, List.mem_cons, List.not_mem_nil, or_false, reduceCtorEq, false_or, Item.word.injEq] at hm
  rcases hm with rfl | rfl | rfl | rfl | rfl | rfl <;> (unfold SpellKnown; decide +kernel)

/-- Non-vacuity: the command line above runs three threads that print analyses only, on one line with commas, with a cache of size 5, the dictionary path
`-h` and the dot not ignored. -/
example (init : Arg → Option Arg → Option (Handle Nat)) (hd : Handle Nat) (hi : init (lit "fi") (some (lit "-h")) = some hd) :
    ∃ t c, spellToolArgs init sampleArgs = some (.run t) ∧ t.opts.mode = .none ∧ t.opts.suggest = false ∧ t.opts.separator = 0x2C ∧
      t.handles = List.replicate 3 (handleAfter { hd with spellerCache := some c } sampleItems) ∧ c.sizeParam = 5 ∧
      ∀ h ∈ t.handles, h.spell.ignoreDot = false := by
  have e : lastOf (valueOf "-p") sampleItems = some (lit "-h") := by decide +kernel
  have e' : (lastOf (valueOf "-d") sampleItems).getD (lit "fi") = lit "fi" := by decide +kernel
  have wc : wantedCache sampleItems = 5 := by decide +kernel
  have wt : wantedThreads sampleItems = 3 := by decide +kernel
  have main := ((C101_outcome init sampleArgs sampleItems none sample_reads (by simp) sample_ok).2.2 (by decide +kernel) (by decide +kernel)).2 hd
  rw [e, e', wc, wt] at main
  obtain ⟨t, c, h1, h2, h3, h4⟩ := (main hi (by omega)).2 sample_known
  cases c with
  | none => exact absurd (h3.1 rfl) (by omega)
  | some c =>
    refine ⟨t, c, h1, by rw [h2.mode]; decide +kernel, ?_, by rw [h2.separator]; decide +kernel, h2.handles, by have := h4.1 c rfl; omega, ?_⟩
    · rw [Bool.eq_false_iff]
      intro hs
      exact absurd (h2.suggest.1 hs) (by decide +kernel)
    · intro h hm
      rw [h2.handles] at hm
      rw [List.eq_of_mem_replicate hm]
      have : lastOf (setting "ignore_dot") sampleItems = some false := by decide +kernel
      simp only [handleAfter, this, Option.getD_some]

/-- Non-vacuity: help after other options, a number of threads out of range, an unknown option, a number that is no `int`. -/
example (init : Arg → Option Arg → Option (Handle Nat)) :
    spellToolArgs init [lit "-q", lit "-h"] = some .help ∧ spellToolArgs init [lit "-j", lit "0"] = some .fail ∧
    spellToolArgs init [lit "-j"] = some .fail ∧ spellToolArgs init [lit "-c99999999999"] = none := by
  refine ⟨rfl, rfl, rfl, rfl⟩

end Verif.Props
