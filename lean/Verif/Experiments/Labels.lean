/-
The labels of the experiments are different.
-/
import Verif.Experiments.Lemmas
import Mathlib.Data.List.Basic
import Mathlib.Tactic.Common

set_option linter.unusedSimpArgs false
set_option linter.unusedVariables false

namespace Verif.Experiments

variable {L : Type}

/-- The decimal digits of a number. -/
abbrev D (i : Nat) : List Char := Nat.toDigits 10 i

theorem D_digit (i : Nat) : ∀ c ∈ D i, c.isDigit = true := fun c hc =>
  Nat.isDigit_of_mem_toDigits (by decide) (by decide) hc

theorem D_inj {i j : Nat} (h : D i = D j) : i = j := by
  have h1 := Nat.ofDigitChars_toDigits (b := 10) (n := i) (by decide) (by decide)
  have h2 := Nat.ofDigitChars_toDigits (b := 10) (n := j) (by decide) (by decide)
  rw [← h1, ← h2]; exact congrArg (fun l => Nat.ofDigitChars 10 l 0) h

theorem toList_toString (i : Nat) : (toString i).toList = D i := Nat.toList_repr

/-- Digits followed by something that does not begin with a digit. -/
theorem digits_split : ∀ (a b u v : List Char), (∀ c ∈ a, c.isDigit = true) →
    (∀ c ∈ b, c.isDigit = true) → (∀ c, u.head? = some c → c.isDigit = false) →
    (∀ c, v.head? = some c → c.isDigit = false) → a ++ u = b ++ v → a = b ∧ u = v
  | [], [], u, v, _, _, _, _, h => ⟨rfl, h⟩
  | [], y :: b, u, v, _, hb, hu, _, h => by
    have : u.head? = some y := by
      have h' : u = y :: (b ++ v) := by simpa using h
      rw [h']; rfl
    have h1 := hu y this
    rw [hb y (by simp)] at h1
    cases h1
  | x :: a, [], u, v, ha, _, _, hv, h => by
    have : v.head? = some x := by
      have h' : v = x :: (a ++ u) := by simpa using h.symm
      rw [h']; rfl
    have h1 := hv x this
    rw [ha x (by simp)] at h1
    cases h1
  | x :: a, y :: b, u, v, ha, hb, hu, hv, h => by
    simp only [List.cons_append, List.cons.injEq] at h
    obtain ⟨h1, h2⟩ := digits_split a b u v (fun c hc => ha c (by simp [hc]))
      (fun c hc => hb c (by simp [hc])) hu hv h.2
    exact ⟨by rw [h.1, h1], h2⟩

/-- A label that ends with a number determines the number and what comes before, if that does not
end with a digit. -/
theorem label_inj {p q : String} {i j : Nat}
    (hp : ∀ c, p.toList.getLast? = some c → c.isDigit = false)
    (hq : ∀ c, q.toList.getLast? = some c → c.isDigit = false)
    (h : p ++ toString i = q ++ toString j) : p = q ∧ i = j := by
  have h1 := congrArg (fun s => s.toList.reverse) h
  simp only [String.toList_append, toList_toString, List.reverse_append] at h1
  obtain ⟨h2, h3⟩ := digits_split _ _ _ _
    (by intro c hc; exact D_digit i c (by simpa using hc))
    (by intro c hc; exact D_digit j c (by simpa using hc))
    (by intro c hc; exact hp c (by simpa using hc))
    (by intro c hc; exact hq c (by simpa using hc)) h1
  refine ⟨?_, D_inj (by simpa using congrArg List.reverse h2)⟩
  have := congrArg List.reverse h3
  simp only [List.reverse_reverse] at this
  exact String.toList_inj.1 this

/-- A number between two texts: the first without digits, the second not beginning with a digit. -/
theorem label_mid_inj {p q r r' : String} {i j : Nat}
    (hp : p.toList.all (fun c => !c.isDigit) = true)
    (hq : q.toList.all (fun c => !c.isDigit) = true)
    (hr : ∀ c, r.toList.head? = some c → c.isDigit = false)
    (hr' : ∀ c, r'.toList.head? = some c → c.isDigit = false)
    (h : p ++ toString i ++ r = q ++ toString j ++ r') : i = j := by
  have h1 := congrArg (fun s => (s.toList.dropWhile (fun c => !c.isDigit))) h
  have drop : ∀ (p r : String) (i : Nat), p.toList.all (fun c => !c.isDigit) = true →
      (p ++ toString i ++ r).toList.dropWhile (fun c => !c.isDigit) = D i ++ r.toList := by
    intro p r i hp
    rw [String.toList_append, String.toList_append, toList_toString, List.append_assoc,
      List.dropWhile_append_of_pos (by simpa using hp)]
    cases hd : D i with
    | nil => exact absurd hd Nat.toDigits_ne_nil
    | cons c l =>
      have : c.isDigit = true := D_digit i c (by rw [hd]; simp)
      simp [List.dropWhile, this]
  simp only [drop _ _ _ hp, drop _ _ _ hq] at h1
  exact D_inj (digits_split _ _ _ _ (D_digit i) (D_digit j) hr hr' h1).1

/-- The names of a loop are different, if each turn makes different names, unlike those of the
turns before. -/
theorem forEach_nodup {X : Type} (f : Nat → X → Calls L → Calls L) (names : Nat → X → List String)
    (len : Nat → X → Nat)
    (hf : ∀ i x n, ∃ ks : List Key, (∀ rest, (f i x rest).keys n = ks ++ rest.keys (n + len i x)) ∧
      ks.Nodup ∧ ∀ k ∈ ks, (∃ m, k = .uuid m ∧ n ≤ m ∧ m < n + len i x) ∨
        ∃ s ∈ names i x, k = .label s) :
    ∀ (xs : List X) (i n : Nat),
      (∀ a b x y, a < b → xs[a]? = some x → xs[b]? = some y →
        ∀ s ∈ names (i + a) x, s ∉ names (i + b) y) →
      ((forEach f i xs).keys n).Nodup ∧ ∀ k ∈ (forEach f i xs).keys n,
        (∃ m, k = .uuid m ∧ n ≤ m) ∨
        ∃ a x, xs[a]? = some x ∧ ∃ s ∈ names (i + a) x, k = .label s := by
  intro xs
  induction xs with
  | nil => intro i n _; simp [forEach, Calls.keys]
  | cons x xs ih =>
    intro i n hdis
    obtain ⟨ks, hks, hnd, hmem⟩ := hf i x n
    obtain ⟨ih1, ih2⟩ := ih (i + 1) (n + len i x) (by
      intro a b y z hab hy hz s hs
      have := hdis (a + 1) (b + 1) y z (by omega) (by simpa using hy) (by simpa using hz) s
        (by rw [show i + (a + 1) = i + 1 + a by omega]; exact hs)
      rwa [show i + (b + 1) = i + 1 + b by omega] at this)
    simp only [forEach, hks]
    constructor
    · rw [List.nodup_append]
      refine ⟨hnd, ih1, ?_⟩
      intro k hk k' hk' heq
      subst heq
      rcases hmem k hk with ⟨m, rfl, h1, h2⟩ | ⟨s, hs, rfl⟩
      · rcases ih2 _ hk' with ⟨m', h, h3⟩ | ⟨a, y, hy, s, hs, h⟩
        · cases h; omega
        · cases h
      · rcases ih2 _ hk' with ⟨m', h, h3⟩ | ⟨a, y, hy, s', hs', h⟩
        · cases h
        · cases h
          refine hdis 0 (a + 1) x y (by omega) rfl (by simpa using hy) s hs ?_
          rw [show i + (a + 1) = i + 1 + a by omega]; exact hs'
    · intro k hk
      rcases List.mem_append.1 hk with hk | hk
      · rcases hmem k hk with ⟨m, rfl, h1, h2⟩ | ⟨s, hs, rfl⟩
        · exact .inl ⟨m, rfl, h1⟩
        · exact .inr ⟨0, x, rfl, s, hs, rfl⟩
      · rcases ih2 k hk with ⟨m, rfl, h1⟩ | ⟨a, y, hy, s, hs, rfl⟩
        · exact .inl ⟨m, rfl, by omega⟩
        · refine .inr ⟨a + 1, y, by simpa using hy, s, ?_, rfl⟩
          rw [show i + (a + 1) = i + 1 + a by omega]; exact hs

/-- The common case: labels made of a prefix and the number of the turn. -/
theorem forEach_nodup_prefix {X : Type} (f : Nat → X → Calls L → Calls L) (ps : List String)
    (hp : ∀ p ∈ ps, ∀ c, p.toList.getLast? = some c → c.isDigit = false) (len : Nat)
    (hf : ∀ i x n, ∃ ks : List Key, (∀ rest, (f i x rest).keys n = ks ++ rest.keys (n + len)) ∧
      ks.Nodup ∧ ∀ k ∈ ks, (∃ m, k = .uuid m ∧ n ≤ m ∧ m < n + len) ∨
        ∃ p ∈ ps, k = .label (p ++ toString i))
    (xs : List X) : ((forEach f 0 xs).keys 0).Nodup := by
  refine (forEach_nodup f (fun i _ => ps.map (fun p => p ++ toString i)) (fun _ _ => len) ?_ xs 0 0
    ?_).1
  · intro i x n
    obtain ⟨ks, h1, h2, h3⟩ := hf i x n
    refine ⟨ks, h1, h2, ?_⟩
    intro k hk
    rcases h3 k hk with h | ⟨p, hp, rfl⟩
    · exact .inl h
    · exact .inr ⟨_, List.mem_map.2 ⟨p, hp, rfl⟩, rfl⟩
  · intro a b x y hab _ _ s hs hs'
    obtain ⟨p, hpm, rfl⟩ := List.mem_map.1 hs
    obtain ⟨q, hqm, h⟩ := List.mem_map.1 hs'
    have := (label_inj (hp q hqm) (hp p hpm) h).2
    omega

/-! ## Blocks -/

/-- Everything before has ended at `s` (or nothing was before). -/
def Ready (acc : List Placed) (s : Rat) : Prop :=
  (acc = [] ∧ s = 0) ∨ ∃ q tl, acc = q :: tl ∧ q.2 + q.1.dur + q.1.delay.getD 0 = s

theorem Ready.startsAt {acc : List Placed} {s : Rat} (h : Ready acc s) :
    StartsAt acc none none 0 s := by
  refine ⟨by simp, ?_⟩
  rcases h with ⟨rfl, rfl⟩ | ⟨q, tl, rfl, rfl⟩
  · exact .inl ⟨rfl, rfl, rfl⟩
  · refine .inr ⟨q, by simp, by simp, by simp, ?_⟩
    simp [Timing.RefPt.frac]

/-- After a placed operation, relative to its start or its end. -/
theorem startsAt_prev {q : Placed} {acc : List Placed} (pt : Option Timing.RefPt) (rel : Rat)
    (hpt : pt ≠ some .other) :
    StartsAt (q :: acc) none pt rel
      (q.2 + (pt.getD .stop).frac * q.1.dur + rel + q.1.delay.getD 0) :=
  ⟨hpt, .inr ⟨q, by simp, by simp, by simp, rfl⟩⟩

/-- Relative to an operation by name. -/
theorem startsAt_ref {q : Placed} {acc : List Placed} (pt : Option Timing.RefPt) (rel : Rat)
    (hpt : pt ≠ some .other) (hq : q ∈ acc) {k : Key} (hk : q.1.key = k) :
    StartsAt acc (some k) pt rel
      (q.2 + (pt.getD .stop).frac * q.1.dur + rel + q.1.delay.getD 0) :=
  ⟨hpt, .inr ⟨q, hq, by simp, by intro k' h; cases h; exact hk, rfl⟩⟩

theorem Runs.leaf {acc : List Placed} {n : Nat} {l : L} {d : Rat} {label : Option String}
    {rel : Rat} {ref : Option Key} {pt : Option Timing.RefPt} {rest : Calls L} {t : Rat}
    {ps : List Placed} {ev : List (Rat × L)} (hs : StartsAt acc ref pt rel t) (h0 : 0 ≤ t)
    (hr : Runs ((itemOf n (.leaf l d) label rel ref pt d, t) :: acc) (n + 1) rest ps ev) :
    Runs acc n (.cons (.leaf l d) label rel ref pt rest)
      ((itemOf n (.leaf l d) label rel ref pt d, t) :: ps) ((t, l) :: ev) := by
  have := Runs.cons (op := .leaf l d) (label := label) (d := d) (l := [(0, l)]) rfl rfl hs h0 hr
  simpa [later] using this

/-- The calls play `ev`, after `acc`. -/
def Run (acc : List Placed) (n : Nat) (calls : Calls L) (ev : List (Rat × L)) : Prop :=
  ∃ ps, Runs acc n calls ps ev

theorem Run.nil (acc : List Placed) (n : Nat) : Run acc n (.nil : Calls L) [] := ⟨[], .nil _ _⟩

theorem Run.leaf {acc : List Placed} {n : Nat} {l : L} {d : Rat} {label : Option String}
    {rel : Rat} {ref : Option Key} {pt : Option Timing.RefPt} {rest : Calls L} {t : Rat}
    {ev : List (Rat × L)} (hs : StartsAt acc ref pt rel t) (h0 : 0 ≤ t)
    (hr : Run ((itemOf n (.leaf l d) label rel ref pt d, t) :: acc) (n + 1) rest ev) :
    Run acc n (.cons (.leaf l d) label rel ref pt rest) ((t, l) :: ev) := by
  obtain ⟨ps, h⟩ := hr
  exact ⟨_, Runs.leaf hs h0 h⟩

theorem Run.op {acc : List Placed} {n : Nat} {op : Op L} {d : Rat} {l : List (Rat × L)}
    {label : Option String}
    {rel : Rat} {ref : Option Key} {pt : Option Timing.RefPt} {rest : Calls L} {t : Rat}
    {ev : List (Rat × L)} (hd : op.duration = .ok d) (hl : op.play = .ok l)
    (hs : StartsAt acc ref pt rel t) (h0 : 0 ≤ t)
    (hr : Run ((itemOf n op label rel ref pt d, t) :: acc) (n + 1) rest ev) :
    Run acc n (.cons op label rel ref pt rest) (later t l ++ ev) := by
  obtain ⟨ps, h⟩ := hr
  exact ⟨_, Runs.cons hd hl hs h0 h⟩

theorem Run.play {calls : Calls L} {ev : List (Rat × L)} (h : Run [] 0 calls ev)
    (hne : calls ≠ .nil) (hn : (calls.keys 0).Nodup) (delay : Option Rat) :
    (Op.sched delay calls).play = .ok ev := by
  obtain ⟨ps, h⟩ := h
  refine (h.spec ?_ hn delay).1
  rintro rfl
  cases h
  exact hne rfl

/-- A turn of a loop: it runs after everything before and takes `blk.1`. -/
def Turn (f : Calls L → Calls L) (blk : Rat × List (Rat × L)) : Prop :=
  ∀ acc n s, Ready acc s → 0 ≤ s → ∀ rest ev,
    (∀ acc' n', Ready acc' (s + blk.1) → Run acc' n' rest ev) →
    Run acc n (f rest) (later s blk.2 ++ ev)

/-- The same with the specification's list of blocks. -/
def blocks : List (Rat × List (Rat × L)) → List (Rat × L)
  | [] => []
  | b :: bs => b.2 ++ later b.1 (blocks bs)

theorem later_later (s t : Rat) (l : List (Rat × L)) : later s (later t l) = later (s + t) l := by
  simp [later, List.map_map, Function.comp_def, add_assoc]

theorem later_append (s : Rat) (a b : List (Rat × L)) :
    later s (a ++ b) = later s a ++ later s b := by simp [later]

theorem later_zero (a : List (Rat × L)) : later 0 a = a := by simp [later]

theorem forEach_runs {X : Type} {f : Nat → X → Calls L → Calls L}
    {blk : Nat → X → Rat × List (Rat × L)} :
    ∀ (xs : List X) (i : Nat), (∀ a x, xs[a]? = some x → Turn (f (i + a) x) (blk (i + a) x)) →
      (∀ a x, xs[a]? = some x → 0 ≤ (blk (i + a) x).1) →
      ∀ acc n s, Ready acc s → 0 ≤ s →
      Run acc n (forEach f i xs)
        (later s (blocks (xs.zipIdx i |>.map (fun x => blk x.2 x.1)))) := by
  intro xs
  induction xs with
  | nil => intro i _ _ acc n s _ _; exact .nil _ _
  | cons x xs ih =>
    intro i ht hb acc n s hr hs
    have hb0 := hb 0 x rfl
    simp only [Nat.add_zero] at hb0
    simp only [forEach, List.zipIdx_cons, List.map_cons, blocks, later_append, later_later]
    refine ht 0 x rfl acc n s hr hs _ _ ?_
    intro acc' n' hr'
    exact ih (i + 1)
      (by intro a y hy; have := ht (a + 1) y (by simpa using hy)
          rwa [show i + (a + 1) = i + 1 + a by omega] at this)
      (by intro a y hy; have := hb (a + 1) y (by simpa using hy)
          rwa [show i + (a + 1) = i + 1 + a by omega] at this)
      acc' n' (s + (blk i x).1) hr' (by linarith)

end Verif.Experiments
