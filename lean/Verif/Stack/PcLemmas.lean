import Verif.Stack.ValueLemmas

set_option linter.unusedSimpArgs false
set_option linter.unusedVariables false
set_option linter.unusedSectionVars false

namespace Verif.Stack

variable {V : Type} [AddCommMonoid V]

/-- The condition `NearEndFree` on the pulses of one port-clock. -/
def NearFree (E : List (Entry V)) : Prop :=
  (∀ e ∈ E, ∀ i ∈ e.infos, i.wave.isSquare = true) ∨
  ∀ a ∈ E, ∀ b ∈ E, a.key ≠ b.key → a.stop ≠ b.start + 1 ∧ a.stop ≠ b.stop + 1

theorem interval_spec {pc : String × String} {cur E : List (Entry V)} (hg : Group pc E)
    (hl : ∀ e ∈ E, ∀ k, e.key = some k → lookup cur k = some e) (hn : NearFree E)
    {ivs : List Interval} (hs : IvSpec E ivs) {iv : Interval} (hiv : iv ∈ ivs) :
    ∃ x, stackInterval cur iv = .ok x ∧ NewSpec cur pc iv x := by
  let f : Nat → Entry V := fun k => (lookup cur k).getD ⟨none, 0, [], false⟩
  let g : Nat → Info V := fun k => (f k).infos.headD ⟨pc, 0, .noWf⟩
  obtain ⟨h0, hne, hnd⟩ := hs.shape iv hiv
  have hkey : ∀ k ∈ iv.keys, ∃ e ∈ E, e.key = some k ∧ f k = e ∧ lookup cur k = some e ∧
      e.start ≤ iv.start ∧ iv.stop ≤ e.stop ∧ IsPulse pc e k (g k) := by
    intro k hk
    obtain ⟨e, he, hek, h1, h2⟩ := (hs.mem_keys hiv (Int.le_refl _) h0 k).mp hk
    obtain ⟨e', he', hek', h1', h2'⟩ := (hs.mem_keys hiv (n := iv.stop - 1) (by omega) (by omega) k).mp hk
    have := hg.eq_of_key he he' (by rw [hek, hek'])
    subst this
    have hlk := hl e he k hek
    have hf : f k = e := by show (lookup cur k).getD _ = e; rw [hlk]; rfl
    obtain ⟨k', i, hp⟩ := hg.pulse e he
    have hkk : k' = k := by have := hp.key; rw [hek] at this; exact (Option.some.inj this).symm
    subst hkk
    have hgk : g k' = i := by show (f k').infos.headD _ = i; rw [hf, hp.infos]; rfl
    exact ⟨e, he, hek, hf, hlk, h1, by omega, by rw [hgk]; exact hp⟩
  have hm := mapM_getEntry cur f iv.keys (fun k hk => by
    obtain ⟨e, _, _, hf, hlk, _⟩ := hkey k hk
    rw [hf]; exact hlk)
  unfold stackInterval
  rw [hm]
  show ∃ x, (if (iv.keys.map f).all (fun e => e.infos.all (fun i => i.wave.isSquare)) = true then
    stackSquare cur iv else stackArbitrary cur iv) = .ok x ∧ _
  by_cases hsq : (iv.keys.map f).all (fun e => e.infos.all (fun i => i.wave.isSquare)) = true
  · rw [if_pos hsq]
    refine square_spec f g h0 hne ?_ ?_
    · intro k hk
      obtain ⟨e, _, _, hf, hlk, h1, h2, hp⟩ := hkey k hk
      rw [hf]; exact ⟨hlk, hp, h1, h2⟩
    · intro k hk
      obtain ⟨e, _, _, hf, hlk, h1, h2, hp⟩ := hkey k hk
      rw [List.all_eq_true] at hsq
      have := hsq (f k) (List.mem_map.mpr ⟨k, hk, rfl⟩)
      rw [hf, hp.infos] at this
      simpa using this
  · rw [if_neg hsq]
    refine arbitrary_spec f g h0 hne ?_
    intro k hk
    obtain ⟨e, he, hek, hf, hlk, h1, h2, hp⟩ := hkey k hk
    rw [hf]
    refine ⟨hlk, hp, h1, h2, ?_⟩
    intro hstop
    rcases hn with hn | hn
    · apply hsq
      rw [List.all_eq_true]
      intro x hx
      obtain ⟨k', hk', rfl⟩ := List.mem_map.mp hx
      obtain ⟨e', he', _, hf', _⟩ := hkey k' hk'
      rw [hf', List.all_eq_true]
      exact hn e' he'
    · obtain ⟨b, hb, hbs⟩ := hs.stops iv hiv
      by_cases hkb : e.key = b.key
      · have := hg.eq_of_key he hb hkb
        subst this
        rcases hbs with h | h <;> omega
      · have := hn e he b hb hkb
        rcases hbs with h | h <;> omega

theorem mapM_forall2 {α β : Type} (F : α → Except Err β) (P : α → β → Prop) : ∀ l : List α,
    (∀ a ∈ l, ∃ b, F a = .ok b ∧ P a b) → ∃ r, l.mapM F = .ok r ∧ List.Forall₂ P l r := by
  intro l
  induction l with
  | nil => intro _; exact ⟨[], rfl, .nil⟩
  | cons a l ih =>
    intro h
    obtain ⟨b, hb, hp⟩ := h a List.mem_cons_self
    obtain ⟨r, hr, hf⟩ := ih (fun a' ha' => h a' (List.mem_cons_of_mem _ ha'))
    refine ⟨b :: r, ?_, .cons hp hf⟩
    rw [List.mapM_cons, hb, hr]; rfl

/-- The value of a new schedulable. -/
theorem NewSpec.val {cur : List (Entry V)} {pc : String × String} {iv : Interval} {x : Entry V}
    (h : NewSpec cur pc iv x) (n : Int) :
    entryVal pc n x = if iv.start ≤ n ∧ n < iv.stop then (iv.keys.map (kval cur pc n)).sum else 0 := by
  obtain ⟨w, hi, hw, hd, hv⟩ := h.infos
  unfold entryVal
  rw [hi, h.abs]
  simp only [List.map_cons, List.map_nil, List.sum_cons, List.sum_nil, if_true, add_zero, sub_zero]
  split
  · rename_i h'; exact hv n h'.1 h'.2
  · apply val_outside; omega

theorem NewSpec.val_other {cur : List (Entry V)} {pc pc' : String × String} {iv : Interval}
    {x : Entry V} (h : NewSpec cur pc iv x) (hne : pc ≠ pc') (n : Int) : entryVal pc' n x = 0 := by
  obtain ⟨w, hi, _⟩ := h.infos
  unfold entryVal
  rw [hi]; simp [hne]

theorem NewSpec.active {cur : List (Entry V)} {pc pc' : String × String} {iv : Interval}
    {x : Entry V} (h : NewSpec cur pc iv x) (n : Int) :
    ActiveOn pc' n x ↔ pc = pc' ∧ iv.start ≤ n ∧ n < iv.stop := by
  obtain ⟨w, hi, hw, hd, _⟩ := h.infos
  unfold ActiveOn
  rw [hi, h.abs]
  simp only [List.mem_singleton, exists_eq_left]
  constructor
  · rintro ⟨h1, h2, h3⟩; exact ⟨h1, by omega, by omega⟩
  · rintro ⟨h1, h2, h3⟩; exact ⟨h1, by omega, by omega⟩

theorem sum_filter_zero {α : Type} (l : List α) (p : α → Bool) (f : α → V)
    (h : ∀ a ∈ l, p a = false → f a = 0) : ((l.filter p).map f).sum = (l.map f).sum := by
  induction l with
  | nil => rfl
  | cons a l ih =>
    have ih' := ih (fun a' ha' => h a' (List.mem_cons_of_mem _ ha'))
    by_cases hp : p a = true
    · rw [List.filter_cons_of_pos hp, List.map_cons, List.sum_cons, List.map_cons, List.sum_cons, ih']
    · rw [List.filter_cons_of_neg hp, List.map_cons, List.sum_cons, ih',
        h a List.mem_cons_self (by simpa using hp), zero_add]

/-- The values of the new schedulables add up to those of the pulses. -/
theorem new_sum {pc : String × String} {cur E : List (Entry V)} (hg : Group pc E)
    (hl : ∀ e ∈ E, ∀ k, e.key = some k → lookup cur k = some e)
    {ivs : List Interval} (hs : IvSpec E ivs) {new : List (Entry V)}
    (hf : List.Forall₂ (NewSpec cur pc) ivs new) (n : Int) :
    (new.map (entryVal pc n)).sum = (E.map (entryVal pc n)).sum := by
  have hzero : ∀ e ∈ E, ¬ (e.start ≤ n ∧ n < e.stop) → entryVal pc n e = 0 := by
    intro e he hna
    obtain ⟨k, i, hp⟩ := hg.pulse e he
    rw [entryVal_pulse hp]
    apply val_outside
    have := hp.stop
    omega
  -- the sum over the new ones as a sum over intervals
  have h1 : (new.map (entryVal pc n)).sum = (ivs.map (fun iv =>
      if iv.start ≤ n ∧ n < iv.stop then (iv.keys.map (kval cur pc n)).sum else 0)).sum := by
    clear hs
    induction hf with
    | nil => rfl
    | cons hx _ ih =>
      rw [List.map_cons, List.sum_cons, List.map_cons, List.sum_cons, ih, hx.val]
  rw [h1]
  by_cases hex : ∃ iv ∈ ivs, iv.start ≤ n ∧ n < iv.stop
  · obtain ⟨iv, hiv, ha, hb⟩ := hex
    -- only this interval contributes
    have h2 : ∀ (l : List Interval), l.Pairwise (fun a b => a.stop ≤ b.start) →
        (∀ iv ∈ l, iv.start < iv.stop) → iv ∈ l →
        (l.map (fun iv => if iv.start ≤ n ∧ n < iv.stop then
          (iv.keys.map (kval cur pc n)).sum else 0)).sum = (iv.keys.map (kval cur pc n)).sum := by
      intro l
      induction l with
      | nil => intro _ _ h; simp at h
      | cons a l ih =>
        intro hp hsh hm
        rw [List.pairwise_cons] at hp
        rw [List.map_cons, List.sum_cons]
        rcases List.mem_cons.mp hm with rfl | hm
        · rw [if_pos ⟨ha, hb⟩]
          have : (l.map (fun iv => if iv.start ≤ n ∧ n < iv.stop then
              (iv.keys.map (kval cur pc n)).sum else 0)).sum = 0 := by
            apply List.sum_eq_zero
            intro x hx
            obtain ⟨b, hb', rfl⟩ := List.mem_map.mp hx
            have := hp.1 b hb'
            rw [if_neg (by omega)]
          rw [this, add_zero]
        · rw [ih hp.2 (fun b hb' => hsh b (List.mem_cons_of_mem _ hb')) hm]
          have := hp.1 iv hm
          rw [if_neg (by omega), zero_add]
    rw [h2 ivs hs.disjoint (fun b hb' => (hs.shape b hb').1) hiv]
    -- the keys of the interval are the active pulses
    have hE : (E.map (entryVal pc n)).sum =
        ((E.filter (fun e => decide (e.start ≤ n ∧ n < e.stop))).map (entryVal pc n)).sum := by
      rw [sum_filter_zero]
      intro e he hp
      exact hzero e he (by simpa using hp)
    rw [hE]
    have hperm : iv.keys.Perm
        ((E.filter (fun e => decide (e.start ≤ n ∧ n < e.stop))).filterMap Entry.key) := by
      rw [List.perm_ext_iff_of_nodup (hs.shape iv hiv).2.2]
      · intro k
        rw [hs.mem_keys hiv ha hb k, List.mem_filterMap]
        constructor
        · rintro ⟨e, he, hk, h⟩
          exact ⟨e, List.mem_filter.mpr ⟨he, by simpa using h⟩, hk⟩
        · rintro ⟨e, he, hk⟩
          obtain ⟨he1, he2⟩ := List.mem_filter.mp he
          exact ⟨e, he1, hk, by simpa using he2⟩
      · have hnd : ((E.filter (fun e => decide (e.start ≤ n ∧ n < e.stop))).map Entry.key).Nodup :=
          hg.nodup.sublist (List.Sublist.map _ List.filter_sublist)
        generalize E.filter (fun e => decide (e.start ≤ n ∧ n < e.stop)) = L at hnd
        clear * - hnd
        induction L with
        | nil => simp
        | cons a L ih =>
          rw [List.map_cons, List.nodup_cons] at hnd
          rw [List.filterMap_cons]
          cases hk : a.key with
          | none => exact ih hnd.2
          | some k =>
            simp only
            rw [List.nodup_cons]
            refine ⟨?_, ih hnd.2⟩
            intro hm
            obtain ⟨b, hb, hbk⟩ := List.mem_filterMap.mp hm
            apply hnd.1
            rw [List.mem_map]
            exact ⟨b, hb, by rw [hbk, hk]⟩
    rw [(hperm.map _).sum_eq]
    have : ∀ L : List (Entry V), (∀ e ∈ L, e ∈ E) →
        ((L.filterMap Entry.key).map (kval cur pc n)).sum = (L.map (entryVal pc n)).sum := by
      intro L
      induction L with
      | nil => intro _; rfl
      | cons a L ih =>
        intro h
        obtain ⟨k, i, hp⟩ := hg.pulse a (h a List.mem_cons_self)
        rw [List.filterMap_cons, hp.key]
        simp only
        rw [List.map_cons, List.sum_cons, List.map_cons, List.sum_cons,
          ih (fun e he => h e (List.mem_cons_of_mem _ he))]
        congr 1
        unfold kval
        rw [hl a (h a List.mem_cons_self) k hp.key]
    exact this _ (fun e he => (List.mem_filter.mp he).1)
  · have e1 : (ivs.map (fun iv => if iv.start ≤ n ∧ n < iv.stop then
        (iv.keys.map (kval cur pc n)).sum else 0)).sum = 0 := by
      apply List.sum_eq_zero
      intro x hx
      obtain ⟨b, hb', rfl⟩ := List.mem_map.mp hx
      rw [if_neg (fun h => hex ⟨b, hb', h⟩)]
    have e2 : (E.map (entryVal pc n)).sum = 0 := by
      apply List.sum_eq_zero
      intro x hx
      obtain ⟨e, he, rfl⟩ := List.mem_map.mp hx
      apply hzero e he
      rintro ⟨h1, h2⟩
      obtain ⟨k, i, hp⟩ := hg.pulse e he
      obtain ⟨iv, hiv, a, b, _⟩ := (hs.active n k).mpr ⟨e, he, hp.key, h1, h2⟩
      exact hex ⟨iv, hiv, a, b⟩
    rw [e1, e2]

end Verif.Stack
