/-
Properties C02 (default references are sequential), C03 (earliest start is zero) and
C08 (running the pass again).
-/
import Verif.Timing.Props

set_option linter.unusedSectionVars false
set_option linter.unusedSimpArgs false

namespace Verif.Timing

variable {κ : Type} [DecidableEq κ]

/-- C03. Either the schedule's root keeps time zero or normalisation puts the earliest operation
at zero: in both cases some operation starts at exactly 0. -/
theorem earliest_start_zero {strat : Strategy} {s out : List (Item κ)} (hu : UniqueKeys s)
    (h : timing strat s = .ok out) : ∃ it ∈ s, startOf out it.key = 0 := by
  obtain ⟨s', A, k, ks, d, hs', hu', hp, ht, h0, he, hd, hall, hmin, hout⟩ := timing_core hu h
  rcases hmin with rfl | ⟨it, hit, hA⟩
  · obtain ⟨it', hm', hk⟩ := List.mem_map.1 (hp.mem_iff.1 (List.mem_cons_self (a := k) (l := ks)))
    obtain ⟨a, ha, -, hs⟩ := hall it' hm'
    rw [hk, h0, Option.some.injEq] at ha
    obtain ⟨it, hm, ek, -⟩ := makeExplicit_mem' hs' hm'
    exact ⟨it, hm, by rw [← ek, hs, ← ha]; simp⟩
  · obtain ⟨a, ha, -, hs⟩ := hall it hit
    rw [hA, Option.some.injEq] at ha
    obtain ⟨it0, hm, ek, -⟩ := makeExplicit_mem' hs' hit
    exact ⟨it0, hm, by rw [← ek, hs, ← ha]; ring⟩

example : ∃ out, timing .asap exSched = .ok out ∧ ∃ it ∈ exSched, startOf out it.key = 0 := by
  obtain ⟨out, h, -⟩ := exSched_timed
  exact ⟨out, h, earliest_start_zero exSched_unique h⟩

/-! ## C02 -/

/-- Every schedulable was added with nothing but a relative time. -/
def DefaultAdds (s : List (Item κ)) (rel : Nat → Rat) : Prop :=
  ∀ (i : Nat) it, s[i]? = some it → it.cons = [⟨none, none, none, rel i⟩]

theorem defaultAdds_refers {s : List (Item κ)} {rel : Nat → Rat} (hd : DefaultAdds s rel)
    {a b : κ} (h : RefersTo .asap s a b) :
    ∃ i x y, s[i]? = some x ∧ s[i + 1]? = some y ∧ x.key = a ∧ y.key = b := by
  obtain ⟨i, j, it, c, h1, h2, h3, h4⟩ := h
  rw [hd i it h1] at h3
  cases j with
  | succ j => simp at h3
  | zero =>
    simp only [List.getElem?_cons_zero, Option.some.injEq] at h3
    subst h3
    simp only [refOf, if_true, neighbour] at h4
    cases i with
    | zero => simp at h4
    | succ i =>
      simp only [Nat.succ_ne_zero, if_false, Nat.add_sub_cancel, Option.map_eq_some_iff] at h4
      obtain ⟨x, hx, hxa⟩ := h4
      exact ⟨i, x, it, hx, h1, hxa, h2⟩

/-- C02. Operations added without reference are always accepted. -/
theorem default_adds_timed {s : List (Item κ)} {rel : Nat → Rat} (hne : s ≠ []) (hu : UniqueKeys s)
    (hd : DefaultAdds s rel) : ∃ out, timing .asap s = .ok out := by
  apply good_references_timed hne hu
  · intro it hit
    obtain ⟨i, hi⟩ := List.mem_iff_getElem?.1 hit
    rw [hd i it hi]
    simp
  · rintro ⟨a, b, hab, hna⟩
    obtain ⟨i, x, y, hx, -, rfl, -⟩ := defaultAdds_refers hd hab
    exact hna (List.mem_map.2 ⟨x, List.mem_iff_getElem?.2 ⟨i, hx⟩, rfl⟩)
  · rintro ⟨k, hk⟩
    have key : ∀ a b, Relation.TransGen (RefersTo .asap s) a b →
        ∀ (i : Nat) (x : Item κ), s[i]? = some x → x.key = a →
          ∃ (j : Nat) (y : Item κ), s[j]? = some y ∧ y.key = b ∧ i < j := by
      intro a b hab
      induction hab with
      | single h =>
        intro i x hx hxa
        obtain ⟨i', x', y', h1, h2, h3, h4⟩ := defaultAdds_refers hd h
        have := unique_index hu hx h1 (hxa.trans h3.symm)
        exact ⟨i' + 1, y', h2, h4, by omega⟩
      | tail _ h ih =>
        intro i x hx hxa
        obtain ⟨j, y, hj, hy, hij⟩ := ih i x hx hxa
        obtain ⟨i', x', y', h1, h2, h3, h4⟩ := defaultAdds_refers hd h
        have := unique_index hu hj h1 (hy.trans h3.symm)
        exact ⟨i' + 1, y', h2, h4, by omega⟩
    obtain ⟨y, hy1, -⟩ := (Relation.TransGen.head'_iff).1 hk
    obtain ⟨i, x, -, hx, -, hxk, -⟩ := defaultAdds_refers hd hy1
    obtain ⟨j, z, hz, hzk, hij⟩ := key k k hk i x hx hxk
    have := unique_index hu hx hz (hxk.trans hzk.symm)
    omega

/-- C02. Each operation added without reference starts where the previous one ends, plus the
relative time (plus the delay the previous operation imposes). -/
theorem default_adds_sequential {s out : List (Item κ)} {rel : Nat → Rat} (hu : UniqueKeys s)
    (hf : Fresh s) (hd : DefaultAdds s rel) (h : timing .asap s = .ok out)
    (i : Nat) (a b : Item κ) (ha : s[i]? = some a) (hb : s[i + 1]? = some b) :
    startOf out b.key = startOf out a.key + a.dur + a.delay.getD 0 + rel (i + 1) := by
  obtain ⟨-, hs⟩ := asap_satisfies_constraints hu hf h
  obtain ⟨it, j, c, ri, h1, h2, h3, h4, h5⟩ := (hs (i + 1) b hb).2.1 (by omega)
  rw [hb, Option.some.injEq] at h1
  subst h1
  rw [hd (i + 1) b hb] at h2
  cases j with
  | succ j => simp at h2
  | zero =>
    simp only [List.getElem?_cons_zero, Option.some.injEq] at h2
    subst h2
    simp only [refOf, if_true, neighbour, Nat.succ_ne_zero, if_false, Nat.add_sub_cancel, ha,
      Option.map_some, Option.some.injEq] at h4
    have : ri = a := by
      have x1 := findItem_mem hu h3
      have x2 := findItem_mem hu (List.mem_iff_getElem?.2 ⟨i, ha⟩)
      rw [← h4, x2, Option.some.injEq] at x1
      exact x1.symm
    subst this
    rw [h5]
    simp [ptOf, ptNewOf, RefPt.frac]
    ring

/-- C02. In closed form, with non-negative durations, delays and relative times: the start time of
operation `i` is the sum over the earlier operations of duration, delay and the relative time of
the following one. In particular nothing overlaps and operations start in insertion order. -/
theorem default_adds_prefix_sums {s out : List (Item κ)} {rel : Nat → Rat} (hu : UniqueKeys s)
    (hf : Fresh s) (hd : DefaultAdds s rel) (h : timing .asap s = .ok out)
    (hdur : ∀ it ∈ s, 0 ≤ it.dur + it.delay.getD 0) (hrel : ∀ i, 0 ≤ rel i)
    (i : Nat) (a : Item κ) (ha : s[i]? = some a) :
    startOf out a.key =
      ((List.range i).map (fun j =>
        ((s[j]?).elim 0 (fun it => it.dur + it.delay.getD 0)) + rel (j + 1))).sum := by
  have hseq := default_adds_sequential hu hf hd h
  have hstep : ∀ (n : Nat) x y, s[n]? = some x → s[n + 1]? = some y →
      startOf out x.key ≤ startOf out y.key := by
    intro n x y hx hy
    have := hseq n x y hx hy
    have h1 := hdur x (List.mem_iff_getElem?.2 ⟨n, hx⟩)
    have h2 := hrel (n + 1)
    linarith
  -- the first is the earliest
  have hfirst : ∀ (n : Nat) x y, s[0]? = some x → s[n]? = some y →
      startOf out x.key ≤ startOf out y.key := by
    intro n
    induction n with
    | zero =>
      intro x y hx hy
      rw [hx, Option.some.injEq] at hy; subst hy; exact le_refl _
    | succ n ih =>
      intro x y hx hy
      have hn : n < s.length := by
        have : n + 1 < s.length := by
          by_contra hc; rw [List.getElem?_eq_none (by omega)] at hy; cases hy
        omega
      have hz := List.getElem?_eq_getElem hn
      exact (ih x _ hx hz).trans (hstep n _ y hz hy)
  have hzero : ∀ x, s[0]? = some x → startOf out x.key = 0 := by
    intro x hx
    obtain ⟨it, hit, h0⟩ := earliest_start_zero hu h
    obtain ⟨n, hn⟩ := List.mem_iff_getElem?.1 hit
    have hle := hfirst n x it hx hn
    have hkeys := (asap_satisfies_constraints hu hf h).1
    have hxm : x.key ∈ out.map (·.key) := by
      rw [hkeys]; exact List.mem_map.2 ⟨x, List.mem_iff_getElem?.2 ⟨0, hx⟩, rfl⟩
    obtain ⟨ox, hox⟩ := exists_findItem hxm
    obtain ⟨t, ht, hpos⟩ := times_nonneg hu h ox (findItem_some hox).1
    have : startOf out x.key = t := by simp [startOf, hox, ht]
    rw [h0] at hle
    rw [this] at hle ⊢
    exact le_antisymm hle hpos
  induction i generalizing a with
  | zero => simpa using hzero a ha
  | succ n ih =>
    have hn : n < s.length := by
      have : n + 1 < s.length := by
        by_contra hc; rw [List.getElem?_eq_none (by omega)] at ha; cases ha
      omega
    have hz := List.getElem?_eq_getElem hn
    rw [hseq n _ a hz ha, ih _ hz, List.range_succ, List.map_append, List.sum_append]
    simp only [List.map_cons, List.map_nil, List.sum_cons, List.sum_nil, hz, Option.elim_some]
    ring

/-- Three operations added one after the other. -/
def exChain : List (Item Nat) :=
  [ { key := 0, dur := 20, delay := none, cons := [⟨none, none, none, 0⟩], abs := none },
    { key := 1, dur := 10, delay := some 2, cons := [⟨none, none, none, 0⟩], abs := none },
    { key := 2, dur := 40, delay := none, cons := [⟨none, none, none, 0⟩], abs := none } ]

example : UniqueKeys exChain ∧ Fresh exChain ∧ DefaultAdds exChain (fun _ => 0) ∧
    (∀ it ∈ exChain, 0 ≤ it.dur + it.delay.getD 0) ∧
    (timing .asap exChain).toOption.map (fun o => o.map (·.abs)) =
      some [some 0, some 20, some 32] := by
  refine ⟨by unfold UniqueKeys; decide, ?_, ?_, ?_, by decide +kernel⟩
  · intro it h; simp [exChain] at h; rcases h with rfl | rfl | rfl <;> rfl
  · intro i it h
    have := List.mem_iff_getElem?.2 ⟨i, h⟩
    simp [exChain] at this; rcases this with rfl | rfl | rfl <;> rfl
  · intro it h; simp [exChain] at h; rcases h with rfl | rfl | rfl <;> norm_num

/-! ## C08 -/

/-- C08. Running the ASAP pass a second time changes nothing, provided no operation imposes a delay
and the first run did not have to shift the times (the first schedulable is at 0). -/
theorem asap_idempotent_partial {s out : List (Item κ)} (hu : UniqueKeys s) (hf : Fresh s)
    (hnd : ∀ it ∈ s, it.delay = none) (h : timing .asap s = .ok out)
    (hfirst : ∀ it, s[0]? = some it → startOf out it.key = 0) :
    timing .asap out = .ok out := by
  obtain ⟨s', order, hne, hs', hne', hu', hc, hp, ht, hw⟩ := timing_ok hu h
  obtain ⟨A, k, ks, d, rfl, h0, he, hd, hout, hall, hmin⟩ := timeWith_ok hne' hp ht hw
  -- no shift
  obtain ⟨i0, ⟨itk, hik, hkk⟩, hnb⟩ := explicit_root hs' hu' hp ht
  have hmk : itk ∈ s' := List.mem_iff_getElem?.2 ⟨i0, hik⟩
  have hi0 : i0 = 0 := by
    refine (neighbour_none_asap ?_).1 hnb
    rw [← (makeExplicit_get hs').1]
    by_contra hn; rw [List.getElem?_eq_none (by omega)] at hik; cases hik
  have hd0 : d = 0 := by
    subst hi0
    obtain ⟨it0, e0, e1⟩ := makeExplicit_get' hs' 0 itk hik
    have := hfirst it0 e0
    rw [hout, ← (makeExplicitOne_same e1).1, startOf_out (List.mem_map.2 ⟨itk, hmk, rfl⟩)
      (by rw [hkk]; exact h0)] at this
    linarith
  subst hd0
  -- no delays
  have hdel : ∀ x, delayOf s' x = none := by
    intro x
    unfold delayOf
    cases hx : findItem s' x with
    | none => rfl
    | some it =>
      obtain ⟨it0, hm0, -, -, e, -⟩ := makeExplicit_mem' hs' (findItem_some hx).1
      simp [e, hnd it0 hm0]
  have hadd : ∀ c : Constraint κ, addDelay (delayOf s') c = c := by
    intro c; unfold addDelay; cases c.ref <;> simp [hdel]
  have hcons : ∀ it ∈ s', (consOf s' it.key).map (addDelay (delayOf s')) = it.cons := by
    intro it hit
    rw [consOf_find (findItem_mem hu' hit)]
    conv_rhs => rw [← List.map_id it.cons]
    exact List.map_congr_left (fun c _ => hadd c)
  have hout' : out = s'.map (fun it => { it with abs := A it.key }) := by
    rw [hout]
    apply List.map_congr_left
    intro it hit
    rw [hcons it hit]
    cases hA : A it.key <;> simp
  have hfind : ∀ x, findItem out x = (findItem s' x).map (fun it => { it with abs := A it.key }) := by
    intro x; rw [hout', findItem_map (by simp)]
  have hconsO : ∀ x, consOf out x = consOf s' x := by
    intro x; simp only [consOf, initSt, hfind x]; cases findItem s' x <;> rfl
  have hdelO : ∀ x, delayOf out x = delayOf s' x := by
    intro x; simp only [delayOf, hfind x]; cases findItem s' x <;> rfl
  have hpredO : ∀ x, predsOf out x = predsOf s' x := by
    intro x; simp only [predsOf, hfind x]; cases findItem s' x <;> rfl
  have hkeysO : out.map (·.key) = s'.map (·.key) := by rw [hout', List.map_map]; rfl
  have huO : UniqueKeys out := by unfold UniqueKeys; rw [hkeysO]; exact hu'
  have hstale : ∀ x, staleOf out x = (findItem s' x).bind (fun it => A it.key) := by
    intro x; simp only [staleOf, hfind x]; cases findItem s' x <;> rfl
  -- constraints are already explicit
  have hexp : makeExplicit .asap out = .ok out := by
    have aux : ∀ (l : List (Item κ)) (ds : List (Option κ)), l.length ≤ ds.length →
        (∀ (i : Nat) x dd, l[i]? = some x → ds[i]? = some dd → makeExplicitOne .asap x dd = .ok x) →
        makeExplicitAux .asap l ds = .ok l := by
      intro l
      induction l with
      | nil => intros; rfl
      | cons a l ih =>
        intro ds hl hx
        cases ds with
        | nil => simp at hl
        | cons dd ds =>
          have h1 := hx 0 a dd rfl rfl
          have h2 := ih ds (by simpa using hl) (fun i x d' e1 e2 => hx (i + 1) x d' e1 e2)
          simp [makeExplicitAux, h1, h2]
    have hneO : out ≠ [] := by rw [hout']; simpa using hne'
    apply aux _ _ (by rw [defaultRefs_length _ hneO])
    intro i x dd hx hdd
    have hil : i < out.length := by
      by_contra hn; rw [List.getElem?_eq_none (by omega)] at hx; cases hx
    rw [defaultRefs_get hil, Option.some.injEq] at hdd
    rw [hout', List.getElem?_map] at hx
    cases hsi : s'[i]? with
    | none => rw [hsi] at hx; cases hx
    | some it' =>
      rw [hsi] at hx
      simp only [Option.map_some, Option.some.injEq] at hx
      obtain ⟨it, hi, hone⟩ := makeExplicit_get' hs' i it' hsi
      obtain ⟨-, c, cs, hc', he'⟩ := makeExplicitOne_ok hone
      have hnbeq : neighbour .asap out i = neighbour .asap s i := by
        unfold neighbour
        simp only
        split
        · rfl
        · have e1 : (out.map (·.key))[i - 1]? = (s.map (·.key))[i - 1]? := by
            rw [hkeysO, makeExplicit_keys hs']
          simpa using e1
      subst hx
      subst he'
      rw [← hdd, hnbeq]
      simp only [makeExplicitOne, reduceCtorEq, false_and, if_false]
      congr 3
      cases c.ref <;> cases c.refPt <;> cases c.refPtNew <;> simp
  have hclosedO : refsClosed out = true := by
    rw [refsClosed_iff] at hc ⊢
    intro it hit r hr
    rw [hout'] at hit
    obtain ⟨it', hm, rfl⟩ := List.mem_map.1 hit
    rw [hkeysO]
    exact hc it' hm r hr
  -- the topological order exists
  unfold timing
  have hneO : out ≠ [] := by rw [hout']; simpa using hne'
  rw [if_neg hneO, hexp]
  simp only [hclosedO, if_true]
  have hpf : predsOf out = predsOf s' := funext hpredO
  have hsort : ∃ o, topoSort (predsOf out) (out.map (·.key)) = some o := by
    cases ho : topoSort (predsOf out) (out.map (·.key)) with
    | some o => exact ⟨o, rfl⟩
    | none =>
      exfalso
      obtain ⟨x, hx⟩ := topoAux_none (le_refl _) ho
      rw [hpf] at hx
      exact ht.no_cycle (fun a b hab => hp.mem_iff.2 (predsOf_key hab)) ⟨x, hx⟩
  obtain ⟨o, ho⟩ := hsort
  rw [ho]
  obtain ⟨hpo, hto⟩ := topoSort_some huO hclosedO ho
  -- head of the new order is the same root
  have hhead : o.head? = some k := by
    cases o with
    | nil => have := hpo.length_eq; simp at this; exact absurd this.symm (by simpa using hneO)
    | cons k' ks' =>
      obtain ⟨j, ⟨ity, hjy, hyk⟩, hnb'⟩ := explicit_root hexp huO hpo hto
      have hj0 : j = 0 := by
        refine (neighbour_none_asap ?_).1 hnb'
        by_contra hn; rw [List.getElem?_eq_none (by omega)] at hjy; cases hjy
      subst hj0; subst hi0
      rw [hout', List.getElem?_map, hik] at hjy
      simp only [Option.map_some, Option.some.injEq] at hjy
      rw [← hyk, ← hjy, ← hkk]; rfl
  have hgood : ∀ x ∈ o, o.head? = some x ∨ Good out x := by
    intro x hx
    by_cases hxk : x = k
    · left; rw [hhead, hxk]
    · right
      have hxks : x ∈ ks := by
        have : x ∈ k :: ks := hp.mem_iff.2 (by rw [← hkeysO]; exact hpo.mem_iff.1 hx)
        rcases List.mem_cons.1 this with e | e
        · exact absurd e hxk
        · exact e
      obtain ⟨it, hfi, g1, g2⟩ := good_of_eqn hs' hu' (he x hxks)
      exact ⟨{ it with abs := A it.key }, by rw [hfind, hfi]; rfl, by rw [hconsO]; exact g1,
        by rw [hconsO]; exact g2⟩
  obtain ⟨out', h'⟩ := timeWith_progress (strat := .asap) hneO hpo hto hgood
  simp only [h']
  obtain ⟨B, k', ks', d', rfl, b0, be, bd, bout, ball, bmin⟩ := timeWith_ok hneO hpo hto h'
  simp only [List.head?_cons, Option.some.injEq] at hhead
  subst hhead
  -- B = A
  have hAeq : ∀ x ∈ ks', Eqn .asap out A x := by
    intro x hx
    have hxks : x ∈ ks := by
      have hperm : (k' :: ks').Perm (k' :: ks) := hpo.trans (by rw [hkeysO]; exact hp.symm)
      exact ((List.perm_cons _).1 hperm).mem_iff.1 hx
    obtain ⟨it, hfi, heq⟩ := he x hxks
    refine ⟨{ it with abs := A it.key }, by rw [hfind, hfi]; rfl, ?_⟩
    simp only at heq ⊢
    have hfun : delayOf out = delayOf s' := funext hdelO
    rw [hconsO, hfun, hstale, hfi]
    have hxk := (findItem_some hfi).2
    simp only [Option.bind_some, hxk]
    -- getStartTime agrees on `out` and `s'`
    have hg : ∀ c d', getStartTime out A c d' = getStartTime s' A c d' := by
      intro c d'
      unfold getStartTime
      cases c.ref with
      | none => rfl
      | some r => simp only [hfind r]; cases findItem s' r <;> rfl
    have hfold : ∀ cs cur, asapFold out A it.dur cs cur = asapFold s' A it.dur cs cur := by
      intro cs
      induction cs with
      | nil => intro cur; rfl
      | cons c cs ih =>
        intro cur
        simp only [asapFold, hg]
        cases getStartTime s' A c it.dur with
        | error e => rfl
        | ok t => exact ih _
    rw [hfold]
    obtain ⟨hle, -, -⟩ := asapFold_spec heq
    have hAx : ∃ a, A x = some a := by
      obtain ⟨itx, hmx, hkx⟩ := List.mem_map.1 (hp.mem_iff.1 (List.mem_cons_of_mem k' hxks))
      obtain ⟨a, ha, -⟩ := hall itx hmx
      exact ⟨a, by rw [← hkx]; exact ha⟩
    obtain ⟨a, ha⟩ := hAx
    have aux : ∀ cs : List (Constraint κ),
        (∀ c ∈ cs, ∃ t, getStartTime s' A c it.dur = .ok t ∧ t ≤ a) →
        asapFold s' A it.dur cs (some a) = .ok (some a) := by
      intro cs
      induction cs with
      | nil => intro _; rfl
      | cons c cs ih =>
        intro hcs
        obtain ⟨t, ht1, ht2⟩ := hcs c (by simp)
        simp only [asapFold, ht1, if_neg (not_lt.2 ht2)]
        exact ih (fun c' hc' => hcs c' (by simp [hc']))
    rw [ha]
    apply aux
    intro c hc'
    obtain ⟨t, t1, r, r1, r2⟩ := hle c hc'
    rw [ha, Option.some.injEq] at r1
    exact ⟨t, t1, by rw [r1]; exact r2⟩
  have hAB : ∀ x ∈ k' :: ks', A x = B x := by
    intro x hx
    rcases List.mem_cons.1 hx with rfl | hx
    · rw [h0, b0]
    · refine eqn_unique hto.2.2 ?_ hAeq be x hx
      intro y hy
      rcases hy with rfl | hy
      · rw [h0, b0]
      · cases hy
  have hABs : ∀ it ∈ out, A it.key = B it.key := fun it hit =>
    hAB _ (hpo.mem_iff.2 (List.mem_map.2 ⟨it, hit, rfl⟩))
  have hkey_abs : ∀ it ∈ out, it.abs = A it.key := by
    intro it hit
    rw [hout'] at hit
    obtain ⟨it', hm, rfl⟩ := List.mem_map.1 hit
    rfl
  have hd'0 : d' = 0 := by
    rcases bmin with h | ⟨it, hit, hB⟩
    · exact h
    · have hit0 := hit
      rw [hout'] at hit0
      obtain ⟨it', hm, e⟩ := List.mem_map.1 hit0
      obtain ⟨a, ha, hpos⟩ := hall it' hm
      have hk' : it.key = it'.key := by rw [← e]
      rw [← hABs it hit, hk', ha, Option.some.injEq] at hB
      linarith
  subst hd'0
  rw [bout]
  congr 1
  conv_rhs => rw [← List.map_id out]
  apply List.map_congr_left
  intro it hit
  have e1 : (consOf out it.key).map (addDelay (delayOf out)) = it.cons := by
    rw [consOf_find (findItem_mem huO hit)]
    conv_rhs => rw [← List.map_id it.cons]
    apply List.map_congr_left
    intro c _
    rw [show delayOf out = delayOf s' from funext hdelO]
    exact hadd c
  rw [e1, ← hABs it hit, ← hkey_abs it hit]
  cases it with
  | mk key dur delay cons abs => cases abs <;> simp

/-- The hypotheses are met, e.g. by two operations added one after the other. -/
example : ∃ out, timing .asap exFork = .ok out ∧ timing .asap out = .ok out := by
  obtain ⟨out, h, ho⟩ := timed_of (strat := .asap) (s := exFork)
    (l := [some 0, some 21, some 2]) (by decide +kernel)
  refine ⟨out, h, asap_idempotent_partial (by unfold UniqueKeys; decide) ?_ ?_ h ?_⟩
  · intro it h; simp [exFork] at h; rcases h with rfl | rfl | rfl <;> rfl
  · intro it h; simp [exFork] at h; rcases h with rfl | rfl | rfl <;> rfl
  · intro it hit
    have hk := (asap_satisfies_constraints (s := exFork) (by unfold UniqueKeys; decide)
      (by intro it h; simp [exFork] at h; rcases h with rfl | rfl | rfl <;> rfl) h).1
    simp only [exFork, List.getElem?_cons_zero, Option.some.injEq] at hit
    subst hit
    cases out with
    | nil => simp at ho
    | cons x xs =>
      simp only [exFork, List.map_cons, List.cons.injEq] at ho hk
      simp [startOf, findItem, hk.1, ho.1]

/-- C08 is violated: operation `1` ends at the start of `0`, so the first run shifts the times to
20 and 0; the second run keeps the stale 0 for `1` and resets `0` to 0, so they now overlap. -/
def exStale : List (Item Nat) :=
  [ { key := 0, dur := 10, delay := none, cons := [⟨none, none, none, 0⟩], abs := none },
    { key := 1, dur := 20, delay := none, cons := [⟨some 0, some .start, some .stop, 0⟩], abs := none } ]

theorem retiming_not_idempotent : ∃ (s out out' : List (Item Nat)), UniqueKeys s ∧ Fresh s ∧
    timing .asap s = .ok out ∧ timing .asap out = .ok out' ∧
    startOf out 0 = 20 ∧ startOf out' 0 = 0 ∧ startOf out 1 = 0 ∧ startOf out' 1 = 0 := by
  have h : ∃ out out', timing .asap exStale = .ok out ∧ timing .asap out = .ok out' ∧
      startOf out 0 = 20 ∧ startOf out' 0 = 0 ∧ startOf out 1 = 0 ∧ startOf out' 1 = 0 := by
    have : ((timing .asap exStale).toOption.bind (fun out => (timing .asap out).toOption.map
        (fun out' => [startOf out 0, startOf out' 0, startOf out 1, startOf out' 1])))
        = some [20, 0, 0, 0] := by decide +kernel
    cases h1 : timing .asap exStale with
    | error e => rw [h1] at this; simp [Except.toOption] at this
    | ok out =>
      rw [h1] at this
      simp only [Except.toOption, Option.bind_some] at this
      cases h2 : timing .asap out with
      | error e => rw [h2] at this; simp at this
      | ok out' =>
        rw [h2] at this
        simp only [Option.map_some, Option.some.injEq, List.cons.injEq] at this
        exact ⟨out, out', rfl, h2, this.1, this.2.1, this.2.2.1, this.2.2.2.1⟩
  obtain ⟨out, out', h⟩ := h
  exact ⟨exStale, out, out', by unfold UniqueKeys; decide,
    by intro it h; simp [exStale] at h; rcases h with rfl | rfl <;> rfl, h⟩

/-- C08 is violated by delays too: with a `next_operation_delay` the second run adds the delay a
second time. -/
def exDelay : List (Item Nat) :=
  [ { key := 0, dur := 10, delay := some 5, cons := [⟨none, none, none, 0⟩], abs := none },
    { key := 1, dur := 20, delay := none, cons := [⟨none, none, none, 0⟩], abs := none } ]

theorem retiming_adds_delay_again :
    ((timing .asap exDelay).toOption.bind (fun out => (timing .asap out).toOption.map
        (fun out' => (startOf out 1, startOf out' 1)))) = some (15, 20) := by decide +kernel

end Verif.Timing
