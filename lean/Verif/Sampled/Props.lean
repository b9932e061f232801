/-
C69: a pulse converted to samples puts out what the pulse puts out.
-/
import Verif.Sampled.Spec
import Verif.Long.Props
import Verif.Shapes.Interp
import Verif.Shapes.Sampling
import Mathlib.Data.List.Intervals

set_option linter.unusedSimpArgs false
set_option linter.unusedVariables false

namespace Verif.Sampled

open Verif.Long (Info V PC maxDefault Wave What latest later valueAt sets output)
open Verif.Numeric (pyRound pyRound_int)
open Spec

theorem round_eq {x : Rat} {n : Int} (h : x = n) : pyRound x = n := by rw [h, pyRound_int]

/-! ### Selecting samples -/

theorem assign_map (sel : Int → Bool) (v : V) (f : Int → V) : ∀ ts : List Int,
    assign ts sel v (ts.map f) = ts.map (fun t => if sel t then v else f t)
  | [] => rfl
  | t :: ts => by
    have := assign_map sel v f ts
    unfold assign at *
    rw [List.map_cons, List.zipWith_cons_cons, this]
    rfl

theorem addData_skip {sel : Int → Bool} {t : Int} (h : sel t = false) (ts : List Int) (x : V)
    (w data : List V) : addData sel (t :: ts) (x :: w) data = x :: addData sel ts w data := by
  cases data <;> simp [addData, h]

theorem addData_take {sel : Int → Bool} {t : Int} (h : sel t = true) (ts : List Int) (x d : V)
    (w data : List V) : addData sel (t :: ts) (x :: w) (d :: data) = (x + d) :: addData sel ts w data := by
  simp [addData, h]

theorem addData_map (sel : Int → Bool) (h f : Int → V) : ∀ ts : List Int,
    addData sel ts (ts.map f) ((ts.filter sel).map h) =
      ts.map (fun t => if sel t then f t + h t else f t)
  | [] => rfl
  | t :: ts => by
    rw [List.map_cons]
    cases hs : sel t with
    | false =>
      rw [List.filter_cons_of_neg (by simp [hs]), addData_skip hs, addData_map sel h f ts]
      simp [hs]
    | true =>
      rw [List.filter_cons_of_pos hs, List.map_cons, addData_take hs, addData_map sel h f ts]
      simp [hs]

/-- The grid of sample times. -/
def grid (m a n : Nat) : List Int := (List.range n).map (fun k : Nat => (m : Int) * ((a : Int) + k))

theorem grid_filter (m a n i j : Nat) (hm : 0 < m) (hi : a ≤ i) (hij : i ≤ j) (hj : j ≤ a + n) :
    (grid m a n).filter (fun t => decide ((m : Int) * i ≤ t ∧ t < (m : Int) * j)) =
      (List.range (j - i)).map (fun k : Nat => (m : Int) * ((i : Int) + k)) := by
  have hm' : (0 : Int) < m := by exact_mod_cast hm
  unfold grid
  rw [List.filter_map]
  have h1 : ((fun t => decide ((m : Int) * i ≤ t ∧ t < (m : Int) * j)) ∘
      fun k : Nat => (m : Int) * ((a : Int) + k)) =
      fun k : Nat => decide (i - a ≤ k) && decide (k < j - a) := by
    funext k
    simp only [Function.comp_apply]
    rw [Bool.eq_iff_iff]
    simp only [decide_eq_true_eq, Bool.and_eq_true]
    rw [mul_le_mul_iff_of_pos_left hm', mul_lt_mul_iff_of_pos_left hm']
    omega
  rw [h1, ← List.filter_filter, ← List.Ico.zero_bot n, List.Ico.filter_lt, List.Ico.filter_le]
  have h2 : List.Ico (max 0 (i - a)) (min n (j - a)) = (List.range (j - i)).map (fun k => (i - a) + k) := by
    rw [List.Ico]
    rw [List.range'_eq_map_range]
    have e1 : min n (j - a) - max 0 (i - a) = j - i := by omega
    have e2 : max 0 (i - a) = i - a := by omega
    rw [e1, e2]
  rw [h2, List.map_map]
  apply List.map_congr_left
  intro k _
  simp only [Function.comp_apply]
  congr 1
  omega

/-! ### Offsets -/

theorem latest_insertBy (t : Rat) (a : Rat × V) : ∀ l : List (Rat × V),
    latest t (StableSort.insertBy Prod.fst a l) = latest t (a :: l)
  | [] => rfl
  | b :: l => by
    rw [StableSort.insertBy]
    by_cases h : a.1 ≤ b.1
    · rw [if_pos h]
    · rw [if_neg h, latest, latest_insertBy t a l, latest, latest, latest, ← Long.later_assoc, ← Long.later_assoc]
      congr 1
      symm
      apply Long.later_comm
      intro x y hx hy
      split at hx
      · split at hy
        · simp only [Option.some.injEq] at hx hy
          subst hx hy
          exact not_le.mp h
        · cases hy
      · cases hx

theorem latest_sortBy (t : Rat) (l : List (Rat × V)) :
    latest t (StableSort.sortBy Prod.fst l) = latest t l := by
  rw [StableSort.sortBy_eq_insSort]
  induction l with
  | nil => rfl
  | cons a l ih => rw [StableSort.insSort, latest_insertBy, latest, ih]; rfl

theorem latest_filter (t : Rat) (q : Rat × V → Bool) : ∀ l : List (Rat × V),
    (∀ x ∈ l, q x = false → t < x.1) → latest t (l.filter q) = latest t l
  | [], _ => rfl
  | a :: l, h => by
    have ih := latest_filter t q l (fun x hx => h x (List.mem_cons_of_mem _ hx))
    cases hq : q a with
    | true => rw [List.filter_cons_of_pos hq, latest, latest, ih]
    | false =>
      have := h a List.mem_cons_self hq
      rw [List.filter_cons_of_neg (by simp [hq]), ih, latest, if_neg (not_le.mpr this)]
      rfl

/-- The offsets that are set, with their times: those at the end of the operation are left out. -/
def early (e : Rat) (l : List Info) : List (Rat × V) :=
  l.flatMap (fun p => match p.what with
    | .offset v => if p.t0 = e then [] else [(p.t0, v)]
    | _ => [])

theorem early_cons (e : Rat) (p : Info) (l : List Info) : early e (p :: l) = early e [p] ++ early e l := by
  simp [early]

theorem early_mem {e : Rat} {l : List Info} {x : Rat × V} (h : x ∈ early e l) :
    ∃ p ∈ l, p.what = .offset x.2 ∧ p.t0 = x.1 ∧ p.t0 ≠ e := by
  unfold early at h
  obtain ⟨p, hp, h⟩ := List.mem_flatMap.mp h
  refine ⟨p, hp, ?_⟩
  cases hw : p.what with
  | wave w => rw [hw] at h; simp at h
  | nothing => rw [hw] at h; simp at h
  | offset v =>
    rw [hw] at h
    simp only at h
    split at h
    · simp at h
    · rename_i hne
      simp only [List.mem_singleton] at h
      subst h
      exact ⟨rfl, rfl, hne⟩

/-- A value, unless something has been set until `t`. -/
def orElse (o : Option (Rat × V)) (v : V) : V :=
  match o with
  | some e => e.2
  | none => v

theorem setOffset_map {m : Nat} (hm : 0 < m) {D : Nat} {ts : List Int} {p : Info}
    (ha : ∃ a : Nat, p.t0 = (m : Rat) * a) (hd : ∀ v, p.what = .offset v → p.dur = 0) (f : Int → V) :
    setOffset ((m : Rat) * D) ts (ts.map f) p =
      ts.map (fun t : Int => orElse (latest (t : Rat) (early ((m : Rat) * D) [p])) (f t)) := by
  obtain ⟨a, ha⟩ := ha
  unfold setOffset early
  cases hw : p.what with
  | wave w => simp only [List.flatMap_cons, hw, List.flatMap_nil, List.append_nil]; rfl
  | nothing => simp only [List.flatMap_cons, hw, List.flatMap_nil, List.append_nil]; rfl
  | offset v =>
    have hr : pyRound p.t0 = (m : Int) * a := round_eq (by rw [ha]; push_cast; rfl)
    have hr2 : pyRound ((m : Rat) * D) = (m : Int) * D := round_eq (by push_cast; rfl)
    simp only [List.flatMap_cons, hw, List.flatMap_nil, List.append_nil]
    rw [hd v hw, if_pos (by norm_num [isZero]), hr, hr2]
    have hiff : ((m : Int) * D = (m : Int) * a) ↔ p.t0 = (m : Rat) * D := by
      rw [ha]
      constructor
      · intro h; exact_mod_cast h.symm
      · intro h; exact_mod_cast h.symm
    by_cases h : p.t0 = (m : Rat) * D
    · rw [if_pos (hiff.mpr h), if_pos h]
      rfl
    · rw [if_neg (fun hh => h (hiff.mp hh)), if_neg h, assign_map]
      apply List.map_congr_left
      intro t _
      have hle : ((m : Int) * a ≤ t) ↔ p.t0 ≤ (t : Rat) := by
        rw [ha]
        constructor
        · intro h; exact_mod_cast h
        · intro h; exact_mod_cast h
      simp only [latest, decide_eq_true_eq]
      by_cases hh : p.t0 ≤ (t : Rat)
      · rw [if_pos (hle.mpr hh), if_pos hh]; rfl
      · rw [if_neg (fun h' => hh (hle.mp h')), if_neg hh]; rfl

theorem orElse_orElse (a b : Option (Rat × V)) (v : V)
    (h : ∀ x y, a = some x → b = some y → x.1 ≤ y.1) :
    orElse b (orElse a v) = orElse (later a b) v := by
  cases a with
  | none => rfl
  | some x =>
    cases b with
    | none => rfl
    | some y => simp only [later, if_pos (h x y rfl rfl)]; rfl

theorem setOffsets_map {m : Nat} (hm : 0 < m) {D : Nat} {ts : List Int} : ∀ (l : List Info) (f : Int → V),
    (∀ p ∈ l, (∃ a : Nat, p.t0 = (m : Rat) * a) ∧ ∀ v, p.what = .offset v → p.dur = 0) →
    l.Pairwise (fun p q => p.t0 ≤ q.t0) →
    l.foldl (setOffset ((m : Rat) * D) ts) (ts.map f) =
      ts.map (fun t : Int => orElse (latest (t : Rat) (early ((m : Rat) * D) l)) (f t))
  | [], f, _, _ => rfl
  | p :: l, f, h, hs => by
    rw [List.pairwise_cons] at hs
    rw [List.foldl_cons, setOffset_map hm (h p List.mem_cons_self).1 (h p List.mem_cons_self).2,
      setOffsets_map hm l _ (fun q hq => h q (List.mem_cons_of_mem _ hq)) hs.2]
    apply List.map_congr_left
    intro t _
    rw [early_cons _ p l, Long.latest_append]
    apply orElse_orElse
    intro x y hx hy
    obtain ⟨p', hp', _, h1, _⟩ := early_mem (Long.latest_mem hx).1
    obtain ⟨q, hq, _, h2, _⟩ := early_mem (Long.latest_mem hy).1
    rw [List.mem_singleton] at hp'
    rw [← h1, ← h2, hp']
    exact hs.1 q hq

theorem early_sortBy (e : Rat) (l : List Info) :
    early e (StableSort.sortBy Info.t0 l) = StableSort.sortBy Prod.fst (early e l) := by
  unfold early
  apply StableSort.sortBy_flatMap
  intro p _ x hx
  cases hw : p.what with
  | wave w => rw [hw] at hx; simp at hx
  | nothing => rw [hw] at hx; simp at hx
  | offset v =>
    rw [hw] at hx
    simp only at hx
    split at hx
    · simp at hx
    · simp only [List.mem_singleton] at hx; rw [hx]

theorem early_sets {e : Rat} {l : List Info} {pc : PC} (h : ∀ p ∈ l, p.pc = pc) :
    early e l = (sets l pc).filter (fun x => decide (x.1 ≠ e)) := by
  induction l with
  | nil => rfl
  | cons p l ih =>
    rw [early_cons, ih (fun q hq => h q (List.mem_cons_of_mem _ hq))]
    have hp := h p List.mem_cons_self
    simp only [early, sets, List.flatMap_cons, List.flatMap_nil, List.append_nil, List.filterMap_cons]
    cases hw : p.what with
    | wave w => rfl
    | nothing => rfl
    | offset v =>
      simp only [hp, if_true]
      by_cases he : p.t0 = e
      · simp [he]
      · simp [he]

/-! ### Pulses -/

theorem addPulse_map (other : Nat → Rat → V) {m : Nat} (hm : 0 < m) {a0 n : Nat} {p : Info} {pc : PC}
    (hpc : p.pc = pc) {a b : Nat} (ha : p.t0 = (m : Rat) * a) (hb : p.dur = (m : Rat) * b)
    (h0 : a0 ≤ a) (hn : a + b ≤ a0 + n) (f : Int → V) :
    addPulse other (1 / m) (grid m a0 n) ((grid m a0 n).map f) p =
      .ok ((grid m a0 n).map (fun t : Int => f t + Info.wave other pc (t : Rat) p)) := by
  have hmq : (m : Rat) ≠ 0 := by
    have : (0 : Rat) < m := by exact_mod_cast hm
    exact this.ne'
  unfold addPulse Info.wave
  cases hw : p.what with
  | offset v => simp
  | nothing => simp
  | wave w =>
    have hr : pyRound p.t0 = (m : Int) * a := round_eq (by rw [ha]; push_cast; rfl)
    have hr1 : pyRound (p.t0 + p.dur) = (m : Int) * (a + b : Nat) := round_eq (by
      rw [ha, hb]; push_cast; rw [mul_add])
    have hr2 : pyRound (p.dur * (1 / m)) = (b : Int) := round_eq (by
      rw [hb]
      push_cast
      field_simp)
    have hf := grid_filter m a0 n a (a + b) hm h0 (by omega) (by omega)
    have hdata : samplesOf other (1 / m) p.dur w =
        ((grid m a0 n).filter (fun t => decide ((m : Int) * a ≤ t ∧ t < (m : Int) * (a + b : Nat)))).map
          (fun t : Int => w.value other p.dur ((t : Rat) - p.t0)) := by
      rw [hf, samplesOf, hr2, List.map_map, Nat.add_sub_cancel_left, Int.toNat_natCast]
      apply List.map_congr_left
      intro k _
      have e : (k : Rat) / (1 / m) = (((m : Int) * ((a : Int) + k) : Int) : Rat) - p.t0 := by
        rw [ha]; push_cast; field_simp; ring
      simp only [Function.comp_apply, ← e]
      cases w <;> rfl
    simp only [hr, hr1]
    rw [if_pos (by rw [hdata, List.length_map]), hdata, addData_map]
    congr 1
    apply List.map_congr_left
    intro t _
    have hle : ((m : Int) * a ≤ t) ↔ p.t0 ≤ (t : Rat) := by
      rw [ha]
      constructor
      · intro h; exact_mod_cast h
      · intro h; exact_mod_cast h
    have hlt : (t < (m : Int) * (a + b : Nat)) ↔ (t : Rat) < p.t0 + p.dur := by
      rw [ha, hb, ← mul_add]
      constructor
      · intro h; exact_mod_cast h
      · intro h; exact_mod_cast h
    simp only [decide_eq_true_eq, hle, hlt, hpc, true_and]
    split
    · rfl
    · rw [add_zero]

theorem addPulses_map (other : Nat → Rat → V) {m : Nat} (hm : 0 < m) {a0 n : Nat} {pc : PC} :
    ∀ (l : List Info) (f : Int → V), (∀ p ∈ l, p.pc = pc ∧ ∃ a b : Nat, p.t0 = (m : Rat) * a ∧
      p.dur = (m : Rat) * b ∧ a0 ≤ a ∧ a + b ≤ a0 + n) →
    l.foldlM (addPulse other (1 / m) (grid m a0 n)) ((grid m a0 n).map f) =
      .ok ((grid m a0 n).map (fun t : Int => f t + (l.map (Info.wave other pc (t : Rat))).sum))
  | [], f, _ => by simp [pure, Except.pure]
  | p :: l, f, h => by
    obtain ⟨hpc, a, b, ha, hb, h0, hn⟩ := h p List.mem_cons_self
    rw [List.foldlM_cons, addPulse_map other hm hpc ha hb h0 hn]
    simp only [bind, Except.bind]
    rw [addPulses_map other hm l _ (fun q hq => h q (List.mem_cons_of_mem _ hq))]
    simp only [List.map_cons, List.sum_cons, add_assoc]

/-! ### The whole operation -/

theorem foldl_min_spec : ∀ (l : List Info) (x : Rat),
    (l.foldl (fun m q => min m q.t0) x = x ∨ ∃ p ∈ l, l.foldl (fun m q => min m q.t0) x = p.t0) ∧
    l.foldl (fun m q => min m q.t0) x ≤ x ∧ ∀ p ∈ l, l.foldl (fun m q => min m q.t0) x ≤ p.t0
  | [], x => by simp
  | q :: l, x => by
    obtain ⟨h1, h2, h3⟩ := foldl_min_spec l (min x q.t0)
    rw [List.foldl_cons]
    refine ⟨?_, le_trans h2 (min_le_left _ _), ?_⟩
    · rcases h1 with h1 | ⟨p, hp, h1⟩
      · rcases le_total x q.t0 with h | h
        · rw [h1, min_eq_left h]; exact .inl rfl
        · rw [h1, min_eq_right h]; exact .inr ⟨q, List.mem_cons_self, rfl⟩
      · exact .inr ⟨p, List.mem_cons_of_mem _ hp, h1⟩
    · intro p hp
      rcases List.mem_cons.mp hp with rfl | hp
      · exact le_trans h2 (min_le_right _ _)
      · exact h3 p hp

theorem firstStart_spec {l : List Info} (h : l ≠ []) :
    (∃ p ∈ l, firstStart l = p.t0) ∧ ∀ p ∈ l, firstStart l ≤ p.t0 := by
  cases l with
  | nil => exact absurd rfl h
  | cons q l =>
    obtain ⟨h1, h2, h3⟩ := foldl_min_spec l q.t0
    refine ⟨?_, ?_⟩
    · rcases h1 with h1 | ⟨p, hp, h1⟩
      · exact ⟨q, List.mem_cons_self, h1⟩
      · exact ⟨p, List.mem_cons_of_mem _ hp, h1⟩
    · intro p hp
      rcases List.mem_cons.mp hp with rfl | hp
      · exact h2
      · exact h3 p hp

theorem duration_eq {op : Operation} {m : Nat} {e : Rat} (hg : OnGrid m op) (he : Ends op e) :
    op.duration = e ∧ ∃ D : Nat, e = (m : Rat) * D := by
  have hD : ∃ D : Nat, e = (m : Rat) * D := by
    rcases he.exist with ⟨p, hp, h⟩ | h
    · obtain ⟨⟨a, ha⟩, b, hb⟩ := hg.pulses p hp
      exact ⟨a + b, by rw [← h, ha, hb]; push_cast; ring⟩
    · exact hg.acqs e h
  refine ⟨?_, hD⟩
  obtain ⟨D, hD⟩ := hD
  have h0 : 0 ≤ e := by rw [hD]; positivity
  apply le_antisymm
  · apply Long.maxDefault_le h0
    intro x hx
    rcases List.mem_append.mp hx with hx | hx
    · obtain ⟨p, hp, rfl⟩ := List.mem_map.mp hx
      exact he.pulses p hp
    · exact he.acqs x hx
  · apply Long.maxDefault_ge
    rcases he.exist with ⟨p, hp, h⟩ | h
    · exact List.mem_append_left _ (List.mem_map.mpr ⟨p, hp, h⟩)
    · exact List.mem_append_right _ h

theorem timestamps_grid {m : Nat} (hm : 0 < m) (a0 D : Nat) :
    timestamps ((m : Rat) * a0) ((m : Rat) * D) (1 / m) = grid m a0 (D + 1) := by
  have hmq : (m : Rat) ≠ 0 := by
    have : (0 : Rat) < m := by exact_mod_cast hm
    exact this.ne'
  unfold timestamps grid
  have h1 : pyRound ((m : Rat) * D * (1 / m)) = (D : Int) := round_eq (by push_cast; field_simp)
  rw [h1]
  have h2 : ((D : Int) + 1).toNat = D + 1 := by omega
  rw [h2]
  apply List.map_congr_left
  intro k _
  apply round_eq
  push_cast
  field_simp

/-- The converted pulse of an operation with pulses on a single port-clock whose times are multiples of
`m` nanoseconds, sampled each `m` nanoseconds: it is on that port-clock, starts with the first pulse, and at
each sample before the end of the operation it has the value that the operation puts out then; samples from
the end on have the value of the offset that was set before.  There is a sample for each `m` nanoseconds of
the duration `e` of the operation, and one more, whenever the first pulse starts. -/
theorem converted_samples_partial (other : Nat → Rat → V) (op : Operation) (m : Nat) (pc : PC) (e s : Rat)
    (hne : op.pulses ≠ []) (hg : OnGrid m op) (hpc : ∀ p ∈ op.pulses, p.pc = pc) (he : Ends op e) :
    ∃ np, convert other op s (1 / m) =
        .ok (if op.acqEnds ≠ [] ∨ op.gate = true then .replaced np else .numerical np) ∧
      np.pc = pc ∧ ((∃ p ∈ op.pulses, np.t0 = p.t0) ∧ ∀ p ∈ op.pulses, np.t0 ≤ p.t0) ∧ np.dur = e ∧
      (np.samples.length : Rat) * m = e + m ∧ np.tSamples.length = np.samples.length ∧
      ∀ (k : Nat) (x : V), np.samples[k]? = some x →
        np.tSamples[k]? = some (np.t0 + (m : Rat) * k + s) ∧
        (np.t0 + (m : Rat) * k < e → x = output other op.pulses pc (np.t0 + (m : Rat) * k)) ∧
        (e ≤ np.t0 + (m : Rat) * k → x =
          valueAt ((sets op.pulses pc).filter (fun o => decide (o.1 < e))) (np.t0 + (m : Rat) * k)) := by
  obtain ⟨hdur, D, hD⟩ := duration_eq hg he
  obtain ⟨⟨pf, hpf, hfirst⟩, hmin⟩ := firstStart_spec hne
  obtain ⟨⟨a0, ha0⟩, _⟩ := hg.pulses pf hpf
  have hm := hg.pos
  have hmq : (0 : Rat) < m := by exact_mod_cast hm
  rw [ha0] at hfirst
  have hidx : ∀ p ∈ op.pulses, p.pc = pc ∧ ∃ a b : Nat, p.t0 = (m : Rat) * a ∧
      p.dur = (m : Rat) * b ∧ a0 ≤ a ∧ a + b ≤ a0 + (D + 1) := by
    intro p hp
    obtain ⟨⟨a, ha⟩, b, hb⟩ := hg.pulses p hp
    refine ⟨hpc p hp, a, b, ha, hb, ?_, ?_⟩
    · have := hmin p hp
      rw [hfirst, ha, mul_le_mul_iff_of_pos_left hmq] at this
      exact_mod_cast this
    · have := he.pulses p hp
      rw [ha, hb, hD, ← mul_add, mul_le_mul_iff_of_pos_left hmq] at this
      have : a + b ≤ D := by exact_mod_cast this
      omega
  have hoff := setOffsets_map hm (D := D) (ts := grid m a0 (D + 1)) (StableSort.sortBy Info.t0 op.pulses)
    (fun _ => 0) (fun p hp => by
      have hp := StableSort.mem_sortBy.mp hp
      exact ⟨(hg.pulses p hp).1, hg.offsets p hp⟩) (StableSort.sortBy_sorted _ _)
  simp only [early_sortBy, latest_sortBy] at hoff
  have hpul := addPulses_map other hm op.pulses
    (fun t : Int => orElse (latest (t : Rat) (early ((m : Rat) * D) op.pulses)) 0) hidx
  set F : Int → V := fun t : Int => orElse (latest (t : Rat) (early ((m : Rat) * D) op.pulses)) 0 +
    (op.pulses.map (Info.wave other pc (t : Rat))).sum with hF
  have hhead : ((grid m a0 (D + 1)).map (fun t : Int => (t : Rat) + s)).head? = some ((m : Rat) * a0 + s) := by
    unfold grid
    rw [List.range_succ_eq_map]
    simp
  have hlast : ((grid m a0 (D + 1)).map (fun t : Int => (t : Rat) + s)).getLast? =
      some ((m : Rat) * (a0 + D) + s) := by
    unfold grid
    rw [List.range_succ, List.map_append, List.map_append, List.map_singleton, List.map_singleton,
      List.getLast?_concat]
    push_cast
    rfl
  refine ⟨⟨pc, (m : Rat) * a0, e, (grid m a0 (D + 1)).map F,
    (grid m a0 (D + 1)).map (fun t : Int => (t : Rat) + s)⟩, ?_, rfl, ⟨⟨pf, hpf, ha0.symm⟩, ?_⟩, rfl, ?_, ?_, ?_⟩
  · unfold convert
    have hts : timestamps (firstStart op.pulses) op.duration (1 / m) = grid m a0 (D + 1) := by
      rw [hfirst, hdur, hD, timestamps_grid hm]
    cases hpl : op.pulses with
    | nil => exact absurd hpl hne
    | cons first rest =>
      simp only
      rw [← hpl, hts, hdur, hD, hoff, hpul]
      simp only [hhead, hlast]
      congr 1
      have e1 : first.pc = pc := hpc first (by rw [hpl]; exact List.mem_cons_self)
      have e2 : (m : Rat) * (a0 + D) + s - ((m : Rat) * a0 + s) = (m : Rat) * D := by ring
      rw [e1, e2, hfirst]
  · intro p hp; rw [← hfirst]; exact hmin p hp
  · simp only [List.length_map, grid, List.length_range]
    rw [hD]; push_cast; ring
  · simp only [List.length_map]
  · intro k x hx
    simp only at hx ⊢
    rw [List.getElem?_map, Option.map_eq_some_iff] at hx
    obtain ⟨t, ht, hx⟩ := hx
    have htq : (t : Rat) = (m : Rat) * a0 + (m : Rat) * k := by
      unfold grid at ht
      rw [List.getElem?_map, Option.map_eq_some_iff] at ht
      obtain ⟨j, hj, ht⟩ := ht
      have hjk : j = k := by
        rw [List.getElem?_eq_some_iff] at hj
        obtain ⟨_, hj⟩ := hj
        rw [List.getElem_range] at hj
        exact hj.symm
      rw [← ht, hjk]; push_cast; ring
    refine ⟨by rw [List.getElem?_map, ht]; simp [htq], ?_, ?_⟩
    · intro hlt
      rw [← hx, hF, ← htq, output]
      simp only
      congr 1
      rw [early_sets hpc, ← hD, latest_filter]
      · rfl
      · intro o _ ho
        have : o.1 = e := by simpa using ho
        rw [this, htq]; exact hlt
    · intro hge
      have hw : (op.pulses.map (Info.wave other pc (t : Rat))).sum = 0 := by
        apply Long.sum_zero
        intro y hy
        obtain ⟨p, hp, rfl⟩ := List.mem_map.mp hy
        have := he.pulses p hp
        unfold Info.wave
        cases p.what with
        | wave w =>
          simp only
          rw [if_neg]
          rintro ⟨_, _, h⟩
          rw [htq] at h
          linarith
        | offset v => rfl
        | nothing => rfl
      rw [← hx, hF]
      simp only
      rw [hw, add_zero, early_sets hpc, ← hD, ← htq]
      have : (sets op.pulses pc).filter (fun o => decide (o.1 < e)) =
          (sets op.pulses pc).filter (fun o => decide (o.1 ≠ e)) := by
        apply List.filter_congr
        intro o ho
        have hle : o.1 ≤ e := by
          unfold sets at ho
          obtain ⟨p, hp, h⟩ := List.mem_filterMap.mp ho
          obtain ⟨_, b, hb⟩ := hg.pulses p hp
          have h1 := he.pulses p hp
          have h2 : (0 : Rat) ≤ p.dur := by rw [hb]; positivity
          cases hw : p.what with
          | wave w => rw [hw] at h; simp at h
          | nothing => rw [hw] at h; simp at h
          | offset v =>
            rw [hw] at h
            simp only at h
            split at h
            · simp only [Option.some.injEq] at h
              rw [← h]
              simp only
              linarith
            · cases h
        rw [Bool.eq_iff_iff]
        simp only [decide_eq_true_eq]
        exact ⟨fun h => h.ne, fun h => lt_of_le_of_ne hle h⟩
      rw [this]
      rfl

/-! ### Playing the converted pulse -/

/-- A voltage offset with a duration of its own (at least 1 ns): the samples have the offset from its start
up to, and not including, its end. -/
theorem timed_offset_samples (other : Nat → Rat → V) (m a b : Nat) (hm : 0 < m) (hb : 0 < b) (pc : PC) (v : V)
    (s : Rat) :
    ∃ np, convert other ⟨[⟨pc, (m : Rat) * a, (m : Rat) * b, .offset v⟩], [], false⟩ s (1 / m) =
        .ok (.numerical np) ∧ np.samples.length = a + b + 1 ∧
      ∀ k, k < a + b + 1 → np.tSamples[k]? = some ((m : Rat) * (a + k) + s) ∧
        np.samples[k]? = some (if k < b then v else 0) := by
  have hmq : (0 : Rat) < m := by exact_mod_cast hm
  have hm1 : (1 : Rat) ≤ m := by exact_mod_cast hm
  have hb1 : (1 : Rat) ≤ b := by exact_mod_cast hb
  set op : Operation := ⟨[⟨pc, (m : Rat) * a, (m : Rat) * b, .offset v⟩], [], false⟩ with hop
  have hdur : op.duration = (m : Rat) * (a + b : Nat) := by
    have : 0 ≤ (m : Rat) * a + (m : Rat) * b := by positivity
    simp only [hop, Operation.duration, List.map_cons, List.map_nil, List.append_nil, Long.maxDefault]
    simp [Long.maxDefault]
    try ring
  have hz : isZero ((m : Rat) * b) = false := by
    have : (1 : Rat) ≤ m * b := by nlinarith
    simp only [isZero, decide_eq_false_iff_not]
    rintro ⟨_, h⟩
    linarith
  have hr : pyRound ((m : Rat) * a) = (m : Int) * a := round_eq (by push_cast; rfl)
  have hr1 : pyRound ((m : Rat) * a + (m : Rat) * b) = (m : Int) * (a + b : Nat) :=
    round_eq (by push_cast; ring)
  have hw : (StableSort.sortBy Info.t0 op.pulses).foldl (setOffset op.duration (grid m a (a + b + 1)))
      ((grid m a (a + b + 1)).map (fun _ => 0)) =
      (grid m a (a + b + 1)).map (fun t : Int => if (m : Int) * a ≤ t ∧ t < (m : Int) * (a + b : Nat) then v else 0) := by
    rw [StableSort.sortBy_eq_insSort]
    simp only [hop, StableSort.insSort, StableSort.insertBy, List.foldl_cons, List.foldl_nil, setOffset, hz,
      Bool.false_eq_true, if_false, hr, hr1, assign_map, decide_eq_true_eq]
  have hts : timestamps (firstStart op.pulses) op.duration (1 / m) = grid m a (a + b + 1) := by
    rw [hdur]
    exact timestamps_grid hm a (a + b)
  have hhead : ((grid m a (a + b + 1)).map (fun t : Int => (t : Rat) + s)).head? = some ((m : Rat) * a + s) := by
    unfold grid
    rw [List.range_succ_eq_map]
    simp
  have hlast : ((grid m a (a + b + 1)).map (fun t : Int => (t : Rat) + s)).getLast? =
      some ((m : Rat) * (a + (a + b : Nat)) + s) := by
    unfold grid
    rw [List.range_succ, List.map_append, List.map_append, List.map_singleton, List.map_singleton,
      List.getLast?_concat]
    push_cast
    rfl
  refine ⟨⟨pc, (m : Rat) * a, (m : Rat) * (a + (a + b : Nat)) + s - ((m : Rat) * a + s),
      (grid m a (a + b + 1)).map (fun t : Int =>
      if (m : Int) * a ≤ t ∧ t < (m : Int) * (a + b : Nat) then v else 0),
      (grid m a (a + b + 1)).map (fun t : Int => (t : Rat) + s)⟩, ?_, ?_, ?_⟩
  rotate_left 2
  · intro k hk
    simp only [grid, List.map_map, List.getElem?_map, List.getElem?_range hk, Option.map_some,
      Function.comp_apply, Option.some.injEq]
    refine ⟨by push_cast; ring, ?_⟩
    have h1 : ((m : Int) * a ≤ (m : Int) * ((a : Int) + k)) := by
      apply mul_le_mul_of_nonneg_left <;> omega
    have h2 : ((m : Int) * ((a : Int) + k) < (m : Int) * (a + b : Nat)) ↔ k < b := by
      rw [mul_lt_mul_iff_of_pos_left (by omega)]
      omega
    by_cases h : k < b
    · rw [if_pos h, if_pos ⟨h1, h2.mpr h⟩]
    · rw [if_neg h, if_neg (fun hh => h (h2.mp hh.2))]
  · have hfold : op.pulses.foldlM (addPulse other (1 / m) (grid m a (a + b + 1)))
        ((grid m a (a + b + 1)).map (fun t : Int =>
          if (m : Int) * a ≤ t ∧ t < (m : Int) * (a + b : Nat) then v else 0)) =
        .ok ((grid m a (a + b + 1)).map (fun t : Int =>
          if (m : Int) * a ≤ t ∧ t < (m : Int) * (a + b : Nat) then v else 0)) := rfl
    have hc : convert other op s (1 / m) = (match op.pulses.foldlM (addPulse other (1 / m)
        (timestamps (firstStart op.pulses) op.duration (1 / m)))
        ((StableSort.sortBy Info.t0 op.pulses).foldl (setOffset op.duration
          (timestamps (firstStart op.pulses) op.duration (1 / m)))
          ((timestamps (firstStart op.pulses) op.duration (1 / m)).map (fun _ => 0))) with
        | .error e => .error e
        | .ok w =>
          match ((timestamps (firstStart op.pulses) op.duration (1 / m)).map (fun t : Int => (t : Rat) + s)).head?,
              ((timestamps (firstStart op.pulses) op.duration (1 / m)).map (fun t : Int => (t : Rat) + s)).getLast? with
          | some a', some b' => .ok (if op.acqEnds ≠ [] ∨ op.gate = true then
              .replaced ⟨pc, firstStart op.pulses, b' - a', w,
                (timestamps (firstStart op.pulses) op.duration (1 / m)).map (fun t : Int => (t : Rat) + s)⟩ else
              .numerical ⟨pc, firstStart op.pulses, b' - a', w,
                (timestamps (firstStart op.pulses) op.duration (1 / m)).map (fun t : Int => (t : Rat) + s)⟩)
          | _, _ => .error .indexError) := rfl
    rw [hc, hts, hw, hfold]
    simp only [hhead, hlast]
    have hf : firstStart op.pulses = (m : Rat) * a := rfl
    rw [hf, if_neg (by simp [hop])]
  · simp [grid]


theorem tSamples_real {np : Numerical} {m : Nat} (hm : 0 < m) {s : Rat}
    (hlen : np.tSamples.length = np.samples.length)
    (hk : ∀ (k : Nat) (x : V), np.samples[k]? = some x →
        np.tSamples[k]? = some (np.t0 + (m : Rat) * k + s)) :
    np.tSamples = (List.range np.samples.length).map (fun k : Nat => np.t0 + (m : Rat) * k + s) := by
  apply List.ext_getElem?
  intro k
  rcases Nat.lt_or_ge k np.samples.length with h | h
  · rw [hk k _ (List.getElem?_eq_getElem h), List.getElem?_map, List.getElem?_range h]
    rfl
  · rw [List.getElem?_eq_none (by omega), List.getElem?_eq_none (by simpa using h)]

theorem qbloxTimes_eq {dur : Rat} {D : Nat} {fs : ℝ} (hfs : fs ≠ 0)
    (h : Shapes.pyRound ((dur : ℝ) * fs) = (D : ℤ)) :
    Shapes.qbloxTimes none (some (dur : ℝ)) fs = .ok ((List.range D).map fun k : Nat => (k : ℝ) / fs) := by
  unfold Shapes.qbloxTimes
  simp only [if_neg hfs, h, Int.toNat_natCast, reduceCtorEq, if_false]

/-- An operation of a positive duration whose first pulse starts at once, converted with one sample each `m`
nanoseconds: what is played for the converted pulse, with that many samples, is what the operation puts out,
from its start to its end. -/
theorem converted_played_partial (other : Nat → Rat → V) (op : Operation) (m : Nat) (pc : PC) (D : Nat)
    (hD : 0 < D) (hg : OnGrid m op) (hpc : ∀ p ∈ op.pulses, p.pc = pc) (he : Ends op ((m : Rat) * D))
    (h0 : ∃ p ∈ op.pulses, p.t0 = 0) :
    ∃ np, convert other op 0 (1 / m) =
        .ok (if op.acqEnds ≠ [] ∨ op.gate = true then .replaced np else .numerical np) ∧
      np.pc = pc ∧ np.t0 = 0 ∧ np.dur = (m : Rat) * D ∧
      played np (1 / m) = .ok ((List.range D).map (fun k : Nat => toC (output other op.pulses pc ((m : Rat) * k)))) := by
  obtain ⟨p0, hp0, h0⟩ := h0
  obtain ⟨np, h1, h2, ⟨⟨pf, hpf, h3⟩, h3'⟩, h4, h5, h6, h7⟩ :=
    converted_samples_partial other op m pc _ 0 (List.ne_nil_of_mem hp0) hg hpc he
  have hm : (0 : Rat) < m := by exact_mod_cast hg.pos
  have ht0 : np.t0 = 0 := by
    apply le_antisymm (by rw [← h0]; exact h3' p0 hp0)
    rw [h3]
    obtain ⟨⟨a, ha⟩, _⟩ := hg.pulses pf hpf
    rw [ha]; positivity
  have hlen : np.samples.length = D + 1 := by
    have h : (np.samples.length : Rat) * m = ((D + 1 : Nat) : Rat) * m := by rw [h5]; push_cast; ring
    exact_mod_cast mul_right_cancel₀ hm.ne' h
  refine ⟨np, h1, h2, ht0, h4, ?_⟩
  have hts := tSamples_real hg.pos h6 (fun k x hx => (h7 k x hx).1)
  have hmr : (0 : ℝ) < m := by exact_mod_cast hg.pos
  have hround : Shapes.pyRound (((np.dur : Rat) : ℝ) * (1 / m)) = (D : ℤ) := by
    rw [h4]
    have : (((m : Rat) * D : Rat) : ℝ) * (1 / m) = ((D : ℤ) : ℝ) := by
      push_cast; field_simp
    rw [this]
    unfold Shapes.pyRound
    rw [Int.floor_intCast, if_pos (by norm_num)]
  set ts : List ℝ := np.tSamples.map (fun t : Rat => (t : ℝ)) with hts'
  have htsv : ts = (List.range (D + 1)).map (fun k : Nat => (m : ℝ) * k) := by
    rw [hts', hts, hlen, List.map_map]
    apply List.map_congr_left
    intro k _
    simp only [Function.comp_apply, ht0]
    push_cast
    ring
  have hsorted : ts.Pairwise (· < ·) := by
    rw [htsv, List.pairwise_map]
    apply List.Pairwise.imp _ List.pairwise_lt_range
    intro a b hab
    have : (a : ℝ) < b := by exact_mod_cast hab
    exact mul_lt_mul_of_pos_left this hmr
  have htl : ts.length = D + 1 := by rw [htsv]; simp
  obtain ⟨f, _, hf, hint⟩ := Shapes.interpolated_shape (np.samples.map toC) ts hsorted
    (by rw [List.length_map, hlen, htl]) (by omega)
  have hget : ∀ i (hi : i < ts.length), ts[i] = (m : ℝ) * i := by
    intro i hi
    simp only [htsv, List.getElem_map, List.getElem_range]
  unfold played Shapes.generateWaveformData
  rw [qbloxTimes_eq (by positivity) hround]
  simp only [bind, Except.bind, Shapes.execWaveform]
  have hne : ((List.range D).map fun k : Nat => (k : ℝ) / (1 / m)) ≠ [] := by
    intro h
    rw [List.map_eq_nil_iff, List.range_eq_nil] at h
    omega
  rw [hint _ hne, if_neg]
  · congr 1
    rw [List.map_map]
    apply List.map_congr_left
    intro k hk
    rw [List.mem_range] at hk
    simp only [Function.comp_apply]
    have e1 : (k : ℝ) / (1 / m) = ts[k]'(by omega) := by rw [hget]; field_simp
    rw [e1, hf k (by omega), List.getElem_map]
    congr 1
    have hkl : k < np.samples.length := by omega
    have := (h7 k _ (List.getElem?_eq_getElem hkl)).2.1 (by
      rw [ht0, zero_add, mul_lt_mul_iff_of_pos_left hm]
      exact_mod_cast hk)
    rw [this, ht0, zero_add]
  · rw [hget, hget, hget]
    have e1 : ((List.range D).map fun k : Nat => (k : ℝ) / (1 / m)).head hne = 0 := by
      rw [List.head_eq_getElem]; simp
    have e2 : ((List.range D).map fun k : Nat => (k : ℝ) / (1 / m)).getLast hne = (m : ℝ) * (D - 1 : Nat) := by
      rw [List.getLast_eq_getElem]
      simp
      ring
    rw [e1, e2, not_or, not_lt, not_lt, htl]
    constructor
    · push_cast; nlinarith
    · have : ((D - 1 : Nat) : ℝ) ≤ ((D + 1 - 1 : Nat) : ℝ) := by exact_mod_cast (by omega)
      have := mul_le_mul_of_nonneg_left this hmr.le
      push_cast at this ⊢
      linarith

/-- An operation whose first pulse starts more than one sample late, or that is converted for a time
`scheduled_at` later than that: the converted pulse cannot be played, with however many samples. -/
theorem late_start_refused (other : Nat → Rat → V) (op : Operation) (m : Nat) (pc : PC) (e s : Rat)
    (hne : op.pulses ≠ []) (hg : OnGrid m op) (hpc : ∀ p ∈ op.pulses, p.pc = pc) (he : Ends op e)
    (hpos : 0 < e) (hlate : ∀ p ∈ op.pulses, (m : Rat) < p.t0 + s) (fs : ℝ) (hfs : 0 < fs)
    (hn : 1 ≤ (e : ℝ) * fs) :
    ∃ np, convert other op s (1 / m) =
        .ok (if op.acqEnds ≠ [] ∨ op.gate = true then .replaced np else .numerical np) ∧
      played np fs = .error .valueError := by
  obtain ⟨np, h1, h2, ⟨⟨pf, hpf, h3⟩, h3'⟩, h4, h5, h6, h7⟩ :=
    converted_samples_partial other op m pc e s hne hg hpc he
  have hm : (0 : Rat) < m := by exact_mod_cast hg.pos
  have hmr : (0 : ℝ) < m := by exact_mod_cast hg.pos
  refine ⟨np, h1, ?_⟩
  obtain ⟨D, hD⟩ := (duration_eq hg he).2
  have hlen : np.samples.length = D + 1 := by
    have h : (np.samples.length : Rat) * m = ((D + 1 : Nat) : Rat) * m := by rw [h5, hD]; push_cast; ring
    exact_mod_cast mul_right_cancel₀ hm.ne' h
  have hDpos : 0 < D := by
    rcases Nat.eq_zero_or_pos D with h | h
    · rw [hD, h] at hpos; simp at hpos
    · exact h
  have hts := tSamples_real hg.pos h6 (fun k x hx => (h7 k x hx).1)
  set ts : List ℝ := np.tSamples.map (fun t : Rat => (t : ℝ)) with hts'
  have htsv : ts = (List.range (D + 1)).map (fun k : Nat => ((np.t0 + s : Rat) : ℝ) + (m : ℝ) * k) := by
    rw [hts', hts, hlen, List.map_map]
    apply List.map_congr_left
    intro k _
    simp only [Function.comp_apply]
    push_cast
    ring
  have hsorted : ts.Pairwise (· < ·) := by
    rw [htsv, List.pairwise_map]
    apply List.Pairwise.imp _ List.pairwise_lt_range
    intro a b hab
    have : (a : ℝ) < b := by exact_mod_cast hab
    have := mul_lt_mul_of_pos_left this hmr
    linarith
  have htl : ts.length = D + 1 := by rw [htsv]; simp
  obtain ⟨f, _, hf, hint⟩ := Shapes.interpolated_shape (np.samples.map toC) ts hsorted
    (by rw [List.length_map, hlen, htl]) (by omega)
  have hget : ∀ i (hi : i < ts.length), ts[i] = ((np.t0 + s : Rat) : ℝ) + (m : ℝ) * i := by
    intro i hi
    simp only [htsv, List.getElem_map, List.getElem_range]
  have hN : ∃ N : Nat, 0 < N ∧ Shapes.pyRound ((np.dur : ℝ) * fs) = (N : ℤ) := by
    rw [h4]
    have h1 := Shapes.pyRound_near ((e : ℝ) * fs)
    rw [abs_le] at h1
    have h2 : (0 : ℝ) < (Shapes.pyRound ((e : ℝ) * fs) : ℝ) := by linarith [h1.1]
    have h3 : 0 < Shapes.pyRound ((e : ℝ) * fs) := by exact_mod_cast h2
    exact ⟨(Shapes.pyRound ((e : ℝ) * fs)).toNat, by omega, by omega⟩
  obtain ⟨N, hNpos, hround⟩ := hN
  unfold played Shapes.generateWaveformData
  rw [qbloxTimes_eq hfs.ne' hround]
  simp only [bind, Except.bind, Shapes.execWaveform]
  have hne' : ((List.range N).map fun k : Nat => (k : ℝ) / fs) ≠ [] := by
    intro h
    rw [List.map_eq_nil_iff, List.range_eq_nil] at h
    omega
  rw [hint _ hne', if_pos]
  left
  rw [hget, hget]
  have e1 : ((List.range N).map fun k : Nat => (k : ℝ) / fs).head hne' = 0 := by
    rw [List.head_eq_getElem]; simp
  rw [e1]
  have : (m : Rat) < np.t0 + s := by rw [h3]; exact hlate pf hpf
  have : (m : ℝ) < ((np.t0 + s : Rat) : ℝ) := by exact_mod_cast this
  push_cast at this ⊢
  linarith

/-- Operations without pulses are left as they are. -/
theorem no_pulses_same (other : Nat → Rat → V) (op : Operation) (h : op.pulses = []) (s rate : Rat) :
    convert other op s rate = .ok .same := by
  unfold convert
  rw [h]

/-- What a user has built with a builder of stitched pulses that starts at 0, converted and played: at each
nanosecond the offset and the pulses that were asked for. -/
theorem stitched_converted (other : Nat → Rat → V) (steps : List Long.Step) (b : Long.Builder)
    (hs : ∀ s ∈ steps, s.sensible) (hrun : Long.runSteps Long.Builder.empty steps = .ok b)
    (hn : (Long.asked steps).NothingNear) (pc : PC) (D : Nat) (hD : 0 < D)
    (hg : OnGrid 1 ⟨b.build pc 0, [], false⟩) (he : Ends ⟨b.build pc 0, [], false⟩ D)
    (h0 : ∃ p ∈ b.build pc 0, p.t0 = 0) :
    ∃ np, convert other ⟨b.build pc 0, [], false⟩ = .ok (.numerical np) ∧
      np.pc = pc ∧ np.t0 = 0 ∧ np.dur = D ∧
      played np 1 = .ok ((List.range D).map (fun k : Nat => toC
        ((Long.asked steps).offsetAt k + ((Long.asked steps).pulses.map (fun p => Info.wave other p.pc k p)).sum))) := by
  obtain ⟨np, h1, h2, h3, h4, h5⟩ := converted_played_partial other ⟨b.build pc 0, [], false⟩ 1 pc D hD hg
    (Long.build_pc b pc 0) (by simpa using he) h0
  refine ⟨np, ?_, h2, h3, by simpa using h4, ?_⟩
  · simpa using h1
  · have e : (1 : ℝ) / ((1 : Nat) : ℝ) = 1 := by norm_num
    rw [e] at h5
    rw [h5]
    congr 1
    apply List.map_congr_left
    intro k _
    have := (Long.stitched_output other steps b hs hrun hn pc 0 k).1
    simp only [sub_zero] at this
    simp only [Nat.cast_one, one_mul]
    rw [this]

end Verif.Sampled
