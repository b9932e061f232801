/-
C29: stitched pulses put out what the pulses they stand for put out.
-/
import Verif.Long.ReplaceLemmas
import Verif.Long.AskedLemmas
import Verif.Long.StairLemmas

set_option linter.unusedSimpArgs false
set_option linter.unusedVariables false

namespace Verif.Long

open Verif.Numeric (isClose)

/-! ### The builder -/

/-- Whatever a user does with a builder: the stitched pulse puts out the pulses that were asked for,
and at each time the offset that was asked for. -/
theorem stitched_output (other : Nat → Rat → V) (steps : List Step) (b : Builder)
    (hs : ∀ s ∈ steps, s.sensible) (hrun : runSteps Builder.empty steps = .ok b)
    (hn : (asked steps).NothingNear) (pc : PC) (t0 t : Rat) :
    output other (b.build pc t0) pc t =
      (asked steps).offsetAt (t - t0) +
        ((asked steps).pulses.map (fun p => Info.wave other p.pc (t - t0) p)).sum ∧
    (∀ pc', pc' ≠ pc → output other (b.build pc t0) pc' t = 0) ∧
    ((asked steps).stop ≤ t - t0 → output other (b.build pc t0) pc t = 0) := by
  have hrel := runSteps_rel (a := ⟨[], [], 0⟩) rel_empty hs hrun
  change Rel b (asked steps) at hrel
  have h1 := build_output other b hrel.inv (near_of_nothingNear b.opEnd b.offs (0, 0) (by
    rw [hrel.opEnd]
    intro o ho
    obtain ⟨h1, h2⟩ := hn o (hrel.mem.mp ho)
    exact ⟨h1, fun o' ho' => h2 o' (hrel.mem.mp ho')⟩)) hrel.no pc t0 t
  rw [hrel.held_eq, hrel.pulses] at h1
  refine ⟨h1, fun pc' h => build_output_other other b h t0 t, ?_⟩
  intro he
  rw [h1, Asked.offsetAt, if_pos he, zero_add]
  apply sum_zero
  intro x hx
  obtain ⟨p, hp, rfl⟩ := List.mem_map.mp hx
  have := opEnd_ge_pulse b (by rw [hrel.pulses]; exact hp)
  rw [hrel.opEnd] at this
  unfold Info.wave
  cases p.what with
  | wave w =>
    simp only
    rw [if_neg]
    rintro ⟨_, _, h⟩
    linarith
  | offset v => rfl
  | nothing => rfl

/-- Offsets in a builder never overlap. -/
theorem stitched_offsets_apart (steps : List Step) (b : Builder) (hs : ∀ s ∈ steps, s.sensible)
    (hrun : runSteps Builder.empty steps = .ok b) :
    (asked steps).offs.Pairwise (fun x y => x.t0 + x.dur.getD 0 ≤ y.t0 ∨ y.t0 + y.dur.getD 0 ≤ x.t0) := by
  have hrel := runSteps_rel (a := ⟨[], [], 0⟩) rel_empty hs hrun
  change Rel b (asked steps) at hrel
  have h := hrel.inv.order.imp (S := fun x y : Off => x.t0 + x.dur.getD 0 ≤ y.t0 ∨ y.t0 + y.dur.getD 0 ≤ x.t0)
    (fun h => .inl h)
  exact (hrel.perm.pairwise_iff (fun h => h.symm)).mp h

/-- The check of `insertionIndex`. -/
def overlapAt (offs : List Off) (o : Off) (next : Nat) : Bool :=
  if next = 0 then
    match offs.head? with
    | some n => decide (n.t0 < o.stop)
    | none => false
  else if next = offs.length then
    match offs.getLast? with
    | some p => decide (o.t0 < p.stop)
    | none => false
  else
    (match offs[next]? with
      | some n => decide (n.t0 < o.stop)
      | none => false) ||
    (match offs[next - 1]? with
      | some p => decide (o.t0 < p.stop)
      | none => false)

theorem insertionIndex_eq {offs : List Off} (h : offs ≠ []) (o : Off) :
    insertionIndex offs o =
      if overlapAt offs o (offs.takeWhile (fun x => decide (x.t0 ≤ o.t0))).length = true
      then .error .runtimeError
      else .ok (offs.takeWhile (fun x => decide (x.t0 ≤ o.t0))).length := by
  unfold insertionIndex overlapAt
  rw [if_neg h]
  rfl

theorem overlapAt_append {tw dw : List Off} {o : Off} (h : overlapAt (tw ++ dw) o tw.length = true) :
    (∃ x ∈ tw, o.t0 < x.stop) ∨ (∃ x ∈ dw, x.t0 < o.stop) := by
  unfold overlapAt at h
  by_cases h0 : tw.length = 0
  · rw [if_pos h0] at h
    rw [List.length_eq_zero_iff.mp h0, List.nil_append] at h
    cases hh : dw.head? with
    | none => rw [hh] at h; simp at h
    | some n =>
      rw [hh] at h
      simp only [decide_eq_true_eq] at h
      exact .inr ⟨n, List.mem_of_head? hh, h⟩
  · rw [if_neg h0] at h
    by_cases h1 : tw.length = (tw ++ dw).length
    · rw [if_pos h1] at h
      rw [List.length_append] at h1
      have hdn : dw = [] := List.length_eq_zero_iff.mp (by omega)
      rw [hdn, List.append_nil] at h
      cases hh : tw.getLast? with
      | none => rw [hh] at h; simp at h
      | some n =>
        rw [hh] at h
        simp only [decide_eq_true_eq] at h
        exact .inl ⟨n, List.mem_of_getLast? hh, h⟩
    · rw [if_neg h1, Bool.or_eq_true] at h
      rcases h with h | h
      · rw [List.getElem?_append_right (le_refl _), Nat.sub_self] at h
        cases hh : dw[0]? with
        | none => rw [hh] at h; simp at h
        | some n =>
          rw [hh] at h
          simp only [decide_eq_true_eq] at h
          exact .inr ⟨n, List.mem_of_getElem? hh, h⟩
      · rw [List.getElem?_append_left (by omega)] at h
        cases hh : tw[tw.length - 1]? with
        | none => rw [hh] at h; simp at h
        | some n =>
          rw [hh] at h
          simp only [decide_eq_true_eq] at h
          exact .inl ⟨n, List.mem_of_getElem? hh, h⟩

/-- All offsets from the first one that starts later start later. -/
theorem later_starts {offs : List Off} (hi : Inv offs) (a : Rat) :
    ∀ x ∈ offs.dropWhile (fun x => decide (x.t0 ≤ a)), a < x.t0 := by
  intro x hx
  have hsplit := List.takeWhile_append_dropWhile (p := fun x : Off => decide (x.t0 ≤ a)) (l := offs)
  cases hdl : offs.dropWhile (fun x => decide (x.t0 ≤ a)) with
  | nil => rw [hdl] at hx; simp at hx
  | cons n rest =>
    have hn : ¬ n.t0 ≤ a := by
      have := List.head_dropWhile_not (fun x : Off => decide (x.t0 ≤ a)) (l := offs)
        (by rw [hdl]; simp)
      simp only [hdl, List.head_cons, decide_eq_false_iff_not] at this
      exact this
    rw [hdl] at hx
    rcases List.mem_cons.mp hx with rfl | hx
    · exact not_le.mp hn
    · have hord := hi.order
      rw [← hsplit, hdl, List.pairwise_append] at hord
      have h4 := (List.pairwise_cons.mp hord.2.1).1 x hx
      have h5 := hi.dur n (by rw [← hsplit, hdl]; simp)
      linarith

theorem insertionIndex_error {offs : List Off} (hi : Inv offs) {o : Off} (hos : o.t0 ≤ o.stop) :
    insertionIndex offs o = .error .runtimeError ↔
      ∃ x ∈ offs, ¬ (x.stop ≤ o.t0 ∨ (o.stop ≤ x.t0 ∧ o.t0 < x.t0)) := by
  by_cases hne : offs = []
  · subst hne; simp [insertionIndex]
  have hsplit := List.takeWhile_append_dropWhile (p := fun x : Off => decide (x.t0 ≤ o.t0)) (l := offs)
  have hlat := later_starts hi o.t0
  have heq := insertionIndex_eq hne o
  generalize htw : offs.takeWhile (fun x => decide (x.t0 ≤ o.t0)) = tw at hsplit heq
  generalize hdw : offs.dropWhile (fun x => decide (x.t0 ≤ o.t0)) = dw at hsplit hlat
  constructor
  · intro he
    rw [heq] at he
    by_cases hov : overlapAt offs o tw.length = true
    · rw [← hsplit] at hov
      rcases overlapAt_append hov with ⟨x, hx, h⟩ | ⟨x, hx, h⟩
      · refine ⟨x, by rw [← hsplit]; exact List.mem_append_left _ hx, ?_⟩
        rintro (h1 | ⟨_, h1⟩)
        · linarith
        · rw [← htw] at hx
          have := List.mem_takeWhile_imp hx
          simp only [decide_eq_true_eq] at this
          linarith
      · refine ⟨x, by rw [← hsplit]; exact List.mem_append_right _ hx, ?_⟩
        rintro (h1 | ⟨h1, _⟩)
        · have h2 := hi.dur x (by rw [← hsplit]; exact List.mem_append_right _ hx)
          have := hlat x hx
          linarith
        · linarith
    · rw [if_neg hov] at he
      simp at he
  · rintro ⟨x, hx, hno⟩
    by_cases hov : overlapAt offs o tw.length = true
    · rw [heq, if_pos hov]
    · exfalso
      rw [if_neg hov] at heq
      have h1 := (inv_insert hi hos heq).order
      rw [List.pairwise_append] at h1
      obtain ⟨_, h2, h3⟩ := h1
      rw [List.pairwise_cons] at h2
      have e1 : offs.take tw.length = tw := by rw [← hsplit]; simp
      have e2 : offs.drop tw.length = dw := by rw [← hsplit]; simp
      rw [e1] at h3
      rw [e2] at h2
      rw [← hsplit] at hx
      rcases List.mem_append.mp hx with hx | hx
      · exact hno (.inl (h3 x hx o List.mem_cons_self))
      · exact hno (.inr ⟨h2.1 x hx, hlat x hx⟩)

/-- When adding an offset is refused: exactly if it overlaps with another one, or starts together
with one that is already there and lasts longer. -/
theorem stitched_overlap_refused (steps : List Step) (b : Builder)
    (hs : ∀ s ∈ steps, s.sensible) (hrun : runSteps Builder.empty steps = .ok b) (v : V) (dur : Option Rat) (rel minDur : Rat)
    (hd : ∀ d, dur = some d → minDur ≤ d) (hm : 0 ≤ minDur) :
    b.addOffset v dur rel false minDur = .error .runtimeError ↔
      ∃ x ∈ (asked steps).offs, ¬ (x.t0 + x.dur.getD 0 ≤ rel ∨
        (rel + dur.getD 0 ≤ x.t0 ∧ rel < x.t0)) := by
  have hrel := runSteps_rel (a := ⟨[], [], 0⟩) rel_empty hs hrun
  change Rel b (asked steps) at hrel
  have hi := hrel.inv
  have hmem : (∃ x ∈ (asked steps).offs, ¬ (x.t0 + x.dur.getD 0 ≤ rel ∨
        (rel + dur.getD 0 ≤ x.t0 ∧ rel < x.t0))) ↔ ∃ x ∈ b.offs, ¬ (x.t0 + x.dur.getD 0 ≤ rel ∨
        (rel + dur.getD 0 ≤ x.t0 ∧ rel < x.t0)) := by
    constructor
    · rintro ⟨x, hx, h⟩; exact ⟨x, hrel.mem.mpr hx, h⟩
    · rintro ⟨x, hx, h⟩; exact ⟨x, hrel.mem.mp hx, h⟩
  rw [hmem]
  have hcase : ∀ hos : rel ≤ (⟨v, rel, dur⟩ : Off).stop,
      insertionIndex b.offs ⟨v, rel, dur⟩ = .error .runtimeError ↔
      ∃ x ∈ b.offs, ¬ (x.t0 + x.dur.getD 0 ≤ rel ∨ (rel + dur.getD 0 ≤ x.t0 ∧ rel < x.t0)) :=
    fun hos => insertionIndex_error hi hos
  have hos : rel ≤ (⟨v, rel, dur⟩ : Off).stop := by
    simp only [Off.stop]
    cases dur with
    | none => simp
    | some d => have := hd d rfl; simp only [Option.getD_some]; linarith
  rw [← hcase hos]
  unfold Builder.addOffset
  cases dur with
  | none =>
    simp only [Bool.false_eq_true, if_false]
    cases insertionIndex b.offs ⟨v, rel, none⟩ with
    | error e => simp
    | ok i => simp
  | some d =>
    simp only [Bool.false_eq_true, if_false, if_neg (not_lt.mpr (hd d rfl))]
    cases insertionIndex b.offs ⟨v, rel, some d⟩ with
    | error e => simp
    | ok i => simp

/-! ### Factories -/

/-- A long square pulse puts out what a square pulse puts out. -/
theorem long_square_output (other : Nat → Rat → V) (amp : V) (dur : Rat) (pc : PC) (t0 : Rat)
    (hd : 4 ≤ dur) :
    ∃ new, longSquare amp dur pc t0 = .ok new ∧
      (∀ t, output other new pc t = if t0 ≤ t ∧ t < t0 + dur then amp else 0) ∧
      (∀ pc' t, pc' ≠ pc → output other new pc' t = 0) := by
  obtain ⟨new, h1, h2⟩ := longSquare_ok other amp dur pc t0 hd
  refine ⟨new, h1, ?_, ?_⟩
  · intro t
    rw [h2.output]
    simp [Info.wave, Wave.value]
  · intro pc' t h
    rw [h2.output]
    exact wave_other other h t _ rfl

/-- Shorter ones are refused. -/
theorem long_square_too_short (amp : V) (dur : Rat) (pc : PC) (t0 : Rat) (hd : dur < 4) :
    longSquare amp dur pc t0 = .error .valueError := by
  unfold longSquare
  rw [if_pos hd]

/-- A long ramp puts out what a ramp puts out, unless its offset is enormous in comparison to its
amplitude; whatever the length of the parts is. -/
theorem long_ramp_output (other : Nat → Rat → V) (amp : Rat) (dur : Int) (pc : PC) (offset t0 : Rat)
    (part : Nat) (hp : 0 < part) (hp2 : part ≤ 2000) (hd : 0 < dur)
    (ho : offset = 0 ∨ |offset| < 100000000 * |amp|) :
    ∃ new, longRamp amp dur pc offset t0 part = .ok new ∧
      (∀ t, output other new pc t =
        if t0 ≤ t ∧ t < t0 + dur then (amp / dur * (t - t0) + offset, 0) else 0) ∧
      (∀ pc' t, pc' ≠ pc → output other new pc' t = 0) := by
  obtain ⟨new, h1, h2⟩ := longRamp_ok other amp dur pc offset t0 part hp hp2 hd ho
  refine ⟨new, h1, ?_, ?_⟩
  · intro t
    rw [h2.output]
    simp [Info.wave, Wave.value]
  · intro pc' t h
    rw [h2.output]
    exact wave_other other h t _ rfl

/-- Ramps whose duration is not a whole number of nanoseconds are refused. -/
theorem long_ramp_not_on_grid (amp dur : Rat) (pc : PC) (offset t0 : Rat) (part : Nat)
    (h : ∀ n : Int, Numeric.gridTolerance < |dur - n|) :
    longRamp amp dur pc offset t0 part = .error .valueError := by
  have : toGridTime dur 1 = .error .valueError := by
    unfold toGridTime Numeric.toGridTime
    simp only
    have e : dur / 1000000000 * 1000000000 = dur := by field_simp
    rw [e, if_pos]
    exact .inl (not_le.mpr (h _))
  unfold longRamp
  rw [this]

/-- A staircase of `n` steps holds the `k`-th of `n` equally spaced values in the `k`-th of `n`
equal parts of its duration, and 0 outside. -/
theorem staircase_output (other : Nat → Rat → V) (start stop : Rat) (n : Nat) (hn : 0 < n)
    (step : Int) (pc : PC) (t0 : Rat) (minTime : Int) (hm : 0 < minTime) (hg : step % minTime = 0)
    (hs : 2 * minTime ≤ step) :
    ∃ new, staircase start stop n (n * step) pc t0 minTime = .ok new ∧
      (∀ (k : Nat), k < n → ∀ t, t0 + k * step ≤ t → t < t0 + (k + 1) * step →
        output other new pc t =
          (if n = 1 then start else start + k * ((stop - start) / (n - 1)), 0)) ∧
      (∀ t, t < t0 ∨ t0 + n * step ≤ t → output other new pc t = 0) ∧
      (∀ pc' t, pc' ≠ pc → output other new pc' t = 0) := by
  obtain ⟨new, h1, h2, h3, h4⟩ := staircase_ok other start stop n hn step pc t0 minTime hm hg hs
  refine ⟨new, h1, ?_, h3, h4⟩
  intro k hk t ht1 ht2
  exact h2 k _ (by simp [linspace, hk]) t ht1 ht2

/-- Steps that are not a multiple of the grid time are refused. -/
theorem staircase_not_on_grid (start stop : Rat) (n : Nat) (hn : 0 < n) (dur : Rat) (pc : PC)
    (t0 : Rat) (minTime : Int)
    (h : ∀ m : Int, m % minTime = 0 → Numeric.gridTolerance < |dur / n - m|) :
    staircase start stop n dur pc t0 minTime = .error .valueError := by
  have : toGridTime (dur / n) minTime = .error .valueError := by
    unfold toGridTime Numeric.toGridTime
    simp only
    have e : dur / n / 1000000000 * 1000000000 = dur / n := by field_simp
    rw [e, if_pos]
    by_cases hm : Numeric.pyRound (dur / n) % minTime = 0
    · exact .inl (not_le.mpr (h _ hm))
    · exact .inr hm
  unfold staircase
  rw [if_neg (by omega), this]

/-! ### Replacement -/

/-- Replacing the long pulses of an operation does not change its output, if its long pulses do not
overlap with each other or with voltage offsets; everything else is kept; and no square pulse of
100 ns or more and no ramp of more than 2 us is left. -/
theorem replace_keeps_output (infos : List Info) (hf : ∀ p ∈ infos, p.long → p.fine)
    (hs : Separate infos) :
    ∃ out, replaceOp infos = .ok out ∧
      (∀ other pc t, output other out pc t = output other infos pc t) ∧
      (∃ news, out = infos.filter (fun p => ¬ p.long) ++ news) ∧
      (∀ p ∈ out, (∀ amp, p.what = .wave (.square amp) → p.dur < 100) ∧
        (∀ amp offset, p.what = .wave (.ramp amp offset) → p.dur ≤ 2000)) := by
  have hf' : ∀ p ∈ infos.reverse, p.long → p.fine := fun p hp => hf p (List.mem_reverse.mp hp)
  have hr := ready_of_separate hs
  obtain ⟨out, ho, _, news, hn, hshort⟩ := replaceLoop_ok (fun _ _ => 0) infos.reverse [] hf' hr
  refine ⟨out, ho, ?_, ⟨news, ?_⟩, ?_⟩
  · intro other pc t
    obtain ⟨out', ho', h, _⟩ := replaceLoop_ok other infos.reverse [] hf' hr
    rw [ho] at ho'
    rw [Except.ok.inj ho', h pc t]
    simp
  · rw [hn]; simp
  · intro p hp
    rw [hn] at hp
    rcases List.mem_append.mp hp with hp | hp
    · rw [List.append_nil, List.reverse_reverse, List.mem_filter] at hp
      have hnl : ¬ p.long := by simpa using hp.2
      refine ⟨?_, ?_⟩
      · intro amp hw
        by_contra h
        exact hnl (.inl ⟨amp, hw, not_lt.mp h⟩)
      · intro amp offset hw
        by_contra h
        exact hnl (.inr ⟨amp, offset, hw, le_of_lt (not_le.mp h)⟩)
    · refine ⟨?_, (hshort p hp).2⟩
      intro amp hw
      rw [(hshort p hp).1 amp hw]; norm_num

/-- Replacing is refused exactly if there is a ramp of at least 2 us whose duration is not a whole
number of nanoseconds. -/
theorem replace_refused (infos : List Info) :
    (∃ e, replaceOp infos = .error e) ↔
      ∃ p ∈ infos, ∃ amp offset, p.what = .wave (.ramp amp offset) ∧ 2000 ≤ p.dur ∧
        ∀ n : Int, Numeric.gridTolerance < |p.dur - n| := by
  constructor
  · rintro ⟨e, he⟩
    obtain ⟨p, hp, hr⟩ := replaceLoop_error _ _ _ he
    refine ⟨p, List.mem_reverse.mp hp, ?_⟩
    unfold replacement at hr
    cases hw : p.what with
    | wave w =>
      rw [hw] at hr
      cases w with
      | square amp =>
        simp only at hr
        split at hr
        · simp only [Option.some.injEq] at hr
          exact absurd hr (longSquare_noError (by linarith))
        · cases hr
      | ramp amp offset =>
        simp only at hr
        split at hr
        · rename_i hd
          refine ⟨amp, offset, rfl, hd, ?_⟩
          simp only [Option.some.injEq] at hr
          intro n
          by_contra hcon
          push_neg at hcon
          -- then the time is on the grid
          have hnp : Numeric.pyRound p.dur = n := by
            apply Numeric.pyRound_unique
            have : Numeric.gridTolerance < 1 / 2 := by unfold Numeric.gridTolerance; norm_num
            linarith
          have htg : toGridTime p.dur 1 = .ok n := by
            unfold toGridTime Numeric.toGridTime
            simp only
            have e : p.dur / 1000000000 * 1000000000 = p.dur := by field_simp
            rw [e, hnp, if_neg]
            rintro (h | h)
            · exact h hcon
            · exact h (Int.emod_one n)
          have hn0 : n ≠ 0 := by
            intro h0
            rw [h0] at hcon
            have hg : Numeric.gridTolerance < 1 := by unfold Numeric.gridTolerance; norm_num
            simp only [Int.cast_zero, sub_zero] at hcon
            have := le_abs_self p.dur
            linarith
          unfold longRamp at hr
          rw [htg] at hr
          simp only at hr
          rw [if_neg (by norm_num), if_neg hn0] at hr
          obtain ⟨b1, f1, g1, hb1, h1⟩ := rampLoop_ok (other := fun _ _ => 0) (pc := p.pc)
            (ampPart := ((2000 : Nat) : Rat) / n * amp) (offset := offset) (part := ((2000 : Nat) : Rat)) (by norm_num)
            ((n - 1) / ((2000 : Nat) : Int)).toNat 0 _ _ _ (rampInv_empty _ _ _ _ _)
          have e0 : offset + ((0 : Nat) : Rat) * (((2000 : Nat) : Rat) / n * amp) = offset := by simp
          rw [e0] at hb1
          rw [hb1] at hr
          simp only at hr
          obtain ⟨b2, hb2, _⟩ := state_offset h1.state (0, 0) 0 4 (le_refl _)
          split at hr
          · rename_i hh
            split at hh
            · rw [hb2] at hh; cases hh
            · cases hh
          · cases hr
        · cases hr
      | other n => simp at hr
    | offset v => rw [hw] at hr; simp at hr
    | nothing => rw [hw] at hr; simp at hr
  · rintro ⟨p, hp, amp, offset, hw, hd, hn⟩
    apply replaceLoop_error_of infos.reverse [] p .valueError (List.mem_reverse.mpr hp)
    simp only [replacement, hw, if_pos hd]
    rw [long_ramp_not_on_grid amp p.dur p.pc offset p.t0 2000 hn]

mutual
/-- Replacement in a whole schedule: the structure is kept, and each operation in it (also in
subschedules and control flow) is replaced as above. -/
theorem replaceRec_leaves : ∀ op : Op, (∀ l ∈ leaves op, (∀ p ∈ l, p.long → p.fine) ∧ Separate l) →
    ∃ op', replaceRec op = .ok op' ∧
      List.Forall₂ (fun a b => replaceOp a = .ok b) (leaves op) (leaves op')
  | .plain infos, h => by
    have := h infos (by simp [leaves])
    obtain ⟨out, ho, _⟩ := replace_keeps_output infos this.1 this.2
    refine ⟨.plain out, ?_, ?_⟩
    · rw [replaceRec, ho]
    · simp [leaves, ho]
  | .control body, h => by
    obtain ⟨b', hb, hf⟩ := replaceRec_leaves body (by simpa [leaves] using h)
    refine ⟨.control b', ?_, ?_⟩
    · rw [replaceRec, hb]
    · simpa [leaves] using hf
  | .sched ops, h => by
    obtain ⟨b', hb, hf⟩ := replaceRecOps_leaves ops (by simpa [leaves] using h)
    refine ⟨.sched b', ?_, ?_⟩
    · rw [replaceRec, hb]
    · simpa [leaves] using hf
theorem replaceRecOps_leaves : ∀ ops : Ops,
    (∀ l ∈ opsLeaves ops, (∀ p ∈ l, p.long → p.fine) ∧ Separate l) →
    ∃ ops', replaceRecOps ops = .ok ops' ∧
      List.Forall₂ (fun a b => replaceOp a = .ok b) (opsLeaves ops) (opsLeaves ops')
  | .nil, _ => ⟨.nil, rfl, by simp [opsLeaves]⟩
  | .cons key op rest, h => by
    obtain ⟨o', ho, hf1⟩ := replaceRec_leaves op (fun l hl => h l (by simp [opsLeaves, hl]))
    obtain ⟨r', hr, hf2⟩ := replaceRecOps_leaves rest (fun l hl => h l (by simp [opsLeaves, hl]))
    refine ⟨.cons key o' r', ?_, ?_⟩
    · rw [replaceRecOps, ho]
      simp only
      rw [hr]
    · simp only [opsLeaves]
      exact List.rel_append hf1 hf2
end

/-- The outputs of all operations of a schedule are kept. -/
theorem schedule_keeps_output (op : Op)
    (h : ∀ l ∈ leaves op, (∀ p ∈ l, p.long → p.fine) ∧ Separate l) :
    ∃ op', replaceRec op = .ok op' ∧
      List.Forall₂ (fun a b =>
        (∀ other pc t, output other b pc t = output other a pc t) ∧
        (∀ p ∈ b, (∀ amp, p.what = .wave (.square amp) → p.dur < 100) ∧
          (∀ amp offset, p.what = .wave (.ramp amp offset) → p.dur ≤ 2000)))
        (leaves op) (leaves op') := by
  obtain ⟨op', h1, h2⟩ := replaceRec_leaves op h
  refine ⟨op', h1, ?_⟩
  generalize leaves op' = l' at h2
  generalize leaves op = l at h h2
  induction h2 with
  | nil => exact .nil
  | cons hab _ ih =>
    refine .cons ?_ (ih (fun x hx => h x (List.mem_cons_of_mem _ hx)))
    obtain ⟨hf, hs⟩ := h _ List.mem_cons_self
    obtain ⟨out, ho, h3, _, h4⟩ := replace_keeps_output _ hf hs
    rw [hab] at ho
    rw [Except.ok.inj ho]
    exact ⟨h3, h4⟩

/-! ### Cases -/

/-- A long square pulse, a long ramp with an offset and a short pulse meet the conditions. -/
def exampleOp : List Info :=
  [⟨("q0:mw", "q0.01"), 0, 200, .wave (.square (1 / 2, 1 / 4))⟩,
   ⟨("q0:fl", "cl0.baseband"), 0, 5000, .wave (.ramp (1 / 2) (-1 / 4))⟩,
   ⟨("q0:mw", "q0.01"), 200, 20, .wave (.other 0)⟩,
   ⟨("q0:mw", "q0.01"), 220, 100, .wave (.square (1, 0))⟩]

example : (∀ p ∈ exampleOp, p.long → p.fine) ∧ Separate exampleOp := by
  refine ⟨?_, ?_, ?_⟩
  · intro p hp _ amp offset hw
    simp only [exampleOp, List.mem_cons, List.not_mem_nil, or_false] at hp
    rcases hp with rfl | rfl | rfl | rfl <;> simp at hw
    obtain ⟨rfl, rfl⟩ := hw
    exact ⟨⟨5000, by norm_num⟩, .inr (by norm_num [abs_of_pos, abs_of_neg])⟩
  · simp [exampleOp]
    norm_num
  · intro p hp _
    have h : ∀ pc, sets exampleOp pc = [] := by intro pc; simp [sets, exampleOp]
    rw [h]
    simp [valueAt, latest]

example : (replaceOp exampleOp).map (fun l => l.length) = .ok (1 + 3 + 6 + 3) := by decide +kernel

/-- A user of a builder. -/
def exampleSteps : List Step :=
  [.offset (1 / 2, 0) none 0 true 4, .pulse [⟨("a", "b"), 0, 20, .wave (.other 0)⟩] true,
   .offset (1 / 4, 0) (some 8) 4 false 4, .offset (1 / 8, 1) (some 8) 0 true 4]

example : (∀ s ∈ exampleSteps, s.sensible) ∧ (asked exampleSteps).NothingNear ∧
    (runSteps Builder.empty exampleSteps).map (fun b => b.offsets) =
      .ok [(0, (1 / 2, 0)), (4, (1 / 4, 0)), (12, (1 / 2, 0)), (20, (1 / 8, 1)), (28, (0, 0))] := by
  refine ⟨?_, ?_, by decide +kernel⟩
  · intro s hs
    simp only [exampleSteps, List.mem_cons, List.not_mem_nil, or_false] at hs
    rcases hs with rfl | rfl | rfl | rfl <;> simp [Step.sensible]
  · have h : (asked exampleSteps).offs =
        [⟨(1 / 2, 0), 0, none⟩, ⟨(1 / 4, 0), 4, some 8⟩, ⟨(1 / 8, 1), 20, some 8⟩] := by decide +kernel
    have h' : (asked exampleSteps).stop = 28 := by decide +kernel
    unfold Asked.NothingNear
    rw [h, h']
    decide +kernel

/-! ### Where it goes wrong -/

/-- A long ramp without amplitude and with an offset: its last part has twice the offset. -/
theorem flat_ramp_wrong :
    (longRamp 0 3000 ("p", "c") (1 / 2) 0 2000).map
      (fun l => (output (fun _ _ => 0) l ("p", "c") 1000, output (fun _ _ => 0) l ("p", "c") 2500)) =
      .ok ((1 / 2, 0), (1, 0)) := by decide +kernel

/-- A voltage offset held during a long square pulse is lost. -/
theorem offset_during_square_lost :
    let infos : List Info := [⟨("p", "c"), 0, 0, .offset (1 / 4, 0)⟩,
      ⟨("p", "c"), 0, 200, .wave (.square (1 / 2, 0))⟩]
    output (fun _ _ => 0) infos ("p", "c") 100 = (3 / 4, 0) ∧
    (replaceOp infos).map (fun l => (output (fun _ _ => 0) l ("p", "c") 100,
      output (fun _ _ => 0) l ("p", "c") 300)) = .ok ((1 / 2, 0), (0, 0)) := by decide +kernel

/-- Of two overlapping long square pulses one is lost. -/
theorem overlapping_squares_wrong :
    let infos : List Info := [⟨("p", "c"), 0, 200, .wave (.square (1 / 4, 0))⟩,
      ⟨("p", "c"), 100, 200, .wave (.square (1 / 2, 0))⟩]
    output (fun _ _ => 0) infos ("p", "c") 150 = (3 / 4, 0) ∧
    (replaceOp infos).map (fun l => output (fun _ _ => 0) l ("p", "c") 150) = .ok (1 / 2, 0) := by
  decide +kernel

/-- Offsets of which one has no duration: whether they can start at the same time depends on the
order in which they are added. -/
theorem order_of_offsets_matters :
    (runSteps Builder.empty [.offset (1, 0) (some 8) 0 true 4, .offset (1 / 2, 0) none 0 false 4]).map
      (fun b => b.offs.length) = .error .runtimeError ∧
    (runSteps Builder.empty [.offset (1 / 2, 0) none 0 false 4, .offset (1, 0) (some 8) 0 false 4]).map
      (fun b => b.offs.length) = .ok 2 := by decide +kernel

end Verif.Long
