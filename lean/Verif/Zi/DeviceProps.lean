/-
Devices of Zurich Instruments play what they should.
-/
import Verif.Zi.DeviceSpec
import Verif.Zi.SeqcProps
import Verif.Zi.TimeProps

set_option linter.unusedVariables false
set_option linter.unusedSimpArgs false

namespace Verif.Zi

open Spec
open Verif.Numeric (pyRound)

variable {ω α σ : Type} [DecidableEq ω]

/-! ### Waveforms -/

theorem waveOf_eq {shape : Row ω → Option (List α)} {rows : List (Row ω × Option (Int × Rat))}
    (hc : Consistent shape (rows.map Prod.fst)) (hn : ∀ e ∈ rows, e.1.chan = none ↔ e.2 = none)
    {e : Row ω × Option (Int × Rat)} (he : e ∈ rows) (hch : e.1.chan.isSome) :
    waveOf shape rows (waveId e) = shape e.1 := by
  unfold waveOf
  cases hf : rows.find? fun e' => decide (waveId e' = waveId e) with
  | none =>
    have := List.find?_eq_none.mp hf e he
    simp at this
  | some e' =>
    have h1 : waveId e' = waveId e := by simpa using List.find?_some hf
    have h2 : e' ∈ rows := List.mem_of_find?_eq_some hf
    have hs : e.2 ≠ none := fun h => by
      rw [(hn e he).mpr h] at hch
      simp at hch
    have hs' : e'.2 ≠ none := by
      intro h
      have h3 := congrArg Prod.snd h1
      simp only [waveId, h, Option.map_none] at h3
      cases h4 : e.2 with
      | none => exact hs h4
      | some p => rw [h4] at h3; simp at h3
    have hch' : e'.1.chan.isSome := by
      rw [Option.isSome_iff_ne_none]
      exact fun h => hs' ((hn e' h2).mp h)
    simp only [hch', if_true]
    exact hc _ (List.mem_map_of_mem h2) _ (List.mem_map_of_mem he) (congrArg Prod.fst h1) hch' hch

theorem rowsOf_mem {device : String} {awg : Nat} {rows : List (Row ω × Option (Int × Rat))}
    {e : Row ω × Option (Int × Rat)} : e ∈ rowsOf device awg rows ↔
      e ∈ rows ∧ ∃ c, e.1.chan = some c ∧ c.device = device ∧ c.awg = awg := by
  unfold rowsOf
  rw [List.mem_filter]
  simp only [decide_eq_true_eq, Option.map_eq_some_iff, Prod.mk.injEq]

theorem addStarts_chan {rows : List (Row ω)} {l : List (Row ω × Option (Int × Rat))} (h : addStarts rows = .ok l) :
    ∀ e ∈ l, e.1.chan = none ↔ e.2 = none := by
  obtain ⟨h1, h2⟩ := addStarts_ok h
  intro e he
  obtain ⟨k, hk⟩ := List.getElem?_of_mem he
  have h3 := h2 k e.1 e.2 hk
  unfold startOf at h3
  cases hc : e.1.chan with
  | none =>
    rw [hc] at h3
    simp only [Except.ok.injEq] at h3
    simp [h3.symm]
  | some c =>
    rw [hc] at h3
    simp only at h3
    cases hk : c.kind with
    | none => rw [hk] at h3; simp at h3
    | some d =>
      rw [hk] at h3
      simp only at h3
      cases hs : clockSample d e.1.time with
      | error x => rw [hs] at h3; simp at h3
      | ok p =>
        rw [hs] at h3
        simp only [Except.ok.injEq] at h3
        simp [h3.symm]

theorem times_chan {rows : List (Row ω)} {out : List (Row ω × Option (Int × Rat))} (h : times rows = .ok out) :
    ∀ e ∈ out, e.1.chan = none ↔ e.2 = none := by
  unfold times at h
  cases ha : addStarts rows with
  | error e => simp [ha] at h
  | ok l =>
    simp only [ha] at h
    unfold fixpoint at h
    cases hf : fixLoop ⟨fun _ => 0, 0, 0⟩ l with
    | error e => simp [hf] at h
    | ok st =>
      simp only [hf] at h
      exact addStarts_chan h

theorem times_length {rows : List (Row ω)} {out : List (Row ω × Option (Int × Rat))} (h : times rows = .ok out) :
    out.length = rows.length := by
  have hlen : ∀ (corr : Nat → Rat) (l : List (Row ω)) (k : Nat), (shiftFrom corr k l).length = l.length := by
    intro corr l
    induction l with
    | nil => intro k; rfl
    | cons r rest ih => intro k; simp [shiftFrom, ih]
  unfold times at h
  cases ha : addStarts rows with
  | error e => simp [ha] at h
  | ok l =>
    simp only [ha] at h
    unfold fixpoint at h
    cases hf : fixLoop ⟨fun _ => 0, 0, 0⟩ l with
    | error e => simp [hf] at h
    | ok st =>
      simp only [hf] at h
      have h1 := congrArg List.length (addStarts_ok h).1
      have h2 := congrArg List.length (addStarts_ok ha).1
      rw [List.length_map, hlen, List.length_map] at h1
      rw [List.length_map] at h2
      rw [h1, h2]

theorem map_meant {shape : Row ω → Option (List α)} {rows : List (Row ω × Option (Int × Rat))}
    (hc : Consistent shape (rows.map Prod.fst)) (hn : ∀ e ∈ rows, e.1.chan = none ↔ e.2 = none)
    (device : String) (awg : Nat) :
    ((rowsOf device awg rows).map instruction).map (meant (waveOf shape rows)) =
      (rowsOf device awg rows).map fun e => ((e.2.map Prod.fst).getD 0, wanted shape e.1) := by
  rw [List.map_map]
  apply List.map_congr_left
  intro e he
  obtain ⟨h1, c, h2, -⟩ := rowsOf_mem.mp he
  have h3 := waveOf_eq hc hn h1 (by rw [h2]; rfl)
  simp only [Function.comp_apply, meant, instruction, h3, wanted]

/-! ### Outputs -/

theorem hdawgOutputs_ok {shape : Row ω → Option (List α)} {reps : Nat} {rows : List (Row ω × Option (Int × Rat))}
    {d : Hdawg σ} : ∀ (as : List Nat) (i : Nat) (l : List (Nat × σ × Prog α)),
    hdawgOutputs shape reps rows d i as = .ok l → l.map Prod.fst = as ∧
      ∀ (k : Nat) (x : Nat × σ × Prog α), l[k]? = some x → ∃ o o', d.channels[i + k]? = some o ∧
        d.channels[x.1]? = some o' ∧ x.2.1 = o.settings ∧
        hdawgProg (waveOf shape rows) reps (scheduleEnd (rows.map Prod.fst)) o'.markers o'.trigger
          ((rowsOf d.name x.1 rows).map instruction) = .ok x.2.2
  | [], i, l, h => by
    simp only [hdawgOutputs, Except.ok.injEq] at h
    subst h
    simp
  | a :: rest, i, l, h => by
    unfold hdawgOutputs at h
    cases h1 : d.channels[i]? with
    | none => simp [h1] at h
    | some o =>
      cases h2 : d.channels[a]? with
      | none => simp [h1, h2] at h
      | some o' =>
        simp only [h1, h2] at h
        cases h3 : hdawgProg (waveOf shape rows) reps (scheduleEnd (rows.map Prod.fst)) o'.markers o'.trigger
          ((rowsOf d.name a rows).map instruction) with
        | error e => simp [h3] at h
        | ok p =>
          simp only [h3] at h
          cases h4 : hdawgOutputs shape reps rows d (i + 1) rest with
          | error e => simp [h4] at h
          | ok l' =>
            simp only [h4, Except.ok.injEq] at h
            subst h
            obtain ⟨h5, h6⟩ := hdawgOutputs_ok rest (i + 1) l' h4
            refine ⟨by rw [List.map_cons, h5], ?_⟩
            intro k x hx
            cases k with
            | zero =>
              simp only [List.getElem?_cons_zero, Option.some.injEq] at hx
              subst hx
              exact ⟨o, o', h1, h2, rfl, h3⟩
            | succ k =>
              simp only [List.getElem?_cons_succ] at hx
              have := h6 k x hx
              rw [show i + (k + 1) = i + 1 + k by omega]
              exact this

theorem channels_noGaps {d : Hdawg σ} (h : NoGaps d) (a : Nat) : d.channels[a]? = channel d a := by
  have h1 := h 1
  have h2 := h 2
  have h3 := h 3
  have e : d.channels = [d.channel0] ++ d.channel1.toList ++ d.channel2.toList ++ d.channel3.toList := rfl
  rw [e]
  cases c1 : d.channel1 with
  | none =>
    have e2 : d.channel2 = none := by
      by_contra hne
      have := (h2 (by simpa [channel, Option.isSome_iff_ne_none] using hne)).2 1 (by omega)
      simp [channel, c1] at this
    have e3 : d.channel3 = none := by
      by_contra hne
      have := (h3 (by simpa [channel, Option.isSome_iff_ne_none] using hne)).2 1 (by omega)
      simp [channel, c1] at this
    rw [e2, e3]
    match a with
    | 0 => rfl
    | 1 => simp [channel, c1]
    | 2 => simp [channel, e2]
    | 3 => simp [channel, e3]
    | n + 4 => simp [channel]
  | some o1 =>
    cases c2 : d.channel2 with
    | none =>
      have e3 : d.channel3 = none := by
        by_contra hne
        have := (h3 (by simpa [channel, Option.isSome_iff_ne_none] using hne)).2 2 (by omega)
        simp [channel, c2] at this
      rw [e3]
      match a with
      | 0 => rfl
      | 1 => simp [channel, c1]
      | 2 => simp [channel, c2]
      | 3 => simp [channel, e3]
      | n + 4 => simp [channel]
    | some o2 =>
      match a with
      | 0 => rfl
      | 1 => simp [channel, c1]
      | 2 => simp [channel, c2]
      | 3 => cases c3 : d.channel3 <;> simp [channel, c3]
      | n + 4 => cases c3 : d.channel3 <;> simp [channel, c3]

/-- **C65, all outputs.** If outputs are not grouped and used without gaps, then each of them gets its own settings and
a program, and no other sequencer gets one; a program plays, in every repetition, every pulse of its output and nothing
else: at the clock cycle when the pulse starts, and with the samples of the pulse.  It starts with the markers of the
output, or waits for its trigger. -/
theorem hdawg_outputs_partial {shape : Row ω → Option (List α)} {reps : Nat} {rows : List (Row ω)}
    {out : List (Row ω × Option (Int × Rat))} {d : Hdawg σ} {l : List (Nat × σ × Prog α)} (hd : NoGaps d)
    (hg : d.grouping = 0) (ht : times rows = .ok out) (hc : Consistent shape (out.map Prod.fst))
    (h : compileHdawg shape reps out d = .ok l) :
    (l.map Prod.fst).Nodup ∧ (∀ a, a ∈ l.map Prod.fst ↔ (channel d a).isSome) ∧
      ∀ a s p, (a, s, p) ∈ l → ∃ o, channel d a = some o ∧ s = o.settings ∧ p.reps = reps ∧
        (∃ rest, p.body = (if o.markers ≠ [] then .setTrigger o.markers else
          match o.trigger with
          | some t => .waitTrigger t
          | none => .setTrigger ["AWG_MARKER1", "AWG_MARKER2"]) :: rest) ∧
        run .hdawg p 0 p.body = (out.filter fun e => decide (e.1.chan.map (fun c => (c.device, c.awg)) =
          some (d.name, a))).map fun e => ((e.2.map Prod.fst).getD 0, wanted shape e.1) := by
  unfold compileHdawg at h
  cases hs : d.step with
  | error e => simp [hs] at h
  | ok step =>
    have hst : step = 1 := by
      unfold Hdawg.step at hs
      rw [hg] at hs
      split at hs <;> simp_all
    subst hst
    simp only [hs] at h
    obtain ⟨h1, h2⟩ := hdawgOutputs_ok _ _ _ h
    have hseq : d.sequencers 1 = List.range (min d.channels.length d.awgs) := by
      unfold Hdawg.sequencers
      rw [Nat.div_one]
      apply List.filter_eq_self.mpr
      intro a _
      simp [Nat.mod_one]
    rw [hseq] at h1
    refine ⟨by rw [h1]; exact List.nodup_range, ?_, ?_⟩
    · intro a
      rw [h1, List.mem_range, ← channels_noGaps hd]
      constructor
      · intro ha
        rw [List.getElem?_eq_getElem (by omega)]
        rfl
      · intro ha
        have h3 : a < d.channels.length := by
          by_contra hn
          rw [List.getElem?_eq_none (by omega)] at ha
          simp at ha
        have h4 := (hd a (by rw [← channels_noGaps hd]; exact ha)).1
        omega
    · intro a s p hm
      obtain ⟨k, hk⟩ := List.getElem?_of_mem hm
      obtain ⟨o, o', h3, h4, h5, h6⟩ := h2 k _ hk
      have hka : a = k := by
        have : (l.map Prod.fst)[k]? = some a := by rw [List.getElem?_map, hk]; rfl
        rw [h1] at this
        obtain ⟨hlt, he⟩ := List.getElem?_eq_some_iff.mp this
        simpa using he.symm
      simp only at h4 h5 h6
      rw [Nat.zero_add, ← hka, h4] at h3
      cases h3
      obtain ⟨h7, h8, -, -⟩ := hdawg_plays h6
      refine ⟨o, by rw [← channels_noGaps hd]; exact h4, h5, h7, ?_, ?_⟩
      · obtain ⟨-, first, cmds, last, h9, -, -, rfl⟩ := hdawg_parts.mp h6
        obtain ⟨h10, -⟩ := hdawgStart_iff.mp h9
        refine ⟨cmds ++ last, ?_⟩
        show first :: (cmds ++ last) = _
        rcases h10 with ⟨hmk, rfl⟩ | ⟨hmk, ht', rfl⟩ | ⟨hmk, t, ht', -, rfl⟩
        · rw [if_pos hmk]
        · rw [hmk, ht']; simp
        · rw [hmk, ht']; simp
      · rw [h8, map_meant hc (times_chan ht)]
        rfl

/-- **C65, grouped outputs.** Whatever the grouping and the gaps, exactly the sequencers below the number of outputs and
the number of groups whose index is a multiple of the size of a group get a program. -/
theorem hdawg_sequencers {shape : Row ω → Option (List α)} {reps : Nat} {out : List (Row ω × Option (Int × Rat))}
    {d : Hdawg σ} {l : List (Nat × σ × Prog α)} (h : compileHdawg shape reps out d = .ok l) :
    ∃ step, d.step = .ok step ∧ ∀ a, a ∈ l.map Prod.fst ↔
      a < ([0, 1, 2, 3].filter fun b => (channel d b).isSome).length ∧ a < d.awgs / step ∧ step ∣ a := by
  unfold compileHdawg at h
  cases hs : d.step with
  | error e => simp [hs] at h
  | ok step =>
    simp only [hs] at h
    refine ⟨step, rfl, ?_⟩
    intro a
    rw [(hdawgOutputs_ok _ _ _ h).1]
    have hl : ([0, 1, 2, 3].filter fun b => (channel d b).isSome).length = d.channels.length := by
      have e : d.channels = [d.channel0] ++ d.channel1.toList ++ d.channel2.toList ++ d.channel3.toList := rfl
      rw [e]
      cases h1 : d.channel1 <;> cases h2 : d.channel2 <;> cases h3 : d.channel3 <;>
        simp [channel, h1, h2, h3]
    rw [hl]
    unfold Hdawg.sequencers
    rw [List.mem_filter, List.mem_range]
    simp only [decide_eq_true_eq, Nat.lt_min]
    rw [Nat.dvd_iff_mod_eq_zero]
    tauto

/-- **C65, UHFQA.** The program of a UHFQA waits for its trigger in every repetition, and then starts every pulse and
acquisition of its output, and nothing else, at its clock cycle, pulses with their own samples. -/
theorem uhfqa_output {shape : Row ω → Option (List α)} {reps : Nat} {rows : List (Row ω)}
    {out : List (Row ω × Option (Int × Rat))} {name : String} {trigger : Option Nat} {p : Prog α}
    (ht : times rows = .ok out) (hc : Consistent shape (out.map Prod.fst))
    (h : compileUhfqa shape reps out name trigger = .ok p) :
    p.reps = reps ∧ (∃ t rest, trigger = some t ∧ p.body = .waitTrigger t :: rest) ∧
      run .uhfqa p 0 p.body = (out.filter fun e => decide (e.1.chan.map (fun c => (c.device, c.awg)) =
          some (name, 0))).map fun e => ((e.2.map Prod.fst).getD 0, wanted shape e.1) := by
  obtain ⟨h1, h2, -, h3⟩ := uhfqa_plays h
  refine ⟨h1, h3, ?_⟩
  rw [h2, map_meant hc (times_chan ht)]
  rfl

/-! ### When it starts -/

/-- **C65, in time.** If all operations start at a sample, then an operation of the table starts, in its program, less
than a clock cycle before the time of the schedule with the shift of C63; exactly then, if that is the start of a clock
cycle. -/
theorem clock_of_row {rows : List (Row ω)} (hs : ∀ r ∈ rows, OnSample r) (hu : ∀ r ∈ rows, AcqOnUhfqa r)
    {out : List (Row ω × Option (Int × Rat))} (h : times rows = .ok out) :
    ∀ e ∈ out, ∀ c d, e.1.chan = some c → c.kind = some d →
      ∃ k m : Int, (e.2.map Prod.fst).getD 0 = k ∧ At d e.1.time (8 * k + m) ∧ 0 ≤ m ∧ m < 8 := by
  obtain ⟨out', h1, h2⟩ := times_exact hs hu
  rw [h] at h1
  cases h1
  intro e he c d hc hd
  obtain ⟨k, hk⟩ := List.getElem?_of_mem he
  have hlen : out.length = rows.length := times_length h
  have hlt : k < rows.length := by
    rw [← hlen]
    exact (List.getElem?_eq_some_iff.mp hk).1
  obtain ⟨m, s, h3, h4⟩ := h2 k rows[k] (List.getElem?_eq_getElem hlt)
  rw [hk] at h3
  simp only [Option.some.injEq] at h3
  subst h3
  obtain ⟨n, h5, h6⟩ := h4 c d hc hd
  refine ⟨n / 8, n % 8, by rw [h6]; rfl, ?_, by omega, by omega⟩
  have : 8 * (n / 8) + n % 8 = n := by omega
  rw [this]
  exact h5

/-! ### Overlapping acquisitions -/

theorem overlaps_iff : ∀ (l : List (Row ω)), (∀ r ∈ l, 0 ≤ r.duration) → l.Pairwise (fun r r' => r.time ≤ r'.time) →
    (overlaps l = false ↔ l.Pairwise fun r r' => r.time + r.duration ≤ r'.time)
  | [], _, _ => by simp [overlaps]
  | [r], _, _ => by simp [overlaps]
  | r :: r' :: rest, h0, hs => by
    rw [overlaps, Bool.or_eq_false_iff, decide_eq_false_iff_not, not_lt, List.pairwise_cons]
    have ih := overlaps_iff (r' :: rest) (fun x hx => h0 x (List.mem_cons_of_mem _ hx)) (List.pairwise_cons.mp hs).2
    rw [ih]
    have hs' := (List.pairwise_cons.mp (List.pairwise_cons.mp hs).2).1
    constructor
    · rintro ⟨h1, h2⟩
      refine ⟨?_, h2⟩
      intro x hx
      rcases List.mem_cons.mp hx with rfl | hx
      · exact h1
      · have := hs' x hx
        linarith
    · rintro ⟨h1, h2⟩
      exact ⟨h1 r' (by simp), h2⟩

/-- **C65, overlapping acquisitions.** A table in the order of time is refused exactly if two acquisitions of the same
output overlap. -/
theorem ensureNoOverlap_iff {rows : List (Row ω)} (h0 : ∀ r ∈ rows, 0 ≤ r.duration)
    (hs : rows.Pairwise fun r r' => r.time ≤ r'.time) :
    ensureNoOverlap rows = .ok () ↔ rows.Pairwise fun r r' => r.acq = true → r'.acq = true → r.chan.isSome →
      r.chan = r'.chan → r.time + r.duration ≤ r'.time := by
  have hpw : ∀ c, ((rows.filter fun r' => decide (r'.chan = c) && r'.acq).Pairwise fun r r' =>
      r.time + r.duration ≤ r'.time) ↔ rows.Pairwise fun r r' => r.chan = c ∧ r.acq = true → r'.chan = c ∧ r'.acq = true →
        r.time + r.duration ≤ r'.time := by
    intro c
    rw [List.pairwise_filter]
    simp only [Bool.and_eq_true, decide_eq_true_eq]
  have hov : ∀ c, overlaps (rows.filter fun r' => decide (r'.chan = c) && r'.acq) = false ↔
      rows.Pairwise fun r r' => r.chan = c ∧ r.acq = true → r'.chan = c ∧ r'.acq = true →
        r.time + r.duration ≤ r'.time := by
    intro c
    rw [overlaps_iff _ (fun r hr => h0 r (List.mem_filter.mp hr).1) (hs.filter _), hpw]
  unfold ensureNoOverlap
  constructor
  · intro h
    split at h
    · simp at h
    · rename_i hn
      rw [Bool.not_eq_true, List.any_eq_false] at hn
      rw [List.pairwise_iff_getElem]
      intro i j hi hj hij ha ha' hc hcc
      have h1 := hn rows[i] (List.getElem_mem hi)
      rw [hc, Bool.true_and, Bool.not_eq_true, hov, List.pairwise_iff_getElem] at h1
      exact h1 i j hi hj hij ⟨rfl, ha⟩ ⟨hcc.symm, ha'⟩
  · intro h
    rw [if_neg]
    rw [Bool.not_eq_true, List.any_eq_false]
    intro r hr
    cases hc : r.chan with
    | none => simp
    | some c =>
      rw [Option.isSome_some, Bool.true_and, Bool.not_eq_true, hov]
      refine h.imp ?_
      rintro a b hab ⟨h1, h2⟩ ⟨h3, h4⟩
      exact hab h2 h4 (by rw [h1]; rfl) (by rw [h1, h3])

end Verif.Zi
