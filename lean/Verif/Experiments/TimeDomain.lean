/-
The time-domain experiments.
-/
import Verif.Experiments.Labels
import Verif.Experiments.Spec

set_option linter.unusedSimpArgs false
set_option linter.unusedVariables false

namespace Verif.Experiments

open Spec (Part inSequence)

theorem StartsAt.of_eq {acc : List Placed} {ref : Option Key} {pt : Option Timing.RefPt}
    {rel t t' : Rat} (h : StartsAt acc ref pt rel t') (e : t = t') : StartsAt acc ref pt rel t := by
  rw [e]; exact h

variable {L : Type}

theorem from_eq (ps : List (Part L)) : ∀ t : Rat,
    Spec.from_ t ps = later t (blocks (ps.map (fun p => (p.length, p.plays)))) := by
  induction ps with
  | nil => intro t; rfl
  | cons p ps ih =>
    intro t
    simp only [Spec.from_, List.map_cons, blocks, later_append, ih, later_later]
    rfl

/-- A loop with different labels plays its turns in sequence. -/
theorem forEach_plays {X : Type} {f : Nat → X → Calls L → Calls L} {part : Nat → X → Part L}
    {xs : List X} (hne : xs ≠ []) (hn : ((forEach f 0 xs).keys 0).Nodup)
    (ht : ∀ i x, xs[i]? = some x → Turn (f i x) ((part i x).length, (part i x).plays))
    (hb : ∀ i x, xs[i]? = some x → 0 ≤ (part i x).length)
    (hnn : ∀ i x rest, f i x rest ≠ .nil) (delay : Option Rat) :
    (Op.sched delay (forEach f 0 xs)).play
      = .ok (inSequence (xs.zipIdx.map (fun x => part x.2 x.1))) := by
  have h := forEach_runs (f := f)
    (blk := fun i x => ((part i x).length, (part i x).plays)) xs 0
    (by intro a x hx; simpa using ht a x hx) (by intro a x hx; simpa using hb a x hx)
    [] 0 0 (.inl ⟨rfl, rfl⟩) le_rfl
  have hnil : forEach f 0 xs ≠ .nil := by
    cases xs with
    | nil => exact absurd rfl hne
    | cons x xs => exact hnn _ _ _
  rw [h.play hnil hn delay, inSequence, from_eq]
  simp [List.map_map, Function.comp_def]

theorem map_zipIdx {X Y : Type} (g : X → Y) (xs : List X) :
    xs.zipIdx.map (fun x => g x.1) = xs.map g := by
  have : (fun x : X × Nat => g x.1) = g ∘ Prod.fst := rfl
  rw [this, ← List.map_map, List.zipIdx_map_fst]

/-- The same if the turns do not use their number. -/
theorem forEach_plays' {X : Type} {f : Nat → X → Calls L → Calls L} {part : X → Part L}
    {xs : List X} (hne : xs ≠ []) (hn : ((forEach f 0 xs).keys 0).Nodup)
    (ht : ∀ i x, xs[i]? = some x → Turn (f i x) ((part x).length, (part x).plays))
    (hb : ∀ (i : Nat) x, xs[i]? = some x → 0 ≤ (part x).length)
    (hnn : ∀ i x rest, f i x rest ≠ .nil) (delay : Option Rat) :
    (Op.sched delay (forEach f 0 xs)).play = .ok (inSequence (xs.map part)) := by
  rw [forEach_plays (part := fun _ x => part x) hne hn ht hb hnn delay, map_zipIdx]


/-- One more operation after the one before: its start, given as a number. -/
macro "after_prev" : tactic => `(tactic|
  (refine StartsAt.of_eq (startsAt_prev _ _ (by simp)) ?_
   simp only [itemOf, Op.delay, op, durOf, gX, gX90, gY, gM, Tone.act, Timing.RefPt.frac,
     Option.getD_some, Option.getD_none] <;> ring))

/-- One more operation after one given by name. -/
macro "after_ref" : tactic => `(tactic|
  (refine StartsAt.of_eq (startsAt_ref _ _ (by simp) (List.mem_cons_self) rfl) ?_
   simp only [itemOf, Op.delay, op, durOf, gX, gX90, gY, gM, Tone.act, Timing.RefPt.frac,
     Option.getD_some, Option.getD_none] <;> ring))

/-- The state after a turn. -/
macro "turn_ready" : tactic => `(tactic|
  (refine .inr ⟨_, _, rfl, ?_⟩
   simp only [itemOf, Op.delay, op, durOf, gX, gX90, gY, gM, Tone.act, Option.getD_none] <;> ring))

/-! ## C48: T1 -/

/-- A measurement of T1 plays, for every waiting time: a reset, the pi pulse when the reset is over,
and the measurement the waiting time after the start of the pi pulse. -/
theorem t1_plays (dev : Dev) (times : List Rat) (q : String) (hd : ∀ a, 0 ≤ dev a)
    (ht : ∀ tau ∈ times, 0 ≤ tau) (hne : times ≠ []) :
    (t1Sched dev times q).play = .ok (inSequence (times.map (fun tau =>
      { length := dev (.reset [q]) + tau + dev (.measure [q] none false)
        plays := [(0, .reset [q]), (dev (.reset [q]), .rxy 180 0 q),
                  (dev (.reset [q]) + tau, .measure [q] none false)] }))) := by
  have hR := hd (.reset [q])
  have hM := hd (.measure [q] none false)
  have hX := hd (.rxy 180 0 q)
  refine forEach_plays' hne ?_ ?_ ?_ (by intros; simp [Calls.add]) none
  · refine forEach_nodup_prefix _ ["Reset ", "pi ", "Measurement "] (by decide) 3 ?_ times
    intro i x n
    refine ⟨[_, _, _], fun rest => rfl, ?_, ?_⟩
    · simp [keyOf, lab, String.append_left_inj]
    · intro k hk; right; simpa [keyOf, lab] using hk
  · intro i tau hi acc n s hr hs rest ev hrun
    have h0 := ht tau (List.mem_iff_getElem?.2 ⟨i, hi⟩)
    refine Run.leaf (t := s + 0) (by rw [add_zero]; exact hr.startsAt) (by linarith) ?_
    refine Run.leaf (by after_prev) (by linarith) ?_
    refine Run.leaf (by after_prev) (by linarith) ?_
    exact hrun _ _ (by turn_ready)
  · intro i tau hi
    have h0 := ht tau (List.mem_iff_getElem?.2 ⟨i, hi⟩)
    simp only; linarith

/-! ## C48: Ramsey -/

/-- A Ramsey experiment plays, for every waiting time: a reset, a pi/2 pulse when it is over, the
second pi/2 pulse the waiting time after the start of the first, with a phase of the artificial
detuning times the waiting time in turns of 360 degrees, and the measurement when it is over. -/
theorem ramsey_plays (dev : Dev) (times : List Rat) (q : String) (detuning : Rat)
    (hd : ∀ a, 0 ≤ dev a) (ht : ∀ tau ∈ times, 0 ≤ tau) (hne : times ≠ []) :
    (ramseySched dev times q detuning).play = .ok (inSequence (times.map (fun tau =>
      { length := dev (.reset [q]) + tau + dev (.rxy 90 (360 * (detuning * tau)) q)
          + dev (.measure [q] none false)
        plays := [(0, .reset [q]), (dev (.reset [q]), .rxy 90 0 q),
                  (dev (.reset [q]) + tau, .rxy 90 (360 * (detuning * tau)) q),
                  (dev (.reset [q]) + tau + dev (.rxy 90 (360 * (detuning * tau)) q),
                    .measure [q] none false)] }))) := by
  have hR := hd (.reset [q])
  have hM := hd (.measure [q] none false)
  have hX := hd (.rxy 90 0 q)
  refine forEach_plays' hne ?_ ?_ ?_ (by intros; simp [Calls.add]) none
  · refine forEach_nodup_prefix _ ["Reset ", "Measurement "] (by decide) 4 ?_ times
    intro i x n
    refine ⟨[_, _, _, _], fun rest => rfl, ?_, ?_⟩
    · simp [keyOf, lab, String.append_left_inj]
    · intro k hk
      simp only [keyOf, lab, List.mem_cons, List.not_mem_nil, or_false] at hk
      rcases hk with rfl | rfl | rfl | rfl <;> simp <;> omega
  · intro i tau hi acc n s hr hs rest ev hrun
    have h0 := ht tau (List.mem_iff_getElem?.2 ⟨i, hi⟩)
    have hY := hd (.rxy 90 (360 * (detuning * tau)) q)
    refine Run.leaf (t := s + 0) (by rw [add_zero]; exact hr.startsAt) (by linarith) ?_
    refine Run.leaf (by after_prev) (by linarith) ?_
    refine Run.leaf (by after_prev) (by linarith) ?_
    refine Run.leaf (by after_prev) (by linarith) ?_
    exact hrun _ _ (by turn_ready)
  · intro i tau hi
    have h0 := ht tau (List.mem_iff_getElem?.2 ⟨i, hi⟩)
    have hY := hd (.rxy 90 (360 * (detuning * tau)) q)
    simp only; linarith

/-! ## C48: Echo -/

/-- An echo experiment plays, for every waiting time: a reset, a pi/2 pulse when it is over, the pi
pulse half the waiting time after the start of the pi/2 pulse, the second pi/2 pulse half the waiting
time after the start of the pi pulse, and the measurement when it is over. -/
theorem echo_plays (dev : Dev) (times : List Rat) (q : String) (hd : ∀ a, 0 ≤ dev a)
    (ht : ∀ tau ∈ times, 0 ≤ tau) (hne : times ≠ []) :
    (echoSched dev times q).play = .ok (inSequence (times.map (fun tau =>
      { length := dev (.reset [q]) + tau + dev (.rxy 90 0 q) + dev (.measure [q] none false)
        plays := [(0, .reset [q]), (dev (.reset [q]), .rxy 90 0 q),
                  (dev (.reset [q]) + tau / 2, .rxy 180 0 q),
                  (dev (.reset [q]) + tau, .rxy 90 0 q),
                  (dev (.reset [q]) + tau + dev (.rxy 90 0 q), .measure [q] none false)] }))) := by
  have hR := hd (.reset [q])
  have hM := hd (.measure [q] none false)
  have hX := hd (.rxy 180 0 q)
  have hY := hd (.rxy 90 0 q)
  refine forEach_plays' hne ?_ ?_ ?_ (by intros; simp [Calls.add]) none
  · refine forEach_nodup_prefix _ ["Reset ", "Measurement "] (by decide) 5 ?_ times
    intro i x n
    refine ⟨[_, _, _, _, _], fun rest => rfl, ?_, ?_⟩
    · simp [keyOf, lab, String.append_left_inj]
    · intro k hk
      simp only [keyOf, lab, List.mem_cons, List.not_mem_nil, or_false] at hk
      rcases hk with rfl | rfl | rfl | rfl | rfl <;> simp <;> omega
  · intro i tau hi acc n s hr hs rest ev hrun
    have h0 := ht tau (List.mem_iff_getElem?.2 ⟨i, hi⟩)
    refine Run.leaf (t := s + 0) (by rw [add_zero]; exact hr.startsAt) (by linarith) ?_
    refine Run.leaf (by after_prev) (by linarith) ?_
    refine Run.leaf (by after_prev) (by linarith) ?_
    refine Run.leaf (by after_prev) (by linarith) ?_
    refine Run.leaf (by after_prev) (by linarith) ?_
    exact hrun _ _ (by turn_ready)
  · intro i tau hi
    have h0 := ht tau (List.mem_iff_getElem?.2 ⟨i, hi⟩)
    simp only; linarith

/-! ## C48: Rabi -/

/-- A Rabi experiment plays, for every pair of an amplitude and a duration: a reset, the pulse, and
the measurement, one after the other. -/
theorem rabi_plays (dev : Dev) (amps durations : List Rat) (q : String) (port clock : Option String)
    (l : List (Rat × Rat)) (hd : ∀ a, 0 ≤ dev a) (hl : broadcast amps durations = .ok l)
    (ht : ∀ x ∈ l, 0 ≤ x.2) (hne : l ≠ []) :
    ∃ s, rabiSched dev amps durations q port clock = .ok s ∧
    s.play = .ok (inSequence (l.map (fun x =>
      { length := dev (.reset [q]) + x.2 + dev (.measure [q] none false)
        plays := [(0, .reset [q]),
                  (dev (.reset [q]),
                    .drag x.1 0 x.2 (port.getD (q ++ ":mw")) (clock.getD (q ++ ".01"))),
                  (dev (.reset [q]) + x.2, .measure [q] none false)] }))) := by
  have hR := hd (.reset [q])
  have hM := hd (.measure [q] none false)
  refine ⟨_, by simp only [rabiSched, hl]; rfl, ?_⟩
  refine forEach_plays' hne ?_ ?_ ?_ (by intros; simp [Calls.add]) none
  · refine forEach_nodup_prefix _ ["Reset ", "Rabi_pulse ", "Measurement "] (by decide) 3 ?_ l
    intro i x n
    refine ⟨[_, _, _], fun rest => rfl, ?_, ?_⟩
    · simp [keyOf, lab, String.append_left_inj]
    · intro k hk; right; simpa [keyOf, lab] using hk
  · intro i x hi acc n s hr hs rest ev hrun
    have h0 := ht x (List.mem_iff_getElem?.2 ⟨i, hi⟩)
    refine Run.leaf (t := s + 0) (by rw [add_zero]; exact hr.startsAt) (by linarith) ?_
    refine Run.leaf (by after_prev) (by linarith) ?_
    refine Run.leaf (by after_prev) (by linarith) ?_
    exact hrun _ _ (by turn_ready)
  · intro i x hi
    have h0 := ht x (List.mem_iff_getElem?.2 ⟨i, hi⟩)
    simp only; linarith

/-- Amplitudes and durations are paired: the i-th with the i-th, or one with all of the other list;
lists of different lengths, none of length one, are rejected. -/
theorem rabi_pairs (amps durations : List Rat) :
    (amps.length = durations.length → broadcast amps durations = .ok (amps.zip durations)) ∧
    (∀ a, amps = [a] → broadcast amps durations = .ok (durations.map (fun d => (a, d)))) ∧
    (∀ d, durations = [d] → broadcast amps durations = .ok (amps.map (fun a => (a, d)))) ∧
    (amps.length ≠ durations.length → amps.length ≠ 1 → durations.length ≠ 1 →
      broadcast amps durations = .error .valueError) := by
  unfold broadcast
  refine ⟨?_, ?_, ?_, ?_⟩
  · intro h
    split
    · rename_i a ds
      cases durations with
      | nil => simp at h
      | cons d ds => cases ds with
        | nil => rfl
        | cons e ds => simp at h
    · rename_i d hne
      cases amps with
      | nil => simp at h
      | cons a as => cases as with
        | nil => rfl
        | cons b as => simp at h
    · rw [if_neg (by simpa using h.symm)]
  · rintro a rfl; rfl
  · rintro d rfl
    split
    · rename_i h; cases h; rfl
    · rename_i d' h1 h2; cases h2; rfl
    · rename_i h1 h2; exact absurd rfl (h2 d)
  · intro h h1 h2
    split
    · simp at h1
    · simp at h2
    · rw [if_pos (by simpa using (Ne.symm h))]

/-! ## C48: AllXY -/

/-- AllXY plays, for every selected combination: a reset, its two rotations and the measurement. -/
theorem allxy_plays (dev : Dev) (q : String) (idx : List Int)
    (l : List ((Rat × Rat) × (Rat × Rat))) (hd : ∀ a, 0 ≤ dev a) (hl : allxySelect idx = .ok l)
    (hne : l ≠ []) :
    ∃ s, allxySched dev q idx = .ok s ∧
    s.play = .ok (inSequence (l.map (fun c =>
      { length := dev (.reset [q]) + dev (.rxy c.1.1 c.1.2 q) + dev (.rxy c.2.1 c.2.2 q)
          + dev (.measure [q] none false)
        plays := [(0, .reset [q]), (dev (.reset [q]), .rxy c.1.1 c.1.2 q),
                  (dev (.reset [q]) + dev (.rxy c.1.1 c.1.2 q), .rxy c.2.1 c.2.2 q),
                  (dev (.reset [q]) + dev (.rxy c.1.1 c.1.2 q) + dev (.rxy c.2.1 c.2.2 q),
                    .measure [q] none false)] }))) := by
  have hR := hd (.reset [q])
  have hM := hd (.measure [q] none false)
  refine ⟨_, by simp only [allxySched, hl]; rfl, ?_⟩
  refine forEach_plays' hne ?_ ?_ ?_ (by intros; simp [Calls.add]) none
  · refine forEach_nodup_prefix _ ["Reset ", "Measurement "] (by decide) 4 ?_ l
    intro i x n
    refine ⟨[_, _, _, _], fun rest => rfl, ?_, ?_⟩
    · simp [keyOf, lab, String.append_left_inj]
    · intro k hk
      simp only [keyOf, lab, List.mem_cons, List.not_mem_nil, or_false] at hk
      rcases hk with rfl | rfl | rfl | rfl <;> simp <;> omega
  · intro i c hi acc n s hr hs rest ev hrun
    have h1 := hd (.rxy c.1.1 c.1.2 q)
    have h2 := hd (.rxy c.2.1 c.2.2 q)
    refine Run.leaf (t := s + 0) (by rw [add_zero]; exact hr.startsAt) (by linarith) ?_
    refine Run.leaf (by after_prev) (by linarith) ?_
    refine Run.leaf (by after_prev) (by linarith) ?_
    refine Run.leaf (by after_prev) (by linarith) ?_
    exact hrun _ _ (by turn_ready)
  · intro i c hi
    have h1 := hd (.rxy c.1.1 c.1.2 q)
    have h2 := hd (.rxy c.2.1 c.2.2 q)
    simp only; linarith

/-- The combinations are the pairs of the AllXY experiment. -/
theorem allxy_table : allxyCombinations = Spec.allxyTable.map (fun p => (p.1.angles, p.2.angles)) := by
  decide +kernel

/-- They give the staircase that the experiment is known for (the ground state, an equal superposition, the excited
state), and are all pairs of rotations but those of nothing followed by something. -/
theorem allxy_staircase :
    Spec.allxyTable.map Spec.zAfter = List.replicate 5 1 ++ List.replicate 12 0 ++ List.replicate 4 (-1) ∧
    Spec.allxyTable.Nodup ∧
    ∀ p : Spec.Rot × Spec.Rot, p ∈ Spec.allxyTable ↔ (p.1 = .I → p.2 = .I) := by
  refine ⟨by decide +kernel, by decide +kernel, ?_⟩
  rintro ⟨a, b⟩
  cases a <;> cases b <;> decide +kernel

/-- The selection: the combinations with these numbers, if all are from 0 to 20; 21 is the wrong
exception (`IndexError`), though the message of the other says that it is allowed. -/
theorem allxy_selection (idx : List Int) :
    ((∀ i ∈ idx, 0 ≤ i ∧ i ≤ 20) → ∃ l, allxySelect idx = .ok l ∧ l.length = idx.length ∧
      ∀ (n : Nat) (i : Int), idx[n]? = some i →
        l[n]? = Spec.allxyTable[i.toNat]?.map (fun p => (p.1.angles, p.2.angles))) ∧
    ((∃ i ∈ idx, i < 0 ∨ 20 < i) → ∃ e, allxySelect idx = .error e) := by
  simp only [← List.getElem?_map, ← allxy_table]
  induction idx with
  | nil => exact ⟨fun _ => ⟨[], rfl, rfl, by simp⟩, by simp⟩
  | cons i is ih =>
    have hlen : allxyCombinations.length = 21 := rfl
    constructor
    · intro h
      obtain ⟨h1, h2⟩ := h i (by simp)
      obtain ⟨l, hl, hll, hlg⟩ := ih.1 (fun j hj => h j (by simp [hj]))
      have hi : i.toNat < allxyCombinations.length := by omega
      refine ⟨allxyCombinations[i.toNat] :: l, ?_, by simp [hll], ?_⟩
      · rw [allxySelect, if_neg (by rw [hlen]; omega), List.getElem?_eq_getElem hi, hl]
      · intro n j hj
        cases n with
        | zero =>
          simp only [List.getElem?_cons_zero, Option.some.injEq] at hj
          subst hj
          simp [List.getElem?_eq_getElem hi]
        | succ n => simpa using hlg n j (by simpa using hj)
    · rintro ⟨j, hj, hbad⟩
      rw [allxySelect]
      split
      · exact ⟨_, rfl⟩
      · rename_i hok
        rw [hlen] at hok
        rcases List.mem_cons.1 hj with rfl | hj
        · have : j = 21 := by omega
          subst this
          exact ⟨_, rfl⟩
        · obtain ⟨e, he⟩ := ih.2 ⟨j, hj, hbad⟩
          rw [he]
          cases allxyCombinations[i.toNat]? with
          | none => exact ⟨_, rfl⟩
          | some c => exact ⟨_, rfl⟩

/-- Number 21 gives `IndexError`, 22 gives `ValueError`. -/
theorem allxy_21 : allxySelect [21] = .error .indexError ∧ allxySelect [22] = .error .valueError := by
  decide +kernel

/-! ## C48: readout calibration -/

/-- Readout calibration plays, for every state: a reset, a pi pulse if the state is 1, and the
measurement, one after the other. -/
theorem readout_calibration_plays (dev : Dev) (q : String) (states : List Int) (protocol : String)
    (hd : ∀ a, 0 ≤ dev a) (hs01 : ∀ s ∈ states, s = 0 ∨ s = 1) (hne : states ≠ []) :
    ∃ s, readoutCalibrationSched dev q states protocol = .ok s ∧
    s.play = .ok (inSequence (states.map (fun st =>
      if st = 1 then
      { length := dev (.reset [q]) + dev (.rxy 180 0 q) + dev (.measure [q] (some protocol) true)
        plays := [(0, .reset [q]), (dev (.reset [q]), .rxy 180 0 q),
                  (dev (.reset [q]) + dev (.rxy 180 0 q), .measure [q] (some protocol) true)] }
      else
      { length := dev (.reset [q]) + dev (.measure [q] (some protocol) true)
        plays := [(0, .reset [q]), (dev (.reset [q]), .measure [q] (some protocol) true)] }))) := by
  have hR := hd (.reset [q])
  have hM := hd (.measure [q] (some protocol) true)
  have hX := hd (.rxy 180 0 q)
  have hck : checkStates states = .ok () := by
    have : ∀ l : List Int, (∀ s ∈ l, s = 0 ∨ s = 1) → checkStates l = .ok () := by
      intro l
      induction l with
      | nil => intro _; rfl
      | cons a l ih =>
        intro h
        rw [checkStates, if_pos (h a (by simp))]
        exact ih (fun s hs => h s (by simp [hs]))
    exact this states hs01
  refine ⟨_, by simp only [readoutCalibrationSched, hck]; rfl, ?_⟩
  refine forEach_plays' hne ?_ ?_ ?_ (by intros; simp [Calls.add]) none
  · refine (forEach_nodup _ (fun i _ => ["Reset " ++ toString i, "Measurement " ++ toString i])
      (fun _ s => if s = 1 then 3 else 2) ?_ states 0 0 ?_).1
    · intro i x n
      by_cases h : x = 1
      · simp only [h, if_true]
        refine ⟨[_, _, _], fun rest => rfl, ?_, ?_⟩
        · simp [keyOf, lab, String.append_left_inj]
        · intro k hk
          simp only [keyOf, lab, List.mem_cons, List.not_mem_nil, or_false] at hk
          rcases hk with rfl | rfl | rfl <;> simp
      · simp only [h, if_false]
        refine ⟨[_, _], fun rest => rfl, ?_, ?_⟩
        · simp [keyOf, lab, String.append_left_inj]
        · intro k hk
          simp only [keyOf, lab, List.mem_cons, List.not_mem_nil, or_false] at hk
          rcases hk with rfl | rfl <;> simp
    · intro a b x y hab _ _ s hs hs'
      simp only [List.mem_cons, List.not_mem_nil, or_false] at hs hs'
      rcases hs with rfl | rfl <;> rcases hs' with h | h <;>
        first
        | (have := (label_inj (by decide) (by decide) h).2; omega)
  · intro i st hi acc n s hr hs rest ev hrun
    by_cases h : st = 1
    · simp only [h, if_true] at hrun ⊢
      refine Run.leaf (t := s + 0) (by rw [add_zero]; exact hr.startsAt) (by linarith) ?_
      refine Run.leaf (by after_prev) (by linarith) ?_
      refine Run.leaf (by after_prev) (by linarith) ?_
      exact hrun _ _ (by turn_ready)
    · simp only [h, if_false] at hrun ⊢
      refine Run.leaf (t := s + 0) (by rw [add_zero]; exact hr.startsAt) (by linarith) ?_
      refine Run.leaf (by after_prev) (by linarith) ?_
      exact hrun _ _ (by turn_ready)
  · intro i st hi
    by_cases h : st = 1
    · simp only [h, if_true]; linarith
    · simp only [h, if_false]; linarith

/-- Other states are rejected. -/
theorem readout_calibration_rejects (dev : Dev) (q : String) (states : List Int) (protocol : String)
    (h : ∃ s ∈ states, s ≠ 0 ∧ s ≠ 1) :
    ∃ e, readoutCalibrationSched dev q states protocol = .error e := by
  have : ∀ l : List Int, (∃ s ∈ l, s ≠ 0 ∧ s ≠ 1) → ∃ e, checkStates l = .error e := by
    intro l
    induction l with
    | nil => rintro ⟨s, hs, -⟩; cases hs
    | cons a l ih =>
      rintro ⟨s, hs, h0, h1⟩
      rw [checkStates]
      split
      · rename_i ha
        rcases List.mem_cons.1 hs with rfl | hs
        · rcases ha with ha | ha
          · exact absurd ha h0
          · exact absurd ha h1
        · exact ih ⟨s, hs, h0, h1⟩
      · split <;> exact ⟨_, rfl⟩
  obtain ⟨e, he⟩ := this states h
  exact ⟨e, by simp only [readoutCalibrationSched, he]⟩

end Verif.Experiments
