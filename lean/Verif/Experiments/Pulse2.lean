/-
More pulse-level experiments: dark ESR with a sweep, the chevron, long time traces, the multiplexed
staircase; and schedules that are rejected because two operations get the same label.
-/
import Verif.Experiments.Pulse
import Verif.Experiments.Cpmg

set_option linter.unusedSimpArgs false
set_option linter.unusedVariables false

namespace Verif.Experiments

open Spec (Part inSequence ns4)

variable {L : Type}

/-! ## Two operations with one label -/

theorem items_nodup (calls : Calls L) : ∀ (n : Nat) (used : List Key) (l : List (Timing.Item Key)),
    calls.items n used = .ok l → (calls.keys n).Nodup ∧ ∀ k ∈ calls.keys n, k ∉ used := by
  induction h : sizeOf calls using Nat.strong_induction_on generalizing calls with
  | _ m ih =>
    intro n used l hl
    cases calls with
    | nil => simp [Calls.keys]
    | cons op label rel ref pt rest =>
      simp only [Calls.items] at hl
      split at hl
      · cases hl
      · rename_i hnot
        cases hd : op.duration with
        | error e => rw [hd] at hl; cases hl
        | ok d =>
          rw [hd] at hl
          cases hr : rest.items (n + 1) (used ++ [keyOf n label]) with
          | error e => simp only [hr] at hl; cases hl
          | ok r =>
            have hlt : sizeOf rest < m := by rw [← h]; simp
            obtain ⟨h1, h2⟩ := ih _ hlt rest rfl _ _ _ hr
            simp only [Calls.keys, List.nodup_cons]
            refine ⟨⟨fun hm => (h2 _ hm) (by simp), h1⟩, ?_⟩
            intro k hk
            rcases List.mem_cons.1 hk with rfl | hk
            · exact hnot
            · intro hu; exact h2 k hk (by simp [hu])

/-- Two operations with one label: the schedule is rejected. -/
theorem duplicate_rejected {calls : Calls L} (h : ¬ (calls.keys 0).Nodup) (delay : Option Rat) :
    ∃ e, (Op.sched delay calls).play = .error e := by
  cases hi : calls.items 0 [] with
  | error e => exact ⟨e, by simp only [Op.play, Calls.timed, hi]⟩
  | ok l => exact absurd (items_nodup calls 0 [] l hi).1 h

theorem forEach_runs' {X : Type} {f : Nat → X → Calls L → Calls L} {part : X → Part L}
    {xs : List X} (ht : ∀ i x, xs[i]? = some x → Turn (f i x) ((part x).length, (part x).plays))
    (hb : ∀ (i : Nat) x, xs[i]? = some x → 0 ≤ (part x).length) (acc : List Placed) (n : Nat)
    (s : Rat) (hr : Ready acc s) (hs : 0 ≤ s) :
    Run acc n (forEach f 0 xs) (Spec.from_ s (xs.map part)) := by
  have h := forEach_runs (f := f) (blk := fun _ x => ((part x).length, (part x).plays)) xs 0
    (by intro a x hx; simpa using ht a x hx) (by intro a x hx; simpa using hb a x hx) acc n s hr hs
  rw [from_eq, List.map_map]
  have e := map_zipIdx (fun x => ((part x).length, (part x).plays)) xs
  rw [e] at h
  exact h

/-! ## C48: dark ESR with a sweep -/

theorem nv_names (fmt : Rat → String) (dev : Dev) (q clock : String) (freqs : List Rat)
    (hn : (freqs.map fmt).Nodup) :
    let f : Nat → Rat → Calls Act → Calls Act := fun i f rest =>
      .add (op dev (.setFreq clock f)) (some ("set_freq (" ++ clock ++ " " ++ fmt f ++ " Hz)")) <|
      .add (op dev (.reset [q])) (lab "Reset " i) <|
      .add (op dev (.spectroscopy q)) (some ("Spectroscopy (" ++ fmt f ++ " Hz)")) <|
      .add (op dev (gM q)) (lab "Measure " i) <|
      .add (op dev (.crCount q)) (lab "CRCount post " i) rest
    ((forEach f 0 freqs).keys 2).Nodup ∧ ∀ k ∈ (forEach f 0 freqs).keys 2,
        (∃ m, k = .uuid m ∧ 2 ≤ m) ∨
        ∃ a x, freqs[a]? = some x ∧
          ∃ s ∈ ["set_freq (" ++ clock ++ " " ++ fmt x ++ " Hz)", "Reset " ++ toString (0 + a),
            "Spectroscopy (" ++ fmt x ++ " Hz)", "Measure " ++ toString (0 + a),
            "CRCount post " ++ toString (0 + a)], k = .label s := by
  intro f
  refine forEach_nodup f (fun i x => ["set_freq (" ++ clock ++ " " ++ fmt x ++ " Hz)",
    "Reset " ++ toString i, "Spectroscopy (" ++ fmt x ++ " Hz)", "Measure " ++ toString i,
    "CRCount post " ++ toString i]) (fun _ _ => 5) ?_ freqs 0 2 ?_
  · intro i x n
    refine ⟨[_, _, _, _, _], fun rest => rfl, ?_, ?_⟩
    · simp only [keyOf, lab, List.nodup_cons, List.mem_cons, Key.label.injEq, List.not_mem_nil,
        or_false, not_or, not_false_eq_true, List.nodup_nil, and_true]
      refine ⟨⟨?_, ?_, ?_, ?_⟩, ⟨?_, ?_, ?_⟩, ⟨?_, ?_⟩, ?_⟩ <;>
        exact ne_of_head (by simp [String.toList_append])
    · intro k hk
      right
      simp only [keyOf, lab, List.mem_cons, List.not_mem_nil, or_false] at hk
      rcases hk with rfl | rfl | rfl | rfl | rfl <;> simp
  · intro a b x y hab hx hy s hs hs'
    have hxy : fmt x ≠ fmt y := by
      intro he
      have hlen : b < freqs.length := by
        rcases List.getElem?_eq_some_iff.1 hy with ⟨h, -⟩; exact h
      have := (List.Nodup.getElem_inj_iff hn (i := a) (j := b) (hi := by simp; omega)
        (hj := by simpa)).1 (by
          rcases List.getElem?_eq_some_iff.1 hx with ⟨h1, h2⟩
          rcases List.getElem?_eq_some_iff.1 hy with ⟨h3, h4⟩
          simp [h2, h4, he])
      omega
    simp only [List.mem_cons, List.not_mem_nil, or_false] at hs hs'
    rcases hs with rfl | rfl | rfl | rfl | rfl
    · rcases hs' with h | h | h | h | h
      · rw [String.append_left_inj, String.append_right_inj] at h; exact hxy h
      · exact absurd h (ne_of_head (by simp [String.toList_append]))
      · exact absurd h (ne_of_head (by simp [String.toList_append]))
      · exact absurd h (ne_of_head (by simp [String.toList_append]))
      · exact absurd h (ne_of_head (by simp [String.toList_append]))
    · rcases hs' with h | h | h | h | h
      · exact absurd h (ne_of_head (by simp [String.toList_append]))
      · have := (label_inj (by decide) (by decide) h).2; omega
      · exact absurd h (ne_of_head (by simp [String.toList_append]))
      · exact absurd h (ne_of_head (by simp [String.toList_append]))
      · exact absurd h (ne_of_head (by simp [String.toList_append]))
    · rcases hs' with h | h | h | h | h
      · exact absurd h (ne_of_head (by simp [String.toList_append]))
      · exact absurd h (ne_of_head (by simp [String.toList_append]))
      · rw [String.append_left_inj, String.append_right_inj] at h; exact hxy h
      · exact absurd h (ne_of_head (by simp [String.toList_append]))
      · exact absurd h (ne_of_head (by simp [String.toList_append]))
    · rcases hs' with h | h | h | h | h
      · exact absurd h (ne_of_head (by simp [String.toList_append]))
      · exact absurd h (ne_of_head (by simp [String.toList_append]))
      · exact absurd h (ne_of_head (by simp [String.toList_append]))
      · have := (label_inj (by decide) (by decide) h).2; omega
      · exact absurd h (ne_of_head (by simp [String.toList_append]))
    · rcases hs' with h | h | h | h | h
      · exact absurd h (ne_of_head (by simp [String.toList_append]))
      · exact absurd h (ne_of_head (by simp [String.toList_append]))
      · exact absurd h (ne_of_head (by simp [String.toList_append]))
      · exact absurd h (ne_of_head (by simp [String.toList_append]))
      · have := (label_inj (by decide) (by decide) h).2; omega

/-- Dark ESR with a sweep of the frequency, if the frequencies are printed differently: charge reset
and count, then for every frequency: the new frequency and the reset, spectroscopy, measurement and
count, one after the other. -/
theorem nv_dark_esr_nco_plays (dev : Dev) (fmt : Rat → String) (q clock : String) (freqs : List Rat)
    (hd : ∀ a, 0 ≤ dev a) (hn : (freqs.map fmt).Nodup) :
    (nvDarkEsrNcoSched dev fmt q clock freqs).play = .ok (inSequence (
      { length := dev (.chargeReset q) + dev (.crCount q)
        plays := [(0, .chargeReset q), (dev (.chargeReset q), .crCount q)] } ::
      freqs.map (fun f =>
        { length := dev (.reset [q]) + dev (.spectroscopy q) + dev (.measure [q] none false)
            + dev (.crCount q)
          plays := [(0, .setFreq clock f), (0, .reset [q]), (dev (.reset [q]), .spectroscopy q),
            (dev (.reset [q]) + dev (.spectroscopy q), .measure [q] none false),
            (dev (.reset [q]) + dev (.spectroscopy q) + dev (.measure [q] none false),
              .crCount q)] }))) := by
  have h1 := hd (.chargeReset q)
  have h2 := hd (.crCount q)
  have h3 := hd (.reset [q])
  have h4 := hd (.spectroscopy q)
  have h5 := hd (.measure [q] none false)
  obtain ⟨hn1, hn2⟩ := nv_names fmt dev q clock freqs hn
  refine Run.play (calls := .add _ _ (.add _ _ _)) ?_ (by simp [Calls.add]) ?_ none
  · show Run [] 0 _ ((0 + 0, _) :: (0 + dev (.chargeReset q), _) :: Spec.from_ _ _)
    refine Run.leaf (t := 0 + 0) (by rw [add_zero]; exact Ready.startsAt (.inl ⟨rfl, rfl⟩))
      (by linarith) ?_
    refine Run.leaf (by after_prev) (by linarith) ?_
    refine forEach_runs' ?_ ?_ _ _ _ ?_ ?_
    · intro i f hi acc n s hr hs rest ev hrun
      refine Run.leaf (t := s + 0) (by rw [add_zero]; exact hr.startsAt) (by linarith) ?_
      refine Run.leaf (by after_prev) (by linarith) ?_
      refine Run.leaf (by after_prev) (by linarith) ?_
      refine Run.leaf (by after_prev) (by linarith) ?_
      refine Run.leaf (by after_prev) (by linarith) ?_
      exact hrun _ _ (by turn_ready)
    · intro i f hi; simp only; linarith
    · turn_ready
    · linarith
  · simp only [Calls.add, Calls.keys, keyOf, List.nodup_cons, List.mem_cons, not_or]
    refine ⟨⟨by simp, ?_⟩, ?_, hn1⟩
    · intro hm
      rcases hn2 _ hm with ⟨m, h, -⟩ | ⟨a, x, -, s, hs, h⟩
      · cases h
      · cases h
        simp only [List.mem_cons, List.not_mem_nil, or_false] at hs
        rcases hs with h | h | h | h | h <;>
          exact absurd h (ne_of_head (by simp [String.toList_append]))
    · intro hm
      rcases hn2 _ hm with ⟨m, h, -⟩ | ⟨a, x, -, s, hs, h⟩
      · cases h
      · cases h
        simp only [List.mem_cons, List.not_mem_nil, or_false] at hs
        rcases hs with h | h | h | h | h
        · exact absurd h (ne_of_head (by simp [String.toList_append]))
        · exact absurd h (ne_of_head (by simp [String.toList_append]))
        · exact absurd h (ne_of_head (by simp [String.toList_append]))
        · exact absurd h (ne_of_head (by simp [String.toList_append]))
        · have h' := congrArg (fun s => s.toList.take 11) h
          simp [String.toList_append] at h'

theorem forEach_keys_mem {X : Type} {f : Nat → X → Calls L → Calls L} {k : Key} {x : X}
    (hf : ∀ i y n, ∃ ks : List Key, (∀ rest, ∃ m, (f i y rest).keys n = ks ++ rest.keys m))
    (hk : ∀ i rest n, k ∈ (f i x rest).keys n) : ∀ (xs : List X) (i n : Nat), x ∈ xs →
      k ∈ (forEach f i xs).keys n := by
  intro xs
  induction xs with
  | nil => intro i n h; cases h
  | cons y ys ih =>
    intro i n h
    simp only [forEach]
    rcases List.mem_cons.1 h with rfl | h
    · exact hk _ _ _
    · obtain ⟨ks, hks⟩ := hf i y n
      obtain ⟨m, hm⟩ := hks (forEach f (i + 1) ys)
      rw [hm]
      exact List.mem_append_right _ (ih _ _ h)

/-- Frequencies that are printed alike (with seven digits) make the sweep fail: they get the same
label. -/
theorem nv_dark_esr_nco_rejects (dev : Dev) (fmt : Rat → String) (q clock : String)
    (pre mid post : List Rat) (f g : Rat) (h : fmt f = fmt g) :
    ∃ e, (nvDarkEsrNcoSched dev fmt q clock (pre ++ f :: (mid ++ g :: post))).play = .error e := by
  refine duplicate_rejected ?_ none
  simp only [Calls.add, Calls.keys, List.nodup_cons, not_and]
  rintro - -
  generalize 0 + 1 + 1 = n
  generalize hi : 0 = i
  clear hi
  induction pre generalizing i n with
  | cons a pre ih =>
    simp only [List.cons_append, forEach, Calls.keys, List.nodup_cons, not_and]
    intro _ _ _ _ _
    exact ih _ _
  | nil =>
    simp only [List.nil_append, forEach, Calls.keys, List.nodup_cons, not_and]
    intro hno
    exfalso
    apply hno
    simp only [List.mem_cons]
    right; right; right; right
    refine forEach_keys_mem (x := g) ?_ ?_ _ _ _ (by simp)
    · intro i y n
      exact ⟨[_, _, _, _, _], fun rest => ⟨_, rfl⟩⟩
    · intro i rest n
      simp only [Calls.keys, keyOf, List.mem_cons]
      left
      rw [h]

/-! ## C48: chevron -/

theorem last_paren (s : String) :
    ∀ c, (s ++ ") ").toList.getLast? = some c → c.isDigit = false := by
  intro c hc
  rw [String.toList_append, List.getLast?_append] at hc
  have : (") ".toList).getLast? = some ' ' := by decide
  rw [this] at hc
  simp at hc
  subst hc
  decide

/-- The chevron experiment on two different qubits: for every amplitude a reset of both, a pi pulse
on both at the same time when it is over, the flux pulse when the second of them is over, and the
measurement of both after the flux pulse. -/
theorem chevron_plays (dev : Dev) (lf hf : String) (amps : List Rat) (dur : Rat)
    (port : Option String) (hd : ∀ a, 0 ≤ dev a) (hdur : 0 ≤ dur) (hq : lf ≠ hf) (hne : amps ≠ []) :
    (chevronSched dev lf hf amps dur port).play = .ok (inSequence (amps.map (fun amp =>
      { length := dev (.reset [lf, hf]) + dev (.rxy 180 0 hf) + dur
          + dev (.measure [lf, hf] none false)
        plays := [(0, .reset [lf, hf]), (dev (.reset [lf, hf]), .rxy 180 0 lf),
          (dev (.reset [lf, hf]), .rxy 180 0 hf),
          (dev (.reset [lf, hf]) + dev (.rxy 180 0 hf),
            .square amp dur (port.getD (hf ++ ":fl")) "cl0.baseband"),
          (dev (.reset [lf, hf]) + dev (.rxy 180 0 hf) + dur, .measure [lf, hf] none false)] }))) := by
  have h1 := hd (.reset [lf, hf])
  have h2 := hd (.rxy 180 0 lf)
  have h3 := hd (.rxy 180 0 hf)
  have h4 := hd (.measure [lf, hf] none false)
  refine forEach_plays' hne ?_ ?_ ?_ (by intros; simp [Calls.add]) none
  · refine forEach_nodup_prefix _ ["Reset ", "X(" ++ lf ++ ") ", "X(" ++ hf ++ ") ",
      "SquarePulse(" ++ port.getD (hf ++ ":fl") ++ ") ", "Measure(" ++ lf ++ "," ++ hf ++ ") "]
      ?_ 5 ?_ amps
    · simp only [List.forall_mem_cons]
      refine ⟨by decide, last_paren _, last_paren _, last_paren _, last_paren _, by simp⟩
    intro i x n
    refine ⟨[_, _, _, _, _], fun rest => rfl, ?_, ?_⟩
    · simp only [keyOf, lab, List.nodup_cons, List.mem_cons, Key.label.injEq, List.not_mem_nil,
        or_false, not_or, not_false_eq_true, List.nodup_nil, and_true]
      refine ⟨⟨?_, ?_, ?_, ?_⟩, ⟨?_, ?_, ?_⟩, ⟨?_, ?_⟩, ?_⟩
      case refine_5 =>
        simp [String.append_left_inj, String.append_right_inj, hq]
      all_goals
        exact ne_of_head (by simp [String.toList_append])
    · intro k hk
      right
      simp only [keyOf, lab, List.mem_cons, List.not_mem_nil, or_false] at hk
      rcases hk with rfl | rfl | rfl | rfl | rfl <;> simp
  · intro i amp hi acc n s hr hs rest ev hrun
    refine Run.leaf (t := s + 0) (by rw [add_zero]; exact hr.startsAt) (by linarith) ?_
    refine Run.leaf (by after_prev) (by linarith) ?_
    refine Run.leaf (by after_ref) (by linarith) ?_
    refine Run.leaf (by after_prev) (by linarith) ?_
    refine Run.leaf (by after_prev) (by linarith) ?_
    exact hrun _ _ (by turn_ready)
  · intro i amp hi
    simp only; linarith

/-- With the same qubit twice the chevron experiment is rejected. -/
theorem chevron_same_qubit (dev : Dev) (q : String) (amps : List Rat) (dur : Rat)
    (port : Option String) (hne : amps ≠ []) :
    ∃ e, (chevronSched dev q q amps dur port).play = .error e := by
  refine duplicate_rejected ?_ none
  cases amps with
  | nil => exact absurd rfl hne
  | cons a amps =>
    simp [forEach, Calls.add, Calls.keys, keyOf, lab]

/-! ## C48: long time trace -/

/-- A long time trace: the voltage offset; the acquisitions from the given delay after it, one after
the other, all in one bin; the offset back to zero 4 ns after the last one. -/
theorem long_time_trace_plays (dev : Dev) (re im acqDelay integration : Rat) (port clock : String)
    (points index : Nat) (h0 : 0 ≤ acqDelay) (h1 : 0 ≤ integration) :
    (longTimeTrace dev re im acqDelay integration port clock points index).play
      = .ok ((0, .offset re im port clock) ::
          ((List.range points).map (fun k : Nat =>
            (acqDelay + k * integration, .ssb integration port clock 0 (some index))) ++
          [(acqDelay + points * integration + ns4, .offset 0 0 port clock),
           (acqDelay + points * integration + ns4, .idle ns4)])) := by
  have h4 : (0 : Rat) ≤ ns4 := by unfold ns4; norm_num
  have hb : (Op.sched none (.add (op dev (.ssb integration port clock 0 (some index))) none
      .nil)).play = .ok [(0, .ssb integration port clock 0 (some index))] ∧
      (Op.sched none (.add (op dev (.ssb integration port clock 0 (some index))) none
      .nil)).duration = .ok integration := by
    refine RunD.spec ?_ (by simp [Calls.add]) (by simp [Calls.keys, Calls.add, keyOf]) none
    refine RunD.leaf (t := 0) (Ready.startsAt (.inl ⟨rfl, rfl⟩)) le_rfl ?_
    have : integration = max 0 (0 + integration) := by rw [zero_add, max_eq_right h1]
    simp only [durOf]
    rw [← this]
    exact .nil _ _ _
  have hm : (0 : Rat) ≤ points * integration := mul_nonneg (by positivity) h1
  refine Run.play ?_ (by simp [Calls.add]) (by simp [Calls.keys, Calls.add, keyOf]) none
  refine Run.leaf (Ready.startsAt (.inl ⟨rfl, rfl⟩)) le_rfl ?_
  have hl : (List.range points).map (fun k : Nat =>
      (acqDelay + k * integration, Act.ssb integration port clock 0 (some index)))
      = later acqDelay (repeated integration [(0, .ssb integration port clock 0 (some index))]
          points) := by
    rw [repeated_eq]
    simp only [later, List.map_flatMap, List.map_cons, List.map_nil]
    rw [← List.map_eq_flatMap]
    simp
  rw [hl]
  refine Run.op (d := points * integration) ?_ ?_ ?_ h0 ?_
  · simp only [Op.duration] at hb ⊢; rw [hb.2]
  · simp only [Op.play] at hb ⊢; rw [hb.1, hb.2]
  · after_prev
  refine Run.leaf ?_ (by linarith) ?_
  · refine StartsAt.of_eq (startsAt_prev _ _ (by simp)) ?_
    simp only [itemOf, Op.delay, Timing.RefPt.frac, Option.getD_none, ns4]; ring
  refine Run.leaf (by after_prev) (by linarith) ?_
  exact .nil _ _

/-! ## C48: multiplexed staircase -/

theorem multiplexing_keys (dev : Dev) (dur : Rat) (port clock0 clock1 : String)
    (acqDelay integration : Rat) : ∀ (l : List (Rat × Rat)) (n ref : Nat),
    (multiplexingLoop dev dur port clock0 clock1 acqDelay integration n ref l).keys n
      = (List.range' n (4 * l.length)).map Key.uuid
  | [], n, ref => rfl
  | (a0, a1) :: l, n, ref => by
    have : 4 * ((a0, a1) :: l).length = 4 * l.length + 1 + 1 + 1 + 1 := by
      simp only [List.length_cons]; omega
    rw [this]
    simp only [multiplexingLoop, Calls.keys, keyOf, multiplexing_keys dev dur port clock0 clock1
      acqDelay integration l (n + 4) (n + 2), List.range'_succ, List.map_cons]

theorem multiplexing_runs (dev : Dev) (dur : Rat) (port clock0 clock1 : String)
    (acqDelay integration : Rat) (hdur : 0 ≤ dur) :
    ∀ (l : List (Rat × Rat)) (n ref : Nat) (acc : List Placed) (p : Placed) (s : Rat),
      p ∈ acc → p.1.key = .uuid ref → p.1.delay = none → p.2 + p.1.dur = s → 0 ≤ s →
      0 ≤ s + acqDelay →
      Run acc n (multiplexingLoop dev dur port clock0 clock1 acqDelay integration n ref l)
        (later s (blocks (l.map (fun a => (dur,
          [(0, .square a.1 dur port clock0), (acqDelay, .ssb integration port clock0 0 none),
           (0, .square a.2 dur port clock1), (acqDelay, .ssb integration port clock1 1 none)])))))
  | [], n, ref, acc, p, s, _, _, _, _, _, _ => .nil _ _
  | (a0, a1) :: l, n, ref, acc, p, s, hp, hk, hdl, hs, h0, h1 => by
    simp only [multiplexingLoop, List.map_cons, blocks, later_append, later_later]
    refine Run.leaf (t := s + 0) ?_ (by linarith) ?_
    · refine StartsAt.of_eq (startsAt_ref _ _ (by simp) hp hk) ?_
      simp only [hdl, Timing.RefPt.frac, Option.getD_some, Option.getD_none]
      linarith
    refine Run.leaf (by after_ref) (by linarith) ?_
    refine Run.leaf (t := s + 0) ?_ (by linarith) ?_
    · refine StartsAt.of_eq (startsAt_ref _ _ (by simp)
        (List.mem_cons_of_mem _ (List.mem_cons_of_mem _ hp)) hk) ?_
      simp only [hdl, Timing.RefPt.frac, Option.getD_some, Option.getD_none]
      linarith
    refine Run.leaf (by after_ref) (by linarith) ?_
    refine multiplexing_runs dev dur port clock0 clock1 acqDelay integration hdur l (n + 4) (n + 2) _ _
      (s + dur) (List.mem_cons_of_mem _ List.mem_cons_self) rfl rfl ?_ (by linarith) (by linarith)
    simp [itemOf, durOf]

/-- The multiplexed staircase: after the waiting time, for every amplitude and the one from the end
of the list, a pulse on each clock at the same time, and an acquisition on each clock the given delay
after the start of the pulses; the next pulses start when these are over (also if the acquisitions
are not). -/
theorem multiplexing_plays (dev : Dev) (amps : List Rat) (dur : Rat) (port clock0 clock1 : String)
    (acqDelay integration init : Rat) (h0 : 0 ≤ init) (h1 : 0 ≤ init + acqDelay) (hdur : 0 ≤ dur) :
    (multiplexingSched dev amps dur port clock0 clock1 acqDelay integration init).play
      = .ok (inSequence ({ length := init, plays := [(0, .idle init)] } ::
        (amps.zip amps.reverse).map (fun a =>
          { length := dur
            plays := [(0, .square a.1 dur port clock0),
              (acqDelay, .ssb integration port clock0 0 none),
              (0, .square a.2 dur port clock1),
              (acqDelay, .ssb integration port clock1 1 none)] }))) := by
  refine Run.play (calls := .add _ _ _) ?_ (by simp [Calls.add]) ?_ none
  · show Run [] 0 _ ((0 + 0, _) :: Spec.from_ _ _)
    refine Run.leaf (t := 0 + 0) (by rw [add_zero]; exact Ready.startsAt (.inl ⟨rfl, rfl⟩))
      (by linarith) ?_
    rw [from_eq, List.map_map]
    exact multiplexing_runs dev dur port clock0 clock1 acqDelay integration hdur _ 1 0 _ _ (0 + init)
      List.mem_cons_self rfl rfl (by simp [itemOf, durOf, op]) (by linarith) (by linarith)
  · simp only [Calls.add, Calls.keys, keyOf, multiplexing_keys, Nat.zero_add, List.nodup_cons]
    constructor
    · simp [List.mem_range'_1]
    · exact (List.nodup_range' (step := 1) (by decide)).map (by intro a b h; cases h; rfl)

end Verif.Experiments
