/-
C80: further theorems, examples, and what does not hold.
-/
import Verif.MockRom.Trace

set_option linter.unusedSimpArgs false
set_option linter.unusedVariables false
set_option linter.unusedSectionVars false

namespace Verif.MockRom

open Verif.AcqIndices (Info Coord Coords Data Idx BinMode)

variable {Ch U K : Type} [DecidableEq Ch]

/-- The results depend on the settings alone, not on what was prepared, executed or retrieved before. -/
theorem history_irrelevant [Mul K] (c c' : Comp Ch U K) (s : Settings Ch U K) (draws : Nat → K) :
    measure c s draws = measure c' s draws := by
  have he : ∀ r r' : Rom K, r.waves = r'.waves → r.instrs = r'.instrs → r.rate = r'.rate → r.gain = r'.gain →
      execute r draws = execute r' draws := by
    intro r r' h1 h2 h3 h4
    obtain ⟨w, i, ra, g, d⟩ := r
    obtain ⟨w', i', ra', g', d'⟩ := r'
    simp only at h1 h2 h3 h4
    subst h1 h2 h3 h4
    have hone : execOne ⟨w, i, ra, g, d⟩ draws = execOne ⟨w, i, ra, g, d'⟩ draws := by
      funext x y; rfl
    unfold execute
    simp only [hone]
  unfold measure start
  have := he (prepare c s).rom (prepare c' s).rom rfl rfl rfl rfl
  rw [this]
  rfl

/-- A gettable returns the data of an execution of its own settings. -/
theorem gettable_eq [Mul K] (c : Comp Ch U K) (rom : Rom K) (s : Settings Ch U K) (draws : Nat → K) :
    gettable rom s.waves s.instrs s.rate s.gain draws =
      match start (prepare c s) draws with
      | .error e => .error e
      | .ok c' => .ok c'.rom.data := by
  have hone : execOne (prepare c s).rom draws =
      execOne { rom with rate := s.rate, gain := s.gain, waves := s.waves, instrs := s.instrs } draws := by
    funext x y; rfl
  unfold gettable start execute
  rw [hone]
  by_cases h0 : s.instrs = []
  · simp [prepare, h0]
  · simp only [prepare, h0, if_false]
    cases s.instrs.foldlM (execOne { rom with rate := s.rate, gain := s.gain, waves := s.waves, instrs := s.instrs }
      draws) ([], 0) <;> rfl

/-- A component that was not prepared has nothing to retrieve. -/
theorem not_prepared (rom : Rom K) : retrieve (new rom : Comp Ch U K) = .error .runtime := rfl

/-- A schedule without acquisitions cannot be executed. -/
theorem nothing_to_run [DecidableEq K] [One K] [Mul K] {cfg : Config K} {items : List (Item Ch U K)}
    {s : Settings Ch U K} (hs : compile cfg items = .ok s)
    (hno : ∀ i ∈ items, ∃ hash p, Plays i hash p) (c : Comp Ch U K) (draws : Nat → K) :
    measure c s draws = .error .runtime := by
  obtain ⟨st, cs, -, -, h3, h4⟩ := compile_ok hs
  have key : ∀ (l : List (Item Ch U K)) (x y : CS Ch K), (∀ i ∈ l, ∃ hash p, Plays i hash p) → x.instrs = [] →
      l.foldlM (step cfg s.rate st.map) x = .ok y → y.instrs = [] := by
    intro l
    induction l with
    | nil => intro x y _ h0 h; rw [FoldM.nil] at h; cases h; exact h0
    | cons i l ih =>
      intro x y hl h0 h
      obtain ⟨x1, h1, h2⟩ := (FoldM.ok_cons ..).mp h
      refine ih x1 y (fun j hj => hl j (List.mem_cons_of_mem _ hj)) ?_ h2
      obtain ⟨hash, p, hp⟩ := hl i (List.mem_cons_self ..)
      rcases step_cases h1 with ⟨_, _, _, hs'⟩ | ⟨b, _, _, hb, _⟩ | ⟨a, _, _, ha, _⟩
      · rcases (stepPulse_cases hs').2 with ⟨_, rfl⟩ | ⟨f, fr, freq, _, _, _, rfl⟩ <;> exact h0
      · exact (not_plays_traces hp hb).elim
      · exact (not_plays_measures hp ha).elim
  have hi := key items _ cs hno rfl h3
  have hsi : s.instrs = [] := by rw [h4]; exact hi
  simp [measure, start, execute, prepare, hsi]

/-- With a sampling rate below 1 GHz and a pulse with a waveform, no trace can be acquired. -/
theorem slow_rate [Mul K] {s : Settings Ch U K} {w : List K} {ws : List ((String × Bool) × List K)}
    {i : Instr} {is : List Instr} {k : String × Bool} (hr : 0 ≤ s.rate) (hr' : s.rate < 10 ^ 9)
    (hw : s.waves = (k, w) :: ws) (hi : s.instrs = i :: is) (ht : i.trace = true) (hp : i.port.second = none)
    (c : Comp Ch U K) (draws : Nat → K) : measure c s draws = .error .zeroDivision := by
  have hst : stride s.rate = 0 := by
    unfold stride
    rw [if_pos hr, Int.floor_eq_zero_iff]
    constructor
    · positivity
    · rw [div_lt_one (by norm_num)]; exact hr'
  have hone : execOne (prepare c s).rom draws ([], 0) i = .error .zeroDivision := by
    unfold execOne location
    rw [hp]
    have e1 : (prepare c s).rom.rate = s.rate := rfl
    have e2 : (prepare c s).rom.waves = s.waves := rfl
    simp only [ht, Bool.true_or, if_true, e1, e2, hst, hw, List.map_cons, traceWaves, resample]
  have hex : execute (prepare c s).rom draws = .error .zeroDivision := by
    unfold execute
    have e3 : (prepare c s).rom.instrs = i :: is := hi
    rw [e3, FoldM.error_cons _ _ _ _ _ hone]
    simp
  unfold measure start
  rw [hex]

/-! ### An example: a pulse, a trace and three averaged acquisitions -/

/-- Evaluation where the schedulables are in the order of time. -/
theorem acqsOf_sorted {items : AcqIndices.Items Ch U}
    (h : (AcqIndices.itemAcqs items [] []).Pairwise (fun a b => decide (a.1 ≤ b.1) = true)) :
    AcqIndices.acqsOf (.sched items) [] [] = (AcqIndices.itemAcqs items [] []).flatMap Prod.snd := by
  simp only [AcqIndices.acqsOf]
  rw [List.mergeSort_of_pairwise h]

def exInfo (ch : Nat) (u : Nat) : AcqInfo Nat Nat :=
  ⟨"q0:res", "q0.ro", ⟨ch, "SSBIntegrationComplex", .average, u, none⟩⟩

def exTraceInfo (ch : Nat) (u : Nat) : AcqInfo Nat Nat := ⟨"q0:res", "q0.ro", ⟨ch, "Trace", .average, u, none⟩⟩

/-- A pulse of 3 ns, with the samples (f, t·10⁹) at the frequency f and the time t. -/
def exPulse : Pulse Rat := ⟨"q0:res", "q0.ro", 3 / 10 ^ 9, some (fun f t => (f, t * 10 ^ 9))⟩

/-- Another pulse, of 1 ns. -/
def exPulse2 : Pulse Rat := ⟨"q0:res", "q0.ro", 1 / 10 ^ 9, some (fun f t => (0, 0))⟩

def exItems : List (Item Nat Nat Rat) :=
  [⟨"p", 0, .plain ⟨"h", .other, [exPulse], []⟩⟩,
   ⟨"t", 1, .plain ⟨"t", .trace, [], [exTraceInfo 9 5]⟩⟩,
   ⟨"a", 2, .plain ⟨"a", .ssb, [], [exInfo 0 10]⟩⟩,
   ⟨"b", 3, .plain ⟨"b", .ssb, [], [exInfo 1 11]⟩⟩,
   ⟨"c", 4, .plain ⟨"c", .ssb, [], [exInfo 0 12]⟩⟩]

def exConfig (rate : Rat) : Config Rat :=
  ⟨some rate, some [("q0:res-q0.ro", 2)], some [("q0:res-q0.ro", some 7)], some [some ⟨none, false⟩]⟩

def exPort : HwPort := ⟨none, false⟩

/-- The settings, at 2 GHz. -/
def exSettings : Settings Nat Nat Rat :=
  ⟨[(("h", false), [7, 7, 7, 7, 7, 7]), (("h", true), [0, 1 / 2, 1, 3 / 2, 2, 5 / 2])],
   [⟨true, exPort, 0⟩, ⟨false, exPort, 1⟩, ⟨false, exPort, 2⟩, ⟨false, exPort, 3⟩],
   2 * 10 ^ 9, 2,
   [(9, ⟨"Trace", .average, .dict 5⟩),
    (0, ⟨"SSBIntegrationComplex", .average, .list [⟨10, none, none⟩, ⟨12, none, none⟩]⟩),
    (1, ⟨"SSBIntegrationComplex", .average, .list [⟨11, none, none⟩]⟩)],
   [(9, 0)], [((0, 0), 1), ((1, 0), 2), ((0, 1), 3)]⟩

theorem exCompiled : compile (exConfig (2 * 10 ^ 9)) exItems = .ok exSettings := by
  unfold compile AcqIndices.generate AcqIndices.order
  rw [acqsOf_sorted (by decide +kernel)]
  decide +kernel

theorem exMeasured (c : Comp Nat Nat Rat) (draws : Nat → Rat) : measure c exSettings draws =
    .ok ⟨[(9, ([(14, 0), (14, 2), (14, 4)], none))],
      [((0, 0), (draws 0, ⟨10, none, none⟩)), ((1, 0), (draws 1, ⟨11, none, none⟩)),
       ((0, 1), (draws 2, ⟨12, none, none⟩))]⟩ := by
  have hst : traceWaves (stride (2 * 10 ^ 9)) (2 : Rat) (exSettings.waves.map Prod.snd) =
      .ok [[14, 14, 14], [0, 2, 4]] := by decide +kernel
  rw [history_irrelevant c (new ⟨[], [], 0, 0, []⟩)]
  have e : (prepare (new ⟨[], [], 0, 0, []⟩ : Comp Nat Nat Rat) exSettings).rom =
    ⟨exSettings.waves, exSettings.instrs, 2 * 10 ^ 9, 2, []⟩ := rfl
  unfold measure start execute
  rw [e]
  simp only [exSettings, List.foldlM_cons, List.foldlM_nil, execOne, location, exPort] at hst ⊢
  simp only [hst, Bool.or_false, if_true]
  rfl

theorem exPlainPorts (rate : Rat) : PlainPorts (exConfig rate) :=
  ⟨[some ⟨none, false⟩], rfl, by simp, by simp⟩

/-- The hypotheses of `each_measured`, `no_gaps` and `trace_samples_partial` hold in the example. -/
theorem exHypotheses : (exItems.map Item.name).Nodup ∧
    (∀ i ∈ exItems, ∀ a, Measures i a → a.protocol = "SSBIntegrationComplex") ∧
    (∃ i ∈ exItems, ∃ a, Measures i a ∧ a.ch = 0) ∧
    (∀ i ∈ exItems, ∀ o, i.op = .plain o → ∀ b ∈ o.acqs, b.info.ch = 0 →
      Measures i b.info ∧ o.acqs = [b] ∧ b.info.protocol = "SSBIntegrationComplex") ∧
    (∃ i S, exItems = [] ++ i :: S ∧ Plays i "h" exPulse ∧ exPulse.wf.isSome ∧
      ∀ x ∈ S, ∀ p', Plays x "h" p' → p' = exPulse) := by
  refine ⟨by decide, ?_, ?_, ?_, ?_⟩
  · intro i hi a ha
    obtain ⟨o, b, rest, h1, h2, h3, h4, h5, h6⟩ := ha
    simp only [exItems, List.mem_cons, List.not_mem_nil, or_false] at hi
    rcases hi with rfl | rfl | rfl | rfl | rfl <;>
      · simp only [Op.plain.injEq] at h1
        subst h1
        first
        | (cases h2; done)
        | (cases h3; done)
        | (cases h4; subst h5; rfl)
  · exact ⟨⟨"a", 2, .plain ⟨"a", .ssb, [], [exInfo 0 10]⟩⟩, by simp [exItems], (exInfo 0 10).info,
      ⟨_, _, _, rfl, rfl, rfl, rfl, rfl, rfl⟩, rfl⟩
  · intro i hi o ho b hb hc
    simp only [exItems, List.mem_cons, List.not_mem_nil, or_false] at hi
    rcases hi with rfl | rfl | rfl | rfl | rfl <;>
      · simp only [Op.plain.injEq] at ho
        subst ho
        simp only [List.mem_cons, List.not_mem_nil, or_false] at hb
        try subst hb
        first
        | done
        | (exact ⟨⟨_, _, _, rfl, rfl, rfl, rfl, rfl, rfl⟩, rfl, rfl⟩)
        | (simp [exTraceInfo, exInfo] at hc)
  · refine ⟨_, _, rfl, ⟨_, _, rfl, rfl, rfl⟩, rfl, ?_⟩
    intro x hx p' hp'
    obtain ⟨o, rest, h1, h2, h3⟩ := hp'
    simp only [List.mem_cons, List.not_mem_nil, or_false] at hx
    rcases hx with rfl | rfl | rfl | rfl <;>
      · simp only [Op.plain.injEq] at h1
        subst h1
        cases h3

/-! ### What does not hold -/

/-- The user's coordinates of a trace are not in the dataset. -/
theorem trace_coords_lost [DecidableEq K] [One K] [Mul K] {cfg : Config K} {items : List (Item Ch U K)}
    {s : Settings Ch U K} {c : Comp Ch U K} {draws : Nat → K} {ds : DS Ch U K} (hp : PlainPorts cfg)
    (hs : compile cfg items = .ok s) (h : measure c s draws = .ok ds) :
    ∀ ch t u, Dict.get? ds.traces ch = some (t, u) → u = none := by
  obtain ⟨st, cs, hst, -, -, -⟩ := compile_ok hs
  obtain ⟨j, -, -, -, -, m2⟩ := measured hp hst hs h
  intro ch t u ht
  exact (m2 ch t u ht).1

/-- Two pulses, each followed by a trace of its own. -/
def exTwo : List (Item Nat Nat Rat) :=
  [⟨"p", 0, .plain ⟨"h", .other, [exPulse], []⟩⟩,
   ⟨"t", 1, .plain ⟨"t", .trace, [], [exTraceInfo 0 5]⟩⟩,
   ⟨"q", 2, .plain ⟨"h2", .other, [exPulse2], []⟩⟩,
   ⟨"u", 3, .plain ⟨"u", .trace, [], [exTraceInfo 1 6]⟩⟩]

/-- Both traces show the first pulse. -/
theorem second_pulse_lost : ∃ s, compile (exConfig (10 ^ 9)) exTwo = .ok s ∧
    ∀ c draws, measure c s draws = .ok ⟨[(0, ([(14, 0), (14, 2), (14, 4)], none)),
      (1, ([(14, 0), (14, 2), (14, 4)], none))], []⟩ := by
  refine ⟨⟨[(("h", false), [7, 7, 7]), (("h", true), [0, 1, 2]), (("h2", false), [0]), (("h2", true), [0])],
    [⟨true, exPort, 0⟩, ⟨true, exPort, 1⟩], 10 ^ 9, 2,
    [(0, ⟨"Trace", .average, .dict 5⟩), (1, ⟨"Trace", .average, .dict 6⟩)], [(0, 0), (1, 1)], []⟩, ?_, ?_⟩
  · unfold compile AcqIndices.generate AcqIndices.order
    rw [acqsOf_sorted (by decide +kernel)]
    decide +kernel
  · intro c draws
    rw [history_irrelevant c (new ⟨[], [], 0, 0, []⟩)]
    have hst : traceWaves (stride (10 ^ 9)) (2 : Rat) [[7, 7, 7], [0, 1, 2], [0], [0]] =
      .ok [[14, 14, 14], [0, 2, 4], [0], [0]] := by decide +kernel
    unfold measure start execute
    simp only [prepare, List.foldlM_cons, List.foldlM_nil, execOne, location, exPort, List.map_cons, List.map_nil,
      hst, Bool.or_false, if_true]
    rfl

/-- With the sampling rate of the configuration that comes with the backend, 1.5 GHz, the sample at 1 ns is that of
the waveform at 2/3 ns. -/
theorem wrong_time_axis : ∃ s, compile (exConfig (3 / 2 * 10 ^ 9)) (exItems.take 2) = .ok s ∧
    ∀ c draws, measure c s draws =
      .ok ⟨[(9, ([(14, 0), (14, 2 * (2 / 3)), (14, 2 * (4 / 3)), (14, 4), (14, 2 * (8 / 3))], none))], []⟩ := by
  refine ⟨⟨[(("h", false), [7, 7, 7, 7, 7]), (("h", true), [0, 2 / 3, 4 / 3, 2, 8 / 3])],
    [⟨true, exPort, 0⟩], 3 / 2 * 10 ^ 9, 2, [(9, ⟨"Trace", .average, .dict 5⟩)], [(9, 0)], []⟩, ?_, ?_⟩
  · unfold compile AcqIndices.generate AcqIndices.order
    rw [acqsOf_sorted (by decide +kernel)]
    decide +kernel
  · intro c draws
    rw [history_irrelevant c (new ⟨[], [], 0, 0, []⟩)]
    have hst : traceWaves (stride (3 / 2 * 10 ^ 9)) (2 : Rat) [[7, 7, 7, 7, 7], [0, 2 / 3, 4 / 3, 2, 8 / 3]] =
      .ok [[14, 14, 14, 14, 14], [0, 2 * (2 / 3), 2 * (4 / 3), 4, 2 * (8 / 3)]] := by decide +kernel
    unfold measure start execute
    simp only [prepare, List.foldlM_cons, List.foldlM_nil, execOne, location, exPort, List.map_cons, List.map_nil,
      hst, Bool.or_false, if_true]
    rfl

/-- An acquisition of an operation that also has a pulse is dropped. -/
theorem acquisition_dropped : ∃ s, compile (exConfig (10 ^ 9))
      [⟨"m", 0, .plain ⟨"m", .ssb, [exPulse], [exInfo 0 10]⟩⟩,
       ⟨"a", 1, .plain ⟨"a", .ssb, [], [exInfo 1 11]⟩⟩] = .ok s ∧
    ∀ c draws, measure c s draws = .ok ⟨[], [((1, 0), (draws 0, ⟨11, none, none⟩))]⟩ := by
  refine ⟨⟨[(("m", false), [7, 7, 7]), (("m", true), [0, 1, 2])], [⟨false, exPort, 0⟩], 10 ^ 9, 1,
    [(0, ⟨"SSBIntegrationComplex", .average, .list [⟨10, none, none⟩]⟩),
     (1, ⟨"SSBIntegrationComplex", .average, .list [⟨11, none, none⟩]⟩)], [], [((1, 0), 0)]⟩, ?_, ?_⟩
  · unfold compile AcqIndices.generate AcqIndices.order
    rw [acqsOf_sorted (by decide +kernel)]
    decide +kernel
  · intro c draws
    rw [history_irrelevant c (new ⟨[], [], 0, 0, []⟩)]
    rfl

/-- An input whose name has an underscore: the schedule compiles, but cannot be executed, or the result is stored at
the number in the name and is not found. -/
theorem underscore_fails : ∀ q : Option Int, q ≠ some 0 → ∃ s, compile { exConfig (10 ^ 9) with
      readout := some [some ⟨some q, false⟩] } [⟨"a", 1, .plain ⟨"a", .ssb, [], [exInfo 1 11]⟩⟩] = .ok s ∧
    ∀ c draws, measure c s draws = .error (match q with | none => .valueError | some _ => .key) := by
  intro q hq
  refine ⟨⟨[], [⟨false, ⟨some q, false⟩, 0⟩], 10 ^ 9, 1,
    [(1, ⟨"SSBIntegrationComplex", .average, .list [⟨11, none, none⟩]⟩)], [], [((1, 0), 0)]⟩, ?_, ?_⟩
  · unfold compile AcqIndices.generate AcqIndices.order
    rw [acqsOf_sorted (by decide +kernel)]
    rfl
  · intro c draws
    cases q with
    | none => rfl
    | some n =>
      have hn : n ≠ 0 := fun h => hq (by rw [h])
      have hb : (n == (0 : Int)) = false := by simpa using hn
      simp [measure, start, execute, prepare, execOne, location, List.foldlM_cons, List.foldlM_nil, retrieve,
        getBin, Dict.get?, Dict.set, hb, hn, bind, Except.bind, pure, Except.pure]

/-- Nothing can be acquired without a connection of "q0:res", whichever port the acquisition is on. -/
theorem other_port_fails : compile { exConfig (10 ^ 9) with readout := none }
      [⟨"a", 1, .plain ⟨"a", .ssb, [], [⟨"q1:res", "q1.ro", (exInfo 1 11).info⟩]⟩⟩] = .error .key := by
  unfold compile AcqIndices.generate AcqIndices.order
  rw [acqsOf_sorted (by decide +kernel)]
  rfl

/-- The settings of a second schedule: a shorter pulse and a trace in another channel. -/
def exSecond : Settings Nat Nat Rat :=
  ⟨[(("p", false), [0]), (("p", true), [0])], [⟨true, exPort, 0⟩], 10 ^ 9, 2,
    [(3, ⟨"Trace", .average, .dict 0⟩)], [(3, 0)], []⟩

theorem exSecond_compiled : compile (exConfig (10 ^ 9)) [⟨"x", 0, .plain ⟨"p", .other, [exPulse2], []⟩⟩,
    ⟨"a", 1, .plain ⟨"a", .trace, [], [exTraceInfo 3 0]⟩⟩] = .ok exSecond := by
  unfold compile AcqIndices.generate AcqIndices.order
  rw [acqsOf_sorted (by decide +kernel)]
  decide +kernel

/-- `retrieve_acquisition` after a second `prepare`, without `start`, returns the data of the first execution as the
results of the second schedule. -/
theorem stale_data (c : Comp Nat Nat Rat) (draws : Nat → Rat) :
    ∃ c', start (prepare c exSettings) draws = .ok c' ∧
      retrieve (prepare c' exSecond) = .ok ⟨[(3, ([(14, 0), (14, 2), (14, 4)], none))], []⟩ := by
  have hst : traceWaves (stride (2 * 10 ^ 9)) (2 : Rat)
      [[7, 7, 7, 7, 7, 7], [0, 1 / 2, 1, 3 / 2, 2, 5 / 2]] = .ok [[14, 14, 14], [0, 2, 4]] := by decide +kernel
  apply Exists.intro
  constructor
  · unfold start execute
    simp only [exSettings, prepare, List.foldlM_cons, List.foldlM_nil, execOne, location, exPort, List.map_cons,
      List.map_nil, hst, Bool.or_false, if_true]
    rfl
  · rfl

end Verif.MockRom
