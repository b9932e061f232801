/-
C13: compiled loops run their body exactly the requested number of times.
C14: every operation executes at its scheduled time in every repetition.
C15: both outcomes of a conditional take the same time.
The specification is `Forest.run` (Spec.lean) and `Program.trace` (ProgramSpec.lean).
-/
import Verif.Q1.WaitProps

set_option linter.unusedSimpArgs false
set_option linter.unusedVariables false

namespace Verif.Q1

/-! ### C14: the whole program -/

/-- **C14.**  If code generation accepts the operations (any nesting of loops, conditionals with
plain bodies), then the generated program, started from power-on, reaches `stop`; everything it
does is exactly `Program.trace`: the set-up, then in each repetition every operation at its
scheduled time, counted from 4 ns after the start of the repetition; repetition `i` starts
`i * (4 + total)` after the first one. -/
theorem program_correct {p : Program} {A : List Reg} {q : Qasm} (hA : AvailOk A) (hok : p.Ok A)
    (hc : p.compile A = .ok q) (env : Env) (hst : p.Stable env) :
    ∃ pc d, Steps q.instrs env (0, Data.init) (pc, d) ∧ Stopped q.instrs (pc, d) ∧
      d.trace = p.trace env ∧ d.time = p.start + p.reps * p.period := by
  obtain ⟨d, h1, h2, h3, h4, _⟩ := program_exec hA hok hc env hst
  exact ⟨_, d, h1, h2, h3, h4⟩

/-- The run is unique: whenever the program stops, it has done exactly that. -/
theorem program_correct_unique {p : Program} {A : List Reg} {q : Qasm} (hA : AvailOk A)
    (hok : p.Ok A) (hc : p.compile A = .ok q) (env : Env) (hst : p.Stable env)
    {pc : Nat} {d : Data} (hs : Steps q.instrs env (0, Data.init) (pc, d))
    (hstop : Stopped q.instrs (pc, d)) :
    d.trace = p.trace env ∧ d.time = p.start + p.reps * p.period := by
  obtain ⟨pc', d', h1, h2, h3, h4⟩ := program_correct hA hok hc env hst
  have hdet : Relator.RightUnique (fun a b : Nat × Data => step q.instrs env a = some b) :=
    fun a b c hb hc => step_det hb hc
  have hfin : ∀ {s t : Nat × Data}, Stopped q.instrs s → Steps q.instrs env s t → t = s := by
    intro s t hs ht
    rcases Relation.ReflTransGen.cases_head ht with h | ⟨x, hx, _⟩
    · exact h.symm
    · unfold Stopped at hs
      simp [step, hs] at hx
  rcases Relation.ReflTransGen.total_of_right_unique hdet hs h1 with h | h
  · have := hfin hstop h
    cases this
    exact ⟨h3, h4⟩
  · have := hfin h2 h
    cases this
    exact ⟨h3, h4⟩

/-- The events of a repeated body, spelled out: iteration `i` starts `i * period` later and finds
the bin registers as the iterations before have left them. -/
theorem iterate_events {body : Int → Behaviour} {period : Int} (n : Nat) (δ : Int) (b : RegFile) :
    (iterate body period n δ b).2 =
      (List.range n).flatMap (fun i : Nat =>
        (body (δ + i * period) (iterate body period i δ b).1).2) := by
  induction n with
  | zero => rfl
  | succ n ih =>
    rw [(iterate_last n).2, ih, List.range_succ, List.flatMap_append]
    simp

/-- Forests of plain operations. -/
def ofLeaves : List Leaf → Forest
  | [] => .nil
  | l :: ls => .leaf l (ofLeaves ls)

theorem ofLeaves_run (env : Env) (ls : List Leaf) (hb : ∀ l ∈ ls, l.strat.binReg = none) :
    ∀ (δ : Int) (b : RegFile), (ofLeaves ls).run env δ b =
      (b, ls.flatMap (fun l => shiftAll (l.t + δ) (l.events b))) := by
  induction ls with
  | nil => intro δ b; rfl
  | cons l ls ih =>
    intro δ b
    have hl : l.strat.next b = b := by
      have := hb l List.mem_cons_self
      cases hs : l.strat with
      | square idx bin => cases bin <;> simp_all [Strategy.binReg, Strategy.next, BinRef.next]
      | weighed idx bin w0 w1 =>
        cases bin <;> simp_all [Strategy.binReg, Strategy.next, BinRef.next]
      | ttl idx bin d => cases bin <;> simp_all [Strategy.binReg, Strategy.next, BinRef.next]
      | timetag sc idx bin f0 f1 d =>
        cases bin <;> simp_all [Strategy.binReg, Strategy.next, BinRef.next]
      | _ => rfl
    simp only [ofLeaves, Forest.run, hl, ih (fun x hx => hb x (List.mem_cons_of_mem _ hx)),
      List.flatMap_cons]

/-- **C14, spelled out for plain operations.**  Repetition `i` performs operation `l` at
`start + i * (4 + total) + 4 + l.t`, in the order of the list, and nothing else. -/
theorem program_trace_plain (p : Program) (ls : List Leaf) (env : Env)
    (hops : p.ops = ofLeaves ls) (hb : ∀ l ∈ ls, l.strat.binReg = none) :
    (iterate (p.repetition env) p.period p.reps p.start (initBins p.bins)).2 =
      (List.range p.reps).flatMap (fun i : Nat =>
        repEvents p.analog (p.start + i * p.period) ++
        ls.flatMap (fun l => shiftAll (l.t + (p.start + i * p.period + 4))
          (l.events (initBins p.bins)))) := by
  have hreg : ∀ n δ b, (iterate (p.repetition env) p.period n δ b).1 = b := by
    intro n
    induction n with
    | zero => intro δ b; rfl
    | succ n ih =>
      intro δ b
      simp only [iterate, ih]
      simp only [Program.repetition, hops, ofLeaves_run env ls hb]
  rw [iterate_events]
  congr 1
  funext i
  rw [hreg]
  simp only [Program.repetition, hops, ofLeaves_run env ls hb]

/-- **C14, rejection.**  An operation whose time has already passed is never silently delayed:
unless it is an idle pulse, compilation fails with a `ValueError`. -/
theorem late_operation_rejected (fuel : Nat) (l : Leaf) (rest : List Op) (q : Qasm)
    (hl : l.t < q.elapsed) (hi : l.isIdle = false) :
    parse (fuel + 1) (.leaf l :: rest) q = .error .valueError := by
  have : waitTill q l.t l.isIdle l.isParam = .error .valueError := by
    unfold waitTill
    simp only
    rw [if_neg (by omega)]
    split
    · rfl
    · rw [if_pos ⟨by omega, hi⟩]
  simp only [parse, this]
  rfl

/-- **C14, rejection of schedules longer than announced.** -/
theorem too_long_rejected (q : Qasm) (total : Int) (h : total < q.elapsed) :
    finalWait q total = .error .runtimeError := by
  unfold finalWait
  rw [if_pos (by omega)]

/-- **Sequencers stay in step.**  Two sequencers of the same schedule (same total time and
repetitions), whatever their operations: repetition `i` starts on both at the same time after
`wait_sync`, up to their latency corrections, and both take the same time. -/
theorem sequencers_in_step {p1 p2 : Program} {A : List Reg} {q1 q2 : Qasm} (hA : AvailOk A)
    (hok1 : p1.Ok A) (hok2 : p2.Ok A) (hc1 : p1.compile A = .ok q1) (hc2 : p2.compile A = .ok q2)
    (env : Env) (hs1 : p1.Stable env) (hs2 : p2.Stable env)
    (htot : p1.total = p2.total) (hreps : p1.reps = p2.reps) :
    (∀ i : Nat, (p1.start + i * p1.period - p1.syncTime) - (p2.start + i * p2.period - p2.syncTime) =
      p1.latency - p2.latency) ∧
    ∃ s1 s2 : Nat × Data, Steps q1.instrs env (0, Data.init) s1 ∧ Stopped q1.instrs s1 ∧
      Steps q2.instrs env (0, Data.init) s2 ∧ Stopped q2.instrs s2 ∧
      (s1.2.time - p1.syncTime) - (s2.2.time - p2.syncTime) = p1.latency - p2.latency := by
  obtain ⟨pc1, d1, a1, b1, _, t1⟩ := program_correct hA hok1 hc1 env hs1
  obtain ⟨pc2, d2, a2, b2, _, t2⟩ := program_correct hA hok2 hc2 env hs2
  have hper : p1.period = p2.period := by unfold Program.period; rw [htot]
  refine ⟨?_, (pc1, d1), (pc2, d2), a1, b1, a2, b2, ?_⟩
  · intro i
    rw [hper]
    unfold Program.start
    ring
  · simp only [t1, t2, hreps, hper]
    unfold Program.start
    ring

/-! ### C13: loops -/

/-- **C13.**  From any sane compiler state, the code generated for any nesting of loops (and plain
conditionals), placed in any program with distinct labels, runs and does exactly what
`Forest.run` says: the body of a loop `n` times, iteration `i` being `i * (e - t)` later; the
compiler's clock advances by exactly the real time taken; no register that is in use before is
disturbed except as the operations themselves demand. -/
theorem loops_exact {f : Forest} {q q' : Qasm} {fuel : Nat} {rest : List Op}
    (ha : AvailOk q.avail) (h0 : 0 ≤ q.elapsed) (hok : f.Ok q.avail)
    (h : parse fuel f.flatten q = .ok (q', rest)) :
    ∀ (env : Env) (P : List Instr) (d : Data), q'.instrs <+: P → LabelsUnique P → d.cond = none →
      f.Stable env (d.time - q.elapsed) →
      ∃ d', Steps P env (q.instrs.length, d) (q'.instrs.length, d') ∧
        d'.time - d.time = q'.elapsed - q.elapsed ∧
        d'.trace = d.trace ++ (f.run env (d.time - q.elapsed) d.regs).2 ∧
        (∀ r, r ∉ q.avail → d'.regs r = (f.run env (d.time - q.elapsed) d.regs).1 r) := by
  obtain ⟨fuel', q'', _, hp, hf⟩ := parse_forest f [] (q', rest) fuel q ha h0 hok
    (by rw [List.append_nil]; exact h)
  have : q'' = q' := by
    cases fuel' with
    | zero => cases hp; rfl
    | succ n => cases hp; rfl
  subst this
  intro env P d hP hu hd hst
  obtain ⟨regs', hag, hx⟩ := hf.2.2 env (d.time - q.elapsed) d hd hst (by ring)
  refine ⟨_, hx P hP hu, ?_, rfl, hag⟩
  simp only
  ring

/-- Number of events of a forest without conditionals and without append-mode bins. -/
def Forest.size : Forest → Nat
  | .nil => 0
  | .leaf l f => (l.events (fun _ => 0)).length + f.size
  | .loop _ n b _ f => n * b.size + f.size
  | .cond _ _ _ _ f => f.size

/-- No conditionals. -/
def Forest.noCond : Forest → Prop
  | .nil => True
  | .leaf _ f => f.noCond
  | .loop _ _ b _ f => b.noCond ∧ f.noCond
  | .cond _ _ _ _ _ => False

theorem events_length (l : Leaf) (b b' : RegFile) :
    (l.events b).length = (l.events b').length := by
  have hs : ∀ s : Strategy, (s.events b).length = (s.events b').length := by
    intro s
    cases s with
    | pulse i0 i1 _ _ => cases i0 <;> cases i1 <;> rfl
    | phaseShift a => cases a <;> rfl
    | timetag sc _ _ _ _ _ => cases sc <;> rfl
    | _ => rfl
  unfold Leaf.events
  cases l.debug with
  | none => exact hs _
  | some m => simp [hs l.strat]

/-- **C13, counting.**  In total, a loop executes `n` times the events of its body, multiplied
through all levels of nesting. -/
theorem loop_event_count (env : Env) : ∀ (f : Forest), f.noCond → ∀ (δ : Int) (b : RegFile),
    (f.run env δ b).2.length = f.size := by
  intro f
  induction f with
  | nil => intro _ δ b; rfl
  | leaf l f ih =>
    intro h δ b
    simp only [Forest.run, Forest.size, List.length_append, ih h]
    rw [← events_length l b]
    simp [shiftAll]
  | loop t n body e f ihb ihf =>
    intro h δ b
    have hit : ∀ n δ b, (iterate (body.run env) (e - t) n δ b).2.length = n * body.size := by
      intro n
      induction n with
      | zero => intro δ b; simp [iterate]
      | succ n ih =>
        intro δ b
        simp only [iterate, List.length_append, ihb h.1, ih]
        ring
    simp only [Forest.run, Forest.size, List.length_append, ihf h.2, hit]
  | cond => intro h; exact h.elim

/-- Finding: a loop with zero repetitions executes its body 2^32 times, because the sequencer's
`loop` decrements before it tests.  Here the body is one `upd_param` at time 0. -/
theorem loop_zero_runs : ∃ q rest, parse 3 [.loop 0 0, .leaf ⟨0, false, false, true, .updParam, none⟩,
      .ret 4] (Qasm.new initRegs) = .ok (q, rest) ∧ q.elapsed = 0 ∧
    ∀ env, ∃ d, Steps q.instrs env (0, Data.init) (q.instrs.length, d) ∧
      d.time = 4 * 2 ^ 32 ∧ d.trace.length = 2 ^ 32 := by
  refine ⟨_, _, rfl, by rfl, ?_⟩
  intro env
  set qE : Qasm := { Qasm.new initRegs with instrs := [.move 0 0, .label (.loop 0)] } with hqE
  set qB : Qasm := { Qasm.new initRegs with
      instrs := [.move 0 0, .label (.loop 0), .real .updParam [] 4] } with hqB
  set qX : Qasm := { Qasm.new initRegs with
      instrs := [.move 0 0, .label (.loop 0), .real .updParam [] 4, .loop 0 (.loop 0)] } with hqX
  have key := loop_exec (env := env) (q := Qasm.new initRegs) (qE := qE) (qB := qB) (qX := qX)
    (l := .loop 0) (imm := 0) (n := 2 ^ 32) (r := 0) (by decide) (by decide) (by decide) rfl
    ⟨[.real .updParam [] 4], rfl⟩ rfl
    (fun k d => d.cond = none ∧ d.time = 4 * k ∧ d.trace.length = k) ?_ Data.init
    ⟨rfl, rfl, rfl⟩
  · obtain ⟨d, ⟨_, h1, h2⟩, hx⟩ := key
    have hu : LabelsUnique qX.instrs := by
      intro i j l hi hj
      have h : ∀ k : Nat, qX.instrs[k]? = some (Instr.label l) → k = 1 := by
        intro k hk
        match k with
        | 0 => simp [hqX] at hk
        | 1 => rfl
        | 2 => simp [hqX] at hk
        | 3 => simp [hqX] at hk
        | k + 4 => simp [hqX] at hk
      rw [h i hi, h j hj]
    exact ⟨d, hx qX.instrs List.prefix_rfl hu, by rw [h1]; rfl, h2⟩
  · intro k hk d ⟨h1, h2, h3⟩
    refine ⟨d.runs env [.real .updParam [] 4], exec_straight (code := [.real .updParam [] 4]) rfl
      (by simp [Instr.straight]) d, ?_, ?_⟩
    · simp [Data.run, Data.enabled, h1]
    · intro v
      simp only [Data.runs_cons, Data.runs_nil, run_real h1 .updParam [] 4 (by decide)]
      refine ⟨h1, ?_, ?_⟩
      · rw [h2]; push_cast; ring
      · simp [h3]

/-! ### C15: conditionals -/

/-- **C15 (part).**  A conditional whose body consists of plain operations with gaps of 0 or at least 4 ns,
at most 65528 ns long (no trigger-count, timetag, latch-reset or debug-marker operations in it):
whatever the triggers, the code takes the same time, namely what the compiler counts.  The
limits are needed, see the theorems below. -/
theorem conditional_same_time_partial {t e : Int} {c : TrigCond} {body : List Leaf} {q q' : Qasm}
    {fuel : Nat} {rest : List Op} (ha : AvailOk q.avail) (h0 : 0 ≤ q.elapsed)
    (hok : (Forest.cond t c body e .nil).Ok q.avail)
    (h : parse fuel (Forest.cond t c body e .nil).flatten q = .ok (q', rest)) :
    ∀ (env1 env2 : Env) (P : List Instr) (d : Data), q'.instrs <+: P → LabelsUnique P →
      d.cond = none →
      (∀ env ∈ [env1, env2], (Forest.cond t c body e .nil).Stable env (d.time - q.elapsed)) →
      ∃ d1 d2, Steps P env1 (q.instrs.length, d) (q'.instrs.length, d1) ∧
        Steps P env2 (q.instrs.length, d) (q'.instrs.length, d2) ∧
        d1.time = d2.time ∧ d1.time = d.time + (q'.elapsed - q.elapsed) ∧
        d1.cond = none ∧ d2.cond = none := by
  obtain ⟨fuel', q'', _, hp, hf⟩ := parse_forest (Forest.cond t c body e .nil) [] (q', rest) fuel q
    ha h0 hok (by rw [List.append_nil]; exact h)
  have : q'' = q' := by
    cases fuel' with
    | zero => cases hp; rfl
    | succ n => cases hp; rfl
  subst this
  intro env1 env2 P d hP hu hd hst
  obtain ⟨r1, _, x1⟩ := hf.2.2 env1 (d.time - q.elapsed) d hd (hst env1 (by simp)) (by ring)
  obtain ⟨r2, _, x2⟩ := hf.2.2 env2 (d.time - q.elapsed) d hd (hst env2 (by simp)) (by ring)
  refine ⟨_, _, x1 P hP hu, x2 P hP hu, rfl, ?_, hd, hd⟩
  simp only
  ring

/-- **C15, whole program.**  The total run time does not depend on the triggers. -/
theorem program_time_independent {p : Program} {A : List Reg} {q : Qasm} (hA : AvailOk A)
    (hok : p.Ok A) (hc : p.compile A = .ok q) (env1 env2 : Env) (h1 : p.Stable env1)
    (h2 : p.Stable env2) {pc1 pc2 : Nat} {d1 d2 : Data}
    (s1 : Steps q.instrs env1 (0, Data.init) (pc1, d1)) (t1 : Stopped q.instrs (pc1, d1))
    (s2 : Steps q.instrs env2 (0, Data.init) (pc2, d2)) (t2 : Stopped q.instrs (pc2, d2)) :
    d1.time = d2.time := by
  rw [(program_correct_unique hA hok hc env1 h1 s1 t1).2,
    (program_correct_unique hA hok hc env2 h2 s2 t2).2]

/-- **C15, nesting is refused**: inside a conditional (`lock`), another one is a `RuntimeError`. -/
theorem nested_conditional_rejected (q : Qasm) (c : TrigCond) (h : q.lock = true) :
    condEnter q c = .error .runtimeError := by
  simp [condEnter, h]

/-- Run `n` steps. -/
def runN (P : List Instr) (env : Env) : Nat → Nat × Data → Option (Nat × Data)
  | 0, s => some s
  | n + 1, s => (step P env s).bind (runN P env n)

theorem runN_steps {P : List Instr} {env : Env} : ∀ {n : Nat} {s s' : Nat × Data},
    runN P env n s = some s' → Steps P env s s' := by
  intro n
  induction n with
  | zero => intro s s' h; cases h; exact Steps.refl _
  | succ n ih =>
    intro s s' h
    simp only [runN, Option.bind_eq_some_iff] at h
    obtain ⟨x, hx, hr⟩ := h
    exact (Steps.one hx).trans (ih hr)

/-- The code generated for a list of operations on a fresh sequencer, with the compiler's clock. -/
def compiled (ops : List Op) : Option (List Instr × Int) :=
  (parse ops.length ops (Qasm.new initRegs)).toOption.map (fun r => (r.1.instrs, r.1.elapsed))

/-- Time and position after `n` steps. -/
def timeAfter (ops : List Op) (env : Env) (n : Nat) : Option (Nat × Int) :=
  (compiled ops).bind (fun c => (runN c.1 env n (0, Data.init)).map (fun s => (s.1, s.2.time)))

/-- Length of the code and the compiler's count. -/
def counted (ops : List Op) : Option (Nat × Int) := (compiled ops).map (fun c => (c.1.length, c.2))

/-- The triggers are all on / all off. -/
def allOn : Env := fun _ _ => true
def allOff : Env := fun _ _ => false

/-- The condition used below: trigger address 1. -/
def cond1 : TrigCond := ⟨true, .or, [1]⟩

/-- Finding: with an alternative wait longer than one instruction the two outcomes differ by 4 ns
(body: nothing but 70000 ns of waiting). -/
theorem conditional_long_differs :
    counted [.cond 0 cond1, .ret 70000] = some (7, 70004) ∧
    timeAfter [.cond 0 cond1, .ret 70000] allOn 7 = some (7, 70008) ∧
    timeAfter [.cond 0 cond1, .ret 70000] allOff 7 = some (7, 70004) := by
  refine ⟨by decide +kernel, by decide +kernel, by decide +kernel⟩

/-- Finding: with a loop in the body the two outcomes differ (body: a loop of 10 `upd_param`). -/
theorem conditional_loop_differs :
    let ops : List Op := [.cond 0 cond1, .loop 0 10,
      .leaf ⟨0, false, false, true, .updParam, none⟩, .ret 4, .ret 40]
    counted ops = some (8, 44) ∧
    timeAfter ops allOn 35 = some (8, 44) ∧ timeAfter ops allOff 35 = some (8, 80) := by
  refine ⟨by decide +kernel, by decide +kernel, by decide +kernel⟩

/-- Finding: with two gaps of 2 ns the two outcomes differ (no alternative wait is emitted). -/
theorem conditional_short_gap_differs :
    let ops : List Op := [.cond 0 cond1, .leaf ⟨2, false, true, false, .setFreq 7, none⟩, .ret 4]
    counted ops = some (6, 8) ∧
    timeAfter ops allOn 6 = some (6, 4) ∧ timeAfter ops allOff 6 = some (6, 8) := by
  refine ⟨by decide +kernel, by decide +kernel, by decide +kernel⟩

/-- Finding: with a trigger-count acquisition in the body the two outcomes differ, because its
closing instruction and its wait are not both counted. -/
theorem conditional_ttl_differs :
    let ops : List Op := [.cond 0 cond1,
      .leaf ⟨0, false, false, true, .ttl 0 (.imm 0) 100, none⟩, .ret 100]
    counted ops = some (7, 104) ∧
    timeAfter ops allOn 7 = some (7, 104) ∧ timeAfter ops allOff 7 = some (7, 108) := by
  refine ⟨by decide +kernel, by decide +kernel, by decide +kernel⟩

/-- Finding: a stray return ends code generation silently; the operations after it are dropped. -/
theorem stray_return_drops (t : Int) (rest : List Op) (fuel : Nat) (q q' : Qasm)
    (h : waitTill q t false false = .ok q') :
    parse (fuel + 1) (.ret t :: rest) q = .ok (q', rest) := by
  simp only [parse, h]
  rfl

/-! ### Non-vacuity -/

/-- A pulse at time `t`. -/
def pulseAt (t : Int) : Leaf := ⟨t, false, false, true, .pulse (some 0) (some 1) 100 200, none⟩

/-- An append-mode acquisition at time `t` with its bin in register 63. -/
def acqAt (t : Int) : Leaf := ⟨t, false, false, true, .square 0 (.reg 63), none⟩

/-- A program: a pulse, a loop of 5 iterations with a pulse and an acquisition, then a
conditional pulse; 1000 repetitions; R63 holds the bin. -/
def demo : Program where
  pre := [(.setMrk, [0], 0), (.setLatchEn, [1], 4)]
  bins := [(63, 0)]
  ops := .leaf (pulseAt 0) (.loop 100 5 (.leaf (pulseAt 100) (.leaf (acqAt 200) .nil)) 1000
    (.cond 4600 cond1 [pulseAt 4600, pulseAt 4640] 4700 .nil))
  total := 5000
  reps := 1000
  latency := 20
  analog := true

/-- The example satisfies the hypotheses of the theorems above, and it compiles. -/
example : AvailOk (List.range 63) ∧ demo.Ok (List.range 63) ∧
    (demo.compile (List.range 63)).toOption.isSome = true ∧
    demo.Stable allOn ∧ demo.Stable allOff := by
  have hp : ∀ t, t < 5000 → (pulseAt t).Ok (List.range 63) := by
    intro t ht
    refine ⟨by simp [pulseAt], by simp [pulseAt, Strategy.binReg], ?_, ?_⟩
    · show t < horizon; unfold horizon; omega
    · show (4 : Int) < horizon; decide
  have ha : (acqAt 200).Ok (List.range 63) :=
    ⟨by simp [acqAt], by simp [acqAt, Strategy.binReg], by decide, by decide⟩
  have hstab : ∀ env : Env, (∀ s t, env s = env t) → demo.Stable env := by
    intro env he i _
    exact ⟨fun _ _ => trivial, fun _ _ _ => he _ _, trivial⟩
  refine ⟨⟨List.nodup_range, fun r hr => ?_⟩, ⟨?_, by decide, by decide, by decide⟩,
    by decide +kernel, hstab _ (fun _ _ => rfl), hstab _ (fun _ _ => rfl)⟩
  · have := List.mem_range.mp hr
    exact Nat.le_of_lt (Nat.lt_of_lt_of_le this (by decide))
  · refine ⟨hp 0 (by omega), ⟨by decide, by decide⟩, by decide, by decide,
      ⟨hp 100 (by omega), ha, trivial⟩, rfl, by decide, by decide, by decide, ?_, ?_, trivial⟩
    · intro l hl
      simp only [List.mem_cons, List.not_mem_nil, or_false] at hl
      rcases hl with rfl | rfl
      · exact ⟨hp 4600 (by omega), rfl, rfl⟩
      · exact ⟨hp 4640 (by omega), rfl, rfl⟩
    · simp [gapsOk, pulseAt, Strategy.dur]

end Verif.Q1
