/-
C12: a wait of any length waits exactly that long.
C33: inverting a trigger condition is negation.
-/
import Verif.Q1.ProgramLemmas
import Verif.Q1.RegisterProps
import Mathlib.Data.List.Nodup

set_option linter.unusedSimpArgs false
set_option linter.unusedVariables false

namespace Verif.Q1

/-! ### C12 -/

/-- The durations of the `wait` lines of some code. -/
def waitArgs (code : List Instr) : List Nat :=
  code.filterMap (fun i => match i with | .real .wait _ n => some n | _ => none)

theorem waitArgs_append (a b : List Instr) : waitArgs (a ++ b) = waitArgs a ++ waitArgs b := by
  simp [waitArgs]

theorem waitArgs_map (ws : List Nat) :
    waitArgs (ws.map (fun n => Instr.real .wait [] n)) = ws := by
  induction ws with
  | nil => rfl
  | cons a ws ih => simpa [waitArgs] using ih

/-- **C12, execution.**  Whatever has been compiled before (`q`, with a sane register manager),
if `auto_wait(w)` succeeds then in every program that goes on from there (with distinct labels),
executing the emitted lines takes exactly `w` nanoseconds, does nothing observable, leaves every
register that is in use untouched, and the compiler's own clock advances by `w` (or not at all,
with `count_as_elapsed_time=False`). -/
theorem auto_wait_exact {q q' : Qasm} {w : Int} {count : Bool} (ha : AvailOk q.avail)
    (hw : w < horizon) (h : q.autoWait w count = .ok q') :
    q'.elapsed = q.elapsed + (if count then w else 0) ∧
    ∀ (env : Env) (P : List Instr) (d : Data), q'.instrs <+: P → LabelsUnique P → d.cond = none →
      ∃ d', Steps P env (q.instrs.length, d) (q'.instrs.length, d') ∧
        d'.time = d.time + w ∧ d'.trace = d.trace ∧ d'.cond = none ∧
        ∀ r, r ∉ q.avail → d'.regs r = d.regs r := by
  obtain ⟨hp, h0, hc, _, _, hx⟩ := autoWait_ok ha hw h
  refine ⟨?_, ?_⟩
  · cases count with
    | true => exact elapsed_of (by simpa using hc) hp.outer
    | false => exact elapsed_of (by simpa using hc) hp.outer
  · intro env P d hP hu hd
    obtain ⟨regs', h1, h2⟩ := hx env d hd
    exact ⟨_, h2 P hP hu, rfl, rfl, hd, h1⟩

/-- **C12, acceptance.**  A wait is accepted exactly when it is not negative, as long as a register
is free (one is needed for waits above 327660 ns); a negative wait is a `ValueError`. -/
theorem auto_wait_accepts {q : Qasm} {w : Int} {count : Bool} (ha : AvailOk q.avail)
    (hfree : q.avail ≠ []) :
    (0 ≤ w → ∃ q', q.autoWait w count = .ok q') ∧
    (w < 0 → q.autoWait w count = .error .valueError) := by
  constructor
  · intro h0
    unfold Qasm.autoWait
    split
    · exact ⟨_, rfl⟩
    split
    · omega
    split
    · simp only
      split
      · cases hav : q.avail with
        | nil => exact absurd hav hfree
        | cons r rest =>
          rw [hav] at ha
          have hr : r ≤ 64 := ha.bound r List.mem_cons_self
          have hn : r ∉ rest := (List.nodup_cons.mp ha.nodup).1
          simp only [Qasm.loopEnter, Qasm.alloc, hav, allocReg, Except.map, bind, Except.bind, pure,
            Except.pure, Qasm.emit, emitWait_eq]
          rw [loopExit_ok (o := q.cur) (rest := q.outer) rfl hr hn]
          exact ⟨_, rfl⟩
      · exact ⟨_, rfl⟩
    · exact ⟨_, rfl⟩
  · intro h
    unfold Qasm.autoWait
    rw [if_neg (by omega), if_pos h]

/-- **C12, nothing for zero.** -/
theorem auto_wait_zero (q : Qasm) (count : Bool) : q.autoWait 0 count = .ok q := by
  simp [Qasm.autoWait]

/-- **C12, ranges.**  Every emitted `wait` is between 1 and 65532 ns. -/
theorem auto_wait_in_range {q q' : Qasm} {w : Int} {count : Bool}
    (h : q.autoWait w count = .ok q') :
    ∃ code, q'.instrs = q.instrs ++ code ∧ ∀ n ∈ waitArgs code, 1 ≤ n ∧ n ≤ 65532 := by
  have hM : maxWait = 65532 := rfl
  have hrest : ∀ (q : Qasm) (n : Nat), n ≤ 65532 → ∃ code, (q.emitRest n count).instrs =
      q.instrs ++ code ∧ ∀ m ∈ waitArgs code, 1 ≤ m ∧ m ≤ 65532 := by
    intro q n hn
    unfold Qasm.emitRest
    split
    · rw [emitWait_eq]
      refine ⟨_, rfl, ?_⟩
      intro m hm
      simp [waitArgs] at hm
      omega
    · exact ⟨[], by simp, by simp [waitArgs]⟩
  by_cases hs : w < 327660
  · obtain ⟨_, rfl⟩ := autoWait_small hs h
    refine ⟨_, rfl, ?_⟩
    rw [waitArgs_map]
    exact waitList_pos _
  · unfold Qasm.autoWait at h
    have h5 : ¬ ((w.toNat / maxWait) ≤ 4) := by rw [hM]; omega
    have hgt : w > (maxWait : Nat) := by rw [hM]; omega
    have h4 : w.toNat / maxWait > 4 := by omega
    rw [if_neg (by omega), if_neg (by omega), if_pos hgt] at h
    simp only [if_pos h4] at h
    obtain ⟨⟨r, q1⟩, h1, h⟩ := bind_ok h
    obtain ⟨q2, h2, h⟩ := bind_ok h
    cases h
    obtain ⟨rest, hav, hq1⟩ := loopEnter_ok h1
    unfold Qasm.loopExit at h2
    obtain ⟨q3, h3, h2⟩ := bind_ok h2
    obtain ⟨_, hq3⟩ := free_ok h3
    have hi2 : q2.instrs = q3.instrs := by
      split at h2
      · cases h2
      · cases h2; rfl
    have hmod : w.toNat % maxWait ≤ 65532 := by
      have := Nat.mod_lt w.toNat (show 0 < maxWait by decide)
      omega
    obtain ⟨code, hc, hcode⟩ := hrest q2 _ hmod
    have hi3 : q2.instrs = q.instrs ++ [.move (w.toNat / maxWait) r,
        .label (.wait q.instrs.length), .real .wait [] maxWait,
        .loop r (.wait q.instrs.length)] := by
      rw [hi2, hq3, emitWait_eq, hq1]
      simp [Qasm.emit]
    refine ⟨_, by rw [hc, hi3, List.append_assoc], ?_⟩
    intro n hn
    rw [waitArgs_append, List.mem_append] at hn
    rcases hn with hn | hn
    · simp [waitArgs, hM] at hn
      omega
    · exact hcode n hn

/-- Non-vacuity: a fresh sequencer, a wait of one second; the emitted lines. -/
example : AvailOk initRegs ∧ (1000000000 : Int) < horizon ∧
    ((Qasm.new initRegs).autoWait 1000000000).toOption.map Qasm.instrs =
      some [.move 15259 0, .label (.wait 0), .real .wait [] 65532, .loop 0 (.wait 0),
        .real .wait [] 47212] := by
  refine ⟨⟨by decide, ?_⟩, by decide, by decide +kernel⟩
  exact fun r hr => Nat.le_of_lt (List.mem_range.mp hr)

/-- Finding: the sequencer's shortest wait is 4 ns, but `auto_wait` splits 65533 ns into
65532 ns and 1 ns. -/
theorem auto_wait_short_rest :
    ((Qasm.new initRegs).autoWait 65533).toOption.map (fun q => waitArgs q.instrs) =
      some [65532, 1] := by decide +kernel

/-! ### C33 -/

/-- **C33, negation.**  For every operator, mask and latch state, the inverted condition holds
exactly when the original does not. -/
theorem invert_is_negation (op : TrigOp) (mask : Nat) (latched : Nat → Bool) :
    op.invert.holds mask latched = true ↔ op.holds mask latched = false := by
  rw [holds_invert]
  cases op.holds mask latched <;> simp

/-- **C33, involution.** -/
theorem invert_involution (op : TrigOp) : op.invert.invert = op := by cases op <;> rfl

theorem add_eq_or : ∀ a b : Nat, a &&& b = 0 → a + b = a ||| b := by
  intro a
  induction a using Nat.strongRecOn with
  | ind a ih =>
    intro b h
    by_cases ha : a = 0
    · subst ha; simp
    · have h1 : a / 2 &&& b / 2 = 0 := by rw [← Nat.and_div_two, h]
      have h2 := ih (a / 2) (by omega) (b / 2) h1
      have h3 : (a ||| b) / 2 = a / 2 ||| b / 2 := Nat.or_div_two
      have h4 : (a &&& b) % 2 = 0 := by rw [h]
      have h5 : ¬ (a % 2 = 1 ∧ b % 2 = 1) := by
        rw [← Nat.and_mod_two_eq_one]; omega
      have h6 : (a ||| b) % 2 = 1 ↔ a % 2 = 1 ∨ b % 2 = 1 := Nat.or_mod_two_eq_one
      omega

theorem pow_sum_testBit (l : List Nat) (hn : l.Nodup) : ∀ i,
    ((l.map (fun a => 2 ^ a)).sum).testBit i = decide (i ∈ l) := by
  induction l with
  | nil => intro i; simp
  | cons a l ih =>
    intro i
    obtain ⟨hna, hnl⟩ := List.nodup_cons.mp hn
    have hdis : 2 ^ a &&& (l.map (fun a => 2 ^ a)).sum = 0 := by
      apply Nat.eq_of_testBit_eq
      intro j
      rw [Nat.testBit_and, ih hnl, Nat.testBit_two_pow, Nat.zero_testBit]
      by_cases hj : a = j
      · subst hj; simp [hna]
      · simp [hj]
    rw [List.map_cons, List.sum_cons]
    have hor := add_eq_or _ _ hdis
    rw [hor, Nat.testBit_or, Nat.testBit_two_pow, ih hnl]
    by_cases hj : a = i
    · subst hj; simp
    · simp [hj, Ne.symm hj, eq_comm]

/-- **C33, mask.**  For distinct trigger addresses (≥ 1), bit `i` of the mask is set iff address
`i+1` is among them. -/
theorem mask_selects (addresses : List Nat) (hn : addresses.Nodup)
    (hpos : ∀ a ∈ addresses, 1 ≤ a) (i : Nat) :
    (maskOf addresses).testBit i = decide (i + 1 ∈ addresses) := by
  have h1 : addresses.map (fun a => 2 ^ (a - 1)) =
      (addresses.map (fun a => a - 1)).map (fun a => 2 ^ a) := by simp [Function.comp_def]
  unfold maskOf
  rw [h1, pow_sum_testBit]
  · congr 1
    simp only [List.mem_map, eq_iff_iff]
    constructor
    · rintro ⟨a, ha, hai⟩
      have := hpos a ha
      rwa [show i + 1 = a by omega]
    · intro h
      exact ⟨i + 1, h, rfl⟩
  · refine List.Nodup.map_on ?_ hn
    intro x hx y hy hxy
    have := hpos x hx
    have := hpos y hy
    omega

example : ([1, 3] : List Nat).Nodup ∧ maskOf [1, 3] = 5 := by decide

/-- Finding: a repeated address selects a different trigger (2 instead of 1). -/
theorem mask_of_duplicates : maskOf [1, 1] = maskOf [2] := by decide

end Verif.Q1
