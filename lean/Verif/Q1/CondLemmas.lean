/- Helper lemmas: conditional playback. -/
import Verif.Q1.ForestLemmas
import Mathlib.Logic.Relation

set_option linter.unusedSimpArgs false
set_option linter.unusedVariables false

namespace Verif.Q1

/-- Instructions allowed in the body of a conditional. -/
def Instr.plain : Instr → Bool
  | .newline => true
  | .move _ _ => true
  | .add _ _ _ => true
  | .real _ _ _ => true
  | _ => false

theorem Instr.plain_straight {i : Instr} (h : i.plain = true) : i.straight = true := by
  cases i <;> simp_all [Instr.plain, Instr.straight]

/-- Is it a real-time instruction with a duration? -/
def Instr.rt : Instr → Nat
  | .real _ _ d => if d = 0 then 0 else 1
  | _ => 0

/-- Nominal duration. -/
def Instr.dur : Instr → Nat
  | .real _ _ d => d
  | _ => 0

/-- Number of real-time instructions with a duration. -/
def rtCount (code : List Instr) : Nat := (code.map Instr.rt).sum

/-- Total nominal duration. -/
def durSum (code : List Instr) : Nat := (code.map Instr.dur).sum

theorem rtCount_append (a b : List Instr) : rtCount (a ++ b) = rtCount a + rtCount b := by
  simp [rtCount]

theorem rtCount_cons (i : Instr) (b : List Instr) : rtCount (i :: b) = i.rt + rtCount b := by
  simp [rtCount]

theorem durSum_cons (i : Instr) (b : List Instr) : durSum (i :: b) = i.dur + durSum b := by
  simp [durSum]

/-- Effect on the registers. -/
def classical (regs : RegFile) : Instr → RegFile
  | .move n r => regs.set r n
  | .add r n dst => regs.set dst ((regs r + n) % wordSize)
  | _ => regs

theorem run_regs (env : Env) (d : Data) (i : Instr) (h : i.plain = true) :
    (d.run env i).regs = classical d.regs i := by
  cases i with
  | real k args dur =>
    simp only [Data.run, classical]
    split <;> rfl
  | _ => first | rfl | (simp [Instr.plain] at h)

theorem runs_regs (env env' : Env) {code : List Instr} (h : ∀ i ∈ code, i.plain = true) :
    ∀ d d' : Data, d.regs = d'.regs → (d.runs env code).regs = (d'.runs env' code).regs := by
  induction code with
  | nil => intro d d' hd; exact hd
  | cons i is ih =>
    intro d d' hd
    simp only [Data.runs_cons]
    apply ih (fun j hj => h j (List.mem_cons_of_mem _ hj))
    rw [run_regs env d i (h i List.mem_cons_self), run_regs env' d' i (h i List.mem_cons_self), hd]

theorem run_time_none (env : Env) (d : Data) (i : Instr) (h : i.plain = true)
    (hd : d.cond = none) : (d.run env i).time = d.time + i.dur ∧ (d.run env i).cond = none := by
  cases i with
  | real k args dur =>
    simp [Data.run, Data.enabled, hd, Instr.dur]
  | _ => first | (simp [Data.run, Instr.dur, hd]; done) | (simp [Instr.plain] at h)

theorem runs_time_none (env : Env) {code : List Instr} (h : ∀ i ∈ code, i.plain = true) :
    ∀ d : Data, d.cond = none → (d.runs env code).time = d.time + durSum code ∧
      (d.runs env code).cond = none := by
  induction code with
  | nil => intro d hd; simp [durSum, hd]
  | cons i is ih =>
    intro d hd
    obtain ⟨h1, h2⟩ := run_time_none env d i (h i List.mem_cons_self) hd
    obtain ⟨h3, h4⟩ := ih (fun j hj => h j (List.mem_cons_of_mem _ hj)) _ h2
    simp only [Data.runs_cons]
    refine ⟨?_, h4⟩
    rw [h3, h1, durSum_cons]
    push_cast
    ring

/-- With the condition fulfilled all along, the code runs as if there were no condition. -/
theorem runs_open (env : Env) {code : List Instr} (h : ∀ i ∈ code, i.plain = true) (c : Cond) :
    ∀ d : Data, d.cond = some c →
      (∀ τ, d.time ≤ τ → τ ≤ d.time + durSum code → c.op.holds c.mask (env τ) = true) →
      d.runs env code = { ({ d with cond := none } : Data).runs env code with cond := some c } := by
  induction code with
  | nil => intro d hd _; cases d; simp_all
  | cons i is ih =>
    intro d hd hc
    have hplain := h i List.mem_cons_self
    have h1 : d.run env i = { ({ d with cond := none } : Data).run env i with cond := some c } := by
      cases i with
      | real k args dur =>
        have hen : d.enabled env = true := by
          simp only [Data.enabled, hd]
          exact hc d.time (le_refl _) (by omega)
        simp [Data.run, hen, Data.enabled, Data.eventsOf]
        cases d; simp_all
      | newline => cases d; simp_all [Data.run]
      | move n r => cases d; simp_all [Data.run]
      | add r n x => cases d; simp_all [Data.run]
      | _ => simp [Instr.plain] at hplain
    obtain ⟨ht, hcn⟩ := run_time_none env ({ d with cond := none } : Data) i hplain rfl
    simp only [Data.runs_cons]
    rw [h1]
    rw [ih (fun j hj => h j (List.mem_cons_of_mem _ hj)) _ rfl]
    · have : ({ ({ ({ d with cond := none } : Data).run env i with cond := some c } : Data) with
          cond := none } : Data) = ({ d with cond := none } : Data).run env i := by
        generalize ({ d with cond := none } : Data).run env i = x at hcn
        cases x; simp_all
      rw [this]
    · intro τ h2 h3
      simp only at h2 h3
      rw [ht] at h2 h3
      simp only at h2 h3
      apply hc τ (by have := Int.natCast_nonneg i.dur; omega)
      rw [durSum_cons]
      push_cast
      omega

/-- With the condition violated all along, nothing happens except register arithmetic. -/
theorem runs_blocked (env : Env) {code : List Instr} (h : ∀ i ∈ code, i.plain = true) (c : Cond) :
    ∀ d : Data, d.cond = some c →
      (∀ τ, d.time ≤ τ → τ ≤ d.time + c.elseDur * rtCount code →
        c.op.holds c.mask (env τ) = false) →
      d.runs env code = { d with
        time := d.time + c.elseDur * rtCount code
        regs := (({ d with cond := none } : Data).runs env code).regs } := by
  induction code with
  | nil => intro d hd _; cases d; simp_all [rtCount]
  | cons i is ih =>
    intro d hd hc
    have hplain := h i List.mem_cons_self
    have hrest := fun j hj => h j (List.mem_cons_of_mem _ hj)
    have h1 : d.run env i = { d with time := d.time + c.elseDur * i.rt
                                     regs := classical d.regs i } := by
      cases i with
      | real k args dur =>
        have hen : d.enabled env = false := by
          simp only [Data.enabled, hd]
          refine hc d.time (le_refl _) ?_
          have : (0 : Int) ≤ c.elseDur * (rtCount (.real k args dur :: is) : Int) := Int.mul_nonneg (Int.natCast_nonneg _) (Int.natCast_nonneg _)
          omega
        simp only [Data.run, hen, Data.skipTime, hd, Instr.rt, classical]
        split <;> simp_all
      | newline => cases d; simp_all [Data.run, Instr.rt, classical]
      | move n r => cases d; simp_all [Data.run, Instr.rt, classical]
      | add r n x => cases d; simp_all [Data.run, Instr.rt, classical]
      | _ => simp [Instr.plain] at hplain
    have htot : d.time + (c.elseDur : Int) * i.rt + c.elseDur * rtCount is =
        d.time + c.elseDur * rtCount (i :: is) := by
      rw [rtCount_cons]; push_cast; ring
    simp only [Data.runs_cons]
    rw [h1]
    rw [ih hrest ({ d with time := d.time + c.elseDur * i.rt, regs := classical d.regs i } : Data)
      hd]
    · have hr := runs_regs env env hrest
        ({ d with time := d.time + c.elseDur * i.rt, regs := classical d.regs i, cond := none } : Data)
        (({ d with cond := none } : Data).run env i) (by rw [run_regs env _ i hplain])
      simp only [htot]
      rw [← hr]
    · intro τ h2 h3
      simp only at h2 h3
      rw [htot] at h3
      apply hc τ _ h3
      have : (0 : Int) ≤ c.elseDur * (i.rt : Int) := Int.mul_nonneg (Int.natCast_nonneg _) (Int.natCast_nonneg _)
      omega

theorem step_det {P : List Instr} {env : Env} {s a b : Nat × Data} (ha : step P env s = some a)
    (hb : step P env s = some b) : a = b := by
  rw [ha] at hb
  exact Option.some.inj hb

theorem steps_end {P : List Instr} {env : Env} {d : Data} {s : Nat × Data}
    (h : Steps P env (P.length, d) s) : s = (P.length, d) := by
  have hn : step P env (P.length, d) = none := by simp [step]
  rcases Relation.ReflTransGen.cases_head h with h | ⟨x, hx, _⟩
  · exact h.symm
  · rw [hn] at hx; cases hx

/-- Straight code has only one possible outcome. -/
theorem exec_runs {env : Env} {q q' : Qasm} {code : List Instr} {d d' : Data}
    (hq : q'.instrs = q.instrs ++ code) (hs : ∀ i ∈ code, i.straight = true)
    (hu : LabelsUnique q'.instrs) (h : Exec env q q' d d') : d' = d.runs env code := by
  have h1 := h q'.instrs List.prefix_rfl hu
  have h2 := exec_straight (env := env) hq hs d q'.instrs List.prefix_rfl hu
  have hdet : Relator.RightUnique (fun a b : Nat × Data => step q'.instrs env a = some b) :=
    fun a b c hb hc => step_det hb hc
  rcases Relation.ReflTransGen.total_of_right_unique hdet h1 h2 with h3 | h3
  · have := steps_end h3
    exact (Prod.mk.inj this).2.symm
  · have := steps_end h3
    exact (Prod.mk.inj this).2

theorem LabelsUnique.prefix {P Q : List Instr} (h : LabelsUnique P) (hp : Q <+: P) :
    LabelsUnique Q := by
  obtain ⟨s, rfl⟩ := hp
  intro i j l hi hj
  have key : ∀ k : Nat, Q[k]? = some (Instr.label l) → (Q ++ s)[k]? = some (Instr.label l) := by
    intro k hk
    have : k < Q.length := by
      by_contra hc
      rw [List.getElem?_eq_none (by omega)] at hk
      cases hk
    rw [List.getElem?_append_left this]
    exact hk
  exact h i j l (key i hi) (key j hj)

end Verif.Q1
