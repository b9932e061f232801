/- Helper lemmas: the code of one operation does what the operation should do. -/
import Verif.Q1.LoopLemmas
import Verif.Q1.WellFormed

set_option linter.unusedSimpArgs false
set_option linter.unusedVariables false

namespace Verif.Q1

/-- From `q` to `q'`, code has been generated that takes `dur`, has the events `ev` and updates the
registers in use by `next`. -/
def LeafOk (q q' : Qasm) (dur : Int) (next : RegFile → RegFile) (ev : RegFile → List Event) :
    Prop :=
  Pres q q' ∧ q'.cur = q.cur + dur ∧ 0 ≤ dur ∧
  ∀ env d, d.cond = none → ∃ regs', (∀ x, x ∉ q.avail → regs' x = next d.regs x) ∧
    Exec env q q' d { d with time := d.time + dur, regs := regs',
                             trace := d.trace ++ shiftAll d.time (ev d.regs) }

theorem LeafOk.of_eq {q q1 q' : Qasm} {dur : Int} {next : RegFile → RegFile}
    {ev : RegFile → List Event} (h : LeafOk q1 q' dur next ev) (hi : q1.instrs = q.instrs)
    (ha : q1.avail = q.avail) (hc : q1.cur = q.cur) (ho : q1.outer = q.outer)
    (hl : q1.lock = q.lock) : LeafOk q q' dur next ev := by
  obtain ⟨hp, hcur, hd, he⟩ := h
  refine ⟨⟨hi ▸ hp.pre, ha ▸ hp.avail, ho ▸ hp.outer, hl ▸ hp.lock, ?_⟩, hc ▸ hcur, hd, ?_⟩
  · intro i l hi' hl'
    exact hp.lab i l (by rw [hi]; exact hi') hl'
  · intro env d hdc
    obtain ⟨regs', h1, h2⟩ := he env d hdc
    refine ⟨regs', by rw [← ha]; exact h1, h2.congr hi.symm rfl⟩

/-- Straight, label-free code. -/
theorem LeafOk.of_code {q q' : Qasm} {dur : Int} {next : RegFile → RegFile}
    {ev : RegFile → List Event} {code : List Instr} (hq : q'.instrs = q.instrs ++ code)
    (hs : ∀ i ∈ code, i.straight = true) (hl : ∀ l, Instr.label l ∉ code)
    (ha : q'.avail.Perm q.avail) (ho : q'.outer = q.outer) (hk : q'.lock = q.lock)
    (hc : q'.cur = q.cur + dur) (hd : 0 ≤ dur)
    (hr : ∀ (env : Env) (d : Data), d.cond = none →
      ∃ regs' : RegFile, (∀ x, x ∉ q.avail → regs' x = next d.regs x) ∧
      d.runs env code = { d with time := d.time + dur, regs := regs',
                                 trace := d.trace ++ shiftAll d.time (ev d.regs) }) :
    LeafOk q q' dur next ev := by
  refine ⟨Pres.of_code hq hl ha ho hk, hc, hd, ?_⟩
  intro env d hdc
  obtain ⟨regs', h1, h2⟩ := hr env d hdc
  refine ⟨regs', h1, ?_⟩
  rw [← h2]
  exact exec_straight hq hs d

/-- A real-time instruction outside a conditional. -/
theorem run_real {env : Env} {d : Data} (hd : d.cond = none) (k : Mnemonic) (args : List Arg)
    (dur : Nat) (hk : k ≠ .wait) :
    d.run env (.real k args dur) =
      { d with time := d.time + dur,
               trace := d.trace ++ [⟨d.time, k, args.map (Arg.eval d.regs)⟩] } := by
  simp only [Data.run]
  rw [if_pos (by simp [Data.enabled, hd])]
  simp [Data.eventsOf, hk]

/-- One real-time instruction. -/
theorem LeafOk.real {q : Qasm} (k : Mnemonic) (args : List Arg) (dur : Nat) (hk : k ≠ .wait)
    (q' : Qasm) (hq' : q' = (q.emit (.real k args dur)).tick dur) :
    LeafOk q q' dur id (fun b => [⟨0, k, args.map (Arg.eval b)⟩]) := by
  subst hq'
  refine LeafOk.of_code (code := [.real k args dur]) rfl (by simp [Instr.straight]) (by simp)
    (List.Perm.refl _) rfl rfl rfl (Int.natCast_nonneg _) ?_
  intro env d hd
  refine ⟨d.regs, fun _ _ => rfl, ?_⟩
  simp only [Data.runs_cons, Data.runs_nil, run_real hd k args dur hk]
  simp [shiftAll, Event.shift]

theorem emit_tick_zero (q : Qasm) (i : Instr) : q.emit i = (q.emit i).tick (0 : Nat) := by
  simp [Qasm.tick]

theorem LeafOk.congr {q q' : Qasm} {dur dur' : Int} {next next' : RegFile → RegFile}
    {ev ev' : RegFile → List Event} (h : LeafOk q q' dur next ev) (hd : dur = dur')
    (hn : ∀ b, next b = next' b) (he : ∀ b, ev b = ev' b) : LeafOk q q' dur' next' ev' := by
  obtain rfl := hd
  obtain rfl : next = next' := funext hn
  obtain rfl : ev = ev' := funext he
  exact h

theorem LeafOk.id' (q : Qasm) : LeafOk q q 0 id (fun _ => []) :=
  LeafOk.of_code (code := []) (by simp) (by simp) (by simp) (List.Perm.refl _) rfl rfl (by simp)
    (le_refl _) (by intro env d _; exact ⟨d.regs, fun _ _ => rfl, by simp [shiftAll]⟩)

theorem pulseCheck_ok {q q' : Qasm} (h : pulseCheck q = .ok q') :
    q'.instrs = q.instrs ∧ q'.avail = q.avail ∧ q'.cur = q.cur ∧ q'.outer = q.outer ∧
    q'.lock = q.lock ∧ q'.nRT = q.nRT := by
  unfold pulseCheck at h
  split at h
  · cases h; exact ⟨rfl, rfl, rfl, rfl, rfl, rfl⟩
  · split at h
    · cases h
    · cases h; exact ⟨rfl, rfl, rfl, rfl, rfl, rfl⟩

theorem acqCheck_ok {q q' : Qasm} (h : acqCheck q = .ok q') :
    q'.instrs = q.instrs ∧ q'.avail = q.avail ∧ q'.cur = q.cur ∧ q'.outer = q.outer ∧
    q'.lock = q.lock ∧ q'.nRT = q.nRT := by
  unfold acqCheck at h
  split at h
  · cases h; exact ⟨rfl, rfl, rfl, rfl, rfl, rfl⟩
  · split at h
    · cases h
    · cases h; exact ⟨rfl, rfl, rfl, rfl, rfl, rfl⟩

theorem bind_ok {α β : Type} {x : Except Err α} {f : α → Except Err β} {b : β}
    (h : x >>= f = .ok b) : ∃ a, x = .ok a ∧ f a = .ok b := by
  cases x with
  | error e => cases h
  | ok a => exact ⟨a, rfl, h⟩

theorem alloc_ok {q q' : Qasm} {r : Reg} (h : q.alloc = .ok (r, q')) :
    ∃ rest, q.avail = r :: rest ∧ q' = { q with avail := rest } := by
  unfold Qasm.alloc at h
  cases ha : q.avail with
  | nil => rw [ha] at h; cases h
  | cons x rest =>
    rw [ha] at h
    simp only [allocReg, Except.map, Except.ok.injEq, Prod.mk.injEq] at h
    obtain ⟨rfl, rfl⟩ := h
    exact ⟨rest, rfl, rfl⟩

theorem free_ok {q q' : Qasm} {r : Reg} (h : q.free r = .ok q') :
    r ∉ q.avail ∧ q' = { q with avail := r :: q.avail } := by
  unfold Qasm.free freeReg at h
  split at h
  · cases h
  · split at h
    · cases h
    · rename_i h1 h2
      simp only [Except.map, Except.ok.injEq] at h
      exact ⟨h2, h.symm⟩

theorem eval_congr {a : List Arg} {f g : RegFile} (h : ∀ r, Arg.reg r ∈ a → f r = g r) :
    a.map (Arg.eval f) = a.map (Arg.eval g) := by
  apply List.map_congr_left
  intro x hx
  cases x with
  | imm n => rfl
  | reg r => simp only [Arg.eval]; rw [h r hx]

/-- Enable, wait, disable. -/
theorem gated_ok {q q' : Qasm} {k : Mnemonic} {a1 a2 : List Arg} {dur : Int}
    (hk : k ≠ .wait) (ha : AvailOk q.avail) (hreg : ∀ r, Arg.reg r ∈ a2 → r ∉ q.avail)
    (hh : dur < horizon) (h : gated q (.real k a1 minOp) (.real k a2 minOp) dur = .ok q') :
    LeafOk q q' dur id (fun b =>
      [⟨0, k, a1.map (Arg.eval b)⟩, ⟨dur - 4, k, a2.map (Arg.eval b)⟩]) := by
  unfold gated at h
  obtain ⟨q2, h2, h3⟩ := bind_ok h
  simp only [pure, Except.pure, Except.ok.injEq] at h3
  set q1 := (q.emit (.real k a1 minOp)).tick minOp with hq1
  have hm : ((minOp : Nat) : Int) = 4 := rfl
  obtain ⟨hp, hw0, hcur, _, _, hex⟩ := autoWait_ok (q := q1) (c := true) ha
    (by rw [hm]; unfold horizon at hh; omega) h2
  rw [hm] at hw0
  have e1 := LeafOk.real (q := q) k a1 minOp hk q1 hq1
  have e3 := LeafOk.real (q := q2) k a2 minOp hk q' (by rw [← h3])
  obtain ⟨hp1, hc1, _, hx1⟩ := e1
  obtain ⟨hp3, hc3, _, hx3⟩ := e3
  refine ⟨(hp1.trans hp).trans hp3, ?_, by omega, ?_⟩
  · rw [hc3, hcur, hc1, hm]
    simp only [if_true]
    omega
  · intro env d hd
    have hE1 := exec_straight (env := env) (q := q) (q' := q1) (code := [.real k a1 minOp]) rfl
      (by simp [Instr.straight]) d
    rw [Data.runs_cons, Data.runs_nil, run_real hd k a1 minOp hk] at hE1
    obtain ⟨regs2, hag2, hE2⟩ := hex env
      { d with time := d.time + (minOp : Nat),
               trace := d.trace ++ [⟨d.time, k, a1.map (Arg.eval d.regs)⟩] } hd
    have hE3 := exec_straight (env := env) (q := q2) (q' := q') (code := [.real k a2 minOp])
      (by rw [← h3]; rfl) (by simp [Instr.straight])
      ({ d with time := d.time + (minOp : Nat) + (dur - 2 * (minOp : Nat)), regs := regs2,
                trace := d.trace ++ [⟨d.time, k, a1.map (Arg.eval d.regs)⟩] } : Data)
    rw [Data.runs_cons, Data.runs_nil, run_real (by exact hd) k a2 minOp hk] at hE3
    refine ⟨regs2, ?_, ?_⟩
    · intro x hx
      exact hag2 x hx
    · have hall := (hE1.trans hE2 hp.pre).trans hE3 hp3.pre
      have hev : a2.map (Arg.eval regs2) = a2.map (Arg.eval d.regs) :=
        eval_congr (fun r hr => hag2 r (hreg r hr))
      have ht : d.time + (4 : Int) + (dur - 2 * 4) = d.time + (dur - 4) := by ring
      have ht2 : d.time + (dur - 4) + 4 = d.time + dur := by ring
      simp only [hm, hev, ht, ht2, List.append_assoc, List.cons_append, List.nil_append] at hall
      have hsh : shiftAll d.time [⟨0, k, a1.map (Arg.eval d.regs)⟩,
          ⟨dur - 4, k, a2.map (Arg.eval d.regs)⟩] =
          [⟨d.time, k, a1.map (Arg.eval d.regs)⟩,
            ⟨d.time + (dur - 4), k, a2.map (Arg.eval d.regs)⟩] := by
        simp [shiftAll, Event.shift, add_comm]
      rw [hsh]
      exact hall

/-- Code in a row, the second part not looking at free registers. -/
theorem LeafOk.seq {q q1 q2 : Qasm} {d1 d2 : Int} {n1 n2 : RegFile → RegFile}
    {e1 e2 : RegFile → List Event} (h1 : LeafOk q q1 d1 n1 e1) (h2 : LeafOk q1 q2 d2 n2 e2)
    (hn : ∀ f g : RegFile, (∀ x, x ∉ q.avail → f x = g x) →
      ∀ x, x ∉ q.avail → n2 f x = n2 g x)
    (he : ∀ f g : RegFile, (∀ x, x ∉ q.avail → f x = g x) → e2 f = e2 g) :
    LeafOk q q2 (d1 + d2) (fun b => n2 (n1 b)) (fun b => e1 b ++ shiftAll d1 (e2 (n1 b))) := by
  obtain ⟨hp1, hc1, hd1, hx1⟩ := h1
  obtain ⟨hp2, hc2, hd2, hx2⟩ := h2
  refine ⟨hp1.trans hp2, by rw [hc2, hc1]; ring, by omega, ?_⟩
  intro env d hd
  obtain ⟨r1, ha1, hE1⟩ := hx1 env d hd
  obtain ⟨r2, ha2, hE2⟩ := hx2 env
    { d with time := d.time + d1, regs := r1, trace := d.trace ++ shiftAll d.time (e1 d.regs) } hd
  refine ⟨r2, ?_, ?_⟩
  · intro x hx
    rw [ha2 x (fun hc => hx (hp1.avail.mem_iff.mp hc))]
    exact hn _ _ ha1 x hx
  · have := hE1.trans hE2 hp2.pre
    have hsh : shiftAll (d.time + d1) (e2 r1) = shiftAll d.time (shiftAll d1 (e2 (n1 d.regs))) := by
      rw [he _ _ ha1]
      simp [shiftAll, Event.shift, Function.comp_def, add_comm, add_left_comm]
    simp only [add_assoc, List.append_assoc] at this ⊢
    have hsh' := hsh
    rw [show d.time + d1 = d.time + d1 from rfl] at hsh'
    rw [hsh'] at this
    have hmap : shiftAll d.time (e1 d.regs ++ shiftAll d1 (e2 (n1 d.regs))) =
        shiftAll d.time (e1 d.regs) ++ shiftAll d.time (shiftAll d1 (e2 (n1 d.regs))) := by
      simp [shiftAll]
    rw [hmap]
    exact this

/-- Register-free version of the `add` that ends an append-mode acquisition. -/
theorem LeafOk.addOne {q : Qasm} (r : Reg) (q' : Qasm) (hq' : q' = q.emit (.add r 1 r)) :
    LeafOk q q' 0 (fun b => b.set r ((b r + 1) % wordSize)) (fun _ => []) := by
  subst hq'
  refine LeafOk.of_code (code := [.add r 1 r]) rfl (by simp [Instr.straight]) (by simp)
    (List.Perm.refl _) rfl rfl (by simp [Qasm.emit]) (le_refl _) ?_
  intro env d hd
  exact ⟨_, fun _ _ => rfl, by simp [Data.run, shiftAll]⟩

theorem set_congr {q : Qasm} {r : Reg} (hr : r ∉ q.avail) (f g : RegFile)
    (h : ∀ x, x ∉ q.avail → f x = g x) (x : Reg) (hx : x ∉ q.avail) :
    f.set r ((f r + 1) % wordSize) x = g.set r ((g r + 1) % wordSize) x := by
  unfold RegFile.set
  split
  · rw [h r hr]
  · exact h x hx

end Verif.Q1
