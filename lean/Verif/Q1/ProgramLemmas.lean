/- Helper lemmas: the complete program. -/
import Verif.Q1.ParseLemmas2
import Verif.Q1.ProgramSpec

set_option linter.unusedSimpArgs false
set_option linter.unusedVariables false

namespace Verif.Q1

/-- Where labels can be. -/
def LabInv (s : Nat) (P : List Instr) : Prop :=
  ∀ (i : Nat) (l : Label), P[i]? = some (Instr.label l) →
    (l = .start ∧ i = s) ∨ (l ≠ .start ∧ l.num + 1 = i)

theorem LabInv.unique {s : Nat} {P : List Instr} (h : LabInv s P) : LabelsUnique P := by
  intro i j l hi hj
  rcases h i l hi with ⟨h1, h2⟩ | ⟨h1, h2⟩ <;> rcases h j l hj with ⟨h3, h4⟩ | ⟨h3, h4⟩
  · omega
  · exact absurd h1 h3
  · exact absurd h3 h1
  · omega

theorem LabInv.pres {s : Nat} {q q' : Qasm} (h : LabInv s q.instrs) (hp : Pres q q') :
    LabInv s q'.instrs := by
  intro i l hl
  by_cases hc : q.instrs.length ≤ i
  · exact Or.inr (hp.lab i l hc hl)
  · obtain ⟨x, hx⟩ := hp.pre
    rw [← hx, List.getElem?_append_left (by omega)] at hl
    exact h i l hl

theorem LabInv.code {s : Nat} {P code : List Instr} (h : LabInv s P)
    (hl : ∀ l, Instr.label l ∉ code) : LabInv s (P ++ code) := by
  intro i l hi
  by_cases hc : P.length ≤ i
  · rw [List.getElem?_append_right hc] at hi
    exact absurd (List.mem_of_getElem? hi) (hl l)
  · rw [List.getElem?_append_left (by omega)] at hi
    exact h i l hi

theorem runs_pre (env : Env) (pre : List (Mnemonic × List Int × Nat)) : ∀ d : Data, d.cond = none →
    d.runs env (pre.map (fun i => .real i.1 (i.2.1.map Arg.imm) i.2.2)) =
      { d with time := d.time + ((pre.map (fun i => i.2.2)).sum : Nat),
               trace := d.trace ++ preEvents d.time pre } := by
  induction pre with
  | nil => intro d _; simp [preEvents]
  | cons i is ih =>
    intro d hd
    simp only [List.map_cons, Data.runs_cons, Data.run]
    rw [if_pos (by simp [Data.enabled, hd])]
    rw [ih { d with time := d.time + i.2.2, trace := d.trace ++ d.eventsOf i.1 (i.2.1.map Arg.imm) } hd]
    have he : d.eventsOf i.1 (i.2.1.map Arg.imm) =
        (if i.1 = .wait then [] else [⟨d.time, i.1, i.2.1⟩]) := by
      unfold Data.eventsOf
      split
      · rfl
      · simp [Function.comp_def, Arg.eval]
    simp only [he, preEvents, List.append_assoc, List.sum_cons]
    congr 1
    push_cast
    ring

theorem runs_moves (env : Env) (bins : List (Reg × Nat)) : ∀ d : Data,
    d.runs env (bins.map (fun b => .move b.2 b.1)) =
      { d with regs := bins.foldl (fun f b => f.set b.1 b.2) d.regs } := by
  induction bins with
  | nil => intro d; rfl
  | cons b bs ih =>
    intro d
    simp only [List.map_cons, Data.runs_cons, Data.run, ih, List.foldl_cons]

/-- The machine after the header. -/
theorem header_runs (env : Env) (p : Program) (avail : List Reg) :
    Data.init.runs env (genHeader avail p.pre p.bins).instrs =
      { regs := initBins p.bins, time := p.syncTime + 8, cond := none,
        trace := preEvents 0 p.pre ++
          [⟨p.syncTime, .waitSync, []⟩, ⟨p.syncTime + 4, .updParam, []⟩] } := by
  have : (genHeader avail p.pre p.bins).instrs =
      p.pre.map (fun i => Instr.real i.1 (i.2.1.map Arg.imm) i.2.2) ++
      ([.real .waitSync [] minOp, .real .updParam [] minOp] ++
        p.bins.map (fun b => .move b.2 b.1)) := by
    simp [genHeader, Qasm.new, Qasm.emits]
  rw [this, Data.runs_append, Data.runs_append, runs_pre env _ _ rfl, runs_moves]
  simp [Data.init, Data.run, Data.enabled, Data.eventsOf, minOp, initBins, Program.syncTime]
  ring

theorem header_plain (p : Program) (avail : List Reg) :
    ∀ i ∈ (genHeader avail p.pre p.bins).instrs, i.plain = true := by
  intro i hi
  simp only [genHeader, Qasm.new, Qasm.emits, List.nil_append, List.mem_append, List.mem_map,
    List.mem_cons, List.not_mem_nil, or_false] at hi
  rcases hi with (⟨x, _, rfl⟩ | rfl | rfl) | ⟨x, _, rfl⟩ <;> rfl

theorem repHeader_runs (env : Env) (analog : Bool) (d : Data) (hd : d.cond = none) :
    d.runs env (repHeader analog) =
      { d with time := d.time + 4, trace := d.trace ++ repEvents analog d.time } := by
  cases analog <;>
    simp [repHeader, repEvents, Data.run, Data.enabled, hd, Data.eventsOf, minOp]

theorem iterate_agree_rep {A : List Reg} {p : Program} {env : Env} (hok : p.ops.Ok A) (δ : Int)
    (f g : RegFile) (h : Agree A f g) :
    Agree A (p.repetition env δ f).1 (p.repetition env δ g).1 ∧
    (p.repetition env δ f).2 = (p.repetition env δ g).2 := by
  obtain ⟨h1, h2⟩ := run_agree (env := env) hok (δ := δ + 4) h
  exact ⟨h1, by simp only [Program.repetition]; rw [h2]⟩

/-- The complete program, executed. -/
theorem program_exec {p : Program} {A : List Reg} {q : Qasm} (hA : AvailOk A) (hok : p.Ok A)
    (hc : p.compile A = .ok q) (env : Env) (hst : p.Stable env) :
    ∃ d : Data, Steps q.instrs env (0, Data.init) (q.instrs.length - 1, d) ∧
      Stopped q.instrs (q.instrs.length - 1, d) ∧
      d.trace = p.trace env ∧ d.time = p.start + p.reps * p.period ∧
      Agree A d.regs (iterate (p.repetition env) p.period p.reps p.start (initBins p.bins)).1 := by
  unfold Program.compile genBody at hc
  obtain ⟨q1, h1, hc⟩ := bind_ok hc
  obtain ⟨⟨r, qE⟩, hE, hc⟩ := bind_ok hc
  obtain ⟨⟨q4, rest4⟩, h4, hc⟩ := bind_ok hc
  obtain ⟨q5, h5, hc⟩ := bind_ok hc
  obtain ⟨q6, h6, hc⟩ := bind_ok hc
  simp only [pure, Except.pure, Except.ok.injEq] at hc
  have hm : ((minOp : Nat) : Int) = 4 := rfl
  set q0 := genHeader A p.pre p.bins with hq0
  have ha0 : q0.avail = A := rfl
  have hc0 : q0.cur = 0 := rfl
  have ho0 : q0.outer = [] := rfl
  have hpl := header_plain p A
  have hrun0 := header_runs env p A
  rw [← hq0] at hpl hrun0
  clear_value q0
  -- the latency wait
  rw [hm] at h1
  obtain ⟨hp1, hlat, hcur1, _, _, hx1⟩ := autoWait_ok (by rw [ha0]; exact hA)
    (by have := hok.latency; unfold horizon at this; exact this) h1
  have hA1 : AvailOk q1.avail := hA.perm (by have := hp1.avail; rw [ha0] at this; exact this)
  -- entering the repetition loop
  obtain ⟨rest, hav, hqE⟩ := loopEnter_ok hE
  have hEi : qE.instrs = q1.instrs ++ [.move p.reps r, .label .start] := by rw [hqE]
  have hEav : qE.avail = rest := by rw [hqE]
  have hEc : qE.cur = 0 := by rw [hqE]
  have hc1 : q1.cur = 0 := by rw [hcur1, hc0]; rfl
  have hEo : qE.outer = [0] := by rw [hqE]; simp [hc1, hp1.outer, ho0]
  have hsubE : ∀ x ∈ rest, x ∈ A := by
    intro x hx
    have : x ∈ q1.avail := by rw [hav]; exact List.mem_cons_of_mem _ hx
    rw [← ha0]
    exact hp1.avail.mem_iff.mp this
  have hrA : r ∈ A := by
    rw [← ha0]; apply hp1.avail.mem_iff.mp; rw [hav]; exact List.mem_cons_self
  have hrest : AvailOk rest := by rw [hav] at hA1; exact hA1.tail
  have hrr : r ∉ rest := by
    rw [hav] at hA1; exact (List.nodup_cons.mp hA1.nodup).1
  -- the header of the repetition
  set q3 := qE.emits (repHeader p.analog) with hq3
  have h3i : q3.instrs = qE.instrs ++ repHeader p.analog := rfl
  have h3av : q3.avail = rest := by rw [← hEav]; rfl
  have h3el : q3.elapsed = 0 := by
    show qE.cur + qE.outer.sum = 0
    rw [hEc, hEo]; rfl
  have h3o : q3.outer = [0] := hEo
  clear_value q3
  obtain ⟨fuel', q4', _, hp4, hf4⟩ := parse_forest p.ops [] (q4, rest4) p.ops.flatten.length q3
    (by rw [h3av]; exact hrest) (by rw [h3el]) (hok.ops.mono (by rw [h3av]; exact hsubE))
    (by rw [List.append_nil]; exact h4)
  have : q4' = q4 := by
    cases fuel' with
    | zero => cases hp4; rfl
    | succ n => cases hp4; rfl
  subst this
  -- the final wait
  have hA4 : AvailOk q4'.avail := AvailOk.perm (by rw [h3av]; exact hrest) hf4.1.avail
  have h40 : 0 ≤ q4'.elapsed := by have := hf4.2.1; omega
  have hw5 : FragOk q4' q5 Behaviour.none (fun _ _ => True) ∧ q5.elapsed = p.total := by
    unfold finalWait at h5
    split at h5
    · cases h5
    · have hl := autoWait_leaf hA4 (by have := hok.total; omega) h5
      have he := elapsed_of hl.2.1 hl.1.outer
      refine ⟨⟨hl.1, by omega, ?_⟩, by omega⟩
      intro env B d hd _ hdt
      obtain ⟨rg, hr1, hr2⟩ := hl.2.2.2 env d hd
      refine ⟨rg, hr1, ?_⟩
      have e : d.time + (p.total - q4'.elapsed) = B + q5.elapsed := by omega
      rw [e] at hr2
      simpa [shiftAll, Behaviour.none] using hr2
  have hf5 := hf4.seqNone hw5.1
  have hq5 := hw5.2
  have h5o : q5.outer = [0] := by rw [hf5.1.outer, h3o]
  have h5n : r ∉ q5.avail := by
    intro hcx
    have := hf5.1.avail.mem_iff.mp hcx
    rw [h3av] at this
    exact hrr this
  -- leaving the loop
  have hr64 : r ≤ 64 := hA.bound r hrA
  rw [loopExit_ok h5o hr64 h5n] at h6
  cases h6
  subst hc
  set q6 : Qasm := { q5 with instrs := q5.instrs ++ [.loop r .start], avail := r :: q5.avail,
                             cur := 0 + q5.cur * p.reps, outer := [] } with hq6
  have h6i : q6.instrs = q5.instrs ++ [.loop r .start] := rfl
  clear_value q6
  have hfi : (q6.emit .stop).instrs = q6.instrs ++ [.stop] := rfl
  set P := (q6.emit .stop).instrs with hP
  -- labels
  have hlab0 : LabInv (q1.instrs.length + 1) q0.instrs := by
    intro i l hl
    have := hpl _ (List.mem_of_getElem? hl)
    simp [Instr.plain] at this
  have hlab1 := hlab0.pres hp1
  have hlabE : LabInv (q1.instrs.length + 1) qE.instrs := by
    rw [hEi]
    intro i l hi
    by_cases hcx : q1.instrs.length ≤ i
    · rw [List.getElem?_append_right hcx] at hi
      generalize hk : i - q1.instrs.length = k at hi
      match k with
      | 0 => simp at hi
      | 1 =>
        simp at hi
        exact Or.inl ⟨hi.symm, by omega⟩
      | k + 2 => simp at hi
    · rw [List.getElem?_append_left (by omega)] at hi
      exact hlab1 i l hi
  have hlab3 : LabInv (q1.instrs.length + 1) q3.instrs := by
    rw [h3i]
    apply hlabE.code
    intro l hl
    cases ha : p.analog <;> simp [ha, repHeader] at hl
  have hlab5 := hlab3.pres hf5.1
  have hlabP : LabInv (q1.instrs.length + 1) P := by
    rw [hfi, h6i, List.append_assoc]
    exact hlab5.code (by simp)
  have huniq := hlabP.unique
  -- prefixes
  have hpre6 : q6.instrs <+: P := ⟨[.stop], hfi.symm⟩
  have hpre5 : q5.instrs <+: q6.instrs := ⟨[.loop r .start], h6i.symm⟩
  have hpre3 : qE.instrs <+: q3.instrs := ⟨repHeader p.analog, h3i.symm⟩
  have hpreE : q1.instrs <+: qE.instrs := ⟨[.move p.reps r, .label .start], hEi.symm⟩
  have hpre13 : q1.instrs <+: P :=
    hpreE.trans (hpre3.trans (hf5.1.pre.trans (hpre5.trans hpre6)))
  -- execution: header
  have hs0 := steps_straight (P := P) (env := env) (is := q0.instrs) (p := 0)
    (fun i hi => Instr.plain_straight (hpl i hi)) Data.init (by
      have := codeAt_of_prefix (P := P) (pre := []) (code := q0.instrs)
        (by simpa using hp1.pre.trans hpre13)
      simpa using this)
  rw [hrun0, Nat.zero_add] at hs0
  set d0 : Data := ⟨initBins p.bins, p.syncTime + 8, none, preEvents 0 p.pre ++
      [⟨p.syncTime, .waitSync, []⟩, ⟨p.syncTime + 4, .updParam, []⟩]⟩ with hd0
  -- latency wait
  obtain ⟨rg1, hag1, hE1⟩ := hx1 env d0 rfl
  set d1 : Data := { d0 with time := d0.time + (4 + p.latency), regs := rg1 } with hd1
  have ht1 : d1.time = p.start := by simp [hd1, hd0, Program.start]; ring
  have hs1 := hE1 P hpre13 huniq
  -- the repetition loop
  have hW : wordSize = 2 ^ 32 := rfl
  have hq5c : q5.elapsed = p.total := hq5
  have key := loop_exec (env := env) (q := q1) (qE := qE) (qB := q5) (qX := q6) (l := .start)
    (imm := p.reps) (n := p.reps) (r := r) (by rw [Nat.mod_eq_of_lt (by have := hok.reps; omega)])
    hok.reps.1 (by have := hok.reps; omega) hEi (hpre3.trans hf5.1.pre) h6i
    (fun k d' => d'.cond = none ∧ d'.time = p.start + k * p.period ∧
      d'.trace = d0.trace ++ (iterate (p.repetition env) p.period k p.start (initBins p.bins)).2 ∧
      Agree A d'.regs (iterate (p.repetition env) p.period k p.start (initBins p.bins)).1) ?_ d1 ?_
  · obtain ⟨d', ⟨hd1', hd2', hd3', hd4'⟩, hx⟩ := key
    refine ⟨d', ?_, ?_, ?_, hd2', hd4'⟩
    · have h := (hs0.trans hs1).trans (hx P hpre6 huniq)
      have hlen : P.length - 1 = q6.instrs.length := by rw [hfi]; simp
      rw [hlen]
      exact h
    · unfold Stopped
      have hlen : P.length - 1 = q6.instrs.length := by rw [hfi]; simp
      simp only [hlen]
      rw [hfi]
      simp
    · rw [hd3']; rfl
  · intro k hk d' ⟨hk1, hk2, hk3, hk4⟩
    have hx3 := exec_straight (env := env) (q := qE) (q' := q3) (code := repHeader p.analog) h3i
      (by intro i hi; cases ha : p.analog <;> simp [ha, repHeader] at hi <;> rcases hi with rfl | rfl <;> rfl)
      d'
    rw [repHeader_runs env _ _ hk1] at hx3
    obtain ⟨rg, hag, hx5⟩ := hf5.2.2 env (p.start + k * p.period + 4)
      { d' with time := d'.time + 4, trace := d'.trace ++ repEvents p.analog d'.time } hk1
      (hst k hk) (by simp only; rw [hk2, h3el]; ring)
    refine ⟨_, hx3.trans hx5 hf5.1.pre, ?_, ?_⟩
    · show rg r = d'.regs r
      rw [hag r (by rw [h3av]; exact hrr)]
      exact run_other hrA hok.ops
    · intro v
      obtain ⟨hl1, hl2⟩ := iterate_last (body := p.repetition env) (p := p.period) k
        (δ := p.start) (f := initBins p.bins)
      obtain ⟨ra1, ra2⟩ := run_agree (env := env) hok.ops
        (δ := p.start + k * p.period + 4) hk4
      refine ⟨hk1, ?_, ?_, ?_⟩
      · simp only [hq5c, Program.period]
        push_cast
        ring
      · simp only
        rw [hk3, hl2, ra2, hk2]
        simp only [Program.repetition, List.append_assoc]
      · intro x hx
        have hxr : x ≠ r := fun hcx => hx (hcx ▸ hrA)
        simp only
        rw [RegFile.set_other _ _ hxr, hl1,
          hag x (fun hcx => hx (hsubE x (by rw [h3av] at hcx; exact hcx)))]
        exact ra1 x hx
  · refine ⟨rfl, by simp [ht1], by simp [iterate, hd1], ?_⟩
    intro x hx
    have hxr : x ≠ r := fun hcx => hx (hcx ▸ hrA)
    simp only
    rw [RegFile.set_other _ _ hxr]
    exact hag1 x (by rw [ha0]; exact hx)

end Verif.Q1
