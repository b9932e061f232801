/-
C70: from the schedule to what the hardware does.
-/
import Verif.EndToEnd.Content

set_option linter.unusedSimpArgs false
set_option linter.unusedVariables false

namespace Verif.EndToEnd

open Verif.Connect (Env Cluster Module Seq Kind Chan compileSchedule)
open Verif.Connect.Spec (Wired Direct Uses)
open Verif.Flatten (Info ns onGrid Forest Op Label PC content startAt entries)
open Spec

variable {D : Type}

theorem mem_removalPass {rev : Bool} {l : List Q1.Op} {o : Q1.Op} (h : o ∈ removalPass rev l) : o ∈ l := by
  unfold removalPass at h
  obtain ⟨x, hx, rfl⟩ := List.mem_map.mp h
  have := (List.mem_filter.mp hx).1
  exact List.mem_of_getElem? (List.mem_zipIdx_iff_getElem?.mp this)

theorem programOps_debug {F : Factory D} {infos : List (Info D)} {ops : List Q1.Op}
    (h : programOps F infos = .ok ops) : ∀ l, Q1.Op.leaf l ∈ ops → l.debug = none := by
  intro l hl
  unfold programOps at h
  split at h
  · simp only [Except.ok.injEq] at h
    rw [← h] at hl
    have hl := mem_removalPass (mem_removalPass (StableSort.mem_sortBy.mp hl))
    obtain ⟨i, _, hi⟩ := List.mem_flatMap.mp hl
    cases hs : F.strategy i with
    | leaf l' =>
      rw [hs, added] at hi
      have hd : l'.debug = none := by rw [strategy_leaf hs]; exact F.nodebug i
      split at hi
      · simp only [List.mem_cons, Q1.Op.leaf.injEq, List.not_mem_nil, or_false] at hi
        rcases hi with rfl | rfl
        · exact hd
        · rfl
      · simp only [List.mem_singleton, Q1.Op.leaf.injEq] at hi
        rw [hi]; exact hd
    | loop => rw [hs] at hi; simp [added] at hi
    | cond => rw [hs] at hi; simp [added] at hi
    | ret => rw [hs] at hi; simp [added] at hi
  · simp at h

/-- What a program does, if it has the structure of a schedule. -/
theorem visible_trace {F : Factory D} {f : Forest (Info D)} {p : Q1.Program} (h : Rel F f p.ops)
    (env : Q1.Env) : visible (p.trace env) =
      visible (Q1.preEvents 0 p.pre) ++ [⟨p.syncTime, .waitSync, []⟩] ++
      (List.range p.reps).flatMap (fun r =>
        (if p.analog then [⟨repStart p r - 4, .resetPh, []⟩] else []) ++
        doAll F (unrollF F env f (repStart p r))) := by
  unfold Q1.Program.trace
  rw [visible_append, visible_append, Q1.iterate_events, visible_flatMap]
  congr 1
  have hfun : ∀ r : Nat, visible ((p.repetition env (p.start + r * p.period)
        (Q1.iterate (p.repetition env) p.period r p.start (Q1.initBins p.bins)).1).2) =
      (if p.analog then [⟨repStart p r - 4, .resetPh, []⟩] else []) ++
        doAll F (unrollF F env f (repStart p r)) := by
    intro r
    unfold Q1.Program.repetition
    simp only
    rw [visible_append, run_rel h]
    have e : p.start + r * p.period + 4 = repStart p r := by
      unfold repStart Q1.Program.period; ring
    have e' : p.start + r * p.period = repStart p r - 4 := by rw [← e]; ring
    rw [e, e']
    congr 1
    unfold Q1.repEvents
    split <;> rfl
  simp only [hfun]

theorem expected_perm (F : Factory D) (env : Q1.Env) (idx : Label × Nat → Option (List Int)) (pc : PC)
    (root : Op D) (p : Q1.Program) (f : Forest (Info D))
    (h : ∀ δ, (unrollF F env f δ).Perm (unrolled F.reps F.cond env idx pc root 0 [] δ)) :
    (visible (Q1.preEvents 0 p.pre) ++ [(⟨p.syncTime, .waitSync, []⟩ : Q1.Event)] ++
      (List.range p.reps).flatMap (fun r =>
        (if p.analog then [(⟨repStart p r - 4, .resetPh, []⟩ : Q1.Event)] else []) ++
        doAll F (unrollF F env f (repStart p r)))).Perm (expected F env idx pc root p) := by
  unfold expected
  apply List.Perm.append_left
  apply List.Perm.flatMap_left
  intro r _
  apply List.Perm.append_left
  exact (h _).flatMap_right _

/-- The program of a sequencer has the structure of the schedule. -/
theorem program_rel {k : Kind (Info D)} {v01 : Bool} {cenv : Env} {cs : List Cluster} {used : List PC}
    {idx : Label × Nat → Option (List Int)} {root : Op D}
    {out : List (Module × List (Nat × Seq (Info D)))}
    (h : compileSchedule k v01 cenv cs used idx root = .ok out) {m : Module}
    {ss : List (Nat × Seq (Info D))} (hm : (m, ss) ∈ out) {n : Nat} {s : Seq (Info D)} (hs : (n, s) ∈ ss)
    (hap : (content idx s.pc root 0 [] .nil).Apart Info.key) (F : Factory D)
    (hsup : Supported F.reps s.pc root) :
    (∀ g : Q1.Forest, programOps F s.ops = .ok g.flatten →
      Rel F ((content idx s.pc root 0 [] .nil).order Info.key) g) ∧
    (∀ ops, programOps F s.ops = .ok ops → ∃ g : Q1.Forest, ops = g.flatten) ∧
    ∀ (env : Q1.Env) (δ : Int), (unrollF F env ((content idx s.pc root 0 [] .nil).order Info.key) δ).Perm
      (unrolled F.reps F.cond env idx s.pc root 0 [] δ) := by
  set f := (content idx s.pc root 0 [] .nil).order Info.key with hf
  have ht : Typed F f := typed_order F _ _ (typed_content F idx s.pc root 0 [] .nil hsup trivial)
  have main : ∀ ops, programOps F s.ops = .ok ops → ∃ g : Q1.Forest, ops = g.flatten ∧ Rel F f g := by
    intro ops hops
    obtain ⟨L, hL, hfil⟩ := programOps_others hops
    have hLf := Connect.sequencer_nested h hm hs hL hap
    rw [hLf, ← hf] at hfil
    obtain ⟨g, Y, h1, h2, h3, h4⟩ := parse_rel F f [] ops ht (.inl rfl) (programOps_debug hops)
      (by rw [List.append_nil]; exact hfil)
    have hY : Y = [] := by
      rcases h4 with h4 | ⟨t, Y', rfl⟩
      · exact h4
      · rw [List.filter_cons_of_pos (by rfl)] at h3; simp at h3
    exact ⟨g, by rw [h1, hY, List.append_nil], h2⟩
  refine ⟨?_, ?_, ?_⟩
  · intro g hg
    obtain ⟨g', h1, h2⟩ := main _ hg
    have := (flatten_inj g g' [] [] (.inl rfl) (.inl rfl) (by simpa using h1)).1
    rw [this]; exact h2
  · intro ops hops
    obtain ⟨g, h1, _⟩ := main ops hops
    exact ⟨g, h1⟩
  · intro env δ
    refine ((unroll_order F env Info.key (content idx s.pc root 0 [] .nil)).2 δ).trans ?_
    obtain ⟨log, hlog, _⟩ := Connect.compileSchedule_ok h
    have hgrid : ∀ e ∈ entries root 0 [], (onGrid e.time).isOk = true := by
      unfold Flatten.assign at hlog
      simp only at hlog
      split at hlog
      · simp at hlog
      · rename_i u hu
        exact Flatten.checkAll_ok _ hu
    rw [unroll_content F env idx s.pc root 0 [] .nil δ hsup hgrid]
    simp only [unrollF, List.append_nil]
    exact List.Perm.refl _

/-- **C70.** A schedule is compiled for a hardware configuration; code is generated for one of the sequencers
and executed.  Updates of parameters and bins aside, what happens is, each thing once: the set-up of the sequencer,
its synchronization, and for each repetition of the schedule what the operations on the port-clock of the sequencer
do, each at its time in the schedule, in each iteration of the loops that it is in, as far as the conditions that
it is under hold. -/
theorem executed {k : Kind (Info D)} {v01 : Bool} {cenv : Env} {cs : List Cluster} {used : List PC}
    {idx : Label × Nat → Option (List Int)} {root : Op D}
    {out : List (Module × List (Nat × Seq (Info D)))}
    (h : compileSchedule k v01 cenv cs used idx root = .ok out) {m : Module}
    {ss : List (Nat × Seq (Info D))} (hm : (m, ss) ∈ out) {n : Nat} {s : Seq (Info D)} (hs : (n, s) ∈ ss)
    (hap : (content idx s.pc root 0 [] .nil).Apart Info.key) (F : Factory D)
    (hsup : Supported F.reps s.pc root) {p : Q1.Program} (hp : programOps F s.ops = .ok p.ops.flatten)
    {A : List Q1.Reg} (hA : Q1.AvailOk A) (hok : p.Ok A) {q : Q1.Qasm} (hc : p.compile A = .ok q)
    (env : Q1.Env) (hst : p.Stable env) :
    ∃ i d, Q1.Steps q.instrs env (0, Q1.Data.init) (i, d) ∧ Q1.Stopped q.instrs (i, d) ∧
      (visible d.trace).Perm (expected F env idx s.pc root p) := by
  obtain ⟨hrel, _, hun⟩ := program_rel h hm hs hap F hsup
  obtain ⟨i, d, h1, h2, h3, _⟩ := Q1.program_correct hA hok hc env hst
  refine ⟨i, d, h1, h2, ?_⟩
  rw [h3, visible_trace (hrel _ hp) env]
  exact expected_perm F env idx s.pc root p _ (hun env)

/-- And this is so whenever the program stops. -/
theorem executed_unique {k : Kind (Info D)} {v01 : Bool} {cenv : Env} {cs : List Cluster} {used : List PC}
    {idx : Label × Nat → Option (List Int)} {root : Op D}
    {out : List (Module × List (Nat × Seq (Info D)))}
    (h : compileSchedule k v01 cenv cs used idx root = .ok out) {m : Module}
    {ss : List (Nat × Seq (Info D))} (hm : (m, ss) ∈ out) {n : Nat} {s : Seq (Info D)} (hs : (n, s) ∈ ss)
    (hap : (content idx s.pc root 0 [] .nil).Apart Info.key) (F : Factory D)
    (hsup : Supported F.reps s.pc root) {p : Q1.Program} (hp : programOps F s.ops = .ok p.ops.flatten)
    {A : List Q1.Reg} (hA : Q1.AvailOk A) (hok : p.Ok A) {q : Q1.Qasm} (hc : p.compile A = .ok q)
    (env : Q1.Env) (hst : p.Stable env) {i : Nat} {d : Q1.Data}
    (hsteps : Q1.Steps q.instrs env (0, Q1.Data.init) (i, d)) (hstop : Q1.Stopped q.instrs (i, d)) :
    (visible d.trace).Perm (expected F env idx s.pc root p) := by
  obtain ⟨hrel, _, hun⟩ := program_rel h hm hs hap F hsup
  rw [(Q1.program_correct_unique hA hok hc env hst hsteps hstop).1, visible_trace (hrel _ hp) env]
  exact expected_perm F env idx s.pc root p _ (hun env)

/-- The list of operations given to code generation always is that of a program. -/
theorem program_exists {k : Kind (Info D)} {v01 : Bool} {cenv : Env} {cs : List Cluster} {used : List PC}
    {idx : Label × Nat → Option (List Int)} {root : Op D}
    {out : List (Module × List (Nat × Seq (Info D)))}
    (h : compileSchedule k v01 cenv cs used idx root = .ok out) {m : Module}
    {ss : List (Nat × Seq (Info D))} (hm : (m, ss) ∈ out) {n : Nat} {s : Seq (Info D)} (hs : (n, s) ∈ ss)
    (hap : (content idx s.pc root 0 [] .nil).Apart Info.key) (F : Factory D)
    (hsup : Supported F.reps s.pc root) {ops : List Q1.Op} (hops : programOps F s.ops = .ok ops) :
    ∃ g : Q1.Forest, ops = g.flatten :=
  (program_rel h hm hs hap F hsup).2.1 ops hops

/-! ### Single operations -/

mutual
/-- An operation that is in loops only is executed in each of their iterations. -/
theorem mem_unrolled (reps : D → Option Nat) (cond : D → Q1.TrigCond) (env : Q1.Env)
    (idx : Label × Nat → Option (List Int)) (pc : PC) : ∀ (op : Op D) (l : Label) (t : Rat) (p : Flatten.Plain D)
    (d : Int), op.find l = some (t, p) → Delayed reps op l d → ∀ (off : Rat) (label : Label) (δ : Int),
    ∀ i ∈ Flatten.plainInfos idx pc p (ns (off + t)) (label ++ l),
      (i, δ + d) ∈ unrolled reps cond env idx pc op off label δ
  | .plain p', l, t, p, d, hf, hd, off, label, δ, i, hi => by
    cases l with
    | nil =>
      simp only [Op.find, Option.some.injEq, Prod.mk.injEq] at hf
      obtain ⟨rfl, rfl⟩ := hf
      rw [Delayed] at hd
      subst hd
      rw [unrolled]
      simp only [add_zero, List.append_nil] at hi ⊢
      exact List.mem_map.mpr ⟨i, hi, rfl⟩
    | cons a l => simp [Op.find] at hf
  | .sched items, l, t, p, d, hf, hd, off, label, δ, i, hi => by
    rw [unrolled]
    cases l with
    | nil => simp [Op.find] at hf
    | cons a l =>
      cases a with
      | none => simp [Op.find] at hf
      | some name =>
        rw [Op.find] at hf
        rw [Delayed] at hd
        exact mem_unrolledItems reps cond env idx pc items name l t p d hf hd off label δ i hi
  | .ctl c dur body, l, t, p, d, hf, hd, off, label, δ, i, hi => by
    cases l with
    | nil => simp [Op.find] at hf
    | cons a l =>
      cases a with
      | some name => simp [Op.find] at hf
      | none =>
        rw [Op.find] at hf
        rw [Delayed] at hd
        obtain ⟨n, j, hn, hj, d', rfl, hd'⟩ := hd
        rw [unrolled, hn]
        simp only
        rw [List.mem_flatMap]
        refine ⟨j, List.mem_range.mpr hj, ?_⟩
        have := mem_unrolled reps cond env idx pc body l t p d' hf hd' off (label ++ [none])
          (δ + j * ns dur) i (by simpa using hi)
        rw [← add_assoc]
        exact this
theorem mem_unrolledItems (reps : D → Option Nat) (cond : D → Q1.TrigCond) (env : Q1.Env)
    (idx : Label × Nat → Option (List Int)) (pc : PC) : ∀ (items : Flatten.Items D) (name : String) (l : Label)
    (t : Rat) (p : Flatten.Plain D) (d : Int), Op.find.findItem items name l = some (t, p) →
    DelayedItem reps items name l d → ∀ (off : Rat) (label : Label) (δ : Int),
    ∀ i ∈ Flatten.plainInfos idx pc p (ns (off + t)) (label ++ some name :: l),
      (i, δ + d) ∈ unrolledItems reps cond env idx pc items off label δ
  | .nil, name, l, t, p, d, hf, hd, off, label, δ, i, hi => by simp [Op.find.findItem] at hf
  | .cons name' abs op rest, name, l, t, p, d, hf, hd, off, label, δ, i, hi => by
    rw [unrolledItems, List.mem_append]
    rw [Op.find.findItem] at hf
    rw [DelayedItem] at hd
    by_cases hn : name' = name
    · rw [if_pos hn] at hf hd
      left
      cases hff : op.find l with
      | none => rw [hff] at hf; simp at hf
      | some r =>
        rw [hff] at hf
        simp only [Option.map_some, Option.some.injEq, Prod.mk.injEq] at hf
        obtain ⟨rfl, rfl⟩ := hf
        apply mem_unrolled reps cond env idx pc op l r.1 r.2 d hff hd (off + abs) _ δ i
        rw [hn, List.append_assoc, add_assoc]
        exact hi
    · rw [if_neg hn] at hf hd
      right
      exact mem_unrolledItems reps cond env idx pc rest name l t p d hf hd off label δ i hi
end

/-- **C70, for one pulse.** A pulse of the schedule on a port that is wired to channels of a module: a sequencer of
this module that is connected to precisely these channels does what is to be done for the pulse, in every
repetition of the schedule and every iteration of the loops the pulse is in, at its time in the schedule. -/
theorem pulse_executed {k : Kind (Info D)} {cenv : Env} {cs : List Cluster} {used : List PC}
    {idx : Label × Nat → Option (List Int)} {root : Op D}
    {out : List (Module × List (Nat × Seq (Info D)))}
    (hcs : (cs.map Cluster.name).Nodup) (hms : ∀ c ∈ cs, (c.modules.map Prod.fst).Nodup)
    (hu : used.Nodup) (h : compileSchedule k false cenv cs used idx root = .ok out)
    (huniq : Flatten.Unique root) {l : Label} {t : Rat} {pl : Flatten.Plain D}
    (hf : root.find l = some (t, pl)) (hw : pl.window = false) {x : Flatten.Piece D}
    (hx : x ∈ pl.pulses) {port clock : String} (hport : x.port = some port)
    (hclock : x.clock = some clock) (hpc : (port, clock) ∈ used)
    (hreset : k.isReset ⟨pl.name, .pulse x.data, startAt (ns t) x.t0, ns t⟩ = false)
    (hdir : Direct cenv.graph (cs.map Cluster.name) port) {cl : String} {j : Nat} {ch0 : Chan}
    (hwire : Wired cenv.graph port cl j ch0)
    (hqtm : ∀ d ∈ cs, d.name = cl → (j, Connect.ModType.qtm) ∉ d.modules)
    (hap : (content idx (port, clock) root 0 [] .nil).Apart Info.key) (F : Factory D)
    (hsup : Supported F.reps (port, clock) root) :
    ∃ m ss n s, (m, ss) ∈ out ∧ m.cluster = cl ∧ m.idx = j ∧ (n, s) ∈ ss ∧ s.pc = (port, clock) ∧
      (∀ ch, Uses s.path ch ↔ Wired cenv.graph port cl j ch) ∧
      ∀ (p : Q1.Program), programOps F s.ops = .ok p.ops.flatten →
      ∀ (A : List Q1.Reg), Q1.AvailOk A → p.Ok A → ∀ q, p.compile A = .ok q →
      ∀ (env : Q1.Env), p.Stable env →
      ∃ i d, Q1.Steps q.instrs env (0, Q1.Data.init) (i, d) ∧ Q1.Stopped q.instrs (i, d) ∧
        ∀ r, r < p.reps → ∀ δ, Delayed F.reps root l δ →
        ∀ e ∈ does F ⟨pl.name, .pulse x.data, startAt (ns t) x.t0, ns t⟩,
          e.shift (ns (startAt (ns t) x.t0) + (repStart p r + δ)) ∈ visible d.trace := by
  obtain ⟨m, ss, n, s, h1, h2, h3, h4, h5, h6, h7⟩ := Connect.pulse_played hcs hms hu h huniq hf hw hx hport
    hclock hpc hreset hdir hwire hqtm
  refine ⟨m, ss, n, s, h1, h2, h3, h4, h5, h6, ?_⟩
  intro p hp A hA hok q hc env hst
  rw [← h5] at hap hsup
  obtain ⟨i, d, e1, e2, e3⟩ := executed h h1 h4 hap F hsup hp hA hok hc env hst
  refine ⟨i, d, e1, e2, ?_⟩
  intro r hr δ hδ e he
  rw [e3.mem_iff]
  unfold expected
  refine List.mem_append_right _ (List.mem_flatMap.mpr ⟨r, List.mem_range.mpr hr, List.mem_append_right _ ?_⟩)
  unfold doAll
  refine List.mem_flatMap.mpr ⟨(⟨pl.name, .pulse x.data, startAt (ns t) x.t0, ns t⟩, repStart p r + δ), ?_, ?_⟩
  · apply mem_unrolled F.reps F.cond env idx s.pc root l t pl δ hf hδ 0 [] (repStart p r)
    rw [zero_add, h5]
    simp only [Flatten.plainInfos, hw, Bool.false_eq_true, if_false, List.mem_append, List.mem_map,
      List.mem_filter]
    refine Or.inl (Or.inr ⟨x, ⟨hx, ?_⟩, rfl⟩)
    simp [Flatten.pulseFor, hport, hclock]
  · exact List.mem_map.mpr ⟨e, he, rfl⟩

/-- Nothing else happens: whatever is done is part of the set-up, the synchronization, the reset of the phase at
the start of a repetition, or done for an operation of the schedule, at its time. -/
theorem nothing_else {F : Factory D} {env : Q1.Env} {idx : Label × Nat → Option (List Int)} {pc : PC}
    {root : Op D} {p : Q1.Program} {tr : List Q1.Event} (h : tr.Perm (expected F env idx pc root p))
    {e : Q1.Event} (he : e ∈ tr) :
    e ∈ visible (Q1.preEvents 0 p.pre) ∨ e = ⟨p.syncTime, .waitSync, []⟩ ∨
    (∃ r < p.reps, p.analog = true ∧ e = ⟨repStart p r - 4, .resetPh, []⟩) ∨
    ∃ r < p.reps, ∃ x ∈ unrolled F.reps F.cond env idx pc root 0 [] (repStart p r),
      ∃ e' ∈ does F x.1, e = e'.shift (ns x.1.timing + x.2) := by
  rw [h.mem_iff] at he
  unfold expected at he
  simp only [List.mem_append, List.mem_singleton, List.mem_flatMap, List.mem_range] at he
  rcases he with (he | he) | ⟨r, hr, he⟩
  · exact .inl he
  · exact .inr (.inl he)
  · right; right
    rcases he with he | he
    · split at he
      · rename_i ha
        exact .inl ⟨r, hr, ha, by simpa using he⟩
      · simp at he
    · right
      unfold doAll at he
      obtain ⟨x, hx, he⟩ := List.mem_flatMap.mp he
      obtain ⟨e', he', rfl⟩ := List.mem_map.mp he
      exact ⟨r, hr, x, hx, e', he', rfl⟩

end Verif.EndToEnd
