/-
C32: append-mode acquisitions fill consecutive bins.

The compiler gives the append-mode acquisitions of one channel a common register holding the next
bin (compiler_abc.py:759-829), or one register per acquisition inside control flow
(compiler_abc.py:831-947), and the data of the `j`-th acquisition of repetition `i` is later
looked up in bin `offset + i * n + j` (`QbloxAcquisitionIndexBin.stride`,
qblox_acq_index_manager.py:30-52).  Here it is shown that this is where the generated program
puts it.
-/
import Verif.Q1.FuelProps

set_option linter.unusedSimpArgs false
set_option linter.unusedVariables false

namespace Verif.Q1

/-- The bin an event opens for hardware index `idx`, if it is such an acquisition. -/
def Event.bin (idx : Int) (e : Event) : Option Int :=
  match e.kind, e.args with
  | .acquire, [i, b] => if i = idx then some b else none
  | .acquireWeighed, [i, b, _, _] => if i = idx then some b else none
  | .acquireTtl, [i, b, s] => if i = idx ∧ s = 1 then some b else none
  | .acquireTimetags, [i, b, s, _] => if i = idx ∧ s = 1 then some b else none
  | _, _ => none

/-- The bins used for hardware index `idx`, in order. -/
def binsUsed (idx : Int) (es : List Event) : List Int := es.filterMap (Event.bin idx)

/-- Hardware index and bin of an acquisition. -/
def Strategy.acq : Strategy → Option (Nat × BinRef)
  | .square i b => some (i, b)
  | .weighed i b _ _ => some (i, b)
  | .ttl i b _ => some (i, b)
  | .timetag _ i b _ _ _ => some (i, b)
  | _ => none

/-- The acquisitions of hardware index `idx` are those whose bin is in register `r`. -/
def Leaf.tied (idx : Nat) (r : Reg) (l : Leaf) : Prop :=
  ∀ k b, l.strat.acq = some (k, b) → (k = idx ↔ b = .reg r)

/-- The same for all operations. -/
def Forest.tied (idx : Nat) (r : Reg) : Forest → Prop
  | .nil => True
  | .leaf l f => l.tied idx r ∧ f.tied idx r
  | .loop _ _ b _ f => b.tied idx r ∧ f.tied idx r
  | .cond _ _ b _ f => (∀ l ∈ b, l.tied idx r) ∧ f.tied idx r

/-- Does the operation use the register? -/
def Leaf.uses (r : Reg) (l : Leaf) : Nat := if l.strat.binReg = some r then 1 else 0

/-- Number of acquisitions with register `r`, loops multiplied out. -/
def Forest.uses (r : Reg) : Forest → Nat
  | .nil => 0
  | .leaf l f => l.uses r + f.uses r
  | .loop _ n b _ f => n * b.uses r + f.uses r
  | .cond _ _ b _ f => (b.map (Leaf.uses r)).sum + f.uses r

/-- `n` consecutive bins from `b`. -/
def consecutive (b n : Nat) : List Int := (List.range n).map (fun j => ((b + j : Nat) : Int))

theorem consecutive_add (b m n : Nat) :
    consecutive b (m + n) = consecutive b m ++ consecutive (b + m) n := by
  unfold consecutive
  rw [List.range_add, List.map_append, List.map_map]
  congr 1
  apply List.map_congr_left
  intro x _
  simp only [Function.comp]
  congr 1
  omega

theorem bin_shift (idx δ : Int) (e : Event) : Event.bin idx (e.shift δ) = Event.bin idx e := rfl

theorem binsUsed_shift (idx δ : Int) (es : List Event) :
    binsUsed idx (shiftAll δ es) = binsUsed idx es := by
  unfold binsUsed shiftAll
  rw [List.filterMap_map]
  rfl

theorem binsUsed_append (idx : Int) (a b : List Event) :
    binsUsed idx (a ++ b) = binsUsed idx a ++ binsUsed idx b := by
  unfold binsUsed
  rw [List.filterMap_append]

theorem consecutive_one (b : Nat) : consecutive b 1 = [(b : Int)] := rfl

theorem strategy_bins {idx : Nat} {r : Reg} (s : Strategy)
    (ht : ∀ k b, s.acq = some (k, b) → (k = idx ↔ b = .reg r)) (b : RegFile) :
    binsUsed idx (s.events b) = consecutive (b r) (if s.binReg = some r then 1 else 0) := by
  have key : ∀ (k : Nat) (bin : BinRef), s.acq = some (k, bin) →
      (s.binReg = some r ↔ (k : Int) = idx) ∧ ((k : Int) = idx → bin.val b = b r) := by
    intro k bin hk
    have h := ht k bin hk
    have hb : s.binReg = some r ↔ bin = .reg r := by
      cases bin <;> cases s <;> simp [Strategy.acq] at hk <;>
        (obtain ⟨h1, h2⟩ := hk; subst h1; subst h2; simp [Strategy.binReg])
    refine ⟨?_, ?_⟩
    · rw [hb, ← h]; exact Int.natCast_inj.symm
    · intro hc
      rw [(h.mp (Int.natCast_inj.mp hc))]
      rfl
  cases s with
  | pulse i0 i1 gI gQ => cases i0 <;> cases i1 <;> rfl
  | phaseShift a => cases a <;> rfl
  | square k bin =>
    obtain ⟨h1, h2⟩ := key k bin rfl
    by_cases hc : (k : Int) = idx
    · rw [if_pos (h1.mpr hc), consecutive_one]
      simp [binsUsed, Strategy.events, Event.bin, hc, h2 hc]
    · rw [if_neg (fun h => hc (h1.mp h))]
      simp [binsUsed, Strategy.events, Event.bin, hc, consecutive]
  | weighed k bin w0 w1 =>
    obtain ⟨h1, h2⟩ := key k bin rfl
    by_cases hc : (k : Int) = idx
    · rw [if_pos (h1.mpr hc), consecutive_one]
      simp [binsUsed, Strategy.events, Event.bin, hc, h2 hc]
    · rw [if_neg (fun h => hc (h1.mp h))]
      simp [binsUsed, Strategy.events, Event.bin, hc, consecutive]
  | ttl k bin d =>
    obtain ⟨h1, h2⟩ := key k bin rfl
    by_cases hc : (k : Int) = idx
    · rw [if_pos (h1.mpr hc), consecutive_one]
      simp [binsUsed, Strategy.events, Event.bin, hc, h2 hc]
    · rw [if_neg (fun h => hc (h1.mp h))]
      simp [binsUsed, Strategy.events, Event.bin, hc, consecutive]
  | timetag sc k bin f0 f1 d =>
    obtain ⟨h1, h2⟩ := key k bin rfl
    by_cases hc : (k : Int) = idx
    · rw [if_pos (h1.mpr hc), consecutive_one]
      cases sc <;> simp [binsUsed, Strategy.events, List.filterMap_cons, Event.bin, hc, h2 hc]
    · rw [if_neg (fun h => hc (h1.mp h))]
      cases sc <;> simp [binsUsed, Strategy.events, List.filterMap_cons, Event.bin, hc, consecutive]
  | _ => rfl

theorem leaf_bins {idx : Nat} {r : Reg} (l : Leaf) (ht : l.tied idx r) (b : RegFile) (δ : Int) :
    binsUsed idx (shiftAll δ (l.events b)) = consecutive (b r) (l.uses r) := by
  rw [binsUsed_shift]
  unfold Leaf.events Leaf.uses
  cases l.debug with
  | none => exact strategy_bins l.strat ht b
  | some m =>
    simp only
    rw [show (⟨0, .setMrk, [(m.1 : Int)]⟩ : Event) :: l.strat.events b ++
        [⟨l.strat.dur, .setMrk, [(m.2 : Int)]⟩, ⟨l.strat.dur, .updParam, []⟩] =
      [(⟨0, .setMrk, [(m.1 : Int)]⟩ : Event)] ++ l.strat.events b ++
        [⟨l.strat.dur, .setMrk, [(m.2 : Int)]⟩, ⟨l.strat.dur, .updParam, []⟩] from rfl]
    rw [binsUsed_append, binsUsed_append, strategy_bins l.strat ht b]
    simp [binsUsed, List.filterMap_cons, Event.bin]

theorem leaf_next {r : Reg} (l : Leaf) (b : RegFile) (hb : b r + l.uses r < wordSize) :
    l.strat.next b r = b r + l.uses r := by
  unfold Leaf.uses at *
  have key : ∀ bin : BinRef, (∀ k, bin = .reg k → l.strat.binReg = some k) →
      (∀ n, bin = .imm n → l.strat.binReg = none) →
      bin.next b r = b r + (if l.strat.binReg = some r then 1 else 0) := by
    intro bin h1 h2
    cases bin with
    | imm n => rw [h2 n rfl]; rfl
    | reg k =>
      rw [h1 k rfl] at hb ⊢
      by_cases hk : k = r
      · subst hk
        simp only [if_true] at hb ⊢
        show RegFile.set b k _ k = _
        rw [RegFile.set_same, Nat.mod_eq_of_lt hb]
      · rw [if_neg (by simpa using hk)]
        exact RegFile.set_other _ _ (Ne.symm hk)
  cases hs : l.strat with
  | square k bin =>
    rw [hs] at key
    exact key bin (by intro k h; subst h; rfl) (by intro k h; subst h; rfl)
  | weighed k bin w0 w1 =>
    rw [hs] at key
    exact key bin (by intro k h; subst h; rfl) (by intro k h; subst h; rfl)
  | ttl k bin d =>
    rw [hs] at key
    exact key bin (by intro k h; subst h; rfl) (by intro k h; subst h; rfl)
  | timetag sc k bin f0 f1 d =>
    rw [hs] at key
    exact key bin (by intro k h; subst h; rfl) (by intro k h; subst h; rfl)
  | _ => rfl

theorem leaves_bins {idx : Nat} {r : Reg} (δ : Int) : ∀ (ls : List Leaf) (b : RegFile),
    (∀ l ∈ ls, l.tied idx r) → b r + (ls.map (Leaf.uses r)).sum < wordSize →
    (leavesRun δ ls b).1 r = b r + (ls.map (Leaf.uses r)).sum ∧
    binsUsed idx (leavesRun δ ls b).2 = consecutive (b r) (ls.map (Leaf.uses r)).sum := by
  intro ls
  induction ls with
  | nil => intro b _ _; exact ⟨rfl, rfl⟩
  | cons l ls ih =>
    intro b ht hb
    simp only [List.map_cons, List.sum_cons] at hb ⊢
    have hn := leaf_next (r := r) l b (by omega)
    obtain ⟨h1, h2⟩ := ih (l.strat.next b) (fun x hx => ht x (List.mem_cons_of_mem _ hx))
      (by rw [hn]; omega)
    refine ⟨?_, ?_⟩
    · simp only [leavesRun]
      rw [h1, hn]; omega
    · simp only [leavesRun]
      rw [binsUsed_append, leaf_bins l (ht l List.mem_cons_self), h2, hn, consecutive_add]

/-- What one pass through the operations does to register `r` and which bins it uses. -/
theorem run_bins {idx : Nat} {r : Reg} (env : Env) : ∀ (f : Forest), f.tied idx r →
    ∀ (δ : Int) (b : RegFile), b r + f.uses r < wordSize →
    (f.run env δ b).1 r = b r + f.uses r ∧
    (binsUsed idx (f.run env δ b).2).Sublist (consecutive (b r) (f.uses r)) ∧
    (f.noCond → binsUsed idx (f.run env δ b).2 = consecutive (b r) (f.uses r)) := by
  intro f
  induction f with
  | nil => intro _ δ b _; exact ⟨rfl, List.Sublist.refl _, fun _ => rfl⟩
  | leaf l f ih =>
    intro ht δ b hb
    simp only [Forest.uses] at hb ⊢
    have hn := leaf_next (r := r) l b (by omega)
    obtain ⟨h1, h2, h3⟩ := ih ht.2 δ (l.strat.next b) (by rw [hn]; omega)
    simp only [Forest.run]
    rw [binsUsed_append, leaf_bins l ht.1, consecutive_add]
    rw [hn] at h1 h2 h3
    exact ⟨by rw [h1]; omega, List.Sublist.append (List.Sublist.refl _) h2,
      fun hc => by rw [h3 hc]⟩
  | loop t n body e f ihb ihf =>
    intro ht δ b hb
    simp only [Forest.uses] at hb ⊢
    have hit : ∀ (n : Nat) (δ : Int) (b : RegFile), b r + n * body.uses r < wordSize →
        (iterate (body.run env) (e - t) n δ b).1 r = b r + n * body.uses r ∧
        (binsUsed idx (iterate (body.run env) (e - t) n δ b).2).Sublist
          (consecutive (b r) (n * body.uses r)) ∧
        (body.noCond → binsUsed idx (iterate (body.run env) (e - t) n δ b).2 =
          consecutive (b r) (n * body.uses r)) := by
      intro n
      induction n with
      | zero => intro δ b _; simp [iterate, binsUsed, consecutive]
      | succ n ih =>
        intro δ b hb
        rw [Nat.succ_mul, Nat.add_comm (n * body.uses r)] at hb ⊢
        obtain ⟨h1, h2, h3⟩ := ihb ht.1 δ b (by omega)
        obtain ⟨h4, h5, h6⟩ := ih (δ + (e - t)) (body.run env δ b).1 (by rw [h1]; omega)
        simp only [iterate]
        rw [binsUsed_append, consecutive_add]
        rw [h1] at h4 h5 h6
        exact ⟨by rw [h4]; omega, List.Sublist.append h2 h5, fun hc => by rw [h3 hc, h6 hc]⟩
    obtain ⟨h1, h2, h3⟩ := hit n δ b (by omega)
    obtain ⟨h4, h5, h6⟩ := ihf ht.2 δ (iterate (body.run env) (e - t) n δ b).1 (by rw [h1]; omega)
    simp only [Forest.run]
    rw [binsUsed_append, consecutive_add]
    rw [h1] at h4 h5 h6
    exact ⟨by rw [h4]; omega, List.Sublist.append h2 h5, fun hc => by rw [h3 hc.1, h6 hc.2]⟩
  | cond t c body e f ih =>
    intro ht δ b hb
    simp only [Forest.uses] at hb ⊢
    obtain ⟨h1, h2⟩ := leaves_bins δ body b ht.1 (by omega)
    have hs : ((if c.holds (env (t + δ)) then leavesRun δ body b
          else (leavesSkip body b, [])) : RegFile × List Event).1 r =
        b r + (body.map (Leaf.uses r)).sum ∧
        (binsUsed idx ((if c.holds (env (t + δ)) then leavesRun δ body b
          else (leavesSkip body b, [])) : RegFile × List Event).2).Sublist
          (consecutive (b r) (body.map (Leaf.uses r)).sum) := by
      cases c.holds (env (t + δ)) with
      | true => exact ⟨h1, by rw [if_pos rfl, h2]⟩
      | false =>
        refine ⟨?_, ?_⟩
        · simp only [Bool.false_eq_true, if_false]
          rw [leavesSkip_eq (δ := δ)]; exact h1
        · simp [binsUsed]
    simp only [Forest.run]
    generalize (if c.holds (env (t + δ)) then leavesRun δ body b
          else (leavesSkip body b, [])) = x at hs ⊢
    obtain ⟨h4, h5, h6⟩ := ih ht.2 δ x.1 (by rw [hs.1]; omega)
    rw [binsUsed_append, consecutive_add]
    rw [hs.1] at h4 h5
    exact ⟨by rw [h4]; omega, List.Sublist.append hs.2 h5, fun hc => hc.elim⟩

theorem repEvents_bins (idx : Int) (a : Bool) (t : Int) : binsUsed idx (repEvents a t) = [] := by
  cases a <;> rfl

/-- The register and the bins over `k` repetitions. -/
theorem reps_bins {idx : Nat} {r : Reg} (env : Env) (p : Program) (ht : p.ops.tied idx r) :
    ∀ (k : Nat) (δ : Int) (b : RegFile), b r + k * p.ops.uses r < wordSize →
    (iterate (p.repetition env) p.period k δ b).1 r = b r + k * p.ops.uses r ∧
    (binsUsed idx (iterate (p.repetition env) p.period k δ b).2).Sublist
      (consecutive (b r) (k * p.ops.uses r)) ∧
    (p.ops.noCond → binsUsed idx (iterate (p.repetition env) p.period k δ b).2 =
      consecutive (b r) (k * p.ops.uses r)) := by
  intro k
  induction k with
  | zero => intro δ b _; simp [iterate, binsUsed, consecutive]
  | succ k ih =>
    intro δ b hb
    rw [Nat.succ_mul, Nat.add_comm (k * p.ops.uses r)] at hb ⊢
    obtain ⟨h1, h2, h3⟩ := run_bins env p.ops ht (δ + 4) b (by omega)
    have hr1 : (p.repetition env δ b).1 r = b r + p.ops.uses r := h1
    obtain ⟨h4, h5, h6⟩ := ih (δ + p.period) (p.repetition env δ b).1 (by rw [hr1]; omega)
    simp only [iterate]
    rw [binsUsed_append, consecutive_add]
    rw [hr1] at h4 h5 h6
    have hr2 : binsUsed idx (p.repetition env δ b).2 = binsUsed idx (p.ops.run env (δ + 4) b).2 := by
      simp only [Program.repetition]
      rw [binsUsed_append, repEvents_bins, List.nil_append]
    rw [hr2]
    exact ⟨by rw [h4]; omega, List.Sublist.append h2 h5, fun hc => by rw [h3 hc, h6 hc]⟩

/-- The first bin loaded into a register. -/
theorem initBins_at {bins : List (Reg × Nat)} {r : Reg} {o : Nat} (hn : (bins.map Prod.fst).Nodup)
    (hm : (r, o) ∈ bins) : initBins bins r = o := by
  have key : ∀ (bs : List (Reg × Nat)) (f : RegFile), (bs.map Prod.fst).Nodup →
      (r ∉ bs.map Prod.fst → bs.foldl (fun f b => f.set b.1 b.2) f r = f r) ∧
      ((r, o) ∈ bs → bs.foldl (fun f b => f.set b.1 b.2) f r = o) := by
    intro bs
    induction bs with
    | nil => intro f _; exact ⟨fun _ => rfl, fun h => by cases h⟩
    | cons b bs ih =>
      intro f hnd
      obtain ⟨hb, hbs⟩ := List.nodup_cons.mp hnd
      obtain ⟨i1, i2⟩ := ih (f.set b.1 b.2) hbs
      refine ⟨?_, ?_⟩
      · intro hr
        simp only [List.map_cons, List.mem_cons, not_or] at hr
        rw [List.foldl_cons, i1 hr.2]
        exact RegFile.set_other _ _ hr.1
      · intro hro
        rcases List.mem_cons.mp hro with h | h
        · subst h
          rw [List.foldl_cons, i1 hb]
          exact RegFile.set_same _ _ _
        · exact i2 h
  exact (key bins _ hn).2 hm

/-- **C32.**  Let register `r` be initialised with bin `o` and be used exactly by the acquisitions
of hardware index `idx`, `n` of them per repetition (loops multiplied out).  In the execution of
the generated program (see `program_correct`), over all repetitions these acquisitions use the bins
`o, o+1, ..., o + reps * n - 1`, each once, in this order, if there are no conditionals; with
conditionals, acquisitions that are skipped leave their bin out and nothing else changes. -/
theorem append_bins {p : Program} {A : List Reg} {q : Qasm} (hA : AvailOk A) (hok : p.Ok A)
    (hc : p.compile A = .ok q) (env : Env) (hst : p.Stable env) {idx : Nat} {r : Reg} {o : Nat}
    (hn : (p.bins.map Prod.fst).Nodup) (hro : (r, o) ∈ p.bins) (ht : p.ops.tied idx r)
    (hpre : ∀ i ∈ p.pre, i.1 ≠ .acquire ∧ i.1 ≠ .acquireWeighed ∧ i.1 ≠ .acquireTtl ∧
      i.1 ≠ .acquireTimetags)
    (hsize : o + p.reps * p.ops.uses r < 2 ^ 32) :
    ∃ pc d, Steps q.instrs env (0, Data.init) (pc, d) ∧ Stopped q.instrs (pc, d) ∧
      (binsUsed idx d.trace).Sublist (consecutive o (p.reps * p.ops.uses r)) ∧
      (p.ops.noCond → binsUsed idx d.trace = consecutive o (p.reps * p.ops.uses r)) := by
  obtain ⟨pc, d, h1, h2, h3, _⟩ := program_correct hA hok hc env hst
  have hpe : ∀ (pre : List (Mnemonic × List Int × Nat)) (t : Int),
      (∀ i ∈ pre, i.1 ≠ .acquire ∧ i.1 ≠ .acquireWeighed ∧ i.1 ≠ .acquireTtl ∧
        i.1 ≠ .acquireTimetags) → binsUsed idx (preEvents t pre) = [] := by
    intro pre
    induction pre with
    | nil => intro t _; rfl
    | cons i is ih =>
      intro t h
      simp only [preEvents]
      rw [binsUsed_append, ih _ (fun x hx => h x (List.mem_cons_of_mem _ hx))]
      obtain ⟨k, args, dd⟩ := i
      obtain ⟨g1, g2, g3, g4⟩ := h (k, args, dd) List.mem_cons_self
      simp only at g1 g2 g3 g4
      split
      · rfl
      · cases k <;> simp_all [binsUsed, Event.bin]
  have h0 := initBins_at hn hro
  obtain ⟨_, hs, he⟩ := reps_bins env p ht p.reps p.start (initBins p.bins)
    (by rw [h0]; exact hsize)
  rw [h0] at hs he
  have htr : binsUsed idx d.trace =
      binsUsed idx (iterate (p.repetition env) p.period p.reps p.start (initBins p.bins)).2 := by
    rw [h3]
    unfold Program.trace
    rw [binsUsed_append, binsUsed_append, hpe p.pre 0 hpre]
    simp [binsUsed, Event.bin]
  exact ⟨pc, d, h1, h2, by rw [htr]; exact hs, fun hc => by rw [htr]; exact he hc⟩

/-- **C32, per repetition.**  At the start of repetition `i` the register holds
`o + i * n`, so the `j`-th acquisition of repetition `i` uses bin `o + i * n + j`. -/
theorem append_bins_repetition {p : Program} {idx : Nat} {r : Reg} {o : Nat} (env : Env)
    (hn : (p.bins.map Prod.fst).Nodup) (hro : (r, o) ∈ p.bins) (ht : p.ops.tied idx r)
    (hc : p.ops.noCond) (hsize : o + p.reps * p.ops.uses r < 2 ^ 32) (i : Nat) (hi : i < p.reps) :
    binsUsed idx (p.repetition env (p.start + i * p.period)
        (iterate (p.repetition env) p.period i p.start (initBins p.bins)).1).2 =
      (List.range (p.ops.uses r)).map
        (fun j => ((o + i * p.ops.uses r + j : Nat) : Int)) := by
  have h0 := initBins_at hn hro
  have hW : wordSize = 2 ^ 32 := rfl
  have hle : (i + 1) * p.ops.uses r ≤ p.reps * p.ops.uses r := Nat.mul_le_mul_right _ (by omega)
  rw [Nat.succ_mul] at hle
  obtain ⟨h1, _, _⟩ := reps_bins env p ht i p.start (initBins p.bins) (by rw [h0]; omega)
  obtain ⟨_, _, h3⟩ := run_bins env p.ops ht (p.start + i * p.period + 4)
    (iterate (p.repetition env) p.period i p.start (initBins p.bins)).1
    (by rw [h1, h0]; omega)
  simp only [Program.repetition]
  rw [binsUsed_append, repEvents_bins, List.nil_append]
  refine (h3 hc).trans ?_
  have : (iterate (p.repetition env) p.period i p.start (initBins p.bins)).1 r =
      o + i * p.ops.uses r := by rw [h1, h0]
  exact congrArg (fun m => consecutive m (p.ops.uses r)) this

/-- Non-vacuity: `demo` (ProgramProps.lean) ties index 0 to R63 with 5 acquisitions per repetition. -/
example : demo.ops.tied 0 63 ∧ demo.ops.uses 63 = 5 ∧ (63, 0) ∈ demo.bins ∧
    (demo.bins.map Prod.fst).Nodup := by
  refine ⟨?_, by decide, by decide, by decide⟩
  have hp : ∀ t, (pulseAt t).tied 0 63 := by intro t k b h; simp [pulseAt, Strategy.acq] at h
  have ha : (acqAt 200).tied 0 63 := by
    intro k b h
    simp only [acqAt, Strategy.acq, Option.some.injEq, Prod.mk.injEq] at h
    obtain ⟨rfl, rfl⟩ := h
    exact ⟨fun _ => rfl, fun _ => rfl⟩
  refine ⟨hp 0, ⟨hp 100, ha, trivial⟩, ?_, trivial⟩
  intro l hl
  simp only [List.mem_cons, List.not_mem_nil, or_false] at hl
  rcases hl with rfl | rfl
  · exact hp 4600
  · exact hp 4640

end Verif.Q1
