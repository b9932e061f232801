/-
C71: one pulse, and what modules refuse or ignore.
-/
import Verif.Strategies.Program

set_option linter.unusedSimpArgs false
set_option linter.unusedVariables false

namespace Verif.Strategies

open Verif.Connect (Env Cluster Module Seq Chan compileSchedule)
open Verif.Connect.Spec (Wired Direct Uses)
open Verif.Flatten (Info ns onGrid Op Items Label PC content startAt entries itemEntries)
open Verif.StableSort (sortBy)
open Verif.EndToEnd (Factory added removalPass timeOf programOps)
open Verif.EndToEnd.Spec
open Spec

variable {K : Type} [DecidableEq K]

theorem forgetBin_kind (e : Q1.Event) : (forgetBin e).kind = e.kind := by
  unfold forgetBin; split <;> first | rfl | (symm; assumption)

theorem forgetBin_same {e : Q1.Event} (h : e.kind = .setAwgGain ∨ e.kind = .play) : forgetBin e = e := by
  unfold forgetBin
  rcases h with h | h <;> simp [h]

/-- **C71, for one pulse.** A pulse with samples `re`, `im`, on a port that is wired to channels of a module: a
sequencer of this module that is connected to precisely these channels plays it, in every repetition of the schedule
and every iteration of the loops it is in, at its time in the schedule: gains are set and two waveforms of the memory
are played whose samples, times the gains, are those of the pulse within the resolution (C54) — unless all samples
are less than a step. -/
theorem wave_played {k : Connect.Kind (Info Data)} {cenv : Env} {cs : List Cluster} {used : List PC}
    {idx : Label × Nat → Option (List Int)} {root : Op Data}
    {out : List (Module × List (Nat × Seq (Info Data)))}
    (hcs : (cs.map Cluster.name).Nodup) (hms : ∀ c ∈ cs, (c.modules.map Prod.fst).Nodup)
    (hu : used.Nodup) (h : compileSchedule k false cenv cs used idx root = .ok out)
    (huniq : Flatten.Unique root) {l : Label} {t : Rat} {pl : Flatten.Plain Data}
    (hf : root.find l = some (t, pl)) (hw : pl.window = false) {x : Flatten.Piece Data}
    (hx : x ∈ pl.pulses) {port clock : String} (hport : x.port = some port)
    (hclock : x.clock = some clock) (hpc : (port, clock) ∈ used)
    (hreset : k.isReset ⟨pl.name, .pulse x.data, startAt (ns t) x.t0, ns t⟩ = false)
    (hdir : Direct cenv.graph (cs.map Cluster.name) port) {cl : String} {j : Nat} {ch0 : Chan}
    (hwire : Wired cenv.graph port cl j ch0)
    (hqtm : ∀ d ∈ cs, d.name = cl → (j, Connect.ModType.qtm) ∉ d.modules)
    (hap : (content idx (port, clock) root 0 [] .nil).Apart Info.key) (hlib : FromLib root)
    (hsup : Supported Data.repetitions (port, clock) root)
    {re im : List Rat} (hdata : x.data = (Lib.wave re im port).data) (hne : re ≠ [])
    (hlen : im.length = re.length) :
    ∃ m ss n s, (m, ss) ∈ out ∧ m.cluster = cl ∧ m.idx = j ∧ (n, s) ∈ ss ∧ s.pc = (port, clock) ∧
      (∀ ch, Uses s.path ch ↔ Wired cenv.graph port cl j ch) ∧
      ∀ (c : Config K), Function.Injective c.hash →
      ∀ (mem : Mem K) (p : Q1.Program), programOf c s.ops = .ok (mem, p.ops.flatten) →
      ∀ (A : List Q1.Reg), Q1.AvailOk A → p.Ok A → ∀ q, p.compile A = .ok q →
      ∀ (env : Q1.Env), p.Stable env →
      ∃ i d, Q1.Steps q.instrs env (0, Q1.Data.init) (i, d) ∧ Q1.Stopped q.instrs (i, d) ∧
        (((∀ y ∈ re, |y| < 1 / 32768) ∧ ∀ y ∈ im, |y| < 1 / 32768) ∨
        ∃ (gI gQ : Int) (a b : Nat), Waves.Plays mem.awg gI a re ∧ Waves.Plays mem.awg gQ b im ∧
          ∀ r, r < p.reps → ∀ δ, Delayed Data.repetitions root l δ →
            (⟨ns (startAt (ns t) x.t0) + (repStart p r + δ), .setAwgGain, [gI, gQ]⟩ : Q1.Event) ∈ d.trace ∧
            (⟨ns (startAt (ns t) x.t0) + (repStart p r + δ), .play, [(a : Int), b]⟩ : Q1.Event) ∈ d.trace) := by
  obtain ⟨m, ss, n, s, h1, h2, h3, h4, h5, h6, h7⟩ := Connect.pulse_played hcs hms hu h huniq hf hw hx hport
    hclock hpc hreset hdir hwire hqtm
  refine ⟨m, ss, n, s, h1, h2, h3, h4, h5, h6, ?_⟩
  intro c hinj mem p hp A hA hok q hc env hst
  rw [← h5] at hap hsup
  obtain ⟨_, i, d, e1, e2, F, hreps, _, e3, e4⟩ := library_executed h h1 h4 hap hlib hsup hinj hp hA hok hc env hst
  refine ⟨i, d, e1, e2, ?_⟩
  obtain ⟨es, hask, hdoes⟩ := e4 _ h7 (.wave re im port) (by simp only [dataOf, hdata]) ⟨hne, hlen⟩
  obtain ⟨_, ⟨_, hs1, hs2⟩ | ⟨gI, gQ, a, b, rfl, hI, hQ⟩⟩ := hask
  · exact .inl ⟨hs1, hs2⟩
  · refine .inr ⟨gI, gQ, a, b, hI, hQ, ?_⟩
    intro r hr δ hδ
    have key : ∀ e ∈ does F ⟨pl.name, .pulse x.data, startAt (ns t) x.t0, ns t⟩,
        e.shift (ns (startAt (ns t) x.t0) + (repStart p r + δ)) ∈ visible d.trace := by
      intro e he
      rw [e3.mem_iff]
      unfold expected
      refine List.mem_append_right _ (List.mem_flatMap.mpr ⟨r, List.mem_range.mpr hr,
        List.mem_append_right _ ?_⟩)
      unfold doAll
      refine List.mem_flatMap.mpr ⟨(⟨pl.name, .pulse x.data, startAt (ns t) x.t0, ns t⟩, repStart p r + δ),
        ?_, ?_⟩
      · rw [← hreps] at hδ
        apply EndToEnd.mem_unrolled F.reps F.cond env idx s.pc root l t pl δ hf hδ 0 [] (repStart p r)
        rw [zero_add, h5]
        simp only [Flatten.plainInfos, hw, Bool.false_eq_true, if_false, List.mem_append, List.mem_map,
          List.mem_filter]
        refine Or.inl (Or.inr ⟨x, ⟨hx, ?_⟩, rfl⟩)
        simp [Flatten.pulseFor, hport, hclock]
      · exact List.mem_map.mpr ⟨e, he, rfl⟩
    rw [hdoes] at key
    have hvis : ∀ {e : Q1.Event}, (e.kind = .setAwgGain ∨ e.kind = .play) → e ∈ visible d.trace → e ∈ d.trace := by
      intro e hk he
      unfold visible at he
      obtain ⟨e', he', rfl⟩ := List.mem_map.mp he
      have := (List.mem_filter.mp he').1
      rw [forgetBin_kind] at hk
      rwa [forgetBin_same hk]
    constructor
    · have := key ⟨0, .setAwgGain, [gI, gQ]⟩ (by simp [visible, forgetBin])
      simpa [Q1.Event.shift] using hvis (.inl rfl) this
    · have := key ⟨0, .play, [(a : Int), b]⟩ (by simp [visible, forgetBin])
      simpa [Q1.Event.shift] using hvis (.inr rfl) this

/-- The operations that set parameters are followed by an update, and only pulses and acquisitions make one
unnecessary (C20). -/
theorem flags {c : Config K} {mem mem' : Mem K} {i : Info Data} {lib : Lib} (hd : dataOf i = .ok lib.data)
    {l : Q1.Leaf} (h : genOne c mem i = .ok (mem', .leaf l)) :
    (l.isRT = true ↔ Applies lib) ∧ (l.isParam = true ↔ Sets lib) := by
  unfold genOne at h
  rw [hd] at h
  obtain ⟨d', hd', h⟩ := bind_ok h
  obtain ⟨k, hk, h⟩ := bind_ok h
  simp only [Except.ok.injEq] at hd'
  subst hd'
  have key : l.isParam = lib.data.isParam ∧ l.isRT = lib.data.isRT := by
    cases k <;> simp only [Except.ok.injEq, Prod.mk.injEq, reduceCtorEq, and_false] at h <;>
    · obtain ⟨r, _, h⟩ := bind_ok h
      simp only [Except.ok.injEq, Prod.mk.injEq, Q1.Op.leaf.injEq] at h
      rw [← h.2]
      exact ⟨rfl, rfl⟩
  rw [key.1, key.2]
  cases lib <;> simp [Lib.data, Data.isRT, Data.isParam, Data.isUpdate, Applies, Sets]

/-! ### What modules refuse and what they ignore -/

/-- A waveform with an imaginary part is refused on a channel that is not complex. -/
theorem complex_refused {c : Config K} (ha : c.mod = .analog) (hc : c.complex = false) (mem : Mem K) (name : String)
    {re im : List Rat} (him : ∃ y ∈ im, y ≠ 0) (port : String) (timing : Rat) (key : Int) :
    genOne c mem ⟨name, .pulse (Lib.wave re im port).data, timing, key⟩ = .error .valueError := by
  have hk : factory c.mod (Lib.wave re im port).data = .ok .pulse := by rw [ha]; rfl
  have h2 : (im.any (fun y => decide (y ≠ 0)) && !c.complex) = true := by
    rw [hc, Bool.not_false, Bool.and_true, List.any_eq_true]
    obtain ⟨y, hy, h0⟩ := him
    exact ⟨y, hy, by simpa using h0⟩
  unfold genOne dataOf
  simp only [Except.bind, hk]
  simp only [Lib.data, genOther, genPulse, h2, if_true]

/-- A change of the clock frequency is refused by an analog module unless the operation it is in is called
"SetClockFrequency": as part of any other operation (for instance of a gate with several pulses) it is not
compiled. -/
theorem setFrequency_name {c : Config K} (ha : c.mod = .analog) (mem : Mem K) (name : String)
    (hn : name ≠ "SetClockFrequency") (new : Option Rat) (old : Option Rat) (timing : Rat) (key : Int) :
    genOne c mem ⟨name, .pulse (Lib.setFrequency new old).data, timing, key⟩ = .error .runtimeError := by
  have hk : factory c.mod (Lib.setFrequency new old).data = .ok .setFreq := by rw [ha]; rfl
  unfold genOne dataOf
  simp only [Except.bind, hk]
  simp only [Lib.data, genOther, freqArg, hn, if_false]
  cases old <;> rfl

/-- A time stamp is refused by an analog module. -/
theorem timestamp_analog {c : Config K} (ha : c.mod = .analog) (mem : Mem K) (name port : String) (timing : Rat)
    (key : Int) :
    genOne c mem ⟨name, .pulse (Lib.timestamp port).data, timing, key⟩ = .error .typeError := by
  have hk : factory c.mod (Lib.timestamp port).data = .ok .pulse := by rw [ha]; rfl
  unfold genOne dataOf
  simp only [Except.bind, hk]
  rfl

/-- Waveforms and offsets are refused by a QTM. -/
theorem wave_timetag {c : Config K} (ha : c.mod = .timetag) (mem : Mem K) (name : String) {lib : Lib}
    (hl : (∃ re im port, lib = .wave re im port) ∨ ∃ x y port, lib = .offset x y port) (timing : Rat) (key : Int) :
    genOne c mem ⟨name, .pulse lib.data, timing, key⟩ = .error .valueError := by
  have hk : factory c.mod lib.data = .error .valueError := by
    rw [ha]
    rcases hl with ⟨re, im, port, rfl⟩ | ⟨x, y, port, rfl⟩ <;> rfl
  unfold genOne dataOf
  simp only [Except.bind, hk]

/-- Changes of phase and frequency of a clock are ignored by a QTM without a message, whatever they are. -/
theorem clock_timetag {c : Config K} (ha : c.mod = .timetag) (mem : Mem K) (name : String) {lib : Lib}
    (hl : (∃ deg, lib = .shiftPhase deg) ∨ lib = .resetPhase ∨ ∃ new old, lib = .setFrequency new old)
    (timing : Rat) (key : Int) :
    ∃ l : Q1.Leaf, genOne c mem ⟨name, .pulse lib.data, timing, key⟩ = .ok (mem, .leaf l) ∧
      l.events (fun _ => 0) = [] := by
  have hk : factory c.mod lib.data = .ok .idle := by
    rw [ha]
    rcases hl with ⟨deg, rfl⟩ | rfl | ⟨new, old, rfl⟩ <;> rfl
  have hq : lib.data.acq = none := by
    rcases hl with ⟨deg, rfl⟩ | rfl | ⟨new, old, rfl⟩ <;> rfl
  unfold genOne dataOf
  simp only [Except.bind, hk, hq, genOther]
  exact ⟨_, rfl, rfl⟩

end Verif.Strategies
