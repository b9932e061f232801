/-
Specification: what runs, what is synchronised and what is returned.
-/
import Verif.Lifecycle.Model
import Verif.Prepare.Spec
import Verif.Retrieve.Spec

namespace Verif.Lifecycle.Spec

open Verif.Connect (ModType)
open Verif.Prepare (Dev Val)
open Verif.Prepare.Spec (Coherent CalOk sequencers)

variable {σ : Type}

/-- Module `n` of cluster `c`. -/
def At (x : Coord σ) (c n : String) (m : Module σ) : Prop :=
  ∃ cl, Dict.get? x.comps c = some (.cluster cl) ∧ Dict.get? cl.modules n = some m

/-- Sequencer `k` of module `n` of cluster `c` is running. -/
def Running (x : Coord σ) (c n : String) (k : Nat) : Prop := ∃ m, At x c n m ∧ m.state k = .running

/-- Sequencer `k` of module `n` of cluster `c` takes part in the synchronisation. -/
def Synced (x : Coord σ) (c n : String) (k : Nat) : Prop :=
  ∃ m, At x c n m ∧ k < sequencers m.type ∧ m.dev.hw (.seq k .sync) = .bool true

/-- A sequencer that waits for the others waits forever: one of those it waits for does not run. -/
def Hangs (x : Coord σ) : Prop :=
  (∃ c n k, Running x c n k ∧ Synced x c n k) ∧ ∃ c n k, Synced x c n k ∧ ¬Running x c n k

/-- Sequencer `k` in the program of a module, whether it synchronises, and what it plays. -/
def SeqOf (p : ModProg σ) (k : Nat) (sync : Bool) (z : σ) : Prop :=
  match p.body with
  | .analog q => ∃ s, (k, s) ∈ q.seqs ∧ s.syncEn = sync ∧ s.sequence = z
  | .timetag l => ∃ s, (k, s) ∈ l ∧ s.syncEn = sync ∧ s.sequence = z

/-- The schedule has this program for module `n` of cluster `c`. -/
def InSchedule (s : Compiled σ) (c n : String) (p : ModProg σ) : Prop :=
  ∃ cp, (c, .cluster cp) ∈ s.instrs ∧ (n, p) ∈ cp.mods

/-- The schedule plays `z` on sequencer `k` of module `n` of cluster `c`. -/
def Plays (s : Compiled σ) (c n : String) (k : Nat) (sync : Bool) (z : σ) : Prop :=
  ∃ p, InSchedule s c n p ∧ SeqOf p k sync z

/-- The cluster is used by the schedule. -/
def Uses (s : Compiled σ) (c : String) : Prop := c ∈ s.instrs.map Prod.fst

/-- The keys of the dictionaries of a program are different (as Python's dictionaries are), and the
sequencers of a QTM are wired to the channel with their number. -/
def ProgOk (p : ModProg σ) : Prop :=
  match p.body with
  | .analog q => (q.seqs.map Prod.fst).Nodup ∧ ∀ e ∈ q.seqs, (e.2.reads.map Prod.fst).Nodup
  | .timetag l => (l.map Prod.fst).Nodup ∧ (∀ e ∈ l, (e.2.reads.map Prod.fst).Nodup) ∧
      ∀ e ∈ l, (e.2.ins = [e.1] ∧ e.2.outs = []) ∨ (e.2.ins = [] ∧ e.2.outs = [e.1])

/-- The dictionaries of a compiled schedule. -/
structure CompiledOk (s : Compiled σ) : Prop where
  names : (s.instrs.map Prod.fst).Nodup
  mods : ∀ c cp, (c, .cluster cp) ∈ s.instrs → (cp.mods.map Prod.fst).Nodup
  progs : ∀ c n p, InSchedule s c n p → ProgOk p

/-- The names of the components are different, and what the driver remembers of a module is right. -/
def CompOk : Comp σ → Prop
  | .cluster c => (c.modules.map Prod.fst).Nodup ∧ ∀ e ∈ c.modules, Coherent e.2.dev
  | _ => True

structure Ok (x : Coord σ) : Prop where
  names : (x.comps.map Prod.fst).Nodup
  comps : ∀ e ∈ x.comps, CompOk e.2

/-- The calibrations of the driver are as in `Prepare/`; a failed `prepare` of a module has replaced the
program and set some parameters. -/
structure EnvOk (env : Env σ) : Prop where
  cal : CalOk env.run
  fail_same : ∀ p m, (env.fail p m).type = m.type ∧ (env.fail p m).slot = m.slot ∧
    (env.fail p m).state = m.state ∧ (env.fail p m).data = m.data ∧ (env.fail p m).prog = p.seqs
  fail_coherent : ∀ p m, Coherent m.dev → Coherent (env.fail p m).dev

/-- A program can be loaded on a module of this type: it is one for such a module, its sequencers exist, a
QRC has the NCO on, and traces are recorded by one sequencer. -/
def Fits (t : ModType) (p : ModProg σ) : Prop :=
  match p.body with
  | .timetag l => t = .qtm ∧ ∀ e ∈ l, e.1 < sequencers t
  | .analog q => t ≠ .qtm ∧ (∀ e ∈ q.seqs, e.1 < sequencers t ∧ (t = .qrc → e.2.ncoEn = true)) ∧
      (t = .qrm ∨ t = .qrmRf ∨ t = .qrc → ∀ m, p.acq = some m → ∀ j k,
        (∃ l, (j, l) ∈ m ∧ ∃ ch ∈ q.traces, ch ∈ l.map Prod.fst) →
        (∃ l, (k, l) ∈ m ∧ ∃ ch ∈ q.traces, ch ∈ l.map Prod.fst) → j = k)

/-- A component can be prepared with these instructions. -/
def Prepares : Comp σ → Instr σ → Prop
  | .cluster cl, .cluster cp => ∀ n p, (n, p) ∈ cp.mods → ∃ m, Dict.get? cl.modules n = some m ∧ Fits m.type p
  | .generic _, .generic l => ∀ e ∈ l, '.' ∈ e.1.toList
  | .other _ _, .other => True
  | _, _ => False

/-- A schedule can be prepared: there is a component of the right kind for all of its instructions. -/
def Preparable (x : Coord σ) (s : Compiled σ) : Prop :=
  ∀ c i, (c, i) ∈ s.instrs → ∃ comp, Dict.get? x.comps c = some comp ∧ Prepares comp i

/-- Synchronisation with an external trigger is possible. -/
def TriggerOk (cl : Cluster σ) (t : Trigger) : Prop :=
  t.slot = 0 ∨ (t.threshold ≠ none ∧ (∃ e ∈ cl.modules, e.2.slot = t.slot) ∧
    ∀ e ∈ cl.modules, e.2.slot = t.slot → e.2.type = .qtm)

/-- Calls of the instrument coordinator, in any order. -/
inductive Call (σ : Type) where
  | prepare (s : Compiled σ)
  | start
  | stop (allow : Bool)
  | wait (sec : Nat)
  | retrieve (sec : Nat)

/-- The coordinator after a call, whether or not it raised an exception. -/
def after [DecidableEq σ] (env : Env σ) (x : Coord σ) : Call σ → Coord σ
  | .prepare s => (x.prepare env s).1
  | .start => x.start.1
  | .stop a => (x.stop a).1
  | .wait sec => (x.wait env sec).1
  | .retrieve sec => (x.retrieve env sec).1

/-- What sequencer `k` has run for this program: its part of the program, once; or nothing, if it has none. -/
def Runs (p : ModProg σ) (k : Nat) (z : List (Val σ)) : Prop :=
  (∃ b w, SeqOf p k b w ∧ z = [.program w]) ∨ ((∀ b w, ¬SeqOf p k b w) ∧ z = [])

/-- Sequencer `k` of a module with this program measures a channel, in these bins. -/
def Measures (p : ModProg σ) (k : Nat) (e : Nat × Retrieve.Mapping) : Prop :=
  ∃ m l, p.acq = some m ∧ (k, l) ∈ m ∧ e ∈ l

/-- The value the hardware has for a channel that sequencer `k` measures, in a row and at an acquisition
index, after one run of this program on a module of this type. -/
def MeasuredIn (env : Env σ) (t : ModType) (s : Compiled σ) (p : ModProg σ) (k : Nat)
    (e : Nat × Retrieve.Mapping) (row acq : Nat) (o : Retrieve.Out) : Prop :=
  ∃ z dur, Runs p k z ∧
    (∀ q sq n, p.body = .analog q → (k, sq) ∈ q.seqs → sq.length = some (Int.ofNat n) → dur = n) ∧
    Retrieve.Measured (if t = .qtm then .qtm else .qrm) s.chans s.reps (⟨env.read z, dur⟩, e) e.1 row acq o

/-- Modules that can measure. -/
def Readout (t : ModType) : Prop := t = .qrm ∨ t = .qrmRf ∨ t = .qrc ∨ t = .qtm

end Verif.Lifecycle.Spec
