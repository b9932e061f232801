/-
C71, from the schedule to the hardware.
-/
import Verif.Strategies.Props

set_option linter.unusedSimpArgs false
set_option linter.unusedVariables false

namespace Verif.Strategies

open Verif.Connect (Env Cluster Module Seq Chan compileSchedule)
open Verif.Connect.Spec (Wired Direct Uses)
open Verif.Flatten (Info ns onGrid Op Items Label PC content startAt entries itemEntries)
open Verif.StableSort (sortBy)
open Verif.EndToEnd (Factory added removalPass timeOf programOps)
open Verif.EndToEnd.Spec
open Spec

variable {K : Type} [DecidableEq K]

/-- The memory of a sequencer and the operations from which its program is generated: strategies and memory
(compiler_abc.py:387-441), its size (451-466), updates of parameters (322-347, 957-1027), order (752-757). -/
def programOf (c : Config K) (infos : List (Info Data)) : Except Err (Mem K × List Q1.Op) :=
  (strategies c infos).bind (fun r =>
    match Waves.validate r.1.awg with
    | .error _ => .error .runtimeError
    | .ok _ =>
      if infos.all (fun i => (onGrid i.timing).isOk) then
        .ok (r.1, sortBy timeOf (removalPass true (removalPass false (r.2.flatMap added))))
      else .error .valueError)

/-- The strategies that belong to a memory. -/
def factoryOf (c : Config K) (mem : Mem K) : Factory Data where
  leaf i := match genOne c mem i with
    | .ok (_, .leaf l) => { l with debug := none }
    | _ => ⟨0, true, false, false, .idle, none⟩
  reps := Data.repetitions
  cond d := ⟨true, .or, [d.trigger.getD 0]⟩
  nodebug i := by split <;> rfl

/-- An operation of the library, or the begin or end of control flow. -/
def Arises (i : Info Data) : Prop :=
  match i.data with
  | .pulse d => ∃ lib : Lib, d = lib.data ∧ Sampled lib
  | .acq d _ => ∃ lib : Lib, d = lib.data ∧ Sampled lib
  | .asm => False
  | .loopStart d => (∃ n, d = loopData n) ∨ ∃ a, d = condData a
  | .loopStop => True

/-- The entries of such a schedule. -/
def GoodEntry (e : Flatten.Entry Data) : Prop :=
  match e.payload with
  | .op p => FromLib (.plain p)
  | .start c _ _ => (∃ n, c.data = loopData n) ∨ ∃ a, c.data = condData a
  | .stop _ _ => True

mutual
theorem good_entries : ∀ (op : Op Data) (off : Rat) (label : Label), FromLib op →
    ∀ e ∈ entries op off label, GoodEntry e
  | .plain p, off, label, h, e, he => by
    simp only [entries, List.mem_singleton] at he
    subst he
    exact h
  | .sched items, off, label, h, e, he => by
    rw [entries] at he
    rw [FromLib] at h
    exact good_itemEntries items off label h e he
  | .ctl c dur body, off, label, h, e, he => by
    rw [entries] at he
    rw [FromLib] at h
    rcases List.mem_cons.mp he with he | he
    · subst he; exact h.1
    · rcases List.mem_append.mp he with he | he
      · exact good_entries body off _ h.2 e he
      · rw [List.mem_singleton.mp he]; trivial
theorem good_itemEntries : ∀ (items : Items Data) (off : Rat) (label : Label), FromLibItems items →
    ∀ e ∈ itemEntries items off label, GoodEntry e
  | .nil, off, label, h, e, he => by simp [itemEntries] at he
  | .cons name abs op rest, off, label, h, e, he => by
    rw [itemEntries] at he
    rw [FromLibItems] at h
    rcases List.mem_append.mp he with he | he
    · exact good_entries op _ _ h.1 e he
    · exact good_itemEntries rest off label h.2 e he
end

theorem mem_acqInfos (idx : Label × Nat → Option (List Int)) (pc : PC) (name : String) (n : Int) (label : Label) :
    ∀ (qs : List (Flatten.Piece Data)) (k : Nat) (i : Info Data), i ∈ Flatten.acqInfos idx pc name n label k qs →
      ∃ q ∈ qs, ∃ x, i.data = .acq q.data x
  | [], k, i, h => by simp [Flatten.acqInfos] at h
  | q :: qs, k, i, h => by
    rw [Flatten.acqInfos] at h
    rcases List.mem_append.mp h with h | h
    · split at h
      · rw [List.mem_singleton.mp h]
        exact ⟨q, List.mem_cons_self, _, rfl⟩
      · simp at h
    · obtain ⟨q', h1, h2⟩ := mem_acqInfos idx pc name n label qs (k + 1) i h
      exact ⟨q', List.mem_cons_of_mem _ h1, h2⟩

/-- The operations of a sequencer come from the schedule. -/
theorem arises {root : Op Data} (hlib : FromLib root) (idx : Label × Nat → Option (List Int)) (pc : PC) :
    ∀ i ∈ (content idx pc root 0 [] .nil).flatten, Arises i := by
  intro i hi
  rw [Flatten.content_flatten] at hi
  simp only [Flatten.Forest.flatten, List.append_nil] at hi
  obtain ⟨e, he, hi⟩ := List.mem_flatMap.mp hi
  have hg := good_entries root 0 [] hlib e he
  unfold Flatten.entryInfos at hi
  unfold GoodEntry at hg
  split at hi
  · rename_i p hp
    rw [hp] at hg
    simp only [FromLib] at hg
    unfold Flatten.plainInfos at hi
    split at hi
    · simp at hi
    · rw [hg.1] at hi
      simp only [reduceCtorEq, if_false, List.nil_append] at hi
      rcases List.mem_append.mp hi with hi | hi
      · obtain ⟨q, hq, rfl⟩ := List.mem_map.mp hi
        exact hg.2.1 q (List.mem_filter.mp hq).1
      · obtain ⟨q, hq, x, hx⟩ := mem_acqInfos _ _ _ _ _ _ _ _ hi
        unfold Arises
        rw [hx]
        exact hg.2.2 q hq
  · rename_i c pcs v hp
    rw [hp] at hg
    split at hi
    · rw [List.mem_singleton.mp hi]; exact hg
    · simp at hi
  · split at hi
    · rw [List.mem_singleton.mp hi]; trivial
    · simp at hi

theorem factoryOf_leaf {c : Config K} {mem : Mem K} {i : Info Data} {l : Q1.Leaf}
    (h : genOne c mem i = .ok (mem, .leaf l)) (hdb : l.debug = none) : (factoryOf c mem).leaf i = l := by
  simp only [factoryOf, h, ← hdb]

theorem forall₂_mem {α β : Type} {R : α → β → Prop} {as : List α} {bs : List β} (h : List.Forall₂ R as bs) :
    ∀ a ∈ as, ∃ b, R a b := by
  induction h with
  | nil => simp
  | cons hx _ ih =>
    intro a ha
    rcases List.mem_cons.mp ha with rfl | ha
    · exact ⟨_, hx⟩
    · exact ih a ha

/-- The strategy of an operation is that of the factory. -/
theorem strategy_eq {c : Config K} {mem : Mem K} (hinj : Function.Injective c.hash) (hok : MemOk c.hash mem)
    {i : Info Data} (hi : Arises i) {op : Q1.Op} (h : genOne c mem i = .ok (mem, op)) :
    (factoryOf c mem).strategy i = op := by
  unfold Arises at hi
  have leafCase : ∀ {lib : Lib}, dataOf i = .ok lib.data → Sampled lib →
      Q1.Op.leaf ((factoryOf c mem).leafAt i) = op := by
    intro lib hd hs
    obtain ⟨l, rfl, hdb, _⟩ := gen_asks hinj hok hd hs h
    unfold EndToEnd.Factory.leafAt
    rw [factoryOf_leaf h hdb]
    have ht : l.t = ns i.timing := by
      unfold genOne at h
      rw [hd] at h
      obtain ⟨d', hd', h⟩ := bind_ok h
      obtain ⟨k, hk, h⟩ := bind_ok h
      cases k <;> simp only [Except.ok.injEq, Prod.mk.injEq, reduceCtorEq, and_false] at h <;>
      · obtain ⟨r, _, h⟩ := bind_ok h
        simp only [Except.ok.injEq, Prod.mk.injEq, Q1.Op.leaf.injEq] at h
        rw [← h.2]
    rw [← ht]
  unfold EndToEnd.Factory.strategy
  cases hd : i.data with
  | pulse d =>
    rw [hd] at hi
    obtain ⟨lib, rfl, hs⟩ := hi
    simp only
    exact leafCase (lib := lib) (by unfold dataOf; rw [hd]) hs
  | acq d x =>
    rw [hd] at hi
    obtain ⟨lib, rfl, hs⟩ := hi
    simp only
    exact leafCase (lib := lib) (by unfold dataOf; rw [hd]) hs
  | asm => rw [hd] at hi; exact hi.elim
  | loopStop =>
    simp only
    unfold genOne dataOf at h
    rw [hd] at h
    have hk : factory c.mod returnData = .ok .ret := by cases c.mod <;> rfl
    simp only [Except.bind, hk, Except.ok.injEq, Prod.mk.injEq] at h
    exact h.2
  | loopStart d =>
    rw [hd] at hi
    simp only at hi ⊢
    unfold genOne dataOf at h
    rw [hd] at h
    rcases hi with ⟨n, rfl⟩ | ⟨a, rfl⟩
    · have hk : factory c.mod (loopData n) = .ok (.loop n) := by cases c.mod <;> rfl
      simp only [Except.bind, hk, Except.ok.injEq, Prod.mk.injEq] at h
      exact h.2
    · have hk : factory c.mod (condData a) = .ok (.conditional a) := by cases c.mod <;> rfl
      simp only [Except.bind, hk, Except.ok.injEq, Prod.mk.injEq] at h
      exact h.2

/-- The program is that of C70. -/
theorem programOf_ok {c : Config K} (hinj : Function.Injective c.hash) {infos : List (Info Data)}
    (harise : ∀ i ∈ infos, Arises i) {mem : Mem K} {ops : List Q1.Op} (h : programOf c infos = .ok (mem, ops)) :
    programOps (factoryOf c mem) infos = .ok ops ∧ MemOk c.hash mem ∧
      (∀ i ∈ infos, ∃ op, genOne c mem i = .ok (mem, op)) ∧
      (mem.awg.map (fun e => e.data.length)).sum ≤ 16384 := by
  unfold programOf at h
  obtain ⟨⟨m, os⟩, h1, h⟩ := bind_ok h
  obtain ⟨hok, hall⟩ := strategies_final h1
  simp only at h
  split at h
  · simp at h
  rename_i hv
  split at h
  · rename_i hg
    simp only [Except.ok.injEq, Prod.mk.injEq] at h
    obtain ⟨rfl, rfl⟩ := h
    have hmap : ∀ {is : List (Info Data)} {os : List Q1.Op}, (∀ i ∈ is, Arises i) →
        List.Forall₂ (fun i op => genOne c m i = .ok (m, op)) is os → os = is.map (factoryOf c m).strategy := by
      intro is os ha hf
      induction hf with
      | nil => rfl
      | cons hx _ ih =>
        rw [List.map_cons, strategy_eq hinj hok (ha _ List.mem_cons_self) hx,
          ← ih (fun i hi => ha i (List.mem_cons_of_mem _ hi))]
    refine ⟨?_, hok, ?_, ?_⟩
    · unfold programOps
      rw [if_pos hg, hmap harise hall, List.flatMap_map]
    · exact forall₂_mem hall
    · unfold Waves.validate at hv
      split at hv
      · simp at hv
      · split at hv
        · simp at hv
        · rename_i hn; omega
  · simp at h

/-- **C71.** A schedule of operations of the library is compiled and the program of one of its sequencers is
executed.  Then what happens is, up to updates and bins, the set-up, the synchronization, and for each repetition of
the schedule and each operation on the port-clock of the sequencer what this operation asks for (`Asks`), at its time,
in each iteration of the loops it is in, as far as its conditions hold.  The waveforms fit into the memory. -/
theorem library_executed {k : Connect.Kind (Info Data)} {v01 : Bool} {cenv : Env} {cs : List Cluster} {used : List PC}
    {idx : Label × Nat → Option (List Int)} {root : Op Data}
    {out : List (Module × List (Nat × Seq (Info Data)))}
    (h : compileSchedule k v01 cenv cs used idx root = .ok out) {m : Module}
    {ss : List (Nat × Seq (Info Data))} (hm : (m, ss) ∈ out) {n : Nat} {s : Seq (Info Data)} (hs : (n, s) ∈ ss)
    (hap : (content idx s.pc root 0 [] .nil).Apart Info.key) (hlib : FromLib root)
    (hsup : Supported Data.repetitions s.pc root)
    {c : Config K} (hinj : Function.Injective c.hash) {mem : Mem K} {p : Q1.Program}
    (hp : programOf c s.ops = .ok (mem, p.ops.flatten))
    {A : List Q1.Reg} (hA : Q1.AvailOk A) (hok : p.Ok A) {q : Q1.Qasm} (hc : p.compile A = .ok q)
    (env : Q1.Env) (hst : p.Stable env) :
    (mem.awg.map (fun e => e.data.length)).sum ≤ 16384 ∧
    ∃ i d, Q1.Steps q.instrs env (0, Q1.Data.init) (i, d) ∧ Q1.Stopped q.instrs (i, d) ∧
      ∃ F : Factory Data, F.reps = Data.repetitions ∧ (∀ d, F.cond d = ⟨true, .or, [d.trigger.getD 0]⟩) ∧
        (visible d.trace).Perm (expected F env idx s.pc root p) ∧
        ∀ x ∈ s.ops, ∀ lib : Lib, dataOf x = .ok lib.data → Sampled lib →
          ∃ es, Asks c.mod mem c.freq c.acqIndex lib es ∧ does F x = visible es := by
  have hperm := (Connect.sequencer_content h hm hs).1
  have harise : ∀ i ∈ s.ops, Arises i := fun i hi => arises hlib idx s.pc i (hperm.mem_iff.mp hi)
  obtain ⟨h1, h2, h3, h4⟩ := programOf_ok hinj harise hp
  refine ⟨h4, ?_⟩
  obtain ⟨i, d, e1, e2, e3⟩ := EndToEnd.executed h hm hs hap (factoryOf c mem) hsup h1 hA hok hc env hst
  refine ⟨i, d, e1, e2, factoryOf c mem, rfl, fun _ => rfl, e3, ?_⟩
  intro x hx lib hd hsam
  obtain ⟨op, hop⟩ := h3 x hx
  obtain ⟨l, rfl, hdb, hasks⟩ := gen_asks hinj h2 hd hsam hop
  refine ⟨l.events (fun _ => 0), hasks _, ?_⟩
  unfold does
  rw [factoryOf_leaf hop hdb]

end Verif.Strategies
