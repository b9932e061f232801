/-
C23: crosstalk compensation yields the intended signals.
-/
import Verif.Crosstalk.Model
import Mathlib.Algebra.BigOperators.Group.List.Basic
import Mathlib.Algebra.BigOperators.Ring.List
import Mathlib.Algebra.Order.Field.Rat
import Mathlib.Tactic.Ring
import Mathlib.Tactic.Linarith
import Mathlib.Data.List.Nodup

set_option linter.unusedSimpArgs false
set_option linter.unusedVariables false
set_option linter.unusedSectionVars false

namespace Verif.Crosstalk

variable {F Id : Type} [Field F] [DecidableEq F] [DecidableEq Id]

/-! ### Specification -/

/-- What one schedulable plays on `pc` at time `t`; `wave` gives the value of a waveform with
given parameters some time after its start. -/
def schVal (wave : List (String × F) → Rat → F) (ops : List (Id × Op F)) (pc : String) (t : Rat)
    (s : Sch Id) : F :=
  match Dict.get? ops s.opId with
  | some op => if op.hasWf = true ∧ op.pc = pc then wave op.params (t - s.absTime) else 0
  | none => 0

/-- What a schedule plays on `pc` at time `t`. -/
def played (wave : List (String × F) → Rat → F) (st : State F Id) (pc : String) (t : Rat) : F :=
  (st.schs.map (fun e => schVal wave st.ops pc t e.2)).sum

/-- What arrives at `dest`: the signals of all port-clocks, weighted with the crosstalk. -/
def received (wave : List (String × F) → Rat → F) (crosstalk : List (String × List (String × F)))
    (st : State F Id) (dest : String) (t : Rat) : F :=
  ((uniquePortClocks crosstalk).map (fun src =>
    played wave st src t * crosstalkMatrix crosstalk src dest)).sum

/-- `comp` is the inverse of the crosstalk matrix. -/
def IsInverse (crosstalk : List (String × List (String × F))) (comp : Nat → Nat → F) : Prop :=
  let pcs := uniquePortClocks crosstalk
  ∀ i < pcs.length, ∀ dest ∈ pcs, ((List.range pcs.length).map (fun s =>
    comp i s * crosstalkMatrix crosstalk (pcs.getD s "") dest)).sum =
      if pcs.getD i "" = dest then 1 else 0

/-- The schedules for which the compensation is proved right. -/
structure Good (H : Op F → Id) (wave : List (String × F) → Rat → F) (pcs : List String)
    (comp : Nat → Nat → F) (st : State F Id) : Prop where
  /-- the hash identifies an operation, and operations are stored by their hash -/
  inj : Function.Injective H
  stored : ∀ e ∈ st.schs, ∃ op, Dict.get? st.ops e.2.opId = some op ∧ e.2.opId = H op
  /-- each operation is used by one schedulable only -/
  once : (st.schs.map (fun e => e.2.opId)).Nodup
  /-- the keys are the usual ones -/
  keys : ∀ e ∈ st.schs, ∃ n, e.1 = Key.orig n
  /-- pulses are on the configured port-clocks -/
  on : ∀ e ∈ st.schs, ∀ op, Dict.get? st.ops e.2.opId = some op → op.hasWf = true → op.pc ∈ pcs
  split : ∀ pc ∈ pcs, splitOk pc = true
  /-- waveforms are linear in the parameters with `amp` in their name -/
  linear : ∀ e ∈ st.schs, ∀ op, Dict.get? st.ops e.2.opId = some op → op.hasWf = true →
    ∀ c t, wave (scaleAmp c op.params) t = c * wave op.params t
  /-- no operation of the schedule looks like a compensation of another one -/
  clash : ∀ e ∈ st.schs, ∀ op, Dict.get? st.ops e.2.opId = some op → ∀ e' ∈ st.schs, ∀ op',
    Dict.get? st.ops e'.2.opId = some op' → ∀ i < pcs.length, i ≠ pcs.idxOf op.pc →
      compOp op (pcs.getD i "") (comp (pcs.idxOf op.pc) i) ≠ op'

/-! ### Port-clock list -/

theorem unique_aux (l acc : List String) (h : acc.Nodup) :
    (l.foldl (fun l x => if x ∈ l then l else l ++ [x]) acc).Nodup := by
  induction l generalizing acc with
  | nil => exact h
  | cons a l ih =>
    rw [List.foldl_cons]
    apply ih
    split
    · exact h
    · rename_i hm
      rw [List.nodup_append]
      refine ⟨h, by simp, ?_⟩
      intro x hx y hy
      simp only [List.mem_singleton] at hy
      subst hy; rintro rfl; exact hm hx

theorem unique_nodup (crosstalk : List (String × List (String × F))) :
    (uniquePortClocks crosstalk).Nodup := by
  unfold uniquePortClocks
  exact (List.mergeSort_perm _ _).nodup_iff.mpr (unique_aux _ [] List.nodup_nil)

/-! ### The loop over a row -/

/-- The targets that get a compensation pulse. -/
def targets (row : Nat → F) (idx : Nat) (is : List Nat) : List Nat :=
  is.filter (fun i => decide (row i ≠ 0 ∧ i ≠ idx))

/-- The schedulables added for the targets. -/
def compSchs (H : Op F → Id) (pcs : List String) (row : Nat → F) (op : Op F) (sch : Sch Id)
    (ts : List Nat) : List (Key Id × Sch Id) :=
  ts.map (fun i => (Key.comp (H op) i, ⟨H (compOp op (pcs.getD i "") (row i)), sch.absTime⟩))

theorem addComps_spec (H : Op F → Id) (hinj : Function.Injective H) (pcs : List String)
    (row : Nat → F) (idx : Nat) (op : Op F) (sch : Sch Id)
    (hsplit : ∀ pc ∈ pcs, splitOk pc = true) :
    ∀ (is : List Nat) (st : State F Id), is.Nodup → (∀ i ∈ is, i < pcs.length) →
    (∀ i ∈ is, Key.comp (H op) i ∉ Dict.keys st.schs) →
    ∃ st', addComps H pcs row idx op sch is st = .ok st' ∧
      st'.schs = st.schs ++ compSchs H pcs row op sch (targets row idx is) ∧
      (∀ i ∈ targets row idx is, Dict.get? st'.ops (H (compOp op (pcs.getD i "") (row i))) =
        some (compOp op (pcs.getD i "") (row i))) ∧
      (∀ id, (∀ i ∈ targets row idx is, id ≠ H (compOp op (pcs.getD i "") (row i))) →
        Dict.get? st'.ops id = Dict.get? st.ops id) ∧
      (∀ x, Dict.get? st.ops (H x) = some x → Dict.get? st'.ops (H x) = some x) := by
  intro is
  induction is with
  | nil =>
    intro st _ _ _
    exact ⟨st, rfl, by simp [targets, compSchs], by simp [targets], fun id _ => rfl, fun x hx => hx⟩
  | cons i is ih =>
    intro st hnd hlt hkey
    rw [List.nodup_cons] at hnd
    unfold addComps
    by_cases hc : row i ≠ 0 ∧ i ≠ idx
    · rw [if_pos hc]
      have hi := hlt i List.mem_cons_self
      have hpc : pcs.getD i "" ∈ pcs := by
        simp [List.getD, List.getElem?_eq_getElem hi]
      have hadd : addComp H st op sch (pcs.getD i "") (row i) i = .ok
          ⟨Dict.set st.ops (H (compOp op (pcs.getD i "") (row i))) (compOp op (pcs.getD i "") (row i)),
            Dict.set st.schs (.comp (H op) i)
              ⟨H (compOp op (pcs.getD i "") (row i)), sch.absTime⟩⟩ := by
        unfold addComp
        rw [hsplit _ hpc]; rfl
      rw [hadd]
      have hfresh := hkey i List.mem_cons_self
      have hset : Dict.set st.schs (.comp (H op) i)
          (⟨H (compOp op (pcs.getD i "") (row i)), sch.absTime⟩ : Sch Id) =
          st.schs ++ [(.comp (H op) i, ⟨H (compOp op (pcs.getD i "") (row i)), sch.absTime⟩)] := by
        unfold Dict.set
        rw [if_neg]
        intro h
        exact hfresh ((Dict.any_iff _ _).mp h)
      have ht : targets row idx (i :: is) = i :: targets row idx is := by
        unfold targets
        rw [List.filter_cons_of_pos (by simpa using hc)]
      obtain ⟨st', h1, h2, h3, h4, h5⟩ := ih
        ⟨Dict.set st.ops (H (compOp op (pcs.getD i "") (row i))) (compOp op (pcs.getD i "") (row i)),
            Dict.set st.schs (.comp (H op) i)
              ⟨H (compOp op (pcs.getD i "") (row i)), sch.absTime⟩⟩ hnd.2
        (fun j hj => hlt j (List.mem_cons_of_mem _ hj))
        (by
          intro j hj hm
          rw [Dict.mem_keys_set] at hm
          rcases hm with hm | hm
          · injection hm with _ hm
            subst hm; exact hnd.1 hj
          · exact hkey j (List.mem_cons_of_mem _ hj) hm)
      refine ⟨st', h1, ?_, ?_, ?_, ?_⟩
      · rw [h2, ht]
        simp only
        rw [hset]
        simp [compSchs]
      · rw [ht]
        intro j hj
        rcases List.mem_cons.mp hj with rfl | hj
        · exact h5 _ (Dict.get?_set_self _ _ _)
        · exact h3 j hj
      · rw [ht]
        intro id hid
        rw [h4 id (fun j hj => hid j (List.mem_cons_of_mem _ hj))]
        exact Dict.get?_set_ne _ _ (hid i List.mem_cons_self)
      · intro x hx
        apply h5
        rw [Dict.get?_set]
        split
        · rename_i h
          rw [hinj h]
        · exact hx
    · rw [if_neg hc]
      have ht : targets row idx (i :: is) = targets row idx is := by
        unfold targets
        rw [List.filter_cons_of_neg (by simpa using hc)]
      rw [ht]
      exact ih st hnd.2 (fun j hj => hlt j (List.mem_cons_of_mem _ hj))
        (fun j hj => hkey j (List.mem_cons_of_mem _ hj))

/-! ### The loop over the schedulables -/

/-- The schedulables added for one schedulable with operation `op`. -/
def added (H : Op F → Id) (pcs : List String) (comp : Nat → Nat → F) (op : Op F) (sch : Sch Id) :
    List (Key Id × Sch Id) :=
  if op.hasWf then
    compSchs H pcs (comp (pcs.idxOf op.pc)) op sch
      (targets (comp (pcs.idxOf op.pc)) (pcs.idxOf op.pc) (List.range pcs.length))
  else []

/-- The operation after compensation. -/
def own (pcs : List String) (comp : Nat → Nat → F) (op : Op F) : Op F :=
  if op.hasWf then
    ⟨op.pc, scaleAmp (comp (pcs.idxOf op.pc) (pcs.idxOf op.pc)) op.params, op.hasWf⟩
  else op

/-- The contribution of one original schedulable with operation `op` after compensation. -/
def contrib (wave : List (String × F) → Rat → F) (pcs : List String) (comp : Nat → Nat → F)
    (op : Op F) (sch : Sch Id) (pc : String) (t : Rat) : F :=
  if op.hasWf then comp (pcs.idxOf op.pc) (pcs.idxOf pc) * wave op.params (t - sch.absTime) else 0

/-- The state after the schedulables in `done` have been handled. -/
structure Inv (H : Op F → Id) (pcs : List String) (comp : Nat → Nat → F) (st0 : State F Id)
    (orig : Id → Op F) (done todo : List (Key Id × Sch Id)) (st : State F Id) : Prop where
  schs : st.schs = st0.schs ++ done.flatMap (fun e => added H pcs comp (orig e.2.opId) e.2)
  htodo : ∀ e ∈ todo, Dict.get? st.ops e.2.opId = some (orig e.2.opId)
  hdone : ∀ e ∈ done, Dict.get? st.ops e.2.opId = some (own pcs comp (orig e.2.opId))
  comps : ∀ e ∈ done, ∀ c ∈ added H pcs comp (orig e.2.opId) e.2, ∃ i v,
    i < pcs.length ∧ i ≠ pcs.idxOf (orig e.2.opId).pc ∧
    v = comp (pcs.idxOf (orig e.2.opId).pc) i ∧
    c.2.opId = H (compOp (orig e.2.opId) (pcs.getD i "") v) ∧
    Dict.get? st.ops c.2.opId = some (compOp (orig e.2.opId) (pcs.getD i "") v)

theorem getD_idx_ne {pcs : List String} (hnd : pcs.Nodup) {pc : String} (hpc : pc ∈ pcs) {i : Nat}
    (hi : i < pcs.length) (hne : i ≠ pcs.idxOf pc) : pcs.getD i "" ≠ pc ∧ pcs.getD i "" ∈ pcs := by
  have hg : pcs.getD i "" = pcs[i] := by simp [List.getD, List.getElem?_eq_getElem hi]
  rw [hg]
  refine ⟨?_, List.getElem_mem hi⟩
  intro h
  apply hne
  rw [← h]
  exact (hnd.idxOf_getElem i hi).symm

theorem mem_added {H : Op F → Id} {pcs : List String} {comp : Nat → Nat → F} {op : Op F}
    {sch : Sch Id} {c : Key Id × Sch Id} (h : c ∈ added H pcs comp op sch) :
    op.hasWf = true ∧ ∃ i, i < pcs.length ∧ i ≠ pcs.idxOf op.pc ∧
      i ∈ targets (comp (pcs.idxOf op.pc)) (pcs.idxOf op.pc) (List.range pcs.length) ∧
      c = (Key.comp (H op) i, ⟨H (compOp op (pcs.getD i "") (comp (pcs.idxOf op.pc) i)),
        sch.absTime⟩) := by
  unfold added at h
  split at h
  · rename_i hw
    refine ⟨hw, ?_⟩
    unfold compSchs at h
    obtain ⟨i, hi, rfl⟩ := List.mem_map.mp h
    refine ⟨i, ?_, ?_, hi, rfl⟩
    · unfold targets at hi
      exact List.mem_range.mp (List.mem_filter.mp hi).1
    · unfold targets at hi
      have := (List.mem_filter.mp hi).2
      simp only [decide_eq_true_eq] at this
      exact this.2
  · simp at h

theorem applyAll_spec (H : Op F → Id) (wave : List (String × F) → Rat → F) (pcs : List String)
    (hpcs : pcs.Nodup) (comp : Nat → Nat → F) (st0 : State F Id) (hg : Good H wave pcs comp st0)
    (orig : Id → Op F) (horig : ∀ e ∈ st0.schs, Dict.get? st0.ops e.2.opId = some (orig e.2.opId)) :
    ∀ (todo done : List (Key Id × Sch Id)) (st : State F Id), st0.schs = done ++ todo →
    Inv H pcs comp st0 orig done todo st →
    ∃ st', applyAll H pcs comp todo st = .ok st' ∧ Inv H pcs comp st0 orig st0.schs [] st' := by
  have hH : ∀ e ∈ st0.schs, e.2.opId = H (orig e.2.opId) := by
    intro e he
    obtain ⟨op, h1, h2⟩ := hg.stored e he
    rw [horig e he] at h1
    rw [Option.some.inj h1]; exact h2
  intro todo
  induction todo with
  | nil =>
    intro done st hsplit hi
    rw [List.append_nil] at hsplit
    exact ⟨st, rfl, hsplit ▸ hi⟩
  | cons e todo ih =>
    intro done st hsplit hi
    obtain ⟨ekey, sch⟩ := e
    have hmem : (ekey, sch) ∈ st0.schs := by rw [hsplit]; simp
    have hget := hi.htodo (ekey, sch) List.mem_cons_self
    simp only at hget
    have honce := hg.once
    rw [hsplit, List.map_append, List.nodup_append] at honce
    obtain ⟨hn1, hn2, hn3⟩ := honce
    rw [List.map_cons, List.nodup_cons] at hn2
    have hmemtodo : ∀ e' ∈ todo, e' ∈ st0.schs := by
      intro e' he'; rw [hsplit]; simp [he']
    have hmemdone : ∀ e' ∈ done, e' ∈ st0.schs := by
      intro e' he'; rw [hsplit]; simp [he']
    have hsplit' : st0.schs = (done ++ [(ekey, sch)]) ++ todo := by rw [hsplit]; simp
    unfold applyAll
    rw [hget]
    simp only
    by_cases hw : (orig sch.opId).hasWf = true
    · rw [if_pos hw]
      set op := orig sch.opId with hop
      have hpc : op.pc ∈ pcs := hg.on (ekey, sch) hmem op (horig (ekey, sch) hmem) hw
      set idx := pcs.idxOf op.pc with hidx
      have hHop : sch.opId = H op := hH (ekey, sch) hmem
      have hfresh : ∀ i ∈ List.range pcs.length, Key.comp (H op) i ∉ Dict.keys st.schs := by
        intro i _ hm
        rw [hi.schs] at hm
        unfold Dict.keys at hm
        rw [List.map_append, List.mem_append] at hm
        rcases hm with hm | hm
        · obtain ⟨e', he', hk⟩ := List.mem_map.mp hm
          obtain ⟨n, hn⟩ := hg.keys e' he'
          rw [hn] at hk; cases hk
        · obtain ⟨c, hc, hk⟩ := List.mem_map.mp hm
          obtain ⟨e', he', hc⟩ := List.mem_flatMap.mp hc
          obtain ⟨_, j, _, _, _, rfl⟩ := mem_added hc
          simp only at hk
          injection hk with hk _
          rw [← hH e' (hmemdone e' he')] at hk
          refine hn3 e'.2.opId (List.mem_map.mpr ⟨e', he', rfl⟩) sch.opId ?_ ?_
          · simp
          · rw [hk, hHop]
      obtain ⟨st1, g1, g2, g3, g4, g5⟩ := addComps_spec H hg.inj pcs (comp idx) idx op sch hg.split
        (List.range pcs.length) st List.nodup_range (fun i hi => List.mem_range.mp hi) hfresh
      have happ : applyOp H pcs comp st op sch = .ok
          ⟨Dict.set st1.ops sch.opId ⟨op.pc, scaleAmp (comp idx idx) op.params, op.hasWf⟩,
            st1.schs⟩ := by
        unfold applyOp
        rw [if_neg (not_not.mpr hpc)]
        show (do let st ← addComps H pcs (comp idx) idx op sch (List.range pcs.length) st; _) = _
        rw [g1]; rfl
      rw [happ]
      -- compensation operations are never original ones
      have hclash : ∀ i, i < pcs.length → i ≠ idx → ∀ e' ∈ st0.schs,
          e'.2.opId ≠ H (compOp op (pcs.getD i "") (comp idx i)) := by
        intro i hi' hne e' he' heq
        rw [hH e' he'] at heq
        exact hg.clash (ekey, sch) hmem op (horig _ hmem) e' he' _ (horig e' he') i hi' hne
          (hg.inj heq).symm
      have htarget : ∀ i ∈ targets (comp idx) idx (List.range pcs.length),
          i < pcs.length ∧ i ≠ idx := by
        intro i hi'
        unfold targets at hi'
        obtain ⟨a, b⟩ := List.mem_filter.mp hi'
        simp only [decide_eq_true_eq] at b
        exact ⟨List.mem_range.mp a, b.2⟩
      obtain ⟨st', hst', hinv⟩ := ih (done ++ [(ekey, sch)])
        ⟨Dict.set st1.ops sch.opId ⟨op.pc, scaleAmp (comp idx idx) op.params, op.hasWf⟩,
            st1.schs⟩ hsplit' (by
        refine ⟨?_, ?_, ?_, ?_⟩
        · simp only
          rw [g2, hi.schs, List.flatMap_append, List.append_assoc]
          congr 2
          simp only [List.flatMap_cons, List.flatMap_nil, List.append_nil]
          unfold added
          rw [← hop, if_pos hw]
        · intro e' he'
          simp only
          have hne : e'.2.opId ≠ sch.opId := by
            intro heq
            exact hn2.1 (List.mem_map.mpr ⟨e', he', heq⟩)
          rw [Dict.get?_set_ne _ _ hne, g4 _ (fun i hi' =>
            hclash i (htarget i hi').1 (htarget i hi').2 e' (hmemtodo e' he'))]
          exact hi.htodo e' (List.mem_cons_of_mem _ he')
        · intro e' he'
          simp only
          rcases List.mem_append.mp he' with he' | he'
          · have hne : e'.2.opId ≠ sch.opId := by
              intro heq
              exact hn3 e'.2.opId (List.mem_map.mpr ⟨e', he', rfl⟩) sch.opId (by simp) heq
            rw [Dict.get?_set_ne _ _ hne, g4 _ (fun i hi' =>
              hclash i (htarget i hi').1 (htarget i hi').2 e' (hmemdone e' he'))]
            exact hi.hdone e' he'
          · simp only [List.mem_singleton] at he'
            subst he'
            simp only
            rw [Dict.get?_set_self, ← hop]
            unfold own
            rw [if_pos hw]
        · intro e' he' c hc
          simp only
          -- the identifier of a compensation operation is not that of this schedulable
          have hkeep : ∀ (e'' : Key Id × Sch Id), e'' ∈ st0.schs → ∀ (i : Nat) (v : F), i < pcs.length →
              (orig e''.2.opId).hasWf = true → i ≠ pcs.idxOf (orig e''.2.opId).pc →
              v = comp (pcs.idxOf (orig e''.2.opId).pc) i →
              H (compOp (orig e''.2.opId) (pcs.getD i "") v) ≠ sch.opId := by
            intro e'' he'' i v hi' hw'' hne hv heq
            rw [hHop] at heq
            subst hv
            exact hg.clash e'' he'' _ (horig e'' he'') (ekey, sch) hmem op (horig _ hmem) i hi' hne
              (hg.inj heq)
          rcases List.mem_append.mp he' with he' | he'
          · obtain ⟨i, v, h1, h2, h3, h4, h5⟩ := hi.comps e' he' c hc
            refine ⟨i, v, h1, h2, h3, h4, ?_⟩
            obtain ⟨hw', _⟩ := mem_added hc
            rw [h4, Dict.get?_set_ne _ _ (hkeep e' (hmemdone e' he') i v h1 hw' h2 h3)]
            apply g5
            rw [← h4]; exact h5
          · simp only [List.mem_singleton] at he'
            subst he'
            simp only at hc ⊢
            obtain ⟨hw', i, h1, h2, h3, rfl⟩ := mem_added hc
            refine ⟨i, _, h1, h2, rfl, rfl, ?_⟩
            simp only
            rw [Dict.get?_set_ne _ _ (hkeep (ekey, sch) hmem i _ h1 hw' h2 rfl)]
            exact g3 i h3)
      exact ⟨st', hst', hinv⟩
    · rw [if_neg hw]
      apply ih (done ++ [(ekey, sch)]) st hsplit'
      have hadd : added H pcs comp (orig sch.opId) sch = [] := by
        unfold added; rw [if_neg hw]
      refine ⟨?_, fun e' he' => hi.htodo e' (List.mem_cons_of_mem _ he'), ?_, ?_⟩
      · rw [hi.schs, List.flatMap_append]
        simp [hadd]
      · intro e' he'
        rcases List.mem_append.mp he' with he' | he'
        · exact hi.hdone e' he'
        · simp only [List.mem_singleton] at he'
          subst he'
          simp only
          rw [hget]
          unfold own; rw [if_neg hw]
      · intro e' he' c hc
        rcases List.mem_append.mp he' with he' | he'
        · exact hi.comps e' he' c hc
        · simp only [List.mem_singleton] at he'
          subst he'
          simp only at hc
          rw [hadd] at hc; simp at hc

/-! ### Sums -/

theorem sum_map_add' {A : Type} (l : List A) (f g : A → F) :
    (l.map (fun a => f a + g a)).sum = (l.map f).sum + (l.map g).sum := by
  induction l with
  | nil => simp
  | cons a l ih => simp only [List.map_cons, List.sum_cons, ih]; ring

theorem sum_flatMap {A B : Type} (l : List A) (f : A → List B) (g : B → F) :
    ((l.flatMap f).map g).sum = (l.map (fun a => ((f a).map g).sum)).sum := by
  induction l with
  | nil => simp
  | cons a l ih => simp only [List.flatMap_cons, List.map_append, List.sum_append, ih,
      List.map_cons, List.sum_cons]

theorem sum_zero {A : Type} (l : List A) (f : A → F) (h : ∀ a ∈ l, f a = 0) :
    (l.map f).sum = 0 := by
  induction l with
  | nil => simp
  | cons a l ih =>
    rw [List.map_cons, List.sum_cons, h a List.mem_cons_self,
      ih (fun b hb => h b (List.mem_cons_of_mem _ hb)), add_zero]

theorem sum_single {l : List Nat} (hnd : l.Nodup) {j : Nat} (hj : j ∈ l) (f : Nat → F) :
    (l.map (fun i => if i = j then f i else 0)).sum = f j := by
  induction l with
  | nil => simp at hj
  | cons a l ih =>
    rw [List.nodup_cons] at hnd
    rw [List.map_cons, List.sum_cons]
    by_cases ha : a = j
    · subst ha
      rw [if_pos rfl, sum_zero, add_zero]
      intro b hb
      rw [if_neg]; rintro rfl; exact hnd.1 hb
    · rw [if_neg ha, zero_add]
      exact ih hnd.2 ((List.mem_cons.mp hj).resolve_left (fun h => ha h.symm))

theorem sum_swap {A B : Type} (l : List A) (m : List B) (f : A → B → F) :
    (l.map (fun a => (m.map (fun b => f a b)).sum)).sum =
      (m.map (fun b => (l.map (fun a => f a b)).sum)).sum := by
  induction l with
  | nil => simp
  | cons a l ih =>
    simp only [List.map_cons, List.sum_cons, ih]
    rw [← sum_map_add']

theorem sum_mul {A : Type} (l : List A) (f : A → F) (c : F) :
    (l.map f).sum * c = (l.map (fun a => f a * c)).sum := by
  induction l with
  | nil => simp
  | cons a l ih => simp only [List.map_cons, List.sum_cons, ← ih]; ring

theorem mul_sum {A : Type} (l : List A) (f : A → F) (c : F) :
    c * (l.map f).sum = (l.map (fun a => c * f a)).sum := by
  induction l with
  | nil => simp
  | cons a l ih => simp only [List.map_cons, List.sum_cons, ← ih]; ring

theorem map_range_getD (l : List String) (f : String → F) :
    (List.range l.length).map (fun i => f (l.getD i "")) = l.map f := by
  apply List.ext_getElem
  · simp
  · intro i h1 h2
    simp only [List.getElem_map, List.getElem_range]
    have : i < l.length := by simpa using h1
    rw [List.getD, List.getElem?_eq_getElem this]; rfl

theorem getD_eq_iff {pcs : List String} (hnd : pcs.Nodup) {pc : String} (hpc : pc ∈ pcs) {i : Nat}
    (hi : i < pcs.length) : pcs.getD i "" = pc ↔ i = pcs.idxOf pc := by
  constructor
  · intro h
    by_contra hne
    exact (getD_idx_ne hnd hpc hi hne).1 h
  · rintro rfl
    have hl : pcs.idxOf pc < pcs.length := List.idxOf_lt_length_of_mem hpc
    rw [List.getD, List.getElem?_eq_getElem hl]
    simp

theorem map_congr_sum {A : Type} (l : List A) (f g : A → F) (h : ∀ a ∈ l, f a = g a) :
    (l.map f).sum = (l.map g).sum := by
  rw [List.map_congr_left h]

/-- What one original schedulable and its compensation pulses play. -/
theorem one_contrib (H : Op F → Id) (wave : List (String × F) → Rat → F) (pcs : List String)
    (hpcs : pcs.Nodup) (comp : Nat → Nat → F) (ops : List (Id × Op F)) (op : Op F) (sch : Sch Id)
    (hon : op.hasWf = true → op.pc ∈ pcs)
    (hlin : op.hasWf = true → ∀ c t, wave (scaleAmp c op.params) t = c * wave op.params t)
    (hown : Dict.get? ops sch.opId = some (own pcs comp op))
    (hadd : ∀ i ∈ targets (comp (pcs.idxOf op.pc)) (pcs.idxOf op.pc) (List.range pcs.length),
      op.hasWf = true →
      Dict.get? ops (H (compOp op (pcs.getD i "") (comp (pcs.idxOf op.pc) i))) =
        some (compOp op (pcs.getD i "") (comp (pcs.idxOf op.pc) i)))
    (src : String) (hsrc : src ∈ pcs) (t : Rat) :
    schVal wave ops src t sch + ((added H pcs comp op sch).map (fun c =>
      schVal wave ops src t c.2)).sum = contrib wave pcs comp op sch src t := by
  unfold contrib
  by_cases hw : op.hasWf = true
  · rw [if_pos hw]
    have hpc := hon hw
    have hlin := hlin hw
    have h1 : schVal wave ops src t sch = if op.pc = src then
        comp (pcs.idxOf op.pc) (pcs.idxOf src) * wave op.params (t - sch.absTime) else 0 := by
      unfold schVal
      rw [hown]
      unfold own
      rw [if_pos hw]
      simp only [hw, true_and]
      split
      · rename_i h; rw [hlin, h]
      · rfl
    have h2 : ((added H pcs comp op sch).map (fun c => schVal wave ops src t c.2)).sum =
        if op.pc = src then 0 else
          comp (pcs.idxOf op.pc) (pcs.idxOf src) * wave op.params (t - sch.absTime) := by
      unfold added
      rw [if_pos hw]
      unfold compSchs
      rw [List.map_map]
      set row := comp (pcs.idxOf op.pc) with hrow
      set idx := pcs.idxOf op.pc with hidx
      have hlt : ∀ i ∈ targets row idx (List.range pcs.length), i < pcs.length := by
        intro i hi
        exact List.mem_range.mp (List.mem_filter.mp hi).1
      have hnd : (targets row idx (List.range pcs.length)).Nodup :=
        List.Nodup.filter _ List.nodup_range
      rw [map_congr_sum _ _ (fun i => if i = pcs.idxOf src then
        row i * wave op.params (t - sch.absTime) else 0)]
      · by_cases hm : pcs.idxOf src ∈ targets row idx (List.range pcs.length)
        · rw [sum_single hnd hm, if_neg]
          rintro rfl
          have := (List.mem_filter.mp hm).2
          simp only [decide_eq_true_eq] at this
          exact this.2 rfl
        · rw [sum_zero]
          · split
            · rfl
            · rename_i hne
              have hl : pcs.idxOf src < pcs.length := List.idxOf_lt_length_of_mem hsrc
              have hidne : pcs.idxOf src ≠ idx := by
                intro h
                apply hne
                have e1 := (getD_eq_iff hpcs hsrc hl).mpr rfl
                have e2 := (getD_eq_iff hpcs hpc hl).mpr h
                rw [← e1, ← e2]
              have : row (pcs.idxOf src) = 0 := by
                by_contra h0
                apply hm
                unfold targets
                rw [List.mem_filter]
                exact ⟨List.mem_range.mpr hl, by simp only [decide_eq_true_eq]; exact ⟨h0, hidne⟩⟩
              rw [this, zero_mul]
          · intro i hi
            rw [if_neg]
            rintro rfl; exact hm hi
      · intro i hi
        show schVal wave ops src t ⟨H (compOp op (pcs.getD i "") (row i)), sch.absTime⟩ = _
        unfold schVal
        simp only
        rw [hadd i hi hw]
        simp only [compOp, hw, true_and]
        simp only [getD_eq_iff hpcs hsrc (hlt i hi)]
        split
        · rw [hlin]
        · rfl
    rw [h1, h2]
    split <;> simp
  · rw [if_neg hw]
    have h1 : schVal wave ops src t sch = 0 := by
      unfold schVal
      rw [hown]
      unfold own
      rw [if_neg hw]
      simp [hw]
    unfold added
    rw [h1, if_neg hw]; simp

/-! ### C23 -/

/-- C23: if the compensation matrix is the inverse of the crosstalk matrix, the crosstalk applied
to the compensated schedule gives, at every configured port-clock and at all times, what the
uncompensated schedule plays there. `Good` excludes in particular schedules that use one operation
twice (see `shared_operation_wrong`); without that hypothesis the claim is false. -/
theorem compensation_exact_partial (H : Op F → Id) (wave : List (String × F) → Rat → F)
    (crosstalk : List (String × List (String × F))) (comp : Nat → Nat → F) (st : State F Id)
    (hx : crosstalk ≠ [])
    (hinv : IsInverse crosstalk comp) (hg : Good H wave (uniquePortClocks crosstalk) comp st) :
    ∃ st', compensate H crosstalk comp st = .ok st' ∧
      ∀ dest ∈ uniquePortClocks crosstalk, ∀ t,
        received wave crosstalk st' dest t = played wave st dest t := by
  set pcs := uniquePortClocks crosstalk with hpcsdef
  have hpcs : pcs.Nodup := unique_nodup crosstalk
  let orig : Id → Op F := fun id => (Dict.get? st.ops id).getD ⟨"", [], false⟩
  have horig : ∀ e ∈ st.schs, Dict.get? st.ops e.2.opId = some (orig e.2.opId) := by
    intro e he
    obtain ⟨op, h, _⟩ := hg.stored e he
    simp only [orig, h, Option.getD_some]
  obtain ⟨st', h1, h2⟩ := applyAll_spec H wave pcs hpcs comp st hg orig horig st.schs [] st
    (by simp) ⟨by simp, horig, by simp, by simp⟩
  refine ⟨st', ?_, ?_⟩
  · unfold compensate
    rw [if_neg (by simpa using hx)]
    exact h1
  · intro dest hdest t
    have hplayed : ∀ src ∈ pcs, played wave st' src t =
        (st.schs.map (fun e => contrib wave pcs comp (orig e.2.opId) e.2 src t)).sum := by
      intro src hsrc
      unfold played
      rw [h2.schs, List.map_append, List.sum_append, sum_flatMap, ← sum_map_add']
      apply map_congr_sum
      intro e he
      apply one_contrib H wave pcs hpcs comp st'.ops (orig e.2.opId) e.2
        (hg.on e he _ (horig e he)) (hg.linear e he _ (horig e he)) (h2.hdone e he) _ src hsrc t
      intro i hi hw
      have hmem : (Key.comp (H (orig e.2.opId)) i,
          (⟨H (compOp (orig e.2.opId) (pcs.getD i "") (comp (pcs.idxOf (orig e.2.opId).pc) i)),
            e.2.absTime⟩ : Sch Id)) ∈ added H pcs comp (orig e.2.opId) e.2 := by
        unfold added
        rw [if_pos hw]
        exact List.mem_map.mpr ⟨i, hi, rfl⟩
      obtain ⟨j, v, _, _, _, h4, h5⟩ := h2.comps e he _ hmem
      simp only at h4 h5
      rw [h5]
      rw [hg.inj h4]
    unfold received
    rw [← hpcsdef, map_congr_sum _ _ _ (fun src hsrc => by rw [hplayed src hsrc, sum_mul]),
      sum_swap]
    unfold played
    apply map_congr_sum
    intro e he
    unfold contrib schVal
    rw [horig e he]
    simp only
    by_cases hw : (orig e.2.opId).hasWf = true
    · simp only [hw, true_and, if_true]
      have hpc := hg.on e he _ (horig e he) hw
      set op := orig e.2.opId with hop
      have hl : pcs.idxOf op.pc < pcs.length := List.idxOf_lt_length_of_mem hpc
      have hi := hinv (pcs.idxOf op.pc) hl dest hdest
      rw [(getD_eq_iff hpcs hpc hl).mpr rfl] at hi
      have hconv : (pcs.map (fun src => comp (pcs.idxOf op.pc) (pcs.idxOf src) *
          wave op.params (t - e.2.absTime) * crosstalkMatrix crosstalk src dest)).sum =
          wave op.params (t - e.2.absTime) * ((List.range pcs.length).map (fun s =>
            comp (pcs.idxOf op.pc) s * crosstalkMatrix crosstalk (pcs.getD s "") dest)).sum := by
        rw [mul_sum, ← map_range_getD pcs]
        apply map_congr_sum
        intro i hi
        have hil : i < pcs.length := List.mem_range.mp hi
        have hgm : pcs.getD i "" ∈ pcs := by
          simp [List.getD, List.getElem?_eq_getElem hil]
        rw [← (getD_eq_iff hpcs hgm hil).mp rfl]
        ring
      rw [hconv]
      rw [hi]
      split <;> simp
    · simp [hw]

/-! ### Concrete cases -/

/-- Crosstalk from `a-c` to `b-c` of one half. -/
def exX : List (String × List (String × Rat)) := [("a-c", [("b-c", 1/2)])]

/-- The inverse matrix. -/
def exComp : Nat → Nat → Rat := fun i j => if i = j then 1 else if i = 0 ∧ j = 1 then -1/2 else 0

/-- A square pulse of length 20. -/
def exWave : List (String × Rat) → Rat → Rat := fun ps t =>
  if 0 ≤ t ∧ t < 20 then (Dict.get? ps "amp").getD 0 else 0

/-- Two pulses on the two port-clocks. -/
def exOp1 : Op Rat := ⟨"a-c", [("amp", 1)], true⟩
def exOp2 : Op Rat := ⟨"b-c", [("amp", 1/4)], true⟩
def exSt : State Rat (Op Rat) :=
  ⟨[(exOp1, exOp1), (exOp2, exOp2)],
    [(.orig "s1", ⟨exOp1, 0⟩), (.orig "s2", ⟨exOp2, 10⟩)]⟩

theorem exPcs : uniquePortClocks exX = ["a-c", "b-c"] := by
  simp [uniquePortClocks, exX, List.mergeSort, List.MergeSort.Internal.splitInTwo, List.merge]

theorem exInverse : IsInverse exX exComp := by
  unfold IsInverse
  rw [exPcs]
  decide +kernel

theorem exWave_linear (a c t : Rat) : exWave (scaleAmp c [("amp", a)]) t = c * exWave [("amp", a)] t := by
  have : scaleAmp c [("amp", a)] = [("amp", a * c)] := by
    simp [scaleAmp, show containsAmp "amp" = true from by decide +kernel]
  rw [this]
  unfold exWave
  split
  · simp [Dict.get?]; ring
  · ring

theorem exGood : Good id exWave (uniquePortClocks exX) exComp exSt := by
  rw [exPcs]
  have g1 : Dict.get? exSt.ops exOp1 = some exOp1 := by decide +kernel
  have g2 : Dict.get? exSt.ops exOp2 = some exOp2 := by decide +kernel
  have hall : ∀ e ∈ exSt.schs, ∀ op, Dict.get? exSt.ops e.2.opId = some op →
      (e.2.opId = exOp1 ∧ op = exOp1) ∨ (e.2.opId = exOp2 ∧ op = exOp2) := by
    intro e he op h
    simp only [exSt, List.mem_cons, List.not_mem_nil, or_false] at he
    rcases he with rfl | rfl
    · left; exact ⟨rfl, Option.some.inj (h.symm.trans g1)⟩
    · right; exact ⟨rfl, Option.some.inj (h.symm.trans g2)⟩
  refine ⟨fun _ _ h => h, ?_, ?_, ?_, ?_, ?_, ?_, ?_⟩
  · intro e he
    simp only [exSt, List.mem_cons, List.not_mem_nil, or_false] at he
    rcases he with rfl | rfl
    · exact ⟨exOp1, g1, rfl⟩
    · exact ⟨exOp2, g2, rfl⟩
  · decide +kernel
  · intro e he
    simp only [exSt, List.mem_cons, List.not_mem_nil, or_false] at he
    rcases he with rfl | rfl
    · exact ⟨_, rfl⟩
    · exact ⟨_, rfl⟩
  · intro e he op h _
    rcases hall e he op h with ⟨_, rfl⟩ | ⟨_, rfl⟩ <;> simp [exOp1, exOp2]
  · decide +kernel
  · intro e he op h _ c t
    rcases hall e he op h with ⟨_, rfl⟩ | ⟨_, rfl⟩ <;> exact exWave_linear _ _ _
  · intro e he op h e' he' op' h' i hi hne
    have e0 : ["a-c", "b-c"].idxOf "a-c" = 0 := by decide
    have e1 : ["a-c", "b-c"].idxOf "b-c" = 1 := by decide
    have hi2 : i = 0 ∨ i = 1 := by simp at hi; omega
    rcases hall e he op h with ⟨_, rfl⟩ | ⟨_, rfl⟩ <;>
      rcases hall e' he' op' h' with ⟨_, rfl⟩ | ⟨_, rfl⟩ <;> rcases hi2 with rfl | rfl <;>
      first
        | (exfalso; revert hne; decide +kernel)
        | decide +kernel

/-- The hypotheses of `compensation_exact_partial` are met by a schedule with overlapping pulses on
both port-clocks. -/
example : exX ≠ [] ∧ IsInverse exX exComp ∧ Good id exWave (uniquePortClocks exX) exComp exSt :=
  ⟨by simp [exX], exInverse, exGood⟩

/-! ### Where the claim fails -/

/-- One operation, played twice. -/
def shared : State Rat (Op Rat) :=
  ⟨[(⟨"a-c", [("amp", 1)], true⟩, ⟨"a-c", [("amp", 1)], true⟩)],
    [(.orig "s1", ⟨⟨"a-c", [("amp", 1)], true⟩, 0⟩), (.orig "s2", ⟨⟨"a-c", [("amp", 1)], true⟩, 100⟩)]⟩

/-- Crosstalk in both directions. -/
def symX : List (String × List (String × Rat)) := [("a-c", [("b-c", 1/2)]), ("b-c", [("a-c", 1/2)])]
/-- The inverse matrix. -/
def symComp : Nat → Nat → Rat := fun i j => if i = j then 4/3 else -2/3

theorem symPcs : uniquePortClocks symX = ["a-c", "b-c"] := by
  simp [uniquePortClocks, symX, List.mergeSort, List.MergeSort.Internal.splitInTwo, List.merge]

/-- Finding: an operation used by two schedulables is scaled in place once per schedulable, so the
claim is false for schedules that play the same pulse twice: here the signal at `a-c` at time 0
should be 1. -/
theorem shared_operation_wrong : IsInverse symX symComp ∧ ∃ st',
    compensate id symX symComp shared = .ok st' ∧
      received exWave symX st' "a-c" 0 ≠ played exWave shared "a-c" 0 := by
  refine ⟨?_, ?_⟩
  · unfold IsInverse
    rw [symPcs]
    decide +kernel
  · have hc : ∃ st', applyAll id ["a-c", "b-c"] symComp shared.schs shared = .ok st' ∧
        (played exWave st' "a-c" 0 * crosstalkMatrix symX "a-c" "a-c" +
          (played exWave st' "b-c" 0 * crosstalkMatrix symX "b-c" "a-c" + 0)) ≠
          played exWave shared "a-c" 0 := by
      have hd : (applyAll id ["a-c", "b-c"] symComp shared.schs shared).toOption.map (fun st' =>
          decide ((played exWave st' "a-c" 0 * crosstalkMatrix symX "a-c" "a-c" +
          (played exWave st' "b-c" 0 * crosstalkMatrix symX "b-c" "a-c" + 0)) ≠
          played exWave shared "a-c" 0)) = some true := by decide +kernel
      cases h : applyAll id ["a-c", "b-c"] symComp shared.schs shared with
      | error e => rw [h] at hd; simp [Except.toOption] at hd
      | ok st' =>
        rw [h] at hd
        simp only [Except.toOption, Option.map_some, Option.some.injEq, decide_eq_true_eq] at hd
        exact ⟨st', rfl, hd⟩
    obtain ⟨st', h1, h2⟩ := hc
    refine ⟨st', ?_, ?_⟩
    · unfold compensate
      rw [symPcs]
      exact h1
    · unfold received
      rw [symPcs]
      simpa using h2

/-- Finding: as soon as crosstalk is configured, a pulse on a port-clock that is not part of the
crosstalk configuration is refused with a `ValueError`. -/
theorem unconfigured_refused (H : Op F → Id) (crosstalk : List (String × List (String × F)))
    (comp : Nat → Nat → F) (ops : List (Id × Op F)) (k : Key Id) (sch : Sch Id)
    (rest : List (Key Id × Sch Id)) (op : Op F) (hx : crosstalk ≠ [])
    (hop : Dict.get? ops sch.opId = some op) (hw : op.hasWf = true)
    (hpc : op.pc ∉ uniquePortClocks crosstalk) :
    compensate H crosstalk comp ⟨ops, (k, sch) :: rest⟩ = .error .valueError := by
  unfold compensate
  rw [if_neg (by simpa using hx)]
  unfold applyAll
  simp only [hop, hw, if_true]
  unfold applyOp
  rw [if_pos hpc]
  rfl

/-- Finding: `"amp" in key` also holds for `samples` and `t_samples`: the time axis of a numerical pulse is scaled too. -/
theorem numerical_pulse_time_axis_scaled :
    containsAmp "amp" = true ∧ containsAmp "amp_0" = true ∧ containsAmp "samples" = true ∧
      containsAmp "t_samples" = true ∧ containsAmp "duration" = false := by decide +kernel

/-- Without crosstalk in the configuration the schedule is not changed. -/
theorem no_crosstalk_unchanged (H : Op F → Id) (comp : Nat → Nat → F) (st : State F Id) :
    compensate H [] comp st = .ok st := rfl

end Verif.Crosstalk
