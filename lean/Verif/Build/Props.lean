/-
C09: what a history of `add`, `add_resource` and other calls makes of a schedule.
-/
import Verif.Build.Model
import Mathlib.Data.Rat.Floor
import Mathlib.Tactic.Linarith
import Mathlib.Tactic.NormNum

set_option linter.unusedSimpArgs false
set_option linter.unusedVariables false
set_option linter.unusedSectionVars false

namespace Verif.Build

variable {K C : Type} [DecidableEq K]

/-! ### Specification -/

/-- A call of `add` that was accepted: its arguments, the object, and the object's content then. -/
structure Added (K C : Type) where
  args : AddArgs K
  object : Nat
  content : C

/-- The label asked for, or the random one. -/
def Added.label (a : Added K C) : String :=
  match a.args.label with
  | some l => l
  | none => a.args.uuid

/-- The accepted `add` calls of a history, in order: those of an operation under a label that no
accepted call before has used. -/
def accepted : (Nat → C) → List String → List (Cmd K C) → List (Added K C)
  | _, _, [] => []
  | heap, used, .add a :: cs =>
    match a.operation with
    | .notAnOperation => accepted heap used cs
    | .obj o =>
      let x : Added K C := ⟨a, o, heap o⟩
      if x.label ∈ used then accepted heap used cs else x :: accepted heap (x.label :: used) cs
  | heap, used, .change o c :: cs => accepted (fun x => if x = o then c else heap x) used cs
  | heap, used, .resource _ :: cs => accepted heap used cs
  | heap, used, .repetitions _ :: cs => accepted heap used cs

/-- The name a reference stands for. -/
def refName : Ref K → Option String
  | .none => none
  | .name s => some s
  | .schedulable s => some s.name

/-- The schedulable an accepted call must create. -/
def Added.schedulable (H : C → K) (a : Added K C) : String × Schedulable K :=
  (a.label, ⟨a.label, H a.content,
    [⟨refName a.args.ref, a.args.refPt, a.args.refPtNew, a.args.rel⟩]⟩)

/-! ### Lemmas -/

theorem label_eq (a : AddArgs K) (o : Nat) (c : C) : a.label' = (⟨a, o, c⟩ : Added K C).label := by
  unfold AddArgs.label' Added.label
  cases a.label <;> rfl

theorem refName_eq (r : Ref K) : r.str = refName r := by cases r <;> rfl

theorem set_new {V : Type} {d : List (String × V)} {k : String} {v : V} (h : k ∉ Dict.keys d) :
    Dict.set d k v = d ++ [(k, v)] := by
  unfold Dict.set
  rw [if_neg (fun x => h ((Dict.any_iff d k).mp x))]

theorem accepted_congr (cmds : List (Cmd K C)) : ∀ (heap : Nat → C) (u v : List String),
    (∀ l, l ∈ u ↔ l ∈ v) → accepted heap u cmds = accepted heap v cmds := by
  induction cmds with
  | nil => intro heap u v _; rfl
  | cons c cs ih =>
    intro heap u v h
    cases c with
    | add a =>
      simp only [accepted]
      cases a.operation with
      | notAnOperation => exact ih _ _ _ h
      | obj o =>
        simp only
        by_cases hm : (⟨a, o, heap o⟩ : Added K C).label ∈ u
        · rw [if_pos hm, if_pos ((h _).mp hm)]
          exact ih _ _ _ h
        · rw [if_neg hm, if_neg (fun x => hm ((h _).mpr x))]
          rw [ih heap _ ((⟨a, o, heap o⟩ : Added K C).label :: v) (by intro l; simp [h])]
    | resource r => exact ih _ _ _ h
    | repetitions r => exact ih _ _ _ h
    | change o c => exact ih _ _ _ h

theorem history_aux (H : C → K) : ∀ (cmds : List (Cmd K C)) (w : World K C),
    (execAll H w cmds).sched.schedulables = w.sched.schedulables ++
      (accepted w.heap (Dict.keys w.sched.schedulables) cmds).map (Added.schedulable H) := by
  intro cmds
  induction cmds with
  | nil => intro w; simp [execAll, accepted]
  | cons c cs ih =>
    intro w
    cases c with
    | add a =>
      simp only [execAll, ih, exec, add, accepted]
      cases ha : a.operation with
      | notAnOperation => rfl
      | obj o =>
        simp only
        rw [← label_eq a o (w.heap o)]
        by_cases hm : a.label' ∈ Dict.keys w.sched.schedulables
        · simp only [if_pos hm]
        · simp only [if_neg hm, addRaw]
          rw [set_new hm, List.map_cons, List.append_assoc]
          have hk : Dict.keys (w.sched.schedulables ++ [(a.label',
              (⟨a.label', H (w.heap o), [] ++ [⟨a.ref.str, a.refPt, a.refPtNew, a.rel⟩]⟩ :
                Schedulable K))]) = Dict.keys w.sched.schedulables ++ [a.label'] := by
            simp [Dict.keys]
          rw [hk, accepted_congr cs w.heap (Dict.keys w.sched.schedulables ++ [a.label'])
            (a.label' :: Dict.keys w.sched.schedulables) (by intro l; simp [or_comm])]
          simp only [List.cons_append, List.nil_append, Added.schedulable, label_eq a o (w.heap o),
            refName_eq]
    | resource r =>
      simp only [execAll, ih, exec, accepted]
      unfold addResource
      cases r with
      | none => rfl
      | some x => simp only; split <;> rfl
    | repetitions v =>
      simp only [execAll, ih, exec, accepted]
      unfold setRepetitions
      split <;> rfl
    | change o c => simp only [execAll, ih, exec, accepted]

theorem accepted_labels (cmds : List (Cmd K C)) : ∀ (heap : Nat → C) (used : List String),
    ((accepted heap used cmds).map Added.label).Nodup ∧
    ∀ a ∈ accepted heap used cmds, a.label ∉ used := by
  induction cmds with
  | nil => intro heap used; simp [accepted]
  | cons c cs ih =>
    intro heap used
    cases c with
    | add a =>
      simp only [accepted]
      cases a.operation with
      | notAnOperation => exact ih _ _
      | obj o =>
        simp only
        split
        · exact ih _ _
        · rename_i hm
          obtain ⟨h1, h2⟩ := ih heap ((⟨a, o, heap o⟩ : Added K C).label :: used)
          refine ⟨?_, ?_⟩
          · rw [List.map_cons, List.nodup_cons]
            refine ⟨?_, h1⟩
            intro hx
            obtain ⟨y, hy, he⟩ := List.mem_map.mp hx
            exact h2 y hy (by rw [he]; simp)
          · intro y hy
            rcases List.mem_cons.mp hy with rfl | hy
            · exact hm
            · exact fun hx => h2 y hy (List.mem_cons_of_mem _ hx)
    | resource r => exact ih _ _
    | repetitions r => exact ih _ _
    | change o c => exact ih _ _

/-! ### Properties -/

/-- **C09.**  After any history of calls on a new schedule, the schedule holds exactly one
schedulable for each accepted `add`, in the order of the calls, each under its label, with the hash
of the operation at the time of the call and with exactly the timing constraint asked for; labels
are unique. -/
theorem history_exact (H : C → K) (heap : Nat → C) (reps : Int) (b d : Nat)
    (cmds : List (Cmd K C)) :
    (execAll H ⟨heap, new reps b d⟩ cmds).sched.schedulables =
      (accepted heap [] cmds).map (Added.schedulable H) ∧
    (Dict.keys (execAll H ⟨heap, new reps b d⟩ cmds).sched.schedulables).Nodup := by
  have h := history_aux H cmds ⟨heap, new reps b d⟩
  have e : (execAll H ⟨heap, new reps b d⟩ cmds).sched.schedulables =
      (accepted heap [] cmds).map (Added.schedulable H) := by
    rw [h]; simp [new, Dict.keys]
  refine ⟨e, ?_⟩
  rw [e]
  have : Dict.keys ((accepted heap [] cmds).map (Added.schedulable H)) =
      (accepted heap [] cmds).map Added.label := by
    simp [Dict.keys, Added.schedulable, List.map_map, Function.comp_def]
  rw [this]
  exact (accepted_labels cmds heap []).1

/-- **C09, exceptions.**  A call that raises leaves the schedule and all objects as they were. -/
theorem failed_call_changes_nothing (H : C → K) (w : World K C) (c : Cmd K C) (e : Err)
    (h : (exec H w c).2 = .error e) : (exec H w c).1 = w := by
  cases c with
  | add a =>
    simp only [exec, add] at h ⊢
    cases ha : a.operation with
    | notAnOperation => rfl
    | obj o =>
      rw [ha] at h
      simp only at h ⊢
      split
      · rfl
      · rename_i hm
        rw [if_neg hm, if_neg hm] at h
        cases h
  | resource r =>
    simp only [exec, addResource] at h ⊢
    cases r with
    | none => rfl
    | some x =>
      simp only at h ⊢
      split
      · rfl
      · rename_i hm
        rw [if_neg hm] at h
        cases h
  | repetitions v =>
    simp only [exec, setRepetitions] at h ⊢
    split
    · rfl
    · rename_i hm
      rw [if_neg hm] at h
      cases h
  | change o c => cases h

/-- **C09, acceptance.**  `add` raises (a `ValueError`) exactly if the operation is not an
operation or the label is already in use. -/
theorem add_raises_iff (H : C → K) (heap : Nat → C) (s : Sched K) (a : AddArgs K) :
    ((add H heap s a).2 = .error .valueError ↔
      a.operation = .notAnOperation ∨ a.label.getD a.uuid ∈ s.schedulables.map Prod.fst) ∧
    ((add H heap s a).2 = .ok () ↔
      ¬ (a.operation = .notAnOperation ∨ a.label.getD a.uuid ∈ s.schedulables.map Prod.fst)) := by
  have hk : Dict.keys s.schedulables = s.schedulables.map Prod.fst := rfl
  have hl : a.label' = a.label.getD a.uuid := rfl
  unfold add
  cases ha : a.operation with
  | notAnOperation => simp
  | obj o =>
    simp only [hk, hl]
    by_cases hm : a.label.getD a.uuid ∈ s.schedulables.map Prod.fst
    · simp [hm]
    · simp [hm]

/-- Only objects that are not in the schedule are changed. -/
def Untouched (H : C → K) : World K C → List (Cmd K C) → Prop
  | _, [] => True
  | w, c :: cs =>
    (match c with
      | .change o _ => o ∉ w.sched.opDict.map Prod.snd
      | _ => True) ∧ Untouched H (exec H w c).1 cs

/-- The contents are as added. -/
def Kept (H : C → K) (w : World K C) : Prop :=
  (∀ k o, Dict.get? w.sched.opDict k = some o → H (w.heap o) = k) ∧
  (∀ l s, Dict.get? w.sched.schedulables l = some s →
    (Dict.get? w.sched.opDict s.opId).isSome)

theorem mem_snd {d : List (K × Nat)} {k : K} {o : Nat} (h : Dict.get? d k = some o) :
    o ∈ d.map Prod.snd := List.mem_map.mpr ⟨_, Dict.mem_of_get? h, rfl⟩

theorem kept_exec (H : C → K) {w : World K C} (h : Kept H w) (c : Cmd K C)
    (hu : match c with
      | .change o _ => o ∉ w.sched.opDict.map Prod.snd
      | _ => True) : Kept H (exec H w c).1 := by
  cases c with
  | add a =>
    simp only [exec, add]
    cases ha : a.operation with
    | notAnOperation => exact h
    | obj o =>
      simp only
      split
      · exact h
      · refine ⟨?_, ?_⟩
        · intro k x hx
          simp only [addRaw] at hx
          rw [Dict.get?_set] at hx
          split at hx
          · rename_i hk
            cases hx
            exact hk.symm
          · exact h.1 k x hx
        · intro l s hs
          simp only [addRaw] at hs ⊢
          rw [Dict.get?_set] at hs ⊢
          split
          · simp
          · rename_i hne
            split at hs
            · cases hs
              exact absurd rfl hne
            · exact h.2 l s hs
  | resource r =>
    simp only [exec, addResource]
    cases r with
    | none => exact h
    | some x => simp only; split <;> exact h
  | repetitions v =>
    simp only [exec, setRepetitions]
    split <;> exact h
  | change o c =>
    refine ⟨?_, h.2⟩
    intro k x hx
    have hne : x ≠ o := by
      rintro rfl
      exact hu (mem_snd hx)
    simp only [exec] at hx ⊢
    rw [if_neg hne]
    exact h.1 k x hx

theorem kept_all (H : C → K) : ∀ (cmds : List (Cmd K C)) (w : World K C), Kept H w →
    Untouched H w cmds → Kept H (execAll H w cmds)
  | [], _, h, _ => h
  | c :: cs, w, h, hu => kept_all H cs _ (kept_exec H h c hu.1) hu.2

theorem from_all (H : C → K) (P : C → Prop) : ∀ (cmds : List (Cmd K C)) (w : World K C),
    (∀ k o, Dict.get? w.sched.opDict k = some o → P (w.heap o)) → Untouched H w cmds →
    (∀ a ∈ accepted w.heap (Dict.keys w.sched.schedulables) cmds, P a.content) →
    ∀ k o, Dict.get? (execAll H w cmds).sched.opDict k = some o → P ((execAll H w cmds).heap o) := by
  intro cmds
  induction cmds with
  | nil => intro w h _ _; exact h
  | cons c cs ih =>
    intro w h hu ha
    refine ih (exec H w c).1 ?_ hu.2 ?_
    · cases c with
      | add a =>
        simp only [exec, add]
        simp only [accepted] at ha
        cases hop : a.operation with
        | notAnOperation => exact h
        | obj o =>
          rw [hop] at ha
          simp only at ha ⊢
          rw [← label_eq a o (w.heap o)] at ha
          split
          · exact h
          · rename_i hm
            rw [if_neg hm] at ha
            intro k x hx
            simp only [addRaw] at hx
            rw [Dict.get?_set] at hx
            split at hx
            · cases hx
              exact ha ⟨a, o, w.heap o⟩ List.mem_cons_self
            · exact h k x hx
      | resource r =>
        simp only [exec, addResource]
        cases r with
        | none => exact h
        | some x => simp only; split <;> exact h
      | repetitions v =>
        simp only [exec, setRepetitions]
        split <;> exact h
      | change o c =>
        intro k x hx
        have hne : x ≠ o := by
          rintro rfl
          exact hu.1 (mem_snd hx)
        simp only [exec] at hx ⊢
        rw [if_neg hne]
        exact h k x hx
    · intro a ha'
      apply ha
      cases c with
      | add b =>
        simp only [exec, add] at ha'
        simp only [accepted]
        cases hop : b.operation with
        | notAnOperation => rw [hop] at ha'; exact ha'
        | obj o =>
          rw [hop] at ha'
          simp only at ha' ⊢
          rw [← label_eq b o (w.heap o)]
          by_cases hm : b.label' ∈ Dict.keys w.sched.schedulables
          · simp only [if_pos hm] at ha' ⊢
            exact ha'
          · simp only [if_neg hm, addRaw] at ha' ⊢
            rw [set_new hm] at ha'
            refine List.mem_cons_of_mem _ ?_
            rw [accepted_congr cs w.heap (b.label' :: Dict.keys w.sched.schedulables)
              (Dict.keys w.sched.schedulables ++ [b.label']) (by intro l; simp [or_comm])]
            simpa [Dict.keys] using ha'
      | resource r =>
        simp only [exec, addResource] at ha'
        simp only [accepted]
        cases r with
        | none => exact ha'
        | some x => simp only at ha'; split at ha' <;> exact ha'
      | repetitions v =>
        simp only [exec, setRepetitions] at ha'
        simp only [accepted]
        split at ha' <;> exact ha'
      | change o c => exact ha'

/-- **C09, contents.**  If no two different contents that were added have the same hash and no object
that is in the schedule is changed, then after any history each accepted `add` is found under its label
and its operation is what was passed to the call. (That the hashes differ is needed, and is not always
so: `Verif.Json.second_add_replaces_first`.) -/
theorem contents_kept (H : C → K) (heap : Nat → C) (reps : Int)
    (b d : Nat) (cmds : List (Cmd K C))
    (hinj : ∀ x ∈ (accepted heap [] cmds : List (Added K C)), ∀ y ∈ accepted heap [] cmds,
      H x.content = H y.content → x.content = y.content)
    (hu : Untouched H ⟨heap, new reps b d⟩ cmds)
    (a : Added K C) (ha : a ∈ accepted heap [] cmds) :
    (execAll H ⟨heap, new reps b d⟩ cmds).content a.label = some a.content := by
  obtain ⟨h1, h2⟩ := history_exact H heap reps b d cmds
  have hk := kept_all H cmds ⟨heap, new reps b d⟩
    ⟨fun k o h => by simp [new, Dict.get?] at h, fun l s h => by simp [new, Dict.get?] at h⟩ hu
  have hf := from_all H (fun c => ∃ x ∈ (accepted heap [] cmds : List (Added K C)), x.content = c)
    cmds ⟨heap, new reps b d⟩ (fun k o h => by simp [new, Dict.get?] at h) hu
    (fun x hx => ⟨x, hx, rfl⟩)
  have hmem : a.schedulable H ∈
      (execAll H ⟨heap, new reps b d⟩ cmds).sched.schedulables := by
    rw [h1]; exact List.mem_map.mpr ⟨a, ha, rfl⟩
  have hget := Dict.get?_of_mem h2 (show (a.label, (a.schedulable H).2) ∈ _ from hmem)
  have hs := hk.2 _ _ hget
  obtain ⟨o, ho⟩ := Option.isSome_iff_exists.mp hs
  have hc := hk.1 _ _ ho
  obtain ⟨x, hx, hxc⟩ := hf _ _ ho
  unfold World.content Sched.object
  rw [hget]
  simp only [Option.bind_some, ho, Option.map_some]
  rw [← hxc] at hc ⊢
  exact congrArg some (hinj x hx a ha hc)

/-- Finding: an operation object that was changed after it was added.  The schedulable then plays
the changed operation, but adding another, unchanged operation silently changes what the first
schedulable plays back to the old content. -/
theorem add_redirects_other_schedulable :
    let H : String → String := id
    let mk (o : Nat) (l : String) : Cmd String String :=
      .add ⟨.obj o, 0, .none, none, none, some l, ""⟩
    let w : World String String := ⟨fun _ => "Rx(90)", new 1 0 1⟩
    (execAll H w [mk 0 "first", .change 0 "Rx(180)"]).content "first" = some "Rx(180)" ∧
    (execAll H w [mk 0 "first", .change 0 "Rx(180)", mk 1 "second"]).content "first" =
      some "Rx(90)" := by
  refine ⟨by decide +kernel, by decide +kernel⟩

/-- **C09, resources.**  A resource once added stays, under its name, whatever is called later. -/
theorem resource_kept (H : C → K) (cmds : List (Cmd K C)) : ∀ (w : World K C) (n : String) (v : Nat),
    Dict.get? w.sched.resources n = some v →
    Dict.get? (execAll H w cmds).sched.resources n = some v := by
  induction cmds with
  | nil => intro w n v h; exact h
  | cons c cs ih =>
    intro w n v h
    refine ih _ n v ?_
    cases c with
    | add a =>
      simp only [exec, add]
      cases a.operation with
      | notAnOperation => exact h
      | obj o => simp only; split <;> exact h
    | resource r =>
      simp only [exec, addResource]
      cases r with
      | none => exact h
      | some x =>
        simp only
        split
        · exact h
        · rename_i hm
          rw [Dict.get?_set]
          split
          · rename_i he
            subst he
            exact absurd ((Dict.get?_isSome_iff _ _).mp (by rw [h]; rfl)) hm
          · exact h
    | repetitions x => simp only [exec, setRepetitions]; split <;> exact h
    | change o c => exact h

/-- The baseband and digital clocks are always present. -/
theorem default_resources (H : C → K) (heap : Nat → C) (reps : Int) (b d : Nat)
    (cmds : List (Cmd K C)) :
    Dict.get? (execAll H ⟨heap, new reps b d⟩ cmds).sched.resources "cl0.baseband" = some b ∧
    Dict.get? (execAll H ⟨heap, new reps b d⟩ cmds).sched.resources "digital" = some d :=
  ⟨resource_kept H cmds _ _ _ (by simp [new, Dict.get?]),
   resource_kept H cmds _ _ _ (by simp [new, Dict.get?])⟩

/-- **C09, repetitions.**  Exactly the values that are not positive are refused; a positive integer
is stored as it is. -/
theorem repetitions_spec (s : Sched K) (v : Rat) :
    ((setRepetitions s v).2 = .error .valueError ↔ v ≤ 0) ∧
    (∀ n : Int, 0 < n → (setRepetitions s n).1.repetitions = n) := by
  refine ⟨?_, ?_⟩
  · unfold setRepetitions
    split <;> simp_all
  · intro n hn
    have h1 : ¬ ((n : Rat) ≤ 0) := by
      have : (0 : Rat) < n := by exact_mod_cast hn
      linarith
    have h2 : (0 : Rat) ≤ n := by linarith
    unfold setRepetitions
    rw [if_neg h1]
    simp only [pyInt]
    rw [if_pos h2, Int.floor_intCast]

/-- Finding: a fraction below one is accepted and stored as zero repetitions. -/
theorem repetitions_zero : (setRepetitions (new 1 0 1 : Sched String) (1 / 2)).2 = .ok () ∧
    (setRepetitions (new 1 0 1 : Sched String) (1 / 2)).1.repetitions = 0 := by
  have h : ¬ ((1 / 2 : Rat) ≤ 0) := by norm_num
  have h2 : (0 : Rat) ≤ 1 / 2 := by norm_num
  unfold setRepetitions
  rw [if_neg h]
  refine ⟨rfl, ?_⟩
  simp only [pyInt]
  rw [if_pos h2]
  norm_num [Int.floor_eq_iff]

theorem dictOf_aux {V : Type} : ∀ (l d : List (String × V)), (Dict.keys (d ++ l)).Nodup →
    l.foldl (fun d e => Dict.set d e.1 e.2) d = d ++ l
  | [], d, _ => by simp
  | e :: l, d, h => by
    have hm : e.1 ∉ Dict.keys d := by
      intro hx
      simp only [Dict.keys, List.map_append, List.map_cons] at h hx
      exact (List.nodup_append.mp h).2.2 _ hx _ (by simp) rfl
    rw [List.foldl_cons, set_new hm, dictOf_aux l (d ++ [(e.1, e.2)]) (by simpa using h)]
    simp

/-- **C09, saving.**  Saving and restoring the state of any schedule built by calls gives the same
schedule, with the schedulables in the same order. -/
theorem state_round_trip (H : C → K) (heap : Nat → C) (reps : Int) (b d : Nat)
    (cmds : List (Cmd K C)) :
    setState (getState (execAll H ⟨heap, new reps b d⟩ cmds).sched) =
      (execAll H ⟨heap, new reps b d⟩ cmds).sched := by
  have h := (history_exact H heap reps b d cmds).2
  unfold setState getState dictOf
  simp only
  rw [dictOf_aux _ [] (by simpa using h)]
  rfl

/-! ### Non-vacuity -/

/-- Two operations, one of them twice, a rejected repeated label, a rejected object, a resource. -/
def demo : List (Cmd String String) :=
  [.add ⟨.obj 0, 0, .none, none, none, some "a", ""⟩,
   .change 1 "Y",
   .add ⟨.obj 1, 1 / 2, .name "a", some .center, none, none, "random"⟩,
   .add ⟨.obj 1, 0, .none, none, none, some "a", ""⟩,
   .add ⟨.notAnOperation, 0, .none, none, none, some "c", ""⟩,
   .resource (some ("q0.01", 7)),
   .add ⟨.obj 0, 3, .none, none, none, some "d", ""⟩]

example : Untouched id ⟨fun _ => "X", new 1 0 1⟩ demo ∧
    (accepted (fun _ => "X") [] demo).map Added.label = ["a", "random", "d"] ∧
    (accepted (fun _ => "X") [] demo).map Added.content = ["X", "Y", "X"] := by
  refine ⟨?_, by decide +kernel, by decide +kernel⟩
  simp only [demo, Untouched, exec, add, new]
  decide +kernel

end Verif.Build
