/-
C16 and C17: conditional playback.
-/
import Verif.Conditional.TimeLemmas

set_option linter.unusedSimpArgs false
set_option linter.unusedVariables false

namespace Verif.Conditional

open Verif.StableSort (sortBy)

/-! ### What a compilation consists of -/

/-- The first part. -/
theorem setMap_ok (mt : PC → Option ModType) {op op' : Op} {s : St}
    (h : setMap mt op ⟨[], 1⟩ = .ok (op', s)) :
    op'.blank = op.blank ∧ runActs mt (acts op) ⟨[], 1⟩ = .ok (acts op', s) := by
  have := setMap_run mt op ⟨[], 1⟩
  rw [h] at this
  exact this

theorem setting_init (l : Label) : St.setting ⟨[], 1⟩ l = none := rfl

theorem setMap_ok_iff (mt : PC → Option ModType) (op : Op) :
    (∃ r, setMap mt op ⟨[], 1⟩ = .ok r) ↔ (∀ a ∈ acts op, a.possible mt) ∧
      ∀ d ∈ (acts op).flatMap (Act.demands mt), ∀ e ∈ (acts op).flatMap (Act.demands mt),
        d.1 = e.1 → d.2 = e.2 := by
  have h1 := (runActs_spec mt (acts op) (acts_okProto op) ⟨[], 1⟩ inv_init).1
  have h2 := setMap_run mt op ⟨[], 1⟩
  rw [Compat_iff] at h1
  have h3 : (∃ r, setMap mt op ⟨[], 1⟩ = .ok r) ↔ ∃ r, runActs mt (acts op) ⟨[], 1⟩ = .ok r := by
    cases hr : setMap mt op ⟨[], 1⟩ with
    | error e =>
      rw [hr] at h2
      simp only at h2
      rw [h2]
      simp
    | ok r =>
      rw [hr] at h2
      simp only at h2
      rw [h2.2]
      simp
  rw [h3, h1]
  constructor
  · rintro ⟨h, _, h'⟩; exact ⟨h, h'⟩
  · rintro ⟨h, h'⟩; exact ⟨h, fun d _ => .inl rfl, h'⟩

/-- A list without repetitions with the same members. -/
theorem length_dedup_eq {α : Type} [DecidableEq α] {a b : List α} (ha : a.Nodup)
    (h : ∀ x, x ∈ a ↔ x ∈ b) : a.length = b.dedup.length := by
  apply List.Perm.length_eq
  rw [List.perm_ext_iff_of_nodup ha (List.nodup_dedup b)]
  intro x
  rw [h, List.mem_dedup]

theorem keys_length (s : St) : (Dict.keys s.map).length = s.map.length := by
  simp [Dict.keys]

/-- The number of entries of the map. -/
theorem map_length {mt : PC → Option ModType} {op op' : Op} {s : St}
    (h : setMap mt op ⟨[], 1⟩ = .ok (op', s)) :
    s.map.length = ((acts op).flatMap Act.labels).dedup.length := by
  obtain ⟨_, h2⟩ := setMap_ok mt h
  obtain ⟨e, _⟩ := (runActs_spec mt (acts op) (acts_okProto op) ⟨[], 1⟩ inv_init).2 _ _ h2
  rw [← keys_length]
  apply length_dedup_eq e.inv.nodup
  intro x
  rw [e.keys]
  simp [Dict.keys]

theorem too_many {s : St} (h : Inv s) :
    s.map.any (fun e => decide (15 < e.2.address)) = true ↔ 15 < s.map.length := by
  rw [List.any_eq_true]
  constructor
  · rintro ⟨e, he, ha⟩
    have h1 : e.2.address ∈ s.map.map (fun e => e.2.address) :=
      List.mem_map_of_mem (f := fun e : Label × Info => e.2.address) he
    rw [h.addresses, List.mem_range'_1] at h1
    simp only [decide_eq_true_eq] at ha
    omega
  · intro hl
    have h1 : 16 ∈ s.map.map (fun e => e.2.address) := by
      rw [h.addresses, List.mem_range'_1]
      omega
    obtain ⟨e, he, ha⟩ := List.mem_map.mp h1
    exact ⟨e, he, by simp only [decide_eq_true_eq]; omega⟩

/-- Two labels with the same address are the same. -/
theorem look_inj {s : St} (h : Inv s) {l l' : Label} {i i' : Info} (hl : s.look l = some i)
    (hl' : s.look l' = some i') (ha : i.address = i'.address) : l = l' := by
  have m1 := Dict.mem_of_get? hl
  have m2 := Dict.mem_of_get? hl'
  have nd : (s.map.map (fun e => e.2.address)).Nodup := by
    rw [h.addresses]; exact List.nodup_range'
  have := List.inj_on_of_nodup_map nd m1 m2 ha
  exact congrArg Prod.fst this

theorem look_range {s : St} (h : Inv s) {l : Label} {i : Info} (hl : s.look l = some i) :
    1 ≤ i.address ∧ i.address ≤ s.map.length := by
  have m1 := Dict.mem_of_get? hl
  have h1 : i.address ∈ s.map.map (fun e => e.2.address) :=
    List.mem_map_of_mem (f := fun e : Label × Info => e.2.address) m1
  rw [h.addresses, List.mem_range'_1] at h1
  omega

/-- The parts of a successful compilation. -/
theorem compile_ok {mt : PC → Option ModType} {op r : Op} (h : compile mt op = .ok r) :
    ∃ op' s, setMap mt op ⟨[], 1⟩ = .ok (op', s) ∧ r = (insertLatch s op' 0).1 ∧
      s.map.length ≤ 15 := by
  unfold compile at h
  cases hr : setMap mt op ⟨[], 1⟩ with
  | error e => rw [hr] at h; simp at h
  | ok p =>
    obtain ⟨op', s⟩ := p
    rw [hr] at h
    simp only at h
    obtain ⟨_, h2⟩ := setMap_ok mt hr
    obtain ⟨e, _⟩ := (runActs_spec mt (acts op) (acts_okProto op) ⟨[], 1⟩ inv_init).2 _ _ h2
    by_cases ht : s.map.any (fun e => decide (15 < e.2.address)) = true
    · rw [if_pos ht] at h; cases h
    · rw [if_neg ht] at h
      rw [too_many e.inv] at ht
      refine ⟨op', s, rfl, ?_, by omega⟩
      revert h
      cases check [] ((sortBy Prod.fst (events (insertLatch s op' 0).1 0)).map Prod.snd) with
      | error e => intro h; cases h
      | ok u => intro h; exact (Except.ok.inj h).symm

theorem spec_of_ok {mt : PC → Option ModType} {op op' : Op} {s : St}
    (h : setMap mt op ⟨[], 1⟩ = .ok (op', s)) :
    Eff ⟨[], 1⟩ s ((acts op).flatMap Act.labels) ((acts op).flatMap (Act.demands mt))
      ((acts op).flatMap Act.reads) ∧
    UsesOk s ((acts op').flatMap Act.uses) ∧
    (acts op').map Act.blank = (acts op).map Act.blank ∧
    ((acts op').flatMap Act.uses).map Prod.fst = (acts op).flatMap Act.labels ∧
    (∀ (n : Nat) c, (acts op')[n]? = some (.cond c) →
      c.invert = (((((acts op).take n).flatMap (Act.demands mt)).foldl upd (fun _ => none))
        c.label).map Prod.fst ∧
      c.count = (((((acts op).take n).flatMap (Act.demands mt)).foldl upd (fun _ => none))
        c.label).map Prod.snd) :=
  (runActs_spec mt (acts op) (acts_okProto op) ⟨[], 1⟩ inv_init).2 _ _ (setMap_ok mt h).2

/-! ### C16 -/

/-- In the compiled schedule, every label has an address from 1 to 15 wherever it is used, and the
addresses at two places are the same if and only if the labels are. -/
theorem addresses_one_to_one {mt : PC → Option ModType} {op r : Op} (h : compile mt op = .ok r)
    (u v : Label × Option Nat) (hu : u ∈ (acts r).flatMap Act.uses)
    (hv : v ∈ (acts r).flatMap Act.uses) :
    (∃ a, u.2 = some a ∧ 1 ≤ a ∧ a ≤ 15) ∧ (u.2 = v.2 ↔ u.1 = v.1) := by
  obtain ⟨op', s, hs, hr, hl⟩ := compile_ok h
  obtain ⟨e, uses, _⟩ := spec_of_ok hs
  rw [hr, acts_insert] at hu hv
  obtain ⟨i, hi, ha⟩ := uses u hu
  obtain ⟨j, hj, hb⟩ := uses v hv
  have hr := look_range e.inv hi
  refine ⟨⟨i.address, ha, hr.1, by omega⟩, ?_⟩
  rw [ha, hb]
  constructor
  · intro hab
    exact look_inj e.inv hi hj (Option.some.inj hab)
  · intro huv
    rw [huv, hj] at hi
    cases hi
    rfl

/-- Every place where a label is used in the schedule is in the compiled schedule, in the same
order and with the same content apart from what the compiler fills in; and each of the labels there
has got an address. -/
theorem uses_kept {mt : PC → Option ModType} {op r : Op} (h : compile mt op = .ok r) :
    (acts r).map Act.blank = (acts op).map Act.blank ∧
    ((acts r).flatMap Act.uses).map Prod.fst = (acts op).flatMap Act.labels := by
  obtain ⟨op', s, hs, hr, hl⟩ := compile_ok h
  obtain ⟨e, uses, h3, h4, h5⟩ := spec_of_ok hs
  rw [hr, acts_insert]
  exact ⟨h3, h4⟩

/-- More than 15 labels are rejected, with this error, and this is the only reason for this error. -/
theorem too_many_labels_iff (mt : PC → Option ModType) (op : Op) :
    compile mt op = .error .tooManyLabels ↔
      (∀ a ∈ acts op, a.possible mt) ∧
      (∀ d ∈ (acts op).flatMap (Act.demands mt), ∀ e ∈ (acts op).flatMap (Act.demands mt),
        d.1 = e.1 → d.2 = e.2) ∧
      15 < ((acts op).flatMap Act.labels).dedup.length := by
  rw [← and_assoc, ← setMap_ok_iff]
  have hset : ∀ e, setMap mt op ⟨[], 1⟩ = .error e → e ≠ .tooManyLabels := by
    intro e he
    have := setMap_run mt op ⟨[], 1⟩
    rw [he] at this
    simp only at this
    exact runActs_err mt _ _ _ this
  unfold compile
  cases hr : setMap mt op ⟨[], 1⟩ with
  | error e =>
    simp only [Except.error.injEq]
    constructor
    · intro h; exact absurd h (hset e hr)
    · rintro ⟨⟨r, h⟩, _⟩; cases h
  | ok p =>
    obtain ⟨op', s⟩ := p
    have hl := map_length hr
    obtain ⟨e, _⟩ := spec_of_ok hr
    simp only
    by_cases ht : s.map.any (fun e => decide (15 < e.2.address)) = true
    · rw [if_pos ht]
      rw [too_many e.inv] at ht
      refine ⟨fun _ => ⟨⟨_, rfl⟩, by omega⟩, fun _ => rfl⟩
    · rw [if_neg ht]
      rw [too_many e.inv] at ht
      constructor
      · intro h
        exfalso
        rw [check_events] at h
        revert h
        cases hc : checkTags [] (tagsInTime (insertLatch s op' 0).1) with
        | error e =>
          intro h
          cases h
          exact checkTags_err _ _ hc
        | ok u => intro h; cases h
      · rintro ⟨_, h⟩; omega

theorem foldl_upd_none : ∀ (ds : List (Label × Bool × Nat)) (σ : Label → Option (Bool × Nat))
    (l : Label), (∀ d ∈ ds, d.1 ≠ l) → ds.foldl upd σ l = σ l
  | [], σ, l, h => rfl
  | d :: ds, σ, l, h => by
    rw [List.foldl_cons, foldl_upd_none ds _ l (fun e he => h e (List.mem_cons_of_mem _ he))]
    have := h d List.mem_cons_self
    simp [upd, Ne.symm this]

theorem foldl_upd_some (l : Label) (v : Bool × Nat) : ∀ (ds : List (Label × Bool × Nat))
    (σ : Label → Option (Bool × Nat)), (∀ e ∈ ds, e.1 = l → e.2 = v) →
    (σ l = some v ∨ (l, v) ∈ ds) → ds.foldl upd σ l = some v
  | [], σ, h, hm => by
    rcases hm with hm | hm
    · exact hm
    · simp at hm
  | d :: ds, σ, h, hm => by
    rw [List.foldl_cons]
    apply foldl_upd_some l v ds _ (fun e he => h e (List.mem_cons_of_mem _ he))
    have hd := h d List.mem_cons_self
    by_cases hdl : d.1 = l
    · left; simp [upd, hdl, hd hdl]
    · rcases hm with hm | hm
      · left; simp [upd, Ne.symm hdl, hm]
      · rcases List.mem_cons.mp hm with rfl | hm
        · exact absurd rfl hdl
        · exact .inr hm

/-- The trigger settings of a conditional are those demanded by any acquisition with its label that
was added to the schedule before it; if none was, there are none. -/
theorem settings_of_conditional {mt : PC → Option ModType} {op r : Op} (h : compile mt op = .ok r)
    (n : Nat) (c : Cond) (hc : (acts r)[n]? = some (.cond c)) :
    (∀ invert count, (c.label, invert, count) ∈ ((acts op).take n).flatMap (Act.demands mt) →
      c.invert = some invert ∧ c.count = some count) ∧
    ((∀ d ∈ ((acts op).take n).flatMap (Act.demands mt), d.1 ≠ c.label) →
      c.invert = none ∧ c.count = none) := by
  obtain ⟨op', s, hs, hr, hl⟩ := compile_ok h
  obtain ⟨e, uses, h3, h4, h5⟩ := spec_of_ok hs
  have hag := ((setMap_ok_iff mt op).mp ⟨_, hs⟩).2
  rw [hr, acts_insert] at hc
  obtain ⟨hi, hn⟩ := h5 n c hc
  have sub : ∀ d ∈ ((acts op).take n).flatMap (Act.demands mt),
      d ∈ (acts op).flatMap (Act.demands mt) := by
    intro d hd
    obtain ⟨a, ha, hd⟩ := List.mem_flatMap.mp hd
    exact List.mem_flatMap.mpr ⟨a, List.mem_of_mem_take ha, hd⟩
  constructor
  · intro b k hm
    have := foldl_upd_some c.label (b, k) (((acts op).take n).flatMap (Act.demands mt))
      (fun _ => none)
      (fun e he hel => hag e (sub e he) _ (sub _ hm) hel) (.inr hm)
    rw [hi, hn, this]
    exact ⟨rfl, rfl⟩
  · intro hno
    have := foldl_upd_none (((acts op).take n).flatMap (Act.demands mt)) (fun _ => none) c.label hno
    rw [hi, hn, this]
    exact ⟨rfl, rfl⟩

/-! ### C17 -/

theorem others_setMap {op op' : Op} (hb : op'.blank = op.blank) (t : Rat) :
    others (happens op' t) = others (happens op t) := by
  rw [← others_blank (happens op' t), ← others_blank (happens op t), ← happens_blank,
    ← happens_blank, hb]

/-- Compilation succeeds exactly if each acquisition is possible on its module, the trigger settings
demanded for a label agree, there are at most 15 labels, and in the order of time each acquisition
with labels is followed by conditionals that use these labels, each at most once, before the next
one, and all of them if there is a next one. -/
theorem compile_ok_iff (mt : PC → Option ModType) (op : Op) :
    (∃ r, compile mt op = .ok r) ↔
      (∀ a ∈ acts op, a.possible mt) ∧
      (∀ d ∈ (acts op).flatMap (Act.demands mt), ∀ e ∈ (acts op).flatMap (Act.demands mt),
        d.1 = e.1 → d.2 = e.2) ∧
      ((acts op).flatMap Act.labels).dedup.length ≤ 15 ∧
      Alternates (tagsInTime op) := by
  rw [← and_assoc, ← setMap_ok_iff]
  unfold compile
  cases hr : setMap mt op ⟨[], 1⟩ with
  | error e => simp
  | ok p =>
    obtain ⟨op', s⟩ := p
    have hl := map_length hr
    obtain ⟨e, _⟩ := spec_of_ok hr
    have hb := (setMap_ok mt hr).1
    have htags : tagsInTime (insertLatch s op' 0).1 = tagsInTime op := by
      apply tags_congr
      rw [others_insert, others_setMap hb]
    simp only
    rw [check_events, htags, ← checkTags_alternates]
    by_cases ht : s.map.any (fun e => decide (15 < e.2.address)) = true
    · rw [if_pos ht]
      rw [too_many e.inv] at ht
      constructor
      · rintro ⟨r, h⟩; cases h
      · rintro ⟨_, h, _⟩; omega
    · rw [if_neg ht]
      rw [too_many e.inv] at ht
      cases hc : checkTags [] (tagsInTime op) with
      | error e =>
        constructor
        · rintro ⟨r, h⟩; cases h
        · rintro ⟨_, _, h⟩; cases h
      | ok u =>
        exact ⟨fun _ => ⟨⟨_, rfl⟩, by omega, rfl⟩, fun _ => ⟨_, rfl⟩⟩

/-- Acquisitions and conditionals happen at the same times as before and in the same order, and are
the same apart from what is filled in: compilation only adds latch resets. -/
theorem others_unchanged {mt : PC → Option ModType} {op r : Op} (h : compile mt op = .ok r)
    (t : Rat) : others (happens r t) = others (happens op t) := by
  obtain ⟨op', s, hs, hr, hl⟩ := compile_ok h
  rw [hr, others_insert, others_setMap (setMap_ok mt hs).1]

/-- In the compiled schedule, latch resets happen 4 ns after the start of each acquisition with a
feedback label, on exactly the port-clocks with conditionals that read the label, once each; and
where the user asked for them. -/
theorem latch_resets {mt : PC → Option ModType} {items : Items} {r : Op}
    (h : compile mt (.sched items) = .ok r) (hreg : Regular (.sched items) 0) :
    (latches (happens r 0)).Perm
      ((happens (.sched items) 0).flatMap (wanted (.sched items))) := by
  obtain ⟨op', s, hs, hr, hl⟩ := compile_ok h
  obtain ⟨e, _⟩ := spec_of_ok hs
  have hb := (setMap_ok mt hs).1
  have hpc : ∀ l, (s.pcs l).Perm (readers (.sched items) l) := by
    intro l
    unfold readers
    rw [List.perm_ext_iff_of_nodup (e.inv.pcs l) (List.nodup_dedup _)]
    intro pc
    rw [e.pcs, List.mem_dedup]
    simp only [St.pcs, Dict.get?, List.find?_nil, Option.map_none, List.not_mem_nil, false_or,
      List.mem_flatMap]
    constructor
    · rintro ⟨r, ⟨a, ha, hra⟩, hrl, hpc⟩
      cases a with
      | acq q => simp [Act.reads] at hra
      | cond c =>
        simp only [Act.reads, List.mem_singleton] at hra
        subst hra
        exact ⟨_, ha, by simp only at hrl hpc ⊢; rw [if_pos hrl]; exact hpc⟩
    · rintro ⟨a, ha, hpc⟩
      cases a with
      | acq q => simp at hpc
      | cond c =>
        simp only at hpc
        split at hpc
        · rename_i hcl
          exact ⟨(c.label, c.portclocks), ⟨_, ha, by simp [Act.reads]⟩, hcl, hpc⟩
        · simp at hpc
  obtain ⟨items', rfl⟩ : ∃ items', op' = .sched items' := by
    cases op' <;> simp [Op.blank] at hb ⊢
  have hreg' : Regular (.sched items') 0 := by
    rw [← Regular_blank, hb, Regular_blank]; exact hreg
  have key := latches_insert (.sched items) s hpc (.sched items') 0 0 hreg'
  rw [insert_sched, List.map_nil, List.append_nil, ← hr] at key
  have e0 : (0 : Rat) + 0 = 0 := by norm_num
  rw [e0] at key
  have hw : (happens (.sched items') 0).flatMap (wanted (.sched items)) =
      (happens (.sched items) 0).flatMap (wanted (.sched items)) := by
    have : ∀ o : Op, (happens o.blank 0).flatMap (wanted (.sched items)) =
        (happens o 0).flatMap (wanted (.sched items)) := by
      intro o
      rw [happens_blank, List.flatMap_map]
      apply List.flatMap_congr
      intro x hx
      exact wanted_blank _ x
    rw [← this (.sched items'), hb, this]
  rw [hw] at key
  exact key

/-! ### The hypotheses are met -/

/-- Modules: `r` is a QRM, `t` a QTM. -/
def mods : PC → Option ModType := fun pc =>
  if pc.1 = "r" then some .qrm else if pc.1 = "t" then some .qtm else none

/-- An acquisition entry. -/
def entry (p : Proto) (port : String) (l : Label) (ls : List Label) : AcqInfo :=
  ⟨p, port, "c", 0, l, ls, none, []⟩

/-- A conditional on two port-clocks. -/
def ifThen (l : String) (pcs : List PC) : Op :=
  .cond ⟨some l, pcs, none, none, none⟩ (.plain [])

/-- A schedule: a trigger count on a QRM, used, then in a loop of two iterations a dual acquisition
with two labels, used on two port-clocks. -/
def demo : Items :=
  .cons 0 (.plain [entry (.trigCount (some true) 7) "r" (some "a") []]) <|
  .cons 500 (ifThen "a" [("d", "x")]) <|
  .cons 1000 (.loop 2 2000 (.sched (
    .cons 0 (.plain [entry .dual "t" none [some "b", none, some "e", none]]) <|
    .cons 700 (ifThen "b" [("d", "x"), ("e", "x")]) <|
    .cons 900 (ifThen "e" [("d", "x")]) .nil))) .nil

/-- What it is compiled to. -/
def demoOut : Items :=
  .cons 0 (.plain [{ entry (.trigCount (some true) 7) "r" (some "a") [] with address := some 1 }]) <|
  .cons 500 (.cond ⟨some "a", [("d", "x")], some 1, some true, some 7⟩ (.plain [])) <|
  .cons 1000 (.loop 2 2000 (.sched (
    .cons 0 (.plain [{ entry .dual "t" none [some "b", none, some "e", none] with
      addresses := [some 2, none, some 3, none] }]) <|
    .cons 700 (.cond ⟨some "b", [("d", "x"), ("e", "x")], some 2, some false, some 1⟩ (.plain [])) <|
    .cons 900 (.cond ⟨some "e", [("d", "x")], some 3, some false, some 1⟩ (.plain [])) <|
    .cons 4 (.latch ("e", "x")) <|
    .cons 4 (.latch ("d", "x")) .nil))) <|
  .cons 4 (.latch ("d", "x")) .nil

/-- To evaluate. -/
def compileI (modType : PC → Option ModType) (op : Op) : Except Err Op :=
  match setMap modType op ⟨[], 1⟩ with
  | .error e => .error e
  | .ok (op', s) =>
    let op'' := (insertLatch s op' 0).1
    if s.map.any (fun e => decide (15 < e.2.address)) then .error .tooManyLabels
    else
      match check [] ((StableSort.insSort Prod.fst (events op'' 0)).map Prod.snd) with
      | .error e => .error e
      | .ok () => .ok op''

theorem compile_eqI : compile = compileI := by
  funext mt op
  unfold compile compileI
  cases setMap mt op ⟨[], 1⟩ with
  | error e => rfl
  | ok p =>
    simp only [StableSort.sortBy_eq_insSort]
    split
    · rfl
    · cases check [] ((StableSort.insSort Prod.fst (events (insertLatch p.2 p.1 0).1 0)).map Prod.snd) <;> rfl

/-- Compilation of the example. -/
theorem demo_compiles : compile mods (.sched demo) = .ok (.sched demoOut) := by
  rw [compile_eqI]
  decide +kernel

/-- The uses of labels in it. -/
example : (acts (.sched demoOut)).flatMap Act.uses =
    [(some "a", some 1), (some "a", some 1), (some "b", some 2), (some "e", some 3),
      (some "b", some 2), (some "e", some 3)] := by decide +kernel

/-- Latch resets: one for the first acquisition, two for each iteration of the loop. -/
example : latches (happens (.sched demoOut) 0) =
    [(1004, ("e", "x")), (1004, ("d", "x")), (3004, ("e", "x")), (3004, ("d", "x")),
      (4, ("d", "x"))] := by decide +kernel

/-- It is regular. -/
example : Regular (.sched demo) 0 := by
  simp [demo, ifThen, entry, Regular, RegularItems]
  exact ⟨0, rfl⟩

/-- The tags of it. -/
example : tagsInTime (.sched demo) =
    [.acq [some "a"], .cond (some "a"), .acq [some "b", some "e"], .cond (some "b"),
      .cond (some "e"), .acq [some "b", some "e"], .cond (some "b"), .cond (some "e")] := by
  unfold tagsInTime
  rw [StableSort.sortBy_eq_insSort]
  decide +kernel

/-- Sixteen labels are too many. -/
example : compile mods (.sched (.cons 0 (.plain ((List.range 16).map (fun n =>
    entry .thresholded "r" (some (toString n)) []))) .nil)) = .error .tooManyLabels := by
  rw [compile_eqI]
  decide +kernel

/-- A conditional before its acquisition is rejected, even if it was added later. -/
example : compile mods (.sched (
    .cons 100 (.plain [entry .thresholded "r" (some "a") []]) <|
    .cons 0 (ifThen "a" [("d", "x")]) .nil)) = .error .condWithoutAcq := by
  rw [compile_eqI]
  decide +kernel

/-- An acquisition before the labels of the last one are used is rejected. -/
example : compile mods (.sched (
    .cons 0 (.plain [entry .dual "t" none [some "b", none, some "e", none]]) <|
    .cons 500 (ifThen "b" [("d", "x")]) <|
    .cons 1000 (.plain [entry .thresholded "r" (some "a") []]) .nil)) =
      .error .acqWhilePending := by
  rw [compile_eqI]
  decide +kernel

/-! ### What a user might not expect -/

/-- A weighted thresholded acquisition with a label is accepted as the acquisition for a
conditional, but it gets no trigger address, and there is no latch reset. -/
theorem weighted_gets_no_address :
    (compile mods (.sched (
      .cons 0 (.plain [entry .weightedThresholded "r" (some "a") []]) <|
      .cons 500 (ifThen "a" [("d", "x")]) .nil))).map (fun r => happens r 0) = .ok
      [(0, .acq [entry .weightedThresholded "r" (some "a") []]),
        (500, .cond ⟨some "a", [("d", "x")], some 1, none, none⟩)] := by
  rw [compile_eqI]
  decide +kernel

/-- A conditional that was added to the schedule before the trigger count acquisition that it reads
(but is later in time) gets no trigger settings. -/
theorem added_first_gets_no_settings :
    (compile mods (.sched (
      .cons 500 (ifThen "a" [("d", "x")]) <|
      .cons 0 (.plain [entry (.trigCount (some true) 7) "r" (some "a") []]) .nil))).map (fun r => (acts r)[0]?) = .ok (some (.cond ⟨some "a", [("d", "x")], some 1, none, none⟩)) := by
  rw [compile_eqI]
  decide +kernel

/-- Although an acquisition must be followed by a conditional, the last one need not be. -/
theorem last_acquisition_unused :
    (compile mods (.sched (
      .cons 0 (.plain [entry .thresholded "r" (some "a") []]) .nil))).isOk = true := by
  rw [compile_eqI]
  decide +kernel

/-- Acquisitions in the body of a conditional are not looked at: a conditional after it is
rejected. -/
theorem acquisition_in_conditional_ignored :
    compile mods (.sched (
      .cons 0 (.plain [entry .thresholded "r" (some "a") []]) <|
      .cons 500 (.cond ⟨some "a", [("r", "c")], none, none, none⟩
        (.plain [entry .thresholded "r" (some "b") []])) <|
      .cons 2000 (ifThen "b" [("d", "x")]) .nil)) = .error .condWithoutAcq := by
  rw [compile_eqI]
  decide +kernel

/-- If the body of a loop is an acquisition and not a schedule, the latch reset is outside of the
loop; with labels read within the loop this cannot be accepted for more than one iteration, but the
reset is at the wrong time if the loop is empty: it happens although the acquisition does not. -/
theorem reset_outside_of_loop :
    (compile mods (.sched (
      .cons 0 (.loop 0 100 (.plain [entry .thresholded "r" (some "a") []])) <|
      .cons 100 (.plain [entry .thresholded "r" (some "a") []]) <|
      .cons 500 (ifThen "a" [("d", "x")]) .nil))).map (fun r => latches (happens r 0)) = .ok [(4, ("d", "x")), (104, ("d", "x"))] := by
  rw [compile_eqI]
  decide +kernel

/-- A dual acquisition at half a nanosecond: the time of the reset is rounded. -/
theorem dual_reset_rounded :
    (compile mods (.sched (
      .cons (1 / 2) (.plain [entry .dual "t" none [some "b", none, none, none]]) <|
      .cons 500 (ifThen "b" [("d", "x")]) .nil))).map (fun r => latches (happens r 0)) = .ok [(4, ("d", "x"))] := by
  rw [compile_eqI]
  decide +kernel

end Verif.Conditional
