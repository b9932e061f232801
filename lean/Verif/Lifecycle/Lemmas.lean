/-
Loops over components and modules; loading modules.
-/
import Verif.Lifecycle.Spec
import Verif.Prepare.More

set_option linter.unusedSimpArgs false
set_option linter.unusedVariables false
set_option linter.unusedSectionVars false

namespace Verif.Lifecycle

open Verif.Connect (ModType)
open Verif.Prepare (Dev Val)
open Verif.Prepare.Spec (Coherent CalOk sequencers TraceOn)
open Spec

/-! ### Loops -/

section loops
variable {P M : Type}

theorem updateEach_cons (f : P → M → M × Option Err) (n : String) (p : P) (rest : List (String × P))
    (ms : List (String × M)) : updateEach f ((n, p) :: rest) ms =
      match Dict.get? ms n with
      | none => (ms, some .keyError)
      | some m =>
        match f p m with
        | (m', some e) => (Dict.set ms n m', some e)
        | (m', none) => updateEach f rest (Dict.set ms n m') := rfl

/-- What the loop leaves if there was no exception. -/
theorem updateEach_ok (f : P → M → M × Option Err) : ∀ (l : List (String × P)) (ms : List (String × M)),
    (l.map Prod.fst).Nodup → (updateEach f l ms).2 = none →
    (∀ n p, (n, p) ∈ l → ∃ m, Dict.get? ms n = some m ∧ (f p m).2 = none ∧
      Dict.get? (updateEach f l ms).1 n = some (f p m).1) ∧
    (∀ n, n ∉ l.map Prod.fst → Dict.get? (updateEach f l ms).1 n = Dict.get? ms n)
  | [], ms, _, _ => by simp [updateEach]
  | (n, p) :: rest, ms, hn, h => by
    rw [updateEach_cons] at h ⊢
    simp only [List.map_cons, List.nodup_cons] at hn
    cases hg : Dict.get? ms n with
    | none => rw [hg] at h; simp at h
    | some m =>
      rw [hg] at h
      rcases hf : f p m with ⟨m', _ | e⟩
      · simp only [hf] at h ⊢
        obtain ⟨h1, h2⟩ := updateEach_ok f rest _ hn.2 h
        refine ⟨?_, ?_⟩
        · intro n' p' hm
          rcases List.mem_cons.mp hm with he | hm2
          · obtain ⟨rfl, rfl⟩ := Prod.mk.injEq .. ▸ he
            refine ⟨m, hg, by rw [hf], ?_⟩
            rw [h2 n' hn.1, Dict.get?_set_self, hf]
          · obtain ⟨m1, h3, h4, h5⟩ := h1 n' p' hm2
            have hne : n' ≠ n := by
              rintro rfl
              exact hn.1 (List.mem_map.mpr ⟨(_, _), hm2, rfl⟩)
            rw [Dict.get?_set_ne _ _ hne] at h3
            exact ⟨m1, h3, h4, h5⟩
        · intro n' hn'
          simp only [List.map_cons, List.mem_cons, not_or] at hn'
          rw [h2 n' hn'.2, Dict.get?_set_ne _ _ hn'.1]
      · simp [hf] at h

/-- There is no exception exactly if no step raises one. -/
theorem updateEach_iff (f : P → M → M × Option Err) : ∀ (l : List (String × P)) (ms : List (String × M)),
    (l.map Prod.fst).Nodup → ((updateEach f l ms).2 = none ↔
      ∀ n p, (n, p) ∈ l → ∃ m, Dict.get? ms n = some m ∧ (f p m).2 = none)
  | [], ms, _ => by simp [updateEach]
  | (n, p) :: rest, ms, hn => by
    constructor
    · intro h n' p' hm
      obtain ⟨m, h1, h2, _⟩ := (updateEach_ok f _ ms hn h).1 n' p' hm
      exact ⟨m, h1, h2⟩
    · intro h
      simp only [List.map_cons, List.nodup_cons] at hn
      rw [updateEach_cons]
      obtain ⟨m, h1, h2⟩ := h n p (by simp)
      rw [h1]
      rcases hf : f p m with ⟨m', _ | e⟩
      · simp only [hf]
        rw [updateEach_iff f rest _ hn.2]
        intro n' p' hm
        obtain ⟨m1, h3, h4⟩ := h n' p' (List.mem_cons_of_mem _ hm)
        have hne : n' ≠ n := by
          rintro rfl
          exact hn.1 (List.mem_map.mpr ⟨(_, _), hm, rfl⟩)
        exact ⟨m1, by rw [Dict.get?_set_ne _ _ hne]; exact h3, h4⟩
      · rw [hf] at h2; simp at h2

theorem mem_set {ms : List (String × M)} {n : String} {m : M} {e : String × M} (h : e ∈ Dict.set ms n m) :
    e ∈ ms ∨ e = (n, m) := by
  unfold Dict.set at h
  split at h
  · obtain ⟨e', he', rfl⟩ := List.mem_map.mp h
    split
    · exact .inr rfl
    · exact .inl he'
  · rcases List.mem_append.mp h with h | h
    · exact .inl h
    · exact .inr (by simpa using h)

/-- Names stay different, and a property of all components that a step keeps is kept, also if there was an
exception. -/
theorem updateEach_keeps (f : P → M → M × Option Err) {Q : M → Prop} : ∀ (l : List (String × P))
    (ms : List (String × M)), (∀ n p m, (n, p) ∈ l → Q m → Q (f p m).1) → (ms.map Prod.fst).Nodup →
    (∀ e ∈ ms, Q e.2) →
    ((updateEach f l ms).1.map Prod.fst).Nodup ∧ ∀ e ∈ (updateEach f l ms).1, Q e.2
  | [], ms, _, hn, hq => ⟨hn, hq⟩
  | (n, p) :: rest, ms, hf, hn, hq => by
    rw [updateEach_cons]
    cases hg : Dict.get? ms n with
    | none => exact ⟨hn, hq⟩
    | some m =>
      have hm' : Q (f p m).1 := hf n p m (by simp) (hq _ (Dict.mem_of_get? hg))
      have hq' : ∀ e ∈ Dict.set ms n (f p m).1, Q e.2 := by
        intro e he
        rcases mem_set he with h | rfl
        · exact hq e h
        · exact hm'
      have hn' : ((Dict.set ms n (f p m).1).map Prod.fst).Nodup := Dict.keys_set_nodup hn n _
      rcases hfe : f p m with ⟨m', _ | e⟩
      · rw [hfe] at hq' hn'
        simp only [hfe]
        exact updateEach_keeps f rest _ (fun n p m hm => hf n p m (List.mem_cons_of_mem _ hm)) hn' hq'
      · rw [hfe] at hq' hn'
        simp only [hfe]
        exact ⟨hn', hq'⟩

theorem forEach_cons (f : String → M → M × Option Err) (n : String) (m : M) (rest : List (String × M)) :
    forEach f ((n, m) :: rest) =
      match f n m with
      | (m', some e) => ((n, m') :: rest, some e)
      | (m', none) => ((n, m') :: (forEach f rest).1, (forEach f rest).2) := rfl

theorem forEach_ok (f : String → M → M × Option Err) : ∀ (l : List (String × M)),
    (forEach f l).2 = none ↔ ∀ e ∈ l, (f e.1 e.2).2 = none
  | [] => by simp [forEach]
  | (n, m) :: rest => by
    rw [forEach_cons]
    rcases hf : f n m with ⟨m', _ | e⟩
    · simp [forEach_ok f rest, hf]
    · simp [hf]

theorem forEach_map (f : String → M → M × Option Err) : ∀ (l : List (String × M)),
    (forEach f l).2 = none → (forEach f l).1 = l.map (fun e => (e.1, (f e.1 e.2).1))
  | [], _ => rfl
  | (n, m) :: rest, h => by
    rw [forEach_cons] at h ⊢
    rcases hf : f n m with ⟨m', _ | e⟩
    · rw [hf] at h
      simp [forEach_map f rest h, hf]
    · rw [hf] at h; simp at h

theorem get?_map_pair {N : Type} (f : String → M → N) : ∀ (l : List (String × M)) (n : String),
    Dict.get? (l.map (fun e => (e.1, f e.1 e.2))) n = (Dict.get? l n).map (f n)
  | [], n => rfl
  | e :: l, n => by
    rw [List.map_cons, Dict.get?_cons, Dict.get?_cons]
    by_cases h : e.1 = n
    · subst h; simp
    · simp [h, get?_map_pair f l n]

theorem forEach_get (f : String → M → M × Option Err) (l : List (String × M)) (h : (forEach f l).2 = none)
    (n : String) : Dict.get? (forEach f l).1 n = (Dict.get? l n).map (fun m => (f n m).1) := by
  rw [forEach_map f l h]
  exact get?_map_pair (fun n m => (f n m).1) l n

theorem forEach_names (f : String → M → M × Option Err) : ∀ (l : List (String × M)),
    (forEach f l).1.map Prod.fst = l.map Prod.fst
  | [] => rfl
  | (n, m) :: rest => by
    rw [forEach_cons]
    rcases hf : f n m with ⟨m', _ | e⟩
    · simp [forEach_names f rest]
    · simp

theorem forEach_keeps (f : String → M → M × Option Err) {Q : M → Prop} (hf : ∀ n m, Q m → Q (f n m).1) :
    ∀ (l : List (String × M)), (∀ e ∈ l, Q e.2) → ∀ e ∈ (forEach f l).1, Q e.2
  | [], _, e, he => by simp [forEach] at he
  | (n, m) :: rest, hq, e, he => by
    rw [forEach_cons] at he
    have h1 := hf n m (hq (n, m) (by simp))
    have h2 : ∀ e ∈ rest, Q e.2 := fun e he => hq e (List.mem_cons_of_mem _ he)
    rcases hfe : f n m with ⟨m', _ | e'⟩
    · rw [hfe] at he h1
      rcases List.mem_cons.mp he with rfl | he
      · exact h1
      · exact forEach_keeps f hf rest h2 e he
    · rw [hfe] at he h1
      rcases List.mem_cons.mp he with rfl | he
      · exact h1
      · exact h2 e he

end loops

/-! ### Modules -/

variable {σ : Type} [DecidableEq σ]

theorem mapError_ok {α β ε : Type} (f : ε → β) (x : Except ε α) (a : α) :
    x.mapError f = .ok a ↔ x = .ok a := by
  cases x <;> simp [Except.mapError]

theorem mem_seqs {p : ModProg σ} {k : Nat} : k ∈ p.seqs ↔ ∃ b z, SeqOf p k b z := by
  unfold ModProg.seqs SeqOf
  cases p.body with
  | analog q =>
    simp only [List.mem_map]
    constructor
    · rintro ⟨e, he, rfl⟩; exact ⟨_, _, e.2, he, rfl, rfl⟩
    · rintro ⟨b, z, s, hs, _⟩; exact ⟨(k, s), hs, rfl⟩
  | timetag l =>
    simp only [List.mem_map]
    constructor
    · rintro ⟨e, he, rfl⟩; exact ⟨_, _, e.2, he, rfl, rfl⟩
    · rintro ⟨b, z, s, hs, _⟩; exact ⟨(k, s), hs, rfl⟩

theorem load_iff {env : Env σ} (he : EnvOk env) {p : ModProg σ} {m : Module σ} (hp : ProgOk p)
    (hc : Coherent m.dev) : (∃ d, loadDev env p m = .ok d) ↔ Fits m.type p := by
  unfold loadDev Fits
  unfold ProgOk at hp
  cases hb : p.body with
  | timetag l =>
    simp only [hb] at hp ⊢
    by_cases ht : m.type = .qtm
    · simp only [ht, if_true, mapError_ok, true_and]
      exact Prepare.prepareQtm_accepts m.force l hc
    · simp [ht]
  | analog q =>
    simp only [hb] at hp ⊢
    by_cases ht : m.type = .qtm
    · simp [ht]
    · simp only [ht, if_false, mapError_ok]
      rw [Prepare.prepare_accepts he.cal m.force ht (analogProgram p q) hc (by exact hp.1)]
      simp only [ne_eq, ht, not_false_eq_true, true_and, analogProgram]
      refine and_congr Iff.rfl ?_
      constructor
      · intro h hty mp hmp j k hj hk
        refine h hty j k ?_ ?_
        · obtain ⟨l, h1, ch, h2, h3⟩ := hj
          exact ⟨ch, h2, mp.map (fun e => (e.1, e.2.map Prod.fst)), by simp [hmp], l.map Prod.fst,
            List.mem_map.mpr ⟨(j, l), h1, rfl⟩, h3⟩
        · obtain ⟨l, h1, ch, h2, h3⟩ := hk
          exact ⟨ch, h2, mp.map (fun e => (e.1, e.2.map Prod.fst)), by simp [hmp], l.map Prod.fst,
            List.mem_map.mpr ⟨(k, l), h1, rfl⟩, h3⟩
      · intro h hty j k hj hk
        obtain ⟨ch, h2, m', h3, l, h4, h5⟩ := hj
        obtain ⟨ch', h2', m'', h3', l', h4', h5'⟩ := hk
        simp only at h2 h3 h2' h3'
        cases hacq : p.acq with
        | none => simp [hacq] at h3
        | some mp =>
          rw [hacq] at h3 h3'
          simp only [Option.map_some, Option.some.injEq] at h3 h3'
          subst h3; subst h3'
          obtain ⟨e, he1, he2⟩ := List.mem_map.mp h4
          obtain ⟨e', he1', he2'⟩ := List.mem_map.mp h4'
          simp only [Prod.mk.injEq] at he2 he2'
          obtain ⟨rfl, rfl⟩ := he2
          obtain ⟨rfl, rfl⟩ := he2'
          exact h hty mp hacq _ _ ⟨e.2, he1, ch, h2, h5⟩ ⟨e'.2, he1', ch', h2', h5'⟩

theorem load_coherent {env : Env σ} (he : EnvOk env) {p : ModProg σ} {m : Module σ} (hp : ProgOk p)
    (hc : Coherent m.dev) {d : Dev σ} (h : loadDev env p m = .ok d) : Coherent d := by
  unfold loadDev at h
  unfold ProgOk at hp
  cases hb : p.body with
  | timetag l =>
    simp only [hb] at hp h
    by_cases ht : m.type = .qtm
    · simp only [ht, if_true, mapError_ok] at h
      exact (Prepare.qtm_step hc h).coherent
    · simp [ht] at h
  | analog q =>
    simp only [hb] at hp h
    by_cases ht : m.type = .qtm
    · simp [ht] at h
    · simp only [ht, if_false, mapError_ok] at h
      exact Prepare.prepare_coherent he.cal ht hc (by exact hp.1) h

/-- A loaded sequencer. -/
theorem load_seq {env : Env σ} (he : EnvOk env) {p : ModProg σ} {m : Module σ} (hp : ProgOk p)
    (hc : Coherent m.dev) {d : Dev σ} (h : loadDev env p m = .ok d) {k : Nat} {b : Bool} {z : σ}
    (hs : SeqOf p k b z) : k < sequencers m.type ∧ d.hw (.seq k .sync) = .bool b ∧
      d.hw (.seq k .sequence) = .program z := by
  have hf := (load_iff he hp hc).mp ⟨d, h⟩
  unfold loadDev at h
  unfold Fits at hf
  unfold ProgOk at hp
  unfold SeqOf at hs
  cases hb : p.body with
  | timetag l =>
    simp only [hb] at hp h hs hf
    simp only [hf.1, if_true, mapError_ok] at h
    obtain ⟨s, h1, rfl, rfl⟩ := hs
    have := Prepare.prepare_timetag hc hp.1 hp.2.2 h h1 (hp.2.1 _ h1)
    exact ⟨hf.2 _ h1, this.sync, this.sequence⟩
  | analog q =>
    simp only [hb] at hp h hs hf
    simp only [hf.1, if_false, mapError_ok] at h
    obtain ⟨s, h1, rfl, rfl⟩ := hs
    have := Prepare.prepare_sequencer he.cal hf.1 hc (by exact hp.1) h (k := k) (s := s) (by exact h1) (hp.2 _ h1)
    exact ⟨(hf.2.1 _ h1).1, this.sync, this.sequence⟩

/-- The other sequencers do not synchronise. -/
theorem load_unused {env : Env σ} (he : EnvOk env) {p : ModProg σ} {m : Module σ} (hp : ProgOk p)
    (hc : Coherent m.dev) {d : Dev σ} (h : loadDev env p m = .ok d) {k : Nat} (hk : k ∉ p.seqs)
    (hlt : k < sequencers m.type) : d.hw (.seq k .sync) = .bool false := by
  have hf := (load_iff he hp hc).mp ⟨d, h⟩
  unfold loadDev at h
  unfold Fits at hf
  unfold ProgOk at hp
  unfold ModProg.seqs at hk
  cases hb : p.body with
  | timetag l =>
    simp only [hb] at hp h hk hf
    simp only [hf.1, if_true, mapError_ok] at h
    exact (Prepare.timetag_unused hc hp.2.2 h (k := k)
      (fun s hs => hk (List.mem_map.mpr ⟨(k, s), hs, rfl⟩))).1 (hf.1 ▸ hlt)
  | analog q =>
    simp only [hb] at hp h hk hf
    simp only [hf.1, if_false, mapError_ok] at h
    exact (Prepare.prepare_unused he.cal hf.1 hc (by exact hp.1) h (k := k)
      (fun s hs => hk (List.mem_map.mpr ⟨(k, s), hs, rfl⟩))).1 hlt

theorem module_ok {env : Env σ} {chans : Nat → Option Retrieve.Chan} {reps : Nat} {p : ModProg σ}
    {m : Module σ} : (m.prepare env chans reps p).2 = none ↔ ∃ d, loadDev env p m = .ok d := by
  unfold Module.prepare
  cases loadDev env p m <;> simp

theorem module_result {env : Env σ} {chans : Nat → Option Retrieve.Chan} {reps : Nat} {p : ModProg σ}
    {m : Module σ} (h : (m.prepare env chans reps p).2 = none) : ∃ d, loadDev env p m = .ok d ∧
      (m.prepare env chans reps p).1 =
        { m with dev := d, prog := p.seqs, manager := managerOf m.type chans reps p } := by
  unfold Module.prepare at h ⊢
  cases hl : loadDev env p m with
  | error e => simp [hl] at h
  | ok d => exact ⟨d, rfl, rfl⟩

theorem module_keeps {env : Env σ} (he : EnvOk env) {chans : Nat → Option Retrieve.Chan} {reps : Nat}
    {p : ModProg σ} (hp : ProgOk p) {m : Module σ} (hc : Coherent m.dev) :
    Coherent (m.prepare env chans reps p).1.dev := by
  unfold Module.prepare
  cases hl : loadDev env p m with
  | error e => exact he.fail_coherent p m hc
  | ok d => exact load_coherent he hp hc hl

end Verif.Lifecycle
