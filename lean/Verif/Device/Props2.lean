/-
C74: the arguments of the operations are the parameters as last set; clocks have their frequencies.
-/
import Verif.Device.Props

namespace Verif.Device

open Verif Verif.Device.Spec

set_option linter.unusedSimpArgs false
set_option linter.unusedVariables false

theorem documented_table (k : Kind) : ∀ t ∈ documented k,
    (match srcAt k.ops t.1 t.2.1 with | some (.par a b) => a == t.2.2.1 && b == t.2.2.2 | _ => false) = true := by
  cases k <;> decide +kernel

/-- Every argument of an operation that is documented to be a parameter of the element is the value of that parameter. -/
theorem arguments (d : String) (cs : List Cmd) {cfg : Config} (hg : generate (run (fresh d) cs) = .ok cfg) {n : String}
    (hn : n ∈ (run (fresh d) cs).dev.elements) {k : Kind} {ps : Params}
    (ho : Open (run (fresh d) cs) n (.elem k n ps)) {op a sub par : String} (ht : (op, a, sub, par) ∈ documented k) :
    ∃ v, Value (run (fresh d) cs) n sub par v ∧ argument cfg n op a = some (.val v) := by
  have hs := documented_table k _ ht
  simp only at hs
  split at hs
  · rename_i x y hsrc
    simp only [Bool.and_eq_true, beq_iff_eq] at hs
    obtain ⟨rfl, rfl⟩ := hs
    obtain ⟨arg, h1, h2⟩ := argument_of (inv d cs) hg hn ho hsrc
    simp only [evalSrc, evalItem, valueOf] at h1
    cases hv : Dict.get? ps (x, y) with
    | none => rw [hv] at h1; cases h1
    | some v =>
      rw [hv] at h1
      simp only [Except.map, Except.ok.injEq] at h1
      subst h1
      exact ⟨v, ⟨_, ho, hv⟩, h2⟩
  · cases hs

/-- The items of a list are these parameters. -/
def listIs : List Src → List (String × String) → Bool
  | [], [] => true
  | .par a b :: l, (s, n) :: t => a == s && b == n && listIs l t
  | _, _ => false

theorem listIs_spec {n : String} {ps : Params} : ∀ {l : List Src} {t : List (String × String)} {vs : List Val},
    listIs l t = true → evalItems n ps l = .ok vs → vs.length = t.length ∧
      ∀ j (hj : j < t.length) v, vs[j]? = some v → Dict.get? ps t[j] = some v := by
  intro l
  induction l with
  | nil =>
    intro t vs hl he
    cases t with
    | nil => simp only [evalItems, Except.ok.injEq] at he; subst he; exact ⟨rfl, by simp⟩
    | cons => cases hl
  | cons x l ih =>
    intro t vs hl he
    cases t with
    | nil => cases x <;> cases hl
    | cons y t =>
      cases x with
      | par a b =>
        obtain ⟨s, m⟩ := y
        simp only [listIs, Bool.and_eq_true, beq_iff_eq] at hl
        obtain ⟨⟨rfl, rfl⟩, hl⟩ := hl
        simp only [evalItems, evalItem, valueOf, bind, Except.bind] at he
        cases hv : Dict.get? ps (a, b) with
        | none => rw [hv] at he; cases he
        | some v =>
          rw [hv] at he; simp only at he
          cases hr : evalItems n ps l with
          | error e => rw [hr] at he; cases he
          | ok vs' =>
            rw [hr] at he
            simp only [pure, Except.pure, Except.ok.injEq] at he
            subst he
            obtain ⟨h1, h2⟩ := ih hl hr
            refine ⟨by simp [h1], ?_⟩
            intro j hj w hw
            cases j with
            | zero => simp at hw; subst hw; exact hv
            | succ j => exact h2 j (by simpa using hj) w (by simpa using hw)
      | clock => cases hl
      | const => cases hl
      | list => cases hl
      | ref => cases hl

theorem documentedLists_table (k : Kind) : ∀ t ∈ documentedLists k,
    (match srcAt k.ops t.1 t.2.1 with | some (.list l) => listIs l t.2.2 | _ => false) = true := by
  cases k <;> decide +kernel

/-- The same for arguments that are lists of parameters. -/
theorem list_arguments (d : String) (cs : List Cmd) {cfg : Config} (hg : generate (run (fresh d) cs) = .ok cfg) {n : String}
    (hn : n ∈ (run (fresh d) cs).dev.elements) {k : Kind} {ps : Params}
    (ho : Open (run (fresh d) cs) n (.elem k n ps)) {op a : String} {t : List (String × String)}
    (ht : (op, a, t) ∈ documentedLists k) :
    ∃ vs, argument cfg n op a = some (.vals vs) ∧ vs.length = t.length ∧
      ∀ j (hj : j < t.length) v, vs[j]? = some v → Value (run (fresh d) cs) n t[j].1 t[j].2 v := by
  have hs := documentedLists_table k _ ht
  simp only at hs
  split at hs
  · rename_i l hsrc
    obtain ⟨arg, h1, h2⟩ := argument_of (inv d cs) hg hn ho hsrc
    simp only [evalSrc] at h1
    cases hv : evalItems n ps l with
    | error e => rw [hv] at h1; cases h1
    | ok vs =>
      rw [hv] at h1
      simp only [Except.map, Except.ok.injEq] at h1
      subst h1
      obtain ⟨h3, h4⟩ := listIs_spec hs hv
      exact ⟨vs, h2, h3, fun j hj v hj' => ⟨_, ho, h4 j hj v hj'⟩⟩
  · cases hs

theorem clock_entry {s : St} (h : Inv s) {cfg : Config} (hg : generate s = .ok cfg) {n : String} (hn : n ∈ s.dev.elements)
    {k : Kind} {ps : Params} (ho : Open s n (.elem k n ps)) {suffix par : String} (hm : (suffix, par) ∈ k.clocks) :
    ∃ f, Dict.get? cfg.clocks (n ++ suffix) = some f ∧ Value s n "clock_freqs" par f := by
  obtain ⟨ops, clocks, _, h2, _, h4⟩ := own_entries h hg hn ho
  have hw : WF k.pars ps := (h.name n _ (Dict.mem_of_get? ho)).2.wf
  obtain ⟨f, hf⟩ := hw.get (clocks_ok k _ hm)
  exact ⟨f, h4 _ _ ((evalClocks_mem h2).mpr ⟨(suffix, par), hm, rfl, hf⟩), ⟨_, ho, hf⟩⟩

theorem tuned_table (k : Kind) : ∀ t ∈ tuned k,
    (match srcAt k.ops t.1 t.2.1 with | some (.clock c) => decide ((c, t.2.2) ∈ k.clocks) | _ => false) = true := by
  cases k <;> decide +kernel

/-- An operation is played on a clock that has the documented frequency. -/
theorem frequency (d : String) (cs : List Cmd) {cfg : Config} (hg : generate (run (fresh d) cs) = .ok cfg) {n : String}
    (hn : n ∈ (run (fresh d) cs).dev.elements) {k : Kind} {ps : Params}
    (ho : Open (run (fresh d) cs) n (.elem k n ps)) {op a par : String} (ht : (op, a, par) ∈ tuned k) :
    ∃ c f, argument cfg n op a = some (.val (.str c)) ∧ Dict.get? cfg.clocks c = some f ∧
      Value (run (fresh d) cs) n "clock_freqs" par f := by
  have hs := tuned_table k _ ht
  simp only at hs
  split at hs
  · rename_i c hsrc
    obtain ⟨arg, h1, h2⟩ := argument_of (inv d cs) hg hn ho hsrc
    simp only [evalSrc, evalItem, Except.map, Except.ok.injEq] at h1
    subst h1
    obtain ⟨f, hf, hv⟩ := clock_entry (inv d cs) hg hn ho (by simpa using hs)
    exact ⟨_, f, h2, hf, hv⟩
  · cases hs

/-- The items of a list are clocks with these frequencies. -/
def clocksAre (clocks : List (String × String)) : List Src → List String → Bool
  | [], [] => true
  | .clock c :: l, p :: t => decide ((c, p) ∈ clocks) && clocksAre clocks l t
  | _, _ => false

theorem clocksAre_spec {clocks : List (String × String)} {n : String} {ps : Params} :
    ∀ {l : List Src} {t : List String} {vs : List Val},
    clocksAre clocks l t = true → evalItems n ps l = .ok vs → vs.length = t.length ∧
      ∀ j (hj : j < t.length) v, vs[j]? = some v → ∃ c, v = .str (n ++ c) ∧ (c, t[j]) ∈ clocks := by
  intro l
  induction l with
  | nil =>
    intro t vs hl he
    cases t with
    | nil => simp only [evalItems, Except.ok.injEq] at he; subst he; exact ⟨rfl, by simp⟩
    | cons => cases hl
  | cons x l ih =>
    intro t vs hl he
    cases t with
    | nil => cases x <;> cases hl
    | cons y t =>
      cases x with
      | clock c =>
        simp only [clocksAre, Bool.and_eq_true, decide_eq_true_eq] at hl
        simp only [evalItems, evalItem, bind, Except.bind] at he
        cases hr : evalItems n ps l with
        | error e => rw [hr] at he; cases he
        | ok vs' =>
          rw [hr] at he
          simp only [pure, Except.pure, Except.ok.injEq] at he
          subst he
          obtain ⟨h1, h2⟩ := ih hl.2 hr
          refine ⟨by simp [h1], ?_⟩
          intro j hj w hw
          cases j with
          | zero => simp at hw; subst hw; exact ⟨c, rfl, hl.1⟩
          | succ j => exact h2 j (by simpa using hj) w (by simpa using hw)
      | par => cases hl
      | const => cases hl
      | list => cases hl
      | ref => cases hl

theorem tunedLists_table (k : Kind) : ∀ t ∈ tunedLists k,
    (match srcAt k.ops t.1 t.2.1 with | some (.list l) => clocksAre k.clocks l t.2.2 | _ => false) = true := by
  cases k <;> decide +kernel

/-- The same for lists of clocks. -/
theorem frequencies_of_list (d : String) (cs : List Cmd) {cfg : Config} (hg : generate (run (fresh d) cs) = .ok cfg)
    {n : String} (hn : n ∈ (run (fresh d) cs).dev.elements) {k : Kind} {ps : Params}
    (ho : Open (run (fresh d) cs) n (.elem k n ps)) {op a : String} {t : List String}
    (ht : (op, a, t) ∈ tunedLists k) :
    ∃ vs, argument cfg n op a = some (.vals vs) ∧ vs.length = t.length ∧
      ∀ j (hj : j < t.length) v, vs[j]? = some v → ∃ c f, v = .str c ∧ Dict.get? cfg.clocks c = some f ∧
        Value (run (fresh d) cs) n "clock_freqs" t[j] f := by
  have hs := tunedLists_table k _ ht
  simp only at hs
  split at hs
  · rename_i l hsrc
    obtain ⟨arg, h1, h2⟩ := argument_of (inv d cs) hg hn ho hsrc
    simp only [evalSrc] at h1
    cases hv : evalItems n ps l with
    | error e => rw [hv] at h1; cases h1
    | ok vs =>
      rw [hv] at h1
      simp only [Except.map, Except.ok.injEq] at h1
      subst h1
      obtain ⟨h3, h4⟩ := clocksAre_spec hs hv
      refine ⟨vs, h2, h3, ?_⟩
      intro j hj v hj'
      obtain ⟨c, rfl, hc⟩ := h4 j hj v hj'
      obtain ⟨f, hf, hval⟩ := clock_entry (inv d cs) hg hn ho hc
      exact ⟨_, f, rfl, hf, hval⟩
  · cases hs

theorem referenced_table (k : Kind) : ∀ t ∈ referenced k,
    (match srcAt k.ops t.1 "reference_magnitude" with | some (.ref s) => s == t.2 && srcOk k.pars (.ref s) | _ => false)
      = true := by
  cases k <;> decide +kernel

/-- The amplitude reference of an operation is the value of the one unit that is defined, with this unit, or none. -/
theorem amplitude_reference (d : String) (cs : List Cmd) {cfg : Config} (hg : generate (run (fresh d) cs) = .ok cfg)
    {n : String} (hn : n ∈ (run (fresh d) cs).dev.elements) {k : Kind} {ps : Params}
    (ho : Open (run (fresh d) cs) n (.elem k n ps)) {op sub : String} (ht : (op, sub) ∈ referenced k) :
    ∃ r, argument cfg n op "reference_magnitude" = some (.ref r) ∧ ∀ v u, r = some (v, u) ↔
      u ∈ units ∧ v ≠ .nan ∧ Value (run (fresh d) cs) n sub ("reference_magnitude_" ++ u) v := by
  have hs := referenced_table k _ ht
  simp only at hs
  split at hs
  · rename_i x hsrc
    simp only [Bool.and_eq_true, beq_iff_eq] at hs
    obtain ⟨rfl, hok⟩ := hs
    obtain ⟨arg, h1, h2⟩ := argument_of (inv d cs) hg hn ho hsrc
    have hw : WF k.pars ps := ((inv d cs).name n _ (Dict.mem_of_get? ho)).2.wf
    obtain ⟨r, hr, hr2⟩ := reference_spec hw hok
    simp only [evalSrc, hr, Except.ok.injEq] at h1
    subst h1
    refine ⟨r, h2, ?_⟩
    intro v u
    rw [hr2]
    constructor
    · rintro ⟨a, b, c⟩; exact ⟨a, b, _, ho, c⟩
    · rintro ⟨a, b, i, hi, c⟩
      have : i = .elem k n ps := by
        have h3 : Dict.get? (run (fresh d) cs).reg n = some i := hi
        rw [show Dict.get? (run (fresh d) cs).reg n = some (.elem k n ps) from ho] at h3
        exact (Option.some.inj h3).symm
      subst this
      exact ⟨a, b, c⟩
  · cases hs

theorem operations_table (k : Kind) : k.ops.map (fun x => (x.op, x.factory, x.gateInfo)) = operations k := by
  cases k <;> rfl

/-- The operations that an element has, their factory functions and what these take from the gate. -/
theorem element_operations (d : String) (cs : List Cmd) {cfg : Config} (hg : generate (run (fresh d) cs) = .ok cfg)
    {n : String} (hn : n ∈ (run (fresh d) cs).dev.elements) {k : Kind} {ps : Params}
    (ho : Open (run (fresh d) cs) n (.elem k n ps)) :
    ∃ ops, Dict.get? cfg.elements n = some ops ∧
      ops.map (fun o => (o.1, o.2.factory, o.2.gateInfo)) = operations k := by
  obtain ⟨ops, _, h1, _, h3, _⟩ := own_entries (inv d cs) hg hn ho
  exact ⟨ops, h3, by rw [evalOps_shape h1, operations_table]⟩

/-- A gate CZ on an edge: amplitude, duration and phases are those of the edge, the pulse is on the flux port of the first
element (or on the port of the edge), the phases are on the clocks of the elements. -/
theorem edge_arguments (d : String) (cs : List Cmd) {cfg : Config} (hg : generate (run (fresh d) cs) = .ok cfg) {n : String}
    (hn : n ∈ (run (fresh d) cs).dev.edges) {k : EKind} {p c : String} {ps : Params}
    (ho : Open (run (fresh d) cs) n (.edge k p c ps)) :
    ∃ port amp dur pp pc suffix, n = p ++ "_" ++ c ∧
      Value (run (fresh d) cs) n "cz" "square_amp" amp ∧ Value (run (fresh d) cs) n "cz" "square_duration" dur ∧
      Value (run (fresh d) cs) n "cz" (p ++ "_phase_correction") pp ∧
      Value (run (fresh d) cs) n "cz" (c ++ "_phase_correction") pc ∧
      (k = .square → suffix = ".01" ∧ Value (run (fresh d) cs) p "ports" "flux" port) ∧
      (k = .spin → suffix = ".f_larmor" ∧ Value (run (fresh d) cs) n "ports" "gate" port) ∧
      edgeArgument cfg n "CZ" "square_port" = some (.val port) ∧
      edgeArgument cfg n "CZ" "square_clock" = some (.val (.str "cl0.baseband")) ∧
      edgeArgument cfg n "CZ" "square_amp" = some (.val amp) ∧
      edgeArgument cfg n "CZ" "square_duration" = some (.val dur) ∧
      edgeArgument cfg n "CZ" "virt_z_parent_qubit_phase" = some (.val pp) ∧
      edgeArgument cfg n "CZ" "virt_z_parent_qubit_clock" = some (.val (.str (p ++ suffix))) ∧
      edgeArgument cfg n "CZ" "virt_z_child_qubit_phase" = some (.val pc) ∧
      edgeArgument cfg n "CZ" "virt_z_child_qubit_clock" = some (.val (.str (c ++ suffix))) := by
  have h := inv d cs
  revert h hg hn ho
  generalize run (fresh d) cs = s
  intro hg hn ho h
  obtain ⟨f, g, _, hgE, _, _, hE, _⟩ := generate_shape h hg
  obtain ⟨i, hi, hc⟩ := hgE n hn
  rw [show Dict.get? s.reg n = some (.edge k p c ps) from ho] at hi
  simp only [Option.some.injEq] at hi
  subst hi
  have hname := (h.name n _ (Dict.mem_of_get? ho)).1
  have hget : Dict.get? cfg.edges n = some (g n) := by rw [hE]; exact get?_map_mem _ hn
  have cz : ∀ {port : Val} {suffix : String} {kw}, czKwargs port ps p c suffix = .ok kw → ∃ amp dur pp pc,
      Dict.get? ps ("cz", "square_amp") = some amp ∧ Dict.get? ps ("cz", "square_duration") = some dur ∧
      Dict.get? ps ("cz", p ++ "_phase_correction") = some pp ∧
      Dict.get? ps ("cz", c ++ "_phase_correction") = some pc ∧
      kw = [("square_port", .val port), ("square_clock", .val (.str "cl0.baseband")), ("square_amp", .val amp),
        ("square_duration", .val dur), ("virt_z_parent_qubit_phase", .val pp),
        ("virt_z_parent_qubit_clock", .val (.str (p ++ suffix))), ("virt_z_child_qubit_phase", .val pc),
        ("virt_z_child_qubit_clock", .val (.str (c ++ suffix)))] := by
    intro port suffix kw hk
    simp only [czKwargs, valueOf, bind, Except.bind] at hk
    cases h1 : Dict.get? ps ("cz", "square_amp") with
    | none => rw [h1] at hk; cases hk
    | some a =>
      rw [h1] at hk; simp only at hk
      cases h2 : Dict.get? ps ("cz", "square_duration") with
      | none => rw [h2] at hk; cases hk
      | some b =>
        rw [h2] at hk; simp only at hk
        cases h3 : Dict.get? ps ("cz", p ++ "_phase_correction") with
        | none => rw [h3] at hk; cases hk
        | some x =>
          rw [h3] at hk; simp only at hk
          cases h4 : Dict.get? ps ("cz", c ++ "_phase_correction") with
          | none => rw [h4] at hk; cases hk
          | some y =>
            rw [h4] at hk
            simp only [pure, Except.pure, Except.ok.injEq] at hk
            exact ⟨a, b, x, y, rfl, rfl, rfl, rfl, hk.symm⟩
  cases k with
  | square =>
    simp only [edgeConfig, bind, Except.bind] at hc
    cases h1 : findElement s.reg p with
    | error e => rw [h1] at hc; cases hc
    | ok x =>
      rw [h1] at hc; obtain ⟨kp, pps⟩ := x; simp only at hc
      cases h2 : valueOf pps "ports" "flux" with
      | error e => rw [h2] at hc; cases hc
      | ok port =>
        rw [h2] at hc; simp only at hc
        cases h3 : findElement s.reg c with
        | error e => rw [h3] at hc; cases hc
        | ok y =>
          rw [h3] at hc; simp only at hc
          cases h4 : czKwargs port ps p c ".01" with
          | error e => rw [h4] at hc; cases hc
          | ok kw =>
            rw [h4] at hc
            simp only [pure, Except.pure, Except.ok.injEq, List.cons.injEq, Prod.mk.injEq, and_true] at hc
            obtain ⟨amp, dur, pp, pc, v1, v2, v3, v4, rfl⟩ := cz h4
            have hp : Dict.get? pps ("ports", "flux") = some port := by
              unfold valueOf at h2
              split at h2
              · simp only [Except.ok.injEq] at h2; subst h2; assumption
              · cases h2
            refine ⟨port, amp, dur, pp, pc, ".01", hc.1.symm, ⟨_, ho, v1⟩, ⟨_, ho, v2⟩, ⟨_, ho, v3⟩, ⟨_, ho, v4⟩,
              fun _ => ⟨rfl, _, (findElement_iff h).mp h1, hp⟩, by simp, ?_⟩
            simp only [edgeArgument, hget, ← hc.2]
            simp [Dict.get?_cons, Dict.get?_nil]
  | spin =>
    simp only [edgeConfig, bind, Except.bind] at hc
    cases h2 : valueOf ps "ports" "gate" with
    | error e => rw [h2] at hc; cases hc
    | ok port =>
      rw [h2] at hc; simp only at hc
      cases h1 : findElement s.reg p with
      | error e => rw [h1] at hc; cases hc
      | ok x =>
        rw [h1] at hc; simp only at hc
        cases h3 : findElement s.reg c with
        | error e => rw [h3] at hc; cases hc
        | ok y =>
          rw [h3] at hc; simp only at hc
          cases h4 : czKwargs port ps p c ".f_larmor" with
          | error e => rw [h4] at hc; cases hc
          | ok kw =>
            rw [h4] at hc
            simp only [pure, Except.pure, Except.ok.injEq, List.cons.injEq, Prod.mk.injEq, and_true] at hc
            obtain ⟨amp, dur, pp, pc, v1, v2, v3, v4, rfl⟩ := cz h4
            have hp : Dict.get? ps ("ports", "gate") = some port := by
              unfold valueOf at h2
              split at h2
              · simp only [Except.ok.injEq] at h2; subst h2; assumption
              · cases h2
            refine ⟨port, amp, dur, pp, pc, ".f_larmor", hc.1.symm, ⟨_, ho, v1⟩, ⟨_, ho, v2⟩, ⟨_, ho, v3⟩, ⟨_, ho, v4⟩,
              by simp, fun _ => ⟨rfl, _, ho, hp⟩, ?_⟩
            simp only [edgeArgument, hget, ← hc.2]
            simp [Dict.get?_cons, Dict.get?_nil]

/-- The clocks of a gate CZ have the frequencies of the qubits if both are elements of the device of the class that the
edge connects. -/
theorem edge_frequency (d : String) (cs : List Cmd) {cfg : Config} (hg : generate (run (fresh d) cs) = .ok cfg) {n : String}
    (hn : n ∈ (run (fresh d) cs).dev.edges) {k : EKind} {p c : String} {ps pps cps : Params}
    (ho : Open (run (fresh d) cs) n (.edge k p c ps))
    (hp : p ∈ (run (fresh d) cs).dev.elements) (hc : c ∈ (run (fresh d) cs).dev.elements)
    (op : Open (run (fresh d) cs) p (.elem (qubits k) p pps))
    (oc : Open (run (fresh d) cs) c (.elem (qubits k) c cps)) :
    ∃ cp cc fp fc, edgeArgument cfg n "CZ" "virt_z_parent_qubit_clock" = some (.val (.str cp)) ∧
      edgeArgument cfg n "CZ" "virt_z_child_qubit_clock" = some (.val (.str cc)) ∧
      Dict.get? cfg.clocks cp = some fp ∧ Dict.get? cfg.clocks cc = some fc ∧
      Value (run (fresh d) cs) p "clock_freqs" (qubitFreq k) fp ∧
      Value (run (fresh d) cs) c "clock_freqs" (qubitFreq k) fc := by
  obtain ⟨port, amp, dur, pp, pc, suffix, _, _, _, _, _, hsq, hsp, _, _, _, _, _, h1, _, h2⟩ :=
    edge_arguments d cs hg hn ho
  cases k with
  | square =>
    obtain ⟨rfl, _⟩ := hsq rfl
    obtain ⟨fp, g1, g2⟩ := clock_entry (inv d cs) hg hp op (suffix := ".01") (par := "f01") (by decide +kernel)
    obtain ⟨fc, g3, g4⟩ := clock_entry (inv d cs) hg hc oc (suffix := ".01") (par := "f01") (by decide +kernel)
    exact ⟨_, _, fp, fc, h1, h2, g1, g3, g2, g4⟩
  | spin =>
    obtain ⟨rfl, _⟩ := hsp rfl
    obtain ⟨fp, g1, g2⟩ := clock_entry (inv d cs) hg hp op (suffix := ".f_larmor") (par := "f_larmor") (by decide +kernel)
    obtain ⟨fc, g3, g4⟩ := clock_entry (inv d cs) hg hc oc (suffix := ".f_larmor") (par := "f_larmor") (by decide +kernel)
    exact ⟨_, _, fp, fc, h1, h2, g1, g3, g2, g4⟩

theorem opClock_table (k : Kind) : ∀ x ∈ k.ops, ∀ e ∈ x.kwargs, (e.1 == "clock" || e.1 == "acq_clock") = true →
    ¬ (k = .nv ∧ x.op = "pulse_compensation") →
    (match e.2 with
      | .clock c => k.clocks.any (fun y => y.1 == c)
      | .const v => v == .str "cl0.baseband"
      | _ => false) = true := by
  cases k <;> decide +kernel

/-- Every clock that an operation on an element is played on has a frequency or is the baseband clock. Missing: the pulse
compensation of an NV centre is on a clock without a frequency (`Examples.nv_compensation`). -/
theorem clock_known_partial (d : String) (cs : List Cmd) {cfg : Config} (hg : generate (run (fresh d) cs) = .ok cfg)
    {n : String} (hn : n ∈ (run (fresh d) cs).dev.elements) {k : Kind} {ps : Params}
    (ho : Open (run (fresh d) cs) n (.elem k n ps)) {op a c : String} (ha : a = "clock" ∨ a = "acq_clock")
    (hx : ¬ (k = .nv ∧ op = "pulse_compensation")) (harg : argument cfg n op a = some (.val (.str c))) :
    c = "cl0.baseband" ∨ ∃ f, Dict.get? cfg.clocks c = some f := by
  obtain ⟨ops, clocks, h1, h2, h3, h4⟩ := own_entries (inv d cs) hg hn ho
  have harg' := harg
  unfold argument at harg'
  rw [h3] at harg'
  simp only [Option.bind_some] at harg'
  cases hop : Dict.get? ops op with
  | none => rw [hop] at harg'; cases harg'
  | some o =>
    rw [hop] at harg'
    simp only [Option.bind_some] at harg'
    have hmem : op ∈ k.ops.map (fun x => x.op) := by
      have := (Dict.get?_isSome_iff ops op).mp (by rw [hop]; rfl)
      have hsh := congrArg (List.map Prod.fst) (evalOps_shape h1)
      simp only [List.map_map, Function.comp_def] at hsh
      rw [← hsh]; exact this
    have hex : ∃ e, k.ops.find? (fun x => x.op == op) = some e := by
      rw [← Option.isSome_iff_exists, List.find?_isSome]
      obtain ⟨x, hx1, hx2⟩ := List.mem_map.mp hmem
      exact ⟨x, hx1, by simp [hx2]⟩
    obtain ⟨e, he⟩ := hex
    obtain ⟨kw, hk1, hk2⟩ := evalOps_get h1 he
    rw [hop] at hk2
    simp only [Option.some.injEq] at hk2
    subst hk2
    simp only at harg'
    -- the argument is among those of the entry
    have hkeys : ∀ {l : List (String × Src)} {kw : List (String × Arg)}, evalKwargs n ps l = .ok kw →
        Dict.keys kw = Dict.keys l := by
      intro l
      induction l with
      | nil => intro kw h; simp only [evalKwargs, Except.ok.injEq] at h; subst h; rfl
      | cons x l ih =>
        intro kw h
        obtain ⟨kk, ss⟩ := x
        simp only [evalKwargs, bind, Except.bind] at h
        cases hs : evalSrc n ps ss with
        | error y => rw [hs] at h; cases h
        | ok arg =>
          rw [hs] at h; simp only at h
          cases hr : evalKwargs n ps l with
          | error y => rw [hr] at h; cases h
          | ok kw' =>
            rw [hr] at h
            simp only [pure, Except.pure, Except.ok.injEq] at h
            subst h
            have := ih hr
            simp only [Dict.keys] at this ⊢
            simp [this]
    have hin : a ∈ Dict.keys e.kwargs := by
      rw [← hkeys hk1]
      exact (Dict.get?_isSome_iff _ _).mp (by rw [harg']; rfl)
    obtain ⟨src, hsrc⟩ := Option.isSome_iff_exists.mp ((Dict.get?_isSome_iff _ _).mpr hin)
    obtain ⟨arg, ha1, ha2⟩ := evalKwargs_get hk1 hsrc
    rw [harg'] at ha2
    simp only [Option.some.injEq] at ha2
    subst ha2
    have hopn : e.op = op := by simpa using List.find?_some he
    have ht := opClock_table k e (List.mem_of_find?_eq_some he) (a, src) (Dict.mem_of_get? hsrc)
      (by rcases ha with rfl | rfl <;> rfl) (by rw [hopn]; exact hx)
    simp only at ht
    cases src with
    | clock x =>
      simp only [evalSrc, evalItem, Except.map, Except.ok.injEq, Arg.val.injEq, Val.str.injEq] at ha1
      subst ha1
      simp only [List.any_eq_true, beq_iff_eq] at ht
      obtain ⟨y, hy, rfl⟩ := ht
      obtain ⟨f, hf, _⟩ := clock_entry (inv d cs) hg hn ho (suffix := y.1) (par := y.2) hy
      exact .inr ⟨f, hf⟩
    | const v =>
      simp only [evalSrc, evalItem, Except.map, Except.ok.injEq, Arg.val.injEq] at ha1
      subst ha1
      left
      simpa using ht
    | par => cases ht
    | list => cases ht
    | ref => cases ht

end Verif.Device
