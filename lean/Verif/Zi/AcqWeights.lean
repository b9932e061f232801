/-
Weights of the nodes of a UHFQA that no acquisition uses, weights of traces, and which rows share a waveform.
-/
import Verif.Zi.AcqProps
import Verif.Zi.DeviceProps

set_option linter.unusedVariables false
set_option linter.unusedSimpArgs false

namespace Verif.Zi

open Spec
open Verif.Numeric (pyRound pyRound_close pyRound_unique)

variable {ι : Type}

theorem range_only (n : Nat) (f : Nat → Setting) (g : Setting → Option (List Rat)) (w : List Rat) (node : Nat)
    (h : ∀ k, g (f k) = if k = node then some w else none) :
    ((List.range n).map f).filterMap g = if node < n then [w] else [] := by
  induction n with
  | zero => simp
  | succ n ih =>
    rw [List.range_succ, List.map_append, List.filterMap_append, ih]
    simp only [List.map_cons, List.map_nil, List.filterMap_cons, List.filterMap_nil, h]
    by_cases h1 : n = node
    · subst h1
      simp
    · by_cases h2 : node < n
      · simp [h1, h2, show node < n + 1 by omega]
      · simp [h1, h2, show ¬ node < n + 1 by omega]

theorem allWeights_real (x : Rat) {node : Nat} (h : node < 10) :
    (allWeights x).filterMap (realOf node) = [List.replicate 4096 x] ∧
      (allWeights x).filterMap (imagOf node) = [List.replicate 4096 x] := by
  unfold allWeights
  rw [List.filterMap_append, List.filterMap_append]
  constructor
  · rw [range_only 10 _ (realOf node) (List.replicate 4096 x) node (fun k => rfl), if_pos h]
    have : ((List.range 10).map fun k => Setting.imag k (List.replicate 4096 x)).filterMap (realOf node) = [] := by
      rw [List.filterMap_eq_nil_iff]
      intro a ha
      obtain ⟨k, -, rfl⟩ := List.mem_map.mp ha
      rfl
    rw [this, List.append_nil]
  · rw [range_only 10 (fun k => Setting.imag k _) (imagOf node) (List.replicate 4096 x) node (fun k => rfl), if_pos h]
    have : ((List.range 10).map fun k => Setting.real k (List.replicate 4096 x)).filterMap (imagOf node) = [] := by
      rw [List.filterMap_eq_nil_iff]
      intro a ha
      obtain ⟨k, -, rfl⟩ := List.mem_map.mp ha
      rfl
    rw [this, List.nil_append]

/-- **C66, other nodes.** The nodes that no acquisition channel uses integrate with 4096 zeros, also if a former
schedule left weights there. -/
theorem other_nodes [DecidableEq ι] {rate : Rat} {reps : Nat} {bm : BinMode} {wf : ι → Option (List (Rat × Rat))}
    {acqs : List (AcqInfo ι)} (hs : ∀ a ∈ acqs, ∀ b ∈ acqs, a.wave = b.wave → a = b)
    (hp : ∀ a ∈ acqs, a.protocol = .ssb) (hne : acqs ≠ []) {s : List Setting} {cfg : AcqConfig}
    (h : configure rate reps bm wf acqs = .ok (s, cfg)) {node : Nat} (hn : node < 10)
    (hc : ∀ a ∈ acqs, node ≠ 2 * a.channel ∧ node ≠ 2 * a.channel + 1) :
    lastOf (realOf node) s = some (List.replicate 4096 0) ∧ lastOf (imagOf node) s = some (List.replicate 4096 0) := by
  match acqs, hne with
  | a0 :: rest, _ =>
    obtain ⟨h1, h2, s', r, h3, h4⟩ := configure_ok.mp h
    obtain ⟨rfl, -⟩ := Prod.mk.inj h4
    obtain ⟨i1, -⟩ := acqLoop_weights _ _ _ _ h3 (fun x hx => hp x (firstAcqs_sub _ _ _ hx).1)
    obtain ⟨j1, j2⟩ := i1 (node / 2) (fun x hx hxc => by
      have := hc x (firstAcqs_sub _ _ _ hx).1
      omega) node (by omega)
    obtain ⟨k1, k2⟩ := allWeights_real 0 hn
    constructor <;> unfold lastOf
    · rw [List.filterMap_append, List.filterMap_append, k1, j1]; rfl
    · rw [List.filterMap_append, List.filterMap_append, k2, j2]; rfl

theorem trace_loop {rate : Rat} {av : Nat} {wf : ι → Option (List (Rat × Rat))} {node : Nat} {W : List Rat}
    (k1 : (allWeights 1).filterMap (realOf node) = [W]) (k2 : (allWeights 1).filterMap (imagOf node) = [W]) :
    ∀ (l : List (AcqInfo ι)) (dur : Option Rat) (used : List Nat) (out : List Setting × List (Nat × Proto)),
      acqLoop rate av wf dur used l = .ok out → (∀ a ∈ l, a.protocol = .trace) →
      (∀ w ∈ out.1.filterMap (realOf node), w = W) ∧
      (∀ w ∈ out.1.filterMap (imagOf node), w = W) ∧
      (l ≠ [] → out.1.filterMap (realOf node) ≠ [] ∧ out.1.filterMap (imagOf node) ≠ [])
  | [], dur, used, out, h, _ => by
    simp only [acqLoop, Except.ok.injEq] at h
    subst h
    simp
  | a :: rest, dur, used, out, h, hp => by
    obtain ⟨-, -, s, s', r, h3, h4, rfl⟩ := acqLoop_cons.mp h
    obtain ⟨i1, i2, -⟩ := trace_loop k1 k2 rest _ _ _ h4 (fun b hb => hp b (List.mem_cons_of_mem _ hb))
    simp only [acqSettings, hp a (by simp), Except.ok.injEq] at h3
    subst h3
    simp only [List.filterMap_append, k1, k2] at i1 i2 ⊢
    refine ⟨?_, ?_, fun _ => ⟨by simp, by simp⟩⟩
    · intro w hw
      rcases List.mem_append.mp hw with hw | hw
      · rcases List.mem_append.mp hw with hw | hw
        · simp [realOf] at hw
        · exact List.mem_singleton.mp hw
      · exact i1 w hw
    · intro w hw
      rcases List.mem_append.mp hw with hw | hw
      · rcases List.mem_append.mp hw with hw | hw
        · simp [imagOf] at hw
        · exact List.mem_singleton.mp hw
      · exact i2 w hw

theorem getLast_of {β : Type} {l m e : List β} {x : β} (he : e = []) (hm : m ≠ []) (h : ∀ y ∈ m, y = x) :
    (l ++ m ++ e).getLast? = some x := by
  subst he
  rw [List.append_nil, List.getLast?_append_of_ne_nil _ hm, List.getLast?_eq_some_getLast hm,
    h _ (List.getLast_mem hm)]

/-- **C66, weights of traces.** While traces are recorded all ten nodes integrate with 4096 ones. -/
theorem trace_nodes [DecidableEq ι] {rate : Rat} {reps : Nat} {bm : BinMode} {wf : ι → Option (List (Rat × Rat))}
    {acqs : List (AcqInfo ι)} (hne : acqs ≠ []) (hp : ∀ a ∈ acqs, a.protocol = .trace) {s : List Setting}
    {cfg : AcqConfig} (h : configure rate reps bm wf acqs = .ok (s, cfg)) {node : Nat} (hn : node < 10) :
    lastOf (realOf node) s = some (List.replicate 4096 1) ∧ lastOf (imagOf node) s = some (List.replicate 4096 1) := by
  match acqs, hne with
  | a0 :: rest, _ =>
    obtain ⟨h1, h2, s', r, h3, h4⟩ := configure_ok.mp h
    obtain ⟨rfl, -⟩ := Prod.mk.inj h4
    have hfirst : firstAcqs [] (a0 :: rest) ≠ [] := by simp [firstAcqs]
    obtain ⟨i1, i2, i3⟩ := trace_loop (allWeights_real 1 hn).1 (allWeights_real 1 hn).2 _ _ _ _ h3 (fun x hx => hp x (firstAcqs_sub _ _ _ hx).1)
    obtain ⟨j1, j2⟩ := i3 hfirst
    constructor <;> unfold lastOf <;> rw [List.filterMap_append, List.filterMap_append]
    · exact getLast_of (by simp [realOf]) j1 i1
    · exact getLast_of (by simp [imagOf]) j2 i2

/-- **C63, shared waveforms.** Two rows with the same identifier of the pulse get the same waveform if they start on
the sample clock of the device to a twentieth of a sample, and rows with the same waveform start at most a tenth of
a sample apart, relative to their clock cycles. -/
theorem shared_waveform {ω : Type} (r r' : Row ω) (c c' : Int) (p p' : Rat) :
    (r.wave = r'.wave → (∃ n : Int, |(|p| * 10) - n| < 1 / 2 ∧ |(|p'| * 10) - n| < 1 / 2) →
      waveId (r, some (c, p)) = waveId (r', some (c', p'))) ∧
    (waveId (r, some (c, p)) = waveId (r', some (c', p')) → r.wave = r'.wave ∧ |(|p| - |p'|)| ≤ 1 / 10) := by
  constructor
  · rintro hw ⟨n, h1, h2⟩
    simp only [waveId, Option.map_some, pyRound_unique h1, pyRound_unique h2, hw]
  · intro h
    simp only [waveId, Option.map_some, Prod.mk.injEq, Option.some.injEq] at h
    refine ⟨h.1, ?_⟩
    have h1 := pyRound_close (|p| * 10)
    have h2 := pyRound_close (|p'| * 10)
    rw [h.2] at h1
    rw [abs_le] at h1 h2 ⊢
    constructor <;> linarith [h1.1, h1.2, h2.1, h2.2]

/-- Channel 1 is used: nodes 0 and 4 are not. -/
theorem other_nodes_example : ∃ (s : List Setting) (cfg : AcqConfig),
    configure (ι := Nat) 1800000000 5 .average (fun _ => some [(1, 2)])
      [{ wave := 7, channel := 1, protocol := .ssb, duration := 1 / 1000000 }] = .ok (s, cfg) ∧
    lastOf (realOf 0) s = some (List.replicate 4096 0) := by
  have hr : pyRound (1 / 1000000 * 1800000000) = 1800 := by decide +kernel
  obtain ⟨⟨s, cfg⟩, h⟩ : ∃ out, configure (ι := Nat) 1800000000 5 .average (fun _ => some [(1, 2)])
      [{ wave := 7, channel := 1, protocol := .ssb, duration := 1 / 1000000 }] = .ok out := by
    refine (configure_iff (by simp) (by simp)).mpr ⟨.inl rfl, ?_, by simp⟩
    intro a ha
    obtain rfl := List.mem_singleton.mp ha
    exact ⟨.inr ⟨rfl, by simp, _, rfl, by simp⟩, by rw [hr]; omega⟩
  exact ⟨s, cfg, h, (other_nodes (by simp) (by simp) (by simp) h (node := 0) (by omega) (by simp)).1⟩

end Verif.Zi
