/-
C56: what arrives at the parameters of the instrument.
-/
import Verif.Settings.OptionsFilters
import Verif.Settings.OptionsAtt
import Verif.Settings.OptionsProps

set_option linter.unusedSimpArgs false
set_option linter.unusedVariables false

namespace Verif.Settings

open Verif.Connect (PC Chan Mode Dir ModType)

namespace Spec

/-- The parameter of the gain of an input. -/
def gainParam : Nat → String
  | 0 => "in0_gain"
  | _ => "in1_gain"

/-- The parameters of the offsets of complex output `k`: baseband outputs have one each, the outputs of
RF modules two paths. -/
def offsetParams : ModType → Nat → Option (String × String)
  | .qcm, 0 => some ("out0_offset", "out1_offset")
  | .qcm, 1 => some ("out2_offset", "out3_offset")
  | .qrm, 0 => some ("out0_offset", "out1_offset")
  | .qcmRf, 0 => some ("out0_offset_path0", "out0_offset_path1")
  | .qcmRf, 1 => some ("out1_offset_path0", "out1_offset_path1")
  | .qrmRf, 0 => some ("out0_offset_path0", "out0_offset_path1")
  | _, _ => none

/-- A parameter is given a value once. -/
def Sets {κ : Type} (ws : List (κ × Val)) (name : κ) (v : Val) : Prop :=
  ∀ w, (name, w) ∈ ws ↔ w = v

/-- A parameter is left alone. -/
def Leaves {κ : Type} (ws : List (κ × Val)) (name : κ) : Prop := ∀ w, (name, w) ∉ ws

end Spec

open Spec

theorem mem_wr {n n' : String} {v : Option Val} {w : Val} :
    (n, w) ∈ wr n' v ↔ n = n' ∧ v = some w := by
  cases v <;> simp [wr, eq_comm]

/-- **C56.** No parameter of a module is set twice. -/
theorem writes_once (t : ModType) (s : ModSettings) : ((writes t s).map Prod.fst).Nodup := by
  have key : ∀ l : List (String × Option Val), (l.map Prod.fst).Nodup →
      ((l.flatMap fun e => wr e.1 e.2).map Prod.fst).Nodup := by
    intro l
    induction l with
    | nil => simp
    | cons e l ih =>
      intro h
      simp only [List.map_cons, List.nodup_cons] at h
      simp only [List.flatMap_cons, List.map_append]
      rw [List.nodup_append]
      refine ⟨?_, ih h.2, ?_⟩
      · cases e.2 <;> simp [wr]
      · intro a ha b hb hab
        subst hab
        simp only [List.mem_map, List.mem_flatMap] at ha hb
        obtain ⟨⟨n, w⟩, hw, rfl⟩ := ha
        obtain ⟨⟨n', w'⟩, ⟨x, hx, hw'⟩, hn⟩ := hb
        obtain ⟨rfl, _⟩ := mem_wr.mp hw
        obtain ⟨rfl, _⟩ := mem_wr.mp hw'
        exact h.1 (List.mem_map.mpr ⟨x, hx, hn⟩)
  cases t <;> simp only [writes, List.map_nil, List.nodup_nil]
  case qcm =>
    exact (by simpa using key [("out0_offset", s.off0.map (.num ·.1)), ("out1_offset", s.off0.map (.num ·.2)),
      ("out2_offset", s.off1.map (.num ·.1)), ("out3_offset", s.off1.map (.num ·.2))] (by simp))
  case qrm =>
    exact (by simpa using key [("out0_offset", s.off0.map (.num ·.1)), ("out1_offset", s.off0.map (.num ·.2)),
      ("in0_gain", s.gain.1.map .int), ("in1_gain", s.gain.2.map .int)] (by simp))
  case qcmRf =>
    exact (by simpa using key [("out0_offset_path0", s.off0.map (.num ·.1)),
      ("out0_offset_path1", s.off0.map (.num ·.2)),
      ("out1_offset_path0", s.off1.map (.num ·.1)), ("out1_offset_path1", s.off1.map (.num ·.2)),
      ("out0_att", s.att.out0.map .int), ("out1_att", s.att.out1.map .int),
      ("out0_lo_freq", (getOpt s.los 0).map .num), ("out1_lo_freq", (getOpt s.los 1).map .num)] (by simp))
  case qrmRf =>
    exact (by simpa using key [("out0_offset_path0", s.off0.map (.num ·.1)),
      ("out0_offset_path1", s.off0.map (.num ·.2)),
      ("out0_att", s.att.out0.map .int), ("in0_att", s.att.in0.map .int),
      ("out0_in0_lo_freq", (getOpt s.los 0).map .num)] (by simp))
  case qrc =>
    exact (by simpa using key [("out0_att", s.att.out0.map fun _ => .bool true),
      ("out1_att", s.att.out1.map fun _ => .bool true),
      ("out0_in0_lo_freq", (getOpt s.los 0).map .num), ("out1_in1_lo_freq", (getOpt s.los 1).map .num),
      ("out2_lo_freq", (getOpt s.los 2).map .num), ("out3_lo_freq", (getOpt s.los 3).map .num),
      ("out4_lo_freq", (getOpt s.los 4).map .num), ("out5_lo_freq", (getOpt s.los 5).map .num)] (by simp))

/-- **C56.** The gain that a port-clock of a QRM asks for is written to the parameter of the input; the
parameter is left alone if none asks. -/
theorem gain_written {pcs : List (PC × Chan)} {gains : PC → Option Gain} {s : ModSettings}
    (h : inputGains pcs gains = .ok s.gain) (i : Nat) (hi : i < 2) :
    (∀ e ∈ pcs, ∀ g, Asks gains e i g → Sets (writes .qrm s) (gainParam i) (.int g)) ∧
    ((∀ e ∈ pcs, ∀ g, ¬Asks gains e i g) → Leaves (writes .qrm s) (gainParam i)) := by
  obtain ⟨h0, h1⟩ := (gains_exact pcs gains s.gain.1 s.gain.2).mp h
  have hn : ∀ v : Option Int, GainOf gains pcs i v → (∀ e ∈ pcs, ∀ g, ¬Asks gains e i g) → v = none := by
    intro v hv hno
    cases v with
    | none => rfl
    | some g => obtain ⟨e, he, ha⟩ := hv.2 g rfl; exact absurd ha (hno e he g)
  rcases (by omega : i = 0 ∨ i = 1) with rfl | rfl
  · refine ⟨fun e he g hg w => ?_, fun hno w => ?_⟩
    · simp [writes, mem_wr, gainParam, h0.1 e he g hg, eq_comm]
    · simp [writes, mem_wr, gainParam, hn _ h0 hno]
  · refine ⟨fun e he g hg w => ?_, fun hno w => ?_⟩
    · simp [writes, mem_wr, gainParam, h1.1 e he g hg, eq_comm]
    · simp [writes, mem_wr, gainParam, hn _ h1 hno]

/-- **C56.** The offsets of a mixer correction are written to the parameters of the output, in the unit
of the instrument; they are left alone if no port-clock of the output has a correction. -/
theorem offsets_written {t : ModType} {pcs : List (PC × Chan)} {corr : PC → Option (Rat × Rat)}
    {s : ModSettings} (h : mixerOffsets t pcs corr = .ok (s.off0, s.off1)) {k : Nat} {p q : String}
    (hk : offsetParams t k = some (p, q)) :
    (∀ a b, Agree pcs ⟨.complex, .output, k⟩ corr (a, b) → ∃ a' b',
      Sets (writes t s) p (.num a') ∧ Sets (writes t s) q (.num b') ∧ volts t a' = a ∧ volts t b' = b ∧
      |a| ≤ maxOffset t ∧ |b| ≤ maxOffset t) ∧
    (Without pcs ⟨.complex, .output, k⟩ corr → Leaves (writes t s) p ∧ Leaves (writes t s) q) := by
  obtain ⟨h0, h1⟩ := offsets_exact h
  have aux : ∀ v, (k = 0 → v = s.off0) → (k = 1 → v = s.off1) → OffsetsOf t pcs corr k v →
      (∀ a b, Agree pcs ⟨.complex, .output, k⟩ corr (a, b) → ∃ a' b',
        Sets (writes t s) p (.num a') ∧ Sets (writes t s) q (.num b') ∧ volts t a' = a ∧ volts t b' = b ∧
        |a| ≤ maxOffset t ∧ |b| ≤ maxOffset t) ∧
      (Without pcs ⟨.complex, .output, k⟩ corr → Leaves (writes t s) p ∧ Leaves (writes t s) q) := by
    intro v e0 e1 hv
    refine ⟨fun a b hab => ?_, fun hw => ?_⟩
    · obtain ⟨a', b', hv', ha, hb, ma, mb⟩ := hv.2 a b hab
      refine ⟨a', b', ?_, ?_, ha, hb, ma, mb⟩ <;> intro w <;>
        (unfold offsetParams at hk
         split at hk <;> simp only [Option.some.injEq, Prod.mk.injEq, reduceCtorEq] at hk <;>
          obtain ⟨rfl, rfl⟩ := hk <;>
          first
          | (have := e0 rfl; subst this; simp [writes, mem_wr, hv', eq_comm])
          | (have := e1 rfl; subst this; simp [writes, mem_wr, hv', eq_comm]))
    · have hv' := hv.1 hw
      refine ⟨?_, ?_⟩ <;> intro w <;>
        (unfold offsetParams at hk
         split at hk <;> simp only [Option.some.injEq, Prod.mk.injEq, reduceCtorEq] at hk <;>
          obtain ⟨rfl, rfl⟩ := hk <;>
          first
          | (have := e0 rfl; subst this; simp [writes, mem_wr, hv', eq_comm])
          | (have := e1 rfl; subst this; simp [writes, mem_wr, hv', eq_comm]))
  have hk2 : k = 0 ∨ k = 1 := by
    unfold offsetParams at hk
    split at hk <;> simp at hk <;> simp
  rcases hk2 with rfl | rfl
  · exact aux s.off0 (fun _ => rfl) (by simp) h0
  · exact aux s.off1 (by simp) (fun _ => rfl) h1

/-- **C56.** The attenuations of the outputs and of the input of RF modules are written to their
parameters. -/
theorem attenuation_written {pcs : List (PC × Chan)} {inAtt outAtt : PC → Option Rat} {s : ModSettings}
    (h : attenuation pcs inAtt outAtt = .ok s.att) :
    (∀ a, All pcs ⟨.complex, .output, 0⟩ outAtt a → ∃ n : Int, (n : Rat) = a ∧
      Sets (writes .qcmRf s) "out0_att" (.int n) ∧ Sets (writes .qrmRf s) "out0_att" (.int n)) ∧
    (∀ a, All pcs ⟨.complex, .output, 1⟩ outAtt a → ∃ n : Int, (n : Rat) = a ∧
      Sets (writes .qcmRf s) "out1_att" (.int n)) ∧
    (∀ a, All pcs ⟨.complex, .input, 0⟩ inAtt a → ∃ n : Int, (n : Rat) = a ∧
      Sets (writes .qrmRf s) "in0_att" (.int n)) ∧
    (∀ a, Without pcs ⟨.complex, .input, 0⟩ inAtt →
      (∃ e ∈ pcs, e.2 = ⟨.complex, .output, 0⟩ ∧ inAtt e.1 = some a) → ∃ n : Int, (n : Rat) = a ∧
      Sets (writes .qrmRf s) "in0_att" (.int n)) := by
  obtain ⟨a1, -, a2, -⟩ := out_attenuation h
  obtain ⟨b1, b2, -⟩ := in_attenuation h
  refine ⟨fun a ha => ?_, fun a ha => ?_, fun a ha => ?_, fun a hw ha => ?_⟩
  · obtain ⟨n, hn, hv⟩ := a1 a ha
    exact ⟨n, hv, fun w => by simp [writes, mem_wr, hn, eq_comm],
      fun w => by simp [writes, mem_wr, hn, eq_comm]⟩
  · obtain ⟨n, hn, hv⟩ := a2 a ha
    exact ⟨n, hv, fun w => by simp [writes, mem_wr, hn, eq_comm]⟩
  · obtain ⟨⟨n, hn, hv⟩, -⟩ := b1 a ha
    exact ⟨n, hv, fun w => by simp [writes, mem_wr, hn, eq_comm]⟩
  · obtain ⟨n, hn, hv⟩ := b2 a hw ha
    exact ⟨n, hv, fun w => by simp [writes, mem_wr, hn, eq_comm]⟩

/-- **C56.** Attenuations that no port-clock asks for are left alone. -/
theorem attenuation_left {pcs : List (PC × Chan)} {inAtt outAtt : PC → Option Rat} {s : ModSettings}
    (h : attenuation pcs inAtt outAtt = .ok s.att) :
    (Without pcs ⟨.complex, .output, 0⟩ outAtt →
      Leaves (writes .qcmRf s) "out0_att" ∧ Leaves (writes .qrmRf s) "out0_att") ∧
    (Without pcs ⟨.complex, .output, 1⟩ outAtt → Leaves (writes .qcmRf s) "out1_att") ∧
    (Without pcs ⟨.complex, .input, 0⟩ inAtt → Without pcs ⟨.complex, .output, 0⟩ inAtt →
      Leaves (writes .qrmRf s) "in0_att") := by
  obtain ⟨-, a1, -, a2⟩ := out_attenuation h
  obtain ⟨-, -, b⟩ := in_attenuation h
  refine ⟨fun ha => ⟨fun w => ?_, fun w => ?_⟩, fun ha w => ?_, fun ha hb w => ?_⟩
  · simp [writes, mem_wr, a1 ha]
  · simp [writes, mem_wr, a1 ha]
  · simp [writes, mem_wr, a2 ha]
  · simp [writes, mem_wr, b ha hb]

/-- **C56.** Oscillator frequencies of RF modules are written to their parameters. -/
theorem lo_written (s : ModSettings) (f : Rat) :
    (getOpt s.los 0 = some f → Sets (writes .qcmRf s) "out0_lo_freq" (.num f) ∧
      Sets (writes .qrmRf s) "out0_in0_lo_freq" (.num f) ∧
      Sets (writes .qrc s) "out0_in0_lo_freq" (.num f)) ∧
    (getOpt s.los 1 = some f → Sets (writes .qcmRf s) "out1_lo_freq" (.num f) ∧
      Sets (writes .qrc s) "out1_in1_lo_freq" (.num f)) := by
  refine ⟨fun h => ⟨fun w => ?_, fun w => ?_, fun w => ?_⟩, fun h => ⟨fun w => ?_, fun w => ?_⟩⟩ <;>
    simp [writes, mem_wr, h, eq_comm]

theorem mem_coeffWrites {o : Nat} {s : Stage} {x : Filter} {p : FParam} {w : Val}
    (h : (p, w) ∈ coeffWrites o s x) :
    (∃ v, p = .fir o ∧ s = .fir ∧ x.coeffs = some v ∧ w = .nums v) ∨
    (∃ a b, s ≠ .fir ∧ x.coeffs = some [a, b] ∧
      ((p = .time o s ∧ w = .num a) ∨ (p = .amplitude o s ∧ w = .num b))) := by
  unfold coeffWrites at h
  split at h
  · simp at h
  · rename_i v hv
    simp only [List.mem_singleton, Prod.mk.injEq] at h
    exact Or.inl ⟨v, h.1, rfl, hv, h.2⟩
  · rename_i a b hs hv
    simp only [List.mem_cons, List.not_mem_nil, or_false, Prod.mk.injEq] at h
    exact Or.inr ⟨a, b, hs, hv, h⟩
  · simp at h

theorem mem_outputWrites_qcm {f : Filters} {o : Nat} {p : FParam} {w : Val} :
    (p, w) ∈ outputWrites .qcm f o ↔ ∃ s, (p, w) ∈ coeffWrites o s (f o s) ∨
      (p = .config o s ∧ w = .str (f o s).config.name) ∨
      (p = .marker o s ∧ w = .str (if (f o s).markerDelay then "delay_comp" else "bypassed")) := by
  have hall : ∀ s : Stage, s ∈ stages := by intro s; cases s <;> simp [stages]
  simp [outputWrites, List.mem_flatMap, hall]

/-- **C56.** The filters of all four outputs of a QCM are written: the configuration always, coefficients
exactly if there are some. -/
theorem filters_written (f : Filters) {o : Nat} (ho : o < 4) (s : Stage) :
    Sets (filterWrites .qcm f) (.config o s) (.str (f o s).config.name) ∧
    Sets (filterWrites .qcm f) (.marker o s)
      (.str (if (f o s).markerDelay then "delay_comp" else "bypassed")) ∧
    (∀ a b, s ≠ .fir → (f o s).coeffs = some [a, b] →
      Sets (filterWrites .qcm f) (.time o s) (.num a) ∧
      Sets (filterWrites .qcm f) (.amplitude o s) (.num b)) ∧
    (∀ v, (f o .fir).coeffs = some v → Sets (filterWrites .qcm f) (.fir o) (.nums v)) ∧
    ((f o s).coeffs = none → Leaves (filterWrites .qcm f) (.time o s) ∧
      Leaves (filterWrites .qcm f) (.amplitude o s)) ∧
    ((f o .fir).coeffs = none → Leaves (filterWrites .qcm f) (.fir o)) := by
  have key : ∀ p w, (p, w) ∈ filterWrites .qcm f ↔ ∃ o < 4, ∃ s, (p, w) ∈ coeffWrites o s (f o s) ∨
      (p = .config o s ∧ w = .str (f o s).config.name) ∨
      (p = .marker o s ∧ w = .str (if (f o s).markerDelay then "delay_comp" else "bypassed")) := by
    intro p w
    simp only [filterWrites, List.mem_flatMap, List.mem_range, mem_outputWrites_qcm]
  have c1 : ∀ p w, (p, w) ∈ filterWrites .qcm f → (∀ o s, p ≠ .config o s) → (∀ o s, p ≠ .marker o s) →
      ∃ o < 4, ∃ s, (p, w) ∈ coeffWrites o s (f o s) := by
    intro p w h h1 h2
    obtain ⟨o, ho, s, h | h | h⟩ := (key p w).mp h
    · exact ⟨o, ho, s, h⟩
    · exact absurd h.1 (h1 o s)
    · exact absurd h.1 (h2 o s)
  have nc : ∀ o' s' s'' x w, (FParam.config o s', w) ∉ coeffWrites o' s'' x := by
    intro o' s' s'' x w h
    rcases mem_coeffWrites h with ⟨v, h, -⟩ | ⟨a, b, -, -, ⟨h, -⟩ | ⟨h, -⟩⟩ <;> cases h
  have nm : ∀ o' s' s'' x w, (FParam.marker o s', w) ∉ coeffWrites o' s'' x := by
    intro o' s' s'' x w h
    rcases mem_coeffWrites h with ⟨v, h, -⟩ | ⟨a, b, -, -, ⟨h, -⟩ | ⟨h, -⟩⟩ <;> cases h
  refine ⟨fun w => ?_, fun w => ?_, fun a b hs hc => ⟨fun w => ?_, fun w => ?_⟩, fun v hc w => ?_,
    fun hc => ⟨fun w h => ?_, fun w h => ?_⟩, fun hc w h => ?_⟩
  · constructor
    · intro h
      obtain ⟨o', -, s', h | h | h⟩ := (key _ w).mp h
      · exact absurd h (nc _ _ _ _ _)
      · obtain ⟨hp, rfl⟩ := h; cases hp; rfl
      · cases h.1
    · rintro rfl; exact (key _ _).mpr ⟨o, ho, s, Or.inr (Or.inl ⟨rfl, rfl⟩)⟩
  · constructor
    · intro h
      obtain ⟨o', -, s', h | h | h⟩ := (key _ w).mp h
      · exact absurd h (nm _ _ _ _ _)
      · cases h.1
      · obtain ⟨hp, rfl⟩ := h; cases hp; rfl
    · rintro rfl; exact (key _ _).mpr ⟨o, ho, s, Or.inr (Or.inr ⟨rfl, rfl⟩)⟩
  · constructor
    · intro h
      obtain ⟨o', -, s', h⟩ := c1 _ w h (by simp) (by simp)
      rcases mem_coeffWrites h with ⟨v, h, -⟩ | ⟨a', b', -, hc', ⟨h, hw⟩ | ⟨h, -⟩⟩
      · cases h
      · cases h; rw [hc] at hc'; cases hc'; exact hw
      · cases h
    · rintro rfl
      refine (key _ _).mpr ⟨o, ho, s, Or.inl ?_⟩
      cases s <;> simp_all [coeffWrites]
  · constructor
    · intro h
      obtain ⟨o', -, s', h⟩ := c1 _ w h (by simp) (by simp)
      rcases mem_coeffWrites h with ⟨v, h, -⟩ | ⟨a', b', -, hc', ⟨h, -⟩ | ⟨h, hw⟩⟩
      · cases h
      · cases h
      · cases h; rw [hc] at hc'; cases hc'; exact hw
    · rintro rfl
      refine (key _ _).mpr ⟨o, ho, s, Or.inl ?_⟩
      cases s <;> simp_all [coeffWrites]
  · constructor
    · intro h
      obtain ⟨o', -, s', h⟩ := c1 _ w h (by simp) (by simp)
      rcases mem_coeffWrites h with ⟨v', hp, rfl, hc', hw⟩ | ⟨a', b', -, hc', ⟨h, -⟩ | ⟨h, hw⟩⟩
      · cases hp; rw [hc] at hc'; cases hc'; exact hw
      · cases h
      · cases h
    · rintro rfl
      refine (key _ _).mpr ⟨o, ho, .fir, Or.inl ?_⟩
      simp [coeffWrites, hc]
  · obtain ⟨o', -, s', h⟩ := c1 _ w h (by simp) (by simp)
    rcases mem_coeffWrites h with ⟨v', h, -⟩ | ⟨a', b', -, hc', ⟨h, -⟩ | ⟨h, hw⟩⟩
    · cases h
    · cases h; rw [hc] at hc'; cases hc'
    · cases h
  · obtain ⟨o', -, s', h⟩ := c1 _ w h (by simp) (by simp)
    rcases mem_coeffWrites h with ⟨v', h, -⟩ | ⟨a', b', -, hc', ⟨h, -⟩ | ⟨h, hw⟩⟩
    · cases h
    · cases h
    · cases h; rw [hc] at hc'; cases hc'
  · obtain ⟨o', -, s', h⟩ := c1 _ w h (by simp) (by simp)
    rcases mem_coeffWrites h with ⟨v', hp, rfl, hc', hw⟩ | ⟨a', b', -, hc', ⟨h, -⟩ | ⟨h, hw⟩⟩
    · cases hp; rw [hc] at hc'; cases hc'
    · cases h
    · cases h

end Verif.Settings
