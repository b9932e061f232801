/-
Lemmas for C82: every class holds its arguments.
-/
import Verif.Ops.Entry
import Mathlib.Tactic.NormNum

set_option linter.unusedSimpArgs false
set_option linter.unusedVariables false
set_option linter.unusedTactic false
set_option linter.unreachableTactic false

namespace Verif.Ops

/-- The arguments that are held under their own name. -/
def held (c : Cls) : List String := (required c ++ optional c).filter fun p => !(elsewhere c).contains p

theorem mem_held (c : Cls) (p : String) :
    p ∈ held c ↔ (p ∈ required c ∨ p ∈ optional c) ∧ p ∉ elsewhere c := by
  simp [held, or_and_right]

/-- The keys of `Holds.only`. -/
def allowed (c : Cls) : List String := held c ++ ((fixed c).map Prod.fst ++ computed c)

/-- `Holds` in terms of the values of the arguments. -/
structure Good (c : Cls) (a : String → Val) (i : Info) : Prop where
  args : ∀ p ∈ held c, ∃ w, Dict.get? i p = some w ∧ HeldAs c p (a p) w
  consts : ∀ e ∈ fixed c, Dict.get? i e.1 = some e.2
  only : ∀ k ∈ Dict.keys i, k ∈ allowed c
  nodup : (Dict.keys i).Nodup

theorem same_self (v : Val) : Same v v = True := by simp [Same]

theorem heldAs_self {c : Cls} (hc : c ≠ .TriggerCount) (p : String) {v w : Val} (h : Same w v) :
    HeldAs c p v w := ⟨fun h => absurd h.1 hc, fun _ => h⟩

theorem get_some {i : Info} {p : String} {x : Val} {P : Val → Prop} (h : Dict.get? i p = some x)
    (hp : P x) : ∃ w, Dict.get? i p = some w ∧ P w := ⟨x, h, hp⟩

theorem holds_of_good {c : Cls} {kw : List (String × Val)} {i : Info}
    (h : Good c (argOf c kw) i) : Holds c kw i where
  args p v hg he := by
    obtain ⟨w, h1, h2⟩ := h.args p ((mem_held c p).mpr ⟨hg.1, he⟩)
    rw [given_arg hg] at h2
    exact ⟨w, h1, h2⟩
  consts k v hk := h.consts (k, v) hk
  only k hk := by
    have := h.only k hk
    simp only [allowed, List.mem_append, mem_held] at this
    exact this
  nodup := h.nodup

/-- The checks of `Good` for an entry that is written out. -/
macro "good_tac" : tactic => `(tactic| (
  refine ⟨?_, ?_, ?_, ?_⟩
  · simp [held, required, optional, placing, elsewhere, Dict.get?_cons, HeldAs, Same, *]
  · simp [fixed, wave, Dict.get?_cons, baseband]
    try norm_num
  · simp only [Dict.keys, List.map_cons, List.map_nil]; decide +kernel
  · simp only [Dict.keys, List.map_cons, List.map_nil]; decide +kernel))

theorem separated_ok {a : String → Val} {wa wb d : Val} {i : Info} (h : separated a wa wb d = .ok i) :
    Zero (a "phase") ∧ i = [("waveforms", .list [wa, wb]), ("t0", a "t0"), ("clock", a "clock"),
    ("port", a "port"), ("duration", d), ("phase", a "phase"), ("acq_channel", a "acq_channel"),
    ("coords", a "coords"), ("acq_index", a "acq_index"), ("bin_mode", a "bin_mode"),
    ("protocol", .str "WeightedIntegratedSeparated"), ("acq_return_type", .type "complex")] := by
  unfold separated at h
  cases hz : neZero (a "phase") with
  | true => simp [hz] at h
  | false =>
    simp only [hz, Bool.false_eq_true, if_false, Except.ok.injEq] at h
    exact ⟨neZero_iff.mp hz, h.symm⟩

theorem good_ShiftClockPhase {a : String → Val} {i : Info} (h : entry .ShiftClockPhase a = .ok i) :
    Good .ShiftClockPhase a i := by
  simp only [entry, Except.ok.injEq] at h; subst h; good_tac

theorem entry_good {c : Cls} {a : String → Val} {i : Info} (h : entry c a = .ok i) : Good c a i := by
  cases c
  case SuddenNetZeroPulse =>
    simp only [entry, bind_ok, asNum_ok] at h
    obtain ⟨x, hx, y, hy, z, hz, h⟩ := h
    simp only [Except.ok.injEq] at h; subst h; good_tac
  case NumericalPulse =>
    obtain ⟨x, xs, ys, p, q, ht, hs, hp, hq, rfl⟩ := numericalPulse_ok.mp h
    clear ht hs hp hq h
    good_tac
  case SimpleNumericalPulse =>
    obtain ⟨ys, hs, rfl⟩ := simple_ok.mp h
    clear hs h
    good_tac
  case Trace =>
    simp only [entry, bind_ok, asNum_ok] at h
    obtain ⟨x, hx, y, hy, h⟩ := h
    simp only [Except.ok.injEq] at h; subst h
    have hy := (asEnum_ok hy).2
    unfold Same at hy
    good_tac
  case TimetagTrace =>
    simp only [entry, bind_ok, asNum_ok] at h
    obtain ⟨x, hx, y, hy, h⟩ := h
    split at h
    · cases h
    · simp only [Except.ok.injEq] at h; subst h
      have hy := (asEnum_ok hy).2
      unfold Same at hy
      rename_i hn
      clear hn
      good_tac
  case Timetag =>
    simp only [entry, bind_ok, asNum_ok] at h
    obtain ⟨x, hx, y, hy, h⟩ := h
    split at h
    · cases h
    · simp only [Except.ok.injEq] at h; subst h
      have hx := (asEnum_ok hx).2
      have hy := (asEnum_ok hy).2
      unfold Same at hx hy
      rename_i hn
      clear hn
      good_tac
  case WeightedIntegratedSeparated =>
    obtain ⟨hz, rfl⟩ := separated_ok h
    clear hz h
    good_tac
  case NumericalSeparatedWeightedIntegration =>
    obtain ⟨xs, ys, r, hx, hy, hr, h0, hz, rfl⟩ := numeric_ok.mp h
    clear hx hy hr h0 hz h
    good_tac
  case NumericalWeightedIntegration =>
    obtain ⟨d, hd, h⟩ := bind_ok.mp h
    obtain ⟨xs, ys, r, hx, hy, hr, h0, hz, rfl⟩ := numeric_ok.mp hd
    clear hx hy hr h0 hz hd
    simp only [Except.ok.injEq] at h
    simp [Dict.set] at h
    subst h
    good_tac
  case WeightedThresholdedAcquisition =>
    obtain ⟨d, hd, h⟩ := bind_ok.mp h
    obtain ⟨xs, ys, r, hx, hy, hr, h0, hz, rfl⟩ := numeric_ok.mp hd
    clear hx hy hr h0 hz hd
    simp only [Except.ok.injEq] at h
    simp [Dict.set] at h
    subst h
    good_tac
  case SSBIntegrationComplex =>
    simp only [entry] at h
    split at h
    · cases h
    · rename_i hn; clear hn
      simp only [Except.ok.injEq] at h; subst h; good_tac
  case ThresholdedAcquisition =>
    simp only [entry] at h
    split at h
    · cases h
    · rename_i hn; clear hn
      simp only [Except.ok.injEq] at h; subst h; good_tac
  case ThresholdedTriggerCount =>
    simp only [entry] at h
    split at h
    · cases h
    · rename_i hn; clear hn
      simp only [Except.ok.injEq] at h; subst h; good_tac
  case DualThresholdedTriggerCount =>
    simp only [entry] at h
    split at h
    · cases h
    · rename_i hn; clear hn
      simp only [Except.ok.injEq] at h; subst h; good_tac
  case TriggerCount =>
    simp only [entry, Except.ok.injEq] at h; subst h
    refine ⟨?_, ?_, ?_, ?_⟩
    · simp only [held, required, optional, placing, elsewhere]
      have e1 : ∀ v, eqText "average" v = true ↔ (v = .str "average" ∨ v = .enum "average") :=
        fun v => eqText_iff
      simp [Dict.get?_cons, HeldAs, Same, e1]
      refine ⟨?_, fun h1 h2 => ?_⟩
      · intro h
        rcases h with h | h <;> simp [h, eqText]
      · rw [if_neg (fun h => ((e1 _).mp h).elim h1 h2)]
    · simp [fixed, wave, Dict.get?_cons]
    · simp only [Dict.keys, List.map_cons, List.map_nil]; decide +kernel
    · simp only [Dict.keys, List.map_cons, List.map_nil]; decide +kernel
  all_goals
    simp only [entry, Except.ok.injEq] at h; subst h; good_tac

end Verif.Ops
