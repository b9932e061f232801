/-
C80: the samples of a trace.
-/
import Verif.MockRom.Claims

set_option linter.unusedSimpArgs false
set_option linter.unusedVariables false
set_option linter.unusedSectionVars false

namespace Verif.MockRom

open Verif.AcqIndices (Info Coord Coords Data Idx BinMode)

variable {Ch U K : Type} [DecidableEq Ch]

theorem set_other {A V : Type} [DecidableEq A] {k1 k2 k : A} {v1 v2 v : V} {r : List (A × V)}
    (h1 : k ≠ k1) (h2 : k ≠ k2) :
    ∃ r', Dict.set ((k1, v1) :: (k2, v2) :: r) k v = (k1, v1) :: (k2, v2) :: r' := by
  unfold Dict.set
  split
  · refine ⟨r.map (fun e => if (e.1 == k) = true then (k, v) else e), ?_⟩
    rw [List.map_cons, List.map_cons, if_neg (by simpa using Ne.symm h1), if_neg (by simpa using Ne.symm h2)]
  · exact ⟨_, rfl⟩

theorem set_first {A V : Type} [DecidableEq A] {k1 k2 : A} {v1 v2 : V} {r : List (A × V)} (h : k1 ≠ k2) :
    ∃ r', Dict.set ((k1, v1) :: (k2, v2) :: r) k1 v1 = (k1, v1) :: (k2, v2) :: r' := by
  unfold Dict.set
  rw [if_pos (by simp)]
  refine ⟨r.map (fun e => if (e.1 == k1) = true then (k1, v1) else e), ?_⟩
  rw [List.map_cons, List.map_cons, if_pos (by simp), if_neg (by simpa using Ne.symm h)]

theorem set_second {A V : Type} [DecidableEq A] {k1 k2 : A} {v1 v2 : V} {r : List (A × V)} (h : k1 ≠ k2) :
    ∃ r', Dict.set ((k1, v1) :: (k2, v2) :: r) k2 v2 = (k1, v1) :: (k2, v2) :: r' := by
  unfold Dict.set
  rw [if_pos (by simp)]
  refine ⟨r.map (fun e => if (e.1 == k2) = true then (k2, v2) else e), ?_⟩
  rw [List.map_cons, List.map_cons, if_neg (by simpa using h), if_pos (by simp)]

/-- Without waveforms, none are stored. -/
theorem no_waves [DecidableEq K] {cfg : Config K} {rate : Rat} {index : List ((AcqIndices.Label × Nat) × Idx)} :
    ∀ (P : List (Item Ch U K)) (s s' : CS Ch K), s.waves = [] →
    (∀ x ∈ P, ∀ h' p', Plays x h' p' → p'.wf = none) → P.foldlM (step cfg rate index) s = .ok s' →
    s'.waves = [] := by
  intro P
  induction P with
  | nil => intro s s' h0 _ h; rw [FoldM.nil] at h; cases h; exact h0
  | cons x P ih =>
    intro s s' h0 hP h
    obtain ⟨s1, h1, h2⟩ := (FoldM.ok_cons ..).mp h
    refine ih s1 s' ?_ (fun y hy => hP y (List.mem_cons_of_mem _ hy)) h2
    rcases step_cases h1 with ⟨hash, p, hp, hs⟩ | ⟨b, _, _, _, _, _, rfl⟩ | ⟨a, _, _, _, _, _, rfl⟩
    · rcases (stepPulse_cases hs).2 with ⟨_, rfl⟩ | ⟨f, fr, freq, hf, _⟩
      · exact h0
      · rw [hP x (List.mem_cons_self ..) hash p hp] at hf; cases hf
    · exact h0
    · exact h0

/-- The first two waveforms stay. -/
theorem first_waves [DecidableEq K] {cfg : Config K} {rate : Rat} {index : List ((AcqIndices.Label × Nat) × Idx)}
    {hash : String} {p : Pulse K} {f : Rat → Rat → K × K} {fr : List (String × Option Rat)} {freq : Rat}
    (hf : p.wf = some f) (hfr : cfg.freqs = some fr)
    (hfreq : Dict.get? fr (p.port ++ "-" ++ p.clock) = some (some freq)) :
    ∀ (S : List (Item Ch U K)) (s s' : CS Ch K),
    (∃ r, s.waves = ((hash, false), ((grid p.dur rate).map (f freq)).map Prod.fst) ::
      ((hash, true), ((grid p.dur rate).map (f freq)).map Prod.snd) :: r) →
    (∀ x ∈ S, ∀ p', Plays x hash p' → p' = p) → S.foldlM (step cfg rate index) s = .ok s' →
    ∃ r, s'.waves = ((hash, false), ((grid p.dur rate).map (f freq)).map Prod.fst) ::
      ((hash, true), ((grid p.dur rate).map (f freq)).map Prod.snd) :: r := by
  intro S
  induction S with
  | nil => intro s s' h0 _ h; rw [FoldM.nil] at h; cases h; exact h0
  | cons x S ih =>
    intro s s' h0 hS h
    obtain ⟨s1, h1, h2⟩ := (FoldM.ok_cons ..).mp h
    refine ih s1 s' ?_ (fun y hy => hS y (List.mem_cons_of_mem _ hy)) h2
    rcases step_cases h1 with ⟨hash', p', hp, hs⟩ | ⟨b, _, _, _, _, _, rfl⟩ | ⟨a, _, _, _, _, _, rfl⟩
    · obtain ⟨r, h0⟩ := h0
      rcases (stepPulse_cases hs).2 with ⟨_, rfl⟩ | ⟨f', fr', freq', hf', hfr', hfreq', rfl⟩
      · exact ⟨r, h0⟩
      · by_cases hh : hash' = hash
        · subst hh
          have := hS x (List.mem_cons_self ..) p' hp
          subst this
          rw [hf] at hf'; cases hf'
          rw [hfr] at hfr'; cases hfr'
          rw [hfreq] at hfreq'; cases hfreq'
          show ∃ r, Dict.set (Dict.set s.waves _ _) _ _ = _
          rw [h0]
          obtain ⟨r1, e1⟩ := set_first (k1 := (hash', false)) (k2 := (hash', true))
            (v1 := ((grid p'.dur rate).map (f freq)).map Prod.fst)
            (v2 := ((grid p'.dur rate).map (f freq)).map Prod.snd) (r := r) (by simp)
          rw [e1]
          exact set_second (by simp)
        · show ∃ r, Dict.set (Dict.set s.waves _ _) _ _ = _
          rw [h0]
          obtain ⟨r1, e1⟩ := set_other (k1 := (hash, false)) (k2 := (hash, true)) (k := (hash', false))
            (v1 := ((grid p.dur rate).map (f freq)).map Prod.fst)
            (v2 := ((grid p.dur rate).map (f freq)).map Prod.snd)
            (v := ((grid p'.dur rate).map (f' freq')).map Prod.fst) (r := r) (by simp [hh]) (by simp [hh])
          rw [e1]
          exact set_other (by simp [hh]) (by simp [hh])
    · exact h0
    · exact h0

/-- Sampling a waveform given at a multiple of the sampling rate. -/
theorem resample_grid {n : Nat} (hn : 1 ≤ n) (dur : Rat) (F : Rat → K) {r : List K}
    (h : resample (n : Int) ((grid dur (n * 10 ^ 9)).map F) = .ok r) :
    ∃ m : Nat, (∀ k : Nat, k < m ↔ (k : Rat) / 10 ^ 9 < dur) ∧
      r = (List.range m).map (fun k : Nat => F ((k : Rat) / 10 ^ 9)) := by
  unfold resample at h
  rw [if_neg (by omega), if_neg (by omega), Int.toNat_natCast] at h
  have hn0 : (n : Rat) ≠ 0 := by
    have : n ≠ 0 := by omega
    exact_mod_cast this
  have hnp : (0 : Rat) < n := by exact_mod_cast hn
  set L := ⌈dur * (n * 10 ^ 9)⌉.toNat with hL
  have hlen : ((grid dur (n * 10 ^ 9)).map F).length = L := by simp [grid, hL]
  rw [hlen] at h
  have hkm : ∀ k : Nat, k < (L + (n - 1)) / n ↔ k * n < L := by
    intro k
    rw [Nat.lt_iff_add_one_le, Nat.le_div_iff_mul_le (by omega), Nat.add_mul, Nat.one_mul]
    generalize k * n = q
    omega
  refine ⟨(L + (n - 1)) / n, ?_, ?_⟩
  · intro k
    rw [hkm, hL, Int.lt_toNat, Int.lt_ceil]
    push_cast
    rw [div_lt_iff₀ (by norm_num : (0 : Rat) < 10 ^ 9)]
    constructor
    · intro hlt
      have : (k : Rat) * n < dur * 10 ^ 9 * n := by linarith
      exact lt_of_mul_lt_mul_right this hnp.le
    · intro hlt
      have := mul_lt_mul_of_pos_right hlt hnp
      linarith
  · rw [← Except.ok.inj h]
    have hmap : (List.range ((L + (n - 1)) / n)).map (fun k : Nat => F ((k : Rat) / 10 ^ 9)) =
        (List.range ((L + (n - 1)) / n)).filterMap (fun k : Nat => some (F ((k : Rat) / 10 ^ 9))) := by
      rw [← List.filterMap_eq_map]; rfl
    rw [hmap]
    apply List.filterMap_congr
    intro k hk
    have hk' := (hkm k).mp (List.mem_range.mp hk)
    have e : ((grid dur (n * 10 ^ 9)).map F)[k * n]? =
        some (F (((k * n : Nat) : Rat) / (n * 10 ^ 9))) := by
      simp [grid, ← hL, hk']
    rw [e]
    congr 2
    push_cast
    rw [mul_comm (k : Rat) n, mul_div_mul_left _ _ hn0]

theorem stride_of {n : Nat} : stride ((n : Rat) * 10 ^ 9) = n := by
  unfold stride
  rw [if_pos (by positivity), mul_div_cancel_right₀ _ (by norm_num)]
  exact Int.floor_natCast n

/-- **C80, traces.** Where the sampling rate is a whole number of samples per nanosecond, every trace of a schedule
holds one sample per nanosecond for the duration of the first pulse with a waveform: this pulse on its carrier,
at k ns, times the gain of the readout.  It is available for the channels of the `Trace` operations and no others.
Missing from the full statement, which the code does not meet: other sampling rates (`wrong_time_axis`, `slow_rate`),
the later pulses (`second_pulse_lost`) and the user's coordinates (`trace_coords_lost`). -/
theorem trace_samples_partial [DecidableEq K] [One K] [Mul K] {cfg : Config K} {items P S : List (Item Ch U K)}
    {i : Item Ch U K} {s : Settings Ch U K} {c : Comp Ch U K} {draws : Nat → K} {ds : DS Ch U K}
    {hash : String} {p : Pulse K} {f : Rat → Rat → K × K} {n : Nat}
    (hp : PlainPorts cfg) (hs : compile cfg items = .ok s) (h : measure c s draws = .ok ds)
    (hitems : items = P ++ i :: S) (hP : ∀ x ∈ P, ∀ h' p', Plays x h' p' → p'.wf = none)
    (hi : Plays i hash p) (hf : p.wf = some f) (hS : ∀ x ∈ S, ∀ p', Plays x hash p' → p' = p)
    (hn : 1 ≤ n) (hrate : cfg.rate = some ((n : Rat) * 10 ^ 9)) :
    (∀ ch, ch ∈ Dict.keys ds.traces ↔ ∃ i ∈ items, ∃ b, Traces i b ∧ b.info.ch = ch) ∧
    ∃ freqs freq gain, cfg.freqs = some freqs ∧
      Dict.get? freqs (p.port ++ "-" ++ p.clock) = some (some freq) ∧
      (cfg.gain = none → gain = 1) ∧
      (∀ g, cfg.gain = some g → ∀ x ∈ items, ∀ b, Traces x b →
        Dict.get? g (b.port ++ "-" ++ b.clock) = some gain) ∧
      ∀ ch t u, Dict.get? ds.traces ch = some (t, u) →
        (∀ k : Nat, k < t.length ↔ (k : Rat) / 10 ^ 9 < p.dur) ∧
        ∀ k : Nat, k < t.length → t[k]? =
          some ((f freq ((k : Rat) / 10 ^ 9)).1 * gain, (f freq ((k : Rat) / 10 ^ 9)).2 * gain) := by
  obtain ⟨st, cs, hst, h2, h3, h4⟩ := compile_ok hs
  rw [hrate] at h2
  have hr : s.rate = (n : Rat) * 10 ^ 9 := (Option.some.inj h2).symm
  obtain ⟨ps, hps, hne, hpp⟩ := readoutPorts_plain hp
  have hci := cinv_loop hps hne items [] _ cs (cinv_init cfg ps st.map) h3
  rw [List.nil_append] at hci
  obtain ⟨j, -, -, -, m1, m2⟩ := measured hp hst hs h
  refine ⟨m1, ?_⟩
  rw [hr] at h3
  -- the waveforms
  have hfold : ∃ s1 s2, P.foldlM (step cfg ((n : Rat) * 10 ^ 9) st.map) ⟨[], [], 0, [], [], none⟩ = .ok s1 ∧
      step cfg ((n : Rat) * 10 ^ 9) st.map s1 i = .ok s2 ∧
      S.foldlM (step cfg ((n : Rat) * 10 ^ 9) st.map) s2 = .ok cs := by
    rw [hitems, List.foldlM_append] at h3
    cases h5 : P.foldlM (step cfg ((n : Rat) * 10 ^ 9) st.map) ⟨[], [], 0, [], [], none⟩ with
    | error e => rw [h5] at h3; cases h3
    | ok s1 =>
      rw [h5] at h3
      obtain ⟨s2, h6, h7⟩ := (FoldM.ok_cons ..).mp h3
      exact ⟨s1, s2, rfl, h6, h7⟩
  obtain ⟨s1, s2, f1, f2, f3⟩ := hfold
  have hw1 := no_waves P _ s1 rfl hP f1
  have hs2 : ∃ fr freq, cfg.freqs = some fr ∧ Dict.get? fr (p.port ++ "-" ++ p.clock) = some (some freq) ∧
      ∃ r, s2.waves = ((hash, false), ((grid p.dur ((n : Rat) * 10 ^ 9)).map (f freq)).map Prod.fst) ::
        ((hash, true), ((grid p.dur ((n : Rat) * 10 ^ 9)).map (f freq)).map Prod.snd) :: r := by
    rcases step_cases f2 with ⟨hash', p', hp', hs'⟩ | ⟨b, _, _, hb, _⟩ | ⟨a, _, _, ha, _⟩
    · have hsame : hash' = hash ∧ p' = p := by
        obtain ⟨o, r, q1, q2, q3⟩ := hp'
        obtain ⟨o', r', q1', q2', q3'⟩ := hi
        rw [q1] at q1'; cases q1'
        rw [q3] at q3'; cases q3'
        exact ⟨q2.symm.trans q2', rfl⟩
      obtain ⟨rfl, rfl⟩ := hsame
      rcases (stepPulse_cases hs').2 with ⟨hno, _⟩ | ⟨f', fr, freq, q1, q2, q3, rfl⟩
      · rw [hf] at hno; cases hno
      · rw [hf] at q1; cases q1
        refine ⟨fr, freq, q2, q3, [], ?_⟩
        show Dict.set (Dict.set s1.waves _ _) _ _ = _
        rw [hw1]
        simp [Dict.set]
    · exact (not_plays_traces hi hb).elim
    · exact (not_plays_measures hi ha).elim
  obtain ⟨fr, freq, g1, g2, g3⟩ := hs2
  obtain ⟨r, hwaves⟩ := first_waves hf g1 g2 S s2 cs g3 hS f3
  have hsw : s.waves = cs.waves := by rw [h4]
  have hsg : s.gain = cs.gain.getD 1 := by rw [h4]
  refine ⟨fr, freq, s.gain, g1, g2, ?_, ?_, ?_⟩
  · intro h0
    rw [hsg, hci.gnone h0]; rfl
  · intro g hg x hx b hb
    obtain ⟨e1, e2⟩ := hci.gsome g hg x hx b hb
    obtain ⟨v, hv⟩ := Option.isSome_iff_exists.mp e1
    rw [e2, hsg, hv]; rfl
  · intro ch t u ht
    obtain ⟨-, x, y, rest, e1, rfl⟩ := m2 ch t u ht
    rw [hr, stride_of, hsw, hwaves] at e1
    simp only [List.map_cons, traceWaves] at e1
    split at e1
    · cases e1
    rename_i rx hrx
    split at e1
    · cases e1
    rename_i rs hrs
    split at hrs
    · cases hrs
    rename_i ry hry
    split at hrs
    · cases hrs
    rename_i rs' _
    have hx1 := Except.ok.inj e1
    have hrs1 := Except.ok.inj hrs
    rw [← hrs1] at hx1
    simp only [List.cons.injEq] at hx1
    obtain ⟨rfl, rfl, -⟩ := hx1
    rw [List.map_map] at hrx hry
    obtain ⟨mx, a1, a2⟩ := resample_grid hn p.dur _ hrx
    obtain ⟨my, b1, b2⟩ := resample_grid hn p.dur _ hry
    have hmm : mx = my := by
      rcases Nat.lt_trichotomy mx my with hlt | heq | hlt
      · have := (a1 mx).mpr ((b1 mx).mp hlt); omega
      · exact heq
      · have := (b1 my).mpr ((a1 my).mp hlt); omega
    subst hmm
    rw [a2, b2]
    have hl : (((List.range mx).map (fun k : Nat => (Prod.fst ∘ f freq) ((k : Rat) / 10 ^ 9))).map (· * s.gain)
        |>.zip (((List.range mx).map (fun k : Nat => (Prod.snd ∘ f freq) ((k : Rat) / 10 ^ 9))).map
          (· * s.gain))).length = mx := by simp
    constructor
    · intro k
      rw [hl]; exact a1 k
    · intro k hk
      rw [hl] at hk
      simp [List.getElem?_zip_eq_some, hk, List.getElem?_range]

end Verif.MockRom
