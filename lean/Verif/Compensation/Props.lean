/-
C25: pulse compensation cancels the integral on every compensated port.
-/
import Verif.Compensation.Lemmas
import Mathlib.Tactic.FieldSimp
import Mathlib.Algebra.Order.Field.Basic

set_option linter.unusedSimpArgs false
set_option linter.unusedVariables false

namespace Verif.Compensation

/-! ### Each port once -/

theorem mergeAll_nodup {a b : List (String × SumEnd)} (ha : (Dict.keys a).Nodup)
    (hb : (Dict.keys b).Nodup) : (Dict.keys (mergeAll a b)).Nodup := by
  unfold mergeAll
  have hsub : ∀ (ks : List String) (f : String → Option SumEnd), (Dict.keys (ks.filterMap
      (fun p => (f p).map (fun v => (p, v))))).Sublist ks := by
    intro ks f
    induction ks with
    | nil => exact List.Sublist.refl _
    | cons k ks ih =>
      rw [List.filterMap_cons]
      cases f k with
      | none => exact List.Sublist.cons _ ih
      | some v => exact List.Sublist.cons_cons _ ih
  refine List.Sublist.nodup (hsub _ _) ?_
  rw [List.nodup_append]
  refine ⟨ha, hb.filter _, ?_⟩
  intro x hx y hy
  simp only [List.mem_filter, decide_eq_true_eq] at hy
  rintro rfl
  exact hy.2 hx

theorem loopSums_keys (reps : Nat) (dur : Option Rat) :
    ∀ (b d : List (String × SumEnd)), loopSums reps dur b = .ok d → Dict.keys d = Dict.keys b := by
  intro b
  induction b with
  | nil => intro d h; unfold loopSums at h; rw [← Except.ok.inj h]
  | cons e b ih =>
    intro d h
    obtain ⟨q, se⟩ := e
    unfold loopSums at h
    cases dur with
    | none => simp at h
    | some dd =>
      simp only at h
      cases hr : loopSums reps (some dd) b with
      | error e => rw [hr] at h; cases h
      | ok r =>
        rw [hr] at h
        rw [← Except.ok.inj h]
        have := ih r hr
        unfold Dict.keys at this ⊢
        simp [this]

theorem sumInfos_nodup (rate : Rat) (ports : List String) (off : Rat) (c : Bool) :
    ∀ (infos : List Info) (acc d : List (String × SumEnd)), (Dict.keys acc).Nodup →
    sumInfos rate ports off c infos acc = .ok d → (Dict.keys d).Nodup := by
  intro infos
  induction infos with
  | nil => intro acc d ha h; unfold sumInfos at h; rw [← Except.ok.inj h]; exact ha
  | cons i is ih =>
    intro acc d ha h
    unfold sumInfos at h
    split at h
    · split at h
      · cases h
      · cases hr : areaPulse i rate with
        | error e => rw [hr] at h; cases h
        | ok a =>
          rw [hr] at h
          exact ih _ _ (mergeAll_nodup ha (by simp [Dict.keys])) h
    · exact ih _ _ ha h

mutual
theorem sumEnd_nodup (rate : Rat) (ports : List String) : ∀ (op : Op) (off : Rat) (c : Bool)
    (d : List (String × SumEnd)), sumEnd rate ports op off c = .ok d → (Dict.keys d).Nodup
  | .plain infos acqs, off, c, d, h => by
    unfold sumEnd at h
    split at h
    · cases h
    · exact sumInfos_nodup rate ports off c infos [] d (by simp [Dict.keys]) h
  | .sched items dd, off, c, d, h => by
    unfold sumEnd at h
    exact sumItems_nodup rate ports items off c [] d (by simp [Dict.keys]) h
  | .loop body reps, off, c, d, h => by
    unfold sumEnd at h
    cases hb : sumEnd rate ports body off c with
    | error e => rw [hb] at h; cases h
    | ok b =>
      rw [hb] at h
      change (if reps = 0 then _ else _) = _ at h
      split at h
      · cases h
      · rw [loopSums_keys _ _ _ _ h]
        exact sumEnd_nodup rate ports body off c b hb
  | .cond body buf, off, c, d, h => by
    unfold sumEnd at h
    exact sumEnd_nodup rate ports body off true d h
  | .other body, off, c, d, h => by unfold sumEnd at h; cases h
  | .comp body _ _ _, off, c, d, h => by unfold sumEnd at h; cases h
theorem sumItems_nodup (rate : Rat) (ports : List String) : ∀ (items : Items) (off : Rat) (c : Bool)
    (acc d : List (String × SumEnd)), (Dict.keys acc).Nodup →
    sumItems rate ports items off c acc = .ok d → (Dict.keys d).Nodup
  | .nil, off, c, acc, d, ha, h => by
    unfold sumItems at h
    rw [← Except.ok.inj h]
    exact ha
  | .cons abs op rest, off, c, acc, d, ha, h => by
    unfold sumItems at h
    cases abs with
    | none => simp at h
    | some a =>
      simp only at h
      cases hn : sumEnd rate ports op (off + a) c with
      | error e => rw [hn] at h; cases h
      | ok n =>
        rw [hn] at h
        exact sumItems_nodup rate ports rest off c _ d
          (mergeAll_nodup ha (sumEnd_nodup rate ports op _ c n hn)) h
end

/-! ### The parameters of the compensation pulses -/

theorem compParams_spec (maxAmp : List (String × Rat)) (grid : Rat) :
    ∀ (d : List (String × SumEnd)) (ps : List (String × Params)), (Dict.keys d).Nodup →
    compParams maxAmp grid d = .ok ps →
    (Dict.keys ps).Nodup ∧ (∀ p ∈ Dict.keys ps, p ∈ Dict.keys d) ∧
    ∀ p, Dict.get? ps p = (Dict.get? d p).bind (fun se => (Dict.get? maxAmp p).bind (fun m =>
      if se.sum = 0 then none else some ⟨se.stop, ((|se.sum| / grid / m).ceil : Rat) * grid,
        -se.sum / (((|se.sum| / grid / m).ceil : Rat) * grid)⟩)) := by
  intro d
  induction d with
  | nil =>
    intro ps _ h
    unfold compParams at h
    rw [← Except.ok.inj h]
    exact ⟨by simp [Dict.keys], by simp [Dict.keys], fun p => rfl⟩
  | cons e d ih =>
    intro ps hnd h
    obtain ⟨q, se⟩ := e
    have hnd' : q ∉ Dict.keys d ∧ (Dict.keys d).Nodup := List.nodup_cons.mp hnd
    have hqnone : Dict.get? d q = none := (Dict.get?_eq_none_iff _ _).mpr hnd'.1
    unfold compParams at h
    have skip : ∀ ps, compParams maxAmp grid d = .ok ps →
        ((Dict.get? maxAmp q).bind (fun m =>
      if se.sum = 0 then none else some (⟨se.stop, ((|se.sum| / grid / m).ceil : Rat) * grid,
        -se.sum / (((|se.sum| / grid / m).ceil : Rat) * grid)⟩ : Params))) = none →
        (Dict.keys ps).Nodup ∧ (∀ p ∈ Dict.keys ps, p ∈ Dict.keys ((q, se) :: d)) ∧
        ∀ p, Dict.get? ps p = (Dict.get? ((q, se) :: d) p).bind (fun se => (Dict.get? maxAmp p).bind (fun m =>
      if se.sum = 0 then none else some ⟨se.stop, ((|se.sum| / grid / m).ceil : Rat) * grid,
        -se.sum / (((|se.sum| / grid / m).ceil : Rat) * grid)⟩)) := by
      intro ps hps hz
      obtain ⟨h1, h2, h3⟩ := ih ps hnd'.2 hps
      refine ⟨h1, fun p hp => List.mem_cons_of_mem _ (h2 p hp), ?_⟩
      intro p
      rw [h3 p, Dict.get?_cons]
      by_cases hq : q = p
      · subst hq
        rw [if_pos rfl, hqnone]
        simp only [Option.bind_none, Option.bind_some]
        exact hz.symm
      · rw [if_neg hq]
    cases hm : Dict.get? maxAmp q with
    | none =>
      rw [hm] at h
      exact skip ps h (by rw [hm]; rfl)
    | some m =>
      rw [hm] at h
      simp only at h
      split at h
      · rename_i hz
        exact skip ps h (by rw [hm]; simp [hz])
      · rename_i hz
        split at h
        · cases h
        · split at h
          · cases h
          · cases hr : compParams maxAmp grid d with
            | error e => rw [hr] at h; cases h
            | ok r =>
              rw [hr] at h
              rw [← Except.ok.inj h]
              obtain ⟨h1, h2, h3⟩ := ih r hnd'.2 hr
              refine ⟨?_, ?_, ?_⟩
              · show (q :: Dict.keys r).Nodup
                rw [List.nodup_cons]
                exact ⟨fun hq => hnd'.1 (h2 q hq), h1⟩
              · intro p hp
                rcases List.mem_cons.mp hp with rfl | hp
                · exact List.mem_cons_self
                · exact List.mem_cons_of_mem _ (h2 p hp)
              · intro p
                rw [Dict.get?_cons, Dict.get?_cons]
                by_cases hq : q = p
                · subst hq
                  simp only [if_true, Option.bind_some, hm, if_neg hz]
                · rw [if_neg hq, if_neg hq]; exact h3 p

/-- The integral of the compensation pulses on one port. -/
theorem integral_compItems (p : String) : ∀ (ps : List (String × Params)), (Dict.keys ps).Nodup →
    integral p (playsItems (compItems ps) 0 false) = match Dict.get? ps p with
      | none => 0
      | some q => q.amp * q.dur := by
  intro ps
  induction ps with
  | nil => intro _; simp [compItems, playsItems, integral, onPort, Dict.get?_nil]
  | cons e ps ih =>
    intro hnd
    obtain ⟨r, q⟩ := e
    have hnd' : r ∉ Dict.keys ps ∧ (Dict.keys ps).Nodup := List.nodup_cons.mp hnd
    rw [show compItems ((r, q) :: ps) = .cons (some q.start) (squareOp r q) (compItems ps) from rfl]
    simp only [playsItems]
    rw [integral_append, ih hnd'.2, Dict.get?_cons]
    have hone : integral p (plays (squareOp r q) (0 + (some q.start).getD 0) false) =
        if r = p then q.amp * q.dur else 0 := by
      simp only [squareOp, plays, List.map_cons, List.map_nil, integral, onPort]
      by_cases hr : r = p
      · rw [List.filter_cons_of_pos (by simp [hr]), if_pos hr]
        simp [Info.area]
      · rw [List.filter_cons_of_neg (by simp [hr]), if_neg hr]
        simp
    rw [hone]
    by_cases hr : r = p
    · subst hr
      rw [if_pos rfl, if_pos rfl, (Dict.get?_eq_none_iff _ _).mpr hnd'.1]
      simp
    · rw [if_neg hr, if_neg hr, zero_add]

/-! ### C25 -/

/-- What is assumed of the timing pass: it does not change the operations. -/
structure TimingOk (T : Op → Except Err Op) : Prop where
  same : ∀ op t, T op = .ok t → erase t = erase op

/-- C25: the result of a compensation block is the (processed) body followed by at most one
compensation pulse per port; on each compensated port, the integral of everything the block plays,
loops unrolled, is zero; the amplitude of a compensation pulse is at most the maximum, its duration
a positive multiple of the grid, and it starts exactly when the last pulse of the body on its port
ends. -/
theorem compensated (T : Op → Except Err Op) (hT : TimingOk T) (body r : Op)
    (maxAmp : List (String × Rat)) (grid rate : Rat) (hgrid : 0 < grid)
    (hmax : ∀ p m, Dict.get? maxAmp p = some m → 0 < m)
    (hdur : ∀ b t, process T body = .ok b → timed T b = .ok t → DurOk t)
    (h : process T (.comp body maxAmp grid rate) = .ok r) :
    ∃ b t ps, process T body = .ok b ∧ timed T b = .ok t ∧
      r = .sched (.cons (some 0) b (compItems ps)) none ∧ (Dict.keys ps).Nodup ∧
      (∀ p ∈ Dict.keys maxAmp, integral p (plays r 0 false) = 0) ∧
      (∀ p q, (p, q) ∈ ps → ∃ m, Dict.get? maxAmp p = some m ∧ |q.amp| ≤ m ∧
        (∃ n : Nat, 0 < n ∧ q.dur = n * grid) ∧
        (∃ x ∈ onPort p (plays t 0 false), x.stop = q.start) ∧
        ∀ x ∈ onPort p (plays t 0 false), x.stop ≤ q.start) ∧
      (∀ x ∈ plays t 0 false, x.port ∈ Dict.keys maxAmp →
        x.offset = false ∧ (x.clock = baseband → x.conditional = false)) := by
  unfold process at h
  cases hb : process T body with
  | error e => rw [hb] at h; cases h
  | ok b =>
    rw [hb] at h
    change (do let ps ← compensationPulse T b maxAmp grid rate; _) = _ at h
    cases hp : compensationPulse T b maxAmp grid rate with
    | error e => rw [hp] at h; cases h
    | ok ps =>
      rw [hp] at h
      have hr := (Except.ok.inj h).symm
      unfold compensationPulse at hp
      cases ht : timed T b with
      | error e => rw [ht] at hp; cases hp
      | ok t =>
        rw [ht] at hp
        change (do let s ← sumEnd rate (Dict.keys maxAmp) t 0 false; _) = _ at hp
        cases hs : sumEnd rate (Dict.keys maxAmp) t 0 false with
        | error e => rw [hs] at hp; cases hp
        | ok s =>
          rw [hs] at hp
          change compParams maxAmp grid s = .ok ps at hp
          have hsum := sumEnd_spec rate _ t 0 false s (hdur b t hb ht) hs
          have hnd := sumEnd_nodup rate _ t 0 false s hs
          obtain ⟨hpn, _, hps⟩ := compParams_spec maxAmp grid s ps hnd hp
          have herase : erase t = erase b := by
            cases b with
            | sched items d => exact hT.same _ _ ht
            | _ => unfold timed at ht; rw [← Except.ok.inj ht]
          have key : ∀ p q, Dict.get? ps p = some q → ∃ se m, Dict.get? s p = some se ∧
              Dict.get? maxAmp p = some m ∧ se.sum ≠ 0 ∧
              ∃ n : Nat, 0 < n ∧ |se.sum| ≤ m * (n * grid) ∧
                q = ⟨se.stop, n * grid, -se.sum / (n * grid)⟩ := by
            intro p q hq
            rw [hps p] at hq
            cases hse : Dict.get? s p with
            | none => rw [hse] at hq; simp at hq
            | some se =>
              rw [hse] at hq
              simp only [Option.bind_some] at hq
              cases hm : Dict.get? maxAmp p with
              | none => rw [hm] at hq; simp at hq
              | some m =>
                rw [hm] at hq
                simp only [Option.bind_some] at hq
                split at hq
                · cases hq
                · rename_i hz
                  refine ⟨se, m, rfl, rfl, hz, ?_⟩
                  have hm0 := hmax p m hm
                  have hpos : 0 < |se.sum| / grid / m := by
                    exact div_pos (div_pos (abs_pos.mpr hz) hgrid) hm0
                  have hle : |se.sum| / grid / m ≤ ((|se.sum| / grid / m).ceil : Rat) :=
                    Rat.le_ceil
                  have hc : 0 < (|se.sum| / grid / m).ceil := by
                    have : (0 : Rat) < ((|se.sum| / grid / m).ceil : Rat) := lt_of_lt_of_le hpos hle
                    exact_mod_cast this
                  obtain ⟨n, hn⟩ := Int.eq_ofNat_of_zero_le (le_of_lt hc)
                  have hnr : (((|se.sum| / grid / m).ceil : Int) : Rat) = (n : Rat) := by
                    rw [hn]; simp
                  refine ⟨n, by omega, ?_, ?_⟩
                  · rw [hnr] at hle
                    rw [div_le_iff₀ hm0, div_le_iff₀ hgrid] at hle
                    calc |se.sum| ≤ n * m * grid := hle
                      _ = m * (n * grid) := by ring
                  · rw [hnr] at hq
                    exact (Option.some.inj hq).symm
          refine ⟨b, t, ps, rfl, ht, hr, hpn, ?_, ?_, ?_⟩
          · intro p hp'
            rw [hr]
            simp only [plays, playsItems]
            rw [integral_append, integral_compItems p ps hpn]
            have hbi : integral p (plays b (0 + (some (0 : Rat)).getD 0) false) =
                integral p (plays t 0 false) := by
              rw [integral_erase p b _ 0 false false, integral_erase p t 0 0 false false, herase]
            rw [hbi]
            have hsp := (hsum p).1 hp'
            cases hse : Dict.get? s p with
            | none =>
              rw [hse] at hsp
              simp only at hsp
              rw [hps p, hse]
              simp [integral, hsp]
            | some se =>
              rw [hse] at hsp
              simp only at hsp
              rw [← hsp.1]
              cases hq : Dict.get? ps p with
              | none =>
                simp only
                rw [hps p, hse] at hq
                obtain ⟨m, hm⟩ := Option.isSome_iff_exists.mp ((Dict.get?_isSome_iff _ _).mpr hp')
                rw [hm] at hq
                simp only [Option.bind_some] at hq
                split at hq
                · rename_i hz; rw [hz]; simp
                · cases hq
              | some q =>
                obtain ⟨se', m, k1, k2, k3, n, k4, k5, k6⟩ := key p q hq
                rw [hse] at k1
                have := Option.some.inj k1
                subst this
                subst k6
                simp only
                have : (n : Rat) * grid ≠ 0 := by positivity
                field_simp
                ring
          · intro p q hm
            obtain ⟨se, m, k1, k2, k3, n, k4, k5, k6⟩ := key p q (Dict.get?_of_mem hpn hm)
            have hpk : p ∈ Dict.keys maxAmp := (Dict.get?_isSome_iff _ _).mp (by rw [k2]; rfl)
            have hsp := (hsum p).1 hpk
            rw [k1] at hsp
            simp only at hsp
            refine ⟨m, k2, ?_, ⟨n, k4, by rw [k6]⟩, ?_, ?_⟩
            · rw [k6]
              simp only
              have hpos : (0 : Rat) < n * grid := by positivity
              rw [abs_div, abs_neg, abs_of_pos hpos, div_le_iff₀ hpos]
              exact k5
            · rw [k6]; exact hsp.2.1
            · rw [k6]; exact hsp.2.2
          · exact sumEnd_plain rate _ t 0 0 false s hs

/-- No compensation block is left after the pass, so a second pass changes nothing. -/
theorem process_idempotent (T : Op → Except Err Op) (op r : Op) (h : process T op = .ok r) :
    NoComp r ∧ process T r = .ok r :=
  ⟨process_noComp T op r h, process_id T r (process_noComp T op r h)⟩

/-- Operations without compensation blocks are not changed. -/
theorem process_unchanged (T : Op → Except Err Op) (op : Op) (h : NoComp op) :
    process T op = .ok op := process_id T op h

/-! ### Acceptance -/

/-- The area of a pulse is defined. -/
def Wf.Ok : Wf → Prop
  | .square _ => True
  | .sampled s => s ≠ []
  | .none => False

mutual
/-- What the pass accepts in a compensation block: timed schedules, loops that run, no voltage
offsets and no conditional pulses on the compensated ports. -/
def Acceptable (ports : List String) : Op → Bool → Prop
  | .plain infos acqs, c => offsetOn ports infos acqs = false ∧
      ∀ i ∈ infos, i.port ∈ ports → i.clock = baseband → c = false ∧ i.wf.Ok
  | .sched items _, c => AcceptableItems ports items c
  | .loop body reps, c => Acceptable ports body c ∧ reps ≠ 0 ∧ body.duration.isSome
  | .cond body _, _ => Acceptable ports body true
  | .other _, _ => False
  | .comp _ _ _ _, _ => False
def AcceptableItems (ports : List String) : Items → Bool → Prop
  | .nil, _ => True
  | .cons abs op rest, c => abs.isSome ∧ Acceptable ports op c ∧ AcceptableItems ports rest c
end

theorem sumInfos_ok (rate : Rat) (hrate : 0 < rate) (ports : List String) (off : Rat) (c : Bool) :
    ∀ (infos : List Info) (acc : List (String × SumEnd)),
    (∀ i ∈ infos, i.port ∈ ports → i.clock = baseband → c = false ∧ i.wf.Ok) →
    ∃ d, sumInfos rate ports off c infos acc = .ok d := by
  intro infos
  induction infos with
  | nil => intro acc _; exact ⟨acc, rfl⟩
  | cons i is ih =>
    intro acc h
    unfold sumInfos
    split
    · rename_i hi
      obtain ⟨h1, h2⟩ := h i List.mem_cons_self hi.1 hi.2
      rw [h1]
      simp only [Bool.false_eq_true, if_false]
      have : ∃ a, areaPulse i rate = .ok a := by
        unfold areaPulse
        rw [if_neg (not_not.mpr hrate)]
        revert h2
        cases i.wf with
        | square a => intro _; exact ⟨_, rfl⟩
        | sampled s =>
          intro h2
          simp only
          rw [if_neg (by simpa [Wf.Ok] using h2)]
          exact ⟨_, rfl⟩
        | none => intro h2; exact absurd h2 (by simp [Wf.Ok])
      obtain ⟨a, ha⟩ := this
      rw [ha]
      have := ih (mergeAll acc [(i.port, ⟨a, off + i.t0 + i.dur⟩)])
        (fun j hj => h j (List.mem_cons_of_mem _ hj))
      rw [h1] at this
      exact this
    · exact ih acc (fun j hj => h j (List.mem_cons_of_mem _ hj))

theorem loopSums_ok (reps : Nat) (d : Rat) : ∀ b, ∃ r, loopSums reps (some d) b = .ok r := by
  intro b
  induction b with
  | nil => exact ⟨_, rfl⟩
  | cons e b ih =>
    obtain ⟨q, se⟩ := e
    obtain ⟨r, hr⟩ := ih
    unfold loopSums
    simp only [hr]
    exact ⟨_, rfl⟩

mutual
theorem sumEnd_ok (rate : Rat) (hrate : 0 < rate) (ports : List String) :
    ∀ (op : Op) (off : Rat) (c : Bool), Acceptable ports op c →
    ∃ d, sumEnd rate ports op off c = .ok d
  | .plain infos acqs, off, c, h => by
    simp only [Acceptable] at h
    unfold sumEnd
    rw [h.1]
    exact sumInfos_ok rate hrate ports off c infos [] h.2
  | .sched items d, off, c, h => by
    simp only [Acceptable] at h
    unfold sumEnd
    exact sumItems_ok rate hrate ports items off c [] h
  | .loop body reps, off, c, h => by
    simp only [Acceptable] at h
    unfold sumEnd
    obtain ⟨b, hb⟩ := sumEnd_ok rate hrate ports body off c h.1
    rw [hb]
    obtain ⟨d, hd⟩ := Option.isSome_iff_exists.mp h.2.2
    change ∃ d, (if reps = 0 then _ else _) = _
    rw [if_neg h.2.1, hd]
    exact loopSums_ok reps d b
  | .cond body _, off, c, h => by
    simp only [Acceptable] at h
    unfold sumEnd
    exact sumEnd_ok rate hrate ports body off true h
  | .other body, off, c, h => by simp only [Acceptable] at h
  | .comp body _ _ _, off, c, h => by simp only [Acceptable] at h
theorem sumItems_ok (rate : Rat) (hrate : 0 < rate) (ports : List String) :
    ∀ (items : Items) (off : Rat) (c : Bool) (acc : List (String × SumEnd)),
    AcceptableItems ports items c → ∃ d, sumItems rate ports items off c acc = .ok d
  | .nil, off, c, acc, h => ⟨acc, by unfold sumItems; rfl⟩
  | .cons abs op rest, off, c, acc, h => by
    simp only [AcceptableItems] at h
    obtain ⟨a, ha⟩ := Option.isSome_iff_exists.mp h.1
    unfold sumItems
    rw [ha]
    obtain ⟨n, hn⟩ := sumEnd_ok rate hrate ports op (off + a) c h.2.1
    simp only [hn]
    exact sumItems_ok rate hrate ports rest off c _ h.2.2
end

theorem compParams_ok (maxAmp : List (String × Rat)) (grid : Rat) (hgrid : 0 < grid)
    (hmax : ∀ p m, Dict.get? maxAmp p = some m → 0 < m) :
    ∀ (d : List (String × SumEnd)), ∃ ps, compParams maxAmp grid d = .ok ps := by
  intro d
  induction d with
  | nil => exact ⟨_, rfl⟩
  | cons e d ih =>
    obtain ⟨q, se⟩ := e
    obtain ⟨ps, hps⟩ := ih
    unfold compParams
    cases hm : Dict.get? maxAmp q with
    | none => exact ⟨ps, hps⟩
    | some m =>
      have hm0 := hmax q m hm
      simp only
      split
      · exact ⟨ps, hps⟩
      · rename_i hz
        rw [if_neg (by rintro (h | h) <;> [exact hgrid.ne' h; exact hm0.ne' h])]
        have hpos : 0 < |se.sum| / grid / m := div_pos (div_pos (abs_pos.mpr hz) hgrid) hm0
        have hc : (0 : Rat) < ((|se.sum| / grid / m).ceil : Rat) := lt_of_lt_of_le hpos Rat.le_ceil
        rw [if_neg (mul_pos hc hgrid).ne', hps]
        exact ⟨_, rfl⟩

/-- A block whose (processed and timed) body is acceptable is compensated. -/
theorem accepted (T : Op → Except Err Op) (body b t : Op) (maxAmp : List (String × Rat))
    (grid rate : Rat) (hgrid : 0 < grid) (hrate : 0 < rate)
    (hmax : ∀ p m, Dict.get? maxAmp p = some m → 0 < m)
    (hb : process T body = .ok b) (ht : timed T b = .ok t)
    (ha : Acceptable (Dict.keys maxAmp) t false) :
    ∃ r, process T (.comp body maxAmp grid rate) = .ok r := by
  obtain ⟨s, hs⟩ := sumEnd_ok rate hrate _ t 0 false ha
  obtain ⟨ps, hps⟩ := compParams_ok maxAmp grid hgrid hmax s
  unfold process
  rw [hb]
  have : compensationPulse T b maxAmp grid rate = .ok ps := by
    unfold compensationPulse
    rw [ht]
    change (do let s ← sumEnd rate (Dict.keys maxAmp) t 0 false; _) = _
    rw [hs]
    exact hps
  refine ⟨.sched (.cons (some 0) b (compItems ps)) none, ?_⟩
  show (do let ps ← compensationPulse T b maxAmp grid rate
           Except.ok (Op.sched (Items.cons (some 0) b (compItems ps)) none)) = _
  rw [this]
  rfl

/-! ### A concrete case -/

/-- A square pulse. -/
def sq (p : String) (amp dur : Rat) : Op := .plain [⟨p, baseband, 0, dur, .square amp, false⟩] []

/-- Three repetitions of a pulse on `a`, then one on `b` and one more on `a`. -/
def exBody : Op :=
  .sched (.cons (some 0) (.loop (sq "a" (1/2) 20) 3) (.cons (some 60) (sq "b" (-1/4) 8)
    (.cons (some 60) (sq "a" (-1/10) 10) .nil))) (some 70)

/-- The timing pass on schedules that are timed. -/
def exT : Op → Except Err Op := fun op => .ok op

example : TimingOk exT ∧ (0 : Rat) < 4 ∧
    (∀ p m, Dict.get? [("a", (1/3 : Rat)), ("b", 1)] p = some m → 0 < m) ∧
    (∀ b t, process exT exBody = .ok b → timed exT b = .ok t → DurOk t) ∧
    Acceptable ["a", "b"] exBody false ∧
    (process exT (.comp exBody [("a", 1/3), ("b", 1)] 4 1)).toOption.isSome := by
  have hnc : NoComp exBody := by simp [exBody, NoComp, NoCompItems, sq]
  refine ⟨⟨fun op t h => ?_⟩, by norm_num, ?_, ?_, ?_, ?_⟩
  · rw [← Except.ok.inj h]
  · intro p m h
    rw [Dict.get?_cons, Dict.get?_cons, Dict.get?_nil] at h
    split at h
    · rw [← Option.some.inj h]; norm_num
    · split at h
      · rw [← Option.some.inj h]; norm_num
      · cases h
  · intro b t hb ht
    rw [process_id exT exBody hnc] at hb
    rw [← Except.ok.inj hb] at ht
    have : exBody = t := Except.ok.inj ht
    rw [← this]
    simp [exBody, DurOk, DurOkItems, sq, Op.duration, maxDefault]
  · simp [exBody, Acceptable, AcceptableItems, sq, offsetOn, Wf.Ok, Op.duration]
  · decide +kernel

/-! ### Where the claim does not reach -/

/-- Finding: if the body of the block is a loop over a schedule (not itself a schedule), its times
are not determined before the sums are, and the pass fails with a `KeyError`. -/
theorem loop_over_schedule_fails (T : Op → Except Err Op) (infos : List Info)
    (acqs : List (String × Rat)) (d : Option Rat) (reps : Nat) (maxAmp : List (String × Rat))
    (grid rate : Rat) :
    process T (.comp (.loop (.sched (.cons none (.plain infos acqs) .nil) d) reps) maxAmp grid rate) =
      .error .keyError := by
  have : process T (.loop (.sched (.cons none (.plain infos acqs) .nil) d) reps) =
      .ok (.loop (.sched (.cons none (.plain infos acqs) .nil) d) reps) := by
    apply process_id
    simp [NoComp, NoCompItems]
  unfold process
  rw [this]
  rfl

/-- Finding: pulses on a compensated port with another clock than the baseband clock are neither
counted nor refused. -/
theorem other_clock_not_counted (amp dur : Rat) (rate : Rat) (c : Bool) :
    sumEnd rate ["a"] (.plain [⟨"a", "q0.01", 0, dur, .square amp, false⟩] []) 0 c = .ok [] := rfl

/-- Finding: a negative maximum is not refused and gives a pulse of negative duration. -/
theorem negative_maximum :
    compParams [("a", -1)] 4 [("a", ⟨10, 20⟩)] = .ok [("a", ⟨20, -8, 5/4⟩)] := by decide +kernel

/-- A conditional pulse on a compensated port is refused. -/
theorem conditional_refused (rate amp dur off buf : Rat) (p : String) (c : Bool) :
    sumEnd rate [p] (.cond (sq p amp dur) buf) off c = .error .valueError := by
  simp [sumEnd, sq, offsetOn, sumInfos, baseband]

end Verif.Compensation
