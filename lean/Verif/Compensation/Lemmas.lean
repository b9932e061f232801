import Verif.Compensation.Spec
import Mathlib.Tactic.Ring
import Mathlib.Tactic.Linarith
import Mathlib.Algebra.BigOperators.Group.List.Basic

set_option linter.unusedSimpArgs false
set_option linter.unusedVariables false

namespace Verif.Compensation

theorem get?_filterMap (ks : List String) (f : String → Option SumEnd) (p : String) :
    Dict.get? (ks.filterMap (fun k => (f k).map (fun v => (k, v)))) p = if p ∈ ks then f p else none := by
  induction ks with
  | nil => rfl
  | cons k ks ih =>
    rw [List.filterMap_cons]
    cases hk : f k with
    | none =>
      simp only [Option.map_none]
      rw [ih]
      by_cases h : p = k
      · subst h; simp [hk]
      · simp [h]
    | some v =>
      simp only [Option.map_some]
      rw [Dict.get?_cons, ih]
      by_cases h : k = p
      · subst h; simp [hk]
      · simp [h, Ne.symm h]

theorem get?_mergeAll (a b : List (String × SumEnd)) (p : String) :
    Dict.get? (mergeAll a b) p = mergeAt a b p := by
  unfold mergeAll
  rw [get?_filterMap]
  split
  · rfl
  · rename_i h
    simp only [List.mem_append, List.mem_filter, decide_eq_true_eq, not_or, not_and, not_not] at h
    obtain ⟨h1, h2⟩ := h
    have h3 : p ∉ Dict.keys b := fun hb => h1 (h2 hb)
    rw [← Dict.get?_eq_none_iff] at h1 h3
    unfold mergeAt
    rw [h1, h3]

/-- `d` has the sums and ends of the pulses `l` on the ports. -/
def Summary (ports : List String) (d : List (String × SumEnd)) (l : List Played) : Prop :=
  ∀ p, (p ∈ ports → match Dict.get? d p with
    | none => onPort p l = []
    | some se => se.sum = integral p l ∧ (∃ x ∈ onPort p l, x.stop = se.stop) ∧
        ∀ x ∈ onPort p l, x.stop ≤ se.stop) ∧
    (p ∉ ports → Dict.get? d p = none)

theorem onPort_append (p : String) (l m : List Played) :
    onPort p (l ++ m) = onPort p l ++ onPort p m := by
  unfold onPort; rw [List.filter_append]

theorem integral_append (p : String) (l m : List Played) :
    integral p (l ++ m) = integral p l + integral p m := by
  unfold integral; rw [onPort_append, List.map_append, List.sum_append]

theorem summary_nil (ports : List String) : Summary ports [] [] := by
  intro p
  refine ⟨fun _ => ?_, fun _ => rfl⟩
  rw [Dict.get?_nil]; rfl

theorem summary_merge {ports : List String} {a b : List (String × SumEnd)} {l m : List Played}
    (ha : Summary ports a l) (hb : Summary ports b m) : Summary ports (mergeAll a b) (l ++ m) := by
  intro p
  rw [get?_mergeAll]
  unfold mergeAt
  obtain ⟨ha1, ha2⟩ := ha p
  obtain ⟨hb1, hb2⟩ := hb p
  refine ⟨fun hp => ?_, fun hp => ?_⟩
  · have h1 := ha1 hp
    have h2 := hb1 hp
    clear ha1 ha2 hb1 hb2
    cases ga : Dict.get? a p with
    | none =>
      rw [ga] at h1
      simp only at h1
      cases gb : Dict.get? b p with
      | none =>
        rw [gb] at h2
        simp only at h2 ⊢
        rw [onPort_append, h1, h2]; rfl
      | some y =>
        rw [gb] at h2
        simp only at h2 ⊢
        have hi : integral p l = 0 := by unfold integral; rw [h1]; rfl
        rw [onPort_append, h1, integral_append, hi, zero_add]
        simpa using h2
    | some x =>
      rw [ga] at h1
      simp only at h1
      obtain ⟨s1, ⟨x1, x2, x3⟩, e1⟩ := h1
      cases gb : Dict.get? b p with
      | none =>
        rw [gb] at h2
        simp only at h2 ⊢
        have hi : integral p m = 0 := by unfold integral; rw [h2]; rfl
        rw [onPort_append, h2, integral_append, hi, add_zero, List.append_nil]
        exact ⟨s1, ⟨x1, x2, x3⟩, e1⟩
      | some y =>
        rw [gb] at h2
        simp only at h2 ⊢
        obtain ⟨s2, ⟨y1, y2, y3⟩, e2⟩ := h2
        unfold SumEnd.merge
        rw [onPort_append, integral_append]
        refine ⟨by simp only [s1, s2], ?_, ?_⟩
        · rcases le_total x.stop y.stop with h | h
          · refine ⟨y1, List.mem_append_right _ y2, ?_⟩
            simp only [max_eq_right h, y3]
          · refine ⟨x1, List.mem_append_left _ x2, ?_⟩
            simp only [max_eq_left h, x3]
        · intro z hz
          rcases List.mem_append.mp hz with hz | hz
          · exact le_trans (e1 z hz) (le_max_left _ _)
          · exact le_trans (e2 z hz) (le_max_right _ _)
  · rw [ha2 hp, hb2 hp]

theorem areaPulse_ok {i : Info} {rate a : Rat} (h : areaPulse i rate = .ok a) : a = i.area := by
  unfold areaPulse at h
  unfold Info.area
  split at h
  · cases h
  · split at h
    · rename_i e; rw [e]; exact (Except.ok.inj h).symm
    · rename_i e; rw [e]
      split at h
      · cases h
      · exact (Except.ok.inj h).symm
    · cases h

theorem summary_one {ports : List String} {p : String} (hp : p ∈ ports) (x : Played)
    (h1 : x.port = p) (h2 : x.clock = baseband) :
    Summary ports [(p, ⟨x.area, x.stop⟩)] [x] := by
  intro q
  rw [Dict.get?_cons]
  by_cases h : p = q
  · subst h
    have ho : onPort p [x] = [x] := by
      unfold onPort; rw [List.filter_cons_of_pos (by simp [h1, h2])]; rfl
    refine ⟨fun _ => ?_, fun hn => absurd hp hn⟩
    rw [if_pos rfl]
    unfold integral
    rw [ho]
    simp
  · rw [if_neg h, Dict.get?_nil]
    refine ⟨fun _ => ?_, fun _ => rfl⟩
    simp only
    unfold onPort
    rw [List.filter_cons_of_neg (by simp [h1, h])]; rfl

theorem summary_skip {ports : List String} {d : List (String × SumEnd)} {l : List Played} (x : Played)
    (hx : ¬ (x.port ∈ ports ∧ x.clock = baseband)) (h : Summary ports d l) :
    Summary ports d (l ++ [x]) := by
  intro p
  obtain ⟨h1, h2⟩ := h p
  refine ⟨fun hp => ?_, h2⟩
  have ho : onPort p (l ++ [x]) = onPort p l := by
    rw [onPort_append]
    have : onPort p [x] = [] := by
      unfold onPort
      rw [List.filter_cons_of_neg]
      · rfl
      · simp only [decide_eq_true_eq, not_and]
        rintro rfl hc
        exact hx ⟨hp, hc⟩
    rw [this, List.append_nil]
  unfold integral
  rw [ho]
  exact h1 hp

/-- What `sumInfos` returns. -/
theorem sumInfos_spec (rate : Rat) (ports : List String) (off : Rat) (c : Bool) :
    ∀ (infos : List Info) (acc d : List (String × SumEnd)) (l : List Played),
    Summary ports acc l → sumInfos rate ports off c infos acc = .ok d →
    Summary ports d (l ++ plays (.plain infos []) off c) ∧
      ∀ i ∈ infos, i.port ∈ ports → i.clock = baseband → c = false := by
  intro infos
  induction infos with
  | nil =>
    intro acc d l hl h
    unfold sumInfos at h
    rw [← Except.ok.inj h]
    refine ⟨by simpa [plays] using hl, by simp⟩
  | cons i is ih =>
    intro acc d l hl h
    unfold sumInfos at h
    have hpl : l ++ plays (.plain (i :: is) []) off c =
        (l ++ [⟨i.port, i.clock, i.area, off + i.t0 + i.dur, i.offset, c⟩]) ++
          plays (.plain is []) off c := by
      simp [plays]
    rw [hpl]
    by_cases hi : i.port ∈ ports ∧ i.clock = baseband
    · rw [if_pos hi] at h
      cases c with
      | true => simp at h
      | false =>
        simp only [Bool.false_eq_true, if_false] at h
        cases ha : areaPulse i rate with
        | error e => rw [ha] at h; cases h
        | ok a =>
          rw [ha] at h
          have ha' := areaPulse_ok ha
          subst ha'
          have := summary_one hi.1 (⟨i.port, i.clock, i.area, off + i.t0 + i.dur, i.offset, false⟩ : Played)
            rfl hi.2
          obtain ⟨h1, h2⟩ := ih _ d _ (summary_merge hl this) h
          exact ⟨h1, fun j hj _ _ => rfl⟩
    · rw [if_neg hi] at h
      obtain ⟨h1, h2⟩ := ih acc d _ (summary_skip ⟨i.port, i.clock, i.area, off + i.t0 + i.dur, i.offset, c⟩ hi hl) h
      refine ⟨h1, ?_⟩
      intro j hj hj1 hj2
      rcases List.mem_cons.mp hj with rfl | hj
      · exact absurd ⟨hj1, hj2⟩ hi
      · exact h2 j hj hj1 hj2

/-- Shifting in time. -/
def shift (d : Rat) (x : Played) : Played := { x with stop := x.stop + d }

mutual
theorem plays_shift : ∀ (op : Op) (off d : Rat) (c : Bool),
    plays op (off + d) c = (plays op off c).map (shift d)
  | .plain infos acqs, off, d, c => by
    simp only [plays, List.map_map]
    apply List.map_congr_left
    intro i _
    simp only [shift, Function.comp, Played.mk.injEq, true_and, and_true]
    ring
  | .sched items dd, off, d, c => by
    simp only [plays]; exact playsItems_shift items off d c
  | .loop body reps, off, d, c => by
    simp only [plays, List.map_flatMap]
    congr 1
    funext k
    rw [← plays_shift body (off + k * body.duration.getD 0) d c]
    congr 1
    ring
  | .cond body b, off, d, c => by simp only [plays]; exact plays_shift body off d true
  | .other body, off, d, c => by simp only [plays]; exact plays_shift body off d c
  | .comp body _ _ _, off, d, c => by simp only [plays]; exact plays_shift body off d c
theorem playsItems_shift : ∀ (items : Items) (off d : Rat) (c : Bool),
    playsItems items (off + d) c = (playsItems items off c).map (shift d)
  | .nil, off, d, c => by simp [playsItems]
  | .cons abs op rest, off, d, c => by
    simp only [playsItems, List.map_append]
    rw [playsItems_shift rest off d c, ← plays_shift op (off + abs.getD 0) d c]
    congr 2
    ring
end

theorem onPort_shift (p : String) (d : Rat) (l : List Played) :
    onPort p (l.map (shift d)) = (onPort p l).map (shift d) := by
  unfold onPort
  rw [List.filter_map]
  rfl

theorem integral_shift (p : String) (d : Rat) (l : List Played) :
    integral p (l.map (shift d)) = integral p l := by
  unfold integral
  rw [onPort_shift, List.map_map]
  rfl

theorem onPort_flatMap {A : Type} (p : String) (l : List A) (f : A → List Played) :
    onPort p (l.flatMap f) = l.flatMap (fun a => onPort p (f a)) := by
  induction l with
  | nil => rfl
  | cons a l ih => rw [List.flatMap_cons, onPort_append, ih, List.flatMap_cons]

theorem integral_repeat (p : String) (body : Op) (off : Rat) (c : Bool) (d : Rat) (n : Nat) :
    integral p ((List.range n).flatMap (fun (k : Nat) => plays body (off + k * d) c)) =
      n * integral p (plays body off c) := by
  induction n with
  | zero => simp [integral, onPort]
  | succ n ih =>
    rw [List.range_succ, List.flatMap_append, integral_append, ih]
    simp only [List.flatMap_cons, List.flatMap_nil, List.append_nil]
    rw [plays_shift, integral_shift]
    push_cast
    ring

theorem loopSums_get (reps : Nat) (dur : Option Rat) :
    ∀ (b d : List (String × SumEnd)), loopSums reps dur b = .ok d → ∀ p,
    Dict.get? d p = (Dict.get? b p).map (fun se =>
      ⟨reps * se.sum, ((reps : Rat) - 1) * dur.getD 0 + se.stop⟩) ∧ (b ≠ [] → dur.isSome) := by
  intro b
  induction b with
  | nil =>
    intro d h p
    unfold loopSums at h
    rw [← Except.ok.inj h]
    exact ⟨rfl, fun hn => absurd rfl hn⟩
  | cons e b ih =>
    intro d h p
    obtain ⟨q, se⟩ := e
    unfold loopSums at h
    cases dur with
    | none => simp at h
    | some dd =>
      simp only at h
      cases hr : loopSums reps (some dd) b with
      | error e => rw [hr] at h; cases h
      | ok r =>
        rw [hr] at h
        have h := Except.ok.inj h
        subst h
        refine ⟨?_, fun _ => rfl⟩
        have ih' := (ih r hr p).1
        simp only [Dict.get?_cons]
        by_cases hq : q = p
        · subst hq; simp
        · rw [if_neg hq, if_neg hq]
          exact ih'

theorem summary_loop {ports : List String} {b d : List (String × SumEnd)} {body : Op} {off : Rat}
    {c : Bool} {reps : Nat} (hr : reps ≠ 0) (hd : ∀ x, body.duration = some x → 0 ≤ x)
    (hb : Summary ports b (plays body off c)) (h : loopSums reps body.duration b = .ok d) :
    Summary ports d (plays (.loop body reps) off c) := by
  intro p
  have hg := (loopSums_get reps body.duration b d h p).1
  have hsome : b ≠ [] → body.duration.isSome := (loopSums_get reps body.duration b d h p).2
  rw [hg]
  obtain ⟨h1, h2⟩ := hb p
  refine ⟨fun hp => ?_, fun hp => by rw [h2 hp]; rfl⟩
  have h1 := h1 hp
  simp only [plays]
  set dd := body.duration.getD 0 with hdd
  have hdd0 : 0 ≤ dd := by
    rw [hdd]
    cases hx : body.duration with
    | none => simp
    | some x => simpa using hd x hx
  cases gb : Dict.get? b p with
  | none =>
    rw [gb] at h1
    simp only at h1
    simp only [Option.map_none]
    rw [onPort_flatMap, List.flatMap_eq_nil_iff]
    intro k _
    rw [plays_shift, onPort_shift, h1]; rfl
  | some se =>
    rw [gb] at h1
    simp only at h1
    obtain ⟨s1, ⟨x, x1, x2⟩, s3⟩ := h1
    simp only [Option.map_some]
    refine ⟨?_, ?_, ?_⟩
    · rw [s1, integral_repeat]
    · refine ⟨shift (((reps : Rat) - 1) * dd) x, ?_, ?_⟩
      · rw [onPort_flatMap, List.mem_flatMap]
        refine ⟨reps - 1, List.mem_range.mpr (by omega), ?_⟩
        rw [plays_shift, onPort_shift]
        have : ((reps - 1 : Nat) : Rat) = (reps : Rat) - 1 := by
          rw [Nat.cast_sub (by omega)]; simp
        rw [this]
        exact List.mem_map.mpr ⟨x, x1, rfl⟩
      · simp only [shift, x2]; ring
    · intro y hy
      rw [onPort_flatMap, List.mem_flatMap] at hy
      obtain ⟨k, hk, hy⟩ := hy
      rw [plays_shift, onPort_shift] at hy
      obtain ⟨z, hz, rfl⟩ := List.mem_map.mp hy
      have := s3 z hz
      have hk := List.mem_range.mp hk
      have hkr : (k : Rat) ≤ (reps : Rat) - 1 := by
        have : ((k + 1 : Nat) : Rat) ≤ (reps : Rat) := by exact_mod_cast hk
        push_cast at this
        linarith
      have := mul_le_mul_of_nonneg_right hkr hdd0
      simp only [shift]
      linarith

theorem plays_plain (infos : List Info) (acqs acqs' : List (String × Rat)) (off : Rat) (c : Bool) :
    plays (.plain infos acqs) off c = plays (.plain infos acqs') off c := by simp only [plays]

mutual
/-- What `_determine_sum_and_end_of_all_pulses` returns. -/
theorem sumEnd_spec (rate : Rat) (ports : List String) : ∀ (op : Op) (off : Rat) (c : Bool)
    (d : List (String × SumEnd)), DurOk op → sumEnd rate ports op off c = .ok d →
    Summary ports d (plays op off c)
  | .plain infos acqs, off, c, d, hd, h => by
    unfold sumEnd at h
    split at h
    · cases h
    · have := (sumInfos_spec rate ports off c infos [] d [] (summary_nil ports) h).1
      rw [plays_plain infos acqs []]
      simpa using this
  | .sched items dd, off, c, d, hd, h => by
    unfold sumEnd at h
    simp only [plays]
    simp only [DurOk] at hd
    simpa using sumItems_spec rate ports items off c [] d [] hd (summary_nil ports) h
  | .loop body reps, off, c, d, hd, h => by
    simp only [DurOk] at hd
    unfold sumEnd at h
    cases hb : sumEnd rate ports body off c with
    | error e => rw [hb] at h; cases h
    | ok b =>
      rw [hb] at h
      change (if reps = 0 then _ else _) = _ at h
      split at h
      · cases h
      · rename_i hr
        exact summary_loop hr hd.2 (sumEnd_spec rate ports body off c b hd.1 hb) h
  | .cond body buf, off, c, d, hd, h => by
    unfold sumEnd at h
    simp only [plays]
    simp only [DurOk] at hd
    exact sumEnd_spec rate ports body off true d hd h
  | .other body, off, c, d, hd, h => by unfold sumEnd at h; cases h
  | .comp body _ _ _, off, c, d, hd, h => by unfold sumEnd at h; cases h
theorem sumItems_spec (rate : Rat) (ports : List String) : ∀ (items : Items) (off : Rat) (c : Bool)
    (acc d : List (String × SumEnd)) (l : List Played), DurOkItems items → Summary ports acc l →
    sumItems rate ports items off c acc = .ok d → Summary ports d (l ++ playsItems items off c)
  | .nil, off, c, acc, d, l, hd, hl, h => by
    unfold sumItems at h
    rw [← Except.ok.inj h]
    simpa [playsItems] using hl
  | .cons abs op rest, off, c, acc, d, l, hd, hl, h => by
    simp only [DurOkItems] at hd
    unfold sumItems at h
    cases abs with
    | none => simp at h
    | some a =>
      simp only at h
      cases hn : sumEnd rate ports op (off + a) c with
      | error e => rw [hn] at h; cases h
      | ok n =>
        rw [hn] at h
        have h1 := sumEnd_spec rate ports op (off + a) c n hd.1 hn
        have h2 := sumItems_spec rate ports rest off c (mergeAll acc n) d _ hd.2 (summary_merge hl h1) h
        simpa [playsItems] using h2
end

mutual
/-- Voltage offsets and conditional pulses on the ports are refused. -/
theorem sumEnd_plain (rate : Rat) (ports : List String) : ∀ (op : Op) (off off' : Rat) (c : Bool)
    (d : List (String × SumEnd)), sumEnd rate ports op off c = .ok d →
    ∀ x ∈ plays op off' c, x.port ∈ ports → x.offset = false ∧ (x.clock = baseband → x.conditional = false)
  | .plain infos acqs, off, off', c, d, h => by
    unfold sumEnd at h
    split at h
    · cases h
    · rename_i ho
      intro x hx hp
      simp only [plays, List.mem_map] at hx
      obtain ⟨i, hi, rfl⟩ := hx
      refine ⟨?_, ?_⟩
      · by_contra hc
        apply ho
        unfold offsetOn
        rw [Bool.and_eq_true]
        refine ⟨List.any_eq_true.mpr ⟨i, hi, by simpa using hc⟩, List.any_eq_true.mpr
          ⟨i.port, ?_, by simpa using hp⟩⟩
        rw [List.mem_append]; left
        exact List.mem_map.mpr ⟨i, hi, rfl⟩
      · intro hcl
        exact (sumInfos_spec rate ports off c infos [] d [] (summary_nil ports) h).2 i hi hp hcl
  | .sched items dd, off, off', c, d, h => by
    unfold sumEnd at h
    simp only [plays]
    exact sumItems_plain rate ports items off off' c [] d h
  | .loop body reps, off, off', c, d, h => by
    unfold sumEnd at h
    cases hb : sumEnd rate ports body off c with
    | error e => rw [hb] at h; cases h
    | ok b =>
      intro x hx hp
      simp only [plays, List.mem_flatMap] at hx
      obtain ⟨k, _, hx⟩ := hx
      exact sumEnd_plain rate ports body off _ c b hb x hx hp
  | .cond body buf, off, off', c, d, h => by
    unfold sumEnd at h
    simp only [plays]
    exact sumEnd_plain rate ports body off off' true d h
  | .other body, off, off', c, d, h => by unfold sumEnd at h; cases h
  | .comp body _ _ _, off, off', c, d, h => by unfold sumEnd at h; cases h
theorem sumItems_plain (rate : Rat) (ports : List String) : ∀ (items : Items) (off off' : Rat)
    (c : Bool) (acc d : List (String × SumEnd)), sumItems rate ports items off c acc = .ok d →
    ∀ x ∈ playsItems items off' c, x.port ∈ ports → x.offset = false ∧ (x.clock = baseband → x.conditional = false)
  | .nil, off, off', c, acc, d, h => by simp [playsItems]
  | .cons abs op rest, off, off', c, acc, d, h => by
    unfold sumItems at h
    cases abs with
    | none => simp at h
    | some a =>
      simp only at h
      cases hn : sumEnd rate ports op (off + a) c with
      | error e => rw [hn] at h; cases h
      | ok n =>
        rw [hn] at h
        intro x hx hp
        simp only [playsItems, List.mem_append] at hx
        rcases hx with hx | hx
        · exact sumEnd_plain rate ports op (off + a) _ c n hn x hx hp
        · exact sumItems_plain rate ports rest off off' c _ d h x hx hp
end

mutual
theorem process_noComp (T : Op → Except Err Op) : ∀ (op r : Op), process T op = .ok r → NoComp r
  | .plain infos acqs, r, h => by
    unfold process at h; rw [← Except.ok.inj h]; trivial
  | .sched items d, r, h => by
    unfold process at h
    cases hb : processItems T items with
    | error e => rw [hb] at h; cases h
    | ok b => rw [hb] at h; rw [← Except.ok.inj h]; exact processItems_noComp T items b hb
  | .loop body reps, r, h => by
    unfold process at h
    cases hb : process T body with
    | error e => rw [hb] at h; cases h
    | ok b => rw [hb] at h; rw [← Except.ok.inj h]; exact process_noComp T body b hb
  | .cond body reps, r, h => by
    unfold process at h
    cases hb : process T body with
    | error e => rw [hb] at h; cases h
    | ok b => rw [hb] at h; rw [← Except.ok.inj h]; exact process_noComp T body b hb
  | .other body, r, h => by
    unfold process at h
    cases hb : process T body with
    | error e => rw [hb] at h; cases h
    | ok b => rw [hb] at h; rw [← Except.ok.inj h]; exact process_noComp T body b hb
  | .comp body m g rt, r, h => by
    unfold process at h
    cases hb : process T body with
    | error e => rw [hb] at h; cases h
    | ok b =>
      rw [hb] at h
      change (do let ps ← compensationPulse T b m g rt; _) = _ at h
      cases hp : compensationPulse T b m g rt with
      | error e => rw [hp] at h; cases h
      | ok ps =>
        rw [hp] at h; rw [← Except.ok.inj h]
        refine ⟨process_noComp T body b hb, ?_⟩
        induction ps with
        | nil => trivial
        | cons e ps ih => exact ⟨trivial, by
            clear hp h ih
            induction ps with
            | nil => trivial
            | cons e ps ih => exact ⟨trivial, ih⟩⟩
theorem processItems_noComp (T : Op → Except Err Op) : ∀ (items r : Items),
    processItems T items = .ok r → NoCompItems r
  | .nil, r, h => by unfold processItems at h; rw [← Except.ok.inj h]; trivial
  | .cons abs op rest, r, h => by
    unfold processItems at h
    cases hb : process T op with
    | error e => rw [hb] at h; cases h
    | ok b =>
      rw [hb] at h
      cases hr : processItems T rest with
      | error e => rw [hr] at h; cases h
      | ok r' =>
        rw [hr] at h; rw [← Except.ok.inj h]
        exact ⟨process_noComp T op b hb, processItems_noComp T rest r' hr⟩
end

mutual
theorem process_id (T : Op → Except Err Op) : ∀ (op : Op), NoComp op → process T op = .ok op
  | .plain infos acqs, h => by unfold process; rfl
  | .sched items d, h => by unfold process; rw [processItems_id T items h]; rfl
  | .loop body reps, h => by unfold process; rw [process_id T body h]; rfl
  | .cond body reps, h => by unfold process; rw [process_id T body h]; rfl
  | .other body, h => by unfold process; rw [process_id T body h]; rfl
  | .comp body m g r, h => by simp only [NoComp] at h
theorem processItems_id (T : Op → Except Err Op) : ∀ (items : Items), NoCompItems items →
    processItems T items = .ok items
  | .nil, h => by unfold processItems; rfl
  | .cons abs op rest, h => by
    unfold processItems
    rw [process_id T op h.1, show (Except.ok op >>= fun o => (do
      let r ← processItems T rest
      Except.ok (Items.cons abs o r))) = (do
      let r ← processItems T rest
      Except.ok (Items.cons abs op r)) from rfl, processItems_id T rest h.2]
    rfl
end

mutual
theorem integral_erase (p : String) : ∀ (op : Op) (off off' : Rat) (c c' : Bool),
    integral p (plays op off c) = integral p (plays (erase op) off' c')
  | .plain infos acqs, off, off', c, c' => by
    simp only [plays, erase, integral, onPort, List.filter_map, List.map_map]
    rfl
  | .sched items d, off, off', c, c' => by
    simp only [plays, erase]; exact integral_eraseItems p items off off' c c'
  | .loop body reps, off, off', c, c' => by
    simp only [plays, erase]
    rw [integral_repeat, integral_repeat, integral_erase p body off off' c c']
  | .cond body b, off, off', c, c' => by
    simp only [plays, erase]; exact integral_erase p body off off' true true
  | .other body, off, off', c, c' => by
    simp only [plays, erase]; exact integral_erase p body off off' c c'
  | .comp body _ _ _, off, off', c, c' => by
    simp only [plays, erase]; exact integral_erase p body off off' c c'
theorem integral_eraseItems (p : String) : ∀ (items : Items) (off off' : Rat) (c c' : Bool),
    integral p (playsItems items off c) = integral p (playsItems (eraseItems items) off' c')
  | .nil, off, off', c, c' => by simp [playsItems, eraseItems, integral, onPort]
  | .cons abs op rest, off, off', c, c' => by
    simp only [playsItems, eraseItems, integral_append]
    rw [integral_erase p op _ (off' + (none : Option Rat).getD 0) c c',
      integral_eraseItems p rest off off' c c']
end

end Verif.Compensation
