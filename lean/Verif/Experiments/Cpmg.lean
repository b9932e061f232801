/-
CPMG.
-/
import Verif.Experiments.TimeDomain
import Mathlib.Tactic.FieldSimp
import Mathlib.Tactic.Positivity
import Mathlib.Tactic.NormNum

set_option linter.unusedSimpArgs false
set_option linter.unusedVariables false

namespace Verif.Experiments

open Spec (Part inSequence ns4)

variable {L : Type}

/-- The calls play `ev` and end at `e`, or `m` if that is later. -/
def RunD (acc : List Placed) (n : Nat) (calls : Calls L) (ev : List (Rat × L)) (m e : Rat) : Prop :=
  ∃ ps, Runs acc n calls ps ev ∧ ps.foldl (fun m p => max m (p.2 + p.1.dur)) m = e

theorem RunD.nil (acc : List Placed) (n : Nat) (m : Rat) : RunD acc n (.nil : Calls L) [] m m :=
  ⟨[], .nil _ _, rfl⟩

theorem RunD.leaf {acc : List Placed} {n : Nat} {l : L} {d : Rat} {label : Option String}
    {rel : Rat} {ref : Option Key} {pt : Option Timing.RefPt} {rest : Calls L} {t m e : Rat}
    {ev : List (Rat × L)} (hs : StartsAt acc ref pt rel t) (h0 : 0 ≤ t)
    (hr : RunD ((itemOf n (.leaf l d) label rel ref pt d, t) :: acc) (n + 1) rest ev
      (max m (t + d)) e) :
    RunD acc n (.cons (.leaf l d) label rel ref pt rest) ((t, l) :: ev) m e := by
  obtain ⟨ps, h, he⟩ := hr
  exact ⟨_, Runs.leaf hs h0 h, by simpa [itemOf] using he⟩

theorem RunD.op {acc : List Placed} {n : Nat} {op : Op L} {d : Rat} {l : List (Rat × L)}
    {label : Option String}
    {rel : Rat} {ref : Option Key} {pt : Option Timing.RefPt} {rest : Calls L} {t m e : Rat}
    {ev : List (Rat × L)} (hd : op.duration = .ok d) (hl : op.play = .ok l)
    (hs : StartsAt acc ref pt rel t) (h0 : 0 ≤ t)
    (hr : RunD ((itemOf n op label rel ref pt d, t) :: acc) (n + 1) rest ev (max m (t + d)) e) :
    RunD acc n (.cons op label rel ref pt rest) (later t l ++ ev) m e := by
  obtain ⟨ps, h, he⟩ := hr
  exact ⟨_, Runs.cons hd hl hs h0 h, by simpa [itemOf] using he⟩

theorem RunD.spec {calls : Calls L} {ev : List (Rat × L)} {e : Rat} (h : RunD [] 0 calls ev 0 e)
    (hne : calls ≠ .nil) (hn : (calls.keys 0).Nodup) (delay : Option Rat) :
    (Op.sched delay calls).play = .ok ev ∧ (Op.sched delay calls).duration = .ok e := by
  obtain ⟨ps, h, he⟩ := h
  have := h.spec (by rintro rfl; cases h; exact hne rfl) hn delay
  exact ⟨this.1, by rw [this.2, endOf, he]⟩

theorem repeated_eq (d : Rat) (l : List (Rat × L)) : ∀ n : Nat,
    repeated d l n = (List.range n).flatMap (fun k : Nat => l.map (fun e => ((k : Rat) * d + e.1, e.2)))
  | 0 => rfl
  | n + 1 => by
    rw [repeated, repeated_eq d l n, List.range_succ_eq_map, List.flatMap_cons, List.flatMap_map]
    congr 1
    · simp
    · simp only [later, List.map_flatMap, List.map_map, Function.comp_def]
      congr 1
      funext k
      congr 1
      funext e
      push_cast
      rw [← add_assoc]
      congr 1
      ring

/-- Not an idle pulse. -/
def Act.sounds : Act → Bool
  | .idle _ => false
  | _ => true

theorem from_filter (g : L → Bool) (ps : List (Part L)) : ∀ t : Rat,
    (Spec.from_ t ps).filter (fun e => g e.2)
      = Spec.from_ t (ps.map (fun p => ⟨p.length, p.plays.filter (fun e => g e.2)⟩)) := by
  induction ps with
  | nil => intro t; rfl
  | cons p ps ih =>
    intro t
    simp only [Spec.from_, List.map_cons, List.filter_append, ih, List.filter_map]
    rfl

/-- The pulses of one turn of the loop, and how long it takes, for a waiting time `a` before and after
each pulse. -/
def cpmgTurn (dev : Dev) (a : Rat) (q : String) : Variant → Rat × List (Rat × Act)
  | .x => (a + max (dev (.rxy 180 0 q)) a, [(0, .idle a), (a, .rxy 180 0 q), (a, .idle a)])
  | .y => (a + max (dev (.rxy 180 90 q)) a, [(0, .idle a), (a, .rxy 180 90 q), (a, .idle a)])
  | .xy => (max (a + dev (.rxy 180 0 q)) (3 * a + max (dev (.rxy 180 90 q)) a),
      [(0, .idle a), (a, .rxy 180 0 q), (a, .idle (2 * a)), (3 * a, .rxy 180 90 q), (3 * a, .idle a)])

theorem cpmgInner_spec (dev : Dev) (a : Rat) (q : String) (i : Nat) (v : Variant)
    (hd : ∀ a, 0 ≤ dev a) (ha : 0 ≤ a) :
    (Op.sched none (cpmgInner dev a q i v)).play = .ok (cpmgTurn dev a q v).2 ∧
    (Op.sched none (cpmgInner dev a q i v)).duration = .ok (cpmgTurn dev a q v).1 := by
  have hX := hd (.rxy 180 0 q)
  have hY := hd (.rxy 180 90 q)
  cases v with
  | x =>
    refine RunD.spec ?_ (by simp [cpmgInner, Calls.add])
      (by simp [cpmgInner, Calls.keys, Calls.add, keyOf, lab]) none
    refine RunD.leaf (t := 0) (Ready.startsAt (.inl ⟨rfl, rfl⟩)) (by linarith) ?_
    refine RunD.leaf (by after_prev) (by linarith) ?_
    refine RunD.leaf (by after_prev) (by linarith) ?_
    have : (cpmgTurn dev a q .x).1 = max (max (max 0 (0 + a)) (a + dev (.rxy 180 0 q))) (a + a) := by
      simp only [cpmgTurn]
      rw [zero_add, max_eq_right ha, max_eq_right (show a ≤ a + dev (.rxy 180 0 q) by linarith),
        max_add_add_left]
    rw [this]
    exact .nil _ _ _
  | y =>
    refine RunD.spec ?_ (by simp [cpmgInner, Calls.add])
      (by simp [cpmgInner, Calls.keys, Calls.add, keyOf, lab]) none
    refine RunD.leaf (t := 0) (Ready.startsAt (.inl ⟨rfl, rfl⟩)) (by linarith) ?_
    refine RunD.leaf (by after_prev) (by linarith) ?_
    refine RunD.leaf (by after_prev) (by linarith) ?_
    have : (cpmgTurn dev a q .y).1 = max (max (max 0 (0 + a)) (a + dev (.rxy 180 90 q))) (a + a) := by
      simp only [cpmgTurn]
      rw [zero_add, max_eq_right ha, max_eq_right (show a ≤ a + dev (.rxy 180 90 q) by linarith),
        max_add_add_left]
    rw [this]
    exact .nil _ _ _
  | xy =>
    refine RunD.spec ?_ (by simp [cpmgInner, Calls.add])
      (by simp [cpmgInner, Calls.keys, Calls.add, keyOf, lab, String.append_left_inj]) none
    refine RunD.leaf (t := 0) (Ready.startsAt (.inl ⟨rfl, rfl⟩)) (by linarith) ?_
    refine RunD.leaf (by after_prev) (by linarith) ?_
    refine RunD.leaf (by after_prev) (by linarith) ?_
    refine RunD.leaf (by after_prev) (by linarith) ?_
    refine RunD.leaf (by after_prev) (by linarith) ?_
    have : (cpmgTurn dev a q .xy).1 = max (max (max (max (max 0 (0 + a)) (a + dev (.rxy 180 0 q)))
        (a + 2 * a)) (3 * a + dev (.rxy 180 90 q))) (3 * a + a) := by
      simp only [cpmgTurn]
      rw [zero_add, max_eq_right ha, max_eq_right (show a ≤ a + dev (.rxy 180 0 q) by linarith)]
      rw [max_assoc (a + dev (.rxy 180 0 q)), max_assoc (a + dev (.rxy 180 0 q)), max_assoc (a + 2 * a),
        max_add_add_left (3 * a), max_eq_right (a := a + 2 * a)]
      have := le_max_right (dev (.rxy 180 90 q)) a
      linarith
    rw [this]
    exact .nil _ _ _

/-- One part of a CPMG experiment, with the idle pulses. -/
def cpmgPart (dev : Dev) (n : Nat) (q : String) (v : Variant) (detuning tau : Rat) : Part Act :=
  let t := cpmgTurn dev (tau / (2 * n)) q v
  let m := if v = .xy then n / 2 else n
  { length := dev (.reset [q]) + ns4 + m * t.1 + dev (.rxy 90 (360 * (detuning * tau)) q)
      + dev (.measure [q] none false)
    plays := [(0, .reset [q]), (dev (.reset [q]), .rxy 90 0 q)] ++
      (later (dev (.reset [q]) + ns4) (repeated t.1 t.2 m) ++
      [(dev (.reset [q]) + ns4 + m * t.1, .rxy 90 (360 * (detuning * tau)) q),
       (dev (.reset [q]) + ns4 + m * t.1 + dev (.rxy 90 (360 * (detuning * tau)) q),
          .measure [q] none false)]) }

theorem cpmgTurn_nonneg (dev : Dev) (a : Rat) (q : String) (v : Variant) (hd : ∀ a, 0 ≤ dev a)
    (ha : 0 ≤ a) : 0 ≤ (cpmgTurn dev a q v).1 := by
  have hX := hd (.rxy 180 0 q)
  have hY := hd (.rxy 180 90 q)
  cases v with
  | x => simp only [cpmgTurn]; have := le_max_right (dev (.rxy 180 0 q)) a; linarith
  | y => simp only [cpmgTurn]; have := le_max_right (dev (.rxy 180 90 q)) a; linarith
  | xy =>
    simp only [cpmgTurn]
    exact le_trans (by linarith) (le_max_left _ _)

theorem cpmg_plays_all (dev : Dev) (n : Nat) (times : List Rat) (q : String) (v : Variant)
    (detuning : Rat) (hd : ∀ a, 0 ≤ dev a) (ht : ∀ tau ∈ times, 0 ≤ tau) (hne : times ≠ [])
    (hn : isPow2 n = true) (hv : v = .xy → 2 ≤ n) :
    ∃ s, cpmgSched dev n times q v detuning = .ok s ∧
      s.play = .ok (inSequence (times.map (cpmgPart dev n q v detuning))) := by
  have hR := hd (.reset [q])
  have hM := hd (.measure [q] none false)
  have h4 : (0 : Rat) ≤ ns4 := by unfold ns4; norm_num
  refine ⟨_, by
    unfold cpmgSched
    rw [if_neg (by simp [hn]), if_neg (by rintro ⟨-, h, h2⟩; have := hv h; omega)], ?_⟩
  have hdiv : ∀ tau ∈ times, (0 : Rat) ≤ tau / (2 * n) := by
    intro tau h
    exact div_nonneg (ht tau h) (by positivity)
  refine forEach_plays' hne ?_ ?_ ?_ (by intros; simp [Calls.add]) none
  · refine forEach_nodup_prefix _ ["Reset ", "loop ", "Measurement "] (by decide) 5 ?_ times
    intro i x n
    refine ⟨[_, _, _, _, _], fun rest => rfl, ?_, ?_⟩
    · simp [keyOf, lab, String.append_left_inj]
    · intro k hk
      simp only [keyOf, lab, List.mem_cons, List.not_mem_nil, or_false] at hk
      rcases hk with rfl | rfl | rfl | rfl | rfl <;> simp <;> omega
  · intro i tau hi acc j s hr hs rest ev hrun
    have hm : tau ∈ times := List.mem_iff_getElem?.2 ⟨i, hi⟩
    obtain ⟨hp, hdu⟩ := cpmgInner_spec dev (tau / (2 * n)) q i v hd (hdiv tau hm)
    have hY := hd (.rxy 90 (360 * (detuning * tau)) q)
    have hT := cpmgTurn_nonneg dev (tau / (2 * n)) q v hd (hdiv tau hm)
    set T := cpmgTurn dev (tau / (2 * n)) q v with hTdef
    set m : Nat := if v = .xy then n / 2 else n with hmdef
    have hmT : 0 ≤ (m : Rat) * T.1 := mul_nonneg (by positivity) hT
    have hsh : later s (cpmgPart dev n q v detuning tau).plays ++ ev =
        (s + 0, Act.reset [q]) :: (s + dev (.reset [q]), .rxy 90 0 q) ::
        (later (s + (dev (.reset [q]) + ns4)) (repeated T.1 T.2 m) ++
        ((s + (dev (.reset [q]) + ns4 + m * T.1), .rxy 90 (360 * (detuning * tau)) q) ::
         (s + (dev (.reset [q]) + ns4 + m * T.1 + dev (.rxy 90 (360 * (detuning * tau)) q)),
          .measure [q] none false) :: ev)) := by
      simp only [cpmgPart, ← hTdef, ← hmdef, later_append, later_later, List.append_assoc]
      rfl
    show Run acc j _ (later s (cpmgPart dev n q v detuning tau).plays ++ ev)
    rw [hsh]
    refine Run.leaf (t := s + 0) (by rw [add_zero]; exact hr.startsAt) (by linarith) ?_
    refine Run.leaf (by after_prev) (by linarith) ?_
    refine Run.op (d := m * T.1) (by simp only [Op.duration] at hdu ⊢; rw [hdu])
      (by simp only [Op.play] at hp ⊢; rw [hp]; rw [hdu]) ?_ (by linarith) ?_
    · refine StartsAt.of_eq (startsAt_prev _ _ (by simp)) ?_
      simp only [itemOf, Op.delay, op, durOf, gX90, Timing.RefPt.frac, Option.getD_some,
        Option.getD_none, ns4]
      ring
    refine Run.leaf (by after_prev) (by linarith) ?_
    refine Run.leaf (by after_prev) (by linarith) ?_
    refine hrun _ _ (.inr ⟨_, _, rfl, ?_⟩)
    simp only [itemOf, Op.delay, op, durOf, gM, Option.getD_none, cpmgPart, ← hTdef, ← hmdef]
    ring
  · intro i tau hi
    have hm : tau ∈ times := List.mem_iff_getElem?.2 ⟨i, hi⟩
    have hY := hd (.rxy 90 (360 * (detuning * tau)) q)
    have hT := cpmgTurn_nonneg dev (tau / (2 * n)) q v hd (hdiv tau hm)
    have hmT : 0 ≤ ((if v = .xy then n / 2 else n : Nat) : Rat) * (cpmgTurn dev (tau / (2 * n)) q v).1 :=
      mul_nonneg (by positivity) hT
    simp only [cpmgPart]
    linarith

/-! ## C48: CPMG -/

theorem filter_later (g : L → Bool) (t : Rat) (l : List (Rat × L)) :
    (later t l).filter (fun e => g e.2) = later t (l.filter (fun e => g e.2)) := by
  simp only [later, List.filter_map]
  rfl

theorem cpmg_filter (dev : Dev) (n : Nat) (times : List Rat) (q : String) (v : Variant)
    (detuning : Rat) :
    (inSequence (times.map (cpmgPart dev n q v detuning))).filter (fun e => e.2.sounds)
      = inSequence (times.map (fun tau => ⟨(cpmgPart dev n q v detuning tau).length,
          (cpmgPart dev n q v detuning tau).plays.filter (fun e => e.2.sounds)⟩)) := by
  unfold inSequence
  rw [from_filter (fun a : Act => a.sounds), List.map_map]
  rfl

theorem repeated_filter (g : L → Bool) (d : Rat) (l : List (Rat × L)) (n : Nat) :
    (repeated d l n).filter (fun e => g e.2) = repeated d (l.filter (fun e => g e.2)) n := by
  induction n with
  | zero => rfl
  | succ n ih => simp only [repeated, List.filter_append, filter_later, ih]

/-- A CPMG experiment with pi pulses about one axis that are not longer than the waiting time on
either side plays, for every time: a reset; a pi/2 pulse when it is over; `n` pi pulses that are
`tau/n` apart, the first one `4 ns + tau/(2n)` after the start of the pi/2 pulse; the second pi/2
pulse `tau + 4 ns` after the first; and the measurement when it is over. (The waiting times are
`tau` in the documentation: the code is 4 ns late.) -/
theorem cpmg_plays (dev : Dev) (n : Nat) (times : List Rat) (q : String) (v : Variant) (phi : Rat)
    (hphi : (v = .x ∧ phi = 0) ∨ (v = .y ∧ phi = 90))
    (detuning : Rat) (hd : ∀ a, 0 ≤ dev a) (ht : ∀ tau ∈ times, 0 ≤ tau) (hne : times ≠ [])
    (hn : isPow2 n = true) (hfit : ∀ tau ∈ times, dev (.rxy 180 phi q) ≤ tau / (2 * n)) :
    ∃ s ev, cpmgSched dev n times q v detuning = .ok s ∧ s.play = .ok ev ∧
      ev.filter (fun e => e.2.sounds) = inSequence (times.map (fun tau =>
        { length := dev (.reset [q]) + ns4 + tau + dev (.rxy 90 (360 * (detuning * tau)) q)
            + dev (.measure [q] none false)
          plays := [(0, .reset [q]), (dev (.reset [q]), .rxy 90 0 q)] ++
            ((List.range n).map (fun k : Nat =>
              (dev (.reset [q]) + ns4 + tau / (2 * n) + k * (tau / n), .rxy 180 phi q)) ++
            [(dev (.reset [q]) + ns4 + tau, .rxy 90 (360 * (detuning * tau)) q),
             (dev (.reset [q]) + ns4 + tau + dev (.rxy 90 (360 * (detuning * tau)) q),
                .measure [q] none false)]) })) := by
  have hvxy : v ≠ .xy := by rcases hphi with ⟨rfl, -⟩ | ⟨rfl, -⟩ <;> simp
  obtain ⟨s, hs, hplay⟩ := cpmg_plays_all dev n times q v detuning hd ht hne hn
    (fun h => absurd h hvxy)
  refine ⟨s, _, hs, hplay, ?_⟩
  rw [cpmg_filter]
  congr 1
  apply List.map_congr_left
  intro tau htau
  have hn0 : (n : Rat) ≠ 0 := by
    rintro h
    have : n = 0 := by exact_mod_cast h
    subst this
    revert hn; decide
  have hf := hfit tau htau
  have hmax : max (dev (.rxy 180 phi q)) (tau / (2 * n)) = tau / (2 * n) := max_eq_right hf
  have hT : cpmgTurn dev (tau / (2 * n)) q v = (tau / n, [(0, .idle (tau / (2 * n))),
      (tau / (2 * n), .rxy 180 phi q), (tau / (2 * n), .idle (tau / (2 * n)))]) := by
    have h2 : tau / (2 * n) + tau / (2 * n) = tau / n := by field_simp; ring
    rcases hphi with ⟨rfl, rfl⟩ | ⟨rfl, rfl⟩ <;> simp only [cpmgTurn, hmax, h2]
  have hnt : (n : Rat) * (tau / n) = tau := by field_simp
  simp only [cpmgPart, hT, hvxy, if_false, hnt]
  congr 1
  rw [List.filter_append, List.filter_append, filter_later, repeated_filter, repeated_eq]
  congr 1
  congr 1
  · simp only [Act.sounds, List.filter_cons, List.filter_nil, later, List.map_flatMap, List.map_cons,
      List.map_nil, if_true, Bool.false_eq_true, if_false]
    rw [← List.map_eq_flatMap]
    apply List.map_congr_left
    intro k _
    simp only [Prod.mk.injEq, and_true]
    ring

theorem even_of_pow2 {n : Nat} (hn : isPow2 n = true) (h2 : 2 ≤ n) : 2 * (n / 2) = n := by
  simp only [isPow2, List.any_eq_true, List.mem_range, decide_eq_true_eq] at hn
  obtain ⟨k, -, rfl⟩ := hn
  cases k with
  | zero => simp at h2
  | succ k => rw [Nat.pow_succ]; omega

/-- The same for pi pulses about both axes in turn: the first, third, ... about the x axis, the
others about the y axis. -/
theorem cpmg_xy_plays (dev : Dev) (n : Nat) (times : List Rat) (q : String)
    (detuning : Rat) (hd : ∀ a, 0 ≤ dev a) (ht : ∀ tau ∈ times, 0 ≤ tau) (hne : times ≠ [])
    (hn : isPow2 n = true) (h2 : 2 ≤ n)
    (hx : ∀ tau ∈ times, dev (.rxy 180 0 q) ≤ tau / n)
    (hy : ∀ tau ∈ times, dev (.rxy 180 90 q) ≤ tau / (2 * n)) :
    ∃ s ev, cpmgSched dev n times q .xy detuning = .ok s ∧ s.play = .ok ev ∧
      ev.filter (fun e => e.2.sounds) = inSequence (times.map (fun tau =>
        { length := dev (.reset [q]) + ns4 + tau + dev (.rxy 90 (360 * (detuning * tau)) q)
            + dev (.measure [q] none false)
          plays := [(0, .reset [q]), (dev (.reset [q]), .rxy 90 0 q)] ++
            ((List.range (n / 2)).flatMap (fun k : Nat =>
              [(dev (.reset [q]) + ns4 + tau / (2 * n) + (2 * k) * (tau / n), .rxy 180 0 q),
               (dev (.reset [q]) + ns4 + tau / (2 * n) + (2 * k + 1) * (tau / n), .rxy 180 90 q)]) ++
            [(dev (.reset [q]) + ns4 + tau, .rxy 90 (360 * (detuning * tau)) q),
             (dev (.reset [q]) + ns4 + tau + dev (.rxy 90 (360 * (detuning * tau)) q),
                .measure [q] none false)]) })) := by
  obtain ⟨s, hs, hplay⟩ := cpmg_plays_all dev n times q .xy detuning hd ht hne hn
    (fun _ => h2)
  refine ⟨s, _, hs, hplay, ?_⟩
  rw [cpmg_filter]
  congr 1
  apply List.map_congr_left
  intro tau htau
  have hn0 : (n : Rat) ≠ 0 := by
    rintro h
    have : n = 0 := by exact_mod_cast h
    omega
  have he : (2 : Rat) * ((n / 2 : Nat) : Rat) = n := by exact_mod_cast even_of_pow2 hn h2
  set a := tau / (2 * n) with ha
  have h2a : tau / n = 2 * a := by rw [ha]; field_simp
  have hfy := hy tau htau
  have hfx := hx tau htau
  have ha0 : 0 ≤ a := div_nonneg (ht tau htau) (by positivity)
  have hT : cpmgTurn dev a q .xy = (4 * a, [(0, .idle a),
      (a, .rxy 180 0 q), (a, .idle (2 * a)), (3 * a, .rxy 180 90 q), (3 * a, .idle a)]) := by
    simp only [cpmgTurn]
    rw [max_eq_right hfy, max_eq_right (by linarith)]
    congr 1; ring
  have hnt : ((n / 2 : Nat) : Rat) * (4 * a) = tau := by
    have : ((n / 2 : Nat) : Rat) = n / 2 := by linarith
    rw [this, ha]; field_simp; norm_num
  simp only [cpmgPart, ← ha, hT, if_true, hnt]
  congr 1
  rw [List.filter_append, List.filter_append, filter_later, repeated_filter, repeated_eq]
  congr 1
  congr 1
  simp only [Act.sounds, List.filter_cons, List.filter_nil, later, List.map_flatMap, List.map_cons,
    List.map_nil, if_true, Bool.false_eq_true, if_false]
  congr 1
  funext k
  rw [h2a]
  simp only [List.cons.injEq, Prod.mk.injEq, and_true]
  constructor <;> ring

/-! ### Concrete cases -/

/-- A device: resets of 200 microseconds, pulses of 20 ns, measurements of 1 microsecond. -/
def exDev : Dev
  | .reset _ => 200 / 1000000
  | .rxy _ _ _ => 20 / 1000000000
  | .measure _ _ _ => 1 / 1000000
  | _ => 0

theorem exDev_nonneg (a : Act) : 0 ≤ exDev a := by
  cases a <;> simp only [exDev] <;> norm_num

/-- One refocusing pulse is an echo experiment, except that everything after the first pi/2 pulse is
4 ns late: the second pi/2 pulse is not the waiting time after the first. -/
example : ∃ s ev, cpmgSched exDev 1 [1 / 1000000] "q0" .x 0 = .ok s ∧ s.play = .ok ev ∧
    ev.filter (fun e => e.2.sounds) =
      [(0, .reset ["q0"]), (200000 / 1000000000, .rxy 90 0 "q0"),
       (200504 / 1000000000, .rxy 180 0 "q0"), (201004 / 1000000000, .rxy 90 0 "q0"),
       (201024 / 1000000000, .measure ["q0"] none false)] ∧
    (echoSched exDev [1 / 1000000] "q0").play = .ok
      [(0, .reset ["q0"]), (200000 / 1000000000, .rxy 90 0 "q0"),
       (200500 / 1000000000, .rxy 180 0 "q0"), (201000 / 1000000000, .rxy 90 0 "q0"),
       (201020 / 1000000000, .measure ["q0"] none false)] := by
  obtain ⟨s, ev, h1, h2, h3⟩ := cpmg_plays exDev 1 [1 / 1000000] "q0" .x 0 (.inl ⟨rfl, rfl⟩) 0
    exDev_nonneg (by simp) (by simp) (by decide) (by simp [exDev]; norm_num)
  refine ⟨s, ev, h1, h2, ?_, ?_⟩
  · rw [h3]; decide +kernel
  · rw [echo_plays exDev [1 / 1000000] "q0" exDev_nonneg (by simp) (by simp)]; decide +kernel

/-- The hypotheses of the theorem for both axes. -/
example : ∃ s ev, cpmgSched exDev 4 [1 / 1000000, 2 / 1000000] "q0" .xy 0 = .ok s ∧
    s.play = .ok ev ∧ (ev.filter (fun e => e.2.sounds)).length = 16 := by
  obtain ⟨s, ev, h1, h2, h3⟩ := cpmg_xy_plays exDev 4 [1 / 1000000, 2 / 1000000] "q0" 0
    exDev_nonneg (by simp; norm_num) (by simp) (by decide) (by decide) (by simp [exDev]; norm_num)
    (by simp [exDev]; norm_num)
  exact ⟨s, ev, h1, h2, by rw [h3]; decide +kernel⟩

/-- Numbers of pulses that are no power of two are rejected. -/
example : cpmgSched exDev 3 [1 / 1000000] "q0" .x 0 = .error .valueError := by rfl

/-- The T1, Ramsey and Rabi theorems. -/
example : (t1Sched exDev [0, 1 / 1000000] "q0").play = .ok
      [(0, .reset ["q0"]), (200000 / 1000000000, .rxy 180 0 "q0"),
       (200000 / 1000000000, .measure ["q0"] none false),
       (201000 / 1000000000, .reset ["q0"]), (401000 / 1000000000, .rxy 180 0 "q0"),
       (402000 / 1000000000, .measure ["q0"] none false)] := by
  rw [t1_plays exDev [0, 1 / 1000000] "q0" exDev_nonneg (by simp) (by simp)]; decide +kernel

example : (ramseySched exDev [1 / 1000000] "q0" 250000).play = .ok
      [(0, .reset ["q0"]), (200000 / 1000000000, .rxy 90 0 "q0"),
       (201000 / 1000000000, .rxy 90 90 "q0"),
       (201020 / 1000000000, .measure ["q0"] none false)] := by
  rw [ramsey_plays exDev [1 / 1000000] "q0" 250000 exDev_nonneg (by simp) (by simp)]; decide +kernel

end Verif.Experiments
