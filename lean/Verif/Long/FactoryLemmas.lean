/-
What the factories put out.
-/
import Verif.Long.BuilderLemmas
import Mathlib.Algebra.Order.Floor.Ring
import Mathlib.Tactic.FieldSimp
import Mathlib.Tactic.Positivity
import Mathlib.Algebra.Order.Group.Unbundled.Basic

set_option linter.unusedSimpArgs false
set_option linter.unusedVariables false

namespace Verif.Long

open Verif.Numeric (isClose)

/-! ### The output of what is built -/

/-- The waveforms of a builder, `s` after its start. -/
def waves (other : Nat → Rat → V) (pulses : List Info) (s : Rat) : V :=
  (pulses.map (fun p => Info.wave other p.pc s p)).sum

theorem waves_nil (other : Nat → Rat → V) (s : Rat) : waves other [] s = 0 := rfl

theorem waves_append (other : Nat → Rat → V) (a b : List Info) (s : Rat) :
    waves other (a ++ b) s = waves other a s + waves other b s := by
  unfold waves
  rw [List.map_append, List.sum_append]

theorem wave_shift (other : Nat → Rat → V) (pc : PC) (t0 t : Rat) (p : Info) :
    Info.wave other pc t { p with pc := pc, t0 := p.t0 + t0 } = Info.wave other p.pc (t - t0) p := by
  unfold Info.wave
  cases p.what with
  | wave w =>
    simp only [true_and]
    have h1 : (p.t0 + t0 ≤ t ∧ t < p.t0 + t0 + p.dur) ↔ (p.t0 ≤ t - t0 ∧ t - t0 < p.t0 + p.dur) := by
      constructor
      · rintro ⟨a, b⟩; constructor <;> linarith
      · rintro ⟨a, b⟩; constructor <;> linarith
    by_cases hc : p.t0 + t0 ≤ t ∧ t < p.t0 + t0 + p.dur
    · rw [if_pos hc, if_pos (h1.mp hc)]
      congr 1
      ring
    · rw [if_neg hc, if_neg (fun h => hc (h1.mpr h))]
  | offset v => rfl
  | nothing => rfl

theorem wave_other (other : Nat → Rat → V) {pc pc' : PC} (h : pc' ≠ pc) (t : Rat) (p : Info)
    (hp : p.pc = pc) : Info.wave other pc' t p = 0 := by
  unfold Info.wave
  cases p.what with
  | wave w =>
    simp only
    rw [if_neg]
    rintro ⟨h1, _⟩
    exact h (h1 ▸ hp)
  | offset v => rfl
  | nothing => rfl

theorem latest_shift (c t : Rat) : ∀ l : List (Rat × V),
    latest t (l.map (fun e => (e.1 + c, e.2))) = (latest (t - c) l).map (fun e => (e.1 + c, e.2))
  | [] => rfl
  | a :: l => by
    rw [List.map_cons, latest, latest, latest_shift c t l]
    have h1 : (a.1 + c ≤ t) ↔ (a.1 ≤ t - c) := by constructor <;> intro h <;> linarith
    by_cases ha : a.1 + c ≤ t
    · simp only [if_pos ha, if_pos (h1.mp ha)]
      cases latest (t - c) l with
      | none => rfl
      | some b =>
        simp only [Option.map_some, later]
        have h2 : (a.1 + c ≤ b.1 + c) ↔ (a.1 ≤ b.1) := by constructor <;> intro h <;> linarith
        by_cases hb : a.1 ≤ b.1
        · rw [if_pos hb, if_pos (h2.mpr hb)]; rfl
        · rw [if_neg hb, if_neg (fun h => hb (h2.mp h))]; rfl
    · simp only [if_neg ha, if_neg (fun h => ha (h1.mpr h)), later]

theorem valueAt_shift (c t : Rat) (l : List (Rat × V)) :
    valueAt (l.map (fun e => (e.1 + c, e.2))) t = valueAt l (t - c) := by
  unfold valueAt
  rw [latest_shift]
  cases latest (t - c) l <;> rfl

/-- A builder whose pulses are pulses: no voltage offsets among them. -/
def NoOffsets (pulses : List Info) : Prop := ∀ p ∈ pulses, ∀ v, p.what ≠ .offset v

theorem sets_append (a b : List Info) (pc : PC) : sets (a ++ b) pc = sets a pc ++ sets b pc := by
  unfold sets
  rw [List.filterMap_append]

theorem sets_noOffsets {l : List Info} (h : NoOffsets l) (pc : PC) : sets l pc = [] := by
  unfold sets
  rw [List.filterMap_eq_nil_iff]
  intro p hp
  cases hw : p.what with
  | wave w => rfl
  | offset v => exact absurd hw (h p hp v)
  | nothing => rfl

theorem sets_build (b : Builder) (hn : NoOffsets b.pulses) (pc : PC) (t0 : Rat) :
    sets (b.build pc t0) pc = b.offsets.map (fun e => (e.1 + t0, e.2)) := by
  unfold Builder.build
  rw [sets_append, sets_noOffsets (l := b.pulses.map _), List.append_nil]
  · unfold sets
    induction b.offsets with
    | nil => rfl
    | cons e l ih =>
      rw [List.map_cons, List.filterMap_cons, ih]
      simp
  · intro p hp v
    obtain ⟨q, hq, rfl⟩ := List.mem_map.mp hp
    exact hn q hq v

theorem sets_build_other (b : Builder) {pc pc' : PC} (h : pc' ≠ pc) (t0 : Rat) :
    sets (b.build pc t0) pc' = [] := by
  unfold sets
  rw [List.filterMap_eq_nil_iff]
  intro p hp
  have hpc : p.pc = pc := by
    unfold Builder.build at hp
    rcases List.mem_append.mp hp with hp | hp
    · obtain ⟨q, _, rfl⟩ := List.mem_map.mp hp; rfl
    · obtain ⟨q, _, rfl⟩ := List.mem_map.mp hp; rfl
  cases hw : p.what with
  | wave w => rfl
  | offset v =>
    simp only
    rw [if_neg]
    rw [hpc]
    exact fun h' => h h'.symm
  | nothing => rfl

theorem build_pc (b : Builder) (pc : PC) (t0 : Rat) : ∀ p ∈ b.build pc t0, p.pc = pc := by
  intro p hp
  unfold Builder.build at hp
  rcases List.mem_append.mp hp with hp | hp
  · obtain ⟨q, _, rfl⟩ := List.mem_map.mp hp; rfl
  · obtain ⟨q, _, rfl⟩ := List.mem_map.mp hp; rfl

theorem sum_zero {l : List V} (h : ∀ x ∈ l, x = 0) : l.sum = 0 := by
  induction l with
  | nil => rfl
  | cons a l ih =>
    rw [List.sum_cons, h a List.mem_cons_self, ih (fun x hx => h x (List.mem_cons_of_mem _ hx)), add_zero]

/-- Nothing is put out on another port-clock. -/
theorem build_output_other (other : Nat → Rat → V) (b : Builder) {pc pc' : PC} (h : pc' ≠ pc)
    (t0 t : Rat) : output other (b.build pc t0) pc' t = 0 := by
  unfold output
  rw [sets_build_other b h, valueAt_nil, sum_zero]
  · rw [add_zero]
  · intro x hx
    obtain ⟨p, hp, rfl⟩ := List.mem_map.mp hx
    exact wave_other other h t p (build_pc b pc t0 p hp)

/-- The output of what is built. -/
theorem build_output (other : Nat → Rat → V) (b : Builder) (h : Inv b.offs)
    (hn : Near b.opEnd (0, 0) b.offs) (hno : NoOffsets b.pulses) (pc : PC) (t0 t : Rat) :
    output other (b.build pc t0) pc t =
      held b.offs b.opEnd (t - t0) + waves other b.pulses (t - t0) := by
  unfold output
  rw [sets_build b hno, valueAt_shift, offsets_value b h hn]
  congr 1
  unfold Builder.build waves
  rw [List.map_append, List.sum_append, sum_zero (l := List.map _ (List.map _ b.offsets)), zero_add,
    List.map_map]
  · congr 1
    apply List.map_congr_left
    intro p _
    exact wave_shift other pc t0 t p
  · intro x hx
    obtain ⟨p, hp, rfl⟩ := List.mem_map.mp hx
    obtain ⟨q, _, rfl⟩ := List.mem_map.mp hp
    rfl

/-! ### Steps -/

theorem opEnd_empty : Builder.empty.opEnd = 0 := by simp [Builder.opEnd, Builder.empty, maxDefault]

theorem opEnd_addPulse (b : Builder) (h : Inv b.offs) (pc : PC) (d : Rat) (w : What) (hd : 0 ≤ d) :
    (b.addPulse [⟨pc, 0, d, w⟩] true).opEnd = b.opEnd + d := by
  have hb : ∀ p ∈ b.pulses, p.t0 + p.dur ≤ b.opEnd := fun p hp => opEnd_ge_pulse b hp
  have e : (b.addPulse [⟨pc, 0, d, w⟩] true) =
      ⟨b.pulses ++ [⟨pc, 0 + b.opEnd, d, w⟩], b.offs⟩ := by
    simp [Builder.addPulse]
  rw [e]
  have hlast : (match b.offs.getLast? with | some o => o.stop | none => 0) ≤ b.opEnd := le_max_right _ _
  generalize hE : b.opEnd = E at *
  unfold Builder.opEnd
  simp only [List.map_append, List.map_cons, List.map_nil]
  have hm : maxDefault (b.pulses.map (fun p => p.t0 + p.dur) ++ [0 + E + d]) = E + d := by
    apply le_antisymm
    · cases hp : b.pulses with
      | nil => simp [maxDefault]
      | cons a l =>
        simp only [List.map_cons, List.cons_append, maxDefault]
        rw [hp] at hb
        apply foldl_max_le
        · have := hb a List.mem_cons_self; linarith
        · intro x hx
          rcases List.mem_append.mp hx with hx | hx
          · obtain ⟨q, hq, rfl⟩ := List.mem_map.mp hx
            have := hb q (List.mem_cons_of_mem _ hq); linarith
          · rw [List.mem_singleton.mp hx]; linarith
    · have := maxDefault_ge (l := b.pulses.map (fun p => p.t0 + p.dur) ++ [0 + E + d])
        (x := 0 + E + d) (by simp)
      linarith
  rw [hm]
  apply max_eq_left
  exact le_trans hlast (by linarith)

theorem opEnd_concat (b : Builder) (o : Off) (h : b.opEnd ≤ o.stop) :
    (⟨b.pulses, b.offs ++ [o]⟩ : Builder).opEnd = o.stop := by
  unfold Builder.opEnd
  simp only [List.getLast?_concat]
  apply max_eq_right
  exact le_trans (le_max_left _ _) h

theorem heldFrom_concat_none {bg : V} {offs : List Off} {v : V} {a : Rat}
    (hs : ∀ x ∈ offs, x.stop ≤ a) (t : Rat) :
    heldFrom bg (offs ++ [⟨v, a, none⟩]) t = if a ≤ t then v else heldFrom bg offs t := by
  unfold heldFrom
  rw [List.find?_append]
  have h1 : [(⟨v, a, none⟩ : Off)].find? (Off.covers t) = none := by
    simp [Off.covers]
  rw [h1, Option.or_none, List.filter_append]
  by_cases ht : a ≤ t
  · have h2 : offs.find? (Off.covers t) = none := by
      rw [List.find?_eq_none]
      intro o ho
      have := hs o ho
      unfold Off.covers
      cases hd : o.dur with
      | none => simp
      | some d =>
        simp only [decide_eq_true_eq, not_and, not_lt]
        intro _
        rw [Off.stop, hd] at this
        simp only [Option.getD_some] at this
        linarith
    rw [h2, if_pos ht]
    simp [ht]
  · rw [if_neg ht]
    simp [ht]

theorem heldFrom_concat_some {bg : V} {offs : List Off} {v : V} {a d : Rat}
    (hs : ∀ x ∈ offs, x.stop ≤ a) (t : Rat) :
    heldFrom bg (offs ++ [⟨v, a, some d⟩]) t =
      if a ≤ t ∧ t < a + d then v else heldFrom bg offs t := by
  unfold heldFrom
  rw [List.find?_append, List.filter_append]
  have h3 : [(⟨v, a, some d⟩ : Off)].filter (fun o => decide (o.dur = none ∧ o.t0 ≤ t)) = [] := by
    simp
  rw [h3, List.append_nil]
  by_cases ht : a ≤ t ∧ t < a + d
  · have h2 : offs.find? (Off.covers t) = none := by
      rw [List.find?_eq_none]
      intro o ho
      have := hs o ho
      unfold Off.covers
      cases hd : o.dur with
      | none => simp
      | some d =>
        simp only [decide_eq_true_eq, not_and, not_lt]
        intro _
        rw [Off.stop, hd] at this
        simp only [Option.getD_some] at this
        linarith [ht.1]
    rw [h2, if_pos ht]
    simp [Off.covers, ht]
  · rw [if_neg ht]
    have h1 : [(⟨v, a, some d⟩ : Off)].find? (Off.covers t) = none := by
      rw [List.find?_singleton, if_neg]
      simp only [Off.covers, decide_eq_true_eq]
      exact ht
    rw [h1, Option.or_none]

theorem held_eq (offs : List Off) (E t : Rat) : held offs E t = if E ≤ t then 0 else heldFrom 0 offs t := rfl

/-- Where a builder stands: its end, the offset held and the waveforms. -/
structure State (other : Nat → Rat → V) (b : Builder) (E : Rat) (f g : Rat → V) : Prop where
  inv : Inv b.offs
  opEnd : b.opEnd = E
  held : ∀ t, heldFrom 0 b.offs t = f t
  waves : ∀ t, waves other b.pulses t = g t
  no : NoOffsets b.pulses

theorem state_empty (other : Nat → Rat → V) :
    State other Builder.empty 0 (fun _ => 0) (fun _ => 0) :=
  ⟨inv_nil, opEnd_empty, fun _ => rfl, fun _ => rfl, by simp [NoOffsets, Builder.empty]⟩

theorem state_offset {other : Nat → Rat → V} {b : Builder} {E : Rat} {f g : Rat → V}
    (h : State other b E f g) (v : V) (rel m : Rat) (hrel : 0 ≤ rel) :
    ∃ b', b.addOffset v none rel true m = .ok b' ∧ b'.pulses = b.pulses ∧
      b'.offs = b.offs ++ [⟨v, rel + E, none⟩] ∧
      State other b' (rel + E) (fun t => if rel + E ≤ t then v else f t) g := by
  have hadd := addOffset_append b h.inv v none rel m hrel (by simp)
  have hs : ∀ x ∈ b.offs, x.stop ≤ rel + E := by
    intro x hx
    have := opEnd_ge_off b h.inv hx
    rw [h.opEnd] at this
    linarith
  rw [h.opEnd] at hadd
  refine ⟨_, hadd, rfl, rfl, ?_, ?_, ?_, h.waves, h.no⟩
  · exact inv_concat h.inv hs (by simp [Off.stop])
  · have := opEnd_concat b ⟨v, rel + E, none⟩ (by simp [Off.stop, h.opEnd]; linarith)
    rw [this]; simp [Off.stop]
  · intro t
    simp only
    rw [heldFrom_concat_none hs t, h.held t]

theorem state_offset_dur {other : Nat → Rat → V} {b : Builder} {E : Rat} {f g : Rat → V}
    (h : State other b E f g) (v : V) (d m : Rat) (hm : 0 ≤ m) (hd : m ≤ d) :
    ∃ b', b.addOffset v (some d) 0 true m = .ok b' ∧ b'.pulses = b.pulses ∧
      b'.offs = b.offs ++ [⟨v, E, some d⟩] ∧
      State other b' (E + d) (fun t => if E ≤ t ∧ t < E + d then v else f t) g := by
  have hadd := addOffset_append b h.inv v (some d) 0 m (le_refl _) (by
    intro d' hd'; cases hd'; exact hd)
  have hs : ∀ x ∈ b.offs, x.stop ≤ E := by
    intro x hx
    have := opEnd_ge_off b h.inv hx
    rw [h.opEnd] at this
    exact this
  rw [h.opEnd, zero_add] at hadd
  refine ⟨_, hadd, rfl, rfl, ?_, ?_, ?_, h.waves, h.no⟩
  · exact inv_concat h.inv hs (by simp [Off.stop]; linarith)
  · have := opEnd_concat b ⟨v, E, some d⟩ (by simp [Off.stop, h.opEnd]; linarith)
    rw [this]; simp [Off.stop]
  · intro t
    simp only
    rw [heldFrom_concat_some hs t, h.held t]

theorem state_pulse {other : Nat → Rat → V} {b : Builder} {E : Rat} {f g : Rat → V}
    (h : State other b E f g) (pc : PC) (d : Rat) (w : Wave) (hd : 0 ≤ d) :
    State other (b.addPulse [⟨pc, 0, d, .wave w⟩] true) (E + d) f
      (fun t => g t + if E ≤ t ∧ t < E + d then w.value other d (t - E) else 0) := by
  refine ⟨h.inv, ?_, h.held, ?_, ?_⟩
  · rw [opEnd_addPulse b h.inv pc d _ hd, h.opEnd]
  · intro t
    have e : (b.addPulse [⟨pc, 0, d, .wave w⟩] true).pulses =
        b.pulses ++ [⟨pc, E, d, .wave w⟩] := by
      simp [Builder.addPulse, h.opEnd]
    rw [e, waves_append, h.waves]
    simp [waves, Info.wave]
  · intro p hp v
    have e : (b.addPulse [⟨pc, 0, d, .wave w⟩] true).pulses =
        b.pulses ++ [⟨pc, E, d, .wave w⟩] := by
      simp [Builder.addPulse, h.opEnd]
    rw [e] at hp
    rcases List.mem_append.mp hp with hp | hp
    · exact h.no p hp v
    · rw [List.mem_singleton.mp hp]; simp

/-- The output from the state. -/
theorem state_output {other : Nat → Rat → V} {b : Builder} {E : Rat} {f g : Rat → V}
    (h : State other b E f g) (hn : Near E (0, 0) b.offs) (pc : PC) (t0 t : Rat) :
    output other (b.build pc t0) pc t = (if E ≤ t - t0 then 0 else f (t - t0)) + g (t - t0) := by
  rw [build_output other b h.inv (by rw [h.opEnd]; exact hn) h.no, held_eq, h.opEnd, h.held, h.waves]

/-! ### Offsets without durations -/

theorem loop_none (E : Rat) : ∀ (offs : List Off) (bg : V), (∀ o ∈ offs, o.dur = none) →
    (offsetLoop E bg offs).1 = offs.map (fun o => (o.t0, o.v)) ∧
    (offsetLoop E bg offs).2 = (offs.getLast?.map (fun o => o.v)).getD bg
  | [], bg, _ => by simp [offsetLoop]
  | o :: rest, bg, h => by
    obtain ⟨h1, h2⟩ := loop_none E rest o.v (fun x hx => h x (List.mem_cons_of_mem _ hx))
    rw [offsetLoop, h o List.mem_cons_self]
    simp only [h1, h2, List.map_cons, true_and]
    rw [List.getLast?_cons]
    cases rest.getLast? <;> rfl

theorem heldFrom_last {offs : List Off} {bg : V} {t : Rat} (h : ∀ o ∈ offs, o.dur = none)
    (ht : ∀ o ∈ offs, o.t0 ≤ t) :
    heldFrom bg offs t = (offs.getLast?.map (fun o => o.v)).getD bg := by
  unfold heldFrom
  have h1 : offs.find? (Off.covers t) = none := by
    rw [List.find?_eq_none]
    intro o ho
    simp [Off.covers, h o ho]
  have h2 : offs.filter (fun o => decide (o.dur = none ∧ o.t0 ≤ t)) = offs := by
    rw [List.filter_eq_self]
    intro o ho
    simp [h o ho, ht o ho]
  rw [h1, h2]
  cases offs.getLast? <;> rfl

/-- If 0 is held in the end, no setting is added at the end. -/
theorem offsets_none {b : Builder} (h : ∀ o ∈ b.offs, o.dur = none) {t : Rat}
    (ht : ∀ o ∈ b.offs, o.t0 ≤ t) (h0 : heldFrom 0 b.offs t = 0) :
    b.offsets = b.offs.map (fun o => (o.t0, o.v)) := by
  unfold Builder.offsets
  by_cases he : b.offs = []
  · rw [if_pos he, he]; rfl
  · rw [if_neg he]
    obtain ⟨h1, h2⟩ := loop_none b.opEnd b.offs (0, 0) h
    have h3 := heldFrom_last (bg := 0) h ht
    rw [h0] at h3
    have h4 : (offsetLoop b.opEnd (0, 0) b.offs).2 = 0 := by rw [h2]; exact h3.symm
    simp only
    rw [h1, h4]
    have : (isClose (0 : V).1 0 && isClose (0 : V).2 0) = true := by
      rw [Bool.and_eq_true, isClose_zero, isClose_zero]
      exact ⟨rfl, rfl⟩
    rw [if_pos this, List.append_nil]

/-! ### Square pulses -/

/-- What is needed of a replacement. -/
structure Replaces (other : Nat → Rat → V) (p : Info) (new : List Info) : Prop where
  output : ∀ pc t, Long.output other new pc t = Info.wave other pc t p
  pc : ∀ q ∈ new, q.pc = p.pc
  sets : ∀ pc, ∀ e ∈ Long.sets new pc, p.t0 ≤ e.1 ∧ e.1 < p.t0 + p.dur
  ends : ∀ pc t, p.t0 + p.dur ≤ t → valueAt (Long.sets new pc) t = 0
  short : ∀ q ∈ new, (∀ amp, q.what = .wave (.square amp) → q.dur = 4) ∧
    (∀ amp offset, q.what = .wave (.ramp amp offset) → q.dur ≤ 2000)

theorem longSquare_ok (other : Nat → Rat → V) (amp : V) (dur : Rat) (pc : PC) (t0 : Rat)
    (hd : 4 ≤ dur) :
    ∃ new, longSquare amp dur pc t0 = .ok new ∧
      Replaces other ⟨pc, t0, dur, .wave (.square amp)⟩ new := by
  have s0 := state_empty other
  obtain ⟨b1, hb1, hp1, ho1, s1⟩ := state_offset s0 amp 0 4 (le_refl _)
  obtain ⟨b2, hb2, hp2, ho2, s2⟩ := state_offset s1 (0, 0) (dur - 4) 4 (by linarith)
  have s3 := state_pulse s2 pc 4 (.square amp) (by norm_num)
  have e0 : (0 : Rat) + 0 = 0 := by norm_num
  rw [e0] at ho1 s1 s2 s3 ho2
  refine ⟨(b2.addPulse [⟨pc, 0, 4, .wave (.square amp)⟩] true).build pc t0, ?_, ?_⟩
  · unfold longSquare
    rw [if_neg (by linarith), hb1]
    simp only
    rw [hb2]
  set b3 := b2.addPulse [⟨pc, 0, 4, .wave (.square amp)⟩] true with hb3
  have hoffs : b3.offs = [⟨amp, 0, none⟩, ⟨(0, 0), dur - 4 + 0, none⟩] := by
    show b2.offs = _
    rw [ho2, ho1]; rfl
  have hnone : ∀ o ∈ b3.offs, o.dur = none := by
    rw [hoffs]; intro o ho
    simp only [List.mem_cons, List.not_mem_nil, or_false] at ho
    rcases ho with rfl | rfl <;> rfl
  have hlast : heldFrom 0 b3.offs dur = 0 := by
    rw [s3.held, if_pos (by linarith)]; rfl
  have hle : ∀ o ∈ b3.offs, 0 ≤ o.t0 ∧ o.t0 < dur := by
    rw [hoffs]; intro o ho
    simp only [List.mem_cons, List.not_mem_nil, or_false] at ho
    rcases ho with rfl | rfl
    · simp only; constructor <;> linarith
    · simp only; constructor <;> linarith
  have hoff := offsets_none hnone (fun o ho => le_of_lt (hle o ho).2) hlast
  have hE : b3.opEnd = dur := by rw [s3.opEnd]; ring
  have hsets : sets (b3.build pc t0) pc = b3.offs.map (fun o => (o.t0 + t0, o.v)) := by
    rw [sets_build b3 s3.no, hoff, List.map_map]; rfl
  have hn := near_of_none (dur - 4 + 0 + 4) b3.offs (0, 0) hnone
  refine ⟨?_, build_pc b3 pc t0, ?_, ?_, ?_⟩
  · intro pc' t
    by_cases hpc : pc' = pc
    · subst hpc
      rw [state_output s3 hn]
      simp only [Info.wave, true_and, Wave.value]
      by_cases h1 : dur - 4 + 0 + 4 ≤ t - t0
      · rw [if_pos h1, if_neg (by rintro ⟨_, h⟩; linarith), if_neg (by rintro ⟨_, h⟩; linarith)]
        simp
      · rw [if_neg h1]
        by_cases h2 : dur - 4 + 0 ≤ t - t0
        · rw [if_pos h2, if_pos ⟨h2, by linarith⟩, if_pos ⟨by linarith, by linarith⟩]
          exact Prod.ext (by simp) (by simp)
        · rw [if_neg h2, if_neg (show ¬ (dur - 4 + 0 ≤ t - t0 ∧ t - t0 < dur - 4 + 0 + 4) from fun h => h2 h.1)]
          by_cases h3 : 0 ≤ t - t0
          · rw [if_pos h3, if_pos ⟨by linarith, by linarith⟩]; simp
          · rw [if_neg h3, if_neg (by rintro ⟨h, _⟩; apply h3; linarith)]; simp
    · rw [build_output_other other b3 hpc]
      exact (wave_other other hpc t _ rfl).symm
  · intro pc' e he
    by_cases hpc : pc' = pc
    · subst hpc
      rw [hsets] at he
      obtain ⟨o, ho, rfl⟩ := List.mem_map.mp he
      have := hle o ho
      simp only
      constructor <;> linarith
    · rw [sets_build_other b3 hpc] at he; simp at he
  · intro pc' t ht
    simp only at ht
    by_cases hpc : pc' = pc
    · subst hpc
      rw [sets_build b3 s3.no, valueAt_shift, offsets_value b3 s3.inv (by rw [s3.opEnd]; exact hn), held_eq,
        if_pos (by rw [hE]; linarith)]
    · rw [sets_build_other b3 hpc]; rfl
  · intro q hq
    unfold Builder.build at hq
    rcases List.mem_append.mp hq with hq | hq
    · obtain ⟨e, _, rfl⟩ := List.mem_map.mp hq
      simp
    · obtain ⟨r, hr, rfl⟩ := List.mem_map.mp hq
      have e : b3.pulses = [⟨pc, 0 + b2.opEnd, 4, .wave (.square amp)⟩] := by
        rw [hb3]; simp [Builder.addPulse, hp2, hp1, Builder.empty]
      rw [e] at hr
      rw [List.mem_singleton.mp hr]
      simp

end Verif.Long
