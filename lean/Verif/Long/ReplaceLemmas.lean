/-
Replacing long pulses.
-/
import Verif.Long.RampLemmas

set_option linter.unusedSimpArgs false
set_option linter.unusedVariables false

namespace Verif.Long

open Verif.Numeric (isClose)

instance (p : Info) : Decidable p.long := by
  unfold Info.long
  cases h : p.what with
  | wave w =>
    cases w with
    | square amp => exact if h : 100 ≤ p.dur then isTrue (.inl ⟨amp, rfl, h⟩) else isFalse (by
        rintro (⟨_, _, h'⟩ | ⟨_, _, h', _⟩)
        · exact h h'
        · simp at h')
    | ramp amp offset => exact if h : 2000 ≤ p.dur then isTrue (.inr ⟨amp, offset, rfl, h⟩) else isFalse (by
        rintro (⟨_, h', _⟩ | ⟨_, _, _, h'⟩)
        · simp at h'
        · exact h h')
    | other n => exact isFalse (by rintro (⟨_, h', _⟩ | ⟨_, _, h', _⟩) <;> simp at h')
  | offset v => exact isFalse (by rintro (⟨_, h', _⟩ | ⟨_, _, h', _⟩) <;> simp at h')
  | nothing => exact isFalse (by rintro (⟨_, h', _⟩ | ⟨_, _, h', _⟩) <;> simp at h')

theorem replacement_none {p : Info} : replacement p = none ↔ ¬ p.long := by
  unfold replacement Info.long
  cases h : p.what with
  | wave w =>
    cases w with
    | square amp =>
      by_cases hd : 100 ≤ p.dur
      · simp [hd]
      · simp [hd]
    | ramp amp offset =>
      by_cases hd : 2000 ≤ p.dur
      · simp [hd]
      · simp [hd]
    | other n => simp
  | offset v => simp
  | nothing => simp

theorem replacement_ok (other : Nat → Rat → V) {p : Info} (hl : p.long) (hf : p.fine) :
    ∃ new, replacement p = some (.ok new) ∧ Replaces other p new := by
  rcases hl with ⟨amp, hw, hd⟩ | ⟨amp, offset, hw, hd⟩
  · obtain ⟨new, h1, h2⟩ := longSquare_ok other amp p.dur p.pc p.t0 (by linarith)
    refine ⟨new, ?_, ?_⟩
    · simp only [replacement, hw, if_pos hd, h1]
    · have : p = ⟨p.pc, p.t0, p.dur, .wave (.square amp)⟩ := by rw [← hw]
      rw [this]; exact h2
  · obtain ⟨⟨n, hn⟩, ho⟩ := hf amp offset hw
    have hn0 : 0 < n := by
      have : (0 : Rat) < n := by rw [← hn]; linarith
      exact_mod_cast this
    obtain ⟨new, h1, h2⟩ := longRamp_ok other amp n p.pc offset p.t0 2000 (by norm_num) (by norm_num) hn0 ho
    refine ⟨new, ?_, ?_⟩
    · simp only [replacement, hw, if_pos hd]
      rw [hn, h1]
    · have : p = ⟨p.pc, p.t0, n, .wave (.ramp amp offset)⟩ := by rw [← hw, ← hn]
      rw [this]; exact h2

theorem long_not_set {p : Info} (h : p.long) (pc : PC) : sets [p] pc = [] := by
  rcases h with ⟨amp, hw, _⟩ | ⟨amp, offset, hw, _⟩ <;> simp [sets, hw]

theorem long_dur {p : Info} (h : p.long) : 0 < p.dur := by
  rcases h with ⟨_, _, h⟩ | ⟨_, _, _, h⟩ <;> linarith

theorem output_congr {other : Nat → Rat → V} {a b : List Info} {pc : PC} {t : Rat}
    (h1 : valueAt (sets a pc) t = valueAt (sets b pc) t)
    (h2 : (a.map (Info.wave other pc t)).sum = (b.map (Info.wave other pc t)).sum) :
    output other a pc t = output other b pc t := by
  unfold output; rw [h1, h2]

/-- What holds in the loop for the pulses still to be looked at. -/
def Ready (pre post : List Info) : Prop :=
  pre.Pairwise (fun p q => p.long → q.long → p.pc = q.pc →
    p.t0 + p.dur ≤ q.t0 ∨ q.t0 + q.dur ≤ p.t0) ∧
  ∀ p ∈ pre, p.long →
    (∀ e ∈ sets (pre.reverse ++ post) p.pc, e.1 < p.t0 ∨ p.t0 + p.dur ≤ e.1) ∧
      valueAt (sets (pre.reverse ++ post) p.pc) p.t0 = 0

theorem sets_without {pre post : List Info} {p : Info} (h : p.long) (pc : PC) :
    sets ((p :: pre).reverse ++ post) pc = sets (pre.reverse ++ post) pc := by
  rw [List.reverse_cons, sets_append, sets_append, sets_append, long_not_set h, List.append_nil]

/-- A replacement and the settings of the others. -/
theorem sets_new {other : Nat → Rat → V} {p : Info} {new : List Info} (hr : Replaces other p new)
    (hl : p.long) {a : List Info}
    (ha : ∀ e ∈ sets a p.pc, e.1 < p.t0 ∨ p.t0 + p.dur ≤ e.1) (ha0 : valueAt (sets a p.pc) p.t0 = 0)
    (pc : PC) (t : Rat) :
    valueAt (sets (a ++ new) pc) t = valueAt (sets a pc) t + valueAt (sets new pc) t := by
  rw [sets_append]
  by_cases hpc : pc = p.pc
  · subst hpc
    exact valueAt_add (s := p.t0) (e := p.t0 + p.dur) (by linarith [long_dur hl]) (hr.sets _) ha ha0
      (hr.ends _) t
  · have : sets new pc = [] := by
      unfold sets
      rw [List.filterMap_eq_nil_iff]
      intro q hq
      cases hw : q.what with
      | wave w => rfl
      | offset v =>
        simp only
        rw [if_neg]
        rw [hr.pc q hq]
        exact fun h => hpc h.symm
      | nothing => rfl
    rw [this, List.append_nil, valueAt_nil, add_zero]

theorem ready_step {other : Nat → Rat → V} {p : Info} {pre post new : List Info}
    (h : Ready (p :: pre) post) (hl : p.long) (hr : Replaces other p new) :
    Ready pre (post ++ new) := by
  obtain ⟨h1, h2⟩ := h
  rw [List.pairwise_cons] at h1
  obtain ⟨hp1, hp2⟩ := h2 p List.mem_cons_self hl
  rw [sets_without hl] at hp1 hp2
  refine ⟨h1.2, ?_⟩
  intro q hq hql
  obtain ⟨hq1, hq2⟩ := h2 q (List.mem_cons_of_mem _ hq) hql
  rw [sets_without hl] at hq1 hq2
  rw [← List.append_assoc]
  have hsep := h1.1 q hq hl hql
  refine ⟨?_, ?_⟩
  · intro e he
    rw [sets_append] at he
    rcases List.mem_append.mp he with he | he
    · exact hq1 e he
    · have hpc : p.pc = q.pc := by
        unfold sets at he
        rw [List.mem_filterMap] at he
        obtain ⟨r, hr', he'⟩ := he
        cases hw : r.what with
        | wave w => rw [hw] at he'; simp at he'
        | nothing => rw [hw] at he'; simp at he'
        | offset v =>
          rw [hw] at he'
          simp only at he'
          split at he'
          · rename_i hrc
            rw [← hrc, hr.pc r hr']
          · cases he'
      have hin := hr.sets _ e he
      rcases hsep hpc with h | h
      · left; linarith
      · right; linarith
  · rw [sets_new hr hl hp1 hp2, hq2, zero_add]
    by_cases hpc : p.pc = q.pc
    · rcases hsep hpc with h | h
      · exact hr.ends _ _ h
      · apply valueAt_before
        intro e he
        have := hr.sets _ e he
        have := long_dur hql
        linarith
    · have : sets new q.pc = [] := by
        unfold sets
        rw [List.filterMap_eq_nil_iff]
        intro r hr'
        cases hw : r.what with
        | wave w => rfl
        | offset v =>
          simp only
          rw [if_neg]
          rw [hr.pc r hr']
          exact hpc
        | nothing => rfl
      rw [this]; rfl

theorem replaceLoop_ok (other : Nat → Rat → V) : ∀ (pre post : List Info), (∀ p ∈ pre, p.long → p.fine) →
    Ready pre post →
    ∃ out, replaceLoop pre post = .ok out ∧
      (∀ pc t, output other out pc t = output other (pre.reverse ++ post) pc t) ∧
      (∃ news, out = pre.reverse.filter (fun p => ¬ p.long) ++ post ++ news ∧
        ∀ q ∈ news, (∀ amp, q.what = .wave (.square amp) → q.dur = 4) ∧
          (∀ amp offset, q.what = .wave (.ramp amp offset) → q.dur ≤ 2000))
  | [], post, _, _ => ⟨post, rfl, fun _ _ => rfl, [], by simp, by simp⟩
  | p :: pre, post, hf, h => by
    have hf' := fun q hq => hf q (List.mem_cons_of_mem p hq)
    by_cases hl : p.long
    · obtain ⟨new, hnew, hr⟩ := replacement_ok other hl (hf p List.mem_cons_self hl)
      obtain ⟨out, ho, hout, news, hnews, hshort⟩ := replaceLoop_ok other pre (post ++ new) hf' (ready_step h hl hr)
      refine ⟨out, ?_, ?_, new ++ news, ?_, ?_⟩
      · rw [replaceLoop, hnew]; exact ho
      · intro pc t
        rw [hout pc t]
        obtain ⟨hp1, hp2⟩ := h.2 p List.mem_cons_self hl
        rw [sets_without hl] at hp1 hp2
        unfold output
        rw [← List.append_assoc, sets_new hr hl hp1 hp2, sets_without hl]
        have ho := hr.output pc t
        unfold output at ho
        rw [List.reverse_cons]
        simp only [List.map_append, List.sum_append, List.map_cons, List.map_nil, List.sum_cons,
          List.sum_nil, add_zero]
        rw [← ho]
        abel
      · rw [hnews, List.reverse_cons, List.filter_append]
        simp [hl]
      · intro q hq
        rcases List.mem_append.mp hq with hq | hq
        · exact hr.short q hq
        · exact hshort q hq
    · have h' : Ready pre (p :: post) := by
        obtain ⟨h1, h2⟩ := h
        refine ⟨(List.pairwise_cons.mp h1).2, ?_⟩
        intro q hq hql
        have := h2 q (List.mem_cons_of_mem _ hq) hql
        simpa using this
      obtain ⟨out, ho, hout, news, hnews, hshort⟩ := replaceLoop_ok other pre (p :: post) hf' h'
      refine ⟨out, ?_, ?_, news, ?_, hshort⟩
      · rw [replaceLoop, replacement_none.mpr hl]; exact ho
      · intro pc t
        rw [hout pc t]
        simp
      · rw [hnews, List.reverse_cons, List.filter_append]
        simp [hl]

theorem ready_of_separate {infos : List Info} (h : Separate infos) : Ready infos.reverse [] := by
  obtain ⟨h1, h2⟩ := h
  refine ⟨?_, ?_⟩
  · rw [List.pairwise_reverse]
    apply h1.imp
    intro a b hab ha hb hpc
    exact (hab hb ha hpc.symm).symm
  · intro p hp hl
    rw [List.reverse_reverse, List.append_nil]
    exact h2 p (List.mem_reverse.mp hp) hl

/-! ### Errors -/

theorem longSquare_noError {amp : V} {dur : Rat} {pc : PC} {t0 : Rat} (h : 4 ≤ dur) {e : Err} :
    longSquare amp dur pc t0 ≠ .error e := by
  obtain ⟨new, h1, _⟩ := longSquare_ok (fun _ _ => 0) amp dur pc t0 h
  rw [h1]; simp

theorem replaceLoop_error : ∀ (pre post : List Info) (e : Err), replaceLoop pre post = .error e →
    ∃ p ∈ pre, replacement p = some (.error e)
  | [], post, e, h => by simp [replaceLoop] at h
  | p :: pre, post, e, h => by
    rw [replaceLoop] at h
    cases hr : replacement p with
    | none =>
      rw [hr] at h
      obtain ⟨q, hq, h'⟩ := replaceLoop_error pre _ e h
      exact ⟨q, List.mem_cons_of_mem _ hq, h'⟩
    | some r =>
      rw [hr] at h
      cases r with
      | error e' =>
        simp only at h
        cases h
        exact ⟨p, List.mem_cons_self, hr⟩
      | ok new =>
        obtain ⟨q, hq, h'⟩ := replaceLoop_error pre _ e h
        exact ⟨q, List.mem_cons_of_mem _ hq, h'⟩

theorem replaceLoop_error_of : ∀ (pre post : List Info) (p : Info) (e : Err), p ∈ pre →
    replacement p = some (.error e) → ∃ e', replaceLoop pre post = .error e'
  | [], post, p, e, hp, h => by simp at hp
  | q :: pre, post, p, e, hp, h => by
    rw [replaceLoop]
    rcases List.mem_cons.mp hp with rfl | hp
    · rw [h]; exact ⟨e, rfl⟩
    · cases hr : replacement q with
      | none => exact replaceLoop_error_of pre _ p e hp h
      | some r =>
        cases r with
        | error e' => exact ⟨e', rfl⟩
        | ok new => exact replaceLoop_error_of pre _ p e hp h

end Verif.Long
