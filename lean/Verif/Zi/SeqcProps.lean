/-
Programs of Zurich Instruments sequencers play what they should.
-/
import Verif.Zi.SeqcSpec
import Verif.Zi.TimeLemmas

set_option linter.unusedVariables false
set_option linter.unusedSimpArgs false

namespace Verif.Zi

open Spec

variable {ι α : Type}

/-! ### Waveforms -/

theorem firsts_mem [DecidableEq ι] : ∀ (l seen : List ι) (x : ι), x ∈ firsts seen l ↔ x ∈ l ∧ x ∉ seen
  | [], seen, x => by simp [firsts]
  | y :: rest, seen, x => by
    unfold firsts
    by_cases hy : y ∈ seen
    · rw [if_pos hy, firsts_mem rest seen x]
      constructor
      · rintro ⟨h1, h2⟩; exact ⟨List.mem_cons_of_mem _ h1, h2⟩
      · rintro ⟨h1, h2⟩
        rcases List.mem_cons.mp h1 with rfl | h1
        · exact absurd hy h2
        · exact ⟨h1, h2⟩
    · rw [if_neg hy, List.mem_cons, firsts_mem rest (y :: seen) x, List.mem_cons, List.mem_cons]
      constructor
      · rintro (rfl | ⟨h1, h2⟩)
        · exact ⟨Or.inl rfl, hy⟩
        · exact ⟨Or.inr h1, fun h => h2 (Or.inr h)⟩
      · rintro ⟨h1, h2⟩
        by_cases hxy : x = y
        · exact Or.inl hxy
        · rcases h1 with h1 | h1
          · exact absurd h1 hxy
          · exact Or.inr ⟨h1, fun h => h.elim hxy h2⟩

theorem mem_waveIds [DecidableEq ι] {ins : List (Ins ι)} {w : ι} : w ∈ waveIds ins ↔ ∃ i ∈ ins, i.wave = w := by
  unfold waveIds
  rw [firsts_mem]
  simp

theorem waveIndex_get [DecidableEq ι] {ins : List (Ins ι)} {w : ι} {k : Nat} (h : waveIndex ins w = some k) :
    (waveIds ins)[k]? = some w := by
  unfold waveIndex at h
  rw [List.findIdx?_eq_some_iff_getElem] at h
  obtain ⟨hk, h1, -⟩ := h
  rw [List.getElem?_eq_getElem hk]
  simp only [decide_eq_true_eq] at h1
  rw [h1]

theorem waveIndex_some [DecidableEq ι] {ins : List (Ins ι)} {i : Ins ι} (h : i ∈ ins) :
    ∃ k, waveIndex ins i.wave = some k := by
  unfold waveIndex
  have : ((waveIds ins).findIdx? (· = i.wave)).isSome = true := by
    rw [List.findIdx?_isSome, List.any_eq_true]
    exact ⟨i.wave, mem_waveIds.mpr ⟨i, h, rfl⟩, by simp⟩
  exact Option.isSome_iff_exists.mp this

theorem uploads_get (wf : ι → Option (List α)) : ∀ (ids : List ι) (k j : Nat),
    Dict.get? (uploads wf k ids) (k + j) = (ids[j]?).bind wf ∧ ∀ j, j < k → Dict.get? (uploads wf k ids) j = none
  | [], k, j => by simp [uploads, Dict.get?_nil]
  | w :: rest, k, j => by
    have ih := uploads_get wf rest (k + 1)
    have hlow : ∀ j, j < k + 1 → Dict.get? (uploads wf (k + 1) rest) j = none := (ih 0).2
    unfold uploads
    cases hw : wf w with
    | none =>
      simp only
      refine ⟨?_, fun j hj => hlow j (by omega)⟩
      cases j with
      | zero =>
        have e : Dict.get? (uploads wf (k + 1) rest) (k + 0) = none := hlow k (by omega)
        rw [e]
        simp [hw]
      | succ j =>
        have := (ih j).1
        rw [show k + (j + 1) = k + 1 + j by omega, this]
        simp
    | some v =>
      simp only
      refine ⟨?_, ?_⟩
      · cases j with
        | zero => simp [Dict.get?_cons, hw]
        | succ j =>
          rw [Dict.get?_cons, if_neg (by omega), show k + (j + 1) = k + 1 + j by omega, (ih j).1]
          simp
      · intro j hj
        rw [Dict.get?_cons, if_neg (by omega)]
        exact hlow j (by omega)

/-- The waveform at the index of an identifier is that of the identifier. -/
theorem uploads_index [DecidableEq ι] (wf : ι → Option (List α)) {ins : List (Ins ι)} {w : ι} {k : Nat}
    (h : waveIndex ins w = some k) : Dict.get? (uploads wf 0 (waveIds ins)) k = wf w := by
  have := (uploads_get wf (waveIds ins) 0 k).1
  rw [Nat.zero_add] at this
  rw [this, waveIndex_get h]
  rfl

theorem table_get (n k : Nat) (h : k < n) : Dict.get? ((List.range n).map fun k => (k, k)) k = some k := by
  apply Dict.get?_of_mem
  · have : ((List.range n).map fun k => (k, k)).map Prod.fst = List.range n := by
      rw [List.map_map]
      exact List.map_id _
    show (((List.range n).map fun k => (k, k)).map Prod.fst).Nodup
    rw [this]
    exact List.nodup_range
  · exact List.mem_map.mpr ⟨k, List.mem_range.mpr h, rfl⟩

/-! ### Waiting -/

theorem addWait_hdawg {delay : Int} {c : Cmd} : addWait .hdawg delay = .ok c ↔
    3 ≤ delay ∧ c = .wait (delay - 3).toNat := by
  unfold addWait
  by_cases h0 : delay < 0
  · simp only [if_pos h0]
    constructor
    · intro h; simp at h
    · rintro ⟨h, -⟩; omega
  · simp only [if_neg h0]
    by_cases h3 : delay - 3 < 0
    · simp only [if_pos h3]
      constructor
      · intro h; simp at h
      · rintro ⟨h, -⟩; omega
    · simp only [if_neg h3, Except.ok.injEq]
      constructor
      · intro h; exact ⟨by omega, h.symm⟩
      · rintro ⟨-, h⟩; exact h.symm

theorem addWait_uhfqa {delay : Int} {c : Cmd} : addWait .uhfqa delay = .ok c ↔
    0 ≤ delay ∧ c = .wait delay.toNat := by
  unfold addWait
  by_cases h0 : delay < 0
  · simp only [if_pos h0]
    constructor
    · intro h; simp at h
    · rintro ⟨h, -⟩; omega
  · simp only [if_neg h0, Except.ok.injEq]
    constructor
    · intro h; exact ⟨by omega, h.symm⟩
    · rintro ⟨-, h⟩; exact h.symm

theorem duration_cons (d : Dev) (c : Cmd) (l : List Cmd) : duration d (c :: l) = clocks d c + duration d l := by
  simp [duration]

theorem duration_nonneg (d : Dev) : ∀ l : List Cmd, 0 ≤ duration d l
  | [] => by simp [duration]
  | c :: l => by
    rw [duration_cons]
    have := duration_nonneg d l
    omega

theorem duration_append (d : Dev) (a b : List Cmd) : duration d (a ++ b) = duration d a + duration d b := by
  simp [duration]

theorem run_append (d : Dev) (p : Prog α) : ∀ (a b : List Cmd) (t : Int),
    run d p t (a ++ b) = run d p t a ++ run d p (t + duration d a) b
  | [], b, t => by simp [run, duration]
  | c :: a, b, t => by
    rw [List.cons_append, run, run, run_append d p a b, duration_cons, List.append_assoc]
    congr 3
    omega

theorem triggerClocks_eq {m : List String} (h : m ≠ []) : triggerClocks m = clocks .hdawg (.setTrigger m) := by
  match m, h with
  | [_], _ => rfl
  | [_, _], _ => rfl
  | _ :: _ :: _ :: rest, _ =>
    simp only [triggerClocks, List.length_cons, clocks]
    omega

/-! ### HDAWG -/

/-- The clock cycle of the last instruction, or the one given if there is none. -/
def lastClock (cur : Int) : List (Ins ι) → Int
  | [] => cur
  | i :: rest => lastClock i.clock rest

theorem hdawgLoop_iff {index : ι → Option Nat} : ∀ (ins : List (Ins ι)) (cur : Int),
    (∃ r, hdawgLoop index cur ins = .ok r) ↔ (∀ i ∈ ins, i.acq = false ∧ index i.wave ≠ none) ∧
      Apart (fun _ => 3) (cur + 3) ins
  | [], cur => by simp [hdawgLoop, Apart]
  | i :: rest, cur => by
    unfold hdawgLoop
    have ih := hdawgLoop_iff (index := index) rest i.clock
    by_cases ha : i.acq = true
    · simp only [ha, if_true]
      constructor
      · rintro ⟨r, h⟩; simp at h
      · rintro ⟨h, -⟩
        have := (h i (by simp)).1
        rw [ha] at this
        simp at this
    · simp only [ha, Bool.false_eq_true, if_false]
      by_cases h0 : i.clock - cur < 0
      · simp only [if_pos h0]
        constructor
        · rintro ⟨r, h⟩; simp at h
        · rintro ⟨-, h, -⟩; omega
      · simp only [if_neg h0]
        cases hw : addWait .hdawg (i.clock - cur) with
        | error e =>
          simp only
          constructor
          · rintro ⟨r, h⟩; simp at h
          · rintro ⟨-, h, -⟩
            have := addWait_hdawg.mpr (⟨by omega, rfl⟩ : 3 ≤ i.clock - cur ∧ _)
            rw [hw] at this
            simp at this
        | ok w =>
          have h3 := (addWait_hdawg.mp hw).1
          simp only
          cases hk : index i.wave with
          | none =>
            simp only
            constructor
            · rintro ⟨r, h⟩; simp at h
            · rintro ⟨h, -⟩; exact absurd hk (h i (by simp)).2
          | some k =>
            simp only
            constructor
            · rintro ⟨r, h⟩
              cases hr : hdawgLoop index i.clock rest with
              | error e => simp [hr] at h
              | ok r' =>
                obtain ⟨h1, h2⟩ := ih.mp ⟨r', hr⟩
                refine ⟨?_, by omega, h2⟩
                intro j hj
                rcases List.mem_cons.mp hj with rfl | hj
                · exact ⟨by simpa using ha, by rw [hk]; simp⟩
                · exact h1 j hj
            · rintro ⟨h1, -, h2⟩
              obtain ⟨r', hr⟩ := ih.mpr ⟨fun j hj => h1 j (List.mem_cons_of_mem _ hj), h2⟩
              rw [hr]
              exact ⟨_, rfl⟩

theorem hdawgLoop_run {index : ι → Option Nat} {wf : ι → Option (List α)} {p : Prog α}
    (hp : ∀ w k, index w = some k → effect p (.table k) = some (.samples (wf w))) :
    ∀ (ins : List (Ins ι)) (cur : Int) (r : List Cmd × Int), hdawgLoop index cur ins = .ok r →
      run .hdawg p cur r.1 = ins.map (meant wf) ∧ duration .hdawg r.1 = r.2 - cur ∧ r.2 = lastClock cur ins
  | [], cur, r, h => by
    simp only [hdawgLoop, Except.ok.injEq] at h
    subst h
    simp [run, duration, lastClock]
  | i :: rest, cur, r, h => by
    unfold hdawgLoop at h
    by_cases ha : i.acq = true
    · simp [ha] at h
    · simp only [ha, Bool.false_eq_true, if_false] at h
      by_cases h0 : i.clock - cur < 0
      · rw [if_pos h0] at h
        simp at h
      · rw [if_neg h0] at h
        cases hw : addWait .hdawg (i.clock - cur) with
        | error e => simp [hw] at h
        | ok w =>
          obtain ⟨h3, rfl⟩ := addWait_hdawg.mp hw
          simp only [hw] at h
          cases hk : index i.wave with
          | none => simp [hk] at h
          | some k =>
            simp only [hk] at h
            cases hr : hdawgLoop index i.clock rest with
            | error e => simp [hr] at h
            | ok r' =>
              simp only [hr, Except.ok.injEq] at h
              subst h
              obtain ⟨h1, h2, h4⟩ := hdawgLoop_run hp rest i.clock r' hr
              have hd : cur + (clocks .hdawg (.wait (i.clock - cur - 3).toNat) : Int) = i.clock := by
                simp only [clocks]
                omega
              refine ⟨?_, ?_, h4⟩
              · rw [run, hd, run, hp _ _ hk]
                simp only [clocks, effect, Option.toList, List.map_nil, List.nil_append, List.map_cons, Int.natCast_zero,
                  Nat.cast_zero, Int.add_zero, add_zero, h1, meant, ha, Bool.false_eq_true, if_false,
                  List.singleton_append]
              · rw [duration_cons, duration_cons, h2]
                simp only [clocks] at hd ⊢
                omega

/-- The clock cycle when the instructions can start. -/
def firstClock (markers : List String) (trigger : Option Nat) : Int :=
  if markers ≠ [] then clocks .hdawg (.setTrigger markers) else if trigger.isSome then 0 else 2

theorem firstClock_eq (markers : List String) (trigger : Option Nat) :
    firstClock markers trigger = afterStart markers trigger := by
  unfold firstClock afterStart
  match markers, trigger with
  | [], some _ => simp
  | [], none => simp
  | [_], _ => simp [clocks]
  | [_, _], _ => simp [clocks]
  | _ :: _ :: _ :: _, _ => simp [clocks]

theorem hdawgStart_iff {markers : List String} {trigger : Option Nat} {c : Cmd} {n : Int} :
    hdawgStart markers trigger = .ok (c, n) ↔
      (markers ≠ [] ∧ c = .setTrigger markers ∨ markers = [] ∧ trigger = none ∧
        c = .setTrigger ["AWG_MARKER1", "AWG_MARKER2"] ∨ markers = [] ∧ ∃ t, trigger = some t ∧ (t = 1 ∨ t = 2) ∧
        c = .waitTrigger t) ∧ n = firstClock markers trigger := by
  unfold hdawgStart firstClock
  by_cases hm : markers ≠ []
  · simp only [if_pos hm, Except.ok.injEq, Prod.mk.injEq, triggerClocks_eq hm]
    constructor
    · rintro ⟨h1, h2⟩; exact ⟨Or.inl ⟨hm, h1.symm⟩, h2.symm⟩
    · rintro ⟨h1, h2⟩
      rcases h1 with ⟨-, h1⟩ | ⟨h1, -⟩ | ⟨h1, -⟩
      · exact ⟨h1.symm, h2.symm⟩
      · exact absurd h1 hm
      · exact absurd h1 hm
  · simp only [if_neg hm]
    have hm' : markers = [] := not_not.mp hm
    cases trigger with
    | none =>
      simp only [Except.ok.injEq, Prod.mk.injEq, Option.isSome_none, Bool.false_eq_true, if_false]
      constructor
      · rintro ⟨h1, h2⟩; exact ⟨Or.inr (Or.inl ⟨hm', trivial, h1.symm⟩), by rw [← h2]; rfl⟩
      · rintro ⟨h1, h2⟩
        rcases h1 with ⟨h1, -⟩ | ⟨-, -, h1⟩ | ⟨-, t, h1, -⟩
        · exact absurd hm' h1
        · exact ⟨h1.symm, by rw [h2]; rfl⟩
        · simp at h1
    | some t =>
      by_cases ht : t = 1 ∨ t = 2
      · simp only [if_pos ht, Except.ok.injEq, Prod.mk.injEq, Option.isSome_some, if_true]
        constructor
        · rintro ⟨h1, h2⟩; exact ⟨Or.inr (Or.inr ⟨hm', t, rfl, ht, h1.symm⟩), h2.symm⟩
        · rintro ⟨h1, h2⟩
          rcases h1 with ⟨h1, -⟩ | ⟨-, h1, -⟩ | ⟨-, t', h1, -, h3⟩
          · exact absurd hm' h1
          · simp at h1
          · cases h1; exact ⟨h3.symm, h2.symm⟩
      · simp only [if_neg ht]
        constructor
        · intro h; simp at h
        · rintro ⟨h1, -⟩
          rcases h1 with ⟨h1, -⟩ | ⟨-, h1, -⟩ | ⟨-, t', h1, h2, -⟩
          · exact absurd hm' h1
          · simp at h1
          · cases h1; exact absurd h2 ht

theorem hdawgEnd_iff {dur : Rat} {trigger : Option Nat} {cur : Int} {l : List Cmd} :
    hdawgEnd dur trigger cur = .ok l ↔ (trigger ≠ none ∧ l = [.setTrigger []]) ∨
      (trigger = none ∧ cur + 4 ≤ pyInt (dur * clockRate .hdawg) ∧
        l = [.setTrigger [], .wait (pyInt (dur * clockRate .hdawg) - (cur + 1) - 3).toNat]) := by
  unfold hdawgEnd
  cases trigger with
  | some t => simp [eq_comm]
  | none =>
    simp only
    cases hw : addWait .hdawg (pyInt (dur * clockRate .hdawg) - (cur + 1)) with
    | error e =>
      simp only [ne_eq, not_true_eq_false, false_and, true_and, false_or]
      constructor
      · intro h; simp at h
      · rintro ⟨h, -⟩
        have := addWait_hdawg.mpr (⟨by omega, rfl⟩ : 3 ≤ pyInt (dur * clockRate .hdawg) - (cur + 1) ∧ _)
        rw [hw] at this
        simp at this
    | ok w =>
      obtain ⟨h3, rfl⟩ := addWait_hdawg.mp hw
      simp only [ne_eq, not_true_eq_false, false_and, true_and, false_or, Except.ok.injEq]
      constructor
      · intro h; exact ⟨by omega, h.symm⟩
      · rintro ⟨-, h⟩; exact h.symm

theorem hdawg_parts [DecidableEq ι] {wf : ι → Option (List α)} {reps : Nat} {dur : Rat} {markers : List String}
    {trigger : Option Nat} {ins : List (Ins ι)} {p : Prog α} :
    hdawgProg wf reps dur markers trigger ins = .ok p ↔ (∀ i ∈ ins, wf i.wave ≠ none) ∧
      ∃ first cmds last, hdawgStart markers trigger = .ok (first, firstClock markers trigger) ∧
        hdawgLoop (waveIndex ins) (firstClock markers trigger) ins =
          .ok (cmds, lastClock (firstClock markers trigger) ins) ∧
        hdawgEnd dur trigger (lastClock (firstClock markers trigger) ins) = .ok last ∧
        p = ⟨uploads wf 0 (waveIds ins), (List.range (waveIds ins).length).map fun k => (k, k), [.setTrigger []],
          reps, first :: cmds ++ last⟩ := by
  have hany : ((waveIds ins).any fun w => (wf w).isNone) = true ↔ ¬∀ i ∈ ins, wf i.wave ≠ none := by
    rw [List.any_eq_true]
    constructor
    · rintro ⟨w, hw, hn⟩ hall
      obtain ⟨i, hi, rfl⟩ := mem_waveIds.mp hw
      exact hall i hi (Option.isNone_iff_eq_none.mp hn)
    · intro h
      push Not at h
      obtain ⟨i, hi, hn⟩ := h
      exact ⟨i.wave, mem_waveIds.mpr ⟨i, hi, rfl⟩, by rw [hn]; rfl⟩
  unfold hdawgProg
  by_cases ha : ((waveIds ins).any fun w => (wf w).isNone) = true
  · rw [if_pos ha]
    constructor
    · intro h; simp at h
    · rintro ⟨h, -⟩; exact absurd h (hany.mp ha)
  · rw [if_neg ha]
    have hall : ∀ i ∈ ins, wf i.wave ≠ none := not_not.mp (fun h => ha (hany.mpr h))
    constructor
    · intro h
      refine ⟨hall, ?_⟩
      cases hs : hdawgStart markers trigger with
      | error e => simp [hs] at h
      | ok r =>
        obtain ⟨first, n⟩ := r
        have hn := (hdawgStart_iff.mp hs).2
        subst hn
        simp only [hs] at h
        cases hl : hdawgLoop (waveIndex ins) (firstClock markers trigger) ins with
        | error e => simp [hl] at h
        | ok r =>
          obtain ⟨cmds, cur⟩ := r
          simp only [hl] at h
          have hp0 : ∀ w k, waveIndex ins w = some k → effect (α := α)
              ⟨uploads wf 0 (waveIds ins), (List.range (waveIds ins).length).map fun k => (k, k), [], 0, []⟩ (.table k) =
                some (.samples (wf w)) := by
            intro w k hk
            have hlt : k < (waveIds ins).length := by
              have := waveIndex_get hk
              exact (List.getElem?_eq_some_iff.mp this).1
            simp only [effect, table_get _ _ hlt, Option.bind_some, uploads_index wf hk]
          have hcur := (hdawgLoop_run hp0 ins _ _ hl).2.2
          simp only at hcur
          subst hcur
          cases he : hdawgEnd dur trigger (lastClock (firstClock markers trigger) ins) with
          | error e => simp [he] at h
          | ok last =>
            simp only [he, Except.ok.injEq] at h
            exact ⟨first, cmds, last, rfl, rfl, rfl, h.symm⟩
    · rintro ⟨-, first, cmds, last, h1, h2, h3, rfl⟩
      simp only [h1, h2, h3]

/-- **C64, HDAWG.** If the program of an output was made, then in every repetition all its pulses, and nothing else,
are played: each starts at its clock cycle, with the samples of its waveform. -/
theorem hdawg_plays [DecidableEq ι] {wf : ι → Option (List α)} {reps : Nat} {dur : Rat} {markers : List String}
    {trigger : Option Nat} {ins : List (Ins ι)} {p : Prog α}
    (h : hdawgProg wf reps dur markers trigger ins = .ok p) :
    p.reps = reps ∧ run .hdawg p 0 p.body = ins.map (meant wf) ∧ (∀ i ∈ ins, ∃ v, wf i.wave = some v) ∧
      run .hdawg p 0 p.before = [] := by
  obtain ⟨hall, first, cmds, last, h1, h2, h3, rfl⟩ := hdawg_parts.mp h
  refine ⟨rfl, ?_, fun i hi => Option.ne_none_iff_exists'.mp (hall i hi), rfl⟩
  set p : Prog α := ⟨uploads wf 0 (waveIds ins), (List.range (waveIds ins).length).map fun k => (k, k), [.setTrigger []],
          reps, first :: cmds ++ last⟩ with hp
  have hp0 : ∀ w k, waveIndex ins w = some k → effect p (.table k) = some (.samples (wf w)) := by
    intro w k hk
    have hlt : k < (waveIds ins).length := (List.getElem?_eq_some_iff.mp (waveIndex_get hk)).1
    simp only [hp, effect, table_get _ _ hlt, Option.bind_some, uploads_index wf hk]
  obtain ⟨h4, h5, -⟩ := hdawgLoop_run hp0 ins _ _ h2
  have hf : run .hdawg p 0 [first] = [] ∧ (clocks .hdawg first : Int) = firstClock markers trigger := by
    obtain ⟨hs, -⟩ := hdawgStart_iff.mp h1
    rcases hs with ⟨hm, rfl⟩ | ⟨hm, rfl, rfl⟩ | ⟨hm, t, rfl, ht, rfl⟩
    · exact ⟨rfl, by rw [firstClock, if_pos hm]⟩
    · exact ⟨rfl, by simp [firstClock, hm, clocks]⟩
    · exact ⟨rfl, by simp [firstClock, hm, clocks]⟩
  have hl : ∀ t, run .hdawg p t last = [] := by
    intro t
    rcases hdawgEnd_iff.mp h3 with ⟨-, rfl⟩ | ⟨-, -, rfl⟩ <;> rfl
  show run .hdawg p 0 (first :: (cmds ++ last)) = _
  have e : first :: (cmds ++ last) = [first] ++ (cmds ++ last) := rfl
  rw [e, run_append, hf.1, List.nil_append, run_append, hl, List.append_nil, duration_cons, hf.2]
  simpa [duration] using h4

/-- **C64, refused.** The program of an HDAWG output is refused exactly if it has an acquisition, a waveform is
missing, the trigger does not exist, the first pulse comes too early, two pulses are less than 3 clock cycles apart,
or the schedule is over too soon after the last pulse. -/
theorem hdawg_iff [DecidableEq ι] {wf : ι → Option (List α)} {reps : Nat} {dur : Rat} {markers : List String}
    {trigger : Option Nat} {ins : List (Ins ι)} :
    (∃ p, hdawgProg wf reps dur markers trigger ins = .ok p) ↔
      (∀ i ∈ ins, i.acq = false ∧ wf i.wave ≠ none) ∧
      (markers = [] → trigger = none ∨ trigger = some 1 ∨ trigger = some 2) ∧
      Apart (fun _ => 3) (afterStart markers trigger + 3) ins ∧
      (trigger = none → ((ins.getLast?.map Ins.clock).getD (afterStart markers trigger)) + 4 ≤
        pyInt (dur * 300000000)) := by
  rw [← firstClock_eq]
  have hlast : ∀ (ins : List (Ins ι)) (c : Int), (ins.getLast?.map Ins.clock).getD c = lastClock c ins := by
    intro ins
    induction ins with
    | nil => intro c; rfl
    | cons i rest ih =>
      intro c
      rw [lastClock, ← ih i.clock, List.getLast?_cons]
      cases rest.getLast? <;> rfl
  have hrate : clockRate .hdawg = 300000000 := by norm_num [clockRate, rate]
  rw [hlast]
  constructor
  · rintro ⟨p, h⟩
    obtain ⟨hall, first, cmds, last, h1, h2, h3, -⟩ := hdawg_parts.mp h
    obtain ⟨h4, h5⟩ := (hdawgLoop_iff _ _).mp ⟨_, h2⟩
    refine ⟨fun i hi => ⟨(h4 i hi).1, hall i hi⟩, ?_, h5, ?_⟩
    · intro hm
      obtain ⟨hs, -⟩ := hdawgStart_iff.mp h1
      rcases hs with ⟨hm', -⟩ | ⟨-, rfl, -⟩ | ⟨-, t, rfl, ht, -⟩
      · exact absurd hm hm'
      · exact Or.inl rfl
      · rcases ht with rfl | rfl
        · exact Or.inr (Or.inl rfl)
        · exact Or.inr (Or.inr rfl)
    · intro ht
      rcases hdawgEnd_iff.mp h3 with ⟨h6, -⟩ | ⟨-, h6, -⟩
      · exact absurd ht h6
      · rw [hrate] at h6; exact h6
  · rintro ⟨h1, h2, h3, h4⟩
    have hst : ∃ first, hdawgStart markers trigger = .ok (first, firstClock markers trigger) := by
      by_cases hm : markers = []
      · rcases h2 hm with rfl | rfl | rfl
        · exact ⟨_, hdawgStart_iff.mpr ⟨Or.inr (Or.inl ⟨hm, rfl, rfl⟩), rfl⟩⟩
        · exact ⟨_, hdawgStart_iff.mpr ⟨Or.inr (Or.inr ⟨hm, 1, rfl, Or.inl rfl, rfl⟩), rfl⟩⟩
        · exact ⟨_, hdawgStart_iff.mpr ⟨Or.inr (Or.inr ⟨hm, 2, rfl, Or.inr rfl, rfl⟩), rfl⟩⟩
      · exact ⟨_, hdawgStart_iff.mpr ⟨Or.inl ⟨hm, rfl⟩, rfl⟩⟩
    obtain ⟨first, hst⟩ := hst
    obtain ⟨r, hr⟩ := (hdawgLoop_iff (index := waveIndex ins) ins (firstClock markers trigger)).mpr
      ⟨fun i hi => ⟨(h1 i hi).1, by
        obtain ⟨k, hk⟩ := waveIndex_some hi
        rw [hk]; simp⟩, h3⟩
    have hp0 : ∀ w k, waveIndex ins w = some k → effect (α := α)
        ⟨uploads wf 0 (waveIds ins), (List.range (waveIds ins).length).map fun k => (k, k), [], 0, []⟩ (.table k) =
          some (.samples (wf w)) := by
      intro w k hk
      have hlt : k < (waveIds ins).length := (List.getElem?_eq_some_iff.mp (waveIndex_get hk)).1
      simp only [effect, table_get _ _ hlt, Option.bind_some, uploads_index wf hk]
    have hcur := (hdawgLoop_run hp0 ins _ _ hr).2.2
    have hend : ∃ last, hdawgEnd dur trigger (lastClock (firstClock markers trigger) ins) = .ok last := by
      cases ht : trigger with
      | some t => exact ⟨_, hdawgEnd_iff.mpr (Or.inl ⟨by simp, rfl⟩)⟩
      | none =>
        have := h4 ht
        rw [← hrate, ht] at this
        exact ⟨_, hdawgEnd_iff.mpr (Or.inr ⟨rfl, this, rfl⟩)⟩
    obtain ⟨last, hlst⟩ := hend
    obtain ⟨cmds, cur⟩ := r
    simp only at hcur
    subst hcur
    exact ⟨_, hdawg_parts.mpr ⟨fun i hi => (h1 i hi).2, first, cmds, last, hst, hr, hlst, rfl⟩⟩

/-- **C64, period.** A sequencer without trigger repeats the program every `int(duration * 300 MHz)` clock cycles,
whatever it plays, so such sequencers stay synchronous. -/
theorem hdawg_period [DecidableEq ι] {wf : ι → Option (List α)} {reps : Nat} {dur : Rat} {markers : List String}
    {ins : List (Ins ι)} {p : Prog α} (h : hdawgProg wf reps dur markers none ins = .ok p) :
    duration .hdawg p.body = pyInt (dur * 300000000) ∧ ¬Triggered p := by
  have hrate : clockRate .hdawg = 300000000 := by norm_num [clockRate, rate]
  obtain ⟨hall, first, cmds, last, h1, h2, h3, rfl⟩ := hdawg_parts.mp h
  have hp0 : ∀ w k, waveIndex ins w = some k → effect (α := α)
      ⟨uploads wf 0 (waveIds ins), (List.range (waveIds ins).length).map fun k => (k, k), [], 0, []⟩ (.table k) =
        some (.samples (wf w)) := by
    intro w k hk
    have hlt : k < (waveIds ins).length := (List.getElem?_eq_some_iff.mp (waveIndex_get hk)).1
    simp only [effect, table_get _ _ hlt, Option.bind_some, uploads_index wf hk]
  obtain ⟨-, h5, -⟩ := hdawgLoop_run hp0 ins _ _ h2
  simp only at h5
  have hf : (clocks .hdawg first : Int) = firstClock markers none ∧ ∀ t, first ≠ .waitTrigger t := by
    obtain ⟨hs, -⟩ := hdawgStart_iff.mp h1
    rcases hs with ⟨hm, rfl⟩ | ⟨hm, -, rfl⟩ | ⟨hm, t, ht, -⟩
    · exact ⟨by rw [firstClock, if_pos hm], by simp⟩
    · exact ⟨by simp [firstClock, hm, clocks], by simp⟩
    · simp at ht
  constructor
  · show duration .hdawg (first :: (cmds ++ last)) = _
    rw [duration_cons, duration_append, h5, hf.1]
    rcases hdawgEnd_iff.mp h3 with ⟨h6, -⟩ | ⟨-, h6, rfl⟩
    · exact absurd rfl h6
    · rw [hrate] at h6 ⊢
      simp only [duration_cons, clocks]
      simp only [duration, List.map_nil, List.sum_nil]
      omega
  · rintro ⟨t, rest, ht⟩
    have ht' : first :: (cmds ++ last) = .waitTrigger t :: rest := ht
    exact hf.2 t (List.cons.inj ht').1

/-- **C64, HDAWG with trigger.** A sequencer with a trigger and no markers waits for the trigger in every repetition,
and is ready for the next one a clock cycle after the last pulse started. -/
theorem hdawg_triggered [DecidableEq ι] {wf : ι → Option (List α)} {reps : Nat} {dur : Rat} {t : Nat}
    {ins : List (Ins ι)} {p : Prog α} (h : hdawgProg wf reps dur [] (some t) ins = .ok p) :
    Triggered p ∧ duration .hdawg p.body = (ins.getLast?.map Ins.clock).getD 0 + 1 := by
  have hlast : ∀ (ins : List (Ins ι)) (c : Int), (ins.getLast?.map Ins.clock).getD c = lastClock c ins := by
    intro ins
    induction ins with
    | nil => intro c; rfl
    | cons i rest ih =>
      intro c
      rw [lastClock, ← ih i.clock, List.getLast?_cons]
      cases rest.getLast? <;> rfl
  obtain ⟨hall, first, cmds, last, h1, h2, h3, rfl⟩ := hdawg_parts.mp h
  have hp0 : ∀ w k, waveIndex ins w = some k → effect (α := α)
      ⟨uploads wf 0 (waveIds ins), (List.range (waveIds ins).length).map fun k => (k, k), [], 0, []⟩ (.table k) =
        some (.samples (wf w)) := by
    intro w k hk
    have hlt : k < (waveIds ins).length := (List.getElem?_eq_some_iff.mp (waveIndex_get hk)).1
    simp only [effect, table_get _ _ hlt, Option.bind_some, uploads_index wf hk]
  obtain ⟨-, h5, -⟩ := hdawgLoop_run hp0 ins _ _ h2
  simp only at h5
  obtain ⟨hs, -⟩ := hdawgStart_iff.mp h1
  rcases hs with ⟨hm, -⟩ | ⟨-, ht, -⟩ | ⟨hm, t', ht, -, rfl⟩
  · exact absurd rfl hm
  · simp at ht
  · refine ⟨⟨t', cmds ++ last, rfl⟩, ?_⟩
    show duration .hdawg (.waitTrigger t' :: (cmds ++ last)) = _
    rw [duration_cons, duration_append, h5, hlast]
    rcases hdawgEnd_iff.mp h3 with ⟨-, rfl⟩ | ⟨h6, -⟩
    · have hfc : firstClock [] (some t) = 0 := by simp [firstClock]
      rw [hfc]
      simp only [duration_cons, clocks]
      simp only [duration, List.map_nil, List.sum_nil]
      omega
    · simp at h6

/-! ### UHFQA -/

/-- Clock cycles that an instruction occupies a UHFQA. -/
def qaGap (i : Ins ι) : Int := if i.acq then 7 else 0

/-- The clock cycle after the last instruction. -/
def afterLast (cur : Int) : List (Ins ι) → Int
  | [] => cur
  | i :: rest => afterLast (i.clock + qaGap i) rest

theorem uhfqaLoop_cons {index : ι → Option Nat} {cur : Int} {i : Ins ι} {rest : List (Ins ι)} {cmds : List Cmd} :
    uhfqaLoop index cur (i :: rest) = .ok cmds ↔ cur ≤ i.clock ∧ ∃ c more,
      cmds = .wait (i.clock - cur).toNat :: c :: more ∧
      (i.acq = true ∧ c = .startQA ∨ i.acq = false ∧ ∃ k, index i.wave = some k ∧ c = .play k) ∧
      uhfqaLoop index (i.clock + qaGap i) rest = .ok more := by
  unfold qaGap
  rw [uhfqaLoop]
  by_cases h0 : i.clock - cur < 0
  · rw [if_pos h0]
    constructor
    · intro h; simp at h
    · rintro ⟨h, -⟩; omega
  · rw [if_neg h0]
    have hw : addWait .uhfqa (i.clock - cur) = .ok (.wait (i.clock - cur).toNat) := addWait_uhfqa.mpr ⟨by omega, rfl⟩
    rw [hw]
    simp only
    cases ha : i.acq with
    | true =>
      simp only [if_true, Bool.true_eq_false, false_and, or_false, true_and]
      cases hr : uhfqaLoop index (i.clock + 7) rest with
      | error e =>
        simp only
        constructor
        · intro h; simp at h
        · rintro ⟨-, c, more, -, -, h⟩; simp at h
      | ok more =>
        simp only [Except.ok.injEq]
        constructor
        · rintro rfl; exact ⟨by omega, _, more, rfl, rfl, rfl⟩
        · rintro ⟨-, c, more', rfl, rfl, rfl⟩; rfl
    | false =>
      simp only [Bool.false_eq_true, if_false, false_and, false_or, true_and, add_zero]
      cases hk : index i.wave with
      | none =>
        simp only
        constructor
        · intro h; simp at h
        · rintro ⟨-, c, more, -, ⟨k, h, -⟩, -⟩; simp at h
      | some k =>
        simp only
        cases hr : uhfqaLoop index i.clock rest with
        | error e =>
          simp only
          constructor
          · intro h; simp at h
          · rintro ⟨-, c, more, -, -, h⟩; simp at h
        | ok more =>
          simp only [Except.ok.injEq]
          constructor
          · rintro rfl; exact ⟨by omega, _, more, rfl, ⟨k, rfl, rfl⟩, rfl⟩
          · rintro ⟨-, c, more', rfl, ⟨k', hk', rfl⟩, rfl⟩
            cases hk'
            rfl

theorem uhfqaLoop_iff {index : ι → Option Nat} : ∀ (ins : List (Ins ι)) (cur : Int),
    (∃ r, uhfqaLoop index cur ins = .ok r) ↔ (∀ i ∈ ins, i.acq = false → index i.wave ≠ none) ∧ Apart qaGap cur ins
  | [], cur => by simp [uhfqaLoop, Apart]
  | i :: rest, cur => by
    have ih := uhfqaLoop_iff (index := index) rest (i.clock + qaGap i)
    constructor
    · rintro ⟨r, h⟩
      obtain ⟨h1, c, more, -, h2, h3⟩ := uhfqaLoop_cons.mp h
      obtain ⟨h4, h5⟩ := ih.mp ⟨_, h3⟩
      refine ⟨?_, h1, h5⟩
      intro j hj hja
      rcases List.mem_cons.mp hj with rfl | hj
      · rcases h2 with ⟨h2, -⟩ | ⟨-, k, h2, -⟩
        · rw [h2] at hja; simp at hja
        · rw [h2]; simp
      · exact h4 j hj hja
    · rintro ⟨h1, h2, h3⟩
      obtain ⟨more, hm⟩ := ih.mpr ⟨fun j hj => h1 j (List.mem_cons_of_mem _ hj), h3⟩
      cases ha : i.acq with
      | true => exact ⟨_, uhfqaLoop_cons.mpr ⟨h2, _, more, rfl, Or.inl ⟨ha, rfl⟩, hm⟩⟩
      | false =>
        obtain ⟨k, hk⟩ := Option.ne_none_iff_exists'.mp (h1 i (by simp) ha)
        exact ⟨_, uhfqaLoop_cons.mpr ⟨h2, _, more, rfl, Or.inr ⟨ha, k, hk, rfl⟩, hm⟩⟩

theorem uhfqaLoop_run {index : ι → Option Nat} {wf : ι → Option (List α)} {p : Prog α}
    (hp : ∀ w k, index w = some k → effect p (.play k) = some (.samples (wf w))) :
    ∀ (ins : List (Ins ι)) (cur : Int) (r : List Cmd), uhfqaLoop index cur ins = .ok r →
      run .uhfqa p cur r = ins.map (meant wf) ∧ duration .uhfqa r = afterLast cur ins - cur
  | [], cur, r, h => by
    simp only [uhfqaLoop, Except.ok.injEq] at h
    subst h
    simp [run, duration, afterLast]
  | i :: rest, cur, r, h => by
    obtain ⟨h1, c, more, rfl, h2, h3⟩ := uhfqaLoop_cons.mp h
    obtain ⟨h4, h5⟩ := uhfqaLoop_run hp rest _ _ h3
    have hd : cur + (clocks .uhfqa (.wait (i.clock - cur).toNat) : Int) = i.clock := by
      simp only [clocks]
      omega
    have hc : effect p c = some (meant wf i).2 ∧ (clocks .uhfqa c : Int) = qaGap i := by
      unfold meant qaGap
      rcases h2 with ⟨ha, rfl⟩ | ⟨ha, k, hk, rfl⟩
      · simp [ha, effect, clocks]
      · rw [hp _ _ hk]
        simp [ha, clocks]
    refine ⟨?_, ?_⟩
    · rw [run, hd, run, hc.1, hc.2, h4]
      rfl
    · rw [duration_cons, duration_cons, h5, hc.2, afterLast]
      omega

theorem uhfqa_parts [DecidableEq ι] {wf : ι → Option (List α)} {reps : Nat} {trigger : Option Nat}
    {ins : List (Ins ι)} {p : Prog α} : uhfqaProg wf reps trigger ins = .ok p ↔
      ∃ t cmds, trigger = some t ∧ (t < 5 ∧ 0 < t) ∧ uhfqaLoop (waveIndex ins) 0 ins = .ok cmds ∧
        p = ⟨uploads wf 0 (waveIds ins), [], [], reps, .waitTrigger t :: cmds⟩ := by
  unfold uhfqaProg
  cases trigger with
  | none => simp
  | some t =>
    simp only
    by_cases ht : t < 5 ∧ 0 < t
    · rw [if_neg (not_not.mpr ht)]
      cases hl : uhfqaLoop (waveIndex ins) 0 ins with
      | error e =>
        simp only
        constructor
        · intro h; simp at h
        · rintro ⟨t, cmds, -, -, h, -⟩; simp at h
      | ok cmds =>
        simp only [Except.ok.injEq]
        constructor
        · rintro rfl; exact ⟨t, cmds, rfl, ht, rfl, rfl⟩
        · rintro ⟨t', cmds', h1, -, rfl, rfl⟩; cases h1; rfl
    · rw [if_pos ht]
      constructor
      · intro h; simp at h
      · rintro ⟨t', cmds, h1, h2, -⟩; cases h1; exact absurd h2 ht

/-- **C64, UHFQA.** If the program of a UHFQA was made, then in every repetition it waits for its trigger, and then all
its pulses and acquisitions, and nothing else, start at their clock cycles after the trigger. -/
theorem uhfqa_plays [DecidableEq ι] {wf : ι → Option (List α)} {reps : Nat} {trigger : Option Nat}
    {ins : List (Ins ι)} {p : Prog α} (h : uhfqaProg wf reps trigger ins = .ok p) :
    p.reps = reps ∧ run .uhfqa p 0 p.body = ins.map (meant wf) ∧ run .uhfqa p 0 p.before = [] ∧
      ∃ t rest, trigger = some t ∧ p.body = .waitTrigger t :: rest := by
  obtain ⟨t, cmds, h1, h2, h3, rfl⟩ := uhfqa_parts.mp h
  refine ⟨rfl, ?_, rfl, t, cmds, h1, rfl⟩
  have := (uhfqaLoop_run (wf := wf) (p := ⟨uploads wf 0 (waveIds ins), [], [], reps, .waitTrigger t :: cmds⟩)
    (fun w k hk => by simp only [effect, uploads_index wf hk]) ins 0 cmds h3).1
  simp only [run, effect, clocks]
  simpa using this

/-- **C64, UHFQA, refused.** The program of a UHFQA is refused exactly if it has no trigger between 1 and 4, an
instruction starts before the trigger or before the one before it, or less than 7 clock cycles after an acquisition. -/
theorem uhfqa_iff [DecidableEq ι] {wf : ι → Option (List α)} {reps : Nat} {trigger : Option Nat}
    {ins : List (Ins ι)} : (∃ p, uhfqaProg wf reps trigger ins = .ok p) ↔
      (trigger = some 1 ∨ trigger = some 2 ∨ trigger = some 3 ∨ trigger = some 4) ∧
      Apart (fun i => if i.acq then 7 else 0) 0 ins := by
  constructor
  · rintro ⟨p, h⟩
    obtain ⟨t, cmds, h1, h2, h3, rfl⟩ := uhfqa_parts.mp h
    refine ⟨?_, ((uhfqaLoop_iff _ _).mp ⟨_, h3⟩).2⟩
    subst h1
    simp only [Option.some.injEq]
    omega
  · rintro ⟨h1, h2⟩
    obtain ⟨cmds, hc⟩ := (uhfqaLoop_iff (index := waveIndex ins) ins 0).mpr
      ⟨fun i hi _ => by
        obtain ⟨k, hk⟩ := waveIndex_some hi
        rw [hk]; simp, h2⟩
    have : ∃ t, trigger = some t ∧ t < 5 ∧ 0 < t := by
      rcases h1 with rfl | rfl | rfl | rfl
      · exact ⟨1, rfl, by omega⟩
      · exact ⟨2, rfl, by omega⟩
      · exact ⟨3, rfl, by omega⟩
      · exact ⟨4, rfl, by omega⟩
    obtain ⟨t, ht, ht'⟩ := this
    exact ⟨_, uhfqa_parts.mpr ⟨t, cmds, ht, ht', hc, rfl⟩⟩

theorem uhfqa_length [DecidableEq ι] {wf : ι → Option (List α)} {reps : Nat} {trigger : Option Nat}
    {ins : List (Ins ι)} {p : Prog α} (h : uhfqaProg wf reps trigger ins = .ok p) :
    duration .uhfqa p.body = (ins.getLast?.map fun i => i.clock + if i.acq then 7 else 0).getD 0 := by
  have hlast : ∀ (ins : List (Ins ι)) (c : Int),
      (ins.getLast?.map fun i => i.clock + if i.acq then 7 else 0).getD c = afterLast c ins := by
    intro ins
    induction ins with
    | nil => intro c; rfl
    | cons i rest ih =>
      intro c
      rw [afterLast, ← ih (i.clock + qaGap i), List.getLast?_cons]
      cases rest.getLast? <;> rfl
  obtain ⟨t, cmds, h1, h2, h3, rfl⟩ := uhfqa_parts.mp h
  have := (uhfqaLoop_run (wf := wf) (p := ⟨uploads wf 0 (waveIds ins), [], [], reps, .waitTrigger t :: cmds⟩)
    (fun w k hk => by simp only [effect, uploads_index wf hk]) ins 0 cmds h3).2
  rw [hlast]
  show duration .uhfqa (.waitTrigger t :: cmds) = _
  rw [duration_cons, this]
  simp [clocks]

/-! ### Triggers -/

/-- If a repetition is over before the next trigger, then every trigger starts the next repetition. -/
theorem starts_every {trig : Nat → Rat} {length : Rat} (h0 : 0 ≤ length) (h : ∀ k, trig k + length ≤ trig (k + 1))
    (r k : Nat) : Starts trig length r k ↔ k = r := by
  have hmono : ∀ a b, a ≤ b → trig a ≤ trig b := by
    intro a b hab
    induction hab with
    | refl => exact le_refl _
    | @step m _ ih => have := h m; exact le_trans ih (by linarith)
  constructor
  · intro hs
    induction hs with
    | first => rfl
    | @next r k k' h1 h2 h3 h4 ih =>
      subst ih
      by_contra hne
      have hlt := h4 (k + 1) (by omega) (by omega)
      have := h k
      linarith
  · rintro rfl
    induction k with
    | zero => exact .first
    | succ k ih => exact .next ih (by omega) (h k) (fun j hj hj' => by omega)

/-- If a repetition is not over at the next trigger, but before the one after it, then only every other trigger starts
a repetition. -/
theorem starts_missed {trig : Nat → Rat} {length : Rat} (h1 : ∀ k, trig (k + 1) < trig k + length)
    (h2 : ∀ k, trig k + length ≤ trig (k + 2)) (r k : Nat) : Starts trig length r k ↔ k = 2 * r := by
  constructor
  · intro hs
    induction hs with
    | first => rfl
    | @next r k k' h3 h4 h5 h6 ih =>
      subst ih
      have ha : k' ≠ 2 * r + 1 := by
        rintro rfl
        have := h1 (2 * r)
        linarith
      by_contra hne
      have hlt := h6 (2 * r + 2) (by omega) (by omega)
      have := h2 (2 * r)
      linarith
  · rintro rfl
    induction r with
    | zero => exact .first
    | succ r ih =>
      refine .next ih (by omega) (h2 _) ?_
      intro j hj hj'
      have : j = 2 * r + 1 := by omega
      rw [this]
      exact h1 _

/-- **C64, synchronous.** An HDAWG without trigger and a UHFQA that is triggered at the start of every repetition of the
HDAWG: if the last instruction of the UHFQA is over before the schedule is, then repetition `r` of the UHFQA starts at
the start of repetition `r` of the HDAWG. -/
theorem uhfqa_synchronous [DecidableEq ι] {wf wf' : ι → Option (List α)} {reps : Nat} {dur : Rat}
    {markers : List String} {ins ins' : List (Ins ι)} {trigger : Option Nat} {p q : Prog α}
    (hp : hdawgProg wf reps dur markers none ins = .ok p) (hq : uhfqaProg wf' reps trigger ins' = .ok q)
    (hfit : ∀ i ∈ ins', ((i.clock + if i.acq then 7 else 0 : Int) : Rat) / 225000000 ≤
      (pyInt (dur * 300000000) : Rat) / 300000000) (start : Rat) (r k : Nat) :
    Starts (fun k => start + k * ((duration .hdawg p.body : Rat) / 300000000))
      ((duration .uhfqa q.body : Rat) / 225000000) r k ↔ k = r := by
  have hper := (hdawg_period hp).1
  have hlen := uhfqa_length hq
  have hnn : 0 ≤ duration .uhfqa q.body := duration_nonneg _ _
  have hnp : 0 ≤ duration .hdawg p.body := duration_nonneg _ _
  have hle : (duration .uhfqa q.body : Rat) / 225000000 ≤ (duration .hdawg p.body : Rat) / 300000000 := by
    rw [hper, hlen]
    cases hl : ins'.getLast? with
    | none =>
      simp only [Option.map_none, Option.getD_none, Int.cast_zero, zero_div]
      rw [← hper]
      have : (0 : Rat) ≤ (duration .hdawg p.body : Rat) := by exact_mod_cast hnp
      positivity
    | some i =>
      simp only [Option.map_some, Option.getD_some]
      exact hfit i (List.mem_of_getLast? hl)
  have hnn' : (0 : Rat) ≤ (duration .uhfqa q.body : Rat) := by exact_mod_cast hnn
  apply starts_every
  · positivity
  · intro k
    push_cast
    linarith

end Verif.Zi
