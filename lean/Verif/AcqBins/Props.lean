/-
C18: hardware acquisition bins of different acquisitions never overlap.
-/
import Verif.AcqBins.Lemmas
import Mathlib.Data.List.Induction

set_option linter.unusedSimpArgs false
set_option linter.unusedVariables false
set_option linter.unusedSectionVars false

namespace Verif.AcqBins

variable {Ch : Type} [DecidableEq Ch]

/-- **C18, failure.**  In any state, a rejected request leaves the manager unchanged. -/
theorem failed_request_changes_nothing {s s' : St Ch} {r : Req Ch} {e : Err}
    (h : s.exec r = (s', .error e)) : s' = s := exec_error h

/-- **C18, channels.**  Through any history, two grants have the same hardware index exactly when
they are for the same channel; there are 32 indices. -/
theorem channels_own_indices (rs : List (Req Ch)) (hr : ∀ r ∈ rs, r.Real)
    {g h : Grant Ch} (hg : g ∈ (history rs).2) (hh : h ∈ (history rs).2) :
    (g.index = h.index ↔ g.req.ch = h.req.ch) ∧ g.index < 32 := by
  have I := inv_history rs hr
  have h1 := I.log_chan g hg
  have h2 := I.log_chan h hh
  refine ⟨⟨?_, ?_⟩, (I.chan_pos _ _ h1).1⟩
  · intro he
    rw [← he] at h2
    exact I.chan_inj _ _ _ h1 h2
  · intro he
    rw [he, h2] at h1
    exact (Option.some.inj h1).symm

/-- **C18, disjointness.**  Through any history, no bin belongs to two grants. -/
theorem bins_disjoint (rs : List (Req Ch)) (hr : ∀ r ∈ rs, r.Real) :
    (history rs).2.Pairwise (fun g h => ∀ i b, ¬ (g.hasBin i b ∧ h.hasBin i b)) := by
  refine (inv_history rs hr).order.imp ?_
  intro g h hgh i b ⟨⟨h1, h2, h3⟩, ⟨h4, h5, h6⟩⟩
  have hsz : ∀ (x : Grant Ch), x.first ≤ b → b < x.first + x.req.size → x.req.acqs? ≠ none := by
    intro x hx1 hx2 hx
    rw [size_of_none hx] at hx2
    omega
  have := hgh (hsz g h2 h3) (hsz h h5 h6) (by rw [← h1, ← h4])
  omega

/-- **C18, declaration (1).**  An index is declared exactly when it has been granted, with the
sum of all bins granted (plus, when its first use was a whole-index or trace request, the bins of
that one). -/
theorem declared_exact (rs : List (Req Ch)) (hr : ∀ r ∈ rs, r.Real) (i : Nat) :
    ((∃ g ∈ (history rs).2, g.index = i) →
      (history rs).1.decl i = some (baseSize (history rs).2 i + binTotal (history rs).2 i)) ∧
    ((∀ g ∈ (history rs).2, g.index ≠ i) → (history rs).1.decl i = none) := by
  have I := inv_history rs hr
  constructor
  · rintro ⟨g, hg, rfl⟩
    rw [I.decl_eq, ← I.total, declOf_pos (I.chan_pos _ _ (I.log_chan g hg)).2]
  · intro hno
    rw [I.decl_eq]
    cases h0 : (history rs).1.nextFree i with
    | zero => rfl
    | succ n =>
      obtain ⟨c, hc⟩ := I.pos_chan i (by omega)
      obtain ⟨g, hg, rfl⟩ := I.chan_log c i hc
      have := I.log_chan g hg
      rw [hc] at this
      cases this
      exact absurd rfl (hno g hg)

/-- **C18, declaration (2).**  Every granted bin is declared, and on an index with binned
requests only, every declared bin is granted. -/
theorem declared_iff_granted (rs : List (Req Ch)) (hr : ∀ r ∈ rs, r.Real) (i : Nat)
    (hb : ∀ g ∈ (history rs).2, g.index = i → g.req.acqs? ≠ none) (b : Nat) :
    (∃ g ∈ (history rs).2, g.hasBin i b) ↔ ∃ n, (history rs).1.decl i = some n ∧ b < n := by
  have I := inv_history rs hr
  constructor
  · rintro ⟨g, hg, h1, h2, h3⟩
    have := I.within g hg (hb g hg h1.symm)
    subst h1
    refine ⟨_, by rw [I.decl_eq, declOf_pos (by omega)], by omega⟩
  · rintro ⟨n, h1, h2⟩
    rw [I.decl_eq] at h1
    have hn : n = (history rs).1.nextFree i := by
      unfold declOf at h1
      split at h1
      · cases h1
      · cases h1; rfl
    rcases I.cover i b (by omega) with ⟨g, hg, _, hx⟩ | ⟨g, hg, h3, h4⟩
    · exact ⟨g, hg, hx⟩
    · exact absurd h4 (hb g hg h3)

/-- **C18, lookup.**  If no acquisition index is requested twice on channel `c`, the data of the
`k`-th acquisition of a grant in repetition `rep` is looked up at that grant's index, bin
`first + rep * n + k` -- where the generated program puts it, `append_bins_repetition` -- and
that bin belongs to the grant. -/
theorem lookup_finds (rs : List (Req Ch)) (hr : ∀ r ∈ rs, r.Real) {g : Grant Ch}
    (hg : g ∈ (history rs).2) (hnd : (chAcqs (history rs).2 g.req.ch).Nodup)
    {as : List Nat} {reps : Nat} (hk : g.req.acqs? = some (as, reps))
    {k a rep : Nat} (ha : as[k]? = some a) (hrep : rep < reps) :
    (history rs).1.locate g.req.ch a rep = some (g.index, g.first + rep * as.length + k) ∧
    g.hasBin g.index (g.first + rep * as.length + k) := by
  have I := inv_history rs hr
  obtain ⟨m, h1, h2⟩ := I.complete g hg as reps k a hk ha hnd
  have hklt : k < as.length := (List.getElem?_eq_some_iff.mp ha).1
  refine ⟨?_, rfl, by omega, ?_⟩
  · simp only [St.locate, h1, Option.bind_some, h2, Option.map_some, Option.some.injEq,
      Prod.mk.injEq, true_and]
    omega
  · simp only [Req.size, hk]
    have : (rep + 1) * as.length ≤ reps * as.length := Nat.mul_le_mul_right _ (by omega)
    rw [Nat.succ_mul, Nat.mul_comm reps] at this
    omega

theorem pairwise_all {α : Type} {R : α → α → Prop} (hs : ∀ x y, R x y → R y x) :
    ∀ (l : List α), l.Pairwise R → ∀ x ∈ l, ∀ y ∈ l, x ≠ y → R x y := by
  intro l
  induction l with
  | nil => intro _ x hx; cases hx
  | cons a l ih =>
    intro h x hx y hy hne
    obtain ⟨h1, h2⟩ := List.pairwise_cons.mp h
    rcases List.mem_cons.mp hx with hx' | hx' <;> rcases List.mem_cons.mp hy with hy' | hy'
    · exact absurd (hx'.trans hy'.symm) hne
    · rw [hx']; exact h1 y hy'
    · rw [hy']; exact hs _ _ (h1 x hx')
    · exact ih h2 x hx' y hy' hne

/-- An acquisition that was asked for and granted, in one of its repetitions. -/
def Asked (L : List (Grant Ch)) (c : Ch) (a rep : Nat) : Prop :=
  ∃ g ∈ L, g.req.ch = c ∧ ∃ as reps, g.req.acqs? = some (as, reps) ∧ a ∈ as ∧ rep < reps

/-- **C18, inverse.**  Different acquisitions (channel, acquisition index, repetition) are looked
up in different places: the map from acquisitions to (hardware index, bin) is one-to-one. -/
theorem lookup_injective (rs : List (Req Ch)) (hr : ∀ r ∈ rs, r.Real)
    (hnd : ∀ c, (chAcqs (history rs).2 c).Nodup) {c c' : Ch} {a a' rep rep' : Nat}
    (h1 : Asked (history rs).2 c a rep) (h2 : Asked (history rs).2 c' a' rep')
    (he : (history rs).1.locate c a rep = (history rs).1.locate c' a' rep') :
    c = c' ∧ a = a' ∧ rep = rep' := by
  obtain ⟨g, hg, rfl, as, reps, hk, ha, hrep⟩ := h1
  obtain ⟨g', hg', rfl, as', reps', hk', ha', hrep'⟩ := h2
  obtain ⟨k, hka⟩ := List.mem_iff_getElem?.mp ha
  obtain ⟨k', hka'⟩ := List.mem_iff_getElem?.mp ha'
  obtain ⟨l1, b1⟩ := lookup_finds rs hr hg (hnd _) hk hka hrep
  obtain ⟨l2, b2⟩ := lookup_finds rs hr hg' (hnd _) hk' hka' hrep'
  rw [l1, l2] at he
  simp only [Option.some.injEq, Prod.mk.injEq] at he
  obtain ⟨hi, hb⟩ := he
  rw [← hi, ← hb] at b2
  have hsame : g = g' := by
    by_contra hne
    have hP := bins_disjoint rs hr
    have hsym : ∀ x ∈ (history rs).2, ∀ y ∈ (history rs).2, x ≠ y →
        ∀ i b, ¬ (x.hasBin i b ∧ y.hasBin i b) := by
      exact pairwise_all (fun x y h i b hh => h i b ⟨hh.2, hh.1⟩) _ hP
    exact hsym g hg g' hg' hne _ _ ⟨b1, b2⟩
  subst hsame
  rw [hk] at hk'
  simp only [Option.some.injEq, Prod.mk.injEq] at hk'
  obtain ⟨rfl, rfl⟩ := hk'
  have hkl : k < as.length := (List.getElem?_eq_some_iff.mp hka).1
  have hkl' : k' < as.length := (List.getElem?_eq_some_iff.mp hka').1
  have hbb : as.length * rep + k = as.length * rep' + k' := by
    rw [Nat.mul_comm as.length rep, Nat.mul_comm as.length rep']; omega
  have hq : rep = rep' := by
    have e1 : (as.length * rep + k) / as.length = rep := by
      rw [Nat.mul_add_div (by omega), Nat.div_eq_of_lt hkl]; rfl
    have e2 : (as.length * rep' + k') / as.length = rep' := by
      rw [Nat.mul_add_div (by omega), Nat.div_eq_of_lt hkl']; rfl
    rw [← e1, hbb, e2]
  subst hq
  have : k = k' := by omega
  subst this
  rw [hka] at hka'
  cases hka'
  exact ⟨rfl, rfl, rfl⟩

/-- **C18, nothing invented.**  Whatever is looked up was granted to that channel for that
acquisition index. -/
theorem lookup_sound (rs : List (Req Ch)) (hr : ∀ r ∈ rs, r.Real) {c : Ch} {a rep i b : Nat}
    (h : (history rs).1.locate c a rep = some (i, b)) :
    ∃ g ∈ (history rs).2, g.req.ch = c ∧ g.index = i ∧ ∃ as reps, g.req.acqs? = some (as, reps) ∧
      a ∈ as := by
  simp only [St.locate, Option.map_eq_some_iff, Option.bind_eq_some_iff] at h
  obtain ⟨loc, ⟨m, h1, h2⟩, h3⟩ := h
  obtain ⟨g, hg, h4, as, reps, k, h5, h6, h7⟩ := (inv_history rs hr).sound c m a loc h1 h2
  refine ⟨g, hg, h4, ?_, as, reps, h5, List.mem_of_getElem? h6⟩
  have := congrArg Prod.fst h3
  rw [h7] at this
  exact this

/-- **C18, acceptance.**  Bins for a channel not served before are refused (with an `IndexError`)
exactly when all 32 indices are in use, or more than 100000 bins are asked for at once. -/
theorem new_channel_accepted_iff (rs : List (Req Ch)) (hr : ∀ r ∈ rs, r.Real) (c : Ch)
    (as : List Nat) (reps : Nat) (hc : ∀ g ∈ (history rs).2, g.req.ch ≠ c) :
    (∃ s' p, (history rs).1.exec (.bins c as reps) = (s', .ok p)) ↔
      as.length ≤ 100000 ∧ ∃ i < 32, ∀ g ∈ (history rs).2, g.index ≠ i := by
  have I := inv_history rs hr
  have hcn : (history rs).1.chan c = none := by
    cases h : (history rs).1.chan c with
    | none => rfl
    | some i =>
      obtain ⟨g, hg, he⟩ := I.chan_log c i h
      exact absurd he (hc g hg)
  have hnb : (history rs).1.notBinned c = none := by
    cases h : (history rs).1.notBinned c with
    | none => rfl
    | some j =>
      obtain ⟨i, hi⟩ := I.notBinned_chan c j h
      rw [hcn] at hi
      cases hi
  constructor
  · rintro ⟨s', ⟨i, f⟩, h⟩
    cases exec_ok h with
    | old hk => cases hk
    | whole tr hk => cases hk
    | bins tr as' reps' hk hc' hf hn hsz hs =>
      cases hk
      rcases hc' with hc' | ⟨_, hi⟩
      · simp only [Req.ch] at hc'
        rw [hcn] at hc'
        cases hc'
      · obtain ⟨h1, h2, _⟩ := nextIndex_spec hi
        refine ⟨?_, i, h1, I.no_grant h2⟩
        simp only [St.freeBins, h2, numBins] at hsz
        omega
  · rintro ⟨hl, i, hi, hno⟩
    have h0 : (history rs).1.nextFree i = 0 := by
      by_contra hne
      obtain ⟨c', hc'⟩ := I.pos_chan i (by omega)
      obtain ⟨g, hg, he⟩ := I.chan_log c' i hc'
      have := I.log_chan g hg
      rw [he, hc'] at this
      cases this
      exact hno g hg rfl
    cases hn : (history rs).1.nextIndex with
    | none => exact absurd h0 (nextIndex_none hn i hi)
    | some j =>
      obtain ⟨_, hj0, _⟩ := nextIndex_spec hn
      have hx : ¬ ((as.length : Int) > (history rs).1.freeBins j) := by
        simp only [St.freeBins, hj0, numBins]
        omega
      simp only [St.exec, St.allocateBins, St.takeBins, hcn, hn, Option.none_or, if_neg hx,
        St.reserve, hnb, Option.isSome_none, Bool.false_eq_true, if_false, St.finish]
      exact ⟨_, _, rfl⟩

/-- Non-vacuity: three channels, one with two requests, 10 repetitions. -/
def demoReqs : List (Req Nat) :=
  [.bins 7 [0, 1, 2] 10, .trace 8, .bins 9 [0] 1, .bins 7 [5, 3] 10, .timetag 10 [0] 2]

example : (∀ r ∈ demoReqs, r.Real) ∧ (∀ c, (chAcqs (history demoReqs).2 c).Nodup) ∧
    (history demoReqs).2.map (fun g => (g.index, g.first)) = [(0, 0), (1, 0), (2, 0), (0, 30)] ∧
    (history demoReqs).1.locate 7 3 9 = some (0, 30 + 9 * 2 + 1) ∧
    (history demoReqs).1.decl 0 = some 50 := by
  refine ⟨?_, ?_, by decide +kernel, by decide +kernel, by decide +kernel⟩
  · intro r hr a n h
    simp only [demoReqs, List.mem_cons, List.not_mem_nil, or_false] at hr
    rcases hr with rfl | rfl | rfl | rfl | rfl <;> simp [Req.acqs?] at h <;>
      (obtain ⟨rfl, rfl⟩ := h; simp)
  · intro c
    have : chAcqs (history demoReqs).2 c =
        (if 7 = c then [0, 1, 2] else []) ++ ((if 9 = c then [0] else []) ++
          (if 7 = c then [5, 3] else [])) := by
      simp [chAcqs, history, demoReqs, St.exec, St.allocateBins, St.allocateTrace, St.takeBins,
        St.init, St.nextIndex, numIndices, List.range_succ, List.find?_cons, St.freeBins, numBins,
        St.reserve, St.finish, upd, St.allocateTimetag, Req.ch, Req.acqs?]
      by_cases h8 : 8 = c <;> simp [h8] <;> congr
    rw [this]
    by_cases h7 : 7 = c
    · subst h7; decide
    · by_cases h9 : 9 = c
      · subst h9; decide
      · simp [h7, h9]

/-- Finding: the check for free bins does not count the repetitions, so more than the 100000 bins
of a sequencer can be declared. -/
theorem more_bins_than_memory :
    (history [Req.bins 0 [0, 1] 100000]).1.decl 0 = some 200000 := by decide +kernel

/-- Finding: a trace (or whole-index) request on a channel that already has bins is granted with
bin 0, which belongs to another acquisition; only the other order is rejected. -/
theorem trace_after_bins_overlaps :
    (history [Req.bins 0 [0] 1, .trace 0]).2.map (fun g => (g.index, g.first)) = [(0, 0), (0, 0)] ∧
    (history [Req.trace 0, .bins 0 [0] 1]).2.map (fun g => (g.index, g.first)) = [(0, 0)] := by
  decide +kernel

/-! ### One trace per sequencer -/

/-- Requests for trace memory. -/
def Req.isTrace : Req Ch → Bool
  | .trace _ => true
  | .timetag _ _ _ => true
  | _ => false

/-- The channels of `L` are used either only for traces or not at all for traces. -/
def Sorted (L : List (Grant Ch)) : Prop :=
  ∀ g ∈ L, ∀ h ∈ L, g.req.ch = h.req.ch → g.req.isTrace = h.req.isTrace

theorem exec_trace {s s' : St Ch} {r : Req Ch} {i f : Nat} (h : s.exec r = (s', .ok (i, f)))
    (hr : r.isTrace = true) : (s.chan r.ch ≠ none ∧ (s.trace = true → s'.trace = true)) ∨
      (s.chan r.ch = none ∧ s.trace = false ∧ s'.trace = true) := by
  cases r with
  | bins => cases hr
  | index => cases hr
  | trace ch =>
    simp only [St.exec, St.allocateTrace, Req.ch] at *
    cases hc : s.chan ch with
    | some j =>
      rw [hc] at h
      simp only [Prod.mk.injEq] at h
      exact Or.inl ⟨by simp, by rw [h.1]; exact id⟩
    | none =>
      rw [hc] at h
      simp only at h
      split at h
      · simp at h
      · rename_i ht
        split at h
        · simp at h
        · right
          refine ⟨rfl, by simpa using ht, ?_⟩
          unfold St.finish at h
          split at h
          · simp at h
          · simp only [Prod.mk.injEq] at h
            rw [← h.1]; simp
  | timetag ch as reps =>
    simp only [St.exec, St.allocateTimetag, Req.ch, St.takeBins] at *
    cases hc : s.chan ch with
    | some j =>
      rw [hc] at h
      simp only at h
      refine Or.inl ⟨by simp, ?_⟩
      split at h
      · simp at h
      · unfold St.finish at h
        split at h
        · simp at h
        · simp only [Prod.mk.injEq] at h
          intro _
          rw [← h.1]; simp
    | none =>
      rw [hc] at h
      simp only at h
      split at h
      · simp at h
      · rename_i ht
        right
        refine ⟨rfl, by simpa using ht, ?_⟩
        split at h
        · simp at h
        · split at h
          · simp at h
          · unfold St.finish at h
            split at h
            · simp at h
            · simp only [Prod.mk.injEq] at h
              rw [← h.1]; simp

theorem exec_trace_mono {s s' : St Ch} {r : Req Ch} {i f : Nat} (h : s.exec r = (s', .ok (i, f)))
    (ht : s.trace = true) : s'.trace = true := by
  cases exec_ok h with
  | old hk hc hf hs => rw [hs]; exact ht
  | whole tr hk hc hi hf hb hs => rw [hs]; simp [St.withIndex, ht]
  | bins tr as reps hk hc hf hn hsz hs => rw [hs]; simp [St.withBins, ht]

/-- What is known about traces after a history. -/
def TraceInv (s : St Ch) (L : List (Grant Ch)) : Prop :=
  Sorted L → (∀ g ∈ L, g.req.isTrace = true → s.trace = true) ∧
    ∀ g ∈ L, ∀ h ∈ L, g.req.isTrace = true → h.req.isTrace = true → g.req.ch = h.req.ch

theorem trace_step {s s' : St Ch} {L : List (Grant Ch)} {r : Req Ch} {i f : Nat} (hi : Inv s L)
    (ht : TraceInv s L) (hx : s.exec r = (s', .ok (i, f))) : TraceInv s' (L ++ [⟨r, i, f⟩]) := by
  intro hso
  have hso' : Sorted L := fun g hg h hh => hso g (by simp [hg]) h (by simp [hh])
  obtain ⟨t1, t2⟩ := ht hso'
  cases hr : r.isTrace with
  | false =>
    have hmem : ∀ g ∈ L ++ [(⟨r, i, f⟩ : Grant Ch)], g.req.isTrace = true → g ∈ L := by
      intro g hg hgt
      rcases List.mem_append.mp hg with hg | hg
      · exact hg
      · simp at hg; subst hg; simp [hr] at hgt
    exact ⟨fun g hg hgt => exec_trace_mono hx (t1 g (hmem g hg hgt) hgt),
      fun g hg h hh hgt hht => t2 g (hmem g hg hgt) h (hmem h hh hht) hgt hht⟩
  | true =>
    rcases exec_trace hx hr with ⟨hc, hm⟩ | ⟨hc, hf, hm⟩
    · cases hcc : s.chan r.ch with
      | none => exact absurd hcc hc
      | some j =>
        obtain ⟨g0, hg0, he0⟩ := hi.chan_log _ _ hcc
        have ht0 : g0.req.isTrace = true := by
          rw [hso g0 (by simp [hg0]) ⟨r, i, f⟩ (by simp) he0]; exact hr
        have hch : ∀ g ∈ L ++ [(⟨r, i, f⟩ : Grant Ch)], g.req.isTrace = true → g.req.ch = g0.req.ch := by
          intro g hg hgt
          rcases List.mem_append.mp hg with hg | hg
          · exact t2 g hg g0 hg0 hgt ht0
          · simp at hg; subst hg; exact he0.symm
        exact ⟨fun _ _ _ => hm (t1 g0 hg0 ht0),
          fun g hg h hh hgt hht => (hch g hg hgt).trans (hch h hh hht).symm⟩
    · have hno : ∀ g ∈ L, g.req.isTrace = true → False := by
        intro g hg hgt
        rw [t1 g hg hgt] at hf
        cases hf
      have hch : ∀ g ∈ L ++ [(⟨r, i, f⟩ : Grant Ch)], g.req.isTrace = true → g.req.ch = r.ch := by
        intro g hg hgt
        rcases List.mem_append.mp hg with hg | hg
        · exact (hno g hg hgt).elim
        · simp at hg; subst hg; rfl
      exact ⟨fun _ _ _ => hm, fun g hg h hh hgt hht => (hch g hg hgt).trans (hch h hh hht).symm⟩

theorem history_append (rs : List (Req Ch)) (r : Req Ch) : history (rs ++ [r]) =
    match (history rs).1.exec r with
      | (s', .ok (i, f)) => (s', (history rs).2 ++ [⟨r, i, f⟩])
      | (s', .error _) => (s', (history rs).2) := by
  simp only [history, List.foldl_append, List.foldl_cons, List.foldl_nil]
  rfl

theorem trace_history (rs : List (Req Ch)) (hr : ∀ r ∈ rs, r.Real) :
    TraceInv (history rs).1 (history rs).2 := by
  induction rs using List.reverseRecOn with
  | nil => intro _; simp [history]
  | append_singleton rs r ih =>
    have ih := ih (fun x hx => hr x (by simp [hx]))
    have hi := inv_history rs (fun x hx => hr x (by simp [hx]))
    rw [history_append]
    rcases hx : (history rs).1.exec r with ⟨s', res⟩
    cases res with
    | ok v => exact trace_step hi ih hx
    | error e =>
      have := exec_error hx
      subst this
      exact ih

/-- **C18, one trace.**  Through any history in which no channel is used both for traces (or time
tag traces) and for something else, all granted traces are for the same channel. -/
theorem one_trace_channel (rs : List (Req Ch)) (hr : ∀ r ∈ rs, r.Real)
    (hso : Sorted (history rs).2) {g h : Grant Ch} (hg : g ∈ (history rs).2)
    (hh : h ∈ (history rs).2) (hgt : g.req.isTrace = true) (hht : h.req.isTrace = true) :
    g.req.ch = h.req.ch := (trace_history rs hr hso).2 g hg h hh hgt hht

/-- **C18, second trace.**  After such a history with a trace in it, a trace on a channel that has
not been served before is refused with a `RuntimeError`. -/
theorem second_trace_refused (rs : List (Req Ch)) (hr : ∀ r ∈ rs, r.Real)
    (hso : Sorted (history rs).2) {g : Grant Ch} (hg : g ∈ (history rs).2)
    (hgt : g.req.isTrace = true) (r : Req Ch) (hrt : r.isTrace = true)
    (hc : ∀ h ∈ (history rs).2, h.req.ch ≠ r.ch) :
    ((history rs).1.exec r).2 = .error .runtimeError := by
  have I := inv_history rs hr
  have ht := (trace_history rs hr hso).1 g hg hgt
  have hcn : (history rs).1.chan r.ch = none := by
    cases h : (history rs).1.chan r.ch with
    | none => rfl
    | some i =>
      obtain ⟨x, hx, he⟩ := I.chan_log _ i h
      exact absurd he (hc x hx)
  cases r with
  | bins => cases hrt
  | index => cases hrt
  | trace ch => simp only [Req.ch] at hcn; simp [St.exec, St.allocateTrace, hcn, ht]
  | timetag ch as reps => simp only [Req.ch] at hcn; simp [St.exec, St.allocateTimetag, hcn, ht]

/-- Non-vacuity: a trace between bins, then a refused trace and a refused time tag trace. -/
example : (history [Req.bins 1 [0] 1, .trace 0, .trace 2, .timetag 3 [0] 1, .trace 0]).2.map
    (fun g => (g.req.isTrace, g.req.ch)) = [(false, 1), (true, 0), (true, 0)] := by decide +kernel

/-- Finding: after bins have been taken on a channel, a trace is granted there without being
counted, and another channel gets a trace as well. -/
theorem two_traces_granted :
    (history [Req.bins 0 [0] 1, .trace 0, .trace 1]).2.map (fun g => (g.req.isTrace, g.req.ch)) =
      [(false, 0), (true, 0), (true, 1)] := by decide +kernel

/-- Finding: a request without acquisitions does not occupy its index; a second channel gets the
same one. -/
theorem empty_request_shares_index :
    (history [Req.bins 0 [] 1, .bins 1 [0] 1, .bins 0 [0] 1]).2.map (fun g => (g.index, g.first)) =
      [(0, 0), (0, 0), (0, 1)] := by decide +kernel

end Verif.AcqBins
