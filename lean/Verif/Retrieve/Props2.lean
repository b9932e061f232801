/-
C40: retrieved data: single sequencers, conflicts, distributions, timetag traces and coordinates.
-/
import Verif.Retrieve.Props
import Mathlib.Tactic.FieldSimp
import Mathlib.Tactic.Ring

set_option linter.unusedSimpArgs false
set_option linter.unusedVariables false

namespace Verif.Retrieve

variable {Ch : Type} [DecidableEq Ch]

/-- **C40, one sequencer.** If the channel is measured by one sequencer only, its values in the
dataset are exactly the ones measured, NaN included. -/
theorem retrieved_single {mod : Module} {chans : Ch → Option Chan} {reps : Nat}
    {jobs : List (Seq × Ch × Mapping)} {ds : List (Ch × Arr)}
    (h : retrieve mod chans reps jobs = .ok ds) {job : Seq × Ch × Mapping} (hj : job ∈ jobs)
    (hone : ∀ j ∈ jobs, j.2.1 = job.2.1 → j = job) {a : Nat} (ha : a ∈ Dict.keys job.2.2) :
    ∃ c, chans job.2.1 = some c ∧ ∀ r, r < c.rows reps → ∃ v,
      Measured mod chans reps job job.2.1 r a v ∧ cellOf ds job.2.1 r a = some v := by
  have I := inv_retrieve h
  obtain ⟨c, hc, hr⟩ := I.total job hj a ha
  refine ⟨c, hc, fun r hlt => ?_⟩
  obtain ⟨arr, harr, hidx⟩ := (I.idx job.2.1 a).mpr ⟨job, hj, rfl, ha⟩
  obtain ⟨c', hc', hrows, _⟩ := I.shape _ _ harr
  rw [hc] at hc'
  obtain rfl := Option.some.inj hc'
  obtain ⟨o, ho⟩ := Option.isSome_iff_exists.mp ((I.cell _ _ harr r (by omega) a).mp hidx)
  have hcell : cellOf ds job.2.1 r a = some o := by simp [cellOf, harr, ho]
  obtain ⟨j, hj', hread⟩ := I.origin _ r a o hcell
  obtain rfl := hone j hj' hread.1
  exact ⟨o, hread.measured, hcell⟩

theorem addJobs_append {mod : Module} {chans : Ch → Option Chan} {reps : Nat} :
    ∀ (l l' : List (Seq × Ch × Mapping)) (ds : List (Ch × Arr)),
    addJobs mod chans reps (l ++ l') ds =
      (addJobs mod chans reps l ds >>= fun ds' => addJobs mod chans reps l' ds')
  | [], l', ds => rfl
  | j :: l, l', ds => by
    simp only [List.cons_append, addJobs]
    cases addJob mod chans reps ds j with
    | error e => rfl
    | ok ds1 => exact addJobs_append l l' ds1

/-- Two sequencers with the same channel, at the time the second one is handled. -/
theorem second_handled {mod : Module} {chans : Ch → Option Chan} {reps : Nat}
    {pre mid post : List (Seq × Ch × Mapping)} {j k : Seq × Ch × Mapping} {ds : List (Ch × Arr)}
    (h : retrieve mod chans reps (pre ++ j :: mid ++ k :: post) = .ok ds) (hch : k.2.1 = j.2.1)
    (hne : Dict.keys j.2.2 ≠ []) :
    ∃ ds1 cur new c, Inv mod chans reps (pre ++ j :: mid) ds1 ∧ Dict.get? ds1 j.2.1 = some cur ∧
      chans j.2.1 = some c ∧ channelData mod c reps k.1 k.2.2 = .ok new ∧ conflict new cur = false := by
  simp only [retrieve, bind_ok] at h
  obtain ⟨_, _, h⟩ := h
  rw [addJobs_append, bind_ok] at h
  obtain ⟨ds1, h1, h2⟩ := h
  have I : Inv mod chans reps (pre ++ j :: mid) ds1 := by
    simpa using inv_jobs (pre ++ j :: mid) [] [] ds1 (inv_nil mod chans reps) h1
  obtain ⟨a, ha⟩ := List.exists_mem_of_ne_nil _ hne
  obtain ⟨cur, hcur, _⟩ := (I.idx j.2.1 a).mpr ⟨j, by simp, rfl, ha⟩
  simp only [addJobs, bind_ok] at h2
  obtain ⟨ds2, h2, _⟩ := h2
  unfold addJob at h2
  rw [hch] at h2
  cases hc : chans j.2.1 with
  | none => rw [hc] at h2; simp at h2
  | some c =>
    rw [hc] at h2
    simp only [bind_ok] at h2
    obtain ⟨new, hnew, h2⟩ := h2
    rw [hcur] at h2
    simp only at h2
    refine ⟨ds1, cur, new, c, I, hcur, rfl, hnew, ?_⟩
    by_contra hcf
    rw [Bool.not_eq_false] at hcf
    rw [if_pos hcf] at h2
    simp at h2

theorem reads_refused {mod : Module} {chans : Ch → Option Chan} {reps : Nat}
    {pre mid post : List (Seq × Ch × Mapping)} {j k : Seq × Ch × Mapping} {r a : Nat} {v w : Out}
    (hv : ReadAt mod chans reps j j.2.1 r a v) (hw : ReadAt mod chans reps k j.2.1 r a w)
    (hv' : v ≠ .nan) (hw' : w ≠ .nan) (ds : List (Ch × Arr)) :
    retrieve mod chans reps (pre ++ j :: mid ++ k :: post) ≠ .ok ds := by
  intro h
  have hkey : ∀ {m : Mapping} {e}, Dict.get? m a = some e → a ∈ Dict.keys m := by
    intro m e he
    by_contra hn
    rw [(Dict.get?_eq_none_iff m a).mpr hn] at he
    simp at he
  obtain ⟨_, c, e, hc, hr, he, hread⟩ := hv
  obtain ⟨hch, c', e', hc', _, he', hread'⟩ := hw
  rw [hc] at hc'
  obtain rfl := Option.some.inj hc'
  obtain ⟨ds1, cur, new, c', I, hcur, hc2, hnew, hcf⟩ := second_handled h hch
    (List.ne_nil_of_mem (hkey he))
  rw [hc] at hc2
  obtain rfl := Option.some.inj hc2
  obtain ⟨hidx, hrows, hreps, hcell⟩ := channel_cell hnew
  have hk := I.kept j (by simp) j.2.1 r a v ⟨rfl, c, e, hc, hr, he, hread⟩ hv'
  have hcc : cur.cell r a = some v := by simpa [cellOf, hcur] using hk
  have hnc : new.cell r a = some w := by
    have := hcell r hr a
    rw [he'] at this
    obtain ⟨o, h1, h2⟩ := this
    rw [h1] at hread'
    rw [h2, Except.ok.inj hread']
  obtain ⟨c2, hc3, hcr, _⟩ := I.shape _ _ hcur
  rw [hc] at hc3
  obtain rfl := Option.some.inj hc3
  have h1 : a ∈ new.idx := by rw [hidx]; exact hkey he'
  have h2 : a ∈ cur.idx := (I.cell _ _ hcur r (by omega) a).mpr (by simp [hcc])
  have hb := conflict_sound hcf (r := r) (i := a) (by
    rw [hreps]
    unfold Chan.rows at hr
    by_cases hm : c.mode = .append
    · simp only [if_pos hm] at hr ⊢; exact hr
    · simp only [if_neg hm] at hr ⊢; exact hr) h1 h2
  have : bothAt new cur r a = true := bothAt_iff.mpr ⟨w, v, hnc, hcc, hw', hv'⟩
  rw [hb] at this
  simp at this

omit [DecidableEq Ch] in
theorem Measured.unique {mod : Module} {chans : Ch → Option Chan} {reps : Nat} {job : Seq × Ch × Mapping}
    {ch : Ch} {row acq : Nat} {o o' : Out} (h : Measured mod chans reps job ch row acq o)
    (h' : Measured mod chans reps job ch row acq o') : o = o' := by
  obtain ⟨_, c, e, hw, h2, _, h4, h5, _, h6⟩ := h
  obtain ⟨_, c', e', hw', h2', _, h4', h5', _, h6'⟩ := h'
  rw [h2] at h2'
  obtain rfl := Option.some.inj h2'
  rw [h4] at h4'
  obtain rfl := Option.some.inj h4'
  rw [h5] at h5'
  obtain rfl := Option.some.inj h5'
  exact shows_unique h6 h6'

/-- **C40, conflicts.** If two sequencers measure values (not NaN) for the same channel, acquisition
index and repetition, no data is returned. -/
theorem duplicates_refused {mod : Module} {chans : Ch → Option Chan} {reps : Nat}
    {pre mid post : List (Seq × Ch × Mapping)} {j k : Seq × Ch × Mapping} {ch : Ch} {r a : Nat} {v w : Out}
    (hv : Measured mod chans reps j ch r a v) (hw : Measured mod chans reps k ch r a w)
    (hv' : v ≠ .nan) (hw' : w ≠ .nan) (ds : List (Ch × Arr)) :
    retrieve mod chans reps (pre ++ j :: mid ++ k :: post) ≠ .ok ds := by
  intro h
  have I := inv_retrieve h
  have key : ∀ i ∈ pre ++ j :: mid ++ k :: post, ∀ x, Measured mod chans reps i ch r a x →
      ReadAt mod chans reps i ch r a x := by
    intro i hi x hx
    obtain ⟨rfl, c, e, hh, hc, hr, he, _⟩ := id hx
    have hk : a ∈ Dict.keys i.2.2 := by
      by_contra hn
      rw [(Dict.get?_eq_none_iff i.2.2 a).mpr hn] at he
      simp at he
    obtain ⟨c', hc', hall⟩ := I.total i hi a hk
    rw [hc] at hc'
    obtain rfl := Option.some.inj hc'
    obtain ⟨y, hy⟩ := hall r hr
    rw [hx.unique hy.measured]
    exact hy
  have h1 := key j (by simp) v hv
  have h2 := key k (by simp) w hw
  have e := h1.1
  subst e
  exact reads_refused h1 h2 hv' hw' ds h

/-- Finding: a channel in append mode cannot be measured by two sequencers with different
acquisition indices: retrieving the data fails, although there is no conflict. -/
theorem append_two_sequencers_fail {mod : Module} {chans : Ch → Option Chan} {reps : Nat}
    {pre mid post : List (Seq × Ch × Mapping)} {j k : Seq × Ch × Mapping} (hch : k.2.1 = j.2.1)
    {c : Chan} (hc : chans j.2.1 = some c) (hm : c.mode = .append) (hreps : 0 < reps)
    (hne : Dict.keys j.2.2 ≠ [])
    (hdisj : ∀ i ∈ pre ++ j :: mid, i.2.1 = j.2.1 → ∀ a ∈ Dict.keys i.2.2, a ∉ Dict.keys k.2.2)
    (ds : List (Ch × Arr)) : retrieve mod chans reps (pre ++ j :: mid ++ k :: post) ≠ .ok ds := by
  intro h
  obtain ⟨ds1, cur, new, c', I, hcur, hc2, hnew, hcf⟩ := second_handled h hch hne
  rw [hc] at hc2
  obtain rfl := Option.some.inj hc2
  obtain ⟨hidx, hrows, hreps', hcell⟩ := channel_cell hnew
  have hempty : new.idx.filter (fun i => cur.idx.contains i) = [] := by
    rw [List.filter_eq_nil_iff]
    intro a ha hb
    rw [List.contains_iff_mem] at hb
    obtain ⟨i, hi, hich, hia⟩ := (I.idx j.2.1 a).mp ⟨cur, hcur, hb⟩
    rw [hidx] at ha
    exact hdisj i hi hich a hia ha
  unfold conflict at hcf
  rw [hreps', if_pos hm] at hcf
  simp only at hcf
  rw [if_neg (by omega), hempty] at hcf
  simp at hcf

/-! ### With the acquisition index manager -/

/-- **C40, end to end with the bins of C18.** Let the channel of a granted request in append mode be
measured by one sequencer, whose mapping is that of the acquisition index manager after any history of
requests. If data is retrieved, then the value for the `k`-th acquisition index of the request in
repetition `rep` is what the hardware has in the bin of that acquisition in that repetition (where the
program has put it, by `append_bins_repetition`). -/
theorem retrieved_grant {mod : Module} {chans : Ch → Option Chan}
    {jobs : List (Seq × Ch × Mapping)} {ds : List (Ch × Arr)} {reps : Nat}
    (h : retrieve mod chans reps jobs = .ok ds) {job : Seq × Ch × Mapping} (hj : job ∈ jobs)
    (hone : ∀ j ∈ jobs, j.2.1 = job.2.1 → j = job)
    (rs : List (AcqBins.Req Ch)) (hr : ∀ r ∈ rs, r.Real)
    (hmap : ∀ a, (Dict.get? job.2.2 a).map (fun e => (⟨e.index, e.bin, e.stride⟩ : AcqBins.Loc)) =
      ((AcqBins.history rs).1.binned job.2.1).bind (fun m => m a))
    {g : AcqBins.Grant Ch} (hg : g ∈ (AcqBins.history rs).2) (hgc : g.req.ch = job.2.1)
    (hnd : (AcqBins.chAcqs (AcqBins.history rs).2 g.req.ch).Nodup)
    {as : List Nat} (hk : g.req.acqs? = some (as, reps))
    {c : Chan} (hc : chans job.2.1 = some c) (hm : c.mode = .append)
    {k a rep : Nat} (ha : as[k]? = some a) (hrep : rep < reps) :
    ∃ hw m o, job.1.hw g.index = some hw ∧ hw.index = g.index ∧
      Shows mod c reps job.1.dur m hw.bins (g.first + rep * as.length + k) o ∧
      cellOf ds job.2.1 rep a = some o := by
  obtain ⟨hloc, _⟩ := AcqBins.lookup_finds rs hr hg hnd hk ha hrep
  rw [AcqBins.St.locate, hgc, ← hmap a] at hloc
  cases he : Dict.get? job.2.2 a with
  | none => rw [he] at hloc; simp at hloc
  | some e =>
    rw [he] at hloc
    simp only [Option.map_some, Option.some.injEq, Prod.mk.injEq] at hloc
    have hkey : a ∈ Dict.keys job.2.2 := by
      by_contra hn
      rw [(Dict.get?_eq_none_iff _ a).mpr hn] at he
      simp at he
    obtain ⟨c', hc', hrow⟩ := retrieved_single h hj hone hkey
    rw [hc] at hc'
    obtain rfl := Option.some.inj hc'
    obtain ⟨v, hmeas, hcell⟩ := hrow rep (by simpa [Chan.rows, hm] using hrep)
    obtain ⟨_, c2, e2, hw, hc2, _, he2, h1, h2, h3⟩ := hmeas
    rw [hc] at hc2
    obtain rfl := Option.some.inj hc2
    rw [he] at he2
    obtain rfl := Option.some.inj he2
    refine ⟨hw, e.meta?, v, by rw [← hloc.1]; exact h1, by rw [← hloc.1]; exact h2, ?_, hcell⟩
    rw [← hloc.2]
    simpa [Entry.binOf, hm] using h3

/-! ### Distributions -/

theorem atLeast_step (windows : List Nat) (k : Nat) :
    atLeast windows k = exactly windows k + atLeast windows (k + 1) := by
  unfold atLeast exactly
  induction windows with
  | nil => simp
  | cons w ws ih =>
    simp only [List.countP_cons, decide_eq_true_eq]
    rcases Nat.lt_trichotomy w k with h | h | h
    · have h1 : ¬ k ≤ w := by omega
      have h2 : ¬ w = k := by omega
      have h3 : ¬ k + 1 ≤ w := by omega
      simp [h1, h2, h3, ih]
    · subst h
      have h3 : ¬ w + 1 ≤ w := by omega
      simp only [if_pos (le_refl w), if_true, if_neg h3, ih]; omega
    · have h1 : k ≤ w := by omega
      have h2 : ¬ w = k := by omega
      have h3 : k + 1 ≤ w := by omega
      simp only [if_pos h1, if_neg h2, if_pos h3, ih]; omega

/-- The histogram of counts up to `n`: pairs of a count, from 1, that occurs and the number of windows
with it. -/
def histogram (windows : List Nat) (n : Nat) : List (Nat × Rat) :=
  (List.range n).filterMap (fun k =>
    if exactly windows (k + 1) = 0 then none else some (k + 1, (exactly windows (k + 1) : Rat)))

theorem convert_prefix (windows : List Nat) (values : List Val)
    (h : ∀ (k : Nat) v, values[k]? = some v → v = some (atLeast windows (k + 1) : Rat) ∨
      (v = none ∧ atLeast windows (k + 1) = 0)) : ∀ n, n ≤ values.length →
    convertLoop (atLeast windows (n + 1) : Rat) (((List.range n).zip (values.take n)).reverse) =
      (histogram windows n).reverse
  | 0, _ => by simp [convertLoop, histogram]
  | n + 1, hn => by
    have ih := convert_prefix windows values h n (by omega)
    obtain ⟨v, hv⟩ : ∃ v, values[n]? = some v := ⟨_, List.getElem?_eq_getElem (by omega)⟩
    have hz : (List.range (n + 1)).zip (values.take (n + 1)) =
        (List.range n).zip (values.take n) ++ [(n, v)] := by
      rw [List.range_succ, List.take_succ, hv]
      simp only [Option.toList_some]
      rw [List.zip_append (by simp; omega)]
      simp
    have hhist : histogram windows (n + 1) = histogram windows n ++
        (if exactly windows (n + 1) = 0 then [] else [(n + 1, (exactly windows (n + 1) : Rat))]) := by
      unfold histogram
      rw [List.range_succ, List.filterMap_append]
      congr 1
      by_cases h0 : exactly windows (n + 1) = 0 <;> simp [h0]
    rw [hz, List.reverse_append, List.reverse_singleton, List.singleton_append, hhist]
    have hstep := atLeast_step windows (n + 1)
    simp only [convertLoop]
    rcases h n v hv with rfl | ⟨rfl, h0⟩
    · simp only
      by_cases h0 : exactly windows (n + 1) = 0
      · have e : atLeast windows (n + 1 + 1) = atLeast windows (n + 1) := by omega
        rw [if_neg (by rw [e]; simp), e, ih, if_pos h0, List.append_nil]
      · have hne : (atLeast windows (n + 1 + 1) : Rat) ≠ (atLeast windows (n + 1) : Rat) := by
          intro e
          have : atLeast windows (n + 1 + 1) = atLeast windows (n + 1) := by exact_mod_cast e
          omega
        rw [if_pos hne, ih, if_neg h0, List.reverse_append]
        simp only [List.reverse_singleton, List.singleton_append]
        congr 2
        rw [hstep]
        push_cast
        ring
    · have e : atLeast windows (n + 1 + 1) = atLeast windows (n + 1) := by omega
      have h1 : exactly windows (n + 1) = 0 := by omega
      simp only
      rw [e, ih, if_pos h1, List.append_nil]

/-- **C40, distributions.** If the hardware has for each `k` the number of windows with more than `k`
triggers (possibly NaN instead of zero), and no window has more triggers than there are bins, then the
returned distribution is the histogram of the numbers of triggers (without windows without trigger). -/
theorem distribution_exact (windows : List Nat) (values : List Val)
    (h : ∀ (k : Nat) v, values[k]? = some v → v = some (atLeast windows (k + 1) : Rat) ∨
      (v = none ∧ atLeast windows (k + 1) = 0)) (hmax : ∀ w ∈ windows, w ≤ values.length) :
    convertFromCumulative values = histogram windows values.length := by
  have h0 : atLeast windows (values.length + 1) = 0 := by
    unfold atLeast
    rw [List.countP_eq_zero]
    intro w hw
    have := hmax w hw
    simp only [decide_eq_true_eq]; omega
  have := convert_prefix windows values h values.length (le_refl _)
  rw [List.take_length, h0] at this
  unfold convertFromCumulative
  have e : ((0 : Nat) : Rat) = 0 := by simp
  rw [e] at this
  rw [this, List.reverse_reverse]

/-- A case: five windows with 2, 0, 1, 2 and 4 triggers, six bins. -/
example : (∀ (k : Nat) v, ([some 4, some 3, some 1, some 1, none, none] : List Val)[k]? = some v →
      v = some (atLeast [2, 0, 1, 2, 4] (k + 1) : Rat) ∨ (v = none ∧ atLeast [2, 0, 1, 2, 4] (k + 1) = 0)) ∧
    convertFromCumulative [some 4, some 3, some 1, some 1, none, none] = [(1, 1), (2, 2), (4, 1)] := by
  constructor
  · intro k v hk
    match k with
    | 0 | 1 | 2 | 3 => left; simp at hk; subst hk; rfl
    | 4 | 5 => right; simp at hk; subst hk; exact ⟨rfl, rfl⟩
    | k + 6 => simp at hk
  · decide +kernel

/-- Finding: a distribution with other than one number of triggers cannot have coordinates. -/
theorem distribution_coordinates_fail (values : List Val) (key : String)
    (h : (convertFromCumulative values).length ≠ 1) :
    nonbinnedCoordsOk (convertFromCumulative values).length [key] = false := by
  simp [nonbinnedCoordsOk, h]

/-! ### Timetag traces -/

theorem windowsLoop_rises (es : List Rat) (rest : List (Event × Rat)) : ∀ (w : List Rat) acc,
    windowsLoop (es.map (fun e => (Event.rise, e)) ++ rest) (w :: acc) =
      windowsLoop rest ((w ++ es) :: acc) := by
  induction es with
  | nil => intro w acc; simp
  | cons e es ih => intro w acc; simp [windowsLoop, ih]

theorem windowsLoop_scope : ∀ (ws : List (Rat × List Rat × Rat)) acc,
    windowsLoop (scopeOf ws) acc = .ok ((ws.map (fun w => w.2.1)).reverse ++ acc)
  | [], acc => by simp [scopeOf, windowsLoop]
  | (t, es, t') :: ws, acc => by
    simp only [scopeOf, List.cons_append, windowsLoop]
    rw [windowsLoop_rises, windowsLoop, windowsLoop_scope ws]
    simp

/-- **C40, timetag traces.** If the timetag of each window with events is the time from the opening of
the window to its first event, then the trace of each window has the times of all its events after
its opening, in nanoseconds. -/
theorem timetag_traces_exact (ws : List (Rat × List Rat × Rat)) (refs : List Rat)
    (hlen : refs.length = ws.length)
    (href : ∀ (k : Nat) ref t e es t', refs[k]? = some ref → ws[k]? = some (t, e :: es, t') → ref = e - t) :
    splitWindows refs (scopeOf ws) =
      .ok (ws.map (fun w => w.2.1.map (fun e => (e - w.1) / 2048))) := by
  unfold splitWindows
  rw [bind_ok]
  refine ⟨_, windowsLoop_scope ws [], ?_⟩
  simp only [List.append_nil, List.reverse_reverse, Except.ok.injEq]
  apply List.ext_getElem?
  intro k
  rw [List.getElem?_zipWith, List.getElem?_map, List.getElem?_map]
  by_cases hk : k < ws.length
  · obtain ⟨ref, hr⟩ : ∃ r, refs[k]? = some r := ⟨_, List.getElem?_eq_getElem (by omega)⟩
    obtain ⟨⟨t, es, t'⟩, hw⟩ : ∃ w, ws[k]? = some w := ⟨_, List.getElem?_eq_getElem hk⟩
    rw [hr, hw]
    simp only [Option.map_some, Option.some.injEq]
    cases es with
    | nil => rfl
    | cons e es =>
      have := href k ref t e es t' hr hw
      subst this
      simp only [windowTimes]
      apply List.map_congr_left
      intro x _
      ring
  · rw [List.getElem?_eq_none (by omega), List.getElem?_eq_none (l := ws) (by omega)]
    rfl

/-- A case: three windows, the second one without events. -/
example : splitWindows [2048, 0, 4096] (scopeOf [(1000, [3048, 5096], 9000), (20000, [], 21000),
      (30000, [34096], 40000)]) = .ok [[1, 2], [], [2]] := by
  decide +kernel

/-- Timetag data that starts with an event outside of a window is refused. -/
theorem event_before_window_refused (t : Rat) (rest : List (Event × Rat)) (refs : List Rat) :
    splitWindows refs ((.rise, t) :: rest) = .error .indexError := rfl

/-! ### Coordinates -/

/-- **C40, coordinates.** The column of a coordinate has for each acquisition index the value given
with that acquisition, and NaN if none was given. -/
theorem coordinates_match {U : Type} (key : String) (coords : List (List (String × U))) (idx : List Nat)
    (col : List (Option U)) (h : coordColumn key coords idx = .ok col) :
    col.length = idx.length ∧ ∀ (i a : Nat), idx[i]? = some a →
      ∃ d, coords[a]? = some d ∧ col[i]? = some (Dict.get? d key) := by
  unfold coordColumn at h
  rw [mapM_ok] at h
  refine ⟨h.length_eq.symm, ?_⟩
  intro i a hi
  obtain ⟨hlt, he⟩ := List.getElem?_eq_some_iff.mp hi
  have := (List.forall₂_iff_get.mp h).2 i hlt (by rw [← h.length_eq]; exact hlt)
  simp only [List.get_eq_getElem, he] at this
  cases hd : coords[a]? with
  | none => rw [hd] at this; simp at this
  | some d =>
    rw [hd] at this
    refine ⟨d, rfl, ?_⟩
    rw [List.getElem?_eq_getElem (by rw [← h.length_eq]; exact hlt)]
    rw [Except.ok.inj this]

example : coordColumn "amp" [[("amp", 1)], [("freq", 5)], [("freq", 7), ("amp", 3)]] [2, 1, 0] =
    .ok [some 3, none, some 1] := by
  decide +kernel

/-! ### Trigger counts -/

/-- On a QTM with bin mode sum, the total number of triggers is returned if it is a multiple of the
number of repetitions, and the hardware returns the average. -/
theorem sum_exact (reps n : Nat) (hr : 0 < reps) (b : BinData) (k : Nat)
    (h : b.counts[k]? = some (some (((reps * n : Nat) : Rat) / reps))) :
    binCount true .sum reps b k = .ok (.int (reps * n : Nat)) := by
  have hreps : (reps : Rat) ≠ 0 := by
    have : reps ≠ 0 := by omega
    exact_mod_cast this
  have e : ((reps * n : Nat) : Rat) / reps = (n : Rat) := by
    push_cast
    field_simp
  rw [e] at h
  have h1 : nth b.counts k = .ok (some (n : Rat)) := by simp [nth, h]
  have h2 : pyInt (some (n : Rat)) = .ok (n : Int) := by
    have : ¬ ((n : Rat) < 0) := by
      have : (0 : Rat) ≤ n := by exact_mod_cast Nat.zero_le n
      linarith
    simp [pyInt, this]
  simp only [binCount, h1, bind, Except.bind, h2]
  simp

/-- Finding: otherwise triggers are lost: one trigger in two repetitions gives a sum of zero. -/
theorem sum_truncated :
    binCount true .sum 2 ⟨[], [], [], [], some [some (1 / 2)], []⟩ 0 = .ok (.int 0) := by
  decide +kernel

/-- Finding: if the count of one bin is NaN (an acquisition in a conditional that was not run), no
trigger counts are returned at all. -/
theorem nan_count_refused (mod : Module) (c : Chan) (reps : Nat) (s : Seq) (m : Mapping)
    (hp : c.protocol = .triggerCount) (hm : c.mode = .append) {r a : Nat} {e : Entry} {hw : HwAcq}
    (hr : r < reps) (he : Dict.get? m a = some e) (hh : s.hw e.index = some hw)
    (hn : hw.bins.counts[e.bin + r * e.stride]? = some none) (arr : Arr) :
    channelData mod c reps s m ≠ .ok arr := by
  intro h
  obtain ⟨_, _, _, hcell⟩ := channel_cell h
  have := hcell r (by simpa [Chan.rows, hm] using hr) a
  rw [he] at this
  obtain ⟨o, ho, _⟩ := this
  obtain ⟨hw', h1, _, h2⟩ := readBin_shows ho
  rw [hh] at h1
  obtain rfl := Option.some.inj h1
  unfold Shows at h2
  simp only [hp] at h2
  obtain ⟨x, n, h3, _⟩ := h2
  simp only [Entry.binOf, if_pos hm] at h3
  rw [hn] at h3
  simp at h3

/-! ### A complete case -/

/-- Bins of an integration: I and Q. -/
def integrated (i q : List Val) : BinData := ⟨i, q, [], [], none, []⟩

/-- A sequencer with two channels on hardware indices 0 and 1, and one channel on index 2. -/
def demoSeq : Seq :=
  { hw := fun i =>
      if i = 0 then some ⟨0, integrated [some 100, some 200, some 300, some 400] [some 0, some 1, some 2, none]⟩
      else if i = 1 then some ⟨1, ⟨[], [], [some 1, none], [], none, []⟩⟩
      else none
    dur := 100 }

/-- Channel 0 is integrated in append mode, channel 1 thresholded in average mode. -/
def demoChans : Nat → Option Chan
  | 0 => some ⟨.ssbIntegrationComplex, .append⟩
  | 1 => some ⟨.thresholdedAcquisition, .average⟩
  | _ => none

/-- The mappings: two acquisitions per repetition on channel 0, two on channel 1. -/
def demoJobs : List (Seq × Nat × Mapping) :=
  [(demoSeq, 0, [(0, ⟨0, 0, 2, none⟩), (1, ⟨0, 1, 2, none⟩)]),
   (demoSeq, 1, [(0, ⟨1, 0, 2, none⟩), (1, ⟨1, 1, 2, none⟩)])]

/-- The hypotheses of `retrieved_all`, `retrieved_sound`, `retrieved_shape` and `retrieved_single` hold
for two channels and two repetitions. -/
example : retrieve .qrm demoChans 2 demoJobs = .ok
    [(0, ⟨some 2, [0, 1], [[.cplx 1 0, .cplx 2 (1 / 100)], [.cplx 3 (1 / 50), .nan]]⟩),
     (1, ⟨none, [0, 1], [[.real 1, .int (-1)]]⟩)] := by
  decide +kernel

/-- Two sequencers that measure one channel: if the bin mode is average, they may have different
acquisition indices, and the data is combined; equal indices are refused. -/
example : retrieve .qrm (fun _ : Nat => some ⟨.thresholdedAcquisition, .average⟩) 2
      [(demoSeq, 7, [(0, ⟨1, 0, 1, none⟩)]), (demoSeq, 7, [(1, ⟨1, 1, 1, none⟩)])] =
    .ok [(7, ⟨none, [0, 1], [[.real 1, .int (-1)]]⟩)] ∧
    retrieve .qrm (fun _ : Nat => some ⟨.thresholdedAcquisition, .average⟩) 2
      [(demoSeq, 7, [(0, ⟨1, 0, 1, none⟩)]), (demoSeq, 7, [(0, ⟨1, 1, 1, none⟩)])] =
    .error .runtimeError := by
  decide +kernel

/-- The hypotheses of `retrieved_grant`: one request for two acquisitions and two repetitions. -/
example : ∃ (rs : List (AcqBins.Req Nat)), (∀ r ∈ rs, r.Real) ∧
    (∀ a, (Dict.get? [(0, (⟨0, 0, 2, none⟩ : Entry)), (1, ⟨0, 1, 2, none⟩)] a).map
        (fun e => (⟨e.index, e.bin, e.stride⟩ : AcqBins.Loc)) =
      ((AcqBins.history rs).1.binned 0).bind (fun m => m a)) ∧
    (⟨.bins 0 [0, 1] 2, 0, 0⟩ : AcqBins.Grant Nat) ∈ (AcqBins.history rs).2 := by
  refine ⟨[.bins 0 [0, 1] 2], ?_, ?_, ?_⟩
  · intro r hr a n h
    rw [List.mem_singleton.mp hr] at h
    simp [AcqBins.Req.acqs?] at h
    obtain ⟨rfl, rfl⟩ := h
    simp
  · intro a
    match a with
    | 0 => rfl
    | 1 => rfl
    | a + 2 =>
      have h1 : Dict.get? [(0, (⟨0, 0, 2, none⟩ : Entry)), (1, ⟨0, 1, 2, none⟩)] (a + 2) = none := by
        rw [Dict.get?_eq_none_iff]; simp [Dict.keys]
      rw [h1]
      symm
      show AcqBins.mergeLocs none (AcqBins.newLocs 0 2 0 [0, 1]) (a + 2) = none
      simp [AcqBins.mergeLocs, AcqBins.newLocs]
  · simp only [AcqBins.history, List.foldl_cons, List.foldl_nil]
    exact List.mem_singleton.mpr rfl

end Verif.Retrieve
