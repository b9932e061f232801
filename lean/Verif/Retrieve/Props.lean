/-
C40: retrieved data.
-/
import Verif.Retrieve.Lemmas
import Verif.AcqBins.Props

set_option linter.unusedSimpArgs false
set_option linter.unusedVariables false

namespace Verif.Retrieve

open Verif.Numeric (pyRound)

variable {Ch : Type} [DecidableEq Ch]

/-- What is read for a channel of a sequencer. -/
def ReadAt (mod : Module) (chans : Ch → Option Chan) (reps : Nat) (job : Seq × Ch × Mapping) (ch : Ch)
    (row acq : Nat) (o : Out) : Prop :=
  job.2.1 = ch ∧ ∃ c e, chans ch = some c ∧ row < c.rows reps ∧ Dict.get? job.2.2 acq = some e ∧
    readBin mod c reps job.1 e (e.binOf c row) = .ok o

omit [DecidableEq Ch] in
theorem ReadAt.measured {mod : Module} {chans : Ch → Option Chan} {reps : Nat} {job : Seq × Ch × Mapping}
    {ch : Ch} {row acq : Nat} {o : Out} (h : ReadAt mod chans reps job ch row acq o) :
    Measured mod chans reps job ch row acq o := by
  obtain ⟨h1, c, e, h2, h3, h4, h5⟩ := h
  obtain ⟨hw, h6, h7, h8⟩ := readBin_shows h5
  exact ⟨h1, c, e, hw, h2, h3, h4, h6, h7, h8⟩

omit [DecidableEq Ch] in
theorem ReadAt.unique {mod : Module} {chans : Ch → Option Chan} {reps : Nat} {job : Seq × Ch × Mapping}
    {ch : Ch} {row acq : Nat} {o o' : Out} (h : ReadAt mod chans reps job ch row acq o)
    (h' : ReadAt mod chans reps job ch row acq o') : o = o' := by
  obtain ⟨_, c, e, h2, _, h4, h5⟩ := h
  obtain ⟨_, c', e', h2', _, h4', h5'⟩ := h'
  rw [h2] at h2'
  obtain rfl := Option.some.inj h2'
  rw [h4] at h4'
  obtain rfl := Option.some.inj h4'
  rw [h5] at h5'
  exact Except.ok.inj h5'

/-- The state after some channels. -/
structure Inv (mod : Module) (chans : Ch → Option Chan) (reps : Nat) (done : List (Seq × Ch × Mapping))
    (ds : List (Ch × Arr)) : Prop where
  shape : ∀ ch arr, Dict.get? ds ch = some arr → ∃ c, chans ch = some c ∧
    arr.rows.length = c.rows reps ∧ (arr.reps = if c.mode = .append then some reps else none)
  idx : ∀ ch a, (∃ arr, Dict.get? ds ch = some arr ∧ a ∈ arr.idx) ↔
    ∃ j ∈ done, j.2.1 = ch ∧ a ∈ Dict.keys j.2.2
  cell : ∀ ch arr, Dict.get? ds ch = some arr → ∀ r, r < arr.rows.length → ∀ a,
    a ∈ arr.idx ↔ (arr.cell r a).isSome
  kept : ∀ j ∈ done, ∀ ch r a v, ReadAt mod chans reps j ch r a v → v ≠ .nan →
    cellOf ds ch r a = some v
  origin : ∀ ch r a o, cellOf ds ch r a = some o → ∃ j ∈ done, ReadAt mod chans reps j ch r a o
  total : ∀ j ∈ done, ∀ a ∈ Dict.keys j.2.2, ∃ c, chans j.2.1 = some c ∧ ∀ r, r < c.rows reps →
    ∃ v, ReadAt mod chans reps j j.2.1 r a v

theorem inv_nil (mod : Module) (chans : Ch → Option Chan) (reps : Nat) : Inv mod chans reps [] [] := by
  constructor <;> simp [Dict.get?_nil, cellOf]

theorem isNan_iff (x : Out) : x.isNan = true ↔ x = .nan := by cases x <;> simp [Out.isNan]

theorem inv_step {mod : Module} {chans : Ch → Option Chan} {reps : Nat}
    {done : List (Seq × Ch × Mapping)} {ds ds' : List (Ch × Arr)} {job : Seq × Ch × Mapping}
    (I : Inv mod chans reps done ds) (h : addJob mod chans reps ds job = .ok ds') :
    Inv mod chans reps (done ++ [job]) ds' := by
  obtain ⟨s, ch, m⟩ := job
  unfold addJob at h
  cases hc : chans ch with
  | none => simp [hc] at h
  | some c =>
    simp only [hc, bind_ok] at h
    obtain ⟨new, hnew, h⟩ := h
    obtain ⟨hidx, hrows, hreps, hcell⟩ := channel_cell hnew
    -- what is read for the new channel
    have hread : ∀ r, r < c.rows reps → ∀ a ∈ Dict.keys m, ∃ v,
        ReadAt mod chans reps (s, ch, m) ch r a v ∧ new.cell r a = some v := by
      intro r hr a ha
      have := hcell r hr a
      cases hg : Dict.get? m a with
      | none => exact absurd ha ((Dict.get?_eq_none_iff m a).mp hg)
      | some e =>
        rw [hg] at this
        obtain ⟨o, h1, h2⟩ := this
        exact ⟨o, ⟨rfl, c, e, hc, hr, hg, h1⟩, h2⟩
    have hcellOf : ∀ r a v, new.cell r a = some v → ReadAt mod chans reps (s, ch, m) ch r a v := by
      intro r a v hv
      have hr : r < c.rows reps := by
        by_contra hr
        rw [cell_none_of_ge (by omega)] at hv
        simp at hv
      have := hcell r hr a
      cases hg : Dict.get? m a with
      | none => rw [hg] at this; simp only at this; rw [this] at hv; simp at hv
      | some e =>
        rw [hg] at this
        obtain ⟨o, h1, h2⟩ := this
        rw [h2] at hv
        obtain rfl := Option.some.inj hv
        exact ⟨rfl, c, e, hc, hr, hg, h1⟩
    have hnewcell : ∀ r, r < new.rows.length → ∀ a, a ∈ new.idx ↔ (new.cell r a).isSome := by
      intro r hr a
      rw [hrows] at hr
      constructor
      · intro ha
        rw [hidx] at ha
        obtain ⟨v, _, h2⟩ := hread r hr a ha
        simp [h2]
      · intro ha
        obtain ⟨v, hv⟩ := Option.isSome_iff_exists.mp ha
        obtain ⟨_, c', e, _, _, hg, _⟩ := hcellOf r a v hv
        rw [hidx]
        by_contra hn
        simp only at hg
        rw [(Dict.get?_eq_none_iff m a).mpr hn] at hg
        simp at hg
    have hmemk : ∀ {P : Seq × Ch × Mapping → Prop}, (∃ j ∈ done ++ [(s, ch, m)], P j) ↔
        ((∃ j ∈ done, P j) ∨ P (s, ch, m)) := by
      intro P; simp [List.mem_append, or_and_right, exists_or]
    cases hg : Dict.get? ds ch with
    | none =>
      simp only [hg] at h
      have h := Except.ok.inj h
      subst h
      have hlook : ∀ ch' r a, cellOf (Dict.set ds ch new) ch' r a =
          if ch' = ch then new.cell r a else cellOf ds ch' r a := by
        intro ch' r a
        unfold cellOf
        rw [Dict.get?_set]
        by_cases e : ch' = ch <;> simp [e]
      have hnone : ∀ j ∈ done, j.2.1 = ch → ∀ a, a ∉ Dict.keys j.2.2 := by
        intro j hj hch a ha
        obtain ⟨arr, h1, _⟩ := (I.idx ch a).mpr ⟨j, hj, hch, ha⟩
        rw [hg] at h1; simp at h1
      refine ⟨?_, ?_, ?_, ?_, ?_, ?_⟩
      · intro ch' arr harr
        rw [Dict.get?_set] at harr
        by_cases e : ch' = ch
        · subst e
          simp only [if_true, Option.some.injEq] at harr
          subst harr
          exact ⟨c, hc, hrows, hreps⟩
        · rw [if_neg e] at harr; exact I.shape ch' arr harr
      · intro ch' a
        rw [hmemk, ← I.idx ch' a, Dict.get?_set]
        by_cases e : ch' = ch
        · subst e
          simp only [if_true, Option.some.injEq, exists_eq_left', true_and, hg]
          rw [hidx]
          simp [Dict.keys]
        · simp only [if_neg e, Ne.symm e, false_and, or_false]
      · intro ch' arr harr
        rw [Dict.get?_set] at harr
        by_cases e : ch' = ch
        · subst e
          simp only [if_true, Option.some.injEq] at harr
          subst harr
          exact hnewcell
        · rw [if_neg e] at harr; exact I.cell ch' arr harr
      · intro j hj ch' r a v hv hne
        rw [hlook]
        rcases List.mem_append.mp hj with hj' | hj
        · by_cases e : ch' = ch
          · subst e
            obtain ⟨h1, _, e, _, _, hge, _⟩ := hv
            refine absurd ?_ (hnone j hj' h1 a)
            by_contra hn
            rw [(Dict.get?_eq_none_iff _ a).mpr hn] at hge
            simp at hge
          · rw [if_neg e]; exact I.kept j hj' ch' r a v hv hne
        · rw [List.mem_singleton.mp hj] at hv
          have e : ch' = ch := hv.1.symm
          subst e
          rw [if_pos rfl]
          have hv' := hv
          obtain ⟨_, c', e, hc', hr, hge, hrb⟩ := hv
          rw [hc] at hc'
          obtain rfl := Option.some.inj hc'
          have := hcell r hr a
          simp only at hge
          rw [hge] at this
          obtain ⟨o, h1, h2⟩ := this
          rw [h2]
          simp only at hrb
          rw [h1] at hrb
          rw [Except.ok.inj hrb]
      · intro ch' r a o ho
        rw [hlook] at ho
        rw [hmemk]
        by_cases e : ch' = ch
        · subst e
          rw [if_pos rfl] at ho
          exact .inr (hcellOf r a o ho)
        · rw [if_neg e] at ho
          exact .inl (I.origin ch' r a o ho)
      · intro j hj a ha
        rcases List.mem_append.mp hj with hj | hj
        · exact I.total j hj a ha
        · rw [List.mem_singleton.mp hj] at ha ⊢
          exact ⟨c, hc, fun r hr => by
            obtain ⟨v, h1, _⟩ := hread r hr a ha
            exact ⟨v, h1⟩⟩
    | some cur =>
      simp only [hg] at h
      by_cases hcf : conflict new cur = true
      · rw [if_pos hcf] at h; simp at h
      · rw [if_neg hcf] at h
        have h := Except.ok.inj h
        subst h
        obtain ⟨c', hc', hcr, hcreps⟩ := I.shape ch cur hg
        rw [hc] at hc'
        obtain rfl := Option.some.inj hc'
        have hcurcell := I.cell ch cur hg
        have hbound : ∀ r, r < c.rows reps → r < match new.reps with | none => 1 | some n => n := by
          intro r hr
          rw [hreps]
          unfold Chan.rows at hr
          by_cases e : c.mode = .append
          · simp only [if_pos e] at hr ⊢; exact hr
          · simp only [if_neg e] at hr ⊢; exact hr
        have hmrows : (mergeArr cur new).rows.length = c.rows reps := by
          simp [mergeArr, hcr]
        have hmidx : ∀ a, a ∈ (mergeArr cur new).idx ↔ a ∈ cur.idx ∨ a ∈ new.idx := by
          intro a
          simp only [mergeArr, List.mem_append, List.mem_filter, List.contains_iff_mem,
            Bool.not_eq_true', decide_eq_false_iff_not]
          by_cases h : a ∈ cur.idx <;> simp [h]
        have hlook : ∀ ch' r a, cellOf (Dict.set ds ch (mergeArr cur new)) ch' r a =
            if ch' = ch then (mergeArr cur new).cell r a else cellOf ds ch' r a := by
          intro ch' r a
          unfold cellOf
          rw [Dict.get?_set]
          by_cases e : ch' = ch <;> simp [e]
        have hcurOf : ∀ r a, cellOf ds ch r a = cur.cell r a := by
          intro r a; simp [cellOf, hg]
        refine ⟨?_, ?_, ?_, ?_, ?_, ?_⟩
        · intro ch' arr harr
          rw [Dict.get?_set] at harr
          by_cases e : ch' = ch
          · subst e
            simp only [if_true, Option.some.injEq] at harr
            subst harr
            exact ⟨c, hc, hmrows, hcreps⟩
          · rw [if_neg e] at harr; exact I.shape ch' arr harr
        · intro ch' a
          rw [hmemk, ← I.idx ch' a, Dict.get?_set]
          by_cases e : ch' = ch
          · subst e
            simp only [if_true, Option.some.injEq, exists_eq_left', true_and, hg]
            rw [hmidx, hidx]
            simp [Dict.keys]
          · simp only [if_neg e, Ne.symm e, false_and, or_false]
        · intro ch' arr harr
          rw [Dict.get?_set] at harr
          by_cases e : ch' = ch
          · subst e
            simp only [if_true, Option.some.injEq] at harr
            subst harr
            intro r hr a
            rw [hmrows] at hr
            rw [merge_cell (by omega), hmidx]
            split <;> simp_all
          · rw [if_neg e] at harr; exact I.cell ch' arr harr
        · intro j hj ch' r a v hv hne
          rw [hlook]
          have hrow : ∀ c'', chans ch' = some c'' → r < c''.rows reps := by
            intro c'' hc''
            obtain ⟨_, c3, _, h3, h4, _, _⟩ := hv
            rw [hc''] at h3
            obtain rfl := Option.some.inj h3
            exact h4
          by_cases e : ch' = ch
          · subst e
            rw [if_pos rfl, merge_cell (by rw [hcr]; exact hrow c hc)]
            have hr := hrow c hc
            rcases List.mem_append.mp hj with hj | hj
            · have hk := I.kept j hj ch' r a v hv hne
              rw [hcurOf] at hk
              have ha : a ∈ cur.idx := (hcurcell r (by rw [hcr]; exact hr) a).mpr (by simp [hk])
              rw [if_pos (.inl ha), hk]
              have hnn : v.isNan = false := by
                cases hv2 : v.isNan
                · rfl
                · exact absurd ((isNan_iff v).mp hv2) hne
              cases new.cell r a <;> simp [pick, hnn]
            · rw [List.mem_singleton.mp hj] at hv
              have ha : a ∈ Dict.keys m := by
                obtain ⟨_, _, e, _, _, hge, _⟩ := hv
                by_contra hn
                simp only at hge
                rw [(Dict.get?_eq_none_iff _ a).mpr hn] at hge
                simp at hge
              obtain ⟨v', hv', hcv⟩ := hread r hr a ha
              obtain rfl := hv.unique hv'
              have han : a ∈ new.idx := by rw [hidx]; exact ha
              rw [if_pos (.inr han), hcv]
              cases hcc : cur.cell r a with
              | none => rfl
              | some x =>
                have hac : a ∈ cur.idx := (hcurcell r (by rw [hcr]; exact hr) a).mpr (by simp [hcc])
                have hb := conflict_sound (Bool.eq_false_iff.mpr hcf) (hbound r hr) han hac
                have hx : x = .nan := by
                  by_contra hx
                  have : bothAt new cur r a = true := bothAt_iff.mpr ⟨v, x, hcv, hcc, hne, hx⟩
                  rw [hb] at this; simp at this
                subst hx
                rfl
          · rw [if_neg e]
            rcases List.mem_append.mp hj with hj | hj
            · exact I.kept j hj ch' r a v hv hne
            · rw [List.mem_singleton.mp hj] at hv
              exact absurd hv.1.symm e
        · intro ch' r a o ho
          rw [hlook] at ho
          rw [hmemk]
          by_cases e : ch' = ch
          · subst e
            rw [if_pos rfl] at ho
            have hr : r < c.rows reps := by
              by_contra hr
              rw [cell_none_of_ge (by omega)] at ho
              simp at ho
            rw [merge_cell (by rw [hcr]; exact hr)] at ho
            have hI := I.origin ch' r a
            rw [hcurOf] at hI
            split at ho
            case isFalse => simp at ho
            case isTrue hin =>
              cases h1 : cur.cell r a with
              | none =>
                cases h2 : new.cell r a with
                | none =>
                  rcases hin with hin | hin
                  · have := (hcurcell r (by rw [hcr]; exact hr) a).mp hin
                    rw [h1] at this; simp at this
                  · have := (hnewcell r (by rw [hrows]; exact hr) a).mp hin
                    rw [h2] at this; simp at this
                | some y =>
                  rw [h1, h2] at ho
                  simp only [pick, Option.some.injEq] at ho
                  subst ho
                  exact .inr (hcellOf r a y h2)
              | some x =>
                cases h2 : new.cell r a with
                | none =>
                  rw [h1, h2] at ho
                  simp only [pick, Option.some.injEq] at ho
                  subst ho
                  exact .inl (hI x h1)
                | some y =>
                  rw [h1, h2] at ho
                  simp only [pick, Option.some.injEq] at ho
                  split at ho
                  · subst ho; exact .inr (hcellOf r a y h2)
                  · subst ho; exact .inl (hI x h1)
          · rw [if_neg e] at ho
            exact .inl (I.origin ch' r a o ho)
        · intro j hj a ha
          rcases List.mem_append.mp hj with hj | hj
          · exact I.total j hj a ha
          · rw [List.mem_singleton.mp hj] at ha ⊢
            exact ⟨c, hc, fun r hr => by
              obtain ⟨v, h1, _⟩ := hread r hr a ha
              exact ⟨v, h1⟩⟩

theorem inv_jobs {mod : Module} {chans : Ch → Option Chan} {reps : Nat} :
    ∀ (jobs done : List (Seq × Ch × Mapping)) (ds ds' : List (Ch × Arr)),
    Inv mod chans reps done ds → addJobs mod chans reps jobs ds = .ok ds' →
    Inv mod chans reps (done ++ jobs) ds'
  | [], done, ds, ds', I, h => by
    simp only [addJobs, Except.ok.injEq] at h
    subst h
    simpa using I
  | j :: jobs, done, ds, ds', I, h => by
    simp only [addJobs, bind_ok] at h
    obtain ⟨ds1, h1, h2⟩ := h
    have := inv_jobs jobs (done ++ [j]) ds1 ds' (inv_step I h1) h2
    simpa using this

theorem inv_retrieve {mod : Module} {chans : Ch → Option Chan} {reps : Nat}
    {jobs : List (Seq × Ch × Mapping)} {ds : List (Ch × Arr)}
    (h : retrieve mod chans reps jobs = .ok ds) : Inv mod chans reps jobs ds := by
  simp only [retrieve, bind_ok] at h
  obtain ⟨_, _, h⟩ := h
  simpa using inv_jobs jobs [] [] ds (inv_nil mod chans reps) h

/-- **C40, nothing lost.** If data is retrieved, then for every acquisition index of every channel of
every sequencer and every repetition, the hardware has measured a value, and it is in the dataset,
unless it is NaN. -/
theorem retrieved_all {mod : Module} {chans : Ch → Option Chan} {reps : Nat}
    {jobs : List (Seq × Ch × Mapping)} {ds : List (Ch × Arr)}
    (h : retrieve mod chans reps jobs = .ok ds) {job : Seq × Ch × Mapping} (hj : job ∈ jobs)
    {a : Nat} (ha : a ∈ Dict.keys job.2.2) :
    ∃ c, chans job.2.1 = some c ∧ ∀ r, r < c.rows reps → ∃ v,
      Measured mod chans reps job job.2.1 r a v ∧ (v ≠ .nan → cellOf ds job.2.1 r a = some v) := by
  have I := inv_retrieve h
  obtain ⟨c, hc, hr⟩ := I.total job hj a ha
  refine ⟨c, hc, fun r hlt => ?_⟩
  obtain ⟨v, hv⟩ := hr r hlt
  exact ⟨v, hv.measured, fun hne => I.kept job hj _ r a v hv hne⟩

/-- **C40, nothing invented.** Every value in the dataset was measured, for that channel, acquisition
index and repetition. -/
theorem retrieved_sound {mod : Module} {chans : Ch → Option Chan} {reps : Nat}
    {jobs : List (Seq × Ch × Mapping)} {ds : List (Ch × Arr)}
    (h : retrieve mod chans reps jobs = .ok ds) {ch : Ch} {r a : Nat} {o : Out}
    (ho : cellOf ds ch r a = some o) : ∃ job ∈ jobs, Measured mod chans reps job ch r a o := by
  obtain ⟨j, hj, hr⟩ := (inv_retrieve h).origin ch r a o ho
  exact ⟨j, hj, hr.measured⟩

/-- **C40, shape.** The data array of a channel has the channel's acquisition indices, and a row per
repetition in append mode, one row otherwise. -/
theorem retrieved_shape {mod : Module} {chans : Ch → Option Chan} {reps : Nat}
    {jobs : List (Seq × Ch × Mapping)} {ds : List (Ch × Arr)}
    (h : retrieve mod chans reps jobs = .ok ds) (ch : Ch) :
    (∀ arr, Dict.get? ds ch = some arr → ∃ c, chans ch = some c ∧ arr.rows.length = c.rows reps ∧
      (arr.reps = if c.mode = .append then some reps else none)) ∧
    (∀ a, (∃ arr, Dict.get? ds ch = some arr ∧ a ∈ arr.idx) ↔
      ∃ j ∈ jobs, j.2.1 = ch ∧ a ∈ Dict.keys j.2.2) :=
  ⟨(inv_retrieve h).shape ch, (inv_retrieve h).idx ch⟩

/-- What is to be shown for given bin contents is unique. -/
theorem shows_unique {mod : Module} {c : Chan} {reps dur : Nat} {m : Option (Condition × Int)}
    {b : BinData} {k : Nat} {o o' : Out} (h : Shows mod c reps dur m b k o)
    (h' : Shows mod c reps dur m b k o') : o = o' := by
  have hcx : ∀ {i q i' q' : Val} {f}, b.path0[k]? = some i → b.path1[k]? = some q →
      b.path0[k]? = some i' → b.path1[k]? = some q' → ShowsComplex i q f o → ShowsComplex i' q' f o' →
      o = o' := by
    intro i q i' q' f h1 h2 h3 h4 h5 h6
    rw [h1] at h3
    obtain rfl := Option.some.inj h3
    rw [h2] at h4
    obtain rfl := Option.some.inj h4
    cases i with
    | none => rw [h5.2 (.inl rfl), h6.2 (.inl rfl)]
    | some x =>
      cases q with
      | none => rw [h5.2 (.inr rfl), h6.2 (.inr rfl)]
      | some y => rw [h5.1 x y rfl rfl, h6.1 x y rfl rfl]
  have hth : ∀ {l : List Val} {v v' : Val} {f : Rat → Out} {d : Out}, l[k]? = some v → l[k]? = some v' →
      (∀ x, v = some x → o = f x) → (v = none → o = d) → (∀ x, v' = some x → o' = f x) →
      (v' = none → o' = d) → o = o' := by
    intro l v v' f d h1 h2 h3 h4 h5 h6
    rw [h1] at h2
    obtain rfl := Option.some.inj h2
    cases v with
    | none => rw [h4 rfl, h6 rfl]
    | some x => rw [h3 x rfl, h5 x rfl]
  have htr : ∀ {x : Rat} {n n' : Int}, Truncated x n → Truncated x n' → n = n' := by
    intro x n n' h h'
    unfold Truncated at h h'
    have key : (n : Rat) < n' + 1 ∧ (n' : Rat) < n + 1 := by
      rcases h with ⟨h0, h1, h2⟩ | ⟨h0, h1, h2⟩ <;> rcases h' with ⟨g0, g1, g2⟩ | ⟨g0, g1, g2⟩ <;>
        constructor <;> linarith
    have h1 : n < n' + 1 := by exact_mod_cast key.1
    have h2 : n' < n + 1 := by exact_mod_cast key.2
    omega
  unfold Shows at h h'
  cases hp : c.protocol <;> simp only [hp] at h h'
  case ssbIntegrationComplex =>
    obtain ⟨i, q, h1, h2, h3⟩ := h
    obtain ⟨i', q', h1', h2', h3'⟩ := h'
    exact hcx h1 h2 h1' h2' h3 h3'
  case weightedIntegratedSeparated =>
    obtain ⟨i, q, h1, h2, h3⟩ := h
    obtain ⟨i', q', h1', h2', h3'⟩ := h'
    exact hcx h1 h2 h1' h2' h3 h3'
  case numericalSeparatedWeightedIntegration =>
    obtain ⟨i, q, h1, h2, h3⟩ := h
    obtain ⟨i', q', h1', h2', h3'⟩ := h'
    exact hcx h1 h2 h1' h2' h3 h3'
  case numericalWeightedIntegration =>
    obtain ⟨i, q, h1, h2, h3⟩ := h
    obtain ⟨i', q', h1', h2', h3'⟩ := h'
    exact hcx h1 h2 h1' h2' h3 h3'
  case thresholdedAcquisition =>
    obtain ⟨v, h1, h2, h3⟩ := h
    obtain ⟨v', h1', h2', h3'⟩ := h'
    exact hth h1 h1' h2 h3 h2' h3'
  case weightedThresholdedAcquisition =>
    obtain ⟨v, h1, h2, h3⟩ := h
    obtain ⟨v', h1', h2', h3'⟩ := h'
    exact hth h1 h1' h2 h3 h2' h3'
  case timetag =>
    obtain ⟨v, h1, h2, h3⟩ := h
    obtain ⟨v', h1', h2', h3'⟩ := h'
    exact hth h1 h1' h2 h3 h2' h3'
  case triggerCount =>
    obtain ⟨x, n, h1, h2, h3⟩ := h
    obtain ⟨x', n', h1', h2', h3'⟩ := h'
    rw [h1] at h1'
    obtain rfl := Option.some.inj (Option.some.inj h1')
    rw [h3, h3', htr h2 h2']
  case dualThresholdedTriggerCount =>
    obtain ⟨x, n, h1, h2, h3⟩ := h
    obtain ⟨x', n', h1', h2', h3'⟩ := h'
    rw [h1] at h1'
    obtain rfl := Option.some.inj (Option.some.inj h1')
    rw [h3, h3', htr h2 h2']
  case thresholdedTriggerCount =>
    obtain ⟨v, cond, t, hm, h1, h2, h3, h4⟩ := h
    obtain ⟨v', cond', t', hm', h1', h2', h3', h4'⟩ := h'
    rw [h1] at h1'
    obtain rfl := Option.some.inj h1'
    rw [hm] at hm'
    obtain ⟨rfl, rfl⟩ := Prod.mk.inj (Option.some.inj hm')
    cases v with
    | none => rw [h2 rfl, h2' rfl]
    | some x =>
      have e := (h4 x rfl).trans (h4' x rfl).symm
      rcases h3 x rfl with ho | ho <;> rcases h3' x rfl with ho' | ho' <;> rw [ho, ho'] at e ⊢
      · exact absurd (e.mpr rfl) (by simp)
      · exact absurd (e.mp rfl) (by simp)

end Verif.Retrieve
