/-
C21: stacking overlapping pulses preserves the played amplitude at each instant.
-/
import Verif.Stack.PcLemmas

set_option linter.unusedSimpArgs false
set_option linter.unusedVariables false
set_option linter.unusedSectionVars false

namespace Verif.Stack

variable {V : Type} [AddCommMonoid V]

/-- Different keyed entries have different keys. -/
def KeysPw (cur : List (Entry V)) : Prop :=
  cur.Pairwise (fun a b => a.key.isSome = true → a.key ≠ b.key)

theorem lookup_of_mem {cur : List (Entry V)} (h : KeysPw cur) {e : Entry V} (he : e ∈ cur) {k : Nat}
    (hk : e.key = some k) : lookup cur k = some e := by
  unfold lookup
  unfold KeysPw at h
  induction cur with
  | nil => simp at he
  | cons a cur ih =>
    rw [List.pairwise_cons] at h
    rw [List.find?_cons]
    by_cases ha : a.key = some k
    · have : (a.key == some k) = true := by simp [ha]
      rw [this]
      simp only
      rcases List.mem_cons.mp he with rfl | he
      · rfl
      · exact absurd (ha.trans hk.symm) (h.1 e he (by rw [ha]; rfl))
    · have : (a.key == some k) = false := by simpa using ha
      rw [this]
      simp only
      rcases List.mem_cons.mp he with rfl | he
      · exact absurd hk ha
      · exact ih h.2 he

theorem activeOn_onPc {pc : String × String} {n : Int} {e : Entry V} (hs : Single e)
    (hk : e.key.isSome = true) (h : ActiveOn pc n e) : onPc pc e = true := by
  unfold ActiveOn at h
  obtain ⟨i, hi, hpc, h1, h2⟩ := h
  rcases hs with ⟨j, hj, hw⟩ | hs
  · rw [hj] at hi
    simp only [List.mem_singleton] at hi
    subst hi
    unfold onPc
    rw [hk, first_of_infos hj hw]
    simp [hpc]
  · rw [hs i hi] at h2
    simp only [Wave.dur] at h2
    omega

theorem onPc_unique {pc pc' : String × String} {e : Entry V} (h : onPc pc e = true)
    (h' : onPc pc' e = true) : pc = pc' := by
  unfold onPc at h h'
  simp only [Bool.and_eq_true, decide_eq_true_eq] at h h'
  have := h.2.symm.trans h'.2
  exact Option.some.inj this

theorem events_filter (s : List (Entry V)) (pc : String × String) :
    events s pc = events (s.filter (onPc pc)) pc := by
  unfold events
  induction s with
  | nil => rfl
  | cons e s ih =>
    by_cases h : onPc pc e = true
    · rw [List.filter_cons_of_pos h, List.flatMap_cons, List.flatMap_cons, ih]
    · rw [List.filter_cons_of_neg h, List.flatMap_cons, ih]
      have : entryEvents pc e = [] := by
        unfold entryEvents
        unfold onPc at h
        cases hk : e.key with
        | none => rfl
        | some k =>
          cases hf : e.first? with
          | none => rfl
          | some i =>
            simp only
            rw [if_neg]
            intro hpc
            apply h
            simp [hk, hf, hpc]
      rw [this, List.nil_append]

/-- The state while the port-clocks in `todo` are still to be done. -/
structure Inv (s cur : List (Entry V)) (todo : List (String × String)) : Prop where
  sub : ∀ e ∈ cur, e.key.isSome = true → e ∈ s
  keys : KeysPw cur
  same : ∀ pc ∈ todo, cur.filter (onPc pc) = s.filter (onPc pc)
  single : ∀ e ∈ cur, Single e
  new : ∀ e ∈ cur, e.key = none → ∀ pc ∈ todo, ∀ n, ¬ ActiveOn pc n e
  amp : ∀ pc n, ampAt cur pc n = ampAt s pc n
  noov : ∀ pc, pc ∉ todo → NoOverlap pc cur
  keep : ∀ e ∈ s, (∀ i ∈ e.infos, i.wave = .noWf) → e ∈ cur

theorem step_inv {s cur : List (Entry V)} {pc : String × String} {todo : List (String × String)}
    (hgood : Good s) (h : Inv s cur (pc :: todo)) (hpc : pc ∉ todo) :
    ∃ cur', stackPc cur (events s pc) = .ok cur' ∧ Inv s cur' todo := by
  let E := s.filter (onPc pc)
  have hE : cur.filter (onPc pc) = E := h.same pc List.mem_cons_self
  have hEcur : ∀ e ∈ E, e ∈ cur ∧ onPc pc e = true := by
    intro e he
    rw [← hE] at he
    exact List.mem_filter.mp he
  have hg : Group pc E := by
    refine ⟨?_, ?_⟩
    · intro e he
      exact isPulse_of_onPc (h.single e (hEcur e he).1) (hEcur e he).2
    · exact hgood.keys_nodup.sublist (List.Sublist.map _ List.filter_sublist)
  have hl : ∀ e ∈ E, ∀ k, e.key = some k → lookup cur k = some e :=
    fun e he k hk => lookup_of_mem h.keys (hEcur e he).1 hk
  have hn : NearFree E := by
    rcases hgood.near pc with hn | hn
    · left
      intro e he
      obtain ⟨h1, h2⟩ := List.mem_filter.mp he
      exact hn e h1 h2
    · right
      intro a ha b hb
      obtain ⟨a1, a2⟩ := List.mem_filter.mp ha
      obtain ⟨b1, b2⟩ := List.mem_filter.mp hb
      exact hn a a1 b b1 a2 b2
  have hev : events s pc = events E pc := events_filter s pc
  have hs := group_ivSpec hg
  rw [← hev] at hs
  unfold stackPc
  simp only
  generalize hivs : sweep none [] ((events s pc).mergeSort evLe) = ivs at hs
  have hactE : ∀ e ∈ cur, ∀ n, ActiveOn pc n e → e ∈ E := by
    intro e he n ha
    cases hk : e.key with
    | none => exact absurd ha (h.new e he hk pc List.mem_cons_self n)
    | some k =>
      rw [← hE]
      exact List.mem_filter.mpr ⟨he, activeOn_onPc (h.single e he) (by rw [hk]; rfl) ha⟩
  have hactIv : ∀ e ∈ E, ∀ n, ActiveOn pc n e → ∃ iv ∈ ivs, iv.start ≤ n ∧ n < iv.stop ∧
      ∃ k ∈ iv.keys, e.key = some k := by
    intro e he n ha
    obtain ⟨k, i, hp⟩ := hg.pulse e he
    rw [activeOn_pulse hp] at ha
    obtain ⟨iv, hiv, a, b, c⟩ := (hs.active n k).mpr ⟨e, he, hp.key, ha.1, ha.2⟩
    exact ⟨iv, hiv, a, b, k, c, hp.key⟩
  by_cases hany : ivs.any (fun iv => decide (iv.keys.length > 1)) = true
  · rw [if_pos hany]
    obtain ⟨new, hnew, hf⟩ := mapM_forall2 (stackInterval cur) (NewSpec cur pc) ivs
      (fun iv hiv => interval_spec hg hl hn hs hiv)
    unfold stackIntervals
    rw [hnew]
    let p : Entry V → Bool := fun e =>
      match e.key with | some k => !(ivs.flatMap Interval.keys).contains k | none => true
    refine ⟨cur.filter p ++ new, rfl, ?_⟩
    have hold : ∀ k, k ∈ ivs.flatMap Interval.keys → ∃ e ∈ E, e.key = some k := by
      intro k hk
      obtain ⟨iv, hiv, hk⟩ := List.mem_flatMap.mp hk
      obtain ⟨e, he, hek, _⟩ := (hs.mem_keys hiv (Int.le_refl _) (hs.shape iv hiv).1 k).mp hk
      exact ⟨e, he, hek⟩
    have hrem : ∀ e ∈ cur, p e = false → e ∈ E := by
      intro e he hp
      simp only [p] at hp
      cases hk : e.key with
      | none => rw [hk] at hp; cases hp
      | some k =>
        rw [hk] at hp
        simp only [Bool.not_eq_false'] at hp
        obtain ⟨e', he', hek'⟩ := hold k (by simpa using hp)
        have h1 := lookup_of_mem h.keys he hk
        have h2 := hl e' he' k hek'
        rw [h1] at h2
        rw [Option.some.inj h2]; exact he'
    have hinactive : ∀ e ∈ cur.filter p, ∀ n, ¬ ActiveOn pc n e := by
      intro e he n ha
      obtain ⟨he1, he2⟩ := List.mem_filter.mp he
      obtain ⟨iv, hiv, _, _, k, hk, hek⟩ := hactIv e (hactE e he1 n ha) n ha
      simp only [p, hek] at he2
      simp only [Bool.not_eq_true', List.contains_eq_mem, decide_eq_false_iff_not] at he2
      exact he2 (List.mem_flatMap.mpr ⟨iv, hiv, hk⟩)
    have hnewspec : ∀ x ∈ new, ∃ iv ∈ ivs, NewSpec cur pc iv x := by
      clear * - hf
      induction hf with
      | nil => simp
      | cons hx _ ih =>
        rename_i a b l1 l2 _
        intro x hx'
        rcases List.mem_cons.mp hx' with rfl | hx'
        · exact ⟨a, List.mem_cons_self, hx⟩
        · obtain ⟨iv, hiv, hh⟩ := ih x hx'
          exact ⟨iv, List.mem_cons_of_mem _ hiv, hh⟩
    have hnewpw : new.Pairwise (fun a b => ∀ n, ¬ (ActiveOn pc n a ∧ ActiveOn pc n b)) := by
      have hd := hs.disjoint
      clear * - hf hd
      induction hf with
      | nil => simp
      | cons hx htail ih =>
        rename_i a b l1 l2
        rw [List.pairwise_cons] at hd ⊢
        refine ⟨?_, ih hd.2⟩
        intro y hy n
        rintro ⟨g1, g2⟩
        have : ∃ iv ∈ l1, NewSpec cur pc iv y := by
          clear * - htail hy
          induction htail with
          | nil => simp at hy
          | cons hx2 _ ih2 =>
            rcases List.mem_cons.mp hy with rfl | hy
            · exact ⟨_, List.mem_cons_self, hx2⟩
            · obtain ⟨iv, hiv, hh⟩ := ih2 hy
              exact ⟨iv, List.mem_cons_of_mem _ hiv, hh⟩
        obtain ⟨iv, hiv, hh⟩ := this
        rw [hx.active] at g1
        rw [hh.active] at g2
        have := hd.1 iv hiv
        omega
    refine ⟨?_, ?_, ?_, ?_, ?_, ?_, ?_, ?_⟩
    · intro e he hk
      rcases List.mem_append.mp he with he | he
      · exact h.sub e (List.mem_filter.mp he).1 hk
      · obtain ⟨iv, _, hx⟩ := hnewspec e he
        rw [hx.key] at hk; cases hk
    · unfold KeysPw
      rw [List.pairwise_append]
      refine ⟨List.Pairwise.filter _ h.keys, ?_, ?_⟩
      · apply List.Pairwise.imp_of_mem (R := fun _ _ => True)
        · intro a b ha _ _ hk
          obtain ⟨iv, _, hx⟩ := hnewspec a ha
          rw [hx.key] at hk; cases hk
        · exact List.pairwise_iff_forall_sublist.mpr (fun _ => trivial)
      · intro a _ b hb hk
        obtain ⟨iv, _, hx⟩ := hnewspec b hb
        rw [hx.key]
        intro h0; rw [h0] at hk; cases hk
    · intro pc' hpc'
      rw [List.filter_append]
      have hne : pc ≠ pc' := fun hc => hpc (hc ▸ hpc')
      have e1 : new.filter (onPc pc') = [] := by
        rw [List.filter_eq_nil_iff]
        intro x hx
        obtain ⟨iv, _, hx⟩ := hnewspec x hx
        unfold onPc; rw [hx.key]; simp
      rw [e1, List.append_nil, List.filter_filter, ← h.same pc' (List.mem_cons_of_mem _ hpc')]
      apply List.filter_congr
      intro e he
      cases hq : onPc pc' e with
      | false => rfl
      | true =>
        simp only [Bool.true_and]
        by_contra hp
        have hin := hrem e he (by simpa using hp)
        exact hne (onPc_unique (hEcur e hin).2 hq)
    · intro e he
      rcases List.mem_append.mp he with he | he
      · exact h.single e (List.mem_filter.mp he).1
      · obtain ⟨iv, _, hx⟩ := hnewspec e he
        obtain ⟨w, hi, hw, _⟩ := hx.infos
        exact Or.inl ⟨_, hi, hw⟩
    · intro e he hk pc' hpc' n
      have hne : pc ≠ pc' := fun hc => hpc (hc ▸ hpc')
      rcases List.mem_append.mp he with he | he
      · exact h.new e (List.mem_filter.mp he).1 hk pc' (List.mem_cons_of_mem _ hpc') n
      · obtain ⟨iv, _, hx⟩ := hnewspec e he
        rw [hx.active]
        rintro ⟨hc, _⟩; exact hne hc
    · intro pc' n
      rw [← h.amp pc' n]
      unfold ampAt
      rw [List.map_append, List.sum_append]
      have hsplit : (cur.map (entryVal pc' n)).sum =
          ((cur.filter p).map (entryVal pc' n)).sum +
            ((cur.filter (fun e => !p e)).map (entryVal pc' n)).sum := by
        clear * -
        induction cur with
        | nil => simp
        | cons a cur ih =>
          cases hp : p a with
          | true =>
            rw [List.filter_cons_of_pos hp, List.filter_cons_of_neg (by simp [hp]), List.map_cons,
              List.sum_cons, List.map_cons, List.sum_cons, ih, add_assoc]
          | false =>
            rw [List.filter_cons_of_neg (by simp [hp]), List.filter_cons_of_pos (by simp [hp]),
              List.map_cons, List.sum_cons, List.map_cons, List.sum_cons, ih, add_left_comm]
      rw [hsplit]
      congr 1
      have hremE : cur.filter (fun e => !p e) = E.filter (fun e => !p e) := by
        rw [← hE, List.filter_filter]
        apply List.filter_congr
        intro e he
        cases hp : p e with
        | true => simp
        | false =>
          have := (hEcur e (hrem e he hp)).2
          simp [this]
      rw [hremE]
      by_cases hc : pc = pc'
      · subst hc
        rw [new_sum hg hl hs hf n]
        refine (sum_filter_zero E (fun e => !p e) (entryVal pc n) ?_).symm
        intro e he hp
        obtain ⟨k, i, hpul⟩ := hg.pulse e he
        rw [entryVal_pulse hpul]
        apply val_outside
        by_contra hcon
        have ha : ActiveOn pc n e := by
          rw [activeOn_pulse hpul]
          have := hpul.stop
          omega
        exact hinactive e (List.mem_filter.mpr ⟨(hEcur e he).1, by simpa using hp⟩) n ha
      · have z1 : (new.map (entryVal pc' n)).sum = 0 := by
          apply List.sum_eq_zero
          intro x hx
          obtain ⟨e, he, rfl⟩ := List.mem_map.mp hx
          obtain ⟨iv, _, hx⟩ := hnewspec e he
          exact hx.val_other hc n
        have z2 : ((E.filter (fun e => !p e)).map (entryVal pc' n)).sum = 0 := by
          apply List.sum_eq_zero
          intro x hx
          obtain ⟨e, he, rfl⟩ := List.mem_map.mp hx
          obtain ⟨k, i, hpul⟩ := hg.pulse e (List.mem_filter.mp he).1
          exact entryVal_other hpul hc n
        rw [z1, z2]
    · intro pc' hpc'
      unfold NoOverlap
      rw [List.pairwise_append]
      by_cases hc : pc = pc'
      · subst hc
        refine ⟨?_, hnewpw, ?_⟩
        · apply List.Pairwise.imp_of_mem (R := fun _ _ => True)
          · intro a b ha _ _ n
            rintro ⟨g1, _⟩
            exact hinactive a ha n g1
          · exact List.pairwise_iff_forall_sublist.mpr (fun _ => trivial)
        · intro a ha b _ n
          rintro ⟨g1, _⟩
          exact hinactive a ha n g1
      · have hno := h.noov pc' (by
          intro hm
          rcases List.mem_cons.mp hm with rfl | hm
          · exact hc rfl
          · exact hpc' hm)
        refine ⟨List.Pairwise.filter _ hno, ?_, ?_⟩
        · apply List.Pairwise.imp_of_mem (R := fun _ _ => True)
          · intro a b ha _ _ n
            rintro ⟨g1, _⟩
            obtain ⟨iv, _, hx⟩ := hnewspec a ha
            rw [hx.active] at g1
            exact hc g1.1
          · exact List.pairwise_iff_forall_sublist.mpr (fun _ => trivial)
        · intro a _ b hb n
          rintro ⟨_, g2⟩
          obtain ⟨iv, _, hx⟩ := hnewspec b hb
          rw [hx.active] at g2
          exact hc g2.1
    · intro e he hno
      apply List.mem_append_left
      rw [List.mem_filter]
      have hcur := h.keep e he hno
      refine ⟨hcur, ?_⟩
      by_contra hp
      have hin := hrem e hcur (by simpa using hp)
      obtain ⟨k, i, hpul⟩ := hg.pulse e hin
      have := hno i (by rw [hpul.infos]; exact List.mem_cons_self)
      have hw := hpul.wf
      rw [this] at hw; cases hw
  · rw [if_neg hany]
    refine ⟨cur, rfl, h.sub, h.keys, fun pc' hpc' => h.same pc' (List.mem_cons_of_mem _ hpc'),
      h.single, fun e he hk pc' hpc' => h.new e he hk pc' (List.mem_cons_of_mem _ hpc'), h.amp, ?_,
      h.keep⟩
    intro pc' hpc'
    by_cases hc : pc = pc'
    · subst hc
      refine List.Pairwise.imp_of_mem ?_ h.keys
      intro a b ha hb hab n
      rintro ⟨g1, g2⟩
      obtain ⟨iv, hiv, i1, i2, k, hk, hak⟩ := hactIv a (hactE a ha n g1) n g1
      obtain ⟨iv', hiv', j1, j2, k', hk', hbk⟩ := hactIv b (hactE b hb n g2) n g2
      have hiveq : iv' = iv := by
        rcases pairwise_cases hs.disjoint hiv' hiv with hd | hd | hd
        · exact hd
        · omega
        · omega
      subst hiveq
      have hkk : k ≠ k' := by
        intro hkk
        apply hab (by rw [hak]; rfl)
        rw [hak, hbk, hkk]
      apply hany
      rw [List.any_eq_true]
      refine ⟨iv', hiv', ?_⟩
      rw [decide_eq_true_eq]
      cases hkeys : iv'.keys with
      | nil => rw [hkeys] at hk; simp at hk
      | cons x xs =>
        cases xs with
        | nil =>
          rw [hkeys] at hk hk'
          simp only [List.mem_singleton] at hk hk'
          exact absurd (hk.trans hk'.symm) hkk
        | cons _ _ => simp
    · apply h.noov pc'
      intro hm
      rcases List.mem_cons.mp hm with rfl | hm
      · exact hc rfl
      · exact hpc' hm

theorem portClocks_aux (s : List (Entry V)) (pcs : List (String × String)) (hnd : pcs.Nodup) :
    let r := s.foldl (fun pcs e => match e.first? with
      | some i => if i.pc ∈ pcs then pcs else pcs ++ [i.pc]
      | none => pcs) pcs
    r.Nodup ∧ (∀ pc ∈ pcs, pc ∈ r) ∧ ∀ e ∈ s, ∀ i, e.first? = some i → i.pc ∈ r := by
  induction s generalizing pcs with
  | nil => simp [hnd]
  | cons e s ih =>
    simp only [List.foldl_cons]
    cases hf : e.first? with
    | none =>
      obtain ⟨h1, h2, h3⟩ := ih pcs hnd
      refine ⟨h1, h2, ?_⟩
      intro e' he' i hi
      rcases List.mem_cons.mp he' with rfl | he'
      · rw [hf] at hi; cases hi
      · exact h3 e' he' i hi
    | some j =>
      simp only
      by_cases hm : j.pc ∈ pcs
      · rw [if_pos hm]
        obtain ⟨h1, h2, h3⟩ := ih pcs hnd
        refine ⟨h1, h2, ?_⟩
        intro e' he' i hi
        rcases List.mem_cons.mp he' with rfl | he'
        · rw [hf] at hi
          have : j = i := Option.some.inj hi
          subst this; exact h2 _ hm
        · exact h3 e' he' i hi
      · rw [if_neg hm]
        obtain ⟨h1, h2, h3⟩ := ih (pcs ++ [j.pc]) (by
          rw [List.nodup_append]
          refine ⟨hnd, by simp, ?_⟩
          intro a ha b hb
          simp only [List.mem_singleton] at hb
          subst hb; rintro rfl; exact hm ha)
        refine ⟨h1, fun pc hpc => h2 pc (List.mem_append_left _ hpc), ?_⟩
        intro e' he' i hi
        rcases List.mem_cons.mp he' with rfl | he'
        · rw [hf] at hi
          have : j = i := Option.some.inj hi
          subst this; exact h2 _ (by simp)
        · exact h3 e' he' i hi

/-- **C21 (partial: single-pulse operations, and no other pulse starts or ends one sample before
the end of a pulse unless all are square).**  Stacking succeeds; at each instant and on each
port-clock the played amplitude is the sum of the original ones; no two pulses overlap any more;
operations without waveform stay. -/
theorem stack_preserves_partial (s : List (Entry V)) (h : Good s) :
    ∃ r, stackLevel s = .ok r ∧ (∀ pc n, ampAt r pc n = ampAt s pc n) ∧
      (∀ pc, NoOverlap pc r) ∧ ∀ e ∈ s, (∀ i ∈ e.infos, i.wave = .noWf) → e ∈ r := by
  obtain ⟨hnd, _, hall⟩ := portClocks_aux s [] List.nodup_nil
  have hkeys : KeysPw s := by
    have := h.keys_nodup
    rw [List.Nodup, List.pairwise_map] at this
    show s.Pairwise (fun a b => a.key.isSome = true → a.key ≠ b.key)
    refine this.imp ?_
    intro a b hab _
    exact hab
  have h0 : Inv s s (portClocks s) := by
    refine ⟨fun e he _ => he, hkeys, fun _ _ => rfl, h.single, ?_, fun _ _ => rfl, ?_,
      fun e he _ => he⟩
    · intro e he hk
      have := h.keyed e he
      rw [hk] at this; cases this
    · intro pc hpc
      apply List.Pairwise.imp_of_mem (R := fun _ _ => True)
      · intro a b ha _ _ n
        rintro ⟨g1, _⟩
        have hon := activeOn_onPc (h.single a ha) (h.keyed a ha) g1
        obtain ⟨k, i, hp⟩ := isPulse_of_onPc (h.single a ha) hon
        apply hpc
        have := hall a ha i hp.first
        rw [hp.pc] at this
        exact this
      · exact List.pairwise_iff_forall_sublist.mpr (fun _ => trivial)
  have hfold : ∀ (todo : List (String × String)) (cur : List (Entry V)), todo.Nodup →
      Inv s cur todo → ∃ r, todo.foldlM (fun cur pc => stackPc cur (events s pc)) cur = .ok r ∧
        Inv s r [] := by
    intro todo
    induction todo with
    | nil => intro cur _ hi; exact ⟨cur, rfl, hi⟩
    | cons pc todo ih =>
      intro cur hnd hi
      rw [List.nodup_cons] at hnd
      obtain ⟨cur', hc, hi'⟩ := step_inv h hi hnd.1
      obtain ⟨r, hr, hir⟩ := ih cur' hnd.2 hi'
      refine ⟨r, ?_, hir⟩
      rw [List.foldlM_cons, hc]
      exact hr
  obtain ⟨r, hr, hi⟩ := hfold (portClocks s) s hnd h0
  exact ⟨r, hr, hi.amp, fun pc => hi.noov pc (by simp), hi.keep⟩

/-! ### Instances and findings -/

/-- A square pulse. -/
def sq (k : Nat) (t : Int) (dur : Nat) (amp : Int) : Entry Int :=
  ⟨some k, t, [⟨("p", "c"), 0, .square dur amp⟩], false⟩

/-- A sampled pulse. -/
def wv (k : Nat) (t : Int) (l : List Int) : Entry Int :=
  ⟨some k, t, [⟨("p", "c"), 0, .samples l⟩], false⟩

theorem single_sq (k : Nat) (t : Int) (dur : Nat) (amp : Int) : Single (sq k t dur amp) :=
  Or.inl ⟨_, rfl, rfl⟩

theorem single_wv (k : Nat) (t : Int) (l : List Int) : Single (wv k t l) := Or.inl ⟨_, rfl, rfl⟩

/-- Instance: a sampled pulse and a square pulse that overlap it. -/
def sample : List (Entry Int) := [wv 0 0 [1, 2, 3, 4, 5, 6], sq 1 2 6 10]

theorem sample_good : Good sample := by
  refine ⟨by decide, by decide, ?_, ?_⟩
  · intro e he
    simp only [sample, List.mem_cons, List.not_mem_nil, or_false] at he
    rcases he with rfl | rfl
    · exact single_wv _ _ _
    · exact single_sq _ _ _ _
  · intro pc
    right
    intro a ha b hb _ _
    simp only [sample, List.mem_cons, List.not_mem_nil, or_false] at ha hb
    rcases ha with rfl | rfl <;> rcases hb with rfl | rfl <;> decide

example : sweep none [] [⟨0, false, 0⟩, ⟨2, false, 1⟩, ⟨6, true, 0⟩, ⟨8, true, 1⟩] =
    [⟨0, 2, [0]⟩, ⟨2, 6, [0, 1]⟩, ⟨6, 8, [1]⟩] := by decide +kernel

example : (stackIntervals sample [⟨0, 2, [0]⟩, ⟨2, 6, [0, 1]⟩, ⟨6, 8, [1]⟩]).toOption =
    some [⟨none, 0, [⟨("p", "c"), 0, .samples [1, 2]⟩], false⟩,
      ⟨none, 2, [⟨("p", "c"), 0, .samples [13, 14, 15, 16]⟩], false⟩,
      ⟨none, 6, [⟨("p", "c"), 0, .square 2 10⟩], false⟩] := by decide +kernel

theorem mergeSort4 (a b c d : Ev) (h1 : evLe a b = true) (h2 : evLe b c = true)
    (h3 : evLe c d = true) : [a, b, c, d].mergeSort evLe = [a, b, c, d] := by
  apply List.mergeSort_of_pairwise
  have h4 := evLe_trans _ _ _ h1 h2
  have h5 := evLe_trans _ _ _ h2 h3
  have h6 := evLe_trans _ _ _ h1 h5
  simp [h1, h2, h3, h4, h5, h6]

/-- Finding (violates C21): if a pulse starts one sample before the end of another, the interval
before that plays one sample too many: at instant 5 the sample 6 is played on top of the stacked
6 + 10. -/
theorem near_end_wrong :
    ∃ r, (stackLevel [wv 0 0 [1, 2, 3, 4, 5, 6], wv 1 5 [10, 10, 10]]).toOption = some r ∧
      ampAt [wv 0 0 [1, 2, 3, 4, 5, 6], wv 1 5 [10, 10, 10]] ("p", "c") 5 = 16 ∧
      ampAt r ("p", "c") 5 = 22 := by
  refine ⟨[⟨none, 0, [⟨("p", "c"), 0, .samples [1, 2, 3, 4, 5, 6]⟩], false⟩,
    ⟨none, 5, [⟨("p", "c"), 0, .samples [16]⟩], false⟩,
    ⟨none, 6, [⟨("p", "c"), 0, .samples [10, 10]⟩], false⟩], ?_, by decide +kernel, by decide +kernel⟩
  have hpc : portClocks [wv 0 0 [1, 2, 3, 4, 5, 6], wv 1 5 [10, 10, 10]] = [("p", "c")] := by
    decide +kernel
  have hev : events [wv 0 0 [1, 2, 3, 4, 5, 6], wv 1 5 [10, 10, 10]] ("p", "c") =
      [⟨0, false, 0⟩, ⟨6, true, 0⟩, ⟨5, false, 1⟩, ⟨8, true, 1⟩] := by decide +kernel
  have hsort : [(⟨0, false, 0⟩ : Ev), ⟨6, true, 0⟩, ⟨5, false, 1⟩, ⟨8, true, 1⟩].mergeSort evLe =
      [⟨0, false, 0⟩, ⟨5, false, 1⟩, ⟨6, true, 0⟩, ⟨8, true, 1⟩] := by
    simp [List.mergeSort, List.MergeSort.Internal.splitInTwo, List.merge, evLe]
  have hpcs : (stackPc [wv 0 0 [1, 2, 3, 4, 5, 6], wv 1 5 [10, 10, 10]]
      [⟨0, false, 0⟩, ⟨6, true, 0⟩, ⟨5, false, 1⟩, ⟨8, true, 1⟩]) =
      stackIntervals [wv 0 0 [1, 2, 3, 4, 5, 6], wv 1 5 [10, 10, 10]]
        [⟨0, 5, [0]⟩, ⟨5, 6, [0, 1]⟩, ⟨6, 8, [1]⟩] := by
    unfold stackPc
    rw [hsort]
    rfl
  unfold stackLevel
  rw [hpc, List.foldlM_cons, hev, hpcs]
  show (stackIntervals [wv 0 0 [1, 2, 3, 4, 5, 6], wv 1 5 [10, 10, 10]]
        [⟨0, 5, [0]⟩, ⟨5, 6, [0, 1]⟩, ⟨6, 8, [1]⟩] >>= pure).toOption = _
  rw [bind_pure]
  decide +kernel

/-- Finding (violates C21): if two pulses are active in such an interval, stacking fails. -/
theorem near_end_fails :
    (stackInterval [wv 0 0 [1, 2, 3, 4, 5, 6], wv 1 0 [1, 1, 1, 1, 1, 1, 1, 1]]
      ⟨0, 5, [0, 1]⟩).toOption = none := by decide +kernel

/-- Finding (violates C21): an operation with pulses on two ports that overlaps with another one
gets the amplitude of the second port added on the first. -/
theorem two_ports_wrong :
    let two : Entry Int :=
      ⟨some 0, 0, [⟨("p", "c"), 0, .square 4 1⟩, ⟨("p2", "c"), 0, .square 4 5⟩], true⟩
    (stackInterval [two, sq 1 0 4 10] ⟨0, 4, [1, 0]⟩).toOption =
      some ⟨none, 0, [⟨("p", "c"), 0, .square 4 16⟩], false⟩ := by decide +kernel

end Verif.Stack
