/-
C10: merging neighbouring Rz gates keeps the phase evolution.
-/
import Verif.MergeRz.Lemmas

set_option linter.unusedSimpArgs false
set_option linter.unusedVariables false
set_option linter.unusedSectionVars false

namespace Verif.MergeRz

variable {K D : Type} [DecidableEq K]

theorem hash_get {noop : K} : ∀ (ops : Ops K D), HashOkOps noop ops →
    ∀ o, ops.get? noop = some o → o = .idle
  | .nil, _, o, h => by simp [Ops.get?] at h
  | .cons k o' rest, hh, o, h => by
    simp only [HashOkOps] at hh
    rw [Ops.get?] at h
    split at h
    · rename_i hk
      cases h
      exact hh.1 hk.symm
    · exact hash_get rest hh.2.2 o h

mutual
theorem merge_spec (noop : K) : ∀ (op : Op K D) (h : Heap) (op' : Op K D) (h' : Heap),
    (uses op).Nodup → HashOk noop op → merge noop op h = .ok (op', h') →
    (∀ env, run env h' op' = run env h op) ∧ (∀ i, i ∉ uses op → h' i = h i) ∧
    (uses op').Sublist (uses op) ∧ op'.rz? = op.rz? ∧ (op = .idle → op' = .idle)
  | .rz i q, h, op', h', hd, hk, hm => by
    simp only [merge, Except.ok.injEq, Prod.mk.injEq] at hm
    obtain ⟨rfl, rfl⟩ := hm
    exact ⟨fun _ => rfl, fun _ _ => rfl, List.Sublist.refl _, rfl, fun x => x⟩
  | .idle, h, op', h', hd, hk, hm => by
    simp only [merge, Except.ok.injEq, Prod.mk.injEq] at hm
    obtain ⟨rfl, rfl⟩ := hm
    exact ⟨fun _ => rfl, fun _ _ => rfl, List.Sublist.refl _, rfl, fun x => x⟩
  | .other d, h, op', h', hd, hk, hm => by
    simp only [merge, Except.ok.injEq, Prod.mk.injEq] at hm
    obtain ⟨rfl, rfl⟩ := hm
    exact ⟨fun _ => rfl, fun _ _ => rfl, List.Sublist.refl _, rfl, fun x => x⟩
  | .loop n body, h, op', h', hd, hk, hm => by
    simp only [merge] at hm
    cases hb : merge noop body h with
    | error e => rw [hb] at hm; cases hm
    | ok r =>
      obtain ⟨b, g⟩ := r
      rw [hb] at hm
      simp only [Except.ok.injEq, Prod.mk.injEq] at hm
      obtain ⟨rfl, rfl⟩ := hm
      simp only [uses] at hd
      simp only [HashOk] at hk
      obtain ⟨e1, e2, e3, e4, e5⟩ := merge_spec noop body h b g hd hk hb
      refine ⟨fun env => by simp only [run, e1 env], ?_, ?_, rfl, fun x => by cases x⟩
      · simp only [uses]; exact e2
      · simp only [uses]; exact e3
  | .cond c body, h, op', h', hd, hk, hm => by
    simp only [merge] at hm
    cases hb : merge noop body h with
    | error e => rw [hb] at hm; cases hm
    | ok r =>
      obtain ⟨b, g⟩ := r
      rw [hb] at hm
      simp only [Except.ok.injEq, Prod.mk.injEq] at hm
      obtain ⟨rfl, rfl⟩ := hm
      simp only [uses] at hd
      simp only [HashOk] at hk
      obtain ⟨e1, e2, e3, e4, e5⟩ := merge_spec noop body h b g hd hk hb
      refine ⟨fun env => by simp only [run, e1 env], ?_, ?_, rfl, fun x => by cases x⟩
      · simp only [uses]; exact e2
      · simp only [uses]; exact e3
  | .sched ops items, h, op', h', hd, hk, hm => by
    simp only [merge] at hm
    simp only [HashOk] at hk
    rw [uses_sched] at hd
    change (itemIds ops items ++ usesNested ops).Nodup at hd
    have hd' := hd
    rw [List.nodup_append] at hd'
    obtain ⟨hd1, hd2, hd3⟩ := hd'
    cases hb : mergeOps noop ops h with
    | error e => rw [hb] at hm; cases hm
    | ok r =>
      obtain ⟨ops1, h1⟩ := r
      rw [hb] at hm
      simp only at hm
      obtain ⟨a1, a2, a3⟩ := mergeOps_spec noop ops h ops1 h1 hd2 hk hb
      cases hc : mergeItems noop items none ops1 h1 with
      | error e => rw [hc] at hm; cases hm
      | ok r =>
        obtain ⟨items2, ops2, h2⟩ := r
        rw [hc] at hm
        simp only [Except.ok.injEq, Prod.mk.injEq] at hm
        obtain ⟨rfl, rfl⟩ := hm
        have hrz : ∀ it, rzOf ops1 it = rzOf ops it := by
          intro it
          unfold rzOf
          have := a1 it.2
          revert this
          cases ops.get? it.2 <;> cases ops1.get? it.2 <;> intro this
          · rfl
          · exact this.elim
          · exact this.elim
          · exact this.1
        have hids := itemIds_congr hrz items
        have hnoop : ∀ o, ops1.get? noop = some o → o = .idle := by
          intro o ho
          have := a1 noop
          rw [ho] at this
          cases hg : ops.get? noop with
          | none => rw [hg] at this; exact this.elim
          | some o0 =>
            rw [hg] at this
            exact this.2.2.2 (hash_get ops hk o0 hg)
        have hnd1 : (itemIds ops items ++ usesNested ops1).Nodup := by
          rw [List.nodup_append]
          exact ⟨hd1, a3.nodup hd2, fun i hi j hj e => hd3 i hi j (a3.subset hj) e⟩
        have hspec := fun env => mergeItems_spec noop env items none ops1 h1 items2 ops2 h2 hnoop
          (by simpa [hids] using hnd1) hc
        obtain ⟨_, e2, e3, e4, e5, e6⟩ := hspec (fun _ => true)
        refine ⟨?_, ?_, ?_, rfl, fun x => by cases x⟩
        · intro env
          have e1 := (hspec env).1
          simp only [Option.bind_none, rotOf, seq_skip_left] at e1
          simp only [run]
          rw [e1]
          apply runItems_semAt
          intro it hit
          unfold semAt
          have hg := a1 it.2
          cases ho : ops.get? it.2 with
          | none =>
            rw [ho] at hg
            cases ho1 : ops1.get? it.2 with
            | none => rfl
            | some o1 => rw [ho1] at hg; exact hg.elim
          | some o =>
            rw [ho] at hg
            cases ho1 : ops1.get? it.2 with
            | none => rw [ho1] at hg; exact hg.elim
            | some o1 =>
              rw [ho1] at hg
              simp only [Option.map_some, Option.getD_some]
              cases hz : o.rz? with
              | none => exact hg.2.1 hz env
              | some iq =>
                obtain ⟨i, q⟩ := iq
                have hz1 := hg.1
                rw [hz] at hz1
                rw [run_of_rz hz, run_of_rz hz1, run, run]
                rw [a2 i]
                intro hx
                exact hd3 i (List.mem_filterMap.mpr ⟨it, hit, by simp [rzOf, ho, hz]⟩) i hx rfl
        · intro i hi
          rw [uses_sched] at hi
          change i ∉ itemIds ops items ++ usesNested ops at hi
          rw [List.mem_append, not_or] at hi
          rw [e2 i (by simpa [hids] using hi.1), a2 i hi.2]
        · rw [uses_sched, uses_sched]
          change (itemIds ops2 items2 ++ usesNested ops2).Sublist (itemIds ops items ++ usesNested ops)
          rw [e6]
          rw [hids] at e5
          exact e5.append a3
theorem mergeOps_spec (noop : K) : ∀ (ops : Ops K D) (h : Heap) (ops' : Ops K D) (h' : Heap),
    (usesNested ops).Nodup → HashOkOps noop ops → mergeOps noop ops h = .ok (ops', h') →
    (∀ k, match ops.get? k, ops'.get? k with
      | none, none => True
      | some o, some o' => o'.rz? = o.rz? ∧ (o.rz? = none → ∀ env, run env h' o' = run env h o) ∧
          True ∧ (o = .idle → o' = .idle)
      | _, _ => False) ∧
    (∀ i, i ∉ usesNested ops → h' i = h i) ∧ (usesNested ops').Sublist (usesNested ops)
  | .nil, h, ops', h', hd, hk, hm => by
    simp only [mergeOps, Except.ok.injEq, Prod.mk.injEq] at hm
    obtain ⟨rfl, rfl⟩ := hm
    exact ⟨fun k => by simp [Ops.get?], fun _ _ => rfl, List.Sublist.refl _⟩
  | .cons key o rest, h, ops', h', hd, hk, hm => by
    simp only [mergeOps] at hm
    simp only [HashOkOps] at hk
    cases hb : merge noop o h with
    | error e => rw [hb] at hm; cases hm
    | ok r =>
      obtain ⟨o1, h1⟩ := r
      rw [hb] at hm
      simp only at hm
      cases hc : mergeOps noop rest h1 with
      | error e => rw [hc] at hm; cases hm
      | ok r =>
        obtain ⟨rest2, h2⟩ := r
        rw [hc] at hm
        simp only [Except.ok.injEq, Prod.mk.injEq] at hm
        obtain ⟨rfl, rfl⟩ := hm
        rw [usesNested_cons] at hd
        rw [List.nodup_append] at hd
        obtain ⟨hd1, hd2, hd3⟩ := hd
        obtain ⟨b1, b2, b3⟩ := mergeOps_spec noop rest h1 rest2 h2 hd2 hk.2.2 hc
        have huo : (uses o).Nodup := by
          cases hz : o.rz? with
          | none => rw [hz, if_pos rfl] at hd1; exact hd1
          | some iq => obtain ⟨i, q⟩ := iq; rw [run_of_rz hz]; simp [uses]
        obtain ⟨c1, c2, c3, c4, c5⟩ := merge_spec noop o h o1 h1 huo hk.2.1 hb
        have hh1 : ∀ i, i ∉ (if o.rz? = none then uses o else []) → h1 i = h i := by
          intro i hi
          cases hz : o.rz? with
          | none => rw [if_pos hz] at hi; exact c2 i hi
          | some iq =>
            obtain ⟨j, q⟩ := iq
            rw [run_of_rz hz] at hb
            simp only [merge, Except.ok.injEq, Prod.mk.injEq] at hb
            rw [hb.2]
        refine ⟨?_, ?_, ?_⟩
        · intro k
          simp only [Ops.get?]
          by_cases hkk : k = key
          · rw [if_pos hkk, if_pos hkk]
            simp only
            refine ⟨c4, ?_, trivial, c5⟩
            intro hz env
            rw [← c1 env]
            apply run_congr
            intro i hi
            apply b2
            intro hx
            have hi' := c3.subset hi
            exact hd3 i (by rw [if_pos hz]; exact hi') i hx rfl
          · rw [if_neg hkk, if_neg hkk]
            have := b1 k
            revert this
            cases hg : rest.get? k <;> cases rest2.get? k <;> intro this
            · trivial
            · exact this.elim
            · exact this.elim
            · rename_i x y
              simp only at this ⊢
              refine ⟨this.1, ?_, trivial, this.2.2.2⟩
              intro hz env
              rw [this.2.1 hz env]
              apply run_congr
              intro i hi
              apply hh1
              intro hx
              exact hd3 i hx i (uses_get hg hz i hi) rfl
        · intro i hi
          rw [usesNested_cons, List.mem_append, not_or] at hi
          rw [b2 i hi.2, hh1 i hi.1]
        · rw [usesNested_cons, usesNested_cons, c4]
          apply List.Sublist.append _ b3
          split
          · exact c3
          · exact List.Sublist.refl _
end

/-- **C10.**  If every Rz object is used by one schedulable only, the pass keeps what every operation
sees and the final phases, for all outcomes of conditionals and all initial phases. (Operations are
taken in the order in which they were added; see `insertion_order_matters`.) -/
theorem phases_kept_partial (noop : K) (op op' : Op K D) (h h' : Heap) (hu : (uses op).Nodup)
    (hn : HashOk noop op) (hm : merge noop op h = .ok (op', h')) (env : String → Bool) (p : Phases) :
    run env h' op' p = run env h op p := by
  rw [(merge_spec noop op h op' h' hu hn hm).1 env]

/-- Objects that are not in the schedule keep their angle. -/
theorem others_kept (noop : K) (op op' : Op K D) (h h' : Heap) (hu : (uses op).Nodup)
    (hn : HashOk noop op) (hm : merge noop op h = .ok (op', h')) (i : Nat) (hi : i ∉ uses op) :
    h' i = h i := (merge_spec noop op h op' h' hu hn hm).2.1 i hi

/-! ### The pass does not fail -/

theorem mergeItems_total (noop : K) : ∀ (items : List (String × K)) (last : Option (Op K D))
    (ops : Ops K D) (h : Heap), (∀ it ∈ items, ops.get? it.2 ≠ none) →
    ∃ r, mergeItems noop items last ops h = .ok r := by
  intro items
  induction items with
  | nil => intro last ops h _; exact ⟨_, rfl⟩
  | cons it rest ih =>
    intro last ops h hc
    obtain ⟨l, k⟩ := it
    rw [mergeItems]
    cases ho : ops.get? k with
    | none => exact absurd ho (hc (l, k) (by simp))
    | some o =>
      simp only
      cases hg : mergeable last o with
      | some ij =>
        obtain ⟨i, j⟩ := ij
        obtain ⟨r, hr⟩ := ih last (ops.set noop .idle) (h.add i j) (by
          intro it hit
          rw [get_set]
          split
          · simp
          · exact hc it (by simp [hit]))
        simp only [hr]
        exact ⟨_, rfl⟩
      | none =>
        obtain ⟨r, hr⟩ := ih (some o) ops h (fun it hit => hc it (by simp [hit]))
        simp only [hr]
        exact ⟨_, rfl⟩

mutual
theorem merge_total (noop : K) : ∀ (op : Op K D) (h : Heap), Closed op → ∃ r, merge noop op h = .ok r
  | .rz i q, h, _ => by simp only [merge]; exact ⟨_, rfl⟩
  | .idle, h, _ => by simp only [merge]; exact ⟨_, rfl⟩
  | .other d, h, _ => by simp only [merge]; exact ⟨_, rfl⟩
  | .loop n body, h, hc => by
    simp only [Closed] at hc
    obtain ⟨r, hr⟩ := merge_total noop body h hc
    simp only [merge, hr]; exact ⟨_, rfl⟩
  | .cond c body, h, hc => by
    simp only [Closed] at hc
    obtain ⟨r, hr⟩ := merge_total noop body h hc
    simp only [merge, hr]; exact ⟨_, rfl⟩
  | .sched ops items, h, hc => by
    simp only [Closed] at hc
    obtain ⟨⟨ops1, h1⟩, hr, hg⟩ := mergeOps_total noop ops h hc.2
    obtain ⟨r, hr2⟩ := mergeItems_total noop items none ops1 h1
      (fun it hit hx => hc.1 it hit ((hg it.2).mp hx))
    simp only [merge, hr, hr2]; exact ⟨_, rfl⟩
theorem mergeOps_total (noop : K) : ∀ (ops : Ops K D) (h : Heap), ClosedOps ops →
    ∃ r, mergeOps noop ops h = .ok r ∧ ∀ k, r.1.get? k = none ↔ ops.get? k = none
  | .nil, h, _ => ⟨(.nil, h), by simp only [mergeOps], fun k => Iff.rfl⟩
  | .cons key o rest, h, hc => by
    simp only [ClosedOps] at hc
    obtain ⟨⟨o1, h1⟩, hr⟩ := merge_total noop o h hc.1
    obtain ⟨⟨rest2, h2⟩, hr2, hg⟩ := mergeOps_total noop rest h1 hc.2
    refine ⟨(.cons key o1 rest2, h2), by simp only [mergeOps, hr, hr2], ?_⟩
    intro k
    simp only [Ops.get?]
    split
    · simp
    · exact hg k
end

/-- **C10, no failure.**  The pass succeeds on every schedule whose schedulables refer to operations
in the schedule. -/
theorem merge_succeeds (noop : K) (op : Op K D) (h : Heap) (hc : Closed op) :
    ∃ op' h', merge noop op h = .ok (op', h') := by
  obtain ⟨⟨a, b⟩, h⟩ := merge_total noop op h hc
  exact ⟨a, b, h⟩

/-! ### Everything that can be merged is merged -/

/-- No two neighbours are Rz gates on the same qubit. -/
def NoNeighbours (ops : Ops K D) (items : List (String × K)) : Prop :=
  ∀ (n : Nat) (a b : String × K), items[n]? = some a → items[n + 1]? = some b →
    ∀ i j q, (ops.get? a.2).bind Op.rz? = some (i, q) → (ops.get? b.2).bind Op.rz? ≠ some (j, q)

mutual
/-- Nothing is left to merge, in the schedule and in all sub-schedules. -/
def Reduced : Op K D → Prop
  | .sched ops items => NoNeighbours ops items ∧ ReducedOps ops
  | .loop _ body => Reduced body
  | .cond _ body => Reduced body
  | .rz _ _ => True
  | .idle => True
  | .other _ => True
/-- The same for the operations of a dict. -/
def ReducedOps : Ops K D → Prop
  | .nil => True
  | .cons _ o rest => Reduced o ∧ ReducedOps rest
end

theorem reduced_set_idle (noop : K) : ∀ (ops : Ops K D), ReducedOps ops → ReducedOps (ops.set noop .idle)
  | .nil, _ => by simp [Ops.set, ReducedOps, Reduced]
  | .cons k o rest, h => by
    simp only [ReducedOps] at h
    unfold Ops.set
    split
    · simp only [ReducedOps, Reduced, true_and]; exact h.2
    · simp only [ReducedOps]; exact ⟨h.1, reduced_set_idle noop rest h.2⟩

theorem mergeItems_reduced (noop : K) : ∀ (items : List (String × K)) (last : Option (Op K D))
    (ops : Ops K D) (h : Heap) (items' : List (String × K)) (ops' : Ops K D) (h' : Heap),
    (∀ o, ops.get? noop = some o → o = .idle) → ReducedOps ops →
    mergeItems noop items last ops h = .ok (items', ops', h') →
    NoNeighbours ops' items' ∧ ReducedOps ops' ∧ (∀ it, rzOf ops' it = rzOf ops it) ∧
    (∀ b, items'[0]? = some b → ∀ i j q, last.bind Op.rz? = some (i, q) →
      (ops'.get? b.2).bind Op.rz? ≠ some (j, q)) ∧ (∀ o, ops'.get? noop = some o → o = .idle) := by
  intro items
  induction items with
  | nil =>
    intro last ops h items' ops' h' hn hd hm
    simp only [mergeItems, Except.ok.injEq, Prod.mk.injEq] at hm
    obtain ⟨rfl, rfl, rfl⟩ := hm
    exact ⟨by intro n a b ha; simp at ha, hd, fun _ => rfl, by intro b hb; simp at hb, hn⟩
  | cons it rest ih =>
    intro last ops h items' ops' h' hn hd hm
    obtain ⟨l, k⟩ := it
    rw [mergeItems] at hm
    cases ho : ops.get? k with
    | none => rw [ho] at hm; cases hm
    | some inner =>
      rw [ho] at hm
      simp only at hm
      cases hmg : mergeable last inner with
      | some ij =>
        obtain ⟨i, j⟩ := ij
        rw [hmg] at hm
        simp only at hm
        cases hr : mergeItems noop rest last (ops.set noop .idle) (h.add i j) with
        | error e => rw [hr] at hm; cases hm
        | ok r =>
          obtain ⟨r1, r2, r3⟩ := r
          rw [hr] at hm
          simp only [Except.ok.injEq, Prod.mk.injEq] at hm
          obtain ⟨rfl, rfl, rfl⟩ := hm
          have hnset : ∀ o, (ops.set noop .idle).get? noop = some o → o = .idle := by
            intro o hx
            rw [get_set, if_pos rfl] at hx
            exact (Option.some.inj hx).symm
          obtain ⟨e1, e2, e3, e4, e5⟩ := ih last _ _ r1 r2 r3 hnset (reduced_set_idle noop ops hd) hr
          have hno : (r2.get? noop).bind Op.rz? = none := by
            cases hg : r2.get? noop with
            | none => rfl
            | some o => rw [e5 o hg]; rfl
          refine ⟨?_, e2, fun it => (e3 it).trans (rzOf_set_idle hn it), ?_, e5⟩
          · intro n a b ha hb i j q h1
            cases n with
            | zero =>
              simp only [List.getElem?_cons_zero, Option.some.injEq] at ha
              subst ha
              rw [hno] at h1
              cases h1
            | succ n => exact e1 n a b (by simpa using ha) (by simpa using hb) i j q h1
          · intro b hb i j q h1 h2
            simp only [List.getElem?_cons_zero, Option.some.injEq] at hb
            subst hb
            rw [hno] at h2
            cases h2
      | none =>
        rw [hmg] at hm
        simp only at hm
        cases hr : mergeItems noop rest (some inner) ops h with
        | error e => rw [hr] at hm; cases hm
        | ok r =>
          obtain ⟨r1, r2, r3⟩ := r
          rw [hr] at hm
          simp only [Except.ok.injEq, Prod.mk.injEq] at hm
          obtain ⟨rfl, rfl, rfl⟩ := hm
          obtain ⟨e1, e2, e3, e4, e5⟩ := ih (some inner) ops h r1 r2 r3 hn hd hr
          have hin : (r2.get? k).bind Op.rz? = inner.rz? := by
            have := e3 (l, k)
            unfold rzOf at this
            simp only [ho, Option.bind_some] at this
            exact this
          refine ⟨?_, e2, e3, ?_, e5⟩
          · intro n a b ha hb i j q h1
            cases n with
            | zero =>
              simp only [List.getElem?_cons_zero, Option.some.injEq] at ha
              subst ha
              simp only at h1
              rw [hin] at h1
              exact e4 b (by simpa using hb) i j q (by simpa using h1)
            | succ n => exact e1 n a b (by simpa using ha) (by simpa using hb) i j q h1
          · intro b hb i j q h1 h2
            simp only [List.getElem?_cons_zero, Option.some.injEq] at hb
            subst hb
            simp only at h2
            rw [hin] at h2
            exact mergeable_none hmg h1 h2 rfl

mutual
theorem merge_reduced (noop : K) : ∀ (op : Op K D) (h : Heap) (op' : Op K D) (h' : Heap),
    HashOk noop op → merge noop op h = .ok (op', h') →
    Reduced op' ∧ (op = .idle → op' = .idle)
  | .rz i q, h, op', h', hk, hm => by
    simp only [merge, Except.ok.injEq, Prod.mk.injEq] at hm
    obtain ⟨rfl, rfl⟩ := hm
    exact ⟨trivial, fun x => x⟩
  | .idle, h, op', h', hk, hm => by
    simp only [merge, Except.ok.injEq, Prod.mk.injEq] at hm
    obtain ⟨rfl, rfl⟩ := hm
    exact ⟨trivial, fun x => x⟩
  | .other d, h, op', h', hk, hm => by
    simp only [merge, Except.ok.injEq, Prod.mk.injEq] at hm
    obtain ⟨rfl, rfl⟩ := hm
    exact ⟨trivial, fun x => x⟩
  | .loop n body, h, op', h', hk, hm => by
    simp only [merge] at hm
    simp only [HashOk] at hk
    cases hb : merge noop body h with
    | error e => rw [hb] at hm; cases hm
    | ok r =>
      obtain ⟨b, g⟩ := r
      rw [hb] at hm
      simp only [Except.ok.injEq, Prod.mk.injEq] at hm
      obtain ⟨rfl, rfl⟩ := hm
      exact ⟨(merge_reduced noop body h b g hk hb).1, fun x => by cases x⟩
  | .cond c body, h, op', h', hk, hm => by
    simp only [merge] at hm
    simp only [HashOk] at hk
    cases hb : merge noop body h with
    | error e => rw [hb] at hm; cases hm
    | ok r =>
      obtain ⟨b, g⟩ := r
      rw [hb] at hm
      simp only [Except.ok.injEq, Prod.mk.injEq] at hm
      obtain ⟨rfl, rfl⟩ := hm
      exact ⟨(merge_reduced noop body h b g hk hb).1, fun x => by cases x⟩
  | .sched ops items, h, op', h', hk, hm => by
    simp only [merge] at hm
    simp only [HashOk] at hk
    cases hb : mergeOps noop ops h with
    | error e => rw [hb] at hm; cases hm
    | ok r =>
      obtain ⟨ops1, h1⟩ := r
      rw [hb] at hm
      simp only at hm
      obtain ⟨a1, a2⟩ := mergeOps_reduced noop ops h ops1 h1 hk hb
      cases hc : mergeItems noop items none ops1 h1 with
      | error e => rw [hc] at hm; cases hm
      | ok r =>
        obtain ⟨items2, ops2, h2⟩ := r
        rw [hc] at hm
        simp only [Except.ok.injEq, Prod.mk.injEq] at hm
        obtain ⟨rfl, rfl⟩ := hm
        obtain ⟨e1, e2, _⟩ := mergeItems_reduced noop items none ops1 h1 items2 ops2 h2 a2 a1 hc
        exact ⟨⟨e1, e2⟩, fun x => by cases x⟩
theorem mergeOps_reduced (noop : K) : ∀ (ops : Ops K D) (h : Heap) (ops' : Ops K D) (h' : Heap),
    HashOkOps noop ops → mergeOps noop ops h = .ok (ops', h') →
    ReducedOps ops' ∧ ∀ o, ops'.get? noop = some o → o = .idle
  | .nil, h, ops', h', hk, hm => by
    simp only [mergeOps, Except.ok.injEq, Prod.mk.injEq] at hm
    obtain ⟨rfl, rfl⟩ := hm
    exact ⟨trivial, fun o ho => by simp [Ops.get?] at ho⟩
  | .cons key o rest, h, ops', h', hk, hm => by
    simp only [mergeOps] at hm
    simp only [HashOkOps] at hk
    cases hb : merge noop o h with
    | error e => rw [hb] at hm; cases hm
    | ok r =>
      obtain ⟨o1, h1⟩ := r
      rw [hb] at hm
      simp only at hm
      cases hc : mergeOps noop rest h1 with
      | error e => rw [hc] at hm; cases hm
      | ok r =>
        obtain ⟨rest2, h2⟩ := r
        rw [hc] at hm
        simp only [Except.ok.injEq, Prod.mk.injEq] at hm
        obtain ⟨rfl, rfl⟩ := hm
        obtain ⟨b1, b2⟩ := merge_reduced noop o h o1 h1 hk.2.1 hb
        obtain ⟨c1, c2⟩ := mergeOps_reduced noop rest h1 rest2 h2 hk.2.2 hc
        refine ⟨⟨b1, c1⟩, ?_⟩
        intro x hx
        rw [Ops.get?] at hx
        split at hx
        · rename_i hkk
          cases hx
          exact b2 (hk.1 hkk.symm)
        · exact c2 x hx
end

/-- **C10, complete.**  After the pass no two neighbouring schedulables are Rz gates on the same
qubit, in any sub-schedule. -/
theorem all_merged (noop : K) (op op' : Op K D) (h h' : Heap) (hn : HashOk noop op)
    (hm : merge noop op h = .ok (op', h')) : Reduced op' :=
  (merge_reduced noop op h op' h' hn hm).1

theorem mergeItems_labels (noop : K) : ∀ (items : List (String × K)) (last : Option (Op K D))
    (ops : Ops K D) (h : Heap) (r : List (String × K) × Ops K D × Heap),
    mergeItems noop items last ops h = .ok r → r.1.map Prod.fst = items.map Prod.fst ∧
      ∀ (n : Nat) it it', items[n]? = some it → r.1[n]? = some it' → it' = it ∨ it' = (it.1, noop) := by
  intro items
  induction items with
  | nil =>
    intro last ops h r hm
    simp only [mergeItems, Except.ok.injEq] at hm
    subst hm
    exact ⟨rfl, by intro n it it' h; simp at h⟩
  | cons it rest ih =>
    intro last ops h r hm
    obtain ⟨l, k⟩ := it
    rw [mergeItems] at hm
    split at hm
    · cases hm
    · split at hm
      · split at hm
        · cases hm
        · rename_i x hx
          obtain ⟨a, b⟩ := ih _ _ _ _ hx
          have := Except.ok.inj hm
          subst this
          refine ⟨by simp [a], ?_⟩
          intro n it it' h1 h2
          cases n with
          | zero =>
            simp at h1 h2
            subst h1; subst h2
            exact Or.inr rfl
          | succ n => exact b n it it' (by simpa using h1) (by simpa using h2)
      · split at hm
        · cases hm
        · rename_i x hx
          obtain ⟨a, b⟩ := ih _ _ _ _ hx
          have := Except.ok.inj hm
          subst this
          refine ⟨by simp [a], ?_⟩
          intro n it it' h1 h2
          cases n with
          | zero =>
            simp at h1 h2
            subst h1; subst h2
            exact Or.inl rfl
          | succ n => exact b n it it' (by simpa using h1) (by simpa using h2)

/-- **C10, schedulables.**  A schedule keeps its schedulables with their labels in their order; each
keeps its operation or becomes the idle pulse. -/
theorem schedulables_kept (noop : K) (ops : Ops K D) (items : List (String × K)) (h h' : Heap)
    (op' : Op K D) (hm : merge noop (.sched ops items) h = .ok (op', h')) :
    ∃ ops' items', op' = .sched ops' items' ∧ items'.map Prod.fst = items.map Prod.fst ∧
      ∀ (n : Nat) it it', items[n]? = some it → items'[n]? = some it' →
        it' = it ∨ it' = (it.1, noop) := by
  simp only [merge] at hm
  split at hm
  · cases hm
  · split at hm
    · cases hm
    · rename_i items2 ops2 h2 hc
      simp only [Except.ok.injEq, Prod.mk.injEq] at hm
      obtain ⟨a, b⟩ := mergeItems_labels noop _ _ _ _ _ hc
      exact ⟨ops2, items2, hm.1.symm, a, b⟩

/-! ### Examples and limits -/

/-- A schedule with Rz gates on two qubits, an X gate, and a loop with Rz gates. -/
def exOp : Op String String := .sched
  (.cons "rz0a" (.rz 0 "q0") (.cons "rz0b" (.rz 1 "q0") (.cons "x" (.other "X q0")
    (.cons "rz1" (.rz 2 "q1") (.cons "loop" (.loop 3 (.sched
      (.cons "a" (.rz 3 "q0") (.cons "b" (.rz 4 "q0") .nil)) [("u", "a"), ("v", "b")])) .nil)))))
  [("s0", "rz0a"), ("s1", "rz0b"), ("s2", "x"), ("s3", "rz1"), ("s4", "loop"), ("s5", "x")]

/-- Non-vacuity: the hypotheses are met, and angles are 10, 20, 30, 1, 2. -/
example : (uses exOp).Nodup ∧ HashOk "idle" exOp ∧ Closed exOp := by
  refine ⟨by decide, by simp [exOp, HashOk, HashOkOps], by simp [exOp, Closed, ClosedOps, Ops.get?]⟩

/-- The angles of the example. -/
def exHeap : Heap := fun i => match i with | 0 => 10 | 1 => 20 | 2 => 30 | 3 => 1 | _ => 2

example : ∃ h', merge "idle" exOp exHeap = .ok (.sched
    (.cons "rz0a" (.rz 0 "q0") (.cons "rz0b" (.rz 1 "q0") (.cons "x" (.other "X q0")
    (.cons "rz1" (.rz 2 "q1") (.cons "loop" (.loop 3 (.sched
      (.cons "a" (.rz 3 "q0") (.cons "b" (.rz 4 "q0") (.cons "idle" .idle .nil)))
        [("u", "a"), ("v", "idle")])) (.cons "idle" .idle .nil))))))
    [("s0", "rz0a"), ("s1", "idle"), ("s2", "x"), ("s3", "rz1"), ("s4", "loop"), ("s5", "x")], h') ∧
    h' 0 = 30 ∧ h' 3 = 3 :=
  ⟨_, rfl, by decide +kernel, by decide +kernel⟩

/-- Three times the same gate: one object, used by three schedulables. -/
def thrice : Op String String :=
  .sched (.cons "rz" (.rz 0 "q0") .nil) [("a", "rz"), ("b", "rz"), ("c", "rz")]

/-- Finding: adding the same Rz gate three times in a row (one object in the schedule) turns three
rotations by 10 into one by 40 (the angle is doubled twice). -/
theorem shared_gate_wrong : ∃ op' h', merge "idle" thrice (fun _ => 10) = .ok (op', h') ∧
    (run (fun _ => true) (fun _ => 10) thrice (fun _ => 0)).1 "q0" = 30 ∧
    (run (fun _ => true) h' op' (fun _ => 0)).1 "q0" = 40 :=
  ⟨_, _, rfl, by decide +kernel, by decide +kernel⟩

/-- Rz, Rz with another angle, X, and the first Rz again. -/
def elsewhere : Op String String :=
  .sched (.cons "a" (.rz 0 "q0") (.cons "b" (.rz 1 "q0") (.cons "x" (.other "X") .nil)))
    [("s0", "a"), ("s1", "b"), ("s2", "x"), ("s3", "a")]

/-- Finding: merging into a gate that is also used elsewhere changes it there: here the total
rotation is 10 + 10 + 10 = 30 before and 40 after. -/
theorem shared_elsewhere_wrong : ∃ op' h', merge "idle" elsewhere (fun _ => 10) = .ok (op', h') ∧
    (run (fun _ => true) (fun _ => 10) elsewhere (fun _ => 0)).1 "q0" = 30 ∧
    (run (fun _ => true) h' op' (fun _ => 0)).1 "q0" = 40 :=
  ⟨_, _, rfl, by decide +kernel, by decide +kernel⟩

/-- Finding: neighbours are those in the order of addition, not of execution.  Two Rz gates were
added one after the other, the second to be executed after an X gate that was added later: the X
gate sees 10 before and 20 after the pass. -/
theorem insertion_order_matters :
    let ops : Ops String String := .cons "a" (.rz 0 "q0") (.cons "b" (.rz 1 "q0")
      (.cons "x" (.other "X") .nil))
    ∃ ops' items' h', merge "idle" (.sched ops [("s0", "a"), ("s1", "b"), ("s2", "x")])
        (fun _ => 10) = .ok (.sched ops' items', h') ∧
      items' = [("s0", "a"), ("s1", "idle"), ("s2", "x")] ∧
      (run (fun _ => true) (fun _ => 10) (.sched ops [("s0", "a"), ("s2", "x"), ("s1", "b")])
        (fun _ => 0)).2.map (fun e => e.2 "q0") = [10] ∧
      (run (fun _ => true) h' (.sched ops' [("s0", "a"), ("s2", "x"), ("s1", "idle")])
        (fun _ => 0)).2.map (fun e => e.2 "q0") = [20] :=
  ⟨_, _, _, rfl, rfl, by decide +kernel, by decide +kernel⟩

end Verif.MergeRz
