/-
Lemmas on the merging of Rz gates.
-/
import Verif.MergeRz.Spec
import Mathlib.Tactic.Ring
import Mathlib.Data.List.Nodup

set_option linter.unusedSimpArgs false
set_option linter.unusedVariables false
set_option linter.unusedSectionVars false

namespace Verif.MergeRz

variable {K D : Type} [DecidableEq K]

theorem seq_skip_left (a : Sem D) : Sem.seq Sem.skip a = a := by
  funext p; simp [Sem.seq, Sem.skip]

theorem seq_skip_right (a : Sem D) : Sem.seq a Sem.skip = a := by
  funext p; simp [Sem.seq, Sem.skip]

theorem seq_assoc (a b c : Sem D) : Sem.seq (Sem.seq a b) c = Sem.seq a (Sem.seq b c) := by
  funext p; simp [Sem.seq]

theorem rotate_rotate (q : String) (a b : Rat) :
    Sem.seq (Sem.rotate q a : Sem D) (Sem.rotate q b) = Sem.rotate q (a + b) := by
  funext p
  simp only [Sem.seq, Sem.rotate, List.append_nil, Prod.mk.injEq, and_true]
  funext x
  by_cases h : x = q
  · simp only [h, if_true]; ring
  · simp [h]

theorem get_set : ∀ (ops : Ops K D) (x y : K) (v : Op K D),
    (ops.set x v).get? y = if y = x then some v else ops.get? y
  | .nil, x, y, v => by simp [Ops.set, Ops.get?]
  | .cons k o rest, x, y, v => by
    unfold Ops.set
    by_cases h : x = k
    · rw [if_pos h]
      subst h
      by_cases hy : y = x <;> simp [Ops.get?, hy]
    · rw [if_neg h]
      simp only [Ops.get?]
      rw [get_set rest x y v]
      by_cases hy : y = k
      · rw [if_pos hy, if_pos hy, if_neg (fun e => h (e.symm.trans hy))]
      · rw [if_neg hy, if_neg hy]

theorem get_runOps (env : String → Bool) (h : Heap) : ∀ (ops : Ops K D) (k : K),
    Dict.get? (runOps env h ops) k = (ops.get? k).map (run env h)
  | .nil, k => by simp [runOps, Dict.get?_nil, Ops.get?]
  | .cons k' o rest, k => by
    rw [runOps, Dict.get?_cons, Ops.get?]
    by_cases hk : k' = k
    · rw [if_pos hk, if_pos hk.symm]; rfl
    · rw [if_neg hk, if_neg (fun e => hk e.symm), get_runOps env h rest k]

/-- What the schedulable with this operation does. -/
def semAt (env : String → Bool) (h : Heap) (ops : Ops K D) (k : K) : Sem D :=
  ((ops.get? k).map (run env h)).getD Sem.skip

theorem runItems_cons (env : String → Bool) (h : Heap) (ops : Ops K D) (it : String × K)
    (rest : List (String × K)) : runItems (runOps env h ops) (it :: rest) =
      Sem.seq (semAt env h ops it.2) (runItems (runOps env h ops) rest) := by
  obtain ⟨l, k⟩ := it
  simp only [runItems, semAt, get_runOps]

theorem runItems_congr {sems sems' : List (K × Sem D)} : ∀ {items : List (String × K)},
    (∀ it ∈ items, (Dict.get? sems it.2).getD Sem.skip = (Dict.get? sems' it.2).getD Sem.skip) →
    runItems sems items = runItems sems' items
  | [], _ => rfl
  | (l, k) :: rest, h => by
    rw [runItems, runItems, h (l, k) (by simp),
      runItems_congr (fun it hit => h it (by simp [hit]))]

/-- The Rz object of a schedulable. -/
def rzOf (ops : Ops K D) (it : String × K) : Option (Nat × String) := (ops.get? it.2).bind Op.rz?

theorem uses_sched (ops : Ops K D) (items : List (String × K)) :
    uses (.sched ops items) = items.filterMap (fun it => (rzOf ops it).map Prod.fst) ++ usesNested ops := by
  rw [uses]; rfl

theorem usesNested_cons (k : K) (o : Op K D) (rest : Ops K D) :
    usesNested (.cons k o rest) = (if o.rz? = none then uses o else []) ++ usesNested rest := by
  cases o <;> simp [usesNested, Op.rz?, uses]

theorem run_of_rz {o : Op K D} {i : Nat} {q : String} (h : o.rz? = some (i, q)) : o = .rz i q := by
  cases o <;> simp [Op.rz?] at h
  obtain ⟨rfl, rfl⟩ := h
  rfl

mutual
theorem run_congr (env : String → Bool) {h h' : Heap} : ∀ (op : Op K D),
    (∀ i ∈ uses op, h i = h' i) → run env h op = run env h' op
  | .rz i q, ha => by simp only [run, ha i (by simp [uses])]
  | .idle, _ => by simp only [run]
  | .other d, _ => by simp only [run]
  | .loop n body, ha => by
    simp only [uses] at ha
    simp only [run, run_congr env body ha]
  | .cond c body, ha => by
    simp only [uses] at ha
    simp only [run, run_congr env body ha]
  | .sched ops items, ha => by
    simp only [run]
    rw [uses_sched] at ha
    apply runItems_congr
    intro it hit
    rw [get_runOps, get_runOps]
    cases ho : ops.get? it.2 with
    | none => rfl
    | some o =>
      simp only [Option.map_some, Option.getD_some]
      cases hr : o.rz? with
      | none => exact runOps_congr env ops (fun i hi => ha i (List.mem_append_right _ hi)) it.2 o ho hr
      | some r =>
        obtain ⟨i, q⟩ := r
        rw [run_of_rz hr, run, run]
        rw [ha i (List.mem_append_left _ (List.mem_filterMap.mpr ⟨it, hit, by
          simp [rzOf, ho, hr]⟩))]
theorem runOps_congr (env : String → Bool) {h h' : Heap} : ∀ (ops : Ops K D),
    (∀ i ∈ usesNested ops, h i = h' i) → ∀ k o, ops.get? k = some o → o.rz? = none →
    run env h o = run env h' o
  | .nil, _, k, o, hk, _ => by simp [Ops.get?] at hk
  | .cons k' o' rest, ha, k, o, hk, hr => by
    rw [usesNested_cons] at ha
    rw [Ops.get?] at hk
    split at hk
    · cases hk
      rw [if_pos hr] at ha
      exact run_congr env o' (fun i hi => ha i (List.mem_append_left _ hi))
    · exact runOps_congr env rest (fun i hi => ha i (List.mem_append_right _ hi)) k o hk hr
end

theorem uses_get {ops : Ops K D} : ∀ {k : K} {o : Op K D}, ops.get? k = some o → o.rz? = none →
    ∀ i ∈ uses o, i ∈ usesNested ops := by
  induction ops using Ops.rec (motive_1 := fun _ => True) with
  | rz | idle | other | sched | loop | cond => trivial
  | nil => intro k o h; simp [Ops.get?] at h
  | cons k' o' rest _ ih =>
    intro k o h hr i hi
    rw [usesNested_cons]
    rw [Ops.get?] at h
    split at h
    · cases h
      rw [if_pos hr]
      exact List.mem_append_left _ hi
    · exact List.mem_append_right _ (ih h hr i hi)

theorem usesNested_set_idle {noop : K} : ∀ (ops : Ops K D),
    (∀ o, ops.get? noop = some o → o = .idle) → usesNested (ops.set noop .idle) = usesNested ops
  | .nil, _ => by simp [Ops.set, usesNested, uses]
  | .cons k o rest, h => by
    unfold Ops.set
    by_cases hk : noop = k
    · rw [if_pos hk]
      have := h o (by simp [Ops.get?, hk])
      rw [this]
    · rw [if_neg hk, usesNested_cons, usesNested_cons, usesNested_set_idle rest
        (fun x hx => h x (by simpa [Ops.get?, hk] using hx))]

/-- The Rz gate before. -/
def rotOf (h : Heap) : Option (Nat × String) → Sem D
  | none => Sem.skip
  | some (i, q) => Sem.rotate q (h i)

theorem mergeable_some {last : Option (Op K D)} {inner : Op K D} {i j : Nat}
    (h : mergeable last inner = some (i, j)) :
    ∃ q, last.bind Op.rz? = some (i, q) ∧ inner.rz? = some (j, q) := by
  unfold mergeable at h
  split at h
  · rename_i i' q j' r h1 h2
    split at h
    · rename_i hq
      cases h
      exact ⟨q, h1, by rw [h2, hq]⟩
    · cases h
  · cases h

theorem mergeable_none {last : Option (Op K D)} {inner : Op K D} (h : mergeable last inner = none)
    {i j : Nat} {q r : String} (h1 : last.bind Op.rz? = some (i, q)) (h2 : inner.rz? = some (j, r)) :
    r ≠ q := by
  unfold mergeable at h
  rw [h1, h2] at h
  simp only at h
  split at h
  · cases h
  · assumption

/-- Rz objects of schedulables. -/
def itemIds (ops : Ops K D) (items : List (String × K)) : List Nat :=
  items.filterMap (fun it => (rzOf ops it).map Prod.fst)

theorem itemIds_congr {ops ops' : Ops K D} (h : ∀ it, rzOf ops' it = rzOf ops it)
    (items : List (String × K)) : itemIds ops' items = itemIds ops items := by
  unfold itemIds
  congr 1
  funext it
  rw [h]

theorem rzOf_set_idle {noop : K} {ops : Ops K D} (hn : ∀ o, ops.get? noop = some o → o = .idle)
    (it : String × K) : rzOf (ops.set noop .idle) it = rzOf ops it := by
  unfold rzOf
  rw [get_set]
  split
  · rename_i h
    rw [h]
    cases ho : ops.get? noop with
    | none => rfl
    | some o => rw [hn o ho]
  · rfl

theorem semAt_set_idle {noop : K} {ops : Ops K D} (hn : ∀ o, ops.get? noop = some o → o = .idle)
    (env : String → Bool) (h : Heap) (k : K) :
    semAt env h (ops.set noop .idle) k = semAt env h ops k := by
  unfold semAt
  rw [get_set]
  split
  · rename_i hk
    rw [hk]
    cases ho : ops.get? noop with
    | none => simp [run]
    | some o => rw [hn o ho]
  · rfl

theorem runItems_semAt {env : String → Bool} {h h' : Heap} {ops ops' : Ops K D}
    {items : List (String × K)} (he : ∀ it ∈ items, semAt env h ops it.2 = semAt env h' ops' it.2) :
    runItems (runOps env h ops) items = runItems (runOps env h' ops') items := by
  apply runItems_congr
  intro it hit
  rw [get_runOps, get_runOps]
  exact he it hit

theorem semAt_congr {env : String → Bool} {h h' : Heap} {ops : Ops K D}
    (hn : ∀ i ∈ usesNested ops, h i = h' i) {it : String × K}
    (hi : ∀ i q, rzOf ops it = some (i, q) → h i = h' i) :
    semAt env h ops it.2 = semAt env h' ops it.2 := by
  unfold semAt
  cases ho : ops.get? it.2 with
  | none => rfl
  | some o =>
    simp only [Option.map_some, Option.getD_some]
    cases hr : o.rz? with
    | none => exact runOps_congr env ops hn it.2 o ho hr
    | some r =>
      obtain ⟨i, q⟩ := r
      rw [run_of_rz hr, run, run, hi i q (by simp [rzOf, ho, hr])]

/-- The loop over the schedulables. -/
theorem mergeItems_spec (noop : K) (env : String → Bool) : ∀ (items : List (String × K))
    (last : Option (Op K D)) (ops : Ops K D) (h : Heap) (items' : List (String × K)) (ops' : Ops K D)
    (h' : Heap), (∀ o, ops.get? noop = some o → o = .idle) →
    (((last.bind Op.rz?).map Prod.fst).toList ++ itemIds ops items ++ usesNested ops).Nodup →
    mergeItems noop items last ops h = .ok (items', ops', h') →
    Sem.seq (rotOf h' (last.bind Op.rz?)) (runItems (runOps env h' ops') items') =
      Sem.seq (rotOf h (last.bind Op.rz?)) (runItems (runOps env h ops) items) ∧
    (∀ i, i ∉ ((last.bind Op.rz?).map Prod.fst).toList ++ itemIds ops items → h' i = h i) ∧
    (∀ k, k ≠ noop → ops'.get? k = ops.get? k) ∧ (∀ o, ops'.get? noop = some o → o = .idle) ∧
    (itemIds ops' items').Sublist (itemIds ops items) ∧ usesNested ops' = usesNested ops := by
  intro items
  induction items with
  | nil =>
    intro last ops h items' ops' h' hn hd hm
    simp only [mergeItems, Except.ok.injEq, Prod.mk.injEq] at hm
    obtain ⟨rfl, rfl, rfl⟩ := hm
    exact ⟨rfl, fun _ _ => rfl, fun _ _ => rfl, hn, List.Sublist.refl _, rfl⟩
  | cons it rest ih =>
    intro last ops h items' ops' h' hn hd hm
    obtain ⟨l, k⟩ := it
    rw [mergeItems] at hm
    cases ho : ops.get? k with
    | none => rw [ho] at hm; cases hm
    | some inner =>
      rw [ho] at hm
      simp only at hm
      have hrz : rzOf ops (l, k) = inner.rz? := by simp [rzOf, ho]
      cases hmg : mergeable last inner with
      | some ij =>
        obtain ⟨i, j⟩ := ij
        rw [hmg] at hm
        simp only at hm
        obtain ⟨q, hl, hin⟩ := mergeable_some hmg
        cases hr : mergeItems noop rest last (ops.set noop .idle) (h.add i j) with
        | error e => rw [hr] at hm; cases hm
        | ok r =>
          obtain ⟨r1, r2, r3⟩ := r
          rw [hr] at hm
          simp only [Except.ok.injEq, Prod.mk.injEq] at hm
          obtain ⟨rfl, rfl, rfl⟩ := hm
          have hids : itemIds ops ((l, k) :: rest) = j :: itemIds ops rest := by
            simp [itemIds, hrz, hin]
          have hgrow : itemIds (ops.set noop .idle) rest = itemIds ops rest :=
            itemIds_congr (rzOf_set_idle hn) rest
          rw [hids, hl] at hd
          simp only [Option.map_some, Option.toList_some, List.cons_append, List.nil_append,
            List.nodup_cons, List.mem_cons, not_or, List.mem_append] at hd
          obtain ⟨⟨hij, hi1, hi2⟩, ⟨hj1, hj2⟩, hnd⟩ := hd
          have hnset : ∀ o, (ops.set noop .idle).get? noop = some o → o = .idle := by
            intro o hx
            rw [get_set, if_pos rfl] at hx
            exact (Option.some.inj hx).symm
          obtain ⟨e1, e2, e3, e4, e5, e6⟩ := ih last (ops.set noop .idle) (h.add i j) r1 r2 r3 hnset
            (by
              rw [hl, hgrow, usesNested_set_idle ops hn]
              simp only [Option.map_some, Option.toList_some, List.cons_append, List.nil_append,
                List.nodup_cons, List.mem_append, not_or]
              exact ⟨⟨hi1, hi2⟩, hnd⟩) hr
          have hnoop : semAt env r3 r2 noop = Sem.skip := by
            unfold semAt
            cases hx : r2.get? noop with
            | none => rfl
            | some o => rw [e4 o hx]; simp [run]
          have hrest : runItems (runOps env (h.add i j) (ops.set noop .idle)) rest =
              runItems (runOps env h ops) rest := by
            apply runItems_semAt
            intro it hit
            rw [semAt_set_idle hn]
            apply semAt_congr
            · intro x hx
              unfold Heap.add
              rw [if_neg (fun (e : x = i) => hi2 (e ▸ hx))]
            · intro x y hx
              unfold Heap.add
              rw [if_neg]
              intro e
              subst e
              exact hi1 (List.mem_filterMap.mpr ⟨it, hit, by rw [hx]; rfl⟩)
          refine ⟨?_, ?_, ?_, e4, ?_, ?_⟩
          · rw [runItems_cons, hnoop, seq_skip_left, e1, hl, hrest, runItems_cons, ← seq_assoc]
            congr 1
            simp only [rotOf]
            have : semAt env h ops (l, k).2 = Sem.rotate q (h j) := by
              unfold semAt
              rw [ho, run_of_rz hin]
              simp [run]
            rw [this, rotate_rotate]
            simp [Heap.add]
          · intro x hx
            rw [hids, hl] at hx
            simp only [Option.map_some, Option.toList_some, List.cons_append, List.nil_append,
              List.mem_cons, not_or] at hx
            rw [e2 x (by
              rw [hgrow, hl]
              simp only [Option.map_some, Option.toList_some, List.cons_append, List.nil_append,
                List.mem_cons, not_or]
              exact ⟨hx.1, hx.2.2⟩)]
            unfold Heap.add
            rw [if_neg hx.1]
          · intro k' hk'
            rw [e3 k' hk', get_set, if_neg hk']
          · rw [hids]
            have hx : itemIds r2 ((l, noop) :: r1) = itemIds r2 r1 := by
              unfold itemIds
              rw [List.filterMap_cons]
              have hz : rzOf r2 (l, noop) = none := by
                unfold rzOf
                cases hg : r2.get? noop with
                | none => rfl
                | some o => rw [e4 o hg]; rfl
              rw [hz]
              rfl
            rw [hx]
            rw [hgrow] at e5
            exact e5.trans (List.sublist_cons_self _ _)
          · rw [e6, usesNested_set_idle ops hn]
      | none =>
        rw [hmg] at hm
        simp only at hm
        cases hr : mergeItems noop rest (some inner) ops h with
        | error e => rw [hr] at hm; cases hm
        | ok r =>
          obtain ⟨r1, r2, r3⟩ := r
          rw [hr] at hm
          simp only [Except.ok.injEq, Prod.mk.injEq] at hm
          obtain ⟨rfl, rfl, rfl⟩ := hm
          have hids : itemIds ops ((l, k) :: rest) = (inner.rz?.map Prod.fst).toList ++ itemIds ops rest := by
            unfold itemIds
            rw [List.filterMap_cons, hrz]
            cases inner.rz? <;> rfl
          rw [hids] at hd
          have hd' := hd
          rw [List.append_assoc, List.nodup_append] at hd'
          obtain ⟨hd1, hd2, hd3⟩ := hd'
          obtain ⟨e1, e2, e3, e4, e5, e6⟩ := ih (some inner) ops h r1 r2 r3 hn
            (by simpa using hd2) hr
          simp only [Option.bind_some] at e1 e2
          have hlast : ∀ i q, last.bind Op.rz? = some (i, q) → r3 i = h i := by
            intro i q hl
            apply e2
            intro hx
            exact hd3 i (by simp [hl]) i (List.mem_append_left _ hx) rfl
          have hrot : (rotOf r3 (last.bind Op.rz?) : Sem D) = rotOf h (last.bind Op.rz?) := by
            cases hl : last.bind Op.rz? with
            | none => rfl
            | some iq => obtain ⟨i, q⟩ := iq; simp only [rotOf]; rw [hlast i q hl]
          -- unchanged heap on nested operations
          have hnest : ∀ i ∈ usesNested ops, r3 i = h i := by
            intro i hi
            apply e2
            intro hx
            rw [List.nodup_append] at hd2
            exact hd2.2.2 i hx i hi rfl
          have hget : r2.get? k = ops.get? k := by
            by_cases hk : k = noop
            · subst hk
              have hinner := hn inner ho
              -- the entry stays
              have : ∃ o, r2.get? k = some o := by
                clear ih e1 e2 e3 e5 e6 hlast hrot hnest hd hd1 hd2 hd3 hids
                have key : ∀ (rest : List (String × K)) (last : Option (Op K D)) (ops : Ops K D) (h : Heap)
                    (x : List (String × K)) (y : Ops K D) (z : Heap), ops.get? k ≠ none →
                    mergeItems k rest last ops h = .ok (x, y, z) → y.get? k ≠ none := by
                  intro rest
                  induction rest with
                  | nil =>
                    intro last ops h x y z hne hm
                    simp only [mergeItems, Except.ok.injEq, Prod.mk.injEq] at hm
                    obtain ⟨_, rfl, _⟩ := hm
                    exact hne
                  | cons a rest ih =>
                    intro last ops h x y z hne hm
                    obtain ⟨la, ka⟩ := a
                    rw [mergeItems] at hm
                    split at hm
                    · cases hm
                    · split at hm
                      · split at hm
                        · cases hm
                        · rename_i r hr
                          simp only [Except.ok.injEq, Prod.mk.injEq] at hm
                          obtain ⟨_, hm⟩ := hm
                          obtain ⟨ra, rb, rc⟩ := r
                          simp only at hm
                          have := ih _ _ _ _ _ _ (by rw [get_set, if_pos rfl]; simp) hr
                          have hy : rb = y := (Prod.mk.inj hm).1
                          rw [← hy]; exact this
                      · split at hm
                        · cases hm
                        · rename_i r hr
                          simp only [Except.ok.injEq, Prod.mk.injEq] at hm
                          obtain ⟨_, hm⟩ := hm
                          obtain ⟨ra, rb, rc⟩ := r
                          simp only at hm
                          have := ih _ _ _ _ _ _ hne hr
                          have hy : rb = y := (Prod.mk.inj hm).1
                          rw [← hy]; exact this
                have := key rest (some inner) ops h r1 r2 r3 (by rw [ho]; simp) hr
                exact Option.ne_none_iff_exists'.mp this
              obtain ⟨o, hx⟩ := this
              rw [hx, e4 o hx, ho, hinner]
            · exact e3 k hk
          have hsem : semAt env r3 r2 k = semAt env r3 ops k := by
            unfold semAt; rw [hget]
          refine ⟨?_, ?_, e3, e4, ?_, e6⟩
          · rw [runItems_cons, runItems_cons, hrot, hsem]
            congr 1
            cases hz : inner.rz? with
            | none =>
              rw [hz] at e1
              simp only [rotOf, seq_skip_left] at e1
              rw [e1]
              congr 1
              exact semAt_congr (it := (l, k)) hnest (by intro i q hx; rw [hrz, hz] at hx; cases hx)
            | some jq =>
              obtain ⟨j, q⟩ := jq
              rw [hz] at e1
              simp only [rotOf] at e1
              have hs : ∀ g : Heap, semAt env g ops k = Sem.rotate q (g j) := by
                intro g
                unfold semAt
                rw [ho, run_of_rz hz]
                simp [run]
              simp only
              rw [hs, hs, e1]
          · intro x hx
            apply e2
            intro hx2
            apply hx
            rw [hids]
            exact List.mem_append_right _ hx2
          · rw [hids]
            have hz : rzOf r2 (l, k) = inner.rz? := by
              unfold rzOf; simp only; rw [hget, ho]; rfl
            have hx : itemIds r2 ((l, k) :: r1) = (inner.rz?.map Prod.fst).toList ++ itemIds r2 r1 := by
              unfold itemIds
              rw [List.filterMap_cons, hz]
              cases inner.rz? <;> rfl
            rw [hx]
            exact (List.Sublist.refl _).append e5

end Verif.MergeRz
