/-
C80: the theorems about the mock readout module.
-/
import Verif.MockRom.Results

set_option linter.unusedSimpArgs false
set_option linter.unusedVariables false
set_option linter.unusedSectionVars false

namespace Verif.MockRom

open Verif.AcqIndices (Info Coord Coords Data Idx BinMode)

variable {Ch U K : Type} [DecidableEq Ch]

/-! ### What is refused -/

/-- Every schedulable in a schedule that compiles plays a pulse, or is a trace or an averaged integration. -/
theorem only_supported [DecidableEq K] [One K] {cfg : Config K} {items : List (Item Ch U K)} {s : Settings Ch U K}
    (h : compile cfg items = .ok s) :
    ∀ i ∈ items, (∃ hash p, Plays i hash p) ∨ (∃ b, Traces i b) ∨ ∃ a, Measures i a := by
  obtain ⟨st, cs, -, -, h3, -⟩ := compile_ok h
  revert h3
  generalize (⟨[], [], 0, [], [], none⟩ : CS Ch K) = s0
  intro h3
  intro i hi
  clear h
  induction items generalizing s0 with
  | nil => simp at hi
  | cons x xs ih =>
    obtain ⟨s1, q1, q2⟩ := (FoldM.ok_cons ..).mp h3
    rcases List.mem_cons.mp hi with rfl | hi
    · rcases step_cases q1 with ⟨hash, p, hp, _⟩ | ⟨b, _, _, hb, _⟩ | ⟨a, _, _, ha, _⟩
      · exact Or.inl ⟨hash, p, hp⟩
      · exact Or.inr (Or.inl ⟨b, hb⟩)
      · exact Or.inr (Or.inr ⟨a, ha⟩)
    · exact ih s1 q2 hi

/-! ### Names -/

theorem names_toItems : ∀ items : List (Item Ch U K),
    AcqIndices.names (toItems items) = items.map Item.name
  | [] => rfl
  | i :: is => by simp [toItems, AcqIndices.names, names_toItems is]

theorem uniqueItems : ∀ items : List (Item Ch U K), (∀ i ∈ items, ∃ o, i.op = .plain o) →
    AcqIndices.UniqueNamesItems (toItems items)
  | [], _ => trivial
  | i :: is, h => by
    obtain ⟨o, ho⟩ := h i (List.mem_cons_self ..)
    refine ⟨?_, uniqueItems is (fun j hj => h j (List.mem_cons_of_mem _ hj))⟩
    rw [ho]; trivial

theorem plain_of_supported {i : Item Ch U K}
    (h : (∃ hash p, Plays i hash p) ∨ (∃ b, Traces i b) ∨ ∃ a, Measures i a) : ∃ o, i.op = .plain o := by
  rcases h with ⟨_, _, o, _, h, _⟩ | ⟨_, o, _, h, _⟩ | ⟨_, o, _, _, h, _⟩ <;> exact ⟨o, h⟩

theorem unique_of_compiled [DecidableEq K] [One K] {cfg : Config K} {items : List (Item Ch U K)}
    {s : Settings Ch U K} (h : compile cfg items = .ok s) (hn : (items.map Item.name).Nodup) :
    AcqIndices.UniqueNames (.sched (toItems items)) := by
  refine ⟨by rw [names_toItems]; exact hn, uniqueItems items (fun i hi => ?_)⟩
  exact plain_of_supported (only_supported h i hi)

theorem mem_itemAcqs {e : Rat × List (AcqIndices.Acq Ch U)} : ∀ items : List (Item Ch U K),
    e ∈ AcqIndices.itemAcqs (toItems items) [] [] ↔
      ∃ i ∈ items, e = (i.abs, AcqIndices.acqsOf (toOp i.op) [some i.name] [])
  | [] => by simp [toItems, AcqIndices.itemAcqs]
  | i :: is => by
    simp only [toItems, AcqIndices.itemAcqs, List.mem_cons, mem_itemAcqs is, List.nil_append]
    constructor
    · rintro (rfl | ⟨j, hj, rfl⟩)
      · exact ⟨i, Or.inl rfl, rfl⟩
      · exact ⟨j, Or.inr hj, rfl⟩
    · rintro ⟨j, rfl | hj, rfl⟩
      · exact Or.inl rfl
      · exact Or.inr ⟨j, hj, rfl⟩

theorem mem_order {items : List (Item Ch U K)} {x : AcqIndices.Acq Ch U} :
    x ∈ AcqIndices.order (.sched (toItems items)) ↔
      ∃ i ∈ items, x ∈ AcqIndices.acqsOf (toOp i.op) [some i.name] [] := by
  rw [(AcqIndices.order_perm _).mem_iff]
  simp only [AcqIndices.acqsOf, List.mem_flatMap, List.mem_mergeSort, mem_itemAcqs]
  constructor
  · rintro ⟨e, ⟨i, hi, rfl⟩, hx⟩; exact ⟨i, hi, hx⟩
  · rintro ⟨i, hi, hx⟩; exact ⟨_, ⟨i, hi, rfl⟩, hx⟩

theorem measures_mem {items : List (Item Ch U K)} {i : Item Ch U K} {a : Info Ch U} (hi : i ∈ items)
    (hm : Measures i a) :
    (⟨([some i.name], 0), [], a⟩ : AcqIndices.Acq Ch U) ∈ AcqIndices.order (.sched (toItems items)) := by
  rw [mem_order]
  refine ⟨i, hi, ?_⟩
  obtain ⟨o, b, rest, h1, h2, h3, h4, h5, h6⟩ := hm
  rw [h1]
  simp only [toOp, AcqIndices.acqsOf, h4, List.map_cons, AcqIndices.number, h5]
  exact List.mem_cons_self ..

theorem binned_of {a : Info Ch U} (hp : a.protocol = "SSBIntegrationComplex") (hm : a.mode = .average)
    (key : AcqIndices.Label × Nat) (loops : List Nat) : AcqIndices.Binned ⟨key, loops, a⟩ := by
  left
  show AcqIndices.isAverage a.protocol a.mode = true
  rw [hp, hm]; decide

theorem entries_of {a : Info Ch U} (hp : a.protocol = "SSBIntegrationComplex") (hm : a.mode = .average)
    (key : AcqIndices.Label × Nat) (loops : List Nat) :
    AcqIndices.entries ⟨key, loops, a⟩ = [⟨a.coords, none, none⟩] := by
  have : AcqIndices.isAverage a.protocol a.mode = true := by rw [hp, hm]; decide
  simp [AcqIndices.entries, this]

theorem measures_mode {i : Item Ch U K} {a : Info Ch U} (hm : Measures i a) : a.mode = .average := by
  obtain ⟨_, _, _, _, _, _, _, _, h⟩ := hm
  exact h

/-- The indices of two acquisitions of the same channel are different. -/
theorem index_unique {op : AcqIndices.Op Ch U} (hu : AcqIndices.UniqueNames op) {st : AcqIndices.St Ch U}
    (h : AcqIndices.generate op = .ok st) {x y : AcqIndices.Acq Ch U} (hx : x ∈ AcqIndices.order op)
    (hy : y ∈ AcqIndices.order op) (hb : AcqIndices.Binned x) (hc : x.info.ch = y.info.ch) {n : Nat}
    (hnx : n ∈ AcqIndices.stored st x) (hny : n ∈ AcqIndices.stored st y) : x = y := by
  obtain ⟨d, l, _, _, h3⟩ := AcqIndices.indices_exactly_once op hu h x.info.ch ⟨x, hx, rfl, hb⟩
  have hnd : (((AcqIndices.order op).filter (fun a => decide (a.info.ch = x.info.ch))).flatMap
      (AcqIndices.stored st)).Nodup := by rw [h3]; exact List.nodup_range
  have hx' : x ∈ (AcqIndices.order op).filter (fun a => decide (a.info.ch = x.info.ch)) :=
    List.mem_filter.mpr ⟨hx, by simp⟩
  have hy' : y ∈ (AcqIndices.order op).filter (fun a => decide (a.info.ch = x.info.ch)) :=
    List.mem_filter.mpr ⟨hy, by simp [hc]⟩
  obtain ⟨_, hpw⟩ := List.nodup_flatMap.mp hnd
  by_contra hne
  haveI : Std.Symm (Function.onFun List.Disjoint (AcqIndices.stored st)) :=
    ⟨fun a b hab z hz1 hz2 => hab hz2 hz1⟩
  have := hpw.forall hx' hy' hne
  exact this hnx hny

/-! ### The averaged acquisitions -/

/-- **C80, averaged acquisitions.** Whatever the component did before: after `prepare` and `start`,
`retrieve_acquisition` has, for every averaged `SSBIntegrationComplex` of the schedule, a value of its own, drawn in
this execution, at an acquisition index of its own in its channel, with its coordinates; and nothing else. -/
theorem each_measured [DecidableEq K] [One K] [Mul K] {cfg : Config K} {items : List (Item Ch U K)}
    {s : Settings Ch U K} {c : Comp Ch U K} {draws : Nat → K} {ds : DS Ch U K}
    (hp : PlainPorts cfg) (hn : (items.map Item.name).Nodup)
    (hssb : ∀ i ∈ items, ∀ a, Measures i a → a.protocol = "SSBIntegrationComplex")
    (hs : compile cfg items = .ok s) (h : measure c s draws = .ok ds) :
    ∃ (idx draw : String → Nat),
      (∀ i ∈ items, ∀ a, Measures i a →
        Dict.get? ds.bins (a.ch, idx i.name) = some (draws (draw i.name), ⟨a.coords, none, none⟩)) ∧
      (∀ i ∈ items, ∀ i' ∈ items, ∀ a a', Measures i a → Measures i' a' →
        (a.ch = a'.ch ∧ idx i.name = idx i'.name) ∨ draw i.name = draw i'.name → i.name = i'.name) ∧
      (∀ ch n, (ch, n) ∈ Dict.keys ds.bins → ∃ i ∈ items, ∃ a, Measures i a ∧ a.ch = ch ∧ idx i.name = n) := by
  obtain ⟨st, cs, hst, h2, h3, h4⟩ := compile_ok hs
  obtain ⟨ps, hps, hne, hpp⟩ := readoutPorts_plain hp
  have hci := cinv_loop hps hne items [] _ cs (cinv_init cfg ps st.map) h3
  rw [List.nil_append] at hci
  obtain ⟨j, j1, j2, j3, -, -⟩ := measured hp hst hs h
  have hu := unique_of_compiled hs hn
  -- the index of a name
  let idx : String → Nat := fun n => match Dict.get? st.map ([some n], 0) with | some (.one k) => k | _ => 0
  have hidx : ∀ i ∈ items, ∀ a, Measures i a →
      Dict.get? st.map ([some i.name], 0) = some (.one (idx i.name)) := by
    intro i hi a ha
    obtain ⟨n, hn'⟩ := hci.bone i hi a ha
    show _ = some (Idx.one (match Dict.get? st.map ([some i.name], 0) with | some (.one k) => k | _ => 0))
    rw [hn']
  have huniq : ∀ i ∈ items, ∀ i' ∈ items, ∀ a a', Measures i a → Measures i' a' →
      a.ch = a'.ch → idx i.name = idx i'.name → i.name = i'.name := by
    intro i hi i' hi' a a' ha ha' hc he
    have hx := measures_mem hi ha
    have hy := measures_mem hi' ha'
    have := index_unique hu hst hx hy (binned_of (hssb i hi a ha) (measures_mode ha) _ _) hc
      (n := idx i.name)
      (by simp [AcqIndices.stored, hidx i hi a ha, AcqIndices.Idx.toList])
      (by simp [AcqIndices.stored, hidx i' hi' a' ha', AcqIndices.Idx.toList, he])
    simp only [AcqIndices.Acq.mk.injEq, Prod.mk.injEq, List.cons.injEq, Option.some.injEq, and_true] at this
    exact this.1
  -- the draw of a name, through some item of that name
  have hitem : ∀ i ∈ items, ∀ i' ∈ items, i.name = i'.name → i = i' := by
    intro i hi i' hi' he
    exact List.inj_on_of_nodup_map hn hi hi' he
  classical
  let draw : String → Nat := fun n =>
    if hex : ∃ k, ∃ i ∈ items, ∃ a, Measures i a ∧ i.name = n ∧ k = j (a.ch, idx n) then hex.choose else 0
  have hdraw : ∀ i ∈ items, ∀ a, Measures i a → draw i.name = j (a.ch, idx i.name) := by
    intro i hi a ha
    have hex : ∃ k, ∃ i' ∈ items, ∃ a, Measures i' a ∧ i'.name = i.name ∧ k = j (a.ch, idx i.name) :=
      ⟨_, i, hi, a, ha, rfl, rfl⟩
    have e1 : draw i.name = hex.choose := dif_pos hex
    obtain ⟨i', hi', a', ha', hn', hk'⟩ := hex.choose_spec
    rw [e1, hk']
    have := hitem i' hi' i hi hn'
    subst this
    rw [measures_unique ha' ha]
  have hkey : ∀ i ∈ items, ∀ a, Measures i a → (a.ch, idx i.name) ∈ Dict.keys ds.bins := by
    intro i hi a ha
    exact (j2 a.ch (idx i.name)).mpr ⟨i, hi, a, ha, rfl, hidx i hi a ha⟩
  refine ⟨idx, draw, ?_, ?_, ?_⟩
  · intro i hi a ha
    have hk := hkey i hi a ha
    rw [← Dict.get?_isSome_iff] at hk
    obtain ⟨⟨v, co⟩, hv⟩ := Option.isSome_iff_exists.mp hk
    obtain ⟨e1, d, m, e2, e3, e4⟩ := j3 _ _ v co hv
    obtain ⟨d', l', f1, f2, f3⟩ := AcqIndices.coords_match _ hu hst (measures_mem hi ha)
      (binned_of (hssb i hi a ha) (measures_mode ha) _ _)
    simp only at f1
    rw [e2] at f1
    cases f1
    rw [e3] at f2
    cases f2
    rw [entries_of (hssb i hi a ha) (measures_mode ha)] at f3
    simp only [AcqIndices.stored, hidx i hi a ha, AcqIndices.Idx.toList, List.map_cons, List.map_nil,
      List.cons.injEq, and_true, e4, Option.some.injEq] at f3
    rw [hv, e1, hdraw i hi a ha, f3]
  · rintro i hi i' hi' a a' ha ha' (⟨hc, he⟩ | he)
    · exact huniq i hi i' hi' a a' ha ha' hc he
    · rw [hdraw i hi a ha, hdraw i' hi' a' ha'] at he
      have := j1 _ _ (hkey i hi a ha) (hkey i' hi' a' ha') he
      obtain ⟨e1, e2⟩ := Prod.mk.inj this
      exact huniq i hi i' hi' a a' ha ha' e1 e2
  · intro ch n hk
    obtain ⟨i, hi, a, ha, hc, hx⟩ := (j2 ch n).mp hk
    refine ⟨i, hi, a, ha, hc, ?_⟩
    have := hidx i hi a ha
    rw [hx] at this
    simp only [Option.some.injEq, Idx.one.injEq] at this
    exact this.symm

/-- The acquisition indices of a channel have no gaps, when all its acquisitions are the only ones of their operations
and are averaged integrations without pulses. -/
theorem no_gaps [DecidableEq K] [One K] [Mul K] {cfg : Config K} {items : List (Item Ch U K)}
    {s : Settings Ch U K} {c : Comp Ch U K} {draws : Nat → K} {ds : DS Ch U K}
    (hp : PlainPorts cfg) (hn : (items.map Item.name).Nodup) {ch : Ch}
    (hall : ∀ i ∈ items, ∀ o, i.op = .plain o → ∀ b ∈ o.acqs, b.info.ch = ch →
      Measures i b.info ∧ o.acqs = [b] ∧ b.info.protocol = "SSBIntegrationComplex")
    (hs : compile cfg items = .ok s) (h : measure c s draws = .ok ds)
    {n m : Nat} (hk : (ch, n) ∈ Dict.keys ds.bins) (hmn : m ≤ n) : (ch, m) ∈ Dict.keys ds.bins := by
  obtain ⟨st, cs, hst, h2, h3, h4⟩ := compile_ok hs
  obtain ⟨ps, hps, hne, hpp⟩ := readoutPorts_plain hp
  have hci := cinv_loop hps hne items [] _ cs (cinv_init cfg ps st.map) h3
  rw [List.nil_append] at hci
  obtain ⟨j, j1, j2, j3, -, -⟩ := measured hp hst hs h
  have hu := unique_of_compiled hs hn
  obtain ⟨i, hi, a, ha, hc, hx⟩ := (j2 ch n).mp hk
  have hpa : a.protocol = "SSBIntegrationComplex" := by
    obtain ⟨o, b, rest, q1, q2, q3, q4, q5, q6⟩ := id ha
    have := (hall i hi o q1 b (by rw [q4]; simp) (by rw [q5]; exact hc)).2.2
    rw [q5] at this
    exact this
  have hb := binned_of hpa (measures_mode ha) ([some i.name], 0) []
  obtain ⟨d, l, r1, r2, r3⟩ := AcqIndices.indices_exactly_once _ hu hst ch
    ⟨_, measures_mem hi ha, hc, hb⟩
  have hn' : n ∈ List.range l.length := by
    rw [← r3]
    refine List.mem_flatMap.mpr ⟨_, List.mem_filter.mpr ⟨measures_mem hi ha, by simp [hc]⟩, ?_⟩
    simp [AcqIndices.stored, hx, AcqIndices.Idx.toList]
  have hm' : m ∈ List.range l.length := by
    rw [List.mem_range] at hn' ⊢; omega
  rw [← r3] at hm'
  obtain ⟨x, hx1, hx2⟩ := List.mem_flatMap.mp hm'
  obtain ⟨hx3, hx4⟩ := List.mem_filter.mp hx1
  simp only [decide_eq_true_eq] at hx4
  obtain ⟨i', hi', hx5⟩ := mem_order.mp hx3
  obtain ⟨o', ho'⟩ := plain_of_supported (only_supported hs i' hi')
  rw [ho'] at hx5
  simp only [toOp, AcqIndices.acqsOf] at hx5
  have hinfo : ∃ b ∈ o'.acqs, b.info = x.info := by
    have : ∀ (infos : List (Info Ch U)) (k : Nat), x ∈ AcqIndices.number [some i'.name] [] k infos →
        x.info ∈ infos := by
      intro infos
      induction infos with
      | nil => intro k hk; simp [AcqIndices.number] at hk
      | cons f fs ih =>
        intro k hk
        simp only [AcqIndices.number, List.mem_cons] at hk
        rcases hk with rfl | hk
        · simp
        · exact List.mem_cons_of_mem _ (ih _ hk)
    have := this _ _ hx5
    obtain ⟨b, hb1, hb2⟩ := List.mem_map.mp this
    exact ⟨b, hb1, hb2⟩
  obtain ⟨b, hb1, hb2⟩ := hinfo
  obtain ⟨p1, p2, p3⟩ := hall i' hi' o' ho' b hb1 (by rw [hb2]; exact hx4)
  rw [p2] at hx5
  simp only [List.map_cons, List.map_nil, AcqIndices.number, List.mem_singleton] at hx5
  obtain ⟨k, hk'⟩ := hci.bone i' hi' _ p1
  rw [hx5] at hx2
  simp only [AcqIndices.stored, hk', AcqIndices.Idx.toList, List.mem_singleton] at hx2
  rw [hx2]
  refine (j2 ch k).mpr ⟨i', hi', b.info, p1, ?_, hk'⟩
  rw [hb2]; exact hx4

end Verif.MockRom
