/-
Order in time, and latch resets.
-/
import Verif.Conditional.MapLemmas
import Mathlib.Tactic.Ring
import Mathlib.Data.List.Perm.Basic
import Mathlib.Data.List.Perm.Lattice

set_option linter.unusedSimpArgs false
set_option linter.unusedVariables false

namespace Verif.Conditional

open Verif.StableSort (sortBy)

/-! ### Events are what happens -/

/-- The same thing. -/
def Event.toH : Event → Happening
  | .acq infos => .acq infos
  | .cond c => .cond c
  | .latch pc => .latch pc

theorem iterations_eq (f : Rat → List (Rat × Event)) (off dur : Rat) : ∀ (n i : Nat),
    iterations f off dur i n = (List.range' i n).flatMap (fun j : Nat => f (off + (j : Rat) * dur))
  | 0, i => rfl
  | n + 1, i => by
    rw [iterations, List.range'_succ, List.flatMap_cons, iterations_eq f off dur n (i + 1)]

mutual
theorem events_happen : ∀ (op : Op) (t : Rat),
    (events op t).map (fun e => (e.1, e.2.toH)) = happens op t
  | .plain infos, t => by
    simp only [events, happens, sends_eq]
    split <;> rfl
  | .latch pc, t => rfl
  | .cond c body, t => rfl
  | .loop n d body, t => by
    simp only [events, happens]
    rw [iterations_eq, List.map_flatMap, List.range_eq_range']
    apply List.flatMap_congr
    intro i hi
    exact events_happen body _
  | .sched items, t => itemEvents_happen items t
theorem itemEvents_happen : ∀ (items : Items) (t : Rat),
    (itemEvents items t).map (fun e => (e.1, e.2.toH)) = itemsHappen items t
  | .nil, t => rfl
  | .cons a op rest, t => by
    simp only [itemEvents, itemsHappen, List.map_append]
    rw [events_happen op, itemEvents_happen rest]
end

/-! ### Blank -/

/-- Without what the compiler fills in. -/
def Happening.blank : Happening → Happening
  | .acq infos => .acq (infos.map AcqInfo.blank)
  | .cond c => .cond c.blank
  | .latch pc => .latch pc

theorem sends_blank (infos : List AcqInfo) : sends (infos.map AcqInfo.blank) = sends infos := by
  rw [sends_eq, sends_eq]
  apply isConditional_blank
  rw [List.map_map]
  rfl

theorem sends_map_blank (infos : List AcqInfo) :
    sends (infos.map AcqInfo.blank) = sends infos := sends_blank infos

mutual
theorem happens_blank : ∀ (op : Op) (t : Rat),
    happens op.blank t = (happens op t).map (fun e => (e.1, e.2.blank))
  | .plain infos, t => by
    simp only [Op.blank, happens, sends_blank]
    split <;> rfl
  | .latch pc, t => rfl
  | .cond c body, t => rfl
  | .loop n d body, t => by
    simp only [Op.blank, happens]
    rw [List.map_flatMap]
    apply List.flatMap_congr
    intro i hi
    exact happens_blank body _
  | .sched items, t => itemsHappen_blank items t
theorem itemsHappen_blank : ∀ (items : Items) (t : Rat),
    itemsHappen items.blank t = (itemsHappen items t).map (fun e => (e.1, e.2.blank))
  | .nil, t => rfl
  | .cons a op rest, t => by
    simp only [Items.blank, itemsHappen, List.map_append]
    rw [happens_blank op, itemsHappen_blank rest]
end

theorem writes_blank (infos : List AcqInfo) : writes (infos.map AcqInfo.blank) = writes infos := by
  cases infos <;> rfl

theorem tags_blank (h : Happening) : h.blank.tags = h.tags := by
  cases h with
  | acq infos => simp only [Happening.blank, Happening.tags, writes_blank]
  | cond c => rfl
  | latch pc => rfl

mutual
theorem Regular_blank : ∀ (op : Op) (t : Rat), Regular op.blank t ↔ Regular op t
  | .plain infos, t => by
    simp only [Op.blank, Regular]
    constructor
    · intro h q hq hp
      exact h q.blank (List.mem_map_of_mem hq) hp
    · intro h q hq hp
      obtain ⟨q', hq', rfl⟩ := List.mem_map.mp hq
      exact h q' hq' hp
  | .latch pc, t => Iff.rfl
  | .cond c body, t => Iff.rfl
  | .loop n d body, t => by
    simp only [Op.blank, Regular]
    rw [Regular_blank body t]
    cases body <;> simp [Op.blank]
  | .sched items, t => by
    simp only [Op.blank, Regular]
    exact RegularItems_blank items
theorem RegularItems_blank : ∀ (items : Items), RegularItems items.blank ↔ RegularItems items
  | .nil => Iff.rfl
  | .cons a op rest => by
    simp only [Items.blank, RegularItems]
    rw [Regular_blank op a, RegularItems_blank rest]
end

theorem wantedOne_blank (op : Op) (t : Rat) (q : AcqInfo) :
    wantedOne op t q.blank = wantedOne op t q := rfl

theorem wanted_blank (op : Op) (e : Rat × Happening) :
    wanted op (e.1, e.2.blank) = wanted op e := by
  obtain ⟨t, h⟩ := e
  cases h with
  | acq infos =>
    simp only [wanted, Happening.blank]
    rw [List.flatMap_map]
    rfl
  | cond c => rfl
  | latch pc => rfl

/-! ### The check -/

/-- The check on tags. -/
def checkTags : List Label → List Tag → Except Err Unit
  | _, [] => .ok ()
  | active, .cond c :: rest =>
    if c ∉ active then .error .condWithoutAcq
    else checkTags (active.filter (fun l => decide (l ≠ c))) rest
  | active, .acq ls :: rest =>
    if active ≠ [] then .error .acqWhilePending else checkTags ls rest

theorem writes_eq (infos : List AcqInfo) : writes infos = acqLabels infos := by
  cases infos with
  | nil => rfl
  | cons q qs =>
    simp only [writes, acqLabels, List.head?_cons]
    cases hp : q.proto <;> simp
    congr 1
    apply List.filter_congr
    intro l hl
    cases l <;> rfl

theorem tags_acq (infos : List AcqInfo) : (Event.acq infos).toH.tags =
    if acqLabels infos = [] then [] else [.acq (acqLabels infos)] := by
  simp only [Event.toH, Happening.tags, writes_eq]

theorem check_tags : ∀ (evs : List Event) (active : List Label),
    check active evs = checkTags active (evs.flatMap (fun e => e.toH.tags))
  | [], active => rfl
  | .cond c :: evs, active => by
    rw [List.flatMap_cons]
    have e : (Event.cond c).toH.tags = [.cond c.label] := rfl
    rw [e, List.cons_append, List.nil_append]
    simp only [check, checkTags]
    split
    · rfl
    · exact check_tags evs _
  | .acq infos :: evs, active => by
    rw [List.flatMap_cons, tags_acq]
    by_cases h : acqLabels infos = []
    · simp only [check, h, if_true, List.nil_append]
      exact check_tags evs active
    · simp only [check, h, if_false, List.cons_append, List.nil_append, checkTags]
      split
      · rfl
      · exact check_tags evs _
  | .latch pc :: evs, active => by
    rw [List.flatMap_cons]
    have e : (Event.latch pc).toH.tags = [] := rfl
    rw [e, List.nil_append]
    simp only [check]
    exact check_tags evs active

theorem checkTags_err : ∀ (tags : List Tag) (active : List Label),
    checkTags active tags ≠ .error .tooManyLabels
  | [], active => by simp [checkTags]
  | .cond c :: tags, active => by
    simp only [checkTags]
    split
    · intro h; cases h
    · exact checkTags_err tags _
  | .acq ls :: tags, active => by
    simp only [checkTags]
    split
    · intro h; cases h
    · exact checkTags_err tags _

/-- Tags with times. -/
def timedTags (e : Rat × Happening) : List (Rat × Tag) := e.2.tags.map (fun g => (e.1, g))

theorem sort_tags (l : List (Rat × Happening)) :
    ((sortBy Prod.fst l).map Prod.snd).flatMap Happening.tags =
      (sortBy Prod.fst (l.flatMap timedTags)).map Prod.snd := by
  rw [← StableSort.sortBy_flatMap Prod.fst Prod.fst timedTags l, List.map_flatMap, List.flatMap_map]
  · apply List.flatMap_congr
    intro e he
    simp [timedTags, Function.comp_def]
  · intro a ha b hb
    obtain ⟨g, _, rfl⟩ := List.mem_map.mp hb
    rfl

theorem timedTags_others (l : List (Rat × Happening)) :
    (others l).flatMap timedTags = l.flatMap timedTags := by
  induction l with
  | nil => rfl
  | cons e l ih =>
    obtain ⟨t, h⟩ := e
    unfold others at ih ⊢
    rw [List.flatMap_cons, ← ih]
    cases h with
    | acq infos =>
      simp only [List.filterMap_cons, List.flatMap_cons]
      congr 1
      have := tags_blank (.acq infos)
      simp only [Happening.blank] at this
      simp only [timedTags, this]
    | cond c =>
      simp only [List.filterMap_cons, List.flatMap_cons]
      congr 1
    | latch pc =>
      simp [timedTags, Happening.tags]

theorem others_blank (l : List (Rat × Happening)) :
    others (l.map (fun e => (e.1, e.2.blank))) = others l := by
  unfold others
  rw [List.filterMap_map]
  apply List.filterMap_congr
  intro e he
  obtain ⟨t, h⟩ := e
  cases h with
  | acq infos =>
    simp only [Function.comp, Happening.blank]
    rw [List.map_map]
    rfl
  | cond c => rfl
  | latch pc => rfl

theorem check_events (op : Op) :
    check [] ((sortBy Prod.fst (events op 0)).map Prod.snd) = checkTags [] (tagsInTime op) := by
  rw [check_tags]
  unfold tagsInTime
  congr 1
  rw [← events_happen op 0]
  rw [← StableSort.sortBy_map Prod.fst Prod.fst (fun e : Rat × Event => (e.1, e.2.toH)) _
    (fun _ _ => rfl)]
  simp [List.flatMap_map, Function.comp_def]

/-- The tags are the same if what happens is the same, apart from latch resets and what is filled
in. -/
theorem tags_congr {a b : Op} (h : others (happens a 0) = others (happens b 0)) :
    tagsInTime a = tagsInTime b := by
  unfold tagsInTime
  rw [sort_tags, sort_tags, ← timedTags_others, h, timedTags_others]

/-- A good sequence of blocks. -/
def GoodBlocks (blocks : List Block) : Prop :=
  (∀ b ∈ blocks, b.conds.Nodup ∧ ∀ c ∈ b.conds, c ∈ b.labels) ∧
    ∀ b ∈ blocks.dropLast, ∀ c ∈ b.labels, c ∈ b.conds

theorem good_cons (b : Block) (bs : List Block) : GoodBlocks (b :: bs) ↔
    b.conds.Nodup ∧ (∀ c ∈ b.conds, c ∈ b.labels) ∧ (bs ≠ [] → ∀ c ∈ b.labels, c ∈ b.conds) ∧
      GoodBlocks bs := by
  unfold GoodBlocks
  cases bs with
  | nil => simp
  | cons b' bs =>
    simp only [List.dropLast_cons_cons, List.mem_cons, forall_eq_or_imp, ne_eq, reduceCtorEq,
      not_false_eq_true, forall_const]
    tauto

theorem checkTags_iff : ∀ (tags : List Tag) (active : List Label),
    checkTags active tags = .ok () ↔ ∃ (conds : List Label) (blocks : List Block),
      tags = conds.map .cond ++ blocks.flatMap Block.tags ∧ conds.Nodup ∧ (∀ c ∈ conds, c ∈ active) ∧
      (blocks ≠ [] → ∀ c ∈ active, c ∈ conds) ∧ GoodBlocks blocks
  | [], active => by
    simp only [checkTags, true_iff]
    exact ⟨[], [], rfl, List.nodup_nil, by simp, by simp, by simp [GoodBlocks]⟩
  | .cond c :: tags, active => by
    simp only [checkTags]
    by_cases hc : c ∈ active
    · simp only [hc, not_true, if_false]
      rw [checkTags_iff tags]
      constructor
      · rintro ⟨conds, blocks, h1, h2, h3, h4, h5⟩
        refine ⟨c :: conds, blocks, by rw [h1]; rfl, ?_, ?_, ?_, h5⟩
        · rw [List.nodup_cons]
          refine ⟨?_, h2⟩
          intro hcc
          have := h3 c hcc
          simp at this
        · intro x hx
          rcases List.mem_cons.mp hx with rfl | hx
          · exact hc
          · exact (List.mem_filter.mp (h3 x hx)).1
        · intro hb x hx
          by_cases hxc : x = c
          · rw [hxc]; exact List.mem_cons_self
          · exact List.mem_cons_of_mem _ (h4 hb x (List.mem_filter.mpr ⟨hx, by simpa using hxc⟩))
      · rintro ⟨conds, blocks, h1, h2, h3, h4, h5⟩
        cases conds with
        | nil =>
          cases blocks with
          | nil => simp at h1
          | cons b bs => simp [Block.tags] at h1
        | cons c' conds =>
          simp only [List.map_cons, List.cons_append, List.cons.injEq, Tag.cond.injEq] at h1
          obtain ⟨rfl, h1⟩ := h1
          rw [List.nodup_cons] at h2
          refine ⟨conds, blocks, h1, h2.2, ?_, ?_, h5⟩
          · intro x hx
            refine List.mem_filter.mpr ⟨h3 x (List.mem_cons_of_mem _ hx), ?_⟩
            have : x ≠ c := by rintro rfl; exact h2.1 hx
            simpa using this
          · intro hb x hx
            obtain ⟨hx1, hx2⟩ := List.mem_filter.mp hx
            have hx2 : x ≠ c := by simpa using hx2
            rcases List.mem_cons.mp (h4 hb x hx1) with h | h
            · exact absurd h hx2
            · exact h
    · simp only [hc, not_false_eq_true, if_true, reduceCtorEq, false_iff]
      rintro ⟨conds, blocks, h1, h2, h3, h4, h5⟩
      cases conds with
      | nil =>
        cases blocks with
        | nil => simp at h1
        | cons b bs => simp [Block.tags] at h1
      | cons c' conds =>
        simp only [List.map_cons, List.cons_append, List.cons.injEq, Tag.cond.injEq] at h1
        obtain ⟨rfl, h1⟩ := h1
        exact hc (h3 _ List.mem_cons_self)
  | .acq ls :: tags, active => by
    simp only [checkTags]
    by_cases ha : active = []
    · subst ha
      simp only [ne_eq, not_true, if_false]
      rw [checkTags_iff tags]
      constructor
      · rintro ⟨conds, blocks, h1, h2, h3, h4, h5⟩
        refine ⟨[], ⟨ls, conds⟩ :: blocks, ?_, List.nodup_nil, by simp, by simp, ?_⟩
        · rw [h1]; simp [Block.tags]
        · rw [good_cons]; exact ⟨h2, h3, h4, h5⟩
      · rintro ⟨conds, blocks, h1, h2, h3, h4, h5⟩
        cases conds with
        | cons c conds => simp at h1
        | nil =>
          cases blocks with
          | nil => simp at h1
          | cons b bs =>
            rw [good_cons] at h5
            simp only [List.map_nil, List.nil_append, List.flatMap_cons, Block.tags,
              List.cons_append, List.cons.injEq, Tag.acq.injEq] at h1
            obtain ⟨rfl, h1⟩ := h1
            exact ⟨b.conds, bs, h1, h5.1, h5.2.1, h5.2.2.1, h5.2.2.2⟩
    · simp only [ne_eq, ha, not_false_eq_true, if_true, reduceCtorEq, false_iff]
      rintro ⟨conds, blocks, h1, h2, h3, h4, h5⟩
      cases conds with
      | cons c conds => simp at h1
      | nil =>
        cases blocks with
        | nil => simp at h1
        | cons b bs =>
          obtain ⟨x, hx⟩ := List.exists_mem_of_ne_nil _ ha
          have := h4 (by simp) x hx
          simp at this

theorem checkTags_alternates (tags : List Tag) :
    checkTags [] tags = .ok () ↔ Alternates tags := by
  rw [checkTags_iff]
  constructor
  · rintro ⟨conds, blocks, h1, h2, h3, h4, h5⟩
    have : conds = [] := by
      cases conds with
      | nil => rfl
      | cons c cs => have := h3 c List.mem_cons_self; simp at this
    subst this
    exact ⟨blocks, by simpa using h1, h5.1, h5.2⟩
  · rintro ⟨blocks, h1, h2, h3⟩
    exact ⟨[], blocks, by simpa using h1, List.nodup_nil, by simp, by simp, h2, h3⟩

/-! ### Inserting latch resets -/

theorem itemActs_latchItems : ∀ (l : List (Rat × PC)), itemActs (latchItems l) = []
  | [] => rfl
  | (t, pc) :: l => by
    simp only [latchItems, itemActs, acts, List.nil_append]
    exact itemActs_latchItems l

theorem itemActs_addLatches : ∀ (items : Items) (l : List (Rat × PC)),
    itemActs (items.addLatches l) = itemActs items
  | .nil, l => itemActs_latchItems l
  | .cons a op rest, l => by
    simp only [Items.addLatches, itemActs, itemActs_addLatches rest l]

mutual
theorem acts_insert (s : St) : ∀ (op : Op) (abs : Rat), acts (insertLatch s op abs).1 = acts op
  | .plain infos, abs => rfl
  | .latch pc, abs => rfl
  | .cond c body, abs => rfl
  | .loop n d body, abs => acts_insert s body abs
  | .sched items, abs => by
    simp only [insertLatch, acts]
    rw [itemActs_addLatches, itemActs_insert s items]
theorem itemActs_insert (s : St) : ∀ (items : Items),
    itemActs (insertLatchItems s items).1 = itemActs items
  | .nil => rfl
  | .cons a op rest => by
    simp only [insertLatchItems, itemActs]
    rw [acts_insert s op a, itemActs_insert s rest]
end

theorem itemsHappen_latchItems : ∀ (l : List (Rat × PC)) (t : Rat),
    itemsHappen (latchItems l) t = l.map (fun e => (t + e.1, .latch e.2))
  | [], t => rfl
  | (a, pc) :: l, t => by
    simp only [latchItems, itemsHappen, happens, List.map_cons]
    rw [itemsHappen_latchItems l t]
    rfl

theorem itemsHappen_addLatches : ∀ (items : Items) (l : List (Rat × PC)) (t : Rat),
    itemsHappen (items.addLatches l) t =
      itemsHappen items t ++ l.map (fun e => (t + e.1, .latch e.2))
  | .nil, l, t => by
    simp only [Items.addLatches, itemsHappen, List.nil_append]
    exact itemsHappen_latchItems l t
  | .cons a op rest, l, t => by
    simp only [Items.addLatches, itemsHappen]
    rw [itemsHappen_addLatches rest l t, List.append_assoc]

theorem others_append (a b : List (Rat × Happening)) : others (a ++ b) = others a ++ others b :=
  List.filterMap_append ..

theorem latches_append (a b : List (Rat × Happening)) :
    latches (a ++ b) = latches a ++ latches b := List.filterMap_append ..

theorem others_latches (l : List (Rat × PC)) (t : Rat) :
    others (l.map (fun e => (t + e.1, Happening.latch e.2))) = [] := by
  induction l with
  | nil => rfl
  | cons e l ih => exact ih

theorem latches_latches (l : List (Rat × PC)) (t : Rat) :
    latches (l.map (fun e => (t + e.1, Happening.latch e.2))) = l.map (fun e => (t + e.1, e.2)) := by
  induction l with
  | nil => rfl
  | cons e l ih =>
    rw [List.map_cons, List.map_cons, ← ih]
    rfl

theorem others_flatMap {α : Type} (l : List α) (f : α → List (Rat × Happening)) :
    others (l.flatMap f) = l.flatMap (fun a => others (f a)) := by
  induction l with
  | nil => rfl
  | cons a l ih => rw [List.flatMap_cons, List.flatMap_cons, others_append, ih]

theorem latches_flatMap {α : Type} (l : List α) (f : α → List (Rat × Happening)) :
    latches (l.flatMap f) = l.flatMap (fun a => latches (f a)) := by
  induction l with
  | nil => rfl
  | cons a l ih => rw [List.flatMap_cons, List.flatMap_cons, latches_append, ih]

mutual
theorem others_insert (s : St) : ∀ (op : Op) (abs t : Rat),
    others (happens (insertLatch s op abs).1 t) = others (happens op t)
  | .plain infos, abs, t => rfl
  | .latch pc, abs, t => rfl
  | .cond c body, abs, t => rfl
  | .loop n d body, abs, t => by
    simp only [insertLatch, happens]
    rw [others_flatMap, others_flatMap]
    apply List.flatMap_congr
    intro i hi
    exact others_insert s body abs _
  | .sched items, abs, t => by
    simp only [insertLatch, happens]
    rw [itemsHappen_addLatches, others_append, others_latches, List.append_nil,
      othersItems_insert s items t]
theorem othersItems_insert (s : St) : ∀ (items : Items) (t : Rat),
    others (itemsHappen (insertLatchItems s items).1 t) = others (itemsHappen items t)
  | .nil, t => rfl
  | .cons a op rest, t => by
    simp only [insertLatchItems, itemsHappen]
    rw [others_append, others_append, others_insert s op a, othersItems_insert s rest]
end

theorem pyRound_int (n : Int) : Numeric.pyRound (n : Rat) = n := by
  unfold Numeric.pyRound
  simp

/-- The resets for one entry are those wanted. -/
theorem resetsOf_perm (root : Op) (s : St) (hs : ∀ l, (s.pcs l).Perm (readers root l))
    (abs T : Rat) (q : AcqInfo) (hq : q.proto = .dual → ∃ n : Int, abs + q.t0 = n) :
    ((resetsOf s abs q).map (fun e => (T + e.1, e.2))).Perm (wantedOne root (T + abs) q) := by
  unfold resetsOf wantedOne
  cases hp : q.proto with
  | thresholded =>
    cases hl : q.label with
    | none => simp
    | some l =>
      simp only [reduceCtorEq, if_false, List.map_map]
      have e : ((fun e : Rat × PC => (T + e.1, e.2)) ∘ fun pc => (abs + q.t0 + 4, pc)) =
          fun pc => (T + abs + q.t0 + 4, pc) := by
        funext pc; simp only [Function.comp]; congr 1; ring
      rw [e]
      exact (hs _).map _
  | trigCount a b =>
    cases hl : q.label with
    | none => simp
    | some l =>
      simp only [reduceCtorEq, if_false, List.map_map]
      have e : ((fun e : Rat × PC => (T + e.1, e.2)) ∘ fun pc => (abs + q.t0 + 4, pc)) =
          fun pc => (T + abs + q.t0 + 4, pc) := by
        funext pc; simp only [Function.comp]; congr 1; ring
      rw [e]
      exact (hs _).map _
  | dual =>
    obtain ⟨n, hn⟩ := hq hp
    simp only
    have hr : ((Numeric.pyRound (abs + q.t0 + 4) : Int) : Rat) = abs + q.t0 + 4 := by
      rw [hn]
      have : (n : Rat) + 4 = ((n + 4 : Int) : Rat) := by push_cast; ring
      rw [this, pyRound_int]
    rw [hr]
    have inj : Function.Injective (fun pc : PC => (abs + q.t0 + 4, pc)) := by
      intro a b h; injection h
    have h1 : ((q.labels.filter Option.isSome).flatMap fun l =>
        (s.pcs l).map fun pc => (abs + q.t0 + 4, pc)) =
        ((q.labels.filter Option.isSome).flatMap (fun l => s.pcs l)).map
          (fun pc => (abs + q.t0 + 4, pc)) := by
      rw [List.map_flatMap]
    rw [h1, List.dedup_map_of_injective inj, List.map_map]
    have e : ((fun e : Rat × PC => (T + e.1, e.2)) ∘ fun pc => (abs + q.t0 + 4, pc)) =
        fun pc => (T + abs + q.t0 + 4, pc) := by
      funext pc; simp only [Function.comp]; congr 1; ring
    rw [e]
    apply List.Perm.map
    apply List.Perm.dedup
    exact List.Perm.flatMap_left _ (fun l _ => hs l)
  | weightedThresholded => simp
  | other => simp

/-- A schedule adds nothing to the schedule it is in. -/
theorem insert_sched (s : St) (items : Items) (abs : Rat) :
    (insertLatch s (.sched items) abs).2 = [] := rfl

theorem flatMap_perm_map {α β γ : Type} (l : List α) (f : α → List β) (g : β → γ)
    (h : α → List γ) (hp : ∀ a ∈ l, ((f a).map g).Perm (h a)) :
    ((l.flatMap f).map g).Perm (l.flatMap h) := by
  rw [List.map_flatMap]
  exact List.Perm.flatMap_left _ hp

mutual
theorem latches_insert (root : Op) (s : St) (hs : ∀ l, (s.pcs l).Perm (readers root l)) :
    ∀ (op : Op) (abs T : Rat), Regular op abs →
    (latches (happens (insertLatch s op abs).1 (T + abs)) ++
      (insertLatch s op abs).2.map (fun e => (T + e.1, e.2))).Perm
      ((happens op (T + abs)).flatMap (wanted root))
  | .plain infos, abs, T, hr => by
    simp only [insertLatch, happens, sends_eq]
    by_cases hc : isConditional infos = true
    · simp only [hc, if_true]
      have e1 : latches [(T + abs, Happening.acq infos)] = [] := rfl
      rw [e1, List.nil_append]
      have e2 : [(T + abs, Happening.acq infos)].flatMap (wanted root) =
          infos.flatMap (wantedOne root (T + abs)) := by simp [wanted]
      rw [e2]
      apply flatMap_perm_map
      intro q hq
      exact resetsOf_perm root s hs abs T q (fun hp => hr q hq hp)
    · simp only [hc, Bool.false_eq_true, if_false]
      exact List.Perm.refl _
  | .latch pc, abs, T, _ => by
    simp only [insertLatch, happens]
    exact List.Perm.refl _
  | .cond c body, abs, T, _ => by
    simp only [insertLatch, happens]
    exact List.Perm.refl _
  | .loop n d body, abs, T, hr => by
    obtain ⟨⟨items, rfl⟩, hr'⟩ := hr
    simp only [insertLatch, List.map_nil, List.append_nil]
    simp only [happens]
    rw [latches_flatMap, List.flatMap_assoc]
    apply List.Perm.flatMap_left
    intro i hi
    rw [itemsHappen_addLatches, latches_append, latches_latches]
    have := latchesItems_insert root s hs items (T + abs + i * d) hr'
    exact this
  | .sched items, abs, T, hr => by
    simp only [insertLatch, happens, List.map_nil, List.append_nil]
    rw [itemsHappen_addLatches, latches_append, latches_latches]
    exact latchesItems_insert root s hs items (T + abs) hr
theorem latchesItems_insert (root : Op) (s : St) (hs : ∀ l, (s.pcs l).Perm (readers root l)) :
    ∀ (items : Items) (T : Rat), RegularItems items →
    (latches (itemsHappen (insertLatchItems s items).1 T) ++
      (insertLatchItems s items).2.map (fun e => (T + e.1, e.2))).Perm
      ((itemsHappen items T).flatMap (wanted root))
  | .nil, T, _ => List.Perm.refl _
  | .cons a op rest, T, hr => by
    simp only [insertLatchItems, itemsHappen]
    rw [latches_append, List.map_append, List.flatMap_append]
    have h1 := latches_insert root s hs op a T hr.1
    have h2 := latchesItems_insert root s hs rest T hr.2
    refine List.Perm.trans ?_ (h1.append h2)
    have sw : ∀ (a b c d : List (Rat × PC)), ((a ++ b) ++ (c ++ d)).Perm ((a ++ c) ++ (b ++ d)) := by
      intro a b c d
      rw [List.append_assoc, List.append_assoc]
      apply List.Perm.append_left
      rw [← List.append_assoc, ← List.append_assoc]
      exact List.Perm.append_right _ List.perm_append_comm
    exact sw _ _ _ _
end

end Verif.Conditional
