/-
C31: the operation list of a sequencer is the nested structure of the schedule.
-/
import Verif.Flatten.SeqLemmas
import Verif.AcqIndices.Props
import Mathlib.Data.List.Sort

set_option linter.unusedSimpArgs false
set_option linter.unusedVariables false
set_option linter.unusedSectionVars false

namespace Verif.Flatten

open Verif.StableSort

variable {D : Type}

/-! ### Nothing lost, nothing added, in order of time -/

/-- **C31, complete**: the operations of a sequencer are, each once, those of the content of the
schedule for its port-clock, in order of time. -/
theorem ops_complete (m : Mapping) (hnd : (Dict.keys m).Nodup)
    (idx : Label × Nat → Option (List Int)) (pc : PC) (hpc : pc ∈ Dict.keys m) (root : Op D)
    (L : List (Info D)) (h : sequencerOps m idx root pc = .ok L) :
    L.Perm (content idx pc root 0 [] .nil).flatten ∧
      L.Pairwise (fun x y => ns x.timing ≤ ns y.timing) := by
  obtain ⟨hL, _, _⟩ := sequencerOps_eq m hnd idx pc hpc root L h
  rw [hL]
  refine ⟨sortBy_perm _ _, (sortBy_sorted _ _).imp ?_⟩
  intro x y hxy
  rw [Info.key, Info.key, Prod.Lex.le_iff] at hxy
  rcases hxy with h | ⟨h, _⟩
  · exact le_of_lt h
  · exact le_of_eq h

/-- **C31, well bracketed**: if on this port-clock the loops and conditionals overlap nothing else,
the operations are the nested structure of the schedule, every body in order of time: begin and end
markers enclose exactly the content of their loop or conditional. -/
theorem ops_nested (m : Mapping) (hnd : (Dict.keys m).Nodup)
    (idx : Label × Nat → Option (List Int)) (pc : PC) (hpc : pc ∈ Dict.keys m) (root : Op D)
    (L : List (Info D)) (h : sequencerOps m idx root pc = .ok L)
    (hap : (content idx pc root 0 [] .nil).Apart Info.key) :
    L = ((content idx pc root 0 [] .nil).order Info.key).flatten := by
  rw [flatten_order _ _ hap]
  exact (sequencerOps_eq m hnd idx pc hpc root L h).1

/-- **C31, schedules added in order of time**: the operations are the nested structure of the
schedule in the order in which it was written. -/
theorem ops_sequential (m : Mapping) (hnd : (Dict.keys m).Nodup)
    (idx : Label × Nat → Option (List Int)) (pc : PC) (hpc : pc ∈ Dict.keys m) (root : Op D)
    (L : List (Info D)) (h : sequencerOps m idx root pc = .ok L) (w : Rat)
    (hseq : Sequential pc root w) :
    L = (content idx pc root 0 [] .nil).flatten := by
  obtain ⟨hL, hok, hchk⟩ := sequencerOps_eq m hnd idx pc hpc root L h
  have hflat : (content idx pc root 0 [] .nil).flatten = infosOf idx pc (entries root 0 []) := by
    rw [content_flatten]; simp [infosOf, Forest.flatten]
  rw [hflat] at hL ⊢
  have := (sequential_infos idx pc root 0 w [] hseq (checkAll_ok _ hchk) (fun x hx =>
    hok x (by rw [hL]; exact mem_sortBy.mpr hx))).2
  rw [hL]
  apply sortBy_of_sorted
  refine this.imp ?_
  intro x y hxy
  rw [Info.key, Info.key, Prod.Lex.le_iff]
  rcases lt_or_eq_of_le hxy.1 with h1 | h1
  · exact Or.inl h1
  · exact Or.inr ⟨h1, hxy.2⟩

/-- Putting the bodies in order moves nothing into or out of a loop: the elements of the result are
those of the schedule, each with its own body in order. -/
theorem order_elems {α K : Type} [LinearOrder K] (key : α → K) (f : Forest α) :
    (f.order key).elems.Perm (f.elems.map (Elem.inner key)) := by
  have e : ∀ l : List (Elem α), (ofElems l).elems = l := by
    intro l
    induction l with
    | nil => rfl
    | cons x l ih => cases x <;> simp [ofElems, Forest.elems, ih]
  unfold Forest.order
  rw [e, innerOrdered_eq]
  exact sortBy_perm _ _

/-! ### Times -/

/-- The operation found by following a path of names (`none`: into the body of a loop or
conditional), with the sum of the start times on the way. -/
def Op.find : Op D → Label → Option (Rat × Plain D)
  | .plain p, [] => some (0, p)
  | .sched items, some name :: path => findItem items name path
  | .ctl _ _ body, none :: path => body.find path
  | _, _ => none
where
  /-- In the schedulable of this name. -/
  findItem : Items D → String → Label → Option (Rat × Plain D)
    | .nil, _, _ => none
    | .cons name abs op rest, name', path =>
      if name = name' then (op.find path).map (fun r => (abs + r.1, r.2))
      else findItem rest name' path

mutual
/-- Names are unique in each schedule (they are keys of a dict). -/
def Unique : Op D → Prop
  | .plain _ => True
  | .sched items => UniqueItems items
  | .ctl _ _ body => Unique body
/-- The same for the schedulables. -/
def UniqueItems : Items D → Prop
  | .nil => True
  | .cons name _ op rest => name ∉ itemNames rest ∧ Unique op ∧ UniqueItems rest
/-- The names of the schedulables. -/
def itemNames : Items D → List String
  | .nil => []
  | .cons name _ _ rest => name :: itemNames rest
end

theorem findItem_mem : ∀ (items : Items D) (name : String) (path : Label) (r : Rat × Plain D),
    Op.find.findItem items name path = some r → name ∈ itemNames items
  | .nil, name, path, r, h => by simp [Op.find.findItem] at h
  | .cons n abs op rest, name, path, r, h => by
    unfold Op.find.findItem at h
    by_cases hn : n = name
    · simp [itemNames, hn]
    · rw [if_neg hn] at h
      simp [itemNames, findItem_mem rest name path r h]

mutual
theorem mem_entries_iff : ∀ (op : Op D) (off : Rat) (label : Label) (t : Rat) (p : Plain D)
    (l : Label), Unique op →
    ((⟨t, .op p, l⟩ : Entry D) ∈ entries op off label ↔
      ∃ path r, l = label ++ path ∧ op.find path = some (r, p) ∧ t = off + r)
  | .plain q, off, label, t, p, l, hu => by
    simp only [entries, List.mem_singleton, Entry.mk.injEq, Payload.op.injEq]
    constructor
    · rintro ⟨rfl, rfl, rfl⟩
      exact ⟨[], 0, by simp, rfl, by simp⟩
    · rintro ⟨path, r, rfl, h2, rfl⟩
      cases path with
      | nil =>
        have := Option.some.inj h2
        obtain ⟨rfl, rfl⟩ := Prod.mk.inj this
        simp
      | cons x path => simp [Op.find] at h2
  | .sched items, off, label, t, p, l, hu => by
    simp only [entries]
    rw [mem_itemEntries_iff items off label t p l hu]
    constructor
    · rintro ⟨name, path, r, h1, h2, h3⟩
      exact ⟨some name :: path, r, h1, by simpa [Op.find] using h2, h3⟩
    · rintro ⟨path, r, h1, h2, h3⟩
      cases path with
      | nil => simp [Op.find] at h2
      | cons x path =>
        cases x with
        | none => simp [Op.find] at h2
        | some name => exact ⟨name, path, r, h1, by simpa [Op.find] using h2, h3⟩
  | .ctl c dur body, off, label, t, p, l, hu => by
    have ih := mem_entries_iff body off (label ++ [none]) t p l hu
    simp only [entries, List.mem_cons, List.mem_append, List.not_mem_nil, or_false,
      Entry.mk.injEq, reduceCtorEq, false_and, and_false, false_or, ih]
    constructor
    · rintro ⟨path, r, h1, h2, h3⟩
      exact ⟨none :: path, r, by simpa using h1, by simpa [Op.find] using h2, h3⟩
    · rintro ⟨path, r, h1, h2, h3⟩
      cases path with
      | nil => simp [Op.find] at h2
      | cons x path =>
        cases x with
        | none => exact ⟨path, r, by simpa using h1, by simpa [Op.find] using h2, h3⟩
        | some name => simp [Op.find] at h2
theorem mem_itemEntries_iff : ∀ (items : Items D) (off : Rat) (label : Label) (t : Rat)
    (p : Plain D) (l : Label), UniqueItems items →
    ((⟨t, .op p, l⟩ : Entry D) ∈ itemEntries items off label ↔
      ∃ name path r, l = label ++ some name :: path ∧
        Op.find.findItem items name path = some (r, p) ∧ t = off + r)
  | .nil, off, label, t, p, l, hu => by simp [itemEntries, Op.find.findItem]
  | .cons name abs op rest, off, label, t, p, l, hu => by
    obtain ⟨hu1, hu2, hu3⟩ := hu
    have i1 := mem_entries_iff op (off + abs) (label ++ [some name]) t p l hu2
    have i2 := mem_itemEntries_iff rest off label t p l hu3
    simp only [itemEntries, List.mem_append, i1, i2]
    constructor
    · rintro (⟨path, r, h1, h2, h3⟩ | ⟨name', path, r, h1, h2, h3⟩)
      · refine ⟨name, path, abs + r, by simpa using h1, ?_, by rw [h3]; ring⟩
        simp [Op.find.findItem, h2]
      · refine ⟨name', path, r, h1, ?_, h3⟩
        have hm := findItem_mem rest name' path _ h2
        have hne : name ≠ name' := fun hh => hu1 (hh ▸ hm)
        simp [Op.find.findItem, hne, h2]
    · rintro ⟨name', path, r, h1, h2, h3⟩
      unfold Op.find.findItem at h2
      by_cases hn : name = name'
      · rw [if_pos hn] at h2
        subst hn
        left
        cases hf : op.find path with
        | none => rw [hf] at h2; cases h2
        | some s =>
          rw [hf] at h2
          have := Option.some.inj h2
          obtain ⟨e1, e2⟩ := Prod.mk.inj this
          refine ⟨path, s.1, by simpa using h1, ?_, by rw [h3, ← e1]; ring⟩
          rw [← e2]; exact hf
      · rw [if_neg hn] at h2
        right
        exact ⟨name', path, r, h1, h2, h3⟩
end

/-- **C31, times**: the list of operations has an operation under a label and a time exactly if
following the label through the schedule leads to that operation and the start times on the way
add up to that time. -/
theorem operations_located (root : Op D) (hu : Unique root) (t : Rat) (p : Plain D) (l : Label) :
    (⟨t, .op p, l⟩ : Entry D) ∈ entries root 0 [] ↔ root.find l = some (t, p) := by
  rw [mem_entries_iff root 0 [] t p l hu]
  constructor
  · rintro ⟨path, r, h1, h2, h3⟩
    simp only [List.nil_append, zero_add] at h1 h3
    rw [h1, h3]; exact h2
  · intro h
    exact ⟨l, t, by simp, h, by simp⟩

/-- **C31, a pulse is played on its port-clock at its time**: every pulse on a port-clock of an
operation of the schedule is in the list of that sequencer, `t0` after the nanosecond its operation
starts at. -/
theorem pulse_dispatched (m : Mapping) (hnd : (Dict.keys m).Nodup)
    (idx : Label × Nat → Option (List Int)) (root : Op D) (hu : Unique root) (l : Label) (t : Rat)
    (p : Plain D) (hf : root.find l = some (t, p)) (hw : p.window = false) (q : Piece D)
    (hq : q ∈ p.pulses) (port clock : String) (hport : q.port = some port)
    (hclock : q.clock = some clock) (hpc : (port, clock) ∈ Dict.keys m) (L : List (Info D))
    (h : sequencerOps m idx root (port, clock) = .ok L) :
    (⟨p.name, .pulse q.data, startAt (ns t) q.t0, ns t⟩ : Info D) ∈ L := by
  rw [(sequencerOps_eq m hnd idx _ hpc root L h).1, mem_sortBy, content_flatten]
  simp only [Forest.flatten, List.append_nil, List.mem_flatMap]
  refine ⟨⟨t, .op p, l⟩, (operations_located root hu t p l).mpr hf, ?_⟩
  simp only [entryInfos, plainInfos, hw, Bool.false_eq_true, if_false, List.mem_append,
    List.mem_map, List.mem_filter]
  refine Or.inl (Or.inr ⟨q, ⟨hq, ?_⟩, rfl⟩)
  simp [pulseFor, hport, hclock]

/-- **C31, unknown port-clocks are rejected**: if a pulse is on a port-clock that is not in the
hardware configuration, compilation fails (for every sequencer). -/
theorem unmapped_rejected (m : Mapping) (idx : Label × Nat → Option (List Int)) (root : Op D)
    (hu : Unique root) (l : Label) (t : Rat) (p : Plain D) (hf : root.find l = some (t, p))
    (hw : p.window = false) (q : Piece D) (hq : q ∈ p.pulses) (port clock : String)
    (hport : q.port = some port) (hclock : q.clock = some clock)
    (hpc : (port, clock) ∉ Dict.keys m) (pc : PC) : ∃ e, sequencerOps m idx root pc = .error e := by
  unfold sequencerOps
  cases ha : assign m idx root with
  | error e => exact ⟨e, rfl⟩
  | ok log =>
    exfalso
    unfold assign at ha
    simp only at ha
    cases hc : checkAll (entries root 0 []) with
    | error e => rw [hc] at ha; cases ha
    | ok u =>
      rw [hc] at ha
      simp only at ha
      have hall : ∀ (es : List (Entry D)) (log : List (Call D)), assignAll m idx es = .ok log →
          ∀ e ∈ es, ∃ x, assignEntry m idx e = .ok x := by
        intro es
        induction es with
        | nil => intro log _ e he; cases he
        | cons e0 es ih =>
          intro log hlog e he
          obtain ⟨x, y, hx, hy, _⟩ := both_ok hlog
          rcases List.mem_cons.mp he with rfl | he
          · exact ⟨x, hx⟩
          · exact ih y hy e he
      obtain ⟨x, hx⟩ := hall _ _ ha ⟨t, .op p, l⟩
        (mem_sortBy.mpr ((operations_located root hu t p l).mpr hf))
      unfold assignEntry at hx
      simp only [hw, Bool.false_eq_true, if_false] at hx
      split at hx
      · cases hx
      · obtain ⟨x1, y1, _, hy1, _⟩ := both_ok hx
        obtain ⟨x2, y2, hx2, _, _⟩ := both_ok hy1
        have hp : ∀ (qs : List (Piece D)) (z : List (Call D)),
            assignPulses m p.name (ns t) .pulse qs = .ok z → q ∈ qs →
            ∃ w, assignPulse m p.name (ns t) .pulse q = .ok w := by
          intro qs
          induction qs with
          | nil => intro z _ h; cases h
          | cons q0 qs ih =>
            intro z hz hm
            unfold assignPulses at hz
            cases h1 : assignPulse m p.name (ns t) .pulse q0 with
            | error e => rw [h1] at hz; cases hz
            | ok a =>
              cases h2 : assignPulses m p.name (ns t) .pulse qs with
              | error e => rw [h1, h2] at hz; cases hz
              | ok b =>
                rcases List.mem_cons.mp hm with rfl | hm
                · exact ⟨a, h1⟩
                · exact ih b h2 hm
        obtain ⟨w, hw'⟩ := hp _ _ hx2 hq
        unfold assignPulse at hw'
        cases hg : onGrid (startAt (ns t) q.t0) with
        | error e => rw [hg] at hw'; cases hw'
        | ok k =>
          rw [hg, hport, hclock] at hw'
          simp only [(Dict.get?_eq_none_iff m (port, clock)).mpr hpc] at hw'
          cases hw'

/-! ### Acquisition indices -/

mutual
/-- The schedule as seen by the generation of acquisition indices; `f` reads the description of an
acquisition, `reps` the repetitions of a loop (`none` for a conditional). -/
def toAcq {Ch U : Type} (f : D → AcqIndices.Info Ch U) (reps : Ctl D → Option Nat) :
    Op D → AcqIndices.Op Ch U
  | .plain p => .plain (p.acqs.map (fun q => f q.data))
  | .sched items => .sched (toAcqItems f reps items)
  | .ctl c _ body =>
    match reps c with
    | some n => .loop (toAcq f reps body) n
    | none => .cond (toAcq f reps body)
/-- The same for the schedulables. -/
def toAcqItems {Ch U : Type} (f : D → AcqIndices.Info Ch U) (reps : Ctl D → Option Nat) :
    Items D → AcqIndices.Items Ch U
  | .nil => .nil
  | .cons name abs op rest => .cons name abs (toAcq f reps op) (toAcqItems f reps rest)
end

section
variable {Ch U : Type} [DecidableEq Ch]

theorem number_mem (label : AcqIndices.Label) (loops : List Nat) :
    ∀ (infos : List (AcqIndices.Info Ch U)) (n i : Nat) (x : AcqIndices.Info Ch U),
    infos[i]? = some x →
    ∃ a ∈ AcqIndices.number label loops n infos, a.key = (label, n + i) ∧ a.info = x
  | [], n, i, x, h => by simp at h
  | y :: infos, n, 0, x, h => by
    simp only [List.getElem?_cons_zero, Option.some.injEq] at h
    subst h
    exact ⟨_, by simp only [AcqIndices.number, List.mem_cons]; exact Or.inl rfl, rfl, rfl⟩
  | y :: infos, n, i + 1, x, h => by
    obtain ⟨a, h1, h2, h3⟩ := number_mem label loops infos (n + 1) i x (by simpa using h)
    refine ⟨a, by simp [AcqIndices.number, h1], ?_, h3⟩
    rw [h2]; congr 1; omega

mutual
theorem acq_known (f : D → AcqIndices.Info Ch U) (reps : Ctl D → Option Nat) :
    ∀ (op : Op D) (off : Rat) (label : Label) (loops : List Nat) (e : Entry D) (p : Plain D)
    (i : Nat) (q : Piece D), e ∈ entries op off label → e.payload = .op p →
    p.acqs[i]? = some q →
    ∃ a ∈ AcqIndices.acqsOf (toAcq f reps op) label loops, a.key = (e.label, i) ∧
      a.info = f q.data
  | .plain p', off, label, loops, e, p, i, q, he, hp, hq => by
    simp only [entries, List.mem_singleton] at he
    subst he
    simp only [Payload.op.injEq] at hp
    subst hp
    obtain ⟨a, h1, h2, h3⟩ := number_mem label loops (p'.acqs.map (fun q => f q.data)) 0 i
      (f q.data) (by simp [hq])
    refine ⟨a, by simpa [toAcq, AcqIndices.acqsOf] using h1, by simpa using h2, h3⟩
  | .sched items, off, label, loops, e, p, i, q, he, hp, hq => by
    obtain ⟨x, hx, a, ha, h⟩ := acq_known_items f reps items off label loops e p i q he hp hq
    refine ⟨a, ?_, h⟩
    simp only [toAcq, AcqIndices.acqsOf, List.mem_flatMap, List.mem_mergeSort]
    exact ⟨x, hx, ha⟩
  | .ctl c dur body, off, label, loops, e, p, i, q, he, hp, hq => by
    simp only [entries, List.mem_cons, List.mem_append, List.not_mem_nil, or_false] at he
    rcases he with rfl | he | rfl
    · cases hp
    · cases hr : reps c with
      | none =>
        simp only [toAcq, hr, AcqIndices.acqsOf]
        exact acq_known f reps body off (label ++ [none]) loops e p i q he hp hq
      | some n =>
        simp only [toAcq, hr, AcqIndices.acqsOf]
        exact acq_known f reps body off (label ++ [none]) (loops ++ [n]) e p i q he hp hq
    · cases hp
theorem acq_known_items (f : D → AcqIndices.Info Ch U) (reps : Ctl D → Option Nat) :
    ∀ (items : Items D) (off : Rat) (label : Label) (loops : List Nat) (e : Entry D) (p : Plain D)
    (i : Nat) (q : Piece D), e ∈ itemEntries items off label → e.payload = .op p →
    p.acqs[i]? = some q →
    ∃ x ∈ AcqIndices.itemAcqs (toAcqItems f reps items) label loops, ∃ a ∈ x.2,
      a.key = (e.label, i) ∧ a.info = f q.data
  | .nil, off, label, loops, e, p, i, q, he, hp, hq => by cases he
  | .cons name abs op rest, off, label, loops, e, p, i, q, he, hp, hq => by
    simp only [itemEntries, List.mem_append] at he
    simp only [toAcqItems, AcqIndices.itemAcqs, List.mem_cons]
    rcases he with he | he
    · obtain ⟨a, h1, h2⟩ := acq_known f reps op (off + abs) (label ++ [some name]) loops e p i q he
        hp hq
      exact ⟨_, Or.inl rfl, a, h1, h2⟩
    · obtain ⟨x, hx, h⟩ := acq_known_items f reps rest off label loops e p i q he hp hq
      exact ⟨x, Or.inr hx, h⟩
end

theorem acqInfos_get (idx : Label × Nat → Option (List Int)) (pc : PC) (name : String) (n : Int)
    (label : Label) : ∀ (qs : List (Piece D)) (k i : Nat) (q : Piece D), qs[i]? = some q →
    q.port = some pc.1 → q.clock = some pc.2 →
    (⟨name, .acq q.data (idx (label, k + i)), startAt n q.t0, n⟩ : Info D) ∈
      acqInfos idx pc name n label k qs
  | [], k, i, q, h, _, _ => by simp at h
  | r :: qs, k, 0, q, h, hp, hc => by
    simp only [List.getElem?_cons_zero, Option.some.injEq] at h
    subst h
    unfold acqInfos
    simp [hp, hc]
  | r :: qs, k, i + 1, q, h, hp, hc => by
    have := acqInfos_get idx pc name n label qs (k + 1) i q (by simpa using h) hp hc
    unfold acqInfos
    rw [List.mem_append]
    right
    have e : k + (i + 1) = k + 1 + i := by omega
    rw [e]; exact this

/-- **C31, acquisitions get their indices**: every acquisition of the schedule is in the list of
its sequencer, with exactly the acquisition indices generated for it: the lookup by label never
misses. -/
theorem acquisition_dispatched (m : Mapping) (hnd : (Dict.keys m).Nodup) (root : Op D)
    (f : D → AcqIndices.Info Ch U) (reps : Ctl D → Option Nat) (hu : Unique root)
    (hu' : AcqIndices.UniqueNames (toAcq f reps root))
    (st : AcqIndices.St Ch U) (hgen : AcqIndices.generate (toAcq f reps root) = .ok st)
    (idx : Label × Nat → Option (List Int))
    (hidx : ∀ k, idx k = (Dict.get? st.map k).map (fun x => x.toList.map (fun (n : Nat) => (n : Int))))
    (l : Label) (t : Rat) (p : Plain D) (hf : root.find l = some (t, p)) (hw : p.window = false)
    (i : Nat) (q : Piece D) (hq : p.acqs[i]? = some q) (port clock : String)
    (hport : q.port = some port) (hclock : q.clock = some clock)
    (hpc : (port, clock) ∈ Dict.keys m) (L : List (Info D))
    (h : sequencerOps m idx root (port, clock) = .ok L) :
    ∃ a ∈ AcqIndices.order (toAcq f reps root), a.key = (l, i) ∧ a.info = f q.data ∧
      (AcqIndices.Binned a →
        (⟨p.name, .acq q.data (some ((AcqIndices.stored st a).map (fun (n : Nat) => (n : Int)))),
          startAt (ns t) q.t0, ns t⟩ : Info D) ∈ L) := by
  have he := (operations_located root hu t p l).mpr hf
  obtain ⟨a, ha, hk, hi⟩ := acq_known f reps root 0 [] [] ⟨t, .op p, l⟩ p i q he rfl hq
  have ho : a ∈ AcqIndices.order (toAcq f reps root) :=
    (AcqIndices.all_handled _ hu').1.mem_iff.mpr ha
  refine ⟨a, ho, hk, hi, ?_⟩
  intro hb
  have hval : idx (l, i) = some ((AcqIndices.stored st a).map (fun (n : Nat) => (n : Int))) := by
    obtain ⟨P1, P2, hs⟩ := List.append_of_mem ho
    obtain ⟨ix, h1, h2⟩ := (AcqIndices.generate_inv _ hu' hgen).1.map P1 a P2 hs hb
    rw [hidx, ← hk, h1]
    unfold AcqIndices.stored
    rw [h1]; rfl
  rw [(sequencerOps_eq m hnd idx _ hpc root L h).1, mem_sortBy, content_flatten]
  simp only [Forest.flatten, List.append_nil, List.mem_flatMap]
  refine ⟨⟨t, .op p, l⟩, he, ?_⟩
  simp only [entryInfos, plainInfos, hw, Bool.false_eq_true, if_false, List.mem_append]
  right
  have := acqInfos_get idx (port, clock) p.name (ns t) l p.acqs 0 i q hq hport hclock
  rw [Nat.zero_add, hval] at this
  exact this

end

/-! ### Loops that cannot be compiled -/

theorem checkAll_error {es : List (Entry D)} {e : Entry D} (he : e ∈ es) {x : Err}
    (hx : checkEntry e = .error x) : ∃ y, checkAll es = .error y := by
  induction es with
  | nil => cases he
  | cons a es ih =>
    unfold checkAll
    cases ha : checkEntry a with
    | error y => exact ⟨y, rfl⟩
    | ok u =>
      rcases List.mem_cons.mp he with rfl | he
      · rw [hx] at ha; cases ha
      · exact ih he

theorem assignAll_error (m : Mapping) (idx : Label × Nat → Option (List Int))
    {es : List (Entry D)} {e : Entry D} (he : e ∈ es) {x : Err}
    (hx : assignEntry m idx e = .error x) : ∃ y, assignAll m idx es = .error y := by
  induction es with
  | nil => cases he
  | cons a es ih =>
    unfold assignAll
    cases ha : assignEntry m idx a with
    | error y => exact ⟨y, rfl⟩
    | ok u =>
      rcases List.mem_cons.mp he with rfl | he
      · rw [hx] at ha; cases ha
      · obtain ⟨y, hy⟩ := ih he
        rw [hy]; exact ⟨y, rfl⟩

/-! ### Which sequencers get the brackets of a loop -/

mutual
/-- The plain operations in an operation, at any depth. -/
def plains : Op D → List (Plain D)
  | .plain p => [p]
  | .sched items => plainsItems items
  | .ctl _ _ body => plains body
/-- The same for the schedulables. -/
def plainsItems : Items D → List (Plain D)
  | .nil => []
  | .cons _ _ op rest => plains op ++ plainsItems rest
end

theorem pc?_iff (q : Piece D) (pc : PC) :
    q.pc? = some pc ↔ q.port = some pc.1 ∧ q.clock = some pc.2 := by
  obtain ⟨a, b⟩ := pc
  unfold Piece.pc?
  cases q.port <;> cases q.clock <;> simp

mutual
theorem used_of : ∀ (op : Op D) (pc : PC), pc ∈ op.used ↔
    ∃ p ∈ plains op, ∃ q ∈ p.pulses ++ p.acqs, q.port = some pc.1 ∧ q.clock = some pc.2
  | .plain p, pc => by
    simp only [Op.used, plains, List.mem_filterMap, pc?_iff, List.mem_singleton, exists_eq_left]
  | .sched items, pc => by
    simp only [Op.used, plains]
    exact usedItems_of items pc
  | .ctl _ _ body, pc => by
    simp only [Op.used, plains]
    exact used_of body pc
theorem usedItems_of : ∀ (items : Items D) (pc : PC), pc ∈ items.used ↔
    ∃ p ∈ plainsItems items, ∃ q ∈ p.pulses ++ p.acqs, q.port = some pc.1 ∧ q.clock = some pc.2
  | .nil, pc => by simp [Items.used, plainsItems]
  | .cons _ _ op rest, pc => by
    have h1 := used_of op pc
    have h2 := usedItems_of rest pc
    simp only [Items.used, plainsItems, List.mem_append (s := op.used), h1, h2,
      List.mem_append (s := plains op), or_and_right, exists_or]
end

/-- **C31, brackets**: the content of a loop or conditional for a port-clock is bracketed by its
begin and end exactly if some operation in its body, at any depth, has a pulse or acquisition on
that port-clock. -/
theorem bracketed_iff (idx : Label × Nat → Option (List Int)) (pc : PC) (c : Ctl D) (dur : Rat)
    (body : Op D) (off : Rat) (label : Label) :
    ((∃ p ∈ plains body, ∃ q ∈ p.pulses ++ p.acqs, q.port = some pc.1 ∧ q.clock = some pc.2) →
      content idx pc (.ctl c dur body) off label .nil =
        .node ⟨c.name, .loopStart c.data, startAt (ns off) c.t0, ns off⟩
          (content idx pc body off (label ++ [none]) .nil)
          ⟨"ControlFlowReturn", .loopStop, startAt (ns (off + dur)) 0, ns (off + dur)⟩ .nil) ∧
    ((¬ ∃ p ∈ plains body, ∃ q ∈ p.pulses ++ p.acqs, q.port = some pc.1 ∧ q.clock = some pc.2) →
      content idx pc (.ctl c dur body) off label .nil =
        content idx pc body off (label ++ [none]) .nil) := by
  constructor
  · intro h
    rw [content, if_pos ((used_of body pc).mpr h)]
  · intro h
    rw [content, if_neg (fun hx => h ((used_of body pc).mp hx))]

/-- Finding: a loop or conditional at the top level of a schedule whose body has no operation on a
port (for instance only a wait) is rejected by every sequencer. -/
theorem portless_loop_rejected (m : Mapping) (idx : Label × Nat → Option (List Int))
    (name : String) (abs : Rat) (c : Ctl D) (dur : Rat) (body : Op D) (rest : Items D)
    (hb : body.used = []) (pc : PC) :
    ∃ e, sequencerOps m idx (.sched (.cons name abs (.ctl c dur body) rest)) pc = .error e := by
  unfold sequencerOps assign
  simp only
  cases hc : checkAll (entries (.sched (.cons name abs (.ctl c dur body) rest)) 0 []) with
  | error e => exact ⟨e, rfl⟩
  | ok u =>
    simp only
    have hmem : (⟨0 + abs, .start c [] body.allValid, [some name, none]⟩ : Entry D) ∈
        sortBy (fun e => ns e.time)
          (entries (.sched (.cons name abs (.ctl c dur body) rest)) 0 []) := by
      rw [mem_sortBy]
      simp [entries, itemEntries, hb]
    obtain ⟨y, hy⟩ := assignAll_error m idx hmem (x := .runtimeError) (by simp [assignEntry])
    rw [hy]; exact ⟨y, rfl⟩

/-- Finding: so is one whose body contains inline assembly (its `pulse_info` is empty). -/
theorem asm_in_loop_rejected (m : Mapping) (idx : Label × Nat → Option (List Int))
    (name : String) (abs : Rat) (c : Ctl D) (dur : Rat) (body : Op D) (rest : Items D)
    (hb : body.allValid = false) (pc : PC) :
    ∃ e, sequencerOps m idx (.sched (.cons name abs (.ctl c dur body) rest)) pc = .error e := by
  unfold sequencerOps assign
  simp only
  have hmem : (⟨0 + abs, .start c body.used.dedup false, [some name, none]⟩ : Entry D) ∈
      (entries (.sched (.cons name abs (.ctl c dur body) rest)) 0 []) := by
    simp [entries, itemEntries, hb]
  have : ∃ x, checkEntry (⟨0 + abs, .start c body.used.dedup false, [some name, none]⟩ : Entry D) =
      .error x := by
    unfold checkEntry
    cases onGrid (0 + abs) with
    | error e => exact ⟨e, rfl⟩
    | ok n => exact ⟨.runtimeError, rfl⟩
  obtain ⟨x, hx⟩ := this
  obtain ⟨y, hy⟩ := checkAll_error hmem hx
  rw [hy]; exact ⟨y, rfl⟩

/-! ### Examples and findings -/

/-- A pulse on a port-clock. -/
def pulseOn (port clock : String) (d : Nat) : Op Nat :=
  .plain ⟨"Pulse", false, none, [⟨some port, some clock, 0, d⟩], []⟩

/-- Two port-clocks of one device. -/
def exMap : Mapping := [(("q0:mw", "q0.01"), "cluster0"), (("q0:fl", "cl0.baseband"), "cluster0")]

/-- `n` nanoseconds. -/
def nsec (n : Rat) : Rat := n / 1000000000

/-- A nested schedule: a pulse, a loop over a sub-schedule with a pulse and an acquisition (which
starts 20 ns into its operation), a loop in the loop, and a flux pulse on another port-clock; the
last pulse was added first. -/
def exRoot : Op Nat := .sched
  (.cons "last" (nsec 700) (pulseOn "q0:mw" "q0.01" 9)
  (.cons "first" 0 (pulseOn "q0:mw" "q0.01" 1)
  (.cons "loop" (nsec 100) (.ctl ⟨"LoopBegin", 0, 2⟩ (nsec 200) (.sched
    (.cons "a" 0 (.plain ⟨"Measure", false, none, [⟨some "q0:mw", some "q0.01", 0, 2⟩],
      [⟨some "q0:mw", some "q0.01", nsec 20, 3⟩]⟩)
    (.cons "inner" (nsec 40) (.ctl ⟨"LoopBegin", 0, 3⟩ (nsec 20) (pulseOn "q0:mw" "q0.01" 4))
    (.cons "flux" (nsec 10) (pulseOn "q0:fl" "cl0.baseband" 5) .nil)))))
  .nil)))

/-- Index of the only acquisition. -/
def exIdx : Label × Nat → Option (List Int) :=
  fun k => if k = ([some "loop", none, some "a"], 0) then some [0, 1] else none

theorem ops_example : sequencerOps exMap exIdx exRoot ("q0:mw", "q0.01") = .ok [
    ⟨"Pulse", .pulse 1, 0, 0⟩,
    ⟨"LoopBegin", .loopStart 2, nsec 100, 100⟩,
      ⟨"Measure", .pulse 2, nsec 100, 100⟩,
      ⟨"Measure", .acq 3 (some [0, 1]), nsec 120, 100⟩,
      ⟨"LoopBegin", .loopStart 3, nsec 140, 140⟩,
        ⟨"Pulse", .pulse 4, nsec 140, 140⟩,
      ⟨"ControlFlowReturn", .loopStop, nsec 160, 160⟩,
    ⟨"ControlFlowReturn", .loopStop, nsec 300, 300⟩,
    ⟨"Pulse", .pulse 9, nsec 700, 700⟩] := by
  unfold sequencerOps assign ordered
  simp only [sortBy_eq_insSort]
  decide +kernel

/-- The hypotheses of `ops_nested` hold in the example. -/
example : (Dict.keys exMap).Nodup ∧ ("q0:mw", "q0.01") ∈ Dict.keys exMap ∧
    Unique exRoot := by
  refine ⟨by decide, by decide, ?_⟩
  simp [Unique, UniqueItems, itemNames, exRoot, pulseOn]

/-- The structure of the example. -/
theorem exContent : content exIdx ("q0:mw", "q0.01") exRoot 0 [] .nil =
    .leaf ⟨"Pulse", .pulse 9, nsec 700, 700⟩ (.leaf ⟨"Pulse", .pulse 1, 0, 0⟩
    (.node ⟨"LoopBegin", .loopStart 2, nsec 100, 100⟩
      (.leaf ⟨"Measure", .pulse 2, nsec 100, 100⟩
      (.leaf ⟨"Measure", .acq 3 (some [0, 1]), nsec 120, 100⟩
      (.node ⟨"LoopBegin", .loopStart 3, nsec 140, 140⟩
        (.leaf ⟨"Pulse", .pulse 4, nsec 140, 140⟩ .nil)
        ⟨"ControlFlowReturn", .loopStop, nsec 160, 160⟩ .nil)))
      ⟨"ControlFlowReturn", .loopStop, nsec 300, 300⟩ .nil)) := by decide +kernel

instance {α K : Type} [LinearOrder K] (key : α → K) (a b : List α) :
    Decidable (StableSort.Apart key a b) := by unfold StableSort.Apart; infer_instance

/-- Apartness is decidable (used for examples only). -/
instance apartDecidable {α K : Type} [LinearOrder K] (key : α → K) :
    (f : Forest α) → Decidable (f.Apart key)
  | .nil => isTrue trivial
  | .leaf a f => by
    have := apartDecidable key f
    unfold Forest.Apart; infer_instance
  | .node b g e f => by
    have := apartDecidable key f
    have := apartDecidable key g
    unfold Forest.Apart; infer_instance

/-- The brackets of the example are kept apart: `ops_nested` applies. -/
example : (content exIdx ("q0:mw", "q0.01") exRoot 0 [] .nil).Apart Info.key := by
  decide +kernel

/-- The example without the pulse that was added out of order is sequential: `ops_sequential`
applies. -/
example : Sequential ("q0:mw", "q0.01") (.sched
    (.cons "first" 0 (pulseOn "q0:mw" "q0.01" 1)
    (.cons "flux" 0 (pulseOn "q0:fl" "cl0.baseband" 5)
    (.cons "loop" (nsec 100) (.ctl ⟨"LoopBegin", 0, 2⟩ (nsec 200) (pulseOn "q0:mw" "q0.01" 4))
    .nil))) : Op Nat) (nsec 300) := by
  refine Or.inr ⟨le_refl _, nsec 100, ?_, Or.inl ⟨?_, Or.inr ⟨?_, nsec 200, ?_, ?_⟩⟩⟩
  · simp [Sequential, pulseOn, pulseFor, nsec]; norm_num
  · simp [Quiet, pulseOn, pulseFor]
  · simp [nsec]
  · refine ⟨rfl, ?_, le_refl _⟩
    simp [Sequential, pulseOn, pulseFor, nsec]; norm_num
  · show nsec 100 + nsec 200 ≤ nsec 300
    norm_num [nsec]

/-- Finding: a pulse that starts when a conditional ends, but was added before it, ends up inside
the conditional: it is only played if the condition holds (conditionals of the core library add no
buffer time after the body). -/
theorem pulse_captured : sequencerOps exMap (fun _ => none) (.sched
    (.cons "after" (nsec 100) (pulseOn "q0:mw" "q0.01" 2)
    (.cons "cond" 0 (.ctl ⟨"ConditionalBegin", 0, 7⟩ (nsec 100) (pulseOn "q0:mw" "q0.01" 1)) .nil)))
    ("q0:mw", "q0.01") = .ok [
      ⟨"ConditionalBegin", .loopStart 7, 0, 0⟩,
        ⟨"Pulse", .pulse 1, 0, 0⟩,
        ⟨"Pulse", .pulse 2, nsec 100, 100⟩,
      ⟨"ControlFlowReturn", .loopStop, nsec 100, 100⟩] := by
  unfold sequencerOps assign ordered
  simp only [sortBy_eq_insSort]
  decide +kernel

/-- Finding: an operation on a clock only (such as a phase shift) in a loop reaches the sequencers
of that clock without the loop if the loop's body does not use their port: it is done once instead of
at every repetition. -/
theorem clock_operation_escapes : sequencerOps exMap (fun _ => none) (.sched
    (.cons "loop" 0 (.ctl ⟨"LoopBegin", 0, 10⟩ (nsec 100) (.sched
      (.cons "phase" 0 (.plain ⟨"ShiftClockPhase", false, none, [⟨none, some "q0.01", 0, 90⟩], []⟩)
      (.cons "flux" 0 (pulseOn "q0:fl" "cl0.baseband" 5) .nil)))) .nil))
    ("q0:mw", "q0.01") = .ok [⟨"ShiftClockPhase", .pulse 90, 0, 0⟩] := by
  unfold sequencerOps assign ordered
  simp only [sortBy_eq_insSort]
  decide +kernel

end Verif.Flatten
