/-
Lemmas for the operation lists of sequencers.
-/
import Verif.Flatten.Spec

set_option linter.unusedSimpArgs false
set_option linter.unusedVariables false
set_option linter.unusedSectionVars false

namespace Verif.Flatten

open Verif.StableSort

variable {D α : Type} {K : Type} [LinearOrder K]

/-! ### Forests -/

theorem flatten_leaves (l : List α) (f : Forest α) :
    (leaves l f).flatten = l ++ f.flatten := by
  induction l with
  | nil => rfl
  | cons a l ih => simp [leaves, Forest.flatten, ih]

theorem elems_flatten (f : Forest α) : f.elems.flatMap Elem.all = f.flatten := by
  induction f with
  | nil => rfl
  | leaf a f ih => simp [Forest.elems, Forest.flatten, Elem.all, ih]
  | node b g e f ih1 ih2 => simp [Forest.elems, Forest.flatten, Elem.all, ih2]

theorem ofElems_flatten (l : List (Elem α)) : (ofElems l).flatten = l.flatMap Elem.all := by
  induction l with
  | nil => rfl
  | cons x l ih =>
    cases x <;> simp [ofElems, Forest.flatten, Elem.all, ih]

theorem innerOrdered_eq (key : α → K) (f : Forest α) :
    f.innerOrdered key = f.elems.map (Elem.inner key) := by
  induction f with
  | nil => rfl
  | leaf a f ih => simp [Forest.innerOrdered, Forest.elems, Elem.inner, ih]
  | node b g e f ih1 ih2 =>
    simp only [Forest.innerOrdered, Forest.elems, Elem.inner, ih2, List.map_cons, Forest.order]

theorem inner_head (key : α → K) (x : Elem α) : (x.inner key).head = x.head := by
  cases x <;> rfl

/-- Pairs of elements of a body are apart. -/
theorem elems_apart (key : α → K) (f : Forest α) (h : f.Apart key) :
    f.elems.Pairwise (fun x y => StableSort.Apart key x.all y.all) := by
  induction f with
  | nil => exact List.Pairwise.nil
  | leaf a f ih =>
    refine List.pairwise_cons.mpr ⟨?_, ih h.2⟩
    intro y hy
    cases y with
    | one b =>
      rcases le_or_gt (key a) (key b) with hab | hab
      · left; intro x hx y hy
        simp only [Elem.all, List.mem_singleton] at hx hy; subst hx; subst hy; exact hab
      · right; intro x hx y hy
        simp only [Elem.all, List.mem_singleton] at hx hy; subst hx; subst hy; exact hab
    | many b g e => exact h.1 _ hy rfl
  | node b g e f ih1 ih2 =>
    exact List.pairwise_cons.mpr ⟨fun y hy => h.2.2.1 y hy, ih2 h.2.2.2⟩

/-- Sorting the flat list is putting every body in order. -/
theorem flatten_order (key : α → K) (f : Forest α) (h : f.Apart key) :
    (f.order key).flatten = sortBy key f.flatten := by
  have hin : ∀ x ∈ f.elems, (x.inner key).all = sortBy key x.all := by
    induction f with
    | nil => intro x hx; cases hx
    | leaf a f ih =>
      intro x hx
      rcases List.mem_cons.mp hx with rfl | hx
      · simp [Elem.inner, Elem.all, sortBy]
      · exact ih h.2 x hx
    | node b g e f ih1 ih2 =>
      intro x hx
      rcases List.mem_cons.mp hx with rfl | hx
      · have hg := h.2.1
        have hord : (g.order key).flatten = sortBy key g.flatten := by
          have e1 := innerOrdered_eq key g
          rw [Forest.order, ofElems_flatten, e1,
            ← sortBy_map (fun x => key x.head) (fun x => key x.head) (Elem.inner key) g.elems
              (fun x _ => by rw [inner_head]), List.flatMap_map, ← elems_flatten g,
            sortBy_blocks key Elem.all (fun x => key x.head) g.elems ?_ (elems_apart key g hg)]
          · apply List.flatMap_congr
            intro x hx
            exact ih1 hg x (mem_sortBy.mp hx)
          · intro x hx
            cases x with
            | one a => exact ⟨a, by simp [Elem.all], rfl⟩
            | many b g e => exact ⟨b, by simp [Elem.all], rfl⟩
        show b :: ((g.order key).flatten ++ [e]) = sortBy key (b :: (g.flatten ++ [e]))
        rw [hord]
        symm
        apply eq_sortBy
        · refine List.pairwise_cons.mpr ⟨?_, ?_⟩
          · intro x hx
            rcases List.mem_append.mp hx with hx | hx
            · exact (h.1.2 x (mem_sortBy.mp hx)).1
            · rw [List.mem_singleton] at hx; subst hx; exact h.1.1
          · rw [List.pairwise_append]
            refine ⟨sortBy_sorted _ _, List.pairwise_singleton _ _, ?_⟩
            intro z hz y hy
            rw [List.mem_singleton] at hy; rw [hy]
            exact (h.1.2 z (mem_sortBy.mp hz)).2
        · intro c
          have e2 : ∀ l : List α, b :: (l ++ [e]) = [b] ++ (l ++ [e]) := fun _ => rfl
          rw [e2, e2, withKey_append, withKey_append, withKey_append, withKey_append,
            withKey_sortBy]
      · exact ih2 h.2.2.2 x hx
  rw [Forest.order, ofElems_flatten, innerOrdered_eq,
    ← sortBy_map (fun x => key x.head) (fun x => key x.head) (Elem.inner key) f.elems
      (fun x _ => by rw [inner_head]), List.flatMap_map, ← elems_flatten f,
    sortBy_blocks key Elem.all (fun x => key x.head) f.elems ?_ (elems_apart key f h)]
  · apply List.flatMap_congr
    intro x hx
    exact hin x (mem_sortBy.mp hx)
  · intro x hx
    cases x with
    | one a => exact ⟨a, by simp [Elem.all], rfl⟩
    | many b g e => exact ⟨b, by simp [Elem.all], rfl⟩

/-! ### The log of one port-clock -/

/-- What an entry does on a port-clock. -/
def entryInfos (idx : Label × Nat → Option (List Int)) (pc : PC) (e : Entry D) : List (Info D) :=
  match e.payload with
  | .op p => plainInfos idx pc p (ns e.time) e.label
  | .start c pcs _ =>
    if pc ∈ pcs then [⟨c.name, .loopStart c.data, startAt (ns e.time) c.t0, ns e.time⟩] else []
  | .stop pcs _ =>
    if pc ∈ pcs then [⟨"ControlFlowReturn", .loopStop, startAt (ns e.time) 0, ns e.time⟩] else []

theorem opInfos_append (pc : PC) (a b : List (Call D)) :
    opInfos pc (a ++ b) = opInfos pc a ++ opInfos pc b := List.filterMap_append ..

theorem both_ok {a b : Except Err (List (Call D))} {l : List (Call D)} (h : both a b = .ok l) :
    ∃ x y, a = .ok x ∧ b = .ok y ∧ l = x ++ y := by
  cases a with
  | error e => cases h
  | ok x =>
    cases b with
    | error e => cases h
    | ok y => exact ⟨x, y, rfl, rfl, (Except.ok.inj h).symm⟩

/-- In a dict each key occurs once. -/
theorem filter_key (m : Mapping) (hnd : (Dict.keys m).Nodup) (pc : PC) (hpc : pc ∈ Dict.keys m)
    (P : PC → Prop) [DecidablePred P] (hP : P pc) (i : Info D) :
    opInfos pc ((m.filter (fun e => P e.1)).map (fun e => (e.2, e.1, i))) = [i] := by
  induction m with
  | nil => simp [Dict.keys] at hpc
  | cons e m ih =>
    have hnd' : e.1 ∉ Dict.keys m ∧ (Dict.keys m).Nodup := List.nodup_cons.mp hnd
    by_cases he : e.1 = pc
    · have hnone : opInfos pc ((m.filter (fun e => P e.1)).map (fun e => (e.2, e.1, i))) = [] := by
        unfold opInfos
        rw [List.filterMap_eq_nil_iff]
        intro c hc
        obtain ⟨x, hx, rfl⟩ := List.mem_map.mp hc
        have : x.1 ≠ pc := by
          intro hxe
          apply hnd'.1
          rw [he, ← hxe]
          exact List.mem_map_of_mem (List.mem_filter.mp hx).1
        simp [this]
      have : (e :: m).filter (fun e => P e.1) = e :: m.filter (fun e => P e.1) := by
        simp [List.filter_cons, he, hP]
      rw [this, List.map_cons, ← List.singleton_append, opInfos_append, hnone]
      simp [opInfos, he]
    · have hpc' : pc ∈ Dict.keys m := by
        rcases List.mem_cons.mp hpc with h | h
        · exact absurd h.symm he
        · exact h
      rw [List.filter_cons]
      split
      · rw [List.map_cons, ← List.singleton_append, opInfos_append, ih hnd'.2 hpc']
        simp [opInfos, he]
      · exact ih hnd'.2 hpc'

theorem filter_key_none (m : Mapping) (pc : PC) (P : PC → Prop) [DecidablePred P]
    (hP : ¬ P pc) (i : Info D) :
    opInfos pc ((m.filter (fun e => P e.1)).map (fun e => (e.2, e.1, i))) = [] := by
  unfold opInfos
  rw [List.filterMap_eq_nil_iff]
  intro c hc
  obtain ⟨x, hx, rfl⟩ := List.mem_map.mp hc
  have hx2 := (List.mem_filter.mp hx).2
  simp only [decide_eq_true_eq] at hx2
  have : x.1 ≠ pc := fun h => hP (h ▸ hx2)
  simp [this]

theorem assignPulse_infos (m : Mapping) (hnd : (Dict.keys m).Nodup) (pc : PC)
    (hpc : pc ∈ Dict.keys m) (name : String) (n : Int) (wrap : D → Data D) (q : Piece D)
    (l : List (Call D)) (h : assignPulse m name n wrap q = .ok l) :
    opInfos pc l =
      if pulseFor pc name q then [⟨name, wrap q.data, startAt n q.t0, n⟩] else [] := by
  unfold assignPulse at h
  cases hg : onGrid (startAt n q.t0) with
  | error e => rw [hg] at h; cases h
  | ok k =>
    rw [hg] at h
    simp only at h
    cases hp : q.port with
    | none =>
      rw [hp] at h
      simp only at h
      have hl := (Except.ok.inj h).symm
      rw [hl]
      by_cases hP : name = "LatchReset" ∨ some pc.2 = q.clock
      · rw [filter_key m hnd pc hpc (fun p => name = "LatchReset" ∨ some p.2 = q.clock) hP]
        have : pulseFor pc name q = true := by
          simp only [pulseFor, hp, decide_eq_true_eq]
          exact hP.imp id Eq.symm
        rw [if_pos this]
      · rw [filter_key_none m pc (fun p => name = "LatchReset" ∨ some p.2 = q.clock) hP]
        have : ¬ pulseFor pc name q = true := by
          simp only [pulseFor, hp, decide_eq_true_eq]
          exact fun hh => hP (hh.imp id Eq.symm)
        rw [if_neg this]
    | some p =>
      rw [hp] at h
      simp only at h
      cases hc : q.clock with
      | none => rw [hc] at h; cases h
      | some c =>
        rw [hc] at h
        simp only at h
        cases hm : Dict.get? m (p, c) with
        | none => rw [hm] at h; cases h
        | some dev =>
          rw [hm] at h
          simp only at h
          have hl := (Except.ok.inj h).symm
          rw [hl]
          by_cases hpcq : (p, c) = pc
          · subst hpcq
            simp [opInfos, pulseFor, hp, hc]
          · have h1 : ¬ (p = pc.1 ∧ c = pc.2) := fun hh => hpcq (by rw [hh.1, hh.2])
            have h2 : pulseFor pc name q = false := by
              simp only [pulseFor, hp, hc, Option.some.injEq, decide_eq_false_iff_not]
              exact h1
            simp [opInfos, hpcq, h2]

theorem assignPulses_infos (m : Mapping) (hnd : (Dict.keys m).Nodup) (pc : PC)
    (hpc : pc ∈ Dict.keys m) (name : String) (n : Int) (wrap : D → Data D) :
    ∀ (qs : List (Piece D)) (l : List (Call D)), assignPulses m name n wrap qs = .ok l →
    opInfos pc l =
      (qs.filter (pulseFor pc name)).map (fun q => ⟨name, wrap q.data, startAt n q.t0, n⟩)
  | [], l, h => by
    have hl := (Except.ok.inj h).symm; rw [hl]; rfl
  | q :: qs, l, h => by
    unfold assignPulses at h
    cases ha : assignPulse m name n wrap q with
    | error e => rw [ha] at h; cases h
    | ok a =>
      cases hb : assignPulses m name n wrap qs with
      | error e => rw [ha, hb] at h; cases h
      | ok b =>
        rw [ha, hb] at h
        have hl : l = a ++ b := (Except.ok.inj h).symm
        rw [hl, opInfos_append, assignPulse_infos m hnd pc hpc name n wrap q a ha,
          assignPulses_infos m hnd pc hpc name n wrap qs b hb, List.filter_cons]
        split <;> simp

theorem assignAcqs_infos (m : Mapping) (idx : Label × Nat → Option (List Int)) (pc : PC)
    (name : String) (n : Int) (label : Label) :
    ∀ (qs : List (Piece D)) (i : Nat) (l : List (Call D)),
    assignAcqs m idx name n label i qs = .ok l →
    opInfos pc l = acqInfos idx pc name n label i qs
  | [], i, l, h => by
    have hl := (Except.ok.inj h).symm; rw [hl]; rfl
  | q :: qs, i, l, h => by
    unfold assignAcqs at h
    cases ha : assignAcq m idx name n label i q with
    | error e => rw [ha] at h; cases h
    | ok a =>
      cases hb : assignAcqs m idx name n label (i + 1) qs with
      | error e => rw [ha, hb] at h; cases h
      | ok b =>
        rw [ha, hb] at h
        have hl : l = a ++ b := (Except.ok.inj h).symm
        rw [hl, opInfos_append, assignAcqs_infos m idx pc name n label qs (i + 1) b hb, acqInfos]
        congr 1
        unfold assignAcq at ha
        cases hp : q.port with
        | none =>
          rw [hp] at ha
          have := (Except.ok.inj ha).symm; rw [this]; simp [opInfos]
        | some p =>
          rw [hp] at ha
          simp only at ha
          cases hc : q.clock with
          | none => rw [hc] at ha; cases ha
          | some c =>
            rw [hc] at ha
            simp only at ha
            cases hm : Dict.get? m (p, c) with
            | none => rw [hm] at ha; cases ha
            | some dev =>
              rw [hm] at ha
              have hl := (Except.ok.inj ha).symm
              rw [hl]
              by_cases hpcq : (p, c) = pc
              · subst hpcq; simp [opInfos]
              · have h1 : ¬ (p = pc.1 ∧ c = pc.2) := fun hh => hpcq (by rw [hh.1, hh.2])
                simp [opInfos, hpcq, h1]

theorem assignStop_infos (m : Mapping) (pc : PC) (n : Int) :
    ∀ (pcs : List PC) (l : List (Call D)), pcs.Nodup → assignStop m n pcs = .ok l →
    opInfos pc l =
      if pc ∈ pcs then [⟨"ControlFlowReturn", .loopStop, startAt n 0, n⟩] else []
  | [], l, _, h => by
    have hl := (Except.ok.inj h).symm; rw [hl]; simp [opInfos]
  | p :: pcs, l, hnd, h => by
    unfold assignStop at h
    cases hm : Dict.get? m p with
    | none => rw [hm] at h; cases h
    | some dev =>
      cases hb : assignStop (D := D) m n pcs with
      | error e => rw [hm, hb] at h; cases h
      | ok b =>
        rw [hm, hb] at h
        have hl := (Except.ok.inj h).symm
        obtain ⟨hn1, hn2⟩ := List.nodup_cons.mp hnd
        rw [hl, ← List.singleton_append, opInfos_append, assignStop_infos m pc n pcs b hn2 hb]
        by_cases hp : p = pc
        · subst hp; simp [opInfos, hn1]
        · simp [opInfos, hp, Ne.symm hp]

theorem marker_filter (pc : PC) (name : String) (t0 : Rat) (d : D) :
    ∀ (pcs : List PC), pcs.Nodup →
    (markerPieces pcs t0 d).filter (pulseFor pc name) =
      if pc ∈ pcs then [⟨some pc.1, some pc.2, t0, d⟩] else []
  | [], _ => rfl
  | p :: pcs, hnd => by
    obtain ⟨hn1, hn2⟩ := List.nodup_cons.mp hnd
    have ih := marker_filter pc name t0 d pcs hn2
    unfold markerPieces at ih ⊢
    rw [List.map_cons, List.filter_cons, ih]
    by_cases hp : p = pc
    · subst hp; simp [pulseFor, hn1]
    · have h1 : ¬ (p.1 = pc.1 ∧ p.2 = pc.2) := fun hh => hp (Prod.ext hh.1 hh.2)
      simp [pulseFor, h1, Ne.symm hp]

/-- The markers list each port-clock once. -/
def Entry.nodup (e : Entry D) : Prop :=
  match e.payload with
  | .op _ => True
  | .start _ pcs _ => pcs.Nodup
  | .stop pcs _ => pcs.Nodup

theorem assignEntry_infos (m : Mapping) (hnd : (Dict.keys m).Nodup)
    (idx : Label × Nat → Option (List Int)) (pc : PC) (hpc : pc ∈ Dict.keys m) (e : Entry D)
    (he : e.nodup) (l : List (Call D)) (h : assignEntry m idx e = .ok l) :
    opInfos pc l = entryInfos idx pc e := by
  unfold assignEntry at h
  unfold entryInfos
  unfold Entry.nodup at he
  cases hp : e.payload with
  | op p =>
    rw [hp] at h
    simp only at h ⊢
    unfold plainInfos
    by_cases hw : p.window
    · rw [if_pos hw] at h ⊢
      have hl := (Except.ok.inj h).symm; rw [hl]; rfl
    · rw [if_neg hw] at h ⊢
      split at h
      · cases h
      · obtain ⟨x, y, hx, hy, hl⟩ := both_ok h
        obtain ⟨u, v, hu, hv, hy'⟩ := both_ok hy
        rw [hl, hy', opInfos_append, opInfos_append,
          assignPulses_infos m hnd pc hpc _ _ _ _ _ hu, assignAcqs_infos m idx pc _ _ _ _ _ _ hv,
          ← List.append_assoc]
        congr 2
        cases ha : p.asm with
        | none =>
          rw [ha] at hx
          have := (Except.ok.inj hx).symm; rw [this]; simp [opInfos]
        | some pa =>
          rw [ha] at hx
          simp only at hx
          unfold assignAsm at hx
          cases hm : Dict.get? m pa with
          | none => rw [hm] at hx; cases hx
          | some dev =>
            rw [hm] at hx
            have := (Except.ok.inj hx).symm
            rw [this]
            by_cases hpa : pa = pc
            · subst hpa; simp [opInfos]
            · simp [opInfos, hpa]
  | start c pcs v =>
    rw [hp] at h he
    simp only at h he ⊢
    split at h
    · cases h
    · rw [assignPulses_infos m hnd pc hpc _ _ _ _ _ h, marker_filter pc _ _ _ pcs he]
      split <;> rfl
  | stop pcs v =>
    rw [hp] at h he
    simp only at h he ⊢
    split at h
    · cases h
    · exact assignStop_infos m pc _ pcs l he h

theorem assignAll_infos (m : Mapping) (hnd : (Dict.keys m).Nodup)
    (idx : Label × Nat → Option (List Int)) (pc : PC) (hpc : pc ∈ Dict.keys m) :
    ∀ (es : List (Entry D)) (l : List (Call D)), (∀ e ∈ es, e.nodup) →
    assignAll m idx es = .ok l → opInfos pc l = es.flatMap (entryInfos idx pc)
  | [], l, _, h => by
    have hl := (Except.ok.inj h).symm; rw [hl]; rfl
  | e :: es, l, hn, h => by
    obtain ⟨x, y, hx, hy, hl⟩ := both_ok h
    rw [hl, opInfos_append, assignEntry_infos m hnd idx pc hpc e (hn e (by simp)) x hx,
      assignAll_infos m hnd idx pc hpc es y (fun e he => hn e (List.mem_cons_of_mem _ he)) hy,
      List.flatMap_cons]

mutual
theorem entries_nodup : ∀ (op : Op D) (off : Rat) (label : Label), ∀ e ∈ entries op off label,
    e.nodup
  | .plain p, off, label, e, he => by
    simp only [entries, List.mem_singleton] at he; subst he; exact True.intro
  | .sched items, off, label, e, he => itemEntries_nodup items off label e he
  | .ctl c dur body, off, label, e, he => by
    simp only [entries, List.mem_cons, List.mem_append, List.not_mem_nil, or_false] at he
    rcases he with rfl | he | rfl
    · exact List.nodup_dedup _
    · exact entries_nodup body off _ e he
    · exact List.nodup_dedup _
theorem itemEntries_nodup : ∀ (items : Items D) (off : Rat) (label : Label),
    ∀ e ∈ itemEntries items off label, e.nodup
  | .nil, off, label, e, he => by cases he
  | .cons name abs op rest, off, label, e, he => by
    simp only [itemEntries, List.mem_append] at he
    rcases he with he | he
    · exact entries_nodup op _ _ e he
    · exact itemEntries_nodup rest _ _ e he
end

mutual
/-- The content, written out, is what the entries do, in their order. -/
theorem content_flatten (idx : Label × Nat → Option (List Int)) (pc : PC) :
    ∀ (op : Op D) (off : Rat) (label : Label) (k : Forest (Info D)),
    (content idx pc op off label k).flatten =
      (entries op off label).flatMap (entryInfos idx pc) ++ k.flatten
  | .plain p, off, label, k => by
    simp [content, entries, entryInfos, flatten_leaves]
  | .sched items, off, label, k => by
    simp only [content, entries]; exact itemContent_flatten idx pc items off label k
  | .ctl c dur body, off, label, k => by
    have ih := content_flatten idx pc body off (label ++ [none])
    unfold content
    by_cases h : pc ∈ body.used
    · rw [if_pos h]
      simp [Forest.flatten, entries, entryInfos, List.mem_dedup, h, ih]
    · rw [if_neg h]
      simp [entries, entryInfos, List.mem_dedup, h, ih]
theorem itemContent_flatten (idx : Label × Nat → Option (List Int)) (pc : PC) :
    ∀ (items : Items D) (off : Rat) (label : Label) (k : Forest (Info D)),
    (itemContent idx pc items off label k).flatten =
      (itemEntries items off label).flatMap (entryInfos idx pc) ++ k.flatten
  | .nil, off, label, k => by simp [itemContent, itemEntries]
  | .cons name abs op rest, off, label, k => by
    simp only [itemContent, itemEntries, content_flatten idx pc op,
      itemContent_flatten idx pc rest, List.flatMap_append, List.append_assoc]
end

theorem acqInfos_start (idx : Label × Nat → Option (List Int)) (pc : PC) (name : String) (n : Int)
    (label : Label) : ∀ (qs : List (Piece D)) (i : Nat), ∀ x ∈ acqInfos idx pc name n label i qs,
    x.start = n
  | [], i, x, hx => by cases hx
  | q :: qs, i, x, hx => by
    unfold acqInfos at hx
    rcases List.mem_append.mp hx with hx | hx
    · split at hx
      · rw [List.mem_singleton] at hx; subst hx; rfl
      · cases hx
    · exact acqInfos_start idx pc name n label qs (i + 1) x hx

theorem entryInfos_start (idx : Label × Nat → Option (List Int)) (pc : PC) (e : Entry D) :
    ∀ x ∈ entryInfos idx pc e, x.start = ns e.time := by
  intro x hx
  unfold entryInfos at hx
  cases hp : e.payload with
  | op p =>
    rw [hp] at hx
    simp only [plainInfos] at hx
    split at hx
    · cases hx
    · rcases List.mem_append.mp hx with hx | hx
      · rcases List.mem_append.mp hx with hx | hx
        · split at hx
          · rw [List.mem_singleton] at hx; subst hx; rfl
          · cases hx
        · obtain ⟨q, _, rfl⟩ := List.mem_map.mp hx; rfl
      · exact acqInfos_start idx pc _ _ _ _ _ x hx
  | start c pcs v =>
    rw [hp] at hx
    simp only at hx
    split at hx
    · rw [List.mem_singleton] at hx; subst hx; rfl
    · cases hx
  | stop pcs v =>
    rw [hp] at hx
    simp only at hx
    split at hx
    · rw [List.mem_singleton] at hx; subst hx; rfl
    · cases hx

/-- **Main lemma**: the operations of a sequencer are the content sorted by time. -/
theorem sequencerOps_eq (m : Mapping) (hnd : (Dict.keys m).Nodup)
    (idx : Label × Nat → Option (List Int)) (pc : PC) (hpc : pc ∈ Dict.keys m) (root : Op D)
    (L : List (Info D)) (h : sequencerOps m idx root pc = .ok L) :
    L = sortBy Info.key (content idx pc root 0 [] .nil).flatten ∧
      (∀ i ∈ L, (onGrid i.timing).isOk) ∧ checkAll (entries root 0 []) = .ok () := by
  unfold sequencerOps at h
  cases ha : assign m idx root with
  | error e => rw [ha] at h; cases h
  | ok log =>
    rw [ha] at h
    simp only at h
    unfold assign at ha
    simp only at ha
    cases hc : checkAll (entries root 0 []) with
    | error e => rw [hc] at ha; cases ha
    | ok u =>
      rw [hc] at ha
      simp only at ha
      have hlog := assignAll_infos m hnd idx pc hpc _ log (fun e he =>
        entries_nodup root 0 [] e (mem_sortBy.mp he)) ha
      have hstart := sortBy_flatMap (fun e : Entry D => ns e.time) (fun i : Info D => i.start)
        (entryInfos idx pc) (entries root 0 []) (fun a _ b hb => entryInfos_start idx pc a b hb)
      rw [hstart] at hlog
      unfold ordered at h
      split at h
      · rename_i hall
        have hL := (Except.ok.inj h).symm
        refine ⟨?_, ?_, rfl⟩
        · rw [hL, hlog, sortBy_sortBy, content_flatten]
          simp only [Forest.flatten, List.append_nil]
          rfl
        · intro i hi
          rw [hL] at hi
          exact List.all_eq_true.mp hall i (mem_sortBy.mp hi)
      · cases h

end Verif.Flatten
