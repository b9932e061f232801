/-
The map of labels: what each step of `_set_conditional_info_map` does to it.
-/
import Verif.Conditional.Spec
import Mathlib.Data.List.Nodup

set_option linter.unusedSimpArgs false
set_option linter.unusedVariables false

namespace Verif.Conditional

/-! ### Steps -/

/-- One place. -/
def runAct (modType : PC → Option ModType) : Act → St → Except Err (Act × St)
  | .acq q, s => match updateAcq modType q s with
    | .error e => .error e
    | .ok (q', s') => .ok (.acq q', s')
  | .cond c, s => .ok (.cond (setCond c s).1, (setCond c s).2)

/-- All places. -/
def runActs (modType : PC → Option ModType) : List Act → St → Except Err (List Act × St)
  | [], s => .ok ([], s)
  | a :: as, s => match runAct modType a s with
    | .error e => .error e
    | .ok (a', s') => match runActs modType as s' with
      | .error e => .error e
      | .ok (as', s'') => .ok (a' :: as', s'')

theorem runActs_append (mt : PC → Option ModType) : ∀ (a b : List Act) (s : St),
    runActs mt (a ++ b) s = (match runActs mt a s with
      | .error e => .error e
      | .ok (a', s') => match runActs mt b s' with
        | .error e => .error e
        | .ok (b', s'') => .ok (a' ++ b', s''))
  | [], b, s => by
    simp only [List.nil_append, runActs]
    cases runActs mt b s with
    | error e => rfl
    | ok r => rfl
  | x :: a, b, s => by
    rw [List.cons_append, runActs, runActs]
    cases hx : runAct mt x s with
    | error e => rfl
    | ok r =>
      obtain ⟨x', s'⟩ := r
      simp only
      rw [runActs_append mt a b s']
      cases ha : runActs mt a s' with
      | error e => rfl
      | ok r =>
        obtain ⟨a', s''⟩ := r
        simp only
        cases hb : runActs mt b s'' with
        | error e => rfl
        | ok r => rfl

theorem dualLoop_length (m : Option ModType) : ∀ (ls : List Label) (s : St) as s',
    dualLoop m ls s = .ok (as, s') → as.length = ls.length
  | [], s, as, s', h => by
    simp only [dualLoop] at h
    cases Except.ok.inj h; rfl
  | none :: ls, s, as, s', h => by
    simp only [dualLoop] at h
    cases hr : dualLoop m ls s with
    | error e => rw [hr] at h; cases h
    | ok r =>
      obtain ⟨as1, s1⟩ := r
      rw [hr] at h
      have := dualLoop_length m ls s _ _ hr
      have h' := Except.ok.inj h
      injection h' with h1 h2
      rw [← h1]; simp [this]
  | some l :: ls, s, as, s', h => by
    simp only [dualLoop] at h
    cases m with
    | none => cases h
    | some t =>
      cases t with
      | qrm => cases h
      | other => cases h
      | qtm =>
        simp only at h
        cases hs : (s.get (some l)).2.settings (some l) false 1 with
        | error e => rw [hs] at h; cases h
        | ok s1 =>
          rw [hs] at h
          simp only at h
          cases hr : dualLoop (some .qtm) ls s1 with
          | error e => rw [hr] at h; cases h
          | ok r =>
            obtain ⟨as1, s2⟩ := r
            rw [hr] at h
            have := dualLoop_length _ ls s1 _ _ hr
            have h' := Except.ok.inj h
            injection h' with h1 h2
            rw [← h1]; simp [this]

/-- Only what is filled in changes. -/
theorem updateAcq_blank {mt : PC → Option ModType} {q q' : AcqInfo} {s s' : St}
    (h : updateAcq mt q s = .ok (q', s')) : q'.blank = q.blank := by
  unfold updateAcq at h
  split at h
  · injection h with h; injection h with h1 h2; rw [← h1]; rfl
  · injection h with h; injection h with h1 h2; rw [← h1]; rfl
  · cases h
  · simp only at h
    split at h
    · cases h
    · split at h
      · cases h
      · injection h with h; injection h with h1 h2; rw [← h1]; rfl
    · split at h
      · cases h
      · injection h with h; injection h with h1 h2; rw [← h1]; rfl
    · injection h with h; injection h with h1 h2; rw [← h1]; rfl
  · split at h
    · cases h
    · injection h with h; injection h with h1 h2; rw [← h1]; rfl
  · injection h with h; injection h with h1 h2; rw [← h1]

theorem blank_proto {q q' : AcqInfo} (h : q'.blank = q.blank) : q'.proto = q.proto := by
  have := congrArg AcqInfo.proto h
  exact this

theorem isConditional_blank : ∀ (a b : List AcqInfo),
    a.map AcqInfo.blank = b.map AcqInfo.blank → isConditional a = isConditional b
  | [], [], _ => rfl
  | [], _ :: _, h => by simp at h
  | _ :: _, [], h => by simp at h
  | p :: a, q :: b, h => by
    simp only [List.map_cons, List.cons.injEq] at h
    have h1 := congrArg AcqInfo.label h.1
    have h2 := congrArg AcqInfo.labels h.1
    simp only [AcqInfo.blank] at h1 h2
    simp [isConditional, h1, h2]

theorem addressed_eq (q : AcqInfo) : addressed q = handled q.proto := by
  unfold addressed handled
  cases q.proto <;> rfl

theorem sends_eq (infos : List AcqInfo) : sends infos = isConditional infos := by
  cases infos with
  | nil => rfl
  | cons q qs =>
    simp only [sends, isConditional, List.head?_cons]
    cases q.label <;> cases q.labels <;> simp

/-- The acquisitions of one operation as places. -/
theorem updateAll_run (mt : PC → Option ModType) : ∀ (infos : List AcqInfo) (s : St),
    match updateAll mt infos s with
    | .error e => runActs mt ((infos.filter addressed).map .acq) s = .error e
    | .ok (infos', s') => infos'.map AcqInfo.blank = infos.map AcqInfo.blank ∧
      runActs mt ((infos.filter addressed).map .acq) s =
        .ok ((infos'.filter addressed).map .acq, s')
  | [], s => ⟨rfl, rfl⟩
  | q :: qs, s => by
    unfold updateAll
    by_cases hh : handled q.proto = true
    · simp only [hh, addressed_eq, if_true, List.filter_cons, List.map_cons, runActs, runAct]
      cases hq : updateAcq mt q s with
      | error e => rfl
      | ok r =>
        obtain ⟨q', s'⟩ := r
        have hbl := updateAcq_blank hq
        have hp := blank_proto hbl
        simp only
        have ih := updateAll_run mt qs s'
        cases hr : updateAll mt qs s' with
        | error e => rw [hr] at ih; simp only at ih ⊢; rw [ih]
        | ok r =>
          obtain ⟨qs', s''⟩ := r
          rw [hr] at ih
          simp only at ih ⊢
          rw [ih.2]
          simp only [hp, addressed_eq, hh, if_true, List.map_cons, hbl, ih.1, List.filter_cons]
          exact ⟨trivial, trivial⟩
    · simp only [hh, addressed_eq, Bool.false_eq_true, if_false, List.filter_cons]
      have ih := updateAll_run mt qs s
      cases hr : updateAll mt qs s with
      | error e => rw [hr] at ih; simp only at ih ⊢; rw [ih]
      | ok r =>
        obtain ⟨qs', s''⟩ := r
        rw [hr] at ih
        simp only at ih ⊢
        rw [ih.2]
        simp only [hh, addressed_eq, Bool.false_eq_true, if_false, List.map_cons, ih.1, List.filter_cons]
        exact ⟨trivial, trivial⟩

mutual
/-- Without what the compiler fills in. -/
def Op.blank : Op → Op
  | .plain infos => .plain (infos.map AcqInfo.blank)
  | .latch pc => .latch pc
  | .cond c body => .cond c.blank body
  | .loop n d body => .loop n d body.blank
  | .sched items => .sched items.blank
def Items.blank : Items → Items
  | .nil => .nil
  | .cons t op rest => .cons t op.blank rest.blank
end

mutual
theorem setMap_run (mt : PC → Option ModType) : ∀ (op : Op) (s : St),
    match setMap mt op s with
    | .error e => runActs mt (acts op) s = .error e
    | .ok (op', s') => op'.blank = op.blank ∧ runActs mt (acts op) s = .ok (acts op', s')
  | .plain infos, s => by
    simp only [setMap, acts, sends_eq]
    by_cases hc : isConditional infos = true
    · simp only [hc, if_true]
      have := updateAll_run mt infos s
      cases hr : updateAll mt infos s with
      | error e => rw [hr] at this; exact this
      | ok r =>
        obtain ⟨infos', s'⟩ := r
        rw [hr] at this
        simp only at this ⊢
        have hc' := isConditional_blank infos' infos this.1
        simp only [acts, sends_eq, hc', hc, if_true, Op.blank, this.1]
        exact ⟨trivial, this.2⟩
    · simp only [hc, Bool.false_eq_true, if_false, acts, sends_eq, runActs]
      exact ⟨trivial, trivial⟩
  | .latch pc, s => by simp only [setMap, acts, runActs]; exact ⟨trivial, trivial⟩
  | .cond c body, s => by
    simp only [setMap, acts, runActs, runAct, Op.blank]
    refine ⟨?_, trivial⟩
    simp [setCond, Cond.blank]
  | .loop n d body, s => by
    have ih := setMap_run mt body s
    simp only [setMap, acts]
    cases hr : setMap mt body s with
    | error e => rw [hr] at ih; exact ih
    | ok r =>
      obtain ⟨b', s'⟩ := r
      rw [hr] at ih
      simp only at ih ⊢
      simp only [acts, Op.blank, ih.1]
      exact ⟨trivial, ih.2⟩
  | .sched items, s => by
    have ih := setMapItems_run mt items s
    simp only [setMap, acts]
    cases hr : setMapItems mt items s with
    | error e => rw [hr] at ih; exact ih
    | ok r =>
      obtain ⟨b', s'⟩ := r
      rw [hr] at ih
      simp only at ih ⊢
      simp only [acts, Op.blank, ih.1]
      exact ⟨trivial, ih.2⟩
theorem setMapItems_run (mt : PC → Option ModType) : ∀ (items : Items) (s : St),
    match setMapItems mt items s with
    | .error e => runActs mt (itemActs items) s = .error e
    | .ok (items', s') =>
      items'.blank = items.blank ∧ runActs mt (itemActs items) s = .ok (itemActs items', s')
  | .nil, s => ⟨rfl, rfl⟩
  | .cons t op rest, s => by
    have ih := setMap_run mt op s
    simp only [setMapItems, itemActs]
    rw [runActs_append]
    cases hr : setMap mt op s with
    | error e =>
      rw [hr] at ih
      simp only at ih ⊢
      rw [ih]
    | ok r =>
      obtain ⟨op', s'⟩ := r
      rw [hr] at ih
      simp only at ih ⊢
      rw [ih.2]
      have ih2 := setMapItems_run mt rest s'
      cases hr2 : setMapItems mt rest s' with
      | error e =>
        rw [hr2] at ih2
        simp only at ih2 ⊢
        rw [ih2]
      | ok r =>
        obtain ⟨rest', s''⟩ := r
        rw [hr2] at ih2
        simp only at ih2 ⊢
        rw [ih2.2]
        simp only [itemActs, Items.blank, ih.1, ih2.1]
        exact ⟨trivial, trivial⟩
end

/-! ### Errors of the first part -/

theorem settings_err (s : St) (l : Label) (b : Bool) (c : Nat) :
    s.settings l b c ≠ .error .tooManyLabels := by
  unfold St.settings
  simp only
  split
  · intro h; cases h
  · split
    · intro h; cases h
    · intro h; cases h

theorem dualLoop_err (m : Option ModType) : ∀ (ls : List Label) (s : St),
    dualLoop m ls s ≠ .error .tooManyLabels
  | [], s => by simp [dualLoop]
  | none :: ls, s => by
    simp only [dualLoop]
    have ih := dualLoop_err m ls s
    cases hr : dualLoop m ls s with
    | error e => rw [hr] at ih; exact ih
    | ok r => intro h; cases h
  | some l :: ls, s => by
    cases m with
    | none => intro h; simp [dualLoop] at h
    | some m =>
      cases m with
      | qtm =>
        simp only [dualLoop]
        have h1 := settings_err (s.get (some l)).2 (some l) false 1
        cases hr : (s.get (some l)).2.settings (some l) false 1 with
        | error e => rw [hr] at h1; simpa using h1
        | ok s' =>
          simp only
          have ih := dualLoop_err (some .qtm) ls s'
          cases hr : dualLoop (some .qtm) ls s' with
          | error e => rw [hr] at ih; simpa using ih
          | ok r => intro h; cases h
      | qrm => intro h; simp [dualLoop] at h
      | other => intro h; simp [dualLoop] at h

theorem updateAcq_err (mt : PC → Option ModType) (q : AcqInfo) (s : St) :
    updateAcq mt q s ≠ .error .tooManyLabels := by
  unfold updateAcq
  cases q.proto with
  | thresholded => intro h; cases h
  | weightedThresholded => intro h; cases h
  | trigCount less th =>
    cases less with
    | none => intro h; cases h
    | some less =>
      simp only
      cases mt (q.port, q.clock) with
      | none => intro h; cases h
      | some m =>
        cases m with
        | qrm =>
          simp only
          have h1 := settings_err (s.get q.label).2 q.label less th
          cases hr : (s.get q.label).2.settings q.label less th with
          | error e => rw [hr] at h1; simpa using h1
          | ok s' => intro h; cases h
        | qtm =>
          simp only
          have h1 := settings_err (s.get q.label).2 q.label false 1
          cases hr : (s.get q.label).2.settings q.label false 1 with
          | error e => rw [hr] at h1; simpa using h1
          | ok s' => intro h; cases h
        | other => intro h; cases h
  | dual =>
    simp only
    have ih := dualLoop_err (mt (q.port, q.clock)) q.labels s
    cases hr : dualLoop (mt (q.port, q.clock)) q.labels s with
    | error e => rw [hr] at ih; simpa using ih
    | ok r => intro h; cases h
  | other => intro h; cases h

theorem runActs_err (mt : PC → Option ModType) : ∀ (as : List Act) (s : St) (e : Err),
    runActs mt as s = .error e → e ≠ .tooManyLabels
  | [], s, e, h => by simp [runActs] at h
  | a :: as, s, e, h => by
    simp only [runActs] at h
    cases hr : runAct mt a s with
    | error e' =>
      rw [hr] at h
      simp only [Except.error.injEq] at h
      subst h
      cases a with
      | acq q =>
        simp only [runAct] at hr
        have := updateAcq_err mt q s
        intro he
        subst he
        cases hu : updateAcq mt q s with
        | error e' => rw [hu] at hr this; simp only [Except.error.injEq] at hr; rw [hr] at this; exact this rfl
        | ok r => rw [hu] at hr; cases hr
      | cond c => simp [runAct] at hr
    | ok r =>
      obtain ⟨a', s'⟩ := r
      rw [hr] at h
      simp only at h
      cases hr2 : runActs mt as s' with
      | error e' =>
        rw [hr2] at h
        simp only [Except.error.injEq] at h
        rw [← h]
        exact runActs_err mt as s' e' hr2
      | ok r => rw [hr2] at h; simp at h

/-! ### The map -/

/-- Look up. -/
def St.look (s : St) (l : Label) : Option Info := Dict.get? s.map l

/-- What holds of the map. -/
structure Inv (s : St) : Prop where
  nodup : (Dict.keys s.map).Nodup
  addresses : s.map.map (fun e => e.2.address) = List.range' 1 s.map.length
  next : s.next = s.map.length + 1
  both : ∀ l i, s.look l = some i → (i.invert.isSome = i.count.isSome)
  pcs : ∀ l, (s.pcs l).Nodup

theorem inv_init : Inv ⟨[], 1⟩ :=
  ⟨by simp [Dict.keys], rfl, rfl, fun l i h => (by cases h), fun l => (by simp [St.pcs, Dict.get?])⟩

/-- Trigger settings of a label. -/
def St.setting (s : St) (l : Label) : Option (Bool × Nat) :=
  match s.look l with
  | some i => match i.invert, i.count with
    | some b, some c => some (b, c)
    | _, _ => none
  | none => none

/-- Set a demanded setting. -/
def upd (σ : Label → Option (Bool × Nat)) (d : Label × Bool × Nat) : Label → Option (Bool × Nat) :=
  fun l => if l = d.1 then some d.2 else σ l

/-- Demands that are not in conflict. -/
def Compat (σ : Label → Option (Bool × Nat)) : List (Label × Bool × Nat) → Prop
  | [] => True
  | d :: ds => (σ d.1 = none ∨ σ d.1 = some d.2) ∧ Compat (upd σ d) ds

theorem Compat_append : ∀ (a b : List (Label × Bool × Nat)) (σ : Label → Option (Bool × Nat)),
    Compat σ (a ++ b) ↔ Compat σ a ∧ Compat (a.foldl upd σ) b
  | [], b, σ => by simp [Compat]
  | d :: a, b, σ => by
    rw [List.cons_append, Compat, Compat, List.foldl_cons, Compat_append a b, and_assoc]

/-- In words: each agrees with what is set, and any two agree. -/
theorem Compat_iff : ∀ (ds : List (Label × Bool × Nat)) (σ : Label → Option (Bool × Nat)),
    Compat σ ds ↔ (∀ d ∈ ds, σ d.1 = none ∨ σ d.1 = some d.2) ∧
      ∀ d ∈ ds, ∀ e ∈ ds, d.1 = e.1 → d.2 = e.2
  | [], σ => by simp [Compat]
  | d :: ds, σ => by
    rw [Compat, Compat_iff ds]
    constructor
    · rintro ⟨h1, h2, h3⟩
      have hd : ∀ e ∈ ds, e.1 = d.1 → e.2 = d.2 := by
        intro e he hed
        have := h2 e he
        simp only [upd, hed, if_true, reduceCtorEq, false_or, Option.some.injEq] at this
        exact this.symm
      refine ⟨?_, ?_⟩
      · intro e he
        rcases List.mem_cons.mp he with rfl | he
        · exact h1
        · by_cases hed : e.1 = d.1
          · rw [hed, hd e he hed]; exact h1
          · have := h2 e he
            simpa only [upd, hed, if_false] using this
      · intro e he e' he' hee
        rcases List.mem_cons.mp he with h4 | h4 <;> rcases List.mem_cons.mp he' with h5 | h5
        · rw [h4, h5]
        · rw [h4] at hee ⊢
          exact (hd e' h5 hee.symm).symm
        · rw [h5] at hee ⊢
          exact hd e h4 hee
        · exact h3 e h4 e' h5 hee
    · rintro ⟨h1, h2⟩
      refine ⟨h1 d List.mem_cons_self, ?_, fun e he e' he' =>
        h2 e (List.mem_cons_of_mem _ he) e' (List.mem_cons_of_mem _ he')⟩
      intro e he
      by_cases hed : e.1 = d.1
      · right
        simp only [upd, hed, if_true, Option.some.injEq]
        exact (h2 e (List.mem_cons_of_mem _ he) d List.mem_cons_self hed).symm
      · simp only [upd, hed, if_false]
        exact h1 e (List.mem_cons_of_mem _ he)

/-- What a step does to the map: labels touched, settings demanded, port-clocks added. -/
structure Eff (s s' : St) (touched : List Label) (ds : List (Label × Bool × Nat))
    (rs : List (Label × List PC)) : Prop where
  inv : Inv s'
  keys : ∀ l, l ∈ Dict.keys s'.map ↔ l ∈ Dict.keys s.map ∨ l ∈ touched
  addr : ∀ l i, s.look l = some i → ∃ i', s'.look l = some i' ∧ i'.address = i.address
  set : s'.setting = ds.foldl upd s.setting
  pcs : ∀ l pc, pc ∈ s'.pcs l ↔ pc ∈ s.pcs l ∨ ∃ r ∈ rs, r.1 = l ∧ pc ∈ r.2

theorem Eff.refl {s : St} (h : Inv s) : Eff s s [] [] [] :=
  ⟨h, by simp, fun l i hi => ⟨i, hi, rfl⟩, rfl, by simp⟩

theorem Eff.trans {s s' s'' : St} {t t' : List Label} {ds ds' : List (Label × Bool × Nat)}
    {rs rs' : List (Label × List PC)} (h : Eff s s' t ds rs) (h' : Eff s' s'' t' ds' rs') :
    Eff s s'' (t ++ t') (ds ++ ds') (rs ++ rs') := by
  refine ⟨h'.inv, ?_, ?_, ?_, ?_⟩
  · intro l
    rw [h'.keys, h.keys, List.mem_append, or_assoc]
  · intro l i hi
    obtain ⟨i', hi', ha⟩ := h.addr l i hi
    obtain ⟨i'', hi'', ha'⟩ := h'.addr l i' hi'
    exact ⟨i'', hi'', ha'.trans ha⟩
  · rw [h'.set, h.set, List.foldl_append]
  · intro l pc
    rw [h'.pcs, h.pcs]
    simp only [List.mem_append, or_and_right, exists_or, or_assoc]

theorem look_get (s : St) (l : Label) : (s.get l).2.look l = some (s.get l).1 := by
  unfold St.get St.look
  cases h : Dict.get? s.map l with
  | none => simp [Dict.get?_set_self]
  | some i => simpa using h

theorem look_get_ne (s : St) {l l' : Label} (h : l' ≠ l) : (s.get l).2.look l' = s.look l' := by
  unfold St.get St.look
  cases h' : Dict.get? s.map l with
  | none => simp [Dict.get?_set_ne _ _ h]
  | some i => rfl

theorem look_put (s : St) (l : Label) (i : Info) (l' : Label) :
    (s.put l i).look l' = if l' = l then some i else s.look l' := by
  unfold St.put St.look
  rw [Dict.get?_set]

theorem mem_keys_look (s : St) (l : Label) : l ∈ Dict.keys s.map ↔ ∃ i, s.look l = some i := by
  rw [← Dict.get?_isSome_iff, Option.isSome_iff_exists]
  rfl

theorem pcs_look (s : St) (l : Label) :
    s.pcs l = match s.look l with | some i => i.portclocks | none => [] := rfl

theorem get_eff {s : St} (h : Inv s) (l : Label) : Eff s (s.get l).2 [l] [] [] := by
  unfold St.get
  cases hl : Dict.get? s.map l with
  | some i =>
    refine ⟨h, ?_, fun l i hi => ⟨i, hi, rfl⟩, rfl, by simp⟩
    intro l'
    simp only [List.mem_singleton]
    constructor
    · exact Or.inl
    · rintro (h1 | rfl)
      · exact h1
      · exact (mem_keys_look s _).mpr ⟨i, hl⟩
  | none =>
    have hnk : l ∉ Dict.keys s.map := (Dict.get?_eq_none_iff _ _).mp hl
    have hmap : Dict.set s.map l ⟨[], s.next, none, none⟩ =
        s.map ++ [(l, ⟨[], s.next, none, none⟩)] := by
      unfold Dict.set
      rw [if_neg (fun x => hnk ((Dict.any_iff _ _).mp x))]
    have hlook : ∀ l', (⟨Dict.set s.map l ⟨[], s.next, none, none⟩, s.next + 1⟩ : St).look l' =
        if l' = l then some ⟨[], s.next, none, none⟩ else s.look l' := by
      intro l'
      exact Dict.get?_set _ _ _ _
    have hpcs : ∀ l', (⟨Dict.set s.map l ⟨[], s.next, none, none⟩, s.next + 1⟩ : St).pcs l' =
        s.pcs l' := by
      intro l'
      rw [pcs_look, pcs_look, hlook]
      by_cases hll : l' = l
      · subst hll
        have : s.look l' = none := hl
        simp [this]
      · simp [hll]
    refine ⟨⟨?_, ?_, ?_, ?_, ?_⟩, ?_, ?_, ?_, ?_⟩
    · exact Dict.keys_set_nodup h.nodup _ _
    · simp only
      rw [hmap, List.map_append, h.addresses, List.length_append, List.length_singleton,
        List.range'_concat]
      simp [h.next, Nat.add_comm]
    · simp only
      rw [hmap, List.length_append, List.length_singleton, h.next]
    · intro l' i hi
      rw [hlook] at hi
      split at hi
      · injection hi with hi; rw [← hi]; rfl
      · exact h.both l' i hi
    · intro l'
      rw [hpcs]; exact h.pcs l'
    · intro l'
      rw [Dict.mem_keys_set]
      simp [or_comm]
    · intro l' i hi
      refine ⟨i, ?_, rfl⟩
      rw [hlook, if_neg]
      · exact hi
      · rintro rfl
        have : s.look l' = none := hl
        rw [this] at hi; cases hi
    · funext l'
      unfold St.setting
      rw [hlook]
      by_cases hll : l' = l
      · subst hll
        have : s.look l' = none := hl
        simp [this]
      · simp [hll]
    · intro l' pc
      rw [hpcs]; simp

theorem put_eff {s : St} (h : Inv s) {l : Label} {i : Info} (hi : s.look l = some i)
    (j : Info) (ha : j.address = i.address) (hb : j.invert.isSome = j.count.isSome)
    (hp : j.portclocks.Nodup) (ds : List (Label × Bool × Nat)) (rs : List (Label × List PC))
    (hds : (s.put l j).setting = ds.foldl upd s.setting)
    (hrs : ∀ l' pc, pc ∈ (s.put l j).pcs l' ↔ pc ∈ s.pcs l' ∨ ∃ r ∈ rs, r.1 = l' ∧ pc ∈ r.2) :
    Eff s (s.put l j) [] ds rs := by
  have hk : l ∈ Dict.keys s.map := (mem_keys_look s l).mpr ⟨i, hi⟩
  have hmap : (s.put l j).map = s.map.map (fun e => if e.1 = l then (l, j) else e) := by
    unfold St.put Dict.set
    simp only
    rw [if_pos ((Dict.any_iff _ _).mpr hk)]
    simp only [beq_iff_eq]
  refine ⟨⟨?_, ?_, ?_, ?_, ?_⟩, ?_, ?_, hds, hrs⟩
  · exact Dict.keys_set_nodup h.nodup _ _
  · rw [hmap, List.length_map, ← h.addresses, List.map_map]
    apply List.map_congr_left
    intro e he
    simp only [Function.comp]
    by_cases hel : e.1 = l
    · have : Dict.get? s.map e.1 = some e.2 := Dict.get?_of_mem h.nodup he
      rw [hel] at this
      have h2 : s.look l = some e.2 := this
      rw [hi] at h2
      injection h2 with h2
      simp [hel, ha, h2]
    · simp [hel]
  · rw [hmap, List.length_map]; exact h.next
  · intro l' i' hi'
    rw [look_put] at hi'
    split at hi'
    · injection hi' with hi'; rw [← hi']; exact hb
    · exact h.both l' i' hi'
  · intro l'
    rw [pcs_look, look_put]
    by_cases hll : l' = l
    · simp [hll, hp]
    · simp only [hll, if_false]
      exact h.pcs l'
  · intro l'
    have : l' ∈ Dict.keys (s.put l j).map ↔ l' = l ∨ l' ∈ Dict.keys s.map := Dict.mem_keys_set _ _ _ _
    rw [this]
    simp only [List.not_mem_nil, or_false]
    constructor
    · rintro (rfl | h)
      · exact hk
      · exact h
    · exact Or.inr
  · intro l' i' hi'
    rw [look_put]
    by_cases hll : l' = l
    · refine ⟨j, by simp [hll], ?_⟩
      rw [hll, hi] at hi'
      injection hi' with hi'
      rw [ha, hi']
    · exact ⟨i', by simp [hll, hi'], rfl⟩

/-- The setters. -/
theorem settings_spec {s : St} (h : Inv s) (l : Label) (b : Bool) (c : Nat) :
    ((∃ s', s.settings l b c = .ok s') ↔ (s.setting l = none ∨ s.setting l = some (b, c))) ∧
    ∀ s', s.settings l b c = .ok s' → Eff s s' [l] [(l, b, c)] [] := by
  have hg := get_eff h l
  have hlook := look_get s l
  set i := (s.get l).1 with hi
  set s1 := (s.get l).2 with hs1
  have hboth := hg.inv.both l i hlook
  have hset1 : s1.setting = s.setting := hg.set
  have hseti : s.setting l = match i.invert, i.count with
      | some b, some c => some (b, c)
      | _, _ => none := by
    rw [← hset1]; unfold St.setting; rw [hlook]
  unfold St.settings
  simp only [← hi, ← hs1]
  cases hiv : i.invert with
  | none =>
    cases hct : i.count with
    | some c' => rw [hiv, hct] at hboth; cases hboth
    | none =>
      rw [hiv, hct] at hseti
      simp only at hseti
      simp only [ne_eq, not_true, false_and, if_false]
      refine ⟨⟨fun _ => Or.inl hseti, fun _ => ⟨_, rfl⟩⟩, ?_⟩
      intro s' hs'
      have hs' := Except.ok.inj hs'
      rw [← hs']
      refine hg.trans (s'' := s1.put l _) (ds' := [(l, b, c)]) (rs' := []) (t' := []) ?_
      refine put_eff hg.inv hlook _ ?_ ?_ ?_ _ _ ?_ ?_
      · rfl
      · rfl
      · have := hg.inv.pcs l; rw [pcs_look, hlook] at this; exact this
      · funext l'
        simp only [List.foldl_cons, List.foldl_nil, upd, St.setting]
        rw [look_put]
        by_cases hll : l' = l <;> simp [hll]
      · intro l' pc
        rw [pcs_look, look_put, pcs_look]
        by_cases hll : l' = l
        · subst hll; simp [hlook]
        · simp [hll]
  | some b' =>
    cases hct : i.count with
    | none => rw [hiv, hct] at hboth; cases hboth
    | some c' =>
      rw [hiv, hct] at hseti
      simp only at hseti
      by_cases hb : b' = b
      · by_cases hc : c' = c
        · subst hb; subst hc
          simp only [ne_eq, not_true, and_false, if_false]
          refine ⟨⟨fun _ => Or.inr hseti, fun _ => ⟨_, rfl⟩⟩, ?_⟩
          intro s' hs'
          have hs' := Except.ok.inj hs'
          rw [← hs']
          refine hg.trans (s'' := s1.put l _) (ds' := [(l, b', c')]) (rs' := []) (t' := []) ?_
          refine put_eff hg.inv hlook _ ?_ ?_ ?_ _ _ ?_ ?_
          · rfl
          · rfl
          · have := hg.inv.pcs l; rw [pcs_look, hlook] at this; exact this
          · funext l'
            simp only [List.foldl_cons, List.foldl_nil, upd, St.setting]
            rw [look_put]
            by_cases hll : l' = l <;> simp [hll]
          · intro l' pc
            rw [pcs_look, look_put, pcs_look]
            by_cases hll : l' = l
            · subst hll; simp [hlook]
            · simp [hll]
        · subst hb
          have : some c' ≠ some c := by simpa using hc
          simp only [ne_eq, not_true, and_false, if_false, reduceCtorEq, not_false_eq_true, this,
            and_self, if_true]
          refine ⟨⟨?_, ?_⟩, ?_⟩
          · rintro ⟨s', hs'⟩; cases hs'
          · rintro (h1 | h1)
            · rw [h1] at hseti; cases hseti
            · rw [h1] at hseti
              injection hseti with h2
              injection h2 with h3 h4
              exact absurd h4.symm hc
          · rintro s' hs'; cases hs'
      · have : some b' ≠ some b := by simpa using hb
        simp only [ne_eq, reduceCtorEq, not_false_eq_true, this, and_self, if_true]
        refine ⟨⟨?_, ?_⟩, ?_⟩
        · rintro ⟨s', hs'⟩; cases hs'
        · rintro (h1 | h1)
          · rw [h1] at hseti; cases hseti
          · rw [h1] at hseti
            injection hseti with h2
            injection h2 with h3 h4
            exact absurd h3.symm hb
        · rintro s' hs'; cases hs'

theorem mem_union (a b : List PC) (x : PC) : x ∈ union a b ↔ x ∈ a ∨ x ∈ b := by
  unfold union
  simp only [List.mem_append, List.mem_filter, List.mem_dedup, decide_eq_true_eq]
  tauto

theorem union_nodup {a : List PC} (h : a.Nodup) (b : List PC) : (union a b).Nodup := by
  unfold union
  rw [List.nodup_append]
  refine ⟨h, (List.nodup_dedup b).filter _, ?_⟩
  intro x hx y hy
  simp only [List.mem_filter, decide_eq_true_eq] at hy
  rintro rfl
  exact hy.2 hx

theorem setCond_eff {s : St} (h : Inv s) (c : Cond) :
    Eff s (setCond c s).2 [c.label] [] [(c.label, c.portclocks)] := by
  have hg := get_eff h c.label
  have hlook := look_get s c.label
  unfold setCond
  simp only
  refine hg.trans (t' := []) (ds' := []) (rs := []) ?_
  refine put_eff hg.inv hlook _ ?_ ?_ ?_ _ _ ?_ ?_
  · rfl
  · have := hg.inv.both _ _ hlook
    exact this
  · apply union_nodup
    have := hg.inv.pcs c.label
    rw [pcs_look, hlook] at this; exact this
  · funext l'
    simp only [List.foldl_nil, St.setting]
    rw [look_put]
    by_cases hll : l' = c.label
    · subst hll; simp [hlook]
    · simp [hll]
  · intro l' pc
    rw [pcs_look, look_put, pcs_look]
    by_cases hll : l' = c.label
    · subst hll; simp [hlook, mem_union]
    · simp [hll, Ne.symm hll]

/-- Every label in the list of uses has the address of the map. -/
def UsesOk (s : St) (us : List (Label × Option Nat)) : Prop :=
  ∀ u ∈ us, ∃ i, s.look u.1 = some i ∧ u.2 = some i.address

theorem UsesOk.mono {s s' : St} {t ds rs} (h : Eff s s' t ds rs) {us} (hu : UsesOk s us) :
    UsesOk s' us := by
  intro u hu'
  obtain ⟨i, hi, ha⟩ := hu u hu'
  obtain ⟨i', hi', ha'⟩ := h.addr _ _ hi
  exact ⟨i', hi', by rw [ha, ha']⟩

theorem dualLoop_spec (m : Option ModType) : ∀ (ls : List Label) (s : St), Inv s →
    ((∃ r, dualLoop m ls s = .ok r) ↔ ((∃ l ∈ ls, l ≠ none) → m = some .qtm) ∧
      Compat s.setting ((ls.filter Option.isSome).map (fun l => (l, false, 1)))) ∧
    ∀ as s', dualLoop m ls s = .ok (as, s') →
      Eff s s' (ls.filter Option.isSome)
        ((ls.filter Option.isSome).map (fun l => (l, false, 1))) [] ∧
      UsesOk s' ((ls.zip as).filter (fun e => e.1.isSome))
  | [], s, h => by
    refine ⟨⟨fun _ => ⟨by simp, trivial⟩, fun _ => ⟨_, rfl⟩⟩, ?_⟩
    intro as s' hr
    simp only [dualLoop] at hr
    cases Except.ok.inj hr
    exact ⟨Eff.refl h, by simp [UsesOk]⟩
  | none :: ls, s, h => by
    obtain ⟨ih1, ih2⟩ := dualLoop_spec m ls s h
    simp only [dualLoop]
    have hf : (none :: ls : List Label).filter Option.isSome = ls.filter Option.isSome := by simp
    rw [hf]
    have hex : (∃ l ∈ (none :: ls : List Label), l ≠ none) ↔ ∃ l ∈ ls, l ≠ none := by simp
    rw [hex, ← ih1]
    cases hr : dualLoop m ls s with
    | error e =>
      refine ⟨⟨?_, ?_⟩, ?_⟩
      · rintro ⟨r, h⟩; cases h
      · rintro ⟨r, h⟩; cases h
      · rintro as s' h; cases h
    | ok r =>
      obtain ⟨as1, s1⟩ := r
      refine ⟨⟨fun _ => ⟨_, rfl⟩, fun _ => ⟨_, rfl⟩⟩, ?_⟩
      intro as s' h
      have h' := Except.ok.inj h
      injection h' with h1 h2
      obtain ⟨e1, e2⟩ := ih2 _ _ hr
      rw [← h2, ← h1]
      refine ⟨e1, ?_⟩
      simpa using e2
  | some l :: ls, s, h => by
    have hf : (some l :: ls : List Label).filter Option.isSome = some l :: ls.filter Option.isSome := by
      simp
    rw [hf]
    have hex : (∃ x ∈ (some l :: ls : List Label), x ≠ none) := ⟨some l, by simp, by simp⟩
    simp only [dualLoop]
    cases m with
    | none =>
      refine ⟨⟨?_, ?_⟩, ?_⟩
      · rintro ⟨r, h⟩; cases h
      · rintro ⟨h1, _⟩; have := h1 hex; cases this
      · rintro as s' h; cases h
    | some t =>
      cases t with
      | qrm =>
        refine ⟨⟨?_, ?_⟩, ?_⟩
        · rintro ⟨r, h⟩; cases h
        · rintro ⟨h1, _⟩; have := h1 hex; cases this
        · rintro as s' h; cases h
      | other =>
        refine ⟨⟨?_, ?_⟩, ?_⟩
        · rintro ⟨r, h⟩; cases h
        · rintro ⟨h1, _⟩; have := h1 hex; cases this
        · rintro as s' h; cases h
      | qtm =>
        have hg := get_eff h (some l)
        obtain ⟨hs1, hs2⟩ := settings_spec hg.inv (some l) false 1
        have hset : (s.get (some l)).2.setting = s.setting := hg.set
        rw [hset] at hs1
        simp only [List.map_cons, Compat]
        cases hs : (s.get (some l)).2.settings (some l) false 1 with
        | error e =>
          rw [hs] at hs1
          refine ⟨⟨?_, ?_⟩, ?_⟩
          · rintro ⟨r, h⟩; cases h
          · rintro ⟨_, h1, _⟩
            obtain ⟨s', hs'⟩ := hs1.mpr h1
            cases hs'
          · rintro as s' h; cases h
        | ok s1 =>
          have he1 := hs2 s1 hs
          have he := hg.trans he1
          obtain ⟨ih1, ih2⟩ := dualLoop_spec (some .qtm) ls s1 he1.inv
          have hset1 : s1.setting = upd s.setting (some l, false, 1) := by
            rw [he1.set, hset]; rfl
          rw [hset1] at ih1
          have hok := hs1.mp ⟨s1, hs⟩
          simp only
          cases hr : dualLoop (some .qtm) ls s1 with
          | error e =>
            rw [hr] at ih1
            refine ⟨⟨?_, ?_⟩, ?_⟩
            · rintro ⟨r, h⟩; cases h
            · rintro ⟨_, _, h2⟩
              obtain ⟨r, h⟩ := ih1.mpr ⟨fun _ => rfl, h2⟩
              cases h
            · rintro as s' h; cases h
          | ok r =>
            obtain ⟨as1, s2⟩ := r
            rw [hr] at ih1
            obtain ⟨e1, e2⟩ := ih2 _ _ hr
            refine ⟨⟨fun _ => ⟨by simp, hok, (ih1.mp ⟨_, rfl⟩).2⟩, fun _ => ⟨_, rfl⟩⟩, ?_⟩
            intro as s' h'
            have h' := Except.ok.inj h'
            injection h' with h1 h2
            rw [← h1, ← h2]
            refine ⟨?_, ?_⟩
            · have := he.trans e1
              refine ⟨this.inv, ?_, this.addr, this.set, this.pcs⟩
              intro l'
              rw [this.keys]
              simp
            · intro u hu
              simp only [List.zip_cons_cons, List.filter_cons, Option.isSome_some, if_true,
                List.mem_cons] at hu
              rcases hu with rfl | hu
              · obtain ⟨i', hi', ha'⟩ := he1.addr _ _ (look_get s (some l))
                obtain ⟨i'', hi'', ha''⟩ := e1.addr _ _ hi'
                exact ⟨i'', hi'', by rw [ha'', ha']⟩
              · exact e2 u hu

/-- The port-clocks that a place adds. -/
def Act.reads : Act → List (Label × List PC)
  | .cond c => [(c.label, c.portclocks)]
  | .acq _ => []

/-- The places that occur. -/
def Act.okProto : Act → Prop
  | .acq q => handled q.proto = true
  | .cond _ => True

theorem runAct_spec (mt : PC → Option ModType) (a : Act) (hp : a.okProto) (s : St) (h : Inv s) :
    ((∃ r, runAct mt a s = .ok r) ↔ a.possible mt ∧ Compat s.setting (a.demands mt)) ∧
    ∀ a' s', runAct mt a s = .ok (a', s') →
      Eff s s' a.labels (a.demands mt) a.reads ∧ UsesOk s' a'.uses ∧ a'.blank = a.blank ∧
      a'.uses.map Prod.fst = a.labels ∧
      (∀ c, a' = .cond c → c.invert = (s.setting c.label).map Prod.fst ∧
        c.count = (s.setting c.label).map Prod.snd) := by
  cases a with
  | cond c =>
    simp only [runAct]
    refine ⟨⟨fun _ => ⟨trivial, trivial⟩, fun _ => ⟨_, rfl⟩⟩, ?_⟩
    intro a' s' hr
    have hr := Except.ok.inj hr
    injection hr with h1 h2
    have he := setCond_eff h c
    rw [h2] at he
    have hg := get_eff h c.label
    have hlook := look_get s c.label
    refine ⟨he, ?_, ?_, ?_, ?_⟩
    · rw [← h1]
      intro u hu
      simp only [Act.uses, setCond, List.mem_singleton] at hu
      rw [hu, ← h2]
      simp only [setCond]
      rw [look_put, if_pos rfl]
      exact ⟨_, rfl, rfl⟩
    · rw [← h1]; simp [Act.blank, setCond, Cond.blank]
    · rw [← h1]; simp [Act.uses, Act.labels, setCond]
    · intro c' hc'
      rw [← h1] at hc'
      injection hc' with hc'
      rw [← hc']
      have hset : (s.get c.label).2.setting = s.setting := hg.set
      simp only [setCond]
      rw [← hset]
      have hb := hg.inv.both _ _ hlook
      unfold St.setting
      rw [hlook]
      simp only
      cases hiv : (s.get c.label).1.invert <;> cases hct : (s.get c.label).1.count <;>
        rw [hiv, hct] at hb <;> simp_all
  | acq q =>
    have hfin : ∀ (q' : AcqInfo) (s' : St), runAct mt (.acq q) s = .ok (.acq q', s') →
        q'.blank = q.blank := by
      intro q' s' hr
      simp only [runAct] at hr
      cases hu : updateAcq mt q s with
      | error e => rw [hu] at hr; cases hr
      | ok r =>
        obtain ⟨q'', s''⟩ := r
        rw [hu] at hr
        have hr := Except.ok.inj hr
        injection hr with h1 h2
        injection h1 with h1
        rw [← h1]
        exact updateAcq_blank hu
    have hg := get_eff h q.label
    have hlook := look_get s q.label
    have hset : (s.get q.label).2.setting = s.setting := hg.set
    -- the case of one label whose address is filled in
    have one : ∀ (s2 : St) (ds : List (Label × Bool × Nat)) (hq : q.proto ≠ .dual),
        Eff (s.get q.label).2 s2 [] ds [] ∨ Eff (s.get q.label).2 s2 [q.label] ds [] →
        Eff s s2 [q.label] ds [] ∧
        UsesOk s2 (Act.acq { q with address := some (s.get q.label).1.address }).uses ∧
        (Act.acq { q with address := some (s.get q.label).1.address }).uses.map Prod.fst =
          (Act.acq q).labels ∧ (Act.acq q).labels = [q.label] := by
      intro s2 ds hq he
      have huses : (Act.acq { q with address := some (s.get q.label).1.address }).uses =
          [(q.label, some (s.get q.label).1.address)] := by
        unfold Act.uses
        simp only
      have hl : (Act.acq q).labels = [q.label] := by
        unfold Act.labels
        simp only
      rw [huses, hl]
      have hE : Eff s s2 [q.label] ds [] := by
        rcases he with he | he
        · exact hg.trans he
        · have := hg.trans he
          refine ⟨this.inv, ?_, this.addr, this.set, this.pcs⟩
          intro l'
          rw [this.keys]
          simp
      refine ⟨hE, ?_, rfl, rfl⟩
      intro u hu
      simp only [List.mem_singleton] at hu
      rw [hu]
      rcases he with he | he
      · obtain ⟨i', hi', ha'⟩ := he.addr _ _ hlook
        exact ⟨i', hi', by rw [ha']⟩
      · obtain ⟨i', hi', ha'⟩ := he.addr _ _ hlook
        exact ⟨i', hi', by rw [ha']⟩
    have hnc : ∀ (q' : AcqInfo) (c : Cond), Act.acq q' = .cond c → c.invert = (s.setting c.label).map
        Prod.fst ∧ c.count = (s.setting c.label).map Prod.snd := fun q' c h => by cases h
    cases hpr : q.proto with
    | other => simp [Act.okProto, hpr, handled] at hp
    | weightedThresholded => simp [Act.okProto, hpr, handled] at hp
    | thresholded =>
      have hd : (Act.acq q).demands mt = [] := by simp [Act.demands, hpr]
      have hpo : (Act.acq q).possible mt := by simp [Act.possible, hpr]
      have hrun : runAct mt (.acq q) s = .ok (.acq { q with address := some (s.get q.label).1.address },
          (s.get q.label).2) := by
        simp only [runAct, updateAcq, hpr]
      rw [hrun, hd]
      refine ⟨⟨fun _ => ⟨hpo, trivial⟩, fun _ => ⟨_, rfl⟩⟩, ?_⟩
      intro a' s' hr
      have hr := Except.ok.inj hr
      injection hr with h1 h2
      obtain ⟨o1, o2, o3, o4⟩ := one (s.get q.label).2 [] (by rw [hpr]; simp) (Or.inl (Eff.refl hg.inv))
      rw [← h1, ← h2, o4]
      refine ⟨o1, o2, rfl, ?_, hnc _⟩
      rw [← o4]; exact o3
    | trigCount less threshold =>
      cases less with
      | none =>
        have hpo : ¬ (Act.acq q).possible mt := by simp [Act.possible, hpr]
        have hrun : runAct mt (.acq q) s = .error .badCondition := by
          simp only [runAct, updateAcq, hpr]
        rw [hrun]
        refine ⟨⟨?_, fun h => absurd h.1 hpo⟩, ?_⟩
        · rintro ⟨r, h⟩; cases h
        · rintro a' s' h; cases h
      | some less =>
        have hpo : (Act.acq q).possible mt ↔ mt (q.port, q.clock) ≠ none := by
          simp [Act.possible, hpr]
        cases hm : mt (q.port, q.clock) with
        | none =>
          have hrun : runAct mt (.acq q) s = .error .noModule := by
            simp only [runAct, updateAcq, hpr, hm]
          rw [hrun, hpo, hm]
          refine ⟨⟨?_, fun h => absurd rfl h.1⟩, ?_⟩
          · rintro ⟨r, h⟩; cases h
          · rintro a' s' h; cases h
        | some t =>
          have viaSettings : ∀ (b : Bool) (c : Nat), (Act.acq q).demands mt = [(q.label, b, c)] →
              runAct mt (.acq q) s = (match (s.get q.label).2.settings q.label b c with
                | .error e => .error e
                | .ok s'' => .ok (.acq { q with address := some (s.get q.label).1.address }, s'')) →
              ((∃ r, runAct mt (.acq q) s = .ok r) ↔
                (Act.acq q).possible mt ∧ Compat s.setting ((Act.acq q).demands mt)) ∧
              ∀ a' s', runAct mt (.acq q) s = .ok (a', s') →
                Eff s s' (Act.acq q).labels ((Act.acq q).demands mt) (Act.acq q).reads ∧
                UsesOk s' a'.uses ∧ a'.blank = (Act.acq q).blank ∧
                a'.uses.map Prod.fst = (Act.acq q).labels ∧
                (∀ c, a' = .cond c → c.invert = (s.setting c.label).map Prod.fst ∧
                  c.count = (s.setting c.label).map Prod.snd) := by
            intro b c hd hrun
            obtain ⟨hs1, hs2⟩ := settings_spec hg.inv q.label b c
            rw [hset] at hs1
            rw [hrun, hd, hpo, hm]
            cases hs : (s.get q.label).2.settings q.label b c with
            | error e =>
              rw [hs] at hs1
              refine ⟨⟨?_, ?_⟩, ?_⟩
              · rintro ⟨r, h⟩; cases h
              · rintro ⟨_, h1, _⟩
                obtain ⟨s', h'⟩ := hs1.mpr h1
                cases h'
              · rintro a' s' h; cases h
            | ok s1 =>
              have hok := hs1.mp ⟨s1, hs⟩
              refine ⟨⟨fun _ => ⟨by simp, hok, trivial⟩, fun _ => ⟨_, rfl⟩⟩, ?_⟩
              intro a' s' hr
              have hr := Except.ok.inj hr
              injection hr with h1 h2
              obtain ⟨o1, o2, o3, o4⟩ := one s1 _ (by rw [hpr]; simp) (Or.inr (hs2 s1 hs))
              rw [← h1, ← h2, o4]
              refine ⟨o1, o2, rfl, ?_, hnc _⟩
              rw [← o4]; exact o3
          cases t with
          | qrm =>
            apply viaSettings less threshold
            · simp [Act.demands, hpr, hm]
            · simp only [runAct, updateAcq, hpr, hm]
              cases (s.get q.label).2.settings q.label less threshold <;> rfl
          | qtm =>
            apply viaSettings false 1
            · simp [Act.demands, hpr, hm]
            · simp only [runAct, updateAcq, hpr, hm]
              cases (s.get q.label).2.settings q.label false 1 <;> rfl
          | other =>
            have hd : (Act.acq q).demands mt = [] := by simp [Act.demands, hpr, hm]
            have hrun : runAct mt (.acq q) s = .ok (.acq { q with address := some (s.get q.label).1.address },
                (s.get q.label).2) := by
              simp only [runAct, updateAcq, hpr, hm]
            rw [hrun, hd, hpo, hm]
            refine ⟨⟨fun _ => ⟨by simp, trivial⟩, fun _ => ⟨_, rfl⟩⟩, ?_⟩
            intro a' s' hr
            have hr := Except.ok.inj hr
            injection hr with h1 h2
            obtain ⟨o1, o2, o3, o4⟩ := one (s.get q.label).2 [] (by rw [hpr]; simp)
              (Or.inl (Eff.refl hg.inv))
            rw [← h1, ← h2, o4]
            refine ⟨o1, o2, rfl, ?_, hnc _⟩
            rw [← o4]; exact o3
    | dual =>
      obtain ⟨d1, d2⟩ := dualLoop_spec (mt (q.port, q.clock)) q.labels s h
      have hd : (Act.acq q).demands mt =
          (q.labels.filter Option.isSome).map (fun l => (l, false, 1)) := by
        simp [Act.demands, hpr]
      have hpo : (Act.acq q).possible mt ↔
          ((∃ l ∈ q.labels, l ≠ none) → mt (q.port, q.clock) = some .qtm) := by
        simp only [Act.possible, hpr]
      have hl : (Act.acq q).labels = q.labels.filter Option.isSome := by
        simp only [Act.labels, hpr]
      rw [hd, hpo, ← d1, hl]
      have hrun : runAct mt (.acq q) s = (match dualLoop (mt (q.port, q.clock)) q.labels s with
          | .error e => .error e
          | .ok (as, s') => .ok (.acq { q with addresses := as }, s')) := by
        simp only [runAct, updateAcq, hpr]
        cases dualLoop (mt (q.port, q.clock)) q.labels s <;> rfl
      rw [hrun]
      cases hr : dualLoop (mt (q.port, q.clock)) q.labels s with
      | error e =>
        refine ⟨⟨?_, ?_⟩, ?_⟩
        · rintro ⟨r, h⟩; cases h
        · rintro ⟨r, h⟩; cases h
        · rintro a' s' h; cases h
      | ok r =>
        obtain ⟨as, s1⟩ := r
        obtain ⟨e1, e2⟩ := d2 _ _ hr
        refine ⟨⟨fun _ => ⟨_, rfl⟩, fun _ => ⟨_, rfl⟩⟩, ?_⟩
        intro a' s' h'
        have h' := Except.ok.inj h'
        injection h' with h1 h2
        rw [← h1, ← h2]
        have hu : (Act.acq { q with addresses := as }).uses =
            (q.labels.zip as).filter (fun e => e.1.isSome) := by
          unfold Act.uses
          simp only [hpr]
        refine ⟨e1, ?_, rfl, ?_, hnc _⟩
        · rw [hu]; exact e2
        · rw [hu]
          have hlen := dualLoop_length _ _ _ _ _ hr
          have hz : q.labels = (q.labels.zip as).map Prod.fst := by
            rw [List.map_fst_zip]; omega
          conv_rhs => rw [hz, List.filter_map]
          rfl

theorem runActs_spec (mt : PC → Option ModType) : ∀ (as : List Act) (hp : ∀ a ∈ as, a.okProto)
    (s : St) (h : Inv s),
    ((∃ r, runActs mt as s = .ok r) ↔ (∀ a ∈ as, a.possible mt) ∧
      Compat s.setting (as.flatMap (Act.demands mt))) ∧
    ∀ as' s', runActs mt as s = .ok (as', s') →
      Eff s s' (as.flatMap Act.labels) (as.flatMap (Act.demands mt)) (as.flatMap Act.reads) ∧
      UsesOk s' (as'.flatMap Act.uses) ∧ as'.map Act.blank = as.map Act.blank ∧
      (as'.flatMap Act.uses).map Prod.fst = as.flatMap Act.labels ∧
      (∀ (n : Nat) c, as'[n]? = some (.cond c) →
        c.invert = ((((as.take n).flatMap (Act.demands mt)).foldl upd s.setting) c.label).map Prod.fst ∧
        c.count = ((((as.take n).flatMap (Act.demands mt)).foldl upd s.setting) c.label).map Prod.snd)
  | [], hp, s, h => by
    refine ⟨⟨fun _ => ⟨by simp, trivial⟩, fun _ => ⟨_, rfl⟩⟩, ?_⟩
    intro as' s' hr
    simp only [runActs] at hr
    cases Except.ok.inj hr
    refine ⟨Eff.refl h, by simp [UsesOk], rfl, rfl, ?_⟩
    intro n c hc
    simp at hc
  | a :: as, hp, s, h => by
    obtain ⟨r1, r2⟩ := runAct_spec mt a (hp a List.mem_cons_self) s h
    simp only [runActs, List.flatMap_cons]
    rw [Compat_append]
    cases hr : runAct mt a s with
    | error e =>
      rw [hr] at r1
      refine ⟨⟨?_, ?_⟩, ?_⟩
      · rintro ⟨r, h⟩; cases h
      · rintro ⟨h1, h2, _⟩
        obtain ⟨r, h⟩ := r1.mpr ⟨h1 a List.mem_cons_self, h2⟩
        cases h
      · rintro as' s' h; cases h
    | ok r =>
      obtain ⟨a1, s1⟩ := r
      obtain ⟨e1, e2, e3, e4, e5⟩ := r2 _ _ hr
      obtain ⟨ih1, ih2⟩ := runActs_spec mt as (fun x hx => hp x (List.mem_cons_of_mem _ hx)) s1 e1.inv
      have hok := r1.mp ⟨_, hr⟩
      rw [e1.set] at ih1
      simp only
      cases hr2 : runActs mt as s1 with
      | error e =>
        rw [hr2] at ih1
        refine ⟨⟨?_, ?_⟩, ?_⟩
        · rintro ⟨r, h⟩; cases h
        · rintro ⟨h1, _, h2⟩
          obtain ⟨r, h⟩ := ih1.mpr ⟨fun x hx => h1 x (List.mem_cons_of_mem _ hx), h2⟩
          cases h
        · rintro as' s' h; cases h
      | ok r =>
        obtain ⟨as1, s2⟩ := r
        rw [hr2] at ih1
        obtain ⟨f1, f2, f3, f4, f5⟩ := ih2 _ _ hr2
        refine ⟨⟨fun _ => ⟨?_, hok.2, (ih1.mp ⟨_, rfl⟩).2⟩, fun _ => ⟨_, rfl⟩⟩, ?_⟩
        · intro x hx
          rcases List.mem_cons.mp hx with rfl | hx
          · exact hok.1
          · exact (ih1.mp ⟨_, rfl⟩).1 x hx
        · intro as' s' h'
          have h' := Except.ok.inj h'
          injection h' with h1 h2
          rw [← h1, ← h2]
          refine ⟨e1.trans f1, ?_, ?_, ?_, ?_⟩
          · intro u hu
            rw [List.flatMap_cons, List.mem_append] at hu
            rcases hu with hu | hu
            · exact (e2.mono f1) u hu
            · exact f2 u hu
          · simp [e3, f3]
          · rw [List.flatMap_cons, List.map_append, e4, f4]
          · intro n c hc
            cases n with
            | zero =>
              simp only [List.getElem?_cons_zero, Option.some.injEq] at hc
              simpa using e5 c hc
            | succ n =>
              simp only [List.getElem?_cons_succ] at hc
              have := f5 n c hc
              rw [e1.set] at this
              simpa [List.take_succ_cons, List.flatMap_cons, List.foldl_append] using this

mutual
theorem acts_okProto : ∀ (op : Op), ∀ a ∈ acts op, a.okProto
  | .plain infos, a, h => by
    simp only [acts] at h
    split at h
    · obtain ⟨q, hq, rfl⟩ := List.mem_map.mp h
      have := (List.mem_filter.mp hq).2
      rw [addressed_eq] at this
      exact this
    · simp at h
  | .latch pc, a, h => by simp [acts] at h
  | .cond c body, a, h => by
    simp only [acts, List.mem_singleton] at h
    rw [h]; trivial
  | .loop n d body, a, h => acts_okProto body a h
  | .sched items, a, h => itemActs_okProto items a h
theorem itemActs_okProto : ∀ (items : Items), ∀ a ∈ itemActs items, a.okProto
  | .nil, a, h => by simp [itemActs] at h
  | .cons t op rest, a, h => by
    simp only [itemActs, List.mem_append] at h
    rcases h with h | h
    · exact acts_okProto op a h
    · exact itemActs_okProto rest a h
end

end Verif.Conditional
