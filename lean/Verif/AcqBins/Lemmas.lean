/-
The invariant of the acquisition index manager over all histories.
-/
import Verif.AcqBins.Spec
import Mathlib.Data.List.Basic
import Mathlib.Tactic.Ring

set_option linter.unusedSimpArgs false
set_option linter.unusedVariables false
set_option linter.unusedSectionVars false

namespace Verif.AcqBins

variable {Ch : Type} [DecidableEq Ch]

/-- The state after bins have been taken. -/
def St.withBins (s : St Ch) (i : Nat) (ch : Ch) (as : List Nat) (reps : Nat) (tr : Bool) : St Ch where
  decl := upd s.decl i (some ((s.decl i).getD 0 + as.length * reps))
  binned := upd s.binned ch (some (mergeLocs (s.binned ch) (newLocs i as.length (s.nextFree i) as)))
  notBinned := s.notBinned
  nextFree := upd s.nextFree i (s.nextFree i + as.length * reps)
  chan := upd s.chan ch (some i)
  trace := s.trace || tr

/-- The state after a whole index has been taken. -/
def St.withIndex (s : St Ch) (i : Nat) (ch : Ch) (n : Nat) (tr : Bool) : St Ch where
  decl := upd s.decl i (some ((s.decl i).getD 0 + n))
  binned := s.binned
  notBinned := upd s.notBinned ch (some i)
  nextFree := upd s.nextFree i (s.nextFree i + n)
  chan := upd s.chan ch (some i)
  trace := s.trace || tr

/-- The number of bins a whole-index request takes. -/
def wholeSize : Req Ch → Nat
  | .index _ => numBins
  | .trace _ => 1
  | _ => 0

/-- What can have happened when a request was granted. -/
inductive Granted (s : St Ch) (r : Req Ch) (i f : Nat) (s' : St Ch) : Prop where
  | old (hk : r.acqs? = none) (hc : s.chan r.ch = some i) (hf : f = 0) (hs : s' = s)
  | whole (tr : Bool) (hk : r.acqs? = none) (hc : s.chan r.ch = none) (hi : s.nextIndex = some i)
      (hf : f = s.nextFree i) (hb : s.binned r.ch = none)
      (hs : s' = s.withIndex i r.ch (wholeSize r) tr)
  | bins (tr : Bool) (as : List Nat) (reps : Nat) (hk : r.acqs? = some (as, reps))
      (hc : s.chan r.ch = some i ∨ (s.chan r.ch = none ∧ s.nextIndex = some i))
      (hf : f = s.nextFree i) (hn : s.notBinned r.ch = none)
      (hsz : (as.length : Int) ≤ s.freeBins i) (hs : s' = s.withBins i r.ch as reps tr)

theorem nextIndex_spec {s : St Ch} {i : Nat} (h : s.nextIndex = some i) :
    i < numIndices ∧ s.nextFree i = 0 ∧ ∀ j < i, s.nextFree j ≠ 0 := by
  unfold St.nextIndex at h
  obtain ⟨h1, as, bs, h2, h3⟩ := List.find?_eq_some_iff_append.mp h
  have hm : i ∈ List.range numIndices := List.mem_of_find?_eq_some h
  refine ⟨List.mem_range.mp hm, by simpa using h1, ?_⟩
  intro j hj
  have hi : as = List.range i := by
    have hlen : as.length = i := by
      have := congrArg (fun l : List Nat => l[as.length]?) h2
      simp at this
      have hx := List.getElem?_eq_some_iff.mp this
      obtain ⟨hx1, hx2⟩ := hx
      simpa using hx2
    have := congrArg (List.take i) h2
    rw [List.take_range, ← hlen, List.take_left] at this
    rw [← this]
    congr 1
    have := List.mem_range.mp hm
    omega
  have := h3 j (by rw [hi]; exact List.mem_range.mpr hj)
  simpa using this

theorem nextIndex_none {s : St Ch} (h : s.nextIndex = none) : ∀ i < numIndices, s.nextFree i ≠ 0 := by
  unfold St.nextIndex at h
  intro i hi
  have := List.find?_eq_none.mp h i (List.mem_range.mpr hi)
  simpa using this

theorem takeBins_ok {s s' : St Ch} {r : Req Ch} {o : Option Nat} {as : List Nat} {reps : Nat}
    {tr : Bool} {i f : Nat} (hk : r.acqs? = some (as, reps))
    (ho : ∀ j, o = some j → s.chan r.ch = some j ∨ (s.chan r.ch = none ∧ s.nextIndex = some j))
    (h : s.takeBins o r.ch as reps tr = (s', .ok (i, f))) : Granted s r i f s' := by
  unfold St.takeBins at h
  cases o with
  | none => simp at h
  | some j =>
    simp only at h
    split at h
    · simp at h
    · rename_i hsz
      simp only [St.reserve] at h
      split at h
      · simp [St.finish] at h
      · rename_i hnb
        simp only [St.finish, Prod.mk.injEq, Except.ok.injEq] at h
        obtain ⟨hs, rfl, hf⟩ := h
        exact .bins tr as reps hk (ho _ rfl) hf.symm (by simpa using hnb) (by omega) hs.symm

theorem exec_ok {s s' : St Ch} {r : Req Ch} {i f : Nat} (h : s.exec r = (s', .ok (i, f))) :
    Granted s r i f s' := by
  cases r with
  | bins ch as reps =>
    refine takeBins_ok (r := .bins ch as reps) rfl ?_ h
    intro j hj
    cases hc : s.chan ch with
    | none => rw [hc] at hj; exact Or.inr ⟨hc, hj⟩
    | some k => rw [hc] at hj; cases hj; exact Or.inl hc
  | timetag ch as reps =>
    simp only [St.exec, St.allocateTimetag] at h
    cases hc : s.chan ch with
    | some k =>
      rw [hc] at h
      exact takeBins_ok (r := .timetag ch as reps) rfl (by intro j hj; cases hj; exact Or.inl hc) h
    | none =>
      rw [hc] at h
      simp only at h
      split at h
      · simp at h
      · exact takeBins_ok (r := .timetag ch as reps) rfl (fun j hj => Or.inr ⟨hc, hj⟩) h
  | index ch =>
    simp only [St.exec, St.allocateIndex] at h
    cases hc : s.chan ch with
    | some k =>
      rw [hc] at h
      simp only [Prod.mk.injEq, Except.ok.injEq] at h
      obtain ⟨rfl, rfl, rfl⟩ := h
      exact .old rfl hc rfl rfl
    | none =>
      rw [hc] at h
      simp only at h
      cases hn : s.nextIndex with
      | none => rw [hn] at h; simp at h
      | some j =>
        rw [hn] at h
        simp only [St.reserve] at h
        split at h
        · simp [St.finish] at h
        · rename_i hb
          simp only [St.finish, Prod.mk.injEq, Except.ok.injEq] at h
          obtain ⟨hs, rfl, hf⟩ := h
          refine .whole false rfl hc hn hf.symm (by simpa [Req.ch] using hb) ?_
          obtain ⟨_, h0, _⟩ := nextIndex_spec hn
          rw [← hs]
          simp [St.withIndex, wholeSize, St.freeBins, h0, numBins, Req.ch]
  | trace ch =>
    simp only [St.exec, St.allocateTrace] at h
    cases hc : s.chan ch with
    | some k =>
      rw [hc] at h
      simp only [Prod.mk.injEq, Except.ok.injEq] at h
      obtain ⟨rfl, rfl, rfl⟩ := h
      exact .old rfl hc rfl rfl
    | none =>
      rw [hc] at h
      simp only at h
      split at h
      · simp at h
      cases hn : s.nextIndex with
      | none => rw [hn] at h; simp at h
      | some j =>
        rw [hn] at h
        simp only [St.reserve] at h
        split at h
        · simp [St.finish] at h
        · rename_i hb
          simp only [St.finish, Prod.mk.injEq, Except.ok.injEq] at h
          obtain ⟨hs, rfl, hf⟩ := h
          refine .whole true rfl hc hn hf.symm (by simpa [Req.ch] using hb) ?_
          rw [← hs]
          simp [St.withIndex, wholeSize, Req.ch]

theorem takeBins_error {s s' : St Ch} {ch : Ch} {o : Option Nat} {as : List Nat} {reps : Nat}
    {tr : Bool} {e : Err} (h : s.takeBins o ch as reps tr = (s', .error e)) : s' = s := by
  unfold St.takeBins at h
  cases o with
  | none => simp at h; exact h.1.symm
  | some j =>
    simp only at h
    split at h
    · simp at h; exact h.1.symm
    · simp only [St.reserve] at h
      split at h
      · simp [St.finish] at h; exact h.1.symm
      · simp [St.finish] at h

theorem exec_error {s s' : St Ch} {r : Req Ch} {e : Err} (h : s.exec r = (s', .error e)) :
    s' = s := by
  cases r with
  | bins ch as reps => exact takeBins_error h
  | timetag ch as reps =>
    simp only [St.exec, St.allocateTimetag] at h
    cases hc : s.chan ch with
    | some k => rw [hc] at h; exact takeBins_error h
    | none =>
      rw [hc] at h
      simp only at h
      split at h
      · simp at h; exact h.1.symm
      · exact takeBins_error h
  | index ch =>
    simp only [St.exec, St.allocateIndex] at h
    cases hc : s.chan ch with
    | some k => rw [hc] at h; simp at h
    | none =>
      rw [hc] at h
      cases hn : s.nextIndex with
      | none => rw [hn] at h; simp at h; exact h.1.symm
      | some j =>
        rw [hn] at h
        simp only [St.reserve] at h
        split at h
        · simp [St.finish] at h; exact h.1.symm
        · simp [St.finish] at h
  | trace ch =>
    simp only [St.exec, St.allocateTrace] at h
    cases hc : s.chan ch with
    | some k => rw [hc] at h; simp at h
    | none =>
      rw [hc] at h
      simp only at h
      split at h
      · simp at h; exact h.1.symm
      cases hn : s.nextIndex with
      | none => rw [hn] at h; simp at h; exact h.1.symm
      | some j =>
        rw [hn] at h
        simp only [St.reserve] at h
        split at h
        · simp [St.finish] at h; exact h.1.symm
        · simp [St.finish] at h

/-- Bins taken by the first grant of an index, if that was a whole-index request. -/
def baseSize (L : List (Grant Ch)) (i : Nat) : Nat :=
  match L.find? (fun g => g.index == i) with
  | some g => wholeSize g.req
  | none => 0

/-- Individual bins granted for an index. -/
def binTotal (L : List (Grant Ch)) (i : Nat) : Nat :=
  ((L.filter (fun g => g.index == i)).map (fun g => g.req.size)).sum

/-- Acquisition indices granted to a channel, in order. -/
def chAcqs (L : List (Grant Ch)) (c : Ch) : List Nat :=
  L.flatMap (fun g => if g.req.ch = c then (match g.req.acqs? with | some (a, _) => a | none => [])
    else [])

/-- Only indices with bins in use are declared. -/
def declOf (n : Nat) : Option Nat := if n = 0 then none else some n

theorem declOf_pos {n : Nat} (h : 0 < n) : declOf n = some n := if_neg (by omega)

theorem declOf_getD (n : Nat) : (declOf n).getD 0 = n := by
  unfold declOf; split <;> simp_all

/-- The invariant. -/
structure Inv (s : St Ch) (L : List (Grant Ch)) : Prop where
  chan_pos : ∀ c i, s.chan c = some i → i < numIndices ∧ 0 < s.nextFree i
  chan_inj : ∀ c c' i, s.chan c = some i → s.chan c' = some i → c = c'
  pos_chan : ∀ i, 0 < s.nextFree i → ∃ c, s.chan c = some i
  log_chan : ∀ g ∈ L, s.chan g.req.ch = some g.index
  chan_log : ∀ c i, s.chan c = some i → ∃ g ∈ L, g.req.ch = c
  binned_chan : ∀ c m, s.binned c = some m → ∃ i, s.chan c = some i
  notBinned_chan : ∀ c j, s.notBinned c = some j → ∃ i, s.chan c = some i
  within : ∀ g ∈ L, g.req.acqs? ≠ none → g.first + g.req.size ≤ s.nextFree g.index
  order : L.Pairwise (fun g h => g.req.acqs? ≠ none → h.req.acqs? ≠ none → g.index = h.index →
    g.first + g.req.size ≤ h.first)
  decl_eq : ∀ i, s.decl i = declOf (s.nextFree i)
  total : ∀ i, s.nextFree i = baseSize L i + binTotal L i
  sound : ∀ c m a loc, s.binned c = some m → m a = some loc → ∃ g ∈ L, g.req.ch = c ∧
    ∃ as reps k, g.req.acqs? = some (as, reps) ∧ as[k]? = some a ∧
      loc = ⟨g.index, g.first + k, as.length⟩
  complete : ∀ g ∈ L, ∀ as reps (k : Nat) a, g.req.acqs? = some (as, reps) → as[k]? = some a →
    (chAcqs L g.req.ch).Nodup → ∃ m, s.binned g.req.ch = some m ∧
      m a = some ⟨g.index, g.first + k, as.length⟩
  excl : ∀ c, s.binned c = none ∨ s.notBinned c = none
  log_kind : ∀ g ∈ L, g.req.acqs? ≠ none → s.notBinned g.req.ch = none
  cover : ∀ i b, b < s.nextFree i → (∃ g ∈ L, g.req.acqs? ≠ none ∧ g.hasBin i b) ∨
    (∃ g ∈ L, g.index = i ∧ g.req.acqs? = none)

theorem inv_init : Inv (St.init Ch) [] := by
  constructor <;> simp [St.init, baseSize, binTotal, declOf]

theorem newLocs_some {index stride : Nat} : ∀ {as : List Nat} {first x : Nat} {l : Loc},
    newLocs index stride first as x = some l →
    ∃ k : Nat, as[k]? = some x ∧ l = ⟨index, first + k, stride⟩ := by
  intro as
  induction as with
  | nil => intro first x l h; simp [newLocs] at h
  | cons a as ih =>
    intro first x l h
    simp only [newLocs] at h
    cases hn : newLocs index stride (first + 1) as x with
    | some l' =>
      rw [hn] at h
      simp at h
      subst h
      obtain ⟨k, h1, h2⟩ := ih hn
      exact ⟨k + 1, by simpa using h1, by rw [h2]; congr 1; omega⟩
    | none =>
      rw [hn] at h
      simp only [Option.none_or] at h
      split at h
      · rename_i hx
        simp at h
        exact ⟨0, by simp [hx], h.symm⟩
      · cases h

theorem newLocs_none {index stride : Nat} : ∀ {as : List Nat} {first x : Nat},
    x ∉ as → newLocs index stride first as x = none := by
  intro as
  induction as with
  | nil => intros; rfl
  | cons a as ih =>
    intro first x h
    simp only [List.mem_cons, not_or] at h
    simp [newLocs, ih h.2, h.1]

theorem newLocs_at {index stride : Nat} : ∀ {as : List Nat} {first k x : Nat}, as.Nodup →
    as[k]? = some x → newLocs index stride first as x = some ⟨index, first + k, stride⟩ := by
  intro as
  induction as with
  | nil => intro first k x _ h; simp at h
  | cons a as ih =>
    intro first k x hn h
    obtain ⟨h1, h2⟩ := List.nodup_cons.mp hn
    cases k with
    | zero =>
      simp at h
      subst h
      simp [newLocs, newLocs_none h1]
    | succ k =>
      simp at h
      simp only [newLocs, ih h2 h, Option.some_or]
      congr 2
      omega

theorem chAcqs_append (L : List (Grant Ch)) (g : Grant Ch) (c : Ch) :
    chAcqs (L ++ [g]) c = chAcqs L c ++ (if g.req.ch = c then
      (match g.req.acqs? with | some (a, _) => a | none => []) else []) := by
  simp [chAcqs]

theorem upd_same {α β : Type} [DecidableEq α] (f : α → β) (k : α) (v : β) : upd f k v k = v := by
  simp [upd]

theorem upd_other {α β : Type} [DecidableEq α] (f : α → β) {k x : α} (v : β) (h : x ≠ k) :
    upd f k v x = f x := by simp [upd, h]

/-- An index in use by a channel is the first index of some grant. -/
theorem Inv.find_some {s : St Ch} {L : List (Grant Ch)} (h : Inv s L) {c : Ch} {i : Nat}
    (hc : s.chan c = some i) : ∃ g, L.find? (fun g => g.index == i) = some g := by
  obtain ⟨g, hg, rfl⟩ := h.chan_log c i hc
  have := h.log_chan g hg
  rw [hc] at this
  cases hf : L.find? (fun g => g.index == i) with
  | some g => exact ⟨g, rfl⟩
  | none =>
    have h2 := List.find?_eq_none.mp hf g hg
    simp at h2 this
    omega

/-- A free index does not occur among the grants. -/
theorem Inv.no_grant {s : St Ch} {L : List (Grant Ch)} (h : Inv s L) {i : Nat}
    (hi : s.nextFree i = 0) : ∀ g ∈ L, g.index ≠ i := by
  intro g hg he
  have := h.chan_pos _ _ (h.log_chan g hg)
  rw [he] at this
  omega

theorem base_append_some {L : List (Grant Ch)} {i : Nat} {g : Grant Ch}
    (h : ∃ x, L.find? (fun g => g.index == i) = some x) : baseSize (L ++ [g]) i = baseSize L i := by
  obtain ⟨x, hx⟩ := h
  simp [baseSize, List.find?_append, hx]

theorem base_append_ne {L : List (Grant Ch)} {i : Nat} {g : Grant Ch} (h : g.index ≠ i) :
    baseSize (L ++ [g]) i = baseSize L i := by
  have : (g.index == i) = false := by simpa using h
  simp [baseSize, List.find?_append, List.find?_cons, this]

theorem base_append_fresh {L : List (Grant Ch)} {g : Grant Ch} (h : ∀ x ∈ L, x.index ≠ g.index) :
    baseSize (L ++ [g]) g.index = wholeSize g.req := by
  have : L.find? (fun x => x.index == g.index) = none := by
    apply List.find?_eq_none.mpr
    intro x hx
    simpa using h x hx
  simp [baseSize, List.find?_append, this]

theorem total_append (L : List (Grant Ch)) (i : Nat) (g : Grant Ch) :
    binTotal (L ++ [g]) i = binTotal L i + (if g.index = i then g.req.size else 0) := by
  by_cases h : g.index = i
  · simp [binTotal, h]
  · simp [binTotal, h, List.filter_cons]

theorem wholeSize_of_acqs {r : Req Ch} {x} (h : r.acqs? = some x) : wholeSize r = 0 := by
  cases r <;> simp_all [Req.acqs?, wholeSize]

theorem wholeSize_pos {r : Req Ch} (h : r.acqs? = none) : 0 < wholeSize r := by
  cases r <;> simp_all [Req.acqs?, wholeSize, numBins]

theorem size_of_none {r : Req Ch} (h : r.acqs? = none) : r.size = 0 := by simp [Req.size, h]

theorem inv_old {s : St Ch} {L : List (Grant Ch)} {r : Req Ch} {i : Nat} (h : Inv s L)
    (hk : r.acqs? = none) (hc : s.chan r.ch = some i) : Inv s (L ++ [⟨r, i, 0⟩]) where
  chan_pos := h.chan_pos
  chan_inj := h.chan_inj
  pos_chan := h.pos_chan
  log_chan := by
    intro g hg
    rcases List.mem_append.mp hg with hg | hg
    · exact h.log_chan g hg
    · simp at hg; subst hg; exact hc
  chan_log := by
    intro c j hj
    obtain ⟨g, hg, he⟩ := h.chan_log c j hj
    exact ⟨g, List.mem_append_left _ hg, he⟩
  binned_chan := h.binned_chan
  notBinned_chan := h.notBinned_chan
  within := by
    intro g hg hn
    rcases List.mem_append.mp hg with hg | hg
    · exact h.within g hg hn
    · simp at hg; subst hg; exact absurd hk hn
  order := by
    refine List.pairwise_append.mpr ⟨h.order, List.pairwise_singleton _ _, ?_⟩
    intro g _ x hx _ h2
    simp at hx; subst hx; exact absurd hk h2
  decl_eq := h.decl_eq
  total := by
    intro j
    rw [total_append, size_of_none hk, h.total j]
    by_cases hj : i = j
    · subst hj
      rw [base_append_some (h.find_some hc)]
      simp
    · rw [base_append_ne (by simpa using hj)]
      simp
  sound := by
    intro c m a loc h1 h2
    obtain ⟨g, hg, rest⟩ := h.sound c m a loc h1 h2
    exact ⟨g, List.mem_append_left _ hg, rest⟩
  complete := by
    intro g hg as reps k a h1 h2 h3
    rcases List.mem_append.mp hg with hg | hg
    · rw [chAcqs_append] at h3
      exact h.complete g hg as reps k a h1 h2 (List.nodup_append.mp h3).1
    · simp at hg; subst hg; rw [hk] at h1; cases h1
  excl := h.excl
  log_kind := by
    intro g hg hn
    rcases List.mem_append.mp hg with hg | hg
    · exact h.log_kind g hg hn
    · simp at hg; subst hg; exact absurd hk hn
  cover := by
    intro j b hb
    rcases h.cover j b hb with ⟨g, hg, hx⟩ | ⟨g, hg, hx⟩
    · exact Or.inl ⟨g, List.mem_append_left _ hg, hx⟩
    · exact Or.inr ⟨g, List.mem_append_left _ hg, hx⟩

theorem inv_whole {s : St Ch} {L : List (Grant Ch)} {r : Req Ch} {i : Nat} {tr : Bool} (h : Inv s L)
    (hk : r.acqs? = none) (hc : s.chan r.ch = none) (hi : s.nextIndex = some i)
    (hb : s.binned r.ch = none) :
    Inv (s.withIndex i r.ch (wholeSize r) tr) (L ++ [⟨r, i, s.nextFree i⟩]) := by
  obtain ⟨hi32, h0, _⟩ := nextIndex_spec hi
  have hpos := wholeSize_pos hk
  have hno := h.no_grant h0
  have hne : ∀ g ∈ L, g.req.ch ≠ r.ch := by
    intro g hg he
    have := h.log_chan g hg
    rw [he, hc] at this
    cases this
  have hfree : ∀ c, s.chan c ≠ some i := by
    intro c hx
    have := (h.chan_pos c i hx).2
    omega
  constructor
  · intro c j hj
    simp only [St.withIndex] at hj ⊢
    by_cases hcr : c = r.ch
    · subst hcr
      rw [upd_same] at hj
      cases hj
      rw [upd_same]
      exact ⟨hi32, by omega⟩
    · rw [upd_other _ _ hcr] at hj
      have hji : j ≠ i := fun e => hfree c (e ▸ hj)
      rw [upd_other _ _ hji]
      exact h.chan_pos c j hj
  · intro c c' j hj hj'
    simp only [St.withIndex] at hj hj'
    by_cases hcr : c = r.ch <;> by_cases hcr' : c' = r.ch
    · rw [hcr, hcr']
    · subst hcr
      rw [upd_same] at hj
      rw [upd_other _ _ hcr'] at hj'
      cases hj
      exact absurd hj' (hfree c')
    · subst hcr'
      rw [upd_same] at hj'
      rw [upd_other _ _ hcr] at hj
      cases hj'
      exact absurd hj (hfree c)
    · rw [upd_other _ _ hcr] at hj
      rw [upd_other _ _ hcr'] at hj'
      exact h.chan_inj c c' j hj hj'
  · intro j hj
    simp only [St.withIndex] at hj ⊢
    by_cases hji : j = i
    · subst hji; exact ⟨r.ch, upd_same _ _ _⟩
    · rw [upd_other _ _ hji] at hj
      obtain ⟨c, hx⟩ := h.pos_chan j hj
      refine ⟨c, ?_⟩
      rw [upd_other _ _ (fun e => by rw [e, hc] at hx; cases hx)]
      exact hx
  · intro g hg
    simp only [St.withIndex]
    rcases List.mem_append.mp hg with hg | hg
    · rw [upd_other _ _ (hne g hg)]
      exact h.log_chan g hg
    · simp at hg; subst hg; exact upd_same _ _ _
  · intro c j hj
    simp only [St.withIndex] at hj
    by_cases hcr : c = r.ch
    · exact ⟨_, List.mem_append_right _ List.mem_cons_self, hcr.symm⟩
    · rw [upd_other _ _ hcr] at hj
      obtain ⟨g, hg, he⟩ := h.chan_log c j hj
      exact ⟨g, List.mem_append_left _ hg, he⟩
  · intro c m hm
    simp only [St.withIndex] at hm ⊢
    obtain ⟨j, hj⟩ := h.binned_chan c m hm
    refine ⟨j, ?_⟩
    rw [upd_other _ _ (fun e => by rw [e, hc] at hj; cases hj)]
    exact hj
  · intro c j hj
    simp only [St.withIndex] at hj ⊢
    by_cases hcr : c = r.ch
    · subst hcr; exact ⟨i, upd_same _ _ _⟩
    · rw [upd_other _ _ hcr] at hj ⊢
      exact h.notBinned_chan c j hj
  · intro g hg hn
    simp only [St.withIndex]
    rcases List.mem_append.mp hg with hg | hg
    · rw [upd_other _ _ (hno g hg)]
      exact h.within g hg hn
    · simp at hg; subst hg; exact absurd hk hn
  · refine List.pairwise_append.mpr ⟨h.order, List.pairwise_singleton _ _, ?_⟩
    intro g _ x hx _ h2
    simp at hx; subst hx; exact absurd hk h2
  · intro j
    simp only [St.withIndex]
    by_cases hji : j = i
    · subst hji
      rw [upd_same, upd_same, h.decl_eq, declOf_getD, declOf_pos (by omega)]
    · rw [upd_other _ _ hji, upd_other _ _ hji]
      exact h.decl_eq j
  · intro j
    simp only [St.withIndex]
    rw [total_append, size_of_none hk]
    by_cases hji : j = i
    · subst hji
      have := base_append_fresh (L := L) (g := ⟨r, j, s.nextFree j⟩) hno
      simp only at this
      rw [upd_same, this]
      have h1 := h.total j
      simp
      omega
    · rw [upd_other _ _ hji, base_append_ne (by simpa using fun e => hji e.symm), h.total j]
      simp
  · intro c m a loc h1 h2
    obtain ⟨g, hg, rest⟩ := h.sound c m a loc h1 h2
    exact ⟨g, List.mem_append_left _ hg, rest⟩
  · intro g hg as reps k a h1 h2 h3
    rcases List.mem_append.mp hg with hg | hg
    · rw [chAcqs_append] at h3
      exact h.complete g hg as reps k a h1 h2 (List.nodup_append.mp h3).1
    · simp at hg; subst hg; rw [hk] at h1; cases h1
  · intro c
    simp only [St.withIndex]
    by_cases hcr : c = r.ch
    · subst hcr; exact Or.inl hb
    · rw [upd_other _ _ hcr]; exact h.excl c
  · intro g hg hn
    simp only [St.withIndex]
    rcases List.mem_append.mp hg with hg | hg
    · rw [upd_other _ _ (hne g hg)]
      exact h.log_kind g hg hn
    · simp at hg; subst hg; exact absurd hk hn
  · intro j b hb
    simp only [St.withIndex] at hb
    by_cases hji : j = i
    · subst hji
      exact Or.inr ⟨_, List.mem_append_right _ List.mem_cons_self, rfl, hk⟩
    · rw [upd_other _ _ hji] at hb
      rcases h.cover j b hb with ⟨g, hg, hx⟩ | ⟨g, hg, hx⟩
      · exact Or.inl ⟨g, List.mem_append_left _ hg, hx⟩
      · exact Or.inr ⟨g, List.mem_append_left _ hg, hx⟩

theorem inv_bins {s : St Ch} {L : List (Grant Ch)} {r : Req Ch} {i : Nat} {tr : Bool}
    {as : List Nat} {reps : Nat} (h : Inv s L) (hr : r.Real)
    (hk : r.acqs? = some (as, reps))
    (hc : s.chan r.ch = some i ∨ (s.chan r.ch = none ∧ s.nextIndex = some i))
    (hn : s.notBinned r.ch = none) :
    Inv (s.withBins i r.ch as reps tr) (L ++ [⟨r, i, s.nextFree i⟩]) := by
  obtain ⟨hne0, hreps⟩ := hr as reps hk
  have hlen : 0 < as.length := List.length_pos_iff.mpr hne0
  have hpos : 0 < as.length * reps := Nat.mul_pos hlen hreps
  have hsize : r.size = as.length * reps := by simp [Req.size, hk]
  have hi32 : i < numIndices := by
    rcases hc with hc | ⟨_, hc⟩
    · exact (h.chan_pos _ _ hc).1
    · exact (nextIndex_spec hc).1
  have hown : ∀ c, s.chan c = some i → c = r.ch := by
    intro c hx
    rcases hc with hc | ⟨_, hc⟩
    · exact h.chan_inj _ _ i hx hc
    · have := (nextIndex_spec hc).2.1
      have := (h.chan_pos c i hx).2
      omega
  have hch : ∀ j, s.chan r.ch = some j → j = i := by
    intro j hj
    rcases hc with hc | ⟨hc, _⟩
    · rw [hc] at hj; cases hj; rfl
    · rw [hc] at hj; cases hj
  constructor
  · intro c j hj
    simp only [St.withBins] at hj ⊢
    by_cases hcr : c = r.ch
    · subst hcr
      rw [upd_same] at hj
      cases hj
      rw [upd_same]
      exact ⟨hi32, by omega⟩
    · rw [upd_other _ _ hcr] at hj
      have hji : j ≠ i := fun e => hcr (hown c (e ▸ hj))
      rw [upd_other _ _ hji]
      exact h.chan_pos c j hj
  · intro c c' j hj hj'
    simp only [St.withBins] at hj hj'
    by_cases hcr : c = r.ch <;> by_cases hcr' : c' = r.ch
    · rw [hcr, hcr']
    · subst hcr
      rw [upd_same] at hj
      rw [upd_other _ _ hcr'] at hj'
      cases hj
      exact absurd (hown c' hj') hcr'
    · subst hcr'
      rw [upd_same] at hj'
      rw [upd_other _ _ hcr] at hj
      cases hj'
      exact absurd (hown c hj) hcr
    · rw [upd_other _ _ hcr] at hj
      rw [upd_other _ _ hcr'] at hj'
      exact h.chan_inj c c' j hj hj'
  · intro j hj
    simp only [St.withBins] at hj ⊢
    by_cases hji : j = i
    · subst hji; exact ⟨r.ch, upd_same _ _ _⟩
    · rw [upd_other _ _ hji] at hj
      obtain ⟨c, hx⟩ := h.pos_chan j hj
      refine ⟨c, ?_⟩
      rw [upd_other _ _ (fun e => hji (hch j (by rw [← e]; exact hx)))]
      exact hx
  · intro g hg
    simp only [St.withBins]
    rcases List.mem_append.mp hg with hg | hg
    · by_cases hcr : g.req.ch = r.ch
      · have := h.log_chan g hg
        rw [hcr] at this ⊢
        rw [upd_same, hch _ this]
      · rw [upd_other _ _ hcr]
        exact h.log_chan g hg
    · simp at hg; subst hg; exact upd_same _ _ _
  · intro c j hj
    simp only [St.withBins] at hj
    by_cases hcr : c = r.ch
    · exact ⟨_, List.mem_append_right _ List.mem_cons_self, hcr.symm⟩
    · rw [upd_other _ _ hcr] at hj
      obtain ⟨g, hg, he⟩ := h.chan_log c j hj
      exact ⟨g, List.mem_append_left _ hg, he⟩
  · intro c m hm
    simp only [St.withBins] at hm ⊢
    by_cases hcr : c = r.ch
    · subst hcr; exact ⟨i, upd_same _ _ _⟩
    · rw [upd_other _ _ hcr] at hm ⊢
      exact h.binned_chan c m hm
  · intro c j hj
    simp only [St.withBins] at hj ⊢
    by_cases hcr : c = r.ch
    · subst hcr; exact ⟨i, upd_same _ _ _⟩
    · rw [upd_other _ _ hcr]
      exact h.notBinned_chan c j hj
  · intro g hg hx
    simp only [St.withBins]
    rcases List.mem_append.mp hg with hg | hg
    · have := h.within g hg hx
      by_cases hji : g.index = i
      · rw [hji] at this ⊢
        rw [upd_same]
        omega
      · rw [upd_other _ _ hji]
        exact this
    · simp at hg; subst hg
      simp only
      rw [upd_same, hsize]
  · refine List.pairwise_append.mpr ⟨h.order, List.pairwise_singleton _ _, ?_⟩
    intro g hg x hx h1 h2 h3
    simp at hx; subst hx
    simp only at h3 ⊢
    rw [← h3]
    exact h.within g hg h1
  · intro j
    simp only [St.withBins]
    by_cases hji : j = i
    · subst hji
      rw [upd_same, upd_same, h.decl_eq, declOf_getD, declOf_pos (by omega)]
    · rw [upd_other _ _ hji, upd_other _ _ hji]
      exact h.decl_eq j
  · intro j
    simp only [St.withBins]
    rw [total_append]
    simp only
    by_cases hji : j = i
    · subst hji
      rw [upd_same, hsize, if_pos rfl]
      have h1 := h.total j
      have hb : baseSize (L ++ [⟨r, j, s.nextFree j⟩]) j = baseSize L j := by
        rcases hc with hc | ⟨_, hc⟩
        · exact base_append_some (h.find_some hc)
        · have h0 := (nextIndex_spec hc).2.1
          have := base_append_fresh (L := L) (g := ⟨r, j, s.nextFree j⟩) (h.no_grant h0)
          simp only at this
          rw [this, wholeSize_of_acqs hk]
          omega
      rw [hb]
      omega
    · rw [upd_other _ _ hji, base_append_ne (by simpa using fun e => hji e.symm), h.total j,
        if_neg (fun e => hji e.symm)]
      rfl
  · intro c m a loc h1 h2
    simp only [St.withBins] at h1
    by_cases hcr : c = r.ch
    · subst hcr
      rw [upd_same] at h1
      simp only [Option.some.injEq] at h1
      subst h1
      simp only [mergeLocs] at h2
      cases hl : newLocs i as.length (s.nextFree i) as a with
      | some l =>
        rw [hl] at h2
        simp at h2
        subst h2
        obtain ⟨k, h3, h4⟩ := newLocs_some hl
        exact ⟨_, List.mem_append_right _ List.mem_cons_self, rfl, as, reps, k, hk, h3, h4⟩
      | none =>
        rw [hl] at h2
        simp only [Option.none_or, Option.bind_eq_some_iff] at h2
        obtain ⟨m, h3, h4⟩ := h2
        obtain ⟨g, hg, rest⟩ := h.sound _ m a loc h3 h4
        exact ⟨g, List.mem_append_left _ hg, rest⟩
    · rw [upd_other _ _ hcr] at h1
      obtain ⟨g, hg, rest⟩ := h.sound c m a loc h1 h2
      exact ⟨g, List.mem_append_left _ hg, rest⟩
  · intro g hg as' reps' k a h1 h2 h3
    rw [chAcqs_append] at h3
    have hmem : a ∈ chAcqs L g.req.ch ∨ g = ⟨r, i, s.nextFree i⟩ := by
      rcases List.mem_append.mp hg with hg | hg
      · left
        simp only [chAcqs, List.mem_flatMap]
        refine ⟨g, hg, ?_⟩
        rw [if_pos rfl, h1]
        exact List.mem_of_getElem? h2
      · right; simpa using hg
    rcases List.mem_append.mp hg with hg | hg
    · obtain ⟨m, hm, hma⟩ := h.complete g hg as' reps' k a h1 h2 (List.nodup_append.mp h3).1
      by_cases hcr : g.req.ch = r.ch
      · have hmemL : a ∈ chAcqs L g.req.ch := by
          simp only [chAcqs, List.mem_flatMap]
          refine ⟨g, hg, ?_⟩
          rw [if_pos rfl, h1]
          exact List.mem_of_getElem? h2
        have hnot : a ∉ as := by
          intro ha
          have := (List.nodup_append.mp h3).2.2 a hmemL a
          simp only [hcr, if_true, hk] at this
          exact this ha rfl
        refine ⟨mergeLocs (s.binned r.ch) (newLocs i as.length (s.nextFree i) as), ?_, ?_⟩
        · simp only [St.withBins]
          rw [hcr, upd_same]
        · rw [hcr] at hm
          simp [mergeLocs, newLocs_none hnot, hm, hma]
      · refine ⟨m, ?_, hma⟩
        simp only [St.withBins]
        rw [upd_other _ _ hcr]
        exact hm
    · simp at hg
      subst hg
      simp only at h1 h3 ⊢
      rw [hk] at h1
      simp only [Option.some.injEq, Prod.mk.injEq] at h1
      obtain ⟨rfl, rfl⟩ := h1
      have hnd : as.Nodup := by
        have := (List.nodup_append.mp h3).2.1
        simpa [hk] using this
      refine ⟨mergeLocs (s.binned r.ch) (newLocs i as.length (s.nextFree i) as), ?_, ?_⟩
      · simp only [St.withBins]
        rw [upd_same]
      · simp [mergeLocs, newLocs_at hnd h2]
  · intro c
    simp only [St.withBins]
    by_cases hcr : c = r.ch
    · subst hcr; exact Or.inr hn
    · rw [upd_other _ _ hcr]; exact h.excl c
  · intro g hg hx
    simp only [St.withBins]
    rcases List.mem_append.mp hg with hg | hg
    · exact h.log_kind g hg hx
    · simp at hg; subst hg; exact hn
  · intro j b hb
    simp only [St.withBins] at hb
    by_cases hnew : j = i ∧ s.nextFree i ≤ b
    · obtain ⟨rfl, hle⟩ := hnew
      rw [upd_same] at hb
      exact Or.inl ⟨_, List.mem_append_right _ List.mem_cons_self, by simp [hk], rfl, hle,
        by simp only; rw [hsize]; exact hb⟩
    · have hb' : b < s.nextFree j := by
        by_cases hji : j = i
        · subst hji
          simp at hnew
          exact hnew
        · rw [upd_other _ _ hji] at hb
          exact hb
      rcases h.cover j b hb' with ⟨g, hg, hx⟩ | ⟨g, hg, hx⟩
      · exact Or.inl ⟨g, List.mem_append_left _ hg, hx⟩
      · exact Or.inr ⟨g, List.mem_append_left _ hg, hx⟩

theorem inv_step {s s' : St Ch} {L : List (Grant Ch)} {r : Req Ch} {i f : Nat} (h : Inv s L)
    (hr : r.Real) (hx : s.exec r = (s', .ok (i, f))) : Inv s' (L ++ [⟨r, i, f⟩]) := by
  cases exec_ok hx with
  | old hk hc hf hs => subst hf; subst hs; exact inv_old h hk hc
  | whole tr hk hc hi hf hb hs => subst hf; subst hs; exact inv_whole h hk hc hi hb
  | bins tr as reps hk hc hf hn hsz hs => subst hf; subst hs; exact inv_bins h hr hk hc hn

/-- The invariant holds after every history of real requests. -/
theorem inv_history (rs : List (Req Ch)) (hr : ∀ r ∈ rs, r.Real) :
    Inv (history rs).1 (history rs).2 := by
  unfold history
  have key : ∀ (rs : List (Req Ch)) (x : St Ch × List (Grant Ch)), (∀ r ∈ rs, r.Real) →
      Inv x.1 x.2 →
      Inv (rs.foldl (fun x r => match x.1.exec r with
        | (s', .ok (i, f)) => (s', x.2 ++ [⟨r, i, f⟩])
        | (s', .error _) => (s', x.2)) x).1
        (rs.foldl (fun x r => match x.1.exec r with
        | (s', .ok (i, f)) => (s', x.2 ++ [⟨r, i, f⟩])
        | (s', .error _) => (s', x.2)) x).2 := by
    intro rs
    induction rs with
    | nil => intro x _ h; exact h
    | cons r rs ih =>
      intro x hrs h
      rw [List.foldl_cons]
      refine ih _ (fun y hy => hrs y (List.mem_cons_of_mem _ hy)) ?_
      rcases hx : x.1.exec r with ⟨s', res⟩
      cases res with
      | ok v => exact inv_step h (hrs r List.mem_cons_self) hx
      | error e =>
        have := exec_error hx
        subst this
        exact h
  exact key rs _ hr inv_init

end Verif.AcqBins
