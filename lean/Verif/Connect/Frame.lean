/-
What the step for one port leaves alone, and its effect for a port wired to channels.
-/
import Verif.Connect.Paths

set_option linter.unusedSimpArgs false
set_option linter.unusedVariables false

namespace Verif.Connect

open Verif.Connect.Spec

/-- While the port `q` is processed, older objects and the keys of other ports stay. -/
structure Frame (n0 : Nat) (q : String) (clocks : List String) (st0 st : St) : Prop where
  len : n0 ≤ st.heap.length
  old : ∀ i, i < n0 → st.heap[i]? = st0.heap[i]?
  keys : ∀ cl p c, p ≠ q → Dict.get? st.tab (cl, (p, c)) = Dict.get? st0.tab (cl, (p, c))
  refs : ∀ cl c ref, Dict.get? st.tab (cl, (q, c)) = some ref →
    n0 ≤ ref ∧ ref < st.heap.length ∧ c ∈ clocks
  nodup : (Dict.keys st.tab).Nodup

theorem repeatLoop_frame {n0 : Nat} {q : String} {clocks : List String} {st0 : St} (path : Path)
    (c : String) : ∀ (cls : List String) (st st' : St) (r r' : Bool),
    Frame n0 q clocks st0 st → repeatLoop path (q, c) cls st r = .ok (st', r') →
    Frame n0 q clocks st0 st' ∧ st'.tab = st.tab ∧ st'.heap.length = st.heap.length
  | [], st, st', r, r', hf, h => by
    simp only [repeatLoop, Except.ok.injEq, Prod.mk.injEq] at h
    obtain ⟨rfl, rfl⟩ := h
    exact ⟨hf, rfl, rfl⟩
  | cl :: cls, st, st', r, r', hf, h => by
    rw [repeatLoop] at h
    split at h
    · exact repeatLoop_frame path c cls st st' r r' hf h
    · rename_i ref href
      split at h
      · simp at h
      · rename_i p hp
        split at h
        · simp at h
        · have hr := hf.refs cl c ref href
          have := repeatLoop_frame path c cls
            { st with heap := st.heap.set ref (p.add path.chan) } st' true r'
            { len := by simpa using hf.len
              old := fun i hi => by
                simp only
                rw [List.getElem?_set_ne (by omega)]
                exact hf.old i hi
              keys := hf.keys
              refs := fun cl' c' ref' h' => by
                have := hf.refs cl' c' ref' h'
                simpa using this
              nodup := hf.nodup } h
          simpa using this

theorem clockLoop_frame {n0 : Nat} {q : String} {clocks : List String} {st0 : St} (env : Env)
    (path : Path) (ref : Nat) (hn : n0 ≤ ref) : ∀ (cs : List String) (st st' : St),
    (∀ c ∈ cs, c ∈ clocks) → ref < st.heap.length →
    Frame n0 q clocks st0 st → clockLoop env q path ref cs st = .ok st' →
    Frame n0 q clocks st0 st'
  | [], st, st', _, _, hf, h => by
    simp only [clockLoop, Except.ok.injEq] at h; subst h; exact hf
  | c :: cs, st, st', hc, hr, hf, h => by
    rw [clockLoop] at h
    split at h
    · simp at h
    · rename_i st1 h1
      have := repeatLoop_frame path c _ _ _ _ _ hf h1
      exact clockLoop_frame env path ref hn cs st1 st' (fun x hx => hc x (by simp [hx]))
        (by rw [this.2.2]; exact hr) this.1 h
    · rename_i st1 h1
      have hff := repeatLoop_frame path c _ _ _ _ _ hf h1
      refine clockLoop_frame env path ref hn cs _ st' (fun x hx => hc x (by simp [hx])) ?_ ?_ h
      · simp only; rw [hff.2.2]; exact hr
      · have hf1 := hff.1
        exact
          { len := hf1.len
            old := hf1.old
            keys := fun cl p c' hp => by
              simp only
              rw [Dict.get?_set_ne _ _ (by simp [hp])]
              exact hf1.keys cl p c' hp
            refs := fun cl c' ref' h' => by
              simp only at h'
              rw [Dict.get?_set] at h'
              split at h'
              · rename_i he
                simp only [Prod.mk.injEq] at he
                simp only [Option.some.injEq] at h'
                subst h'
                exact ⟨hn, by simp only; rw [hff.2.2]; exact hr, by
                  rw [he.2.2]; exact hc c (by simp)⟩
              · exact hf1.refs cl c' ref' h'
            nodup := Dict.keys_set_nodup hf1.nodup _ _ }

theorem opticalClock_mem {env : Env} {mixer : Elem} {clocks : List String} {c : String}
    (h : opticalClock env mixer clocks = some c) : c ∈ clocks := by
  unfold opticalClock at h
  obtain ⟨i, _, hi⟩ := List.exists_of_findSome?_eq_some h
  unfold opticalAt at hi
  split at hi
  · exact List.mem_of_find?_eq_some hi
  · simp at hi

theorem mixerTab_get (f : String → String) (port cluster : String) (ref : Nat) :
    ∀ (clocks : List String) (t : List ((String × PC) × Nat)) (cl p c : String),
    Dict.get? (clocks.foldl (fun t clock => Dict.set t (cluster, (port, f clock)) ref) t)
        (cl, (p, c)) =
      if cl = cluster ∧ p = port ∧ c ∈ clocks.map f then some ref
      else Dict.get? t (cl, (p, c)) := by
  intro clocks t cl p c
  have : clocks.foldl (fun t clock => Dict.set t (cluster, (port, f clock)) ref) t =
      (clocks.map f).foldl (fun t clock => Dict.set t (cluster, (port, clock)) ref) t := by
    rw [List.foldl_map]
  rw [this, foldl_set_get]

theorem nbrStep_frame {n0 : Nat} {q : String} {clocks : List String} {st0 : St} (env : Env)
    (st st' : St) (nbr : Node) (hf : Frame n0 q clocks st0 st)
    (h : nbrStep env q clocks st nbr = .ok st') : Frame n0 q clocks st0 st' := by
  unfold nbrStep at h
  split at h
  · split at h
    · simp at h
    · rename_i path _
      refine clockLoop_frame env path _ hf.len clocks _ st' (fun _ h => h) (by simp) ?_ h
      exact
        { len := by simp; have := hf.len; omega
          old := fun i hi => by
            simp only
            rw [List.getElem?_append_left (by have := hf.len; omega)]
            exact hf.old i hi
          keys := hf.keys
          refs := fun cl c ref h => by
            have := hf.refs cl c ref h
            exact ⟨this.1, by simp; omega, this.2.2⟩
          nodup := hf.nodup }
  · split at h
    · simp only [Except.ok.injEq] at h; subst h; exact hf
    · split at h
      · simp at h
      · split at h
        · simp at h
        · rename_i mixer _ _ p lo _ _ path _
          simp only [Except.ok.injEq] at h
          subst h
          exact
            { len := by simp [mixerClocks]; have := hf.len; omega
              old := fun i hi => by
                simp only [mixerClocks]
                rw [List.getElem?_append_left (by have := hf.len; omega)]
                exact hf.old i hi
              keys := fun cl p c hp => by
                simp only [mixerClocks]
                rw [mixerTab_get, if_neg (by simp [hp])]
                exact hf.keys cl p c hp
              refs := fun cl c ref h => by
                simp only [mixerClocks] at h ⊢
                rw [mixerTab_get] at h
                split at h
                · rename_i hh
                  simp only [Option.some.injEq] at h
                  subst h
                  refine ⟨hf.len, by simp, ?_⟩
                  obtain ⟨x, hx, rfl⟩ := List.mem_map.mp hh.2.2
                  cases ho : opticalClock env mixer clocks with
                  | none => simpa using hx
                  | some y => simpa using opticalClock_mem ho
                · have := hf.refs cl c ref h
                  exact ⟨this.1, by simp; omega, this.2.2⟩
              nodup := by
                simp only [mixerClocks]
                exact foldl_set_nodup (fun c => (path.cluster, (q,
                  (opticalClock env mixer clocks).getD c))) _ _ _ hf.nodup }

theorem foldlM_ok_nil {σ β : Type} (f : σ → β → Except Err σ) (s : σ) :
    ([] : List β).foldlM f s = .ok s := rfl

theorem foldlM_ok_cons {σ β : Type} (f : σ → β → Except Err σ) (s s' : σ) (b : β) (l : List β) :
    (b :: l).foldlM f s = .ok s' ↔ ∃ s1, f s b = .ok s1 ∧ l.foldlM f s1 = .ok s' := by
  rw [List.foldlM_cons]
  cases h : f s b with
  | error e => simp [bind, Except.bind, h]
  | ok s1 => simp [bind, Except.bind, h]

theorem foldlM_error_cons {σ β : Type} (f : σ → β → Except Err σ) (s : σ) (b : β) (l : List β)
    (e : Err) (h : f s b = .error e) : (b :: l).foldlM f s = .error e := by
  rw [List.foldlM_cons, h]; rfl

theorem foldlM_next {σ β : Type} (f : σ → β → Except Err σ) (s s1 : σ) (b : β) (l : List β)
    (h : f s b = .ok s1) : (b :: l).foldlM f s = l.foldlM f s1 := by
  rw [List.foldlM_cons, h]; rfl

theorem foldlM_ok_append {σ β : Type} (f : σ → β → Except Err σ) : ∀ (l1 l2 : List β) (s s' : σ),
    (l1 ++ l2).foldlM f s = .ok s' ↔ ∃ s1, l1.foldlM f s = .ok s1 ∧ l2.foldlM f s1 = .ok s'
  | [], l2, s, s' => by simp [foldlM_ok_nil, pure, Except.pure]
  | b :: l1, l2, s, s' => by
    rw [List.cons_append, foldlM_ok_cons]
    constructor
    · rintro ⟨s1, h1, h2⟩
      obtain ⟨s2, h3, h4⟩ := (foldlM_ok_append f l1 l2 s1 s').mp h2
      exact ⟨s2, (foldlM_ok_cons ..).mpr ⟨s1, h1, h3⟩, h4⟩
    · rintro ⟨s2, h1, h2⟩
      obtain ⟨s1, h3, h4⟩ := (foldlM_ok_cons ..).mp h1
      exact ⟨s1, h3, (foldlM_ok_append f l1 l2 s1 s').mpr ⟨s2, h4, h2⟩⟩

theorem nbrs_frame {n0 : Nat} {q : String} {clocks : List String} {st0 : St} (env : Env) :
    ∀ (l : List Node) (st st' : St), Frame n0 q clocks st0 st →
    l.foldlM (nbrStep env q clocks) st = .ok st' → Frame n0 q clocks st0 st'
  | [], st, st', hf, h => by
    rw [foldlM_ok_nil, Except.ok.injEq] at h; subst h; exact hf
  | n :: l, st, st', hf, h => by
    obtain ⟨s1, h1, h2⟩ := (foldlM_ok_cons ..).mp h
    exact nbrs_frame env l s1 st' (nbrStep_frame env st s1 n hf h1) h2

/-- All references are to objects. -/
def Valid (st : St) : Prop :=
  (Dict.keys st.tab).Nodup ∧ ∀ k ref, Dict.get? st.tab k = some ref → ref < st.heap.length

/-- The step of a new port. -/
theorem portStep_frame (env : Env) (st st' : St) (e : String × List String) (hv : Valid st)
    (hnew : ∀ cl c, Dict.get? st.tab (cl, (e.1, c)) = none) (h : portStep env st e = .ok st') :
    Frame st.heap.length e.1 e.2 st st' := by
  unfold portStep at h
  split at h
  · refine nbrs_frame env _ st st' ?_ h
    exact
      { len := Nat.le_refl _
        old := fun _ _ => rfl
        keys := fun _ _ _ _ => rfl
        refs := fun cl c ref h => by rw [hnew] at h; simp at h
        nodup := hv.1 }
  · simp at h

theorem Frame.valid {q : String} {clocks : List String} {st0 st : St}
    (hf : Frame st0.heap.length q clocks st0 st) (hv : Valid st0) : Valid st := by
  refine ⟨hf.nodup, ?_⟩
  rintro ⟨cl, p, c⟩ ref h
  by_cases hp : p = q
  · subst hp; exact (hf.refs cl c ref h).2.1
  · rw [hf.keys cl p c hp] at h
    have := hv.2 _ ref h
    have := hf.len
    omega

end Verif.Connect
