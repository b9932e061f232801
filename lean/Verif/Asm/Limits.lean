/-
C72: which blocks are accepted, and their waveforms.
-/
import Verif.Asm.Props
import Verif.Waves.Props

set_option linter.unusedSimpArgs false
set_option linter.unusedVariables false

namespace Verif.Asm

open Spec

theorem mapArg_error {pre : Name} {A : List Name} {st : RegMap} {a : Name} {e : Err}
    (h : mapArg pre st a = .error e) (hne : a ≠ []) (hI : Inv A st) :
    IsReg a ∧ a ∉ st.1.map Prod.fst ∧ st.1.length = A.length := by
  unfold mapArg at h
  split at h
  · exact absurd rfl hne
  · rename_i n
    split at h
    · simp at h
    · rename_i hnone
      split at h
      · rename_i hst
        refine ⟨⟨n, rfl⟩, lookup_none.mp hnone, ?_⟩
        rw [← hI.all, hst]; simp
      · simp at h
  · simp at h
  · simp at h

theorem bind_error {α β : Type} {x : Except Err α} {f : α → Except Err β} {e : Err} (h : x.bind f = .error e) :
    x = .error e ∨ ∃ a, x = .ok a ∧ f a = .error e := by
  cases x with
  | error e' => left; simpa [Except.bind] using h
  | ok a => exact .inr ⟨a, rfl, h⟩

theorem mapArgs_error {pre : Name} {A : List Name} {e : Err} : ∀ {as : List Name} {st : RegMap},
    mapArgs pre st as = .error e → (∀ a ∈ as, a ≠ []) → Inv A st →
    ∃ ks : List Name, ks.Nodup ∧ ks.length = A.length + 1 ∧ ∀ k ∈ ks, k ∈ st.1.map Prod.fst ∨ (k ∈ as ∧ IsReg k)
  | [], st, h, _, _ => by simp [mapArgs] at h
  | a :: as, st, h, hne, hI => by
    rw [mapArgs] at h
    rcases bind_error h with h | ⟨⟨b, s1⟩, h1, h⟩
    · obtain ⟨hr, hn, hl⟩ := mapArg_error h (hne a List.mem_cons_self) hI
      refine ⟨a :: st.1.map Prod.fst, List.nodup_cons.mpr ⟨hn, hI.nodup⟩, by simp [hl], ?_⟩
      intro k hk
      rcases List.mem_cons.mp hk with rfl | hk
      · exact .inr ⟨List.mem_cons_self, hr⟩
      · exact .inl hk
    · rcases bind_error h with h | ⟨_, _, h⟩
      · obtain ⟨i1, p1, l1, k1, e1, r1⟩ := mapArg_spec h1 hI
        obtain ⟨ks, hn, hl, hk⟩ := mapArgs_error h (fun a ha => hne a (List.mem_cons_of_mem _ ha)) i1
        refine ⟨ks, hn, hl, ?_⟩
        intro k hks
        rcases hk k hks with h | ⟨h, hr⟩
        · rcases k1 k h with h | ⟨rfl, hr⟩
          · exact .inl h
          · exact .inr ⟨List.mem_cons_self, hr⟩
        · exact .inr ⟨List.mem_cons_of_mem _ h, hr⟩
      · simp at h

theorem mapLines_error {pre : Name} {A : List Name} {e : Err} : ∀ {ls : List Line} {st : RegMap},
    mapLines pre st ls = .error e → (∀ l ∈ ls, ∀ a ∈ l.args, a ≠ []) → Inv A st →
    ∃ ks : List Name, ks.Nodup ∧ ks.length = A.length + 1 ∧ ∀ k ∈ ks, k ∈ st.1.map Prod.fst ∨ RegOf ls k
  | [], st, h, _, _ => by simp [mapLines] at h
  | l :: ls, st, h, hne, hI => by
    have weaken : ∀ {k}, RegOf ls k → RegOf (l :: ls) k :=
      fun ⟨hr, x, hx, hxa⟩ => ⟨hr, x, List.mem_cons_of_mem _ hx, hxa⟩
    have hne' := fun x (hx : x ∈ ls) => hne x (List.mem_cons_of_mem _ hx)
    rw [mapLines] at h
    split at h
    · obtain ⟨ks, hn, hl, hk⟩ := mapLines_error h hne' hI
      exact ⟨ks, hn, hl, fun k hks => (hk k hks).imp id weaken⟩
    · rcases bind_error h with h | ⟨⟨b, s1⟩, h1, h⟩
      · obtain ⟨ks, hn, hl, hk⟩ := mapArgs_error h (hne l List.mem_cons_self) hI
        exact ⟨ks, hn, hl, fun k hks => (hk k hks).imp id (fun ⟨h, hr⟩ => ⟨hr, l, List.mem_cons_self, h⟩)⟩
      · rcases bind_error h with h | ⟨_, _, h⟩
        · obtain ⟨i1, p1, l1, k1, e1, r1⟩ := mapArgs_spec h1 hI
          obtain ⟨ks, hn, hl, hk⟩ := mapLines_error h hne' i1
          refine ⟨ks, hn, hl, ?_⟩
          intro k hks
          rcases hk k hks with h | h
          · rcases k1 k h with h | ⟨h, hr⟩
            · exact .inl h
            · exact .inr ⟨hr, l, List.mem_cons_self, h⟩
          · exact .inr (weaken h)
        · simp at h

/-- **C72, registers.** A block is accepted exactly if there are as many available registers as it names different
registers. -/
theorem accepted_iff {q : Qasm} (safe : Bool) {block : List Line} (d : Rat) (hav : RegList q.avail)
    (hargs : ∀ l ∈ block, ∀ a ∈ l.args, a ≠ []) {rs : List Name} (hrs : Registers block rs) :
    (∃ q', inject q safe block d = .ok q') ↔ rs.length ≤ q.avail.length := by
  constructor
  · rintro ⟨q', h⟩
    obtain ⟨M, rest, hall, hkn, hkeys, _, _⟩ := inject_spec h hav.1
    have hperm : rs.Perm (M.map Prod.fst) :=
      (List.perm_ext_iff_of_nodup hrs.1 hkn).mpr (fun a => (hrs.2 a).trans (hkeys a).symm)
    rw [hperm.length_eq, ← hall]
    simp
  · intro hle
    unfold inject
    cases hm : mapLines (labelPrefix safe q.instrs.length) ([], q.avail) block with
    | error e =>
      exfalso
      obtain ⟨ks, hn, hl, hk⟩ := mapLines_error (A := q.avail) hm hargs ⟨rfl, by simp, by simp⟩
      have hsub : ks ⊆ rs := fun k hks => (hrs.2 k).mpr ((hk k hks).resolve_left (by simp))
      have := (List.subperm_of_subset hn hsub).length_le
      omega
    | ok r =>
      obtain ⟨i, _⟩ := mapLines_spec (A := q.avail) hm ⟨rfl, by simp, by simp⟩
      have hf := freeAll_spec (r.2.1.map Prod.snd) r.2.2 (by rw [i.all]; exact hav.1)
      simp only [Except.bind, hf]
      exact ⟨_, rfl⟩

/-- Without safe labels, labels and jumps are as written. -/
theorem unsafe_labels (n : Nat) : labelPrefix false n = [] := rfl

/-! ### Waveforms -/

variable {K : Type} [DecidableEq K]

theorem addBlocks_spec : ∀ (wss : List (List (Waves.Entry K))) (tab tab' : List (Waves.Entry K)),
    addBlocks tab wss = .ok tab' → tab' = tab ++ wss.flatten ∧
      ((tab.map Waves.Entry.key).Nodup → (∀ ws ∈ wss, (ws.map Waves.Entry.key).Nodup) →
        (tab'.map Waves.Entry.key).Nodup)
  | [], tab, tab', h => by
    simp only [addBlocks, Except.ok.injEq] at h
    subst h
    exact ⟨by simp, fun h _ => h⟩
  | ws :: wss, tab, tab', h => by
    rw [addBlocks] at h
    obtain ⟨t, h1, h⟩ := bind_ok h
    obtain ⟨h2, h3⟩ := addBlocks_spec wss t tab' h
    unfold addBlock at h1
    split at h1
    · simp at h1
    · rename_i hno
      simp only [Except.ok.injEq] at h1
      subst h1
      refine ⟨by rw [h2]; simp, ?_⟩
      intro hn hws
      refine h3 ?_ (fun w hw => hws w (List.mem_cons_of_mem _ hw))
      rw [List.map_append, List.nodup_append]
      refine ⟨hn, hws ws List.mem_cons_self, ?_⟩
      intro a ha b hb hab
      subst hab
      obtain ⟨e, he, hea⟩ := List.mem_map.mp ha
      obtain ⟨w, hw, hwa⟩ := List.mem_map.mp hb
      refine hno (List.any_eq_true.mpr ⟨w, hw, List.any_eq_true.mpr ⟨e, he, ?_⟩⟩)
      rw [hea, hwa]; simp

/-- **C72, waveforms.** The waveforms of all blocks of a sequencer are in its memory, under the indices the user gave
them, and nothing else is under these indices, whatever pulses there are besides.  The indices clash only if those of
the blocks do. -/
theorem waveforms_kept (hash : List Int → K) {wss : List (List (Waves.Entry K))} {tab : List (Waves.Entry K)}
    (h : addBlocks [] wss = .ok tab) (hws : ∀ ws ∈ wss, (ws.map Waves.Entry.key).Nodup) (pulses : List (List Rat)) :
    ((((Waves.addAll hash tab pulses).1.map Waves.Entry.index).Nodup ↔
      (wss.flatten.map Waves.Entry.index).Nodup) ∧
    (Waves.validate (Waves.addAll hash tab pulses).1 = .ok () → ∀ ws ∈ wss, ∀ w ∈ ws,
      w ∈ (Waves.addAll hash tab pulses).1 ∧
      ∀ e ∈ (Waves.addAll hash tab pulses).1, e.index = w.index → e = w)) := by
  obtain ⟨h1, h2⟩ := addBlocks_spec wss [] tab h
  simp only [List.nil_append] at h1
  have hk := h2 (by simp) hws
  have hp := Waves.addAll_prefix hash tab pulses
  constructor
  · constructor
    · intro hn
      rw [← h1]
      exact (hp.sublist.map _).nodup hn
    · intro hn
      rw [← h1] at hn
      exact (Waves.addAll_wf hash (d := tab) ⟨hk, hn⟩ pulses).2
  · intro hv ws hw w hww
    have hmem : w ∈ (Waves.addAll hash tab pulses).1 :=
      Waves.mem_of_prefix hp (h1 ▸ List.mem_flatten.mpr ⟨ws, hw, hww⟩)
    refine ⟨hmem, ?_⟩
    intro e he hi
    exact List.inj_on_of_nodup_map ((Waves.validate_iff _).mp hv).1 he hmem hi

/-- Finding: a block with waveforms of its own can be used only once in the program of a sequencer; the second use is
refused as a duplicate, although it is the same. -/
theorem twice_refused {ws : List (Waves.Entry K)} (hne : ws ≠ []) (pre mid post : List (List (Waves.Entry K)))
    (tab : List (Waves.Entry K)) : addBlocks tab (pre ++ ws :: mid ++ ws :: post) = .error .runtimeError := by
  have key : ∀ (xs : List (List (Waves.Entry K))) (t t' : List (Waves.Entry K)) (rest),
      addBlocks t (xs ++ rest) = .ok t' → ∃ u, addBlocks t xs = .ok u ∧ addBlocks u rest = .ok t' := by
    intro xs
    induction xs with
    | nil => intro t t' rest h; exact ⟨t, rfl, h⟩
    | cons x xs ih =>
      intro t t' rest h
      rw [List.cons_append, addBlocks] at h
      obtain ⟨v, hv, h⟩ := bind_ok h
      obtain ⟨u, h1, h2⟩ := ih v t' rest h
      exact ⟨u, by rw [addBlocks, hv]; exact h1, h2⟩
  have herr : ∀ (xs : List (List (Waves.Entry K))) (t : List (Waves.Entry K)) (e : Err),
      addBlocks t xs = .error e → e = .runtimeError := by
    intro xs
    induction xs with
    | nil => intro t e h; simp [addBlocks] at h
    | cons x xs ih =>
      intro t e h
      rw [addBlocks] at h
      rcases bind_error h with h | ⟨_, _, h⟩
      · unfold addBlock at h
        split at h
        · simpa using h.symm
        · simp at h
      · exact ih _ _ h
  cases hr : addBlocks tab (pre ++ ws :: mid ++ ws :: post) with
  | error e => rw [herr _ _ _ hr]
  | ok t' =>
    exfalso
    obtain ⟨u, h1, h2⟩ := key _ _ _ _ hr
    rw [addBlocks] at h2
    obtain ⟨v, hv, _⟩ := bind_ok h2
    obtain ⟨h3, _⟩ := addBlocks_spec _ _ _ h1
    unfold addBlock at hv
    split at hv
    · simp at hv
    · rename_i hno
      obtain ⟨w, ws', rfl⟩ := List.exists_cons_of_ne_nil hne
      refine hno (List.any_eq_true.mpr ⟨w, List.mem_cons_self, List.any_eq_true.mpr ⟨w, ?_, by simp⟩⟩)
      rw [h3]
      simp

end Verif.Asm
