/-
Lemmas on writing and reading all settings.
-/
import Verif.ZiFiles.Lemmas

namespace Verif.ZiFiles

open Verif.ZiPrepare

set_option linter.unusedSimpArgs false

theorem mem_firsts {l : List Node} {n : Node} : n ∈ firsts l ↔ n ∈ l := by
  induction l with
  | nil => simp [firsts]
  | cons a l ih => simp only [firsts, List.mem_cons, List.mem_filter, ih, decide_eq_true_eq]; by_cases h : n = a <;> simp [h]

theorem firsts_nodup (l : List Node) : (firsts l).Nodup := by
  induction l with
  | nil => simp [firsts]
  | cons a l ih => simp only [firsts, List.nodup_cons]; exact ⟨by simp, ih.filter _⟩

theorem firsts_append (l : List Node) (n : Node) :
    firsts (l ++ [n]) = if n ∈ l then firsts l else firsts l ++ [n] := by
  induction l with
  | nil => simp [firsts]
  | cons a l ih =>
    simp only [List.cons_append, firsts, ih, List.mem_cons]
    by_cases h : n ∈ l
    · simp [h]
    · by_cases h2 : n = a
      · subst h2; simp [h]
      · simp [h, h2, List.filter_append]

theorem firsts_of_nodup {l : List Node} (h : l.Nodup) : firsts l = l := by
  induction l with
  | nil => rfl
  | cons a l ih =>
    simp only [List.nodup_cons] at h
    simp only [firsts, ih h.2, List.cons.injEq, true_and, List.filter_eq_self, decide_eq_true_eq]
    intro b hb e; subst e; exact h.1 hb

/-- What has been written after some settings. -/
structure Inv (name : String) (fs0 : Fs) (done : List Daq) (c : List (Node × J)) (fs : Fs) : Prop where
  keys : Dict.keys c = firsts (done.map (·.node))
  get : ∀ n j, Dict.get? c n = some j → ∃ d f, Last done n d ∧ write name d = .ok (j, f) ∧
    ∀ e, f = some e → Dict.get? fs e.1 = some e.2
  frame : ∀ f : File, f.instr ≠ name → Dict.get? fs f = Dict.get? fs0 f

theorem Last.mem {l : List Daq} {n : Node} {d : Daq} (h : Last l n d) : d ∈ l := by
  obtain ⟨a, b, rfl, _⟩ := h; simp

theorem writeDaqs_inv (name : String) (fs0 : Fs) : ∀ (l done : List Daq) (c : List (Node × J)) (fs : Fs),
    (∀ d ∈ done ++ l, Good d) → Inv name fs0 done c fs →
    ∃ c' fs', writeDaqs name l c fs = .ok (c', fs') ∧ Inv name fs0 (done ++ l) c' fs'
  | [], done, c, fs, _, hi => ⟨c, fs, rfl, by simpa using hi⟩
  | d :: l, done, c, fs, hg, hi => by
    have hd : Good d := hg d (by simp)
    obtain ⟨⟨j, f⟩, hw⟩ := write_good name hd
    have key : Inv name fs0 (done ++ [d]) (Dict.set c d.node j) (put fs f) := by
      refine ⟨?_, ?_, ?_⟩
      · rw [Dict.keys_set, hi.keys, List.map_append]
        simp only [List.map_cons, List.map_nil]
        rw [firsts_append]
        simp only [mem_firsts]
      · intro n k hk
        by_cases hn : n = d.node
        · subst hn
          rw [Dict.get?_set_self] at hk
          simp only [Option.some.injEq] at hk
          subst hk
          refine ⟨d, f, ⟨done, [], rfl, rfl, by simp⟩, hw, ?_⟩
          intro e he; subst he
          exact Dict.get?_set_self _ _ _
        · rw [Dict.get?_set_ne _ _ hn] at hk
          obtain ⟨d', f', hl, hw', hf'⟩ := hi.get n k hk
          refine ⟨d', f', ?_, hw', ?_⟩
          · obtain ⟨a, b, rfl, h1, h2⟩ := hl
            refine ⟨a, b ++ [d], by simp, h1, ?_⟩
            intro x hx
            rw [List.mem_append] at hx
            rcases hx with hx | hx
            · exact h2 x hx
            · simp at hx; subst hx; exact fun e => hn e.symm
          · intro e he
            subst he
            cases f with
            | none => exact hf' e rfl
            | some g =>
              show Dict.get? (Dict.set fs g.1 g.2) e.1 = _
              rw [Dict.get?_set_ne]
              · exact hf' e rfl
              · intro h
                have := write_inj (hg d' (List.mem_append_left _ hl.mem)) hd hw' hw h
                obtain ⟨_, _, _, h1, _⟩ := hl
                exact hn (by rw [← h1, this])
      · intro g hgn
        cases f with
        | none => exact hi.frame g hgn
        | some e =>
          show Dict.get? (Dict.set fs e.1 e.2) g = _
          rw [Dict.get?_set_ne]
          · exact hi.frame g hgn
          · rintro rfl
            rcases write_file hd hw with ⟨a, w, h, _⟩ | ⟨a, h, _⟩ <;> exact hgn (by rw [h]; rfl)
    obtain ⟨c', fs', h1, h2⟩ := writeDaqs_inv name fs0 l (done ++ [d]) _ _ (by simpa using hg) key
    refine ⟨c', fs', ?_, by simpa using h2⟩
    unfold writeDaqs
    rw [hw]; exact h1

/-- The programs. -/
theorem writePrograms_inv (name : String) : ∀ (l done : List (Nat × String)) (fs : Fs),
    ((done ++ l).map Prod.fst).Nodup → (∀ e ∈ done, Dict.get? fs (.seqc name e.1) = some (.text e.2)) →
    ∃ fs', writePrograms name l (done.map fun e => (e.1, .seqc name e.1)) fs =
        ((done ++ l).map fun e => (e.1, .seqc name e.1), fs') ∧
      (∀ e ∈ done ++ l, Dict.get? fs' (.seqc name e.1) = some (.text e.2)) ∧
      ∀ f, (∀ a, f ≠ .seqc name a) → Dict.get? fs' f = Dict.get? fs f
  | [], done, fs, _, h => ⟨fs, by simp [writePrograms], by simpa using h, fun _ _ => rfl⟩
  | e :: l, done, fs, hn, h => by
    have hne : ∀ x ∈ done, x.1 ≠ e.1 := by
      rw [List.map_append, List.nodup_append] at hn
      intro x hx
      exact hn.2.2 x.1 (List.mem_map_of_mem hx) e.1 (by simp)
    obtain ⟨fs', h1, h2, h3⟩ := writePrograms_inv name l (done ++ [e]) (Dict.set fs (.seqc name e.1) (.text e.2))
      (by simpa using hn) (by
        intro x hx
        rw [List.mem_append] at hx
        rcases hx with hx | hx
        · rw [Dict.get?_set_ne _ _ (by simp; exact hne x hx)]; exact h x hx
        · simp at hx; subst hx; exact Dict.get?_set_self _ _ _)
    refine ⟨fs', ?_, by simpa using h2, ?_⟩
    · unfold writePrograms
      have : Dict.set (done.map fun e => (e.1, File.seqc name e.1)) e.1 (.seqc name e.1) =
          (done ++ [e]).map fun e => (e.1, File.seqc name e.1) := by
        unfold Dict.set
        rw [if_neg]
        · simp
        · simp only [List.any_map, List.any_eq_true, Function.comp, not_exists, not_and, beq_iff_eq]
          intro x hx; exact hne x hx
      rw [this, h1]
      simp
    · intro f hf
      rw [h3 f hf, Dict.get?_set_ne _ _ (hf e.1)]

theorem readPrograms_ok (name : String) (fs : Fs) : ∀ l : List (Nat × String),
    (∀ e ∈ l, Dict.get? fs (.seqc name e.1) = some (.text e.2)) →
    readPrograms fs (l.map fun e => (e.1, .seqc name e.1)) = .ok l
  | [], _ => rfl
  | e :: l, h => by
    simp only [List.map_cons, readPrograms, h e (by simp), readPrograms_ok name fs l fun x hx => h x (by simp [hx])]

theorem readDaqs_ok (uhfqa : Bool) (fs : Fs) (P : Node → Daq → Prop) : ∀ c : List (Node × J),
    (∀ n j, (n, j) ∈ c → ∃ d', read uhfqa fs n j = .ok [d'] ∧ d'.node = n ∧ P n d') →
    ∃ l, readDaqs uhfqa fs c = .ok l ∧ l.map (·.node) = Dict.keys c ∧ ∀ d' ∈ l, P d'.node d'
  | [], _ => ⟨[], rfl, rfl, by simp⟩
  | (n, j) :: c, h => by
    obtain ⟨d', h1, h2, h3⟩ := h n j (by simp)
    obtain ⟨l, h4, h5, h6⟩ := readDaqs_ok uhfqa fs P c fun m k hm => h m k (by simp [hm])
    refine ⟨d' :: l, ?_, ?_, ?_⟩
    · simp [readDaqs, h1, h4]
    · simp [Dict.keys, h2] at h5 ⊢; exact h5
    · intro x hx
      simp only [List.mem_cons] at hx
      rcases hx with rfl | hx
      · rw [h2]; exact h3
      · exact h6 x hx

end Verif.ZiFiles
