/-
Settings that are written to files are read back (C84).
-/
import Verif.ZiFiles.Fold

namespace Verif.ZiFiles

open Verif.ZiPrepare

set_option linter.unusedSimpArgs false

/-- The types of devices that can be read, and whether it is a UHFQA. -/
def Known (type : String) (uhfqa : Bool) : Prop :=
  type.toUpper = "UHFQA" ∧ uhfqa = true ∨ type.toUpper ∈ ["HDAWG", "UHFLI", "MFLI", "PQSC"] ∧ uhfqa = false

theorem deviceType_known {type : String} {u : Bool} (h : Known type u) : deviceType type = .ok u := by
  unfold deviceType
  rcases h with ⟨h, rfl⟩ | ⟨h, rfl⟩
  · rw [h]; rfl
  · simp only [List.mem_cons, List.not_mem_nil, or_false] at h
    rcases h with h | h | h | h <;> rw [h] <;> rfl

/-- Settings are written, files of other instruments are left as they are, and as long as the files of this instrument are
left as they are the settings are read back: the programs, and for each node, in the order in which nodes were first set, its
last setting. -/
theorem read_back_partial (name serial : String) {type : String} {u : Bool} (ht : Known type u) {s : Settings} (hs : Readable s)
    (fs : Fs) : ∃ fs', serialize name serial type s fs = .ok fs' ∧
      (∀ f : File, f.instr ≠ name → Dict.get? fs' f = Dict.get? fs f) ∧
      ∀ fs'', (∀ f : File, f.instr = name → Dict.get? fs'' f = Dict.get? fs' f) →
        ∃ b, deserialize fs'' (.settings name) = .ok b ∧ b.awg = s.awg ∧
          b.daq.map (·.node) = firsts (s.daq.map (·.node)) ∧
          ∀ d' ∈ b.daq, ∃ d, Last s.daq d'.node d ∧ Back u d d' := by
  obtain ⟨c, fs1, h1, hi⟩ := writeDaqs_inv name fs s.daq [] [] fs (fun d hd => hs.1 d (by simpa using hd))
    ⟨rfl, by intro n j h; simp [Dict.get?_nil] at h, fun _ _ => rfl⟩
  obtain ⟨fs2, h2, h3, h4⟩ := writePrograms_inv name s.awg [] fs1 (by simpa using hs.2) (by simp)
  simp only [List.nil_append, List.map_nil] at h2 h3 hi
  refine ⟨_, by unfold serialize; rw [h1], ?_, ?_⟩
  · intro f hf
    rw [h2, Dict.get?_set_ne _ _ (by rintro rfl; exact hf rfl), h4 f (by rintro a rfl; exact hf rfl), hi.frame f hf]
  · intro fs'' hfs
    rw [h2] at hfs
    have hset : Dict.get? fs'' (.settings name) =
        some (.settings name serial type c (s.awg.map fun e => (e.1, .seqc name e.1))) := by
      rw [hfs _ rfl, Dict.get?_set_self]
    have hpr : readPrograms fs'' (s.awg.map fun e => (e.1, .seqc name e.1)) = .ok s.awg := by
      apply readPrograms_ok
      intro e he
      rw [hfs _ rfl, Dict.get?_set_ne _ _ (by simp)]
      exact h3 e he
    obtain ⟨l, h5, h6, h7⟩ := readDaqs_ok u fs'' (fun n d' => ∃ d, Last s.daq n d ∧ Back u d d') c (by
      intro n j hm
      obtain ⟨d, f, hl, hw, hf⟩ := hi.get n j (Dict.get?_of_mem (by rw [hi.keys]; exact firsts_nodup _) hm)
      have hg : Good d := hs.1 d hl.mem
      obtain ⟨d', hr, hb⟩ := read_good u hg hw (fs := fs'') (by
        intro e he
        subst he
        have := hf e rfl
        rcases write_file hg hw with ⟨a, w, h, _⟩ | ⟨a, h, _⟩
        · rw [h] at this ⊢
          rw [hfs _ rfl, Dict.get?_set_ne _ _ (by simp), h4 _ (by simp)]; exact this
        · rw [h] at this ⊢
          rw [hfs _ rfl, Dict.get?_set_ne _ _ (by simp), h4 _ (by simp)]; exact this)
      have hn : d.node = n := by obtain ⟨_, _, _, h, _⟩ := hl; exact h
      rw [hn] at hr
      exact ⟨d', hr, by rw [hb.1, hn], d, hl, hb⟩)
    refine ⟨⟨l, s.awg⟩, ?_, rfl, by rw [h6, hi.keys], h7⟩
    unfold deserialize
    simp only
    rw [hset]
    simp only [deviceType_known ht, h5, hpr]

theorem eq_of_nodes : ∀ {l m : List Daq}, l.map (·.node) = m.map (·.node) → (m.map (·.node)).Nodup →
    (∀ x ∈ l, x ∈ m) → l = m
  | [], [], _, _, _ => rfl
  | [], _ :: _, h, _, _ => by simp at h
  | _ :: _, [], h, _, _ => by simp at h
  | x :: l, y :: m, h, hn, hs => by
    simp only [List.map_cons, List.cons.injEq, List.nodup_cons] at h hn
    have hxy : x = y := by
      have := hs x (by simp)
      simp only [List.mem_cons] at this
      rcases this with e | hm
      · exact e
      · exact absurd (by rw [← h.1]; exact List.mem_map_of_mem hm) hn.1
    subst hxy
    congr 1
    refine eq_of_nodes h.2 hn.2 ?_
    intro z hz
    have := hs z (by simp [hz])
    simp only [List.mem_cons] at this
    rcases this with e | hm
    · subst e
      refine absurd ?_ hn.1
      rw [← h.2]; exact List.mem_map_of_mem hz
    · exact hm

theorem foldl_set : ∀ (l m : List (Nat × String)), ((m ++ l).map Prod.fst).Nodup →
    l.foldl (fun d e => Dict.set d e.1 e.2) m = m ++ l
  | [], m, _ => by simp
  | e :: l, m, h => by
    have h1 : Dict.set m e.1 e.2 = m ++ [e] := by
      unfold Dict.set
      rw [if_neg]
      simp only [List.any_eq_true, not_exists, not_and, beq_iff_eq]
      rw [List.map_append, List.nodup_append] at h
      intro x hx
      exact h.2.2 x.1 (List.mem_map_of_mem hx) e.1 (by simp)
    rw [List.foldl_cons, h1, foldl_set l (m ++ [e]) (by simpa using h)]
    simp

/-- If no node is set twice and there are no waveforms, exactly the settings are read back. -/
theorem read_back_exactly_partial (name serial : String) {type : String} {u : Bool} (ht : Known type u) {s : Settings}
    (hs : ∀ d ∈ s.daq, Single d) (hn : (s.daq.map (·.node)).Nodup) (ha : (s.awg.map Prod.fst).Nodup) (fs : Fs) :
    ∃ fs', serialize name serial type s fs = .ok fs' ∧
      ∀ fs'', (∀ f : File, f.instr = name → Dict.get? fs'' f = Dict.get? fs' f) →
        ∃ b, deserialize fs'' (.settings name) = .ok b ∧ b.build = s := by
  obtain ⟨fs', h1, _, h2⟩ := read_back_partial name serial ht (s := s) ⟨fun d hd => .inl (hs d hd), ha⟩ fs
  refine ⟨fs', h1, fun fs'' hf => ?_⟩
  obtain ⟨b, h3, h4, h5, h6⟩ := h2 fs'' hf
  refine ⟨b, h3, ?_⟩
  rw [firsts_of_nodup hn] at h5
  have : b.daq = s.daq := eq_of_nodes h5 hn (by
    intro x hx
    obtain ⟨d, hl, hb⟩ := h6 x hx
    rw [hb.2.1 (hs d hl.mem)]; exact hl.mem)
  unfold Builder.build
  rw [this, h4, foldl_set _ [] (by simpa using ha)]
  rfl

/-- Nothing is read back of a device of another type. -/
theorem unknown_type {name serial type : String} (ht : ∀ u, ¬ Known type u) {s : Settings} {fs fs' : Fs}
    (h : serialize name serial type s fs = .ok fs') (b : Builder) : deserialize fs' (.settings name) ≠ .ok b := by
  unfold serialize at h
  split at h
  · simp at h
  · simp only [Except.ok.injEq] at h
    subst h
    unfold deserialize
    simp only
    rw [Dict.get?_set_self]
    have : deviceType type = .error .valueError := by
      unfold deviceType
      rw [if_neg]
      intro hc
      simp only [List.contains_eq_mem, decide_eq_true_eq, List.mem_cons, List.not_mem_nil, or_false] at hc
      rcases hc with h | h
      · exact ht false (.inr ⟨by rw [h]; simp, rfl⟩)
      · rcases h with h | h
        · exact ht true (.inl ⟨h, rfl⟩)
        · exact ht false (.inr ⟨by rcases h with h | h | h <;> rw [h] <;> simp, rfl⟩)
    simp [this]

/-- Nothing is read back if nothing has been written. -/
theorem not_written {name : String} {fs : Fs} (h : Dict.get? fs (.settings name) = none) :
    deserialize fs (.settings name) = .error .notFound := by
  unfold deserialize; simp only; rw [h]

theorem writeDaqs_keys (name : String) : ∀ (l : List Daq) (c : List (Node × J)) (fs : Fs) {c' : List (Node × J)} {fs' : Fs},
    writeDaqs name l c fs = .ok (c', fs') → ∀ n, n ∈ Dict.keys c ∨ n ∈ l.map (·.node) → n ∈ Dict.keys c'
  | [], c, fs, c', fs', h, n, hn => by
    simp only [writeDaqs, Except.ok.injEq, Prod.mk.injEq] at h
    obtain ⟨rfl, _⟩ := h
    simpa using hn
  | d :: l, c, fs, c', fs', h, n, hn => by
    unfold writeDaqs at h
    split at h
    · simp at h
    · refine writeDaqs_keys name l _ _ h n ?_
      rw [Dict.mem_keys_set]
      simp only [List.map_cons, List.mem_cons] at hn
      tauto

theorem readDaqs_fails {u : Bool} {fs : Fs} {n : Node} {e : Err} (he : ∀ j, ∃ e, read u fs n j = .error e) :
    ∀ {c : List (Node × J)}, n ∈ Dict.keys c → ∀ l, readDaqs u fs c ≠ .ok l
  | [], h, _ => by simp [Dict.keys] at h
  | (m, j) :: c, h, l => by
    intro hr
    unfold readDaqs at hr
    simp only [Dict.keys, List.map_cons, List.mem_cons] at h
    rcases h with rfl | h
    · obtain ⟨e, he⟩ := he j
      simp [he] at hr
    · split at hr
      · simp at hr
      · split at hr
        · simp at hr
        · rename_i m hm
          exact readDaqs_fails (e := e) he (c := c) (by simpa [Dict.keys] using h) _ hm

/-- VIOLATION: the settings of a compiled UHFQA are never read back. -/
theorem uhfqa_unreadable {cfg : UhCfg} {b : Builder} (hb : uhBuilder cfg = .ok b) {name serial type : String} {fs fs' : Fs}
    (h : serialize name serial type b.build fs = .ok fs') (b' : Builder) : deserialize fs' (.settings name) ≠ .ok b' := by
  unfold serialize at h
  split at h
  · simp at h
  · rename_i c fs1 hw
    simp only [Except.ok.injEq] at h
    subst h
    unfold deserialize
    simp only
    rw [Dict.get?_set_self]
    have hm : ([.name "qas", .index 0, .name "rotations", .any] : Node) ∈ b.build.daq.map (·.node) := by
      unfold uhBuilder at hb
      split at hb
      · simp at hb
      · split at hb
        · simp at hb
        · split at hb
          · simp at hb
          · simp only [Except.ok.injEq] at hb
            subst hb
            simp [Builder.build]
    have hk := writeDaqs_keys name _ _ _ hw _ (.inr hm)
    intro hr
    simp only at hr
    split at hr
    · simp at hr
    · split at hr
      · simp at hr
      · rename_i l hl
        refine readDaqs_fails (e := .valueError) ?_ hk l hl
        intro j
        refine ⟨.valueError, ?_⟩
        unfold read
        have : kindOf [.name "qas", .index 0, .name "rotations", .any] = .rotation := by simp [kindOf, hasPair, hasBefore]
        rw [this]
        rfl

end Verif.ZiFiles
