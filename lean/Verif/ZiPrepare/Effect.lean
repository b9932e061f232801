/-
Settings with equal dictionaries have equal effects, if paths with `*` come first.
-/
import Verif.ZiPrepare.Lemmas

set_option linter.unusedSimpArgs false
set_option linter.unusedVariables false

namespace Verif.ZiPrepare
open Spec

/-- Of two paths that cover the same node, the later one has no `*`. -/
def WildFirst (l : List (Node × Val)) : Prop :=
  l.Pairwise (fun x y => Real y.1 ∨ ∀ n, ¬ (Covers x.1 n ∧ Covers y.1 n))

/-- The value that is given last to this very path. -/
def Final (l : List (Node × Val)) (k : Node) (v : Val) : Prop := ∃ a b, l = a ++ (k, v) :: b ∧ k ∉ Dict.keys b

theorem last_of_final {l : List (Node × Val)} (hw : WildFirst l) {n : Node} {v : Val} (h : Final l n v) : Last l n v := by
  obtain ⟨a, b, h1, h2⟩ := h
  refine ⟨a, n, b, h1, covers_self n, ?_⟩
  intro e he hc
  unfold WildFirst at hw
  rw [h1] at hw
  have hp := (List.pairwise_append.1 hw).2.1
  rcases (List.pairwise_cons.1 hp).1 e he with hr | hd
  · have := covers_real hc hr
    exact h2 (by rw [← this]; exact List.mem_map_of_mem he)
  · exact hd n ⟨covers_self n, hc⟩

theorem final_exists {l : List (Node × Val)} {k : Node} (h : k ∈ Dict.keys l) : ∃ v, Final l k v := by
  obtain ⟨a, v, b, h1, h2⟩ := last_split l k h
  exact ⟨v, a, b, h1, h2⟩

theorem final_mem {l : List (Node × Val)} {k : Node} {v : Val} (h : Final l k v) : (k, v) ∈ l := by
  obtain ⟨a, b, h1, _⟩ := h
  rw [h1]; simp

theorem key_of_covers_real {l : List (Node × Val)} {n : Node} (hn : n ∉ Dict.keys l) {e : Node × Val} (he : e ∈ l)
    (hc : Covers e.1 n) : ¬ Real e.1 := by
  intro hr
  exact hn (by rw [← covers_real hc hr]; exact List.mem_map_of_mem he)

/-- Equal dictionaries, equal effects. -/
theorem last_transfer {l m : List (Node × Val)} (hl : WildFirst l) (hm : WildFirst m)
    (h : ∀ k v, Final l k v ↔ Final m k v) {n : Node} {v : Val} (hv : Last l n v) : Last m n v := by
  by_cases hk : n ∈ Dict.keys l
  · obtain ⟨w, hw⟩ := final_exists hk
    obtain rfl := last_unique hv (last_of_final hl hw)
    exact last_of_final hm ((h _ _).1 hw)
  · have hk' : n ∉ Dict.keys m := by
      intro hm'
      obtain ⟨w, hw⟩ := final_exists hm'
      exact hk (List.mem_map_of_mem (f := Prod.fst) (final_mem ((h _ _).2 hw)))
    obtain ⟨a, p, b, h1, hc, hb⟩ := hv
    have hf : Final l p v := by
      refine ⟨a, b, h1, ?_⟩
      intro hp
      obtain ⟨e, he, rfl⟩ := List.mem_map.1 hp
      exact hb e he hc
    obtain ⟨a', b', h2, h3⟩ := (h _ _).1 hf
    refine ⟨a', p, b', h2, hc, ?_⟩
    intro e he hce
    unfold WildFirst at hm
    have hnr := key_of_covers_real hk' (e := e) (by rw [h2]; simp [he]) hce
    rw [h2] at hm
    have hp := (List.pairwise_append.1 hm).2.1
    rcases (List.pairwise_cons.1 hp).1 e he with hr | hd
    · exact hnr hr
    · exact hd n ⟨hc, hce⟩

/-- The settings whose values are not sent: waveforms, on a UHFQA. -/
def Kinds (uh : Bool) (l : List Daq) : Prop := ∀ d ∈ l, d.fn = .void ↔ (uh = true ∧ (waveOf d.node).isSome = true)

theorem sent_final {uh : Bool} {l : List Daq} (hk : Kinds uh l) (k : Node) (v : Val) :
    Final (sent l) k v ↔ ¬ (uh = true ∧ (waveOf k).isSome = true) ∧
      Dict.get? (Settings.dict ⟨l, []⟩) k = some v := by
  have hs : sent l = (l.map (fun d => (d.node, d.value))).filter (fun e => ¬ (uh = true ∧ (waveOf e.1).isSome = true)) := by
    unfold sent
    rw [List.filter_map]
    congr 1
    apply List.filter_congr
    intro d hd
    have := hk d hd
    simp only [Function.comp]
    exact decide_eq_decide.2 (not_congr this)
  have hd : Settings.dict ⟨l, []⟩ = (l.map (fun d => (d.node, d.value))).foldl (fun d e => Dict.set d e.1 e.2) [] := by
    unfold Settings.dict; rw [List.foldl_map]
  rw [hd, foldl_set_get, hs]
  generalize l.map (fun d => (d.node, d.value)) = m
  constructor
  · rintro ⟨a, b, h1, h2⟩
    have hmem : (k, v) ∈ m.filter (fun e => ¬ (uh = true ∧ (waveOf e.1).isSome = true)) := by rw [h1]; simp
    have hno : ¬ (uh = true ∧ (waveOf k).isSome = true) := by
      have := (List.mem_filter.1 hmem).2
      exact of_decide_eq_true this
    refine ⟨hno, ?_⟩
    obtain ⟨a', b', hm, ha', hb'⟩ := List.filter_eq_append_iff.1 h1
    obtain ⟨c, d, hc, hcn, hpk, hd⟩ := List.filter_eq_cons_iff.1 hb'
    refine ⟨a' ++ c, d, by rw [hm, hc]; simp, ?_⟩
    intro hkd
    obtain ⟨e, he, rfl⟩ := List.mem_map.1 hkd
    apply h2
    rw [← hd]
    apply List.mem_map_of_mem
    rw [List.mem_filter]
    exact ⟨he, decide_eq_true hno⟩
  · rintro ⟨hno, a, b, h1, h2⟩
    refine ⟨a.filter (fun e => ¬ (uh = true ∧ (waveOf e.1).isSome = true)),
      b.filter (fun e => ¬ (uh = true ∧ (waveOf e.1).isSome = true)), ?_, ?_⟩
    · rw [h1, List.filter_append, List.filter_cons]
      rw [if_pos (decide_eq_true hno)]
    · intro hm
      obtain ⟨e, he, rfl⟩ := List.mem_map.1 hm
      exact h2 (List.mem_map_of_mem (List.mem_filter.1 he).1)

/-- Settings of which the effect depends only on their dictionary. -/
structure Regular (uh : Bool) (s : Settings) : Prop where
  wild : WildFirst (sent s.daq)
  kinds : Kinds uh s.daq

theorem same_last {uh : Bool} {s t : Settings} (hs : Regular uh s) (ht : Regular uh t) (h : s.same t = true) {n : Node}
    {v : Val} : Last (sent s.daq) n v ↔ Last (sent t.daq) n v := by
  have hd : sameDict s.dict t.dict = true := by
    unfold Settings.same at h; simp only [Bool.and_eq_true] at h; exact h.1
  have hf : ∀ k v, Final (sent s.daq) k v ↔ Final (sent t.daq) k v := by
    intro k v
    rw [sent_final hs.kinds, sent_final ht.kinds]
    have := sameDict_get hd k
    unfold Settings.dict at *
    simp only
    rw [this]
  exact ⟨last_transfer hs.wild ht.wild hf, last_transfer ht.wild hs.wild (fun k v => (hf k v).symm)⟩

theorem same_awg {s t : Settings} (h : s.same t = true) (a : Nat) : Dict.get? s.awg a = Dict.get? t.awg a := by
  unfold Settings.same at h; simp only [Bool.and_eq_true] at h
  exact sameDict_get h.2 a

theorem same_dict {s t : Settings} (h : s.same t = true) (k : Node) : Dict.get? s.dict k = Dict.get? t.dict k := by
  unfold Settings.same at h; simp only [Bool.and_eq_true] at h
  exact sameDict_get h.1 k

end Verif.ZiPrepare
