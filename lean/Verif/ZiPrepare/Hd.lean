/-
The values of the nodes of an HDAWG.
-/
import Verif.ZiPrepare.Built

set_option linter.unusedSimpArgs false
set_option linter.unusedVariables false

namespace Verif.ZiPrepare
open Spec

/-- A device has the values and the programs of settings. -/
structure Reflects (s : Settings) (h : Hw) : Prop where
  nodes : ∀ n v, Last (sent s.daq) n v → Shows h n v
  progs : ∀ a src, Dict.get? s.awg a = some src → ∃ p, Runs h a p ∧ p.source = src

theorem nodup_unique {l : List HdOut} (h : (l.map HdOut.awg).Nodup) {o p : HdOut} (ho : o ∈ l) (hp : p ∈ l)
    (e : o.awg = p.awg) : o = p := by
  induction l with
  | nil => cases ho
  | cons a l ih =>
    rw [List.map_cons, List.nodup_cons] at h
    rcases List.mem_cons.1 ho with rfl | ho
    · rcases List.mem_cons.1 hp with rfl | hp
      · rfl
      · exact absurd (List.mem_map_of_mem (f := HdOut.awg) hp) (by rw [← e]; exact h.1)
    · rcases List.mem_cons.1 hp with hq | hp
      · have hm := List.mem_map_of_mem (f := HdOut.awg) ho
        rw [e, hq] at hm
        exact absurd hm h.1
      · exact ih h.2 ho hp

theorem nodup_fst {A B : Type} {l : List (A × B)} (h : (l.map Prod.fst).Nodup) {a : A} {b c : B} (hb : (a, b) ∈ l)
    (hc : (a, c) ∈ l) : b = c := by
  induction l with
  | nil => cases hb
  | cons x l ih =>
    rw [List.map_cons, List.nodup_cons] at h
    rcases List.mem_cons.1 hb with rfl | hb
    · rcases List.mem_cons.1 hc with e | hc
      · simp at e; exact e.symm
      · exact absurd (List.mem_map_of_mem (f := Prod.fst) hc) h.1
    · rcases List.mem_cons.1 hc with hq | hc
      · have hm := List.mem_map_of_mem (f := Prod.fst) hb
        rw [← hq] at h
        exact absurd hm h.1
      · exact ih h.2 hb hc

theorem hd_configured {c : HdCfg} {b : Builder} (hb : hdBuilder c = .ok b) {h : Hw} (hr : Reflects b.build h)
    (ho : (c.outs.map HdOut.awg).Nodup) (hw : ∀ o ∈ c.outs, (o.waves.map Prod.fst).Nodup) : HdConfigured c h := by
  obtain ⟨C, h1, h2, h3⟩ := hdBuilder_daq hb
  have hreal : ∀ e ∈ sent C, Real e.1 := by
    intro e he
    obtain ⟨d, hd, _, h4, _⟩ := mem_sent.1 he
    rw [← h4]
    exact (hdMem_real ((h2 d).1 hd)).1
  have hin : ∀ {n v}, (n, v) ∈ sent C ↔ ∃ d, HdMem c d ∧ d.node = n ∧ d.value = v := by
    intro n v
    rw [mem_sent]
    constructor
    · rintro ⟨d, hd, _, h4, h5⟩; exact ⟨d, (h2 d).1 hd, h4, h5⟩
    · rintro ⟨d, hd, h4, h5⟩; exact ⟨d, (h2 d).2 hd, (hdMem_real hd).2, h4, h5⟩
  have key : ∀ {n v}, (n, v) ∈ sent C → (∀ w, (n, w) ∈ sent C → w = v) → Shows h n v := by
    intro n v hm hf
    apply hr.nodes
    show Last (sent b.daq) n v
    rw [h1, sent_append]
    exact last_real hreal hm hf
  have wild : ∀ {n v}, (∀ w, (n, w) ∉ sent C) → Last [([.name "sigouts", .any, .name "on"], .num 0),
      ([.name "awgs", .any, .name "single"], .num 1),
      ([.name "system", .name "awg", .name "channelgrouping"], .num c.grouping)] n v → Shows h n v := by
    intro n v hm hf
    apply hr.nodes
    show Last (sent b.daq) n v
    rw [h1, sent_append]
    exact last_wild hreal hm hf
  have uniq : ∀ {o p : HdOut}, o ∈ c.outs → p ∈ c.outs → o.awg = p.awg → o = p := fun h1 h2 h3 => nodup_unique ho h1 h2 h3
  constructor
  · -- on
    intro o hoo ch hch
    refine key (hin.2 ?_) ?_
    · rcases Nat.mod_two_eq_zero_or_one ch with h0 | h0
      · have e : ch = o.awg * 2 := by omega
        exact ⟨_, Or.inr ⟨o, hoo, Or.inl rfl⟩, by rw [e], rfl⟩
      · have e : ch = o.awg * 2 + 1 := by omega
        exact ⟨_, Or.inr ⟨o, hoo, Or.inr (Or.inl rfl)⟩, by rw [e], rfl⟩
    · intro w hm
      obtain ⟨d, hd, hn, hv⟩ := hin.1 hm
      rcases hd with ⟨a, ha, rfl⟩ | ⟨p, hp, hd⟩
      · simp at hn
      · rcases hd with rfl | rfl | rfl | rfl | rfl | rfl | rfl | ⟨w, hw, rfl⟩ <;> simp at hn hv <;> exact hv.symm
  · -- off
    intro ch hch
    refine wild ?_ ⟨[], _, _, rfl, ?_, ?_⟩
    · intro w hm
      obtain ⟨d, hd, hn, hv⟩ := hin.1 hm
      rcases hd with ⟨a, ha, rfl⟩ | ⟨p, hp, hd⟩
      · simp at hn
      · have := hch p hp
        rcases hd with rfl | rfl | rfl | rfl | rfl | rfl | rfl | ⟨w, hw, rfl⟩ <;> simp at hn hv <;> omega
    · simp [covers_cons, covers_nil]
    · simp [covers_cons]
  · -- gain1
    intro o hoo
    refine key (hin.2 ⟨_, Or.inr ⟨o, hoo, Or.inr (Or.inr (Or.inl rfl))⟩, rfl, rfl⟩) ?_
    intro w hm
    obtain ⟨d, hd, hn, hv⟩ := hin.1 hm
    rcases hd with ⟨a, ha, rfl⟩ | ⟨p, hp, hd⟩
    · simp at hn
    · rcases hd with rfl | rfl | rfl | rfl | rfl | rfl | rfl | ⟨w, hw, rfl⟩ <;> simp at hn
      rw [uniq hp hoo hn] at hv; exact hv.symm
  · -- gain2
    intro o hoo
    refine key (hin.2 ⟨_, Or.inr ⟨o, hoo, Or.inr (Or.inr (Or.inr (Or.inl rfl)))⟩, rfl, rfl⟩) ?_
    intro w hm
    obtain ⟨d, hd, hn, hv⟩ := hin.1 hm
    rcases hd with ⟨a, ha, rfl⟩ | ⟨p, hp, hd⟩
    · simp at hn
    · rcases hd with rfl | rfl | rfl | rfl | rfl | rfl | rfl | ⟨w, hw, rfl⟩ <;> simp at hn
      rw [uniq hp hoo hn] at hv; exact hv.symm
  · -- offset1
    intro o hoo
    refine key (hin.2 ⟨_, Or.inr ⟨o, hoo, Or.inr (Or.inr (Or.inr (Or.inr (Or.inl rfl))))⟩, by rw [Nat.mul_comm], rfl⟩) ?_
    intro w hm
    obtain ⟨d, hd, hn, hv⟩ := hin.1 hm
    rcases hd with ⟨a, ha, rfl⟩ | ⟨p, hp, hd⟩
    · simp at hn
    · rcases hd with rfl | rfl | rfl | rfl | rfl | rfl | rfl | ⟨w, hw, rfl⟩ <;> simp at hn
      · have e : p.awg = o.awg := by omega
        rw [uniq hp hoo e] at hv; exact hv.symm
      · exfalso; omega
  · -- offset2
    intro o hoo
    refine key (hin.2 ⟨_, Or.inr ⟨o, hoo, Or.inr (Or.inr (Or.inr (Or.inr (Or.inr (Or.inl rfl)))))⟩, by rw [Nat.mul_comm], rfl⟩) ?_
    intro w hm
    obtain ⟨d, hd, hn, hv⟩ := hin.1 hm
    rcases hd with ⟨a, ha, rfl⟩ | ⟨p, hp, hd⟩
    · simp at hn
    · rcases hd with rfl | rfl | rfl | rfl | rfl | rfl | rfl | ⟨w, hw, rfl⟩ <;> simp at hn
      · exfalso; omega
      · have e : p.awg = o.awg := by omega
        rw [uniq hp hoo e] at hv; exact hv.symm
  · -- table
    intro o hoo
    refine key (hin.2 ⟨_, Or.inr ⟨o, hoo, Or.inr (Or.inr (Or.inr (Or.inr (Or.inr (Or.inr (Or.inl rfl))))))⟩, rfl, rfl⟩) ?_
    intro w hm
    obtain ⟨d, hd, hn, hv⟩ := hin.1 hm
    rcases hd with ⟨a, ha, rfl⟩ | ⟨p, hp, hd⟩
    · simp at hn
    · rcases hd with rfl | rfl | rfl | rfl | rfl | rfl | rfl | ⟨w, hw, rfl⟩ <;> simp at hn
      rw [uniq hp hoo hn] at hv; exact hv.symm
  · -- waves
    intro o hoo x hx
    refine key (hin.2 ⟨_, Or.inr ⟨o, hoo, Or.inr (Or.inr (Or.inr (Or.inr (Or.inr (Or.inr (Or.inr ⟨x, hx, rfl⟩))))))⟩, rfl, rfl⟩) ?_
    intro w hm
    obtain ⟨d, hd, hn, hv⟩ := hin.1 hm
    rcases hd with ⟨a, ha, rfl⟩ | ⟨p, hp, hd⟩
    · simp at hn
    · rcases hd with rfl | rfl | rfl | rfl | rfl | rfl | rfl | ⟨y, hy, rfl⟩ <;> simp at hn
      have e := uniq hp hoo hn.1
      subst e
      have : y = x := by
        obtain ⟨y1, y2⟩ := y
        obtain ⟨x1, x2⟩ := x
        have e1 : y1 = x1 := hn.2
        subst e1
        rw [nodup_fst (hw p hp) hy hx]
      rw [this] at hv; exact hv.symm
  · -- single
    intro a
    refine wild ?_ ⟨[_], _, _, rfl, ?_, ?_⟩
    · intro w hm
      obtain ⟨d, hd, hn, hv⟩ := hin.1 hm
      rcases hd with ⟨a, ha, rfl⟩ | ⟨p, hp, hd⟩
      · simp at hn
      · rcases hd with rfl | rfl | rfl | rfl | rfl | rfl | rfl | ⟨w, hw, rfl⟩ <;> simp at hn
    · simp [covers_cons, covers_nil]
    · simp [covers_cons]
  · -- clock
    intro a ha
    refine key (hin.2 ⟨_, Or.inl ⟨a, ha, rfl⟩, rfl, rfl⟩) ?_
    intro w hm
    obtain ⟨d, hd, hn, hv⟩ := hin.1 hm
    rcases hd with ⟨a, ha, rfl⟩ | ⟨p, hp, hd⟩
    · exact hv.symm
    · rcases hd with rfl | rfl | rfl | rfl | rfl | rfl | rfl | ⟨w, hw, rfl⟩ <;> simp at hn
  · -- grouping
    refine wild ?_ ⟨[_, _], _, _, rfl, ?_, ?_⟩
    · intro w hm
      obtain ⟨d, hd, hn, hv⟩ := hin.1 hm
      rcases hd with ⟨a, ha, rfl⟩ | ⟨p, hp, hd⟩
      · simp at hn
      · rcases hd with rfl | rfl | rfl | rfl | rfl | rfl | rfl | ⟨w, hw, rfl⟩ <;> simp at hn
    · exact covers_self _
    · simp
  · -- program
    intro o hoo
    apply hr.progs
    show Dict.get? (b.awg.foldl (fun d e => Dict.set d e.1 e.2) []) o.awg = some o.seqc
    rw [foldl_set_get, h3]
    have hm : (o.awg, o.seqc) ∈ c.outs.map (fun o => (o.awg, o.seqc)) := List.mem_map_of_mem (f := fun o : HdOut => (o.awg, o.seqc)) hoo
    obtain ⟨a, v, r, e1, e2⟩ := last_split _ _ (List.mem_map_of_mem (f := Prod.fst) hm)
    refine ⟨a, r, ?_, e2⟩
    have hm2 : (o.awg, v) ∈ c.outs.map (fun o => (o.awg, o.seqc)) := by
      rw [e1]; simp
    obtain ⟨p, hp, e⟩ := List.mem_map.1 hm2
    simp only [Prod.mk.injEq] at e
    have := uniq hp hoo e.1
    subst this
    rw [e1, e.2]

end Verif.ZiPrepare
