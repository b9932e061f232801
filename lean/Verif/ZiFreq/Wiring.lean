/-
Ports and clocks are played by the channels to which they are wired.
-/
import Verif.ZiFreq.Lemmas

set_option linter.unusedSimpArgs false
set_option linter.unusedVariables false

namespace Verif.ZiFreq
open Spec

theorem addNode_ok {cfg : Cfg} {pc : String × String} {cs cs' : List Chan} {n : Node} (h : addNode cfg pc cs n = .ok cs') :
    ∃ lo io, route cfg n = .ok (lo, io) ∧ taken cs (io.headD "") (io.getLastD "") = false ∧
      cs' = cs ++ [⟨io.headD "", io.getLastD "", pc.1, pc.2, lo, none⟩] := by
  unfold addNode at h
  cases hr : route cfg n with
  | error e => rw [hr] at h; cases h
  | ok q =>
    obtain ⟨lo, io⟩ := q
    rw [hr] at h
    simp only at h
    by_cases ht : taken cs (io.headD "") (io.getLastD "") = true
    · rw [if_pos ht] at h; cases h
    · rw [if_neg ht] at h
      cases h
      exact ⟨lo, io, rfl, by simpa using ht, rfl⟩

/-- Channels are used once. -/
theorem addPort_nodup {cfg : Cfg} {pc : String × String} {cs cs' : List Chan} (h : addPort cfg cs pc = .ok cs')
    (hn : (cs.map (fun c => (c.device, c.io))).Nodup) : (cs'.map (fun c => (c.device, c.io))).Nodup := by
  refine FoldM.invariant (P := fun cs => (cs.map (fun c : Chan => (c.device, c.io))).Nodup) ?_ hn h
  intro n _ a a' ha h1
  obtain ⟨lo, io, _, ht, rfl⟩ := addNode_ok h1
  rw [List.map_append, List.nodup_append]
  refine ⟨ha, by simp, ?_⟩
  intro x hx y hy
  simp only [List.map_cons, List.map_nil, List.mem_singleton] at hy
  subst hy
  rintro rfl
  obtain ⟨d, hd, e⟩ := List.mem_map.1 hx
  simp only [Prod.mk.injEq] at e
  unfold taken at ht
  rw [List.any_eq_false] at ht
  exact ht d hd (by simp [e.1, e.2])

/-- Channels that stem from connected nodes. -/
def FromPort (cfg : Cfg) (pc : String × String) (c : Chan) : Prop :=
  ∃ n ∈ connected cfg.graph pc.1, ∃ io, route cfg n = .ok (c.lo, io) ∧ c.device = io.headD "" ∧ c.io = io.getLastD "" ∧
    c.port = pc.1 ∧ c.clock = pc.2

theorem addPort_from {cfg : Cfg} {pc : String × String} {cs cs' : List Chan} (h : addPort cfg cs pc = .ok cs') :
    (∀ c ∈ cs', c ∈ cs ∨ FromPort cfg pc c) ∧ (∀ c ∈ cs, c ∈ cs') ∧
    (∀ n ∈ connected cfg.graph pc.1, ∃ c ∈ cs', ∃ io, route cfg n = .ok (c.lo, io) ∧ c.device = io.headD "" ∧
      c.io = io.getLastD "" ∧ c.port = pc.1 ∧ c.clock = pc.2) := by
  refine ⟨?_, ?_, ?_⟩
  · refine FoldM.invariant (P := fun x => ∀ c ∈ x, c ∈ cs ∨ FromPort cfg pc c) ?_ (fun c hc => Or.inl hc) h
    intro n hn a a' ha h1 c hc
    obtain ⟨lo, io, hr, ht, rfl⟩ := addNode_ok h1
    rcases List.mem_append.1 hc with hc | hc
    · exact ha c hc
    · rw [List.mem_singleton] at hc
      subst hc
      exact Or.inr ⟨n, hn, io, hr, rfl, rfl, rfl, rfl⟩
  · refine FoldM.invariant (P := fun x => ∀ c ∈ cs, c ∈ x) ?_ (fun c hc => hc) h
    intro n hn a a' ha h1 c hc
    obtain ⟨lo, io, hr, ht, rfl⟩ := addNode_ok h1
    exact List.mem_append_left _ (ha c hc)
  · intro n hn
    refine FoldM.established (P := fun x => ∃ c ∈ x, ∃ io, route cfg n = .ok (c.lo, io) ∧ c.device = io.headD "" ∧
      c.io = io.getLastD "" ∧ c.port = pc.1 ∧ c.clock = pc.2) hn ?_ ?_ h
    · intro a a' h1
      obtain ⟨lo, io, hr, ht, rfl⟩ := addNode_ok h1
      exact ⟨_, List.mem_append_right _ (List.mem_singleton_self _), io, hr, rfl, rfl, rfl, rfl⟩
    · rintro x _ a a' ⟨c, hc, h2⟩ h1
      obtain ⟨lo, io, hr, ht, rfl⟩ := addNode_ok h1
      exact ⟨c, List.mem_append_left _ hc, h2⟩

/-- All channels of a schedule. -/
theorem wire_from {cfg : Cfg} {pcs : List (String × String)} {cs : List Chan} (h : pcs.foldlM (addPort cfg) [] = .ok cs) :
    (cs.map (fun c => (c.device, c.io))).Nodup ∧ (∀ c ∈ cs, ∃ pc ∈ pcs, FromPort cfg pc c) ∧
    (∀ pc ∈ pcs, ∀ n ∈ connected cfg.graph pc.1, ∃ c ∈ cs, ∃ io, route cfg n = .ok (c.lo, io) ∧ c.device = io.headD "" ∧
      c.io = io.getLastD "" ∧ c.port = pc.1 ∧ c.clock = pc.2) := by
  refine ⟨?_, ?_, ?_⟩
  · exact FoldM.invariant (P := fun cs => (cs.map (fun c : Chan => (c.device, c.io))).Nodup)
      (fun pc _ a a' ha h1 => addPort_nodup h1 ha) List.nodup_nil h
  · refine FoldM.invariant (P := fun cs => ∀ c ∈ cs, ∃ pc ∈ pcs, FromPort cfg pc c) ?_ (by simp) h
    intro pc hpc a a' ha h1 c hc
    rcases (addPort_from h1).1 c hc with h2 | h2
    · exact ha c h2
    · exact ⟨pc, hpc, h2⟩
  · intro pc hpc n hn
    refine FoldM.established (P := fun x => ∃ c ∈ x, ∃ io, route cfg n = .ok (c.lo, io) ∧ c.device = io.headD "" ∧
      c.io = io.getLastD "" ∧ c.port = pc.1 ∧ c.clock = pc.2) hpc ?_ ?_ h
    · intro a a' h1
      exact (addPort_from h1).2.2 n hn
    · rintro x _ a a' ⟨c, hc, h2⟩ h1
      exact ⟨c, (addPort_from h1).2.1 c hc, h2⟩

theorem firstOf_ok {g : List (Node × List Node)} {n m : Node} (h : firstOf g n = .ok m) : Cable g n m := by
  unfold firstOf at h
  cases hg : Dict.get? g n with
  | none => rw [hg] at h; cases h
  | some l =>
    rw [hg] at h
    cases l with
    | nil => cases h
    | cons x l => cases h; exact ⟨l, Dict.mem_of_get? hg⟩

/-- The neighbours of an unambiguous port. -/
theorem connected_port {cfg : Cfg} {pcs : List (String × String)} (hp : Proper cfg pcs) {port : String} (hu : Unambiguous cfg port) {n : Node} :
    n ∈ connected cfg.graph port ↔ Adjacent cfg.graph [port] n := by
  obtain ⟨⟨l, hl⟩, hu⟩ := hu
  unfold connected
  cases hf : cfg.graph.find? (fun e => isIn port.toList (text e.1)) with
  | none =>
    rw [List.find?_eq_none] at hf
    have := hf _ hl
    rw [isIn_iff] at this
    exact absurd (by simp [text, List.infix_refl]) this
  | some e =>
    have h1 := List.mem_of_find?_eq_some hf
    have h2 := List.find?_some hf
    have h3 := hu e h1 (isIn_iff.1 h2)
    obtain ⟨k, m⟩ := e
    simp only at h3
    subst h3
    have : m = l := by
      have a := Dict.get?_of_mem hp.graph h1
      have b := Dict.get?_of_mem hp.graph hl
      rw [a] at b; cases b; rfl
    subst this
    constructor
    · intro h; exact ⟨m, hl, h⟩
    · rintro ⟨m', hm', hn⟩
      have a := Dict.get?_of_mem hp.graph hm'
      have b := Dict.get?_of_mem hp.graph hl
      rw [a] at b; cases b; exact hn

theorem headD_of {n : Node} (h : n ≠ []) : n.head? = some (n.headD "") ∧ n.getLast? = some (n.getLastD "") := by
  cases n with
  | nil => exact absurd rfl h
  | cons a l =>
    refine ⟨rfl, ?_⟩
    rw [List.getLastD_eq_getLast?]
    cases hl : (a :: l).getLast? with
    | none => simp at hl
    | some x => rfl

/-- A compiled schedule plays every port and clock on exactly the channels to which the port is wired, and no channel has two
of them. -/
theorem wired_channels {cfg : Cfg} {pcs : List (String × String)} (hp : Proper cfg pcs) {chans : List Chan} {conf : Conf}
    (h : compile cfg pcs = .ok (chans, conf)) :
    (chans.map (fun c => (c.device, c.io))).Nodup ∧
    (∀ c ∈ chans, (c.port, c.clock) ∈ pcs ∧ (c.device, Kind.device) ∈ cfg.kinds ∧ (c.device, c.io) ∈ cfg.outs ∧
      c.io ∈ ["channel_0", "channel_1", "channel_2", "channel_3"] ∧ ∃ d ∈ chans, d.device = c.device ∧ d.io = "channel_0") ∧
    ∀ pc ∈ pcs, Unambiguous cfg pc.1 → ∀ device io lo,
      (∃ c ∈ chans, c.port = pc.1 ∧ c.clock = pc.2 ∧ c.device = device ∧ c.io = io ∧ c.lo = lo) ↔ 
      (Wired cfg pc.1 device io lo) := by
  obtain ⟨cs0, h0, hw⟩ := compile_wiring h
  obtain ⟨f1, f2, f3⟩ := wire_from h0
  obtain ⟨_, _, cs2, freqs, _, _, _, h2, _⟩ := compile_ok h
  obtain ⟨p1, p2, p3, _⟩ := parse_ok h2
  have hdev : ∀ c ∈ chans, Dict.get? cfg.kinds c.device = some .device ∧ (ioIndex c.io).isSome = true ∧
      (c.device, c.io) ∈ cfg.outs ∧ ∃ d ∈ chans, d.device = c.device ∧ d.io = "channel_0" := by
    intro c hc
    have ha := p2 c (p1.mem_iff.1 hc)
    unfold accepted at ha
    simp only [Bool.and_eq_true, beq_iff_eq, List.contains_iff_mem, bne_iff_ne] at ha
    obtain ⟨⟨⟨⟨a1, a2⟩, a3⟩, _⟩, a5⟩ := ha
    unfold taken at a5
    rw [List.any_eq_true] at a5
    obtain ⟨d, hd, hd2⟩ := a5
    simp only [Bool.and_eq_true, beq_iff_eq] at hd2
    exact ⟨a1, a2, a3, d, p1.mem_iff.2 hd, hd2⟩
  refine ⟨?_, ?_, ?_⟩
  · have : ∀ l : List Chan, l.map (fun c => (c.device, c.io)) = (l.map wiring).map (fun w => (w.1, w.2.1)) := by
      intro l; rw [List.map_map]; rfl
    rw [this] at f1 ⊢
    exact (hw.map _).nodup_iff.2 f1
  · intro c hc
    obtain ⟨a1, a2, a3, a4⟩ := hdev c hc
    refine ⟨?_, Dict.mem_of_get? a1, a3, ?_, a4⟩
    · obtain ⟨d, hd, e⟩ := mem_wiring hw hc
      obtain ⟨pc, hpc, n, _, io, _, _, _, e3, e4⟩ := f2 d hd
      simp only [wiring, Prod.mk.injEq] at e
      have : (c.port, c.clock) = pc := by rw [← e.2.2.1, ← e.2.2.2.1, e3, e4]
      rw [this]; exact hpc
    · unfold ioIndex at a2
      rw [List.isSome_idxOf?] at a2
      exact a2
  · intro pc hpc hu device io lo
    have hne : ∀ m n, Cable cfg.graph m n → n ≠ [] := by
      rintro m n ⟨l, hl⟩
      exact hp.nodes _ hl n (List.mem_cons_self ..)
    have hne' : ∀ m n, Adjacent cfg.graph m n → n ≠ [] := by
      rintro m n ⟨l, hl, hn⟩
      exact hp.nodes _ hl n hn
    constructor
    · rintro ⟨c, hc, c1, c2, c3, c4, c5⟩
      obtain ⟨d, hd, e⟩ := mem_wiring hw hc
      obtain ⟨pc', _, n, hn, i, hr, g1, g2, g3, g4⟩ := f2 d hd
      simp only [wiring, Prod.mk.injEq] at e
      obtain ⟨e1, e2, e3, e4, e5⟩ := e
      rw [e1, c3] at g1
      rw [e2, c4] at g2
      rw [e3, c1] at g3
      rw [← g3] at hn
      rw [e5, c5] at hr
      have hadj := (connected_port hp hu).1 hn
      have hnn := hne' _ _ hadj
      unfold route at hr
      cases hk : Dict.get? cfg.kinds (n.headD "") with
      | none => rw [hk] at hr; cases hr
      | some k =>
        rw [hk] at hr
        have plain : (Except.ok (none, n) : Except Err (Option String × Node)) = .ok (lo, i) → Wired cfg pc.1 device io lo := by
          intro hq
          simp only [Except.ok.injEq, Prod.mk.injEq] at hq
          obtain ⟨q1, q2⟩ := hq
          subst q1; subst q2
          refine Wired.direct hadj ?_ ?_ ?_
          · rw [g1]; exact (headD_of hnn).1
          · rw [g2]; exact (headD_of hnn).2
          · rw [← c3]; exact Dict.mem_of_get? (hdev c hc).1
        cases k with
        | device => exact plain hr
        | other => exact plain hr
        | mixer =>
          simp only at hr
          cases h1 : firstOf cfg.graph [n.headD "", "lo"] with
          | error e => rw [h1] at hr; cases hr
          | ok l =>
            rw [h1] at hr
            simp only at hr
            cases h2 : firstOf cfg.graph [n.headD "", "if"] with
            | error e => rw [h2] at hr; cases hr
            | ok j =>
              rw [h2] at hr
              simp only [Except.ok.injEq, Prod.mk.injEq] at hr
              obtain ⟨q1, q2⟩ := hr
              subst q1; subst q2
              have k1 := firstOf_ok h1
              have k2 := firstOf_ok h2
              refine Wired.mixer hadj (headD_of hnn).1 (Dict.mem_of_get? hk) k1 (headD_of (hne _ _ k1)).1 k2 ?_ ?_
              · rw [g1]; exact (headD_of (hne _ _ k2)).1
              · rw [g2]; exact (headD_of (hne _ _ k2)).2
    · intro hwd
      have fin : ∀ n i, Adjacent cfg.graph [pc.1] n → route cfg n = .ok (lo, i) → i ≠ [] → i.head? = some device →
          i.getLast? = some io → ∃ c ∈ chans, c.port = pc.1 ∧ c.clock = pc.2 ∧ c.device = device ∧ c.io = io ∧ c.lo = lo := by
        intro n i hn hr hi r1 r2
        obtain ⟨d, hd, i', hr', g1, g2, g3, g4⟩ := f3 pc hpc n ((connected_port hp hu).2 hn)
        rw [hr] at hr'
        simp only [Except.ok.injEq, Prod.mk.injEq] at hr'
        obtain ⟨q1, q2⟩ := hr'
        subst q2
        obtain ⟨c, hc, e⟩ := mem_wiring hw.symm hd
        simp only [wiring, Prod.mk.injEq] at e
        obtain ⟨e1, e2, e3, e4, e5⟩ := e
        refine ⟨c, hc, by rw [e3, g3], by rw [e4, g4], ?_, ?_, by rw [e5, ← q1]⟩
        · have := (headD_of hi).1
          rw [r1] at this
          rw [e1, g1]; exact (Option.some.inj this).symm
        · have := (headD_of hi).2
          rw [r2] at this
          rw [e2, g2]; exact (Option.some.inj this).symm
      have cab : ∀ m n, Cable cfg.graph m n → firstOf cfg.graph m = .ok n := by
        rintro m n ⟨l, hl⟩
        unfold firstOf
        rw [Dict.get?_of_mem hp.graph hl]
      cases hwd with
      | @direct n hadj r1 r2 r3 =>
        refine fin n n hadj ?_ (hne' _ _ hadj) r1 r2
        have e : n.headD "" = device := by rw [List.headD_eq_head?_getD, r1]; rfl
        unfold route
        rw [e, Dict.get?_of_mem hp.kinds r3]
      | @mixer n i l mx lo hadj r1 r2 r3 r4 r5 r6 r7 =>
        refine fin n i hadj ?_ (hne _ _ r5) r6 r7
        have e : n.headD "" = mx := by rw [List.headD_eq_head?_getD, r1]; rfl
        unfold route
        rw [e, Dict.get?_of_mem hp.kinds r2]
        simp only [cab _ _ r3, cab _ _ r5]
        rw [List.headD_eq_head?_getD, r4]; rfl

end Verif.ZiFreq
