/-
C52: what a port is wired to is what its sequencers drive and read.
C53: every port-clock gets its own suitable sequencer.
C54: every operation reaches the sequencer of its port-clock.
-/
import Verif.Connect.Deliver

set_option linter.unusedSimpArgs false
set_option linter.unusedVariables false

namespace Verif.Connect

open Verif.Connect.Spec

variable {α : Type}

theorem mem_chansOf {cl : List String} {l : List Node} {e : String × Nat × Chan} :
    e ∈ chansOf cl l ↔ Node.chan e.1 e.2.1 e.2.2 ∈ l ∧ e.1 ∈ cl := by
  unfold chansOf
  rw [List.mem_filterMap]
  constructor
  · rintro ⟨n, h1, h2⟩
    cases n with
    | chan c m ch =>
      simp only [Option.ite_none_right_eq_some, Option.some.injEq] at h2
      obtain ⟨h3, rfl⟩ := h2
      exact ⟨h1, h3⟩
    | sub i s => simp at h2
    | plain s => simp at h2
  · rintro ⟨h1, h2⟩
    exact ⟨_, h1, by simp [h2]⟩

theorem direct_ok {g : Edges} {cl : List String} {p : String} (h : Direct g cl p) :
    ∀ n ∈ neighbors g (.plain p), OkNode cl n := fun n hn => h n (mem_neighbors_linked.mp hn)

/-- The object of a port wired to channels. -/
theorem path_of_port {env : Env} (hnd : env.clusters.Nodup) {used : List PC} (hu : used.Nodup)
    {st : St} (h : allPaths env used = .ok st) {p c : String} (hpc : (p, c) ∈ used)
    (hd : Direct env.graph env.clusters p) {cl0 : String} {m0 : Nat} {ch0 : Chan}
    (hw : Wired env.graph p cl0 m0 ch0) :
    OneModule env.graph p ∧ ∃ ref P, st.heap[ref]? = some P ∧ P.cluster = cl0 ∧ P.module = m0 ∧
      cl0 ∈ env.clusters ∧
      (∀ cl, Dict.get? st.tab (cl, (p, c)) = if cl = cl0 then some ref else none) ∧
      (∀ ch, Uses P ch ↔ Wired env.graph p cl0 m0 ch) := by
  have hok := direct_ok hd
  have hmain := allPaths_port env hnd used hu st h p c hpc hok
  have hcl0 : cl0 ∈ env.clusters := by
    rcases hd _ hw with ⟨c', m', ch', he, hc'⟩ | ⟨s, he, _⟩
    · simp only [Node.chan.injEq] at he; rw [he.1]; exact hc'
    · simp at he
  have hmem : (cl0, m0, ch0) ∈ chansOf env.clusters (neighbors env.graph (.plain p)) :=
    mem_chansOf.mpr ⟨mem_neighbors_linked.mpr hw, hcl0⟩
  split at hmain
  · rename_i hnil; rw [hnil] at hmem; simp at hmem
  · rename_i cl m ch rest hcons
    obtain ⟨hall, ref, hb⟩ := hmain
    have hsame : ∀ e ∈ chansOf env.clusters (neighbors env.graph (.plain p)),
        e.1 = cl ∧ e.2.1 = m := by
      intro e he
      rw [hcons] at he
      rcases List.mem_cons.mp he with rfl | he
      · exact ⟨rfl, rfl⟩
      · exact hall e he
    have h0 := hsame _ hmem
    simp only at h0
    obtain ⟨rfl, rfl⟩ := h0
    have hcm : c ∈ (used.filter (fun e => e.1 = p)).map Prod.snd :=
      List.mem_map.mpr ⟨(p, c), by simp [hpc], rfl⟩
    have hlen : 0 < ((used.filter (fun e => e.1 = p)).map Prod.snd).length :=
      List.length_pos_of_mem hcm
    refine ⟨?_, ref, _, hb.1, by simp, by simp, hcl0, ?_, ?_⟩
    · intro c1 m1 ch1 c2 m2 ch2 h1 h2
      have key : ∀ c1 m1 ch1, Linked env.graph p (.chan c1 m1 ch1) → c1 = cl0 ∧ m1 = m0 := by
        intro c1 m1 ch1 h1
        have hc1 : c1 ∈ env.clusters := by
          rcases hd _ h1 with ⟨c', m', ch', he, hc'⟩ | ⟨s, he, _⟩
          · simp only [Node.chan.injEq] at he; rw [he.1]; exact hc'
          · simp at he
        exact hsame (c1, m1, ch1) (mem_chansOf.mpr ⟨mem_neighbors_linked.mpr h1, hc1⟩)
      have a := key _ _ _ h1
      have b := key _ _ _ h2
      exact ⟨a.1.trans b.1.symm, a.2.trans b.2.symm⟩
    · intro cl'
      have := hb.2 c hcm cl'
      simpa using this
    · intro x
      rw [uses_addAll _ hlen]
      have hx : Uses (⟨cl0, m0, ch, none⟩ : Path) x ↔ x = ch := by simp [Uses]
      rw [hx]
      have : Wired env.graph p cl0 m0 x ↔
          (cl0, m0, x) ∈ chansOf env.clusters (neighbors env.graph (.plain p)) := by
        rw [mem_chansOf]
        simp only [mem_neighbors_linked, hcl0, and_true]
        rfl
      rw [this, hcons, List.mem_cons, List.mem_map]
      constructor
      · rintro (rfl | ⟨e, he, rfl⟩)
        · exact Or.inl rfl
        · have := hall e he
          exact Or.inr (by rw [← this.1, ← this.2]; exact he)
      · rintro (e | e)
        · simp only [Prod.mk.injEq, true_and] at e; exact Or.inl e
        · exact Or.inr ⟨_, e, rfl⟩

/-- **C52.** If compilation succeeds, a port that is wired to channels of modules is wired to
channels of one module only, and the sequencer of each of its port-clocks belongs to that module and
uses precisely the channels the port is wired to (with version 0.1 of the configuration also
`complex_input_0`, `real_input_0` and `real_input_1` of a QRM or QRM-RF).  If it uses several, one is
an output and all others are inputs. -/
theorem wiring_sound {k : Kind α} {v01 : Bool} {env : Env} {cs : List Cluster} {used : List PC}
    {log : Log α} {out : List (Module × List (Nat × Seq α))}
    (hcs : (cs.map Cluster.name).Nodup) (hms : ∀ c ∈ cs, (c.modules.map Prod.fst).Nodup)
    (hu : used.Nodup) (h : compile k v01 env cs used log = .ok out)
    {p c : String} (hpc : (p, c) ∈ used) (hd : Direct env.graph (cs.map Cluster.name) p)
    {cl : String} {i : Nat} {ch0 : Chan} (hw : Wired env.graph p cl i ch0) :
    OneModule env.graph p ∧
    ∃ m ss P, (m, ss) ∈ out ∧ ((p, c), P) ∈ m.pcs ∧ m.cluster = cl ∧ m.idx = i ∧
      (∃ d ∈ cs, d.name = cl ∧ (i, m.type) ∈ d.modules) ∧
      (∀ ch, Wired env.graph p cl i ch → Uses P ch) ∧
      (∀ ch, Uses P ch → Wired env.graph p cl i ch ∨
        (v01 = true ∧ (m.type = .qrm ∨ m.type = .qrmRf) ∧ ch ∈ [ci 0, ri 0, ri 1])) ∧
      (∀ l, P.measure = some l → P.chan.dir = .output ∧ ∀ ch ∈ l, ch.dir = .input) ∧
      (∀ m' ss', (m', ss') ∈ out → (p, c) ∈ m'.pcs.map Prod.fst →
        m'.cluster = cl ∧ m'.idx = i) := by
  obtain ⟨st, h1, h2, h3⟩ := compile_ok h
  obtain ⟨hone, ref, P, hP, hPc, hPm, hcl, htab, huses⟩ :=
    path_of_port (env := { env with clusters := cs.map Cluster.name }) hcs hu h1 hpc hd hw
  refine ⟨hone, ?_⟩
  have hv := (allPaths_used _ _ _ h1).1
  obtain ⟨d, hd1, hd2⟩ := List.mem_map.mp hcl
  obtain ⟨ns, hns⟩ := collect_each h2 d hd1
  have hcm := clusterModules_ok hv hns
  have hg : Dict.get? st.tab (d.name, (p, c)) = some ref := by rw [htab, if_pos hd2]
  obtain ⟨m, hm, hidx, P', hP'⟩ := hcm.2.1 (p, c) ref P hg hP
  obtain ⟨q1, q2, q3, q4, q5⟩ := hcm.1 m hm
  have hmem : m ∈ out.map Prod.fst := (collect_ok h2 m).mpr ⟨d, hd1, ns, hns, hm⟩
  obtain ⟨⟨m1, ss⟩, hss, rfl⟩ := List.mem_map.mp hmem
  obtain ⟨ref', P'', e1, e2, e3, e4, e5⟩ := q5 _ hP'
  rw [hg, Option.some.injEq] at e1
  subst e1
  rw [hP, Option.some.injEq] at e2
  subst e2
  simp only at hidx hP' e4 e5 q1 q2
  refine ⟨m1, ss, P', hss, hP', by rw [q1, hd2], by rw [hidx, hPm], ⟨d, hd1, hd2, ?_⟩, ?_, ?_, ?_, ?_⟩
  · rw [← hPm, ← hidx]; exact q2
  · intro ch hch; exact e4.more ch ((huses ch).mpr hch)
  · intro ch hch
    by_cases hne : P' = P
    · subst hne; exact Or.inl ((huses ch).mp hch)
    · obtain ⟨f1, t, f2, f3⟩ := e5 hne
      have ht : t = m1.type := by
        have hnd := hms d hd1
        have a := Dict.get?_of_mem (d := d.modules) hnd f2
        have b := Dict.get?_of_mem (d := d.modules) hnd q2
        rw [a, Option.some.injEq] at b; exact b
      subst ht
      rcases e4.less ch hch with g1 | g1
      · exact Or.inl ((huses ch).mp g1)
      · exact Or.inr ⟨f1, f3, g1⟩
  · intro l hl
    obtain ⟨_, res, hres, _⟩ := prepareModule_ok (h3 _ hss)
    obtain ⟨_, _, r3, _⟩ := sequencerToPortclock_ok hres
    obtain ⟨j, w, _, r5, r6⟩ := r3 _ hP'
    rw [fits_iff] at r6
    simp only [hl] at r6
    have hdir := allowed_dirs _ _ r5
    exact ⟨hdir.1 _ r6.1, fun ch hch => hdir.2 _ (r6.2 ch hch)⟩
  · intro m' ss' hm' hkey
    obtain ⟨d', hd1', k1, k2, k3, k4, k5⟩ := module_known hv h2 (List.mem_map.mpr ⟨_, hm', rfl⟩)
    obtain ⟨e, he, hee⟩ := List.mem_map.mp hkey
    obtain ⟨ref', Q, t1, t2, t3, t4, t5⟩ := k5 e he
    rw [hee, htab] at t1
    split at t1
    · rename_i hn
      simp only [Option.some.injEq] at t1
      subst t1
      rw [hP, Option.some.injEq] at t2
      subst t2
      exact ⟨by rw [k1, hn], by rw [← t3, hPm]⟩
    · simp at t1

/-- **C52.** With version 0.2 of the configuration, or on a module that is no QRM or QRM-RF, the
channels are precisely those of the wiring. -/
theorem wiring_exact {k : Kind α} {v01 : Bool} {env : Env} {cs : List Cluster} {used : List PC}
    {log : Log α} {out : List (Module × List (Nat × Seq α))}
    (hcs : (cs.map Cluster.name).Nodup) (hms : ∀ c ∈ cs, (c.modules.map Prod.fst).Nodup)
    (hu : used.Nodup) (h : compile k v01 env cs used log = .ok out)
    {p c : String} (hpc : (p, c) ∈ used) (hd : Direct env.graph (cs.map Cluster.name) p)
    {cl : String} {i : Nat} {ch0 : Chan} (hw : Wired env.graph p cl i ch0)
    (hold : v01 = true → ∀ d ∈ cs, d.name = cl → (i, ModType.qrm) ∉ d.modules ∧
      (i, ModType.qrmRf) ∉ d.modules) :
    ∃ m ss P, (m, ss) ∈ out ∧ ((p, c), P) ∈ m.pcs ∧ m.cluster = cl ∧ m.idx = i ∧
      ∀ ch, Uses P ch ↔ Wired env.graph p cl i ch := by
  obtain ⟨_, m, ss, P, h1, h2, h3, h4, ⟨d, h5, h6, h7⟩, h8, h9, _⟩ :=
    wiring_sound hcs hms hu h hpc hd hw
  refine ⟨m, ss, P, h1, h2, h3, h4, fun ch => ⟨fun hch => ?_, h8 ch⟩⟩
  rcases h9 ch hch with h | ⟨a, b, _⟩
  · exact h
  · have := hold a d h5 h6
    rcases b with b | b
    · rw [b] at h7; exact absurd h7 this.1
    · rw [b] at h7; exact absurd h7 this.2

/-- **C52.** Channels of a port on different modules are refused. -/
theorem modules_differ_refused {k : Kind α} {v01 : Bool} {env : Env} {cs : List Cluster}
    {used : List PC} {log : Log α} (hcs : (cs.map Cluster.name).Nodup)
    (hms : ∀ c ∈ cs, (c.modules.map Prod.fst).Nodup) (hu : used.Nodup)
    {p c : String} (hpc : (p, c) ∈ used) (hd : Direct env.graph (cs.map Cluster.name) p)
    {cl cl' : String} {i i' : Nat} {ch ch' : Chan} (hw : Wired env.graph p cl i ch)
    (hw' : Wired env.graph p cl' i' ch') (hne : cl ≠ cl' ∨ i ≠ i')
    (out : List (Module × List (Nat × Seq α))) : compile k v01 env cs used log ≠ .ok out := by
  intro h
  have := (wiring_sound hcs hms hu h hpc hd hw).1 _ _ _ _ _ _ hw hw'
  rcases hne with h | h
  · exact h this.1
  · exact h this.2

/-- **C52.** A port that is not in the connectivity is refused. -/
theorem unwired_refused {k : Kind α} {v01 : Bool} {env : Env} {cs : List Cluster} {used : List PC}
    {log : Log α} {p c : String} (hpc : (p, c) ∈ used) (hp : ∀ n, ¬Linked env.graph p n)
    (out : List (Module × List (Nat × Seq α))) : compile k v01 env cs used log ≠ .ok out := by
  intro h
  obtain ⟨st, h1, _, _⟩ := compile_ok h
  have hcm : c ∈ (used.filter (fun e => e.1 = p)).map Prod.snd :=
    List.mem_map.mpr ⟨(p, c), by simp [hpc], rfl⟩
  have hmem := mem_portToClocks.mpr ⟨rfl, List.ne_nil_of_mem hcm⟩
  obtain ⟨l1, l2, hl⟩ := List.append_of_mem hmem
  rw [allPaths, hl, foldlM_ok_append] at h1
  obtain ⟨s1, _, h4⟩ := h1
  obtain ⟨s2, h5, _⟩ := (foldlM_ok_cons ..).mp h4
  unfold portStep at h5
  split at h5
  · rename_i hn
    obtain ⟨e, he, h6⟩ := mem_nodes.mp hn
    rcases h6 with h6 | h6
    · exact hp e.2 (Or.inl (by rw [← h6]; exact he))
    · exact hp e.1 (Or.inr (by rw [← h6]; exact he))
  · simp at h5

/-- **C53.** In every module the port-clocks get sequencers of their own that can drive and read
their channels, and no port-clock that is not used gets one. -/
theorem sequencers_sound {k : Kind α} {v01 : Bool} {env : Env} {cs : List Cluster} {used : List PC}
    {log : Log α} {out : List (Module × List (Nat × Seq α))}
    (h : compile k v01 env cs used log = .ok out) {m : Module} {ss : List (Nat × Seq α)}
    (hm : (m, ss) ∈ out) :
    (∀ e ∈ m.pcs, e.1 ∈ used) ∧
    ∃ f : PC → Nat, (∀ e ∈ m.pcs, Supports m.type (f e.1) e.2) ∧
      (∀ e ∈ m.pcs, ∀ e' ∈ m.pcs, f e.1 = f e'.1 → e.1 = e'.1) ∧
      (∀ n s, (n, s) ∈ ss → ∃ P, (s.pc, P) ∈ m.pcs ∧ s.path = P ∧
        n = (if m.type = .qtm then P.chan.idx else f s.pc)) := by
  obtain ⟨st, h1, h2, h3⟩ := compile_ok h
  have hv := allPaths_used _ _ _ h1
  obtain ⟨d, hd1, k1, k2, k3, k4, k5⟩ := module_known hv.1 h2 (List.mem_map.mpr ⟨_, hm, rfl⟩)
  simp only at k1 k2 k3 k4 k5
  refine ⟨?_, ?_⟩
  · intro e he
    obtain ⟨ref, P, t1, _⟩ := k5 e he
    exact hv.2 d.name e.1.1 e.1.2 ref t1
  obtain ⟨_, res, hres, hss⟩ := prepareModule_ok (h3 _ hm)
  simp only at hres hss
  obtain ⟨r1, r2, r3, r4⟩ := sequencerToPortclock_ok hres
  have hrn : (res.map Prod.snd).Nodup := r2.nodup_iff.mpr k3
  have hswap : (Dict.keys (res.map Prod.swap)).Nodup := by
    simpa [Dict.keys, Function.comp_def] using hrn
  refine ⟨fun pc => (Dict.get? (res.map Prod.swap) pc).getD 0, ?_, ?_, ?_⟩
  · intro e he
    obtain ⟨i, w, h4, h5, h6⟩ := r3 e he
    have : Dict.get? (res.map Prod.swap) e.1 = some i :=
      Dict.get?_of_mem hswap (List.mem_map.mpr ⟨(i, e.1), h4, rfl⟩)
    simp only [this, Option.getD_some]
    exact (supports_iff ..).mpr ⟨w, h5, h6⟩
  · intro e he e' he' heq
    obtain ⟨i, w, h4, h5, h6⟩ := r3 e he
    obtain ⟨i', w', h4', h5', h6'⟩ := r3 e' he'
    have a : Dict.get? (res.map Prod.swap) e.1 = some i :=
      Dict.get?_of_mem hswap (List.mem_map.mpr ⟨(i, e.1), h4, rfl⟩)
    have b : Dict.get? (res.map Prod.swap) e'.1 = some i' :=
      Dict.get?_of_mem hswap (List.mem_map.mpr ⟨(i', e'.1), h4', rfl⟩)
    simp only [a, b, Option.getD_some] at heq
    subst heq
    have c1 := Dict.get?_of_mem (d := res) r1 h4
    have c2 := Dict.get?_of_mem (d := res) r1 h4'
    rw [c1, Option.some.injEq] at c2
    exact c2
  · intro n s hs
    rw [hss, construct_eq] at hs
    rcases mem_foldl_set _ _ _ hs with hs | hs
    · simp at hs
    · obtain ⟨i, P, a1, a2, a3, a4, a5, a6⟩ := mem_entries.mp hs
      refine ⟨P, Dict.mem_of_get? a2, a5, ?_⟩
      have : Dict.get? (res.map Prod.swap) s.pc = some i :=
        Dict.get?_of_mem hswap (List.mem_map.mpr ⟨(i, s.pc), a1, rfl⟩)
      simp only [this, Option.getD_some]
      rw [a4]
      cases m.type <;> rfl

/-- **C53.** On a module other than a QRC (all sequencers are alike), a set of port-clocks gets its
sequencers if and only if each can be served by some sequencer of the module and there are at most as
many port-clocks as sequencers: 6, on a QTM 8. -/
theorem reservation_complete (t : ModType) (ht : t ≠ .qrc) (pcs : List (PC × Path))
    (hn : (pcs.map Prod.fst).Nodup) :
    (∃ res, sequencerToPortclock (allowed t) pcs = .ok res) ↔
      (∀ e ∈ pcs, ∃ i, Supports t i e.2) ∧ pcs.length ≤ (if t = .qtm then 8 else 6) := by
  have hlen : (allowed t).length = if t = .qtm then 8 else 6 := by
    cases t <;> first | rfl | exact absurd rfl ht
  have huni : ∀ e ∈ allowed t, ∀ e' ∈ allowed t, e.2 = e'.2 := by
    cases t <;> first | decide | exact absurd rfl ht
  rw [← hlen]
  constructor
  · rintro ⟨res, hres⟩
    obtain ⟨r1, r2, r3, r4⟩ := sequencerToPortclock_ok hres
    refine ⟨fun e he => ?_, ?_⟩
    · obtain ⟨i, w, _, h5, h6⟩ := r3 e he
      exact ⟨i, (supports_iff ..).mpr ⟨w, h5, h6⟩⟩
    · have hsub : res.map Prod.fst ⊆ (allowed t).map Prod.fst := by
        intro x hx
        obtain ⟨a, ha, rfl⟩ := List.mem_map.mp hx
        obtain ⟨e, _, _, w, hw, _⟩ := r4 a ha
        exact List.mem_map.mpr ⟨_, hw, rfl⟩
      have := (List.subperm_of_subset r1 hsub).length_le
      have hl := r2.length_eq
      simp only [List.length_map] at this hl
      omega
  · rintro ⟨h1, h2⟩
    apply sequencerToPortclock_count (allowed_nodup t)
    intro e he
    obtain ⟨i, hi⟩ := h1 e he
    obtain ⟨w, hw, hf⟩ := (supports_iff ..).mp hi
    have : (allowed t).filter (fun a => fits a.2 e.2) = allowed t := by
      rw [List.filter_eq_self]
      intro a ha
      rw [huni a ha _ hw]; exact hf
    rw [this]; exact h2

/-- **C53.** On a QRC up to two port-clocks always get sequencers, and up to six do if none of them
needs an input together with `complex_output_2` to `complex_output_5`. -/
theorem reservation_qrc (pcs : List (PC × Path)) (hok : ∀ e ∈ pcs, ∃ i, Supports .qrc i e.2)
    (hlen : pcs.length ≤ 2 ∨ (pcs.length ≤ 6 ∧
      ∀ e ∈ pcs, e.2.measure.isSome → e.2.chan.idx < 2)) :
    ∃ res, sequencerToPortclock (allowed .qrc) pcs = .ok res := by
  apply sequencerToPortclock_count (allowed_nodup .qrc)
  rintro ⟨pc, P⟩ he
  obtain ⟨i, hi⟩ := hok _ he
  obtain ⟨w, hw, hf⟩ := (supports_iff ..).mp hi
  simp only at hf ⊢
  have hle : pcs.length ≤ 2 ∨ (pcs.length ≤ 6 ∧ (P.measure.isSome → P.chan.idx < 2)) := by
    rcases hlen with h | h
    · exact Or.inl h
    · exact Or.inr ⟨h.1, fun hm => h.2 _ he hm⟩
  have hcount : (P.measure = none → 6 ≤ ((allowed .qrc).filter (fun a => fits a.2 P)).length) ∧
      (P.measure.isSome → P.chan.idx < 2 →
        8 ≤ ((allowed .qrc).filter (fun a => fits a.2 P)).length) ∧
      2 ≤ ((allowed .qrc).filter (fun a => fits a.2 P)).length := by
    obtain ⟨pcl, pm, ch, me⟩ := P
    cases me with
    | none =>
      have hall : ∀ a ∈ allowed .qrc, ∀ x ∈ a.2.outs ++ a.2.ins, 6 ≤ ((allowed .qrc).filter
          (fun a => a.2.outs.contains x || a.2.ins.contains x)).length := by decide
      have : 6 ≤ ((allowed .qrc).filter (fun a => fits a.2 ⟨pcl, pm, ch, none⟩)).length := by
        have hx : ch ∈ w.outs ++ w.ins := by
          rw [fits_iff] at hf
          simpa using hf
        exact hall _ hw ch hx
      exact ⟨fun _ => this, fun h => by simp at h, le_trans (by omega) this⟩
    | some l =>
      rw [fits_iff] at hf
      simp only at hf
      have hins : l ≠ [] → w.ins = [ci 0, ci 1] := by
        intro hl
        obtain ⟨x, hx⟩ := List.exists_mem_of_ne_nil l hl
        have := hf.2 x hx
        have h0 : ∀ a ∈ allowed .qrc, a.2.ins = [] ∨ a.2.ins = [ci 0, ci 1] := by decide
        rcases h0 _ hw with h0 | h0
        · simp only at h0; rw [h0] at this; simp at this
        · exact h0
      have hmono : ((allowed .qrc).filter
          (fun a => a.2.outs.contains ch && a.2.ins == [ci 0, ci 1])).length ≤
          ((allowed .qrc).filter (fun a => fits a.2 ⟨pcl, pm, ch, some l⟩)).length := by
        apply List.Sublist.length_le
        apply List.monotone_filter_right
        intro a ha
        rw [Bool.and_eq_true, beq_iff_eq] at ha
        rw [fits_iff]
        simp only
        refine ⟨by simpa using ha.1, ?_⟩
        intro x hx
        rw [ha.2, ← hins (List.ne_nil_of_mem hx)]
        exact hf.2 x hx
      have h2 : ∀ a ∈ allowed .qrc, ∀ x ∈ a.2.outs, 2 ≤ ((allowed .qrc).filter
          (fun a => a.2.outs.contains x && a.2.ins == [ci 0, ci 1])).length := by decide
      have h8 : ∀ a ∈ allowed .qrc, ∀ x ∈ a.2.outs, x.idx < 2 → 8 ≤ ((allowed .qrc).filter
          (fun a => a.2.outs.contains x && a.2.ins == [ci 0, ci 1])).length := by decide
      exact ⟨fun h => by simp at h, fun _ hi => le_trans (h8 _ hw ch hf.1 hi) hmono,
        le_trans (h2 _ hw ch hf.1) hmono⟩
  rcases hle with h | ⟨h, h'⟩
  · omega
  · cases hm : P.measure with
    | none => have := hcount.1 hm; omega
    | some l =>
      have := hcount.2.1 (by simp [hm]) (h' (by simp [hm]))
      omega

/-- **C53.** The reservation does not depend on the order of the port-clocks in the configuration. -/
theorem reservation_deterministic (t : ModType) (pcs pcs' : List (PC × Path)) (hp : pcs.Perm pcs')
    (hk : ∀ e ∈ pcs, ∀ e' ∈ pcs, e.1.1 ++ "-" ++ e.1.2 = e'.1.1 ++ "-" ++ e'.1.2 → e = e') :
    sequencerToPortclock (allowed t) pcs = sequencerToPortclock (allowed t) pcs' := by
  unfold sequencerToPortclock
  rw [sort_unique hp hk]

/-- **C54.** Every port-clock with an operation other than a latch reset has a sequencer, which gets
precisely the operations of the port-clock, in the order in which they were given to the device; no
sequencer gets anything else.  On a QTM this needs that no two port-clocks are on channels with the
same number. -/
theorem operations_delivered {k : Kind α} {v01 : Bool} {env : Env} {cs : List Cluster}
    {used : List PC} {log : Log α} {out : List (Module × List (Nat × Seq α))}
    (h : compile k v01 env cs used log = .ok out) {m : Module} {ss : List (Nat × Seq α)}
    (hm : (m, ss) ∈ out)
    (hq : m.type = .qtm → ∀ e ∈ m.pcs, ∀ e' ∈ m.pcs, e.2.chan.idx = e'.2.chan.idx → e.1 = e'.1) :
    (ss.map Prod.fst).Nodup ∧
    (∀ pc ∈ m.pcs.map Prod.fst,
      (∃ o, (m.cluster, pc, o) ∈ log ∧ k.isReset o = false) →
      ∃ n s, (n, s) ∈ ss ∧ s.pc = pc) ∧
    (∀ n s, (n, s) ∈ ss → s.ops =
      (log.filter (fun c => decide (c.1 = m.cluster ∧ c.2.1 = s.pc))).map (fun c => c.2.2)) ∧
    (∀ n s n' s', (n, s) ∈ ss → (n', s') ∈ ss → s.pc = s'.pc → n = n' ∧ s = s') := by
  obtain ⟨st, h1, h2, h3⟩ := compile_ok h
  have hv := allPaths_used _ _ _ h1
  obtain ⟨d, hd1, k1, k2, k3, k4, k5⟩ := module_known hv.1 h2 (List.mem_map.mpr ⟨_, hm, rfl⟩)
  obtain ⟨_, res, hres, hss⟩ := prepareModule_ok (h3 _ hm)
  simp only at hres hss k3
  obtain ⟨r1, r2, r3, r4⟩ := sequencerToPortclock_ok hres
  have hrn : (res.map Prod.snd).Nodup := r2.nodup_iff.mpr k3
  have hkeys := entries_keys_nodup (k := k) (log := log) r1 hrn hq
  have heq : ss = entries k log m res := by
    rw [hss, construct_eq, foldl_set_new _ [] (by simpa using hkeys)]; rfl
  have hops : ∀ pc, opsOf log m.cluster pc =
      (log.filter (fun c => decide (c.1 = m.cluster ∧ c.2.1 = pc))).map (fun c => c.2.2) := by
    intro pc
    unfold opsOf
    rw [← List.filterMap_eq_map, List.filterMap_filter]
    congr 1; funext c; simp
  refine ⟨by rw [heq]; exact hkeys, ?_, ?_, ?_⟩
  · rintro pc hpc ⟨o, ho, hr⟩
    obtain ⟨e, he, rfl⟩ := List.mem_map.mp hpc
    obtain ⟨i, w, h4, _, _⟩ := r3 e he
    have hdata : hasData k log m.cluster e.1 = true := by
      unfold hasData
      rw [List.any_eq_true]
      refine ⟨o, ?_, by simp [hr]⟩
      rw [hops]
      exact List.mem_map.mpr ⟨_, List.mem_filter.mpr ⟨ho, by simp⟩, rfl⟩
    refine ⟨seqNumber m.type i e.2, ⟨e.1, e.2, opsOf log m.cluster e.1⟩, ?_, rfl⟩
    rw [heq]
    exact mem_entries.mpr ⟨i, e.2, h4, Dict.get?_of_mem k3 he, hdata, rfl, rfl, rfl⟩
  · intro n s hs
    rw [heq] at hs
    obtain ⟨i, P, a1, a2, a3, a4, a5, a6⟩ := mem_entries.mp hs
    rw [a6, hops]
  · intro n s n' s' hs hs' hpc
    rw [heq] at hs hs'
    obtain ⟨i, P, a1, a2, a3, a4, a5, a6⟩ := mem_entries.mp hs
    obtain ⟨i', P', b1, b2, b3, b4, b5, b6⟩ := mem_entries.mp hs'
    have hsw : (Dict.keys (res.map Prod.swap)).Nodup := by
      simpa [Dict.keys, Function.comp_def] using hrn
    have c1 := Dict.get?_of_mem hsw (List.mem_map.mpr ⟨_, a1, rfl⟩)
    have c2 := Dict.get?_of_mem hsw (List.mem_map.mpr ⟨_, b1, rfl⟩)
    simp only [Prod.swap] at c1 c2
    rw [hpc] at c1 a2 a6
    rw [c1, Option.some.injEq] at c2
    rw [a2, Option.some.injEq] at b2
    subst c2 b2
    refine ⟨by rw [a4, b4], ?_⟩
    cases s; cases s'
    simp_all

/-- **C54.** An acquisition on a module that has no inputs (QCM, QCM-RF) is refused. -/
theorem acquisition_refused {k : Kind α} {log : Log α} {m : Module}
    (ht : m.type = .qcm ∨ m.type = .qcmRf) {pc : PC} (hpc : pc ∈ m.pcs.map Prod.fst) {o : α}
    (ho : (m.cluster, pc, o) ∈ log) (ha : k.isAcq o = true) :
    prepareModule k log m = .error .runtimeError := by
  unfold prepareModule
  rw [if_neg]
  unfold distributeOk
  intro hc
  rw [Bool.or_eq_true, List.all_eq_true] at hc
  rcases hc with hc | hc
  · rcases ht with ht | ht <;> rw [ht] at hc <;> simp [ModType.acquires] at hc
  · obtain ⟨e, he, rfl⟩ := List.mem_map.mp hpc
    have := hc e he
    rw [List.all_eq_true] at this
    have := this o (by
      unfold opsOf
      rw [List.mem_filterMap]
      exact ⟨_, ho, by simp⟩)
    simp [ha] at this

/-- **C52.** A wire listed with several ports on either side stands for all wires between them. -/
theorem listed_wires (l : List (List Node × List Node)) (a b : Node) :
    (a, b) ∈ unroll l ↔ ∃ e ∈ l, a ∈ e.1 ∧ b ∈ e.2 := by
  simp [unroll, List.mem_flatMap]

end Verif.Connect
