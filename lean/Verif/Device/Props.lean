/-
C74: the configuration of a device is that of the elements and edges it has now.
-/
import Verif.Device.Gen

namespace Verif.Device

open Verif Verif.Device.Spec

set_option linter.unusedSimpArgs false
set_option linter.unusedVariables false

theorem get?_map_mem {V : Type} (f : String → V) : ∀ {ns : List String} {n : String}, n ∈ ns →
    Dict.get? (ns.map fun n => (n, f n)) n = some (f n) := by
  intro ns
  induction ns with
  | nil => intro n h; cases h
  | cons m ns ih =>
    intro n h
    rw [List.map_cons, Dict.get?_cons]
    by_cases e : m = n
    · simp [e]
    · simp only [e, if_false]
      exact ih (by simpa [Ne.symm e] using h)

/-- The entries of an element in the configuration of the device. -/
theorem own_entries {s : St} (h : Inv s) {cfg : Config} (hg : generate s = .ok cfg) {n : String} (hn : n ∈ s.dev.elements)
    {k : Kind} {ps : Params} (ho : Open s n (.elem k n ps)) :
    ∃ ops clocks, evalOps n ps k.ops = .ok ops ∧ evalClocks n ps k.clocks = .ok clocks ∧
      Dict.get? cfg.elements n = some ops ∧ ∀ c v, (c, v) ∈ clocks → Dict.get? cfg.clocks c = some v := by
  obtain ⟨f, g, hf, hgE, hc, he, _, _⟩ := generate_shape h hg
  obtain ⟨k', ps', hk', h1, h2⟩ := hf n hn
  rw [show Dict.get? s.reg n = some (.elem k n ps) from ho] at hk'
  simp only [Option.some.injEq, Instr.elem.injEq, true_and] at hk'
  obtain ⟨rfl, rfl⟩ := hk'
  refine ⟨_, _, h1, h2, by rw [he]; exact get?_map_mem _ hn, ?_⟩
  intro c v hcv
  refine Dict.get?_of_mem ?_ (by rw [hc]; exact List.mem_flatMap.mpr ⟨n, hn, hcv⟩)
  rw [hc]
  have hk : Dict.keys (s.dev.elements.flatMap fun n => (f n).2) =
      s.dev.elements.flatMap fun n => Dict.keys (f n).2 := by
    simp only [Dict.keys, List.map_flatMap]
  rw [hk, List.nodup_flatMap]
  constructor
  · intro m hm
    obtain ⟨k', ps', _, _, h2'⟩ := hf m hm
    rw [evalClocks_keys h2']
    have : (k'.clocks.map fun e => m ++ e.1) = (k'.clocks.map Prod.fst).map (fun x => m ++ x) := by
      rw [List.map_map]; rfl
    rw [this]
    apply List.Nodup.map _ (clocks_nodup k')
    intro a b hab
    have := congrArg String.toList hab
    simp only [String.toList_append] at this
    exact String.toList_inj.mp (List.append_cancel_left this)
  · refine List.Pairwise.imp_of_mem ?_ h.elements
    intro a b ha hb hab
    obtain ⟨ka, pa, _, _, h2a⟩ := hf a ha
    obtain ⟨kb, pb, _, _, h2b⟩ := hf b hb
    simp only [Function.onFun, List.disjoint_left, evalClocks_keys h2a, evalClocks_keys h2b, List.mem_map]
    rintro x ⟨e, he, rfl⟩ ⟨e', he', hee⟩
    exact hab (dotted_inj (clocks_dotted ka e he) (clocks_dotted kb e' he') hee.symm).1

theorem argument_of {s : St} (h : Inv s) {cfg : Config} (hg : generate s = .ok cfg) {n : String} (hn : n ∈ s.dev.elements)
    {k : Kind} {ps : Params} (ho : Open s n (.elem k n ps)) {op a : String} {src : Src}
    (hs : srcAt k.ops op a = some src) :
    ∃ arg, evalSrc n ps src = .ok arg ∧ argument cfg n op a = some arg := by
  obtain ⟨ops, clocks, h1, _, h3, _⟩ := own_entries h hg hn ho
  obtain ⟨arg, h4, h5⟩ := srcAt_get h1 hs
  exact ⟨arg, h4, by unfold argument; rw [h3]; exact h5⟩

/-- Elements and edges of a device are those added and not removed since, each once. -/
theorem members (d : String) (cs : List Cmd) :
    (∀ n, n ∈ (run (fresh d) cs).dev.elements ↔ ElementNow (executed (fresh d) cs) n) ∧
    (∀ n, n ∈ (run (fresh d) cs).dev.edges ↔ EdgeNow (executed (fresh d) cs) n) ∧
    (run (fresh d) cs).dev.elements.Nodup ∧ (run (fresh d) cs).dev.edges.Nodup := by
  refine ⟨?_, ?_, (inv d cs).elements, (inv d cs).edges⟩
  · -- by induction on the session, for every session before
    have key : ∀ (cs : List Cmd) (s : St) (past : List Cmd), Inv s →
        (∀ n, n ∈ s.dev.elements ↔ ElementNow past n) →
        ∀ n, n ∈ (run s cs).dev.elements ↔ ElementNow (past ++ executed s cs) n := by
      intro cs
      induction cs with
      | nil => intro s past _ hp n; simp only [run, executed, List.append_nil]; exact hp n
      | cons c cs ih =>
        intro s past hi hp n
        simp only [run, executed]
        cases hs : step s c with
        | error e => exact ih s past hi hp n
        | ok s' =>
          have := ih s' (past ++ [c]) (hi.step hs) ?_ n
          · rw [this]; simp
          · intro m
            have other : (∀ i, c ≠ .addElement i) → (∀ x, c ≠ .removeElement x) → s'.dev.elements = s.dev.elements →
                (m ∈ s'.dev.elements ↔ ElementNow (past ++ [c]) m) := by
              intro h1 h2 h3
              rw [h3, hp m]
              constructor
              · rintro ⟨a, i, b, rfl, hn, hb⟩
                exact ⟨a, i, b ++ [c], by simp, hn, by simp [hb]; exact fun e => h2 m e.symm⟩
              · rintro ⟨a, i, b, he, hn, hb⟩
                rcases List.eq_nil_or_concat b with rfl | ⟨b', x, rfl⟩
                · have := (List.append_inj' (s₁ := past) (s₂ := a) (t₁ := [c]) (t₂ := [.addElement i]) he rfl).2
                  simp only [List.cons.injEq, and_true] at this
                  exact absurd this (h1 i)
                · rw [show a ++ Cmd.addElement i :: (b'.concat x) = (a ++ Cmd.addElement i :: b') ++ [x] by simp] at he
                  have h5 := List.append_inj' he rfl
                  exact ⟨a, i, b', h5.1, hn, fun hm => hb (by simp [hm])⟩
            cases c with
            | addElement i =>
              simp only [step] at hs
              split at hs
              · cases hs
              · split at hs
                · cases hs
                · cases i with
                  | elem k nm ps =>
                    simp only [Except.ok.injEq] at hs
                    subst hs
                    simp only [List.mem_append, List.mem_cons, List.not_mem_nil, or_false, hp m, Instr.name]
                    constructor
                    · rintro (⟨a, i, b, rfl, hn, hb⟩ | rfl)
                      · exact ⟨a, i, b ++ [.addElement (.elem k nm ps)], by simp, hn, by simp [hb]⟩
                      · exact ⟨past, .elem k m ps, [], by simp, rfl, by simp⟩
                    · rintro ⟨a, i, b, he, hn, hb⟩
                      rcases List.eq_nil_or_concat b with rfl | ⟨b', x, rfl⟩
                      · have := (List.append_inj' (s₁ := past) (s₂ := a) (t₂ := [.addElement i]) he rfl).2
                        simp only [List.cons.injEq, and_true, Cmd.addElement.injEq] at this
                        subst this
                        exact .inr hn.symm
                      · rw [show a ++ Cmd.addElement i :: (b'.concat x) = (a ++ Cmd.addElement i :: b') ++ [x] by simp] at he
                        have h5 := List.append_inj' he rfl
                        exact .inl ⟨a, i, b', h5.1, hn, fun hm => hb (by simp [hm])⟩
                  | edge => cases hs
                  | other => cases hs
            | removeElement x =>
              simp only [step] at hs
              split at hs
              · simp only [Except.ok.injEq] at hs
                subst hs
                simp only [hi.elements.mem_erase_iff, hp m]
                constructor
                · rintro ⟨hne, a, i, b, rfl, hn, hb⟩
                  exact ⟨a, i, b ++ [.removeElement x], by simp, hn, by simp [hb]; exact hne⟩
                · rintro ⟨a, i, b, he, hn, hb⟩
                  rcases List.eq_nil_or_concat b with rfl | ⟨b', y, rfl⟩
                  · have := (List.append_inj' (s₁ := past) (s₂ := a) (t₂ := [.addElement i]) he rfl).2
                    simp at this
                  · rw [show a ++ Cmd.addElement i :: (b'.concat y) = (a ++ Cmd.addElement i :: b') ++ [y] by simp] at he
                    have h5 := List.append_inj' he rfl
                    simp only [List.cons.injEq, and_true] at h5
                    refine ⟨?_, a, i, b', h5.1, hn, fun hm => hb (by simp [hm])⟩
                    rintro rfl
                    exact hb (by rw [← h5.2]; simp)
              · cases hs
            | newElem k nm kw =>
              refine other (by simp) (by simp) ?_
              simp only [step, bind, Except.bind] at hs
              cases hm : makeElem k nm kw with
              | error e => rw [hm] at hs; cases hs
              | ok i =>
                rw [hm] at hs; simp only at hs
                cases hr : register s.reg i with
                | error e => rw [hr] at hs; cases hs
                | ok r => rw [hr] at hs; simp only [pure, Except.pure, Except.ok.injEq] at hs; subst hs; rfl
            | newEdge k p q kw =>
              refine other (by simp) (by simp) ?_
              simp only [step, bind, Except.bind] at hs
              cases hm : makeEdge k p q kw with
              | error e => rw [hm] at hs; cases hs
              | ok i =>
                rw [hm] at hs; simp only at hs
                cases hr : register s.reg i with
                | error e => rw [hr] at hs; cases hs
                | ok r => rw [hr] at hs; simp only [pure, Except.pure, Except.ok.injEq] at hs; subst hs; rfl
            | newOther x =>
              refine other (by simp) (by simp) ?_
              simp only [step, bind, Except.bind] at hs
              cases hr : register s.reg (.other x) with
              | error e => rw [hr] at hs; cases hs
              | ok r => rw [hr] at hs; simp only [pure, Except.pure, Except.ok.injEq] at hs; subst hs; rfl
            | close x =>
              refine other (by simp) (by simp) ?_
              simp only [step, Except.ok.injEq] at hs; subst hs; rfl
            | setPar x sub par v =>
              refine other (by simp) (by simp) ?_
              simp only [step] at hs
              split at hs
              · cases hs
              · simp only [bind, Except.bind] at hs
                split at hs
                · cases hs
                · simp only [pure, Except.pure, Except.ok.injEq] at hs; subst hs; rfl
            | addEdge i =>
              refine other (by simp) (by simp) ?_
              simp only [step] at hs
              split at hs
              · cases hs
              · cases i with
                | edge => simp only [Except.ok.injEq] at hs; subst hs; rfl
                | elem => cases hs
                | other => cases hs
            | removeEdge x =>
              refine other (by simp) (by simp) ?_
              simp only [step] at hs
              split at hs
              · simp only [Except.ok.injEq] at hs; subst hs; rfl
              · cases hs
            | setStrategy x =>
              refine other (by simp) (by simp) ?_
              simp only [step] at hs
              split at hs
              · simp only [Except.ok.injEq] at hs; subst hs; rfl
              · cases hs
            | setReps x =>
              refine other (by simp) (by simp) ?_
              simp only [step] at hs
              split at hs
              · simp only [Except.ok.injEq] at hs; subst hs; rfl
              · cases hs
            | setKeep x =>
              refine other (by simp) (by simp) ?_
              simp only [step, Except.ok.injEq] at hs; subst hs; rfl
            | setHardware x =>
              refine other (by simp) (by simp) ?_
              simp only [step, Except.ok.injEq] at hs; subst hs; rfl
    intro n
    have := key cs (fresh d) [] (inv_fresh d) (by
      intro n; simp only [fresh, List.not_mem_nil, false_iff]; rintro ⟨a, i, b, he, _⟩; simp at he) n
    simpa using this
  · have key : ∀ (cs : List Cmd) (s : St) (past : List Cmd), Inv s →
        (∀ n, n ∈ s.dev.edges ↔ EdgeNow past n) →
        ∀ n, n ∈ (run s cs).dev.edges ↔ EdgeNow (past ++ executed s cs) n := by
      intro cs
      induction cs with
      | nil => intro s past _ hp n; simp only [run, executed, List.append_nil]; exact hp n
      | cons c cs ih =>
        intro s past hi hp n
        simp only [run, executed]
        cases hs : step s c with
        | error e => exact ih s past hi hp n
        | ok s' =>
          have := ih s' (past ++ [c]) (hi.step hs) ?_ n
          · rw [this]; simp
          · intro m
            have other : (∀ i, c ≠ .addEdge i) → (∀ x, c ≠ .removeEdge x) → s'.dev.edges = s.dev.edges →
                (m ∈ s'.dev.edges ↔ EdgeNow (past ++ [c]) m) := by
              intro h1 h2 h3
              rw [h3, hp m]
              constructor
              · rintro ⟨a, i, b, rfl, hn, hb⟩
                exact ⟨a, i, b ++ [c], by simp, hn, by simp [hb]; exact fun e => h2 m e.symm⟩
              · rintro ⟨a, i, b, he, hn, hb⟩
                rcases List.eq_nil_or_concat b with rfl | ⟨b', x, rfl⟩
                · have := (List.append_inj' (s₁ := past) (s₂ := a) (t₁ := [c]) (t₂ := [.addEdge i]) he rfl).2
                  simp only [List.cons.injEq, and_true] at this
                  exact absurd this (h1 i)
                · rw [show a ++ Cmd.addEdge i :: (b'.concat x) = (a ++ Cmd.addEdge i :: b') ++ [x] by simp] at he
                  have h5 := List.append_inj' he rfl
                  exact ⟨a, i, b', h5.1, hn, fun hm => hb (by simp [hm])⟩
            cases c with
            | addEdge i =>
              simp only [step] at hs
              split at hs
              · cases hs
              · cases i with
                | edge k p q ps =>
                  simp only [Except.ok.injEq] at hs
                  subst hs
                  simp only [List.mem_append, List.mem_cons, List.not_mem_nil, or_false, hp m]
                  constructor
                  · rintro (⟨a, i, b, rfl, hn, hb⟩ | rfl)
                    · exact ⟨a, i, b ++ [.addEdge (.edge k p q ps)], by simp, hn, by simp [hb]⟩
                    · exact ⟨past, .edge k p q ps, [], by simp, rfl, by simp⟩
                  · rintro ⟨a, i, b, he, hn, hb⟩
                    rcases List.eq_nil_or_concat b with rfl | ⟨b', x, rfl⟩
                    · have := (List.append_inj' (s₁ := past) (s₂ := a) (t₂ := [.addEdge i]) he rfl).2
                      simp only [List.cons.injEq, and_true, Cmd.addEdge.injEq] at this
                      subst this
                      exact .inr hn.symm
                    · rw [show a ++ Cmd.addEdge i :: (b'.concat x) = (a ++ Cmd.addEdge i :: b') ++ [x] by simp] at he
                      have h5 := List.append_inj' he rfl
                      exact .inl ⟨a, i, b', h5.1, hn, fun hm => hb (by simp [hm])⟩
                | elem => cases hs
                | other => cases hs
            | removeEdge x =>
              simp only [step] at hs
              split at hs
              · simp only [Except.ok.injEq] at hs
                subst hs
                simp only [hi.edges.mem_erase_iff, hp m]
                constructor
                · rintro ⟨hne, a, i, b, rfl, hn, hb⟩
                  exact ⟨a, i, b ++ [.removeEdge x], by simp, hn, by simp [hb]; exact hne⟩
                · rintro ⟨a, i, b, he, hn, hb⟩
                  rcases List.eq_nil_or_concat b with rfl | ⟨b', y, rfl⟩
                  · have := (List.append_inj' (s₁ := past) (s₂ := a) (t₂ := [.addEdge i]) he rfl).2
                    simp at this
                  · rw [show a ++ Cmd.addEdge i :: (b'.concat y) = (a ++ Cmd.addEdge i :: b') ++ [y] by simp] at he
                    have h5 := List.append_inj' he rfl
                    simp only [List.cons.injEq, and_true] at h5
                    refine ⟨?_, a, i, b', h5.1, hn, fun hm => hb (by simp [hm])⟩
                    rintro rfl
                    exact hb (by rw [← h5.2]; simp)
              · cases hs
            | newElem k nm kw =>
              refine other (by simp) (by simp) ?_
              simp only [step, bind, Except.bind] at hs
              cases hm : makeElem k nm kw with
              | error e => rw [hm] at hs; cases hs
              | ok i =>
                rw [hm] at hs; simp only at hs
                cases hr : register s.reg i with
                | error e => rw [hr] at hs; cases hs
                | ok r => rw [hr] at hs; simp only [pure, Except.pure, Except.ok.injEq] at hs; subst hs; rfl
            | newEdge k p q kw =>
              refine other (by simp) (by simp) ?_
              simp only [step, bind, Except.bind] at hs
              cases hm : makeEdge k p q kw with
              | error e => rw [hm] at hs; cases hs
              | ok i =>
                rw [hm] at hs; simp only at hs
                cases hr : register s.reg i with
                | error e => rw [hr] at hs; cases hs
                | ok r => rw [hr] at hs; simp only [pure, Except.pure, Except.ok.injEq] at hs; subst hs; rfl
            | newOther x =>
              refine other (by simp) (by simp) ?_
              simp only [step, bind, Except.bind] at hs
              cases hr : register s.reg (.other x) with
              | error e => rw [hr] at hs; cases hs
              | ok r => rw [hr] at hs; simp only [pure, Except.pure, Except.ok.injEq] at hs; subst hs; rfl
            | close x =>
              refine other (by simp) (by simp) ?_
              simp only [step, Except.ok.injEq] at hs; subst hs; rfl
            | setPar x sub par v =>
              refine other (by simp) (by simp) ?_
              simp only [step] at hs
              split at hs
              · cases hs
              · simp only [bind, Except.bind] at hs
                split at hs
                · cases hs
                · simp only [pure, Except.pure, Except.ok.injEq] at hs; subst hs; rfl
            | addElement i =>
              refine other (by simp) (by simp) ?_
              simp only [step] at hs
              split at hs
              · cases hs
              · split at hs
                · cases hs
                · cases i with
                  | elem => simp only [Except.ok.injEq] at hs; subst hs; rfl
                  | edge => cases hs
                  | other => cases hs
            | removeElement x =>
              refine other (by simp) (by simp) ?_
              simp only [step] at hs
              split at hs
              · simp only [Except.ok.injEq] at hs; subst hs; rfl
              · cases hs
            | setStrategy x =>
              refine other (by simp) (by simp) ?_
              simp only [step] at hs
              split at hs
              · simp only [Except.ok.injEq] at hs; subst hs; rfl
              · cases hs
            | setReps x =>
              refine other (by simp) (by simp) ?_
              simp only [step] at hs
              split at hs
              · simp only [Except.ok.injEq] at hs; subst hs; rfl
              · cases hs
            | setKeep x =>
              refine other (by simp) (by simp) ?_
              simp only [step, Except.ok.injEq] at hs; subst hs; rfl
            | setHardware x =>
              refine other (by simp) (by simp) ?_
              simp only [step, Except.ok.injEq] at hs; subst hs; rfl
    intro n
    have := key cs (fresh d) [] (inv_fresh d) (by
      intro n; simp only [fresh, List.not_mem_nil, false_iff]; rintro ⟨a, i, b, he, _⟩; simp at he) n
    simpa using this

/-- The configuration has an entry for each element and each edge of the device and no other. The entry of an element is
the one that the element generates on its own, with its clocks; no clock has another frequency. -/
theorem entries (d : String) (cs : List Cmd) {cfg : Config} (hg : generate (run (fresh d) cs) = .ok cfg) :
    Dict.keys cfg.elements = (run (fresh d) cs).dev.elements ∧ Dict.keys cfg.edges = (run (fresh d) cs).dev.edges ∧
    cfg.strategy = (run (fresh d) cs).dev.strategy ∧
    (∀ n ∈ (run (fresh d) cs).dev.elements, ∃ i own, Open (run (fresh d) cs) n i ∧ elemConfig i = .ok own ∧
      Dict.get? cfg.elements n = Dict.get? own.elements n ∧
      ∀ c f, Dict.get? own.clocks c = some f → Dict.get? cfg.clocks c = some f) ∧
    (∀ c f, Dict.get? cfg.clocks c = some f → ∃ n ∈ (run (fresh d) cs).dev.elements, ∃ i own,
      Open (run (fresh d) cs) n i ∧ elemConfig i = .ok own ∧ Dict.get? own.clocks c = some f) ∧
    (∀ n ∈ (run (fresh d) cs).dev.edges, ∃ i own, Open (run (fresh d) cs) n i ∧
      edgeConfig (run (fresh d) cs).reg i = .ok own ∧ Dict.get? cfg.edges n = Dict.get? own n) := by
  have h := inv d cs
  obtain ⟨f, g, hf, hgE, hc, he, hE, hst⟩ := generate_shape h hg
  refine ⟨?_, ?_, hst, ?_, ?_, ?_⟩
  · rw [he]; simp [Dict.keys, Function.comp_def]
  · rw [hE]; simp [Dict.keys, Function.comp_def]
  · intro n hn
    obtain ⟨k, ps, ho, h1, h2⟩ := hf n hn
    obtain ⟨ops, clocks, h3, h4, h5, h6⟩ := own_entries h hg hn ho
    refine ⟨_, { elements := [(n, ops)], clocks := clocks }, ho, by
      simp [elemConfig, bind, Except.bind, h3, h4, pure, Except.pure], by rw [h5]; simp [Dict.get?_cons], ?_⟩
    intro c v hcv
    exact h6 c v (Dict.mem_of_get? hcv)
  · intro c v hcv
    have := Dict.mem_of_get? hcv
    rw [hc, List.mem_flatMap] at this
    obtain ⟨n, hn, hm⟩ := this
    obtain ⟨k, ps, ho, h1, h2⟩ := hf n hn
    refine ⟨n, hn, _, { elements := [(n, (f n).1)], clocks := (f n).2 }, ho, by
      simp [elemConfig, bind, Except.bind, h1, h2, pure, Except.pure], ?_⟩
    refine Dict.get?_of_mem ?_ hm
    rw [evalClocks_keys h2]
    have : (k.clocks.map fun e => n ++ e.1) = (k.clocks.map Prod.fst).map (fun x => n ++ x) := by
      rw [List.map_map]; rfl
    rw [this]
    apply List.Nodup.map _ (clocks_nodup k)
    intro a b hab
    have := congrArg String.toList hab
    simp only [String.toList_append] at this
    exact String.toList_inj.mp (List.append_cancel_left this)
  · intro n hn
    obtain ⟨i, hi, hc⟩ := hgE n hn
    exact ⟨i, _, hi, hc, by rw [hE, get?_map_mem _ hn]; simp [Dict.get?_cons]⟩

theorem valueOf_ok {ps : Params} {s n : String} {v : Val} (h : Dict.get? ps (s, n) = some v) :
    valueOf ps s n = .ok v := by
  unfold valueOf; rw [h]

theorem czKwargs_ok {k : EKind} {p c : String} {ps : Params} (h : WF (k.pars p c) ps) (port : Val) (suffix : String) :
    ∃ kw, czKwargs port ps p c suffix = .ok kw := by
  have any : ∀ x, x ∈ czPars (1/2) (some 1000000000000) p c → ((k.pars p c).any fun q => q.key == x.key) = true := by
    intro x hx
    rw [List.any_eq_true]
    cases k with
    | square => exact ⟨x, hx, by simp⟩
    | spin =>
      simp only [czPars, List.mem_cons, List.not_mem_nil, or_false] at hx
      simp only [EKind.pars, czPars, List.mem_append, List.mem_cons, List.not_mem_nil, or_false]
      rcases hx with rfl | rfl | rfl | rfl
      · exact ⟨_, .inl (.inl rfl), by simp [Par.key]⟩
      · exact ⟨_, .inl (.inr (.inl rfl)), by simp [Par.key]⟩
      · exact ⟨_, .inl (.inr (.inr (.inl rfl))), by simp [Par.key]⟩
      · exact ⟨_, .inl (.inr (.inr (.inr rfl))), by simp [Par.key]⟩
  obtain ⟨v1, h1⟩ := h.get (any _ (List.mem_cons_self ..))
  obtain ⟨v2, h2⟩ := h.get (any _ (List.mem_cons_of_mem _ (List.mem_cons_self ..)))
  obtain ⟨v3, h3⟩ := h.get (any _ (List.mem_cons_of_mem _ (List.mem_cons_of_mem _ (List.mem_cons_self ..))))
  obtain ⟨v4, h4⟩ := h.get (any _ (List.mem_cons_of_mem _ (List.mem_cons_of_mem _ (List.mem_cons_of_mem _ (List.mem_cons_self ..)))))
  simp only [Par.key] at h1 h2 h3 h4
  apply Exists.intro
  simp only [czKwargs, valueOf_ok h1, valueOf_ok h2, valueOf_ok h3, valueOf_ok h4, bind, Except.bind, pure, Except.pure]
  rfl

theorem flux_only {k : Kind} (h : (k.pars.any fun p => p.key == ("ports", "flux")) = true) : k = .transmon := by
  revert h
  cases k
  · intro _; rfl
  all_goals (intro h; exact absurd h (by decide +kernel))

theorem findElement_iff {s : St} (h : Inv s) {n : String} {k : Kind} {ps : Params} :
    findElement s.reg n = .ok (k, ps) ↔ Open s n (.elem k n ps) := by
  unfold findElement Open
  cases hg : Dict.get? s.reg n with
  | none => simp
  | some i =>
    have := (h.name n i (Dict.mem_of_get? hg)).1
    cases i with
    | elem k' n' ps' =>
      simp only [Instr.name] at this
      subst this
      simp
    | edge => simp
    | other => simp

/-- When an edge generates its configuration. -/
theorem edgeConfig_iff {s : St} (h : Inv s) {n : String} {i : Instr} (hi : Open s n i) :
    (∃ c, edgeConfig s.reg i = .ok c) ↔ ∃ k p c ps, i = .edge k p c ps ∧ EndsOpen s k p c := by
  constructor
  · rintro ⟨es, he⟩
    obtain ⟨⟨k, p, c, ps, rfl⟩, _⟩ := edgeConfig_single he
    refine ⟨k, p, c, ps, rfl, ?_⟩
    cases k with
    | square =>
      simp only [edgeConfig, bind, Except.bind] at he
      cases h1 : findElement s.reg p with
      | error e => rw [h1] at he; cases he
      | ok x =>
        rw [h1] at he; obtain ⟨kp, pps⟩ := x; simp only at he
        cases h2 : valueOf pps "ports" "flux" with
        | error e => rw [h2] at he; cases he
        | ok port =>
          rw [h2] at he; simp only at he
          cases h3 : findElement s.reg c with
          | error e => rw [h3] at he; cases he
          | ok y =>
            obtain ⟨kc, cps⟩ := y
            have o1 := (findElement_iff h).mp h1
            have o3 := (findElement_iff h).mp h3
            have hw : WF kp.pars pps := (h.name p _ (Dict.mem_of_get? o1)).2.wf
            have : kp = .transmon := by
              apply flux_only
              unfold valueOf at h2
              split at h2
              · rename_i v hv
                have hm : ("ports", "flux") ∈ Dict.keys pps :=
                  (Dict.get?_isSome_iff _ _).mp (by rw [hv]; rfl)
                rw [hw.keys, List.mem_map] at hm
                obtain ⟨q, hq, hk⟩ := hm
                exact List.any_eq_true.mpr ⟨q, hq, by simp [hk]⟩
              · cases h2
            subst this
            exact ⟨⟨_, o1⟩, _, _, o3⟩
    | spin =>
      simp only [edgeConfig, bind, Except.bind] at he
      cases h2 : valueOf ps "ports" "gate" with
      | error e => rw [h2] at he; cases he
      | ok port =>
        rw [h2] at he; simp only at he
        cases h1 : findElement s.reg p with
        | error e => rw [h1] at he; cases he
        | ok x =>
          rw [h1] at he; obtain ⟨kp, pps⟩ := x; simp only at he
          cases h3 : findElement s.reg c with
          | error e => rw [h3] at he; cases he
          | ok y =>
            obtain ⟨kc, cps⟩ := y
            exact ⟨⟨_, _, (findElement_iff h).mp h1⟩, _, _, (findElement_iff h).mp h3⟩
  · rintro ⟨k, p, c, ps, rfl, hends⟩
    have hw : WF (k.pars p c) ps := (h.name n _ (Dict.mem_of_get? hi)).2.wf
    cases k with
    | square =>
      obtain ⟨⟨pps, o1⟩, kc, cps, o3⟩ := hends
      have hwp : WF Kind.transmon.pars pps := (h.name p _ (Dict.mem_of_get? o1)).2.wf
      obtain ⟨port, hp⟩ := hwp.get (k := ("ports", "flux")) (by decide +kernel)
      obtain ⟨kw, hkw⟩ := czKwargs_ok hw port ".01"
      apply Exists.intro
      simp only [edgeConfig, (findElement_iff h).mpr o1, (findElement_iff h).mpr o3, valueOf_ok hp, hkw,
        bind, Except.bind, pure, Except.pure]
      rfl
    | spin =>
      obtain ⟨⟨kp, pps, o1⟩, kc, cps, o3⟩ := hends
      obtain ⟨port, hp⟩ := hw.get (k := ("ports", "gate")) (by simp [EKind.pars, Par.key])
      obtain ⟨kw, hkw⟩ := czKwargs_ok hw port ".f_larmor"
      apply Exists.intro
      simp only [edgeConfig, (findElement_iff h).mpr o1, (findElement_iff h).mpr o3, valueOf_ok hp, hkw,
        bind, Except.bind, pure, Except.pure]
      rfl

/-- The configuration is generated exactly if the instruments of the device, and the ends of its edges, are not
closed. -/
theorem generated_iff (d : String) (cs : List Cmd) :
    (∃ cfg, generate (run (fresh d) cs) = .ok cfg) ↔
      (∀ n ∈ (run (fresh d) cs).dev.elements, ∃ k ps, Open (run (fresh d) cs) n (.elem k n ps)) ∧
      ∀ n ∈ (run (fresh d) cs).dev.edges, ∃ k p c ps, Open (run (fresh d) cs) n (.edge k p c ps) ∧
        EndsOpen (run (fresh d) cs) k p c := by
  have h := inv d cs
  revert h
  generalize run (fresh d) cs = s
  intro h
  have hreg : ∀ n i, Dict.get? s.reg n = some i → i.name = n ∧ i.Fine := fun n i hi => h.name n i (Dict.mem_of_get? hi)
  constructor
  · rintro ⟨cfg, hg⟩
    obtain ⟨f, g, hf, hgE, _⟩ := generate_shape h hg
    constructor
    · intro n hn
      obtain ⟨k, ps, ho, _⟩ := hf n hn
      exact ⟨k, ps, ho⟩
    · intro n hn
      obtain ⟨i, hi, hc⟩ := hgE n hn
      obtain ⟨k, p, c, ps, rfl, he⟩ := (edgeConfig_iff h hi).mp ⟨_, hc⟩
      exact ⟨k, p, c, ps, hi, he⟩
  · rintro ⟨h1, h2⟩
    obtain ⟨f, _, hf2⟩ := genElements_ok (members := s.dev.elements) (cl := []) (els := []) hreg h.elements
      (fun n hn => hn) (by simp [Dict.keys]) (by simp [Dict.keys]) h1
    obtain ⟨g, _, hg2⟩ := genEdges_ok (members := s.dev.edges) (es := []) hreg h.edges
      (fun n hn => hn) (by simp [Dict.keys]) (by
        intro n hn
        obtain ⟨k, p, c, ps, ho, he⟩ := h2 n hn
        obtain ⟨x, hx⟩ := (edgeConfig_iff h ho).mpr ⟨k, p, c, ps, rfl, he⟩
        exact ⟨_, x, ho, hx⟩)
    apply Exists.intro
    simp only [generate, hf2, hg2, bind, Except.bind, pure, Except.pure]
    rfl

end Verif.Device
