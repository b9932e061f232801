/-
C43: gates become what the device configuration says.
-/
import Verif.Circuit.Lemmas3

set_option linter.unusedSimpArgs false
set_option linter.unusedVariables false

namespace Verif.Circuit

open Verif

variable {P U C : Type}

/-! ### The compiler implements the configuration -/

/-- C43: what the compiler returns is what the configuration says. -/
theorem compiled_implements (cfg : Cfg P U C) (port : PortOf) (n : Nat) (op out : Op P U C)
    (h : compile cfg port n [] op = .ok out) : Impl cfg port (fun _ => none) op out :=
  compile_impl cfg port n [] op out h

/-- C43: the compiler succeeds exactly if the configuration says what to do (given enough recursion depth), and
the depth does not matter for the result. -/
theorem compiles_iff (cfg : Cfg P U C) (port : PortOf) (op : Op P U C) :
    ((∃ n out, compile cfg port n [] op = .ok out) ↔ ∃ out, Impl cfg port (fun _ => none) op out) ∧
    ∀ n m out out', compile cfg port n [] op = .ok out → compile cfg port m [] op = .ok out' → out = out' := by
  refine ⟨⟨?_, ?_⟩, ?_⟩
  · rintro ⟨n, out, h⟩
    exact ⟨out, compiled_implements cfg port n op out h⟩
  · rintro ⟨out, h⟩
    exact impl_compile h [] rfl
  · intro n m out out' h h'
    have h1 := compile_mono cfg port n [] op out h (max n m) (le_max_left _ _)
    have h2 := compile_mono cfg port m [] op out' h' (max n m) (le_max_right _ _)
    rw [h1] at h2
    exact Except.ok.inj h2

/-! ### Device level -/

/-- Every gate has device elements. -/
inductive Targeted : Op P U C → Prop where
  | leaf {g p a} : (p = [] → a = [] → ∀ g', g = some g' → g'.elements ≠ []) → Targeted (.leaf g p a)
  | asm {clock c} : Targeted (.asm clock c)
  | sched {d items} : (∀ i ∈ items, Targeted i.1) → Targeted (.sched d items)
  | ctrl {c body} : Targeted body → Targeted (.ctrl c body)
  | comp {c body} : Targeted body → Targeted (.comp c body)

/-- The factories of a configuration give gates with elements only. -/
def TargetedCfg (cfg : Cfg P U C) : Prop :=
  ∀ o : OpCfg P U C, ((∃ el ty, OnElement cfg el ty o) ∨ ∃ g a b, OnEdge cfg g a b o) →
    ∀ f args d, o.factory = some f → f args = .ok d → Targeted d

theorem deviceLevel_dropDelay {op : Op P U C} (h : DeviceLevel op) : DeviceLevel (dropDelay op) := by
  cases h with
  | sched h => exact .sched h
  | leaf h => exact .leaf h
  | asm => exact .asm
  | ctrl h => exact .ctrl h
  | comp h => exact .comp h

theorem single_cfg {cfg : Cfg P U C} {g : Gate} {ov : Ov} {d : Op P U C} (h : Single cfg g ov d) :
    ∃ o f args, ((∃ el ty, OnElement cfg el ty o) ∨ ∃ g a b, OnEdge cfg g a b o) ∧ o.factory = some f ∧ f args = .ok d := by
  obtain ⟨o, f, args, h1, h2, h3, h4⟩ := h
  refine ⟨o, f, args, ?_, h1, h3⟩
  rcases h4 with ⟨el, -, h⟩ | ⟨a, b, -, -, h⟩
  · exact Or.inl ⟨el, _, h⟩
  · exact Or.inr ⟨g, a, b, h⟩

theorem part_cfg {cfg : Cfg P U C} {g : Gate} {ov : Ov} {i : Nat} {el : String} {d : Op P U C}
    (h : Part cfg g ov i el d) :
    ∃ o f args, ((∃ el ty, OnElement cfg el ty o) ∨ ∃ g a b, OnEdge cfg g a b o) ∧ o.factory = some f ∧ f args = .ok d := by
  obtain ⟨o, f, args, h1, h2, h3, h4⟩ := h
  exact ⟨o, f, args, Or.inl ⟨el, _, h1⟩, h2, h4⟩

theorem parts_pulses {cfg : Cfg P U C} (hc : Productive cfg) {ds : List (Op P U C)}
    (hp : ∀ d ∈ ds, ∃ o f args, ((∃ el ty, OnElement cfg el ty o) ∨ ∃ g a b, OnEdge cfg g a b o) ∧
      o.factory = some f ∧ f args = .ok d) (hex : ∃ d ∈ ds, ¬ IsSched d) :
    ¬ (partPulses ds = [] ∧ partAcqs ds = []) := by
  obtain ⟨d, hd, hns⟩ := hex
  obtain ⟨o, f, args, h1, h2, h3⟩ := hp d hd
  rcases hc o h1 f args d h2 h3 with h | ⟨g, p, a, rfl, hpa⟩
  · exact absurd h hns
  · rintro ⟨e1, e2⟩
    simp only [partPulses, partAcqs, List.flatMap_eq_nil_iff, List.mem_filter, and_imp] at e1 e2
    exact hpa ⟨e1 _ hd (by simpa using hns), e2 _ hd (by simpa using hns)⟩

/-- C43: after compilation every operation has pulses or acquisitions, if the factories of the configuration
make them. -/
theorem compiled_device_level (cfg : Cfg P U C) (port : PortOf) (hc : Productive cfg) (ht : TargetedCfg cfg)
    (n : Nat) (op out : Op P U C) (hop : Targeted op) (h : compile cfg port n [] op = .ok out) : DeviceLevel out := by
  replace h := compiled_implements cfg port n op out h
  generalize (fun _ => none : Ov) = ov at h
  induction h with
  | @sched ov d items items' hl htc hitems ih =>
    cases hop with
    | sched hop =>
      refine .sched ?_
      intro i hi
      obtain ⟨k, hk, rfl⟩ := List.getElem_of_mem hi
      exact ih k (by omega) hk (hop _ (List.getElem_mem (by omega)))
  | ctrl _ ih => cases hop with | ctrl hop => exact .ctrl (ih hop)
  | compGate _ _ ih => cases hop with | comp hop => exact .comp (ih hop)
  | compDevice _ ih => cases hop with | comp hop => exact .comp (ih hop)
  | asm => exact .asm
  | device h => exact .leaf h
  | @pulses ov g d hs hd =>
    obtain ⟨o, f, args, h1, h2, h3⟩ := single_cfg hs
    rcases hc o h1 f args d h2 h3 with h | ⟨g', p, a, rfl, hpa⟩
    · exact absurd h hd
    · exact .leaf hpa
  | @expand ov g d out hs hd _ ih =>
    obtain ⟨o, f, args, h1, h2, h3⟩ := single_cfg hs
    exact ih (ht o h1 f args d h2 h3)
  | @muxPulses ov g ds hm hl hp hns =>
    cases hop with
    | leaf hop =>
      have hne := hop rfl rfl g rfl
      refine .leaf (parts_pulses hc ?_ ?_)
      · intro d hd
        obtain ⟨k, hk, rfl⟩ := List.getElem_of_mem hd
        exact part_cfg (hp k (by omega) hk)
      · cases ds with
        | nil => exact absurd (List.length_eq_zero_iff.mp hl.symm) hne
        | cons d ds => exact ⟨d, by simp, hns d (by simp)⟩
  | @muxExpand ov g ds outs out hm hl hp hex hlo hi hat ih =>
    have hcfg : ∀ d ∈ ds, ∃ o f args, ((∃ el ty, OnElement cfg el ty o) ∨ ∃ g a b, OnEdge cfg g a b o) ∧
        o.factory = some f ∧ f args = .ok d := by
      intro d hd
      obtain ⟨k, hk, rfl⟩ := List.getElem_of_mem hd
      exact part_cfg (hp k (by omega) hk)
    have hall : ∀ x ∈ (if ∃ d ∈ ds, ¬ IsSched d then [(.leaf (some g) (partPulses ds) (partAcqs ds) : Op P U C)]
        else []) ++ outs, DeviceLevel x := by
      intro x hx
      rw [List.mem_append] at hx
      rcases hx with hx | hx
      · by_cases hsome : ∃ d ∈ ds, ¬ IsSched d
        · rw [if_pos hsome] at hx
          simp only [List.mem_singleton] at hx
          subst hx
          exact .leaf (parts_pulses hc hcfg hsome)
        · rw [if_neg hsome] at hx; cases hx
      · obtain ⟨k, hk, rfl⟩ := List.getElem_of_mem hx
        refine ih k (by omega) hk ?_
        have hmem : (ds.filter (fun d => IsSched d))[k]'(by omega) ∈ ds := (List.mem_filter.mp (List.getElem_mem _)).1
        obtain ⟨o, f, args, h1, h2, h3⟩ := hcfg _ hmem
        exact ht o h1 f args _ h2 h3
    obtain ⟨d, items, rfl, hlen, hfst, -⟩ := hat.ex
    refine .sched ?_
    intro i hi
    obtain ⟨k, hk, rfl⟩ := List.getElem_of_mem hi
    have := hfst k
    rw [List.getElem?_eq_getElem hk, List.getElem?_eq_getElem (by omega)] at this
    simp only [Option.map_some, Option.some.injEq] at this
    rw [this]
    exact deviceLevel_dropDelay (hall _ (List.getElem_mem _))

/-! ### Compiling twice -/

theorem deviceLevel_impl_self {op : Op P U C} (h : DeviceLevel op) (cfg : Cfg P U C) (port : PortOf) :
    ∀ kw, ∃ n, compile cfg port n kw op = .ok op := by
  induction h with
  | leaf h =>
    intro kw
    refine ⟨1, ?_⟩
    simp only [compile]
    rw [if_neg (by simpa using h)]
  | asm => intro kw; exact ⟨1, rfl⟩
  | @sched d items h ih =>
    intro kw
    have : ∃ n, ∀ x ∈ items, compile cfg port n (merge (ownOverrides (.sched d items : Op P U C)) kw) x.1 = .ok x.1 := by
      generalize merge (ownOverrides (.sched d items : Op P U C)) kw = kw'
      induction items with
      | nil => exact ⟨0, by simp⟩
      | cons x xs ih2 =>
        obtain ⟨a, ha⟩ := ih2 (fun i hi => h i (by simp [hi])) (fun i hi => ih i (by simp [hi]))
        obtain ⟨b, hb⟩ := ih x (by simp) kw'
        refine ⟨max a b, fun y hy => ?_⟩
        rcases List.mem_cons.mp hy with rfl | hy
        · exact compile_mono _ _ _ _ _ _ hb _ (le_max_right _ _)
        · exact compile_mono _ _ _ _ _ _ (ha y hy) _ (le_max_left _ _)
    obtain ⟨n, hn⟩ := this
    refine ⟨n + 1, ?_⟩
    simp only [compile]
    refine bind_ok.mpr ⟨items, ?_, rfl⟩
    rw [mapM_ok, List.forall₂_same]
    intro x hx
    exact bind_ok.mpr ⟨x.1, hn x hx, rfl⟩
  | @ctrl c body h ih =>
    intro kw
    obtain ⟨n, hn⟩ := ih (merge (ownOverrides (.ctrl c body : Op P U C)) kw)
    exact ⟨n + 1, by simp only [compile]; exact bind_ok.mpr ⟨_, hn, rfl⟩⟩
  | @comp amps grid rate body h ih =>
    intro kw
    obtain ⟨n, hn⟩ := ih (merge (ownOverrides (.comp (.device amps grid rate) body : Op P U C)) kw)
    exact ⟨n + 1, by simp only [compile]; exact bind_ok.mpr ⟨_, rfl, bind_ok.mpr ⟨_, hn, rfl⟩⟩⟩

/-- C43: a device-level operation stays as it is, whatever the configuration; so compiling twice is compiling once. -/
theorem device_level_unchanged (cfg : Cfg P U C) (port : PortOf) (op : Op P U C) (h : DeviceLevel op) :
    (∃ n, compile cfg port n [] op = .ok op) ∧ ∀ n out, compile cfg port n [] op = .ok out → out = op := by
  obtain ⟨n, hn⟩ := deviceLevel_impl_self h cfg port []
  exact ⟨⟨n, hn⟩, fun m out hm => (compiles_iff cfg port op).2 m n out op hm hn⟩

/-! ### Overrides -/

/-- C43: overrides of an enclosing schedule win over those of the gate, which win over what the gate itself and the
configuration say; an override applies only to a parameter that exists. -/
theorem override_order (cfg : Cfg P U C) (port : PortOf) (n : Nat) (d : SData) (g : Gate) (tc : Tc U) (out : Op P U C)
    (el : String) (o : OpCfg P U C) (f : (String → Option V) → Except Err (Op P U C))
    (he : g.elements = [el]) (ho : OnElement cfg el g.type o) (hf : o.factory = some f)
    (h : compile cfg port n [] (.sched d [(.leaf (some g) [] [], tc)]) = .ok out) :
    ∃ args r, f args = .ok r ∧
      (∀ k v, Dict.get? d.overrides k = some v → args k = some v ∨ args k = none) ∧
      (∀ k v, Dict.get? d.overrides k = none → Dict.get? g.overrides k = some v → args k = some v ∨ args k = none) ∧
      (∀ k, Dict.get? d.overrides k = none → Dict.get? g.overrides k = none → k ∈ o.gateKeys.getD [] →
        args k = Dict.get? g.info k) ∧
      (∀ k, Dict.get? d.overrides k = none → Dict.get? g.overrides k = none → k ∉ o.gateKeys.getD [] →
        k ≠ "next_operation_delay" → args k = Dict.get? o.kwargs k) ∧
      (∀ k, (k ∈ o.gateKeys.getD [] ∨ (Dict.get? o.kwargs k).isSome) → (args k).isSome) ∧
      (∀ k, k ∉ o.gateKeys.getD [] → Dict.get? o.kwargs k = none → k ≠ "next_operation_delay" → args k = none) := by
  have h := compiled_implements cfg port n _ out h
  cases h with
  | sched hl htc hi =>
    have h0 := hi 0 (by simp) (by simp at hl; omega)
    simp only [List.getElem_cons_zero] at h0
    -- the override function seen by the gate
    have hov : ∀ k, Ov.over (Ov.over (fun _ => none) (own (.sched d [(.leaf (some g) [] [], tc)] : Op P U C)))
        (own (.leaf (some g) [] [] : Op P U C)) k = (Dict.get? d.overrides k).or (Dict.get? g.overrides k) := by
      intro k; simp [Ov.over, own, ownOverrides]
    have key : ∀ r, Single cfg g (Ov.over (Ov.over (fun _ => none) (own (.sched d [(.leaf (some g) [] [], tc)] : Op P U C)))
        (own (.leaf (some g) [] [] : Op P U C))) r → ∃ args, f args = .ok r ∧
        ArgsSingle g o (fun k => (Dict.get? d.overrides k).or (Dict.get? g.overrides k)) args := by
      rintro r ⟨o', f', args, h1, h2, h3, h4⟩
      rcases h4 with ⟨el', he', ho'⟩ | ⟨a, b, he', -⟩
      · rw [he] at he'
        simp only [List.cons.injEq, and_true] at he'
        subst he'
        obtain ⟨ops, p1, p2⟩ := ho
        obtain ⟨ops', q1, q2⟩ := ho'
        rw [p1] at q1; cases q1
        rw [p2] at q2; cases q2
        rw [hf] at h1; cases h1
        exact ⟨args, h3, by rw [← funext hov]; exact h2⟩
      · rw [he] at he'; simp at he'
    have main : ∃ r, Single cfg g (Ov.over (Ov.over (fun _ => none) (own (.sched d [(.leaf (some g) [] [], tc)] : Op P U C)))
        (own (.leaf (some g) [] [] : Op P U C))) r := by
      have aux : ∀ ov x, Impl cfg port ov (.leaf (some g) [] []) x →
          ∃ r, Single cfg g (Ov.over ov (own (.leaf (some g) [] [] : Op P U C))) r := by
        intro ov x h0
        cases h0 with
        | device hpa => simp at hpa
        | pulses hs _ => exact ⟨_, hs⟩
        | expand hs _ _ => exact ⟨_, hs⟩
        | muxPulses hm => exact absurd (by simp [he]) hm.1
        | muxExpand hm => exact absurd (by simp [he]) hm.1
      exact aux _ _ h0
    obtain ⟨r, hr⟩ := main
    obtain ⟨args, hfa, ha⟩ := key r hr
    refine ⟨args, r, hfa, ?_, ?_, ?_, ?_, ?_, ?_⟩
    · intro k v hk
      have := ha.arg k
      simp only [hk, Option.some_or] at this
      by_cases hb : (if k ∈ o.gateKeys.getD [] then Dict.get? g.info k
        else if g.measure = true ∧ g.applyDelay = false ∧ k = "next_operation_delay" then
          match Dict.get? o.kwargs "acq_delay" with
          | some (.num x) => some (.num (-x))
          | _ => none
        else Dict.get? o.kwargs k).isSome
      · left; rw [this]; exact if_pos hb
      · right; rw [this]; exact if_neg hb
    · intro k v hk hk2
      have := ha.arg k
      simp only [hk, hk2, Option.none_or, Option.some_or] at this
      by_cases hb : (if k ∈ o.gateKeys.getD [] then Dict.get? g.info k
        else if g.measure = true ∧ g.applyDelay = false ∧ k = "next_operation_delay" then
          match Dict.get? o.kwargs "acq_delay" with
          | some (.num x) => some (.num (-x))
          | _ => none
        else Dict.get? o.kwargs k).isSome
      · left; rw [this]; exact if_pos hb
      · right; rw [this]; exact if_neg hb
    · intro k hk hk2 hmem
      have := ha.arg k
      simp only [hk, hk2, Option.none_or, if_pos hmem] at this
      rw [this, if_pos (ha.has k hmem)]
    · intro k hk hk2 hmem hne
      have := ha.arg k
      simp only [hk, hk2, Option.none_or, if_neg hmem, hne, and_false, if_false] at this
      rw [this]
      cases hx : Dict.get? o.kwargs k <;> simp
    · intro k hk
      have := ha.arg k
      by_cases hmem : k ∈ o.gateKeys.getD []
      · simp only [if_pos hmem, if_pos (ha.has k hmem)] at this
        rw [this, Option.isSome_or]
        simp [ha.has k hmem]
      · have hsome := hk.resolve_left hmem
        by_cases hc : g.measure = true ∧ g.applyDelay = false ∧ k = "next_operation_delay"
        · obtain ⟨x, hx⟩ := ha.delay hc.1 hc.2.1
          rw [IsNum] at hx
          simp only [if_neg hmem, if_pos hc, hx] at this
          rw [this]
          simp
        · simp only [if_neg hmem, if_neg hc, if_pos hsome] at this
          rw [this, Option.isSome_or]; simp [hsome]
    · intro k hmem hkn hne
      have := ha.arg k
      simp only [if_neg hmem, hne, and_false, if_false, hkn] at this
      simpa using this

/-! ### Errors -/

/-- C43: a gate on one element that is not configured, or whose operation is not configured, is an error. -/
theorem unknown_element_error (cfg : Cfg P U C) (port : PortOf) (n : Nat) (ov : Kw) (g : Gate) (el : String)
    (he : g.elements = [el]) (h : ∀ o, ¬ OnElement cfg el g.type o) :
    compile cfg port (n + 1) ov (.leaf (some g) [] []) = .error .configKeyError := by
  have hx : elementCfg cfg el g.type = .error .configKeyError := by
    unfold elementCfg
    unfold OnElement at h
    cases h1 : Dict.get? cfg.elements el with
    | none => rfl
    | some ops =>
      cases h2 : Dict.get? ops g.type with
      | none => simp [h2]
      | some o => exact absurd ⟨ops, h1, h2⟩ (h o)
  simp only [compile, List.isEmpty_nil, Bool.and_self, if_true, compileGate, he, hx]
  rfl

/-- C43: a gate on two elements without an edge that can be used, or whose edge does not have the operation, is an
error. -/
theorem unknown_edge_error (cfg : Cfg P U C) (port : PortOf) (n : Nat) (ov : Kw) (g : Gate) (a b : String)
    (ops : List (String × OpCfg P U C)) (he : g.elements = [a, b]) (hops : Dict.get? cfg.elements a = some ops)
    (hno : Dict.get? ops g.type = none) (h : ∀ o, ¬ OnEdge cfg g a b o) :
    compile cfg port (n + 1) ov (.leaf (some g) [] []) = .error .configKeyError := by
  have hx : edgeCfg cfg g a b = .error .configKeyError := by
    unfold edgeCfg findEdge
    unfold OnEdge at h
    cases hab : Dict.get? cfg.edges (a, b) with
    | some m =>
      cases h2 : Dict.get? m g.type with
      | none => simp [hab, h2, bind, Except.bind]
      | some o => exact absurd (Or.inl ⟨m, hab, h2⟩) (h o)
    | none =>
      by_cases hs : g.symmetric = true
      · by_cases hab' : a = b
        · subst hab'
          simp [hab, hs, bind, Except.bind]
        · have hd : [(a, b), (b, a)].dedup = [(a, b), (b, a)] := by
            rw [List.dedup_eq_self]; simp [hab']
          cases hba : Dict.get? cfg.edges (b, a) with
          | none => simp [hab, hs, hd, hba, bind, Except.bind]
          | some m =>
            cases h2 : Dict.get? m g.type with
            | none => simp [hab, hs, hd, hba, h2, bind, Except.bind]
            | some o => exact absurd (Or.inr ⟨hs, hab, m, hba, h2⟩) (h o)
      · simp [hab, hs, bind, Except.bind]
  simp only [compile, List.isEmpty_nil, Bool.and_self, if_true, compileGate, he, hops, hno, Option.isNone_none, hx]
  rfl

/-- C43 (finding): a gate on two elements whose first element is not configured is a plain `KeyError`, not the
documented error. -/
theorem unknown_first_element_keyError (cfg : Cfg P U C) (port : PortOf) (n : Nat) (ov : Kw) (g : Gate) (a b : String)
    (he : g.elements = [a, b]) (h : Dict.get? cfg.elements a = none) :
    compile cfg port (n + 1) ov (.leaf (some g) [] []) = .error .keyError := by
  simp only [compile, List.isEmpty_nil, Bool.and_self, if_true, compileGate, he, h]

/-- C43 (finding): a gate without elements stays a gate. -/
theorem elementless_gate_stays (cfg : Cfg P U C) (port : PortOf) (n : Nat) (ov : Kw) (g : Gate) (he : g.elements = []) :
    compile cfg port (n + 1) ov (.leaf (some g) [] []) = .ok (.leaf (some g) [] []) := by
  simp only [compile, List.isEmpty_nil, Bool.and_self, if_true, compileGate, he, compileMux, muxLoop]
  rfl

/-- C43 (finding): for a measurement without acquisition delay whose `acq_delay` is overridden, the next operation
is moved by the configured delay, not by the overridden one. -/
theorem delay_ignores_override (g : Gate) (o : OpCfg P U C) (ov : Ov) (args : String → Option V) (x : Rat) (v : V)
    (hm : g.measure = true) (hd : g.applyDelay = false)
    (hk : "next_operation_delay" ∉ o.gateKeys.getD []) (hk' : "acq_delay" ∉ o.gateKeys.getD [])
    (hx : Dict.get? o.kwargs "acq_delay" = some (.num x)) (hov : ov "acq_delay" = some v)
    (hno : ov "next_operation_delay" = none) (h : ArgsSingle g o ov args) :
    args "acq_delay" = some v ∧ args "next_operation_delay" = some (.num (-x)) := by
  have h1 := h.arg "acq_delay"
  have h2 := h.arg "next_operation_delay"
  simp only [if_neg hk', hov, hx, Option.some_or] at h1
  simp only [if_neg hk, hm, hd, hx, hno, and_self, if_true, Option.none_or] at h2
  refine ⟨?_, by simpa using h2⟩
  rw [h1]
  simp

/-! ### Multiplexed gates -/

/-- When the operation after a multiplexed gate starts, if the parts take the times `durs`, all starting at 0, and the
gate has this delay: at the end of the longest part plus the delay (compilation.py:213-226). -/
def nextStart (durs : List Rat) (delay : Option Rat) : Rat := durs.foldl max 0 + delay.getD 0

/-- When the last integration window ends that a part opens: the part without its acquisition delay. -/
def windowEnd (dur delay : Rat) : Rat := dur + delay

/-- C43: if the parts of a multiplexed gate have the same delay, the next operation starts when the longest part, without
the delay, is over. -/
theorem mux_next_of_equal_delays (d : Rat) (durs : List Rat) (hn : durs ≠ []) (hpos : ∀ x ∈ durs, 0 ≤ x) :
    ∃ x ∈ durs, nextStart durs (minDelay (durs.map (fun _ => d))) = windowEnd x d ∧ ∀ y ∈ durs, y ≤ x := by
  have hmax : ∀ (l : List Rat) (z : Rat), (l.foldl max z = z ∨ l.foldl max z ∈ l) ∧ z ≤ l.foldl max z ∧
      ∀ y ∈ l, y ≤ l.foldl max z := by
    intro l
    induction l with
    | nil => intro z; simp
    | cons a l ih =>
      intro z
      obtain ⟨h1, h2, h3⟩ := ih (max z a)
      simp only [List.foldl_cons]
      refine ⟨?_, le_trans (le_max_left _ _) h2, ?_⟩
      · rcases h1 with h1 | h1
        · rw [h1]; rcases max_choice z a with h | h <;> simp [h]
        · right; simp [h1]
      · intro y hy
        rcases List.mem_cons.mp hy with rfl | hy
        · exact le_trans (le_max_right _ _) h2
        · exact h3 y hy
  obtain ⟨h1, h2, h3⟩ := hmax durs 0
  have hmin : minDelay (durs.map (fun _ => d)) = some d := by
    cases h : minDelay (durs.map (fun _ => d)) with
    | none =>
      rw [(minDelay_spec _).1] at h
      simp at h
      exact absurd h hn
    | some y =>
      have := ((minDelay_spec _).2 y h).1
      simp only [List.mem_map] at this
      obtain ⟨_, _, rfl⟩ := this
      rfl
  have hmem : durs.foldl max 0 ∈ durs := by
    rcases h1 with h1 | h1
    · obtain ⟨x, xs, rfl⟩ := List.exists_cons_of_ne_nil hn
      have hx0 := hpos x (by simp)
      have hx1 := h3 x (by simp)
      rw [h1] at hx1 ⊢
      have : x = 0 := le_antisymm hx1 hx0
      rw [this]; simp
    · exact h1
  exact ⟨_, hmem, by rw [nextStart, hmin]; rfl, h3⟩

/-- C43 (finding): with different delays the next operation may start before the longest integration window has
finished. Element 1 has no delay and measures for 2 µs; element 2 has a delay of 0.5 µs and measures for 1 µs. The
next operation starts at 1.5 µs. -/
theorem mux_next_before_window : nextStart [2, 3/2] (minDelay [-(1/2)]) < windowEnd 2 0 := by
  decide +kernel

end Verif.Circuit
