/-
C58: what preparing an analog module does, as a list of settings and calibrations.
-/
import Verif.Prepare.Trace
import Verif.Settings.OptionsWrites

set_option linter.unusedSimpArgs false
set_option linter.unusedVariables false

namespace Verif.Prepare

open Verif.Prepare.Spec
open Verif.Connect (Chan Mode Dir ModType)

variable {σ : Type} [DecidableEq σ]

/-- Kinds of parameters. -/
def kind : Param → Nat
  | .seq _ _ => 0
  | .io _ _ => 1
  | .glob _ => 2
  | .filt _ => 3
  | .scopeMode _ => 4
  | .scopeAvg _ => 4
  | .scopeSelect => 5

/-- All parameters are of one of the kinds. -/
def Kinds (K : List Nat) (ws : List (Param × Val σ)) : Prop := ∀ e ∈ ws, kind e.1 ∈ K

omit [DecidableEq σ] in
theorem last_kind {K : List Nat} {ws : List (Param × Val σ)} (h : Kinds K ws) {p : Param} (hp : kind p ∉ K) :
    last ws p = none := by
  rw [last_none]
  exact fun v hv => hp (h _ hv)

omit [DecidableEq σ] in
theorem kinds_append {K : List Nat} {a b : List (Param × Val σ)} (ha : Kinds K a) (hb : Kinds K b) :
    Kinds K (a ++ b) := by
  intro e he
  rcases List.mem_append.mp he with h | h
  · exact ha e h
  · exact hb e h

omit [DecidableEq σ] in
theorem kinds_flatMap {α : Type} {K : List Nat} {l : List α} {f : α → List (Param × Val σ)}
    (h : ∀ a ∈ l, Kinds K (f a)) : Kinds K (l.flatMap f) := by
  intro e he
  obtain ⟨a, ha, hf⟩ := List.mem_flatMap.mp he
  exact h a ha e hf

omit [DecidableEq σ] in
theorem kinds_seqWrites (t : ModType) (k : Nat) (s : Analog σ) : Kinds [0] (seqWrites t k s) := by
  intro e he
  obtain ⟨q, hq⟩ := seqWrites_seq (p := e.1) (v := e.2) he
  rw [hq]; simp [kind]

theorem kinds_mixWrites (cache : Param → Option (Val σ)) (e : Nat × Analog σ) : Kinds [0] (mixWrites cache e) := by
  intro x hx
  rcases mixWrites_mem (p := x.1) (v := x.2) hx with hq | hq <;> (rw [hq]; simp [kind])

omit [DecidableEq σ] in
theorem kinds_syncOff (t : ModType) : Kinds [0] (syncOff (σ := σ) t) := by
  intro e he
  simp only [syncOff, List.mem_map] at he
  obtain ⟨k, -, rfl⟩ := he
  simp [kind]

omit [DecidableEq σ] in
theorem kinds_global (t : ModType) (p : Program σ) : Kinds [2, 3] (globalWrites t p) := by
  intro e he
  unfold globalWrites at he
  split at he
  · simp at he
  · simp only [List.mem_append, List.mem_map] at he
    rcases he with ⟨x, -, rfl⟩ | ⟨x, -, rfl⟩ <;> simp [kind]

omit [DecidableEq σ] in
theorem kinds_scope (t : ModType) : Kinds [4] (scopeWrites (σ := σ) t) := by
  intro e he
  simp only [scopeWrites, List.mem_flatMap, List.mem_cons, List.not_mem_nil, or_false] at he
  obtain ⟨i, -, rfl | rfl⟩ := he <;> simp [kind]

omit [DecidableEq σ] in
theorem kinds_select (o : Option Nat) : Kinds [5] (opt (σ := σ) .scopeSelect .nat o) := by
  intro e he
  have := (mem_opt (q := e.1) (v := e.2)).mp he
  rw [this.1]; simp [kind]

omit [DecidableEq σ] in
theorem kinds_lo (t : ModType) (p : Program σ) : Kinds [2] (loW t p) := by
  intro e he
  unfold loW at he
  split at he
  · simp at he
  · simp only [loWrites, List.mem_flatMap] at he
    obtain ⟨x, -, hx⟩ := he
    have := (mem_opt (q := e.1) (v := e.2)).mp hx
    rw [this.1]; simp [kind]

omit [DecidableEq σ] in
/-- Settings of several sequencers: those of one of them. -/
theorem last_flatMap {f : Nat × Analog σ → List (Param × Val σ)}
    (hf : ∀ e p v, (p, v) ∈ f e → ∃ q, p = .seq e.1 q) : ∀ {seqs : List (Nat × Analog σ)},
    (seqs.map Prod.fst).Nodup →
    (∀ e ∈ seqs, ∀ q, last (seqs.flatMap f) (.seq e.1 q) = last (f e) (.seq e.1 q)) ∧
    (∀ k, k ∉ seqs.map Prod.fst → ∀ q, last (seqs.flatMap f) (.seq k q) = none)
  | [], _ => ⟨by simp, by simp [last]⟩
  | e :: seqs, hn => by
    simp only [List.map_cons, List.nodup_cons] at hn
    obtain ⟨h1, h2⟩ := last_flatMap hf hn.2
    have hne : ∀ k, k ≠ e.1 → ∀ q, last (f e) (.seq k q) = none := by
      intro k hk q
      rw [last_none]
      intro v hv
      obtain ⟨q', hq⟩ := hf e _ v hv
      rw [Param.seq.injEq] at hq
      exact hk hq.1
    refine ⟨fun x hx q => ?_, fun k hk q => ?_⟩
    · rw [List.flatMap_cons, last_append]
      rcases List.mem_cons.mp hx with rfl | hx
      · rw [h2 _ hn.1, Option.none_or]
      · rw [h1 x hx q, hne x.1 (fun h => hn.1 (h ▸ List.mem_map_of_mem hx)), Option.or_none]
    · simp only [List.map_cons, List.mem_cons, not_or] at hk
      rw [List.flatMap_cons, last_append, h2 k hk.2, hne k hk.1, Option.none_or]

omit [DecidableEq σ] in
theorem last_syncOff (t : ModType) (k : Nat) (q : SeqParam) :
    last (syncOff (σ := σ) t) (.seq k q) = if q = .sync ∧ k < numSeqs t then some (.bool false) else none := by
  by_cases h : q = .sync ∧ k < numSeqs t
  · rw [if_pos h]
    obtain ⟨rfl, hk⟩ := h
    refine last_eq ?_ ?_
    · simp [syncOff, hk]
    · intro w hw
      simp only [syncOff, List.mem_map, Prod.mk.injEq] at hw
      obtain ⟨_, -, -, rfl⟩ := hw; rfl
  · rw [if_neg h, last_none]
    intro v hv
    simp only [syncOff, List.mem_map, List.mem_range, Prod.mk.injEq, Param.seq.injEq] at hv
    obtain ⟨k', hk', ⟨rfl, rfl⟩, -⟩ := hv
    exact h ⟨rfl, hk'⟩

omit [DecidableEq σ] in
/-- The settings of the module contain no LO frequency. -/
theorem global_no_lo (t : ModType) (p : Program σ) {e : Nat × String} (he : e ∈ loParams t) :
    last (globalWrites t p) (.glob e.2) = none := by
  rw [last_none]
  intro v hv
  unfold globalWrites at hv
  split at hv
  · simp at hv
  · rename_i m f hs
    simp only [List.mem_append, List.mem_map, Prod.mk.injEq, Param.glob.injEq, reduceCtorEq, false_and,
      and_false, exists_false, or_false] at hv
    obtain ⟨⟨n, w⟩, hw, hn, -⟩ := hv
    subst hn
    cases t <;> simp only [loParams, List.mem_cons, List.not_mem_nil, or_false] at he
    · rcases he with rfl | rfl <;>
        simp [Settings.writes, Settings.mem_wr, Settings.getOpt, Dict.get?_nil] at hw
    · subst he
      simp [Settings.writes, Settings.mem_wr, Settings.getOpt, Dict.get?_nil] at hw
    · rcases he with rfl | rfl | rfl | rfl | rfl | rfl <;>
        simp [Settings.writes, Settings.mem_wr, Settings.getOpt, Dict.get?_nil] at hw

/-- Mixer corrections; the QRC has none. -/
def mixW (t : ModType) (cache : Param → Option (Val σ)) (e : Nat × Analog σ) : List (Param × Val σ) :=
  if t = .qrc then [] else mixWrites cache e
def mixC (t : ModType) (cache : Param → Option (Val σ)) (e : Nat × Analog σ) : List Cal :=
  if t = .qrc then [] else mixCals cache e

/-- What preparing does. -/
structure Result (t : ModType) (p : Program σ) (d d' : Dev σ) (ws : List (Param × Val σ)) (cs : List Cal) :
    Prop where
  step : Step d d' ws cs
  inSeq : ∀ e ∈ p.seqs, ∀ q, last ws (.seq e.1 q) =
    ((last (mixW t d.cache e) (.seq e.1 q)).or (last (seqWrites t e.1 e.2) (.seq e.1 q))).or
      (if q = .sync ∧ e.1 < numSeqs t then some (.bool false) else none)
  otherSeq : ∀ k, k ∉ p.seqs.map Prod.fst → ∀ q, last ws (.seq k q) =
    if q = .sync ∧ k < numSeqs t then some (.bool false) else none
  glob : ∀ n, last ws (.glob n) = (last (loW t p) (.glob n)).or (last (globalWrites t p) (.glob n))
  filt : ∀ f, last ws (.filt f) = last (globalWrites t p) (.filt f)
  scope : (t = .qrm ∨ t = .qrmRf ∨ t = .qrc) → ∃ o, scopeOf p = .ok o ∧
    last ws .scopeSelect = o.map .nat ∧
    ∀ x, kind x = 4 → last ws x = last (scopeWrites t) x
  noScope : (t = .qcm ∨ t = .qcmRf) → ∀ x, kind x = 4 ∨ kind x = 5 → last ws x = none
  io : ∀ c q, last ws (.io c q) = none
  cals : cs = p.seqs.flatMap (mixC t d.cache) ++ loCals d.cache t p

theorem mixW_mem {t : ModType} {cache : Param → Option (Val σ)} {e : Nat × Analog σ} {p : Param} {v : Val σ}
    (h : (p, v) ∈ mixW t cache e) : ∃ q, p = .seq e.1 q := by
  unfold mixW at h
  split at h
  · simp at h
  · rcases mixWrites_mem h with h | h <;> exact ⟨_, h⟩

omit [DecidableEq σ] in
theorem last_opt_select (o : Option Nat) : last (opt (σ := σ) .scopeSelect .nat o) .scopeSelect = o.map .nat := by
  cases o <;> simp [opt, last]

theorem result_qcm {run : Run σ} (hr : CalOk run) {force : Bool} {t : ModType} (ht : t = .qcm ∨ t = .qcmRf)
    {p : Program σ} {d : Dev σ} (hc : Coherent d) (hn : (p.seqs.map Prod.fst).Nodup) :
    (∀ d', prepareQcm force run t p d = .ok d' → ∃ ws cs, Result t p d d' ws cs) ∧
    ((∃ d', prepareQcm force run t p d = .ok d') ↔ Valid t p.seqs) := by
  have hq : t ≠ .qrc := by rcases ht with rfl | rfl <;> simp
  have h1 := step_all force (globalWrites t p ++ syncOff t) hc
  have hcache : ∀ e ∈ p.seqs, (setAll force (globalWrites t p ++ syncOff t) d).cache (.seq e.1 .ncoFreq) =
      d.cache (.seq e.1 .ncoFreq) := by
    intro e he
    rw [h1.seqCache _ _ (by simp), last_append, last_syncOff, last_kind (kinds_global t p) (by simp [kind])]
    simp
  obtain ⟨g1, g2⟩ := qcm_loop hr force t d.cache p.seqs
    ⟨setAll force (globalWrites t p ++ syncOff t) d, []⟩ h1.coherent hn hcache
  constructor
  · intro d' h
    unfold prepareQcm at h
    split at h
    · simp at h
    · rename_i x hx
      rw [Except.ok.injEq] at h
      subst h
      obtain ⟨s1, s2, s3⟩ := g1 x hx
      have s01 := h1.trans s1
      have hF : Kinds [0] (p.seqs.flatMap fun e => seqWrites t e.1 e.2 ++ mixWrites d.cache e) :=
        kinds_flatMap fun e _ => kinds_append (kinds_seqWrites t e.1 e.2) (kinds_mixWrites d.cache e)
      have hl := lo_trace hr force t p x d.cache s1.coherent hn s2 (by
        intro e he
        rw [s01.globCache e.2 (by
          intro c hcm o ho
          simp only [List.nil_append, List.mem_flatMap] at hcm
          obtain ⟨y, -, hy⟩ := hcm
          rw [mixCals_mem hy] at ho; cases ho)]
        rw [last_append, last_append, last_kind hF (by simp [kind]),
          last_kind (kinds_syncOff t) (by simp [kind]), global_no_lo t p he]
        rfl)
      have hs := s01.trans hl
      obtain ⟨f1, f2⟩ := last_flatMap (f := fun e => seqWrites t e.1 e.2 ++ mixWrites d.cache e)
        (by
          intro e p v hv
          rcases List.mem_append.mp hv with hv | hv
          · exact seqWrites_seq hv
          · rcases mixWrites_mem hv with h | h <;> exact ⟨_, h⟩) hn
      refine ⟨_, _, hs, ?_, ?_, ?_, ?_, ?_, ?_, ?_, ?_⟩
      · intro e he q
        rw [last_append, last_append, last_append, f1 e he q, last_kind (kinds_lo t p) (by simp [kind]),
          last_kind (kinds_global t p) (by simp [kind]), last_syncOff, last_append, mixW, if_neg hq]
        simp
      · intro k hk q
        rw [last_append, last_append, last_append, f2 k hk q, last_kind (kinds_lo t p) (by simp [kind]),
          last_kind (kinds_global t p) (by simp [kind]), last_syncOff]
        simp
      · intro n
        rw [last_append, last_append, last_append, last_kind hF (by simp [kind]),
          last_kind (kinds_syncOff t) (by simp [kind])]
        simp
      · intro f
        rw [last_append, last_append, last_append, last_kind hF (by simp [kind]),
          last_kind (kinds_syncOff t) (by simp [kind]), last_kind (kinds_lo t p) (by simp [kind])]
        simp
      · rintro (rfl | rfl | rfl) <;> simp at ht
      · intro _ x hx
        have hk : kind x ∉ [0] ∧ kind x ∉ [2] ∧ kind x ∉ [2, 3] := by rcases hx with h | h <;> simp [h]
        rw [last_append, last_append, last_append, last_kind hF hk.1,
          last_kind (kinds_syncOff t) hk.1, last_kind (kinds_lo t p) hk.2.1, last_kind (kinds_global t p) hk.2.2]
        simp
      · intro c q
        rw [last_append, last_append, last_append, last_kind hF (by simp [kind]),
          last_kind (kinds_syncOff t) (by simp [kind]), last_kind (kinds_lo t p) (by simp [kind]),
          last_kind (kinds_global t p) (by simp [kind])]
        simp
      · rw [List.nil_append]
        congr 1
        refine List.flatMap_congr fun e _ => ?_
        rw [mixC, if_neg hq]
  · rw [← g2]
    unfold prepareQcm
    constructor
    · rintro ⟨d', h⟩
      split at h
      · simp at h
      · exact ⟨_, by assumption⟩
    · rintro ⟨x, hx⟩
      rw [hx]; exact ⟨_, rfl⟩

theorem result_qrm {run : Run σ} (hr : CalOk run) {force : Bool} {t : ModType}
    (ht : t = .qrm ∨ t = .qrmRf ∨ t = .qrc)
    {p : Program σ} {d : Dev σ} (hc : Coherent d) (hn : (p.seqs.map Prod.fst).Nodup) :
    (∀ d', prepareQrm force run t p d = .ok d' → ∃ ws cs, Result t p d d' ws cs) ∧
    ((∃ d', prepareQrm force run t p d = .ok d') ↔ Valid t p.seqs ∧ ∃ o, scopeOf p = .ok o) := by
  have h1 := step_all force (syncOff (σ := σ) t) hc
  have hcache : ∀ e ∈ p.seqs, (setAll force (syncOff t) d).cache (.seq e.1 .ncoFreq) =
      d.cache (.seq e.1 .ncoFreq) := by
    intro e he
    rw [h1.seqCache _ _ (by simp), last_syncOff]
    simp
  obtain ⟨g1, g2⟩ := qrm_loop force t d.cache p.seqs ⟨setAll force (syncOff t) d, []⟩ h1.coherent hn hcache
  have hF1 : Kinds [0] (p.seqs.flatMap fun e => seqWrites t e.1 e.2) :=
    kinds_flatMap fun e _ => kinds_seqWrites t e.1 e.2
  have hF2 : Kinds [0] (p.seqs.flatMap (mixWrites d.cache)) :=
    kinds_flatMap fun e _ => kinds_mixWrites d.cache e
  obtain ⟨f1, f2⟩ := last_flatMap (f := fun e => seqWrites t e.1 e.2)
    (fun e p v hv => seqWrites_seq hv) hn
  obtain ⟨m1, m2⟩ := last_flatMap (f := mixWrites d.cache)
    (by
      intro e p v hv
      rcases mixWrites_mem hv with h | h <;> exact ⟨_, h⟩) hn
  have nq : ¬(t = .qcm ∨ t = .qcmRf) := by rcases ht with rfl | rfl | rfl <;> simp
  constructor
  · intro d' h
    unfold prepareQrm at h
    split at h
    · simp at h
    · rename_i x hx
      split at h
      · simp at h
      · rename_i o ho
        obtain ⟨s1, s2, s3⟩ := g1 x hx
        have s01 := h1.trans s1
        have s2' := step_all force (globalWrites t p ++ scopeWrites t) s1.coherent
        have s02 := s01.trans s2'
        simp only at h
        split at h
        · rename_i hqrc
          rw [Except.ok.injEq] at h
          subst h
          have hl := lo_trace hr force t p
            { x with dev := setAll force (globalWrites t p ++ scopeWrites t) x.dev } d.cache s2'.coherent hn s2 (by
              intro e he
              simp only
              rw [s02.globCache e.2 (by simp), last_append, last_append, last_append,
                last_kind (kinds_scope t) (by simp [kind]), last_kind hF1 (by simp [kind]),
                last_kind (kinds_syncOff t) (by simp [kind]), global_no_lo t p he]
              rfl)
          have s03 := s02.trans hl
          have hs := s03.trans (step_all force (opt .scopeSelect .nat o) hl.coherent)
          refine ⟨_, _, hs, ?_, ?_, ?_, ?_, ?_, ?_, ?_, ?_⟩
          · intro e he q
            simp only [last_append, last_kind (kinds_select o) (p := .seq e.1 q) (by simp [kind]),
              last_kind (kinds_lo t p) (p := .seq e.1 q) (by simp [kind]),
              last_kind (kinds_scope t) (p := .seq e.1 q) (by simp [kind]),
              last_kind (kinds_global t p) (p := .seq e.1 q) (by simp [kind]), f1 e he q, last_syncOff, mixW,
              if_pos hqrc, last, Option.none_or]
          · intro k hk q
            simp only [last_append, last_kind (kinds_select o) (p := .seq k q) (by simp [kind]),
              last_kind (kinds_lo t p) (p := .seq k q) (by simp [kind]),
              last_kind (kinds_scope t) (p := .seq k q) (by simp [kind]),
              last_kind (kinds_global t p) (p := .seq k q) (by simp [kind]), f2 k hk q, last_syncOff,
              Option.none_or]
          · intro n
            simp only [last_append, last_kind (kinds_select o) (p := .glob n) (by simp [kind]),
              last_kind (kinds_scope t) (p := .glob n) (by simp [kind]),
              last_kind hF1 (p := .glob n) (by simp [kind]),
              last_kind (kinds_syncOff t) (p := .glob n) (by simp [kind]), Option.none_or, Option.or_none]
          · intro n
            simp only [last_append, last_kind (kinds_select o) (p := .filt n) (by simp [kind]),
              last_kind (kinds_scope t) (p := .filt n) (by simp [kind]),
              last_kind (kinds_lo t p) (p := .filt n) (by simp [kind]),
              last_kind hF1 (p := .filt n) (by simp [kind]),
              last_kind (kinds_syncOff t) (p := .filt n) (by simp [kind]), Option.none_or, Option.or_none]
          · refine fun _ => ⟨o, ho, ?_, fun x hx => ?_⟩
            · simp only [last_append, last_opt_select,
                last_kind (kinds_scope t) (p := .scopeSelect) (by simp [kind]),
                last_kind (kinds_lo t p) (p := .scopeSelect) (by simp [kind]),
                last_kind (kinds_global t p) (p := .scopeSelect) (by simp [kind]),
                last_kind hF1 (p := .scopeSelect) (by simp [kind]),
                last_kind (kinds_syncOff t) (p := .scopeSelect) (by simp [kind]), Option.none_or, Option.or_none]
            · simp only [last_append, last_kind (kinds_select o) (p := x) (by simp [hx]),
                last_kind (kinds_lo t p) (p := x) (by simp [hx]),
                last_kind (kinds_global t p) (p := x) (by simp [hx]),
                last_kind hF1 (p := x) (by simp [hx]),
                last_kind (kinds_syncOff t) (p := x) (by simp [hx]), Option.none_or, Option.or_none]
          · exact fun h => absurd h nq
          · intro c q
            simp only [last_append, last_kind (kinds_select o) (p := .io c q) (by simp [kind]),
              last_kind (kinds_scope t) (p := .io c q) (by simp [kind]),
              last_kind (kinds_lo t p) (p := .io c q) (by simp [kind]),
              last_kind hF1 (p := .io c q) (by simp [kind]),
              last_kind (kinds_global t p) (p := .io c q) (by simp [kind]),
              last_kind (kinds_syncOff t) (p := .io c q) (by simp [kind]), Option.none_or, Option.or_none]
          · simp only [List.nil_append, List.append_nil]
            have : p.seqs.flatMap (mixC t d.cache) = [] := by
              rw [List.flatMap_eq_nil_iff]; intro e _; rw [mixC, if_pos hqrc]
            rw [this, List.nil_append]
        · rename_i hqrc
          obtain ⟨z, hz, hzc, hzs⟩ := mixer_loop hr force d.cache p.seqs
            { x with dev := setAll force (globalWrites t p ++ scopeWrites t) x.dev } s2'.coherent s2
          rw [hz] at h
          simp only [Except.ok.injEq] at h
          subst h
          have s03 := s02.trans hzs
          have s4 := step_all force (opt .scopeSelect .nat o) hzs.coherent
          have s04 := s03.trans s4
          have hl := lo_trace hr force t p
            { z with dev := setAll force (opt .scopeSelect .nat o) z.dev } d.cache s4.coherent hn
            (by intro e he; simp only [hzc]; exact s2 e he) (by
              intro e he
              simp only
              rw [s04.globCache e.2 (by
                intro c hcm oo hoo
                simp only [List.nil_append, List.append_nil, List.mem_flatMap] at hcm
                obtain ⟨y, -, hy⟩ := hcm
                rw [mixCals_mem hy] at hoo; cases hoo)]
              simp only [last_append, last_kind (kinds_select o) (p := .glob e.2) (by simp [kind]),
                last_kind hF2 (p := .glob e.2) (by simp [kind]),
                last_kind (kinds_scope t) (p := .glob e.2) (by simp [kind]),
                last_kind hF1 (p := .glob e.2) (by simp [kind]),
                last_kind (kinds_syncOff t) (p := .glob e.2) (by simp [kind]), global_no_lo t p he,
                Option.none_or])
          have hs := s04.trans hl
          refine ⟨_, _, hs, ?_, ?_, ?_, ?_, ?_, ?_, ?_, ?_⟩
          · intro e he q
            simp only [last_append, last_kind (kinds_select o) (p := .seq e.1 q) (by simp [kind]),
              last_kind (kinds_lo t p) (p := .seq e.1 q) (by simp [kind]),
              last_kind (kinds_scope t) (p := .seq e.1 q) (by simp [kind]),
              last_kind (kinds_global t p) (p := .seq e.1 q) (by simp [kind]), f1 e he q, m1 e he q, last_syncOff,
              mixW, if_neg hqrc, Option.none_or, Option.or_assoc]
          · intro k hk q
            simp only [last_append, last_kind (kinds_select o) (p := .seq k q) (by simp [kind]),
              last_kind (kinds_lo t p) (p := .seq k q) (by simp [kind]),
              last_kind (kinds_scope t) (p := .seq k q) (by simp [kind]),
              last_kind (kinds_global t p) (p := .seq k q) (by simp [kind]), f2 k hk q, m2 k hk q, last_syncOff,
              Option.none_or]
          · intro n
            simp only [last_append, last_kind (kinds_select o) (p := .glob n) (by simp [kind]),
              last_kind (kinds_scope t) (p := .glob n) (by simp [kind]),
              last_kind hF1 (p := .glob n) (by simp [kind]), last_kind hF2 (p := .glob n) (by simp [kind]),
              last_kind (kinds_syncOff t) (p := .glob n) (by simp [kind]), Option.none_or, Option.or_none]
          · intro n
            simp only [last_append, last_kind (kinds_select o) (p := .filt n) (by simp [kind]),
              last_kind (kinds_scope t) (p := .filt n) (by simp [kind]),
              last_kind (kinds_lo t p) (p := .filt n) (by simp [kind]),
              last_kind hF1 (p := .filt n) (by simp [kind]), last_kind hF2 (p := .filt n) (by simp [kind]),
              last_kind (kinds_syncOff t) (p := .filt n) (by simp [kind]), Option.none_or, Option.or_none]
          · refine fun _ => ⟨o, ho, ?_, fun x hx => ?_⟩
            · simp only [last_append, last_opt_select,
                last_kind (kinds_scope t) (p := .scopeSelect) (by simp [kind]),
                last_kind (kinds_lo t p) (p := .scopeSelect) (by simp [kind]),
                last_kind (kinds_global t p) (p := .scopeSelect) (by simp [kind]),
                last_kind hF1 (p := .scopeSelect) (by simp [kind]),
                last_kind hF2 (p := .scopeSelect) (by simp [kind]),
                last_kind (kinds_syncOff t) (p := .scopeSelect) (by simp [kind]), Option.none_or, Option.or_none]
            · simp only [last_append, last_kind (kinds_select o) (p := x) (by simp [hx]),
                last_kind (kinds_lo t p) (p := x) (by simp [hx]),
                last_kind (kinds_global t p) (p := x) (by simp [hx]),
                last_kind hF1 (p := x) (by simp [hx]), last_kind hF2 (p := x) (by simp [hx]),
                last_kind (kinds_syncOff t) (p := x) (by simp [hx]), Option.none_or, Option.or_none]
          · exact fun h => absurd h nq
          · intro c q
            simp only [last_append, last_kind (kinds_select o) (p := .io c q) (by simp [kind]),
              last_kind (kinds_scope t) (p := .io c q) (by simp [kind]),
              last_kind (kinds_lo t p) (p := .io c q) (by simp [kind]),
              last_kind hF1 (p := .io c q) (by simp [kind]), last_kind hF2 (p := .io c q) (by simp [kind]),
              last_kind (kinds_global t p) (p := .io c q) (by simp [kind]),
              last_kind (kinds_syncOff t) (p := .io c q) (by simp [kind]), Option.none_or, Option.or_none]
          · simp only [List.nil_append, List.append_nil]
            congr 1
            refine List.flatMap_congr fun e _ => ?_
            rw [mixC, if_neg hqrc]
  · rw [← g2]
    unfold prepareQrm
    constructor
    · rintro ⟨d', h⟩
      split at h
      · simp at h
      · split at h
        · simp at h
        · exact ⟨⟨_, by assumption⟩, _, by assumption⟩
    · rintro ⟨⟨x, hx⟩, o, ho⟩
      obtain ⟨s1, s2, s3⟩ := g1 x hx
      rw [hx, ho]
      simp only
      by_cases hqrc : t = .qrc
      · rw [if_pos hqrc]; exact ⟨_, rfl⟩
      · rw [if_neg hqrc]
        obtain ⟨z, hz, -, -⟩ := mixer_loop hr force d.cache p.seqs
          { x with dev := setAll force (globalWrites t p ++ scopeWrites t) x.dev }
          (step_all force _ s1.coherent).coherent s2
        rw [hz]; exact ⟨_, rfl⟩

end Verif.Prepare
