/-
Lemmas on the generation of the configuration.
-/
import Verif.Device.Lemmas

namespace Verif.Device

open Verif Verif.Device.Spec

set_option linter.unusedSimpArgs false
set_option linter.unusedVariables false

theorem evalKwargs_get {n : String} {ps : Params} : ∀ {l : List (String × Src)} {kw : List (String × Arg)},
    evalKwargs n ps l = .ok kw → ∀ {a : String} {src : Src}, Dict.get? l a = some src →
      ∃ arg, evalSrc n ps src = .ok arg ∧ Dict.get? kw a = some arg := by
  intro l
  induction l with
  | nil => intro kw h a src hs; cases hs
  | cons e l ih =>
    intro kw h a src hs
    obtain ⟨k, s⟩ := e
    simp only [evalKwargs, bind, Except.bind] at h
    cases he : evalSrc n ps s with
    | error x => rw [he] at h; cases h
    | ok arg =>
      rw [he] at h; simp only at h
      cases hr : evalKwargs n ps l with
      | error x => rw [hr] at h; cases h
      | ok kw' =>
        rw [hr] at h
        simp only [pure, Except.pure, Except.ok.injEq] at h
        subst h
        rw [Dict.get?_cons] at hs ⊢
        by_cases hk : k = a
        · simp only [hk, if_true, Option.some.injEq] at hs ⊢
          subst hs
          exact ⟨arg, he, rfl⟩
        · simp only [hk, if_false] at hs ⊢
          exact ih hr hs

theorem evalKwargs_ok {n : String} {ps : Params} : ∀ {l : List (String × Src)},
    (∀ e ∈ l, ∃ arg, evalSrc n ps e.2 = .ok arg) → ∃ kw, evalKwargs n ps l = .ok kw := by
  intro l
  induction l with
  | nil => intro _; exact ⟨[], rfl⟩
  | cons e l ih =>
    intro h
    obtain ⟨k, s⟩ := e
    obtain ⟨arg, ha⟩ := h (k, s) (by simp)
    obtain ⟨kw, hk⟩ := ih (fun e he => h e (by simp [he]))
    simp only at ha
    exact ⟨(k, arg) :: kw, by simp [evalKwargs, bind, Except.bind, ha, hk, pure, Except.pure]⟩

theorem evalOps_get {n : String} {ps : Params} : ∀ {l : List Entry} {os : Ops},
    evalOps n ps l = .ok os → ∀ {op : String} {e : Entry}, l.find? (fun x => x.op == op) = some e →
      ∃ kw, evalKwargs n ps e.kwargs = .ok kw ∧ Dict.get? os op = some ⟨e.factory, kw, e.gateInfo⟩ := by
  intro l
  induction l with
  | nil => intro os h op e hs; cases hs
  | cons x l ih =>
    intro os h op e hs
    simp only [evalOps, bind, Except.bind] at h
    cases he : evalKwargs n ps x.kwargs with
    | error y => rw [he] at h; cases h
    | ok kw =>
      rw [he] at h; simp only at h
      cases hr : evalOps n ps l with
      | error y => rw [hr] at h; cases h
      | ok os' =>
        rw [hr] at h
        simp only [pure, Except.pure, Except.ok.injEq] at h
        subst h
        rw [Dict.get?_cons]
        rw [List.find?_cons] at hs
        by_cases hk : x.op = op
        · have : (x.op == op) = true := by simpa using hk
          rw [this] at hs
          simp only [Option.some.injEq] at hs
          subst hs
          exact ⟨kw, he, by simp [hk]⟩
        · have : (x.op == op) = false := by simpa using hk
          rw [this] at hs
          simp only [hk, if_false]
          exact ih hr hs

theorem evalOps_ok {n : String} {ps : Params} : ∀ {l : List Entry},
    (∀ x ∈ l, ∀ e ∈ x.kwargs, ∃ arg, evalSrc n ps e.2 = .ok arg) → ∃ os, evalOps n ps l = .ok os := by
  intro l
  induction l with
  | nil => intro _; exact ⟨[], rfl⟩
  | cons x l ih =>
    intro h
    obtain ⟨kw, ha⟩ := evalKwargs_ok (h x (by simp))
    obtain ⟨os, hk⟩ := ih (fun e he => h e (by simp [he]))
    exact ⟨(x.op, ⟨x.factory, kw, x.gateInfo⟩) :: os, by
      simp [evalOps, bind, Except.bind, ha, hk, pure, Except.pure]⟩

theorem evalOps_shape {n : String} {ps : Params} : ∀ {l : List Entry} {os : Ops}, evalOps n ps l = .ok os →
    os.map (fun o => (o.1, o.2.factory, o.2.gateInfo)) = l.map (fun x => (x.op, x.factory, x.gateInfo)) := by
  intro l
  induction l with
  | nil => intro os h; simp only [evalOps, Except.ok.injEq] at h; subst h; rfl
  | cons x l ih =>
    intro os h
    simp only [evalOps, bind, Except.bind] at h
    cases he : evalKwargs n ps x.kwargs with
    | error y => rw [he] at h; cases h
    | ok kw =>
      rw [he] at h; simp only at h
      cases hr : evalOps n ps l with
      | error y => rw [hr] at h; cases h
      | ok os' =>
        rw [hr] at h
        simp only [pure, Except.pure, Except.ok.injEq] at h
        subst h
        simp [ih hr]

/-- What is passed as this argument. -/
def srcAt (l : List Entry) (op a : String) : Option Src :=
  (l.find? (fun x => x.op == op)).bind fun e => Dict.get? e.kwargs a

theorem srcAt_get {n : String} {ps : Params} {l : List Entry} {os : Ops} (h : evalOps n ps l = .ok os) {op a : String}
    {src : Src} (hs : srcAt l op a = some src) :
    ∃ arg, evalSrc n ps src = .ok arg ∧ ((Dict.get? os op).bind fun o => Dict.get? o.kwargs a) = some arg := by
  unfold srcAt at hs
  cases hf : l.find? (fun x => x.op == op) with
  | none => rw [hf] at hs; cases hs
  | some e =>
    rw [hf] at hs
    simp only [Option.bind_some] at hs
    obtain ⟨kw, h1, h2⟩ := evalOps_get h hf
    obtain ⟨arg, h3, h4⟩ := evalKwargs_get h1 hs
    exact ⟨arg, h3, by rw [h2]; simpa using h4⟩

theorem evalClocks_ok {n : String} {ps : Params} : ∀ {l : List (String × String)},
    (∀ e ∈ l, ∃ v, Dict.get? ps ("clock_freqs", e.2) = some v) → ∃ cs, evalClocks n ps l = .ok cs := by
  intro l
  induction l with
  | nil => intro _; exact ⟨[], rfl⟩
  | cons e l ih =>
    intro h
    obtain ⟨k, s⟩ := e
    obtain ⟨v, ha⟩ := h (k, s) (by simp)
    obtain ⟨cs, hk⟩ := ih (fun e he => h e (by simp [he]))
    simp only at ha
    exact ⟨(n ++ k, v) :: cs, by simp [evalClocks, bind, Except.bind, valueOf, ha, hk, pure, Except.pure]⟩

theorem evalClocks_keys {n : String} {ps : Params} : ∀ {l : List (String × String)} {cs : List (String × Val)},
    evalClocks n ps l = .ok cs → Dict.keys cs = l.map (fun e => n ++ e.1) := by
  intro l
  induction l with
  | nil => intro cs h; simp only [evalClocks, Except.ok.injEq] at h; subst h; rfl
  | cons e l ih =>
    intro cs h
    obtain ⟨k, s⟩ := e
    simp only [evalClocks, bind, Except.bind] at h
    cases he : valueOf ps "clock_freqs" s with
    | error y => rw [he] at h; cases h
    | ok v =>
      rw [he] at h; simp only at h
      cases hr : evalClocks n ps l with
      | error y => rw [hr] at h; cases h
      | ok cs' =>
        rw [hr] at h
        simp only [pure, Except.pure, Except.ok.injEq] at h
        subst h
        have := ih hr
        simp only [Dict.keys] at this ⊢
        simp [this]

theorem evalClocks_mem {n : String} {ps : Params} : ∀ {l : List (String × String)} {cs : List (String × Val)},
    evalClocks n ps l = .ok cs → ∀ {c : String} {v : Val}, (c, v) ∈ cs ↔
      ∃ e ∈ l, c = n ++ e.1 ∧ Dict.get? ps ("clock_freqs", e.2) = some v := by
  intro l
  induction l with
  | nil => intro cs h; simp only [evalClocks, Except.ok.injEq] at h; subst h; simp
  | cons e l ih =>
    intro cs h c v
    obtain ⟨k, s⟩ := e
    simp only [evalClocks, bind, Except.bind] at h
    cases he : valueOf ps "clock_freqs" s with
    | error y => rw [he] at h; cases h
    | ok w =>
      rw [he] at h; simp only at h
      cases hr : evalClocks n ps l with
      | error y => rw [hr] at h; cases h
      | ok cs' =>
        rw [hr] at h
        simp only [pure, Except.pure, Except.ok.injEq] at h
        subst h
        have hw : Dict.get? ps ("clock_freqs", s) = some w := by
          unfold valueOf at he
          split at he
          · simp only [Except.ok.injEq] at he; subst he; assumption
          · cases he
        simp only [List.mem_cons, Prod.mk.injEq, ih hr]
        constructor
        · rintro (⟨a, b⟩ | ⟨e, he, hh⟩)
          · exact ⟨(k, s), .inl rfl, a, by rw [b]; exact hw⟩
          · exact ⟨e, .inr he, hh⟩
        · rintro ⟨e, rfl | he, a, b⟩
          · simp only at a b
            rw [hw] at b
            simp only [Option.some.injEq] at b
            exact .inl ⟨a, b.symm⟩
          · exact .inr ⟨e, he, a, b⟩

/-- The parameters that a source needs. -/
def srcOk (pars : List Par) : Src → Bool
  | .par s n => pars.any fun p => p.key == (s, n)
  | .list l => l.all fun x => match x with
    | .par s n => pars.any fun p => p.key == (s, n)
    | .clock _ => true
    | .const _ => true
    | _ => false
  | .ref sub => ["reference_magnitude_dBm", "reference_magnitude_V", "reference_magnitude_A"].all fun r =>
      pars.any fun p => p.key == (sub, r) && p.nested
  | _ => true

theorem WF.get {pars : List Par} {ps : Params} (h : WF pars ps) {k : String × String}
    (hk : (pars.any fun p => p.key == k) = true) : ∃ v, Dict.get? ps k = some v := by
  simp only [List.any_eq_true, beq_iff_eq] at hk
  obtain ⟨p, hp, rfl⟩ := hk
  have : p.key ∈ Dict.keys ps := by rw [h.keys]; exact List.mem_map_of_mem hp
  exact Option.isSome_iff_exists.mp ((Dict.get?_isSome_iff _ _).mpr this)

/-- The reference of which at most one unit is defined. -/
theorem reference_spec {pars : List Par} {ps : Params} (h : WF pars ps) {sub : String} (hs : srcOk pars (.ref sub) = true) :
    ∃ r, reference ps sub = .ok (.ref r) ∧
      (∀ v u, r = some (v, u) ↔ u ∈ units ∧ v ≠ .nan ∧ Dict.get? ps (sub, "reference_magnitude_" ++ u) = some v) := by
  simp only [srcOk, List.all_cons, List.all_nil, Bool.and_true, Bool.and_eq_true] at hs
  obtain ⟨h1, h2, h3⟩ := hs
  have key : ∀ nm, (pars.any fun p => p.key == (sub, nm) && p.nested) = true →
      ∃ p ∈ pars, p.key = (sub, nm) ∧ p.nested = true := by
    intro nm hh
    simp only [List.any_eq_true, Bool.and_eq_true, beq_iff_eq] at hh
    exact hh
  obtain ⟨p1, m1, k1, n1⟩ := key _ h1
  obtain ⟨p2, m2, k2, n2⟩ := key _ h2
  obtain ⟨p3, m3, k3, n3⟩ := key _ h3
  obtain ⟨d, hd⟩ := h.get (k := p1.key) (List.any_eq_true.mpr ⟨p1, m1, by simp⟩)
  obtain ⟨v, hv⟩ := h.get (k := p2.key) (List.any_eq_true.mpr ⟨p2, m2, by simp⟩)
  obtain ⟨a, ha⟩ := h.get (k := p3.key) (List.any_eq_true.mpr ⟨p3, m3, by simp⟩)
  have s1 : p1.sub = sub := congrArg Prod.fst k1
  have s2 : p2.sub = sub := congrArg Prod.fst k2
  have s3 : p3.sub = sub := congrArg Prod.fst k3
  have r12 := h.refs p1 m1 p2 m2 n1 n2 (by rw [s1, s2]) (by rw [k1, k2]; simp) d v hd hv
  have r13 := h.refs p1 m1 p3 m3 n1 n3 (by rw [s1, s3]) (by rw [k1, k3]; simp) d a hd ha
  have r23 := h.refs p2 m2 p3 m3 n2 n3 (by rw [s2, s3]) (by rw [k2, k3]; simp) v a hv ha
  rw [k1] at hd; rw [k2] at hv; rw [k3] at ha
  have e1 : "reference_magnitude_" ++ "dBm" = "reference_magnitude_dBm" := by decide +kernel
  have e2 : "reference_magnitude_" ++ "V" = "reference_magnitude_V" := by decide +kernel
  have e3 : "reference_magnitude_" ++ "A" = "reference_magnitude_A" := by decide +kernel
  have red : ∀ r, valUnit [(d, "dBm"), (v, "V"), (a, "A")] .none = .ok r → reference ps sub = .ok (.ref r) := by
    intro r hr
    simp [reference, valueOf, hd, hv, ha, bind, Except.bind, hr, pure, Except.pure]
  by_cases cd : d = .nan
  · by_cases cv : v = .nan
    · by_cases ca : a = .nan
      · refine ⟨none, red _ (by simp [valUnit, cd, cv, ca]), ?_⟩
        intro w u
        simp only [reduceCtorEq, false_iff, not_and]
        intro hu hw hg
        simp only [units, List.mem_cons, List.not_mem_nil, or_false] at hu
        rcases hu with rfl | rfl | rfl
        · rw [e1, hd] at hg; simp only [Option.some.injEq] at hg; exact hw (hg ▸ cd)
        · rw [e2, hv] at hg; simp only [Option.some.injEq] at hg; exact hw (hg ▸ cv)
        · rw [e3, ha] at hg; simp only [Option.some.injEq] at hg; exact hw (hg ▸ ca)
      · refine ⟨some (a, "A"), red _ (by simp [valUnit, cd, cv, ca]), ?_⟩
        intro w u
        simp only [Option.some.injEq, Prod.mk.injEq]
        constructor
        · rintro ⟨rfl, rfl⟩
          exact ⟨by simp [units], ca, by rw [e3]; exact ha⟩
        · rintro ⟨hu, hw, hg⟩
          simp only [units, List.mem_cons, List.not_mem_nil, or_false] at hu
          rcases hu with rfl | rfl | rfl
          · rw [e1, hd] at hg; simp only [Option.some.injEq] at hg; exact absurd (hg ▸ cd) hw
          · rw [e2, hv] at hg; simp only [Option.some.injEq] at hg; exact absurd (hg ▸ cv) hw
          · rw [e3, ha] at hg; simp only [Option.some.injEq] at hg; exact ⟨hg, rfl⟩
    · have ca : a = .nan := r23.resolve_left cv
      refine ⟨some (v, "V"), red _ (by simp [valUnit, cd, cv, ca]), ?_⟩
      intro w u
      simp only [Option.some.injEq, Prod.mk.injEq]
      constructor
      · rintro ⟨rfl, rfl⟩
        exact ⟨by simp [units], cv, by rw [e2]; exact hv⟩
      · rintro ⟨hu, hw, hg⟩
        simp only [units, List.mem_cons, List.not_mem_nil, or_false] at hu
        rcases hu with rfl | rfl | rfl
        · rw [e1, hd] at hg; simp only [Option.some.injEq] at hg; exact absurd (hg ▸ cd) hw
        · rw [e2, hv] at hg; simp only [Option.some.injEq] at hg; exact ⟨hg, rfl⟩
        · rw [e3, ha] at hg; simp only [Option.some.injEq] at hg; exact absurd (hg ▸ ca) hw
  · have cv : v = .nan := r12.resolve_left cd
    have ca : a = .nan := r13.resolve_left cd
    refine ⟨some (d, "dBm"), red _ (by simp [valUnit, cd, cv, ca]), ?_⟩
    intro w u
    simp only [Option.some.injEq, Prod.mk.injEq]
    constructor
    · rintro ⟨rfl, rfl⟩
      exact ⟨by simp [units], cd, by rw [e1]; exact hd⟩
    · rintro ⟨hu, hw, hg⟩
      simp only [units, List.mem_cons, List.not_mem_nil, or_false] at hu
      rcases hu with rfl | rfl | rfl
      · rw [e1, hd] at hg; simp only [Option.some.injEq] at hg; exact ⟨hg, rfl⟩
      · rw [e2, hv] at hg; simp only [Option.some.injEq] at hg; exact absurd (hg ▸ cv) hw
      · rw [e3, ha] at hg; simp only [Option.some.injEq] at hg; exact absurd (hg ▸ ca) hw

theorem evalItems_ok {pars : List Par} {ps : Params} (h : WF pars ps) (n : String) : ∀ {l : List Src},
    (l.all fun x => match x with
      | .par s n => pars.any fun p => p.key == (s, n)
      | .clock _ => true
      | .const _ => true
      | _ => false) = true → ∃ vs, evalItems n ps l = .ok vs := by
  intro l
  induction l with
  | nil => intro _; exact ⟨[], rfl⟩
  | cons x l ih =>
    intro ha
    rw [List.all_cons, Bool.and_eq_true] at ha
    obtain ⟨vs, hvs⟩ := ih ha.2
    have : ∃ v, evalItem n ps x = .ok v := by
      cases x with
      | par s m =>
        obtain ⟨v, hv⟩ := h.get ha.1
        exact ⟨v, by simp [evalItem, valueOf, hv]⟩
      | clock s => exact ⟨_, rfl⟩
      | const v => exact ⟨_, rfl⟩
      | list l => exact absurd ha.1 (by simp)
      | ref s => exact absurd ha.1 (by simp)
    obtain ⟨v, hv⟩ := this
    exact ⟨v :: vs, by simp [evalItems, bind, Except.bind, hv, hvs, pure, Except.pure]⟩

theorem evalSrc_ok {pars : List Par} {ps : Params} (h : WF pars ps) (n : String) {src : Src}
    (hs : srcOk pars src = true) : ∃ arg, evalSrc n ps src = .ok arg := by
  cases src with
  | par s m =>
    obtain ⟨v, hv⟩ := h.get hs
    exact ⟨.val v, by simp [evalSrc, evalItem, valueOf, hv, Except.map]⟩
  | clock s => exact ⟨_, rfl⟩
  | const v => exact ⟨_, rfl⟩
  | list l =>
    obtain ⟨vs, hvs⟩ := evalItems_ok h n hs
    exact ⟨.vals vs, by simp [evalSrc, hvs, Except.map]⟩
  | ref s =>
    obtain ⟨r, hr, _⟩ := reference_spec h hs
    exact ⟨_, hr⟩

theorem ops_ok (k : Kind) : ∀ x ∈ k.ops, ∀ e ∈ x.kwargs, srcOk k.pars e.2 = true := by
  cases k <;> decide +kernel

theorem clocks_ok (k : Kind) : ∀ e ∈ k.clocks, (k.pars.any fun p => p.key == ("clock_freqs", e.2)) = true := by
  cases k <;> decide +kernel

/-- An element generates its configuration. -/
theorem elemConfig_ok {k : Kind} {n : String} {ps : Params} (h : WF k.pars ps) :
    ∃ ops clocks, evalOps n ps k.ops = .ok ops ∧ evalClocks n ps k.clocks = .ok clocks ∧
      elemConfig (.elem k n ps) = .ok { elements := [(n, ops)], clocks := clocks } := by
  obtain ⟨ops, ho⟩ := evalOps_ok (n := n) (ps := ps) (l := k.ops)
    (fun x hx e he => evalSrc_ok h n (ops_ok k x hx e he))
  obtain ⟨cs, hc⟩ := evalClocks_ok (n := n) (ps := ps) (l := k.clocks) (fun e he => h.get (clocks_ok k e he))
  exact ⟨ops, cs, ho, hc, by simp [elemConfig, bind, Except.bind, ho, hc, pure, Except.pure]⟩

theorem set_new {V : Type} (d : List (String × V)) (k : String) (v : V) (h : k ∉ Dict.keys d) :
    Dict.set d k v = d ++ [(k, v)] := by
  unfold Dict.set
  rw [if_neg]
  rw [Dict.any_iff]; exact h

theorem update_new {V : Type} : ∀ (l d : List (String × V)), (Dict.keys l).Nodup →
    (∀ k ∈ Dict.keys l, k ∉ Dict.keys d) → update d l = d ++ l := by
  intro l
  induction l with
  | nil => intro d _ _; simp [update]
  | cons e l ih =>
    intro d hn hd
    simp only [Dict.keys, List.map_cons, List.nodup_cons] at hn
    rw [update, set_new d e.1 e.2 (hd e.1 (by simp [Dict.keys])), ih _ hn.2]
    · simp
    · intro k hk hm
      simp only [Dict.keys, List.map_append, List.mem_append, List.map_cons, List.map_nil, List.mem_cons,
        List.not_mem_nil, or_false] at hm
      rcases hm with hm | hm
      · exact hd k (by simp only [Dict.keys, List.map_cons, List.mem_cons]; exact .inr hk) hm
      · subst hm; exact hn.1 hk

/-- A suffix of a clock. -/
def Dotted (s : String) : Prop := ∃ t, s.toList = '.' :: t ∧ '.' ∉ t

theorem dotted_inj {a b s t : String} (hs : Dotted s) (ht : Dotted t) (h : a ++ s = b ++ t) : a = b ∧ s = t := by
  obtain ⟨x, hx, nx⟩ := hs
  obtain ⟨y, hy, ny⟩ := ht
  have e := congrArg String.toList h
  rw [String.toList_append, String.toList_append, hx, hy] at e
  have key : ∀ (l m : List Char), l ++ '.' :: x = m ++ '.' :: y → l = m ∧ x = y := by
    intro l
    induction l with
    | nil =>
      intro m hm
      cases m with
      | nil => simp only [List.nil_append, List.cons.injEq, true_and] at hm; exact ⟨rfl, hm⟩
      | cons c m =>
        simp only [List.nil_append, List.cons_append, List.cons.injEq] at hm
        exact absurd (by rw [hm.2]; simp) nx
    | cons c l ih =>
      intro m hm
      cases m with
      | nil =>
        simp only [List.nil_append, List.cons_append, List.cons.injEq] at hm
        exact absurd (by rw [← hm.2]; simp) ny
      | cons c' m =>
        simp only [List.cons_append, List.cons.injEq] at hm
        obtain ⟨e1, e2⟩ := ih m hm.2
        exact ⟨by rw [hm.1, e1], e2⟩
  obtain ⟨e1, e2⟩ := key _ _ e
  exact ⟨String.toList_inj.mp e1, String.toList_inj.mp (by rw [hx, hy, e2])⟩

theorem clocks_dotted (k : Kind) : ∀ e ∈ k.clocks, Dotted e.1 := by
  intro e he
  have : ∀ e ∈ k.clocks, (match e.1.toList with | '.' :: t => decide ('.' ∉ t) | _ => false) = true := by
    cases k <;> decide +kernel
  have h := this e he
  split at h
  · rename_i t ht
    exact ⟨t, ht, by simpa using h⟩
  · cases h

theorem clocks_nodup (k : Kind) : (k.clocks.map Prod.fst).Nodup := by cases k <;> decide +kernel

/-- The instrument with this name is an element, and this is its configuration. -/
def Own (reg : Registry) (n : String) (ops : Ops) (clocks : List (String × Val)) : Prop :=
  ∃ k ps, Dict.get? reg n = some (.elem k n ps) ∧ evalOps n ps k.ops = .ok ops ∧ evalClocks n ps k.clocks = .ok clocks

theorem genElements_ok {reg : Registry} (hreg : ∀ n i, Dict.get? reg n = some i → i.name = n ∧ i.Fine)
    {members : List String} : ∀ {ns : List String} {cl : List (String × Val)} {els : List (String × Ops)},
    ns.Nodup → (∀ n ∈ ns, n ∈ members) → (∀ n ∈ ns, n ∉ Dict.keys els) →
    (∀ n ∈ ns, ∀ s, Dotted s → n ++ s ∉ Dict.keys cl) →
    (∀ n ∈ ns, ∃ k ps, Dict.get? reg n = some (.elem k n ps)) →
    ∃ f : String → Ops × List (String × Val), (∀ n ∈ ns, Own reg n (f n).1 (f n).2) ∧
      genElements reg members ns cl els =
        .ok (cl ++ ns.flatMap (fun n => (f n).2), els ++ ns.map (fun n => (n, (f n).1))) := by
  intro ns
  induction ns with
  | nil => intro cl els _ _ _ _ _; exact ⟨fun _ => ([], []), by simp, by simp [genElements]⟩
  | cons n ns ih =>
    intro cl els hn hm he hc ho
    obtain ⟨k, ps, hk⟩ := ho n (by simp)
    have hwf : WF k.pars ps := (hreg n _ hk).2.wf
    obtain ⟨ops, cs, h1, h2, h3⟩ := elemConfig_ok (n := n) hwf
    simp only [List.nodup_cons] at hn
    have hkeys := evalClocks_keys h2
    have hu : update cl cs = cl ++ cs := by
      apply update_new
      · rw [hkeys]
        have hcn := clocks_nodup k
        have : (k.clocks.map fun e => n ++ e.1) = (k.clocks.map Prod.fst).map (fun x => n ++ x) := by
          rw [List.map_map]; rfl
        rw [this]
        apply List.Nodup.map _ hcn
        intro a b hab
        have := congrArg String.toList hab
        simp only [String.toList_append] at this
        exact String.toList_inj.mp (List.append_cancel_left this)
      · intro c hcm
        rw [hkeys, List.mem_map] at hcm
        obtain ⟨e, hem, rfl⟩ := hcm
        exact hc n (by simp) e.1 (clocks_dotted k e hem)
    have hue : update els [(n, ops)] = els ++ [(n, ops)] := by
      apply update_new
      · simp [Dict.keys]
      · intro c hcm
        simp only [Dict.keys, List.map_cons, List.map_nil, List.mem_cons, List.not_mem_nil, or_false] at hcm
        subst hcm; exact he _ (by simp)
    obtain ⟨f, hf1, hf2⟩ := ih (cl := cl ++ cs) (els := els ++ [(n, ops)]) hn.2 (fun m h => hm m (by simp [h]))
      (by
        intro m h hmem
        simp only [Dict.keys, List.map_append, List.mem_append, List.map_cons, List.map_nil, List.mem_cons,
          List.not_mem_nil, or_false] at hmem
        rcases hmem with hmem | hmem
        · exact he m (by simp [h]) hmem
        · subst hmem; exact hn.1 h)
      (by
        intro m h s hs hmem
        simp only [Dict.keys, List.map_append, List.mem_append] at hmem
        rcases hmem with hmem | hmem
        · exact hc m (by simp [h]) s hs hmem
        · have : m ++ s ∈ Dict.keys cs := hmem
          rw [hkeys, List.mem_map] at this
          obtain ⟨e, hem, hee⟩ := this
          have := (dotted_inj (clocks_dotted k e hem) hs hee).1
          subst this; exact hn.1 h)
      (fun m h => ho m (by simp [h]))
    refine ⟨fun m => if m = n then (ops, cs) else f m, ?_, ?_⟩
    · intro m hmm
      by_cases hmn : m = n
      · subst hmn; simp only [if_true]; exact ⟨k, ps, hk, h1, h2⟩
      · simp only [hmn, if_false]
        exact hf1 m (by simpa [hmn] using hmm)
    · have hg : getMember reg members n = .ok (.elem k n ps) := by
        unfold getMember
        rw [if_pos (hm n (by simp)), hk]
      simp only [genElements, bind, Except.bind, hg, h3, hu, hue, hf2]
      congr 1
      have e1 : ∀ m ∈ ns, (if m = n then (ops, cs) else f m) = f m := by
        intro m hmm
        rw [if_neg]; rintro rfl; exact hn.1 hmm
      have e2 : ns.flatMap (fun m => (if m = n then (ops, cs) else f m).2) = ns.flatMap (fun m => (f m).2) :=
        List.flatMap_congr (fun m hmm => by rw [e1 m hmm])
      have e3 : ns.map (fun m => (m, (if m = n then (ops, cs) else f m).1)) = ns.map (fun m => (m, (f m).1)) :=
        List.map_congr_left (fun m hmm => by rw [e1 m hmm])
      rw [List.flatMap_cons, List.map_cons, e2, e3]
      simp

theorem genElements_open {reg : Registry} (hreg : ∀ n i, Dict.get? reg n = some i → i.name = n ∧ i.Fine)
    {members : List String} : ∀ {ns : List String} {cl : List (String × Val)} {els : List (String × Ops)} {r},
    genElements reg members ns cl els = .ok r → ∀ n ∈ ns, ∃ k ps, Dict.get? reg n = some (.elem k n ps) := by
  intro ns
  induction ns with
  | nil => intro cl els r _ n hn; cases hn
  | cons m ns ih =>
    intro cl els r h n hn
    simp only [genElements, bind, Except.bind] at h
    cases hg : getMember reg members m with
    | error e => rw [hg] at h; cases h
    | ok i =>
      rw [hg] at h; simp only at h
      cases hc : elemConfig i with
      | error e => rw [hc] at h; cases h
      | ok c =>
        rw [hc] at h; simp only at h
        rcases List.mem_cons.mp hn with rfl | hn
        · unfold getMember at hg
          split at hg
          · split at hg
            · rename_i j hj
              simp only [Except.ok.injEq] at hg
              subst hg
              cases j with
              | elem k n' ps =>
                have := (hreg _ _ hj).1
                simp only [Instr.name] at this
                subst this
                exact ⟨k, ps, hj⟩
              | edge => simp only [elemConfig] at hc; cases hc
              | other => simp only [elemConfig] at hc; cases hc
            · cases hg
          · cases hg
        · exact ih h n hn

/-- The instrument with this name is an edge, and this is its configuration. -/
def OwnEdge (reg : Registry) (n : String) (ops : Ops) : Prop :=
  ∃ i, Dict.get? reg n = some i ∧ edgeConfig reg i = .ok [(n, ops)]

theorem edgeConfig_single {reg : Registry} {i : Instr} {es : List (String × Ops)} (h : edgeConfig reg i = .ok es) :
    (∃ k p c ps, i = .edge k p c ps) ∧ ∃ ops, es = [(i.name, ops)] := by
  cases i with
  | elem => simp only [edgeConfig] at h; cases h
  | other => simp only [edgeConfig] at h; cases h
  | edge k p c ps =>
    refine ⟨⟨k, p, c, ps, rfl⟩, ?_⟩
    cases k with
    | square =>
      simp only [edgeConfig, bind, Except.bind] at h
      cases h1 : findElement reg p with
      | error e => rw [h1] at h; cases h
      | ok x =>
        rw [h1] at h; obtain ⟨_, pps⟩ := x; simp only at h
        cases h2 : valueOf pps "ports" "flux" with
        | error e => rw [h2] at h; cases h
        | ok port =>
          rw [h2] at h; simp only at h
          cases h3 : findElement reg c with
          | error e => rw [h3] at h; cases h
          | ok y =>
            rw [h3] at h; simp only at h
            cases h4 : czKwargs port ps p c ".01" with
            | error e => rw [h4] at h; cases h
            | ok kw =>
              rw [h4] at h
              simp only [pure, Except.pure, Except.ok.injEq] at h
              exact ⟨_, h.symm⟩
    | spin =>
      simp only [edgeConfig, bind, Except.bind] at h
      cases h2 : valueOf ps "ports" "gate" with
      | error e => rw [h2] at h; cases h
      | ok port =>
        rw [h2] at h; simp only at h
        cases h1 : findElement reg p with
        | error e => rw [h1] at h; cases h
        | ok x =>
          rw [h1] at h; simp only at h
          cases h3 : findElement reg c with
          | error e => rw [h3] at h; cases h
          | ok y =>
            rw [h3] at h; simp only at h
            cases h4 : czKwargs port ps p c ".f_larmor" with
            | error e => rw [h4] at h; cases h
            | ok kw =>
              rw [h4] at h
              simp only [pure, Except.pure, Except.ok.injEq] at h
              exact ⟨_, h.symm⟩

theorem genEdges_ok {reg : Registry} (hreg : ∀ n i, Dict.get? reg n = some i → i.name = n ∧ i.Fine)
    {members : List String} : ∀ {ns : List String} {es : List (String × Ops)},
    ns.Nodup → (∀ n ∈ ns, n ∈ members) → (∀ n ∈ ns, n ∉ Dict.keys es) →
    (∀ n ∈ ns, ∃ i c, Dict.get? reg n = some i ∧ edgeConfig reg i = .ok c) →
    ∃ f : String → Ops, (∀ n ∈ ns, OwnEdge reg n (f n)) ∧
      genEdges reg members ns es = .ok (es ++ ns.map (fun n => (n, f n))) := by
  intro ns
  induction ns with
  | nil => intro es _ _ _ _; exact ⟨fun _ => [], by simp, by simp [genEdges]⟩
  | cons n ns ih =>
    intro es hn hm he ho
    obtain ⟨i, c, hi, hc⟩ := ho n (by simp)
    obtain ⟨_, ops, rfl⟩ := edgeConfig_single hc
    have hin := (hreg n i hi).1
    rw [hin] at hc
    simp only [List.nodup_cons] at hn
    have hue : update es [(n, ops)] = es ++ [(n, ops)] := by
      apply update_new
      · simp [Dict.keys]
      · intro c hcm
        simp only [Dict.keys, List.map_cons, List.map_nil, List.mem_cons, List.not_mem_nil, or_false] at hcm
        subst hcm; exact he _ (by simp)
    obtain ⟨f, hf1, hf2⟩ := ih (es := es ++ [(n, ops)]) hn.2 (fun m h => hm m (by simp [h]))
      (by
        intro m h hmem
        simp only [Dict.keys, List.map_append, List.mem_append, List.map_cons, List.map_nil, List.mem_cons,
          List.not_mem_nil, or_false] at hmem
        rcases hmem with hmem | hmem
        · exact he m (by simp [h]) hmem
        · subst hmem; exact hn.1 h)
      (fun m h => ho m (by simp [h]))
    refine ⟨fun m => if m = n then ops else f m, ?_, ?_⟩
    · intro m hmm
      by_cases hmn : m = n
      · subst hmn; simp only [if_true]; exact ⟨i, hi, hc⟩
      · simp only [hmn, if_false]
        exact hf1 m (by simpa [hmn] using hmm)
    · have hg : getMember reg members n = .ok i := by
        unfold getMember
        rw [if_pos (hm n (by simp)), hi]
      simp only [genEdges, bind, Except.bind, hg, hc, hue, hf2]
      have e3 : ns.map (fun m => (m, (if m = n then ops else f m))) = ns.map (fun m => (m, f m)) :=
        List.map_congr_left (fun m hmm => by
          rw [if_neg]; rintro rfl; exact hn.1 hmm)
      rw [List.map_cons, e3]
      simp

theorem genEdges_open {reg : Registry} {members : List String} :
    ∀ {ns : List String} {es : List (String × Ops)} {r},
    genEdges reg members ns es = .ok r → ∀ n ∈ ns, ∃ i c, Dict.get? reg n = some i ∧ edgeConfig reg i = .ok c := by
  intro ns
  induction ns with
  | nil => intro es r _ n hn; cases hn
  | cons m ns ih =>
    intro es r h n hn
    simp only [genEdges, bind, Except.bind] at h
    cases hg : getMember reg members m with
    | error e => rw [hg] at h; cases h
    | ok i =>
      rw [hg] at h; simp only at h
      cases hc : edgeConfig reg i with
      | error e => rw [hc] at h; cases h
      | ok c =>
        rw [hc] at h; simp only at h
        rcases List.mem_cons.mp hn with rfl | hn
        · unfold getMember at hg
          split at hg
          · split at hg
            · rename_i j hj
              simp only [Except.ok.injEq] at hg
              subst hg
              exact ⟨_, c, hj, hc⟩
            · cases hg
          · cases hg
        · exact ih h n hn

/-- The generated configuration, entry by entry. -/
theorem generate_shape {s : St} (h : Inv s) {cfg : Config} (hg : generate s = .ok cfg) :
    ∃ (f : String → Ops × List (String × Val)) (g : String → Ops),
      (∀ n ∈ s.dev.elements, Own s.reg n (f n).1 (f n).2) ∧ (∀ n ∈ s.dev.edges, OwnEdge s.reg n (g n)) ∧
      cfg.clocks = s.dev.elements.flatMap (fun n => (f n).2) ∧
      cfg.elements = s.dev.elements.map (fun n => (n, (f n).1)) ∧
      cfg.edges = s.dev.edges.map (fun n => (n, g n)) ∧ cfg.strategy = s.dev.strategy := by
  have hreg : ∀ n i, Dict.get? s.reg n = some i → i.name = n ∧ i.Fine := fun n i hi => h.name n i (Dict.mem_of_get? hi)
  simp only [generate, bind, Except.bind] at hg
  cases h1 : genElements s.reg s.dev.elements s.dev.elements [] [] with
  | error e => rw [h1] at hg; cases hg
  | ok x =>
    have ho := genElements_open hreg h1
    obtain ⟨f, hf1, hf2⟩ := genElements_ok (members := s.dev.elements) (cl := []) (els := []) hreg h.elements
      (fun n hn => hn) (by simp [Dict.keys]) (by simp [Dict.keys]) ho
    rw [h1] at hf2
    simp only [List.nil_append, Except.ok.injEq] at hf2
    subst hf2
    rw [h1] at hg
    simp only at hg
    cases h2 : genEdges s.reg s.dev.edges s.dev.edges [] with
    | error e => rw [h2] at hg; cases hg
    | ok es =>
      have ho2 := genEdges_open h2
      obtain ⟨g, hg1, hg2⟩ := genEdges_ok (members := s.dev.edges) (es := []) hreg h.edges
        (fun n hn => hn) (by simp [Dict.keys]) ho2
      rw [h2] at hg2
      simp only [List.nil_append, Except.ok.injEq] at hg2
      subst hg2
      rw [h2] at hg
      simp only [pure, Except.pure, Except.ok.injEq] at hg
      subst hg
      exact ⟨f, g, hf1, hg1, rfl, rfl, rfl, rfl⟩

end Verif.Device
