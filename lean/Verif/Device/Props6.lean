/-
C74: constants, limits and defaults.
-/
import Verif.Device.Props3

namespace Verif.Device

open Verif Verif.Device.Spec

set_option linter.unusedSimpArgs false
set_option linter.unusedVariables false

theorem constants_table (k : Kind) : ∀ t ∈ constants k,
    (match srcAt k.ops t.1 t.2.1 with | some (.const v) => v == t.2.2 | _ => false) = true := by
  cases k <;> decide +kernel

/-- The arguments that do not depend on parameters. -/
theorem constant_arguments (d : String) (cs : List Cmd) {cfg : Config} (hg : generate (run (fresh d) cs) = .ok cfg)
    {n : String} (hn : n ∈ (run (fresh d) cs).dev.elements) {k : Kind} {ps : Params}
    (ho : Open (run (fresh d) cs) n (.elem k n ps)) {op a : String} {v : Val} (ht : (op, a, v) ∈ constants k) :
    argument cfg n op a = some (.val v) := by
  have hs := constants_table k _ ht
  simp only at hs
  split at hs
  · rename_i x hsrc
    simp only [beq_iff_eq] at hs
    subst hs
    obtain ⟨arg, h1, h2⟩ := argument_of (inv d cs) hg hn ho hsrc
    simp only [evalSrc, evalItem, Except.map, Except.ok.injEq] at h1
    subst h1
    exact h2
  · cases hs

theorem limits_table (k : Kind) : ∀ t ∈ limits k,
    (match k.pars.find? (fun p => p.key == (t.1, t.2.1)) with
      | some p => p.vals == .numbers t.2.2.1 t.2.2.2.1 t.2.2.2.2
      | none => false) = true := by
  cases k <;> decide +kernel

theorem ok_between {lo hi : Option Rat} {nan : Bool} {v : Val} (h : (Vals.numbers lo hi nan).ok v = true) :
    Between lo hi nan v := by
  have w : ∀ q, within lo hi q = true → (∀ l, lo = some l → l ≤ q) ∧ ∀ u, hi = some u → q ≤ u := by
    intro q hq
    unfold within at hq
    simp only [Bool.and_eq_true] at hq
    refine ⟨?_, ?_⟩
    · rintro l rfl; simpa using hq.1
    · rintro u rfl; simpa using hq.2
  cases v with
  | nan => exact .inl ⟨rfl, h⟩
  | num q => exact .inr ⟨q, .inl rfl, w q h⟩
  | bool b => exact .inr ⟨_, .inr ⟨b, rfl, rfl⟩, w _ h⟩
  | str => cases h
  | arr => cases h
  | none => cases h
  | tuple => cases h
  | list => cases h

/-- The value of a parameter passed its validator. -/
theorem value_ok (d : String) (cs : List Cmd) {n sub par : String} {k : Kind} {ps : Params} {v : Val} {p : Par}
    (ho : Open (run (fresh d) cs) n (.elem k n ps)) (hv : Value (run (fresh d) cs) n sub par v) (hp : p ∈ k.pars)
    (hk : p.key = (sub, par)) : p.vals.ok v = true := by
  obtain ⟨i, hi, hv⟩ := hv
  have : i = .elem k n ps := Option.some.inj (hi.symm.trans ho)
  subst this
  have hw : WF k.pars ps := ((inv d cs).name n _ (Dict.mem_of_get? ho)).2.wf
  exact hw.ok p hp v (hk ▸ hv)

/-- In every session, every time, amplitude and frequency is a number within its limits (or NaN, where this is allowed). -/
theorem within_limits (d : String) (cs : List Cmd) {n : String} {k : Kind} {ps : Params}
    (ho : Open (run (fresh d) cs) n (.elem k n ps)) {sub par : String} {lo hi : Option Rat} {undefined : Bool}
    (ht : (sub, par, lo, hi, undefined) ∈ limits k) {v : Val} (hv : Value (run (fresh d) cs) n sub par v) :
    Between lo hi undefined v := by
  have hs := limits_table k _ ht
  simp only at hs
  split at hs
  · rename_i p hp
    simp only [beq_iff_eq] at hs
    have := value_ok d cs ho hv (List.mem_of_find?_eq_some hp) (by simpa using List.find?_some hp)
    rw [hs] at this
    exact ok_between this
  · cases hs

theorem choices_table (k : Kind) : ∀ t ∈ choices k,
    (match k.pars.find? (fun p => p.key == (t.1, t.2.1)) with
      | some p => p.vals == .oneOf t.2.2
      | none => false) = true := by
  cases k <;> decide +kernel

/-- Names of pulse shapes and the like are known ones. -/
theorem known_choice (d : String) (cs : List Cmd) {n : String} {k : Kind} {ps : Params}
    (ho : Open (run (fresh d) cs) n (.elem k n ps)) {sub par : String} {names : List String}
    (ht : (sub, par, names) ∈ choices k) {v : Val} (hv : Value (run (fresh d) cs) n sub par v) :
    ∃ x ∈ names, v = .str x := by
  have hs := choices_table k _ ht
  simp only at hs
  split at hs
  · rename_i p hp
    simp only [beq_iff_eq] at hs
    have := value_ok d cs ho hv (List.mem_of_find?_eq_some hp) (by simpa using List.find?_some hp)
    rw [hs] at this
    cases v with
    | str x => exact ⟨x, by simpa [Vals.ok] using this, rfl⟩
    | _ => cases this
  · cases hs

/-- The value of a parameter by default. -/
def Dflt.value (n : String) : Dflt → Val
  | .val v => v
  | .port s => .str (n ++ s)
  | .unlessNone v => v

/-- The default in the code is the documented one. -/
def Dflt.is : Dflt → Preset → Bool
  | .val v, .value w => v == w
  | .unlessNone v, .value w => v == w
  | .port s, .named x => s == x
  | _, _ => false

theorem Dflt.is_spec {d : Dflt} {p : Preset} (h : d.is p = true) (n : String) : d.value n = p.of n := by
  cases d <;> cases p <;> simp_all [Dflt.is, Dflt.value, Preset.of]

theorem defaults_table (k : Kind) : ∀ t ∈ defaults k,
    (k.pars.any fun p => p.key == (t.1, t.2.1) && p.dflt.is t.2.2) = true := by
  cases k <;> decide +kernel

theorem build_keeps_nan {all : List Par} {name : String} {kw : Params} {k : String × String} :
    ∀ (rest : List Par) (ps ps' : Params), build all name kw rest ps = .ok ps' → k ∉ rest.map Par.key →
      Dict.get? ps k = some .nan → Dict.get? ps' k = some .nan := by
  intro rest
  induction rest with
  | nil => intro ps ps' h _ hv; simp only [build, Except.ok.injEq] at h; subst h; exact hv
  | cons p rest ih =>
    intro ps ps' h hn hv
    simp only [build] at h
    split at h
    · simp only [List.map_cons, List.mem_cons, not_or] at hn
      refine ih _ _ h hn.2 ?_
      rw [get?_assign, get?_append, hv]
      show some (after _ _ _ _ _) = _
      simp only [Option.some.injEq]
      unfold after
      rw [if_neg hn.1]
      split <;> rfl
    · cases h

theorem build_default {all : List Par} (g : Good all) {name : String} {kw : Params} {p : Par}
    (hkw : Dict.get? kw p.key = none) (hnan : p.nested = true → p.dflt = .val .nan) :
    ∀ (rest done : List Par) (ps ps' : Params), all = done ++ rest → build all name kw rest ps = .ok ps' → p ∈ rest →
      Dict.keys ps = done.map Par.key → Dict.get? ps' p.key = some (p.dflt.value name) := by
  cases hn : p.nested with
  | false =>
    intro rest done ps ps' h1 h2 h3 h4
    rw [build_value g hn rest done ps ps' h1 h2 h3 h4, hkw]
    cases p.dflt <;> rfl
  | true =>
    have hd := hnan hn
    rw [hd]
    intro rest
    induction rest with
    | nil => intro _ _ _ _ _ h; cases h
    | cons q rest ih =>
      intro done ps ps' hall h hp hkeys
      simp only [build] at h
      split at h
      · have hkeys' : Dict.keys (assign all (ps ++ [((q.sub, q.name), Val.none)]) q
            (initial name q.dflt (Dict.get? kw (q.sub, q.name)))) = (done ++ [q]).map Par.key := by
          rw [keys_assign]
          simp only [Dict.keys, List.map_append, List.map_cons, List.map_nil] at hkeys ⊢
          rw [hkeys]; rfl
        by_cases e : p = q
        · subst e
          have hnd := g.nodup
          rw [hall, List.map_append, List.map_cons] at hnd
          have hnd2 := List.nodup_append.mp hnd
          refine build_keeps_nan rest _ _ h (List.nodup_cons.mp hnd2.2.1).1 ?_
          have hnone : Dict.get? ps p.key = none := by
            rw [Dict.get?_eq_none_iff, hkeys]
            intro hm
            exact hnd2.2.2 _ hm _ (by simp) rfl
          rw [get?_assign, get?_append, hnone]
          have : Dict.get? kw (p.sub, p.name) = none := hkw
          simp [Dict.get?_cons, Par.key, after, this, hd, initial]
        · have : p ∈ rest := by
            simp only [List.mem_cons] at hp
            exact hp.resolve_left e
          exact ih (done ++ [q]) _ _ (by simp [hall]) h this hkeys'
      · cases h

theorem nested_nan (k : Kind) : ∀ p ∈ k.pars, p.nested = true → p.dflt = .val .nan := by
  cases k <;> decide +kernel

/-- A new element has the documented default for what is not given to its constructor. -/
theorem default_values (d : String) (h : List Cmd) {k : Kind} {n sub par : String} {kw : Params} {f : Preset} {s1 : St}
    (hok : step (run (fresh d) h) (.newElem k n kw) = .ok s1) (hkw : (sub, par) ∉ Dict.keys kw)
    (ht : (sub, par, f) ∈ defaults k) : Value s1 n sub par (f.of n) := by
  have hs := defaults_table k _ ht
  simp only [List.any_eq_true, Bool.and_eq_true, beq_iff_eq] at hs
  obtain ⟨p, hp, hk, hf⟩ := hs
  revert hok
  generalize run (fresh d) h = s
  intro hok
  simp only [step, bind, Except.bind] at hok
  cases hm : makeElem k n kw with
  | error e => rw [hm] at hok; cases hok
  | ok i =>
    rw [hm] at hok; simp only at hok
    cases hr : register s.reg i with
    | error e => rw [hr] at hok; cases hok
    | ok r =>
      rw [hr] at hok; simp only [pure, Except.pure, Except.ok.injEq] at hok; subst hok
      obtain ⟨ps, rfl, hb, _⟩ := makeElem_ok hm
      obtain ⟨hfree, rfl⟩ := register_ok hr
      have hval := build_default (good_kind k) (p := p) ((Dict.get?_eq_none_iff _ _).mpr (hk ▸ hkw)) (nested_nan k p hp)
        k.pars [] [] ps rfl hb hp rfl
      refine ⟨.elem k n ps, ?_, ?_⟩
      · simp only [Open]
        rw [get?_append, (Dict.get?_eq_none_iff s.reg n).mpr hfree]
        simp [Dict.get?_cons, Instr.name]
      · simp only [Instr.params]
        rw [← hk, hval, Dflt.is_spec hf n]

end Verif.Device
