/-
C75: reading a device in a session that has other instruments.
-/
import Verif.Device.Props4

namespace Verif.Device

open Verif Verif.Device.Spec

set_option linter.unusedSimpArgs false
set_option linter.unusedVariables false

/-- The name that the instrument will have. -/
def Saved.name : Saved → String
  | .elem _ n _ => n
  | .edge _ p c _ => p ++ "_" ++ c

theorem loadInstr_name {d : Saved} {i : Instr} (h : loadInstr d = .ok i) : i.name = d.name := by
  cases d with
  | elem k n ps => obtain ⟨_, rfl, _⟩ := makeElem_ok h; rfl
  | edge k p c ps => obtain ⟨_, rfl, _⟩ := makeEdge_ok h; rfl

theorem loadInstrs_free : ∀ {ds : List (String × Saved)} {reg reg' : Registry} {is : List (String × Instr)},
    loadInstrs ds reg = .ok (is, reg') → (∀ e ∈ ds, e.2.name ∉ Dict.keys reg) ∧ ∃ more, reg' = reg ++ more := by
  intro ds
  induction ds with
  | nil =>
    intro reg reg' is h
    simp only [loadInstrs, Except.ok.injEq, Prod.mk.injEq] at h
    exact ⟨by simp, [], by simp [h.2]⟩
  | cons e ds ih =>
    intro reg reg' is h
    obtain ⟨n, d⟩ := e
    simp only [loadInstrs, bind, Except.bind] at h
    cases h1 : loadInstr d with
    | error e => rw [h1] at h; cases h
    | ok i =>
      rw [h1] at h; simp only at h
      cases h2 : register reg i with
      | error e => rw [h2] at h; cases h
      | ok r =>
        rw [h2] at h; simp only at h
        cases h3 : loadInstrs ds r with
        | error e => rw [h3] at h; cases h
        | ok x =>
          rw [h3] at h
          obtain ⟨js, r'⟩ := x
          simp only [pure, Except.pure, Except.ok.injEq, Prod.mk.injEq] at h
          obtain ⟨_, rfl⟩ := h
          obtain ⟨hf, rfl⟩ := register_ok h2
          obtain ⟨a, more, rfl⟩ := ih h3
          refine ⟨?_, (i.name, i) :: more, by simp⟩
          intro e he
          simp only [List.mem_cons] at he
          rcases he with rfl | he
          · simp only; rw [← loadInstr_name h1]; exact hf
          · intro hm
            exact a e he (by simp only [Dict.keys, List.map_append, List.mem_append] at hm ⊢; exact .inl hm)

theorem addAll_reg {mk : Instr → Cmd} (hmk : ∀ i, mk i = .addElement i ∨ mk i = .addEdge i) :
    ∀ {is : List (String × Instr)} {s s' : St}, addAll mk is s = .ok s' → s'.reg = s.reg := by
  intro is
  induction is with
  | nil => intro s s' h; simp only [addAll, Except.ok.injEq] at h; rw [h]
  | cons e is ih =>
    intro s s' h
    obtain ⟨n, i⟩ := e
    simp only [addAll, bind, Except.bind] at h
    cases hs : step s (mk i) with
    | error e => rw [hs] at h; cases h
    | ok s1 =>
      rw [hs] at h
      rw [ih h]
      rcases hmk i with e | e
      · rw [e] at hs
        simp only [step] at hs
        split at hs
        · cases hs
        · split at hs
          · cases hs
          · cases i with
            | elem => simp only [Except.ok.injEq] at hs; subst hs; rfl
            | edge => cases hs
            | other => cases hs
      · rw [e] at hs
        simp only [step] at hs
        split at hs
        · cases hs
        · cases i with
          | edge => simp only [Except.ok.injEq] at hs; subst hs; rfl
          | elem => cases hs
          | other => cases hs

theorem saveAll_names {reg : Registry} {members : List String}
    (hreg : ∀ n i, Dict.get? reg n = some i → i.name = n ∧ i.Fine) :
    ∀ {ns : List String} {ds : List (String × Saved)}, saveAll reg members ns = .ok ds →
      ∀ n ∈ ns, ∃ d, (n, d) ∈ ds ∧ d.name = n := by
  intro ns
  induction ns with
  | nil => intro ds _ n hn; cases hn
  | cons m ns ih =>
    intro ds hs n hn
    simp only [saveAll, bind, Except.bind] at hs
    cases hg : getMember reg members m with
    | error e => rw [hg] at hs; cases hs
    | ok i =>
      rw [hg] at hs; simp only at hs
      cases hd : saveInstr i with
      | error e => rw [hd] at hs; cases hs
      | ok d =>
        rw [hd] at hs; simp only at hs
        cases hr : saveAll reg members ns with
        | error e => rw [hr] at hs; cases hs
        | ok ds' =>
          rw [hr] at hs
          simp only [pure, Except.pure, Except.ok.injEq] at hs
          subst hs
          simp only [List.mem_cons] at hn
          rcases hn with rfl | hn
          · refine ⟨d, by simp, ?_⟩
            have hi : Dict.get? reg n = some i := by
              unfold getMember at hg
              split at hg
              · split at hg
                · rename_i j hj; simp only [Except.ok.injEq] at hg; rw [hj, hg]
                · cases hg
              · cases hg
            have := (hreg n i hi).1
            cases i with
            | elem k x ps => simp only [saveInstr, Except.ok.injEq] at hd; subst hd; exact this
            | edge k p c ps => simp only [saveInstr, Except.ok.injEq] at hd; subst hd; exact this
            | other => cases hd
          · obtain ⟨d', h1, h2⟩ := ih hr n hn
            exact ⟨d', by simp [h1], h2⟩

/-- Reading a device never replaces an instrument: it is refused if one of the names is in use, and everything that is open
stays as it is. -/
theorem read_keeps (d : String) (cs : List Cmd) {doc : Doc} (hs : save (run (fresh d) cs) = .ok doc) (t : St) {s' : St}
    (hl : load t.reg doc = .ok s') :
    (∀ n, n ∈ (run (fresh d) cs).dev.elements ∨ n ∈ (run (fresh d) cs).dev.edges → ∀ i, ¬ Open t n i) ∧
    ∀ n i, Open t n i → Open s' n i := by
  have h := inv d cs
  revert h hs
  generalize run (fresh d) cs = s
  intro hs h
  have hreg : ∀ n i, Dict.get? s.reg n = some i → i.name = n ∧ i.Fine := fun n i hi => h.name n i (Dict.mem_of_get? hi)
  unfold save at hs
  split at hs
  · cases hs
  · split at hs
    · simp only [bind, Except.bind] at hs
      cases h1 : saveAll s.reg s.dev.elements s.dev.elements with
      | error e => rw [h1] at hs; cases hs
      | ok els =>
        rw [h1] at hs; simp only at hs
        cases h2 : saveAll s.reg s.dev.edges s.dev.edges with
        | error e => rw [h2] at hs; cases hs
        | ok es =>
          rw [h2] at hs
          simp only [pure, Except.pure, Except.ok.injEq] at hs
          subst hs
          simp only [load, bind, Except.bind] at hl
          cases l1 : loadInstrs els t.reg with
          | error e => rw [l1] at hl; cases hl
          | ok x =>
            obtain ⟨is1, r1⟩ := x
            rw [l1] at hl; simp only at hl
            cases l2 : loadInstrs es r1 with
            | error e => rw [l2] at hl; cases hl
            | ok y =>
              obtain ⟨is2, r2⟩ := y
              rw [l2] at hl; simp only at hl
              cases a1 : addAll .addElement is1 ⟨r2, { name := s.dev.name }⟩ with
              | error e => rw [a1] at hl; cases hl
              | ok s1 =>
                rw [a1] at hl; simp only at hl
                cases a2 : addAll .addEdge is2 s1 with
                | error e => rw [a2] at hl; cases hl
                | ok s2 =>
                  rw [a2] at hl; simp only at hl
                  have e3 : s'.reg = s2.reg := by
                    simp only [step] at hl
                    split at hl
                    · simp only [Except.ok.injEq] at hl; subst hl; rfl
                    · cases hl
                  have e2 := addAll_reg (fun i => .inr rfl) a2
                  have e1 := addAll_reg (fun i => .inl rfl) a1
                  obtain ⟨f1, m1, rfl⟩ := loadInstrs_free l1
                  obtain ⟨f2, m2, rfl⟩ := loadInstrs_free l2
                  have hkeys : ∀ n i, Open t n i → n ∈ Dict.keys t.reg := fun n i hi =>
                    (Dict.get?_isSome_iff _ _).mp (by rw [show Dict.get? t.reg n = _ from hi]; rfl)
                  refine ⟨?_, ?_⟩
                  · intro n hn i hi
                    have hk := hkeys n i hi
                    rcases hn with hn | hn
                    · obtain ⟨dd, hm, hname⟩ := saveAll_names hreg h1 n hn
                      exact f1 _ hm (by rw [hname]; exact hk)
                    · obtain ⟨dd, hm, hname⟩ := saveAll_names hreg h2 n hn
                      exact f2 _ hm (by
                        simp only [hname, Dict.keys, List.map_append, List.mem_append]; exact .inl hk)
                  · intro n i hi
                    unfold Open
                    rw [e3, e2, e1]
                    simp only
                    rw [List.append_assoc, get?_append, show Dict.get? t.reg n = _ from hi]
                    rfl
    · cases hs

end Verif.Device
