/-
The lines of a block in the program: registers and labels are renamed.
-/
import Verif.Asm.Spec
import Mathlib.Data.List.Basic
import Mathlib.Data.List.Nodup
import Mathlib.Data.List.Induction
import Mathlib.Tactic.Common

set_option linter.unusedSimpArgs false
set_option linter.unusedVariables false

namespace Verif.Asm

open Spec

/-- Renaming of an argument. -/
def ren (pre : Name) (M : List (Name × Name)) : Name → Name
  | 'R' :: n => (M.lookup ('R' :: n)).getD ('R' :: n)
  | '@' :: l => '@' :: (pre ++ l)
  | a => a

/-- Renaming in a line. -/
def renLine (pre : Name) (M : List (Name × Name)) (l : Line) : Line :=
  ⟨l.label.map (pre ++ ·), l.instr, l.args.map (ren pre M), "[inline] ".toList ++ l.comment⟩

/-- Registers handed out so far, and those left. -/
structure Inv (A : List Name) (st : RegMap) : Prop where
  all : st.1.map Prod.snd ++ st.2 = A
  nodup : (st.1.map Prod.fst).Nodup
  reg : ∀ x ∈ st.1, IsReg x.1

theorem lookup_some {M : List (Name × Name)} {a v : Name} (h : M.lookup a = some v) : (a, v) ∈ M := by
  induction M with
  | nil => simp at h
  | cons x M ih =>
    obtain ⟨k, u⟩ := x
    rw [List.lookup_cons] at h
    split at h
    · rename_i hk
      have := (beq_iff_eq.mp hk)
      simp only [Option.some.injEq] at h
      subst this h
      exact List.mem_cons_self
    · exact List.mem_cons_of_mem _ (ih h)

theorem lookup_none {M : List (Name × Name)} {a : Name} : M.lookup a = none ↔ a ∉ M.map Prod.fst := by
  induction M with
  | nil => simp
  | cons x M ih =>
    obtain ⟨k, u⟩ := x
    rw [List.lookup_cons]
    split
    · rename_i hk
      simp [beq_iff_eq.mp hk]
    · rename_i hk
      have : a ≠ k := fun h => by simp [h] at hk
      simp [ih, this]

theorem lookup_prefix {M N : List (Name × Name)} (h : M <+: N) {a v : Name} (hl : M.lookup a = some v) :
    N.lookup a = some v := by
  obtain ⟨t, rfl⟩ := h
  rw [List.lookup_append, hl]
  rfl

theorem mapArg_spec {pre : Name} {A : List Name} {st st' : RegMap} {a b : Name}
    (h : mapArg pre st a = .ok (b, st')) (hI : Inv A st) :
    Inv A st' ∧ st.1 <+: st'.1 ∧ (IsReg a → ∃ v, st'.1.lookup a = some v) ∧
      (∀ k ∈ st'.1.map Prod.fst, k ∈ st.1.map Prod.fst ∨ (k = a ∧ IsReg a)) ∧ a ≠ [] ∧
      ∀ M, st'.1 <+: M → b = ren pre M a := by
  unfold mapArg at h
  split at h
  · simp at h
  · rename_i n
    split at h
    · rename_i r hr
      simp only [Except.ok.injEq, Prod.mk.injEq] at h
      obtain ⟨rfl, rfl⟩ := h
      refine ⟨hI, List.prefix_rfl, fun _ => ⟨_, hr⟩, fun k hk => .inl hk, by simp, ?_⟩
      intro M hM
      simp only [ren, lookup_prefix hM hr, Option.getD_some]
    · rename_i hnone
      split at h
      · simp at h
      · rename_i r rest hst
        simp only [Except.ok.injEq, Prod.mk.injEq] at h
        obtain ⟨rfl, rfl⟩ := h
        have hl : (st.1 ++ [('R' :: n, r)]).lookup ('R' :: n) = some r := by
          rw [List.lookup_append, hnone]; simp
        refine ⟨⟨?_, ?_, ?_⟩, List.prefix_append _ _, fun _ => ⟨r, hl⟩, ?_, by simp, ?_⟩
        · rw [← hI.all, hst]; simp
        · rw [List.map_append, List.nodup_append]
          refine ⟨hI.nodup, by simp, ?_⟩
          intro x hx y hy hxy
          simp only [List.map_cons, List.map_nil, List.mem_singleton] at hy
          rw [hxy, hy] at hx
          exact lookup_none.mp hnone hx
        · intro x hx
          rcases List.mem_append.mp hx with hx | hx
          · exact hI.reg x hx
          · rw [List.mem_singleton.mp hx]; exact ⟨n, rfl⟩
        · intro k hk
          rw [List.map_append, List.mem_append] at hk
          rcases hk with hk | hk
          · exact .inl hk
          · simp only [List.map_cons, List.map_nil, List.mem_singleton] at hk
            exact .inr ⟨hk, ⟨n, rfl⟩⟩
        · intro M hM
          simp only [ren, lookup_prefix hM hl, Option.getD_some]
  · rename_i l
    simp only [Except.ok.injEq, Prod.mk.injEq] at h
    obtain ⟨rfl, rfl⟩ := h
    refine ⟨hI, List.prefix_rfl, ?_, fun k hk => .inl hk, by simp, fun M _ => rfl⟩
    rintro ⟨n, hn⟩
    simp at hn
  · rename_i c l hR hA
    simp only [Except.ok.injEq, Prod.mk.injEq] at h
    obtain ⟨rfl, rfl⟩ := h
    refine ⟨hI, List.prefix_rfl, ?_, fun k hk => .inl hk, by simp, ?_⟩
    · rintro ⟨n, hn⟩
      simp only [List.cons.injEq] at hn
      exact absurd hn.1 (hR)
    · intro M _
      rw [ren]
      · intro n hn
        simp only [List.cons.injEq] at hn
        exact hR hn.1
      · intro n hn
        simp only [List.cons.injEq] at hn
        exact hA hn.1

theorem bind_ok {α β : Type} {x : Except Err α} {f : α → Except Err β} {y : β} (h : x.bind f = .ok y) :
    ∃ a, x = .ok a ∧ f a = .ok y := by
  cases x with
  | error e => simp [Except.bind] at h
  | ok a => exact ⟨a, rfl, h⟩

theorem mapArgs_spec {pre : Name} {A : List Name} : ∀ {as : List Name} {st st' : RegMap} {bs : List Name},
    mapArgs pre st as = .ok (bs, st') → Inv A st →
    Inv A st' ∧ st.1 <+: st'.1 ∧ (∀ a ∈ as, IsReg a → ∃ v, st'.1.lookup a = some v) ∧
      (∀ k ∈ st'.1.map Prod.fst, k ∈ st.1.map Prod.fst ∨ (k ∈ as ∧ IsReg k)) ∧ (∀ a ∈ as, a ≠ []) ∧
      ∀ M, st'.1 <+: M → bs = as.map (ren pre M)
  | [], st, st', bs, h, hI => by
    simp only [mapArgs, Except.ok.injEq, Prod.mk.injEq] at h
    obtain ⟨rfl, rfl⟩ := h
    exact ⟨hI, List.prefix_rfl, by simp, fun k hk => .inl hk, by simp, fun M _ => rfl⟩
  | a :: as, st, st', bs, h, hI => by
    rw [mapArgs] at h
    obtain ⟨⟨b, s1⟩, h1, h⟩ := bind_ok h
    obtain ⟨⟨bs', s2⟩, h2, h⟩ := bind_ok h
    simp only [Except.ok.injEq, Prod.mk.injEq] at h
    obtain ⟨rfl, rfl⟩ := h
    obtain ⟨i1, p1, l1, k1, e1, r1⟩ := mapArg_spec h1 hI
    obtain ⟨i2, p2, l2, k2, e2, r2⟩ := mapArgs_spec h2 i1
    refine ⟨i2, p1.trans p2, ?_, ?_, ?_, ?_⟩
    · intro x hx hr
      rcases List.mem_cons.mp hx with rfl | hx
      · obtain ⟨v, hv⟩ := l1 hr
        exact ⟨v, lookup_prefix p2 hv⟩
      · exact l2 x hx hr
    · intro k hk
      rcases k2 k hk with hk | ⟨hk, hr⟩
      · rcases k1 k hk with hk | ⟨rfl, hr⟩
        · exact .inl hk
        · exact .inr ⟨List.mem_cons_self, hr⟩
      · exact .inr ⟨List.mem_cons_of_mem _ hk, hr⟩
    · intro x hx
      rcases List.mem_cons.mp hx with rfl | hx
      · exact e1
      · exact e2 x hx
    · intro M hM
      rw [r1 M (p2.trans hM), r2 M hM]
      rfl

theorem blank_args {l : Line} (h : l.blank = true) : l.label = none ∧ l.instr = [] ∧ l.args = [] := by
  unfold Line.blank at h
  simp only [Bool.and_eq_true, Option.isNone_iff_eq_none, List.isEmpty_iff] at h
  exact ⟨h.1.1.1, h.1.1.2, h.1.2⟩

theorem mapLines_spec {pre : Name} {A : List Name} : ∀ {ls : List Line} {st st' : RegMap} {out : List Line},
    mapLines pre st ls = .ok (out, st') → Inv A st →
    Inv A st' ∧ st.1 <+: st'.1 ∧ (∀ a, RegOf ls a → ∃ v, st'.1.lookup a = some v) ∧
      (∀ k ∈ st'.1.map Prod.fst, k ∈ st.1.map Prod.fst ∨ RegOf ls k) ∧ (∀ l ∈ ls, ∀ a ∈ l.args, a ≠ []) ∧
      ∀ M, st'.1 <+: M → out = (ls.filter (fun l => !l.blank)).map (renLine pre M)
  | [], st, st', out, h, hI => by
    simp only [mapLines, Except.ok.injEq, Prod.mk.injEq] at h
    obtain ⟨rfl, rfl⟩ := h
    refine ⟨hI, List.prefix_rfl, ?_, fun k hk => .inl hk, by simp, fun M _ => rfl⟩
    rintro a ⟨_, l, hl, _⟩
    simp at hl
  | l :: ls, st, st', out, h, hI => by
    rw [mapLines] at h
    by_cases hb : l.blank = true
    · rw [if_pos hb] at h
      obtain ⟨i2, p2, l2, k2, e2, r2⟩ := mapLines_spec h hI
      have ha := (blank_args hb).2.2
      refine ⟨i2, p2, ?_, ?_, ?_, ?_⟩
      · rintro a ⟨hr, x, hx, hax⟩
        rcases List.mem_cons.mp hx with rfl | hx
        · rw [ha] at hax; simp at hax
        · exact l2 a ⟨hr, x, hx, hax⟩
      · intro k hk
        rcases k2 k hk with hk | ⟨hr, x, hx, hax⟩
        · exact .inl hk
        · exact .inr ⟨hr, x, List.mem_cons_of_mem _ hx, hax⟩
      · intro x hx
        rcases List.mem_cons.mp hx with rfl | hx
        · rw [ha]; simp
        · exact e2 x hx
      · intro M hM
        rw [r2 M hM, List.filter_cons_of_neg (by simp [hb])]
    · rw [if_neg hb] at h
      obtain ⟨⟨b, s1⟩, h1, h⟩ := bind_ok h
      obtain ⟨⟨bs', s2⟩, h2, h⟩ := bind_ok h
      simp only [Except.ok.injEq, Prod.mk.injEq] at h
      obtain ⟨rfl, rfl⟩ := h
      obtain ⟨i1, p1, l1, k1, e1, r1⟩ := mapArgs_spec h1 hI
      obtain ⟨i2, p2, l2, k2, e2, r2⟩ := mapLines_spec h2 i1
      refine ⟨i2, p1.trans p2, ?_, ?_, ?_, ?_⟩
      · rintro a ⟨hr, x, hx, hax⟩
        rcases List.mem_cons.mp hx with rfl | hx
        · obtain ⟨v, hv⟩ := l1 a hax hr
          exact ⟨v, lookup_prefix p2 hv⟩
        · exact l2 a ⟨hr, x, hx, hax⟩
      · intro k hk
        rcases k2 k hk with hk | ⟨hr, x, hx, hax⟩
        · rcases k1 k hk with hk | ⟨hk, hr⟩
          · exact .inl hk
          · exact .inr ⟨hr, l, List.mem_cons_self, hk⟩
        · exact .inr ⟨hr, x, List.mem_cons_of_mem _ hx, hax⟩
      · intro x hx
        rcases List.mem_cons.mp hx with rfl | hx
        · exact e1
        · exact e2 x hx
      · intro M hM
        rw [r2 M hM, r1 M (p2.trans hM), List.filter_cons_of_pos (by simp [hb])]
        rfl

theorem freeAll_spec : ∀ (rs avail : List Name), (rs ++ avail).Nodup →
    freeAll avail rs.reverse = .ok (rs ++ avail) := by
  intro rs
  induction rs using List.reverseRecOn with
  | nil => intro avail _; rfl
  | append_singleton rs r ih =>
    intro avail hnd
    rw [List.reverse_append]
    simp only [List.reverse_cons, List.reverse_nil, List.nil_append, List.singleton_append, freeAll]
    have hr : r ∉ avail := by
      rw [List.append_assoc, List.nodup_append] at hnd
      have := hnd.2.1
      simp only [List.singleton_append, List.nodup_cons] at this
      exact this.1
    rw [if_neg hr, ih (r :: avail) (by simpa using hnd)]
    simp

/-- The block in the program. -/
theorem inject_spec {q q' : Qasm} {safe : Bool} {block : List Line} {d : Rat}
    (h : inject q safe block d = .ok q') (hnd : q.avail.Nodup) :
    ∃ M : List (Name × Name), ∃ rest, M.map Prod.snd ++ rest = q.avail ∧ (M.map Prod.fst).Nodup ∧
      (∀ a, a ∈ M.map Prod.fst ↔ RegOf block a) ∧ (∀ l ∈ block, ∀ a ∈ l.args, a ≠ []) ∧
      q' = ⟨q.instrs ++ (block.filter (fun l => !l.blank)).map (renLine (labelPrefix safe q.instrs.length) M),
        q.avail, q.elapsed + Numeric.pyRound (d * 1000000000)⟩ := by
  unfold inject at h
  obtain ⟨⟨out, M, rest⟩, h1, h⟩ := bind_ok h
  obtain ⟨avail, h2, h⟩ := bind_ok h
  obtain ⟨i, p, l, k, e, r⟩ := mapLines_spec (A := q.avail) h1 ⟨rfl, by simp, by simp⟩
  simp only at h2 h i l k r
  rw [freeAll_spec _ _ (by rw [i.all]; exact hnd), i.all] at h2
  simp only [Except.ok.injEq] at h2 h
  refine ⟨M, rest, i.all, i.nodup, ?_, e, ?_⟩
  · intro a
    constructor
    · intro ha
      rcases k a ha with ha | ha
      · simp at ha
      · exact ha
    · intro ha
      obtain ⟨v, hv⟩ := l a ha
      exact List.mem_map.mpr ⟨(a, v), lookup_some hv, rfl⟩
  · rw [← h, ← h2, r M List.prefix_rfl]

end Verif.Asm
