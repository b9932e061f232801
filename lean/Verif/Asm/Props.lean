/-
C72: inline assembly does in the program what it does alone.
-/
import Verif.Asm.Lemmas
import Verif.Experiments.Labels

set_option linter.unusedSimpArgs false
set_option linter.unusedVariables false

namespace Verif.Asm

open Spec

/-- The renaming of registers. -/
def rho (M : List (Name × Name)) (x : Name) : Name := (M.lookup x).getD x

theorem ren_reg (pre : Name) (M : List (Name × Name)) (n : Name) : ren pre M ('R' :: n) = rho M ('R' :: n) := rfl

theorem ren_other {pre : Name} {M : List (Name × Name)} {a : Name} (h1 : ¬ IsReg a) (h2 : ∀ l, a ≠ '@' :: l) :
    ren pre M a = a := by
  rw [ren]
  · intro n hn; exact h1 ⟨n, hn⟩
  · intro n hn; exact h2 n hn

theorem ren_label (pre : Name) (M : List (Name × Name)) (l : Name) : ren pre M ('@' :: l) = '@' :: (pre ++ l) := rfl

theorem operand_other {R : Regs} {a : Name} (h1 : ¬ IsReg a) (h2 : ∀ l, a ≠ '@' :: l) : operand R a = .imm a := by
  rw [operand]
  · intro n hn; exact h1 ⟨n, hn⟩
  · intro n hn; exact h2 n hn

/-- Cases of an argument. -/
theorem arg_cases (a : Name) : (∃ n, a = 'R' :: n) ∨ (∃ l, a = '@' :: l) ∨ (¬ IsReg a ∧ ∀ l, a ≠ '@' :: l) := by
  by_cases h1 : IsReg a
  · exact .inl h1
  · by_cases h2 : ∃ l, a = '@' :: l
    · exact .inr (.inl h2)
    · exact .inr (.inr ⟨h1, fun l hl => h2 ⟨l, hl⟩⟩)

section
variable {block : List Line} {M : List (Name × Name)} {pre : Name}

/-- Registers of the block and their images. -/
structure RenOk (block : List Line) (M : List (Name × Name)) : Prop where
  keys : ∀ a, a ∈ M.map Prod.fst ↔ RegOf block a
  nodup : (M.map Prod.fst).Nodup
  vals : (M.map Prod.snd).Nodup
  regs : ∀ r ∈ M.map Prod.snd, IsReg r

theorem RenOk.mem (h : RenOk block M) {a : Name} (ha : RegOf block a) : (a, rho M a) ∈ M := by
  cases hl : M.lookup a with
  | none => exact absurd ((h.keys a).mpr ha) (lookup_none.mp hl)
  | some v =>
    have : rho M a = v := by unfold rho; rw [hl]; rfl
    rw [this]
    exact lookup_some hl

theorem RenOk.reg (h : RenOk block M) {a : Name} (ha : RegOf block a) : IsReg (rho M a) :=
  h.regs _ (List.mem_map.mpr ⟨_, h.mem ha, rfl⟩)

theorem RenOk.inj (h : RenOk block M) {a b : Name} (ha : RegOf block a) (hb : RegOf block b)
    (he : rho M a = rho M b) : a = b := by
  have := List.inj_on_of_nodup_map h.vals (h.mem ha) (h.mem hb) he
  exact (Prod.mk.inj this).1

/-- Registers of the program and of the block alone. -/
structure Agree (block : List Line) (M : List (Name × Name)) (R₀ R r : Regs) : Prop where
  eq : ∀ x, RegOf block x → R (rho M x) = r x
  rest : ∀ x, x ∉ M.map Prod.snd → R x = R₀ x

theorem operands (h : RenOk block M) {R₀ R r : Regs} (hA : Agree block M R₀ R r) {l : Line} (hl : l ∈ block) :
    (l.args.map (ren pre M)).map (operand R) = l.args.map (operand r) := by
  rw [List.map_map]
  apply List.map_congr_left
  intro a ha
  simp only [Function.comp]
  rcases arg_cases a with ⟨n, rfl⟩ | ⟨n, rfl⟩ | ⟨h1, h2⟩
  · have hr : RegOf block ('R' :: n) := ⟨⟨n, rfl⟩, l, hl, ha⟩
    rw [ren_reg]
    obtain ⟨m, hm⟩ := h.reg hr
    have := hA.eq _ hr
    rw [hm] at this ⊢
    simp only [operand, this]
  · rfl
  · rw [ren_other h1 h2, operand_other h1 h2, operand_other h1 h2]

theorem write_agree (h : RenOk block M) {R₀ : Regs} {l : Line} (hl : l ∈ block) :
    ∀ (ws : List (Nat × Nat)) (R r : Regs), Agree block M R₀ R r →
      Agree block M R₀ (write (l.args.map (ren pre M)) ws R) (write l.args ws r)
  | [], R, r, hA => hA
  | (i, v) :: ws, R, r, hA => by
    cases hi : l.args[i]? with
    | none =>
      have h1 : write l.args ((i, v) :: ws) r = write l.args ws r := by rw [write, hi]
      have h2 : write (l.args.map (ren pre M)) ((i, v) :: ws) R = write (l.args.map (ren pre M)) ws R := by
        rw [write, List.getElem?_map, hi]; rfl
      rw [h1, h2]
      exact write_agree h hl ws R r hA
    | some a =>
      have ha : a ∈ l.args := List.mem_of_getElem? hi
      rcases arg_cases a with ⟨n, rfl⟩ | ⟨n, rfl⟩ | ⟨h1, h2⟩
      · have hr : RegOf block ('R' :: n) := ⟨⟨n, rfl⟩, l, hl, ha⟩
        obtain ⟨m, hm⟩ := h.reg hr
        have h1 : write l.args ((i, v) :: ws) r = write l.args ws (fun x => if x = 'R' :: n then v else r x) := by
          rw [write, hi]
          rfl
        have h2 : write (l.args.map (ren pre M)) ((i, v) :: ws) R =
            write (l.args.map (ren pre M)) ws (fun x => if x = rho M ('R' :: n) then v else R x) := by
          rw [write, List.getElem?_map, hi, Option.map_some, ren_reg, hm]
          rfl
        rw [h1, h2]
        apply write_agree h hl
        constructor
        · intro x hx
          by_cases hxn : x = 'R' :: n
          · subst hxn; simp
          · have : rho M x ≠ rho M ('R' :: n) := fun he => hxn (h.inj hx hr he)
            simp only [hxn, this, if_false]
            exact hA.eq x hx
        · intro x hx
          have : x ≠ rho M ('R' :: n) := fun he => hx (he ▸ List.mem_map.mpr ⟨_, h.mem hr, rfl⟩)
          simp only [this, if_false]
          exact hA.rest x hx
      · have h1 : write l.args ((i, v) :: ws) r = write l.args ws r := by
          rw [write, hi]
          split
          · rename_i heq; simp at heq
          · rfl
        have h2 : write (l.args.map (ren pre M)) ((i, v) :: ws) R = write (l.args.map (ren pre M)) ws R := by
          rw [write, List.getElem?_map, hi, Option.map_some, ren_label]
          split
          · rename_i heq; simp at heq
          · rfl
        rw [h1, h2]
        exact write_agree h hl ws R r hA
      · have h3 : write l.args ((i, v) :: ws) r = write l.args ws r := by
          rw [write, hi]
          split
          · rename_i heq; simp only [Option.some.injEq] at heq; exact absurd ⟨_, heq⟩ h1
          · rfl
        have h4 : write (l.args.map (ren pre M)) ((i, v) :: ws) R = write (l.args.map (ren pre M)) ws R := by
          rw [write, List.getElem?_map, hi, Option.map_some, ren_other h1 h2]
          split
          · rename_i heq; simp only [Option.some.injEq] at heq; exact absurd ⟨_, heq⟩ h1
          · rfl
        rw [h3, h4]
        exact write_agree h hl ws R r hA

/-! ### Lines and labels -/

theorem kept_succ {P : List Line} {k : Nat} {l : Line} (h : P[k]? = some l) :
    kept P (k + 1) = kept P k + (if l.blank then 0 else 1) := by
  unfold kept
  rw [List.take_add_one, h, List.filter_append, List.length_append]
  congr 1
  cases hb : l.blank <;> simp [hb]

theorem kept_getElem : ∀ (P : List Line) (k : Nat) (l : Line), P[k]? = some l → l.blank = false →
    (P.filter (fun l => !l.blank))[kept P k]? = some l
  | [], k, l, h, _ => by simp at h
  | x :: P, 0, l, h, hb => by
    simp only [List.getElem?_cons_zero, Option.some.injEq] at h
    subst h
    rw [List.filter_cons_of_pos (by simp [hb])]
    rfl
  | x :: P, k + 1, l, h, hb => by
    rw [List.getElem?_cons_succ] at h
    have ih := kept_getElem P k l h hb
    unfold kept at ih ⊢
    rw [List.take_succ_cons]
    cases hx : x.blank
    · rw [List.filter_cons_of_pos (by simp [hx]), List.filter_cons_of_pos (by simp [hx]), List.length_cons,
        List.getElem?_cons_succ]
      exact ih
    · rw [List.filter_cons_of_neg (by simp [hx]), List.filter_cons_of_neg (by simp [hx])]
      exact ih

theorem findLabel_kept (pre : Name) (M : List (Name × Name)) (l : Name) : ∀ P : List Line,
    findLabel ((P.filter (fun l => !l.blank)).map (renLine pre M)) (pre ++ l) = (findLabel P l).map (kept P)
  | [] => rfl
  | x :: P => by
    have ih := findLabel_kept pre M l P
    unfold findLabel at ih ⊢
    cases hx : x.blank
    · rw [List.filter_cons_of_pos (by simp [hx]), List.map_cons, List.findIdx?_cons, List.findIdx?_cons]
      have : decide ((renLine pre M x).label = some (pre ++ l)) = decide (x.label = some l) := by
        unfold renLine
        cases x.label <;> simp
      rw [this]
      cases decide (x.label = some l)
      · simp only [Bool.false_eq_true, if_false, ih, Option.map_map]
        congr 1
        funext k
        simp [Function.comp, kept, hx]
      · simp [kept]
    · rw [List.filter_cons_of_neg (by simp [hx]), List.findIdx?_cons]
      have hl : x.label = none := (blank_args hx).1
      simp only [hl, reduceCtorEq, decide_false, Bool.false_eq_true, if_false, ih, Option.map_map]
      congr 1
      funext k
      simp [Function.comp, kept, hx]

/-- A label of the block in the program. -/
theorem findLabel_isolated {before after : List Line} (hiso : Isolated before after pre block) {l : Name}
    (hl : LabelOf block l) :
    findLabel (before ++ (block.filter (fun l => !l.blank)).map (renLine pre M) ++ after) (pre ++ l) =
      (findLabel block l).map (fun k => before.length + kept block k) := by
  have hno : ∀ xs : List Line, (∀ x ∈ xs, x.label ≠ some (pre ++ l)) →
      xs.findIdx? (fun x => decide (x.label = some (pre ++ l))) = none := by
    intro xs h
    rw [List.findIdx?_eq_none_iff]
    intro x hx
    simpa using h x hx
  have hb := hno before (fun x hx => hiso l hl x (List.mem_append_left _ hx))
  have ha := hno after (fun x hx => hiso l hl x (List.mem_append_right _ hx))
  have hk := findLabel_kept pre M l block
  unfold findLabel at hk ⊢
  rw [List.findIdx?_append, List.findIdx?_append, hb, ha, hk]
  simp only [Option.none_or, Option.map_none, Option.or_none, Option.map_map]
  cases block.findIdx? (fun x => decide (x.label = some l)) with
  | none => rfl
  | some k => simp [Nat.add_comm]

/-! ### One line -/

variable {W : Type} {before after : List Line}

theorem line_at {k : Nat} {l : Line} (h : block[k]? = some l) (hb : l.blank = false) :
    (before ++ (block.filter (fun l => !l.blank)).map (renLine pre M) ++ after)[before.length + kept block k]? =
      some (renLine pre M l) := by
  have h1 : ((block.filter (fun l => !l.blank)).map (renLine pre M))[kept block k]? = some (renLine pre M l) := by
    rw [List.getElem?_map, kept_getElem block k l h hb]; rfl
  have hlt := (List.getElem?_eq_some_iff.mp h1).1
  rw [List.append_assoc, List.getElem?_append_right (by omega), Nat.add_sub_cancel_left,
    List.getElem?_append_left hlt, h1]

theorem goesTo_iso (hren : RenOk block M) (hiso : Isolated before after pre block) {k : Nat} {l : Line}
    (hk : block[k]? = some l) (hb : l.blank = false) (n : Next) :
    goesTo (before ++ (block.filter (fun l => !l.blank)).map (renLine pre M) ++ after)
      (before.length + kept block k) (l.args.map (ren pre M)) n =
      (goesTo block k l.args n).map (fun j => before.length + kept block j) := by
  cases n with
  | fall => simp [goesTo, kept_succ hk, hb, Nat.add_assoc]
  | halt => rfl
  | jump i =>
    simp only [goesTo]
    rw [List.getElem?_map]
    cases hi : l.args[i]? with
    | none => rfl
    | some a =>
      have ha : a ∈ l.args := List.mem_of_getElem? hi
      have hl : l ∈ block := List.mem_of_getElem? hk
      simp only [Option.map_some]
      rcases arg_cases a with ⟨n, rfl⟩ | ⟨n, rfl⟩ | ⟨h1, h2⟩
      · have hr : RegOf block ('R' :: n) := ⟨⟨n, rfl⟩, l, hl, ha⟩
        obtain ⟨m, hm⟩ := hren.reg hr
        rw [ren_reg, hm]
        rfl
      · rw [ren_label]
        exact findLabel_isolated hiso ⟨l, hl, ha⟩
      · rw [ren_other h1 h2]
        split
        · rename_i heq; simp only [Option.some.injEq] at heq; exact absurd heq (h2 _)
        · rfl

/-- One line of the block, in the program. -/
theorem step_iso (hren : RenOk block M) (hiso : Isolated before after pre block) (μ : Meaning W) {R₀ R r : Regs}
    (hA : Agree block M R₀ R r) {k : Nat} {w : W} {l : Line} (hk : block[k]? = some l) (hb : l.blank = false) :
    (step μ block (k, r, w) = none →
      step μ (before ++ (block.filter (fun l => !l.blank)).map (renLine pre M) ++ after)
        (before.length + kept block k, R, w) = none) ∧
    ∀ s', step μ block (k, r, w) = some s' → ∃ R', Agree block M R₀ R' s'.2.1 ∧
      step μ (before ++ (block.filter (fun l => !l.blank)).map (renLine pre M) ++ after)
        (before.length + kept block k, R, w) = some (before.length + kept block s'.1, R', s'.2.2) := by
  have hl : l ∈ block := List.mem_of_getElem? hk
  have hat := line_at (before := before) (after := after) (pre := pre) (M := M) hk hb
  have hi : (renLine pre M l).instr = l.instr := rfl
  have ha : (renLine pre M l).args = l.args.map (ren pre M) := rfl
  unfold step
  simp only [hat, hk, hi, ha]
  by_cases h0 : l.instr = []
  · simp only [h0, if_true]
    refine ⟨by simp, ?_⟩
    intro s' hs
    simp only [Option.some.injEq] at hs
    subst hs
    refine ⟨R, hA, ?_⟩
    rw [kept_succ hk, hb]
    rfl
  · simp only [h0, if_false]
    rw [operands hren hA hl, goesTo_iso hren hiso hk hb]
    cases hg : goesTo block k l.args (μ l.instr (l.args.map (operand r)) w).2.2 with
    | none => simp
    | some j =>
      refine ⟨by simp, ?_⟩
      intro s' hs
      simp only [Option.map_some, Option.some.injEq] at hs
      subst hs
      exact ⟨_, write_agree hren hl _ _ _ hA, rfl⟩

/-- The block in the program does what it does alone. -/
theorem steps_iso (hren : RenOk block M) (hiso : Isolated before after pre block) (μ : Meaning W) {R₀ : Regs}
    {s s' : State W} (h : Steps μ block s s') {R : Regs} (hA : Agree block M R₀ R s.2.1) :
    ∃ R', Agree block M R₀ R' s'.2.1 ∧
      Steps μ (before ++ (block.filter (fun l => !l.blank)).map (renLine pre M) ++ after)
        (before.length + kept block s.1, R, s.2.2) (before.length + kept block s'.1, R', s'.2.2) := by
  induction h with
  | refl => exact ⟨R, hA, .refl⟩
  | tail _ hst ih =>
    rename_i b c _
    obtain ⟨R1, hA1, hs1⟩ := ih
    cases hk : block[b.1]? with
    | none => simp [step, hk] at hst
    | some l =>
      cases hb : l.blank with
      | false =>
        obtain ⟨R2, hA2, hs2⟩ := (step_iso hren hiso μ hA1 (w := b.2.2) hk hb).2 c hst
        exact ⟨R2, hA2, hs1.tail hs2⟩
      | true =>
        unfold step at hst
        simp only [hk, (blank_args hb).2.1, if_true, Option.some.injEq] at hst
        subst hst
        refine ⟨R1, hA1, ?_⟩
        simp only [kept_succ hk, hb, if_true, Nat.add_zero]
        exact hs1

end

/-! ### The block in the program -/

/-- **C72.** A block of assembly is put into a program and others come after it.  If the labels of the block are not
labels of the rest, the block does what it does alone.  Its registers are available again afterwards. -/
theorem injected {q q' : Qasm} {safe : Bool} {block : List Line} {d : Rat}
    (h : inject q safe block d = .ok q') (hav : RegList q.avail) :
    ∃ emitted : List Line, q'.instrs = q.instrs ++ emitted ∧ emitted.length = kept block block.length ∧
      q'.avail = q.avail ∧ q'.elapsed = q.elapsed + Numeric.pyRound (d * 1000000000) ∧
      ∀ after, Isolated q.instrs after (labelPrefix safe q.instrs.length) block →
        RunsAs (q'.instrs ++ after) q.instrs.length q.avail block := by
  obtain ⟨M, rest, hall, hkn, hkeys, hne, rfl⟩ := inject_spec h hav.1
  have hsub : ∀ r ∈ M.map Prod.snd, r ∈ q.avail := fun r hr => hall ▸ List.mem_append_left _ hr
  have hren : RenOk block M := ⟨hkeys, hkn, (List.nodup_append.mp (hall ▸ hav.1)).1,
    fun r hr => hav.2 r (hsub r hr)⟩
  refine ⟨_, rfl, ?_, rfl, rfl, ?_⟩
  · rw [List.length_map]; unfold kept; rw [List.take_length]
  · intro after hiso
    refine ⟨rho M, ?_, fun x y hx hy he => hren.inj hx hy he, ?_⟩
    · intro x hx
      exact hsub _ (List.mem_map.mpr ⟨_, hren.mem hx, rfl⟩)
    intro W μ R w s' hs
    obtain ⟨R', hA, hst⟩ := steps_iso hren hiso μ (R₀ := R) hs (R := R) ⟨fun _ _ => rfl, fun _ _ => rfl⟩
    refine ⟨R', hst, hA.eq, fun x hx => hA.rest x (fun hm => hx (hsub x hm)), ?_⟩
    intro hlt hnone
    cases hk : block[s'.1]? with
    | none => rw [List.getElem?_eq_none_iff] at hk; omega
    | some l =>
      cases hb : l.blank with
      | false => exact (step_iso hren hiso μ hA (w := s'.2.2) hk hb).1 hnone
      | true =>
        unfold step at hnone
        simp [hk, (blank_args hb).2.1] at hnone

/-! ### Labels of different blocks -/

theorem prefix_inj {m n : Nat} {s t : Name} (h : labelPrefix true m ++ s = labelPrefix true n ++ t) : m = n := by
  unfold labelPrefix at h
  simp only [if_true, List.append_assoc, List.append_cancel_left_eq] at h
  have hd := Experiments.digits_split _ _ _ _ (Experiments.D_digit m) (Experiments.D_digit n)
    (fun c hc => by
      have : c = '_' := by simpa using hc.symm
      subst this; decide)
    (fun c hc => by
      have : c = '_' := by simpa using hc.symm
      subst this; decide) h
  exact Experiments.D_inj hd.1

/-- What is added to a program. -/
theorem build_labels : ∀ (ps : List Piece) {q q' : Qasm}, build q ps = .ok q' → RegList q.avail →
    (∀ p ∈ ps, Proper p) → RegList q'.avail ∧ ∃ new, q'.instrs = q.instrs ++ new ∧
      ∀ x ∈ new, Ours x ∨ ∃ n s, x.label = some (labelPrefix true n ++ s) ∧ q.instrs.length ≤ n ∧
        n < q'.instrs.length
  | [], q, q', h, hav, _ => by
    simp only [build, Except.ok.injEq] at h
    subst h
    exact ⟨hav, [], by simp, by simp⟩
  | .code ls av el :: ps, q, q', h, hav, hp => by
    rw [build] at h
    obtain ⟨ho, ha⟩ := hp _ List.mem_cons_self
    obtain ⟨h1, new, h2, h3⟩ := build_labels ps h ha (fun p hp' => hp p (List.mem_cons_of_mem _ hp'))
    refine ⟨h1, ls ++ new, by rw [h2, List.append_assoc], ?_⟩
    intro x hx
    rcases List.mem_append.mp hx with hx | hx
    · exact .inl (ho x hx)
    · rcases h3 x hx with h | ⟨n, s, hn, hle, hlt⟩
      · exact .inl h
      · refine .inr ⟨n, s, hn, ?_, hlt⟩
        simp only [List.length_append] at hle
        omega
  | .block safe ls d :: ps, q, q', h, hav, hp => by
    rw [build] at h
    obtain ⟨q1, hq1, h⟩ := bind_ok h
    have hs : safe = true := hp _ List.mem_cons_self
    subst hs
    obtain ⟨M, rest, hall, hkn, hkeys, hne, rfl⟩ := inject_spec hq1 hav.1
    obtain ⟨h1, new, h2, h3⟩ := build_labels ps h hav (fun p hp' => hp p (List.mem_cons_of_mem _ hp'))
    refine ⟨h1, (ls.filter (fun l => !l.blank)).map (renLine (labelPrefix true q.instrs.length) M) ++ new,
      by rw [h2, List.append_assoc], ?_⟩
    intro x hx
    rcases List.mem_append.mp hx with hx | hx
    · obtain ⟨l, hl, rfl⟩ := List.mem_map.mp hx
      cases hlab : l.label with
      | none => left; intro s hs; simp [renLine, hlab] at hs
      | some s =>
        refine .inr ⟨q.instrs.length, s, by simp [renLine, hlab], Nat.le_refl _, ?_⟩
        have := List.length_pos_of_mem hx
        rw [h2]
        simp only [List.length_append]
        omega
    · rcases h3 x hx with h | ⟨n, s, hn, hle, hlt⟩
      · exact .inl h
      · refine .inr ⟨n, s, hn, ?_, hlt⟩
        simp only [List.length_append] at hle
        omega

theorem build_append : ∀ (ps qs : List Piece) {q q' : Qasm}, build q (ps ++ qs) = .ok q' →
    ∃ q1, build q ps = .ok q1 ∧ build q1 qs = .ok q'
  | [], qs, q, q', h => ⟨q, rfl, h⟩
  | .code ls av el :: ps, qs, q, q', h => by
    rw [List.cons_append, build] at h
    rw [build]
    exact build_append ps qs h
  | .block safe ls d :: ps, qs, q, q', h => by
    rw [List.cons_append, build] at h
    obtain ⟨q1, hq1, h⟩ := bind_ok h
    obtain ⟨q2, h2, h3⟩ := build_append ps qs h
    exact ⟨q2, by rw [build, hq1]; exact h2, h3⟩

theorem not_ours {n : Nat} {s : Name} {x : Line} (h : Ours x) : x.label ≠ some (labelPrefix true n ++ s) := by
  intro hl
  refine h _ hl ?_
  unfold labelPrefix
  simp only [if_true, List.append_assoc]
  exact List.prefix_append _ _

/-- **C72.** In a program made of code of the compiler and any number of blocks of assembly (with safe labels), each
block does what it does alone, from the line on where it was put: the labels of other blocks, even of the same block
used again, are different. -/
theorem block_runs {A : List Name} (hA : RegList A) {ps qs : List Piece} {block : List Line} {d : Rat} {final : Qasm}
    (h : build ⟨[], A, 0⟩ (ps ++ .block true block d :: qs) = .ok final) (hps : ∀ p ∈ ps, Proper p)
    (hqs : ∀ p ∈ qs, Proper p) :
    ∃ q, build ⟨[], A, 0⟩ ps = .ok q ∧ RunsAs final.instrs q.instrs.length q.avail block := by
  obtain ⟨q, hq, h⟩ := build_append ps _ h
  rw [build] at h
  obtain ⟨q1, hq1, h⟩ := bind_ok h
  refine ⟨q, hq, ?_⟩
  obtain ⟨hav, b, hb, hlb⟩ := build_labels ps hq hA hps
  obtain ⟨emitted, he, hlen, hav1, _, hrun⟩ := injected hq1 hav
  obtain ⟨_, a, ha, hla⟩ := build_labels qs h (by rw [hav1]; exact hav) hqs
  rw [ha]
  apply hrun
  intro l hl x hx
  simp only [List.nil_append] at hb
  rcases List.mem_append.mp hx with hx | hx
  · rw [hb] at hx
    rcases hlb x hx with ho | ⟨n, s, hn, _, hlt⟩
    · exact not_ours ho
    · rw [hn]
      intro heq
      simp only [Option.some.injEq] at heq
      have := prefix_inj heq
      omega
  · rcases hla x hx with ho | ⟨n, s, hn, hle, _⟩
    · exact not_ours ho
    · rw [hn]
      intro heq
      simp only [Option.some.injEq] at heq
      have := prefix_inj heq
      have hpos : 0 < emitted.length := by
        rw [hlen]
        obtain ⟨y, hy, hya⟩ := hl
        have hyb : y.blank = false := by
          cases hb : y.blank with
          | false => rfl
          | true => rw [(blank_args hb).2.2] at hya; simp at hya
        unfold kept
        rw [List.take_length]
        exact List.length_pos_of_mem (List.mem_filter.mpr ⟨hy, by simp [hyb]⟩)
      rw [he, List.length_append] at hle
      omega

end Verif.Asm
