/-
C20: removing redundant parameter updates.
-/
import Verif.Redundant.Lemmas

set_option linter.unusedSimpArgs false
set_option linter.unusedVariables false

namespace Verif.Redundant

open Verif.Flatten (Forest)

variable {S : Type}

/-- **C20** (only updates go).  The removal deletes operations and does nothing else, and every
operation that is not an update is still there, in the same order. -/
theorem removeRedundant_only_updates (ops : List (Op S)) :
    (ordered (removeRedundant ops)).Sublist (ordered ops) ∧
    (ordered (removeRedundant ops)).filter (fun o => !o.isUpd) =
      (ordered ops).filter (fun o => !o.isUpd) :=
  ⟨removal_sublist ops, removal_others ops⟩

/-- The structure of a program with brackets is determined by the order of its operations. -/
theorem structure_unique (f g : Forest (Op S)) (hf : Bracketed f) (hg : Bracketed g)
    (h : f.flatten = g.flatten) : f = g :=
  (flatten_unique f g [] [] hf hg (Or.inl rfl) (Or.inl rfl) (by simpa using h)).1

/-- The result of the removal is a program with brackets if the input is one. -/
theorem removeRedundant_structured (ops : List (Op S)) (f : Forest (Op S))
    (hf : ordered ops = f.flatten) (hb : Bracketed f) :
    ∃ g, ordered (removeRedundant ops) = g.flatten ∧ Bracketed g := by
  obtain ⟨b1, fl1, _⟩ := keepF_flatten f none hb
  obtain ⟨b2, fl2, _⟩ := keepRF_flatten (keepF none f).1 [] b1
  refine ⟨(keepRF none (keepF none f).1).1, ?_, b2⟩
  rw [ordered_removeRedundant, hf, ← fl1]
  simp only [keepR, List.append_nil] at fl2
  exact fl2.symm

/-- **C20**.  Let `f` be the program (with its loops and conditionals) before the removal and `g`
the one after it.  However often the loops run and whichever conditionals are taken, and from
whatever parameters it starts: at every time the applied parameters are the same, and the same is
played at the same times with the same parameters.  Assumption: inline assembly does not set
parameters. -/
theorem removeRedundant_same_parameters (ops : List (Op S)) (f g : Forest (Op S))
    (hf : ordered ops = f.flatten) (hbf : Bracketed f)
    (hg : ordered (removeRedundant ops) = g.flatten) (hbg : Bracketed g)
    (ha : AsmHarmless ops) (env : List Nat → Bool) (p : Params S) :
    (∀ now, appliedAt now (exec env g 0 [] 0) p = appliedAt now (exec env f 0 [] 0) p) ∧
    played (exec env g 0 [] 0) p = played (exec env f 0 [] 0) p ∧
    p.after (exec env g 0 [] 0) = p.after (exec env f 0 [] 0) := by
  obtain ⟨g', hg', hbg', h⟩ := removal_exec ops f hf hbf ha
  have : g = g' := structure_unique g g' hbg hbg' (by rw [← hg, hg'])
  subst this
  have hv : ∀ t : Trace S, vis (fun _ => true) t = t := fun t => by simp [vis]
  refine ⟨?_, ?_, ?_⟩
  · intro now
    have := (h (fun t => decide (t ≤ now)) env p).1
    unfold appliedAt
    unfold vis at this
    rw [this]
  · have := (h (fun _ => true) env p).2
    rw [hv, hv] at this
    exact this.symm
  · have := (h (fun _ => true) env p).1
    rw [hv, hv] at this
    exact this.symm

/-- **C20** (nothing redundant left).  After the removal, between an update or play and a later
update at the same time something happens for which the later update is needed: a parameter is set,
or a loop begins, or a loop or conditional ends (or it is not the next update). -/
theorem removeRedundant_no_update_after (ops : List (Op S)) (a m b : List (Op S)) (x y : Op S)
    (h : ordered (removeRedundant ops) = a ++ x :: (m ++ y :: b)) (hx : x.updates = true)
    (hy : y.isUpd = true) (ht : x.time = y.time) :
    ∃ o ∈ m, o.updates = true ∨ (∃ f, o.kind = .param f) ∨ (∃ n d, o.kind = .loop n d) ∨
      o.kind = .ret := by
  by_contra hcon
  have hq : ∀ o ∈ m, o.updates = false ∧ o.resets false = false := by
    intro o ho
    by_contra hc
    apply hcon
    refine ⟨o, ho, ?_⟩
    unfold Op.updates Op.resets at *
    cases hk : o.kind <;> rw [hk] at hc <;> simp_all
  have h1 := (final_free ops).1
  rw [h] at h1
  have h2 := FreeF_append _ _ _ h1
  have h3 := FreeF_append _ _ _ h2.2
  have h4 := h3.1
  rw [foldl_next_quiet false m _ hq] at h4
  have : drops (next false (a.foldl (next false) none) x) y = true := by
    rw [drops_iff]
    refine ⟨hy, ?_⟩
    unfold next
    rw [if_pos hx, ht]
  rw [this] at h4
  cases h4

/-- **C20** (nothing redundant left).  After the removal, between an update and a later update or
play at the same time a loop or conditional begins or ends (or it is not the next one). -/
theorem removeRedundant_no_update_before (ops : List (Op S)) (a m b : List (Op S)) (x y : Op S)
    (h : ordered (removeRedundant ops) = a ++ x :: (m ++ y :: b)) (hx : x.isUpd = true)
    (hy : y.updates = true) (ht : x.time = y.time) :
    ∃ o ∈ m, o.updates = true ∨ o.isControl = true := by
  by_contra hcon
  have hq : ∀ o ∈ m, o.updates = false ∧ o.resets true = false := by
    intro o ho
    by_contra hc
    apply hcon
    refine ⟨o, ho, ?_⟩
    unfold Op.updates Op.resets Op.isControl at *
    cases hk : o.kind <;> rw [hk] at hc <;> simp_all
  have h1 := (final_free ops).2
  rw [h] at h1
  have h2 := (FreeR_append _ _ h1).1
  rw [keepR_quiet m _ hq] at h2
  by_cases hd : drops (keepR b).2 y = true
  · have h3 : FreeR (y :: b) := by
      have := (FreeR_append _ _ h1).2
      exact FreeR_append _ _ this
    rw [h3.1] at hd
    cases hd
  · have e : (keepR (y :: b)).2 = some y.time := by
      unfold keepR
      rw [if_neg hd]
      simp [next, hy]
    rw [e] at h2
    have : drops (some y.time) x = true := by
      rw [drops_iff]
      exact ⟨hx, by rw [ht]⟩
    rw [this] at h2
    cases h2

/-- **C20** (alignment).  Compilation accepts the updates exactly if none is at the very end of the
schedule and none is followed, at the same time, by the begin or end of a loop or conditional. -/
theorem validateAlignment_iff (total : Int) (ops : List (Op S)) :
    validateAlignment total ops = .ok () ↔
      ∀ a u b, ordered ops = a ++ u :: b → u.isUpd = true →
        u.time ≠ total ∧ ∀ c ∈ b, c.isControl = true → c.time ≠ u.time := by
  unfold validateAlignment
  rw [alignLoop_ok]
  have hs := StableSort.sortBy_sorted Op.time ops
  have key : ∀ a u b, ordered ops = a ++ u :: b →
      ((b.reverse.foldl (fun s o => if o.isUpd then s else if o.isControl then some o.time else s)
        none = some u.time) ↔ ∃ o ∈ b, o.isControl = true ∧ o.time = u.time) := by
    intro a u b hab
    have hs' : (ordered ops).Pairwise (fun a b => a.time ≤ b.time) := hs
    rw [hab, List.pairwise_append] at hs'
    obtain ⟨_, hub, _⟩ := hs'
    obtain ⟨h1, h2⟩ := List.pairwise_cons.mp hub
    rw [foldl_control b.reverse none u.time (by simpa using h1)
      (List.pairwise_reverse.mpr h2) (fun r hr => by cases hr) (fun r hr => by cases hr)]
    simp
  constructor
  · intro h a u b hab hu
    obtain ⟨h1, h2⟩ := h b.reverse u a.reverse (by rw [hab]; simp) hu
    refine ⟨h1, ?_⟩
    intro c hc hcc hct
    exact h2 ((key a u b hab).mpr ⟨c, hc, hcc, hct⟩)
  · intro h a u b hab hu
    have hab' : ordered ops = b.reverse ++ u :: a.reverse := by
      have := congrArg List.reverse hab
      simpa using this
    obtain ⟨h1, h2⟩ := h b.reverse u a.reverse hab' hu
    refine ⟨h1, ?_⟩
    intro hcon
    have hk := (key b.reverse u a.reverse hab').mp (by simpa using hcon)
    obtain ⟨o, ho, hoc, hot⟩ := hk
    exact h2 o ho hoc hot

/-- A rejected schedule is rejected with this exception, and there is no other. -/
theorem validateAlignment_total (total : Int) (ops : List (Op S)) :
    validateAlignment total ops = .ok () ∨ validateAlignment total ops = .error .runtimeError := by
  cases h : validateAlignment total ops with
  | ok u => exact Or.inl rfl
  | error e => cases e; exact Or.inr rfl

/-! ### A case -/

/-- Set an offset, update twice, play; a loop whose body sets, updates and plays at once; an update
after it.  Not in order of time. -/
def ops1 : List (Op Int) :=
  [⟨20, .loop 3 100⟩, ⟨20, .param (fun _ => 2)⟩, ⟨20, .upd⟩, ⟨20, .io 7 (fun x => x + 1)⟩,
   ⟨60, .upd⟩, ⟨120, .ret⟩,
   ⟨0, .param (fun _ => 1)⟩, ⟨0, .upd⟩, ⟨0, .upd⟩, ⟨8, .io 5 id⟩, ⟨8, .upd⟩, ⟨120, .upd⟩]

/-- Its structure. -/
def prog1 : Forest (Op Int) :=
  .leaf ⟨0, .param (fun _ => 1)⟩ (.leaf ⟨0, .upd⟩ (.leaf ⟨0, .upd⟩ (.leaf ⟨8, .io 5 id⟩
    (.leaf ⟨8, .upd⟩ (.node ⟨20, .loop 3 100⟩
      (.leaf ⟨20, .param (fun _ => 2)⟩ (.leaf ⟨20, .upd⟩ (.leaf ⟨20, .io 7 (fun x => x + 1)⟩
        (.leaf ⟨60, .upd⟩ .nil)))) ⟨120, .ret⟩ (.leaf ⟨120, .upd⟩ .nil))))))

theorem ops1_ordered : ordered ops1 = prog1.flatten := by
  unfold ordered
  rw [StableSort.sortBy_eq_insSort]
  simp [ops1, prog1, Forest.flatten, StableSort.insSort, StableSort.insertBy]

example : Bracketed prog1 := by simp [prog1, Bracketed, Op.isControl]

example : AsmHarmless ops1 := by
  intro o ho f hf
  simp only [ops1, List.mem_cons, List.not_mem_nil, or_false] at ho
  rcases ho with h | h | h | h | h | h | h | h | h | h | h | h <;> subst h <;> cases hf

/-- Three of the six updates go. -/
theorem ops1_removed : ordered (removeRedundant ops1) =
    [⟨0, .param (fun _ => 1)⟩, ⟨0, .upd⟩, ⟨8, .io 5 id⟩, ⟨20, .loop 3 100⟩,
     ⟨20, .param (fun _ => 2)⟩, ⟨20, .io 7 (fun x => x + 1)⟩, ⟨60, .upd⟩, ⟨120, .ret⟩,
     ⟨120, .upd⟩] := by
  rw [ordered_removeRedundant, ops1_ordered]
  simp [prog1, Forest.flatten, keep, keepR, drops, next, Op.updates, Op.isUpd, Op.resets]

/-- The last one is at the end of the schedule if that is 120 ns long. -/
example : validateAlignment 124 (removeRedundant ops1) = .ok () ∧
    validateAlignment 120 (removeRedundant ops1) = .error .runtimeError := by
  unfold validateAlignment
  rw [ops1_removed]
  simp [alignLoop, Op.isUpd, Op.isControl]

/-! ### Inline assembly -/

/-- Set and update, assembly that sets, update, all at the same time; then a play. -/
def asmOps : List (Op Int) :=
  [⟨0, .param (fun _ => 1)⟩, ⟨0, .upd⟩, ⟨0, .asm (fun _ => 2)⟩, ⟨0, .upd⟩, ⟨100, .io 5 id⟩]

/-- **Finding**: the removal takes no account of inline assembly that sets parameters: the update
after it is removed, and what it sets is applied only 100 ns later.  (This is why
`removeRedundant_same_parameters` assumes `AsmHarmless`.) -/
theorem asm_update_lost : ∃ (f g : Forest (Op Int)),
    ordered asmOps = f.flatten ∧ Bracketed f ∧ ordered (removeRedundant asmOps) = g.flatten ∧
    Bracketed g ∧
    appliedAt 50 (exec (fun _ => true) f 0 [] 0) ⟨0, 0⟩ = 2 ∧
    appliedAt 50 (exec (fun _ => true) g 0 [] 0) ⟨0, 0⟩ = 1 := by
  have ho : ordered asmOps = asmOps := by
    unfold ordered
    rw [StableSort.sortBy_eq_insSort]
    simp [asmOps, StableSort.insSort, StableSort.insertBy]
  refine ⟨.leaf ⟨0, .param (fun _ => 1)⟩ (.leaf ⟨0, .upd⟩ (.leaf ⟨0, .asm (fun _ => 2)⟩
      (.leaf ⟨0, .upd⟩ (.leaf ⟨100, .io 5 id⟩ .nil)))),
    .leaf ⟨0, .param (fun _ => 1)⟩ (.leaf ⟨0, .upd⟩ (.leaf ⟨0, .asm (fun _ => 2)⟩
      (.leaf ⟨100, .io 5 id⟩ .nil))), ?_, ?_, ?_, ?_, ?_, ?_⟩
  · rw [ho]; rfl
  · simp [Bracketed, Op.isControl]
  · rw [ordered_removeRedundant, ho]
    simp [asmOps, Forest.flatten, keep, keepR, drops, next, Op.updates, Op.isUpd, Op.resets]
  · simp [Bracketed, Op.isControl]
  · simp [exec, appliedAt, Params.after, Params.step]
  · simp [exec, appliedAt, Params.after, Params.step]

end Verif.Redundant
