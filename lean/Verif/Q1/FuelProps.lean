/-
The `fuel` argument of the model's `parse` is an artefact of modelling: it is always enough.
-/
import Verif.Q1.ProgramProps

set_option linter.unusedSimpArgs false
set_option linter.unusedVariables false

namespace Verif.Q1

/-- Not the artificial error. -/
def NoFuel {α : Type} (x : Except Err α) : Prop := x ≠ .error .outOfFuel

theorem NoFuel.ok {α : Type} (a : α) : NoFuel (Except.ok a : Except Err α) := by
  intro h; cases h

theorem NoFuel.pure {α : Type} (a : α) : NoFuel (Pure.pure a : Except Err α) := NoFuel.ok a

theorem NoFuel.bind {α β : Type} {x : Except Err α} {f : α → Except Err β} (hx : NoFuel x)
    (hf : ∀ a, x = .ok a → NoFuel (f a)) : NoFuel (x >>= f) := by
  cases x with
  | error e =>
    intro h
    apply hx
    have : (Except.error e : Except Err α) >>= f = Except.error e := rfl
    rw [this] at h
    cases h
    rfl
  | ok a => exact hf a rfl

theorem alloc_noFuel (q : Qasm) : NoFuel q.alloc := by
  unfold Qasm.alloc
  cases q.avail <;> (intro h; cases h)

theorem free_noFuel (q : Qasm) (r : Reg) : NoFuel (q.free r) := by
  unfold Qasm.free freeReg
  split
  · intro h; cases h
  · split <;> (intro h; cases h)

theorem loopEnter_noFuel (q : Qasm) (l : Label) (n : Nat) : NoFuel (q.loopEnter l n) :=
  (alloc_noFuel q).bind (fun _ _ => NoFuel.pure _)

theorem loopExit_noFuel (q : Qasm) (r : Reg) (l : Label) (n : Nat) : NoFuel (q.loopExit r l n) := by
  refine (free_noFuel _ r).bind (fun q' _ => ?_)
  cases q'.outer <;> (intro h; cases h)

theorem autoWait_noFuel (q : Qasm) (w : Int) (c : Bool) : NoFuel (q.autoWait w c) := by
  unfold Qasm.autoWait
  split
  · exact NoFuel.ok _
  split
  · intro h; cases h
  split
  · simp only
    split
    · refine (loopEnter_noFuel _ _ _).bind (fun a _ => ?_)
      exact (loopExit_noFuel _ _ _ _).bind (fun _ _ => NoFuel.pure _)
    · exact NoFuel.ok _
  · exact NoFuel.ok _

theorem waitTill_noFuel (q : Qasm) (t : Int) (i p : Bool) : NoFuel (waitTill q t i p) := by
  unfold waitTill
  simp only
  split
  · exact autoWait_noFuel _ _ _
  split
  · intro h; cases h
  split
  · intro h; cases h
  · exact NoFuel.ok _

theorem gated_noFuel (q : Qasm) (a b : Instr) (d : Int) : NoFuel (gated q a b d) :=
  (autoWait_noFuel _ _ _).bind (fun _ _ => NoFuel.pure _)

theorem pulseCheck_noFuel (q : Qasm) : NoFuel (pulseCheck q) := by
  unfold pulseCheck
  split
  · exact NoFuel.ok _
  · split
    · intro h; cases h
    · exact NoFuel.ok _

theorem acqCheck_noFuel (q : Qasm) : NoFuel (acqCheck q) := by
  unfold acqCheck
  split
  · exact NoFuel.ok _
  · split
    · intro h; cases h
    · exact NoFuel.ok _

theorem insertTimetag_noFuel (q : Qasm) (idx : Nat) (bin : BinRef) (f0 f1 : Nat) (d : Int) :
    NoFuel (insertTimetag q idx bin f0 f1 d) := by
  cases bin with
  | imm n => exact gated_noFuel _ _ _ _
  | reg r =>
    unfold insertTimetag insertTimetagReg
    simp only
    split
    · refine (alloc_noFuel _).bind (fun a _ => ?_)
      refine (gated_noFuel _ _ _ _).bind (fun q _ => ?_)
      exact (free_noFuel _ _).bind (fun q _ => NoFuel.pure _)
    · refine (alloc_noFuel _).bind (fun a _ => ?_)
      refine (alloc_noFuel _).bind (fun b _ => ?_)
      refine (gated_noFuel _ _ _ _).bind (fun q _ => ?_)
      refine (free_noFuel _ _).bind (fun q _ => ?_)
      exact (free_noFuel _ _).bind (fun q _ => NoFuel.pure _)

theorem insertQasm_noFuel (q : Qasm) (s : Strategy) : NoFuel (insertQasm q s) := by
  cases s with
  | pulse i0 i1 gI gQ => exact (pulseCheck_noFuel q).bind (fun _ _ => NoFuel.pure _)
  | phaseShift a => cases a <;> exact NoFuel.ok _
  | square idx bin =>
    cases bin <;> exact (acqCheck_noFuel q).bind (fun _ _ => NoFuel.pure _)
  | weighed idx bin w0 w1 =>
    cases bin with
    | imm n => exact (acqCheck_noFuel q).bind (fun _ _ => NoFuel.pure _)
    | reg r =>
      refine (acqCheck_noFuel q).bind (fun q _ => ?_)
      refine (alloc_noFuel _).bind (fun a _ => ?_)
      refine (alloc_noFuel _).bind (fun b _ => ?_)
      refine (free_noFuel _ _).bind (fun q _ => ?_)
      exact free_noFuel _ _
  | ttl idx bin d =>
    cases bin with
    | imm n => exact (acqCheck_noFuel q).bind (fun _ _ => gated_noFuel _ _ _ _)
    | reg r =>
      refine (acqCheck_noFuel q).bind (fun q _ => ?_)
      exact (gated_noFuel _ _ _ _).bind (fun _ _ => NoFuel.pure _)
  | timetag sc idx bin f0 f1 d =>
    cases sc with
    | false => exact (acqCheck_noFuel q).bind (fun _ _ => insertTimetag_noFuel _ _ _ _ _ _)
    | true =>
      refine (acqCheck_noFuel q).bind (fun q _ => ?_)
      exact (insertTimetag_noFuel _ _ _ _ _ _).bind (fun _ _ => NoFuel.pure _)
  | _ => exact NoFuel.ok _

theorem compileLeaf_noFuel (q : Qasm) (l : Leaf) : NoFuel (compileLeaf q l) := by
  unfold compileLeaf insertLeaf
  split
  · exact insertQasm_noFuel _ _
  · exact (insertQasm_noFuel _ _).bind (fun _ _ => NoFuel.pure _)

theorem condExit_noFuel (q : Qasm) (c : TrigCond) (s : Int) : NoFuel (condExit q c s) :=
  (autoWait_noFuel _ _ _).bind (fun _ _ => NoFuel.pure _)

theorem condEnter_noFuel (q : Qasm) (c : TrigCond) : NoFuel (condEnter q c) := by
  unfold condEnter
  split
  · intro h; cases h
  · exact NoFuel.ok _

/-- What is left of the operations is never longer than what there was. -/
theorem parse_rest_le : ∀ (fuel : Nat) (ops : List Op) (q : Qasm) (res : Qasm × List Op),
    parse fuel ops q = .ok res → res.2.length ≤ ops.length := by
  intro fuel
  induction fuel with
  | zero =>
    intro ops q res h
    cases ops with
    | nil => cases h; exact le_refl _
    | cons o os => cases h
  | succ fuel ih =>
    intro ops q res h
    cases ops with
    | nil => cases h; exact le_refl _
    | cons o os =>
      cases o with
      | leaf l =>
        obtain ⟨q1, _, h⟩ := bind_ok h
        obtain ⟨q2, _, h⟩ := bind_ok h
        have := ih _ _ _ h
        simp only [List.length_cons]; omega
      | loop t n =>
        obtain ⟨q1, _, h⟩ := bind_ok h
        obtain ⟨x, _, h⟩ := bind_ok h
        obtain ⟨y, h1, h⟩ := bind_ok h
        obtain ⟨q2, _, h⟩ := bind_ok h
        have := ih _ _ _ h1
        have := ih _ _ _ h
        simp only [List.length_cons]; omega
      | cond t c =>
        obtain ⟨q1, _, h⟩ := bind_ok h
        obtain ⟨x, _, h⟩ := bind_ok h
        obtain ⟨y, h1, h⟩ := bind_ok h
        obtain ⟨q2, _, h⟩ := bind_ok h
        have := ih _ _ _ h1
        have := ih _ _ _ h
        simp only [List.length_cons]; omega
      | ret t =>
        obtain ⟨q1, _, h⟩ := bind_ok h
        cases h
        simp

/-- **The fuel is always enough**: code generation never fails for lack of it, so it could be left
out. -/
theorem parse_fuel : ∀ (fuel : Nat) (ops : List Op) (q : Qasm), ops.length ≤ fuel →
    parse fuel ops q ≠ .error .outOfFuel := by
  intro fuel
  induction fuel with
  | zero =>
    intro ops q h
    cases ops with
    | nil => intro h; cases h
    | cons o os => simp at h
  | succ fuel ih =>
    intro ops q h
    cases ops with
    | nil => intro h; cases h
    | cons o os =>
      simp only [List.length_cons] at h
      cases o with
      | leaf l =>
        refine (waitTill_noFuel _ _ _ _).bind (fun q1 _ => ?_)
        refine (compileLeaf_noFuel _ _).bind (fun q2 _ => ?_)
        exact ih _ _ (by omega)
      | loop t n =>
        refine (waitTill_noFuel _ _ _ _).bind (fun q1 _ => ?_)
        refine (loopEnter_noFuel _ _ _).bind (fun x _ => ?_)
        refine NoFuel.bind (ih _ _ (by omega)) (fun y hy => ?_)
        refine (loopExit_noFuel _ _ _ _).bind (fun q2 _ => ?_)
        have := parse_rest_le _ _ _ _ hy
        exact ih _ _ (by omega)
      | cond t c =>
        refine (waitTill_noFuel _ _ _ _).bind (fun q1 _ => ?_)
        refine (condEnter_noFuel _ _).bind (fun x _ => ?_)
        refine NoFuel.bind (ih _ _ (by omega)) (fun y hy => ?_)
        refine (condExit_noFuel _ _ _).bind (fun q2 _ => ?_)
        have := parse_rest_le _ _ _ _ hy
        exact ih _ _ (by omega)
      | ret t =>
        exact (waitTill_noFuel _ _ _ _).bind (fun q1 _ => NoFuel.pure _)

end Verif.Q1
