/-
C11: a live sequencer register is never handed out twice.
Specification: a client performs any history of allocations and frees and remembers which
registers it holds.  A client may only free a register it holds; anything else is a client
error (`disciplined`), and it is shown below that the real code does not reject all of these.
-/
import Verif.Q1.Registers

namespace Verif.Q1

/-- What a client can do with the register manager. -/
inductive RegCall where
  | alloc
  | free (r : Reg)
deriving DecidableEq, Repr

/-- The manager together with the list of the registers the client holds (newest first). -/
structure RegWorld where
  avail : List Reg
  held : List Reg
deriving DecidableEq, Repr

/-- One call against the real manager; a raised exception leaves the world as it was. -/
def RegWorld.call (w : RegWorld) : RegCall → RegWorld
  | .alloc =>
    match allocReg w.avail with
    | .ok (r, a) => { avail := a, held := r :: w.held }
    | .error _ => w
  | .free r =>
    match freeReg r w.avail with
    | .ok a => { avail := a, held := w.held.erase r }
    | .error _ => w

/-- A free is disciplined when the client holds the register. -/
def RegWorld.disciplined (w : RegWorld) : RegCall → Prop
  | .alloc => True
  | .free r => r ∈ w.held

/-- Worlds reachable from a fresh manager by disciplined calls (and refused calls). -/
inductive RegReach : RegWorld → Prop where
  | init : RegReach { avail := initRegs, held := [] }
  | call {w c} : RegReach w → w.disciplined c → RegReach (w.call c)

/-- The invariant: held and available registers together are a rearrangement of R0..R63. -/
theorem reg_perm {w : RegWorld} (h : RegReach w) :
    (w.held ++ w.avail).Perm (List.range 64) := by
  induction h with
  | init => exact List.Perm.refl _
  | @call w c _ hd ih =>
    cases c with
    | alloc =>
      obtain ⟨a, hl⟩ := w
      cases a with
      | nil => exact ih
      | cons r rest =>
        refine List.Perm.trans ?_ ih
        exact (List.perm_middle (l₁ := hl) (l₂ := rest) (a := r)).symm
    | free r =>
      simp only [RegWorld.call]
      cases hf : freeReg r w.avail with
      | error e => simpa using ih
      | ok a =>
        simp only [freeReg] at hf
        split at hf <;> try (cases hf)
        split at hf <;> cases hf
        refine List.Perm.trans ?_ ih
        have h1 : (w.held).Perm (r :: w.held.erase r) := List.perm_cons_erase hd
        refine List.Perm.trans ?_ ((h1.append_right w.avail).symm)
        exact List.perm_middle

/-- **C11 (partition).** Through any history of allocations and frees, the registers in use and
the registers available are without repeats, disjoint, and together exactly R0..R63. -/
theorem registers_partition {w : RegWorld} (h : RegReach w) :
    w.held.Nodup ∧ w.avail.Nodup ∧ (∀ r, r ∈ w.held → r ∉ w.avail) ∧
    (∀ r, (r ∈ w.held ∨ r ∈ w.avail) ↔ r < 64) := by
  have hp := reg_perm h
  have hn : (w.held ++ w.avail).Nodup := hp.nodup_iff.mpr List.nodup_range
  rw [List.nodup_append] at hn
  refine ⟨hn.1, hn.2.1, ?_, ?_⟩
  · intro r hr hr'
    exact hn.2.2 r hr r hr' rfl
  · intro r
    rw [← List.mem_append, hp.mem_iff, List.mem_range]

/-- **C11 (allocation).** An allocation returns a register that was not in use, and marks it used. -/
theorem alloc_returns_unused {w : RegWorld} (h : RegReach w) {r : Reg} {a : List Reg}
    (ha : allocReg w.avail = .ok (r, a)) : r ∉ w.held ∧ r < 64 ∧ r ∉ a := by
  have hp := registers_partition h
  cases hav : w.avail with
  | nil => rw [hav] at ha; cases ha
  | cons x rest =>
    rw [hav] at ha
    simp only [allocReg, Except.ok.injEq, Prod.mk.injEq] at ha
    obtain ⟨rfl, rfl⟩ := ha
    have hm : x ∈ w.avail := by rw [hav]; exact List.mem_cons_self
    refine ⟨fun hx => hp.2.2.1 _ hx hm, (hp.2.2.2 x).mp (Or.inr hm), ?_⟩
    have := hp.2.1
    rw [hav, List.nodup_cons] at this
    exact this.1

/-- **C11 (exhaustion).** Allocation fails exactly when all 64 registers are in use. -/
theorem alloc_fails_iff_all_used {w : RegWorld} (h : RegReach w) :
    allocReg w.avail = .error .indexError ↔ w.held.length = 64 := by
  have hl := (reg_perm h).length_eq
  simp only [List.length_append, List.length_range] at hl
  cases hav : w.avail with
  | nil => simp only [allocReg, true_iff]; rw [hav] at hl; simpa using hl
  | cons x rest =>
    rw [hav] at hl
    simp only [List.length_cons] at hl
    simp only [allocReg, reduceCtorEq, false_iff]
    omega

/-- **C11 (free).** Freeing a held register always succeeds and it is the next one allocated. -/
theorem free_then_alloc {w : RegWorld} (h : RegReach w) {r : Reg} (hr : r ∈ w.held) :
    ∃ a, freeReg r w.avail = .ok a ∧ allocReg a = .ok (r, w.avail) := by
  have hp := registers_partition h
  have h1 : r ∉ w.avail := hp.2.2.1 r hr
  have h2 : r < 64 := (hp.2.2.2 r).mp (Or.inl hr)
  refine ⟨r :: w.avail, ?_, rfl⟩
  have h3 : validReg r = true := by
    simp only [validReg, numRegisters, Bool.not_eq_true']
    exact decide_eq_false (Nat.not_lt.mpr (Nat.le_of_lt h2))
  simp [freeReg, h1, h3]

/-- **C11 (refused frees).** Freeing an available register is refused. -/
theorem free_available_refused {w : RegWorld} (h : RegReach w) {r : Reg} (hr : r ∈ w.avail) :
    freeReg r w.avail = .error .runtimeError := by
  have h2 : r < 64 := ((registers_partition h).2.2.2 r).mp (Or.inr hr)
  have h3 : validReg r = true := by
    simp only [validReg, numRegisters, Bool.not_eq_true']
    exact decide_eq_false (Nat.not_lt.mpr (Nat.le_of_lt h2))
  simp [freeReg, hr, h3]

/-- The missed boundary: `"R64"`, which does not exist on the sequencer and was never handed out,
can be freed on a fresh manager, and is then handed out by the next allocation. -/
theorem free_R64_accepted :
    ∃ a, freeReg 64 initRegs = .ok a ∧ allocReg a = .ok (64, initRegs) :=
  ⟨64 :: initRegs, by rfl, rfl⟩

/-- Non-vacuity: a reachable world with two registers held, after a free in the middle. -/
example : RegReach { avail := 1 :: (List.range 64).drop 3, held := [2, 0] } := by
  have h0 := RegReach.init
  have h1 := h0.call (c := .alloc) trivial
  have h2 := h1.call (c := .alloc) trivial
  have h3 := h2.call (c := .alloc) trivial
  exact h3.call (c := .free 1) (by show 1 ∈ [2, 1, 0]; decide)

end Verif.Q1
