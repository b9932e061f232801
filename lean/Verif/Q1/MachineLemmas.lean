/- Helper lemmas about the sequence processor. -/
import Verif.Q1.Spec
import Mathlib.Tactic.Ring

namespace Verif.Q1

/-- Instructions that fall through to the next one. -/
def Instr.straight : Instr → Bool
  | .loop _ _ => false
  | .stop => false
  | _ => true

theorem step_straight {P : List Instr} {env : Env} {pc : Nat} {d : Data} {i : Instr}
    (h : P[pc]? = some i) (hs : i.straight = true) :
    step P env (pc, d) = some (pc + 1, d.run env i) := by
  unfold step
  simp only [h]
  cases i <;> simp_all [Instr.straight]

theorem Steps.refl {P : List Instr} {env : Env} (s : Nat × Data) : Steps P env s s :=
  Relation.ReflTransGen.refl

theorem Steps.trans {P : List Instr} {env : Env} {a b c : Nat × Data}
    (h : Steps P env a b) (h' : Steps P env b c) : Steps P env a c :=
  Relation.ReflTransGen.trans h h'

theorem Steps.one {P : List Instr} {env : Env} {a b : Nat × Data}
    (h : step P env a = some b) : Steps P env a b :=
  Relation.ReflTransGen.single h

/-- Running a list of falling-through instructions. -/
def Data.runs (env : Env) (d : Data) (is : List Instr) : Data := is.foldl (Data.run env) d

@[simp] theorem Data.runs_nil (env : Env) (d : Data) : d.runs env [] = d := rfl
@[simp] theorem Data.runs_cons (env : Env) (d : Data) (i : Instr) (is : List Instr) :
    d.runs env (i :: is) = (d.run env i).runs env is := rfl
theorem Data.runs_append (env : Env) (d : Data) (is js : List Instr) :
    d.runs env (is ++ js) = (d.runs env is).runs env js := by
  simp [Data.runs, List.foldl_append]

/-- The program `P` contains `code` at position `p`. -/
def CodeAt (P : List Instr) (p : Nat) (code : List Instr) : Prop :=
  ∀ k, k < code.length → P[p + k]? = code[k]?

theorem CodeAt.cons {P : List Instr} {p : Nat} {i : Instr} {is : List Instr}
    (h : CodeAt P p (i :: is)) : P[p]? = some i ∧ CodeAt P (p + 1) is := by
  constructor
  · have := h 0 (by simp)
    simpa using this
  · intro k hk
    have := h (k + 1) (by simpa using hk)
    rw [show p + 1 + k = p + (k + 1) by omega]
    simpa using this

theorem codeAt_of_prefix {P pre code : List Instr} (h : (pre ++ code) <+: P) :
    CodeAt P pre.length code := by
  obtain ⟨suf, rfl⟩ := h
  intro k hk
  rw [List.append_assoc, List.getElem?_append_right (by omega)]
  rw [show pre.length + k - pre.length = k by omega]
  rw [List.getElem?_append_left hk]

theorem steps_straight {P : List Instr} {env : Env} {is : List Instr}
    (hs : ∀ i ∈ is, i.straight = true) : ∀ {p : Nat} (d : Data), CodeAt P p is →
    Steps P env (p, d) (p + is.length, d.runs env is) := by
  induction is with
  | nil => intro p d _; exact Steps.refl _
  | cons i is ih =>
    intro p d h
    obtain ⟨h0, h1⟩ := h.cons
    have s1 := Steps.one (step_straight (env := env) (d := d) h0 (hs i List.mem_cons_self))
    have s2 := ih (fun j hj => hs j (List.mem_cons_of_mem _ hj)) (d.run env i) h1
    have := s1.trans s2
    rw [show p + (i :: is).length = p + 1 + is.length by simp; omega]
    exact this

/-- No two lines of the program carry the same label. -/
def LabelsUnique (P : List Instr) : Prop :=
  ∀ (i j : Nat) (l : Label), P[i]? = some (Instr.label l) → P[j]? = some (Instr.label l) → i = j

theorem findLabel_of {P : List Instr} (h : LabelsUnique P) {i : Nat} {l : Label}
    (hi : P[i]? = some (.label l)) : findLabel P l = some i := by
  have hlt : i < P.length := by
    by_contra hc
    rw [List.getElem?_eq_none (by omega)] at hi
    cases hi
  have hm : Instr.label l ∈ P := List.mem_of_getElem? hi
  have hidx : P.idxOf (Instr.label l) < P.length := List.idxOf_lt_length_iff.mpr hm
  have hget : P[P.idxOf (Instr.label l)]? = some (.label l) := by
    rw [List.getElem?_eq_getElem hidx, List.getElem_idxOf]
  have := h _ _ _ hi hget
  simp [findLabel, ← this, hlt]

/-- Execution from the end of `q` to the end of `q'`, in every program starting with `q'`. -/
def Exec (env : Env) (q q' : Qasm) (d d' : Data) : Prop :=
  ∀ P, q'.instrs <+: P → LabelsUnique P →
    Steps P env (q.instrs.length, d) (q'.instrs.length, d')

theorem Exec.refl (env : Env) (q : Qasm) (d : Data) : Exec env q q d d :=
  fun _ _ _ => Steps.refl _

theorem Exec.trans {env : Env} {q q1 q2 : Qasm} {d d1 d2 : Data}
    (h : Exec env q q1 d d1) (h' : Exec env q1 q2 d1 d2) (hp : q1.instrs <+: q2.instrs) :
    Exec env q q2 d d2 :=
  fun P hP hu => (h P (hp.trans hP) hu).trans (h' P hP hu)

/-- Only the instructions matter. -/
theorem Exec.congr {env : Env} {q q' p p' : Qasm} {d d' : Data} (h : Exec env q q' d d')
    (h1 : p.instrs = q.instrs) (h2 : p'.instrs = q'.instrs) : Exec env p p' d d' := by
  intro P hP hu
  rw [h1, h2]
  exact h P (by rwa [← h2]) hu

theorem exec_straight {env : Env} {q q' : Qasm} {code : List Instr}
    (h : q'.instrs = q.instrs ++ code) (hs : ∀ i ∈ code, i.straight = true) (d : Data) :
    Exec env q q' d (d.runs env code) := by
  intro P hP hu
  rw [h] at hP ⊢
  have := steps_straight (env := env) hs d (codeAt_of_prefix hP)
  simpa using this

/-- Number carried by a label. -/
def Label.num : Label → Nat
  | .start => 0
  | .wait n => n
  | .loop n => n

/-- What a complete fragment of code generation preserves. -/
structure Pres (q q' : Qasm) : Prop where
  pre : q.instrs <+: q'.instrs
  avail : q'.avail.Perm q.avail
  outer : q'.outer = q.outer
  lock : q'.lock = q.lock
  lab : ∀ (i : Nat) (l : Label), q.instrs.length ≤ i → q'.instrs[i]? = some (Instr.label l) →
    l ≠ .start ∧ l.num + 1 = i

theorem Pres.refl (q : Qasm) : Pres q q where
  pre := List.prefix_rfl
  avail := List.Perm.refl _
  outer := rfl
  lock := rfl
  lab := by
    intro i l hi hl
    rw [List.getElem?_eq_none hi] at hl
    cases hl

theorem Pres.trans {q q1 q2 : Qasm} (h : Pres q q1) (h' : Pres q1 q2) : Pres q q2 where
  pre := h.pre.trans h'.pre
  avail := h'.avail.trans h.avail
  outer := h'.outer.trans h.outer
  lock := h'.lock.trans h.lock
  lab := by
    intro i l hi hl
    by_cases hc : q1.instrs.length ≤ i
    · exact h'.lab i l hc hl
    · refine h.lab i l hi ?_
      obtain ⟨s, hs⟩ := h'.pre
      rw [← hs, List.getElem?_append_left (by omega)] at hl
      exact hl

/-- Emitting label-free code. -/
theorem Pres.of_code {q q' : Qasm} {code : List Instr} (h : q'.instrs = q.instrs ++ code)
    (hl : ∀ l, Instr.label l ∉ code) (ha : q'.avail.Perm q.avail) (ho : q'.outer = q.outer)
    (hk : q'.lock = q.lock) : Pres q q' where
  pre := ⟨code, h.symm⟩
  avail := ha
  outer := ho
  lock := hk
  lab := by
    intro i l hi hl'
    rw [h, List.getElem?_append_right hi] at hl'
    exact absurd (List.mem_of_getElem? hl') (hl l)

/-- The register manager's list is sane. -/
structure AvailOk (a : List Reg) : Prop where
  nodup : a.Nodup
  bound : ∀ r ∈ a, r ≤ 64

theorem AvailOk.perm {a b : List Reg} (h : AvailOk a) (hp : b.Perm a) : AvailOk b where
  nodup := hp.nodup_iff.mpr h.nodup
  bound := fun r hr => h.bound r (hp.mem_iff.mp hr)

theorem AvailOk.tail {r : Reg} {a : List Reg} (h : AvailOk (r :: a)) : AvailOk a where
  nodup := (List.nodup_cons.mp h.nodup).2
  bound := fun x hx => h.bound x (List.mem_cons_of_mem _ hx)

theorem freeReg_ok {r : Reg} {a : List Reg} (hr : r ≤ 64) (hn : r ∉ a) :
    freeReg r a = .ok (r :: a) := by
  have h3 : validReg r = true := by
    simp only [validReg, numRegisters, Bool.not_eq_true']
    exact decide_eq_false (Nat.not_lt.mpr hr)
  simp [freeReg, hn, h3]

/-- Decrementing a non-zero register. -/
theorem decWord_pos {v : Nat} (h : 0 < v) (hb : v < wordSize + 1) :
    decWord v = v - 1 := by
  unfold decWord
  have : v + (wordSize - 1) = (v - 1) + wordSize := by
    have : 0 < wordSize := by decide
    omega
  rw [this, Nat.add_mod_right, Nat.mod_eq_of_lt (by omega)]

theorem decWord_zero : decWord 0 = wordSize - 1 := by
  unfold decWord
  rw [Nat.zero_add, Nat.mod_eq_of_lt (by have : 0 < wordSize := by decide
                                         omega)]

@[simp] theorem RegFile.set_same (f : RegFile) (r : Reg) (v : Nat) : f.set r v r = v := by
  simp [RegFile.set]

theorem RegFile.set_other (f : RegFile) {r x : Reg} (v : Nat) (h : x ≠ r) : f.set r v x = f x := by
  simp [RegFile.set, h]

end Verif.Q1
