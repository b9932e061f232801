/-
C39: the minimal distances between two acquisitions and between two played pulses of one
sequencer are enforced, for programs without loops; inside loops they are not (witness).
-/
import Verif.Q1.ProgramProps

set_option linter.unusedSimpArgs false
set_option linter.unusedVariables false

namespace Verif.Q1

/-- Is the operation an acquisition? -/
def Leaf.isAcq (l : Leaf) : Bool :=
  match l.strat with
  | .square .. => true
  | .weighed .. => true
  | .ttl .. => true
  | .timetag .. => true
  | _ => false

/-- Is the operation a pulse with a waveform? -/
def Leaf.isPulse (l : Leaf) : Bool :=
  match l.strat with
  | .pulse .. => true
  | _ => false

/-- The memory of the last pulse and acquisition is the same. -/
def SameLast (q q' : Qasm) : Prop := q'.lastPulse = q.lastPulse ∧ q'.lastAcq = q.lastAcq

theorem SameLast.rfl' (q : Qasm) : SameLast q q := ⟨rfl, rfl⟩

theorem SameLast.trans {a b c : Qasm} (h : SameLast a b) (h' : SameLast b c) : SameLast a c :=
  ⟨h'.1.trans h.1, h'.2.trans h.2⟩

theorem sameLast_emitWait (q : Qasm) (n : Nat) (c : Bool) : SameLast q (q.emitWait n c) := by
  cases c <;> exact ⟨rfl, rfl⟩

theorem sameLast_emitWaits (c : Bool) : ∀ (n : Nat) (q : Qasm), SameLast q (q.emitWaits c n)
  | 0, q => SameLast.rfl' q
  | n + 1, q => (sameLast_emitWait q maxWait c).trans (sameLast_emitWaits c n _)

theorem sameLast_emitRest (q : Qasm) (n : Nat) (c : Bool) : SameLast q (q.emitRest n c) := by
  unfold Qasm.emitRest
  split
  · exact sameLast_emitWait q n c
  · exact SameLast.rfl' q

theorem sameLast_alloc {q q' : Qasm} {r : Reg} (h : q.alloc = .ok (r, q')) : SameLast q q' := by
  obtain ⟨rest, _, rfl⟩ := alloc_ok h
  exact ⟨rfl, rfl⟩

theorem sameLast_free {q q' : Qasm} {r : Reg} (h : q.free r = .ok q') : SameLast q q' := by
  obtain ⟨_, rfl⟩ := free_ok h
  exact ⟨rfl, rfl⟩

theorem sameLast_loopEnter {q q' : Qasm} {l : Label} {n : Nat} {r : Reg}
    (h : q.loopEnter l n = .ok (r, q')) : SameLast q q' := by
  unfold Qasm.loopEnter at h
  obtain ⟨⟨a, q1⟩, h1, h⟩ := bind_ok h
  have := sameLast_alloc h1
  simp only [pure, Except.pure, Except.ok.injEq, Prod.mk.injEq] at h
  obtain ⟨_, rfl⟩ := h
  exact ⟨this.1, this.2⟩

theorem sameLast_loopExit {q q' : Qasm} {l : Label} {n : Nat} {r : Reg}
    (h : q.loopExit r l n = .ok q') : SameLast q q' := by
  unfold Qasm.loopExit at h
  obtain ⟨q1, h1, h⟩ := bind_ok h
  have := sameLast_free h1
  split at h
  · cases h
  · cases h; exact ⟨this.1, this.2⟩

theorem sameLast_autoWait {q q' : Qasm} {w : Int} {c : Bool} (h : q.autoWait w c = .ok q') :
    SameLast q q' := by
  unfold Qasm.autoWait at h
  split at h
  · cases h; exact SameLast.rfl' _
  · split at h
    · cases h
    · split at h
      · simp only at h
        split at h
        · obtain ⟨⟨r, q1⟩, h1, h⟩ := bind_ok h
          obtain ⟨q2, h2, h⟩ := bind_ok h
          cases h
          exact ((sameLast_loopEnter h1).trans (sameLast_emitWait _ _ _)).trans
            ((sameLast_loopExit h2).trans (sameLast_emitRest _ _ _))
        · cases h
          exact (sameLast_emitWaits _ _ _).trans (sameLast_emitRest _ _ _)
      · cases h; exact sameLast_emitRest _ _ _

theorem sameLast_waitTill {q q' : Qasm} {t : Int} {i p : Bool}
    (h : waitTill q t i p = .ok q') : SameLast q q' := by
  unfold waitTill at h
  simp only at h
  split at h
  · exact sameLast_autoWait h
  · split at h
    · cases h
    · split at h
      · cases h
      · cases h; exact SameLast.rfl' _

theorem sameLast_gated {q q' : Qasm} {a b : Instr} {d : Int} (h : gated q a b d = .ok q') :
    SameLast q q' := by
  unfold gated at h
  obtain ⟨q1, h1, h⟩ := bind_ok h
  cases h
  have := sameLast_autoWait h1
  exact ⟨this.1, this.2⟩

theorem sameLast_timetag {q q' : Qasm} {idx : Nat} {bin : BinRef} {f0 f1 : Nat} {d : Int}
    (h : insertTimetag q idx bin f0 f1 d = .ok q') : SameLast q q' := by
  unfold insertTimetag at h
  cases bin with
  | imm b => exact sameLast_gated h
  | reg r =>
    simp only [insertTimetagReg] at h
    split at h
    · obtain ⟨⟨a, q1⟩, h1, h⟩ := bind_ok h
      obtain ⟨q2, h2, h⟩ := bind_ok h
      obtain ⟨q3, h3, h⟩ := bind_ok h
      cases h
      have e1 := sameLast_alloc h1
      have e2 := sameLast_gated h2
      have e3 := sameLast_free h3
      exact (e1.trans ⟨e2.1, e2.2⟩).trans ⟨e3.1, e3.2⟩
    · obtain ⟨⟨a, q1⟩, h1, h⟩ := bind_ok h
      obtain ⟨⟨b, q1'⟩, h1', h⟩ := bind_ok h
      obtain ⟨q2, h2, h⟩ := bind_ok h
      obtain ⟨q3, h3, h⟩ := bind_ok h
      obtain ⟨q4, h4, h⟩ := bind_ok h
      cases h
      have e1 := sameLast_alloc h1
      have e1' := sameLast_alloc h1'
      have e2 := sameLast_gated h2
      have e3 := sameLast_free h3
      have e4 := sameLast_free h4
      exact ((e1.trans e1').trans ⟨e2.1, e2.2⟩).trans (e3.trans ⟨e4.1, e4.2⟩)

theorem sameLast_weighed {q q' : Qasm} {idx : Nat} {r : Reg} {w0 w1 : Nat}
    (h : insertWeighedReg q idx r w0 w1 = .ok q') : SameLast q q' := by
  unfold insertWeighedReg at h
  obtain ⟨⟨a, q1⟩, h1, h⟩ := bind_ok h
  obtain ⟨⟨b, q1'⟩, h1', h⟩ := bind_ok h
  obtain ⟨q3, h3, h⟩ := bind_ok h
  have e1 := sameLast_alloc h1
  have e1' := sameLast_alloc h1'
  have e3 := sameLast_free h3
  have e4 := sameLast_free h
  exact (e1.trans e1').trans ((show SameLast q1' q3 from ⟨e3.1, e3.2⟩).trans e4)

theorem acqCheck_spec {q q' : Qasm} (h : acqCheck q = .ok q') :
    (∀ t, q.lastAcq = some t → t + 300 ≤ q.elapsed) ∧ q'.lastAcq = some q.elapsed ∧
    q'.lastPulse = q.lastPulse := by
  unfold acqCheck at h
  have h3 : ((minAcq : Nat) : Int) = 300 := rfl
  split at h
  · rename_i hn
    cases h
    exact ⟨fun t ht => (by rw [hn] at ht; cases ht), rfl, rfl⟩
  · rename_i t0 hn
    split at h
    · cases h
    · cases h
      refine ⟨fun t ht => ?_, rfl, rfl⟩
      rw [hn] at ht
      cases ht
      omega

theorem pulseCheck_spec {q q' : Qasm} (h : pulseCheck q = .ok q') :
    (∀ t, q.lastPulse = some t → t + 4 ≤ q.elapsed) ∧ q'.lastPulse = some q.elapsed ∧
    q'.lastAcq = q.lastAcq := by
  unfold pulseCheck at h
  have h3 : ((minOp : Nat) : Int) = 4 := rfl
  split at h
  · rename_i hn
    cases h
    exact ⟨fun t ht => (by rw [hn] at ht; cases ht), rfl, rfl⟩
  · rename_i t0 hn
    split at h
    · cases h
    · cases h
      refine ⟨fun t ht => ?_, rfl, rfl⟩
      rw [hn] at ht
      cases ht
      omega

/-- What an operation does to the memory of the last pulse and acquisition. -/
def LastStep (q q' : Qasm) (acq pulse : Bool) : Prop :=
  (if acq then (∀ t, q.lastAcq = some t → t + 300 ≤ q.elapsed) ∧ q'.lastAcq = some q.elapsed
    else q'.lastAcq = q.lastAcq) ∧
  (if pulse then (∀ t, q.lastPulse = some t → t + 4 ≤ q.elapsed) ∧ q'.lastPulse = some q.elapsed
    else q'.lastPulse = q.lastPulse)

theorem insertQasm_last {q q' : Qasm} {l : Leaf} (h : insertQasm q l.strat = .ok q') :
    LastStep q q' l.isAcq l.isPulse := by
  have acq : ∀ {q1 : Qasm}, acqCheck q = .ok q1 → SameLast q1 q' → LastStep q q' true false := by
    intro q1 h1 h2
    obtain ⟨a, b, c⟩ := acqCheck_spec h1
    exact ⟨⟨a, h2.2.trans b⟩, h2.1.trans c⟩
  unfold Leaf.isAcq Leaf.isPulse
  cases hs : l.strat with
  | pulse i0 i1 gI gQ =>
    rw [hs] at h
    obtain ⟨q1, h1, h⟩ := bind_ok h
    cases h
    obtain ⟨a, b, c⟩ := pulseCheck_spec h1
    exact ⟨c, a, b⟩
  | phaseShift arg => rw [hs] at h; cases arg <;> cases h <;> exact ⟨rfl, rfl⟩
  | square idx bin =>
    rw [hs] at h
    cases bin <;>
    · obtain ⟨q1, h1, h⟩ := bind_ok h
      cases h
      exact acq h1 ⟨rfl, rfl⟩
  | weighed idx bin w0 w1 =>
    rw [hs] at h
    cases bin with
    | imm b =>
      obtain ⟨q1, h1, h⟩ := bind_ok h
      cases h
      exact acq h1 ⟨rfl, rfl⟩
    | reg r =>
      obtain ⟨q1, h1, h⟩ := bind_ok h
      exact acq h1 (sameLast_weighed h)
  | ttl idx bin dur =>
    rw [hs] at h
    cases bin with
    | imm b =>
      obtain ⟨q1, h1, h⟩ := bind_ok h
      exact acq h1 (sameLast_gated h)
    | reg r =>
      obtain ⟨q1, h1, h⟩ := bind_ok h
      unfold insertTtlReg at h
      obtain ⟨q2, h2, h⟩ := bind_ok h
      cases h
      have := sameLast_gated h2
      exact acq h1 ⟨this.1, this.2⟩
  | timetag scope idx bin f0 f1 dur =>
    rw [hs] at h
    cases scope with
    | false =>
      obtain ⟨q1, h1, h⟩ := bind_ok h
      exact acq h1 (sameLast_timetag h)
    | true =>
      obtain ⟨q1, h1, h⟩ := bind_ok h
      obtain ⟨q2, h2, h⟩ := bind_ok h
      cases h
      have := sameLast_timetag h2
      exact acq h1 ⟨this.1, this.2⟩
  | _ => rw [hs] at h; cases h; exact ⟨rfl, rfl⟩

theorem compileLeaf_last {q q' : Qasm} {l : Leaf} (h : compileLeaf q l = .ok q') :
    LastStep q q' l.isAcq l.isPulse := by
  unfold compileLeaf insertLeaf at h
  cases hd : l.debug with
  | none =>
    rw [hd] at h
    exact insertQasm_last (q := q.countRT (if l.isRT then 1 else 0)) h
  | some m =>
    rw [hd] at h
    obtain ⟨q1, h1, h⟩ := bind_ok h
    cases h
    have hh := insertQasm_last (q := (q.countRT (if l.isRT then 1 else 0)).emit
      (.real .setMrk [.imm m.1] 0)) h1
    unfold LastStep at hh ⊢
    exact hh

/-- The operations of a list that satisfy `sel` are at least `gap` apart, in the order given, the
first one also from the time `last` (if any). -/
def Spaced (sel : Leaf → Bool) (gap : Int) : Option Int → List Leaf → Prop
  | _, [] => True
  | last, l :: ls =>
    if sel l then (∀ t, last = some t → t + gap ≤ l.t) ∧ Spaced sel gap (some l.t) ls
    else Spaced sel gap last ls

theorem spaced_pairwise {sel : Leaf → Bool} {gap : Int} (hg : 0 ≤ gap) : ∀ {ls : List Leaf}
    {last : Option Int}, Spaced sel gap last ls →
    (∀ t, last = some t → ∀ l ∈ ls, sel l = true → t + gap ≤ l.t) ∧
    (ls.filter sel).Pairwise (fun a b => a.t + gap ≤ b.t)
  | [], _, _ => ⟨by simp, by simp⟩
  | l :: ls, last, h => by
    unfold Spaced at h
    split at h
    · rename_i hs
      obtain ⟨h1, h2⟩ := spaced_pairwise hg h.2
      refine ⟨?_, ?_⟩
      · intro t ht x hx hsx
        have hlt := h.1 t ht
        rcases List.mem_cons.mp hx with rfl | hx
        · exact hlt
        · have := h1 l.t rfl x hx hsx
          omega
      · rw [List.filter_cons_of_pos hs, List.pairwise_cons]
        refine ⟨?_, h2⟩
        intro x hx
        obtain ⟨hx1, hx2⟩ := List.mem_filter.mp hx
        exact h1 l.t rfl x hx1 hx2
    · rename_i hs
      obtain ⟨h1, h2⟩ := spaced_pairwise hg h
      refine ⟨?_, ?_⟩
      · intro t ht x hx hsx
        rcases List.mem_cons.mp hx with rfl | hx
        · exact absurd hsx hs
        · exact h1 t ht x hx hsx
      · rw [List.filter_cons_of_neg hs]
        exact h2

theorem parse_spaced : ∀ {ls : List Leaf} {fuel : Nat} {q : Qasm} {res : Qasm × List Op},
    AvailOk q.avail → 0 ≤ q.elapsed → (∀ l ∈ ls, l.Ok q.avail) →
    parse fuel (ls.map Op.leaf) q = .ok res →
    Spaced Leaf.isAcq 300 q.lastAcq ls ∧ Spaced Leaf.isPulse 4 q.lastPulse ls
  | [], _, _, _, _, _, _, _ => ⟨trivial, trivial⟩
  | l :: ls, 0, q, res, _, _, _, h => by cases h
  | l :: ls, fuel + 1, q, res, ha, h0, hok, h => by
    simp only [List.map_cons, parse] at h
    obtain ⟨q1, h1, h⟩ := bind_ok h
    obtain ⟨q2, h2, h⟩ := bind_ok h
    have hl := hok l (by simp)
    obtain ⟨hw, ht⟩ := waitTill_frag ha hl.t h0 h1
    have hf := leafStep_ok ha hl h0 h1 h2
    have hav := hf.1.avail
    have hel : 0 ≤ q2.elapsed := by have := hf.2.1; omega
    have hrec := parse_spaced (ha.perm hav) hel
      (fun x hx => (hok x (by simp [hx])).mono (fun r hr => hav.mem_iff.mp hr)) h
    have hs := sameLast_waitTill h1
    have hstep := compileLeaf_last h2
    have htime : (l.isAcq = true ∨ l.isPulse = true) → q1.elapsed = l.t := by
      intro hor
      rcases ht with ht | ⟨hi, _, _⟩
      · exact ht
      · have := (hl.idle hi).1
        simp [Leaf.isAcq, Leaf.isPulse, this] at hor
    unfold LastStep at hstep
    constructor
    · unfold Spaced
      by_cases hsel : l.isAcq = true
      · rw [if_pos hsel] at hstep ⊢
        have e := htime (Or.inl hsel)
        rw [hstep.1.2, e] at hrec
        refine ⟨fun t hlt => ?_, hrec.1⟩
        have := hstep.1.1 t (hs.2.trans hlt)
        omega
      · rw [if_neg hsel] at hstep ⊢
        rw [hstep.1, hs.2] at hrec
        exact hrec.1
    · unfold Spaced
      by_cases hsel : l.isPulse = true
      · rw [if_pos hsel] at hstep ⊢
        have e := htime (Or.inr hsel)
        rw [hstep.2.2, e] at hrec
        refine ⟨fun t hlt => ?_, hrec.2⟩
        have := hstep.2.1 t (hs.1.trans hlt)
        omega
      · rw [if_neg hsel] at hstep ⊢
        rw [hstep.2, hs.1] at hrec
        exact hrec.2

theorem ofLeaves_flatten : ∀ ls : List Leaf, (ofLeaves ls).flatten = ls.map Op.leaf
  | [] => rfl
  | l :: ls => by simp [ofLeaves, Forest.flatten, ofLeaves_flatten ls]

theorem ofLeaves_ok {A : List Reg} : ∀ {ls : List Leaf}, (ofLeaves ls).Ok A → ∀ l ∈ ls, l.Ok A
  | [], _, l, hl => by simp at hl
  | x :: ls, h, l, hl => by
    rcases List.mem_cons.mp hl with rfl | hl
    · exact h.1
    · exact ofLeaves_ok h.2 l hl

/-- **C39 (programs without loops and conditionals).**  If a sequencer program compiles, any two of
its acquisitions are scheduled at least 300 ns apart and any two of its pulses at least 4 ns
apart.  (So a program in which two are closer is rejected.)  Missing for the full claim: loops,
for which it fails, see `loop_spacing_not_checked`. -/
theorem spacing_enforced_partial {p : Program} {A : List Reg} {q : Qasm} {ls : List Leaf}
    (hA : AvailOk A) (hok : p.Ok A) (hops : p.ops = ofLeaves ls) (hc : p.compile A = .ok q) :
    (ls.filter Leaf.isAcq).Pairwise (fun a b => a.t + 300 ≤ b.t) ∧
    (ls.filter Leaf.isPulse).Pairwise (fun a b => a.t + 4 ≤ b.t) := by
  have hlv := ofLeaves_ok (hops ▸ hok.ops)
  unfold Program.compile genBody at hc
  obtain ⟨q1, h1, hc⟩ := bind_ok hc
  obtain ⟨⟨r, q2⟩, h2, hc⟩ := bind_ok hc
  obtain ⟨⟨q3, rest⟩, h3, hc⟩ := bind_ok hc
  rw [hops, ofLeaves_flatten] at h3
  have e1 := autoWait_ok (q := genHeader A p.pre p.bins) hA hok.latency h1
  have ha1 : AvailOk q1.avail := hA.perm e1.1.avail
  unfold Qasm.loopEnter at h2
  obtain ⟨⟨r', q2'⟩, h2', h2⟩ := bind_ok h2
  obtain ⟨tl, hav, e2⟩ := alloc_ok h2'
  simp only [pure, Except.pure, Except.ok.injEq, Prod.mk.injEq] at h2
  obtain ⟨_, rfl⟩ := h2
  have hcur : q1.cur = 0 := by
    have := e1.2.2.1
    simpa [genHeader, Qasm.new, Qasm.emits] using this
  have hout : q1.outer = [] := by
    have := e1.1.outer
    simpa [genHeader, Qasm.new, Qasm.emits] using this
  have hsub : ∀ x ∈ tl, x ∈ A := by
    intro x hx
    exact e1.1.avail.mem_iff.mp (by rw [hav]; exact List.mem_cons_of_mem _ hx)
  have haTl : AvailOk tl := by
    refine ⟨?_, fun x hx => hA.bound x (hsub x hx)⟩
    have := ha1.nodup
    rw [hav] at this
    exact (List.nodup_cons.mp this).2
  subst e2
  obtain ⟨s1, s2⟩ := parse_spaced (ls := ls)
    (q := ((({ q1 with avail := tl, cur := 0, outer := q1.cur :: q1.outer } : Qasm).emit
      (.move p.reps r')).emit (.label .start)).emits (repHeader p.analog))
    haTl (by simp [Qasm.elapsed, Qasm.emit, Qasm.emits, hcur, hout])
    (fun l hl => (hlv l hl).mono hsub) h3
  exact ⟨(spaced_pairwise (by decide) s1).2, (spaced_pairwise (by decide) s2).2⟩

/-- **C39, rejection.**  Two acquisitions less than 300 ns apart: no program is produced. -/
theorem close_acquisitions_rejected {p : Program} {A : List Reg} {pre mid post : List Leaf}
    {a b : Leaf} (hA : AvailOk A) (hok : p.Ok A)
    (hops : p.ops = ofLeaves (pre ++ a :: mid ++ b :: post)) (hacq : a.isAcq = true)
    (hacq' : b.isAcq = true) (hclose : b.t < a.t + 300) : ∀ q, p.compile A ≠ .ok q := by
  intro q hq
  have := (spacing_enforced_partial hA hok hops hq).1
  simp only [List.filter_append, List.filter_cons_of_pos hacq, List.filter_cons_of_pos hacq',
    List.append_assoc, List.cons_append] at this
  have h2 := (List.pairwise_cons.mp (List.pairwise_append.mp this).2.1).1 b (by simp)
  omega

/-- Finding: the check only knows the first iteration of a loop.  A loop of 30 iterations of 20 ns
with an acquisition in each compiles, although the acquisitions are executed every 20 ns; so does
an acquisition 20 ns after the last iteration's one. -/
theorem loop_spacing_not_checked :
    let ops : List Op := [.loop 0 30, .leaf ⟨0, false, false, true, .square 0 (.imm 0), none⟩,
      .ret 20, .leaf ⟨600, false, false, true, .square 0 (.imm 1), none⟩]
    (compiled ops).isSome = true ∧
    ((compiled ops).bind (fun c => runN c.1 allOn 122 (0, Data.init))).map
      (fun s => (s.2.trace.map Event.time).drop 27) = some [540, 560, 580, 600] := by
  refine ⟨by decide +kernel, by decide +kernel⟩

/-- The hypotheses can be met: acquisitions at 0 and 300, pulses at 100 and 104. -/
def spacedDemo (t : Int) : Program where
  pre := []
  bins := [(63, 0)]
  ops := ofLeaves [acqAt 0, pulseAt 100, pulseAt 104, acqAt t]
  total := 1000
  reps := 2
  latency := 0
  analog := true

/-- Accepted at 300 ns, rejected at 299 ns. -/
example : (spacedDemo 300).Ok (List.range 63) ∧
    ((spacedDemo 300).compile (List.range 63)).toOption.isSome = true ∧
    (spacedDemo 299).compile (List.range 63) = .error .valueError := by
  refine ⟨⟨?_, by decide, by decide, by decide⟩, by decide +kernel, by decide +kernel⟩
  have hp : ∀ t, t < 5000 → (pulseAt t).Ok (List.range 63) := by
    intro t ht
    refine ⟨by simp [pulseAt], by simp [pulseAt, Strategy.binReg], ?_, ?_⟩
    · show t < horizon; unfold horizon; omega
    · show (4 : Int) < horizon; decide
  have ha : ∀ t, t < 5000 → (acqAt t).Ok (List.range 63) := by
    intro t ht
    refine ⟨by simp [acqAt], by simp [acqAt, Strategy.binReg], ?_, ?_⟩
    · show t < horizon; unfold horizon; omega
    · show (4 : Int) < horizon; decide
  exact ⟨ha 0 (by omega), hp 100 (by omega), hp 104 (by omega), ha 300 (by omega), trivial⟩

end Verif.Q1
