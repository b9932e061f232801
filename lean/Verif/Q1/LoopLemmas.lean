/- Helper lemmas: loops and waits. -/
import Verif.Q1.MachineLemmas

set_option linter.unusedSimpArgs false
set_option linter.unusedVariables false

namespace Verif.Q1

theorem decWord_count {n k : Nat} (hk : k < n) (hn : n ≤ wordSize) :
    decWord ((n - k) % wordSize) = (n - (k + 1)) % wordSize ∧
    ((n - (k + 1)) % wordSize = 0 ↔ k + 1 = n) := by
  have hW : 0 < wordSize := by decide
  constructor
  · by_cases h : n - k = wordSize
    · rw [h, Nat.mod_self, decWord_zero, Nat.mod_eq_of_lt (by omega)]
      omega
    · rw [Nat.mod_eq_of_lt (by omega), decWord_pos (by omega) (by omega),
        Nat.mod_eq_of_lt (by omega)]
      omega
  · rw [Nat.mod_eq_of_lt (by omega)]
    omega

/-- What `loopEnter` does. -/
theorem loopEnter_ok {q qE : Qasm} {l : Label} {n : Nat} {r : Reg}
    (h : q.loopEnter l n = .ok (r, qE)) :
    ∃ rest, q.avail = r :: rest ∧
      qE = { q with instrs := q.instrs ++ [.move n r, .label l], avail := rest, cur := 0,
                    outer := q.cur :: q.outer } := by
  unfold Qasm.loopEnter Qasm.alloc at h
  cases ha : q.avail with
  | nil => rw [ha] at h; cases h
  | cons x rest =>
    rw [ha] at h
    simp only [allocReg, Except.map, bind, Except.bind, pure, Except.pure, Except.ok.injEq,
      Prod.mk.injEq, Qasm.emit] at h
    obtain ⟨rfl, rfl⟩ := h
    exact ⟨rest, rfl, by simp [ha]⟩

/-- What `loopExit` does when the registers are sane. -/
theorem loopExit_ok {q : Qasm} {l : Label} {n : Nat} {r : Reg} {o : Int} {rest : List Int}
    (ho : q.outer = o :: rest) (hr : r ≤ 64) (hn : r ∉ q.avail) :
    q.loopExit r l n = .ok { q with instrs := q.instrs ++ [.loop r l], avail := r :: q.avail,
                                    cur := o + q.cur * n, outer := rest } := by
  unfold Qasm.loopExit Qasm.free
  simp only [Qasm.emit, freeReg_ok hr hn, Except.map, bind, Except.bind, ho, pure, Except.pure]

/-- A label of the right number at the right place. -/
def Label.fits (l : Label) (p : Nat) : Prop := l ≠ .start ∧ l.num = p

/-- Syntactic part of a complete loop. -/
theorem loop_pres {q qE qB qX : Qasm} {l : Label} {n : Nat} {r : Reg}
    (hl : l.fits q.instrs.length) (ha : AvailOk q.avail)
    (hE : q.loopEnter l n = .ok (r, qE)) (hB : Pres qE qB)
    (hX : qB.loopExit r l n = .ok qX) :
    Pres q qX ∧ qX.cur = q.cur + qB.cur * n ∧ qX.nRT = qB.nRT ∧
    qX.instrs = qB.instrs ++ [.loop r l] ∧ r ∈ q.avail ∧ r ∉ qE.avail ∧ r ∉ qB.avail ∧
    (∀ x, x ∈ qE.avail → x ∈ q.avail) := by
  obtain ⟨rest, hav, hqE⟩ := loopEnter_ok hE
  have ha' := ha
  rw [hav] at ha'
  have hrr : r ≤ 64 := ha'.bound r List.mem_cons_self
  have hEav : qE.avail = rest := by rw [hqE]
  have hnr : r ∉ rest := (List.nodup_cons.mp ha'.nodup).1
  have hnB : r ∉ qB.avail := fun hc => hnr (hEav ▸ hB.avail.mem_iff.mp hc)
  have hEo : qE.outer = q.cur :: q.outer := by rw [hqE]
  have hBo : qB.outer = q.cur :: q.outer := by rw [hB.outer, hEo]
  rw [loopExit_ok hBo hrr hnB] at hX
  cases hX
  have hEi : qE.instrs = q.instrs ++ [.move n r, .label l] := by rw [hqE]
  refine ⟨⟨?_, ?_, rfl, ?_, ?_⟩, rfl, rfl, rfl, by rw [hav]; exact List.mem_cons_self,
    by rw [hEav]; exact hnr, hnB, ?_⟩
  · refine List.IsPrefix.trans ⟨[.move n r, .label l], ?_⟩ (hB.pre.trans ⟨[.loop r l], rfl⟩)
    rw [hEi]
  · rw [hav]
    exact List.Perm.cons r (by rw [← hEav]; exact hB.avail)
  · show qB.lock = q.lock
    rw [hB.lock, hqE]
  · intro i x hi hx
    by_cases h1 : i < qB.instrs.length
    · simp only [] at hx
      rw [List.getElem?_append_left h1] at hx
      by_cases h2 : qE.instrs.length ≤ i
      · exact hB.lab i x h2 hx
      · obtain ⟨s, hs⟩ := hB.pre
        rw [← hs, List.getElem?_append_left (by omega), hEi, List.getElem?_append_right hi] at hx
        have hlen : qE.instrs.length = q.instrs.length + 2 := by rw [hEi]; simp
        have : i - q.instrs.length = 0 ∨ i - q.instrs.length = 1 := by omega
        rcases this with h3 | h3
        · rw [h3] at hx; simp at hx
        · rw [h3] at hx
          simp at hx
          subst hx
          refine ⟨hl.1, ?_⟩
          rw [hl.2]; omega
    · simp only [] at hx
      rw [List.getElem?_append_right (by omega)] at hx
      have := List.mem_of_getElem? hx
      simp at this
  · intro x hx
    rw [hav]
    rw [hEav] at hx
    exact List.mem_cons_of_mem _ hx

/-- Execution of a loop whose counter starts at `n mod 2^32`, with `1 ≤ n ≤ 2^32`:
the body is executed exactly `n` times. -/
theorem loop_exec {env : Env} {q qE qB qX : Qasm} {l : Label} {imm n : Nat} {r : Reg}
    (himm : imm = n % wordSize) (hn1 : 1 ≤ n) (hn2 : n ≤ wordSize)
    (hEi : qE.instrs = q.instrs ++ [.move imm r, .label l])
    (hB : qE.instrs <+: qB.instrs)
    (hXi : qX.instrs = qB.instrs ++ [.loop r l])
    (I : Nat → Data → Prop)
    (hbody : ∀ k, k < n → ∀ d, I k d → ∃ d', Exec env qE qB d d' ∧ d'.regs r = d.regs r ∧
      ∀ v, I (k + 1) { d' with regs := d'.regs.set r v })
    (d : Data) (hI : I 0 { d with regs := d.regs.set r imm }) :
    ∃ d', I n d' ∧ Exec env q qX d d' := by
  -- from the line after the label, with `k` iterations done
  have key : ∀ m k, k + m = n → 1 ≤ m → ∀ d, I k d → d.regs r = (n - k) % wordSize →
      ∃ d', I n d' ∧ ∀ P, qX.instrs <+: P → LabelsUnique P →
        Steps P env (qE.instrs.length, d) (qX.instrs.length, d') := by
    intro m
    induction m with
    | zero => intro k _ h; omega
    | succ m ih =>
      intro k hk _ d hId hreg
      obtain ⟨d1, hex, hr1, hI1⟩ := hbody k (by omega) d hId
      obtain ⟨hdec, hz⟩ := decWord_count (n := n) (k := k) (by omega) hn2
      have hloopAt : ∀ P, qX.instrs <+: P → P[qB.instrs.length]? = some (.loop r l) := by
        intro P hP
        rw [hXi] at hP
        obtain ⟨s, rfl⟩ := hP
        rw [List.append_assoc, List.getElem?_append_right (Nat.le_refl _)]
        simp
      have hpre : ∀ P, qX.instrs <+: P → qB.instrs <+: P := by
        intro P hP
        rw [hXi] at hP
        exact List.IsPrefix.trans ⟨_, rfl⟩ hP
      have hv : decWord (d1.regs r) = (n - (k + 1)) % wordSize := by
        rw [hr1, hreg, hdec]
      by_cases hlast : k + 1 = n
      · -- last iteration: fall through
        refine ⟨{ d1 with regs := d1.regs.set r 0 }, hlast ▸ hI1 0, ?_⟩
        intro P hP hu
        refine (hex P (hpre P hP) hu).trans (Steps.one ?_)
        unfold step
        simp only [hloopAt P hP]
        rw [hv, hz.mpr hlast]
        simp [hXi]
      · have hne : (n - (k + 1)) % wordSize ≠ 0 := fun hc => hlast (hz.mp hc)
        obtain ⟨d2, hI2, hs2⟩ := ih (k + 1) (by omega) (by omega)
          { d1 with regs := d1.regs.set r ((n - (k + 1)) % wordSize) } (hI1 _) (by simp)
        refine ⟨d2, hI2, ?_⟩
        intro P hP hu
        refine (hex P (hpre P hP) hu).trans (Steps.trans ?_ (hs2 P hP hu))
        -- jump to the label, then over it
        have hlabAt : P[q.instrs.length + 1]? = some (.label l) := by
          have : qE.instrs <+: P := hB.trans (hpre P hP)
          rw [hEi] at this
          obtain ⟨s, rfl⟩ := this
          rw [List.append_assoc, List.getElem?_append_right (by omega)]
          simp
        have s1 : step P env (qB.instrs.length, d1) =
            some (q.instrs.length + 1,
              { d1 with regs := d1.regs.set r ((n - (k + 1)) % wordSize) }) := by
          unfold step
          simp only [hloopAt P hP]
          rw [hv, if_neg hne, findLabel_of hu hlabAt]
          rfl
        have s2 := step_straight (env := env)
          (d := { d1 with regs := d1.regs.set r ((n - (k + 1)) % wordSize) }) hlabAt rfl
        have hlen : qE.instrs.length = q.instrs.length + 1 + 1 := by rw [hEi]; simp
        rw [hlen]
        exact (Steps.one s1).trans (Steps.one s2)
  obtain ⟨d', hI', hs⟩ := key n 0 (by omega) hn1 { d with regs := d.regs.set r imm } hI
    (by simp [himm])
  refine ⟨d', hI', ?_⟩
  intro P hP hu
  refine Steps.trans ?_ (hs P hP hu)
  have hpre : qE.instrs <+: P := by
    refine hB.trans ?_
    rw [hXi] at hP
    exact List.IsPrefix.trans ⟨_, rfl⟩ hP
  have := steps_straight (env := env) (is := [.move imm r, .label l]) (P := P)
    (by intro i hi; simp at hi; rcases hi with rfl | rfl <;> rfl)
    (p := q.instrs.length) d (codeAt_of_prefix (by rw [← hEi]; exact hpre))
  have hlen : qE.instrs.length = q.instrs.length + 2 := by rw [hEi]; simp
  rw [hlen]
  exact this

/-! ### Waits -/

theorem emitWait_eq (q : Qasm) (n : Nat) (c : Bool) :
    q.emitWait n c = { q with instrs := q.instrs ++ [.real .wait [] n],
                              cur := if c then q.cur + n else q.cur, nRT := q.nRT + 1 } := by
  cases c <;> rfl

theorem emitWaits_eq (c : Bool) (n : Nat) : ∀ q : Qasm,
    q.emitWaits c n = { q with instrs := q.instrs ++ List.replicate n (.real .wait [] maxWait),
                               cur := if c then q.cur + n * maxWait else q.cur,
                               nRT := q.nRT + n } := by
  induction n with
  | zero => intro q; simp [Qasm.emitWaits]
  | succ n ih =>
    intro q
    simp only [Qasm.emitWaits, ih, emitWait_eq]
    cases c
    · simp [List.replicate_succ]; ring
    · simp [List.replicate_succ]; constructor <;> ring

/-- The lengths of the waits emitted in a row for `w` when no loop is used. -/
def waitList (w : Nat) : List Nat :=
  List.replicate (w / maxWait) maxWait ++ (if w % maxWait > 0 then [w % maxWait] else [])

theorem waitList_sum (w : Nat) : (waitList w).sum = w := by
  unfold waitList
  split
  · simp
    rw [Nat.mul_comm]; exact Nat.div_add_mod w maxWait
  · rename_i h
    simp
    have h0 : w % maxWait = 0 := by omega
    have := Nat.div_add_mod w maxWait
    rw [h0] at this
    rw [Nat.mul_comm]; omega

theorem waitList_pos (w : Nat) : ∀ n ∈ waitList w, 1 ≤ n ∧ n ≤ 65532 := by
  intro n hn
  unfold waitList at hn
  have h0 : maxWait = 65532 := rfl
  rw [List.mem_append] at hn
  rcases hn with hn | hn
  · have := List.eq_of_mem_replicate hn
    omega
  · split at hn
    · simp at hn
      have := Nat.mod_lt w (show 0 < maxWait by decide)
      omega
    · cases hn

/-- `auto_wait` without a loop: plain waits. -/
theorem autoWait_small {q q' : Qasm} {w : Int} {c : Bool} (hw : w < 327660)
    (h : q.autoWait w c = .ok q') :
    0 ≤ w ∧ q' = { q with
      instrs := q.instrs ++ (waitList w.toNat).map (fun n => Instr.real .wait [] n),
      cur := if c then q.cur + w else q.cur,
      nRT := q.nRT + (waitList w.toNat).length } := by
  have hM : maxWait = 65532 := rfl
  unfold Qasm.autoWait at h
  split at h
  · rename_i h0
    cases h
    subst h0
    refine ⟨le_refl _, ?_⟩
    simp [waitList]
  split at h
  · cases h
  split at h
  · rename_i h1 h2 h3
    have h4 : ¬ (w.toNat / maxWait > 4) := by rw [hM]; omega
    rw [if_neg h4] at h
    cases h
    refine ⟨by omega, ?_⟩
    have hcast : (w.toNat : Int) = w := Int.toNat_of_nonneg (by omega)
    have hdm : ((w.toNat / maxWait : Nat) : Int) * maxWait + ((w.toNat % maxWait : Nat) : Int)
        = w := by
      rw [← hcast]
      have := Nat.div_add_mod w.toNat maxWait
      rw [Nat.mul_comm] at this
      exact_mod_cast this
    unfold waitList Qasm.emitRest
    rw [emitWaits_eq]
    generalize w.toNat / maxWait = A at *
    generalize w.toNat % maxWait = B at *
    split
    · rw [emitWait_eq]
      cases c
      · simp [List.map_replicate, add_assoc]
      · simp [List.map_replicate, add_assoc]
        omega
    · rename_i h5
      have h6 : B = 0 := by omega
      rw [h6] at hdm
      cases c
      · simp [List.map_replicate]
      · simp [List.map_replicate]
        omega
  · rename_i h1 h2 h3
    cases h
    refine ⟨by omega, ?_⟩
    have hcast : (w.toNat : Int) = w := Int.toNat_of_nonneg (by omega)
    have hpos : w.toNat > 0 := by omega
    unfold Qasm.emitRest
    rw [if_pos hpos, emitWait_eq]
    have hwl : waitList w.toNat = [w.toNat] := by
      unfold waitList
      by_cases h5 : w.toNat = 65532
      · rw [h5]; decide
      · have h6 : w.toNat / maxWait = 0 := Nat.div_eq_of_lt (by omega)
        have h7 : w.toNat % maxWait = w.toNat := Nat.mod_eq_of_lt (by omega)
        rw [h6, h7, if_pos hpos]
        simp
    rw [hwl]
    cases c
    · simp
    · simp; omega

/-- Running waits outside a conditional. -/
theorem runs_waits {env : Env} (ws : List Nat) : ∀ (d : Data), d.cond = none →
    d.runs env (ws.map (fun n => Instr.real .wait [] n)) = { d with time := d.time + ws.sum } := by
  induction ws with
  | nil => intro d _; simp
  | cons n ws ih =>
    intro d hd
    simp only [List.map_cons, Data.runs_cons, Data.run]
    rw [if_pos (by simp [Data.enabled, hd])]
    rw [ih _ (by simpa using hd)]
    simp [Data.eventsOf, add_assoc]

theorem emitRest_pres (q : Qasm) (n : Nat) (c : Bool) :
    Pres q (q.emitRest n c) ∧
    (q.emitRest n c).cur = (if c then q.cur + n else q.cur) ∧
    (q.emitRest n c).lastPulse = q.lastPulse ∧ (q.emitRest n c).lastAcq = q.lastAcq ∧
    ∀ env d, d.cond = none → Exec env q (q.emitRest n c) d { d with time := d.time + n } := by
  unfold Qasm.emitRest
  split
  · rw [emitWait_eq]
    refine ⟨Pres.of_code (code := [.real .wait [] n]) rfl (by simp) (List.Perm.refl _) rfl rfl,
      by cases c <;> rfl, rfl, rfl, ?_⟩
    intro env d hd
    have := exec_straight (env := env) (q := q)
      (q' := { q with instrs := q.instrs ++ [.real .wait [] n],
                      cur := if c then q.cur + n else q.cur, nRT := q.nRT + 1 })
      (code := [.real .wait [] n]) rfl (by simp [Instr.straight]) d
    have h2 := runs_waits (env := env) [n] d hd
    simp only [List.map_cons, List.map_nil, List.sum_cons, List.sum_nil, Nat.add_zero] at h2
    rw [h2] at this
    simpa using this
  · rename_i h
    have h0 : n = 0 := by omega
    subst h0
    refine ⟨Pres.refl q, by simp, rfl, rfl, ?_⟩
    intro env d _
    simpa using Exec.refl env q d

/-- `auto_wait` in general: exactly the requested time, touching only free registers. -/
theorem autoWait_ok {q q' : Qasm} {w : Int} {c : Bool} (ha : AvailOk q.avail)
    (hw : w < 65532 * 2 ^ 32) (h : q.autoWait w c = .ok q') :
    Pres q q' ∧ 0 ≤ w ∧ q'.cur = (if c then q.cur + w else q.cur) ∧
    q'.lastPulse = q.lastPulse ∧ q'.lastAcq = q.lastAcq ∧
    ∀ env d, d.cond = none → ∃ regs', (∀ x, x ∉ q.avail → regs' x = d.regs x) ∧
      Exec env q q' d { d with time := d.time + w, regs := regs' } := by
  by_cases hsmall : w < 327660
  · obtain ⟨h0, h1⟩ := autoWait_small hsmall h
    subst h1
    refine ⟨Pres.of_code (code := (waitList w.toNat).map (fun n => Instr.real .wait [] n)) rfl
      (by intro l hl; simp at hl) (List.Perm.refl _) rfl rfl, h0, rfl, rfl, rfl, ?_⟩
    intro env d hd
    refine ⟨d.regs, fun _ _ => rfl, ?_⟩
    have := exec_straight (env := env) (q := q)
      (q' := { q with
        instrs := q.instrs ++ (waitList w.toNat).map (fun n => Instr.real .wait [] n),
        cur := if c then q.cur + w else q.cur,
        nRT := q.nRT + (waitList w.toNat).length })
      (code := (waitList w.toNat).map (fun n => Instr.real .wait [] n)) rfl
      (by intro i hi; simp only [List.mem_map] at hi; obtain ⟨n, _, rfl⟩ := hi; rfl) d
    rw [runs_waits _ d hd, waitList_sum] at this
    have hcast : (w.toNat : Int) = w := Int.toNat_of_nonneg h0
    rw [hcast] at this
    exact this
  · have hM : maxWait = 65532 := rfl
    unfold Qasm.autoWait at h
    rw [if_neg (by omega), if_neg (by omega), if_pos (by omega),
      if_pos (by rw [hM]; omega : w.toNat / maxWait > 4)] at h
    simp only [bind, Except.bind] at h
    cases hE : q.loopEnter (Label.wait q.instrs.length) (w.toNat / maxWait) with
    | error e => rw [hE] at h; cases h
    | ok p =>
      obtain ⟨r, qE⟩ := p
      rw [hE] at h
      simp only [] at h
      cases hX : (qE.emitWait maxWait c).loopExit r (Label.wait q.instrs.length)
          (w.toNat / maxWait) with
      | error e => rw [hX] at h; cases h
      | ok qX =>
        rw [hX] at h
        simp only [pure, Except.pure, Except.ok.injEq] at h
        subst h
        have hBeq := emitWait_eq qE maxWait c
        have hBp : Pres qE (qE.emitWait maxWait c) := by
          rw [hBeq]
          exact Pres.of_code (code := [.real .wait [] maxWait]) rfl (by simp)
            (List.Perm.refl _) rfl rfl
        obtain ⟨hP, hcur, _, hXi, hrm, hrE, hrB, hsub⟩ :=
          loop_pres (l := .wait q.instrs.length) ⟨by simp, rfl⟩ ha hE hBp hX
        obtain ⟨rest, hav, hqE⟩ := loopEnter_ok hE
        obtain ⟨hRp, hRc, hRlp, hRla, hRe⟩ := emitRest_pres qX (w.toNat % maxWait) c
        have hEcur : qE.cur = 0 := by rw [hqE]
        have hcast : (w.toNat : Int) = w := Int.toNat_of_nonneg (by omega)
        have hdm : ((w.toNat / maxWait : Nat) : Int) * maxWait +
            ((w.toNat % maxWait : Nat) : Int) = w := by
          rw [← hcast]
          have := Nat.div_add_mod w.toNat maxWait
          rw [Nat.mul_comm] at this
          exact_mod_cast this
        have hXf : qX.lastPulse = q.lastPulse ∧ qX.lastAcq = q.lastAcq := by
          have hBo : (qE.emitWait maxWait c).outer = q.cur :: q.outer := by rw [hBeq, hqE]
          have hrr : r ≤ 64 := ha.bound r hrm
          rw [loopExit_ok hBo hrr hrB] at hX
          cases hX
          rw [hBeq, hqE]
          exact ⟨rfl, rfl⟩
        refine ⟨hP.trans hRp, by omega, ?_, by rw [hRlp, hXf.1], by rw [hRla, hXf.2], ?_⟩
        · rw [hRc, hcur, hBeq]
          cases c
          · simp [hEcur]
          · simp only [hEcur, if_true]
            rw [add_assoc]
            congr 1
            generalize w.toNat / maxWait = A at *
            generalize w.toNat % maxWait = B at *
            rw [← hdm]
            ring
        · intro env d hd
          -- iterate
          have hnb : w.toNat / maxWait < wordSize := by
            have : wordSize = 2 ^ 32 := rfl
            rw [this, hM]
            omega
          have hn1 : 1 ≤ w.toNat / maxWait := by rw [hM]; omega
          have hloop := loop_exec (env := env) (q := q) (qE := qE)
            (qB := qE.emitWait maxWait c) (qX := qX) (l := .wait q.instrs.length)
            (imm := w.toNat / maxWait) (n := w.toNat / maxWait) (r := r)
            (Nat.mod_eq_of_lt hnb).symm hn1 (Nat.le_of_lt hnb)
            (by rw [hqE]) hBp.pre hXi
            (fun k d' => d'.cond = none ∧ d'.trace = d.trace ∧
              d'.time = d.time + k * (maxWait : Int) ∧
              (∀ x, x ≠ r → d'.regs x = d.regs x))
            (by
              intro k hk d1 ⟨hc1, ht1, htm1, hr1⟩
              refine ⟨{ d1 with time := d1.time + (maxWait : Int) }, ?_, rfl, ?_⟩
              · have := exec_straight (env := env) (q := qE) (q' := qE.emitWait maxWait c)
                  (code := [maxWait].map (fun n => Instr.real .wait [] n))
                  (by rw [hBeq]; rfl) (by simp [Instr.straight]) d1
                rw [runs_waits _ d1 hc1] at this
                simpa using this
              · intro v
                refine ⟨hc1, ht1, ?_, ?_⟩
                · show d1.time + (maxWait : Int) = _
                  rw [htm1]; push_cast; ring
                · intro x hx
                  show d1.regs.set r v x = _
                  rw [RegFile.set_other _ _ hx]
                  exact hr1 x hx)
            d ⟨hd, rfl, by simp, fun x hx => RegFile.set_other _ _ hx⟩
          obtain ⟨d', ⟨hc', ht', htm', hr'⟩, hex⟩ := hloop
          refine ⟨d'.regs, ?_, ?_⟩
          · intro x hx
            exact hr' x (fun hc => hx (hc ▸ hrm))
          · have h2 := hRe env d' hc'
            have h3 := hex.trans h2 hRp.pre
            have : ({ d' with time := d'.time + ((w.toNat % maxWait : Nat) : Int) } : Data) =
                { d with time := d.time + w, regs := d'.regs } := by
              have htime : d'.time + ((w.toNat % maxWait : Nat) : Int) = d.time + w := by
                rw [htm']
                generalize w.toNat / maxWait = A at *
                generalize w.toNat % maxWait = B at *
                rw [← hdm]
                ring
              rw [htime, hc', ht']
              rw [hd]
            rw [this] at h3
            exact h3

end Verif.Q1
