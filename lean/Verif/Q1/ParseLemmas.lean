/- Helper lemmas: the whole list of operations. -/
import Verif.Q1.CondLemmas

set_option linter.unusedSimpArgs false
set_option linter.unusedVariables false

namespace Verif.Q1

/-- Plain code has been emitted, its real-time instructions have been counted, and they take at
least 4 ns each. -/
def PlainStep (q q' : Qasm) : Prop :=
  ∃ code, q'.instrs = q.instrs ++ code ∧ (∀ i ∈ code, i.plain = true) ∧
    q'.nRT = q.nRT + rtCount code ∧ 4 * (rtCount code : Int) ≤ q'.elapsed - q.elapsed

theorem PlainStep.refl (q : Qasm) : PlainStep q q :=
  ⟨[], by simp, by simp, by simp [rtCount], by simp [rtCount]⟩

theorem PlainStep.trans {q q1 q2 : Qasm} (h1 : PlainStep q q1) (h2 : PlainStep q1 q2) :
    PlainStep q q2 := by
  obtain ⟨c1, hi1, hp1, hn1, ht1⟩ := h1
  obtain ⟨c2, hi2, hp2, hn2, ht2⟩ := h2
  refine ⟨c1 ++ c2, by rw [hi2, hi1, List.append_assoc], ?_, ?_, ?_⟩
  · intro i hi
    rcases List.mem_append.mp hi with h | h
    · exact hp1 i h
    · exact hp2 i h
  · rw [hn2, hn1, rtCount_append]; push_cast; ring
  · rw [rtCount_append]; push_cast; omega

theorem waitTill_plain {q q' : Qasm} {t : Int} {idle param : Bool}
    (hgap : t = q.elapsed ∨ q.elapsed + 4 ≤ t ∨ (idle = true ∧ t ≤ q.elapsed))
    (hlen : t - q.elapsed ≤ 65528) (h : waitTill q t idle param = .ok q') :
    PlainStep q q' ∧ q'.elapsed = max q.elapsed t := by
  unfold waitTill at h
  simp only at h
  split at h
  · rename_i hw
    obtain ⟨h0, h1⟩ := autoWait_small (by omega) h
    have hM : maxWait = 65532 := rfl
    have hwl : waitList (t - q.elapsed).toNat = [(t - q.elapsed).toNat] := by
      unfold waitList
      rw [hM]
      have e1 : (t - q.elapsed).toNat / 65532 = 0 := by omega
      have e2 : (t - q.elapsed).toNat % 65532 = (t - q.elapsed).toNat := by omega
      rw [e1, e2, if_pos (by omega)]
      rfl
    rw [hwl] at h1
    have hel : q'.elapsed = t := by
      rw [h1]; unfold Qasm.elapsed; simp only [if_true]; omega
    refine ⟨⟨[.real .wait [] (t - q.elapsed).toNat], ?_, by simp [Instr.plain], ?_, ?_⟩, by omega⟩
    · rw [h1]; rfl
    · rw [h1]
      have : ¬ ((t - q.elapsed).toNat = 0) := by omega
      simp [rtCount, Instr.rt, this]
    · have : ¬ ((t - q.elapsed).toNat = 0) := by omega
      simp only [rtCount, List.map_cons, List.map_nil, List.sum_cons, List.sum_nil, Instr.rt,
        if_neg this]
      push_cast
      omega
  · rename_i hw
    split at h
    · cases h
    · split at h
      · cases h
      · cases h
        exact ⟨PlainStep.refl q, by omega⟩

/-- Operations whose real-time instructions are counted correctly. -/
theorem compileLeaf_plain {q q' : Qasm} {l : Leaf} (hc : l.countedRight)
    (h : compileLeaf q l = .ok q') (he : q'.elapsed = q.elapsed + l.strat.dur) :
    PlainStep q q' := by
  obtain ⟨hdb, hc⟩ := hc
  have key : ∀ (q1 : Qasm) (code : List Instr), insertQasm (q.countRT (if l.isRT then 1 else 0))
      l.strat = .ok q1 → q1.instrs = q.instrs ++ code → (∀ i ∈ code, i.plain = true) →
      q1.nRT = q.nRT + (if l.isRT then 1 else 0) → rtCount code = (if l.isRT then 1 else 0) →
      4 * (rtCount code : Int) = l.strat.dur → PlainStep q q' := by
    intro q1 code h1 h2 h3 h4 h5 h6
    unfold compileLeaf insertLeaf at h
    rw [hdb] at h
    simp only at h
    rw [h1] at h
    cases h
    refine ⟨code, h2, h3, ?_, by omega⟩
    rw [h4, h5]
    split <;> rfl
  have hh := h
  unfold compileLeaf insertLeaf at hh
  rw [hdb] at hh
  simp only at hh
  cases hs : l.strat with
  | idle =>
    rw [hs] at hc hh; simp only at hc
    refine key q' [] (by rw [hs]; exact hh) ?_ (by simp) ?_ (by simp [rtCount, hc])
      (by simp [rtCount, hs, Strategy.dur])
    · cases hh; simp [Qasm.countRT]
    · cases hh; rfl
  | pulse i0 i1 gI gQ =>
    rw [hs] at hc hh; simp only at hc
    refine key q' (pulseCode i0 i1 gI gQ) (by rw [hs]; exact hh) ?_ ?_ ?_ ?_ ?_
    · obtain ⟨q1, h1, hh⟩ := bind_ok hh
      obtain ⟨hi, _⟩ := pulseCheck_ok h1
      cases hh
      simp [Qasm.emits, Qasm.tick, hi, Qasm.countRT]
    · intro i hi
      cases i0 <;> cases i1 <;> simp [pulseCode] at hi <;> rcases hi with rfl | rfl <;> rfl
    · obtain ⟨q1, h1, hh⟩ := bind_ok hh
      obtain ⟨_, _, _, _, _, hi⟩ := pulseCheck_ok h1
      cases hh
      simp [Qasm.emits, Qasm.tick, hi, Qasm.countRT]
    · cases i0 <;> cases i1 <;> simp [pulseCode, rtCount, Instr.rt, hc, minOp]
    · cases i0 <;> cases i1 <;>
        simp [pulseCode, rtCount, Instr.rt, hc, minOp, hs, Strategy.dur]
  | marker m =>
    rw [hs] at hc hh; simp only at hc
    refine key q' [.real .setMrk [.imm m] 0] (by rw [hs]; exact hh) ?_ (by simp [Instr.plain]) ?_
      (by simp [rtCount, Instr.rt, hc]) (by simp [rtCount, Instr.rt, hs, Strategy.dur])
    · cases hh; rfl
    · cases hh; rfl
  | digital en f =>
    rw [hs] at hc hh; simp only at hc
    refine key q' [.real .setDigital [boolArg en, .imm 1, .imm f] 0] (by rw [hs]; exact hh) ?_
      (by simp [Instr.plain]) ?_
      (by simp [rtCount, Instr.rt, hc]) (by simp [rtCount, Instr.rt, hs, Strategy.dur])
    · cases hh; rfl
    · cases hh; rfl
  | phaseShift a =>
    rw [hs] at hc hh; simp only at hc
    cases a with
    | none =>
      refine key q' [] (by rw [hs]; exact hh) ?_ (by simp) ?_ (by simp [rtCount, hc])
        (by simp [rtCount, hs, Strategy.dur])
      · cases hh; simp [Qasm.countRT]
      · cases hh; rfl
    | some a =>
      refine key q' [.real .setPhDelta [.imm a] 0] (by rw [hs]; exact hh) ?_
        (by simp [Instr.plain]) ?_
        (by simp [rtCount, Instr.rt, hc]) (by simp [rtCount, Instr.rt, hs, Strategy.dur])
      · cases hh; rfl
      · cases hh; rfl
  | resetPhase =>
    rw [hs] at hc hh; simp only at hc
    refine key q' [.real .resetPh [] 0] (by rw [hs]; exact hh) ?_ (by simp [Instr.plain]) ?_
      (by simp [rtCount, Instr.rt, hc]) (by simp [rtCount, Instr.rt, hs, Strategy.dur])
    · cases hh; rfl
    · cases hh; rfl
  | setFreq a =>
    rw [hs] at hc hh; simp only at hc
    refine key q' [.real .setFreq [.imm a] 0] (by rw [hs]; exact hh) ?_ (by simp [Instr.plain]) ?_
      (by simp [rtCount, Instr.rt, hc]) (by simp [rtCount, Instr.rt, hs, Strategy.dur])
    · cases hh; rfl
    · cases hh; rfl
  | offset i p =>
    rw [hs] at hc hh; simp only at hc
    refine key q' [.real .setAwgOffs [.imm i, .imm p] 0] (by rw [hs]; exact hh) ?_
      (by simp [Instr.plain]) ?_
      (by simp [rtCount, Instr.rt, hc]) (by simp [rtCount, Instr.rt, hs, Strategy.dur])
    · cases hh; rfl
    · cases hh; rfl
  | latchReset d => rw [hs] at hc; exact hc.elim
  | updParam =>
    rw [hs] at hc hh; simp only at hc
    refine key q' [.real .updParam [] minOp] (by rw [hs]; exact hh) ?_ (by simp [Instr.plain]) ?_
      (by simp [rtCount, Instr.rt, hc, minOp])
      (by simp [rtCount, Instr.rt, hs, Strategy.dur, minOp])
    · cases hh; rfl
    · cases hh; rfl
  | timestamp =>
    rw [hs] at hc hh; simp only at hc
    refine key q' [.real .setTimeRef [] 0] (by rw [hs]; exact hh) ?_ (by simp [Instr.plain]) ?_
      (by simp [rtCount, Instr.rt, hc]) (by simp [rtCount, Instr.rt, hs, Strategy.dur])
    · cases hh; rfl
    · cases hh; rfl
  | square idx bin =>
    rw [hs] at hc hh; simp only at hc
    cases bin with
    | imm n =>
      refine key q' [.real .acquire [.imm idx, .imm n] minOp] (by rw [hs]; exact hh) ?_
        (by simp [Instr.plain]) ?_ (by simp [rtCount, Instr.rt, hc, minOp])
        (by simp [rtCount, Instr.rt, hs, Strategy.dur, minOp])
      · obtain ⟨q1, h1, hh⟩ := bind_ok hh
        obtain ⟨hi, _⟩ := acqCheck_ok h1
        cases hh
        simp [Qasm.emit, Qasm.tick, hi, Qasm.countRT]
      · obtain ⟨q1, h1, hh⟩ := bind_ok hh
        obtain ⟨_, _, _, _, _, hi⟩ := acqCheck_ok h1
        cases hh
        simp [Qasm.emit, Qasm.tick, hi, Qasm.countRT]
    | reg r =>
      refine key q' [.newline, .real .acquire [.imm idx, .reg r] minOp, .add r 1 r, .newline]
        (by rw [hs]; exact hh) ?_
        (by simp [Instr.plain]) ?_ (by simp [rtCount, Instr.rt, hc, minOp])
        (by simp [rtCount, Instr.rt, hs, Strategy.dur, minOp])
      · obtain ⟨q1, h1, hh⟩ := bind_ok hh
        obtain ⟨hi, _⟩ := acqCheck_ok h1
        cases hh
        simp [Qasm.emits, Qasm.tick, hi, Qasm.countRT]
      · obtain ⟨q1, h1, hh⟩ := bind_ok hh
        obtain ⟨_, _, _, _, _, hi⟩ := acqCheck_ok h1
        cases hh
        simp [Qasm.emits, Qasm.tick, hi, Qasm.countRT]
  | weighed idx bin w0 w1 =>
    rw [hs] at hc hh; simp only at hc
    cases bin with
    | imm n =>
      refine key q' [.real .acquireWeighed [.imm idx, .imm n, .imm w0, .imm w1] minOp]
        (by rw [hs]; exact hh) ?_
        (by simp [Instr.plain]) ?_ (by simp [rtCount, Instr.rt, hc, minOp])
        (by simp [rtCount, Instr.rt, hs, Strategy.dur, minOp])
      · obtain ⟨q1, h1, hh⟩ := bind_ok hh
        obtain ⟨hi, _⟩ := acqCheck_ok h1
        cases hh
        simp [Qasm.emit, Qasm.tick, hi, Qasm.countRT]
      · obtain ⟨q1, h1, hh⟩ := bind_ok hh
        obtain ⟨_, _, _, _, _, hi⟩ := acqCheck_ok h1
        cases hh
        simp [Qasm.emit, Qasm.tick, hi, Qasm.countRT]
    | reg r =>
      have hh2 := hh
      obtain ⟨q1, h1, hh2⟩ := bind_ok hh2
      obtain ⟨hi, _, _, _, _, hn⟩ := acqCheck_ok h1
      unfold insertWeighedReg at hh2
      obtain ⟨⟨a, q2⟩, h2, hh2⟩ := bind_ok hh2
      obtain ⟨⟨b, q3⟩, h3, hh2⟩ := bind_ok hh2
      obtain ⟨q4, h4, hh2⟩ := bind_ok hh2
      obtain ⟨rest1, hav, rfl⟩ := alloc_ok h2
      obtain ⟨rest2, hav2, rfl⟩ := alloc_ok h3
      obtain ⟨hna, rfl⟩ := free_ok h4
      obtain ⟨hnb, rfl⟩ := free_ok hh2
      refine key _ [.newline, .move w0 a, .move w1 b,
          .real .acquireWeighed [.imm idx, .reg r, .reg a, .reg b] minOp, .add r 1 r, .newline]
        (by rw [hs]; exact hh) ?_
        (by simp [Instr.plain]) ?_ (by simp [rtCount, Instr.rt, hc, minOp])
        (by simp [rtCount, Instr.rt, hs, Strategy.dur, minOp])
      · simp [Qasm.emits, Qasm.tick, hi, Qasm.countRT]
      · simp [Qasm.emits, Qasm.tick, hn, Qasm.countRT]
  | ttl idx bin d => rw [hs] at hc; exact hc.elim
  | timetag sc idx bin f0 f1 d => rw [hs] at hc; exact hc.elim

theorem countedRight_dur {l : Leaf} (h : l.countedRight) : 0 ≤ l.strat.dur ∧ l.dur = l.strat.dur := by
  obtain ⟨hd, hc⟩ := h
  refine ⟨?_, by simp [Leaf.dur, hd]⟩
  cases hs : l.strat <;> simp [hs, Strategy.dur] at hc ⊢

theorem gapsOk_le {ls : List Leaf} (h : ∀ l ∈ ls, l.countedRight) : ∀ {x e : Int},
    gapsOk x ls e → x ≤ e := by
  induction ls with
  | nil => intro x e hg; rcases hg with hg | hg <;> omega
  | cons l ls ih =>
    intro x e hg
    have := ih (fun y hy => h y (List.mem_cons_of_mem _ hy)) hg.2
    have := (countedRight_dur (h l List.mem_cons_self)).1
    omega

/-- `leavesRun` as a behaviour. -/
def leavesBeh (b : List Leaf) : Env → Int → Behaviour := fun _ B r => leavesRun B b r

/-- The body of a conditional. -/
theorem body_ok (e : Int) (he : e < horizon) (rest : List Op) (res : Qasm × List Op) :
    ∀ (b : List Leaf) (fuel : Nat) (q : Qasm), AvailOk q.avail → 0 ≤ q.elapsed →
    (∀ l ∈ b, l.Ok q.avail ∧ l.countedRight) → gapsOk q.elapsed b e → e - q.elapsed ≤ 65528 →
    parse fuel (b.map Op.leaf ++ .ret e :: rest) q = .ok res →
    res.2 = rest ∧ res.1.elapsed = e ∧ PlainStep q res.1 ∧
    FragOk q res.1 (leavesBeh b) (fun _ _ => True) := by
  intro b
  induction b with
  | nil =>
    intro fuel q ha h0 _ hg hlen h
    cases fuel with
    | zero => cases h
    | succ fuel =>
      obtain ⟨q1, h1, h2⟩ := bind_ok h
      cases h2
      have hg' : e = q.elapsed ∨ q.elapsed + 4 ≤ e := hg
      obtain ⟨hp, hel⟩ := waitTill_plain (by omega) hlen h1
      obtain ⟨hf, _⟩ := waitTill_frag ha he h0 h1
      exact ⟨rfl, by show q1.elapsed = e; omega, hp, hf.congr (fun _ _ _ => rfl) (fun _ _ h => h)⟩
  | cons l ls ih =>
    intro fuel q ha h0 hok hg hlen h
    obtain ⟨hl, hcr⟩ := hok l List.mem_cons_self
    have hls := fun x hx => hok x (List.mem_cons_of_mem _ hx)
    obtain ⟨hg1, hg2⟩ := hg
    have hle := gapsOk_le (fun x hx => (hls x hx).2) hg2
    obtain ⟨hd0, hdd⟩ := countedRight_dur hcr
    cases fuel with
    | zero => cases h
    | succ fuel =>
      simp only [List.map_cons, List.cons_append] at h
      obtain ⟨q1, h1, h2⟩ := bind_ok h
      obtain ⟨q2, h3, h4⟩ := bind_ok h2
      obtain ⟨hp1, hel1⟩ := waitTill_plain hg1 (by omega) h1
      obtain ⟨hw, _⟩ := waitTill_frag ha hl.t h0 h1
      have hl1 : l.Ok q1.avail := hl.mono (fun x hx => hw.1.avail.mem_iff.mp hx)
      have hc := compileLeaf_ok (ha.perm hw.1.avail) hl1 h3
      have hel2 := elapsed_of hc.2.1 hc.1.outer
      rw [hdd] at hel2
      have hp2 := compileLeaf_plain hcr h3 hel2
      have hf := leafStep_ok ha hl h0 h1 h3
      have hsub : ∀ x ∈ q2.avail, x ∈ q.avail := fun x hx => hf.1.avail.mem_iff.mp hx
      have hel : q2.elapsed = max q.elapsed l.t + l.strat.dur := by omega
      obtain ⟨r1, r2, r3, r4⟩ := ih fuel q2 (ha.perm hf.1.avail) (by have := hf.2.1; omega)
        (fun x hx => ⟨(hls x hx).1.mono hsub, (hls x hx).2⟩) (by rw [hel]; exact hg2)
        (by have := hf.2.1; omega) h4
      refine ⟨r1, r2, (hp1.trans hp2).trans r3, ?_⟩
      refine (hf.seq r4 ?_).congr (fun _ _ _ => rfl) (fun _ _ _ => ⟨trivial, trivial⟩)
      intro env B x y hxy
      exact leavesRun_agree (fun x hx => (hls x hx).1) hxy

/-- The inverted operator is the negation. -/
theorem holds_invert (op : TrigOp) (m : Nat) (f : Nat → Bool) :
    op.invert.holds m f = !(op.holds m f) := by
  cases op with
  | or => simp [TrigOp.invert, TrigOp.holds, List.not_any_eq_all_not]
  | nor => simp [TrigOp.invert, TrigOp.holds, List.not_all_eq_any_not]
  | and => simp [TrigOp.invert, TrigOp.holds, List.not_all_eq_any_not]
  | nand => simp [TrigOp.invert, TrigOp.holds, List.not_any_eq_all_not]
  | xor =>
    simp only [TrigOp.invert, TrigOp.holds]
    rcases Nat.mod_two_eq_zero_or_one ((selected m).filter f).length with h | h <;> simp [h]
  | xnor =>
    simp only [TrigOp.invert, TrigOp.holds]
    rcases Nat.mod_two_eq_zero_or_one ((selected m).filter f).length with h | h <;> simp [h]

/-- The behaviour of a conditional. -/
def condBeh (t : Int) (c : TrigCond) (body : List Leaf) : Env → Int → Behaviour := fun env B r =>
  if c.holds (env (t + B)) then leavesRun B body r else (leavesSkip body r, [])

/-- A complete conditional. -/
theorem cond_ok {q q1 q2 q3 q4 : Qasm} {t e : Int} {c : TrigCond} {b : List Leaf} {fuel : Nat}
    {rest rest' : List Op} (ha : AvailOk q.avail) (h0 : 0 ≤ q.elapsed) (hen : c.enable = true)
    (ht : t < horizon) (he : e < horizon) (hlen : e - t ≤ 65528)
    (hok : ∀ l ∈ b, l.Ok q.avail ∧ l.countedRight) (hg : gapsOk t b e)
    (h1 : waitTill q t false false = .ok q1) (h2 : condEnter q1 c = .ok q2)
    (h3 : parse fuel (b.map Op.leaf ++ .ret e :: rest) q2 = .ok (q3, rest'))
    (h4 : condExit q3 c q2.elapsed = .ok q4) :
    rest' = rest ∧ FragOk q q4 (condBeh t c b)
      (fun env B => ∀ τ, t + B ≤ τ → τ ≤ e + B + 4 → env τ = env (t + B)) := by
  obtain ⟨hw, hwt⟩ := waitTill_frag ha ht h0 h1
  have hwt : q1.elapsed = t := by
    rcases hwt with h | ⟨h, _⟩
    · exact h
    · cases h
  unfold condEnter at h2
  split at h2
  · cases h2
  rename_i hlk
  have hlk : q1.lock = false := by simpa using hlk
  cases h2
  set q2 : Qasm := { (q1.emit (.setCond c.enable (maskOf c.addresses) c.op minOp)) with
      lock := true, nRT := 0 } with hq2
  have hi2 : q2.instrs = q1.instrs ++ [.setCond c.enable (maskOf c.addresses) c.op minOp] := rfl
  have ha2 : q2.avail = q1.avail := rfl
  have hn2 : q2.nRT = 0 := rfl
  have ho2 : q2.outer = q1.outer := rfl
  have he2 : q2.elapsed = t := hwt
  have hl2 : q2.lock = true := rfl
  clear_value q2
  have hav1 : AvailOk q1.avail := ha.perm hw.1.avail
  obtain ⟨r1, r2, ⟨code, hci, hcp, hcn, hct⟩, hf⟩ := body_ok e he rest (q3, rest') b fuel q2
    (by rw [ha2]; exact hav1) (by have := hw.2.1; omega)
    (fun l hl => ⟨(hok l hl).1.mono (fun x hx => hw.1.avail.mem_iff.mp (ha2 ▸ hx)), (hok l hl).2⟩)
    (by rw [he2]; exact hg) (by omega) h3
  simp only at r1 r2 hci hcp hcn hct hf
  refine ⟨r1, ?_⟩
  unfold condExit at h4
  obtain ⟨q5, h5, h6⟩ := bind_ok h4
  cases h6
  have hm : ((minOp : Nat) : Int) = 4 := rfl
  rw [hm, hcn, hn2, r2, he2] at h5
  rw [r2, he2] at hct
  have hle := gapsOk_le (fun x hx => (hok x hx).2) hg
  set w : Int := e - t - 4 * (0 + (rtCount code : Int)) + 4 with hw_def
  have hw4 : 4 ≤ w := by omega
  have hwm : w ≤ 65532 := by omega
  obtain ⟨_, hq5⟩ := autoWait_small (by omega) h5
  have hM : maxWait = 65532 := rfl
  have hwl : waitList w.toNat = [w.toNat] := by
    unfold waitList
    rw [hM]
    by_cases hc : w = 65532
    · rw [hc]; rfl
    · have e1 : w.toNat / 65532 = 0 := by omega
      have e2 : w.toNat % 65532 = w.toNat := by omega
      rw [e1, e2, if_pos (by omega)]
      rfl
  rw [hwl] at hq5
  set q4 : Qasm := { (q5.emit (.setCond false 0 .or 0)).tick minOp with lock := false, nRT := 0 }
    with hq4
  have hi4 : q4.instrs = q3.instrs ++ [.setCond c.enable (maskOf c.addresses) c.op.invert minOp,
      .real .wait [] w.toNat, .setCond false 0 .or 0] := by
    rw [hq4, hq5]
    simp [Qasm.emit, Qasm.tick]
  have ha4 : q4.avail = q3.avail := by rw [hq4, hq5]; rfl
  have ho4 : q4.outer = q3.outer := by rw [hq4, hq5]; rfl
  have hel4 : q4.elapsed = e + 4 := by
    have : q4.cur = q3.cur + 4 := by
      rw [hq4, hq5]; rfl
    rw [elapsed_of this ho4, r2]
  have hlk4 : q4.lock = false := rfl
  clear_value q4
  have hp3 : Pres q1 q4 := by
    refine Pres.of_code (code := .setCond c.enable (maskOf c.addresses) c.op minOp :: code ++
      [.setCond c.enable (maskOf c.addresses) c.op.invert minOp, .real .wait [] w.toNat,
        .setCond false 0 .or 0]) ?_ ?_ ?_ ?_ ?_
    · rw [hi4, hci, hi2]; simp
    · intro l hl
      simp only [List.cons_append, List.mem_cons, List.mem_append, reduceCtorEq, List.not_mem_nil,
        or_false, false_or] at hl
      have := hcp _ hl
      simp [Instr.plain] at this
    · rw [ha4]
      have := hf.1.avail
      rw [ha2] at this
      exact this
    · rw [ho4, hf.1.outer, ho2]
    · rw [hlk4, hlk]
  refine ⟨hw.1.trans hp3, by have := hw.2.1; omega, ?_⟩
  intro env B d hd hst hdt
  obtain ⟨rg1, hag1, hE1⟩ := hw.2.2 env B d hd trivial hdt
  simp only [Behaviour.none, List.append_nil] at hag1 hE1
  rw [hwt] at hE1
  -- the machine when the conditional starts
  set d1 : Data := { d with time := B + t, regs := rg1 } with hd1
  -- what the body does without the condition
  obtain ⟨rg3, hag3, hE3⟩ := hf.2.2 env B d1 hd trivial (by rw [hd1, he2])
  -- agreement
  have hbok : ∀ l ∈ b, l.Ok q.avail := fun l hl => (hok l hl).1
  obtain ⟨hla, hle2⟩ := leavesRun_agree hbok (δ := B) hag1
  have hag : Agree q.avail rg3 (leavesRun B b d.regs).1 := by
    intro x hx
    have h := hag3 x (fun hc => hx (hw.1.avail.mem_iff.mp (ha2 ▸ hc)))
    rw [h]
    exact hla x hx
  set cnd : Cond := ⟨maskOf c.addresses, c.op, minOp⟩ with hcnd
  set cni : Cond := ⟨maskOf c.addresses, c.op.invert, minOp⟩ with hcni
  have hstr : ∀ i ∈ code, i.straight = true := fun i hi => Instr.plain_straight (hcp i hi)
  refine ⟨rg3, ?_, ?_⟩
  · unfold condBeh
    split
    · exact hag
    · rw [leavesSkip_eq (δ := B)]; exact hag
  intro P hP hu
  have hu3 : LabelsUnique q3.instrs := hu.prefix (List.IsPrefix.trans ⟨_, hi4.symm⟩ hP)
  have hruns := exec_runs hci hstr hu3 hE3
  rw [r2] at hruns
  have hplain_t := (runs_time_none env hcp d1 hd).1
  rw [← hruns] at hplain_t
  have hds : (durSum code : Int) = e - t := by
    simp only [hd1] at hplain_t
    omega
  -- straight-line execution of the whole conditional
  have hE4 := exec_straight (env := env) (q := q1) (q' := q4)
    (code := .setCond c.enable (maskOf c.addresses) c.op minOp :: code ++
      [.setCond c.enable (maskOf c.addresses) c.op.invert minOp, .real .wait [] w.toNat,
        .setCond false 0 .or 0]) (by rw [hi4, hci, hi2]; simp) (by
      intro i hi
      simp only [List.cons_append, List.mem_cons, List.mem_append, List.not_mem_nil,
        or_false] at hi
      rcases hi with rfl | hi | rfl | rfl | rfl
      · rfl
      · exact hstr i hi
      · rfl
      · rfl
      · rfl) d1
  have hfin : d1.runs env (.setCond c.enable (maskOf c.addresses) c.op minOp :: code ++
      [.setCond c.enable (maskOf c.addresses) c.op.invert minOp, .real .wait [] w.toNat,
        .setCond false 0 .or 0]) =
      { d with time := B + q4.elapsed, regs := rg3,
               trace := d.trace ++ (condBeh t c b env B d.regs).2 } := by
    rw [List.cons_append, Data.runs_cons, Data.runs_append]
    have hset : d1.run env (.setCond c.enable (maskOf c.addresses) c.op minOp) =
        { d1 with cond := some cnd } := by simp [Data.run, hen, hcnd]
    rw [hset]
    have hback : ({ ({ d1 with cond := some cnd } : Data) with cond := none } : Data) = d1 := by
      rw [hd1]; cases d; simp_all
    have hcb : c.holds (env (t + B)) = c.op.holds (maskOf c.addresses) (env (t + B)) := by
      simp [TrigCond.holds, hen]
    rw [hel4]
    by_cases hcase : c.op.holds (maskOf c.addresses) (env (t + B)) = true
    · rw [runs_open env hcp cnd _ rfl ?_, hback, ← hruns]
      · have hbeh : (condBeh t c b env B d.regs).2 = (leavesRun B b d.regs).2 := by
          unfold condBeh; rw [hcb, hcase]; rfl
        rw [hbeh]
        have hnot : (c.op.invert).holds (maskOf c.addresses) (env (B + e)) = false := by
          rw [hst (B + e) (by omega) (by omega), holds_invert, hcase]; rfl
        have hw0 : ¬ (w.toNat = 0) := by omega
        simp [Data.run, hen, Data.enabled, hnot, Data.skipTime, hw0, minOp, leavesBeh, hd1, hle2,
          hd, add_assoc]
      · intro τ h1 h2
        have h1 : d1.time ≤ τ := h1
        have h2 : τ ≤ d1.time + durSum code := h2
        simp only [hd1] at h1 h2
        show c.op.holds (maskOf c.addresses) (env τ) = true
        rw [hst τ (by omega) (by omega)]
        exact hcase
    · have hcase : c.op.holds (maskOf c.addresses) (env (t + B)) = false := by
        cases hx : c.op.holds (maskOf c.addresses) (env (t + B)) with
        | true => exact absurd hx hcase
        | false => rfl
      rw [runs_blocked env hcp cnd _ rfl ?_, hback, ← hruns]
      · have hbeh : (condBeh t c b env B d.regs).2 = [] := by
          unfold condBeh; rw [hcb, hcase]; rfl
        rw [hbeh]
        have hyes : (c.op.invert).holds (maskOf c.addresses)
            (env (B + t + 4 * (rtCount code : Int))) = true := by
          rw [hst _ (by omega) (by omega), holds_invert, hcase]; rfl
        have hmm : ((cnd.elseDur : Nat) : Int) = 4 := rfl
        have hwc : ((w.toNat : Nat) : Int) = w := Int.toNat_of_nonneg (by omega)
        have htt : B + t + 4 * (rtCount code : Int) + w = B + (e + 4) := by omega
        simp only [Data.runs_cons, Data.runs_nil, Data.run, hen, Data.enabled, hmm, hd1, if_true,
          hyes, Bool.false_eq_true, if_false, hwc, htt]
        simp [Data.eventsOf, hd]
      · intro τ h1 h2
        have h1 : d1.time ≤ τ := h1
        have h2 : τ ≤ d1.time + 4 * (rtCount code : Int) := h2
        simp only [hd1] at h1 h2
        show c.op.holds (maskOf c.addresses) (env τ) = false
        rw [hst τ (by omega) (by omega)]
        exact hcase
  rw [hfin] at hE4
  exact (hE1.trans hE4 hp3.pre) P hP hu

end Verif.Q1
