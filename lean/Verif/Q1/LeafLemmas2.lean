/- Helper lemmas: every strategy's code does what the operation should do. -/
import Verif.Q1.LeafLemmas

set_option linter.unusedSimpArgs false
set_option linter.unusedVariables false

namespace Verif.Q1

theorem LeafOk.congr' {q q' : Qasm} {dur dur' : Int} {next next' : RegFile → RegFile}
    {ev ev' : RegFile → List Event} (h : LeafOk q q' dur next ev) (hd : dur = dur')
    (hn : ∀ b x, x ∉ q.avail → next b x = next' b x) (he : ∀ b, ev b = ev' b) :
    LeafOk q q' dur' next' ev' := by
  obtain rfl := hd
  obtain rfl : ev = ev' := funext he
  obtain ⟨hp, hc, hd, hx⟩ := h
  refine ⟨hp, hc, hd, ?_⟩
  intro env d hdc
  obtain ⟨r, h1, h2⟩ := hx env d hdc
  exact ⟨r, fun x hx => (h1 x hx).trans (hn _ x hx), h2⟩

/-- Taking a temporary register around a piece of code. -/
theorem LeafOk.lift {q q1 q2 q' : Qasm} {a : Reg} {rest : List Reg} {dur : Int}
    {n : RegFile → RegFile} {e : RegFile → List Event} (h : LeafOk q1 q2 dur n e)
    (hav : q.avail = a :: rest) (h1 : q1 = { q with avail := rest })
    (hi : q'.instrs = q2.instrs) (ha : q'.avail.Perm (a :: q2.avail)) (ho : q'.outer = q2.outer)
    (hl : q'.lock = q2.lock) (hc : q'.cur = q2.cur) : LeafOk q q' dur n e := by
  subst h1
  obtain ⟨hp, hcur, hd, hx⟩ := h
  refine ⟨⟨?_, ?_, ?_, ?_, ?_⟩, by rw [hc, hcur], hd, ?_⟩
  · rw [hi]; exact hp.pre
  · rw [hav]; exact ha.trans (List.Perm.cons a hp.avail)
  · rw [ho]; exact hp.outer
  · rw [hl]; exact hp.lock
  · intro i l h1 h2
    rw [hi] at h2
    exact hp.lab i l h1 h2
  · intro env d hdc
    obtain ⟨r, hr, hE⟩ := hx env d hdc
    refine ⟨r, ?_, hE.congr rfl hi⟩
    intro x hx
    exact hr x (fun hc => hx (by rw [hav]; exact List.mem_cons_of_mem _ hc))

theorem LeafOk.move {q : Qasm} (n : Nat) (a : Reg) (q' : Qasm) (hq' : q' = q.emit (.move n a)) :
    LeafOk q q' 0 (fun b => b.set a n) (fun _ => []) := by
  subst hq'
  refine LeafOk.of_code (code := [.move n a]) rfl (by simp [Instr.straight]) (by simp)
    (List.Perm.refl _) rfl rfl (by simp [Qasm.emit]) (le_refl _) ?_
  intro env d hd
  exact ⟨_, fun _ _ => rfl, by simp [Data.run, shiftAll]⟩

theorem shiftAll_zero (es : List Event) : shiftAll 0 es = es := by
  have : Event.shift 0 = id := by funext e; simp [Event.shift]
  simp [shiftAll, this]

theorem shiftAll_nil (δ : Int) : shiftAll δ [] = [] := rfl

theorem weighedReg_ok {q q' : Qasm} {idx : Nat} {r : Reg} {w0 w1 : Nat} (ha : AvailOk q.avail)
    (hr : r ∉ q.avail) (h : insertWeighedReg q idx r w0 w1 = .ok q') :
    LeafOk q q' 4 (fun b => b.set r ((b r + 1) % wordSize))
      (fun b => [⟨0, .acquireWeighed, [(idx : Int), (b r : Int), (w0 : Int), (w1 : Int)]⟩]) := by
  unfold insertWeighedReg at h
  obtain ⟨⟨a, q1⟩, h1, h⟩ := bind_ok h
  obtain ⟨⟨b, q2⟩, h2, h⟩ := bind_ok h
  obtain ⟨q3, h3, h⟩ := bind_ok h
  obtain ⟨rest1, hav, rfl⟩ := alloc_ok h1
  obtain ⟨rest2, hav2, rfl⟩ := alloc_ok h2
  obtain ⟨hna, rfl⟩ := free_ok h3
  obtain ⟨hnb, rfl⟩ := free_ok h
  simp only at hav2
  subst hav2
  rw [hav] at ha hr
  have hab : a ≠ b := by
    intro hc
    have := (List.nodup_cons.mp ha.nodup).1
    exact this (by rw [hc]; exact List.mem_cons_self)
  have hra : r ≠ a := fun hc => hr (by rw [hc]; exact List.mem_cons_self)
  have hrb : r ≠ b := fun hc =>
    hr (by rw [hc]; exact List.mem_cons_of_mem _ List.mem_cons_self)
  refine LeafOk.of_code (code := [.newline, .move w0 a, .move w1 b,
    .real .acquireWeighed [.imm idx, .reg r, .reg a, .reg b] minOp, .add r 1 r, .newline])
    rfl (by simp [Instr.straight]) (by simp) ?_ rfl rfl rfl (by decide) ?_
  · simp only [Qasm.emits, Qasm.tick, hav]
    exact List.Perm.swap _ _ _
  · intro env d hd
    refine ⟨((d.regs.set a w0).set b w1).set r ((d.regs r + 1) % wordSize), ?_, ?_⟩
    rotate_left
    · simp only [Data.runs_cons, Data.runs_nil]
      simp only [Data.run, Data.enabled, hd, if_true, Data.eventsOf, reduceCtorEq, if_false]
      simp only [List.map_cons, List.map_nil, Arg.eval, RegFile.set_same,
        RegFile.set_other _ _ hab, RegFile.set_other _ _ hra, RegFile.set_other _ _ hrb]
      simp [shiftAll, Event.shift, minOp]
    · intro x hx
      rw [hav] at hx
      have hxa : x ≠ a := fun hc => hx (by rw [hc]; exact List.mem_cons_self)
      have hxb : x ≠ b := fun hc =>
        hx (by rw [hc]; exact List.mem_cons_of_mem _ List.mem_cons_self)
      by_cases hxr : x = r
      · subst hxr
        simp [RegFile.set_other _ _ hxa, RegFile.set_other _ _ hxb]
      · simp only [RegFile.set_other _ _ hxr, RegFile.set_other _ _ hxa,
          RegFile.set_other _ _ hxb]

theorem gated_reg_congr {q : Qasm} {k : Mnemonic} {a1 a2 : List Arg} {dur : Int}
    (h1 : ∀ r, Arg.reg r ∈ a1 → r ∉ q.avail) (h2 : ∀ r, Arg.reg r ∈ a2 → r ∉ q.avail)
    (f g : RegFile) (h : ∀ x, x ∉ q.avail → f x = g x) :
    [(⟨0, k, a1.map (Arg.eval f)⟩ : Event), ⟨dur - 4, k, a2.map (Arg.eval f)⟩] =
    [⟨0, k, a1.map (Arg.eval g)⟩, ⟨dur - 4, k, a2.map (Arg.eval g)⟩] := by
  rw [eval_congr (fun r hr => h r (h1 r hr)), eval_congr (a := a2) (fun r hr => h r (h2 r hr))]

theorem timetagReg_ok {q q' : Qasm} {idx : Nat} {r : Reg} {f0 f1 : Nat} {dur : Int}
    (ha : AvailOk q.avail) (hr : r ∉ q.avail) (hh : dur < horizon)
    (h : insertTimetagReg q idx r f0 f1 dur = .ok q') :
    LeafOk q q' dur (fun b => b.set r ((b r + 1) % wordSize))
      (fun b => [⟨0, .acquireTimetags, [(idx : Int), (b r : Int), 1, (f0 : Int)]⟩,
        ⟨dur - 4, .acquireTimetags, [(idx : Int), (b r : Int), 0, (f1 : Int)]⟩]) := by
  unfold insertTimetagReg at h
  split at h
  · rename_i heq
    subst heq
    obtain ⟨⟨a, q1⟩, h1, h⟩ := bind_ok h
    obtain ⟨q3, h3, h⟩ := bind_ok h
    obtain ⟨q4, h4, h⟩ := bind_ok h
    simp only [pure, Except.pure, Except.ok.injEq] at h
    subst h
    obtain ⟨rest, hav, rfl⟩ := alloc_ok h1
    obtain ⟨hna, rfl⟩ := free_ok h4
    have ha' := ha; rw [hav] at ha'
    have hr' := hr; rw [hav] at hr'
    have hra : r ≠ a := fun hc => hr' (by rw [hc]; exact List.mem_cons_self)
    have hrr : r ∉ rest := fun hc => hr' (List.mem_cons_of_mem _ hc)
    have har : a ∉ rest := (List.nodup_cons.mp ha'.nodup).1
    have e1 := LeafOk.move (q := { q with avail := rest }) f0 a _ rfl
    have e2 := gated_ok (by decide) (q := ({ q with avail := rest } : Qasm).emit (.move f0 a))
      ha'.tail (by
        intro x hx
        simp at hx
        rcases hx with rfl | rfl
        · exact hrr
        · exact har) hh h3
    have e12 := e1.seq e2 (by intro f g hfg x hx; exact hfg x hx) (by
      intro f g hfg
      refine gated_reg_congr (q := { q with avail := rest }) ?_ ?_ f g hfg
      · intro x hx
        simp at hx
        rcases hx with rfl | rfl
        · exact hrr
        · exact har
      · intro x hx
        simp at hx
        rcases hx with rfl | rfl
        · exact hrr
        · exact har)
    have e3 := e12.lift (q := q) (q' := { q3 with avail := a :: q3.avail }) hav rfl rfl
      (List.Perm.refl _) rfl rfl rfl
    have e4 := e3.seq (LeafOk.addOne (q := { q3 with avail := a :: q3.avail }) r _ rfl)
      (fun f g hfg x hx => set_congr hr f g hfg x hx) (fun _ _ _ => rfl)
    refine e4.congr' (by ring) ?_ ?_
    · intro b x hx
      have hxa : x ≠ a := fun hc => hx (by rw [hav, hc]; exact List.mem_cons_self)
      by_cases hxr : x = r
      · subst hxr
        simp [RegFile.set_other _ _ hxa]
      · simp only [id, RegFile.set_other _ _ hxr, RegFile.set_other _ _ hxa]
    · intro b
      simp [shiftAll_zero, shiftAll_nil, Arg.eval, RegFile.set_other _ _ hra]
  · rename_i hne
    obtain ⟨⟨a, q1⟩, h1, h⟩ := bind_ok h
    obtain ⟨⟨c, q2⟩, h2, h⟩ := bind_ok h
    obtain ⟨q3, h3, h⟩ := bind_ok h
    obtain ⟨q4, h4, h⟩ := bind_ok h
    obtain ⟨q5, h5, h⟩ := bind_ok h
    simp only [pure, Except.pure, Except.ok.injEq] at h
    subst h
    obtain ⟨rest1, hav, rfl⟩ := alloc_ok h1
    obtain ⟨rest, hav2, rfl⟩ := alloc_ok h2
    simp only at hav2
    subst hav2
    obtain ⟨hna, rfl⟩ := free_ok h4
    obtain ⟨hnc, rfl⟩ := free_ok h5
    have ha' := ha; rw [hav] at ha'
    have hr' := hr; rw [hav] at hr'
    have hra : r ≠ a := fun hc => hr' (by rw [hc]; exact List.mem_cons_self)
    have hrc : r ≠ c := fun hx =>
      hr' (by rw [hx]; exact List.mem_cons_of_mem _ List.mem_cons_self)
    have hrr : r ∉ rest := fun hc =>
      hr' (List.mem_cons_of_mem _ (List.mem_cons_of_mem _ hc))
    have har1 : a ∉ c :: rest := (List.nodup_cons.mp ha'.nodup).1
    have har : a ∉ rest := fun hc => har1 (List.mem_cons_of_mem _ hc)
    have hac : a ≠ c := fun hc => har1 (by rw [hc]; exact List.mem_cons_self)
    have hcr : c ∉ rest := (List.nodup_cons.mp ha'.tail.nodup).1
    have hregs : ∀ (x : Reg) (y : Reg), (y = a ∨ y = c) → (n : Int) →
        Arg.reg x ∈ [Arg.imm idx, Arg.reg r, Arg.imm n, Arg.reg y] → x ∉ rest := by
      intro x y hy n hx
      simp at hx
      rcases hx with rfl | rfl
      · exact hrr
      · rcases hy with rfl | rfl
        · exact har
        · exact hcr
    have e1 := LeafOk.move (q := { q with avail := rest }) f0 a _ rfl
    have e1' := LeafOk.move (q := ({ q with avail := rest } : Qasm).emit (.move f0 a)) f1 c _ rfl
    have hqe : ((({ q with avail := rest } : Qasm).emit (.move f0 a)).emit (.move f1 c)) =
        ({ q with avail := rest } : Qasm).emits [.move f0 a, .move f1 c] := by
      simp [Qasm.emit, Qasm.emits]
    have e2 := gated_ok (by decide)
      (q := ({ q with avail := rest } : Qasm).emits [.move f0 a, .move f1 c])
      ha'.tail.tail (fun x hx => hregs x c (Or.inr rfl) 0 hx) hh h3
    have e11 := e1.seq e1' (by
      intro f g hfg x hx
      show f.set c f1 x = g.set c f1 x
      unfold RegFile.set
      split
      · rfl
      · exact hfg x hx) (fun _ _ _ => rfl)
    rw [hqe] at e11
    have e12 := e11.seq e2 (by intro f g hfg x hx; exact hfg x hx) (by
      intro f g hfg
      exact gated_reg_congr (q := { q with avail := rest })
        (fun x hx => hregs x a (Or.inl rfl) 1 hx) (fun x hx => hregs x c (Or.inr rfl) 0 hx)
        f g hfg)
    have e3 := e12.lift (q := { q with avail := c :: rest })
      (q' := { q3 with avail := c :: q3.avail }) rfl rfl rfl
      (List.Perm.refl _) rfl rfl rfl
    have e3' := e3.lift (q := q) (q' := { q3 with avail := c :: a :: q3.avail }) hav rfl rfl
      (List.Perm.swap _ _ _) rfl rfl rfl
    have e4 := e3'.seq (LeafOk.addOne (q := { q3 with avail := c :: a :: q3.avail }) r _ rfl)
      (fun f g hfg x hx => set_congr hr f g hfg x hx) (fun _ _ _ => rfl)
    refine e4.congr' (by ring) ?_ ?_
    · intro b x hx
      have hxa : x ≠ a := fun hc => hx (by rw [hav, hc]; exact List.mem_cons_self)
      have hxc : x ≠ c := fun hc =>
        hx (by rw [hav, hc]; exact List.mem_cons_of_mem _ List.mem_cons_self)
      by_cases hxr : x = r
      · subst hxr
        simp [RegFile.set_other _ _ hxa, RegFile.set_other _ _ hxc]
      · simp only [id, RegFile.set_other _ _ hxr, RegFile.set_other _ _ hxa,
          RegFile.set_other _ _ hxc]
    · intro b
      simp [shiftAll_zero, shiftAll_nil, Arg.eval, RegFile.set_other _ _ hra,
        RegFile.set_other _ _ hrc, RegFile.set_other _ _ hac]

theorem timetag_ok {q q' : Qasm} {idx : Nat} {bin : BinRef} {f0 f1 : Nat} {dur : Int}
    (ha : AvailOk q.avail) (hr : ∀ r, bin = .reg r → r ∉ q.avail) (hh : dur < horizon)
    (h : insertTimetag q idx bin f0 f1 dur = .ok q') :
    LeafOk q q' dur (fun b => bin.next b)
      (fun b => [⟨0, .acquireTimetags, [(idx : Int), bin.val b, 1, (f0 : Int)]⟩,
        ⟨dur - 4, .acquireTimetags, [(idx : Int), bin.val b, 0, (f1 : Int)]⟩]) := by
  cases bin with
  | imm n =>
    refine (gated_ok (by decide) ha ?_ hh h).congr rfl (fun _ => rfl) ?_
    · intro r hr; simp at hr
    · intro b; rfl
  | reg r => exact timetagReg_ok ha (hr r rfl) hh h

/-- Every strategy's code does what the operation should do. -/
theorem insertQasm_ok {q q' : Qasm} {s : Strategy} (ha : AvailOk q.avail)
    (hb : ∀ r, s.binReg = some r → r ∉ q.avail) (hh : s.dur < horizon)
    (h : insertQasm q s = .ok q') :
    LeafOk q q' s.dur (fun b => s.next b) (fun b => s.events b) := by
  have h4 : ((minOp : Nat) : Int) = 4 := rfl
  cases s with
  | idle => cases h; exact LeafOk.id' q
  | pulse i0 i1 gI gQ =>
    obtain ⟨q1, h1, h⟩ := bind_ok h
    simp only [pure, Except.pure, Except.ok.injEq] at h
    subst h
    obtain ⟨hi, hav, hc, ho, hl, _⟩ := pulseCheck_ok h1
    refine LeafOk.of_eq (q1 := q1) ?_ hi hav hc ho hl
    refine LeafOk.of_code (code := pulseCode i0 i1 gI gQ) rfl ?_ ?_ (List.Perm.refl _) rfl rfl
      rfl (by simp [Strategy.dur]) ?_
    · intro i hi
      cases i0 <;> cases i1 <;> simp [pulseCode] at hi <;> rcases hi with rfl | rfl <;> rfl
    · intro l hl
      cases i0 <;> cases i1 <;> simp [pulseCode] at hl
    · intro env d hd
      refine ⟨d.regs, fun _ _ => rfl, ?_⟩
      cases i0 <;> cases i1 <;>
        simp [pulseCode, Data.run, Data.enabled, hd, Data.eventsOf, Strategy.events, shiftAll,
          Event.shift, Arg.eval, Strategy.dur, minOp]
  | marker m =>
    cases h
    rw [emit_tick_zero]
    exact (LeafOk.real (q := q) .setMrk [.imm m] 0 (by decide) _ rfl).congr rfl
      (fun _ => rfl) (fun _ => rfl)
  | digital en f =>
    cases h
    rw [emit_tick_zero]
    refine (LeafOk.real (q := q) .setDigital [boolArg en, .imm 1, .imm f] 0 (by decide) _
      rfl).congr rfl (fun _ => rfl) (fun b => ?_)
    cases en <;> rfl
  | phaseShift a =>
    cases a with
    | none => cases h; exact LeafOk.id' q
    | some a =>
      cases h
      rw [emit_tick_zero]
      exact (LeafOk.real (q := q) .setPhDelta [.imm a] 0 (by decide) _ rfl).congr rfl
        (fun _ => rfl) (fun _ => rfl)
  | resetPhase =>
    cases h
    rw [emit_tick_zero]
    exact (LeafOk.real (q := q) .resetPh [] 0 (by decide) _ rfl).congr rfl
      (fun _ => rfl) (fun _ => rfl)
  | setFreq a =>
    cases h
    rw [emit_tick_zero]
    exact (LeafOk.real (q := q) .setFreq [.imm a] 0 (by decide) _ rfl).congr rfl
      (fun _ => rfl) (fun _ => rfl)
  | offset i p =>
    cases h
    rw [emit_tick_zero]
    exact (LeafOk.real (q := q) .setAwgOffs [.imm i, .imm p] 0 (by decide) _ rfl).congr rfl
      (fun _ => rfl) (fun _ => rfl)
  | latchReset d =>
    cases h
    exact (LeafOk.real (q := q) .latchRst [] d (by decide) _ rfl).congr rfl
      (fun _ => rfl) (fun _ => rfl)
  | updParam =>
    cases h
    exact (LeafOk.real (q := q) .updParam [] minOp (by decide) _ rfl).congr rfl
      (fun _ => rfl) (fun _ => rfl)
  | timestamp =>
    cases h
    rw [emit_tick_zero]
    exact (LeafOk.real (q := q) .setTimeRef [] 0 (by decide) _ rfl).congr rfl
      (fun _ => rfl) (fun _ => rfl)
  | square idx bin =>
    cases bin with
    | imm n =>
      obtain ⟨q1, h1, h⟩ := bind_ok h
      simp only [pure, Except.pure, Except.ok.injEq] at h
      subst h
      obtain ⟨hi, hav, hc, ho, hl, _⟩ := acqCheck_ok h1
      refine LeafOk.of_eq (q1 := q1) ?_ hi hav hc ho hl
      exact (LeafOk.real (q := q1) .acquire [.imm idx, .imm n] minOp (by decide) _ rfl).congr rfl
        (fun _ => rfl) (fun _ => rfl)
    | reg r =>
      obtain ⟨q1, h1, h⟩ := bind_ok h
      simp only [pure, Except.pure, Except.ok.injEq] at h
      subst h
      obtain ⟨hi, hav, hc, ho, hl, _⟩ := acqCheck_ok h1
      refine LeafOk.of_eq (q1 := q1) ?_ hi hav hc ho hl
      refine LeafOk.of_code (code := [.newline, .real .acquire [.imm idx, .reg r] minOp,
        .add r 1 r, .newline]) ?_ (by simp [Instr.straight]) (by simp) (List.Perm.refl _) rfl rfl
        rfl (by simp [Strategy.dur]) ?_
      · simp [Qasm.emits, Qasm.tick]
      · intro env d hd
        refine ⟨d.regs.set r ((d.regs r + 1) % wordSize), fun _ _ => rfl, ?_⟩
        simp [Data.run, Data.enabled, hd, Data.eventsOf, Strategy.events, shiftAll,
          Event.shift, Arg.eval, Strategy.dur, minOp, BinRef.val]
  | weighed idx bin w0 w1 =>
    cases bin with
    | imm n =>
      obtain ⟨q1, h1, h⟩ := bind_ok h
      simp only [pure, Except.pure, Except.ok.injEq] at h
      subst h
      obtain ⟨hi, hav, hc, ho, hl, _⟩ := acqCheck_ok h1
      refine LeafOk.of_eq (q1 := q1) ?_ hi hav hc ho hl
      exact (LeafOk.real (q := q1) .acquireWeighed [.imm idx, .imm n, .imm w0, .imm w1] minOp
        (by decide) _ rfl).congr rfl (fun _ => rfl) (fun _ => rfl)
    | reg r =>
      obtain ⟨q1, h1, h⟩ := bind_ok h
      obtain ⟨hi, hav, hc, ho, hl, _⟩ := acqCheck_ok h1
      refine LeafOk.of_eq (q1 := q1) ?_ hi hav hc ho hl
      exact (weighedReg_ok (by rw [hav]; exact ha) (by rw [hav]; exact hb r rfl) h).congr rfl
        (fun _ => rfl) (fun _ => rfl)
  | ttl idx bin dur =>
    cases bin with
    | imm n =>
      obtain ⟨q1, h1, h⟩ := bind_ok h
      obtain ⟨hi, hav, hc, ho, hl, _⟩ := acqCheck_ok h1
      refine LeafOk.of_eq (q1 := q1) ?_ hi hav hc ho hl
      refine (gated_ok (by decide) (by rw [hav]; exact ha) ?_ hh h).congr rfl (fun _ => rfl)
        (fun _ => rfl)
      intro r hr; simp at hr
    | reg r =>
      obtain ⟨q1, h1, h⟩ := bind_ok h
      obtain ⟨hi, hav, hc, ho, hl, _⟩ := acqCheck_ok h1
      refine LeafOk.of_eq (q1 := q1) ?_ hi hav hc ho hl
      have hr : r ∉ q1.avail := by rw [hav]; exact hb r rfl
      obtain ⟨q2, h2, h⟩ := bind_ok h
      simp only [pure, Except.pure, Except.ok.injEq] at h
      subst h
      have e1 := gated_ok (by decide) (by rw [hav]; exact ha) (by
        intro x hx; simp at hx; subst hx; exact hr) hh h2
      have e2 := e1.seq (LeafOk.addOne (q := q2) r _ rfl)
        (fun f g hfg x hx => set_congr hr f g hfg x hx) (fun _ _ _ => rfl)
      refine e2.congr (by simp [Strategy.dur]) (fun _ => rfl) (fun b => ?_)
      simp [shiftAll_nil, Strategy.events, Arg.eval, BinRef.val, Strategy.dur]
  | timetag scope idx bin f0 f1 dur =>
    have hbr : ∀ r, bin = .reg r → r ∉ q.avail := by
      intro r hr; subst hr; exact hb r rfl
    cases scope with
    | false =>
      obtain ⟨q1, h1, h⟩ := bind_ok h
      obtain ⟨hi, hav, hc, ho, hl, _⟩ := acqCheck_ok h1
      refine LeafOk.of_eq (q1 := q1) ?_ hi hav hc ho hl
      exact (timetag_ok (by rw [hav]; exact ha) (by rw [hav]; exact hbr) hh h).congr rfl
        (fun _ => rfl) (fun _ => rfl)
    | true =>
      obtain ⟨q1, h1, h⟩ := bind_ok h
      obtain ⟨hi, hav, hc, ho, hl, _⟩ := acqCheck_ok h1
      refine LeafOk.of_eq (q1 := q1) ?_ hi hav hc ho hl
      obtain ⟨q3, h3, h⟩ := bind_ok h
      simp only [pure, Except.pure, Except.ok.injEq] at h
      subst h
      rw [emit_tick_zero q1] at h3
      rw [emit_tick_zero q3]
      have e1 := LeafOk.real (q := q1) .setScopeEn [.imm 1] 0 (by decide) _ rfl
      have e2 := timetag_ok (by rw [← hav] at ha; exact ha) (by rw [← hav] at hbr; exact hbr) hh h3
      have e3 := LeafOk.real (q := q3) .setScopeEn [.imm 0] 0 (by decide) _ rfl
      have e12 := e1.seq e2 (by
          intro f g hfg x hx
          cases bin with
          | imm n => exact hfg x hx
          | reg r =>
            exact set_congr (q := q1) (by rw [hav]; exact hbr r rfl) f g hfg x hx)
        (by
          intro f g hfg
          have : bin.val f = bin.val g := by
            cases bin with
            | imm n => rfl
            | reg r =>
              simp only [BinRef.val]
              rw [hfg r (by rw [hav]; exact hbr r rfl)]
          simp only [this])
      have e123 := e12.seq e3 (by intro f g hfg x hx; exact hfg x hx) (fun _ _ _ => rfl)
      refine e123.congr (by simp [Strategy.dur]) (fun _ => rfl) (fun b => ?_)
      simp [shiftAll, Event.shift, Strategy.events, Arg.eval, Strategy.dur]

/-- Registers the operation's bins live in are untouched otherwise, so its effect only depends on
registers in use. -/
theorem Strategy.next_congr {q : Qasm} {s : Strategy}
    (hb : ∀ r, s.binReg = some r → r ∉ q.avail) (f g : RegFile)
    (h : ∀ x, x ∉ q.avail → f x = g x) (x : Reg) (hx : x ∉ q.avail) :
    s.next f x = s.next g x := by
  have key : ∀ bin : BinRef, (∀ r, bin = .reg r → r ∉ q.avail) → bin.next f x = bin.next g x := by
    intro bin hbin
    cases bin with
    | imm n => exact h x hx
    | reg r => exact set_congr (hbin r rfl) f g h x hx
  cases s with
  | square idx bin =>
    exact key bin (fun r hr => hb r (by subst hr; rfl))
  | weighed idx bin w0 w1 => exact key bin (fun r hr => hb r (by subst hr; rfl))
  | ttl idx bin d => exact key bin (fun r hr => hb r (by subst hr; rfl))
  | timetag sc idx bin f0 f1 d => exact key bin (fun r hr => hb r (by subst hr; rfl))
  | _ => exact h x hx

theorem Strategy.events_congr {q : Qasm} {s : Strategy}
    (hb : ∀ r, s.binReg = some r → r ∉ q.avail) (f g : RegFile)
    (h : ∀ x, x ∉ q.avail → f x = g x) : s.events f = s.events g := by
  have key : ∀ bin : BinRef, (∀ r, bin = .reg r → r ∉ q.avail) → bin.val f = bin.val g := by
    intro bin hbin
    cases bin with
    | imm n => rfl
    | reg r => simp only [BinRef.val]; rw [h r (hbin r rfl)]
  cases s with
  | square idx bin =>
    simp only [Strategy.events, key bin (fun r hr => hb r (by subst hr; rfl))]
  | weighed idx bin w0 w1 =>
    simp only [Strategy.events, key bin (fun r hr => hb r (by subst hr; rfl))]
  | ttl idx bin d =>
    simp only [Strategy.events, key bin (fun r hr => hb r (by subst hr; rfl))]
  | timetag sc idx bin f0 f1 d =>
    cases sc <;> simp only [Strategy.events, key bin (fun r hr => hb r (by subst hr; rfl))]
  | pulse i0 i1 a b => cases i0 <;> cases i1 <;> rfl
  | phaseShift a => cases a <;> rfl
  | _ => rfl

/-- With the markers of debug mode. -/
theorem insertLeaf_ok {q q' : Qasm} {l : Leaf} (ha : AvailOk q.avail)
    (hb : ∀ r, l.strat.binReg = some r → r ∉ q.avail) (hh : l.strat.dur < horizon)
    (h : insertLeaf q l = .ok q') :
    LeafOk q q' l.dur (fun b => l.strat.next b) (fun b => l.events b) := by
  unfold insertLeaf at h
  cases hd : l.debug with
  | none =>
    rw [hd] at h
    exact (insertQasm_ok ha hb hh h).congr (by simp [Leaf.dur, hd]) (fun _ => rfl)
      (fun b => by simp [Leaf.events, hd])
  | some m =>
    obtain ⟨m, m0⟩ := m
    rw [hd] at h
    obtain ⟨q2, h2, h⟩ := bind_ok h
    simp only [pure, Except.pure, Except.ok.injEq] at h
    subst h
    rw [emit_tick_zero q] at h2
    have e1 := LeafOk.real (q := q) .setMrk [.imm m] 0 (by decide) _ rfl
    have e2 := insertQasm_ok (by exact ha) (by exact hb) hh h2
    have e3 : LeafOk q2 ((q2.emits [.real .setMrk [.imm m0] 0, .real .updParam [] minOp]).tick
        minOp) 4 id (fun _ => [⟨0, .setMrk, [(m0 : Int)]⟩, ⟨0, .updParam, []⟩]) := by
      refine LeafOk.of_code (code := [.real .setMrk [.imm m0] 0, .real .updParam [] minOp]) rfl
        (by simp [Instr.straight]) (by simp) (List.Perm.refl _) rfl rfl rfl (by decide) ?_
      intro env d hdc
      refine ⟨d.regs, fun _ _ => rfl, ?_⟩
      simp [Data.run, Data.enabled, hdc, Data.eventsOf, shiftAll, Event.shift, Arg.eval, minOp]
    have e12 := e1.seq e2 (fun f g hfg x hx => Strategy.next_congr hb f g hfg x hx)
      (fun f g hfg => Strategy.events_congr hb f g hfg)
    have e123 := e12.seq e3 (by intro f g hfg x hx; exact hfg x hx) (fun _ _ _ => rfl)
    refine e123.congr (by simp [Leaf.dur, hd]) (fun _ => rfl) (fun b => ?_)
    rw [show ((0 : Nat) : Int) = 0 from rfl, shiftAll_zero]
    simp [shiftAll, Event.shift, Leaf.events, hd, Arg.eval]

end Verif.Q1
