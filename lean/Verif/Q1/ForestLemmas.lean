/- Helper lemmas: fragments of generated code and their behaviour. -/
import Verif.Q1.SpecLemmas

set_option linter.unusedSimpArgs false
set_option linter.unusedVariables false

namespace Verif.Q1

/-- From `q` to `q'`, code has been generated that behaves like `beh`, provided the environment
satisfies `stable`; the machine's clock is `B` ahead of the compiler's. -/
def FragOk (q q' : Qasm) (beh : Env → Int → Behaviour) (stable : Env → Int → Prop) : Prop :=
  Pres q q' ∧ q.elapsed ≤ q'.elapsed ∧
  ∀ (env : Env) (B : Int) (d : Data), d.cond = none → stable env B → d.time = B + q.elapsed →
    ∃ regs', Agree q.avail regs' (beh env B d.regs).1 ∧
      Exec env q q' d { d with time := B + q'.elapsed, regs := regs',
                               trace := d.trace ++ (beh env B d.regs).2 }

/-- One behaviour after the other. -/
def Behaviour.seq (f g : Env → Int → Behaviour) : Env → Int → Behaviour := fun env B r =>
  ((g env B (f env B r).1).1, (f env B r).2 ++ (g env B (f env B r).1).2)

theorem FragOk.seq {q q1 q2 : Qasm} {f g : Env → Int → Behaviour} {s t : Env → Int → Prop}
    (h1 : FragOk q q1 f s) (h2 : FragOk q1 q2 g t)
    (hg : ∀ env B x y, Agree q.avail x y → Agree q.avail (g env B x).1 (g env B y).1 ∧
      (g env B x).2 = (g env B y).2) :
    FragOk q q2 (Behaviour.seq f g) (fun env B => s env B ∧ t env B) := by
  obtain ⟨hp1, he1, hx1⟩ := h1
  obtain ⟨hp2, he2, hx2⟩ := h2
  refine ⟨hp1.trans hp2, he1.trans he2, ?_⟩
  intro env B d hd hs ht
  obtain ⟨r1, ha1, hE1⟩ := hx1 env B d hd hs.1 ht
  obtain ⟨r2, ha2, hE2⟩ := hx2 env B
    { d with time := B + q1.elapsed, regs := r1, trace := d.trace ++ (f env B d.regs).2 }
    hd hs.2 rfl
  obtain ⟨hg1, hg2⟩ := hg env B _ _ ha1
  refine ⟨r2, ?_, ?_⟩
  · intro x hx
    rw [ha2 x (fun hc => hx (hp1.avail.mem_iff.mp hc)), hg1 x hx]
    rfl
  · have := hE1.trans hE2 hp2.pre
    simp only [hg2, List.append_assoc] at this
    exact this

theorem FragOk.congr {q q' : Qasm} {f g : Env → Int → Behaviour} {s t : Env → Int → Prop}
    (h : FragOk q q' f s) (hfg : ∀ env B r, f env B r = g env B r)
    (hst : ∀ env B, t env B → s env B) : FragOk q q' g t := by
  obtain ⟨hp1, he1, hx1⟩ := h
  refine ⟨hp1, he1, ?_⟩
  intro env B d hd hs ht
  rw [← hfg]
  exact hx1 env B d hd (hst env B hs) ht

/-- Nothing. -/
def Behaviour.none : Env → Int → Behaviour := fun _ _ r => (r, [])

theorem FragOk.refl (q : Qasm) : FragOk q q Behaviour.none (fun _ _ => True) := by
  refine ⟨Pres.refl q, le_refl _, ?_⟩
  intro env B d hd _ ht
  refine ⟨d.regs, Agree.refl _ _, ?_⟩
  have : ({ d with time := B + q.elapsed, trace := d.trace ++ (Behaviour.none env B d.regs).2 } :
      Data) = d := by
    rw [← ht]
    simp [Behaviour.none]
  rw [this]
  exact Exec.refl env q d

theorem elapsed_of {q q' : Qasm} {dur : Int} (hc : q'.cur = q.cur + dur)
    (ho : q'.outer = q.outer) : q'.elapsed = q.elapsed + dur := by
  unfold Qasm.elapsed
  rw [hc, ho]
  ring

theorem autoWait_leaf {q q' : Qasm} {w : Int} (ha : AvailOk q.avail) (hw : w < horizon)
    (h : q.autoWait w = .ok q') : LeafOk q q' w id (fun _ => []) := by
  obtain ⟨hp, h0, hc, _, _, hx⟩ := autoWait_ok ha hw h
  refine ⟨hp, by simpa using hc, h0, ?_⟩
  intro env d hd
  obtain ⟨r, h1, h2⟩ := hx env d hd
  refine ⟨r, h1, ?_⟩
  simpa [shiftAll] using h2

theorem waitTill_ok {q q' : Qasm} {t : Int} {idle param : Bool} (ha : AvailOk q.avail)
    (ht : t < horizon) (h0 : 0 ≤ q.elapsed) (h : waitTill q t idle param = .ok q') :
    LeafOk q q' (q'.elapsed - q.elapsed) id (fun _ => []) ∧
    (q'.elapsed = t ∨ (idle = true ∧ t < q.elapsed ∧ q' = q)) := by
  unfold waitTill at h
  simp only at h
  split at h
  · rename_i hw
    have hl := autoWait_leaf ha (by omega) h
    have he := elapsed_of hl.2.1 hl.1.outer
    refine ⟨hl.congr (by omega) (fun _ => rfl) (fun _ => rfl), Or.inl (by omega)⟩
  · split at h
    · cases h
    · split at h
      · cases h
      · rename_i h1 h2 h3
        cases h
        refine ⟨(LeafOk.id' q).congr (by omega) (fun _ => rfl) (fun _ => rfl), ?_⟩
        by_cases hlt : t - q.elapsed < 0
        · right
          refine ⟨?_, by omega, rfl⟩
          cases idle with
          | true => rfl
          | false => exact absurd ⟨hlt, rfl⟩ h3
        · left; omega

theorem waitTill_frag {q q' : Qasm} {t : Int} {idle param : Bool} (ha : AvailOk q.avail)
    (ht : t < horizon) (h0 : 0 ≤ q.elapsed) (h : waitTill q t idle param = .ok q') :
    FragOk q q' Behaviour.none (fun _ _ => True) ∧
    (q'.elapsed = t ∨ (idle = true ∧ t < q.elapsed ∧ q' = q)) := by
  obtain ⟨hl, hr⟩ := waitTill_ok ha ht h0 h
  refine ⟨⟨hl.1, by have := hl.2.2.1; omega, ?_⟩, hr⟩
  intro env B d hd _ hdt
  obtain ⟨r, h1, h2⟩ := hl.2.2.2 env d hd
  refine ⟨r, h1, ?_⟩
  have e : d.time + (q'.elapsed - q.elapsed) = B + q'.elapsed := by omega
  rw [e] at h2
  simpa [shiftAll, Behaviour.none] using h2

/-- The behaviour of one operation. -/
def Leaf.beh (l : Leaf) : Env → Int → Behaviour :=
  fun _ B r => (l.strat.next r, shiftAll (l.t + B) (l.events r))

theorem compileLeaf_ok {q q' : Qasm} {l : Leaf} (ha : AvailOk q.avail) (hl : l.Ok q.avail)
    (h : compileLeaf q l = .ok q') :
    LeafOk q q' l.dur (fun b => l.strat.next b) (fun b => l.events b) := by
  unfold compileLeaf at h
  exact (insertLeaf_ok (q := q.countRT (if l.isRT then 1 else 0)) ha hl.bin hl.dur h).of_eq
    rfl rfl rfl rfl rfl

theorem leafStep_ok {q q1 q2 : Qasm} {l : Leaf} (ha : AvailOk q.avail) (hl : l.Ok q.avail)
    (h0 : 0 ≤ q.elapsed) (h1 : waitTill q l.t l.isIdle l.isParam = .ok q1)
    (h2 : compileLeaf q1 l = .ok q2) : FragOk q q2 l.beh (fun _ _ => True) := by
  obtain ⟨hw, ht⟩ := waitTill_frag ha hl.t h0 h1
  have ha1 : AvailOk q1.avail := ha.perm hw.1.avail
  have hl1 : l.Ok q1.avail :=
    ⟨hl.idle, fun r hr hc => hl.bin r hr (hw.1.avail.mem_iff.mp hc), hl.t, hl.dur⟩
  have hc := compileLeaf_ok ha1 hl1 h2
  have he := elapsed_of hc.2.1 hc.1.outer
  have hf : FragOk q1 q2 l.beh (fun _ _ => True) := by
    refine ⟨hc.1, by have := hc.2.2.1; omega, ?_⟩
    intro env B d hd _ hdt
    obtain ⟨r, hr1, hr2⟩ := hc.2.2.2 env d hd
    refine ⟨r, hr1, ?_⟩
    have e1 : d.time + l.dur = B + q2.elapsed := by omega
    have e2 : shiftAll d.time (l.events d.regs) = shiftAll (l.t + B) (l.events d.regs) := by
      rcases ht with ht | ⟨hi, _, _⟩
      · rw [show d.time = l.t + B by omega]
      · obtain ⟨hs, hdbg⟩ := hl.idle hi
        have : l.events d.regs = [] := by simp [Leaf.events, hdbg, hs, Strategy.events]
        rw [this]
        rfl
    rw [e1, e2] at hr2
    exact hr2
  refine (hw.seq hf ?_).congr ?_ (fun _ _ _ => ⟨trivial, trivial⟩)
  · intro env B x y hxy
    exact ⟨next_agree hl.bin hxy, by simp only [Leaf.beh]; rw [levents_agree hl.bin hxy]⟩
  · intro env B r
    simp [Behaviour.seq, Behaviour.none, Leaf.beh]

theorem Leaf.Ok.mono {A A' : List Reg} {l : Leaf} (h : l.Ok A) (hs : ∀ x ∈ A', x ∈ A) :
    l.Ok A' := ⟨h.idle, fun r hr hc => h.bin r hr (hs r hc), h.t, h.dur⟩

theorem Forest.Ok.mono {A A' : List Reg} (hs : ∀ x ∈ A', x ∈ A) : ∀ {f : Forest},
    f.Ok A → f.Ok A' := by
  intro f
  induction f with
  | nil => intro h; exact h
  | leaf l f ih => intro h; exact ⟨h.1.mono hs, ih h.2⟩
  | loop t n b e f ihb ihf =>
    intro h
    obtain ⟨h1, h2, h3, h4, h5⟩ := h
    exact ⟨h1, h2, h3, ihb h4, ihf h5⟩
  | cond t c b e f ih =>
    intro h
    obtain ⟨h0, h1, h2, h3, h4, h5, h6⟩ := h
    exact ⟨h0, h1, h2, h3, fun l hl => ⟨(h4 l hl).1.mono hs, (h4 l hl).2⟩, h5, ih h6⟩

end Verif.Q1
