/- Helper lemmas about the specification. -/
import Verif.Q1.LeafLemmas2

set_option linter.unusedSimpArgs false
set_option linter.unusedVariables false

namespace Verif.Q1

/-- Agreement outside the free registers. -/
def Agree (A : List Reg) (f g : RegFile) : Prop := ∀ x, x ∉ A → f x = g x

theorem Agree.refl (A : List Reg) (f : RegFile) : Agree A f f := fun _ _ => rfl

theorem Agree.trans {A : List Reg} {f g h : RegFile} (h1 : Agree A f g) (h2 : Agree A g h) :
    Agree A f h := fun x hx => (h1 x hx).trans (h2 x hx)

theorem next_agree {A : List Reg} {s : Strategy} (hb : ∀ r, s.binReg = some r → r ∉ A)
    {f g : RegFile} (h : Agree A f g) : Agree A (s.next f) (s.next g) :=
  fun x hx => Strategy.next_congr (q := { Qasm.new A with avail := A }) hb f g h x hx

theorem sevents_agree {A : List Reg} {s : Strategy} (hb : ∀ r, s.binReg = some r → r ∉ A)
    {f g : RegFile} (h : Agree A f g) : s.events f = s.events g :=
  Strategy.events_congr (q := { Qasm.new A with avail := A }) hb f g h

theorem levents_agree {A : List Reg} {l : Leaf} (hb : ∀ r, l.strat.binReg = some r → r ∉ A)
    {f g : RegFile} (h : Agree A f g) : l.events f = l.events g := by
  unfold Leaf.events
  rw [sevents_agree hb h]

theorem BinRef.next_other {bin : BinRef} {f : RegFile} {x : Reg}
    (h : ∀ r, bin = .reg r → r ≠ x) : bin.next f x = f x := by
  cases bin with
  | imm n => rfl
  | reg r => exact RegFile.set_other _ _ (fun hc => h r rfl hc.symm)

theorem next_other {A : List Reg} {s : Strategy} (hb : ∀ r, s.binReg = some r → r ∉ A)
    {f : RegFile} {x : Reg} (hx : x ∈ A) : s.next f x = f x := by
  have key : ∀ bin : BinRef, (∀ r, bin = .reg r → r ∉ A) → bin.next f x = f x := by
    intro bin hbin
    apply BinRef.next_other
    intro r hr hc
    exact hbin r hr (hc ▸ hx)
  cases s with
  | square idx bin => exact key bin (fun r hr => hb r (by subst hr; rfl))
  | weighed idx bin w0 w1 => exact key bin (fun r hr => hb r (by subst hr; rfl))
  | ttl idx bin d => exact key bin (fun r hr => hb r (by subst hr; rfl))
  | timetag sc idx bin f0 f1 d => exact key bin (fun r hr => hb r (by subst hr; rfl))
  | _ => rfl

theorem leavesRun_agree {A : List Reg} {ls : List Leaf} (hb : ∀ l ∈ ls, l.Ok A) {δ : Int} :
    ∀ {f g : RegFile}, Agree A f g →
      Agree A (leavesRun δ ls f).1 (leavesRun δ ls g).1 ∧
      (leavesRun δ ls f).2 = (leavesRun δ ls g).2 := by
  induction ls with
  | nil => intro f g h; exact ⟨h, rfl⟩
  | cons l ls ih =>
    intro f g h
    have hl := (hb l List.mem_cons_self).bin
    obtain ⟨h1, h2⟩ := ih (fun x hx => hb x (List.mem_cons_of_mem _ hx)) (next_agree hl h)
    refine ⟨h1, ?_⟩
    simp only [leavesRun]
    rw [h2, levents_agree hl h]

theorem leavesRun_other {A : List Reg} {ls : List Leaf} (hb : ∀ l ∈ ls, l.Ok A) {δ : Int}
    {x : Reg} (hx : x ∈ A) : ∀ {f : RegFile}, (leavesRun δ ls f).1 x = f x := by
  induction ls with
  | nil => intro f; rfl
  | cons l ls ih =>
    intro f
    simp only [leavesRun]
    rw [ih (fun y hy => hb y (List.mem_cons_of_mem _ hy)),
      next_other (hb l List.mem_cons_self).bin hx]

theorem leavesSkip_eq {ls : List Leaf} {δ : Int} : ∀ {f : RegFile},
    leavesSkip ls f = (leavesRun δ ls f).1 := by
  induction ls with
  | nil => intro f; rfl
  | cons l ls ih => intro f; exact ih

theorem iterate_agree {A : List Reg} {body : Int → Behaviour} {p : Int}
    (hb : ∀ δ f g, Agree A f g → Agree A (body δ f).1 (body δ g).1 ∧ (body δ f).2 = (body δ g).2)
    (n : Nat) : ∀ {δ : Int} {f g : RegFile}, Agree A f g →
      Agree A (iterate body p n δ f).1 (iterate body p n δ g).1 ∧
      (iterate body p n δ f).2 = (iterate body p n δ g).2 := by
  induction n with
  | zero => intro δ f g h; exact ⟨h, rfl⟩
  | succ n ih =>
    intro δ f g h
    obtain ⟨h1, h2⟩ := hb δ f g h
    obtain ⟨h3, h4⟩ := ih (δ := δ + p) h1
    refine ⟨h3, ?_⟩
    simp only [iterate]
    rw [h2, h4]

theorem iterate_other {body : Int → Behaviour} {p : Int} {x : Reg}
    (hb : ∀ δ f, (body δ f).1 x = f x) (n : Nat) :
    ∀ {δ : Int} {f : RegFile}, (iterate body p n δ f).1 x = f x := by
  induction n with
  | zero => intro δ f; rfl
  | succ n ih => intro δ f; simp only [iterate]; rw [ih, hb]

/-- Unrolling the last iteration. -/
theorem iterate_last {body : Int → Behaviour} {p : Int} (n : Nat) : ∀ {δ : Int} {f : RegFile},
    (iterate body p (n + 1) δ f).1 = (body (δ + n * p) (iterate body p n δ f).1).1 ∧
    (iterate body p (n + 1) δ f).2 =
      (iterate body p n δ f).2 ++ (body (δ + n * p) (iterate body p n δ f).1).2 := by
  induction n with
  | zero => intro δ f; simp [iterate]
  | succ n ih =>
    intro δ f
    have h := ih (δ := δ + p) (f := (body δ f).1)
    have hd : δ + p + (n : Int) * p = δ + ((n + 1 : Nat) : Int) * p := by push_cast; ring
    rw [hd] at h
    constructor
    · show (iterate body p (n + 1) (δ + p) (body δ f).1).1 = _
      rw [h.1]
      rfl
    · show (body δ f).2 ++ (iterate body p (n + 1) (δ + p) (body δ f).1).2 = _
      rw [h.2, ← List.append_assoc]
      rfl

theorem run_agree {A : List Reg} {env : Env} : ∀ {f : Forest}, f.Ok A → ∀ {δ : Int}
    {g h : RegFile}, Agree A g h →
      Agree A (f.run env δ g).1 (f.run env δ h).1 ∧ (f.run env δ g).2 = (f.run env δ h).2 := by
  intro f
  induction f with
  | nil => intro _ δ g h hgh; exact ⟨hgh, rfl⟩
  | leaf l f ih =>
    intro hok δ g h hgh
    obtain ⟨h1, h2⟩ := ih hok.2 (δ := δ) (next_agree hok.1.bin hgh)
    refine ⟨h1, ?_⟩
    simp only [Forest.run]
    rw [h2, levents_agree hok.1.bin hgh]
  | loop t n b e f ihb ihf =>
    intro hok δ g h hgh
    obtain ⟨_, _, _, hb, hf⟩ := hok
    obtain ⟨h1, h2⟩ := iterate_agree (p := e - t)
      (fun δ x y hxy => ihb hb (δ := δ) hxy) n (δ := δ) hgh
    obtain ⟨h3, h4⟩ := ihf hf (δ := δ) h1
    refine ⟨h3, ?_⟩
    simp only [Forest.run]
    rw [h2, h4]
  | cond t c b e f ih =>
    intro hok δ g h hgh
    obtain ⟨_, _, _, _, hb, _, hf⟩ := hok
    have hbb : ∀ l ∈ b, l.Ok A := fun l hl => (hb l hl).1
    simp only [Forest.run]
    cases c.holds (env (t + δ)) with
    | true =>
      simp only [if_true]
      obtain ⟨h1, h2⟩ := leavesRun_agree hbb (δ := δ) hgh
      obtain ⟨h3, h4⟩ := ih hf (δ := δ) h1
      exact ⟨h3, by rw [h2, h4]⟩
    | false =>
      simp only [Bool.false_eq_true, if_false]
      have h1 : Agree A (leavesSkip b g) (leavesSkip b h) := by
        rw [leavesSkip_eq (δ := 0), leavesSkip_eq (δ := 0)]
        exact (leavesRun_agree hbb hgh).1
      obtain ⟨h3, h4⟩ := ih hf (δ := δ) h1
      exact ⟨h3, by rw [h4]⟩

theorem run_other {A : List Reg} {env : Env} {x : Reg} (hx : x ∈ A) : ∀ {f : Forest}, f.Ok A →
    ∀ {δ : Int} {g : RegFile}, (f.run env δ g).1 x = g x := by
  intro f
  induction f with
  | nil => intro _ δ g; rfl
  | leaf l f ih =>
    intro hok δ g
    simp only [Forest.run]
    rw [ih hok.2, next_other hok.1.bin hx]
  | loop t n b e f ihb ihf =>
    intro hok δ g
    obtain ⟨_, _, _, hb, hf⟩ := hok
    simp only [Forest.run]
    rw [ihf hf, iterate_other (fun δ f => ihb hb)]
  | cond t c b e f ih =>
    intro hok δ g
    obtain ⟨_, _, _, _, hb, _, hf⟩ := hok
    have hbb : ∀ l ∈ b, l.Ok A := fun l hl => (hb l hl).1
    simp only [Forest.run]
    rw [ih hf]
    cases c.holds (env (t + δ)) with
    | true => exact leavesRun_other hbb hx
    | false =>
      simp only [Bool.false_eq_true, if_false]
      rw [leavesSkip_eq (δ := 0)]
      exact leavesRun_other hbb hx

end Verif.Q1
