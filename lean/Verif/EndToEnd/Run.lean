/-
Lemmas for C70: what a program with the structure of a schedule does.
-/
import Verif.EndToEnd.Lemmas

set_option linter.unusedSimpArgs false
set_option linter.unusedVariables false

namespace Verif.EndToEnd

open Verif.Flatten (Info ns onGrid Forest Elem)
open Verif.StableSort (sortBy)
open Spec

variable {D : Type}

theorem visible_append (a b : List Q1.Event) : visible (a ++ b) = visible a ++ visible b := by
  simp [visible]

theorem visible_flatMap {α : Type} (l : List α) (f : α → List Q1.Event) :
    visible (l.flatMap f) = l.flatMap (fun x => visible (f x)) := by
  induction l with
  | nil => rfl
  | cons x l ih => rw [List.flatMap_cons, visible_append, ih, List.flatMap_cons]

theorem forgetBin_shift (δ : Int) (e : Q1.Event) :
    forgetBin (e.shift δ) = (forgetBin e).shift δ := by
  obtain ⟨t, k, args⟩ := e
  unfold Q1.Event.shift forgetBin
  rcases args with _ | ⟨a, _ | ⟨b, c⟩⟩ <;> cases k <;> rfl

theorem visible_shift (δ : Int) (es : List Q1.Event) :
    visible (Q1.shiftAll δ es) = Q1.shiftAll δ (visible es) := by
  unfold visible Q1.shiftAll
  rw [List.filter_map, List.map_map, List.map_map]
  apply List.map_congr_left
  intro e _
  exact forgetBin_shift δ e

/-- The bins apart, what an operation does does not depend on the registers. -/
theorem visible_events (l : Q1.Leaf) (hd : l.debug = none) (b b' : Q1.RegFile) :
    visible (l.events b) = visible (l.events b') := by
  unfold Q1.Leaf.events
  rw [hd]
  simp only
  cases hs : l.strat with
  | pulse i j gI gQ => cases i <;> cases j <;> rfl
  | phaseShift a => cases a <;> rfl
  | timetag s i bin f0 f1 d => cases s <;> rfl
  | _ => rfl

theorem events_updParam {l : Q1.Leaf} (hu : l.strat = .updParam) (hd : l.debug = none) (b : Q1.RegFile) :
    visible (l.events b) = [] := by
  unfold Q1.Leaf.events
  rw [hd, hu]
  rfl

theorem strategy_leaf {F : Factory D} {a : Info D} {l : Q1.Leaf} (h : F.strategy a = .leaf l) :
    l = F.leafAt a := by
  unfold Factory.strategy at h
  split at h
  · split at h <;> cases h
  · cases h
  · cases h; rfl

theorem does_leaf {F : Factory D} {a : Info D} {l : Q1.Leaf} (h : F.strategy a = .leaf l) (b : Q1.RegFile)
    (δ : Int) : visible (Q1.shiftAll (l.t + δ) (l.events b)) =
      Q1.shiftAll (ns a.timing + δ) (does F a) := by
  rw [strategy_leaf h, visible_shift]
  unfold does
  have h1 : (F.leafAt a).events b = (F.leaf a).events b := rfl
  rw [h1, visible_events _ (F.nodebug a) b (fun _ => 0)]
  rfl

theorem does_upd {F : Factory D} {a : Info D} {l : Q1.Leaf} (h : F.strategy a = .leaf l)
    (hu : l.strat = .updParam) : does F a = [] := by
  rw [strategy_leaf h] at hu
  exact events_updParam hu (F.nodebug a) _

theorem leavesRun_eq (env : Q1.Env) (δ : Int) : ∀ (ls : List Q1.Leaf) (b : Q1.RegFile),
    (leavesQ ls .nil).run env δ b = Q1.leavesRun δ ls b
  | [], b => rfl
  | l :: ls, b => by
    simp only [leavesQ, Q1.Forest.run, Q1.leavesRun, leavesRun_eq env δ ls]

/-! ### The structure executed -/

/-- A bracketed body executed. -/
def unrollNode (env : Q1.Env) (b e : Q1.Op) (g : Int → List (Info D × Int)) (δ : Int) : List (Info D × Int) :=
  match b, e with
  | .loop t n, .ret te => (List.range n).flatMap (fun i : Nat => g (δ + i * (te - t)))
  | .cond t c, _ => if c.holds (env (t + δ)) then g δ else []
  | _, _ => []

/-- A structure of operations executed. -/
def unrollF (F : Factory D) (env : Q1.Env) : Forest (Info D) → Int → List (Info D × Int)
  | .nil, _ => []
  | .leaf a f, δ => (a, δ) :: unrollF F env f δ
  | .node b g e f, δ =>
    unrollNode env (F.strategy b) (F.strategy e) (unrollF F env g) δ ++ unrollF F env f δ

theorem doAll_append (F : Factory D) (a b : List (Info D × Int)) :
    doAll F (a ++ b) = doAll F a ++ doAll F b := by simp [doAll]

theorem doAll_flatMap {α : Type} (F : Factory D) (l : List α) (f : α → List (Info D × Int)) :
    doAll F (l.flatMap f) = l.flatMap (fun x => doAll F (f x)) := by
  simp [doAll, List.flatMap_assoc]

/-- What a program with the structure of the operations does. -/
theorem run_rel {F : Factory D} {f : Forest (Info D)} {g : Q1.Forest} (h : Rel F f g) (env : Q1.Env) :
    ∀ (δ : Int) (b : Q1.RegFile), visible (g.run env δ b).2 = doAll F (unrollF F env f δ) := by
  induction h with
  | nil => intro δ b; rfl
  | leaf ha _ ih =>
    intro δ b
    simp only [Q1.Forest.run, unrollF, visible_append, ih, does_leaf ha]
    rfl
  | drop ha hu _ ih =>
    intro δ b
    rw [ih]
    simp [unrollF, doAll, does_upd ha hu, Q1.shiftAll]
  | extra hu hd _ ih =>
    intro δ b
    simp only [Q1.Forest.run, visible_append, ih]
    rw [visible_shift, events_updParam hu hd]
    rfl
  | loop hb he _ _ ihb ihf =>
    intro δ b
    simp only [Q1.Forest.run, unrollF, visible_append, ihf, doAll_append, hb, he, unrollNode,
      doAll_flatMap, Q1.iterate_events, visible_flatMap, ihb]
  | cond hb he _ _ ihb ihf =>
    intro δ b
    simp only [Q1.Forest.run, unrollF, visible_append, ihf, doAll_append, hb, he, unrollNode]
    congr 1
    split
    · rw [← leavesRun_eq env, ihb]
    · rfl

/-! ### The order of time -/

/-- An element executed. -/
def unrollE (F : Factory D) (env : Q1.Env) (δ : Int) : Elem (Info D) → List (Info D × Int)
  | .one a => [(a, δ)]
  | .many b g e => unrollNode env (F.strategy b) (F.strategy e) (unrollF F env g) δ

theorem unrollF_elems (F : Factory D) (env : Q1.Env) (δ : Int) : ∀ f : Forest (Info D),
    unrollF F env f δ = f.elems.flatMap (unrollE F env δ)
  | .nil => rfl
  | .leaf a f => by simp [unrollF, Forest.elems, unrollE, unrollF_elems F env δ f]
  | .node b g e f => by simp [unrollF, Forest.elems, unrollE, unrollF_elems F env δ f]

theorem unrollNode_perm {env : Q1.Env} {b e : Q1.Op} {g g' : Int → List (Info D × Int)}
    (h : ∀ δ, (g δ).Perm (g' δ)) (δ : Int) : (unrollNode env b e g δ).Perm (unrollNode env b e g' δ) := by
  unfold unrollNode
  split
  · exact List.Perm.flatMap_left _ (fun i _ => h _)
  · split
    · exact h δ
    · exact List.Perm.refl _
  · exact List.Perm.refl _

theorem unroll_order (F : Factory D) (env : Q1.Env) {K : Type} [LinearOrder K] (key : Info D → K) :
    ∀ (f : Forest (Info D)),
    (∀ δ, ∀ x ∈ f.elems, (unrollE F env δ (x.inner key)).Perm (unrollE F env δ x)) ∧
    ∀ δ, (unrollF F env (f.order key) δ).Perm (unrollF F env f δ) := by
  have main : ∀ f : Forest (Info D),
      (∀ δ, ∀ x ∈ f.elems, (unrollE F env δ (x.inner key)).Perm (unrollE F env δ x)) →
      ∀ δ, (unrollF F env (f.order key) δ).Perm (unrollF F env f δ) := by
    intro f h δ
    rw [unrollF_elems, unrollF_elems]
    refine ((Flatten.order_elems key f).flatMap_right _).trans ?_
    rw [List.flatMap_map]
    exact List.Perm.flatMap_left _ (fun x hx => h δ x hx)
  have elems : ∀ f : Forest (Info D), ∀ δ, ∀ x ∈ f.elems,
      (unrollE F env δ (x.inner key)).Perm (unrollE F env δ x) := by
    intro f
    induction f with
    | nil => intro δ x hx; simp [Forest.elems] at hx
    | leaf a f ih =>
      intro δ x hx
      simp only [Forest.elems, List.mem_cons] at hx
      rcases hx with rfl | hx
      · exact List.Perm.refl _
      · exact ih δ x hx
    | node b g e f ihg ihf =>
      intro δ x hx
      simp only [Forest.elems, List.mem_cons] at hx
      rcases hx with rfl | hx
      · exact unrollNode_perm (main g ihg) δ
      · exact ihf δ x hx
  exact fun f => ⟨elems f, main f (elems f)⟩

end Verif.EndToEnd
