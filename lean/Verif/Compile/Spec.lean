/-
What it means that a schedule is untouched, and that two schedules are alike.
-/
import Verif.Compile.Model

namespace Verif.Compile.Spec

open Verif.Compile

variable {A : Type}

/-- The objects that a value consists of, with everything they refer to. -/
inductive Reach (h : Heap A) : Val A → Nat → Prop
  | here (a : Nat) : Reach h (.ref a) a
  | step {v : Val A} {a b : Nat} {o : Obj A} {k : String} :
      Reach h v a → h[a]? = some o → (k, Val.ref b) ∈ o → Reach h v b

/-- All of them exist. -/
def Complete (h : Heap A) (v : Val A) : Prop := ∀ a, Reach h v a → a < h.length

/-- They have no object in common. -/
def Disjoint (h : Heap A) (v w : Val A) : Prop := ∀ a, Reach h v a → ¬ Reach h w a

/-- The value consists of the same objects with the same contents, before and after. -/
def Untouched (h h' : Heap A) (v : Val A) : Prop := ∀ a, Reach h v a → h'[a]? = h[a]?

/-- Same atom, or corresponding objects. -/
def SameVal (R : Nat → Nat → Prop) : Val A → Val A → Prop
  | .atom a, .atom b => a = b
  | .ref a, .ref b => R a b
  | _, _ => False

/-- Same fields in the same order, with corresponding values. -/
def SameObj (R : Nat → Nat → Prop) (o p : Obj A) : Prop :=
  List.Forall₂ (fun e f => e.1 = f.1 ∧ SameVal R e.2 f.2) o p

/-- One to one. -/
def OneToOne (R : Nat → Nat → Prop) : Prop :=
  (∀ a b b', R a b → R a b' → b = b') ∧ (∀ a a' b, R a b → R a' b → a = a')

/-- Corresponding objects have corresponding contents. -/
def SameHeap (R : Nat → Nat → Prop) (h₁ h₂ : Heap A) : Prop :=
  ∀ a b, R a b → ∃ o p, h₁[a]? = some o ∧ h₂[b]? = some p ∧ SameObj R o p

/-- The two values are the same, but for the identity of objects: there is a one-to-one correspondence between the
objects they consist of under which the contents are the same. -/
def Alike (h₁ : Heap A) (v₁ : Val A) (h₂ : Heap A) (v₂ : Val A) : Prop :=
  ∃ R, OneToOne R ∧ SameHeap R h₁ h₂ ∧ SameVal R v₁ v₂

/-- Same exception, or results that are alike. -/
def SameOutcome (r₁ r₂ : Heap A × Except Err (Val A)) : Prop :=
  match r₁.2, r₂.2 with
  | .ok v₁, .ok v₂ => Alike r₁.1 v₁ r₂.1 v₂
  | .error e₁, .error e₂ => e₁ = e₂
  | _, _ => False

/-- A path. -/
def IsPath (edges : List (Node A × Node A)) (n m : Node A) (p : List (Node A)) : Prop :=
  p.head? = some n ∧ p.getLast? = some m ∧ p.IsChain (fun x y => (x, y) ∈ edges)

/-- A function that finds a shortest path if there is one. -/
def Finds (sp : PathFinder A) : Prop := ∀ edges n m,
  match sp edges n m with
  | some p => IsPath edges n m p ∧ ∀ q, IsPath edges n m q → p.length ≤ q.length
  | none => ∀ q, ¬ IsPath edges n m q

/-- The passes in their order: each gets what the one before returned, and the configuration. -/
inductive InOrder (c : Val A) : List (Pass A) → Heap A → Val A → Heap A → Except Err (Val A) → Prop
  | done (h s) : InOrder c [] h s h (.ok s)
  | failed (p ps h s h' e) : run p.2 h [s, c] = (h', .error e) → InOrder c (p :: ps) h s h' (.error e)
  | next (p ps h s h' s' h'' r) : run p.2 h [s, c] = (h', .ok s') → InOrder c ps h' s' h'' r →
      InOrder c (p :: ps) h s h'' r

/-- A history: any number of schedules are compiled, one after the other, each with any compiler (in any state) and any
configuration that has no object in common with `v`, keeping the originals. -/
inductive History (sp : PathFinder A) (ic : A → Bool) (cc : A) (v : Val A) : Heap A → Heap A → Prop
  | nil (h) : History sp ic cc v h h
  | call (h h' : Heap A) (depth : Nat) (c : Compiler A) (s : Val A) (cfg : Config A) : cfg.keep = true →
      Complete h s → Complete h cfg.obj → Disjoint h v cfg.obj →
      History sp ic cc v (compile sp ic cc depth c h s cfg).2.1 h' → History sp ic cc v h h'

end Verif.Compile.Spec
