/-
What distortion corrections are meant to do.
-/
import Verif.Distortion.Model

namespace Verif.Distortion.Spec

open Verif.Shapes (Err Shape)
open Verif.Distortion (Pulse Software Correction)

variable {A K X : Type}

/-- Operations with what they play. -/
inductive Tree (A K X : Type)
  | leaf (pulses : List (Pulse X)) (acqs : List A) (kind : K)
  | control (kind : K) (body : Tree A K X)
  | schedule (kind : K) (ops : List (Tree A K X))

/-- `x` limited to a range. -/
def Limited (c : Option (ℝ × ℝ)) (x y : ℝ) : Prop :=
  match c with
  | none => y = x
  | some (lo, hi) => (lo ≤ x → x ≤ hi → y = x) ∧ (hi < x → y = hi) ∧ (x < lo → lo ≤ hi → y = lo) ∧ y ≤ hi

/-- The pulse `p'` is `p` corrected: it is played at the same place and time and for as long; its samples
are those of `p`, filtered and limited, equally spaced from its start to its end; a single sample is
repeated at the end. -/
structure CorrectedBy (c : Software) (p p' : Pulse X) : Prop where
  port : p'.port = p.port
  clock : p'.clock = p.clock
  t0 : p'.t0 = p.t0
  duration : p'.duration = p.duration
  plain : p'.hasOffset = false ∧ p'.other = none
  samples : ∃ s data ys zs, p.shape = some s ∧ Shapes.getWaveform s p.duration c.samplingRate = .ok data ∧
    c.filter data = .ok ys ∧ List.Forall₂ (Limited c.clipping) ys zs ∧
    ∃ zs' ts, p'.shape = some (.interpolated (zs'.map fun x : ℝ => (x : ℂ)) ts) ∧
      (zs.length = 1 → zs' = zs ++ zs) ∧ (zs.length ≠ 1 → zs' = zs) ∧ ts.length = zs'.length ∧
      2 ≤ zs'.length ∧ ∀ k : Nat, k < ts.length → ts[k]? = some (k / (zs'.length - 1) * p.duration)

/-- The pulse is to be corrected in software. -/
def Wanted (cfg : String → Option Correction) (p : Pulse X) (c : Software) : Prop :=
  ∃ key, key = (p.port.getD "None") ++ "-" ++ p.clock ∧ cfg key = some (.software c)

/-- Entry `p` of an operation with pulses `ps` becomes `p'`: it is corrected if wanted, unless the operation has a
voltage offset. -/
def Entry (cfg : String → Option Correction) (ps : List (Pulse X)) (p p' : Pulse X) : Prop :=
  (∀ c, Wanted cfg p c → (∀ q ∈ ps, q.hasOffset = false) → CorrectedBy c p p') ∧
  ((¬ ∃ c, Wanted cfg p c) ∨ (∃ q ∈ ps, q.hasOffset = true) → p' = p)

/-- The first pulse of the operation is corrected. -/
def FirstCorrected (cfg : String → Option Correction) (ps : List (Pulse X)) : Prop :=
  (∃ p c, ps.head? = some p ∧ Wanted cfg p c) ∧ ∀ q ∈ ps, q.hasOffset = false

mutual
/-- `t'` is `t` with all pulses corrected.  If the first pulse of an operation is corrected, the operation becomes a
`NumericalPulse` without acquisitions, otherwise it keeps its kind and its acquisitions. -/
inductive Corrected (num : K) (cfg : String → Option Correction) : Tree A K X → Tree A K X → Prop
  | leafKept (ps ps' acqs kind) (h : List.Forall₂ (Entry cfg ps) ps ps') (h0 : ¬ FirstCorrected cfg ps) :
    Corrected num cfg (.leaf ps acqs kind) (.leaf ps' acqs kind)
  | leafSubstituted (ps ps' acqs kind) (h : List.Forall₂ (Entry cfg ps) ps ps') (h0 : FirstCorrected cfg ps) :
    Corrected num cfg (.leaf ps acqs kind) (.leaf ps' [] num)
  | control (kind b b') (h : Corrected num cfg b b') : Corrected num cfg (.control kind b) (.control kind b')
  | schedule (kind os os') (h : CorrectedAll num cfg os os') :
    Corrected num cfg (.schedule kind os) (.schedule kind os')
/-- The same for all operations of a schedule. -/
inductive CorrectedAll (num : K) (cfg : String → Option Correction) :
    List (Tree A K X) → List (Tree A K X) → Prop
  | nil : CorrectedAll num cfg [] []
  | cons (o o' os os') (h : Corrected num cfg o o') (hs : CorrectedAll num cfg os os') :
    CorrectedAll num cfg (o :: os) (o' :: os')
end

mutual
/-- The operation plays a pulse that is to be corrected but cannot be. -/
inductive Impossible (cfg : String → Option Correction) : Tree A K X → Prop
  | leaf (ps acqs kind) (p c) (h : p ∈ ps) (hw : Wanted cfg p c) (hp : ∀ q ∈ ps, q.hasOffset = false)
    (hn : ¬ ∃ p', CorrectedBy c p p') : Impossible cfg (.leaf ps acqs kind)
  | control (kind b) (h : Impossible cfg b) : Impossible cfg (.control kind b)
  | schedule (kind os o) (hm : o ∈ os) (h : Impossible cfg o) : Impossible cfg (.schedule kind os)
end

end Verif.Distortion.Spec

namespace Verif.Distortion

variable {A K X : Type}

mutual
/-- What an operation plays, given the contents of the lists. -/
def read (h : Heap X) : Op A K → Spec.Tree A K X
  | .leaf l acqs kind => .leaf (h l) acqs kind
  | .control kind b => .control kind (read h b)
  | .schedule kind os => .schedule kind (readAll h os)
/-- The same for all operations of a schedule. -/
def readAll (h : Heap X) : List (Op A K) → List (Spec.Tree A K X)
  | [] => []
  | o :: os => read h o :: readAll h os
end

mutual
/-- The `pulse_info` lists of an operation. -/
def lists : Op A K → List Nat
  | .leaf l _ _ => [l]
  | .control _ b => lists b
  | .schedule _ os => listsAll os
/-- The same for all operations of a schedule. -/
def listsAll : List (Op A K) → List Nat
  | [] => []
  | o :: os => lists o ++ listsAll os
end

end Verif.Distortion
