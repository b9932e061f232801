/-
What the assignment of clocks must do (C44), stated without the compiler.
-/
import Verif.Circuit.Spec

namespace Verif.Circuit

variable {P U C : Type}

/-- The clocks that an operation uses directly: not inside a schedule. -/
inductive Uses (clock : P → String) : Op P U C → String → Prop where
  | pulse {g p a x} : x ∈ p → Uses clock (.leaf g p a) (clock x)
  | acq {g p a x} : x ∈ a → Uses clock (.leaf g p a) (clock x)
  | asm {c k} : Uses clock (.asm c k) c
  | ctrl {k body c} : Uses clock body c → Uses clock (.ctrl k body) c
  | comp {k body c} : Uses clock body c → Uses clock (.comp k body) c

/-- The clocks that the operations of a schedule use. -/
def UsesIn (clock : P → String) (items : List (Op P U C × Tc U)) (c : String) : Prop :=
  ∃ i ∈ items, Uses clock i.1 c

/-- The frequencies of a schedule's resources. -/
def withFreq (l : List (String × Option Freq)) : List (String × Freq) :=
  l.filterMap (fun e => e.2.map (fun f => (e.1, f)))

mutual
/-- The frequencies that an operation defines, in the schedules it contains, except for those inside a pulse
compensation. -/
def defs : Op P U C → List (String × Freq)
  | .sched d items => defsItems items ++ withFreq d.resources
  | .ctrl _ body => defs body
  | _ => []
def defsItems : List (Op P U C × Tc U) → List (String × Freq)
  | [] => []
  | i :: items => defs i.1 ++ defsItems items
end

/-- Two definitions of a clock are the same frequency, which is not NaN. -/
def Consistent (l : List (String × Freq)) : Prop :=
  l.Pairwise (fun x y => x.1 = y.1 → ∃ r : Rat, x.2 = some r ∧ y.2 = some r)

/-- The known frequency of a clock: what the schedule defines; else what the device configuration says. -/
def known (cfg : Cfg P U C) (s : Op P U C) (c : String) : Option Freq :=
  (Dict.get? (defs s) c).or (Dict.get? cfg.clocks c)

/-- The resources `res` are kept and, of the clocks used, those are added that are missing, with their known
frequency, which is not NaN. -/
def Extended (F : String → Option Freq) (used : String → Prop) (res res' : List (String × Option Freq)) : Prop :=
  ∃ added, res' = res ++ added ∧ (Dict.keys added).Nodup ∧
    (∀ c v, (c, v) ∈ added → c ∉ Dict.keys res ∧ used c ∧ ∃ f : Rat, F c = some (some f) ∧ v = some (some f)) ∧
    (∀ c, used c → c ∈ Dict.keys res')

/-- `WithClocks clock F op out`: `out` is `op` with each clock in the resources of the innermost schedule around
its use. -/
inductive WithClocks (clock : P → String) (F : String → Option Freq) : Op P U C → Op P U C → Prop where
  | leaf {g p a} : ¬ (p = [] ∧ a = []) → WithClocks clock F (.leaf g p a) (.leaf g p a)
  | asm {c k} : WithClocks clock F (.asm c k) (.asm c k)
  | ctrl {k body body'} : WithClocks clock F body body' → WithClocks clock F (.ctrl k body) (.ctrl k body')
  | comp {k body body'} : WithClocks clock F body body' → WithClocks clock F (.comp k body) (.comp k body')
  | sched {d items items' res} :
      items'.length = items.length →
      (∀ (i : Nat) (h : i < items.length) (h' : i < items'.length), items'[i].2 = items[i].2) →
      (∀ (i : Nat) (h : i < items.length) (h' : i < items'.length), WithClocks clock F items[i].1 items'[i].1) →
      Extended F (UsesIn clock items) d.resources res →
      WithClocks clock F (.sched d items) (.sched { d with resources := res } items')

end Verif.Circuit
