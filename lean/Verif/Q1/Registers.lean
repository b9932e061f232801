/-
Model of the register manager of the Qblox backend
(`/repo/quantify_scheduler/backends/qblox/register_manager.py`).

Simplification: a register name `"R<n>"` is the number `n` (names are always produced by
`f"R{idx}"`, line 15; non-canonical spellings such as `"R01"` are not modelled).
-/
namespace Verif.Q1

/-- A register name `"R<n>"`. -/
abbrev Reg := Nat

/-- `constants.NUMBER_OF_REGISTERS` (backends/qblox/constants.py). -/
def numRegisters : Nat := 64

/-- Python exceptions raised by the code modelled in this area. -/
inductive Err where
  | indexError | valueError | runtimeError | assertion | outOfFuel
deriving DecidableEq, Repr

/-- `RegisterManager.__init__` (register_manager.py:13-16). -/
def initRegs : List Reg := List.range numRegisters

/-- `RegisterManager.allocate_register` (register_manager.py:18-39): `pop(0)`. -/
def allocReg : List Reg → Except Err (Reg × List Reg)
  | [] => .error .indexError
  | r :: rest => .ok (r, rest)

/-- `_verify_valid_register` (register_manager.py:80-117) on a name `"R<n>"`: only
`n > NUMBER_OF_REGISTERS` is refused, so `"R64"` passes. -/
def validReg (r : Reg) : Bool := !(r > numRegisters)

/-- `RegisterManager.free_register` (register_manager.py:41-63). -/
def freeReg (r : Reg) (avail : List Reg) : Except Err (List Reg) :=
  if !validReg r then .error .valueError
  else if r ∈ avail then .error .runtimeError
  else .ok (r :: avail)

end Verif.Q1
