import Verif.Model.Xil

namespace Verif.Xil

/-! Which instructions the constructors can build, and which of them keep their operand in the stream. -/

/-- The operand constraints the constructors impose (`modules/compile/__xil_struct.h`): a constant's bytes
have the size of its type, `pop`/`pick` storages end at `__pop_end__`, the kinds with their own constructor
are not built through the generic one. -/
def Instr.WF : Instr → Prop
  | .pushConst dtype value => dtype ≠ 0 ∧ value.length = sizeOfType dtype
  | .popEmpty dtype => dtype ≠ 0
  | .popVar st _ _ | .pickVar st _ _ => st ≠ .localContent ∧ st ≠ .argumentContent
  | .popRef st _ _ | .pickRef st _ _ => st ≠ .fieldContent ∧ st ≠ .arrayElementContent
  | .call ct _ => ct ≠ 5
  | .jmp m step => m ≠ 3 ∧ -(2 ^ 23) ≤ step.toInt ∧ step.toInt < 2 ^ 23
  | .switch tbl => 0 ≤ tbl.toInt ∧ tbl.toInt ≤ 255
  | .new nt _ => nt ≠ 4
  | .init _ dtype => dtype ≠ 0
  | _ => True

/-- The operands that `size_of` forgets: variable numbers from 15 on for the forms that go through an address
or a content (except `push` of an address), and references for the address forms of `pop`/`pick` and the
content forms of `push`. -/
def Instr.OperandKept : Instr → Prop
  | .pushVar st _ id => (st = .localContent ∨ st = .argumentContent) → id < 15#16
  | .pushRef st _ _ => st ≠ .fieldContent ∧ st ≠ .arrayElementContent
  | .popVar st _ id | .pickVar st _ id => (st = .localAddr ∨ st = .argumentAddr) → id < 15#16
  | .popRef st _ _ | .pickRef st _ _ => st ≠ .fieldAddr ∧ st ≠ .arrayElementAddr
  | _ => True

end Verif.Xil
