import Verif.Model.Usage
/-!
# Operators on constants (`hrdc/util/named_constant.py`)
-/
namespace Hrdc
namespace Constant

/-- Python `a & b` on ints: infinite two's complement. -/
def iand : Int → Int → Int
  | .ofNat a, .ofNat b => .ofNat (a &&& b)
  | .ofNat a, .negSucc b => .ofNat (a ^^^ (a &&& b))
  | .negSucc a, .ofNat b => .ofNat (b ^^^ (a &&& b))
  | .negSucc a, .negSucc b => .negSucc (a ||| b)

/-- Python `a | b` on ints. -/
def ior : Int → Int → Int
  | .ofNat a, .ofNat b => .ofNat (a ||| b)
  | .ofNat a, .negSucc b => .negSucc (b ^^^ (a &&& b))
  | .negSucc a, .ofNat b => .negSucc (a ^^^ (a &&& b))
  | .negSucc a, .negSucc b => .negSucc (a &&& b)

/-- Binary operators of `NamedConstant`. -/
inductive Op | add | mul | and | or | shl | shr
  deriving DecidableEq, Repr

/-- The operator on two ints; shifting by a negative count raises `ValueError`. -/
def onInts (o : Op) (a b : Int) : Except PyErr Int :=
  match o with
  | .add => .ok (a + b)
  | .mul => .ok (a * b)
  | .and => .ok (iand a b)
  | .or => .ok (ior a b)
  | .shl => if b < 0 then .error .value else .ok (a * 2 ^ b.toNat)
  | .shr => if b < 0 then .error .value else .ok (a / 2 ^ b.toNat)

/-- `a op b`, `named_constant.py:24-65`: the operators are defined for a constant on the left; only
`__rand__` and `__ror__` (`:45-48,62-65`) exist for an int on the left, the others raise `TypeError`.
Operands that are neither ints nor constants (`raise NotImplemented()`) are not modelled. -/
def apply (o : Op) (a b : PyVal) : Except PyErr Int :=
  match a, b with
  | .int x, .int y => onInts o x y
  | .int x, b =>
    match o with
    | .and => .ok (iand b.toInt x)
    | .or => .ok (ior b.toInt x)
    | _ => .error .type
  | a, b => onInts o a.toInt b.toInt

/-- `~a`, `named_constant.py:29-30`. -/
def invert (a : PyVal) : Int := -a.toInt - 1

/-- `a | b | c | ...`, from left to right, of a list of constants; the first one is `a`. -/
def orAll (a : PyVal) : List PyVal → Except PyErr PyVal
  | [] => .ok a
  | b :: r =>
    match apply .or a b with
    | .error e => .error e
    | .ok v => orAll (.int v) r

end Constant
end Hrdc
