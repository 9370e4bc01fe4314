import Verif.Spec.Hid
/-!
# Controls that look alike
-/
namespace Hrdc.Spec

/-- Usages of a control. -/
def Event.usages : Event → List Int
  | .control _ _ _ _ s => s.filterMap (·.usage)
  | _ => []

/-- Controls of one report that have the same direction, flags and attributes. -/
def Event.alike : Event → Event → Bool
  | .control w f i a _, .control w' f' i' a' _ => decide (w = w' ∧ f = f' ∧ i = i' ∧ a = a')
  | _, _ => false

/-- Both have a usage or none has, and likewise for strings and designators. -/
def Selector.similar (s t : Selector) : Bool :=
  s.usage.isSome == t.usage.isSome && (s.string == 0) == (t.string == 0) && (s.desig == 0) == (t.desig == 0)

/-- One item can describe both controls: Variable controls similarly selected, or Array controls that select nothing. -/
def Event.joins : Event → Event → Bool
  | .control _ f _ _ s, .control _ _ _ _ t =>
    if f / 2 % 2 = 1 then s.all fun a => t.all fun b => a.similar b else s.isEmpty && t.isEmpty
  | _, _ => true

/-- All usages have the same upper 16 bits. -/
def commonPage (us : List Int) : Bool := us.all fun u => u / 65536 == us.headD 0 / 65536

/-- Each two neighbours are in relation. -/
def neighbours (P : Event → Event → Bool) : List Event → Bool
  | a :: b :: r => P a b && neighbours P (b :: r)
  | _ => true

/-- Neighbouring controls that look alike can be described by one item. -/
def alikeJoin (es : List Event) : Bool := neighbours (fun e f => !e.alike f || e.joins f) es

/-- The usages of each control are on one page, and those of neighbouring controls that look alike. -/
def alikePages (es : List Event) : Bool :=
  es.all (fun e => commonPage e.usages) && neighbours (fun e f => !e.alike f || commonPage (e.usages ++ f.usages)) es

/-- No control whose bounds are all 0 follows one with physical bounds of its own; `own` tells whether the last control
had such bounds. -/
def boundsBack (own : Bool) : List Event → Bool
  | [] => true
  | .control _ _ _ a _ :: r =>
    if a.physMin = a.logMin ∧ a.physMax = a.logMax then
      !(own && decide (a.logMin = 0 ∧ a.logMax = 0)) && boundsBack false r
    else boundsBack true r
  | _ :: r => boundsBack own r

end Hrdc.Spec
