import Verif.Spec.Merge
/-!
# What two passes of the optimizer make of a stream with Push and Pop

Push saves the globals in force and Pop brings them back.  Neither pass looks at them: the page that is written and the
bounds that are pending are those of the items just before, whatever has been brought back since.
-/
namespace Hrdc.Spec
open Hrdc

/-- The main items of a stream, each with the usages it has once these are split into pages and identifiers.  `last`: page
of the usage or Usage Page item before; `page`: page in force in what is written; `saved`: those saved by Push. -/
def splitAll (rule : PageRule) (h : Host) (last : Option Int) (page : Int) (saved : List Int) (d : Decl) :
    List SItem → List (MainRec × List Int)
  | [] => []
  | x :: xs =>
    let h' := h.step rule x
    let p := x.2 / 65536
    let q := if last = some p then page else p
    let u := rule.declare q (x.2 % 65536)
    if x.1 = .usage then splitAll rule h' (some p) q saved (d.one u) xs
    else if x.1 = .usageMin then splitAll rule h' (some p) q saved (d.setLo u) xs
    else if x.1 = .usageMax then splitAll rule h' (some p) q saved (d.setHi u) xs
    else if x.1 = .usagePage then splitAll rule h' (some x.2) x.2 saved d xs
    else if x.1 = .push then splitAll rule h' last page (page :: saved) d xs
    else if x.1 = .pop then splitAll rule h' last (saved.headD page) saved.tail d xs
    else if x.1.kind = .main then
      (h.main rule x, d.values (rule.consume page)) :: splitAll rule h' last page saved {} xs
    else splitAll rule h' last page saved d xs

/-- Physical bounds in force, and those saved by Push. -/
structure PhysState where
  lo : Int := 0
  hi : Int := 0
  saved : List (Int × Int) := []

/-- Effect of an item on the physical bounds. -/
def PhysState.step (p : PhysState) (x : SItem) : PhysState :=
  match x.1 with
  | .physMin => { p with lo := x.2 }
  | .physMax => { p with hi := x.2 }
  | .push => { p with saved := (p.lo, p.hi) :: p.saved }
  | .pop =>
    match p.saved with
    | [] => p
    | b :: r => { lo := b.1, hi := b.2, saved := r }
  | _ => p

/-- Effect of an item on the bounds when those it sets are removed. -/
def PhysState.skip (p : PhysState) (x : SItem) : PhysState :=
  if x.1 = .physMin ∨ x.1 = .physMax then p else p.step x

/-- The main items of a stream, each with the physical bounds it has once those that look superfluous are removed.
`keep`, `drop`: bounds in force when those since the main item before are kept or removed; `s`: bounds set since.  Those
set are removed when they equal the logical ones, where a bound not set since the main item before counts as 0. -/
def physAll (rule : PageRule) (h : Host) (keep drop : PhysState) (s : Cls → Option Int) :
    List SItem → List (MainRec × Int × Int)
  | [] => []
  | x :: xs =>
    if x.1.kind = .main then
      let p := if (s .physMin).getD 0 = (s .logMin).getD 0 ∧ (s .physMax).getD 0 = (s .logMax).getD 0 then drop else keep
      (h.main rule x, p.lo, p.hi) :: physAll rule (h.step rule x) p p (fun _ => none) xs
    else
      physAll rule (h.step rule x) (keep.step x) (drop.skip x)
        (if x.1 ∈ [Cls.logMin, .logMax, .physMin, .physMax] then (fun c => if c = x.1 then some x.2 else s c) else s) xs

end Hrdc.Spec
