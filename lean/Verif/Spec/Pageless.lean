import Verif.Spec.Hid
/-!
# A stream without its UsagePage items
-/
namespace Hrdc.Spec

/-- The stream without UsagePage items: a host reads its 16-bit usages on page 0. -/
def unpaged (ks : List SItem) : List SItem := ks.filter (fun k => k.1 != .usagePage)

end Hrdc.Spec
