import Verif.ModelUtils

/-!
# L1: dual, opposite and proper projection of interval objects with any endpoints

The endpoints are Python numbers: an `int` of any size or a `float` that may be infinite or NaN.
-/

set_option autoImplicit false

namespace IntvalPy
namespace FIv

/-- The class chosen by the test `self.b <= self.a` of `dual`, `opp` and `inv`,
/repo/intvalpy/kernel/interval_arithmetics.pyx:151-154, 165-168, 177-180. -/
def flipCls (x : FIv) : Cls := if x.b.le x.a then .classical else .kaucher

/-- `dual`, /repo/intvalpy/kernel/interval_arithmetics.pyx:149-154. -/
def dualN (x : FIv) : FIv := ⟨x.flipCls, x.b, x.a⟩

/-- `pro`, /repo/intvalpy/kernel/interval_arithmetics.pyx:156-161. -/
def proN (x : FIv) : FIv := ⟨.classical, x.proLo, x.proHi⟩

/-- `opp`, /repo/intvalpy/kernel/interval_arithmetics.pyx:163-168. -/
def oppN (x : FIv) : FIv := ⟨x.flipCls, x.a.neg, x.b.neg⟩

/-- `__neg__`, /repo/intvalpy/kernel/interval_arithmetics.pyx:193-194. -/
def negObj (x : FIv) : FIv := ⟨x.cls, x.b.neg, x.a.neg⟩

end FIv
end IntvalPy
