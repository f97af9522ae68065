import Verif.Model.DenseLdlt

/-! Model of `ComputeSignatureVisitor` (ldlt-allocator.hpp:183-194) for the factorisations with a diagonal `D`. -/

set_option linter.unusedSectionVars false
namespace ProxNLP

variable {K : Type} [Field K] [LinearOrder K]

/-- Eigen's `cwiseSign` on one entry, and `math::sign` (math.hpp:95-98) -/
def cwiseSign (x : K) : ℤ := (if 0 < x then 1 else 0) - (if x < 0 then 1 else 0)

/-- `ComputeSignatureVisitor::operator()(facto)` (ldlt-allocator.hpp:184-187) for the dense LDLT: the signs of `vectorD()` -/
def DenseObj.signature (o : DenseObj K) : List ℤ := (List.range o.n).map fun k => cwiseSign (o.vectorD k)

end ProxNLP
