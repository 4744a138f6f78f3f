/-
Model of pre-cmake/tools/single.cpp from the parsed arguments on: a polynomial evaluated at a matrix.
-/
import Verif.Model.CPoly
import Verif.Model.TMatrix

namespace Spffl
open Res
namespace Single
variable {α : Type} (O : CoefOps α) (T : TOps α)

/-- single.cpp:24-42; the polynomial is f2n_poly_t with the operations `O` of its coefficients, which as elements of matrices are `T`. -/
def poly_of_matrix (f : CPoly α) (A : TMat α) (zero one : α) : Res (TMat α) := do
  let fA ← TMat.fill zero A.num_rows A.num_cols
  let Ap ← TMat.make_I A zero one
  let s ← forUp 0 (f.degree + 1) (fA, Ap) fun i s => do
    let c ← CPoly.get_coeff O f i
    let foo ← TMat.smul T s.2 c
    let fA ← TMat.add T s.1 foo
    let Ap ← TMat.mul T s.2 A
    ok (fA, Ap)
  ok s.1

/-- single.cpp:66-68: whether the polynomial is printed. -/
def prints (f : CPoly α) (A : TMat α) (zero one : α) : Res Bool := do
  let fA ← poly_of_matrix O T f A zero one
  TMat.is_zero T fA

end Single
end Spffl
