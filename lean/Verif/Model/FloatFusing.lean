import Verif.Model.FloatPredict
import Verif.Model.DynamicObject
import Mathlib.Data.List.FinRange
/-!
# Fusing in floating-point arithmetic (fusing.hpp)

`compute_covariance_intersection`, `generate_weight` and `covariance_intersection_visitor` as they
are computed, in `float`.  Parameters: Eigen's `inverse()` and `determinant()` (`EigenF`), and the
order in which Eigen takes sums (the result is a relation, see `SumsTo`).
-/

namespace Mot

open Matrix

local infixl:65 " ⊞ " => FP.add binary32
local infixl:65 " ⊟ " => FP.sub binary32
local infixl:70 " ⊠ " => FP.mul binary32
local infixl:70 " ⊘ " => FP.div binary32

/-- `inverse()` and `determinant()` of `float` matrices, fusing.hpp:74, 95-97, 118-119.  Eigen
computes the inverse of a matrix of fixed size (`inv`, lines 118-119) and of a matrix of dynamic
size (`invX`, line 74) by different code, and the results need not be rounded in the same way. -/
structure EigenF where
  inv : ∀ {n : ℕ}, Matrix (Fin n) (Fin n) FP → Matrix (Fin n) (Fin n) FP
  invX : ∀ {n : ℕ}, Matrix (Fin n) (Fin n) FP → Matrix (Fin n) (Fin n) FP
  det : ∀ {n : ℕ}, Matrix (Fin n) (Fin n) FP → FP

section
variable {n : ℕ}

/-- `generate_weight`, fusing.hpp:92-102 -/
def generateWeightF (E : EigenF) (A₁ A₂ : Matrix (Fin n) (Fin n) FP) : FP :=
  let d₁ := E.det A₁
  let d₂ := E.det A₂
  let dS := E.det fun i j => A₁ i j ⊞ A₂ i j
  (dS ⊟ d₂ ⊞ d₁) ⊘ (.fin 2 ⊠ dS)

/-- `x` is an entry of `w * A * v`, fusing.hpp:77; `row` is the row of `A`.  Eigen may multiply the
matrix, the vector or the sum with the factor. -/
def IsScaledRowF (w : FP) (row v : Fin n → FP) (x : FP) : Prop :=
  SumsTo binary32 (List.ofFn fun j => w ⊠ row j ⊠ v j) x ∨
  SumsTo binary32 (List.ofFn fun j => row j ⊠ (w ⊠ v j)) x ∨
  ∃ y, SumsTo binary32 (List.ofFn fun j => row j ⊠ v j) y ∧ x = w ⊠ y

/-- `inverse_covariance_combined`, fusing.hpp:72-73 -/
def combinedF (A₁ A₂ : Matrix (Fin n) (Fin n) FP) (w : FP) : Matrix (Fin n) (Fin n) FP :=
  fun i j => w ⊠ A₁ i j ⊞ (.fin 1 ⊟ w) ⊠ A₂ i j

/-- `x` and `C` are a result of `compute_covariance_intersection`, fusing.hpp:50-79 -/
def IsIntersectionF (E : EigenF) (m₁ : Fin n → FP) (A₁ : Matrix (Fin n) (Fin n) FP)
    (m₂ : Fin n → FP) (A₂ : Matrix (Fin n) (Fin n) FP) (w : FP) (x : Fin n → FP)
    (C : Matrix (Fin n) (Fin n) FP) : Prop :=
  C = E.invX (combinedF A₁ A₂ w) ∧
  ∃ s₁ s₂ : Fin n → FP, (∀ i, IsScaledRowF w (A₁ i) (rotateYawF m₁) (s₁ i)) ∧
    (∀ i, IsScaledRowF (.fin 1 ⊟ w) (A₂ i) (rotateYawF m₂) (s₂ i)) ∧
    ∀ i, SumsTo binary32 (List.ofFn fun j => C i j ⊠ (s₁ j ⊞ s₂ j)) (x i)

end

/-- `f` is a result of `covariance_intersection_visitor` for two objects of the same motion model,
fusing.hpp:115-136 -/
def IsFusedF {S : Type} {n : ℕ} [MotionModelF S n] (E : EigenF)
    (t d f : DynObj S (Matrix (Fin n) (Fin n) FP)) : Prop :=
  let tInv := E.inv t.covariance
  let dInv := E.inv d.covariance
  ∃ x C, IsIntersectionF E (MotionModelF.toVec t.state) tInv (MotionModelF.toVec d.state) dInv
      (generateWeightF E tInv dInv) x C ∧
    f = { t with timestamp := d.timestamp, state := MotionModelF.ofVec x, covariance := C }

/-! ### What is assumed of Eigen for diagonal matrices -/

/-- a diagonal matrix -/
def diagonalF {n : ℕ} (v : Fin n → FP) : Matrix (Fin n) (Fin n) FP :=
  fun i j => if i = j then v i else .fin 0

/-- the way a product is taken -/
inductive ProdTree (n : ℕ)
  | leaf (i : Fin n)
  | node (l r : ProdTree n)

/-- the factors in their order -/
def ProdTree.leaves {n : ℕ} : ProdTree n → List (Fin n)
  | .leaf i => [i]
  | .node l r => l.leaves ++ r.leaves

/-- the rounded product -/
def ProdTree.eval {n : ℕ} (v : Fin n → FP) : ProdTree n → FP
  | .leaf i => v i
  | .node l r => l.eval v ⊠ r.eval v

/-- For diagonal matrices without zeros on the diagonal LU decomposition does nothing: the inverse
has the reciprocals on its diagonal, and the determinant is the product of the diagonal, always
taken in the same way. -/
structure EigenF.Diagonal (E : EigenF) : Prop where
  inv : ∀ {n : ℕ} (v : Fin n → ℚ), (∀ i, v i ≠ 0) → (∀ i, ∃ q, .fin 1 ⊘ .fin (v i) = .fin q) →
    E.inv (diagonalF fun i => .fin (v i)) = diagonalF fun i => .fin 1 ⊘ .fin (v i)
  invX : ∀ {n : ℕ} (v : Fin n → ℚ), (∀ i, v i ≠ 0) → (∀ i, ∃ q, .fin 1 ⊘ .fin (v i) = .fin q) →
    E.invX (diagonalF fun i => .fin (v i)) = diagonalF fun i => .fin 1 ⊘ .fin (v i)
  det : ∀ n : ℕ, 0 < n → ∃ T : ProdTree n, T.leaves.Perm (List.finRange n) ∧
    ∀ v : Fin n → ℚ, (∀ i, v i ≠ 0) → E.det (diagonalF fun i => .fin (v i)) = T.eval fun i => .fin (v i)

end Mot
