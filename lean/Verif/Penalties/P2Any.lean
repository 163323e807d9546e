import Verif.Py
import Verif.Penalties.Model

/-!
# `Parafac2.factor_matrices_update` for matrices with any number of rows

`src/matcouply/penalties.py` lines 1226-1250. The SVD function returns the singular vectors as matrices with run-time sizes: `truncated_svd` returns as many left and right
singular vectors as fit, and these numbers differ if all of them are computed (`full_matrices`).
-/

namespace Verif.Penalties

/-- What `svd_fun(M, n_eigenvecs=R)` returns, without the singular values: `U` has `k` columns, `Vh` has `l` rows. -/
structure AnySVD (m n : ℕ) where
  k : ℕ
  l : ℕ
  U : Matrix (Fin m) (Fin k) ℝ
  Vh : Matrix (Fin l) (Fin n) ℝ

variable {I R : ℕ} {J : Fin I → ℕ}

/-- The loop over the factor matrices (lines 1232-1235): `tl.matmul(U, Vh)` raises ValueError if the numbers of vectors differ for one of them. -/
def anyBases (svd : (i : Fin I) → Matrix (Fin (J i)) (Fin R) ℝ → AnySVD (J i) R) (X : (i : Fin I) → Matrix (Fin (J i)) (Fin R) ℝ) (coord : Matrix (Fin R) (Fin R) ℝ) :
    Except PyErr ((i : Fin I) → Matrix (Fin (J i)) (Fin R) ℝ) :=
  if h : ∀ i, (svd i (X i * coord.transpose)).k = (svd i (X i * coord.transpose)).l then
    .ok fun i => (svd i (X i * coord.transpose)).U * (svd i (X i * coord.transpose)).Vh.submatrix (Fin.cast (h i)) id
  else .error .valueError

/-- `factor_matrices_update` (lines 1226-1250) with both updates: `n` iterations remain. -/
noncomputable def anyUpdate (svd : (i : Fin I) → Matrix (Fin (J i)) (Fin R) ℝ → AnySVD (J i) R) (X : (i : Fin I) → Matrix (Fin (J i)) (Fin R) ℝ) (ρ : Fin I → ℝ) :
    ℕ → P2Aux I J R → Except PyErr (P2Aux I J R)
  | 0, aux => .ok aux
  | n + 1, aux =>
    match anyBases svd X aux.coord with
    | .error e => .error e
    | .ok P => anyUpdate svd X ρ n ⟨P, p2Coord X ρ P⟩

end Verif.Penalties
