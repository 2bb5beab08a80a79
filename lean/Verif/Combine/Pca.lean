import Verif.Combine.Covariance
import Mathlib.Data.Real.Basic
import Mathlib.Data.Fin.Rev
import Mathlib.Logic.Equiv.Defs
import Mathlib.Data.List.FinRange

/-!
# `PCACombiner`

`tft.pca` accumulates as `tft.covariance` does and takes eigenvectors of the covariance matrix.
`np.linalg.eigh` and `np.argsort` are parameters: what NumPy promises about them is stated in
`Verif.Combine.PcaProps`.  Simplifications: exact arithmetic over the reals; a matrix is the list of
its columns; `output_dim` is a natural number or `None`.
-/

namespace TFT

/-- `np.linalg.eigh`: eigenvalues, and a matrix of eigenvectors of which `vecs j` is column `j`. -/
structure Eigh (d : Nat) where
  vals : Fin d → ℝ
  vecs : Fin d → Fin d → ℝ

/-- `np.eye(N=d, M=m)`, `analyzers.py:2834-2838`, as a list of columns. -/
def eyeColumns (d : Nat) (m : Option Nat) : List (Fin d → ℝ) :=
  (List.range (m.getD d)).map fun j : Nat => fun i : Fin d => if i.val = j then 1 else 0

/-- `vecs[:, np.argsort(vals)[::-1]]`, `analyzers.py:2846`, as a list of columns. -/
def sortedColumns {d : Nat} (argsort : (Fin d → ℝ) → Equiv.Perm (Fin d)) (e : Eigh d) :
    List (Fin d → ℝ) :=
  (List.finRange d).map fun j => e.vecs (argsort e.vals j.rev)

/-- `PCACombiner.extract_output`, `analyzers.py:2810-2850`. -/
def pcaExtract {d : Nat} (eigh : (Fin d → Fin d → ℝ) → Eigh d)
    (argsort : (Fin d → ℝ) → Equiv.Perm (Fin d)) (outputDim : Option Nat) (acc : CovAcc d) :
    List (Fin d → ℝ) :=
  if acc.count = 0 then eyeColumns d outputDim
  else
    let expectedCrossTerms := fun i j => acc.sumProduct i j / acc.count
    let expectedTerms := fun i => acc.sumVectors i / acc.count
    let cov : Fin d → Fin d → ℝ := fun i j =>
      ((expectedCrossTerms i j - expectedTerms i * expectedTerms j : ℚ) : ℝ)
    let sortedVecs := sortedColumns argsort (eigh cov)
    match outputDim with
    | none => sortedVecs
    | some k => sortedVecs.take k

/-- `PCACombiner`, `analyzers.py:2802-2850`. -/
def pcaCombiner {d : Nat} (eigh : (Fin d → Fin d → ℝ) → Eigh d)
    (argsort : (Fin d → ℝ) → Equiv.Perm (Fin d)) (outputDim : Option Nat) :
    Combiner (CovAcc d) (List (Vec d)) (List (Fin d → ℝ)) where
  create := covCreate d
  addInput := fun acc b => .ok (covAdd acc b)
  merge := covMerge
  extract := fun acc => .ok (pcaExtract eigh argsort outputDim acc)

end TFT
