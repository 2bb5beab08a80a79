import Verif.Combine.Sched
import Mathlib.Analysis.SpecialFunctions.Gamma.Basic
import Mathlib.Analysis.SpecialFunctions.Log.Base

/-!
# Mutual information of a token and the label

Model of `info_theory.py` and of `_calculate_mutual_information_for_feature_value`
(beam/analyzer_impls.py:678-808) in the real numbers. `round` is a parameter.
-/

namespace TFT.Numeric

open Classical in
/-- `_logfactorial` (info_theory.py:139-141): `math.lgamma` of `z + 1`, which raises at the poles of
the gamma function. -/
noncomputable def logfactorial (z : ℝ) : Except Err ℝ :=
  if ∃ m : ℕ, z + 1 = -m then .error "ValueError: math domain error"
  else .ok (Real.log |Real.Gamma (z + 1)|)

open Classical in
/-- `math.log`. -/
noncomputable def pyLog (z : ℝ) : Except Err ℝ :=
  if z ≤ 0 then .error "ValueError: math domain error" else .ok (Real.log z)

open Classical in
/-- `math.log2` (info_theory.py:19). -/
noncomputable def pyLog2 (z : ℝ) : Except Err ℝ :=
  if z ≤ 0 then .error "ValueError: math domain error" else .ok (Real.logb 2 z)

/-- The step of the denominator (info_theory.py:129-134). -/
noncomputable def nextDenominator (n x y : ℝ) (nj last : ℤ) (den : ℝ) : Except Err ℝ :=
  if nj ≠ last then do
    let a ← pyLog (nj + 1)
    let b ← pyLog (x - nj)
    let c ← pyLog (y - nj)
    let d ← pyLog (n - x - y + nj + 1)
    return den + (a - b - c + d)
  else .ok den

/-- The loop of `_hypergeometric_pmf` (info_theory.py:126-136); `steps` values are still to come. -/
noncomputable def pmfLoop (n x y num : ℝ) (last : ℤ) : ℕ → ℤ → ℝ → Except Err (List (ℤ × ℝ))
  | 0, _, _ => .ok []
  | steps + 1, nj, den => do
    let den' ← nextDenominator n x y nj last den
    let rest ← pmfLoop n x y num last steps (nj + 1) den'
    return (nj, Real.exp (num - den)) :: rest

/-- `_hypergeometric_pmf` (info_theory.py:96-136), as the list of what it yields. -/
noncomputable def hypergeometricPmf (rnd : ℝ → ℤ) (n x y : ℝ) : Except Err (List (ℤ × ℝ)) := do
  let start := rnd (max 0 (x + y - n))
  let last := rnd (min x y)
  let n1 ← logfactorial x
  let n2 ← logfactorial y
  let n3 ← logfactorial (n - x)
  let n4 ← logfactorial (n - y)
  let d1 ← logfactorial n
  let d2 ← logfactorial start
  let d3 ← logfactorial (x - start)
  let d4 ← logfactorial (y - start)
  let d5 ← logfactorial (n - x - y + start)
  pmfLoop n x y (n1 + n2 + n3 + n4) last (last + 1 - start).toNat start (d1 + d2 + d3 + d4 + d5)

/-- The term of the sum in `calculate_partial_expected_mutual_information`
(info_theory.py:60-61). -/
noncomputable def emiTerm (coefficient : ℝ) (p : ℤ × ℝ) : Except Err ℝ :=
  if p.1 ≠ 0 then do
    let l ← pyLog2 p.1
    return p.1 * (coefficient + l) * p.2
  else .ok 0

/-- `calculate_partial_expected_mutual_information` (info_theory.py:24-66). -/
noncomputable def partialEmi (rnd : ℝ → ℤ) (n x y : ℝ) : Except Err ℝ := by
  classical
  exact if x = 0 ∨ y = 0 then .ok 0
  else do
    let a ← pyLog2 x
    let b ← pyLog2 y
    let c ← pyLog2 n
    let pmf ← hypergeometricPmf rnd n x y
    let terms ← pmf.mapM (emiTerm (-a - b + c))
    return terms.sum / (pmf.map Prod.snd).sum

open Classical in
/-- `calculate_partial_mutual_information` (info_theory.py:69-93). -/
noncomputable def partialMi (nij x y n : ℝ) : Except Err ℝ :=
  if nij = 0 ∨ x = 0 ∨ y = 0 then .ok 0
  else do
    let a ← pyLog2 nij
    let b ← pyLog2 n
    let c ← pyLog2 x
    let d ← pyLog2 y
    return nij * ((a + b) - (c + d))

/-- The accumulator of weighted means of the labels: the mean of each label, the number of rows and
their mean weight. -/
structure LabelAcc where
  mean : List ℝ
  count : ℝ
  weight : ℝ

/-- `_clip_probability` (beam/analyzer_impls.py:674-675). -/
noncomputable def clipProbability (p : ℝ) : ℝ := min (max p 1e-6) (1 - 1e-6)

open Classical in
/-- The body of the loop over the labels (beam/analyzer_impls.py:773-794): the contributions to the
mutual information and to the expected one. -/
noncomputable def labelTerm (rnd : ℝ → ℤ) (adjusted : Bool) (minDiff n x : ℝ) (cur : LabelAcc)
    (label : ℕ × ℝ) : Except Err (ℝ × ℝ) :=
  if label.2 = 0 then .ok (0, 0)
  else
    let ni := clipProbability (cur.mean.getD label.1 0) * cur.weight * cur.count
    if |x * label.2 / n - ni| < minDiff then .ok (0, 0)
    else do
      let mi ← partialMi ni x label.2 n
      if adjusted then do
        let emi ← partialEmi rnd n x label.2
        return (mi, emi)
      else return (mi, 0)

/-- What is computed for a token: the (adjusted) mutual information, the expected one (`none` stands
for NaN), and the total weight. -/
structure Info where
  mi : Option ℝ
  emi : Option ℝ
  frequency : ℝ

/-- The labels with their numbers. -/
def enumerate (l : List ℝ) : List (ℕ × ℝ) := l.zipIdx.map (fun p => (p.2, p.1))

open Classical in
/-- `_calculate_mutual_information_for_feature_value` (beam/analyzer_impls.py:678-808). -/
noncomputable def mutualInformation (rnd : ℝ → ℤ) (adjusted : Bool) (minDiff : ℝ)
    (glob cur : LabelAcc) : Except Err Info :=
  let labelCounts := glob.mean.map (fun m => m * glob.weight * glob.count)
  let n := glob.count * glob.weight
  if n = 0 then .ok ⟨none, none, 0⟩
  else
    let x := cur.count * cur.weight
    if rnd x = rnd n then .ok ⟨some 0, some 0, x⟩
    else if rnd n < rnd x then
      .error "ValueError: frequency of token higher than number of records"
    else do
      let terms ← (enumerate labelCounts).mapM (labelTerm rnd adjusted minDiff n x cur)
      let mi := (terms.map Prod.fst).sum
      let emi := (terms.map Prod.snd).sum
      if adjusted then return ⟨some (mi - emi), some emi, x⟩
      else return ⟨some mi, none, x⟩

end TFT.Numeric
