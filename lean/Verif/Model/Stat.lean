import Verif.Model.Scalar
import Verif.Model.La

/-! Statistics with excluded outliers and the Mahalanobis distance (src/math.c). A sample vector
`(n, x)` is modelled by a list, the matrix of the Mahalanobis distance lives in the memory of
`Verif.Mat`. Rounding, NaN and infinities are not modelled: a division by zero gives `none`. -/

namespace Verif.Scalar

/-- `aa_frand`, `aa_frand_minmax` (src/math.c:73-81) with `r` the value returned by `rand()`. -/
noncomputable def frandMinmax (r randMax : Nat) (min max : ℝ) : ℝ :=
  let f := (r : ℝ) / (randMax : ℝ)
  min + f * (max - min)

/-- `aa_stat_std` (src/math.c:107-110) with `aa_la_d_vecstd` (src/la_impl.c:776-790) on a list; `none`
on division by zero (`n = 1`, and `n = 0` in the mean). -/
noncomputable def statStd (x : List ℝ) : Option ℝ :=
  let mu := mean x
  if x.length ≤ 1 then none
  else some (Real.sqrt (x.foldl (fun a t => a + (t - mu) * (t - mu)) 0 / ((x.length - 1 : Nat) : ℝ)))

open scoped Classical in
/-- The test of `aa_stat_excluded_mean_std` (src/math.c:152-156): the samples used in one pass. -/
noncomputable def keep (x : List ℝ) (zmin zmax mu sigma : ℝ) : List ℝ :=
  x.filter fun t => decide (t - mu ≥ zmin * sigma ∧ t - mu ≤ zmax * sigma)

/-- One pass (src/math.c:147-164), returning `mu`, `sigma` and `j`; `none` when `assert(j > 1)` fails. -/
noncomputable def exclPass (x : List ℝ) (zmin zmax mu sigma : ℝ) : Option (ℝ × ℝ × Nat) :=
  let k := keep x zmin zmax mu sigma
  let j := k.length
  let as := k.foldl (fun a t => a + (t - mu) * (t - mu)) 0
  let am := k.foldl (· + ·) 0
  if j > 1 then some (am / j, Real.sqrt (as / ((j - 1 : Nat) : ℝ)), j) else none

/-- The loop (src/math.c:145-165): `jj != j && ++iter < max_iterations`. -/
noncomputable def exclLoop (x : List ℝ) (zmin zmax : ℝ) (maxIter : Nat) (iter j0 : Nat) (mu sigma : ℝ) :
    Option (Nat × ℝ × ℝ) :=
  match exclPass x zmin zmax mu sigma with
  | none => none
  | some (mu', sigma', j) =>
    if j0 ≠ j then
      if _h : iter + 1 < maxIter then exclLoop x zmin zmax maxIter (iter + 1) j mu' sigma'
      else some (iter + 1, mu', sigma')
    else some (iter, mu', sigma')
termination_by maxIter - iter

/-- `aa_stat_excluded_mean_std` (src/math.c:138-169). -/
noncomputable def exclMeanStd (x : List ℝ) (zmin zmax : ℝ) (maxIter : Nat) : Option (Nat × ℝ × ℝ) :=
  match statStd x with
  | none => none
  | some sigma => exclLoop x zmin zmax maxIter 0 0 (mean x) sigma

open scoped Classical in
/-- The test of `aa_stat_excluded_circ_mean_std` (src/math.c:187-189). -/
noncomputable def keepCirc (x : List ℝ) (zmin zmax mu sigma : ℝ) : List ℝ :=
  x.filter fun t => decide (angDelta t mu ≥ zmin * sigma ∧ angDelta t mu ≤ zmax * sigma)

open scoped Classical in
/-- One pass (src/math.c:180-203). `none` also for a zero resultant: C then continues with an infinite
deviation, which the model leaves out. -/
noncomputable def exclCircPass (x : List ℝ) (zmin zmax mu sigma : ℝ) : Option (ℝ × ℝ × Nat) :=
  let k := keepCirc x zmin zmax mu sigma
  let j := k.length
  let as := k.foldl (fun a t => a + Real.sin t) 0
  let ac := k.foldl (fun a t => a + Real.cos t) 0
  if j > 1 then
    let as := as / j
    let ac := ac / j
    let r := as * as + ac * ac
    if r = 0 then none else some (Complex.arg ⟨ac, as⟩, Real.sqrt (-2 * Real.log r), j)
  else none

/-- The loop (src/math.c:178-204). -/
noncomputable def exclCircLoop (x : List ℝ) (zmin zmax : ℝ) (maxIter : Nat) (iter j0 : Nat)
    (mu sigma : ℝ) : Option (Nat × ℝ × ℝ) :=
  match exclCircPass x zmin zmax mu sigma with
  | none => none
  | some (mu', sigma', j) =>
    if j0 ≠ j then
      if _h : iter + 1 < maxIter then exclCircLoop x zmin zmax maxIter (iter + 1) j mu' sigma'
      else some (iter + 1, mu', sigma')
    else some (iter, mu', sigma')
termination_by maxIter - iter

/-- `aa_stat_excluded_circ_mean_std` (src/math.c:171-206); `none` for no samples (division by zero). -/
noncomputable def exclCircMeanStd (x : List ℝ) (zmin zmax : ℝ) (maxIter : Nat) : Option (Nat × ℝ × ℝ) :=
  if x.length = 0 then none
  else exclCircLoop x zmin zmax maxIter 0 0 (circMean x) (circStd x)

open Verif.Mat in
/-- `aa_stat_mahalanobis` (src/math.c:218-227): the local array `t` is placed at the address `t`;
`memcpy`, then `cblas_daxpy` with -1. -/
noncomputable def mahalanobis (n x mu einv t : Nat) (m : Mem ℝ) : ℝ :=
  let m := forN n (fun i m => store m (t + i) (m (x + i))) m
  let m := forN n (fun i m => store m (t + i) (m (t + i) + (-1) * m (mu + i))) m
  Real.sqrt (La.wdot n t einv t m)

end Verif.Scalar
