import Verif.Model.Tf

/-!
# Vector functions of the Fortran module `amino_la` (src/la_implf.F90)

Over the reals. A Fortran array of size `n` is a function of `Fin n`. Results are returned, since Fortran does not
allow them to overlap the arguments. `dot_product` and `sum` are sums. `none` stands for a division by zero, an
`atan2` of two zeros, or an index outside of an array.
-/

noncomputable section

namespace Verif.LaF

variable {n : Nat}

/-- the intrinsic `dot_product`. -/
def dot (x y : Fin n → ℝ) : ℝ := ∑ i, x i * y i

/-- src/la_implf.F90:59-67 `cross_sub`, which `cross_fun` (73-77) and the C interface (85-89) call. -/
def cross (x y : Fin 3 → ℝ) : Fin 3 → ℝ :=
  ![x 1 * y 2 - y 1 * x 2, y 0 * x 2 - x 0 * y 2, x 0 * y 1 - y 0 * x 1]

/-- src/la_implf.F90:97-102 `ssd`. -/
def ssd (x y : Fin n → ℝ) : ℝ := ∑ i, (x i - y i) ^ 2

/-- src/la_implf.F90:125-134 `colssd`, for `A` and `B` with `m` rows and `ca` and `cb` columns and `C` of size `p`
times `q`. -/
def colssd {m ca cb : Nat} (A : Fin m → Fin ca → ℝ) (B : Fin m → Fin cb → ℝ) (p q : Nat) :
    Option (Fin p → Fin q → ℝ) :=
  if h : (p ≤ ca ∧ q ≤ cb) ∨ p = 0 ∨ q = 0 then
    some fun i j => ssd (fun k => A k ⟨i, by have := i.2; have := j.2; omega⟩)
      (fun k => B k ⟨j, by have := i.2; have := j.2; omega⟩)
  else none

/-- src/la_implf.F90:149-154 `colssd_c`: `B` is declared with `n` columns, `C` is `n` times `p`. `B` is what the
caller passes, of which the declaration covers the first `n` columns. -/
def colssdC {m p : Nat} (A : Fin m → Fin n → ℝ) (B : Fin m → Nat → ℝ) : Option (Fin n → Fin p → ℝ) :=
  colssd A (fun k (j : Fin n) => B k j) n p

/-- src/la_implf.F90:172-185 `angle`. -/
def angle (x y : Fin n → ℝ) : Option ℝ :=
  let nx := Real.sqrt (dot x x)
  let ny := Real.sqrt (dot y y)
  let sc := (List.finRange n).foldl (fun (sc : ℝ × ℝ) i =>
    (sc.1 + (ny * x i - nx * y i) ^ 2, sc.2 + (ny * x i + nx * y i) ^ 2)) (0, 0)
  if Real.sqrt sc.1 = 0 ∧ Real.sqrt sc.2 = 0 then none
  else some (2 * Tf.atan2 (Real.sqrt sc.1) (Real.sqrt sc.2))

/-- src/la_implf.F90:215-222, the loop of `norm2` for an element: `scl` and `ssq`. -/
def step (s : ℝ × ℝ) (x : ℝ) : ℝ × ℝ :=
  if 0 < |x| then
    if s.1 < |x| then (|x|, 1 + s.2 * (s.1 / |x|) ^ 2)
    else (s.1, s.2 + (|x| / s.1) ^ 2)
  else s

/-- src/la_implf.F90:212-223: `scl` and `ssq` after the elements of a list. -/
def scan (x : List ℝ) : ℝ × ℝ := x.foldl step (0, 1)

/-- src/la_implf.F90:207-225 `norm2`. -/
def norm2 (x : Fin n → ℝ) : ℝ := (scan (List.ofFn x)).1 * Real.sqrt (scan (List.ofFn x)).2

/-- src/la_implf.F90:230-252 `unit_sub1`, `unit_sub2`, `unit_fun`. -/
def unit (x : Fin n → ℝ) : Option (Fin n → ℝ) :=
  if norm2 x = 0 then none else some fun i => x i / norm2 x

/-- src/la_implf.F90:257-268 `proj_sub`, `proj_fun`. -/
def proj (a b : Fin n → ℝ) : Option (Fin n → ℝ) :=
  if dot b b = 0 then none else some fun i => dot a b * b i / dot b b

/-- src/la_implf.F90:273-284 `orth_sub`, `orth_fun`. -/
def orth (a b : Fin n → ℝ) : Option (Fin n → ℝ) :=
  if dot b b = 0 then none else some fun i => a i - dot a b * b i / dot b b

/-- src/la_implf.F90:288-292 `vecstd`; the square root of a negative number, for size 0, is `none` too. -/
def vecstd (x : Fin n → ℝ) (mu : ℝ) : Option ℝ :=
  if (n : ℝ) - 1 = 0 ∨ 1 / ((n : ℝ) - 1) * ∑ i, (x i - mu) ^ 2 < 0 then none
  else some (Real.sqrt (1 / ((n : ℝ) - 1) * ∑ i, (x i - mu) ^ 2))

/-- src/la_implf.F90:305-317 `colmean`, for `x` with as many elements as `A` has rows. -/
def colmean {m : Nat} (A : Fin m → Fin n → ℝ) : Option (Fin m → ℝ) :=
  if (n : ℝ) = 0 ∧ m ≠ 0 then none else some fun i => (∑ k, A i k) / n

/-- src/la_implf.F90:329-336 `rowmean`, for `x` with as many elements as `A` has columns. -/
def rowmean {m : Nat} (A : Fin m → Fin n → ℝ) : Option (Fin n → ℝ) :=
  if (m : ℝ) = 0 ∧ n ≠ 0 then none else some fun i => (∑ k, A k i) / m

/-- src/la_implf.F90:349-364 `colcov`: the loop over the columns. -/
def colcov {m : Nat} (A : Fin m → Fin n → ℝ) (x : Fin m → ℝ) : Option (Fin m → Fin m → ℝ) :=
  let E := (List.finRange n).foldl (fun (E : Fin m → Fin m → ℝ) k =>
    fun i j => E i j + (A i k - x i) * (A j k - x j)) (fun _ _ => 0)
  if (n : ℝ) - 1 = 0 ∧ m ≠ 0 then none else some fun i j => E i j / ((n : ℝ) - 1)

/-- src/la_implf.F90:412-417 `lerp`. -/
def lerp (u : ℝ) (v1 v2 : Fin n → ℝ) : Fin n → ℝ := fun i => v1 i + u * (v2 i - v1 i)

end Verif.LaF
