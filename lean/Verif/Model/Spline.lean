import Verif.Model.Mat
import Mathlib.Data.Real.Basic

/-!
# Cubic and quintic splines (src/la_implf.F90)

Over the reals. An array of the C interface is an address and an increment; the Fortran routine gets the
section `x(1:n*inc:inc)`. Array assignments are loops: Fortran does not allow the result to overlap an argument.
`none` stands for a division by zero.
-/

namespace Verif.Spline

open Mat

/-- an address and an increment. -/
abbrev Arr := Nat × Nat

/-- element `i` of an array. -/
def el (m : Mem ℝ) (a : Arr) (i : Nat) : ℝ := m (a.1 + i * a.2)

/-- an array assignment. -/
def assign (n : Nat) (o : Arr) (f : Nat → Mem ℝ → ℝ) (m : Mem ℝ) : Mem ℝ :=
  forN n (fun i m => store m (o.1 + i * o.2) (f i m)) m

/-- src/la_implf.F90:427-435 `3spline_param` and its C interface, lines 447-456. -/
noncomputable def param3 (n : Nat) (tf : ℝ) (x1 dx1 x2 dx2 : Arr) (a2 a3 : Nat) (m : Mem ℝ) : Option (Mem ℝ) :=
  if tf = 0 then none
  else
    let m := assign n (a2, 1) (fun i m =>
      3 / tf ^ 2 * (el m x2 i - el m x1 i) - 2 / tf * el m dx1 i - 1 / tf * el m dx2 i) m
    some (assign n (a3, 1) (fun i m =>
      -2 / tf ^ 3 * (el m x2 i - el m x1 i) + 1 / tf ^ 2 * (el m dx2 i + el m dx1 i)) m)

/-- src/la_implf.F90:437-445 `3spline` and its C interface, lines 458-466. -/
def val3 (n : Nat) (t : ℝ) (x1 dx1 : Arr) (a2 a3 : Nat) (x dx ddx : Arr) (m : Mem ℝ) : Mem ℝ :=
  let m := assign n x (fun i m =>
    el m x1 i + t * el m dx1 i + t ^ 2 * el m (a2, 1) i + t ^ 3 * el m (a3, 1) i) m
  let m := assign n dx (fun i m => el m dx1 i + 2 * t * el m (a2, 1) i + 3 * t ^ 2 * el m (a3, 1) i) m
  assign n ddx (fun i m => 2 * el m (a2, 1) i + 6 * t * el m (a3, 1) i) m

/-- src/la_implf.F90:468-477 `5spline_param` and its C interface, lines 488-497. -/
noncomputable def param5 (n : Nat) (tf : ℝ) (x1 dx1 ddx1 x2 dx2 ddx2 : Arr) (a3 a4 a5 : Nat) (m : Mem ℝ) :
    Option (Mem ℝ) :=
  if tf = 0 then none
  else
    let m := assign n (a3, 1) (fun i m =>
      (20 * el m x2 i - 20 * el m x1 i - (8 * el m dx2 i + 12 * el m dx1 i) * tf
        - (3 * el m ddx1 i - el m ddx2 i) * tf ^ 2) / (2 * tf ^ 3)) m
    let m := assign n (a4, 1) (fun i m =>
      (30 * el m x1 i - 30 * el m x2 i + (14 * el m dx2 i + 16 * el m dx1 i) * tf
        + (3 * el m ddx1 i - 2 * el m ddx2 i) * tf ^ 2) / (2 * tf ^ 4)) m
    some (assign n (a5, 1) (fun i m =>
      (12 * el m x2 i - 12 * el m x1 i - (6 * el m dx2 i + 6 * el m dx1 i) * tf
        - (el m ddx1 i - el m ddx2 i) * tf ^ 2) / (2 * tf ^ 5)) m)

/-- src/la_implf.F90:479-486 `5spline` and its C interface, lines 499-509. -/
noncomputable def val5 (n : Nat) (t : ℝ) (x1 dx1 ddx1 : Arr) (a3 a4 a5 : Nat) (x dx ddx : Arr) (m : Mem ℝ) : Mem ℝ :=
  let m := assign n x (fun i m =>
    el m x1 i + t * el m dx1 i + (1 / 2) * t ^ 2 * el m ddx1 i + t ^ 3 * el m (a3, 1) i + t ^ 4 * el m (a4, 1) i
      + t ^ 5 * el m (a5, 1) i) m
  let m := assign n dx (fun i m =>
    el m dx1 i + t * el m ddx1 i + 3 * t ^ 2 * el m (a3, 1) i + 4 * t ^ 3 * el m (a4, 1) i
      + 5 * t ^ 4 * el m (a5, 1) i) m
  assign n ddx (fun i m =>
    el m ddx1 i + 6 * t * el m (a3, 1) i + 12 * t ^ 2 * el m (a4, 1) i + 20 * t ^ 3 * el m (a5, 1) i) m

end Verif.Spline
