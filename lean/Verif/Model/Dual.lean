import Verif.Model.Tf
import Mathlib.Analysis.SpecialFunctions.Trigonometric.Inverse

/-!
# Dual numbers (src/tff.F90)

The operators and functions of the Fortran type `aa_tf_dual_t` (370-408, 2747-2877), over ℝ.  What the code
does outside of the domain of a function (NaN, infinities) is not modelled: `Real.log`, `Real.sqrt` and
division are total here, and the claims only use them inside of the domain.
-/

namespace Verif.Dual

noncomputable section

/-- tff.F90:370-373 `aa_tf_dual_t`. -/
@[ext] structure D where
  r : ℝ
  d : ℝ

/-- tff.F90:2785-2790 `aa_tf_dual_mul4`. -/
def mul4 (ar ad br bd : ℝ) : ℝ × ℝ := (ar * br, ar * bd + ad * br)

/-- tff.F90:2801-2807 `aa_tf_dual_mul`. -/
def mul (a b : D) : D :=
  let c := mul4 a.r a.d b.r b.d
  ⟨c.1, c.2⟩

/-- tff.F90:2817-2821 `aa_tf_dual_add`. -/
def add (a b : D) : D := ⟨a.r + b.r, a.d + b.d⟩

/-- tff.F90:2823-2827 `aa_tf_dual_sub`. -/
def sub (a b : D) : D := ⟨a.r - b.r, a.d - b.d⟩

/-- tff.F90:2829-2833 `aa_tf_dual_div`. -/
def div (a b : D) : D := ⟨a.r / b.r, (a.d * b.r - a.r * b.d) / b.r ^ 2⟩

/-- tff.F90:2835-2839 `aa_tf_dual_sin`. -/
def sin (x : D) : D := ⟨Real.sin x.r, Real.cos x.r * x.d⟩

/-- tff.F90:2841-2845 `aa_tf_dual_cos`. -/
def cos (x : D) : D := ⟨Real.cos x.r, -Real.sin x.r * x.d⟩

/-- tff.F90:2847-2851 `aa_tf_dual_acos`. -/
def acos (x : D) : D := ⟨Real.arccos x.r, -x.d / Real.sqrt (1 - x.r ^ 2)⟩

/-- tff.F90:2853-2858 `aa_tf_dual_atan2`. -/
def atan2 (a b : D) : D := ⟨Tf.atan2 a.r b.r, (b.r * a.d - a.r * b.d) / (a.r ^ 2 + b.r ^ 2)⟩

/-- tff.F90:2860-2864 `aa_tf_dual_exp`. -/
def exp (x : D) : D := ⟨Real.exp x.r, Real.exp x.r * x.d⟩

/-- tff.F90:2866-2870 `aa_tf_dual_log`. -/
def log (x : D) : D := ⟨Real.log x.r, x.d / x.r⟩

/-- tff.F90:2873-2877 `aa_tf_dual_sqrt`. -/
def sqrt (x : D) : D := ⟨Real.sqrt x.r, x.d / (2 * Real.sqrt x.r)⟩

/-- tff.F90:2749-2761 `aa_tf_dual_pack2`, `aa_tf_dual_pack1`: the dual numbers `c(1:n)`, `n = size(x)/2`,
from an array. -/
def pack (x : List ℝ) : List D :=
  let n := x.length / 2
  List.zipWith D.mk (x.take n) ((x.drop n).take n)

/-- tff.F90:2763-2782 `aa_tf_dual_unpack`: what is stored to `x(1:2n)`, `n = size(c)`. -/
def unpack (c : List D) : List ℝ := c.map D.r ++ c.map D.d

/-- tff.F90:2792-2799, 2809-2815 `aa_tf_dual_scalv`, `aa_tf_dual_scal4`: the array afterwards. -/
def scalv (ar ad : ℝ) (x : List ℝ) : List ℝ :=
  let n := x.length / 2
  let y := List.zipWith (fun br bd => mul4 ar ad br bd) (x.take n) ((x.drop n).take n)
  y.map Prod.fst ++ y.map Prod.snd ++ x.drop (n + n)

/-- A program of the operators and functions (the generic interfaces of tff.F90:375-408), with the dual
numbers `x`. -/
inductive Expr
  | var (i : Nat)
  | const (a : ℝ)
  | add (a b : Expr) | sub (a b : Expr) | mul (a b : Expr) | div (a b : Expr)
  | sin (a : Expr) | cos (a : Expr) | acos (a : Expr) | atan2 (a b : Expr)
  | exp (a : Expr) | log (a : Expr) | sqrt (a : Expr)

/-- The evaluation of a program; a constant is the dual number `aa_tf_dual_t(a, 0)`. -/
def Expr.eval (x : Nat → D) : Expr → D
  | .var i => x i
  | .const a => ⟨a, 0⟩
  | .add a b => Dual.add (a.eval x) (b.eval x)
  | .sub a b => Dual.sub (a.eval x) (b.eval x)
  | .mul a b => Dual.mul (a.eval x) (b.eval x)
  | .div a b => Dual.div (a.eval x) (b.eval x)
  | .sin a => Dual.sin (a.eval x)
  | .cos a => Dual.cos (a.eval x)
  | .acos a => Dual.acos (a.eval x)
  | .atan2 a b => Dual.atan2 (a.eval x) (b.eval x)
  | .exp a => Dual.exp (a.eval x)
  | .log a => Dual.log (a.eval x)
  | .sqrt a => Dual.sqrt (a.eval x)

end

end Verif.Dual
