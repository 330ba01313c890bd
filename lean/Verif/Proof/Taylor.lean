import Mathlib.Analysis.SpecialFunctions.Trigonometric.Deriv
import Mathlib.Analysis.Calculus.MeanValue
import Mathlib.Analysis.SpecialFunctions.Trigonometric.Bounds

/-!
# Taylor bounds for sine and cosine on the nonnegative half line
-/

namespace Verif.Taylor

open Real

/-- a function vanishing at zero with nonnegative derivative on `[0,∞)` is nonnegative there. -/
theorem nonneg_of_deriv {f f' : ℝ → ℝ} (h0 : f 0 = 0) (hd : ∀ x, HasDerivAt f (f' x) x)
    (hn : ∀ x, 0 ≤ x → 0 ≤ f' x) {x : ℝ} (hx : 0 ≤ x) : 0 ≤ f x := by
  have hm : MonotoneOn f (Set.Ici 0) := by
    apply monotoneOn_of_deriv_nonneg (convex_Ici 0)
    · exact fun y _ => (hd y).continuousAt.continuousWithinAt
    · exact fun y _ => (hd y).differentiableAt.differentiableWithinAt
    · intro y hy
      rw [interior_Ici] at hy
      rw [(hd y).deriv]
      exact hn y (le_of_lt hy)
  have := hm (Set.mem_Ici.2 le_rfl) (Set.mem_Ici.2 hx) hx
  rwa [h0] at this

theorem cos_le0 {x : ℝ} (_ : 0 ≤ x) : cos x ≤ 1 := cos_le_one x

theorem sin_le1 {x : ℝ} (hx : 0 ≤ x) : sin x ≤ x := by
  have := nonneg_of_deriv (f := fun x => (x) - sin x)
    (f' := fun x => (1) - cos x) (by simp) ?_
    (fun y hy => by have := cos_le0 hy; linarith) hx
  · linarith
  · intro x
    refine ((hasDerivAt_id x).sub (hasDerivAt_sin x)).congr_deriv ?_
    push_cast; ring

theorem cos_ge2 {x : ℝ} (hx : 0 ≤ x) : 1 - x ^ 2 / 2 ≤ cos x := by
  have := nonneg_of_deriv (f := fun x => cos x - (1 - x ^ 2 / 2))
    (f' := fun x => -sin x + (x)) (by simp) ?_
    (fun y hy => by have := sin_le1 hy; linarith) hx
  · linarith
  · intro x
    refine ((hasDerivAt_cos x).sub ((hasDerivAt_const x (1 : ℝ)).sub ((hasDerivAt_pow 2 x).div_const 2))).congr_deriv ?_
    push_cast; ring

theorem sin_ge3 {x : ℝ} (hx : 0 ≤ x) : x - x ^ 3 / 6 ≤ sin x := by
  have := nonneg_of_deriv (f := fun x => sin x - (x - x ^ 3 / 6))
    (f' := fun x => cos x - (1 - x ^ 2 / 2)) (by simp) ?_
    (fun y hy => by have := cos_ge2 hy; linarith) hx
  · linarith
  · intro x
    refine ((hasDerivAt_sin x).sub ((hasDerivAt_id x).sub ((hasDerivAt_pow 3 x).div_const 6))).congr_deriv ?_
    push_cast; ring

theorem cos_le4 {x : ℝ} (hx : 0 ≤ x) : cos x ≤ 1 - x ^ 2 / 2 + x ^ 4 / 24 := by
  have := nonneg_of_deriv (f := fun x => (1 - x ^ 2 / 2 + x ^ 4 / 24) - cos x)
    (f' := fun x => -(x - x ^ 3 / 6) + sin x) (by simp) ?_
    (fun y hy => by have := sin_ge3 hy; linarith) hx
  · linarith
  · intro x
    refine ((((hasDerivAt_const x (1 : ℝ)).sub ((hasDerivAt_pow 2 x).div_const 2)).add ((hasDerivAt_pow 4 x).div_const 24)).sub (hasDerivAt_cos x)).congr_deriv ?_
    push_cast; ring

theorem sin_le5 {x : ℝ} (hx : 0 ≤ x) : sin x ≤ x - x ^ 3 / 6 + x ^ 5 / 120 := by
  have := nonneg_of_deriv (f := fun x => (x - x ^ 3 / 6 + x ^ 5 / 120) - sin x)
    (f' := fun x => (1 - x ^ 2 / 2 + x ^ 4 / 24) - cos x) (by simp) ?_
    (fun y hy => by have := cos_le4 hy; linarith) hx
  · linarith
  · intro x
    refine ((((hasDerivAt_id x).sub ((hasDerivAt_pow 3 x).div_const 6)).add ((hasDerivAt_pow 5 x).div_const 120)).sub (hasDerivAt_sin x)).congr_deriv ?_
    push_cast; ring

theorem cos_ge6 {x : ℝ} (hx : 0 ≤ x) : 1 - x ^ 2 / 2 + x ^ 4 / 24 - x ^ 6 / 720 ≤ cos x := by
  have := nonneg_of_deriv (f := fun x => cos x - (1 - x ^ 2 / 2 + x ^ 4 / 24 - x ^ 6 / 720))
    (f' := fun x => -sin x + (x - x ^ 3 / 6 + x ^ 5 / 120)) (by simp) ?_
    (fun y hy => by have := sin_le5 hy; linarith) hx
  · linarith
  · intro x
    refine ((hasDerivAt_cos x).sub ((((hasDerivAt_const x (1 : ℝ)).sub ((hasDerivAt_pow 2 x).div_const 2)).add ((hasDerivAt_pow 4 x).div_const 24)).sub ((hasDerivAt_pow 6 x).div_const 720))).congr_deriv ?_
    push_cast; ring

theorem sin_ge7 {x : ℝ} (hx : 0 ≤ x) : x - x ^ 3 / 6 + x ^ 5 / 120 - x ^ 7 / 5040 ≤ sin x := by
  have := nonneg_of_deriv (f := fun x => sin x - (x - x ^ 3 / 6 + x ^ 5 / 120 - x ^ 7 / 5040))
    (f' := fun x => cos x - (1 - x ^ 2 / 2 + x ^ 4 / 24 - x ^ 6 / 720)) (by simp) ?_
    (fun y hy => by have := cos_ge6 hy; linarith) hx
  · linarith
  · intro x
    refine ((hasDerivAt_sin x).sub ((((hasDerivAt_id x).sub ((hasDerivAt_pow 3 x).div_const 6)).add ((hasDerivAt_pow 5 x).div_const 120)).sub ((hasDerivAt_pow 7 x).div_const 5040))).congr_deriv ?_
    push_cast; ring

theorem cos_le8 {x : ℝ} (hx : 0 ≤ x) : cos x ≤ 1 - x ^ 2 / 2 + x ^ 4 / 24 - x ^ 6 / 720 + x ^ 8 / 40320 := by
  have := nonneg_of_deriv (f := fun x => (1 - x ^ 2 / 2 + x ^ 4 / 24 - x ^ 6 / 720 + x ^ 8 / 40320) - cos x)
    (f' := fun x => -(x - x ^ 3 / 6 + x ^ 5 / 120 - x ^ 7 / 5040) + sin x) (by simp) ?_
    (fun y hy => by have := sin_ge7 hy; linarith) hx
  · linarith
  · intro x
    refine ((((((hasDerivAt_const x (1 : ℝ)).sub ((hasDerivAt_pow 2 x).div_const 2)).add ((hasDerivAt_pow 4 x).div_const 24)).sub ((hasDerivAt_pow 6 x).div_const 720)).add ((hasDerivAt_pow 8 x).div_const 40320)).sub (hasDerivAt_cos x)).congr_deriv ?_
    push_cast; ring

theorem sin_le9 {x : ℝ} (hx : 0 ≤ x) : sin x ≤ x - x ^ 3 / 6 + x ^ 5 / 120 - x ^ 7 / 5040 + x ^ 9 / 362880 := by
  have := nonneg_of_deriv (f := fun x => (x - x ^ 3 / 6 + x ^ 5 / 120 - x ^ 7 / 5040 + x ^ 9 / 362880) - sin x)
    (f' := fun x => (1 - x ^ 2 / 2 + x ^ 4 / 24 - x ^ 6 / 720 + x ^ 8 / 40320) - cos x) (by simp) ?_
    (fun y hy => by have := cos_le8 hy; linarith) hx
  · linarith
  · intro x
    refine ((((((hasDerivAt_id x).sub ((hasDerivAt_pow 3 x).div_const 6)).add ((hasDerivAt_pow 5 x).div_const 120)).sub ((hasDerivAt_pow 7 x).div_const 5040)).add ((hasDerivAt_pow 9 x).div_const 362880)).sub (hasDerivAt_sin x)).congr_deriv ?_
    push_cast; ring

theorem cos_ge10 {x : ℝ} (hx : 0 ≤ x) : 1 - x ^ 2 / 2 + x ^ 4 / 24 - x ^ 6 / 720 + x ^ 8 / 40320 - x ^ 10 / 3628800 ≤ cos x := by
  have := nonneg_of_deriv (f := fun x => cos x - (1 - x ^ 2 / 2 + x ^ 4 / 24 - x ^ 6 / 720 + x ^ 8 / 40320 - x ^ 10 / 3628800))
    (f' := fun x => -sin x + (x - x ^ 3 / 6 + x ^ 5 / 120 - x ^ 7 / 5040 + x ^ 9 / 362880)) (by simp) ?_
    (fun y hy => by have := sin_le9 hy; linarith) hx
  · linarith
  · intro x
    refine ((hasDerivAt_cos x).sub ((((((hasDerivAt_const x (1 : ℝ)).sub ((hasDerivAt_pow 2 x).div_const 2)).add ((hasDerivAt_pow 4 x).div_const 24)).sub ((hasDerivAt_pow 6 x).div_const 720)).add ((hasDerivAt_pow 8 x).div_const 40320)).sub ((hasDerivAt_pow 10 x).div_const 3628800))).congr_deriv ?_
    push_cast; ring

theorem sin_ge11 {x : ℝ} (hx : 0 ≤ x) : x - x ^ 3 / 6 + x ^ 5 / 120 - x ^ 7 / 5040 + x ^ 9 / 362880 - x ^ 11 / 39916800 ≤ sin x := by
  have := nonneg_of_deriv (f := fun x => sin x - (x - x ^ 3 / 6 + x ^ 5 / 120 - x ^ 7 / 5040 + x ^ 9 / 362880 - x ^ 11 / 39916800))
    (f' := fun x => cos x - (1 - x ^ 2 / 2 + x ^ 4 / 24 - x ^ 6 / 720 + x ^ 8 / 40320 - x ^ 10 / 3628800)) (by simp) ?_
    (fun y hy => by have := cos_ge10 hy; linarith) hx
  · linarith
  · intro x
    refine ((hasDerivAt_sin x).sub ((((((hasDerivAt_id x).sub ((hasDerivAt_pow 3 x).div_const 6)).add ((hasDerivAt_pow 5 x).div_const 120)).sub ((hasDerivAt_pow 7 x).div_const 5040)).add ((hasDerivAt_pow 9 x).div_const 362880)).sub ((hasDerivAt_pow 11 x).div_const 39916800))).congr_deriv ?_
    push_cast; ring

/-! ## The quadratic-in-`x²` series used by the code -/

/-- the three-term series of `sin x / x`, times `x`. -/
theorem sinc_series {x : ℝ} (hx : 0 ≤ x) :
    sin x ≤ (1 + x * x * (-1 / 6 + x * x * (1 / 120))) * x ∧
    (1 + x * x * (-1 / 6 + x * x * (1 / 120))) * x - x ^ 7 / 5040 ≤ sin x := by
  have h5 := sin_le5 hx
  have h7 := sin_ge7 hx
  constructor
  · nlinarith
  · nlinarith

/-- the three-term series of cosine. -/
theorem cos_series {x : ℝ} (hx : 0 ≤ x) :
    cos x ≤ 1 + x * x * (-1 / 2 + x * x * (1 / 24)) ∧
    1 + x * x * (-1 / 2 + x * x * (1 / 24)) - x ^ 6 / 720 ≤ cos x := by
  have h5 := cos_le4 hx
  have h7 := cos_ge6 hx
  constructor
  · nlinarith
  · nlinarith

/-- the three-term series of `x / sin x`, times `sin x`. -/
theorem invsinc_series {x : ℝ} (hx : 0 ≤ x) (h1 : x ≤ 1) :
    (1 + x * x * (1 / 6 + x * x * (7 / 360))) * sin x ≤ x ∧
    x - x ^ 7 / 400 ≤ (1 + x * x * (1 / 6 + x * x * (7 / 360))) * sin x := by
  obtain ⟨hu, hl⟩ := sinc_series hx
  have hP : 0 ≤ 1 + x * x * (1 / 6 + x * x * (7 / 360)) := by positivity
  have x7 : 0 ≤ x ^ 7 := by positivity
  have x2 : x ^ 2 ≤ 1 := by nlinarith
  constructor
  · refine (mul_le_mul_of_nonneg_left hu hP).trans ?_
    have : x ^ 7 * x ^ 2 ≤ x ^ 7 := by nlinarith
    nlinarith
  · refine le_trans ?_ (mul_le_mul_of_nonneg_left hl hP)
    have : x ^ 7 * x ^ 2 ≤ x ^ 7 := by nlinarith
    have x9 : 0 ≤ x ^ 7 * x ^ 2 := by positivity
    have : x ^ 7 * x ^ 4 ≤ x ^ 7 := by
      have : x ^ 4 ≤ 1 := by nlinarith [sq_nonneg (x ^ 2)]
      nlinarith
    nlinarith

/-! ## Coefficients of the derivatives of exponential and logarithm -/

theorem sin_mul_cos (x : ℝ) : sin x * cos x = sin (2 * x) / 2 := by rw [sin_two_mul]; ring

theorem sin_cube (x : ℝ) : sin x ^ 3 = (3 * sin x - sin (3 * x)) / 4 := by
  rw [sin_three_mul]; ring

theorem cos_sin_cube (x : ℝ) : cos x * sin x ^ 3 = (2 * sin (2 * x) - sin (4 * x)) / 8 := by
  have h1 : sin (4 * x) = 2 * sin (2 * x) * cos (2 * x) := by rw [← sin_two_mul]; ring_nf
  rw [h1, sin_two_mul, cos_two_mul']
  have := sin_sq_add_cos_sq x
  linear_combination (sin x * cos x / 2) * this

theorem sin_fifth (x : ℝ) :
    sin x ^ 5 = (10 * sin x - 5 * sin (3 * x) + sin (5 * x)) / 16 := by
  have h1 : sin (5 * x) = sin (3 * x) * cos (2 * x) + cos (3 * x) * sin (2 * x) := by
    rw [← sin_add]; ring_nf
  rw [h1, sin_two_mul, cos_two_mul', sin_three_mul, cos_three_mul]
  have h := sin_sq_add_cos_sq x
  have hc : cos x ^ 2 = 1 - sin x ^ 2 := by linarith
  have hc4 : cos x ^ 4 = (1 - sin x ^ 2) ^ 2 := by rw [← hc]; ring
  ring_nf
  rw [hc4, hc]
  ring

theorem zeta_bound {x : ℝ} (h0 : 0 ≤ x) :
    |sin x * cos x - x + 2 / 3 * sin x ^ 3| ≤ 2 * x ^ 5 := by
  rw [sin_mul_cos, sin_cube]
  have a1 := sin_le5 (x := 2 * x) (by linarith)
  have a2 := sin_ge3 (x := 2 * x) (by linarith)
  have b1 := sin_le5 h0
  have b2 := sin_ge3 h0
  have c1 := sin_le5 (x := 3 * x) (by linarith)
  have c2 := sin_ge3 (x := 3 * x) (by linarith)
  have := pow_nonneg h0 5
  rw [abs_le]; constructor <;> linarith

theorem mu_bound {x : ℝ} (h0 : 0 ≤ x) :
    |-2 * (cos x * sin x ^ 3) - 3 * (sin x * cos x - x) - 8 / 5 * sin x ^ 5| ≤ 10 * x ^ 7 := by
  rw [sin_mul_cos, cos_sin_cube, sin_fifth]
  have a1 := sin_le5 (x := 2 * x) (by linarith)
  have a2 := sin_ge7 (x := 2 * x) (by linarith)
  have b1 := sin_le5 h0
  have b2 := sin_ge7 h0
  have c1 := sin_le5 (x := 3 * x) (by linarith)
  have c2 := sin_ge7 (x := 3 * x) (by linarith)
  have d1 := sin_le5 (x := 4 * x) (by linarith)
  have d2 := sin_ge7 (x := 4 * x) (by linarith)
  have e1 := sin_le5 (x := 5 * x) (by linarith)
  have e2 := sin_ge7 (x := 5 * x) (by linarith)
  have := pow_nonneg h0 7
  rw [abs_le]; constructor <;> linarith

theorem beta_bound {x : ℝ} (h0 : 0 ≤ x) :
    |x * cos x - sin x + sin x ^ 3 / 3| ≤ x ^ 5 := by
  rw [sin_cube]
  have a1 := mul_le_mul_of_nonneg_left (cos_le4 h0) h0
  have a2 := mul_le_mul_of_nonneg_left (cos_ge2 h0) h0
  have b1 := sin_le5 h0
  have b2 := sin_ge3 h0
  have c1 := sin_le5 (x := 3 * x) (by linarith)
  have c2 := sin_ge3 (x := 3 * x) (by linarith)
  have := pow_nonneg h0 5
  rw [abs_le]; constructor <;> linarith

theorem sin_half {x : ℝ} (h0 : 0 ≤ x) (h1 : x ≤ 1 / 8) : x / 2 ≤ sin x := by
  have := sin_ge3 h0
  nlinarith [mul_nonneg h0 h0, mul_nonneg h0 (mul_nonneg h0 h0)]

/-- `(cos x - sin x / x) / x²`, the coefficient in the derivative of the exponential. -/
theorem dexp_bound {x : ℝ} (h0 : 0 ≤ x) :
    |x * cos x - sin x - x ^ 3 * (-1 / 3 + x ^ 2 / 30 - x ^ 4 / 840)| ≤ x ^ 9 / 40320 := by
  have a1 := mul_le_mul_of_nonneg_left (cos_le8 h0) h0
  have a2 := mul_le_mul_of_nonneg_left (cos_ge6 h0) h0
  have b1 := sin_le9 h0
  have b2 := sin_ge7 h0
  have := pow_nonneg h0 9
  rw [abs_le]; constructor <;> linarith

end Verif.Taylor
