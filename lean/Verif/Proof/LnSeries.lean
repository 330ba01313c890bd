import Verif.Proof.LnDeriv

/-!
# The series branches of the logarithm's derivative

How far the coefficients used by `aa_tf_qln_jac`, `aa_tf_duqu_ln_jac` and `aa_tf_qduln` close to the
positive reals are from the exact ones.
-/

namespace Verif.Tf

open Real

/-- Angle form of the exact coefficients. -/
theorem coef_polar {q : Quat} (h : vnorm q.vec ≠ 0) :
    let n := qnorm q
    let x := qangle q
    0 < n ∧ 0 < x ∧ x < π ∧ 0 < sin x ∧ n * sin x = vnorm q.vec ∧ n * cos x = q.w ∧
      qqq q = n * n ∧ qvv q = (n * sin x) * (n * sin x) ∧
      lnEta q = x / sin x / n ∧
      lnZeta q = (sin x * cos x - x) / sin x ^ 3 / (n * n * n) ∧
      lnMu q = (-2 * (cos x * sin x ^ 3) - 3 * (sin x * cos x - x)) / sin x ^ 5 /
        (n * n * n * n * n) := by
  intro n x
  obtain ⟨np, hs, hc, p0, p1⟩ := polar (vnorm q.vec) q.w (vnorm_nonneg _) (Or.inl h)
  rw [vnorm_sq, qnorm_eq] at np hs hc
  have hq : qangle q = atan2 (vnorm q.vec) q.w := rfl
  rw [← hq] at hs hc p0 p1
  change 0 < n at np
  change n * sin x = vnorm q.vec at hs
  change n * cos x = q.w at hc
  change 0 ≤ x at p0
  change x ≤ π at p1
  have hsne : sin x ≠ 0 := by
    intro h0; rw [h0, mul_zero] at hs; exact h hs.symm
  have hx0 : 0 < x := lt_of_le_of_ne p0 (by rintro h0; rw [← h0] at hsne; simp at hsne)
  have hx1 : x < π := lt_of_le_of_ne p1 (by rintro h0; rw [h0] at hsne; simp at hsne)
  have hsp := sin_pos_of_pos_of_lt_pi hx0 hx1
  have e1 : qqq q = n * n := by
    rw [show n = sqrt (qqq q) from qnorm_qqq q, mul_self_sqrt]
    exact (qqq_pos (Or.inl h)).le
  have e2 : qvv q = (n * sin x) * (n * sin x) := by rw [hs, qvv_eq]
  have e3 : lnEta q = x / sin x / n := by
    rw [lnEta, ← hs]; show x / _ = _; field_simp
  have e4 : lnZeta q = (sin x * cos x - x) / sin x ^ 3 / (n * n * n) := by
    rw [lnZeta, e3, e1, e2, ← hc]; field_simp
  refine ⟨np, hx0, hx1, hsp, hs, hc, e1, e2, e3, e4, ?_⟩
  rw [lnMu, e4, e1, e2, ← hc]; field_simp

/-- The numbers compared with the exact coefficients. -/
noncomputable def etaS (q : Quat) : ℝ := invsincSeries2 (qangle q * qangle q) / qnorm q
noncomputable def zetaS (q : Quat) : ℝ :=
  horner3 (qangle q * qangle q) (-2 / 3) (-1 / 5) (-17 / 420) / (qqq q * qnorm q)
noncomputable def muS (q : Quat) : ℝ :=
  horner3 (qangle q * qangle q) (8 / 5) (4 / 7) (1 / 7) / (qqq q * qqq q * qnorm q)

theorem eta_series {x : ℝ} (h0 : 0 < x) (h1 : x ≤ 1 / 8) :
    |invsincSeries2 (x * x) - x / sin x| ≤ x ^ 6 := by
  have hh := Taylor.sin_half h0.le h1
  have hs : 0 < sin x := by linarith
  obtain ⟨a, b⟩ := Taylor.invsinc_series h0.le (by linarith)
  have e : invsincSeries2 (x * x) - x / sin x =
      ((1 + x * x * (1 / 6 + x * x * (7 / 360))) * sin x - x) / sin x := by
    rw [invsincSeries2, horner3]; field_simp
  rw [e, abs_div, abs_of_pos hs, div_le_iff₀ hs, abs_le]
  have : x ^ 7 / 2 ≤ x ^ 6 * sin x := by nlinarith [pow_pos h0 6]
  have := pow_pos h0 7
  constructor <;> linarith

theorem zeta_series {x : ℝ} (h0 : 0 < x) (h1 : x ≤ 1 / 8) :
    |horner3 (x * x) (-2 / 3) (-1 / 5) (-17 / 420) - (sin x * cos x - x) / sin x ^ 3| ≤
      20 * x ^ 2 := by
  have hh := Taylor.sin_half h0.le h1
  have hs : 0 < sin x := by linarith
  have hz := Taylor.zeta_bound h0.le
  have hz' : |(sin x * cos x - x) / sin x ^ 3 + 2 / 3| ≤ 16 * x ^ 2 := by
    have e : (sin x * cos x - x) / sin x ^ 3 + 2 / 3 =
        (sin x * cos x - x + 2 / 3 * sin x ^ 3) / sin x ^ 3 := by field_simp
    rw [e, abs_div, abs_of_pos (pow_pos hs 3), div_le_iff₀ (pow_pos hs 3)]
    refine hz.trans ?_
    have : (x / 2) ^ 3 ≤ sin x ^ 3 := pow_le_pow_left₀ (by linarith) hh 3
    have h2 := mul_le_mul_of_nonneg_left this (show 0 ≤ 16 * x ^ 2 by positivity)
    have e : 16 * x ^ 2 * (x / 2) ^ 3 = 2 * x ^ 5 := by ring
    linarith
  have hc : |horner3 (x * x) (-2 / 3) (-1 / 5) (-17 / 420) + 2 / 3| ≤ x ^ 2 := by
    have : x ^ 4 ≤ x ^ 2 := pow_le_pow_of_le_one h0.le (by linarith) (by norm_num)
    rw [horner3, abs_le]
    constructor <;> nlinarith [pow_pos h0 2, pow_pos h0 4]
  have := abs_sub_le (horner3 (x * x) (-2 / 3) (-1 / 5) (-17 / 420)) (-2 / 3)
    ((sin x * cos x - x) / sin x ^ 3)
  have e1 : horner3 (x * x) (-2 / 3) (-1 / 5) (-17 / 420) - -2 / 3 =
    horner3 (x * x) (-2 / 3) (-1 / 5) (-17 / 420) + 2 / 3 := by ring
  have e2 : |(-2 / 3 : ℝ) - (sin x * cos x - x) / sin x ^ 3| =
      |(sin x * cos x - x) / sin x ^ 3 + 2 / 3| := by
    rw [← abs_neg]; congr 1; ring
  rw [e1, e2] at this
  nlinarith [pow_pos h0 2]

theorem mu_series {x : ℝ} (h0 : 0 < x) (h1 : x ≤ 1 / 8) :
    |horner3 (x * x) (8 / 5) (4 / 7) (1 / 7) -
      (-2 * (cos x * sin x ^ 3) - 3 * (sin x * cos x - x)) / sin x ^ 5| ≤ 330 * x ^ 2 := by
  have hh := Taylor.sin_half h0.le h1
  have hs : 0 < sin x := by linarith
  have hz := Taylor.mu_bound h0.le
  have hz' : |(-2 * (cos x * sin x ^ 3) - 3 * (sin x * cos x - x)) / sin x ^ 5 - 8 / 5| ≤
      320 * x ^ 2 := by
    have e : (-2 * (cos x * sin x ^ 3) - 3 * (sin x * cos x - x)) / sin x ^ 5 - 8 / 5 =
        (-2 * (cos x * sin x ^ 3) - 3 * (sin x * cos x - x) - 8 / 5 * sin x ^ 5) / sin x ^ 5 := by
      field_simp
    rw [e, abs_div, abs_of_pos (pow_pos hs 5), div_le_iff₀ (pow_pos hs 5)]
    refine hz.trans ?_
    have : (x / 2) ^ 5 ≤ sin x ^ 5 := pow_le_pow_left₀ (by linarith) hh 5
    have h2 := mul_le_mul_of_nonneg_left this (show 0 ≤ 320 * x ^ 2 by positivity)
    have e : 320 * x ^ 2 * (x / 2) ^ 5 = 10 * x ^ 7 := by ring
    linarith
  have hc : |horner3 (x * x) (8 / 5) (4 / 7) (1 / 7) - 8 / 5| ≤ x ^ 2 := by
    have : x ^ 4 ≤ x ^ 2 := pow_le_pow_of_le_one h0.le (by linarith) (by norm_num)
    rw [horner3, abs_le]
    constructor <;> nlinarith [pow_pos h0 2, pow_pos h0 4]
  have := abs_sub_le (horner3 (x * x) (8 / 5) (4 / 7) (1 / 7)) (8 / 5)
    ((-2 * (cos x * sin x ^ 3) - 3 * (sin x * cos x - x)) / sin x ^ 5)
  rw [abs_sub_comm (8 / 5)] at this
  nlinarith [pow_pos h0 2]

/-- How far the series coefficients are from the exact ones, weighted as they enter the matrices. -/
theorem coef_close {q : Quat} (h : vnorm q.vec ≠ 0) (hx : qangle q < dblEpsilon) :
    |etaS q - lnEta q| ≤ 1 / 2 ^ 102 / qnorm q ∧
    qvv q * |zetaS q - lnZeta q| ≤ 1 / 2 ^ 102 / qnorm q ∧
    vnorm q.vec * |zetaS q - lnZeta q| ≤ 1 / 2 ^ 102 / qqq q ∧
    vnorm q.vec ^ 3 * |muS q - lnMu q| ≤ 1 / 2 ^ 102 / qqq q := by
  obtain ⟨np, x0, x1, sp, hs, hc, e1, e2, e3, e4, e5⟩ := coef_polar h
  rw [etaS, zetaS, muS, e3, e4, e5, e2, e1, ← hs]
  generalize qangle q = x at *
  generalize qnorm q = n at *
  have hxe : x < 1 / 2 ^ 52 := by rw [dblEpsilon] at hx; norm_num at *; exact hx
  have hx8 : x ≤ 1 / 8 := by norm_num at *; linarith
  have hsx : sin x ≤ x := sin_le x0.le
  have q1 := eta_series x0 hx8
  have q2 := zeta_series x0 hx8
  have q3 := mu_series x0 hx8
  have t2 : x ^ 2 ≤ (1 / 2 ^ 52) ^ 2 := pow_le_pow_left₀ x0.le hxe.le 2
  have t3 : x ^ 3 ≤ (1 / 2 ^ 52) ^ 3 := pow_le_pow_left₀ x0.le hxe.le 3
  have t4 : x ^ 4 ≤ (1 / 2 ^ 52) ^ 4 := pow_le_pow_left₀ x0.le hxe.le 4
  have t5 : x ^ 5 ≤ (1 / 2 ^ 52) ^ 5 := pow_le_pow_left₀ x0.le hxe.le 5
  have t6 : x ^ 6 ≤ (1 / 2 ^ 52) ^ 6 := pow_le_pow_left₀ x0.le hxe.le 6
  generalize hA : |invsincSeries2 (x * x) - x / sin x| = A at *
  generalize hB : |horner3 (x * x) (-2 / 3) (-1 / 5) (-17 / 420) -
    (sin x * cos x - x) / sin x ^ 3| = B at *
  generalize hC : |horner3 (x * x) (8 / 5) (4 / 7) (1 / 7) -
      (-2 * (cos x * sin x ^ 3) - 3 * (sin x * cos x - x)) / sin x ^ 5| = C at *
  have B0 : 0 ≤ B := hB ▸ abs_nonneg _
  have C0 : 0 ≤ C := hC ▸ abs_nonneg _
  have s1 : sin x * B ≤ 20 * x ^ 3 := by
    calc sin x * B ≤ x * (20 * x ^ 2) := mul_le_mul hsx q2 B0 x0.le
      _ = _ := by ring
  have s2 : sin x * (sin x * B) ≤ 20 * x ^ 4 := by
    calc sin x * (sin x * B) ≤ x * (20 * x ^ 3) := mul_le_mul hsx s1 (mul_nonneg sp.le B0) x0.le
      _ = _ := by ring
  have s3 : sin x ^ 3 * C ≤ 330 * x ^ 5 := by
    calc sin x ^ 3 * C ≤ x ^ 3 * (330 * x ^ 2) :=
          mul_le_mul (pow_le_pow_left₀ sp.le hsx 3) q3 C0 (by positivity)
      _ = _ := by ring
  refine ⟨?_, ?_, ?_, ?_⟩
  · rw [← sub_div, abs_div, hA, abs_of_pos np]
    apply div_le_div_of_nonneg_right _ np.le
    norm_num at *; linarith
  · rw [← sub_div, abs_div, hB, abs_of_pos (by positivity : 0 < n * n * n)]
    rw [show n * sin x * (n * sin x) * (B / (n * n * n)) = (sin x * (sin x * B)) / n by field_simp]
    apply div_le_div_of_nonneg_right _ np.le
    norm_num at *; linarith
  · rw [← sub_div, abs_div, hB, abs_of_pos (by positivity : 0 < n * n * n)]
    rw [show n * sin x * (B / (n * n * n)) = (sin x * B) / (n * n) by field_simp]
    apply div_le_div_of_nonneg_right _ (by positivity)
    norm_num at *; linarith
  · rw [show n * n * (n * n) * n = n * n * n * n * n by ring, ← sub_div, abs_div, hC,
      abs_of_pos (by positivity : 0 < n * n * n * n * n)]
    rw [show (n * sin x) ^ 3 * (C / (n * n * n * n * n)) = (sin x ^ 3 * C) / (n * n) by field_simp]
    apply div_le_div_of_nonneg_right _ (by positivity)
    norm_num at *; linarith

end Verif.Tf
