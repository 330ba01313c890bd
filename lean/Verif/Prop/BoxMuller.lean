import Verif.Model.Scalar
import Mathlib.Probability.Distributions.Gaussian.Real
import Mathlib.Analysis.SpecialFunctions.PolarCoord
import Mathlib.MeasureTheory.Function.JacobianOneDim
import Mathlib.MeasureTheory.Integral.IntervalIntegral.Periodic

/-!
# C75: the Box-Muller transform

Specification: the distribution of a pair is the image of a measure; independent standard normal
variables have the product of two Gaussian measures.
-/

namespace Verif.Scalar

open MeasureTheory Set ProbabilityTheory
open scoped ENNReal

/-- The uniform distribution on the unit interval `(0,1]`, as documented for the arguments. -/
noncomputable def uniform : Measure ℝ := volume.restrict (Ioc 0 1)

theorem uniform_eq : uniform = volume.restrict (Ioo 0 1) :=
  Measure.restrict_congr_set Ioo_ae_eq_Ioc.symm

/-- It is a probability measure. -/
example : IsProbabilityMeasure uniform := ⟨by simp [uniform]⟩

/-- The transform as a function of a pair. -/
noncomputable def bm (p : ℝ × ℝ) : ℝ × ℝ := boxMuller p.1 p.2

theorem bm_measurable : Measurable bm := by
  unfold bm boxMuller
  fun_prop

/-- Radius. -/
noncomputable def rad (r : ℝ) : ℝ := Real.exp (-r ^ 2 / 2)

theorem rad_image : rad '' Ioi 0 = Ioo 0 1 := by
  ext x
  constructor
  · rintro ⟨r, hr, rfl⟩
    refine ⟨Real.exp_pos _, ?_⟩
    rw [rad, Real.exp_lt_one_iff]
    have : 0 < r ^ 2 := pow_pos hr 2
    linarith
  · rintro ⟨h0, h1⟩
    have hl := Real.log_neg h0 h1
    refine ⟨Real.sqrt (-2 * Real.log x), Real.sqrt_pos.2 (by linarith), ?_⟩
    rw [rad, Real.sq_sqrt (by linarith)]
    rw [show -(-2 * Real.log x) / 2 = Real.log x by ring, Real.exp_log h0]

theorem rad_inv {r : ℝ} (hr : 0 < r) : Real.sqrt (-2 * Real.log (rad r)) = r := by
  rw [rad, Real.log_exp, show -2 * (-r ^ 2 / 2) = r ^ 2 by ring, Real.sqrt_sq hr.le]

theorem rad_inj : InjOn rad (Ioi 0) := by
  intro a ha b hb h
  rw [← rad_inv ha, h, rad_inv hb]

theorem rad_deriv (r : ℝ) : HasDerivAt rad (-(r * Real.exp (-r ^ 2 / 2))) r := by
  have h := (((hasDerivAt_id r).pow 2).neg.div_const 2).exp
  refine h.congr_deriv ?_
  simp; ring

/-- One turn of a function of the angle. -/
theorem turn (φ : ℝ → ℝ≥0∞) (hp : ∀ x, φ (x + 2 * Real.pi) = φ x) :
    ∫⁻ x in Ioo 0 1, φ (2 * Real.pi * x) =
      ENNReal.ofReal (1 / (2 * Real.pi)) * ∫⁻ t in Ioo (-Real.pi) Real.pi, φ t := by
  have hpi := Real.pi_pos
  have himg : (fun t : ℝ => t / (2 * Real.pi)) '' Ioo 0 (2 * Real.pi) = Ioo 0 1 := by
    ext x
    constructor
    · rintro ⟨t, ⟨h0, h1⟩, rfl⟩
      exact ⟨by positivity, by rw [div_lt_one (by positivity)]; exact h1⟩
    · rintro ⟨h0, h1⟩
      refine ⟨2 * Real.pi * x, ⟨by positivity, by nlinarith⟩, ?_⟩
      field_simp
  have hch := lintegral_image_eq_lintegral_abs_deriv_mul (s := Ioo 0 (2 * Real.pi))
    (f := fun t : ℝ => t / (2 * Real.pi)) (f' := fun _ => 1 / (2 * Real.pi)) measurableSet_Ioo
    (fun x _ => ((hasDerivAt_id x).div_const _).hasDerivWithinAt)
    (fun a _ b _ h => by field_simp at h; exact h) (fun x => φ (2 * Real.pi * x))
  rw [himg] at hch
  rw [hch, lintegral_const_mul']
  · rw [abs_of_pos (by positivity)]
    congr 1
    have e : ∀ t : ℝ, 2 * Real.pi * (t / (2 * Real.pi)) = t := by intro t; field_simp
    simp only [e]
    rw [setLIntegral_congr (Ioo_ae_eq_Ioc (μ := volume)), setLIntegral_congr (Ioo_ae_eq_Ioc (μ := volume) (a := -Real.pi))]
    have h1 := isAddFundamentalDomain_Ioc (T := 2 * Real.pi) (by positivity) 0 volume
    have h2 := isAddFundamentalDomain_Ioc (T := 2 * Real.pi) (by positivity) (-Real.pi) volume
    rw [zero_add] at h1
    rw [show -Real.pi + 2 * Real.pi = Real.pi by ring] at h2
    refine h1.setLIntegral_eq h2 φ ?_
    rintro ⟨g, hg⟩ x
    obtain ⟨k, rfl⟩ := AddSubgroup.mem_zmultiples_iff.1 hg
    have hper : Function.Periodic φ (2 * Real.pi) := hp
    have := (hper.zsmul k) x
    show φ (k • (2 * Real.pi) + x) = φ x
    rw [add_comm]; exact this
  · exact ENNReal.ofReal_ne_top

/-- **C75**, `aa_stat_box_muller`: two independent uniform variates become two independent standard
normal variates. -/
theorem C75_box_muller :
    (uniform.prod uniform).map bm = (gaussianReal 0 1).prod (gaussianReal 0 1) := by
  have hpi := Real.pi_pos
  refine Measure.ext_of_lintegral _ fun f hf => ?_
  rw [lintegral_map hf bm_measurable]
  -- left side: iterated, then in polar coordinates
  have hL : ∫⁻ p, f (bm p) ∂(uniform.prod uniform) =
      ∫⁻ r in Ioi 0, ENNReal.ofReal (r * Real.exp (-r ^ 2 / 2)) * (ENNReal.ofReal (1 / (2 * Real.pi)) *
        ∫⁻ t in Ioo (-Real.pi) Real.pi, f (r * Real.cos t, r * Real.sin t)) := by
    have : SFinite uniform := by unfold uniform; infer_instance
    rw [lintegral_prod _ (by exact (hf.comp bm_measurable).aemeasurable)]
    have hin : ∀ x, ∫⁻ y in Ioo (0 : ℝ) 1, f (bm (x, y)) = ENNReal.ofReal (1 / (2 * Real.pi)) *
        ∫⁻ t in Ioo (-Real.pi) Real.pi, f (Real.sqrt (-2 * Real.log x) * Real.cos t,
          Real.sqrt (-2 * Real.log x) * Real.sin t) := by
      intro x
      have := turn (fun t => f (Real.sqrt (-2 * Real.log x) * Real.cos t,
          Real.sqrt (-2 * Real.log x) * Real.sin t)) (by intro t; simp)
      rw [← this]
      refine lintegral_congr fun y => ?_
      simp only [bm, boxMuller]
      norm_num
    rw [uniform_eq]
    simp only [hin]
    have hch := lintegral_image_eq_lintegral_abs_deriv_mul (s := Ioi 0) (f := rad)
      (f' := fun r => -(r * Real.exp (-r ^ 2 / 2))) measurableSet_Ioi
      (fun x _ => (rad_deriv x).hasDerivWithinAt) rad_inj
      (fun x => ENNReal.ofReal (1 / (2 * Real.pi)) *
        ∫⁻ t in Ioo (-Real.pi) Real.pi, f (Real.sqrt (-2 * Real.log x) * Real.cos t,
          Real.sqrt (-2 * Real.log x) * Real.sin t))
    rw [rad_image] at hch
    rw [hch]
    refine setLIntegral_congr_fun measurableSet_Ioi fun r hr => ?_
    have hr : 0 < r := hr
    simp only [rad_inv hr]
    rw [abs_neg, abs_of_pos (by positivity)]
  rw [hL]
  -- right side
  rw [gaussianReal_of_var_ne_zero _ one_ne_zero, prod_withDensity (measurable_gaussianPDF 0 1)
    (measurable_gaussianPDF 0 1), ← Measure.volume_eq_prod]
  have hm : Measurable fun z : ℝ × ℝ => gaussianPDF 0 1 z.1 * gaussianPDF 0 1 z.2 := by fun_prop
  rw [lintegral_withDensity_eq_lintegral_mul _ hm hf, ← lintegral_comp_polarCoord_symm]
  have htarget : polarCoord.target = Ioi (0 : ℝ) ×ˢ Ioo (-Real.pi) Real.pi := rfl
  have hps : Measurable (polarCoord.symm : ℝ × ℝ → ℝ × ℝ) := by
    have : (polarCoord.symm : ℝ × ℝ → ℝ × ℝ) =
        fun p => (p.1 * Real.cos p.2, p.1 * Real.sin p.2) := rfl
    rw [this]
    fun_prop
  have hmeas : Measurable fun p : ℝ × ℝ => ENNReal.ofReal p.1 •
      ((fun z : ℝ × ℝ => gaussianPDF 0 1 z.1 * gaussianPDF 0 1 z.2) * f) (polarCoord.symm p) :=
    (ENNReal.measurable_ofReal.comp measurable_fst).smul ((hm.mul hf).comp hps)
  rw [htarget, Measure.volume_eq_prod, ← Measure.prod_restrict,
    lintegral_prod _ hmeas.aemeasurable]
  refine setLIntegral_congr_fun measurableSet_Ioi fun r hr => ?_
  have hr : 0 < r := hr
  have hpdf : ∀ t : ℝ, gaussianPDF 0 1 (r * Real.cos t) * gaussianPDF 0 1 (r * Real.sin t) =
      ENNReal.ofReal (1 / (2 * Real.pi) * Real.exp (-r ^ 2 / 2)) := by
    intro t
    rw [gaussianPDF, gaussianPDF, ← ENNReal.ofReal_mul (gaussianPDFReal_nonneg _ _ _)]
    congr 1
    simp only [gaussianPDFReal, NNReal.coe_one, mul_one, sub_zero]
    have hs : (Real.sqrt (2 * Real.pi))⁻¹ * (Real.sqrt (2 * Real.pi))⁻¹ = 1 / (2 * Real.pi) := by
      rw [← mul_inv, Real.mul_self_sqrt (by positivity), one_div]
    have he : Real.exp (-(r * Real.cos t) ^ 2 / 2) * Real.exp (-(r * Real.sin t) ^ 2 / 2) =
        Real.exp (-r ^ 2 / 2) := by
      rw [← Real.exp_add]
      congr 1
      have := Real.sin_sq_add_cos_sq t
      linear_combination (-r ^ 2 / 2) * this
    rw [← hs, ← he]; ring
  have hsymm : ∀ t : ℝ, polarCoord.symm (r, t) = (r * Real.cos t, r * Real.sin t) := fun t => rfl
  simp only [hsymm, Pi.mul_apply, hpdf]
  rw [← mul_assoc, ← lintegral_const_mul' _ _ (by
    exact ENNReal.mul_ne_top ENNReal.ofReal_ne_top ENNReal.ofReal_ne_top)]
  refine lintegral_congr fun t => ?_
  rw [smul_eq_mul, ← mul_assoc, ← ENNReal.ofReal_mul (by positivity), ← ENNReal.ofReal_mul hr.le]
  congr 2
  ring

end Verif.Scalar
