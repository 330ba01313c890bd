import Verif.Prop.LnJac
import Mathlib.Analysis.SpecialFunctions.Exponential

/-!
# C67, continued: derivatives of the exponential of a pure and the logarithm of a unit quaternion
-/

namespace Verif.Tf

open Quaternion NormedSpace

/-! ## The exponential -/

/-- The shape both routines return: `sc * de + a * (e·de) * e` and `-(e·de) * sc`. -/
def expForm (e de : V3) (sc a : ℝ) : Quat :=
  let dd := vdot e de
  ⟨sc * de.x + a * dd * e.x, sc * de.y + a * dd * e.y, sc * de.z + a * dd * e.z, -dd * sc⟩

theorem qdpexp_form (e de : V3) : qdpexp e de =
    if vnorm e < 1 / 2 ^ 13 then
      expForm e de (sincSeries (vnorm e)) (horner3 (vdot e e) (-1 / 3) (1 / 30) (-1 / 840))
    else expForm e de (Real.sin (vnorm e) / vnorm e)
      (Real.cos (vnorm e) / (vnorm e * vnorm e) -
        Real.sin (vnorm e) / (vnorm e * vnorm e * vnorm e)) := by
  unfold qdpexp
  rw [sqrt_sqrt_eps]
  by_cases h : vnorm e < 1 / 2 ^ 13
  · have h' : Real.sqrt (vdot e e) < 1 / 2 ^ 13 := h
    simp only [if_pos h, if_pos h']
    rfl
  · have h' : ¬Real.sqrt (vdot e e) < 1 / 2 ^ 13 := h
    simp only [if_neg h, if_neg h']
    rfl

theorem qdpexpj_form (e de : V3) : qdpexpj e de =
    if vdot e e < dblEpsilon then
      expForm e de (sincSeries2 (vdot e e)) (horner3 (vdot e e) (-1 / 3) (1 / 30) (-1 / 840))
    else expForm e de (Real.sin (vnorm e) / vnorm e)
      ((Real.cos (vnorm e) - Real.sin (vnorm e) / vnorm e) / vdot e e) := by
  have key : ∀ sc a : ℝ, gemv43 (![![a * e.x * e.x + sc, a * e.x * e.y, a * e.x * e.z],
      ![a * e.x * e.y, a * e.y * e.y + sc, a * e.y * e.z],
      ![a * e.x * e.z, a * e.y * e.z, a * e.z * e.z + sc],
      ![-sc * e.x, -sc * e.y, -sc * e.z]]) de = expForm e de sc a := by
    intro sc a
    ext <;> simp [gemv43, expForm, vdot] <;> ring
  unfold qdpexpj qjpexp
  by_cases h : vdot e e < dblEpsilon
  · simp only [if_pos h]
    exact key _ _
  · simp only [if_neg h]
    exact key _ _

/-- The derivative of the exponential where its argument does not vanish. -/
theorem hasDeriv_exp {E : ℝ → V3} {de : V3} {t : ℝ} (h : V3.HasDeriv E de t)
    (h0 : vnorm (E t) ≠ 0) :
    HasDerivAt (fun s => exp (E s).pure)
      (expForm (E t) de (Real.sin (vnorm (E t)) / vnorm (E t))
        ((Real.cos (vnorm (E t)) - Real.sin (vnorm (E t)) / vnorm (E t)) / vdot (E t) (E t))).den
      t := by
  have hl : Quat.HasDeriv (fun s => (⟨(E s).x, (E s).y, (E s).z, 0⟩ : Quat))
      ⟨de.x, de.y, de.z, 0⟩ t := by
    obtain ⟨a, b, c⟩ := V3.hasDeriv_iff.1 h
    exact Quat.hasDeriv_iff.2 ⟨a, b, c, hasDerivAt_const _ _⟩
  have hn := hasDerivAt_vnorm hl h0
  have hn : HasDerivAt (fun s => vnorm (E s)) (vdot (E t) de / vnorm (E t)) t := hn
  have hsq := vnorm_sq (E t)
  have hsc := hn.sin.div hn h0
  obtain ⟨hx, hy, hz⟩ := V3.hasDeriv_iff.1 h
  have hp : Quat.HasDeriv (fun s => (⟨Real.sin (vnorm (E s)) / vnorm (E s) * (E s).x,
      Real.sin (vnorm (E s)) / vnorm (E s) * (E s).y,
      Real.sin (vnorm (E s)) / vnorm (E s) * (E s).z, Real.cos (vnorm (E s))⟩ : Quat))
      (expForm (E t) de (Real.sin (vnorm (E t)) / vnorm (E t))
        ((Real.cos (vnorm (E t)) - Real.sin (vnorm (E t)) / vnorm (E t)) / vdot (E t) (E t))) t := by
    rw [← hsq]
    refine Quat.hasDeriv_iff.2 ⟨(hsc.mul hx).congr_deriv ?_, (hsc.mul hy).congr_deriv ?_,
      (hsc.mul hz).congr_deriv ?_, hn.cos.congr_deriv ?_⟩
    · simp only [expForm, Pi.div_apply]; field_simp; ring
    · simp only [expForm, Pi.div_apply]; field_simp; ring
    · simp only [expForm, Pi.div_apply]; field_simp; ring
    · simp only [expForm]; field_simp
  refine HasDerivAt.congr_of_eventuallyEq hp (Filter.Eventually.of_forall fun s => ?_)
  show exp (E s).pure = _
  rw [exp_pure]
  ext <;> simp

/-- The derivative of the exponential at 0. -/
theorem hasDeriv_exp_zero {E : ℝ → V3} {de : V3} {t : ℝ} (h : V3.HasDeriv E de t)
    (h0 : vnorm (E t) = 0) (a : ℝ) :
    HasDerivAt (fun s => exp (E s).pure) (expForm (E t) de 1 a).den t := by
  have he : (E t).pure = 0 := by rw [← norm_eq_zero, norm_pure, h0]
  have hz : (E t).x = 0 ∧ (E t).y = 0 ∧ (E t).z = 0 := by
    refine ⟨?_, ?_, ?_⟩
    · simpa using congrArg (fun q : ℍ[ℝ] => q.imI) he
    · simpa using congrArg (fun q : ℍ[ℝ] => q.imJ) he
    · simpa using congrArg (fun q : ℍ[ℝ] => q.imK) he
  have hf : HasFDerivAt (exp : ℍ[ℝ] → ℍ[ℝ]) (1 : ℍ[ℝ] →L[ℝ] ℍ[ℝ]) ((E t).pure) := by
    rw [he]; exact hasFDerivAt_exp_zero
  have := hf.comp_hasDerivAt t h
  refine this.congr_deriv ?_
  obtain ⟨z1, z2, z3⟩ := hz
  show de.pure = _
  ext <;> simp [expForm, vdot, z1, z2, z3]

theorem expForm_close (e de : V3) (sc sc' a a' : ℝ) :
    ‖(expForm e de sc a).den - (expForm e de sc' a').den‖ ≤
      |sc - sc'| * vnorm de * (1 + vnorm e) + |a - a'| * (vnorm e * vnorm e) * vnorm de := by
  have hd : (expForm e de sc a).den - (expForm e de sc' a').den =
      (sc - sc') • de.pure + ((a - a') * vdot e de) • e.pure +
        ((-(vdot e de) * (sc - sc') : ℝ) : ℍ[ℝ]) := by
    ext <;> simp [expForm] <;> ring
  rw [hd]
  refine (norm_add₃_le).trans ?_
  rw [norm_smul, norm_smul, norm_pure, norm_pure, Quaternion.norm_coe, Real.norm_eq_abs,
    Real.norm_eq_abs, Real.norm_eq_abs, abs_mul, abs_mul, abs_neg]
  have hg := abs_vdot_le e de
  have h1 := mul_le_mul_of_nonneg_right hg (abs_nonneg (sc - sc'))
  have h2 := mul_le_mul_of_nonneg_right (mul_le_mul_of_nonneg_left hg (abs_nonneg (a - a')))
    (vnorm_nonneg e)
  nlinarith

/-- Series coefficients of the exponential's derivative for small angles. -/
theorem expSeries_close {x : ℝ} (h0 : 0 < x) (h1 : x ≤ 1 / 2 ^ 13) :
    |sincSeries2 (x * x) - Real.sin x / x| ≤ 1 / 2 ^ 88 ∧
    |horner3 (x * x) (-1 / 3) (1 / 30) (-1 / 840) - (Real.cos x - Real.sin x / x) / (x * x)| *
      (x * x) ≤ 1 / 2 ^ 88 := by
  have p6 : x ^ 6 ≤ (1 / 2 ^ 13) ^ 6 := pow_le_pow_left₀ h0.le h1 6
  have p8 : x ^ 8 ≤ (1 / 2 ^ 13) ^ 8 := pow_le_pow_left₀ h0.le h1 8
  constructor
  · obtain ⟨hu, hl⟩ := Taylor.sinc_series h0.le
    have e : sincSeries2 (x * x) - Real.sin x / x =
        ((1 + x * x * (-1 / 6 + x * x * (1 / 120))) * x - Real.sin x) / x := by
      simp only [sincSeries2, horner3]; field_simp
    rw [e, abs_of_nonneg (div_nonneg (by linarith) h0.le), div_le_iff₀ h0]
    have : x ^ 7 / 5040 ≤ 1 / 2 ^ 88 * x := by
      rw [show x ^ 7 / 5040 = x ^ 6 / 5040 * x by ring]
      apply mul_le_mul_of_nonneg_right _ h0.le
      norm_num at p6 ⊢
      linarith
    linarith
  · have hb := Taylor.dexp_bound h0.le
    have e : (horner3 (x * x) (-1 / 3) (1 / 30) (-1 / 840) -
        (Real.cos x - Real.sin x / x) / (x * x)) =
        -(x * Real.cos x - Real.sin x - x ^ 3 * (-1 / 3 + x ^ 2 / 30 - x ^ 4 / 840)) / x ^ 3 := by
      simp only [horner3]; field_simp; ring
    rw [e, abs_div, abs_neg, abs_of_pos (pow_pos h0 3), div_mul_eq_mul_div,
      div_le_iff₀ (pow_pos h0 3)]
    refine (mul_le_mul_of_nonneg_right hb (by positivity)).trans ?_
    rw [show x ^ 9 / 40320 * (x * x) = x ^ 8 / 40320 * x ^ 3 by ring]
    apply mul_le_mul_of_nonneg_right _ (by positivity)
    norm_num at p8 ⊢
    linarith

/-- Common statement for the two routines: the value is within `δ * |de|` of the derivative. -/
def DExpSpec (f : V3 → V3 → Quat) (thr δ : ℝ) : Prop :=
  ∀ (E : ℝ → V3) (de : V3) (t : ℝ), V3.HasDeriv E de t →
    ∃ D, HasDerivAt (fun s => exp (E s).pure) D t ∧
      ‖(f (E t) de).den - D‖ ≤ δ * vnorm de ∧
      (thr ≤ vnorm (E t) ∨ vnorm (E t) = 0 → D = (f (E t) de).den)

theorem expForm_small (e de : V3) (h0 : vnorm e ≠ 0) (h1 : vnorm e ≤ 1 / 2 ^ 13) :
    ‖(expForm e de (sincSeries2 (vdot e e)) (horner3 (vdot e e) (-1 / 3) (1 / 30) (-1 / 840))).den -
      (expForm e de (Real.sin (vnorm e) / vnorm e)
        ((Real.cos (vnorm e) - Real.sin (vnorm e) / vnorm e) / vdot e e)).den‖ ≤
      1 / 2 ^ 80 * vnorm de := by
  have p : 0 < vnorm e := lt_of_le_of_ne (vnorm_nonneg _) (Ne.symm h0)
  refine (expForm_close e de _ _ _ _).trans ?_
  obtain ⟨a1, a2⟩ := expSeries_close p h1
  rw [vnorm_sq] at a1 a2
  rw [vnorm_sq]
  have d0 := vnorm_nonneg de
  have hA := mul_le_mul_of_nonneg_right a1 d0
  have hB := mul_le_mul_of_nonneg_right a2 d0
  have : |sincSeries2 (vdot e e) - Real.sin (vnorm e) / vnorm e| * vnorm de * (1 + vnorm e) ≤
      1 / 2 ^ 88 * vnorm de * 2 := by
    refine mul_le_mul hA ?_ (by linarith) (by positivity)
    have : (1 : ℝ) / 2 ^ 13 ≤ 1 := by norm_num
    linarith
  have h3 : (1 / 2 ^ 88 * 2 + 1 / 2 ^ 88 : ℝ) * vnorm de ≤ 1 / 2 ^ 80 * vnorm de :=
    mul_le_mul_of_nonneg_right (by norm_num) d0
  linarith

/-- **C67** (partial: within `2^-80 |de|` instead of exact when `0 < |e| < 2^-13`): `aa_tf_qdpexp`
is the derivative of the exponential of a pure quaternion. -/
theorem C67_qdpexp_partial : DExpSpec qdpexp (1 / 2 ^ 13) (1 / 2 ^ 80) := by
  intro E de t h
  rw [qdpexp_form]
  have d0 := vnorm_nonneg de
  by_cases h0 : vnorm (E t) = 0
  · refine ⟨_, hasDeriv_exp_zero h h0
      (horner3 (vdot (E t) (E t)) (-1 / 3) (1 / 30) (-1 / 840)), ?_, fun _ => ?_⟩
    all_goals
      rw [if_pos (by rw [h0]; norm_num)]
      have : sincSeries (vnorm (E t)) = 1 := by rw [h0]; simp [sincSeries, sincSeries2, horner3]
      rw [this]
    rw [sub_self, norm_zero]; positivity
  · by_cases h1 : vnorm (E t) < 1 / 2 ^ 13
    · rw [if_pos h1]
      refine ⟨_, hasDeriv_exp h h0, ?_, fun h' => absurd h' (not_or.2 ⟨not_le.2 h1, h0⟩)⟩
      rw [sincSeries, vnorm_sq]
      exact expForm_small _ _ h0 h1.le
    · rw [if_neg h1]
      have e : (Real.cos (vnorm (E t)) - Real.sin (vnorm (E t)) / vnorm (E t)) / vdot (E t) (E t) =
          Real.cos (vnorm (E t)) / (vnorm (E t) * vnorm (E t)) -
            Real.sin (vnorm (E t)) / (vnorm (E t) * vnorm (E t) * vnorm (E t)) := by
        rw [← vnorm_sq]; field_simp
      rw [← e]
      refine ⟨_, hasDeriv_exp h h0, ?_, fun _ => rfl⟩
      rw [sub_self, norm_zero]; positivity

/-- **C67** (partial: within `2^-80 |de|` instead of exact when `0 < |e| < 2^-26`): the
matrix version `aa_tf_qdpexpj`. -/
theorem C67_qdpexpj_partial : DExpSpec qdpexpj (1 / 2 ^ 26) (1 / 2 ^ 80) := by
  intro E de t h
  rw [qdpexpj_form]
  have d0 := vnorm_nonneg de
  have n0 := vnorm_nonneg (E t)
  have hthr : vdot (E t) (E t) < dblEpsilon ↔ vnorm (E t) < 1 / 2 ^ 26 := by
    rw [← sqrt_eps, vnorm, Real.sqrt_lt_sqrt_iff (vdot_nonneg _)]
  simp only [hthr]
  by_cases h0 : vnorm (E t) = 0
  · refine ⟨_, hasDeriv_exp_zero h h0
      (horner3 (vdot (E t) (E t)) (-1 / 3) (1 / 30) (-1 / 840)), ?_, fun _ => ?_⟩
    all_goals
      rw [if_pos (by rw [h0]; norm_num)]
      have : sincSeries2 (vdot (E t) (E t)) = 1 := by
        rw [← vnorm_sq, h0]; simp [sincSeries2, horner3]
      rw [this]
    rw [sub_self, norm_zero]; positivity
  · by_cases h1 : vnorm (E t) < 1 / 2 ^ 26
    · rw [if_pos h1]
      refine ⟨_, hasDeriv_exp h h0, ?_, fun h' => absurd h' (not_or.2 ⟨not_le.2 h1, h0⟩)⟩
      exact expForm_small _ _ h0 (h1.le.trans (by norm_num))
    · rw [if_neg h1]
      refine ⟨_, hasDeriv_exp h h0, ?_, fun _ => rfl⟩
      rw [sub_self, norm_zero]; positivity

/-! ## The logarithm of a unit trajectory -/

theorem unit_tangent_dot {Q : ℝ → Quat} {D : Quat} {t : ℝ} (h : Quat.HasDeriv Q D t)
    (hu : ∀ s, Tf.Unit (Q s)) : vdot (Q t).vec D.vec + (Q t).w * D.w = 0 := by
  have h1 := hasDerivAt_qqq h
  have h2 : HasDerivAt (fun s => qqq (Q s)) 0 t := by
    have : (fun s => qqq (Q s)) = fun _ => 1 := by
      funext s
      have := hu s
      simp only [Tf.Unit, qqq, qvv, vdot, Quat.vec] at *
      linarith
    rw [this]
    exact hasDerivAt_const _ _
  have := h1.unique h2
  linarith

/-- The shape both routines return: `alpha * dv + dw * beta * v`. -/
def lnForm (q dq : Quat) (alpha beta : ℝ) : V3 :=
  ⟨alpha * dq.x + dq.w * beta * q.x, alpha * dq.y + dq.w * beta * q.y,
    alpha * dq.z + dq.w * beta * q.z⟩

theorem qduln_form (q dq : Quat) : qduln q dq =
    if qangle q < 1 / 2 ^ 13 then some (lnForm q dq (invsincSeries (qangle q))
      (horner3 (qangle q * qangle q) (-1 / 3) (2 / 15) (-2 / 63)))
    else if vnorm q.vec = 0 then none
    else some (lnForm q dq (lnEta q) ((lnEta q * q.w - 1) / qvv q)) := by
  unfold qduln
  rw [sqrt_sqrt_eps]
  rfl

theorem unit_qqq {q : Quat} (h : Tf.Unit q) : qqq q = 1 := by
  simp only [Tf.Unit, qqq, qvv, vdot, Quat.vec] at *
  linarith

theorem hasDeriv_ln_unit {Q : ℝ → Quat} {D : Quat} {t : ℝ} (h : Quat.HasDeriv Q D t)
    (hu : ∀ s, Tf.Unit (Q s)) (h0 : vnorm (Q t).vec ≠ 0) :
    V3.HasDeriv (fun s => (qlog (Q s)).vec)
      (lnForm (Q t) D (lnEta (Q t)) ((lnEta (Q t) * (Q t).w - 1) / qvv (Q t))) t := by
  obtain ⟨a, b, c, -⟩ := Quat.hasDeriv_iff.1 (hasDeriv_qlog h h0)
  have ht := unit_tangent_dot h hu
  have h1 := unit_qqq (hu t)
  have hv := (qvv_pos h0).ne'
  have hw : (Q t).w * (Q t).w = 1 - qvv (Q t) := by rw [← h1, qqq]; ring
  have hz : lnZeta (Q t) = ((Q t).w - lnEta (Q t)) / qvv (Q t) := by rw [lnZeta, h1, div_one]
  have key : ∀ r d : ℝ, lnForm (Q t) D (lnEta (Q t)) ((lnEta (Q t) * (Q t).w - 1) / qvv (Q t)) =
      lnForm (Q t) D (lnEta (Q t)) ((lnEta (Q t) * (Q t).w - 1) / qvv (Q t)) →
      vdot (Q t).vec D.vec * (r * lnZeta (Q t)) + lnEta (Q t) * d - r * D.w =
      lnEta (Q t) * d + D.w * ((lnEta (Q t) * (Q t).w - 1) / qvv (Q t)) * r := by
    intro r d _
    rw [hz, show vdot (Q t).vec D.vec = -((Q t).w * D.w) by linarith]
    field_simp
    linear_combination (-(D.w * r)) * hw
  refine V3.hasDeriv_iff.2 ⟨a.congr_deriv ?_, b.congr_deriv ?_, c.congr_deriv ?_⟩
  · show _ = lnEta (Q t) * D.x + D.w * ((lnEta (Q t) * (Q t).w - 1) / qvv (Q t)) * (Q t).x
    rw [← key _ _ rfl]
    simp [mul4, qlnJacFill, fillUplo, vdot, Quat.vec, h1]
    ring
  · show _ = lnEta (Q t) * D.y + D.w * ((lnEta (Q t) * (Q t).w - 1) / qvv (Q t)) * (Q t).y
    rw [← key _ _ rfl]
    simp [mul4, qlnJacFill, fillUplo, vdot, Quat.vec, h1]
    ring
  · show _ = lnEta (Q t) * D.z + D.w * ((lnEta (Q t) * (Q t).w - 1) / qvv (Q t)) * (Q t).z
    rw [← key _ _ rfl]
    simp [mul4, qlnJacFill, fillUplo, vdot, Quat.vec, h1]
    ring

theorem hasDeriv_ln_unit_one {Q : ℝ → Quat} {D : Quat} {t : ℝ} (h : Quat.HasDeriv Q D t)
    (hu : ∀ s, Tf.Unit (Q s)) (h0 : vnorm (Q t).vec = 0) (hw : 0 < (Q t).w) (beta : ℝ) :
    V3.HasDeriv (fun s => (qlog (Q s)).vec) (lnForm (Q t) D 1 beta) t := by
  obtain ⟨a, b, c, -⟩ := Quat.hasDeriv_iff.1 (hasDeriv_qlog_real h h0 hw 0)
  obtain ⟨z1, z2, z3⟩ := vec_zero h0
  have h1 : (Q t).w = 1 := by
    have := hu t
    simp only [Tf.Unit, z1, z2, z3] at this
    nlinarith
  refine V3.hasDeriv_iff.2 ⟨a.congr_deriv ?_, b.congr_deriv ?_, c.congr_deriv ?_⟩ <;>
    simp [mul4, qlnJacFill, fillUplo, lnForm, z1, z2, z3, h1]

theorem lnForm_close (q dq : Quat) (a a' b b' : ℝ) :
    ‖(lnForm q dq a b).pure - (lnForm q dq a' b').pure‖ ≤
      |a - a'| * vnorm dq.vec + |b - b'| * |dq.w| * vnorm q.vec := by
  have e : (lnForm q dq a b).pure - (lnForm q dq a' b').pure =
      (a - a') • dq.vec.pure + ((b - b') * dq.w) • q.vec.pure := by
    ext <;> simp [lnForm, Quat.vec] <;> ring
  rw [e]
  refine (norm_add_le _ _).trans ?_
  rw [norm_smul, norm_smul, norm_pure, norm_pure, Real.norm_eq_abs, Real.norm_eq_abs, abs_mul]

/-- Series coefficients of the logarithm's derivative for small angles. -/
theorem lnSeries_close {x : ℝ} (h0 : 0 < x) (h1 : x ≤ 1 / 2 ^ 13) :
    |invsincSeries x - x / Real.sin x| ≤ 1 / 2 ^ 80 ∧
    |horner3 (x * x) (-1 / 3) (2 / 15) (-2 / 63) -
      (x / Real.sin x * Real.cos x - 1) / (Real.sin x * Real.sin x)| ≤ 9 * (x * x) := by
  have h8 : x ≤ 1 / 8 := h1.trans (by norm_num)
  have hs := Taylor.sin_half h0.le h8
  have sp : 0 < Real.sin x := by linarith
  have p6 : x ^ 6 ≤ (1 / 2 ^ 13) ^ 6 := pow_le_pow_left₀ h0.le h1 6
  have p2 : x * x ≤ 1 / 64 := by nlinarith
  constructor
  · obtain ⟨hu, hl⟩ := Taylor.invsinc_series h0.le (by linarith)
    have e : invsincSeries x - x / Real.sin x =
        -((x - (1 + x * x * (1 / 6 + x * x * (7 / 360))) * Real.sin x) / Real.sin x) := by
      simp only [invsincSeries, invsincSeries2, horner3]; field_simp; ring
    rw [e, abs_neg, abs_of_nonneg (div_nonneg (by linarith) sp.le), div_le_iff₀ sp]
    have : x ^ 7 / 400 ≤ 1 / 2 ^ 80 * (x / 2) := by
      rw [show x ^ 7 / 400 = x ^ 6 / 200 * (x / 2) by ring]
      apply mul_le_mul_of_nonneg_right _ (by linarith)
      norm_num at p6 ⊢
      linarith
    have h3 : (1 : ℝ) / 2 ^ 80 * (x / 2) ≤ 1 / 2 ^ 80 * Real.sin x :=
      mul_le_mul_of_nonneg_left hs (by norm_num)
    linarith
  · have hb := Taylor.beta_bound h0.le
    have e : (x / Real.sin x * Real.cos x - 1) / (Real.sin x * Real.sin x) =
        -1 / 3 + (x * Real.cos x - Real.sin x + Real.sin x ^ 3 / 3) / Real.sin x ^ 3 := by
      field_simp; ring
    have hb' : |(x * Real.cos x - Real.sin x + Real.sin x ^ 3 / 3) / Real.sin x ^ 3| ≤
        8 * (x * x) := by
      rw [abs_div, abs_of_pos (pow_pos sp 3), div_le_iff₀ (pow_pos sp 3)]
      refine hb.trans ?_
      have : (x / 2) ^ 3 ≤ Real.sin x ^ 3 := pow_le_pow_left₀ (by linarith) hs 3
      have := mul_le_mul_of_nonneg_left this (by positivity : (0 : ℝ) ≤ 8 * (x * x))
      calc x ^ 5 = 8 * (x * x) * (x / 2) ^ 3 := by ring
        _ ≤ _ := this
    rw [e]
    have h3 : |horner3 (x * x) (-1 / 3) (2 / 15) (-2 / 63) - -1 / 3| ≤ x * x := by
      have := mul_self_nonneg x
      rw [horner3, abs_le]
      constructor <;> nlinarith
    have : horner3 (x * x) (-1 / 3) (2 / 15) (-2 / 63) -
        (-1 / 3 + (x * Real.cos x - Real.sin x + Real.sin x ^ 3 / 3) / Real.sin x ^ 3) =
        (horner3 (x * x) (-1 / 3) (2 / 15) (-2 / 63) - -1 / 3) -
          (x * Real.cos x - Real.sin x + Real.sin x ^ 3 / 3) / Real.sin x ^ 3 := by ring
    rw [this]
    refine (abs_sub _ _).trans ?_
    linarith

/-- **C67** (partial: within `2^-47 |dv|` instead of exact when the angle is positive and below
`2^-13`): `aa_tf_qduln` is the derivative of the logarithm of every unit quaternion trajectory
away from -1. -/
theorem C67_qduln_partial (Q : ℝ → Quat) (D : Quat) (t : ℝ) (h : Quat.HasDeriv Q D t)
    (hu : ∀ s, Tf.Unit (Q s)) (hd : vnorm (Q t).vec ≠ 0 ∨ 0 < (Q t).w) :
    ∃ r d, qduln (Q t) D = some r ∧ V3.HasDeriv (fun s => (qlog (Q s)).vec) d t ∧
      ‖r.pure - d.pure‖ ≤ 1 / 2 ^ 47 * vnorm D.vec ∧
      (1 / 2 ^ 13 ≤ qangle (Q t) ∨ vnorm (Q t).vec = 0 → r = d) := by
  have d0 := vnorm_nonneg D.vec
  have self : ∀ r : V3, ‖r.pure - r.pure‖ ≤ 1 / 2 ^ 47 * vnorm D.vec := by
    intro r
    rw [sub_self, norm_zero]; positivity
  rw [qduln_form]
  by_cases h0 : vnorm (Q t).vec = 0
  · have hw : 0 < (Q t).w := by tauto
    have ha := qangle_real h0 hw
    rw [ha, if_pos (by norm_num)]
    have e : invsincSeries 0 = 1 := by simp [invsincSeries, invsincSeries2, horner3]
    rw [e]
    exact ⟨_, _, rfl, hasDeriv_ln_unit_one h hu h0 hw _, self _, fun _ => rfl⟩
  · by_cases h1 : qangle (Q t) < 1 / 2 ^ 13
    · rw [if_pos h1]
      refine ⟨_, _, rfl, hasDeriv_ln_unit h hu h0, ?_,
        fun h' => absurd h' (not_or.2 ⟨not_le.2 h1, h0⟩)⟩
      refine (lnForm_close _ _ _ _ _ _).trans ?_
      have ht := unit_tangent_dot h hu
      have hg := abs_vdot_le (Q t).vec D.vec
      obtain ⟨np, x0, x1, sp, hs, hc, e1, e2, e3, -, -⟩ := coef_polar h0
      have n1 : qnorm (Q t) = 1 := by rw [qnorm_qqq, unit_qqq (hu t), Real.sqrt_one]
      rw [n1] at hs hc e2 e3
      simp only [one_mul, div_one] at hs hc e2 e3
      obtain ⟨s1, s2⟩ := lnSeries_close x0 h1.le
      rw [e3, e2, ← hc, ← hs]
      rw [← hc] at ht
      rw [← hs] at hg
      have c2 := Taylor.cos_ge2 x0.le
      have sl := Real.sin_le x0.le
      generalize qangle (Q t) = x at *
      have hx1 : x ≤ 1 / 2 ^ 13 := h1.le
      have hx8 : x ≤ 1 / 8 := hx1.trans (by norm_num)
      have hc' : 1 / 2 ≤ Real.cos x := by nlinarith
      have hdw : |D.w| ≤ 2 * x * vnorm D.vec := by
        have e : Real.cos x * D.w = -vdot (Q t).vec D.vec := by linarith
        have : Real.cos x * |D.w| ≤ Real.sin x * vnorm D.vec := by
          rw [← abs_of_pos (show 0 < Real.cos x by linarith), ← abs_mul, e, abs_neg]
          exact hg
        have h2 := mul_le_mul_of_nonneg_right hc' (abs_nonneg D.w)
        have h3 := mul_le_mul_of_nonneg_right sl d0
        linarith
      rw [add_comm]
      have hA := mul_le_mul_of_nonneg_right s1 d0
      have hB : |horner3 (x * x) (-1 / 3) (2 / 15) (-2 / 63) -
          (x / Real.sin x * Real.cos x - 1) / (Real.sin x * Real.sin x)| * |D.w| * Real.sin x ≤
          9 * (x * x) * (2 * x * vnorm D.vec) * x :=
        mul_le_mul (mul_le_mul s2 hdw (abs_nonneg _) (by positivity)) sl sp.le (by positivity)
      have p4 : x ^ 4 ≤ (1 / 2 ^ 13) ^ 4 := pow_le_pow_left₀ x0.le hx1 4
      have hC : 9 * (x * x) * (2 * x * vnorm D.vec) * x ≤ 18 * (1 / 2 ^ 13) ^ 4 * vnorm D.vec := by
        have := mul_le_mul_of_nonneg_right p4 d0
        nlinarith
      have hD : (18 * (1 / 2 ^ 13) ^ 4 + 1 / 2 ^ 80 : ℝ) * vnorm D.vec ≤
          1 / 2 ^ 47 * vnorm D.vec := mul_le_mul_of_nonneg_right (by norm_num) d0
      linarith
    · rw [if_neg h1, if_neg h0]
      exact ⟨_, _, rfl, hasDeriv_ln_unit h hu h0, self _, fun _ => rfl⟩

/-- **C67** (partial: not at the identity quaternion, see `C67_violates_qdulnj`): the matrix version
`aa_tf_qdulnj` is exactly the derivative. -/
theorem C67_qdulnj_partial (Q : ℝ → Quat) (D : Quat) (t : ℝ) (h : Quat.HasDeriv Q D t)
    (hu : ∀ s, Tf.Unit (Q s)) (h0 : vnorm (Q t).vec ≠ 0) :
    ∃ r, qdulnj (Q t) D = some r ∧ V3.HasDeriv (fun s => (qlog (Q s)).vec) r t := by
  have ht := unit_tangent_dot h hu
  have hv := (qvv_pos h0).ne'
  refine ⟨_, ?_, hasDeriv_ln_unit h hu h0⟩
  have hs : Real.sqrt (vdot (Q t).vec (Q t).vec) ≠ 0 := h0
  unfold qdulnj qjuln
  simp only [if_neg hs, Option.map_some, Option.some.injEq]
  show gemv34 (![![lnEta (Q t) * (-(Q t).x / qvv (Q t) * (Q t).x + 1),
      -(lnEta (Q t) / qvv (Q t)) * (Q t).x * (Q t).y, -(lnEta (Q t) / qvv (Q t)) * (Q t).x * (Q t).z,
      -(Q t).x / qvv (Q t)],
    ![-(lnEta (Q t) / qvv (Q t)) * (Q t).x * (Q t).y, lnEta (Q t) * (-(Q t).y / qvv (Q t) * (Q t).y + 1),
      -(lnEta (Q t) / qvv (Q t)) * (Q t).y * (Q t).z, -(Q t).y / qvv (Q t)],
    ![-(lnEta (Q t) / qvv (Q t)) * (Q t).x * (Q t).z, -(lnEta (Q t) / qvv (Q t)) * (Q t).y * (Q t).z,
      lnEta (Q t) * (-(Q t).z / qvv (Q t) * (Q t).z + 1), -(Q t).z / qvv (Q t)]]) D = _
  simp only [vdot, Quat.vec] at ht
  generalize qvv (Q t) = s at *
  generalize lnEta (Q t) = e at *
  ext
  · simp [gemv34, lnForm]; field_simp
    linear_combination (-(e * (Q t).x)) * ht
  · simp [gemv34, lnForm]; field_simp
    linear_combination (-(e * (Q t).y)) * ht
  · simp [gemv34, lnForm]; field_simp
    linear_combination (-(e * (Q t).z)) * ht

/-- **C67 is violated** by `aa_tf_qdulnj`: along the unit trajectory
`(sin t, 0, 0, cos t)` the logarithm `(t, 0, 0)` is differentiable at `t = 0`, but the routine
divides zero by zero there. -/
theorem C67_violates_qdulnj : ∃ (Q : ℝ → Quat) (D : Quat) (t : ℝ), Quat.HasDeriv Q D t ∧
    (∀ s, Tf.Unit (Q s)) ∧ (∃ d, V3.HasDeriv (fun s => (qlog (Q s)).vec) d t) ∧
    qdulnj (Q t) D = none := by
  have hd : Quat.HasDeriv (fun s => (⟨Real.sin s, 0, 0, Real.cos s⟩ : Quat)) ⟨1, 0, 0, 0⟩ 0 := by
    refine Quat.hasDeriv_iff.2 ⟨?_, hasDerivAt_const _ _, hasDerivAt_const _ _, ?_⟩
    · exact (Real.hasDerivAt_sin 0).congr_deriv Real.cos_zero
    · exact (Real.hasDerivAt_cos 0).congr_deriv (by simp)
  have hu : ∀ s : ℝ, Tf.Unit (⟨Real.sin s, 0, 0, Real.cos s⟩ : Quat) := by
    intro s
    have := Real.sin_sq_add_cos_sq s
    simp only [Tf.Unit]; linarith
  have h0 : vnorm (⟨Real.sin 0, 0, 0, Real.cos 0⟩ : Quat).vec = 0 := by simp [vnorm, vdot, Quat.vec]
  refine ⟨_, _, 0, hd, hu, ⟨_, hasDeriv_ln_unit_one hd hu h0 (by simp) 0⟩, ?_⟩
  simp [qdulnj, qjuln, vdot, Quat.vec]

/-- The hypotheses of the partial theorems hold for that trajectory away from 0. -/
example : vnorm (⟨Real.sin 1, 0, 0, Real.cos 1⟩ : Quat).vec ≠ 0 := by
  have : 0 < Real.sin 1 := Real.sin_pos_of_pos_of_lt_pi one_pos (by linarith [Real.pi_gt_three])
  rw [vnorm, Ne, Real.sqrt_eq_zero (vdot_nonneg _)]
  simp only [vdot, Quat.vec]
  nlinarith

end Verif.Tf
