import Verif.Model.TfExp
import Verif.Prop.Rigid
import Verif.Proof.Taylor
import Mathlib.Analysis.Normed.Algebra.QuaternionExponential
import Mathlib.Analysis.Real.Pi.Bounds

/-!
# C28: quaternion exponential and logarithm

Specification: Mathlib's `NormedSpace.exp` on `ℍ[ℝ]`. The code switches to a truncated series near
zero; there the theorems give explicit error bounds, elsewhere equality.
-/

namespace Verif.Tf

open scoped Quaternion
open Quaternion NormedSpace

/-! ## Helpers -/

theorem sqrt_eps : Real.sqrt dblEpsilon = 1 / 2 ^ 26 := by
  rw [dblEpsilon, Real.sqrt_eq_iff_mul_self_eq (by norm_num) (by norm_num)]
  norm_num

theorem sqrt_sqrt_eps : Real.sqrt (Real.sqrt dblEpsilon) = 1 / 2 ^ 13 := by
  rw [sqrt_eps, Real.sqrt_eq_iff_mul_self_eq (by norm_num) (by norm_num)]
  norm_num

theorem vdot_nonneg (v : V3) : 0 ≤ vdot v v := by
  simp only [vdot]; nlinarith [mul_self_nonneg v.x, mul_self_nonneg v.y, mul_self_nonneg v.z]

theorem vnorm_nonneg (v : V3) : 0 ≤ vnorm v := Real.sqrt_nonneg _

theorem vnorm_sq (v : V3) : vnorm v * vnorm v = vdot v v := Real.mul_self_sqrt (vdot_nonneg v)

theorem norm_pure (v : V3) : ‖v.pure‖ = vnorm v := by
  rw [vnorm, ← Real.sqrt_mul_self (norm_nonneg v.pure), ← normSq_eq_norm_mul_self, normSq_def']
  congr 1
  simp only [V3.pure_re, V3.pure_imI, V3.pure_imJ, V3.pure_imK, vdot]; ring

theorem den_cs (a c : ℝ) (v : V3) :
    (⟨a * v.x, a * v.y, a * v.z, c⟩ : Quat).den = (c : ℍ[ℝ]) + a • v.pure := by
  ext <;> simp

theorem exp_pure (v : V3) :
    exp v.pure = ((Real.cos (vnorm v) : ℝ) : ℍ[ℝ]) + (Real.sin (vnorm v) / vnorm v) • v.pure := by
  rw [Quaternion.exp_of_re_eq_zero _ (V3.pure_re v), norm_pure]

theorem norm_cs (a c : ℝ) (v : V3) :
    ‖(c : ℍ[ℝ]) + a • v.pure‖ ≤ |c| + |a * vnorm v| := by
  refine (norm_add_le _ _).trans ?_
  rw [Quaternion.norm_coe, norm_smul, norm_pure, Real.norm_eq_abs, Real.norm_eq_abs, abs_mul,
    abs_of_nonneg (vnorm_nonneg v)]

/-- the pair returned by `aa_tf_sinccos2`: exact outside the series branch, and within the first
omitted terms inside it. -/
theorem sinccos2_spec {t : ℝ} (ht : 0 ≤ t) :
    (1 / 2 ^ 13 ≤ t → sinccos2 (t * t) = (Real.sin t / t, Real.cos t)) ∧
    |(sinccos2 (t * t)).1 * t - Real.sin t| ≤ 1 / 2 ^ 103 ∧
    |(sinccos2 (t * t)).2 - Real.cos t| ≤ 1 / 2 ^ 87 ∧
    (t < 1 / 2 ^ 13 → |(sinccos2 (t * t)).1 * t - Real.sin t| ≤ t ^ 7 / 5040 ∧
      |(sinccos2 (t * t)).2 - Real.cos t| ≤ t ^ 6 / 720 ∧
      sinccos2 (t * t) = (sincSeries2 (t * t), cosSeries2 (t * t))) := by
  have hb : t * t < Real.sqrt dblEpsilon ↔ t < 1 / 2 ^ 13 := by
    rw [sqrt_eps]
    constructor
    · intro h
      by_contra hc
      push Not at hc
      have := mul_le_mul hc hc (by norm_num) ht
      norm_num at *
      linarith
    · intro h
      have := mul_lt_mul'' h h ht ht
      norm_num at *
      linarith
  by_cases h : t < 1 / 2 ^ 13
  · have e : sinccos2 (t * t) = (sincSeries2 (t * t), cosSeries2 (t * t)) := by
      rw [sinccos2, if_pos (hb.2 h)]
    have hs := Taylor.sinc_series ht
    have hc := Taylor.cos_series ht
    have s1 : |(sinccos2 (t * t)).1 * t - Real.sin t| ≤ t ^ 7 / 5040 := by
      rw [e]; simp only [sincSeries2, horner3]
      rw [abs_le]; constructor <;> linarith [pow_nonneg ht 7]
    have c1 : |(sinccos2 (t * t)).2 - Real.cos t| ≤ t ^ 6 / 720 := by
      rw [e]; simp only [cosSeries2, horner3]
      rw [abs_le]; constructor <;> linarith [pow_nonneg ht 6]
    have t6 : t ^ 6 ≤ (1 / 2 ^ 13) ^ 6 := pow_le_pow_left₀ ht h.le 6
    have t7 : t ^ 7 ≤ (1 / 2 ^ 13) ^ 7 := pow_le_pow_left₀ ht h.le 7
    refine ⟨fun h' => absurd h (not_lt.2 h'), s1.trans ?_, c1.trans ?_, fun _ => ⟨s1, c1, e⟩⟩
    · norm_num at *; linarith
    · norm_num at *; linarith
  · have e : sinccos2 (t * t) = (Real.sin t / t, Real.cos t) := by
      rw [sinccos2, if_neg (fun h' => h (hb.1 h'))]
      simp [Real.sqrt_mul_self ht]
    have t0 : t ≠ 0 := by
      rintro rfl; exact h (by norm_num)
    refine ⟨fun _ => e, ?_, ?_, fun h' => absurd h' h⟩
    · rw [e]; simp [div_mul_cancel₀ _ t0]
    · rw [e]; simp

theorem sinccos_eq {t : ℝ} (ht : 0 ≤ t) : sinccos t = sinccos2 (t * t) := by
  unfold sinccos sinccos2
  split_ifs
  · rfl
  · simp [Real.sqrt_mul_self ht]

/-! ## C28: exponential -/

theorem qpexp_den (v : V3) :
    (qpexp v).den = (((sinccos2 (vnorm v * vnorm v)).2 : ℝ) : ℍ[ℝ]) +
      (sinccos2 (vnorm v * vnorm v)).1 • v.pure := by
  rw [qpexp, vnorm_sq]; exact den_cs _ _ _

/-- error of a pair `(sc, c)` in place of `(sin t / t, cos t)`. -/
theorem cs_error (v : V3) (sc c : ℝ) :
    ‖((c : ℍ[ℝ]) + sc • v.pure) - exp v.pure‖ ≤
      |c - Real.cos (vnorm v)| + |sc * vnorm v - Real.sin (vnorm v)| := by
  have : ((c : ℍ[ℝ]) + sc • v.pure) - exp v.pure =
      ((c - Real.cos (vnorm v) : ℝ) : ℍ[ℝ]) + (sc - Real.sin (vnorm v) / vnorm v) • v.pure := by
    rw [exp_pure]
    push_cast
    rw [sub_smul]
    abel
  rw [this]
  refine (norm_cs _ _ _).trans ?_
  refine add_le_add le_rfl (le_of_eq ?_)
  by_cases h0 : vnorm v = 0
  · simp [h0]
  · rw [sub_mul, div_mul_cancel₀ _ h0]

/-- C28: `aa_tf_qpexp` is the quaternion exponential; exactly in the trigonometric branch, and to
within 2^-86 in the series branch. -/
theorem C28_qpexp (v : V3) :
    (1 / 2 ^ 13 ≤ vnorm v → (qpexp v).den = exp v.pure ∧ Unit (qpexp v)) ∧
    ‖(qpexp v).den - exp v.pure‖ ≤ 1 / 2 ^ 86 ∧ |qnorm (qpexp v) - 1| ≤ 1 / 2 ^ 86 := by
  obtain ⟨he, hs, hc, _⟩ := sinccos2_spec (vnorm_nonneg v)
  have n1 : ‖exp v.pure‖ = 1 := by
    rw [Quaternion.norm_exp]; simp
  have hb : ‖(qpexp v).den - exp v.pure‖ ≤ 1 / 2 ^ 86 := by
    rw [qpexp_den]
    refine (cs_error _ _ _).trans ?_
    norm_num at *
    linarith
  refine ⟨fun h => ?_, hb, ?_⟩
  · have e : (qpexp v).den = exp v.pure := by
      rw [qpexp_den, he h, exp_pure]
    refine ⟨e, (Unit.iff_norm _).2 ?_⟩
    rw [e, n1]
  · have := (abs_norm_sub_norm_le (qpexp v).den (exp v.pure)).trans hb
    rwa [n1, ← C21_qnorm] at this

theorem den_re_im (q : Quat) : q.den = (q.w : ℍ[ℝ]) + q.vec.pure := by
  ext <;> simp [Quat.vec]

theorem exp_den (q : Quat) : exp q.den = Real.exp q.w • exp q.vec.pure := by
  have him : q.den.im = q.vec.pure := by ext <;> simp [Quat.vec]
  rw [Quaternion.exp_eq, him, norm_pure, exp_pure, Quat.den_re, Real.exp_eq_exp_ℝ]

/-- C28: `aa_tf_qexp` likewise, relative to `exp(w)`. -/
theorem C28_qexp (q : Quat) :
    (1 / 2 ^ 13 ≤ vnorm q.vec → (qexp q).den = exp q.den) ∧
    ‖(qexp q).den - exp q.den‖ ≤ Real.exp q.w * (1 / 2 ^ 86) := by
  have e : (qexp q).den = Real.exp q.w • (qpexp q.vec).den := by
    rw [qexp, sinccos_eq (vnorm_nonneg _), qpexp, vnorm_sq]
    ext <;> simp [Quat.vec] <;> ring
  obtain ⟨h1, h2, _⟩ := C28_qpexp q.vec
  constructor
  · intro h
    rw [e, (h1 h).1, exp_den]
  · rw [e, exp_den, ← smul_sub, norm_smul, Real.norm_eq_abs, abs_of_pos (Real.exp_pos _)]
    exact mul_le_mul_of_nonneg_left h2 (Real.exp_pos _).le

/-- `aa_tf_qexp_n` is the exponential outside a neighbourhood of the real line ... -/
theorem C28_qexp_n_partial (q : Quat) (h : dblEpsilon ≤ vnorm q.vec) :
    (qexpN q).den = exp q.den := by
  rw [qexpN, if_neg (not_lt.2 h), exp_den, exp_pure]
  ext <;> simp [Quat.vec] <;> ring

/-- ... but drops the factor `exp(w)` on it: `aa_tf_qexp_n` of the real quaternion 1 is 1, not e. -/
theorem C28_violates_qexp_n :
    qexpN ⟨0, 0, 0, 1⟩ = ⟨0, 0, 0, 1⟩ ∧ ‖(qexpN ⟨0, 0, 0, 1⟩).den - exp (⟨0, 0, 0, 1⟩ : Quat).den‖ ≥ 1 := by
  have e : qexpN ⟨0, 0, 0, 1⟩ = ⟨0, 0, 0, 1⟩ := by
    rw [qexpN, if_pos]
    simp [vnorm, Quat.vec, vdot, dblEpsilon]
  refine ⟨e, ?_⟩
  rw [e, exp_den]
  have hv : (Quat.vec ⟨0, 0, 0, 1⟩).pure = 0 := by ext <;> simp [Quat.vec]
  have hd : (⟨0, 0, 0, 1⟩ : Quat).den = 1 := by ext <;> simp
  rw [hv, NormedSpace.exp_zero, hd]
  have : (1 : ℍ[ℝ]) - Real.exp 1 • (1 : ℍ[ℝ]) = (1 - Real.exp 1) • (1 : ℍ[ℝ]) := by
    rw [sub_smul, one_smul]
  rw [this, norm_smul, norm_one, mul_one, Real.norm_eq_abs, abs_of_nonpos]
  · linarith [Real.add_one_le_exp (1 : ℝ)]
  · linarith [Real.add_one_le_exp (1 : ℝ)]

/-! ## C28: logarithm -/

/-- polar form of the numbers used by `aa_tf_qln`. -/
theorem polar (vn w : ℝ) (hv : 0 ≤ vn) (h : vn ≠ 0 ∨ w ≠ 0) :
    let n := Real.sqrt (vn * vn + w * w)
    let phi := atan2 vn w
    0 < n ∧ n * Real.sin phi = vn ∧ n * Real.cos phi = w ∧ 0 ≤ phi ∧ phi ≤ Real.pi := by
  intro n phi
  have hz : (⟨w, vn⟩ : ℂ) ≠ 0 := by
    intro hz
    rw [Complex.ext_iff] at hz
    simp at hz
    tauto
  have hn : n = ‖(⟨w, vn⟩ : ℂ)‖ := by
    rw [Complex.norm_def, Complex.normSq_apply]
    simp only [n]; congr 1; ring
  have np : 0 < n := by rw [hn]; exact norm_pos_iff.2 hz
  refine ⟨np, ?_, ?_, Complex.arg_nonneg_iff.2 hv, Complex.arg_le_pi _⟩
  · simp only [phi, atan2]
    rw [Complex.sin_arg, ← hn]; field_simp
  · simp only [phi, atan2]
    rw [Complex.cos_arg hz, ← hn]; field_simp

theorem qnorm_eq (q : Quat) : Real.sqrt (vdot q.vec q.vec + q.w * q.w) = qnorm q := by
  rw [qnorm]; congr 1

theorem qln_eq (q : Quat) : qln q =
    if qangle q < 1 / 2 ^ 13 then
      if qnorm q = 0 then none
      else some ⟨invsincSeries (qangle q) / qnorm q * q.x, invsincSeries (qangle q) / qnorm q * q.y,
        invsincSeries (qangle q) / qnorm q * q.z, Real.log (qnorm q)⟩
    else if vnorm q.vec = 0 then none
    else some ⟨qangle q / vnorm q.vec * q.x, qangle q / vnorm q.vec * q.y,
        qangle q / vnorm q.vec * q.z, Real.log (qnorm q)⟩ := by
  rw [← sqrt_sqrt_eps, ← qnorm_eq]; rfl

/-- C28: for every quaternion except the non-positive reals, `aa_tf_qln` returns a value that is
a logarithm: exactly in the trigonometric branch, and within 2^-99 of one in the series branch. -/
theorem C28_exp_ln_partial (q : Quat) (h : vnorm q.vec ≠ 0 ∨ 0 < q.w) :
    ∃ r, qln q = some r ∧ ∃ L : ℍ[ℝ], exp L = q.den ∧ L.re = Real.log (qnorm q) ∧
      ‖r.den - L‖ ≤ 1 / 2 ^ 99 ∧ (1 / 2 ^ 13 ≤ qangle q → r.den = L) := by
  have hsq : Real.sqrt (vdot q.vec q.vec) = vnorm q.vec := rfl
  obtain ⟨np, hs, hc, p0, p1⟩ := polar (vnorm q.vec) q.w (vnorm_nonneg _)
    (h.imp id (fun h => h.ne'))
  rw [vnorm_sq, qnorm_eq] at np hs hc
  have hq : qangle q = atan2 (vnorm q.vec) q.w := rfl
  rw [← hq] at hs hc p0 p1
  generalize hphi : qangle q = phi at *
  -- a positive scalar part when the vector part vanishes
  set L : ℍ[ℝ] := ((Real.log (qnorm q) : ℝ) : ℍ[ℝ]) + (phi / vnorm q.vec) • q.vec.pure with hL
  have hexp : exp L = q.den := by
    have hLre : L.re = Real.log (qnorm q) := by simp [hL]
    have hLim : L.im = (phi / vnorm q.vec) • q.vec.pure := by
      ext <;> simp [hL]
    rw [Quaternion.exp_eq, hLre, hLim, norm_smul, norm_pure, Real.norm_eq_abs,
      ← Real.exp_eq_exp_ℝ, Real.exp_log np]
    by_cases hv : vnorm q.vec = 0
    · have hvz : q.vec.pure = 0 := by rw [← norm_eq_zero, norm_pure, hv]
      have hw : 0 < q.w := by tauto
      have hwn : qnorm q = q.w := by
        rw [← qnorm_eq, ← vnorm_sq, hv]; simp [Real.sqrt_mul_self hw.le]
      rw [hvz, hv]
      simp only [mul_zero, Real.cos_zero, smul_zero, add_zero]
      rw [den_re_im, hvz, hwn]
      ext <;> simp
    · have hvp : 0 < vnorm q.vec := lt_of_le_of_ne (vnorm_nonneg _) (Ne.symm hv)
      rw [abs_of_nonneg (by positivity), div_mul_cancel₀ _ hv]
      have p0' : phi ≠ 0 := by
        rintro rfl
        simp at hs; exact hv hs.symm
      rw [den_re_im, smul_add, smul_smul, smul_smul]
      congr 1
      · rw [← hc]; ext <;> simp
      · have : qnorm q * (Real.sin phi / phi * (phi / vnorm q.vec)) = 1 := by
          field_simp; exact hs
        rw [← mul_assoc] at this
        rw [this, one_smul]
  have hLre : L.re = Real.log (qnorm q) := by simp [hL]
  have hrd : ∀ a, (⟨a * q.x, a * q.y, a * q.z, Real.log (qnorm q)⟩ : Quat).den =
      ((Real.log (qnorm q) : ℝ) : ℍ[ℝ]) + a • q.vec.pure := fun a => den_cs a _ q.vec
  rw [qln_eq, hphi]
  by_cases hser : phi < 1 / 2 ^ 13
  · rw [if_pos hser, if_neg np.ne']
    refine ⟨_, rfl, L, hexp, hLre, ?_, fun hh => absurd hser (not_lt.2 hh)⟩
    rw [hrd]
    have ht := Taylor.invsinc_series p0 (hser.le.trans (by norm_num))
    have t7 : phi ^ 7 ≤ (1 / 2 ^ 13) ^ 7 := pow_le_pow_left₀ p0 hser.le 7
    have hd : (((Real.log (qnorm q) : ℝ) : ℍ[ℝ]) + (invsincSeries phi / qnorm q) • q.vec.pure) - L =
        ((0 : ℝ) : ℍ[ℝ]) + (invsincSeries phi / qnorm q - phi / vnorm q.vec) • q.vec.pure := by
      rw [hL, sub_smul]; simp
    rw [hd]
    refine (norm_cs _ _ _).trans ?_
    rw [abs_zero, zero_add]
    by_cases hv : vnorm q.vec = 0
    · simp [hv]
    · rw [sub_mul, div_mul_cancel₀ _ hv]
      have : invsincSeries phi / qnorm q * vnorm q.vec = invsincSeries phi * Real.sin phi := by
        rw [← hs]; field_simp
      rw [this, invsincSeries, invsincSeries2, horner3, abs_le]
      norm_num at *
      constructor <;> linarith
  · rw [if_neg hser]
    have hv : vnorm q.vec ≠ 0 := by
      intro hv
      have hw : 0 < q.w := by tauto
      rw [hv] at hs
      have hsin : Real.sin phi = 0 := by
        rcases mul_eq_zero.1 hs with h | h
        · exact absurd h np.ne'
        · exact h
      rcases eq_or_lt_of_le p0 with hp | hp
      · exact hser (by rw [← hp]; norm_num)
      · rcases eq_or_lt_of_le p1 with hp1 | hp1
        · rw [hp1, Real.cos_pi] at hc
          linarith
        · exact absurd hsin (Real.sin_pos_of_pos_of_lt_pi hp hp1).ne'
    rw [if_neg hv]
    refine ⟨_, rfl, L, hexp, hLre, ?_, fun _ => hrd _⟩
    rw [hrd]
    simp [hL]

/-- C28 fails at the negative reals: for the unit quaternion -1 (a full turn) `aa_tf_qln` divides by
zero, so `exp(ln q) = q` fails. -/
theorem C28_violates_ln_neg_one : Unit ⟨0, 0, 0, -1⟩ ∧ qln ⟨0, 0, 0, -1⟩ = none := by
  refine ⟨by norm_num [Unit], ?_⟩
  have hphi : atan2 0 (-1) = Real.pi := by
    rw [atan2]
    have : (⟨-1, 0⟩ : ℂ) = ((-1 : ℝ) : ℂ) := by
      rw [Complex.ext_iff]; simp
    rw [this, Complex.arg_ofReal_of_neg (by norm_num)]
  simp only [qln, Quat.vec, vdot, sqrt_sqrt_eps]
  norm_num
  rw [hphi]
  intro h
  linarith [Real.pi_gt_three]

theorem atan2_sin_cos {x : ℝ} (h0 : 0 ≤ x) (h1 : x ≤ Real.pi) :
    atan2 (Real.sin x) (Real.cos x) = x := by
  rw [atan2]
  have : (⟨Real.cos x, Real.sin x⟩ : ℂ) = Complex.cos x + Complex.sin x * Complex.I := by
    rw [← Complex.ofReal_cos, ← Complex.ofReal_sin, Complex.ext_iff]
    simp [-Complex.ofReal_cos, -Complex.ofReal_sin]
  rw [this, Complex.arg_cos_add_sin_mul_I ⟨by linarith [Real.pi_pos], h1⟩]

theorem qpexp_vec_norm (v : V3) (h : 0 ≤ (sinccos2 (vnorm v * vnorm v)).1) :
    vnorm (qpexp v).vec = (sinccos2 (vnorm v * vnorm v)).1 * vnorm v := by
  rw [vnorm_sq] at *
  rw [vnorm, Real.sqrt_eq_iff_mul_self_eq (vdot_nonneg _) (mul_nonneg h (vnorm_nonneg v))]
  have := vnorm_sq v
  simp only [qpexp, Quat.vec, vdot] at *
  linear_combination (-(sinccos2 (v.x * v.x + v.y * v.y + v.z * v.z)).1 ^ 2) * this

/-- C28: `aa_tf_qln` inverts `aa_tf_qpexp` exactly for rotation vectors of norm in [2^-13, π). -/
theorem C28_ln_exp_trig (v : V3) (h0 : 1 / 2 ^ 13 ≤ vnorm v) (h1 : vnorm v < Real.pi) :
    qln (qpexp v) = some ⟨v.x, v.y, v.z, 0⟩ := by
  have hx : 0 < vnorm v := lt_of_lt_of_le (by norm_num) h0
  have hs : 0 < Real.sin (vnorm v) := Real.sin_pos_of_pos_of_lt_pi hx h1
  have he := (sinccos2_spec (vnorm_nonneg v)).1 h0
  have hn : vnorm (qpexp v).vec = Real.sin (vnorm v) := by
    rw [qpexp_vec_norm v (by rw [he]; exact (div_pos hs hx).le), he]
    simp only
    field_simp
  have hw : (qpexp v).w = Real.cos (vnorm v) := by
    rw [qpexp, ← vnorm_sq, he]
  have hq : qnorm (qpexp v) = 1 := by
    rw [C21_qnorm]; exact (Unit.iff_norm _).1 ((C28_qpexp v).1 h0).2
  have ha : qangle (qpexp v) = vnorm v := by
    rw [qangle, hn, hw, atan2_sin_cos hx.le h1.le]
  rw [qln_eq, ha, hq, hn]
  rw [if_neg (not_lt.2 h0), if_neg hs.ne']
  have e : Real.sin (vnorm v) / vnorm v * (vnorm v / Real.sin (vnorm v)) = 1 := by
    field_simp
  simp only [qpexp, ← vnorm_sq, he, Real.log_one]
  congr 1
  ext
  · simp only; linear_combination v.x * e
  · simp only; linear_combination v.y * e
  · simp only; linear_combination v.z * e
  · rfl

theorem angle_close {x S c n phi : ℝ} (x0 : 0 ≤ x) (h : x < 1 / 2 ^ 13)
    (hs : n * Real.sin phi = S) (hc : n * Real.cos phi = c) (p0 : 0 ≤ phi) (p1 : phi ≤ Real.pi)
    (nh : 1 / 2 ≤ n) (cpos : 1 / 2 ≤ c) (s7 : |S - Real.sin x| ≤ x ^ 7 / 5040)
    (c6 : |c - Real.cos x| ≤ x ^ 6 / 720) : |phi - x| ≤ x ^ 7 / 150 := by
  have np : 0 < n := by linarith
  have cphi : 0 < Real.cos phi := by
    by_contra hcon
    push Not at hcon
    nlinarith
  have phalf : phi < Real.pi / 2 := by
    by_contra hcon
    push Not at hcon
    have := Real.cos_nonpos_of_pi_div_two_le_of_le hcon (by linarith [Real.pi_pos])
    linarith
  have hdiff : n * Real.sin (phi - x) =
      (S - Real.sin x) * Real.cos x - (c - Real.cos x) * Real.sin x := by
    rw [Real.sin_sub]
    linear_combination Real.cos x * hs - Real.sin x * hc
  have sx : Real.sin x ≤ x := Real.sin_le x0
  have sx0 : 0 ≤ Real.sin x := Real.sin_nonneg_of_nonneg_of_le_pi x0 (by
    have := Real.pi_gt_three; norm_num at *; linarith)
  have cx := Real.cos_le_one x
  have cx0 : 0 ≤ Real.cos x := Real.cos_nonneg_of_neg_pi_div_two_le_of_le
    (by linarith [Real.pi_pos]) (by have := Real.pi_gt_three; norm_num at *; linarith)
  have x6 : 0 ≤ x ^ 6 := by positivity
  have x7 : 0 ≤ x ^ 7 := by positivity
  have b1 : |(S - Real.sin x) * Real.cos x| ≤ x ^ 7 / 5040 := by
    rw [abs_mul, abs_of_nonneg cx0]
    calc _ ≤ (x ^ 7 / 5040) * 1 := mul_le_mul s7 cx cx0 (by positivity)
      _ = _ := mul_one _
  have b2 : |(c - Real.cos x) * Real.sin x| ≤ x ^ 7 / 720 := by
    rw [abs_mul, abs_of_nonneg sx0]
    calc _ ≤ (x ^ 6 / 720) * x := mul_le_mul c6 sx sx0 (by positivity)
      _ = _ := by ring
  have b3 : |Real.sin (phi - x)| ≤ x ^ 7 / 300 := by
    have h1 : n * |Real.sin (phi - x)| ≤ x ^ 7 / 600 := by
      have : n * |Real.sin (phi - x)| = |n * Real.sin (phi - x)| := by
        rw [abs_mul, abs_of_pos np]
      rw [this, hdiff]
      refine (abs_sub _ _).trans ?_
      linarith
    nlinarith [abs_nonneg (Real.sin (phi - x))]
  have b4 : |phi - x| ≤ x ^ 7 / 150 := by
    have hle : |phi - x| ≤ Real.pi / 2 := by
      rw [abs_le]; constructor
      · have := Real.pi_gt_three; norm_num at *; linarith
      · linarith
    have := Real.mul_abs_le_abs_sin hle
    have hpi := Real.pi_le_four
    have h2 : 1 / 2 * |phi - x| ≤ 2 / Real.pi * |phi - x| := by
      apply mul_le_mul_of_nonneg_right _ (abs_nonneg _)
      rw [div_le_div_iff₀ (by norm_num) Real.pi_pos]; linarith
    linarith
  exact b4

theorem log_close {n : ℝ} (nh : 1 / 2 ≤ n) (hqn : |n - 1| ≤ 1 / 2 ^ 86) : |Real.log n| ≤ 1 / 2 ^ 85 := by
  have np : 0 < n := by linarith
  rw [abs_le] at hqn
  have h1 := Real.log_le_sub_one_of_pos np
  have h2 := Real.one_sub_inv_le_log_of_pos np
  have h3 : n * n⁻¹ = 1 := mul_inv_cancel₀ np.ne'
  have h4 : n⁻¹ ≤ 2 := by
    rw [inv_le_comm₀ np (by norm_num)]; linarith
  have h5 : 0 < n⁻¹ := inv_pos.2 np
  have h6 : -(1 / 2 ^ 85) ≤ 1 - n⁻¹ := by
    have : 1 - n⁻¹ = n⁻¹ * (n - 1) := by rw [mul_sub, mul_comm, h3, mul_one]
    rw [this]
    norm_num at *
    nlinarith
  rw [abs_le]; constructor
  · linarith
  · norm_num at *; linarith

/-- C28: below that, it inverts it to within 2^-84. -/
theorem C28_ln_exp_series (v : V3) (h : vnorm v < 1 / 2 ^ 13) :
    ∃ r, qln (qpexp v) = some r ∧ ‖r.den - v.pure‖ ≤ 1 / 2 ^ 84 := by
  have x0 := vnorm_nonneg v
  obtain ⟨_, _, _, hser⟩ := sinccos2_spec x0
  obtain ⟨s7, c6, e⟩ := hser h
  have hqn := (C28_qpexp v).2.2
  generalize hx : vnorm v = x at *
  have hsc : 0 ≤ (sinccos2 (x * x)).1 := by
    rw [e]; simp only [sincSeries2, horner3]; nlinarith
  have hS := qpexp_vec_norm v (by rw [hx]; exact hsc)
  rw [hx] at hS
  have hw : (qpexp v).w = (sinccos2 (x * x)).2 := by
    rw [qpexp, ← vnorm_sq, hx]
  have hqp : qpexp v = ⟨(sinccos2 (x * x)).1 * v.x, (sinccos2 (x * x)).1 * v.y,
      (sinccos2 (x * x)).1 * v.z, (sinccos2 (x * x)).2⟩ := by
    rw [qpexp, ← vnorm_sq, hx]
  generalize hc' : (sinccos2 (x * x)).2 = c at *
  generalize hs' : (sinccos2 (x * x)).1 = sc at *
  have cpos : 1 / 2 ≤ c := by
    have : c = cosSeries2 (x * x) := by rw [← hc', e]
    rw [this]; simp only [cosSeries2, horner3]
    nlinarith
  obtain ⟨np, hs, hc, p0, p1⟩ := polar (sc * x) c (mul_nonneg hsc x0) (Or.inr (by linarith))
  have hn : Real.sqrt (sc * x * (sc * x) + c * c) = qnorm (qpexp v) := by
    rw [← qnorm_eq, ← vnorm_sq, hS, hw]
  rw [hn] at np hs hc
  generalize hphi : atan2 (sc * x) c = phi at *
  generalize hnn : qnorm (qpexp v) = n at *
  rw [abs_le] at hqn s7 c6
  have nh : 1 / 2 ≤ n := by norm_num at *; linarith
  have b4 := angle_close x0 h hs hc p0 p1 nh cpos (abs_le.2 s7) (abs_le.2 c6)
  have t7 : x ^ 7 ≤ (1 / 2 ^ 13) ^ 7 := pow_le_pow_left₀ x0 h.le 7
  rw [abs_le] at b4
  have hlog := log_close nh (abs_le.2 hqn)
  have hcs : ∀ a : ℝ, (⟨a * (sc * v.x), a * (sc * v.y), a * (sc * v.z), Real.log n⟩ : Quat).den -
      v.pure = ((Real.log n : ℝ) : ℍ[ℝ]) + (a * sc - 1) • v.pure := by
    intro a; ext <;> simp <;> ring
  have ha : qangle (qpexp v) = phi := by rw [qangle, hS, hw, hphi]
  rw [qln_eq, ha, hnn, hS, hqp]
  simp only
  by_cases hb : phi < 1 / 2 ^ 13
  · rw [if_pos hb, if_neg np.ne']
    refine ⟨_, rfl, ?_⟩
    rw [hcs]
    refine (norm_cs _ _ _).trans ?_
    have ht := Taylor.invsinc_series p0 (hb.le.trans (by norm_num))
    have p7 : phi ^ 7 ≤ (1 / 2 ^ 13) ^ 7 := pow_le_pow_left₀ p0 hb.le 7
    have e2 : (invsincSeries phi / n * sc - 1) * vnorm v = invsincSeries phi * Real.sin phi - x := by
      rw [hx]
      have : Real.sin phi = sc * x / n := by rw [← hs]; field_simp
      rw [this]; field_simp
    rw [e2]
    have : |invsincSeries phi * Real.sin phi - x| ≤ 1 / 2 ^ 85 := by
      rw [invsincSeries, invsincSeries2, horner3, abs_le]
      norm_num at *
      constructor <;> linarith
    norm_num at *
    linarith
  · have xpos : 0 < sc * x := by
      rcases eq_or_lt_of_le (mul_nonneg hsc x0) with h0 | h0
      · exfalso
        rw [← h0] at hs
        have hsin : Real.sin phi = 0 := by
          rcases mul_eq_zero.1 hs with h | h
          · exact absurd h np.ne'
          · exact h
        have : 0 < phi := lt_of_lt_of_le (by norm_num) (not_lt.1 hb)
        exact absurd hsin (Real.sin_pos_of_pos_of_lt_pi this (by
          have := Real.pi_gt_three
          norm_num at h b4 t7
          linarith)).ne'
      · exact h0
    rw [if_neg hb, if_neg xpos.ne']
    refine ⟨_, rfl, ?_⟩
    rw [hcs]
    refine (norm_cs _ _ _).trans ?_
    have e2 : (phi / (sc * x) * sc - 1) * vnorm v = phi - x := by
      rw [hx]
      have hx0 : x ≠ 0 := by rintro rfl; simp at xpos
      have hsc0 : sc ≠ 0 := by rintro rfl; simp at xpos
      field_simp
    rw [e2]
    have : |phi - x| ≤ 1 / 2 ^ 85 := by
      rw [abs_le]
      norm_num at *
      constructor <;> linarith
    norm_num at *
    linarith

/-- C28: powers: `aa_tf_qpow` is `exp(a ln q)` up to the series bounds. -/
theorem C28_pow (q : Quat) (a : ℝ) (h : vnorm q.vec ≠ 0 ∨ 0 < q.w)
    (h1 : 1 / 2 ^ 13 ≤ qangle q) (h2 : 1 / 2 ^ 13 ≤ |a| * qangle q) :
    ∃ r, qpow q a = some r ∧ ∃ L : ℍ[ℝ], exp L = q.den ∧ r.den = exp (a • L) := by
  obtain ⟨l, hl, L, hL, _, _, he⟩ := C28_exp_ln_partial q h
  rw [qpow, hl]
  refine ⟨_, rfl, L, hL, ?_⟩
  have hd : (⟨l.x * a, l.y * a, l.z * a, l.w * a⟩ : Quat).den = a • L := by
    rw [← he h1]; ext <;> simp <;> ring
  rw [(C28_qexp _).1, hd]
  -- the norm of the vector part of the logarithm is the angle
  have hang : vnorm l.vec = qangle q := by
    have hv : qln q = some l := hl
    rw [qln_eq, if_neg (not_lt.2 h1)] at hv
    split_ifs at hv with h0
    simp only [Option.some.injEq] at hv
    have hp : 0 ≤ qangle q := le_trans (by norm_num) h1
    rw [← hv, vnorm]
    rw [Real.sqrt_eq_iff_mul_self_eq (vdot_nonneg _) hp]
    have := vnorm_sq q.vec
    simp only [Quat.vec, vdot] at *
    field_simp
    linear_combination -this
  have : vnorm (Quat.vec ⟨l.x * a, l.y * a, l.z * a, l.w * a⟩) = |a| * vnorm l.vec := by
    rw [vnorm, Real.sqrt_eq_iff_mul_self_eq (vdot_nonneg _) (mul_nonneg (abs_nonneg _) (vnorm_nonneg _))]
    have := vnorm_sq l.vec
    have ha : |a| * |a| = a * a := abs_mul_abs_self a
    simp only [Quat.vec, vdot] at *
    linear_combination (-(|a| * |a|)) * this - (l.x * l.x + l.y * l.y + l.z * l.z) * ha
  rw [this, hang]
  exact h2

/-- Instances: a rotation vector in the trigonometric branch, one in the series branch, and a unit
quaternion that is not real. -/
example : (1 / 2 ^ 13 ≤ vnorm ⟨3 / 5, 0, 4 / 5⟩ ∧ vnorm ⟨3 / 5, 0, 4 / 5⟩ < Real.pi) ∧
    vnorm ⟨0, 0, 1 / 2 ^ 20⟩ < 1 / 2 ^ 13 ∧ vnorm (Quat.vec ⟨3 / 5, 0, 0, -4 / 5⟩) ≠ 0 := by
  have h1 : vnorm ⟨3 / 5, 0, 4 / 5⟩ = 1 := by norm_num [vnorm, vdot]
  have h2 : vnorm ⟨0, 0, 1 / 2 ^ 20⟩ = 1 / 2 ^ 20 := by
    rw [vnorm, Real.sqrt_eq_iff_mul_self_eq (vdot_nonneg _) (by norm_num)]; norm_num [vdot]
  have h3 : vnorm (Quat.vec ⟨3 / 5, 0, 0, -4 / 5⟩) = 3 / 5 := by
    rw [vnorm, Real.sqrt_eq_iff_mul_self_eq (vdot_nonneg _) (by norm_num)]
    norm_num [vdot, Quat.vec]
  rw [h1, h2, h3]
  refine ⟨⟨by norm_num, by linarith [Real.pi_gt_three]⟩, by norm_num, by norm_num⟩

end Verif.Tf
