import Verif.Model.TfPde
import Verif.Prop.Vel
import Verif.Prop.Exp
import Mathlib.Analysis.SpecialFunctions.Complex.LogDeriv
import Mathlib.Analysis.SpecialFunctions.Sqrt
import Mathlib.Analysis.SpecialFunctions.Trigonometric.ArctanDeriv

/-!
# Differentiating the quaternion logarithm

Calculus facts about `atan2(|v|, w) / |v|` along differentiable paths.
-/

namespace Verif.Tf

open Quaternion NormedSpace Filter Topology Asymptotics

theorem Quat.hasDeriv_iff {p : ℝ → Quat} {dp : Quat} {t : ℝ} : Quat.HasDeriv p dp t ↔
    HasDerivAt (fun s => (p s).x) dp.x t ∧ HasDerivAt (fun s => (p s).y) dp.y t ∧
    HasDerivAt (fun s => (p s).z) dp.z t ∧ HasDerivAt (fun s => (p s).w) dp.w t := by
  constructor
  · intro h
    have := HasDerivAt.quat h
    simp at this
    tauto
  · rintro ⟨hx, hy, hz, hw⟩
    have := (((hx.smul_const (Quat.den ⟨1, 0, 0, 0⟩)).add
      (hy.smul_const (Quat.den ⟨0, 1, 0, 0⟩))).add
      (hz.smul_const (Quat.den ⟨0, 0, 1, 0⟩))).add (hw.smul_const (Quat.den ⟨0, 0, 0, 1⟩))
    have e1 : dp.den = dp.x • Quat.den ⟨1, 0, 0, 0⟩ + dp.y • Quat.den ⟨0, 1, 0, 0⟩ +
        dp.z • Quat.den ⟨0, 0, 1, 0⟩ + dp.w • Quat.den ⟨0, 0, 0, 1⟩ := by ext <;> simp
    have e2 : (fun s => (p s).den) = fun s => (p s).x • Quat.den ⟨1, 0, 0, 0⟩ +
        (p s).y • Quat.den ⟨0, 1, 0, 0⟩ + (p s).z • Quat.den ⟨0, 0, 1, 0⟩ +
        (p s).w • Quat.den ⟨0, 0, 0, 1⟩ := by funext s; ext <;> simp
    rw [Quat.HasDeriv, e1, e2]
    exact this

theorem hasDerivAt_atan2 {s w : ℝ → ℝ} {ds dw t : ℝ} (hs : HasDerivAt s ds t)
    (hw : HasDerivAt w dw t) (h : s t ≠ 0 ∨ 0 < w t) :
    HasDerivAt (fun u => atan2 (s u) (w u))
      ((w t * ds - s t * dw) / (s t * s t + w t * w t)) t := by
  have hf : HasDerivAt (fun u => ((w u : ℂ) + (s u : ℂ) * Complex.I)) (dw + ds * Complex.I) t :=
    hw.ofReal_comp.add (hs.ofReal_comp.mul_const _)
  have hm : ((w t : ℂ) + (s t : ℂ) * Complex.I) ∈ Complex.slitPlane := by
    rw [Complex.mem_slitPlane_iff]
    simp
    tauto
  have hl := hf.clog_real hm
  have hi := Complex.imCLM.hasFDerivAt.comp_hasDerivAt t hl
  have he : (fun u => atan2 (s u) (w u)) =
      (Complex.imCLM ∘ fun u => Complex.log ((w u : ℂ) + (s u : ℂ) * Complex.I)) := by
    funext u
    simp only [Function.comp, Complex.imCLM_apply, Complex.log_im, atan2]
    congr 1
    apply Complex.ext <;> simp
  rw [he]
  refine hi.congr_deriv ?_
  simp only [Complex.imCLM_apply, Complex.div_im, Complex.normSq_apply]
  simp
  have hp : 0 < s t * s t + w t * w t := by
    rcases h with h | h
    · nlinarith [mul_self_pos.2 h, mul_self_nonneg (w t)]
    · nlinarith [mul_self_nonneg (s t), mul_pos h h]
  have hp' : w t * w t + s t * s t ≠ 0 := by linarith
  field_simp
  ring

/-! ## The logarithm and the functions in its derivative -/

/-- `|v|²`. -/
def qvv (q : Quat) : ℝ := vdot q.vec q.vec

/-- `|q|²`. -/
def qqq (q : Quat) : ℝ := qvv q + q.w * q.w

/-- the angle between `q` and the positive reals over the length of the vector part. -/
noncomputable def lnEta (q : Quat) : ℝ := qangle q / vnorm q.vec

noncomputable def lnZeta (q : Quat) : ℝ := (q.w / qqq q - lnEta q) / qvv q

noncomputable def lnMu (q : Quat) : ℝ :=
  (-2 * q.w / (qqq q * qqq q) - 3 * lnZeta q) / qvv q

theorem qvv_nonneg (q : Quat) : 0 ≤ qvv q := vdot_nonneg _

theorem qvv_eq (q : Quat) : vnorm q.vec * vnorm q.vec = qvv q := vnorm_sq _

theorem qvv_pos {q : Quat} (h : vnorm q.vec ≠ 0) : 0 < qvv q := by
  rw [← qvv_eq]; exact mul_self_pos.2 h

theorem qqq_pos {q : Quat} (h : vnorm q.vec ≠ 0 ∨ 0 < q.w) : 0 < qqq q := by
  rw [qqq]
  rcases h with h | h
  · nlinarith [qvv_pos h, mul_self_nonneg q.w]
  · nlinarith [qvv_nonneg q, mul_pos h h]

section
variable {Q : ℝ → Quat} {D : Quat} {t : ℝ}

theorem hasDerivAt_vdot (h : Quat.HasDeriv Q D t) :
    HasDerivAt (fun s => qvv (Q s)) (2 * vdot (Q t).vec D.vec) t := by
  obtain ⟨hx, hy, hz, -⟩ := Quat.hasDeriv_iff.1 h
  refine (((hx.mul hx).add (hy.mul hy)).add (hz.mul hz)).congr_deriv ?_
  simp [vdot, Quat.vec]; ring

theorem hasDerivAt_qqq (h : Quat.HasDeriv Q D t) :
    HasDerivAt (fun s => qqq (Q s)) (2 * (vdot (Q t).vec D.vec + (Q t).w * D.w)) t := by
  obtain ⟨-, -, -, hw⟩ := Quat.hasDeriv_iff.1 h
  refine ((hasDerivAt_vdot h).add (hw.mul hw)).congr_deriv ?_
  ring

theorem hasDerivAt_vnorm (h : Quat.HasDeriv Q D t) (h0 : vnorm (Q t).vec ≠ 0) :
    HasDerivAt (fun s => vnorm (Q s).vec) (vdot (Q t).vec D.vec / vnorm (Q t).vec) t := by
  have := (hasDerivAt_vdot h).sqrt (qvv_pos h0).ne'
  refine this.congr_deriv ?_
  show _ / (2 * vnorm (Q t).vec) = _
  field_simp

theorem hasDerivAt_eta (h : Quat.HasDeriv Q D t) (h0 : vnorm (Q t).vec ≠ 0) :
    HasDerivAt (fun s => lnEta (Q s))
      (lnZeta (Q t) * vdot (Q t).vec D.vec - D.w / qqq (Q t)) t := by
  obtain ⟨-, -, -, hw⟩ := Quat.hasDeriv_iff.1 h
  have hs := hasDerivAt_vnorm h h0
  have ha := hasDerivAt_atan2 hs hw (Or.inl h0)
  refine (ha.div hs h0).congr_deriv ?_
  have e1 : vnorm (Q t).vec * vnorm (Q t).vec + (Q t).w * (Q t).w = qqq (Q t) := by
    rw [qvv_eq, qqq]
  have hq : qqq (Q t) ≠ 0 := (qqq_pos (Or.inl h0)).ne'
  have hv : qvv (Q t) ≠ 0 := (qvv_pos h0).ne'
  rw [e1, lnZeta, lnEta]
  show _ = ((Q t).w / qqq (Q t) - atan2 (vnorm (Q t).vec) (Q t).w / _) / _ * _ - _
  have hv2 : vnorm (Q t).vec ^ 2 = qvv (Q t) := by rw [sq, qvv_eq]
  rw [hv2, ← hv2]
  field_simp
  ring

theorem hasDerivAt_zeta (h : Quat.HasDeriv Q D t) (h0 : vnorm (Q t).vec ≠ 0) :
    HasDerivAt (fun s => lnZeta (Q s))
      (lnMu (Q t) * vdot (Q t).vec D.vec + 2 * D.w / (qqq (Q t) * qqq (Q t))) t := by
  obtain ⟨-, -, -, hw⟩ := Quat.hasDeriv_iff.1 h
  have hq : qqq (Q t) ≠ 0 := (qqq_pos (Or.inl h0)).ne'
  have hv : qvv (Q t) ≠ 0 := (qvv_pos h0).ne'
  refine (((hw.div (hasDerivAt_qqq h) hq).sub (hasDerivAt_eta h h0)).div
    (hasDerivAt_vdot h) hv).congr_deriv ?_
  simp only [Pi.sub_apply, Pi.div_apply]
  rw [lnMu, lnZeta]
  have e : (Q t).w * (Q t).w = qqq (Q t) - qvv (Q t) := by rw [qqq]; ring
  generalize vdot (Q t).vec D.vec = g
  generalize lnEta (Q t) = eta
  generalize qqq (Q t) = r at *
  generalize qvv (Q t) = v at *
  generalize (Q t).w = w at *
  field_simp
  linear_combination (-2 * D.w * v) * e

end

/-- Specification: the principal logarithm, `log |q|` and the angle along the vector part. -/
noncomputable def qlog (q : Quat) : Quat :=
  ⟨lnEta q * q.x, lnEta q * q.y, lnEta q * q.z, Real.log (qnorm q)⟩

/-- The product of a 4x4 matrix with a quaternion array. -/
def mul4 (J : Fin 4 → Fin 4 → ℝ) (d : Quat) : Quat :=
  let r := fun i => J i 0 * d.x + J i 1 * d.y + J i 2 * d.z + J i 3 * d.w
  ⟨r 0, r 1, r 2, r 3⟩

theorem qnorm_qqq (q : Quat) : qnorm q = Real.sqrt (qqq q) := by
  rw [← qnorm_eq]; rfl

theorem hasDerivAt_log {Q : ℝ → Quat} {D : Quat} {t : ℝ} (h : Quat.HasDeriv Q D t)
    (h0 : vnorm (Q t).vec ≠ 0 ∨ 0 < (Q t).w) :
    HasDerivAt (fun s => Real.log (qnorm (Q s)))
      ((vdot (Q t).vec D.vec + (Q t).w * D.w) / qqq (Q t)) t := by
  have hq := qqq_pos h0
  have := ((hasDerivAt_qqq h).log hq.ne').div_const 2
  have e : (fun s => Real.log (qnorm (Q s))) = fun s => Real.log (qqq (Q s)) / 2 := by
    funext s
    rw [qnorm_qqq, Real.log_sqrt]
    rw [qqq]; nlinarith [qvv_nonneg (Q s), mul_self_nonneg (Q s).w]
  rw [e]
  refine this.congr_deriv ?_
  field_simp

/-- Away from the reals the filled matrix is the derivative of the logarithm. -/
theorem hasDeriv_qlog {Q : ℝ → Quat} {D : Quat} {t : ℝ} (h : Quat.HasDeriv Q D t)
    (h0 : vnorm (Q t).vec ≠ 0) :
    Quat.HasDeriv (fun s => qlog (Q s))
      (mul4 (qlnJacFill (Q t) (qqq (Q t)) (lnZeta (Q t)) (lnEta (Q t))) D) t := by
  obtain ⟨hx, hy, hz, hw⟩ := Quat.hasDeriv_iff.1 h
  have he := hasDerivAt_eta h h0
  have hl := hasDerivAt_log h (Or.inl h0)
  have hq : qqq (Q t) ≠ 0 := (qqq_pos (Or.inl h0)).ne'
  rw [Quat.hasDeriv_iff]
  refine ⟨?_, ?_, ?_, ?_⟩
  · refine (he.mul hx).congr_deriv ?_
    simp [mul4, qlnJacFill, fillUplo, vdot, Quat.vec]; field_simp; ring
  · refine (he.mul hy).congr_deriv ?_
    simp [mul4, qlnJacFill, fillUplo, vdot, Quat.vec]; field_simp; ring
  · refine (he.mul hz).congr_deriv ?_
    simp [mul4, qlnJacFill, fillUplo, vdot, Quat.vec]; field_simp; ring
  · refine hl.congr_deriv ?_
    simp [mul4, qlnJacFill, fillUplo, vdot, Quat.vec]; field_simp

/-! ## At the positive reals -/

/-- A function squeezed by one with a vanishing derivative. -/
theorem hasDerivAt_of_le {f g : ℝ → ℝ} {t C : ℝ} (hg : HasDerivAt g 0 t) (h0 : g t = 0)
    (h : ∀ᶠ s in 𝓝 t, |f s - f t| ≤ C * |g s|) : HasDerivAt f 0 t := by
  rw [hasDerivAt_iff_isLittleO] at hg ⊢
  have hb : (fun s => f s - f t - (s - t) • (0 : ℝ)) =O[𝓝 t] fun s => g s - g t - (s - t) • (0 : ℝ) := by
    refine IsBigO.of_bound C ?_
    filter_upwards [h] with s hs
    simpa [h0] using hs
  exact hb.trans_isLittleO hg

theorem arctan_bound (x : ℝ) : |Real.arctan x - x| ≤ |x| ^ 3 := by
  have h0 : ∀ y : ℝ, 0 ≤ y → 0 ≤ y - Real.arctan y ∧ y - Real.arctan y ≤ y ^ 3 := by
    intro y hy
    have m1 : MonotoneOn (fun z => z - Real.arctan z) (Set.Ici 0) := by
      have hd : ∀ z : ℝ, HasDerivAt (fun z => z - Real.arctan z) (1 - 1 / (1 + z ^ 2)) z :=
        fun z => (hasDerivAt_id z).sub (Real.hasDerivAt_arctan z)
      apply monotoneOn_of_deriv_nonneg (convex_Ici 0)
      · exact fun z _ => (hd z).continuousAt.continuousWithinAt
      · exact fun z _ => (hd z).differentiableAt.differentiableWithinAt
      · intro z _
        rw [(hd z).deriv]
        have : 1 / (1 + z ^ 2) ≤ 1 := by
          rw [div_le_one (by positivity)]; nlinarith [sq_nonneg z]
        linarith
    have m2 : MonotoneOn (fun z => z ^ 3 - (z - Real.arctan z)) (Set.Ici 0) := by
      have hd : ∀ z : ℝ, HasDerivAt (fun z => z ^ 3 - (z - Real.arctan z))
          (3 * z ^ 2 - (1 - 1 / (1 + z ^ 2))) z := by
        intro z
        refine ((hasDerivAt_pow 3 z).sub
          ((hasDerivAt_id z).sub (Real.hasDerivAt_arctan z))).congr_deriv ?_
        simp
      apply monotoneOn_of_deriv_nonneg (convex_Ici 0)
      · exact fun z _ => (hd z).continuousAt.continuousWithinAt
      · exact fun z _ => (hd z).differentiableAt.differentiableWithinAt
      · intro z _
        rw [(hd z).deriv]
        have : 1 - 1 / (1 + z ^ 2) ≤ z ^ 2 := by
          rw [sub_le_iff_le_add, ← sub_le_iff_le_add', le_div_iff₀ (by positivity)]
          nlinarith [sq_nonneg z, sq_nonneg (z ^ 2)]
        nlinarith [sq_nonneg z]
    have e1 := m1 (Set.mem_Ici.2 le_rfl) (Set.mem_Ici.2 hy) hy
    have e2 := m2 (Set.mem_Ici.2 le_rfl) (Set.mem_Ici.2 hy) hy
    simp at e1 e2
    exact ⟨by linarith, by linarith⟩
  rcases le_total 0 x with hx | hx
  · have := h0 x hx
    rw [abs_sub_comm, abs_of_nonneg this.1, abs_of_nonneg hx]
    exact this.2
  · have := h0 (-x) (by linarith)
    rw [Real.arctan_neg] at this
    rw [abs_of_nonneg (by linarith), abs_of_nonpos hx]
    linarith

/-- Near the positive reals. -/
theorem eta_close {q : Quat} (hw : 0 < q.w) (h0 : vnorm q.vec ≠ 0) :
    |lnEta q - 1 / q.w| ≤ qvv q / q.w ^ 3 ∧ |lnZeta q| ≤ 2 / q.w ^ 3 := by
  have hs : 0 < vnorm q.vec := lt_of_le_of_ne (vnorm_nonneg _) (Ne.symm h0)
  have hv := qvv_pos h0
  have ha : qangle q = Real.arctan (vnorm q.vec / q.w) := by
    rw [qangle, atan2, Complex.arg_of_re_nonneg (by simpa using hw.le), Real.arctan_eq_arcsin]
    congr 1
    rw [Complex.norm_def, Complex.normSq_apply]
    simp only
    have : q.w * q.w + vnorm q.vec * vnorm q.vec =
        q.w ^ 2 * (1 + (vnorm q.vec / q.w) ^ 2) := by field_simp
    rw [this, Real.sqrt_mul (by positivity), Real.sqrt_sq hw.le]
    field_simp
  have h1 : |lnEta q - 1 / q.w| ≤ qvv q / q.w ^ 3 := by
    have e : lnEta q - 1 / q.w =
        (Real.arctan (vnorm q.vec / q.w) - vnorm q.vec / q.w) / vnorm q.vec := by
      rw [lnEta, ha]; field_simp
    rw [e, abs_div, abs_of_pos hs, div_le_iff₀ hs]
    refine (arctan_bound _).trans ?_
    rw [abs_of_nonneg (by positivity), ← qvv_eq]
    apply le_of_eq
    field_simp
  refine ⟨h1, ?_⟩
  have hq := qqq_pos (Or.inl h0)
  have h2 : |q.w / qqq q - 1 / q.w| ≤ qvv q / q.w ^ 3 := by
    have e : q.w / qqq q - 1 / q.w = -(qvv q / (qqq q * q.w)) := by
      have : q.w * q.w = qqq q - qvv q := by rw [qqq]; ring
      field_simp; linear_combination this
    rw [e, abs_neg, abs_of_pos (by positivity)]
    apply div_le_div_of_nonneg_left hv.le (by positivity)
    have : q.w * q.w ≤ qqq q := by rw [qqq]; linarith
    nlinarith
  rw [lnZeta, abs_div, abs_of_pos hv, div_le_iff₀ hv]
  have := abs_sub_le (q.w / qqq q) (1 / q.w) (lnEta q)
  rw [abs_sub_comm (1 / q.w)] at this
  calc _ ≤ _ := this
    _ ≤ qvv q / q.w ^ 3 + qvv q / q.w ^ 3 := add_le_add h2 h1
    _ = _ := by ring

theorem vec_zero {q : Quat} (h0 : vnorm q.vec = 0) : q.x = 0 ∧ q.y = 0 ∧ q.z = 0 := by
  have := qvv_eq q
  rw [h0] at this
  simp only [qvv, vdot, Quat.vec] at this
  refine ⟨?_, ?_, ?_⟩ <;>
    nlinarith [mul_self_nonneg q.x, mul_self_nonneg q.y, mul_self_nonneg q.z]

/-- A component of the vector part divided by its sine, near the positive reals. -/
theorem hasDerivAt_eta_mul {Q : ℝ → Quat} {D : Quat} {t : ℝ} (h : Quat.HasDeriv Q D t)
    (h0 : vnorm (Q t).vec = 0) (hw0 : 0 < (Q t).w) {x : ℝ → ℝ} {dx : ℝ} (hx : HasDerivAt x dx t)
    (hb : ∀ s, |x s| ≤ vnorm (Q s).vec) :
    HasDerivAt (fun s => lnEta (Q s) * x s) (dx / (Q t).w) t := by
  obtain ⟨-, -, -, hw⟩ := Quat.hasDeriv_iff.1 h
  obtain ⟨z1, z2, z3⟩ := vec_zero h0
  have hxt : x t = 0 := abs_eq_zero.1 (le_antisymm (h0 ▸ hb t) (abs_nonneg _))
  have hvv : HasDerivAt (fun s => qvv (Q s)) 0 t :=
    (hasDerivAt_vdot h).congr_deriv (by simp [vdot, Quat.vec, z1, z2, z3])
  have hvt : qvv (Q t) = 0 := by rw [← qvv_eq, h0]; ring
  have main := hx.div hw hw0.ne'
  have rest : HasDerivAt (fun s => lnEta (Q s) * x s - x s / (Q s).w) 0 t := by
    refine hasDerivAt_of_le (C := 8 / (Q t).w ^ 3) hvv hvt ?_
    have e1 : ∀ᶠ s in 𝓝 t, (Q t).w / 2 < (Q s).w :=
      hw.continuousAt.eventually (lt_mem_nhds (by linarith))
    have e2 : ∀ᶠ s in 𝓝 t, |x s| < 1 := by
      have : Tendsto (fun s => |x s|) (𝓝 t) (𝓝 |x t|) := hx.continuousAt.abs
      exact this.eventually (gt_mem_nhds (by rw [hxt]; norm_num))
    filter_upwards [e1, e2] with s h1 h2
    have hp : 0 < (Q s).w := by linarith
    rw [hxt]
    simp only [mul_zero, zero_div, sub_zero]
    rw [abs_of_nonneg (qvv_nonneg _)]
    by_cases hz : vnorm (Q s).vec = 0
    · have : x s = 0 := abs_eq_zero.1 (le_antisymm (hz ▸ hb s) (abs_nonneg _))
      rw [this, ← qvv_eq, hz]; simp
    · have hc := (eta_close hp hz).1
      have e : lnEta (Q s) * x s - x s / (Q s).w = (lnEta (Q s) - 1 / (Q s).w) * x s := by
        field_simp
      rw [e, abs_mul]
      have hw8 : qvv (Q s) / (Q s).w ^ 3 ≤ 8 / (Q t).w ^ 3 * qvv (Q s) := by
        rw [div_mul_eq_mul_div, div_le_div_iff₀ (by positivity) (by positivity)]
        have : (Q t).w ^ 3 ≤ 8 * (Q s).w ^ 3 := by
          have := pow_le_pow_left₀ (by linarith) h1.le 3
          rw [div_pow] at this
          linarith
        nlinarith [qvv_nonneg (Q s)]
      calc |lnEta (Q s) - 1 / (Q s).w| * |x s| ≤ (qvv (Q s) / (Q s).w ^ 3) * 1 := by
            apply mul_le_mul hc h2.le (abs_nonneg _)
            exact div_nonneg (qvv_nonneg _) (by positivity)
        _ ≤ _ := by rw [mul_one]; exact hw8
  have := rest.add main
  have e : (fun s => lnEta (Q s) * x s) =
      ((fun s => lnEta (Q s) * x s - x s / (Q s).w) + (x / fun s => (Q s).w)) := by
    funext s; simp
  rw [e]
  refine this.congr_deriv ?_
  rw [hxt]; field_simp; ring

theorem abs_le_vnorm (q : Quat) :
    |q.x| ≤ vnorm q.vec ∧ |q.y| ≤ vnorm q.vec ∧ |q.z| ≤ vnorm q.vec := by
  refine ⟨?_, ?_, ?_⟩ <;> apply Real.abs_le_sqrt <;> simp only [vdot, Quat.vec] <;>
    nlinarith [mul_self_nonneg q.x, mul_self_nonneg q.y, mul_self_nonneg q.z]

/-- At the positive reals the filled matrix with `eta = 1/w` is the derivative of the logarithm. -/
theorem hasDeriv_qlog_real {Q : ℝ → Quat} {D : Quat} {t : ℝ} (h : Quat.HasDeriv Q D t)
    (h0 : vnorm (Q t).vec = 0) (hw0 : 0 < (Q t).w) (zeta : ℝ) :
    Quat.HasDeriv (fun s => qlog (Q s))
      (mul4 (qlnJacFill (Q t) (qqq (Q t)) zeta (1 / (Q t).w)) D) t := by
  obtain ⟨hx, hy, hz, hw⟩ := Quat.hasDeriv_iff.1 h
  obtain ⟨z1, z2, z3⟩ := vec_zero h0
  have hl := hasDerivAt_log h (Or.inr hw0)
  rw [Quat.hasDeriv_iff]
  refine ⟨?_, ?_, ?_, ?_⟩
  · refine (hasDerivAt_eta_mul h h0 hw0 hx fun s => (abs_le_vnorm _).1).congr_deriv ?_
    simp [mul4, qlnJacFill, fillUplo, z1, z2, z3]; ring
  · refine (hasDerivAt_eta_mul h h0 hw0 hy fun s => (abs_le_vnorm _).2.1).congr_deriv ?_
    simp [mul4, qlnJacFill, fillUplo, z1, z2, z3]; ring
  · refine (hasDerivAt_eta_mul h h0 hw0 hz fun s => (abs_le_vnorm _).2.2).congr_deriv ?_
    simp [mul4, qlnJacFill, fillUplo, z1, z2, z3]; ring
  · refine hl.congr_deriv ?_
    simp [mul4, qlnJacFill, fillUplo, vdot, Quat.vec, z1, z2, z3]; ring

/-! ## Dual part -/

/-- Specification: the dual part of the logarithm of a dual quaternion `r + ε d` is the derivative of
the logarithm at `r` in the direction `d`. -/
noncomputable def qlogDual (S : Duqu) : ℍ[ℝ] :=
  deriv (fun h => (qlog (qadd S.real (qscal S.dual h))).den) 0

open Classical in
/-- `lnEta` with its limit at the positive reals. -/
noncomputable def etaHat (q : Quat) : ℝ := if vnorm q.vec = 0 then 1 / q.w else lnEta q

open Classical in
noncomputable def zetaHat (q : Quat) : ℝ := if vnorm q.vec = 0 then 0 else lnZeta q

theorem hasDeriv_line (r d : Quat) : Quat.HasDeriv (fun h => qadd r (qscal d h)) d 0 := by
  rw [Quat.hasDeriv_iff]
  have : ∀ a b : ℝ, HasDerivAt (fun h : ℝ => a + b * h) b 0 := fun a b =>
    (((hasDerivAt_id (0 : ℝ)).const_mul b).const_add a).congr_deriv (by simp)
  exact ⟨this _ _, this _ _, this _ _, this _ _⟩

theorem line_zero (r d : Quat) : qadd r (qscal d 0) = r := by
  ext <;> simp [qadd, qscal]

/-- Closed form of the dual part. -/
noncomputable def dualForm (r d : Quat) : Quat :=
  let kd := vdot r.vec d.vec * zetaHat r - d.w / qqq r
  ⟨kd * r.x + etaHat r * d.x, kd * r.y + etaHat r * d.y, kd * r.z + etaHat r * d.z,
    (vdot r.vec d.vec + r.w * d.w) / qqq r⟩

theorem qlogDual_eq (S : Duqu) (h : vnorm S.real.vec ≠ 0 ∨ 0 < S.real.w) :
    qlogDual S = (dualForm S.real S.dual).den := by
  have hl := hasDeriv_line S.real S.dual
  have key : ∃ zeta, Quat.HasDeriv (fun h => qlog (qadd S.real (qscal S.dual h)))
      (mul4 (qlnJacFill S.real (qqq S.real) zeta (etaHat S.real)) S.dual) 0 ∧
      (zeta = zetaHat S.real) := by
    by_cases h0 : vnorm S.real.vec = 0
    · have hw : 0 < S.real.w := by tauto
      have := hasDeriv_qlog_real hl (by rw [line_zero]; exact h0) (by rw [line_zero]; exact hw) 0
      rw [line_zero] at this
      refine ⟨0, ?_, ?_⟩
      · rw [etaHat, if_pos h0]; exact this
      · rw [zetaHat, if_pos h0]
    · have := hasDeriv_qlog hl (by rw [line_zero]; exact h0)
      rw [line_zero] at this
      refine ⟨lnZeta S.real, ?_, ?_⟩
      · rw [etaHat, if_neg h0]; exact this
      · rw [zetaHat, if_neg h0]
  obtain ⟨zeta, hz, rfl⟩ := key
  rw [qlogDual]
  refine hz.deriv.trans ?_
  congr 1
  have hq : qqq S.real ≠ 0 := (qqq_pos h).ne'
  ext <;> simp [mul4, qlnJacFill, fillUplo, dualForm, vdot, Quat.vec] <;> field_simp <;> ring

section
variable {R P : ℝ → Quat} {dR dP : Quat} {t : ℝ}

theorem eventually_vnorm (h : Quat.HasDeriv R dR t) (h0 : vnorm (R t).vec ≠ 0) :
    ∀ᶠ s in 𝓝 t, vnorm (R s).vec ≠ 0 :=
  (hasDerivAt_vnorm h h0).continuousAt.eventually_ne h0

theorem hasDerivAt_dot (h : Quat.HasDeriv R dR t) (h' : Quat.HasDeriv P dP t) :
    HasDerivAt (fun s => vdot (R s).vec (P s).vec)
      (vdot dR.vec (P t).vec + vdot (R t).vec dP.vec) t := by
  obtain ⟨hx, hy, hz, -⟩ := Quat.hasDeriv_iff.1 h
  obtain ⟨gx, gy, gz, -⟩ := Quat.hasDeriv_iff.1 h'
  refine (((hx.mul gx).add (hy.mul gy)).add (hz.mul gz)).congr_deriv ?_
  simp [vdot, Quat.vec]; ring

theorem hasDerivAt_dw (h : Quat.HasDeriv R dR t) (h' : Quat.HasDeriv P dP t)
    (h0 : vnorm (R t).vec ≠ 0 ∨ 0 < (R t).w) :
    HasDerivAt (fun s => (vdot (R s).vec (P s).vec + (R s).w * (P s).w) / qqq (R s))
      ((vdot dR.vec (P t).vec + vdot (R t).vec dP.vec + (dR.w * (P t).w + (R t).w * dP.w)) / qqq (R t)
        - 2 * (vdot (R t).vec (P t).vec + (R t).w * (P t).w) * (vdot (R t).vec dR.vec + (R t).w * dR.w)
          / (qqq (R t) * qqq (R t))) t := by
  obtain ⟨-, -, -, hw⟩ := Quat.hasDeriv_iff.1 h
  obtain ⟨-, -, -, gw⟩ := Quat.hasDeriv_iff.1 h'
  have hq : qqq (R t) ≠ 0 := (qqq_pos h0).ne'
  refine (((hasDerivAt_dot h h').add (hw.mul gw)).div (hasDerivAt_qqq h) hq).congr_deriv ?_
  simp only [Pi.add_apply, Pi.mul_apply]
  field_simp

/-- The derivative of the dual part, away from the reals. -/
theorem hasDeriv_dual (h : Quat.HasDeriv R dR t) (h' : Quat.HasDeriv P dP t)
    (h0 : vnorm (R t).vec ≠ 0) :
    Quat.HasDeriv (fun s => dualForm (R s) (P s))
      (qadd (mul4 (duquLnJacDr (R t) (P t) (qqq (R t)) (lnZeta (R t)) (lnMu (R t))) dR)
        (mul4 (qlnJacFill (R t) (qqq (R t)) (lnZeta (R t)) (lnEta (R t))) dP)) t := by
  obtain ⟨hx, hy, hz, hw⟩ := Quat.hasDeriv_iff.1 h
  obtain ⟨gx, gy, gz, gw⟩ := Quat.hasDeriv_iff.1 h'
  have hq : qqq (R t) ≠ 0 := (qqq_pos (Or.inl h0)).ne'
  have he := hasDerivAt_eta h h0
  have hze := hasDerivAt_zeta h h0
  have hdt := hasDerivAt_dot h h'
  have hk := (hdt.mul hze).sub (gw.div (hasDerivAt_qqq h) hq)
  have ev := eventually_vnorm h h0
  have key : ∀ {f g : ℝ → ℝ} {df dg : ℝ}, HasDerivAt f df t → HasDerivAt g dg t →
      HasDerivAt (fun s => (vdot (R s).vec (P s).vec * zetaHat (R s) - (P s).w / qqq (R s)) * f s +
        etaHat (R s) * g s)
      (((vdot dR.vec (P t).vec + vdot (R t).vec dP.vec) * lnZeta (R t) +
        vdot (R t).vec (P t).vec * (lnMu (R t) * vdot (R t).vec dR.vec +
          2 * dR.w / (qqq (R t) * qqq (R t))) -
        (dP.w * qqq (R t) - (P t).w * (2 * (vdot (R t).vec dR.vec + (R t).w * dR.w))) /
          qqq (R t) ^ 2) * f t +
        (vdot (R t).vec (P t).vec * lnZeta (R t) - (P t).w / qqq (R t)) * df +
        ((lnZeta (R t) * vdot (R t).vec dR.vec - dR.w / qqq (R t)) * g t + lnEta (R t) * dg)) t := by
    intro f g df dg hf hg
    have := (hk.mul hf).add (he.mul hg)
    refine (this.congr_of_eventuallyEq ?_).congr_deriv ?_
    · filter_upwards [ev] with s hs
      simp [zetaHat, etaHat, if_neg hs]
    · simp
  rw [Quat.hasDeriv_iff]
  refine ⟨?_, ?_, ?_, ?_⟩
  · refine (key hx gx).congr_deriv ?_
    simp [qadd, mul4, qlnJacFill, duquLnJacDr, fillUplo, vdot, Quat.vec, Quat.at]; field_simp; ring
  · refine (key hy gy).congr_deriv ?_
    simp [qadd, mul4, qlnJacFill, duquLnJacDr, fillUplo, vdot, Quat.vec, Quat.at]; field_simp; ring
  · refine (key hz gz).congr_deriv ?_
    simp [qadd, mul4, qlnJacFill, duquLnJacDr, fillUplo, vdot, Quat.vec, Quat.at]; field_simp; ring
  · refine (hasDerivAt_dw h h' (Or.inl h0)).congr_deriv ?_
    simp [qadd, mul4, qlnJacFill, duquLnJacDr, fillUplo, vdot, Quat.vec, Quat.at]; field_simp; ring

theorem eventually_w (h : Quat.HasDeriv R dR t) (hw0 : 0 < (R t).w) :
    ∀ᶠ s in 𝓝 t, (R t).w / 2 < (R s).w :=
  (Quat.hasDeriv_iff.1 h).2.2.2.continuousAt.eventually (lt_mem_nhds (by linarith))

theorem cube_half {a b : ℝ} (ha : 0 < a) (h : a / 2 < b) : 1 / b ^ 3 ≤ 8 / a ^ 3 := by
  have hb : 0 < b := by linarith
  rw [div_le_div_iff₀ (by positivity) (by positivity)]
  have := pow_le_pow_left₀ (by linarith) h.le 3
  rw [div_pow] at this
  linarith

theorem hasDerivAt_etaHat (h : Quat.HasDeriv R dR t) (h0 : vnorm (R t).vec = 0)
    (hw0 : 0 < (R t).w) :
    HasDerivAt (fun s => etaHat (R s)) (-dR.w / ((R t).w * (R t).w)) t := by
  obtain ⟨-, -, -, hw⟩ := Quat.hasDeriv_iff.1 h
  obtain ⟨z1, z2, z3⟩ := vec_zero h0
  have hvv : HasDerivAt (fun s => qvv (R s)) 0 t :=
    (hasDerivAt_vdot h).congr_deriv (by simp [vdot, Quat.vec, z1, z2, z3])
  have hvt : qvv (R t) = 0 := by rw [← qvv_eq, h0]; ring
  have rest : HasDerivAt (fun s => etaHat (R s) - 1 / (R s).w) 0 t := by
    refine hasDerivAt_of_le (C := 8 / (R t).w ^ 3) hvv hvt ?_
    filter_upwards [eventually_w h hw0] with s h1
    have hp : 0 < (R s).w := by linarith
    have et : etaHat (R t) - 1 / (R t).w = 0 := by rw [etaHat, if_pos h0, sub_self]
    rw [et, sub_zero, abs_of_nonneg (qvv_nonneg _)]
    by_cases hz : vnorm (R s).vec = 0
    · rw [etaHat, if_pos hz, sub_self, abs_zero]
      have := qvv_nonneg (R s)
      positivity
    · rw [etaHat, if_neg hz]
      refine (eta_close hp hz).1.trans ?_
      rw [div_eq_mul_one_div, mul_comm]
      exact mul_le_mul_of_nonneg_right (cube_half hw0 h1) (qvv_nonneg _)
  have main := (hasDerivAt_const t (1 : ℝ)).div hw hw0.ne'
  have := rest.add main
  have e : (fun s => etaHat (R s)) =
      ((fun s => etaHat (R s) - 1 / (R s).w) + ((fun _ => (1 : ℝ)) / fun s => (R s).w)) := by
    funext s; simp
  rw [e]
  refine this.congr_deriv ?_
  field_simp; ring

/-- The derivative of the dual part, at the positive reals. -/
theorem hasDeriv_dual_real (h : Quat.HasDeriv R dR t) (h' : Quat.HasDeriv P dP t)
    (h0 : vnorm (R t).vec = 0) (hw0 : 0 < (R t).w) (zeta mu : ℝ) :
    Quat.HasDeriv (fun s => dualForm (R s) (P s))
      (qadd (mul4 (duquLnJacDr (R t) (P t) (qqq (R t)) zeta mu) dR)
        (mul4 (qlnJacFill (R t) (qqq (R t)) zeta (1 / (R t).w)) dP)) t := by
  obtain ⟨hx, hy, hz, hw⟩ := Quat.hasDeriv_iff.1 h
  obtain ⟨gx, gy, gz, gw⟩ := Quat.hasDeriv_iff.1 h'
  obtain ⟨z1, z2, z3⟩ := vec_zero h0
  have hq : qqq (R t) ≠ 0 := (qqq_pos (Or.inr hw0)).ne'
  have hqe : qqq (R t) = (R t).w * (R t).w := by simp [qqq, qvv, vdot, Quat.vec, z1, z2, z3]
  have he := hasDerivAt_etaHat h h0 hw0
  have hdt := hasDerivAt_dot h h'
  have hdt0 : vdot (R t).vec (P t).vec = 0 := by simp [vdot, Quat.vec, z1, z2, z3]
  have key : ∀ {f g : ℝ → ℝ} {df dg : ℝ}, HasDerivAt f df t → HasDerivAt g dg t → f t = 0 →
      HasDerivAt (fun s => (vdot (R s).vec (P s).vec * zetaHat (R s) - (P s).w / qqq (R s)) * f s +
        etaHat (R s) * g s)
      (-(P t).w / ((R t).w * (R t).w) * df +
        (-dR.w / ((R t).w * (R t).w) * g t + dg / (R t).w)) t := by
    intro f g df dg hf hg hft
    have prod : HasDerivAt (fun s => vdot (R s).vec (P s).vec * f s) 0 t :=
      (hdt.mul hf).congr_deriv (by rw [hft, hdt0]; ring)
    have first : HasDerivAt (fun s => vdot (R s).vec (P s).vec * zetaHat (R s) * f s) 0 t := by
      refine hasDerivAt_of_le (C := 16 / (R t).w ^ 3) prod (by simp [hft]) ?_
      filter_upwards [eventually_w h hw0] with s h1
      have hp : 0 < (R s).w := by linarith
      rw [hft, mul_zero, sub_zero]
      have hb : |zetaHat (R s)| ≤ 16 / (R t).w ^ 3 := by
        by_cases hz : vnorm (R s).vec = 0
        · rw [zetaHat, if_pos hz, abs_zero]; positivity
        · rw [zetaHat, if_neg hz]
          refine (eta_close hp hz).2.trans ?_
          have := cube_half hw0 h1
          calc 2 / (R s).w ^ 3 = 2 * (1 / (R s).w ^ 3) := by ring
            _ ≤ 2 * (8 / (R t).w ^ 3) := by linarith
            _ = _ := by ring
      have : vdot (R s).vec (P s).vec * zetaHat (R s) * f s =
          zetaHat (R s) * (vdot (R s).vec (P s).vec * f s) := by ring
      rw [this, abs_mul]
      exact mul_le_mul_of_nonneg_right hb (abs_nonneg _)
    have second := (gw.div (hasDerivAt_qqq h) hq).mul hf
    have := (first.sub second).add (he.mul hg)
    refine (this.congr_of_eventuallyEq (Eventually.of_forall fun s => ?_)).congr_deriv ?_
    · simp; ring
    · have : etaHat (R t) = 1 / (R t).w := by rw [etaHat, if_pos h0]
      simp only [this, hft, Pi.div_apply, hqe]
      field_simp
      ring
  rw [Quat.hasDeriv_iff]
  refine ⟨?_, ?_, ?_, ?_⟩
  · refine (key hx gx z1).congr_deriv ?_
    simp [qadd, mul4, qlnJacFill, duquLnJacDr, fillUplo, vdot, Quat.vec, Quat.at, hqe, z1, z2, z3]
    field_simp; ring
  · refine (key hy gy z2).congr_deriv ?_
    simp [qadd, mul4, qlnJacFill, duquLnJacDr, fillUplo, vdot, Quat.vec, Quat.at, hqe, z1, z2, z3]
    field_simp; ring
  · refine (key hz gz z3).congr_deriv ?_
    simp [qadd, mul4, qlnJacFill, duquLnJacDr, fillUplo, vdot, Quat.vec, Quat.at, hqe, z1, z2, z3]
    field_simp; ring
  · refine (hasDerivAt_dw h h' (Or.inr hw0)).congr_deriv ?_
    simp [qadd, mul4, qlnJacFill, duquLnJacDr, fillUplo, vdot, Quat.vec, Quat.at, hqe, z1, z2, z3]
    field_simp; ring

end

end Verif.Tf
