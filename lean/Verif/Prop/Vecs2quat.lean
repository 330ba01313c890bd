import Verif.Model.TfPde
import Verif.Prop.Quat
import Verif.Prop.Exp

/-!
# C69: the quaternion between two vectors

Specification, in Mathlib's quaternions: `q` is a unit quaternion and `q u q* = (|u|/|v|) v`, so
the rotation by `q` takes the direction of `u` to that of `v`.
-/

namespace Verif.Tf

open Quaternion

/-- `q` is a unit quaternion whose rotation takes the direction of `u` to that of `v`. -/
def TakesDir (q : Quat) (u v : V3) : Prop :=
  Tf.Unit q ∧ q.den * u.pure * star q.den = (vnorm u / vnorm v) • v.pure

theorem vnorm_pos {v : V3} (h : v ≠ ⟨0, 0, 0⟩) : 0 < vnorm v := by
  rw [vnorm, Real.sqrt_pos, vdot]
  by_contra hc
  apply h
  have : v.x * v.x + v.y * v.y + v.z * v.z = 0 :=
    le_antisymm (not_lt.1 hc) (by nlinarith [mul_self_nonneg v.x, mul_self_nonneg v.y, mul_self_nonneg v.z])
  ext <;> simp <;> nlinarith [mul_self_nonneg v.x, mul_self_nonneg v.y, mul_self_nonneg v.z]

theorem sqrt_nuv (u v : V3) : Real.sqrt (vdot u u * vdot v v) = vnorm u * vnorm v := by
  rw [Real.sqrt_mul (vdot_nonneg _)]; rfl

/-- Lagrange's identity. -/
theorem lagrange (u v : V3) : vdot (cross u v) (cross u v) + vdot u v * vdot u v =
    (vnorm u * vnorm v) * (vnorm u * vnorm v) := by
  have h1 := vnorm_sq u
  have h2 := vnorm_sq v
  have : (vnorm u * vnorm v) * (vnorm u * vnorm v) = vdot u u * vdot v v := by
    rw [← h1, ← h2]; ring
  rw [this]
  simp only [vdot, cross]; ring

/-- The unnormalised quaternion of the regular branch conjugates `u` to a multiple of `v`. -/
theorem half_way (u v : V3) (N : ℝ) (hN : N * N = vdot u u * vdot v v) :
    (⟨(cross u v).x, (cross u v).y, (cross u v).z, vdot u v + N⟩ : Quat).den * u.pure *
      star (⟨(cross u v).x, (cross u v).y, (cross u v).z, vdot u v + N⟩ : Quat).den =
      (2 * vdot u u * (N + vdot u v)) • v.pure := by
  simp only [vdot] at hN
  ext
  · simp [cross, vdot]; ring
  · simp [cross, vdot]; linear_combination u.x * hN
  · simp [cross, vdot]; linear_combination u.y * hN
  · simp [cross, vdot]; linear_combination u.z * hN

theorem leastAxis_cross (u : V3) (h : u ≠ ⟨0, 0, 0⟩) : cross u (leastAxis u) ≠ ⟨0, 0, 0⟩ := by
  intro hc
  apply h
  have e : ∀ {a b : ℝ}, b = 0 → |a| ≤ |b| → a = 0 := by
    rintro a b rfl hab
    rw [abs_zero] at hab
    exact abs_nonpos_iff.1 hab
  obtain ⟨x, y, z⟩ := u
  unfold leastAxis at hc
  simp only at hc
  split_ifs at hc with h1 h2 h2 <;>
    simp [cross] at hc <;> obtain ⟨p, q⟩ := hc
  · subst p q; simp at h1 
  · subst p q
    simp at h2 h1
    linarith [abs_nonneg y]
  · subst p q
    simp at h1 h2
    linarith [abs_nonneg z]
  · subst p q
    simp at h1 h2
    simp [h1]

theorem cross_zero_iff {u v : V3} (hu : u ≠ ⟨0, 0, 0⟩) (h : cross u v = ⟨0, 0, 0⟩) :
    ∃ k : ℝ, v = ⟨k * u.x, k * u.y, k * u.z⟩ ∧ vdot u v = k * vdot u u := by
  have hp : 0 < vdot u u := Real.sqrt_pos.1 (vnorm_pos hu)
  have h1 : u.y * v.z - u.z * v.y = 0 := congrArg V3.x h
  have h2 : u.z * v.x - u.x * v.z = 0 := congrArg V3.y h
  have h3 : u.x * v.y - u.y * v.x = 0 := congrArg V3.z h
  have e : ∀ a b : ℝ, b * vdot u u = vdot u v * a → b = vdot u v / vdot u u * a := by
    intro a b hab
    field_simp
    exact hab
  refine ⟨vdot u v / vdot u u, ?_, by field_simp⟩
  ext
  · apply e; simp only [vdot]; linear_combination u.z * h2 - u.y * h3
  · apply e; simp only [vdot]; linear_combination u.x * h3 - u.z * h1
  · apply e; simp only [vdot]; linear_combination u.y * h1 - u.x * h2

/-- Rotation by a half turn about an axis orthogonal to `u`. -/
theorem half_turn (a u : V3) (h1 : vdot a a = 1) (h0 : vdot a u = 0) :
    (⟨a.x, a.y, a.z, 0⟩ : Quat).den * u.pure * star (⟨a.x, a.y, a.z, 0⟩ : Quat).den = -u.pure := by
  simp only [vdot] at h1 h0
  ext
  · simp; ring
  · simp; linear_combination 2 * a.x * h0 - u.x * h1
  · simp; linear_combination 2 * a.y * h0 - u.y * h1
  · simp; linear_combination 2 * a.z * h0 - u.z * h1

/-- The result of the special branch. -/
theorem vecs2quat_special {u v : V3} (hu : u ≠ ⟨0, 0, 0⟩) (hv : v ≠ ⟨0, 0, 0⟩)
    (h : vdot (cross u v) (cross u v) / (vnorm u * vnorm v) < Real.sqrt dblEpsilon) (ax : V3)
    (hax : ax = vadd (cross u (leastAxis u))
      (if vdot u v > 0 then cross v (leastAxis u) else cross (leastAxis u) v))
    (ha : ax ≠ ⟨0, 0, 0⟩) (θ : ℝ) (hθ : θ = atan2 (vdot (cross u v) (cross u v)) (vdot u v)) :
    vecs2quat u v = some ⟨ax.x * (Real.sin (θ / 2) / vnorm ax), ax.y * (Real.sin (θ / 2) / vnorm ax),
      ax.z * (Real.sin (θ / 2) / vnorm ax), Real.cos (θ / 2)⟩ := by
  have n0 : vnorm u * vnorm v ≠ 0 := (mul_pos (vnorm_pos hu) (vnorm_pos hv)).ne'
  have a0 : Real.sqrt (vdot ax ax) ≠ 0 := (vnorm_pos ha).ne'
  unfold vecs2quat
  simp only [sqrt_nuv]
  rw [if_neg n0, if_pos h, ← hax, if_neg a0, hθ]
  rfl

/-- **C69** (partial: the vectors are exactly parallel or opposite, or
`|u×v|² ≥ 2^-26 |u| |v|`; see the `violates` theorems): the result is a unit quaternion whose
rotation takes the direction of `u` to that of `v`. -/
theorem C69_partial (u v : V3) (hu : u ≠ ⟨0, 0, 0⟩) (hv : v ≠ ⟨0, 0, 0⟩)
    (h : Real.sqrt dblEpsilon ≤ vdot (cross u v) (cross u v) / (vnorm u * vnorm v) ∨
      cross u v = ⟨0, 0, 0⟩) :
    ∃ q, vecs2quat u v = some q ∧ TakesDir q u v := by
  have pu := vnorm_pos hu
  have pv := vnorm_pos hv
  have puv := mul_pos pu pv
  rcases h with h | h
  · have hL := lagrange u v
    have hcc : 0 < vdot (cross u v) (cross u v) := by
      have : 0 < Real.sqrt dblEpsilon := by rw [sqrt_eps]; norm_num
      by_contra hc
      have := div_nonpos_of_nonpos_of_nonneg (not_lt.1 hc) puv.le
      linarith
    have hN : (vnorm u * vnorm v) * (vnorm u * vnorm v) = vdot u u * vdot v v := by
      rw [← vnorm_sq u, ← vnorm_sq v]; ring
    have hsum : 0 < vnorm u * vnorm v + vdot u v := by nlinarith
    set N := vnorm u * vnorm v with hNd
    set q : Quat := ⟨(cross u v).x, (cross u v).y, (cross u v).z, vdot u v + N⟩ with hq
    have hn2 : qnorm q * qnorm q = 2 * N * (N + vdot u v) := by
      have : qnorm q * qnorm q = vdot (cross u v) (cross u v) + (vdot u v + N) * (vdot u v + N) := by
        rw [← qnorm_eq]
        exact Real.mul_self_sqrt (add_nonneg (vdot_nonneg _) (mul_self_nonneg _))
      rw [this]; linear_combination hL
    have hn : qnorm q ≠ 0 := by
      intro h0
      rw [h0] at hn2
      have := mul_pos (mul_pos two_pos puv) hsum
      linarith
    obtain ⟨hunit, hsc⟩ := C21_qnormalize q hn
    refine ⟨qnormalize q, ?_, hunit, ?_⟩
    · unfold vecs2quat
      simp only [sqrt_nuv]
      rw [if_neg puv.ne', if_neg (not_lt.2 h)]
      exact if_neg hn
    · have hd : (qnormalize q).den = (qnorm q)⁻¹ • q.den := by
        ext <;> simp [qnormalize] <;> field_simp
      have := half_way u v N hN
      rw [hd, Quaternion.star_smul, smul_mul_assoc, smul_mul_assoc, mul_smul_comm, smul_smul, this, smul_smul]
      congr 1
      rw [← mul_inv, hn2, ← vnorm_sq u, hNd]
      field_simp
      exact div_self hsum.ne'
  · obtain ⟨k, rfl, hk⟩ := cross_zero_iff hu h
    have huu : 0 < vdot u u := Real.sqrt_pos.1 pu
    have hc0 : vdot (cross u ⟨k * u.x, k * u.y, k * u.z⟩) (cross u ⟨k * u.x, k * u.y, k * u.z⟩) = 0 := by
      rw [h]; simp [vdot]
    have hlt : vdot (cross u ⟨k * u.x, k * u.y, k * u.z⟩) (cross u ⟨k * u.x, k * u.y, k * u.z⟩) /
        (vnorm u * vnorm ⟨k * u.x, k * u.y, k * u.z⟩) < Real.sqrt dblEpsilon := by
      rw [hc0, zero_div, sqrt_eps]; norm_num
    have hk0 : k ≠ 0 := by
      rintro rfl
      apply hv; simp
    have hla := leastAxis_cross u hu
    have hvn : vnorm ⟨k * u.x, k * u.y, k * u.z⟩ = |k| * vnorm u := by
      have : (⟨k * u.x, k * u.y, k * u.z⟩ : V3).pure = k • u.pure := by ext <;> simp
      rw [← norm_pure, this, norm_smul, norm_pure, Real.norm_eq_abs]
    have hvp : (⟨k * u.x, k * u.y, k * u.z⟩ : V3).pure = k • u.pure := by ext <;> simp
    have hnz : ∀ c : ℝ, c ≠ 0 → (⟨c * (cross u (leastAxis u)).x, c * (cross u (leastAxis u)).y,
        c * (cross u (leastAxis u)).z⟩ : V3) ≠ ⟨0, 0, 0⟩ := by
      intro c hc h0
      apply hla
      simp only [V3.mk.injEq, mul_eq_zero, hc, false_or] at h0
      obtain ⟨a, b, d⟩ := h0
      ext <;> assumption
    rcases lt_or_gt_of_ne hk0 with hneg | hpos
    · have hgt : ¬vdot u ⟨k * u.x, k * u.y, k * u.z⟩ > 0 := by
        rw [hk]; exact not_lt.2 (mul_nonpos_of_nonpos_of_nonneg hneg.le huu.le)
      have hax := hnz (1 - k) (by linarith)
      have hθ : atan2 (vdot (cross u ⟨k * u.x, k * u.y, k * u.z⟩) (cross u ⟨k * u.x, k * u.y, k * u.z⟩))
          (vdot u ⟨k * u.x, k * u.y, k * u.z⟩) = Real.pi := by
        rw [hc0, hk, atan2, Complex.arg_eq_pi_iff]
        exact ⟨mul_neg_of_neg_of_pos hneg huu, rfl⟩
      refine ⟨_, vecs2quat_special hu hv hlt _ (by
        rw [if_neg hgt]; ext <;> simp [vadd, cross] <;> ring) hax _ rfl, ?_⟩
      rw [hθ, Real.sin_pi_div_two, Real.cos_pi_div_two]
      set ax : V3 := ⟨(1 - k) * (cross u (leastAxis u)).x, (1 - k) * (cross u (leastAxis u)).y,
        (1 - k) * (cross u (leastAxis u)).z⟩ with haxd
      have pax := vnorm_pos hax
      have hsq := vnorm_sq ax
      have g1 : vdot (⟨ax.x * (1 / vnorm ax), ax.y * (1 / vnorm ax), ax.z * (1 / vnorm ax)⟩ : V3)
          ⟨ax.x * (1 / vnorm ax), ax.y * (1 / vnorm ax), ax.z * (1 / vnorm ax)⟩ = 1 := by
        have : vdot (⟨ax.x * (1 / vnorm ax), ax.y * (1 / vnorm ax), ax.z * (1 / vnorm ax)⟩ : V3)
          ⟨ax.x * (1 / vnorm ax), ax.y * (1 / vnorm ax), ax.z * (1 / vnorm ax)⟩ =
            vdot ax ax / (vnorm ax * vnorm ax) := by
          simp only [vdot]; field_simp
        rw [this, ← hsq, div_self (mul_pos pax pax).ne']
      have g0 : vdot (⟨ax.x * (1 / vnorm ax), ax.y * (1 / vnorm ax), ax.z * (1 / vnorm ax)⟩ : V3) u = 0 := by
        have : vdot ax u = 0 := by simp only [haxd, vdot, cross]; ring
        have e : vdot (⟨ax.x * (1 / vnorm ax), ax.y * (1 / vnorm ax), ax.z * (1 / vnorm ax)⟩ : V3) u =
            1 / vnorm ax * vdot ax u := by simp only [vdot]; ring
        rw [e, this, mul_zero]
      refine ⟨?_, ?_⟩
      · have := g1
        simp only [vdot] at this
        simp only [Tf.Unit]; linarith
      · have := half_turn _ u g1 g0
        rw [this, hvn, hvp, smul_smul, abs_of_neg hneg, ← neg_one_smul ℝ u.pure]
        congr 1
        field_simp
    · have hgt : vdot u ⟨k * u.x, k * u.y, k * u.z⟩ > 0 := by
        rw [hk]; exact mul_pos hpos huu
      have hax := hnz (1 + k) (by linarith)
      have hθ : atan2 (vdot (cross u ⟨k * u.x, k * u.y, k * u.z⟩) (cross u ⟨k * u.x, k * u.y, k * u.z⟩))
          (vdot u ⟨k * u.x, k * u.y, k * u.z⟩) = 0 := by
        rw [hc0, hk, atan2, Complex.arg_eq_zero_iff]
        exact ⟨(mul_pos hpos huu).le, rfl⟩
      refine ⟨_, vecs2quat_special hu hv hlt _ (by
        rw [if_pos hgt]; ext <;> simp [vadd, cross] <;> ring) hax _ rfl, ?_⟩
      rw [hθ, zero_div, Real.sin_zero, Real.cos_zero, zero_div]
      refine ⟨by simp [Tf.Unit], ?_⟩
      rw [hvn, hvp, smul_smul, abs_of_pos hpos]
      have : vnorm u / (k * vnorm u) * k = 1 := by field_simp
      rw [this, one_smul]
      ext <;> simp

/-- The hypotheses hold for ordinary vectors and for opposite ones. -/
example : (Real.sqrt dblEpsilon ≤ vdot (cross ⟨3, 0, 0⟩ ⟨0, 4, 0⟩) (cross ⟨3, 0, 0⟩ ⟨0, 4, 0⟩) /
    (vnorm ⟨3, 0, 0⟩ * vnorm ⟨0, 4, 0⟩)) ∧ cross ⟨1, 2, 3⟩ ⟨-2, -4, -6⟩ = ⟨0, 0, 0⟩ := by
  constructor
  · have h3 : vnorm ⟨3, 0, 0⟩ = 3 := by
      rw [vnorm, Real.sqrt_eq_iff_mul_self_eq (vdot_nonneg _) (by norm_num)]; norm_num [vdot]
    have h4 : vnorm ⟨0, 4, 0⟩ = 4 := by
      rw [vnorm, Real.sqrt_eq_iff_mul_self_eq (vdot_nonneg _) (by norm_num)]; norm_num [vdot]
    rw [sqrt_eps, h3, h4]; norm_num [vdot, cross]
  · ext <;> norm_num [cross]

/-- **C69 is violated** for nearly parallel vectors: the special branch takes the angle from
`atan2(|u×v|², u·v)` where `|u×v|` is needed.  For `u = (1,0,0)` and `v = (1, 2^-14, 0)` the
result is a rotation about z by `atan(2^-28)` instead of `atan(2^-14)`. -/
theorem C69_violates_near : ∃ q, vecs2quat ⟨1, 0, 0⟩ ⟨1, 1 / 2 ^ 14, 0⟩ = some q ∧
    ¬TakesDir q ⟨1, 0, 0⟩ ⟨1, 1 / 2 ^ 14, 0⟩ := by
  have hu : (⟨1, 0, 0⟩ : V3) ≠ ⟨0, 0, 0⟩ := by simp
  have hv : (⟨1, 1 / 2 ^ 14, 0⟩ : V3) ≠ ⟨0, 0, 0⟩ := by simp
  have nu : vnorm ⟨1, 0, 0⟩ = 1 := by simp [vnorm, vdot]
  have nv : 1 ≤ vnorm ⟨1, 1 / 2 ^ 14, 0⟩ := by
    rw [vnorm]; apply Real.one_le_sqrt.2; norm_num [vdot]
  have hcc : vdot (cross ⟨1, 0, 0⟩ ⟨1, 1 / 2 ^ 14, 0⟩) (cross ⟨1, 0, 0⟩ ⟨1, 1 / 2 ^ 14, 0⟩) =
      1 / 2 ^ 28 := by norm_num [vdot, cross]
  have huv : vdot ⟨1, 0, 0⟩ ⟨1, 1 / 2 ^ 14, 0⟩ = 1 := by norm_num [vdot]
  have hlt : vdot (cross ⟨1, 0, 0⟩ ⟨1, 1 / 2 ^ 14, 0⟩) (cross ⟨1, 0, 0⟩ ⟨1, 1 / 2 ^ 14, 0⟩) /
      (vnorm ⟨1, 0, 0⟩ * vnorm ⟨1, 1 / 2 ^ 14, 0⟩) < Real.sqrt dblEpsilon := by
    rw [hcc, nu, one_mul, sqrt_eps, div_lt_iff₀ (by linarith)]
    nlinarith
  have hla : leastAxis ⟨1, 0, 0⟩ = ⟨0, 1, 0⟩ := by simp [leastAxis]
  have hax : (⟨0, 0, 2⟩ : V3) = vadd (cross ⟨1, 0, 0⟩ (leastAxis ⟨1, 0, 0⟩))
      (if vdot ⟨1, 0, 0⟩ ⟨1, 1 / 2 ^ 14, 0⟩ > 0 then cross ⟨1, 1 / 2 ^ 14, 0⟩ (leastAxis ⟨1, 0, 0⟩)
        else cross (leastAxis ⟨1, 0, 0⟩) ⟨1, 1 / 2 ^ 14, 0⟩) := by
    rw [hla, huv, if_pos one_pos]; ext <;> norm_num [vadd, cross]
  have n2 : vnorm ⟨0, 0, 2⟩ = 2 := by
    rw [vnorm, Real.sqrt_eq_iff_mul_self_eq (vdot_nonneg _) (by norm_num)]; norm_num [vdot]
  refine ⟨_, vecs2quat_special hu hv hlt _ hax (by simp) _ rfl, ?_⟩
  rw [hcc, huv, n2]
  obtain ⟨np, hs, hc, -, -⟩ := polar (1 / 2 ^ 28) 1 (by norm_num) (Or.inr one_ne_zero)
  set θ := atan2 (1 / 2 ^ 28) 1
  rintro ⟨-, h⟩
  have hx := congrArg (fun q : ℍ[ℝ] => q.imI) h
  have hy := congrArg (fun q : ℍ[ℝ] => q.imJ) h
  simp at hx hy
  rw [nu] at hx hy
  have e1 : Real.cos θ = Real.cos (θ / 2) ^ 2 - Real.sin (θ / 2) ^ 2 := by
    rw [← Real.cos_two_mul']; ring_nf
  have e2 : Real.sin θ = 2 * Real.sin (θ / 2) * Real.cos (θ / 2) := by
    rw [← Real.sin_two_mul]; ring_nf
  generalize vnorm ⟨1, (2 ^ 14)⁻¹, 0⟩ = n at *
  generalize Real.sin (θ / 2) = s at *
  generalize Real.cos (θ / 2) = c at *
  generalize Real.sqrt (1 / 2 ^ 28 * (1 / 2 ^ 28) + 1 * 1) = m at *
  rw [e2] at hs
  rw [e1] at hc
  have k1 : c ^ 2 - s ^ 2 = 1 / n := by linear_combination hx
  have k2 : 2 * s * c = 1 / n * (1 / 2 ^ 14) := by
    rw [one_div (2 ^ 14 : ℝ)]; linear_combination hy
  rw [k2] at hs
  rw [k1] at hc
  have : m * (1 / n) * (1 / 2 ^ 14) = 1 / 2 ^ 28 := by linarith
  rw [hc] at this
  norm_num at this

/-- **C69 is violated** for short vectors at any angle: the branch test compares
`|u×v|²/(|u||v|)`, which scales with the square of the lengths.  For orthogonal vectors of length
`2^-14` the axis is wrong as well. -/
theorem C69_violates_short : ∃ q, vecs2quat ⟨1 / 2 ^ 14, 0, 0⟩ ⟨0, 0, 1 / 2 ^ 14⟩ = some q ∧
    ¬TakesDir q ⟨1 / 2 ^ 14, 0, 0⟩ ⟨0, 0, 1 / 2 ^ 14⟩ := by
  have hu : (⟨1 / 2 ^ 14, 0, 0⟩ : V3) ≠ ⟨0, 0, 0⟩ := by simp
  have hv : (⟨0, 0, 1 / 2 ^ 14⟩ : V3) ≠ ⟨0, 0, 0⟩ := by simp
  have nu : vnorm ⟨1 / 2 ^ 14, 0, 0⟩ = 1 / 2 ^ 14 := by
    rw [vnorm, Real.sqrt_eq_iff_mul_self_eq (vdot_nonneg _) (by norm_num)]; norm_num [vdot]
  have nv : vnorm ⟨0, 0, 1 / 2 ^ 14⟩ = 1 / 2 ^ 14 := by
    rw [vnorm, Real.sqrt_eq_iff_mul_self_eq (vdot_nonneg _) (by norm_num)]; norm_num [vdot]
  have hcc : vdot (cross ⟨1 / 2 ^ 14, 0, 0⟩ ⟨0, 0, 1 / 2 ^ 14⟩)
      (cross ⟨1 / 2 ^ 14, 0, 0⟩ ⟨0, 0, 1 / 2 ^ 14⟩) = 1 / 2 ^ 56 := by norm_num [vdot, cross]
  have huv : vdot ⟨1 / 2 ^ 14, 0, 0⟩ ⟨0, 0, 1 / 2 ^ 14⟩ = 0 := by norm_num [vdot]
  have hlt : vdot (cross ⟨1 / 2 ^ 14, 0, 0⟩ ⟨0, 0, 1 / 2 ^ 14⟩)
      (cross ⟨1 / 2 ^ 14, 0, 0⟩ ⟨0, 0, 1 / 2 ^ 14⟩) /
      (vnorm ⟨1 / 2 ^ 14, 0, 0⟩ * vnorm ⟨0, 0, 1 / 2 ^ 14⟩) < Real.sqrt dblEpsilon := by
    rw [hcc, nu, nv, sqrt_eps]
    norm_num
  have hla : leastAxis ⟨1 / 2 ^ 14, 0, 0⟩ = ⟨0, 1, 0⟩ := by norm_num [leastAxis]
  have hax : (⟨1 / 2 ^ 14, 0, 1 / 2 ^ 14⟩ : V3) =
      vadd (cross ⟨1 / 2 ^ 14, 0, 0⟩ (leastAxis ⟨1 / 2 ^ 14, 0, 0⟩))
      (if vdot ⟨1 / 2 ^ 14, 0, 0⟩ ⟨0, 0, 1 / 2 ^ 14⟩ > 0 then
        cross ⟨0, 0, 1 / 2 ^ 14⟩ (leastAxis ⟨1 / 2 ^ 14, 0, 0⟩)
        else cross (leastAxis ⟨1 / 2 ^ 14, 0, 0⟩) ⟨0, 0, 1 / 2 ^ 14⟩) := by
    rw [hla, huv, if_neg (lt_irrefl _)]; ext <;> norm_num [vadd, cross]
  refine ⟨_, vecs2quat_special hu hv hlt _ hax (by simp) _ rfl, ?_⟩
  have hθ : atan2 (vdot (cross ⟨1 / 2 ^ 14, 0, 0⟩ ⟨0, 0, 1 / 2 ^ 14⟩)
      (cross ⟨1 / 2 ^ 14, 0, 0⟩ ⟨0, 0, 1 / 2 ^ 14⟩)) (vdot ⟨1 / 2 ^ 14, 0, 0⟩ ⟨0, 0, 1 / 2 ^ 14⟩) =
      Real.pi / 2 := by
    rw [hcc, huv, atan2, Complex.arg_eq_pi_div_two_iff]
    norm_num
  rw [hθ]
  rintro ⟨-, h⟩
  -- the second coordinate of the image should vanish
  have hy := congrArg (fun q : ℍ[ℝ] => q.imJ) h
  have s0 : Real.sin (Real.pi / 2 / 2) ≠ 0 := by
    rw [show Real.pi / 2 / 2 = Real.pi / 4 by ring, Real.sin_pi_div_four]; positivity
  have c0 : Real.cos (Real.pi / 2 / 2) ≠ 0 := by
    rw [show Real.pi / 2 / 2 = Real.pi / 4 by ring, Real.cos_pi_div_four]; positivity
  have n0 : vnorm ⟨1 / 2 ^ 14, 0, 1 / 2 ^ 14⟩ ≠ 0 := (vnorm_pos (by simp)).ne'
  generalize Real.sin (Real.pi / 2 / 2) = s at *
  generalize Real.cos (Real.pi / 2 / 2) = c at *
  generalize vnorm ⟨1 / 2 ^ 14, 0, 1 / 2 ^ 14⟩ = n at *
  simp at hy
  have : s * c / n = 0 := by
    rw [div_eq_iff n0, zero_mul]
    field_simp at hy
    norm_num at hy
    first
      | linarith
      | (rcases hy with hy | hy <;> simp [hy])
  exact absurd this (div_ne_zero (mul_ne_zero s0 c0) n0)

end Verif.Tf
