import Verif.Model.La
import Verif.Prop.Mat
import Verif.Prop.Heap
import Mathlib.LinearAlgebra.CrossProduct
import Mathlib.LinearAlgebra.Matrix.Determinant.Basic
import Mathlib.LinearAlgebra.Matrix.Trace
import Mathlib.Analysis.InnerProductSpace.PiL2
import Mathlib.Geometry.Euclidean.Angle.Unoriented.Basic
import Mathlib.Topology.MetricSpace.HausdorffDistance
import Mathlib.Algebra.Polynomial.Eval.Degree
import Mathlib.Algebra.Polynomial.Derivative
import Mathlib.Analysis.SpecialFunctions.Complex.Arg
import Mathlib.Tactic.Linarith
import Mathlib.Tactic.FieldSimp

/-!
# C36: small linear algebra

Specification: the objects of Mathlib (inner products, norms, distances and angles of Euclidean
space, determinants, traces, cross products, polynomials) applied to the arrays in memory, and the
frame predicates `VecWrite`, `MatWrite` of `Verif.Prop.Mat`.
-/

namespace Verif.La

open Verif.Mat

variable {K : Type} [Field K]

/-- the array of length `n` at `x`, as a vector view. -/
abbrev arr (n x : Nat) : DVec := ⟨n, x, 1⟩

/-- a column major array without padding, as a matrix view. -/
abbrev marr (rows cols a : Nat) : DMat := ⟨rows, cols, a, rows⟩

/-- the output may be the input or be disjoint from it. -/
def Apart (n x r : Nat) : Prop := x = r ∨ x + n ≤ r ∨ r + n ≤ x

omit [Field K] in
theorem elem (n r : Nat) (h : Nat → Mem K → K)
    (hl : ∀ k < n, ∀ m m' : Mem K, (∀ a, (∀ l < n, l ≠ k → a ≠ r + l) → m a = m' a) → h k m = h k m')
    (m : Mem K) :
    VecWrite (arr n r) m (forN n (fun i m => store m (r + i) (h i m)) m) (fun i => h i m) := by
  have := forN_vec (v := arr n r) Nat.one_pos h (by simpa [DVec.ref] using hl) m
  simpa [DVec.ref] using this

theorem apart_ne {n x r : Nat} (h : Apart n x r) {k : Nat} (hk : k < n) :
    ∀ l < n, l ≠ k → x + k ≠ r + l := by
  intro l hl hne e
  unfold Apart at h
  omega

/-- **C36 (elementwise operations).** Each stores its formula, computed from the values before the
call, in exactly the `n` elements of its result, which may be one of the operands. -/
theorem C36_elementwise (n x y r : Nat) (alpha : K) (m : Mem K) (hx : Apart n x r) (hy : Apart n y r) :
    VecWrite (arr n r) m (sinc n alpha r m) (fun i => m (r + i) + alpha) ∧
    VecWrite (arr n r) m (vinc n x r m) (fun i => m (r + i) + m (x + i)) ∧
    VecWrite (arr n r) m (axpy n alpha x r m) (fun i => m (r + i) + alpha * m (x + i)) ∧
    VecWrite (arr n r) m (axpy3 n alpha x y r m) (fun i => alpha * m (x + i) + m (y + i)) ∧
    VecWrite (arr n r) m (scal n alpha r m) (fun i => alpha * m (r + i)) ∧
    VecWrite (arr n r) m (sadd n alpha x r m) (fun i => alpha + m (x + i)) ∧
    VecWrite (arr n r) m (smul n alpha x r m) (fun i => alpha * m (x + i)) ∧
    VecWrite (arr n r) m (ssub n alpha x r m) (fun i => alpha - m (x + i)) ∧
    VecWrite (arr n r) m (sdiv n alpha x r m) (fun i => alpha / m (x + i)) ∧
    VecWrite (arr n r) m (vadd n x y r m) (fun i => m (x + i) + m (y + i)) ∧
    VecWrite (arr n r) m (vsub n x y r m) (fun i => m (x + i) - m (y + i)) ∧
    VecWrite (arr n r) m (vmul n x y r m) (fun i => m (x + i) * m (y + i)) ∧
    VecWrite (arr n r) m (vdiv n x y r m) (fun i => m (x + i) / m (y + i)) := by
  have hr : Apart n r r := .inl rfl
  refine ⟨?_, ?_, ?_, ?_, ?_, ?_, ?_, ?_, ?_, ?_, ?_, ?_, ?_⟩
  · exact elem n r (fun i m => m (r + i) + alpha) (fun k hk m m' h => by rw [h _ (apart_ne hr hk)]) m
  · exact elem n r (fun i m => m (r + i) + m (x + i))
      (fun k hk m m' h => by rw [h _ (apart_ne hr hk), h _ (apart_ne hx hk)]) m
  · exact elem n r (fun i m => m (r + i) + alpha * m (x + i))
      (fun k hk m m' h => by rw [h _ (apart_ne hr hk), h _ (apart_ne hx hk)]) m
  · exact elem n r (fun i m => alpha * m (x + i) + m (y + i))
      (fun k hk m m' h => by rw [h _ (apart_ne hx hk), h _ (apart_ne hy hk)]) m
  · simp only [mul_comm alpha]
    exact elem n r (fun i m => m (r + i) * alpha) (fun k hk m m' h => by rw [h _ (apart_ne hr hk)]) m
  · exact elem n r (fun i m => alpha + m (x + i)) (fun k hk m m' h => by rw [h _ (apart_ne hx hk)]) m
  · exact elem n r (fun i m => alpha * m (x + i)) (fun k hk m m' h => by rw [h _ (apart_ne hx hk)]) m
  · exact elem n r (fun i m => alpha - m (x + i)) (fun k hk m m' h => by rw [h _ (apart_ne hx hk)]) m
  · exact elem n r (fun i m => alpha / m (x + i)) (fun k hk m m' h => by rw [h _ (apart_ne hx hk)]) m
  · exact elem n r (fun i m => m (x + i) + m (y + i))
      (fun k hk m m' h => by rw [h _ (apart_ne hx hk), h _ (apart_ne hy hk)]) m
  · exact elem n r (fun i m => m (x + i) - m (y + i))
      (fun k hk m m' h => by rw [h _ (apart_ne hx hk), h _ (apart_ne hy hk)]) m
  · exact elem n r (fun i m => m (x + i) * m (y + i))
      (fun k hk m m' h => by rw [h _ (apart_ne hx hk), h _ (apart_ne hy hk)]) m
  · exact elem n r (fun i m => m (x + i) / m (y + i))
      (fun k hk m m' h => by rw [h _ (apart_ne hx hk), h _ (apart_ne hy hk)]) m

/-- **C36 (cross product).** -/
theorem C36_cross (a b c : Nat) (m : Mem K) (ha : a + 3 ≤ c ∨ c + 3 ≤ a) (hb : b + 3 ≤ c ∨ c + 3 ≤ b) :
    VecWrite (arr 3 c) m (cross a b c m) (fun i =>
      if h : i < 3 then crossProduct ![m a, m (a + 1), m (a + 2)] ![m b, m (b + 1), m (b + 2)] ⟨i, h⟩ else 0) := by
  have key : ∀ a0 a1 a2 b0 b1 b2 c0 c1 c2 : Nat, a0 ≠ c0 → a1 ≠ c0 → a2 ≠ c0 → b0 ≠ c0 → b1 ≠ c0 → b2 ≠ c0 →
      a0 ≠ c1 → a1 ≠ c1 → a2 ≠ c1 → b0 ≠ c1 → b1 ≠ c1 → b2 ≠ c1 → c0 ≠ c1 → c0 ≠ c2 → c1 ≠ c2 →
      let m1 := store m c0 (m a1 * m b2 - m a2 * m b1)
      let m2 := store m1 c1 (m1 a2 * m1 b0 - m1 a0 * m1 b2)
      let m3 := store m2 c2 (m2 a0 * m2 b1 - m2 a1 * m2 b0)
      m3 c0 = m a1 * m b2 - m a2 * m b1 ∧ m3 c1 = m a2 * m b0 - m a0 * m b2 ∧
      m3 c2 = m a0 * m b1 - m a1 * m b0 := by
    intro a0 a1 a2 b0 b1 b2 c0 c1 c2 g1 g2 g3 g4 g5 g6 g7 g8 g9 g10 g11 g12 g13 g14 g15
    simp [store, *]
  obtain ⟨k0, k1, k2⟩ := key (a + 0) (a + 1) (a + 2) (b + 0) (b + 1) (b + 2) (c + 0) (c + 1) (c + 2)
    (by omega) (by omega) (by omega) (by omega) (by omega) (by omega) (by omega) (by omega) (by omega)
    (by omega) (by omega) (by omega) (by omega) (by omega) (by omega)
  constructor
  · intro k hk
    change k < 3 at hk
    obtain rfl | rfl | rfl : k = 0 ∨ k = 1 ∨ k = 2 := by omega
    · exact k0.trans (by simp [cross_apply])
    · exact k1.trans (by simp [cross_apply])
    · exact k2.trans (by simp [cross_apply])
  · intro p hp
    simp only [DVec.ref, cross, store] at *
    have h0 := hp 0 (by omega); have h1 := hp 1 (by omega); have h2 := hp 2 (by omega)
    simp at h0 h1 h2
    simp [h0, h1, h2]

/-- **C36 (determinant).** -/
theorem C36_det (r : Nat) (m : Mem K) :
    det3x3 r m = Matrix.det (Matrix.of fun i j : Fin 3 => m (r + (3 * j.val + i.val))) := by
  rw [Matrix.det_fin_three]
  simp [det3x3]
  ring

/-! ## Euclidean space -/

/-- the array as a vector of Euclidean space. -/
noncomputable def evec (n x inc : Nat) (m : Mem ℝ) : EuclideanSpace ℝ (Fin n) :=
  WithLp.toLp 2 fun i => m (x + i.val * inc)

@[simp] theorem evec_apply (n x inc : Nat) (m : Mem ℝ) (i : Fin n) : evec n x inc m i = m (x + i.val * inc) := rfl

theorem inner_evec (n x ix y iy : Nat) (m : Mem ℝ) :
    inner ℝ (evec n x ix m) (evec n y iy m) = ∑ k ∈ Finset.range n, m (x + k * ix) * m (y + k * iy) := by
  rw [PiLp.inner_apply, Finset.sum_range]
  refine Finset.sum_congr rfl (fun i _ => ?_)
  simp [evec, mul_comm]

theorem sqrt_norm (n x ix : Nat) (m : Mem ℝ) :
    Real.sqrt (∑ k ∈ Finset.range n, m (x + k * ix) * m (x + k * ix)) = ‖evec n x ix m‖ := by
  rw [← inner_evec, real_inner_self_eq_norm_mul_norm, Real.sqrt_mul_self (norm_nonneg _)]

/-- **C36 (inner products, norms, distances).** -/
theorem C36_euclidean (n x y : Nat) (m : Mem ℝ) :
    dot n x y m = inner ℝ (evec n x 1 m) (evec n y 1 m) ∧
    norm n x m = ‖evec n x 1 m‖ ∧
    ssd n x y m = ‖evec n x 1 m - evec n y 1 m‖ ^ 2 ∧
    dist n x y m = Dist.dist (evec n x 1 m) (evec n y 1 m) ∧
    (∀ ix iy, ssdInc n x ix y iy m = ‖evec n x ix m - evec n y iy m‖ ^ 2) := by
  have h1 : ∀ y, dot n x y m = inner ℝ (evec n x 1 m) (evec n y 1 m) := by
    intro y; rw [inner_evec, dot, forN_sum]; simp
  have h3 : ∀ ix iy, ssdInc n x ix y iy m = ‖evec n x ix m - evec n y iy m‖ ^ 2 := by
    intro ix iy
    rw [ssdInc, forN_sum n (fun k => (m (x + k * ix) - m (y + k * iy)) * (m (x + k * ix) - m (y + k * iy))),
      EuclideanSpace.norm_sq_eq, Finset.sum_range, zero_add]
    refine Finset.sum_congr rfl (fun i _ => ?_)
    simp [evec, pow_two]
  refine ⟨h1 y, ?_, h3 1 1, ?_, h3⟩
  · rw [norm, h1 x, real_inner_self_eq_norm_mul_norm, Real.sqrt_mul_self (norm_nonneg _)]
  · rw [dist, ssd, h3, Real.sqrt_sq (norm_nonneg _), dist_eq_norm]

/-- **C36 (normalize).** Fails exactly on the zero vector; otherwise the result is the unit vector in
the same direction and nothing else changes. -/
theorem C36_normalize (n x : Nat) (m : Mem ℝ) :
    (normalize n x m = none ↔ evec n x 1 m = 0) ∧
    ∀ m', normalize n x m = some m' →
      ‖evec n x 1 m'‖ = 1 ∧ evec n x 1 m' = ‖evec n x 1 m‖⁻¹ • evec n x 1 m ∧
      ∀ a, (a < x ∨ x + n ≤ a) → m' a = m a := by
  have hn := (C36_euclidean n x x m).2.1
  constructor
  · rw [normalize, hn]
    split_ifs with h
    · simpa using h
    · simpa using h
  · intro m' h
    rw [normalize, hn] at h
    split_ifs at h with h0
    injection h with h
    subst h
    have hw := (C36_elementwise n x x x (1 / ‖evec n x 1 m‖) m (.inl rfl) (.inl rfl)).2.2.2.2.1
    have e : evec n x 1 (scal n (1 / ‖evec n x 1 m‖) x m) = ‖evec n x 1 m‖⁻¹ • evec n x 1 m := by
      ext i
      have := hw.1 i.val i.2
      simp only [DVec.ref] at this
      rw [evec_apply, this, PiLp.smul_apply, evec_apply, smul_eq_mul, one_div, mul_one]
    refine ⟨?_, e, ?_⟩
    · rw [e, norm_smul, norm_inv, norm_norm, inv_mul_cancel₀ h0]
    · intro a ha
      refine hw.2 a (fun k hk => ?_)
      simp only [DVec.ref] at *
      omega

/-- **C36 (angle).** The angle between two nonzero vectors, with any strides. -/
theorem C36_angle (n x ix y iy : Nat) (m : Mem ℝ) (hx : evec n x ix m ≠ 0) (hy : evec n y iy m ≠ 0) :
    angle n x ix y iy m = InnerProductGeometry.angle (evec n x ix m) (evec n y iy m) := by
  set u := evec n x ix m with hu
  set v := evec n y iy m with hv
  have nu : 0 < ‖u‖ := norm_pos_iff.2 hx
  have nv : 0 < ‖v‖ := norm_pos_iff.2 hy
  set θ := InnerProductGeometry.angle u v with hθ
  have hc : inner ℝ u v = Real.cos θ * (‖u‖ * ‖v‖) := (InnerProductGeometry.cos_angle_mul_norm_mul_norm u v).symm
  have h0 : 0 ≤ θ := InnerProductGeometry.angle_nonneg u v
  have h1 : θ ≤ Real.pi := InnerProductGeometry.angle_le_pi u v
  simp only [angle, forN_sum n (fun k => m (x + k * ix) * m (x + k * ix)),
    forN_sum n (fun k => m (y + k * iy) * m (y + k * iy)), zero_add, sqrt_norm, ← hu, ← hv]
  have es : ∀ σ : ℝ, forN n (fun k a => a + (‖v‖ * m (x + k * ix) + σ * (‖u‖ * m (y + k * iy))) *
      (‖v‖ * m (x + k * ix) + σ * (‖u‖ * m (y + k * iy)))) 0 = ‖‖v‖ • u + (σ * ‖u‖) • v‖ ^ 2 := by
    intro σ
    rw [forN_sum n (fun k => (‖v‖ * m (x + k * ix) + σ * (‖u‖ * m (y + k * iy))) *
      (‖v‖ * m (x + k * ix) + σ * (‖u‖ * m (y + k * iy)))), EuclideanSpace.norm_sq_eq, Finset.sum_range, zero_add]
    refine Finset.sum_congr rfl (fun i _ => ?_)
    simp [hu, hv, evec, pow_two, mul_assoc]
  have ep : ∀ σ : ℝ, σ ^ 2 = 1 → ‖‖v‖ • u + (σ * ‖u‖) • v‖ ^ 2 =
      2 * (‖u‖ * ‖v‖) ^ 2 * (1 + σ * Real.cos θ) := by
    intro σ hσ
    rw [norm_add_sq_real, norm_smul, norm_smul, real_inner_smul_left, real_inner_smul_right, hc]
    simp only [Real.norm_eq_abs, abs_mul, abs_norm, mul_pow, sq_abs, hσ]
    ring
  have e1 := es (-1)
  have e2 := es 1
  rw [ep _ (by norm_num)] at e1 e2
  simp only [one_mul, neg_mul, ← sub_eq_add_neg] at e1 e2
  rw [e1, e2]
  have hr : 0 < ‖u‖ * ‖v‖ := mul_pos nu nv
  have hs2 : 0 ≤ Real.sin (θ / 2) := Real.sin_nonneg_of_nonneg_of_le_pi (by linarith) (by linarith)
  have hc2 : 0 ≤ Real.cos (θ / 2) := Real.cos_nonneg_of_mem_Icc ⟨by linarith, by linarith⟩
  have hcos : Real.cos θ = 2 * Real.cos (θ / 2) ^ 2 - 1 := by rw [← Real.cos_two_mul]; ring_nf
  have hsc := Real.sin_sq_add_cos_sq (θ / 2)
  have q1 : Real.sqrt (2 * (‖u‖ * ‖v‖) ^ 2 * (1 - Real.cos θ)) = 2 * (‖u‖ * ‖v‖) * Real.sin (θ / 2) := by
    rw [Real.sqrt_eq_iff_mul_self_eq (by nlinarith [Real.cos_le_one θ, sq_nonneg (‖u‖ * ‖v‖)]) (by positivity), hcos]
    linear_combination (-4 * (‖u‖ * ‖v‖) ^ 2) * hsc
  have q2 : Real.sqrt (2 * (‖u‖ * ‖v‖) ^ 2 * (1 + Real.cos θ)) = 2 * (‖u‖ * ‖v‖) * Real.cos (θ / 2) := by
    rw [Real.sqrt_eq_iff_mul_self_eq (by nlinarith [Real.neg_one_le_cos θ, sq_nonneg (‖u‖ * ‖v‖)]) (by positivity), hcos]
    ring
  rw [q1, q2, Tf.atan2]
  have := Complex.arg_mul_cos_add_sin_mul_I (r := 2 * (‖u‖ * ‖v‖)) (by positivity)
    (θ := θ / 2) ⟨by linarith [Real.pi_pos], by linarith [Real.pi_pos]⟩
  have e : (⟨2 * (‖u‖ * ‖v‖) * Real.cos (θ / 2), 2 * (‖u‖ * ‖v‖) * Real.sin (θ / 2)⟩ : ℂ) =
      ((2 * (‖u‖ * ‖v‖) : ℝ) : ℂ) * (Complex.cos ((θ / 2 : ℝ)) + Complex.sin ((θ / 2 : ℝ)) * Complex.I) := by
    rw [← Complex.ofReal_cos, ← Complex.ofReal_sin]
    generalize Real.cos (θ / 2) = c, Real.sin (θ / 2) = s, 2 * (‖u‖ * ‖v‖) = r
    apply Complex.ext
    · simp
    · simp
  rw [e, this]
  ring

/-! ## Planes -/

/-- **C36 (point-plane distance).** `aa_la_point_plane` is the signed distance: its absolute value is
the distance from the point to the set of points of the plane, and it is positive exactly on the
side the normal points to. -/
theorem C36_point_plane (n p q : Nat) (m : Mem ℝ) :
    (pointPlane n p q m = none ↔ evec n q 1 m = 0) ∧
    ∀ d, pointPlane n p q m = some d →
      |d| = Metric.infDist (evec n p 1 m) {z | inner ℝ z (evec n q 1 m) + m (q + n) = 0} ∧
      (0 < d ↔ 0 < inner ℝ (evec n p 1 m) (evec n q 1 m) + m (q + n)) := by
  obtain ⟨hd, -, -⟩ := C36_euclidean n p q m
  obtain ⟨-, hn, -⟩ := C36_euclidean n q q m
  rw [pointPlane, hn, hd]
  set v := evec n q 1 m
  set u := evec n p 1 m
  set c := m (q + n)
  constructor
  · split_ifs with h
    · simpa using h
    · simpa using h
  · intro d h
    split_ifs at h with h0
    injection h with h
    have nv : 0 < ‖v‖ := lt_of_le_of_ne (norm_nonneg _) (Ne.symm h0)
    have hdv : d * ‖v‖ = inner ℝ u v + c := by rw [← h]; field_simp
    set z0 : EuclideanSpace ℝ (Fin n) := u - (d / ‖v‖) • v with hz0
    have m0 : z0 ∈ {z | inner ℝ z v + c = 0} := by
      simp only [Set.mem_ofPred_eq, hz0, inner_sub_left, real_inner_smul_left, real_inner_self_eq_norm_mul_norm]
      have : d / ‖v‖ * (‖v‖ * ‖v‖) = d * ‖v‖ := by field_simp
      rw [this, hdv]; ring
    constructor
    · apply le_antisymm
      · apply (Metric.le_infDist ⟨z0, m0⟩).2
        intro z hz
        have hz' : inner ℝ z v + c = 0 := hz
        rw [dist_eq_norm]
        have h2 : inner ℝ (u - z) v = d * ‖v‖ := by rw [inner_sub_left, hdv]; linarith
        have h3 := abs_real_inner_le_norm (u - z) v
        rw [h2, abs_mul, abs_of_pos nv] at h3
        exact le_of_mul_le_mul_right h3 nv
      · refine (Metric.infDist_le_dist_of_mem m0).trans ?_
        rw [dist_eq_norm, hz0, sub_sub_cancel, norm_smul, Real.norm_eq_abs, abs_div, abs_norm,
          div_mul_cancel₀ _ h0]
    · rw [← hdv]
      constructor
      · intro hd; positivity
      · intro hp; exact (mul_pos_iff_of_pos_right nv).1 hp

/-- **C36 (Hessian normal form).** The normal gets unit length and the plane stays the same set. -/
theorem C36_plane_hessian (n q : Nat) (m m' : Mem ℝ) (h : planeHessian (n + 1) q m = some m') :
    ‖evec n q 1 m'‖ = 1 ∧
    (∀ z, inner ℝ z (evec n q 1 m') + m' (q + n) = 0 ↔ inner ℝ z (evec n q 1 m) + m (q + n) = 0) ∧
    (∀ z, 0 < inner ℝ z (evec n q 1 m') + m' (q + n) ↔ 0 < inner ℝ z (evec n q 1 m) + m (q + n)) ∧
    (∀ a, (a < q ∨ q + n < a) → m' a = m a) := by
  obtain ⟨-, hn, -⟩ := C36_euclidean n q q m
  rw [planeHessian, Nat.add_sub_cancel, hn] at h
  split_ifs at h with h0
  injection h with h
  have hw := (C33_vector (arr (n + 1) q) Nat.one_pos (1 / ‖evec n q 1 m‖) m).2.2.1
  rw [vscal, h] at hw
  have nv : 0 < ‖evec n q 1 m‖ := lt_of_le_of_ne (norm_nonneg _) (Ne.symm h0)
  have e : evec n q 1 m' = ‖evec n q 1 m‖⁻¹ • evec n q 1 m := by
    ext i
    have := hw.1 i.val (by simp)
    simp only [DVec.ref] at this
    rw [evec_apply, this, PiLp.smul_apply, evec_apply, smul_eq_mul, one_div]
  have e2 : m' (q + n) = ‖evec n q 1 m‖⁻¹ * m (q + n) := by
    have := hw.1 n (by simp)
    simp only [DVec.ref, mul_one] at this
    rw [this, one_div]
  have e3 : ∀ z, inner ℝ z (evec n q 1 m') + m' (q + n) =
      ‖evec n q 1 m‖⁻¹ * (inner ℝ z (evec n q 1 m) + m (q + n)) := by
    intro z; rw [e, e2, real_inner_smul_right]; ring
  refine ⟨?_, ?_, ?_, ?_⟩
  · rw [e, norm_smul, norm_inv, norm_norm, inv_mul_cancel₀ h0]
  · intro z; rw [e3, mul_eq_zero]; simp [h0]
  · intro z; rw [e3]
    constructor
    · intro hp; exact (mul_pos_iff_of_pos_left (inv_pos.2 nv)).1 hp
    · intro hp; positivity
  · intro a ha
    refine hw.2 a (fun k hk => ?_)
    simp only [DVec.ref] at *
    omega

/-! ## Matrices -/

omit [Field K] in
theorem forN_dep {σ : Type} (n : Nat) (c : Nat → Nat) (f : Nat → Nat → σ → σ) (s : σ) :
    forN n (fun j s => forN (c j) (fun i s => f j i s) s) s =
      ((List.range n).flatMap fun j => (List.range (c j)).map fun i => (j, i)).foldl (fun s p => f p.1 p.2 s) s := by
  simp [forN, List.foldl_flatMap, List.foldl_map]

theorem dep_nodup (n : Nat) (c : Nat → Nat) :
    ((List.range n).flatMap fun j => (List.range (c j)).map fun i => (j, i)).Nodup := by
  rw [List.nodup_flatMap]
  refine ⟨fun j _ => List.nodup_range.map (fun a b h => by simpa using h), ?_⟩
  refine List.nodup_range.imp ?_
  intro a b hab
  rw [Function.onFun, List.disjoint_left]
  intro p hp hq
  simp only [List.mem_map] at hp hq
  obtain ⟨i, -, rfl⟩ := hp
  obtain ⟨i', -, h⟩ := hq
  exact hab (by simpa using congrArg Prod.fst h.symm)

theorem dep_mem {n : Nat} {c : Nat → Nat} {p : Nat × Nat} :
    p ∈ ((List.range n).flatMap fun j => (List.range (c j)).map fun i => (j, i)) ↔ p.1 < n ∧ p.2 < c p.1 := by
  obtain ⟨a, b⟩ := p
  simp only [List.mem_flatMap, List.mem_range, List.mem_map, Prod.mk.injEq]
  constructor
  · rintro ⟨j, hj, i, hi, rfl, rfl⟩; exact ⟨hj, hi⟩
  · rintro ⟨h1, h2⟩; exact ⟨a, h1, b, h2, rfl, rfl⟩

omit [Field K] in
/-- **C36 (transposes).** Out of place, with leading dimensions, and in place. -/
theorem C36_transpose (m : Mem K) :
    (∀ rows cols a b, (a + rows * cols ≤ b ∨ b + rows * cols ≤ a) →
      MatWrite (marr cols rows b) m (transpose2 rows cols a b m) (fun i j => m ((marr rows cols a).ref j i))) ∧
    (∀ (A B : DMat), A.rows = B.cols → A.cols = B.rows → B.rows ≤ B.ld → MatDisjoint A B →
      MatWrite B m (transposeLd A.rows A.cols A.data A.ld B.data B.ld m) (fun i j => m (A.ref j i))) ∧
    (∀ n a, MatWrite (marr n n a) m (transpose n a m) (fun i j => m ((marr n n a).ref j i))) := by
  refine ⟨?_, ?_, ?_⟩
  · intro rows cols a b hd
    refine forN_mat (M := marr cols rows b) le_rfl (fun i j m => m ((marr rows cols a).ref j i)) ?_ m
    intro j hj i hi m m' hm
    refine hm _ (fun j' hj' i' hi' _ => ?_)
    simp only [DMat.ref] at *
    have h1 : rows * i + j < rows * cols := by nlinarith
    have h2 : cols * j' + i' < rows * cols := by nlinarith
    omega
  · intro A B h1 h2 hB hd
    have := forN_store2 (K := K) B.rows B.cols (fun i j => B.ref i j) (fun i j m => m (A.ref j i))
      (fun i hi j _ i' hi' j' _ e => by
        obtain ⟨e1, e2⟩ := mref_inj hB hi hi' e; exact ⟨e2, e1⟩)
      (fun i hi j hj m m' hm => hm _ (fun i' hi' j' hj' _ => hd j (by omega) i (by omega) i' hi' j' hj')) m
    rw [transposeLd, h1, h2]
    exact ⟨fun i hi j hj => this.1 i hi j hj, this.2⟩
  · intro n a
    rw [transpose, forN_dep]
    have inj : ∀ {i j i' j' : Nat}, i < n → i' < n → (marr n n a).ref i j = (marr n n a).ref i' j' → j = j' ∧ i = i' :=
      fun hi hi' e => mref_inj (M := marr n n a) le_rfl hi hi' e
    have := swap_fold (K := K) (fun p : Nat × Nat => (marr n n a).ref (p.1 + 1 + p.2) p.1)
      (fun p => (marr n n a).ref p.1 (p.1 + 1 + p.2)) _ (dep_nodup n (fun i => n - (i + 1)))
      (fun p hp q hq e => by
        obtain ⟨e1, e2⟩ := inj (by have := dep_mem.1 hp; omega) (by have := dep_mem.1 hq; omega) e
        exact Prod.ext e1 (by omega))
      (fun p hp q hq e => by
        obtain ⟨e1, e2⟩ := inj (by have := dep_mem.1 hp; omega) (by have := dep_mem.1 hq; omega) e
        exact Prod.ext e2 (by omega))
      (fun p hp q hq e => by
        obtain ⟨e1, e2⟩ := inj (by have := dep_mem.1 hp; omega) (by have := dep_mem.1 hq; omega) e
        omega) m
    have hF : ((List.range n).flatMap fun j => (List.range (n - (j + 1))).map fun i => (j, i)).foldl
        (fun (m : Mem K) p => store (store m ((marr n n a).ref p.1 (p.1 + 1 + p.2))
          (m ((marr n n a).ref (p.1 + 1 + p.2) p.1))) ((marr n n a).ref (p.1 + 1 + p.2) p.1)
          (m ((marr n n a).ref p.1 (p.1 + 1 + p.2)))) m = _ := rfl
    simp only at this
    obtain ⟨s1, s2⟩ := this
    constructor
    · intro i hi j hj
      simp only at hi hj
      rcases Nat.lt_trichotomy i j with h | rfl | h
      · have := (s1 (i, j - (i + 1)) (dep_mem.2 ⟨hi, by simp only; omega⟩)).2
        simp only [show i + 1 + (j - (i + 1)) = j by omega] at this
        exact this
      · refine s2 _ (fun p hp => ?_)
        have hp' := dep_mem.1 hp
        constructor
        · intro e; have := inj hi (by omega) e; omega
        · intro e; have := inj hi (by omega) e; omega
      · have := (s1 (j, i - (j + 1)) (dep_mem.2 ⟨hj, by simp only; omega⟩)).1
        simp only [show j + 1 + (i - (j + 1)) = i by omega] at this
        exact this
    · intro b hb
      refine s2 _ (fun p hp => ?_)
      have hp' := dep_mem.1 hp
      exact ⟨hb _ (by simp only; omega) _ (by simp only; omega), hb _ (by simp only; omega) _ (by simp only; omega)⟩

/-- the square matrix stored at `a`. -/
def mat (n a : Nat) (m : Mem K) : Matrix (Fin n) (Fin n) K := (marr n n a).den m

theorem trace_eq (n a : Nat) (m : Mem ℝ) :
    trace n a m = ∑ k : Fin n, |mat n a m k k| ∧ (mat n a m).trace = ∑ k : Fin n, mat n a m k k := by
  refine ⟨?_, rfl⟩
  rw [trace, forN_sum n (fun k => |m (a + k * (n + 1))|), zero_add, Finset.sum_range]
  refine Finset.sum_congr rfl (fun i _ => ?_)
  simp only [mat, DMat.den, DMat.ref]
  congr 2
  ring

/-- **C36 (trace, partial).** `aa_la_trace` is the trace exactly for the matrices without negative
element on the diagonal; it sums absolute values. -/
theorem C36_trace_partial (n a : Nat) (m : Mem ℝ) :
    trace n a m = (mat n a m).trace ↔ ∀ i, 0 ≤ mat n a m i i := by
  rw [(trace_eq n a m).1, (trace_eq n a m).2]
  constructor
  · intro h i
    have h2 : ∑ k : Fin n, (|mat n a m k k| - mat n a m k k) = 0 := by
      rw [Finset.sum_sub_distrib, h, sub_self]
    have h3 := (Finset.sum_eq_zero_iff_of_nonneg (fun k _ => by linarith [le_abs_self (mat n a m k k)])).1 h2 i
      (Finset.mem_univ i)
    have := abs_nonneg (mat n a m i i)
    linarith
  · intro h
    exact Finset.sum_congr rfl (fun i _ => abs_of_nonneg (h i))

/-- **C36 is violated by `aa_la_trace`**: the trace of `[-1]` comes out as 1. -/
theorem C36_violates_trace : ∃ (n a : Nat) (m : Mem ℝ), trace n a m = 1 ∧ (mat n a m).trace = -1 := by
  refine ⟨1, 0, fun _ => -1, ?_, ?_⟩
  · rw [(trace_eq _ _ _).1]; simp [mat, DMat.den]
  · rw [(trace_eq _ _ _).2]; simp [mat, DMat.den]

/-- **C36 (weighted inner product, matrix-vector product, identity).** -/
theorem C36_matrix (n a : Nat) (m : Mem K) :
    (∀ x y, wdot n x a y m = ∑ i : Fin n, ∑ j : Fin n, m (x + i.val) * mat n a m i j * m (y + j.val)) ∧
    (∀ c, MatWrite (marr n n a) m (ident n a m) (fun i j => if i = j then 1 else 0) ∧
      VecWrite ⟨n, a, n + 1⟩ m (diag n a c m) (fun _ => c)) ∧
    (∀ rows cols x b, (a + rows * cols ≤ b ∨ b + rows ≤ a) → (x + cols ≤ b ∨ b + rows ≤ x) →
      VecWrite (arr rows b) m (mvmul rows cols a x b m)
        (fun i => ∑ k ∈ Finset.range cols, m ((marr rows cols a).ref i k) * m (x + k))) := by
  refine ⟨?_, ?_, ?_⟩
  · intro x y
    simp only [wdot, forN_sum, zero_add]
    rw [Finset.sum_comm, Finset.sum_range]
    refine Finset.sum_congr rfl (fun j _ => ?_)
    rw [Finset.sum_range, Finset.mul_sum]
    refine Finset.sum_congr rfl (fun i _ => ?_)
    simp only [mat, DMat.den, DMat.ref]
    rw [show a + j.val * n + i.val = a + (n * j.val + i.val) by ring]
    ring
  · intro c
    have hd : ∀ (c : K) m, VecWrite ⟨n, a, n + 1⟩ m (diag n a c m) (fun _ => c) := by
      intro c m
      have := forN_vec (v := ⟨n, a, n + 1⟩) (Nat.succ_pos n) (fun _ (_ : Mem K) => c) (fun _ _ _ _ _ => rfl) m
      simp only [DVec.ref] at this
      simp only [diag, show ∀ i, i * n + i = i * (n + 1) from fun i => by ring]
      exact this
    refine ⟨?_, hd c m⟩
    have hz := elem (n * n) a (fun _ (_ : Mem K) => (0 : K)) (fun _ _ _ _ _ => rfl) m
    have hi := hd 1 (forN (n * n) (fun i m => store m (a + i) 0) m)
    rw [ident]
    constructor
    · intro i h1 j h2
      simp only at h1 h2 ⊢
      by_cases e : i = j
      · subst e
        rw [if_pos rfl]
        have := hi.1 i h1
        simp only [DVec.ref] at this
        rw [show (marr n n a).ref i i = a + i * (n + 1) by simp only [DMat.ref]; ring]
        exact this
      · rw [if_neg e, hi.2]
        · have := hz.1 (n * j + i) (by simp only; nlinarith)
          simpa [DVec.ref, DMat.ref] using this
        · intro k hk e'
          simp only at hk
          have : (marr n n a).ref i j = (marr n n a).ref k k := by
            rw [e']; simp only [DVec.ref, DMat.ref]; ring
          have := mref_inj (M := marr n n a) le_rfl h1 hk this
          omega
    · intro b hb
      rw [hi.2, hz.2]
      · intro k hk e
        simp only at hk
        have h0 : 0 < n := by by_contra h; simp [show n = 0 by omega] at hk
        refine hb (k % n) (Nat.mod_lt _ h0) (k / n) (Nat.div_lt_of_lt_mul hk) ?_
        rw [e]
        simp only [DVec.ref, DMat.ref, mul_one, Nat.div_add_mod]
      · intro k hk e
        simp only at hk
        refine hb k hk k hk ?_
        rw [e]; simp only [DVec.ref, DMat.ref]; ring
  · intro rows cols x b hA hx
    have := (C35_gemv false (1 : K) 0 (marr rows cols a) (arr cols x) (arr rows b) m).2 Nat.one_pos
      (fun i hi j hj k hk => by
        simp only [DMat.ref, DVec.ref] at *
        have : rows * j + i < rows * cols := by nlinarith
        omega)
      (fun k hk l hl => by simp only [DVec.ref] at *; omega)
      (mvmul rows cols a x b m) (by simp [gemv, mvmul])
    refine ⟨fun i hi => (this.1 i hi).trans ?_, this.2⟩
    simp [DMat.op, DVec.ref]

/-! ## Interpolation -/

/-- **C36 (linear interpolation).** Fails exactly when the two times are equal. -/
theorem C36_linterp [DecidableEq K] (n : Nat) (t0 t1 ti : K) (x0 x1 xi : Nat) (m : Mem K)
    (h0 : Apart n x0 xi) (h1 : Apart n x1 xi) :
    (linterp n t0 x0 t1 x1 ti xi m = none ↔ t0 = t1) ∧
    ∀ m', linterp n t0 x0 t1 x1 ti xi m = some m' →
      VecWrite (arr n xi) m m' (fun i => ((t1 - ti) * m (x0 + i) + (ti - t0) * m (x1 + i)) / (t1 - t0)) := by
  constructor
  · rw [linterp]
    split_ifs with h
    · simp [(sub_eq_zero.1 h)]
    · simp only [false_iff]
      intro e; exact h (by rw [e, sub_self])
  · intro m' h
    rw [linterp] at h
    split_ifs at h with hd
    injection h with h
    subst h
    have := elem n xi (fun i m => m (x0 + i) + (ti - t0) / (t1 - t0) * (m (x1 + i) - m (x0 + i)))
      (fun k hk m m' h => by rw [h _ (apart_ne h0 hk), h _ (apart_ne h1 hk)]) m
    simp only [lerp, mul_one]
    refine ⟨fun i hi => (this.1 i hi).trans ?_, this.2⟩
    field_simp
    ring

/-- **C36 (interpolation, strided `aa_la_d_lerp`).** -/
theorem C36_lerp (u : K) (v1 v2 vu : DVec) (hu : 0 < vu.inc) (l1 : v1.len = vu.len) (l2 : v2.len = vu.len)
    (h1 : VecApart v1 vu) (h2 : VecApart v2 vu) (m : Mem K) :
    VecWrite vu m (lerp vu.len u v1.data v1.inc v2.data v2.inc vu.data vu.inc m)
      (fun k => (1 - u) * m (v1.ref k) + u * m (v2.ref k)) := by
  have := forN_vec hu (fun k m => m (v1.ref k) + u * (m (v2.ref k) - m (v1.ref k))) (fun k hk m m' h => by
    rw [h _ (fun l hl hne e => hne (h1 k (by omega) l hl e).symm),
      h _ (fun l hl hne e => hne (h2 k (by omega) l hl e).symm)]) m
  refine ⟨fun i hi => (this.1 i hi).trans ?_, this.2⟩
  ring

open Polynomial in
theorem quad_eq {p : K[X]} (h : p.degree ≤ 2) :
    p = C (p.coeff 2) * X ^ 2 + C (p.coeff 1) * X + C (p.coeff 0) := by
  ext n
  match n with
  | 0 => simp
  | 1 => simp [coeff_X_pow, coeff_C]
  | 2 => simp
  | n + 3 =>
    rw [coeff_eq_zero_of_degree_lt (lt_of_le_of_lt h (by exact_mod_cast (by omega : 2 < n + 3)))]
    simp

open Polynomial in
/-- **C36 (quadratic interpolation).** Fails exactly when two of the times coincide. Otherwise every
element of the result is the value at `ti` of the polynomial of degree at most two through the three
points (there is one, and any such polynomial has that value). -/
theorem C36_quadterp [DecidableEq K] (n : Nat) (t0 t1 t2 ti : K) (x0 x1 x2 xi : Nat) (m : Mem K)
    (h0 : Apart n x0 xi) (h1 : Apart n x1 xi) (h2 : Apart n x2 xi) :
    (quadterp n t0 x0 t1 x1 t2 x2 ti xi m = none ↔ t0 = t1 ∨ t0 = t2 ∨ t1 = t2) ∧
    ∀ m', quadterp n t0 x0 t1 x1 t2 x2 ti xi m = some m' →
      ∃ f, VecWrite (arr n xi) m m' f ∧ ∀ i < n,
        (∃ p : K[X], p.degree ≤ 2 ∧ p.eval t0 = m (x0 + i) ∧ p.eval t1 = m (x1 + i) ∧ p.eval t2 = m (x2 + i)) ∧
        ∀ p : K[X], p.degree ≤ 2 → p.eval t0 = m (x0 + i) → p.eval t1 = m (x1 + i) →
          p.eval t2 = m (x2 + i) → f i = p.eval ti := by
  have hz : ((t1 - t0) * (t2 - t0) = 0 ∨ (t1 - t0) * (t2 - t1) = 0 ∨ (t2 - t0) * (t2 - t1) = 0) ↔
      (t0 = t1 ∨ t0 = t2 ∨ t1 = t2) := by
    simp only [mul_eq_zero, sub_eq_zero, eq_comm (a := t1) (b := t0), eq_comm (a := t2)]
    tauto
  constructor
  · rw [quadterp]
    split_ifs with h
    · simpa using hz.1 h
    · simpa using fun e => h (hz.2 e)
  · intro m' h
    rw [quadterp] at h
    split_ifs at h with hd
    injection h with h
    subst h
    have hd' : ¬ (t0 = t1 ∨ t0 = t2 ∨ t1 = t2) := fun e => hd (hz.2 e)
    push Not at hd'
    obtain ⟨n1, n2, n3⟩ := hd'
    have d1 : t1 - t0 ≠ 0 := sub_ne_zero.2 n1.symm
    have d2 : t2 - t0 ≠ 0 := sub_ne_zero.2 n2.symm
    have d3 : t2 - t1 ≠ 0 := sub_ne_zero.2 n3.symm
    refine ⟨_, elem n xi (fun i m => dot3 (quadM0 t0 t1 t2) (m (x0 + i)) (m (x1 + i)) (m (x2 + i)) +
     dot3 (quadM1 t0 t1 t2) (m (x0 + i)) (m (x1 + i)) (m (x2 + i)) * ti +
     dot3 (quadM2 t0 t1 t2) (m (x0 + i)) (m (x1 + i)) (m (x2 + i)) * (ti * ti))
      (fun k hk m m' h => by rw [h _ (apart_ne h0 hk), h _ (apart_ne h1 hk), h _ (apart_ne h2 hk)]) m, ?_⟩
    intro i hi
    constructor
    · refine ⟨C (dot3 (quadM2 t0 t1 t2) (m (x0 + i)) (m (x1 + i)) (m (x2 + i))) * X ^ 2 +
        C (dot3 (quadM1 t0 t1 t2) (m (x0 + i)) (m (x1 + i)) (m (x2 + i))) * X +
        C (dot3 (quadM0 t0 t1 t2) (m (x0 + i)) (m (x1 + i)) (m (x2 + i))), degree_quadratic_le, ?_, ?_, ?_⟩ <;>
      · simp only [eval_add, eval_mul, eval_C, eval_pow, eval_X, dot3, quadM0, quadM1, quadM2]
        field_simp
        ring
    · intro p hp e0 e1 e2
      have hq := quad_eq hp
      generalize p.coeff 0 = c0, p.coeff 1 = c1, p.coeff 2 = c2 at *
      subst hq
      simp only [eval_add, eval_mul, eval_C, eval_pow, eval_X] at *
      rw [← e0, ← e1, ← e2]
      simp only [dot3, quadM0, quadM1, quadM2]
      field_simp
      ring

open Polynomial in
/-- **C36 (derivative of quadratic interpolation, partial).** `aa_la_quadterp_dx` writes
`b + c*ti/2` instead of `b + 2*c*ti`: it is the derivative at `ti` of the interpolating polynomial
exactly when `c*ti = 0`, that is at time zero or for data on a line. -/
theorem C36_quadterp_dx_partial [DecidableEq K] [CharZero K] (n : Nat) (t0 t1 t2 ti : K)
    (x0 x1 x2 xi : Nat) (m m' : Mem K) (h0 : Apart n x0 xi) (h1 : Apart n x1 xi) (h2 : Apart n x2 xi)
    (h : quadterpDx n t0 x0 t1 x1 t2 x2 ti xi m = some m') :
    ∃ f, VecWrite (arr n xi) m m' f ∧ ∀ i < n, ∀ p : K[X], p.degree ≤ 2 → p.eval t0 = m (x0 + i) →
      p.eval t1 = m (x1 + i) → p.eval t2 = m (x2 + i) →
      (f i = p.derivative.eval ti ↔ p.coeff 2 * ti = 0) := by
  rw [quadterpDx] at h
  split_ifs at h with hd
  injection h with h
  subst h
  simp only [mul_eq_zero, not_or] at hd
  obtain ⟨⟨d1, d2⟩, ⟨-, d3⟩, -⟩ := hd
  refine ⟨_, elem n xi (fun i m => dot3 (quadM1 t0 t1 t2) (m (x0 + i)) (m (x1 + i)) (m (x2 + i)) +
     dot3 (quadM2 t0 t1 t2) (m (x0 + i)) (m (x1 + i)) (m (x2 + i)) * (ti / 2))
      (fun k hk m m' h => by rw [h _ (apart_ne h0 hk), h _ (apart_ne h1 hk), h _ (apart_ne h2 hk)]) m, ?_⟩
  intro i hi p hp e0 e1 e2
  have hq := quad_eq hp
  generalize p.coeff 0 = c0, p.coeff 1 = c1, p.coeff 2 = c2 at *
  subst hq
  simp only [eval_add, eval_mul, eval_C, eval_pow, eval_X] at e0 e1 e2
  rw [← e0, ← e1, ← e2]
  have e : dot3 (quadM1 t0 t1 t2) (c2 * t0 ^ 2 + c1 * t0 + c0) (c2 * t1 ^ 2 + c1 * t1 + c0)
      (c2 * t2 ^ 2 + c1 * t2 + c0) + dot3 (quadM2 t0 t1 t2) (c2 * t0 ^ 2 + c1 * t0 + c0)
      (c2 * t1 ^ 2 + c1 * t1 + c0) (c2 * t2 ^ 2 + c1 * t2 + c0) * (ti / 2) = c1 + c2 * (ti / 2) := by
    simp only [dot3, quadM1, quadM2]
    field_simp
    ring
  rw [e]
  have e' : (derivative (C c2 * X ^ 2 + C c1 * X + C c0)).eval ti = c1 + 2 * c2 * ti := by
    simp [derivative_mul]; ring
  rw [e']
  constructor
  · intro h
    have : (3 / 2 : K) * (c2 * ti) = 0 := by linear_combination -h
    rcases mul_eq_zero.1 this with h | h
    · norm_num at h
    · exact h
  · intro h; linear_combination (-3 / 2) * h

open Polynomial in
/-- **C36 is violated by `aa_la_quadterp_dx`**: for `t^2` sampled at 0, 1, 2 it reports the slope 1/2
at time 1. -/
theorem C36_violates_quadterp_dx : ∃ (m m' : Mem ℚ), quadterpDx 1 0 0 1 1 2 2 1 3 m = some m' ∧
    m' 3 = 1 / 2 ∧ ∃ p : ℚ[X], p.degree ≤ 2 ∧ p.eval 0 = m 0 ∧ p.eval 1 = m 1 ∧ p.eval 2 = m 2 ∧
      p.derivative.eval 1 = 2 := by
  refine ⟨fun i => (i : ℚ) ^ 2, _, by simp only [quadterpDx]; rw [if_neg (by norm_num)], ?_, X ^ 2, ?_, ?_⟩
  · simp [forN, store, dot3, quadM1, quadM2]; norm_num
  · simp
  · simp; norm_num

/-! Concrete cases. -/

example : det3x3 0 (fun a => ([2, 0, 0, 0, 3, 0, 0, 1, 4] : List ℚ).getD a 0) = 24 := by
  norm_num [det3x3]

/-- the hypotheses of `C36_point_plane`: the point (0,0,5) and the plane `2z - 4 = 0`. -/
example : pointPlane 3 0 3 (fun a => ([0, 0, 5, 0, 0, 2, -4] : List ℝ).getD a 0) = some 3 := by
  have h : Real.sqrt 4 = 2 := by
    rw [show (4 : ℝ) = 2 ^ 2 by norm_num, Real.sqrt_sq (by norm_num)]
  have : norm 3 3 (fun a => ([0, 0, 5, 0, 0, 2, -4] : List ℝ).getD a 0) = 2 := by
    rw [norm, show dot 3 3 3 (fun a => ([0, 0, 5, 0, 0, 2, -4] : List ℝ).getD a 0) = 4 by
      norm_num [dot, forN, List.range_succ], h]
  rw [pointPlane, this, if_neg (by norm_num)]
  norm_num [dot, forN, List.range_succ]

end Verif.La
