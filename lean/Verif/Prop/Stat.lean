import Verif.Model.Stat
import Verif.Prop.Scalar
import Verif.Prop.BoxMuller
import Verif.Prop.La
import Mathlib.LinearAlgebra.Matrix.PosDef

/-!
# C75: scores, averages and distances

Specification: the mean is the best constant approximation in squares, the circular mean the best
direction, and the Mahalanobis distance the norm of a quadratic form.
-/

namespace Verif.Scalar

open MeasureTheory ProbabilityTheory
open scoped Matrix

/-- **C75**, `aa_stat_z2x` and `aa_stat_x2z`: mutually inverse, and a standard normal score becomes a
normal variate with the given mean and deviation. -/
theorem C75_scores (mu sigma : ℝ) :
    (sigma ≠ 0 → ∀ x, x2z (z2x x mu sigma) mu sigma = x ∧ z2x (x2z x mu sigma) mu sigma = x) ∧
    (gaussianReal 0 1).map (fun z => z2x z mu sigma) = gaussianReal mu ⟨sigma ^ 2, sq_nonneg _⟩ := by
  constructor
  · intro h x
    simp only [x2z, z2x]
    constructor <;> field_simp <;> ring
  · have e : (fun z => z2x z mu sigma) = (fun y => y + mu) ∘ (fun z => sigma * z) := by
      funext z; simp [z2x, mul_comm]
    rw [e, ← Measure.map_map (by fun_prop) (by fun_prop), gaussianReal_map_const_mul,
      gaussianReal_map_add_const]
    simp only [mul_zero, zero_add, mul_one]
    rfl

/-- Sum of squared distances. -/
noncomputable def dist2 (x : List ℝ) (t : ℝ) : ℝ := (x.map fun s => (s - t) ^ 2).sum

theorem dist2_eq (x : List ℝ) (t : ℝ) :
    dist2 x t = (x.map fun s => s ^ 2).sum - 2 * t * x.sum + x.length * t ^ 2 := by
  induction x with
  | nil => simp [dist2]
  | cons a x ih =>
    unfold dist2 at ih ⊢
    simp only [List.map_cons, List.sum_cons, ih, List.length_cons]
    push_cast; ring

theorem mean_eq (x : List ℝ) : mean x = x.sum / x.length := by
  have := foldl_add id x 0
  simp only [id, zero_add] at this
  rw [mean, this]
  congr 2
  exact List.map_id x

theorem dist2_mean (x : List ℝ) (h : x ≠ []) (t : ℝ) :
    dist2 x t = dist2 x (mean x) + x.length * (t - mean x) ^ 2 := by
  have hn : (x.length : ℝ) ≠ 0 := by simpa using h
  have hs : x.sum = x.length * mean x := by rw [mean_eq]; field_simp
  rw [dist2_eq, dist2_eq, hs]; ring

/-- **C75**, `aa_stat_mean`: the unique number with the least sum of squared distances. -/
theorem C75_mean (x : List ℝ) (h : x ≠ []) (t : ℝ) :
    dist2 x (mean x) ≤ dist2 x t ∧ (dist2 x t = dist2 x (mean x) ↔ t = mean x) := by
  have hn : (0 : ℝ) < x.length := by
    have := List.length_pos_iff.2 h; exact_mod_cast this
  rw [dist2_mean x h t]
  constructor
  · nlinarith [mul_nonneg hn.le (sq_nonneg (t - mean x))]
  · constructor
    · intro e
      have : (x.length : ℝ) * (t - mean x) ^ 2 = 0 := by linarith
      have := (mul_eq_zero.1 this).resolve_left hn.ne'
      have := pow_eq_zero_iff (two_ne_zero) |>.1 this
      linarith
    · rintro rfl; simp

example : mean [1, 2, 6] = 3 := by norm_num [mean]

/-- Agreement of a direction with a sample: the sum of the cosines of the differences. -/
noncomputable def agree (x : List ℝ) (t : ℝ) : ℝ := (x.map fun s => Real.cos (s - t)).sum

theorem agree_eq (x : List ℝ) (t : ℝ) :
    agree x t = (x.map Real.cos).sum * Real.cos t + (x.map Real.sin).sum * Real.sin t := by
  induction x with
  | nil => simp [agree]
  | cons a x ih =>
    unfold agree at ih ⊢
    simp only [List.map_cons, List.sum_cons, ih]; rw [Real.cos_sub]; ring

theorem circMean_eq (x : List ℝ) : circMean x =
    Complex.arg ⟨(x.map Real.cos).sum / x.length, (x.map Real.sin).sum / x.length⟩ := by
  simp only [circMean, foldl_add, zero_add]

theorem agree_cos (x : List ℝ) (h : x ≠ []) (t : ℝ) :
    agree x t = x.length * resultant x * Real.cos (t - circMean x) := by
  have hn : (x.length : ℝ) ≠ 0 := by simpa using h
  rw [agree_eq, circMean_eq]
  obtain ⟨z, hz⟩ : ∃ z : ℂ, z = ⟨(x.map Real.cos).sum / x.length, (x.map Real.sin).sum / x.length⟩ :=
    ⟨_, rfl⟩
  have hr : resultant x = ‖z‖ := by
    have h1 := resultant_sq x
    have h2 : ‖z‖ ^ 2 = resultant x ^ 2 := by
      rw [h1, ← Complex.normSq_eq_norm_sq, Complex.normSq_apply, hz]; ring
    have h3 : 0 ≤ resultant x := norm_nonneg _
    exact ((pow_left_inj₀ (norm_nonneg _) h3 two_ne_zero).1 h2).symm
  rw [← hz, hr]
  have hre : ‖z‖ * Real.cos z.arg = z.re := Complex.norm_mul_cos_arg z
  have him : ‖z‖ * Real.sin z.arg = z.im := Complex.norm_mul_sin_arg z
  have h1 : (x.map Real.cos).sum = x.length * z.re := by rw [hz]; field_simp
  have h2 : (x.map Real.sin).sum = x.length * z.im := by rw [hz]; field_simp
  rw [h1, h2, ← hre, ← him, Real.cos_sub]; ring

/-- **C75**, `aa_stat_circ_mean`: an angle in `(-π,π]` that agrees best with the samples, and the
only such angle when the samples do not cancel. -/
theorem C75_circ_mean (x : List ℝ) (h : x ≠ []) (t : ℝ) :
    circMean x ∈ Set.Ioc (-Real.pi) Real.pi ∧ agree x t ≤ agree x (circMean x) ∧
    (resultant x ≠ 0 → (agree x t = agree x (circMean x) ↔ (t : Real.Angle) = circMean x)) := by
  have hn : (0 : ℝ) < x.length := by
    have := List.length_pos_iff.2 h; exact_mod_cast this
  have hr : 0 ≤ resultant x := norm_nonneg _
  refine ⟨?_, ?_, ?_⟩
  · rw [circMean_eq]; exact Complex.arg_mem_Ioc _
  · rw [agree_cos x h t, agree_cos x h (circMean x), sub_self, Real.cos_zero]
    exact mul_le_mul_of_nonneg_left (Real.cos_le_one _) (mul_nonneg hn.le hr)
  · intro h0
    rw [agree_cos x h t, agree_cos x h (circMean x), sub_self, Real.cos_zero]
    have hp : (x.length : ℝ) * resultant x ≠ 0 := mul_ne_zero hn.ne' h0
    rw [mul_right_inj' hp, Real.cos_eq_one_iff, Real.Angle.angle_eq_iff_two_pi_dvd_sub]
    constructor
    · rintro ⟨k, hk⟩; exact ⟨k, by linarith⟩
    · rintro ⟨k, hk⟩; exact ⟨k, by linarith⟩

example : resultant [0, Real.pi / 2] ≠ 0 := C20_violates_missing_sqrt.1

/-- **C75**, `aa_frand_minmax`: the result lies in the interval, and both ends occur. -/
theorem C75_frand (r M : Nat) (hM : 0 < M) (hr : r ≤ M) (lo hi : ℝ) (h : lo ≤ hi) :
    lo ≤ frandMinmax r M lo hi ∧ frandMinmax r M lo hi ≤ hi ∧
    frandMinmax 0 M lo hi = lo ∧ frandMinmax M M lo hi = hi := by
  have hM' : (0 : ℝ) < M := by exact_mod_cast hM
  have hf : 0 ≤ (r : ℝ) / M := by positivity
  have hf1 : (r : ℝ) / M ≤ 1 := (div_le_one hM').2 (by exact_mod_cast hr)
  simp only [frandMinmax]
  refine ⟨by nlinarith, by nlinarith, by simp, ?_⟩
  rw [div_self hM'.ne']; ring

example : frandMinmax 1 2 0 10 = 5 := by norm_num [frandMinmax]

open Verif.Mat Verif.La in
/-- **C75**, `aa_stat_mahalanobis`: the norm of the difference in the quadratic form of the inverse
covariance; for a positive definite one it vanishes exactly at the mean. -/
theorem C75_mahalanobis (n x mu e t : Nat) (m : Mem ℝ)
    (hx : x + n ≤ t ∨ t + n ≤ x) (hmu : mu + n ≤ t ∨ t + n ≤ mu) (he : e + n * n ≤ t ∨ t + n ≤ e) :
    let d : Fin n → ℝ := fun i => m (x + i) - m (mu + i)
    mahalanobis n x mu e t m = Real.sqrt (d ⬝ᵥ (mat n e m *ᵥ d)) ∧
    ((mat n e m).PosDef → (mahalanobis n x mu e t m = 0 ↔ ∀ i < n, m (x + i) = m (mu + i))) := by
  intro d
  have main : mahalanobis n x mu e t m = Real.sqrt (d ⬝ᵥ (mat n e m *ᵥ d)) := by
    have h1 := forN_store (K := ℝ) n (fun i => t + i) (fun i m => m (x + i))
      (fun a _ b _ h => by simpa using h)
      (fun k hk m m' h => h _ (fun l hl _ => by omega)) m
    obtain ⟨m1, hm1⟩ : ∃ m1, m1 = forN n (fun i m => store m (t + i) (m (x + i))) m := ⟨_, rfl⟩
    rw [← hm1] at h1
    have h2 := forN_store (K := ℝ) n (fun i => t + i) (fun i m => m (t + i) + (-1) * m (mu + i))
      (fun a _ b _ h => by simpa using h)
      (fun k hk m m' h => by
        rw [h _ (fun l hl hlk => by omega), h (mu + k) (fun l hl _ => by omega)]) m1
    obtain ⟨m2, hm2⟩ : ∃ m2, m2 =
      forN n (fun i m => store m (t + i) (m (t + i) + (-1) * m (mu + i))) m1 := ⟨_, rfl⟩
    rw [← hm2] at h2
    have hd : ∀ i : Fin n, m2 (t + i) = d i := by
      intro i
      rw [h2.1 i i.2, h1.1 i i.2, h1.2 (mu + i) (fun l hl => by have := i.2; omega)]
      simp only [d]; ring
    have hE : mat n e m2 = mat n e m := by
      ext i j
      have hb : ∀ l < n, e + (n * j.val + i.val) ≠ t + l := by
        intro l hl
        have hi := i.2
        have hj := j.2
        have : n * j.val + i.val < n * n := by nlinarith
        omega
      have hb' : ∀ l < n, (marr n n e).ref i j ≠ t + l := by
        simpa only [DMat.ref, marr, Nat.mul_comm, Nat.add_assoc] using hb
      show m2 ((marr n n e).ref i j) = m ((marr n n e).ref i j)
      rw [h2.2 _ hb', h1.2 _ hb']
    show Real.sqrt (wdot n t e t (forN n _ (forN n _ m))) = _
    rw [← hm1, ← hm2, (C36_matrix n e m2).1 t t, hE]
    congr 1
    simp only [dotProduct, Matrix.mulVec, hd, Finset.mul_sum]
    refine Finset.sum_congr rfl fun i _ => Finset.sum_congr rfl fun j _ => ?_
    ring
  refine ⟨main, fun hp => ?_⟩
  rw [main]
  have hz : (∀ i < n, m (x + i) = m (mu + i)) ↔ d = 0 := by
    constructor
    · intro h; funext i; simp [d, h i i.2]
    · intro h i hi
      have := congrFun h ⟨i, hi⟩
      simp only [d, Pi.zero_apply] at this
      linarith
  rw [hz]
  constructor
  · intro h
    by_contra hne
    have := hp.dotProduct_mulVec_pos hne
    simp only [star_trivial] at this
    rw [Real.sqrt_eq_zero'] at h
    linarith
  · rintro h; rw [h]; simp

/-- A positive definite matrix of that kind: the identity. -/
example : (Verif.La.mat 1 0 (fun _ => (1 : ℝ))).PosDef := by
  have : Verif.La.mat 1 0 (fun _ => (1 : ℝ)) = 1 := by
    ext i j; rw [Subsingleton.elim i j, Matrix.one_apply_eq]; rfl
  rw [this]; exact Matrix.PosDef.one

end Verif.Scalar
