import Verif.Model.TfF
import Verif.Prop.TfAvg

/-!
# C128: the weighted average of poses; C129: polynomials by Horner's rule
-/

namespace Verif.TfAvg

open Verif.Mat Verif.Tf

/-! ## Spec -/

/-- weighted sum of the squared distances of the point `x` from `P 0 … P (n-1)`. -/
def vcost (n : Nat) (w : Nat → ℝ) (P : Nat → V3) (x : V3) : ℝ :=
  ∑ i ∈ Finset.range n, w i * ((x.x - (P i).x) ^ 2 + (x.y - (P i).y) ^ 2 + (x.z - (P i).z) ^ 2)

/-! ## The translation -/

/-- the translation is the weighted sum. -/
theorem wavg_sum (n : Nat) (w : Nat → ℝ) (P : Nat → V3) :
    forN n (fun i (a : V3) => (⟨a.x + w i * (P i).x, a.y + w i * (P i).y, a.z + w i * (P i).z⟩ : V3)) ⟨0, 0, 0⟩ =
    ⟨∑ i ∈ Finset.range n, w i * (P i).x, ∑ i ∈ Finset.range n, w i * (P i).y,
      ∑ i ∈ Finset.range n, w i * (P i).z⟩ := by
  induction n with
  | zero => simp [forN]
  | succ n ih => rw [forN_snoc, ih]; simp [Finset.sum_range_succ]

theorem line_min (n : Nat) (w : Nat → ℝ) (p : Nat → ℝ) (h1 : ∑ i ∈ Finset.range n, w i = 1) (x : ℝ) :
    ∑ i ∈ Finset.range n, w i * (x - p i) ^ 2 = ∑ i ∈ Finset.range n, w i *
      ((∑ i ∈ Finset.range n, w i * p i) - p i) ^ 2 + (x - ∑ i ∈ Finset.range n, w i * p i) ^ 2 := by
  set c := ∑ i ∈ Finset.range n, w i * p i with hc
  have e : ∀ y : ℝ, ∑ i ∈ Finset.range n, w i * (y - p i) ^ 2 =
      y ^ 2 - 2 * y * c + ∑ i ∈ Finset.range n, w i * p i ^ 2 := by
    intro y
    have : ∀ i ∈ Finset.range n, w i * (y - p i) ^ 2 = y ^ 2 * w i - 2 * y * (w i * p i) + w i * p i ^ 2 :=
      fun i _ => by ring
    rw [Finset.sum_congr rfl this, Finset.sum_add_distrib, Finset.sum_sub_distrib, ← Finset.mul_sum, h1,
      ← Finset.mul_sum, ← hc]
    ring
  rw [e, e]; ring

theorem vcost_eq (n : Nat) (w : Nat → ℝ) (P : Nat → V3) (x : V3) : vcost n w P x =
    ∑ i ∈ Finset.range n, w i * (x.x - (P i).x) ^ 2 + ∑ i ∈ Finset.range n, w i * (x.y - (P i).y) ^ 2 +
    ∑ i ∈ Finset.range n, w i * (x.z - (P i).z) ^ 2 := by
  rw [vcost, ← Finset.sum_add_distrib, ← Finset.sum_add_distrib]
  exact Finset.sum_congr rfl fun i _ => by ring

/-- **C128** (partial: for weights that are given and sum to one). The rotation of the average of poses has the
least weighted sum of squared distances from their rotations, and the translation the least from their
translations; any other translation is worse. -/
theorem C128_average_partial (eev : Eev) (he : EevSpec eev) (n : Nat) (w : Nat → ℝ) (ee ld : Nat) (m : Mem ℝ)
    (hw : ∀ i < n, 0 ≤ w i) (h1 : ∑ i ∈ Finset.range n, w i = 1) (hQ : ∀ i < n, UnitQ (colQ ee ld i m)) :
    ∃ a, qutrWavg eev n (some w) ee ld m = some a ∧ UnitQ a.1 ∧
    (∀ p, UnitQ p → cost n w (fun i => colQ ee ld i m) a.1 ≤ cost n w (fun i => colQ ee ld i m) p) ∧
    ∀ x, vcost n w (fun i => colV ee ld i m) a.2 ≤ vcost n w (fun i => colV ee ld i m) x ∧
      (vcost n w (fun i => colV ee ld i m) a.2 = vcost n w (fun i => colV ee ld i m) x → x = a.2) := by
  refine ⟨_, rfl, ?_⟩
  obtain ⟨c1, -, c3⟩ := C110_average eev he n (some w) ee ld m (fun w' e i hi => by cases e; exact hw i hi) hQ
  refine ⟨c1, c3, fun x => ?_⟩
  dsimp only
  rw [wavg_sum n w fun i => colV ee ld i m]
  simp only [vcost_eq]
  have ex := line_min n w (fun i => (colV ee ld i m).x) h1 x.x
  have ey := line_min n w (fun i => (colV ee ld i m).y) h1 x.y
  have ez := line_min n w (fun i => (colV ee ld i m).z) h1 x.z
  rw [ex, ey, ez]
  generalize (∑ i ∈ Finset.range n, w i * (colV ee ld i m).x) = cx
  generalize (∑ i ∈ Finset.range n, w i * (colV ee ld i m).y) = cy
  generalize (∑ i ∈ Finset.range n, w i * (colV ee ld i m).z) = cz
  refine ⟨by nlinarith [sq_nonneg (x.x - cx), sq_nonneg (x.y - cy), sq_nonneg (x.z - cz)], fun h => ?_⟩
  have hs : (x.x - cx) ^ 2 + (x.y - cy) ^ 2 + (x.z - cz) ^ 2 = 0 := by linarith
  have a1 := sq_nonneg (x.x - cx)
  have a2 := sq_nonneg (x.y - cy)
  have a3 := sq_nonneg (x.z - cz)
  have z1 : x.x - cx = 0 := pow_eq_zero_iff (two_ne_zero) |>.1 (by linarith)
  have z2 : x.y - cy = 0 := pow_eq_zero_iff (two_ne_zero) |>.1 (by linarith)
  have z3 : x.z - cz = 0 := pow_eq_zero_iff (two_ne_zero) |>.1 (by linarith)
  ext
  · exact sub_eq_zero.1 z1
  · exact sub_eq_zero.1 z2
  · exact sub_eq_zero.1 z3

/-- **C128** (partial, as before): the average of one pose, given any number of times and with any signs of
the quaternion, is the pose. -/
theorem C128_agree_partial (eev : Eev) (he : EevSpec eev) (n : Nat) (w : Nat → ℝ) (ee ld : Nat) (m : Mem ℝ)
    (hw : ∀ i < n, 0 ≤ w i) (h1 : ∑ i ∈ Finset.range n, w i = 1) (hQ : ∀ i < n, UnitQ (colQ ee ld i m))
    (q : Quat) (v : V3) (hq : UnitQ q)
    (h : ∀ i < n, quat2rotmat (colQ ee ld i m) = quat2rotmat q ∧ colV ee ld i m = v) :
    ∃ a, qutrWavg eev n (some w) ee ld m = some a ∧ quat2rotmat a.1 = quat2rotmat q ∧ a.2 = v := by
  obtain ⟨a, e, ua, ca, va⟩ := C128_average_partial eev he n w ee ld m hw h1 hQ
  refine ⟨a, e, ?_, ?_⟩
  · have c0 : cost n w (fun i => colQ ee ld i m) q = 0 :=
      Finset.sum_eq_zero fun i hi => by rw [(h i (Finset.mem_range.1 hi)).1]; simp [frob]
    have c1 := ca q hq
    rw [c0] at c1
    have c2 : cost n w (fun i => colQ ee ld i m) a.1 = frob (quat2rotmat a.1) (quat2rotmat q) := by
      rw [cost, ← one_mul (frob _ (quat2rotmat q)), ← h1, Finset.sum_mul]
      exact Finset.sum_congr rfl fun i hi => by rw [(h i (Finset.mem_range.1 hi)).1]
    rw [c2] at c1
    exact frob_zero (le_antisymm c1 (by unfold frob; positivity))
  · have c0 : vcost n w (fun i => colV ee ld i m) v = 0 :=
      Finset.sum_eq_zero fun i hi => by beta_reduce; rw [(h i (Finset.mem_range.1 hi)).2]; simp
    obtain ⟨v1, v2⟩ := va v
    have : 0 ≤ vcost n w (fun i => colV ee ld i m) a.2 :=
      Finset.sum_nonneg fun i hi => mul_nonneg (hw i (Finset.mem_range.1 hi)) (by positivity)
    exact (v2 (by linarith)).symm

/-- two poses, the second twice as important; and a contract-abiding eigenvalue routine. -/
example : ∃ (eev : Eev) (m : Mem ℝ) (w : Nat → ℝ), EevSpec eev ∧ (∀ i < 2, 0 ≤ w i) ∧
    ∑ i ∈ Finset.range 2, w i = 1 ∧ (∀ i < 2, UnitQ (colQ 0 7 i m)) ∧ colV 0 7 0 m = ⟨3, 0, 0⟩ ∧
    colV 0 7 1 m = ⟨0, 6, 0⟩ ∧ ∃ a, qutrWavg eev 2 (some w) 0 7 m = some a ∧ a.2 = ⟨1, 4, 0⟩ := by
  obtain ⟨eev, h⟩ := exists_eev
  refine ⟨eev, fun a => if a = 3 then 1 else if a = 4 then 3 else if a = 7 then 1 else if a = 12 then 6 else 0,
    fun i => if i = 0 then 1 / 3 else 2 / 3, h, ?_, ?_, ?_, ?_, ?_, _, rfl, ?_⟩
  · intro i hi; interval_cases i <;> norm_num
  · norm_num [Finset.sum_range_succ]
  · intro i hi; interval_cases i <;> norm_num [UnitQ, colQ]
  · norm_num [colV]
  · norm_num [colV]
  · dsimp only
    rw [wavg_sum 2 _ fun i => colV 0 7 i _]
    norm_num [Finset.sum_range_succ, colV]

/-- **C128 is violated** by weights that do not sum to one: the "average" of one pose with weight 2 is twice as far
away, although the rotation is right. -/
theorem C128_violates_scale (eev : Eev) : ∃ (m : Mem ℝ) (w : Nat → ℝ), (∀ i < 1, 0 < w i) ∧
    UnitQ (colQ 0 7 0 m) ∧ colV 0 7 0 m = ⟨1, 0, 0⟩ ∧
    qutrWavg eev 1 (some w) 0 7 m = some (colQ 0 7 0 m, ⟨2, 0, 0⟩) ∧
    vcost 1 w (fun i => colV 0 7 i m) ⟨1, 0, 0⟩ < vcost 1 w (fun i => colV 0 7 i m) ⟨2, 0, 0⟩ := by
  refine ⟨fun a => if a = 3 ∨ a = 4 then 1 else 0, fun _ => 2, by norm_num, ?_, ?_, ?_, ?_⟩
  · norm_num [UnitQ, colQ]
  · norm_num [colV]
  · simp [qutrWavg, davenport, forN, colV]
  · norm_num [vcost, colV]

/-- **C128 is violated** by no weights: equal weights for `aa_tf_quat_davenport`, a NULL access here. -/
theorem C128_violates_null (eev : Eev) (n : Nat) (hn : n ≠ 0) (ee ld : Nat) (m : Mem ℝ) :
    qutrWavg eev n none ee ld m = none := by
  simp [qutrWavg, hn]

/-! ## Horner's rule -/

/-- **C129** (partial: the functions of a fixed number of coefficients). -/
theorem C129_fixed_partial (x : ℝ) (a : Nat → ℝ) :
    hornerF3 x (a 0) (a 1) (a 2) = ∑ i ∈ Finset.range 3, a i * x ^ i ∧
    horner3 x (a 0) (a 1) (a 2) = ∑ i ∈ Finset.range 3, a i * x ^ i ∧
    hornerF4 x (a 0) (a 1) (a 2) (a 3) = ∑ i ∈ Finset.range 4, a i * x ^ i ∧
    hornerF5 x (a 0) (a 1) (a 2) (a 3) (a 4) = ∑ i ∈ Finset.range 5, a i * x ^ i := by
  simp only [hornerF3, horner3, hornerF4, hornerF5, Finset.sum_range_succ, Finset.sum_range_zero]
  refine ⟨?_, ?_, ?_, ?_⟩ <;> ring

/-- **C129 is violated** by `aa_tf_horner` for every array: it reads before the first element (or, if the array is
empty, its last element). -/
theorem C129_violates_array (x : ℝ) (n : Nat) (a : Int → ℝ) : horner x n a = none := by
  unfold horner
  split
  · rfl
  · rename_i h
    rw [hornerLoop, if_neg (by omega), if_pos (Or.inl (by omega))]

end Verif.TfAvg
