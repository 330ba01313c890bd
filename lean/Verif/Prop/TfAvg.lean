import Verif.Model.TfAvg
import Verif.Prop.LaStat
import Mathlib.Analysis.Matrix.Spectrum
import Mathlib.Tactic.LinearCombination

/-!
# C110: average orientation and relative translation

What is demanded of the results is stated with the rotation matrices of the quaternions and sums of
squares, and not with the quaternion matrix that the code builds.
-/

namespace Verif.TfAvg

open Verif.Mat Verif.Tf

/-! ## Spec -/

/-- squared Frobenius distance of two 3x3 matrices. -/
def frob (A B : M3) : ℝ :=
  (A.m0 - B.m0) ^ 2 + (A.m1 - B.m1) ^ 2 + (A.m2 - B.m2) ^ 2 + (A.m3 - B.m3) ^ 2 + (A.m4 - B.m4) ^ 2 +
  (A.m5 - B.m5) ^ 2 + (A.m6 - B.m6) ^ 2 + (A.m7 - B.m7) ^ 2 + (A.m8 - B.m8) ^ 2

def UnitQ (q : Quat) : Prop := q.x ^ 2 + q.y ^ 2 + q.z ^ 2 + q.w ^ 2 = 1

def negQ (q : Quat) : Quat := ⟨-q.x, -q.y, -q.z, -q.w⟩

/-- weighted sum of the squared distances of the rotation of `p` from the rotations of `Q 0 … Q (n-1)`. -/
noncomputable def cost (n : Nat) (w : Nat → ℝ) (Q : Nat → Quat) (p : Quat) : ℝ :=
  ∑ i ∈ Finset.range n, w i * frob (quat2rotmat p) (quat2rotmat (Q i))

/-- what `geev` does with a symmetric 4x4 matrix, in exact arithmetic: the columns are unit eigenvectors
for the listed values, and every eigenvalue is listed. -/
def EevSpec (eev : Eev) : Prop :=
  ∀ A : Nat → ℝ, (∀ i < 4, ∀ j < 4, A (4 * j + i) = A (4 * i + j)) →
    (∀ k < 4, (∑ i ∈ Finset.range 4, (eev A).2 (4 * k + i) ^ 2 = 1) ∧
      ∀ i < 4, ∑ j ∈ Finset.range 4, A (4 * j + i) * (eev A).2 (4 * k + j) = (eev A).1 k * (eev A).2 (4 * k + i)) ∧
    ∀ (l : ℝ) (v : Nat → ℝ), (∃ i < 4, v i ≠ 0) →
      (∀ i < 4, ∑ j ∈ Finset.range 4, A (4 * j + i) * v j = l * v i) → ∃ k < 4, (eev A).1 k = l

/-! ## The quadratic form -/

def qdot (p q : Quat) : ℝ := p.x * q.x + p.y * q.y + p.z * q.z + p.w * q.w

/-- the matrix of a quaternion with homogeneous entries. -/
def homR (q : Quat) : M3 :=
  ⟨q.w ^ 2 + q.x ^ 2 - q.y ^ 2 - q.z ^ 2, 2 * (q.x * q.y + q.w * q.z), 2 * (q.x * q.z - q.w * q.y),
   2 * (q.x * q.y - q.w * q.z), q.w ^ 2 - q.x ^ 2 + q.y ^ 2 - q.z ^ 2, 2 * (q.y * q.z + q.w * q.x),
   2 * (q.x * q.z + q.w * q.y), 2 * (q.y * q.z - q.w * q.x), q.w ^ 2 - q.x ^ 2 - q.y ^ 2 + q.z ^ 2⟩

theorem homR_eq {q : Quat} (h : UnitQ q) : quat2rotmat q = homR q := by
  unfold UnitQ at h
  simp only [quat2rotmat, skewsymScalC, homR, Quat.vec]
  ext <;> dsimp only <;> first | ring1 | linear_combination -h

theorem frob_eq {p q : Quat} (hp : UnitQ p) (hq : UnitQ q) :
    frob (quat2rotmat p) (quat2rotmat q) = 8 * (1 - qdot p q ^ 2) := by
  have h : frob (homR p) (homR q) = 3 * (p.x ^ 2 + p.y ^ 2 + p.z ^ 2 + p.w ^ 2) ^ 2 +
      3 * (q.x ^ 2 + q.y ^ 2 + q.z ^ 2 + q.w ^ 2) ^ 2 + 2 * (p.x ^ 2 + p.y ^ 2 + p.z ^ 2 + p.w ^ 2) *
      (q.x ^ 2 + q.y ^ 2 + q.z ^ 2 + q.w ^ 2) - 8 * qdot p q ^ 2 := by
    simp only [frob, homR, qdot]; ring
  unfold UnitQ at *
  rw [homR_eq hp, homR_eq hq, h, hp, hq]; ring

theorem davenport_entry (n : Nat) (w : Nat → ℝ) (qq ld : Nat) (m : Mem ℝ) (a : Nat) :
    davenportMatrix n w qq ld m a =
      ∑ i ∈ Finset.range n, w i * (qat (colQ qq ld i m) (a % 4) * qat (colQ qq ld i m) (a / 4)) := by
  unfold davenportMatrix
  induction n with
  | zero => simp [forN]
  | succ n ih => rw [forN_snoc, Finset.sum_range_succ, ← ih]

theorem quad_eq (n : Nat) (w : Nat → ℝ) (qq ld : Nat) (m : Mem ℝ) (v : Nat → ℝ) :
    ∑ i ∈ Finset.range 4, v i * ∑ j ∈ Finset.range 4, davenportMatrix n w qq ld m (4 * j + i) * v j =
      ∑ k ∈ Finset.range n, w k * qdot (qOf v 0) (colQ qq ld k m) ^ 2 := by
  simp only [davenport_entry, Finset.sum_range_succ, Finset.sum_range_zero, zero_add, Nat.reduceMul, Nat.reduceAdd,
    Nat.reduceMod, Nat.reduceDiv, Finset.mul_sum, Finset.sum_mul, ← Finset.sum_add_distrib]
  refine Finset.sum_congr rfl fun k _ => ?_
  simp [qat, qdot, qOf]
  ring

/-- the largest eigenvalue of a symmetric matrix bounds its quadratic form. -/
theorem rayleigh (A : Matrix (Fin 4) (Fin 4) ℝ) (hA : A.IsHermitian) (L : ℝ)
    (hL : ∀ (l : ℝ) (v : Fin 4 → ℝ), v ≠ 0 → A.mulVec v = l • v → l ≤ L) (v : Fin 4 → ℝ) :
    v ⬝ᵥ A.mulVec v ≤ L * (v ⬝ᵥ v) := by
  have hd : A = (hA.eigenvectorUnitary : Matrix (Fin 4) (Fin 4) ℝ) * Matrix.diagonal hA.eigenvalues *
      (hA.eigenvectorUnitary : Matrix (Fin 4) (Fin 4) ℝ).transpose := by
    have := hA.spectral_theorem
    simpa [Unitary.conjStarAlgAut_apply, Matrix.star_eq_conjTranspose, Function.comp_def] using this
  have hu : (hA.eigenvectorUnitary : Matrix (Fin 4) (Fin 4) ℝ) *
      (hA.eigenvectorUnitary : Matrix (Fin 4) (Fin 4) ℝ).transpose = 1 := by
    have := Unitary.coe_mul_star_self hA.eigenvectorUnitary
    simpa [Matrix.star_eq_conjTranspose] using this
  generalize hU : (hA.eigenvectorUnitary : Matrix (Fin 4) (Fin 4) ℝ) = U at hd hu
  have e1 : v ⬝ᵥ A.mulVec v = ∑ k, hA.eigenvalues k * (U.transpose.mulVec v k) ^ 2 := by
    conv_lhs => rw [hd]
    rw [← Matrix.mulVec_mulVec, ← Matrix.mulVec_mulVec, Matrix.dotProduct_mulVec, ← Matrix.mulVec_transpose]
    simp only [dotProduct, Matrix.mulVec_diagonal]
    exact Finset.sum_congr rfl fun k _ => by ring
  have e2 : v ⬝ᵥ v = ∑ k, (U.transpose.mulVec v k) ^ 2 := by
    have : v ⬝ᵥ v = v ⬝ᵥ (U * U.transpose).mulVec v := by rw [hu, Matrix.one_mulVec]
    rw [this, ← Matrix.mulVec_mulVec, Matrix.dotProduct_mulVec, ← Matrix.mulVec_transpose]
    simp only [dotProduct]
    exact Finset.sum_congr rfl fun k _ => by ring
  rw [e1, e2, Finset.mul_sum]
  refine Finset.sum_le_sum fun k _ => mul_le_mul_of_nonneg_right ?_ (sq_nonneg _)
  refine hL _ (hA.eigenvectorBasis k) ?_ (hA.mulVec_eigenvectorBasis k)
  intro h
  have := (hA.eigenvectorBasis).orthonormal.1 k
  have h0 : hA.eigenvectorBasis k = 0 := by
    ext i; exact congrFun h i
  simp [h0] at this

/-- an eigenvector for the largest eigenvalue maximizes the quadratic form over the unit vectors. -/
theorem eig_max {eev : Eev} (he : EevSpec eev) (A : Nat → ℝ)
    (hs : ∀ i < 4, ∀ j < 4, A (4 * j + i) = A (4 * i + j)) :
    UnitQ (davenportEig eev A) ∧ ∀ u : Nat → ℝ, UnitQ (qOf u 0) →
      ∑ i ∈ Finset.range 4, u i * ∑ j ∈ Finset.range 4, A (4 * j + i) * u j ≤
      ∑ i ∈ Finset.range 4, qat (davenportEig eev A) i *
        ∑ j ∈ Finset.range 4, A (4 * j + i) * qat (davenportEig eev A) j := by
  obtain ⟨h1, h2⟩ := he A hs
  obtain ⟨-, hk, hm, -⟩ := La.C63_loc 4 0 1 (by norm_num) (eev A).1
  simp only [zero_add, mul_one] at hm
  unfold davenportEig
  generalize La.maxloc 4 0 1 (eev A).1 = k at hk hm
  obtain ⟨h3, h4⟩ := h1 k hk
  have hq : ∀ i < 4, qat (qOf (eev A).2 (4 * k)) i = (eev A).2 (4 * k + i) := by
    intro i hi
    interval_cases i <;> rfl
  have hr : ∀ f g : Nat → ℝ, (∀ i < 4, f i = g i) → ∑ i ∈ Finset.range 4, f i = ∑ i ∈ Finset.range 4, g i :=
    fun f g h => Finset.sum_congr rfl fun i hi => h i (Finset.mem_range.1 hi)
  have hval : ∑ i ∈ Finset.range 4, qat (qOf (eev A).2 (4 * k)) i *
      ∑ j ∈ Finset.range 4, A (4 * j + i) * qat (qOf (eev A).2 (4 * k)) j = (eev A).1 k := by
    rw [hr _ (fun i => (eev A).1 k * (eev A).2 (4 * k + i) ^ 2) fun i hi => ?_, ← Finset.mul_sum, h3, mul_one]
    rw [hr _ (fun j => A (4 * j + i) * (eev A).2 (4 * k + j)) fun j hj => by rw [hq j hj], h4 i hi, hq i hi]
    ring
  refine ⟨by simpa [Finset.sum_range_succ, UnitQ, qOf] using h3, fun u hu => ?_⟩
  rw [hval]
  let B : Matrix (Fin 4) (Fin 4) ℝ := Matrix.of fun i j => A (4 * j + i)
  have hB : B.IsHermitian := by
    ext i j
    simpa [B] using hs j.1 j.2 i.1 i.2
  have := rayleigh B hB ((eev A).1 k) (fun l v hv e => ?_) (fun i => u i)
  · have hu' : (fun i : Fin 4 => u i) ⬝ᵥ (fun i : Fin 4 => u i) = 1 := by
      simp only [UnitQ, qOf] at hu
      simp [dotProduct, Fin.sum_univ_four, ← sq, ← hu]
    rw [hu', mul_one] at this
    simpa [dotProduct, Matrix.mulVec, B, Finset.sum_range] using this
  · obtain ⟨i, hi⟩ : ∃ i, v i ≠ 0 := by
      by_contra h
      exact hv (funext fun i => by simpa using not_exists.1 h i)
    obtain ⟨k', hk', e'⟩ := h2 l (fun a => if h : a < 4 then v ⟨a, h⟩ else 0) ⟨i, i.2, by simpa using hi⟩ (by
      intro a ha
      have := congrFun e ⟨a, ha⟩
      simpa [Matrix.mulVec, dotProduct, B, Finset.sum_range, ha] using this)
    rw [← e']
    exact hm k' hk'

theorem dm_symm (n : Nat) (w : Nat → ℝ) (qq ld : Nat) (m : Mem ℝ) :
    ∀ i < 4, ∀ j < 4, davenportMatrix n w qq ld m (4 * j + i) = davenportMatrix n w qq ld m (4 * i + j) := by
  intro i hi j hj
  rw [davenport_entry, davenport_entry]
  refine Finset.sum_congr rfl fun k _ => ?_
  rw [show (4 * j + i) % 4 = i by omega, show (4 * j + i) / 4 = j by omega,
    show (4 * i + j) % 4 = j by omega, show (4 * i + j) / 4 = i by omega]
  ring

theorem qOf_qat (q : Quat) : qOf (qat q) 0 = q := rfl

theorem cost_eq (n : Nat) (w : Nat → ℝ) (Q : Nat → Quat) {p : Quat} (hp : UnitQ p) (hQ : ∀ i < n, UnitQ (Q i)) :
    cost n w Q p = 8 * ∑ i ∈ Finset.range n, w i - 8 * ∑ i ∈ Finset.range n, w i * qdot p (Q i) ^ 2 := by
  rw [cost, Finset.mul_sum, Finset.mul_sum, ← Finset.sum_sub_distrib]
  refine Finset.sum_congr rfl fun i hi => ?_
  rw [frob_eq hp (hQ i (Finset.mem_range.1 hi))]; ring

theorem eig_opt {eev : Eev} (he : EevSpec eev) (n : Nat) (w : Nat → ℝ) (qq ld : Nat) (m : Mem ℝ)
    (hQ : ∀ i < n, UnitQ (colQ qq ld i m)) :
    UnitQ (davenportEig eev (davenportMatrix n w qq ld m)) ∧
    ∀ p, UnitQ p → cost n w (fun i => colQ qq ld i m) (davenportEig eev (davenportMatrix n w qq ld m)) ≤
      cost n w (fun i => colQ qq ld i m) p := by
  obtain ⟨h1, h2⟩ := eig_max he _ (dm_symm n w qq ld m)
  refine ⟨h1, fun p hp => ?_⟩
  have := h2 (qat p) (by rwa [qOf_qat])
  rw [quad_eq, quad_eq, qOf_qat, qOf_qat] at this
  rw [cost_eq n w _ h1 hQ, cost_eq n w _ hp hQ]
  linarith

/-! ## The average -/

/-- **C110 (average).** For unit quaternions and nonnegative weights (equal weights if none are given)
`aa_tf_quat_davenport` returns a unit quaternion whose rotation minimizes the weighted sum of squared
distances from the given rotations. For no quaternions it is the identity. -/
theorem C110_average (eev : Eev) (he : EevSpec eev) (n : Nat) (w : Option (Nat → ℝ)) (qq ld : Nat) (m : Mem ℝ)
    (hw : ∀ w', w = some w' → ∀ i < n, 0 ≤ w' i) (hQ : ∀ i < n, UnitQ (colQ qq ld i m)) :
    UnitQ (davenport eev n w qq ld m) ∧ (n = 0 → davenport eev n w qq ld m = ⟨0, 0, 0, 1⟩) ∧
    ∀ p, UnitQ p → cost n (w.getD fun _ => 1) (fun i => colQ qq ld i m) (davenport eev n w qq ld m) ≤
      cost n (w.getD fun _ => 1) (fun i => colQ qq ld i m) p := by
  rcases Nat.lt_or_ge n 2 with hn | hn
  · interval_cases n
    · simp [davenport, UnitQ, cost]
    · refine ⟨by simpa [davenport] using hQ 0 (by norm_num), by simp, fun p hp => ?_⟩
      have h0 := hQ 0 (by norm_num)
      have hw0 : 0 ≤ w.getD (fun _ => 1) 0 := by
        cases w with
        | none => simp
        | some w' => simpa using hw w' rfl 0 (by norm_num)
      simp only [davenport, one_ne_zero, if_true, if_false, cost, Finset.sum_range_one]
      refine mul_le_mul_of_nonneg_left ?_ hw0
      have e : frob (quat2rotmat (colQ qq ld 0 m)) (quat2rotmat (colQ qq ld 0 m)) = 0 := by simp [frob]
      rw [e]; unfold frob; positivity
  · have n0 : n ≠ 0 := by omega
    have n1 : n ≠ 1 := by omega
    simp only [davenport, if_neg n0, if_neg n1]
    cases w with
    | some w =>
      obtain ⟨h1, h2⟩ := eig_opt he n w qq ld m hQ
      exact ⟨h1, by simp [n0], h2⟩
    | none =>
      obtain ⟨h1, h2⟩ := eig_opt he n (fun _ => 1 / (n : ℝ)) qq ld m hQ
      refine ⟨h1, by simp [n0], fun p hp => ?_⟩
      have := h2 p hp
      have np : (0 : ℝ) < n := by exact_mod_cast Nat.pos_of_ne_zero n0
      simp only [cost, ← Finset.mul_sum, one_mul, Option.getD_none] at this ⊢
      exact le_of_mul_le_mul_left this (by positivity)

theorem frob_nonneg (A B : M3) : 0 ≤ frob A B := by unfold frob; positivity

theorem frob_zero {A B : M3} (h : frob A B = 0) : A = B := by
  unfold frob at h
  have z : ∀ a b : ℝ, (a - b) ^ 2 ≤ 0 → a = b := fun a b h => by
    have := pow_eq_zero_iff (n := 2) (by norm_num) |>.1 (le_antisymm h (sq_nonneg (a - b)))
    linarith
  ext <;> apply z <;>
    nlinarith [sq_nonneg (A.m0 - B.m0), sq_nonneg (A.m1 - B.m1), sq_nonneg (A.m2 - B.m2), sq_nonneg (A.m3 - B.m3),
      sq_nonneg (A.m4 - B.m4), sq_nonneg (A.m5 - B.m5), sq_nonneg (A.m6 - B.m6), sq_nonneg (A.m7 - B.m7),
      sq_nonneg (A.m8 - B.m8)]

/-- **C110 (agreement).** If the given quaternions all stand for one rotation and some weight is not zero,
the average stands for that rotation. -/
theorem C110_agree (eev : Eev) (he : EevSpec eev) (n : Nat) (w : Option (Nat → ℝ)) (qq ld : Nat) (m : Mem ℝ)
    (hw : ∀ w', w = some w' → (∀ i < n, 0 ≤ w' i) ∧ ∃ i < n, w' i ≠ 0) (hn : n ≠ 0) (q : Quat) (hq : UnitQ q)
    (hQ : ∀ i < n, colQ qq ld i m = q ∨ colQ qq ld i m = negQ q) :
    quat2rotmat (davenport eev n w qq ld m) = quat2rotmat q := by
  have hneg : quat2rotmat (negQ q) = quat2rotmat q := by
    simp only [quat2rotmat, skewsymScalC, negQ, Quat.vec]
    ext <;> simp
  have hrot : ∀ i < n, quat2rotmat (colQ qq ld i m) = quat2rotmat q := fun i hi => by
    rcases hQ i hi with h | h <;> rw [h]
    exact hneg
  have hu : ∀ i < n, UnitQ (colQ qq ld i m) := fun i hi => by
    rcases hQ i hi with h | h <;> rw [h]
    · exact hq
    · simpa [UnitQ, negQ] using hq
  obtain ⟨h1, -, h2⟩ := C110_average eev he n w qq ld m (fun w' e => (hw w' e).1) hu
  have h3 := h2 q hq
  obtain ⟨hw1, k, hk, hw2⟩ : (∀ i < n, 0 ≤ w.getD (fun _ => 1) i) ∧ ∃ i < n, w.getD (fun _ => 1) i ≠ 0 := by
    cases w with
    | none => exact ⟨fun _ _ => by simp, 0, by omega, by simp⟩
    | some w => exact hw w rfl
  have h4 : cost n (w.getD fun _ => 1) (fun i => colQ qq ld i m) q = 0 := by
    refine Finset.sum_eq_zero fun i hi => ?_
    rw [hrot i (Finset.mem_range.1 hi)]; simp [frob]
  rw [h4] at h3
  have h5 := Finset.sum_eq_zero_iff_of_nonneg (s := Finset.range n)
    (f := fun i => w.getD (fun _ => 1) i * frob (quat2rotmat (davenport eev n w qq ld m)) (quat2rotmat (colQ qq ld i m)))
    (fun i hi => mul_nonneg (hw1 i (Finset.mem_range.1 hi)) (frob_nonneg _ _))
  have h6 := h5.1 (le_antisymm h3 (Finset.sum_nonneg fun i hi =>
    mul_nonneg (hw1 i (Finset.mem_range.1 hi)) (frob_nonneg _ _))) k (Finset.mem_range.2 hk)
  rw [hrot k hk] at h6
  exact frob_zero ((mul_eq_zero.1 h6).resolve_left hw2)

/-- **C110 (signs).** The sign with which a rotation is written does not matter: with some of the
quaternions negated the average of two or more is the same quaternion, and the average of fewer is the
same rotation. -/
theorem C110_signs (eev : Eev) (n : Nat) (w : Option (Nat → ℝ)) (qq ld : Nat) (m m' : Mem ℝ)
    (h : ∀ i < n, colQ qq ld i m' = colQ qq ld i m ∨ colQ qq ld i m' = negQ (colQ qq ld i m)) :
    (n ≠ 1 → davenport eev n w qq ld m' = davenport eev n w qq ld m) ∧
    quat2rotmat (davenport eev n w qq ld m') = quat2rotmat (davenport eev n w qq ld m) := by
  have hm : ∀ w, davenportMatrix n w qq ld m' = davenportMatrix n w qq ld m := by
    intro w
    funext a
    rw [davenport_entry, davenport_entry]
    refine Finset.sum_congr rfl fun i hi => ?_
    have hn : ∀ q k, qat (negQ q) k = - qat q k := by
      intro q k; simp only [qat, negQ]; split_ifs <;> rfl
    rcases h i (Finset.mem_range.1 hi) with e | e <;> rw [e]
    rw [hn, hn]; ring
  have h1 : n ≠ 1 → davenport eev n w qq ld m' = davenport eev n w qq ld m := by
    intro n1
    simp only [davenport, if_neg n1, hm]
  refine ⟨h1, ?_⟩
  by_cases n1 : n = 1
  · subst n1
    simp only [davenport, one_ne_zero, if_true, if_false]
    rcases h 0 (by norm_num) with e | e <;> rw [e]
    simp only [quat2rotmat, skewsymScalC, negQ, Quat.vec]
    ext <;> simp
  · rw [h1 n1]

/-- there is a function that does what is demanded of `geev`. -/
theorem exists_eev : ∃ eev : Eev, EevSpec eev := by
  have : ∀ A : Nat → ℝ, ∃ r : (Nat → ℝ) × (Nat → ℝ), (∀ i < 4, ∀ j < 4, A (4 * j + i) = A (4 * i + j)) →
    (∀ k < 4, (∑ i ∈ Finset.range 4, r.2 (4 * k + i) ^ 2 = 1) ∧
      ∀ i < 4, ∑ j ∈ Finset.range 4, A (4 * j + i) * r.2 (4 * k + j) = r.1 k * r.2 (4 * k + i)) ∧
    ∀ (l : ℝ) (v : Nat → ℝ), (∃ i < 4, v i ≠ 0) →
      (∀ i < 4, ∑ j ∈ Finset.range 4, A (4 * j + i) * v j = l * v i) → ∃ k < 4, r.1 k = l := by
    intro A
    by_cases hs : ∀ i < 4, ∀ j < 4, A (4 * j + i) = A (4 * i + j)
    · let B : Matrix (Fin 4) (Fin 4) ℝ := Matrix.of fun i j => A (4 * j + i)
      have hB : B.IsHermitian := by
        ext i j
        simpa [B] using hs j.1 j.2 i.1 i.2
      let ex : (Fin 4 → ℝ) → Nat → ℝ := fun v a => v ⟨a % 4, by omega⟩
      refine ⟨(ex hB.eigenvalues, fun a => ex (hB.eigenvectorBasis ⟨a / 4 % 4, by omega⟩) a), fun _ => ⟨?_, ?_⟩⟩
      · intro k hk
        have h1 := hB.mulVec_eigenvectorBasis ⟨k, hk⟩
        have h2 := hB.eigenvectorBasis.orthonormal.1 ⟨k, hk⟩
        have hidx : ∀ i : Nat, i < 4 → (4 * k + i) / 4 % 4 = k ∧ (4 * k + i) % 4 = i := by omega
        have h2' : ∑ i, (hB.eigenvectorBasis ⟨k, hk⟩ i) ^ 2 = 1 := by
          have := EuclideanSpace.norm_sq_eq (hB.eigenvectorBasis ⟨k, hk⟩)
          rw [h2] at this
          simpa using this.symm
        refine ⟨?_, fun i hi => ?_⟩
        · rw [Finset.sum_range, ← h2']
          refine Finset.sum_congr rfl fun i _ => ?_
          simp only [ex, hidx i i.2]
        · have := congrFun h1 ⟨i, hi⟩
          rw [Finset.sum_range]
          simp only [ex, hidx i hi, Nat.mod_eq_of_lt hk]
          simp only [Matrix.mulVec, dotProduct, Pi.smul_apply, smul_eq_mul] at this
          rw [← this]
          refine Finset.sum_congr rfl fun j _ => ?_
          simp only [hidx j j.2, B, Matrix.of_apply]
      · rintro l v ⟨i, hi, hv⟩ hl
        have hv' : (fun i : Fin 4 => v i) ≠ 0 := fun h => hv (congrFun h ⟨i, hi⟩)
        have hm : B.mulVec (fun i : Fin 4 => v i) = l • (fun i : Fin 4 => v i) := by
          funext i
          have := hl i i.2
          rw [Finset.sum_range] at this
          simpa [Matrix.mulVec, dotProduct, B] using this
        have hev : Module.End.HasEigenvalue (Matrix.toLin' B) l :=
          Module.End.hasEigenvalue_of_hasEigenvector (x := fun i : Fin 4 => v i)
            ⟨Module.End.mem_eigenspace_iff.2 (by simpa using hm), hv'⟩
        have hsp : l ∈ spectrum ℝ B := by
          rw [← Matrix.spectrum_toLin']
          exact hev.mem_spectrum
        rw [hB.spectrum_real_eq_range_eigenvalues] at hsp
        obtain ⟨k, hk⟩ := hsp
        exact ⟨k, k.2, by simpa [ex, Nat.mod_eq_of_lt k.2] using hk⟩
    · exact ⟨(fun _ => 0, fun _ => 0), fun h => absurd h hs⟩
  choose f hf using this
  exact ⟨f, hf⟩

/-- three orientations, one of them written with the other sign, in an array with padding. -/
example : ∃ eev : Eev, ∃ m : Mem ℝ, EevSpec eev ∧ (∀ i < 3, UnitQ (colQ 0 5 i m)) ∧
    colQ 0 5 0 m = ⟨0, 0, 0, 1⟩ ∧ colQ 0 5 1 m = ⟨3 / 5, 0, 0, -4 / 5⟩ ∧ colQ 0 5 2 m = ⟨0, 1, 0, 0⟩ := by
  obtain ⟨eev, h⟩ := exists_eev
  let m : Mem ℝ := fun a => if a = 3 then 1 else if a = 5 then 3 / 5 else if a = 8 then -4 / 5 else if a = 11 then 1 else 0
  refine ⟨eev, m, h, fun i hi => ?_, ?_⟩
  · interval_cases i <;> norm_num [UnitQ, colQ, m]
  · simp [colQ, m]

/-! ## Relative translation -/

/-- point `j` of an array of points. -/
def pt (x ld j : Nat) (m : Mem ℝ) : V3 := vOf (x + ld * j) m

/-- the addresses of the points of an array. -/
def InPts (n x ld a : Nat) : Prop := ∃ j < n, ∃ i < 3, a = x + (ld * j + i)

theorem relx_spec (n : Nat) (R : M3) (x ldx y ldy z ldz : Nat) (m : Mem ℝ) (hz : 3 ≤ ldz)
    (hx : ∀ a, InPts n x ldx a → ¬ InPts n z ldz a) (hy : ∀ a, InPts n y ldy a → ¬ InPts n z ldz a) :
    (∀ j < n, ∀ i < 3, relx n R x ldx y ldy z ldz m (z + (ldz * j + i)) =
      vat (pt y ldy j m) i - vat (rot9 R (pt x ldx j m)) i) ∧
    ∀ a, ¬ InPts n z ldz a → relx n R x ldx y ldy z ldz m a = m a := by
  have inj : ∀ j < n, ∀ i < 3, ∀ j' < n, ∀ i' < 3, z + (ldz * j + i) = z + (ldz * j' + i') → j = j' ∧ i = i' := by
    intro j _ i hi j' _ i' hi' e
    have h1 : ldz * j + i = ldz * j' + i' := by omega
    have h2 : (ldz * j + i) / ldz = j := by
      rw [Nat.mul_add_div (by omega), Nat.div_eq_of_lt (by omega)]; rfl
    have h3 : (ldz * j' + i') / ldz = j' := by
      rw [Nat.mul_add_div (by omega), Nat.div_eq_of_lt (by omega)]; rfl
    have : j = j' := by rw [← h2, h1, h3]
    subst this
    omega
  have hvat : ∀ (p i : Nat) (mm : Mem ℝ), i < 3 → vat (vOf p mm) i = mm (p + i) := by
    intro p i mm hi
    interval_cases i <;> rfl
  obtain ⟨c1, c2⟩ := forN_store2 (K := ℝ) n 3 (fun j i => z + (ldz * j + i)) (fun j i m => m (y + (ldy * j + i)))
    inj (fun j hj i hi m m' h => h _ fun j' hj' i' hi' _ e => hy _ ⟨j, hj, i, hi, rfl⟩ ⟨j', hj', i', hi', e⟩) m
  have key : ∀ k ≤ n, ∀ mm : Mem ℝ, (∀ a, InPts n x ldx a → mm a = m a) →
      let F := forN k (fun j m =>
        let xp := rot9 R (vOf (x + ldx * j) m)
        forN 3 (fun i m => store m (z + (ldz * j + i)) (m (z + (ldz * j + i)) - vat xp i)) m) mm
      (∀ j < n, ∀ i < 3, F (z + (ldz * j + i)) = if j < k then mm (z + (ldz * j + i)) - vat (rot9 R (pt x ldx j m)) i
        else mm (z + (ldz * j + i))) ∧ ∀ a, ¬ InPts n z ldz a → F a = mm a := by
    intro k
    induction k with
    | zero => intro _ mm _; simp [forN]
    | succ k ih =>
      intro hk mm hmm F
      obtain ⟨i1, i2⟩ := ih (by omega) mm hmm
      have hF : F = (fun (m : Mem ℝ) =>
          let xp := rot9 R (vOf (x + ldx * k) m)
          forN 3 (fun i m => store m (z + (ldz * k + i)) (m (z + (ldz * k + i)) - vat xp i)) m)
            (forN k (fun j m =>
              let xp := rot9 R (vOf (x + ldx * j) m)
              forN 3 (fun i m => store m (z + (ldz * j + i)) (m (z + (ldz * j + i)) - vat xp i)) m) mm) := forN_snoc ..
      generalize forN k (fun j m =>
        let xp := rot9 R (vOf (x + ldx * j) m)
        forN 3 (fun i m => store m (z + (ldz * j + i)) (m (z + (ldz * j + i)) - vat xp i)) m) mm = G at i1 i2 hF
      have hxk : vOf (x + ldx * k) G = pt x ldx k m := by
        have : ∀ i < 3, G (x + (ldx * k + i)) = m (x + (ldx * k + i)) := fun i hi => by
          have hin : InPts n x ldx (x + (ldx * k + i)) := ⟨k, by omega, i, hi, rfl⟩
          rw [i2 _ (hx _ hin), hmm _ hin]
        simp only [vOf, pt, add_assoc]
        rw [this 1 (by norm_num), this 2 (by norm_num)]
        congr 1
        exact this 0 (by norm_num)
      dsimp only at hF
      rw [hxk] at hF
      obtain ⟨s1, s2⟩ := forN_store (K := ℝ) 3 (fun i => z + (ldz * k + i))
        (fun i m' => m' (z + (ldz * k + i)) - vat (rot9 R (pt x ldx k m)) i) (fun a _ b _ e => by omega)
        (fun i hi m1 m2 h => by
          show m1 _ - _ = m2 _ - _
          rw [h _ fun l _ hl e => hl (by omega)]) G
      rw [← hF] at s1 s2
      refine ⟨fun j hj i hi => ?_, fun a ha => ?_⟩
      · by_cases e : j = k
        · subst e
          rw [s1 i hi, i1 j hj i hi, if_neg (lt_irrefl _), if_pos (Nat.lt_succ_self _)]
        · rw [s2 _ fun l hl e' => e (inj j hj i hi k (by omega) l hl e').1, i1 j hj i hi]
          by_cases hjk : j < k
          · rw [if_pos hjk, if_pos (by omega)]
          · rw [if_neg hjk, if_neg (by omega)]
      · rw [s2 a fun l hl e => ha ⟨k, by omega, l, hl, e⟩, i2 a ha]
  obtain ⟨k1, k2⟩ := key n le_rfl (dlacpy 3 n y ldy z ldz m) (fun a ha => c2 a fun j hj i hi e =>
    hx a ha ⟨j, hj, i, hi, e⟩)
  refine ⟨fun j hj i hi => ?_, fun a ha => ?_⟩
  · refine (k1 j hj i hi).trans ?_
    rw [if_pos hj, show dlacpy 3 n y ldy z ldz m (z + (ldz * j + i)) = m (y + (ldy * j + i)) from c1 j hj i hi,
      show vat (pt y ldy j m) i = m (y + ldy * j + i) from hvat _ _ _ hi, add_assoc]
  · exact (k2 a ha).trans (c2 a fun j hj i hi e => ha ⟨j, hj, i, hi, e⟩)

/-- what is left between point `j` of `Y` and the rotated and translated point `j` of `X`, coordinate `i`. -/
def resid (R : M3) (x ldx y ldy : Nat) (m : Mem ℝ) (t : V3) (j i : Nat) : ℝ :=
  vat (pt y ldy j m) i - (vat (rot9 R (pt x ldx j m)) i + vat t i)

/-- the arrays are placed so that the scratch array of `3 n` numbers is fresh and the result, which may
not overlap it, is disjoint from the points. -/
structure Placed (n x ldx y ldy rel yp : Nat) : Prop where
  x : ∀ a, InPts n x ldx a → (a < yp ∨ yp + 3 * n ≤ a)
  y : ∀ a, InPts n y ldy a → (a < yp ∨ yp + 3 * n ≤ a)
  rel : rel + 3 ≤ yp ∨ yp + 3 * n ≤ rel

theorem Placed.relx {n x ldx y ldy rel yp : Nat} (h : Placed n x ldx y ldy rel yp) (R : M3) (m : Mem ℝ) :
    (∀ j < n, ∀ i < 3, relx n R x ldx y ldy yp 3 m (yp + (3 * j + i)) =
      vat (pt y ldy j m) i - vat (rot9 R (pt x ldx j m)) i) ∧
    ∀ a, (a < yp ∨ yp + 3 * n ≤ a) → TfAvg.relx n R x ldx y ldy yp 3 m a = m a := by
  have out : ∀ a, (a < yp ∨ yp + 3 * n ≤ a) → ¬ InPts n yp 3 a := by
    rintro a ha ⟨j, hj, i, hi, e⟩; omega
  obtain ⟨h1, h2⟩ := relx_spec n R x ldx y ldy yp 3 m le_rfl (fun a ha => out a (h.x a ha))
    (fun a ha => out a (h.y a ha))
  exact ⟨h1, fun a ha => h2 a (out a ha)⟩

theorem vat_vOf (p i : Nat) (m : Mem ℝ) (hi : i < 3) : vat (vOf p m) i = m (p + i) := by
  interval_cases i <;> rfl

/-- the mean minimizes the sum of squares. -/
theorem mean_min (n : Nat) (hn : n ≠ 0) (f : Nat → ℝ) (t : ℝ) :
    ∑ j ∈ Finset.range n, (f j - (∑ j ∈ Finset.range n, f j) / n) ^ 2 ≤ ∑ j ∈ Finset.range n, (f j - t) ^ 2 := by
  have hn' : (n : ℝ) ≠ 0 := by exact_mod_cast hn
  have e : ∀ t, ∑ j ∈ Finset.range n, (f j - t) ^ 2 =
      (∑ j ∈ Finset.range n, f j ^ 2) - 2 * t * (∑ j ∈ Finset.range n, f j) + n * t ^ 2 := by
    intro t
    rw [Finset.mul_sum, ← Finset.sum_sub_distrib, show (n : ℝ) * t ^ 2 = ∑ _j ∈ Finset.range n, t ^ 2 by simp,
      ← Finset.sum_add_distrib]
    exact Finset.sum_congr rfl fun j _ => by ring
  rw [e, e]
  have hp : (0 : ℝ) < n := by positivity
  set S := ∑ j ∈ Finset.range n, f j
  have : (n : ℝ) * (t - S / n) ^ 2 ≥ 0 := by positivity
  have e2 : (n : ℝ) * (t - S / n) ^ 2 = n * t ^ 2 - 2 * t * S + S * (S / n) := by field_simp; ring
  have e3 : (n : ℝ) * (S / n) ^ 2 = S * (S / n) := by field_simp
  nlinarith

/-- **C110 (mean translation).** `aa_tf_relx_mean` fails only for no points. Otherwise its result is the
translation that, after the rotation, brings the points of `X` to those of `Y` with the least sum of
squared distances, and of all the memory outside the scratch array only the result is changed. -/
theorem C110_mean (n : Nat) (R : M3) (x ldx y ldy rel yp : Nat) (m : Mem ℝ) (h : Placed n x ldx y ldy rel yp) :
    (relxMean n R x ldx y ldy rel yp m = none ↔ n = 0) ∧
    ∀ m', relxMean n R x ldx y ldy rel yp m = some m' →
      (∀ t : V3, ∑ j ∈ Finset.range n, ∑ i ∈ Finset.range 3, resid R x ldx y ldy m (vOf rel m') j i ^ 2 ≤
        ∑ j ∈ Finset.range n, ∑ i ∈ Finset.range 3, resid R x ldx y ldy m t j i ^ 2) ∧
      (∀ t : V3, (∀ j < n, ∀ i < 3, resid R x ldx y ldy m t j i = 0) → vOf rel m' = t) ∧
      ∀ a, (a < rel ∨ rel + 3 ≤ a) → (a < yp ∨ yp + 3 * n ≤ a) → m' a = m a := by
  classical
  obtain ⟨r1, r2⟩ := h.relx R m
  obtain ⟨c1, -, c2, -⟩ := La.C63_mean (K := ℝ) ⟨3, n, yp, 3⟩ rel (relx n R x ldx y ldy yp 3 m)
  refine ⟨by unfold relxMean; convert! c1, fun m' hm' => ?_⟩
  have hn : n ≠ 0 := by
    rintro rfl
    have : relxMean 0 R x ldx y ldy rel yp m = none := by unfold relxMean; convert! c1.2 rfl
    rw [this] at hm'; cases hm'
  obtain ⟨w1, w2⟩ := c2 m' (fun i hi j hj => by
    have := h.rel
    simp only [DMat.ref] at *
    omega) (by unfold relxMean at hm'; convert! hm')
  have hv : ∀ i < 3, vat (vOf rel m') i = (∑ j ∈ Finset.range n,
      (vat (pt y ldy j m) i - vat (rot9 R (pt x ldx j m)) i)) / n := by
    intro i hi
    have := w1 i hi
    simp only [DVec.ref, mul_one] at this
    rw [vat_vOf _ _ _ hi, this]
    congr 1
    exact Finset.sum_congr rfl fun j hj => r1 j (Finset.mem_range.1 hj) i hi
  refine ⟨fun t => ?_, fun t ht => ?_, fun a h1 h2 => ?_⟩
  · rw [Finset.sum_comm, Finset.sum_comm (t := Finset.range 3)]
    refine Finset.sum_le_sum fun i hi => ?_
    have := mean_min n hn (fun j => vat (pt y ldy j m) i - vat (rot9 R (pt x ldx j m)) i) (vat t i)
    simp only [resid, ← sub_sub]
    rw [hv i (Finset.mem_range.1 hi)]
    exact this
  · have hi : ∀ i < 3, vat (vOf rel m') i = vat t i := by
      intro i hi
      rw [hv i hi, div_eq_iff (by exact_mod_cast hn)]
      rw [Finset.sum_congr rfl (g := fun _ => vat t i) fun j hj => ?_]
      · simp [mul_comm]
      · have := ht j (Finset.mem_range.1 hj) i hi
        simp only [resid] at this
        linarith
    ext
    · exact hi 0 (by norm_num)
    · exact hi 1 (by norm_num)
    · exact hi 2 (by norm_num)
  · rw [w2 a fun k hk => ?_, r2 a h2]
    simp only [DVec.ref, La.arr] at *
    omega

/-- a median minimizes the sum of absolute deviations. -/
theorem median_min (n : Nat) (f : Nat → ℝ) (v t : ℝ) (h : La.IsMedian n f v) :
    ∑ j ∈ Finset.range n, |f j - v| ≤ ∑ j ∈ Finset.range n, |f j - t| := by
  classical
  have key : ∀ (s : Nat → Prop) [DecidablePred s] (d : ℝ), 0 ≤ d →
      n ≤ 2 * ((Finset.range n).filter s).card → (∀ j, s j → |f j - v| + d ≤ |f j - t|) →
      (∀ j, |f j - v| - d ≤ |f j - t|) → ∑ j ∈ Finset.range n, |f j - v| ≤ ∑ j ∈ Finset.range n, |f j - t| := by
    intro s _ d hd hc h1 h2
    have h3 : ∑ j ∈ Finset.range n, (|f j - v| + (if s j then d else -d)) ≤ ∑ j ∈ Finset.range n, |f j - t| :=
      Finset.sum_le_sum fun j _ => by
        split_ifs with hs
        · exact h1 j hs
        · linarith [h2 j]
    have h4 : 0 ≤ ∑ j ∈ Finset.range n, (if s j then d else -d) := by
      have : ∀ j, (if s j then d else -d) = 2 * d * (if s j then 1 else 0) - d := fun j => by
        split_ifs <;> ring
      simp only [this, Finset.sum_sub_distrib, ← Finset.mul_sum, Finset.sum_boole, Finset.sum_const, Finset.card_range,
        nsmul_eq_mul]
      have : (n : ℝ) ≤ 2 * (((Finset.range n).filter s).card : ℝ) := by exact_mod_cast hc
      nlinarith
    rw [Finset.sum_add_distrib] at h3
    linarith
  rcases le_total v t with hv | hv
  · refine key (fun k => f k ≤ v) (t - v) (by linarith) h.1 (fun j hj => ?_) (fun j => ?_)
    · rw [abs_of_nonpos (by linarith : f j - v ≤ 0), abs_of_nonpos (by linarith : f j - t ≤ 0)]; linarith
    · have := abs_sub_abs_le_abs_sub (f j - v) (f j - t)
      rw [show f j - v - (f j - t) = t - v by ring, abs_of_nonneg (by linarith : 0 ≤ t - v)] at this
      linarith
  · refine key (fun k => v ≤ f k) (v - t) (by linarith) h.2 (fun j hj => ?_) (fun j => ?_)
    · rw [abs_of_nonneg (by linarith : 0 ≤ f j - v), abs_of_nonneg (by linarith : 0 ≤ f j - t)]; linarith
    · have := abs_sub_abs_le_abs_sub (f j - v) (f j - t)
      rw [show f j - v - (f j - t) = -(v - t) by ring, abs_neg, abs_of_nonneg (by linarith : 0 ≤ v - t)] at this
      linarith

/-- a median is the value of more than half of the numbers, if there is one. -/
theorem median_majority (n : Nat) (f : Nat → ℝ) (v t : ℝ) (h : La.IsMedian n f v)
    (hm : n < 2 * ((Finset.range n).filter (fun j => f j = t)).card) : v = t := by
  have dis : ∀ (s : Nat → Prop) [DecidablePred s], n ≤ 2 * ((Finset.range n).filter s).card →
      ∃ j, s j ∧ f j = t := by
    intro s _ hs
    by_contra hne
    have hd : Disjoint ((Finset.range n).filter s) ((Finset.range n).filter (fun j => f j = t)) :=
      Finset.disjoint_filter.2 fun j _ h1 h2 => hne ⟨j, h1, h2⟩
    have h1 := Finset.card_union_of_disjoint hd
    have h2 := Finset.card_le_card (Finset.union_subset (Finset.filter_subset s (Finset.range n))
      (Finset.filter_subset (fun j => f j = t) (Finset.range n)))
    rw [Finset.card_range] at h2
    omega
  obtain ⟨j, h1, h2⟩ := dis _ h.1
  obtain ⟨k, h3, h4⟩ := dis _ h.2
  exact le_antisymm (by linarith) (by linarith)

theorem median_congr {n : Nat} {f g : Nat → ℝ} {v : ℝ} (e : ∀ k ∈ Finset.range n, f k = g k)
    (h : La.IsMedian n f v) : La.IsMedian n g v := by
  obtain ⟨h1, h2⟩ := h
  refine ⟨?_, ?_⟩
  · rwa [Finset.filter_congr (q := fun k => g k ≤ v) fun k hk => by rw [e k hk]] at h1
  · rwa [Finset.filter_congr (q := fun k => v ≤ g k) fun k hk => by rw [e k hk]] at h2

/-- **C110 (median translation).** For at least one point the result of `aa_tf_relx_median` is a
translation with the least sum of absolute deviations. If more than half of the pairs of points agree on a
translation it is that one, whatever the other points are. Only the result is changed outside the scratch array. -/
theorem C110_median (n : Nat) (hn : n ≠ 0) (R : M3) (x ldx y ldy rel yp : Nat) (m : Mem ℝ)
    (h : Placed n x ldx y ldy rel yp) :
    (∀ t : V3, ∑ j ∈ Finset.range n, ∑ i ∈ Finset.range 3,
        |resid R x ldx y ldy m (vOf rel (relxMedian n R x ldx y ldy rel yp m)) j i| ≤
      ∑ j ∈ Finset.range n, ∑ i ∈ Finset.range 3, |resid R x ldx y ldy m t j i|) ∧
    (∀ (t : V3) (J : Finset Nat), J ⊆ Finset.range n → n < 2 * J.card →
      (∀ j ∈ J, ∀ i < 3, resid R x ldx y ldy m t j i = 0) → vOf rel (relxMedian n R x ldx y ldy rel yp m) = t) ∧
    ∀ a, (a < rel ∨ rel + 3 ≤ a) → (a < yp ∨ yp + 3 * n ≤ a) → relxMedian n R x ldx y ldy rel yp m a = m a := by
  obtain ⟨r1, r2⟩ := h.relx R m
  have key : ∀ k ≤ 3, ∀ F : Mem ℝ,
      F = forN k (fun i m => store m (rel + i) (La.median n (yp + i) 3 m)) (relx n R x ldx y ldy yp 3 m) →
      (∀ i < k, La.IsMedian n (fun j => vat (pt y ldy j m) i - vat (rot9 R (pt x ldx j m)) i) (F (rel + i))) ∧
      ∀ a, (a < rel ∨ rel + 3 ≤ a) → F a = relx n R x ldx y ldy yp 3 m a := by
    intro k
    induction k with
    | zero => rintro _ _ rfl; exact ⟨fun i hi => absurd hi (by omega), fun _ _ => rfl⟩
    | succ k ih =>
      intro hk F hF
      obtain ⟨i1, i2⟩ := ih (by omega) _ rfl
      rw [forN_snoc] at hF
      generalize forN k (fun i m => store m (rel + i) (La.median n (yp + i) 3 m))
        (relx n R x ldx y ldy yp 3 m) = G at i1 i2 hF
      refine ⟨fun i hi => ?_, fun a ha => ?_⟩
      · by_cases e : i = k
        · subst e
          have h1 := (La.C63_median n (by omega) (yp + i) 3 G).1
          rw [hF, show store G (rel + i) (La.median n (yp + i) 3 G) (rel + i) = La.median n (yp + i) 3 G by simp [store]]
          have e : ∀ k ∈ Finset.range n, G (yp + i + k * 3) =
              vat (pt y ldy k m) i - vat (rot9 R (pt x ldx k m)) i := fun k hk => by
            have hk := Finset.mem_range.1 hk
            have := h.rel
            rw [i2 _ (by omega), ← r1 k hk i (by omega)]; congr 1; omega
          exact median_congr e h1
        · rw [hF, show store G (rel + k) (La.median n (yp + k) 3 G) (rel + i) = G (rel + i) by simp [store, e]]
          exact i1 i (by omega)
      · rw [hF, show store G (rel + k) (La.median n (yp + k) 3 G) a = G a by
          have : a ≠ rel + k := by omega
          simp [store, this]]
        exact i2 a ha
  obtain ⟨s1, s2⟩ := key 3 le_rfl _ rfl
  have hmed : ∀ i < 3, La.IsMedian n (fun j => vat (pt y ldy j m) i - vat (rot9 R (pt x ldx j m)) i)
      (vat (vOf rel (relxMedian n R x ldx y ldy rel yp m)) i) := by
    intro i hi
    rw [vat_vOf _ _ _ hi]
    exact s1 i hi
  refine ⟨fun t => ?_, fun t J hJ hc ht => ?_, fun a h1 h2 => ?_⟩
  · rw [Finset.sum_comm, Finset.sum_comm (t := Finset.range 3)]
    refine Finset.sum_le_sum fun i hi => ?_
    have := median_min n _ _ (vat t i) (hmed i (Finset.mem_range.1 hi))
    simp only [resid, ← sub_sub]
    exact this
  · have hi : ∀ i < 3, vat (vOf rel (relxMedian n R x ldx y ldy rel yp m)) i = vat t i := by
      intro i hi
      refine median_majority n _ _ _ (hmed i hi) (lt_of_lt_of_le hc (Nat.mul_le_mul_left 2 (Finset.card_le_card ?_)))
      intro j hj
      refine Finset.mem_filter.2 ⟨hJ hj, ?_⟩
      have := ht j hj i hi
      simp only [resid] at this
      linarith
    ext
    · exact hi 0 (by norm_num)
    · exact hi 1 (by norm_num)
    · exact hi 2 (by norm_num)
  · exact (s2 a h1).trans (r2 a h2)

example : Placed 2 0 3 6 4 14 20 :=
  ⟨fun a ⟨j, hj, i, hi, e⟩ => by omega, fun a ⟨j, hj, i, hi, e⟩ => by omega, by omega⟩

end Verif.TfAvg
