import Verif.Model.Scalar
import Verif.Prop.Time
import Mathlib.Tactic.Linarith
import Mathlib.Tactic.Ring
import Mathlib.Tactic.FieldSimp
import Mathlib.Analysis.SpecialFunctions.Trigonometric.Angle
import Mathlib.Algebra.Order.Round

/-! Properties C19, C20: scalar helpers and circular statistics. -/

namespace Verif.Scalar

/-- **C19**, clamp: the result is the point of `[min,max]` nearest to the input
(in particular inside it, and equal to the input when that is inside). -/
theorem C19_fclamp (v lo hi : ℝ) (h : lo ≤ hi) :
    lo ≤ fclamp v lo hi ∧ fclamp v lo hi ≤ hi ∧ (lo ≤ v → v ≤ hi → fclamp v lo hi = v) ∧
    ∀ x, lo ≤ x → x ≤ hi → |v - fclamp v lo hi| ≤ |v - x| := by
  unfold fclamp
  split
  · rename_i h1
    refine ⟨h, le_refl _, fun _ h3 => by linarith, fun x _ hx => ?_⟩
    rw [abs_of_pos (by linarith), abs_of_pos (by linarith)]; linarith
  · split
    · rename_i h1 h2
      refine ⟨le_refl _, h, fun h3 _ => by linarith, fun x hx _ => ?_⟩
      rw [abs_of_neg (by linarith), abs_of_neg (by linarith)]; linarith
    · rename_i h1 h2
      refine ⟨by linarith, by linarith, fun _ _ => rfl, fun x _ _ => ?_⟩
      simp

example : fclamp 7 (-1) 3 = 3 ∧ (-1 : ℝ) ≤ 3 := by
  constructor
  · unfold fclamp; norm_num
  · norm_num

/-- **C19**, symmetric clamp and vector clamp agree with the scalar clamp. -/
theorem C19_clamp_variants (v l lo hi : ℝ) (vs : List ℝ) :
    clamp v l = fclamp v (-l) l ∧ vclamp vs lo hi = vs.map (fclamp · lo hi) := ⟨rfl, rfl⟩

/-- **C19**, dead zone: the dead value strictly inside `(min,max)`, the input
otherwise; with dead value 0 in a zone around 0 the magnitude never grows. -/
theorem C19_fdeadzone (v lo hi d : ℝ) :
    (lo < v ∧ v < hi → fdeadzone v lo hi d = d) ∧ (¬ (lo < v ∧ v < hi) → fdeadzone v lo hi d = v) ∧
    |fdeadzone v lo hi 0| ≤ |v| := by
  unfold fdeadzone
  refine ⟨fun h => if_pos h, fun h => if_neg h, ?_⟩
  split <;> simp

/-- **C19**, sign. -/
theorem C19_sign (v : ℝ) : sign v * |v| = v ∧ (sign v = -1 ∨ sign v = 0 ∨ sign v = 1) ∧ (sign v = 0 ↔ v = 0) := by
  unfold sign
  split
  · rename_i h; exact ⟨by rw [abs_of_pos h]; ring, by simp, by simp; linarith⟩
  · split
    · rename_i h1 h; exact ⟨by rw [abs_of_neg h]; ring, by simp, by simp; linarith⟩
    · rename_i h1 h
      have : v = 0 := by linarith
      simp [this]

/-- **C19**, integer modulo (partial: `|b| ≤ 2^30`): no undefined behaviour, the
result is congruent to `a` and lies in `[0,b)` for positive, `(b,0]` for negative `b`.
Missing: `|b| > 2^30`, where `(a % b) + b` can overflow (`C19_violates_overflow`),
and `a = INT_MIN, b = -1`. -/
theorem C19_imodulo_partial (a b : Int) (_ha : -2147483648 ≤ a ∧ a ≤ 2147483647)
    (hb : b ≠ 0 ∧ -1073741824 ≤ b ∧ b ≤ 1073741824) (hab : ¬ (a = -2147483648 ∧ b = -1)) :
    ∃ r, imodulo a b = some r ∧ b ∣ a - r ∧ (0 < b → 0 ≤ r ∧ r < b) ∧ (b < 0 → b < r ∧ r ≤ 0) := by
  have hq : -2147483648 ≤ a.tdiv b ∧ a.tdiv b ≤ 2147483647 := by
    rcases lt_or_gt_of_ne hb.1 with h | h
    · by_cases h1 : b = -1
      · subst h1; rw [Int.tdiv_neg, Int.tdiv_one]; omega
      · have e : a.tdiv b = -(a.tdiv (-b)) := by rw [Int.tdiv_neg, neg_neg]
        have h2 : (a.tdiv (-b)).natAbs ≤ a.natAbs / 2 := by
          rw [Int.natAbs_tdiv]
          exact Nat.div_le_div_left (by omega) (by norm_num)
        omega
    · have h2 : (a.tdiv b).natAbs ≤ a.natAbs := by
        rw [Int.natAbs_tdiv]; exact Nat.div_le_self _ _
      by_cases h1 : b = 1
      · subst h1; rw [Int.tdiv_one]; omega
      · have h2 : (a.tdiv b).natAbs ≤ a.natAbs / 2 := by
          rw [Int.natAbs_tdiv]
          exact Nat.div_le_div_left (by omega) (by norm_num)
        omega
  have hr : -|b| < a.tmod b ∧ a.tmod b < |b| := by
    have h1 := Int.natAbs_tmod a b
    have h2 : a.natAbs % b.natAbs < b.natAbs := Nat.mod_lt _ (by omega)
    rw [Int.abs_eq_natAbs]; omega
  have hab' : |b| = b ∨ |b| = -b := abs_choice b
  have hdiv : b ∣ a - (a.tmod b + b).tmod b := by
    have e1 := Int.mul_tdiv_add_tmod a b
    have e2 := Int.mul_tdiv_add_tmod (a.tmod b + b) b
    refine ⟨a.tdiv b + (a.tmod b + b).tdiv b - 1, ?_⟩
    have : b * (a.tdiv b + (a.tmod b + b).tdiv b - 1) = b * a.tdiv b + b * (a.tmod b + b).tdiv b - b := by ring
    rw [this]; omega
  refine ⟨(a.tmod b + b).tmod b, ?_, hdiv, fun h => ?_, fun h => ?_⟩
  · have h3 : -2147483648 ≤ a.tmod b + b ∧ a.tmod b + b ≤ 2147483647 := by omega
    simp [imodulo, hb.1, i32, hq, h3]
  · rw [Int.tmod_eq_emod_of_nonneg (by omega)]
    exact ⟨Int.emod_nonneg _ hb.1, Int.emod_lt_of_pos _ h⟩
  · have h1 : (a.tmod b + b).tmod b = -((-(a.tmod b + b)) % (-b)) := by
      rw [← Int.tmod_eq_emod_of_nonneg (by omega), Int.tmod_neg, Int.neg_tmod, neg_neg]
    rw [h1]
    have h2 := Int.emod_nonneg (-(a.tmod b + b)) (show -b ≠ 0 by omega)
    have h3 := Int.emod_lt_of_pos (-(a.tmod b + b)) (show 0 < -b by omega)
    omega

example : imodulo (-7) 3 = some 2 ∧ imodulo 7 (-3) = some (-2) ∧ imodulo (-2147483648) 1000 = some 352 := by decide

/-- C19 is violated for large moduli: `aa_imodulo(INT_MAX-1, INT_MAX)` overflows. -/
theorem C19_violates_overflow : imodulo 2147483646 2147483647 = none := by decide

theorem trunc_spec (x : ℝ) : (0 ≤ x → (trunc x : ℝ) ≤ x ∧ x < trunc x + 1 ∧ 0 ≤ trunc x) ∧
    (x < 0 → x ≤ trunc x ∧ (trunc x : ℝ) < x + 1 ∧ trunc x ≤ 0) := by
  unfold trunc
  constructor
  · intro h
    rw [if_pos h]
    exact ⟨Int.floor_le x, Int.lt_floor_add_one x, Int.floor_nonneg.2 h⟩
  · intro h
    rw [if_neg (not_le.2 h)]
    exact ⟨Int.le_ceil x, Int.ceil_lt_add_one x, Int.ceil_le.2 (by simpa using h.le)⟩

theorem fmod_bounds (a b : ℝ) (hb : 0 < b) : -b < fmod a b ∧ fmod a b < b ∧ (0 ≤ a → 0 ≤ fmod a b) := by
  unfold fmod
  obtain ⟨h1, h2⟩ := trunc_spec (a / b)
  have e : a = b * (a / b) := by field_simp
  by_cases h : 0 ≤ a
  · obtain ⟨k1, k2, k3⟩ := h1 (div_nonneg h hb.le)
    have m1 := mul_le_mul_of_nonneg_left k1 hb.le
    have m2 := mul_lt_mul_of_pos_left k2 hb
    rw [← e] at m1 m2
    refine ⟨by linarith, by nlinarith, fun _ => by linarith⟩
  · obtain ⟨k1, k2, k3⟩ := h2 (div_neg_of_neg_of_pos (not_le.1 h) hb)
    have m1 := mul_le_mul_of_nonneg_left k1 hb.le
    have m2 := mul_lt_mul_of_pos_left k2 hb
    rw [mul_add, ← e] at m2
    rw [← e] at m1
    refine ⟨by linarith, by linarith, fun h' => absurd h' h⟩

/-- **C19**, real modulo: for `b > 0` the result is in `[0,b)` and differs from `a`
by an integer multiple of `b`. -/
theorem C19_fmodulo (a b : ℝ) (hb : 0 < b) :
    0 ≤ fmodulo a b ∧ fmodulo a b < b ∧ ∃ k : ℤ, fmodulo a b = a + k * b := by
  obtain ⟨h1, h2, _⟩ := fmod_bounds a b hb
  obtain ⟨_, h4, h5⟩ := fmod_bounds (fmod a b + b) b hb
  refine ⟨h5 (by linarith), h4, 1 - trunc (a / b) - trunc ((fmod a b + b) / b), ?_⟩
  unfold fmodulo
  rw [fmod]
  conv_lhs => arg 1; rw [fmod]
  push_cast
  ring

theorem roundEven_spec (x : ℝ) : |x - roundEven x| ≤ 1 / 2 := by
  have h1 := Int.floor_le x
  have h2 := Int.lt_floor_add_one x
  unfold roundEven
  rw [abs_le]
  split
  · constructor <;> linarith
  · split
    · push_cast; constructor <;> linarith
    · split
      · constructor <;> linarith
      · push_cast; constructor <;> linarith

/-- **C19**, angles: `aa_ang_norm_2pi` is in `[0,2π)`, `aa_ang_norm_pi` and
`aa_ang_delta` in `[-π,π]`, each equal as an angle to its argument (the difference
of the arguments for delta). The header says `(-π,π)`; the ends are attained. -/
theorem C19_angles (a b : ℝ) :
    (0 ≤ angNorm2pi a ∧ angNorm2pi a < 2 * Real.pi ∧ (angNorm2pi a : Real.Angle) = a) ∧
    (|angNormPi a| ≤ Real.pi ∧ (angNormPi a : Real.Angle) = a) ∧
    (|angDelta a b| ≤ Real.pi ∧ (angDelta a b : Real.Angle) = a - b) := by
  have hp : 0 < 2 * Real.pi := by have := Real.pi_pos; linarith
  have key : ∀ x, |angNormPi x| ≤ Real.pi ∧ (angNormPi x : Real.Angle) = x := by
    intro x
    constructor
    · unfold angNormPi remainder
      have h := roundEven_spec (x / (2 * Real.pi))
      have e : x - 2 * Real.pi * roundEven (x / (2 * Real.pi)) =
          2 * Real.pi * (x / (2 * Real.pi) - roundEven (x / (2 * Real.pi))) := by field_simp
      rw [e, abs_mul, abs_of_pos hp]
      nlinarith
    · rw [Real.Angle.angle_eq_iff_two_pi_dvd_sub]
      exact ⟨-roundEven (x / (2 * Real.pi)), by unfold angNormPi remainder; push_cast; ring⟩
  refine ⟨?_, key a, ?_⟩
  · obtain ⟨h1, h2, k, h3⟩ := C19_fmodulo a (2 * Real.pi) hp
    refine ⟨h1, h2, ?_⟩
    rw [Real.Angle.angle_eq_iff_two_pi_dvd_sub]
    exact ⟨k, by unfold angNorm2pi; rw [h3]; ring⟩
  · refine ⟨(key _).1, ?_⟩
    unfold angDelta
    rw [(key _).2, Real.Angle.coe_sub, (key a).2, (key b).2]

/-! ### C20 -/

/-- Specification: mean resultant length of a sample of angles. -/
noncomputable def resultant (x : List ℝ) : ℝ :=
  ‖((x.map fun t : ℝ => Complex.exp ((t : ℂ) * Complex.I)).sum / x.length : ℂ)‖

theorem foldl_add (f : ℝ → ℝ) (x : List ℝ) (a : ℝ) : x.foldl (fun a t => a + f t) a = a + (x.map f).sum := by
  induction x generalizing a with
  | nil => simp
  | cons t x ih => simp only [List.foldl_cons, List.map_cons, List.sum_cons, ih]; ring

theorem sum_exp (x : List ℝ) : (x.map fun t : ℝ => Complex.exp ((t : ℂ) * Complex.I)).sum =
    ⟨(x.map Real.cos).sum, (x.map Real.sin).sum⟩ := by
  induction x with
  | nil => rfl
  | cons t x ih =>
    simp only [List.map_cons, List.sum_cons, ih]
    apply Complex.ext
    · simp [Complex.exp_ofReal_mul_I_re]
    · simp [Complex.exp_ofReal_mul_I_im]

theorem resultant_sq (x : List ℝ) : resultant x ^ 2 =
    ((x.map Real.sin).sum / x.length) * ((x.map Real.sin).sum / x.length) +
    ((x.map Real.cos).sum / x.length) * ((x.map Real.cos).sum / x.length) := by
  unfold resultant
  rw [← Complex.normSq_eq_norm_sq, sum_exp, Complex.normSq_apply]
  have h : ((x.length : ℂ)) = ((x.length : ℝ) : ℂ) := by simp
  rw [h, Complex.div_ofReal_re, Complex.div_ofReal_im]
  ring

/-- C20: what the code computes. For every sample with nonzero resultant length `R`
the result is `√2` times the circular standard deviation `√(-2 ln R)`. -/
theorem C20_circ_std_partial (x : List ℝ) (_h : resultant x ≠ 0) :
    circStd x = Real.sqrt 2 * Real.sqrt (-2 * Real.log (resultant x)) := by
  have e : circStd x = Real.sqrt (-2 * Real.log (resultant x ^ 2)) := by
    rw [resultant_sq]
    simp only [circStd, foldl_add, zero_add]
  rw [e, Real.log_pow, ← Real.sqrt_mul (by norm_num)]
  congr 1
  push_cast
  ring

theorem resultant_pair : resultant [0, Real.pi / 2] ^ 2 = 1 / 2 := by
  rw [resultant_sq]
  simp
  norm_num

/-- C20 is violated: for the sample `{0, π/2}` the result is not `√(-2 ln R)`. -/
theorem C20_violates_missing_sqrt :
    resultant [0, Real.pi / 2] ≠ 0 ∧
    circStd [0, Real.pi / 2] ≠ Real.sqrt (-2 * Real.log (resultant [0, Real.pi / 2])) := by
  have h2 := resultant_pair
  have h0 : resultant [0, Real.pi / 2] ≠ 0 := by
    intro h; rw [h] at h2; norm_num at h2
  refine ⟨h0, ?_⟩
  rw [C20_circ_std_partial _ h0]
  have hpos : 0 < resultant [0, Real.pi / 2] := lt_of_le_of_ne (norm_nonneg _) (Ne.symm h0)
  have hlt : resultant [0, Real.pi / 2] < 1 := by nlinarith
  have hlog : Real.log (resultant [0, Real.pi / 2]) < 0 := Real.log_neg hpos hlt
  have hs : 0 < Real.sqrt (-2 * Real.log (resultant [0, Real.pi / 2])) := Real.sqrt_pos.2 (by linarith)
  have h1 : 1 < Real.sqrt 2 := by
    rw [Real.lt_sqrt (by norm_num)]; norm_num
  nlinarith

end Verif.Scalar
