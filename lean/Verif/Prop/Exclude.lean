import Verif.Prop.Stat
import Mathlib.Analysis.Complex.ExponentialBounds

/-!
# C76: mean and deviation without outliers

Specification: the sample mean and the sample standard deviation of a list, with no reference to the
loop.
-/

namespace Verif.Scalar

/-- `s` is the sample standard deviation of `k`. -/
def IsStd (k : List ℝ) (s : ℝ) : Prop := 0 ≤ s ∧ s ^ 2 * ((k.length : ℝ) - 1) = dist2 k (mean k)

theorem foldl_dist2 (k : List ℝ) (mu : ℝ) :
    k.foldl (fun a t => a + (t - mu) * (t - mu)) 0 = dist2 k mu := by
  rw [foldl_add (fun t => (t - mu) * (t - mu)), zero_add, dist2]
  simp only [sq]

theorem dist2_nonneg (k : List ℝ) (mu : ℝ) : 0 ≤ dist2 k mu := by
  unfold dist2
  refine List.sum_nonneg fun y hy => ?_
  obtain ⟨t, -, rfl⟩ := List.mem_map.1 hy
  positivity

/-- `aa_stat_std` is the sample standard deviation of at least two samples. -/
theorem statStd_spec (x : List ℝ) (s : ℝ) (h : statStd x = some s) : 2 ≤ x.length ∧ IsStd x s := by
  simp only [statStd] at h
  split_ifs at h with hl
  simp only [Option.some.injEq] at h
  have h1 : ((x.length - 1 : Nat) : ℝ) = (x.length : ℝ) - 1 := by
    rw [Nat.cast_sub (by omega)]; simp
  have h2 : (0 : ℝ) < (x.length : ℝ) - 1 := by
    rw [← h1]; exact_mod_cast (by omega : 0 < x.length - 1)
  refine ⟨by omega, ?_⟩
  rw [foldl_dist2, h1] at h
  subst h
  refine ⟨Real.sqrt_nonneg _, ?_⟩
  rw [Real.sq_sqrt (div_nonneg (dist2_nonneg _ _) h2.le)]
  field_simp

/-- What one pass does. -/
theorem exclPass_spec {x : List ℝ} {zmin zmax mu0 s0 mu s : ℝ} {j : Nat}
    (h : exclPass x zmin zmax mu0 s0 = some (mu, s, j)) :
    let k := keep x zmin zmax mu0 s0
    j = k.length ∧ 2 ≤ k.length ∧ mu = mean k ∧ 0 ≤ s ∧ s ^ 2 * ((k.length : ℝ) - 1) = dist2 k mu0 := by
  intro k
  simp only [exclPass] at h
  split_ifs at h with hl
  simp only [Option.some.injEq, Prod.mk.injEq] at h
  obtain ⟨h1, h2, h3⟩ := h
  have hl' : 2 ≤ k.length := hl
  have e1 : ((k.length - 1 : Nat) : ℝ) = (k.length : ℝ) - 1 := by
    rw [Nat.cast_sub (by omega)]; simp
  have e2 : (0 : ℝ) < (k.length : ℝ) - 1 := by
    rw [← e1]; exact_mod_cast (by omega : 0 < k.length - 1)
  rw [foldl_dist2] at h2
  change Real.sqrt (dist2 k mu0 / ((k.length - 1 : Nat) : ℝ)) = s at h2
  rw [e1] at h2
  refine ⟨h3.symm, hl', h1.symm, ?_, ?_⟩
  · rw [← h2]; exact Real.sqrt_nonneg _
  · rw [← h2, Real.sq_sqrt (div_nonneg (dist2_nonneg _ _) e2.le)]; field_simp

theorem exclLoop_spec (x : List ℝ) (zmin zmax : ℝ) (M : Nat) (iter j0 : Nat) (mu0 s0 : ℝ)
    (it : Nat) (mu s : ℝ) (h : exclLoop x zmin zmax M iter j0 mu0 s0 = some (it, mu, s)) :
    it ≤ max M (iter + 1) ∧ ∃ m0 σ0 j, exclPass x zmin zmax m0 σ0 = some (mu, s, j) := by
  induction hd : M - iter using Nat.strong_induction_on generalizing iter j0 mu0 s0 with
  | _ d ih =>
    rw [exclLoop] at h
    cases hp : exclPass x zmin zmax mu0 s0 with
    | none => rw [hp] at h; simp at h
    | some r =>
      obtain ⟨mu', s', j⟩ := r
      rw [hp] at h
      simp only at h
      split_ifs at h with h1 h2
      · obtain ⟨a, b⟩ := ih (M - (iter + 1)) (by omega) _ _ _ _ h rfl
        exact ⟨by omega, b⟩
      · simp only [Option.some.injEq, Prod.mk.injEq] at h
        obtain ⟨rfl, rfl, rfl⟩ := h
        exact ⟨by omega, _, _, _, hp⟩
      · simp only [Option.some.injEq, Prod.mk.injEq] at h
        obtain ⟨rfl, rfl, rfl⟩ := h
        exact ⟨by omega, _, _, _, hp⟩

/-- **C76 (partial)**, `aa_stat_excluded_mean_std`: the returned mean is the mean of the samples that
were kept, which are those within the limits around an earlier estimate `(m0, σ0)`. The returned
deviation is taken about the earlier mean `m0`: it is at least the sample standard deviation of the kept
samples, and equal to it exactly when the mean did not move in the last pass. -/
theorem C76_excluded_partial (x : List ℝ) (zmin zmax : ℝ) (M it : Nat) (mu s : ℝ)
    (h : exclMeanStd x zmin zmax M = some (it, mu, s)) :
    it ≤ max M 1 ∧ ∃ (m0 σ0 : ℝ) (k : List ℝ), k.Sublist x ∧ 2 ≤ k.length ∧
      (∀ t, k.count t = if zmin * σ0 ≤ t - m0 ∧ t - m0 ≤ zmax * σ0 then x.count t else 0) ∧
      mu = mean k ∧
      s ^ 2 * ((k.length : ℝ) - 1) = dist2 k (mean k) + k.length * (mu - m0) ^ 2 ∧
      (∀ s', IsStd k s' → s' ≤ s) ∧ (IsStd k s ↔ mu = m0) := by
  simp only [exclMeanStd] at h
  cases hs : statStd x with
  | none => rw [hs] at h; simp at h
  | some s1 =>
    rw [hs] at h
    obtain ⟨h1, m0, σ0, j, hp⟩ := exclLoop_spec _ _ _ _ _ _ _ _ _ _ _ h
    obtain ⟨-, hk, hmu, hs0, hv⟩ := exclPass_spec hp
    refine ⟨by simpa using h1, m0, σ0, keep x zmin zmax m0 σ0, List.filter_sublist, hk, ?_, hmu, ?_, ?_, ?_⟩
    · intro t
      unfold keep
      split_ifs with hc
      · rw [List.count_filter]; simpa using hc
      · rw [List.count_eq_zero]
        intro hm
        have := (List.mem_filter.1 hm).2
        simp only [decide_eq_true_eq, ge_iff_le] at this
        exact hc this
    all_goals
      obtain ⟨k, hkk⟩ : ∃ k, k = keep x zmin zmax m0 σ0 := ⟨_, rfl⟩
      simp only [← hkk] at hk hmu hv ⊢
      have hne : k ≠ [] := by rintro rfl; simp at hk
      have hn : (2 : ℝ) ≤ k.length := by exact_mod_cast hk
      have hd := dist2_mean k hne m0
      have hv' : s ^ 2 * ((k.length : ℝ) - 1) = dist2 k (mean k) + k.length * (mu - m0) ^ 2 := by
        rw [hv, hd, hmu]; ring
    · exact hv'
    · rintro s' ⟨h0, h2⟩
      refine le_of_sq_le_sq ?_ hs0
      have : s' ^ 2 * ((k.length : ℝ) - 1) ≤ s ^ 2 * ((k.length : ℝ) - 1) := by
        rw [hv', h2]; nlinarith [sq_nonneg (mu - m0)]
      exact le_of_mul_le_mul_right this (by linarith)
    · constructor
      · rintro ⟨-, h2⟩
        rw [h2] at hv'
        have : (k.length : ℝ) * (mu - m0) ^ 2 = 0 := by linarith
        have := (mul_eq_zero.1 this).resolve_left (by linarith)
        have := pow_eq_zero_iff two_ne_zero |>.1 this
        linarith
      · intro e
        refine ⟨hs0, ?_⟩
        rw [hv', e]; ring

/-- The samples of the counterexample. -/
def bad : List ℝ := [0, 0, 2, 6, 7]

theorem sqrt11 : 3 < Real.sqrt 11 ∧ Real.sqrt 11 < 4 := by
  constructor
  · rw [Real.lt_sqrt (by norm_num)]; norm_num
  · rw [Real.sqrt_lt' (by norm_num)]; norm_num

theorem sqrt10 : 3 < Real.sqrt 10 ∧ Real.sqrt 10 < 4 := by
  constructor
  · rw [Real.lt_sqrt (by norm_num)]; norm_num
  · rw [Real.sqrt_lt' (by norm_num)]; norm_num

theorem bad_std : statStd bad = some (Real.sqrt 11) := by
  simp only [statStd, bad, mean]
  norm_num

theorem bad_keep1 : keep bad (-1 / 2) 1 3 (Real.sqrt 11) = [2, 6] := by
  obtain ⟨h1, h2⟩ := sqrt11
  simp only [keep, bad]
  rw [List.filter_cons_of_neg, List.filter_cons_of_neg, List.filter_cons_of_pos,
    List.filter_cons_of_pos, List.filter_cons_of_neg, List.filter_nil]
  all_goals simp only [decide_eq_true_eq, not_and_or, not_le, ge_iff_le]
  · right; linarith
  · constructor <;> linarith
  · constructor <;> linarith
  · left; linarith
  · left; linarith

theorem bad_keep2 : keep bad (-1 / 2) 1 4 (Real.sqrt 10) = [6, 7] := by
  obtain ⟨h1, h2⟩ := sqrt10
  simp only [keep, bad]
  rw [List.filter_cons_of_neg, List.filter_cons_of_neg, List.filter_cons_of_neg,
    List.filter_cons_of_pos, List.filter_cons_of_pos, List.filter_nil]
  all_goals simp only [decide_eq_true_eq, not_and_or, not_le, ge_iff_le]
  · constructor <;> linarith
  · constructor <;> linarith
  · left; linarith
  · left; linarith
  · left; linarith

theorem bad_run : exclMeanStd bad (-1 / 2) 1 100 = some (1, 13 / 2, Real.sqrt 13) := by
  have hm : mean bad = 3 := by norm_num [mean, bad]
  have p1 : exclPass bad (-1 / 2) 1 3 (Real.sqrt 11) = some (4, Real.sqrt 10, 2) := by
    simp only [exclPass, bad_keep1]; norm_num
  have p2 : exclPass bad (-1 / 2) 1 4 (Real.sqrt 10) = some (13 / 2, Real.sqrt 13, 2) := by
    simp only [exclPass, bad_keep2]; norm_num
  simp only [exclMeanStd, bad_std, hm]
  rw [exclLoop, p1]
  simp only
  rw [if_pos (by norm_num), dif_pos (by norm_num), exclLoop, p2]
  simp

/-- **C76 is violated by `aa_stat_excluded_mean_std`.** For these five samples the loop stops, far from
its limit, because two passes keep the same *number* of samples, not the same samples. The kept samples
are then 6 and 7 with deviation `√(1/2)`, and the function returns `√13`, which is not the deviation of
any two or more of the samples that has the returned mean. -/
theorem C76_violates_moving_mean :
    exclMeanStd bad (-1 / 2) 1 100 = some (1, 13 / 2, Real.sqrt 13) ∧
    IsStd [6, 7] (Real.sqrt (1 / 2)) ∧
    (∀ k : List ℝ, k.Sublist bad → 2 ≤ k.length → mean k = 13 / 2 → ¬ IsStd k (Real.sqrt 13)) := by
  refine ⟨bad_run, ⟨Real.sqrt_nonneg _, ?_⟩, ?_⟩
  · rw [Real.sq_sqrt (by norm_num)]; norm_num [dist2, mean]
  · intro k hk hl hm ⟨_, h⟩
    rw [Real.sq_sqrt (by norm_num), hm] at h
    have hmem : k ∈ bad.sublists := List.mem_sublists.2 hk
    simp only [bad, List.sublists, List.foldr] at hmem
    simp at hmem
    rw [mean_eq] at hm
    unfold dist2 at h
    repeat' rcases hmem with rfl | hmem
    all_goals first | (norm_num at hl; done) | (norm_num at hm; done) | norm_num at h

/-! ### The circular version -/

theorem exclCircPass_spec {x : List ℝ} {zmin zmax mu0 s0 mu s : ℝ} {j : Nat}
    (h : exclCircPass x zmin zmax mu0 s0 = some (mu, s, j)) :
    let k := keepCirc x zmin zmax mu0 s0
    j = k.length ∧ 2 ≤ k.length ∧ mu = circMean k ∧ s = circStd k ∧ resultant k ≠ 0 := by
  intro k
  simp only [exclCircPass] at h
  split_ifs at h with hl hr
  simp only [Option.some.injEq, Prod.mk.injEq] at h
  obtain ⟨h1, h2, h3⟩ := h
  refine ⟨h3.symm, hl, h1.symm, h2.symm, ?_⟩
  intro h0
  apply hr
  have := resultant_sq k
  rw [h0] at this
  simp only [foldl_add, zero_add]
  change (k.map Real.sin).sum / k.length * ((k.map Real.sin).sum / k.length) +
    (k.map Real.cos).sum / k.length * ((k.map Real.cos).sum / k.length) = 0
  linarith

theorem exclCircLoop_spec (x : List ℝ) (zmin zmax : ℝ) (M : Nat) (iter j0 : Nat) (mu0 s0 : ℝ)
    (it : Nat) (mu s : ℝ) (h : exclCircLoop x zmin zmax M iter j0 mu0 s0 = some (it, mu, s)) :
    it ≤ max M (iter + 1) ∧ ∃ m0 σ0 j, exclCircPass x zmin zmax m0 σ0 = some (mu, s, j) := by
  induction hd : M - iter using Nat.strong_induction_on generalizing iter j0 mu0 s0 with
  | _ d ih =>
    rw [exclCircLoop] at h
    cases hp : exclCircPass x zmin zmax mu0 s0 with
    | none => rw [hp] at h; simp at h
    | some r =>
      obtain ⟨mu', s', j⟩ := r
      rw [hp] at h
      simp only at h
      split_ifs at h with h1 h2
      · obtain ⟨a, b⟩ := ih (M - (iter + 1)) (by omega) _ _ _ _ h rfl
        exact ⟨by omega, b⟩
      · simp only [Option.some.injEq, Prod.mk.injEq] at h
        obtain ⟨rfl, rfl, rfl⟩ := h
        exact ⟨by omega, _, _, _, hp⟩
      · simp only [Option.some.injEq, Prod.mk.injEq] at h
        obtain ⟨rfl, rfl, rfl⟩ := h
        exact ⟨by omega, _, _, _, hp⟩

/-- **C76 (partial)**, `aa_stat_excluded_circ_mean_std`: the returned angle is the circular mean of the
kept samples, and the deviation is `√2` times their circular standard deviation (compare C20). The kept
samples are those whose signed angle from an earlier mean lies within the limits. -/
theorem C76_excluded_circ_partial (x : List ℝ) (zmin zmax : ℝ) (M it : Nat) (mu s : ℝ)
    (h : exclCircMeanStd x zmin zmax M = some (it, mu, s)) :
    it ≤ max M 1 ∧ ∃ (m0 σ0 : ℝ) (k : List ℝ), k.Sublist x ∧ 2 ≤ k.length ∧
      (∀ t, k.count t = if zmin * σ0 ≤ angDelta t m0 ∧ angDelta t m0 ≤ zmax * σ0 then x.count t else 0) ∧
      (∀ t, |angDelta t m0| ≤ Real.pi ∧ ((angDelta t m0 : ℝ) : Real.Angle) = (t : Real.Angle) - m0) ∧
      mu = circMean k ∧ resultant k ≠ 0 ∧
      s = Real.sqrt 2 * Real.sqrt (-2 * Real.log (resultant k)) := by
  simp only [exclCircMeanStd] at h
  split_ifs at h with h0
  obtain ⟨h1, m0, σ0, j, hp⟩ := exclCircLoop_spec _ _ _ _ _ _ _ _ _ _ _ h
  obtain ⟨-, hk, hmu, hs0, hr⟩ := exclCircPass_spec hp
  refine ⟨by simpa using h1, m0, σ0, keepCirc x zmin zmax m0 σ0, List.filter_sublist, hk, ?_, ?_, hmu, hr, ?_⟩
  · intro t
    unfold keepCirc
    split_ifs with hc
    · rw [List.count_filter]; simpa using hc
    · rw [List.count_eq_zero]
      intro hm
      have := (List.mem_filter.1 hm).2
      simp only [decide_eq_true_eq, ge_iff_le] at this
      exact hc this
  · intro t
    exact (C19_angles t m0).2.2
  · rw [hs0, C20_circ_std_partial _ hr]

/-- **C76 is violated by `aa_stat_excluded_circ_mean_std`**, also when nothing is excluded: for the
angles `0` and `π/2` and limits of ten deviations the deviation is not the circular one. -/
theorem C76_violates_circ : ∃ it mu s,
    exclCircMeanStd [0, Real.pi / 2] (-10) 10 100 = some (it, mu, s) ∧
    s ≠ Real.sqrt (-2 * Real.log (resultant [0, Real.pi / 2])) := by
  obtain ⟨x, hx⟩ : ∃ x : List ℝ, x = [0, Real.pi / 2] := ⟨_, rfl⟩
  obtain ⟨h0, hne⟩ := C20_violates_missing_sqrt
  have hpair := resultant_pair
  rw [← hx] at h0 hne hpair ⊢
  have hlen : x.length = 2 := by rw [hx]; rfl
  have hs : circStd x = Real.sqrt (-2 * Real.log (1 / 2)) := by
    rw [← hpair, resultant_sq]
    simp only [circStd, foldl_add, zero_add]
  have hs1 : 1 ≤ circStd x := by
    rw [hs, Real.one_le_sqrt, one_div, Real.log_inv]
    have := Real.log_two_gt_d9
    linarith
  have hkeep : ∀ mu, keepCirc x (-10) 10 mu (circStd x) = x := by
    intro mu
    unfold keepCirc
    rw [List.filter_eq_self]
    intro t _
    have h := (C19_angles t mu).2.2.1
    have hp := Real.pi_le_four
    obtain ⟨ha, hb⟩ := abs_le.1 h
    simp only [decide_eq_true_eq, ge_iff_le]
    constructor <;> linarith
  have hpass : ∀ mu, exclCircPass x (-10) 10 mu (circStd x) = some (circMean x, circStd x, 2) := by
    intro mu
    have hr := resultant_sq x
    simp only [exclCircPass, hkeep, hlen, foldl_add, zero_add]
    rw [if_pos (by norm_num), if_neg]
    · simp only [circMean, circStd, foldl_add, zero_add, hlen, Nat.cast_ofNat]
    · intro h
      rw [hlen] at hr
      rw [h, hpair] at hr
      norm_num at hr
  refine ⟨1, circMean x, circStd x, ?_, hne⟩
  simp only [exclCircMeanStd, hlen]
  rw [if_neg (by norm_num), exclCircLoop, hpass]
  simp only
  rw [if_pos (by norm_num), dif_pos (by norm_num), exclCircLoop, hpass]
  simp

end Verif.Scalar
