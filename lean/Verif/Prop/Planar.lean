import Verif.Model.Planar

/-!
# C61: planar two-link inverse kinematics
-/

namespace Verif.Planar

open Verif.Tf

/-- Forward kinematics as documented in kin.h 46-49: the tip of two links at the (absolute) angles
`th`. -/
noncomputable def fk (l1 l2 : ℝ) (th : ℝ × ℝ) : ℝ × ℝ :=
  (l1 * Real.cos th.1 + l2 * Real.cos th.2, l1 * Real.sin th.1 + l2 * Real.sin th.2)

/-- A point the arm can reach. -/
def Reachable (l1 l2 x1 x2 : ℝ) : Prop := ∃ th, fk l1 l2 th = (x1, x2)

theorem atan2_two {x y : ℝ} (h : x ^ 2 + y ^ 2 = 4) :
    Real.cos (atan2 y x) = x / 2 ∧ Real.sin (atan2 y x) = y / 2 := by
  have hn : ‖(⟨x, y⟩ : ℂ)‖ = 2 := by
    rw [Complex.norm_def, Complex.normSq_mk, show x * x + y * y = 2 ^ 2 by linarith]
    exact Real.sqrt_sq (by norm_num)
  have h0 : (⟨x, y⟩ : ℂ) ≠ 0 := by
    intro h1
    rw [h1, norm_zero] at hn
    norm_num at hn
  constructor
  · rw [atan2, Complex.cos_arg h0, hn]
  · rw [atan2, Complex.sin_arg, hn]

theorem radicand_eq (l1 l2 x1 x2 : ℝ) : radicand l1 l2 x1 x2 =
    x2 ^ 2 * (4 * (x1 ^ 2 + x2 ^ 2) * l1 ^ 2 - (x1 ^ 2 + x2 ^ 2 + l1 ^ 2 - l2 ^ 2) ^ 2) := by
  unfold radicand
  ring

/-- What reaching the point means for the first link. -/
theorem reach_facts {l1 l2 x1 x2 : ℝ} {th : ℝ × ℝ} (h : fk l1 l2 th = (x1, x2)) :
    2 * l1 * (x1 * Real.cos th.1 + x2 * Real.sin th.1) = x1 ^ 2 + x2 ^ 2 + l1 ^ 2 - l2 ^ 2 ∧
    (2 * l1 * x2 * (x2 * Real.cos th.1 - x1 * Real.sin th.1)) ^ 2 = radicand l1 l2 x1 x2 := by
  simp only [fk, Prod.mk.injEq] at h
  obtain ⟨h1, h2⟩ := h
  have c1 := Real.sin_sq_add_cos_sq th.1
  have c2 := Real.sin_sq_add_cos_sq th.2
  have e1 : 2 * l1 * (x1 * Real.cos th.1 + x2 * Real.sin th.1) =
      x1 ^ 2 + x2 ^ 2 + l1 ^ 2 - l2 ^ 2 := by
    have h3 : (x1 - l1 * Real.cos th.1) ^ 2 + (x2 - l1 * Real.sin th.1) ^ 2 = l2 ^ 2 := by
      rw [← h1, ← h2]
      linear_combination l2 ^ 2 * c2
    linear_combination l1 ^ 2 * c1 - h3
  refine ⟨e1, ?_⟩
  rw [radicand_eq, ← e1]
  linear_combination 4 * l1 ^ 2 * x2 ^ 2 * (x1 ^ 2 + x2 ^ 2) * c1

section
variable {l1 l2 x1 x2 s : ℝ}

/-- One of the two choices: both angles have the expected cosine and sine. -/
theorem choice (h1 : l1 ≠ 0) (h2 : l2 ≠ 0) (hx : x2 ≠ 0) (hs : s ^ 2 = radicand l1 l2 x1 x2) :
    let r := x1 ^ 2 + x2 ^ 2
    let y0 := (x2*x2*x2*x2+x2*x2*x1*x1+x1*s-l2*l2*x2*x2+x2*x2*l1*l1)/(x2*x2+x1*x1)/x2/l1
    let z0 := (x2*x2*x1+x1*x1*x1-l2*l2*x1+x1*l1*l1-s)/(x2*x2+x1*x1)/l1
    let y1 := (x2*x2*x1*x1-x1*s+l2*l2*x2*x2+x2*x2*x2*x2-x2*x2*l1*l1)/(x2*x2+x1*x1)/l2/x2
    let z1 := (l2*l2*x1-x1*l1*l1+x2*x2*x1+x1*x1*x1+s)/(x2*x2+x1*x1)/l2
    (Real.cos (atan2 y0 z0) = (x1 * (r + l1 ^ 2 - l2 ^ 2) - s) / (2 * r * l1) ∧
      Real.sin (atan2 y0 z0) = (x2 ^ 2 * (r + l1 ^ 2 - l2 ^ 2) + x1 * s) / (2 * r * l1 * x2)) ∧
    fk l1 l2 (atan2 y0 z0, atan2 y1 z1) = (x1, x2) := by
  intro r y0 z0 y1 z1
  have hr : 0 < x2 * x2 + x1 * x1 := by nlinarith [mul_self_pos.2 hx, mul_self_nonneg x1]
  have hr' : x2 * x2 + x1 * x1 ≠ 0 := hr.ne'
  have hr2 : x1 ^ 2 + x2 ^ 2 ≠ 0 := by rw [show x1 ^ 2 + x2 ^ 2 = x2 * x2 + x1 * x1 by ring]; exact hr'
  rw [radicand_eq] at hs
  have q0 : z0 ^ 2 + y0 ^ 2 = 4 := by
    simp only [z0, y0]
    field_simp
    linear_combination (x1 ^ 2 + x2 ^ 2) * hs
  have q1 : z1 ^ 2 + y1 ^ 2 = 4 := by
    simp only [z1, y1]
    field_simp
    linear_combination (x1 ^ 2 + x2 ^ 2) * hs
  obtain ⟨c0, s0⟩ := atan2_two q0
  obtain ⟨c1, s1⟩ := atan2_two q1
  refine ⟨⟨?_, ?_⟩, ?_⟩
  · rw [c0]
    simp only [z0, r]
    field_simp
    ring
  · rw [s0]
    simp only [y0, r]
    field_simp
    ring
  · simp only [fk, c0, s0, c1, s1, Prod.mk.injEq]
    simp only [z0, y0, z1, y1]
    constructor
    · field_simp
      ring
    · field_simp
      ring

end

/-- **C61** away from the x axis and for links of nonzero length: if the point is reachable, the
function returns 0 and both choices reach it exactly.  Missing: points on the x axis, where the code
divides by zero (`C61_violates_axis`), and links of length zero. -/
theorem C61_partial (l1 l2 x1 x2 : ℝ) (h1 : l1 ≠ 0) (h2 : l2 ≠ 0) (hx : x2 ≠ 0)
    (h : Reachable l1 l2 x1 x2) :
    ∃ a b, ikTheta2 l1 l2 x1 x2 = some (0, a, b) ∧ fk l1 l2 a = (x1, x2) ∧
      fk l1 l2 b = (x1, x2) := by
  obtain ⟨th, hth⟩ := h
  have hrad : 0 ≤ radicand l1 l2 x1 x2 := by
    rw [← (reach_facts hth).2]
    exact sq_nonneg _
  have hs := Real.sq_sqrt hrad
  have ha := (choice (x1 := x1) h1 h2 hx hs).2
  have hb := (choice (x1 := x1) (s := -Real.sqrt (radicand l1 l2 x1 x2)) h1 h2 hx
    (by rw [neg_sq, hs])).2
  simp only [mul_neg, sub_neg_eq_add, ← sub_eq_add_neg] at ha hb
  have hr : x2 * x2 + x1 * x1 ≠ 0 := by
    have := mul_self_pos.2 hx
    have := mul_self_nonneg x1
    linarith
  refine ⟨_, _, ?_, ha, hb⟩
  unfold ikTheta2
  rw [if_neg (by
    push Not
    exact ⟨hr, hx, h1, h2, hrad⟩)]
  simp only [fk, Prod.mk.injEq] at ha hb
  simp only
  rw [if_pos]
  refine ⟨?_, ?_, ?_, ?_⟩
  · rw [ha.1, feq, sub_self, abs_zero]; norm_num
  · rw [ha.2, feq, sub_self, abs_zero]; norm_num
  · rw [hb.1, feq, sub_self, abs_zero]; norm_num
  · rw [hb.2, feq, sub_self, abs_zero]; norm_num

/-- The two results are all solutions: whatever angles reach the point have the cosines and sines of
one of them. -/
theorem C61_complete (l1 l2 x1 x2 : ℝ) (h1 : l1 ≠ 0) (h2 : l2 ≠ 0) (hx : x2 ≠ 0) (th : ℝ × ℝ)
    (h : fk l1 l2 th = (x1, x2)) :
    ∃ a b, ikTheta2 l1 l2 x1 x2 = some (0, a, b) ∧
      ∃ c, (c = a ∨ c = b) ∧ Real.cos th.1 = Real.cos c.1 ∧ Real.sin th.1 = Real.sin c.1 ∧
        Real.cos th.2 = Real.cos c.2 ∧ Real.sin th.2 = Real.sin c.2 := by
  obtain ⟨a, b, hab, hfa, hfb⟩ := C61_partial l1 l2 x1 x2 h1 h2 hx ⟨th, h⟩
  refine ⟨a, b, hab, ?_⟩
  obtain ⟨e1, e2⟩ := reach_facts h
  have hrad : 0 ≤ radicand l1 l2 x1 x2 := by rw [← e2]; exact sq_nonneg _
  have hs := Real.sq_sqrt hrad
  have hr : x2 * x2 + x1 * x1 ≠ 0 := by
    have := mul_self_pos.2 hx
    have := mul_self_nonneg x1
    linarith
  have hr2 : x1 ^ 2 + x2 ^ 2 ≠ 0 := by rw [show x1 ^ 2 + x2 ^ 2 = x2 * x2 + x1 * x1 by ring]; exact hr
  unfold ikTheta2 at hab
  rw [if_neg (by push Not; exact ⟨hr, hx, h1, h2, hrad⟩)] at hab
  simp only [Option.some.injEq, Prod.mk.injEq] at hab
  obtain ⟨-, rfl, rfl⟩ := hab
  have ha := (choice (x1 := x1) h1 h2 hx hs).1
  have hb := (choice (x1 := x1) (s := -Real.sqrt (radicand l1 l2 x1 x2)) h1 h2 hx
    (by rw [neg_sq, hs])).1
  simp only [mul_neg, sub_neg_eq_add, ← sub_eq_add_neg] at ha hb
  -- once the first angle is right, so is the second
  have fin : ∀ c : ℝ × ℝ, fk l1 l2 c = (x1, x2) → Real.cos th.1 = Real.cos c.1 →
      Real.sin th.1 = Real.sin c.1 → Real.cos th.1 = Real.cos c.1 ∧ Real.sin th.1 = Real.sin c.1 ∧
        Real.cos th.2 = Real.cos c.2 ∧ Real.sin th.2 = Real.sin c.2 := by
    intro c hc i1 i2
    simp only [fk, Prod.mk.injEq] at h hc
    refine ⟨i1, i2, ?_, ?_⟩
    · apply mul_left_cancel₀ h2
      rw [i1] at h
      linarith [h.1, hc.1]
    · apply mul_left_cancel₀ h2
      rw [i2] at h
      linarith [h.2, hc.2]
  have hpm : 2 * l1 * x2 * (x2 * Real.cos th.1 - x1 * Real.sin th.1) =
      -Real.sqrt (radicand l1 l2 x1 x2) ∨ 2 * l1 * x2 * (x2 * Real.cos th.1 - x1 * Real.sin th.1) =
      Real.sqrt (radicand l1 l2 x1 x2) := by
    rw [← hs] at e2
    exact (sq_eq_sq_iff_eq_or_eq_neg.1 e2).symm
  rcases hpm with hp | hp
  · refine ⟨_, Or.inl rfl, fin _ hfa ?_ ?_⟩
    · rw [ha.1, eq_div_iff (by positivity)]
      linear_combination x1 * e1 + hp
    · rw [ha.2, eq_div_iff (by positivity)]
      linear_combination x2 ^ 2 * e1 - x1 * hp
  · refine ⟨_, Or.inr rfl, fin _ hfb ?_ ?_⟩
    · rw [hb.1, eq_div_iff (by positivity)]
      linear_combination x1 * e1 + hp
    · rw [hb.2, eq_div_iff (by positivity)]
      linear_combination x2 ^ 2 * e1 - x1 * hp

/-- **C61 fails** on the x axis: the stretched arm reaches its end there, but the code divides by
`x2`, for all link lengths. -/
theorem C61_violates_axis (l1 l2 : ℝ) :
    Reachable l1 l2 (l1 + l2) 0 ∧ ikTheta2 l1 l2 (l1 + l2) 0 = none := by
  refine ⟨⟨(0, 0), by simp [fk]⟩, ?_⟩
  rw [ikTheta2, if_pos (Or.inr (Or.inl rfl))]

/-- Two links of length one reach (1, 1). -/
example : Reachable 1 1 1 1 := ⟨(0, Real.pi / 2), by simp [fk]⟩

/-- A point out of reach has no result. -/
example : ikTheta2 1 1 2 2 = none := by
  rw [ikTheta2, if_pos]
  right; right; right; right
  norm_num [radicand]

end Verif.Planar
