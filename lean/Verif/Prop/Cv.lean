import Verif.Model.Cv
import Mathlib.Analysis.SpecialFunctions.Complex.Arg
import Mathlib.Analysis.SpecialFunctions.Complex.Circle
import Mathlib.Analysis.SpecialFunctions.Trigonometric.Angle
import Mathlib.Analysis.Real.Sqrt
import Mathlib.Tactic.Linarith
import Mathlib.Tactic.LinearCombination
import Mathlib.Tactic.FieldSimp

/-! # C120: hue, saturation and value of a colour -/

namespace Verif.Cv

open Complex

/-- the direction of green on the colour wheel, a third of a turn from red. -/
noncomputable def third : ℂ := exp ((2 * Real.pi / 3 : ℝ) * I)

/-- the point of a colour on the colour wheel: red, green and blue are a third of a
turn apart, each drawn outward by its amount. -/
noncomputable def wheel (rgb : V3) : ℂ :=
  rgb.a + rgb.b * third + rgb.c * third ^ 2

/-- colours with components in `[0, 1]`. -/
def Colour (rgb : V3) : Prop :=
  (0 ≤ rgb.a ∧ rgb.a ≤ 1) ∧ (0 ≤ rgb.b ∧ rgb.b ≤ 1) ∧ (0 ≤ rgb.c ∧ rgb.c ≤ 1)

theorem third_eq : third = ⟨-1 / 2, √3 / 2⟩ := by
  have hc : Real.cos (2 * Real.pi / 3) = -1 / 2 := by
    rw [show 2 * Real.pi / 3 = Real.pi - Real.pi / 3 by ring, Real.cos_pi_sub,
      Real.cos_pi_div_three]; norm_num
  have hs : Real.sin (2 * Real.pi / 3) = √3 / 2 := by
    rw [show 2 * Real.pi / 3 = Real.pi - Real.pi / 3 by ring, Real.sin_pi_sub,
      Real.sin_pi_div_three]
  unfold third
  apply Complex.ext
  · rw [exp_ofReal_mul_I_re, hc]
  · rw [exp_ofReal_mul_I_im, hs]

theorem third_cube : third ^ 3 = 1 := by
  unfold third
  rw [← exp_nat_mul]
  have : ((3 : ℕ) : ℂ) * (((2 * Real.pi / 3 : ℝ) : ℂ) * I) = 2 * Real.pi * I := by
    push_cast; ring
  rw [this, exp_two_pi_mul_I]

theorem wheel_eq (rgb : V3) : wheel rgb = ⟨alpha rgb, beta rgb⟩ := by
  have h3 : √3 * √3 = 3 := Real.mul_self_sqrt (by norm_num)
  have h2 : third ^ 2 = ⟨-1 / 2, -(√3 / 2)⟩ := by
    rw [third_eq, sq]
    apply Complex.ext
    · simp only [mul_re]; linear_combination (-1 / 4) * h3
    · simp only [mul_im]; ring
  unfold wheel
  rw [h2, third_eq]
  apply Complex.ext
  · simp [alpha]; ring
  · simp [beta]; ring

theorem chroma_norm (rgb : V3) : chroma rgb = ‖wheel rgb‖ := by
  rw [wheel_eq, Complex.norm_def, normSq_mk]; rfl

theorem hue_eq (rgb : V3) : Tf.atan2 (beta rgb) (alpha rgb) = arg (wheel rgb) := by
  rw [wheel_eq]; rfl

theorem normSq_wheel (rgb : V3) : normSq (wheel rgb)
    = rgb.a ^ 2 + rgb.b ^ 2 + rgb.c ^ 2 - rgb.a * rgb.b - rgb.b * rgb.c - rgb.c * rgb.a := by
  have h3 : √3 * √3 = 3 := Real.mul_self_sqrt (by norm_num)
  rw [wheel_eq, normSq_mk]
  unfold alpha beta
  linear_combination ((rgb.b - rgb.c) ^ 2 / 4) * h3

theorem wheel_zero (rgb : V3) : wheel rgb = 0 ↔ rgb.a = rgb.b ∧ rgb.b = rgb.c := by
  rw [← normSq_eq_zero, normSq_wheel]
  constructor
  · intro h
    have : (rgb.a - rgb.b) ^ 2 + (rgb.b - rgb.c) ^ 2 + (rgb.c - rgb.a) ^ 2 = 0 := by
      linear_combination 2 * h
    constructor <;> nlinarith [sq_nonneg (rgb.a - rgb.b), sq_nonneg (rgb.b - rgb.c),
      sq_nonneg (rgb.c - rgb.a)]
  · rintro ⟨h1, h2⟩
    rw [h1, h2]; ring

theorem cmax_eq (x y : ℝ) : cmax x y = max x y := by
  unfold cmax
  split <;> rename_i h
  · exact (max_eq_left h.le).symm
  · exact (max_eq_right (not_lt.mp h)).symm

/-- the largest component. -/
noncomputable def top (rgb : V3) : ℝ := max (max rgb.a rgb.b) rgb.c

theorem feq_chroma (rgb : V3) : Tf.feq (chroma rgb) 0 0 = true ↔ wheel rgb = 0 := by
  unfold Tf.feq
  rw [decide_eq_true_iff, sub_zero, abs_nonpos_iff, chroma_norm, norm_eq_zero]

theorem norm_wheel_le (rgb : V3) (h : Colour rgb) : ‖wheel rgb‖ ≤ top rgb := by
  have ht : 0 ≤ top rgb := le_max_of_le_left (le_max_of_le_left h.1.1)
  have ha : rgb.a ≤ top rgb := le_max_of_le_left (le_max_left _ _)
  have hb : rgb.b ≤ top rgb := le_max_of_le_left (le_max_right _ _)
  have hc : rgb.c ≤ top rgb := le_max_right _ _
  obtain ⟨⟨a0, -⟩, ⟨b0, -⟩, c0, -⟩ := h
  refine abs_le_of_sq_le_sq' ?_ ht |>.2
  rw [← Complex.normSq_eq_norm_sq, normSq_wheel]
  have : top rgb = rgb.a ∨ top rgb = rgb.b ∨ top rgb = rgb.c := by
    unfold top
    rcases max_choice (max rgb.a rgb.b) rgb.c with e | e <;> rw [e]
    · rcases max_choice rgb.a rgb.b with e | e <;> rw [e] <;> simp
    · simp
  rcases this with e | e | e <;> rw [e] at ha hb hc ⊢
  · rcases le_total rgb.b rgb.c with g | g <;>
      nlinarith [mul_nonneg b0 (sub_nonneg.2 hc), mul_nonneg c0 (sub_nonneg.2 hb),
        mul_nonneg b0 (sub_nonneg.2 g), mul_nonneg c0 (sub_nonneg.2 g)]
  · rcases le_total rgb.a rgb.c with g | g <;>
      nlinarith [mul_nonneg a0 (sub_nonneg.2 hc), mul_nonneg c0 (sub_nonneg.2 ha),
        mul_nonneg a0 (sub_nonneg.2 g), mul_nonneg c0 (sub_nonneg.2 g)]
  · rcases le_total rgb.a rgb.b with g | g <;>
      nlinarith [mul_nonneg a0 (sub_nonneg.2 hb), mul_nonneg b0 (sub_nonneg.2 ha),
        mul_nonneg a0 (sub_nonneg.2 g), mul_nonneg b0 (sub_nonneg.2 g)]

/-- what the function computes. -/
theorem rgb2hsv_eq (rgb : V3) (h : Colour rgb) :
    rgb2hsv rgb = some ⟨arg (wheel rgb), ‖wheel rgb‖ / top rgb, top rgb⟩ := by
  unfold rgb2hsv
  simp only [cmax_eq, hue_eq]
  split <;> rename_i hg
  · rw [feq_chroma] at hg
    rw [hg, norm_zero, zero_div]; rfl
  · rw [feq_chroma] at hg
    have : 0 < ‖wheel rgb‖ := norm_pos_iff.2 hg
    have ht := norm_wheel_le rgb h
    have hv : top rgb ≠ 0 := by linarith
    rw [if_neg (by exact hv), chroma_norm]; rfl

/-- C120: of a colour with components in [0,1] the value is the largest component,
saturation is in [0,1] and zero exactly for greys, the hue is in (-π, π], nothing is
divided by zero, and saturation times value, drawn in the direction of the hue, is the
point of the colour on the wheel. -/
theorem C120_hsv (rgb : V3) (hr : Colour rgb) : ∃ h s v,
    rgb2hsv rgb = some ⟨h, s, v⟩ ∧ IsGreatest {rgb.a, rgb.b, rgb.c} v
    ∧ 0 ≤ s ∧ s ≤ 1 ∧ (s = 0 ↔ rgb.a = rgb.b ∧ rgb.b = rgb.c)
    ∧ -Real.pi < h ∧ h ≤ Real.pi
    ∧ ((s * v : ℝ) : ℂ) * exp (h * I) = wheel rgb := by
  have hle := norm_wheel_le rgb hr
  have ht : 0 ≤ top rgb := le_max_of_le_left (le_max_of_le_left hr.1.1)
  have hz : top rgb = 0 → ‖wheel rgb‖ = 0 := fun e =>
    le_antisymm (by rw [← e]; exact hle) (norm_nonneg _)
  refine ⟨_, _, _, rgb2hsv_eq rgb hr, ⟨?_, ?_⟩, div_nonneg (norm_nonneg _) ht,
    div_le_one_of_le₀ hle ht, ?_, neg_pi_lt_arg _, arg_le_pi _, ?_⟩
  · unfold top
    rcases max_choice (max rgb.a rgb.b) rgb.c with e | e <;> rw [e]
    · rcases max_choice rgb.a rgb.b with e | e <;> rw [e] <;> simp
    · simp
  · rintro x (rfl | rfl | rfl)
    · exact le_max_of_le_left (le_max_left _ _)
    · exact le_max_of_le_left (le_max_right _ _)
    · exact le_max_right _ _
  · rw [← wheel_zero, div_eq_zero_iff, norm_eq_zero]
    constructor
    · rintro (e | e)
      · exact e
      · exact norm_eq_zero.1 (hz e)
    · exact Or.inl
  · have : ‖wheel rgb‖ / top rgb * top rgb = ‖wheel rgb‖ := by
      by_cases e : top rgb = 0
      · rw [hz e]; simp
      · exact div_mul_cancel₀ _ e
    rw [this, norm_mul_exp_arg_mul_I]

/-- C120: no two colours have the same hue, saturation and value. -/
theorem C120_injective (p q : V3) (hp : Colour p) (hq : Colour q)
    (h : rgb2hsv p = rgb2hsv q) : p = q := by
  obtain ⟨h1, s1, v1, e1, g1, -, -, -, -, -, w1⟩ := C120_hsv p hp
  obtain ⟨h2, s2, v2, e2, g2, -, -, -, -, -, w2⟩ := C120_hsv q hq
  rw [e1, e2] at h
  injection h with h
  injection h with a b c
  subst a b c
  have hw : wheel p = wheel q := by rw [← w1, ← w2]
  rw [wheel_eq, wheel_eq] at hw
  have ha : alpha p = alpha q := congrArg re hw
  have hb : beta p = beta q := congrArg im hw
  have h3 : √3 ≠ 0 := by positivity
  unfold alpha at ha
  have hb' : p.b - p.c = q.b - q.c := by
    unfold beta at hb
    have h4 : √3 / 2 ≠ 0 := by positivity
    exact mul_left_cancel₀ h4 hb
  -- the two colours differ by a grey, and have the same largest component
  have d : p.a - q.a = p.b - q.b ∧ p.b - q.b = p.c - q.c := by
    constructor
    · norm_num at ha; linarith
    · linarith
  have e : p.a = q.a := by
    obtain ⟨m1, u1⟩ := g1
    obtain ⟨m2, u2⟩ := g2
    have ua := u1 (show p.a ∈ _ by simp)
    have ub := u1 (show p.b ∈ _ by simp)
    have uc := u1 (show p.c ∈ _ by simp)
    have va := u2 (show q.a ∈ _ by simp)
    have vb := u2 (show q.b ∈ _ by simp)
    have vc := u2 (show q.c ∈ _ by simp)
    obtain ⟨d1, d2⟩ := d
    rcases m1 with m | m | m <;> rcases m2 with n | n | n <;> (try simp at m n) <;> linarith
  obtain ⟨pa, pb, pc⟩ := p
  obtain ⟨qa, qb, qc⟩ := q
  simp only at d e
  obtain ⟨d1, d2⟩ := d
  have e2 : pb = qb := by linarith
  have e3 : pc = qc := by linarith
  rw [e, e2, e3]

/-- C120: dimming a colour changes the value only. -/
theorem C120_dim (rgb : V3) (hr : Colour rgb) (k : ℝ) (h0 : 0 < k) (h1 : k ≤ 1) :
    ∃ h s v, rgb2hsv rgb = some ⟨h, s, v⟩
      ∧ rgb2hsv ⟨k * rgb.a, k * rgb.b, k * rgb.c⟩ = some ⟨h, s, k * v⟩ := by
  have hk : Colour ⟨k * rgb.a, k * rgb.b, k * rgb.c⟩ := by
    obtain ⟨⟨a0, a1⟩, ⟨b0, b1⟩, c0, c1⟩ := hr
    exact ⟨⟨by positivity, mul_le_one₀ h1 a0 a1⟩, ⟨by positivity, mul_le_one₀ h1 b0 b1⟩,
      by positivity, mul_le_one₀ h1 c0 c1⟩
  refine ⟨_, _, _, rgb2hsv_eq rgb hr, ?_⟩
  rw [rgb2hsv_eq _ hk]
  have hw : wheel ⟨k * rgb.a, k * rgb.b, k * rgb.c⟩ = (k : ℂ) * wheel rgb := by
    unfold wheel; push_cast; ring
  have htop : top ⟨k * rgb.a, k * rgb.b, k * rgb.c⟩ = k * top rgb := by
    unfold top
    rw [mul_max_of_nonneg _ _ h0.le, mul_max_of_nonneg _ _ h0.le]
  rw [hw, htop, arg_real_mul _ h0, norm_mul, norm_real, Real.norm_of_nonneg h0.le,
    mul_div_mul_left _ _ h0.ne']

/-- C120: passing red on to green, green to blue and blue to red turns the hue of a
colour that is no grey by a third of a turn, and changes neither saturation nor value. -/
theorem C120_cycle (rgb : V3) (hr : Colour rgb) (hg : ¬ (rgb.a = rgb.b ∧ rgb.b = rgb.c)) :
    ∃ h h' s v, rgb2hsv rgb = some ⟨h, s, v⟩
      ∧ rgb2hsv ⟨rgb.c, rgb.a, rgb.b⟩ = some ⟨h', s, v⟩
      ∧ (h' : Real.Angle) = ((h + 2 * Real.pi / 3 : ℝ) : Real.Angle) := by
  have hk : Colour ⟨rgb.c, rgb.a, rgb.b⟩ := ⟨hr.2.2, hr.1, hr.2.1⟩
  have hw : wheel ⟨rgb.c, rgb.a, rgb.b⟩ = wheel rgb * third := by
    unfold wheel
    linear_combination (-(rgb.c : ℂ)) * third_cube
  have htop : top ⟨rgb.c, rgb.a, rgb.b⟩ = top rgb := by
    unfold top
    show max (max rgb.c rgb.a) rgb.b = max (max rgb.a rgb.b) rgb.c
    rw [max_assoc, max_comm]
  have hn : ‖third‖ = 1 := norm_exp_ofReal_mul_I _
  have h0 : third ≠ 0 := by rw [← norm_pos_iff, hn]; norm_num
  refine ⟨_, arg (wheel rgb * third), _, _, rgb2hsv_eq rgb hr, ?_, ?_⟩
  · rw [rgb2hsv_eq _ hk, hw, htop, norm_mul, hn, mul_one]
  · rw [arg_mul_coe_angle (by rwa [Ne, wheel_zero]) h0, Real.Angle.coe_add]
    congr 1
    unfold third
    rw [arg_exp_mul_I, Real.Angle.coe_toIocMod]

/-- C120: exchanging green and blue mirrors the hue, and changes neither saturation nor
value. -/
theorem C120_mirror (rgb : V3) (hr : Colour rgb) :
    ∃ h h' s v, rgb2hsv rgb = some ⟨h, s, v⟩
      ∧ rgb2hsv ⟨rgb.a, rgb.c, rgb.b⟩ = some ⟨h', s, v⟩
      ∧ (h' : Real.Angle) = ((-h : ℝ) : Real.Angle) := by
  have hk : Colour ⟨rgb.a, rgb.c, rgb.b⟩ := ⟨hr.1, hr.2.2, hr.2.1⟩
  have hw : wheel ⟨rgb.a, rgb.c, rgb.b⟩ = (starRingEnd ℂ) (wheel rgb) := by
    rw [wheel_eq, wheel_eq]
    apply Complex.ext
    · simp [alpha]; ring
    · simp [beta]; ring
  have htop : top ⟨rgb.a, rgb.c, rgb.b⟩ = top rgb := by
    unfold top; rw [max_right_comm]
  refine ⟨_, arg ((starRingEnd ℂ) (wheel rgb)), _, _, rgb2hsv_eq rgb hr, ?_, ?_⟩
  · rw [rgb2hsv_eq _ hk, hw, htop, norm_conj]
  · rw [arg_conj_coe_angle, Real.Angle.coe_neg]

/-- C120: pure red, of any brightness, has hue 0 and full saturation. -/
theorem C120_red (r : ℝ) (h0 : 0 < r) (h1 : r ≤ 1) : rgb2hsv ⟨r, 0, 0⟩ = some ⟨0, 1, r⟩ := by
  have hc : Colour ⟨r, 0, 0⟩ := ⟨⟨h0.le, h1⟩, ⟨le_refl _, zero_le_one⟩, le_refl _, zero_le_one⟩
  have hw : wheel ⟨r, 0, 0⟩ = (r : ℂ) := by unfold wheel; simp
  have ht : top ⟨r, 0, 0⟩ = r := by unfold top; simp [h0.le]
  rw [rgb2hsv_eq _ hc, hw, ht, arg_ofReal_of_nonneg h0.le, norm_real,
    Real.norm_of_nonneg h0.le, div_self h0.ne']

/-- the colour half red and full green. -/
example : Colour ⟨0.5, 1, 0⟩ ∧ ¬ ((0.5 : ℝ) = 1 ∧ (1 : ℝ) = 0) := by
  unfold Colour; norm_num

end Verif.Cv
