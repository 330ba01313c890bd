import Verif.Model.Num
import Mathlib.Tactic.Linarith
import Mathlib.Tactic.Ring
import Mathlib.Tactic.FieldSimp
import Mathlib.Algebra.Order.Group.Int

/-!
# C19: modulo and remainders of every width, degrees

`aa_imodulo`, `aa_lmodulo` and `aa_imodulo64` are meant to give, for every `a` and every `b ≠ 0`, the modulo
of Fortran: the number that differs from `a` by a multiple of `b` and lies between zero and `b` on the side of
`b`. The code violates it: the sum of remainder and `b` overflows for large `b`.
-/

namespace Verif.Num

/-! ## Integers -/

/-- The modulo of Fortran. -/
def IsModulo (a b r : Int) : Prop := (∃ k, a = b * k + r) ∧ (0 < b → 0 ≤ r ∧ r < b) ∧ (b < 0 → b < r ∧ r ≤ 0)

theorem isModulo_unique {a b r r' : Int} (hb : b ≠ 0) (h : IsModulo a b r) (h' : IsModulo a b r') : r = r' := by
  obtain ⟨⟨k, e⟩, h1, h2⟩ := h
  obtain ⟨⟨k', e'⟩, h1', h2'⟩ := h'
  have hd : b ∣ r - r' := ⟨k' - k, by rw [mul_sub]; linarith⟩
  have : r - r' = 0 := by
    apply Int.eq_zero_of_abs_lt_dvd ((abs_dvd b _).mpr hd)
    rcases lt_or_gt_of_ne hb with hb | hb
    · have := h2 hb; have := h2' hb
      rw [abs_of_neg hb, abs_lt]; constructor <;> linarith
    · have := h1 hb; have := h1' hb
      rw [abs_of_pos hb, abs_lt]; constructor <;> linarith
  linarith

theorem modulo_val {a b : Int} : IsModulo a b ((a.tmod b + b).tmod b) := by
  have e1 := Int.tmod_add_mul_tdiv a b
  have e2 := Int.tmod_add_mul_tdiv (a.tmod b + b) b
  refine ⟨⟨a.tdiv b + (a.tmod b + b).tdiv b - 1, by linarith⟩, fun h => ?_, fun h => ?_⟩
  · have l1 := Int.lt_tmod_of_pos a h
    exact ⟨Int.tmod_nonneg b (by linarith), Int.tmod_lt_of_pos _ h⟩
  · have h' : 0 < -b := by linarith
    have u1 : a.tmod b < -b := by
      have := Int.tmod_lt_of_pos a h'
      rwa [Int.tmod_neg] at this
    have l1 : -(-b) < (a.tmod b + b).tmod b := by
      have := Int.lt_tmod_of_pos (a.tmod b + b) h'
      rwa [Int.tmod_neg] at this
    have n1 : (a.tmod b + b).tmod b ≤ 0 := by
      have := Int.tmod_nonneg b (a := -(a.tmod b + b)) (by linarith)
      rw [Int.neg_tmod] at this
      linarith
    exact ⟨by linarith, n1⟩

/-- **C19 (integers).** What the functions return is the modulo of Fortran, whenever they return. -/
theorem C19_modulo_sound (w : Nat) (a b r : Int) (h : imodulo w a b = some r) :
    b ≠ 0 ∧ IsModulo a b r := by
  by_cases h1 : b = 0 ∨ ¬ InRange w (a.tdiv b)
  · simp [imodulo, cRem, if_pos h1] at h
  by_cases h2 : InRange w (a.tmod b + b)
  · by_cases h3 : b = 0 ∨ ¬ InRange w ((a.tmod b + b).tdiv b)
    · simp only [imodulo, cRem, cAdd, Option.bind_eq_bind, if_neg h1, if_pos h2, if_pos h3, Option.bind_some] at h
      exact absurd h (by simp)
    · simp only [imodulo, cRem, cAdd, Option.bind_eq_bind, if_neg h1, if_pos h2, if_neg h3, Option.bind_some,
        Option.some.injEq] at h
      rw [not_or] at h1
      exact ⟨h1.1, h ▸ modulo_val⟩
  · simp only [imodulo, cRem, cAdd, Option.bind_eq_bind, if_neg h1, if_neg h2, Option.bind_some,
      Option.bind_none] at h
    exact absurd h (by simp)

theorem tdiv_abs_le (a b : Int) : |a.tdiv b| ≤ |a| := by
  have h : |a.tdiv b| = ((a.natAbs / b.natAbs : Nat) : Int) := by
    rw [Int.abs_eq_natAbs, Int.natAbs_tdiv]; rfl
  rw [h, Int.abs_eq_natAbs]
  exact_mod_cast Nat.div_le_self _ _

/-- **C19 (integers).** They return for every `a` of the type, and every `b ≠ 0` of which the double is in the
type. -/
theorem C19_modulo_partial (w : Nat) (a b : Int) (ha : InRange w a) (hb : b ≠ 0)
    (h : -2 ^ w ≤ 2 * b ∧ 2 * b ≤ 2 ^ w) (hm : b ≠ -1 ∨ a ≠ -2 ^ w) (hw : w ≠ 0) :
    ∃ r, imodulo w a b = some r ∧ IsModulo a b r := by
  have hp : (2 : Int) ≤ 2 ^ w := by
    have : 2 ^ 1 ≤ 2 ^ w := Nat.pow_le_pow_right (by norm_num) (by omega)
    exact_mod_cast this
  obtain ⟨a1, a2⟩ := ha
  have b0 : 0 < |b| := abs_pos.mpr hb
  have hab : |b| ≤ 2 ^ w / 2 := by
    rw [abs_le]; omega
  have r1 : |a.tmod b| < |b| := by
    rw [Int.abs_eq_natAbs, Int.abs_eq_natAbs, Int.natAbs_tmod]
    exact_mod_cast Nat.mod_lt _ (Int.natAbs_pos.mpr hb)
  have q1 : InRange w (a.tdiv b) := by
    have := tdiv_abs_le a b
    by_cases hmin : a = -2 ^ w
    · subst hmin
      have hb1 : b ≠ -1 := by rcases hm with h | h
                              · exact h
                              · exact absurd rfl h
      have e1 := Int.tmod_add_mul_tdiv (-2 ^ w) b
      rw [abs_le] at this
      have hpos : |(-2 ^ w : Int)| = 2 ^ w := by rw [abs_neg, abs_of_pos (by linarith)]
      rw [hpos] at this
      refine ⟨by linarith [this.1], ?_⟩
      by_contra hc
      have e : (-2 ^ w : Int).tdiv b = 2 ^ w := by omega
      rw [e] at e1
      rw [abs_lt] at r1
      have : (b + 1) * 2 ^ w = -(-2 ^ w : Int).tmod b := by linarith
      rcases lt_or_gt_of_ne hb1 with hl | hl
      · have : (b + 1) * 2 ^ w ≤ -1 * 2 ^ w := by nlinarith
        have h3 : |b| ≤ 2 ^ w / 2 := hab
        omega
      · have : (1 : Int) * 2 ^ w ≤ (b + 1) * 2 ^ w := by
          have : 0 < b := by omega
          nlinarith
        omega
    · have hlt : |a| ≤ 2 ^ w - 1 := by rw [abs_le]; constructor <;> omega
      have h3 := this.trans hlt
      rw [abs_le] at h3
      exact ⟨by linarith, h3.2⟩
  have s1 : InRange w (a.tmod b + b) := by
    rw [abs_lt] at r1
    rcases abs_cases b with ⟨e, _⟩ | ⟨e, _⟩ <;> constructor <;> omega
  have q2 : InRange w ((a.tmod b + b).tdiv b) := by
    have ev : (a.tmod b + b).tdiv b = 0 ∨ |(a.tmod b + b).tdiv b| = 1 := by
      have h1 : |(a.tmod b + b)| < 2 * |b| := by
        have := abs_add_le (a.tmod b) b
        linarith
      have h2 : |(a.tmod b + b).tdiv b| ≤ 1 := by
        rw [Int.abs_eq_natAbs, Int.natAbs_tdiv]
        rw [Int.abs_eq_natAbs, Int.abs_eq_natAbs] at h1
        have h3 : (a.tmod b + b).natAbs < 2 * b.natAbs := by exact_mod_cast h1
        have : (a.tmod b + b).natAbs / b.natAbs < 2 := Nat.div_lt_of_lt_mul (by rw [Nat.mul_comm]; exact h3)
        have : (a.tmod b + b).natAbs / b.natAbs ≤ 1 := by omega
        exact_mod_cast this
      have h0 := abs_nonneg ((a.tmod b + b).tdiv b)
      rcases eq_or_lt_of_le h0 with e | e
      · left; exact abs_eq_zero.mp e.symm
      · right; omega
    rcases ev with e | e
    · rw [e]; constructor <;> omega
    · rcases abs_cases ((a.tmod b + b).tdiv b) with ⟨e', _⟩ | ⟨e', _⟩ <;> constructor <;> omega
  refine ⟨_, ?_, modulo_val (a := a)⟩
  simp [imodulo, cRem, cAdd, hb, q1, q2, s1]

example : imodulo 31 (-7) 3 = some 2 ∧ imodulo 31 7 (-3) = some (-2) ∧ imodulo 63 (-1) (2 ^ 40) = some (2 ^ 40 - 1) := by
  decide +kernel

/-- VIOLATION. For every positive `b` more than half of the type and `a = b - 1` the sum overflows. -/
theorem C19_modulo_overflow_violates (w : Nat) (b : Int) (h0 : 0 < b) (h : 2 ^ w ≤ 2 * b - 1) :
    imodulo w (b - 1) b = none := by
  have e : (b - 1).tmod b = b - 1 := Int.tmod_eq_of_lt (by omega) (by omega)
  have h2 : ¬ InRange w (b - 1 + b) := by
    rintro ⟨_, h3⟩
    omega
  simp only [imodulo, cRem, cAdd, Option.bind_eq_bind, e]
  split_ifs
  · rfl
  · rw [Option.bind_some, if_neg h2, Option.bind_none]

/-- **C19 (remainders).** `aa_iremainder` and `aa_fremainder` differ from `a` by a multiple of `b`, are less than
`b` in magnitude and never have the sign opposite to `a`. -/
theorem C19_remainder (w : Nat) (a b r : Int) (x y : ℝ) (hy : y ≠ 0) :
    (iremainder w a b = some r → (∃ k, a = b * k + r) ∧ |r| < |b| ∧ 0 ≤ a * r) ∧
    ∃ z, fremainder x y = some z ∧ (∃ k : Int, x = y * k + z) ∧ |z| < |y| ∧ 0 ≤ x * z := by
  constructor
  · intro h
    simp only [iremainder, cRem] at h
    split_ifs at h with h1
    rw [not_or] at h1
    simp only [Option.some.injEq] at h
    subst h
    refine ⟨⟨a.tdiv b, by linarith [Int.tmod_add_mul_tdiv a b]⟩, ?_, ?_⟩
    · rw [Int.abs_eq_natAbs, Int.abs_eq_natAbs, Int.natAbs_tmod]
      exact_mod_cast Nat.mod_lt _ (Int.natAbs_pos.mpr h1.1)
    · rcases le_total 0 a with h0 | h0
      · exact mul_nonneg h0 (Int.tmod_nonneg b h0)
      · have := Int.tmod_nonneg b (a := -a) (by linarith)
        rw [Int.neg_tmod] at this
        exact mul_nonneg_of_nonpos_of_nonpos h0 (by linarith)
  · have e : x - y * Scalar.trunc (x / y) = y * (x / y - Scalar.trunc (x / y)) := by field_simp
    have hb : |x / y - Scalar.trunc (x / y)| < 1 := by
      unfold Scalar.trunc
      split_ifs with h <;> rw [abs_lt] <;> constructor
      · linarith [Int.floor_le (x / y)]
      · linarith [Int.lt_floor_add_one (x / y)]
      · linarith [Int.ceil_lt_add_one (x / y)]
      · linarith [Int.le_ceil (x / y)]
    refine ⟨x - y * Scalar.trunc (x / y), by simp [fremainder, Scalar.fmod, hy], ⟨Scalar.trunc (x / y), by ring⟩, ?_, ?_⟩
    · rw [e, abs_mul]
      have := abs_pos.mpr hy
      nlinarith
    · have e2 : x * (x - y * Scalar.trunc (x / y)) = y ^ 2 * ((x / y) * (x / y - Scalar.trunc (x / y))) := by field_simp
      rw [e2]
      apply mul_nonneg (sq_nonneg y)
      unfold Scalar.trunc
      split_ifs with h
      · exact mul_nonneg h (by linarith [Int.floor_le (x / y)])
      · exact mul_nonneg_of_nonpos_of_nonpos (by linarith) (by linarith [Int.le_ceil (x / y)])

/-- `aa_imodulo( 2147483646, 2147483647 )`. -/
example : imodulo 31 2147483646 2147483647 = none := C19_modulo_overflow_violates 31 2147483647 (by norm_num) (by norm_num)

/-- VIOLATION. The least number of the type, modulo minus one. -/
theorem C19_modulo_minus_one_violates (w : Nat) : imodulo w (-2 ^ w) (-1) = none := by
  have : ¬ InRange w ((-2 ^ w : Int).tdiv (-1)) := by
    rw [Int.tdiv_neg, Int.tdiv_one]
    rintro ⟨_, h⟩
    omega
  simp only [imodulo, cRem, Option.bind_eq_bind]
  rw [if_pos (Or.inr this), Option.bind_none]

/-! ## Angles -/

/-- **C19 (angles).** Degrees and radians are inverse, and half a turn is 180 degrees. -/
theorem C19_degrees (x : ℝ) : deg2rad (rad2deg x) = x ∧ rad2deg (deg2rad x) = x ∧ rad2deg Real.pi = 180 := by
  have := Real.pi_ne_zero
  refine ⟨?_, ?_, ?_⟩ <;> simp only [deg2rad, rad2deg] <;> field_simp

end Verif.Num
