import Verif.Prop.Expv
import Verif.Prop.Conv
import Verif.Proof.LnSeries

/-!
# C71: logarithms of rotations and rigid transforms

Specification: a logarithm of the motion `f` is a twist whose flow (C32: `x' = w × x + v`) takes
every point `x` to `f x` in unit time.
-/

namespace Verif.Tf

open scoped Quaternion
open Quaternion

/-- `t` is a logarithm of the motion `f`. -/
def IsLog (t : Dx) (f : V3 → V3) : Prop := ∀ X, IsFlow t X → X 1 = f (X 0)

/-! ## The exact logarithm -/

/-- A twist along `k` from three coefficients. -/
noncomputable def twOf (k v : V3) (a m d : ℝ) : Dx :=
  ⟨gen ⟨v, k⟩ 0 0 0 m (-a / 2) d ⟨0, 0, 0⟩, vscal a k⟩

/-- The exact logarithm of a unit quaternion and translation. -/
noncomputable def logTw (E : Qutr) : Dx :=
  if vnorm E.q.vec = 0 then ⟨E.v, ⟨0, 0, 0⟩⟩
  else twOf E.q.vec E.v (2 * (qangle E.q / vnorm E.q.vec)) (E.q.w * (qangle E.q / vnorm E.q.vec))
    ((1 - E.q.w * (qangle E.q / vnorm E.q.vec)) / (vnorm E.q.vec * vnorm E.q.vec))

theorem unit_qnorm {q : Quat} (h : Unit q) : qnorm q = 1 := by
  rw [C21_qnorm]; exact (Unit.iff_norm _).1 h

/-- Angle form of a unit quaternion. -/
theorem unit_polar {q : Quat} (h : Unit q) :
    Real.sin (qangle q) = vnorm q.vec ∧ Real.cos (qangle q) = q.w ∧ 0 ≤ qangle q ∧
      qangle q ≤ Real.pi := by
  have hz : vnorm q.vec ≠ 0 ∨ q.w ≠ 0 := by
    by_contra hc
    push Not at hc
    have := unit_qnorm h
    rw [← qnorm_eq, ← vnorm_sq, hc.1, hc.2] at this
    simp at this
  obtain ⟨np, hs, hc, p0, p1⟩ := polar (vnorm q.vec) q.w (vnorm_nonneg _) hz
  rw [vnorm_sq, qnorm_eq, unit_qnorm h, one_mul] at hs hc
  exact ⟨hs, hc, p0, p1⟩

theorem unit_sq {q : Quat} (h : Unit q) : vnorm q.vec * vnorm q.vec + q.w * q.w = 1 := by
  rw [vnorm_sq]
  have : q.x ^ 2 + q.y ^ 2 + q.z ^ 2 + q.w ^ 2 = 1 := h
  simp only [vdot, Quat.vec]; linarith

theorem cross_cross (k v : V3) :
    cross k (cross k v) = vadd (vscal (vdot k v) k) (vscal (-vdot k k) v) := by
  ext <;> simp [cross, vadd, vscal, vdot] <;> ring

/-- What a point moving with the twist `twOf` is taken to, when the coefficients are exact. -/
theorem twOf_log (k v p : V3) {s c x : ℝ} (hs : s ≠ 0) (hx : x ≠ 0)
    (hk : vdot k k = s * s) (h1 : s * s + c * c = 1) :
    gen (twOf k v (2 * (x / s)) (c * (x / s)) ((1 - c * (x / s)) / (s * s)))
      (c ^ 2 - s ^ 2) (2 * (s * c) / (2 * x)) (2 * s ^ 2 / (2 * x * (2 * x)))
      (2 * (s * c) / (2 * x)) (2 * s ^ 2 / (2 * x * (2 * x)))
      ((1 - 2 * (s * c) / (2 * x)) / (2 * x * (2 * x))) p =
    vadd (vadd p (vadd (vscal (2 * c) (cross k p)) (vscal 2 (cross k (cross k p))))) v := by
  have e1 : cross k (twOf k v (2 * (x / s)) (c * (x / s)) ((1 - c * (x / s)) / (s * s))).v =
      vadd (vscal (c * (x / s)) (cross k v)) (vscal (-(x / s)) (cross k (cross k v))) := by
    ext <;> simp [twOf, gen, cross, vadd, vscal] <;> ring
  have e2 : vdot k (twOf k v (2 * (x / s)) (c * (x / s)) ((1 - c * (x / s)) / (s * s))).v =
      vdot k v := by
    have : vdot k (twOf k v (2 * (x / s)) (c * (x / s)) ((1 - c * (x / s)) / (s * s))).v =
        c * (x / s) * vdot k v + (1 - c * (x / s)) / (s * s) * vdot k v * vdot k k := by
      simp [twOf, gen, cross, vadd, vscal, vdot]; ring
    rw [this, hk]; field_simp; ring
  have e3 : ∀ y, cross (vscal (2 * (x / s)) k) y = vscal (2 * (x / s)) (cross k y) := by
    intro y; ext <;> simp [cross, vscal] <;> ring
  have e4 : ∀ y, vdot (vscal (2 * (x / s)) k) y = 2 * (x / s) * vdot k y := by
    intro y; simp [vdot, vscal]; ring
  have ew : (twOf k v (2 * (x / s)) (c * (x / s)) ((1 - c * (x / s)) / (s * s))).w =
    vscal (2 * (x / s)) k := rfl
  rw [gen, ew, e3, e3, e4, e4, e1, e2, cross_cross, cross_cross, hk]
  have ev : (twOf k v (2 * (x / s)) (c * (x / s)) ((1 - c * (x / s)) / (s * s))).v =
      vadd (vscal (c * (x / s)) v) (vadd (vscal (-(x / s)) (cross k v))
        (vscal ((1 - c * (x / s)) / (s * s) * vdot k v) k)) := by
    ext <;> simp [twOf, gen, vadd, vscal] <;> ring
  rw [ev]
  generalize cross k v = kv
  generalize cross k p = kp
  generalize vdot k v = dv
  generalize vdot k p = dp
  have hc : c * c = 1 - s * s := by linarith
  have key : ∀ vi ki kvi pi kpi : ℝ,
      (c ^ 2 - s ^ 2) * pi + (2 * (s * c) / (2 * x) * (2 * (x / s) * kpi) +
        2 * s ^ 2 / (2 * x * (2 * x)) * (2 * (x / s) * dp) * (2 * (x / s) * ki)) +
      (2 * (s * c) / (2 * x) * (c * (x / s) * vi + (-(x / s) * kvi +
          (1 - c * (x / s)) / (s * s) * dv * ki)) +
        (2 * s ^ 2 / (2 * x * (2 * x)) * (2 * (x / s) * (c * (x / s) * kvi +
            -(x / s) * (dv * ki + -(s * s) * vi))) +
          (1 - 2 * (s * c) / (2 * x)) / (2 * x * (2 * x)) * (2 * (x / s) * dv) *
            (2 * (x / s) * ki))) =
      pi + (2 * c * kpi + 2 * (dp * ki + -(s * s) * pi)) + vi := by
    intro vi ki kvi pi kpi
    field_simp
    linear_combination x * (s * s * pi + s * s * vi - dv * ki) * hc
  ext
  · simp only [vadd, vscal]; exact key _ _ _ _ _
  · simp only [vadd, vscal]; exact key _ _ _ _ _
  · simp only [vadd, vscal]; exact key _ _ _ _ _

theorem qutrTf_cross (E : Qutr) (p : V3) : qutrTf E p =
    vadd (vadd p (vadd (vscal (2 * E.q.w) (cross E.q.vec p))
      (vscal 2 (cross E.q.vec (cross E.q.vec p))))) E.v := by
  ext <;> simp [qutrTf, vadd, vscal, cross, Quat.vec] <;> ring

theorem logTw_w {E : Qutr} (hE : E.Valid) (h0 : vnorm E.q.vec ≠ 0) :
    vnorm (logTw E).w = 2 * qangle E.q ∧ 0 < qangle E.q ∧ qangle E.q < Real.pi := by
  obtain ⟨hs, hc, p0, p1⟩ := unit_polar hE
  have hx0 : 0 < qangle E.q := lt_of_le_of_ne p0 (by
    intro h; rw [← h, Real.sin_zero] at hs; exact h0 hs.symm)
  have hx1 : qangle E.q < Real.pi := lt_of_le_of_ne p1 (by
    intro h; rw [h, Real.sin_pi] at hs; exact h0 hs.symm)
  have hp : 0 < vnorm E.q.vec := lt_of_le_of_ne (vnorm_nonneg _) h0.symm
  refine ⟨?_, hx0, hx1⟩
  rw [logTw, if_neg h0]
  show vnorm (vscal _ _) = _
  rw [vnorm_vscal, abs_of_pos (by positivity)]
  field_simp

/-- The exact logarithm is one, at every unit quaternion but -1. -/
theorem logTw_isLog (E : Qutr) (hE : E.Valid) (h : vnorm E.q.vec ≠ 0 ∨ 0 < E.q.w) :
    IsLog (logTw E) (qutrTf E) := by
  intro X hX
  by_cases h0 : vnorm E.q.vec = 0
  · have hw : 0 < E.q.w := by tauto
    have hv := vnorm_eq_zero h0
    have e : logTw E = ⟨E.v, ⟨0, 0, 0⟩⟩ := by rw [logTw, if_pos h0]
    rw [e] at hX
    have := flow_closed _ _ hX 1
    rw [this, qutrTf_cross, hv]
    have h00 : vnorm (⟨0, 0, 0⟩ : V3) = 0 := by simp [vnorm, vdot]
    ext <;> simp [gen, h00, vadd, vscal, cross]
  · obtain ⟨hs, hc, p0, p1⟩ := unit_polar hE
    obtain ⟨hn, hx0, hx1⟩ := logTw_w hE h0
    have := flow_one _ _ hX (by rw [hn]; positivity)
    rw [this, hn, qutrTf_cross]
    obtain ⟨t1, t2, t3⟩ := half_trig (x := qangle E.q)
    rw [t3, t1, t2, hs, hc, logTw, if_neg h0]
    exact twOf_log _ _ _ h0 hx0.ne' (vnorm_sq _).symm (unit_sq hE)

/-! ## Errors of coefficients -/

theorem twOf_err (k v : V3) (a m d a' m' d' : ℝ) :
    ‖(twOf k v a m d).w.pure - (twOf k v a' m' d').w.pure‖ ≤ |a - a'| * vnorm k ∧
    ‖(twOf k v a m d).v.pure - (twOf k v a' m' d').v.pure‖ ≤
      (|m - m'| + |a - a'| * vnorm k + |d - d'| * (vnorm k * vnorm k)) * vnorm v := by
  have hk := vnorm_nonneg k
  constructor
  · have e : (twOf k v a m d).w.pure - (twOf k v a' m' d').w.pure = (a - a') • k.pure := by
      ext <;> simp [twOf, vscal] <;> ring
    rw [e, norm_smul, Real.norm_eq_abs, norm_pure]
  · refine (gen_err ⟨v, k⟩ ⟨0, 0, 0⟩ 0 0 0 m (-a / 2) d 0 0 0 m' (-a' / 2) d').trans ?_
    have e1 : |(-a / 2 - -a' / 2) * vnorm k| ≤ |a - a'| * vnorm k := by
      rw [abs_mul, abs_of_nonneg hk]
      apply mul_le_mul_of_nonneg_right _ hk
      have : -a / 2 - -a' / 2 = -(a - a') / 2 := by ring
      rw [this, abs_div, abs_neg, abs_two]
      linarith [abs_nonneg (a - a')]
    have e2 : |(d - d') * (vnorm k * vnorm k)| = |d - d'| * (vnorm k * vnorm k) := by
      rw [abs_mul, abs_of_nonneg (mul_nonneg hk hk)]
    have hz : vnorm (⟨0, 0, 0⟩ : V3) = 0 := by simp [vnorm, vdot]
    simp only [hz, mul_zero, zero_add]
    apply mul_le_mul_of_nonneg_right _ (vnorm_nonneg v)
    rw [e2]; linarith

open Taylor in
/-- The series used for `(1 - x cot x) / x²`. -/
theorem cot_series {x : ℝ} (h0 : 0 < x) (h1 : x ≤ 1 / 8) :
    |1 - x * x * horner3 (x * x) (1 / 3) (1 / 45) (2 / 945) - x * Real.cos x / Real.sin x| ≤
      x ^ 6 := by
  have hx := h0.le
  have hh := sin_half hx h1
  have hs : 0 < Real.sin x := by linarith
  have s7 := sin_ge7 hx
  have s9 := sin_le9 hx
  have c6 := cos_ge6 hx
  have c8 := cos_le8 hx
  set H := 1 - x * x * horner3 (x * x) (1 / 3) (1 / 45) (2 / 945) with hH
  have H1 : 0 ≤ H ∧ H ≤ 1 := by
    have a2 : x * x ≤ 1 / 64 := by nlinarith
    have a0 : 0 ≤ x * x := by positivity
    have b0 : 0 ≤ horner3 (x * x) (1 / 3) (1 / 45) (2 / 945) := by rw [horner3]; positivity
    have b1 : horner3 (x * x) (1 / 3) (1 / 45) (2 / 945) ≤ 1 := by
      rw [horner3]; nlinarith
    constructor <;> nlinarith
  have e : H - x * Real.cos x / Real.sin x = (H * Real.sin x - x * Real.cos x) / Real.sin x := by
    field_simp
  rw [e, abs_div, abs_of_pos hs, div_le_iff₀ hs]
  have hr : x ^ 7 / 2 ≤ x ^ 6 * Real.sin x := by nlinarith [pow_pos h0 6]
  refine le_trans ?_ hr
  have m1 := mul_le_mul_of_nonneg_left s7 H1.1
  have m2 := mul_le_mul_of_nonneg_left s9 H1.1
  have m3 := mul_le_mul_of_nonneg_left c6 hx
  have m4 := mul_le_mul_of_nonneg_left c8 hx
  have hHe : H = 1 - x ^ 2 / 3 - x ^ 4 / 45 - 2 * x ^ 6 / 945 := by rw [hH, horner3]; ring
  have p9 : x ^ 9 ≤ x ^ 7 / 64 := by
    have : x ^ 9 = x ^ 7 * (x * x) := by ring
    nlinarith [pow_pos h0 7]
  have p11 : x ^ 11 ≤ x ^ 9 := pow_le_pow_of_le_one hx (by linarith) (by norm_num)
  have p13 : x ^ 13 ≤ x ^ 9 := pow_le_pow_of_le_one hx (by linarith) (by norm_num)
  have p15 : x ^ 15 ≤ x ^ 9 := pow_le_pow_of_le_one hx (by linarith) (by norm_num)
  have z7 := pow_pos h0 7
  have z9 := pow_pos h0 9
  have z11 := pow_pos h0 11
  have z13 := pow_pos h0 13
  have z15 := pow_pos h0 15
  rw [abs_le]
  rw [hHe] at m1 m2 ⊢
  constructor
  · have : (1 - x ^ 2 / 3 - x ^ 4 / 45 - 2 * x ^ 6 / 945) *
        (x - x ^ 3 / 6 + x ^ 5 / 120 - x ^ 7 / 5040) -
        x * (1 - x ^ 2 / 2 + x ^ 4 / 24 - x ^ 6 / 720 + x ^ 8 / 40320) ≥ -(x ^ 7 / 2) := by
      ring_nf; linarith
    linarith
  · have : (1 - x ^ 2 / 3 - x ^ 4 / 45 - 2 * x ^ 6 / 945) *
        (x - x ^ 3 / 6 + x ^ 5 / 120 - x ^ 7 / 5040 + x ^ 9 / 362880) -
        x * (1 - x ^ 2 / 2 + x ^ 4 / 24 - x ^ 6 / 720) ≤ x ^ 7 / 2 := by
      ring_nf; linarith
    linarith

/-- Error of the coefficient of `(k · v) k`, from that of the coefficient of `k`. -/
theorem series_err {x i : ℝ} (h0 : 0 < x) (h1 : x ≤ 1 / 8)
    (hi : |i - x / Real.sin x| ≤ 64 * x ^ 6) :
    |horner3 (x * x) (1 / 3) (1 / 45) (2 / 945) * (i * i) -
      (1 - Real.cos x * (x / Real.sin x)) / (Real.sin x * Real.sin x)| *
      (Real.sin x * Real.sin x) ≤ 400 * x ^ 6 := by
  have hx := h0.le
  have hh := Taylor.sin_half hx h1
  have hs : 0 < Real.sin x := by linarith
  have hsx : Real.sin x ≤ x := Real.sin_le hx
  have hc := cot_series h0 h1
  have a2 : x * x ≤ 1 / 64 := by nlinarith
  have b0 : 0 ≤ horner3 (x * x) (1 / 3) (1 / 45) (2 / 945) := by rw [horner3]; positivity
  have b1 : horner3 (x * x) (1 / 3) (1 / 45) (2 / 945) ≤ 1 / 2 := by
    rw [horner3]; nlinarith [mul_nonneg hx hx]
  generalize horner3 (x * x) (1 / 3) (1 / 45) (2 / 945) = h at *
  have e1 : Real.cos x * (x / Real.sin x) = x * Real.cos x / Real.sin x := by ring
  rw [e1]
  generalize x * Real.cos x / Real.sin x = m at *
  set s := Real.sin x with hsd
  have he : x / s ≤ 2 := by rw [div_le_iff₀ hs]; linarith
  have he0 : 0 < x / s := by positivity
  have p6 : 64 * x ^ 6 ≤ 1 := by
    have : x ^ 6 ≤ (1 / 8) ^ 6 := pow_le_pow_left₀ hx h1 6
    norm_num at this ⊢; linarith
  have hi2 : |i| ≤ 3 := by
    rw [abs_le] at hi ⊢
    constructor <;> linarith
  rw [← abs_of_pos (mul_pos hs hs), ← abs_mul, abs_of_pos (mul_pos hs hs)]
  have e2 : (h * (i * i) - (1 - m) / (s * s)) * (s * s) =
      h * ((i - x / s) * (i + x / s)) * (s * s) - (1 - x * x * h - m) := by
    field_simp; ring
  rw [e2]
  have t1 : |h * ((i - x / s) * (i + x / s)) * (s * s)| ≤ 1 / 2 * (64 * x ^ 6 * 5) * 1 := by
    rw [abs_mul, abs_mul, abs_mul, abs_of_nonneg b0, abs_of_pos (mul_pos hs hs)]
    have q1 : |i + x / s| ≤ 5 := by
      refine (abs_add_le _ _).trans ?_
      rw [abs_of_pos he0]; linarith
    have q2 : s * s ≤ 1 := by nlinarith
    exact mul_le_mul (mul_le_mul b1 (mul_le_mul hi q1 (abs_nonneg _) (by positivity))
      (by positivity) (by norm_num)) q2 (by positivity) (by positivity)
  refine (abs_sub _ _).trans ?_
  have := pow_pos h0 6
  linarith

theorem atan2_zero {w : ℝ} (h : 0 < w) : atan2 0 w = 0 := by
  rw [atan2]; exact Complex.arg_ofReal_of_nonneg h.le

/-! ## Quaternion-translation -/

/-- The code's twist of half the motion, doubled. -/
noncomputable def Dx.dbl (t : Dx) : Dx := ⟨vscal 2 t.v, vscal 2 t.w⟩

theorem qutrLnv_eq (E : Qutr) : (qutrLnv E).map Dx.dbl =
    (qvLnvCoef E.q).map fun k => twOf E.q.vec E.v (2 * k.1) k.2.1 (k.2.2 * (k.1 * k.1)) := by
  rw [qutrLnv, Option.map_map]
  congr 1
  funext k
  obtain ⟨a, b, c⟩ := k
  ext <;> simp [Dx.dbl, twOf, gen, vscal, vadd, cross, vdot] <;> ring

/-- Series coefficients against the exact logarithm. -/
theorem logTw_close {E : Qutr} (hE : E.Valid) (h0 : vnorm E.q.vec ≠ 0) {i m : ℝ}
    (h1 : qangle E.q ≤ 1 / 8) (hi : |i - qangle E.q / Real.sin (qangle E.q)| ≤ 64 * qangle E.q ^ 6)
    (hm : |m - E.q.w * (qangle E.q / vnorm E.q.vec)| ≤ 400 * qangle E.q ^ 6) :
    let r := twOf E.q.vec E.v (2 * i) m
      (horner3 (qangle E.q * qangle E.q) (1 / 3) (1 / 45) (2 / 945) * (i * i))
    ‖r.w.pure - (logTw E).w.pure‖ ≤ 128 * qangle E.q ^ 6 ∧
    ‖r.v.pure - (logTw E).v.pure‖ ≤ 1000 * qangle E.q ^ 6 * vnorm E.v := by
  intro r
  obtain ⟨hs, hc, p0, p1⟩ := unit_polar hE
  obtain ⟨-, hx0, hx1⟩ := logTw_w hE h0
  have hd := series_err hx0 h1 hi
  obtain ⟨a, b⟩ := twOf_err E.q.vec E.v (2 * i) m
    (horner3 (qangle E.q * qangle E.q) (1 / 3) (1 / 45) (2 / 945) * (i * i))
    (2 * (qangle E.q / vnorm E.q.vec)) (E.q.w * (qangle E.q / vnorm E.q.vec))
    ((1 - E.q.w * (qangle E.q / vnorm E.q.vec)) / (vnorm E.q.vec * vnorm E.q.vec))
  rw [logTw, if_neg h0]
  rw [hs, hc] at hd
  rw [hs] at hi
  have hn1 : vnorm E.q.vec ≤ 1 := by rw [← hs]; exact Real.sin_le_one _
  have hw : |2 * i - 2 * (qangle E.q / vnorm E.q.vec)| * vnorm E.q.vec ≤ 128 * qangle E.q ^ 6 := by
    rw [← mul_sub, abs_mul, abs_two]
    have := mul_le_mul hi hn1 (vnorm_nonneg _) (by positivity)
    linarith
  refine ⟨a.trans hw, b.trans ?_⟩
  apply mul_le_mul_of_nonneg_right _ (vnorm_nonneg _)
  have : 0 ≤ qangle E.q ^ 6 := by positivity
  linarith

theorem qangle_zero {q : Quat} (h0 : vnorm q.vec = 0) (hw : 0 < q.w) : qangle q = 0 := by
  rw [qangle, h0, atan2_zero hw]

theorem twOf_zero {k : V3} (h0 : vnorm k = 0) (v : V3) (a d : ℝ) :
    twOf k v a 1 d = ⟨v, ⟨0, 0, 0⟩⟩ := by
  rw [vnorm_eq_zero h0]
  ext <;> simp [twOf, gen, vadd, vscal, cross]

theorem logTw_norm {E : Qutr} (hE : E.Valid) (h : vnorm E.q.vec ≠ 0 ∨ 0 < E.q.w) :
    vnorm (logTw E).w = 2 * qangle E.q := by
  by_cases h0 : vnorm E.q.vec = 0
  · rw [qangle_zero h0 (by tauto), logTw, if_pos h0]; simp [vnorm, vdot]
  · exact (logTw_w hE h0).1

theorem pow_six {x c : ℝ} (h0 : 0 ≤ x) (h : x ≤ 1 / 2 ^ 26) (hc : c ≤ 1000) :
    c * x ^ 6 ≤ 1 / 2 ^ 100 := by
  have : x ^ 6 ≤ (1 / 2 ^ 26) ^ 6 := pow_le_pow_left₀ h0 h 6
  have h6 : 0 ≤ x ^ 6 := by positivity
  norm_num at *
  nlinarith

/-- The value of the code against the exact logarithm. -/
theorem qutr_lnv_log (E : Qutr) (hE : E.Valid) (h : vnorm E.q.vec ≠ 0 ∨ 0 < E.q.w) :
    ∃ r, (qutrLnv E).map Dx.dbl = some r ∧ (1 / 2 ^ 26 ≤ qangle E.q → r = logTw E) ∧
      ‖r.w.pure - (logTw E).w.pure‖ ≤ 1 / 2 ^ 100 ∧
      ‖r.v.pure - (logTw E).v.pure‖ ≤ 1 / 2 ^ 100 * vnorm E.v := by
  obtain ⟨hs, hc, p0, p1⟩ := unit_polar hE
  have hq : atan2 (vnorm E.q.vec) E.q.w = qangle E.q := rfl
  rw [qutrLnv_eq]
  by_cases hb : qangle E.q < 1 / 2 ^ 26
  · have ek : qvLnvCoef E.q = some (invsincSeries2 (qangle E.q * qangle E.q),
        1 - horner3 (qangle E.q * qangle E.q) (1 / 3) (1 / 45) (2 / 945) * (qangle E.q * qangle E.q),
        horner3 (qangle E.q * qangle E.q) (1 / 3) (1 / 45) (2 / 945)) := by
      simp only [qvLnvCoef, hq, sqrt_eps, if_pos hb]
    rw [ek]
    refine ⟨_, rfl, fun hc => absurd hb (not_lt.2 hc), ?_⟩
    by_cases h0 : vnorm E.q.vec = 0
    · simp only [qangle_zero h0 (by tauto), mul_zero, sub_zero]
      rw [twOf_zero h0, logTw, if_pos h0]
      simp only [sub_self, norm_zero]
      exact ⟨by positivity, mul_nonneg (by positivity) (vnorm_nonneg _)⟩
    · obtain ⟨-, hx0, hx1⟩ := logTw_w hE h0
      have h8 : qangle E.q ≤ 1 / 8 := by norm_num at *; linarith
      have h6 : 0 ≤ qangle E.q ^ 6 := by positivity
      have e1 := eta_series hx0 h8
      have e2 := cot_series hx0 h8
      rw [hs, hc] at e2
      obtain ⟨a, b⟩ := logTw_close hE h0 h8 (e1.trans (by linarith))
        (m := 1 - horner3 (qangle E.q * qangle E.q) (1 / 3) (1 / 45) (2 / 945) *
          (qangle E.q * qangle E.q)) (by
          have : 1 - horner3 (qangle E.q * qangle E.q) (1 / 3) (1 / 45) (2 / 945) *
            (qangle E.q * qangle E.q) - E.q.w * (qangle E.q / vnorm E.q.vec) =
            1 - qangle E.q * qangle E.q * horner3 (qangle E.q * qangle E.q) (1 / 3) (1 / 45) (2 / 945) -
              qangle E.q * E.q.w / vnorm E.q.vec := by ring
          rw [this]; linarith)
      refine ⟨a.trans (pow_six hx0.le hb.le (by norm_num)), b.trans ?_⟩
      exact mul_le_mul_of_nonneg_right (pow_six hx0.le hb.le (by norm_num)) (vnorm_nonneg _)
  · have h0 : vnorm E.q.vec ≠ 0 := by
      intro h0
      rw [qangle_zero h0 (by tauto)] at hb
      norm_num at hb
    obtain ⟨-, hx0, hx1⟩ := logTw_w hE h0
    have ek : qvLnvCoef E.q = some (qangle E.q / vnorm E.q.vec,
        E.q.w * (qangle E.q / vnorm E.q.vec),
        (1 - E.q.w * (qangle E.q / vnorm E.q.vec)) / (qangle E.q * qangle E.q)) := by
      simp only [qvLnvCoef, hq, sqrt_eps, if_neg hb, if_neg h0]
    have er : twOf E.q.vec E.v (2 * (qangle E.q / vnorm E.q.vec))
        (E.q.w * (qangle E.q / vnorm E.q.vec))
        ((1 - E.q.w * (qangle E.q / vnorm E.q.vec)) / (qangle E.q * qangle E.q) *
          (qangle E.q / vnorm E.q.vec * (qangle E.q / vnorm E.q.vec))) = logTw E := by
      rw [logTw, if_neg h0]
      congr 1
      field_simp
    rw [ek, Option.map_some]
    simp only [er]
    refine ⟨_, rfl, fun _ => rfl, ?_⟩
    simp only [sub_self, norm_zero]
    exact ⟨by positivity, mul_nonneg (by positivity) (vnorm_nonneg _)⟩

/-- **C71**, `aa_tf_qutr_lnv` (`aa_tf_qv_lnv`): for every transform whose quaternion is not -1 the
result is half of a logarithm, of angle at most π for the quaternion: exactly from angle 2^-25 on,
and to within 2^-100 (times the translation) below. -/
theorem C71_qutr_lnv_partial (E : Qutr) (hE : E.Valid) (h : vnorm E.q.vec ≠ 0 ∨ 0 < E.q.w) :
    ∃ r L, (qutrLnv E).map Dx.dbl = some r ∧ IsLog L (qutrTf E) ∧ vnorm L.w = 2 * qangle E.q ∧
      (1 / 2 ^ 26 ≤ qangle E.q → r = L) ∧
      ‖r.w.pure - L.w.pure‖ ≤ 1 / 2 ^ 100 ∧ ‖r.v.pure - L.v.pure‖ ≤ 1 / 2 ^ 100 * vnorm E.v := by
  obtain ⟨r, h1, h2, h3, h4⟩ := qutr_lnv_log E hE h
  exact ⟨r, logTw E, h1, logTw_isLog E hE h, logTw_norm hE h, h2, h3, h4⟩

theorem qangle_neg_one : qangle ⟨0, 0, 0, -1⟩ = Real.pi := by
  have hv : vnorm (⟨0, 0, 0⟩ : V3) = 0 := by simp [vnorm, vdot]
  have : (⟨-1, 0⟩ : ℂ) = ((-1 : ℝ) : ℂ) := rfl
  simp only [qangle, Quat.vec, hv, atan2]
  rw [this, Complex.arg_ofReal_of_neg (by norm_num)]

/-- The quaternion -1 is the identity rotation, and the code divides by zero. -/
theorem C71_violates_qutr_neg_one :
    Qutr.Valid ⟨⟨0, 0, 0, -1⟩, ⟨1, 2, 3⟩⟩ ∧ qutrLnv ⟨⟨0, 0, 0, -1⟩, ⟨1, 2, 3⟩⟩ = none := by
  have hv : vnorm (⟨0, 0, 0⟩ : V3) = 0 := by simp [vnorm, vdot]
  have ha : atan2 0 (-1) = Real.pi := by
    have := qangle_neg_one
    simpa only [qangle, Quat.vec, hv] using this
  refine ⟨by norm_num [Qutr.Valid, Unit], ?_⟩
  have hp : ¬ Real.pi < 1 / 2 ^ 26 := by
    have := Real.pi_gt_three
    norm_num; linarith
  simp only [qutrLnv, qvLnvCoef, Quat.vec, hv, ha, sqrt_eps, if_neg hp, if_true, Option.map_none]

/-! ## Dual quaternions -/

/-- The twist in the vector parts of a dual quaternion, doubled. -/
noncomputable def Duqu.tw (r : Duqu) : Dx := ⟨vscal 2 r.dual.vec, vscal 2 r.real.vec⟩

theorem duqu_dual {S : Duqu} (h : S.Valid) :
    S.dual = qmulVQ (vscal (1 / 2) (duquTrans S)) S.real := by
  apply Quat.den_inj
  rw [(C21_vector_products _ _).1, vscal_pure, C26_actions.2.2.2 _ h, smul_smul, smul_mul_assoc,
    mul_assoc, (den_unit_mul h.1).2]
  norm_num

/-- A pure dual quaternion from the two coefficients of the logarithm. -/
noncomputable def duquOf (S : Duqu) (k z : ℝ) : Duqu :=
  ⟨⟨k * S.real.x, k * S.real.y, k * S.real.z, 0⟩,
    ⟨(vdot S.real.vec S.dual.vec * z - S.dual.w) * S.real.x + k * S.dual.x,
      (vdot S.real.vec S.dual.vec * z - S.dual.w) * S.real.y + k * S.dual.y,
      (vdot S.real.vec S.dual.vec * z - S.dual.w) * S.real.z + k * S.dual.z, 0⟩⟩

theorem duquOf_tw {S : Duqu} (h : S.Valid) (k z : ℝ) : (duquOf S k z).tw =
    twOf S.real.vec (duquTrans S) (2 * k) (S.real.w * k) (S.real.w * z + 1) := by
  have hd := duqu_dual h
  generalize duquTrans S = v at *
  obtain ⟨⟨x, y, z', w⟩, d⟩ := S
  simp only at hd
  subst hd
  obtain ⟨a, b, c⟩ := v
  simp only [duquOf, Duqu.tw, twOf, gen, vscal, vadd, cross, vdot, qmulVQ, Quat.vec, Dx.mk.injEq,
    V3.mk.injEq]
  refine ⟨⟨?_, ?_, ?_⟩, ?_, ?_, ?_⟩ <;> ring

theorem unit_qvv {q : Quat} (h : Unit q) :
    qvv q = vnorm q.vec * vnorm q.vec ∧ qqq q = 1 := by
  have ev : qvv q = vnorm q.vec * vnorm q.vec := by
    rw [vnorm_sq]; simp only [qvv, vdot, Quat.vec]
  exact ⟨ev, by rw [qqq, ev]; exact unit_sq h⟩

theorem duquLn_eq {S : Duqu} (h : S.Valid) : duquLn S =
    if qangle S.real < dblEpsilon then some (duquOf S (etaS S.real) (zetaS S.real))
    else if vnorm S.real.vec = 0 then none
    else some (duquOf S (lnEta S.real) (lnZeta S.real)) := by
  obtain ⟨ev, eq⟩ := unit_qvv h.1
  have hm1 : vdot S.real.vec S.real.vec + S.real.w * S.real.w = 1 := by
    rw [← vnorm_sq]; exact unit_sq h.1
  have hgd : vdot S.real.vec S.dual.vec + S.real.w * S.dual.w = 0 := by
    have := h.2
    simp only [vdot, Quat.vec, qdot] at *; linarith
  have hq : atan2 (vnorm S.real.vec) S.real.w = qangle S.real := rfl
  have hn : Real.sqrt (vdot S.real.vec S.real.vec) = vnorm S.real.vec := rfl
  have e0 : (vdot S.real.vec S.real.vec = 0) = (vnorm S.real.vec = 0) := by
    rw [← vnorm_sq]; simp
  simp only [duquLn, hm1, hgd, hn, hq, Real.sqrt_one, Real.log_one, e0, etaS, zetaS, lnEta, lnZeta,
    eq, ev, vnorm_sq, unit_qnorm h.1, duquOf, div_one, mul_one, one_ne_zero, if_false]

theorem logTw_zeta {E : Qutr} (hE : E.Valid) (h0 : vnorm E.q.vec ≠ 0) :
    logTw E = twOf E.q.vec E.v (2 * lnEta E.q) (E.q.w * lnEta E.q) (E.q.w * lnZeta E.q + 1) := by
  obtain ⟨ev, eq⟩ := unit_qvv hE
  have hs := unit_sq hE
  have e : E.q.w * lnZeta E.q + 1 = (1 - E.q.w * lnEta E.q) / (vnorm E.q.vec * vnorm E.q.vec) := by
    rw [lnZeta, ev, eq]
    field_simp
    nlinarith
  rw [e, logTw, if_neg h0]
  rfl

/-- **C71**, `aa_tf_duqu_ln`: for every unit dual quaternion whose real part is not -1 the result is
pure and its vector parts are half of a logarithm: exactly from angle 2^-51 on, and to within
2^-100 (times the translation) below. -/
theorem C71_duqu_ln_partial (S : Duqu) (hS : S.Valid) (h : vnorm S.real.vec ≠ 0 ∨ 0 < S.real.w) :
    ∃ r L, duquLn S = some r ∧ r.real.w = 0 ∧ r.dual.w = 0 ∧ IsLog L (duquTf S) ∧
      vnorm L.w = 2 * qangle S.real ∧ (dblEpsilon ≤ qangle S.real → r.tw = L) ∧
      ‖r.tw.w.pure - L.w.pure‖ ≤ 1 / 2 ^ 100 ∧
      ‖r.tw.v.pure - L.v.pure‖ ≤ 1 / 2 ^ 100 * vnorm (duquTrans S) := by
  have hE : (duqu2qutr S).Valid := hS.1
  have hlog := logTw_isLog (duqu2qutr S) hE h
  have htf : qutrTf (duqu2qutr S) = duquTf S := by
    funext p; exact (C26_point.2.1 S p hS).symm
  rw [htf] at hlog
  have hnorm := logTw_norm hE h
  obtain ⟨hs, hc, p0, p1⟩ := unit_polar hS.1
  have hv0 := vnorm_nonneg (duquTrans S)
  rw [duquLn_eq hS]
  by_cases hb : qangle S.real < dblEpsilon
  · refine ⟨duquOf S (etaS S.real) (zetaS S.real), logTw (duqu2qutr S), by rw [if_pos hb], rfl, rfl,
      hlog, hnorm, fun hc => absurd hb (not_lt.2 hc), ?_⟩
    rw [duquOf_tw hS]
    by_cases h0 : vnorm S.real.vec = 0
    · have hw : S.real.w = 1 := by
        have := unit_sq hS.1
        have h' : 0 < S.real.w := by tauto
        rw [h0] at this
        nlinarith
      have hx := qangle_zero h0 (by tauto)
      have he : etaS S.real = 1 := by
        rw [etaS, unit_qnorm hS.1, hx]; norm_num [invsincSeries2, horner3]
      rw [hw, he, mul_one, mul_one, twOf_zero h0, logTw]
      have h0' : vnorm (duqu2qutr S).q.vec = 0 := h0
      rw [if_pos h0', sub_self, norm_zero]
      refine ⟨by positivity, ?_⟩
      show ‖(duquTrans S).pure - (duquTrans S).pure‖ ≤ _
      rw [sub_self, norm_zero]; positivity
    · obtain ⟨c1, c2, -, -⟩ := coef_close h0 hb
      rw [unit_qnorm hS.1, div_one] at c1 c2
      rw [(unit_qvv hS.1).1] at c2
      obtain ⟨a, b⟩ := twOf_err S.real.vec (duquTrans S) (2 * etaS S.real) (S.real.w * etaS S.real)
        (S.real.w * zetaS S.real + 1) (2 * lnEta S.real) (S.real.w * lnEta S.real)
        (S.real.w * lnZeta S.real + 1)
      have hL : logTw (duqu2qutr S) = twOf S.real.vec (duquTrans S) (2 * lnEta S.real)
        (S.real.w * lnEta S.real) (S.real.w * lnZeta S.real + 1) := logTw_zeta hE h0
      rw [hL]
      have hw : |S.real.w| ≤ 1 := by rw [← hc]; exact Real.abs_cos_le_one _
      have hk : vnorm S.real.vec ≤ 1 := by rw [← hs]; exact Real.sin_le_one _
      have hk0 := vnorm_nonneg S.real.vec
      have f1 : |2 * etaS S.real - 2 * lnEta S.real| * vnorm S.real.vec ≤ 2 / 2 ^ 102 := by
        rw [← mul_sub, abs_mul, abs_two]
        have := mul_le_mul c1 hk hk0 (by positivity)
        linarith
      have f2 : |S.real.w * etaS S.real - S.real.w * lnEta S.real| ≤ 1 / 2 ^ 102 := by
        rw [← mul_sub, abs_mul]
        have := mul_le_mul hw c1 (abs_nonneg _) zero_le_one
        linarith
      have f3 : |S.real.w * zetaS S.real + 1 - (S.real.w * lnZeta S.real + 1)| *
          (vnorm S.real.vec * vnorm S.real.vec) ≤ 1 / 2 ^ 102 := by
        rw [add_sub_add_right_eq_sub, ← mul_sub, abs_mul]
        have := mul_le_mul hw c2 (by positivity) zero_le_one
        linarith
      refine ⟨a.trans (f1.trans (by norm_num)), b.trans (mul_le_mul_of_nonneg_right ?_ hv0)⟩
      norm_num at *
      linarith
  · have h0 : vnorm S.real.vec ≠ 0 := by
      intro h0
      rw [qangle_zero h0 (by tauto)] at hb
      exact hb (by rw [dblEpsilon]; positivity)
    have e : (duquOf S (lnEta S.real) (lnZeta S.real)).tw = logTw (duqu2qutr S) := by
      rw [duquOf_tw hS]; exact (logTw_zeta hE h0).symm
    refine ⟨duquOf S (lnEta S.real) (lnZeta S.real), logTw (duqu2qutr S), ?_, rfl, rfl,
      hlog, hnorm, fun _ => e, ?_, ?_⟩
    · rw [if_neg hb, if_neg h0]
    · rw [e, sub_self, norm_zero]; positivity
    · rw [e, sub_self, norm_zero]; positivity

/-- The dual quaternion with real part -1 is a translation, and the code divides by zero. -/
theorem C71_violates_duqu_neg_one :
    Duqu.Valid ⟨⟨0, 0, 0, -1⟩, ⟨1, 2, 3, 0⟩⟩ ∧ duquLn ⟨⟨0, 0, 0, -1⟩, ⟨1, 2, 3, 0⟩⟩ = none := by
  have hv : Duqu.Valid ⟨⟨0, 0, 0, -1⟩, ⟨1, 2, 3, 0⟩⟩ := by
    norm_num [Duqu.Valid, Unit, qdot]
  have hn : vnorm (⟨0, 0, 0⟩ : V3) = 0 := by simp [vnorm, vdot]
  refine ⟨hv, ?_⟩
  rw [duquLn_eq hv]
  have hp : ¬ qangle ⟨0, 0, 0, -1⟩ < dblEpsilon := by
    have := Real.pi_gt_three
    rw [qangle_neg_one, dblEpsilon]
    norm_num; linarith
  simp only [if_neg hp, Quat.vec, hn, if_true]

/-! ## Rotation and transformation matrices -/

/-- The vector and trace of the rotation matrix of a unit quaternion. -/
theorem rotmat_parts {q : Quat} {R : M3} (hq : Unit q) (hR : quat2rotmat q = R) :
    (⟨R.m5 - R.m7, R.m6 - R.m2, R.m1 - R.m3⟩ : V3) = vscal (4 * q.w) q.vec ∧
    (R.m0 + R.m4 + R.m8 - 1) / 2 = 2 * (q.w * q.w) - 1 := by
  subst hR
  have hw : q.x ^ 2 + q.y ^ 2 + q.z ^ 2 + q.w ^ 2 = 1 := hq
  constructor
  · simp only [quat2rotmat, skewsymScalC, vscal, Quat.vec, V3.mk.injEq]
    refine ⟨?_, ?_, ?_⟩ <;> ring
  · simp only [quat2rotmat, skewsymScalC, Quat.vec]
    linear_combination (-2) * hw

theorem rotmat_trig {q : Quat} {R : M3} (hq : Unit q) (hR : quat2rotmat q = R) (hw : 0 ≤ q.w) :
    rotmatSincos R = (Real.sin (2 * qangle q), Real.cos (2 * qangle q)) ∧
      rotmatAngle R = 2 * qangle q ∧ 2 * qangle q ≤ Real.pi := by
  obtain ⟨e1, e2⟩ := rotmat_parts hq hR
  obtain ⟨hs, hc, p0, p1⟩ := unit_polar hq
  have hp : qangle q ≤ Real.pi / 2 := by
    by_contra h
    push Not at h
    have := Real.cos_neg_of_pi_div_two_lt_of_lt h (by linarith [Real.pi_pos])
    linarith
  have e : rotmatSincos R = (Real.sin (2 * qangle q), Real.cos (2 * qangle q)) := by
    rw [rotmatSincos, e1, e2, vnorm_vscal, Real.sin_two_mul, Real.cos_two_mul, hs, hc,
      abs_of_nonneg (by positivity)]
    congr 1 <;> ring
  refine ⟨e, ?_, by linarith⟩
  rw [rotmatAngle, e]
  exact atan2_sin_cos (by linarith) (by linarith)

theorem tfmTf_quat (q : Quat) (v : V3) : tfmTf ⟨quat2rotmat q, v⟩ = qutrTf ⟨q, v⟩ := by
  funext p; exact C26_point.1 ⟨q, v⟩ p

theorem tfmTf_zero (R : M3) : tfmTf ⟨R, ⟨0, 0, 0⟩⟩ = rot9 R := by
  funext p; simp [tfmTf, rot9]

/-- The logarithm of a pure rotation is a pure rotation velocity. -/
theorem logTw_rot (q : Quat) : logTw ⟨q, ⟨0, 0, 0⟩⟩ = ⟨⟨0, 0, 0⟩, (logTw ⟨q, ⟨0, 0, 0⟩⟩).w⟩ := by
  simp only [logTw]
  split_ifs
  · rfl
  · ext <;> simp [twOf, gen, vadd, vscal, cross, vdot]

theorem logTw_w_indep (q : Quat) (v v' : V3) : (logTw ⟨q, v⟩).w = (logTw ⟨q, v'⟩).w := by
  simp only [logTw]
  split_ifs <;> rfl

/-- Near a half turn. -/
theorem rotmat_near {R : M3} (h : IsRot R) (hc : (R.m0 + R.m4 + R.m8 - 1) / 2 < -1 + 0.0001) :
    Unit (rotmatQ R) ∧ quat2rotmat (rotmatQ R) = R ∧ |(rotmatQ R).w| ≤ 1 / 128 ∧
      1 ≤ qangle (rotmatQ R) ∧ vnorm (rotmatQ R).vec ≠ 0 ∧
      2 * qangle (rotmatQ R) ≤ Real.pi + 1 / 32 := by
  obtain ⟨hu, hR⟩ := rotmatQ_spec h.eqs (by norm_num at *; linarith)
  obtain ⟨-, e2⟩ := rotmat_parts hu hR
  obtain ⟨hs, hcs, p0, p1⟩ := unit_polar hu
  have hsq := unit_sq hu
  rw [e2] at hc
  generalize rotmatQ R = q at *
  have hw : |q.w| ≤ 1 / 128 := by
    apply abs_le_of_sq_le_sq _ (by norm_num)
    norm_num at *
    nlinarith
  obtain ⟨w1, w2⟩ := abs_le.1 hw
  refine ⟨hu, hR, hw, ?_, ?_, ?_⟩
  · by_contra hx
    push Not at hx
    have := Real.one_sub_sq_div_two_le_cos (x := qangle q)
    rw [hcs] at this
    nlinarith
  · intro h0
    rw [h0] at hsq
    nlinarith
  · by_contra hx
    push Not at hx
    have hy : 2 / Real.pi * (qangle q - Real.pi / 2) ≤ Real.sin (qangle q - Real.pi / 2) :=
      Real.mul_le_sin (by linarith) (by linarith)
    rw [Real.sin_sub_pi_div_two, hcs] at hy
    have hpi := Real.pi_lt_four
    have hpp := Real.pi_pos
    have h4 : (2 : ℝ) / 4 ≤ 2 / Real.pi := div_le_div_of_nonneg_left (by norm_num) hpp hpi.le
    have := mul_le_mul_of_nonneg_right h4 (show 0 ≤ qangle q - Real.pi / 2 by linarith)
    linarith

theorem lnv_near {R : M3} (h : IsRot R) (hc : (R.m0 + R.m4 + R.m8 - 1) / 2 < -1 + 0.0001) (v : V3) :
    rotmatLnv R = some (logTw ⟨rotmatQ R, v⟩).w ∧
      tfmatLnv ⟨R, v⟩ = some (logTw ⟨rotmatQ R, v⟩) := by
  obtain ⟨hu, hR, -, h1, h0, -⟩ := rotmat_near h hc
  have hq : atan2 (vnorm (rotmatQ R).vec) (rotmatQ R).w = qangle (rotmatQ R) := rfl
  have hb : ¬ qangle (rotmatQ R) < 1 / 2 ^ 13 := by norm_num; linarith
  have hp0 : qangle (rotmatQ R) ≠ 0 := by linarith
  constructor
  · simp only [rotmatLnv, if_pos hc, hq, sqrt_sqrt_eps, if_neg hb, if_neg h0, logTw, twOf]
    rw [mul_div_assoc]
  · have hor : ¬ (vnorm (rotmatQ R).vec = 0 ∨ qangle (rotmatQ R) * qangle (rotmatQ R) = 0) := by
      simp [h0, hp0]
    simp only [tfmatLnv, if_pos hc, hq, if_neg hor, logTw, if_neg h0, twOf, Option.some.injEq,
      Dx.mk.injEq]
    generalize qangle (rotmatQ R) = x at *
    generalize vnorm (rotmatQ R).vec = s at *
    refine ⟨?_, by rw [mul_div_assoc]⟩
    ext <;> simp only [gen, vadd, vscal, cross, vdot] <;> field_simp <;> ring

theorem eps_two {t : ℝ} (h : 0 ≤ t) : t * t < dblEpsilon ↔ t < 1 / 2 ^ 26 := by
  have e : dblEpsilon = (1 / 2 ^ 26) * (1 / 2 ^ 26) := by rw [dblEpsilon]; norm_num
  rw [e]
  exact (mul_self_lt_mul_self_iff h (by positivity)).symm

theorem eps_four {t : ℝ} (h : 0 ≤ t) : t * t * (t * t) < dblEpsilon ↔ t < 1 / 2 ^ 13 := by
  rw [eps_two (mul_self_nonneg t)]
  have e : (1 : ℝ) / 2 ^ 26 = (1 / 2 ^ 13) * (1 / 2 ^ 13) := by norm_num
  rw [e]
  exact (mul_self_lt_mul_self_iff h (by positivity)).symm

theorem skew_tw (w v : V3) (b : ℝ) : rot9 (skewsymScal2 (-0.5) b w) v =
    vadd (vadd (vscal (1 - b * vdot w w) v) (vscal (-1 / 2) (cross w v))) (vscal (b * vdot w v) w) := by
  ext <;> simp only [rot9, skewsymScal2, skewsymScalC, vadd, vscal, cross, vdot] <;> norm_num <;> ring

/-- The result of `aa_tf_tfmat_lnv` from its two coefficients. -/
theorem skew_twOf (k v : V3) (w a b : ℝ) :
    (⟨rot9 (skewsymScal2 (-0.5) b (vscal (a / 2) (vscal (4 * w) k))) v,
      vscal (a / 2) (vscal (4 * w) k)⟩ : Dx) =
    twOf k v (2 * (w * a)) (1 - 4 * b * (w * a) * (w * a) * (vnorm k * vnorm k))
      (4 * b * ((w * a) * (w * a))) := by
  rw [skew_tw, vnorm_sq]
  simp only [twOf, gen, vadd, vscal, cross, vdot, Dx.mk.injEq, V3.mk.injEq]
  refine ⟨⟨?_, ?_, ?_⟩, ?_, ?_, ?_⟩ <;> ring

/-- Away from a half turn. -/
theorem lnv_far {R : M3} (h : IsRot R) (hc : ¬ (R.m0 + R.m4 + R.m8 - 1) / 2 < -1 + 0.0001) (v : V3) :
    ∃ q, Unit q ∧ quat2rotmat q = R ∧ 0 < q.w ∧
    (∃ r, rotmatLnv R = some r ∧ (1 / 2 ^ 13 ≤ rotmatAngle R → r = (logTw ⟨q, v⟩).w) ∧
      ‖r.pure - (logTw ⟨q, v⟩).w.pure‖ ≤ 1 / 2 ^ 77) ∧
    (∃ r, tfmatLnv ⟨R, v⟩ = some r ∧ (1 / 2 ^ 26 ≤ rotmatAngle R → r = logTw ⟨q, v⟩) ∧
      ‖r.w.pure - (logTw ⟨q, v⟩).w.pure‖ ≤ 1 / 2 ^ 100 ∧
      ‖r.v.pure - (logTw ⟨q, v⟩).v.pure‖ ≤ 1 / 2 ^ 100 * vnorm v) := by
  obtain ⟨hu, hR, hw0⟩ := C25_rotmat2quat R h
  obtain ⟨hsc, ha, hpi⟩ := rotmat_trig hu hR hw0
  obtain ⟨e1, e2⟩ := rotmat_parts hu hR
  obtain ⟨hs, hcs, p0, p1⟩ := unit_polar hu
  have hw : 0 < (rotmat2quat R).w := by
    apply lt_of_le_of_ne hw0
    intro h0
    rw [e2, ← h0] at hc
    norm_num at hc
  refine ⟨rotmat2quat R, hu, hR, hw, ?_⟩
  have t1 : vnorm ⟨R.m5 - R.m7, R.m6 - R.m2, R.m1 - R.m3⟩ / 2 =
    Real.sin (2 * qangle (rotmat2quat R)) := congrArg Prod.fst hsc
  have t2 : (R.m0 + R.m4 + R.m8 - 1) / 2 = Real.cos (2 * qangle (rotmat2quat R)) :=
    congrArg Prod.snd hsc
  have t3 : atan2 (Real.sin (2 * qangle (rotmat2quat R))) (Real.cos (2 * qangle (rotmat2quat R))) =
      2 * qangle (rotmat2quat R) := atan2_sin_cos (by linarith) hpi
  rw [e1] at t1
  rw [ha]
  rw [t2] at hc
  have g1 : rotmatLnv R = if 2 * qangle (rotmat2quat R) < 1 / 2 ^ 13 then
      some (vscal (invsincSeries2 (2 * qangle (rotmat2quat R) * (2 * qangle (rotmat2quat R))) / 2)
        (vscal (4 * (rotmat2quat R).w) (rotmat2quat R).vec))
      else if Real.sin (2 * qangle (rotmat2quat R)) = 0 then none
      else some (vscal (2 * qangle (rotmat2quat R) / Real.sin (2 * qangle (rotmat2quat R)) / 2)
        (vscal (4 * (rotmat2quat R).w) (rotmat2quat R).vec)) := by
    simp only [rotmatLnv, t1, t2, t3, if_neg hc, eps_four (show 0 ≤ 2 * qangle (rotmat2quat R) by
      linarith), e1]
  have g2 : tfmatLnv ⟨R, v⟩ = if 2 * qangle (rotmat2quat R) < 1 / 2 ^ 26 then
      some (twOf (rotmat2quat R).vec v
        (2 * ((rotmat2quat R).w * invsincSeries2 (2 * qangle (rotmat2quat R) * (2 * qangle (rotmat2quat R)))))
        (1 - 4 * horner3 (2 * qangle (rotmat2quat R) * (2 * qangle (rotmat2quat R))) (1 / 12) (1 / 720) (1 / 30240) *
          ((rotmat2quat R).w * invsincSeries2 (2 * qangle (rotmat2quat R) * (2 * qangle (rotmat2quat R)))) *
          ((rotmat2quat R).w * invsincSeries2 (2 * qangle (rotmat2quat R) * (2 * qangle (rotmat2quat R)))) *
          (vnorm (rotmat2quat R).vec * vnorm (rotmat2quat R).vec))
        (4 * horner3 (2 * qangle (rotmat2quat R) * (2 * qangle (rotmat2quat R))) (1 / 12) (1 / 720) (1 / 30240) *
          (((rotmat2quat R).w * invsincSeries2 (2 * qangle (rotmat2quat R) * (2 * qangle (rotmat2quat R)))) *
          ((rotmat2quat R).w * invsincSeries2 (2 * qangle (rotmat2quat R) * (2 * qangle (rotmat2quat R)))))))
      else if Real.sin (2 * qangle (rotmat2quat R)) = 0 then none
      else some (let a := 2 * qangle (rotmat2quat R) / Real.sin (2 * qangle (rotmat2quat R))
        let b := (2 * Real.sin (2 * qangle (rotmat2quat R)) - 2 * qangle (rotmat2quat R) *
          (1 + Real.cos (2 * qangle (rotmat2quat R)))) / (2 * (2 * qangle (rotmat2quat R) *
            (2 * qangle (rotmat2quat R))) * Real.sin (2 * qangle (rotmat2quat R)))
        twOf (rotmat2quat R).vec v (2 * ((rotmat2quat R).w * a))
          (1 - 4 * b * ((rotmat2quat R).w * a) * ((rotmat2quat R).w * a) *
            (vnorm (rotmat2quat R).vec * vnorm (rotmat2quat R).vec))
          (4 * b * (((rotmat2quat R).w * a) * ((rotmat2quat R).w * a)))) := by
    simp only [tfmatLnv, t1, t2, t3, if_neg hc, eps_two (show 0 ≤ 2 * qangle (rotmat2quat R) by
      linarith), e1, skew_twOf]
  clear e1 e2 t1 t2 t3 hsc ha hc hR
  generalize rotmat2quat R = q at *
  have hE : (⟨q, v⟩ : Qutr).Valid := hu
  have hv0 := vnorm_nonneg v
  by_cases h0 : vnorm q.vec = 0
  · have hx := qangle_zero h0 hw
    have hw1 : q.w = 1 := by rw [← hcs, hx, Real.cos_zero]
    have hk := vnorm_eq_zero h0
    have hL : logTw ⟨q, v⟩ = ⟨v, ⟨0, 0, 0⟩⟩ := by rw [logTw, if_pos h0]
    rw [hL]
    refine ⟨⟨_, by rw [g1, if_pos (by rw [hx]; norm_num)], ?_, ?_⟩,
      ⟨_, by rw [g2, if_pos (by rw [hx]; norm_num)], ?_, ?_, ?_⟩⟩
    · intro; rw [hk]; ext <;> simp [vscal]
    · rw [hk]
      have : vscal (invsincSeries2 (2 * qangle q * (2 * qangle q)) / 2) (vscal (4 * q.w) ⟨0, 0, 0⟩) =
        ⟨0, 0, 0⟩ := by ext <;> simp [vscal]
      rw [this, sub_self, norm_zero]; positivity
    all_goals
      rw [h0, mul_zero, mul_zero, sub_zero, twOf_zero h0]
      try intro
      try simp only [sub_self, norm_zero]
      try positivity
  · obtain ⟨-, hx0, hx1⟩ := logTw_w hE h0
    simp only at hx0 hx1
    generalize hxx : qangle q = x at *
    have hsp : 0 < Real.sin x := Real.sin_pos_of_pos_of_lt_pi hx0 hx1
    have hcp : 0 < Real.cos x := by rw [hcs]; exact hw
    have hs2 : Real.sin (2 * x) = 2 * Real.sin x * Real.cos x := Real.sin_two_mul x
    have hs20 : Real.sin (2 * x) ≠ 0 := by rw [hs2]; positivity
    have hc2 : 1 + Real.cos (2 * x) = 2 * (Real.cos x * Real.cos x) := by
      rw [Real.cos_two_mul]; ring
    have hisc : Real.cos x * (2 * x / Real.sin (2 * x)) = x / Real.sin x := by
      rw [hs2]; field_simp
    have hser : x ≤ 1 / 16 → |Real.cos x * invsincSeries2 (2 * x * (2 * x)) - x / Real.sin x| ≤
        64 * x ^ 6 := by
      intro h8
      have := eta_series (x := 2 * x) (by linarith) (by linarith)
      rw [← hisc, ← mul_sub, abs_mul, abs_of_pos hcp]
      have h1 := mul_le_mul (Real.cos_le_one x) this (abs_nonneg _) zero_le_one
      calc _ ≤ _ := h1
        _ = _ := by ring
    have hL : logTw ⟨q, v⟩ = twOf q.vec v (2 * (x / Real.sin x)) (q.w * (x / Real.sin x))
        ((1 - q.w * (x / Real.sin x)) / (Real.sin x * Real.sin x)) := by
      rw [logTw, if_neg h0]; simp only [hxx, hs]
    have hx6 : ∀ n, 2 * x < 1 / 2 ^ n → x ^ 6 ≤ (1 / 2 ^ (n + 1)) ^ 6 := by
      intro n hn
      refine pow_le_pow_left₀ hx0.le ?_ 6
      rw [pow_succ, ← div_div]; linarith
    constructor
    · by_cases hb : 2 * x < 1 / 2 ^ 13
      · have hx8 : x ≤ 1 / 16 := by norm_num at *; linarith
        refine ⟨_, by rw [g1, if_pos hb], fun h => absurd hb (not_lt.2 h), ?_⟩
        have hcl := (logTw_close hE h0 (i := Real.cos x * invsincSeries2 (2 * x * (2 * x)))
          (m := q.w * (x / vnorm q.vec)) (by simp only [hxx]; linarith)
          (by simp only [hxx]; exact hser hx8) (by simp only [hxx, sub_self, abs_zero]; positivity)).1
        have hb6 := hx6 13 hb
        simp only [hxx] at hcl
        have e : vscal (invsincSeries2 (2 * x * (2 * x)) / 2) (vscal (4 * q.w) q.vec) =
            (twOf q.vec v (2 * (Real.cos x * invsincSeries2 (2 * x * (2 * x)))) (q.w * (x / vnorm q.vec))
              (horner3 (x * x) (1 / 3) (1 / 45) (2 / 945) *
                (Real.cos x * invsincSeries2 (2 * x * (2 * x)) *
                  (Real.cos x * invsincSeries2 (2 * x * (2 * x)))))).w := by
          rw [hcs]; simp only [twOf, vscal, V3.mk.injEq]
          refine ⟨?_, ?_, ?_⟩ <;> ring
        rw [e]
        refine hcl.trans ?_
        norm_num at hb6 ⊢
        linarith
      · have e : vscal (2 * x / Real.sin (2 * x) / 2) (vscal (4 * q.w) q.vec) =
            (logTw ⟨q, v⟩).w := by
          rw [hL, ← hisc, hcs]
          simp only [twOf, vscal, V3.mk.injEq]
          refine ⟨?_, ?_, ?_⟩ <;> ring
        refine ⟨_, by rw [g1, if_neg hb, if_neg hs20], fun _ => e, ?_⟩
        rw [e, sub_self, norm_zero]; positivity
    · by_cases hb : 2 * x < 1 / 2 ^ 26
      · have hx8 : x ≤ 1 / 16 := by norm_num at *; linarith
        refine ⟨_, by rw [g2, if_pos hb], fun h => absurd hb (not_lt.2 h), ?_⟩
        have hh : 4 * horner3 (2 * x * (2 * x)) (1 / 12) (1 / 720) (1 / 30240) =
            horner3 (x * x) (1 / 3) (1 / 45) (2 / 945) := by
          simp only [horner3]; ring
        rw [hh, ← hcs, ← hs]
        have hi := hser hx8
        have hse := series_err hx0 (by linarith) hi
        generalize Real.cos x * invsincSeries2 (2 * x * (2 * x)) = i at *
        generalize hH : horner3 (x * x) (1 / 3) (1 / 45) (2 / 945) = H at *
        have hm : |1 - H * i * i * (Real.sin x * Real.sin x) - q.w * (x / vnorm q.vec)| ≤
            400 * x ^ 6 := by
          rw [← hcs, ← hs]
          have : 1 - H * i * i * (Real.sin x * Real.sin x) - Real.cos x * (x / Real.sin x) =
              -((H * (i * i) - (1 - Real.cos x * (x / Real.sin x)) / (Real.sin x * Real.sin x)) *
                (Real.sin x * Real.sin x)) := by
            field_simp; ring
          rw [this, abs_neg, abs_mul, abs_of_pos (mul_pos hsp hsp)]
          exact hse
        obtain ⟨a, b⟩ := logTw_close hE h0 (i := i)
          (m := 1 - H * i * i * (Real.sin x * Real.sin x)) (by simp only [hxx]; linarith)
          (by simp only [hxx]; exact hi) (by simp only [hxx]; exact hm)
        simp only [hxx, hH] at a b
        have hxb : x ≤ 1 / 2 ^ 26 := by norm_num at *; linarith
        exact ⟨a.trans (pow_six hx0.le hxb (by norm_num)), b.trans
          (mul_le_mul_of_nonneg_right (pow_six hx0.le hxb le_rfl) hv0)⟩
      · have e : (let a := 2 * x / Real.sin (2 * x)
            let b := (2 * Real.sin (2 * x) - 2 * x * (1 + Real.cos (2 * x))) /
              (2 * (2 * x * (2 * x)) * Real.sin (2 * x))
            twOf q.vec v (2 * (q.w * a)) (1 - 4 * b * (q.w * a) * (q.w * a) * (vnorm q.vec * vnorm q.vec))
              (4 * b * (q.w * a * (q.w * a)))) = logTw ⟨q, v⟩ := by
          simp only
          rw [← hcs, hisc, hc2, hL, ← hs, hs2, ← hcs]
          congr 1 <;> field_simp <;> ring
        refine ⟨_, by rw [g2, if_neg hb, if_neg hs20], fun _ => e, ?_⟩
        rw [e, sub_self, sub_self, norm_zero]
        exact ⟨by positivity, by positivity⟩

/-- The transform of a rotation matrix and a translation has the logarithm of its quaternion. -/
theorem logTw_tfm {q : Quat} {R : M3} (hq : Unit q) (hR : quat2rotmat q = R)
    (h : vnorm q.vec ≠ 0 ∨ 0 < q.w) (v : V3) : IsLog (logTw ⟨q, v⟩) (tfmTf ⟨R, v⟩) := by
  rw [← hR, tfmTf_quat]
  exact logTw_isLog ⟨q, v⟩ hq h

/-- **C71**, `aa_tf_rotmat_lnv` and `aa_tf_rotmat_angle`: for every rotation matrix the result is the
velocity of a pure rotation that reaches the matrix in unit time: exactly from angle 2^-13 on, and to
within 2^-77 below.  Except within about 0.015 of a half turn its length is the angle that
`aa_tf_rotmat_angle` returns, which is at most π; close to a half turn it can exceed π, by less than
1/32. -/
theorem C71_rotmat_lnv_partial (R : M3) (h : IsRot R) :
    ∃ r L, rotmatLnv R = some r ∧ IsLog ⟨⟨0, 0, 0⟩, L⟩ (rot9 R) ∧
      (1 / 2 ^ 13 ≤ rotmatAngle R → r = L) ∧ ‖r.pure - L.pure‖ ≤ 1 / 2 ^ 77 ∧
      (-1 + 0.0001 ≤ Real.cos (rotmatAngle R) → vnorm L = rotmatAngle R) ∧
      0 ≤ rotmatAngle R ∧ rotmatAngle R ≤ Real.pi ∧ vnorm L ≤ Real.pi + 1 / 32 := by
  obtain ⟨hu', hR', hw'⟩ := C25_rotmat2quat R h
  obtain ⟨hsc', ha', hpi'⟩ := rotmat_trig hu' hR' hw'
  obtain ⟨-, -, p0', -⟩ := unit_polar hu'
  have hcos : (R.m0 + R.m4 + R.m8 - 1) / 2 = Real.cos (rotmatAngle R) := by
    rw [ha']; exact congrArg Prod.snd hsc'
  have hr1 : 0 ≤ rotmatAngle R := by rw [ha']; linarith
  have hr2 : rotmatAngle R ≤ Real.pi := by rw [ha']; exact hpi'
  by_cases hc : (R.m0 + R.m4 + R.m8 - 1) / 2 < -1 + 0.0001
  · obtain ⟨hu, hR, -, -, h0, hp⟩ := rotmat_near h hc
    have hl := logTw_tfm hu hR (Or.inl h0) ⟨0, 0, 0⟩
    rw [tfmTf_zero, logTw_rot] at hl
    refine ⟨_, _, (lnv_near h hc ⟨0, 0, 0⟩).1, hl, fun _ => rfl, ?_, ?_, hr1, hr2, ?_⟩
    · rw [sub_self, norm_zero]; positivity
    · intro h1; rw [hcos] at hc; exact absurd hc (not_lt.2 h1)
    · rw [logTw_norm (E := ⟨rotmatQ R, ⟨0, 0, 0⟩⟩) hu (Or.inl h0)]; exact hp
  · obtain ⟨q, hu, hR, hw, ⟨r, e, he, hb⟩, -⟩ := lnv_far h hc ⟨0, 0, 0⟩
    obtain ⟨-, ha, hpi⟩ := rotmat_trig hu hR hw.le
    have hl := logTw_tfm hu hR (Or.inr hw) ⟨0, 0, 0⟩
    rw [tfmTf_zero, logTw_rot] at hl
    have hn : vnorm (logTw ⟨q, ⟨0, 0, 0⟩⟩).w = rotmatAngle R := by
      rw [ha]; exact logTw_norm hu (Or.inr hw)
    refine ⟨r, _, e, hl, he, hb, fun _ => hn, hr1, hr2, ?_⟩
    rw [hn]; linarith

/-- **C71**, `aa_tf_tfmat_lnv`: for every rigid transformation matrix the result is a twist that
reaches it in unit time: exactly from angle 2^-26 on, and to within 2^-100 (times the length of the
translation) below. -/
theorem C71_tfmat_lnv_partial (T : Tfm) (h : T.Valid) :
    ∃ r L, tfmatLnv T = some r ∧ IsLog L (tfmTf T) ∧
      (1 / 2 ^ 26 ≤ rotmatAngle T.R → r = L) ∧ ‖r.w.pure - L.w.pure‖ ≤ 1 / 2 ^ 100 ∧
      ‖r.v.pure - L.v.pure‖ ≤ 1 / 2 ^ 100 * vnorm T.v ∧
      (-1 + 0.0001 ≤ Real.cos (rotmatAngle T.R) → vnorm L.w = rotmatAngle T.R) ∧
      vnorm L.w ≤ Real.pi + 1 / 32 := by
  obtain ⟨R, v⟩ := T
  have hv0 := vnorm_nonneg v
  have h : IsRot R := h
  obtain ⟨hu', hR', hw'⟩ := C25_rotmat2quat R h
  obtain ⟨hsc', ha', hpi'⟩ := rotmat_trig hu' hR' hw'
  have hcos : (R.m0 + R.m4 + R.m8 - 1) / 2 = Real.cos (rotmatAngle R) := by
    rw [ha']; exact congrArg Prod.snd hsc'
  by_cases hc : (R.m0 + R.m4 + R.m8 - 1) / 2 < -1 + 0.0001
  · obtain ⟨hu, hR, -, -, h0, hp⟩ := rotmat_near h hc
    refine ⟨_, _, (lnv_near h hc v).2, logTw_tfm hu hR (Or.inl h0) v, fun _ => rfl, ?_, ?_, ?_, ?_⟩
    · rw [sub_self, norm_zero]; positivity
    · rw [sub_self, norm_zero]; positivity
    · intro h1; rw [hcos] at hc; exact absurd hc (not_lt.2 h1)
    · rw [logTw_norm (E := ⟨rotmatQ R, v⟩) hu (Or.inl h0)]; exact hp
  · obtain ⟨q, hu, hR, hw, -, ⟨r, e, he, hb1, hb2⟩⟩ := lnv_far h hc v
    obtain ⟨-, ha, hpi⟩ := rotmat_trig hu hR hw.le
    have hn : vnorm (logTw ⟨q, v⟩).w = rotmatAngle R := by
      rw [ha]; exact logTw_norm hu (Or.inr hw)
    refine ⟨r, _, e, logTw_tfm hu hR (Or.inr hw) v, he, hb1, hb2, fun _ => hn, ?_⟩
    rw [hn, ha]; linarith

/-- The exact logarithm is the rotation vector of the quaternion. -/
theorem logTw_rotvec {q : Quat} (hq : Unit q) (h0 : vnorm q.vec ≠ 0) (v : V3) :
    (logTw ⟨q, v⟩).w.rotvecDen = q.den := by
  obtain ⟨hs, hc, -, -⟩ := unit_polar hq
  have hk : vnorm (vscal (1 / vnorm q.vec) q.vec) = 1 := by
    rw [vnorm_vscal, abs_of_nonneg (by have := vnorm_nonneg q.vec; positivity), one_div,
      inv_mul_cancel₀ h0]
  have e : (1 / 2 : ℝ) • (logTw ⟨q, v⟩).w.pure =
      qangle q • (vscal (1 / vnorm q.vec) q.vec).pure := by
    rw [logTw, if_neg h0]
    simp only [twOf, vscal_pure, smul_smul]
    congr 1
    field_simp
  rw [V3.rotvecDen, e, exp_axis _ hk, hs, hc, vscal_pure, smul_smul, mul_one_div_cancel h0, one_smul]
  ext <;> simp [Quat.vec]

/-- **C71**, `aa_tf_rotmat2axang`: from angle 2^-13 on the result is a unit axis and an angle whose
rotation is the given matrix. -/
theorem C71_rotmat2axang_partial (R : M3) (h : IsRot R) (ha : 1 / 2 ^ 13 ≤ rotmatAngle R) :
    ∃ a, rotmat2axang R = some a ∧ vnorm a.axis = 1 ∧ Rotates (rot9 R) a.den := by
  have key : ∃ q, Unit q ∧ quat2rotmat q = R ∧ vnorm q.vec ≠ 0 ∧ 1 / 2 ^ 13 ≤ 2 * qangle q ∧
      rotmatLnv R = some (logTw ⟨q, ⟨0, 0, 0⟩⟩).w := by
    by_cases hc : (R.m0 + R.m4 + R.m8 - 1) / 2 < -1 + 0.0001
    · obtain ⟨hu, hR, -, h1, h0, -⟩ := rotmat_near h hc
      exact ⟨_, hu, hR, h0, by norm_num; linarith, (lnv_near h hc ⟨0, 0, 0⟩).1⟩
    · obtain ⟨q, hu, hR, hw, ⟨r, e, he, -⟩, -⟩ := lnv_far h hc ⟨0, 0, 0⟩
      obtain ⟨-, ha', -⟩ := rotmat_trig hu hR hw.le
      refine ⟨q, hu, hR, ?_, by rw [← ha']; exact ha, by rw [e, he ha]⟩
      intro h0
      rw [ha', qangle_zero h0 hw] at ha
      norm_num at ha
  obtain ⟨q, hu, hR, h0, hx, e⟩ := key
  have hn := (logTw_w (E := ⟨q, ⟨0, 0, 0⟩⟩) hu h0).1
  simp only at hn
  obtain ⟨a1, -, a3⟩ := (C30_rotvec_axang ⟨⟨0, 0, 0⟩, 0⟩ (logTw ⟨q, ⟨0, 0, 0⟩⟩).w).2.1
    (by rw [hn]; norm_num at *; linarith)
  refine ⟨_, by rw [rotmat2axang, e]; rfl, a1, ?_⟩
  rw [a3, logTw_rotvec hu h0, ← hR]
  exact rotates_rotmat hu

/-- Close to a half turn about -x the result is longer than π: the quaternion is not minimized. -/
theorem C71_violates_length : ∃ R r, IsRot R ∧ rotmatLnv R = some r ∧ Real.pi < vnorm r := by
  have hu : Unit ⟨-999999 / 1000001, 0, 0, 2000 / 1000001⟩ := by norm_num [Unit]
  have hrot := C24_isRot _ hu
  obtain ⟨e1, e2⟩ := rotmat_parts hu rfl
  generalize hR : quat2rotmat ⟨-999999 / 1000001, 0, 0, 2000 / 1000001⟩ = R at *
  have hc : (R.m0 + R.m4 + R.m8 - 1) / 2 < -1 + 0.0001 := by rw [e2]; norm_num
  obtain ⟨hu2, hR2, -, -, h0, -⟩ := rotmat_near hrot hc
  refine ⟨R, _, hrot, (lnv_near hrot hc ⟨0, 0, 0⟩).1, ?_⟩
  rw [logTw_norm (E := ⟨rotmatQ R, ⟨0, 0, 0⟩⟩) hu2 (Or.inl h0)]
  obtain ⟨hs, hcs, p0, p1⟩ := unit_polar hu2
  simp only
  have hq : rotmatQ R = rotmatQ0 R := by
    have a1 : ¬ R.m0 < R.m4 := by rw [← hR]; norm_num [quat2rotmat, skewsymScalC, Quat.vec]
    have a2 : ¬ R.m0 < R.m8 := by rw [← hR]; norm_num [quat2rotmat, skewsymScalC, Quat.vec]
    rw [rotmatQ, if_neg a1, if_neg a2]
  have hw : (rotmatQ R).w < 0 := by
    rw [hq]
    simp only [rotmatQ0]
    have b1 : R.m5 - R.m7 < 0 := by rw [← hR]; norm_num [quat2rotmat, skewsymScalC, Quat.vec]
    have b2 : 0 < 1 + R.m0 - R.m4 - R.m8 := by
      rw [← hR]; norm_num [quat2rotmat, skewsymScalC, Quat.vec]
    have := Real.sqrt_pos.2 b2
    have : 0 < 0.5 / Real.sqrt (1 + R.m0 - R.m4 - R.m8) := by positivity
    nlinarith
  by_contra hx
  push Not at hx
  have := Real.cos_nonneg_of_mem_Icc ⟨by linarith, by linarith⟩ (x := qangle (rotmatQ R))
  linarith

/-! The hypotheses hold of a rotation by a right angle with a translation. -/

example : Qutr.Valid ⟨⟨3 / 5, 0, 0, 4 / 5⟩, ⟨1, 2, 3⟩⟩ ∧ (0 : ℝ) < 4 / 5 := by
  norm_num [Qutr.Valid, Unit]

example : Duqu.Valid ⟨⟨3 / 5, 0, 0, 4 / 5⟩, ⟨4, 1, 2, -3⟩⟩ := by
  norm_num [Duqu.Valid, Unit, qdot]

example : Tfm.Valid ⟨quat2rotmat ⟨3 / 5, 0, 0, 4 / 5⟩, ⟨1, 2, 3⟩⟩ :=
  C24_isRot _ (by norm_num [Unit])

example : 1 / 2 ^ 13 ≤ rotmatAngle (quat2rotmat ⟨3 / 5, 0, 0, 4 / 5⟩) := by
  have hu : Unit ⟨3 / 5, 0, 0, 4 / 5⟩ := by norm_num [Unit]
  obtain ⟨-, ha, -⟩ := rotmat_trig hu rfl (by norm_num)
  obtain ⟨hs, -, p0, -⟩ := unit_polar hu
  have hv : vnorm (⟨3 / 5, 0, 0⟩ : V3) = 3 / 5 := by
    rw [vnorm, Real.sqrt_eq_iff_mul_self_eq (vdot_nonneg _) (by norm_num)]; norm_num [vdot]
  have := Real.sin_le p0
  rw [hs, Quat.vec, hv] at this
  rw [ha]
  norm_num at *
  linarith

end Verif.Tf
