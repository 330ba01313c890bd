import Verif.Prop.Vel
import Mathlib.Analysis.Calculus.MeanValue

/-!
# C32: exponential maps of rigid transforms

Specification: the exponential of the twist `(v, w)` is the motion after unit time of the flow
`x' = w × x + v`. The specification quantifies over solutions of that equation and mentions no
closed formula.
-/

namespace Verif.Tf

open scoped Quaternion
open Quaternion

/-- `X` is a solution of `x' = w × x + v`. -/
def IsFlow (t : Dx) (X : ℝ → V3) : Prop := ∀ s, V3.HasDeriv X (vadd (cross t.w (X s)) t.v) s

/-! ## The flow exists and is unique -/

theorem V3.HasDeriv.unique {f : ℝ → V3} {a b : V3} {t : ℝ} (h : V3.HasDeriv f a t)
    (h' : V3.HasDeriv f b t) : a = b := V3.pure_inj (HasDerivAt.unique h h')

theorem flow_unique {t : Dx} {X Y : ℝ → V3} (hX : IsFlow t X) (hY : IsFlow t Y) (h0 : X 0 = Y 0) :
    X = Y := by
  set N : ℝ → ℝ := fun s => ((X s).x - (Y s).x) * ((X s).x - (Y s).x) +
    ((X s).y - (Y s).y) * ((X s).y - (Y s).y) + ((X s).z - (Y s).z) * ((X s).z - (Y s).z) with hN
  have hd : ∀ s, HasDerivAt N 0 s := by
    intro s
    obtain ⟨x1, x2, x3⟩ := V3.hasDeriv_iff.1 (hX s)
    obtain ⟨y1, y2, y3⟩ := V3.hasDeriv_iff.1 (hY s)
    have := (((x1.sub y1).mul (x1.sub y1)).add ((x2.sub y2).mul (x2.sub y2))).add
      ((x3.sub y3).mul (x3.sub y3))
    refine this.congr_deriv ?_
    simp [vadd, cross]; ring
  have hc : ∀ s, N s = 0 := by
    intro s
    rw [is_const_of_deriv_eq_zero (fun s => (hd s).differentiableAt) (fun s => (hd s).deriv) s 0]
    simp [hN, h0]
  funext s
  have := hc s
  simp only [hN] at this
  have a1 := mul_self_nonneg ((X s).x - (Y s).x)
  have a2 := mul_self_nonneg ((X s).y - (Y s).y)
  have a3 := mul_self_nonneg ((X s).z - (Y s).z)
  ext
  · have := mul_self_eq_zero.1 (le_antisymm (by linarith) a1); linarith
  · have := mul_self_eq_zero.1 (le_antisymm (by linarith) a2); linarith
  · have := mul_self_eq_zero.1 (le_antisymm (by linarith) a3); linarith

/-- `p + a (w×p) + b w×(w×p) + l v + b (w×v) + d w×(w×v)`. -/
def flowPt (t : Dx) (l a b d : ℝ) (p : V3) : V3 :=
  vadd (vadd p (vadd (vscal a (cross t.w p)) (vscal b (cross t.w (cross t.w p)))))
    (vadd (vscal l t.v) (vadd (vscal b (cross t.w t.v)) (vscal d (cross t.w (cross t.w t.v)))))

theorem flow_exists (t : Dx) (p : V3) (a b d : ℝ → ℝ)
    (ha : ∀ s, HasDerivAt a (1 - vdot t.w t.w * b s) s) (hb : ∀ s, HasDerivAt b (a s) s)
    (hd : ∀ s, HasDerivAt d (b s) s) (hl : ∀ s, s - vdot t.w t.w * d s = a s) :
    IsFlow t (fun s => flowPt t s (a s) (b s) (d s) p) := by
  intro s
  rw [V3.hasDeriv_iff]
  have key : ∀ e0 e1 e2 e3 e4 e5 : ℝ, HasDerivAt
      (fun s => e0 + (a s * e1 + b s * e2) + (s * e3 + (b s * e4 + d s * e5)))
      ((1 - vdot t.w t.w * b s) * e1 + a s * e2 + (1 * e3 + (a s * e4 + b s * e5))) s := by
    intro e0 e1 e2 e3 e4 e5
    exact (((ha s).mul_const e1).add ((hb s).mul_const e2)).const_add e0 |>.add
      (((hasDerivAt_id s).mul_const e3).add (((hb s).mul_const e4).add ((hd s).mul_const e5)))
  have h1 := hl s
  simp only [vdot] at h1
  refine ⟨?_, ?_, ?_⟩
  · refine (key p.x _ _ _ _ _).congr_deriv ?_
    simp [flowPt, vadd, cross, vscal, vdot]
    linear_combination (t.w.z * t.v.y - t.w.y * t.v.z) * h1
  · refine (key p.y _ _ _ _ _).congr_deriv ?_
    simp [flowPt, vadd, cross, vscal, vdot]
    linear_combination (t.w.x * t.v.z - t.w.z * t.v.x) * h1
  · refine (key p.z _ _ _ _ _).congr_deriv ?_
    simp [flowPt, vadd, cross, vscal, vdot]
    linear_combination (t.w.y * t.v.x - t.w.x * t.v.y) * h1

theorem vnorm_eq_zero {w : V3} (h : vnorm w = 0) : w = ⟨0, 0, 0⟩ := by
  apply V3.pure_inj
  rw [← norm_pure, norm_eq_zero] at h
  rw [h]; ext <;> simp

/-- `e p + a (w×p) + b (w·p) w + f v + g (w×v) + d (w·v) w`. -/
def gen (t : Dx) (e a b f g d : ℝ) (p : V3) : V3 :=
  vadd (vadd (vscal e p) (vadd (vscal a (cross t.w p)) (vscal (b * vdot t.w p) t.w)))
    (vadd (vscal f t.v) (vadd (vscal g (cross t.w t.v)) (vscal (d * vdot t.w t.v) t.w)))

/-- every solution of the flow equation, in closed form. -/
theorem flow_closed (t : Dx) (X : ℝ → V3) (h : IsFlow t X) (s : ℝ) :
    X s = gen t (Real.cos (vnorm t.w * s)) (Real.sin (vnorm t.w * s) / vnorm t.w)
      ((1 - Real.cos (vnorm t.w * s)) / (vnorm t.w * vnorm t.w))
      (if vnorm t.w = 0 then s else Real.sin (vnorm t.w * s) / vnorm t.w)
      ((1 - Real.cos (vnorm t.w * s)) / (vnorm t.w * vnorm t.w))
      ((s - Real.sin (vnorm t.w * s) / vnorm t.w) / (vnorm t.w * vnorm t.w)) (X 0) := by
  by_cases h0 : vnorm t.w = 0
  · have hw := vnorm_eq_zero h0
    have hf := flow_exists t (X 0) (fun s => s) (fun s => s * s / 2) (fun s => s * s * s / 6)
      (fun s => (hasDerivAt_id s).congr_deriv (by simp [hw, vdot]))
      (fun s => by
        have := ((hasDerivAt_id s).mul (hasDerivAt_id s)).div_const 2
        refine this.congr_deriv ?_
        simp)
      (fun s => by
        have := (((hasDerivAt_id s).mul (hasDerivAt_id s)).mul (hasDerivAt_id s)).div_const 6
        refine this.congr_deriv ?_
        simp; ring)
      (fun s => by simp [hw, vdot])
    have := congrFun (flow_unique h hf (by ext <;> simp [flowPt, vadd, vscal])) s
    rw [this, h0, if_pos rfl]
    ext <;> simp [flowPt, gen, vadd, vscal, cross, hw]
  · have hsq := vnorm_sq t.w
    have hm : ∀ s, HasDerivAt (fun s => vnorm t.w * s) (vnorm t.w) s := fun s => by
      simpa using (hasDerivAt_id s).const_mul (vnorm t.w)
    have hs : ∀ s, HasDerivAt (fun s => Real.sin (vnorm t.w * s) / vnorm t.w)
        (Real.cos (vnorm t.w * s)) s := fun s => by
      refine ((hm s).sin.div_const (vnorm t.w)).congr_deriv ?_
      field_simp
    have hc : ∀ s, HasDerivAt (fun s => (1 - Real.cos (vnorm t.w * s)) / (vnorm t.w * vnorm t.w))
        (Real.sin (vnorm t.w * s) / vnorm t.w) s := fun s => by
      refine (((hm s).cos.const_sub 1).div_const (vnorm t.w * vnorm t.w)).congr_deriv ?_
      field_simp
    have hf := flow_exists t (X 0) (fun s => Real.sin (vnorm t.w * s) / vnorm t.w)
      (fun s => (1 - Real.cos (vnorm t.w * s)) / (vnorm t.w * vnorm t.w))
      (fun s => (s - Real.sin (vnorm t.w * s) / vnorm t.w) / (vnorm t.w * vnorm t.w))
      (fun s => by
        refine (hs s).congr_deriv ?_
        rw [← hsq]; field_simp; ring)
      hc
      (fun s => by
        exact ((hasDerivAt_id s).sub (hs s)).div_const (vnorm t.w * vnorm t.w))
      (fun s => by rw [← hsq]; field_simp; ring)
    have := congrFun (flow_unique h hf (by ext <;> simp [flowPt, vadd, vscal])) s
    rw [this]
    have e1 : Real.cos (vnorm t.w * s) = 1 - vdot t.w t.w *
        ((1 - Real.cos (vnorm t.w * s)) / (vnorm t.w * vnorm t.w)) := by
      rw [← hsq]; field_simp; ring
    have e2 : Real.sin (vnorm t.w * s) / vnorm t.w = s - vdot t.w t.w *
        ((s - Real.sin (vnorm t.w * s) / vnorm t.w) / (vnorm t.w * vnorm t.w)) := by
      rw [← hsq]; field_simp; ring
    rw [if_neg h0]
    generalize Real.sin (vnorm t.w * s) / vnorm t.w = a at *
    generalize (1 - Real.cos (vnorm t.w * s)) / (vnorm t.w * vnorm t.w) = b at *
    generalize (s - a) / (vnorm t.w * vnorm t.w) = d at *
    simp only [vdot] at e1 e2
    rw [e1]
    ext
    · simp [flowPt, gen, vadd, vscal, cross, vdot]; linear_combination (-t.v.x) * e2
    · simp [flowPt, gen, vadd, vscal, cross, vdot]; linear_combination (-t.v.y) * e2
    · simp [flowPt, gen, vadd, vscal, cross, vdot]; linear_combination (-t.v.z) * e2

/-- Where a flow takes a point in unit time. -/
theorem flow_one (t : Dx) (X : ℝ → V3) (h : IsFlow t X) (h0 : vnorm t.w ≠ 0) :
    X 1 = gen t (Real.cos (vnorm t.w)) (Real.sin (vnorm t.w) / vnorm t.w)
      ((1 - Real.cos (vnorm t.w)) / (vnorm t.w * vnorm t.w)) (Real.sin (vnorm t.w) / vnorm t.w)
      ((1 - Real.cos (vnorm t.w)) / (vnorm t.w * vnorm t.w))
      ((1 - Real.sin (vnorm t.w) / vnorm t.w) / (vnorm t.w * vnorm t.w)) (X 0) := by
  have := flow_closed t X h 1
  rwa [if_neg h0, mul_one] at this

/-- every twist and starting point has a flow. -/
theorem flow_some (t : Dx) (p : V3) : ∃ X, IsFlow t X ∧ X 0 = p := by
  by_cases h0 : vnorm t.w = 0
  · have hw := vnorm_eq_zero h0
    refine ⟨_, flow_exists t p (fun s => s) (fun s => s * s / 2) (fun s => s * s * s / 6)
      (fun s => (hasDerivAt_id s).congr_deriv (by simp [hw, vdot]))
      (fun s => by
        have := ((hasDerivAt_id s).mul (hasDerivAt_id s)).div_const 2
        refine this.congr_deriv ?_
        simp)
      (fun s => by
        have := (((hasDerivAt_id s).mul (hasDerivAt_id s)).mul (hasDerivAt_id s)).div_const 6
        refine this.congr_deriv ?_
        simp; ring)
      (fun s => by simp [hw, vdot]), ?_⟩
    ext <;> simp [flowPt, vadd, vscal]
  · have hsq := vnorm_sq t.w
    have hm : ∀ s, HasDerivAt (fun s => vnorm t.w * s) (vnorm t.w) s := fun s => by
      simpa using (hasDerivAt_id s).const_mul (vnorm t.w)
    have hs : ∀ s, HasDerivAt (fun s => Real.sin (vnorm t.w * s) / vnorm t.w)
        (Real.cos (vnorm t.w * s)) s := fun s => by
      refine ((hm s).sin.div_const (vnorm t.w)).congr_deriv ?_
      field_simp
    have hc : ∀ s, HasDerivAt (fun s => (1 - Real.cos (vnorm t.w * s)) / (vnorm t.w * vnorm t.w))
        (Real.sin (vnorm t.w * s) / vnorm t.w) s := fun s => by
      refine (((hm s).cos.const_sub 1).div_const (vnorm t.w * vnorm t.w)).congr_deriv ?_
      field_simp
    refine ⟨_, flow_exists t p (fun s => Real.sin (vnorm t.w * s) / vnorm t.w)
      (fun s => (1 - Real.cos (vnorm t.w * s)) / (vnorm t.w * vnorm t.w))
      (fun s => (s - Real.sin (vnorm t.w * s) / vnorm t.w) / (vnorm t.w * vnorm t.w))
      (fun s => by
        refine (hs s).congr_deriv ?_
        rw [← hsq]; field_simp; ring)
      hc
      (fun s => by
        exact ((hasDerivAt_id s).sub (hs s)).div_const (vnorm t.w * vnorm t.w))
      (fun s => by rw [← hsq]; field_simp; ring), ?_⟩
    ext <;> simp [flowPt, vadd, vscal]

/-! ## The code in the same form -/

theorem tfmatExpv_gen (t : Dx) (p : V3) :
    tfmTf (tfmatExpv t) p = gen t (1 - (expvCoef t.w).2 * vdot t.w t.w) (expvCoef t.w).1
      (expvCoef t.w).2 (1 - expvSsc t.w * vdot t.w t.w) (expvCoef t.w).2 (expvSsc t.w) p := by
  simp only [tfmatExpv]
  generalize (expvCoef t.w).1 = a
  generalize (expvCoef t.w).2 = b
  generalize expvSsc t.w = d
  ext <;> simp [tfmTf, gen, skewsymScal2, skewsymScalC, rot9, vadd, vscal, cross, vdot] <;> ring

/-- the doubled twist: `aa_tf_qv_expv` and `aa_tf_duqu_exp` take half of what `aa_tf_tfmat_expv`
takes, as their callers (`aa_tf_qv_svel`, `aa_tf_duqu_stwist`) do. -/
noncomputable def Dx.half (t : Dx) : Dx := ⟨vscal (1 / 2) t.v, vscal (1 / 2) t.w⟩

theorem qutrExpv_gen (t : Dx) (p : V3) :
    qutrTf (qutrExpv t.half) p =
      let k := qvExpvCoef t.half.w
      gen t (1 - k.1 ^ 2 / 2 * vdot t.w t.w) (k.1 * k.2.1) (k.1 ^ 2 / 2) (k.1 * k.2.1) (k.1 ^ 2 / 2)
        (k.2.2 / 8) p := by
  simp only [qutrExpv]
  generalize (qvExpvCoef t.half.w).1 = m
  generalize (qvExpvCoef t.half.w).2.1 = c
  generalize (qvExpvCoef t.half.w).2.2 = d
  ext <;> simp [qutrTf, gen, vadd, vscal, cross, vdot, Dx.half, mkq] <;> ring

theorem duquExp_gen (t : Dx) (p : V3) :
    duquTf (duquExp t.half.pure) p =
      let k := duquExpCoef t.half.w
      gen t (k.2.1 ^ 2 - k.1 ^ 2 / 4 * vdot t.w t.w) (k.1 * k.2.1) (k.1 ^ 2 / 2) (k.1 * k.2.1)
        (k.1 ^ 2 / 2) ((k.2.1 * k.2.2 + k.1 ^ 2) / 4) p := by
  have e : (duquExp t.half.pure) = 
      let k := duquExpCoef t.half.w
      ⟨⟨k.1 * t.half.w.x, k.1 * t.half.w.y, k.1 * t.half.w.z, k.2.1⟩,
        ⟨k.1 * t.half.v.x + k.2.2 * vdot t.half.w t.half.v * t.half.w.x,
         k.1 * t.half.v.y + k.2.2 * vdot t.half.w t.half.v * t.half.w.y,
         k.1 * t.half.v.z + k.2.2 * vdot t.half.w t.half.v * t.half.w.z,
         -k.1 * vdot t.half.w t.half.v⟩⟩ := by
    simp [duquExp, Dx.pure, mkq, Quat.vec]
  simp only [e]
  generalize (duquExpCoef t.half.w).1 = m
  generalize (duquExpCoef t.half.w).2.1 = c
  generalize (duquExpCoef t.half.w).2.2 = d
  ext <;> simp [duquTf, qmulQV, qmulQVv, qmulcV, gen, vadd, vscal, cross, vdot, Dx.half, mkq, Quat.vec] <;> ring

/-! ## Distance between two such maps -/

theorem vnorm_cross_le (a b : V3) : vnorm (cross a b) ≤ vnorm a * vnorm b := by
  have h1 := vnorm_nonneg a
  have h2 := vnorm_nonneg b
  apply abs_le_of_sq_le_sq' _ (mul_nonneg h1 h2) |>.2
  have e : vdot (cross a b) (cross a b) = vdot a a * vdot b b - vdot a b ^ 2 := by
    simp [vdot, cross]; ring
  have := sq_nonneg (vdot a b)
  rw [pow_two, vnorm_sq, e, mul_pow, pow_two (vnorm a), pow_two (vnorm b), vnorm_sq, vnorm_sq]
  linarith

theorem vdot_le (a b : V3) : |vdot a b| ≤ vnorm a * vnorm b := by
  apply abs_le_of_sq_le_sq _ (mul_nonneg (vnorm_nonneg a) (vnorm_nonneg b))
  have e : vdot (cross a b) (cross a b) = vdot a a * vdot b b - vdot a b ^ 2 := by
    simp [vdot, cross]; ring
  have h : 0 ≤ vdot (cross a b) (cross a b) := by
    rw [← vnorm_sq]; exact mul_self_nonneg _
  rw [mul_pow, pow_two (vnorm a), pow_two (vnorm b), vnorm_sq, vnorm_sq]
  linarith

theorem gen_err (t : Dx) (p : V3) (e a b f g d e' a' b' f' g' d' : ℝ) :
    ‖(gen t e a b f g d p).pure - (gen t e' a' b' f' g' d' p).pure‖ ≤
      (|e - e'| + |(a - a') * vnorm t.w| + |(b - b') * (vnorm t.w * vnorm t.w)|) * vnorm p +
      (|f - f'| + |(g - g') * vnorm t.w| + |(d - d') * (vnorm t.w * vnorm t.w)|) * vnorm t.v := by
  have hθ := vnorm_nonneg t.w
  have E : (gen t e a b f g d p).pure - (gen t e' a' b' f' g' d' p).pure =
      (e - e') • p.pure + (a - a') • (cross t.w p).pure + ((b - b') * vdot t.w p) • t.w.pure +
      ((f - f') • t.v.pure + (g - g') • (cross t.w t.v).pure +
        ((d - d') * vdot t.w t.v) • t.w.pure) := by
    ext <;> simp [gen, vadd, vscal] <;> ring
  have key : ∀ (e a b : ℝ) (q : V3),
      ‖e • q.pure + a • (cross t.w q).pure + (b * vdot t.w q) • t.w.pure‖ ≤
      (|e| + |a * vnorm t.w| + |b * (vnorm t.w * vnorm t.w)|) * vnorm q := by
    intro e a b q
    refine (norm_add₃_le).trans ?_
    simp only [norm_smul, Real.norm_eq_abs, norm_pure, abs_mul, abs_of_nonneg hθ]
    have h1 := mul_le_mul_of_nonneg_left (vnorm_cross_le t.w q) (abs_nonneg a)
    have h2 := mul_le_mul_of_nonneg_right
      (mul_le_mul_of_nonneg_left (vdot_le t.w q) (abs_nonneg b)) hθ
    linarith
  rw [E]
  refine (norm_add_le _ _).trans (add_le_add (key _ _ _ _) (key _ _ _ _))

/-! ## Errors of the series -/

theorem series_theta_bound {x : ℝ} (hx : 0 ≤ x) (n : ℕ) (h : (x * x) * (x * x) < 2⁻¹ ^ (4 * n)) :
    x < 2⁻¹ ^ n := by
  by_contra hc
  push Not at hc
  have h0 : (0 : ℝ) ≤ 2⁻¹ ^ n := by positivity
  have := mul_le_mul (mul_le_mul hc hc h0 hx) (mul_le_mul hc hc h0 hx) (by positivity) (by positivity)
  have e : (2⁻¹ : ℝ) ^ (4 * n) = 2⁻¹ ^ n * 2⁻¹ ^ n * (2⁻¹ ^ n * 2⁻¹ ^ n) := by
    rw [← pow_add, ← pow_add]; congr 1; ring
  rw [e] at h
  linarith

open Taylor in
theorem tfmat_series {x : ℝ} (h0 : 0 < x) (h1 : x < 2⁻¹ ^ 13) :
    |(1 + x * x * (-1 / 6 + x * x * (1 / 120)) - Real.sin x / x) * x| ≤ x ^ 3 ∧
    |(x * (1 / 2 + x * x * (-1 / 24 + x * x * (1 / 720))) - (1 - Real.cos x) / (x * x)) * (x * x)| ≤
      x ^ 2 / 2 ∧
    |(x * (1 / 2 + x * x * (-1 / 24 + x * x * (1 / 720))) - (1 - Real.cos x) / (x * x)) * x| ≤ x / 2 ∧
    |(1 / 6 + x * x * (-1 / 120 + x * x * (1 / 5040)) - (1 - Real.sin x / x) / (x * x)) * (x * x)| ≤
      x ^ 8 := by
  have hx := h0.le
  have hne := h0.ne'
  obtain ⟨s1, s2⟩ := sinc_series hx
  have c2 := cos_ge2 hx
  have c4 := cos_le0 hx
  have s7 := sin_ge7 hx
  have s9 := sin_le9 hx
  have hx1 : x ≤ 1 := h1.le.trans (by norm_num)
  have p2 : x ^ 2 ≤ 1 := pow_le_one₀ hx hx1
  have p3 : x ^ 3 ≤ x ^ 2 := pow_le_pow_of_le_one hx hx1 (by norm_num)
  have p5 : x ^ 5 ≤ x ^ 3 := pow_le_pow_of_le_one hx hx1 (by norm_num)
  have p75 : x ^ 7 ≤ x ^ 5 := pow_le_pow_of_le_one hx hx1 (by norm_num)
  have p7 : x ^ 7 ≤ x ^ 3 := pow_le_pow_of_le_one hx hx1 (by norm_num)
  have q3 : 0 ≤ x ^ 3 := by positivity
  have q5 : 0 ≤ x ^ 5 := by positivity
  have q7 : 0 ≤ x ^ 7 := by positivity
  have q9 : 0 ≤ x ^ 9 := by positivity
  have B : |(x * (1 / 2 + x * x * (-1 / 24 + x * x * (1 / 720))) - (1 - Real.cos x) / (x * x)) * (x * x)| ≤
      x ^ 2 / 2 := by
    have e : (x * (1 / 2 + x * x * (-1 / 24 + x * x * (1 / 720))) - (1 - Real.cos x) / (x * x)) * (x * x)
      = x ^ 3 / 2 - x ^ 5 / 24 + x ^ 7 / 720 - (1 - Real.cos x) := by field_simp; ring
    rw [e, abs_le]
    constructor <;> linarith
  refine ⟨?_, B, ?_, ?_⟩
  · have e : (1 + x * x * (-1 / 6 + x * x * (1 / 120)) - Real.sin x / x) * x =
      (1 + x * x * (-1 / 6 + x * x * (1 / 120))) * x - Real.sin x := by field_simp
    rw [e, abs_le]
    constructor <;> linarith
  · have e : (x * (1 / 2 + x * x * (-1 / 24 + x * x * (1 / 720))) - (1 - Real.cos x) / (x * x)) * (x * x) =
      x * ((x * (1 / 2 + x * x * (-1 / 24 + x * x * (1 / 720))) - (1 - Real.cos x) / (x * x)) * x) := by
      ring
    rw [e, abs_mul, abs_of_pos h0] at B
    have e2 : x ^ 2 / 2 = x * (x / 2) := by ring
    rw [e2] at B
    exact le_of_mul_le_mul_left B h0
  · have e : (1 / 6 + x * x * (-1 / 120 + x * x * (1 / 5040)) - (1 - Real.sin x / x) / (x * x)) * (x * x)
      = (Real.sin x - (x - x ^ 3 / 6 + x ^ 5 / 120 - x ^ 7 / 5040)) / x := by field_simp; ring
    rw [e, abs_le, le_div_iff₀ h0, div_le_iff₀ h0]
    have e9 : x ^ 8 * x = x ^ 9 := by ring
    constructor <;> linarith

/-- the exact coefficients in terms of the half angle. -/
theorem half_trig {x : ℝ} : Real.cos (2 * x) = Real.cos x ^ 2 - Real.sin x ^ 2 ∧
    Real.sin (2 * x) = 2 * (Real.sin x * Real.cos x) ∧ 1 - Real.cos (2 * x) = 2 * Real.sin x ^ 2 := by
  have := Real.sin_sq_add_cos_sq x
  refine ⟨Real.cos_two_mul' x, by rw [Real.sin_two_mul]; ring, ?_⟩
  rw [Real.cos_two_mul']; linarith

open Taylor in
/-- products of the two series against `sin` and `cos`, `x` the half angle. -/
theorem half_series {x : ℝ} (h0 : 0 < x) (h1 : x ≤ 1) :
    let m := 1 + x * x * (-1 / 6 + x * x * (1 / 120))
    let c := 1 + x * x * (-1 / 2 + x * x * (1 / 24))
    |m * x * c - Real.sin x * Real.cos x| ≤ x ^ 7 / 500 ∧
    |(m * x) ^ 2 - Real.sin x ^ 2| ≤ x ^ 8 / 1600 ∧
    |c ^ 2 - Real.cos x ^ 2| ≤ x ^ 6 / 300 := by
  intro m c
  have hx := h0.le
  obtain ⟨s1, s2⟩ := sinc_series hx
  obtain ⟨c1, c2⟩ := cos_series hx
  change Real.sin x ≤ m * x at s1
  change m * x - x ^ 7 / 5040 ≤ Real.sin x at s2
  change Real.cos x ≤ c at c1
  change c - x ^ 6 / 720 ≤ Real.cos x at c2
  have q : x * x ≤ 1 := by nlinarith
  have q0 : 0 ≤ x * x := by positivity
  have hc0 : 0 ≤ c := by
    have : c = 1 - x * x / 2 + x * x * (x * x) / 24 := by simp only [c]; ring
    have : 0 ≤ x * x * (x * x) := by positivity
    linarith
  have hc1 : c ≤ 1 := by
    have e : c = 1 - x * x / 2 + x * x * (x * x) / 24 := by simp only [c]; ring
    have : x * x * (x * x) ≤ x * x := by nlinarith
    linarith
  have hm0 : 0 ≤ m * x := by
    have e : m = 1 - x * x / 6 + x * x * (x * x) / 120 := by simp only [m]; ring
    have : 0 ≤ x * x * (x * x) := by positivity
    have : 0 ≤ m := by linarith
    positivity
  have hm1 : m * x ≤ x := by
    have e : m = 1 - x * x / 6 + x * x * (x * x) / 120 := by simp only [m]; ring
    have : x * x * (x * x) ≤ x * x := by nlinarith
    have : m ≤ 1 := by linarith
    nlinarith
  generalize hσ : m * x = σ at *
  have p7 : x ^ 7 ≤ x := by
    have := pow_le_pow_of_le_one hx h1 (show 1 ≤ 7 by norm_num); linarith
  have p6 : x ^ 6 ≤ 1 := pow_le_one₀ hx h1
  have q7 : 0 ≤ x ^ 7 := by positivity
  have q6 : 0 ≤ x ^ 6 := by positivity
  have sl : Real.sin x ≤ x := sin_le1 hx
  have cl := Real.cos_le_one x
  have cg : 0 ≤ Real.cos x := by have := cos_ge2 hx; nlinarith
  have sg : 0 ≤ Real.sin x := by have := sin_ge3 hx; nlinarith
  refine ⟨?_, ?_, ?_⟩
  · have e : σ * c - Real.sin x * Real.cos x = (σ - Real.sin x) * c + Real.sin x * (c - Real.cos x) := by
      ring
    have b1 : (σ - Real.sin x) * c ≤ x ^ 7 / 5040 * 1 :=
      mul_le_mul (by linarith) hc1 hc0 (by positivity)
    have b2 : Real.sin x * (c - Real.cos x) ≤ x * (x ^ 6 / 720) :=
      mul_le_mul sl (by linarith) (by linarith) hx
    have b3 : 0 ≤ (σ - Real.sin x) * c := mul_nonneg (by linarith) hc0
    have b4 : 0 ≤ Real.sin x * (c - Real.cos x) := mul_nonneg sg (by linarith)
    have e7 : x * (x ^ 6 / 720) = x ^ 7 / 720 := by ring
    rw [e, abs_of_nonneg (by linarith)]
    linarith
  · have e : σ ^ 2 - Real.sin x ^ 2 = (σ - Real.sin x) * (σ + Real.sin x) := by ring
    have b1 : (σ - Real.sin x) * (σ + Real.sin x) ≤ x ^ 7 / 5040 * (2 * x) :=
      mul_le_mul (by linarith) (by linarith) (by linarith) (by positivity)
    have e8 : x ^ 7 / 5040 * (2 * x) = x ^ 8 / 2520 := by ring
    have q8 : 0 ≤ x ^ 8 := by positivity
    rw [e, abs_of_nonneg (mul_nonneg (by linarith) (by linarith))]
    linarith
  · have e : c ^ 2 - Real.cos x ^ 2 = (c - Real.cos x) * (c + Real.cos x) := by ring
    have b1 : (c - Real.cos x) * (c + Real.cos x) ≤ x ^ 6 / 720 * 2 :=
      mul_le_mul (by linarith) (by linarith) (by linarith) (by positivity)
    rw [e, abs_of_nonneg (mul_nonneg (by linarith) (by linarith))]
    linarith

open Taylor in
/-- `aa_tf_qv_expv`, coefficient of `(w·v) w`. -/
theorem qutr_d_series {x : ℝ} (h0 : 0 < x) :
    |(4 / 3 + x * x * (-4 / 15 + x * x * (8 / 315))) * (x * x) / 2 -
      (1 - Real.sin (2 * x) / (2 * x))| ≤ x ^ 8 / 1000 := by
  have s7 := sin_ge7 (x := 2 * x) (by linarith)
  have s9 := sin_le9 (x := 2 * x) (by linarith)
  have e : (4 / 3 + x * x * (-4 / 15 + x * x * (8 / 315))) * (x * x) / 2 -
      (1 - Real.sin (2 * x) / (2 * x)) =
      (Real.sin (2 * x) - (2 * x - (2 * x) ^ 3 / 6 + (2 * x) ^ 5 / 120 - (2 * x) ^ 7 / 5040)) / (2 * x) := by
    field_simp; ring
  have q9 : 0 ≤ x ^ 9 := by positivity
  rw [e, abs_le, le_div_iff₀ (by linarith), div_le_iff₀ (by linarith)]
  have e9 : (2 * x) ^ 9 = 512 * x ^ 9 := by ring
  have e10 : x ^ 8 / 1000 * (2 * x) = x ^ 9 / 500 := by ring
  have e11 : -(x ^ 8 / 1000) * (2 * x) = -(x ^ 9 / 500) := by ring
  rw [e10, e11]
  constructor <;> linarith

open Taylor in
/-- `aa_tf_duqu_exp`, coefficient `k_d`. -/
theorem duqu_d_series {x : ℝ} (h0 : 0 < x) :
    |(-1 / 3 + x * x * (1 / 30 + x * x * (-1 / 840))) * (x * x) -
      (Real.cos x - Real.sin x / x)| ≤ x ^ 8 / 10000 := by
  have hx := h0.le
  have s7 := sin_ge7 hx
  have s9 := sin_le9 hx
  have c6 := cos_ge6 hx
  have c8 := cos_le8 hx
  have q9 : 0 ≤ x ^ 9 := by positivity
  have e : (-1 / 3 + x * x * (1 / 30 + x * x * (-1 / 840))) * (x * x) -
      (Real.cos x - Real.sin x / x) =
      ((1 - x ^ 2 / 2 + x ^ 4 / 24 - x ^ 6 / 720 - Real.cos x) * x +
       (Real.sin x - (x - x ^ 3 / 6 + x ^ 5 / 120 - x ^ 7 / 5040))) / x := by
    field_simp; ring
  have b1 : (1 - x ^ 2 / 2 + x ^ 4 / 24 - x ^ 6 / 720 - Real.cos x) * x ≤ 0 :=
    mul_nonpos_of_nonpos_of_nonneg (by linarith) hx
  have b2 : -(x ^ 8 / 40320) * x ≤ (1 - x ^ 2 / 2 + x ^ 4 / 24 - x ^ 6 / 720 - Real.cos x) * x :=
    mul_le_mul_of_nonneg_right (by linarith) hx
  rw [e, abs_le, le_div_iff₀ h0, div_le_iff₀ h0]
  have e10 : x ^ 8 / 10000 * x = x ^ 9 / 10000 := by ring
  have e11 : -(x ^ 8 / 10000) * x = -(x ^ 9 / 10000) := by ring
  have e12 : -(x ^ 8 / 40320) * x = -(x ^ 9 / 40320) := by ring
  rw [e10, e11]
  rw [e12] at b2
  constructor <;> linarith

/-! ## C32 -/

theorem vnorm_half (t : Dx) : vnorm t.half.w = vnorm t.w / 2 := by
  simp only [Dx.half]
  rw [vnorm_vscal, abs_of_pos (by norm_num)]; ring

/-- **C32 (trigonometric branch).**  The transformation matrix, quaternion-translation and dual
quaternion exponentials of a twist are all the time-one flow of the differential equation
`x' = w × x + v`; hence they are the same rigid motion.  The flow `X` is any solution. -/
theorem C32_tfmat_expv (t : Dx) (X : ℝ → V3) (h : IsFlow t X)
    (hb : dblEpsilon ≤ vdot t.w t.w * vdot t.w t.w) :
    tfmTf (tfmatExpv t) (X 0) = X 1 := by
  have hn : vnorm t.w ≠ 0 := by
    intro h0
    rw [← vnorm_sq, h0] at hb
    norm_num [dblEpsilon] at hb
  rw [tfmatExpv_gen, flow_one t X h hn]
  have hs := vnorm_sq t.w
  simp only [expvCoef, expvSsc, if_neg (not_lt.2 hb)]
  change gen t (1 - (1 - Real.cos (vnorm t.w)) / vdot t.w t.w * vdot t.w t.w)
    (Real.sin (vnorm t.w) / vnorm t.w) ((1 - Real.cos (vnorm t.w)) / vdot t.w t.w)
    (1 - (1 - Real.sin (vnorm t.w) / vnorm t.w) / vdot t.w t.w * vdot t.w t.w)
    ((1 - Real.cos (vnorm t.w)) / vdot t.w t.w)
    ((1 - Real.sin (vnorm t.w) / vnorm t.w) / vdot t.w t.w) (X 0) = _
  rw [← hs]
  congr 1 <;> field_simp <;> ring

theorem C32_qutr_expv (t : Dx) (X : ℝ → V3) (h : IsFlow t X)
    (hb : Real.sqrt dblEpsilon ≤ vdot t.half.w t.half.w) :
    qutrTf (qutrExpv t.half) (X 0) = X 1 := by
  have hs := vnorm_sq t.half.w
  have hn2 : vnorm t.half.w ≠ 0 := by
    intro h0
    rw [← vnorm_sq, h0] at hb
    have : 0 < Real.sqrt dblEpsilon := Real.sqrt_pos.2 (by norm_num [dblEpsilon])
    linarith
  have hn : vnorm t.w ≠ 0 := by
    rw [vnorm_half] at hn2
    intro h0; rw [h0] at hn2; simp at hn2
  rw [qutrExpv_gen, flow_one t X h hn]
  simp only [qvExpvCoef, if_neg (not_lt.2 hb)]
  change gen t (1 - (Real.sin (vnorm t.half.w) / vnorm t.half.w) ^ 2 / 2 * vdot t.w t.w)
    (Real.sin (vnorm t.half.w) / vnorm t.half.w * Real.cos (vnorm t.half.w))
    ((Real.sin (vnorm t.half.w) / vnorm t.half.w) ^ 2 / 2)
    (Real.sin (vnorm t.half.w) / vnorm t.half.w * Real.cos (vnorm t.half.w))
    ((Real.sin (vnorm t.half.w) / vnorm t.half.w) ^ 2 / 2)
    ((2 - Real.cos (vnorm t.half.w) * (2 * (Real.sin (vnorm t.half.w) / vnorm t.half.w))) /
      vdot t.half.w t.half.w / 8) (X 0) = _
  rw [← hs, ← vnorm_sq t.w]
  have e : vnorm t.w = 2 * vnorm t.half.w := by rw [vnorm_half]; ring
  rw [e]
  obtain ⟨h1, h2, h3⟩ := half_trig (x := vnorm t.half.w)
  have h4 := Real.sin_sq_add_cos_sq (vnorm t.half.w)
  rw [h3, h1, h2]
  congr 1
  · field_simp; linear_combination -h4
  all_goals (field_simp; try ring)

theorem C32_duqu_exp (t : Dx) (X : ℝ → V3) (h : IsFlow t X)
    (hb : dblEpsilon ≤ vdot t.half.w t.half.w) :
    duquTf (duquExp t.half.pure) (X 0) = X 1 := by
  have hs := vnorm_sq t.half.w
  have hn2 : vnorm t.half.w ≠ 0 := by
    intro h0
    rw [← vnorm_sq, h0] at hb
    norm_num [dblEpsilon] at hb
  have hn : vnorm t.w ≠ 0 := by
    rw [vnorm_half] at hn2
    intro h0; rw [h0] at hn2; simp at hn2
  rw [duquExp_gen, flow_one t X h hn]
  simp only [duquExpCoef, if_neg (not_lt.2 hb)]
  change gen t (Real.cos (vnorm t.half.w) ^ 2 -
      (Real.sin (vnorm t.half.w) / vnorm t.half.w) ^ 2 / 4 * vdot t.w t.w)
    (Real.sin (vnorm t.half.w) / vnorm t.half.w * Real.cos (vnorm t.half.w))
    ((Real.sin (vnorm t.half.w) / vnorm t.half.w) ^ 2 / 2)
    (Real.sin (vnorm t.half.w) / vnorm t.half.w * Real.cos (vnorm t.half.w))
    ((Real.sin (vnorm t.half.w) / vnorm t.half.w) ^ 2 / 2)
    ((Real.cos (vnorm t.half.w) * ((Real.cos (vnorm t.half.w) -
      Real.sin (vnorm t.half.w) / vnorm t.half.w) / vdot t.half.w t.half.w) +
      (Real.sin (vnorm t.half.w) / vnorm t.half.w) ^ 2) / 4) (X 0) = _
  rw [← hs, ← vnorm_sq t.w]
  have e : vnorm t.w = 2 * vnorm t.half.w := by rw [vnorm_half]; ring
  rw [e]
  obtain ⟨h1, h2, h3⟩ := half_trig (x := vnorm t.half.w)
  have h4 := Real.sin_sq_add_cos_sq (vnorm t.half.w)
  rw [h3, h1, h2]
  congr 1
  · field_simp; ring
  · field_simp
  · field_simp
  · field_simp
  · field_simp
  · field_simp; linear_combination 4 * vnorm t.half.w * h4

/-! ### The series branches -/

theorem gen_zero {t : Dx} (hw : t.w = ⟨0, 0, 0⟩) (e a b f g d : ℝ) (p : V3) :
    gen t e a b f g d p = vadd (vscal e p) (vscal f t.v) := by
  ext <;> simp [gen, hw, cross, vdot, vadd, vscal]

theorem flow_zero {t : Dx} (h0 : vnorm t.w = 0) (X : ℝ → V3) (h : IsFlow t X) :
    X 1 = vadd (X 0) t.v := by
  have := flow_closed t X h 1
  rw [gen_zero (vnorm_eq_zero h0), h0] at this
  rw [this]
  ext <;> simp [vadd, vscal]

/-- **C32 (series branch), quaternion-translation.**  In the series branch the result is off by at
most the truncated terms: `2⁻⁸⁴` relative to the sizes of the point and of the twist. -/
theorem C32_qutr_expv_series (t : Dx) (X : ℝ → V3) (h : IsFlow t X)
    (hb : vdot t.half.w t.half.w < Real.sqrt dblEpsilon) :
    ‖(qutrTf (qutrExpv t.half) (X 0)).pure - (X 1).pure‖ ≤
      2⁻¹ ^ 84 * (vnorm (X 0) + vnorm t.v) := by
  have hs := vnorm_sq t.half.w
  have hp := vnorm_nonneg (X 0)
  have hv := vnorm_nonneg t.v
  by_cases hn : vnorm t.w = 0
  · have hw2 : vdot t.half.w t.half.w = 0 := by rw [← hs, vnorm_half, hn]; simp
    have hw1 : vdot t.w t.w = 0 := by rw [← vnorm_sq, hn]; simp
    have e : qutrTf (qutrExpv t.half) (X 0) = X 1 := by
      rw [qutrExpv_gen, flow_zero hn X h]
      simp only [qvExpvCoef, if_pos hb]
      rw [gen_zero (vnorm_eq_zero hn), hw1, hw2]
      ext <;> simp [vadd, vscal, sincSeries2, cosSeries2, horner3]
    rw [e, sub_self, norm_zero]
    positivity
  · have hx0 : 0 < vnorm t.half.w := by
      rw [vnorm_half]
      have := lt_of_le_of_ne (vnorm_nonneg t.w) (Ne.symm hn)
      linarith
    have hx1 : vnorm t.half.w < 2⁻¹ ^ 13 := by
      have e : Real.sqrt dblEpsilon = 2⁻¹ ^ 13 * 2⁻¹ ^ 13 := by
        rw [Real.sqrt_eq_iff_mul_self_eq (by norm_num [dblEpsilon]) (by positivity)]
        norm_num [dblEpsilon]
      rw [← hs, e] at hb
      by_contra hc
      push Not at hc
      have := mul_le_mul hc hc (by positivity) hx0.le
      linarith
    rw [qutrExpv_gen, flow_one t X h hn]
    simp only [qvExpvCoef, if_pos hb, sincSeries2, cosSeries2, horner3]
    refine (gen_err _ _ _ _ _ _ _ _ _ _ _ _ _ _).trans ?_
    have e : vnorm t.w = 2 * vnorm t.half.w := by rw [vnorm_half]; ring
    rw [← hs, ← vnorm_sq t.w, e]
    obtain ⟨h1, h2, h3⟩ := half_trig (x := vnorm t.half.w)
    have dS := qutr_d_series hx0
    rw [h2] at dS
    rw [h3, h1, h2]
    have h4 := Real.sin_sq_add_cos_sq (vnorm t.half.w)
    obtain ⟨A, B, -⟩ := half_series hx0 (hx1.le.trans (by norm_num))
    generalize vnorm t.half.w = x at *
    generalize Real.sin x = S at *
    generalize Real.cos x = C at *
    have hne := hx0.ne'
    set m := 1 + x * x * (-1 / 6 + x * x * (1 / 120)) with hm
    set c := 1 + x * x * (-1 / 2 + x * x * (1 / 24)) with hc
    set d := 4 / 3 + x * x * (-4 / 15 + x * x * (8 / 315)) with hd
    have E1 : |1 - m ^ 2 / 2 * (2 * x * (2 * x)) - (C ^ 2 - S ^ 2)| ≤ x ^ 8 / 800 := by
      have e : 1 - m ^ 2 / 2 * (2 * x * (2 * x)) - (C ^ 2 - S ^ 2) = -2 * ((m * x) ^ 2 - S ^ 2) := by
        linear_combination -h4
      rw [e, abs_mul]; norm_num; linarith
    have E2 : |(m * c - 2 * (S * C) / (2 * x)) * (2 * x)| ≤ x ^ 7 / 250 := by
      have e : (m * c - 2 * (S * C) / (2 * x)) * (2 * x) = 2 * (m * x * c - S * C) := by
        field_simp
      rw [e, abs_mul]; norm_num; linarith
    have E3 : |(m ^ 2 / 2 - 2 * S ^ 2 / (2 * x * (2 * x))) * (2 * x * (2 * x))| ≤ x ^ 8 / 800 := by
      have e : (m ^ 2 / 2 - 2 * S ^ 2 / (2 * x * (2 * x))) * (2 * x * (2 * x)) =
          2 * ((m * x) ^ 2 - S ^ 2) := by field_simp
      rw [e, abs_mul]; norm_num; linarith
    have E4 : |m * c - 2 * (S * C) / (2 * x)| ≤ x ^ 6 / 500 := by
      rw [abs_mul, abs_of_pos (show 0 < 2 * x by linarith)] at E2
      have : x ^ 7 / 250 = x ^ 6 / 500 * (2 * x) := by ring
      rw [this] at E2
      exact le_of_mul_le_mul_right E2 (by linarith)
    have E5 : |(m ^ 2 / 2 - 2 * S ^ 2 / (2 * x * (2 * x))) * (2 * x)| ≤ x ^ 7 / 1600 := by
      rw [← mul_assoc, abs_mul, abs_of_pos (show 0 < 2 * x by linarith)] at E3
      have : x ^ 8 / 800 = x ^ 7 / 1600 * (2 * x) := by ring
      rw [this] at E3
      exact le_of_mul_le_mul_right E3 (by linarith)
    have E6 : |(d / 8 - (1 - 2 * (S * C) / (2 * x)) / (2 * x * (2 * x))) * (2 * x * (2 * x))| ≤
        x ^ 8 / 1000 := by
      have e : (d / 8 - (1 - 2 * (S * C) / (2 * x)) / (2 * x * (2 * x))) * (2 * x * (2 * x)) =
        d * (x * x) / 2 - (1 - 2 * (S * C) / (2 * x)) := by field_simp; ring
      rw [e]; exact dS
    have hx1' : x ≤ 1 := hx1.le.trans (by norm_num)
    have p6 : x ^ 6 ≤ (2⁻¹ ^ 13) ^ 6 := pow_le_pow_left₀ hx0.le hx1.le 6
    have p7 : x ^ 7 ≤ (2⁻¹ ^ 13) ^ 7 := pow_le_pow_left₀ hx0.le hx1.le 7
    have p8 : x ^ 8 ≤ (2⁻¹ ^ 13) ^ 8 := pow_le_pow_left₀ hx0.le hx1.le 8
    norm_num at p6 p7 p8
    have N : (2⁻¹ : ℝ) ^ 84 = 1 / 19342813113834066795298816 := by norm_num
    rw [mul_add (2⁻¹ ^ 84 : ℝ)]
    apply add_le_add
    · refine mul_le_mul_of_nonneg_right ?_ hp
      rw [N]; linarith
    · refine mul_le_mul_of_nonneg_right ?_ hv
      rw [N]; linarith

/-- **C32 (series branch), dual quaternions.** -/
theorem C32_duqu_exp_series (t : Dx) (X : ℝ → V3) (h : IsFlow t X)
    (hb : vdot t.half.w t.half.w < dblEpsilon) :
    ‖(duquTf (duquExp t.half.pure) (X 0)).pure - (X 1).pure‖ ≤
      2⁻¹ ^ 160 * (vnorm (X 0) + vnorm t.v) := by
  have hs := vnorm_sq t.half.w
  have hp := vnorm_nonneg (X 0)
  have hv := vnorm_nonneg t.v
  by_cases hn : vnorm t.w = 0
  · have hw2 : vdot t.half.w t.half.w = 0 := by rw [← hs, vnorm_half, hn]; simp
    have hw1 : vdot t.w t.w = 0 := by rw [← vnorm_sq, hn]; simp
    have e : duquTf (duquExp t.half.pure) (X 0) = X 1 := by
      rw [duquExp_gen, flow_zero hn X h]
      simp only [duquExpCoef, if_pos hb]
      rw [gen_zero (vnorm_eq_zero hn), hw1, hw2]
      ext <;> simp [vadd, vscal, sincSeries2, cosSeries2, horner3]
    rw [e, sub_self, norm_zero]
    positivity
  · have hx0 : 0 < vnorm t.half.w := by
      rw [vnorm_half]
      have := lt_of_le_of_ne (vnorm_nonneg t.w) (Ne.symm hn)
      linarith
    have hx1 : vnorm t.half.w < 2⁻¹ ^ 26 := by
      have e : dblEpsilon = 2⁻¹ ^ 26 * 2⁻¹ ^ 26 := by norm_num [dblEpsilon]
      rw [← hs, e] at hb
      by_contra hc
      push Not at hc
      have := mul_le_mul hc hc (by positivity) hx0.le
      linarith
    rw [duquExp_gen, flow_one t X h hn]
    simp only [duquExpCoef, if_pos hb, sincSeries2, cosSeries2, horner3]
    refine (gen_err _ _ _ _ _ _ _ _ _ _ _ _ _ _).trans ?_
    have e : vnorm t.w = 2 * vnorm t.half.w := by rw [vnorm_half]; ring
    rw [← hs, ← vnorm_sq t.w, e]
    obtain ⟨h1, h2, h3⟩ := half_trig (x := vnorm t.half.w)
    have dS := duqu_d_series hx0
    rw [h3, h1, h2]
    have h4 := Real.sin_sq_add_cos_sq (vnorm t.half.w)
    have hC1 : |Real.cos (vnorm t.half.w)| ≤ 1 := Real.abs_cos_le_one _
    have hx1' : vnorm t.half.w ≤ 1 := hx1.le.trans (by norm_num)
    obtain ⟨A, B, D⟩ := half_series hx0 hx1'
    obtain ⟨c1, c2⟩ := Taylor.cos_series hx0.le
    generalize vnorm t.half.w = x at *
    generalize Real.sin x = S at *
    generalize Real.cos x = C at *
    have hne := hx0.ne'
    set m := 1 + x * x * (-1 / 6 + x * x * (1 / 120)) with hm
    set c := 1 + x * x * (-1 / 2 + x * x * (1 / 24)) with hc
    set d := -1 / 3 + x * x * (1 / 30 + x * x * (-1 / 840)) with hd
    have q6 : 0 ≤ x ^ 6 := by positivity
    have q86 : x ^ 8 ≤ x ^ 6 := pow_le_pow_of_le_one hx0.le hx1' (by norm_num)
    have E1 : |c ^ 2 - m ^ 2 / 4 * (2 * x * (2 * x)) - (C ^ 2 - S ^ 2)| ≤ x ^ 6 / 200 := by
      have e : c ^ 2 - m ^ 2 / 4 * (2 * x * (2 * x)) - (C ^ 2 - S ^ 2) =
        (c ^ 2 - C ^ 2) - ((m * x) ^ 2 - S ^ 2) := by ring
      rw [e]
      refine (abs_sub _ _).trans ?_
      linarith
    have E2 : |(m * c - 2 * (S * C) / (2 * x)) * (2 * x)| ≤ x ^ 7 / 250 := by
      have e : (m * c - 2 * (S * C) / (2 * x)) * (2 * x) = 2 * (m * x * c - S * C) := by
        field_simp
      rw [e, abs_mul]; norm_num; linarith
    have E3 : |(m ^ 2 / 2 - 2 * S ^ 2 / (2 * x * (2 * x))) * (2 * x * (2 * x))| ≤ x ^ 8 / 800 := by
      have e : (m ^ 2 / 2 - 2 * S ^ 2 / (2 * x * (2 * x))) * (2 * x * (2 * x)) =
          2 * ((m * x) ^ 2 - S ^ 2) := by field_simp
      rw [e, abs_mul]; norm_num; linarith
    have E4 : |m * c - 2 * (S * C) / (2 * x)| ≤ x ^ 6 / 500 := by
      rw [abs_mul, abs_of_pos (show 0 < 2 * x by linarith)] at E2
      have : x ^ 7 / 250 = x ^ 6 / 500 * (2 * x) := by ring
      rw [this] at E2
      exact le_of_mul_le_mul_right E2 (by linarith)
    have E5 : |(m ^ 2 / 2 - 2 * S ^ 2 / (2 * x * (2 * x))) * (2 * x)| ≤ x ^ 7 / 1600 := by
      rw [← mul_assoc, abs_mul, abs_of_pos (show 0 < 2 * x by linarith)] at E3
      have : x ^ 8 / 800 = x ^ 7 / 1600 * (2 * x) := by ring
      rw [this] at E3
      exact le_of_mul_le_mul_right E3 (by linarith)
    have hdx : |d * (x * x)| ≤ 1 := by
      have e : d * (x * x) = -(x ^ 2) / 3 + x ^ 4 / 30 - x ^ 6 / 840 := by rw [hd]; ring
      have p2 : x ^ 2 ≤ 1 := pow_le_one₀ hx0.le hx1'
      have p4 : x ^ 4 ≤ 1 := pow_le_one₀ hx0.le hx1'
      have p6 : x ^ 6 ≤ 1 := pow_le_one₀ hx0.le hx1'
      have : 0 ≤ x ^ 2 := by positivity
      have : 0 ≤ x ^ 4 := by positivity
      rw [e, abs_le]; constructor <;> linarith
    have hcC : |c - C| ≤ x ^ 6 / 720 := by rw [abs_le]; constructor <;> linarith
    have E6 : |((c * d + m ^ 2) / 4 - (1 - 2 * (S * C) / (2 * x)) / (2 * x * (2 * x))) * (2 * x * (2 * x))| ≤
        x ^ 6 / 300 := by
      have e : ((c * d + m ^ 2) / 4 - (1 - 2 * (S * C) / (2 * x)) / (2 * x * (2 * x))) * (2 * x * (2 * x)) =
        (c - C) * (d * (x * x)) + C * (d * (x * x) - (C - S / x)) + ((m * x) ^ 2 - S ^ 2) := by
        field_simp; linear_combination 4 * x * h4
      rw [e]
      refine (abs_add_three _ _ _).trans ?_
      rw [abs_mul (c - C), abs_mul C]
      have b1 := mul_le_mul hcC hdx (abs_nonneg _) (by positivity)
      have b2 := mul_le_mul hC1 dS (abs_nonneg _) (by norm_num)
      linarith
    have p6 : x ^ 6 ≤ (2⁻¹ ^ 26) ^ 6 := pow_le_pow_left₀ hx0.le hx1.le 6
    have p7 : x ^ 7 ≤ (2⁻¹ ^ 26) ^ 7 := pow_le_pow_left₀ hx0.le hx1.le 7
    have p8 : x ^ 8 ≤ (2⁻¹ ^ 26) ^ 8 := pow_le_pow_left₀ hx0.le hx1.le 8
    norm_num at p6 p7 p8
    have N : (2⁻¹ : ℝ) ^ 160 = 1 / 1461501637330902918203684832716283019655932542976 := by norm_num
    rw [mul_add (2⁻¹ ^ 160 : ℝ)]
    apply add_le_add
    · refine mul_le_mul_of_nonneg_right ?_ hp
      rw [N]; linarith
    · refine mul_le_mul_of_nonneg_right ?_ hv
      rw [N]; linarith

/-- **C32 (series branch), matrices.**  Here the code's coefficient `cc` has a spurious factor
`theta` (see `C32_violates_series`), so the error is bounded only by the size of the whole second
order term. -/
theorem C32_tfmat_expv_series_partial (t : Dx) (X : ℝ → V3) (h : IsFlow t X)
    (hb : vdot t.w t.w * vdot t.w t.w < dblEpsilon) :
    ‖(tfmTf (tfmatExpv t) (X 0)).pure - (X 1).pure‖ ≤
      2⁻¹ ^ 25 * vnorm (X 0) + 2⁻¹ ^ 13 * vnorm t.v := by
  have hs := vnorm_sq t.w
  have hp := vnorm_nonneg (X 0)
  have hv := vnorm_nonneg t.v
  by_cases hn : vnorm t.w = 0
  · have hw1 : vdot t.w t.w = 0 := by rw [← vnorm_sq, hn]; simp
    have e : tfmTf (tfmatExpv t) (X 0) = X 1 := by
      rw [tfmatExpv_gen, flow_zero hn X h, gen_zero (vnorm_eq_zero hn), hw1]
      ext <;> simp [vadd, vscal]
    rw [e, sub_self, norm_zero]
    positivity
  · have hx0 : 0 < vnorm t.w := lt_of_le_of_ne (vnorm_nonneg t.w) (Ne.symm hn)
    have hx1 : vnorm t.w < 2⁻¹ ^ 13 := by
      apply series_theta_bound hx0.le 13
      rw [hs]; norm_num [dblEpsilon] at *; linarith
    rw [tfmatExpv_gen, flow_one t X h hn]
    simp only [expvCoef, expvSsc, if_pos hb, sincSeries2, horner3]
    refine (gen_err _ _ _ _ _ _ _ _ _ _ _ _ _ _).trans ?_
    rw [← hs, Real.sqrt_mul_self hx0.le]
    obtain ⟨A, B, B', D⟩ := tfmat_series hx0 hx1
    generalize vnorm t.w = x at *
    have hne := hx0.ne'
    have hx1' : x ≤ 1 := hx1.le.trans (by norm_num)
    have E1 : |1 - x * (1 / 2 + x * x * (-1 / 24 + x * x * (1 / 720))) * (x * x) - Real.cos x| ≤
        x ^ 2 / 2 := by
      have e : 1 - x * (1 / 2 + x * x * (-1 / 24 + x * x * (1 / 720))) * (x * x) - Real.cos x =
        -((x * (1 / 2 + x * x * (-1 / 24 + x * x * (1 / 720))) - (1 - Real.cos x) / (x * x)) * (x * x)) := by
        field_simp; ring
      rw [e, abs_neg]; exact B
    have E4 : |1 - (1 / 6 + x * x * (-1 / 120 + x * x * (1 / 5040))) * (x * x) - Real.sin x / x| ≤
        x ^ 8 := by
      have e : 1 - (1 / 6 + x * x * (-1 / 120 + x * x * (1 / 5040))) * (x * x) - Real.sin x / x =
        -((1 / 6 + x * x * (-1 / 120 + x * x * (1 / 5040)) - (1 - Real.sin x / x) / (x * x)) * (x * x)) := by
        field_simp; ring
      rw [e, abs_neg]; exact D
    have p2 : x ^ 2 ≤ (2⁻¹ ^ 13) ^ 2 := pow_le_pow_left₀ hx0.le hx1.le 2
    have p3 : x ^ 3 ≤ (2⁻¹ ^ 13) ^ 3 := pow_le_pow_left₀ hx0.le hx1.le 3
    have p8 : x ^ 8 ≤ (2⁻¹ ^ 13) ^ 8 := pow_le_pow_left₀ hx0.le hx1.le 8
    norm_num at p2 p3 p8 hx1
    apply add_le_add
    · refine mul_le_mul_of_nonneg_right ?_ hp
      norm_num at *; linarith
    · refine mul_le_mul_of_nonneg_right ?_ hv
      norm_num at *; linarith

theorem abs_z_le (a b : V3) : |a.z - b.z| ≤ ‖a.pure - b.pure‖ := by
  have e : a.pure - b.pure = (V3.pure ⟨a.x - b.x, a.y - b.y, a.z - b.z⟩) := by ext <;> simp
  rw [e, norm_pure]
  apply Real.abs_le_sqrt
  simp only [vdot]
  nlinarith [sq_nonneg (a.x - b.x), sq_nonneg (a.y - b.y)]

/-- **C32 is violated** in the series branch: `cc = theta * aa_horner3(theta2, 1./2, ...)` has a
factor `theta` too many (src/tf/tfmatrix.c:272, 706). For a unit translation and an angle of
`2⁻¹⁴` the matrix exponential misses the flow by more than `2⁻¹⁶`, and so differs from the
quaternion-translation exponential of the same twist. -/
theorem C32_violates_series :
    ∃ t p X, IsFlow t X ∧ X 0 = p ∧ vnorm t.v = 1 ∧
      2⁻¹ ^ 16 < ‖(tfmTf (tfmatExpv t) p).pure - (X 1).pure‖ ∧
      2⁻¹ ^ 17 < ‖(tfmTf (tfmatExpv t) p).pure - (qutrTf (qutrExpv t.half) p).pure‖ := by
  have hv : vnorm ⟨0, 1, 0⟩ = 1 := by simp [vnorm, vdot]
  have hw : vnorm ⟨2⁻¹ ^ 14, 0, 0⟩ = 2⁻¹ ^ 14 := by
    simp only [vnorm, vdot, mul_zero, add_zero]; exact Real.sqrt_mul_self (by positivity)
  obtain ⟨X, hX, h0⟩ := flow_some ⟨⟨0, 1, 0⟩, ⟨2⁻¹ ^ 14, 0, 0⟩⟩ ⟨0, 0, 0⟩
  have key : 2⁻¹ ^ 16 < ‖(tfmTf (tfmatExpv ⟨⟨0, 1, 0⟩, ⟨2⁻¹ ^ 14, 0, 0⟩⟩) ⟨0, 0, 0⟩).pure - (X 1).pure‖ := by
    have hX1 := flow_one _ X hX (by rw [hw]; positivity)
    have hb : (2⁻¹ ^ 14 * 2⁻¹ ^ 14 + 0 * 0 + 0 * 0 : ℝ) * (2⁻¹ ^ 14 * 2⁻¹ ^ 14 + 0 * 0 + 0 * 0) < dblEpsilon := by
      norm_num [dblEpsilon]
    have e1 : (tfmTf (tfmatExpv ⟨⟨0, 1, 0⟩, ⟨2⁻¹ ^ 14, 0, 0⟩⟩) ⟨0, 0, 0⟩).z ≤ 2⁻¹ ^ 28 := by
      rw [tfmatExpv_gen]
      simp only [expvCoef, vdot]
      norm_num [gen, vadd, vscal, cross, horner3, vdot]
      have : Real.sqrt 72057594037927936 = 268435456 := by
        rw [Real.sqrt_eq_iff_mul_self_eq (by norm_num) (by norm_num)]; norm_num
      have : Real.sqrt 268435456 = 16384 := by
        rw [Real.sqrt_eq_iff_mul_self_eq (by norm_num) (by norm_num)]; norm_num
      simp [this, dblEpsilon]; norm_num
    have e2 : 2⁻¹ ^ 15 - 2⁻¹ ^ 40 ≤ (X 1).z := by
      rw [hX1, hw, h0]
      simp only [gen, vadd, vscal, cross, vdot]
      have := Taylor.cos_le4 (x := 2⁻¹ ^ 14) (by positivity)
      norm_num at this ⊢
      linarith
    refine lt_of_lt_of_le ?_ (abs_z_le _ _)
    rw [abs_sub_comm]
    refine lt_of_lt_of_le ?_ (le_abs_self _)
    norm_num at e1 e2 ⊢
    linarith
  refine ⟨_, _, X, hX, h0, hv, key, ?_⟩
  have hs := C32_qutr_expv_series _ X hX (by
    have : (2⁻¹ ^ 26 : ℝ) ≤ Real.sqrt dblEpsilon := Real.le_sqrt_of_sq_le (by norm_num [dblEpsilon])
    refine lt_of_lt_of_le ?_ this
    norm_num [Dx.half, vdot, vscal])
  rw [h0, hv] at hs
  have h00 : vnorm ⟨0, 0, 0⟩ = 0 := by simp [vnorm, vdot]
  rw [h00] at hs
  have := norm_sub_le_norm_sub_add_norm_sub
    (tfmTf (tfmatExpv ⟨⟨0, 1, 0⟩, ⟨2⁻¹ ^ 14, 0, 0⟩⟩) ⟨0, 0, 0⟩).pure
    (qutrTf (qutrExpv (Dx.half ⟨⟨0, 1, 0⟩, ⟨2⁻¹ ^ 14, 0, 0⟩⟩)) ⟨0, 0, 0⟩).pure (X 1).pure
  norm_num at *
  linarith

/-! ### Integrating a velocity -/

/-- the twist whose flow moves a body at `x` with velocity `dx`. -/
def velTwist (x : V3) (dx : Dx) : Dx := ⟨vadd dx.v (cross x dx.w), dx.w⟩

/-- run a twist `k` times faster. -/
def Dx.scal (k : ℝ) (t : Dx) : Dx := ⟨vscal k t.v, vscal k t.w⟩

theorem flow_scal {t : Dx} {X : ℝ → V3} (h : IsFlow t X) (k : ℝ) :
    IsFlow (t.scal k) (fun s => X (k * s)) := by
  intro s
  rw [V3.hasDeriv_iff]
  obtain ⟨h1, h2, h3⟩ := V3.hasDeriv_iff.1 (h (k * s))
  have hk : HasDerivAt (fun s => k * s) k s := by simpa using (hasDerivAt_id s).const_mul k
  refine ⟨(h1.comp s hk).congr_deriv ?_, (h2.comp s hk).congr_deriv ?_, (h3.comp s hk).congr_deriv ?_⟩ <;>
    simp [Dx.scal, vadd, vscal, cross] <;> ring

/-- At the body's own position the flow of `velTwist x dx` has velocity `dx.v`. -/
theorem velTwist_vel (x : V3) (dx : Dx) : vadd (cross dx.w x) (velTwist x dx).v = dx.v := by
  ext <;> simp [velTwist, vadd, cross] <;> ring

theorem tfmatSvel_eq (T0 : Tfm) (dx : Dx) (dt : ℝ) (p : V3) :
    tfmTf (tfmatSvel T0 dx dt) p = tfmTf (tfmatExpv ((velTwist T0.v dx).scal dt)) (tfmTf T0 p) := by
  have e : (velTwist T0.v dx).scal dt = 
      let dw : V3 := ⟨dx.w.x * dt, dx.w.y * dt, dx.w.z * dt⟩
      let cr := cross dw T0.v
      ⟨⟨dx.v.x * dt - cr.x, dx.v.y * dt - cr.y, dx.v.z * dt - cr.z⟩, dw⟩ := by
    ext <;> simp [velTwist, Dx.scal, vscal, vadd, cross] <;> ring
  rw [e]
  simp only [tfmatSvel]
  generalize tfmatExpv _ = A
  ext <;> simp [tfmMul, mul9, tfmTf] <;> ring

/-- **C32 (integration).**  `aa_tf_tfmat_svel` carries every point of the body along the flow in
which the body has velocity `dx` at its initial position, for time `dt`. -/
theorem C32_tfmat_svel (T0 : Tfm) (dx : Dx) (dt : ℝ) (p : V3) (X : ℝ → V3)
    (h : IsFlow (velTwist T0.v dx) X) (h0 : X 0 = tfmTf T0 p)
    (hb : dblEpsilon ≤ vdot (vscal dt dx.w) (vscal dt dx.w) * vdot (vscal dt dx.w) (vscal dt dx.w)) :
    tfmTf (tfmatSvel T0 dx dt) p = X dt := by
  have := C32_tfmat_expv _ _ (flow_scal h dt) hb
  simp only [mul_zero, mul_one] at this
  rw [tfmatSvel_eq, ← h0, this]

theorem qutrExpv_valid (t : Dx) (hb : Real.sqrt dblEpsilon ≤ vdot t.w t.w) : (qutrExpv t).Valid := by
  have hs := vnorm_sq t.w
  have hn : vnorm t.w ≠ 0 := by
    intro h0
    rw [← vnorm_sq, h0] at hb
    have : 0 < Real.sqrt dblEpsilon := Real.sqrt_pos.2 (by norm_num [dblEpsilon])
    linarith
  simp only [Qutr.Valid, Unit, qutrExpv, mkq, qvExpvCoef, if_neg (not_lt.2 hb)]
  change (Real.sin (vnorm t.w) / vnorm t.w * t.w.x) ^ 2 +
    (Real.sin (vnorm t.w) / vnorm t.w * t.w.y) ^ 2 +
    (Real.sin (vnorm t.w) / vnorm t.w * t.w.z) ^ 2 + Real.cos (vnorm t.w) ^ 2 = 1
  have h4 := Real.sin_sq_add_cos_sq (vnorm t.w)
  simp only [vdot] at hs
  generalize vnorm t.w = x at *
  field_simp
  linear_combination x ^ 2 * h4 - Real.sin x ^ 2 * hs

theorem tfm_comp (A B : Tfm) (p : V3) : tfmTf (tfmMul A B) p = tfmTf A (tfmTf B p) := by
  ext <;> simp [tfmMul, mul9, tfmTf] <;> ring

theorem qutr_comp (A B : Qutr) (ha : A.Valid) (hb : B.Valid) (p : V3) :
    qutrTf (qutrMul A B) p = qutrTf A (qutrTf B p) := by
  rw [← C26_point.1, (C26_compose A B ha hb).2.1, tfm_comp, C26_point.1, C26_point.1]

theorem duqu_comp (A B : Duqu) (ha : A.Valid) (hb : B.Valid) (p : V3) :
    duquTf (duquMul A B) p = duquTf A (duquTf B p) := by
  rw [C26_point.2.2.1 _ _ (duquMul_valid ha hb), (C26_duqu A B ha hb).2.2.2.1, tfm_comp,
    ← C26_point.2.2.1 _ _ ha, ← C26_point.2.2.1 _ _ hb]

theorem qutrSvel_eq (E0 : Qutr) (dx : Dx) (dt : ℝ) :
    qutrSvel E0 dx dt = qutrMul (qutrExpv ((velTwist E0.v dx).scal dt).half) E0 := by
  have e : ((velTwist E0.v dx).scal dt).half =
      let t := vel2twist E0.v dx
      ⟨⟨t.v.x * (dt / 2), t.v.y * (dt / 2), t.v.z * (dt / 2)⟩,
       ⟨t.w.x * (dt / 2), t.w.y * (dt / 2), t.w.z * (dt / 2)⟩⟩ := by
    ext <;> simp [velTwist, Dx.scal, Dx.half, vscal, vadd, cross, vel2twist, crossA] <;> ring
  rw [e]; rfl

theorem C32_qutr_svel (E0 : Qutr) (hE : E0.Valid) (dx : Dx) (dt : ℝ) (p : V3) (X : ℝ → V3)
    (h : IsFlow (velTwist E0.v dx) X) (h0 : X 0 = qutrTf E0 p)
    (hb : Real.sqrt dblEpsilon ≤ vdot (vscal (1 / 2) (vscal dt dx.w)) (vscal (1 / 2) (vscal dt dx.w))) :
    qutrTf (qutrSvel E0 dx dt) p = X dt := by
  have := C32_qutr_expv _ _ (flow_scal h dt) hb
  simp only [mul_zero, mul_one] at this
  rw [qutrSvel_eq, ← this, h0, qutr_comp _ _ (qutrExpv_valid _ hb) hE]

theorem duquExp_valid (t : Dx) (hb : dblEpsilon ≤ vdot t.w t.w) : (duquExp t.pure).Valid := by
  have hs := vnorm_sq t.w
  have hn : vnorm t.w ≠ 0 := by
    intro h0
    rw [← vnorm_sq, h0] at hb
    norm_num [dblEpsilon] at hb
  have e : duquExp t.pure =
      let k := duquExpCoef t.w
      ⟨⟨k.1 * t.w.x, k.1 * t.w.y, k.1 * t.w.z, k.2.1⟩,
        ⟨k.1 * t.v.x + k.2.2 * vdot t.w t.v * t.w.x,
         k.1 * t.v.y + k.2.2 * vdot t.w t.v * t.w.y,
         k.1 * t.v.z + k.2.2 * vdot t.w t.v * t.w.z, -k.1 * vdot t.w t.v⟩⟩ := by
    simp [duquExp, Dx.pure, mkq, Quat.vec]
  have ek : duquExpCoef t.w = (Real.sin (vnorm t.w) / vnorm t.w, Real.cos (vnorm t.w),
      (Real.cos (vnorm t.w) - Real.sin (vnorm t.w) / vnorm t.w) / (vnorm t.w * vnorm t.w)) := by
    rw [hs]; simp only [duquExpCoef, if_neg (not_lt.2 hb)]; rfl
  have h4 := Real.sin_sq_add_cos_sq (vnorm t.w)
  rw [e, ek]
  simp only [Duqu.Valid, Unit, qdot, vdot] at *
  generalize vnorm t.w = x at *
  constructor
  · field_simp
    linear_combination x ^ 2 * h4 - Real.sin x ^ 2 * hs
  · generalize Real.sin x = S at *
    generalize Real.cos x = C at *
    field_simp
    linear_combination (-S * (t.w.x * t.v.x + t.w.y * t.v.y + t.w.z * t.v.z) * (C * x - S)) * hs

theorem C32_duqu_svel (S0 : Duqu) (hS : S0.Valid) (dx : Dx) (dt : ℝ) (p : V3) (X : ℝ → V3)
    (h : IsFlow (velTwist (duquTrans S0) dx) X) (h0 : X 0 = duquTf S0 p)
    (hb : dblEpsilon ≤ vdot (vscal (1 / 2) (vscal dt dx.w)) (vscal (1 / 2) (vscal dt dx.w))) :
    duquTf (duquSvel S0 dx dt) p = X dt := by
  have := C32_duqu_exp _ _ (flow_scal h dt) hb
  simp only [mul_zero, mul_one] at this
  have e : duquSvel S0 dx dt =
      duquMul (duquExp ((velTwist (duquTrans S0) dx).scal dt).half.pure) S0 := by
    have : duquScal (dt / 2) (duquVel2twist S0 dx) =
        ((velTwist (duquTrans S0) dx).scal dt).half.pure := by
      rw [duquVel2twist]
      generalize duquTrans S0 = x
      ext <;> simp [duquScal, vel2twist, Dx.pure, mkq, qscal, crossA, velTwist, Dx.half, Dx.scal, vscal, vadd, cross] <;> ring
    rw [duquSvel, duquStwist, this]
  rw [e, ← this, h0, duqu_comp _ _ (duquExp_valid _ hb) hS]

/-- `aa_tf_qutr_sdiff` and `aa_tf_duqu_sdiff` integrate the velocity of a derivative. -/
theorem C32_sdiff (E0 dE : Qutr) (S0 dS : Duqu) (hS : S0.Valid) (dt : ℝ) :
    qutrSdiff E0 dE dt = qutrSvel E0 (qutrDiff2vel E0 dE) dt ∧
    duquSdiff S0 dS dt = duquSvel S0 (duquDiff2vel S0 dS) dt ∧
    (∀ dx, duquSdiff S0 (duquVel2diff S0 dx) dt = duquSvel S0 dx dt) := by
  refine ⟨rfl, rfl, fun dx => ?_⟩
  rw [show duquSdiff S0 (duquVel2diff S0 dx) dt = duquSvel S0 (duquDiff2vel S0 (duquVel2diff S0 dx)) dt from rfl,
    (C31_twist S0 hS ⟨0, 0, 0⟩ dx).2.2.2]

/-- **C32, rotations.**  `aa_tf_rotmat_expv` and `aa_tf_rotmat_svel` rotate a point along the flow
`x' = w × x`, in the trigonometric branch. -/
theorem C32_rotmat (R0 : M3) (w p : V3) (dt : ℝ) (X : ℝ → V3) (h : IsFlow ⟨⟨0, 0, 0⟩, w⟩ X)
    (hb : dblEpsilon ≤ vdot (vscal dt w) (vscal dt w) * vdot (vscal dt w) (vscal dt w)) :
    (X 0 = p → rot9 (rotmatExpv (vscal dt w)) p = X dt) ∧
    (X 0 = rot9 R0 p → rot9 (rotmatSvel R0 w dt) p = X dt) := by
  have hf := flow_scal h dt
  have h1 := C32_tfmat_expv _ _ hf hb
  simp only [mul_zero, mul_one] at h1
  have e : ∀ q, tfmTf (tfmatExpv (Dx.scal dt ⟨⟨0, 0, 0⟩, w⟩)) q = rot9 (rotmatExpv (vscal dt w)) q := by
    intro q
    simp only [tfmatExpv, Dx.scal, rotmatExpv]
    ext <;> simp [tfmTf, vscal, rot9]
  refine ⟨?_, ?_⟩
  · rintro rfl; rw [← e, h1]
  · intro h0
    rw [← h1, e, h0]
    have : rotmatSvel R0 w dt = mul9 (rotmatExpv (vscal dt w)) R0 := by
      rw [rotmatSvel]; congr 2; ext <;> simp [vscal] <;> ring
    rw [this]
    generalize rotmatExpv _ = A
    ext <;> simp [mul9, rot9] <;> ring

/-- `aa_tf_duqu_exp` of a dual quaternion with nonzero scalar parts `a + ε b` multiplies the
exponential of the vector parts by the dual number `exp a + ε b exp a`. -/
theorem C32_duqu_exp_scalar (S : Duqu) :
    duquExp S = duquMul ⟨⟨0, 0, 0, Real.exp S.real.w⟩, ⟨0, 0, 0, Real.exp S.real.w * S.dual.w⟩⟩
      (duquExp (Dx.pure ⟨S.dual.vec, S.real.vec⟩)) := by
  by_cases h : 0 < |S.real.w| ∨ 0 < |S.dual.w|
  · simp only [duquExp, if_pos h]
    simp only [Dx.pure, mkq, Quat.vec, abs_zero, lt_irrefl, or_self, if_false]
    ext <;> simp [duquMul, qmul, qmulA]
  · simp only [duquExp, if_neg h]
    simp only [Dx.pure, mkq, Quat.vec, abs_zero, lt_irrefl, or_self, if_false]
    push Not at h
    have h1 := abs_nonpos_iff.1 h.1
    have h2 := abs_nonpos_iff.1 h.2
    rw [h1, h2]
    ext <;> simp [duquMul, qmul, qmulA]

/-- The hypotheses are met: a quarter turn about `z` while moving along `x`. -/
example : ∃ t X, IsFlow t X ∧ dblEpsilon ≤ vdot t.w t.w * vdot t.w t.w ∧
    Real.sqrt dblEpsilon ≤ vdot t.half.w t.half.w ∧ dblEpsilon ≤ vdot t.half.w t.half.w ∧
    tfmTf (tfmatExpv t) ⟨1, 2, 3⟩ = X 1 ∧ qutrTf (qutrExpv t.half) ⟨1, 2, 3⟩ = X 1 ∧
    duquTf (duquExp t.half.pure) ⟨1, 2, 3⟩ = X 1 := by
  obtain ⟨X, hX, h0⟩ := flow_some ⟨⟨1, 0, 0⟩, ⟨0, 0, 2⟩⟩ ⟨1, 2, 3⟩
  have a1 : dblEpsilon ≤ vdot (⟨0, 0, 2⟩ : V3) ⟨0, 0, 2⟩ * vdot (⟨0, 0, 2⟩ : V3) ⟨0, 0, 2⟩ := by
    norm_num [vdot, dblEpsilon]
  have a2 : Real.sqrt dblEpsilon ≤ vdot (Dx.half ⟨⟨1, 0, 0⟩, ⟨0, 0, 2⟩⟩).w (Dx.half ⟨⟨1, 0, 0⟩, ⟨0, 0, 2⟩⟩).w := by
    refine (Real.sqrt_le_one.2 (by norm_num [dblEpsilon])).trans ?_
    norm_num [vdot, Dx.half, vscal]
  have a3 : dblEpsilon ≤ vdot (Dx.half ⟨⟨1, 0, 0⟩, ⟨0, 0, 2⟩⟩).w (Dx.half ⟨⟨1, 0, 0⟩, ⟨0, 0, 2⟩⟩).w := by
    norm_num [vdot, Dx.half, vscal, dblEpsilon]
  refine ⟨_, X, hX, a1, a2, a3, ?_, ?_, ?_⟩
  · rw [← h0]; exact C32_tfmat_expv _ X hX a1
  · rw [← h0]; exact C32_qutr_expv _ X hX a2
  · rw [← h0]; exact C32_duqu_exp _ X hX a3

end Verif.Tf
