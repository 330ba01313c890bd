import Verif.Model.IkOpt
import Verif.Prop.LnJac
import Verif.Prop.Ik

/-!
# Lemmas about the gradients of the error functions
-/

namespace Verif.Ik

open Verif.Tf Verif.Sg Quaternion Filter Topology

/-- The sign that makes the scalar part non-negative. -/
noncomputable def sgn (q : Quat) : ℝ := if q.w < 0 then -1 else 1

theorem minimize_sgn (q : Quat) : qminimize q = qscal q (sgn q) := by
  unfold qminimize sgn
  split_ifs <;> ext <;> simp [qscal]

theorem neg_sgn (q x : Quat) : (if q.w < 0 then qneg x else x) = qscal x (sgn q) := by
  unfold sgn
  split_ifs <;> ext <;> simp [qscal, qneg]

/-- Moving the matrices of the code to the other side of the inner product. -/
theorem rmul_adjoint (q r x : Quat) (w : V3) :
    qdot x (qcmul (qmul ⟨w.x, w.y, w.z, 0⟩ q) r) = vdot w (qRmul q (qconj (qRmul r x))).vec := by
  simp only [qdot, qcmul, qmul, vdot, qRmul, mulVecT, qmatrixR, qconj, Quat.vec]
  ring

theorem mul4_adjoint (J : Fin 4 → Fin 4 → ℝ) (x d : Quat) :
    qdot x (mul4 J d) = qdot (mul4T J x) d := by
  simp only [qdot, mul4, mul4T]; ring

theorem qdot_scal (x d : Quat) (a : ℝ) : qdot x (qscal d a) = a * qdot x d := by
  simp only [qdot, qscal]; ring

theorem qdot_scal_left (x d : Quat) (a : ℝ) : qdot (qscal x a) d = a * qdot x d := by
  simp only [qdot, qscal]; ring

theorem mul4T_scal (J : Fin 4 → Fin 4 → ℝ) (x : Quat) (a : ℝ) :
    mul4T J (qscal x a) = qscal (mul4T J x) a := by
  simp only [mul4T, qscal]; ext <;> simp only <;> ring

/-! ## Derivatives along a path of poses -/

theorem pose_quat {E : ℝ → Qutr} {u : ℝ} {w v : V3} (h : PoseDeriv E u w v) :
    Quat.HasDeriv (fun s => (E s).q) (qscal (qmul ⟨w.x, w.y, w.z, 0⟩ (E u).q) (1 / 2)) u := by
  refine HasDerivAt.congr_deriv h.1 ?_
  ext <;> simp [qscal, qmul] <;> ring

theorem pose_vec {E : ℝ → Qutr} {u : ℝ} {w v : V3} (h : PoseDeriv E u w v) :
    HasDerivAt (fun s => (E s).v.x) v.x u ∧ HasDerivAt (fun s => (E s).v.y) v.y u ∧
      HasDerivAt (fun s => (E s).v.z) v.z u := by
  obtain ⟨-, h1, h2, h3⟩ := HasDerivAt.quat h.2
  exact ⟨h1, h2, h3⟩

theorem qcmul_deriv {Q : ℝ → Quat} {D : Quat} {u : ℝ} (h : Quat.HasDeriv Q D u) (r : Quat) :
    Quat.HasDeriv (fun s => qcmul (Q s) r) (qcmul D r) u := by
  obtain ⟨hx, hy, hz, hw⟩ := Quat.hasDeriv_iff.1 h
  rw [Quat.hasDeriv_iff]
  refine ⟨?_, ?_, ?_, ?_⟩
  · exact ((hz.mul_const r.y).sub (hy.mul_const r.z)).add ((hw.mul_const r.x).sub (hx.mul_const r.w))
  · exact ((hx.mul_const r.z).sub (hz.mul_const r.x)).add ((hw.mul_const r.y).sub (hy.mul_const r.w))
  · exact ((hy.mul_const r.x).sub (hx.mul_const r.y)).add ((hw.mul_const r.z).sub (hz.mul_const r.w))
  · exact ((hw.mul_const r.w).add (hz.mul_const r.z)).add ((hx.mul_const r.x).add (hy.mul_const r.y))

theorem scal_deriv {Q : ℝ → Quat} {D : Quat} {u : ℝ} (h : Quat.HasDeriv Q D u) (a : ℝ) :
    Quat.HasDeriv (fun s => qscal (Q s) a) (qscal D a) u := by
  obtain ⟨hx, hy, hz, hw⟩ := Quat.hasDeriv_iff.1 h
  rw [Quat.hasDeriv_iff]
  exact ⟨hx.mul_const a, hy.mul_const a, hz.mul_const a, hw.mul_const a⟩

theorem sgn_eventually {Q : ℝ → Quat} {D : Quat} {u : ℝ} (h : Quat.HasDeriv Q D u)
    (hw : (Q u).w ≠ 0) : ∀ᶠ s in 𝓝 u, sgn (Q s) = sgn (Q u) := by
  have hc := (Quat.hasDeriv_iff.1 h).2.2.2.continuousAt
  rcases lt_or_gt_of_ne hw with h0 | h0
  · filter_upwards [hc.eventually (gt_mem_nhds h0)] with s hs
    rw [sgn, sgn, if_pos hs, if_pos h0]
  · filter_upwards [hc.eventually (lt_mem_nhds h0)] with s hs
    rw [sgn, sgn, if_neg (not_lt.2 hs.le), if_neg (not_lt.2 h0.le)]

theorem minimize_deriv {Q : ℝ → Quat} {D : Quat} {u : ℝ} (h : Quat.HasDeriv Q D u)
    (hw : (Q u).w ≠ 0) : Quat.HasDeriv (fun s => qminimize (Q s)) (qscal D (sgn (Q u))) u := by
  refine HasDerivAt.congr_of_eventuallyEq (scal_deriv h (sgn (Q u))) ?_
  filter_upwards [sgn_eventually h hw] with s hs
  rw [minimize_sgn, hs]

theorem qdot_deriv {Q : ℝ → Quat} {D : Quat} {u : ℝ} (h : Quat.HasDeriv Q D u) :
    HasDerivAt (fun s => qdot (Q s) (Q s)) (2 * qdot (Q u) D) u := by
  obtain ⟨hx, hy, hz, hw⟩ := Quat.hasDeriv_iff.1 h
  refine HasDerivAt.congr_deriv (f := fun s => qdot (Q s) (Q s))
    ((((hx.mul hx).add (hy.mul hy)).add (hz.mul hz)).add (hw.mul hw)) ?_
  simp only [qdot]; ring

/-- The derivative of the squared length of the logarithm of the relative orientation. -/
theorem rot_deriv {E : ℝ → Qutr} {u : ℝ} {w v : V3} (h : PoseDeriv E u w v) (r : Quat)
    (hw : (qcmul (E u).q r).w ≠ 0) (J : Fin 4 → Fin 4 → ℝ)
    (hJ : ∀ (Q : ℝ → Quat) (D : Quat) (t : ℝ), Q t = qminimize (qcmul (E u).q r) →
      Quat.HasDeriv Q D t → Quat.HasDeriv (fun s => qlog (Q s)) (mul4 J D) t) :
    HasDerivAt (fun s => qdot (qlog (qminimize (qcmul (E s).q r)))
        (qlog (qminimize (qcmul (E s).q r))))
      (vdot w (qRmul (E u).q (qconj (qRmul r (mul4T J
        (qscal (qlog (qminimize (qcmul (E u).q r))) (sgn (qcmul (E u).q r))))))).vec) u := by
  have h1 := hJ _ _ u rfl (minimize_deriv (qcmul_deriv (pose_quat h) r) hw)
  refine (qdot_deriv h1).congr_deriv ?_
  rw [← rmul_adjoint, mul4_adjoint, mul4T_scal, qdot_scal, qdot_scal_left]
  simp only [qdot, qcmul, qscal]
  ring

theorem trans_deriv {E : ℝ → Qutr} {u : ℝ} {w v : V3} (h : PoseDeriv E u w v) (R : Qutr) :
    HasDerivAt (fun s => vdot (transErr (E s) R) (transErr (E s) R))
      (2 * vdot v (transErr (E u) R)) u := by
  obtain ⟨hx, hy, hz⟩ := pose_vec h
  have hx := hx.sub_const R.v.x
  have hy := hy.sub_const R.v.y
  have hz := hz.sub_const R.v.z
  refine HasDerivAt.congr_deriv (f := fun s => vdot (transErr (E s) R) (transErr (E s) R))
    (((hx.mul hx).add (hy.mul hy)).add (hz.mul hz)) ?_
  simp only [vdot, transErr]; ring

/-! ## The logarithm and its Jacobian for unit quaternions -/

/-- The matrix `J` is the derivative of the logarithm at `e`. -/
def LogDeriv (e : Quat) (J : Fin 4 → Fin 4 → ℝ) : Prop :=
  ∀ (Q : ℝ → Quat) (D : Quat) (t : ℝ), Q t = e → Quat.HasDeriv Q D t →
    Quat.HasDeriv (fun s => qlog (Q s)) (mul4 J D) t

def vecTimes (c : ℝ) (e : Quat) : Quat := ⟨c * e.x, c * e.y, c * e.z, 0⟩

theorem mulT_fill (e : Quat) (z eta c : ℝ) :
    mul4T (qlnJacFill e 1 z eta) (vecTimes c e) =
      ⟨c * (eta + z * qvv e) * e.x, c * (eta + z * qvv e) * e.y, c * (eta + z * qvv e) * e.z,
        -(c * qvv e)⟩ := by
  simp only [mul4T, qlnJacFill, fillUplo, vecTimes, qvv, vdot, Quat.vec]
  ext <;> simp <;> ring

theorem unit_norm {e : Quat} (h : Tf.Unit e) : qnorm e = 1 ∧ qqq e = 1 := by
  have h1 : qqq e = 1 := by
    rw [Tf.Unit] at h; simp only [qqq, qvv, vdot, Quat.vec]; linarith
  exact ⟨by rw [qnorm_qqq, h1, Real.sqrt_one], h1⟩

def qsub' (a b : Quat) : Quat := ⟨a.x - b.x, a.y - b.y, a.z - b.z, a.w - b.w⟩

theorem grad_norm (e : Quat) (k k' b b' : ℝ) :
    qdot (qsub' ⟨k * e.x, k * e.y, k * e.z, -b⟩ ⟨k' * e.x, k' * e.y, k' * e.z, -b'⟩)
      (qsub' ⟨k * e.x, k * e.y, k * e.z, -b⟩ ⟨k' * e.x, k' * e.y, k' * e.z, -b'⟩) =
    (k - k') ^ 2 * qvv e + (b - b') ^ 2 := by
  simp only [qdot, qsub', qvv, vdot, Quat.vec]; ring

/-- What the code computes from a unit quaternion with a positive scalar part, compared with the
logarithm and its derivative. -/
theorem ln_parts {e : Quat} (h : Tf.Unit e) (hw : 0 < e.w) :
    ∃ c J Jt, qln e = some (vecTimes c e) ∧ qlnJac e = some J ∧ LogDeriv e Jt ∧
      qdot (qsub' (mul4T J (vecTimes c e)) (mul4T Jt (qlog e)))
        (qsub' (mul4T J (vecTimes c e)) (mul4T Jt (qlog e))) ≤ (1 / 2 ^ 98) ^ 2 ∧
      |qdot (vecTimes c e) (vecTimes c e) - qdot (qlog e) (qlog e)| ≤ 1 / 2 ^ 98 ∧
      (1 / 2 ^ 13 ≤ qangle e ∨ vnorm e.vec = 0 →
        mul4T J (vecTimes c e) = mul4T Jt (qlog e) ∧ vecTimes c e = qlog e) := by
  obtain ⟨hn, hq⟩ := unit_norm h
  have hlog : qlog e = vecTimes (lnEta e) e := by
    simp only [qlog, vecTimes, hn, Real.log_one]
  have hself : ∀ x : Quat, qdot (qsub' x x) (qsub' x x) = 0 := by
    intro x; simp [qsub', qdot]
  by_cases h0 : vnorm e.vec = 0
  · have ha := qangle_real h0 hw
    obtain ⟨z1, z2, z3⟩ := vec_zero h0
    have hv : ∀ c, vecTimes c e = ⟨0, 0, 0, 0⟩ := by
      intro c; simp [vecTimes, z1, z2, z3]
    have hln : qln e = some (vecTimes 1 e) := by
      rw [qln_eq, ha, hn, hv, if_pos (by norm_num), if_neg one_ne_zero]
      simp [z1, z2, z3]
    have hJ : qlnJac e = some (qlnJacFill e 1 (zetaS e) (etaS e)) := by
      rw [qlnJac_eq, hq, if_neg one_ne_zero, ha, if_pos (by norm_num [dblEpsilon])]
    have hm : ∀ J, mul4T J (vecTimes 1 e) = mul4T J (qlog e) := by
      intro J; rw [hlog, hv, hv]
    refine ⟨1, _, qlnJacFill e 1 (zetaS e) (etaS e), hln, hJ, ?_, ?_, ?_, fun _ => ⟨hm _, ?_⟩⟩
    · rintro Q D t rfl hd
      have := hasDeriv_qlog_real hd h0 hw (zetaS (Q t))
      rw [etaS_real h0 hw]
      rw [hq] at this
      exact this
    · rw [hm, hself]; positivity
    · rw [hlog, hv, hv]; norm_num
    · rw [hlog, hv, hv]
  · obtain ⟨-, x0, x1, sp, hs, hc, -, e2, e3, e4, -⟩ := coef_polar h0
    rw [hn] at e2 e3 e4 hs hc
    simp only [one_mul, mul_one, div_one] at e2 e3 e4 hs hc
    have hD : LogDeriv e (qlnJacFill e 1 (lnZeta e) (lnEta e)) := by
      rintro Q D t rfl hd
      have := hasDeriv_qlog hd h0
      rwa [hq] at this
    have hz : lnEta e + lnZeta e * qvv e = e.w := by
      rw [e4, e3, e2, ← hc]; field_simp; ring
    have hxt : mul4T (qlnJacFill e 1 (lnZeta e) (lnEta e)) (qlog e) =
        ⟨lnEta e * e.w * e.x, lnEta e * e.w * e.y, lnEta e * e.w * e.z, -(lnEta e * qvv e)⟩ := by
      rw [hlog, mulT_fill, hz]
    by_cases h13 : qangle e < 1 / 2 ^ 13
    · -- the series for the logarithm
      obtain ⟨t1, t2⟩ := Taylor.invsinc_series x0.le (h13.le.trans (by norm_num))
      set c := invsincSeries2 (qangle e * qangle e) with hcdef
      have hcc : c = 1 + qangle e * qangle e * (1 / 6 + qangle e * qangle e * (7 / 360)) := by
        rw [hcdef]; simp only [invsincSeries2, horner3]
      rw [← hcc] at t1 t2
      have t7 : qangle e ^ 7 ≤ (1 / 2 ^ 13) ^ 7 := pow_le_pow_left₀ x0.le h13.le 7
      have hd : |c - lnEta e| * Real.sin (qangle e) ≤ 1 / 2 ^ 99 := by
        have : (c - lnEta e) * Real.sin (qangle e) = c * Real.sin (qangle e) - qangle e := by
          rw [e3]; field_simp
        rw [← abs_of_pos sp, ← abs_mul, this, abs_le]
        norm_num at t7 ⊢
        constructor <;> linarith
      have hln : qln e = some (vecTimes c e) := by
        rw [qln_eq, if_pos h13, hn, if_neg one_ne_zero, Real.log_one, div_one]
        rfl
      have hval : |qdot (vecTimes c e) (vecTimes c e) - qdot (qlog e) (qlog e)| ≤ 1 / 2 ^ 98 := by
        have : qdot (vecTimes c e) (vecTimes c e) - qdot (qlog e) (qlog e) =
            ((c - lnEta e) * Real.sin (qangle e)) *
              (c * Real.sin (qangle e) + lnEta e * Real.sin (qangle e)) := by
          rw [hlog]
          have : ∀ a, qdot (vecTimes a e) (vecTimes a e) = a * a * qvv e := by
            intro a; simp only [vecTimes, qdot, qvv, vdot, Quat.vec]; ring
          rw [this, this, e2]; ring
        rw [this, abs_mul, abs_mul, abs_of_pos sp]
        have h2 : lnEta e * Real.sin (qangle e) = qangle e := by rw [e3]; field_simp
        rw [h2]
        have h3 : |c * Real.sin (qangle e) + qangle e| ≤ 2 := by
          have hcp : 0 ≤ c := by rw [hcc]; positivity
          rw [abs_of_nonneg (by positivity)]
          norm_num at h13; linarith
        calc _ ≤ 1 / 2 ^ 99 * 2 := mul_le_mul hd h3 (abs_nonneg _) (by positivity)
          _ = 1 / 2 ^ 98 := by norm_num
      have hnot : ¬ (1 / 2 ^ 13 ≤ qangle e ∨ vnorm e.vec = 0) := not_or.2 ⟨not_le.2 h13, h0⟩
      have s1 := Real.sin_le_one (qangle e)
      have w1 : e.w ≤ 1 := by rw [← hc]; exact Real.cos_le_one _
      -- the bound from bounds on the coefficients
      have fin : ∀ k, |k - lnEta e * e.w| * Real.sin (qangle e) ≤ 1 / 2 ^ 99 →
          (k - lnEta e * e.w) ^ 2 * qvv e + (c * qvv e - lnEta e * qvv e) ^ 2 ≤
            (1 / 2 ^ 98) ^ 2 := by
        intro k hk
        have a1 : (k - lnEta e * e.w) ^ 2 * qvv e =
            (|k - lnEta e * e.w| * Real.sin (qangle e)) ^ 2 := by
          rw [mul_pow, sq_abs, e2]; ring
        have a2 : (c * qvv e - lnEta e * qvv e) ^ 2 =
            (|c - lnEta e| * Real.sin (qangle e) * Real.sin (qangle e)) ^ 2 := by
          rw [mul_pow, mul_pow, sq_abs, e2]; ring
        have b1 := pow_le_pow_left₀ (mul_nonneg (abs_nonneg _) sp.le) hk 2
        have b2 : (|c - lnEta e| * Real.sin (qangle e) * Real.sin (qangle e)) ^ 2 ≤
            (1 / 2 ^ 99) ^ 2 := by
          apply pow_le_pow_left₀ (mul_nonneg (mul_nonneg (abs_nonneg _) sp.le) sp.le)
          have := mul_le_mul hd s1 sp.le (by positivity)
          linarith
        rw [a1, a2]
        norm_num at b1 b2 ⊢
        linarith
      by_cases heps : qangle e < dblEpsilon
      · -- also the series for the Jacobian
        have hJ : qlnJac e = some (qlnJacFill e 1 (zetaS e) (etaS e)) := by
          rw [qlnJac_eq, hq, if_neg one_ne_zero, if_pos heps]
        have hes : etaS e = c := by rw [etaS, hn, div_one]
        obtain ⟨c1, c2, -, -⟩ := coef_close h0 heps
        rw [hn, div_one, hes] at c1
        rw [hn, div_one] at c2
        refine ⟨c, _, _, hln, hJ, hD, ?_, hval, fun hh => absurd hh hnot⟩
        rw [hxt, mulT_fill, grad_norm]
        apply fin
        have hh := Taylor.sin_half x0.le (h13.le.trans (by norm_num))
        have he2 : |lnEta e| ≤ 2 := by
          rw [e3, abs_of_pos (div_pos x0 sp), div_le_iff₀ sp]; linarith
        have hv0 := qvv_nonneg e
        have id1 : c * (etaS e + zetaS e * qvv e) - lnEta e * e.w =
            (c - lnEta e) * (e.w + (c - lnEta e) + (zetaS e - lnZeta e) * qvv e) +
              lnEta e * ((c - lnEta e) + (zetaS e - lnZeta e) * qvv e) := by
          rw [hes]; linear_combination c * hz
        rw [id1]
        have d1 : |(c - lnEta e) + (zetaS e - lnZeta e) * qvv e| ≤ 1 / 2 ^ 101 := by
          refine (abs_add_le _ _).trans ?_
          rw [abs_mul, abs_of_nonneg hv0, mul_comm |zetaS e - lnZeta e|]
          norm_num at c1 c2 ⊢; linarith
        have d2 : |e.w + (c - lnEta e) + (zetaS e - lnZeta e) * qvv e| ≤ 2 := by
          rw [add_assoc]
          refine (abs_add_le _ _).trans ?_
          rw [abs_of_pos hw]
          norm_num at d1 ⊢; linarith
        have d3 : |(c - lnEta e) * (e.w + (c - lnEta e) + (zetaS e - lnZeta e) * qvv e) +
              lnEta e * ((c - lnEta e) + (zetaS e - lnZeta e) * qvv e)| ≤ 1 / 2 ^ 99 := by
          refine (abs_add_le _ _).trans ?_
          rw [abs_mul, abs_mul]
          have f1 := mul_le_mul c1 d2 (abs_nonneg _) (by positivity)
          have f2 := mul_le_mul he2 d1 (abs_nonneg _) (by positivity)
          norm_num at f1 f2 ⊢; linarith
        calc _ ≤ 1 / 2 ^ 99 * 1 := mul_le_mul d3 s1 sp.le (by positivity)
          _ = _ := mul_one _
      · have hJ : qlnJac e = some (qlnJacFill e 1 (lnZeta e) (lnEta e)) := by
          rw [qlnJac_eq, hq, if_neg one_ne_zero, if_neg heps, if_neg (qvv_pos h0).ne']
        refine ⟨c, _, _, hln, hJ, hD, ?_, hval, fun hh => absurd hh hnot⟩
        rw [hxt, mulT_fill, grad_norm, hz]
        apply fin
        rw [← sub_mul, abs_mul, abs_of_pos hw, mul_assoc, mul_comm e.w, ← mul_assoc]
        calc _ ≤ 1 / 2 ^ 99 * 1 := mul_le_mul hd w1 hw.le (by positivity)
          _ = _ := mul_one _
    · have heps : ¬ qangle e < dblEpsilon := by
        intro hh; apply h13; refine hh.trans ?_; norm_num [dblEpsilon]
      have hln : qln e = some (vecTimes (lnEta e) e) := by
        rw [qln_eq, if_neg h13, if_neg h0, hn, Real.log_one]
        rfl
      have hJ : qlnJac e = some (qlnJacFill e 1 (lnZeta e) (lnEta e)) := by
        rw [qlnJac_eq, hq, if_neg one_ne_zero, if_neg heps, if_neg (qvv_pos h0).ne']
      refine ⟨_, _, _, hln, hJ, hD, ?_, ?_, fun _ => ⟨?_, hlog.symm⟩⟩
      · rw [← hlog, hself]; positivity
      · rw [← hlog]; norm_num
      · rw [← hlog]

/-! ## The rotational part of the gradient -/

theorem qdot_cs (x y : Quat) : (qdot x y) ^ 2 ≤ qdot x x * qdot y y := by
  simp only [qdot]
  nlinarith [sq_nonneg (x.x * y.y - x.y * y.x), sq_nonneg (x.x * y.z - x.z * y.x),
    sq_nonneg (x.x * y.w - x.w * y.x), sq_nonneg (x.y * y.z - x.z * y.y),
    sq_nonneg (x.y * y.w - x.w * y.y), sq_nonneg (x.z * y.w - x.w * y.z)]

theorem qdot_cmul (a b : Quat) : qdot (qcmul a b) (qcmul a b) = qdot a a * qdot b b := by
  simp only [qdot, qcmul]; ring

theorem qdot_mul (a b : Quat) : qdot (qmul a b) (qmul a b) = qdot a a * qdot b b := by
  simp only [qdot, qmul]; ring

theorem unit_qdot {a : Quat} : Tf.Unit a ↔ qdot a a = 1 := by
  rw [Tf.Unit]; simp only [qdot]
  constructor <;> intro h <;> linarith

theorem cmul_unit {a r : Quat} (ha : Tf.Unit a) (hr : Tf.Unit r) : Tf.Unit (qcmul a r) := by
  rw [unit_qdot] at *
  rw [qdot_cmul, ha, hr, one_mul]

theorem minimize_unit {q : Quat} (h : Tf.Unit q) (hw : q.w ≠ 0) :
    Tf.Unit (qminimize q) ∧ 0 < (qminimize q).w := by
  rw [Tf.Unit] at *
  unfold qminimize
  split_ifs with h0
  · exact ⟨by simpa using h, by simpa using h0⟩
  · exact ⟨h, lt_of_le_of_ne (not_lt.1 h0) (Ne.symm hw)⟩

theorem sgn_sq (q : Quat) : sgn q * sgn q = 1 := by
  unfold sgn; split_ifs <;> norm_num

/-- The error vector in the code's gradient is small against the angular velocity. -/
theorem grad_close {a r : Quat} (ha : Tf.Unit a) (hr : Tf.Unit r) {x y : Quat} {d : ℝ} (hd : 0 ≤ d)
    (h : qdot (qsub' x y) (qsub' x y) ≤ d ^ 2) (w : V3) :
    |vdot w (qRmul a (qconj (qRmul r x))).vec - vdot w (qRmul a (qconj (qRmul r y))).vec| ≤
      d * vnorm w := by
  have e1 : vdot w (qRmul a (qconj (qRmul r x))).vec - vdot w (qRmul a (qconj (qRmul r y))).vec =
      qdot (qsub' x y) (qcmul (qmul ⟨w.x, w.y, w.z, 0⟩ a) r) := by
    rw [← rmul_adjoint, ← rmul_adjoint]; simp only [qdot, qsub']; ring
  rw [e1]
  apply abs_le_of_sq_le_sq _ (mul_nonneg hd (vnorm_nonneg w))
  refine (qdot_cs _ _).trans ?_
  rw [unit_qdot] at ha hr
  have hw : qdot (qcmul (qmul ⟨w.x, w.y, w.z, 0⟩ a) r) (qcmul (qmul ⟨w.x, w.y, w.z, 0⟩ a) r) =
      vnorm w ^ 2 := by
    rw [qdot_cmul, qdot_mul, ha, hr, pow_two, vnorm_sq]; simp only [qdot, vdot]; ring
  rw [hw, mul_pow]
  exact mul_le_mul_of_nonneg_right h (sq_nonneg _)

theorem rotErr_spec {a r : Quat} (ha : Tf.Unit a) (hr : Tf.Unit r) (hw : (qcmul a r).w ≠ 0) :
    ∃ val vec Jt, rotErr a r = some (val, vec) ∧ LogDeriv (qminimize (qcmul a r)) Jt ∧
      |val - qdot (qlog (qminimize (qcmul a r))) (qlog (qminimize (qcmul a r)))| ≤ 1 / 2 ^ 98 ∧
      (∀ w, |vdot w vec - vdot w (qRmul a (qconj (qRmul r (mul4T Jt
        (qscal (qlog (qminimize (qcmul a r))) (sgn (qcmul a r))))))).vec| ≤
          1 / 2 ^ 98 * vnorm w) ∧
      (1 / 2 ^ 13 ≤ qangle (qminimize (qcmul a r)) ∨ vnorm (qminimize (qcmul a r)).vec = 0 →
        val = qdot (qlog (qminimize (qcmul a r))) (qlog (qminimize (qcmul a r))) ∧
        vec = (qRmul a (qconj (qRmul r (mul4T Jt
          (qscal (qlog (qminimize (qcmul a r))) (sgn (qcmul a r))))))).vec) := by
  obtain ⟨h1, h2⟩ := minimize_unit (cmul_unit ha hr) hw
  obtain ⟨c, J, Jt, p1, p2, p3, p4, p5, p6⟩ := ln_parts h1 h2
  refine ⟨qdot (vecTimes c (qminimize (qcmul a r))) (vecTimes c (qminimize (qcmul a r))),
    (qRmul a (qconj (qRmul r (mul4T J
      (qscal (vecTimes c (qminimize (qcmul a r))) (sgn (qcmul a r))))))).vec, Jt, ?_,
    p3, p5, ?_, ?_⟩
  · unfold rotErr
    simp only [neg_sgn]
    rw [← minimize_sgn, p1]
    simp only
    rw [p2]
  · intro w
    apply grad_close ha hr (by positivity)
    rw [mul4T_scal, mul4T_scal]
    refine le_trans (le_of_eq ?_) p4
    have := sgn_sq (qcmul a r)
    simp only [qdot, qsub', qscal]
    generalize mul4T J (vecTimes c (qminimize (qcmul a r))) = x
    generalize mul4T Jt (qlog (qminimize (qcmul a r))) = y
    linear_combination ((x.x - y.x) ^ 2 + (x.y - y.y) ^ 2 + (x.z - y.z) ^ 2 + (x.w - y.w) ^ 2) * this
  · intro hh
    obtain ⟨k1, k2⟩ := p6 hh
    rw [mul4T_scal, mul4T_scal, k1, k2]
    exact ⟨rfl, rfl⟩

/-! ## Dual quaternions -/

/-- The derivative of the dual quaternion of a moving pose, from its twist `w`, `n`. -/
theorem pose_duqu {E : ℝ → Qutr} {u : ℝ} {w n : V3}
    (h : PoseDeriv E u w (vadd n (cross w (E u).v))) :
    Duqu.HasDeriv (fun s => qutr2duqu (E s))
      ⟨qscal (qmul ⟨w.x, w.y, w.z, 0⟩ (qutr2duqu (E u)).real) (1 / 2),
       qscal (qadd (qmul ⟨w.x, w.y, w.z, 0⟩ (qutr2duqu (E u)).dual)
         (qmul ⟨n.x, n.y, n.z, 0⟩ (qutr2duqu (E u)).real)) (1 / 2)⟩ u := by
  have hq := pose_quat h
  refine ⟨hq, ?_⟩
  obtain ⟨ax, ay, az, aw⟩ := Quat.hasDeriv_iff.1 hq
  obtain ⟨hx, hy, hz⟩ := pose_vec h
  have hx := hx.div_const 2
  have hy := hy.div_const 2
  have hz := hz.div_const 2
  rw [Quat.hasDeriv_iff]
  refine ⟨?_, ?_, ?_, ?_⟩
  · refine HasDerivAt.congr_deriv (f := fun s => (qutr2duqu (E s)).dual.x)
      (((hy.mul az).sub (hz.mul ay)).add (hx.mul aw)) ?_
    simp [qscal, qadd, qmul, qutr2duqu, qmulVQ, vadd, cross, vdot, Quat.vec]; ring
  · refine HasDerivAt.congr_deriv (f := fun s => (qutr2duqu (E s)).dual.y)
      (((hz.mul ax).sub (hx.mul az)).add (hy.mul aw)) ?_
    simp [qscal, qadd, qmul, qutr2duqu, qmulVQ, vadd, cross, vdot, Quat.vec]; ring
  · refine HasDerivAt.congr_deriv (f := fun s => (qutr2duqu (E s)).dual.z)
      (((hx.mul ay).sub (hy.mul ax)).add (hz.mul aw)) ?_
    simp [qscal, qadd, qmul, qutr2duqu, qmulVQ, vadd, cross, vdot, Quat.vec]; ring
  · refine HasDerivAt.congr_deriv (f := fun s => (qutr2duqu (E s)).dual.w)
      (((ax.mul hx).add (ay.mul hy)).add (az.mul hz)).neg ?_
    simp [qscal, qadd, qmul, qutr2duqu, qmulVQ, vadd, cross, vdot, Quat.vec]; ring

theorem add_deriv {P Q : ℝ → Quat} {C D : Quat} {u : ℝ} (hP : Quat.HasDeriv P C u)
    (hQ : Quat.HasDeriv Q D u) : Quat.HasDeriv (fun s => qadd (P s) (Q s)) (qadd C D) u := by
  obtain ⟨hx, hy, hz, hw⟩ := Quat.hasDeriv_iff.1 hP
  obtain ⟨kx, ky, kz, kw⟩ := Quat.hasDeriv_iff.1 hQ
  rw [Quat.hasDeriv_iff]
  exact ⟨hx.add kx, hy.add ky, hz.add kz, hw.add kw⟩

theorem cmul_parts (S R : Duqu) : duquCmul S R =
    ⟨qcmul S.real R.real, qadd (qcmul S.dual R.real) (qcmul S.real R.dual)⟩ := by
  apply Duqu.ext
  · ext <;> simp [duquCmul, duquMul, duquConj, qmul, qconj, qcmul] <;> ring
  · ext <;> simp [duquCmul, duquMul, duquConj, qmul, qmulA, qconj, qcmul, qadd] <;> ring

theorem dcmul_deriv {S : ℝ → Duqu} {D : Duqu} {u : ℝ} (h : Duqu.HasDeriv S D u) (R : Duqu) :
    Duqu.HasDeriv (fun s => duquCmul (S s) R) (duquCmul D R) u := by
  simp only [cmul_parts]
  exact ⟨qcmul_deriv h.1 _, add_deriv (qcmul_deriv h.2 _) (qcmul_deriv h.1 _)⟩

def dscal (S : Duqu) (a : ℝ) : Duqu := ⟨qscal S.real a, qscal S.dual a⟩

theorem dminimize_sgn (S : Duqu) : duquMinimize S = dscal S (sgn S.real) := by
  unfold duquMinimize sgn dscal
  split_ifs
  · apply Duqu.ext <;> ext <;> simp [qscal]
  · apply Duqu.ext <;> ext <;> simp [qscal]

theorem dneg_sgn (q : Quat) (x : Duqu) :
    (if q.w < 0 then (⟨qneg x.real, qneg x.dual⟩ : Duqu) else x) = dscal x (sgn q) := by
  unfold sgn dscal
  split_ifs
  · apply Duqu.ext <;> ext <;> simp [qscal, qneg]
  · apply Duqu.ext <;> ext <;> simp [qscal]

theorem dminimize_deriv {S : ℝ → Duqu} {D : Duqu} {u : ℝ} (h : Duqu.HasDeriv S D u)
    (hw : (S u).real.w ≠ 0) :
    Duqu.HasDeriv (fun s => duquMinimize (S s)) (dscal D (sgn (S u).real)) u := by
  have hs := sgn_eventually h.1 hw
  refine ⟨HasDerivAt.congr_of_eventuallyEq (scal_deriv h.1 (sgn (S u).real)) ?_,
    HasDerivAt.congr_of_eventuallyEq (scal_deriv h.2 (sgn (S u).real)) ?_⟩
  · filter_upwards [hs] with s hs
    rw [dminimize_sgn, hs]; rfl
  · filter_upwards [hs] with s hs
    rw [dminimize_sgn, hs]; rfl

def ddot (x y : Duqu) : ℝ := qdot x.real y.real + qdot x.dual y.dual

theorem drmul_adjoint (S R x : Duqu) (w n : V3) :
    ddot x (duquCmul ⟨qmul ⟨w.x, w.y, w.z, 0⟩ S.real,
        qadd (qmul ⟨w.x, w.y, w.z, 0⟩ S.dual) (qmul ⟨n.x, n.y, n.z, 0⟩ S.real)⟩ R) =
      vdot n (duquRmul S (duquConj (duquRmul R x))).dual.vec +
        vdot w (duquRmul S (duquConj (duquRmul R x))).real.vec := by
  rw [cmul_parts]
  simp only [ddot, qdot, qcmul, qmul, qadd, vdot, duquRmul, mulVecT, qmatrixR, duquConj, qconj,
    Quat.vec]
  ring

theorem mvBlock_adjoint (J : Jac8) (x D : Duqu) (hd : J.dd = J.rr) (h0 : J.rd = fun _ _ => 0) :
    ddot x ⟨qadd (mul4 J.rr D.real) (mul4 J.rd D.dual), qadd (mul4 J.dr D.real) (mul4 J.dd D.dual)⟩ =
      ddot (mvBlockJ J x) D := by
  rw [hd, h0]
  simp only [ddot, qdot, qadd, mul4, mul4T, mvBlockJ]; ring

theorem mvBlock_scal (J : Jac8) (x : Duqu) (a : ℝ) :
    mvBlockJ J (dscal x a) = dscal (mvBlockJ J x) a := by
  unfold mvBlockJ dscal
  simp only [mul4T_scal]
  apply Duqu.ext
  · ext <;> simp [qadd, qscal] <;> ring
  · rfl

/-- The logarithm of a dual quaternion in closed form. -/
noncomputable def dlog (S : Duqu) : Duqu := ⟨qlog S.real, dualForm S.real S.dual⟩

/-- The derivative of the squared length of the logarithm of the relative dual quaternion. -/
theorem duqu_deriv {E : ℝ → Qutr} {u : ℝ} {w n : V3}
    (h : PoseDeriv E u w (vadd n (cross w (E u).v))) (R : Duqu)
    (hw : (duquCmul (qutr2duqu (E u)) R).real.w ≠ 0) (J : Jac8)
    (hd : J.dd = J.rr) (h0 : J.rd = fun _ _ => 0)
    (hJ : ∀ (S : ℝ → Duqu) (D : Duqu) (t : ℝ),
      S t = duquMinimize (duquCmul (qutr2duqu (E u)) R) → Duqu.HasDeriv S D t →
        Duqu.HasDeriv (fun s => dlog (S s)) ⟨qadd (mul4 J.rr D.real) (mul4 J.rd D.dual),
          qadd (mul4 J.dr D.real) (mul4 J.dd D.dual)⟩ t) :
    HasDerivAt (fun s => ddot (dlog (duquMinimize (duquCmul (qutr2duqu (E s)) R)))
        (dlog (duquMinimize (duquCmul (qutr2duqu (E s)) R))))
      (vdot n (duquRmul (qutr2duqu (E u)) (duquConj (duquRmul R (mvBlockJ J
          (dscal (dlog (duquMinimize (duquCmul (qutr2duqu (E u)) R)))
            (sgn (duquCmul (qutr2duqu (E u)) R).real)))))).dual.vec +
        vdot w (duquRmul (qutr2duqu (E u)) (duquConj (duquRmul R (mvBlockJ J
          (dscal (dlog (duquMinimize (duquCmul (qutr2duqu (E u)) R)))
            (sgn (duquCmul (qutr2duqu (E u)) R).real)))))).real.vec) u := by
  have h1 := hJ _ _ u rfl (dminimize_deriv (dcmul_deriv (pose_duqu h) R) hw)
  refine HasDerivAt.congr_deriv ((qdot_deriv h1.1).add (qdot_deriv h1.2)) ?_
  rw [← drmul_adjoint]
  rw [← mul_add]
  change 2 * ddot _ ⟨qadd (mul4 J.rr _) (mul4 J.rd _), qadd (mul4 J.dr _) (mul4 J.dd _)⟩ = _
  rw [mvBlock_adjoint _ _ _ hd h0, mvBlock_scal]
  generalize mvBlockJ J (dlog (duquMinimize (duquCmul (qutr2duqu (E u)) R))) = X
  generalize sgn (duquCmul (qutr2duqu (E u)) R).real = a
  generalize qutr2duqu (E u) = S
  rw [cmul_parts, cmul_parts]
  simp only [ddot, dscal, qdot, qcmul, qscal, qadd]
  ring

theorem duqu_parts {S₀ : Duqu} (h : Tf.Unit S₀.real) (hw : 0 < S₀.real.w)
    (hx : dblEpsilon ≤ qangle S₀.real ∨ vnorm S₀.real.vec = 0) :
    ∃ J : Jac8, duquLn S₀ = some (dlog S₀) ∧ duquLnJac S₀ = some J ∧ J.dd = J.rr ∧
      (J.rd = fun _ _ => 0) ∧ ∀ (S : ℝ → Duqu) (D : Duqu) (t : ℝ), S t = S₀ → Duqu.HasDeriv S D t →
        Duqu.HasDeriv (fun s => dlog (S s)) ⟨qadd (mul4 J.rr D.real) (mul4 J.rd D.dual),
          qadd (mul4 J.dr D.real) (mul4 J.dd D.dual)⟩ t := by
  obtain ⟨hn, hq⟩ := unit_norm h
  have hz : ∀ A D : Quat, ∀ M, qadd (mul4 M A) (mul4 (fun _ _ => 0) D) = mul4 M A := by
    intro A D M
    ext <;> simp [qadd, mul4]
  have hqd : vdot S₀.real.vec S₀.real.vec + S₀.real.w * S₀.real.w = 1 := hq
  have hat : atan2 (vnorm S₀.real.vec) S₀.real.w = qangle S₀.real := rfl
  have hvn : Real.sqrt (vdot S₀.real.vec S₀.real.vec) = vnorm S₀.real.vec := rfl
  by_cases h0 : vnorm S₀.real.vec = 0
  · have ha := qangle_real h0 hw
    obtain ⟨z1, z2, z3⟩ := vec_zero h0
    have hw1 : S₀.real.w = 1 := by rw [← qnorm_real h0 hw, hn]
    refine ⟨⟨qlnJacFill S₀.real 1 (zetaS S₀.real) (etaS S₀.real), fun _ _ => 0,
        duquLnJacDr S₀.real S₀.dual 1 (zetaS S₀.real) (muS S₀.real),
        qlnJacFill S₀.real 1 (zetaS S₀.real) (etaS S₀.real)⟩, ?_, ?_, rfl, rfl, ?_⟩
    · unfold duquLn dlog
      simp only [hqd, hvn, hat, ha]
      rw [Real.sqrt_one, if_neg one_ne_zero, if_pos (by norm_num [dblEpsilon])]
      simp only [qlog, dualForm, etaHat, zetaHat, h0, if_true, z1, z2, z3, hn, hq, hw1,
        invsincSeries2, horner3]
      congr 1
      apply Duqu.ext
      · ext <;> simp
      · ext <;> simp
    · rw [duquLnJac_eq, hq, if_neg one_ne_zero, ha, if_pos (by norm_num [dblEpsilon])]
    · rintro S D t rfl hd
      simp only [hz]
      refine ⟨?_, ?_⟩
      · have := hasDeriv_qlog_real hd.1 h0 hw (zetaS (S t).real)
        rw [etaS_real h0 hw]
        rw [hq] at this
        exact this
      · have := hasDeriv_dual_real hd.1 hd.2 h0 hw (zetaS (S t).real) (muS (S t).real)
        rw [etaS_real h0 hw]
        rw [hq] at this
        exact this
  · have hx : ¬ qangle S₀.real < dblEpsilon := not_lt.2 (hx.resolve_right h0)
    have hv : vdot S₀.real.vec S₀.real.vec ≠ 0 := (qvv_pos h0).ne'
    refine ⟨⟨qlnJacFill S₀.real 1 (lnZeta S₀.real) (lnEta S₀.real), fun _ _ => 0,
        duquLnJacDr S₀.real S₀.dual 1 (lnZeta S₀.real) (lnMu S₀.real),
        qlnJacFill S₀.real 1 (lnZeta S₀.real) (lnEta S₀.real)⟩, ?_, ?_, rfl, rfl, ?_⟩
    · unfold duquLn dlog
      simp only [hqd, hvn, hat]
      rw [Real.sqrt_one, if_neg one_ne_zero, if_neg hx, if_neg hv]
      simp only [qlog, dualForm, etaHat, zetaHat, h0, if_false, hn, hq, lnEta, lnZeta, Real.log_one,
        div_one]
      rfl
    · rw [duquLnJac_eq, hq, if_neg one_ne_zero, if_neg hx, if_neg (qvv_pos h0).ne']
    · rintro S D t rfl hd
      simp only [hz]
      refine ⟨?_, ?_⟩
      · have := hasDeriv_qlog hd.1 h0
        rw [hq] at this
        exact this
      · have := hasDeriv_dual hd.1 hd.2 h0
        rw [hq] at this
        exact this

theorem duquErr_spec {A R : Duqu} (ha : Tf.Unit A.real) (hr : Tf.Unit R.real)
    (hw : (duquCmul A R).real.w ≠ 0)
    (hx : dblEpsilon ≤ qangle (duquMinimize (duquCmul A R)).real ∨
      vnorm (duquMinimize (duquCmul A R)).real.vec = 0) :
    ∃ J : Jac8, J.dd = J.rr ∧ (J.rd = fun _ _ => 0) ∧
      (∀ (S : ℝ → Duqu) (D : Duqu) (t : ℝ), S t = duquMinimize (duquCmul A R) → Duqu.HasDeriv S D t →
        Duqu.HasDeriv (fun s => dlog (S s)) ⟨qadd (mul4 J.rr D.real) (mul4 J.rd D.dual),
          qadd (mul4 J.dr D.real) (mul4 J.dd D.dual)⟩ t) ∧
      duquErr A R = some (ddot (dlog (duquMinimize (duquCmul A R)))
          (dlog (duquMinimize (duquCmul A R))),
        ⟨(duquRmul A (duquConj (duquRmul R (mvBlockJ J (dscal (dlog (duquMinimize (duquCmul A R)))
            (sgn (duquCmul A R).real)))))).real.vec,
          (duquRmul A (duquConj (duquRmul R (mvBlockJ J (dscal (dlog (duquMinimize (duquCmul A R)))
            (sgn (duquCmul A R).real)))))).dual.vec⟩) := by
  have hm : (duquMinimize (duquCmul A R)).real = qminimize (duquCmul A R).real := by
    rw [dminimize_sgn, minimize_sgn]; rfl
  have hu : Tf.Unit (duquCmul A R).real := by rw [cmul_parts]; exact cmul_unit ha hr
  obtain ⟨h1, h2⟩ := minimize_unit hu hw
  rw [← hm] at h1 h2
  obtain ⟨J, p1, p2, p3, p4, p5⟩ := duqu_parts h1 h2 hx
  refine ⟨J, p3, p4, p5, ?_⟩
  unfold duquErr
  simp only [dneg_sgn]
  rw [← dminimize_sgn, p1]
  simp only
  rw [p2]
  rfl

/-! ## The ideal errors -/

theorem qdot_qlog {e : Quat} (h : Tf.Unit e) (hw : vnorm e.vec ≠ 0 ∨ 0 < e.w) :
    qdot (qlog e) (qlog e) = qangle e ^ 2 := by
  obtain ⟨hn, hq⟩ := unit_norm h
  have : qdot (qlog e) (qlog e) = lnEta e ^ 2 * qvv e := by
    simp only [qlog, qdot, hn, Real.log_one, qvv, vdot, Quat.vec]; ring
  rw [this]
  by_cases h0 : vnorm e.vec = 0
  · have hw : 0 < e.w := by tauto
    rw [qangle_real h0 hw, ← qvv_eq, h0]; ring
  · rw [← qvv_eq, lnEta]; field_simp

theorem rotAngle_qangle {A B : Qutr} (hA : A.Valid) (hB : B.Valid) :
    qangle (qminimize (qcmul A.q B.q)) = rotAngle A B / 2 := by
  have h := congrArg Prod.fst (err2_eq hA hB)
  have e : (qutrCmul A B).q = qcmul A.q B.q := by
    ext <;> simp [qutrCmul, qutrMul, qutrConj, qmul, qconj, qcmul] <;> ring
  rw [← e]; exact h

theorem transErr_dist (A B : Qutr) : vdot (transErr A B) (transErr A B) = transDist A B ^ 2 := by
  rw [transDist, pow_two, vnorm_sq]
  simp only [vdot, transErr]; ring

end Verif.Ik
