import Verif.Proof.LnSeries

/-!
# C67: derivatives of the quaternion exponential and logarithm

Specification: `qlog` is the principal logarithm (`C67_log_spec`: its exponential in Mathlib's
quaternions is `q` and its vector part is at most `π` long); derivatives are Mathlib's `HasDerivAt`
along arbitrary differentiable paths, `NormedSpace.exp` is the exponential, and the logarithm of a dual
quaternion is the pair of the logarithm and its directional derivative.

The code switches to truncated series near the reals; there the theorems bound the difference.
-/

namespace Verif.Tf

open Quaternion NormedSpace

/-- The specification's logarithm is the principal one. -/
theorem C67_log_spec (q : Quat) (h : vnorm q.vec ≠ 0 ∨ 0 < q.w) :
    exp (qlog q).den = q.den ∧ vnorm (qlog q).vec ≤ Real.pi := by
  obtain ⟨np, hs, hc, p0, p1⟩ := polar (vnorm q.vec) q.w (vnorm_nonneg _)
    (h.imp id (fun h => h.ne'))
  rw [vnorm_sq, qnorm_eq] at np hs hc
  have hq : qangle q = atan2 (vnorm q.vec) q.w := rfl
  rw [← hq] at hs hc p0 p1
  have hvn : vnorm (qlog q).vec = lnEta q * vnorm q.vec := by
    have e0 : 0 ≤ lnEta q := div_nonneg p0 (vnorm_nonneg _)
    rw [vnorm, Real.sqrt_eq_iff_mul_self_eq (vdot_nonneg _) (mul_nonneg e0 (vnorm_nonneg _))]
    have := vnorm_sq q.vec
    simp only [qlog, vdot, Quat.vec] at *
    first
      | linear_combination (lnEta q * lnEta q) * this
      | linear_combination (-(lnEta q * lnEta q)) * this
  by_cases hv : vnorm q.vec = 0
  · obtain ⟨z1, z2, z3⟩ := vec_zero hv
    have hw : 0 < q.w := by tauto
    have hn : qnorm q = q.w := by
      rw [← qnorm_eq, ← vnorm_sq, hv]; simp [Real.sqrt_mul_self hw.le]
    refine ⟨?_, by rw [hvn, hv, mul_zero]; exact Real.pi_pos.le⟩
    rw [exp_den]
    have e1 : (qlog q).vec.pure = 0 := by
      ext <;> simp [qlog, Quat.vec, z1, z2, z3]
    rw [e1, exp_zero]
    show Real.exp (Real.log (qnorm q)) • 1 = _
    rw [Real.exp_log np, hn]
    ext <;> simp [z1, z2, z3]
  · have hvn' : vnorm (qlog q).vec = qangle q := by rw [hvn, lnEta, div_mul_cancel₀ _ hv]
    refine ⟨?_, hvn' ▸ p1⟩
    rw [exp_den, exp_pure, hvn']
    show Real.exp (Real.log (qnorm q)) • _ = _
    rw [Real.exp_log np]
    have ha : qangle q ≠ 0 := by
      intro h0; rw [h0, Real.sin_zero, mul_zero] at hs; exact hv hs.symm
    have hk : qnorm q * (Real.sin (qangle q) / qangle q) * lnEta q = 1 := by
      rw [lnEta]
      field_simp
      exact hs
    generalize Real.sin (qangle q) / qangle q = k at hk ⊢
    generalize Real.cos (qangle q) = c at hc ⊢
    generalize qnorm q = n at hk hc ⊢
    ext <;> simp [qlog, Quat.vec]
    · exact hc
    · linear_combination q.x * hk
    · linear_combination q.y * hk
    · linear_combination q.z * hk

/-! ## `aa_tf_qln_jac` -/

theorem qlnJac_eq (q : Quat) : qlnJac q =
    if qqq q = 0 then none
    else if qangle q < dblEpsilon then some (qlnJacFill q (qqq q) (zetaS q) (etaS q))
    else if qvv q = 0 then none
    else some (qlnJacFill q (qqq q) (lnZeta q) (lnEta q)) := by
  unfold qlnJac zetaS etaS
  rw [qnorm_qqq]
  rfl

theorem qangle_real {q : Quat} (h : vnorm q.vec = 0) (hw : 0 < q.w) : qangle q = 0 := by
  rw [qangle, h, atan2, Complex.arg_eq_zero_iff]
  exact ⟨hw.le, rfl⟩

theorem qnorm_real {q : Quat} (h : vnorm q.vec = 0) (hw : 0 < q.w) : qnorm q = q.w := by
  rw [← qnorm_eq, ← vnorm_sq, h]; simp [Real.sqrt_mul_self hw.le]

theorem etaS_real {q : Quat} (h : vnorm q.vec = 0) (hw : 0 < q.w) : etaS q = 1 / q.w := by
  rw [etaS, qangle_real h hw, qnorm_real h hw]; simp [invsincSeries2, horner3]

/-- Entries of the matrix filled with different coefficients. -/
theorem fill_close (q : Quat) (qq z z' e e' : ℝ) (i j : Fin 4) :
    |qlnJacFill q qq z e i j - qlnJacFill q qq z' e' i j| ≤ qvv q * |z - z'| + |e - e'| := by
  have hx : q.x * q.x ≤ qvv q := by
    simp only [qvv, vdot, Quat.vec]; nlinarith [mul_self_nonneg q.y, mul_self_nonneg q.z]
  have hy : q.y * q.y ≤ qvv q := by
    simp only [qvv, vdot, Quat.vec]; nlinarith [mul_self_nonneg q.x, mul_self_nonneg q.z]
  have hz : q.z * q.z ≤ qvv q := by
    simp only [qvv, vdot, Quat.vec]; nlinarith [mul_self_nonneg q.y, mul_self_nonneg q.x]
  have hprod : ∀ a b : ℝ, a * a ≤ qvv q → b * b ≤ qvv q → |a * b| ≤ qvv q := by
    intro a b ha hb
    rw [abs_le]; constructor <;> nlinarith [mul_self_nonneg (a - b), mul_self_nonneg (a + b)]
  have key : ∀ a b : ℝ, a * a ≤ qvv q → b * b ≤ qvv q →
      |a * (b * z) - a * (b * z')| ≤ qvv q * |z - z'| + |e - e'| := by
    intro a b ha hb
    rw [show a * (b * z) - a * (b * z') = (a * b) * (z - z') by ring, abs_mul]
    have := mul_le_mul_of_nonneg_right (hprod a b ha hb) (abs_nonneg (z - z'))
    linarith [abs_nonneg (e - e')]
  have keyd : ∀ a : ℝ, a * a ≤ qvv q →
      |a * (a * z) + e - (a * (a * z') + e')| ≤ qvv q * |z - z'| + |e - e'| := by
    intro a ha
    rw [show a * (a * z) + e - (a * (a * z') + e') = (a * a) * (z - z') + (e - e') by ring]
    refine (abs_add_le _ _).trans ?_
    rw [abs_mul]
    have := mul_le_mul_of_nonneg_right (hprod a a ha ha) (abs_nonneg (z - z'))
    linarith
  have zero : (0 : ℝ) ≤ qvv q * |z - z'| + |e - e'| :=
    add_nonneg (mul_nonneg (qvv_nonneg _) (abs_nonneg _)) (abs_nonneg _)
  fin_cases i <;> fin_cases j <;> simp [qlnJacFill, fillUplo] <;>
    first
      | exact zero
      | exact keyd _ hx
      | exact keyd _ hy
      | exact keyd _ hz
      | exact key _ _ hx hy
      | exact key _ _ hx hz
      | exact key _ _ hy hz

/-- **C67** (partial: within `2^-100/|q|` per entry instead of exact when the angle is positive and
below `DBL_EPSILON`): wherever the logarithm is differentiable, `aa_tf_qln_jac` returns a matrix,
and it is the matrix of derivatives of the logarithm along every path. -/
theorem C67_qln_jac_partial (q : Quat) (h : vnorm q.vec ≠ 0 ∨ 0 < q.w) :
    ∃ J Jt, qlnJac q = some J ∧
      (∀ (Q : ℝ → Quat) (D : Quat) (t : ℝ), Q t = q → Quat.HasDeriv Q D t →
        Quat.HasDeriv (fun s => qlog (Q s)) (mul4 Jt D) t) ∧
      (∀ i j, |J i j - Jt i j| ≤ 1 / 2 ^ 100 / qnorm q) ∧
      (dblEpsilon ≤ qangle q ∨ vnorm q.vec = 0 → J = Jt) := by
  have hq := qqq_pos h
  have hn : 0 < qnorm q := by rw [qnorm_qqq]; exact Real.sqrt_pos.2 hq
  rw [qlnJac_eq, if_neg hq.ne']
  by_cases h0 : vnorm q.vec = 0
  · have hw : 0 < q.w := by tauto
    have ha := qangle_real h0 hw
    rw [if_pos (by rw [ha]; norm_num [dblEpsilon])]
    refine ⟨_, _, rfl, ?_, ?_, fun _ => rfl⟩
    · rintro Q D t rfl hd
      have := hasDeriv_qlog_real hd h0 hw (zetaS (Q t))
      rw [etaS_real h0 hw]
      exact this
    · intro i j
      rw [sub_self, abs_zero]; positivity
  · by_cases hx : qangle q < dblEpsilon
    · rw [if_pos hx]
      refine ⟨_, qlnJacFill q (qqq q) (lnZeta q) (lnEta q), rfl, ?_, ?_,
        fun h' => absurd h' (not_or.2 ⟨not_le.2 hx, h0⟩)⟩
      · rintro Q D t rfl hd
        exact hasDeriv_qlog hd h0
      · intro i j
        obtain ⟨c1, c2, -, -⟩ := coef_close h0 hx
        refine (fill_close q _ _ _ _ _ i j).trans ((add_le_add c2 c1).trans ?_)
        rw [← add_div]
        apply div_le_div_of_nonneg_right _ hn.le
        norm_num
    · rw [if_neg hx, if_neg (qvv_pos h0).ne']
      refine ⟨_, _, rfl, ?_, ?_, fun _ => rfl⟩
      · rintro Q D t rfl hd
        exact hasDeriv_qlog hd h0
      · intro i j
        rw [sub_self, abs_zero]; positivity

/-! ## `aa_tf_duqu_ln_jac` -/

theorem duquLnJac_eq (S : Duqu) : duquLnJac S =
    if qqq S.real = 0 then none
    else if qangle S.real < dblEpsilon then
      some ⟨qlnJacFill S.real (qqq S.real) (zetaS S.real) (etaS S.real), fun _ _ => 0,
        duquLnJacDr S.real S.dual (qqq S.real) (zetaS S.real) (muS S.real),
        qlnJacFill S.real (qqq S.real) (zetaS S.real) (etaS S.real)⟩
    else if qvv S.real = 0 then none
    else
      some ⟨qlnJacFill S.real (qqq S.real) (lnZeta S.real) (lnEta S.real), fun _ _ => 0,
        duquLnJacDr S.real S.dual (qqq S.real) (lnZeta S.real) (lnMu S.real),
        qlnJacFill S.real (qqq S.real) (lnZeta S.real) (lnEta S.real)⟩ := by
  unfold duquLnJac zetaS etaS muS
  rw [qnorm_qqq]
  rfl

theorem coord_le_vnorm (v : V3) : |v.x| ≤ vnorm v ∧ |v.y| ≤ vnorm v ∧ |v.z| ≤ vnorm v := by
  refine ⟨?_, ?_, ?_⟩ <;> apply Real.abs_le_sqrt <;> simp only [vdot] <;>
    nlinarith [mul_self_nonneg v.x, mul_self_nonneg v.y, mul_self_nonneg v.z]

theorem abs_vdot_le (u v : V3) : |vdot u v| ≤ vnorm u * vnorm v := by
  rw [vnorm, vnorm, ← Real.sqrt_mul (vdot_nonneg _)]
  apply Real.abs_le_sqrt
  simp only [vdot]
  nlinarith [mul_self_nonneg (u.x * v.y - u.y * v.x), mul_self_nonneg (u.y * v.z - u.z * v.y),
    mul_self_nonneg (u.z * v.x - u.x * v.z)]

/-- Entries of the mixed block filled with different coefficients. -/
theorem dr_close (q d : Quat) (qq z z' m m' E : ℝ) (hz : vnorm q.vec * |z - z'| ≤ E)
    (hm : vnorm q.vec ^ 3 * |m - m'| ≤ E) (i j : Fin 4) :
    |duquLnJacDr q d qq z m i j - duquLnJacDr q d qq z' m' i j| ≤ 4 * E * vnorm d.vec := by
  obtain ⟨qx, qy, qz⟩ := coord_le_vnorm q.vec
  obtain ⟨dx, dy, dz⟩ := coord_le_vnorm d.vec
  have hg := abs_vdot_le q.vec d.vec
  have n0 := vnorm_nonneg q.vec
  have d0 := vnorm_nonneg d.vec
  have E0 : 0 ≤ E := (mul_nonneg n0 (abs_nonneg _)).trans hz
  generalize hN : vnorm q.vec = n at *
  generalize hD : vnorm d.vec = e at *
  simp only [Quat.vec] at qx qy qz dx dy dz
  have mulb : ∀ {a b A B : ℝ}, |a| ≤ A → |b| ≤ B → |a * b| ≤ A * B := by
    intro a b A B h1 h2
    rw [abs_mul]
    exact mul_le_mul h1 h2 (abs_nonneg _) ((abs_nonneg _).trans h1)
  have zero : (0 : ℝ) ≤ 4 * E * e := by positivity
  have off : ∀ a b c f : ℝ, |a| ≤ n → |b| ≤ n → |c| ≤ e → |f| ≤ e →
      |(a * f + b * c) * (z - z') + a * b * vdot q.vec d.vec * (m - m')| ≤ 3 * E * e := by
    intro a b c f ha hb hc hf
    have h1 : |(a * f + b * c) * (z - z')| ≤ 2 * E * e := by
      rw [abs_mul]
      have : |a * f + b * c| ≤ 2 * n * e := by
        refine (abs_add_le _ _).trans ?_
        linarith [mulb ha hf, mulb hb hc]
      refine (mul_le_mul_of_nonneg_right this (abs_nonneg _)).trans ?_
      nlinarith
    have h2 : |a * b * vdot q.vec d.vec * (m - m')| ≤ E * e := by
      rw [abs_mul]
      refine (mul_le_mul_of_nonneg_right (mulb (mulb ha hb) hg) (abs_nonneg _)).trans ?_
      nlinarith
    refine (abs_add_le _ _).trans ?_
    linarith
  have diag : ∀ a c : ℝ, |a| ≤ n → |c| ≤ e →
      |(a * c + a * c) * (z - z') + a * a * vdot q.vec d.vec * (m - m') +
        vdot q.vec d.vec * (z - z')| ≤ 4 * E * e := by
    intro a c ha hc
    have h1 := off a a c c ha ha hc hc
    have h2 : |vdot q.vec d.vec * (z - z')| ≤ E * e := by
      rw [abs_mul]
      refine (mul_le_mul_of_nonneg_right hg (abs_nonneg _)).trans ?_
      nlinarith
    refine (abs_add_le _ _).trans ?_
    linarith
  have off' : ∀ a b c f r : ℝ, |a| ≤ n → |b| ≤ n → |c| ≤ e → |f| ≤ e →
      r = (a * f + b * c) * (z - z') + a * b * vdot q.vec d.vec * (m - m') → |r| ≤ 4 * E * e := by
    intro a b c f r ha hb hc hf hr
    rw [hr]
    refine (off a b c f ha hb hc hf).trans ?_
    nlinarith
  have diag' : ∀ a c r : ℝ, |a| ≤ n → |c| ≤ e →
      r = (a * c + a * c) * (z - z') + a * a * vdot q.vec d.vec * (m - m') +
        vdot q.vec d.vec * (z - z') → |r| ≤ 4 * E * e := by
    intro a c r ha hc hr
    rw [hr]
    exact diag a c ha hc
  fin_cases i <;> fin_cases j <;>
    simp only [duquLnJacDr, fillUplo, Quat.at, Fin.mk_one, Fin.zero_eta, Fin.isValue,
      Fin.reduceFinMk, Matrix.cons_val, Matrix.cons_val_zero, Matrix.cons_val_one]
  · exact diag' q.x d.x _ qx dx (by ring)
  · exact off' q.x q.y d.x d.y _ qx qy dx dy (by ring)
  · exact off' q.x q.z d.x d.z _ qx qz dx dz (by ring)
  · rw [sub_self, abs_zero]; exact zero
  · exact off' q.x q.y d.x d.y _ qx qy dx dy (by ring)
  · exact diag' q.y d.y _ qy dy (by ring)
  · exact off' q.y q.z d.y d.z _ qy qz dy dz (by ring)
  · rw [sub_self, abs_zero]; exact zero
  · exact off' q.x q.z d.x d.z _ qx qz dx dz (by ring)
  · exact off' q.y q.z d.y d.z _ qy qz dy dz (by ring)
  · exact diag' q.z d.z _ qz dz (by ring)
  · rw [sub_self, abs_zero]; exact zero
  all_goals rw [sub_self, abs_zero]; exact zero

/-- The dual part of the logarithm is the closed form near a point where it is differentiable. -/
theorem hasDeriv_qlogDual {S : ℝ → Duqu} {t : ℝ} {D : Duqu} {F : Quat}
    (h : vnorm (S t).real.vec ≠ 0 ∨ 0 < (S t).real.w) (hd : Duqu.HasDeriv S D t)
    (hF : Quat.HasDeriv (fun s => dualForm (S s).real (S s).dual) F t) :
    HasDerivAt (fun s => qlogDual (S s)) F.den t := by
  refine HasDerivAt.congr_of_eventuallyEq hF ?_
  have hr : Quat.HasDeriv (fun s => (S s).real) D.real t := hd.1
  obtain ⟨-, -, -, hw⟩ := Quat.hasDeriv_iff.1 hr
  have ev : ∀ᶠ s in nhds t, vnorm (S s).real.vec ≠ 0 ∨ 0 < (S s).real.w := by
    rcases h with h | h
    · exact (eventually_vnorm hr h).mono fun _ => Or.inl
    · exact (hw.continuousAt.eventually (lt_mem_nhds h)).mono fun _ => Or.inr
  exact ev.mono fun s hs => qlogDual_eq (S s) hs

/-- **C67** (partial: see `C67_qln_jac_partial`): `aa_tf_duqu_ln_jac` is the matrix of derivatives of
the dual quaternion logarithm `(log r, D log(r)[d])`, within `2^-100` relative to `1/|r|` and
`|d|/|r|²` when the angle is positive and below `DBL_EPSILON`, otherwise exactly. -/
theorem C67_duqu_ln_jac_partial (S₀ : Duqu) (h : vnorm S₀.real.vec ≠ 0 ∨ 0 < S₀.real.w) :
    ∃ J Jt, duquLnJac S₀ = some J ∧
      (∀ (S : ℝ → Duqu) (D : Duqu) (t : ℝ), S t = S₀ → Duqu.HasDeriv S D t →
        Quat.HasDeriv (fun s => qlog (S s).real) (qadd (mul4 Jt.rr D.real) (mul4 Jt.rd D.dual)) t ∧
        HasDerivAt (fun s => qlogDual (S s))
          (qadd (mul4 Jt.dr D.real) (mul4 Jt.dd D.dual)).den t) ∧
      (∀ i j, |J.rr i j - Jt.rr i j| ≤ 1 / 2 ^ 100 / qnorm S₀.real ∧ J.rd i j = Jt.rd i j ∧
        |J.dr i j - Jt.dr i j| ≤ 1 / 2 ^ 100 * vnorm S₀.dual.vec / qqq S₀.real ∧
        |J.dd i j - Jt.dd i j| ≤ 1 / 2 ^ 100 / qnorm S₀.real) ∧
      (dblEpsilon ≤ qangle S₀.real ∨ vnorm S₀.real.vec = 0 → J = Jt) := by
  have hq := qqq_pos h
  have hn : 0 < qnorm S₀.real := by rw [qnorm_qqq]; exact Real.sqrt_pos.2 hq
  have d0 := vnorm_nonneg S₀.dual.vec
  have hz : ∀ A D : Quat, ∀ M, qadd (mul4 M A) (mul4 (fun _ _ => 0) D) = mul4 M A := by
    intro A D M
    ext <;> simp [qadd, mul4]
  have triv : ∀ J : Jac8, ∀ i j, |J.rr i j - J.rr i j| ≤ 1 / 2 ^ 100 / qnorm S₀.real ∧
      J.rd i j = J.rd i j ∧
      |J.dr i j - J.dr i j| ≤ 1 / 2 ^ 100 * vnorm S₀.dual.vec / qqq S₀.real ∧
      |J.dd i j - J.dd i j| ≤ 1 / 2 ^ 100 / qnorm S₀.real := by
    intro J i j
    simp only [sub_self, abs_zero]
    refine ⟨?_, trivial, ?_, ?_⟩ <;> positivity
  have exact0 : vnorm S₀.real.vec ≠ 0 → ∀ (S : ℝ → Duqu) (D : Duqu) (t : ℝ), S t = S₀ →
      Duqu.HasDeriv S D t →
      Quat.HasDeriv (fun s => qlog (S s).real)
        (mul4 (qlnJacFill S₀.real (qqq S₀.real) (lnZeta S₀.real) (lnEta S₀.real)) D.real) t ∧
      HasDerivAt (fun s => qlogDual (S s))
        (qadd (mul4 (duquLnJacDr S₀.real S₀.dual (qqq S₀.real) (lnZeta S₀.real) (lnMu S₀.real))
            D.real)
          (mul4 (qlnJacFill S₀.real (qqq S₀.real) (lnZeta S₀.real) (lnEta S₀.real)) D.dual)).den
        t := by
    rintro h0 S D t rfl hd
    exact ⟨hasDeriv_qlog hd.1 h0, hasDeriv_qlogDual h hd (hasDeriv_dual hd.1 hd.2 h0)⟩
  rw [duquLnJac_eq, if_neg hq.ne']
  by_cases h0 : vnorm S₀.real.vec = 0
  · have hw : 0 < S₀.real.w := by tauto
    have ha := qangle_real h0 hw
    rw [if_pos (by rw [ha]; norm_num [dblEpsilon])]
    refine ⟨_, _, rfl, ?_, triv _, fun _ => rfl⟩
    rintro S D t rfl hd
    simp only [hz]
    rw [etaS_real h0 hw]
    exact ⟨hasDeriv_qlog_real hd.1 h0 hw _,
      hasDeriv_qlogDual h hd (hasDeriv_dual_real hd.1 hd.2 h0 hw _ _)⟩
  · by_cases hx : qangle S₀.real < dblEpsilon
    · rw [if_pos hx]
      refine ⟨_, ⟨qlnJacFill S₀.real (qqq S₀.real) (lnZeta S₀.real) (lnEta S₀.real), fun _ _ => 0,
        duquLnJacDr S₀.real S₀.dual (qqq S₀.real) (lnZeta S₀.real) (lnMu S₀.real),
        qlnJacFill S₀.real (qqq S₀.real) (lnZeta S₀.real) (lnEta S₀.real)⟩, rfl, ?_, ?_,
        fun h' => absurd h' (not_or.2 ⟨not_le.2 hx, h0⟩)⟩
      · intro S D t hS hd
        simp only [hz]
        exact exact0 h0 S D t hS hd
      · intro i j
        obtain ⟨c1, c2, c3, c4⟩ := coef_close h0 hx
        have hf := (fill_close S₀.real (qqq S₀.real) (zetaS S₀.real) (lnZeta S₀.real)
          (etaS S₀.real) (lnEta S₀.real) i j).trans ((add_le_add c2 c1).trans
          (show _ ≤ 1 / 2 ^ 100 / qnorm S₀.real by
            rw [← add_div]; apply div_le_div_of_nonneg_right _ hn.le; norm_num))
        refine ⟨hf, rfl, ?_, hf⟩
        refine (dr_close _ _ _ _ _ _ _ _ c3 c4 i j).trans (le_of_eq ?_)
        ring
    · rw [if_neg hx, if_neg (qvv_pos h0).ne']
      refine ⟨_, _, rfl, ?_, triv _, fun _ => rfl⟩
      intro S D t hS hd
      simp only [hz]
      exact exact0 h0 S D t hS hd

/-- The hypotheses hold: a path of dual quaternions through a quaternion in general position. -/
example : vnorm (⟨1, 2, 3, -4⟩ : Quat).vec ≠ 0 ∨ (0 : ℝ) < -4 := by
  left
  rw [vnorm, Ne, Real.sqrt_eq_zero (vdot_nonneg _)]
  norm_num [vdot, Quat.vec]

end Verif.Tf
