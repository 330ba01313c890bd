import Verif.Model.Wk
import Verif.Prop.QuatInt

/-!
# C74: proportional workspace control reaches the reference

Specification: a pose curve moves with the velocity `dx` at a time if its origin has the derivative
`dx.v` and its orientation the derivative of a rotation at `dx.w`.  Closing the loop of
`aa_rx_wk_dx_pos` with equal gains has a solution from every pose, which goes to the reference.
-/

namespace Verif.Wk

open scoped Quaternion
open Quaternion Verif.Tf NormedSpace Filter

/-- The curve `P` moves with the velocity `dx` at the time `t`. -/
def MovesAt (P : ℝ → Qutr) (dx : Dx) (t : ℝ) : Prop :=
  V3.HasDeriv (fun s => (P s).v) dx.v t ∧
  HasDerivAt (fun s => (P s).q.den) ((1 / 2 : ℝ) • (dx.w.pure * (P t).q.den)) t

/-! ## Logarithms are unique -/

theorem log_unique {t t' : Dx} {f : V3 → V3} (h : IsLog t f) (h' : IsLog t' f) (hw : t.w = t'.w)
    (hn : vnorm t.w < 2 * Real.pi) : t = t' := by
  obtain ⟨X, hX, hX0⟩ := flow_some t ⟨0, 0, 0⟩
  obtain ⟨Y, hY, hY0⟩ := flow_some t' ⟨0, 0, 0⟩
  have e : X 1 = Y 1 := by rw [h X hX, h' Y hY, hX0, hY0]
  obtain ⟨v, w⟩ := t
  obtain ⟨v', w'⟩ := t'
  simp only at hw hn
  subst hw
  by_cases h0 : vnorm w = 0
  · have hw := vnorm_eq_zero h0
    subst hw
    have a := flow_closed _ _ hX 1
    have b := flow_closed _ _ hY 1
    rw [hX0] at a; rw [hY0] at b
    rw [a, b] at e
    simp only [gen, h0, vadd, vscal, cross, vdot] at e
    simp at e
    congr 1
    exact V3.ext e.1 e.2.1 e.2.2
  · have a := flow_one _ _ hX h0
    have b := flow_one _ _ hY h0
    rw [hX0] at a; rw [hY0] at b
    rw [a, b] at e
    simp only at e
    have hp : 0 < vnorm w := lt_of_le_of_ne (vnorm_nonneg _) (Ne.symm h0)
    have hww := vnorm_sq w
    generalize vnorm w = θ at *
    obtain ⟨wx, wy, wz⟩ := w
    obtain ⟨x, y, z⟩ := v
    obtain ⟨x', y', z'⟩ := v'
    have hc : Real.cos θ < 1 := by
      refine lt_of_le_of_ne (Real.cos_le_one _) fun hc => ?_
      have := (Real.cos_eq_one_iff_of_lt_of_lt (by linarith [Real.pi_pos]) hn).1 hc
      exact h0 this
    have hsc := Real.sin_sq_add_cos_sq θ
    generalize Real.sin θ = S at *
    generalize Real.cos θ = C at *
    simp only [gen, vadd, vscal, cross, vdot, V3.mk.injEq] at e hww
    obtain ⟨e1, e2, e3⟩ := e
    simp only [mul_zero, add_zero, sub_zero, zero_add, zero_mul] at e1 e2 e3
    -- the difference
    obtain ⟨A, hA⟩ : ∃ A, A = S / θ := ⟨_, rfl⟩
    obtain ⟨B, hB⟩ : ∃ B, B = (1 - C) / (θ * θ) := ⟨_, rfl⟩
    obtain ⟨D, hD⟩ : ∃ D, D = (1 - S / θ) / (θ * θ) := ⟨_, rfl⟩
    have hAD : A + D * (θ * θ) = 1 := by rw [hA, hD]; field_simp; ring
    have hAB : 0 < A * A + B * B * (θ * θ) := by
      have : A * A + B * B * (θ * θ) = (2 - 2 * C) / (θ * θ) := by
        rw [hA, hB]; field_simp; nlinarith
      rw [this]
      exact div_pos (by linarith) (by positivity)
    rw [← hD, ← hB, ← hA] at e1 e2 e3
    obtain ⟨p, hp⟩ : ∃ p, p = wx * (x - x') + wy * (y - y') + wz * (z - z') := ⟨_, rfl⟩
    have hp0 : p = 0 := by
      have : (A + D * (θ * θ)) * p = 0 := by
        rw [hp, hww]; linear_combination wx * e1 + wy * e2 + wz * e3
      rwa [hAD, one_mul] at this
    have f1 : A * (x - x') + B * (wy * (z - z') - wz * (y - y')) = 0 := by
      linear_combination e1 - D * wx * (hp.symm.trans hp0)
    have f2 : A * (y - y') + B * (wz * (x - x') - wx * (z - z')) = 0 := by
      linear_combination e2 - D * wy * (hp.symm.trans hp0)
    have f3 : A * (z - z') + B * (wx * (y - y') - wy * (x - x')) = 0 := by
      linear_combination e3 - D * wz * (hp.symm.trans hp0)
    have hz : (A * A + B * B * (θ * θ)) *
        ((x - x') * (x - x') + (y - y') * (y - y') + (z - z') * (z - z')) = 0 := by
      rw [hww]
      linear_combination
        (A * (x - x') + B * (wy * (z - z') - wz * (y - y'))) * f1 +
        (A * (y - y') + B * (wz * (x - x') - wx * (z - z'))) * f2 +
        (A * (z - z') + B * (wx * (y - y') - wy * (x - x'))) * f3 +
        B * B * (wx * (x - x') + wy * (y - y') + wz * (z - z')) * (hp.symm.trans hp0)
    have hs := (mul_eq_zero.1 hz).resolve_left hAB.ne'
    have nx := mul_self_nonneg (x - x')
    have ny := mul_self_nonneg (y - y')
    have nz := mul_self_nonneg (z - z')
    have gx : x = x' := sub_eq_zero.1 (mul_self_eq_zero.1 (by linarith only [hs, nx, ny, nz]))
    have gy : y = y' := sub_eq_zero.1 (mul_self_eq_zero.1 (by linarith only [hs, nx, ny, nz]))
    have gz : z = z' := sub_eq_zero.1 (mul_self_eq_zero.1 (by linarith only [hs, nx, ny, nz]))
    rw [gx, gy, gz]

theorem logTw_rotvec' {q : Quat} (hq : Tf.Unit q) (h : vnorm q.vec ≠ 0 ∨ 0 < q.w) (v : V3) :
    (logTw ⟨q, v⟩).w.rotvecDen = q.den := by
  by_cases h0 : vnorm q.vec = 0
  · have hv := vnorm_eq_zero h0
    have hw : 0 < q.w := by tauto
    have h1 := unit_sq hq
    have hw1 : q.w = 1 := by
      rw [h0] at h1; nlinarith
    rw [logTw, if_pos h0]
    rcases q with ⟨x, y, z, w⟩
    obtain ⟨rfl, rfl, rfl⟩ := V3.mk.inj hv
    simp only at hw1
    subst hw1
    have hz : (⟨0, 0, 0⟩ : V3).pure = 0 := by ext <;> simp
    rw [V3.rotvecDen, hz, smul_zero, exp_zero]
    ext <;> simp
  · exact logTw_rotvec hq h0 v

/-- The exact logarithm is the only short one. -/
theorem logTw_unique {E : Qutr} (hE : E.Valid) {t : Dx} (h : IsLog t (qutrTf E))
    (hq : E.q.den = t.w.rotvecDen) (hn : vnorm t.w < 2 * Real.pi)
    (h0 : vnorm E.q.vec ≠ 0 ∨ 0 < E.q.w) : logTw E = t := by
  have hn' : vnorm (logTw E).w < 2 * Real.pi := by
    by_cases h1 : vnorm E.q.vec = 0
    · rw [logTw, if_pos h1]
      have : vnorm (⟨0, 0, 0⟩ : V3) = 0 := by simp [vnorm, vdot]
      simp only [this]; linarith [Real.pi_pos]
    · obtain ⟨a, -, b⟩ := logTw_w hE h1
      rw [a]; linarith
  have hw : (logTw E).w = t.w := by
    have e : (logTw E).w.rotvecDen = t.w.rotvecDen := by
      rw [← hq]; exact logTw_rotvec' hE h0 E.v
    rw [V3.rotvecDen, V3.rotvecDen, ← vscal_pure, ← vscal_pure] at e
    have := pure_exp_inj (L := vscal (1 / 2) (logTw E).w) (M := vscal (1 / 2) t.w) (by
      rw [vnorm_vscal, abs_of_pos (by norm_num)]; linarith) (by
      rw [vnorm_vscal, abs_of_pos (by norm_num)]; linarith) e
    have h2 := congrArg (vscal 2) this
    simpa [vscal, V3.ext_iff] using h2
  exact log_unique (logTw_isLog E hE h0) h hw hn'

/-! ## The screw motion of a twist -/

/-- A quaternion of the model from its value. -/
def ofH (h : ℍ[ℝ]) : Quat := ⟨h.imI, h.imJ, h.imK, h.re⟩

theorem ofH_den (h : ℍ[ℝ]) : (ofH h).den = h := by ext <;> simp [ofH]

/-- The orientation on the screw motion of `L`. -/
noncomputable def screwQ (L : Dx) (s : ℝ) : Quat := ofH (exp ((s / 2) • L.w.pure))

theorem screwQ_unit (L : Dx) (s : ℝ) : Tf.Unit (screwQ L s) := by
  rw [Unit.iff_norm, screwQ, ofH_den, ← vscal_pure, Quaternion.norm_exp]; simp

theorem screwQ_deriv (L : Dx) (s : ℝ) :
    HasDerivAt (fun s => (screwQ L s).den) ((1 / 2 : ℝ) • (L.w.pure * (screwQ L s).den)) s := by
  simp only [screwQ, ofH_den]
  have h1 := (hasDerivAt_exp_smul_const' L.w.pure (s / 2)).scomp s
    ((hasDerivAt_id s).div_const 2)
  exact h1

/-- Moving along the screw: rotate, and add the way of the origin. -/
theorem screw_flow (L : Dx) (Y : ℝ → V3) (hY : IsFlow L Y) (p : V3) :
    IsFlow L (fun s => qutrTf ⟨screwQ L s, Y s⟩ p) := by
  intro s
  have hv : ∀ s, Qutr.Valid ⟨screwQ L s, Y s⟩ := fun s => screwQ_unit L s
  have e : ∀ s, (qutrTf ⟨screwQ L s, Y s⟩ p).pure =
      (screwQ L s).den * p.pure * star (screwQ L s).den + (Y s).pure :=
    fun s => C26_actions.2.1 _ p (hv s)
  have hq := screwQ_deriv L s
  have hd := ((hq.mul_const p.pure).mul hq.star).add (hY s)
  show HasDerivAt (fun s => (qutrTf ⟨screwQ L s, Y s⟩ p).pure) _ s
  simp only [e]
  refine hd.congr_deriv ?_
  have ec : ∀ x : V3, (vadd (cross L.w x) L.v).pure =
      (1 / 2 : ℝ) • (L.w.pure * x.pure - x.pure * L.w.pure) + L.v.pure := by
    intro x; ext <;> simp [vadd, cross] <;> ring
  rw [ec, ec, e]
  have hst : star L.w.pure = -L.w.pure := by ext <;> simp
  rw [Quaternion.star_smul, star_mul, hst]
  generalize (screwQ L s).den = q
  generalize L.w.pure = w
  generalize p.pure = p
  simp only [mul_add, add_mul, smul_mul_assoc, mul_smul_comm, smul_sub, smul_add, mul_neg, smul_neg,
    mul_assoc]
  abel

/-- A multiple of a twist. -/
def dscal (c : ℝ) (L : Dx) : Dx := ⟨vscal c L.v, vscal c L.w⟩

theorem screw_zero (L : Dx) : screwQ L 0 = ⟨0, 0, 0, 1⟩ := by
  apply Quat.den_inj
  rw [screwQ, ofH_den, zero_div, zero_smul, exp_zero]
  ext <;> simp

theorem screw_log (L : Dx) (Y : ℝ → V3) (hY : IsFlow L Y) (hY0 : Y 0 = ⟨0, 0, 0⟩) (s : ℝ) :
    IsLog (dscal s L) (qutrTf ⟨screwQ L s, Y s⟩) := by
  intro Z hZ
  have hW := screw_flow L Y hY (Z 0)
  have hWs : IsFlow (dscal s L) (fun u => qutrTf ⟨screwQ L (s * u), Y (s * u)⟩ (Z 0)) := by
    intro u
    have h1 := (hW (s * u)).scomp u ((hasDerivAt_id u).const_mul s)
    refine HasDerivAt.congr_deriv h1 ?_
    rw [mul_one, ← vscal_pure]
    congr 1
    ext <;> simp [dscal, vadd, vscal, cross] <;> ring
  have e := flow_unique hZ hWs (by
    simp only [mul_zero]
    rw [screw_zero, hY0]
    ext <;> simp [qutrTf])
  have := congrFun e 1
  rw [this, mul_one]

theorem screw_w (L : Dx) {s : ℝ} (hL : vnorm L.w ≤ Real.pi) (s0 : 0 ≤ s) (s1 : s ≤ 1) :
    0 ≤ (screwQ L s).w := by
  have e : (screwQ L s).w = Real.cos (vnorm (vscal (s / 2) L.w)) := by
    rw [screwQ, ← vscal_pure, exp_pure]; simp [ofH]
  rw [e, vnorm_vscal, abs_of_nonneg (by positivity)]
  have h0 := vnorm_nonneg L.w
  apply Real.cos_nonneg_of_neg_pi_div_two_le_of_le <;> nlinarith [Real.pi_pos]

/-- The logarithm on the way along the screw. -/
theorem screw_logTw (L : Dx) (hL : vnorm L.w ≤ Real.pi) (Y : ℝ → V3) (hY : IsFlow L Y)
    (hY0 : Y 0 = ⟨0, 0, 0⟩) {s : ℝ} (s0 : 0 ≤ s) (s1 : s ≤ 1) :
    logTw ⟨screwQ L s, Y s⟩ = dscal s L := by
  refine logTw_unique (E := ⟨screwQ L s, Y s⟩) (screwQ_unit L s) (screw_log L Y hY hY0 s) ?_ ?_
    (qangle_short (screwQ_unit L s) (screw_w L hL s0 s1)).1
  · simp only [screwQ, ofH_den, V3.rotvecDen, dscal, vscal_pure, smul_smul]
    ring_nf
  · simp only [dscal]
    rw [vnorm_vscal, abs_of_nonneg s0]
    have h0 := vnorm_nonneg L.w
    nlinarith [Real.pi_pos]

/-! ## The control law -/

/-- The error of the pose, taken the short way. -/
noncomputable def relPose (act ref : Qutr) : Qutr :=
  ⟨qminimize (qutrMulc act ref).q, (qutrMulc act ref).v⟩

theorem relPose_valid {act ref : Qutr} (ha : act.Valid) (hr : ref.Valid) :
    (qutrMulc act ref).Valid ∧ (relPose act ref).Valid ∧ 0 ≤ (relPose act ref).q.w := by
  have hv : (qutrMulc act ref).Valid := (C27_qutr act (qutrConj ref) act ha
    (C27_qutr ref ref ref hr hr).2.2.2.2.2.2).2.2.2.2.2.1
  refine ⟨hv, ?_⟩
  have : Tf.Unit (qutrMulc act ref).q := hv
  show Tf.Unit (qminimize (qutrMulc act ref).q) ∧ 0 ≤ (qminimize (qutrMulc act ref).q).w
  rw [qminimize]
  split_ifs with h
  · exact ⟨by simpa [Tf.Unit] using this, by simp only; linarith⟩
  · exact ⟨this, not_lt.1 h⟩

/-- **C74**, `aa_rx_wk_dx_pos`: the result is defined and is added to the given velocity. -/
theorem C74_adds (gt ga : ℝ) (act ref : Qutr) (ha : act.Valid) (hr : ref.Valid) :
    ∃ r : Dx, ∀ dx : Dx, dxPos gt ga act ref dx = some ⟨vadd dx.v r.v, vadd dx.w r.w⟩ := by
  obtain ⟨-, hu, h0⟩ := relPose_valid ha hr
  obtain ⟨r, h1, -⟩ := qutr_lnv_log _ hu (qangle_short hu h0).1
  obtain ⟨w, hw, -⟩ := Option.map_eq_some_iff.1 h1
  rw [relPose] at hw
  refine ⟨⟨vscal (-gt) (twist2vel act.v w).v, vscal (-ga) (twist2vel act.v w).w⟩, fun dx => ?_⟩
  simp only [dxPos, hw, Option.map_some, Option.some.injEq, Dx.mk.injEq]
  constructor <;> ext <;> simp [vadd, vscal] <;> ring

/-- The pose on the way: the screw motion to the power `s`, after the reference. -/
noncomputable def onWay (L : Dx) (Y : ℝ → V3) (ref : Qutr) (s : ℝ) : Qutr :=
  qutrMul ⟨screwQ L s, Y s⟩ ref

theorem onWay_rel (L : Dx) (Y : ℝ → V3) (ref : Qutr) (hr : ref.Valid) (s : ℝ) :
    (onWay L Y ref s).Valid ∧ qutrMulc (onWay L Y ref s) ref = ⟨screwQ L s, Y s⟩ := by
  have hE : Qutr.Valid ⟨screwQ L s, Y s⟩ := screwQ_unit L s
  have hi := C27_qutr ref ref ref hr hr
  have h := C27_qutr ⟨screwQ L s, Y s⟩ ref (qutrConj ref) hE hr
  refine ⟨h.2.2.2.2.2.1, ?_⟩
  rw [onWay, qutrMulc, h.1, hi.2.2.2.1, h.2.2.1]

/-- The way as a motion: with the parameter it moves at the twist. -/
theorem onWay_moves (L : Dx) (Y : ℝ → V3) (hY : IsFlow L Y) (ref : Qutr) (s : ℝ) :
    MovesAt (onWay L Y ref) (twist2vel (onWay L Y ref s).v L) s := by
  constructor
  · refine HasDerivAt.congr_deriv (screw_flow L Y hY ref.v s) ?_
    congr 1
    ext <;> simp [twist2vel, crossA, vadd, cross, onWay, qutrMul] <;> ring
  · simp only [onWay, qutrMul, C21_qmul]
    refine ((screwQ_deriv L s).mul_const ref.q.den).congr_deriv ?_
    rw [smul_mul_assoc, mul_assoc]; rfl

/-- Moving along a curve at another speed. -/
theorem MovesAt.comp {P : ℝ → Qutr} {dx : Dx} {f : ℝ → ℝ} {c t : ℝ} (h : MovesAt P dx (f t))
    (hf : HasDerivAt f c t) : MovesAt (fun u => P (f u)) (dscal c dx) t := by
  constructor
  · refine HasDerivAt.congr_deriv (HasDerivAt.scomp t h.1 hf) ?_
    rw [← vscal_pure]; rfl
  · refine HasDerivAt.congr_deriv (HasDerivAt.scomp t h.2 hf) ?_
    rw [dscal, vscal_pure, smul_mul_assoc, smul_comm]

/-- The value of the code on the way, against the velocity of the way. -/
theorem dxPos_onWay (L : Dx) (hL : vnorm L.w ≤ Real.pi) (Y : ℝ → V3) (hY : IsFlow L Y)
    (hY0 : Y 0 = ⟨0, 0, 0⟩) (ref : Qutr) (hr : ref.Valid) {k : ℝ} (hk : 0 ≤ k) {s : ℝ} (s0 : 0 ≤ s)
    (s1 : s ≤ 1) :
    let P := onWay L Y ref s
    let dx := dscal (-(k / 2) * s) (twist2vel P.v L)
    ∃ r, dxPos k k P ref ⟨⟨0, 0, 0⟩, ⟨0, 0, 0⟩⟩ = some r ∧
      (1 / 2 ^ 26 ≤ qangle (qutrMulc P ref).q → r = dx) ∧
      ‖r.w.pure - dx.w.pure‖ ≤ k / 2 ^ 101 ∧
      ‖r.v.pure - dx.v.pure‖ ≤ k / 2 ^ 101 * (vnorm (qutrMulc P ref).v + vnorm P.v) := by
  intro P dx
  obtain ⟨-, hrel⟩ := onWay_rel L Y ref hr s
  have hw := screw_w L hL s0 s1
  have hmin : qminimize (screwQ L s) = screwQ L s := by rw [qminimize, if_neg (not_lt.2 hw)]
  obtain ⟨r, h1, h2, h3, h4⟩ := qutr_lnv_log ⟨screwQ L s, Y s⟩ (screwQ_unit L s)
    (qangle_short (screwQ_unit L s) hw).1
  rw [screw_logTw L hL Y hY hY0 s0 s1] at h2 h3 h4
  obtain ⟨w, hw1, rfl⟩ := Option.map_eq_some_iff.1 h1
  have hP : qutrMulc P ref = ⟨screwQ L s, Y s⟩ := hrel
  have e : dxPos k k P ref ⟨⟨0, 0, 0⟩, ⟨0, 0, 0⟩⟩ =
      some (dscal (-(k / 2)) (twist2vel P.v w.dbl)) := by
    simp only [dxPos, hP, hmin, hw1, Option.map_some, Option.some.injEq]
    simp only [dscal, twist2vel, Dx.dbl, Dx.mk.injEq]
    constructor <;> ext <;> simp [vscal, crossA] <;> ring
  have ed : dx = dscal (-(k / 2)) (twist2vel P.v (dscal s L)) := by
    simp only [dx, dscal, twist2vel, Dx.mk.injEq]
    constructor <;> ext <;> simp [vscal, crossA] <;> ring
  refine ⟨_, e, ?_, ?_, ?_⟩
  · intro ha
    rw [hP] at ha
    rw [ed, h2 ha]
  · rw [ed]
    simp only [dscal, twist2vel, vscal_pure] at h3 ⊢
    rw [← smul_sub, norm_smul, Real.norm_eq_abs, abs_neg, abs_of_nonneg (by positivity)]
    have := mul_le_mul_of_nonneg_left h3 (by positivity : 0 ≤ k / 2)
    refine this.trans (le_of_eq ?_)
    ring
  · rw [ed, hP]
    have ev : ∀ a b : Dx, (dscal (-(k / 2)) (twist2vel P.v a)).v.pure -
        (dscal (-(k / 2)) (twist2vel P.v b)).v.pure = (-(k / 2)) •
          ((a.v.pure - b.v.pure) + (cross (vadd a.w (vneg b.w)) P.v).pure) := by
      intro a b
      ext <;> simp [dscal, twist2vel, vscal, crossA, cross, vadd, vneg] <;> ring
    rw [ev, norm_smul, Real.norm_eq_abs, abs_neg, abs_of_nonneg (by positivity)]
    have hc : ‖(cross (vadd w.dbl.w (vneg (dscal s L).w)) P.v).pure‖ ≤ 1 / 2 ^ 100 * vnorm P.v := by
      rw [norm_pure]
      refine (vnorm_cross_le _ _).trans (mul_le_mul_of_nonneg_right ?_ (vnorm_nonneg _))
      refine le_trans (le_of_eq ?_) h3
      rw [← norm_pure]
      congr 1
      ext <;> simp [vadd, vneg] <;> ring
    have := mul_le_mul_of_nonneg_left ((norm_add_le _ _).trans (add_le_add h4 hc))
      (by positivity : 0 ≤ k / 2)
    refine this.trans (le_of_eq ?_)
    simp only
    ring

/-- The parameter of the way after the time `t`. -/
noncomputable def decay (k t : ℝ) : ℝ := Real.exp (-(k / 2) * t)

/-- **C74**, `aa_rx_wk_dx_pos` with equal gains: from every pose the loop closed around it has a
solution that goes to the reference.  Its error is at every time the initial one to the power
`exp (-k t / 2)`, and the code returns the velocity of that solution: exactly down to a rotation of
`2^-25`, to within `k 2^-101` (times the distances) below. -/
theorem C74_dx_pos (k : ℝ) (hk : 0 < k) (act ref : Qutr) (ha : act.Valid) (hr : ref.Valid) :
    ∃ (P : ℝ → Qutr) (L : Dx), (∀ t, (P t).Valid) ∧
      (P 0).v = act.v ∧ ((P 0).q.den = act.q.den ∨ (P 0).q.den = -act.q.den) ∧
      Tendsto (fun t => (P t).q.den) atTop (nhds ref.q.den) ∧
      Tendsto (fun t => (P t).v.pure) atTop (nhds ref.v.pure) ∧
      vnorm L.w ≤ Real.pi ∧
      ∀ t, 0 ≤ t → IsLog (dscal (decay k t) L) (qutrTf (qutrMulc (P t) ref)) ∧
        ∃ r dx, dxPos k k (P t) ref ⟨⟨0, 0, 0⟩, ⟨0, 0, 0⟩⟩ = some r ∧ MovesAt P dx t ∧
          (1 / 2 ^ 26 ≤ qangle (qutrMulc (P t) ref).q → r = dx) ∧
          ‖r.w.pure - dx.w.pure‖ ≤ k / 2 ^ 101 ∧
          ‖r.v.pure - dx.v.pure‖ ≤ k / 2 ^ 101 * (vnorm (qutrMulc (P t) ref).v + vnorm (P t).v) := by
  obtain ⟨hv, hu, h0⟩ := relPose_valid ha hr
  obtain ⟨hor, hpi⟩ := qangle_short hu h0
  set L := logTw (relPose act ref) with hLdef
  have hL : vnorm L.w ≤ Real.pi := by rw [hLdef, logTw_norm hu hor]; linarith
  obtain ⟨Y, hY, hY0⟩ := flow_some L ⟨0, 0, 0⟩
  -- the start
  have hend : (⟨screwQ L 1, Y 1⟩ : Qutr) = relPose act ref := by
    have e1 : screwQ L 1 = (relPose act ref).q := by
      apply Quat.den_inj
      rw [← logTw_rotvec' hu hor (relPose act ref).v, screwQ, ofH_den]
      rfl
    have e2 : Y 1 = (relPose act ref).v := by
      rw [logTw_isLog _ hu hor Y hY, hY0]
      ext <;> simp [qutrTf]
    rw [e1, e2]
  have hback : qutrMul (qutrMulc act ref) ref = act := (C27_relative.2.1 act ref ha hr).2
  have hrot : ∀ p, qutrTf (relPose act ref) p = qutrTf (qutrMulc act ref) p := by
    intro p
    rw [relPose, qminimize]
    split_ifs
    · ext <;> simp [qutrTf] <;> ring
    · rfl
  have d0 : decay k 0 = 1 := by simp [decay]
  have hd : ∀ t, HasDerivAt (decay k) (-(k / 2) * decay k t) t := by
    intro t
    have := ((hasDerivAt_id t).const_mul (-(k / 2))).exp
    refine this.congr_deriv ?_
    simp [decay]; ring
  have hlim : Tendsto (decay k) atTop (nhds 0) := by
    refine Real.tendsto_exp_atBot.comp ?_
    exact (tendsto_const_mul_atBot_of_neg (by linarith)).2 tendsto_id
  have hz : (onWay L Y ref 0) = ref := by
    rw [onWay, screw_zero, hY0]
    exact (C27_qutr ref ref ref hr hr).2.1
  refine ⟨fun t => onWay L Y ref (decay k t), L, fun t => (onWay_rel L Y ref hr _).1, ?_, ?_, ?_, ?_,
    hL, ?_⟩
  · show (onWay L Y ref (decay k 0)).v = act.v
    rw [d0, onWay, hend]
    show qutrTf (relPose act ref) ref.v = act.v
    rw [hrot]
    exact congrArg Qutr.v hback
  · show (onWay L Y ref (decay k 0)).q.den = _ ∨ (onWay L Y ref (decay k 0)).q.den = _
    rw [d0, onWay, hend]
    show (qmul (relPose act ref).q ref.q).den = _ ∨ (qmul (relPose act ref).q ref.q).den = _
    have hb := congrArg Qutr.q hback
    simp only [qutrMul] at hb
    rw [← hb, C21_qmul, C21_qmul, relPose, qminimize]
    split_ifs
    · right
      rw [← neg_mul]
      congr 1
    · left; rfl
  · have := ((onWay_moves L Y hY ref 0).2.continuousAt.tendsto).comp hlim
    rwa [hz] at this
  · have := (HasDerivAt.continuousAt (onWay_moves L Y hY ref 0).1).tendsto.comp hlim
    simp only at this
    rwa [hz] at this
  · intro t ht
    have s0 : 0 ≤ decay k t := (Real.exp_pos _).le
    have s1 : decay k t ≤ 1 := by
      rw [decay, Real.exp_le_one_iff]; nlinarith
    refine ⟨?_, ?_⟩
    · show IsLog _ (qutrTf (qutrMulc (onWay L Y ref (decay k t)) ref))
      rw [(onWay_rel L Y ref hr _).2]
      exact screw_log L Y hY hY0 _
    · obtain ⟨r, h1, h2, h3, h4⟩ := dxPos_onWay L hL Y hY hY0 ref hr hk.le s0 s1
      exact ⟨r, _, h1, (onWay_moves L Y hY ref (decay k t)).comp (hd t), h2, h3, h4⟩

/-! ## Centering the joints -/

/-- **C74**, `aa_rx_wk_dqcenter`: a joint that moves with the centering velocity goes to the middle of
its limits, and stays between them. -/
theorem C74_dqcenter (g lo hi : ℝ) (hg : 0 < g) (h : lo < hi) (Q : ℝ → ℝ)
    (hQ : ∀ t, ∃ d, dqcenter g (some (lo, hi)) (Q t) = some d ∧ HasDerivAt Q d t) :
    Tendsto Q atTop (nhds ((lo + hi) / 2)) ∧
    (lo ≤ Q 0 → Q 0 ≤ hi → ∀ t, 0 ≤ t → lo ≤ Q t ∧ Q t ≤ hi) := by
  have hne : hi - lo ≠ 0 := by linarith
  obtain ⟨c, hc⟩ : ∃ c, c = g / (hi - lo) := ⟨_, rfl⟩
  have hc0 : 0 < c := by rw [hc]; exact div_pos hg (by linarith)
  have hd : ∀ t, HasDerivAt Q (-c * (Q t - (lo + hi) / 2)) t := by
    intro t
    obtain ⟨d, h1, h2⟩ := hQ t
    simp only [dqcenter, if_neg hne, Option.some.injEq] at h1
    refine h2.congr_deriv ?_
    rw [← h1, hc]; ring
  have hu : ∀ t, Q t = (lo + hi) / 2 + (Q 0 - (lo + hi) / 2) * Real.exp (-c * t) := by
    intro t
    set F : ℝ → ℝ := fun t => (Q t - (lo + hi) / 2) * Real.exp (c * t) with hF
    have hFd : ∀ t, HasDerivAt F 0 t := by
      intro t
      have h1 := ((hd t).sub_const ((lo + hi) / 2)).mul (((hasDerivAt_id t).const_mul c).exp)
      refine h1.congr_deriv ?_
      simp; ring
    have hconst := is_const_of_deriv_eq_zero (fun t => (hFd t).differentiableAt) (fun t => (hFd t).deriv) t 0
    simp only [hF, mul_zero, Real.exp_zero, mul_one] at hconst
    rw [← hconst, mul_assoc, ← Real.exp_add]
    simp
  have hlim : Tendsto (fun t => Real.exp (-c * t)) atTop (nhds 0) :=
    Real.tendsto_exp_atBot.comp ((tendsto_const_mul_atBot_of_neg (by linarith)).2 tendsto_id)
  constructor
  · have := (hlim.const_mul (Q 0 - (lo + hi) / 2)).const_add ((lo + hi) / 2)
    simp only [mul_zero, add_zero] at this
    exact this.congr fun t => (hu t).symm
  · intro h1 h2 t ht
    rw [hu t]
    have e0 := Real.exp_pos (-c * t)
    have e1 : Real.exp (-c * t) ≤ 1 := by rw [Real.exp_le_one_iff]; nlinarith
    constructor <;> nlinarith

/-- A joint without limits gets no centering velocity; at the limits of the others it is half of the
gain, towards the middle. -/
theorem C74_dqcenter_values (g q : ℝ) : dqcenter g none q = some 0 ∧
    ∀ lo hi, lo < hi → dqcenter g (some (lo, hi)) lo = some (g / 2) ∧
      dqcenter g (some (lo, hi)) hi = some (-(g / 2)) ∧
      dqcenter g (some (lo, hi)) ((lo + hi) / 2) = some 0 := by
  refine ⟨rfl, fun lo hi h => ?_⟩
  have hne : hi - lo ≠ 0 := by linarith
  simp only [dqcenter, if_neg hne, Option.some.injEq]
  refine ⟨?_, ?_, ?_⟩ <;> field_simp <;> ring

/-- A joint whose limits coincide makes the code divide by zero. -/
theorem C74_violates_fixed_joint (g q a : ℝ) : dqcenter g (some (a, a)) q = none := by
  simp [dqcenter]

/-! ## Non-trivial cases -/

example : Qutr.Valid ⟨⟨3 / 5, 0, 0, 4 / 5⟩, ⟨1, 2, 3⟩⟩ := by norm_num [Qutr.Valid, Tf.Unit]

example : ∀ t, ∃ d, dqcenter 2 (some (-1, 1)) (Real.exp (-t)) = some d ∧
    HasDerivAt (fun t => Real.exp (-t)) d t := by
  intro t
  refine ⟨-Real.exp (-t), ?_, ?_⟩
  · norm_num [dqcenter]; ring
  · simpa using (hasDerivAt_neg t).exp

end Verif.Wk
