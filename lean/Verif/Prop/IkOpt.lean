import Verif.Proof.IkOptChain
import Verif.Prop.SgLimUse

/-!
# C95: what the optimizing solver minimises, and its gradients
-/

namespace Verif.Ik

open Verif.Tf Verif.Sg

/-! ## Specification -/

/-- The pose of frame `t` that `aa_rx_sg_tf` computes when the configurations of the chain are `q` and
the others those of the start. -/
noncomputable def tipAt (g : Graph Body) (t : String) (sub : Sub) (qStart q : Nat → ℝ) : Option Qutr :=
  (scatterLoop sub q 1 1 sub.configCount 0 qStart).bind (tipPose g t)

/-- `grad` has as many elements as there are configurations, and they are to within `d` the derivatives
of the error `F` of the pose. -/
def IsGradient (pose : (Nat → ℝ) → Option Qutr) (F : Qutr → ℝ) (n : Nat) (q : Nat → ℝ)
    (grad : List ℝ) (d : ℝ) : Prop :=
  grad.length = n ∧ ∀ j x, grad[j]? = some x → ∃ (E : ℝ → Qutr) (D : ℝ),
    (∀ u, pose (Function.update q j u) = some (E u)) ∧ HasDerivAt (fun u => F (E u)) D (q j) ∧
    |x - D| ≤ d

/-! ## Theorems -/

section
variable (os : List (Op Body)) (g g' : Graph Body) (hr : run create os = some g)
  (hf : Forest (contents os)) (he : contents os "" = none) (hi : index g = some (Status.ok, g'))
  (hbuilt : ∀ n f, contents os n = some f → f.body.Built)
  (t : String) (fr rest : List (Frame Body)) (ht : IsPath (contents os) t (fr ++ rest))
  (hu : (((fr ++ rest).filter (fun f => f.kind ≠ Kind.fixed)).map (·.config)).Nodup)
  (hne : rest ≠ []) (sub : Sub) (hch : IsChain g' t rest sub) (qStart : Nat → ℝ) (fk0 : List Qutr)
  (hfk0 : fkAll g' qStart 1 = some fk0)

include hr hf he hi hbuilt ht hu hne hch hfk0

/-- **C95**, `aa_rx_ik_opt_err_trans`: the squared distance from the target and its exact gradient.
Missing here and below: frames that are not the tip of the chain (`C95_violates_frame`), and
configurations shared by several joints of the path. -/
theorem C95_trans_partial (junk q : Nat → ℝ) (R : Qutr) :
    ∃ v grad E, optTrans g' sub fk0 junk (frameId g' t) R q = some (v, grad) ∧
      tipAt g' t sub qStart q = some E ∧ v = transDist E R ^ 2 ∧
      IsGradient (tipAt g' t sub qStart) (fun E => transDist E R ^ 2) sub.configCount q grad 0 := by
  obtain ⟨qa, R', A, fk, a1, a2, a3, a4, a5, a6, a7⟩ := opt_chain os g g' hr hf he hi hbuilt t fr rest
    ht hu hne sub hch qStart fk0 hfk0 junk q
  obtain ⟨cols, b1, b2, b3⟩ := vel_cols os g g' hr hf he hi hbuilt t fr rest ht hu hne sub hch qa R' A a2
  have hJ : jacVel g' sub fk = some cols := by rw [← b1]; exact jacVel_congr a5
  refine ⟨transDist (pathTf g' qa (fr ++ rest)) R ^ 2,
    cols.map fun c => 2 * vdot c.p (transErr (pathTf g' qa (fr ++ rest)) R),
    pathTf g' qa (fr ++ rest), ?_, ?_, rfl, ?_, ?_⟩
  · unfold optTrans optPose
    rw [a3]
    simp only [a4, hJ, Option.map_some, transErr_dist]
  · unfold tipAt; rw [a1]; exact (a6 qa).2
  · rw [List.length_map, b2]
  · intro j x hx
    rw [List.getElem?_map, Option.map_eq_some_iff] at hx
    obtain ⟨c, hc, rfl⟩ := hx
    have hj : j < sub.configCount := by rw [← b2]; exact (List.getElem?_eq_some_iff.1 hc).1
    have hd := trans_deriv (b3 j c hc).2 R
    simp only [transErr_dist] at hd
    rw [(a7 j hj).1] at hd
    refine ⟨fun u => pathTf g' (Function.update qa (sub.configs j).toNat u) (fr ++ rest), _,
      fun u => ?_, hd, ?_⟩
    · unfold tipAt; rw [(a7 j hj).2]; exact (a6 _).2
    · simp only [← (a7 j hj).1, Function.update_eq_self]; simp

/-- **C95**, `aa_rx_ik_opt_err_qlnpv`: the squared distance plus the square of half the angle from the
target, and its gradient, for angles below π: exact from an angle of 2^-12 on and at zero, and to
within 2^-98 otherwise.  At π the error has no derivative. -/
theorem C95_qlnpv_partial (junk q : Nat → ℝ) (R E : Qutr) (hR : R.Valid)
    (hE : tipAt g' t sub qStart q = some E) (hpi : rotAngle E R < Real.pi) :
    ∃ v grad, optQlnpv g' sub fk0 junk (frameId g' t) R q = some (v, grad) ∧
      |v - (transDist E R ^ 2 + (rotAngle E R / 2) ^ 2)| ≤ 1 / 2 ^ 98 ∧
      IsGradient (tipAt g' t sub qStart) (fun E => transDist E R ^ 2 + (rotAngle E R / 2) ^ 2)
        sub.configCount q grad (1 / 2 ^ 98) ∧
      (1 / 2 ^ 12 ≤ rotAngle E R ∨ rotAngle E R = 0 →
        v = transDist E R ^ 2 + (rotAngle E R / 2) ^ 2 ∧
        IsGradient (tipAt g' t sub qStart) (fun E => transDist E R ^ 2 + (rotAngle E R / 2) ^ 2)
          sub.configCount q grad 0) := by
  obtain ⟨qa, R', A, fk, a1, a2, a3, a4, a5, a6, a7⟩ := opt_chain os g g' hr hf he hi hbuilt t fr rest
    ht hu hne sub hch qStart fk0 hfk0 junk q
  obtain ⟨cols, b1, b2, b3⟩ := vel_cols os g g' hr hf he hi hbuilt t fr rest ht hu hne sub hch qa R' A a2
  have hJ : jacVel g' sub fk = some cols := by rw [← b1]; exact jacVel_congr a5
  have hEq : pathTf g' qa (fr ++ rest) = E := by
    unfold tipAt at hE
    rw [a1] at hE
    have := (a6 qa).2.symm.trans hE
    exact Option.some.inj this
  have hEv : E.Valid := by rw [← hEq]; exact (a6 qa).1
  obtain ⟨w1, w2⟩ := angle_facts hEv hR
  obtain ⟨val, vec, Jt, r1, r2, r3, r4, r5⟩ := rotErr_spec (a := E.q) (r := R.q) hEv hR (w1 hpi)
  have rot : ∀ {E : Qutr}, E.Valid → qdot (qlog (qminimize (qcmul E.q R.q)))
      (qlog (qminimize (qcmul E.q R.q))) = (rotAngle E R / 2) ^ 2 := fun h => rot_sq h hR
  -- derivatives
  have der : ∀ j c, cols[j]? = some c → ∃ D : ℝ, (∃ P : ℝ → Qutr,
      (∀ u, tipAt g' t sub qStart (Function.update q j u) = some (P u)) ∧
      HasDerivAt (fun u => transDist (P u) R ^ 2 + (rotAngle (P u) R / 2) ^ 2) D (q j)) ∧
      D = vdot c.r (qRmul E.q (qconj (qRmul R.q (mul4T Jt
        (qscal (qlog (qminimize (qcmul E.q R.q))) (sgn (qcmul E.q R.q))))))).vec +
        2 * vdot c.p (transErr E R) ∧ vnorm c.r ≤ 1 := by
    intro j c hc
    have hj : j < sub.configCount := by rw [← b2]; exact (List.getElem?_eq_some_iff.1 hc).1
    obtain ⟨hn, hp⟩ := b3 j c hc
    have hself : pathTf g' (Function.update qa (sub.configs j).toNat (qa (sub.configs j).toNat))
        (fr ++ rest) = E := by rw [Function.update_eq_self, hEq]
    have d1 := trans_deriv hp R
    have d2 := rot_deriv hp R.q (by rw [hself]; exact w1 hpi) Jt (by rw [hself]; exact r2)
    have d3 := d1.add d2
    rw [hself, (a7 j hj).1] at d3
    refine ⟨_, ⟨fun u => pathTf g' (Function.update qa (sub.configs j).toNat u) (fr ++ rest),
      fun u => ?_, ?_⟩, rfl, hn⟩
    · unfold tipAt; rw [(a7 j hj).2]; exact (a6 _).2
    · refine (d3.congr_deriv (add_comm _ _)).congr_of_eventuallyEq (Filter.Eventually.of_forall fun u => ?_)
      show _ = vdot _ _ + qdot _ _
      rw [transErr_dist, rot (a6 _).1]
  rw [rot hEv] at r3 r5
  refine ⟨val + vdot (transErr E R) (transErr E R),
    cols.map fun c => vdot c.r vec + 2 * vdot c.p (transErr E R), ?_, ?_, ⟨?_, ?_⟩, ?_⟩
  · unfold optQlnpv optPose
    rw [a3]
    simp only [a4, hEq, r1, hJ, Option.map_some]
  · rw [transErr_dist]
    refine le_trans (le_of_eq ?_) r3
    congr 1; ring
  · rw [List.length_map, b2]
  · intro j x hx
    rw [List.getElem?_map, Option.map_eq_some_iff] at hx
    obtain ⟨c, hc, rfl⟩ := hx
    obtain ⟨D, ⟨P, p1, p2⟩, p3, p4⟩ := der j c hc
    refine ⟨P, D, p1, p2, ?_⟩
    rw [p3, add_sub_add_right_eq_sub]
    refine (r4 c.r).trans ?_
    have : (0 : ℝ) ≤ 1 / 2 ^ 98 := by positivity
    nlinarith
  · intro hx
    have hq : qangle (qminimize (qcmul E.q R.q)) = rotAngle E R / 2 := rotAngle_qangle hEv hR
    have hx' : 1 / 2 ^ 13 ≤ qangle (qminimize (qcmul E.q R.q)) ∨
        vnorm (qminimize (qcmul E.q R.q)).vec = 0 := by
      rcases hx with hx | hx
      · left; rw [hq]; norm_num at hx ⊢; linarith
      · exact Or.inr (w2 hx)
    obtain ⟨k1, k2⟩ := r5 hx'
    refine ⟨by rw [k1, transErr_dist]; ring, by rw [List.length_map, b2], ?_⟩
    intro j x hx
    rw [List.getElem?_map, Option.map_eq_some_iff] at hx
    obtain ⟨c, hc, rfl⟩ := hx
    obtain ⟨D, ⟨P, p1, p2⟩, p3, p4⟩ := der j c hc
    refine ⟨P, D, p1, p2, ?_⟩
    rw [p3, k2]; simp

/-- **C95**, `aa_rx_ik_opt_err_dqln`: a quarter of the squared length of the twist that takes the pose
to the target, and its gradient, exactly, for angles below π that are zero or at least 2^-51. -/
theorem C95_dqln_partial (junk q : Nat → ℝ) (R E : Qutr) (hR : R.Valid)
    (hE : tipAt g' t sub qStart q = some E) (hpi : rotAngle E R < Real.pi)
    (hx : 2 * dblEpsilon ≤ rotAngle E R ∨ rotAngle E R = 0) :
    ∃ v grad, optDqln g' sub fk0 junk (frameId g' t) R q = some (v, grad) ∧
      v = twistErr E R ∧
      IsGradient (tipAt g' t sub qStart) (fun E => twistErr E R) sub.configCount q grad 0 := by
  obtain ⟨qa, R', A, fk, a1, a2, a3, a4, a5, a6, a7⟩ := opt_chain os g g' hr hf he hi hbuilt t fr rest
    ht hu hne sub hch qStart fk0 hfk0 junk q
  obtain ⟨cols, b1, b2, b3⟩ := twist_cols os g g' hr hf he hi hbuilt t fr rest ht hu hne sub hch qa R' A a2
  have hJ : jacTwist g' sub fk = some cols := by
    rw [← b1]; exact jacLoop_congr _ _ _ _ _ _ _ (fun k _ hk => a5 k (by omega))
  have hEq : pathTf g' qa (fr ++ rest) = E := by
    unfold tipAt at hE
    rw [a1] at hE
    have := (a6 qa).2.symm.trans hE
    exact Option.some.inj this
  have hEv : E.Valid := by rw [← hEq]; exact (a6 qa).1
  obtain ⟨w1, w2⟩ := angle_facts hEv hR
  have hreal : (duquCmul (qutr2duqu E) (qutr2duqu R)).real = qcmul E.q R.q := by
    rw [cmul_parts]; rfl
  have hmin : (duquMinimize (duquCmul (qutr2duqu E) (qutr2duqu R))).real = qminimize (qcmul E.q R.q) := by
    rw [dminimize_sgn, minimize_sgn, ← hreal]; rfl
  have hw : (duquCmul (qutr2duqu E) (qutr2duqu R)).real.w ≠ 0 := by rw [hreal]; exact w1 hpi
  obtain ⟨J, s1, s2, s3, s4⟩ := duquErr_spec (A := qutr2duqu E) (R := qutr2duqu R) hEv hR hw (by
    rw [hmin, rotAngle_qangle hEv hR]
    rcases hx with hx | hx
    · left; linarith
    · exact Or.inr (w2 hx))
  obtain ⟨a, s4⟩ : ∃ a, a = _ ∧ duquErr (qutr2duqu E) (qutr2duqu R) = some (_, a) := ⟨_, rfl, s4⟩
  refine ⟨twistErr E R, cols.map fun c => vdot c.p a.p + vdot c.r a.r, ?_, rfl, ?_, ?_⟩
  · unfold optDqln optPose
    rw [a3]
    simp only [a4, hEq, s4.2, hJ, Option.map_some, twistErr_eq hEv hR]
  · rw [List.length_map, b2]
  · intro j x hx
    rw [List.getElem?_map, Option.map_eq_some_iff] at hx
    obtain ⟨c, hc, rfl⟩ := hx
    have hj : j < sub.configCount := by rw [← b2]; exact (List.getElem?_eq_some_iff.1 hc).1
    have hp := b3 j c hc
    have hself : pathTf g' (Function.update qa (sub.configs j).toNat (qa (sub.configs j).toNat))
        (fr ++ rest) = pathTf g' qa (fr ++ rest) := by rw [Function.update_eq_self]
    have d := duqu_deriv (E := fun u => pathTf g' (Function.update qa (sub.configs j).toNat u) (fr ++ rest))
      (n := c.p) (w := c.r) (by rw [hself]; exact hp) (qutr2duqu R) (by rw [hself, hEq]; exact hw) J s1 s2
      (by rw [hself, hEq]; exact s3)
    rw [hself, hEq, (a7 j hj).1] at d
    refine ⟨fun u => pathTf g' (Function.update qa (sub.configs j).toNat u) (fr ++ rest), _,
      fun u => ?_, d.congr_of_eventuallyEq (Filter.Eventually.of_forall fun u => ?_), ?_⟩
    · unfold tipAt; rw [(a7 j hj).2]; exact (a6 _).2
    · exact (twistErr_eq (a6 _).1 hR).symm
    · rw [s4.1]; simp

end

/-- **C95**, `aa_rx_ik_opt_err_jcenter`: half the squared distance from the middle of the limits (zero
without limits) and its exact gradient. -/
theorem C95_jcenter (s : LGraph Body ℝ) (sub : Sub) (junk q : Nat → ℝ) (L : Nat → Option (ℝ × ℝ))
    (hL : ∀ i : Nat, i < sub.configCount → getLimit s .pos (sub.configs i) = some (L i)) :
    ∃ (c : Nat → ℝ) (v : ℝ) (grad : Nat → ℝ), optJcenter s sub junk q = some (v, grad) ∧
      (∀ i, i < sub.configCount → (L i = none → c i = 0) ∧
        ∀ lo hi, L i = some (lo, hi) → c i - lo = hi - c i) ∧
      (v = (∑ i ∈ Finset.range sub.configCount, (q i - c i) ^ 2) / 2) ∧
      ∀ j, j < sub.configCount → HasDerivAt (fun u => (∑ i ∈ Finset.range sub.configCount,
        (Function.update q j u i - c i) ^ 2) / 2) (grad j) (q j) := by
  obtain ⟨c, h1, h2, -⟩ := C81_sub_center s sub 1 one_pos junk L hL
  refine ⟨c, (∑ i ∈ Finset.range sub.configCount, (q i - c i) * (q i - c i)) / 2, fun i => q i - c i, ?_,
    fun i hi => ?_, ?_, fun j hj => ?_⟩
  · unfold optJcenter; rw [h1]; rfl
  · have := h2 i hi
    rw [mul_one] at this
    exact ⟨this.1, this.2.1⟩
  · simp only [pow_two]
  · have hm : j ∈ Finset.range sub.configCount := Finset.mem_range.2 hj
    have e : (fun u => (∑ i ∈ Finset.range sub.configCount, (Function.update q j u i - c i) ^ 2) / 2) =
        fun u => ((u - c j) ^ 2 +
          ∑ i ∈ (Finset.range sub.configCount).erase j, (q i - c i) ^ 2) / 2 := by
      funext u
      rw [← Finset.add_sum_erase _ _ hm, Function.update_self]
      congr 2
      apply Finset.sum_congr rfl
      intro i hi
      rw [Function.update_of_ne (Finset.ne_of_mem_erase hi)]
    rw [e]
    have := ((((hasDerivAt_id (q j)).sub_const (c j)).pow 2).add_const
      (∑ i ∈ (Finset.range sub.configCount).erase j, (q i - c i) ^ 2)).div_const 2
    refine this.congr_deriv ?_
    simp

/-! ## Concrete cases -/

/-- The hypotheses are met by the chain from the root to `b`, at every configuration and start, and a
target a unit to the side: the error is the squared distance. -/
example (qStart q junk : Nat → ℝ) : ∃ sub fk0 v grad,
    chainCreate fkGraph (-1) 1 9 (fun _ => 0) (fun _ => 0) = some sub ∧
    fkAll fkGraph qStart 1 = some fk0 ∧
    optTrans fkGraph sub fk0 junk 1 ⟨qident, ⟨0, 1, 0⟩⟩ q = some (v, grad) ∧ grad.length = 2 := by
  obtain ⟨g, h1, h2, h3, h4⟩ := fkOps_ok
  obtain ⟨sub, s1, s2⟩ := C55_chain_partial _ _ _ h1 h2 h3 h4 "" "b" [] _ IsPath.root fkOps_path 9
    (by simp) (fun _ => 0) (fun _ => 0)
  obtain ⟨-, fk0, c1, -⟩ := C50_fk_partial _ _ _ h1 h2 h3 h4 qStart
  obtain ⟨v, grad, E, e1, -, -, e2, -⟩ := C95_trans_partial _ _ _ h1 h2 h3 h4 fkOps_built "b" [] _ fkOps_path
    (by decide) (by simp) sub s2 qStart fk0 c1 junk q ⟨qident, ⟨0, 1, 0⟩⟩
  exact ⟨sub, fk0, v, grad, s1, c1, e1, by rw [e2, s2.2.2.1]; rfl⟩

/-- The chain from the sliding frame to the turning one, at zero, and a target turned by one: both errors
are a quarter. -/
example (junk : Nat → ℝ) : ∃ v grad v' grad',
    optQlnpv fkGraph abChain abFk junk 1 (turned 1) (fun _ => 0) = some (v, grad) ∧
    optDqln fkGraph abChain abFk junk 1 (turned 1) (fun _ => 0) = some (v', grad') ∧
    v = 1 / 4 ∧ grad.length = 1 ∧ v' = twistErr (turned 0) (turned 1) ∧ grad'.length = 1 := by
  obtain ⟨g, h1, h2, h3, h4⟩ := fkOps_ok
  have pa : IsPath (contents fkOps) "a" ([] ++ [⟨"a", "", Kind.prismatic, "qa", slide⟩]) :=
    IsPath.step (n := "a") (by decide) rfl IsPath.root
  have pb : IsPath (contents fkOps) "b" ([⟨"a", "", Kind.prismatic, "qa", slide⟩] ++
      [⟨"b", "a", Kind.revolute, "qb", turn⟩]) := fkOps_path
  obtain ⟨sub, s1, s2⟩ := C55_chain_partial _ _ _ h1 h2 h3 h4 "a" "b" _ _ pa pb 3
    (by simp) (fun _ => 0) (fun _ => 0)
  have hs : sub = abChain := by
    have := s1.symm.trans abChain_create
    exact Option.some.inj this
  subst hs
  have hE : tipAt fkGraph "b" abChain (fun _ => 0) (fun _ => 0) = some (turned 0) := by
    have h : tipAt fkGraph "b" abChain (fun _ => 0) (fun _ => 0) = some (qutrMul
        (tfRel Kind.prismatic slide 0) (tfRel Kind.revolute turn 0)) := by rfl
    rw [h, slide_rel, turn_rel, turned]
    simp [qutrMul, qmul, qident, qutrTf]
  obtain ⟨t1, t2⟩ := turned_angle zero_le_one (by linarith [Real.pi_gt_three])
  have hpi : rotAngle (turned 0) (turned 1) < Real.pi := by rw [t1]; linarith [Real.pi_gt_three]
  obtain ⟨v, grad, e1, -, -, e2⟩ := C95_qlnpv_partial _ _ _ h1 h2 h3 h4 fkOps_built "b" _ _ pb
    (by decide) (by simp) abChain s2 (fun _ => 0) abFk abFk_eq junk (fun _ => 0) (turned 1) (turned 0)
    (turned_valid 1) hE hpi
  obtain ⟨e2, e3, -⟩ := e2 (by rw [t1]; norm_num)
  obtain ⟨v', grad', d1, d2, d3, -⟩ := C95_dqln_partial _ _ _ h1 h2 h3 h4 fkOps_built "b" _ _ pb
    (by decide) (by simp) abChain s2 (fun _ => 0) abFk abFk_eq junk (fun _ => 0) (turned 1) (turned 0)
    (turned_valid 1) hE hpi (by rw [t1, dblEpsilon]; norm_num)
  refine ⟨v, grad, v', grad', e1, d1, ?_, e3, d2, d3⟩
  rw [e2, t1, t2]; norm_num

/-- A hand a unit from a shoulder that turns about z. -/
noncomputable def hand : Body := mkBody qident ⟨1, 0, 0⟩ 0 ⟨0, 0, 1⟩
noncomputable def shoulder : Body := mkBody qident ⟨0, 0, 0⟩ 0 ⟨0, 0, 1⟩

noncomputable def armOps : List (Op Body) :=
  [Op.add ⟨"h", "s", Kind.fixed, "", hand⟩, Op.add ⟨"s", "", Kind.revolute, "q", shoulder⟩]

noncomputable def armGraph : Graph Body :=
  { map := [⟨"h", "s", Kind.fixed, "", hand⟩, ⟨"s", "", Kind.revolute, "q", shoulder⟩]
    frames := [some ⟨⟨"s", "", Kind.revolute, "q", shoulder⟩, -1, some 0⟩,
      some ⟨⟨"h", "s", Kind.fixed, "", hand⟩, 0, none⟩]
    configMap := [("q", 0)]
    configRmap := ["q"]
    configSize := some 1
    dirty := false }

theorem armGraph_index : (run create armOps).bind index = some (Status.ok, armGraph) := by rfl

/-- The chain from the root to the hand. -/
def armSub : Sub := ⟨2, Function.update (Function.update (fun _ => 0) 1 1) 0 0, 1,
  Function.update (fun _ => 0) 0 0, some [1]⟩

theorem armSub_create : chainCreate armGraph (-1) (frameId armGraph "h") 9 (fun _ => 0) (fun _ => 0) =
    some armSub := by rfl


/-- The columns after forward kinematics of the chain. -/
theorem arm_fk (junk q : Nat → ℝ) : fkSub armGraph armSub junk q
      [⟨qident, ⟨0, 0, 0⟩⟩, ⟨qident, ⟨1, 0, 0⟩⟩] = some
    [⟨⟨0, 0, Real.sin (q 0 / 2), Real.cos (q 0 / 2)⟩, ⟨0, 0, 0⟩⟩,
      qutrMul ⟨⟨0, 0, Real.sin (q 0 / 2), Real.cos (q 0 / 2)⟩, ⟨0, 0, 0⟩⟩ ⟨qident, ⟨1, 0, 0⟩⟩] := by
  have h : fkSub armGraph armSub junk q [⟨qident, ⟨0, 0, 0⟩⟩, ⟨qident, ⟨1, 0, 0⟩⟩] = some
      [tfRel Kind.revolute shoulder (q 0), qutrMul (tfRel Kind.revolute shoulder (q 0))
        (tfRel Kind.fixed hand (q 0))] := by rfl
  have h1 : tfRel Kind.revolute shoulder (q 0) =
      ⟨⟨0, 0, Real.sin (q 0 / 2), Real.cos (q 0 / 2)⟩, ⟨0, 0, 0⟩⟩ := by
    simp [tfRel, shoulder, mkBody, qmul, qident, axang2quat]
  have h2 : tfRel Kind.fixed hand (q 0) = ⟨qident, ⟨1, 0, 0⟩⟩ := by
    simp [tfRel, hand, mkBody]
  rw [h, h1, h2]

/-- **C95 fails** for a frame (`aa_rx_ik_set_frame_id`) that is not the tip of the chain: the Jacobian is
that of the tip.  The shoulder does not move, so that its distance from the target is always one, but
the gradient that is returned at zero is two. -/
theorem C95_violates_frame (junk : Nat → ℝ) :
    fkAll armGraph (fun _ => 0) 1 = some [⟨qident, ⟨0, 0, 0⟩⟩, ⟨qident, ⟨1, 0, 0⟩⟩] ∧
    chainCreate armGraph (-1) (frameId armGraph "h") 9 (fun _ => 0) (fun _ => 0) = some armSub ∧
    (∀ q, ∃ E, tipAt armGraph "s" armSub (fun _ => 0) q = some E ∧
      transDist E ⟨qident, ⟨0, -1, 0⟩⟩ ^ 2 = 1) ∧
    optTrans armGraph armSub [⟨qident, ⟨0, 0, 0⟩⟩, ⟨qident, ⟨1, 0, 0⟩⟩] junk (frameId armGraph "s")
      ⟨qident, ⟨0, -1, 0⟩⟩ (fun _ => 0) = some (1, [2]) := by
  refine ⟨?_, armSub_create, fun q => ?_, ?_⟩
  · have h : fkAll armGraph (fun _ => 0) 1 = some [tfRel Kind.revolute shoulder 0,
        qutrMul (tfRel Kind.revolute shoulder 0) (tfRel Kind.fixed hand 0)] := by rfl
    rw [h]
    simp [tfRel, shoulder, hand, mkBody, qmul, qident, axang2quat, qutrMul, qutrTf]
  · have h : tipAt armGraph "s" armSub (fun _ => 0) q = some (tfRel Kind.revolute shoulder (q 0)) := by rfl
    refine ⟨_, h, ?_⟩
    rw [← transErr_dist]
    simp [tfRel, shoulder, mkBody, transErr, vdot]
  · unfold optTrans optPose
    rw [arm_fk, show frameId armGraph "s" = 0 from rfl]
    simp [parentCol, armGraph, jacVel, armSub, jacLoop, entry, velCol, transErr, vdot, qident,
      qutrMul, qutrTf, qmul, qrot, cross, shoulder, mkBody]

/-- **C95 fails** for `aa_rx_ik_opt_err_qlnpv_fd`: it takes the logarithm of a *dual* quaternion from an
array of seven elements to one of four, whatever the graph, the configuration and the target. -/
theorem C95_violates_qlnpv_fd (g : Graph Body) (s : Sub) (fk0 : List Qutr) (junk : Nat → ℝ) (frame : Int)
    (R : Qutr) (vErr : V3) (qLn : Quat) (q : Nat → ℝ) :
    qvFdHelper g s fk0 junk frame R vErr qLn q = none := by
  unfold qvFdHelper
  split
  · rfl
  · rfl

end Verif.Ik
