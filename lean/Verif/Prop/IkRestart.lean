import Verif.Prop.Ik
import Verif.Model.IkSqp

/-!
# C138: restarts of inverse kinematics
-/

namespace Verif.Ik

open Verif.Tf Verif.Sg

/-! ## Specification -/

/-- The outcome of independent attempts: the first that succeeds, otherwise the last. -/
def firstSuccess (attempt : (Nat → ℝ) → Option (Int × (Nat → ℝ))) :
    (Nat → ℝ) → List (Nat → ℝ) → Option (Int × (Nat → ℝ))
  | q, [] => attempt q
  | q, x :: xs =>
    match attempt q with
    | none => none
    | some r => if r.1 = 0 then some r else firstSuccess attempt x xs

/-! ## Steps of an attempt -/

/-- The check counts its calls, and does not continue beyond the maximum. -/
theorem kinCheck_count (g : Graph Body) (s : Sub) (lim : Limits) (p : Parm) (fk0 : List Qutr)
    (junk : Nat → ℝ) (frame : Int) (Eref : Qutr) (it : Nat) (t : ℝ) (x y : Nat → ℝ) :
    let c := kinCheck g s lim p fk0 junk frame Eref (some it) t x y
    (c.2.2.2 = none ∧ c.1 = -1) ∨
      (c.2.2.2 = some (it + 1) ∧ (c.1 = 1 ∨ (c.1 = -1 ∧ p.maxIter < it + 1) ∨ (c.1 = 0 ∧ it + 1 ≤ p.maxIter))) := by
  intro c
  unfold c kinCheck
  dsimp only
  cases fkSub g s junk (clampAll s lim x) fk0 with
  | none => exact Or.inl ⟨rfl, rfl⟩
  | some fk =>
    dsimp only
    cases parentCol fk frame with
    | none => exact Or.inl ⟨rfl, rfl⟩
    | some E =>
      right
      dsimp only
      split_ifs with h1 h2
      · exact ⟨rfl, Or.inl rfl⟩
      · exact ⟨rfl, Or.inr (Or.inl ⟨rfl, h2⟩)⟩
      · exact ⟨rfl, Or.inr (Or.inr ⟨rfl, by omega⟩)⟩

theorem adapt_count {g : Graph Body} {s : Sub} {lim : Limits} {p : Parm} {fk0 : List Qutr}
    {junk : Nat → ℝ} {frame : Int} {Eref : Qutr}
    {step : (ℝ → (Nat → ℝ) → (Nat → ℝ)) → ℝ → ℝ → (Nat → ℝ) → (Nat → Nat → ℝ) → Ode.Step (Nat → ℝ)} {nk : Nat}
    {sd : (Nat → ℝ) → (Nat → ℝ) → ℝ} {o : Ode.Opts} {f : ℝ → (Nat → ℝ) → (Nat → ℝ)} {t : ℝ} :
    ∀ (fuel : Nat) (dt : ℝ) (x : Nat → ℝ) (k : Nat → Nat → ℝ) (it : Nat) (calls : List (Ode.Call (Nat → ℝ)))
      (r : Ode.Result (Option Nat) (Nat → ℝ)) (it' : Nat),
      Ode.adaptLoop step nk sd o f (kinCheck g s lim p fk0 junk frame Eref) t fuel dt x k (some it) calls = some r →
      r.cx = some it' →
      it < it' ∧ it' - it = r.calls.length - calls.length ∧ calls.length ≤ r.calls.length ∧
        (it' ≤ p.maxIter + 1 ∨ it' = it + 1) ∧ (r.ret ≠ 0 → p.maxIter < it') := by
  intro fuel
  induction fuel with
  | zero => intro dt x k it calls r it' h; simp [Ode.adaptLoop] at h
  | succ fuel ih =>
    intro dt x k it calls r it' h hr
    rw [Ode.adaptLoop] at h
    dsimp only at h
    split_ifs at h with h1 h2
    · exact ih _ _ _ _ _ _ _ h hr
    · rcases kinCheck_count g s lim p fk0 junk frame Eref it t (step f t dt x k).hi
        ((step f t dt x k).k (nk - 1)) with ⟨hc, -⟩ | ⟨hc, hv⟩
      · simp only [Option.some.injEq] at h
        subst h
        simp only at hr
        rw [hc] at hr
        simp at hr
      · simp only [Option.some.injEq] at h
        subst h
        simp only at hr ⊢
        rw [hc] at hr
        obtain rfl : it + 1 = it' := by simpa using hr
        refine ⟨by omega, by simp, by simp, Or.inr rfl, fun hne => ?_⟩
        rcases hv with hv | ⟨hv, hm⟩ | ⟨hv, -⟩
        · rw [hv] at hne; simp [Ode.code] at hne
        · exact hm
        · exact absurd hv h2
    all_goals
      rcases kinCheck_count g s lim p fk0 junk frame Eref it t (step f t dt x k).hi
        ((step f t dt x k).k (nk - 1)) with ⟨hc, hv⟩ | ⟨hc, hv⟩
      · exact absurd (by rw [hv]; decide) h2
      · rcases hv with hv | ⟨hv, hm⟩ | ⟨hv, hm⟩
        · exact absurd (by rw [hv]; decide) h2
        · exact absurd (by rw [hv]; decide) h2
        · rw [hc] at h
          obtain ⟨h3, h4, h5, h6, h7⟩ := ih _ _ _ _ _ _ _ h hr
          simp only [List.length_append, List.length_singleton] at h4 h5
          refine ⟨by omega, by omega, by omega, Or.inl ?_, h7⟩
          rcases h6 with h6 | h6 <;> omega

theorem jpinv_count {g : Graph Body} {s : Sub} {lim : Limits} {p : Parm} {fk0 : List Qutr}
    {junk : Nat → ℝ} {frame : Int} {Eref : Qutr} {f : (Nat → ℝ) → (Nat → ℝ)} {fuel it it' : Nat} {x q : Nat → ℝ}
    {c : Int} (h : ikJpinv s p f (kinCheck g s lim p fk0 junk frame Eref) fuel it x = some (c, q, it')) :
    it < it' ∧ (it' ≤ p.maxIter + 1 ∨ it' = it + 1) ∧ (c ≠ 0 → p.maxIter < it') := by
  unfold ikJpinv at h
  split at h
  · simp at h
  · rename_i r hr
    split at h
    · simp at h
    · rename_i it2 hcx
      simp only [Option.some.injEq, Prod.mk.injEq] at h
      obtain ⟨h1, -, rfl⟩ := h
      unfold Ode.odeSol at hr
      obtain ⟨h3, -, -, h6, h7⟩ := adapt_count _ _ _ _ _ _ _ _ hr hcx
      refine ⟨h3, h6, fun hc => h7 fun h0 => hc ?_⟩
      rw [if_neg (by simp [h0])] at h1
      exact h1.symm

/-! ## Theorems -/

/-- **C138, the part that holds: the first attempt**. Without restarts the result is that of one attempt
with `max_iterations` iterations from the seed, for every robot, target and system being integrated. -/
theorem C138_first_partial (g : Graph Body) (s : Sub) (lim : Limits) (p : Parm) (fk0 : List Qutr)
    (junk : Nat → ℝ) (frame : Int) (f : (Nat → ℝ) → (Nat → ℝ)) (fuel : Nat) (Eref : Qutr)
    (seed : Nat → ℝ) (seeds : List (Nat → ℝ)) (q0 q : Nat → ℝ) (it : Nat) (c : Int)
    (h : ikJpinv s p f (kinCheck g s lim p fk0 junk frame Eref) fuel 0 seed = some (c, q, it)) :
    (c = 0 → ikSolve g s lim p fk0 junk frame f fuel 7 1 Eref s.configCount seed seeds q0 = some (0, q)) ∧
      (seeds = [] → ikSolve g s lim p fk0 junk frame f fuel 7 1 Eref s.configCount seed seeds q0 = some (c, q)) ∧
      it ≤ p.maxIter + 1 := by
  have hs : ikSolve g s lim p fk0 junk frame f fuel 7 1 Eref s.configCount seed seeds q0 =
      ikLoop (ikJpinv s p f (kinCheck g s lim p fk0 junk frame Eref) fuel) seeds 0 seed := by
    unfold ikSolve
    rw [if_neg (by simp), if_neg (by simp)]
  rw [hs]
  refine ⟨?_, ?_, ?_⟩
  · rintro rfl
    cases seeds with
    | nil => simp only [ikLoop, h, Option.map_some]
    | cons x xs => simp only [ikLoop, h, ne_eq, not_true_eq_false, if_false]
  · rintro rfl
    simp only [ikLoop, h, Option.map_some]
  · have := jpinv_count h
    omega

/-- **C138 fails: every restart makes a single step.** The number of iterations is not set to zero when the
solver restarts, and an attempt fails only by exceeding the maximum; so, whatever the robot, the target and
`max_iterations`, every attempt after a failed one calls its check exactly once. -/
theorem C138_violates_single_step (g : Graph Body) (s : Sub) (lim : Limits) (p : Parm) (fk0 : List Qutr)
    (junk : Nat → ℝ) (frame : Int) (f : (Nat → ℝ) → (Nat → ℝ)) (fuel : Nat) (Eref : Qutr)
    (x x' q q' : Nat → ℝ) (it it1 it2 : Nat) (c c' : Int)
    (h : ikJpinv s p f (kinCheck g s lim p fk0 junk frame Eref) fuel it x = some (c, q, it1)) (hc : c ≠ 0)
    (h' : ikJpinv s p f (kinCheck g s lim p fk0 junk frame Eref) fuel it1 x' = some (c', q', it2)) :
    it2 = it1 + 1 := by
  have h1 := (jpinv_count h).2.2 hc
  obtain ⟨h2, h3, -⟩ := jpinv_count h'
  omega

/-! ## A case in which a solution is lost -/

/-- The chain from the root to the sliding frame `a` of `fkGraph`. -/
def aChain : Sub := ⟨1, Function.update (fun _ => 0) 0 0, 1, Function.update (fun _ => 0) 0 0, some [0]⟩

theorem aChain_create :
    chainCreate fkGraph frameRoot (frameId fkGraph "a") 3 (fun _ => 0) (fun _ => 0) = some aChain := by rfl

/-- The direction of the single variable. -/
noncomputable def e0 : Nat → ℝ := fun i => if i = 0 then 1 else 0

theorem e0_smul (a : ℝ) : (a • e0) 0 = a := by simp [e0]

theorem aSub (junk q : Nat → ℝ) : fkSub fkGraph aChain junk q abFk = some
    [slid (q 0), ⟨qident, ⟨1, 0, 0⟩⟩, ⟨qident, ⟨0, 0, 0⟩⟩] := by
  have h : fkSub fkGraph aChain junk q abFk = some [tfRel Kind.prismatic slide (q 0),
      ⟨qident, ⟨1, 0, 0⟩⟩, ⟨qident, ⟨0, 0, 0⟩⟩] := by rfl
  rw [h, slide_rel]
  rfl

theorem slid_lnv' (x : ℝ) : qutrLnv (slid x) = some ⟨⟨x / 2, 0, 0⟩, ⟨0, 0, 0⟩⟩ := by
  have h : atan2 (vnorm (slid x).q.vec) (slid x).q.w = 0 := by
    have : (⟨(slid x).q.w, vnorm (slid x).q.vec⟩ : ℂ) = 1 := by
      apply Complex.ext <;> simp [slid, qident, vnorm, vdot, Quat.vec]
    rw [atan2, this, Complex.arg_one]
  have hpos : (0 : ℝ) < Real.sqrt dblEpsilon := Real.sqrt_pos.2 (by norm_num [dblEpsilon])
  unfold qutrLnv qvLnvCoef
  simp only [h]
  rw [if_pos hpos]
  simp [slid, qident, Quat.vec, vscal, cross, vdot]

/-- The parameters: tolerances 1 rad and 1/5, at most one iteration, initial step 1. -/
noncomputable def once : Parm := ⟨1, 1 / 5, 1000000, 1, 1, 2, 2, none, fun _ => 0⟩

/-- The pseudo-inverse of the Jacobian of a joint that slides along x. -/
noncomputable def slideInv : List Qutr → Nat → Nat → ℝ := fun _ i j => if i = 0 ∧ j = 0 then 1 else 0

theorem slide_sys (junk q : Nat → ℝ) (N : List Qutr → Nat → Nat → ℝ) :
    kinSys fkGraph aChain once abFk junk 0 (slid 0) slideInv N q = some (-(q 0) • e0) := by
  unfold kinSys
  rw [aSub]
  simp only [parentCol]
  rw [if_neg (by decide)]
  simp only [Int.toNat_zero, List.getElem?_cons_zero]
  have hm : qutrMulc (slid (q 0)) (slid 0) = slid (q 0) := by
    simp [qutrMulc, qutrMul, qutrConj, slid, qmul, qconj, qident, qutrTf, qrot, vneg]
  have hmin : (⟨qminimize (slid (q 0)).q, (slid (q 0)).v⟩ : Qutr) = slid (q 0) := by
    simp [qminimize, slid, qident]
  unfold wkDxPos
  simp only [hm, hmin, slid_lnv', Option.map_some]
  congr 1
  funext i
  by_cases hi : i = 0
  · subst hi
    simp [row6, twist2vel, crossA, once, slideInv, e0]
    ring
  · simp [row6, twist2vel, crossA, once, slideInv, e0, hi]

/-- The system of the sliding joint. -/
noncomputable def slideF : (Nat → ℝ) → (Nat → ℝ) := fun q => -(q 0) • e0

theorem slideF_e (a : ℝ) : slideF (a • e0) = (-a) • e0 := by
  unfold slideF; rw [e0_smul]

theorem slide_err (x : ℝ) : err2 (slid x) (slid 0) = (0, |x|) := by
  have hv : ∀ x, (slid x).Valid := by
    intro x
    show Tf.Unit _
    simp [Tf.Unit, slid, qident]
  rw [err2_eq (hv x) (hv 0)]
  have h1 : rotAngle (slid x) (slid 0) = 0 := by
    unfold rotAngle
    rw [trace_eq (hv x) (hv 0)]
    simp only [slid, qident]
    norm_num
  have h2 : transDist (slid x) (slid 0) = |x| := by
    simp only [transDist, slid, vnorm, vdot]
    rw [show ((0 : ℝ) - x) * (0 - x) + (0 - 0) * (0 - 0) + (0 - 0) * (0 - 0) = x ^ 2 by ring]
    exact Real.sqrt_sq_eq_abs x
  rw [h1, h2]; norm_num

theorem slide_check (junk : Nat → ℝ) (it : Nat) (t b d : ℝ) (hd : d * d < 1000000) :
    kinCheck fkGraph aChain (fun _ => none) once abFk junk 0 (slid 0) (some it) t (b • e0) (d • e0) =
      if |b| < 1 / 5 then (1, b • e0, d • e0, some (it + 1))
      else if it + 1 > 1 then (-1, b • e0, d • e0, some (it + 1)) else (0, b • e0, d • e0, some (it + 1)) := by
  have hcl : clampAll aChain (fun _ => none) (b • e0) = b • e0 := by
    funext i
    unfold clampAll clampAt
    split_ifs
    · cases cidx aChain i <;> rfl
    · rfl
  have hy : sqNorm aChain.configCount (d • e0) < once.tolDq := by
    simp only [sqNorm, aChain, Finset.sum_range_one, e0_smul, once]
    exact hd
  unfold kinCheck
  simp only [hcl, aSub, parentCol]
  rw [if_neg (by decide)]
  simp only [Int.toNat_zero, List.getElem?_cons_zero, e0_smul, slide_err]
  by_cases hb : |b| < 1 / 5
  · rw [if_pos hb, if_pos ⟨by simp [once], hb, hy⟩]
  · rw [if_neg hb, if_neg (fun h => hb h.2.1)]
    exact if_congr Iff.rfl rfl rfl

/-- A step of the integrator on the sliding joint: factors of the two solutions. -/
noncomputable def facLo (dt : ℝ) : ℝ := 1 - dt * (2 / 9 + 1 / 3 * (1 - dt / 2) + 4 / 9 * (1 - 3 * dt / 4 * (1 - dt / 2)))

noncomputable def facHi (dt : ℝ) : ℝ :=
  1 - dt * (7 / 24 + 1 / 4 * (1 - dt / 2) + 1 / 3 * (1 - 3 * dt / 4 * (1 - dt / 2)) + 1 / 8 * facLo dt)

theorem slide_step (t dt a : ℝ) (k : Nat → Nat → ℝ) (hk : k 0 = (-a) • e0) :
    (Ode.rkbs23 (fun _ => slideF) t dt (a • e0) k).lo = (a * facLo dt) • e0 ∧
      (Ode.rkbs23 (fun _ => slideF) t dt (a • e0) k).hi = (a * facHi dt) • e0 ∧
      (Ode.rkbs23 (fun _ => slideF) t dt (a • e0) k).k 3 = (-(a * facLo dt)) • e0 := by
  have h1 : slideF (a • e0 + (dt / 2) • k 0) = (-(a * (1 - dt / 2))) • e0 := by
    rw [hk, smul_smul, ← add_smul, slideF_e]; congr 1; ring
  have h2 : slideF (a • e0 + (3 * dt / 4) • slideF (a • e0 + (dt / 2) • k 0)) =
      (-(a * (1 - 3 * dt / 4 * (1 - dt / 2)))) • e0 := by
    rw [h1, smul_smul, ← add_smul, slideF_e]; congr 1; ring
  have hx2 : ∀ k' : Nat → Nat → ℝ, k' 0 = (-a) • e0 → k' 1 = (-(a * (1 - dt / 2))) • e0 →
      k' 2 = (-(a * (1 - 3 * dt / 4 * (1 - dt / 2)))) • e0 →
      Ode.gemv dt k' 3 [2 / 9, 1 / 3, 4 / 9] (a • e0) = (a * facLo dt) • e0 := by
    intro k' g0 g1 g2
    simp only [Ode.gemv, Finset.sum_range_succ, Finset.sum_range_zero, g0, g1, g2, List.getD_cons_zero,
      List.getD_cons_succ, zero_add, smul_smul, ← add_smul]
    congr 1
    unfold facLo
    ring
  have hhi : ∀ k' : Nat → Nat → ℝ, k' 0 = (-a) • e0 → k' 1 = (-(a * (1 - dt / 2))) • e0 →
      k' 2 = (-(a * (1 - 3 * dt / 4 * (1 - dt / 2)))) • e0 → k' 3 = (-(a * facLo dt)) • e0 →
      Ode.gemv dt k' 4 [7 / 24, 1 / 4, 1 / 3, 1 / 8] (a • e0) = (a * facHi dt) • e0 := by
    intro k' g0 g1 g2 g3
    simp only [Ode.gemv, Finset.sum_range_succ, Finset.sum_range_zero, g0, g1, g2, g3, List.getD_cons_zero,
      List.getD_cons_succ, zero_add, smul_smul, ← add_smul]
    congr 1
    unfold facHi
    ring
  unfold Ode.rkbs23
  dsimp only
  set k1 := Function.update k 1 (slideF (a • e0 + (dt / 2) • k 0)) with hk1
  have g10 : k1 0 = (-a) • e0 := by rw [hk1, Function.update_of_ne (by decide)]; exact hk
  have g11 : k1 1 = (-(a * (1 - dt / 2))) • e0 := by rw [hk1, Function.update_self]; exact h1
  set k2 := Function.update k1 2 (slideF (a • e0 + (3 * dt / 4) • k1 1)) with hk2
  have g20 : k2 0 = (-a) • e0 := by rw [hk2, Function.update_of_ne (by decide)]; exact g10
  have g21 : k2 1 = (-(a * (1 - dt / 2))) • e0 := by rw [hk2, Function.update_of_ne (by decide)]; exact g11
  have g22 : k2 2 = (-(a * (1 - 3 * dt / 4 * (1 - dt / 2)))) • e0 := by
    rw [hk2, Function.update_self, g11, ← h1]; exact h2
  have hlo : Ode.butcherX dt (a • e0) 3 [2 / 9, 1 / 3, 4 / 9] k2 = (a * facLo dt) • e0 := hx2 k2 g20 g21 g22
  have g33 : Ode.butcher (fun _ => slideF) t dt (a • e0) 1 3 [2 / 9, 1 / 3, 4 / 9] k2 3 3 =
      (-(a * facLo dt)) • e0 := by
    unfold Ode.butcher
    rw [Function.update_self, hlo]
    exact slideF_e _
  refine ⟨hlo, hhi _ ?_ ?_ ?_ g33, g33⟩
  · unfold Ode.butcher; rw [Function.update_of_ne (by decide)]; exact g20
  · unfold Ode.butcher; rw [Function.update_of_ne (by decide)]; exact g21
  · unfold Ode.butcher; rw [Function.update_of_ne (by decide)]; exact g22

theorem facLo_one : facLo 1 = 1 / 3 := by unfold facLo; norm_num
theorem facHi_one : facHi 1 = 1 / 3 := by unfold facHi; rw [facLo_one]; norm_num
theorem facLo_two : facLo 2 = -1 / 3 := by unfold facLo; norm_num
theorem facHi_two : facHi 2 = -1 / 6 := by unfold facHi; rw [facLo_two]; norm_num

theorem slide_ssd (a b : ℝ) : ssd aChain.configCount (a • e0) (b • e0) = (a - b) * (a - b) := by
  simp only [ssd, aChain, Finset.sum_range_one, e0_smul]

theorem turn_stop {step : (ℝ → (Nat → ℝ) → (Nat → ℝ)) → ℝ → ℝ → (Nat → ℝ) → (Nat → Nat → ℝ) → Ode.Step (Nat → ℝ)}
    {nk : Nat} {sd : (Nat → ℝ) → (Nat → ℝ) → ℝ} {o : Ode.Opts} {f : ℝ → (Nat → ℝ) → (Nat → ℝ)} {t dt : ℝ}
    {check : Ode.Check (Option Nat) (Nat → ℝ)} {fuel : Nat} {x x' y' : Nat → ℝ} {k : Nat → Nat → ℝ}
    {cx cx' : Option Nat} {calls : List (Ode.Call (Nat → ℝ))} {c : Int}
    (he : ¬ sd (step f t dt x k).lo (step f t dt x k).hi > o.tolDec)
    (hc : check cx t (step f t dt x k).hi ((step f t dt x k).k (nk - 1)) = (c, x', y', cx')) (hn : c ≠ 0) :
    ∃ l, Ode.adaptLoop step nk sd o f check t (fuel + 1) dt x k cx calls = some ⟨Ode.code c, x', cx', l⟩ := by
  rw [Ode.adaptLoop]
  simp only [if_neg he, hc, ne_eq, hn, not_false_eq_true, if_true]
  exact ⟨_, rfl⟩

theorem turn_go {step : (ℝ → (Nat → ℝ) → (Nat → ℝ)) → ℝ → ℝ → (Nat → ℝ) → (Nat → Nat → ℝ) → Ode.Step (Nat → ℝ)}
    {nk : Nat} {sd : (Nat → ℝ) → (Nat → ℝ) → ℝ} {o : Ode.Opts} {f : ℝ → (Nat → ℝ) → (Nat → ℝ)} {t dt : ℝ}
    {check : Ode.Check (Option Nat) (Nat → ℝ)} {fuel : Nat} {x x' y' : Nat → ℝ} {k : Nat → Nat → ℝ}
    {cx cx' : Option Nat} {calls : List (Ode.Call (Nat → ℝ))}
    (he : ¬ sd (step f t dt x k).lo (step f t dt x k).hi > o.tolDec)
    (hi : sd (step f t dt x k).lo (step f t dt x k).hi < o.tolInc)
    (hc : check cx t (step f t dt x k).hi ((step f t dt x k).k (nk - 1)) = (0, x', y', cx')) :
    ∃ k' l, k' 0 = y' ∧ Ode.adaptLoop step nk sd o f check t (fuel + 1) dt x k cx calls =
      Ode.adaptLoop step nk sd o f check t fuel (dt * o.factorInc) x' k' cx' l := by
  rw [Ode.adaptLoop]
  simp only [if_neg he, hc, ne_eq, not_true_eq_false, if_false, if_pos hi]
  exact ⟨_, _, by simp, rfl⟩

/-- The attempt on the sliding joint from `a`, when the count is used up: one step. -/
theorem slide_one (junk : Nat → ℝ) (it fuel : Nat) (a : ℝ) (ha : a * a < 1000000) (hit : 1 ≤ it) (h : 3 / 5 ≤ |a|) :
    ikJpinv aChain once slideF (kinCheck fkGraph aChain (fun _ => none) once abFk junk 0 (slid 0)) (fuel + 1) it
      (a • e0) = some (3, (a * (1 / 3)) • e0, it + 1) := by
  obtain ⟨h1, h2, h3⟩ := slide_step 0 1 a (fun _ => slideF (a • e0)) (slideF_e a)
  rw [facLo_one] at h1 h3
  rw [facHi_one] at h2
  have hb : ¬ |a * (1 / 3)| < 1 / 5 := by
    rw [abs_mul, abs_of_pos (by norm_num : (0 : ℝ) < 1 / 3)]; linarith
  have hc := slide_check junk it 0 (a * (1 / 3)) (-(a * (1 / 3))) (by nlinarith)
  rw [if_neg hb, if_pos (by omega)] at hc
  obtain ⟨l, hl⟩ := turn_stop (step := Ode.rkbs23) (nk := 4) (sd := ssd aChain.configCount)
    (o := ⟨once.tolDq / 16, once.tolDq / 2, 1 / 10, 2⟩) (f := fun _ => slideF) (t := 0) (dt := once.dt)
    (check := kinCheck fkGraph aChain (fun _ => none) once abFk junk 0 (slid 0)) (fuel := fuel) (x := a • e0)
    (k := fun _ => slideF (a • e0)) (cx := some it) (calls := []) (c := -1) (x' := (a * (1 / 3)) • e0)
    (y' := (-(a * (1 / 3))) • e0) (cx' := some (it + 1))
    (by
      show ¬ ssd _ (Ode.rkbs23 (fun _ => slideF) 0 1 _ _).lo (Ode.rkbs23 (fun _ => slideF) 0 1 _ _).hi > _
      rw [h1, h2, slide_ssd]; simp only [once]; norm_num)
    (by
      show kinCheck _ _ _ _ _ _ _ _ _ _ (Ode.rkbs23 (fun _ => slideF) 0 1 _ _).hi
        ((Ode.rkbs23 (fun _ => slideF) 0 1 _ _).k 3) = _
      rw [h2, h3]; exact hc) (by decide)
  unfold ikJpinv Ode.odeSol
  dsimp only
  rw [hl]
  rfl

/-- The attempt on the sliding joint from `a` with the count at zero: two steps. -/
theorem slide_two (junk : Nat → ℝ) (fuel : Nat) (a : ℝ) (ha : a * a < 100000) (h : 3 / 5 ≤ |a|) :
    ikJpinv aChain once slideF (kinCheck fkGraph aChain (fun _ => none) once abFk junk 0 (slid 0)) (fuel + 2) 0
      (a • e0) = some (if |a| < 18 / 5 then 0 else 3, (a * (1 / 3) * (-1 / 6)) • e0, 2) := by
  obtain ⟨h1, h2, h3⟩ := slide_step 0 1 a (fun _ => slideF (a • e0)) (slideF_e a)
  rw [facLo_one] at h1 h3
  rw [facHi_one] at h2
  have hb : ¬ |a * (1 / 3)| < 1 / 5 := by
    rw [abs_mul, abs_of_pos (by norm_num : (0 : ℝ) < 1 / 3)]; linarith
  have hc := slide_check junk 0 0 (a * (1 / 3)) (-(a * (1 / 3))) (by nlinarith)
  rw [if_neg hb, if_neg (by omega)] at hc
  obtain ⟨k', l, hk', hl⟩ := turn_go (step := Ode.rkbs23) (nk := 4) (sd := ssd aChain.configCount)
    (o := ⟨once.tolDq / 16, once.tolDq / 2, 1 / 10, 2⟩) (f := fun _ => slideF) (t := 0) (dt := once.dt)
    (check := kinCheck fkGraph aChain (fun _ => none) once abFk junk 0 (slid 0)) (fuel := fuel + 1) (x := a • e0)
    (k := fun _ => slideF (a • e0)) (cx := some 0) (calls := []) (x' := (a * (1 / 3)) • e0)
    (y' := (-(a * (1 / 3))) • e0) (cx' := some 1)
    (by
      show ¬ ssd _ (Ode.rkbs23 (fun _ => slideF) 0 1 _ _).lo (Ode.rkbs23 (fun _ => slideF) 0 1 _ _).hi > _
      rw [h1, h2, slide_ssd]; simp only [once]; norm_num)
    (by
      show ssd _ (Ode.rkbs23 (fun _ => slideF) 0 1 _ _).lo (Ode.rkbs23 (fun _ => slideF) 0 1 _ _).hi < _
      rw [h1, h2, slide_ssd]; simp only [once]; norm_num)
    (by
      show kinCheck _ _ _ _ _ _ _ _ _ _ (Ode.rkbs23 (fun _ => slideF) 0 1 _ _).hi
        ((Ode.rkbs23 (fun _ => slideF) 0 1 _ _).k 3) = _
      rw [h2, h3]; exact hc)
  obtain ⟨g1, g2, g3⟩ := slide_step 0 2 (a * (1 / 3)) k' hk'
  rw [facLo_two] at g1 g3
  rw [facHi_two] at g2
  have hdt : once.dt * (2 : ℝ) = 2 := by simp [once]
  have hc' := slide_check junk 1 0 (a * (1 / 3) * (-1 / 6)) (-(a * (1 / 3) * (-1 / 3))) (by nlinarith)
  have habs : |a * (1 / 3) * (-1 / 6)| = |a| / 18 := by
    rw [show a * (1 / 3) * (-1 / 6) = -(a / 18) by ring, abs_neg, abs_div, abs_of_pos (by norm_num : (0 : ℝ) < 18)]
  have herr : ¬ ssd aChain.configCount (Ode.rkbs23 (fun _ => slideF) 0 (once.dt * 2) ((a * (1 / 3)) • e0) k').lo
      (Ode.rkbs23 (fun _ => slideF) 0 (once.dt * 2) ((a * (1 / 3)) • e0) k').hi > once.tolDq / 16 := by
    rw [hdt, g1, g2, slide_ssd]; simp only [once]; nlinarith
  have fin : ∀ c : Int, c ≠ 0 → kinCheck fkGraph aChain (fun _ => none) once abFk junk 0 (slid 0) (some 1) 0
      ((a * (1 / 3) * (-1 / 6)) • e0) ((-(a * (1 / 3) * (-1 / 3))) • e0) =
        (c, (a * (1 / 3) * (-1 / 6)) • e0, (-(a * (1 / 3) * (-1 / 3))) • e0, some 2) →
      ikJpinv aChain once slideF (kinCheck fkGraph aChain (fun _ => none) once abFk junk 0 (slid 0)) (fuel + 2) 0
        (a • e0) = some (if Ode.code c ≠ 0 then errNoIk else 0, (a * (1 / 3) * (-1 / 6)) • e0, 2) := by
    intro c hn hcc
    obtain ⟨l', hl'⟩ := turn_stop (step := Ode.rkbs23) (nk := 4) (sd := ssd aChain.configCount)
      (o := ⟨once.tolDq / 16, once.tolDq / 2, 1 / 10, 2⟩) (f := fun _ => slideF) (t := 0) (dt := once.dt * 2)
      (check := kinCheck fkGraph aChain (fun _ => none) once abFk junk 0 (slid 0)) (fuel := fuel)
      (x := (a * (1 / 3)) • e0) (k := k') (cx := some 1) (calls := l) (c := c)
      (x' := (a * (1 / 3) * (-1 / 6)) • e0) (y' := (-(a * (1 / 3) * (-1 / 3))) • e0) (cx' := some 2) herr
      (by rw [hdt, g2, show 4 - 1 = 3 from rfl, g3]; exact hcc) hn
    unfold ikJpinv Ode.odeSol
    dsimp only
    rw [hl]
    dsimp only
    rw [hl']
  by_cases ha5 : |a| < 18 / 5
  · rw [if_pos (by rw [habs]; linarith)] at hc'
    rw [fin 1 (by decide) hc', if_pos ha5]
    rfl
  · rw [if_neg (by rw [habs]; linarith), if_pos (by omega)] at hc'
    rw [fin (-1) (by decide) hc', if_neg ha5]
    rfl

/-- An attempt with the Jacobian solver by itself. -/
noncomputable def jacAttempt (g : Graph Body) (s : Sub) (lim : Limits) (p : Parm) (fk0 : List Qutr)
    (junk : Nat → ℝ) (frame : Int) (f : (Nat → ℝ) → (Nat → ℝ)) (fuel : Nat) (Eref : Qutr) (x : Nat → ℝ) :
    Option (Int × (Nat → ℝ)) :=
  (ikJpinv s p f (kinCheck g s lim p fk0 junk frame Eref) fuel 0 x).map fun r => (r.1, r.2.1)

/-- **C138 fails: a solution is lost.** A joint slides along x, the target is the origin, the tolerance is
1/5 and `max_iterations` is one. The first attempt, from 100, fails. The restart is at 1, from where an
attempt by itself succeeds in its second step; but the restarted attempt is stopped after its first step
and the solver fails. -/
theorem C138_violates_lost (junk q0 : Nat → ℝ) (N : List Qutr → Nat → Nat → ℝ) :
    (∀ q, kinSys fkGraph aChain once abFk junk 0 (slid 0) slideInv N q = some (slideF q)) ∧
    (∃ qs, firstSuccess (jacAttempt fkGraph aChain (fun _ => none) once abFk junk 0 slideF 2 (slid 0))
        ((100 : ℝ) • e0) [(1 : ℝ) • e0] = some (0, qs)) ∧
      ∃ q, ikSolve fkGraph aChain (fun _ => none) once abFk junk 0 slideF 2 7 1 (slid 0) 1 ((100 : ℝ) • e0)
        [(1 : ℝ) • e0] q0 = some (errNoIk, q) := by
  have hs : ∀ seed seeds, ikSolve fkGraph aChain (fun _ => none) once abFk junk 0 slideF 2 7 1 (slid 0) 1 seed seeds q0 =
      ikLoop (ikJpinv aChain once slideF (kinCheck fkGraph aChain (fun _ => none) once abFk junk 0 (slid 0)) 2)
        seeds 0 seed := by
    intro seed seeds
    unfold ikSolve
    rw [if_neg (by simp [aChain]), if_neg (by simp)]
  have h1 := slide_two junk 0 1 (by norm_num) (by rw [abs_one]; norm_num)
  rw [if_pos (by rw [abs_one]; norm_num)] at h1
  have h2 := slide_two junk 0 100 (by norm_num) (by rw [abs_of_pos] <;> norm_num)
  rw [if_neg (by rw [abs_of_pos] <;> norm_num)] at h2
  have h3 := slide_one junk 2 1 1 (by norm_num) (by norm_num) (by rw [abs_one]; norm_num)
  refine ⟨fun q => slide_sys junk q N, ⟨((1 : ℝ) * (1 / 3) * (-1 / 6)) • e0, ?_⟩, ((1 : ℝ) * (1 / 3)) • e0, ?_⟩
  · simp only [firstSuccess, jacAttempt]
    rw [h2, h1]
    rfl
  · rw [hs]
    simp only [ikLoop]
    rw [h2]
    dsimp only
    rw [if_pos (by decide), h3]
    rfl

/-- **C138, the part that holds: sequential quadratic programming.** With that algorithm the attempts are
independent: whatever the optimizer computes from the bounds and the start, the result is that of the first
attempt that succeeds by itself, otherwise of the last. -/
theorem C138_sqp_partial (g : Graph Body) (s : Sub) (lim : Limits) (p : Parm) (fk0 : List Qutr)
    (junk : Nat → ℝ) (frame : Int) (f : (Nat → ℝ) → (Nat → ℝ)) (fuel : Nat) (big : ℝ)
    (opt : (Nat → ℝ × ℝ) → (Nat → ℝ) → (Nat → ℝ)) (Eref : Qutr) (seeds : List (Nat → ℝ)) (q0 : Nat → ℝ) :
    ∀ seed, ikSolveAlgo .sqp g s lim p fk0 junk frame f fuel big (fun _ => opt) 7 1 Eref s.configCount seed seeds q0 =
      firstSuccess (fun x => ikSolveAlgo .sqp g s lim p fk0 junk frame f fuel big (fun _ => opt) 7 1 Eref
        s.configCount x [] q0) seed seeds := by
  have hs : ∀ seed seeds, ikSolveAlgo .sqp g s lim p fk0 junk frame f fuel big (fun _ => opt) 7 1 Eref
      s.configCount seed seeds q0 = ikLoop (ikNlopt g s lim p fk0 junk frame Eref big fun _ => opt) seeds 0 seed := by
    intro seed seeds
    simp only [ikSolveAlgo, ne_eq, not_true_eq_false, or_self, if_false]
  have hit : ∀ it it' x, (ikNlopt g s lim p fk0 junk frame Eref big (fun _ => opt) it x).map (fun r => (r.1, r.2.1)) =
      (ikNlopt g s lim p fk0 junk frame Eref big (fun _ => opt) it' x).map fun r => (r.1, r.2.1) := by
    intro it it' x
    unfold ikNlopt
    dsimp only
    cases fkSub g s junk (opt (sqpBounds s lim big) x) fk0 with
    | none => rfl
    | some fk =>
      dsimp only
      cases parentCol fk frame <;> rfl
  have key : ∀ (seeds : List (Nat → ℝ)) (it : Nat) (seed : Nat → ℝ),
      ikLoop (ikNlopt g s lim p fk0 junk frame Eref big fun _ => opt) seeds it seed =
      firstSuccess (fun x => (ikNlopt g s lim p fk0 junk frame Eref big (fun _ => opt) 0 x).map
        fun r => (r.1, r.2.1)) seed seeds := by
    intro seeds
    induction seeds with
    | nil => intro it seed; exact hit it 0 seed
    | cons x xs ih =>
      intro it seed
      have h := hit it 0 seed
      simp only [ikLoop, firstSuccess]
      rw [← h]
      cases ikNlopt g s lim p fk0 junk frame Eref big (fun _ => opt) it seed with
      | none => rfl
      | some r =>
        obtain ⟨c, q, it'⟩ := r
        simp only [Option.map_some]
        by_cases hc : c = 0
        · simp only [hc, ne_eq, not_true_eq_false, if_false, if_true]
        · simp only [hc, ne_eq, not_false_eq_true, if_true, if_false]
          exact ih it' x
  intro seed
  rw [hs, key]
  congr 1
  funext x
  rw [hs]
  rfl

/-- Two attempts of which the second succeeds. -/
example (q0 junk : Nat → ℝ) :
    ∃ q, ikSolveAlgo .sqp fkGraph aChain (fun _ => none) once abFk junk 0 slideF 2 1000 (fun _ _ x => x) 7 1 (slid 0) 1
      ((100 : ℝ) • e0) [(0 : ℝ) • e0] q0 = some (0, q) := by
  have hv : ∀ x : ℝ, ikNlopt fkGraph aChain (fun _ => none) once abFk junk 0 (slid 0) 1000 (fun _ _ x => x) 0 (x • e0)
      = some (if |x| < 1 / 5 then 0 else 3, x • e0, 1) := by
    intro x
    unfold ikNlopt
    simp only [aSub, parentCol]
    rw [if_neg (by decide)]
    simp only [Int.toNat_zero, List.getElem?_cons_zero, e0_smul, sCheck, slide_err, once]
    by_cases hx : |x| < 1 / 5
    · rw [if_pos hx, if_pos ⟨by norm_num, hx⟩]
    · rw [if_neg hx, if_neg fun h => hx h.2]; rfl
  refine ⟨(0 : ℝ) • e0, ?_⟩
  have h := C138_sqp_partial fkGraph aChain (fun _ => none) once abFk junk 0 slideF 2 1000 (fun _ x => x) (slid 0)
    [(0 : ℝ) • e0] q0 ((100 : ℝ) • e0)
  have hc : aChain.configCount = 1 := rfl
  rw [hc] at h
  rw [h]
  simp only [firstSuccess, ikSolveAlgo, hc, ne_eq, not_true_eq_false, or_self, if_false, ikLoop, hv,
    Option.map_some]
  have h1 : ¬ |(100 : ℝ)| < 1 / 5 := by rw [abs_of_pos] <;> norm_num
  have h2 : |(0 : ℝ)| < 1 / 5 := by rw [abs_zero]; norm_num
  rw [if_neg h1, if_pos h2]
  rfl

/-- The hypotheses of `C138_violates_single_step` and `C138_first_partial` hold for the sliding joint. -/
example (junk : Nat → ℝ) : ∃ q q' it1 it2,
    ikJpinv aChain once slideF (kinCheck fkGraph aChain (fun _ => none) once abFk junk 0 (slid 0)) 2 0
      ((100 : ℝ) • e0) = some (3, q, it1) ∧
    ikJpinv aChain once slideF (kinCheck fkGraph aChain (fun _ => none) once abFk junk 0 (slid 0)) 2 it1
      ((1 : ℝ) • e0) = some (3, q', it2) := by
  have h2 := slide_two junk 0 100 (by norm_num) (by rw [abs_of_pos] <;> norm_num)
  rw [if_neg (by rw [abs_of_pos] <;> norm_num)] at h2
  have h3 := slide_one junk 2 1 1 (by norm_num) (by norm_num) (by rw [abs_one]; norm_num)
  exact ⟨_, _, _, _, h2, h3⟩

end Verif.Ik
