import Verif.Proof.Ik
import Verif.Prop.SgJac
import Verif.Prop.SgJac
import Verif.Prop.OdeSol

/-!
# C43: a successful inverse kinematics result is within tolerance and limits
-/

namespace Verif.Ik

open Verif.Tf Verif.Sg

/-! ## Specification of the error -/

/-- The angle of the rotation between two poses, from the trace of the relative rotation. -/
noncomputable def rotAngle (A B : Qutr) : ℝ :=
  Real.arccos ((vdot (qrot A.q ⟨1, 0, 0⟩) (qrot B.q ⟨1, 0, 0⟩) +
    vdot (qrot A.q ⟨0, 1, 0⟩) (qrot B.q ⟨0, 1, 0⟩) +
    vdot (qrot A.q ⟨0, 0, 1⟩) (qrot B.q ⟨0, 0, 1⟩) - 1) / 2)

/-- The distance of the origins. -/
noncomputable def transDist (A B : Qutr) : ℝ :=
  vnorm ⟨B.v.x - A.v.x, B.v.y - A.v.y, B.v.z - A.v.z⟩

theorem trace_eq {a b : Quat} (ha : Tf.Unit a) (hb : Tf.Unit b) :
    vdot (qrot a ⟨1, 0, 0⟩) (qrot b ⟨1, 0, 0⟩) + vdot (qrot a ⟨0, 1, 0⟩) (qrot b ⟨0, 1, 0⟩) +
      vdot (qrot a ⟨0, 0, 1⟩) (qrot b ⟨0, 0, 1⟩) =
    4 * (a.x * b.x + a.y * b.y + a.z * b.z + a.w * b.w) ^ 2 - 1 := by
  have h1 : a.w ^ 2 = 1 - a.x ^ 2 - a.y ^ 2 - a.z ^ 2 := by rw [Tf.Unit] at ha; linarith
  have h2 : b.w ^ 2 = 1 - b.x ^ 2 - b.y ^ 2 - b.z ^ 2 := by rw [Tf.Unit] at hb; linarith
  simp only [vdot, qrot]
  linear_combination (-4 * b.w ^ 2) * h1 + (-4 * (1 - a.x ^ 2 - a.y ^ 2 - a.z ^ 2)) * h2

theorem qangle_min {q : Quat} (h : Tf.Unit q) : qangle (qminimize q) = Real.arccos |q.w| := by
  have hw : (qminimize q).w = |q.w| := by
    unfold qminimize
    split_ifs with hq
    · rw [abs_of_neg hq]
    · rw [abs_of_nonneg (not_lt.1 hq)]
  have hv : vdot (qminimize q).vec (qminimize q).vec = 1 - |q.w| ^ 2 := by
    rw [sq_abs]
    rw [Tf.Unit] at h
    unfold qminimize
    split_ifs <;> simp only [vdot, Quat.vec] <;> linarith
  have hle : |q.w| ^ 2 ≤ 1 := by
    rw [sq_abs]; rw [Tf.Unit] at h
    nlinarith [sq_nonneg q.x, sq_nonneg q.y, sq_nonneg q.z]
  have hnorm : ‖(⟨|q.w|, vnorm (qminimize q).vec⟩ : ℂ)‖ = 1 := by
    rw [Complex.norm_def, Complex.normSq_mk, vnorm, hv, Real.mul_self_sqrt (by linarith)]
    rw [Real.sqrt_eq_one]; ring
  unfold qangle atan2
  rw [hw, Complex.arg_of_im_nonneg_of_ne_zero (by exact Real.sqrt_nonneg _)
    (by intro h0; rw [h0, norm_zero] at hnorm; exact zero_ne_one hnorm), hnorm, div_one]

/-- The code's errors: the distance, but only half the angle. -/
theorem err2_eq {A B : Qutr} (hA : A.Valid) (hB : B.Valid) :
    err2 A B = (rotAngle A B / 2, transDist A B) := by
  have hAc : Tf.Unit (qconj A.q) := by
    have : Tf.Unit A.q := hA
    simpa [Tf.Unit, qconj] using this
  have hE : Tf.Unit (qutrCmul A B).q := (C21_qmulnorm _ _ hAc hB).2
  set w := A.q.x * B.q.x + A.q.y * B.q.y + A.q.z * B.q.z + A.q.w * B.q.w with hw
  have hEw : (qutrCmul A B).q.w = w := by
    simp only [qutrCmul, qutrMul, qutrConj, qmul, qconj, hw]; ring
  have h1 : |w| ≤ 1 := by
    rw [← hEw]
    have : Tf.Unit (qutrCmul A B).q := hE
    rw [Tf.Unit] at this
    rw [← Real.sqrt_one, ← Real.sqrt_sq_eq_abs]
    exact Real.sqrt_le_sqrt (by
      nlinarith [sq_nonneg (qutrCmul A B).q.x, sq_nonneg (qutrCmul A B).q.y,
        sq_nonneg (qutrCmul A B).q.z])
  unfold err2
  refine Prod.ext ?_ ?_
  · show qangle (qminimize (qutrCmul A B).q) = rotAngle A B / 2
    rw [qangle_min hE, hEw]
    unfold rotAngle
    rw [trace_eq hA hB]
    have hc : (4 * w ^ 2 - 1 - 1) / 2 = Real.cos (2 * Real.arccos |w|) := by
      rw [Real.cos_two_mul, Real.cos_arccos (by linarith [abs_nonneg w]) h1, sq_abs]; ring
    rw [hc, Real.arccos_cos (by linarith [Real.arccos_nonneg |w|])]
    · ring
    · have := Real.arccos_le_pi_div_two.2 (abs_nonneg w)
      linarith
  · show vnorm (qutrCmul A B).v = transDist A B
    have : (qutrCmul A B).v = qrot (qconj A.q) ⟨B.v.x - A.v.x, B.v.y - A.v.y, B.v.z - A.v.z⟩ := by
      ext <;> simp [qutrCmul, qutrMul, qutrConj, qutrTf, qrot, qconj, vneg] <;> ring
    rw [this, C23_norm _ _ hAc]
    rfl

/-! ## Success of the solver -/

theorem threaded_last {σ E : Type} (check : Ode.Check σ E) :
    ∀ (l : List (Ode.Call E)) (cx cx' : σ), Ode.Threaded check cx l cx' → ∀ hne : l ≠ [],
      ∃ cx0, (l.getLast hne).res =
          (check cx0 (l.getLast hne).t (l.getLast hne).x (l.getLast hne).y).1 ∧
        (l.getLast hne).x' =
          (check cx0 (l.getLast hne).t (l.getLast hne).x (l.getLast hne).y).2.1 := by
  intro l
  induction l with
  | nil => intro _ _ _ h; exact absurd rfl h
  | cons c l ih =>
    intro cx cx' ht hne
    obtain ⟨h1, h2, -, h4⟩ := ht
    by_cases hl : l = []
    · subst hl
      exact ⟨cx, h1, h2⟩
    · rw [List.getLast_cons hl]
      exact ih _ _ h4 hl

/-- What a positive result of the check means. -/
theorem kinCheck_pos {g : Graph Body} {s : Sub} {lim : Limits} {p : Parm} {fk0 : List Qutr}
    {junk : Nat → ℝ} {frame : Int} {Eref : Qutr} {cx : Option Nat} {t : ℝ} {x y : Nat → ℝ}
    (h : 0 < (kinCheck g s lim p fk0 junk frame Eref cx t x y).1) :
    (kinCheck g s lim p fk0 junk frame Eref cx t x y).2.1 = clampAll s lim x ∧
    ∃ fk E, fkSub g s junk (clampAll s lim x) fk0 = some fk ∧ parentCol fk frame = some E ∧
      (err2 E Eref).1 < p.tolAngle ∧ (err2 E Eref).2 < p.tolTrans := by
  unfold kinCheck at h ⊢
  cases cx with
  | none => simp at h
  | some it =>
    simp only at h ⊢
    cases hfk : fkSub g s junk (clampAll s lim x) fk0 with
    | none => rw [hfk] at h; simp at h
    | some fk =>
      rw [hfk] at h
      simp only at h ⊢
      cases hE : parentCol fk frame with
      | none => rw [hE] at h; simp at h
      | some E =>
        rw [hE] at h
        simp only at h ⊢
        split_ifs at h with h1 h2
        · rw [if_pos h1]
          exact ⟨rfl, fk, E, rfl, hE, h1.1, h1.2.1⟩
        · simp at h
        · simp at h

theorem ikJpinv_ok {s : Sub} {p : Parm} {f : (Nat → ℝ) → (Nat → ℝ)}
    {check : Ode.Check (Option Nat) (Nat → ℝ)} {fuel it it' : Nat} {q0 q : Nat → ℝ}
    (h : ikJpinv s p f check fuel it q0 = some (0, q, it')) :
    ∃ cx t x y, 0 < (check cx t x y).1 ∧ q = (check cx t x y).2.1 := by
  unfold ikJpinv at h
  split at h
  · simp at h
  · rename_i r hr
    split at h
    · simp at h
    · simp only [Option.some.injEq, Prod.mk.injEq] at h
      obtain ⟨h1, h2, -⟩ := h
      have hret : r.ret = 0 := by
        by_contra hne
        rw [if_pos hne] at h1
        simp [errNoIk] at h1
      obtain ⟨he, hne, h0⟩ := Ode.C42_sol _ _ _ _ _ _ _ _ _ _ _ hr
      obtain ⟨cx0, k1, k2⟩ := threaded_last check _ _ _
        (Ode.C42_calls _ _ _ _ _ _ _ _ _ _ _ hr) hne
      refine ⟨cx0, (r.calls.getLast hne).t, (r.calls.getLast hne).x, (r.calls.getLast hne).y, ?_, ?_⟩
      · rw [← k1]; exact h0.1 hret
      · rw [← k2, ← h2]; exact he.out

theorem ikLoop_ok {solve : Nat → (Nat → ℝ) → Option (Int × (Nat → ℝ) × Nat)} :
    ∀ (seeds : List (Nat → ℝ)) (it : Nat) (q0 q : Nat → ℝ), ikLoop solve seeds it q0 = some (0, q) →
      ∃ it0 q1 it1, solve it0 q1 = some (0, q, it1) := by
  intro seeds
  induction seeds with
  | nil =>
    intro it q0 q h
    simp only [ikLoop, Option.map_eq_some_iff] at h
    obtain ⟨⟨r, q', it'⟩, h1, h2⟩ := h
    simp only [Prod.mk.injEq] at h2
    obtain ⟨rfl, rfl⟩ := h2
    exact ⟨it, q0, it', h1⟩
  | cons x xs ih =>
    intro it q0 q h
    rw [ikLoop] at h
    cases hs : solve it q0 with
    | none => rw [hs] at h; simp at h
    | some r =>
      obtain ⟨r, q', it'⟩ := r
      rw [hs] at h
      simp only at h
      split_ifs at h with hr
      · exact ih it' x q h
      · simp only [Option.some.injEq, Prod.mk.injEq] at h
        obtain ⟨rfl, rfl⟩ := h
        exact ⟨it, q0, it', hs⟩

/-- A successful result is a clamped vector that the check accepted. -/
theorem ikSolve_ok {g : Graph Body} {s : Sub} {lim : Limits} {p : Parm} {fk0 : List Qutr}
    {junk : Nat → ℝ} {frame : Int} {f : (Nat → ℝ) → (Nat → ℝ)} {fuel rows cols qLen : Nat}
    {Eref : Qutr} {seed q0 q : Nat → ℝ} {seeds : List (Nat → ℝ)}
    (h : ikSolve g s lim p fk0 junk frame f fuel rows cols Eref qLen seed seeds q0 = some (0, q)) :
    ∃ x fk E, q = clampAll s lim x ∧ fkSub g s junk q fk0 = some fk ∧ parentCol fk frame = some E ∧
      (err2 E Eref).1 < p.tolAngle ∧ (err2 E Eref).2 < p.tolTrans := by
  unfold ikSolve at h
  split_ifs at h with h1 h2
  · simp [errParm] at h
  · simp [errParm] at h
  · obtain ⟨it0, q1, it1, h3⟩ := ikLoop_ok _ _ _ _ h
    obtain ⟨cx, t, x, y, h4, h5⟩ := ikJpinv_ok h3
    obtain ⟨h6, fk, E, h7⟩ := kinCheck_pos h4
    rw [h6] at h5
    rw [← h5] at h7
    exact ⟨x, fk, E, h5, h7⟩

/-- The scattering fails at an element without a configuration. -/
theorem scatter_none (s : Sub) (x : Nat → ℝ) (i : Nat) (hneg : ¬ 0 ≤ s.configs i) :
    ∀ (n j : Nat) (all : Nat → ℝ), j ≤ i → i < j + n → scatterLoop s x 1 1 n j all = none := by
  intro n
  induction n with
  | zero => intro j all h2 h3; omega
  | succ n ih =>
    intro j all h2 h3
    rw [scatterLoop]
    cases hj : cidx s j with
    | none => rfl
    | some c =>
      refine ih (j + 1) _ ?_ (by omega)
      by_contra hlt
      have : j = i := by omega
      subst this
      rw [cidx, if_neg hneg] at hj
      simp at hj

/-- **C43**, limits: whatever the robot, the seed, the target, the restarts and the system being
integrated, a successful result respects the position limits of its configurations (whose minimum
is not above the maximum).  Missing: limits that contradict themselves. -/
theorem C43_limits_partial (g : Graph Body) (s : Sub) (lim : Limits) (p : Parm) (fk0 : List Qutr)
    (junk : Nat → ℝ) (frame : Int) (f : (Nat → ℝ) → (Nat → ℝ)) (fuel rows cols qLen : Nat)
    (Eref : Qutr) (seed q0 q : Nat → ℝ) (seeds : List (Nat → ℝ))
    (h : ikSolve g s lim p fk0 junk frame f fuel rows cols Eref qLen seed seeds q0 = some (0, q))
    (i : Nat) (hi : i < s.configCount) (lo hi' : ℝ)
    (hl : lim (s.configs i).toNat = some (lo, hi')) (hle : lo ≤ hi') : lo ≤ q i ∧ q i ≤ hi' := by
  obtain ⟨x, fk, E, rfl, h1, -⟩ := ikSolve_ok h
  have hc : 0 ≤ s.configs i := by
    by_contra hneg
    rw [fkSub, scatter_none s _ _ hneg s.configCount 0 junk (by omega) (by omega)] at h1
    simp at h1
  have : clampAll s lim x i = Scalar.fclamp (x i) lo hi' := by
    rw [clampAll, if_pos hi, clampAt, cidx, if_pos hc]
    simp only [hl]
  rw [this]
  unfold Scalar.fclamp
  split_ifs <;> constructor <;> linarith

/-! ## The pose -/

section
variable {g : Graph Body} {st : NumSt Body}

/-- The numbers of the configurations of a chain. -/
theorem chain_config {t : String} {fr rest : List (Frame Body)} {sub : Sub} (h : Indexed g st)
    (ht : IsPath (find g.map) t (fr ++ rest)) (hch : IsChain g t rest sub) :
    (∀ j, j < sub.configCount → ∃ f ∈ rest, f.IsJoint ∧ sub.configs j = configId g f.config ∧
      0 ≤ sub.configs j) ∧
    (∀ f ∈ rest, f.IsJoint → ∃ j, j < sub.configCount ∧ sub.configs j = configId g f.config) := by
  obtain ⟨-, -, c1, c2, -⟩ := hch
  constructor
  · intro j hj
    rw [c1] at hj
    have hget := List.getElem?_eq_getElem hj
    have hmem := List.mem_filter.1 (List.getElem_mem hj)
    have hj' := c2 j _ hget
    refine ⟨_, hmem.1, by simpa [Frame.IsJoint] using hmem.2, hj', ?_⟩
    obtain ⟨i, e, h1, h2, -⟩ := h.exists_entry (ht.mem _ (List.mem_append_right fr hmem.1))
    obtain ⟨k, -, -, -, k4⟩ := h.frameConfig_entry h1 (by
      rw [h2]; simpa [Frame.IsJoint] using hmem.2)
    rw [hj', ← h2, k4]
    omega
  · intro f hf hj
    have : f ∈ rest.filter (fun f => f.kind ≠ Kind.fixed) :=
      List.mem_filter.2 ⟨hf, by simpa [Frame.IsJoint] using hj⟩
    obtain ⟨j, hlt, he⟩ := List.mem_iff_getElem.1 this
    exact ⟨j, by rw [c1]; exact hlt, c2 j f (by rw [List.getElem?_eq_getElem hlt, he])⟩

/-- Forward kinematics of a chain: the columns of the chain's frames are products along the chain
after the transform of its root, the others are unchanged, and uninitialized numbers do not
matter. -/
theorem fkSub_chain {t : String} {fr rest : List (Frame Body)} {sub : Sub} {q : Nat → ℝ}
    (h : Indexed g st) (ht : IsPath (find g.map) t (fr ++ rest)) (hch : IsChain g t rest sub)
    (junk q0 : Nat → ℝ) (abs : List Qutr) (E : Qutr) (hl : abs.length = frameCount g)
    (hE : BaseCol g abs fr E) :
    ∃ qa fk, scatterLoop sub q 1 1 sub.configCount 0 q0 = some qa ∧
      fkSub g sub junk q abs = some fk ∧ fk.length = frameCount g ∧
      (∀ (k : Nat) (f : Frame Body), rest[k]? = some f →
        fk[(frameId g f.name).toNat]? = some (chainTf g qa E (rest.take (k + 1)))) ∧
      (∀ j, (∀ f ∈ rest, (frameId g f.name).toNat ≠ j) → fk[j]? = abs[j]?) ∧
      (∀ c, (∀ j, j < sub.configCount → (sub.configs j).toNat ≠ c) → qa c = q0 c) := by
  obtain ⟨hc1, hc2⟩ := chain_config h ht hch
  have hpos : ∀ j, 0 ≤ j → j < 0 + sub.configCount → 0 ≤ sub.configs j := fun j _ hj => by
    obtain ⟨-, -, -, -, h4⟩ := hc1 j (by omega)
    exact h4
  have s1 := fun m : Nat → ℝ => scatterLoop_eq sub q 1 1 sub.configCount 0 m hpos
  obtain ⟨c0, c1, -⟩ := hch
  set dst : Nat → Nat := fun j => (sub.configs j).toNat * 1 with hdst
  set val : Nat → ℝ := fun j => q (j * 1) with hval
  obtain ⟨fk, f1, f2, f3, f4⟩ := fkSubLoop_eq h (writes dst val sub.configCount 0 junk) sub.frames t
    rest fr 0 abs E ht (fun k f hk => by rw [Nat.zero_add]; exact c1 k f hk) hl hE
  refine ⟨_, fk, s1 q0, ?_, f2, ?_, f4, ?_⟩
  · rw [fkSub, s1 junk]
    simp only [c0]
    exact f1
  · intro k f hk
    rw [f3 k f hk]
    congr 1
    apply chainTf_congr
    intro f' hf' hj
    obtain ⟨j, j1, j2⟩ := hc2 f' (List.mem_of_mem_take hf') hj
    unfold confVal
    exact writes_congr _ _ _ _ _ _ _ (Or.inr ⟨j, by omega, by omega, by simp [hdst, j2]⟩)
  · intro c hc
    exact writes_frame _ _ _ _ _ _ (fun j _ hj => by
      have := hc j (by omega)
      simp only [hdst, mul_one]
      exact fun e => this e.symm)

/-- What an earlier call left in the columns does not matter: the model of the check may start from
the same columns every time. -/
theorem fkSub_again {t : String} {fr rest : List (Frame Body)} {sub : Sub} {q q' : Nat → ℝ}
    (h : Indexed g st) (ht : IsPath (find g.map) t (fr ++ rest)) (hch : IsChain g t rest sub)
    (junk junk' : Nat → ℝ) (abs : List Qutr) (E : Qutr) (hl : abs.length = frameCount g)
    (hE : BaseCol g abs fr E) :
    ∃ fk fk', fkSub g sub junk q abs = some fk ∧ fkSub g sub junk' q' abs = some fk' ∧
      fkSub g sub junk' q' fk = some fk' := by
  obtain ⟨qa, fk, a1, a2, a3, -, a5, -⟩ := fkSub_chain (q := q) h ht hch junk junk abs E hl hE
  obtain ⟨qb, fk', b1, b2, b3, b4, b5, -⟩ := fkSub_chain (q := q') h ht hch junk' junk abs E hl hE
  have hE' : BaseCol g fk fr E := by
    rcases hE with hE | ⟨l, f, rfl, h1⟩
    · exact Or.inl hE
    · refine Or.inr ⟨l, f, rfl, ?_⟩
      rw [a5 _ (fun f' hf' he => ?_), h1]
      obtain rfl := id_inj h (ht.mem f' (by simp [hf'])) (ht.mem f (by simp)) he
      obtain ⟨l1, l2, rfl⟩ := List.append_of_mem hf'
      have p1 := ht.prefix
      have p2 : l ++ [f'] ++ (l1 ++ f' :: l2) = (l ++ [f'] ++ l1) ++ [f'] ++ l2 := by simp
      rw [p2] at ht
      have := congrArg List.length (p1.unique ht.prefix)
      simp at this
  obtain ⟨qc, fk2, c1, c2, c3, c4, c5, -⟩ := fkSub_chain (q := q') h ht hch junk' junk fk E a3 hE'
  refine ⟨fk, fk', a2, b2, ?_⟩
  rw [c2]
  congr 1
  rw [b1] at c1
  obtain rfl := Option.some.inj c1
  apply List.ext_getElem?
  intro j
  by_cases hj : ∃ f ∈ rest, (frameId g f.name).toNat = j
  · obtain ⟨f, hf, rfl⟩ := hj
    obtain ⟨k, hk, rfl⟩ := List.mem_iff_getElem.1 hf
    rw [c4 k _ (List.getElem?_eq_getElem hk), b4 k _ (List.getElem?_eq_getElem hk)]
  · push Not at hj
    rw [c5 j hj, b5 j hj, a5 j hj]

end

/-- The pose of a vector that `s_check` accepts. -/
theorem pose_of_check (os : List (Op Body)) (g g' : Graph Body) (hr : run create os = some g)
    (hf : Forest (contents os)) (he : contents os "" = none)
    (hi : index g = some (Status.ok, g')) (t : String) (fr rest : List (Frame Body))
    (ht : IsPath (contents os) t (fr ++ rest)) (hb : ∀ f ∈ fr ++ rest, f.body.Built)
    (hsh : ∀ f ∈ fr, ∀ f' ∈ rest, f.IsJoint → f'.IsJoint → f.config ≠ f'.config)
    (sub : Sub) (hch : IsChain g' t rest sub) (qStart : Nat → ℝ) (fk0 : List Qutr)
    (hfk0 : fkAll g' qStart 1 = some fk0) (p : Parm) (junk : Nat → ℝ)
    (k : Nat) (tip : Frame Body) (htip : rest[k]? = some tip) (Eref : Qutr) (hEref : Eref.Valid)
    (q : Nat → ℝ) (fk : List Qutr) (E : Qutr) (h1 : fkSub g' sub junk q fk0 = some fk)
    (h2 : parentCol fk (frameId g' tip.name) = some E) (h3 : (err2 E Eref).1 < p.tolAngle)
    (h4 : (err2 E Eref).2 < p.tolTrans) :
    ∃ qAll, scatterLoop sub q 1 1 sub.configCount 0 qStart = some qAll ∧
      rotAngle (pathTf g' qAll (fr ++ rest.take (k + 1))) Eref < 2 * p.tolAngle ∧
      transDist (pathTf g' qAll (fr ++ rest.take (k + 1))) Eref < p.tolTrans := by
  obtain ⟨-, fk0', c1, c2, c3⟩ := C50_fk_partial os g g' hr hf he hi qStart
  rw [hfk0] at c1
  obtain rfl := Option.some.inj c1
  obtain ⟨st, hs, hc⟩ := indexed_of os g g' hr hf he hi
  rw [← hc] at ht
  have hE : BaseCol g' fk0 fr (pathTf g' qStart fr) := by
    rcases List.eq_nil_or_concat' fr with rfl | ⟨l, f0, rfl⟩
    · exact Or.inl ⟨rfl, rfl⟩
    · refine Or.inr ⟨l, f0, rfl, ?_⟩
      have h1 := ht.prefix
      have h2 : contents os f0.name = some f0 := by
        rw [← hc]; exact find_eq hs.nodup (h1.mem f0 (by simp))
      obtain ⟨fs, h3, h4⟩ := c3 f0.name f0 h2
      rw [← hc] at h3
      rw [h4, h3.unique h1]
  obtain ⟨qa, fk', a1, a2, -, a4, -, a6⟩ := fkSub_chain (q := q) hs ht hch junk qStart fk0 _ c2 hE
  rw [h1] at a2
  obtain rfl := Option.some.inj a2
  have hm := ht.mem tip (List.mem_append_right fr (List.mem_of_getElem? htip))
  have hid := (id_lt hs hm).1
  rw [parentCol, if_neg (by omega), a4 k tip htip] at h2
  have hpath : pathTf g' qa (fr ++ rest.take (k + 1)) = E := by
    rw [pathTf_eq, chainTf_append, ← Option.some.inj h2]
    congr 1
    rw [pathTf_eq]
    apply chainTf_congr
    intro f' hf' hj
    unfold confVal
    apply a6
    intro j hj' hcc
    obtain ⟨f'', g1, g2, g3, g4⟩ := (chain_config hs ht hch).1 j hj'
    obtain ⟨i1, e1, k1, rfl, -⟩ := hs.exists_entry (ht.mem f' (List.mem_append_left rest hf'))
    have hmap : g.map ≠ [] := by
      intro h0
      have := ht.mem tip (List.mem_append_right fr (List.mem_of_getElem? htip))
      have h5 := find_eq hs.nodup this
      rw [hc] at h5
      have := (contents_name hr h5).2
      rw [h0] at this
      simp at this
    obtain ⟨n, -, n2, -, -, n3, -⟩ := C49_configs_partial os g g' hr hf he (Or.inr hmap) hi
    have u1 : UsesConfig (contents os) e1.frame.config := by
      refine ⟨e1.frame.name, e1.frame, ?_, hj, rfl⟩
      rw [← hc]
      exact find_eq hs.nodup (ht.mem _ (List.mem_append_left rest hf'))
    have u2 : UsesConfig (contents os) f''.config := by
      refine ⟨f''.name, f'', ?_, g2, rfl⟩
      rw [← hc]
      exact find_eq hs.nodup (ht.mem _ (List.mem_append_right fr g1))
    have b1 := (n2 _ u1).1
    rw [g3] at hcc g4
    exact hsh _ hf' _ g1 hj g2 (n3 _ _ u1 (by omega))
  have hv : E.Valid := by
    rw [← hpath]
    apply pathTf_valid
    intro f' hf'
    apply hb
    rcases List.mem_append.1 hf' with h5 | h5
    · exact List.mem_append_left _ h5
    · exact List.mem_append_right _ (List.mem_of_mem_take h5)
  rw [err2_eq hv hEref] at h3 h4
  refine ⟨qa, a1, ?_, ?_⟩
  · rw [hpath]; simp only at h3; linarith
  · rw [hpath]; exact h4

/-- **C43**, pose: for the chain to a tip (`rest` are the frames after the chain's root), a unit
target and joints as the constructors make them, whatever the seed, the restarts, the limits and the
system being integrated: the pose that a successful result gives a frame of the chain, in the
configuration that has the result on the chain and the start elsewhere, is within `tol_trans` of
the target and turned from it by less than *twice* `tol_angle`.  Missing: the factor two
(`C43_violates_angle`) and configurations shared between the chain and the frames above it
(`C43_violates_shared`). -/
theorem C43_pose_partial (os : List (Op Body)) (g g' : Graph Body) (hr : run create os = some g)
    (hf : Forest (contents os)) (he : contents os "" = none)
    (hi : index g = some (Status.ok, g')) (t : String) (fr rest : List (Frame Body))
    (ht : IsPath (contents os) t (fr ++ rest)) (hb : ∀ f ∈ fr ++ rest, f.body.Built)
    (hsh : ∀ f ∈ fr, ∀ f' ∈ rest, f.IsJoint → f'.IsJoint → f.config ≠ f'.config)
    (sub : Sub) (hch : IsChain g' t rest sub) (qStart : Nat → ℝ) (fk0 : List Qutr)
    (hfk0 : fkAll g' qStart 1 = some fk0) (lim : Limits) (p : Parm) (junk : Nat → ℝ)
    (k : Nat) (tip : Frame Body) (htip : rest[k]? = some tip) (f : (Nat → ℝ) → (Nat → ℝ))
    (fuel rows cols qLen : Nat) (Eref : Qutr) (hEref : Eref.Valid) (seed q0 q : Nat → ℝ)
    (seeds : List (Nat → ℝ))
    (h : ikSolve g' sub lim p fk0 junk (frameId g' tip.name) f fuel rows cols Eref qLen seed seeds q0
      = some (0, q)) :
    ∃ qAll, scatterLoop sub q 1 1 sub.configCount 0 qStart = some qAll ∧
      rotAngle (pathTf g' qAll (fr ++ rest.take (k + 1))) Eref < 2 * p.tolAngle ∧
      transDist (pathTf g' qAll (fr ++ rest.take (k + 1))) Eref < p.tolTrans := by
  obtain ⟨x, fk, E, -, h1, h2, h3, h4⟩ := ikSolve_ok h
  exact pose_of_check os g g' hr hf he hi t fr rest ht hb hsh sub hch qStart fk0 hfk0 p junk k tip
    htip Eref hEref q fk E h1 h2 h3 h4

/-! ## Concrete cases -/

theorem rkbs23_rest {E : Type} [AddCommGroup E] [Module ℝ E] {f : E → E} {x0 : E} (h : f x0 = 0)
    (t dt : ℝ) : (Ode.rkbs23 (fun _ => f) t dt x0 (fun _ => 0)).lo = x0 ∧
      (Ode.rkbs23 (fun _ => f) t dt x0 (fun _ => 0)).hi = x0 ∧
      (Ode.rkbs23 (fun _ => f) t dt x0 (fun _ => 0)).k 3 = 0 := by
  have e1 : Function.update (fun _ : Nat => (0 : E)) 1 (f (x0 + (dt / 2) • 0)) = fun _ => 0 := by
    rw [smul_zero, add_zero, h]; simp
  have e2 : Function.update (fun _ : Nat => (0 : E)) 2 (f (x0 + (3 * dt / 4) • 0)) = fun _ => 0 := by
    rw [smul_zero, add_zero, h]; simp
  have e3 : ∀ n l, Ode.gemv dt (fun _ : Nat => (0 : E)) n l x0 = x0 := by
    intro n l; simp [Ode.gemv]
  have e4 : Function.update (fun _ : Nat => (0 : E)) 3 (f x0) = fun _ => 0 := by
    rw [h]; simp
  unfold Ode.rkbs23
  simp only [Ode.butcher, Ode.butcherX, e1, e2, e3, e4, and_self]

/-- From a seed at which the system rests, the solver presents the seed to the check. -/
theorem ikJpinv_rest {s : Sub} {p : Parm} {f : (Nat → ℝ) → (Nat → ℝ)}
    {check : Ode.Check (Option Nat) (Nat → ℝ)} {it it' : Nat} {x0 x : Nat → ℝ}
    (hf : f x0 = 0) (ht : 0 ≤ p.tolDq) (hc : check (some it) 0 x0 0 = (1, x, 0, some it')) (n : Nat) :
    ikJpinv s p f check (n + 1) it x0 = some (0, x, it') := by
  have e : (fun _ : Nat => f x0) = fun _ => 0 := by rw [hf]
  obtain ⟨h1, h2, h3⟩ := rkbs23_rest hf 0 p.dt
  have hs : ssd s.configCount x0 x0 = 0 := by simp [ssd]
  unfold ikJpinv Ode.odeSol
  simp only [Ode.adaptLoop, e, h1, h2, hs]
  rw [if_neg (by linarith), show 4 - 1 = 3 from rfl, h3, hc]
  simp [Ode.code]

/-- The chain from the sliding frame `a` to its turning child `b` in `fkGraph`. -/
def abChain : Sub := ⟨1, Function.update (fun _ => 0) 0 1, 1, Function.update (fun _ => 0) 0 1, some [1]⟩

theorem abChain_create :
    chainCreate fkGraph (frameId fkGraph "a") (frameId fkGraph "b") 3 (fun _ => 0) (fun _ => 0) =
      some abChain := by rfl

/-- The transforms in the start configuration zero. -/
noncomputable def abFk : List Qutr :=
  [⟨qident, ⟨0, 0, 0⟩⟩, ⟨qident, ⟨1, 0, 0⟩⟩, ⟨qident, ⟨0, 0, 0⟩⟩]

theorem slide_rel (x : ℝ) : tfRel Kind.prismatic slide x = ⟨qident, ⟨x, 0, 0⟩⟩ := by
  simp [tfRel, slide, mkBody, qutrMul, qmul, qident, qutrTf]

theorem turn_rel (x : ℝ) : tfRel Kind.revolute turn x =
    ⟨⟨0, 0, Real.sin (x / 2), Real.cos (x / 2)⟩, ⟨1, 0, 0⟩⟩ := by
  simp [tfRel, turn, mkBody, qmul, qident, axang2quat]

theorem abFk_eq : fkAll fkGraph (fun _ => 0) 1 = some abFk := by
  have h : fkAll fkGraph (fun _ => 0) 1 = some [tfRel Kind.prismatic slide 0,
      qutrMul (tfRel Kind.prismatic slide 0) (tfRel Kind.revolute turn 0),
      tfRel Kind.prismatic slide 0] := by rfl
  rw [h, slide_rel, turn_rel, abFk]
  simp [qutrMul, qmul, qident, qutrTf]

theorem abSub (junk q : Nat → ℝ) : fkSub fkGraph abChain junk q abFk = some
    [⟨qident, ⟨0, 0, 0⟩⟩, ⟨⟨0, 0, Real.sin (q 0 / 2), Real.cos (q 0 / 2)⟩, ⟨1, 0, 0⟩⟩,
      ⟨qident, ⟨0, 0, 0⟩⟩] := by
  have h : fkSub fkGraph abChain junk q abFk = some [⟨qident, ⟨0, 0, 0⟩⟩,
      qutrMul ⟨qident, ⟨0, 0, 0⟩⟩ (tfRel Kind.revolute turn (q 0)), ⟨qident, ⟨0, 0, 0⟩⟩] := by rfl
  rw [h, turn_rel]
  simp [qutrMul, qmul, qident, qutrTf]

/-- A turn by `u` about z, a unit along x. -/
noncomputable def turned (u : ℝ) : Qutr := ⟨⟨0, 0, Real.sin (u / 2), Real.cos (u / 2)⟩, ⟨1, 0, 0⟩⟩

theorem turned_valid (u : ℝ) : (turned u).Valid := by
  show Tf.Unit _
  simp only [Tf.Unit, turned]
  linarith [Real.sin_sq_add_cos_sq (u / 2)]

theorem turned_angle {u : ℝ} (h0 : 0 ≤ u) (h1 : u ≤ Real.pi) :
    rotAngle (turned 0) (turned u) = u ∧ transDist (turned 0) (turned u) = 0 := by
  constructor
  · unfold rotAngle
    rw [trace_eq (turned_valid 0) (turned_valid u)]
    have : (4 * ((turned 0).q.x * (turned u).q.x + (turned 0).q.y * (turned u).q.y +
        (turned 0).q.z * (turned u).q.z + (turned 0).q.w * (turned u).q.w) ^ 2 - 1 - 1) / 2 =
        Real.cos u := by
      have := Real.cos_two_mul (u / 2)
      rw [show 2 * (u / 2) = u by ring] at this
      rw [this]
      simp [turned]
      ring
    rw [this, Real.arccos_cos h0 h1]
  · simp [transDist, turned, vnorm, vdot]

/-- Options with all gains zero and all tolerances one. -/
noncomputable def loose : Parm := ⟨1, 1, 1, 1, 10, 0, 0, none, fun _ => 0⟩

/-- **C43 fails** for `tol_angle`: `aa_tf_qangle` is half the angle of the rotation.  With
`tol_angle = 1` the solver accepts a pose that is turned by 1.5 from the target, for every
pseudo-inverse. -/
theorem C43_violates_angle (Jstar N : List Qutr → Nat → Nat → ℝ) (junk q0 : Nat → ℝ) :
    ∃ q, ikSolve fkGraph abChain (fun _ => none) loose abFk junk 1
        (fun x => (kinSys fkGraph abChain loose abFk junk 1 (turned (3 / 2)) Jstar N x).getD 0)
        1 7 1 (turned (3 / 2)) 1 (fun _ => 0) [] q0 = some (0, q) ∧
      (kinSys fkGraph abChain loose abFk junk 1 (turned (3 / 2)) Jstar N (fun _ => 0)).isSome ∧
      ∃ E, fkSub fkGraph abChain junk q abFk = some E ∧ E[1]? = some (turned 0) ∧
        loose.tolAngle < rotAngle (turned 0) (turned (3 / 2)) := by
  have hpi : (3 / 2 : ℝ) ≤ Real.pi := by linarith [Real.pi_gt_three]
  obtain ⟨ha, hd⟩ := turned_angle (by norm_num) hpi
  have hfk : fkSub fkGraph abChain junk (fun _ => 0) abFk =
      some [⟨qident, ⟨0, 0, 0⟩⟩, turned 0, ⟨qident, ⟨0, 0, 0⟩⟩] := abSub junk _
  have hsys : ∀ x, (kinSys fkGraph abChain loose abFk junk 1 (turned (3 / 2)) Jstar N x).getD 0 =
      0 := by
    intro x
    unfold kinSys
    rw [abSub]
    simp only [parentCol]
    rw [if_neg (by decide)]
    simp only [Int.toNat_one, List.getElem?_cons_succ, List.getElem?_cons_zero, loose]
    unfold wkDxPos
    simp only [zero_mul, sub_zero]
    cases qutrLnv _ with
    | none => rfl
    | some w => funext i; simp [row6]
  have hpos : clampAll abChain (fun _ => none) (fun _ => 0) = fun _ => (0 : ℝ) := by
    funext i
    unfold clampAll clampAt
    split_ifs
    · cases cidx abChain i <;> rfl
    · rfl
  refine ⟨fun _ => 0, ?_, ?_, _, hfk, rfl, ?_⟩
  · unfold ikSolve
    rw [if_neg (by simp [abChain]), if_neg (by simp)]
    rw [ikLoop, ikJpinv_rest (f := fun x => (kinSys fkGraph abChain loose abFk junk 1
      (turned (3 / 2)) Jstar N x).getD 0) (p := loose) (x0 := fun _ => 0) (it' := 1)
      (x := fun _ => 0) (hsys _) (by simp [loose])]
    · rfl
    · unfold kinCheck
      simp only [hpos, hfk, parentCol]
      rw [if_neg (by decide)]
      simp only [Int.toNat_one, List.getElem?_cons_succ, List.getElem?_cons_zero]
      rw [err2_eq (turned_valid 0) (turned_valid _), ha, hd]
      rw [if_pos]
      refine ⟨?_, ?_, ?_⟩
      · simp only [loose]; norm_num
      · simp [loose]
      · simp [sqNorm, loose]
  · unfold kinSys
    rw [hfk]
    simp only [parentCol]
    rw [if_neg (by decide)]
    simp only [Int.toNat_one, List.getElem?_cons_succ, List.getElem?_cons_zero, Option.isSome_map,
      wkDxPos, qutrLnv]
    have hs : 0 < Real.sin (3 / 2 / 2) :=
      Real.sin_pos_of_pos_of_lt_pi (by norm_num) (by linarith)
    have hc : 0 < Real.cos (3 / 2 / 2) :=
      Real.cos_pos_of_mem_Ioo ⟨by linarith, by linarith [Real.pi_gt_three]⟩
    have hq : qminimize (qutrMulc (turned 0) (turned (3 / 2))).q =
        ⟨0, 0, -Real.sin (3 / 2 / 2), Real.cos (3 / 2 / 2)⟩ := by
      simp only [qutrMulc, qutrMul, qutrConj, turned, qmul, qconj, qminimize]
      simp [hc.le]
    rw [hq]
    unfold qvLnvCoef
    simp only
    split_ifs with h1 h2
    · rfl
    · exfalso
      simp [vnorm, vdot, Quat.vec] at h2
      rw [Real.sqrt_mul_self hs.le] at h2
      exact hs.ne' h2
    · rfl
  · rw [ha]; simp only [loose]; norm_num

/-- The chain from `a` to `b` in `shareGraph` (two sliding frames sharing a configuration). -/
def shChain : Sub := ⟨1, Function.update (fun _ => 0) 0 1, 1, Function.update (fun _ => 0) 0 0, some [1]⟩

theorem shChain_create :
    chainCreate shareGraph (frameId shareGraph "a") (frameId shareGraph "b") 3 (fun _ => 0) (fun _ => 0) =
      some shChain := by rfl

/-- A pose on the x axis. -/
def slid (x : ℝ) : Qutr := ⟨qident, ⟨x, 0, 0⟩⟩

theorem slid_mul (x y : ℝ) : qutrMul (slid x) (slid y) = slid (x + y) := by
  simp [slid, qutrMul, qmul, qident, qutrTf, add_comm]

theorem slid_lnv : qutrLnv (slid 0) = some ⟨⟨0, 0, 0⟩, ⟨0, 0, 0⟩⟩ := by
  have h : atan2 (vnorm (slid 0).q.vec) (slid 0).q.w = 0 := by
    have : (⟨(slid 0).q.w, vnorm (slid 0).q.vec⟩ : ℂ) = 1 := by
      apply Complex.ext <;> simp [slid, qident, vnorm, vdot, Quat.vec]
    rw [atan2, this, Complex.arg_one]
  have hpos : (0 : ℝ) < Real.sqrt dblEpsilon := Real.sqrt_pos.2 (by norm_num [dblEpsilon])
  unfold qutrLnv qvLnvCoef
  simp only [h]
  rw [if_pos hpos]
  simp [slid, qident, Quat.vec, vscal, cross, vdot]

/-- **C43 fails** for configurations shared with a frame above the chain: only the frames of the
chain are updated, so the error is that of a pose the robot cannot take.  Here the target is 5 along
x, the solver returns the configuration 5, and the pose in it is 10 along x.  The gains are one and
the pseudo-inverse is arbitrary. -/
theorem C43_violates_shared (Jstar N : List Qutr → Nat → Nat → ℝ) (junk q0 : Nat → ℝ) :
    let p : Parm := ⟨1, 1, 1, 1, 10, 1, 1, none, fun _ => 0⟩
    ∃ fk0, fkAll shareGraph (fun _ => 0) 1 = some fk0 ∧
    ∃ q, ikSolve shareGraph shChain (fun _ => none) p fk0 junk 1
        (fun x => (kinSys shareGraph shChain p fk0 junk 1 (slid 5) Jstar N x).getD 0)
        1 7 1 (slid 5) 1 (fun _ => 5) [] q0 = some (0, q) ∧
      kinSys shareGraph shChain p fk0 junk 1 (slid 5) Jstar N (fun _ => 5) = some 0 ∧
      ∃ qAll abs, scatterLoop shChain q 1 1 1 0 (fun _ => 0) = some qAll ∧
        fkAll shareGraph qAll 1 = some abs ∧ abs[1]? = some (slid 10) ∧
        p.tolTrans < transDist (slid 10) (slid 5) := by
  intro p
  have hslide : ∀ x, tfRel Kind.prismatic slide x = slid x := slide_rel
  have hall : ∀ q : Nat → ℝ, fkAll shareGraph q 1 = some [slid (q 0), slid (q 0 + q 0)] := by
    intro q
    have h : fkAll shareGraph q 1 = some [tfRel Kind.prismatic slide (q 0),
      qutrMul (tfRel Kind.prismatic slide (q 0)) (tfRel Kind.prismatic slide (q 0))] := by rfl
    rw [h, hslide, slid_mul]
  have hsub : ∀ q : Nat → ℝ, fkSub shareGraph shChain junk q [slid 0, slid (0 + 0)] =
      some [slid 0, slid (q 0)] := by
    intro q
    have h : fkSub shareGraph shChain junk q [slid 0, slid (0 + 0)] =
      some [slid 0, qutrMul (slid 0) (tfRel Kind.prismatic slide (q 0))] := by rfl
    rw [h, hslide, slid_mul, zero_add]
  have hv : ∀ x, (slid x).Valid := by
    intro x
    show Tf.Unit _
    simp [Tf.Unit, slid, qident]
  have herr : err2 (slid 5) (slid 5) = (0, 0) := by
    rw [err2_eq (hv 5) (hv 5)]
    unfold rotAngle transDist
    rw [trace_eq (hv 5) (hv 5)]
    simp only [slid, qident, vnorm, vdot]
    norm_num
  have hrest : kinSys shareGraph shChain p [slid 0, slid (0 + 0)] junk 1 (slid 5) Jstar N (fun _ => 5) =
      some 0 := by
    unfold kinSys
    rw [hsub]
    simp only [parentCol]
    rw [if_neg (by decide)]
    simp only [Int.toNat_one, List.getElem?_cons_succ, List.getElem?_cons_zero]
    have hm : qutrMulc (slid 5) (slid 5) = slid 0 := by
      simp [qutrMulc, qutrMul, qutrConj, slid, qmul, qconj, qident, qutrTf, qrot, vneg]
    have hmin : (⟨qminimize (slid 0).q, (slid 0).v⟩ : Qutr) = slid 0 := by
      simp [qminimize, slid, qident]
    unfold wkDxPos
    simp only [hm, hmin, slid_lnv, Option.map_some]
    congr 1
    funext i
    simp [row6, twist2vel, crossA, p]
  have hpos : clampAll shChain (fun _ => none) (fun _ => 5) = fun _ => (5 : ℝ) := by
    funext i
    unfold clampAll clampAt
    split_ifs
    · cases cidx shChain i <;> rfl
    · rfl
  refine ⟨_, hall _, fun _ => 5, ?_, hrest, _, _, rfl, hall _, ?_, ?_⟩
  · unfold ikSolve
    rw [if_neg (by simp [shChain]), if_neg (by simp)]
    rw [ikLoop, ikJpinv_rest (it' := 1) (x := fun _ => 5) (by simp only [hrest]; rfl) (by simp [p])]
    · rfl
    · unfold kinCheck
      simp only [hpos, hsub, parentCol]
      rw [if_neg (by decide)]
      simp only [Int.toNat_one, List.getElem?_cons_succ, List.getElem?_cons_zero]
      rw [herr, if_pos]
      refine ⟨?_, ?_, ?_⟩
      · simp [p]
      · simp [p]
      · simp [sqNorm, p]
  · simp only [List.getElem?_cons_succ, List.getElem?_cons_zero, Option.some.injEq]
    congr 1
    show (5 : ℝ) + 5 = 10
    norm_num
  · have : transDist (slid 10) (slid 5) = 5 := by
      simp only [transDist, slid, vnorm, vdot]
      rw [show ((5 : ℝ) - 10) * (5 - 10) + (0 - 0) * (0 - 0) + (0 - 0) * (0 - 0) = 5 ^ 2 by norm_num]
      exact Real.sqrt_sq (by norm_num)
    rw [this]
    simp only [p]
    norm_num

example (Jstar N : List Qutr → Nat → Nat → ℝ) (junk q0 : Nat → ℝ) :
    ∃ qAll : Nat → ℝ,
      rotAngle (pathTf fkGraph qAll [⟨"a", "", Kind.prismatic, "qa", slide⟩,
        ⟨"b", "a", Kind.revolute, "qb", turn⟩]) (turned (3 / 2)) < 2 * 1 := by
  obtain ⟨g, h1, h2, h3, h4⟩ := fkOps_ok
  obtain ⟨q, hq, -⟩ := C43_violates_angle Jstar N junk q0
  have hch : IsChain fkGraph "b" [⟨"b", "a", Kind.revolute, "qb", turn⟩] abChain := by
    refine ⟨rfl, ?_, rfl, ?_, rfl⟩
    · intro i f hf
      cases i with
      | zero => simp at hf; subst hf; rfl
      | succ i => simp at hf
    · intro i f hf
      rw [show List.filter (fun f : Frame Body => decide (f.kind ≠ Kind.fixed))
        [⟨"b", "a", Kind.revolute, "qb", turn⟩] = [⟨"b", "a", Kind.revolute, "qb", turn⟩] from rfl] at hf
      cases i with
      | zero => simp at hf; subst hf; rfl
      | succ i => simp at hf
  obtain ⟨qAll, -, h5, -⟩ := C43_pose_partial fkOps g fkGraph h1 h2 h3 h4 "b"
    [⟨"a", "", Kind.prismatic, "qa", slide⟩] [⟨"b", "a", Kind.revolute, "qb", turn⟩] fkOps_path
    (by
      intro f hf
      simp at hf
      rcases hf with rfl | rfl
      · exact fkOps_built "a" _ rfl
      · exact fkOps_built "b" _ rfl)
    (by decide) abChain hch (fun _ => 0) abFk abFk_eq _ loose junk 0 _ rfl _ _ _ _ _ _
    (turned_valid _) _ _ _ _ hq
  exact ⟨qAll, h5⟩

/-- A run whose chain joint has limits (`fun _ => 0` is the system for zero gains): the seed 5 is above the upper limit, the check clamps it and
the result is the limit. -/
theorem C43_clamped (junk q0 : Nat → ℝ) :
    ∃ q, ikSolve fkGraph abChain (fun c => if c = 1 then some (-1, 1) else none) loose abFk junk 1
        (fun _ => 0) 1 7 1 (turned 1) 1 (fun _ => 5) [] q0 = some (0, q) ∧ q 0 = 1 := by
  have hpos : clampAll abChain (fun c => if c = 1 then some (-1, 1) else none) (fun _ => 5) 0 =
      (1 : ℝ) := by
    show Scalar.fclamp (5 : ℝ) (-1) 1 = 1
    norm_num [Scalar.fclamp]
  refine ⟨clampAll abChain (fun c => if c = 1 then some (-1, 1) else none) (fun _ => 5), ?_, hpos⟩
  unfold ikSolve
  rw [if_neg (by simp [abChain]), if_neg (by simp)]
  rw [ikLoop, ikJpinv_rest (f := fun _ => 0) (p := loose) (x0 := fun _ => 5) (it' := 1)
    (x := clampAll abChain (fun c => if c = 1 then some (-1, 1) else none) (fun _ => 5)) rfl
    (by simp [loose])]
  · rfl
  · unfold kinCheck
    simp only [abSub, hpos, parentCol]
    rw [if_neg (by decide)]
    simp only [Int.toNat_one, List.getElem?_cons_succ, List.getElem?_cons_zero]
    have herr : err2 (turned 1) (turned 1) = (0, 0) := by
      rw [err2_eq (turned_valid _) (turned_valid _)]
      unfold rotAngle transDist
      rw [trace_eq (turned_valid _) (turned_valid _)]
      have h1 : (turned 1).q.x * (turned 1).q.x + (turned 1).q.y * (turned 1).q.y +
        (turned 1).q.z * (turned 1).q.z + (turned 1).q.w * (turned 1).q.w = 1 := by
        have : Tf.Unit (turned 1).q := turned_valid 1
        rw [Tf.Unit] at this
        linarith
      rw [h1]
      simp only [turned, vnorm, vdot]
      norm_num
    have herr' : err2 ⟨⟨0, 0, Real.sin (1 / 2), Real.cos (1 / 2)⟩, ⟨1, 0, 0⟩⟩ (turned 1) = (0, 0) :=
      herr
    rw [herr', if_pos]
    refine ⟨?_, ?_, ?_⟩
    · simp [loose]
    · simp [loose]
    · simp [sqNorm, loose]

/-- **C43 fails** for limits whose minimum exceeds the maximum, which nothing rejects: the result
violates one of them. -/
theorem C43_violates_limits (junk q0 : Nat → ℝ) :
    ∃ q, ikSolve fkGraph abChain (fun c => if c = 1 then some (1, 0) else none) loose abFk junk 1
        (fun _ => 0) 1 7 1 (turned 1) 1 (fun _ => 5) [] q0 = some (0, q) ∧ ¬ (1 ≤ q 0 ∧ q 0 ≤ 0) := by
  have hpos : clampAll abChain (fun c => if c = 1 then some (1, 0) else none) (fun _ => 5) 0 =
      (0 : ℝ) := by
    show Scalar.fclamp (5 : ℝ) 1 0 = 0
    norm_num [Scalar.fclamp]
  refine ⟨clampAll abChain (fun c => if c = 1 then some (1, 0) else none) (fun _ => 5), ?_,
    by rw [hpos]; norm_num⟩
  have hpi : (1 : ℝ) ≤ Real.pi := by linarith [Real.pi_gt_three]
  obtain ⟨ha, hd⟩ := turned_angle (by norm_num) hpi
  unfold ikSolve
  rw [if_neg (by simp [abChain]), if_neg (by simp)]
  rw [ikLoop, ikJpinv_rest (f := fun _ => 0) (p := loose) (x0 := fun _ => 5) (it' := 1)
    (x := clampAll abChain (fun c => if c = 1 then some (1, 0) else none) (fun _ => 5)) rfl
    (by simp [loose])]
  · rfl
  · unfold kinCheck
    simp only [abSub, hpos, parentCol]
    rw [if_neg (by decide)]
    simp only [Int.toNat_one, List.getElem?_cons_succ, List.getElem?_cons_zero]
    have herr : err2 ⟨⟨0, 0, Real.sin (0 / 2), Real.cos (0 / 2)⟩, ⟨1, 0, 0⟩⟩ (turned 1) = (1 / 2, 0) := by
      show err2 (turned 0) (turned 1) = _
      rw [err2_eq (turned_valid _) (turned_valid _), ha, hd]
    rw [herr, if_pos]
    refine ⟨?_, ?_, ?_⟩
    · simp only [loose]; norm_num
    · simp [loose]
    · simp [sqNorm, loose]

end Verif.Ik
