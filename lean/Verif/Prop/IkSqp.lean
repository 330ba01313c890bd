import Verif.Model.IkSqp
import Verif.Prop.Ik
import Verif.Prop.SgLimUse

/-!
# C96: successful inverse kinematics by optimization is within tolerance and limits
-/

namespace Verif.Ik

open Verif.Tf Verif.Sg

/-! ## Specification -/

/-- A start between the bounds. -/
def Within (n : Nat) (b : Nat → ℝ × ℝ) (x : Nat → ℝ) : Prop :=
  ∀ i, i < n → (b i).1 ≤ x i ∧ x i ≤ (b i).2

/-- The contract of `nlopt_optimize` on `n` variables: from a start between the bounds it ends between
the bounds; any other start it refuses (`NLOPT_INVALID_ARGS`) and leaves as it is. -/
structure Nlopt (n : Nat) (opt : Nat → (Nat → ℝ × ℝ) → (Nat → ℝ) → (Nat → ℝ)) : Prop where
  stays : ∀ k b x, Within n b x → Within n b (opt k b x)
  refuses : ∀ k b x, ¬ Within n b x → opt k b x = x

/-! ## Success of the solver -/

theorem ikNlopt_ok {g : Graph Body} {s : Sub} {lim : Limits} {p : Parm} {fk0 : List Qutr}
    {junk : Nat → ℝ} {frame : Int} {Eref : Qutr} {big : ℝ}
    {opt : Nat → (Nat → ℝ × ℝ) → (Nat → ℝ) → (Nat → ℝ)} {it it' : Nat} {x q : Nat → ℝ}
    (h : ikNlopt g s lim p fk0 junk frame Eref big opt it x = some (0, q, it')) :
    q = opt it (sqpBounds s lim big) x ∧ ∃ fk E, fkSub g s junk q fk0 = some fk ∧
      parentCol fk frame = some E ∧ (err2 E Eref).1 < p.tolAngle ∧ (err2 E Eref).2 < p.tolTrans := by
  unfold ikNlopt at h
  simp only at h
  split at h
  · simp at h
  · rename_i fk hfk
    split at h
    · simp at h
    · rename_i E hE
      simp only [Option.some.injEq, Prod.mk.injEq] at h
      obtain ⟨h1, rfl, -⟩ := h
      refine ⟨rfl, fk, E, hfk, hE, ?_⟩
      unfold sCheck at h1
      simp only at h1
      split_ifs at h1 with h2
      · exact h2
      · simp [errNoIk] at h1

theorem ikLoop_seed {solve : Nat → (Nat → ℝ) → Option (Int × (Nat → ℝ) × Nat)} :
    ∀ (seeds : List (Nat → ℝ)) (it : Nat) (q0 q : Nat → ℝ), ikLoop solve seeds it q0 = some (0, q) →
      ∃ x ∈ q0 :: seeds, ∃ it0 it1, solve it0 x = some (0, q, it1) := by
  intro seeds
  induction seeds with
  | nil =>
    intro it q0 q h
    simp only [ikLoop, Option.map_eq_some_iff] at h
    obtain ⟨⟨r, q', it'⟩, h1, h2⟩ := h
    simp only [Prod.mk.injEq] at h2
    obtain ⟨rfl, rfl⟩ := h2
    exact ⟨q0, by simp, it, it', h1⟩
  | cons x xs ih =>
    intro it q0 q h
    rw [ikLoop] at h
    cases hs : solve it q0 with
    | none => rw [hs] at h; simp at h
    | some r =>
      obtain ⟨r, q', it'⟩ := r
      rw [hs] at h
      simp only at h
      split_ifs at h with hr
      · obtain ⟨y, hy, h2⟩ := ih it' x q h
        exact ⟨y, List.mem_cons_of_mem _ hy, h2⟩
      · simp only [Option.some.injEq, Prod.mk.injEq] at h
        obtain ⟨rfl, rfl⟩ := h
        exact ⟨q0, by simp, it, it', hs⟩

/-- A successful result is what NLopt made of one of the seeds, and `s_check` accepted it. -/
theorem sqp_ok {g : Graph Body} {s : Sub} {lim : Limits} {p : Parm} {fk0 : List Qutr}
    {junk : Nat → ℝ} {frame : Int} {f : (Nat → ℝ) → (Nat → ℝ)} {fuel rows cols qLen : Nat} {big : ℝ}
    {opt : Nat → (Nat → ℝ × ℝ) → (Nat → ℝ) → (Nat → ℝ)} {Eref : Qutr} {seed q0 q : Nat → ℝ}
    {seeds : List (Nat → ℝ)}
    (h : ikSolveAlgo .sqp g s lim p fk0 junk frame f fuel big opt rows cols Eref qLen seed seeds q0 =
      some (0, q)) :
    ∃ x ∈ seed :: seeds, ∃ k fk E, q = opt k (sqpBounds s lim big) x ∧
      fkSub g s junk q fk0 = some fk ∧ parentCol fk frame = some E ∧
      (err2 E Eref).1 < p.tolAngle ∧ (err2 E Eref).2 < p.tolTrans := by
  unfold ikSolveAlgo at h
  simp only at h
  split_ifs at h with h1 h2
  · simp [errParm] at h
  · simp [errParm] at h
  · obtain ⟨x, hx, k, k', h3⟩ := ikLoop_seed _ _ _ _ h
    obtain ⟨h4, fk, E, h5⟩ := ikNlopt_ok h3
    exact ⟨x, hx, k, fk, E, h4, h5⟩

/-- **C96**, limits: whatever the robot, the target, the tolerances and the optimizer within its
contract, if the seed and the random restarts are within the position limits (the latter always are:
`C81_rand`), then a successful result respects every position limit of the chain.  Missing: a seed
outside of the limits (`C96_violates_limits`). -/
theorem C96_limits_partial (g : Graph Body) (s : Sub) (lim : Limits) (p : Parm) (fk0 : List Qutr)
    (junk : Nat → ℝ) (frame : Int) (f : (Nat → ℝ) → (Nat → ℝ)) (fuel rows cols qLen : Nat) (big : ℝ)
    (opt : Nat → (Nat → ℝ × ℝ) → (Nat → ℝ) → (Nat → ℝ)) (hopt : Nlopt s.configCount opt)
    (Eref : Qutr) (seed q0 q : Nat → ℝ) (seeds : List (Nat → ℝ))
    (hseeds : ∀ x ∈ seed :: seeds, ∀ i, i < s.configCount → Allowed (lim (s.configs i).toNat) (x i))
    (h : ikSolveAlgo .sqp g s lim p fk0 junk frame f fuel big opt rows cols Eref qLen seed seeds q0 =
      some (0, q)) (i : Nat) (hi : i < s.configCount) : Allowed (lim (s.configs i).toNat) (q i) := by
  obtain ⟨x, hx, k, fk, E, rfl, h1, -⟩ := sqp_ok h
  by_cases hw : Within s.configCount (sqpBounds s lim big) x
  · intro lo hi' hl
    have hc : 0 ≤ s.configs i := by
      by_contra hneg
      rw [fkSub, scatter_none s _ _ hneg s.configCount 0 junk (by omega) (by omega)] at h1
      simp at h1
    have := hopt.stays k _ x hw i hi
    rw [sqpBounds, cidx, if_pos hc] at this
    simpa only [hl] using this
  · rw [hopt.refuses k _ x hw]
    exact hseeds x hx i hi

/-- **C96**, search: the box that the optimizer gets holds exactly the values that the limits allow, up
to the range `big` of the numbers; an element without a configuration is not restricted. -/
theorem C96_box (s : Sub) (lim : Limits) (big : ℝ) (i : Nat) (v : ℝ) (hv : -big ≤ v ∧ v ≤ big) :
    ((sqpBounds s lim big i).1 ≤ v ∧ v ≤ (sqpBounds s lim big i).2) ↔
      (0 ≤ s.configs i → Allowed (lim (s.configs i).toNat) v) := by
  unfold sqpBounds cidx
  by_cases hc : 0 ≤ s.configs i
  · rw [if_pos hc]
    cases hl : lim (s.configs i).toNat with
    | none => simpa [Allowed, hl] using hv
    | some b =>
      simp only [Allowed, hc, hl, Option.some.injEq, forall_const]
      exact ⟨fun h lo hi e => by subst e; exact h, fun h => h b.1 b.2 rfl⟩
  · rw [if_neg hc]
    simp [hc, hv]

/-- **C96**, pose: for the chain to a tip (`rest` are the frames after the chain's root), a unit
target and joints as the constructors make them, whatever the seed, the restarts, the limits and the
optimizer (no contract is needed): the pose that a successful result gives a frame of the chain, in
the configuration that has the result on the chain and the start elsewhere, is within `tol_trans` of
the target and turned from it by less than *twice* `tol_angle`.  Missing: the factor two
(`C96_violates_angle`) and configurations shared between the chain and the frames above it. -/
theorem C96_pose_partial (os : List (Op Body)) (g g' : Graph Body) (hr : run create os = some g)
    (hf : Forest (contents os)) (he : contents os "" = none)
    (hi : index g = some (Status.ok, g')) (t : String) (fr rest : List (Frame Body))
    (ht : IsPath (contents os) t (fr ++ rest)) (hb : ∀ f ∈ fr ++ rest, f.body.Built)
    (hsh : ∀ f ∈ fr, ∀ f' ∈ rest, f.IsJoint → f'.IsJoint → f.config ≠ f'.config)
    (sub : Sub) (hch : IsChain g' t rest sub) (qStart : Nat → ℝ) (fk0 : List Qutr)
    (hfk0 : fkAll g' qStart 1 = some fk0) (lim : Limits) (p : Parm) (junk : Nat → ℝ)
    (k : Nat) (tip : Frame Body) (htip : rest[k]? = some tip) (f : (Nat → ℝ) → (Nat → ℝ))
    (fuel rows cols qLen : Nat) (big : ℝ) (opt : Nat → (Nat → ℝ × ℝ) → (Nat → ℝ) → (Nat → ℝ))
    (Eref : Qutr) (hEref : Eref.Valid) (seed q0 q : Nat → ℝ) (seeds : List (Nat → ℝ))
    (h : ikSolveAlgo .sqp g' sub lim p fk0 junk (frameId g' tip.name) f fuel big opt rows cols Eref qLen
      seed seeds q0 = some (0, q)) :
    ∃ qAll, scatterLoop sub q 1 1 sub.configCount 0 qStart = some qAll ∧
      rotAngle (pathTf g' qAll (fr ++ rest.take (k + 1))) Eref < 2 * p.tolAngle ∧
      transDist (pathTf g' qAll (fr ++ rest.take (k + 1))) Eref < p.tolTrans := by
  obtain ⟨x, -, n, fk, E, -, h1, h2, h3, h4⟩ := sqp_ok h
  exact pose_of_check os g g' hr hf he hi t fr rest ht hb hsh sub hch qStart fk0 hfk0 p junk k tip
    htip Eref hEref q fk E h1 h2 h3 h4

/-- **C96**: the result is success only for the implemented algorithms and for a target of one pose
and a vector of the right length. -/
theorem C96_args (a : Algo) (g : Graph Body) (s : Sub) (lim : Limits) (p : Parm) (fk0 : List Qutr)
    (junk : Nat → ℝ) (frame : Int) (f : (Nat → ℝ) → (Nat → ℝ)) (fuel rows cols qLen : Nat) (big : ℝ)
    (opt : Nat → (Nat → ℝ × ℝ) → (Nat → ℝ) → (Nat → ℝ)) (Eref : Qutr) (seed q0 q : Nat → ℝ)
    (seeds : List (Nat → ℝ))
    (h : ikSolveAlgo a g s lim p fk0 junk frame f fuel big opt rows cols Eref qLen seed seeds q0 =
      some (0, q)) : a ≠ .lma ∧ qLen = s.configCount ∧ rows = 7 ∧ cols = 1 := by
  cases a with
  | jpinv =>
    unfold ikSolveAlgo ikSolve at h
    simp only at h
    split_ifs at h with h1 h2
    · simp [errParm] at h
    · simp [errParm] at h
    · exact ⟨by decide, by omega⟩
  | lma =>
    unfold ikSolveAlgo at h
    simp only at h
    split_ifs at h <;> simp [errParm, errNoIk] at h
  | sqp =>
    unfold ikSolveAlgo at h
    simp only at h
    split_ifs at h with h1 h2
    · simp [errParm] at h
    · simp [errParm] at h
    · exact ⟨by decide, by omega⟩

/-! ## Concrete cases -/

/-- An optimizer that does not move satisfies the contract. -/
theorem nlopt_stay (n : Nat) : Nlopt n (fun _ _ x => x) := ⟨fun _ _ _ h => h, fun _ _ _ _ => rfl⟩

/-- A run of the solver on one element, from a seed that the optimizer leaves as it is. -/
theorem ab_run (lim : Limits) (junk q0 : Nat → ℝ) (big u v : ℝ) (f : (Nat → ℝ) → (Nat → ℝ))
    (opt : Nat → (Nat → ℝ × ℝ) → (Nat → ℝ) → (Nat → ℝ))
    (hopt : opt 0 (sqpBounds abChain lim big) (fun _ => v) = fun _ => v)
    (he : (err2 (turned v) (turned u)).1 < 1 ∧ (err2 (turned v) (turned u)).2 < 1) :
    ikSolveAlgo .sqp fkGraph abChain lim loose abFk junk 1 f 0 big opt 7 1 (turned u) 1 (fun _ => v) []
      q0 = some (0, fun _ => v) := by
  unfold ikSolveAlgo
  simp only
  rw [if_neg (by simp [abChain]), if_neg (by simp), ikLoop, ikNlopt]
  simp only [hopt, abSub, parentCol]
  rw [if_neg (by decide)]
  simp only [Int.toNat_one, List.getElem?_cons_succ, List.getElem?_cons_zero]
  have h0 : sCheck loose (turned u) ⟨⟨0, 0, Real.sin (v / 2), Real.cos (v / 2)⟩, ⟨1, 0, 0⟩⟩ = 0 := by
    unfold sCheck
    exact if_pos he
  rw [h0]
  rfl

theorem err2_self (u : ℝ) : err2 (turned u) (turned u) = (0, 0) := by
  rw [err2_eq (turned_valid _) (turned_valid _)]
  unfold rotAngle transDist
  rw [trace_eq (turned_valid _) (turned_valid _)]
  have h1 : (turned u).q.x * (turned u).q.x + (turned u).q.y * (turned u).q.y +
      (turned u).q.z * (turned u).q.z + (turned u).q.w * (turned u).q.w = 1 := by
    have : Tf.Unit (turned u).q := turned_valid u
    rw [Tf.Unit] at this
    linarith
  rw [h1]
  simp only [turned, vnorm, vdot]
  norm_num

/-- **C96 fails** for the limits: NLopt refuses a seed that is outside of the limits, and the code does
not look at its result.  If the seed reaches the target, the solver reports success and returns it.
This happens with every optimizer within its contract. -/
theorem C96_violates_limits (junk q0 : Nat → ℝ) (big : ℝ) (f : (Nat → ℝ) → (Nat → ℝ))
    (opt : Nat → (Nat → ℝ × ℝ) → (Nat → ℝ) → (Nat → ℝ)) (hopt : Nlopt 1 opt) :
    ∃ q, ikSolveAlgo .sqp fkGraph abChain (fun c => if c = 1 then some (-1, 1) else none) loose abFk
        junk 1 f 0 big opt 7 1 (turned 2) 1 (fun _ => 2) [] q0 = some (0, q) ∧
      ¬ Allowed (some (-1, 1)) (q 0) := by
  refine ⟨fun _ => 2, ab_run _ junk q0 big 2 2 f opt (hopt.refuses _ _ _ ?_) ?_, ?_⟩
  · intro h
    have := (h 0 (by norm_num)).2
    have e : sqpBounds abChain (fun c => if c = 1 then some (-1, 1) else none) big 0 = (-1, 1) := rfl
    rw [e] at this
    norm_num at this
  · rw [err2_self]; norm_num
  · intro h
    have := (h (-1) 1 rfl).2
    norm_num at this

/-- **C96 fails** for `tol_angle`, with an optimizer that stays at the seed: `aa_tf_qangle` is half the
angle of the rotation, so with `tol_angle = 1` a pose turned by 1.5 is accepted. -/
theorem C96_violates_angle (junk q0 : Nat → ℝ) (big : ℝ) (f : (Nat → ℝ) → (Nat → ℝ)) :
    Nlopt 1 (fun _ _ x => x) ∧
    ∃ q, ikSolveAlgo .sqp fkGraph abChain (fun _ => none) loose abFk junk 1 f 0 big (fun _ _ x => x) 7 1
        (turned (3 / 2)) 1 (fun _ => 0) [] q0 = some (0, q) ∧
      ∃ E, fkSub fkGraph abChain junk q abFk = some E ∧ E[1]? = some (turned 0) ∧
        loose.tolAngle < rotAngle (turned 0) (turned (3 / 2)) := by
  have hpi : (3 / 2 : ℝ) ≤ Real.pi := by linarith [Real.pi_gt_three]
  obtain ⟨ha, hd⟩ := turned_angle (by norm_num) hpi
  refine ⟨nlopt_stay 1, fun _ => 0, ab_run _ junk q0 big (3 / 2) 0 f (fun _ _ x => x) rfl ?_, _,
    abSub junk _, rfl, ?_⟩
  · rw [err2_eq (turned_valid 0) (turned_valid _), ha, hd]
    norm_num
  · rw [ha]; simp only [loose]; norm_num

/-- The hypotheses of `C96_limits_partial` are met by a chain whose joint has limits. -/
example (junk q0 : Nat → ℝ) : ∃ q, ikSolveAlgo .sqp fkGraph abChain
      (fun c => if c = 1 then some (-1, 1) else none) loose abFk junk 1 id 0 5 (fun _ _ x => x) 7 1
      (turned 1) 1 (fun _ => 1) [] q0 = some (0, q) ∧ Allowed (some (-1, 1)) (q 0) := by
  have h := ab_run (fun c => if c = 1 then some (-1, 1) else none) junk q0 5 1 1 id (fun _ _ x => x) rfl
    (by rw [err2_self]; norm_num)
  refine ⟨_, h, ?_⟩
  refine C96_limits_partial fkGraph abChain _ loose abFk junk 1 id 0 7 1 1 5 _ (nlopt_stay 1) (turned 1)
    _ q0 _ [] ?_ h 0 (by decide)
  intro x hx i hi lo hi' hl
  simp only [List.mem_singleton] at hx
  subst hx
  have : i = 0 := by simp [abChain] at hi; omega
  subst this
  have e : (some (-1, 1) : Option (ℝ × ℝ)) = some (lo, hi') := hl
  simp only [Option.some.injEq, Prod.mk.injEq] at e
  obtain ⟨rfl, rfl⟩ := e
  norm_num

end Verif.Ik
