import Verif.Prop.Ik

/-!
# C79: checking a solution of the inverse kinematics
-/

namespace Verif.Ik

open Verif.Tf Verif.Sg

/-- **C79**, chains that start at the root of the scene graph: for every indexed scene graph, tip and
unit reference, whatever the freshly allocated memory holds, `aa_rx_ik_check` returns zero exactly
when the pose of the frame in the given configuration is within `tol_trans` of the reference and
turned from it by less than *twice* `tol_angle`, and `AA_RX_NO_SOLUTION|AA_RX_NO_IK` otherwise.
Missing: the factor two (`C79_violates_angle`) and chains that start below another frame
(`C79_violates_base`). -/
theorem C79_root_partial (os : List (Op Body)) (g g' : Graph Body) (hr : run create os = some g)
    (hf : Forest (contents os)) (he : contents os "" = none)
    (hi : index g = some (Status.ok, g')) (t : String) (rest : List (Frame Body))
    (ht : IsPath (contents os) t rest) (hb : ∀ f ∈ rest, f.body.Built)
    (sub : Sub) (hch : IsChain g' t rest sub) (mem : List Qutr)
    (hmem : mem.length = g'.frames.length) (p : Parm) (junk : Nat → ℝ)
    (k : Nat) (tip : Frame Body) (htip : rest[k]? = some tip) (Eref : Qutr) (hEref : Eref.Valid)
    (qStart q : Nat → ℝ) :
    ∃ qAll, scatterLoop sub q 1 1 sub.configCount 0 qStart = some qAll ∧
      ikCheck g' sub p mem junk (frameId g' tip.name) Eref q =
        some (if rotAngle (pathTf g' qAll (rest.take (k + 1))) Eref < 2 * p.tolAngle ∧
          transDist (pathTf g' qAll (rest.take (k + 1))) Eref < p.tolTrans then 0 else 3) := by
  classical
  obtain ⟨st, hs, hc⟩ := indexed_of os g g' hr hf he hi
  rw [← hc] at ht
  obtain ⟨qa, fk', a1, a2, -, a4, -, a6⟩ :=
    fkSub_chain (fr := []) (q := q) hs ht hch junk qStart mem qutrident hmem (Or.inl ⟨rfl, rfl⟩)
  have hm := ht.mem tip (List.mem_of_getElem? htip)
  have hid := (id_lt hs hm).1
  refine ⟨qa, a1, ?_⟩
  have hv : (pathTf g' qa (rest.take (k + 1))).Valid := by
    apply pathTf_valid
    intro f' hf'
    exact hb f' (List.mem_of_mem_take hf')
  unfold ikCheck
  rw [a2]
  simp only [parentCol]
  rw [if_neg (by omega), a4 k tip htip, ← pathTf_eq]
  simp only [err2_eq hv hEref]
  congr 1
  refine if_congr ?_ rfl rfl
  constructor
  · rintro ⟨h1, h2⟩; exact ⟨by linarith, h2⟩
  · rintro ⟨h1, h2⟩; exact ⟨by linarith, h2⟩

/-! ## Counterexamples -/

/-- The columns that `aa_rx_fk_sub` computes for the chain from `a` to `b` when the column of `a`
holds a translation by `x`. -/
theorem abSub_shift (junk q : Nat → ℝ) (x : ℝ) (A B : Qutr) :
    fkSub fkGraph abChain junk q [⟨qident, ⟨x, 0, 0⟩⟩, A, B] = some
      [⟨qident, ⟨x, 0, 0⟩⟩, ⟨⟨0, 0, Real.sin (q 0 / 2), Real.cos (q 0 / 2)⟩, ⟨1 + x, 0, 0⟩⟩, B] := by
  have h : fkSub fkGraph abChain junk q [⟨qident, ⟨x, 0, 0⟩⟩, A, B] = some [⟨qident, ⟨x, 0, 0⟩⟩,
      qutrMul ⟨qident, ⟨x, 0, 0⟩⟩ (tfRel Kind.revolute turn (q 0)), B] := by rfl
  rw [h, turn_rel]
  simp [qutrMul, qmul, qident, qutrTf]

/-- The check of the zero configuration of the chain from `a` to `b`. -/
theorem abCheck (junk : Nat → ℝ) (x u : ℝ) (h0 : 0 ≤ u) (h1 : u ≤ Real.pi) (A B : Qutr) :
    ikCheck fkGraph abChain loose [⟨qident, ⟨x, 0, 0⟩⟩, A, B] junk 1 (turned u) (fun _ => 0) =
      some (if u < 2 ∧ |x| < 1 then 0 else 3) := by
  have hv : (⟨⟨0, 0, Real.sin (0 / 2), Real.cos (0 / 2)⟩, ⟨1 + x, 0, 0⟩⟩ : Qutr).Valid :=
    turned_valid 0
  have ha : rotAngle ⟨⟨0, 0, Real.sin (0 / 2), Real.cos (0 / 2)⟩, ⟨1 + x, 0, 0⟩⟩ (turned u) = u :=
    (turned_angle h0 h1).1
  have hd : transDist ⟨⟨0, 0, Real.sin (0 / 2), Real.cos (0 / 2)⟩, ⟨1 + x, 0, 0⟩⟩ (turned u) = |x| := by
    simp [transDist, turned, vnorm, vdot, Real.sqrt_mul_self_eq_abs]
  unfold ikCheck
  rw [abSub_shift]
  simp only [parentCol]
  rw [if_neg (by decide)]
  simp only [Int.toNat_one, List.getElem?_cons_succ, List.getElem?_cons_zero,
    err2_eq hv (turned_valid u), ha, hd, loose]
  congr 1
  refine if_congr ?_ rfl rfl
  constructor
  · rintro ⟨h2, h3⟩; exact ⟨by linarith, h3⟩
  · rintro ⟨h2, h3⟩; exact ⟨by linarith, h3⟩

/-- **C79 fails** for `tol_angle`: `aa_tf_qangle` is half the angle of the rotation.  With the
transforms of the start configuration in memory and `tol_angle = 1`, a pose turned by 1.5 from the
reference passes. -/
theorem C79_violates_angle (junk : Nat → ℝ) :
    ikCheck fkGraph abChain loose abFk junk 1 (turned (3 / 2)) (fun _ => 0) = some 0 ∧
      (∃ E, fkSub fkGraph abChain junk (fun _ => 0) abFk = some E ∧ E[1]? = some (turned 0)) ∧
      loose.tolAngle < rotAngle (turned 0) (turned (3 / 2)) := by
  have hpi : (3 / 2 : ℝ) ≤ Real.pi := by linarith [Real.pi_gt_three]
  refine ⟨?_, ⟨_, abSub junk _, rfl⟩, ?_⟩
  · unfold abFk
    rw [abCheck junk 0 _ (by norm_num) hpi]
    norm_num
  · rw [(turned_angle (by norm_num) hpi).1]
    norm_num [loose]

/-- **C79 fails** for a chain that starts below another frame: the column of the frame it starts from
is read from newly allocated memory, and the same call returns zero or an error as the contents of
that memory have it.  The start configuration has no influence. -/
theorem C79_violates_base (junk : Nat → ℝ) :
    chainCreate fkGraph (frameId fkGraph "a") (frameId fkGraph "b") 3 (fun _ => 0) (fun _ => 0) =
        some abChain ∧
      ∃ mem mem' : List Qutr, mem.length = fkGraph.frames.length ∧
        mem'.length = fkGraph.frames.length ∧
        ikCheck fkGraph abChain loose mem junk 1 (turned 0) (fun _ => 0) = some 0 ∧
        ikCheck fkGraph abChain loose mem' junk 1 (turned 0) (fun _ => 0) = some 3 := by
  refine ⟨abChain_create, [⟨qident, ⟨0, 0, 0⟩⟩, qutrident, qutrident],
    [⟨qident, ⟨5, 0, 0⟩⟩, qutrident, qutrident], rfl, rfl, ?_, ?_⟩
  · rw [abCheck junk 0 0 le_rfl Real.pi_pos.le]; norm_num
  · rw [abCheck junk 5 0 le_rfl Real.pi_pos.le]; norm_num

/-- The chain from the root to the sliding frame `a`. -/
def raChain : Sub := ⟨1, fun _ => 0, 1, fun _ => 0, some [0]⟩

example : chainCreate fkGraph frameRoot (frameId fkGraph "a") 3 (fun _ => 0) (fun _ => 0) =
    some raChain := by
  have h : (chainCreate fkGraph frameRoot (frameId fkGraph "a") 3 (fun _ => 0) (fun _ => 0)) =
      some ⟨1, Function.update (fun _ => 0) 0 0, 1, Function.update (fun _ => 0) 0 0, some [0]⟩ := by
    rfl
  rw [h]
  simp [raChain]

/-- The hypotheses of `C79_root_partial` are met; both results occur. -/
example (mem : List Qutr) (hmem : mem.length = 3) (junk : Nat → ℝ) (x : ℝ) :
    ikCheck fkGraph raChain loose mem junk 0 ⟨qident, ⟨0, 0, 0⟩⟩ (fun _ => x) =
      some (if |x| < 1 then 0 else 3) := by
  classical
  obtain ⟨g, h1, h2, h3, h4⟩ := fkOps_ok
  have hch : IsChain fkGraph "a" [⟨"a", "", Kind.prismatic, "qa", slide⟩] raChain := by
    refine ⟨rfl, ?_, rfl, ?_, rfl⟩
    · intro i f hf
      cases i with
      | zero => simp at hf; subst hf; rfl
      | succ i => simp at hf
    · intro i f hf
      rw [show List.filter (fun f : Frame Body => decide (f.kind ≠ Kind.fixed))
        [⟨"a", "", Kind.prismatic, "qa", slide⟩] = [⟨"a", "", Kind.prismatic, "qa", slide⟩] from rfl] at hf
      cases i with
      | zero => simp at hf; subst hf; rfl
      | succ i => simp at hf
  have hv : Qutr.Valid ⟨qident, ⟨0, 0, 0⟩⟩ := by simp [Qutr.Valid, Tf.Unit, qident]
  obtain ⟨qAll, a1, a2⟩ := C79_root_partial fkOps g fkGraph h1 h2 h3 h4 "a"
    [⟨"a", "", Kind.prismatic, "qa", slide⟩] (IsPath.step (fs := []) (by decide) rfl IsPath.root)
    (by
      intro f hf
      simp at hf
      subst hf
      exact fkOps_built "a" _ rfl)
    raChain hch mem hmem loose junk 0 _ rfl ⟨qident, ⟨0, 0, 0⟩⟩ hv (fun _ => 0) (fun _ => x)
  have hq : qAll 0 = x := by
    have : scatterLoop raChain (fun _ => x) 1 1 raChain.configCount 0 (fun _ => 0) =
      some (Function.update (fun _ => 0) 0 x) := rfl
    rw [this] at a1
    rw [← Option.some.inj a1]; simp
  have hp : pathTf fkGraph qAll [⟨"a", "", Kind.prismatic, "qa", slide⟩] =
      ⟨qident, ⟨x, 0, 0⟩⟩ := by
    have : pathTf fkGraph qAll [⟨"a", "", Kind.prismatic, "qa", slide⟩] =
      qutrMul qutrident (tfRel Kind.prismatic slide (qAll 0)) := rfl
    rw [this, slide_rel, hq]
    simp [qutrMul, qutrident, qmul, qident, qutrTf]
  rw [show List.take (0 + 1) [(⟨"a", "", Kind.prismatic, "qa", slide⟩ : Frame Body)] =
    [⟨"a", "", Kind.prismatic, "qa", slide⟩] from rfl, hp] at a2
  have hv' : Qutr.Valid ⟨qident, ⟨x, 0, 0⟩⟩ := by simp [Qutr.Valid, Tf.Unit, qident]
  have ha : rotAngle ⟨qident, ⟨x, 0, 0⟩⟩ ⟨qident, ⟨0, 0, 0⟩⟩ = 0 := by
    unfold rotAngle
    rw [trace_eq hv' hv]
    norm_num [qident]
  have hd : transDist ⟨qident, ⟨x, 0, 0⟩⟩ ⟨qident, ⟨0, 0, 0⟩⟩ = |x| := by
    simp [transDist, vnorm, vdot, Real.sqrt_mul_self_eq_abs]
  rw [ha, hd] at a2
  refine a2.trans ?_
  congr 1
  refine if_congr ?_ rfl rfl
  simp [loose]

end Verif.Ik
