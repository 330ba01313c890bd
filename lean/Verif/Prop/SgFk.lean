import Verif.Proof.SgKin
import Verif.Prop.SgIndex
import Verif.Prop.SgUpdate
import Verif.Prop.Conv
import Mathlib.Tactic.LinearCombination
import Mathlib.Tactic.NormNum

/-!
# C50: forward kinematics is the product along the path to the root

`IsPath` (Proof/SgKin.lean) is the specification of the path from the root to a frame.
-/

namespace Verif.Sg

open Verif.Tf

/-- What a joint does to a point: the fixed transform of the frame after the motion of the joint. -/
theorem C50_joint (b : Body) (x : ℝ) (p : V3) :
    qutrTf (tfRel Kind.fixed b x) p = qutrTf b.E p ∧
    qutrTf (tfRel Kind.prismatic b x) p =
      qutrTf b.E (vadd p (vscal (x + b.offset) b.axis)) ∧
    (Unit b.E.q → vnorm b.axis = 1 →
      qutrTf (tfRel Kind.revolute b x) p =
        qutrTf b.E (qrot (axang2quat ⟨b.axis, x + b.offset⟩) p) ∧
      (axang2quat ⟨b.axis, x + b.offset⟩).den = (⟨b.axis, x + b.offset⟩ : Axang).den) := by
  refine ⟨rfl, ?_, fun hu ha => ?_⟩
  · simp only [tfRel]
    ext <;> simp [qutrTf, qutrMul, qmul, qident, vadd, vscal] <;> ring
  · obtain ⟨h1, h2⟩ := C30_axang2quat ⟨b.axis, x + b.offset⟩ ha
    refine ⟨?_, h1⟩
    simp only [tfRel]
    rw [qutrTf_eq, qutrTf_eq, C23_compose _ _ _ hu h2]

variable (os : List (Op Body)) (g g' : Graph Body)

theorem indexed_of (hr : run create os = some g) (hf : Forest (contents os))
    (he : contents os "" = none) (hi : index g = some (Status.ok, g')) :
    ∃ s, Indexed g' s ∧ find g'.map = contents os := by
  have hreach := reach_run reach_create hr
  have hne : ∀ f ∈ g.map, f.name ≠ "" := by
    intro f hm h0
    rw [mem_map_iff hr, h0, he] at hm
    simp at hm
  obtain ⟨s, hs, hm, -, -, -⟩ := reach_indexed hreach hi (forest_acyclic hr hf) hne
  exact ⟨s, hs, by rw [hm]; funext n; exact find_run hr n⟩

/-- The product of the relative transforms of the frames of a path. -/
noncomputable def pathTf (g : Graph Body) (q : Nat → ℝ) (fs : List (Frame Body)) : Qutr :=
  (fs.map (fun f => tfRel f.kind f.body (q (configId g f.config).toNat))).foldl qutrMul qutrident

/-- `aa_rx_sg_tf` on the first `n` frames: it is defined, the relative columns are the joint
transforms and the absolute columns the products along the (existing, unique) path. -/
theorem C50_tf_partial (hr : run create os = some g) (hf : Forest (contents os))
    (he : contents os "" = none) (hi : index g = some (Status.ok, g')) (n : Nat) (q : Nat → ℝ) :
    ∃ R A, sgTf g' n q = some (R, A) ∧ R.length = min n (frameCount g') ∧
      A.length = min n (frameCount g') ∧
      ∀ k f, contents os k = some f → frameId g' k < n →
        R[(frameId g' k).toNat]? =
          some (tfRel f.kind f.body (q (configId g' f.config).toNat)) ∧
        ∃ fs, IsPath (contents os) k fs ∧ (∀ fs', IsPath (contents os) k fs' → fs' = fs) ∧
          A[(frameId g' k).toNat]? = some (pathTf g' q fs) := by
  obtain ⟨s, hs, hc⟩ := indexed_of os g g' hr hf he hi
  obtain ⟨R, A, h1, h2, h3, h4⟩ := absLoop_path hs (entryRel q)
    (fun f => tfRel f.kind f.body (confVal g' q f)) qutrMul qutrident
    (fun e he => entryRel_eq hs he q) qutr_one_mul n
  refine ⟨R, A, h1, by rw [h2, hs.count'], by rw [h3, hs.count'], fun k f hk hlt => ?_⟩
  obtain ⟨rfl, hm⟩ := contents_name hr hk
  have hfm : f ∈ g'.map := by rw [← hc, find_iff hs.nodup] at hk; exact hk.1
  obtain ⟨i, e, a1, rfl, a3⟩ := hs.exists_entry hfm
  rw [a3] at hlt ⊢
  obtain ⟨b1, fs, b2, b3⟩ := h4 i e (by omega) a1
  rw [Int.toNat_natCast, ← hc]
  exact ⟨b1, fs, b2, fun fs' h' => h'.unique b2, b3⟩

/-- The absolute transforms of the convenience functions: `aa_rx_sg_fill_tf_abs` for every stride
and `aa_rx_fk_all` for stride 1 give the products along the paths. -/
theorem C50_fk_partial (hr : run create os = some g) (hf : Forest (contents os))
    (he : contents os "" = none) (hi : index g = some (Status.ok, g')) (data : Nat → ℝ) :
    (∀ inc, ∃ A, fillTfAbs g' data inc = some A ∧ A.length = frameCount g' ∧
      ∀ k f, contents os k = some f → ∃ fs, IsPath (contents os) k fs ∧
        A[(frameId g' k).toNat]? = some (pathTf g' (fun i => data (i * inc)) fs)) ∧
    (∃ A, fkAll g' data 1 = some A ∧ A.length = frameCount g' ∧
      ∀ k f, contents os k = some f → ∃ fs, IsPath (contents os) k fs ∧
        A[(frameId g' k).toNat]? = some (pathTf g' data fs)) := by
  have hlt : ∀ k f, contents os k = some f → frameId g' k < frameCount g' := fun k f h =>
    ((C49_order_partial os g g' hr hf he hi).1 k f h).2.1
  have key : ∀ q : Nat → ℝ, ∃ A, (sgTf g' (frameCount g') q).map (·.2) = some A ∧
      A.length = frameCount g' ∧ ∀ k f, contents os k = some f → ∃ fs, IsPath (contents os) k fs ∧
        A[(frameId g' k).toNat]? = some (pathTf g' q fs) := by
    intro q
    obtain ⟨R, A, h1, -, h3, h4⟩ := C50_tf_partial os g g' hr hf he hi (frameCount g') q
    refine ⟨A, by rw [h1]; rfl, by rw [h3, min_self], fun k f hk => ?_⟩
    obtain ⟨-, fs, b1, -, b2⟩ := h4 k f hk (hlt k f hk)
    exact ⟨fs, b1, b2⟩
  refine ⟨fun inc => ?_, ?_⟩
  · unfold fillTfAbs
    have : (if inc ≠ 1 then (fun i => data (i * inc)) else data) = fun i => data (i * inc) := by
      split_ifs with h
      · rfl
      · rw [not_not.1 h]; simp
    simp only [this]
    exact key _
  · obtain ⟨s, hs, -⟩ := indexed_of os g g' hr hf he hi
    have : fkAll g' data 1 = (sgTf g' (frameCount g') data).map (·.2) := by
      unfold fkAll sgTf
      rw [fkLoop_eq g'.frames [] [] hs.root_iff, frameCount, List.take_length]
    rw [this]
    exact key _

/-! ## Concrete cases -/

/-- Two prismatic frames in the root, sliding along x. -/
noncomputable def slide : Body := mkBody qident ⟨0, 0, 0⟩ 0 ⟨1, 0, 0⟩

/-- A turning frame, a unit along x from its parent. -/
noncomputable def turn : Body := mkBody qident ⟨1, 0, 0⟩ 0 ⟨0, 0, 1⟩

/-- A sliding frame `a` with a turning child `b`, and another sliding frame `c`. -/
noncomputable def fkOps : List (Op Body) :=
  [Op.add ⟨"b", "a", Kind.revolute, "qb", turn⟩, Op.add ⟨"a", "", Kind.prismatic, "qa", slide⟩,
   Op.add ⟨"c", "", Kind.prismatic, "qc", slide⟩]

/-- The graph after `fkOps` and `aa_rx_sg_init`. -/
noncomputable def fkGraph : Graph Body :=
  { map := [⟨"a", "", Kind.prismatic, "qa", slide⟩, ⟨"b", "a", Kind.revolute, "qb", turn⟩,
      ⟨"c", "", Kind.prismatic, "qc", slide⟩]
    frames := [some ⟨⟨"a", "", Kind.prismatic, "qa", slide⟩, -1, some 0⟩,
      some ⟨⟨"b", "a", Kind.revolute, "qb", turn⟩, 0, some 1⟩,
      some ⟨⟨"c", "", Kind.prismatic, "qc", slide⟩, -1, some 2⟩]
    configMap := [("qa", 0), ("qb", 1), ("qc", 2)]
    configRmap := ["qa", "qb", "qc"]
    configSize := some 3
    dirty := false }

theorem fkGraph_index : (run create fkOps).bind index = some (Status.ok, fkGraph) := by rfl

/-- A graph whose parents have smaller rank than their children is a forest. -/
theorem forest_of_rank {P : Type} {c : String → Option (Frame P)} (r : String → Nat)
    (h : ∀ p n, IsParent c p n → r p < r n) : Forest c := by
  intro n hn
  have : ∀ p n, Relation.TransGen (IsParent c) p n → r p < r n := by
    intro p n h1
    induction h1 with
    | single h2 => exact h _ _ h2
    | tail _ h2 ih => exact ih.trans (h _ _ h2)
  exact lt_irrefl _ (this n n hn)

/-- The hypotheses of the C50 theorems are met by this graph. -/
theorem fkOps_ok : ∃ g, run create fkOps = some g ∧ Forest (contents fkOps) ∧
    contents fkOps "" = none ∧ index g = some (Status.ok, fkGraph) := by
  have hi := fkGraph_index
  cases hr : run create fkOps with
  | none => rw [hr] at hi; simp at hi
  | some g =>
    rw [hr] at hi
    refine ⟨g, rfl, forest_of_rank (fun n => if n = "b" then 1 else 0) ?_, rfl, hi⟩
    rintro p n ⟨h1, f, h2, rfl⟩
    simp only [contents, fkOps, List.foldl_cons, List.foldl_nil] at h2
    split_ifs at h2 <;> simp_all <;> subst h2 <;> (try simp_all)

example : ∃ R A, sgTf fkGraph 3 (fun i => i) = some (R, A) ∧ R.length = 3 ∧ A.length = 3 := by
  obtain ⟨g, h1, h2, h3, h4⟩ := fkOps_ok
  obtain ⟨R, A, h5, h6, h7, -⟩ := C50_tf_partial _ _ _ h1 h2 h3 h4 3 (fun i => i)
  exact ⟨R, A, h5, h6, h7⟩

/-- C51 is not vacuous: the transforms at `q0` exist, and those at `q` differ from them. -/
example : ∃ rel0 abs0 rel abs, sgTf fkGraph 3 (fun _ => 0) = some (rel0, abs0) ∧
    sgTfUpdate fkGraph 3 (fun _ => 0) (fun i => if i = 0 then 1 else 0) rel0 abs0 =
      some (rel, abs) ∧ abs0 ≠ abs := by
  refine ⟨_, _, _, _, rfl, C51_update fkGraph 3 _ _ _ _ rfl, ?_⟩
  intro h
  have h0 := congrArg (fun l => (l.head?.map (fun E : Qutr => E.v.x))) h
  simp [slide, mkBody, tfRel, qutrMul, qutrTf, qident] at h0

/-- `aa_rx_fk_all` ignores the increment of the configuration vector: with increment 2 the third
frame is placed with element 2 of the memory instead of element 4. -/
theorem C50_violates_fk_stride :
    ∃ A B, fkAll fkGraph (fun i => i) 2 = some A ∧ fillTfAbs fkGraph (fun i => i) 2 = some B ∧
      (A[2]?).map (fun E => E.v.x) = some 2 ∧ (B[2]?).map (fun E => E.v.x) = some 4 := by
  refine ⟨_, _, rfl, rfl, ?_, ?_⟩
  · simp [slide, mkBody, tfRel, qutrMul, qutrTf, qident]
  · simp [slide, mkBody, tfRel, qutrMul, qutrTf, qident]

end Verif.Sg
