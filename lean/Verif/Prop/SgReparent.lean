import Verif.Prop.SgRep

/-!
# C58: reparenting keeps the world pose
-/

namespace Verif.Sg

open Verif.Tf

/-- Specification: a frame with a new parent and a new fixed transform. -/
def reFrame (f : Frame Body) (np : String) (E1 : Qutr) : Frame Body :=
  { f with parent := np, body := { f.body with E := E1 } }

/-- Specification: the contents after the frame called `n` got a new parent and a new fixed
transform. -/
noncomputable def moved (c : String → Option (Frame Body)) (np n : String) (E1 : Qutr) :
    String → Option (Frame Body) := fun k =>
  if k = n then (c n).map (fun f => reFrame f np E1)
  else c k

/-- Specification: the product of joint transforms, where `x` gives the value of each frame. -/
noncomputable def prod (x : Frame Body → ℝ) (fs : List (Frame Body)) : Qutr :=
  (fs.map (fun f => tfRel f.kind f.body (x f))).foldl qutrMul qutrident

theorem prod_snoc (x : Frame Body → ℝ) (fs : List (Frame Body)) (f : Frame Body) :
    prod x (fs ++ [f]) = qutrMul (prod x fs) (tfRel f.kind f.body (x f)) := by
  simp [prod, List.foldl_append]

theorem prod_valid {c : String → Option (Frame Body)} {n : String} {fs : List (Frame Body)}
    (x : Frame Body → ℝ) (hb : ∀ n f, c n = some f → ∀ y, (tfRel f.kind f.body y).Valid)
    (h : IsPath c n fs) : (prod x fs).Valid := by
  induction h with
  | root => simp [prod, Qutr.Valid, Tf.Unit, qutrident, qident]
  | step _ h2 _ ih => rw [prod_snoc]; exact qutrMul_valid ih (hb _ _ h2 _)

/-- With the joint value opposite to the offset, a joint does not move. -/
theorem tfRel_still {k : Kind} {b : Body} {x : ℝ} (h : k = Kind.fixed ∨ x + b.offset = 0) :
    tfRel k b x = b.E := by
  cases k with
  | fixed => rfl
  | prismatic =>
    have h : x + b.offset = 0 := by rcases h with h | h; cases h; exact h
    rcases b with ⟨⟨⟨a, b, c, d⟩, ⟨e, f, g⟩⟩, R, S, o, ax⟩
    simp only at h
    simp [tfRel, h, qutrMul, qutrTf, qident, qmul]
  | revolute =>
    have h : x + b.offset = 0 := by rcases h with h | h; cases h; exact h
    rcases b with ⟨⟨⟨a, b, c, d⟩, ⟨e, f, g⟩⟩, R, S, o, ax⟩
    simp only at h
    simp [tfRel, h, axang2quat, qmul]

/-- The heart of C58: along every path the product is unchanged. -/
theorem moved_prod {c : String → Option (Frame Body)} {np n0 : String} {f0 : Frame Body}
    {E1 : Qutr} {x x' : Frame Body → ℝ} {fnp f0s : List (Frame Body)}
    (h0 : c n0 = some f0) (hnp : IsPath c np fnp) (hf0 : IsPath c n0 f0s)
    (hE : qutrMul (prod x fnp) E1 = prod x f0s)
    (hx : ∀ n f, c n = some f → n ≠ n0 → tfRel f.kind f.body (x' f) = tfRel f.kind f.body (x f))
    (hstill : f0.kind = Kind.fixed ∨
      x' (reFrame f0 np E1) + f0.body.offset = 0)
    {n : String} {fs' : List (Frame Body)} (h : IsPath (moved c np n0 E1) n fs') :
    ∀ fs, IsPath c n fs → prod x' fs' = prod x fs := by
  induction h with
  | root =>
    intro fs h
    cases h with
    | root => rfl
    | step h _ _ => exact absurd rfl h
  | @step n f1 gs hn hc hp ih =>
    intro fs hfs
    by_cases hnn : n = n0
    · subst hnn
      rw [hfs.unique hf0, prod_snoc, ← hE]
      simp only [moved, if_true, h0, Option.map_some, Option.some.injEq] at hc
      subst hc
      rw [ih fnp hnp, tfRel_still (k := (reFrame f0 np E1).kind) (b := (reFrame f0 np E1).body) hstill]
      rfl
    · simp only [moved, if_neg hnn] at hc
      cases hfs with
      | root => exact absurd rfl hn
      | step _ h4 h5 =>
        rw [hc] at h4
        obtain rfl := Option.some.inj h4
        rw [prod_snoc, prod_snoc, ih _ h5, hx n f1 hc hnn]

variable (os : List (Op Body)) (g g' : Graph Body)

/-- `aa_rx_sg_reparent_name` with the relative transform that `aa_rx_sg_rel_tf` gives at a
configuration: after `aa_rx_sg_init`, at the same configuration (the values are matched by
configuration name, since the numbers may have changed), every frame has the absolute transform
it had before.  For frames that are fixed or whose joint is at its zero position. -/
theorem C58_partial (hr : run create os = some g) (hf : Forest (contents os))
    (he : contents os "" = none) (hi : index g = some (Status.ok, g'))
    (hb : ∀ n f, contents os n = some f → f.body.Built)
    (q : Nat → ℝ) (R A : List Qutr) (hA : sgTf g' (frameCount g') q = some (R, A))
    (np n0 : String) (f0 : Frame Body) (h0 : contents os n0 = some f0)
    (hnp : np = "" ∨ (contents os np).isSome)
    (hstill : f0.kind = Kind.fixed ∨ q (configId g' f0.config).toNat + f0.body.offset = 0)
    (E1 : Qutr) (hE : relTf (frameId g' np) (frameId g' n0) A = some E1)
    (hf' : Forest (moved (contents os) np n0 E1)) (g1 g1' : Graph Body)
    (hrep : reparentName g' np n0 E1 = some g1) (hi1 : index g1 = some (Status.ok, g1'))
    (q' : Nat → ℝ)
    (hq : ∀ k, UsesConfig (contents os) k →
      q' (configId g1' k).toNat = q (configId g' k).toNat) :
    ∃ R' A', sgTf g1' (frameCount g1') q' = some (R', A') ∧
      ∀ n f, contents os n = some f →
        ∃ E, A[(frameId g' n).toNat]? = some E ∧ A'[(frameId g1' n).toNat]? = some E := by
  obtain ⟨s, hs, hc⟩ := indexed_of os g g' hr hf he hi
  obtain ⟨R2, A2, b1, b2, b3, b4⟩ := C50_tf_partial os g g' hr hf he hi (frameCount g') q
  rw [hA] at b1
  obtain ⟨rfl, rfl⟩ : R = R2 ∧ A = A2 := by simpa using b1
  have hlt : ∀ k f, contents os k = some f → 0 ≤ frameId g' k ∧ frameId g' k < frameCount g' :=
    fun k f h => by
      have := (C49_order_partial os g g' hr hf he hi).1 k f h
      exact ⟨this.1, this.2.1⟩
  have hvalid : ∀ n f, contents os n = some f → ∀ y, (tfRel f.kind f.body y).Valid :=
    fun n f h y => tfRel_valid (hb n f h) _ _
  set x : Frame Body → ℝ := fun f => q (configId g' f.config).toNat with hxdef
  set x' : Frame Body → ℝ := fun f => q' (configId g1' f.config).toNat with hxdef'
  obtain ⟨-, f0s, p1, -, p2⟩ := b4 n0 f0 h0 (hlt n0 f0 h0).2
  -- the path and the transform of the new parent
  obtain ⟨fnp, p3, p4⟩ : ∃ fnp, IsPath (contents os) np fnp ∧
      (np = "" ∨ (frameId g' np ≠ frameRoot ∧ parentCol A (frameId g' np) = some (prod x fnp))) := by
    rcases hnp with rfl | hnp
    · exact ⟨[], IsPath.root, Or.inl rfl⟩
    · obtain ⟨fp, hfp⟩ := Option.isSome_iff_exists.1 hnp
      obtain ⟨-, fnp, c1, -, c2⟩ := b4 np fp hfp (hlt np fp hfp).2
      have := (hlt np fp hfp).1
      refine ⟨fnp, c1, Or.inr ⟨by unfold frameRoot; omega, ?_⟩⟩
      unfold parentCol
      rw [if_neg (by omega), c2]
      rfl
  have p5 : parentCol A (frameId g' n0) = some (prod x f0s) := by
    have := (hlt n0 f0 h0).1
    unfold parentCol
    rw [if_neg (by omega), p2]
    rfl
  have hn0r : frameId g' n0 ≠ frameRoot := by
    have := (hlt n0 f0 h0).1
    unfold frameRoot; omega
  have hE' : qutrMul (prod x fnp) E1 = prod x f0s := by
    unfold relTf at hE
    rcases p4 with rfl | ⟨p4, p6⟩
    · have : frameId g' "" = frameRoot := rfl
      rw [if_pos this, if_neg hn0r, p5] at hE
      obtain rfl := Option.some.inj hE
      cases p3 with
      | root => exact qutr_one_mul _
      | step h _ _ => exact absurd rfl h
    · rw [if_neg p4, if_neg hn0r, p5, p6] at hE
      obtain rfl := Option.some.inj hE
      have v1 := prod_valid x hvalid p3
      have v2 := prod_valid x hvalid p1
      rw [qutrCmul, ← (C27_qutr _ _ _ v1 (qutrConj_valid v1)).1,
        (C27_qutr _ _ (prod x f0s) v1 v1).2.2.2.1, qutr_one_mul]
  -- the new graph
  have hm0 : find g'.map n0 = some f0 := by rw [hc]; exact h0
  have hname : f0.name = n0 := ((find_iff hs.nodup).1 hm0).2
  unfold reparentName at hrep
  rw [hm0] at hrep
  simp only [Option.some.injEq] at hrep
  have hreach : Reach g := reach_run reach_create hr
  have hsorted : Sorted g'.map := by
    have hne : ∀ f ∈ g.map, f.name ≠ "" := by
      intro f hm h0
      rw [mem_map_iff hr, h0, he] at hm
      simp at hm
    obtain ⟨-, -, hm, -⟩ := reach_indexed hreach hi (forest_acyclic hr hf) hne
    rw [hm]; exact hreach.sorted
  have hsorted1 := sorted_mapPut hsorted (reFrame f0 np E1)
  have hc1 : find (mapPut g'.map (reFrame f0 np E1)) =
      moved (contents os) np n0 E1 := by
    funext n
    rw [find_mapPut hsorted, ← hc]
    have : (reFrame f0 np E1).name = n0 := hname
    simp only [moved, this]
    by_cases hn : n = n0
    · rw [if_pos hn, if_pos hn, hm0]; rfl
    · rw [if_neg hn, if_neg hn]
  have hc1' : find g1.map = moved (contents os) np n0 E1 := by rw [← hrep]; exact hc1
  have hreach1 : Reach g1 := by
    rw [← hrep]
    exact ⟨hsorted1, fun h => by simp at h⟩
  have hmem : ∀ f ∈ g1.map, moved (contents os) np n0 E1 f.name = some f := by
    intro f hf
    rw [← hc1']
    exact (find_iff hreach1.sorted.nodup).2 ⟨hf, rfl⟩
  have hne1 : ∀ f ∈ g1.map, f.name ≠ "" := by
    intro f hf h
    have := hmem f hf
    rw [h] at this
    have hn0 : ("" : String) ≠ n0 := by
      rintro rfl
      rw [he] at h0; simp at h0
    simp only [moved, if_neg hn0, he] at this
    simp at this
  have hac : Acyclic g1.map := by
    intro n hn
    refine hf' n (Relation.TransGen.mono (p := IsParent (moved (contents os) np n0 E1)) ?_ n n hn)
    rintro a b ⟨h1, f, h2, rfl, h3⟩
    exact ⟨h1, f, hmem f h2, h3⟩
  obtain ⟨s1, hs1, hm1, -⟩ := reach_indexed hreach1 hi1 hac hne1
  obtain ⟨R', A', d1, -, -, d4⟩ := absLoop_path hs1 (entryRel q')
    (fun f => tfRel f.kind f.body (confVal g1' q' f)) qutrMul qutrident
    (fun e he => entryRel_eq hs1 he q') qutr_one_mul (frameCount g1')
  refine ⟨R', A', d1, fun n f hn => ?_⟩
  obtain ⟨-, fs, e1, -, e2⟩ := b4 n f hn (hlt n f hn).2
  refine ⟨_, e2, ?_⟩
  have hn' : ∃ f', moved (contents os) np n0 E1 n = some f' := by
    unfold moved
    split_ifs with h
    · exact ⟨_, by rw [h0]; rfl⟩
    · exact ⟨f, hn⟩
  obtain ⟨f', hn'⟩ := hn'
  rw [← hc1', find_iff hreach1.sorted.nodup] at hn'
  obtain ⟨i, e, i1, i2, i3⟩ := hs1.exists_entry (hm1 ▸ hn'.1)
  have hlen := (List.getElem?_eq_some_iff.1 i1).1
  obtain ⟨-, fs', j1, j2⟩ := d4 i e (by rw [hs1.count']; exact hlen) i1
  rw [hm1, hc1', i2, hn'.2] at j1
  have hid : frameId g1' n = i := by rw [← hn'.2]; exact i3
  rw [hid, Int.toNat_natCast, j2]
  congr 1
  refine moved_prod (x := x) (x' := x') h0 p3 p1 hE' ?_ ?_ j1 fs e1
  · intro k fk hk _
    cases hkk : fk.kind with
    | fixed => rfl
    | prismatic =>
      have : x' fk = x fk := hq fk.config ⟨k, fk, hk, by rw [Frame.IsJoint, hkk]; simp, rfl⟩
      rw [this]
    | revolute =>
      have : x' fk = x fk := hq fk.config ⟨k, fk, hk, by rw [Frame.IsJoint, hkk]; simp, rfl⟩
      rw [this]
  · by_cases hk : f0.kind = Kind.fixed
    · exact Or.inl hk
    · refine Or.inr ?_
      rcases hstill with h | h
      · exact absurd h hk
      · rw [← h]
        have : x' f0 = x f0 := hq f0.config ⟨n0, f0, h0, hk, rfl⟩
        show x' f0 + _ = _
        rw [this]

/-! ## Concrete cases -/

/-- A frame `p` turned by half a turn about z and displaced along x, and a frame `f` of the given
kind and body, both in the root. -/
noncomputable def rpOps (k : Kind) (b : Body) : List (Op Body) :=
  [Op.add ⟨"f", "", k, "qf", b⟩,
   Op.add ⟨"p", "", Kind.fixed, "", mkBody ⟨0, 0, 1, 0⟩ ⟨1, 0, 0⟩ 0 ⟨1, 0, 0⟩⟩]

noncomputable def rpInit (k : Kind) (b : Body) : Option (Graph Body) :=
  ((run create (rpOps k b)).bind index).map (·.2)

/-- The graph after reparenting `f` to `p` at `q` in the way of `C58_partial`. -/
noncomputable def rpMove (k : Kind) (b : Body) (q : Nat → ℝ) : Option (Graph Body) :=
  (rpInit k b).bind (fun g => (sgTf g 2 q).bind (fun t =>
    (relTf (frameId g "p") (frameId g "f") t.2).bind (fun E1 =>
      (reparentName g "p" "f" E1).bind (fun g1 => (index g1).map (·.2)))))

noncomputable def still : Body := mkBody qident ⟨0, 0, 0⟩ 0 ⟨1, 0, 0⟩

/-- The case of `C58_partial` on this graph: the fixed frame `f` is reparented, gets another
number, and keeps its pose. -/
example : ∃ g' g1', rpInit Kind.fixed still = some g' ∧
    rpMove Kind.fixed still (fun _ => 0) = some g1' ∧
    frameId g' "f" = 0 ∧ frameId g1' "f" = 1 ∧ frameParent g1' 1 = some 0 ∧
    ∃ t t', sgTf g' 2 (fun _ => 0) = some t ∧ sgTf g1' 2 (fun _ => 0) = some t' ∧
      t.2[0]? = some qutrident ∧ t'.2[1]? = some qutrident := by
  refine ⟨_, _, rfl, rfl, rfl, rfl, rfl, _, _, rfl, rfl, rfl, ?_⟩
  simp [still, mkBody, tfRel, qutrMul, qutrTf, qutrCmul, qutrConj, qident, qmul, qconj, qrot, vneg,
    qutrident]

/-- The hypotheses of `C58_partial` about the contents hold for this graph. -/
example (E1 : Qutr) : Forest (contents (rpOps Kind.fixed still)) ∧
    contents (rpOps Kind.fixed still) "" = none ∧
    (∀ n f, contents (rpOps Kind.fixed still) n = some f → f.body.Built) ∧
    Forest (moved (contents (rpOps Kind.fixed still)) "p" "f" E1) := by
  refine ⟨forest_of_rank (fun _ => 0) ?_, rfl, ?_,
    forest_of_rank (fun n => if n = "f" then 1 else 0) ?_⟩
  · rintro p n ⟨h1, f, h2, rfl⟩
    simp only [contents, rpOps, List.foldl_cons, List.foldl_nil] at h2
    split_ifs at h2 <;> simp_all <;> subst h2 <;> simp_all
  · intro n f h2
    simp only [contents, rpOps, List.foldl_cons, List.foldl_nil] at h2
    split_ifs at h2 <;> simp_all <;> subst h2
    · exact mkBody_built (by simp [Tf.Unit]) (by simp [vnorm, vdot])
    · exact mkBody_built (by simp [Tf.Unit, qident]) (by simp [vnorm, vdot])
  · rintro p n ⟨h1, f, h2, rfl⟩
    simp only [moved, contents, rpOps, List.foldl_cons, List.foldl_nil, reFrame] at h2
    split_ifs at h2 <;> simp_all <;> subst h2 <;> simp_all

/-- A prismatic frame at joint value 1 does not keep its pose: the relative transform contains the
motion of the joint and the joint moves again. -/
theorem C58_violates_joint : ∃ g' g1' t t', rpInit Kind.prismatic slide = some g' ∧
    rpMove Kind.prismatic slide (fun _ => 1) = some g1' ∧
    sgTf g' 2 (fun _ => 1) = some t ∧ sgTf g1' 2 (fun _ => 1) = some t' ∧
    (t.2[0]?).map (fun E => E.v) = some ⟨1, 0, 0⟩ ∧
    (t'.2[1]?).map (fun E => E.v) = some ⟨2, 0, 0⟩ := by
  refine ⟨_, _, _, _, rfl, rfl, rfl, rfl, ?_, ?_⟩
  · simp [slide, mkBody, tfRel, qutrMul, qutrTf, qident]
  · simp [slide, mkBody, tfRel, qutrMul, qutrTf, qutrCmul, qutrConj, qident, qmul, qconj, qrot,
      vneg]
    norm_num

/-- The matrix and the dual quaternion of a reparented fixed frame are computed from its old
rotation and its old dual quaternion: the matrix is turned by half a turn and the dual quaternion
displaced. -/
theorem C58_violates_tfmat_duqu (out : Duqu) : ∃ g' g1' T T' S S',
    rpInit Kind.fixed still = some g' ∧ rpMove Kind.fixed still (fun _ => 0) = some g1' ∧
    sgTfmat g' 2 (fun _ => 0) = some T ∧ sgTfmat g1' 2 (fun _ => 0) = some T' ∧
    sgDuqu g' 2 (fun _ => 0) out = some S ∧ sgDuqu g1' 2 (fun _ => 0) out = some S' ∧
    (T.2[0]?).map (fun T : Tfm => T.R.m0) = some (1 : ℝ) ∧
    (T'.2[1]?).map (fun T : Tfm => T.R.m0) = some (-1 : ℝ) ∧
    (S.2[0]?).map (fun S : Duqu => duquTf S ⟨0, 0, 0⟩) = some (⟨0, 0, 0⟩ : V3) ∧
    (S'.2[1]?).map (fun S : Duqu => duquTf S ⟨0, 0, 0⟩) = some (⟨1, 0, 0⟩ : V3) := by
  refine ⟨_, _, _, _, _, _, rfl, rfl, rfl, rfl, rfl, rfl, ?_, ?_, ?_, ?_⟩
  · simp [still, mkBody, tfmatRel, quat2rotmat, qident, skewsymScalC, Quat.vec]
  · simp [still, mkBody, tfmatRel, quat2rotmat, qident, tfmMul, mul9, skewsymScalC, Quat.vec]
    norm_num
  · simp [still, mkBody, duquRel, qutr2duqu, qident, qmulVQ, duquTf, vdot, Quat.vec,
      qmulcV, qmulQV, qmulQVv, mkq]
  · simp [still, mkBody, duquRel, qutr2duqu, qident, qmulVQ, duquTf, duquMul, vdot,
      Quat.vec, qmulcV, qmulQV, qmulQVv, mkq, qmul, qmulA]

end Verif.Sg
