import Verif.Proof.IkOpt
import Verif.Prop.Lnv

/-!
# Objectives of the optimizing solver: relative transforms, and chains of frames
-/

namespace Verif.Ik

open Verif.Tf Verif.Sg

/-! ## Relative transforms -/

theorem rel_duqu {E R : Qutr} (hE : E.Valid) (hR : R.Valid) :
    duquCmul (qutr2duqu E) (qutr2duqu R) = qutr2duqu (qutrCmul E R) ∧ (qutrCmul E R).Valid ∧
      (qutrCmul E R).q = qcmul E.q R.q := by
  refine ⟨?_, qutrMul_valid (qutrConj_valid hE) hR, ?_⟩
  · rw [qutrCmul, (C26_compose _ _ (qutrConj_valid hE) hR).1, (C26_inverse E hE).1]; rfl
  · ext <;> simp [qutrCmul, qutrMul, qutrConj, qmul, qconj, qcmul] <;> ring

theorem min_duqu {E : Qutr} (hE : E.Valid) : (duquMinimize (qutr2duqu E)).Valid ∧
    duqu2qutr (duquMinimize (qutr2duqu E)) = ⟨qminimize E.q, E.v⟩ := by
  have h1 := C26_conversions.1 E hE
  have h2 := C26_conversions.2.2.2.1 E hE
  have hv : duquTrans (qutr2duqu E) = E.v := congrArg Qutr.v h2
  unfold duquMinimize qminimize
  have hr : (qutr2duqu E).real = E.q := rfl
  rw [hr]
  split_ifs with hw
  · constructor
    · obtain ⟨a, b⟩ := h1.1
      constructor
      · simp only [Tf.Unit] at a ⊢; rw [hr] at a; linarith [a]
      · rw [hr] at b; simp only [qdot] at b ⊢; linarith
    · rw [duqu2qutr]
      congr 1
      · ext <;> simp
      · rw [← hv]
        ext <;> simp [duquTrans, qmulcV] <;> rw [hr]
  · exact ⟨h1.1, h2⟩

theorem dlog_twist {S : Duqu} (hS : S.Valid) (hw : vnorm S.real.vec ≠ 0 ∨ 0 < S.real.w) :
    ddot (dlog S) (dlog S) = (vdot (logTw (duqu2qutr S)).w (logTw (duqu2qutr S)).w +
      vdot (logTw (duqu2qutr S)).v (logTw (duqu2qutr S)).v) / 4 := by
  have hd : vdot S.real.vec S.dual.vec + S.real.w * S.dual.w = 0 := by
    have := hS.2
    simp only [vdot, Quat.vec, qdot] at *; linarith
  obtain ⟨hn, hq⟩ := unit_norm hS.1
  have e : dlog S = duquOf S (etaHat S.real) (zetaHat S.real) ∧
      (duquOf S (etaHat S.real) (zetaHat S.real)).tw = logTw (duqu2qutr S) := by
    constructor
    · have hl : lnEta S.real * vnorm S.real.vec = etaHat S.real * vnorm S.real.vec := by
        unfold etaHat; split_ifs with h0
        · rw [h0]; ring
        · rfl
      unfold dlog duquOf dualForm qlog
      rw [hn, hq, hd, Real.log_one]
      congr 1
      · by_cases h0 : vnorm S.real.vec = 0
        · obtain ⟨z1, z2, z3⟩ := vec_zero h0
          rw [z1, z2, z3]; simp
        · rw [etaHat, if_neg h0]
      · simp
    · rw [duquOf_tw hS]
      by_cases h0 : vnorm S.real.vec = 0
      · have hw : 0 < S.real.w := by tauto
        have hw1 : S.real.w = 1 := by rw [← qnorm_real h0 hw, hn]
        rw [etaHat, if_pos h0, hw1, div_one, mul_one, mul_one, twOf_zero h0, logTw]
        have h0' : vnorm (duqu2qutr S).q.vec = 0 := h0
        rw [if_pos h0']; rfl
      · rw [etaHat, if_neg h0, zetaHat, if_neg h0]
        exact (logTw_zeta (E := duqu2qutr S) hS.1 h0).symm
  rw [← e.2, e.1]
  simp only [ddot, qdot, duquOf, Duqu.tw, vdot, vscal, Quat.vec]
  ring

/-- The squared length of half the twist from `E` to `R`. -/
noncomputable def twistErr (E R : Qutr) : ℝ :=
  let L := logTw ⟨qminimize (qcmul E.q R.q), (qutrCmul E R).v⟩
  (vdot L.w L.w + vdot L.v L.v) / 4

theorem twistErr_eq {E R : Qutr} (hE : E.Valid) (hR : R.Valid) :
    ddot (dlog (duquMinimize (duquCmul (qutr2duqu E) (qutr2duqu R))))
      (dlog (duquMinimize (duquCmul (qutr2duqu E) (qutr2duqu R)))) = twistErr E R := by
  obtain ⟨e1, e2, e3⟩ := rel_duqu hE hR
  obtain ⟨m1, m2⟩ := min_duqu e2
  rw [e1]
  have hw : 0 ≤ (duquMinimize (qutr2duqu (qutrCmul E R))).real.w :=
    (C26_duqu_normal _ (C26_conversions.1 _ e2).1).2.2
  have hz : vnorm (duquMinimize (qutr2duqu (qutrCmul E R))).real.vec ≠ 0 ∨
      0 < (duquMinimize (qutr2duqu (qutrCmul E R))).real.w := by
    by_contra hc
    push Not at hc
    have h1 := unit_sq m1.1
    rw [hc.1, le_antisymm hc.2 hw] at h1
    norm_num at h1
  rw [dlog_twist m1 hz, m2, e3]
  rfl
/-! ## Chains -/

theorem jacLoop_congr {g : Graph Body} (col : Kind → V3 → Qutr → JCol) (A B : List Qutr)
    (frames : Nat → Int) : ∀ (n i m : Nat),
    (∀ k, i ≤ k → k < i + n → parentCol A (frames k) = parentCol B (frames k)) →
    jacLoop g col A frames n i m = jacLoop g col B frames n i m := by
  intro n
  induction n with
  | zero => intro i m _; rfl
  | succ n ih =>
    intro i m h
    have ih' := fun m => ih (i + 1) m (fun k h1 h2 => h k (by omega) (by omega))
    simp only [jacLoop, ih', h i (le_refl _) (by omega)]

theorem opt_chain (os : List (Op Body)) (g g' : Graph Body) (hr : run create os = some g)
    (hf : Forest (contents os)) (he : contents os "" = none)
    (hi : index g = some (Status.ok, g'))
    (hbuilt : ∀ n f, contents os n = some f → f.body.Built)
    (t : String) (fr rest : List (Frame Body)) (ht : IsPath (contents os) t (fr ++ rest))
    (hu : (((fr ++ rest).filter (fun f => f.kind ≠ Kind.fixed)).map (·.config)).Nodup)
    (hne : rest ≠ []) (sub : Sub) (hch : IsChain g' t rest sub) (qStart : Nat → ℝ) (fk0 : List Qutr)
    (hfk0 : fkAll g' qStart 1 = some fk0) (junk q : Nat → ℝ) :
    ∃ qAll R A fk, scatterLoop sub q 1 1 sub.configCount 0 qStart = some qAll ∧
      sgTf g' (frameCount g') qAll = some (R, A) ∧
      fkSub g' sub junk q fk0 = some fk ∧
      parentCol fk (frameId g' t) = some (pathTf g' qAll (fr ++ rest)) ∧
      (∀ k, k < sub.frameCount → parentCol fk (sub.frames k) = parentCol A (sub.frames k)) ∧
      (∀ q', (pathTf g' q' (fr ++ rest)).Valid ∧ tipPose g' t q' = some (pathTf g' q' (fr ++ rest))) ∧
      ∀ j, j < sub.configCount → qAll (sub.configs j).toNat = q j ∧
        ∀ u, scatterLoop sub (Function.update q j u) 1 1 sub.configCount 0 qStart =
          some (Function.update qAll (sub.configs j).toNat u) := by
  obtain ⟨-, fk0', c1, c2, c3⟩ := C50_fk_partial os g g' hr hf he hi qStart
  rw [hfk0] at c1
  obtain rfl := Option.some.inj c1
  obtain ⟨st, hs, hc⟩ := indexed_of os g g' hr hf he hi
  have ht' := ht
  rw [← hc] at ht'
  have hE : BaseCol g' fk0 fr (pathTf g' qStart fr) := by
    rcases List.eq_nil_or_concat' fr with rfl | ⟨l, f0, rfl⟩
    · exact Or.inl ⟨rfl, rfl⟩
    · refine Or.inr ⟨l, f0, rfl, ?_⟩
      have h1 := ht'.prefix
      have h2 : contents os f0.name = some f0 := by
        rw [← hc]; exact find_eq hs.nodup (h1.mem f0 (by simp))
      obtain ⟨fs, h3, h4⟩ := c3 f0.name f0 h2
      rw [← hc] at h3
      rw [h4, h3.unique h1]
  obtain ⟨qa, fk, a1, a2, -, a4, -, a6⟩ := fkSub_chain (q := q) hs ht' hch junk qStart fk0 _ c2 hE
  have hmem : ∀ f ∈ fr ++ rest, f ∈ g'.map := ht'.mem
  have hcont : ∀ f ∈ fr ++ rest, contents os f.name = some f := by
    intro f hfm
    rw [← hc]
    exact find_eq hs.nodup (hmem f hfm)
  have hgne : g.map ≠ [] := by
    intro h0
    obtain ⟨f, l, rfl⟩ := List.exists_cons_of_ne_nil hne
    have := (contents_name hr (hcont f (by simp))).2
    rw [h0] at this
    simp at this
  obtain ⟨n, -, n2, -, -, n3, -⟩ := C49_configs_partial os g g' hr hf he (Or.inr hgne) hi
  have uses : ∀ f ∈ fr ++ rest, f.IsJoint → UsesConfig (contents os) f.config :=
    fun f hf hj => ⟨_, f, hcont f hf, hj, rfl⟩
  have sameC : ∀ f ∈ fr ++ rest, f.IsJoint → ∀ f' ∈ fr ++ rest, f'.IsJoint →
      (configId g' f.config).toNat = (configId g' f'.config).toNat → f.config = f'.config := by
    intro f h1 h2 f' h3 h4 h5
    have k1 := (n2 _ (uses f h1 h2)).1
    have k2 := (n2 _ (uses f' h3 h4)).1
    exact n3 _ _ (uses f h1 h2) (by omega)
  rw [List.filter_append, List.map_append, List.nodup_append] at hu
  obtain ⟨hu1, hu2, hu3⟩ := hu
  have base : pathTf g' qa fr = pathTf g' qStart fr := by
    rw [pathTf_eq, pathTf_eq]
    apply chainTf_congr
    intro f' hf' hj
    unfold confVal
    apply a6
    intro j hj' hcc
    obtain ⟨f'', g1, g2, g3, g4⟩ := (chain_config hs ht' hch).1 j hj'
    rw [g3] at hcc
    have := sameC f'' (by simp [g1]) g2 f' (by simp [hf']) hj hcc
    refine hu3 f'.config (List.mem_map.2 ⟨f', List.mem_filter.2 ⟨hf', ?_⟩, rfl⟩) f''.config
      (List.mem_map.2 ⟨f'', List.mem_filter.2 ⟨g1, ?_⟩, rfl⟩) this.symm
    · simpa [Frame.IsJoint] using hj
    · simpa [Frame.IsJoint] using g2
  obtain ⟨R, A, hA, -, -, hA4⟩ := C50_tf_partial os g g' hr hf he hi (frameCount g') qa
  have hpos : ∀ k f, contents os k = some f → 0 ≤ frameId g' k ∧ frameId g' k < frameCount g' :=
    fun k f h => ⟨((C49_order_partial os g g' hr hf he hi).1 k f h).1,
      ((C49_order_partial os g g' hr hf he hi).1 k f h).2.1⟩
  have hcol : ∀ (k : Nat) (f : Frame Body), rest[k]? = some f →
      fk[(frameId g' f.name).toNat]? = some (pathTf g' qa (fr ++ rest.take (k + 1))) ∧
      A[(frameId g' f.name).toNat]? = some (pathTf g' qa (fr ++ rest.take (k + 1))) := by
    intro k f hk
    have hmf : f ∈ fr ++ rest := List.mem_append_right _ (List.mem_of_getElem? hk)
    constructor
    · rw [a4 k f hk, ← base, pathTf_eq g' qa (fr ++ _), chainTf_append, ← pathTf_eq]
    · obtain ⟨-, fs, -, h5, h6⟩ := hA4 f.name f (hcont f hmf) (hpos _ f (hcont f hmf)).2
      rw [h6]
      congr 1
      refine congrArg (pathTf g' qa) (h5 _ ?_).symm
      obtain ⟨hlt, hkf⟩ := List.getElem?_eq_some_iff.1 hk
      have e : fr ++ rest = (fr ++ rest.take k) ++ [f] ++ rest.drop (k + 1) := by
        rw [← hkf]; simp
      rw [e] at ht'
      have := ht'.prefix
      rw [hc] at this
      rw [List.take_succ_eq_append_getElem hlt, hkf, ← List.append_assoc]
      exact this
  obtain ⟨h1, -⟩ := jac_main os g g' hr hf he hi hbuilt t fr rest ht (by
    rw [List.filter_append, List.map_append, List.nodup_append]; exact ⟨hu1, hu2, hu3⟩) sub hch qa R A hA
  obtain ⟨b1, b2, b3, b4⟩ := h1 hne
  have hfr : ∀ k, k < sub.frameCount → parentCol fk (sub.frames k) = parentCol A (sub.frames k) := by
    intro k hk
    rw [hch.1] at hk
    have hget := List.getElem?_eq_getElem hk
    have e := hch.2.1 k _ hget
    have hp := (hpos _ _ (hcont _ (List.mem_append_right fr (List.getElem_mem hk)))).1
    rw [e]
    unfold parentCol
    rw [if_neg (by omega), if_neg (by omega), (hcol k _ hget).1, (hcol k _ hget).2]
  have hcc : 0 < sub.frameCount := by
    rw [hch.1]; exact List.length_pos_iff.2 hne
  refine ⟨qa, R, A, fk, a1, hA, a2, ?_, hfr, fun q' => ⟨pathTf_valid fun f hf => hbuilt _ f (hcont f hf), b4 q'⟩, ?_⟩
  · have := hfr (sub.frameCount - 1) (by omega)
    rw [b2] at this
    rw [this]
    unfold parentCol
    rw [if_neg (by omega), b1]
  · obtain ⟨hc1, hc2⟩ := chain_config hs ht' hch
    have inj : ∀ i j, i < sub.configCount → j < sub.configCount →
        (sub.configs i).toNat = (sub.configs j).toNat → i = j := by
      intro i j hi' hj' hij
      rw [hch.2.2.1] at hi' hj'
      have gi := List.getElem?_eq_getElem hi'
      have gj := List.getElem?_eq_getElem hj'
      rw [hch.2.2.2.1 i _ gi, hch.2.2.2.1 j _ gj] at hij
      have mi := List.mem_filter.1 (List.getElem_mem hi')
      have mj := List.mem_filter.1 (List.getElem_mem hj')
      have := sameC _ (List.mem_append_right fr mi.1) (by simpa [Frame.IsJoint] using mi.2) _
        (List.mem_append_right fr mj.1) (by simpa [Frame.IsJoint] using mj.2) hij
      have hnd := List.nodup_iff_injective_get.1 hu2
      have := @hnd ⟨i, by simpa using hi'⟩ ⟨j, by simpa using hj'⟩ (by simpa using this)
      simpa using this
    have hpos' : ∀ j, 0 ≤ j → j < 0 + sub.configCount → 0 ≤ sub.configs j := fun j _ hj => by
      obtain ⟨-, -, -, -, h4⟩ := hc1 j (by omega)
      exact h4
    have sc := fun x => scatterLoop_eq sub x 1 1 sub.configCount 0 qStart hpos'
    rw [sc q] at a1
    obtain rfl := Option.some.inj a1
    have wg : ∀ (x : Nat → ℝ) j, j < sub.configCount →
        writes (fun j => (sub.configs j).toNat * 1) (fun j => x (j * 1)) sub.configCount 0 qStart
          (sub.configs j).toNat = x j := by
      intro x j hj
      have := writes_get (fun j => (sub.configs j).toNat * 1) (fun j => x (j * 1)) sub.configCount 0 qStart
        j (by omega) (by omega) (fun j' h1 h2 h3 => by
          have := inj j' j (by omega) hj (by simpa using h3)
          omega)
      simpa using this
    intro j hj
    refine ⟨wg q j hj, fun u => ?_⟩
    rw [sc]
    congr 1
    funext c
    by_cases hcx : ∃ k, k < sub.configCount ∧ (sub.configs k).toNat = c
    · obtain ⟨k, hk, rfl⟩ := hcx
      rw [wg _ k hk]
      by_cases hkj : k = j
      · subst hkj; simp
      · rw [Function.update_of_ne hkj, Function.update_of_ne (fun e => hkj (inj k j hk hj e)), wg q k hk]
    · push Not at hcx
      rw [Function.update_of_ne (fun e => hcx j hj e.symm)]
      rw [writes_frame, writes_frame]
      · intro i _ h2 e; exact hcx i (by omega) (by simpa using e.symm)
      · intro i _ h2 e; exact hcx i (by omega) (by simpa using e.symm)

/-- The columns of the velocity Jacobian of a chain are the derivatives of the pose of its tip, and
turn with at most unit speed. -/
theorem vel_cols (os : List (Op Body)) (g g' : Graph Body) (hr : run create os = some g)
    (hf : Forest (contents os)) (he : contents os "" = none)
    (hi : index g = some (Status.ok, g'))
    (hbuilt : ∀ n f, contents os n = some f → f.body.Built)
    (t : String) (fr rest : List (Frame Body)) (ht : IsPath (contents os) t (fr ++ rest))
    (hu : (((fr ++ rest).filter (fun f => f.kind ≠ Kind.fixed)).map (·.config)).Nodup)
    (hne : rest ≠ []) (sub : Sub) (hch : IsChain g' t rest sub) (q : Nat → ℝ) (R A : List Qutr)
    (hA : sgTf g' (frameCount g') q = some (R, A)) :
    ∃ cols, jacVel g' sub A = some cols ∧ cols.length = sub.configCount ∧
      ∀ j c, cols[j]? = some c → vnorm c.r ≤ 1 ∧ PoseDeriv
        (fun u => pathTf g' (Function.update q (sub.configs j).toNat u) (fr ++ rest))
        (q (sub.configs j).toNat) c.r c.p := by
  obtain ⟨h1, T, h2, h3⟩ := jac_main os g g' hr hf he hi hbuilt t fr rest ht hu sub hch q R A hA
  obtain ⟨a1, a2, a3, a4⟩ := h1 hne
  obtain ⟨cols, e1, e2, e3⟩ := C53_vel_partial os g g' hr hf he hi hbuilt t fr rest ht hu hne sub hch
    q R A hA
  refine ⟨cols, e1, e2, fun j c hj => ?_⟩
  obtain ⟨E, p1, p2⟩ := e3 j c hj
  have hE : E = fun u => pathTf g' (Function.update q (sub.configs j).toNat u) (fr ++ rest) := by
    funext u
    have := p1 u
    rw [a4] at this
    exact (Option.some.inj this).symm
  rw [← hE]
  refine ⟨?_, p2⟩
  have hfc : sub.frameCount ≠ 0 := by
    rw [hch.1]
    exact fun h => hne (List.length_eq_zero_iff.1 h)
  unfold jacVel at e1
  rw [if_neg hfc, a2] at e1
  unfold parentCol at e1
  rw [if_neg (by omega), a1] at e1
  simp only at e1
  rw [h2] at e1
  obtain rfl := Option.some.inj e1
  rw [List.getElem?_map, Option.map_eq_some_iff] at hj
  obtain ⟨f, hj, rfl⟩ := hj
  obtain ⟨C, D, b1, b2, b3, b4, -⟩ := h3 j f hj
  have hv : (T f).Valid := by rw [b4]; exact qutrMul_valid b1 (tfRel_valid b2 _ _)
  cases hk : f.kind with
  | fixed => exact absurd hk b3
  | revolute =>
    show vnorm (qrot (T f).q f.body.axis) ≤ 1
    rw [C23_norm _ _ hv, b2.2.2.2]
  | prismatic =>
    show vnorm ⟨0, 0, 0⟩ ≤ 1
    simp [vnorm, vdot]

/-- The same for twists. -/
theorem twist_cols (os : List (Op Body)) (g g' : Graph Body) (hr : run create os = some g)
    (hf : Forest (contents os)) (he : contents os "" = none)
    (hi : index g = some (Status.ok, g'))
    (hbuilt : ∀ n f, contents os n = some f → f.body.Built)
    (t : String) (fr rest : List (Frame Body)) (ht : IsPath (contents os) t (fr ++ rest))
    (hu : (((fr ++ rest).filter (fun f => f.kind ≠ Kind.fixed)).map (·.config)).Nodup)
    (hne : rest ≠ []) (sub : Sub) (hch : IsChain g' t rest sub) (q : Nat → ℝ) (R A : List Qutr)
    (hA : sgTf g' (frameCount g') q = some (R, A)) :
    ∃ cols, jacTwist g' sub A = some cols ∧ cols.length = sub.configCount ∧
      ∀ j c, cols[j]? = some c → PoseDeriv
        (fun u => pathTf g' (Function.update q (sub.configs j).toNat u) (fr ++ rest))
        (q (sub.configs j).toNat) c.r (vadd c.p (cross c.r (pathTf g' q (fr ++ rest)).v)) := by
  obtain ⟨h1, -⟩ := jac_main os g g' hr hf he hi hbuilt t fr rest ht hu sub hch q R A hA
  obtain ⟨a1, a2, a3, a4⟩ := h1 hne
  obtain ⟨cols, e1, e2, e3⟩ := C53_twist_partial os g g' hr hf he hi hbuilt t fr rest ht hu hne sub hch
    q R A hA
  refine ⟨cols, e1, e2, fun j c hj => ?_⟩
  obtain ⟨E, p1, p2⟩ := e3 j c hj
  have hE : E = fun u => pathTf g' (Function.update q (sub.configs j).toNat u) (fr ++ rest) := by
    funext u
    have := p1 u
    rw [a4] at this
    exact (Option.some.inj this).symm
  have h0 : pathTf g' q (fr ++ rest) = E (q (sub.configs j).toNat) := by
    rw [hE]; simp
  rw [h0, ← hE]
  exact p2

/-- An angle below a half turn is one of a relative rotation with nonzero real part. -/
theorem angle_facts {A B : Qutr} (hA : A.Valid) (hB : B.Valid) :
    (rotAngle A B < Real.pi → (qcmul A.q B.q).w ≠ 0) ∧
    (rotAngle A B = 0 → vnorm (qminimize (qcmul A.q B.q)).vec = 0) := by
  have h := rotAngle_qangle hA hB
  have hu := cmul_unit (a := A.q) (r := B.q) hA hB
  constructor
  · intro hlt h0
    rw [qangle_min hu, h0, abs_zero, Real.arccos_zero] at h
    linarith
  · intro h0
    have hm : Tf.Unit (qminimize (qcmul A.q B.q)) := by
      rw [minimize_sgn]
      have := sgn_sq (qcmul A.q B.q)
      have hu' : _ = _ := hu
      simp only [Tf.Unit, qscal] at hu' ⊢
      linear_combination (sgn (qcmul A.q B.q)) ^ 2 * hu' + this
    rw [← (unit_polar hm).1, h, h0]
    simp

theorem rot_sq {E R : Qutr} (hE : E.Valid) (hR : R.Valid) :
    qdot (qlog (qminimize (qcmul E.q R.q))) (qlog (qminimize (qcmul E.q R.q))) =
      (rotAngle E R / 2) ^ 2 := by
  have hu := cmul_unit (a := E.q) (r := R.q) hE hR
  have hm : Tf.Unit (qminimize (qcmul E.q R.q)) := by
    rw [minimize_sgn]
    have := sgn_sq (qcmul E.q R.q)
    have hu' : _ = _ := hu
    simp only [Tf.Unit, qscal] at hu' ⊢
    linear_combination (sgn (qcmul E.q R.q)) ^ 2 * hu' + this
  have hw : 0 ≤ (qminimize (qcmul E.q R.q)).w := by
    unfold qminimize; split_ifs with h
    · simp; linarith
    · exact not_lt.1 h
  rw [qdot_qlog hm ?_, rotAngle_qangle hE hR]
  by_contra hc
  push Not at hc
  have h1 := unit_sq hm
  rw [hc.1, le_antisymm hc.2 hw] at h1
  norm_num at h1

theorem jacVel_congr {g : Graph Body} {s : Sub} {A B : List Qutr}
    (h : ∀ k, k < s.frameCount → parentCol A (s.frames k) = parentCol B (s.frames k)) :
    jacVel g s A = jacVel g s B := by
  unfold jacVel
  split_ifs with h0
  · rfl
  · rw [h (s.frameCount - 1) (by omega)]
    split
    · rfl
    · exact jacLoop_congr _ _ _ _ _ _ _ (fun k _ hk => h k (by omega))

end Verif.Ik
