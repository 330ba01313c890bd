import Verif.Prop.SgChain
import Verif.Prop.SgReparent
import Verif.Prop.Vel

/-!
# C53: Jacobian columns are the derivatives of the pose
-/

namespace Verif.Sg

open Verif.Tf
open Quaternion

/-- Specification: at `u` the pose `E` turns with angular velocity `w` (the quaternion changes by
`w q / 2`) and its origin moves with velocity `v`. -/
def PoseDeriv (E : ℝ → Qutr) (u : ℝ) (w v : V3) : Prop :=
  HasDerivAt (fun s => (E s).q.den) ((2⁻¹ : ℝ) • (w.pure * (E u).q.den)) u ∧
  HasDerivAt (fun s => (E s).v.pure) v.pure u

theorem axang_hasDeriv (a : V3) (ha : vnorm a = 1) (o u : ℝ) :
    HasDerivAt (fun s => (axang2quat ⟨a, s + o⟩).den)
      ((2⁻¹ : ℝ) • (a.pure * (axang2quat ⟨a, u + o⟩).den)) u := by
  have e : ∀ s, (axang2quat ⟨a, s + o⟩).den =
      Real.cos ((s + o) / 2) • (1 : ℍ[ℝ]) + Real.sin ((s + o) / 2) • a.pure := by
    intro s; ext <;> simp [axang2quat]
  have hin : HasDerivAt (fun s : ℝ => (s + o) / 2) (1 / 2) u :=
    ((hasDerivAt_id u).add_const o).div_const 2
  have hc := (hin.cos.smul_const (1 : ℍ[ℝ])).add (hin.sin.smul_const a.pure)
  have ha2 : a.pure * a.pure = -1 := by
    have : a.x ^ 2 + a.y ^ 2 + a.z ^ 2 = 1 := by
      have := Real.sqrt_eq_one.1 ha
      simp only [vdot] at this
      linarith
    ext <;> simp <;> linarith
  simp only [e]
  refine HasDerivAt.congr_deriv hc ?_
  symm
  rw [mul_add, mul_smul_comm, mul_smul_comm, ha2, mul_one]
  ext <;> simp <;> ring

theorem qmul_unit {a b : Quat} (ha : Tf.Unit a) (hb : Tf.Unit b) : Tf.Unit (qmul a b) :=
  (C21_qmulnorm a b ha hb).2

/-- The column of a revolute joint with `C` before and `D` after it. -/
theorem revolute_deriv {C D : Qutr} {b : Body} (hC : C.Valid) (hb : b.Built)
    (u : ℝ) :
    let T := fun s => tfRel Kind.revolute b s
    let J := qutrMul C (T u)
    let pe := (qutrMul J D).v
    PoseDeriv (fun s => qutrMul (qutrMul C (T s)) D) u (qrot J.q b.axis)
      (cross (qrot J.q b.axis) ⟨pe.x - J.v.x, pe.y - J.v.y, pe.z - J.v.z⟩) := by
  intro T J pe
  have hh := fun s => (C30_axang2quat ⟨b.axis, s + b.offset⟩ hb.2.2.2).2
  have hJ : Tf.Unit J.q := qmul_unit hC (qmul_unit hb.2.2.1 (hh u))
  have hunit : ∀ s, Tf.Unit (qutrMul C (T s)).q := fun s => qmul_unit hC (qmul_unit hb.2.2.1 (hh s))
  have hcomm : (axang2quat ⟨b.axis, u + b.offset⟩).den * b.axis.pure =
      b.axis.pure * (axang2quat ⟨b.axis, u + b.offset⟩).den := by
    ext <;> simp [axang2quat] <;> ring
  have hJd : J.q.den = C.q.den * (b.E.q.den * (axang2quat ⟨b.axis, u + b.offset⟩).den) := by
    show (qmul C.q (qmul b.E.q _)).den = _
    rw [C21_qmul, C21_qmul]
  have hω : (qrot J.q b.axis).pure * J.q.den =
      C.q.den * (b.E.q.den * (b.axis.pure * (axang2quat ⟨b.axis, u + b.offset⟩).den)) := by
    rw [(C23_qrot _ _ hJ).1, mul_assoc, (den_unit_mul hJ).2, mul_one, hJd, mul_assoc, mul_assoc,
      hcomm]
  have hq : HasDerivAt (fun s => (qutrMul C (T s)).q.den)
      ((2⁻¹ : ℝ) • ((qrot J.q b.axis).pure * J.q.den)) u := by
    have := ((axang_hasDeriv b.axis hb.2.2.2 b.offset u).const_mul b.E.q.den).const_mul C.q.den
    have e : (fun s => (qutrMul C (T s)).q.den) = fun s =>
        C.q.den * (b.E.q.den * (axang2quat ⟨b.axis, s + b.offset⟩).den) := by
      funext s
      show (qmul C.q (qmul b.E.q _)).den = _
      rw [C21_qmul, C21_qmul]
    rw [e, hω]
    refine HasDerivAt.congr_deriv this ?_
    rw [mul_smul_comm, mul_smul_comm]
  constructor
  · have e : (fun s => (qutrMul (qutrMul C (T s)) D).q.den) = fun s =>
        (qutrMul C (T s)).q.den * D.q.den := by
      funext s
      exact C21_qmul _ _
    rw [e]
    refine HasDerivAt.congr_deriv (hq.mul_const D.q.den) ?_
    rw [show (qutrMul (qutrMul C (T u)) D).q.den = J.q.den * D.q.den from C21_qmul _ _,
      smul_mul_assoc, mul_assoc]
  · have hd : Quat.HasDeriv (fun s => (qutrMul C (T s)).q) (qvel2diff J.q (qrot J.q b.axis)) u := by
      rw [Quat.HasDeriv, qvel2diff_den]; exact hq
    obtain ⟨-, hp⟩ := C31_quat_path _ _ u hd hunit
    have hp := hp D.v
    rw [show qdiff2vel (qutrMul C (T u)).q (qvel2diff J.q (qrot J.q b.axis)) = qrot J.q b.axis from
      (C31_quat_inverse J.q hJ).1 _] at hp
    have e : (fun s => (qutrMul (qutrMul C (T s)) D).v.pure) = fun s =>
        (qrot (qutrMul C (T s)).q D.v).pure + J.v.pure := by
      funext s
      show (qutrTf (qutrMul C (T s)) D.v).pure = _
      rw [qutrTf_eq, vadd_pure]
      rfl
    rw [e]
    have hpe : (⟨pe.x - J.v.x, pe.y - J.v.y, pe.z - J.v.z⟩ : V3) = qrot J.q D.v := by
      have : pe = vadd (qrot J.q D.v) J.v := qutrTf_eq _ _
      rw [this]
      apply V3.ext <;> simp [vadd]
    rw [hpe]
    exact hp.add_const _

/-- The column of a prismatic joint with `C` before and `D` after it. -/
theorem prismatic_deriv {C D : Qutr} {b : Body} (hC : C.Valid) (hb : b.Built)
    (u : ℝ) :
    let T := fun s => tfRel Kind.prismatic b s
    let J := qutrMul C (T u)
    PoseDeriv (fun s => qutrMul (qutrMul C (T s)) D) u ⟨0, 0, 0⟩ (qrot J.q b.axis) := by
  intro T J
  have hq : ∀ s, (qutrMul C (T s)).q = J.q := fun s => rfl
  have hJq : J.q = qmul C.q b.E.q := by
    show qmul C.q (qmul b.E.q qident) = _
    rw [(C21_laws b.E.q b.E.q b.E.q).2.2.1]
  constructor
  · have e : (fun s => (qutrMul (qutrMul C (T s)) D).q.den) = fun _ =>
        (qutrMul (qutrMul C (T u)) D).q.den := by funext s; rfl
    rw [e]
    refine HasDerivAt.congr_deriv (hasDerivAt_const u _) ?_
    have : (V3.pure ⟨0, 0, 0⟩) = 0 := by ext <;> simp
    rw [this, zero_mul, smul_zero]
  · have e : (fun s => (qutrMul (qutrMul C (T s)) D).v.pure) = fun s =>
        (s + b.offset) • (qrot J.q b.axis).pure +
          ((qrot J.q D.v).pure + ((qrot C.q b.E.v).pure + C.v.pure)) := by
      funext s
      show (qutrTf (qutrMul C (T s)) D.v).pure = _
      rw [qutrTf_eq, vadd_pure, hq]
      show _ + (qutrTf C (qutrTf b.E _)).pure = _
      rw [qutrTf_eq, qutrTf_eq, hJq, C23_compose _ _ _ hC hb.2.2.1,
        C23_compose _ _ _ hC hb.2.2.1]
      rw [show vadd (qrot b.E.q ⟨(s + b.offset) * b.axis.x, (s + b.offset) * b.axis.y,
        (s + b.offset) * b.axis.z⟩) b.E.v =
        vadd (vscal (s + b.offset) (qrot b.E.q b.axis)) b.E.v by
          rw [← (C23_linear _ b.axis b.axis _).2]; rfl,
        (C23_linear _ _ _ 0).1, (C23_linear _ _ (qrot b.E.q b.axis) _).2]
      ext <;> simp [vadd, vscal] <;> ring
    rw [e]
    have := (((hasDerivAt_id u).add_const b.offset).smul_const (qrot J.q b.axis).pure).add_const
      ((qrot J.q D.v).pure + ((qrot C.q b.E.v).pure + C.v.pure))
    refine HasDerivAt.congr_deriv this ?_
    rw [one_smul]

/-- The loop of the Jacobian functions: one column per joint. -/
theorem jacLoop_eq {g : Graph Body} {s : NumSt Body} (h : Indexed g s)
    (col : Kind → V3 → Qutr → JCol) (abs : List Qutr) (frames : Nat → Int)
    (T : Frame Body → Qutr) :
    ∀ (L : List (Frame Body)) (i m : Nat), (∀ f ∈ L, f ∈ g.map) →
      (∀ (k : Nat) (f : Frame Body), L[k]? = some f → frames (i + k) = frameId g f.name) →
      (∀ f ∈ L, abs[(frameId g f.name).toNat]? = some (T f)) → (joints L).length ≤ m →
      jacLoop g col abs frames L.length i m =
        some ((joints L).map (fun f => col f.kind f.body.axis (T f))) := by
  intro L
  induction L with
  | nil => intro i m _ _ _ _; rfl
  | cons f L ih =>
    intro i m hm hfr hT hle
    have ih' := fun m' => ih (i + 1) m' (fun x hx => hm x (by simp [hx]))
      (fun k x hx => by rw [Nat.add_assoc, Nat.add_comm 1 k]; exact hfr (k + 1) x (by simpa using hx))
      (fun x hx => hT x (by simp [hx]))
    have hf0 : frames i = frameId g f.name := hfr 0 f (by simp)
    obtain ⟨a1, a2, -, -, ⟨e, a3, rfl⟩, -⟩ := h.frame_facts (hm f (by simp))
    simp only [List.length_cons, jacLoop]
    rw [joints_cons] at hle ⊢
    by_cases hk : e.frame.kind = Kind.fixed
    · rw [if_pos hk] at hle ⊢
      by_cases hm0 : m = 0
      · rw [if_pos hm0, List.length_eq_zero_iff.1 (by omega : (joints L).length = 0)]
        rfl
      · rw [if_neg hm0, hf0, a3]
        simp only [hk]
        exact ih' m hle
    · rw [if_neg hk] at hle ⊢
      simp only [List.length_cons] at hle
      rw [if_neg (by omega), hf0, a3]
      have hp : parentCol abs (frameId g e.frame.name) = some (T e.frame) := by
        unfold parentCol
        rw [if_neg (by omega)]
        exact hT e.frame (by simp)
      have hih := ih' (m - 1) (by omega)
      cases hkk : e.frame.kind with
      | fixed => exact absurd hkk hk
      | prismatic => simp only [hp, hih, Option.map_some, List.map_cons, hkk]
      | revolute => simp only [hp, hih, Option.map_some, List.map_cons, hkk]

theorem pathTf_valid {g : Graph Body} {q : Nat → ℝ} {fs : List (Frame Body)}
    (hb : ∀ f ∈ fs, f.body.Built) : (pathTf g q fs).Valid := by
  induction fs using List.reverseRecOn with
  | nil => simp [pathTf, Qutr.Valid, Tf.Unit, qutrident, qident]
  | append_singleton fs f ih =>
    have : pathTf g q (fs ++ [f]) = qutrMul (pathTf g q fs)
        (tfRel f.kind f.body (q (configId g f.config).toNat)) := by
      simp [pathTf, List.foldl_append]
    rw [this]
    exact qutrMul_valid (ih (fun x hx => hb x (by simp [hx])))
      (tfRel_valid (hb f (by simp)) _ _)

theorem pathTf_append {g : Graph Body} {q : Nat → ℝ} {a b : List (Frame Body)}
    (ha : ∀ f ∈ a, f.body.Built) (hb : ∀ f ∈ b, f.body.Built) :
    pathTf g q (a ++ b) = qutrMul (pathTf g q a) (pathTf g q b) := by
  induction b using List.reverseRecOn with
  | nil =>
    have := (C27_qutr (pathTf g q a) (pathTf g q a) (pathTf g q a) (pathTf_valid ha)
      (pathTf_valid ha)).2.2.1
    simpa [pathTf] using this.symm
  | append_singleton b f ih =>
    have e : ∀ c : List (Frame Body), pathTf g q (c ++ [f]) = qutrMul (pathTf g q c)
        (tfRel f.kind f.body (q (configId g f.config).toNat)) := by
      intro c; simp [pathTf, List.foldl_append]
    have hb' : ∀ x ∈ b, x.body.Built := fun x hx => hb x (by simp [hx])
    rw [← List.append_assoc, e, e, ih hb']
    exact (C27_qutr _ _ _ (pathTf_valid ha) (pathTf_valid hb')).1

theorem pathTf_update {g : Graph Body} {q : Nat → ℝ} {a : List (Frame Body)} {k : Nat} {u : ℝ}
    (h : ∀ f ∈ a, f.IsJoint → (configId g f.config).toNat ≠ k) :
    pathTf g (Function.update q k u) a = pathTf g q a := by
  unfold pathTf
  congr 1
  apply List.map_congr_left
  intro f hf
  by_cases hj : f.IsJoint
  · rw [Function.update_of_ne (h f hf hj)]
  · have : f.kind = Kind.fixed := by
      unfold Frame.IsJoint at hj
      exact not_not.1 hj
    rw [this]
    rfl

/-- The pose of frame `t` computed by `aa_rx_sg_tf` at configuration `q`. -/
noncomputable def tipPose (g : Graph Body) (t : String) (q : Nat → ℝ) : Option Qutr :=
  (sgTf g (frameCount g) q).bind (fun r => r.2[(frameId g t).toNat]?)

/-- Both Jacobians of a chain: the columns are `col` of the joints' absolute transforms. -/
theorem jac_main (os : List (Op Body)) (g g' : Graph Body) (hr : run create os = some g)
    (hf : Forest (contents os)) (he : contents os "" = none)
    (hi : index g = some (Status.ok, g'))
    (hbuilt : ∀ n f, contents os n = some f → f.body.Built)
    (t : String) (fr rest : List (Frame Body)) (ht : IsPath (contents os) t (fr ++ rest))
    (hu : (((fr ++ rest).filter (fun f => f.kind ≠ Kind.fixed)).map (·.config)).Nodup)
    (sub : Sub) (hch : IsChain g' t rest sub) (q : Nat → ℝ) (R A : List Qutr)
    (hA : sgTf g' (frameCount g') q = some (R, A)) :
    (rest ≠ [] → A[(frameId g' t).toNat]? = some (pathTf g' q (fr ++ rest)) ∧
      sub.frames (sub.frameCount - 1) = frameId g' t ∧ 0 ≤ frameId g' t ∧
      (∀ q', tipPose g' t q' = some (pathTf g' q' (fr ++ rest)))) ∧
    ∃ T : Frame Body → Qutr,
      (∀ col, jacLoop g' col A sub.frames sub.frameCount 0 sub.configCount =
        some ((joints rest).map (fun f => col f.kind f.body.axis (T f)))) ∧
      ∀ j f, (joints rest)[j]? = some f →
        ∃ C D : Qutr, C.Valid ∧ f.body.Built ∧ f.kind ≠ Kind.fixed ∧
          T f = qutrMul C (tfRel f.kind f.body (q (sub.configs j).toNat)) ∧
          ∀ u, pathTf g' (Function.update q (sub.configs j).toNat u) (fr ++ rest) =
            qutrMul (qutrMul C (tfRel f.kind f.body u)) D := by
  obtain ⟨s, hs, hc⟩ := indexed_of os g g' hr hf he hi
  have hpos : ∀ k f, contents os k = some f → 0 ≤ frameId g' k ∧ frameId g' k < frameCount g' :=
    fun k f h => ⟨((C49_order_partial os g g' hr hf he hi).1 k f h).1,
      ((C49_order_partial os g g' hr hf he hi).1 k f h).2.1⟩
  -- the absolute transform of a frame on a path
  have habs : ∀ q' R' A', sgTf g' (frameCount g') q' = some (R', A') → ∀ k f fs,
      contents os k = some f → IsPath (contents os) k fs →
      A'[(frameId g' k).toNat]? = some (pathTf g' q' fs) := by
    intro q' R' A' hA' k f fs hk hp
    obtain ⟨R1, A1, h1, -, -, h4⟩ := C50_tf_partial os g g' hr hf he hi (frameCount g') q'
    rw [hA'] at h1
    simp only [Option.some.injEq, Prod.mk.injEq] at h1
    obtain ⟨rfl, rfl⟩ := h1
    obtain ⟨-, fs', -, h5, h6⟩ := h4 k f hk (hpos k f hk).2
    rw [h6, h5 fs hp]
  have ht' : IsPath (find g'.map) t (fr ++ rest) := by rw [hc]; exact ht
  have hmem : ∀ f ∈ fr ++ rest, f ∈ g'.map := ht'.mem
  have hcont : ∀ f ∈ fr ++ rest, contents os f.name = some f := by
    intro f hfm
    rw [← hc]
    exact find_eq hs.nodup (hmem f hfm)
  have hB : ∀ f ∈ fr ++ rest, f.body.Built := fun f hfm => hbuilt _ f (hcont f hfm)
  have hpre : ∀ l1 f l2, rest = l1 ++ f :: l2 →
      IsPath (contents os) f.name (fr ++ l1 ++ [f]) := by
    intro l1 f l2 e
    have h1 : fr ++ rest = (fr ++ l1) ++ [f] ++ l2 := by rw [e]; simp
    rw [h1] at ht'
    rw [← hc]
    exact ht'.prefix
  obtain ⟨c1, c2, c3, c4, -⟩ := hch
  constructor
  · intro hne
    obtain ⟨l1, f, rfl⟩ := (List.eq_nil_or_concat' rest).resolve_left hne
    have hn : f.name = t := by
      have h1 := hpre l1 f [] (by simp)
      rw [← hc, List.append_assoc] at h1
      exact h1.name_eq (by simpa using ht')
    have hft : contents os t = some f := by rw [← hn]; exact hcont f (by simp)
    refine ⟨habs q R A hA t f _ hft ht, ?_, (hpos t f hft).1, fun q' => ?_⟩
    · have := c2 (l1.length) f (by simp)
      rw [c1]
      simpa [hn] using this
    · obtain ⟨R1, A1, h1, -⟩ := C50_tf_partial os g g' hr hf he hi (frameCount g') q'
      unfold tipPose
      rw [h1]
      exact habs q' R1 A1 h1 t f _ hft ht
  · have hex : ∀ f, ∃ E, f ∈ rest → A[(frameId g' f.name).toNat]? = some E := by
      intro f
      by_cases hfm : f ∈ rest
      · obtain ⟨l1, l2, e⟩ := List.append_of_mem hfm
        exact ⟨_, fun _ => habs q R A hA f.name f _ (hcont f (by simp [hfm])) (hpre l1 f l2 e)⟩
      · exact ⟨qutrident, fun h => absurd h hfm⟩
    choose T hT using hex
    refine ⟨T, fun col => ?_, fun j f hj => ?_⟩
    · rw [c1, c3]
      exact jacLoop_eq hs col A sub.frames T rest 0 _ (fun f hfm => hmem f (by simp [hfm]))
        (fun k f hk => by rw [Nat.zero_add]; exact c2 k f hk) hT (le_refl _)
    · have hjm := List.mem_filter.1 (List.mem_of_getElem? hj)
      have hkind : f.kind ≠ Kind.fixed := by simpa using hjm.2
      obtain ⟨l1, l2, e⟩ := List.append_of_mem hjm.1
      have hcfg : sub.configs j = configId g' f.config := c4 j f hj
      have e2 : fr ++ rest = (fr ++ l1) ++ ([f] ++ l2) := by rw [e]; simp
      have hgne : g.map ≠ [] := by
        intro h0
        have := (contents_name hr (hcont f (by simp [hjm.1]))).2
        rw [h0] at this
        simp at this
      obtain ⟨n, -, n2, -, -, n3, -⟩ := C49_configs_partial os g g' hr hf he (Or.inr hgne) hi
      have hother : ∀ x ∈ (fr ++ l1) ++ l2, x.IsJoint →
          (configId g' x.config).toNat ≠ (sub.configs j).toNat := by
        intro x hx hxj hxe
        have hxm : x ∈ fr ++ rest := by
          rw [e2]
          simp only [List.mem_append, List.mem_singleton] at hx ⊢
          tauto
        have u1 : UsesConfig (contents os) x.config := ⟨_, x, hcont x hxm, hxj, rfl⟩
        have u2 : UsesConfig (contents os) f.config :=
          ⟨_, f, hcont f (by simp [hjm.1]), hkind, rfl⟩
        have k1 := (n2 _ u1).1
        have k2 := (n2 _ u2).1
        rw [hcfg] at hxe
        have hce : x.config = f.config := n3 _ _ u1 (by omega)
        have hxk : x.kind ≠ Kind.fixed := hxj
        have hfl : List.filter (fun f => decide (f.kind ≠ Kind.fixed)) [f] = [f] := by
          simp [hkind]
        rw [e2, List.filter_append (fr ++ l1), List.filter_append [f], hfl, List.map_append,
          List.map_append] at hu
        rcases List.mem_append.1 hx with h1 | h1
        · have := (List.nodup_append.1 hu).2.2 x.config
            (List.mem_map.2 ⟨x, List.mem_filter.2 ⟨h1, by simpa using hxk⟩, rfl⟩) f.config
            (by simp)
          exact this hce
        · have h2 := (List.nodup_append.1 hu).2.1
          have := (List.nodup_append.1 h2).2.2 f.config (by simp) x.config
            (List.mem_map.2 ⟨x, List.mem_filter.2 ⟨h1, by simpa using hxk⟩, rfl⟩)
          exact this hce.symm
      have hB1 : ∀ x ∈ fr ++ l1, x.body.Built := fun x hx => hB x (by
        rw [e2]; simp only [List.mem_append, List.mem_singleton] at hx ⊢; tauto)
      have hB2 : ∀ x ∈ [f], x.body.Built := fun x hx => hB x (by
        rw [e2]; simp only [List.mem_append, List.mem_singleton] at hx ⊢; tauto)
      have hB3 : ∀ x ∈ l2, x.body.Built := fun x hx => hB x (by
        rw [e2]; simp only [List.mem_append, List.mem_singleton] at hx ⊢; tauto)
      have hB4 : ∀ x ∈ [f] ++ l2, x.body.Built := fun x hx => hB x (by
        rw [e2]; simp only [List.mem_append, List.mem_singleton] at hx ⊢; tauto)
      have hone : ∀ q', pathTf g' q' [f] =
          tfRel f.kind f.body (q' (configId g' f.config).toNat) := by
        intro q'
        simp only [pathTf, List.map_cons, List.map_nil, List.foldl_cons, List.foldl_nil]
        exact qutr_one_mul _
      refine ⟨pathTf g' q (fr ++ l1), pathTf g' q l2, pathTf_valid hB1, hB2 f (by simp), hkind,
        ?_, fun u => ?_⟩
      · have h1 := hT f hjm.1
        rw [habs q R A hA f.name f _ (hcont f (by simp [hjm.1])) (hpre l1 f l2 e),
          pathTf_append hB1 hB2, hone] at h1
        rw [hcfg]
        exact (Option.some.inj h1).symm
      · rw [e2, pathTf_append hB1 hB4, pathTf_append hB2 hB3, hone,
          pathTf_update (fun x hx => hother x (List.mem_append_left _ hx)),
          pathTf_update (fun x hx => hother x (List.mem_append_right _ hx)), ← hcfg,
          Function.update_self]
        exact (C27_qutr _ _ _ (pathTf_valid hB1) (tfRel_valid (hB2 f (by simp)) _ _)).1.symm

/-- C53 for `aa_rx_sg_chain_jacobian`, `aa_rx_sg_sub_jac_vel_fill2` and `aa_rx_sg_sub_jacobian`: the
Jacobian of a non-empty chain whose path has no shared configuration is defined, has one column per
configuration, and each column is the derivative (angular and linear velocity) of the pose of the
tip computed by `aa_rx_sg_tf` with respect to that configuration. -/
theorem C53_vel_partial (os : List (Op Body)) (g g' : Graph Body) (hr : run create os = some g)
    (hf : Forest (contents os)) (he : contents os "" = none)
    (hi : index g = some (Status.ok, g'))
    (hbuilt : ∀ n f, contents os n = some f → f.body.Built)
    (t : String) (fr rest : List (Frame Body)) (ht : IsPath (contents os) t (fr ++ rest))
    (hu : (((fr ++ rest).filter (fun f => f.kind ≠ Kind.fixed)).map (·.config)).Nodup)
    (hne : rest ≠ []) (sub : Sub) (hch : IsChain g' t rest sub) (q : Nat → ℝ) (R A : List Qutr)
    (hA : sgTf g' (frameCount g') q = some (R, A)) :
    ∃ cols, jacVel g' sub A = some cols ∧ cols.length = sub.configCount ∧
      ∀ j c, cols[j]? = some c → ∃ E : ℝ → Qutr,
        (∀ u, tipPose g' t (Function.update q (sub.configs j).toNat u) = some (E u)) ∧
        PoseDeriv E (q (sub.configs j).toNat) c.r c.p := by
  obtain ⟨h1, T, h2, h3⟩ := jac_main os g g' hr hf he hi hbuilt t fr rest ht hu sub hch q R A hA
  obtain ⟨a1, a2, a3, a4⟩ := h1 hne
  have hlen : sub.configCount = (joints rest).length := hch.2.2.1
  have hfc : sub.frameCount ≠ 0 := by
    rw [hch.1]
    exact fun h => hne (List.length_eq_zero_iff.1 h)
  refine ⟨(joints rest).map (fun f => velCol f.kind f.body.axis (T f) (pathTf g' q (fr ++ rest)).v),
    ?_, ?_, ?_⟩
  · unfold jacVel
    rw [if_neg hfc, a2]
    unfold parentCol
    rw [if_neg (by omega), a1]
    exact h2 _
  · rw [List.length_map, hlen]
  · intro j c hj
    rw [List.getElem?_map, Option.map_eq_some_iff] at hj
    obtain ⟨f, hj, rfl⟩ := hj
    obtain ⟨C, D, b1, b2, b3, b4, b5⟩ := h3 j f hj
    refine ⟨_, fun u => a4 _, ?_⟩
    have hq : pathTf g' q (fr ++ rest) =
        qutrMul (qutrMul C (tfRel f.kind f.body (q (sub.configs j).toNat))) D := by
      rw [← b5, Function.update_eq_self]
    simp only [b5, b4, hq]
    cases hk : f.kind with
    | fixed => exact absurd hk b3
    | revolute => exact revolute_deriv b1 b2 _
    | prismatic => exact prismatic_deriv b1 b2 _

theorem twist_vel (k : Kind) (a : V3) (E : Qutr) (pe : V3) :
    vadd (twistCol k a E).p (cross (twistCol k a E).r pe) = (velCol k a E pe).p := by
  cases k <;> apply V3.ext <;> simp [twistCol, velCol, vadd, cross] <;> ring

/-- C53 for `aa_rx_sg_sub_jac_twist_fill2`: the columns are the twists, so the linear velocity of
the tip is the translational part plus the angular velocity crossed with the tip's position. -/
theorem C53_twist_partial (os : List (Op Body)) (g g' : Graph Body) (hr : run create os = some g)
    (hf : Forest (contents os)) (he : contents os "" = none)
    (hi : index g = some (Status.ok, g'))
    (hbuilt : ∀ n f, contents os n = some f → f.body.Built)
    (t : String) (fr rest : List (Frame Body)) (ht : IsPath (contents os) t (fr ++ rest))
    (hu : (((fr ++ rest).filter (fun f => f.kind ≠ Kind.fixed)).map (·.config)).Nodup)
    (hne : rest ≠ []) (sub : Sub) (hch : IsChain g' t rest sub) (q : Nat → ℝ) (R A : List Qutr)
    (hA : sgTf g' (frameCount g') q = some (R, A)) :
    ∃ cols, jacTwist g' sub A = some cols ∧ cols.length = sub.configCount ∧
      ∀ j c, cols[j]? = some c → ∃ E : ℝ → Qutr,
        (∀ u, tipPose g' t (Function.update q (sub.configs j).toNat u) = some (E u)) ∧
        PoseDeriv E (q (sub.configs j).toNat) c.r
          (vadd c.p (cross c.r (E (q (sub.configs j).toNat)).v)) := by
  obtain ⟨h1, T, h2, h3⟩ := jac_main os g g' hr hf he hi hbuilt t fr rest ht hu sub hch q R A hA
  obtain ⟨a1, a2, a3, a4⟩ := h1 hne
  have hlen : sub.configCount = (joints rest).length := hch.2.2.1
  refine ⟨_, h2 _, ?_, ?_⟩
  · rw [List.length_map, hlen]
  · intro j c hj
    rw [List.getElem?_map, Option.map_eq_some_iff] at hj
    obtain ⟨f, hj, rfl⟩ := hj
    obtain ⟨C, D, b1, b2, b3, b4, b5⟩ := h3 j f hj
    refine ⟨_, fun u => a4 _, ?_⟩
    simp only [b5, b4]
    rw [twist_vel]
    cases hk : f.kind with
    | fixed => exact absurd hk b3
    | revolute => exact revolute_deriv b1 b2 _
    | prismatic => exact prismatic_deriv b1 b2 _

/-! ## Concrete cases -/

/-- The path of `b` in `fkOps`. -/
theorem fkOps_path : IsPath (contents fkOps) "b"
    ([] ++ [⟨"a", "", Kind.prismatic, "qa", slide⟩, ⟨"b", "a", Kind.revolute, "qb", turn⟩]) := by
  have h1 : IsPath (contents fkOps) "a" ([] ++ [⟨"a", "", Kind.prismatic, "qa", slide⟩]) :=
    IsPath.step (n := "a") (by decide) rfl IsPath.root
  exact IsPath.step (c := contents fkOps) (n := "b") (f := ⟨"b", "a", Kind.revolute, "qb", turn⟩)
    (by decide) rfl h1

theorem fkOps_built : ∀ n f, contents fkOps n = some f → f.body.Built := by
  intro n f h2
  have h1 : slide.Built := mkBody_built (by simp [Tf.Unit, qident]) (by simp [vnorm, vdot])
  have h3 : turn.Built := mkBody_built (by simp [Tf.Unit, qident]) (by simp [vnorm, vdot])
  simp only [contents, fkOps, List.foldl_cons, List.foldl_nil] at h2
  split_ifs at h2 <;> simp_all <;> subst h2 <;> assumption

/-- The hypotheses of the C53 theorems are met by the chain from the root to `b` at every
configuration. -/
example (q : Nat → ℝ) : ∃ sub R A cols, chainCreate fkGraph (-1) 1 9 (fun _ => 0) (fun _ => 0) = some sub ∧
    sgTf fkGraph (frameCount fkGraph) q = some (R, A) ∧ jacVel fkGraph sub A = some cols ∧
    cols.length = 2 := by
  obtain ⟨g, h1, h2, h3, h4⟩ := fkOps_ok
  obtain ⟨sub, s1, s2⟩ := C55_chain_partial _ _ _ h1 h2 h3 h4 "" "b" [] _ IsPath.root fkOps_path 9
    (by simp) (fun _ => 0) (fun _ => 0)
  obtain ⟨R, A, a1, -⟩ := C50_tf_partial _ _ _ h1 h2 h3 h4 (frameCount fkGraph) q
  obtain ⟨cols, c1, c2, -⟩ := C53_vel_partial _ _ _ h1 h2 h3 h4 fkOps_built "b" [] _ fkOps_path
    (by decide) (by simp) sub s2 q R A a1
  exact ⟨sub, R, A, cols, s1, a1, c1, by rw [c2, s2.2.2.1]; rfl⟩

/-- Two sliding frames in series that share a configuration. -/
noncomputable def shareOps : List (Op Body) :=
  [Op.add ⟨"a", "", Kind.prismatic, "q", slide⟩, Op.add ⟨"b", "a", Kind.prismatic, "q", slide⟩]

noncomputable def shareGraph : Graph Body :=
  { map := [⟨"a", "", Kind.prismatic, "q", slide⟩, ⟨"b", "a", Kind.prismatic, "q", slide⟩]
    frames := [some ⟨⟨"a", "", Kind.prismatic, "q", slide⟩, -1, some 0⟩,
      some ⟨⟨"b", "a", Kind.prismatic, "q", slide⟩, 0, some 0⟩]
    configMap := [("q", 0)]
    configRmap := ["q"]
    configSize := some 1
    dirty := false }

theorem shareGraph_index : (run create shareOps).bind index = some (Status.ok, shareGraph) := by rfl

/-- The chain of `shareGraph`. -/
def shareSub : Sub := ⟨2, fun i => i, 2, fun _ => 0, some [1]⟩

/-- C53 fails when joints share a configuration: both columns are the unit x, but the tip moves at
twice that speed. -/
theorem C53_violates_shared (x : ℝ) :
    (∃ sub, chainCreate shareGraph (-1) 1 9 (fun i => i) (fun _ => 0) = some sub ∧
      sub.frameCount = 2 ∧ sub.frames 0 = 0 ∧ sub.frames 1 = 1 ∧ sub.configCount = 2 ∧
      sub.configs 0 = 0 ∧ sub.configs 1 = 0) ∧
    (∃ R A, sgTf shareGraph 2 (fun _ => x) = some (R, A) ∧
      jacVel shareGraph shareSub A = some [⟨⟨0, 0, 0⟩, ⟨1, 0, 0⟩⟩, ⟨⟨0, 0, 0⟩, ⟨1, 0, 0⟩⟩]) ∧
    (∀ u, tipPose shareGraph "b" (fun _ => u) = some ⟨qident, ⟨2 * u, 0, 0⟩⟩) ∧
    PoseDeriv (fun u => ⟨qident, ⟨2 * u, 0, 0⟩⟩) x ⟨0, 0, 0⟩ ⟨2, 0, 0⟩ := by
  refine ⟨⟨_, rfl, rfl, rfl, rfl, rfl, rfl, rfl⟩, ⟨_, _, rfl, ?_⟩, fun u => ?_, ?_, ?_⟩
  · simp [jacVel, shareSub, parentCol, jacLoop, entry, shareGraph, velCol, slide, mkBody, tfRel,
      qutrMul, qutrTf, qmul, qident, qrot]
  · have : tipPose shareGraph "b" (fun _ => u) = some (qutrMul (tfRel Kind.prismatic slide u)
        (tfRel Kind.prismatic slide u)) := rfl
    rw [this]
    congr 1
    apply Qutr.ext
    · simp [slide, mkBody, tfRel, qutrMul, qmul, qident]
    · apply V3.ext <;> simp [slide, mkBody, tfRel, qutrMul, qutrTf, qmul, qident]
      ring
  · have : V3.pure ⟨0, 0, 0⟩ = 0 := by ext <;> simp
    rw [this, zero_mul, smul_zero]
    exact hasDerivAt_const x qident.den
  · have e : (fun u : ℝ => V3.pure ⟨2 * u, 0, 0⟩) = fun u : ℝ => u • V3.pure ⟨2, 0, 0⟩ := by
      funext u
      ext <;> simp
      ring
    show HasDerivAt (fun u : ℝ => V3.pure ⟨2 * u, 0, 0⟩) (V3.pure ⟨2, 0, 0⟩) x
    rw [e]
    exact HasDerivAt.congr_deriv ((hasDerivAt_id x).smul_const _) (one_smul _ _)

/-- The Jacobian of an empty chain reads before the array of frames. -/
theorem C53_violates_empty (g : Graph Body) (s : Sub) (A : List Qutr) (h : s.frameCount = 0) :
    jacVel g s A = none := by
  unfold jacVel
  rw [if_pos h]


end Verif.Sg
