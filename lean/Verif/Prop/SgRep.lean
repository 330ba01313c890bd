import Verif.Prop.SgFk

/-!
# C52: the three representations of a frame's relative transform agree
-/

namespace Verif.Sg

open Verif.Tf

/-- A body as the constructors leave it, with a unit quaternion and a unit axis. -/
def Body.Built (b : Body) : Prop :=
  b.R = quat2rotmat b.E.q ∧ b.S = qutr2duqu b.E ∧ Unit b.E.q ∧ vnorm b.axis = 1

theorem mkBody_built {q : Quat} {v : V3} {offset : ℝ} {axis : V3} (hq : Unit q)
    (ha : vnorm axis = 1) : (mkBody q v offset axis).Built := ⟨rfl, rfl, hq, ha⟩

theorem tfRel_valid {b : Body} (h : b.Built) (k : Kind) (x : ℝ) : (tfRel k b x).Valid := by
  cases k with
  | fixed => exact h.2.2.1
  | prismatic =>
    exact qutrMul_valid (A := b.E) h.2.2.1 (by simp [Qutr.Valid, Tf.Unit, qident])
  | revolute => exact (C21_qmulnorm _ _ h.2.2.1 (C30_axang2quat ⟨b.axis, _⟩ h.2.2.2).2).2

theorem mul9_quat2rotmat (a b : Quat) (ha : Unit a) (hb : Unit b) :
    mul9 (quat2rotmat a) (quat2rotmat b) = quat2rotmat (qmul a b) := by
  apply M3.ext_rot
  intro v
  rw [rot9_mul9, rot9_quat2rotmat, rot9_quat2rotmat, rot9_quat2rotmat, C23_compose a b v ha hb]

/-- Fixed and revolute frames: the matrix and the dual quaternion are those of the
quaternion-translation pair.  (The matrix of a fixed frame is right in its own 12 doubles;
see `C52_violates_fixed_tfmat`.) -/
theorem C52_fixed_revolute_partial (k : Kind) (hk : k ≠ Kind.prismatic) (b : Body) (h : b.Built)
    (x : ℝ) (out : Duqu) :
    (tfmatRel k b x).T = qutr2tfmat (tfRel k b x) ∧
    (duquRel k b x out).out = qutr2duqu (tfRel k b x) ∧ (duquRel k b x out).body = b := by
  cases k with
  | prismatic => exact absurd rfl hk
  | fixed =>
    refine ⟨?_, h.2.1, rfl⟩
    simp only [tfmatRel, tfRel, qutr2tfmat, h.1]
  | revolute =>
    refine ⟨?_, rfl, rfl⟩
    simp only [tfmatRel, tfRel, qutr2tfmat, h.1, axang2rotmat2]
    rw [mul9_quat2rotmat _ _ h.2.2.1 (C30_axang2quat ⟨b.axis, _⟩ h.2.2.2).2]

/-- Prismatic frames: the matrix agrees exactly when the displacement of the joint is left alone
by the rotation of the frame (as it is when the frame is not rotated against its parent). -/
theorem C52_prismatic_tfmat_partial (b : Body) (h : b.R = quat2rotmat b.E.q) (x : ℝ) :
    (tfmatRel Kind.prismatic b x).T = qutr2tfmat (tfRel Kind.prismatic b x) ↔
      qrot b.E.q (vscal (x + b.offset) b.axis) = vscal (x + b.offset) b.axis := by
  simp only [tfmatRel, tfRel, qutr2tfmat, qutrMul, h]
  rw [(C21_laws b.E.q qident qident).2.2.1, qutrTf_eq]
  constructor
  · intro e
    have e' := (Tfm.mk.injEq _ _ _ _ ▸ e).2
    simp only [vadd, V3.mk.injEq] at e'
    obtain ⟨e1, e2, e3⟩ := e'
    apply V3.ext <;> simp only [vscal] <;> linarith
  · intro e
    have e' : qrot b.E.q ⟨(x + b.offset) * b.axis.x, (x + b.offset) * b.axis.y,
      (x + b.offset) * b.axis.z⟩ = _ := e
    rw [e']
    simp only [vadd, vscal, add_comm]

theorem absLoop_map {α β : Type} (φ : α → β) (V : α → Prop) (rel : Entry Body → Option α)
    (rel' : Entry Body → Option β) (mul : α → α → α) (mul' : β → β → β) :
    ∀ (es : List (Option (Entry Body))) (R A : List α),
      (∀ e, some e ∈ es → rel' e = (rel e).map φ ∧ ∀ r, rel e = some r → V r) →
      (∀ a b, V a → V b → φ (mul a b) = mul' (φ a) (φ b) ∧ V (mul a b)) → (∀ a ∈ A, V a) →
      absLoop rel' mul' es (R.map φ) (A.map φ) =
        (absLoop rel mul es R A).map (fun p => (p.1.map φ, p.2.map φ)) := by
  intro es
  induction es with
  | nil => intro R A _ _ _; rfl
  | cons e es ih =>
    intro R A he hm hA
    cases e with
    | none => rfl
    | some e =>
      obtain ⟨h1, h2⟩ := he e (by simp)
      have he' : ∀ e, some e ∈ es → rel' e = (rel e).map φ ∧ ∀ r, rel e = some r → V r :=
        fun e h => he e (by simp [h])
      simp only [absLoop, h1]
      cases hr : rel e with
      | none => rfl
      | some r =>
        have hv := h2 r hr
        simp only [Option.map_some]
        by_cases hg : e.frame.inGlobal = true
        · rw [if_pos hg, if_pos hg, ← ih (R ++ [r]) (A ++ [r]) he' hm]
          · simp
          · intro a ha
            rcases List.mem_append.1 ha with ha | ha
            · exact hA a ha
            · rw [List.mem_singleton.1 ha]; exact hv
        · rw [if_neg hg, if_neg hg]
          have hc : parentCol (A.map φ) e.parentId = (parentCol A e.parentId).map φ := by
            unfold parentCol
            split_ifs <;> simp
          rw [hc]
          cases hp : parentCol A e.parentId with
          | none => rfl
          | some p =>
            have hVp : V p := by
              unfold parentCol at hp
              split_ifs at hp
              exact hA p (List.mem_of_getElem? hp)
            simp only [Option.map_some]
            rw [← ih (R ++ [r]) (A ++ [mul p r]) he' hm]
            · simp [(hm p r hVp hv).1]
            · intro a ha
              rcases List.mem_append.1 ha with ha | ha
              · exact hA a ha
              · rw [List.mem_singleton.1 ha]; exact (hm p r hVp hv).2

/-- Whole graphs without prismatic frames: the matrices of `aa_rx_sg_tfmat` and the dual
quaternions of `aa_rx_sg_duqu` are those of the pairs of `aa_rx_sg_tf`, relative and absolute,
whatever the output arrays held. -/
theorem C52_graph_partial (g : Graph Body) (n : Nat) (q : Nat → ℝ) (out : Duqu)
    (h : ∀ e, some e ∈ g.frames → e.frame.body.Built ∧ e.frame.kind ≠ Kind.prismatic) :
    sgTfmat g n q =
      (sgTf g n q).map (fun p => (p.1.map qutr2tfmat, p.2.map qutr2tfmat)) ∧
    sgDuqu g n q out =
      (sgTf g n q).map (fun p => (p.1.map qutr2duqu, p.2.map qutr2duqu)) := by
  have h' : ∀ e, some e ∈ g.frames.take n → e.frame.body.Built ∧ e.frame.kind ≠ Kind.prismatic :=
    fun e he => h e (List.mem_of_mem_take he)
  have hv : ∀ e, some e ∈ g.frames.take n → ∀ r, entryRel q e = some r → r.Valid := by
    intro e he r hr
    unfold entryRel at hr
    obtain ⟨x, -, rfl⟩ := Option.map_eq_some_iff.1 hr
    exact tfRel_valid (h' e he).1 _ _
  constructor
  · unfold sgTfmat sgTf
    refine absLoop_map qutr2tfmat Qutr.Valid _ _ _ _ (g.frames.take n) [] [] ?_ ?_ (by simp)
    · refine fun e he => ⟨?_, hv e he⟩
      obtain ⟨hb, hk⟩ := h' e he
      unfold entryRel
      rw [Option.map_map]
      congr 1
      funext x
      exact (C52_fixed_revolute_partial _ hk _ hb x out).1
    · exact fun a b ha hb => ⟨(C26_compose a b ha hb).2.1, qutrMul_valid ha hb⟩
  · unfold sgDuqu sgTf
    refine absLoop_map qutr2duqu Qutr.Valid _ _ _ _ (g.frames.take n) [] [] ?_ ?_ (by simp)
    · refine fun e he => ⟨?_, hv e he⟩
      obtain ⟨hb, hk⟩ := h' e he
      unfold entryRel
      rw [Option.map_map]
      congr 1
      funext x
      exact (C52_fixed_revolute_partial _ hk _ hb x out).2.1
    · exact fun a b ha hb => ⟨(C26_compose a b ha hb).1, qutrMul_valid ha hb⟩

/-- A prismatic frame turned by half a turn about z. -/
noncomputable def slideBack : Body := mkBody ⟨0, 0, 1, 0⟩ ⟨0, 0, 0⟩ 0 ⟨1, 0, 0⟩

theorem slideBack_built : slideBack.Built :=
  mkBody_built (by simp [Tf.Unit]) (by simp [vnorm, vdot])

/-- The matrix of a prismatic frame slides along the axis of the parent instead of the rotated
axis: here in the opposite direction. -/
theorem C52_violates_prismatic_tfmat :
    (tfmatRel Kind.prismatic slideBack 1).T.v = ⟨1, 0, 0⟩ ∧
    (tfRel Kind.prismatic slideBack 1).v = ⟨-1, 0, 0⟩ := by
  constructor <;> simp [tfmatRel, tfRel, slideBack, mkBody, qutrMul, qutrTf]

/-- The dual quaternion of a prismatic frame is not written to the output, for any frame; it
overwrites the member `S` of the frame. -/
theorem C52_violates_prismatic_duqu (b : Body) (x : ℝ) (out : Duqu) :
    (duquRel Kind.prismatic b x out).out = out ∧
    (duquRel Kind.prismatic slideBack 1 out).body.S ≠ slideBack.S := by
  refine ⟨rfl, fun h => ?_⟩
  have := congrArg (fun S => S.dual.y) h
  simp [duquRel, slideBack, mkBody, qutr2duqu, qmulVQ] at this

/-- The matrix of every fixed frame is written with six doubles too many. -/
theorem C52_violates_fixed_tfmat (b : Body) (x : ℝ) :
    (tfmatRel Kind.fixed b x).overrun = 6 ∧ (tfmatRel Kind.revolute b x).overrun = 0 ∧
    (tfmatRel Kind.prismatic b x).overrun = 0 := ⟨rfl, rfl, rfl⟩

/-- Frames meeting the hypotheses of the theorems. -/
example : turn.Built ∧ slideBack.Built ∧
    qrot slide.E.q (vscal (1 + slide.offset) slide.axis) = vscal (1 + slide.offset) slide.axis := by
  refine ⟨mkBody_built (by simp [Tf.Unit, qident]) (by simp [vnorm, vdot]), slideBack_built, ?_⟩
  simp [slide, mkBody, qrot, qident]

end Verif.Sg
