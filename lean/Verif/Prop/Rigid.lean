import Verif.Prop.Rotmat
import Mathlib.Algebra.DualNumber

/-!
# C26, C27: rigid transforms in three representations

Specifications: for matrices the affine map `p ↦ R p + v` with Mathlib's `Matrix.mulVec`; for
quaternion-translation pairs `p ↦ q p q* + v` in Mathlib's quaternions; for dual quaternions
Mathlib's `DualNumber ℍ[ℝ]`, a point being `1 + ε p`.
-/

namespace Verif.Tf

open scoped Quaternion Matrix
open Quaternion

/-- The dual quaternion an array denotes. -/
def Duqu.den (S : Duqu) : DualNumber ℍ[ℝ] := (S.real.den, S.dual.den)

@[simp] theorem Duqu.den_fst (S : Duqu) : S.den.fst = S.real.den := rfl
@[simp] theorem Duqu.den_snd (S : Duqu) : S.den.snd = S.dual.den := rfl

/-- A point as a dual quaternion: `1 + ε p`. -/
def V3.point (p : V3) : DualNumber ℍ[ℝ] := (1, p.pure)

@[simp] theorem V3.point_fst (p : V3) : p.point.fst = 1 := rfl
@[simp] theorem V3.point_snd (p : V3) : p.point.snd = p.pure := rfl

/-- Conjugation of a dual quaternion. -/
def dconj (x : DualNumber ℍ[ℝ]) : DualNumber ℍ[ℝ] := (star x.fst, star x.snd)

/-- Conjugation of the quaternions and of the dual unit. -/
def dconj' (x : DualNumber ℍ[ℝ]) : DualNumber ℍ[ℝ] := (star x.fst, -star x.snd)

@[simp] theorem dconj_fst (x : DualNumber ℍ[ℝ]) : (dconj x).fst = star x.fst := rfl
@[simp] theorem dconj_snd (x : DualNumber ℍ[ℝ]) : (dconj x).snd = star x.snd := rfl
@[simp] theorem dconj'_fst (x : DualNumber ℍ[ℝ]) : (dconj' x).fst = star x.fst := rfl
@[simp] theorem dconj'_snd (x : DualNumber ℍ[ℝ]) : (dconj' x).snd = -star x.snd := rfl

/-- A dual quaternion of a rigid motion: unit real part orthogonal to the dual part. -/
def Duqu.Valid (S : Duqu) : Prop := Unit S.real ∧ qdot S.real S.dual = 0

/-- The constraint is the usual `S S* = 1`. -/
theorem Duqu.valid_iff (S : Duqu) : S.Valid ↔ S.den * dconj S.den = 1 := by
  constructor
  · rintro ⟨hu, hd⟩
    simp only [qdot] at hd
    ext : 1
    · simpa using (den_unit_mul hu).1
    · simp only [TrivSqZeroExt.snd_mul, Duqu.den_fst, Duqu.den_snd, dconj_fst, dconj_snd,
        smul_eq_mul, op_smul_eq_mul, TrivSqZeroExt.snd_one]
      ext <;> simp <;> linarith
  · intro h
    have h1 := congrArg TrivSqZeroExt.fst h
    have h2 := congrArg TrivSqZeroExt.snd h
    simp only [TrivSqZeroExt.snd_mul, TrivSqZeroExt.fst_mul, Duqu.den_fst, Duqu.den_snd, dconj_fst,
        dconj_snd, smul_eq_mul, op_smul_eq_mul, TrivSqZeroExt.snd_one,
        TrivSqZeroExt.fst_one] at h1 h2
    have r1 := congrArg QuaternionAlgebra.re h1
    have r2 := congrArg QuaternionAlgebra.re h2
    simp at r1 r2
    refine ⟨?_, ?_⟩
    · rw [Unit]; linarith
    · rw [qdot]; linarith

/-- A transform matrix whose linear part is a rotation. -/
def Tfm.Valid (T : Tfm) : Prop := IsRot T.R

/-- A quaternion-translation pair with a unit quaternion. -/
def Qutr.Valid (E : Qutr) : Prop := Unit E.q

/-- What each representation does to a point according to the specification. -/
def Tfm.act (T : Tfm) (p : V3) : Fin 3 → ℝ := T.R.den *ᵥ p.den + T.v.den

/-! ## C26: actions -/

theorem vadd_pure (a b : V3) : (vadd a b).pure = a.pure + b.pure := by
  ext <;> simp [vadd]

/-- C26: each transform function acts as specified. -/
theorem C26_actions :
    (∀ T p, (tfmTf T p).den = T.act p) ∧
    (∀ E p, E.Valid → (qutrTf E p).pure = E.q.den * p.pure * star E.q.den + E.v.pure) ∧
    (∀ S p, S.Valid → (duquTf S p).point = S.den * p.point * dconj' S.den) ∧
    (∀ S, S.Valid → (duquTrans S).pure = (2 : ℝ) • (S.dual.den * star S.real.den)) := by
  refine ⟨?_, ?_, ?_, ?_⟩
  · intro T p
    rw [Tfm.act, ← (C24_matrix_ops T.R m3ident p).1]
    ext i; fin_cases i <;> simp [tfmTf, rot9, V3.den] <;> ring
  · intro E p h
    rw [← (C23_qrot E.q p h).1, ← vadd_pure]
    congr 1
    ext <;> simp [qutrTf, qrot, vadd] <;> ring
  · rintro S p ⟨hu, hd⟩
    simp only [qdot] at hd
    rw [Unit] at hu
    have hw : S.real.w ^ 2 = 1 - S.real.x ^ 2 - S.real.y ^ 2 - S.real.z ^ 2 := by linarith
    ext : 1
    · have := (den_unit_mul (q := S.real) hu).1
      simp [this]
    · simp only [TrivSqZeroExt.snd_mul, TrivSqZeroExt.fst_mul, Duqu.den_fst, Duqu.den_snd,
        dconj'_fst, dconj'_snd, smul_eq_mul, op_smul_eq_mul, V3.point_fst,
        V3.point_snd, mul_one]
      ext <;> simp [duquTf, qmulQV, qmulQVv, mkq, qmulcV, vdot, Quat.vec] <;> ring_nf
  · rintro S ⟨hu, hd⟩
    simp only [qdot] at hd
    ext <;> simp [duquTrans, qmulcV] <;> linarith


theorem qutrTf_eq (E : Qutr) (p : V3) : qutrTf E p = vadd (qrot E.q p) E.v := by
  ext <;> simp [qutrTf, qrot, vadd] <;> ring

theorem tfmTf_eq (T : Tfm) (p : V3) : tfmTf T p = vadd (rot9 T.R p) T.v := by
  ext <;> simp [tfmTf, rot9, vadd] <;> ring

/-- two transform matrices acting alike are equal. -/
theorem Tfm.ext_tf {A B : Tfm} (h : ∀ p, tfmTf A p = tfmTf B p) : A = B := by
  have hv : A.v = B.v := by
    have := h ⟨0, 0, 0⟩
    simp [tfmTf] at this
    ext <;> tauto
  have hR : A.R = B.R := by
    apply M3.ext_rot
    intro v
    have := h v
    rw [tfmTf_eq, tfmTf_eq, hv] at this
    simp only [vadd, V3.mk.injEq, add_left_inj] at this
    ext <;> tauto
  cases A; cases B; simp_all

/-- C26: the same point transformation in all three representations. -/
theorem C26_point :
    (∀ E p, tfmTf (qutr2tfmat E) p = qutrTf E p) ∧
    (∀ S p, S.Valid → duquTf S p = qutrTf (duqu2qutr S) p) ∧
    (∀ S p, S.Valid → duquTf S p = tfmTf (duqu2tfmat S) p) ∧
    (∀ E p, E.Valid → duquTf (qutr2duqu E) p = qutrTf E p) := by
  have h1 : ∀ E p, tfmTf (qutr2tfmat E) p = qutrTf E p := by
    intro E p
    rw [tfmTf_eq, qutrTf_eq, qutr2tfmat, rot9_quat2rotmat]
  have h2 : ∀ (r d : Quat) p, Unit r → duquTf ⟨r, d⟩ p = qutrTf (duqu2qutr ⟨r, d⟩) p := by
    intro r d p h
    have hw : r.w ^ 2 = 1 - r.x ^ 2 - r.y ^ 2 - r.z ^ 2 := by rw [Unit] at h; linarith
    ext
    · simp [duquTf, qmulQV, qmulQVv, mkq, qmulcV, vdot, Quat.vec, qutrTf, duqu2qutr, duquTrans]
      linear_combination p.x * hw
    · simp [duquTf, qmulQV, qmulQVv, mkq, qmulcV, vdot, Quat.vec, qutrTf, duqu2qutr, duquTrans]
      linear_combination p.y * hw
    · simp [duquTf, qmulQV, qmulQVv, mkq, qmulcV, vdot, Quat.vec, qutrTf, duqu2qutr, duquTrans]
      linear_combination p.z * hw
  refine ⟨h1, fun S p h => h2 _ _ p h.1, fun S p h => ?_, fun E p h => ?_⟩
  · rw [h2 _ _ p h.1, ← h1]; rfl
  · rw [qutr2duqu, h2 _ _ p h]
    have : duquTrans ⟨E.q, qmulVQ ⟨E.v.x / 2, E.v.y / 2, E.v.z / 2⟩ E.q⟩ = E.v := by
      have hw : E.q.w ^ 2 = 1 - E.q.x ^ 2 - E.q.y ^ 2 - E.q.z ^ 2 := by
        rw [Qutr.Valid, Unit] at h; linarith
      ext <;> simp [duquTrans, qmulcV, qmulVQ, vdot, Quat.vec]
      · linear_combination E.v.x * hw
      · linear_combination E.v.y * hw
      · linear_combination E.v.z * hw
    rw [duqu2qutr, this]

/-! ## C26: conversions -/

theorem half_pure (v : V3) : (⟨v.x / 2, v.y / 2, v.z / 2⟩ : V3).pure = (2⁻¹ : ℝ) • v.pure := by
  ext <;> simp <;> ring

theorem qutr2duqu_dual (E : Qutr) :
    (qutr2duqu E).dual.den = (2⁻¹ : ℝ) • (E.v.pure * E.q.den) := by
  rw [qutr2duqu]
  simp only
  rw [(C21_vector_products _ _).1, half_pure, smul_mul_assoc]

/-- C26: the conversions are inverse to each other and produce valid representations; the matrix to
quaternion direction is determined up to the sign of the quaternion. -/
theorem C26_conversions :
    (∀ E, E.Valid → (qutr2duqu E).Valid ∧ (qutr2tfmat E).Valid) ∧
    (∀ S, S.Valid → (duqu2qutr S).Valid ∧ (duqu2tfmat S).Valid) ∧
    (∀ T, T.Valid → (tfmat2qutr T).Valid ∧ (tfmat2duqu T).Valid) ∧
    (∀ E, E.Valid → duqu2qutr (qutr2duqu E) = E) ∧
    (∀ S, S.Valid → qutr2duqu (duqu2qutr S) = S) ∧
    (∀ E, E.Valid → duqu2tfmat (qutr2duqu E) = qutr2tfmat E) ∧
    (∀ T, T.Valid → qutr2tfmat (tfmat2qutr T) = T ∧ duqu2tfmat (tfmat2duqu T) = T) ∧
    (∀ E, E.Valid → (tfmat2qutr (qutr2tfmat E)).v = E.v ∧
      ((tfmat2qutr (qutr2tfmat E)).q = E.q ∨ (tfmat2qutr (qutr2tfmat E)).q.den = -E.q.den)) := by
  have v1 : ∀ E, E.Valid → (qutr2duqu E).Valid := by
    intro E h
    refine ⟨h, ?_⟩
    simp [qutr2duqu, qdot, qmulVQ, vdot, Quat.vec]; ring
  have rt : ∀ E, E.Valid → duqu2qutr (qutr2duqu E) = E := by
    intro E h
    have : (duqu2qutr (qutr2duqu E)).v = E.v := by
      apply V3.pure_inj
      rw [duqu2qutr]
      simp only
      rw [C26_actions.2.2.2 _ (v1 E h), qutr2duqu_dual]
      show (2 : ℝ) • ((2⁻¹ : ℝ) • (E.v.pure * E.q.den) * star E.q.den) = _
      rw [smul_mul_assoc, mul_assoc, (den_unit_mul h).1, mul_one, smul_smul]
      norm_num
    cases E
    simp only [duqu2qutr, qutr2duqu, Qutr.mk.injEq] at *
    exact ⟨trivial, this⟩
  refine ⟨fun E h => ⟨v1 E h, C24_isRot _ h⟩, fun S h => ⟨h.1, C24_isRot _ h.1⟩,
    fun T h => ⟨(C25_rotmat2quat _ h).1, v1 _ (C25_rotmat2quat _ h).1⟩, rt, ?_, ?_, ?_, ?_⟩
  · intro S h
    have hd : (qutr2duqu (duqu2qutr S)).dual = S.dual := by
      apply Quat.den_inj
      rw [qutr2duqu_dual]
      simp only [duqu2qutr]
      rw [C26_actions.2.2.2 S h, smul_mul_assoc, mul_assoc, (den_unit_mul h.1).2, mul_one,
        smul_smul]
      norm_num
    cases S
    simp only [duqu2qutr, qutr2duqu, Duqu.mk.injEq] at *
    exact ⟨trivial, hd⟩
  · intro E h
    have := rt E h
    show qutr2tfmat (duqu2qutr (qutr2duqu E)) = _
    rw [this]
  · intro T h
    have h1 : qutr2tfmat (tfmat2qutr T) = T := by
      cases T
      simp only [qutr2tfmat, tfmat2qutr, Tfm.mk.injEq, and_true]
      exact (C25_rotmat2quat _ h).2.1
    refine ⟨h1, ?_⟩
    have := rt (tfmat2qutr T) (C25_rotmat2quat _ h).1
    show qutr2tfmat (duqu2qutr (qutr2duqu (tfmat2qutr T))) = _
    rw [this, h1]
  · intro E h
    exact ⟨rfl, (C25_roundtrip E.q h).1⟩

/-! ## C26: operations commute with the conversions -/

theorem qutrMul_valid {A B : Qutr} (ha : A.Valid) (hb : B.Valid) : (qutrMul A B).Valid :=
  (C21_qmulnorm _ _ ha hb).2

theorem qutrConj_valid {A : Qutr} (ha : A.Valid) : (qutrConj A).Valid := by
  simpa [Qutr.Valid, Unit, qutrConj, qconj] using ha

theorem vneg_pure (v : V3) : (vneg v).pure = -v.pure := by ext <;> simp [vneg]

/-- C26: composition of the pairs is composition of the dual quaternions and of the matrices. -/
theorem C26_compose (A B : Qutr) (ha : A.Valid) (hb : B.Valid) :
    qutr2duqu (qutrMul A B) = duquMul (qutr2duqu A) (qutr2duqu B) ∧
    qutr2tfmat (qutrMul A B) = tfmMul (qutr2tfmat A) (qutr2tfmat B) ∧
    qutrMulnorm A B = qutrMul A B := by
  refine ⟨?_, ?_, ?_⟩
  · have hd : (qutr2duqu (qutrMul A B)).dual = (duquMul (qutr2duqu A) (qutr2duqu B)).dual := by
      apply Quat.den_inj
      rw [qutr2duqu_dual, duquMul]
      simp only
      rw [C21_qmul_a, C21_qmul, qutr2duqu_dual, qutr2duqu_dual]
      simp only [qutrMul, C21_qmul]
      rw [C26_actions.2.1 A B.v ha]
      show (2⁻¹ : ℝ) • ((A.q.den * B.v.pure * star A.q.den + A.v.pure) * (A.q.den * B.q.den)) =
        A.q.den * (2⁻¹ : ℝ) • (B.v.pure * B.q.den) + (2⁻¹ : ℝ) • (A.v.pure * A.q.den) * B.q.den
      rw [add_mul, smul_add, mul_smul_comm, smul_mul_assoc]
      congr 2
      · rw [mul_assoc, ← mul_assoc (star A.q.den), (den_unit_mul ha).2, one_mul, mul_assoc]
      · rw [mul_assoc]
    have hr : (qutr2duqu (qutrMul A B)).real = (duquMul (qutr2duqu A) (qutr2duqu B)).real := rfl
    exact Duqu.ext hr hd
  · have h1 : (qutr2tfmat (qutrMul A B)).R = (tfmMul (qutr2tfmat A) (qutr2tfmat B)).R := by
      apply M3.den_inj
      simp only [qutr2tfmat, qutrMul, tfmMul]
      rw [C24_hom _ _ ha hb, (C24_matrix_ops _ _ ⟨0, 0, 0⟩).2.1]
    have h2 : (qutr2tfmat (qutrMul A B)).v = (tfmMul (qutr2tfmat A) (qutr2tfmat B)).v := by
      simp only [tfmMul]
      rw [C26_point.1]; rfl
    exact Tfm.ext h1 h2
  · rw [qutrMulnorm, (C21_qmulnorm _ _ ha hb).1]; rfl

/-- C26: inversion of the pair is conjugation of the dual quaternion and inversion of the matrix. -/
theorem C26_inverse (A : Qutr) (ha : A.Valid) :
    qutr2duqu (qutrConj A) = duquConj (qutr2duqu A) ∧
    qutr2tfmat (qutrConj A) = tfmInv (qutr2tfmat A) := by
  have hc : Unit (qconj A.q) := qutrConj_valid ha
  constructor
  · have hd : (qutr2duqu (qutrConj A)).dual = (duquConj (qutr2duqu A)).dual := by
      apply Quat.den_inj
      rw [qutr2duqu_dual, duquConj]
      simp only
      rw [C21_qconj, qutr2duqu_dual]
      simp only [qutrConj]
      rw [vneg_pure, (C23_qrot _ _ hc).1, C21_qconj, star_star]
      have hs : star A.v.pure = -A.v.pure := by ext <;> simp
      have hm : star ((2⁻¹ : ℝ) • (A.v.pure * A.q.den)) =
          (2⁻¹ : ℝ) • (star A.q.den * -A.v.pure) := by
        rw [← hs, ← star_mul, Quaternion.star_smul]
      rw [hm, neg_mul, mul_assoc, (den_unit_mul ha).1]
      simp
    exact Duqu.ext rfl hd
  · have h1 : (qutr2tfmat (qutrConj A)).R = (tfmInv (qutr2tfmat A)).R := by
      apply M3.den_inj
      simp only [qutr2tfmat, qutrConj, tfmInv]
      rw [C24_conj, (C24_matrix_ops _ m3ident ⟨0, 0, 0⟩).2.2]
    have h2 : (qutr2tfmat (qutrConj A)).v = (tfmInv (qutr2tfmat A)).v := by
      have e : (qutr2tfmat (qutrConj A)).R = transp (quat2rotmat A.q) := h1
      simp only [tfmInv]
      rw [show (qutr2tfmat A).R = quat2rotmat A.q from rfl, ← e]
      show vneg (qrot (qconj A.q) A.v) = rot9 (quat2rotmat (qconj A.q)) (vneg A.v)
      rw [rot9_quat2rotmat]
      ext <;> simp [vneg, qrot, qconj] <;> ring
    exact Tfm.ext h1 h2

theorem duquMul_valid {A B : Duqu} (ha : A.Valid) (hb : B.Valid) : (duquMul A B).Valid := by
  have e1 := C26_conversions.2.2.2.2.1 A ha
  have e2 := C26_conversions.2.2.2.2.1 B hb
  have := (C26_compose (duqu2qutr A) (duqu2qutr B) ha.1 hb.1).1
  rw [e1, e2] at this
  rw [← this]
  exact (C26_conversions.1 _ (qutrMul_valid (A := duqu2qutr A) (B := duqu2qutr B) ha.1 hb.1)).1

/-- C26: the same, starting from dual quaternions. -/
theorem C26_duqu (A B : Duqu) (ha : A.Valid) (hb : B.Valid) :
    (duquMul A B).Valid ∧ (duquConj A).Valid ∧
    duqu2qutr (duquMul A B) = qutrMul (duqu2qutr A) (duqu2qutr B) ∧
    duqu2tfmat (duquMul A B) = tfmMul (duqu2tfmat A) (duqu2tfmat B) ∧
    duqu2qutr (duquConj A) = qutrConj (duqu2qutr A) ∧
    duqu2tfmat (duquConj A) = tfmInv (duqu2tfmat A) := by
  have e1 := C26_conversions.2.2.2.2.1 A ha
  have e2 := C26_conversions.2.2.2.2.1 B hb
  have m := C26_compose (duqu2qutr A) (duqu2qutr B) ha.1 hb.1
  have c := C26_inverse (duqu2qutr A) ha.1
  have m1 : duqu2qutr (duquMul A B) = qutrMul (duqu2qutr A) (duqu2qutr B) := by
    have := m.1
    rw [e1, e2] at this
    rw [← this, C26_conversions.2.2.2.1 _ (qutrMul_valid (A := duqu2qutr A) (B := duqu2qutr B) ha.1 hb.1)]
  have c1 : duqu2qutr (duquConj A) = qutrConj (duqu2qutr A) := by
    have := c.1
    rw [e1] at this
    rw [← this, C26_conversions.2.2.2.1 _ (qutrConj_valid (A := duqu2qutr A) ha.1)]
  refine ⟨duquMul_valid ha hb, ?_, m1, ?_, c1, ?_⟩
  · have := c.1
    rw [e1] at this
    rw [← this]
    exact (C26_conversions.1 _ (qutrConj_valid (A := duqu2qutr A) ha.1)).1
  · exact (congrArg qutr2tfmat m1).trans m.2.1
  · exact (congrArg qutr2tfmat c1).trans c.2

/-- C26: the dual quaternion product and conjugate are those of Mathlib's dual numbers over the
quaternions. -/
theorem C26_duqu_algebra (A B : Duqu) :
    (duquMul A B).den = A.den * B.den ∧ (duquConj A).den = dconj A.den ∧
    (duquident).den = 1 := by
  refine ⟨?_, ?_, ?_⟩
  · ext : 1
    · simp only [Duqu.den_fst, TrivSqZeroExt.fst_mul]; exact C21_qmul _ _
    · simp only [Duqu.den_fst, Duqu.den_snd, TrivSqZeroExt.snd_mul, smul_eq_mul, op_smul_eq_mul]
      rw [duquMul]
      simp only
      rw [C21_qmul_a, C21_qmul]
  · ext : 1
    · exact C21_qconj _
    · exact C21_qconj _
  · ext : 1 <;> ext <;> simp [duquident, qident]

/-- C26: normalising or sign-minimising a valid dual quaternion keeps its transform. -/
theorem C26_duqu_normal (S : Duqu) (h : S.Valid) :
    duquNormalize S = S ∧ duqu2tfmat (duquMinimize S) = duqu2tfmat S ∧
    0 ≤ (duquMinimize S).real.w := by
  have hn : qnorm S.real = 1 := by
    rw [C21_qnorm]; exact (Unit.iff_norm _).1 h.1
  refine ⟨?_, ?_, ?_⟩
  · simp [duquNormalize, hn]
  · unfold duquMinimize
    split_ifs with hw
    · apply Tfm.ext
      · ext <;> simp [duqu2tfmat, quat2rotmat, skewsymScalC, Quat.vec]
      · ext <;> simp [duqu2tfmat, duquTrans, qmulcV]
    · rfl
  · unfold duquMinimize
    split_ifs with hw
    · simp; linarith
    · linarith

/-- C26: normalising any dual quaternion with nonzero real part makes the real part unit and keeps
the dual part's ratio to it. -/
theorem C26_duqu_normalize (S : Duqu) (h : qnorm S.real ≠ 0) :
    Unit (duquNormalize S).real ∧ qscal (duquNormalize S).real (qnorm S.real) = S.real ∧
    qscal (duquNormalize S).dual (qnorm S.real) = S.dual := by
  have := C21_qnormalize S.real h
  refine ⟨this.1, this.2, ?_⟩
  ext <;> simp [duquNormalize, qscal] <;> field_simp

/-- C26: a chain of matrices applies the transforms from the last to the first. -/
theorem C26_chain (A B : Tfm) (rest : List Tfm) (p : V3) :
    tfmTf (tfmChain A B rest) p = (A :: B :: rest).foldr tfmTf p := by
  have hm : ∀ X Y p, tfmTf (tfmMul X Y) p = tfmTf X (tfmTf Y p) := by
    intro X Y p
    ext <;> simp [tfmTf, tfmMul, mul9] <;> ring
  have gen : ∀ (l : List Tfm) X p, tfmTf (l.foldl tfmMul X) p = tfmTf X (l.foldr tfmTf p) := by
    intro l
    induction l with
    | nil => intro X p; rfl
    | cons Y l ih => intro X p; rw [List.foldl_cons, ih, hm]; rfl
  rw [tfmChain, gen, hm]; rfl

/-! ## C27 -/

/-- C27: transform matrices form a group under composition. -/
theorem C27_tfm (A B C : Tfm) :
    tfmMul (tfmMul A B) C = tfmMul A (tfmMul B C) ∧
    tfmMul tfmident A = A ∧ tfmMul A tfmident = A ∧
    (A.Valid → tfmMul A (tfmInv A) = tfmident ∧ tfmMul (tfmInv A) A = tfmident) ∧
    (A.Valid → B.Valid → (tfmMul A B).Valid ∧ (tfmInv A).Valid) := by
  refine ⟨?_, ?_, ?_, ?_, ?_⟩
  · apply Tfm.ext
    · ext <;> simp [tfmMul, mul9] <;> ring
    · ext <;> simp [tfmMul, mul9, tfmTf] <;> ring
  · apply Tfm.ext
    · ext <;> simp [tfmMul, mul9, tfmident, m3ident]
    · ext <;> simp [tfmMul, tfmTf, tfmident, m3ident]
  · apply Tfm.ext
    · ext <;> simp [tfmMul, mul9, tfmident, m3ident]
    · ext <;> simp [tfmMul, tfmTf, tfmident, m3ident]
  · intro h
    obtain ⟨R, v⟩ := A
    obtain ⟨c00, c11, c22, c01, c02, c12, r00, r11, r22, r01, r02, r12, _⟩ := h.eqs
    simp only at *
    constructor
    · apply Tfm.ext
      · ext <;> simp [tfmMul, mul9, tfmInv, transp, tfmident, m3ident] <;> linarith
      · ext <;> simp [tfmMul, tfmTf, tfmInv, transp, rot9, vneg, tfmident]
        · linear_combination (-v.x) * r00 + (-v.y) * r01 + (-v.z) * r02
        · linear_combination (-v.x) * r01 + (-v.y) * r11 + (-v.z) * r12
        · linear_combination (-v.x) * r02 + (-v.y) * r12 + (-v.z) * r22
    · apply Tfm.ext
      · ext <;> simp [tfmMul, mul9, tfmInv, transp, tfmident, m3ident] <;> linarith
      · ext <;> simp [tfmMul, tfmTf, tfmInv, transp, rot9, vneg, tfmident] <;> ring
  · intro ha hb
    constructor
    · rw [Tfm.Valid, IsRot, tfmMul]
      simp only
      rw [(C24_matrix_ops _ _ ⟨0, 0, 0⟩).2.1]
      exact mul_mem ha hb
    · rw [Tfm.Valid, IsRot, tfmInv]
      simp only
      rw [(C24_matrix_ops _ m3ident ⟨0, 0, 0⟩).2.2]
      obtain ⟨h1, h2⟩ := Matrix.mem_specialOrthogonalGroup_iff.1 ha
      refine Matrix.mem_specialOrthogonalGroup_iff.2
        ⟨(Matrix.mem_orthogonalGroup_iff _ _).2 ?_, by rw [Matrix.det_transpose, h2]⟩
      rw [Matrix.transpose_transpose]
      exact mul_eq_one_comm.1 ((Matrix.mem_orthogonalGroup_iff _ _).1 h1)

/-- C27: so do quaternion-translation pairs. -/
theorem C27_qutr (A B C : Qutr) (ha : A.Valid) (hb : B.Valid) :
    qutrMul (qutrMul A B) C = qutrMul A (qutrMul B C) ∧
    qutrMul qutrident A = A ∧ qutrMul A qutrident = A ∧
    qutrMul A (qutrConj A) = qutrident ∧ qutrMul (qutrConj A) A = qutrident ∧
    (qutrMul A B).Valid ∧ (qutrConj A).Valid := by
  refine ⟨?_, ?_, ?_, ?_, ?_, qutrMul_valid ha hb, qutrConj_valid ha⟩
  · apply Qutr.ext
    · exact (C21_laws _ _ _).1
    · simp only [qutrMul]
      rw [qutrTf_eq, qutrTf_eq, qutrTf_eq, qutrTf_eq]
      simp only
      rw [C23_compose _ _ _ ha hb]
      ext <;> simp [vadd, qrot] <;> ring
  · apply Qutr.ext
    · exact (C21_laws A.q A.q A.q).2.1
    · ext <;> simp [qutrMul, qutrTf, qutrident, qident]
  · apply Qutr.ext
    · exact (C21_laws A.q A.q A.q).2.2.1
    · ext <;> simp [qutrMul, qutrTf, qutrident, qident]
  · apply Qutr.ext
    · apply Quat.den_inj
      simp only [qutrMul, qutrConj]
      rw [C21_qmul, C21_qconj, (den_unit_mul ha).1]; rfl
    · simp only [qutrMul, qutrConj]
      rw [qutrTf_eq]
      have : qrot A.q (vneg (qrot (qconj A.q) A.v)) = vneg A.v := by
        have e : ∀ q v, qrot q (vneg v) = vneg (qrot q v) := by
          intro q v; ext <;> simp [qrot, vneg] <;> ring
        rw [e, (C23_inverse _ _ ha).2]
      rw [this]
      ext <;> simp [vadd, vneg, qutrident]
  · apply Qutr.ext
    · apply Quat.den_inj
      simp only [qutrMul, qutrConj]
      rw [C21_qmul, C21_qconj, (den_unit_mul ha).2]; rfl
    · simp only [qutrMul]
      rw [qutrTf_eq]
      ext <;> simp [vadd, vneg, qutrident, qutrConj]

theorem Duqu.den_inj {A B : Duqu} (h : A.den = B.den) : A = B :=
  Duqu.ext (Quat.den_inj (congrArg TrivSqZeroExt.fst h)) (Quat.den_inj (congrArg TrivSqZeroExt.snd h))

/-- C27: so do dual quaternions. -/
theorem C27_duqu (A B C : Duqu) :
    duquMul (duquMul A B) C = duquMul A (duquMul B C) ∧
    duquMul duquident A = A ∧ duquMul A duquident = A ∧
    (A.Valid → duquMul A (duquConj A) = duquident ∧ duquMul (duquConj A) A = duquident) ∧
    duquConj (duquMul A B) = duquMul (duquConj B) (duquConj A) := by
  have a1 := fun A B => (C26_duqu_algebra A B).1
  have a3 := (C26_duqu_algebra A B).2.2
  refine ⟨?_, ?_, ?_, ?_, ?_⟩
  · apply Duqu.den_inj; simp only [a1, mul_assoc]
  · apply Duqu.den_inj; rw [a1, a3, one_mul]
  · apply Duqu.den_inj; rw [a1, a3, mul_one]
  · intro h
    have hc := (C26_duqu A A h h).2.1
    constructor
    · apply Duqu.den_inj
      rw [a1, a3, (C26_duqu_algebra A B).2.1]
      exact (Duqu.valid_iff A).1 h
    · have := (Duqu.valid_iff _).1 hc
      rw [← (C26_duqu_algebra _ B).2.1] at this
      have e : duquConj (duquConj A) = A := by
        apply Duqu.ext <;> ext <;> simp [duquConj, qconj]
      rw [e, ← a1, ← a3] at this
      exact Duqu.den_inj this
  · apply Duqu.ext
    · exact (C21_laws A.real B.real A.real).2.2.2.2.1
    · ext <;> simp [duquConj, duquMul, qmulA, qmul, qconj] <;> ring

/-- C27: the relative transform of matrices, and the `cmul` / `mulc` of the other representations,
recover the second (first) argument. -/
theorem C27_relative :
    (∀ A B, A.Valid → tfmMul A (tfmRel A B) = B) ∧
    (∀ A B, A.Valid → B.Valid → qutrMul A (qutrCmul A B) = B ∧ qutrMul (qutrMulc A B) B = A) ∧
    (∀ A B, A.Valid → B.Valid → duquMul A (duquCmul A B) = B ∧ duquMul (duquMulc A B) B = A) := by
  refine ⟨?_, ?_, ?_⟩
  · intro A B h
    rw [tfmRel, ← (C27_tfm A (tfmInv A) B).1, ((C27_tfm A B B).2.2.2.1 h).1]
    exact (C27_tfm B B B).2.1
  · intro A B ha hb
    constructor
    · rw [qutrCmul, ← (C27_qutr A (qutrConj A) B ha (qutrConj_valid ha)).1,
        (C27_qutr A B B ha hb).2.2.2.1]
      exact (C27_qutr B B B hb hb).2.1
    · rw [qutrMulc, (C27_qutr A (qutrConj B) B ha (qutrConj_valid hb)).1,
        (C27_qutr B A A hb ha).2.2.2.2.1]
      exact (C27_qutr A A A ha ha).2.2.1
  · intro A B ha hb
    constructor
    · rw [duquCmul, ← (C27_duqu A (duquConj A) B).1, ((C27_duqu A B B).2.2.2.1 ha).1]
      exact (C27_duqu B B B).2.1
    · rw [duquMulc, (C27_duqu A (duquConj B) B).1, ((C27_duqu B A A).2.2.2.1 hb).2]
      exact (C27_duqu A A A).2.2.1

/-- The relative rotation functions satisfy the mirrored law: `rel(R1,R2) R2 = R1`. -/
theorem C27_relative_rotation_partial :
    (∀ A B, IsRot B → mul9 (rel9 A B) B = A) ∧
    (∀ a b, qnorm b ≠ 0 → qmul (qrel a b) b = a) := by
  constructor
  · intro A B h
    apply M3.den_inj
    rw [(C24_matrix_ops _ _ ⟨0, 0, 0⟩).2.1, rel9, (C24_matrix_ops _ _ ⟨0, 0, 0⟩).2.1,
      (C24_matrix_ops _ m3ident ⟨0, 0, 0⟩).2.2, mul_assoc]
    have : B.denᵀ * B.den = 1 := by
      have h1 := (Matrix.mem_orthogonalGroup_iff _ _).1 (Matrix.mem_specialOrthogonalGroup_iff.1 h).1
      exact mul_eq_one_comm.1 h1
    rw [this, mul_one]
  · intro a b h
    rw [qrel, (C21_laws _ _ _).1, ((C21_laws b b b).2.2.2.2.2.2.2 h).2]
    exact (C21_laws a a a).2.2.1

/-- C27 fails for uniformity: `aa_tf_9rel` / `aa_tf_qrel` compute `R1 R2⁻¹` while `aa_tf_93rel` /
`aa_tf_12rel` compute `T1⁻¹ T2`; the law `R1 rel(R1, R2) = R2` fails for the former, for rotations
about the z and x axes. -/
theorem C27_violates_relative_rotation :
    ∃ A B, IsRot A ∧ IsRot B ∧ mul9 A (rel9 A B) ≠ B ∧
      ∃ a b, Unit a ∧ Unit b ∧ qmul a (qrel a b) ≠ b ∧
        mul9 A (tfmRel ⟨A, ⟨0, 0, 0⟩⟩ ⟨B, ⟨0, 0, 0⟩⟩).R = B := by
  have u1 : Unit ⟨0, 0, 3 / 5, 4 / 5⟩ := by norm_num [Unit]
  have u2 : Unit ⟨3 / 5, 0, 0, 4 / 5⟩ := by norm_num [Unit]
  refine ⟨quat2rotmat ⟨0, 0, 3 / 5, 4 / 5⟩, quat2rotmat ⟨3 / 5, 0, 0, 4 / 5⟩, C24_isRot _ u1,
    C24_isRot _ u2, ?_, _, _, u1, u2, ?_, ?_⟩
  · intro h
    have := congrArg M3.m0 h
    norm_num [mul9, rel9, transp, quat2rotmat, skewsymScalC, Quat.vec] at this
  · intro h
    have := congrArg Quat.w h
    norm_num [qmul, qrel, qinv, qdot, qconj] at this
  · have := C27_relative.1 ⟨quat2rotmat ⟨0, 0, 3 / 5, 4 / 5⟩, ⟨0, 0, 0⟩⟩
      ⟨quat2rotmat ⟨3 / 5, 0, 0, 4 / 5⟩, ⟨0, 0, 0⟩⟩ (C24_isRot _ u1)
    exact congrArg Tfm.R this

/-- Instance of the hypotheses of C26 and C27: a half-turn-free screw motion. -/
example : (⟨⟨3 / 5, 0, 0, 4 / 5⟩, ⟨1, 2, 3⟩⟩ : Qutr).Valid ∧
    (qutr2duqu ⟨⟨3 / 5, 0, 0, 4 / 5⟩, ⟨1, 2, 3⟩⟩).Valid ∧
    qutrTf ⟨⟨3 / 5, 0, 0, 4 / 5⟩, ⟨1, 2, 3⟩⟩ ⟨0, 25, 0⟩ = ⟨1, 9, 27⟩ := by
  have h : (⟨⟨3 / 5, 0, 0, 4 / 5⟩, ⟨1, 2, 3⟩⟩ : Qutr).Valid := by norm_num [Qutr.Valid, Unit]
  refine ⟨h, (C26_conversions.1 _ h).1, ?_⟩
  ext <;> norm_num [qutrTf]

end Verif.Tf
