import Verif.Model.TfVel
import Verif.Model.Mat

/-!
# Dual quaternions as arrays and matrices (src/tf/quat_duqu.c, src/tf.c)

Matrices are column-major in the memory of `Verif.Model.Mat`, with any leading dimension.
-/

namespace Verif.Tf

open Verif.Mat

noncomputable section

/-- element `k` of the array of a quaternion. -/
def Quat.el (q : Quat) (k : Nat) : ℝ := if k = 0 then q.x else if k = 1 then q.y else if k = 2 then q.z else q.w

/-- element of a 4x4 matrix. -/
def M4.el (M : M4) (i j : Nat) : ℝ :=
  (if j = 0 then M.c0 else if j = 1 then M.c1 else if j = 2 then M.c2 else M.c3).el i

/-- src/tf/quat_ord.c:196-246 `aa_tf_qmatrix_l`, `aa_tf_qmatrix_r`: the sixteen assignments. -/
def putM4 (p ld : Nat) (M : M4) (m : Mem ℝ) : Mem ℝ :=
  forN 4 (fun j m => forN 4 (fun i m => store m (p + (ld * j + i)) (M.el i j)) m) m

/-- `FOR_QUAT(i) AA_MEM_ZERO(...)`: four elements of each of four columns. -/
def zero44 (p ld : Nat) (m : Mem ℝ) : Mem ℝ :=
  forN 4 (fun j m => forN 4 (fun i m => store m (p + (ld * j + i)) 0) m) m

/-- `FOR_QUAT(i) AA_MEM_CPY(...)`. -/
def cpy44 (p s ld : Nat) (m : Mem ℝ) : Mem ℝ :=
  forN 4 (fun j m => forN 4 (fun i m => store m (p + (ld * j + i)) (m (s + (ld * j + i)))) m) m

/-- the common text of src/tf/quat_duqu.c:46-56 and 58-68, where `Q` is `aa_tf_qmatrix_l` or
`aa_tf_qmatrix_r`. -/
def duquMatrixOf (Q : Quat → M4) (S : Duqu) (M ld : Nat) (m : Mem ℝ) : Mem ℝ :=
  let m := putM4 M ld (Q S.real) m
  let m := putM4 (M + 4) ld (Q S.dual) m
  let m := zero44 (M + ld * 4) ld m
  cpy44 (M + ld * 4 + 4) M ld m

/-- src/tf/quat_duqu.c:46-56 `aa_tf_duqu_matrix_l`, 70-73 `aa_tf_duqu_mat_l`. -/
def duquMatrixL (S : Duqu) (M ld : Nat) (m : Mem ℝ) : Mem ℝ := duquMatrixOf qmatrixL S M ld m

/-- src/tf/quat_duqu.c:58-68 `aa_tf_duqu_matrix_r`, 75-78 `aa_tf_duqu_mat_r`. -/
def duquMatrixR (S : Duqu) (M ld : Nat) (m : Mem ℝ) : Mem ℝ := duquMatrixOf qmatrixR S M ld m

/-- src/tf.c:595-608 `aa_tf_cross_matrix_l`, 626-629 `aa_tf_cross_mat_l`. -/
def crossMatL (v : V3) (M ld : Nat) (m : Mem ℝ) : Mem ℝ :=
  let m := store (store (store m M 0) (M + 1) v.z) (M + 2) (-v.y)
  let m := store (store (store m (M + ld) (-v.z)) (M + ld + 1) 0) (M + ld + 2) v.x
  store (store (store m (M + ld * 2) v.y) (M + ld * 2 + 1) (-v.x)) (M + ld * 2 + 2) 0

/-- src/tf.c:610-623 `aa_tf_cross_matrix_r`, 631-634 `aa_tf_cross_mat_r`. -/
def crossMatR (v : V3) (M ld : Nat) (m : Mem ℝ) : Mem ℝ :=
  let m := store (store (store m M 0) (M + 1) (-v.z)) (M + 2) v.y
  let m := store (store (store m (M + ld) v.z) (M + ld + 1) 0) (M + ld + 2) (-v.x)
  store (store (store m (M + ld * 2) (-v.y)) (M + ld * 2 + 1) v.x) (M + ld * 2 + 2) 0

/-- src/tf/quat_duqu.c:98-104 `aa_tf_duqu_smul`. -/
def duquSmul (a : ℝ) (S : Duqu) : Duqu :=
  ⟨⟨S.real.x * a, S.real.y * a, S.real.z * a, S.real.w * a⟩, ⟨S.dual.x * a, S.dual.y * a, S.dual.z * a, S.dual.w * a⟩⟩

/-- src/tf/quat_duqu.c:106-124 `aa_tf_duqu_add`, `aa_tf_duqu_sub`. -/
def duquAdd (A B : Duqu) : Duqu := ⟨qadd A.real B.real, qadd A.dual B.dual⟩
def duquSub (A B : Duqu) : Duqu := ⟨qsub A.real B.real, qsub A.dual B.dual⟩

/-- src/tf/quat_duqu.c:171-177 `aa_tf_duqu_norm`: real and dual part; `none` on division by zero. -/
def duquNorm (S : Duqu) : Option (ℝ × ℝ) :=
  if qnorm S.real = 0 then none else some (qnorm S.real, qdot S.real S.dual / qnorm S.real)

/-- src/tf/quat_duqu.c:180-186 `aa_tf_duqu_vnorm`. The dot product is over four elements. -/
def duquVnorm (S : Duqu) : Option (ℝ × ℝ) :=
  if vnorm S.real.vec = 0 then none else some (vnorm S.real.vec, qdot S.real S.dual / vnorm S.real.vec)

/-- src/tf/quat_duqu.c:507-513 `aa_tf_duqu2pure`. -/
def duqu2pure (S : Duqu) : Dx := ⟨S.dual.vec, S.real.vec⟩

/-- src/tf/quat_duqu.c:515-524 `aa_tf_pure2duqu`. -/
def pure2duqu (v : Dx) : Duqu := ⟨mkq v.w 0, mkq v.v 0⟩

/-- src/tf/quat_duqu.c:405-411 `aa_tf_duqu_lnv`. -/
def duquLnv (S : Duqu) : Option Dx := (duquLn S).map duqu2pure

/-- the 8x6 matrix `VM` of src/tf/quat_duqu.c:441-455, in its own memory, leading dimension 8. -/
def velMat (v : V3) : Mem ℝ :=
  let m : Mem ℝ := fun _ => 0
  let m := crossMatL v (8 * 3 + 4) 8 m
  forN 3 (fun i m => store (store m (8 * (i + 3) + i) 1) (8 * i + (i + 4)) 1) m

/-- `aa_dmat_gemm` with `alpha = 1` and `beta = 0`: element of the product of matrices with `k` columns
and rows. -/
def gemm (k : Nat) (A B : Nat → Nat → ℝ) : Nat → Nat → ℝ := fun i j => ∑ l ∈ Finset.range k, A i l * B l j

/-- src/tf/quat_duqu.c:430-504 `aa_tf_duqu_jac_vel2diff`; `g` is what the region memory of `SR` holds
before. The sizes are those of the header: `Jvel` has six rows and `Js` eight. -/
def duquJacVel2diff (g : Mem ℝ) (S : Duqu) (Jvel : Nat → Nat → ℝ) : Nat → Nat → ℝ :=
  let SR := duquMatrixR (duquSmul 0.5 S) 0 8 g
  let VM := velMat (duquTrans S)
  gemm 6 (gemm 8 (fun i j => SR (8 * j + i)) (fun i j => VM (8 * j + i))) Jvel

end

end Verif.Tf
