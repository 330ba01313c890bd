import Verif.Model.Mat
import Mathlib.Data.Real.Basic

/-!
# Finite differences (src/diffeq.c)

The scratch vectors `p`, `m` and `jtmp` (fresh region memory) are functions of the index. The callback is
a function of the vector it is given; the vectors it was called with are recorded, in order. `none` is the
error handler or a division by zero.
-/

namespace Verif.Diffeq
open Verif.Mat

noncomputable section

structure St (n : Nat) where
  mem : Mem ℝ
  p : Nat → ℝ
  m : Nat → ℝ
  calls : List (Fin n → ℝ)

/-- src/diffeq.c:42-68 `aa_de_grad_fd`. -/
def gradFd (x : DVec) (f : (Fin x.len → ℝ) → ℝ) (eps : ℝ) (y : DVec) (mem : Mem ℝ) : Option (St x.len) :=
  if x.len ≠ y.len then none
  else if 2 * eps = 0 then none
  else
    let dup : Nat → ℝ := fun k => mem (x.ref k)
    some (forN x.len (fun k s =>
      let orig := s.p k
      let p := Function.update s.p k (s.p k + eps)
      let m := Function.update s.m k (s.m k - eps)
      let pv : Fin x.len → ℝ := fun i => p i
      let mv : Fin x.len → ℝ := fun i => m i
      { mem := store s.mem (y.ref k) ((f pv - f mv) / (2 * eps))
        p := Function.update p k orig
        m := Function.update m k orig
        calls := s.calls ++ [pv, mv] }) ⟨mem, dup, dup, []⟩)

/-- src/diffeq.c:71-104 `aa_de_jac_fd`. The callback writes `J.rows` values through the given view:
`jtmp` or the column of `J`. -/
def jacFd (x : DVec) (J : DMat) (f : (Fin J.cols → ℝ) → Nat → ℝ) (eps : ℝ) (mem : Mem ℝ) :
    Option (St J.cols) :=
  if J.cols ≠ x.len then none
  else if 2 * eps = 0 then none
  else
    let dup : Nat → ℝ := fun k => mem (x.ref k)
    some (forN J.cols (fun k s =>
      let orig := s.p k
      let p := Function.update s.p k (s.p k + eps)
      let m := Function.update s.m k (s.m k - eps)
      let pv : Fin J.cols → ℝ := fun i => p i
      let mv : Fin J.cols → ℝ := fun i => m i
      let jtmp := f mv
      let jcol := J.data + k * J.ld
      let mem := forN J.rows (fun i mem => store mem (jcol + i) (f pv i)) s.mem
      let mem := forN J.rows (fun i mem => store mem (jcol + i) (-1 * jtmp i + mem (jcol + i))) mem
      let mem := dscal J.rows (1 / (2 * eps)) jcol 1 mem
      { mem := mem
        p := Function.update p k orig
        m := Function.update m k orig
        calls := s.calls ++ [mv, pv] }) ⟨mem, dup, dup, []⟩)

end

end Verif.Diffeq
