import Verif.Model.Lls

/-!
# Singular value decomposition (src/la_impl.c:529-568, src/la.c:345-347)

Memory is that of `Verif.Mat` over the reals; scratch memory is given by its addresses. LAPACK routines
are arbitrary functions on memory. Workspaces and workspace queries are not modelled. `none` stands for a
read outside the scratch array.
-/

namespace Verif.Svd

open Mat

/-- `dgesdd('A', m, n, a, lda, s, u, ldu, vt, ldvt)`: the memory after the call, and `info`. -/
abbrev Gesdd := (m n a lda sv u ldu vt ldvt : Nat) → Mem ℝ → Mem ℝ × Int

/-- `dgesvd(jobu, jobvt, m, n, a, lda, s, u, ldu, vt, ldvt)`: `none` for the job "N", the address and the
leading dimension for the job "A". -/
abbrev Gesvd := (m n a lda sv : Nat) → (u vt : Option (Nat × Nat)) → Mem ℝ → Mem ℝ × Int

/-- src/la_impl.c:553-554 the job of a factor, with the leading dimension passed in line 559 or 560. -/
def job (ld' : Nat) : Option (Nat × Nat) → Option (Nat × Nat)
  | none => none
  | some (p, ld) => if ld > 0 then some (p, ld') else none

/-- src/la_impl.c:529-568 `aa_la_d_svd`; `none` for `U` or `Vt` is a null pointer. The scratch array has
`m * n` elements. -/
def svd (gd : Gesdd) (gv : Gesvd) (m n A lda : Nat) (U : Option (Nat × Nat)) (S : Nat) (Vt : Option (Nat × Nat))
    (Ap : Nat) (s : Mem ℝ) : Option (Mem ℝ × Int) :=
  match U, Vt with
  | some (u, ldu), some (vt, ldvt) =>
    if m = 0 ∨ n = 0 ∨ lda * (n - 1) + m ≤ m * n then
      some (gd m n Ap lda S u ldu vt ldvt (Lls.dup m n A lda Ap s))
    else none
  | U, Vt => some (gv m n Ap m S (job m U) (job n Vt) (Lls.dup m n A lda Ap s))

/-- src/la.c:345-347 `aa_la_svd`. -/
def svdPacked (gd : Gesdd) (gv : Gesvd) (m n A : Nat) (U : Option Nat) (S : Nat) (Vt : Option Nat)
    (Ap : Nat) (s : Mem ℝ) : Option (Mem ℝ × Int) :=
  svd gd gv m n A m (U.map fun u => (u, m)) S (Vt.map fun v => (v, n)) Ap s

end Verif.Svd
