import Verif.Model.La

/-!
# Continuous algebraic Riccati equation (src/are.c)

Memory is that of `Verif.Mat` over the reals. The scratch memory `vs` and `W` of
`aa_mem_region_local_alloc` is given by its addresses. The workspace queries of LAPACK (the first of
the two rounds of each loop, which only stores the size of the workspace) and the workspaces are not
modelled. `dgees` and `dgels` are arbitrary functions on memory; what LAPACK promises about them is a
hypothesis of the theorems. Casts of sizes to `int` are exact.
-/

namespace Verif.Care

open Mat La

/-- `dlascl` of type `"G"`: multiply by `cto / cfrom`. -/
noncomputable def lascl (cfrom cto : ℝ) (rows cols a lda : Nat) (s : Mem ℝ) : Mem ℝ :=
  dlascl rows cols (cto / cfrom) a lda s

/-- src/are.c:46-49 `aa_la_care_laub_select`. -/
def select (real : ℝ) : Prop := real < 0

/-- src/are.c:56-65: `A` and `-A^T`. `AA_MATREF(H,2*m,i,j)` is the address `H + (2*m*j + i)`. -/
noncomputable def hamDiag (m A H : Nat) (s : Mem ℝ) : Mem ℝ :=
  lascl (-1) 1 m m (H + (2 * m * m + m)) (2 * m)
    (transposeLd m m A m (H + (2 * m * m + m)) (2 * m) (dlacpy m m A m H (2 * m) s))

/-- src/are.c:68-79: `-B` or `-B B^T`. -/
noncomputable def hamB (m n B H : Nat) (s : Mem ℝ) : Mem ℝ :=
  if n = m then lascl (-1) 1 m m (H + (2 * m * m + 0)) (2 * m) (dlacpy m m B m (H + (2 * m * m + 0)) (2 * m) s)
  else dgemm false true m m n (-1) B m B m 0 (H + (2 * m * m + 0)) (2 * m) s

/-- src/are.c:82-93: `-C` or `-C^T C`. -/
noncomputable def hamC (m p C H : Nat) (s : Mem ℝ) : Mem ℝ :=
  if p = m then lascl (-1) 1 m m (H + (2 * m * 0 + m)) (2 * m) (dlacpy m m C m (H + (2 * m * 0 + m)) (2 * m) s)
  else dgemm true false m m p (-1) C p C p 0 (H + (2 * m * 0 + m)) (2 * m) s

/-- src/are.c:51-95 `aa_la_care_laub_hamiltonian`. -/
noncomputable def hamiltonian (m n p A B C H : Nat) (s : Mem ℝ) : Mem ℝ :=
  hamC m p C H (hamB m n B H (hamDiag m A H s))

/-- the routines of LAPACK called, with `"V"`, `"S"` and `"T"` and equal dimensions built in. -/
structure Lapack where
  /-- `dgees_(select, n, a, lda, wr, wi, vs, ldvs)`. -/
  gees : (ℝ → Prop) → (n a lda wr wi vs ldvs : Nat) → Mem ℝ → Mem ℝ
  /-- `dgels_("T", n, n, n, a, lda, b, ldb)`. -/
  gels : (n a lda b ldb : Nat) → Mem ℝ → Mem ℝ

/-- src/are.c:127-144: the Hamiltonian and its Schur form. `W` holds `H`, `wi`, `wr`. -/
noncomputable def schur (L : Lapack) (m n p A B C vs W : Nat) (s : Mem ℝ) : Mem ℝ :=
  L.gees select (2 * m) W (2 * m) (W + 2 * m * (2 * m) + 2 * m) (W + 2 * m * (2 * m)) vs (2 * m)
    (hamiltonian m n p A B C W s)

/-- src/are.c:97-176 `aa_la_care_laub`; the results are the memory and the value returned. -/
noncomputable def careLaub (L : Lapack) (m n p A B C X vs W : Nat) (s : Mem ℝ) : Mem ℝ × Int :=
  (L.gels m vs (2 * m) X m
    (transposeLd m m (vs + (2 * m * 0 + m)) (2 * m) X m (schur L m n p A B C vs W s)), 0)

end Verif.Care
