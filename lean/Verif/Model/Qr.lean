import Verif.Model.Lls

/-!
# QR factorization and eigenvalues (src/la_impl.c:481-526, 571-601)

Memory is that of `Verif.Mat` over the reals; scratch memory is given by its addresses. LAPACK routines
are arbitrary functions on memory. Workspaces and workspace queries are not modelled. `none` stands for a
read outside the scratch array.
-/

namespace Verif.Qr

open Mat

/-- `dgeqrf(m, n, a, lda, tau)`: the memory after the call, and `info`. -/
abbrev Geqrf := (m n a lda tau : Nat) → Mem ℝ → Mem ℝ × Int

/-- `dorgqr(m, n, k, a, lda, tau)`. -/
abbrev Orgqr := (m n k a lda tau : Nat) → Mem ℝ → Mem ℝ

/-- `dlaset('L', m, n, 0, 0, a, lda)`: the diagonal and the elements below it. -/
def setL (m n a lda : Nat) (s : Mem ℝ) : Mem ℝ :=
  forN n (fun j s => forN m (fun i s => if j ≤ i then store s (a + (lda * j + i)) 0 else s) s) s

/-- `dlacpy('U', m, n, a, lda, b, ldb)`. -/
def cpyU (m n a lda b ldb : Nat) (s : Mem ℝ) : Mem ℝ :=
  forN n (fun j s => forN m (fun i s => if i ≤ j then store s (b + (ldb * j + i)) (s (a + (lda * j + i))) else s) s) s

/-- `dlacpy('L', m, n, a, lda, b, ldb)`. -/
def cpyL (m n a lda b ldb : Nat) (s : Mem ℝ) : Mem ℝ :=
  forN n (fun j s => forN m (fun i s => if j ≤ i then store s (b + (ldb * j + i)) (s (a + (lda * j + i))) else s) s) s

/-- src/la_impl.c:504-512: fill `R`. The last element read is that in row `min m n - 1` of column `n - 1`. -/
def fillR (m n Ap lda : Nat) (R : Option (Nat × Nat)) (s : Mem ℝ) : Option (Mem ℝ) :=
  match R with
  | none => some s
  | some (p, ld) =>
    if min m n = 0 ∨ lda * (n - 1) + min m n ≤ m * n then some (cpyU (min m n) n Ap lda p ld (setL m n p ld s))
    else none

/-- src/la_impl.c:514-522: fill `Q`. -/
def fillQ (og : Orgqr) (m n Ap lda tau : Nat) (Q : Option (Nat × Nat)) (s : Mem ℝ) : Option (Mem ℝ) :=
  match Q with
  | none => some s
  | some (p, ld) =>
    if min m n = 0 ∨ lda * (min m n - 1) + m ≤ m * n then some (og m m (min m n) p ld tau (cpyL m n Ap lda p ld s))
    else none

/-- src/la_impl.c:481-526 `aa_la_d_qr`; `none` for `Q` or `R` is a null pointer. -/
def qr (gf : Geqrf) (og : Orgqr) (m n A lda : Nat) (Q R : Option (Nat × Nat)) (tau Ap : Nat) (s : Mem ℝ) :
    Option (Mem ℝ × Int) :=
  let r := gf m n Ap m tau (Lls.dup m n A lda Ap s)
  match fillR m n Ap lda R r.1 with
  | none => none
  | some s1 =>
    match fillQ og m n Ap lda tau Q s1 with
    | none => none
    | some s2 => some (s2, r.2)

/-- `dgeev` with its arrays: eigenvalues, left and right eigenvectors. -/
abbrev Geev := (n a lda wr wi : Nat) → (vl vr : Option (Nat × Nat)) → Mem ℝ → Mem ℝ × Int

/-- src/la_impl.c:571-601 `aa_la_d_eev`: the scratch array has `n * n` elements. -/
def eev (g : Geev) (n A lda wr wi : Nat) (vl vr : Option (Nat × Nat)) (Ap : Nat) (s : Mem ℝ) : Option (Mem ℝ × Int) :=
  if n = 0 ∨ lda * (n - 1) + n ≤ n * n then some (g n Ap lda wr wi vl vr (Lls.dup n n A lda Ap s))
  else none

end Verif.Qr
