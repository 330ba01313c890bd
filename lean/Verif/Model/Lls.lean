import Verif.Model.La

/-!
# Least squares and hyperplane fitting (src/la_impl.c:437-478, 735-774; src/la.c:405-409, 520-522)

Memory is that of `Verif.Mat` over the reals; scratch memory is given by its addresses. `dgelsd` is an
arbitrary function on memory with a status; its contract is a hypothesis of the theorems. Workspace
queries, workspaces and the singular values are not modelled. `none` stands for a division by zero (the
result is then not a number).
-/

namespace Verif.Lls

open Mat

/-- `dgelsd(m, n, nrhs, a, lda, b, ldb)`: the memory after the call, and `info`. -/
abbrev Gelsd := (m n p a lda b ldb : Nat) → Mem ℝ → Mem ℝ × Int

/-- src/la_impl.c:437-445 `aa_la_d_dup` into the new array `Ap`. -/
def dup (m n A lda Ap : Nat) (s : Mem ℝ) : Mem ℝ := dlacpy m n A lda Ap m s

/-- `AA_MEM_ZERO(p, n)`. -/
def memZero (p n : Nat) (s : Mem ℝ) : Mem ℝ := forN n (fun k s => store s (p + k) 0) s

/-- src/la_impl.c:456-462: the copies `Ap` and `bp`. -/
def copies (m n p A lda b ldb Ap bp : Nat) (s : Mem ℝ) : Mem ℝ :=
  dlacpy m p b ldb bp (max m n) (memZero bp (max m n * p) (dup m n A lda Ap s))

/-- src/la_impl.c:447-478 `aa_la_d_lls`. -/
def lls (g : Gelsd) (m n p A lda b ldb x ldx Ap bp : Nat) (s : Mem ℝ) : Mem ℝ × Int :=
  let r := g m n p Ap m bp (max m n) (copies m n p A lda b ldb Ap bp s)
  (dlacpy n p bp (max m n) x ldx r.1, r.2)

/-- src/la.c:405-409 `aa_la_lls`; the status is dropped. -/
def llsPacked (g : Gelsd) (m n p A b x Ap bp : Nat) (s : Mem ℝ) : Mem ℝ :=
  (lls g m n p A m b m x n Ap bp s).1

/-- `cblas_dnrm2` with increment one. -/
noncomputable def nrm2 (n a : Nat) (s : Mem ℝ) : ℝ := √(forN n (fun k r => r + s (a + k) * s (a + k)) 0)

/-- src/la_impl.c:755-761, the body of the loop for the point `i`. -/
noncomputable def normRow (m n A lda At b i : Nat) (s : Mem ℝ) : Mem ℝ :=
  let g := nrm2 m (A + i * lda) s
  forN m (fun q s => store s (At + (i + q * n)) (s (A + i * lda + q) / g)) (store s (b + i) (-1 / g))

/-- src/la_impl.c:749-762. -/
noncomputable def normRows (m n A lda At b : Nat) (s : Mem ℝ) : Mem ℝ :=
  forN n (fun i s => normRow m n A lda At b i s) s

/-- src/la_impl.c:767-771: normalize. -/
noncomputable def hessian (m xout x : Nat) (s : Mem ℝ) : Option (Mem ℝ) :=
  let d := nrm2 m xout s
  if d = 0 then none
  else some (store (forN m (fun i s => store s (x + i) (s (xout + i) / d)) s) (x + m) (1 / d))

/-- scratch arrays of `colfit` and of the call of `lls` in it. -/
structure Scratch where
  At : Nat
  b : Nat
  xout : Nat
  Ap : Nat
  bp : Nat

/-- src/la_impl.c:735-774 `aa_la_d_colfit`. -/
noncomputable def colfit (g : Gelsd) (w : Scratch) (m n A lda x : Nat) (s : Mem ℝ) : Option (Mem ℝ) :=
  if ∃ i < n, nrm2 m (A + i * lda) s = 0 then none
  else hessian m w.xout x (lls g n m 1 w.At n w.b n w.xout m w.Ap w.bp (normRows m n A lda w.At w.b s)).1

/-- src/la.c:520-522 `aa_la_plane_fit`. -/
noncomputable def planeFit (g : Gelsd) (w : Scratch) (m n points plane : Nat) (s : Mem ℝ) : Option (Mem ℝ) :=
  colfit g w m n points m plane s

end Verif.Lls
